import Verif.Props.CkksCrypt
import Verif.Props.CkksConst

set_option autoImplicit false

/-!
# C59: programs over the CKKS evaluator

A client holds ciphertexts and hoisted forms and calls the evaluator on them in any order; every call returns a new object. `run` executes
such a program on the model, threading the evaluator's scratch memory and the key set with its hoisting pools through all calls. `exec`
computes, without any ciphertext, the real polynomial each ciphertext should stand for, and level, scale, parties and error bound.
-/

namespace MKHE.C59
open Finset Nega

variable {N : ℕ} [NeZero N] {C : Ctx N}

/-- one call of the evaluator; operands are numbers of earlier results -/
inductive Instr where
  /-- `AddNew` -/
  | add (i j : ℕ)
  /-- `SubNew` -/
  | sub (i j : ℕ)
  /-- `MulRelinNew`; with `i = j` the two arguments are the same pointer -/
  | mul (i j : ℕ)
  /-- `RotateNew` -/
  | rot (i : ℕ) (r : ℤ)
  /-- `ConjugateNew` -/
  | conj (i : ℕ)
  /-- `HoistedForm` -/
  | hoist (i : ℕ)
  /-- `MulRelinHoistedNew` with the hoisted forms number `h` and `k` -/
  | mulH (i j h k : ℕ)
  /-- `RotateHoistedNew` with the hoisted form number `h` -/
  | rotH (i : ℕ) (r : ℤ) (h : ℕ)
  /-- `MulPtxtNew` with the plaintext number `p` -/
  | mulPt (i p : ℕ)
  /-- `DropLevelNew` -/
  | drop (i k : ℕ)
  /-- `out := ct.CopyNew()` and `MultByConst(ct, k, out)` -/
  | const (i : ℕ) (k : Const)
  /-- `out := ct.CopyNew()` and `Rescale(out, minScale, out)`, whose error value the client ignores -/
  | rescale (i : ℕ) (minScale : ℚ)

/-- the objects a client holds and the state of the evaluator -/
structure Machine (C : Ctx N) where
  st : St C
  cts : List (CCt C)
  hs : List (HoistedCt C)

/-- what a client program gets from the outside: map iteration orders for each call, the word `MultByConst` derives from the NTT root for imaginary constants, the
number of rows `Permute` covers for a ciphertext of a level (C36), and the plaintexts with their scales -/
structure Env (C : Ctx N) where
  o : ℕ → ℕ → Sched String
  mredPsi : ℕ → ℕ → ℕ
  perm : ℕ → ℕ
  pts : ℕ → Poly C × ℚ

/-- reading an operand; a client that has no such object fails -/
def fetch {α : Type*} (l : List α) (i : ℕ) : Go α :=
  match l[i]? with
  | some a => .ok a
  | none => .error .indexOutOfRange

def Machine.push (M : Machine C) (ct : CCt C) (ev : Eval C) (rlk : RlkMap C) : Machine C := ⟨⟨ev, rlk⟩, M.cts ++ [ct], M.hs⟩

/-- one call (mkckks/evaluator.go; the called functions are modelled in Model/Ckks.lean) -/
noncomputable def step (S : Sys C) (w : Env C) (n : ℕ) (M : Machine C) : Instr → Go (Machine C)
  | .add i j => do
    let a ← fetch M.cts i
    let b ← fetch M.cts j
    let r ← ckksAddNew w.mredPsi (w.o n 0) M.st.ev a b
    .ok (M.push r.1 r.2 M.st.rlk)
  | .sub i j => do
    let a ← fetch M.cts i
    let b ← fetch M.cts j
    let r ← ckksSubNew w.mredPsi (w.o n 0) M.st.ev a b
    .ok (M.push r.1 r.2 M.st.rlk)
  | .mul i j => do
    let a ← fetch M.cts i
    let b ← fetch M.cts j
    let r ← ckksMulRelinNew S.pscale S.crs (w.o n 0) M.st.ev (decide (i = j)) a b M.st.rlk
    .ok (M.push r.1 r.2.1 r.2.2)
  | .rot i r => do
    let a ← fetch M.cts i
    let r ← ckksRotateNew S.crs (w.o n) M.st.ev a r S.rks
    .ok (M.push r.1 r.2 M.st.rlk)
  | .conj i => do
    let a ← fetch M.cts i
    let l ← a.ct.level
    let r ← ckksConjugateNew (w.perm l) S.crs (w.o n 0) M.st.ev a S.cks
    .ok (M.push r.1 r.2 M.st.rlk)
  | .hoist i => do
    let a ← fetch M.cts i
    let r ← hoistedForm (w.o n 0) M.st.ev.ksw a.ct
    .ok ⟨⟨{ M.st.ev with ksw := r.2 }, M.st.rlk⟩, M.cts, M.hs ++ [r.1]⟩
  | .mulH i j h k => do
    let a ← fetch M.cts i
    let b ← fetch M.cts j
    let ah ← fetch M.hs h
    let bh ← fetch M.hs k
    let r ← ckksMulRelinHoistedNew S.pscale S.crs (w.o n 0) M.st.ev a b (some ah) (some bh) M.st.rlk
    .ok (M.push r.1 r.2 M.st.rlk)
  | .rotH i r h => do
    let a ← fetch M.cts i
    let ah ← fetch M.hs h
    let r ← ckksRotateHoistedNew S.crs (w.o n) M.st.ev a r ah S.rks
    .ok (M.push r.1 r.2 M.st.rlk)
  | .mulPt i p => do
    let a ← fetch M.cts i
    let r ← mulPtxtNew S.pscale (w.o n 0) M.st.ev a (w.pts p).1 (w.pts p).2
    .ok (M.push r.1 r.2 M.st.rlk)
  | .drop i k => do
    let a ← fetch M.cts i
    let r ← dropLevelNew (w.o n 0 0) (w.o n 0 1) a k
    .ok (M.push r M.st.ev M.st.rlk)
  | .const i k => do
    let a ← fetch M.cts i
    let cp ← a.ct.copyNew (w.o n 0 0)
    let r ← multByConst w.mredPsi (w.o n 0 1) false a k ⟨cp, a.scale⟩
    .ok (M.push r M.st.ev M.st.rlk)
  | .rescale i ms => do
    let a ← fetch M.cts i
    let cp ← a.ct.copyNew (w.o n 0 0)
    let r ← MKHE.rescale (w.o n 0 1) ⟨cp, a.scale⟩ ms ⟨cp, a.scale⟩ true
    .ok (M.push r.2 M.st.ev M.st.rlk)

/-- the program, call number `n` first -/
noncomputable def run (S : Sys C) (w : Env C) : ℕ → Machine C → List Instr → Go (Machine C)
  | _, M, [] => .ok M
  | n, M, c :: p => do
    let M ← step S w n M c
    run S w (n + 1) M p

/-! ## the meaning of programs on real polynomials -/

/-- what the client knows: for each ciphertext the polynomial it stands for and its bounds, for each hoisted form the number of its ciphertext,
for each plaintext the polynomial it encodes with bounds of its slots and of the encoding error -/
structure Abs (N : ℕ) where
  cts : List (Nega N ℝ × Info)
  hs : List ℕ

/-- the plaintexts as real polynomials `(w, bound, error)` -/
abbrev Pts (N : ℕ) := ℕ → Nega N ℝ × ℝ × ℝ

noncomputable def Abs.val (A : Abs N) (i : ℕ) : Nega N ℝ := (A.cts[i]?.map Prod.fst).getD 0
noncomputable def Abs.info (A : Abs N) (i : ℕ) : Info := (A.cts[i]?.map Prod.snd).getD ⟨0, 0, ∅, 0, 0⟩

noncomputable def Abs.push (A : Abs N) (v : Nega N ℝ) (i : Info) : Abs N := ⟨A.cts ++ [(v, i)], A.hs⟩

/-- the value of one call: sum, difference, product, automorphism `X -> X^(5^r)`, automorphism `X -> X^(-1)`, product with a plaintext -/
noncomputable def exec (S : Sys C) (w : Env C) (pts : Pts N) (A : Abs N) : Instr → Abs N
  | .add i j => A.push (A.val i + A.val j) ((A.info i).add C.fm (A.info j))
  | .sub i j => A.push (A.val i - A.val j) ((A.info i).add C.fm (A.info j))
  | .mul i j => A.push (A.val i * A.val j) ((A.info i).mul S (A.info j))
  | .rot i r => A.push (galois (5 ^ C35.amount N r) (A.val i)) ((A.info i).rot S r)
  | .conj i => A.push (galois (2 * N - 1) (A.val i)) ((A.info i).conj S)
  | .hoist i => ⟨A.cts, A.hs ++ [i]⟩
  | .mulH i j _ _ => A.push (A.val i * A.val j) ((A.info i).mul S (A.info j))
  | .rotH i r _ => A.push (galois (5 ^ C35.amount N r) (A.val i)) ((A.info i).rot S r)
  | .mulPt i p => A.push ((pts p).1 * A.val i) ((A.info i).mulPt S (w.pts p).2 (pts p).2.1 (pts p).2.2)
  | .drop i k => A.push (A.val i) { A.info i with level := (A.info i).level - k }
  | .const i k => A.push (Nega.C (constVal k : ℝ) * A.val i) ((A.info i).const C k)
  | .rescale i ms => A.push (A.val i) ((A.info i).rescale S ms)

/-- what a call requires: operands that exist, scales whose ratio is below `2^52` for sums, levels left for products, a hoisted form of the
operand and a CRS of the amount for hoisted calls -/
def Instr.Ok (S : Sys C) (w : Env C) (A : Abs N) : Instr → Prop
  | .add i j | .sub i j => i < A.cts.length ∧ j < A.cts.length ∧ AddOk C.fm (A.info i) (A.info j)
  | .mul i j => i < A.cts.length ∧ j < A.cts.length ∧
      MulOk S (min (A.info i).level (A.info j).level) (C.fm.mul (A.info i).scale (A.info j).scale)
  | .rot i _ => i < A.cts.length
  | .conj i => i < A.cts.length ∧ w.perm (A.info i).level = (A.info i).level ∧ S.Conj
  | .hoist i => i < A.cts.length
  | .mulH i j h k => i < A.cts.length ∧ j < A.cts.length ∧ A.hs[h]? = some i ∧ A.hs[k]? = some j ∧
      MulOk S (min (A.info i).level (A.info j).level) (C.fm.mul (A.info i).scale (A.info j).scale)
  | .rotH i r h => i < A.cts.length ∧ A.hs[h]? = some i ∧ (C35.amount N r ≠ 0 → (S.crs.lookup (C35.amount N r : ℤ)).isSome)
  | .mulPt i p => i < A.cts.length ∧ MulOk S (A.info i).level (C.fm.mul (A.info i).scale (w.pts p).2)
  | .drop i k => i < A.cts.length ∧ k ≤ (A.info i).level
  | .const i k => i < A.cts.length ∧ C25.Real k (constVal k)
  | .rescale i ms => i < A.cts.length ∧ RescaleOk C (A.info i).level (A.info i).scale ms

noncomputable def execs (S : Sys C) (w : Env C) (pts : Pts N) : Abs N → List Instr → Abs N
  | A, [] => A
  | A, c :: p => execs S w pts (exec S w pts A c) p

def ProgOk (S : Sys C) (w : Env C) (pts : Pts N) : Abs N → List Instr → Prop
  | _, [] => True
  | A, c :: p => c.Ok S w A ∧ ProgOk S w pts (exec S w pts A c) p

/-- the plaintexts encode what `pts` says, at every level -/
structure PtsOk (w : Env C) (pts : Pts N) : Prop where
  pos : ∀ p, 0 < (w.pts p).2
  bdd : ∀ p, SBdd (pts p).1 (pts p).2.1
  enc : ∀ p, CkksPt (w.pts p).1 (C.nQ - 1) (w.pts p).2 (pts p).1 (pts p).2.2

/-- the machine holds encryptions of what `A` says -/
structure Rel (S : Sys C) (M : Machine C) (A : Abs N) : Prop where
  ready : M.st.Ready S
  cts : List.Forall₂ (fun ct x => Approx S ct x.1 x.2) M.cts A.cts
  hs : List.Forall₂ (fun m i => ∃ ct, M.cts[i]? = some ct ∧ i < A.cts.length ∧ IsHoisted (A.info i).level ct.ct m) M.hs A.hs

variable {S : Sys C} {w : Env C} {pts : Pts N}

theorem Rel.fetch {M : Machine C} {A : Abs N} (h : Rel S M A) {i : ℕ} (hi : i < A.cts.length) :
    ∃ ct, fetch M.cts i = .ok ct ∧ M.cts[i]? = some ct ∧ Approx S ct (A.val i) (A.info i) := by
  have hl := h.cts.length_eq
  have hi' : i < M.cts.length := by omega
  refine ⟨M.cts[i], ?_, List.getElem?_eq_getElem hi', ?_⟩
  · unfold C59.fetch; rw [List.getElem?_eq_getElem hi']
  · have := List.forall₂_iff_get.mp h.cts |>.2 i hi' hi
    unfold Abs.val Abs.info
    rw [List.getElem?_eq_getElem hi]
    exact this

theorem Rel.fetchH {M : Machine C} {A : Abs N} (h : Rel S M A) {k i : ℕ} (hk : A.hs[k]? = some i) {ct : CCt C} (hct : M.cts[i]? = some ct) :
    ∃ m, C59.fetch M.hs k = .ok m ∧ IsHoisted (A.info i).level ct.ct m := by
  have hl := h.hs.length_eq
  obtain ⟨hk', e⟩ := List.getElem?_eq_some_iff.mp hk
  have hk2 : k < M.hs.length := by omega
  refine ⟨M.hs[k], ?_, ?_⟩
  · unfold C59.fetch; rw [List.getElem?_eq_getElem hk2]
  · obtain ⟨ct', c1, c2, c3⟩ := List.forall₂_iff_get.mp h.hs |>.2 k hk2 hk'
    simp only [List.get_eq_getElem] at c1 c3
    rw [e] at c1 c3
    rw [hct] at c1
    injection c1 with c1
    subst c1
    exact c3

theorem Abs.info_push {A : Abs N} {v : Nega N ℝ} {x : Info} {i : ℕ} (hi : i < A.cts.length) : (A.push v x).info i = A.info i := by
  unfold Abs.info Abs.push
  rw [List.getElem?_append_left hi]

theorem Rel.push {M : Machine C} {A : Abs N} (h : Rel S M A) {out : CCt C} {ev : Eval C} {rlk : RlkMap C} (hr : St.Ready S ⟨ev, rlk⟩) {v : Nega N ℝ}
    {x : Info} (ha : Approx S out v x) : Rel S (M.push out ev rlk) (A.push v x) := by
  have hl := h.cts.length_eq
  refine ⟨hr, List.rel_append h.cts (.cons ha .nil), h.hs.imp fun m i hm => ?_⟩
  obtain ⟨ct, c1, c2, c3⟩ := hm
  refine ⟨ct, ?_, ?_, ?_⟩
  · show (M.cts ++ [out])[i]? = some ct
    rw [List.getElem?_append_left (by omega)]; exact c1
  · show i < (A.cts ++ [(v, x)]).length
    rw [List.length_append]; omega
  · rw [Abs.info_push c2]; exact c3

theorem atLevel_level {ct : Ct C} {l : ℕ} (h : ct.AtLevel l) : ct.level = .ok l := h.toFlag.level

/-- **C59, one call.** -/
theorem step_ok (V : C.Valid) (hS : S.Ok) (hp : PtsOk w pts) (n : ℕ) {M : Machine C} {A : Abs N} (h : Rel S M A) (c : Instr) (hc : c.Ok S w A) :
    ∃ M', step S w n M c = .ok M' ∧ Rel S M' (exec S w pts A c) := by
  cases c with
  | add i j =>
    obtain ⟨hi, hj, hr⟩ := hc
    obtain ⟨a, a1, a2, a3⟩ := h.fetch hi
    obtain ⟨b, b1, b2, b3⟩ := h.fetch hj
    obtain ⟨out, E', e1, e2, e3⟩ := add hS w.mredPsi (w.o n 0) h.ready a3 b3 hr
    refine ⟨_, ?_, h.push e2 e3⟩
    simp only [step]
    rw [a1, bind_ok, b1, bind_ok, e1, bind_ok]
  | sub i j =>
    obtain ⟨hi, hj, hr⟩ := hc
    obtain ⟨a, a1, a2, a3⟩ := h.fetch hi
    obtain ⟨b, b1, b2, b3⟩ := h.fetch hj
    obtain ⟨out, E', e1, e2, e3⟩ := sub hS w.mredPsi (w.o n 0) h.ready a3 b3 hr
    refine ⟨_, ?_, h.push e2 e3⟩
    simp only [step]
    rw [a1, bind_ok, b1, bind_ok, e1, bind_ok]
  | mul i j =>
    obtain ⟨hi, hj, hr⟩ := hc
    obtain ⟨a, a1, a2, a3⟩ := h.fetch hi
    obtain ⟨b, b1, b2, b3⟩ := h.fetch hj
    have hsame : decide (i = j) = true → b = a ∧ (A.info j).level = (A.info i).level := fun e => by
      have e := of_decide_eq_true e
      subst e
      rw [a2] at b2
      injection b2 with b2
      exact ⟨b2.symm, rfl⟩
    obtain ⟨out, E', rlk', e1, e2, e3⟩ := mul V hS (w.o n 0) h.ready hsame a3 b3 hr
    refine ⟨_, ?_, h.push e2 e3⟩
    simp only [step]
    rw [a1, bind_ok, b1, bind_ok, e1, bind_ok]
  | rot i r =>
    obtain ⟨a, a1, a2, a3⟩ := h.fetch hc
    obtain ⟨out, E', e1, e2, e3⟩ := rot V hS (w.o n) h.ready a3 r
    refine ⟨_, ?_, h.push e2 e3⟩
    simp only [step]
    rw [a1, bind_ok, e1, bind_ok]
  | conj i =>
    obtain ⟨hi, hr, hcj⟩ := hc
    obtain ⟨a, a1, a2, a3⟩ := h.fetch hi
    obtain ⟨out, E', e1, e2, e3⟩ := conj V hS hcj (w.o n 0) h.ready a3
    refine ⟨_, ?_, h.push e2 e3⟩
    simp only [step]
    rw [a1, bind_ok, atLevel_level a3.lvl, bind_ok, hr, e1, bind_ok]
  | hoist i =>
    obtain ⟨a, a1, a2, a3⟩ := h.fetch hc
    obtain ⟨m, S', e1, e2, e3⟩ := hoisted V (w.o n 0) h.ready a3
    refine ⟨⟨⟨{ M.st.ev with ksw := S' }, M.st.rlk⟩, M.cts, M.hs ++ [m]⟩, ?_, ⟨e2, h.cts, List.rel_append h.hs (.cons ⟨a, a2, hc, e3⟩ .nil)⟩⟩
    simp only [step]
    rw [a1, bind_ok, e1, bind_ok]
  | mulH i j k l =>
    obtain ⟨hi, hj, hk, hl, hr⟩ := hc
    obtain ⟨a, a1, a2, a3⟩ := h.fetch hi
    obtain ⟨b, b1, b2, b3⟩ := h.fetch hj
    obtain ⟨m0, m1, m2⟩ := h.fetchH hk a2
    obtain ⟨n0, n1, n2⟩ := h.fetchH hl b2
    obtain ⟨out, E', e1, e2, e3⟩ := mulHoisted V hS (w.o n 0) h.ready a3 b3 m2 n2 hr
    refine ⟨_, ?_, h.push e2 e3⟩
    simp only [step]
    rw [a1, bind_ok, b1, bind_ok, m1, bind_ok, n1, bind_ok, e1, bind_ok]
  | rotH i r k =>
    obtain ⟨hi, hk, hr⟩ := hc
    obtain ⟨a, a1, a2, a3⟩ := h.fetch hi
    obtain ⟨m0, m1, m2⟩ := h.fetchH hk a2
    obtain ⟨out, E', e1, e2, e3⟩ := rotHoisted V hS (w.o n) h.ready a3 r hr m2
    refine ⟨_, ?_, h.push e2 e3⟩
    simp only [step]
    rw [a1, bind_ok, m1, bind_ok, e1, bind_ok]
  | mulPt i p =>
    obtain ⟨hi, hr⟩ := hc
    obtain ⟨a, a1, a2, a3⟩ := h.fetch hi
    obtain ⟨out, E', e1, e2, e3⟩ := mulPt V hS (w.o n 0) h.ready a3 (hp.pos p) (hp.bdd p) ((hp.enc p).mono (by have := a3.lt; omega)) hr
    refine ⟨_, ?_, h.push e2 e3⟩
    simp only [step]
    rw [a1, bind_ok, e1, bind_ok]
  | drop i k =>
    obtain ⟨hi, hr⟩ := hc
    obtain ⟨a, a1, a2, a3⟩ := h.fetch hi
    obtain ⟨out, e1, e2⟩ := dropLevel (w.o n 0 0) (w.o n 0 1) a3 hr
    refine ⟨_, ?_, h.push h.ready e2⟩
    simp only [step]
    rw [a1, bind_ok, e1, bind_ok]
  | const i k =>
    obtain ⟨hi, hr⟩ := hc
    obtain ⟨a, a1, a2, a3⟩ := h.fetch hi
    obtain ⟨cp, out, e1, e2, e3⟩ := C59.const V hS w.mredPsi (w.o n 0 0) (w.o n 0 1) a3 hr
    refine ⟨_, ?_, h.push h.ready e3⟩
    simp only [step]
    rw [a1, bind_ok, e1, bind_ok, e2, bind_ok]
  | rescale i ms =>
    obtain ⟨hi, hr⟩ := hc
    obtain ⟨a, a1, a2, a3⟩ := h.fetch hi
    obtain ⟨cp, e, out, e1, e2, e3⟩ := rescaleCopy V hS (w.o n 0 0) (w.o n 0 1) a3 hr
    refine ⟨_, ?_, h.push h.ready e3⟩
    simp only [step]
    rw [a1, bind_ok, e1, bind_ok, e2, bind_ok]

/-- **C59.** Every program whose calls meet their requirements runs to the end, whatever the map iteration orders and the previous contents of
the scratch memory, and every ciphertext the client then holds, old or new, encrypts the real polynomial that the program computes, within the
computed error. -/
theorem program (V : C.Valid) (hS : S.Ok) (hp : PtsOk w pts) (p : List Instr) : ∀ (n : ℕ) {M : Machine C} {A : Abs N}, Rel S M A → ProgOk S w pts A p →
    ∃ M', run S w n M p = .ok M' ∧ Rel S M' (execs S w pts A p) := by
  induction p with
  | nil => exact fun n M A h _ => ⟨M, rfl, h⟩
  | cons c p ih =>
    intro n M A h hok
    obtain ⟨M1, s1, s2⟩ := step_ok V hS hp n h c hok.1
    obtain ⟨M2, r1, r2⟩ := ih (n + 1) s2 hok.2
    refine ⟨M2, ?_, r2⟩
    simp only [run]
    rw [s1, bind_ok, r1]

/-- **C59, end to end.** Any result of the program, decrypted by a decryptor with the keys of its parties, gives a plaintext whose slots divided
by its scale are within `B / scale` of the slots of the polynomial the program computes, if that polynomial fits the modulus. -/
theorem program_decrypt (V : C.Valid) (hS : S.Ok) (hp : PtsOk w pts) (p : List Instr) (n : ℕ) {M : Machine C} {A : Abs N} (h : Rel S M A)
    (hok : ProgOk S w pts A p) {i : ℕ} (hi : i < (execs S w pts A p).cts.length) {sks : KeySet (SKey C)}
    (hs : SKeys.Of sks ((execs S w pts A p).info i).ids S.s) (pool : Poly C) (hpool : ((execs S w pts A p).info i).level < pool.len)
    (hfit : 2 * (((execs S w pts A p).info i).scale * ((execs S w pts A p).info i).V + ((execs S w pts A p).info i).B) <
      modulus C ((execs S w pts A p).info i).level) (o : Sched String) :
    ∃ M' ct pt pool', run S w n M p = .ok M' ∧ M'.cts[i]? = some ct ∧
      ckksDecrypt o pool ct sks = .ok ((pt, ((execs S w pts A p).info i).scale), pool') ∧
      ∃ Φ : Nega N ℤ, (∀ k ≤ ((execs S w pts A p).info i).level, cf (pt.rows k) = red (C.q k) Φ) ∧
        (∀ Ψ : Nega N ℤ, (∀ k ≤ ((execs S w pts A p).info i).level, cf (pt.rows k) = red (C.q k) Ψ) →
          (∀ x, 2 * |Ψ x| ≤ modulus C ((execs S w pts A p).info i).level) → Ψ = Φ) ∧
        ∀ j : ℤ, ‖slot j (toReal Φ) / (((execs S w pts A p).info i).scale : ℂ) - slot j ((execs S w pts A p).val i)‖ ≤
          ((execs S w pts A p).info i).B / ((execs S w pts A p).info i).scale := by
  obtain ⟨M', r1, r2⟩ := program V hS hp p n h hok
  obtain ⟨ct, c1, c2, c3⟩ := r2.fetch hi
  obtain ⟨pt, pool', d1, d2, Φ, d3, d4, d5, d6, d7⟩ := decrypt V o c3 hs pool hpool hfit
  exact ⟨M', ct, pt, pool', r1, c2, d1, Φ, d3, d5, d7⟩

/-- the slots of what `exec` computes: sums, products and shifts of slots -/
theorem slots_meaning (V : C.Valid) (v0 v1 : Nega N ℝ) (j r : ℤ) (x : ℝ) :
    slot j (v0 + v1) = slot j v0 + slot j v1 ∧ slot j (v0 - v1) = slot j v0 - slot j v1 ∧ slot j (v0 * v1) = slot j v0 * slot j v1 ∧
      slot j (galois (5 ^ C35.amount N r) v0) = slot (j + r) v0 ∧ slot j (galois (2 * N - 1) v0) = (starRingEnd ℂ) (slot j v0) ∧
      slot j (Nega.C x * v0) = x * slot j v0 :=
  ⟨map_add _ _ _, map_sub _ _ _, map_mul _ _ _, slot_rotate V.hN V.log1 j r v0, slot_conj j v0, slot_smul j x v0⟩

end MKHE.C59
