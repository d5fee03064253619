import Verif.Props.HeapTrace
import Verif.Props.HeapCirc
import Verif.Props.BfvProg

set_option autoImplicit false
set_option linter.unusedSectionVars false

/-!
# C63, C76: BFV programs on the memory model

The programs of `Props/BfvProg.lean` with the client's ciphertexts as pointers, which may be equal or share polynomials; and histories in which calls panic or are
interrupted. As there, each call finds any contents in the pools of the relinearization key set.
-/

namespace MKHE
open Heap Nega Finset C69
variable {N : ℕ} [NeZero N] {B : BCtx N}

namespace C63

/-- the memory, the evaluator's scratch and the pointers the client holds -/
structure HBMachine (B : BCtx N) where
  h : Heap N
  S : BScratch B
  cts : List ℕ

/-- one call (mkbfv/evaluator.go; the called functions are modelled in Model/Heap.lean and Model/HeapEval.lean) -/
def hbstep (K : C58.Keyring B) (w : BEnv B) (n : ℕ) (M : HBMachine B) : BInstr → Go (HBMachine B)
  | .add i j => do
    let x ← C59.fetch M.cts i
    let y ← C59.fetch M.cts j
    let r ← Heap.bfvAddNew B.C (w.o n 0) M.h x y
    .ok ⟨r.2, M.S, M.cts ++ [r.1]⟩
  | .sub i j => do
    let x ← C59.fetch M.cts i
    let y ← C59.fetch M.cts j
    let r ← Heap.bfvSubNew B.C (w.o n 0) M.h x y
    .ok ⟨r.2, M.S, M.cts ++ [r.1]⟩
  | .mul i j => do
    let x ← C59.fetch M.cts i
    let y ← C59.fetch M.cts j
    let r ← Heap.bfvMulRelinNew K.crs (w.o n 0) M.S x y (w.rlk n) M.h
    .ok ⟨r.2, r.1.2, M.cts ++ [r.1.1]⟩
  | .rot i k => do
    let x ← C59.fetch M.cts i
    let r ← Heap.bfvRotateNew K.crs (w.o n) M.S.base x k K.rks M.h
    .ok ⟨r.2, { M.S with base := r.1.2 }, M.cts ++ [r.1.1]⟩
  | .conj i => do
    let x ← C59.fetch M.cts i
    let r ← Heap.bfvConjugateNew B.top K.crs (w.o n 0) M.S.base x K.cks M.h
    .ok ⟨r.2, { M.S with base := r.1.2 }, M.cts ++ [r.1.1]⟩

/-- the program, call number `n` first -/
def hbrun (K : C58.Keyring B) (w : BEnv B) : ℕ → HBMachine B → List BInstr → Go (HBMachine B)
  | _, M, [] => .ok M
  | n, M, c :: p => do
    let M ← hbstep K w n M c
    hbrun K w (n + 1) M p

variable {K : C58.Keyring B} {U : Finset String} {s r : String → Nega N ℤ} {b : BBounds} {w : BEnv B}

/-- the ciphertexts in memory encrypt what is claimed -/
structure HBRel (s : String → Nega N ℤ) (U : Finset String) (M : HBMachine B) (A : BAbs N) : Prop where
  wf : WF M.h
  alloc : M.S.Alloc
  own : ∀ c ∈ M.cts, c < M.h.nct
  cts : List.Forall₂ (fun c x => C69.Holds s U (value B.C M.h c) x) M.cts A

/-- every ciphertext the client held has its contents -/
structure BKeeps (M M' : HBMachine B) : Prop where
  cts : M.cts <+: M'.cts
  val : ∀ c ∈ M.cts, value B.C M'.h c = value B.C M.h c

theorem BKeeps.refl (M : HBMachine B) : BKeeps M M := ⟨List.prefix_rfl, fun _ _ => rfl⟩

theorem BKeeps.trans {M M' M'' : HBMachine B} (a : BKeeps M M') (b : BKeeps M' M'') : BKeeps M M'' :=
  ⟨a.cts.trans b.cts, fun c hc => (b.val c (a.cts.subset hc)).trans (a.val c hc)⟩

theorem HBRel.fetch {M : HBMachine B} {A : BAbs N} (h : HBRel s U M A) {i : ℕ} (hi : i < A.length) :
    ∃ c, C59.fetch M.cts i = .ok c ∧ M.cts[i]? = some c ∧ c < M.h.nct ∧ C69.Holds s U (value B.C M.h c) (A.get i) := by
  have hl := h.cts.length_eq
  have hi' : i < M.cts.length := by omega
  refine ⟨M.cts[i], ?_, List.getElem?_eq_getElem hi', h.own _ (List.getElem_mem hi'), ?_⟩
  · unfold C59.fetch; rw [List.getElem?_eq_getElem hi']
  · have := List.forall₂_iff_get.mp h.cts |>.2 i hi' hi
    unfold BAbs.get
    rw [List.getElem?_eq_getElem hi]
    exact this

/-- after memory that did not exist before has been written -/
theorem HBRel.later {M : HBMachine B} {A : BAbs N} (H : HBRel s U M A) {g : Heap N} (L : Later M.h g) {S : BScratch B} (hS : S.Alloc) :
    HBRel s U ⟨g, S, M.cts⟩ A ∧ BKeeps M ⟨g, S, M.cts⟩ := by
  have hv := fun c hc => L.value (B := B) H.wf (H.own c hc)
  refine ⟨⟨L.wf, hS, fun c hc => (hv c hc).2, ?_⟩, List.prefix_rfl, fun c hc => (hv c hc).1⟩
  refine List.forall₂_iff_get.mpr ⟨H.cts.length_eq, fun i h1 h2 => ?_⟩
  have := List.forall₂_iff_get.mp H.cts |>.2 i h1 h2
  show C69.Holds s U (value B.C g (M.cts.get ⟨i, h1⟩)) _
  rw [(hv _ (List.get_mem _ _)).1]; exact this

theorem HBRel.push {M : HBMachine B} {A : BAbs N} (H : HBRel s U M A) {g : Heap N} {c : ℕ} (F : C52.Fresh ∅ ∅ M.h c g) {S : BScratch B} (hS : S.Alloc)
    {x : Nega N ℤ × Finset String × ℤ} (hx : C69.Holds s U (value B.C g c) x) :
    HBRel s U ⟨g, S, M.cts ++ [c]⟩ (A ++ [x]) ∧ BKeeps M ⟨g, S, M.cts ++ [c]⟩ := by
  obtain ⟨h1, h2⟩ := H.later (⟨F.wf, F.only⟩ : Later M.h g) hS
  refine ⟨⟨h1.wf, hS, fun d hd => ?_, List.rel_append h1.cts (.cons hx .nil)⟩, List.prefix_append _ _, h2.val⟩
  rcases List.mem_append.mp hd with hd | hd
  · exact h1.own d hd
  · rw [List.mem_singleton.mp hd]; exact F.newCt.2

theorem hbstep_ok (V : B.Valid) (hK : K.Ok U s r b.Sb b.Rb b.Be) (hb : b.Ok B) (hw : w.Ok K U) (n : ℕ) {M : HBMachine B} {A : BAbs N} (H : HBRel s U M A)
    (c : BInstr) (hc : c.Ok A.length) : ∃ M', hbstep K w n M c = .ok M' ∧ HBRel s U M' (bexec B K.crs b A c) ∧ BKeeps M M' := by
  cases c with
  | add i j =>
    obtain ⟨x, x1, -, x2, x3⟩ := H.fetch hc.1
    obtain ⟨y, y1, -, y2, y3⟩ := H.fetch hc.2
    obtain ⟨out, h', c1, c2, c3, c4⟩ := C22.heap_addNew_phase (w.o n 0) H.wf x2 y2 x3.lvl y3.lvl
    refine ⟨_, ?_, H.push (C52.bfvAddNew_fresh H.wf c1) H.alloc
      (C69.Holds.of c2 (by rw [c3, x3.ids, y3.ids]) (union_subset x3.sub y3.sub) (add_enc V x3.enc y3.enc (c4 s)))⟩
    simp only [hbstep]
    rw [x1, bind_ok, y1, bind_ok, c1, bind_ok]
  | sub i j =>
    obtain ⟨x, x1, -, x2, x3⟩ := H.fetch hc.1
    obtain ⟨y, y1, -, y2, y3⟩ := H.fetch hc.2
    obtain ⟨out, h', c1, c2, c3, c4⟩ := C22.heap_subNew_phase (w.o n 0) H.wf x2 y2 x3.lvl y3.lvl
    refine ⟨_, ?_, H.push (C52.bfvSubNew_fresh H.wf c1) H.alloc
      (C69.Holds.of c2 (by rw [c3, x3.ids, y3.ids]) (union_subset x3.sub y3.sub) (sub_enc V x3.enc y3.enc (c4 s)))⟩
    simp only [hbstep]
    rw [x1, bind_ok, y1, bind_ok, c1, bind_ok]
  | mul i j =>
    obtain ⟨x, x1, -, x2, x3⟩ := H.fetch hc.1
    obtain ⟨y, y1, -, y2, y3⟩ := H.fetch hc.2
    have hsub : (value B.C M.h x).ids ∪ (value B.C M.h y).ids ⊆ U := by rw [x3.ids, y3.ids]; exact union_subset x3.sub y3.sub
    obtain ⟨ka, hk⟩ := hK.rlk
    obtain ⟨out, S', e1, e2, e3, e4⟩ := C58.mul V (w.o n 0) M.S H.alloc x3.lvl y3.lvl (keys_value (C58.keys_mono hsub hk) (hw n).1)
      (C58.pools_mono hsub (hw n).2) hb.blockR x3.enc y3.enc
    obtain ⟨q, h', d1, d2⟩ := bfvMulRelinNew_refines K.crs (w.o n 0) M.S (w.rlk n) H.wf x2 y2 e1
    have Sh := rep_shows d2
    rw [x3.ids, y3.ids] at e4
    refine ⟨_, ?_, H.push (C52.bfvMulRelinNew_fresh H.wf d1) ((bfvMulRelinNew_lens e1).alloc H.alloc)
      (C69.Holds.of (Sh.atLevel e2) (by rw [Sh.ids, e3, x3.ids, y3.ids]) (union_subset x3.sub y3.sub) (enc_shows V e2 Sh e4))⟩
    simp only [hbstep]
    rw [x1, bind_ok, y1, bind_ok, d1, bind_ok]
  | rot i k =>
    obtain ⟨x, x1, -, x2, x3⟩ := H.fetch hc
    obtain ⟨o', R⟩ := bfvRotateNew_refines K.crs (w.o n) M.S.base k K.rks H.wf x2 x3.lvl.has0
    obtain ⟨out, S', e1, e2, e3, e4⟩ := C58.rotate V o' M.S.base k x3.lvl
      (C58.hasKeys_mono (by rw [x3.ids]; exact x3.sub) (hK.rot _ (C35.rotNorm_amount V.qp k).2)) hb.block x3.enc
    obtain ⟨q, h', d1, d2⟩ := R _ e1
    have Sh := rep_shows d2
    have ha := H.alloc
    rw [x3.ids] at e4
    refine ⟨_, ?_, H.push (C52.bfvRotateNew_fresh H.wf x2 d1) (S := { M.S with base := S' }) ⟨ha.s1, ha.s2, ha.s3, ha.s4, ha.s5, ha.s6⟩
      (C69.Holds.of (Sh.atLevel e2) (by rw [Sh.ids, e3, x3.ids]) x3.sub (enc_shows V e2 Sh e4))⟩
    simp only [hbstep]
    rw [x1, bind_ok, d1, bind_ok]
  | conj i =>
    obtain ⟨x, x1, -, x2, x3⟩ := H.fetch hc
    obtain ⟨o', R⟩ := bfvConjugateNew_refines B.top K.crs (w.o n 0) M.S.base K.cks H.wf x2 x3.lvl.has0
    obtain ⟨out, S', e1, e2, e3, e4⟩ := C58.conjugate V o' M.S.base x3.lvl (C58.conjKeys_mono (by rw [x3.ids]; exact x3.sub) hK.conj) hb.block x3.enc
    obtain ⟨q, h', d1, d2⟩ := R _ e1
    have Sh := rep_shows d2
    have ha := H.alloc
    rw [x3.ids] at e4
    refine ⟨_, ?_, H.push (C52.bfvConjugateNew_fresh H.wf x2 d1) (S := { M.S with base := S' }) ⟨ha.s1, ha.s2, ha.s3, ha.s4, ha.s5, ha.s6⟩
      (C69.Holds.of (Sh.atLevel e2) (by rw [Sh.ids, e3, x3.ids]) x3.sub (enc_shows V e2 Sh e4))⟩
    simp only [hbstep]
    rw [x1, bind_ok, d1, bind_ok]

/-- **C63, BFV programs.** On any well-formed heap, with registers that may be the same ciphertext or share polynomials in any way, every program whose operands exist
runs to the end, every register encrypts the plaintext the program computes, and every ciphertext the client held at the start has its contents. -/
theorem bprogram (V : B.Valid) (hK : K.Ok U s r b.Sb b.Rb b.Be) (hb : b.Ok B) (hw : w.Ok K U) (p : List BInstr) : ∀ (n : ℕ) {M : HBMachine B} {A : BAbs N},
    HBRel s U M A → BProgOk A.length p → ∃ M', hbrun K w n M p = .ok M' ∧ HBRel s U M' (bexecs B K.crs b A p) ∧ BKeeps M M' := by
  induction p with
  | nil => exact fun n M A h _ => ⟨M, rfl, h, .refl M⟩
  | cons c p ih =>
    intro n M A h hok
    obtain ⟨M1, s1, s2, s3⟩ := hbstep_ok V hK hb hw n h c hok.1
    obtain ⟨M2, r1, r2, r3⟩ := ih (n + 1) s2 (by rw [bexec_length]; exact hok.2)
    refine ⟨M2, ?_, r2, s3.trans r3⟩
    simp only [hbrun]
    rw [s1, bind_ok, r1]

/-- decrypting a register -/
theorem HBRel.decrypt (V : B.Valid) {M : HBMachine B} {A : BAbs N} (H : HBRel s U M A) {i : ℕ} (hi : i < A.length) (hB : 2 * (A.get i).2.2 < B.Q)
    {sks : KeySet (SKey B.C)} (hk : sks.Keyed SKey.id) (hs : ∀ id sk, sks.value.lookup id = some sk → sk.Is (s id))
    (hall : ∀ id ∈ (A.get i).2.1, id ∈ sks.value) (od : Sched String) :
    ∃ c p h', M.cts[i]? = some c ∧ Heap.bfvDecrypt od M.h c sks = .ok (p, h') ∧ Later M.h h' ∧
      (∃ Φ : Nega N ℤ, ∀ i < B.C.nQ, cf ((h'.view B.C p).coeffs i) = red (B.C.q i) Φ) ∧
      ∀ Φ : Nega N ℤ, (∀ i < B.C.nQ, cf ((h'.view B.C p).coeffs i) = red (B.C.q i) Φ) → ∀ x,
        (2 * (B.t * Φ x) + B.Q) / (2 * B.Q) ≡ (A.get i).1 x [ZMOD B.t] := by
  obtain ⟨c, -, c1, c2, c3⟩ := H.fetch hi
  obtain ⟨P, d1, -, d3, d4⟩ := C58.decrypt V od c3.lvl c3.enc hB hk hs (by rw [c3.ids]; exact hall)
  obtain ⟨p, h2, e1, e2⟩ := bfvDecrypt_refines od H.wf c2 d1
  obtain ⟨f1, f2, -⟩ := C20.bfvDecrypt_writes_nothing H.wf c2 e1
  rw [← e2] at d3 d4
  exact ⟨c, p, h2, c1, e1, ⟨f1, f2⟩, d3, d4⟩

/-- **C63, BFV programs end to end.** -/
theorem bprogram_decrypt (V : B.Valid) (hK : K.Ok U s r b.Sb b.Rb b.Be) (hb : b.Ok B) (hw : w.Ok K U) (p : List BInstr) (n : ℕ) {M : HBMachine B} {A : BAbs N}
    (h : HBRel s U M A) (hok : BProgOk A.length p) {i : ℕ} (hi : i < (bexecs B K.crs b A p).length)
    (hB : 2 * ((bexecs B K.crs b A p).get i).2.2 < B.Q) {sks : KeySet (SKey B.C)} (hk : sks.Keyed SKey.id)
    (hs : ∀ id sk, sks.value.lookup id = some sk → sk.Is (s id)) (hall : ∀ id ∈ ((bexecs B K.crs b A p).get i).2.1, id ∈ sks.value) (od : Sched String) :
    ∃ M' c q h', hbrun K w n M p = .ok M' ∧ BKeeps M M' ∧ M'.cts[i]? = some c ∧ Heap.bfvDecrypt od M'.h c sks = .ok (q, h') ∧ Later M'.h h' ∧
      (∃ Φ : Nega N ℤ, ∀ i < B.C.nQ, cf ((h'.view B.C q).coeffs i) = red (B.C.q i) Φ) ∧
      ∀ Φ : Nega N ℤ, (∀ i < B.C.nQ, cf ((h'.view B.C q).coeffs i) = red (B.C.q i) Φ) → ∀ x,
        (2 * (B.t * Φ x) + B.Q) / (2 * B.Q) ≡ ((bexecs B K.crs b A p).get i).1 x [ZMOD B.t] := by
  obtain ⟨M', r1, r2, r3⟩ := bprogram V hK hb hw p n h hok
  obtain ⟨c, q, h', d⟩ := r2.decrypt V hi hB hk hs hall od
  exact ⟨M', c, q, h', r1, r3, d⟩

end C63

namespace C76
open TG C63

variable {K : C58.Keyring B} {U : Finset String} {s r : String → Nega N ℤ} {b : BBounds} {w : BEnv B}

/-- the call of `C63.hbstep` with the writes it makes -/
def tbstep (K : C58.Keyring B) (w : BEnv B) (n : ℕ) (M : HBMachine B) : BInstr → TG N (HBMachine B)
  | .add i j => do
    let x ← C59.fetch M.cts i
    let y ← C59.fetch M.cts j
    let r ← bfvAddNewT B.C (w.o n 0) M.h x y
    .ok ⟨r.2, M.S, M.cts ++ [r.1]⟩
  | .sub i j => do
    let x ← C59.fetch M.cts i
    let y ← C59.fetch M.cts j
    let r ← bfvSubNewT B.C (w.o n 0) M.h x y
    .ok ⟨r.2, M.S, M.cts ++ [r.1]⟩
  | .mul i j => do
    let x ← C59.fetch M.cts i
    let y ← C59.fetch M.cts j
    let r ← bfvMulRelinNewT K.crs (w.o n 0) M.S x y (w.rlk n) M.h
    .ok ⟨r.2, r.1.2, M.cts ++ [r.1.1]⟩
  | .rot i k => do
    let x ← C59.fetch M.cts i
    let r ← bfvRotateNewT K.crs (w.o n) M.S.base x k K.rks M.h
    .ok ⟨r.2, { M.S with base := r.1.2 }, M.cts ++ [r.1.1]⟩
  | .conj i => do
    let x ← C59.fetch M.cts i
    let r ← bfvConjugateNewT B.top K.crs (w.o n 0) M.S.base x K.cks M.h
    .ok ⟨r.2, { M.S with base := r.1.2 }, M.cts ++ [r.1.1]⟩

/-- the call returns, or panics, as `C63.hbstep` does -/
theorem tbstep_res (n : ℕ) (M : HBMachine B) (c : BInstr) : (tbstep K w n M c).res = hbstep K w n M c := by
  cases c <;>
  simp only [tbstep, hbstep, res_bind, res_lift, res_ok, bfvAddNewT_res, bfvSubNewT_res, bfvMulRelinNewT_res, bfvRotateNewT_res, bfvConjugateNewT_res]

/-- every call writes to new memory only -/
theorem tbstep_fresh (n : ℕ) {M : HBMachine B} (W : WF M.h) (hown : ∀ c ∈ M.cts, c < M.h.nct) (c : BInstr) :
    Runs (Grew M.h ∅ ∅) M.h (tbstep K w n M c) (·.h) := by
  have O : Ok M.h ∅ ∅ M.h := Ok.start W
  have R := Grew.refl O
  cases c with
  | add i j => exact Runs.lift R fun _ _ => Runs.lift R fun _ _ => Runs.bind (bfvAddNewT_runs O) fun r _ g => Runs.ok (Grew.refl g.ok) rfl
  | sub i j => exact Runs.lift R fun _ _ => Runs.lift R fun _ _ => Runs.bind (bfvSubNewT_runs O) fun r _ g => Runs.ok (Grew.refl g.ok) rfl
  | mul i j => exact Runs.lift R fun _ _ => Runs.lift R fun _ _ => Runs.bind (bfvMulRelinNewT_runs O) fun r _ g => Runs.ok (Grew.refl g.ok) rfl
  | rot i k => exact Runs.lift R fun a ea => Runs.bind (bfvRotateNewT_runs O (hown a (fetch_mem ea))) fun r _ g => Runs.ok (Grew.refl g.ok) rfl
  | conj i => exact Runs.lift R fun _ _ => Runs.bind (bfvConjugateNewT_runs O) fun r _ g => Runs.ok (Grew.refl g.ok) rfl

/-- **C76, one aborted BFV call.** Any call with any arguments and keys, also one that panics, stopped at any moment: whatever it leaves in the evaluator's scratch memory, the
client still holds encryptions of what it held, and its ciphertexts are unchanged. -/
theorem baborted (K : C58.Keyring B) (w : BEnv B) (n : ℕ) {M : HBMachine B} {A : BAbs N} (H : HBRel s U M A) (c : BInstr) {g : Heap N} (hg : Write.During M.h (tbstep K w n M c).writes g)
    {S : BScratch B} (hS : S.Alloc) : HBRel s U ⟨g, S, M.cts⟩ A ∧ BKeeps M ⟨g, S, M.cts⟩ := by
  have r := (tbstep_fresh (K := K) (w := w) n H.wf H.own c).during g hg
  exact H.later ⟨r.ok.wf, r.ok.only⟩ hS

/-- what the client sees of a call -/
inductive BEvent where
  /-- the call returned -/
  | done (c : BInstr)
  /-- the call was stopped, by its own panic or from outside, and the client went on -/
  | stopped (c : BInstr)

/-- the calls that returned -/
def BEvent.completed : List BEvent → List BInstr
  | [] => []
  | .done c :: l => c :: completed l
  | .stopped _ :: l => completed l

/-- from machine to machine; a stopped call, which may have been made with other keys `K'`, leaves the memory of some
moment of the call, and the evaluator's scratch memory with any contents -/
inductive BSession (K : C58.Keyring B) (w : BEnv B) : ℕ → HBMachine B → List BEvent → HBMachine B → Prop
  | nil (n : ℕ) (M : HBMachine B) : BSession K w n M [] M
  | done {n : ℕ} {M M' M'' : HBMachine B} {c : BInstr} {l : List BEvent} : hbstep K w n M c = .ok M' → BSession K w (n + 1) M' l M'' →
      BSession K w n M (.done c :: l) M''
  | stopped {n : ℕ} {M M'' : HBMachine B} {c : BInstr} {l : List BEvent} {g : Heap N} {S : BScratch B} (K' : C58.Keyring B) (w' : BEnv B) :
      Write.During M.h (tbstep K' w' n M c).writes g → S.Alloc →
      BSession K w (n + 1) ⟨g, S, M.cts⟩ l M'' → BSession K w n M (.stopped c :: l) M''

/-- **C76, BFV histories with aborted calls.** After any history the client holds encryptions of what the calls that returned compute, as if the others had not been
made, and every ciphertext the client held at any time has the contents it had. -/
theorem bsession (V : B.Valid) (hK : K.Ok U s r b.Sb b.Rb b.Be) (hb : b.Ok B) (hw : w.Ok K U) {n : ℕ} {M M' : HBMachine B} {l : List BEvent}
    (hl : BSession K w n M l M') : ∀ {A : BAbs N}, HBRel s U M A → BProgOk A.length (BEvent.completed l) →
      HBRel s U M' (bexecs B K.crs b A (BEvent.completed l)) ∧ BKeeps M M' := by
  induction hl with
  | nil n M => exact fun H _ => ⟨H, BKeeps.refl M⟩
  | done e _ ih =>
    intro A H hok
    obtain ⟨M1, s1, s2, s3⟩ := hbstep_ok V hK hb hw _ H _ hok.1
    cases Except.ok.inj (s1.symm.trans e)
    obtain ⟨r1, r2⟩ := ih s2 (by rw [bexec_length]; exact hok.2)
    exact ⟨r1, s3.trans r2⟩
  | stopped K' w' hg hS _ ih =>
    intro A H hok
    obtain ⟨a1, a2⟩ := baborted K' w' _ H _ hg hS
    obtain ⟨r1, r2⟩ := ih a1 hok
    exact ⟨r1, a2.trans r2⟩

/-- **C76, the BFV evaluator still works.** After any history, every program whose operands exist runs and computes what it should. -/
theorem bsession_then (V : B.Valid) (hK : K.Ok U s r b.Sb b.Rb b.Be) (hb : b.Ok B) (hw : w.Ok K U) {n : ℕ} {M M' : HBMachine B} {l : List BEvent}
    (hl : BSession K w n M l M') {A : BAbs N} (H : HBRel s U M A) {p : List BInstr} (hok : BProgOk A.length (BEvent.completed l))
    (hok' : BProgOk (bexecs B K.crs b A (BEvent.completed l)).length p) (m : ℕ) :
    ∃ M'', hbrun K w m M' p = .ok M'' ∧ HBRel s U M'' (bexecs B K.crs b (bexecs B K.crs b A (BEvent.completed l)) p) ∧ BKeeps M M'' := by
  obtain ⟨r1, r2⟩ := bsession V hK hb hw hl H hok
  obtain ⟨M2, s1, s2, s3⟩ := C63.bprogram V hK hb hw p m r1 hok'
  exact ⟨M2, s1, s2, r2.trans s3⟩

/-- **C76, BFV decryption.** After any history, decrypting any ciphertext the client holds whose noise bound is below `Q/2` and rounding gives, modulo T, the plaintext
that the calls that returned compute. -/
theorem bsession_decrypt (V : B.Valid) (hK : K.Ok U s r b.Sb b.Rb b.Be) (hb : b.Ok B) (hw : w.Ok K U) {n : ℕ} {M M' : HBMachine B} {l : List BEvent}
    (hl : BSession K w n M l M') {A R : BAbs N} (H : HBRel s U M A) (hok : BProgOk A.length (BEvent.completed l))
    (hR : R = bexecs B K.crs b A (BEvent.completed l)) {i : ℕ} (hi : i < R.length) (hB : 2 * (R.get i).2.2 < B.Q) {sks : KeySet (SKey B.C)}
    (hk : sks.Keyed SKey.id) (hs : ∀ id sk, sks.value.lookup id = some sk → sk.Is (s id)) (hall : ∀ id ∈ (R.get i).2.1, id ∈ sks.value) (od : Sched String) :
    ∃ c p h', M'.cts[i]? = some c ∧ Heap.bfvDecrypt od M'.h c sks = .ok (p, h') ∧ Later M'.h h' ∧
      (∃ Φ : Nega N ℤ, ∀ i < B.C.nQ, cf ((h'.view B.C p).coeffs i) = red (B.C.q i) Φ) ∧
      ∀ Φ : Nega N ℤ, (∀ i < B.C.nQ, cf ((h'.view B.C p).coeffs i) = red (B.C.q i) Φ) → ∀ x,
        (2 * (B.t * Φ x) + B.Q) / (2 * B.Q) ≡ (R.get i).1 x [ZMOD B.t] := by
  obtain ⟨r1, -⟩ := bsession V hK hb hw hl H hok
  rw [← hR] at r1
  exact r1.decrypt V hi hB hk hs hall od

end C76
end MKHE
