import Verif.Props.HeapRefineMul
import Verif.Props.HeapLevel
import Verif.Props.HeapSumCkks
import Verif.Props.HeapEval
import Verif.Props.CkksProg
import Mathlib.Data.Nat.ChineseRemainder

set_option autoImplicit false
set_option linter.unusedSectionVars false

/-!
# C63: programs over the CKKS evaluator on the memory model

The programs of C59, but executed on the heap: registers are pointers to ciphertexts, two registers may be the same ciphertext or share polynomials, and the
evaluator's pool ciphertext is an object on the same heap. `program` says that every program computes what `C59.execs` computes on real polynomials, as if
all registers were separate values, and that no call changes a ciphertext the client held before.
-/

namespace MKHE
namespace C63
open Heap Nega C59
open C23 (hval)
variable {N : ℕ} [NeZero N] {C : Ctx N}

/-- the memory, the evaluator's pool ciphertext in it, the evaluator's private state (of which the field `ev.pool` is not used here) and key set, the
client's pointers, and the client's hoisted forms -/
structure HMachine (C : Ctx N) where
  h : Heap N
  pool : ℕ
  st : St C
  cts : List HCt
  hs : List (HoistedCt C)

def HMachine.push (M : HMachine C) (c : HCt) (h : Heap N) (ev : Eval C) (rlk : RlkMap C) : HMachine C := ⟨h, M.pool, ⟨ev, rlk⟩, M.cts ++ [c], M.hs⟩

/-- one call (mkckks/evaluator.go; the called functions are modelled in Model/Heap.lean and Model/HeapEval.lean; `HoistedForm`, evaluator.go:543-553, only reads
its argument and returns newly allocated memory, so it is the function on the contents) -/
noncomputable def hstep (S : Sys C) (w : Env C) (n : ℕ) (M : HMachine C) : Instr → Go (HMachine C)
  | .add i j => do
    let a ← fetch M.cts i
    let b ← fetch M.cts j
    let r ← Heap.ckksAddNew C w.mredPsi (w.o n 0) M.h M.pool a b
    .ok (M.push r.1 r.2 M.st.ev M.st.rlk)
  | .sub i j => do
    let a ← fetch M.cts i
    let b ← fetch M.cts j
    let r ← Heap.ckksSubNew C w.mredPsi (w.o n 0) M.h M.pool a b
    .ok (M.push r.1 r.2 M.st.ev M.st.rlk)
  | .mul i j => do
    let a ← fetch M.cts i
    let b ← fetch M.cts j
    let r ← Heap.ckksMulRelinNew S.pscale S.crs (w.o n 0) M.st.ev a b M.st.rlk M.h
    .ok (M.push r.1.1 r.2 r.1.2.1 r.1.2.2)
  | .rot i r => do
    let a ← fetch M.cts i
    let r ← Heap.ckksRotateNew S.crs (w.o n) M.st.ev a r S.rks M.h
    .ok (M.push r.1.1 r.2 r.1.2 M.st.rlk)
  | .conj i => do
    let a ← fetch M.cts i
    let l ← M.h.level a.ct
    let r ← Heap.ckksConjugateNew (w.perm l) S.crs (w.o n 0) M.st.ev a S.cks M.h
    .ok (M.push r.1.1 r.2 r.1.2 M.st.rlk)
  | .hoist i => do
    let a ← fetch M.cts i
    let r ← hoistedForm (w.o n 0) M.st.ev.ksw (value C M.h a.ct)
    .ok ⟨M.h, M.pool, ⟨{ M.st.ev with ksw := r.2 }, M.st.rlk⟩, M.cts, M.hs ++ [r.1]⟩
  | .mulH i j h k => do
    let a ← fetch M.cts i
    let b ← fetch M.cts j
    let ah ← fetch M.hs h
    let bh ← fetch M.hs k
    let r ← Heap.ckksMulRelinHoistedNew S.pscale S.crs (w.o n 0) M.st.ev a b (some ah) (some bh) M.st.rlk M.h
    .ok (M.push r.1.1 r.2 r.1.2 M.st.rlk)
  | .rotH i r h => do
    let a ← fetch M.cts i
    let ah ← fetch M.hs h
    let r ← Heap.ckksRotateHoistedNew S.crs (w.o n) M.st.ev a r ah S.rks M.h
    .ok (M.push r.1.1 r.2 r.1.2 M.st.rlk)
  | .mulPt i p => do
    let a ← fetch M.cts i
    let r ← Heap.mulPtxtNew S.pscale (w.o n 0) M.st.ev a (w.pts p).1 (w.pts p).2 M.h
    .ok (M.push r.1.1 r.2 r.1.2 M.st.rlk)
  | .drop i k => do
    let a ← fetch M.cts i
    let r ← Heap.dropLevelNew (w.o n 0 0) (w.o n 0 1) M.h a k
    .ok (M.push r.1 r.2 M.st.ev M.st.rlk)
  | .const i k => do
    let a ← fetch M.cts i
    let cp ← Heap.copyNew (w.o n 0 0) M.h a.ct
    let r ← Heap.multByConst C w.mredPsi (w.o n 0 1) cp.2 a k cp.1
    .ok (M.push ⟨cp.1, r.1⟩ r.2 M.st.ev M.st.rlk)
  | .rescale i ms => do
    let a ← fetch M.cts i
    let cp ← Heap.copyNew (w.o n 0 0) M.h a.ct
    let r ← Heap.rescale C (w.o n 0 1) cp.2 ⟨cp.1, a.scale⟩ ms ⟨cp.1, a.scale⟩ true
    .ok (M.push r.1.2 r.2 M.st.ev M.st.rlk)

/-- the program, call number `n` first -/
noncomputable def hrun (S : Sys C) (w : Env C) : ℕ → HMachine C → List Instr → Go (HMachine C)
  | _, M, [] => .ok M
  | n, M, c :: p => do
    let M ← hstep S w n M c
    hrun S w (n + 1) M p

/-- the heap holds encryptions of what `A` says; registers may share anything with each other, but nothing with the evaluator's pool -/
structure HRel (S : Sys C) (M : HMachine C) (A : Abs N) : Prop where
  wf : WF M.h
  inp : M.pool < M.h.nct
  pool : (value C M.h M.pool).AtLevel (C.nQ - 1)
  dist : Distinct M.h M.pool
  ready : M.st.Ready S
  own : ∀ c ∈ M.cts, c.ct < M.h.nct ∧ Apart M.h M.pool c.ct
  one : ∀ c ∈ M.cts, ∀ d ∈ M.cts, c.ct = d.ct → c.scale = d.scale
  cts : List.Forall₂ (fun c x => Approx S (hval C M.h c) x.1 x.2) M.cts A.cts
  hs : List.Forall₂ (fun m i => ∃ c, M.cts[i]? = some c ∧ i < A.cts.length ∧ IsHoisted (A.info i).level (value C M.h c.ct) m) M.hs A.hs

/-- nothing the client held changed, and it holds it still -/
def Keeps (M M' : HMachine C) : Prop := M.cts <+: M'.cts ∧ ∀ c ∈ M.cts, value C M'.h c.ct = value C M.h c.ct

theorem Keeps.refl (M : HMachine C) : Keeps M M := ⟨List.prefix_rfl, fun _ _ => rfl⟩

theorem Keeps.trans {M M' M'' : HMachine C} (h : Keeps M M') (h' : Keeps M' M'') : Keeps M M'' :=
  ⟨h.1.trans h'.1, fun c hc => (h'.2 c (h.1.subset hc)).trans (h.2 c hc)⟩

variable {S : Sys C} {w : Env C} {pts : Pts N}

theorem approx_shows {ct ct' : CCt C} {v : Nega N ℝ} {a : Info} (h : Approx S ct v a) (hs : ct'.scale = ct.scale) (Sh : Shows ct'.ct ct.ct) :
    Approx S ct' v a := by
  refine ⟨h.lt, Sh.atLevel h.lvl, hs.trans h.scale, h.pos, Sh.ids.trans h.ids, h.sub, h.bdd, ?_⟩
  obtain ⟨F, f1, f2⟩ := h.enc
  exact ⟨F, fun i hi => by rw [Sh.phase h.lvl S.s hi]; exact f1 i hi, f2⟩

theorem HRel.fetch {M : HMachine C} {A : Abs N} (h : HRel S M A) {i : ℕ} (hi : i < A.cts.length) :
    ∃ c, C59.fetch M.cts i = .ok c ∧ M.cts[i]? = some c ∧ c ∈ M.cts ∧ Approx S (hval C M.h c) (A.val i) (A.info i) := by
  have hl := h.cts.length_eq
  have hi' : i < M.cts.length := by omega
  refine ⟨M.cts[i], ?_, List.getElem?_eq_getElem hi', List.getElem_mem hi', ?_⟩
  · unfold C59.fetch; rw [List.getElem?_eq_getElem hi']
  · have := List.forall₂_iff_get.mp h.cts |>.2 i hi' hi
    unfold Abs.val Abs.info
    rw [List.getElem?_eq_getElem hi]
    exact this

theorem HRel.fetchH {M : HMachine C} {A : Abs N} (h : HRel S M A) {k i : ℕ} (hk : A.hs[k]? = some i) {c : HCt} (hct : M.cts[i]? = some c) :
    ∃ m, C59.fetch M.hs k = .ok m ∧ IsHoisted (A.info i).level (value C M.h c.ct) m := by
  have hl := h.hs.length_eq
  obtain ⟨hk', e⟩ := List.getElem?_eq_some_iff.mp hk
  have hk2 : k < M.hs.length := by omega
  refine ⟨M.hs[k], ?_, ?_⟩
  · unfold C59.fetch; rw [List.getElem?_eq_getElem hk2]
  · obtain ⟨ct', c1, c2, c3⟩ := List.forall₂_iff_get.mp h.hs |>.2 k hk2 hk'
    simp only [List.get_eq_getElem] at c1 c3
    rw [e] at c1 c3
    rw [hct] at c1
    injection c1 with c1
    subst c1
    exact c3

/-- a call that returns a new ciphertext and keeps the pool in shape and the old registers as they are -/
theorem HRel.push {M : HMachine C} {A : Abs N} (H : HRel S M A) {r : HCt} {h' : Heap N} {ev : Eval C} {rlk : RlkMap C} (hr : St.Ready S ⟨ev, rlk⟩)
    {Wp Wc : Set ℕ} (F : C52.Fresh Wp Wc M.h r.ct h') (p1 : (value C h' M.pool).AtLevel (C.nQ - 1)) (p2 : Distinct h' M.pool) (p3 : Apart h' M.pool r.ct)
    (p4 : ∀ c ∈ M.cts, Apart h' M.pool c.ct ∧ value C h' c.ct = value C M.h c.ct) {v : Nega N ℝ} {x : Info} (ha : Approx S (hval C h' r) v x) :
    HRel S (M.push r h' ev rlk) (A.push v x) ∧ Keeps M (M.push r h' ev rlk) := by
  have hl := H.cts.length_eq
  have hn := F.only.nct
  refine ⟨⟨F.wf, lt_of_lt_of_le H.inp hn, p1, p2, hr, fun c hc => ?_, fun c hc d hd e => ?_, List.rel_append ?_ (.cons ha .nil), ?_⟩,
    List.prefix_append _ _, fun c hc => (p4 c hc).2⟩
  · rcases List.mem_append.mp hc with hc | hc
    · exact ⟨lt_of_lt_of_le (H.own c hc).1 hn, (p4 c hc).1⟩
    · rw [List.mem_singleton] at hc; subst hc; exact ⟨F.newCt.2, p3⟩
  · change c ∈ M.cts ++ [r] at hc
    change d ∈ M.cts ++ [r] at hd
    rcases List.mem_append.mp hc with hc | hc <;> rcases List.mem_append.mp hd with hd | hd
    · exact H.one c hc d hd e
    · rw [List.mem_singleton] at hd; rw [hd] at e
      have := (H.own c ‹_›).1; have := F.newCt.1; omega
    · rw [List.mem_singleton] at hc; rw [hc] at e
      have := (H.own d ‹_›).1; have := F.newCt.1; omega
    · rw [List.mem_singleton] at hc hd; rw [hc, hd]
  · refine List.forall₂_iff_get.mpr ⟨hl, fun i h1 h2 => ?_⟩
    have := List.forall₂_iff_get.mp H.cts |>.2 i h1 h2
    have e : hval C h' (M.cts.get ⟨i, h1⟩) = hval C M.h (M.cts.get ⟨i, h1⟩) := by
      unfold C23.hval; rw [(p4 _ (List.get_mem _ _)).2]
    show Approx S (hval C h' (M.cts.get ⟨i, h1⟩)) _ _
    rw [e]; exact this
  · refine H.hs.imp fun m i hm => ?_
    obtain ⟨ct, c1, c2, c3⟩ := hm
    refine ⟨ct, ?_, ?_, ?_⟩
    · show (M.cts ++ [r])[i]? = some ct
      rw [List.getElem?_append_left (by omega)]; exact c1
    · show i < (A.cts ++ [(v, x)]).length
      rw [List.length_append]; omega
    · rw [Abs.info_push c2]
      show IsHoisted _ (value C h' ct.ct) m
      rw [(p4 _ (List.mem_of_getElem? c1)).2]; exact c3

/-- a call that writes only new memory -/
theorem HRel.push_fresh {M : HMachine C} {A : Abs N} (H : HRel S M A) {r : HCt} {h' : Heap N} {ev : Eval C} {rlk : RlkMap C} (hr : St.Ready S ⟨ev, rlk⟩)
    (F : C52.Fresh ∅ ∅ M.h r.ct h') {v : Nega N ℝ} {x : Info} (ha : Approx S (hval C h' r) v x) :
    HRel S (M.push r h' ev rlk) (A.push v x) ∧ Keeps M (M.push r h' ev rlk) := by
  have hct : ∀ c, c < M.h.nct → h'.ct c = M.h.ct c := fun c hc => F.only.ct c hc (by simp)
  have hv : ∀ c, c < M.h.nct → value C h' c = value C M.h c := fun c hc => F.only.value H.wf hc (by simp) (by simp)
  refine H.push hr F (by rw [hv _ H.inp]; exact H.pool) (by unfold Distinct; rw [hct _ H.inp]; exact H.dist) (fun id id' p h1 h2 => ?_)
    (fun c hc => ⟨by unfold Apart; rw [hct _ H.inp, hct _ (H.own c hc).1]; exact (H.own c hc).2, hv _ (H.own c hc).1⟩) ha
  rw [hct _ H.inp] at h1
  have := H.wf.ctB _ H.inp id p h1
  have := F.newPoly id' p h2
  omega

/-- a register is not the pool -/
theorem apart_ne {M : HMachine C} {A : Abs N} (H : HRel S M A) {c : ℕ} (ha : Apart M.h M.pool c) : c ∉ ({M.pool} : Set ℕ) := by
  intro e
  rw [Set.mem_singleton_iff] at e
  obtain ⟨p, hp⟩ := Option.isSome_iff_exists.mp (GoMap.mem_iff_lookup.mp (value_mem.mp H.pool.has0))
  exact ha "0" "0" p hp (by rw [e]; exact hp)

theorem HRel.shape {M : HMachine C} {A : Abs N} (H : HRel S M A) {a b : HCt} (ha : a ∈ M.cts) (hb : b ∈ M.cts) {v0 v1 : Nega N ℝ} {i j : Info}
    (h0 : Approx S (hval C M.h a) v0 i) (h1 : Approx S (hval C M.h b) v1 j) (hr : AddOk C.fm i j) : C23.HShape C M.h M.pool a b i.level j.level where
  wf := H.wf
  lt0 := h0.lt
  lt1 := h1.lt
  in0 := (H.own a ha).1
  in1 := (H.own b hb).1
  inp := H.inp
  h0 := h0.lvl
  h1 := h1.lvl
  hpool := H.pool
  dist := H.dist
  ap0 := (H.own a ha).2
  ap1 := (H.own b hb).2
  r0 := by have e0 := h0.scale; have e1 := h1.scale; change a.scale = _ at e0; change b.scale = _ at e1; rw [e0, e1]; exact hr.1
  r1 := by have e0 := h0.scale; have e1 := h1.scale; change a.scale = _ at e0; change b.scale = _ at e1; rw [e0, e1]; exact hr.2

/-- `out := ct.CopyNew(); MultByConst(ct, k, out)` on the heap -/
theorem heap_const (V : C.Valid) (hS : S.Ok) (mredPsi : ℕ → ℕ → ℕ) (o o' : Order String) {h : Heap N} (W : WF h) {c : HCt} (hc : c.ct < h.nct)
    {v : Nega N ℝ} {a : Info} (ha : Approx S (hval C h c) v a) {k : Const} (hk : C25.Real k (constVal k)) :
    ∃ cp w, Heap.copyNew o h c.ct = .ok cp ∧ Heap.multByConst C mredPsi o' cp.2 c k cp.1 = .ok w ∧ C52.Fresh ∅ ∅ h cp.1 w.2 ∧
      Approx S (hval C w.2 ⟨cp.1, w.1⟩) (Nega.C (constVal k : ℝ) * v) (a.const C k) := by
  obtain ⟨t, h1, e1⟩ := copyNew_returns o (value_mem.mp ha.lvl.has0)
  obtain ⟨Md, R⟩ := copyNew_rep (C := C) W hc e1
  have hsame : (value C h1 t).Same (value C h c.ct) := R.value
  have hold : value C h1 c.ct = value C h c.ct := Md.only.value W hc (by simp) (by simp)
  have hct : h1.ct c.ct = h.ct c.ct := Md.only.ct _ hc (by simp)
  have hmem : ∀ id, id ∈ h1.ct t ↔ id ∈ h1.ct c.ct := fun id => by
    rw [← value_mem (C := C), hsame.mem, value_mem, hct]
  obtain ⟨h2, e2, Rn⟩ := Heap.multByConst_run (C := C) hS.n16 mredPsi o' Md.wf (c := c) (out := t) k (lt_of_lt_of_le hc Md.only.nct) R.lt
    (by rw [hold]; exact ha.lvl) (hsame.symm.atLevel ha.lvl) (fun id hid => (hmem id).mpr hid) Md.inj
    (fun id id' p g1 g2 => by
      rw [hct] at g2
      have := W.ctB _ hc id' p g2
      have := Md.new id p g1
      omega)
  rw [min_self] at e2 Rn
  rw [hold] at Rn
  obtain ⟨v', m, m1, m2, m3, m4⟩ := C25.multiplier C.fm (C.q a.level) hk
  rw [m1] at e2 Rn
  dsimp only at e2
  have hlk : ∀ id Q, (value C h2 t).lookup id = some Q → ∃ P, (value C h1 t).lookup id = some P ∧
      Q = P.set a.level (constOut mredPsi (v', 0, C25.scaleOf C.fm (C.q a.level) k) (value C h c.ct).comp id) := by
    intro id Q hQ
    rw [value_lookup, Rn.ct] at hQ
    obtain ⟨p, hp, rfl⟩ := Option.map_eq_some_iff.mp hQ
    refine ⟨h1.view C p, by rw [value_lookup, hp]; rfl, ?_⟩
    rw [Rn.view id p hp, if_pos ((hmem id).mp (GoMap.mem_iff_lookup.mpr (by rw [hp]; rfl)))]
  have hat1 : (value C h1 t).AtLevel a.level := hsame.symm.atLevel ha.lvl
  have hat : (value C h2 t).AtLevel a.level := by
    refine ⟨?_, fun id Q hQ => ?_, fun id Q hQ => ?_⟩
    · rw [value_mem, Rn.ct]; exact value_mem.mp hat1.has0
    · obtain ⟨P, p1, rfl⟩ := hlk id Q hQ; exact hat1.len id P p1
    · obtain ⟨P, p1, rfl⟩ := hlk id Q hQ; exact hat1.coeff id P p1
  have hids : (value C h2 t).ids = (value C h c.ct).ids := by
    ext id
    rw [value_ids, value_ids, Rn.ct, hmem, hct]
  obtain ⟨K, c1, n1⟩ := multByConst_ok (Ok.mk Md.wf Md.only) (Md.into ∅) e2
  refine ⟨(t, h1), _, e1, e2, C52.Fresh.of_made Md K (by rw [c1]) (by rw [n1]), ?_⟩
  refine const_result V ha (out := hval C h2 ⟨t, _⟩) hat hids rfl (fun i hi => ?_) m3 m4
  show (value C h2 t).phase S.s i = _ * (value C h c.ct).phase S.s i
  rw [phase_eq_rows, hids]
  refine phaseRows_mul _ S.s _ fun id hid' => ?_
  have hin : id ∈ h.ct c.ct := hid'.elim (fun g => (value_ids.mp g).1) fun e => e ▸ value_mem.mp ha.lvl.has0
  obtain ⟨Q, hQ⟩ := Ct.get (value_mem (C := C) (h := h2) (c := t) (id := id) |>.mpr (by rw [Rn.ct, hmem, hct]; exact hin))
  obtain ⟨P, p1, e⟩ := hlk id Q hQ
  rw [Ct.comp_eq hQ, Poly.coeffs_eq (by rw [e]; exact hat1.coeff id P p1), e]
  show cf (setQ a.level _ P.rows i) = _
  rw [setQ_le _ _ hi, constOut_real, m2]

/-- `out := ct.CopyNew(); Rescale(out, minScale, out)` on the heap -/
theorem heap_rescale (V : C.Valid) (hS : S.Ok) (o o' : Order String) {h : Heap N} (W : WF h) {c : HCt} (hc : c.ct < h.nct)
    {v : Nega N ℝ} {a : Info} (ha : Approx S (hval C h c) v a) {ms : ℚ} (hm : RescaleOk C a.level a.scale ms) :
    ∃ cp w, Heap.copyNew o h c.ct = .ok cp ∧ Heap.rescale C o' cp.2 ⟨cp.1, c.scale⟩ ms ⟨cp.1, c.scale⟩ true = .ok w ∧
      C52.Fresh ∅ ∅ h w.1.2.ct w.2 ∧ Approx S (hval C w.2 w.1.2) v (a.rescale S ms) := by
  obtain ⟨t, h1, e1⟩ := copyNew_returns o (value_mem.mp ha.lvl.has0)
  obtain ⟨Md, R⟩ := copyNew_rep (C := C) W hc e1
  obtain ⟨e, out, e2, e3⟩ := C59.rescale_inplace V hS (o'.via (h1.ct t).keys) ha hm
  obtain ⟨h', f1, T⟩ := Heap.rescale_sim R (s := c.scale) (ms := ms) (o := o') rfl e2
  obtain ⟨⟨K, c1, n1⟩, -⟩ := rescale_same_ok (Ok.mk Md.wf Md.only) (Md.into ∅) f1
  exact ⟨(t, h1), _, e1, f1, C52.Fresh.of_made Md K (by rw [c1]) (by rw [n1]), approx_shows e3 rfl T.shows⟩

/-- **C63, one call.** -/
theorem hstep_ok (V : C.Valid) (hS : S.Ok) (hp : PtsOk w pts) (n : ℕ) {M : HMachine C} {A : Abs N} (H : HRel S M A) (c : Instr) (hc : c.Ok S w A) :
    ∃ M', hstep S w n M c = .ok M' ∧ HRel S M' (exec S w pts A c) ∧ Keeps M M' := by
  cases c with
  | add i j =>
    obtain ⟨hi, hj, hr⟩ := hc
    obtain ⟨a, a1, a2, a3, a4⟩ := H.fetch hi
    obtain ⟨b, b1, b2, b3, b4⟩ := H.fetch hj
    obtain ⟨r, h', e1, e2, e3, e4, e5, e6, e7, e8⟩ := C23.heap_addNew_phase hS.n16 w.mredPsi (w.o n 0) (H.shape a3 b3 a4 b4 hr)
    have F := C52.ckksAddNew_fresh H.wf H.inp e1
    have := H.push (ev := M.st.ev) (rlk := M.st.rlk) H.ready F e2.hpool e2.dist e3 (fun c hc => ⟨e4 _ (H.own c hc).1 (H.own c hc).2,
      (F.unchanged H.wf (H.own c hc).1 (apart_ne H (H.own c hc).2) (fun id p hp ⟨x, hx⟩ => (H.own c hc).2 x id p hx hp)).1⟩)
      (add_result (out := hval C h' r) a4 b4 e5 e6 e7 e8)
    refine ⟨_, ?_, this⟩
    simp only [hstep]
    rw [a1, bind_ok, b1, bind_ok, e1, bind_ok]
  | sub i j =>
    obtain ⟨hi, hj, hr⟩ := hc
    obtain ⟨a, a1, a2, a3, a4⟩ := H.fetch hi
    obtain ⟨b, b1, b2, b3, b4⟩ := H.fetch hj
    obtain ⟨r, h', e1, e2, e3, e4, e5, e6, e7, e8⟩ := C23.heap_subNew_phase hS.n16 w.mredPsi (w.o n 0) (H.shape a3 b3 a4 b4 hr)
    have F := C52.ckksSubNew_fresh H.wf H.inp e1
    have := H.push (ev := M.st.ev) (rlk := M.st.rlk) H.ready F e2.hpool e2.dist e3 (fun c hc => ⟨e4 _ (H.own c hc).1 (H.own c hc).2,
      (F.unchanged H.wf (H.own c hc).1 (apart_ne H (H.own c hc).2) (fun id p hp ⟨x, hx⟩ => (H.own c hc).2 x id p hx hp)).1⟩)
      (sub_result (out := hval C h' r) a4 b4 e5 e6 e7 e8)
    refine ⟨_, ?_, this⟩
    simp only [hstep]
    rw [a1, bind_ok, b1, bind_ok, e1, bind_ok]
  | mul i j =>
    obtain ⟨hi, hj, hr⟩ := hc
    obtain ⟨a, a1, a2, a3, a4⟩ := H.fetch hi
    obtain ⟨b, b1, b2, b3, b4⟩ := H.fetch hj
    obtain ⟨o', R⟩ := ckksMulRelinNew_refines S.pscale S.crs (w.o n 0) M.st.ev (c0 := a) (c1 := b) M.st.rlk H.wf (H.own a a3).1 (H.own b b3).1
      a4.lvl.has0 b4.lvl.has0
    have hsame : decide (a.ct = b.ct) = true → hval C M.h b = hval C M.h a ∧ (A.info j).level = (A.info i).level := fun e => by
      have e := of_decide_eq_true e
      have ev : hval C M.h b = hval C M.h a := by unfold C23.hval; rw [e, H.one a a3 b b3 e]
      refine ⟨ev, ?_⟩
      have l0 := atLevel_level a4.lvl
      have l1 := atLevel_level b4.lvl
      rw [ev, l0] at l1
      injection l1 with l1
      exact l1.symm
    obtain ⟨out, E', rlk', e1, e2, e3⟩ := C59.mul V hS o' H.ready hsame a4 b4 hr
    obtain ⟨c', h', f1, f2⟩ := R _ e1
    have F := C52.ckksMulRelinNew_fresh H.wf f1
    refine ⟨_, ?_, H.push_fresh e2 F (approx_shows e3 rfl f2)⟩
    simp only [hstep]
    rw [a1, bind_ok, b1, bind_ok, f1, bind_ok]
  | rot i r =>
    obtain ⟨a, a1, a2, a3, a4⟩ := H.fetch hc
    obtain ⟨o', R⟩ := ckksRotateNew_refines S.crs (w.o n) M.st.ev (c := a) r S.rks H.wf (H.own a a3).1 a4.lvl.has0
    obtain ⟨out, E', e1, e2, e3⟩ := C59.rot V hS o' H.ready a4 r
    obtain ⟨c', h', f1, f2⟩ := R _ e1
    have F := C52.ckksRotateNew_fresh H.wf (H.own a a3).1 f1
    refine ⟨_, ?_, H.push_fresh e2 F (approx_shows e3 rfl (rep_shows f2))⟩
    simp only [hstep]
    rw [a1, bind_ok, f1, bind_ok]
  | conj i =>
    obtain ⟨hi, hr, hcj⟩ := hc
    obtain ⟨a, a1, a2, a3, a4⟩ := H.fetch hi
    obtain ⟨out, E', e1, e2, e3⟩ := C59.conj V hS hcj (w.o n 0) H.ready a4
    obtain ⟨c', h', f1, f2⟩ := ckksConjugateNew_refines _ S.crs (w.o n 0) M.st.ev (c := a) S.cks H.wf (H.own a a3).1 e1
    have F := C52.ckksConjugateNew_fresh H.wf f1
    refine ⟨_, ?_, H.push_fresh e2 F (approx_shows e3 rfl (rep_shows f2))⟩
    simp only [hstep]
    have hl : M.h.level a.ct = .ok (A.info i).level := by rw [level_value (C := C)]; exact atLevel_level a4.lvl
    rw [a1, bind_ok, hl, bind_ok, hr, f1, bind_ok]
  | hoist i =>
    obtain ⟨a, a1, a2, a3, a4⟩ := H.fetch hc
    obtain ⟨m, S', e1, e2, e3⟩ := C59.hoisted V (w.o n 0) H.ready a4
    refine ⟨⟨M.h, M.pool, ⟨{ M.st.ev with ksw := S' }, M.st.rlk⟩, M.cts, M.hs ++ [m]⟩, ?_,
      ⟨H.wf, H.inp, H.pool, H.dist, e2, H.own, H.one, H.cts, List.rel_append H.hs (.cons ⟨a, a2, hc, e3⟩ .nil)⟩, List.prefix_rfl, fun _ _ => rfl⟩
    simp only [hstep]
    rw [a1, bind_ok]
    change hoistedForm _ _ (value C M.h a.ct) = _ at e1
    rw [e1, bind_ok]
  | mulH i j k l =>
    obtain ⟨hi, hj, hk, hl, hr⟩ := hc
    obtain ⟨a, a1, a2, a3, a4⟩ := H.fetch hi
    obtain ⟨b, b1, b2, b3, b4⟩ := H.fetch hj
    obtain ⟨m0, m1, m2⟩ := H.fetchH hk a2
    obtain ⟨n0, n1, n2⟩ := H.fetchH hl b2
    obtain ⟨o', -, R⟩ := ckksMulRelinHoistedNew_refines S.pscale S.crs (w.o n 0) (c0 := a) (c1 := b) H.wf (H.own a a3).1 (H.own b b3).1
      a4.lvl.has0 b4.lvl.has0
    obtain ⟨out, E', e1, e2, e3⟩ := C59.mulHoisted V hS o' H.ready a4 b4 m2 n2 hr
    obtain ⟨c', h', f1, f2⟩ := R _ _ _ _ _ e1
    have F := C52.ckksMulRelinHoistedNew_fresh H.wf f1
    refine ⟨_, ?_, H.push_fresh e2 F (approx_shows e3 rfl f2)⟩
    simp only [hstep]
    rw [a1, bind_ok, b1, bind_ok, m1, bind_ok, n1, bind_ok, f1, bind_ok]
  | rotH i r k =>
    obtain ⟨hi, hk, hr⟩ := hc
    obtain ⟨a, a1, a2, a3, a4⟩ := H.fetch hi
    obtain ⟨m0, m1, m2⟩ := H.fetchH hk a2
    obtain ⟨out, E', e1, e2, e3⟩ := C59.rotHoisted V hS (w.o n) H.ready a4 r hr m2
    obtain ⟨c', h', f1, f2⟩ := ckksRotateHoistedNew_refines S.crs (w.o n) M.st.ev (c := a) r m0 S.rks H.wf (H.own a a3).1 e1
    have F := C52.ckksRotateHoistedNew_fresh H.wf f1
    refine ⟨_, ?_, H.push_fresh e2 F (approx_shows e3 rfl (rep_shows f2))⟩
    simp only [hstep]
    rw [a1, bind_ok, m1, bind_ok, f1, bind_ok]
  | mulPt i p =>
    obtain ⟨hi, hr⟩ := hc
    obtain ⟨a, a1, a2, a3, a4⟩ := H.fetch hi
    obtain ⟨o', R⟩ := mulPtxtNew_refines S.pscale (w.o n 0) M.st.ev (c := a) (w.pts p).1 (w.pts p).2 H.wf (H.own a a3).1 a4.lvl.has0
    obtain ⟨out, E', e1, e2, e3⟩ := C59.mulPt V hS o' H.ready a4 (hp.pos p) (hp.bdd p) ((hp.enc p).mono (by have := a4.lt; omega)) hr
    obtain ⟨c', h', f1, f2⟩ := R _ e1
    have F := C52.mulPtxtNew_fresh H.wf f1
    refine ⟨_, ?_, H.push_fresh e2 F (approx_shows e3 rfl f2)⟩
    simp only [hstep]
    rw [a1, bind_ok, f1, bind_ok]
  | drop i k =>
    obtain ⟨hi, hr⟩ := hc
    obtain ⟨a, a1, a2, a3, a4⟩ := H.fetch hi
    obtain ⟨r, h', e1, e2, e3, e4, e5⟩ := C26.heap_dropLevelNew_phase (w.o n 0 0) (w.o n 0 1) H.wf (H.own a a3).1 a4.lvl hr
    have F := C52.dropLevelNew_fresh (C := C) H.wf (H.own a a3).1 e1
    have ap : Approx S (hval C h' r) (A.val i) { A.info i with level := (A.info i).level - k } := by
      refine ⟨lt_of_le_of_lt (Nat.sub_le _ _) a4.lt, e3, e2.trans a4.scale, a4.pos, e4.trans a4.ids, a4.sub, a4.bdd, ?_⟩
      obtain ⟨Φ, f1, f2⟩ := a4.enc
      exact ⟨Φ, fun x hx => by
        show (value C h' r.ct).phase S.s x = _
        rw [e5 S.s x hx]; exact f1 x (le_trans hx (Nat.sub_le _ _)), f2⟩
    refine ⟨_, ?_, H.push_fresh H.ready F ap⟩
    simp only [hstep]
    rw [a1, bind_ok, e1, bind_ok]
  | const i k =>
    obtain ⟨hi, hr⟩ := hc
    obtain ⟨a, a1, a2, a3, a4⟩ := H.fetch hi
    obtain ⟨cp, r, e1, e2, F, ap⟩ := heap_const V hS w.mredPsi (w.o n 0 0) (w.o n 0 1) H.wf (H.own a a3).1 a4 hr
    refine ⟨_, ?_, H.push_fresh (r := ⟨cp.1, r.1⟩) H.ready F ap⟩
    simp only [hstep]
    rw [a1, bind_ok, e1, bind_ok, e2, bind_ok]
  | rescale i ms =>
    obtain ⟨hi, hr⟩ := hc
    obtain ⟨a, a1, a2, a3, a4⟩ := H.fetch hi
    obtain ⟨cp, r, e1, e2, F, ap⟩ := heap_rescale V hS (w.o n 0 0) (w.o n 0 1) H.wf (H.own a a3).1 a4 hr
    refine ⟨_, ?_, H.push_fresh H.ready F ap⟩
    simp only [hstep]
    rw [a1, bind_ok, e1, bind_ok, e2, bind_ok]

/-- **C63.** On any heap, with registers that share whatever they like among each other, every program whose calls meet their requirements runs to the
end, for every map iteration order; every register then holds an encryption of the real polynomial the program computes for it, within the computed error;
and every ciphertext the client held before has exactly the contents it had. -/
theorem program (V : C.Valid) (hS : S.Ok) (hp : PtsOk w pts) (p : List Instr) : ∀ (n : ℕ) {M : HMachine C} {A : Abs N}, HRel S M A → ProgOk S w pts A p →
    ∃ M', hrun S w n M p = .ok M' ∧ HRel S M' (execs S w pts A p) ∧ Keeps M M' := by
  induction p with
  | nil => exact fun n M A h _ => ⟨M, rfl, h, Keeps.refl M⟩
  | cons c p ih =>
    intro n M A h hok
    obtain ⟨M1, s1, s2, s3⟩ := hstep_ok V hS hp n h c hok.1
    obtain ⟨M2, r1, r2, r3⟩ := ih (n + 1) s2 hok.2
    refine ⟨M2, ?_, r2, s3.trans r3⟩
    simp only [hrun]
    rw [s1, bind_ok, r1]

/-- **C63, end to end.** After the program, decrypting any register on the heap with the keys of its parties, into a plaintext polynomial of the decryptor
that is not part of a register: the call returns, every register has the contents it had, and the centred representative of what the plaintext holds, divided
by the scale, is within `B / scale` of the polynomial the program computes, in every slot. -/
theorem program_decrypt (V : C.Valid) (hS : S.Ok) (hp : PtsOk w pts) (p : List Instr) (n : ℕ) {M : HMachine C} {A : Abs N} (H : HRel S M A)
    (hok : ProgOk S w pts A p) {i : ℕ} (hi : i < (execs S w pts A p).cts.length) {sks : KeySet (SKey C)}
    (hs : SKeys.Of sks ((execs S w pts A p).info i).ids S.s)
    (hfit : 2 * (((execs S w pts A p).info i).scale * ((execs S w pts A p).info i).V + ((execs S w pts A p).info i).B) <
      modulus C ((execs S w pts A p).info i).level) (o : Sched String) :
    ∃ M' c, hrun S w n M p = .ok M' ∧ M'.cts[i]? = some c ∧ c.scale = ((execs S w pts A p).info i).scale ∧ Keeps M M' ∧
      ∀ pt, pt < M'.h.npoly → ((execs S w pts A p).info i).level < M'.h.len pt → (∀ c ∈ M'.cts, ∀ id, (M'.h.ct c.ct).lookup id ≠ some pt) →
      ∃ h', Heap.ckksDecrypt o M'.h c.ct sks pt = .ok h' ∧ (∀ c ∈ M'.cts, value C h' c.ct = value C M'.h c.ct) ∧
      ∃ Φ : Nega N ℤ, (∀ k ≤ ((execs S w pts A p).info i).level, cf ((h'.view C pt).rows k) = red (C.q k) Φ) ∧
        (∀ Ψ : Nega N ℤ, (∀ k ≤ ((execs S w pts A p).info i).level, cf ((h'.view C pt).rows k) = red (C.q k) Ψ) →
          (∀ x, 2 * |Ψ x| ≤ modulus C ((execs S w pts A p).info i).level) → Ψ = Φ) ∧
        ∀ j : ℤ, ‖slot j (toReal Φ) / (((execs S w pts A p).info i).scale : ℂ) - slot j ((execs S w pts A p).val i)‖ ≤
          ((execs S w pts A p).info i).B / ((execs S w pts A p).info i).scale := by
  obtain ⟨M', r1, r2, r3⟩ := program V hS hp p n H hok
  obtain ⟨c, c1, c2, c3, c4⟩ := r2.fetch hi
  refine ⟨M', c, r1, c2, c4.scale, r3, fun pt hpt hlen hsep => ?_⟩
  obtain ⟨t, h1, e1⟩ := copyNew_returns (o 203) (value_mem.mp c4.lvl.has0)
  obtain ⟨Md, R⟩ := copyNew_rep (C := C) r2.wf (r2.own c c3).1 e1
  have hsame : (value C h1 t).Same (value C M'.h c.ct) := R.value
  have hat := hsame.symm.atLevel c4.lvl
  have hlen1 : h1.len pt = M'.h.len pt := congrArg Poly.len (Md.only.view (C := C) hpt (by simp))
  have hids : (value C h1 t).ids = ((execs S w pts A p).info i).ids := hsame.ids.trans c4.ids
  obtain ⟨h', d1, d2, d3, d4, d5, d6, d7, d8, d9⟩ := C20.decrypt_leaves_input (C := C) Md.wf R.lt (pt := pt) (lt_of_lt_of_le hpt Md.only.npoly) (by omega)
    (fun id e => by have := Md.new id pt e; omega) hat.toFlag c4.lt (by rw [hids]; exact hs) o
  have hmin : min ((execs S w pts A p).info i).level (h1.len pt - 1) = ((execs S w pts A p).info i).level := by omega
  rw [hmin] at d9
  have hrun' : Heap.ckksDecrypt o M'.h c.ct sks pt = .ok h' := by
    unfold Heap.ckksDecrypt
    rw [e1, bind_ok]
    exact d1
  obtain ⟨-, ho⟩ := C20.ckksDecrypt_writes_pool r2.wf (r2.own c c3).1 hpt hrun'
  obtain ⟨Φ, f1, -, f3, -, f5⟩ := centred V c4 hfit (pt := h'.view C pt) (fun k hk => by
    have := d9 k hk
    simp only [Bool.false_eq_true, if_false] at this
    rw [this, hsame.phase]
    rfl)
  exact ⟨h', hrun', fun d hd => ho.value r2.wf (r2.own d hd).1 (by simp) (fun id q hq e => hsep d hd id (by
    rw [Set.mem_singleton_iff] at e; rw [← e]; exact hq)), Φ, f1, f3, f5⟩

/-! ## every ciphertext encrypts something -/

/-- for every integer residues there is one polynomial -/
theorem exists_lift (V : C.Valid) {l : ℕ} (hl : l < C.nQ) (f : (i : ℕ) → Nega N (ZMod (C.q i))) :
    ∃ Φ : Nega N ℤ, ∀ i ≤ l, f i = red (C.q i) Φ := by
  have key : ∀ x, ∃ k : ℕ, ∀ i ∈ Finset.range (l + 1), k ≡ (f i x).val [MOD C.q i] := fun x => by
    obtain ⟨k, hk⟩ := Nat.chineseRemainderOfFinset (fun i => (f i x).val) C.q (Finset.range (l + 1))
      (fun i hi => (V.pair.primeQ i (by have := Finset.mem_range.mp hi; omega)).ne_zero) (fun a ha b hb hab => by
        have ha' := Finset.mem_range.mp (Finset.mem_coe.mp ha)
        have hb' := Finset.mem_range.mp (Finset.mem_coe.mp hb)
        exact (Nat.coprime_primes (V.pair.primeQ _ (by omega)) (V.pair.primeQ _ (by omega))).mpr fun e => hab
          (V.pair.distinctQ _ (by omega) _ (by omega) e))
    exact ⟨k, hk⟩
  choose k hk using key
  let Φ : Nega N ℤ := fun x => (k x : ℤ)
  refine ⟨Φ, fun i hi => Nega.ext fun x => ?_⟩
  have : NeZero (C.q i) := ⟨(V.pair.primeQ i (by omega)).ne_zero⟩
  rw [red_apply]
  show _ = (((k x : ℕ) : ℤ) : ZMod (C.q i))
  have := (ZMod.natCast_eq_natCast_iff _ _ _).mpr (hk x i (Finset.mem_range.mpr (by omega)))
  rw [ZMod.natCast_zmod_val] at this
  rw [← this]
  push_cast
  rfl

/-- any ciphertext of parties of the system, in coefficient form, is an encryption of some real polynomial -/
theorem approx_any (V : C.Valid) {ct : CCt C} {l : ℕ} (hl : l < C.nQ) (h : ct.ct.AtLevel l) (hs : 0 < ct.scale) (hU : ct.ct.ids ⊆ S.U) :
    ∃ v B, Approx S ct v ⟨l, ct.scale, ct.ct.ids, B, 0⟩ := by
  obtain ⟨Φ, hΦ⟩ := exists_lift V hl (fun i => ct.ct.phase S.s i)
  have hs' : (ct.scale : ℝ) ≠ 0 := by exact_mod_cast hs.ne'
  have hb : ∀ u : Nega N ℝ, ∃ b : ℝ, RBdd u b := fun u =>
    ⟨∑ x, |u x|, fun x => Finset.single_le_sum (f := fun x => |u x|) (fun y _ => abs_nonneg _) (Finset.mem_univ x)⟩
  obtain ⟨b, hb⟩ := hb (Nega.C ((ct.scale : ℝ)⁻¹) * toReal Φ)
  refine ⟨Nega.C ((ct.scale : ℝ)⁻¹) * toReal Φ, _, hl, h, rfl, hs, rfl, hU, RBdd.slots hb, Φ, fun i hi => hΦ i hi, fun j => ?_⟩
  rw [slot_smul, ← mul_assoc]
  have : ((ct.scale : ℝ) : ℂ) * (((ct.scale : ℝ)⁻¹ : ℝ) : ℂ) = 1 := by
    rw [← Complex.ofReal_mul, mul_inv_cancel₀ hs', Complex.ofReal_one]
  dsimp only
  rw [this, one_mul, sub_self, norm_zero]

end C63
end MKHE
