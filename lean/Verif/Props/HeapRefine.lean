import Verif.Lemmas.HeapNewSim

set_option autoImplicit false
set_option linter.unusedSectionVars false

/-!
# C63: on the heap, rotation, conjugation and multiplication return what they return on values, whatever the operands share

Each theorem says: for some schedule `o'`, if the function on the *contents* of the operands returns `r`, then the function on the heap returns, with the
same private state, and its result holds `r`.
-/

namespace MKHE
namespace C63
open Heap
variable {N : ℕ} [NeZero N] {C : Ctx N} {h : Heap N}

theorem range_value (o : Order String) (h : Heap N) (c : ℕ) : GoMap.range o (value C h c) = GoMap.range o (h.ct c) := by
  unfold GoMap.range
  rw [value_keys]

/-- what a call that makes a new ciphertext knows about it -/
theorem made {c : ℕ} (W : WF h) (hc : c < h.nct) {r : ℕ} {h1 : Heap N} (M : Made h r h1) :
    c < h1.nct ∧ Apart h1 r c ∧ Apart h1 c r ∧ value C h1 c = value C h c ∧ h1.ct c = h.ct c := by
  refine ⟨?_, (M.apart W hc).1, (M.apart W hc).2, M.value_old W hc, M.only.ct c hc (by simp)⟩
  have := M.nct; omega

/-- `rotate` of the CKKS evaluator into a receiver apart from the operand -/
theorem ckksRotate_refines (crs : GoMap ℤ (Swk C)) (o : ℕ → Sched String) (S : Scratch C) {c out : ℕ} (rotidx : ℤ) (rks : RotKeySet (GalKey C))
    (W : WF h) (hc : c < h.nct) (ho : out < h.nct) (a1 : Apart h out c) (h0 : "0" ∈ value C h c) :
    ∃ o' : ℕ → Sched String, o' 0 63 = o 0 63 ∧ o' 0 64 = o 0 64 ∧ ∀ (ov : Ct C) (w : Ct C × Scratch C), Rep h out ov →
      MKHE.ckksRotate crs o' S (value C h c) rotidx rks ov = .ok w →
      ∃ h', Heap.ckksRotate crs o S c rotidx rks out h = .ok (h', w.2) ∧ Rep h' out w.1 := by
  unfold Heap.ckksRotate MKHE.ckksRotate
  dsimp only
  by_cases hr : rotNorm N rotidx = 0
  · refine ⟨o, rfl, rfl, fun ov w R e => ?_⟩
    rw [if_pos hr] at e ⊢
    obtain ⟨u, e1, e⟩ := Go.bind_ok e
    cases e
    obtain ⟨h', b1, b2⟩ := copy_sim R hc a1 (Ct.Same.refl _) (o := o 0 61) (range_value _ _ _) e1
    exact ⟨h', by rw [b1, bind_ok], b2.rep⟩
  · by_cases hp : (crs.lookup (rotNorm N rotidx)).isSome
    · refine ⟨o, rfl, rfl, fun ov w R e => ?_⟩
      rw [if_neg hr, if_pos hp] at e ⊢
      obtain ⟨h', b1, b2⟩ := rotateWith_sim (o := o 0) R hc a1 (Ct.Same.refl _) (range_value _ _ _) rfl (range_value _ _ _) e
      exact ⟨h', b1, b2.rep⟩
    · obtain ⟨t, h1, e0⟩ := copyNew_returns (o 0 62) (value_mem.mp h0)
      refine ⟨viaRot (h1.ct t).keys (h1.ct out).keys o, ?_, ?_, fun ov w R e => ?_⟩
      · unfold viaRot; rw [if_neg (by omega), if_neg (by omega)]
      · unfold viaRot; rw [if_neg (by omega), if_neg (by omega)]
      · rw [if_neg hr, if_neg hp] at e ⊢
        obtain ⟨tv, e1, e⟩ := Go.bind_ok e
        obtain ⟨t', h1', f1, M, Rt⟩ := copyNew_sim (o := o 0 62) W hc e1
        rw [e0] at f1
        injection f1 with f1
        injection f1 with f1 f2
        subst f1 f2
        obtain ⟨k1, k2, k3, k4, k5⟩ := made (C := C) W ho M
        have Ro : Rep h1 out ov := ⟨M.wf, k1, by rw [k5]; exact R.inj, fun id => by
          rw [R.eq id, ← value_lookup, ← k4, value_lookup]⟩
        obtain ⟨h', b1, b2⟩ := rotLoop_sim _ Rt Ro k3 k2 e
        exact ⟨h', by rw [e0, bind_ok]; exact b1, b2⟩

/-- **C63, RotateNew (CKKS)** -/
theorem ckksRotateNew_refines (crs : GoMap ℤ (Swk C)) (o : ℕ → Sched String) (E : Eval C) {c : HCt} (rotidx : ℤ) (rks : RotKeySet (GalKey C))
    (W : WF h) (hc : c.ct < h.nct) (h0 : "0" ∈ value C h c.ct) :
    ∃ o' : ℕ → Sched String, ∀ r, MKHE.ckksRotateNew crs o' E ⟨value C h c.ct, c.scale⟩ rotidx rks = .ok r →
      ∃ c' h', Heap.ckksRotateNew crs o E c rotidx rks h = .ok ((⟨c', r.1.scale⟩, r.2), h') ∧ Rep h' c' r.1.ct := by
  obtain ⟨ids, e1, -⟩ := Ct.idset (o 0 63) (value C h c.ct)
  obtain ⟨P, hP⟩ := Ct.get h0
  have hl : (value C h c.ct).level = .ok (P.len - 1) := by unfold Ct.level; rw [GoMap.deref_ok hP, bind_ok]
  obtain ⟨M, -, -⟩ := newCt_spec (C := C) (o 0 64) ids (P.len - 1) W
  obtain ⟨k1, k2, k3, k4, k5⟩ := made (C := C) W hc M
  obtain ⟨o', q1, q2, H⟩ := ckksRotate_refines crs o E.ksw rotidx rks M.wf k1 (M.into ∅).1 k2 (by rw [k4]; exact h0)
  refine ⟨o', fun r e => ?_⟩
  unfold MKHE.ckksRotateNew at e
  dsimp only at e
  rw [q1, e1, bind_ok, hl, bind_ok, q2] at e
  obtain ⟨w, e2, e⟩ := Go.bind_ok e
  cases e
  rw [k4] at H
  obtain ⟨h', b1, b2⟩ := H _ w (newCt_rep (o 0 64) (o 0 64) ids (P.len - 1) W) e2
  refine ⟨_, h', ?_, b2⟩
  unfold Heap.ckksRotateNew
  rw [idSet_value (C := C), e1, bind_ok, level_value (C := C), hl, bind_ok]
  dsimp only
  rw [b1, bind_ok]

/-- **C63, RotateHoistedNew (CKKS)** -/
theorem ckksRotateHoistedNew_refines (crs : GoMap ℤ (Swk C)) (o : ℕ → Sched String) (E : Eval C) {c : HCt} (rotidx : ℤ) (hh : HoistedCt C)
    (rks : RotKeySet (GalKey C)) (W : WF h) (hc : c.ct < h.nct) {r : CCt C × Eval C}
    (e : MKHE.ckksRotateHoistedNew crs o E ⟨value C h c.ct, c.scale⟩ rotidx hh rks = .ok r) :
    ∃ c' h', Heap.ckksRotateHoistedNew crs o E c rotidx hh rks h = .ok ((⟨c', r.1.scale⟩, r.2), h') ∧ Rep h' c' r.1.ct := by
  obtain ⟨ids, e1, e⟩ := Go.bind_ok e
  obtain ⟨level, hl, e⟩ := Go.bind_ok e
  obtain ⟨w, e2, e⟩ := Go.bind_ok e
  cases e
  obtain ⟨M, -, -⟩ := newCt_spec (C := C) (o 0 64) ids level W
  obtain ⟨k1, k2, k3, k4, k5⟩ := made (C := C) W hc M
  have R := newCt_rep (C := C) (o 0 64) (o 0 64) ids level W
  unfold Heap.ckksRotateHoistedNew
  rw [idSet_value (C := C), e1, bind_ok, level_value (C := C), hl, bind_ok]
  dsimp only
  unfold MKHE.ckksRotateHoisted at e2
  unfold Heap.ckksRotateHoisted
  dsimp only at e2 ⊢
  rw [← k4] at e2
  split at e2
  · rename_i hr
    rw [if_pos hr]
    obtain ⟨u, e3, e2⟩ := Go.bind_ok e2
    cases e2
    obtain ⟨h', b1, b2⟩ := copy_sim R k1 k2 (Ct.Same.refl _) (o := o 0 61) (range_value _ _ _) e3
    exact ⟨_, h', by rw [b1]; rfl, b2.rep⟩
  · rename_i hr
    rw [if_neg hr]
    split at e2
    · rename_i hp
      rw [if_pos hp]
      obtain ⟨h', b1, b2⟩ := rotateWith_sim (o := o 0) R k1 k2 (Ct.Same.refl _) (range_value _ _ _) rfl (range_value _ _ _) e2
      exact ⟨_, h', by rw [b1, bind_ok], b2.rep⟩
    · cases e2

/-- **C63, ConjugateNew (CKKS)** -/
theorem ckksConjugateNew_refines (permLevel : ℕ) (crs : GoMap ℤ (Swk C)) (o : Sched String) (E : Eval C) {c : HCt} (cks : KeySet (GalKey C))
    (W : WF h) (hc : c.ct < h.nct) {r : CCt C × Eval C}
    (e : MKHE.ckksConjugateNew permLevel crs o E ⟨value C h c.ct, c.scale⟩ cks = .ok r) :
    ∃ c' h', Heap.ckksConjugateNew permLevel crs o E c cks h = .ok ((⟨c', r.1.scale⟩, r.2), h') ∧ Rep h' c' r.1.ct := by
  obtain ⟨ids, e1, e⟩ := Go.bind_ok e
  obtain ⟨level, hl, e⟩ := Go.bind_ok e
  obtain ⟨w, e2, e⟩ := Go.bind_ok e
  cases e
  obtain ⟨M, -, -⟩ := newCt_spec (C := C) (o 64) ids level W
  obtain ⟨k1, k2, k3, k4, k5⟩ := made (C := C) W hc M
  have R := newCt_rep (C := C) (o 64) (o 64) ids level W
  unfold Heap.ckksConjugateNew
  rw [idSet_value (C := C), e1, bind_ok, level_value (C := C), hl, bind_ok]
  dsimp only
  dsimp only at e2
  rw [← k4] at e2
  obtain ⟨h', b1, b2⟩ := conjugate_sim (o := o) R k1 k2 (Ct.Same.refl _) (range_value _ _ _) (range_value _ _ _) rfl rfl e2
  exact ⟨_, h', by rw [b1, bind_ok], b2.rep⟩

/-- **C63, RotateNew (BFV)** -/
theorem bfvRotateNew_refines (crs : GoMap ℤ (Swk C)) (o : ℕ → Sched String) (S : Scratch C) {c : ℕ} (rotidx : ℤ) (rks : RotKeySet (GalKey C))
    (W : WF h) (hc : c < h.nct) (h0 : "0" ∈ value C h c) :
    ∃ o' : ℕ → Sched String, ∀ r, MKHE.bfvRotateNew crs o' S (value C h c) rotidx rks = .ok r →
      ∃ c' h', Heap.bfvRotateNew crs o S c rotidx rks h = .ok ((c', r.2), h') ∧ Rep h' c' r.1 := by
  obtain ⟨ids, e1, -⟩ := Ct.idset (o 0 63) (value C h c)
  obtain ⟨M, -, -⟩ := newCt_spec (C := C) (o 0 64) ids (C.nQ - 1) W
  have R := fun o' => newCt_rep (C := C) (o 0 64) o' ids (C.nQ - 1) W
  obtain ⟨k1, k2, k3, k4, k5⟩ := made (C := C) W hc M
  have hh : ∀ h', Heap.bfvRotate crs o S c rotidx rks (newCt (o 0 64) ids (C.nQ - 1) h).1 (newCt (o 0 64) ids (C.nQ - 1) h).2 = .ok h' →
      Heap.bfvRotateNew crs o S c rotidx rks h = .ok (((newCt (o 0 64) ids (C.nQ - 1) h).1, h'.2), h'.1) := by
    intro h' e
    unfold Heap.bfvRotateNew
    rw [idSet_value (C := C), e1, bind_ok]
    dsimp only
    rw [e, bind_ok]
  unfold Heap.bfvRotate at hh
  unfold MKHE.bfvRotateNew MKHE.bfvRotate
  dsimp only at hh ⊢
  by_cases hr : rotNorm N rotidx = 0
  · refine ⟨o, fun r e => ?_⟩
    rw [e1, bind_ok, if_pos hr] at e
    obtain ⟨u, e2, e⟩ := Go.bind_ok e
    cases e
    rw [← k4] at e2
    obtain ⟨h', b1, b2⟩ := copy_sim (R _) k1 k2 (Ct.Same.refl _) (o := o 0 61) (range_value _ _ _) e2
    exact ⟨_, h', hh (h', S) (by rw [if_pos hr, b1, bind_ok]), b2.rep⟩
  · obtain ⟨t, h1, e0⟩ := copyNew_returns (o 0 62) (h := (newCt (o 0 64) ids (C.nQ - 1) h).2) (c := c) (value_mem (C := C).mp (by rw [k4]; exact h0))
    set g := (newCt (o 0 64) ids (C.nQ - 1) h).2 with hg
    set out := (newCt (o 0 64) ids (C.nQ - 1) h).1 with hout
    have key : ∀ {o1 : Order String} {tv : Ct C}, (value C h c).copyNew o1 = .ok tv → Made g t h1 ∧ Rep h1 t tv := by
      intro o1 tv e
      rw [← k4] at e
      obtain ⟨t', h1', f1, M, Rt⟩ := copyNew_sim (o := o 0 62) M.wf k1 e
      rw [e0] at f1
      injection f1 with f1
      injection f1 with f1 f2
      subst f1 f2
      exact ⟨M, Rt⟩
    have hRo : ∀ {tv : Ct C} (ov : Ct C), Made g t h1 → Rep h1 t tv → Rep g out ov → Rep h1 out ov ∧ Apart h1 out t ∧ Apart h1 t out := by
      intro tv ov M1 Rt Ro
      obtain ⟨j1, j2, j3, j4, j5⟩ := made (C := C) M.wf (M.into ∅).1 M1
      exact ⟨⟨M1.wf, j1, by rw [j5]; exact Ro.inj, fun id => by rw [Ro.eq id, ← value_lookup, ← j4, value_lookup]⟩, j3, j2⟩
    by_cases hp : (crs.lookup (rotNorm N rotidx)).isSome
    · refine ⟨viaRot (h1.ct t).keys (h1.ct out).keys o, fun r e => ?_⟩
      have q1 : viaRot (h1.ct t).keys (h1.ct out).keys o 0 63 = o 0 63 := by unfold viaRot; rw [if_neg (by omega), if_neg (by omega)]
      have q2 : viaRot (h1.ct t).keys (h1.ct out).keys o 0 21 = o 0 21 := by unfold viaRot; rw [if_neg (by omega), if_neg (by omega)]
      rw [q1, e1, bind_ok, if_neg hr] at e
      obtain ⟨tv, e2, e⟩ := Go.bind_ok e
      rw [if_pos hp] at e
      obtain ⟨M1, Rt⟩ := key e2
      obtain ⟨Ro, j1, j2⟩ := hRo _ M1 Rt (R _)
      obtain ⟨h', b1, b2⟩ := rotateWith_sim (o := o 0) Ro Rt.lt j1 (ctIn := tv) (fun id => by rw [value_lookup]; exact Rt.eq id)
          (by unfold viaRot; rw [if_pos (Or.inl rfl)]; exact Rt.range_via _) q2
          (by unfold viaRot; rw [if_pos (Or.inr rfl)]; exact Rt.range_via _) e
      refine ⟨_, h', hh (h', r.2) ?_, b2.rep⟩
      rw [if_neg hr, e0, bind_ok, if_pos hp]
      exact b1
    · refine ⟨viaRot (h1.ct t).keys (h1.ct out).keys o, fun r e => ?_⟩
      have q1 : viaRot (h1.ct t).keys (h1.ct out).keys o 0 63 = o 0 63 := by unfold viaRot; rw [if_neg (by omega), if_neg (by omega)]
      rw [q1, e1, bind_ok, if_neg hr] at e
      obtain ⟨tv, e2, e⟩ := Go.bind_ok e
      rw [if_neg hp] at e
      obtain ⟨M1, Rt⟩ := key e2
      obtain ⟨Ro, j1, j2⟩ := hRo _ M1 Rt (R _)
      obtain ⟨h', b1, b2⟩ := rotLoop_sim _ Rt Ro j1 j2 e
      refine ⟨_, h', hh (h', r.2) ?_, b2⟩
      rw [if_neg hr, e0, bind_ok, if_neg hp]
      exact b1

/-- **C63, ConjugateNew (BFV)** -/
theorem bfvConjugateNew_refines (permLevel : ℕ) (crs : GoMap ℤ (Swk C)) (o : Sched String) (S : Scratch C) {c : ℕ} (cks : KeySet (GalKey C))
    (W : WF h) (hc : c < h.nct) (h0 : "0" ∈ value C h c) :
    ∃ o' : Sched String, ∀ r, MKHE.bfvConjugateNew permLevel crs o' S (value C h c) cks = .ok r →
      ∃ c' h', Heap.bfvConjugateNew permLevel crs o S c cks h = .ok ((c', r.2), h') ∧ Rep h' c' r.1 := by
  obtain ⟨ids, e1, -⟩ := Ct.idset (o 63) (value C h c)
  obtain ⟨M, -, -⟩ := newCt_spec (C := C) (o 64) ids (C.nQ - 1) W
  have R := fun o' => newCt_rep (C := C) (o 64) o' ids (C.nQ - 1) W
  obtain ⟨k1, k2, k3, k4, k5⟩ := made (C := C) W hc M
  obtain ⟨t, h1, e0⟩ := copyNew_returns (o 62) (h := (newCt (o 64) ids (C.nQ - 1) h).2) (c := c) (value_mem (C := C).mp (by rw [k4]; exact h0))
  set g := (newCt (o 64) ids (C.nQ - 1) h).2 with hg
  set out := (newCt (o 64) ids (C.nQ - 1) h).1 with hout
  refine ⟨fun n => if n = 30 ∨ n = 31 then (o n).via (h1.ct t).keys else o n, fun r e => ?_⟩
  unfold MKHE.bfvConjugateNew at e
  dsimp only at e
  rw [if_neg (by omega), e1, bind_ok] at e
  obtain ⟨tv, e2, e⟩ := Go.bind_ok e
  rw [← k4] at e2
  obtain ⟨t', h1', f1, M1, Rt⟩ := copyNew_sim (o := o 62) M.wf k1 e2
  rw [e0] at f1
  injection f1 with f1
  injection f1 with f1 f2
  subst f1 f2
  obtain ⟨j1, j2, j3, j4, j5⟩ := made (C := C) M.wf (M.into ∅).1 M1
  have Ro : ∀ o', Rep h1 out (Ct.new o' ids (C.nQ - 1) : Ct C) := fun o' =>
    ⟨M1.wf, j1, by rw [j5]; exact (R o').inj, fun id => by rw [(R o').eq id, ← value_lookup, ← j4, value_lookup]⟩
  obtain ⟨h', b1, b2⟩ := conjugate_sim (o := o) (Ro _) Rt.lt j3 (ctIn := tv) (fun id => by rw [value_lookup]; exact Rt.eq id)
    (by rw [if_pos (Or.inl rfl)]; exact Rt.range_via _) (by rw [if_pos (Or.inr rfl)]; exact Rt.range_via _)
    (by rw [if_neg (by omega)]) (by rw [if_neg (by omega)]) e
  refine ⟨out, h', ?_, b2.rep⟩
  unfold Heap.bfvConjugateNew
  rw [idSet_value (C := C), e1, bind_ok]
  dsimp only
  rw [← hout, ← hg, e0, bind_ok]
  dsimp only
  rw [b1, bind_ok]

end C63
end MKHE
