import Verif.Lemmas.HeapEvalOk
import Verif.Props.HeapOps

set_option autoImplicit false
set_option linter.unusedSectionVars false

/-!
# C52, continued: rotation, conjugation, multiplication write only to memory they allocated

No hypothesis on keys, levels or sharing: whatever the call returns, it returns a new ciphertext made of new polynomials, and every ciphertext that
existed before (operands, other results, ciphertexts sharing polynomials with the operands) has the contents it had.
-/

namespace MKHE.C52
open MKHE MKHE.Heap
variable {N : ℕ} [NeZero N] {C : Ctx N} {h h' : Heap N}

theorem Fresh.of_wrote {h1 : Heap N} {r : ℕ} {Wp Wc : Set ℕ} (M : Made h r h1) (w : Wrote h Wp Wc h1 h') : Fresh Wp Wc h r h' :=
  Fresh.of_made M w.1 (by rw [w.2.1]) (by rw [w.2.2])

/-- a second new ciphertext after a first one -/
theorem second {h1 h2 : Heap N} {out t : ℕ} (M : Made h out h1) (M2 : Made h1 t h2) :
    Ok h ∅ ∅ h2 ∧ Into h ∅ h2 t ∧ Into h ∅ h2 out ∧ h2.ct out = h1.ct out ∧ h1.nct ≤ h2.nct := by
  have hc : h2.ct out = h1.ct out := M2.only.ct _ (M.into ∅).1 (by simp)
  have hn := M2.only.nct
  refine ⟨(Ok.mk M.wf M.only : Ok h ∅ ∅ h1).fresh M2.wf M2.only, ⟨(M2.into ∅).1, fun id p hp => Or.inr ?_⟩,
    ⟨lt_of_lt_of_le (M.into ∅).1 hn, fun id p hp => (M.into ∅).2 id p (by rwa [hc] at hp)⟩, hc, hn⟩
  exact le_trans M.only.npoly (M2.new id p hp).1

theorem Fresh.of_second {h1 h2 : Heap N} {out t : ℕ} (M : Made h out h1) (M2 : Made h1 t h2) (w : Wrote h ∅ ∅ h2 h') : Fresh ∅ ∅ h out h' := by
  obtain ⟨-, -, -, a, b⟩ := second M M2
  exact Fresh.of_made M w.1 (by rw [w.2.1, a]) (by rw [w.2.2]; exact b)

/-- **C52, RotateNew (CKKS)**: for every amount, also one composed of several key switches -/
theorem ckksRotateNew_fresh (W : WF h) {crs : GoMap ℤ (Swk C)} {o : ℕ → Sched String} {E E' : Eval C} {c r : HCt} {k : ℤ}
    {rks : RotKeySet (GalKey C)} (hc : c.ct < h.nct) (e : Heap.ckksRotateNew crs o E c k rks h = .ok ((r, E'), h')) : Fresh ∅ ∅ h r.ct h' := by
  obtain ⟨ids, -, e⟩ := Go.bind_ok e
  obtain ⟨level, -, e⟩ := Go.bind_ok e
  obtain ⟨w, e1, e⟩ := Go.bind_ok e
  cases e
  obtain ⟨M, -⟩ := newCt_spec (C := C) (o 0 64) ids level W
  have K : Ok h ∅ ∅ (newCt (o 0 64) ids level h).2 := ⟨M.wf, M.only⟩
  unfold Heap.ckksRotate at e1
  dsimp only at e1
  split at e1
  · obtain ⟨h2, e2, e1⟩ := Go.bind_ok e1
    cases e1
    exact Fresh.of_wrote M (copy_ok K (M.into ∅) e2)
  · split at e1
    · exact Fresh.of_wrote M (rotateWith_ok K (M.into ∅) e1)
    · obtain ⟨v, e2, e1⟩ := Go.bind_ok e1
      obtain ⟨M2, -⟩ := copyNew_spec (C := C) (c' := v.1) (h' := v.2) M.wf (by have := M.nct; omega) e2
      obtain ⟨K2, I2, I1, -⟩ := second M M2
      exact Fresh.of_second M M2 (rotLoop_ok _ _ K2 I2 I1 e1)

/-- **C52, RotateHoistedNew** -/
theorem ckksRotateHoistedNew_fresh (W : WF h) {crs : GoMap ℤ (Swk C)} {o : ℕ → Sched String} {E E' : Eval C} {c r : HCt} {k : ℤ}
    {hc : HoistedCt C} {rks : RotKeySet (GalKey C)} (e : Heap.ckksRotateHoistedNew crs o E c k hc rks h = .ok ((r, E'), h')) : Fresh ∅ ∅ h r.ct h' := by
  obtain ⟨ids, -, e⟩ := Go.bind_ok e
  obtain ⟨level, -, e⟩ := Go.bind_ok e
  obtain ⟨w, e1, e⟩ := Go.bind_ok e
  cases e
  obtain ⟨M, -⟩ := newCt_spec (C := C) (o 0 64) ids level W
  have K : Ok h ∅ ∅ (newCt (o 0 64) ids level h).2 := ⟨M.wf, M.only⟩
  unfold Heap.ckksRotateHoisted at e1
  dsimp only at e1
  split at e1
  · obtain ⟨h2, e2, e1⟩ := Go.bind_ok e1
    cases e1
    exact Fresh.of_wrote M (copy_ok K (M.into ∅) e2)
  · split at e1
    · exact Fresh.of_wrote M (rotateWith_ok K (M.into ∅) e1)
    · cases e1

/-- **C52, ConjugateNew (CKKS)** -/
theorem ckksConjugateNew_fresh (W : WF h) {permLevel : ℕ} {crs : GoMap ℤ (Swk C)} {o : Sched String} {E E' : Eval C} {c r : HCt}
    {cks : KeySet (GalKey C)} (e : Heap.ckksConjugateNew permLevel crs o E c cks h = .ok ((r, E'), h')) : Fresh ∅ ∅ h r.ct h' := by
  obtain ⟨ids, -, e⟩ := Go.bind_ok e
  obtain ⟨level, -, e⟩ := Go.bind_ok e
  obtain ⟨w, e1, e⟩ := Go.bind_ok e
  cases e
  obtain ⟨M, -⟩ := newCt_spec (C := C) (o 64) ids level W
  exact Fresh.of_wrote M (conjugate_ok ⟨M.wf, M.only⟩ (M.into ∅) e1)

/-- **C52, MulRelinHoistedNew** -/
theorem ckksMulRelinHoistedNew_fresh (W : WF h) {pscale : ℚ} {crs : GoMap ℤ (Swk C)} {o : Sched String} {E E' : Eval C} {op0 op1 r : HCt}
    {h0 h1 : Option (HoistedCt C)} {rlk : RlkMap C} (e : Heap.ckksMulRelinHoistedNew pscale crs o E op0 op1 h0 h1 rlk h = .ok ((r, E'), h')) :
    Fresh ∅ ∅ h r.ct h' := by
  obtain ⟨w, e1, e⟩ := Go.bind_ok e
  obtain ⟨l0, -, e1⟩ := Go.bind_ok e1
  obtain ⟨l1, -, e1⟩ := Go.bind_ok e1
  obtain ⟨ids0, -, e1⟩ := Go.bind_ok e1
  obtain ⟨ids1, -, e1⟩ := Go.bind_ok e1
  obtain ⟨ids, -, e1⟩ := Go.bind_ok e1
  cases e1
  obtain ⟨_, -, e⟩ := Go.bind_ok e
  obtain ⟨_, -, e⟩ := Go.bind_ok e
  obtain ⟨lo, -, e⟩ := Go.bind_ok e
  obtain ⟨h2, e2, e⟩ := Go.bind_ok e
  obtain ⟨w, e3, e⟩ := Go.bind_ok e
  obtain ⟨v, e4, e⟩ := Go.bind_ok e
  cases e
  obtain ⟨M, -⟩ := newCt_spec (C := C) (o 84) ids (min l0 l1) W
  have K : Ok h ∅ ∅ (newCt (o 84) ids (min l0 l1) h).2 := ⟨M.wf, M.only⟩
  have w2 : Wrote h ∅ ∅ (newCt (o 84) ids (min l0 l1) h).2 h2 := by
    unfold Heap.dropTo at e2
    split at e2
    · exact dropLevel_ok K (M.into ∅) e2
    · cases e2; exact Wrote.refl K
  have w3 := w2.trans (mulAndRelinHoisted_ok w2.1 (w2.into (M.into ∅)) e3)
  obtain ⟨w4, er⟩ := rescale_same_ok (r := v.1.2) (err := v.1.1) (h' := v.2) w3.1 (w3.into (M.into ∅)) e4
  rw [er]
  exact Fresh.of_wrote M (w3.trans w4)

/-- **C52, MulRelinNew (CKKS)**: also for `MulRelinNew(ct, ct, rlk)` and for operands that share polynomials -/
theorem ckksMulRelinNew_fresh (W : WF h) {pscale : ℚ} {crs : GoMap ℤ (Swk C)} {o : Sched String} {E E' : Eval C} {op0 op1 r : HCt}
    {rlk rlk' : RlkMap C} (e : Heap.ckksMulRelinNew pscale crs o E op0 op1 rlk h = .ok ((r, E', rlk'), h')) : Fresh ∅ ∅ h r.ct h' := by
  unfold Heap.ckksMulRelinNew at e
  split at e
  · obtain ⟨_, -, e⟩ := Go.bind_ok e
    obtain ⟨v, e1, e⟩ := Go.bind_ok e
    cases e
    exact ckksMulRelinHoistedNew_fresh (E' := v.1.2) W e1
  · obtain ⟨_, -, e⟩ := Go.bind_ok e
    obtain ⟨_, -, e⟩ := Go.bind_ok e
    obtain ⟨v, e1, e⟩ := Go.bind_ok e
    cases e
    exact ckksMulRelinHoistedNew_fresh (E' := v.1.2) W e1

/-- **C52, MulPtxtNew** -/
theorem mulPtxtNew_fresh (W : WF h) {pscale : ℚ} {o : Sched String} {E E' : Eval C} {c r : HCt} {pt : Poly C} {ptScale : ℚ}
    (e : Heap.mulPtxtNew pscale o E c pt ptScale h = .ok ((r, E'), h')) : Fresh ∅ ∅ h r.ct h' := by
  obtain ⟨ids, -, e⟩ := Go.bind_ok e
  obtain ⟨level, -, e⟩ := Go.bind_ok e
  obtain ⟨_, -, e⟩ := Go.bind_ok e
  obtain ⟨h2, e2, e⟩ := Go.bind_ok e
  obtain ⟨v, e3, e⟩ := Go.bind_ok e
  cases e
  obtain ⟨M, -⟩ := newCt_spec (C := C) (o 101) ids level W
  have w2 : Wrote h ∅ ∅ (newCt (o 101) ids level h).2 h2 := by
    refine loop_out ⟨M.wf, M.only⟩ (M.into ∅) (fun h3 id h4 k i e => ?_) e2
    obtain ⟨_, -, e⟩ := Go.bind_ok e
    obtain ⟨_, -, e⟩ := Go.bind_ok e
    obtain ⟨x1, e1, e⟩ := Go.bind_ok e
    obtain ⟨x2, e2, e⟩ := Go.bind_ok e
    have w1 := upd_ok k i e1
    have w2 := w1.trans (upd_ok w1.1 (w1.into i) e2)
    exact w2.trans (upd_ok w2.1 (w2.into i) e)
  obtain ⟨w3, er⟩ := rescale_same_ok (r := v.1.2) (err := v.1.1) (h' := v.2) w2.1 (w2.into (M.into ∅)) e3
  rw [er]
  exact Fresh.of_wrote M (w2.trans w3)

/-- **C52, RotateNew (BFV)** -/
theorem bfvRotateNew_fresh (W : WF h) {crs : GoMap ℤ (Swk C)} {o : ℕ → Sched String} {S S' : Scratch C} {c r : ℕ} {k : ℤ}
    {rks : RotKeySet (GalKey C)} (hc : c < h.nct) (e : Heap.bfvRotateNew crs o S c k rks h = .ok ((r, S'), h')) : Fresh ∅ ∅ h r h' := by
  obtain ⟨ids, -, e⟩ := Go.bind_ok e
  obtain ⟨w, e1, e⟩ := Go.bind_ok e
  cases e
  obtain ⟨M, -⟩ := newCt_spec (C := C) (o 0 64) ids (C.nQ - 1) W
  unfold Heap.bfvRotate at e1
  dsimp only at e1
  split at e1
  · obtain ⟨h2, e2, e1⟩ := Go.bind_ok e1
    cases e1
    exact Fresh.of_wrote M (copy_ok ⟨M.wf, M.only⟩ (M.into ∅) e2)
  · obtain ⟨v, e2, e1⟩ := Go.bind_ok e1
    obtain ⟨M2, -⟩ := copyNew_spec (C := C) (c' := v.1) (h' := v.2) M.wf (by have := M.nct; omega) e2
    obtain ⟨K2, I2, I1, -⟩ := second M M2
    split at e1
    · exact Fresh.of_second M M2 (rotateWith_ok K2 I1 e1)
    · exact Fresh.of_second M M2 (rotLoop_ok _ _ K2 I2 I1 e1)

/-- **C52, ConjugateNew (BFV)** -/
theorem bfvConjugateNew_fresh (W : WF h) {permLevel : ℕ} {crs : GoMap ℤ (Swk C)} {o : Sched String} {S S' : Scratch C} {c r : ℕ}
    {cks : KeySet (GalKey C)} (hc : c < h.nct) (e : Heap.bfvConjugateNew permLevel crs o S c cks h = .ok ((r, S'), h')) : Fresh ∅ ∅ h r h' := by
  obtain ⟨ids, -, e⟩ := Go.bind_ok e
  obtain ⟨v, e2, e⟩ := Go.bind_ok e
  obtain ⟨w, e1, e⟩ := Go.bind_ok e
  cases e
  obtain ⟨M, -⟩ := newCt_spec (C := C) (o 64) ids (C.nQ - 1) W
  obtain ⟨M2, -⟩ := copyNew_spec (C := C) (c' := v.1) (h' := v.2) M.wf (by have := M.nct; omega) e2
  obtain ⟨K2, I2, I1, -⟩ := second M M2
  exact Fresh.of_second M M2 (conjugate_ok K2 I1 e1)

/-- **C52, MulRelinNew (BFV)** -/
theorem bfvMulRelinNew_fresh {B : BCtx N} (W : WF h) {crs : GoMap ℤ (Swk B.C)} {o : Sched String} {S S' : BScratch B} {c0 c1 r : ℕ}
    {set : BRlkMap B} (e : Heap.bfvMulRelinNew crs o S c0 c1 set h = .ok ((r, S'), h')) : Fresh ∅ ∅ h r h' := by
  obtain ⟨w, e1, e⟩ := Go.bind_ok e
  obtain ⟨v, e2, e⟩ := Go.bind_ok e
  cases e
  obtain ⟨ids0, -, e1⟩ := Go.bind_ok e1
  obtain ⟨ids1, -, e1⟩ := Go.bind_ok e1
  obtain ⟨ids, -, e1⟩ := Go.bind_ok e1
  cases e1
  obtain ⟨M, -⟩ := newCt_spec (C := B.C) (o 84) ids (B.C.nQ - 1) W
  exact Fresh.of_wrote M (bfvMulRelinHoisted_ok ⟨M.wf, M.only⟩ (M.into ∅) e2)

end MKHE.C52
