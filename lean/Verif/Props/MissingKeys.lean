import Verif.Props.RotateAll
import Verif.Props.BfvMul
import Verif.Props.MulNew
import Verif.Props.KeyLocal
import Verif.Props.KeySets

set_option autoImplicit false

/-!
# C68: a missing evaluation key is never silent

If some party of an operand has no relinearization (rotation, conjugation) key in the key set, the operation that needs it does not return a ciphertext, for
whatever operands, pools and iteration orders.
-/

namespace MKHE.C68
open Finset

variable {N : ℕ} [NeZero N]

section Ckks
variable {C : Ctx N} {crs : GoMap ℤ (Swk C)}

theorem genVec_missing {S : Scratch C} {level : ℕ} {op : Ct C} {h : Option (HoistedCt C)} {rlk : RlkMap C} {sel : Rlk C → Swk C} {ids : List String} {x : Swk C}
    {id : String} (hid : id ∈ ids) (hmiss : rlk.value.lookup id = none) (res : Swk C × Scratch C) : genVec S level op h rlk sel ids x ≠ .ok res := by
  intro hok
  unfold genVec at hok
  obtain ⟨w, hl, -⟩ := Go.of_bind_ok hok
  obtain ⟨t, t', ht⟩ := Go.loop_all hl id hid
  obtain ⟨d, -, ht⟩ := Go.of_bind_ok ht
  obtain ⟨key, hk, -⟩ := Go.of_bind_ok ht
  rw [GoMap.deref_none hmiss] at hk
  cases hk

theorem mem_range_ids {β : Type} {o o' : Order String} {ct : GoMap String β} {ids : IDSet} (h : IDSet.ofCiphertext o ct = .ok ids) {id : String} (hid : id ∈ ct) (h0 : id ≠ "0") :
    id ∈ GoMap.range o' ids.value := by
  obtain ⟨ids', a1, a2⟩ := IDSet.ofCiphertext_spec o ct
  rw [a1] at h
  injection h with h
  subst h
  rw [GoMap.mem_range, IDSet.mem_value_iff, a2]
  exact ⟨hid, h0⟩

/-- **`MulAndRelin`** -/
theorem mulAndRelin_missing (o : Sched String) (S : Scratch C) (op0 op1 : Ct C) (rlk : RlkMap C) (out : Ct C) {id : String}
    (hid : id ∈ op0.ids ∪ op1.ids) (hmiss : rlk.value.lookup id = none) (res : Ct C × Scratch C) : mulAndRelin crs o S op0 op1 rlk out ≠ .ok res := by
  intro hok
  unfold mulAndRelin at hok
  obtain ⟨level, -, hok⟩ := Go.of_bind_ok hok
  obtain ⟨ids0, i0, hok⟩ := Go.of_bind_ok hok
  obtain ⟨ids1, i1, hok⟩ := Go.of_bind_ok hok
  obtain ⟨x, -, hok⟩ := Go.of_bind_ok hok
  obtain ⟨y, -, hok⟩ := Go.of_bind_ok hok
  obtain ⟨x, hx, hok⟩ := Go.of_bind_ok hok
  obtain ⟨y, hy, hok⟩ := Go.of_bind_ok hok
  rcases mem_union.mp hid with h | h
  · have := Ct.mem_ids.mp h
    exact genVec_missing (mem_range_ids i0 this.1 this.2) hmiss _ hx
  · have := Ct.mem_ids.mp h
    exact genVec_missing (mem_range_ids i1 this.1 this.2) hmiss _ hy

/-- **`MulAndRelinHoisted`**, with or without hoisted forms of the operands -/
theorem mulAndRelinHoisted_missing (o : Sched String) (S : Scratch C) (op0 op1 : Ct C) (h0 h1 : Option (HoistedCt C)) (rlk : RlkMap C) (out : Ct C) {id : String}
    (hid : id ∈ op0.ids ∪ op1.ids) (hmiss : rlk.value.lookup id = none) (res : Ct C × Scratch C) :
    mulAndRelinHoisted crs o S op0 op1 h0 h1 rlk out ≠ .ok res := by
  intro hok
  unfold mulAndRelinHoisted at hok
  obtain ⟨level, -, hok⟩ := Go.of_bind_ok hok
  obtain ⟨ids0, i0, hok⟩ := Go.of_bind_ok hok
  obtain ⟨ids1, i1, hok⟩ := Go.of_bind_ok hok
  obtain ⟨x, -, hok⟩ := Go.of_bind_ok hok
  obtain ⟨y, -, hok⟩ := Go.of_bind_ok hok
  obtain ⟨x, hx, hok⟩ := Go.of_bind_ok hok
  obtain ⟨y, hy, hok⟩ := Go.of_bind_ok hok
  rcases mem_union.mp hid with h | h
  · have := Ct.mem_ids.mp h
    exact genVec_missing (mem_range_ids i0 this.1 this.2) hmiss _ hx
  · have := Ct.mem_ids.mp h
    exact genVec_missing (mem_range_ids i1 this.1 this.2) hmiss _ hy

/-- **mkckks `MulRelinHoistedNew`** -/
theorem ckksMulRelinHoistedNew_missing (pscale : ℚ) (o : Sched String) (E : Eval C) (op0 op1 : CCt C) (h0 h1 : Option (HoistedCt C)) (rlk : RlkMap C) {id : String}
    (hid : id ∈ op0.ct.ids ∪ op1.ct.ids) (hmiss : rlk.value.lookup id = none) (res : CCt C × Eval C) :
    ckksMulRelinHoistedNew pscale crs o E op0 op1 h0 h1 rlk ≠ .ok res := by
  intro hok
  unfold ckksMulRelinHoistedNew at hok
  obtain ⟨out, -, hok⟩ := Go.of_bind_ok hok
  unfold ckksMulRelinHoisted at hok
  obtain ⟨l0, -, hok⟩ := Go.of_bind_ok hok
  obtain ⟨l1, -, hok⟩ := Go.of_bind_ok hok
  obtain ⟨lo, -, hok⟩ := Go.of_bind_ok hok
  dsimp only at hok
  split at hok
  · obtain ⟨ct, -, hok⟩ := Go.of_bind_ok hok
    obtain ⟨w, hw, -⟩ := Go.of_bind_ok hok
    exact mulAndRelinHoisted_missing o _ _ _ _ _ _ _ hid hmiss _ hw
  · obtain ⟨ct, -, hok⟩ := Go.of_bind_ok hok
    obtain ⟨w, hw, -⟩ := Go.of_bind_ok hok
    exact mulAndRelinHoisted_missing o _ _ _ _ _ _ _ hid hmiss _ hw

/-- **mkckks `MulRelinNew`**, also for a square: without the relinearization key of every party of the operands it does not return -/
theorem ckksMulRelinNew_missing (pscale : ℚ) (o : Sched String) (E : Eval C) (same : Bool) (op0 op1 : CCt C) (rlk : RlkMap C) {id : String}
    (hid : id ∈ op0.ct.ids ∪ op1.ct.ids) (hmiss : rlk.value.lookup id = none) (res : CCt C × Eval C × RlkMap C) :
    ckksMulRelinNew pscale crs o E same op0 op1 rlk ≠ .ok res := by
  intro hok
  unfold ckksMulRelinNew at hok
  split at hok
  · obtain ⟨w, -, hok⟩ := Go.of_bind_ok hok
    obtain ⟨r, hr, -⟩ := Go.of_bind_ok hok
    exact ckksMulRelinHoistedNew_missing pscale o _ op0 op1 _ _ _ hid (by exact hmiss) _ hr
  · obtain ⟨w, -, hok⟩ := Go.of_bind_ok hok
    obtain ⟨w, -, hok⟩ := Go.of_bind_ok hok
    obtain ⟨r, hr, -⟩ := Go.of_bind_ok hok
    exact ckksMulRelinHoistedNew_missing pscale o _ op0 op1 _ _ _ hid (by exact hmiss) _ hr

/-! ## rotations -/

/-- the rotation keys a rotation by `rot` needs from every party, given the CRSs the parameters have: none for a multiple of `N/2`; the key of the normalized amount if it has a
CRS; otherwise one key for every binary digit 1 of the normalized amount -/
def Needed (crs : GoMap ℤ (Swk C)) (rot : ℤ) (k : ℕ) : Prop :=
  C35.amount N rot ≠ 0 ∧ if ((C35.amount N rot : ℕ) : ℤ) ∈ crs then k = C35.amount N rot else ∃ j, (C35.amount N rot).testBit j = true ∧ k = 2 ^ j

variable {rks : RotKeySet (GalKey C)} {level : ℕ}

/-- **mkckks `RotateNew`** -/
theorem ckksRotateNew_missing (V : C.Valid) (o : ℕ → Sched String) (E : Eval C) (ct : CCt C) (hct : ct.ct.AtLevel level) (rot : ℤ) {id : String} (hid : id ∈ ct.ct.ids)
    {k : ℕ} (hk : Needed crs rot k) (hmiss : ∀ key, rks.get id k ≠ .ok key) (res : CCt C × Eval C) : ckksRotateNew crs o E ct rot rks ≠ .ok res := by
  obtain ⟨h0, hk⟩ := hk
  split_ifs at hk with hc
  · subst hk
    intro hok
    obtain ⟨hn, hlt⟩ := C35.rotNorm_amount V rot
    have hlk : (crs.lookup (rotNorm N rot) : Option (Swk C)) = crs.lookup (C35.amount N rot : ℤ) :=
      congrArg (fun k : ℤ => (crs.lookup k : Option (Swk C))) hn
    unfold ckksRotateNew ckksRotate at hok
    obtain ⟨ids, -, hok⟩ := Go.of_bind_ok hok
    obtain ⟨l, -, hok⟩ := Go.of_bind_ok hok
    obtain ⟨w, hok, -⟩ := Go.of_bind_ok hok
    dsimp only at hok
    rw [hlk, if_neg (by rw [hn]; exact_mod_cast h0), if_pos (GoMap.mem_iff_lookup.mp hc), hn] at hok
    refine C33.rotate_missing (crs := crs) (o 0) E.ksw _ none id hid (fun key => ?_) _ hok
    rw [adjustIdx_nonneg (by omega), Int.toNat_natCast]
    exact hmiss key
  · obtain ⟨j, hj, rfl⟩ := hk
    exact C35.ckksRotateNew_missing V o E ct rot id hid hct (by rwa [← GoMap.mem_iff_lookup]) j (mem_onBits.mpr hj) hmiss res

/-- **mkckks `RotateHoistedNew`**, for amounts that have a CRS (for the others it panics, C35) -/
theorem ckksRotateHoistedNew_missing (V : C.Valid) (o : ℕ → Sched String) (E : Eval C) (ct : CCt C) (h : HoistedCt C) (rot : ℤ) {id : String} (hid : id ∈ ct.ct.ids)
    {k : ℕ} (hk : Needed crs rot k) (hmiss : ∀ key, rks.get id k ≠ .ok key) (res : CCt C × Eval C) : ckksRotateHoistedNew crs o E ct rot h rks ≠ .ok res := by
  obtain ⟨h0, hk⟩ := hk
  intro hok
  obtain ⟨hn, hlt⟩ := C35.rotNorm_amount V rot
  have hlk : (crs.lookup (rotNorm N rot) : Option (Swk C)) = crs.lookup (C35.amount N rot : ℤ) :=
    congrArg (fun k : ℤ => (crs.lookup k : Option (Swk C))) hn
  unfold ckksRotateHoistedNew at hok
  obtain ⟨ids, -, hok⟩ := Go.of_bind_ok hok
  obtain ⟨l, -, hok⟩ := Go.of_bind_ok hok
  obtain ⟨w, hok, -⟩ := Go.of_bind_ok hok
  split_ifs at hk with hc
  · subst hk
    unfold ckksRotateHoisted at hok
    dsimp only at hok
    rw [hlk, if_neg (by rw [hn]; exact_mod_cast h0), if_pos (GoMap.mem_iff_lookup.mp hc), hn] at hok
    refine C33.rotate_missing (crs := crs) (o 0) E.ksw _ (some h) id hid (fun key => ?_) _ hok
    rw [adjustIdx_nonneg (by omega), Int.toNat_natCast]
    exact hmiss key
  · rw [C35.ckksRotateHoisted_noCRS V o _ _ _ rot h h0 (by rwa [← GoMap.mem_iff_lookup])] at hok
    cases hok

/-- **mkbfv `RotateNew`** -/
theorem bfvRotateNew_missing (V : C.Valid) (o : ℕ → Sched String) (S : Scratch C) (ct : Ct C) (hct : ct.AtLevel level) (rot : ℤ) {id : String} (hid : id ∈ ct.ids)
    {k : ℕ} (hk : Needed crs rot k) (hmiss : ∀ key, rks.get id k ≠ .ok key) (res : Ct C × Scratch C) : bfvRotateNew crs o S ct rot rks ≠ .ok res := by
  obtain ⟨h0, hk⟩ := hk
  intro hok
  obtain ⟨hn, hlt⟩ := C35.rotNorm_amount V rot
  have hlk : (crs.lookup (rotNorm N rot) : Option (Swk C)) = crs.lookup (C35.amount N rot : ℤ) :=
    congrArg (fun k : ℤ => (crs.lookup k : Option (Swk C))) hn
  obtain ⟨tmp, t1, t2⟩ := Ct.copyNew_ok (o 0 62) hct.has0
  unfold bfvRotateNew bfvRotate at hok
  obtain ⟨ids, -, hok⟩ := Go.of_bind_ok hok
  dsimp only at hok
  have hm := Ct.mem_ids.mp hid
  have hm' : id ∈ tmp.ids := Ct.mem_ids.mpr ⟨t2.mem.mpr hm.1, hm.2⟩
  rw [hlk, if_neg (by rw [hn]; exact_mod_cast h0), t1, bind_ok] at hok
  split_ifs at hk with hc
  · subst hk
    rw [if_pos (GoMap.mem_iff_lookup.mp hc), hn] at hok
    refine C33.rotate_missing (crs := crs) (o 0) S _ none id hm' (fun key => ?_) _ hok
    rw [adjustIdx_nonneg (by omega), Int.toNat_natCast]
    exact hmiss key
  · obtain ⟨j, hj, rfl⟩ := hk
    rw [if_neg (by rwa [← GoMap.mem_iff_lookup]), hn, Int.toNat_natCast] at hok
    exact C35.rotLoop_missing o id hm.2 _ 1 tmp _ _ j (t2.mem.mpr hm.1) (mem_onBits.mpr hj) (by rwa [one_mul]) _ hok

/-! ## conjugation -/

/-- **mkckks `ConjugateNew`** -/
theorem ckksConjugateNew_missing (permLevel : ℕ) (o : Sched String) (E : Eval C) (ct : CCt C) (cks : KeySet (GalKey C)) {id : String} (hid : id ∈ ct.ct.ids)
    (hmiss : cks.value.lookup id = none) (res : CCt C × Eval C) : ckksConjugateNew permLevel crs o E ct cks ≠ .ok res := by
  intro hok
  unfold ckksConjugateNew at hok
  obtain ⟨ids, -, hok⟩ := Go.of_bind_ok hok
  obtain ⟨l, -, hok⟩ := Go.of_bind_ok hok
  obtain ⟨w, hok, -⟩ := Go.of_bind_ok hok
  exact C36.conjugate_missing o _ permLevel id hid hmiss _ hok

/-- **mkbfv `ConjugateNew`** -/
theorem bfvConjugateNew_missing (permLevel : ℕ) (o : Sched String) (S : Scratch C) (ct : Ct C) (hct : ct.AtLevel level) (cks : KeySet (GalKey C)) {id : String}
    (hid : id ∈ ct.ids) (hmiss : cks.value.lookup id = none) (res : Ct C × Scratch C) : bfvConjugateNew permLevel crs o S ct cks ≠ .ok res := by
  intro hok
  obtain ⟨tmp, t1, t2⟩ := Ct.copyNew_ok (o 62) hct.has0
  unfold bfvConjugateNew at hok
  obtain ⟨ids, -, hok⟩ := Go.of_bind_ok hok
  rw [t1, bind_ok] at hok
  have hm := Ct.mem_ids.mp hid
  exact C36.conjugate_missing o _ permLevel id (Ct.mem_ids.mpr ⟨t2.mem.mpr hm.1, hm.2⟩) hmiss _ hok

end Ckks

/-! ## BFV multiplication -/

section Bfv
variable {B : BCtx N} {crs : GoMap ℤ (Swk B.C)}

/-- the body of the loop of `toR` -/
theorem loop_insert_mem {g : CtR N → String → Go (CtR N)} (hg : ∀ s a t, g s a = .ok t → ∃ x, t = AList.insert a x s) {id : String} {r : CtR N} :
    ∀ (l : List String) (s : CtR N), (id ∈ l ∨ id ∈ s) → Go.loop g s l = .ok r → id ∈ r := by
  intro l
  induction l with
  | nil =>
    intro s hs e
    rw [Go.loop_nil] at e
    injection e with e
    subst e
    rcases hs with h | h
    · cases h
    · exact h
  | cons a l ih =>
    intro s hs e
    rw [Go.loop_cons] at e
    cases hb : g s a with
    | error x => rw [hb] at e; cases e
    | ok t =>
      rw [hb] at e
      obtain ⟨x, rfl⟩ := hg s a t hb
      refine ih _ ?_ e
      rcases hs with h | h
      · rcases List.mem_cons.mp h with rfl | h
        · exact .inr (AList.mem_insert _ |>.mpr (.inl rfl))
        · exact .inl h
      · exact .inr (AList.mem_insert _ |>.mpr (.inr h))

theorem toR_mem {f : Poly B.C → Go (PolyR N)} {o : Order String} {pool : GoMap String (PolyR N)} {ct : Ct B.C} {r : CtR N} (h : toR f o pool ct = .ok r)
    {id : String} (hid : id ∈ ct) : id ∈ r := by
  unfold toR at h
  refine loop_insert_mem (fun s a t ht => ?_) _ _ (.inl (GoMap.mem_range.mpr hid)) h
  obtain ⟨p, -, ht⟩ := Go.of_bind_ok ht
  obtain ⟨p', -, ht⟩ := Go.of_bind_ok ht
  obtain ⟨x, -, ht⟩ := Go.of_bind_ok ht
  injection ht with ht
  exact ⟨x, ht.symm⟩

theorem genVecB_missing {S : BScratch B} {level : ℕ} {op : CtR N} {h : HoistedPair B} {rlk : GoMap String (BRlk B.C)} {sel : Rlk B.C → Swk B.C} {ids : List String}
    {x1 x2 : Swk B.C} {id : String} (hid : id ∈ ids) (hmiss : rlk.lookup id = none) (res : (Swk B.C × Swk B.C) × BScratch B) :
    genVecB S level op h rlk sel ids x1 x2 ≠ .ok res := by
  intro hok
  unfold genVecB at hok
  obtain ⟨w, hl, -⟩ := Go.of_bind_ok hok
  obtain ⟨t, t', ht⟩ := Go.loop_all hl id hid
  unfold genVecBStep at ht
  obtain ⟨d, -, ht⟩ := Go.of_bind_ok ht
  obtain ⟨key, hk, -⟩ := Go.of_bind_ok ht
  rw [GoMap.deref_none hmiss] at hk
  cases hk

theorem mulFrontB_missing {o : Sched String} {S : BScratch B} {op0 op1 : CtR N} {h0 h1 : HoistedPair B} {rlk : GoMap String (BRlk B.C)} {out : Ct B.C} {id : String}
    (hid : id ∈ op0 ∨ id ∈ op1) (hz : id ≠ "0") (hmiss : rlk.lookup id = none) (res : ℕ × IDSet × Ct B.C × BScratch B) :
    mulFrontB o S op0 op1 h0 h1 rlk out ≠ .ok res := by
  intro hok
  unfold mulFrontB at hok
  obtain ⟨level, -, hok⟩ := Go.of_bind_ok hok
  obtain ⟨ids0, i0, hok⟩ := Go.of_bind_ok hok
  obtain ⟨ids1, i1, hok⟩ := Go.of_bind_ok hok
  obtain ⟨_, -, hok⟩ := Go.of_bind_ok hok
  obtain ⟨_, -, hok⟩ := Go.of_bind_ok hok
  obtain ⟨_, -, hok⟩ := Go.of_bind_ok hok
  obtain ⟨_, -, hok⟩ := Go.of_bind_ok hok
  obtain ⟨x, hx, hok⟩ := Go.of_bind_ok hok
  obtain ⟨y, hy, hok⟩ := Go.of_bind_ok hok
  rcases hid with h | h
  · exact genVecB_missing (mem_range_ids i0 h hz) hmiss _ hx
  · exact genVecB_missing (mem_range_ids i1 h hz) hmiss _ hy

/-- **mkbfv `mulRelin`** (the multiplication without hoisting) -/
theorem bfvMulRelin_missing (o : Sched String) (S : BScratch B) (ct0 ct1 : Ct B.C) (set : BRlkMap B) (out : Ct B.C) {id : String} (hid : id ∈ ct0.ids ∪ ct1.ids)
    (hmiss : set.value.lookup id = none) (res : Ct B.C × BScratch B) : bfvMulRelin crs o S ct0 ct1 set out ≠ .ok res := by
  intro hok
  unfold bfvMulRelin at hok
  obtain ⟨r0, a0, hok⟩ := Go.of_bind_ok hok
  obtain ⟨r1, a1, hok⟩ := Go.of_bind_ok hok
  unfold mulAndRelinBFV at hok
  obtain ⟨f, hf, -⟩ := Go.of_bind_ok hok
  rcases mem_union.mp hid with h | h
  · exact mulFrontB_missing (.inl (toR_mem a0 (Ct.mem_ids.mp h).1)) (Ct.mem_ids.mp h).2 hmiss _ hf
  · exact mulFrontB_missing (.inr (toR_mem a1 (Ct.mem_ids.mp h).1)) (Ct.mem_ids.mp h).2 hmiss _ hf

/-- **mkbfv `MulRelinNew`** -/
theorem bfvMulRelinNew_missing (o : Sched String) (S : BScratch B) (ct0 ct1 : Ct B.C) (set : BRlkMap B) {id : String} (hid : id ∈ ct0.ids ∪ ct1.ids)
    (hmiss : set.value.lookup id = none) (res : Ct B.C × BScratch B) : bfvMulRelinNew crs o S ct0 ct1 set ≠ .ok res := by
  intro hok
  unfold bfvMulRelinNew at hok
  obtain ⟨out, -, hok⟩ := Go.of_bind_ok hok
  unfold bfvMulRelinHoisted at hok
  obtain ⟨r0, a0, hok⟩ := Go.of_bind_ok hok
  obtain ⟨r1, a1, hok⟩ := Go.of_bind_ok hok
  obtain ⟨_, -, hok⟩ := Go.of_bind_ok hok
  obtain ⟨_, -, hok⟩ := Go.of_bind_ok hok
  obtain ⟨_, -, hok⟩ := Go.of_bind_ok hok
  obtain ⟨_, -, hok⟩ := Go.of_bind_ok hok
  obtain ⟨_, -, hok⟩ := Go.of_bind_ok hok
  obtain ⟨_, -, hok⟩ := Go.of_bind_ok hok
  unfold mulAndRelinBFVHoisted at hok
  obtain ⟨f, hf, -⟩ := Go.of_bind_ok hok
  rcases mem_union.mp hid with h | h
  · exact mulFrontB_missing (.inl (toR_mem a0 (Ct.mem_ids.mp h).1)) (Ct.mem_ids.mp h).2 hmiss _ hf
  · exact mulFrontB_missing (.inr (toR_mem a1 (Ct.mem_ids.mp h).1)) (Ct.mem_ids.mp h).2 hmiss _ hf

end Bfv

/-! ## in terms of what the user did with the key sets -/

section History
variable {C : Ctx N} {crs : GoMap ℤ (Swk C)}
open C04

theorem rlk_none {h : List (Op (Rlk C) String)} {fresh : Swk C} {id : String} (hn : ¬ ∃ k, Current Rlk.id h id k) :
    (runRlk Rlk.id fresh h).value.lookup id = none := by
  have g := (get_returns_last_added (R := Unit) Rlk.id h "" fresh ()).2.1
  cases e : (runRlk Rlk.id fresh h).value.lookup id with
  | none => rfl
  | some k => exact absurd ⟨k, (g.1 id k).mp (by simp only [RlkSet.get]; rw [e])⟩ hn

theorem brlk_none {B : BCtx N} {h : List (Op (BRlk B.C) String)} {fresh : Swk B.C} {z : PolyR N} {id : String} (hn : ¬ ∃ k, Current BRlk.id h id k) :
    (runBfvRlk BRlk.id z fresh h).value.lookup id = none := by
  have g := (get_returns_last_added BRlk.id h "" fresh z).2.2
  cases e : (runBfvRlk BRlk.id z fresh h).value.lookup id with
  | none => rfl
  | some k => exact absurd ⟨k, (g.1 id k).mp (by simp only [BfvRlkSet.get]; rw [e])⟩ hn

theorem cks_none {h : List (Op (GalKey C) String)} {id : String} (hn : ¬ ∃ k, Current GalKey.id h id k) : (runKeySet GalKey.id h).value.lookup id = none := by
  have g := (get_returns_last_added (W := Unit) (R := Unit) GalKey.id h "" () ()).1
  cases e : (runKeySet GalKey.id h).value.lookup id with
  | none => rfl
  | some k => exact absurd ⟨k, (g.1 id k).mp (by simp only [KeySet.get]; rw [e])⟩ hn

/-- **C68, mkckks.** Take key sets after arbitrary histories of Add and Del calls. If some party of an operand has no current relinearization key (none was added since
it was last deleted), `MulRelinNew` and `MulRelinHoistedNew` do not return; if it has no current rotation key under an index that the amount needs, `RotateNew` and
`RotateHoistedNew` do not return; if it has no current conjugation key, `ConjugateNew` does not return. -/
theorem ckks_missing_key (V : C.Valid) {rh : List (Op (Rlk C) String)} {oh : List (Op (GalKey C) (String × ℕ))} {ch : List (Op (GalKey C) String)} {fresh : Swk C}
    (pscale : ℚ) (E : Eval C) (c0 c1 : CCt C) (id : String) :
    ((¬ ∃ k, Current Rlk.id rh id k) → (id ∈ c0.ct.ids ∨ id ∈ c1.ct.ids) →
      (∀ o same res, ckksMulRelinNew pscale crs o E same c0 c1 (runRlk Rlk.id fresh rh) ≠ .ok res) ∧
      ∀ o h0 h1 res, ckksMulRelinHoistedNew pscale crs o E c0 c1 h0 h1 (runRlk Rlk.id fresh rh) ≠ .ok res) ∧
    (∀ level, c0.ct.AtLevel level → id ∈ c0.ct.ids → ∀ rot k, Needed crs rot k → (¬ ∃ key, Current (fun g : GalKey C => (g.id, g.rotIdx)) oh (id, k) key) →
      (∀ o res, ckksRotateNew crs o E c0 rot (runRot GalKey.id GalKey.rotIdx oh) ≠ .ok res) ∧
      ∀ o h res, ckksRotateHoistedNew crs o E c0 rot h (runRot GalKey.id GalKey.rotIdx oh) ≠ .ok res) ∧
    ((¬ ∃ k, Current GalKey.id ch id k) → id ∈ c0.ct.ids → ∀ permLevel o res, ckksConjugateNew permLevel crs o E c0 (runKeySet GalKey.id ch) ≠ .ok res) := by
  refine ⟨fun hn hid => ⟨fun o same res => ?_, fun o h0 h1 res => ?_⟩, fun level hl hid rot k hk hn => ?_, fun hn hid pl o res => ?_⟩
  · exact ckksMulRelinNew_missing pscale o E same c0 c1 _ (mem_union.mpr hid) (rlk_none hn) res
  · exact ckksMulRelinHoistedNew_missing pscale o E c0 c1 h0 h1 _ (mem_union.mpr hid) (rlk_none hn) res
  · have hm : ∀ key, (runRot GalKey.id GalKey.rotIdx oh).get id k ≠ .ok key := fun key e =>
      hn ⟨key, ((C04.rotation_key_set_two_level GalKey.id GalKey.rotIdx oh).1.1 (id, k) key).mp e⟩
    exact ⟨fun o res => ckksRotateNew_missing V o E c0 hl rot hid hk hm res, fun o h res => ckksRotateHoistedNew_missing V o E c0 h rot hid hk hm res⟩
  · exact ckksConjugateNew_missing pl o E c0 _ hid (cks_none hn) res

/-- **C68, mkbfv.** -/
theorem bfv_missing_key {B : BCtx N} {crs : GoMap ℤ (Swk B.C)} (V : B.C.Valid) {rh : List (Op (BRlk B.C) String)} {oh : List (Op (GalKey B.C) (String × ℕ))}
    {ch : List (Op (GalKey B.C) String)} {fresh : Swk B.C} {z : PolyR N} (S : BScratch B) (S' : Scratch B.C) (c0 c1 : Ct B.C) (id : String) :
    ((¬ ∃ k, Current BRlk.id rh id k) → (id ∈ c0.ids ∨ id ∈ c1.ids) → ∀ o res, bfvMulRelinNew crs o S c0 c1 (runBfvRlk BRlk.id z fresh rh) ≠ .ok res) ∧
    (∀ level, c0.AtLevel level → id ∈ c0.ids → ∀ rot k, Needed crs rot k → (¬ ∃ key, Current (fun g : GalKey B.C => (g.id, g.rotIdx)) oh (id, k) key) →
      ∀ o res, bfvRotateNew crs o S' c0 rot (runRot GalKey.id GalKey.rotIdx oh) ≠ .ok res) ∧
    (∀ level, c0.AtLevel level → id ∈ c0.ids → (¬ ∃ k, Current GalKey.id ch id k) → ∀ permLevel o res,
      bfvConjugateNew permLevel crs o S' c0 (runKeySet GalKey.id ch) ≠ .ok res) := by
  refine ⟨fun hn hid o res => ?_, fun level hl hid rot k hk hn o res => ?_, fun level hl hid hn pl o res => ?_⟩
  · exact bfvMulRelinNew_missing o S c0 c1 _ (mem_union.mpr hid) (brlk_none hn) res
  · exact bfvRotateNew_missing V o S' c0 hl rot hid hk (fun key e =>
      hn ⟨key, ((C04.rotation_key_set_two_level GalKey.id GalKey.rotIdx oh).1.1 (id, k) key).mp e⟩) res
  · exact bfvConjugateNew_missing pl o S' c0 hl _ hid (cks_none hn) res

end History

/-! ## concrete instances -/

section Example
open C04 Ex

/-- both parties' relinearization keys are added, then that of `"a"` is deleted: a product with a ciphertext of `"a"` and `"b"` does not return, in any order -/
example (fm : FloatModel) (E : Eval (ctx fm)) (o : Sched String) (res : CCt (ctx fm) × Eval (ctx fm) × RlkMap (ctx fm)) :
    ckksMulRelinNew 100 (Ex.crs fm) o E false ⟨ctAB fm 3 4, 100⟩ ⟨ctB fm 3 9, 100⟩
      (runRlk Rlk.id ⟨2, fun _ => PolyQP.zero⟩ [.add (Ex.rlk fm "a"), .add (Ex.rlk fm "b"), .del "a"]) ≠ .ok res := by
  refine ((ckks_missing_key (crs := Ex.crs fm) (oh := []) (ch := []) (valid fm) 100 E ⟨ctAB fm 3 4, 100⟩ ⟨ctB fm 3 9, 100⟩ "a").1 ?_ (.inl ?_)).1 o false res
  · rintro ⟨k, hk⟩
    exact ((current_del Rlk.id [.add (Ex.rlk fm "a"), .add (Ex.rlk fm "b")] "a" "a" k).mp hk).1 rfl
  · show "a" ∈ (ctAB fm 3 4).ids
    rw [ctAB_ids]; simp

/-- rotating by `-5`, that is by `3 = 1 + 2`, needs the keys of the amounts 1 and 2 -/
theorem needed_example (fm : FloatModel) : Needed (Ex.crs fm) (-5) 2 := by
  have ha : C35.amount 16 (-5) = 3 := by decide
  refine ⟨by rw [ha]; decide, ?_⟩
  rw [ha, if_neg]
  · exact ⟨1, by decide, rfl⟩
  · rw [GoMap.mem_iff_lookup]
    unfold Ex.crs
    simp only [GoMap.lookup_insert']
    simp

/-- party `"b"` has a key for the amount 1 only: `RotateNew` by `-5` does not return -/
example (fm : FloatModel) (E : Eval (ctx fm)) (o : ℕ → Sched String) (res : CCt (ctx fm) × Eval (ctx fm)) :
    ckksRotateNew (Ex.crs fm) o E ⟨ctAB fm 3 4, 100⟩ (-5)
      (runRot GalKey.id GalKey.rotIdx [.add (rotKey fm 1 11 "b"), .add (rotKey fm 2 13 "b"), .del ("b", 2)]) ≠ .ok res := by
  refine ((ckks_missing_key (crs := Ex.crs fm) (rh := []) (ch := []) (fresh := ⟨2, fun _ => PolyQP.zero⟩) (valid fm) 100 E ⟨ctAB fm 3 4, 100⟩ ⟨ctB fm 3 9, 100⟩ "b").2.1 2
    (ctAB_at fm 2 4) ?_ (-5) 2 (needed_example fm) ?_).1 o res
  · show "b" ∈ (ctAB fm 3 4).ids
    rw [ctAB_ids]; simp
  · rintro ⟨k, hk⟩
    exact ((current_del (fun g : GalKey (ctx fm) => (g.id, g.rotIdx)) [.add (rotKey fm 1 11 "b"), .add (rotKey fm 2 13 "b")] ("b", 2) ("b", 2) k).mp hk).1 rfl

end Example

end MKHE.C68
