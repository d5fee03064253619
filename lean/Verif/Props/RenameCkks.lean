import Verif.Props.Rename

set_option autoImplicit false

/-!
# C73: party identifiers are only labels (the CKKS evaluator)
-/

namespace MKHE.C73

variable {N : ℕ} [NeZero N] {C : Ctx N} (π : Renaming)

/-- the orders of a call that rotates several times -/
def orders (o : ℕ → Sched String) : ℕ → Sched String := fun k => Sched.ren π (o k)

/-- the result of a CKKS call: ciphertext and evaluator -/
abbrev rc (w : CCt C × Eval C) : CCt C × Eval C := (w.1.ren π, w.2.ren π)

/-! ## rotations -/

theorem rotLoop (crs : GoMap ℤ (Swk C)) (o : ℕ → Sched String) (rks : RotKeySet (GalKey C)) (k r : ℕ) (tmp out : Ct C) (S : Scratch C) :
    MKHE.rotLoop crs (orders π o) (rks.ren π) k r (tmp.rn π) (out.rn π) S = (MKHE.rotLoop crs o rks k r tmp out S).map (rp π) := by
  induction r using Nat.strong_induction_on generalizing k tmp out S with
  | _ r ih =>
    by_cases h : 0 < r
    · rw [MKHE.rotLoop, dif_pos h]
      conv_rhs => rw [MKHE.rotLoop, dif_pos h]
      refine Go.ite_ren ?_ (ih _ (by omega) _ _ _ _)
      refine Go.bind_ren (rotate π crs (o k) S tmp k rks out) fun w => ?_
      refine Go.bind_ren (copyFrom π (o k 60) tmp w.1) fun tmp => ?_
      exact ih _ (by omega) _ _ _ _
    · rw [MKHE.rotLoop, dif_neg h]
      conv_rhs => rw [MKHE.rotLoop, dif_neg h]
      rfl

theorem ckksRotate (crs : GoMap ℤ (Swk C)) (o : ℕ → Sched String) (S : Scratch C) (ct : Ct C) (r : ℤ) (rks : RotKeySet (GalKey C)) (out : Ct C) :
    MKHE.ckksRotate crs (orders π o) S (ct.rn π) r (rks.ren π) (out.rn π) = (MKHE.ckksRotate crs o S ct r rks out).map (rp π) := by
  unfold MKHE.ckksRotate
  refine Go.ite_ren (Go.bind_ren (copyFrom π (o 0 61) out ct) fun _ => rfl) (Go.ite_ren (rotate π crs (o 0) S ct _ rks out) ?_)
  exact Go.bind_ren (copyNew π (o 0 62) ct) fun tmp => rotLoop π crs o rks 1 _ tmp out S

/-- `RotateNew` -/
theorem ckksRotateNew (crs : GoMap ℤ (Swk C)) (o : ℕ → Sched String) (E : Eval C) (ct : CCt C) (r : ℤ) (rks : RotKeySet (GalKey C)) :
    MKHE.ckksRotateNew crs (orders π o) (E.ren π) (ct.ren π) r (rks.ren π) = (MKHE.ckksRotateNew crs o E ct r rks).map (rc π) := by
  unfold MKHE.ckksRotateNew
  refine Go.bind_ren (ofCiphertext π (o 0 63) ct.ct) fun ids => Go.bind_eq' (level π ct.ct) fun l => ?_
  refine Go.bind_ren (r := rp π) ?_ fun w => rfl
  rw [show Ct.new (orders π o 0 64) (ids.ren π) l = (Ct.new (o 0 64) ids l : Ct C).rn π from new π _ _ _]
  exact ckksRotate π crs o E.ksw ct.ct r rks _

theorem ckksRotateHoisted (crs : GoMap ℤ (Swk C)) (o : ℕ → Sched String) (S : Scratch C) (ct : Ct C) (r : ℤ) (h : HoistedCt C) (rks : RotKeySet (GalKey C))
    (out : Ct C) : MKHE.ckksRotateHoisted crs (orders π o) S (ct.rn π) r (h.rn π) (rks.ren π) (out.rn π)
      = (MKHE.ckksRotateHoisted crs o S ct r h rks out).map (rp π) := by
  unfold MKHE.ckksRotateHoisted
  exact Go.ite_ren (Go.bind_ren (copyFrom π (o 0 61) out ct) fun _ => rfl) (Go.ite_ren (rotateHoisted π crs (o 0) S ct _ h rks out) rfl)

/-- `RotateHoistedNew` -/
theorem ckksRotateHoistedNew (crs : GoMap ℤ (Swk C)) (o : ℕ → Sched String) (E : Eval C) (ct : CCt C) (r : ℤ) (h : HoistedCt C)
    (rks : RotKeySet (GalKey C)) :
    MKHE.ckksRotateHoistedNew crs (orders π o) (E.ren π) (ct.ren π) r (h.rn π) (rks.ren π) = (MKHE.ckksRotateHoistedNew crs o E ct r h rks).map (rc π) := by
  unfold MKHE.ckksRotateHoistedNew
  refine Go.bind_ren (ofCiphertext π (o 0 63) ct.ct) fun ids => Go.bind_eq' (level π ct.ct) fun l => ?_
  refine Go.bind_ren (r := rp π) ?_ fun w => rfl
  rw [show Ct.new (orders π o 0 64) (ids.ren π) l = (Ct.new (o 0 64) ids l : Ct C).rn π from new π _ _ _]
  exact ckksRotateHoisted π crs o E.ksw ct.ct r h rks _

/-- `ConjugateNew` -/
theorem ckksConjugateNew (pl : ℕ) (crs : GoMap ℤ (Swk C)) (o : Sched String) (E : Eval C) (ct : CCt C) (cks : KeySet (GalKey C)) :
    MKHE.ckksConjugateNew pl crs (Sched.ren π o) (E.ren π) (ct.ren π) (cks.ren π (GalKey.ren π)) = (MKHE.ckksConjugateNew pl crs o E ct cks).map (rc π) := by
  unfold MKHE.ckksConjugateNew
  refine Go.bind_ren (ofCiphertext π (o 63) ct.ct) fun ids => Go.bind_eq' (level π ct.ct) fun l => ?_
  refine Go.bind_ren (r := rp π) ?_ fun w => rfl
  rw [show Ct.new (Sched.ren π o 64) (ids.ren π) l = (Ct.new (o 64) ids l : Ct C).rn π from new π _ _ _]
  exact conjugate π pl crs o E.ksw ct.ct cks _

/-! ## hoisting -/

/-- `HoistedForm` -/
theorem hoistedForm (o : Sched String) (S : Scratch C) (ct : Ct C) :
    MKHE.hoistedForm (Sched.ren π o) S (ct.rn π) = (MKHE.hoistedForm o S ct).map (rp π) := by
  unfold MKHE.hoistedForm
  refine Go.bind_ren (ofCiphertext π (o 70) ct) fun ids => ?_
  show Go.loop _ (rp π (∅, S)) (GoMap.range ((o 71).ren π) (ids.value.rn π)) = _
  rw [GoMap.range_rn]
  refine Go.loop_ren π _ (∅, S) fun st id => ?_
  refine Go.bind_eq' (level π ct) fun l => Go.bind_eq' (GoMap.deref_rn π ct id) fun a => Go.bind_eq' rfl fun w => ?_
  exact ok_insert π _ id _ _

theorem hoistInto (o1 o2 : Order String) (S : Scratch C) (op : Ct C) (pool : HoistedCt C) :
    MKHE.hoistInto (o1.ren π) (o2.ren π) S (op.rn π) (pool.rn π) = (MKHE.hoistInto o1 o2 S op pool).map (rp π) := by
  unfold MKHE.hoistInto
  refine Go.bind_ren (ofCiphertext π o1 op) fun ids => ?_
  show Go.loop _ (rp π (pool, S)) (GoMap.range (o2.ren π) (ids.value.rn π)) = _
  rw [GoMap.range_rn]
  refine Go.loop_ren π _ (pool, S) fun st id => ?_
  refine Go.bind_eq' (level π op) fun l => Go.bind_eq' (GoMap.deref_rn π op id) fun a => Go.bind_eq' (GoMap.deref_rn π st.1 id) fun ad => Go.bind_eq' rfl fun w => ?_
  exact ok_insert π _ id _ _

/-! ## levels -/

theorem ok_insert' {β : Type} (m : GoMap String β) (id : String) (v : β) :
    (Except.ok ((m.rn π).insert (π id) v) : Go _) = Except.map (GoMap.rn π) (Except.ok (m.insert id v)) :=
  congrArg Except.ok (GoMap.insert_rn π m id v).symm

theorem dropLevel (o : Order String) (ct : Ct C) (k : ℕ) : MKHE.dropLevel (o.ren π) (ct.rn π) k = (MKHE.dropLevel o ct k).map (GoMap.rn π) := by
  unfold MKHE.dropLevel
  refine Go.bind_eq' (GoMap.deref_rn0 π ct) fun p0 => Go.ite_ren rfl ?_
  rw [GoMap.range_rn]
  refine Go.loop_ren π _ _ fun ct id => ?_
  exact Go.bind_eq' (GoMap.deref_rn π ct id) fun p => Go.ite_ren rfl (ok_insert' π ct id _)

/-- `DropLevelNew` -/
theorem dropLevelNew (o o' : Order String) (ct : CCt C) (k : ℕ) :
    MKHE.dropLevelNew (o.ren π) (o'.ren π) (ct.ren π) k = (MKHE.dropLevelNew o o' ct k).map (CCt.ren π) := by
  unfold MKHE.dropLevelNew
  exact Go.bind_ren (copyNew π o ct.ct) fun out => Go.bind_ren (dropLevel π o' out k) fun _ => rfl

theorem newCiphertextBinary (o : Sched String) (a b : CCt C) :
    MKHE.newCiphertextBinary (Sched.ren π o) (a.ren π) (b.ren π) = (MKHE.newCiphertextBinary o a b).map (CCt.ren π) := by
  unfold MKHE.newCiphertextBinary
  refine Go.bind_eq' (level π a.ct) fun l0 => Go.bind_eq' (level π b.ct) fun l1 => Go.bind_ren (ofCiphertext π (o 80) a.ct) fun ids0 =>
    Go.bind_ren (ofCiphertext π (o 81) b.ct) fun ids1 => Go.bind_ren (union π (o 82) (o 83) ids0 ids1) fun ids => ?_
  exact congrArg (fun x => Except.ok (CCt.mk x _)) (new π (o 84) ids _)

/-- `Rescale` -/
theorem rescale (o : Order String) (ct : CCt C) (ms : ℚ) (out : CCt C) (same : Bool) :
    MKHE.rescale (o.ren π) (ct.ren π) ms (out.ren π) same = (MKHE.rescale o ct ms out same).map fun w => (w.1, w.2.ren π) := by
  unfold MKHE.rescale
  refine Go.ite_ren rfl (Go.ite_ren rfl (Go.bind_eq' (level π ct.ct) fun l => Go.ite_ren rfl (Go.bind_eq' rfl fun w => Go.ite_ren ?_ (Go.ite_ren rfl ?_))))
  · refine Go.bind_ren (r := GoMap.rn π) ?_ fun _ => rfl
    show Go.loop _ (GoMap.rn π out.ct) (GoMap.range (o.ren π) (out.ct.rn π)) = _
    rw [GoMap.range_rn]
    refine Go.loop_ren π _ _ fun x id => ?_
    refine Go.bind_eq' ?_ fun a => Go.bind_eq' (GoMap.deref_rn π x id) fun b => Go.bind_eq' rfl fun _ => Go.ite_ren rfl (ok_insert' π x id _)
    cases same
    · exact GoMap.deref_rn π ct.ct id
    · exact GoMap.deref_rn π x id
  · exact Go.bind_ren (copyNew π o ct.ct) fun _ => rfl

/-- `RescaleNew` -/
theorem rescaleNew (o : Sched String) (ct : CCt C) (thr : ℚ) :
    MKHE.rescaleNew (Sched.ren π o) (ct.ren π) thr = (MKHE.rescaleNew o ct thr).map fun w => (w.1, w.2.ren π) := by
  unfold MKHE.rescaleNew
  refine Go.bind_ren (ofCiphertext π (o 85) ct.ct) fun ids => Go.bind_eq' (level π ct.ct) fun l => ?_
  rw [show Ct.new (Sched.ren π o 87) (ids.ren π) l = (Ct.new (o 87) ids l : Ct C).rn π from new π _ _ _]
  exact rescale π (o 86) ct thr ⟨Ct.new (o 87) ids l, ct.scale⟩ false

/-! ## multiplication -/

theorem ckksMulRelinHoisted (ps : ℚ) (crs : GoMap ℤ (Swk C)) (o : Sched String) (E : Eval C) (a b : CCt C) (h0 h1 : Option (HoistedCt C)) (rlk : RlkMap C)
    (out : CCt C) : MKHE.ckksMulRelinHoisted ps crs (Sched.ren π o) (E.ren π) (a.ren π) (b.ren π) (hren π h0) (hren π h1) (RlkMap.ren π rlk) (out.ren π)
      = (MKHE.ckksMulRelinHoisted ps crs o E a b h0 h1 rlk out).map (rc π) := by
  unfold MKHE.ckksMulRelinHoisted
  refine Go.bind_eq' (level π a.ct) fun l0 => Go.bind_eq' (level π b.ct) fun l1 => Go.bind_eq' (level π out.ct) fun lo => ?_
  refine Go.ite_ren (Go.bind_ren (dropLevel π (o 90) out.ct _) fun ct => ?_) (Go.bind_ren (r := GoMap.rn π) (x := .ok out.ct) rfl fun ct => ?_)
  all_goals
    refine Go.bind_ren (mulAndRelinHoisted π crs o E.ksw a.ct b.ct h0 h1 rlk ct) fun w => ?_
    exact Go.bind_ren (rescale π (o 91) ⟨w.1, _⟩ ps ⟨w.1, _⟩ true) fun _ => rfl

theorem ckksMulRelin (ps : ℚ) (crs : GoMap ℤ (Swk C)) (o : Sched String) (E : Eval C) (a b : CCt C) (rlk : RlkMap C)
    (out : CCt C) : MKHE.ckksMulRelin ps crs (Sched.ren π o) (E.ren π) (a.ren π) (b.ren π) (RlkMap.ren π rlk) (out.ren π)
      = (MKHE.ckksMulRelin ps crs o E a b rlk out).map (rc π) := by
  unfold MKHE.ckksMulRelin
  refine Go.bind_eq' (level π a.ct) fun l0 => Go.bind_eq' (level π b.ct) fun l1 => Go.bind_eq' (level π out.ct) fun lo => ?_
  refine Go.ite_ren (Go.bind_ren (dropLevel π (o 90) out.ct _) fun ct => ?_) (Go.bind_ren (r := GoMap.rn π) (x := .ok out.ct) rfl fun ct => ?_)
  all_goals
    refine Go.bind_ren (mulAndRelin π crs o E.ksw a.ct b.ct rlk ct) fun w => ?_
    exact Go.bind_ren (rescale π (o 91) ⟨w.1, _⟩ ps ⟨w.1, _⟩ true) fun _ => rfl

/-- `MulRelinHoistedNew` -/
theorem ckksMulRelinHoistedNew (ps : ℚ) (crs : GoMap ℤ (Swk C)) (o : Sched String) (E : Eval C) (a b : CCt C) (h0 h1 : Option (HoistedCt C)) (rlk : RlkMap C) :
    MKHE.ckksMulRelinHoistedNew ps crs (Sched.ren π o) (E.ren π) (a.ren π) (b.ren π) (hren π h0) (hren π h1) (RlkMap.ren π rlk)
      = (MKHE.ckksMulRelinHoistedNew ps crs o E a b h0 h1 rlk).map (rc π) := by
  unfold MKHE.ckksMulRelinHoistedNew
  refine Go.bind_ren (newCiphertextBinary π o a b) fun out => ?_
  exact ckksMulRelinHoisted π ps crs o E a b h0 h1 rlk ⟨out.ct, 0⟩

/-- `MulRelinNew`; the key set is returned with its updated pools -/
theorem ckksMulRelinNew (ps : ℚ) (crs : GoMap ℤ (Swk C)) (o : Sched String) (E : Eval C) (same : Bool) (a b : CCt C) (rlk : RlkMap C) :
    MKHE.ckksMulRelinNew ps crs (Sched.ren π o) (E.ren π) same (a.ren π) (b.ren π) (RlkMap.ren π rlk)
      = (MKHE.ckksMulRelinNew ps crs o E same a b rlk).map fun w => (w.1.ren π, w.2.1.ren π, RlkMap.ren π w.2.2) := by
  unfold MKHE.ckksMulRelinNew
  refine Go.ite_ren ?_ ?_
  · refine Go.bind_ren (hoistInto π (o 92) (o 93) E.ksw a.ct rlk.pool0) fun w => ?_
    exact Go.bind_ren (ckksMulRelinHoistedNew π ps crs o { E with ksw := w.2 } a b (some w.1) (some w.1) { rlk with pool0 := w.1 }) fun _ => rfl
  · refine Go.bind_ren (hoistInto π (o 92) (o 93) E.ksw a.ct rlk.pool0) fun w => ?_
    refine Go.bind_ren (hoistInto π (o 94) (o 95) w.2 b.ct rlk.pool1) fun v => ?_
    exact Go.bind_ren (ckksMulRelinHoistedNew π ps crs o { E with ksw := v.2 } a b (some w.1) (some v.1) { rlk with pool0 := w.1, pool1 := v.1 }) fun _ => rfl

theorem mulPtxtRaw (o : Sched String) (E : Eval C) (ct : CCt C) (pt : Poly C) (s : ℚ) :
    MKHE.mulPtxtRaw (Sched.ren π o) (E.ren π) (ct.ren π) pt s = (MKHE.mulPtxtRaw o E ct pt s).map (rc π) := by
  unfold MKHE.mulPtxtRaw
  refine Go.bind_ren (ofCiphertext π (o 100) ct.ct) fun ids => Go.bind_eq' (level π ct.ct) fun l => Go.bind_eq' rfl fun _ => ?_
  refine Go.bind_ren (r := GoMap.rn π) ?_ fun _ => rfl
  rw [show Ct.new (Sched.ren π o 101) (ids.ren π) l = (Ct.new (o 101) ids l : Ct C).rn π from new π _ _ _]
  show Go.loop _ _ (GoMap.range ((o 102).ren π) (ct.ct.rn π)) = _
  rw [GoMap.range_rn]
  refine Go.loop_ren π _ _ fun out id => ?_
  refine Go.bind_eq' (GoMap.deref_rn π ct.ct id) fun a => Go.bind_eq' rfl fun _ => Go.bind_ren (upd π l id _ out) fun out => Go.bind_ren (upd π l id _ out) fun out => ?_
  exact upd π l id _ out

/-- `MulPtxtNew` -/
theorem mulPtxtNew (ps : ℚ) (o : Sched String) (E : Eval C) (ct : CCt C) (pt : Poly C) (s : ℚ) :
    MKHE.mulPtxtNew ps (Sched.ren π o) (E.ren π) (ct.ren π) pt s = (MKHE.mulPtxtNew ps o E ct pt s).map (rc π) := by
  unfold MKHE.mulPtxtNew
  exact Go.bind_ren (mulPtxtRaw π o E ct pt s) fun w => Go.bind_ren (rescale π (o 103) w.1 ps w.1 true) fun _ => rfl

/-- `MultByConst` -/
theorem multByConst (mredPsi : ℕ → ℕ → ℕ) (o : Order String) (same : Bool) (ct : CCt C) (c : Const) (out : CCt C) :
    MKHE.multByConst mredPsi (o.ren π) same (ct.ren π) c (out.ren π) = (MKHE.multByConst mredPsi o same ct c out).map (CCt.ren π) := by
  unfold MKHE.multByConst
  refine Go.ite_ren rfl (Go.bind_eq' (level π ct.ct) fun l0 => Go.bind_eq' (level π out.ct) fun lo => Go.bind_ren (r := GoMap.rn π) ?_ fun _ => rfl)
  show Go.loop _ (GoMap.rn π out.ct) (GoMap.range (o.ren π) (ct.ct.rn π)) = _
  rw [GoMap.range_rn]
  refine Go.loop_ren π _ _ fun x id => ?_
  refine Go.bind_eq' ?_ fun a => Go.bind_eq' rfl fun _ => upd π _ id _ x
  cases same
  · exact GoMap.deref_rn π ct.ct id
  · exact GoMap.deref_rn π x id

/-! ## addition and subtraction -/

section Eval
variable (f : (i : ℕ) → Limb N (C.q i) → Limb N (C.q i) → Limb N (C.q i))

theorem evalStep (l : ℕ) (cp : Poly C → Poly C → Go (Poly C)) (t0 t1 : Ct C) (ids0 ids1 : IDSet) (out : Ct C) (id : String) :
    MKHE.evalStep f l cp (t0.rn π) (t1.rn π) (ids0.ren π) (ids1.ren π) (out.rn π) (π id) = (MKHE.evalStep f l cp t0 t1 ids0 ids1 out id).map (GoMap.rn π) := by
  unfold MKHE.evalStep
  rw [has, has]
  refine Go.ite_ren ?_ (Go.ite_ren ?_ ?_)
  · exact Go.bind_eq' (GoMap.deref_rn π t1 id) fun b => Go.bind_eq' (GoMap.deref_rn π out id) fun p => Go.bind_eq' rfl fun p => ok_insert' π out id _
  · exact Go.bind_eq' (GoMap.deref_rn π t0 id) fun b => Go.bind_eq' (GoMap.deref_rn π out id) fun p => Go.bind_eq' rfl fun p => ok_insert' π out id _
  · exact Go.bind_eq' (GoMap.deref_rn π t0 id) fun a => Go.bind_eq' (GoMap.deref_rn π t1 id) fun b => Go.bind_eq' (GoMap.deref_rn π out id) fun p =>
      Go.bind_eq' rfl fun p => ok_insert' π out id _

theorem evalCore (l : ℕ) (cp : Poly C → Poly C → Go (Poly C)) (o1 o2 : Order String) (t0 t1 : Ct C) (ids0 ids1 : IDSet) (out : Ct C) :
    MKHE.evalCore f l cp (o1.ren π) (o2.ren π) (t0.rn π) (t1.rn π) (ids0.ren π) (ids1.ren π) (out.rn π)
      = (MKHE.evalCore f l cp o1 o2 t0 t1 ids0 ids1 out).map (GoMap.rn π) := by
  unfold MKHE.evalCore
  refine Go.bind_eq' (GoMap.deref_rn0 π t0) fun a => Go.bind_eq' (GoMap.deref_rn0 π t1) fun b => Go.bind_eq' (GoMap.deref_rn0 π out) fun p =>
    Go.bind_eq' rfl fun p => ?_
  have e := GoMap.insert_rn0 π out p
  refine Go.bind_ren (by rw [← e]; exact ofCiphertext π o1 _) fun ids => ?_
  show Go.loop _ _ (GoMap.range (o2.ren π) (ids.value.rn π)) = _
  rw [← e, GoMap.range_rn]
  exact Go.loop_ren π _ _ fun out id => evalStep π f l cp t0 t1 ids0 ids1 out id

theorem alignScales (mredPsi : ℕ → ℕ → ℕ) (o : Order String) (a b : CCt C) (pool : Ct C) (s : ℚ) :
    MKHE.alignScales mredPsi (o.ren π) (a.ren π) (b.ren π) (pool.rn π) s
      = (MKHE.alignScales mredPsi o a b pool s).map fun t => (t.1.rn π, t.2.1.rn π, t.2.2.rn π) := by
  unfold MKHE.alignScales
  refine Go.ite_ren ?_ (Go.ite_ren ?_ rfl)
  · exact Go.bind_ren (multByConst π mredPsi o false a _ ⟨pool, s⟩) fun _ => rfl
  · exact Go.bind_ren (multByConst π mredPsi o false b _ ⟨pool, s⟩) fun _ => rfl

theorem ckksEvaluateInPlace (mredPsi : ℕ → ℕ → ℕ) (o : Sched String) (E : Eval C) (a b out : CCt C) :
    MKHE.ckksEvaluateInPlace f mredPsi (Sched.ren π o) (E.ren π) (a.ren π) (b.ren π) (out.ren π)
      = (MKHE.ckksEvaluateInPlace f mredPsi o E a b out).map (rc π) := by
  unfold MKHE.ckksEvaluateInPlace
  refine Go.bind_ren (ofCiphertext π (o 120) a.ct) fun ids0 => Go.bind_ren (ofCiphertext π (o 121) b.ct) fun ids1 =>
    Go.bind_ren (union π (o 122) (o 123) ids0 ids1) fun ids => Go.bind_ren (pad π (o 124) (o 125) E.pool ids) fun pool => ?_
  refine Go.bind_eq' (level π a.ct) fun l0 => Go.bind_eq' (level π b.ct) fun l1 => Go.bind_eq' (level π out.ct) fun lo => ?_
  refine Go.ite_ren (Go.bind_ren (dropLevel π (o 126) out.ct _) fun ct => ?_) (Go.bind_ren (r := GoMap.rn π) (x := .ok out.ct) rfl fun ct => ?_)
  all_goals
    refine Go.bind_ren (alignScales π mredPsi (o 127) a b pool out.scale) fun t => ?_
    exact Go.bind_ren (evalCore π f _ _ (o 128) (o 129) t.1 t.2.1 ids0 ids1 ct) fun _ => rfl

end Eval

/-- `AddNew` -/
theorem ckksAddNew (mredPsi : ℕ → ℕ → ℕ) (o : Sched String) (E : Eval C) (a b : CCt C) :
    MKHE.ckksAddNew mredPsi (Sched.ren π o) (E.ren π) (a.ren π) (b.ren π) = (MKHE.ckksAddNew mredPsi o E a b).map (rc π) := by
  unfold MKHE.ckksAddNew
  exact Go.bind_ren (newCiphertextBinary π o a b) fun out => ckksEvaluateInPlace π _ mredPsi o E a b out

theorem negNew (l : ℕ) (o1 o2 o3 : Order String) (op0 out : Ct C) :
    MKHE.negNew l (o1.ren π) (o2.ren π) (o3.ren π) (op0.rn π) (out.rn π) = (MKHE.negNew l o1 o2 o3 op0 out).map (GoMap.rn π) := by
  unfold MKHE.negNew
  refine Go.bind_ren (ofCiphertext π o1 op0) fun ids0 => Go.bind_ren (ofCiphertext π o2 out) fun ids => ?_
  show Go.loop _ _ (GoMap.range (o3.ren π) (ids.value.rn π)) = _
  rw [GoMap.range_rn]
  refine Go.loop_ren π _ _ fun out id => ?_
  rw [has]
  exact Go.ite_ren (upd π l id _ out) rfl

/-- `SubNew` -/
theorem ckksSubNew (mredPsi : ℕ → ℕ → ℕ) (o : Sched String) (E : Eval C) (a b : CCt C) :
    MKHE.ckksSubNew mredPsi (Sched.ren π o) (E.ren π) (a.ren π) (b.ren π) = (MKHE.ckksSubNew mredPsi o E a b).map (rc π) := by
  unfold MKHE.ckksSubNew
  refine Go.bind_ren (newCiphertextBinary π o a b) fun out => Go.bind_ren (ckksEvaluateInPlace π _ mredPsi o E a b out) fun w => ?_
  refine Go.bind_eq' (level π a.ct) fun l0 => Go.bind_eq' (level π b.ct) fun l1 => Go.bind_eq' (level π w.1.ct) fun lo => ?_
  exact Go.bind_ren (negNew π _ (o 130) (o 131) (o 132) a.ct w.1.ct) fun _ => rfl

end MKHE.C73
