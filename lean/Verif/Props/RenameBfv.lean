import Verif.Props.RenameCkks

set_option autoImplicit false

/-!
# C73: party identifiers are only labels (the BFV evaluator)
-/

namespace MKHE.C73

variable {N : ℕ} [NeZero N] {C : Ctx N} {B : BCtx N} (π : Renaming)

theorem bfvNewBinary (o : Sched String) (a b : Ct C) : MKHE.bfvNewBinary (Sched.ren π o) (a.rn π) (b.rn π) = (MKHE.bfvNewBinary o a b).map (GoMap.rn π) := by
  unfold MKHE.bfvNewBinary
  refine Go.bind_ren (ofCiphertext π (o 80) a) fun ids0 => Go.bind_ren (ofCiphertext π (o 81) b) fun ids1 => Go.bind_ren (union π (o 82) (o 83) ids0 ids1) fun ids => ?_
  exact congrArg Except.ok (new π (o 84) ids _)

theorem bfvEvaluateInPlace (f : (i : ℕ) → Limb N (C.q i) → Limb N (C.q i) → Limb N (C.q i)) (o : Sched String) (a b out : Ct C) :
    MKHE.bfvEvaluateInPlace f (Sched.ren π o) (a.rn π) (b.rn π) (out.rn π) = (MKHE.bfvEvaluateInPlace f o a b out).map (GoMap.rn π) := by
  unfold MKHE.bfvEvaluateInPlace
  refine Go.bind_ren (ofCiphertext π (o 110) a) fun ids0 => Go.bind_ren (ofCiphertext π (o 111) b) fun ids1 => ?_
  exact evalCore π f _ _ (o 112) (o 113) a b ids0 ids1 out

/-- `AddNew` -/
theorem bfvAddNew (o : Sched String) (a b : Ct C) : MKHE.bfvAddNew (Sched.ren π o) (a.rn π) (b.rn π) = (MKHE.bfvAddNew o a b).map (GoMap.rn π) := by
  unfold MKHE.bfvAddNew
  exact Go.bind_ren (bfvNewBinary π o a b) fun out => bfvEvaluateInPlace π _ o a b out

/-- `SubNew` -/
theorem bfvSubNew (o : Sched String) (a b : Ct C) : MKHE.bfvSubNew (Sched.ren π o) (a.rn π) (b.rn π) = (MKHE.bfvSubNew o a b).map (GoMap.rn π) := by
  unfold MKHE.bfvSubNew
  refine Go.bind_ren (bfvNewBinary π o a b) fun out => Go.bind_ren (bfvEvaluateInPlace π _ o a b out) fun out => ?_
  exact negNew π _ (o 114) (o 115) (o 116) a out

theorem bfvRotate (crs : GoMap ℤ (Swk C)) (o : ℕ → Sched String) (S : Scratch C) (ct : Ct C) (r : ℤ) (rks : RotKeySet (GalKey C)) (out : Ct C) :
    MKHE.bfvRotate crs (orders π o) S (ct.rn π) r (rks.ren π) (out.rn π) = (MKHE.bfvRotate crs o S ct r rks out).map (rp π) := by
  unfold MKHE.bfvRotate
  refine Go.ite_ren (Go.bind_ren (copyFrom π (o 0 61) out ct) fun _ => rfl) (Go.bind_ren (copyNew π (o 0 62) ct) fun tmp => ?_)
  exact Go.ite_ren (rotate π crs (o 0) S tmp _ rks out) (rotLoop π crs o rks 1 _ tmp out S)

/-- `RotateNew` -/
theorem bfvRotateNew (crs : GoMap ℤ (Swk C)) (o : ℕ → Sched String) (S : Scratch C) (ct : Ct C) (r : ℤ) (rks : RotKeySet (GalKey C)) :
    MKHE.bfvRotateNew crs (orders π o) S (ct.rn π) r (rks.ren π) = (MKHE.bfvRotateNew crs o S ct r rks).map (rp π) := by
  unfold MKHE.bfvRotateNew
  refine Go.bind_ren (ofCiphertext π (o 0 63) ct) fun ids => ?_
  rw [show Ct.new (orders π o 0 64) (ids.ren π) (C.nQ - 1) = (Ct.new (o 0 64) ids (C.nQ - 1) : Ct C).rn π from new π _ _ _]
  exact bfvRotate π crs o S ct r rks _

/-- `ConjugateNew` -/
theorem bfvConjugateNew (pl : ℕ) (crs : GoMap ℤ (Swk C)) (o : Sched String) (S : Scratch C) (ct : Ct C) (cks : KeySet (GalKey C)) :
    MKHE.bfvConjugateNew pl crs (Sched.ren π o) S (ct.rn π) (cks.ren π (GalKey.ren π)) = (MKHE.bfvConjugateNew pl crs o S ct cks).map (rp π) := by
  unfold MKHE.bfvConjugateNew
  refine Go.bind_ren (ofCiphertext π (o 63) ct) fun ids => Go.bind_ren (copyNew π (o 62) ct) fun tmp => ?_
  rw [show Ct.new (Sched.ren π o 64) (ids.ren π) (C.nQ - 1) = (Ct.new (o 64) ids (C.nQ - 1) : Ct C).rn π from new π _ _ _]
  exact conjugate π pl crs o S tmp cks _

/-! ## multiplication -/

/-- an optional pair of hoisted forms -/
def bhren (h : HoistedPair B) : HoistedPair B := h.map fun p => (p.1.rn π, p.2.rn π)

/-- the keys of the parties -/
def bkeys (m : GoMap String (BRlk B.C)) : GoMap String (BRlk B.C) := GoMap.ren π.perm (BRlk.ren π) m

theorem bkeys_deref (m : GoMap String (BRlk B.C)) (id : String) : (bkeys π m).deref (π id) = (m.deref id).map (BRlk.ren π) := GoMap.deref_ren _ _ _ _

theorem digitsB (S : BScratch B) (l : ℕ) (op : CtR N) (h : HoistedPair B) (id : String) :
    MKHE.digitsB S l (op.rn π) (bhren π h) (π id) = MKHE.digitsB S l op h id := by
  cases h with
  | none => show (GoMap.deref _ _ >>= _) = _; rw [GoMap.deref_rn]; rfl
  | some h => show (GoMap.deref (GoMap.rn π h.1) _ >>= fun h1 => GoMap.deref (GoMap.rn π h.2) _ >>= _) = _; rw [GoMap.deref_rn, GoMap.deref_rn]; rfl

theorem genVecB (S : BScratch B) (l : ℕ) (op : CtR N) (h : HoistedPair B) (rlk : GoMap String (BRlk B.C)) (sel : Rlk B.C → Swk B.C)
    (hsel : ∀ k, sel (k.ren π) = sel k) (ids : List String) (x1 x2 : Swk B.C) :
    MKHE.genVecB S l (op.rn π) (bhren π h) (bkeys π rlk) sel (ids.map π) x1 x2 = MKHE.genVecB S l op h rlk sel ids x1 x2 := by
  unfold MKHE.genVecB
  refine Go.bind_ren_same (r := fun a => a) ?_ fun a => rfl
  refine Go.loop_ren (r := fun a => a) π ids ((x1, x2), S) fun st id => ?_
  unfold genVecBStep
  refine Go.bind_eq' (digitsB π st.2 l op h id) fun w => Go.bind_ren (bkeys_deref π rlk id) fun k => Go.bind_eq' ?_ fun x => Go.bind_eq' ?_ fun y => rfl
  · show accVec _ _ (sel (k.k1.ren π)) _ _ = _; rw [hsel]
  · show accVec _ _ (sel (k.k2.ren π)) _ _ = _; rw [hsel]

theorem quant (pool : Fin N → ℕ → ℕ) (a : RowsR B) (id : String) (out : Ct B.C) :
    Ct.quant pool a (π id) (out.rn π) = (Ct.quant pool a id out).map (GoMap.rn π) := by
  unfold Ct.quant
  exact Go.bind_eq' (GoMap.deref_rn π out id) fun p => Go.bind_eq' rfl fun _ => Go.bind_eq' rfl fun _ => ok_insert' π out id _

theorem quant0 (pool : Fin N → ℕ → ℕ) (a : RowsR B) (out : Ct B.C) : Ct.quant pool a "0" (out.rn π) = (Ct.quant pool a "0" out).map (GoMap.rn π) := by
  have := quant π pool a "0" out; rwa [π.zero] at this

theorem tensorB (o : Sched String) (S : BScratch B) (op0 op1 : CtR N) (ids0 ids1 : IDSet) (out : Ct B.C) :
    MKHE.tensorB (Sched.ren π o) S (op0.rn π) (op1.rn π) (ids0.ren π) (ids1.ren π) (out.rn π) = (MKHE.tensorB o S op0 op1 ids0 ids1 out).map (rp π) := by
  unfold MKHE.tensorB
  refine Go.bind_eq' (GoMap.deref_rn0 π op0) fun a0 => Go.bind_eq' (GoMap.deref_rn0 π op1) fun a1 => Go.bind_ren (quant0 π _ _ out) fun out => ?_
  refine Go.bind_ren (r := rp π) ?_ fun w => Go.bind_ren (r := rp π) ?_ fun w => ?_
  · show Go.loop _ (rp π (out, _)) (GoMap.range ((o 0).ren π) (ids0.value.rn π)) = _
    rw [GoMap.range_rn]
    refine Go.loop_ren π _ _ fun st id => ?_
    unfold tensorB0
    rw [has]
    refine Go.ite_ren (Go.bind_eq' (GoMap.deref_rn π op0 id) fun a => ?_) rfl
    exact Go.bind_ren (quant π _ _ id st.1) fun _ => rfl
  · show Go.loop _ _ (GoMap.range ((o 1).ren π) (ids1.value.rn π)) = _
    rw [GoMap.range_rn]
    refine Go.loop_ren π _ _ fun st id => ?_
    unfold tensorB1
    rw [has]
    refine Go.ite_ren (Go.bind_eq' (GoMap.deref_rn π op1 id) fun a => ?_) rfl
    exact Go.bind_ren (quant π _ _ id st.1) fun _ => rfl
  · show Go.loop _ _ (GoMap.range ((o 2).ren π) (ids1.value.rn π)) = _
    rw [GoMap.range_rn]
    refine Go.loop_ren π _ _ fun st id => ?_
    unfold tensorB2
    rw [has]
    refine Go.ite_ren (Go.bind_eq' (GoMap.deref_rn π op1 id) fun a => Go.bind_eq' (GoMap.deref_rn π op0 id) fun b => ?_) rfl
    exact Go.bind_ren (quant π _ _ id st.1) fun _ => rfl

theorem extIntoB (S : BScratch B) (l : ℕ) (op : CtR N) (h : HoistedPair B) (id : String) (g1 g2 : Swk B.C) :
    MKHE.extIntoB S l (op.rn π) (bhren π h) (π id) g1 g2 = MKHE.extIntoB S l op h id g1 g2 := by
  cases h with
  | none => show (GoMap.deref _ _ >>= _) = _; rw [GoMap.deref_rn]; rfl
  | some h => show (GoMap.deref (GoMap.rn π h.1) _ >>= fun h1 => GoMap.deref (GoMap.rn π h.2) _ >>= _) = _; rw [GoMap.deref_rn, GoMap.deref_rn]; rfl

theorem mulChecksB (op0 : CtR N) (out : Ct B.C) : MKHE.mulChecksB B (op0.rn π) (out.rn π) = MKHE.mulChecksB B op0 out := by
  unfold MKHE.mulChecksB; rw [level, GoMap.deref_rn0]

theorem mulFrontB (o : Sched String) (S : BScratch B) (op0 op1 : CtR N) (h0 h1 : HoistedPair B) (rlk : GoMap String (BRlk B.C)) (out : Ct B.C) :
    MKHE.mulFrontB (Sched.ren π o) S (op0.rn π) (op1.rn π) (bhren π h0) (bhren π h1) (bkeys π rlk) (out.rn π)
      = (MKHE.mulFrontB o S op0 op1 h0 h1 rlk out).map fun f => (f.1, f.2.1.ren π, f.2.2.1.rn π, f.2.2.2) := by
  unfold MKHE.mulFrontB
  refine Go.bind_eq' (mulChecksB π op0 out) fun l => Go.bind_ren (ofCiphertext π (o 10) op0) fun ids0 => Go.bind_ren (ofCiphertext π (o 11) op1) fun ids1 => ?_
  refine Go.bind_eq' rfl fun x1 => Go.bind_eq' rfl fun x2 => Go.bind_eq' rfl fun y1 => Go.bind_eq' rfl fun y2 => Go.bind_eq' ?_ fun x => Go.bind_eq' ?_ fun y => ?_
  · show MKHE.genVecB _ _ _ _ _ _ (GoMap.range ((o 12).ren π) (ids0.value.rn π)) _ _ = _
    rw [GoMap.range_rn]
    exact genVecB π S l op0 h0 rlk Rlk.d (fun _ => rfl) _ x1 x2
  · show MKHE.genVecB _ _ _ _ _ _ (GoMap.range ((o 13).ren π) (ids1.value.rn π)) _ _ = _
    rw [GoMap.range_rn]
    exact genVecB π _ l op1 h1 rlk Rlk.b (fun _ => rfl) _ y1 y2
  refine Go.bind_ren (tensorB π o _ op0 op1 ids0 ids1 out) fun w => Go.bind_ren (r := rp π) ?_ fun w => rfl
  show Go.loop _ _ (GoMap.range ((o 3).ren π) (ids1.value.rn π)) = _
  rw [GoMap.range_rn]
  refine Go.loop_ren π _ w fun st id => ?_
  unfold addXB
  exact Go.bind_eq' (extIntoB π st.2 l op1 h1 id _ _) fun S => Go.bind_ren (upd π l id _ st.1) fun _ => rfl

/-- `MulAndRelinBFV` -/
theorem mulAndRelinBFV (crs : GoMap ℤ (Swk B.C)) (o : Sched String) (S : BScratch B) (op0 op1 : CtR N) (rlk : GoMap String (BRlk B.C)) (out : Ct B.C) :
    MKHE.mulAndRelinBFV crs (Sched.ren π o) S (op0.rn π) (op1.rn π) (bkeys π rlk) (out.rn π) = (MKHE.mulAndRelinBFV crs o S op0 op1 rlk out).map (rp π) := by
  unfold MKHE.mulAndRelinBFV
  refine Go.bind_ren (mulFrontB π o S op0 op1 none none rlk out) fun f => ?_
  show Go.loop _ (rp π (f.2.2.1, f.2.2.2)) (GoMap.range ((o 4).ren π) (f.2.1.value.rn π)) = _
  rw [GoMap.range_rn]
  refine Go.loop_ren π _ _ fun st id => ?_
  unfold lastB
  refine Go.bind_ren (bkeys_deref π rlk id) fun k => Go.bind_eq' (extIntoB π st.2 f.1 op0 none id _ _) fun S => Go.bind_eq' rfl fun e =>
    Go.bind_ren (upd0 π f.1 _ st.1) fun out => Go.bind_eq' rfl fun u => Go.bind_eq' rfl fun e => ?_
  exact Go.bind_ren (upd π f.1 id _ out) fun _ => rfl

/-- `MulAndRelinBFVHoisted` -/
theorem mulAndRelinBFVHoisted (crs : GoMap ℤ (Swk B.C)) (o : Sched String) (S : BScratch B) (op0 op1 : CtR N) (h0 h1 : HoistedPair B)
    (rlk : GoMap String (BRlk B.C)) (out : Ct B.C) :
    MKHE.mulAndRelinBFVHoisted crs (Sched.ren π o) S (op0.rn π) (op1.rn π) (bhren π h0) (bhren π h1) (bkeys π rlk) (out.rn π)
      = (MKHE.mulAndRelinBFVHoisted crs o S op0 op1 h0 h1 rlk out).map (rp π) := by
  unfold MKHE.mulAndRelinBFVHoisted
  refine Go.bind_ren (mulFrontB π o S op0 op1 h0 h1 rlk out) fun f => ?_
  show Go.loop _ (rp π (f.2.2.1, f.2.2.2)) (GoMap.range ((o 4).ren π) (f.2.1.value.rn π)) = _
  rw [GoMap.range_rn]
  refine Go.loop_ren π _ _ fun st id => ?_
  unfold lastBHoisted
  refine Go.bind_ren (bkeys_deref π rlk id) fun k => Go.bind_eq' (extIntoB π st.2 f.1 op0 h0 id _ _) fun S => Go.bind_eq' rfl fun d => Go.bind_eq' rfl fun e =>
    Go.bind_ren (upd0 π f.1 _ st.1) fun out => Go.bind_eq' rfl fun u => Go.bind_eq' rfl fun e => ?_
  exact Go.bind_ren (upd π f.1 id _ out) fun _ => rfl

theorem toR (f : Poly B.C → Go (PolyR N)) (o : Order String) (pool : GoMap String (PolyR N)) (ct : Ct B.C) :
    MKHE.toR f (o.ren π) (pool.rn π) (ct.rn π) = (MKHE.toR f o pool ct).map (GoMap.rn π) := by
  unfold MKHE.toR
  show Go.loop _ (GoMap.rn π ∅) _ = _
  rw [GoMap.range_rn]
  refine Go.loop_ren π _ _ fun r id => ?_
  exact Go.bind_eq' (GoMap.deref_rn π ct id) fun a => Go.bind_eq' (GoMap.deref_rn π pool id) fun _ => Go.bind_eq' rfl fun x => ok_insert' π r id _

theorem hoistB (S : BScratch B) (l : ℕ) (ctR : CtR N) (ids : List String) (h : HoistedCt B.C × HoistedCt B.C) :
    MKHE.hoistB S l (ctR.rn π) (ids.map π) (h.1.rn π, h.2.rn π) = (MKHE.hoistB S l ctR ids h).map fun p => (p.1.rn π, p.2.rn π) := by
  unfold MKHE.hoistB
  refine Go.loop_ren π (r := fun p : HoistedCt B.C × HoistedCt B.C => (GoMap.rn π p.1, GoMap.rn π p.2)) _ h fun p id => ?_
  refine Go.bind_eq' (GoMap.deref_rn π ctR id) fun a => Go.bind_eq' (GoMap.deref_rn π p.1 id) fun _ => Go.bind_eq' (GoMap.deref_rn π p.2 id) fun _ => Go.bind_eq' rfl fun w => ?_
  exact congrArg₂ (fun a b => Except.ok (a, b)) (GoMap.insert_rn π p.1 id _).symm (GoMap.insert_rn π p.2 id _).symm

theorem bfvMulRelin (crs : GoMap ℤ (Swk B.C)) (o : Sched String) (S : BScratch B) (a b : Ct B.C) (set : BRlkMap B) (out : Ct B.C) :
    MKHE.bfvMulRelin crs (Sched.ren π o) S (a.rn π) (b.rn π) (BRlkMap.ren π set) (out.rn π) = (MKHE.bfvMulRelin crs o S a b set out).map (rp π) := by
  unfold MKHE.bfvMulRelin
  refine Go.bind_ren (toR π _ (o 120) set.polyR1 a) fun aR => Go.bind_ren (toR π _ (o 121) set.polyR2 b) fun bR => ?_
  exact mulAndRelinBFV π crs o S aR bR set.value out

theorem bfvMulRelinHoisted (crs : GoMap ℤ (Swk B.C)) (o : Sched String) (S : BScratch B) (a b : Ct B.C) (set : BRlkMap B) (out : Ct B.C) :
    MKHE.bfvMulRelinHoisted crs (Sched.ren π o) S (a.rn π) (b.rn π) (BRlkMap.ren π set) (out.rn π) = (MKHE.bfvMulRelinHoisted crs o S a b set out).map (rp π) := by
  unfold MKHE.bfvMulRelinHoisted
  refine Go.bind_ren (toR π _ (o 120) set.polyR1 a) fun aR => Go.bind_ren (toR π _ (o 121) set.polyR2 b) fun bR => ?_
  refine Go.bind_ren (ofCiphertext π (o 122) a) fun ids0 => Go.bind_ren (ofCiphertext π (o 123) b) fun ids1 => ?_
  refine Go.bind_eq' (level π a) fun l0 => Go.bind_ren (r := fun p : HoistedCt B.C × HoistedCt B.C => (GoMap.rn π p.1, GoMap.rn π p.2)) ?_ fun h0 =>
    Go.bind_eq' (level π b) fun l1 => Go.bind_ren (r := fun p : HoistedCt B.C × HoistedCt B.C => (GoMap.rn π p.1, GoMap.rn π p.2)) ?_ fun h1 => ?_
  · show MKHE.hoistB _ _ _ (GoMap.range ((o 124).ren π) (ids0.value.rn π)) _ = _
    rw [GoMap.range_rn]
    exact hoistB π S l0 aR _ (set.hoist10, set.hoist20)
  · show MKHE.hoistB _ _ _ (GoMap.range ((o 125).ren π) (ids1.value.rn π)) _ = _
    rw [GoMap.range_rn]
    exact hoistB π S l1 bR _ (set.hoist11, set.hoist21)
  · exact mulAndRelinBFVHoisted π crs o S aR bR (some h0) (some h1) set.value out

/-- `MulRelinNew` -/
theorem bfvMulRelinNew (crs : GoMap ℤ (Swk B.C)) (o : Sched String) (S : BScratch B) (a b : Ct B.C) (set : BRlkMap B) :
    MKHE.bfvMulRelinNew crs (Sched.ren π o) S (a.rn π) (b.rn π) (BRlkMap.ren π set) = (MKHE.bfvMulRelinNew crs o S a b set).map (rp π) := by
  unfold MKHE.bfvMulRelinNew
  exact Go.bind_ren (bfvNewBinary π o a b) fun out => bfvMulRelinHoisted π crs o S a b set out

end MKHE.C73
