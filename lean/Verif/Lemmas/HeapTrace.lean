import Verif.Model.HeapTrace
import Verif.Lemmas.HeapEvalOk
import Verif.Lemmas.ExtProd

set_option autoImplicit false
set_option linter.unusedSectionVars false

/-!
# The functions that record their writes

`*_res`: they return (or panic with) what the functions of the memory model do.
-/

namespace MKHE
open Write

namespace TG
variable {N : ℕ} {α β σ : Type}

theorem res_bind (x : TG N α) (f : α → TG N β) : (x >>= f).res = x.res >>= fun a => (f a).res := rfl
theorem res_ok (a : α) : (TG.ok a : TG N α).res = .ok a := rfl
theorem res_error (e : Fault) : (TG.error e : TG N α).res = .error e := rfl
theorem res_lift (x : Go α) : (liftM x : TG N α).res = x := rfl
theorem res_ite {c : Prop} [Decidable c] (x y : TG N α) : (if c then x else y).res = if c then x.res else y.res := by split <;> rfl

theorem res_loop (f : σ → α → TG N σ) (s : σ) (l : List α) : (loop f s l).res = Go.loop (fun s a => (f s a).res) s l := by
  induction l generalizing s with
  | nil => rfl
  | cons a l ih =>
    show ((f s a).res >>= fun s => (loop f s l).res) = _
    rw [Go.loop_cons]
    cases h : (f s a).res with
    | error e => rfl
    | ok s' => exact ih s'

end TG

namespace Heap
open TG
variable {N : ℕ} [NeZero N] {C : Ctx N}

theorem write_res (h : Heap N) (w : Write N) : (h.write w).res = .ok (w.apply h) := rfl

theorem go_loop_pure {σ α : Type} (f : σ → α → σ) (s : σ) (l : List α) : Go.loop (fun s a => (.ok (f s a) : Go σ)) s l = .ok (l.foldl f s) := Go.loop_ok f s l

theorem rowsOpT_res (h : Heap N) (n : ℕ) (f : ℕ → RowBuf N → RowBuf N → RowBuf N) (a b c : ℕ) : (h.rowsOpT n f a b c).res = .ok (h.rowsOp n f a b c) := by
  unfold rowsOpT
  rw [res_loop]
  simp only [write_res, Write.apply]
  rw [go_loop_pure]
  rfl

theorem setNTTT_res (h : Heap N) (p : ℕ) (b : Bool) : (h.setNTTT p b).res = .ok (h.setNTT p b) := rfl
theorem setCtT_res (h : Heap N) (c : ℕ) (m : GoMap String ℕ) : (h.setCtT c m).res = .ok (h.setCt c m) := rfl
theorem newPolyT_res (h : Heap N) (l : ℕ) : (h.newPolyT l).res = .ok (h.newPoly l) := rfl
theorem polyCopyNewT_res (h : Heap N) (p : ℕ) : (h.polyCopyNewT p).res = .ok (h.polyCopyNew p) := rfl
theorem allocCtT_res (h : Heap N) (m : GoMap String ℕ) : (h.allocCtT m).res = .ok (h.allocCt m) := rfl

theorem truncateT_res (h : Heap N) (p n : ℕ) : (h.truncateT p n).res = h.truncate p n := by
  unfold truncateT truncate
  rw [res_ite]
  rfl

theorem polyOpT_res (h : Heap N) (level : ℕ) (f : ℕ → RowBuf N → RowBuf N → RowBuf N) (a b c : ℕ) : (h.polyOpT level f a b c).res = h.polyOp level f a b c := by
  unfold polyOpT polyOp
  rw [res_ite, rowsOpT_res, res_bind, rowsOpT_res]
  rfl

theorem polyCopyT_res (h : Heap N) (d s : ℕ) : (h.polyCopyT d s).res = .ok (h.polyCopy d s) := by
  unfold polyCopyT polyCopy
  rw [res_bind, rowsOpT_res]
  rfl

theorem newCtT_res (o : Order String) (ids : IDSet) (level : ℕ) (h : Heap N) : (newCtT o ids level h).res = .ok (newCt o ids level h) := by
  unfold newCtT newCt
  simp only [res_bind, newPolyT_res, res_loop, bind_ok, res_ok, allocCtT_res]
  rw [go_loop_pure, bind_ok]

theorem copyNewT_res (o : Order String) (h : Heap N) (c : ℕ) : (copyNewT o h c).res = copyNew o h c := by
  unfold copyNewT copyNew
  simp only [res_bind, polyCopyNewT_res, res_loop, bind_ok, res_ok, allocCtT_res, res_lift]

theorem padStepT_res (c level : ℕ) (b : Bool) (old : IDSet) (h : Heap N) (id : String) : (padStepT c level b old h id).res = .ok (padStep c level b old h id) := by
  unfold padStepT padStep
  rw [res_ite]
  split <;> rfl

theorem padT_res (o1 o2 : Order String) (h : Heap N) (c : ℕ) (ids : IDSet) : (padT o1 o2 h c ids).res = pad o1 o2 h c ids := by
  unfold padT pad
  simp only [res_bind, res_lift, res_loop, padStepT_res, go_loop_pure]

/-- unfold both sides and push `res` inside -/
syntax "trace_res" "[" ident,* "]" : tactic
macro_rules
  | `(tactic| trace_res [$ls,*]) => do
    let simps ← ls.getElems.mapM fun l => `(Lean.Parser.Tactic.simpLemma| $l:ident)
    `(tactic| simp only [res_bind, res_lift, res_loop, res_ok, res_error, res_ite, bind_ok, polyOpT_res, rowsOpT_res, setNTTT_res, setCtT_res, truncateT_res,
      polyCopyT_res, newCtT_res, copyNewT_res, padT_res, $simps,*])

theorem updT_res (level c : ℕ) (id : String) (f : QRows C → QRows C) (h : Heap N) : (updT level c id f h).res = upd level c id f h := by
  unfold updT upd; trace_res []

theorem putCopyT_res (c : ℕ) (id : String) (P : Poly C) (h : Heap N) : (putCopyT c id P h).res = putCopy c id P h := by
  unfold putCopyT putCopy; trace_res []

theorem copyT_res (o : Order String) (h : Heap N) (dst src : ℕ) :
    (copyT o h dst src).res = copy o h dst src := by
  unfold copyT copy; trace_res []

theorem unlessNTTT_res (h : Heap N) (p level : ℕ) (f : ∀ i, Limb N (C.q i) → Limb N (C.q i)) :
    (unlessNTTT h p level f).res = unlessNTT h p level f := by
  unfold unlessNTTT unlessNTT; trace_res []

theorem partialDecryptT_res (sk : SKey C) (h : Heap N) (c : ℕ) :
    (partialDecryptT sk h c).res = partialDecrypt sk h c := by
  unfold partialDecryptT partialDecrypt; trace_res [unlessNTTT_res]

theorem decryptLoopT_res (ids : IDSet) (sks : KeySet (SKey C)) (h : Heap N) (tmp : ℕ) (l : List String) :
    (decryptLoopT ids sks h tmp l).res = decryptLoop ids sks h tmp l := by
  unfold decryptLoopT decryptLoop; trace_res [partialDecryptT_res]

theorem decryptT_res (o : Sched String) (h : Heap N) (c : ℕ) (sks : KeySet (SKey C)) (pt : ℕ) :
    (decryptT (C := C) o h c sks pt).res = decrypt (C := C) o h c sks pt := by
  unfold decryptT decrypt; trace_res [decryptLoopT_res]

theorem ckksDecryptT_res (o : Sched String) (h : Heap N) (c : ℕ) (sks : KeySet (SKey C)) (pool : ℕ) :
    (ckksDecryptT o h c sks pool).res = ckksDecrypt o h c sks pool := by
  unfold ckksDecryptT ckksDecrypt; trace_res [decryptT_res]

theorem bfvDecryptT_res (o : Sched String) (h : Heap N) (c : ℕ) (sks : KeySet (SKey C)) :
    (bfvDecryptT o h c sks).res = bfvDecrypt o h c sks := by
  unfold bfvDecryptT bfvDecrypt; trace_res [decryptLoopT_res]

theorem dropLevelT_res (o : Order String) (h : Heap N) (c levels : ℕ) :
    (dropLevelT o h c levels).res = dropLevel o h c levels := by
  unfold dropLevelT dropLevel; trace_res []

theorem dropLevelNewT_res (o o' : Order String) (h : Heap N) (c : HCt) (levels : ℕ) :
    (dropLevelNewT o o' h c levels).res = dropLevelNew o o' h c levels := by
  unfold dropLevelNewT dropLevelNew; trace_res [dropLevelT_res]

theorem constStepT_res (mredPsi : ℕ → ℕ → ℕ) (level : ℕ) (k : ℚ × ℚ × ℚ) (c out : ℕ) (h : Heap N) (id : String) :
    (constStepT (C := C) mredPsi level k c out h id).res = constStep (C := C) mredPsi level k c out h id := by
  unfold constStepT constStep; trace_res []

theorem multByConstT_res (C : Ctx N) (mredPsi : ℕ → ℕ → ℕ) (o : Order String) (h : Heap N) (c : HCt) (k : Const) (out : ℕ) :
    (multByConstT C mredPsi o h c k out).res = multByConst C mredPsi o h c k out := by
  unfold multByConstT multByConst; trace_res [constStepT_res]

theorem copyLvlT_res (h : Heap N) (level dst src : ℕ) :
    (copyLvlT h level dst src).res = copyLvl h level dst src := by
  unfold copyLvlT copyLvl; trace_res []

theorem evalStepT_res (f : ℕ → RowBuf N → RowBuf N → RowBuf N) (level : ℕ) (cp : Heap N → ℕ → ℕ → TG N (Heap N)) (t0 t1 : ℕ) (ids0 ids1 : IDSet) (out : ℕ)
    (h : Heap N) (id : String) : (evalStepT f level cp t0 t1 ids0 ids1 out h id).res = evalStep f level (fun h p q => (cp h p q).res) t0 t1 ids0 ids1 out h id := by
  unfold evalStepT evalStep; trace_res []

theorem evalCoreT_res (f : ℕ → RowBuf N → RowBuf N → RowBuf N) (level : ℕ) (cp : Heap N → ℕ → ℕ → TG N (Heap N)) (o1 o2 : Order String) (h : Heap N)
    (t0 t1 : ℕ) (ids0 ids1 : IDSet) (out : ℕ) :
    (evalCoreT f level cp o1 o2 h t0 t1 ids0 ids1 out).res = evalCore f level (fun h p q => (cp h p q).res) o1 o2 h t0 t1 ids0 ids1 out := by
  unfold evalCoreT evalCore; trace_res [evalStepT_res]

theorem alignScalesT_res (C : Ctx N) (mredPsi : ℕ → ℕ → ℕ) (o : Order String) (h : Heap N) (c0 c1 : HCt) (pool : ℕ) :
    (alignScalesT C mredPsi o h c0 c1 pool).res = alignScales C mredPsi o h c0 c1 pool := by
  unfold alignScalesT alignScales; trace_res [multByConstT_res]

theorem dropToT_res (o : Order String) (h : Heap N) (out lo level m : ℕ) :
    (dropToT o h out lo level m).res = dropTo o h out lo level m := by
  unfold dropToT dropTo; trace_res [dropLevelT_res]

theorem ckksEvaluateInPlaceT_res (C : Ctx N) (f : ℕ → RowBuf N → RowBuf N → RowBuf N) (mredPsi : ℕ → ℕ → ℕ) (o : Sched String) (h : Heap N) (pool : ℕ) (c0 c1 : HCt) (out : ℕ) :
    (ckksEvaluateInPlaceT C f mredPsi o h pool c0 c1 out).res = ckksEvaluateInPlace C f mredPsi o h pool c0 c1 out := by
  unfold ckksEvaluateInPlaceT ckksEvaluateInPlace; trace_res [alignScalesT_res, copyLvlT_res, dropToT_res, evalCoreT_res]

theorem newCiphertextBinaryT_res (o : Sched String) (h : Heap N) (op0 op1 : HCt) :
    (newCiphertextBinaryT o h op0 op1).res = newCiphertextBinary o h op0 op1 := by
  unfold newCiphertextBinaryT newCiphertextBinary; trace_res []

theorem ckksAddNewT_res (C : Ctx N) (mredPsi : ℕ → ℕ → ℕ) (o : Sched String) (h : Heap N) (pool : ℕ) (c0 c1 : HCt) :
    (ckksAddNewT C mredPsi o h pool c0 c1).res = ckksAddNew C mredPsi o h pool c0 c1 := by
  unfold ckksAddNewT ckksAddNew; trace_res [ckksEvaluateInPlaceT_res, newCiphertextBinaryT_res]

theorem negStepT_res (C : Ctx N) (level : ℕ) (ids0 : IDSet) (out : ℕ) (h : Heap N) (id : String) :
    (negStepT C level ids0 out h id).res = negStep C level ids0 out h id := by
  unfold negStepT negStep; trace_res []

theorem negNewT_res (C : Ctx N) (level : ℕ) (o1 o2 o3 : Order String) (h : Heap N) (op0 out : ℕ) :
    (negNewT C level o1 o2 o3 h op0 out).res = negNew C level o1 o2 o3 h op0 out := by
  unfold negNewT negNew; trace_res [negStepT_res]

theorem ckksSubNewT_res (C : Ctx N) (mredPsi : ℕ → ℕ → ℕ) (o : Sched String) (h : Heap N) (pool : ℕ) (c0 c1 : HCt) :
    (ckksSubNewT C mredPsi o h pool c0 c1).res = ckksSubNew C mredPsi o h pool c0 c1 := by
  unfold ckksSubNewT ckksSubNew; trace_res [ckksEvaluateInPlaceT_res, negNewT_res, newCiphertextBinaryT_res]

theorem rescaleStepT_res (C : Ctx N) (level nb cin out : ℕ) (h : Heap N) (id : String) :
    (rescaleStepT C level nb cin out h id).res = rescaleStep C level nb cin out h id := by
  unfold rescaleStepT rescaleStep; trace_res []

theorem rescaleT_res (C : Ctx N) (o : Order String) (h : Heap N) (cin : HCt) (minScale : ℚ) (out : HCt) (same : Bool) :
    (rescaleT C o h cin minScale out same).res = rescale C o h cin minScale out same := by
  unfold rescaleT rescale; trace_res [rescaleStepT_res]

theorem rescaleNewT_res (C : Ctx N) (o : Sched String) (h : Heap N) (c : HCt) (thr : ℚ) :
    (rescaleNewT C o h c thr).res = rescaleNew C o h c thr := by
  unfold rescaleNewT rescaleNew; trace_res [rescaleT_res]

theorem bfvNewBinaryT_res (C : Ctx N) (o : Sched String) (h : Heap N) (op0 op1 : ℕ) :
    (bfvNewBinaryT C o h op0 op1).res = bfvNewBinary C o h op0 op1 := by
  unfold bfvNewBinaryT bfvNewBinary; trace_res []

theorem bfvEvaluateInPlaceT_res (C : Ctx N) (f : ℕ → RowBuf N → RowBuf N → RowBuf N) (o : Sched String) (h : Heap N) (c0 c1 out : ℕ) :
    (bfvEvaluateInPlaceT C f o h c0 c1 out).res = bfvEvaluateInPlace C f o h c0 c1 out := by
  unfold bfvEvaluateInPlaceT bfvEvaluateInPlace; trace_res [evalCoreT_res]

theorem bfvAddNewT_res (C : Ctx N) (o : Sched String) (h : Heap N) (c0 c1 : ℕ) :
    (bfvAddNewT C o h c0 c1).res = bfvAddNew C o h c0 c1 := by
  unfold bfvAddNewT bfvAddNew; trace_res [bfvEvaluateInPlaceT_res, bfvNewBinaryT_res]

theorem bfvSubNewT_res (C : Ctx N) (o : Sched String) (h : Heap N) (c0 c1 : ℕ) :
    (bfvSubNewT C o h c0 c1).res = bfvSubNew C o h c0 c1 := by
  unfold bfvSubNewT bfvSubNew; trace_res [bfvEvaluateInPlaceT_res, bfvNewBinaryT_res, negNewT_res]

theorem permuteAllT_res (S : Scratch C) (level galEl : ℕ) (ids : List String) (out : ℕ) (h : Heap N) :
    (permuteAllT S level galEl ids out h).res = permuteAll S level galEl ids out h := by
  unfold permuteAllT permuteAll; trace_res [putCopyT_res]

theorem rotateStepT_res (level cin r : ℕ) (hoisted : Option (HoistedCt C)) (rks : RotKeySet (GalKey C)) (a : Option (Swk C)) (out : ℕ) (st : Heap N × Scratch C) (id : String) :
    (rotateStepT level cin r hoisted rks a out st id).res = rotateStep level cin r hoisted rks a out st id := by
  unfold rotateStepT rotateStep; trace_res [updT_res]

theorem rotateWithT_res (crs : GoMap ℤ (Swk C)) (o : Sched String) (S : Scratch C) (cin : ℕ) (rotidx : ℤ) (hoisted : Option (HoistedCt C)) (rks : RotKeySet (GalKey C)) (out : ℕ) (h : Heap N) :
    (rotateWithT crs o S cin rotidx hoisted rks out h).res = rotateWith crs o S cin rotidx hoisted rks out h := by
  unfold rotateWithT rotateWith; trace_res [permuteAllT_res, rotateStepT_res]

theorem permStepT_res (permLevel galEl cin out : ℕ) (h : Heap N) (id : String) :
    (permStepT (C := C) permLevel galEl cin out h id).res = permStep (C := C) permLevel galEl cin out h id := by
  unfold permStepT permStep; trace_res []

theorem conjStep0T_res (level : ℕ) (cks : KeySet (GalKey C)) (out : ℕ) (st : Heap N × Scratch C) (id : String) :
    (conjStep0T level cks out st id).res = conjStep0 level cks out st id := by
  unfold conjStep0T conjStep0; trace_res [updT_res]

theorem conjStep1T_res (level : ℕ) (a : Option (Swk C)) (out : ℕ) (st : Heap N × Scratch C) (id : String) :
    (conjStep1T level a out st id).res = conjStep1 level a out st id := by
  unfold conjStep1T conjStep1; trace_res [putCopyT_res]

theorem conjugateT_res (permLevel : ℕ) (crs : GoMap ℤ (Swk C)) (o : Sched String) (S : Scratch C) (cin : ℕ) (cks : KeySet (GalKey C)) (out : ℕ) (h : Heap N) :
    (conjugateT permLevel crs o S cin cks out h).res = conjugate permLevel crs o S cin cks out h := by
  unfold conjugateT conjugate; trace_res [conjStep0T_res, conjStep1T_res, permStepT_res]

theorem tensorStep0T_res (level op0 out : ℕ) (st : Heap N × Scratch C) (id : String) :
    (tensorStep0T level op0 out st id).res = tensorStep0 level op0 out st id := by
  unfold tensorStep0T tensorStep0; trace_res [updT_res]

theorem tensorStep1T_res (level op1 : ℕ) (ids0 : IDSet) (out : ℕ) (st : Heap N × Scratch C) (id : String) :
    (tensorStep1T level op1 ids0 out st id).res = tensorStep1 level op1 ids0 out st id := by
  unfold tensorStep1T tensorStep1; trace_res [updT_res]

theorem tensorT_res (o : Sched String) (S : Scratch C) (level op0 op1 : ℕ) (ids0 ids1 : IDSet) (out : ℕ) (h : Heap N) :
    (tensorT o S level op0 op1 ids0 ids1 out h).res = tensor o S level op0 op1 ids0 ids1 out h := by
  unfold tensorT tensor; trace_res [tensorStep0T_res, tensorStep1T_res, updT_res]

theorem addXStepT_res (level op1 : ℕ) (h1 : Option (HoistedCt C)) (x : Swk C) (out : ℕ) (st : Heap N × Scratch C) (id : String) :
    (addXStepT level op1 h1 x out st id).res = addXStep level op1 h1 x out st id := by
  unfold addXStepT addXStep; trace_res [updT_res]

theorem relinStepHoistedT_res (level op0 : ℕ) (h0 : Option (HoistedCt C)) (rlk : RlkMap C) (y : Swk C) (u : Option (Swk C)) (out : ℕ) (st : Heap N × Scratch C) (id : String) :
    (relinStepHoistedT level op0 h0 rlk y u out st id).res = relinStepHoisted level op0 h0 rlk y u out st id := by
  unfold relinStepHoistedT relinStepHoisted; trace_res [updT_res]

theorem mulFrontT_res (o : Sched String) (S : Scratch C) (op0 op1 : ℕ) (h0 h1 : Option (HoistedCt C)) (rlk : RlkMap C) (out : ℕ) (h : Heap N) :
    (mulFrontT o S op0 op1 h0 h1 rlk out h).res = mulFront o S op0 op1 h0 h1 rlk out h := by
  unfold mulFrontT mulFront; trace_res [addXStepT_res, tensorT_res]

theorem mulAndRelinHoistedT_res (crs : GoMap ℤ (Swk C)) (o : Sched String) (S : Scratch C) (op0 op1 : ℕ) (h0 h1 : Option (HoistedCt C)) (rlk : RlkMap C) (out : ℕ) (h : Heap N) :
    (mulAndRelinHoistedT crs o S op0 op1 h0 h1 rlk out h).res = mulAndRelinHoisted crs o S op0 op1 h0 h1 rlk out h := by
  unfold mulAndRelinHoistedT mulAndRelinHoisted; trace_res [mulFrontT_res, relinStepHoistedT_res]

theorem rotLoopT_res (crs : GoMap ℤ (Swk C)) (o : ℕ → Sched String) (rks : RotKeySet (GalKey C)) (tmp out k r : ℕ) (h : Heap N) (S : Scratch C) :
    (rotLoopT crs o rks tmp out k r h S).res = rotLoop crs o rks tmp out k r h S := by
  induction r using Nat.strong_induction_on generalizing k h S with
  | _ r ih =>
    unfold rotLoopT rotLoop
    split
    · rename_i hr
      rw [res_ite]
      simp only [res_bind, rotateWithT_res, copyT_res, ih (r / 2) (by omega)]
    · rfl

theorem ckksRotateT_res (crs : GoMap ℤ (Swk C)) (o : ℕ → Sched String) (S : Scratch C) (c : ℕ) (rotidx : ℤ) (rks : RotKeySet (GalKey C)) (out : ℕ) (h : Heap N) :
    (ckksRotateT crs o S c rotidx rks out h).res = ckksRotate crs o S c rotidx rks out h := by
  unfold ckksRotateT ckksRotate; trace_res [rotateWithT_res, copyT_res, rotLoopT_res]

theorem ckksRotateNewT_res (crs : GoMap ℤ (Swk C)) (o : ℕ → Sched String) (E : Eval C) (c : HCt) (rotidx : ℤ) (rks : RotKeySet (GalKey C)) (h : Heap N) :
    (ckksRotateNewT crs o E c rotidx rks h).res = ckksRotateNew crs o E c rotidx rks h := by
  unfold ckksRotateNewT ckksRotateNew; trace_res [ckksRotateT_res]

theorem ckksRotateHoistedT_res (crs : GoMap ℤ (Swk C)) (o : ℕ → Sched String) (S : Scratch C) (c : ℕ) (rotidx : ℤ) (hc : HoistedCt C) (rks : RotKeySet (GalKey C)) (out : ℕ) (h : Heap N) :
    (ckksRotateHoistedT crs o S c rotidx hc rks out h).res = ckksRotateHoisted crs o S c rotidx hc rks out h := by
  unfold ckksRotateHoistedT ckksRotateHoisted; trace_res [copyT_res, rotateWithT_res]

theorem ckksRotateHoistedNewT_res (crs : GoMap ℤ (Swk C)) (o : ℕ → Sched String) (E : Eval C) (c : HCt) (rotidx : ℤ) (hc : HoistedCt C) (rks : RotKeySet (GalKey C)) (h : Heap N) :
    (ckksRotateHoistedNewT crs o E c rotidx hc rks h).res = ckksRotateHoistedNew crs o E c rotidx hc rks h := by
  unfold ckksRotateHoistedNewT ckksRotateHoistedNew; trace_res [ckksRotateHoistedT_res]

theorem ckksConjugateNewT_res (permLevel : ℕ) (crs : GoMap ℤ (Swk C)) (o : Sched String) (E : Eval C) (c : HCt) (cks : KeySet (GalKey C)) (h : Heap N) :
    (ckksConjugateNewT permLevel crs o E c cks h).res = ckksConjugateNew permLevel crs o E c cks h := by
  unfold ckksConjugateNewT ckksConjugateNew; trace_res [conjugateT_res]

theorem ckksMulRelinHoistedT_res (pscale : ℚ) (crs : GoMap ℤ (Swk C)) (o : Sched String) (E : Eval C) (op0 op1 : HCt) (h0 h1 : Option (HoistedCt C)) (rlk : RlkMap C) (out : ℕ) (h : Heap N) :
    (ckksMulRelinHoistedT pscale crs o E op0 op1 h0 h1 rlk out h).res = ckksMulRelinHoisted pscale crs o E op0 op1 h0 h1 rlk out h := by
  unfold ckksMulRelinHoistedT ckksMulRelinHoisted; trace_res [dropToT_res, mulAndRelinHoistedT_res, rescaleT_res]

theorem ckksMulRelinHoistedNewT_res (pscale : ℚ) (crs : GoMap ℤ (Swk C)) (o : Sched String) (E : Eval C) (op0 op1 : HCt) (h0 h1 : Option (HoistedCt C)) (rlk : RlkMap C) (h : Heap N) :
    (ckksMulRelinHoistedNewT pscale crs o E op0 op1 h0 h1 rlk h).res = ckksMulRelinHoistedNew pscale crs o E op0 op1 h0 h1 rlk h := by
  unfold ckksMulRelinHoistedNewT ckksMulRelinHoistedNew; trace_res [ckksMulRelinHoistedT_res, newCiphertextBinaryT_res]

theorem ckksMulRelinNewT_res (pscale : ℚ) (crs : GoMap ℤ (Swk C)) (o : Sched String) (E : Eval C) (op0 op1 : HCt) (rlk : RlkMap C) (h : Heap N) :
    (ckksMulRelinNewT pscale crs o E op0 op1 rlk h).res = ckksMulRelinNew pscale crs o E op0 op1 rlk h := by
  unfold ckksMulRelinNewT ckksMulRelinNew; trace_res [ckksMulRelinHoistedNewT_res]

theorem mulPtxtStepT_res (level c : ℕ) (pq : QRows C) (out : ℕ) (h : Heap N) (id : String) :
    (mulPtxtStepT level c pq out h id).res = mulPtxtStep level c pq out h id := by
  unfold mulPtxtStepT mulPtxtStep; trace_res [updT_res]

theorem mulPtxtNewT_res (pscale : ℚ) (o : Sched String) (E : Eval C) (c : HCt) (pt : Poly C) (ptScale : ℚ) (h : Heap N) :
    (mulPtxtNewT pscale o E c pt ptScale h).res = mulPtxtNew pscale o E c pt ptScale h := by
  unfold mulPtxtNewT mulPtxtNew; trace_res [mulPtxtStepT_res, rescaleT_res]

theorem bfvRotateT_res (crs : GoMap ℤ (Swk C)) (o : ℕ → Sched String) (S : Scratch C) (c : ℕ) (rotidx : ℤ) (rks : RotKeySet (GalKey C)) (out : ℕ) (h : Heap N) :
    (bfvRotateT crs o S c rotidx rks out h).res = bfvRotate crs o S c rotidx rks out h := by
  unfold bfvRotateT bfvRotate; trace_res [copyT_res, rotLoopT_res, rotateWithT_res]

theorem bfvRotateNewT_res (crs : GoMap ℤ (Swk C)) (o : ℕ → Sched String) (S : Scratch C) (c : ℕ) (rotidx : ℤ) (rks : RotKeySet (GalKey C)) (h : Heap N) :
    (bfvRotateNewT crs o S c rotidx rks h).res = bfvRotateNew crs o S c rotidx rks h := by
  unfold bfvRotateNewT bfvRotateNew; trace_res [bfvRotateT_res]

theorem bfvConjugateNewT_res (permLevel : ℕ) (crs : GoMap ℤ (Swk C)) (o : Sched String) (S : Scratch C) (c : ℕ) (cks : KeySet (GalKey C)) (h : Heap N) :
    (bfvConjugateNewT permLevel crs o S c cks h).res = bfvConjugateNew permLevel crs o S c cks h := by
  unfold bfvConjugateNewT bfvConjugateNew; trace_res [conjugateT_res]

variable {B : BCtx N}

theorem quantT_res (pool : Fin N → ℕ → ℕ) (a : RowsR B) (id : String) (out : ℕ) (h : Heap N) :
    (quantT pool a id out h).res = quant pool a id out h := by
  unfold quantT quant; trace_res [updT_res]

theorem tensorB0T_res (op0 : CtR N) (ids1 : IDSet) (out : ℕ) (w : Heap N × BScratch B) (id : String) :
    (tensorB0T op0 ids1 out w id).res = tensorB0 op0 ids1 out w id := by
  unfold tensorB0T tensorB0; trace_res [quantT_res]

theorem tensorB1T_res (op1 : CtR N) (ids0 : IDSet) (out : ℕ) (w : Heap N × BScratch B) (id : String) :
    (tensorB1T op1 ids0 out w id).res = tensorB1 op1 ids0 out w id := by
  unfold tensorB1T tensorB1; trace_res [quantT_res]

theorem tensorB2T_res (op0 op1 : CtR N) (ids0 : IDSet) (out : ℕ) (w : Heap N × BScratch B) (id : String) :
    (tensorB2T op0 op1 ids0 out w id).res = tensorB2 op0 op1 ids0 out w id := by
  unfold tensorB2T tensorB2; trace_res [quantT_res]

theorem tensorBT_res (o : Sched String) (S : BScratch B) (op0 op1 : CtR N) (ids0 ids1 : IDSet) (out : ℕ) (h : Heap N) :
    (tensorBT o S op0 op1 ids0 ids1 out h).res = tensorB o S op0 op1 ids0 ids1 out h := by
  unfold tensorBT tensorB; trace_res [quantT_res, tensorB0T_res, tensorB1T_res, tensorB2T_res]

theorem addXBT_res (level : ℕ) (op1 : CtR N) (h1 : HoistedPair B) (out : ℕ) (w : Heap N × BScratch B) (id : String) :
    (addXBT level op1 h1 out w id).res = addXB level op1 h1 out w id := by
  unfold addXBT addXB; trace_res [updT_res]

theorem lastBHoistedT_res (crs : GoMap ℤ (Swk B.C)) (level : ℕ) (op0 : CtR N) (h0 : HoistedPair B) (rlk : GoMap String (BRlk B.C)) (out : ℕ) (w : Heap N × BScratch B) (id : String) :
    (lastBHoistedT crs level op0 h0 rlk out w id).res = lastBHoisted crs level op0 h0 rlk out w id := by
  unfold lastBHoistedT lastBHoisted; trace_res [updT_res]

theorem mulFrontBT_res (o : Sched String) (S : BScratch B) (op0 op1 : CtR N) (h0 h1 : HoistedPair B) (rlk : GoMap String (BRlk B.C)) (out : ℕ) (h : Heap N) :
    (mulFrontBT o S op0 op1 h0 h1 rlk out h).res = mulFrontB o S op0 op1 h0 h1 rlk out h := by
  unfold mulFrontBT mulFrontB; trace_res [addXBT_res, tensorBT_res]

theorem bfvMulRelinHoistedT_res (crs : GoMap ℤ (Swk B.C)) (o : Sched String) (S : BScratch B) (c0 c1 : ℕ) (set : BRlkMap B) (out : ℕ) (h : Heap N) :
    (bfvMulRelinHoistedT crs o S c0 c1 set out h).res = bfvMulRelinHoisted crs o S c0 c1 set out h := by
  unfold bfvMulRelinHoistedT bfvMulRelinHoisted; trace_res [lastBHoistedT_res, mulFrontBT_res]

theorem bfvMulRelinNewT_res (crs : GoMap ℤ (Swk B.C)) (o : Sched String) (S : BScratch B) (c0 c1 : ℕ) (set : BRlkMap B) (h : Heap N) :
    (bfvMulRelinNewT crs o S c0 c1 set h).res = bfvMulRelinNew crs o S c0 c1 set h := by
  unfold bfvMulRelinNewT bfvMulRelinNew; trace_res [bfvMulRelinHoistedT_res, bfvNewBinaryT_res]

theorem onRowsT_res (c : ℕ) (id : String) (level : ℕ) (f : ∀ i, Limb N (C.q i) → Limb N (C.q i)) (h : Heap N) :
    (onRowsT c id level f h).res = onRows c id level f h := by
  unfold onRowsT onRows; trace_res []

theorem encryptNTTT_res (gs : ℕ → Nega N ℤ) (st : Enc C) (levelQ pt : ℕ) (id : String) (c : ℕ) (h : Heap N) :
    (encryptNTTT gs st levelQ pt id c h).res = encryptNTT gs st levelQ pt id c h := by
  unfold encryptNTTT encryptNTT; trace_res [onRowsT_res]

theorem encryptCoeffT_res (gs : ℕ → Nega N ℤ) (st : Enc C) (levelQ pt : ℕ) (id : String) (c : ℕ) (h : Heap N) :
    (encryptCoeffT gs st levelQ pt id c h).res = encryptCoeff gs st levelQ pt id c h := by
  unfold encryptCoeffT encryptCoeff; trace_res [onRowsT_res]

theorem encryptBodyT_res (ntt : Bool) (gs : ℕ → Nega N ℤ) (st : Enc C) (levelQ pt : ℕ) (id : String) (c : ℕ) (h : Heap N) :
    (encryptBodyT ntt gs st levelQ pt id c h).res = encryptBody ntt gs st levelQ pt id c h := by
  unfold encryptBodyT encryptBody; trace_res [encryptCoeffT_res, encryptNTTT_res]

theorem truncAtT_res (c : ℕ) (id : String) (levelQ : ℕ) (h : Heap N) :
    (truncAtT c id levelQ h).res = truncAt c id levelQ h := by
  unfold truncAtT truncAt; trace_res []

theorem copyFlagT_res (c : ℕ) (id : String) (h : Heap N) :
    (copyFlagT c id h).res = copyFlag c id h := by
  unfold copyFlagT copyFlag; trace_res []

theorem encryptT_res (us gs : ℕ → Nega N ℤ) (st : Enc C) (pt : ℕ) (pk : PKey C) (c : ℕ) (h : Heap N) :
    (encryptT us gs st pt pk c h).res = encrypt us gs st pt pk c h := by
  unfold encryptT encrypt; trace_res [copyFlagT_res, encryptBodyT_res, onRowsT_res, truncAtT_res]

theorem ckksEncryptPtxtT_res (us gs : ℕ → Nega N ℤ) (st : Enc C) (pt : ℕ) (scale : ℚ) (pk : PKey C) (c : ℕ) (h : Heap N) :
    (ckksEncryptPtxtT us gs st pt scale pk c h).res = ckksEncryptPtxt us gs st pt scale pk c h := by
  unfold ckksEncryptPtxtT ckksEncryptPtxt; trace_res [encryptT_res]

theorem ckksEncryptNewT_res (o : Sched String) (us gs : ℕ → Nega N ℤ) (st : Enc C) (pt : ℕ) (scale : ℚ) (pk : PKey C) (h : Heap N) :
    (ckksEncryptNewT o us gs st pt scale pk h).res = ckksEncryptNew o us gs st pt scale pk h := by
  unfold ckksEncryptNewT ckksEncryptNew; trace_res [ckksEncryptPtxtT_res]

theorem bfvEncryptNewT_res (o : Sched String) (us gs : ℕ → Nega N ℤ) (st : Enc C) (pt : ℕ) (pk : PKey C) (h : Heap N) :
    (bfvEncryptNewT o us gs st pt pk h).res = bfvEncryptNew o us gs st pt pk h := by
  unfold bfvEncryptNewT bfvEncryptNew; trace_res [encryptT_res]

end Heap
end MKHE
