import Verif.Model.HeapKeyTrace
import Verif.Lemmas.HeapTraceOk
import Verif.Props.HeapKeys

set_option autoImplicit false
set_option linter.unusedSectionVars false

/-!
# Key generation with recorded writes: the results are those of the functions that do not record, and what is written at every point
-/

namespace MKHE
open Write
namespace Heap
open TG
variable {N : ℕ} [NeZero N] {C : Ctx N}

/-! ## results -/

theorem rows3T_res (n : ℕ) (f : ℕ → RowBuf N → RowBuf N → RowBuf N → RowBuf N) (a b c : ℕ) (h : Heap N) : (rows3T n f a b c h).res = .ok (rows3 n f a b c h) := by
  unfold rows3T
  rw [res_loop]
  simp only [write_res, Write.apply]
  rw [go_loop_pure]
  rfl

theorem op3T_res (m : ℕ → ℕ) (n : ℕ) (f : ∀ i, Limb N (m i) → Limb N (m i) → Limb N (m i) → Limb N (m i)) (a b c : ℕ) (h : Heap N) :
    (op3T m n f a b c h).res = op3 m n f a b c h := by
  unfold op3T op3
  trace_res [rows3T_res]

theorem qpOpT_res (f : ∀ i, Limb N (C.q i) → Limb N (C.q i) → Limb N (C.q i) → Limb N (C.q i))
    (g : ∀ j, Limb N (C.p j) → Limb N (C.p j) → Limb N (C.p j) → Limb N (C.p j)) (a b c : QP) (h : Heap N) :
    (qpOpT f g a b c h).res = qpOp f g a b c h := by
  unfold qpOpT qpOp
  trace_res [op3T_res]

theorem hMulT_res (a b c : QP) (h : Heap N) : (hMulT C a b c h).res = hMul C a b c h := qpOpT_res _ _ _ _ _ _
theorem hMulAddT_res (a b c : QP) (h : Heap N) : (hMulAddT C a b c h).res = hMulAdd C a b c h := qpOpT_res _ _ _ _ _ _
theorem hMulSubT_res (a b c : QP) (h : Heap N) : (hMulSubT C a b c h).res = hMulSub C a b c h := qpOpT_res _ _ _ _ _ _
theorem hMFormT_res (a c : QP) (h : Heap N) : (hMFormT C a c h).res = hMForm C a c h := qpOpT_res _ _ _ _ _ _
theorem hInvMFormT_res (a c : QP) (h : Heap N) : (hInvMFormT C a c h).res = hInvMForm C a c h := qpOpT_res _ _ _ _ _ _
theorem hSubT_res (a b c : QP) (h : Heap N) : (hSubT C a b c h).res = hSub C a b c h := qpOpT_res _ _ _ _ _ _
theorem hAddT_res (a b c : QP) (h : Heap N) : (hAddT C a b c h).res = hAdd C a b c h := qpOpT_res _ _ _ _ _ _
theorem hNTTT_res (a c : QP) (h : Heap N) : (hNTTT C a c h).res = hNTT C a c h := qpOpT_res _ _ _ _ _ _
theorem hNegT_res (a : QP) (h : Heap N) : (hNegT C a h).res = hNeg C a h := qpOpT_res _ _ _ _ _ _
theorem hMulScalarT_res (G : ℕ) (a : QP) (h : Heap N) : (hMulScalarT C G a h).res = hMulScalar C G a h := qpOpT_res _ _ _ _ _ _
theorem hPermT_res (g : ℕ) (a c : QP) (h : Heap N) : (hPermT C g a c h).res = hPerm C g a c h := qpOpT_res _ _ _ _ _ _

theorem hSampleT_res (x : Nega N ℤ) (v : QP) (h : Heap N) : (hSampleT C x v h).res = hSample C x v h := by
  unfold hSampleT hSample
  trace_res [op3T_res]

theorem newQPT_res (h : Heap N) : (newQPT C h).res = .ok (newQP C h) := rfl
theorem qpCopyNewT_res (v : QP) (h : Heap N) : (qpCopyNewT v h).res = .ok (qpCopyNew v h) := rfl
theorem newSecretKeyT_res (id : String) (h : Heap N) : (newSecretKeyT C id h).res = .ok (newSecretKey C id h) := rfl
theorem newPublicKeyT_res (id : String) (h : Heap N) : (newPublicKeyT C id h).res = .ok (newPublicKey C id h) := rfl

theorem newSwitchingKeyT_res (h : Heap N) : (newSwitchingKeyT C h).res = .ok (newSwitchingKey C h) := by
  unfold newSwitchingKeyT newSwitchingKey
  trace_res [newQPT_res]
  rw [go_loop_pure]

theorem newRelinearizationKeyT_res (id : String) (h : Heap N) : (newRelinearizationKeyT C id h).res = .ok (newRelinearizationKey C id h) := by
  unfold newRelinearizationKeyT newRelinearizationKey
  trace_res [newSwitchingKeyT_res]

theorem newRotationKeyT_res (r : ℕ) (id : String) (h : Heap N) : (newRotationKeyT C r id h).res = .ok (newRotationKey C r id h) := by
  unfold newRotationKeyT newRotationKey
  trace_res [newSwitchingKeyT_res]

theorem newConjugationKeyT_res (id : String) (h : Heap N) : (newConjugationKeyT C id h).res = .ok (newConjugationKey C id h) := by
  unfold newConjugationKeyT newConjugationKey
  trace_res [newSwitchingKeyT_res]

theorem newBfvRelinearizationKeyT_res (id : String) (h : Heap N) : (newBfvRelinearizationKeyT C id h).res = .ok (newBfvRelinearizationKey C id h) := by
  unfold newBfvRelinearizationKeyT newBfvRelinearizationKey
  trace_res [newRelinearizationKeyT_res]

theorem hGenSkT_res (x : Nega N ℤ) (id : String) (h : Heap N) : (hGenSkT C x id h).res = hGenSk C x id h := by
  unfold hGenSkT hGenSk
  trace_res [newQPT_res, hSampleT_res, hNTTT_res, hMFormT_res]

theorem hGenPkT_res (crs : GoMap ℤ SwkObj) (gs : ℕ → Nega N ℤ) (pos : ℕ) (sk : SkObj) (h : Heap N) :
    (hGenPkT C crs gs pos sk h).res = hGenPk C crs gs pos sk h := by
  unfold hGenPkT hGenPk
  trace_res [newPublicKeyT_res, hSampleT_res, hNTTT_res, hMulSubT_res]

theorem hGenErrT_res (x : Nega N ℤ) (e : QP) (h : Heap N) : (hGenErrT C x e h).res = hGenErr C x e h := by
  unfold hGenErrT hGenErr
  trace_res [hSampleT_res, hNTTT_res]

theorem hGadgetT_res (i pool : ℕ) (v : QP) (n : ℕ) : ∀ (j : ℕ) (h : Heap N), (hGadgetT C i pool v n j h).res = hGadget C i pool v n j h := by
  induction n with
  | zero => intro j h; rfl
  | succ n ih =>
    intro j h
    unfold hGadgetT hGadget
    trace_res [write_res, ih]
    rfl

theorem hSwkBlockT_res (x : Nega N ℤ) (pool i : ℕ) (v : QP) (h : Heap N) : (hSwkBlockT C x pool i v h).res = hSwkBlock C x pool i v h := by
  unfold hSwkBlockT hSwkBlock
  trace_res [hSampleT_res, hNTTT_res, hMFormT_res, hGadgetT_res]

theorem hGenSwkT_res (gs : ℕ → Nega N ℤ) (K : HKG) (pos : ℕ) (skIn : SkObj) (swk : SwkObj) (h : Heap N) :
    (hGenSwkT C gs K pos skIn swk h).res = hGenSwk C gs K pos skIn swk h := by
  unfold hGenSwkT hGenSwk hGenSwkStepT
  trace_res [op3T_res, hSwkBlockT_res]

theorem hBlocksT_res (f : QP → QP → Heap N → TG N (Heap N)) (a swk : SwkObj) (h : Heap N) :
    (hBlocksT C f a swk h).res = hBlocks C (fun x v h => (f x v h).res) a swk h := by
  unfold hBlocksT hBlocks hBlocksStepT
  trace_res []

theorem hBlocks2T_res (f : QP → QP → Heap N → TG N (Heap N)) (a1 d1 a2 d2 : SwkObj) (h : Heap N) :
    (hBlocks2T C f a1 d1 a2 d2 h).res = hBlocks2 C (fun x v h => (f x v h).res) a1 d1 a2 d2 h := by
  unfold hBlocks2T hBlocks2 hBlocks2StepT
  trace_res []

theorem hRelinBT_res (x : Nega N ℤ) (sk : SkObj) (a tmp b : QP) (h : Heap N) : (hRelinBT C x sk a tmp b h).res = hRelinB C x sk a tmp b h := by
  unfold hRelinBT hRelinB
  trace_res [hMulT_res, hInvMFormT_res, hGenErrT_res, hSubT_res, hMFormT_res]

theorem hRelinVT_res (sk : SkObj) (u v : QP) (h : Heap N) : (hRelinVT C sk u v h).res = hRelinV C sk u v h := by
  unfold hRelinVT hRelinV
  trace_res [hMulAddT_res, hNegT_res]

theorem hGenRlkT_res (crs : GoMap ℤ SwkObj) (gs : ℕ → Nega N ℤ) (K : HKG) (pos : ℕ) (sk r : SkObj) (h : Heap N) :
    (hGenRlkT C crs gs K pos sk r h).res = hGenRlk C crs gs K pos sk r h := by
  unfold hGenRlkT hGenRlk hRelinBStepT
  trace_res [newRelinearizationKeyT_res, hRelinBT_res, hGenSwkT_res, hBlocksT_res, hMulSubT_res, hRelinVT_res]

theorem hGenRotT_res (crs : GoMap ℤ SwkObj) (gs : ℕ → Nega N ℤ) (K : HKG) (pos : ℕ) (r : ℤ) (sk : SkObj) (h : Heap N) :
    (hGenRotT C crs gs K pos r sk h).res = hGenRot C crs gs K pos r sk h := by
  unfold hGenRotT hGenRot
  trace_res [newSecretKeyT_res, hPermT_res, newRotationKeyT_res, hGenSwkT_res, hBlocksT_res, hMulSubT_res]

theorem hGenConjT_res (crs : GoMap ℤ SwkObj) (gs : ℕ → Nega N ℤ) (K : HKG) (pos : ℕ) (sk : SkObj) (h : Heap N) :
    (hGenConjT C crs gs K pos sk h).res = hGenConj C crs gs K pos sk h := by
  unfold hGenConjT hGenConj
  trace_res [newSecretKeyT_res, hPermT_res, newConjugationKeyT_res, hGenSwkT_res, hBlocksT_res, hMulSubT_res]

theorem hBfvBlockT_res (x : Nega N ℤ) (sk : SkObj) (G : ℕ) (v : QP) (h : Heap N) : (hBfvBlockT C x sk G v h).res = hBfvBlock C x sk G v h := by
  unfold hBfvBlockT hBfvBlock
  trace_res [hInvMFormT_res, hMulScalarT_res, newQPT_res, hGenErrT_res, hAddT_res, hMFormT_res]

theorem hBfvHalfT_res (B : BCtx N) (mods : ℕ → ℕ) (gs : ℕ → Nega N ℤ) (sk : SkObj) (swk : SwkObj) (pos : ℕ) (h : Heap N) :
    (hBfvHalfT B mods gs sk swk pos h).res = hBfvHalf B mods gs sk swk pos h := by
  unfold hBfvHalfT hBfvHalf hBfvHalfStepT
  trace_res [hBfvBlockT_res]

theorem hGenBfvSwkT_res (B : BCtx N) (gs : ℕ → Nega N ℤ) (pos : ℕ) (sk : SkObj) (s1 s2 : SwkObj) (h : Heap N) :
    (hGenBfvSwkT B gs pos sk s1 s2 h).res = hGenBfvSwk B gs pos sk s1 s2 h := by
  unfold hGenBfvSwkT hGenBfvSwk
  trace_res [hBfvHalfT_res]

theorem hGenBfvRlkT_res (B : BCtx N) (crs : GoMap ℤ SwkObj) (gs : ℕ → Nega N ℤ) (K : HKG) (pos : ℕ) (sk r : SkObj) (h : Heap N) :
    (hGenBfvRlkT B crs gs K pos sk r h).res = hGenBfvRlk B crs gs K pos sk r h := by
  unfold hGenBfvRlkT hGenBfvRlk hBfvRelinStepT
  trace_res [newBfvRelinearizationKeyT_res, newQPT_res, hRelinBT_res, hGenBfvSwkT_res, hBlocks2T_res, hGenSwkT_res, hBlocksT_res, hMulSubT_res, hRelinVT_res]

theorem heapStepT_res (B : BCtx N) (us : ℕ → PolyQP B.C) (gs : ℕ → Nega N ℤ) (K : HKG) (s : HState N) (c : Cmd N) (hc : ∀ i, c ≠ .addCRS i) :
    (heapStepT B gs K s c).res = heapStep B us gs K s c := by
  cases c with
  | addCRS i => exact absurd rfl (hc i)
  | copy i =>
    unfold heapStepT heapStep
    dsimp only
    generalize s.keys[i]? = o
    rcases o with _ | _ | _ | _ | _ | _ <;> rfl
  | _ =>
    unfold heapStepT heapStep
    trace_res [hGenSkT_res, hGenPkT_res, hGenRlkT_res, hGenBfvRlkT_res, hGenRotT_res, hGenConjT_res]

/-! ## writes -/

/-- from `h` to `g`: compared to `h0` only `Wp` and new memory have been written; no polynomial of `h` has got another number of rows and no ciphertext object was made -/
structure KKept (h0 : Heap N) (Wp : Set ℕ) (h g : Heap N) : Prop where
  ok : Ok h0 Wp ∅ g
  npoly : h.npoly ≤ g.npoly
  nct : g.nct = h.nct
  len : ∀ p < h.npoly, g.len p = h.len p

section
variable {h0 h : Heap N} {Wp : Set ℕ}

theorem KKept.refl (K : Ok h0 Wp ∅ h) : KKept h0 Wp h h := ⟨K, le_rfl, rfl, fun _ _ => rfl⟩

instance : Rel (KKept h0 Wp) where
  trans _ _ _ x y := ⟨y.ok, x.npoly.trans y.npoly, y.nct.trans x.nct, fun p hp => (y.len p (hp.trans_le x.npoly)).trans (x.len p hp)⟩
  refl _ _ x := KKept.refl x.ok

/-- the polynomials may be written -/
def Tgt (h0 : Heap N) (Wp : Set ℕ) (h : Heap N) (l : List ℕ) : Prop := ∀ p ∈ l, (p ∈ Wp ∨ h0.npoly ≤ p) ∧ p < h.npoly

theorem Tgt.keep {l : List ℕ} {g : Heap N} (t : Tgt h0 Wp h l) (k : KKept h0 Wp h g) : Tgt h0 Wp g l := fun p hp => ⟨(t p hp).1, (t p hp).2.trans_le k.npoly⟩

theorem Tgt.sub {l l' : List ℕ} (t : Tgt h0 Wp h l) (s : l' ⊆ l) : Tgt h0 Wp h l' := fun p hp => t p (s hp)

theorem Tgt.fresh {l : List ℕ} {g : Heap N} (K : Ok h0 Wp ∅ h) (f : C70.Fresh h g l) : Tgt h0 Wp g l := fun p hp =>
  ⟨Or.inr (K.only.npoly.trans (f.2 p hp).1), (f.2 p hp).2⟩

theorem RowsTo.kkept {p : ℕ} {g : Heap N} (r : RowsTo p h g) (K : Ok h0 Wp ∅ h) (hw : p ∈ Wp ∨ h0.npoly ≤ p) : KKept h0 Wp h g :=
  ⟨K.step hw r.wf r.only, r.npoly.ge, r.nct, fun q _ => by unfold len; rw [r.poly]⟩

theorem rows3T_rows {n : ℕ} {f : ℕ → RowBuf N → RowBuf N → RowBuf N → RowBuf N} {a b p : ℕ} (W : WF h) (hp : p < h.npoly) (hn : n ≤ h.len p) :
    Runs (RowsTo p) h (rows3T n f a b p h) (fun g => g) := by
  refine Runs.loop_inv (fun _ => True) rfl (RowsTo.refl W hp) trivial fun s i hi _ r => ⟨?_, fun _ _ => trivial⟩
  have hi' : i < s.len p := by
    have : s.len p = h.len p := by unfold len; rw [r.poly]
    have := List.mem_range.mp hi
    omega
  refine write_runs (RowsTo.refl r.wf r.lt) (RowsTo.setRow r.wf r.lt hi' _) ?_
  rintro g ⟨x, rfl⟩
  exact RowsTo.setRow r.wf r.lt hi' x

theorem op3T_runs {m : ℕ → ℕ} {n : ℕ} {f : ∀ i, Limb N (m i) → Limb N (m i) → Limb N (m i) → Limb N (m i)} {a b p : ℕ} (K : Ok h0 Wp ∅ h)
    (t : (p ∈ Wp ∨ h0.npoly ≤ p) ∧ p < h.npoly) : Runs (KKept h0 Wp) h (op3T m n f a b p h) (fun g => g) := by
  refine Runs.mono (R := RowsTo p) ?_ fun g r => r.kkept K t.1
  unfold op3T
  split
  · exact rows3T_rows K.wf t.2 (by omega)
  · exact Runs.bind (rows3T_rows K.wf t.2 (by omega)) fun g _ r => Runs.error (Rel.refl _ _ r)

theorem qpOpT_runs {f : ∀ i, Limb N (C.q i) → Limb N (C.q i) → Limb N (C.q i) → Limb N (C.q i)}
    {g : ∀ j, Limb N (C.p j) → Limb N (C.p j) → Limb N (C.p j) → Limb N (C.p j)} {a b c : QP} (K : Ok h0 Wp ∅ h) (t : Tgt h0 Wp h (C70.QP.polys c)) :
    Runs (KKept h0 Wp) h (qpOpT f g a b c h) (fun g => g) :=
  Runs.bind (op3T_runs K (t c.q (by simp [C70.QP.polys]))) fun _ _ r => op3T_runs r.ok (t.keep r c.p (by simp [C70.QP.polys]))

theorem hSampleT_runs {x : Nega N ℤ} {v : QP} (K : Ok h0 Wp ∅ h) (t : Tgt h0 Wp h (C70.QP.polys v)) :
    Runs (KKept h0 Wp) h (hSampleT C x v h) (fun g => g) := by
  refine Runs.bind (op3T_runs K (t v.q (by simp [C70.QP.polys]))) fun g _ r => ?_
  dsimp only
  split
  · exact Runs.error (KKept.refl r.ok)
  · exact op3T_runs r.ok (t.keep r v.p (by simp [C70.QP.polys]))

theorem setNTTT_kkept {p : ℕ} {b : Bool} (K : Ok h0 Wp ∅ h) (hw : p ∈ Wp ∨ h0.npoly ≤ p) : Runs (KKept h0 Wp) h (h.setNTTT p b) (fun g => g) := by
  refine write_runs (KKept.refl K) ⟨K.step hw (setNTT_wf K.wf _ _) (setNTT_only _ _), le_rfl, rfl, fun q _ => ?_⟩ (fun _ e => e.elim)
  show ((Function.update h.poly p _) q).coeffs.length = (h.poly q).coeffs.length
  by_cases e : q = p
  · subst e; rw [Function.update_self]
  · rw [Function.update_of_ne e]

theorem polyCopyT_kkept {p q : ℕ} (K : Ok h0 Wp ∅ h) (t : (p ∈ Wp ∨ h0.npoly ≤ p) ∧ p < h.npoly) : Runs (KKept h0 Wp) h (h.polyCopyT p q) (fun g => g) :=
  Runs.bind ((rowsOpT_rows K.wf t.2 (min_le_left _ _)).mono fun _ r => r.kkept K t.1) fun _ _ r => setNTTT_kkept r.ok t.1

theorem allocPolyT_kkept {b : Bool} {rows : List (RowBuf N)} (K : Ok h0 Wp ∅ h) : Runs (KKept h0 Wp) h (h.allocPolyT b rows) (·.2) := by
  obtain ⟨a1, a2, a3, a4, a5, a6⟩ := allocPoly_inv (h := h) K.wf b rows
  refine ⟨fun g hg => ?_, fun a e => by cases e; rfl⟩
  rcases hg with e | e | e
  · rw [e]; exact KKept.refl K
  · exact e.elim
  · cases e
    exact ⟨K.fresh a1 a2, a2.npoly, a4, fun p hp => congrArg (fun o : PolyObj => o.coeffs.length) (a2.poly p hp (by simp))⟩

theorem newQPT_runs (K : Ok h0 Wp ∅ h) : Runs (KKept h0 Wp) h (newQPT C h) (·.2) :=
  Runs.bind (allocPolyT_kkept K) fun _ _ r => Runs.bind (allocPolyT_kkept r.ok) fun _ _ r => Runs.ok (KKept.refl r.ok) rfl

theorem qpCopyNewT_runs {v : QP} (K : Ok h0 Wp ∅ h) : Runs (KKept h0 Wp) h (qpCopyNewT v h) (·.2) :=
  Runs.bind (allocPolyT_kkept K) fun _ _ r => Runs.bind (allocPolyT_kkept r.ok) fun _ _ r => Runs.ok (KKept.refl r.ok) rfl

theorem newSecretKeyT_runs {id : String} (K : Ok h0 Wp ∅ h) : Runs (KKept h0 Wp) h (newSecretKeyT C id h) (·.2) :=
  Runs.bind (newQPT_runs K) fun _ _ r => Runs.ok (KKept.refl r.ok) rfl

theorem newPublicKeyT_runs {id : String} (K : Ok h0 Wp ∅ h) : Runs (KKept h0 Wp) h (newPublicKeyT C id h) (·.2) :=
  Runs.bind (newQPT_runs K) fun _ _ r => Runs.bind (newQPT_runs r.ok) fun _ _ r => Runs.ok (KKept.refl r.ok) rfl

theorem newSwitchingKeyT_runs (K : Ok h0 Wp ∅ h) : Runs (KKept h0 Wp) h (newSwitchingKeyT C h) (·.2) :=
  Runs.loop rfl (KKept.refl K) fun _ _ r => Runs.bind (newQPT_runs r.ok) fun _ _ r => Runs.ok (KKept.refl r.ok) rfl

theorem newRelinearizationKeyT_runs {id : String} (K : Ok h0 Wp ∅ h) : Runs (KKept h0 Wp) h (newRelinearizationKeyT C id h) (·.2) :=
  Runs.bind (newSwitchingKeyT_runs K) fun _ _ r => Runs.bind (newSwitchingKeyT_runs r.ok) fun _ _ r => Runs.bind (newSwitchingKeyT_runs r.ok) fun _ _ r =>
    Runs.ok (KKept.refl r.ok) rfl

theorem newRotationKeyT_runs {k : ℕ} {id : String} (K : Ok h0 Wp ∅ h) : Runs (KKept h0 Wp) h (newRotationKeyT C k id h) (·.2) :=
  Runs.bind (newSwitchingKeyT_runs K) fun _ _ r => Runs.ok (KKept.refl r.ok) rfl

theorem newConjugationKeyT_runs {id : String} (K : Ok h0 Wp ∅ h) : Runs (KKept h0 Wp) h (newConjugationKeyT C id h) (·.2) :=
  Runs.bind (newSwitchingKeyT_runs K) fun _ _ r => Runs.ok (KKept.refl r.ok) rfl

theorem newBfvRelinearizationKeyT_runs {id : String} (K : Ok h0 Wp ∅ h) : Runs (KKept h0 Wp) h (newBfvRelinearizationKeyT C id h) (·.2) :=
  Runs.bind (newRelinearizationKeyT_runs K) fun _ _ r => Runs.bind (newRelinearizationKeyT_runs r.ok) fun _ _ r => Runs.ok (KKept.refl r.ok) rfl

theorem skCopyNewT_runs {k : SkObj} (K : Ok h0 Wp ∅ h) : Runs (KKept h0 Wp) h (skCopyNewT k h) (·.2) :=
  Runs.bind (qpCopyNewT_runs K) fun _ _ r => Runs.ok (KKept.refl r.ok) rfl

theorem pkCopyNewT_runs {k : PkObj} (K : Ok h0 Wp ∅ h) : Runs (KKept h0 Wp) h (pkCopyNewT k h) (·.2) :=
  Runs.bind (qpCopyNewT_runs K) fun _ _ r => Runs.bind (qpCopyNewT_runs r.ok) fun _ _ r => Runs.ok (KKept.refl r.ok) rfl

theorem blk_mem {s : SwkObj} {i : ℕ} {v : QP} (e : blk s i = .ok v) : v ∈ s := by
  unfold blk at e
  split at e
  · rename_i x hx; cases e; exact List.mem_of_getElem? hx
  · cases e

theorem Tgt.blk {s : SwkObj} {i : ℕ} {v : QP} (t : Tgt h0 Wp h (C70.SwkObj.polys s)) (e : blk s i = .ok v) : Tgt h0 Wp h (C70.QP.polys v) :=
  t.sub fun _ hp => List.mem_flatMap.mpr ⟨v, blk_mem e, hp⟩

theorem newQP_tgt (K : Ok h0 Wp ∅ h) {w : QP × Heap N} (e : (newQPT C h).res = .ok w) : Tgt h0 Wp w.2 (C70.QP.polys w.1) := by
  cases e
  obtain ⟨-, e1, e2, -⟩ := newQP_spec (C := C) K.wf
  refine Tgt.fresh K (g := (newQP C h).2) (l := C70.QP.polys (newQP C h).1) ?_
  rw [e1]
  refine ⟨by simp [C70.QP.polys], fun p hp => ?_⟩
  simp only [C70.QP.polys, List.mem_cons, List.not_mem_nil, or_false] at hp
  omega

theorem hGenErrT_runs {x : Nega N ℤ} {e : QP} (K : Ok h0 Wp ∅ h) (t : Tgt h0 Wp h (C70.QP.polys e)) : Runs (KKept h0 Wp) h (hGenErrT C x e h) (fun g => g) :=
  Runs.bind (hSampleT_runs K t) fun _ _ r => qpOpT_runs r.ok (t.keep r)

theorem hGadgetT_runs {i pool : ℕ} {v : QP} (n : ℕ) : ∀ (j : ℕ) (h : Heap N), Ok h0 Wp ∅ h → Tgt h0 Wp h (C70.QP.polys v) →
    Runs (KKept h0 Wp) h (hGadgetT C i pool v n j h) (fun g => g) := by
  induction n with
  | zero => intro j h K _; exact Runs.ok (KKept.refl K) rfl
  | succ n ih =>
    intro j h K t
    unfold hGadgetT
    split
    · exact Runs.ok (KKept.refl K) rfl
    split
    · exact Runs.error (KKept.refl K)
    rename_i hl
    have tq := t v.q (by simp [C70.QP.polys])
    have hi : i * C.alpha + j < h.len v.q := by omega
    refine Runs.bind (write_runs (KKept.refl K) ((RowsTo.setRow K.wf tq.2 hi _).kkept K tq.1) ?_) fun g _ r => ih (j + 1) g r.ok (t.keep r)
    rintro g ⟨x, rfl⟩
    exact (RowsTo.setRow K.wf tq.2 hi x).kkept K tq.1

theorem hSwkBlockT_runs {x : Nega N ℤ} {pool i : ℕ} {v : QP} (K : Ok h0 Wp ∅ h) (t : Tgt h0 Wp h (C70.QP.polys v)) :
    Runs (KKept h0 Wp) h (hSwkBlockT C x pool i v h) (fun g => g) :=
  Runs.bind (hSampleT_runs K t) fun _ _ r1 => Runs.bind (qpOpT_runs r1.ok (t.keep r1)) fun _ _ r2 =>
    Runs.bind (qpOpT_runs r2.ok ((t.keep r1).keep r2)) fun _ _ r3 => hGadgetT_runs _ _ _ r3.ok (((t.keep r1).keep r2).keep r3)

theorem hGenSwkT_runs {gs : ℕ → Nega N ℤ} {G : HKG} {pos : ℕ} {sk : SkObj} {s : SwkObj} (K : Ok h0 Wp ∅ h) (hG : (G.poolQ ∈ Wp ∨ h0.npoly ≤ G.poolQ) ∧ G.poolQ < h.npoly)
    (t : Tgt h0 Wp h (C70.SwkObj.polys s)) : Runs (KKept h0 Wp) h (hGenSwkT C gs G pos sk s h) (·.2) :=
  Runs.bind (op3T_runs K hG) fun _ _ r => Runs.loop rfl (KKept.refl r.ok) fun _ _ r' => Runs.lift (KKept.refl r'.ok) fun _ e =>
    Runs.bind (hSwkBlockT_runs r'.ok (((t.keep r).keep r').blk e)) fun _ _ r2 => Runs.ok (KKept.refl r2.ok) rfl

theorem hBlocksT_runs {f : QP → QP → Heap N → TG N (Heap N)} {a s : SwkObj} (K : Ok h0 Wp ∅ h) (t : Tgt h0 Wp h (C70.SwkObj.polys s))
    (hf : ∀ x v g, Ok h0 Wp ∅ g → Tgt h0 Wp g (C70.QP.polys v) → Runs (KKept h0 Wp) g (f x v g) (fun g => g)) :
    Runs (KKept h0 Wp) h (hBlocksT C f a s h) (fun g => g) :=
  Runs.loop rfl (KKept.refl K) fun _ _ r => Runs.lift (KKept.refl r.ok) fun _ _ => Runs.lift (KKept.refl r.ok) fun _ e => hf _ _ _ r.ok ((t.keep r).blk e)

theorem hBlocks2T_runs {f : QP → QP → Heap N → TG N (Heap N)} {a1 d1 a2 d2 : SwkObj} (K : Ok h0 Wp ∅ h) (t1 : Tgt h0 Wp h (C70.SwkObj.polys d1))
    (t2 : Tgt h0 Wp h (C70.SwkObj.polys d2))
    (hf : ∀ x v g, Ok h0 Wp ∅ g → Tgt h0 Wp g (C70.QP.polys v) → Runs (KKept h0 Wp) g (f x v g) (fun g => g)) :
    Runs (KKept h0 Wp) h (hBlocks2T C f a1 d1 a2 d2 h) (fun g => g) :=
  Runs.loop rfl (KKept.refl K) fun _ _ r => Runs.lift (KKept.refl r.ok) fun _ _ => Runs.lift (KKept.refl r.ok) fun _ e =>
    Runs.bind (hf _ _ _ r.ok ((t1.keep r).blk e)) fun _ _ r' => Runs.lift (KKept.refl r'.ok) fun _ _ => Runs.lift (KKept.refl r'.ok) fun _ e' =>
      hf _ _ _ r'.ok (((t2.keep r).keep r').blk e')

theorem hRelinBT_runs {x : Nega N ℤ} {sk : SkObj} {a tmp b : QP} (K : Ok h0 Wp ∅ h) (t : Tgt h0 Wp h (C70.QP.polys b)) (t' : Tgt h0 Wp h (C70.QP.polys tmp)) :
    Runs (KKept h0 Wp) h (hRelinBT C x sk a tmp b h) (fun g => g) :=
  Runs.bind (qpOpT_runs K t) fun _ _ r1 => Runs.bind (qpOpT_runs r1.ok (t.keep r1)) fun _ _ r2 =>
    Runs.bind (hGenErrT_runs r2.ok ((t'.keep r1).keep r2)) fun _ _ r3 => Runs.bind (qpOpT_runs r3.ok (((t.keep r1).keep r2).keep r3)) fun _ _ r4 =>
      qpOpT_runs r4.ok ((((t.keep r1).keep r2).keep r3).keep r4)

theorem hRelinVT_runs {sk : SkObj} {u v : QP} (K : Ok h0 Wp ∅ h) (t : Tgt h0 Wp h (C70.QP.polys v)) : Runs (KKept h0 Wp) h (hRelinVT C sk u v h) (fun g => g) :=
  Runs.bind (qpOpT_runs K t) fun _ _ r => qpOpT_runs r.ok (t.keep r)

theorem hGenSkT_runs {x : Nega N ℤ} {id : String} (K : Ok h0 Wp ∅ h) : Runs (KKept h0 Wp) h (hGenSkT C x id h) (·.2) := by
  refine Runs.bind (newQPT_runs K) fun w e r => ?_
  have t := newQP_tgt K e
  exact Runs.bind (hSampleT_runs r.ok t) fun _ _ r1 => Runs.bind (qpOpT_runs r1.ok (t.keep r1)) fun _ _ r2 =>
    Runs.bind (qpOpT_runs r2.ok ((t.keep r1).keep r2)) fun _ _ r3 => Runs.ok (KKept.refl r3.ok) rfl

theorem hGenPkT_runs {crs : GoMap ℤ SwkObj} {gs : ℕ → Nega N ℤ} {pos : ℕ} {sk : SkObj} (K : Ok h0 Wp ∅ h) :
    Runs (KKept h0 Wp) h (hGenPkT C crs gs pos sk h) (·.2.2) := by
  refine Runs.bind (newPublicKeyT_runs K) fun w e r => ?_
  have t : Tgt h0 Wp w.2 (C70.PkObj.polys w.1) := by
    cases e
    exact Tgt.fresh K (C70.newPublicKey_fresh K.wf sk.id).2.1
  have t0 : Tgt h0 Wp w.2 (C70.QP.polys w.1.v0) := t.sub fun _ hp => List.mem_append_left _ hp
  have t1 : Tgt h0 Wp w.2 (C70.QP.polys w.1.v1) := t.sub fun _ hp => List.mem_append_right _ hp
  refine Runs.bind (hSampleT_runs r.ok t0) fun _ _ r1 => Runs.bind (qpOpT_runs r1.ok (t0.keep r1)) fun _ _ r2 => ?_
  refine Runs.lift (KKept.refl r2.ok) fun _ _ => Runs.lift (KKept.refl r2.ok) fun _ _ => ?_
  have u1 := (t1.keep r1).keep r2
  refine Runs.bind (polyCopyT_kkept r2.ok (u1 w.1.v1.q (by simp [C70.QP.polys]))) fun _ _ r3 => ?_
  refine Runs.bind (polyCopyT_kkept r3.ok (u1.keep r3 w.1.v1.p (by simp [C70.QP.polys]))) fun _ _ r4 => ?_
  exact Runs.bind (qpOpT_runs r4.ok ((((t0.keep r1).keep r2).keep r3).keep r4)) fun _ _ r5 => Runs.ok (KKept.refl r5.ok) rfl

/-- the memory of the key generator may be written -/
theorem kg_tgt {G : HKG} (hW : G.mem ⊆ Wp) (lt : ∀ p ∈ G.mem, p < h.npoly) :
    ((G.poolQ ∈ Wp ∨ h0.npoly ≤ G.poolQ) ∧ G.poolQ < h.npoly) ∧ Tgt h0 Wp h (C70.QP.polys G.poolQP) := by
  have m1 : G.poolQ ∈ G.mem := by simp [HKG.mem]
  have m2 : G.poolQP.q ∈ G.mem := by simp [HKG.mem]
  have m3 : G.poolQP.p ∈ G.mem := by simp [HKG.mem]
  refine ⟨⟨Or.inl (hW m1), lt _ m1⟩, fun p hp => ?_⟩
  simp only [C70.QP.polys, List.mem_cons, List.not_mem_nil, or_false] at hp
  rcases hp with rfl | rfl
  · exact ⟨Or.inl (hW m2), lt _ m2⟩
  · exact ⟨Or.inl (hW m3), lt _ m3⟩

theorem kg_lt {G : HKG} {g : Heap N} (lt : ∀ p ∈ G.mem, p < h.npoly) (k : KKept h0 Wp h g) : ∀ p ∈ G.mem, p < g.npoly := fun p hp => (lt p hp).trans_le k.npoly

theorem hGenRlkT_runs {crs : GoMap ℤ SwkObj} {gs : ℕ → Nega N ℤ} {G : HKG} {pos : ℕ} {sk r : SkObj} (K : Ok h0 Wp ∅ h) (hW : G.mem ⊆ Wp) (lt : ∀ p ∈ G.mem, p < h.npoly) :
    Runs (KKept h0 Wp) h (hGenRlkT C crs gs G pos sk r h) (·.2.2) := by
  unfold hGenRlkT
  split
  · exact Runs.error (KKept.refl K)
  refine Runs.bind (newRelinearizationKeyT_runs K) fun w e k0 => ?_
  have t : Tgt h0 Wp w.2 (C70.RlkObj.polys w.1) := by
    rw [newRelinearizationKeyT_res] at e
    cases e
    exact Tgt.fresh K (C70.newRelinearizationKey_fresh K.wf sk.id).2.1
  have tb : Tgt h0 Wp w.2 (C70.SwkObj.polys w.1.b) := t.sub fun _ hp => List.mem_append_left _ (List.mem_append_left _ hp)
  have td : Tgt h0 Wp w.2 (C70.SwkObj.polys w.1.d) := t.sub fun _ hp => List.mem_append_left _ (List.mem_append_right _ hp)
  have tv : Tgt h0 Wp w.2 (C70.SwkObj.polys w.1.v) := t.sub fun _ hp => List.mem_append_right _ hp
  have l0 := kg_lt lt k0
  refine Runs.lift (KKept.refl k0.ok) fun a _ => ?_
  refine Runs.bind (π := (·.2)) (Runs.loop rfl (KKept.refl k0.ok) fun s i k => ?_) fun b _ k1 => ?_
  · exact Runs.lift (KKept.refl k.ok) fun _ _ => Runs.lift (KKept.refl k.ok) fun _ e =>
      Runs.bind (hRelinBT_runs k.ok ((tb.keep k).blk e) (kg_tgt hW (kg_lt l0 k)).2) fun _ _ k' => Runs.ok (KKept.refl k'.ok) rfl
  have l1 := kg_lt l0 k1
  refine Runs.bind (hGenSwkT_runs k1.ok (kg_tgt hW l1).1 (td.keep k1)) fun d _ k2 => ?_
  refine Runs.bind (hBlocksT_runs k2.ok ((td.keep k1).keep k2) fun x v g o u => qpOpT_runs o u) fun g _ k3 => ?_
  have l3 := kg_lt (kg_lt l1 k2) k3
  refine Runs.bind (hGenSwkT_runs k3.ok (kg_tgt hW l3).1 (((tv.keep k1).keep k2).keep k3)) fun v _ k4 => ?_
  refine Runs.lift (KKept.refl k4.ok) fun u _ => ?_
  exact Runs.bind (hBlocksT_runs k4.ok ((((tv.keep k1).keep k2).keep k3).keep k4) fun x v g o u => hRelinVT_runs o u) fun g _ k5 =>
    Runs.ok (KKept.refl k5.ok) rfl

theorem hGenRotT_runs {crs : GoMap ℤ SwkObj} {gs : ℕ → Nega N ℤ} {G : HKG} {pos : ℕ} {r : ℤ} {sk : SkObj} (K : Ok h0 Wp ∅ h) (hW : G.mem ⊆ Wp)
    (lt : ∀ p ∈ G.mem, p < h.npoly) : Runs (KKept h0 Wp) h (hGenRotT C crs gs G pos r sk h) (·.2.2) := by
  refine Runs.bind (newSecretKeyT_runs K) fun w e k0 => ?_
  have t : Tgt h0 Wp w.2 (C70.QP.polys w.1.value) := by
    cases e
    exact Tgt.fresh K (C70.newSecretKey_fresh K.wf sk.id).2.1
  split
  · exact Runs.error (KKept.refl k0.ok)
  refine Runs.bind (qpOpT_runs k0.ok t) fun g _ k1 => ?_
  refine Runs.bind (newRotationKeyT_runs k1.ok) fun w' e' k2 => ?_
  have ts : Tgt h0 Wp w'.2 (C70.SwkObj.polys w'.1.value) := by
    rw [newRotationKeyT_res] at e'
    cases e'
    exact Tgt.fresh k1.ok (C70.newRotationKey_fresh k1.ok.wf _ sk.id).2.1
  have l2 := kg_lt (kg_lt (kg_lt lt k0) k1) k2
  refine Runs.bind (hGenSwkT_runs k2.ok (kg_tgt hW l2).1 ts) fun v _ k3 => ?_
  refine Runs.lift (KKept.refl k3.ok) fun a _ => ?_
  exact Runs.bind (hBlocksT_runs k3.ok (ts.keep k3) fun x v g o u => qpOpT_runs o u) fun g _ k4 => Runs.ok (KKept.refl k4.ok) rfl

theorem hGenConjT_runs {crs : GoMap ℤ SwkObj} {gs : ℕ → Nega N ℤ} {G : HKG} {pos : ℕ} {sk : SkObj} (K : Ok h0 Wp ∅ h) (hW : G.mem ⊆ Wp)
    (lt : ∀ p ∈ G.mem, p < h.npoly) : Runs (KKept h0 Wp) h (hGenConjT C crs gs G pos sk h) (·.2.2) := by
  refine Runs.bind (newSecretKeyT_runs K) fun w e k0 => ?_
  have t : Tgt h0 Wp w.2 (C70.QP.polys w.1.value) := by
    cases e
    exact Tgt.fresh K (C70.newSecretKey_fresh K.wf sk.id).2.1
  refine Runs.bind (qpOpT_runs k0.ok t) fun g _ k1 => ?_
  refine Runs.bind (newConjugationKeyT_runs k1.ok) fun w' e' k2 => ?_
  have ts : Tgt h0 Wp w'.2 (C70.SwkObj.polys w'.1.value) := by
    rw [newConjugationKeyT_res] at e'
    cases e'
    exact Tgt.fresh k1.ok (C70.newConjugationKey_fresh k1.ok.wf sk.id).2.1
  have l2 := kg_lt (kg_lt (kg_lt lt k0) k1) k2
  refine Runs.bind (hGenSwkT_runs k2.ok (kg_tgt hW l2).1 ts) fun v _ k3 => ?_
  refine Runs.lift (KKept.refl k3.ok) fun a _ => ?_
  exact Runs.bind (hBlocksT_runs k3.ok (ts.keep k3) fun x v g o u => qpOpT_runs o u) fun g _ k4 => Runs.ok (KKept.refl k4.ok) rfl

theorem hBfvBlockT_runs {x : Nega N ℤ} {sk : SkObj} {G : ℕ} {v : QP} (K : Ok h0 Wp ∅ h) (t : Tgt h0 Wp h (C70.QP.polys v)) :
    Runs (KKept h0 Wp) h (hBfvBlockT C x sk G v h) (fun g => g) := by
  refine Runs.bind (qpOpT_runs K t) fun _ _ r1 => Runs.bind (qpOpT_runs r1.ok (t.keep r1)) fun _ _ r2 => Runs.bind (newQPT_runs r2.ok) fun e he r3 => ?_
  have te := newQP_tgt r2.ok he
  have t3 := ((t.keep r1).keep r2).keep r3
  exact Runs.bind (hGenErrT_runs r3.ok te) fun _ _ r4 => Runs.bind (qpOpT_runs r4.ok (t3.keep r4)) fun _ _ r5 => qpOpT_runs r5.ok ((t3.keep r4).keep r5)

theorem hBfvHalfT_runs {B : BCtx N} {mods : ℕ → ℕ} {gs : ℕ → Nega N ℤ} {pos : ℕ} {sk : SkObj} {s : SwkObj} (K : Ok h0 Wp ∅ h) (t : Tgt h0 Wp h (C70.SwkObj.polys s)) :
    Runs (KKept h0 Wp) h (hBfvHalfT B mods gs sk s pos h) (·.2) :=
  Runs.loop rfl (KKept.refl K) fun _ _ r => Runs.lift (KKept.refl r.ok) fun _ _ => Runs.lift (KKept.refl r.ok) fun _ e =>
    Runs.bind (hBfvBlockT_runs r.ok ((t.keep r).blk e)) fun _ _ r2 => Runs.ok (KKept.refl r2.ok) rfl

theorem hGenBfvRlkT_runs {B : BCtx N} {crs : GoMap ℤ SwkObj} {gs : ℕ → Nega N ℤ} {G : HKG} {pos : ℕ} {sk r : SkObj} (K : Ok h0 Wp ∅ h) (hW : G.mem ⊆ Wp)
    (lt : ∀ p ∈ G.mem, p < h.npoly) : Runs (KKept h0 Wp) h (hGenBfvRlkT B crs gs G pos sk r h) (·.2.2) := by
  refine Runs.bind (newBfvRelinearizationKeyT_runs K) fun w e k0 => ?_
  have t : Tgt h0 Wp w.2 (C70.BRlkObj.polys w.1) := by
    rw [newBfvRelinearizationKeyT_res] at e
    cases e
    exact Tgt.fresh K (C70.newBfvRelinearizationKey_fresh K.wf sk.id).2.1
  have s0 : Tgt h0 Wp w.2 (C70.RlkObj.polys w.1.v0) := t.sub fun _ hp => List.mem_append_left _ hp
  have s1 : Tgt h0 Wp w.2 (C70.RlkObj.polys w.1.v1) := t.sub fun _ hp => List.mem_append_right _ hp
  have tb0 : Tgt h0 Wp w.2 (C70.SwkObj.polys w.1.v0.b) := s0.sub fun _ hp => List.mem_append_left _ (List.mem_append_left _ hp)
  have td0 : Tgt h0 Wp w.2 (C70.SwkObj.polys w.1.v0.d) := s0.sub fun _ hp => List.mem_append_left _ (List.mem_append_right _ hp)
  have tv0 : Tgt h0 Wp w.2 (C70.SwkObj.polys w.1.v0.v) := s0.sub fun _ hp => List.mem_append_right _ hp
  have tb1 : Tgt h0 Wp w.2 (C70.SwkObj.polys w.1.v1.b) := s1.sub fun _ hp => List.mem_append_left _ (List.mem_append_left _ hp)
  have td1 : Tgt h0 Wp w.2 (C70.SwkObj.polys w.1.v1.d) := s1.sub fun _ hp => List.mem_append_left _ (List.mem_append_right _ hp)
  refine Runs.lift (KKept.refl k0.ok) fun a1 _ => Runs.lift (KKept.refl k0.ok) fun a2 _ => ?_
  refine Runs.bind (newQPT_runs k0.ok) fun e1 he1 k1 => Runs.bind (newQPT_runs k1.ok) fun e2 he2 k2 => ?_
  have te1 := (newQP_tgt k0.ok he1).keep k2
  have te2 := newQP_tgt k1.ok he2
  refine Runs.bind (π := (·.2)) (Runs.loop rfl (KKept.refl k2.ok) fun s i k => ?_) fun b _ k3 => ?_
  · refine Runs.lift (KKept.refl k.ok) fun _ _ => Runs.lift (KKept.refl k.ok) fun _ e => Runs.lift (KKept.refl k.ok) fun _ _ => Runs.lift (KKept.refl k.ok) fun _ e' => ?_
    refine Runs.bind (hRelinBT_runs k.ok ((((tb0.keep k1).keep k2).keep k).blk e) (te1.keep k)) fun _ _ k' => ?_
    exact Runs.bind (hRelinBT_runs k'.ok (((((tb1.keep k1).keep k2).keep k).keep k').blk e') ((te2.keep k).keep k')) fun _ _ k'' => Runs.ok (KKept.refl k''.ok) rfl
  have ud0 := ((td0.keep k1).keep k2).keep k3
  have ud1 := ((td1.keep k1).keep k2).keep k3
  have uv0 := ((tv0.keep k1).keep k2).keep k3
  refine Runs.bind (π := (·.2)) (Runs.bind (hBfvHalfT_runs k3.ok ud0) fun x _ kx => hBfvHalfT_runs kx.ok (ud1.keep kx)) fun d _ k4 => ?_
  refine Runs.bind (hBlocks2T_runs k4.ok (ud0.keep k4) (ud1.keep k4) fun x v g o u => qpOpT_runs o u) fun g _ k5 => ?_
  have l5 := kg_lt (kg_lt (kg_lt (kg_lt (kg_lt (kg_lt lt k0) k1) k2) k3) k4) k5
  refine Runs.bind (hGenSwkT_runs k5.ok (kg_tgt hW l5).1 ((uv0.keep k4).keep k5)) fun v _ k6 => ?_
  refine Runs.lift (KKept.refl k6.ok) fun u _ => ?_
  exact Runs.bind (hBlocksT_runs k6.ok (((uv0.keep k4).keep k5).keep k6) fun x v g o u => hRelinVT_runs o u) fun g _ k7 => Runs.ok (KKept.refl k7.ok) rfl

/-- **every call**: until it returns or panics, it has written only the memory of the key generator and new memory -/
theorem heapStepT_runs {B : BCtx N} {gs : ℕ → Nega N ℤ} {G : HKG} {s : HState N} (c : Cmd N) (W : WF s.heap) (lt : ∀ p ∈ G.mem, p < s.heap.npoly) :
    Runs (KKept s.heap G.mem) s.heap (heapStepT B gs G s c) (·.heap) := by
  have K : Ok s.heap G.mem ∅ s.heap := Ok.start W
  have r0 := KKept.refl K
  cases c with
  | addCRS i => exact Runs.error r0
  | genSk x id => exact Runs.bind (hGenSkT_runs K) fun _ _ r => Runs.ok (KKept.refl r.ok) rfl
  | genSkGaussian id => exact Runs.bind (hGenSkT_runs K) fun _ _ r => Runs.ok (KKept.refl r.ok) rfl
  | genPk i => exact Runs.lift r0 fun _ _ => Runs.bind (hGenPkT_runs K) fun _ _ r => Runs.ok (KKept.refl r.ok) rfl
  | genRlk i j => exact Runs.lift r0 fun _ _ => Runs.lift r0 fun _ _ => Runs.bind (hGenRlkT_runs K subset_rfl lt) fun _ _ r => Runs.ok (KKept.refl r.ok) rfl
  | genBfvRlk i j => exact Runs.lift r0 fun _ _ => Runs.lift r0 fun _ _ => Runs.bind (hGenBfvRlkT_runs K subset_rfl lt) fun _ _ r => Runs.ok (KKept.refl r.ok) rfl
  | genRot r i => exact Runs.lift r0 fun _ _ => Runs.bind (hGenRotT_runs K subset_rfl lt) fun _ _ r => Runs.ok (KKept.refl r.ok) rfl
  | genConj i => exact Runs.lift r0 fun _ _ => Runs.bind (hGenConjT_runs K subset_rfl lt) fun _ _ r => Runs.ok (KKept.refl r.ok) rfl
  | copy i =>
    dsimp only [heapStepT]
    generalize s.keys[i]? = o
    rcases o with _ | _ | _ | _ | _ | _
    · exact Runs.error r0
    · exact Runs.bind (skCopyNewT_runs K) fun _ _ r => Runs.ok (KKept.refl r.ok) rfl
    · exact Runs.bind (pkCopyNewT_runs K) fun _ _ r => Runs.ok (KKept.refl r.ok) rfl
    all_goals exact Runs.error r0

end
end Heap
end MKHE
