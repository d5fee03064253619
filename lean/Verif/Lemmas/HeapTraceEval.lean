import Verif.Lemmas.HeapTraceOk

set_option autoImplicit false
set_option linter.unusedSectionVars false

/-!
# What the evaluator, the encryptor and the decryptor have written at every point of a call

For any heap, any operands, keys, pools and orders, whether the call returns or panics.
-/

namespace MKHE
namespace Heap
open TG
variable {N : ℕ} [NeZero N] {C : Ctx N}

section
variable {h0 h : Heap N} {Wp Wc : Set ℕ}

/-- pass all statements that do not write -/
macro "reads" : tactic => `(tactic| repeat refine Runs.lift (Grew.refl (by assumption)) fun _ _ => ?_)

theorem copyT_runs {o : Order String} {dst src : ℕ} (K : Ok h0 Wp Wc h) (hI : Into h0 Wp h dst) :
    Runs (Grew h0 Wp Wc) h (copyT o h dst src) (fun g => g) := by
  refine Runs.loop rfl (Grew.refl K) fun s a r => ?_
  refine Runs.lift (Grew.refl r.ok) fun p ep => Runs.lift (Grew.refl r.ok) fun q _ => ?_
  have i := r.into _ hI
  exact polyCopyT_runs r.ok (Into.lt r.ok i ep) (i.2 _ p (get_some ep))

theorem unlessNTTT_runs {p level : ℕ} {f : ∀ i, Limb N (C.q i) → Limb N (C.q i)} (K : Ok h0 Wp Wc h) (hp : p < h.npoly)
    (hw : p ∈ Wp ∨ h0.npoly ≤ p) : Runs (Grew h0 Wp Wc) h (h.unlessNTTT p level f) (fun g => g) := by
  unfold unlessNTTT
  split
  · exact Runs.ok (Grew.refl K) rfl
  · exact polyOpT_runs K hp hw

theorem partialDecryptT_runs {sk : SKey C} {c : ℕ} (K : Ok h0 Wp Wc h) (hI : Into h0 Wp h c) (hc : c ∈ Wc ∨ h0.nct ≤ c) :
    Runs (Grew h0 Wp Wc) h (partialDecryptT sk h c) (fun g => g) := by
  refine Runs.lift (Grew.refl K) fun level _ => Runs.lift (Grew.refl K) fun p ep => ?_
  have hw := hI.2 _ p (get_some ep)
  have hp := Into.lt K hI ep
  refine Runs.bind (unlessNTTT_runs K hp hw) fun h1 _ r1 => ?_
  refine Runs.bind (polyOpT_runs r1.ok (by have := r1.npoly; omega) hw) fun h2 _ r2 => ?_
  refine Runs.bind (unlessNTTT_runs r2.ok (by have := r1.npoly; have := r2.npoly; omega) hw) fun h3 _ r3 => ?_
  refine Runs.lift (Grew.refl r3.ok) fun p0 e0 => ?_
  have i3 := r3.into _ (r2.into _ (r1.into _ hI))
  refine Runs.bind (polyOpT_runs r3.ok (Into.lt r3.ok i3 e0) (i3.2 _ p0 (get_some e0))) fun h4 _ r4 => ?_
  have i4 := r4.into _ i3
  have hm : ∀ x q, ((h4.ct c).erase sk.id).lookup x = some q → (h4.ct c).lookup x = some q := by
    intro x q hq
    rw [GoMap.lookup_erase'] at hq
    split at hq
    · cases hq
    · exact hq
  exact setCtT_runs r4.ok hc (fun x q hq => r4.ok.wf.ctB c i4.1 x q (hm x q hq)) fun i x q hq => i.2 x q (hm x q hq)

theorem decryptLoopT_runs {ids : IDSet} {sks : KeySet (SKey C)} {tmp : ℕ} {l : List String} (K : Ok h0 Wp Wc h) (hI : Into h0 Wp h tmp)
    (hc : tmp ∈ Wc ∨ h0.nct ≤ tmp) : Runs (Grew h0 Wp Wc) h (decryptLoopT ids sks h tmp l) (fun g => g) := by
  refine Runs.loop rfl (Grew.refl K) fun s a r => ?_
  refine Runs.lift (Grew.refl r.ok) fun sk _ => ?_
  split
  · exact partialDecryptT_runs r.ok (r.into _ hI) hc
  · exact Runs.ok (Grew.refl r.ok) rfl

theorem decryptT_runs {o : Sched String} {c : ℕ} {sks : KeySet (SKey C)} {pt : ℕ} (K : Ok h0 Wp Wc h) (hc : c < h.nct) (hpt : pt < h.npoly)
    (hw : pt ∈ Wp ∨ h0.npoly ≤ pt) : Runs (Grew h0 Wp Wc) h (decryptT o h c sks pt) (fun g => g) := by
  refine Runs.lift (Grew.refl K) fun l _ => ?_
  refine Runs.bind (truncateT_runs K hw) fun h1 _ r1 => ?_
  refine Runs.bind (copyNewT_runs r1.ok) fun w e r2 => ?_
  obtain ⟨i2, n2⟩ := copyNewT_into C r1.ok (lt_of_lt_of_le hc r1.nct) e
  refine Runs.lift (Grew.refl r2.ok) fun ids _ => ?_
  refine Runs.bind (decryptLoopT_runs r2.ok i2 (Or.inr n2)) fun h3 _ r3 => ?_
  split
  · exact Runs.error (Grew.refl r3.ok)
  · refine Runs.lift (Grew.refl r3.ok) fun p0 _ => ?_
    exact polyOpT_runs r3.ok (by have := r1.npoly; have := r2.npoly; have := r3.npoly; omega) hw

theorem ckksDecryptT_runs {o : Sched String} {c : ℕ} {sks : KeySet (SKey C)} {pool : ℕ} (K : Ok h0 Wp Wc h) (hc : c < h.nct) (hpt : pool < h.npoly)
    (hw : pool ∈ Wp ∨ h0.npoly ≤ pool) : Runs (Grew h0 Wp Wc) h (ckksDecryptT o h c sks pool) (fun g => g) := by
  refine Runs.bind (copyNewT_runs K) fun w e r => ?_
  exact decryptT_runs r.ok (copyNewT_into (Wp := Wp) C K hc e).1.1 (lt_of_lt_of_le hpt r.npoly) hw

theorem bfvDecryptT_runs {o : Sched String} {c : ℕ} {sks : KeySet (SKey C)} (K : Ok h0 Wp Wc h) (hc : c < h.nct) :
    Runs (Grew h0 Wp Wc) h (bfvDecryptT o h c sks) (·.2) := by
  refine Runs.bind (copyNewT_runs K) fun w e r => ?_
  obtain ⟨i2, n2⟩ := copyNewT_into C K hc e
  refine Runs.lift (Grew.refl r.ok) fun ids _ => ?_
  refine Runs.bind (decryptLoopT_runs r.ok i2 (Or.inr n2)) fun h3 _ r3 => ?_
  exact Runs.lift (Grew.refl r3.ok) fun p0 _ => Runs.ok (Grew.refl r3.ok) rfl

theorem dropLevelT_runs {o : Order String} {c levels : ℕ} (K : Ok h0 Wp Wc h) (hI : Into h0 Wp h c) :
    Runs (Grew h0 Wp Wc) h (dropLevelT o h c levels) (fun g => g) := by
  refine Runs.lift (Grew.refl K) fun p0 _ => ?_
  split
  · exact Runs.error (Grew.refl K)
  · refine Runs.loop rfl (Grew.refl K) fun s a r => ?_
    exact Runs.lift (Grew.refl r.ok) fun p ep => truncateT_runs r.ok ((r.into _ hI).2 _ p (get_some ep))

theorem dropLevelNewT_runs (C : Ctx N) {o o' : Order String} {c : HCt} {levels : ℕ} (K : Ok h0 Wp Wc h) (hc : c.ct < h.nct) :
    Runs (Grew h0 Wp Wc) h (dropLevelNewT o o' h c levels) (·.2) := by
  refine Runs.bind (copyNewT_runs K) fun w e r => ?_
  exact Runs.bind (dropLevelT_runs r.ok (copyNewT_into C K hc e).1) fun g _ r => Runs.ok (Grew.refl r.ok) rfl

theorem multByConstT_runs {mredPsi : ℕ → ℕ → ℕ} {o : Order String} {c : HCt} {k : Const} {out : ℕ} (K : Ok h0 Wp Wc h) (hI : Into h0 Wp h out) :
    Runs (Grew h0 Wp Wc) h (multByConstT C mredPsi o h c k out) (·.2) := by
  unfold multByConstT
  split
  · exact Runs.error (Grew.refl K)
  · reads
    refine Runs.bind (π := fun g => g) (Runs.loop rfl (Grew.refl K) fun s a r => ?_) fun g _ r => Runs.ok (Grew.refl r.ok) rfl
    refine Runs.lift (Grew.refl r.ok) fun p _ => Runs.lift (Grew.refl r.ok) fun q eq => ?_
    have i := r.into _ hI
    exact polyOpT_runs r.ok (Into.lt r.ok i eq) (i.2 _ q (get_some eq))

theorem evalCoreT_runs {f : ℕ → RowBuf N → RowBuf N → RowBuf N} {level : ℕ} {cp : Heap N → ℕ → ℕ → TG N (Heap N)} {o1 o2 : Order String}
    {t0 t1 out : ℕ} {ids0 ids1 : IDSet} (K : Ok h0 Wp Wc h) (hI : Into h0 Wp h out)
    (hcp : ∀ (h1 : Heap N) p q, Ok h0 Wp Wc h1 → p < h1.npoly → (p ∈ Wp ∨ h0.npoly ≤ p) → Runs (Grew h0 Wp Wc) h1 (cp h1 p q) (fun g => g)) :
    Runs (Grew h0 Wp Wc) h (evalCoreT f level cp o1 o2 h t0 t1 ids0 ids1 out) (fun g => g) := by
  refine Runs.lift (Grew.refl K) fun a _ => Runs.lift (Grew.refl K) fun b _ => Runs.lift (Grew.refl K) fun p ep => ?_
  refine Runs.bind (polyOpT_runs K (Into.lt K hI ep) (hI.2 _ p (get_some ep))) fun h1 _ r1 => ?_
  refine Runs.lift (Grew.refl r1.ok) fun ids _ => Runs.loop rfl (Grew.refl r1.ok) fun s id r => ?_
  have i := r.into _ (r1.into _ hI)
  have k := r.ok
  unfold evalStepT
  split
  · refine Runs.lift (Grew.refl k) fun a _ => Runs.lift (Grew.refl k) fun p ep => ?_
    exact hcp _ _ _ k (Into.lt k i ep) (i.2 _ p (get_some ep))
  · split
    · refine Runs.lift (Grew.refl k) fun a _ => Runs.lift (Grew.refl k) fun p ep => ?_
      exact hcp _ _ _ k (Into.lt k i ep) (i.2 _ p (get_some ep))
    · refine Runs.lift (Grew.refl k) fun a _ => Runs.lift (Grew.refl k) fun b _ => Runs.lift (Grew.refl k) fun p ep => ?_
      exact polyOpT_runs k (Into.lt k i ep) (i.2 _ p (get_some ep))

theorem alignScalesT_runs {mredPsi : ℕ → ℕ → ℕ} {o : Order String} {c0 c1 : HCt} {pool : ℕ} (K : Ok h0 Wp Wc h) (hI : Into h0 Wp h pool) :
    Runs (Grew h0 Wp Wc) h (alignScalesT C mredPsi o h c0 c1 pool) (·.2) := by
  unfold alignScalesT
  split
  · exact Runs.bind (multByConstT_runs K hI) fun w _ r => Runs.ok (Grew.refl r.ok) rfl
  · split
    · exact Runs.bind (multByConstT_runs K hI) fun w _ r => Runs.ok (Grew.refl r.ok) rfl
    · exact Runs.ok (Grew.refl K) rfl

theorem dropToT_runs {o : Order String} {out lo level m : ℕ} (K : Ok h0 Wp Wc h) (hI : Into h0 Wp h out) :
    Runs (Grew h0 Wp Wc) h (dropToT o h out lo level m) (fun g => g) := by
  unfold dropToT
  split
  · exact dropLevelT_runs K hI
  · exact Runs.ok (Grew.refl K) rfl

theorem padT_runs {o1 o2 : Order String} {c : ℕ} {ids : IDSet} (K : Ok h0 Wp Wc h) (hI : Into h0 Wp h c) (hc : c ∈ Wc ∨ h0.nct ≤ c) :
    Runs (Grew h0 Wp Wc) h (padT o1 o2 h c ids) (fun g => g) := by
  reads
  refine Runs.loop rfl (Grew.refl K) fun s id r => ?_
  unfold padStepT
  split
  · exact Runs.ok (Grew.refl r.ok) rfl
  · refine Runs.bind (allocPolyT_runs r.ok) fun w e r1 => ?_
    obtain ⟨e1, e2, e3⟩ := allocPolyT_res e
    have hf : h0.npoly ≤ w.1 := by have := r.ok.only.npoly; omega
    have i := r.into _ hI
    refine Runs.bind (setCtT_runs r1.ok hc (fun x p hp => ?_) fun i x p hp => ?_) fun g _ r2 => setNTTT_runs r2.ok (Or.inr hf)
    · rw [GoMap.lookup_insert'] at hp
      split at hp
      · cases hp; omega
      · rw [e3] at hp
        have := r.ok.wf.ctB c i.1 x p hp
        omega
    · rw [GoMap.lookup_insert'] at hp
      split at hp
      · cases hp; exact Or.inr hf
      · exact i.2 x p hp

theorem ckksEvaluateInPlaceT_runs {f : ℕ → RowBuf N → RowBuf N → RowBuf N} {mredPsi : ℕ → ℕ → ℕ} {o : Sched String} {pool : ℕ} {c0 c1 : HCt} {out : ℕ}
    (K : Ok h0 Wp Wc h) (hI : Into h0 Wp h out) (hP : Into h0 Wp h pool) (hc : pool ∈ Wc ∨ h0.nct ≤ pool) :
    Runs (Grew h0 Wp Wc) h (ckksEvaluateInPlaceT C f mredPsi o h pool c0 c1 out) (fun g => g) := by
  reads
  refine Runs.bind (padT_runs K hP hc) fun h1 _ r1 => ?_
  refine Runs.lift (Grew.refl r1.ok) fun l0 _ => Runs.lift (Grew.refl r1.ok) fun l1 _ => Runs.lift (Grew.refl r1.ok) fun lo _ => ?_
  refine Runs.bind (dropToT_runs r1.ok (r1.into _ hI)) fun h2 _ r2 => ?_
  refine Runs.bind (alignScalesT_runs r2.ok (r2.into _ (r1.into _ hP))) fun w _ r3 => ?_
  exact evalCoreT_runs r3.ok (r3.into _ (r2.into _ (r1.into _ hI))) fun h1 p q k hp hw => polyOpT_runs k hp hw

theorem newCiphertextBinaryT_runs {o : Sched String} {op0 op1 : HCt} (K : Ok h0 Wp Wc h) :
    Runs (Grew h0 Wp Wc) h (newCiphertextBinaryT o h op0 op1) (·.2) := by
  reads
  exact Runs.bind (newCtT_runs K) fun w _ r => Runs.ok (Grew.refl r.ok) rfl

theorem newCiphertextBinaryT_into (C : Ctx N) {o : Sched String} {op0 op1 : HCt} {w : HCt × Heap N} (K : Ok h0 Wp Wc h)
    (e : (newCiphertextBinaryT o h op0 op1).res = .ok w) : Into h0 Wp w.2 w.1.ct := by
  obtain ⟨_, -, e⟩ := Go.bind_ok e
  obtain ⟨_, -, e⟩ := Go.bind_ok e
  obtain ⟨_, -, e⟩ := Go.bind_ok e
  obtain ⟨_, -, e⟩ := Go.bind_ok e
  obtain ⟨_, -, e⟩ := Go.bind_ok e
  obtain ⟨v, e1, e⟩ := Go.bind_ok e
  cases e
  exact (newCtT_into C K e1).1

theorem ckksAddNewT_runs {mredPsi : ℕ → ℕ → ℕ} {o : Sched String} {pool : ℕ} {c0 c1 : HCt} (K : Ok h0 Wp Wc h) (hP : Into h0 Wp h pool)
    (hc : pool ∈ Wc ∨ h0.nct ≤ pool) : Runs (Grew h0 Wp Wc) h (ckksAddNewT C mredPsi o h pool c0 c1) (·.2) := by
  refine Runs.bind (newCiphertextBinaryT_runs K) fun w e r => ?_
  exact Runs.bind (ckksEvaluateInPlaceT_runs r.ok (newCiphertextBinaryT_into C K e) (r.into _ hP) hc) fun g _ r => Runs.ok (Grew.refl r.ok) rfl

theorem negNewT_runs {level : ℕ} {o1 o2 o3 : Order String} {op0 out : ℕ} (K : Ok h0 Wp Wc h) (hI : Into h0 Wp h out) :
    Runs (Grew h0 Wp Wc) h (negNewT C level o1 o2 o3 h op0 out) (fun g => g) := by
  reads
  refine Runs.loop rfl (Grew.refl K) fun s id r => ?_
  have i := r.into _ hI
  unfold negStepT
  split
  · exact Runs.lift (Grew.refl r.ok) fun p ep => polyOpT_runs r.ok (Into.lt r.ok i ep) (i.2 _ p (get_some ep))
  · exact Runs.ok (Grew.refl r.ok) rfl

theorem ckksSubNewT_runs {mredPsi : ℕ → ℕ → ℕ} {o : Sched String} {pool : ℕ} {c0 c1 : HCt} (K : Ok h0 Wp Wc h) (hP : Into h0 Wp h pool)
    (hc : pool ∈ Wc ∨ h0.nct ≤ pool) : Runs (Grew h0 Wp Wc) h (ckksSubNewT C mredPsi o h pool c0 c1) (·.2) := by
  refine Runs.bind (newCiphertextBinaryT_runs K) fun w e r => ?_
  have i := newCiphertextBinaryT_into C K e
  refine Runs.bind (ckksEvaluateInPlaceT_runs r.ok i (r.into _ hP) hc) fun g _ r => ?_
  have k := r.ok
  reads
  exact Runs.bind (negNewT_runs k (r.into _ i)) fun g _ r => Runs.ok (Grew.refl r.ok) rfl

theorem rescaleStepT_runs {level nb cin out : ℕ} {id : String} (K : Ok h0 Wp Wc h) (hI : Into h0 Wp h out) :
    Runs (Grew h0 Wp Wc) h (rescaleStepT C level nb cin out h id) (fun g => g) := by
  refine Runs.lift (Grew.refl K) fun a _ => Runs.lift (Grew.refl K) fun b eb => Runs.lift (Grew.refl K) fun _ _ => ?_
  have hw := hI.2 id b (get_some eb)
  split
  · exact Runs.error (Grew.refl K)
  · exact Runs.bind (rowsOpT_runs K (Into.lt K hI eb) hw (by omega)) fun g _ r => truncateT_runs r.ok hw

theorem rescaleT_runs {o : Order String} {cin : HCt} {ms : ℚ} {out : HCt} {same : Bool} (K : Ok h0 Wp Wc h) (hI : Into h0 Wp h out.ct) :
    Runs (Grew h0 Wp Wc) h (rescaleT C o h cin ms out same) (·.2) := by
  unfold rescaleT
  split
  · exact Runs.ok (Grew.refl K) rfl
  · split
    · exact Runs.ok (Grew.refl K) rfl
    · refine Runs.lift (Grew.refl K) fun level _ => ?_
      split
      · exact Runs.ok (Grew.refl K) rfl
      · refine Runs.lift (Grew.refl K) fun w _ => ?_
        split
        · refine Runs.bind (π := fun g => g) (Runs.loop rfl (Grew.refl K) fun s a r => ?_) fun g _ r => Runs.ok (Grew.refl r.ok) rfl
          exact rescaleStepT_runs r.ok (r.into _ hI)
        · split
          · exact Runs.ok (Grew.refl K) rfl
          · exact Runs.bind (copyNewT_runs K) fun w _ r => Runs.ok (Grew.refl r.ok) rfl

theorem rescaleNewT_runs {o : Sched String} {c : HCt} {thr : ℚ} (K : Ok h0 Wp Wc h) : Runs (Grew h0 Wp Wc) h (rescaleNewT C o h c thr) (·.2) := by
  refine Runs.lift (Grew.refl K) fun ids _ => Runs.lift (Grew.refl K) fun l _ => Runs.bind (newCtT_runs K) fun w e r => ?_
  exact rescaleT_runs r.ok (newCtT_into C K e).1

/-! ## BFV addition and subtraction -/

theorem bfvNewBinaryT_runs {o : Sched String} {op0 op1 : ℕ} (K : Ok h0 Wp Wc h) : Runs (Grew h0 Wp Wc) h (bfvNewBinaryT C o h op0 op1) (·.2) := by
  reads
  exact newCtT_runs K

theorem bfvNewBinaryT_into {o : Sched String} {op0 op1 : ℕ} {w : ℕ × Heap N} (K : Ok h0 Wp Wc h) (e : (bfvNewBinaryT C o h op0 op1).res = .ok w) :
    Into h0 Wp w.2 w.1 := by
  obtain ⟨_, -, e⟩ := Go.bind_ok e
  obtain ⟨_, -, e⟩ := Go.bind_ok e
  obtain ⟨_, -, e⟩ := Go.bind_ok e
  exact (newCtT_into C K e).1

theorem bfvEvaluateInPlaceT_runs {f : ℕ → RowBuf N → RowBuf N → RowBuf N} {o : Sched String} {c0 c1 out : ℕ} (K : Ok h0 Wp Wc h) (hI : Into h0 Wp h out) :
    Runs (Grew h0 Wp Wc) h (bfvEvaluateInPlaceT C f o h c0 c1 out) (fun g => g) := by
  refine Runs.lift (Grew.refl K) fun _ _ => Runs.lift (Grew.refl K) fun _ _ => ?_
  exact evalCoreT_runs K hI fun h1 p q k hp hw => polyCopyT_runs k hp hw

theorem bfvAddNewT_runs {o : Sched String} {c0 c1 : ℕ} (K : Ok h0 Wp Wc h) : Runs (Grew h0 Wp Wc) h (bfvAddNewT C o h c0 c1) (·.2) := by
  refine Runs.bind (bfvNewBinaryT_runs K) fun w e r => ?_
  exact Runs.bind (bfvEvaluateInPlaceT_runs r.ok (bfvNewBinaryT_into K e)) fun g _ r => Runs.ok (Grew.refl r.ok) rfl

theorem bfvSubNewT_runs {o : Sched String} {c0 c1 : ℕ} (K : Ok h0 Wp Wc h) : Runs (Grew h0 Wp Wc) h (bfvSubNewT C o h c0 c1) (·.2) := by
  refine Runs.bind (bfvNewBinaryT_runs K) fun w e r => ?_
  refine Runs.bind (bfvEvaluateInPlaceT_runs r.ok (bfvNewBinaryT_into K e)) fun g _ r1 => ?_
  exact Runs.bind (negNewT_runs r1.ok (r1.into _ (bfvNewBinaryT_into K e))) fun g _ r => Runs.ok (Grew.refl r.ok) rfl

/-! ## key switching -/

theorem updT_runs {level c : ℕ} {id : String} {f : QRows C → QRows C} (K : Ok h0 Wp Wc h) (hI : Into h0 Wp h c) :
    Runs (Grew h0 Wp Wc) h (updT level c id f h) (fun g => g) :=
  Runs.lift (Grew.refl K) fun p ep => polyOpT_runs K (Into.lt K hI ep) (hI.2 id p (get_some ep))

theorem putCopyT_runs {c : ℕ} {id : String} {P : Poly C} (K : Ok h0 Wp Wc h) (hI : Into h0 Wp h c) :
    Runs (Grew h0 Wp Wc) h (putCopyT c id P h) (fun g => g) :=
  Runs.lift (Grew.refl K) fun p ep => Runs.bind (rowsOpT_runs K (Into.lt K hI ep) (hI.2 id p (get_some ep)) (min_le_left _ _)) fun _ _ r =>
    setNTTT_runs r.ok (hI.2 id p (get_some ep))

theorem permuteAllT_runs {S : Scratch C} {level galEl : ℕ} {ids : List String} {out : ℕ} (K : Ok h0 Wp Wc h) (hI : Into h0 Wp h out) :
    Runs (Grew h0 Wp Wc) h (permuteAllT S level galEl ids out h) (·.1) := by
  refine Runs.loop rfl (Grew.refl K) fun s a r => ?_
  have k := r.ok
  reads
  exact Runs.bind (putCopyT_runs k (r.into _ hI)) fun g _ r => Runs.ok (Grew.refl r.ok) rfl

theorem rotateStepT_runs {level cin r : ℕ} {hoisted : Option (HoistedCt C)} {rks : RotKeySet (GalKey C)} {a : Option (Swk C)} {out : ℕ}
    {s : Heap N × Scratch C} {id : String} (K : Ok h0 Wp Wc s.1) (hI : Into h0 Wp s.1 out) :
    Runs (Grew h0 Wp Wc) s.1 (rotateStepT level cin r hoisted rks a out s id) (·.1) := by
  reads
  refine Runs.bind (updT_runs K hI) fun g _ r => ?_
  have k := r.ok
  reads
  exact Runs.bind (updT_runs k (r.into _ hI)) fun g _ r => Runs.ok (Grew.refl r.ok) rfl

theorem rotateWithT_runs {crs : GoMap ℤ (Swk C)} {o : Sched String} {S : Scratch C} {cin : ℕ} {rotidx : ℤ} {hoisted : Option (HoistedCt C)}
    {rks : RotKeySet (GalKey C)} {out : ℕ} (K : Ok h0 Wp Wc h) (hI : Into h0 Wp h out) :
    Runs (Grew h0 Wp Wc) h (rotateWithT crs o S cin rotidx hoisted rks out h) (·.1) := by
  reads
  split
  · exact Runs.error (Grew.refl K)
  · refine Runs.lift (Grew.refl K) fun c0 _ => Runs.lift (Grew.refl K) fun p0 ep => ?_
    refine Runs.bind (polyCopyT_runs K (Into.lt K hI ep) (hI.2 _ p0 (get_some ep))) fun h1 _ r1 => ?_
    refine Runs.bind (π := (·.1)) (Runs.loop rfl (Grew.refl r1.ok) fun s a r => rotateStepT_runs r.ok (r.into _ (r1.into _ hI))) fun s _ r2 => ?_
    exact permuteAllT_runs r2.ok (r2.into _ (r1.into _ hI))

theorem conjugateT_runs {permLevel : ℕ} {crs : GoMap ℤ (Swk C)} {o : Sched String} {S : Scratch C} {cin : ℕ} {cks : KeySet (GalKey C)} {out : ℕ}
    (K : Ok h0 Wp Wc h) (hI : Into h0 Wp h out) : Runs (Grew h0 Wp Wc) h (conjugateT permLevel crs o S cin cks out h) (·.1) := by
  reads
  split
  · exact Runs.error (Grew.refl K)
  · refine Runs.bind (π := fun g => g) (Runs.loop rfl (Grew.refl K) fun s a r => ?_) fun h1 _ r1 => ?_
    · have i := r.into _ hI
      refine Runs.lift (Grew.refl r.ok) fun a _ => Runs.lift (Grew.refl r.ok) fun b eb => ?_
      exact polyOpT_runs r.ok (Into.lt r.ok i eb) (i.2 _ b (get_some eb))
    refine Runs.bind (π := (·.1)) (Runs.loop rfl (Grew.refl r1.ok) fun s a r => ?_) fun s2 _ r2 => ?_
    · have k := r.ok
      reads
      exact Runs.bind (updT_runs k (r.into _ (r1.into _ hI))) fun g _ r => Runs.ok (Grew.refl r.ok) rfl
    refine Runs.loop rfl (Grew.refl r2.ok) fun s a r => ?_
    have k := r.ok
    reads
    exact Runs.bind (putCopyT_runs k (r.into _ (r2.into _ (r1.into _ hI)))) fun g _ r => Runs.ok (Grew.refl r.ok) rfl

theorem tensorT_runs {o : Sched String} {S : Scratch C} {level op0 op1 : ℕ} {ids0 ids1 : IDSet} {out : ℕ} (K : Ok h0 Wp Wc h) (hI : Into h0 Wp h out) :
    Runs (Grew h0 Wp Wc) h (tensorT o S level op0 op1 ids0 ids1 out h) (·.1) := by
  reads
  refine Runs.bind (updT_runs K hI) fun h1 _ r1 => ?_
  refine Runs.bind (π := (·.1)) (Runs.loop rfl (Grew.refl r1.ok) fun s a r => ?_) fun s2 _ r2 => ?_
  · have k := r.ok
    reads
    exact Runs.bind (updT_runs k (r.into _ (r1.into _ hI))) fun g _ r => Runs.ok (Grew.refl r.ok) rfl
  refine Runs.bind (π := (·.1)) (Runs.loop rfl (Grew.refl r2.ok) fun s a r => ?_) fun s3 _ r3 => ?_
  · have k := r.ok
    reads
    exact Runs.bind (updT_runs k (r.into _ (r2.into _ (r1.into _ hI)))) fun g _ r => Runs.ok (Grew.refl r.ok) rfl
  refine Runs.bind (π := fun g => g) (Runs.loop rfl (Grew.refl r3.ok) fun s a r => ?_) fun g _ r => Runs.ok (Grew.refl r.ok) rfl
  exact updT_runs r.ok (r.into _ (r3.into _ (r2.into _ (r1.into _ hI))))

theorem mulFrontT_runs {o : Sched String} {S : Scratch C} {op0 op1 : ℕ} {h0' h1' : Option (HoistedCt C)} {rlk : RlkMap C} {out : ℕ}
    (K : Ok h0 Wp Wc h) (hI : Into h0 Wp h out) : Runs (Grew h0 Wp Wc) h (mulFrontT o S op0 op1 h0' h1' rlk out h) (·.2.1) := by
  reads
  refine Runs.bind (tensorT_runs K hI) fun s1 _ r1 => ?_
  refine Runs.bind (π := (·.1)) (Runs.loop rfl (Grew.refl r1.ok) fun s a r => ?_) fun g _ r => Runs.ok (Grew.refl r.ok) rfl
  have k := r.ok
  reads
  exact Runs.bind (updT_runs k (r.into _ (r1.into _ hI))) fun g _ r => Runs.ok (Grew.refl r.ok) rfl

theorem mulAndRelinHoistedT_runs {crs : GoMap ℤ (Swk C)} {o : Sched String} {S : Scratch C} {op0 op1 : ℕ} {h0' h1' : Option (HoistedCt C)}
    {rlk : RlkMap C} {out : ℕ} (K : Ok h0 Wp Wc h) (hI : Into h0 Wp h out) :
    Runs (Grew h0 Wp Wc) h (mulAndRelinHoistedT crs o S op0 op1 h0' h1' rlk out h) (·.1) := by
  refine Runs.bind (mulFrontT_runs K hI) fun f _ r1 => ?_
  refine Runs.loop rfl (Grew.refl r1.ok) fun s a r => ?_
  have k := r.ok
  have i := r.into _ (r1.into _ hI)
  unfold relinStepHoistedT
  reads
  refine Runs.bind (updT_runs k i) fun g _ r => ?_
  have k := r.ok
  reads
  exact Runs.bind (updT_runs k (r.into _ i)) fun g _ r => Runs.ok (Grew.refl r.ok) rfl

theorem rotLoopT_runs {crs : GoMap ℤ (Swk C)} {o : ℕ → Sched String} {rks : RotKeySet (GalKey C)} {tmp out : ℕ} (k r : ℕ) {S : Scratch C}
    (K : Ok h0 Wp Wc h) (hT : Into h0 Wp h tmp) (hI : Into h0 Wp h out) :
    Runs (Grew h0 Wp Wc) h (rotLoopT crs o rks tmp out k r h S) (·.1) := by
  induction r using Nat.strong_induction_on generalizing k h S with
  | _ r ih =>
    unfold rotLoopT
    split
    · rename_i hr
      split
      · refine Runs.bind (rotateWithT_runs K hI) fun v _ r1 => ?_
        refine Runs.bind (copyT_runs r1.ok (r1.into _ hT)) fun h2 _ r2 => ?_
        exact ih (r / 2) (by omega) (2 * k) r2.ok (r2.into _ (r1.into _ hT)) (r2.into _ (r1.into _ hI))
      · exact ih (r / 2) (by omega) (2 * k) K hT hI
    · exact Runs.ok (Grew.refl K) rfl

/-! ## the CKKS evaluator -/

theorem ckksRotateNewT_runs {crs : GoMap ℤ (Swk C)} {o : ℕ → Sched String} {E : Eval C} {c : HCt} {rotidx : ℤ} {rks : RotKeySet (GalKey C)}
    (K : Ok h0 Wp Wc h) (hc : c.ct < h.nct) : Runs (Grew h0 Wp Wc) h (ckksRotateNewT crs o E c rotidx rks h) (·.2) := by
  reads
  refine Runs.bind (newCtT_runs K) fun w e r => ?_
  have i := (newCtT_into C K e).1
  refine Runs.bind (π := (·.1)) ?_ fun w _ r => Runs.ok (Grew.refl r.ok) rfl
  unfold ckksRotateT
  dsimp only
  split
  · exact Runs.bind (copyT_runs r.ok i) fun g _ r => Runs.ok (Grew.refl r.ok) rfl
  · split
    · exact rotateWithT_runs r.ok i
    · refine Runs.bind (copyNewT_runs r.ok) fun t et rt => ?_
      exact rotLoopT_runs _ _ rt.ok (copyNewT_into C r.ok (lt_of_lt_of_le hc r.nct) et).1 (rt.into _ i)

theorem ckksRotateHoistedNewT_runs {crs : GoMap ℤ (Swk C)} {o : ℕ → Sched String} {E : Eval C} {c : HCt} {rotidx : ℤ} {hc : HoistedCt C}
    {rks : RotKeySet (GalKey C)} (K : Ok h0 Wp Wc h) : Runs (Grew h0 Wp Wc) h (ckksRotateHoistedNewT crs o E c rotidx hc rks h) (·.2) := by
  reads
  refine Runs.bind (newCtT_runs K) fun w e r => ?_
  have i := (newCtT_into C K e).1
  refine Runs.bind (π := (·.1)) ?_ fun w _ r => Runs.ok (Grew.refl r.ok) rfl
  unfold ckksRotateHoistedT
  dsimp only
  split
  · exact Runs.bind (copyT_runs r.ok i) fun g _ r => Runs.ok (Grew.refl r.ok) rfl
  · split
    · exact rotateWithT_runs r.ok i
    · exact Runs.error (Grew.refl r.ok)

theorem ckksConjugateNewT_runs {permLevel : ℕ} {crs : GoMap ℤ (Swk C)} {o : Sched String} {E : Eval C} {c : HCt} {cks : KeySet (GalKey C)}
    (K : Ok h0 Wp Wc h) : Runs (Grew h0 Wp Wc) h (ckksConjugateNewT permLevel crs o E c cks h) (·.2) := by
  reads
  refine Runs.bind (newCtT_runs K) fun w e r => ?_
  exact Runs.bind (conjugateT_runs r.ok (newCtT_into C K e).1) fun w _ r => Runs.ok (Grew.refl r.ok) rfl

theorem ckksMulRelinHoistedNewT_runs {pscale : ℚ} {crs : GoMap ℤ (Swk C)} {o : Sched String} {E : Eval C} {op0 op1 : HCt} {h0' h1' : Option (HoistedCt C)}
    {rlk : RlkMap C} (K : Ok h0 Wp Wc h) : Runs (Grew h0 Wp Wc) h (ckksMulRelinHoistedNewT pscale crs o E op0 op1 h0' h1' rlk h) (·.2) := by
  refine Runs.bind (newCiphertextBinaryT_runs K) fun w e r => ?_
  have i := newCiphertextBinaryT_into C K e
  have k := r.ok
  unfold ckksMulRelinHoistedT
  reads
  refine Runs.bind (dropToT_runs k i) fun g _ r0 => ?_
  have i := r0.into _ i
  refine Runs.bind (mulAndRelinHoistedT_runs r0.ok i) fun v _ r1 => ?_
  exact Runs.bind (rescaleT_runs r1.ok (r1.into _ i)) fun v _ r => Runs.ok (Grew.refl r.ok) rfl

theorem ckksMulRelinNewT_runs {pscale : ℚ} {crs : GoMap ℤ (Swk C)} {o : Sched String} {E : Eval C} {op0 op1 : HCt} {rlk : RlkMap C} (K : Ok h0 Wp Wc h) :
    Runs (Grew h0 Wp Wc) h (ckksMulRelinNewT pscale crs o E op0 op1 rlk h) (·.2) := by
  unfold ckksMulRelinNewT
  split
  · reads
    exact Runs.bind (ckksMulRelinHoistedNewT_runs K) fun v _ r => Runs.ok (Grew.refl r.ok) rfl
  · reads
    exact Runs.bind (ckksMulRelinHoistedNewT_runs K) fun v _ r => Runs.ok (Grew.refl r.ok) rfl

theorem mulPtxtNewT_runs {pscale : ℚ} {o : Sched String} {E : Eval C} {c : HCt} {pt : Poly C} {ptScale : ℚ} (K : Ok h0 Wp Wc h) :
    Runs (Grew h0 Wp Wc) h (mulPtxtNewT pscale o E c pt ptScale h) (·.2) := by
  reads
  refine Runs.bind (newCtT_runs K) fun w e r => ?_
  have i := (newCtT_into C K e).1
  have k := r.ok
  reads
  refine Runs.bind (π := fun g => g) (Runs.loop rfl (Grew.refl k) fun s a r => ?_) fun g _ r => ?_
  · have k := r.ok
    have i := r.into _ i
    reads
    refine Runs.bind (updT_runs k i) fun g _ r => ?_
    refine Runs.bind (updT_runs r.ok (r.into _ i)) fun g _ r' => ?_
    exact updT_runs r'.ok (r'.into _ (r.into _ i))
  · exact Runs.bind (rescaleT_runs r.ok (r.into _ i)) fun v _ r => Runs.ok (Grew.refl r.ok) rfl

/-! ## the BFV evaluator -/

theorem bfvRotateNewT_runs {crs : GoMap ℤ (Swk C)} {o : ℕ → Sched String} {S : Scratch C} {c : ℕ} {rotidx : ℤ} {rks : RotKeySet (GalKey C)}
    (K : Ok h0 Wp Wc h) (hc : c < h.nct) : Runs (Grew h0 Wp Wc) h (bfvRotateNewT crs o S c rotidx rks h) (·.2) := by
  reads
  refine Runs.bind (newCtT_runs K) fun w e r => ?_
  have i := (newCtT_into C K e).1
  refine Runs.bind (π := (·.1)) ?_ fun w _ r => Runs.ok (Grew.refl r.ok) rfl
  unfold bfvRotateT
  dsimp only
  split
  · exact Runs.bind (copyT_runs r.ok i) fun g _ r => Runs.ok (Grew.refl r.ok) rfl
  · refine Runs.bind (copyNewT_runs r.ok) fun t et rt => ?_
    split
    · exact rotateWithT_runs rt.ok (rt.into _ i)
    · exact rotLoopT_runs _ _ rt.ok (copyNewT_into C r.ok (lt_of_lt_of_le hc r.nct) et).1 (rt.into _ i)

theorem bfvConjugateNewT_runs {permLevel : ℕ} {crs : GoMap ℤ (Swk C)} {o : Sched String} {S : Scratch C} {c : ℕ} {cks : KeySet (GalKey C)}
    (K : Ok h0 Wp Wc h) : Runs (Grew h0 Wp Wc) h (bfvConjugateNewT permLevel crs o S c cks h) (·.2) := by
  reads
  refine Runs.bind (newCtT_runs K) fun w e r => ?_
  refine Runs.bind (copyNewT_runs r.ok) fun t _ r1 => ?_
  exact Runs.bind (conjugateT_runs r1.ok (r1.into _ (newCtT_into C K e).1)) fun w _ r => Runs.ok (Grew.refl r.ok) rfl

variable {B : BCtx N}

theorem quantT_runs {pool : Fin N → ℕ → ℕ} {a : RowsR B} {id : String} {out : ℕ} (K : Ok h0 Wp Wc h) (hI : Into h0 Wp h out) :
    Runs (Grew h0 Wp Wc) h (quantT pool a id out h) (fun g => g) := by
  refine Runs.lift (Grew.refl K) fun _ _ => Runs.lift (Grew.refl K) fun _ _ => Runs.lift (Grew.refl K) fun _ _ => ?_
  exact updT_runs K hI

theorem tensorBT_runs {o : Sched String} {S : BScratch B} {op0 op1 : CtR N} {ids0 ids1 : IDSet} {out : ℕ} (K : Ok h0 Wp Wc h) (hI : Into h0 Wp h out) :
    Runs (Grew h0 Wp Wc) h (tensorBT o S op0 op1 ids0 ids1 out h) (·.1) := by
  reads
  refine Runs.bind (quantT_runs K hI) fun h1 _ r1 => ?_
  refine Runs.bind (π := (·.1)) (Runs.loop rfl (Grew.refl r1.ok) fun s a r => ?_) fun s2 _ r2 => ?_
  · have k := r.ok
    unfold tensorB0T
    split
    · reads
      exact Runs.bind (quantT_runs k (r.into _ (r1.into _ hI))) fun g _ r => Runs.ok (Grew.refl r.ok) rfl
    · exact Runs.ok (Grew.refl k) rfl
  refine Runs.bind (π := (·.1)) (Runs.loop rfl (Grew.refl r2.ok) fun s a r => ?_) fun s3 _ r3 => ?_
  · have k := r.ok
    unfold tensorB1T
    split
    · reads
      exact Runs.bind (quantT_runs k (r.into _ (r2.into _ (r1.into _ hI)))) fun g _ r => Runs.ok (Grew.refl r.ok) rfl
    · exact Runs.ok (Grew.refl k) rfl
  refine Runs.loop rfl (Grew.refl r3.ok) fun s a r => ?_
  have k := r.ok
  unfold tensorB2T
  split
  · reads
    exact Runs.bind (quantT_runs k (r.into _ (r3.into _ (r2.into _ (r1.into _ hI))))) fun g _ r => Runs.ok (Grew.refl r.ok) rfl
  · exact Runs.ok (Grew.refl k) rfl

theorem mulFrontBT_runs {o : Sched String} {S : BScratch B} {op0 op1 : CtR N} {h0' h1' : HoistedPair B} {rlk : GoMap String (BRlk B.C)} {out : ℕ}
    (K : Ok h0 Wp Wc h) (hI : Into h0 Wp h out) : Runs (Grew h0 Wp Wc) h (mulFrontBT o S op0 op1 h0' h1' rlk out h) (·.2.1) := by
  reads
  refine Runs.bind (tensorBT_runs K hI) fun s1 _ r1 => ?_
  refine Runs.bind (π := (·.1)) (Runs.loop rfl (Grew.refl r1.ok) fun s a r => ?_) fun g _ r => Runs.ok (Grew.refl r.ok) rfl
  have k := r.ok
  reads
  exact Runs.bind (updT_runs k (r.into _ (r1.into _ hI))) fun g _ r => Runs.ok (Grew.refl r.ok) rfl

theorem bfvMulRelinNewT_runs {crs : GoMap ℤ (Swk B.C)} {o : Sched String} {S : BScratch B} {c0 c1 : ℕ} {set : BRlkMap B} (K : Ok h0 Wp Wc h) :
    Runs (Grew h0 Wp Wc) h (bfvMulRelinNewT crs o S c0 c1 set h) (·.2) := by
  refine Runs.bind (bfvNewBinaryT_runs K) fun w e r => ?_
  have i := bfvNewBinaryT_into K e
  refine Runs.bind (π := (·.1)) ?_ fun w _ r => Runs.ok (Grew.refl r.ok) rfl
  have k := r.ok
  unfold bfvMulRelinHoistedT
  reads
  refine Runs.bind (mulFrontBT_runs k i) fun f _ r1 => ?_
  refine Runs.loop rfl (Grew.refl r1.ok) fun s a r => ?_
  have k := r.ok
  have i := r.into _ (r1.into _ i)
  unfold lastBHoistedT
  reads
  refine Runs.bind (updT_runs k i) fun g _ r => ?_
  have k := r.ok
  reads
  exact Runs.bind (updT_runs k (r.into _ i)) fun g _ r => Runs.ok (Grew.refl r.ok) rfl

/-! ## encryption -/

theorem onRowsT_runs {c : ℕ} {id : String} {level : ℕ} {f : ∀ i, Limb N (C.q i) → Limb N (C.q i)} (K : Ok h0 Wp Wc h) (hI : Into h0 Wp h c) :
    Runs (Grew h0 Wp Wc) h (h.onRowsT c id level f) (fun g => g) :=
  Runs.lift (Grew.refl K) fun p ep => polyOpT_runs K (Into.lt K hI ep) (hI.2 id p (get_some ep))

theorem encryptBodyT_runs {ntt : Bool} {gs : ℕ → Nega N ℤ} {st : Enc C} {levelQ pt : ℕ} {id : String} {c : ℕ} (K : Ok h0 Wp Wc h) (hI : Into h0 Wp h c) :
    Runs (Grew h0 Wp Wc) h (encryptBodyT ntt gs st levelQ pt id c h) (·.2) := by
  unfold encryptBodyT
  split
  · unfold encryptNTTT
    refine Runs.bind (onRowsT_runs K hI) fun h1 _ r1 => Runs.lift (Grew.refl r1.ok) fun _ _ => ?_
    split
    · exact Runs.bind (onRowsT_runs r1.ok (r1.into _ hI)) fun h2 _ r2 => Runs.ok (Grew.refl r2.ok) rfl
    · refine Runs.bind (onRowsT_runs r1.ok (r1.into _ hI)) fun h2 _ r2 => ?_
      exact Runs.bind (onRowsT_runs r2.ok (r2.into _ (r1.into _ hI))) fun h2 _ r2 => Runs.ok (Grew.refl r2.ok) rfl
  · unfold encryptCoeffT
    refine Runs.bind (onRowsT_runs K hI) fun h1 _ r1 => ?_
    have i1 := r1.into _ hI
    refine Runs.bind (onRowsT_runs r1.ok i1) fun h2 _ r2 => Runs.lift (Grew.refl r2.ok) fun _ _ => ?_
    have i2 := r2.into _ i1
    refine Runs.bind (onRowsT_runs r2.ok i2) fun h3 _ r3 => Runs.lift (Grew.refl r3.ok) fun _ _ => ?_
    have i3 := r3.into _ i2
    refine Runs.bind (onRowsT_runs r3.ok i3) fun h4 _ r4 => Runs.lift (Grew.refl r4.ok) fun _ _ => ?_
    have i4 := r4.into _ i3
    split
    · exact Runs.bind (onRowsT_runs r4.ok i4) fun h2 _ r2 => Runs.ok (Grew.refl r2.ok) rfl
    · exact Runs.bind (onRowsT_runs r4.ok i4) fun h2 _ r2 => Runs.ok (Grew.refl r2.ok) rfl

theorem encryptT_runs {us gs : ℕ → Nega N ℤ} {st : Enc C} {pt : ℕ} {pk : PKey C} {c : ℕ} (K : Ok h0 Wp Wc h) (hI : Into h0 Wp h c) :
    Runs (Grew h0 Wp Wc) h (encryptT us gs st pt pk c h) (·.2) := by
  reads
  refine Runs.bind (onRowsT_runs K hI) fun h1 _ r1 => ?_
  have i1 := r1.into _ hI
  refine Runs.bind (onRowsT_runs r1.ok i1) fun h2 _ r2 => ?_
  have i2 := r2.into _ i1
  refine Runs.bind (encryptBodyT_runs r2.ok i2) fun w _ r3 => ?_
  have i3 := r3.into _ i2
  refine Runs.bind (π := fun g => g) ?_ fun h4 _ r4 => ?_
  · exact Runs.lift (Grew.refl r3.ok) fun q0 _ => Runs.lift (Grew.refl r3.ok) fun q1 e1 => setNTTT_runs r3.ok (i3.2 _ q1 (get_some e1))
  have i4 := r4.into _ i3
  refine Runs.bind (π := fun g => g) ?_ fun h5 _ r5 => ?_
  · exact Runs.lift (Grew.refl r4.ok) fun q0 e0 => truncateT_runs r4.ok (i4.2 _ q0 (get_some e0))
  have i5 := r5.into _ i4
  refine Runs.bind (π := fun g => g) ?_ fun h5 _ r5 => Runs.ok (Grew.refl r5.ok) rfl
  exact Runs.lift (Grew.refl r5.ok) fun q0 e0 => truncateT_runs r5.ok (i5.2 _ q0 (get_some e0))

theorem ckksEncryptNewT_runs {o : Sched String} {us gs : ℕ → Nega N ℤ} {st : Enc C} {pt : ℕ} {scale : ℚ} {pk : PKey C} (K : Ok h0 Wp Wc h) :
    Runs (Grew h0 Wp Wc) h (ckksEncryptNewT o us gs st pt scale pk h) (·.2) := by
  reads
  refine Runs.bind (newCtT_runs K) fun w e r => ?_
  exact Runs.bind (encryptT_runs r.ok (newCtT_into C K e).1) fun w _ r => Runs.ok (Grew.refl r.ok) rfl

theorem bfvEncryptNewT_runs {o : Sched String} {us gs : ℕ → Nega N ℤ} {st : Enc C} {pt : ℕ} {pk : PKey C} (K : Ok h0 Wp Wc h) :
    Runs (Grew h0 Wp Wc) h (bfvEncryptNewT o us gs st pt pk h) (·.2) := by
  reads
  refine Runs.bind (newCtT_runs K) fun w e r => ?_
  exact Runs.bind (encryptT_runs r.ok (newCtT_into C K e).1) fun w _ r => Runs.ok (Grew.refl r.ok) rfl

end
end Heap
end MKHE
