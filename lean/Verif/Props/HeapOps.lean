import Verif.Props.Heap
import Verif.Spec.Example

set_option autoImplicit false
set_option linter.unusedSectionVars false

/-!
# C20 and C52 on the memory model: Decrypt leaves its input alone, the `New` variants write only to memory they allocated
-/

namespace MKHE.C20
open MKHE MKHE.Heap Finset Nega
variable {N : ℕ} [NeZero N] {C : Ctx N}

/-- **C20.** For every well-formed heap, every ciphertext (also one sharing polynomials with others) whose components are in one domain, and a
plaintext polynomial that is not a component of the ciphertext, with all keys present: `Decrypt` returns; the ciphertext has the same map with the
same contents as before, and so has everything else that existed but the plaintext polynomial; the plaintext has level min(ciphertext level,
plaintext level), its old flag, reduced words, and its rows are the phase in the domain of the ciphertext. -/
theorem decrypt_leaves_input {h : Heap N} (W : WF h) {c pt : ℕ} (hc : c < h.nct) (hpt : pt < h.npoly) (hpt0 : 0 < h.len pt)
    (hsep : ∀ id, (h.ct c).lookup id ≠ some pt) {b : Bool} {level : ℕ} (hct : (value C h c).Flag b level) (hl : level < C.nQ)
    {sks : KeySet (SKey C)} {s : String → Nega N ℤ} (hs : SKeys.Of sks (value C h c).ids s) (o : Sched String) :
    ∃ h', Heap.decrypt o h c sks pt = .ok h' ∧ WF h' ∧ Only {pt} ∅ h h' ∧ h'.ct c = h.ct c ∧ value C h' c = value C h c ∧
      (h'.view C pt).len = min level (h.len pt - 1) + 1 ∧ (h'.view C pt).isNTT = (h.view C pt).isNTT ∧
      (∀ i ≤ min level (h.len pt - 1), ((h'.view C pt).rows i).Canon) ∧
      ∀ i ≤ min level (h.len pt - 1),
        (if b then (C.RQ i).ev ((h'.view C pt).rows i) else cf ((h'.view C pt).rows i)) = (value C h c).phase s i := by
  set level' := min level (h.len pt - 1) with hlevel'
  have hlev : h.level c = .ok level := by rw [level_value (C := C)]; exact hct.level
  obtain ⟨h1, e1⟩ : ∃ h1, h.truncate pt (level' + 1) = .ok h1 := by
    unfold truncate
    rw [if_neg (by omega)]
    exact ⟨_, rfl⟩
  obtain ⟨t1, t2, t3, t4, t5⟩ := truncate_inv W e1
  have hpoly1 : h1.poly pt = ⟨(h.poly pt).coeffs.take (level' + 1), (h.poly pt).isNTT⟩ := by
    unfold truncate at e1
    rw [if_neg (by omega)] at e1
    cases e1
    exact Function.update_self _ _ _
  have hlen1 : h1.len pt = level' + 1 := by
    unfold len at hlevel' hpt0 ⊢
    rw [hpoly1, List.length_take]
    omega
  have hval : value C h1 c = value C h c := t2.value W hc (by simp) (fun id p hp e => hsep id (by rw [Set.mem_singleton_iff] at e; rw [← e]; exact hp))
  have h0 : "0" ∈ h1.ct c := by rw [t3]; exact value_mem.mp hct.has0
  obtain ⟨c', h2, e2⟩ := copyNew_returns (o 200) h0
  obtain ⟨M, R⟩ := copyNew_rep (C := C) t1 (by rw [t4]; exact hc) e2
  rw [hval] at R
  obtain ⟨tmp, ids, ct', p0', d1, d2, d3, d4, d5, d6, d7, d8⟩ := decrypt_core hct hs.1 (o 200) (o 201) (o 202)
  obtain ⟨tmp', g1, g2⟩ := Ct.copyNew_ok (o 200) hct.has0
  obtain rfl : tmp = tmp' := by rw [g1] at d1; injection d1 with d1; exact d1.symm
  have R' : Rep h2 c' tmp := R.same g2
  obtain ⟨ids', i1, i2⟩ := IDSet.ofCiphertext_spec (o 201) (h2.ct c')
  obtain ⟨ids2, j1, j2⟩ := IDSet.ofCiphertext_spec (o 201) tmp
  obtain rfl : ids = ids2 := by rw [j1] at d2; injection d2 with d2; exact d2.symm
  have hids : ∀ id, ids'.has id = ids.has id := fun id => by rw [Bool.eq_iff_iff, i2, j2, R'.mem]
  obtain ⟨h3, e3, R3⟩ := R'.decryptLoop hids d3
  have K2 : Ok h1 ∅ ∅ h2 := ⟨M.wf, M.only⟩
  obtain ⟨K3, -, -⟩ := decryptLoop_ok' K2 (M.into ∅) (Or.inr (by rw [M.addr])) e3
  obtain ⟨p0, m0, l0, v0⟩ := R3.get d4
  have hpt1 : pt < h1.npoly := by omega
  have hpt3 : pt < h3.npoly := lt_of_lt_of_le hpt1 K3.only.npoly
  have vpt : h3.view C pt = h1.view C pt := K3.only.view hpt1 (by simp)
  have len3 : h3.len pt = level' + 1 := by rw [← hlen1]; exact congrArg Poly.len vpt
  have len0 : h3.len p0 = level + 1 := by rw [← d5, ← v0]; rfl
  obtain ⟨h4, e4, w4, o4, c4, -, -, v4⟩ := polyOp_run C K3.wf (lift1 fun i a => (C.RQ i).reduce a) l0 l0 hpt3 (level := level')
    (by omega) (by omega) (by omega)
  have hrun : Heap.decrypt o h c sks pt = .ok h4 := by
    unfold Heap.decrypt
    rw [hlev, bind_ok]
    dsimp only
    rw [← hlevel', e1, bind_ok, e2, bind_ok]
    unfold Heap.idSet
    rw [i1, bind_ok, e3, bind_ok]
    rw [if_neg (fun hlt => by
      rw [R3.keysLen] at hlt
      obtain ⟨id, a1, a2⟩ := d7.mp hlt
      exact a2 (hs.mem a1))]
    unfold Heap.get
    rw [GoMap.deref_ok m0, bind_ok]
    exact e4
  obtain ⟨w4', o4'⟩ := decrypt_ok' W hc hpt hrun
  have hrows : ∀ i ≤ level', (h4.view C pt).rows i = (C.RQ i).reduce (p0'.rows i) := by
    intro i hi
    rw [v4, Poly.set_rows_le _ _ hi, ← v0]
    show rd C i (wr _) = _
    rw [rd_wr]
    congr 1
    show _ = if i < h3.len p0 then _ else _
    rw [if_pos (by omega)]
  refine ⟨h4, hrun, w4', o4', o4'.ct c hc (by simp), o4'.value W hc (by simp) (fun id p hp e => hsep id (by
    rw [Set.mem_singleton_iff] at e; rw [← e]; exact hp)), ?_, ?_, fun i hi t => ?_, fun i hi => ?_⟩
  · rw [v4]; exact len3
  · rw [v4]
    show (h3.view C pt).isNTT = _
    rw [vpt]
    show (h1.poly pt).isNTT = _
    rw [hpoly1]; rfl
  · rw [hrows i hi]; exact (C.RQ i).reduce_lt _ _
  · have hl' : i ≤ level := by omega
    have key := d8 i hl'
    rw [filter_true_of_mem (fun id hid => hs.mem hid)] at key
    rw [hrows i hi]
    have : (if b = true then (C.RQ i).ev ((C.RQ i).reduce (p0'.rows i)) else cf ((C.RQ i).reduce (p0'.rows i))) = domVal b (p0'.rows i) := by
      unfold domVal
      rw [LimbOps.ev_reduce, LimbOps.cf_reduce]
    rw [this, key]
    unfold Ct.phase
    congr 1
    exact sum_congr rfl fun id hid => by rw [(hs.at_is hid).q i (by omega)]

/-- `mkckks.Decryptor.Decrypt` writes only the plaintext polynomial of the decryptor -/
theorem ckksDecrypt_writes_pool {h h' : Heap N} (W : WF h) {c pool : ℕ} (hc : c < h.nct) (hpool : pool < h.npoly) {sks : KeySet (SKey C)}
    {o : Sched String} (e : Heap.ckksDecrypt o h c sks pool = .ok h') : WF h' ∧ Only {pool} ∅ h h' := by
  obtain ⟨w, e1, e⟩ := Go.bind_ok e
  obtain ⟨M, -⟩ := copyNew_spec (C := C) (c' := w.1) (h' := w.2) W hc e1
  obtain ⟨a1, a2⟩ := decrypt_ok' (C := C) M.wf (M.into ∅).1 (lt_of_lt_of_le hpool M.only.npoly) e
  exact ⟨a1, (M.only.mono (Set.empty_subset {pool}) subset_rfl).trans a2⟩

/-- `mkbfv.Decryptor.Decrypt` writes nothing that existed before -/
theorem bfvDecrypt_writes_nothing {h h' : Heap N} (W : WF h) {c p : ℕ} (hc : c < h.nct) {sks : KeySet (SKey C)} {o : Sched String}
    (e : Heap.bfvDecrypt o h c sks = .ok (p, h')) : WF h' ∧ Only ∅ ∅ h h' ∧ h.npoly ≤ p := by
  obtain ⟨w, e1, e⟩ := Go.bind_ok e
  obtain ⟨ids, -, e⟩ := Go.bind_ok e
  obtain ⟨h3, e3, e⟩ := Go.bind_ok e
  obtain ⟨q, e4, e⟩ := Go.bind_ok e
  cases e
  obtain ⟨M, -⟩ := copyNew_spec (C := C) (c' := w.1) (h' := w.2) W hc e1
  obtain ⟨K3, I3, -⟩ := decryptLoop_ok' (Ok.mk M.wf M.only) (M.into ∅) (Or.inr (by rw [M.addr])) e3
  refine ⟨K3.wf, K3.only, ?_⟩
  rcases I3.2 _ _ (get_some e4) with h | h
  · exact h.elim
  · exact h

end MKHE.C20

namespace MKHE.C52
open MKHE MKHE.Heap
variable {N : ℕ} [NeZero N] {C : Ctx N}

/-- the polynomials of a ciphertext -/
def polysOf (h : Heap N) (c : ℕ) : Set ℕ := {p | ∃ id, (h.ct c).lookup id = some p}

/-- the result of a call: ciphertext `r` is new, its components are new and pairwise distinct, and nothing that existed was written but `Wp`, `Wc` -/
structure Fresh (Wp Wc : Set ℕ) (h : Heap N) (r : ℕ) (h' : Heap N) : Prop where
  wf : WF h'
  only : Only Wp Wc h h'
  newCt : h.nct ≤ r ∧ r < h'.nct
  newPoly : ∀ id p, (h'.ct r).lookup id = some p → h.npoly ≤ p
  distinct : ∀ id id' p, (h'.ct r).lookup id = some p → (h'.ct r).lookup id' = some p → id = id'

/-- what `Fresh` means for the caller: every ciphertext that existed, other than those in `Wc` and those containing a polynomial of `Wp`, has the same
value as before, and shares no polynomial with the result -/
theorem Fresh.unchanged {Wp Wc : Set ℕ} {h h' : Heap N} {r : ℕ} (F : Fresh Wp Wc h r h') (W : WF h) {c : ℕ} (hc : c < h.nct) (hw : c ∉ Wc)
    (hp : ∀ id p, (h.ct c).lookup id = some p → p ∉ Wp) :
    value C h' c = value C h c ∧ ∀ id id' p, (h'.ct c).lookup id = some p → (h'.ct r).lookup id' ≠ some p := by
  refine ⟨F.only.value W hc hw hp, fun id id' p h1 h2 => ?_⟩
  rw [F.only.ct c hc hw] at h1
  have := W.ctB c hc id p h1
  have := F.newPoly id' p h2
  omega

theorem Fresh.of_made {h h1 h' : Heap N} {r : ℕ} {Wp Wc : Set ℕ} (M : Made h r h1) (K : Ok h Wp Wc h') (hct : h'.ct r = h1.ct r)
    (hn : h1.nct ≤ h'.nct) : Fresh Wp Wc h r h' :=
  ⟨K.wf, K.only, ⟨by rw [M.addr], lt_of_lt_of_le (M.into ∅).1 hn⟩, fun id p hp => (M.new id p (by rwa [hct] at hp)).1,
    fun id id' p h1 h2 => M.inj id id' p (by rwa [hct] at h1) (by rwa [hct] at h2)⟩

include C in
/-- **C52, CopyNew** -/
theorem copyNew_fresh {o : Order String} {h h' : Heap N} (W : WF h) {c c' : ℕ} (hc : c < h.nct) (e : copyNew o h c = .ok (c', h')) :
    Fresh ∅ ∅ h c' h' := by
  obtain ⟨M, -⟩ := copyNew_spec (C := C) W hc e
  exact Fresh.of_made M ⟨M.wf, M.only⟩ rfl le_rfl

include C in
/-- **C52, DropLevelNew** -/
theorem dropLevelNew_fresh {o o' : Order String} {h h' : Heap N} (W : WF h) {c r : HCt} {levels : ℕ} (hc : c.ct < h.nct)
    (e : Heap.dropLevelNew o o' h c levels = .ok (r, h')) : Fresh ∅ ∅ h r.ct h' := by
  obtain ⟨w, e1, e⟩ := Go.bind_ok e
  obtain ⟨h2, e2, e⟩ := Go.bind_ok e
  cases e
  obtain ⟨M, -⟩ := copyNew_spec (C := C) (c' := w.1) (h' := w.2) W hc e1
  obtain ⟨K, c1, n1⟩ := dropLevel_ok (Ok.mk M.wf M.only) (M.into ∅) e2
  exact Fresh.of_made M K (by rw [c1]) (by rw [n1])

theorem bfvEval_ok {f : ℕ → RowBuf N → RowBuf N → RowBuf N} {o : Sched String} {h0 h h' : Heap N} {Wp Wc : Set ℕ} {c0 c1 out : ℕ}
    (K : Ok h0 Wp Wc h) (hI : Into h0 Wp h out) (e : Heap.bfvEvaluateInPlace C f o h c0 c1 out = .ok h') :
    Ok h0 Wp Wc h' ∧ h'.ct = h.ct ∧ h'.nct = h.nct := by
  obtain ⟨ids0, -, e⟩ := Go.bind_ok e
  obtain ⟨ids1, -, e⟩ := Go.bind_ok e
  refine evalCore_ok K hI (fun h1 p q h2 k lp hw e => ?_) e
  cases e
  obtain ⟨a1, a2, a3, a4, -⟩ := polyCopy_inv (q := q) k.wf lp
  exact ⟨k.step hw a1 a2, a3, a4⟩

/-- **C52, AddNew (BFV)** -/
theorem bfvAddNew_fresh {o : Sched String} {h h' : Heap N} (W : WF h) {c0 c1 r : ℕ} (e : Heap.bfvAddNew C o h c0 c1 = .ok (r, h')) : Fresh ∅ ∅ h r h' := by
  obtain ⟨w, e1, e⟩ := Go.bind_ok e
  obtain ⟨h2, e2, e⟩ := Go.bind_ok e
  cases e
  obtain ⟨ids0, -, e1⟩ := Go.bind_ok e1
  obtain ⟨ids1, -, e1⟩ := Go.bind_ok e1
  obtain ⟨ids, -, e1⟩ := Go.bind_ok e1
  cases e1
  obtain ⟨M, -⟩ := newCt_spec (C := C) (o 84) ids (C.nQ - 1) W
  obtain ⟨K, d1, n1⟩ := bfvEval_ok (Ok.mk M.wf M.only) (M.into ∅) e2
  exact Fresh.of_made M K (by rw [d1]) (by rw [n1])

/-- **C52, SubNew (BFV)** -/
theorem bfvSubNew_fresh {o : Sched String} {h h' : Heap N} (W : WF h) {c0 c1 r : ℕ} (e : Heap.bfvSubNew C o h c0 c1 = .ok (r, h')) : Fresh ∅ ∅ h r h' := by
  obtain ⟨w, e1, e⟩ := Go.bind_ok e
  obtain ⟨h2, e2, e⟩ := Go.bind_ok e
  obtain ⟨h3, e3, e⟩ := Go.bind_ok e
  cases e
  obtain ⟨ids0, -, e1⟩ := Go.bind_ok e1
  obtain ⟨ids1, -, e1⟩ := Go.bind_ok e1
  obtain ⟨ids, -, e1⟩ := Go.bind_ok e1
  cases e1
  obtain ⟨M, -⟩ := newCt_spec (C := C) (o 84) ids (C.nQ - 1) W
  obtain ⟨K, d1, n1⟩ := bfvEval_ok (Ok.mk M.wf M.only) (M.into ∅) e2
  obtain ⟨K3, d3, n3⟩ := negNew_ok K ((M.into ∅).of_ct d1 n1) e3
  exact Fresh.of_made M K3 (by rw [d3, d1]) (by rw [n3, n1])

theorem ckksEval_ok {f : ℕ → RowBuf N → RowBuf N → RowBuf N} {mredPsi : ℕ → ℕ → ℕ} {o : Sched String} {h0 h h' : Heap N} {Wp Wc : Set ℕ}
    {pool out : ℕ} {c0 c1 : HCt} (K : Ok h0 Wp Wc h) (hI : Into h0 Wp h out) (hP : Into h0 Wp h pool) (hpw : pool ∈ Wc ∨ h0.nct ≤ pool)
    (hne : out ≠ pool) (e : Heap.ckksEvaluateInPlace C f mredPsi o h pool c0 c1 out = .ok h') :
    Ok h0 Wp Wc h' ∧ h'.ct out = h.ct out ∧ h'.nct = h.nct := by
  obtain ⟨ids0, -, e⟩ := Go.bind_ok e
  obtain ⟨ids1, -, e⟩ := Go.bind_ok e
  obtain ⟨ids, -, e⟩ := Go.bind_ok e
  obtain ⟨h1, e1, e⟩ := Go.bind_ok e
  obtain ⟨l0, -, e⟩ := Go.bind_ok e
  obtain ⟨l1, -, e⟩ := Go.bind_ok e
  obtain ⟨lo, -, e⟩ := Go.bind_ok e
  obtain ⟨h2, e2, e⟩ := Go.bind_ok e
  obtain ⟨w, e3, e⟩ := Go.bind_ok e
  obtain ⟨K1, P1, n1, d1⟩ := pad_ok K hP hpw e1
  have I1 : Into h0 Wp h1 out := ⟨by rw [n1]; exact hI.1, fun id p hp => hI.2 id p (by rwa [d1 out hne] at hp)⟩
  have r2 : Ok h0 Wp Wc h2 ∧ h2.ct = h1.ct ∧ h2.nct = h1.nct := by
    unfold Heap.dropTo at e2
    split at e2
    · exact dropLevel_ok K1 I1 e2
    · cases e2; exact ⟨K1, rfl, rfl⟩
  obtain ⟨K2, d2, n2⟩ := r2
  have P2 := P1.of_ct d2 n2
  have r3 : Ok h0 Wp Wc w.2 ∧ w.2.ct = h2.ct ∧ w.2.nct = h2.nct := by
    unfold Heap.alignScales at e3
    split at e3
    · obtain ⟨v, e4, e3⟩ := Go.bind_ok e3
      cases e3
      exact multByConst_ok (s := v.1) K2 P2 e4
    · split at e3
      · obtain ⟨v, e4, e3⟩ := Go.bind_ok e3
        cases e3
        exact multByConst_ok (s := v.1) K2 P2 e4
      · cases e3; exact ⟨K2, rfl, rfl⟩
  obtain ⟨K3, d3, n3⟩ := r3
  have I3 : Into h0 Wp w.2 out := (I1.of_ct d2 n2).of_ct d3 n3
  obtain ⟨K4, d4, n4⟩ := evalCore_ok K3 I3 (fun h1 p q h2 k lp hw e => by
    obtain ⟨b1, b2, b3, -⟩ := polyOp_ok k lp hw e
    exact ⟨b1, b2, b3⟩) e
  exact ⟨K4, by rw [d4, d3, d2, d1 out hne], by rw [n4, n3, n2, n1]⟩

/-- **C52, AddNew (CKKS)**: nothing that existed is written but the evaluator's pool ciphertext. The operands may share polynomials. -/
theorem ckksAddNew_fresh {mredPsi : ℕ → ℕ → ℕ} {o : Sched String} {h h' : Heap N} (W : WF h) {pool : ℕ} (hpool : pool < h.nct) {c0 c1 r : HCt}
    (e : Heap.ckksAddNew C mredPsi o h pool c0 c1 = .ok (r, h')) : Fresh (polysOf h pool) {pool} h r.ct h' := by
  obtain ⟨w, e1, e⟩ := Go.bind_ok e
  obtain ⟨h2, e2, e⟩ := Go.bind_ok e
  cases e
  obtain ⟨l0, -, e1⟩ := Go.bind_ok e1
  obtain ⟨l1, -, e1⟩ := Go.bind_ok e1
  obtain ⟨ids0, -, e1⟩ := Go.bind_ok e1
  obtain ⟨ids1, -, e1⟩ := Go.bind_ok e1
  obtain ⟨ids, -, e1⟩ := Go.bind_ok e1
  cases e1
  obtain ⟨M, -⟩ := newCt_spec (C := C) (o 84) ids (min l0 l1) W
  have hne : (Heap.newCt (o 84) ids (min l0 l1) h).1 ≠ pool := by rw [M.addr]; omega
  obtain ⟨K, d1, n1⟩ := ckksEval_ok (Wp := polysOf h pool) (Wc := {pool}) ⟨M.wf, M.only.mono (Set.empty_subset _) (Set.empty_subset _)⟩ (M.into _)
    (pool := pool) ⟨by have := M.nct; omega, fun id p hp => Or.inl ⟨id, by rwa [M.only.ct pool hpool (by simp)] at hp⟩⟩ (Or.inl rfl) hne e2
  exact Fresh.of_made M K d1 (by rw [n1])

/-- **C52, SubNew (CKKS)** -/
theorem ckksSubNew_fresh {mredPsi : ℕ → ℕ → ℕ} {o : Sched String} {h h' : Heap N} (W : WF h) {pool : ℕ} (hpool : pool < h.nct) {c0 c1 r : HCt}
    (e : Heap.ckksSubNew C mredPsi o h pool c0 c1 = .ok (r, h')) : Fresh (polysOf h pool) {pool} h r.ct h' := by
  obtain ⟨w, e1, e⟩ := Go.bind_ok e
  obtain ⟨h2, e2, e⟩ := Go.bind_ok e
  obtain ⟨_, -, e⟩ := Go.bind_ok e
  obtain ⟨_, -, e⟩ := Go.bind_ok e
  obtain ⟨_, -, e⟩ := Go.bind_ok e
  obtain ⟨h3, e3, e⟩ := Go.bind_ok e
  cases e
  obtain ⟨l0, -, e1⟩ := Go.bind_ok e1
  obtain ⟨l1, -, e1⟩ := Go.bind_ok e1
  obtain ⟨ids0, -, e1⟩ := Go.bind_ok e1
  obtain ⟨ids1, -, e1⟩ := Go.bind_ok e1
  obtain ⟨ids, -, e1⟩ := Go.bind_ok e1
  cases e1
  obtain ⟨M, -⟩ := newCt_spec (C := C) (o 84) ids (min l0 l1) W
  have hne : (Heap.newCt (o 84) ids (min l0 l1) h).1 ≠ pool := by rw [M.addr]; omega
  obtain ⟨K, d1, n1⟩ := ckksEval_ok (Wp := polysOf h pool) (Wc := {pool}) ⟨M.wf, M.only.mono (Set.empty_subset _) (Set.empty_subset _)⟩ (M.into _)
    (pool := pool) ⟨by have := M.nct; omega, fun id p hp => Or.inl ⟨id, by rwa [M.only.ct pool hpool (by simp)] at hp⟩⟩ (Or.inl rfl) hne e2
  have I2 : Into h (polysOf h pool) h2 (Heap.newCt (o 84) ids (min l0 l1) h).1 := ⟨by rw [n1]; exact (M.into ∅).1, fun id p hp => (M.into _).2 id p (by rwa [d1] at hp)⟩
  obtain ⟨K3, d3, n3⟩ := negNew_ok K I2 e3
  exact Fresh.of_made M K3 (by rw [d3, d1]) (by rw [n3, n1])

/-- **C52, RescaleNew**: also when it reports an error or performs no division -/
theorem rescaleNew_fresh {o : Sched String} {h h' : Heap N} (W : WF h) {c r : HCt} {thr : ℚ} {err : Option String}
    (hc : c.ct < h.nct) (e : Heap.rescaleNew C o h c thr = .ok ((err, r), h')) : Fresh ∅ ∅ h r.ct h' := by
  obtain ⟨ids, -, e⟩ := Go.bind_ok e
  obtain ⟨level, -, e⟩ := Go.bind_ok e
  obtain ⟨M, -⟩ := newCt_spec (C := C) (o 87) ids level W
  have K0 : Ok h ∅ ∅ (newCt (o 87) ids level h).2 := ⟨M.wf, M.only⟩
  unfold Heap.rescale at e
  split at e
  · cases e; exact Fresh.of_made M K0 rfl le_rfl
  · split at e
    · cases e; exact Fresh.of_made M K0 rfl le_rfl
    · obtain ⟨l, -, e⟩ := Go.bind_ok e
      split at e
      · cases e; exact Fresh.of_made M K0 rfl le_rfl
      · obtain ⟨w, -, e⟩ := Go.bind_ok e
        split at e
        · obtain ⟨h2, e2, e⟩ := Go.bind_ok e
          cases e
          obtain ⟨K, d, n⟩ := loop_out K0 (M.into ∅) (fun h1 id h2 k i e => rescaleStep_ok k i e) e2
          exact Fresh.of_made M K (by rw [d]) (by rw [n])
        · split at e
          · cases e; exact Fresh.of_made M K0 rfl le_rfl
          · obtain ⟨v, e2, e⟩ := Go.bind_ok e
            cases e
            obtain ⟨M2, -⟩ := copyNew_spec (C := C) (c' := v.1) (h' := v.2) M.wf (by have := M.nct; omega) e2
            refine Fresh.of_made M (K0.fresh M2.wf M2.only) (M2.only.ct _ (M.into ∅).1 (by simp)) M2.only.nct

end MKHE.C52
