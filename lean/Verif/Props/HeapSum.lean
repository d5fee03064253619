import Verif.Lemmas.HeapRun
import Verif.Props.HeapOps

set_option autoImplicit false
set_option linter.unusedSectionVars false

/-!
# C22, C23, C52 on the heap: additions and subtractions return, whatever polynomials the operands share
-/

namespace MKHE
open Finset Heap
variable {N : ℕ} [NeZero N] {C : Ctx N}

/-- a new ciphertext is apart from all that existed -/
theorem Heap.Made.apart {h h1 : Heap N} (W : WF h) {r : ℕ} (M : Made h r h1) {c : ℕ} (hc : c < h.nct) : Apart h1 r c ∧ Apart h1 c r := by
  have key : ∀ id id' p, (h1.ct r).lookup id = some p → (h1.ct c).lookup id' ≠ some p := by
    intro id id' p h1' h2
    rw [M.only.ct c hc (by simp)] at h2
    have := W.ctB c hc id' p h2
    have := M.new id p h1'
    omega
  exact ⟨key, fun id id' p a b => key id' id p b a⟩

theorem Heap.Made.value_old {h h1 : Heap N} (W : WF h) {r : ℕ} (M : Made h r h1) {c : ℕ} (hc : c < h.nct) : value C h1 c = value C h c :=
  M.only.value W hc (by simp) (by simp)

/-- the value of a new ciphertext -/
theorem Heap.newCt_is (o : Order String) {ids : IDSet} {s : Finset String} (hs : ∀ id, ids.has id = true ↔ id ∈ s) (level : ℕ) {h : Heap N} (W : WF h)
    (id : String) : (value C (newCt o ids level h).2 (newCt o ids level h).1).lookup id =
      if id = "0" ∨ id ∈ s then some (Poly.new level) else none := by
  obtain ⟨M, hk, hv⟩ := newCt_spec (C := C) o ids level W
  rw [value_lookup]
  split_ifs with hid
  · have : id ∈ (newCt o ids level h).2.ct (newCt o ids level h).1 := (hk id).mpr (hid.imp (fun x => x) (hs id).mpr)
    obtain ⟨p, hp⟩ := Option.isSome_iff_exists.mp (GoMap.mem_iff_lookup.mp this)
    rw [hp]; show some _ = _; rw [hv id p hp]
  · have : id ∉ (newCt o ids level h).2.ct (newCt o ids level h).1 := fun hm => hid (((hk id).mp hm).imp (fun x => x) (hs id).mp)
    rw [AList.lookup_eq_none.mpr this]; rfl

theorem Heap.new_ids_at {level : ℕ} {s : Finset String} {ct : Ct C} (hz : "0" ∉ s)
    (H : ∀ id, ct.lookup id = if id = "0" ∨ id ∈ s then some (Poly.new level) else none) : ct.AtLevel level ∧ ct.ids = s := by
  refine ⟨⟨?_, fun id p hp => ?_, fun id p hp => ?_⟩, ?_⟩
  · exact AList.lookup_isSome.mp (by rw [H]; simp)
  · rw [H] at hp; split_ifs at hp; injection hp with hp; subst hp; rfl
  · rw [H] at hp; split_ifs at hp; injection hp with hp; subst hp; rfl
  · ext id
    rw [Ct.mem_ids, ← AList.lookup_isSome, H]
    by_cases e : id = "0"
    · subst e; simp [hz]
    · by_cases hs : id ∈ s <;> simp [e, hs]

namespace C22

/-- the evaluation into a new ciphertext, on the heap -/
theorem heap_eval_made (f : (i : ℕ) → Limb N (C.q i) → Limb N (C.q i) → Limb N (C.q i)) (o : Sched String) {h : Heap N} (W : WF h) {c0 c1 : ℕ}
    (l0 : c0 < h.nct) (l1 : c1 < h.nct) (h0 : (value C h c0).AtLevel (C.nQ - 1)) (h1 : (value C h c1).AtLevel (C.nQ - 1)) :
    ∃ w h', Heap.bfvNewBinary C o h c0 c1 = .ok w ∧ Heap.bfvEvaluateInPlace C (lift2 f) o w.2 c0 c1 w.1 = .ok h' ∧ Made h w.1 w.2 ∧
      WF h' ∧ h'.ct = w.2.ct ∧ h'.nct = w.2.nct ∧ (value C h' c0 = value C h c0 ∧ value C h' c1 = value C h c1) ∧
      (value C h' w.1).Made (C.nQ - 1) ((value C h c0).ids ∪ (value C h c1).ids)
        (evalOut f (value C h c0).ids (value C h c1).ids (value C h c0).comp (value C h c1).comp) := by
  obtain ⟨i0, i1, u, a1, a2, a3, a4, a5, a6⟩ := idset_union (o 80) (o 81) (o 82) (o 83) (value C h c0) (value C h c1)
  have hz : "0" ∉ (value C h c0).ids ∪ (value C h c1).ids := by
    rw [mem_union]; exact fun h => h.elim (Ct.zero_notMem_ids _) (Ct.zero_notMem_ids _)
  obtain ⟨M, -, -⟩ := newCt_spec (C := C) (o 84) u (C.nQ - 1) W
  have hnew := newCt_is (C := C) (o 84) a6 (C.nQ - 1) W
  set w := newCt (o 84) u (C.nQ - 1) h with hw
  have v0 : value C w.2 c0 = value C h c0 := M.value_old W l0
  have v1 : value C w.2 c1 = value C h c1 := M.value_old W l1
  obtain ⟨j0, b1, b2⟩ := Ct.idset (o 110) (value C w.2 c0)
  obtain ⟨j1, b3, b4⟩ := Ct.idset (o 111) (value C w.2 c1)
  rw [v0] at b1 b2
  rw [v1] at b3 b4
  obtain ⟨at1, at2⟩ := new_ids_at hz hnew
  have ln := M.nct
  obtain ⟨h', e1, R⟩ := Heap.evalCore_run f (level := C.nQ - 1) (cp := fun h dst src => .ok (h.polyCopy dst src))
    (fun s dst src ws ld ls hlen hn hlen' hn' => ⟨_, rfl, by
      have := polyCopy_run (C := C) ws ls ld
      rwa [Poly.copy_set (show (s.view C dst).len = C.nQ - 1 + 1 from hlen) (hn.trans hn'.symm) hlen'] at this⟩)
    (o 112) (o 113) M.wf (t0 := c0) (t1 := c1) (out := w.1) (by omega) (by omega) (M.into ∅).1 b2 b4 (by rw [v0]; exact h0.toCoeff) (by rw [v1]; exact h1.toCoeff)
    (fun id hid => by rw [← v0] at hid; exact (value_ids.mp hid).1) (fun id hid => by rw [← v1] at hid; exact (value_ids.mp hid).1)
    at1 at2 M.inj (M.apart W l0).1 (M.apart W l1).1
  rw [v0, v1] at R
  refine ⟨w, h', ?_, ?_, M, R.wf, R.ct, R.nct, ⟨?_, ?_⟩, Ct.Made.of_upd hnew R.upd⟩
  · unfold Heap.bfvNewBinary
    rw [idSet_value (C := C), a1, bind_ok, idSet_value (C := C), a2, bind_ok, a3, bind_ok]
  · unfold Heap.bfvEvaluateInPlace
    rw [idSet_value (C := C), v0, b1, bind_ok, idSet_value (C := C), v1, b3, bind_ok]
    exact e1
  · rw [R.value_other M.wf (by omega) (M.apart W l0).1, v0]
  · rw [R.value_other M.wf (by omega) (M.apart W l1).1, v1]

/-- **C22 with sharing, AddNew**: in every well-formed heap, for operands at the top level (which may be the same ciphertext or have polynomials in
common), the call returns a ciphertext whose phase is the sum of the phases the operands had before the call, and which is new (`C52.bfvAddNew_fresh`). -/
theorem heap_addNew_phase (o : Sched String) {h : Heap N} (W : WF h) {c0 c1 : ℕ} (l0 : c0 < h.nct) (l1 : c1 < h.nct)
    (h0 : (value C h c0).AtLevel (C.nQ - 1)) (h1 : (value C h c1).AtLevel (C.nQ - 1)) :
    ∃ r h', Heap.bfvAddNew C o h c0 c1 = .ok (r, h') ∧ (value C h' r).AtLevel (C.nQ - 1) ∧
      (value C h' r).ids = (value C h c0).ids ∪ (value C h c1).ids ∧
      ∀ (s : String → Nega N ℤ) (i : ℕ), i ≤ C.nQ - 1 → (value C h' r).phase s i = (value C h c0).phase s i + (value C h c1).phase s i := by
  obtain ⟨w, h', e1, e2, M, -, -, -, -, e3⟩ := heap_eval_made (fun i => (C.RQ i).add) o W l0 l1 h0 h1
  have hz : "0" ∉ (value C h c0).ids ∪ (value C h c1).ids := by
    rw [mem_union]; exact fun h => h.elim (Ct.zero_notMem_ids _) (Ct.zero_notMem_ids _)
  refine ⟨w.1, h', ?_, e3.atLevel, e3.ids hz, fun s i hi => ?_⟩
  · unfold Heap.bfvAddNew
    rw [e1, bind_ok]
    show (Heap.bfvEvaluateInPlace C _ o w.2 c0 c1 w.1 >>= _) = _
    rw [e2, bind_ok]
  · rw [e3.phase hz s hi, phase_addOut _ _ (Ct.zero_notMem_ids _) (Ct.zero_notMem_ids _)]; rfl

/-- **C22 with sharing, SubNew** -/
theorem heap_subNew_phase (o : Sched String) {h : Heap N} (W : WF h) {c0 c1 : ℕ} (l0 : c0 < h.nct) (l1 : c1 < h.nct)
    (h0 : (value C h c0).AtLevel (C.nQ - 1)) (h1 : (value C h c1).AtLevel (C.nQ - 1)) :
    ∃ r h', Heap.bfvSubNew C o h c0 c1 = .ok (r, h') ∧ (value C h' r).AtLevel (C.nQ - 1) ∧
      (value C h' r).ids = (value C h c0).ids ∪ (value C h c1).ids ∧
      ∀ (s : String → Nega N ℤ) (i : ℕ), i ≤ C.nQ - 1 → (value C h' r).phase s i = (value C h c0).phase s i - (value C h c1).phase s i := by
  obtain ⟨w, h2, e1, e2, M, W2, hct, hn, ⟨v0, v1⟩, e3⟩ := heap_eval_made (fun i => (C.RQ i).sub) o W l0 l1 h0 h1
  have hz : "0" ∉ (value C h c0).ids ∪ (value C h c1).ids := by
    rw [mem_union]; exact fun h => h.elim (Ct.zero_notMem_ids _) (Ct.zero_notMem_ids _)
  obtain ⟨h', f1, f2⟩ := Heap.negNew_run (C := C) (o 114) (o 115) (o 116) (op0 := c0) W2 (by rw [hn]; exact (M.into ∅).1) e3.atLevel
    (by unfold Distinct; rw [hct]; exact M.inj)
  rw [v0] at f2
  have hm := e3.upd f2.upd
  refine ⟨w.1, h', ?_, hm.atLevel, hm.ids hz, fun s i hi => ?_⟩
  · unfold Heap.bfvSubNew
    rw [e1, bind_ok]
    show (Heap.bfvEvaluateInPlace C _ o w.2 c0 c1 w.1 >>= _) = _
    rw [e2, bind_ok]
    show (Heap.negNew C (C.nQ - 1) _ _ _ h2 c0 w.1 >>= _) = _
    rw [f1, bind_ok]
  · rw [hm.phase hz s hi, phase_subOut _ _ (Ct.zero_notMem_ids _) (Ct.zero_notMem_ids _) s (value C h c0).comp (value C h c1).comp i _ fun id hid => ?_]
    · rfl
    · have := e3.comp (hid.symm.imp (fun x => x) fun x => x) hi
      split_ifs <;> simp only [this]

end C22
end MKHE
