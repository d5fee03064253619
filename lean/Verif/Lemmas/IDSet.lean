import Verif.Model.IDSet

set_option autoImplicit false

namespace MKHE
namespace IDSet

@[simp] theorem has_new (v : String) : new.has v = false := by
  simp [new, has]

theorem has_insert (s : IDSet) (v w : String) :
    (⟨s.value.insert v ()⟩ : IDSet).has w = (decide (w = v) || s.has w) := by
  unfold has
  rw [GoMap.lookup_insert']
  by_cases h : w = v <;> simp [h]

theorem has_remove (s : IDSet) (v w : String) :
    (s.remove v).has w = (!decide (w = v) && s.has w) := by
  unfold has remove
  rw [GoMap.lookup_erase']
  by_cases h : w = v <;> simp [h]

theorem mem_value_iff (s : IDSet) (v : String) : v ∈ s.value ↔ s.has v = true := by
  unfold has; exact GoMap.mem_iff_lookup

theorem add_ok (s : IDSet) {v : String} (h : v ≠ "0") : s.add v = .ok ⟨s.value.insert v ()⟩ := by
  unfold add; rw [if_neg h]

/-- Adding every element of a list without "0". -/
theorem addAll (l : List String) (s : IDSet) (h0 : "0" ∉ l) :
    ∃ r, Go.loop (fun res v => res.add v) s l = .ok r ∧ ∀ w, r.has w = true ↔ (s.has w = true ∨ w ∈ l) := by
  refine Go.loop_inv _ (fun pre r => ∀ w, r.has w = true ↔ (s.has w = true ∨ w ∈ pre)) l s (by simp) ?_
  intro pre a suf r hl hI
  have ha : a ≠ "0" := by
    intro h; apply h0; rw [hl]; simp [h]
  refine ⟨_, add_ok r ha, ?_⟩
  intro w
  rw [has_insert]
  simp only [Bool.or_eq_true, decide_eq_true_eq, List.mem_append, List.mem_singleton, hI w]
  tauto

/-- A guarded adding loop. -/
theorem addFilter (P : String → Bool) (l : List String) (h0 : ∀ v ∈ l, P v = true → v ≠ "0") :
    ∃ r, Go.loop (fun res v => if P v then res.add v else .ok res) new l = .ok r ∧
      ∀ w, r.has w = true ↔ (w ∈ l ∧ P w = true) := by
  refine Go.loop_inv _ (fun pre r => ∀ w, r.has w = true ↔ (w ∈ pre ∧ P w = true)) l new (by simp) ?_
  intro pre a suf r hl hI
  by_cases hP : P a = true
  · have ha : a ≠ "0" := h0 a (by rw [hl]; simp) hP
    refine ⟨_, by rw [if_pos hP]; exact add_ok r ha, ?_⟩
    intro w
    rw [has_insert]
    simp only [Bool.or_eq_true, decide_eq_true_eq, List.mem_append, List.mem_singleton, hI w]
    constructor
    · rintro (h | h)
      · subst h; exact ⟨Or.inr rfl, hP⟩
      · exact ⟨Or.inl h.1, h.2⟩
    · rintro ⟨h | h, h2⟩
      · exact Or.inr ⟨h, h2⟩
      · exact Or.inl h
  · refine ⟨r, by rw [if_neg hP], ?_⟩
    intro w
    simp only [List.mem_append, List.mem_singleton, hI w]
    constructor
    · rintro ⟨h, h2⟩; exact ⟨Or.inl h, h2⟩
    · rintro ⟨h | h, h2⟩
      · exact ⟨h, h2⟩
      · subst h; exact absurd h2 hP

theorem copyNew_spec (o : Order String) (s : IDSet) (h : s.has "0" = false) :
    ∃ r, s.copyNew o = .ok r ∧ ∀ w, r.has w = s.has w := by
  obtain ⟨r, h1, h2⟩ := addAll (GoMap.range o s.value) new (by
    rw [GoMap.mem_range, mem_value_iff, h]; simp)
  refine ⟨r, h1, fun w => ?_⟩
  rw [Bool.eq_iff_iff, h2 w, GoMap.mem_range, mem_value_iff]
  simp

theorem union_spec (o1 o2 : Order String) (s s2 : IDSet) (h : s.has "0" = false) (h' : s2.has "0" = false) :
    ∃ r, s.union o1 o2 s2 = .ok r ∧ ∀ w, r.has w = (s.has w || s2.has w) := by
  obtain ⟨r, h1, h2⟩ := addAll (GoMap.range o1 s.value) new (by
    rw [GoMap.mem_range, mem_value_iff, h]; simp)
  obtain ⟨r', h1', h2'⟩ := addAll (GoMap.range o2 s2.value) r (by
    rw [GoMap.mem_range, mem_value_iff, h']; simp)
  refine ⟨r', by unfold union; rw [h1]; exact h1', fun w => ?_⟩
  rw [Bool.eq_iff_iff, h2' w, h2 w, GoMap.mem_range, GoMap.mem_range, mem_value_iff, mem_value_iff]
  simp

theorem intersection_spec (o : Order String) (s s2 : IDSet) (h : s.has "0" = false ∨ s2.has "0" = false) :
    ∃ r, s.intersection o s2 = .ok r ∧ ∀ w, r.has w = (s.has w && s2.has w) := by
  obtain ⟨r, h1, h2⟩ := addFilter (fun v => s.has v) (GoMap.range o s2.value) (by
    intro v hv hP h0; subst h0
    rw [GoMap.mem_range, mem_value_iff] at hv
    rcases h with h | h
    · rw [h] at hP; exact absurd hP (by simp)
    · rw [h] at hv; exact absurd hv (by simp))
  refine ⟨r, h1, fun w => ?_⟩
  rw [Bool.eq_iff_iff, h2 w, GoMap.mem_range, mem_value_iff]
  simp [and_comm]

theorem ofCiphertext_spec {β : Type*} (o : Order String) (m : GoMap String β) :
    ∃ r, ofCiphertext o m = .ok r ∧ ∀ w, r.has w = true ↔ (w ∈ m ∧ w ≠ "0") := by
  obtain ⟨r, h1, h2⟩ := addFilter (fun v => decide (v ≠ "0")) (GoMap.range o m) (by
    intro v _ hP; simpa using hP)
  refine ⟨r, ?_, fun w => ?_⟩
  · rw [← h1]; unfold ofCiphertext; congr 1; funext res id; simp
  · rw [h2 w, GoMap.mem_range]; simp

end IDSet
end MKHE
