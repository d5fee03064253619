import Verif.Lemmas.IDSet
import Mathlib.Data.Finset.Card

set_option autoImplicit false

/-!
# C01, C02, C03 — identifier sets

Specification vocabulary (independent of the model): a history is a list of `Op`; `Live h v` says that `v`
was added at some point of `h` and not removed afterwards; `liveSet h` is the finite set of live ids.
-/

namespace MKHE.C01

/-- API calls on one IDSet. -/
inductive Op where
  | add (v : String)
  | remove (v : String)
  deriving DecidableEq

/-- `v` was added and not removed since. -/
def Live (h : List Op) (v : String) : Prop :=
  ∃ pre suf, h = pre ++ Op.add v :: suf ∧ Op.remove v ∉ suf

/-- The finite set a mathematician would compute. -/
def liveSet : List Op → Finset String :=
  List.foldl (fun S op => match op with | .add v => insert v S | .remove v => S.erase v) ∅

/-- Execute one call / a whole history on the model (a panic ends the run). -/
def exec (s : IDSet) : Op → Go IDSet
  | .add v => s.add v
  | .remove v => .ok (s.remove v)

def run (h : List Op) : Go IDSet := Go.loop exec IDSet.new h

theorem live_append_add (h : List Op) (v w : String) :
    Live (h ++ [.add v]) w ↔ (w = v ∨ Live h w) := by
  constructor
  · rintro ⟨pre, suf, he, hs⟩
    rcases List.eq_nil_or_concat suf with hn | ⟨suf', x, hx⟩
    · subst hn
      have := List.append_inj_right' he rfl
      simp at this; exact Or.inl this.symm
    · right
      subst hx
      rw [List.concat_eq_append, ← List.cons_append, ← List.append_assoc] at he
      have h1 := List.append_inj_left' he rfl
      exact ⟨pre, suf', h1, fun hm => hs (by simp [hm])⟩
  · rintro (rfl | ⟨pre, suf, he, hs⟩)
    · exact ⟨h, [], rfl, by simp⟩
    · exact ⟨pre, suf ++ [.add v], by simp [he], by simp [hs]⟩

theorem live_append_remove (h : List Op) (v w : String) :
    Live (h ++ [.remove v]) w ↔ (w ≠ v ∧ Live h w) := by
  constructor
  · rintro ⟨pre, suf, he, hs⟩
    rcases List.eq_nil_or_concat suf with hn | ⟨suf', x, hx⟩
    · subst hn
      have := List.append_inj_right' he rfl
      simp at this
    · subst hx
      rw [List.concat_eq_append, ← List.cons_append, ← List.append_assoc] at he
      have h1 := List.append_inj_left' he rfl
      have h2 := List.append_inj_right' he rfl
      simp at h2
      refine ⟨?_, pre, suf', h1, fun hm => hs (by simp [hm])⟩
      rintro rfl
      exact hs (by simp [h2])
  · rintro ⟨hne, pre, suf, he, hs⟩
    refine ⟨pre, suf ++ [.remove v], by simp [he], ?_⟩
    simp only [List.mem_append, List.mem_singleton, Op.remove.injEq, not_or]
    exact ⟨hs, hne⟩

/-- The fold agrees with `Live`. -/
theorem mem_liveSet (h : List Op) (v : String) : v ∈ liveSet h ↔ Live h v := by
  induction h using List.reverseRecOn with
  | nil => simp [liveSet, Live]
  | append_singleton h op ih =>
    unfold liveSet at ih ⊢
    rw [List.foldl_append]
    cases op with
    | add w => simp only [List.foldl_cons, List.foldl_nil, Finset.mem_insert, live_append_add, ih]
    | remove w => simp only [List.foldl_cons, List.foldl_nil, Finset.mem_erase, live_append_remove, ih, ne_eq]

/-- **C01.** For every history of Add/Remove calls that never adds "0", no call panics, and afterwards
`Has v` is true exactly when `v` was added and not removed since, and `Size` is the number of such ids.
A history that adds "0" aborts. -/
theorem idset_refines_finite_set (h : List Op) :
    (Op.add "0" ∉ h → ∃ s, run h = .ok s ∧ (∀ v, s.has v = true ↔ Live h v) ∧ s.size = (liveSet h).card) ∧
    (Op.add "0" ∈ h → ∃ m, run h = .error (.panic m)) := by
  constructor
  · intro h0
    obtain ⟨s, h1, h2⟩ := Go.loop_inv exec (fun pre s => ∀ v, s.has v = true ↔ Live pre v) h IDSet.new
      (by intro v; simp [Live]) (by
        intro pre op suf s hl hI
        cases op with
        | add w =>
          have hw : w ≠ "0" := by rintro rfl; exact h0 (by simp [hl])
          refine ⟨_, IDSet.add_ok s hw, fun v => ?_⟩
          rw [IDSet.has_insert, live_append_add, ← hI v]; simp
        | remove w =>
          refine ⟨_, rfl, fun v => ?_⟩
          rw [IDSet.has_remove, live_append_remove, ← hI v]; simp)
    refine ⟨s, h1, h2, ?_⟩
    have hk : s.value.keys.toFinset = liveSet h := by
      ext v
      rw [List.mem_toFinset, ← AList.mem_keys, IDSet.mem_value_iff, h2 v, mem_liveSet]
    rw [← hk, List.toFinset_card_of_nodup s.value.keys_nodup]
    rfl
  · intro h0
    unfold run
    generalize IDSet.new = s
    induction h generalizing s with
    | nil => simp at h0
    | cons op h ih =>
      rw [Go.loop_cons]
      by_cases hop : op = Op.add "0"
      · subst hop; exact ⟨_, by simp [exec, IDSet.add]; rfl⟩
      · have h0' : Op.add "0" ∈ h := by
          rcases List.mem_cons.mp h0 with h' | h'
          · exact absurd h'.symm hop
          · exact h'
        cases op with
        | add w =>
          have hw : w ≠ "0" := by rintro rfl; exact hop rfl
          simp only [exec, IDSet.add_ok s hw]
          exact ih h0' _
        | remove w => exact ih h0' _

/-- Non-vacuity: a history with a live and a removed id. -/
example : Op.add "0" ∉ [Op.add "a", .add "b", .remove "a"] ∧
    liveSet [Op.add "a", .add "b", .remove "a"] = {"b"} := by decide

/-- **C02.** Union, Intersection and CopyNew are the set operations for every iteration order of every loop.
(The operands are values of the model: they are not changed.) -/
theorem set_operations (o1 o2 : Order String) (s t : IDSet)
    (hs : s.has "0" = false) (ht : t.has "0" = false) :
    (∃ r, s.union o1 o2 t = .ok r ∧ ∀ w, r.has w = true ↔ (s.has w = true ∨ t.has w = true)) ∧
    (∃ r, s.intersection o1 t = .ok r ∧ ∀ w, r.has w = true ↔ (s.has w = true ∧ t.has w = true)) ∧
    (∃ r, s.copyNew o1 = .ok r ∧ ∀ w, r.has w = true ↔ s.has w = true) := by
  obtain ⟨r1, h1, h1'⟩ := IDSet.union_spec o1 o2 s t hs ht
  obtain ⟨r2, h2, h2'⟩ := IDSet.intersection_spec o1 s t (Or.inl hs)
  obtain ⟨r3, h3, h3'⟩ := IDSet.copyNew_spec o1 s hs
  exact ⟨⟨r1, h1, fun w => by rw [h1']; simp⟩, ⟨r2, h2, fun w => by rw [h2']; simp⟩,
    ⟨r3, h3, fun w => by rw [h3']⟩⟩

/-- The set `{a, b}` built through the API. -/
def demo : IDSet := ⟨(AList.insert "b" () (AList.insert "a" () ∅))⟩

/-- Non-vacuity: concrete sets meet the hypotheses and the orders differ. -/
example : demo.has "0" = false ∧ demo.has "a" = true ∧ IDSet.new.has "0" = false ∧
    (Order.id.f ["a", "b"] ≠ Order.rev.f ["a", "b"]) := by decide

/-- IDSets obtainable from the API: the closure of all constructors and methods returning or updating an IDSet. -/
inductive Reach : IDSet → Prop
  | new : Reach IDSet.new
  | add {s r v} : Reach s → s.add v = .ok r → Reach r
  | remove {s} (v) : Reach s → Reach (s.remove v)
  | copy {s r} (o) : Reach s → s.copyNew o = .ok r → Reach r
  | union {s t r} (o1 o2) : Reach s → Reach t → s.union o1 o2 t = .ok r → Reach r
  | inter {s t r} (o) : Reach s → Reach t → s.intersection o t = .ok r → Reach r
  | ofCt {β : Type} (o) (m : GoMap String β) {r} : IDSet.ofCiphertext o m = .ok r → Reach r

/-- **C03.** Add("0") panics on every set, and no IDSet obtained from the API ever contains "0"; consequently
CopyNew, Union and Intersection of API-obtained sets never panic. -/
theorem zero_never_member :
    (∀ s : IDSet, ∃ m, s.add "0" = .error (.panic m)) ∧
    (∀ s, Reach s → s.has "0" = false) ∧
    (∀ s t o1 o2, Reach s → Reach t →
      (∃ r, s.copyNew o1 = .ok r) ∧ (∃ r, s.union o1 o2 t = .ok r) ∧ (∃ r, s.intersection o1 t = .ok r)) := by
  have key : ∀ s, Reach s → s.has "0" = false := by
    intro s hs
    induction hs with
    | new => simp
    | @add s r v _ h ih =>
      by_cases hv : v = "0"
      · subst hv; simp [IDSet.add] at h
      · rw [IDSet.add_ok s hv] at h
        cases h
        rw [IDSet.has_insert, ih]
        simp [Ne.symm hv]
    | remove v _ ih => rw [IDSet.has_remove, ih]; simp
    | copy o _ h ih =>
      obtain ⟨r', h1, h2⟩ := IDSet.copyNew_spec o _ ih
      rw [h1] at h; cases h; rw [h2, ih]
    | union o1 o2 _ _ h ih1 ih2 =>
      obtain ⟨r', h1, h2⟩ := IDSet.union_spec o1 o2 _ _ ih1 ih2
      rw [h1] at h; cases h; rw [h2, ih1, ih2]; rfl
    | inter o _ _ h ih1 ih2 =>
      obtain ⟨r', h1, h2⟩ := IDSet.intersection_spec o _ _ (Or.inl ih1)
      rw [h1] at h; cases h; rw [h2, ih1, ih2]; rfl
    | ofCt o m h =>
      obtain ⟨r', h1, h2⟩ := IDSet.ofCiphertext_spec o m
      rw [h1] at h; cases h
      have := h2 "0"
      simpa using this
  refine ⟨fun s => ⟨_, by simp [IDSet.add]; rfl⟩, key, ?_⟩
  intro s t o1 o2 hs ht
  obtain ⟨r1, h1, _⟩ := IDSet.union_spec o1 o2 s t (key s hs) (key t ht)
  obtain ⟨r2, h2, _⟩ := IDSet.intersection_spec o1 s t (Or.inl (key s hs))
  obtain ⟨r3, h3, _⟩ := IDSet.copyNew_spec o1 s (key s hs)
  exact ⟨⟨r3, h3⟩, ⟨r1, h1⟩, ⟨r2, h2⟩⟩

/-- Non-vacuity: a non-empty set is reachable. -/
example : Reach demo := by
  refine Reach.add (s := ⟨AList.insert "a" () ∅⟩) (v := "b") (Reach.add (s := IDSet.new) (v := "a") Reach.new ?_) ?_
  · rfl
  · rfl

end MKHE.C01
