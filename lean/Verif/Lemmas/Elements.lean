import Verif.Model.Ckks
import Verif.Props.Rotate

set_option autoImplicit false

/-!
# Ciphertext containers: allocation, copies, padding
-/

namespace MKHE
open Finset Nega

variable {N : ℕ} [NeZero N] {C : Ctx N}

/-- two maps with the same entries -/
def Ct.Same (a b : Ct C) : Prop := ∀ id, a.lookup id = b.lookup id

theorem Ct.Same.symm {a b : Ct C} (h : a.Same b) : b.Same a := fun id => (h id).symm
theorem Ct.Same.refl (a : Ct C) : a.Same a := fun _ => rfl
theorem Ct.Same.trans {a b c : Ct C} (h : a.Same b) (h' : b.Same c) : a.Same c := fun id => (h id).trans (h' id)

theorem Ct.Same.mem {a b : Ct C} (h : a.Same b) {id : String} : id ∈ a ↔ id ∈ b := by
  rw [← AList.lookup_isSome, ← AList.lookup_isSome, h id]

theorem Ct.Same.ids {a b : Ct C} (h : a.Same b) : a.ids = b.ids := by
  ext id; rw [Ct.mem_ids, Ct.mem_ids, h.mem]

theorem Ct.Same.comp {a b : Ct C} (h : a.Same b) : a.comp = b.comp := by
  funext id; unfold Ct.comp; rw [h id]

theorem Ct.Same.phase {a b : Ct C} (h : a.Same b) (s : String → Nega N ℤ) (i : ℕ) : a.phase s i = b.phase s i := by
  unfold Ct.phase; rw [h.ids, h.comp]

theorem Ct.Same.atLevel {a b : Ct C} (h : a.Same b) {level : ℕ} (ha : a.AtLevel level) : b.AtLevel level :=
  ⟨h.mem.mp ha.has0, fun id p hp => ha.len id p ((h id).trans hp), fun id p hp => ha.coeff id p ((h id).trans hp)⟩

theorem Ct.Same.coeff {a b : Ct C} (h : a.Same b) {level : ℕ} (ha : a.Coeff level) : b.Coeff level :=
  ⟨h.mem.mp ha.has0, fun id p hp => ha.len id p ((h id).trans hp), fun id p hp => ha.coeff id p ((h id).trans hp)⟩

theorem Ct.AtLevel.level {ct : Ct C} {level : ℕ} (h : ct.AtLevel level) : ct.level = .ok level := by
  obtain ⟨p, hp⟩ := Ct.get h.has0
  unfold Ct.level
  rw [GoMap.deref_ok hp, bind_ok, h.len _ _ hp]; rfl

theorem Ct.new_lookup (o : Order String) (ids : IDSet) (level : ℕ) (id : String) :
    (Ct.new o ids level : Ct C).lookup id = if id = "0" ∨ ids.has id = true then some (Poly.new level) else none := by
  unfold Ct.new
  have h := foldl_inv (fun (ct : Ct C) id => ct.insert id (Poly.new level))
    (fun pre ct => ∀ id, ct.lookup id = if id = "0" ∨ id ∈ pre then some (Poly.new level) else none)
    (GoMap.range o ids.value) (AList.insert "0" (Poly.new level) ∅)
    (by intro id; rw [GoMap.lookup_insert']; simp) (by
      intro pre a suf ct _ hI id
      rw [GoMap.lookup_insert', hI id]
      by_cases e : id = a
      · subst e; simp
      · simp [e])
  rw [h id]
  simp only [GoMap.mem_range, IDSet.mem_value_iff]

theorem Ct.new_atLevel (o : Order String) (ids : IDSet) (level : ℕ) : (Ct.new o ids level : Ct C).AtLevel level := by
  refine ⟨AList.lookup_isSome.mp (by rw [Ct.new_lookup]; simp), fun id p h => ?_, fun id p h => ?_⟩ <;>
  · rw [Ct.new_lookup] at h
    split_ifs at h; injection h with h; subst h; rfl

theorem Ct.new_ids (o : Order String) {ids : IDSet} {s : Finset String} (h : ∀ id, ids.has id = true ↔ id ∈ s) (h0 : "0" ∉ s)
    (level : ℕ) : (Ct.new o ids level : Ct C).ids = s := by
  ext id
  rw [Ct.mem_ids, ← AList.lookup_isSome, Ct.new_lookup]
  have hid := h id
  by_cases hz : id = "0"
  · subst hz; simp [h0]
  · by_cases hs : id ∈ s <;> simp [hz, hs, hid]

theorem Ct.zero_notMem_ids (ct : Ct C) : "0" ∉ ct.ids := fun h => (Ct.mem_ids.mp h).2 rfl

/-- the id set of a ciphertext, as computed by the program -/
theorem Ct.idset (o : Order String) (ct : Ct C) : ∃ ids, IDSet.ofCiphertext o ct = .ok ids ∧ ∀ id, ids.has id = true ↔ id ∈ ct.ids := by
  obtain ⟨ids, a1, a2⟩ := IDSet.ofCiphertext_spec o ct
  exact ⟨ids, a1, fun id => by rw [a2, Ct.mem_ids]⟩

theorem Ct.copyNew_ok (o : Order String) {ct : Ct C} (h0 : "0" ∈ ct) : ∃ ct', ct.copyNew o = .ok ct' ∧ ct'.Same ct := by
  obtain ⟨p0, hp0⟩ := Ct.get h0
  unfold Ct.copyNew
  rw [GoMap.deref_ok hp0, bind_ok]
  obtain ⟨ct', e1, e2⟩ := Go.loop_inv (fun (out : Ct C) id => do
    let p ← ct.deref id
    (.ok (out.insert id p) : Go (Ct C)))
    (fun pre out => ∀ id, out.lookup id = if id = "0" ∨ id ∈ pre then ct.lookup id else none)
    (GoMap.range o ct) (AList.insert "0" p0 ∅) (by
      intro id; rw [GoMap.lookup_insert']
      by_cases e : id = "0"
      · subst e; simp [hp0]
      · simp [e]) (by
      intro pre a suf out hl hI
      have ha : a ∈ ct := by rw [← GoMap.mem_range (o := o), hl]; simp
      obtain ⟨p, hp⟩ := Ct.get ha
      refine ⟨_, by rw [GoMap.deref_ok hp, bind_ok], fun id => ?_⟩
      rw [GoMap.lookup_insert', hI id]
      by_cases e : id = a
      · subst e; simp [hp]
      · simp [e])
  refine ⟨ct', e1, fun id => ?_⟩
  rw [e2 id]
  split_ifs with h
  · rfl
  · push Not at h
    have : id ∉ ct := fun hm => h.2 (GoMap.mem_range.mpr hm)
    rw [← AList.lookup_eq_none] at this
    exact this.symm

theorem Ct.copyFrom_ok (o : Order String) {dst src : Ct C} (h : ∀ id ∈ src, id ∈ dst) :
    ∃ ct', dst.copyFrom o src = .ok ct' ∧ ∀ id, ct'.lookup id = match dst.lookup id, src.lookup id with
      | some p, some q => some (p.copy q)
      | x, _ => x := by
  unfold Ct.copyFrom
  obtain ⟨ct', e1, e2⟩ := Go.loop_inv (fun (dst : Ct C) id => do
    let p ← dst.deref id
    let q ← src.deref id
    (.ok (dst.insert id (p.copy q)) : Go (Ct C)))
    (fun pre ct => ∀ id, ct.lookup id = if id ∈ pre then (match dst.lookup id, src.lookup id with
      | some p, some q => some (p.copy q)
      | x, _ => x) else dst.lookup id)
    (GoMap.range o src) dst (by simp) (by
      intro pre a suf ct hl hI
      have ha : a ∈ src := by rw [← GoMap.mem_range (o := o), hl]; simp
      have hpre : a ∉ pre := nodup_split (GoMap.nodup_range _ _) hl
      obtain ⟨q, hq⟩ := Ct.get ha
      obtain ⟨p, hp⟩ := Ct.get (h a ha)
      have h1 := hI a
      rw [if_neg hpre, hp] at h1
      refine ⟨_, by rw [GoMap.deref_ok h1, bind_ok, GoMap.deref_ok hq, bind_ok], fun id => ?_⟩
      rw [GoMap.lookup_insert', hI id]
      by_cases e : id = a
      · subst e; simp [hp, hq]
      · simp [e])
  refine ⟨ct', e1, fun id => ?_⟩
  rw [e2 id]
  split_ifs with hm
  · rfl
  · have : id ∉ src := fun h' => hm (GoMap.mem_range.mpr h')
    rw [← AList.lookup_eq_none] at this
    rw [this]
    cases dst.lookup id <;> rfl

/-- copying between two ciphertexts of the same level and parties: the components are those of the source -/
theorem Ct.copyFrom_same (o : Order String) {dst src : Ct C} {level : ℕ} (hd : dst.AtLevel level) (hs : src.AtLevel level)
    (hids : dst.ids = src.ids) : ∃ ct', dst.copyFrom o src = .ok ct' ∧ ct'.AtLevel level ∧ ct'.ids = src.ids ∧
      (∀ id ∈ src, ∀ i ≤ level, ct'.comp id i = src.comp id i) ∧
      ∀ id, ct'.lookup id = match dst.lookup id, src.lookup id with
        | some p, some q => some (p.copy q)
        | x, _ => x := by
  have hmem : ∀ id, id ∈ src ↔ id ∈ dst := by
    intro id
    by_cases hz : id = "0"
    · subst hz; exact ⟨fun _ => hd.has0, fun _ => hs.has0⟩
    · have h1 : id ∈ dst.ids ↔ id ∈ src.ids := by rw [hids]
      rw [Ct.mem_ids, Ct.mem_ids] at h1; tauto
  obtain ⟨ct', e1, e2⟩ := Ct.copyFrom_ok o (fun id hid => (hmem id).mp hid)
  have hlk : ∀ id p, dst.lookup id = some p → ∃ q, src.lookup id = some q ∧ ct'.lookup id = some (p.copy q) := by
    intro id p hp
    obtain ⟨q, hq⟩ := Ct.get ((hmem id).mpr (Ct.mem_of_lookup hp))
    exact ⟨q, hq, by rw [e2 id, hp, hq]⟩
  have hmem' : ∀ id, id ∈ ct' ↔ id ∈ dst := by
    intro id
    rw [← AList.lookup_isSome, ← AList.lookup_isSome, e2 id]
    cases h1 : dst.lookup id <;> cases h2 : src.lookup id <;> simp
  have inv : ∀ id p', ct'.lookup id = some p' → ∃ p q, dst.lookup id = some p ∧ src.lookup id = some q ∧ p' = p.copy q := by
    intro id p' hp'
    obtain ⟨p, hp⟩ := Ct.get ((hmem' id).mp (Ct.mem_of_lookup hp'))
    obtain ⟨q, hq, e⟩ := hlk id p hp
    rw [e] at hp'
    exact ⟨p, q, hp, hq, (Option.some.inj hp').symm⟩
  refine ⟨ct', e1, ⟨(hmem' _).mpr hd.has0, fun id p' hp' => ?_, fun id p' hp' => ?_⟩, ?_, fun id hid i hi => ?_, e2⟩
  · obtain ⟨p, q, h1, h2, rfl⟩ := inv id p' hp'; exact hd.len id p h1
  · obtain ⟨p, q, h1, h2, rfl⟩ := inv id p' hp'; exact hs.coeff id q h2
  · ext id; rw [Ct.mem_ids, Ct.mem_ids, hmem', hmem]
  · obtain ⟨p, hp⟩ := Ct.get ((hmem id).mp hid)
    obtain ⟨q, hq, e⟩ := hlk id p hp
    rw [Ct.comp_eq e, Ct.comp_eq hq, Poly.coeffs_eq (by exact hs.coeff id q hq), Poly.coeffs_eq (hs.coeff id q hq)]
    show (if i < min p.len q.len then q.rows i else p.rows i) = _
    rw [if_pos (by rw [hd.len id p hp, hs.len id q hq]; omega)]

/-- equal components give equal phases -/
theorem Ct.phase_congr {a b : Ct C} {s : String → Nega N ℤ} {i : ℕ} (hids : a.ids = b.ids)
    (h : ∀ id, id ∈ b.ids ∨ id = "0" → a.comp id i = b.comp id i) : a.phase s i = b.phase s i := by
  rw [phase_eq_rows, phase_eq_rows, hids]
  exact phaseRows_congr h

end MKHE
