import Verif.Lemmas.AddSub
import Verif.Props.Rotate

set_option autoImplicit false

/-!
# Freshly allocated results
-/

namespace MKHE
open Finset Nega

variable {N : ℕ} [NeZero N] {C : Ctx N}

/-- the entries of a ciphertext that was allocated by `NewCiphertext` and then written: determined by its rows up to the level -/
def Ct.Made (level : ℕ) (s : Finset String) (R : String → QRows C) (ct : Ct C) : Prop :=
  ∀ id, ct.lookup id = if id = "0" ∨ id ∈ s then some ((Poly.new level).set level (R id)) else none

theorem Ct.Made.of_upd {level : ℕ} {s : Finset String} {R : String → QRows C} {out out' : Ct C}
    (hout : ∀ id, out.lookup id = if id = "0" ∨ id ∈ s then some (Poly.new level) else none) (h : Ct.Upd level out R out') :
    Ct.Made level s R out' := by
  intro id
  rw [h id, hout id]
  split_ifs <;> rfl

theorem Ct.Made.atLevel {level : ℕ} {s : Finset String} {R : String → QRows C} {ct : Ct C} (h : Ct.Made level s R ct) :
    ct.AtLevel level := by
  refine ⟨AList.lookup_isSome.mp (by rw [h]; simp), fun id p hp => ?_, fun id p hp => ?_⟩ <;>
  · rw [h] at hp
    split_ifs at hp; injection hp with hp; subst hp; rfl

theorem Ct.Made.ids {level : ℕ} {s : Finset String} {R : String → QRows C} {ct : Ct C} (h : Ct.Made level s R ct) (h0 : "0" ∉ s) :
    ct.ids = s := by
  ext id
  rw [Ct.mem_ids, ← AList.lookup_isSome, h]
  by_cases hz : id = "0"
  · subst hz; simp [h0]
  · by_cases hs : id ∈ s <;> simp [hz, hs]

theorem Ct.Made.comp {level : ℕ} {s : Finset String} {R : String → QRows C} {ct : Ct C} (h : Ct.Made level s R ct) {id : String}
    (hid : id = "0" ∨ id ∈ s) {i : ℕ} (hi : i ≤ level) : ct.comp id i = R id i := by
  have hl := h id
  rw [if_pos hid] at hl
  rw [Ct.comp_eq hl, Poly.coeffs_eq (h.atLevel.coeff _ _ hl)]
  exact setQ_le _ _ hi

theorem Ct.Made.phase {level : ℕ} {s : Finset String} {R : String → QRows C} {ct : Ct C} (h : Ct.Made level s R ct) (h0 : "0" ∉ s)
    (sk : String → Nega N ℤ) {i : ℕ} (hi : i ≤ level) : ct.phase sk i = phaseRows s sk R i := by
  rw [phase_eq_rows, h.ids h0]
  exact phaseRows_congr fun id hid => h.comp (hid.symm.imp (fun x => x) fun x => x) hi

theorem Ct.Made.same {level : ℕ} {s : Finset String} {R R' : String → QRows C} {ct ct' : Ct C} (h : Ct.Made level s R ct)
    (h' : Ct.Made level s R' ct') (hR : ∀ id, id = "0" ∨ id ∈ s → ∀ i ≤ level, R id i = R' id i) : ct.Same ct' := by
  intro id
  rw [h, h']
  split_ifs with hid
  · rw [Poly.set_congr (hR id hid)]
  · rfl

theorem Ct.Made.upd {level : ℕ} {s : Finset String} {R R' : String → QRows C} {ct ct' : Ct C} (h : Ct.Made level s R ct)
    (h' : Ct.Upd level ct R' ct') : Ct.Made level s R' ct' := by
  intro id
  rw [h' id, h id]
  split_ifs
  · simp [Poly.set_set]
  · rfl

/-- the allocation of a result for two operands -/
theorem idset_union (o1 o2 o3 o4 : Order String) (a b : Ct C) : ∃ i0 i1 u, IDSet.ofCiphertext o1 a = .ok i0 ∧
    IDSet.ofCiphertext o2 b = .ok i1 ∧ IDSet.union o3 o4 i0 i1 = .ok u ∧ (∀ id, i0.has id = true ↔ id ∈ a.ids) ∧
    (∀ id, i1.has id = true ↔ id ∈ b.ids) ∧ ∀ id, u.has id = true ↔ id ∈ a.ids ∪ b.ids := by
  obtain ⟨i0, a1, a2⟩ := Ct.idset o1 a
  obtain ⟨i1, b1, b2⟩ := Ct.idset o2 b
  have z : ∀ (ct : Ct C) (i : IDSet), (∀ id, i.has id = true ↔ id ∈ ct.ids) → i.has "0" = false := by
    intro ct i h
    rw [← Bool.not_eq_true, h]; exact ct.zero_notMem_ids
  obtain ⟨u, c1, c2⟩ := IDSet.union_spec o3 o4 i0 i1 (z _ _ a2) (z _ _ b2)
  refine ⟨i0, i1, u, a1, b1, c1, a2, b2, fun id => ?_⟩
  rw [c2, Bool.or_eq_true, a2, b2, mem_union]

theorem Ct.new_is (o : Order String) {ids : IDSet} {s : Finset String} (h : ∀ id, ids.has id = true ↔ id ∈ s) (level : ℕ) (id : String) :
    (Ct.new o ids level : Ct C).lookup id = if id = "0" ∨ id ∈ s then some (Poly.new level) else none := by
  rw [Ct.new_lookup]; simp only [h]

end MKHE
