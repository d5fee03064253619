import Verif.Lemmas.Noise

set_option autoImplicit false

/-!
# Specification vocabulary: decryption phase of a ciphertext, key equations

Small definitions used in the statements of the homomorphic properties. None of them mentions how the program computes.
-/

namespace MKHE
open Finset Nega

variable {N : ℕ} [NeZero N] {C : Ctx N}

/-- the rows of component `id` in the coefficient domain (zero if the ciphertext has no such component) -/
def Ct.comp (ct : Ct C) (id : String) : QRows C :=
  match ct.lookup id with
  | some p => p.coeffs
  | none => fun _ => Limb.zero

/-- the parties of a ciphertext -/
def Ct.ids (ct : Ct C) : Finset String := ct.keys.toFinset.erase "0"

/-- the decryption phase `c_0 + Σ_id c_id * s_id` modulo the `i`-th prime -/
noncomputable def Ct.phase (s : String → Nega N ℤ) (ct : Ct C) (i : ℕ) : Nega N (ZMod (C.q i)) :=
  cf (ct.comp "0" i) + ∑ id ∈ ct.ids, cf (ct.comp id i) * red (C.q i) (s id)

/-- a coefficient-domain ciphertext whose components all have at least the rows `0..level` -/
structure Ct.Coeff (level : ℕ) (ct : Ct C) : Prop where
  has0 : "0" ∈ ct
  len : ∀ id p, ct.lookup id = some p → level < p.len
  coeff : ∀ id p, ct.lookup id = some p → p.isNTT = false

/-- a coefficient-domain ciphertext at exactly this level -/
structure Ct.AtLevel (level : ℕ) (ct : Ct C) : Prop where
  has0 : "0" ∈ ct
  len : ∀ id p, ct.lookup id = some p → p.len = level + 1
  coeff : ∀ id p, ct.lookup id = some p → p.isNTT = false

/-- the relinearization key equations of a party with secrets `s` and `r`, for the first `n` blocks:
`b = -s a + e`, `d = -r a + P g s + e'`, `v = -s u - P g r + e''` -/
structure Rlk.Rel (n : ℕ) (key : Rlk C) (s r : Nega N ℤ) (a u : ℕ → PolyQP C) (Be : ℤ) : Prop where
  lenb : n ≤ key.b.len
  lend : n ≤ key.d.len
  lenv : n ≤ key.v.len
  b : KeyRel C n s a 0 Be key.b.val
  d : KeyRel C n r a s Be key.d.val
  v : KeyRel C n s u (-r) Be key.v.val

/-- the switching-key sized scratch vectors have been allocated with enough components (`NewKeySwitcher`,
keyswitch.go:33-47, allocates `Beta(MaxLevel)`) -/
structure Scratch.Alloc (n : ℕ) (S : Scratch C) : Prop where
  swk1 : n ≤ S.swk1.len
  swk2 : n ≤ S.swk2.len
  swk3 : n ≤ S.swk3.len

/-- `h` is a hoisted form of `ct` computed at `level'`: for every party the digits of its component -/
def IsHoisted (level' : ℕ) (ct : Ct C) (h : HoistedCt C) : Prop :=
  ∀ id ∈ ct.ids, ∃ s, h.lookup id = some s ∧ C.beta level' ≤ s.len ∧
    ∀ k < C.beta level', (s.val k).Agree level' (digG level' k (ct.comp id))

theorem Ct.mem_ids {ct : Ct C} {id : String} : id ∈ ct.ids ↔ id ∈ ct ∧ id ≠ "0" := by
  unfold Ct.ids; rw [mem_erase, List.mem_toFinset, AList.mem_keys]; tauto

theorem Ct.comp_eq {ct : Ct C} {id : String} {p : Poly C} (h : ct.lookup id = some p) : ct.comp id = p.coeffs := by
  unfold Ct.comp; rw [h]

theorem Poly.coeffs_eq {p : Poly C} (h : p.isNTT = false) : p.coeffs = p.rows := by
  unfold Poly.coeffs; simp [h]

theorem Ct.get {ct : Ct C} {id : String} (h : id ∈ ct) : ∃ p, ct.lookup id = some p :=
  Option.isSome_iff_exists.mp (AList.lookup_isSome.mpr h)

theorem Ct.mem_of_lookup {ct : Ct C} {id : String} {p : Poly C} (h : ct.lookup id = some p) : id ∈ ct :=
  AList.lookup_isSome.mp (by rw [h]; rfl)

theorem Ct.AtLevel.toCoeff {level : ℕ} {ct : Ct C} (h : ct.AtLevel level) : ct.Coeff level :=
  ⟨h.has0, fun id p hp => by rw [h.len id p hp]; omega, h.coeff⟩

theorem Ct.Coeff.mono {level level' : ℕ} {ct : Ct C} (h : ct.Coeff level) (hl : level' ≤ level) : ct.Coeff level' :=
  ⟨h.has0, fun id p hp => lt_of_le_of_lt hl (h.len id p hp), h.coeff⟩

theorem Ct.Coeff.comp {level : ℕ} {ct : Ct C} (h : ct.Coeff level) {id : String} {p : Poly C}
    (hp : ct.lookup id = some p) : ct.comp id = p.rows := by
  rw [Ct.comp_eq hp, Poly.coeffs_eq (h.coeff id p hp)]

theorem phase_eq_rows (s : String → Nega N ℤ) (ct : Ct C) (i : ℕ) : ct.phase s i = phaseRows ct.ids s ct.comp i := rfl

theorem phaseRows_congr {ids : Finset String} {s : String → Nega N ℤ} {a b : String → QRows C} {i : ℕ}
    (h : ∀ id, id ∈ ids ∨ id = "0" → a id i = b id i) : phaseRows ids s a i = phaseRows ids s b i := by
  unfold phaseRows
  rw [h "0" (.inr rfl)]
  congr 1
  exact sum_congr rfl fun id hid => by rw [h id (.inl hid)]

end MKHE
