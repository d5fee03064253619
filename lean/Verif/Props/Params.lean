import Verif.Model.Params

set_option autoImplicit false

/-!
# C10, C11: gadget dimensions and common reference strings
-/

namespace MKHE.C10

/-- **C10.** With `alpha ≥ 1` (and fewer than `2^53` primes): the floating-point `Beta(level)` is the exact ceiling
of `(level+1)/alpha`; every modulus index up to `level` lies in exactly one block `[i*alpha, (i+1)*alpha)` with
`i < Beta(level)`; every block `i < Beta(level)` holds at least one modulus; `Beta` is monotone. -/
theorem blocks_partition_moduli (fm : FloatModel) (d : Dims) (ha : 1 ≤ d.alpha) (hp : d.pCount < 2 ^ 53)
    (level : ℕ) (hl : level + 1 < 2 ^ 53) :
    (d.beta fm level = (level + 1 + d.alpha - 1) / d.alpha) ∧
    (∀ j ≤ level, ∃! i, i < d.beta fm level ∧ i * d.alpha ≤ j ∧ j < i * d.alpha + d.alpha) ∧
    (∀ i < d.beta fm level, i * d.alpha ≤ level) ∧
    (∀ level' ≤ level, d.beta fm level' ≤ d.beta fm level) := by
  have hab : d.alpha ≤ 2 ^ 53 := le_trans (Nat.div_le_self _ _) hp.le
  have key : ∀ l, l + 1 < 2 ^ 53 → d.beta fm l = (l + 1 + d.alpha - 1) / d.alpha := fun l h =>
    fm.ceil_div_exact (l + 1) d.alpha h ha hab
  have key2 : ∀ l, (l + 1 + d.alpha - 1) / d.alpha = l / d.alpha + 1 := by
    intro l
    rw [show l + 1 + d.alpha - 1 = l + d.alpha from by omega, Nat.add_div_right _ ha]
  refine ⟨key level hl, ?_, ?_, ?_⟩
  · intro j hj
    rw [key level hl, key2]
    have hdm := Nat.div_add_mod j d.alpha
    have hml := Nat.mod_lt j ha
    rw [Nat.mul_comm] at hdm
    refine ⟨j / d.alpha, ⟨?_, by omega, by omega⟩, ?_⟩
    · exact Nat.lt_succ_of_le (Nat.div_le_div_right hj)
    · rintro i ⟨_, h1, h2⟩
      exact (Nat.div_eq_of_lt_le h1 (by rw [Nat.succ_mul]; exact h2)).symm
  · intro i hi
    rw [key level hl, key2] at hi
    calc i * d.alpha ≤ level / d.alpha * d.alpha := Nat.mul_le_mul_right _ (by omega)
      _ ≤ level := Nat.div_mul_le_self _ _
  · intro l' hl'
    rw [key level hl, key l' (by omega), key2, key2]
    have := Nat.div_le_div_right (c := d.alpha) hl'
    omega

/-- Non-vacuity of C10: 5 primes Q, 4 primes P, gamma 2, so alpha 2 and Beta(4) = 3 with a short last block. -/
example (fm : FloatModel) : (⟨5, 4, 2, 4⟩ : Dims).alpha = 2 ∧ (⟨5, 4, 2, 4⟩ : Dims).beta fm 4 = 3 := by
  have ha : (⟨5, 4, 2, 4⟩ : Dims).alpha = 2 := by decide
  refine ⟨ha, ?_⟩
  have := (blocks_partition_moduli fm ⟨5, 4, 2, 4⟩ (by decide) (by decide) 4 (by decide)).1
  rw [this, ha]

section
variable {C : Type*} (rand : ℕ → C) (mform : C → C)

theorem lookup_genCrs (n : ℕ) (s : CrsState C) (idx k : ℤ) :
    (genCrs rand mform n s idx).crs.lookup k =
      if k = idx then some ((List.range n).map fun i => mform (rand (s.used + i))) else s.crs.lookup k :=
  GoMap.lookup_insert' _ _ _ _

theorem foldl_genCrs (n : ℕ) (l : List ℤ) (hl : l.Nodup) (s : CrsState C) (k : ℤ) :
    ((l.foldl (genCrs rand mform n) s).crs.lookup k =
      if k ∈ l then some ((List.range n).map fun i => mform (rand (s.used + l.idxOf k * n + i)))
      else s.crs.lookup k) := by
  induction l generalizing s with
  | nil => simp
  | cons a l ih =>
    rw [List.foldl_cons, ih hl.of_cons]
    have hu : (genCrs rand mform n s a).used = s.used + n := rfl
    have ha : a ∉ l := (List.nodup_cons.mp hl).1
    by_cases hk : k ∈ l
    · have hne : a ≠ k := fun h => ha (h ▸ hk)
      simp only [hk, if_true, List.mem_cons, or_true, hu]
      rw [List.idxOf_cons_ne _ hne, Nat.succ_mul]
      congr 2; funext i; congr 2; omega
    · simp only [hk, if_false, List.mem_cons, or_false]
      rw [lookup_genCrs]
      by_cases h : k = a
      · subst h; simp [List.idxOf_cons_self]
      · simp [h]

theorem crsIdxs_nodup (logN : ℕ) : (crsIdxs logN).Nodup := by
  unfold crsIdxs
  rw [List.nodup_append]
  refine ⟨by decide, ?_, ?_⟩
  · refine (List.nodup_range).map ?_
    intro a b h
    have h' : (2 : ℤ) ^ a = 2 ^ b := h
    exact Nat.pow_right_injective (le_refl 2) (by exact_mod_cast h')
  · intro a ha b hb hab
    simp only [List.mem_map, List.mem_range] at hb
    obtain ⟨i, _, rfl⟩ := hb
    have hpos : (0 : ℤ) < 2 ^ i := by positivity
    subst hab
    simp only [List.mem_cons, List.not_mem_nil, or_false] at ha
    omega

/-- **C11.** After `NewParameters` the CRS indices are exactly 0, -1, -2, -3, -4 and the powers of two below `N/2`;
the CRS at the `n`-th of these indices consists of `Beta(MaxLevel)` components, in Montgomery form, taken from the
uniform stream at positions used by no other index. `AddCRS(idx)` stores a key with `Beta(MaxLevel)` fresh
components under `idx`, replacing what was there, and changes no other index. -/
theorem crs_indices (fm : FloatModel) (d : Dims) (hq : 1 ≤ d.qCount) (hN : 1 ≤ d.logN) :
    (∀ k, k ∈ (newCrs rand mform fm d).crs ↔
        (k = 0 ∨ k = -1 ∨ k = -2 ∨ k = -3 ∨ k = -4 ∨ ∃ i : ℕ, k = 2 ^ i ∧ k < (d.N : ℤ) / 2)) ∧
    (∃ pos : ℤ → ℕ, (∀ k ∈ (newCrs rand mform fm d).crs, ∀ k' ∈ (newCrs rand mform fm d).crs,
        pos k = pos k' → k = k') ∧
      ∀ k ∈ (newCrs rand mform fm d).crs, (newCrs rand mform fm d).crs.lookup k =
        some ((List.range (d.beta fm d.maxLevel)).map fun i =>
          mform (rand (pos k * d.beta fm d.maxLevel + i)))) ∧
    (∀ (s : CrsState C) idx,
      (addCrs rand mform fm d s idx).crs.lookup idx =
        some ((List.range (d.beta fm d.maxLevel)).map fun i => mform (rand (s.used + i))) ∧
      (addCrs rand mform fm d s idx).used = s.used + d.beta fm d.maxLevel ∧
      ∀ k ≠ idx, (addCrs rand mform fm d s idx).crs.lookup k = s.crs.lookup k) := by
  have hb : FloatModel.ceilInt (fm.div (fm.ofNat d.qCount) (fm.ofNat (d.pCount / d.gamma))) =
      d.beta fm d.maxLevel := by
    unfold Dims.beta Dims.maxLevel Dims.alpha
    rw [Nat.sub_add_cancel hq]
  have hmem : ∀ k, k ∈ (newCrs rand mform fm d).crs ↔ k ∈ crsIdxs d.logN := by
    intro k
    rw [GoMap.mem_iff_lookup, newCrs, foldl_genCrs _ _ _ _ (crsIdxs_nodup _)]
    by_cases h : k ∈ crsIdxs d.logN <;> simp [h]
  refine ⟨?_, ?_, ?_⟩
  · intro k
    rw [hmem]
    unfold crsIdxs
    simp only [List.mem_append, List.mem_cons, List.not_mem_nil, or_false, List.mem_map, List.mem_range]
    have hhalf : (d.N : ℤ) / 2 = 2 ^ (d.logN - 1) := by
      obtain ⟨m, hm⟩ : ∃ m, d.logN = m + 1 := ⟨d.logN - 1, by omega⟩
      unfold Dims.N
      rw [hm, pow_succ]; push_cast; simp
    have hpow : (∃ a, a < d.logN - 1 ∧ (2 : ℤ) ^ a = k) ↔ ∃ i : ℕ, k = 2 ^ i ∧ k < (d.N : ℤ) / 2 := by
      rw [hhalf]
      constructor
      · rintro ⟨a, ha, rfl⟩
        exact ⟨a, rfl, pow_lt_pow_right₀ (by norm_num) ha⟩
      · rintro ⟨i, rfl, hi⟩
        exact ⟨i, (pow_lt_pow_iff_right₀ (by norm_num)).mp hi, rfl⟩
    rw [hpow]; tauto
  · refine ⟨fun k => (crsIdxs d.logN).idxOf k, ?_, ?_⟩
    · intro k hk k' hk' h
      rw [hmem] at hk hk'
      exact (List.idxOf_inj hk).mp h
    · intro k hk
      rw [hmem] at hk
      rw [newCrs, foldl_genCrs _ _ _ _ (crsIdxs_nodup _), if_pos hk, hb]
      simp
  · intro s idx
    refine ⟨?_, rfl, ?_⟩
    · unfold addCrs; rw [lookup_genCrs, if_pos rfl]
    · intro k hk
      unfold addCrs; rw [lookup_genCrs, if_neg hk]

end

/-- Non-vacuity of C11: on logN = 4 the index 4 has a CRS and 8 has none. -/
example : (4 : ℤ) ∈ crsIdxs 4 ∧ (8 : ℤ) ∉ crsIdxs 4 := by decide

end MKHE.C10
