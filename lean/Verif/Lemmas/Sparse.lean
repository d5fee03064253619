import Verif.Lemmas.Slots

set_option autoImplicit false

/-!
# Sparse packing: the slots of a polynomial in `X^g`

With `2^logSlots = n` slots and `N = 2 n g`, the encoder makes polynomials in `X^g` and the decoder only reads the coefficients of the powers of `X^g`.
-/

namespace MKHE
open Finset Nega

variable {N : ℕ} [NeZero N]

/-- the coefficients at the multiples of `g` -/
noncomputable def every (g : ℕ) (v : Nega N ℝ) : Nega N ℝ := fun x => if g ∣ (x : ℕ) then v x else 0

theorem every_apply (g : ℕ) (v : Nega N ℝ) (x : Fin N) : every g v x = if g ∣ (x : ℕ) then v x else 0 := rfl

/-- `5^n = 1` modulo `4n`, `n` a power of two -/
theorem five_pow_slots {l : ℕ} (k : ℕ) : 5 ^ (2 ^ l * k) % (4 * 2 ^ l) = 1 := by
  have h : 5 ^ (2 ^ (l + 1) / 2) % (2 * 2 ^ (l + 1)) = 1 := five_pow_half (by omega)
  have e1 : 2 ^ (l + 1) / 2 = 2 ^ l := by rw [pow_succ]; omega
  have e2 : 2 * 2 ^ (l + 1) = 4 * 2 ^ l := by rw [pow_succ]; ring
  rw [e1, e2] at h
  have h1 : 1 < 4 * 2 ^ l := by have := Nat.one_le_two_pow (n := l); omega
  rw [pow_mul, Nat.pow_mod, h, one_pow, Nat.mod_eq_of_lt h1]

/-- the powers `5^(n k)`, `k < g`, are the numbers `1 + 4 n b`, `b < g`, modulo `2N = 4 n g` -/
theorem five_pow_image {l m : ℕ} (hN : N = 2 * 2 ^ l * 2 ^ m) :
    (range (2 ^ m)).image (fun k => 5 ^ (2 ^ l * k) % (2 * N)) = (range (2 ^ m)).image (fun b => 1 + 4 * 2 ^ l * b) := by
  have hl := Nat.one_le_two_pow (n := l)
  have hN2 : 2 * N = 4 * 2 ^ l * 2 ^ m := by rw [hN]; ring
  have hNp : N = 2 ^ (l + m + 1) := by rw [hN]; ring
  have hh : N / 2 = 2 ^ l * 2 ^ m := by
    rw [hN, show 2 * 2 ^ l * 2 ^ m = 2 * (2 ^ l * 2 ^ m) by ring]; omega
  refine Finset.eq_of_subset_of_card_le ?_ ?_
  · intro y hy
    obtain ⟨k, hk, rfl⟩ := mem_image.mp hy
    have h4 : 5 ^ (2 ^ l * k) % (2 * N) % (4 * 2 ^ l) = 1 := by
      rw [Nat.mod_mod_of_dvd _ ⟨2 ^ m, hN2⟩]; exact five_pow_slots k
    have hlt : 5 ^ (2 ^ l * k) % (2 * N) < 4 * 2 ^ l * 2 ^ m := by
      rw [← hN2]; exact Nat.mod_lt _ (by have := NeZero.ne N; omega)
    have hd := Nat.div_add_mod (5 ^ (2 ^ l * k) % (2 * N)) (4 * 2 ^ l)
    refine mem_image.mpr ⟨5 ^ (2 ^ l * k) % (2 * N) / (4 * 2 ^ l), mem_range.mpr ?_, by omega⟩
    exact Nat.div_lt_of_lt_mul hlt
  · rw [Finset.card_image_of_injOn, Finset.card_image_of_injOn]
    · intro a ha b hb hab
      rw [mem_coe, mem_range] at ha hb
      have := five_pow_inj hNp (by omega) (j := 2 ^ l * a) (k := 2 ^ l * b)
        (by rw [hh]; exact Nat.mul_lt_mul_of_pos_left ha (by omega)) (by rw [hh]; exact Nat.mul_lt_mul_of_pos_left hb (by omega)) hab
      exact Nat.eq_of_mul_eq_mul_left (by omega) this
    · intro a _ b _ hab
      have : 4 * 2 ^ l * a = 4 * 2 ^ l * b := by simpa using hab
      exact Nat.eq_of_mul_eq_mul_left (by omega) this

/-- the sum over the conjugates of a power of a root of unity -/
theorem sum_conjugates {l m : ℕ} (hN : N = 2 * 2 ^ l * 2 ^ m) {ω : ℂ} (hω : IsPrimitiveRoot ω (2 * N)) (x : ℕ) :
    ∑ k ∈ range (2 ^ m), (ω ^ 5 ^ (2 ^ l * k)) ^ x = if 2 ^ m ∣ x then (2 ^ m : ℂ) * ω ^ x else 0 := by
  have hN2 : 2 * N = 4 * 2 ^ l * 2 ^ m := by rw [hN]; ring
  have hNp : N = 2 ^ (l + m + 1) := by rw [hN]; ring
  have hh : N / 2 = 2 ^ l * 2 ^ m := by
    rw [hN, show 2 * 2 ^ l * 2 ^ m = 2 * (2 ^ l * 2 ^ m) by ring]; omega
  have hl := Nat.one_le_two_pow (n := l)
  have key : ∀ e : ℕ, ω ^ e = ω ^ (e % (2 * N)) := fun e => by
    conv_lhs => rw [← Nat.div_add_mod e (2 * N), pow_add, pow_mul ω (2 * N), hω.pow_eq_one, one_pow, one_mul]
  have s1 : ∑ k ∈ range (2 ^ m), (ω ^ 5 ^ (2 ^ l * k)) ^ x = ∑ y ∈ (range (2 ^ m)).image (fun k => 5 ^ (2 ^ l * k) % (2 * N)), (ω ^ y) ^ x := by
    rw [Finset.sum_image]
    · exact Finset.sum_congr rfl fun k _ => by rw [key]
    · intro a ha b hb hab
      rw [mem_coe, mem_range] at ha hb
      have := five_pow_inj hNp (by omega) (j := 2 ^ l * a) (k := 2 ^ l * b)
        (by rw [hh]; exact Nat.mul_lt_mul_of_pos_left ha (by omega)) (by rw [hh]; exact Nat.mul_lt_mul_of_pos_left hb (by omega)) hab
      exact Nat.eq_of_mul_eq_mul_left (by omega) this
  rw [s1, five_pow_image hN, Finset.sum_image]
  swap
  · intro a _ b _ hab
    have : 4 * 2 ^ l * a = 4 * 2 ^ l * b := by simpa using hab
    exact Nat.eq_of_mul_eq_mul_left (by omega) this
  have s2 : ∀ b, (ω ^ (1 + 4 * 2 ^ l * b)) ^ x = ω ^ x * (ω ^ (4 * 2 ^ l * x)) ^ b := fun b => by
    rw [← pow_mul, ← pow_mul, ← pow_add]; congr 1; ring
  simp only [s2]
  rw [← Finset.mul_sum]
  split_ifs with hd
  · obtain ⟨y, rfl⟩ := hd
    have : ω ^ (4 * 2 ^ l * (2 ^ m * y)) = 1 := by
      rw [show 4 * 2 ^ l * (2 ^ m * y) = 2 * N * y by rw [hN2]; ring, pow_mul, hω.pow_eq_one, one_pow]
    rw [this]; simp [mul_comm]
  · have h1 : ω ^ (4 * 2 ^ l * x) ≠ 1 := fun h => by
      have := hω.dvd_of_pow_eq_one _ h
      rw [hN2] at this
      exact hd (Nat.dvd_of_mul_dvd_mul_left (by omega) this)
    rw [geom_sum_eq h1, ← pow_mul, show 4 * 2 ^ l * x * 2 ^ m = 2 * N * x by rw [hN2]; ring, pow_mul, hω.pow_eq_one, one_pow, sub_self, zero_div, mul_zero]

/-- **what the decoder reads**: slot `j` of the polynomial of the coefficients at the multiples of `g` is the mean of the slots `j, j + n, j + 2n, …` -/
theorem slot_every {l m : ℕ} (hN : N = 2 * 2 ^ l * 2 ^ m) (v : Nega N ℝ) (j : ℤ) :
    slot j (every (2 ^ m) v) = (∑ k ∈ range (2 ^ m), slot (j + (2 ^ l * k : ℕ)) v) / 2 ^ m := by
  have hNp : N = 2 ^ (l + m + 1) := by rw [hN]; ring
  have hh : N / 2 = 2 ^ l * 2 ^ m := by
    rw [hN, show 2 * 2 ^ l * 2 ^ m = 2 * (2 ^ l * 2 ^ m) by ring]; omega
  have hl := Nat.one_le_two_pow (n := l)
  have hω : IsPrimitiveRoot (zeta N ^ 5 ^ C35.amount N j) (2 * N) := by
    refine zeta_prim.pow_of_coprime _ ?_
    rw [hNp, ← pow_succ']
    exact Nat.Coprime.pow _ _ (by norm_num)
  have hs : ∀ k ∈ range (2 ^ m), slot (j + (2 ^ l * k : ℕ)) v = ∑ x : Fin N, (v x : ℂ) * ((zeta N ^ 5 ^ C35.amount N j) ^ 5 ^ (2 ^ l * k)) ^ (x : ℕ) := by
    intro k hk
    have hk' := mem_range.mp hk
    have ha : C35.amount N ((2 ^ l * k : ℕ) : ℤ) = 2 ^ l * k := by
      unfold C35.amount
      rw [Int.emod_eq_of_lt (by positivity) (by
        rw [hh]; exact_mod_cast Nat.mul_lt_mul_of_pos_left hk' (by omega))]; exact Int.toNat_natCast _
    unfold slot
    rw [evalC_congr (odd_five_pow _) ((odd_five_pow (C35.amount N j)).mul (odd_five_pow (2 ^ l * k))) (by
      rw [← pow_add]
      refine (five_pow_congr hNp (by omega) ?_).symm
      rw [← amount_add hNp (by omega), ha]), evalC_apply]
    exact Finset.sum_congr rfl fun x _ => by rw [pow_mul]
  rw [Finset.sum_congr rfl hs, Finset.sum_comm]
  simp only [← Finset.mul_sum, sum_conjugates hN hω]
  unfold slot
  rw [evalC_apply, Finset.sum_div]
  refine Finset.sum_congr rfl fun x _ => ?_
  rw [every_apply]
  have h2 : (2 : ℂ) ^ m ≠ 0 := pow_ne_zero _ two_ne_zero
  split_ifs
  · field_simp
  · simp

/-- **decoding sparse slots**: if the slots of `u / sc` are within `err` of a vector `z` with period `n`, so are those that the decoder for `n` slots reads -/
theorem decode_sparse {l m : ℕ} (hN : N = 2 * 2 ^ l * 2 ^ m) {u : Nega N ℝ} {sc : ℂ} {z : ℤ → ℂ} (hz : ∀ j : ℤ, z (j + (2 ^ l : ℕ)) = z j) {err : ℝ}
    (h : ∀ j : ℤ, ‖slot j u / sc - z j‖ ≤ err) (j : ℤ) : ‖slot j (every (2 ^ m) u) / sc - z j‖ ≤ err := by
  have hzk : ∀ k : ℕ, z (j + (2 ^ l * k : ℕ)) = z j := fun k => by
    induction k with
    | zero => simp
    | succ k ih =>
      rw [← ih, ← hz (j + (2 ^ l * k : ℕ))]
      congr 1; push_cast; ring
  have h2 : (2 : ℂ) ^ m ≠ 0 := pow_ne_zero _ two_ne_zero
  have e : slot j (every (2 ^ m) u) / sc - z j = (∑ k ∈ range (2 ^ m), (slot (j + (2 ^ l * k : ℕ)) u / sc - z (j + (2 ^ l * k : ℕ)))) / 2 ^ m := by
    rw [slot_every hN, Finset.sum_sub_distrib]
    simp only [hzk]
    rw [Finset.sum_const, card_range, nsmul_eq_mul, ← Finset.sum_div]
    push_cast
    field_simp
  rw [e, norm_div, norm_pow]
  have h3 : (0 : ℝ) < ‖(2 : ℂ)‖ ^ m := by simp
  rw [div_le_iff₀ h3]
  calc ‖∑ k ∈ range (2 ^ m), (slot (j + (2 ^ l * k : ℕ)) u / sc - z (j + (2 ^ l * k : ℕ)))‖
      ≤ ∑ k ∈ range (2 ^ m), ‖slot (j + (2 ^ l * k : ℕ)) u / sc - z (j + (2 ^ l * k : ℕ))‖ := norm_sum_le _ _
    _ ≤ ∑ _k ∈ range (2 ^ m), err := Finset.sum_le_sum fun k _ => h _
    _ = err * ‖(2 : ℂ)‖ ^ m := by simp [mul_comm]

/-- a polynomial in `X^g` has slots of period `n` -/
theorem slot_sparse_period {l m : ℕ} (hN : N = 2 * 2 ^ l * 2 ^ m) {v : Nega N ℝ} (hv : every (2 ^ m) v = v) (j : ℤ) : slot (j + (2 ^ l : ℕ)) v = slot j v := by
  have hp : 0 < 2 ^ m := Nat.two_pow_pos m
  have hh : N / 2 = 2 ^ l * 2 ^ m := by
    rw [hN, show 2 * 2 ^ l * 2 ^ m = 2 * (2 ^ l * 2 ^ m) by ring]; omega
  conv_lhs => rw [← hv]
  conv_rhs => rw [← hv]
  rw [slot_every hN, slot_every hN]
  congr 1
  have e : ∀ k : ℕ, slot (j + (2 ^ l : ℕ) + (2 ^ l * k : ℕ)) v = slot (j + (2 ^ l * (k + 1) : ℕ)) v := fun k => by
    congr 1; push_cast; ring
  simp only [e]
  have h1 := Finset.sum_range_succ (fun k => slot (j + (2 ^ l * k : ℕ)) v) (2 ^ m)
  have h2 := Finset.sum_range_succ' (fun k => slot (j + (2 ^ l * k : ℕ)) v) (2 ^ m)
  have h3 : slot (j + (2 ^ l * 2 ^ m : ℕ)) v = slot (j + (2 ^ l * 0 : ℕ)) v := by
    rw [← hh]; simp only [slot_period]; simp
  rw [h1] at h2
  rw [h3] at h2
  exact (add_right_cancel h2).symm

/-- conversely, a real polynomial whose slots have period `n` is a polynomial in `X^g` -/
theorem every_of_period {l m : ℕ} (hN : N = 2 * 2 ^ l * 2 ^ m) {v : Nega N ℝ} (h : ∀ j : ℤ, slot (j + (2 ^ l : ℕ)) v = slot j v) : every (2 ^ m) v = v := by
  have hNp : N = 2 ^ (l + m + 1) := by rw [hN]; ring
  refine slots_inj hNp (by omega) fun j => ?_
  have := decode_sparse hN (u := v) (sc := 1) (z := fun j => slot j v) h (err := 0) (fun j => by simp) j
  rw [div_one] at this
  exact sub_eq_zero.mp (norm_le_zero_iff.mp this)

end MKHE
