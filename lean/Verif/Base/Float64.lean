import Verif.Base.Float
import Mathlib.Data.Int.Log
import Mathlib.Algebra.Ring.Parity

set_option autoImplicit false

/-!
# IEEE-754 binary64 round-to-nearest-even satisfies the float64 contract

`FloatModel` (Base/Float.lean) states what the model uses of float64 arithmetic. Here the rounding that Go's
float64 actually performs on values inside the normal exponent range — 53-bit significand, round to nearest,
ties to even — is defined and proved to satisfy that contract, so every theorem of the development that takes an
arbitrary `FloatModel` applies to it. The exponent is unbounded: overflow and subnormal results (values outside
`2^-1022 … 2^1024`, which this code does not produce) are outside the model.
-/

namespace MKHE
namespace Float64

/-- round a rational to an integer, ties to even -/
def rne (y : ℚ) : ℤ :=
  if y - ⌊y⌋ < 1 / 2 then ⌊y⌋ else if 1 / 2 < y - ⌊y⌋ then ⌊y⌋ + 1 else if Even ⌊y⌋ then ⌊y⌋ else ⌊y⌋ + 1

theorem rne_err (y : ℚ) : |(rne y : ℚ) - y| ≤ 1 / 2 := by
  have h1 := Int.floor_le y
  have h2 := Int.lt_floor_add_one y
  unfold rne
  split_ifs with a b c <;> push_cast <;> rw [abs_le] <;> constructor <;> linarith

theorem rne_int (z : ℤ) : rne z = z := by
  unfold rne
  rw [if_pos (by rw [Int.floor_intCast]; norm_num), Int.floor_intCast]

theorem rne_mono {x y : ℚ} (h : x ≤ y) : rne x ≤ rne y := by
  have hx1 := Int.floor_le x
  have hx2 := Int.lt_floor_add_one x
  have hy1 := Int.floor_le y
  have hy2 := Int.lt_floor_add_one y
  have hf := Int.floor_mono h
  rcases hf.lt_or_eq with hlt | heq
  · have a : rne x ≤ ⌊x⌋ + 1 := by unfold rne; split_ifs <;> omega
    have b : ⌊y⌋ ≤ rne y := by unfold rne; split_ifs <;> omega
    omega
  · unfold rne
    rw [heq] at *
    split_ifs <;> first | omega | (exfalso; linarith)

/-- every integer bound passes through the rounding -/
theorem rne_le {y : ℚ} {z : ℤ} (h : y ≤ z) : rne y ≤ z := by
  have := rne_mono h; rwa [rne_int] at this

theorem le_rne {y : ℚ} {z : ℤ} (h : (z : ℚ) ≤ y) : z ≤ rne y := by
  have := rne_mono h; rwa [rne_int] at this

/-- the unit in the last place of a positive number: `2^(e-52)` with `2^e ≤ x < 2^(e+1)` -/
def ulp (x : ℚ) : ℚ := (2 : ℚ) ^ (Int.log 2 x - 52)

theorem ulp_pos (x : ℚ) : 0 < ulp x := zpow_pos (by norm_num) _

/-- rounding of a positive number to a 53-bit significand -/
def rndPos (x : ℚ) : ℚ := rne (x / ulp x) * ulp x

theorem two_pow (e : ℤ) : (2 : ℚ) ^ e = (2 : ℚ) ^ (52 : ℕ) * (2 : ℚ) ^ (e - 52) := by
  rw [show e = 52 + (e - 52) by ring, zpow_add₀ (by norm_num : (2 : ℚ) ≠ 0)]
  norm_num

theorem log_le {x : ℚ} (h : 0 < x) : (2 : ℚ) ^ 52 * ulp x ≤ x := by
  have := Int.zpow_log_le_self (b := 2) (r := x) (by norm_num) h
  unfold ulp
  rw [← two_pow]; exact_mod_cast this

theorem lt_log {x : ℚ} : x < (2 : ℚ) ^ 53 * ulp x := by
  have := Int.lt_zpow_succ_log_self (b := 2) (by norm_num) x
  unfold ulp
  have e : (2 : ℚ) ^ 53 * (2 : ℚ) ^ (Int.log 2 x - 52) = (2 : ℚ) ^ (Int.log 2 x + 1) := by
    rw [two_pow (Int.log 2 x + 1), show Int.log 2 x + 1 - 52 = (Int.log 2 x - 52) + 1 by ring,
      zpow_add_one₀ (by norm_num : (2 : ℚ) ≠ 0)]
    ring
  rw [e]; exact_mod_cast this

theorem rndPos_err {x : ℚ} (h : 0 < x) : |rndPos x - x| ≤ unitRoundoff * x := by
  have hu := ulp_pos x
  have h1 := rne_err (x / ulp x)
  have h2 := log_le h
  have e : rndPos x - x = ((rne (x / ulp x) : ℚ) - x / ulp x) * ulp x := by
    unfold rndPos; field_simp
  rw [e, abs_mul, abs_of_pos hu]
  calc |(rne (x / ulp x) : ℚ) - x / ulp x| * ulp x ≤ 1 / 2 * ulp x := mul_le_mul_of_nonneg_right h1 hu.le
    _ = unitRoundoff * ((2 : ℚ) ^ 52 * ulp x) := by unfold unitRoundoff; ring
    _ ≤ _ := mul_le_mul_of_nonneg_left h2 (by unfold unitRoundoff; positivity)

theorem rndPos_lower {x : ℚ} (h : 0 < x) : (2 : ℚ) ^ 52 * ulp x ≤ rndPos x := by
  have hu := ulp_pos x
  unfold rndPos
  refine mul_le_mul_of_nonneg_right ?_ hu.le
  have : ((2 ^ 52 : ℤ) : ℚ) ≤ x / ulp x := by
    rw [le_div_iff₀ hu]; push_cast; exact log_le h
  exact_mod_cast le_rne this

theorem rndPos_upper (x : ℚ) : rndPos x ≤ (2 : ℚ) ^ 53 * ulp x := by
  have hu := ulp_pos x
  unfold rndPos
  refine mul_le_mul_of_nonneg_right ?_ hu.le
  have : x / ulp x ≤ ((2 ^ 53 : ℤ) : ℚ) := by
    rw [div_le_iff₀ hu]; push_cast; exact lt_log.le
  exact_mod_cast rne_le this

theorem rndPos_pos {x : ℚ} (h : 0 < x) : 0 < rndPos x :=
  lt_of_lt_of_le (by have := ulp_pos x; positivity) (rndPos_lower h)

theorem rndPos_mono {x y : ℚ} (hx : 0 < x) (h : x ≤ y) : rndPos x ≤ rndPos y := by
  have hy := hx.trans_le h
  rcases (Int.log_mono_right (b := 2) hx h).lt_or_eq with hlt | heq
  · refine (rndPos_upper x).trans (le_trans ?_ (rndPos_lower hy))
    unfold ulp
    have : (2 : ℚ) ^ 53 * (2 : ℚ) ^ (Int.log 2 x - 52) = 2 ^ 52 * (2 : ℚ) ^ (Int.log 2 x - 52 + 1) := by
      rw [zpow_add_one₀ (by norm_num : (2 : ℚ) ≠ 0)]; ring
    rw [this]
    exact mul_le_mul_of_nonneg_left (zpow_le_zpow_right₀ (by norm_num) (by omega)) (by positivity)
  · have e : ulp x = ulp y := by unfold ulp; rw [heq]
    unfold rndPos
    rw [e]
    have hu := ulp_pos y
    refine mul_le_mul_of_nonneg_right ?_ hu.le
    exact_mod_cast rne_mono (div_le_div_of_nonneg_right h hu.le)

/-- `x = m·2^k` with `|m| ≤ 2^53`: the values a float64 holds exactly (unbounded exponent) -/
def Representable (x : ℚ) : Prop := ∃ (m k : ℤ), |m| ≤ 2 ^ 53 ∧ x = m * (2 : ℚ) ^ k

/-- above the bottom of the binade of `x`, a representable number is a multiple of the unit in the last place -/
theorem grid {x y : ℚ} (hlow : (2 : ℚ) ^ 52 * ulp x ≤ y) (hr : Representable y) : ∃ z : ℤ, y = z * ulp x := by
  obtain ⟨m, k, hm, rfl⟩ := hr
  have hk : (0 : ℚ) < (2 : ℚ) ^ k := zpow_pos (by norm_num) _
  have hu := ulp_pos x
  rcases le_or_gt (Int.log 2 x - 52) k with hle | hgt
  · obtain ⟨d, hd⟩ := Int.eq_ofNat_of_zero_le (sub_nonneg.mpr hle)
    refine ⟨m * 2 ^ d, ?_⟩
    have : (2 : ℚ) ^ k = (2 : ℚ) ^ d * ulp x := by
      unfold ulp
      rw [show k = (d : ℤ) + (Int.log 2 x - 52) by omega, zpow_add₀ (by norm_num : (2 : ℚ) ≠ 0)]
      simp
    rw [this]; push_cast; ring
  · have h0 : 2 * (2 : ℚ) ^ k ≤ ulp x := by
      unfold ulp
      rw [mul_comm, ← zpow_add_one₀ (by norm_num : (2 : ℚ) ≠ 0)]
      exact zpow_le_zpow_right₀ (by norm_num) (by omega)
    have h2 : (2 : ℚ) ^ 52 * (2 * (2 : ℚ) ^ k) ≤ m * (2 : ℚ) ^ k :=
      le_trans (mul_le_mul_of_nonneg_left h0 (by positivity)) hlow
    have h3 : ((2 ^ 53 : ℤ) : ℚ) ≤ m := by
      rw [← mul_assoc] at h2
      have := le_of_mul_le_mul_right h2 hk
      push_cast; linarith
    have h4 : m = 2 ^ 53 := le_antisymm ((le_abs_self m).trans hm) (by exact_mod_cast h3)
    refine ⟨2 ^ 52, le_antisymm ?_ (by push_cast; exact hlow)⟩
    rw [h4]; push_cast
    calc (2 : ℚ) ^ 53 * (2 : ℚ) ^ k = 2 ^ 52 * (2 * (2 : ℚ) ^ k) := by ring
      _ ≤ _ := mul_le_mul_of_nonneg_left h0 (by positivity)

theorem rndPos_fix {x : ℚ} (h : 0 < x) (hr : Representable x) : rndPos x = x := by
  obtain ⟨z, hz⟩ := grid (log_le h) hr
  have hu := (ulp_pos x).ne'
  have : x / ulp x = z := by rw [div_eq_iff hu]; exact hz
  unfold rndPos
  rw [this, rne_int]; exact hz.symm

theorem rndPos_representable (x : ℚ) (h : 0 < x) : Representable (rndPos x) := by
  refine ⟨rne (x / ulp x), Int.log 2 x - 52, ?_, rfl⟩
  have hu := ulp_pos x
  have a : (0 : ℤ) ≤ rne (x / ulp x) := le_rne (by push_cast; positivity)
  rw [abs_of_nonneg a]
  refine rne_le ?_
  rw [div_le_iff₀ hu]; push_cast; exact lt_log.le

/-- **binary64 round-to-nearest-even** (with an unbounded exponent) -/
def rnd (x : ℚ) : ℚ := if 0 < x then rndPos x else if x < 0 then - rndPos (-x) else 0

theorem rnd_pos {x : ℚ} (h : 0 < x) : rnd x = rndPos x := if_pos h
theorem rnd_neg {x : ℚ} (h : x < 0) : rnd x = - rndPos (-x) := by
  unfold rnd; rw [if_neg (by linarith), if_pos h]
theorem rnd_zero : rnd 0 = 0 := by unfold rnd; simp

theorem rnd_mono {x y : ℚ} (h : x ≤ y) : rnd x ≤ rnd y := by
  rcases lt_trichotomy x 0 with hx | hx | hx
  · rw [rnd_neg hx]
    have px := rndPos_pos (neg_pos.mpr hx)
    rcases lt_trichotomy y 0 with hy | hy | hy
    · rw [rnd_neg hy]
      have := rndPos_mono (neg_pos.mpr hy) (neg_le_neg h)
      linarith
    · rw [hy, rnd_zero]; linarith
    · rw [rnd_pos hy]; have := rndPos_pos hy; linarith
  · subst hx
    rw [rnd_zero]
    rcases h.lt_or_eq with hy | hy
    · rw [rnd_pos hy]; exact (rndPos_pos hy).le
    · rw [← hy, rnd_zero]
  · rw [rnd_pos hx, rnd_pos (hx.trans_le h)]; exact rndPos_mono hx h

/-- rounding is onto the representable numbers … -/
theorem rnd_representable (x : ℚ) : Representable (rnd x) := by
  rcases lt_trichotomy x 0 with hx | hx | hx
  · rw [rnd_neg hx]
    obtain ⟨m, k, a, b⟩ := rndPos_representable _ (neg_pos.mpr hx)
    exact ⟨-m, k, by rwa [abs_neg], by rw [b]; push_cast; ring⟩
  · subst hx; exact ⟨0, 0, by norm_num, by rw [rnd_zero]; norm_num⟩
  · rw [rnd_pos hx]; exact rndPos_representable _ hx

/-- … and leaves them alone -/
theorem rnd_fix {x : ℚ} (h : Representable x) : rnd x = x := by
  rcases lt_trichotomy x 0 with hx | hx | hx
  · rw [rnd_neg hx, rndPos_fix (neg_pos.mpr hx), neg_neg]
    obtain ⟨m, k, a, b⟩ := h
    exact ⟨-m, k, by rwa [abs_neg], by rw [b]; push_cast; ring⟩
  · rw [hx, rnd_zero]
  · rw [rnd_pos hx, rndPos_fix hx h]

/-- the result is a nearest representable number -/
theorem rnd_nearest {x y : ℚ} (hx : 0 < x) (hy : Representable y) : |rnd x - x| ≤ |y - x| := by
  have hu := ulp_pos x
  rw [rnd_pos hx]
  set f := ⌊x / ulp x⌋ with hf
  have f1 : (f : ℚ) * ulp x ≤ x := by
    have := Int.floor_le (x / ulp x); rwa [le_div_iff₀ hu] at this
  have f2 : x < ((f : ℚ) + 1) * ulp x := by
    have := Int.lt_floor_add_one (x / ulp x); rwa [div_lt_iff₀ hu] at this
  have e : rndPos x - x = ((rne (x / ulp x) : ℚ) - x / ulp x) * ulp x := by
    unfold rndPos; field_simp
  -- the rounding error is at most the distance to either grid neighbour
  have d1 : |rndPos x - x| ≤ x - f * ulp x := by
    rw [e, abs_mul, abs_of_pos hu]
    have : |(rne (x / ulp x) : ℚ) - x / ulp x| ≤ x / ulp x - f := by
      have h1 := Int.floor_le (x / ulp x)
      have h2 := Int.lt_floor_add_one (x / ulp x)
      unfold rne
      rw [← hf] at *
      split_ifs with a b c <;> push_cast <;> rw [abs_le] <;> constructor <;> linarith
    calc _ ≤ (x / ulp x - f) * ulp x := mul_le_mul_of_nonneg_right this hu.le
      _ = _ := by field_simp
  have d2 : |rndPos x - x| ≤ (f + 1) * ulp x - x := by
    rw [e, abs_mul, abs_of_pos hu]
    have : |(rne (x / ulp x) : ℚ) - x / ulp x| ≤ f + 1 - x / ulp x := by
      have h1 := Int.floor_le (x / ulp x)
      have h2 := Int.lt_floor_add_one (x / ulp x)
      unfold rne
      rw [← hf] at *
      split_ifs with a b c <;> push_cast <;> rw [abs_le] <;> constructor <;> linarith
    calc _ ≤ (f + 1 - x / ulp x) * ulp x := mul_le_mul_of_nonneg_right this hu.le
      _ = _ := by field_simp
  rcases le_total x y with hxy | hxy
  · rw [abs_of_nonneg (sub_nonneg.mpr hxy)]
    rcases eq_or_lt_of_le hxy with hq | hlt
    · rw [rndPos_fix hx (hq ▸ hy)]; simp [hq]
    refine d2.trans (sub_le_sub_right ?_ _)
    obtain ⟨z, hz⟩ := grid ((log_le hx).trans hxy) hy
    rw [hz] at hlt ⊢
    refine mul_le_mul_of_nonneg_right ?_ hu.le
    have : f < z := by rw [hf, Int.floor_lt, div_lt_iff₀ hu]; exact hlt
    exact_mod_cast this
  · rw [abs_of_nonpos (sub_nonpos.mpr hxy), neg_sub]
    refine d1.trans (sub_le_sub_left ?_ _)
    rcases le_total y ((2 : ℚ) ^ 52 * ulp x) with c | c
    · refine c.trans (mul_le_mul_of_nonneg_right ?_ hu.le)
      have : (2 ^ 52 : ℤ) ≤ f := by
        rw [hf, Int.le_floor, le_div_iff₀ hu]; push_cast; exact log_le hx
      exact_mod_cast this
    · obtain ⟨z, hz⟩ := grid c hy
      rw [hz] at hxy ⊢
      refine mul_le_mul_of_nonneg_right ?_ hu.le
      have : z ≤ f := by rw [hf, Int.le_floor, le_div_iff₀ hu]; exact hxy
      exact_mod_cast this

/-- the rounding is not the identity: `2^53 + 1` is not representable and rounds to even -/
theorem rnd_example : rnd (2 ^ 53 + 1) = 2 ^ 53 ∧ rnd (2 ^ 53 + 3) = 2 ^ 53 + 4 := by
  have hl : ∀ z : ℚ, 2 ^ 53 ≤ z → z < 2 ^ 54 → ulp z = 2 := by
    intro z h1 h2
    have a : (53 : ℤ) ≤ Int.log 2 z :=
      (Int.zpow_le_iff_le_log (b := 2) (by norm_num) (by linarith)).mp (by norm_num; linarith)
    have b : Int.log 2 z < 54 :=
      (Int.lt_zpow_iff_log_lt (b := 2) (by norm_num) (by linarith)).mp (by norm_num; linarith)
    have e : Int.log 2 z = 53 := by omega
    unfold ulp; rw [e]; norm_num
  have f1 : ⌊((2 : ℚ) ^ 53 + 1) / 2⌋ = 2 ^ 52 := by rw [Int.floor_eq_iff]; norm_num
  have f2 : ⌊((2 : ℚ) ^ 53 + 3) / 2⌋ = 2 ^ 52 + 1 := by rw [Int.floor_eq_iff]; norm_num
  constructor
  · rw [rnd_pos (by norm_num)]; unfold rndPos
    rw [hl _ (by norm_num) (by norm_num)]
    unfold rne; rw [f1, if_neg (by norm_num), if_neg (by norm_num), if_pos (by decide)]; norm_num
  · rw [rnd_pos (by norm_num)]; unfold rndPos
    rw [hl _ (by norm_num) (by norm_num)]
    unfold rne; rw [f2, if_neg (by norm_num), if_neg (by norm_num), if_neg (by decide)]; norm_num

end Float64

/-- **The float64 contract holds of binary64 round-to-nearest-even.** -/
def FloatModel.binary64 : FloatModel where
  rnd := Float64.rnd
  err := fun x h => by
    rcases h.lt_or_eq with h | h
    · rw [Float64.rnd_pos h]; exact Float64.rndPos_err h
    · rw [← h, Float64.rnd_zero]; simp
  mono := fun _ _ h => Float64.rnd_mono h
  exact_nat := fun n h => Float64.rnd_fix ⟨n, 0, by rw [Nat.abs_cast]; exact_mod_cast h, by simp⟩

end MKHE
