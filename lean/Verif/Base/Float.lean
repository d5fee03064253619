import Mathlib.Algebra.Order.Floor.Ring
import Mathlib.Data.Rat.Floor
import Mathlib.Tactic.Linarith
import Mathlib.Tactic.NormNum
import Mathlib.Tactic.Positivity
import Mathlib.Tactic.FieldSimp
import Mathlib.Tactic.Ring

set_option autoImplicit false

/-!
# float64 arithmetic (trusted contract)

Finite non-negative float64 values are rational numbers; each operation is the exact operation followed by a
rounding function. `FloatModel` states what is used of IEEE-754 binary64 round-to-nearest: relative error at
most `2^-53` (no underflow happens for the operands of this code: quotients of words by primes below `2^62` are
`0` or at least `2^-62`), monotonicity, and exactness on integers up to `2^53`.
-/

namespace MKHE

/-- the unit roundoff of float64 -/
def unitRoundoff : ℚ := 1 / 2 ^ 53

/-- A model of float64 rounding on non-negative values. -/
structure FloatModel where
  rnd : ℚ → ℚ
  err : ∀ x, 0 ≤ x → |rnd x - x| ≤ unitRoundoff * x
  mono : ∀ x y, x ≤ y → rnd x ≤ rnd y
  exact_nat : ∀ n : ℕ, n ≤ 2 ^ 53 → rnd n = n

namespace FloatModel
variable (fm : FloatModel)

/-- `float64(n)` -/
def ofNat (n : ℕ) : ℚ := fm.rnd n
/-- `a / b` -/
def div (a b : ℚ) : ℚ := fm.rnd (a / b)
/-- `a + b` -/
def add (a b : ℚ) : ℚ := fm.rnd (a + b)
/-- `int(math.Ceil(x))` for a non-negative `x` below `2^63` -/
def ceilInt (x : ℚ) : ℕ := ⌈x⌉₊
/-- `uint64(x)` for a non-negative `x` below `2^64` -/
def toUint64 (x : ℚ) : ℕ := ⌊x⌋₊

theorem rnd_zero : fm.rnd 0 = 0 := by
  have := fm.exact_nat 0 (by norm_num)
  simpa using this

theorem rnd_nonneg {x : ℚ} (h : 0 ≤ x) : 0 ≤ fm.rnd x := by
  rw [← fm.rnd_zero]; exact fm.mono _ _ h

theorem rnd_le {x : ℚ} (h : 0 ≤ x) : fm.rnd x ≤ x * (1 + unitRoundoff) := by
  have := (abs_le.mp (fm.err x h)).2; linarith

theorem le_rnd {x : ℚ} (h : 0 ≤ x) : x * (1 - unitRoundoff) ≤ fm.rnd x := by
  have := (abs_le.mp (fm.err x h)).1; linarith

/-- exact arithmetic is a (degenerate) model -/
def exact : FloatModel where
  rnd := fun x => x
  err := fun x h => by simp only [sub_self, abs_zero]; unfold unitRoundoff; positivity
  mono := fun _ _ h => h
  exact_nat := fun _ _ => rfl

/-- `int(math.Ceil(float64(m) / float64(n)))` is the exact ceiling for operands up to `2^53`. -/
theorem ceil_div_exact (m n : ℕ) (hm : m < 2 ^ 53) (hn0 : 0 < n) (hn : n ≤ 2 ^ 53) :
    ceilInt (fm.div (fm.ofNat m) (fm.ofNat n)) = (m + n - 1) / n := by
  unfold ceilInt div ofNat
  rw [fm.exact_nat m hm.le, fm.exact_nat n hn]
  have hnq : (0 : ℚ) < n := by exact_mod_cast hn0
  rcases Nat.eq_zero_or_pos m with h0 | h0
  · subst h0
    simp only [Nat.cast_zero, zero_div, fm.rnd_zero, Nat.ceil_zero, zero_add]
    exact (Nat.div_eq_of_lt (by omega)).symm
  -- write m = (k) * n + r with 1 ≤ r ≤ n, so that the ceiling is k + 1
  obtain ⟨k, r, hk, hr1, hr2⟩ : ∃ k r, m = k * n + r ∧ 1 ≤ r ∧ r ≤ n := by
    refine ⟨(m - 1) / n, (m - 1) % n + 1, ?_, by omega, ?_⟩
    · have := Nat.div_add_mod (m - 1) n
      have e : (m - 1) / n * n = n * ((m - 1) / n) := Nat.mul_comm _ _
      omega
    · have := Nat.mod_lt (m - 1) hn0; omega
  have hc : (m + n - 1) / n = k + 1 := by
    have : m + n - 1 = (r - 1) + n * (k + 1) := by
      have : n * (k + 1) = k * n + n := by ring
      omega
    rw [this, Nat.add_mul_div_left _ _ hn0, Nat.div_eq_of_lt (by omega)]; omega
  rw [hc, Nat.ceil_eq_iff (by omega)]
  have hmq : (m : ℚ) = k * n + r := by exact_mod_cast hk
  have hrq1 : (1 : ℚ) ≤ r := by exact_mod_cast hr1
  have hrq2 : (r : ℚ) ≤ n := by exact_mod_cast hr2
  have hm2 : (m : ℚ) < 2 ^ 53 := by exact_mod_cast hm
  constructor
  · have h1 := fm.le_rnd (x := (m : ℚ) / n) (by positivity)
    refine lt_of_lt_of_le ?_ h1
    simp only [Nat.add_sub_cancel]
    rw [div_mul_eq_mul_div, lt_div_iff₀ hnq]
    have : (m : ℚ) * unitRoundoff < 1 := by
      unfold unitRoundoff
      rw [mul_one_div, div_lt_one (by positivity)]; exact hm2
    calc (k : ℚ) * n ≤ m - 1 := by rw [hmq]; linarith
      _ < m * (1 - unitRoundoff) := by linarith
  · have hle : (m : ℚ) / n ≤ ((k + 1 : ℕ) : ℚ) := by
      rw [div_le_iff₀ hnq, hmq]; push_cast; linarith
    have hk53 : k + 1 ≤ 2 ^ 53 := by
      have : k * 1 ≤ k * n := Nat.mul_le_mul_left _ hn0
      omega
    have := fm.mono _ _ hle
    rw [fm.exact_nat _ hk53] at this
    exact this

/-- one term `float64(y)/float64(q)` of the correction sum -/
theorem term_err (y q : ℕ) (hy : y < q) :
    |fm.div (fm.ofNat y) (fm.ofNat q) - (y : ℚ) / q| ≤ 4 * unitRoundoff ∧
    0 ≤ fm.div (fm.ofNat y) (fm.ofNat q) := by
  have hu0 : (0 : ℚ) < unitRoundoff := by unfold unitRoundoff; positivity
  have hu1 : unitRoundoff ≤ 1 / 1000 := by unfold unitRoundoff; norm_num
  set u := unitRoundoff with hu
  have hqpos : (0 : ℚ) < q := by exact_mod_cast (by omega : 0 < q)
  have hy0 : (0 : ℚ) ≤ y := by positivity
  have hyq : (y : ℚ) < q := by exact_mod_cast hy
  have a1 := fm.rnd_le hy0
  have a2 := fm.le_rnd hy0
  have b1 := fm.rnd_le hqpos.le
  have b2 := fm.le_rnd hqpos.le
  rw [← hu] at a1 a2 b1 b2
  unfold div ofNat
  set Y := fm.rnd y
  set Z := fm.rnd q
  have hZ : 0 < Z := lt_of_lt_of_le (by nlinarith) b2
  have hY : 0 ≤ Y := fm.rnd_nonneg hy0
  have hd : 0 ≤ Y / Z := by positivity
  have c1 := fm.rnd_le hd
  have c2 := fm.le_rnd hd
  rw [← hu] at c1 c2
  set a := (y : ℚ) / q with ha
  have ha0 : 0 ≤ a := by positivity
  have ha1 : a ≤ 1 := by rw [ha, div_le_one hqpos]; exact hyq.le
  have hyaq : (y : ℚ) = a * q := by rw [ha]; field_simp
  have d1 : Y / Z ≤ a * (1 + u) / (1 - u) := by
    rw [div_le_div_iff₀ hZ (by linarith)]
    calc Y * (1 - u) ≤ (y * (1 + u)) * (1 - u) := by
            apply mul_le_mul_of_nonneg_right a1; linarith
      _ = a * (1 + u) * (q * (1 - u)) := by rw [hyaq]; ring
      _ ≤ a * (1 + u) * Z := by
            apply mul_le_mul_of_nonneg_left b2; positivity
  have d2 : a * (1 - u) / (1 + u) ≤ Y / Z := by
    rw [div_le_div_iff₀ (by linarith) hZ]
    calc a * (1 - u) * Z ≤ a * (1 - u) * (q * (1 + u)) := by
            apply mul_le_mul_of_nonneg_left b1
            exact mul_nonneg ha0 (by linarith)
      _ = y * (1 - u) * (1 + u) := by rw [hyaq]; ring
      _ ≤ Y * (1 + u) := by apply mul_le_mul_of_nonneg_right a2; linarith
  have e1 : (1 + u) / (1 - u) * (1 + u) ≤ 1 + 4 * u := by
    rw [div_mul_eq_mul_div, div_le_iff₀ (by linarith)]; nlinarith
  have e2 : 1 - 4 * u ≤ (1 - u) / (1 + u) * (1 - u) := by
    rw [div_mul_eq_mul_div, le_div_iff₀ (by linarith)]; nlinarith
  refine ⟨?_, fm.rnd_nonneg hd⟩
  rw [abs_le]
  constructor
  · have : a * (1 - 4 * u) ≤ fm.rnd (Y / Z) := calc
      a * (1 - 4 * u) ≤ a * ((1 - u) / (1 + u) * (1 - u)) := mul_le_mul_of_nonneg_left e2 ha0
      _ = a * (1 - u) / (1 + u) * (1 - u) := by ring
      _ ≤ Y / Z * (1 - u) := mul_le_mul_of_nonneg_right d2 (by linarith)
      _ ≤ _ := c2
    nlinarith
  · have : fm.rnd (Y / Z) ≤ a * (1 + 4 * u) := calc
      fm.rnd (Y / Z) ≤ Y / Z * (1 + u) := c1
      _ ≤ a * (1 + u) / (1 - u) * (1 + u) := mul_le_mul_of_nonneg_right d1 (by linarith)
      _ = a * ((1 + u) / (1 - u) * (1 + u)) := by ring
      _ ≤ _ := mul_le_mul_of_nonneg_left e1 ha0
    nlinarith

/-- the accumulation loop `vi += float64(y[i]) / float64(q[i])` -/
def accum (l : List (ℕ × ℕ)) : ℚ :=
  l.foldl (fun vi yq => fm.add vi (fm.div (fm.ofNat yq.1) (fm.ofNat yq.2))) 0

/-- the exact sum -/
def exactSum (l : List (ℕ × ℕ)) : ℚ := (l.map fun yq => (yq.1 : ℚ) / yq.2).sum

theorem exactSum_bounds (l : List (ℕ × ℕ)) (h : ∀ yq ∈ l, yq.1 < yq.2) :
    0 ≤ exactSum l ∧ exactSum l ≤ l.length := by
  induction l with
  | nil => simp [exactSum]
  | cons a l ih =>
    obtain ⟨h1, h2⟩ := ih fun yq hy => h yq (List.mem_cons_of_mem _ hy)
    have ha := h a List.mem_cons_self
    have hq : (0 : ℚ) < a.2 := by exact_mod_cast (by omega : 0 < a.2)
    have hle : (a.1 : ℚ) / a.2 ≤ 1 := by
      rw [div_le_one hq]; exact_mod_cast ha.le
    have hge : 0 ≤ (a.1 : ℚ) / a.2 := by positivity
    simp only [exactSum, List.map_cons, List.sum_cons, List.length_cons] at *
    push_cast
    constructor <;> linarith

/-- Error of the floating-point correction sum. -/
theorem accum_err (l : List (ℕ × ℕ)) (h : ∀ yq ∈ l, yq.1 < yq.2) (hn : l.length ≤ 2 ^ 20) :
    |fm.accum l - exactSum l| ≤ l.length * (l.length + 8) * unitRoundoff ∧ 0 ≤ fm.accum l := by
  induction l using List.reverseRecOn with
  | nil => simp [accum, exactSum]
  | append_singleton l a ih =>
    have hlen : (l ++ [a]).length = l.length + 1 := by simp
    rw [hlen] at hn ⊢
    obtain ⟨ih1, ih2⟩ := ih (fun yq hy => h yq (List.mem_append_left _ hy)) (by omega)
    obtain ⟨eb0, eb1⟩ := exactSum_bounds l fun yq hy => h yq (List.mem_append_left _ hy)
    have ha := h a (by simp)
    obtain ⟨t1, t2⟩ := fm.term_err a.1 a.2 ha
    have hq : (0 : ℚ) < a.2 := by exact_mod_cast (by omega : 0 < a.2)
    have hle : (a.1 : ℚ) / a.2 ≤ 1 := by
      rw [div_le_one hq]; exact_mod_cast ha.le
    have hge : 0 ≤ (a.1 : ℚ) / a.2 := by positivity
    have hacc : fm.accum (l ++ [a]) = fm.rnd (fm.accum l + fm.div (fm.ofNat a.1) (fm.ofNat a.2)) := by
      simp [accum, add]
    have hsum : exactSum (l ++ [a]) = exactSum l + (a.1 : ℚ) / a.2 := by
      simp [exactSum]
    rw [hacc, hsum]
    set A := fm.accum l
    set b := fm.div (fm.ofNat a.1) (fm.ofNat a.2)
    set T := exactSum l
    set t := (a.1 : ℚ) / a.2
    have hu0 : (0 : ℚ) < unitRoundoff := by unfold unitRoundoff; positivity
    have hAb : 0 ≤ A + b := by linarith
    have r := fm.err _ hAb
    set n : ℚ := (l.length : ℚ) with hndef
    have hn0 : 0 ≤ n := by positivity
    have hn1 : n ≤ 2 ^ 20 := by rw [hndef]; exact_mod_cast (by omega : l.length ≤ 2 ^ 20)
    have hsmall : n * (n + 8) * unitRoundoff ≤ 1 := by
      unfold unitRoundoff
      have : n * (n + 8) ≤ 2 ^ 53 := by nlinarith
      rw [mul_one_div, div_le_one (by positivity)]; exact this
    refine ⟨?_, fm.rnd_nonneg hAb⟩
    set u := unitRoundoff
    have hu1 : u ≤ 1 / 1000 := by show (1 : ℚ) / 2 ^ 53 ≤ _; norm_num
    rw [abs_le] at *
    push_cast
    have hA : A ≤ n + 1 := by linarith [ih1.2]
    have hAb2 : A + b ≤ n + 3 := by linarith [t1.2]
    have hr : u * (A + b) ≤ u * (n + 3) := mul_le_mul_of_nonneg_left hAb2 hu0.le
    have hgoal : n * (n + 8) * u + 4 * u + u * (n + 3) ≤ (n + 1) * (n + 1 + 8) * u := by nlinarith
    constructor
    · linarith [r.1, t1.1, ih1.1]
    · linarith [r.2, t1.2, ih1.2]

end FloatModel
end MKHE
