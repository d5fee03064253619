import Mathlib.Analysis.SpecialFunctions.Pow.Real
import Verif.Base.Float

set_option autoImplicit false

/-!
# The floating-point helpers of `mkckks/utils.go` (10-28, 185-191)

float64 values are real numbers, the two infinities and NaN; every operation on finite operands is the exact
operation followed by a rounding function (`F64`). The contract states what is used of IEEE-754
round-to-nearest: relative error at most `2^-53` for both signs, and exactness on the integers up to `2^53`.
Overflow and underflow are not modelled (as in `Base/Float`); division by zero and NaN are.
-/

namespace MKHE

/-- float64 rounding of real numbers of either sign -/
structure F64 where
  rnd : ℝ → ℝ
  err : ∀ x, |rnd x - x| ≤ (unitRoundoff : ℝ) * |x|
  exact_nat : ∀ n : ℕ, n ≤ 2 ^ 53 → rnd n = n

/-- a float64 value -/
inductive Flt where
  | num (x : ℝ)
  | posInf
  | negInf
  | nan

namespace F64
variable (fm : F64)

/-- `a + b`; simplification: an infinite operand makes the result NaN (no operand of this code is infinite
unless a previous division was by zero, and then NaN is the only case used) -/
noncomputable def add : Flt → Flt → Flt
  | .num a, .num b => .num (fm.rnd (a + b))
  | _, _ => .nan

/-- `a - b`, same simplification -/
noncomputable def sub : Flt → Flt → Flt
  | .num a, .num b => .num (fm.rnd (a - b))
  | _, _ => .nan

/-- `a * b`, same simplification -/
noncomputable def mul : Flt → Flt → Flt
  | .num a, .num b => .num (fm.rnd (a * b))
  | _, _ => .nan

open Classical in
/-- `a / b`: a division by zero gives an infinity of the sign of `a` (of a positive zero), or NaN for `0 / 0` -/
noncomputable def div : Flt → Flt → Flt
  | .num a, .num b =>
    if b = 0 then (if a = 0 then .nan else if 0 < a then .posInf else .negInf) else .num (fm.rnd (a / b))
  | _, _ => .nan

open Classical in
/-- `math.Sqrt(a)`: correctly rounded; NaN for negative operands -/
noncomputable def sqrt : Flt → Flt
  | .num a => if a < 0 then .nan else .num (fm.rnd (Real.sqrt a))
  | _ => .nan

/-- the first loop of `StandardDeviation` (utils.go:16-18): `mean += c` -/
noncomputable def sumLoop (vec : List ℝ) : Flt :=
  vec.foldl (fun mean c => fm.add mean (.num c)) (.num 0)

/-- the second loop of `StandardDeviation` (utils.go:22-25): `tmp = c - mean; err += tmp * tmp` -/
noncomputable def errLoop (vec : List ℝ) (mean : Flt) : Flt :=
  vec.foldl (fun err c => fm.add err (fm.mul (fm.sub (.num c) mean) (fm.sub (.num c) mean))) (.num 0)

/-- `StandardDeviation(vec, scale)` (utils.go:10-28), `float64(len(vec))` being rounded -/
noncomputable def standardDeviation (vec : List ℝ) (scale : ℝ) : Flt :=
  let n : Flt := .num (fm.rnd (vec.length : ℝ))
  let mean := fm.div (fm.sumLoop vec) n
  fm.mul (fm.sqrt (fm.div (fm.errLoop vec mean) n)) (.num scale)

/-- `scaleDown(coeff, n)` (utils.go:185-191): `big.Float.SetInt` is exact, `Float64` rounds to nearest, then one
float64 division -/
noncomputable def scaleDown (coeff : ℤ) (n : ℝ) : Flt :=
  fm.div (.num (fm.rnd (coeff : ℝ))) (.num n)

end F64
end MKHE
