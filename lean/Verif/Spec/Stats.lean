import Mathlib.Analysis.SpecialFunctions.Pow.Real

set_option autoImplicit false

/-! # Textbook mean and (population) standard deviation -/

namespace MKHE.Spec

/-- arithmetic mean -/
noncomputable def mean (v : List ℝ) : ℝ := v.sum / v.length

/-- population standard deviation: root of the mean squared distance to the mean -/
noncomputable def stdDev (v : List ℝ) : ℝ :=
  Real.sqrt ((v.map fun c => (c - mean v) ^ 2).sum / v.length)

end MKHE.Spec
