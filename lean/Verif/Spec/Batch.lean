import Mathlib.Data.ZMod.Basic
import Mathlib.Algebra.BigOperators.Group.Finset.Basic

set_option autoImplicit false

/-!
# Specification vocabulary for batched BFV messages

A message is a matrix of two rows and `N/2` columns over the integers modulo `t`; columns are counted modulo `N/2`. The entry in column `j` of the
first row is the value of the plaintext polynomial at `ψ^(5^j)`, that of the second row its value at `ψ^(-5^j)`, for a fixed primitive `2N`-th root
of unity `ψ` modulo `t` (the convention of the lattigo encoder that `mkbfv` uses).
-/

namespace MKHE.Batch
open Finset

/-- a matrix with two rows (`false` the first, `true` the second); the columns are numbered by the integers -/
abbrev Mat (t : ℕ) := Bool → ℤ → ZMod t

/-- column number `j`, reduced to `0 ≤ j < N/2` -/
def col (N : ℕ) (j : ℤ) : ℕ := (j % ((N / 2 : ℕ) : ℤ)).toNat

/-- the power of `ψ` that belongs to an entry: `5^j` in the first row and `-5^j` (modulo `2N`) in the second -/
def expo (N : ℕ) (row : Bool) (j : ℤ) : ℕ := if row then (2 * N - 1) * 5 ^ col N j else 5 ^ col N j

/-- the entries of the polynomial with integer coefficients `m` -/
def entries {N t : ℕ} (ψ : ZMod t) (m : Fin N → ℤ) : Mat t := fun row j => ∑ k : Fin N, (m k : ZMod t) * ψ ^ (expo N row j * (k : ℕ))

/-- sum, difference and product, entry by entry -/
def add {t : ℕ} (x y : Mat t) : Mat t := fun row j => x row j + y row j
def sub {t : ℕ} (x y : Mat t) : Mat t := fun row j => x row j - y row j
def mul {t : ℕ} (x y : Mat t) : Mat t := fun row j => x row j * y row j

/-- rotation of the columns: column `j` of the result is column `j + r`, in both rows -/
def rotCols {t : ℕ} (r : ℤ) (x : Mat t) : Mat t := fun row j => x row (j + r)

/-- exchange of the rows -/
def swapRows {t : ℕ} (x : Mat t) : Mat t := fun row j => x (!row) j

end MKHE.Batch
