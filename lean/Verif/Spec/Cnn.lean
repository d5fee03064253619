import Mathlib.Data.Complex.Basic
import Mathlib.Algebra.BigOperators.Group.Finset.Basic

set_option autoImplicit false

/-!
# Specification vocabulary for the encrypted neural network

What the layers compute on vectors of slots. A vector of slots is a function on the integers (with period `N/2`).
-/

namespace MKHE.Cnn
open Finset

/-- the convolution: four kernels against the image shifted by 0, 1, 14 and 15, summed over the four quarters of 1024 slots -/
def slotConv (x : ℤ → ℂ) (k : ℕ → ℤ → ℂ) (j : ℤ) : ℂ :=
  ∑ a ∈ range 4, (x (j + 1024 * a) * k 0 (j + 1024 * a) + x (j + 1024 * a + 1) * k 1 (j + 1024 * a) +
    x (j + 1024 * a + 14) * k 2 (j + 1024 * a) + x (j + 1024 * a + 15) * k 3 (j + 1024 * a))

/-- the first dense layer with `n` diagonals: products with the vector shifted by multiples of 128, summed over windows of 128 slots -/
def slotFc1 (x : ℤ → ℂ) (n : ℕ) (m : ℕ → ℤ → ℂ) (bias : ℤ → ℂ) (j : ℤ) : ℂ :=
  ∑ t ∈ range 128, ∑ i ∈ range n, x (j + t + 128 * i) * m i (j + t) + bias j

/-- the second dense layer: masked slots are spread over the 16 following ones, multiplied, and summed over 64 slots at distance 128 -/
def slotFc2 (x mask m bias : ℤ → ℂ) (j : ℤ) : ℂ :=
  ∑ t ∈ range 64, (∑ u ∈ range 16, mask (j + 128 * t - u) * x (j + 128 * t - u)) * m (j + 128 * t) + bias j

/-! ## the network in the clear

On an image of 28 × 28 pixels: five 4 × 4 kernels with stride 2, square, a dense layer to 64 units, square, a dense layer to 10 classes. -/

/-- output `(i, j)`, `i, j < 13`, of kernel `k` -/
def clearConv (image : ℕ → ℕ → ℂ) (kernel : ℕ → ℕ → ℕ → ℂ) (k i j : ℕ) : ℂ :=
  ∑ y ∈ range 4, ∑ x ∈ range 4, image (2 * i + y) (2 * j + x) * kernel k y x

/-- unit `l < 64`; the weights list the outputs of the convolution by position, then kernel -/
def clearFc1 (image : ℕ → ℕ → ℂ) (kernel : ℕ → ℕ → ℕ → ℂ) (fc1 : ℕ → ℕ → ℂ) (b1 : ℕ → ℂ) (l : ℕ) : ℂ :=
  ∑ k ∈ range 5, ∑ i ∈ range 13, ∑ j ∈ range 13, clearConv image kernel k i j ^ 2 * fc1 (k + 5 * (13 * i + j)) l + b1 l

/-- the score of class `c < 10` -/
def score (image : ℕ → ℕ → ℂ) (kernel : ℕ → ℕ → ℕ → ℂ) (fc1 : ℕ → ℕ → ℂ) (b1 : ℕ → ℂ) (fc2 : ℕ → ℕ → ℂ) (b2 : ℕ → ℂ) (c : ℕ) : ℂ :=
  ∑ l ∈ range 64, clearFc1 image kernel fc1 b1 l ^ 2 * fc2 l c + b2 c

end MKHE.Cnn
