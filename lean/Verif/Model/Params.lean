import Verif.Base.Go
import Verif.Base.Float

set_option autoImplicit false

/-!
# Model of mkrlwe/params.go: gadget dimensions and the common reference strings
-/

namespace MKHE

/-- The numbers of a parameter set that the gadget layout depends on: number of Q and P primes, `gamma` (`Gamma()`, params.go:73-75), `LogN`. -/
structure Dims where
  qCount : ℕ
  pCount : ℕ
  gamma : ℕ
  logN : ℕ

namespace Dims

/-- `Alpha` (params.go:63-65): Go integer division. -/
def alpha (d : Dims) : ℕ := d.pCount / d.gamma

/-- `Beta(levelQ)` (params.go:67-71): `int(math.Ceil(float64(levelQ+1) / float64(alpha)))`. For `alpha = 0` the
Go program converts +Inf to int (unspecified); the model is only used with `1 ≤ alpha`. -/
def beta (fm : FloatModel) (d : Dims) (levelQ : ℕ) : ℕ :=
  FloatModel.ceilInt (fm.div (fm.ofNat (levelQ + 1)) (fm.ofNat d.alpha))

/-- `MaxLevel` (rlwe.Parameters): `QCount - 1`. -/
def maxLevel (d : Dims) : ℕ := d.qCount - 1

/-- the ring degree, `N = 2^LogN` -/
def N (d : Dims) : ℕ := 2 ^ d.logN

end Dims

/-- A switching key: a list of `Beta` components of type `C` (`rlwe.PolyQP`). -/
abbrev SwkList (C : Type*) := List C

/-- The CRS map together with the number of uniform samples read so far. `Parameters.CRS` (params.go:10). -/
structure CrsState (C : Type*) where
  crs : GoMap ℤ (SwkList C)
  used : ℕ

section
variable {C : Type*} (rand : ℕ → C) (mform : C → C)

/-- The inner loop of NewParameters (params.go:52-57) and of AddCRS (93-98): `n` fresh uniform components, put in
Montgomery form. `rand` is the stream of uniform polynomials (samplers Q and P read together). -/
def sampleSwk (used n : ℕ) : SwkList C × ℕ :=
  ((List.range n).map fun i => mform (rand (used + i)), used + n)

/-- Body of the loop over `idxs` in NewParameters (params.go:49-58). -/
def genCrs (n : ℕ) (s : CrsState C) (idx : ℤ) : CrsState C :=
  let (swk, used) := sampleSwk rand mform s.used n
  ⟨s.crs.insert idx swk, used⟩

/-- The index list of NewParameters (params.go:37-46). -/
def crsIdxs (logN : ℕ) : List ℤ :=
  [0, -1, -2, -3, -4] ++ (List.range (logN - 1)).map fun i => (2 : ℤ) ^ i

/-- `NewParameters` (params.go:16-61), the CRS part. -/
def newCrs (fm : FloatModel) (d : Dims) : CrsState C :=
  let alpha := d.pCount / d.gamma
  let beta := FloatModel.ceilInt (fm.div (fm.ofNat d.qCount) (fm.ofNat alpha))
  (crsIdxs d.logN).foldl (genCrs rand mform beta) ⟨∅, 0⟩

/-- `AddCRS(idx)` (params.go:77-99). -/
def addCrs (fm : FloatModel) (d : Dims) (s : CrsState C) (idx : ℤ) : CrsState C :=
  genCrs rand mform (d.beta fm d.maxLevel) s idx

end
end MKHE
