import Verif.Base.Limb
import Verif.Lemmas.Decompose

set_option autoImplicit false

/-!
# Polynomials, switching keys and the parameter context

A `Ctx` is an `mkrlwe.Parameters` (mkrlwe/params.go:8-12) together with the ring operations of lattigo.
-/

namespace MKHE
open Finset

/-- Parameters: `nQ` primes `q`, `nP` special primes `p`, `gamma`, the degree `N = 2^logN`, the lattigo row operations for
each prime and the float64 model. Entries of `q`, `p` beyond the counts are never used. -/
structure Ctx (N : ℕ) [NeZero N] where
  fm : FloatModel
  nQ : ℕ
  nP : ℕ
  gamma : ℕ
  logN : ℕ
  q : ℕ → ℕ
  p : ℕ → ℕ
  RQ : ∀ i, LimbOps N (q i)
  RP : ∀ j, LimbOps N (p j)

variable {N : ℕ} [NeZero N]

namespace Ctx
variable (C : Ctx N)

/-- the numbers used by params.go -/
def dims : Dims := ⟨C.nQ, C.nP, C.gamma, C.logN⟩

/-- `Alpha()` (params.go:63-65) -/
def alpha : ℕ := C.dims.alpha

/-- `Beta(level)` (params.go:67-71) -/
def beta (level : ℕ) : ℕ := C.dims.beta C.fm level

/-- the product of all special primes (`ringP.ModulusBigint`) -/
def P : ℕ := ∏ j ∈ range C.nP, C.p j

/-- Hypotheses on a parameter set: what lattigo's parameter constructor checks (distinct odd primes below 2^61), `gamma`
divides `PCount` (or `alpha = 1`), word-size bounds for the lazy accumulations, and a degree of at most `2^31` (lattigo allows
at most `2^16`). -/
structure Valid : Prop where
  pair : GoodPair C.nQ C.q C.nP C.p
  g1 : 1 ≤ C.gamma
  gle : C.gamma ≤ C.nP
  gdiv : C.gamma ∣ C.nP ∨ C.nP / C.gamma = 1
  q1 : 1 ≤ C.nQ
  nQ53 : C.nQ < 2 ^ 53
  le32 : C.nP ≤ 32
  sumP : ∑ j ∈ range C.nP, C.p j ≤ W64
  sumQ : ∀ s n, n ≤ C.nP / C.gamma → s + n ≤ C.nQ → ∑ k ∈ range n, C.q (s + k) ≤ W64
  hN : N = 2 ^ C.logN
  log1 : 1 ≤ C.logN
  log31 : C.logN ≤ 31

/-- product of the Q primes of block `k` up to `level` -/
def blockProd (level k : ℕ) : ℕ := ∏ i ∈ range (blockLen level C.alpha k), C.q (k * C.alpha + i)

end Ctx

/-- rows modulo the Q primes -/
abbrev QRows (C : Ctx N) := (i : ℕ) → Limb N (C.q i)
/-- rows modulo the P primes -/
abbrev PRows (C : Ctx N) := (j : ℕ) → Limb N (C.p j)

/-- `ring.Poly` over Q: `len` rows (level + 1) and the `IsNTT` flag. Rows from `len` on do not exist in the program. -/
structure Poly (C : Ctx N) where
  len : ℕ
  isNTT : Bool
  rows : QRows C

/-- `rlwe.PolyQP`, always allocated with all rows -/
structure PolyQP (C : Ctx N) where
  Q : QRows C
  P : PRows C

/-- `mkrlwe.SwitchingKey` (keys.go:45-47): `len` components -/
structure Swk (C : Ctx N) where
  len : ℕ
  val : ℕ → PolyQP C

/-- `mkrlwe.Ciphertext` (elements.go:17-19) as a value: a map from id to polynomial. Allocation and sharing of
polynomials is the subject of `Verif/Model/Heap.lean`. -/
abbrev Ct (C : Ctx N) := GoMap String (Poly C)

/-- `mkrlwe.HoistedCiphertext` (elements.go:5-7); `NewHoistedCiphertext` (elements.go:9-15) is the empty map -/
abbrev HoistedCt (C : Ctx N) := GoMap String (Swk C)

variable {C : Ctx N}

/-- zero rows -/
def PolyQP.zero : PolyQP C := ⟨fun _ => Limb.zero, fun _ => Limb.zero⟩

/-- replace the rows up to `level` -/
def setQ (level : ℕ) (new old : QRows C) : QRows C := fun i => if i ≤ level then new i else old i

/-- replace the first `n` rows -/
def setP (n : ℕ) (new old : PRows C) : PRows C := fun j => if j < n then new j else old j

/-- replace the rows up to `level` and all P rows -/
def setQP (level : ℕ) (new old : PolyQP C) : PolyQP C := ⟨setQ level new.Q old.Q, setP C.nP new.P old.P⟩

/-- rows up to `level` exist; otherwise Go panics with an index out of range -/
def Poly.need (level : ℕ) (a : Poly C) : Go Unit := if level < a.len then .ok () else .error .indexOutOfRange

/-- `Poly.Copy` of lattigo: copies the rows that exist on both sides, and the flag -/
def Poly.copy (dst src : Poly C) : Poly C :=
  ⟨dst.len, src.isNTT, fun i => if i < min dst.len src.len then src.rows i else dst.rows i⟩

/-- write rows up to `level` of a polynomial -/
def Poly.set (level : ℕ) (new : QRows C) (a : Poly C) : Poly C := { a with rows := setQ level new a.rows }

/-! ## ring operations of lattigo on all rows up to a level -/

/-- `ringQP.MulCoeffsMontgomeryLvl(level, levelP, a, b, c)` -/
def qpMul (level : ℕ) (a b c : PolyQP C) : PolyQP C :=
  setQP level ⟨fun i => (C.RQ i).mulMont (a.Q i) (b.Q i), fun j => (C.RP j).mulMont (a.P j) (b.P j)⟩ c

/-- `ringQP.MulCoeffsMontgomeryAndAddLvl(level, levelP, a, b, c)` -/
def qpMulAdd (level : ℕ) (a b c : PolyQP C) : PolyQP C :=
  setQP level ⟨fun i => (C.RQ i).mulMontAdd (a.Q i) (b.Q i) (c.Q i), fun j => (C.RP j).mulMontAdd (a.P j) (b.P j) (c.P j)⟩ c

/-- `ringQP.MulCoeffsMontgomeryAndSubLvl(level, levelP, a, b, c)` -/
def qpMulSub (level : ℕ) (a b c : PolyQP C) : PolyQP C :=
  setQP level ⟨fun i => (C.RQ i).mulMontSub (a.Q i) (b.Q i) (c.Q i), fun j => (C.RP j).mulMontSub (a.P j) (b.P j) (c.P j)⟩ c

/-- `ringQP.MFormLvl(level, levelP, a, b)` -/
def qpMForm (level : ℕ) (a b : PolyQP C) : PolyQP C :=
  setQP level ⟨fun i => (C.RQ i).mform (a.Q i), fun j => (C.RP j).mform (a.P j)⟩ b

/-- `ringQP.InvMFormLvl(level, levelP, a, b)` -/
def qpInvMForm (level : ℕ) (a b : PolyQP C) : PolyQP C :=
  setQP level ⟨fun i => (C.RQ i).invMform (a.Q i), fun j => (C.RP j).invMform (a.P j)⟩ b

/-- `ringQP.SubLvl(level, levelP, a, b, c)` -/
def qpSub (level : ℕ) (a b c : PolyQP C) : PolyQP C :=
  setQP level ⟨fun i => (C.RQ i).sub (a.Q i) (b.Q i), fun j => (C.RP j).sub (a.P j) (b.P j)⟩ c

/-- `ringQP.NTTLvl(level, levelP, a, b)` -/
def qpNTT (level : ℕ) (a b : PolyQP C) : PolyQP C :=
  setQP level ⟨fun i => (C.RQ i).ntt (a.Q i), fun j => (C.RP j).ntt (a.P j)⟩ b

end MKHE
