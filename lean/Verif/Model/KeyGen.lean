import Verif.Model.Elements

set_option autoImplicit false

/-!
# Model of mkrlwe/keygen.go

Randomness: a sampler is the stream of the integer polynomials it returns (`gs : ℕ → Nega N ℤ` for the Gaussian sampler of the
key generator, with a read position in its state). Theorems quantify over all streams within the sampler's bound. A sampler writes the
residues of its polynomial to the rows of Q.
-/

namespace MKHE
variable {N : ℕ} [NeZero N]

/-- the reduced word of an integer -/
def intWord (q : ℕ) (x : ℤ) : Word q := toWord q (x % (q : ℤ)).toNat

variable {C : Ctx N}

/-- what `Sampler.Read` writes to a row when it samples the polynomial `x` -/
def smallRow (q : ℕ) (x : Nega N ℤ) : Limb N q := fun t => intWord q (x t)

/-- `Sampler.Read` on all rows of Q -/
def smallRows (x : Nega N ℤ) : QRows C := fun i => smallRow (C.q i) x

/-- `ringQP.ExtendBasisSmallNormAndCenter(polyInQ, levelP, nil, polyOutP)` of lattigo v2.3.0: the coefficient is read from the first row of Q,
centered (`coeff > Q>>1` means negative) and written to the rows of P as `coeff` or `pi - coeff`. For a coefficient larger than `pi`,
which a sampler bound below all primes excludes, the program would store an unreduced or wrapped word; the model clamps it. -/
def extendSmall (row0 : Limb N (C.q 0)) : PRows C := fun j t =>
  if C.q 0 / 2 < (row0 t).val then toWord (C.p j) (C.p j - (C.q 0 - (row0 t).val)) else toWord (C.p j) (row0 t).val

/-- sample `x` into a polynomial of QP: `Read` then `ExtendBasisSmallNormAndCenter` (keygen.go:50-51, 101-102, 129-130, 299-300) -/
def sampleQP (x : Nega N ℤ) (old : PolyQP C) : PolyQP C :=
  setQP (C.nQ - 1) ⟨smallRows x, extendSmall (smallRows (C := C) x 0)⟩ old

/-- `SecretKey` (keys.go:7-10) -/
structure SKey (C : Ctx N) where
  id : String
  value : PolyQP C

/-- `PublicKey` (keys.go:22-25) -/
structure PKey (C : Ctx N) where
  id : String
  v0 : PolyQP C
  v1 : PolyQP C

/-- the mutable state of `KeyGenerator` (keygen.go:13-20): read position of the Gaussian sampler, `poolQ`, `poolQP` -/
structure KG (C : Ctx N) where
  pos : ℕ
  poolQ : QRows C
  poolQP : PolyQP C

/-- `genSecretKeyFromSampler` (keygen.go:44-55) for a sampler that returns `x` -/
def genSecretKeyFromSampler (x : Nega N ℤ) (id : String) : SKey C :=
  let v : PolyQP C := sampleQP x PolyQP.zero
  let v := qpNTT (C.nQ - 1) v v
  ⟨id, qpMForm (C.nQ - 1) v v⟩

/-- `GenSecretKey`, `GenSecretKeyWithDistrib`, `GenSecretKeySparse` (keygen.go:58-85): a fresh ternary sampler that returns `x` -/
def genSecretKey (x : Nega N ℤ) (id : String) : SKey C := genSecretKeyFromSampler x id

/-- `GenSecretKeyGaussian` (keygen.go:63-65) -/
def genSecretKeyGaussian (gs : ℕ → Nega N ℤ) (st : KG C) (id : String) : SKey C × KG C :=
  (genSecretKeyFromSampler (gs st.pos) id, { st with pos := st.pos + 1 })

/-- `GenPublicKey` (keygen.go:88-109) -/
def genPublicKey (crs : GoMap ℤ (Swk C)) (gs : ℕ → Nega N ℤ) (st : KG C) (sk : SKey C) : Go (PKey C × KG C) := do
  let v0 : PolyQP C := sampleQP (gs st.pos) PolyQP.zero
  let v0 := qpNTT (C.nQ - 1) v0 v0
  let a ← crs.deref 0
  if a.len = 0 then .error .indexOutOfRange
  else
    let v1 : PolyQP C := setQP (C.nQ - 1) (a.val 0) PolyQP.zero
    let v0 := qpMulSub (C.nQ - 1) sk.value v1 v0
    .ok (⟨sk.id, v0, v1⟩, { st with pos := st.pos + 1 })

/-- `GenKeyPair` (keygen.go:112-115) -/
def genKeyPair (crs : GoMap ℤ (Swk C)) (gs : ℕ → Nega N ℤ) (st : KG C) (x : Nega N ℤ) (id : String) : Go (SKey C × PKey C × KG C) := do
  let sk := genSecretKey x id
  let w ← genPublicKey crs gs st sk
  .ok (sk, w.1, w.2)

/-- `GenKeyPairSparse` (keygen.go:118-121): the argument `sk.ID` is read from the named result `sk`, which is still nil -/
def genKeyPairSparse (crs : GoMap ℤ (Swk C)) (gs : ℕ → Nega N ℤ) (st : KG C) (x : Nega N ℤ) : Go (SKey C × PKey C × KG C) := do
  let sk0 : Option (SKey C) := none
  let sk0 ← orNil sk0
  let sk := genSecretKey x sk0.id
  let w ← genPublicKey crs gs st sk
  .ok (sk, w.1, w.2)

/-- `GenGaussianError(e)` (keygen.go:123-133) -/
def genGaussianError (gs : ℕ → Nega N ℤ) (pos : ℕ) (e : PolyQP C) : PolyQP C :=
  let e := sampleQP (gs pos) e
  qpNTT (C.nQ - 1) e e

/-- `p1tmp[w] = ring.CRed(p1tmp[w]+p0tmp[w], qi)` on one row (keygen.go:321-323) -/
def addRow (q : ℕ) (p1 p0 : Limb N q) : Limb N q := fun w =>
  toWord q (if q ≤ (p1 w).val + (p0 w).val then (p1 w).val + (p0 w).val - q else (p1 w).val + (p0 w).val)

/-- `for j := 0; j < alpha; j++ { index = i*alpha+j; if index >= levelQ+1 { break }; ... }` (keygen.go:308-324), from `j` on with `n`
iterations left -/
def gadgetLoop (i : ℕ) (p0 : QRows C) : ℕ → ℕ → QRows C → QRows C
  | 0, _, p1 => p1
  | n + 1, j, p1 =>
    if C.nQ ≤ i * C.alpha + j then p1
    else gadgetLoop i p0 n (j + 1) (Function.update p1 (i * C.alpha + j) (addRow _ (p1 (i * C.alpha + j)) (p0 (i * C.alpha + j))))

/-- one block of `GenSwitchingKey` (keygen.go:294-324) -/
def genSwkBlock (x : Nega N ℤ) (poolQ : QRows C) (i : ℕ) (old : PolyQP C) : PolyQP C :=
  let v := sampleQP x old
  let v := qpNTT (C.nQ - 1) v v
  let v := qpMForm (C.nQ - 1) v v
  { v with Q := gadgetLoop i poolQ C.alpha 0 v.Q }

/-- `GenSwitchingKey(skIn, swk)` (keygen.go:270-327). `levelP` is always `PCount - 1`, so the first branch of the computation of `P` is
taken. -/
def genSwitchingKey (gs : ℕ → Nega N ℤ) (st : KG C) (skIn : SKey C) (swk : Swk C) : Go (Swk C × KG C) := do
  let st := { st with poolQ := setQ (C.nQ - 1) (fun i => (C.RQ i).mulScalar C.P (skIn.value.Q i)) st.poolQ }
  Go.loop (fun (w : Swk C × KG C) i =>
    if w.1.len ≤ i then .error .indexOutOfRange
    else .ok (⟨w.1.len, Function.update w.1.val i (genSwkBlock (gs w.2.pos) w.2.poolQ i (w.1.val i))⟩, { w.2 with pos := w.2.pos + 1 }))
    (swk, st) (List.range (C.beta (C.nQ - 1)))

/-- `NewSwitchingKey` (keys.go:261-269): `Beta(MaxLevel)` zero components -/
def Swk.new : Swk C := ⟨C.beta (C.nQ - 1), fun _ => PolyQP.zero⟩

/-- `for i < beta { swk[i] = f(crs[i], swk[i]) }`, the loops over blocks of keygen.go -/
def mapBlocks (f : PolyQP C → PolyQP C → PolyQP C) (a : Swk C) (swk : Swk C) : Go (Swk C) :=
  Go.loop (fun (w : Swk C) i =>
    if a.len ≤ i ∨ w.len ≤ i then .error .indexOutOfRange
    else .ok ⟨w.len, Function.update w.val i (f (a.val i) (w.val i))⟩) swk (List.range (C.beta (C.nQ - 1)))

/-- one block of `b` (keygen.go:163-169): `b = MForm(e - InvMForm(a*s))` -/
def relinB (sk : SKey C) (a tmp old : PolyQP C) : PolyQP C :=
  let b := qpMul (C.nQ - 1) a sk.value old
  let b := qpInvMForm (C.nQ - 1) b b
  let b := qpSub (C.nQ - 1) tmp b b
  qpMForm (C.nQ - 1) b b

/-- one block of `v` (keygen.go:181-185): `v = -(v + u*s)` -/
def relinV (sk : SKey C) (u v : PolyQP C) : PolyQP C :=
  let v := qpMulAdd (C.nQ - 1) u sk.value v
  setQP (C.nQ - 1) ⟨fun i => (C.RQ i).neg (v.Q i), fun j => (C.RP j).neg (v.P j)⟩ v

/-- `GenRelinearizationKey(sk, r)` (keygen.go:137-187). The nil CRS of a missing index is used in the first iteration of a loop that
runs at least once. -/
def genRelinearizationKey (crs : GoMap ℤ (Swk C)) (gs : ℕ → Nega N ℤ) (st : KG C) (sk r : SKey C) : Go (Rlk C × KG C) := do
  if C.nP = 0 then .error (.panic "modulus P is empty")
  else
    let a ← crs.deref 0
    let b ← Go.loop (fun (w : Swk C × KG C) i =>
      if a.len ≤ i ∨ w.1.len ≤ i then .error .indexOutOfRange
      else
        let tmp := genGaussianError gs w.2.pos w.2.poolQP
        .ok (⟨w.1.len, Function.update w.1.val i (relinB sk (a.val i) tmp (w.1.val i))⟩, { w.2 with pos := w.2.pos + 1, poolQP := tmp }))
      (Swk.new, st) (List.range (C.beta (C.nQ - 1)))
    let d ← genSwitchingKey gs b.2 sk Swk.new
    let dv ← mapBlocks (fun a d => qpMulSub (C.nQ - 1) a r.value d) a d.1
    let v ← genSwitchingKey gs d.2 r Swk.new
    let u ← crs.deref (-1)
    let vv ← mapBlocks (relinV sk) u v.1
    .ok (⟨sk.id, b.1, dv, vv⟩, v.2)

/-- `PermuteNTTWithIndexLvl` of a secret key on all rows (keygen.go:213-216, 253-255), into a new key -/
def permKey (g : ℕ) (sk : SKey C) : SKey C :=
  ⟨sk.id, setQP (C.nQ - 1) ⟨fun i => (C.RQ i).permNTT g (sk.value.Q i), fun j => (C.RP j).permNTT g (sk.value.P j)⟩ PolyQP.zero⟩

/-- `GenRotationKey(rotidx, sk)` (keygen.go:190-229) -/
def genRotationKey (crs : GoMap ℤ (Swk C)) (gs : ℕ → Nega N ℤ) (st : KG C) (rotidx : ℤ) (sk : SKey C) : Go (GalKey C × KG C) := do
  if (crs.lookup rotidx).isNone then .error (.panic "Cannot GenRotationKey: CRS for given rot idx is not generated")
  else
    let r := adjustIdx N rotidx
    let skOut := permKey (galElInv N (galElCol N r.toNat)) sk
    let w ← genSwitchingKey gs st sk Swk.new
    let a ← crs.deref r
    let v ← mapBlocks (fun a d => qpMulSub (C.nQ - 1) a skOut.value d) a w.1
    .ok (⟨sk.id, r.toNat, v⟩, w.2)

/-- `for rotidx := 1; rotidx < N/2; rotidx *= 2 { ... }` (keygen.go:232-237), at most `fuel` iterations -/
def defaultRotLoop (crs : GoMap ℤ (Swk C)) (gs : ℕ → Nega N ℤ) (sk : SKey C) : ℕ → ℕ → RotKeySet (GalKey C) → KG C →
    Go (RotKeySet (GalKey C) × KG C)
  | 0, _, set, st => .ok (set, st)
  | fuel + 1, k, set, st =>
    if k < N / 2 then do
      let w ← genRotationKey crs gs st k sk
      defaultRotLoop crs gs sk fuel (2 * k) (set.add GalKey.id GalKey.rotIdx w.1) w.2
    else .ok (set, st)

/-- `GenDefaultRotationKeys(sk, rtkSet)` (keygen.go:232-237); `N` iterations are enough -/
def genDefaultRotationKeys (crs : GoMap ℤ (Swk C)) (gs : ℕ → Nega N ℤ) (st : KG C) (sk : SKey C) (set : RotKeySet (GalKey C)) :
    Go (RotKeySet (GalKey C) × KG C) := defaultRotLoop crs gs sk N 1 set st

/-- `GenConjugationKey(sk)` (keygen.go:240-267); conjugation keys have no index -/
def genConjugationKey (crs : GoMap ℤ (Swk C)) (gs : ℕ → Nega N ℤ) (st : KG C) (sk : SKey C) : Go (GalKey C × KG C) := do
  let skOut := permKey (galElRow N) sk
  let w ← genSwitchingKey gs st skOut Swk.new
  let a ← crs.deref (-2)
  let v ← mapBlocks (fun a d => qpMulSub (C.nQ - 1) a sk.value d) a w.1
  .ok (⟨sk.id, 0, v⟩, w.2)

end MKHE
