import Verif.Model.Ckks

set_option autoImplicit false

/-!
# Model of mkckks/utils.go

Big integers are integers. `big.Float` values and float64 values are rational numbers with explicit rounding. Moduli are positive and below
`2^63`. Slices are lists; an access out of range is a fault.
-/

namespace MKHE

/-- argument of `interfaceMod`: `uint64`, `int64`, `*big.Int` or another type -/
inductive ModArg where
  | uint64 (n : ℕ)
  | int64 (z : ℤ)
  | big (z : ℤ)
  | other

/-- `interfaceMod(x, qi)` (utils.go:30-57). `Int.tmod` is Go's `%` on int64, `%` on `ℤ` is `big.Int.Mod`. -/
def interfaceMod (q : ℕ) : ModArg → Go ℕ
  | .uint64 n => .ok (n % q)
  | .int64 z =>
    if 0 < z then .ok z.toNat
    else if z < 0 then .ok ((q : ℤ) + z.tmod q).toNat
    else .ok 0
  | .big z => if z ≠ 0 then .ok (z % q).toNat else .ok 0
  | .other => .error (.panic "constant must either be uint64, int64 or *big.Int")

/-- `genBigIntChain(Q)` (utils.go:193-202) -/
def genBigIntChain (Q : List ℕ) : Go (List ℕ) :=
  match Q with
  | [] => .error .indexOutOfRange
  | q0 :: _ => .ok (forN (Q.length - 1) (fun c i => c.set (i + 1) (Q.getD (i + 1) 0 * c.getD i 0)) ((List.replicate Q.length 0).set 0 q0))

/-- `GenSwitchkeysRescalingParams(Q, P)` (utils.go:205-224) -/
def genSwitchkeysRescalingParams (Q P : List ℕ) : List ℕ :=
  let PBig := P.foldl (fun a p => a * p) 1
  Q.map fun q => mformW (modExp (PBig % q) (q - 2) q) q

/-- `a[j][i] = w` -/
def set2 (a : List (List ℕ)) (j i w : ℕ) : Go (List (List ℕ)) :=
  match a[j]? with
  | none => .error .indexOutOfRange
  | some r => if i < r.length then .ok (a.set j (r.set i w)) else .error .indexOutOfRange

/-- the word written by `scaleUpVecExact` for one value and one modulus (utils.go:97-131). `ovf` stands for Go's implementation-defined conversion of
a float64 that is `2^64` or more to uint64. The constant `1.8446744073709552e+19` is `2^64`. -/
def scaleUpWord (fm : FloatModel) (ovf : ℚ → ℕ) (n v : ℚ) (q : ℕ) : ℕ :=
  let x := fm.rnd (n * |v|)
  let y := fm.rnd (x + 1 / 2)
  if 2 ^ 64 < x then
    if v < 0 then q - ⌊y⌋₊ % q else ⌊y⌋₊ % q
  else
    let u := if y < 2 ^ 64 then ⌊y⌋₊ else ovf y
    if v < 0 then q - u % q else u % q

/-- the loop over the moduli (utils.go:112-119, 123-129) -/
def scaleUpCol (fm : FloatModel) (ovf : ℚ → ℕ) (n : ℚ) (moduli : List ℕ) (i : ℕ) (v : ℚ) (coeffs : List (List ℕ)) : Go (List (List ℕ)) :=
  Go.loop (fun c j => set2 c j i (scaleUpWord fm ovf n v (moduli.getD j 0))) coeffs (List.range moduli.length)

/-- the loop that clears the rest of a row (utils.go:134-141); the bound is the length of row 0 -/
def clearRest (len0 from' : ℕ) (moduli : List ℕ) (coeffs : List (List ℕ)) : Go (List (List ℕ)) :=
  Go.loop (fun c i => Go.loop (fun c j => set2 c i (from' + j) 0) c (List.range (len0 - from'))) coeffs (List.range moduli.length)

/-- `scaleUpVecExact(values, n, moduli, coeffs)` (utils.go:88-142) -/
def scaleUpVecExact (fm : FloatModel) (ovf : ℚ → ℕ) (values : List ℚ) (n : ℚ) (moduli : List ℕ) (coeffs : List (List ℕ)) : Go (List (List ℕ)) := do
  let c ← Go.loop (fun c i => scaleUpCol fm ovf n moduli i (values.getD i 0) c) coeffs (List.range values.length)
  match c with
  | [] => .error .indexOutOfRange
  | r0 :: _ => if values.length < r0.length then clearRest r0.length values.length moduli c else .ok c

/-- `xFlo.Int(xInt)`: truncation toward zero -/
def truncInt (x : ℚ) : ℤ := if x < 0 then ⌈x⌉ else ⌊x⌋

/-- the integer computed by `scaleUpVecExactBigFloat` (utils.go:159-167); `rnd` is the rounding of `big.Float` to the precision of the values -/
def bigFloatInt (rnd : ℚ → ℚ) (scale v : ℚ) : ℤ :=
  let x := rnd (scale * v)
  truncInt (if v < 0 then rnd (x - 1 / 2) else rnd (x + 1 / 2))

/-- the word it writes for a modulus (utils.go:169-180) -/
def bigFloatWord (rnd : ℚ → ℚ) (scale v : ℚ) (q : ℕ) : ℕ :=
  let t := (bigFloatInt rnd scale v % q).toNat
  if v < 0 then t + q else t

/-- `scaleUpVecExactBigFloat(values, scale, moduli, coeffs)` (utils.go:144-182) -/
def scaleUpVecExactBigFloat (rnd : ℚ → ℚ) (values : List ℚ) (scale : ℚ) (moduli : List ℕ) (coeffs : List (List ℕ)) : Go (List (List ℕ)) :=
  match values with
  | [] => .error .indexOutOfRange
  | _ :: _ =>
    Go.loop (fun c i => Go.loop (fun c j => set2 c j i (bigFloatWord rnd scale (values.getD i 0) (moduli.getD j 0))) c (List.range moduli.length))
      coeffs (List.range values.length)

/-! ## bit reversal -/

/-- `for j >= bit { j -= bit; bit >>= 1 }` (utils.go:235-238). With `bit = 0` the Go loop does not end: `none`. -/
def revInner (j bit : ℕ) : Option (ℕ × ℕ) :=
  if h : bit = 0 then none
  else if bit ≤ j then revInner (j - bit) (bit / 2) else some (j, bit)
  termination_by bit
  decreasing_by omega

/-- `slice[i], slice[j] = slice[j], slice[i]` -/
def swapAt {α : Type*} (s : List α) (i j : ℕ) : Go (List α) :=
  match s[i]?, s[j]? with
  | some a, some b => .ok ((s.set i b).set j a)
  | _, _ => .error .indexOutOfRange

/-- one iteration of the outer loop (utils.go:231-245) -/
def revStep {α : Type*} (N : ℕ) (w : ℕ × List α) (i : ℕ) : Go (ℕ × List α) :=
  match revInner w.1 (N / 2) with
  | none => .error (.panic "the inner loop does not end")
  | some (j, bit) =>
    if i < j + bit then do
      let s ← swapAt w.2 i (j + bit)
      .ok (j + bit, s)
    else .ok (j + bit, w.2)

/-- `SliceBitReverseInPlaceFloat64`, `SliceBitReverseInPlaceComplex128`, `SliceBitReverseInPlaceRingComplex` (utils.go:227-290): the three bodies are
the same. -/
def sliceBitReverse {α : Type*} (s : List α) (N : ℕ) : Go (List α) := do
  let w ← Go.loop (revStep N) (0, s) ((List.range (N - 1)).map (· + 1))
  .ok w.2

end MKHE
