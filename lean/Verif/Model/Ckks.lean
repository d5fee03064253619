import Verif.Model.Elements

set_option autoImplicit false

/-!
# Model of mkckks/evaluator.go

Scales are float64 values, that is rational numbers with rounded operations (`FloatModel`). Scales are assumed positive, so that
no infinities arise. Each evaluator function takes the mutable state of the evaluator explicitly.
-/

namespace MKHE
variable {N : ℕ} [NeZero N] (C : Ctx N)

/-- `mkckks.Ciphertext` (mkckks/elements.go:5-8) -/
structure CCt where
  ct : Ct C
  scale : ℚ

/-- the mutable state of `mkckks.Evaluator` (evaluator.go:13-18): key switcher pools, `ctxtPool`, `polyQPool` -/
structure Eval where
  ksw : Scratch C
  pool : Ct C
  polyQ : QRows C

variable {C}

/-- `a * b` on float64 -/
def FloatModel.mul (fm : FloatModel) (a b : ℚ) : ℚ := fm.rnd (a * b)

/-! ## rotations -/

/-- the two normalization loops (evaluator.go:498-504, 588-594; mkbfv/evaluator.go:165-171) -/
def rotNorm (N : ℕ) (r : ℤ) : ℤ := adjustIdx N (subWhileGe (N / 2 : ℕ) r.natAbs r)

/-- `for k := 1; rotidx > 0; k *= 2 { if rotidx%2 != 0 { Rotate(ctTmp, k, ctOut); ctTmp.Copy(ctOut) }; rotidx /= 2 }`
(evaluator.go:518-524, mkbfv/evaluator.go:183-189). The schedule gives each iteration its own orders. -/
def rotLoop (crs : GoMap ℤ (Swk C)) (o : ℕ → Sched String) (rks : RotKeySet (GalKey C)) :
    ℕ → ℕ → Ct C → Ct C → Scratch C → Go (Ct C × Scratch C)
  | k, r, tmp, out, S =>
    if h : 0 < r then
      if r % 2 ≠ 0 then do
        let w ← rotate crs (o k) S tmp k rks out
        let tmp ← tmp.copyFrom (o k 60) w.1
        rotLoop crs o rks (2 * k) (r / 2) tmp w.1 w.2
      else rotLoop crs o rks (2 * k) (r / 2) tmp out S
    else .ok (out, S)
  termination_by _ r => r
  decreasing_by all_goals omega

/-- `rotate` (evaluator.go:494-526) -/
def ckksRotate (crs : GoMap ℤ (Swk C)) (o : ℕ → Sched String) (S : Scratch C) (ct : Ct C) (rotidx : ℤ) (rks : RotKeySet (GalKey C))
    (out : Ct C) : Go (Ct C × Scratch C) := do
  let r := rotNorm N rotidx
  if r = 0 then
    let out ← out.copyFrom (o 0 61) ct
    .ok (out, S)
  else if (crs.lookup r).isSome then rotate crs (o 0) S ct r rks out
  else
    let tmp ← ct.copyNew (o 0 62)
    rotLoop crs o rks 1 r.toNat tmp out S

/-- `RotateNew` (evaluator.go:484-489) -/
def ckksRotateNew (crs : GoMap ℤ (Swk C)) (o : ℕ → Sched String) (E : Eval C) (ct : CCt C) (rotidx : ℤ) (rks : RotKeySet (GalKey C)) :
    Go (CCt C × Eval C) := do
  let ids ← IDSet.ofCiphertext (o 0 63) ct.ct
  let level ← ct.ct.level
  let w ← ckksRotate crs o E.ksw ct.ct rotidx rks (Ct.new (o 0 64) ids level)
  .ok (⟨w.1, ct.scale⟩, { E with ksw := w.2 })

/-- `rotateHoisted` (evaluator.go:593-617) -/
def ckksRotateHoisted (crs : GoMap ℤ (Swk C)) (o : ℕ → Sched String) (S : Scratch C) (ct : Ct C) (rotidx : ℤ) (h : HoistedCt C)
    (rks : RotKeySet (GalKey C)) (out : Ct C) : Go (Ct C × Scratch C) := do
  let r := rotNorm N rotidx
  if r = 0 then
    let out ← out.copyFrom (o 0 61) ct
    .ok (out, S)
  else if (crs.lookup r).isSome then rotateHoisted crs (o 0) S ct r h rks out
  else .error (.panic "Hoisted rotation only works for precomputed rotation keys")

/-- `RotateHoistedNew` (evaluator.go:585-589) -/
def ckksRotateHoistedNew (crs : GoMap ℤ (Swk C)) (o : ℕ → Sched String) (E : Eval C) (ct : CCt C) (rotidx : ℤ) (h : HoistedCt C)
    (rks : RotKeySet (GalKey C)) : Go (CCt C × Eval C) := do
  let ids ← IDSet.ofCiphertext (o 0 63) ct.ct
  let level ← ct.ct.level
  let w ← ckksRotateHoisted crs o E.ksw ct.ct rotidx h rks (Ct.new (o 0 64) ids level)
  .ok (⟨w.1, ct.scale⟩, { E with ksw := w.2 })

/-- `ConjugateNew` and `conjugate` (evaluator.go:530-540) -/
def ckksConjugateNew (permLevel : ℕ) (crs : GoMap ℤ (Swk C)) (o : Sched String) (E : Eval C) (ct : CCt C) (cks : KeySet (GalKey C)) :
    Go (CCt C × Eval C) := do
  let ids ← IDSet.ofCiphertext (o 63) ct.ct
  let level ← ct.ct.level
  let w ← conjugate permLevel crs o E.ksw ct.ct cks (Ct.new (o 64) ids level)
  .ok (⟨w.1, ct.scale⟩, { E with ksw := w.2 })

/-! ## hoisting and multiplication -/

/-- `HoistedForm(ct)` (evaluator.go:543-553); `NewSwitchingKey` allocates `Beta(MaxLevel)` zero components -/
def hoistedForm (o : Sched String) (S : Scratch C) (ct : Ct C) : Go (HoistedCt C × Scratch C) := do
  let ids ← IDSet.ofCiphertext (o 70) ct
  Go.loop (fun (st : HoistedCt C × Scratch C) id => do
    let level ← ct.level
    let a ← ct.deref id
    let w ← decompose st.2 level a ⟨C.beta (C.nQ - 1), fun _ => PolyQP.zero⟩
    .ok (st.1.insert id w.1, w.2)) (∅, S) (GoMap.range (o 71) ids.value)

/-- `for id := range idset.Value { Decompose(op.Level(), op.Value[id], pool[id]) }` (evaluator.go:421-423, 431-437) -/
def hoistInto (o1 o2 : Order String) (S : Scratch C) (op : Ct C) (pool : HoistedCt C) : Go (HoistedCt C × Scratch C) := do
  let ids ← IDSet.ofCiphertext o1 op
  Go.loop (fun (st : HoistedCt C × Scratch C) id => do
    let level ← op.level
    let a ← op.deref id
    let ad ← st.1.deref id
    let w ← decompose st.2 level a ad
    .ok (st.1.insert id w.1, w.2)) (pool, S) (GoMap.range o2 ids.value)

/-- `DropLevel(ct0, levels)` (evaluator.go:106-112). A slice bound below zero, or beyond the rows a component has, is a panic (Go
would let a slice grow again up to its capacity; components always have the level of the ciphertext, so that this does not
arise). -/
def dropLevel (o : Order String) (ct : Ct C) (levels : ℕ) : Go (Ct C) := do
  let p0 ← ct.deref "0"
  if p0.len < levels then .error .indexOutOfRange
  else Go.loop (fun (ct : Ct C) id => do
    let p ← ct.deref id
    if p.len < p0.len - levels then .error .indexOutOfRange
    else .ok (ct.insert id { p with len := p0.len - levels })) ct (GoMap.range o ct)

/-- `DropLevelNew` (evaluator.go:98-102) -/
def dropLevelNew (o o' : Order String) (ct : CCt C) (levels : ℕ) : Go (CCt C) := do
  let out ← ct.ct.copyNew o
  let out ← dropLevel o' out levels
  .ok ⟨out, ct.scale⟩

/-- `newCiphertextBinary` (evaluator.go:306-313) -/
def newCiphertextBinary (o : Sched String) (op0 op1 : CCt C) : Go (CCt C) := do
  let l0 ← op0.ct.level
  let l1 ← op1.ct.level
  let ids0 ← IDSet.ofCiphertext (o 80) op0.ct
  let ids1 ← IDSet.ofCiphertext (o 81) op1.ct
  let ids ← IDSet.union (o 82) (o 83) ids0 ids1
  .ok ⟨Ct.new (o 84) ids (min l0 l1), max op0.scale op1.scale⟩

/-- one division by the prime `q_L` with rounding, on one row: lattigo's `DivRoundByLastModulusLvl`. It adds `half = (q_L-1)/2` to
the last row and reduces it (`c`, a word below `q_L`), and returns `(x + half - c) / q_L` modulo the prime of the row, canonical. -/
noncomputable def divRoundRow (q qL : ℕ) (x : Limb N q) (c : Fin N → ℕ) : Limb N q := fun t =>
  toWord q (((((x t).val : ℕ) : ZMod q) + (((qL - 1) / 2 : ℕ) : ZMod q) - (c t : ZMod q)) * ((qL : ℕ) : ZMod q)⁻¹).val

/-- `DivRoundByLastModulusLvl(L, x, ·)` of lattigo: rows `0..L-1` -/
noncomputable def divRoundStep (L : ℕ) (x : QRows C) : QRows C := fun i =>
  if i < L then divRoundRow (C.q i) (C.q L) (x i) (fun t => ((x L t).val + (C.q L - 1) / 2) % C.q L) else x i

/-- `DivRoundByLastModulusManyLvl(L, nb, x, pool, ·)` of lattigo: `nb` such divisions. The intermediate results go through a pool
that is overwritten before it is read. -/
noncomputable def divRoundMany : ℕ → ℕ → QRows C → QRows C
  | _, 0, x => x
  | L, nb + 1, x => divRoundMany (L - 1) nb (divRoundStep L x)

/-- the loop over the scale (evaluator.go:378-383): `l + 1` is `ctIn.Level() - nbRescales + 1`. At `0` the next access is
`Modulus[-1]`: the program tests the index after using it. -/
def rescaleLoop (fm : FloatModel) (q : ℕ → ℕ) (thr : ℚ) : ℕ → ℚ → ℕ → Go (ℚ × ℕ)
  | 0, _, _ => .error .indexOutOfRange
  | l + 1, s, nb => if thr ≤ fm.div s (fm.ofNat (q l)) then rescaleLoop fm q thr l (fm.div s (fm.ofNat (q l))) (nb + 1) else .ok (s, nb)

/-- `Rescale(ctIn, minScale, ctOut)` (evaluator.go:359-398). Returns the error value, if any, and the contents of `ctOut`.
`same` tells whether `ctIn` and `ctOut` are the same object; then `out = ctIn` and the loop reads from the object it writes. With no division and distinct objects the
program rebinds its local variable `ctOut` only, so that nothing reaches the caller's object but the scale. -/
noncomputable def rescale (o : Order String) (ctIn : CCt C) (minScale : ℚ) (out : CCt C) (same : Bool) : Go (Option String × CCt C) := do
  if minScale ≤ 0 then .ok (some "cannot Rescale: minScale is 0", out)
  else if ctIn.scale = 0 then .ok (some "cannot Rescale: ciphertext scale is 0", out)
  else
    let level ← ctIn.ct.level
    if level = 0 then .ok (some "cannot Rescale: input Ciphertext already at level 0", out)
    else
      let w ← rescaleLoop C.fm C.q (C.fm.div minScale 2) (level + 1) ctIn.scale 0
      if 0 < w.2 then
        let ct ← Go.loop (fun (ct : Ct C) id => do
          let a ← (if same then ct else ctIn.ct).deref id
          let b ← ct.deref id
          a.need level
          if b.len < level + 1 - w.2 then .error .indexOutOfRange
          else .ok (ct.insert id { b with len := level + 1 - w.2, rows := setQ (level - w.2) (divRoundMany level w.2 a.rows) b.rows }))
          out.ct (GoMap.range o out.ct)
        .ok (none, ⟨ct, w.1⟩)
      else if same then .ok (none, ⟨out.ct, w.1⟩)
      else
        let _ctOut ← ctIn.ct.copyNew o   -- `ctOut = ctIn.CopyNew()`: the caller's object is not written
        .ok (none, ⟨out.ct, w.1⟩)

/-- `RescaleNew` (evaluator.go:406-411) -/
noncomputable def rescaleNew (o : Sched String) (ct : CCt C) (thr : ℚ) : Go (Option String × CCt C) := do
  let ids ← IDSet.ofCiphertext (o 85) ct.ct
  let level ← ct.ct.level
  rescale (o 86) ct thr ⟨Ct.new (o 87) ids level, ct.scale⟩ false

/-- `mulRelinHoisted` (evaluator.go:570-581) -/
noncomputable def ckksMulRelinHoisted (pscale : ℚ) (crs : GoMap ℤ (Swk C)) (o : Sched String) (E : Eval C) (op0 op1 : CCt C)
    (h0 h1 : Option (HoistedCt C)) (rlk : RlkMap C) (out : CCt C) : Go (CCt C × Eval C) := do
  let l0 ← op0.ct.level
  let l1 ← op1.ct.level
  let lo ← out.ct.level
  let level := min (min l0 l1) lo
  let ct ← if level < lo then dropLevel (o 90) out.ct (lo - level) else .ok out.ct
  let w ← mulAndRelinHoisted crs o E.ksw op0.ct op1.ct h0 h1 rlk ct
  let r ← rescale (o 91) ⟨w.1, C.fm.mul op0.scale op1.scale⟩ pscale ⟨w.1, C.fm.mul op0.scale op1.scale⟩ true
  .ok (r.2, { E with ksw := w.2 })

/-- `mulRelin` (evaluator.go:449-460) -/
noncomputable def ckksMulRelin (pscale : ℚ) (crs : GoMap ℤ (Swk C)) (o : Sched String) (E : Eval C) (op0 op1 : CCt C) (rlk : RlkMap C)
    (out : CCt C) : Go (CCt C × Eval C) := do
  let l0 ← op0.ct.level
  let l1 ← op1.ct.level
  let lo ← out.ct.level
  let level := min (min l0 l1) lo
  let ct ← if level < lo then dropLevel (o 90) out.ct (lo - level) else .ok out.ct
  let w ← mulAndRelin crs o E.ksw op0.ct op1.ct rlk ct
  let r ← rescale (o 91) ⟨w.1, C.fm.mul op0.scale op1.scale⟩ pscale ⟨w.1, C.fm.mul op0.scale op1.scale⟩ true
  .ok (r.2, { E with ksw := w.2 })

/-- `MulRelinHoistedNew` (evaluator.go:558-564) -/
noncomputable def ckksMulRelinHoistedNew (pscale : ℚ) (crs : GoMap ℤ (Swk C)) (o : Sched String) (E : Eval C) (op0 op1 : CCt C)
    (h0 h1 : Option (HoistedCt C)) (rlk : RlkMap C) : Go (CCt C × Eval C) := do
  let out ← newCiphertextBinary o op0 op1
  ckksMulRelinHoisted pscale crs o E op0 op1 h0 h1 rlk { out with scale := 0 }

/-- `MulRelinNew` (evaluator.go:416-443). `same` is the test `op0 == op1` on pointers; when it holds, `op0 = op1`. Returns the
key set with its updated pools. -/
noncomputable def ckksMulRelinNew (pscale : ℚ) (crs : GoMap ℤ (Swk C)) (o : Sched String) (E : Eval C) (same : Bool) (op0 op1 : CCt C)
    (rlk : RlkMap C) : Go (CCt C × Eval C × RlkMap C) := do
  if same then
    let w ← hoistInto (o 92) (o 93) E.ksw op0.ct rlk.pool0
    let rlk := { rlk with pool0 := w.1 }
    let r ← ckksMulRelinHoistedNew pscale crs o { E with ksw := w.2 } op0 op1 (some rlk.pool0) (some rlk.pool0) rlk
    .ok (r.1, r.2, rlk)
  else
    let w ← hoistInto (o 92) (o 93) E.ksw op0.ct rlk.pool0
    let rlk := { rlk with pool0 := w.1 }
    let w ← hoistInto (o 94) (o 95) w.2 op1.ct rlk.pool1
    let rlk := { rlk with pool1 := w.1 }
    let r ← ckksMulRelinHoistedNew pscale crs o { E with ksw := w.2 } op0 op1 (some rlk.pool0) (some rlk.pool1) rlk
    .ok (r.1, r.2, rlk)

/-- `MulPtxtNew(ct, pt)` (evaluator.go:465-481), before the final `Rescale` -/
def mulPtxtRaw (o : Sched String) (E : Eval C) (ct : CCt C) (pt : Poly C) (ptScale : ℚ) : Go (CCt C × Eval C) := do
  let ids ← IDSet.ofCiphertext (o 100) ct.ct
  let level ← ct.ct.level
  let out := Ct.new (o 101) ids level
  pt.need level
  let E := { E with polyQ := setQ level (fun i => (C.RQ i).ntt (pt.rows i)) E.polyQ }
  let E := { E with polyQ := setQ level (fun i => (C.RQ i).mform (E.polyQ i)) E.polyQ }
  let out ← Go.loop (fun (out : Ct C) id => do
    let a ← ct.ct.deref id
    a.need level
    let out ← out.upd level id fun _ i => (C.RQ i).ntt (a.rows i)
    let out ← out.upd level id fun old i => (C.RQ i).mulMont (old i) (E.polyQ i)
    out.upd level id fun old i => (C.RQ i).intt (old i)) out (GoMap.range (o 102) ct.ct)
  .ok (⟨out, C.fm.mul ct.scale ptScale⟩, E)

/-- `MulPtxtNew(ct, pt)` (evaluator.go:465-481) -/
noncomputable def mulPtxtNew (pscale : ℚ) (o : Sched String) (E : Eval C) (ct : CCt C) (pt : Poly C) (ptScale : ℚ) : Go (CCt C × Eval C) := do
  let w ← mulPtxtRaw o E ct pt ptScale
  let r ← rescale (o 103) w.1 pscale w.1 true
  .ok (r.2, w.2)

/-! ## multiplication by constants -/

/-- a constant argument of `MultByConst` (`interface{}`): `complex128`, `float64`, `uint64`, `int64`/`int`, or any other type -/
inductive Const where
  | cplx (re im : ℚ)
  | flt (r : ℚ)
  | uint (n : ℕ)
  | int (z : ℤ)
  | other

/-- `cReal - float64(int64(cReal)) != 0` (evaluator.go:50-54): true for every value that is not an integer in the range of int64. (Out
of range Go's conversion is implementation-defined; on amd64 it gives `-2^63`, hence a non-zero difference.) -/
def needsScale (c : ℚ) : Bool := ! decide (-(2 ^ 63) ≤ c ∧ c < 2 ^ 63 ∧ (⌊c⌋ : ℚ) = c)

/-- `float64` of an integer -/
def FloatModel.ofInt (fm : FloatModel) (z : ℤ) : ℚ := if z < 0 then - fm.ofNat z.natAbs else fm.ofNat z.natAbs

/-- `getConstAndScale` (evaluator.go:40-94): real part, imaginary part, scale; `ql` is the prime of the level. A constant of an
unsupported type falls through the switch and counts as zero. -/
def getConstAndScale (fm : FloatModel) (ql : ℕ) : Const → ℚ × ℚ × ℚ
  | .cplx re im => (re, im, if (re ≠ 0 ∧ needsScale re) ∨ (im ≠ 0 ∧ needsScale im) then fm.ofNat ql else 1)
  | .flt r => (r, 0, if r ≠ 0 ∧ needsScale r then fm.ofNat ql else 1)
  | .uint n => (fm.ofNat n, 0, 1)
  | .int z => (fm.ofInt z, 0, 1)
  | .other => (0, 0, 1)

/-- `scaleUpExact(value, n, q)` (utils.go:59-86). `big.NewFloat` keeps 53 bits of precision and `Add` rounds to it; the exponent range
of `big.Float` is unbounded. For a negative multiple of `q` the result is the word `q`. -/
def scaleUpExact (fm : FloatModel) (v n : ℚ) (q : ℕ) : ℕ :=
  let x := ⌊fm.rnd (fm.rnd (n * |v|) + 1 / 2)⌋₊ % q
  if v < 0 then q - x else x

/-- the two multipliers of a row (evaluator.go:131-153, 178-181), before `MForm`: the first for the coefficients below `N/2`, the
second for the others. `mredPsi` is the map `x ↦ ring.MRed(x, NttPsi[i][1], qi, _)`. -/
def constWords (fm : FloatModel) (mredPsi : ℕ → ℕ) (q : ℕ) (c : ℚ × ℚ × ℚ) : ℕ × ℕ :=
  let re := if c.1 ≠ 0 then scaleUpExact fm c.1 c.2.2 q else 0
  let im := if c.2.1 ≠ 0 then mredPsi (scaleUpExact fm c.2.1 c.2.2 q) else 0
  if c.2.1 ≠ 0 then (cred (re + im) q, cred (re + (q - im)) q) else (re, re)

/-- one row: `z[j] = MRed(x[j], MForm(scaledConst))` (evaluator.go:155-196) -/
def constRow {q : ℕ} (L : LimbOps N q) (w : ℕ × ℕ) (x : Limb N q) : Limb N q :=
  L.mulMont x (L.mform fun t => toWord q (if (t : ℕ) < N / 2 then w.1 else w.2))

/-- `MultByConst(ct0, constant, ctOut)` (evaluator.go:117-198). The program loops over rows outside and components inside; rows and
components do not interact. `same` tells whether `ct0` and `ctOut` are the same object (then `out = ct0`): the program then reads from
the object it is writing. The inner loops are unrolled by eight through unsafe pointers: unless `N/2` is a multiple of eight they
run past the end of the row, which the model reports as a panic. -/
def multByConst (mredPsi : ℕ → ℕ → ℕ) (o : Order String) (same : Bool) (ct0 : CCt C) (c : Const) (out : CCt C) : Go (CCt C) := do
  if N % 16 ≠ 0 then .error (.panic "unsafe access outside of the row")
  else
    let l0 ← ct0.ct.level
    let lo ← out.ct.level
    let level := min l0 lo
    let k := getConstAndScale C.fm (C.q level) c
    let ct ← Go.loop (fun (ct : Ct C) id => do
      let a ← (if same then ct else ct0.ct).deref id
      a.need level
      ct.upd level id fun _ i => constRow (C.RQ i) (constWords C.fm (mredPsi i) (C.q i) k) (a.rows i)) out.ct (GoMap.range o ct0.ct)
    .ok ⟨ct, C.fm.mul ct0.scale k.2.2⟩

/-! ## addition and subtraction -/

/-- `evaluate(level, a, b, c)` for a ring operation `f`: `c` gets new rows up to the level -/
def evalRows (f : (i : ℕ) → Limb N (C.q i) → Limb N (C.q i) → Limb N (C.q i)) (level : ℕ) (a b c : Poly C) : Go (Poly C) := do
  a.need level
  b.need level
  c.need level
  .ok (c.set level fun i => f i (a.rows i) (b.rows i))

/-- `ring.CopyValuesLvl(level, src, dst)` of lattigo -/
def copyLvl (level : ℕ) (dst src : Poly C) : Go (Poly C) := do
  src.need level
  dst.need level
  .ok (dst.set level src.rows)

/-- the loop body of `evaluateInPlace` (evaluator.go:293-301, mkbfv/evaluator.go:36-44); `cp dst src` copies a polynomial -/
def evalStep (f : (i : ℕ) → Limb N (C.q i) → Limb N (C.q i) → Limb N (C.q i)) (level : ℕ) (cp : Poly C → Poly C → Go (Poly C))
    (tmp0 tmp1 : Ct C) (ids0 ids1 : IDSet) (out : Ct C) (id : String) : Go (Ct C) :=
  if ids0.has id = false then do
    let b ← tmp1.deref id
    let p ← out.deref id
    let p ← cp p b
    .ok (out.insert id p)
  else if ids1.has id = false then do
    let a ← tmp0.deref id
    let p ← out.deref id
    let p ← cp p a
    .ok (out.insert id p)
  else do
    let a ← tmp0.deref id
    let b ← tmp1.deref id
    let p ← out.deref id
    let p ← evalRows f level a b p
    .ok (out.insert id p)

/-- the end of `evaluateInPlace` (evaluator.go:291-302, mkbfv/evaluator.go:35-44) -/
def evalCore (f : (i : ℕ) → Limb N (C.q i) → Limb N (C.q i) → Limb N (C.q i)) (level : ℕ) (cp : Poly C → Poly C → Go (Poly C))
    (o1 o2 : Order String) (tmp0 tmp1 : Ct C) (ids0 ids1 : IDSet) (out : Ct C) : Go (Ct C) := do
  let a ← tmp0.deref "0"
  let b ← tmp1.deref "0"
  let p ← out.deref "0"
  let p ← evalRows f level a b p
  let out := out.insert "0" p
  let ids ← IDSet.ofCiphertext o1 out
  Go.loop (evalStep f level cp tmp0 tmp1 ids0 ids1) out (GoMap.range o2 ids.value)

/-- the scale alignment of `evaluateInPlace` for a receiver that is neither operand (evaluator.go:269-289): the operands to use, and
the pool. `pool` is `ctxtPool.El()`: the first component that is `none` stands for the pool itself. -/
def alignScales (mredPsi : ℕ → ℕ → ℕ) (o : Order String) (c0 c1 : CCt C) (pool : Ct C) (outScale : ℚ) : Go (Ct C × Ct C × Ct C) :=
  if c0.scale < c1.scale ∧ 1 < ⌊C.fm.div c1.scale c0.scale⌋ then do
    let t ← multByConst mredPsi o false c0 (.flt ⌊C.fm.div c1.scale c0.scale⌋) ⟨pool, outScale⟩
    .ok (t.ct, c1.ct, t.ct)
  else if c1.scale < c0.scale ∧ 1 < ⌊C.fm.div c0.scale c1.scale⌋ then do
    let t ← multByConst mredPsi o false c1 (.flt ⌊C.fm.div c0.scale c1.scale⌋) ⟨pool, outScale⟩
    .ok (c0.ct, t.ct, t.ct)
  else .ok (c0.ct, c1.ct, pool)

/-- `evaluateInPlace(c0, c1, ctOut, evaluate)` (evaluator.go:200-304) when `ctOut` is neither operand, the only case that the public
functions reach (`AddNew`, `SubNew`) -/
def ckksEvaluateInPlace (f : (i : ℕ) → Limb N (C.q i) → Limb N (C.q i) → Limb N (C.q i)) (mredPsi : ℕ → ℕ → ℕ) (o : Sched String)
    (E : Eval C) (c0 c1 out : CCt C) : Go (CCt C × Eval C) := do
  let ids0 ← IDSet.ofCiphertext (o 120) c0.ct
  let ids1 ← IDSet.ofCiphertext (o 121) c1.ct
  let ids ← IDSet.union (o 122) (o 123) ids0 ids1
  let pool ← E.pool.pad (o 124) (o 125) ids
  let l0 ← c0.ct.level
  let l1 ← c1.ct.level
  let lo ← out.ct.level
  let level := min (min l0 l1) lo
  let ct ← if level < lo then dropLevel (o 126) out.ct (lo - min l0 l1) else .ok out.ct
  let t ← alignScales mredPsi (o 127) c0 c1 pool out.scale
  let ct ← evalCore f level (copyLvl level) (o 128) (o 129) t.1 t.2.1 ids0 ids1 ct
  .ok (⟨ct, out.scale⟩, { E with pool := t.2.2 })

/-- `AddNew` (evaluator.go:316-326) -/
def ckksAddNew (mredPsi : ℕ → ℕ → ℕ) (o : Sched String) (E : Eval C) (c0 c1 : CCt C) : Go (CCt C × Eval C) := do
  let out ← newCiphertextBinary o c0 c1
  ckksEvaluateInPlace (fun i => (C.RQ i).add) mredPsi o E c0 c1 out

/-- the negation loop of `sub` (evaluator.go:335-341, mkbfv/evaluator.go:66-70) -/
def negNew (level : ℕ) (o1 o2 o3 : Order String) (op0 out : Ct C) : Go (Ct C) := do
  let ids0 ← IDSet.ofCiphertext o1 op0
  let ids ← IDSet.ofCiphertext o2 out
  Go.loop (fun (out : Ct C) id => if ids0.has id = false then out.upd level id fun old i => (C.RQ i).neg (old i) else .ok out) out
    (GoMap.range o3 ids.value)

/-- `SubNew` (evaluator.go:329-351) -/
def ckksSubNew (mredPsi : ℕ → ℕ → ℕ) (o : Sched String) (E : Eval C) (c0 c1 : CCt C) : Go (CCt C × Eval C) := do
  let out ← newCiphertextBinary o c0 c1
  let w ← ckksEvaluateInPlace (fun i => (C.RQ i).sub) mredPsi o E c0 c1 out
  let l0 ← c0.ct.level
  let l1 ← c1.ct.level
  let lo ← w.1.ct.level
  let ct ← negNew (min (min l0 l1) lo) (o 130) (o 131) (o 132) c0.ct w.1.ct
  .ok (⟨ct, w.1.scale⟩, w.2)

end MKHE
