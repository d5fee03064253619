import Verif.Model.BfvMul

set_option autoImplicit false

/-!
# Model of mkbfv/keygen.go

The randomness is modelled as in Verif/Model/KeyGen.lean.
-/

namespace MKHE
variable {N : ℕ} [NeZero N] {B : BCtx N}

/-- `big.Int.ModInverse(g, n)` for coprime `g` and `n` -/
def bigModInverse (g n : ℕ) : ℕ := ((g : ZMod n)⁻¹).val

/-- the product of the primes of block `i` (keygen.go:106-109, 135-138); `Modulus[i*alpha+j]` is a slice of `n` primes -/
def blockMod (n : ℕ) (mods : ℕ → ℕ) (alpha i : ℕ) : Go ℕ :=
  Go.loop (fun (acc : ℕ) j => if n ≤ i * alpha + j then .error .indexOutOfRange else .ok (acc * mods (i * alpha + j))) 1 (List.range alpha)

variable (B) in
/-- `Gi` (keygen.go:110-121, 139-150) for a block with product `blk`: `floor(T * (Q*QMul/blk) * [(Q*QMul/blk)^-1 mod blk] * P / QMul)` -/
def gadgetInt (blk : ℕ) : ℕ :=
  let QQMul := B.Q * B.QMul
  let G := QQMul / blk
  let T := bigModInverse (QQMul / blk) blk
  G * B.t * T * B.C.P / B.QMul

/-- one block (keygen.go:123-131, 152-160): `MForm(InvMForm(sk)*G + e)`; `e` is a new polynomial -/
def genBfvBlock (sk : SKey B.C) (G : ℕ) (e old : PolyQP B.C) : PolyQP B.C :=
  let v := qpInvMForm (B.C.nQ - 1) sk.value old
  let v := setQP (B.C.nQ - 1) ⟨fun i => (B.C.RQ i).mulScalar G (v.Q i), fun j => (B.C.RP j).mulScalar G (v.P j)⟩ v
  let v := setQP (B.C.nQ - 1) ⟨fun i => (B.C.RQ i).add (v.Q i) (e.Q i), fun j => (B.C.RP j).add (v.P j) (e.P j)⟩ v
  qpMForm (B.C.nQ - 1) v v

/-- one of the two loops of `GenBFVSwitchingKey` (keygen.go:105-131 with the primes of Q, 134-160 with those of QMul) -/
def genBfvHalf (mods : ℕ → ℕ) (gs : ℕ → Nega N ℤ) (sk : SKey B.C) (swk : Swk B.C) (st : KG B.C) : Go (Swk B.C × KG B.C) :=
  Go.loop (fun (w : Swk B.C × KG B.C) i => do
    let blk ← blockMod B.C.nQ mods B.C.alpha i
    if w.1.len ≤ i then .error .indexOutOfRange
    else
      let e := genGaussianError gs w.2.pos PolyQP.zero
      .ok (⟨w.1.len, Function.update w.1.val i (genBfvBlock sk (gadgetInt B blk) e (w.1.val i))⟩, { w.2 with pos := w.2.pos + 1 }))
    (swk, st) (List.range (B.C.beta (B.C.nQ - 1)))

/-- `GenBFVSwitchingKey(sk, swk1, swk2)` (keygen.go:91-162) -/
def genBFVSwitchingKey (gs : ℕ → Nega N ℤ) (st : KG B.C) (sk : SKey B.C) (swk1 swk2 : Swk B.C) : Go ((Swk B.C × Swk B.C) × KG B.C) := do
  let w1 ← genBfvHalf B.C.q gs sk swk1 st
  let w2 ← genBfvHalf B.m gs sk swk2 w1.2
  .ok ((w1.1, w2.1), w2.2)

/-- one iteration of the loop that generates `b1` and `b2` (keygen.go:51-63); the state has `b1, b2`, the error polynomials `e1, e2` and
the key generator -/
def genBStep (gs : ℕ → Nega N ℤ) (sk : SKey B.C) (a1 a2 : Swk B.C) (w : (Swk B.C × Swk B.C) × (PolyQP B.C × PolyQP B.C) × KG B.C) (i : ℕ) :
    Go ((Swk B.C × Swk B.C) × (PolyQP B.C × PolyQP B.C) × KG B.C) :=
  if a1.len ≤ i ∨ w.1.1.len ≤ i ∨ a2.len ≤ i ∨ w.1.2.len ≤ i then .error .indexOutOfRange
  else
    let e1 := genGaussianError gs w.2.2.pos w.2.1.1
    let b1 : Swk B.C := ⟨w.1.1.len, Function.update w.1.1.val i (relinB sk (a1.val i) e1 (w.1.1.val i))⟩
    let e2 := genGaussianError gs (w.2.2.pos + 1) w.2.1.2
    let b2 : Swk B.C := ⟨w.1.2.len, Function.update w.1.2.val i (relinB sk (a2.val i) e2 (w.1.2.val i))⟩
    .ok ((b1, b2), (e1, e2), { w.2.2 with pos := w.2.2.pos + 2 })

/-- `GenRelinearizationKey(sk, r)` (keygen.go:24-88). A missing CRS is a nil pointer that the first iteration of a loop, which runs at least
once, dereferences. `Value[1].Value[2]` stays zero. -/
def genBfvRelinearizationKey (crs : GoMap ℤ (Swk B.C)) (gs : ℕ → Nega N ℤ) (st : KG B.C) (sk r : SKey B.C) : Go (BRlk B.C × KG B.C) := do
  let a1 ← crs.deref 0
  let a2 ← crs.deref (-3)
  let b ← Go.loop (genBStep gs sk a1 a2) ((Swk.new, Swk.new), (PolyQP.zero, PolyQP.zero), st) (List.range (B.C.beta (B.C.nQ - 1)))
  let d ← genBFVSwitchingKey gs b.2.2 sk Swk.new Swk.new
  let d1 ← mapBlocks (fun a d => qpMulSub (B.C.nQ - 1) a r.value d) a1 d.1.1
  let d2 ← mapBlocks (fun a d => qpMulSub (B.C.nQ - 1) a r.value d) a2 d.1.2
  let v ← genSwitchingKey gs d.2 r Swk.new
  let u ← crs.deref (-1)
  let vv ← mapBlocks (relinV sk) u v.1
  .ok (⟨sk.id, ⟨sk.id, b.1.1, d1, vv⟩, ⟨sk.id, b.1.2, d2, Swk.new⟩⟩, v.2)

end MKHE
