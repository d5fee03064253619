import Verif.Model.Heap
import Verif.Model.KeyGen
import Verif.Model.BfvKeyGen

set_option autoImplicit false

/-!
# Memory model of the key objects and of the key generator

`Verif/Model/KeyGen.lean` and `Verif/Model/BfvKeyGen.lean` treat keys as values. Here a key is a structure of pointers to `ring.Poly` objects on
the heap of `Verif/Model/Heap.lean`, and the constructors, the copy functions and the functions of the key generators are modelled as the
sequence of reads and writes the program performs. The fields of a key object are not changed after the key was made (no function of the
repository does), so a key object is represented by the pointers it holds. A ring function on PolyQP works on the rows of Q, then on those of P.
-/

namespace MKHE
namespace Heap
variable {N : ℕ} [NeZero N]

/-- `rlwe.PolyQP` of lattigo: two pointers to `ring.Poly` -/
structure QP where
  q : ℕ
  p : ℕ

/-- `SecretKey` (keys.go:6-9) -/
structure SkObj where
  id : String
  value : QP

/-- `PublicKey` (keys.go:17-20) -/
structure PkObj where
  id : String
  v0 : QP
  v1 : QP

/-- `SwitchingKey` (keys.go:23-25): the slice of its components -/
abbrev SwkObj := List QP

/-- `RelinearizationKey` (keys.go:34-37) -/
structure RlkObj where
  id : String
  b : SwkObj
  d : SwkObj
  v : SwkObj

/-- `RotationKey` (keys.go:40-44) and `ConjugationKey` (keys.go:47-50), the latter with index 0 -/
structure GalObj where
  id : String
  rotIdx : ℕ
  value : SwkObj

/-- `mkbfv.RelinearizationKey` (mkbfv/keys.go:6-9) -/
structure BRlkObj where
  id : String
  v0 : RlkObj
  v1 : RlkObj

/-! ## rows with their modulus -/

/-- a row buffer seen as residues modulo `m i` -/
def rdM (m : ℕ → ℕ) (i : ℕ) (r : RowBuf N) : Limb N (m i) := fun t => toWord (m i) (r t)

/-- the rows of a polynomial object modulo the primes `m`; rows that do not exist are shown as zero -/
def rowsOf (m : ℕ → ℕ) (h : Heap N) (p : ℕ) (i : ℕ) : Limb N (m i) :=
  if i < h.len p then rdM m i (h.row (h.addr p i)) else Limb.zero

/-- the value of a PolyQP -/
def qpVal (C : Ctx N) (h : Heap N) (v : QP) : PolyQP C := ⟨rowsOf C.q h v.q, rowsOf C.p h v.p⟩

/-- the loop of a lattigo ring function that may also read its receiver: row by row, `c[i] = f i a[i] b[i] c[i]` -/
def rows3 (n : ℕ) (f : ℕ → RowBuf N → RowBuf N → RowBuf N → RowBuf N) (a b c : ℕ) (h : Heap N) : Heap N :=
  forN n (fun h i => h.setRow (h.addr c i) (f i (h.row (h.addr a i)) (h.row (h.addr b i)) (h.row (h.addr c i)))) h

/-- a row function with typed rows -/
def lift3 {m : ℕ → ℕ} (f : ∀ i, Limb N (m i) → Limb N (m i) → Limb N (m i) → Limb N (m i)) : ℕ → RowBuf N → RowBuf N → RowBuf N → RowBuf N :=
  fun i a b c => wr (f i (rdM m i a) (rdM m i b) (rdM m i c))

/-- a ring function on `n` rows of three polynomials -/
def op3 (m : ℕ → ℕ) (n : ℕ) (f : ∀ i, Limb N (m i) → Limb N (m i) → Limb N (m i) → Limb N (m i)) (a b c : ℕ) (h : Heap N) : Go (Heap N) :=
  if n ≤ h.len a ∧ n ≤ h.len b ∧ n ≤ h.len c then .ok (rows3 n (lift3 f) a b c h) else .error .indexOutOfRange

variable {C : Ctx N}

/-- a function of `ringQP` at levels `QCount-1` and `PCount-1`: first the rows of Q, then those of P -/
def qpOp (f : ∀ i, Limb N (C.q i) → Limb N (C.q i) → Limb N (C.q i) → Limb N (C.q i))
    (g : ∀ j, Limb N (C.p j) → Limb N (C.p j) → Limb N (C.p j) → Limb N (C.p j)) (a b c : QP) (h : Heap N) : Go (Heap N) := do
  let h ← op3 C.q C.nQ f a.q b.q c.q h
  op3 C.p C.nP g a.p b.p c.p h

variable (C) in
/-- `ringQP.MulCoeffsMontgomeryLvl(levelQ, levelP, a, b, c)` -/
def hMul (a b c : QP) (h : Heap N) : Go (Heap N) :=
  qpOp (C := C) (fun i x y _ => (C.RQ i).mulMont x y) (fun j x y _ => (C.RP j).mulMont x y) a b c h

variable (C) in
/-- `ringQP.MulCoeffsMontgomeryAndAddLvl(levelQ, levelP, a, b, c)` -/
def hMulAdd (a b c : QP) (h : Heap N) : Go (Heap N) :=
  qpOp (C := C) (fun i x y z => (C.RQ i).mulMontAdd x y z) (fun j x y z => (C.RP j).mulMontAdd x y z) a b c h

variable (C) in
/-- `ringQP.MulCoeffsMontgomeryAndSubLvl(levelQ, levelP, a, b, c)` -/
def hMulSub (a b c : QP) (h : Heap N) : Go (Heap N) :=
  qpOp (C := C) (fun i x y z => (C.RQ i).mulMontSub x y z) (fun j x y z => (C.RP j).mulMontSub x y z) a b c h

variable (C) in
/-- `ringQP.MFormLvl(levelQ, levelP, a, c)` -/
def hMForm (a c : QP) (h : Heap N) : Go (Heap N) := qpOp (C := C) (fun i x _ _ => (C.RQ i).mform x) (fun j x _ _ => (C.RP j).mform x) a a c h

variable (C) in
/-- `ringQP.InvMFormLvl(levelQ, levelP, a, c)` -/
def hInvMForm (a c : QP) (h : Heap N) : Go (Heap N) :=
  qpOp (C := C) (fun i x _ _ => (C.RQ i).invMform x) (fun j x _ _ => (C.RP j).invMform x) a a c h

variable (C) in
/-- `ringQP.SubLvl(levelQ, levelP, a, b, c)` -/
def hSub (a b c : QP) (h : Heap N) : Go (Heap N) := qpOp (C := C) (fun i x y _ => (C.RQ i).sub x y) (fun j x y _ => (C.RP j).sub x y) a b c h

variable (C) in
/-- `ringQP.AddLvl(levelQ, levelP, a, b, c)` -/
def hAdd (a b c : QP) (h : Heap N) : Go (Heap N) := qpOp (C := C) (fun i x y _ => (C.RQ i).add x y) (fun j x y _ => (C.RP j).add x y) a b c h

variable (C) in
/-- `ringQP.NTTLvl(levelQ, levelP, a, c)` -/
def hNTT (a c : QP) (h : Heap N) : Go (Heap N) := qpOp (C := C) (fun i x _ _ => (C.RQ i).ntt x) (fun j x _ _ => (C.RP j).ntt x) a a c h

variable (C) in
/-- `ringQ.NegLvl(levelQ, a.Q, a.Q)` and `ringP.NegLvl(levelP, a.P, a.P)` (keygen.go:183-184) -/
def hNeg (a : QP) (h : Heap N) : Go (Heap N) := qpOp (C := C) (fun i x _ _ => (C.RQ i).neg x) (fun j x _ _ => (C.RP j).neg x) a a a h

variable (C) in
/-- `RingQ().MulScalarBigint(a.Q, G, a.Q)` and `RingP().MulScalarBigint(a.P, G, a.P)` (mkbfv/keygen.go:124-125, 153-154) -/
def hMulScalar (G : ℕ) (a : QP) (h : Heap N) : Go (Heap N) :=
  qpOp (C := C) (fun i x _ _ => (C.RQ i).mulScalar G x) (fun j x _ _ => (C.RP j).mulScalar G x) a a a h

variable (C) in
/-- `PermuteNTTWithIndexLvl` on Q and on P (keygen.go:213-216, 253-255) -/
def hPerm (g : ℕ) (a c : QP) (h : Heap N) : Go (Heap N) :=
  qpOp (C := C) (fun i x _ _ => (C.RQ i).permNTT g x) (fun j x _ _ => (C.RP j).permNTT g x) a a c h

variable (C) in
/-- `Sampler.Read(v.Q)` returning `x`, then `ExtendBasisSmallNormAndCenter(v.Q, levelP, nil, v.P)`, which reads the first row of Q -/
def hSample (x : Nega N ℤ) (v : QP) (h : Heap N) : Go (Heap N) := do
  let h ← op3 C.q C.nQ (fun i _ _ _ => smallRow (C.q i) x) v.q v.q v.q h
  if h.len v.q = 0 then .error .indexOutOfRange
  else
    let row0 := rdM C.q 0 (h.row (h.addr v.q 0))
    op3 C.p C.nP (fun j _ _ _ => extendSmall (C := C) row0 j) v.p v.p v.p h

variable (C) in
/-- `params.RingQP().NewPoly()` -/
def newQP (h : Heap N) : QP × Heap N :=
  let w := h.allocPoly false (List.replicate C.nQ 0)
  let w' := w.2.allocPoly false (List.replicate C.nP 0)
  (⟨w.1, w'.1⟩, w'.2)

/-- `PolyQP.CopyNew()` of lattigo -/
def qpCopyNew (v : QP) (h : Heap N) : QP × Heap N :=
  let w := h.polyCopyNew v.q
  let w' := w.2.polyCopyNew v.p
  (⟨w.1, w'.1⟩, w'.2)

/-! ## mkrlwe/keys.go, mkbfv/keys.go -/

variable (C) in
/-- `NewSecretKey(params, id)` (keys.go:229-234) -/
def newSecretKey (id : String) (h : Heap N) : SkObj × Heap N := (⟨id, (newQP C h).1⟩, (newQP C h).2)

variable (C) in
/-- `NewPublicKey(params, id)` (keys.go:237-243) -/
def newPublicKey (id : String) (h : Heap N) : PkObj × Heap N :=
  let w := newQP C h
  let w' := newQP C w.2
  (⟨id, w.1, w'.1⟩, w'.2)

variable (C) in
/-- `NewSwitchingKey(params)` (keys.go:245-255) -/
def newSwitchingKey (h : Heap N) : SwkObj × Heap N :=
  (List.range (C.beta (C.nQ - 1))).foldl (fun (w : SwkObj × Heap N) _ => (w.1 ++ [(newQP C w.2).1], (newQP C w.2).2)) ([], h)

variable (C) in
/-- `NewRelinearizationKey(params, id)` (keys.go:258-267) -/
def newRelinearizationKey (id : String) (h : Heap N) : RlkObj × Heap N :=
  let w0 := newSwitchingKey C h
  let w1 := newSwitchingKey C w0.2
  let w2 := newSwitchingKey C w1.2
  (⟨id, w0.1, w1.1, w2.1⟩, w2.2)

variable (C) in
/-- `NewRotationKey(params, rotidx, id)` (keys.go:269-276) -/
def newRotationKey (rotidx : ℕ) (id : String) (h : Heap N) : GalObj × Heap N :=
  (⟨id, rotidx, (newSwitchingKey C h).1⟩, (newSwitchingKey C h).2)

variable (C) in
/-- `NewConjugationKey(params, id)` (keys.go:278-284) -/
def newConjugationKey (id : String) (h : Heap N) : GalObj × Heap N := (⟨id, 0, (newSwitchingKey C h).1⟩, (newSwitchingKey C h).2)

variable (C) in
/-- `mkbfv.NewRelinearizationKey(params, id)` (mkbfv/keys.go:25-33) -/
def newBfvRelinearizationKey (id : String) (h : Heap N) : BRlkObj × Heap N :=
  let w0 := newRelinearizationKey C id h
  let w1 := newRelinearizationKey C id w0.2
  (⟨id, w0.1, w1.1⟩, w1.2)

/-- `SecretKey.CopyNew()` (keys.go:287-297); the copy of nil is nil -/
def skCopyNew (sk : Option SkObj) (h : Heap N) : Option SkObj × Heap N :=
  match sk with
  | none => (none, h)
  | some sk => (some ⟨sk.id, (qpCopyNew sk.value h).1⟩, (qpCopyNew sk.value h).2)

/-- `PublicKey.CopyNew()` (keys.go:300-311) -/
def pkCopyNew (pk : Option PkObj) (h : Heap N) : Option PkObj × Heap N :=
  match pk with
  | none => (none, h)
  | some pk =>
    let w := qpCopyNew pk.v0 h
    let w' := qpCopyNew pk.v1 w.2
    (some ⟨pk.id, w.1, w'.1⟩, w'.2)

/-! ## mkrlwe/keygen.go -/

/-- `KeyGenerator` (keygen.go:13-20): the pointers `poolQ` and `poolQP` -/
structure HKG where
  poolQ : ℕ
  poolQP : QP

/-- `x.Value[i]` of a switching key -/
def blk (s : SwkObj) (i : ℕ) : Go QP :=
  match s[i]? with
  | some v => .ok v
  | none => .error .indexOutOfRange

variable (C) in
/-- `genSecretKeyFromSampler` (keygen.go:44-55) for a sampler that returns `x` -/
def hGenSk (x : Nega N ℤ) (id : String) (h : Heap N) : Go (SkObj × Heap N) := do
  let w := newQP C h
  let h ← hSample C x w.1 w.2
  let h ← hNTT C w.1 w.1 h
  let h ← hMForm C w.1 w.1 h
  .ok (⟨id, w.1⟩, h)

variable (C) in
/-- `GenPublicKey(sk)` (keygen.go:88-109) with the sampler at position `pos` -/
def hGenPk (crs : GoMap ℤ SwkObj) (gs : ℕ → Nega N ℤ) (pos : ℕ) (sk : SkObj) (h : Heap N) : Go (PkObj × ℕ × Heap N) := do
  let w := newPublicKey C sk.id h
  let h ← hSample C (gs pos) w.1.v0 w.2
  let h ← hNTT C w.1.v0 w.1.v0 h
  let a ← crs.deref 0
  let a0 ← blk a 0
  let h := h.polyCopy w.1.v1.q a0.q
  let h := h.polyCopy w.1.v1.p a0.p
  let h ← hMulSub C sk.value w.1.v1 w.1.v0 h
  .ok (w.1, pos + 1, h)

variable (C) in
/-- `GenGaussianError(e)` (keygen.go:123-133) -/
def hGenErr (x : Nega N ℤ) (e : QP) (h : Heap N) : Go (Heap N) := do
  let h ← hSample C x e h
  hNTT C e e h

variable (C) in
/-- the loop over `j` of `GenSwitchingKey` (keygen.go:308-324), from `j` on with `n` iterations left -/
def hGadget (i : ℕ) (pool : ℕ) (v : QP) : ℕ → ℕ → Heap N → Go (Heap N)
  | 0, _, h => .ok h
  | n + 1, j, h =>
    if C.nQ ≤ i * C.alpha + j then .ok h
    else if h.len pool ≤ i * C.alpha + j ∨ h.len v.q ≤ i * C.alpha + j then .error .indexOutOfRange
    else hGadget i pool v n (j + 1) (h.setRow (h.addr v.q (i * C.alpha + j)) (wr (addRow (C.q (i * C.alpha + j))
      (rdM C.q _ (h.row (h.addr v.q (i * C.alpha + j)))) (rdM C.q _ (h.row (h.addr pool (i * C.alpha + j)))))))

variable (C) in
/-- one block of `GenSwitchingKey` (keygen.go:294-324) -/
def hSwkBlock (x : Nega N ℤ) (pool i : ℕ) (v : QP) (h : Heap N) : Go (Heap N) := do
  let h ← hSample C x v h
  let h ← hNTT C v v h
  let h ← hMForm C v v h
  hGadget C i pool v C.alpha 0 h

variable (C) in
/-- `GenSwitchingKey(skIn, swk)` (keygen.go:270-327) -/
def hGenSwk (gs : ℕ → Nega N ℤ) (K : HKG) (pos : ℕ) (skIn : SkObj) (swk : SwkObj) (h : Heap N) : Go (ℕ × Heap N) := do
  let h ← op3 C.q C.nQ (fun i x _ _ => (C.RQ i).mulScalar C.P x) skIn.value.q skIn.value.q K.poolQ h
  Go.loop (fun (w : ℕ × Heap N) i => do
    let v ← blk swk i
    let h ← hSwkBlock C (gs w.1) K.poolQ i v w.2
    .ok (w.1 + 1, h)) (pos, h) (List.range (C.beta (C.nQ - 1)))

variable (C) in
/-- the loops `for i < beta { f(crs[i], swk[i]) }` of keygen.go -/
def hBlocks (f : QP → QP → Heap N → Go (Heap N)) (a swk : SwkObj) (h : Heap N) : Go (Heap N) :=
  Go.loop (fun (h : Heap N) i => do
    let x ← blk a i
    let v ← blk swk i
    f x v h) h (List.range (C.beta (C.nQ - 1)))

variable (C) in
/-- one block of `b` (keygen.go:164-168), with `GenGaussianError(tmp)` -/
def hRelinB (x : Nega N ℤ) (sk : SkObj) (a tmp b : QP) (h : Heap N) : Go (Heap N) := do
  let h ← hMul C a sk.value b h
  let h ← hInvMForm C b b h
  let h ← hGenErr C x tmp h
  let h ← hSub C tmp b b h
  hMForm C b b h

variable (C) in
/-- one block of `v` (keygen.go:182-184) -/
def hRelinV (sk : SkObj) (u v : QP) (h : Heap N) : Go (Heap N) := do
  let h ← hMulAdd C u sk.value v h
  hNeg C v h

variable (C) in
/-- `GenRelinearizationKey(sk, r)` (keygen.go:137-187) -/
def hGenRlk (crs : GoMap ℤ SwkObj) (gs : ℕ → Nega N ℤ) (K : HKG) (pos : ℕ) (sk r : SkObj) (h : Heap N) : Go (RlkObj × ℕ × Heap N) := do
  if C.nP = 0 then .error (.panic "modulus P is empty")
  else
    let w := newRelinearizationKey C sk.id h
    let a ← crs.deref 0
    let b ← Go.loop (fun (s : ℕ × Heap N) i => do
      let x ← blk a i
      let v ← blk w.1.b i
      let h ← hRelinB C (gs s.1) sk x K.poolQP v s.2
      .ok (s.1 + 1, h)) (pos, w.2) (List.range (C.beta (C.nQ - 1)))
    let d ← hGenSwk C gs K b.1 sk w.1.d b.2
    let h ← hBlocks C (fun x v h => hMulSub C x r.value v h) a w.1.d d.2
    let v ← hGenSwk C gs K d.1 r w.1.v h
    let u ← crs.deref (-1)
    let h ← hBlocks C (hRelinV C sk) u w.1.v v.2
    .ok (w.1, v.1, h)

variable (C) in
/-- `GenRotationKey(rotidx, sk)` (keygen.go:190-229) -/
def hGenRot (crs : GoMap ℤ SwkObj) (gs : ℕ → Nega N ℤ) (K : HKG) (pos : ℕ) (rotidx : ℤ) (sk : SkObj) (h : Heap N) :
    Go (GalObj × ℕ × Heap N) := do
  let skOut := newSecretKey C sk.id h
  if (crs.lookup rotidx).isNone then .error (.panic "Cannot GenRotationKey: CRS for given rot idx is not generated")
  else
    let r := adjustIdx N rotidx
    let h ← hPerm C (galElInv N (galElCol N r.toNat)) sk.value skOut.1.value skOut.2
    let rk := newRotationKey C r.toNat sk.id h
    let w ← hGenSwk C gs K pos sk rk.1.value rk.2
    let a ← crs.deref r
    let h ← hBlocks C (fun x v h => hMulSub C x skOut.1.value v h) a rk.1.value w.2
    .ok (rk.1, w.1, h)

variable (C) in
/-- `GenConjugationKey(sk)` (keygen.go:240-267) -/
def hGenConj (crs : GoMap ℤ SwkObj) (gs : ℕ → Nega N ℤ) (K : HKG) (pos : ℕ) (sk : SkObj) (h : Heap N) : Go (GalObj × ℕ × Heap N) := do
  let skOut := newSecretKey C sk.id h
  let h ← hPerm C (galElRow N) sk.value skOut.1.value skOut.2
  let ck := newConjugationKey C sk.id h
  let w ← hGenSwk C gs K pos skOut.1 ck.1.value ck.2
  let a ← crs.deref (-2)
  let h ← hBlocks C (fun x v h => hMulSub C x sk.value v h) a ck.1.value w.2
  .ok (ck.1, w.1, h)

/-! ## mkbfv/keygen.go -/

variable (C) in
/-- one block of `GenBFVSwitchingKey` (mkbfv/keygen.go:123-131, 152-160); the error polynomial is new -/
def hBfvBlock (x : Nega N ℤ) (sk : SkObj) (G : ℕ) (v : QP) (h : Heap N) : Go (Heap N) := do
  let h ← hInvMForm C sk.value v h
  let h ← hMulScalar C G v h
  let e := newQP C h
  let h ← hGenErr C x e.1 e.2
  let h ← hAdd C v e.1 v h
  hMForm C v v h

/-- one of the two loops of `GenBFVSwitchingKey` (mkbfv/keygen.go:105-131, 134-160) -/
def hBfvHalf (B : BCtx N) (mods : ℕ → ℕ) (gs : ℕ → Nega N ℤ) (sk : SkObj) (swk : SwkObj) (pos : ℕ) (h : Heap N) : Go (ℕ × Heap N) :=
  Go.loop (fun (w : ℕ × Heap N) i => do
    let m ← blockMod B.C.nQ mods B.C.alpha i
    let v ← blk swk i
    let h ← hBfvBlock B.C (gs w.1) sk (gadgetInt B m) v w.2
    .ok (w.1 + 1, h)) (pos, h) (List.range (B.C.beta (B.C.nQ - 1)))

/-- `GenBFVSwitchingKey(sk, swk1, swk2)` (mkbfv/keygen.go:91-162) -/
def hGenBfvSwk (B : BCtx N) (gs : ℕ → Nega N ℤ) (pos : ℕ) (sk : SkObj) (swk1 swk2 : SwkObj) (h : Heap N) : Go (ℕ × Heap N) := do
  let w ← hBfvHalf B B.C.q gs sk swk1 pos h
  hBfvHalf B B.m gs sk swk2 w.1 w.2

variable (C) in
/-- the loop over the blocks of `d1` and `d2` (mkbfv/keygen.go:70-73) -/
def hBlocks2 (f : QP → QP → Heap N → Go (Heap N)) (a1 d1 a2 d2 : SwkObj) (h : Heap N) : Go (Heap N) :=
  Go.loop (fun (h : Heap N) i => do
    let x1 ← blk a1 i
    let v1 ← blk d1 i
    let h ← f x1 v1 h
    let x2 ← blk a2 i
    let v2 ← blk d2 i
    f x2 v2 h) h (List.range (C.beta (C.nQ - 1)))

/-- `GenRelinearizationKey(sk, r)` (mkbfv/keygen.go:24-88) -/
def hGenBfvRlk (B : BCtx N) (crs : GoMap ℤ SwkObj) (gs : ℕ → Nega N ℤ) (K : HKG) (pos : ℕ) (sk r : SkObj) (h : Heap N) :
    Go (BRlkObj × ℕ × Heap N) := do
  let w := newBfvRelinearizationKey B.C sk.id h
  let a1 ← crs.deref 0
  let a2 ← crs.deref (-3)
  let e1 := newQP B.C w.2
  let e2 := newQP B.C e1.2
  let b ← Go.loop (fun (s : ℕ × Heap N) i => do
    let x1 ← blk a1 i
    let y1 ← blk w.1.v0.b i
    let x2 ← blk a2 i
    let y2 ← blk w.1.v1.b i
    let h ← hRelinB B.C (gs s.1) sk x1 e1.1 y1 s.2
    let h ← hRelinB B.C (gs (s.1 + 1)) sk x2 e2.1 y2 h
    .ok (s.1 + 2, h)) (pos, e2.2) (List.range (B.C.beta (B.C.nQ - 1)))
  let d ← hGenBfvSwk B gs b.1 sk w.1.v0.d w.1.v1.d b.2
  let h ← hBlocks2 B.C (fun x v h => hMulSub B.C x r.value v h) a1 w.1.v0.d a2 w.1.v1.d d.2
  let v ← hGenSwk B.C gs K d.1 r w.1.v0.v h
  let u ← crs.deref (-1)
  let h ← hBlocks B.C (hRelinV B.C sk) u w.1.v0.v v.2
  .ok (w.1, v.1, h)

end Heap
end MKHE
