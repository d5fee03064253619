import Verif.Model.HeapTrace
import Verif.Model.HeapSession

set_option autoImplicit false

/-!
# Key generation with the writes recorded

The functions of `Model/HeapKeys.lean` and `Model/HeapSession.lean` once more, with the list of the writes they make before they return or panic (see
`Model/HeapTrace.lean`). The text of each function is that of the function without the suffix `T`.

Simplification: `AddCRS` enters the new switching key in the map before it fills it (mkrlwe/params.go:89-97); an interrupted `AddCRS` leaves an unfinished entry, so
it is not among the calls that may be interrupted here (see `Model/HeapCrsTrace.lean`).
-/

namespace MKHE
namespace Heap
variable {N : ℕ} [NeZero N]

/-- the loop of a lattigo ring function, row by row -/
def rows3T (n : ℕ) (f : ℕ → RowBuf N → RowBuf N → RowBuf N → RowBuf N) (a b c : ℕ) (h : Heap N) : TG N (Heap N) :=
  TG.loop (fun h i => h.write (.row (h.addr c i) (f i (h.row (h.addr a i)) (h.row (h.addr b i)) (h.row (h.addr c i))))) h (List.range n)

/-- a ring function on `n` rows of three polynomials; if a row is missing, the rows before it are written, then the call panics -/
def op3T (m : ℕ → ℕ) (n : ℕ) (f : ∀ i, Limb N (m i) → Limb N (m i) → Limb N (m i) → Limb N (m i)) (a b c : ℕ) (h : Heap N) : TG N (Heap N) :=
  if n ≤ h.len a ∧ n ≤ h.len b ∧ n ≤ h.len c then rows3T n (lift3 f) a b c h
  else do
    let _ ← rows3T (min n (min (h.len a) (min (h.len b) (h.len c)))) (lift3 f) a b c h
    .error .indexOutOfRange

variable {C : Ctx N}

/-- a function of `ringQP` at levels `QCount-1` and `PCount-1`: first the rows of Q, then those of P -/
def qpOpT (f : ∀ i, Limb N (C.q i) → Limb N (C.q i) → Limb N (C.q i) → Limb N (C.q i))
    (g : ∀ j, Limb N (C.p j) → Limb N (C.p j) → Limb N (C.p j) → Limb N (C.p j)) (a b c : QP) (h : Heap N) : TG N (Heap N) := do
  let h ← op3T C.q C.nQ f a.q b.q c.q h
  op3T C.p C.nP g a.p b.p c.p h

variable (C) in
/-- `ringQP.MulCoeffsMontgomeryLvl(levelQ, levelP, a, b, c)` -/
def hMulT (a b c : QP) (h : Heap N) : TG N (Heap N) :=
  qpOpT (C := C) (fun i x y _ => (C.RQ i).mulMont x y) (fun j x y _ => (C.RP j).mulMont x y) a b c h

variable (C) in
/-- `ringQP.MulCoeffsMontgomeryAndAddLvl(levelQ, levelP, a, b, c)` -/
def hMulAddT (a b c : QP) (h : Heap N) : TG N (Heap N) :=
  qpOpT (C := C) (fun i x y z => (C.RQ i).mulMontAdd x y z) (fun j x y z => (C.RP j).mulMontAdd x y z) a b c h

variable (C) in
/-- `ringQP.MulCoeffsMontgomeryAndSubLvl(levelQ, levelP, a, b, c)` -/
def hMulSubT (a b c : QP) (h : Heap N) : TG N (Heap N) :=
  qpOpT (C := C) (fun i x y z => (C.RQ i).mulMontSub x y z) (fun j x y z => (C.RP j).mulMontSub x y z) a b c h

variable (C) in
/-- `ringQP.MFormLvl(levelQ, levelP, a, c)` -/
def hMFormT (a c : QP) (h : Heap N) : TG N (Heap N) := qpOpT (C := C) (fun i x _ _ => (C.RQ i).mform x) (fun j x _ _ => (C.RP j).mform x) a a c h

variable (C) in
/-- `ringQP.InvMFormLvl(levelQ, levelP, a, c)` -/
def hInvMFormT (a c : QP) (h : Heap N) : TG N (Heap N) :=
  qpOpT (C := C) (fun i x _ _ => (C.RQ i).invMform x) (fun j x _ _ => (C.RP j).invMform x) a a c h

variable (C) in
/-- `ringQP.SubLvl(levelQ, levelP, a, b, c)` -/
def hSubT (a b c : QP) (h : Heap N) : TG N (Heap N) := qpOpT (C := C) (fun i x y _ => (C.RQ i).sub x y) (fun j x y _ => (C.RP j).sub x y) a b c h

variable (C) in
/-- `ringQP.AddLvl(levelQ, levelP, a, b, c)` -/
def hAddT (a b c : QP) (h : Heap N) : TG N (Heap N) := qpOpT (C := C) (fun i x y _ => (C.RQ i).add x y) (fun j x y _ => (C.RP j).add x y) a b c h

variable (C) in
/-- `ringQP.NTTLvl(levelQ, levelP, a, c)` -/
def hNTTT (a c : QP) (h : Heap N) : TG N (Heap N) := qpOpT (C := C) (fun i x _ _ => (C.RQ i).ntt x) (fun j x _ _ => (C.RP j).ntt x) a a c h

variable (C) in
/-- `NegLvl` on Q and on P (keygen.go:183-184) -/
def hNegT (a : QP) (h : Heap N) : TG N (Heap N) := qpOpT (C := C) (fun i x _ _ => (C.RQ i).neg x) (fun j x _ _ => (C.RP j).neg x) a a a h

variable (C) in
/-- `MulScalarBigint` on Q and on P (mkbfv/keygen.go:124-125, 153-154) -/
def hMulScalarT (G : ℕ) (a : QP) (h : Heap N) : TG N (Heap N) :=
  qpOpT (C := C) (fun i x _ _ => (C.RQ i).mulScalar G x) (fun j x _ _ => (C.RP j).mulScalar G x) a a a h

variable (C) in
/-- `PermuteNTTWithIndexLvl` on Q and on P (keygen.go:213-216, 253-255) -/
def hPermT (g : ℕ) (a c : QP) (h : Heap N) : TG N (Heap N) :=
  qpOpT (C := C) (fun i x _ _ => (C.RQ i).permNTT g x) (fun j x _ _ => (C.RP j).permNTT g x) a a c h

variable (C) in
/-- `Sampler.Read(v.Q)` returning `x`, then `ExtendBasisSmallNormAndCenter(v.Q, levelP, nil, v.P)` -/
def hSampleT (x : Nega N ℤ) (v : QP) (h : Heap N) : TG N (Heap N) := do
  let h ← op3T C.q C.nQ (fun i _ _ _ => smallRow (C.q i) x) v.q v.q v.q h
  if h.len v.q = 0 then .error .indexOutOfRange
  else
    let row0 := rdM C.q 0 (h.row (h.addr v.q 0))
    op3T C.p C.nP (fun j _ _ _ => extendSmall (C := C) row0 j) v.p v.p v.p h

variable (C) in
/-- `params.RingQP().NewPoly()` -/
def newQPT (h : Heap N) : TG N (QP × Heap N) := do
  let w ← h.allocPolyT false (List.replicate C.nQ 0)
  let w' ← w.2.allocPolyT false (List.replicate C.nP 0)
  .ok (⟨w.1, w'.1⟩, w'.2)

/-- `PolyQP.CopyNew()` of lattigo -/
def qpCopyNewT (v : QP) (h : Heap N) : TG N (QP × Heap N) := do
  let w ← h.polyCopyNewT v.q
  let w' ← w.2.polyCopyNewT v.p
  .ok (⟨w.1, w'.1⟩, w'.2)

variable (C) in
/-- `NewSecretKey(params, id)` (keys.go:229-234) -/
def newSecretKeyT (id : String) (h : Heap N) : TG N (SkObj × Heap N) := do
  let w ← newQPT C h
  .ok (⟨id, w.1⟩, w.2)

variable (C) in
/-- `NewPublicKey(params, id)` (keys.go:237-243) -/
def newPublicKeyT (id : String) (h : Heap N) : TG N (PkObj × Heap N) := do
  let w ← newQPT C h
  let w' ← newQPT C w.2
  .ok (⟨id, w.1, w'.1⟩, w'.2)

variable (C) in
/-- `NewSwitchingKey(params)` (keys.go:245-255) -/
def newSwitchingKeyT (h : Heap N) : TG N (SwkObj × Heap N) :=
  TG.loop (fun (w : SwkObj × Heap N) _ => do
    let v ← newQPT C w.2
    .ok (w.1 ++ [v.1], v.2)) ([], h) (List.range (C.beta (C.nQ - 1)))

variable (C) in
/-- `NewRelinearizationKey(params, id)` (keys.go:258-267) -/
def newRelinearizationKeyT (id : String) (h : Heap N) : TG N (RlkObj × Heap N) := do
  let w0 ← newSwitchingKeyT C h
  let w1 ← newSwitchingKeyT C w0.2
  let w2 ← newSwitchingKeyT C w1.2
  .ok (⟨id, w0.1, w1.1, w2.1⟩, w2.2)

variable (C) in
/-- `NewRotationKey(params, rotidx, id)` (keys.go:269-276) -/
def newRotationKeyT (rotidx : ℕ) (id : String) (h : Heap N) : TG N (GalObj × Heap N) := do
  let w ← newSwitchingKeyT C h
  .ok (⟨id, rotidx, w.1⟩, w.2)

variable (C) in
/-- `NewConjugationKey(params, id)` (keys.go:278-284) -/
def newConjugationKeyT (id : String) (h : Heap N) : TG N (GalObj × Heap N) := do
  let w ← newSwitchingKeyT C h
  .ok (⟨id, 0, w.1⟩, w.2)

variable (C) in
/-- `mkbfv.NewRelinearizationKey(params, id)` (mkbfv/keys.go:25-33) -/
def newBfvRelinearizationKeyT (id : String) (h : Heap N) : TG N (BRlkObj × Heap N) := do
  let w0 ← newRelinearizationKeyT C id h
  let w1 ← newRelinearizationKeyT C id w0.2
  .ok (⟨id, w0.1, w1.1⟩, w1.2)

/-- `SecretKey.CopyNew()` (keys.go:287-297) of a key that is not nil -/
def skCopyNewT (sk : SkObj) (h : Heap N) : TG N (SkObj × Heap N) := do
  let w ← qpCopyNewT sk.value h
  .ok (⟨sk.id, w.1⟩, w.2)

/-- `PublicKey.CopyNew()` (keys.go:300-311) of a key that is not nil -/
def pkCopyNewT (pk : PkObj) (h : Heap N) : TG N (PkObj × Heap N) := do
  let w ← qpCopyNewT pk.v0 h
  let w' ← qpCopyNewT pk.v1 w.2
  .ok (⟨pk.id, w.1, w'.1⟩, w'.2)

/-! ## mkrlwe/keygen.go -/

variable (C) in
/-- `genSecretKeyFromSampler` (keygen.go:44-55) for a sampler that returns `x` -/
def hGenSkT (x : Nega N ℤ) (id : String) (h : Heap N) : TG N (SkObj × Heap N) := do
  let w ← newQPT C h
  let h ← hSampleT C x w.1 w.2
  let h ← hNTTT C w.1 w.1 h
  let h ← hMFormT C w.1 w.1 h
  .ok (⟨id, w.1⟩, h)

variable (C) in
/-- `GenPublicKey(sk)` (keygen.go:88-109) with the sampler at position `pos` -/
def hGenPkT (crs : GoMap ℤ SwkObj) (gs : ℕ → Nega N ℤ) (pos : ℕ) (sk : SkObj) (h : Heap N) : TG N (PkObj × ℕ × Heap N) := do
  let w ← newPublicKeyT C sk.id h
  let h ← hSampleT C (gs pos) w.1.v0 w.2
  let h ← hNTTT C w.1.v0 w.1.v0 h
  let a ← crs.deref 0
  let a0 ← blk a 0
  let h ← h.polyCopyT w.1.v1.q a0.q
  let h ← h.polyCopyT w.1.v1.p a0.p
  let h ← hMulSubT C sk.value w.1.v1 w.1.v0 h
  .ok (w.1, pos + 1, h)

variable (C) in
/-- `GenGaussianError(e)` (keygen.go:123-133) -/
def hGenErrT (x : Nega N ℤ) (e : QP) (h : Heap N) : TG N (Heap N) := do
  let h ← hSampleT C x e h
  hNTTT C e e h

variable (C) in
/-- the loop over `j` of `GenSwitchingKey` (keygen.go:308-324), from `j` on with `n` iterations left -/
def hGadgetT (i : ℕ) (pool : ℕ) (v : QP) : ℕ → ℕ → Heap N → TG N (Heap N)
  | 0, _, h => .ok h
  | n + 1, j, h =>
    if C.nQ ≤ i * C.alpha + j then .ok h
    else if h.len pool ≤ i * C.alpha + j ∨ h.len v.q ≤ i * C.alpha + j then .error .indexOutOfRange
    else do
      let h ← h.write (.row (h.addr v.q (i * C.alpha + j)) (wr (addRow (C.q (i * C.alpha + j))
        (rdM C.q _ (h.row (h.addr v.q (i * C.alpha + j)))) (rdM C.q _ (h.row (h.addr pool (i * C.alpha + j)))))))
      hGadgetT i pool v n (j + 1) h

variable (C) in
/-- one block of `GenSwitchingKey` (keygen.go:294-324) -/
def hSwkBlockT (x : Nega N ℤ) (pool i : ℕ) (v : QP) (h : Heap N) : TG N (Heap N) := do
  let h ← hSampleT C x v h
  let h ← hNTTT C v v h
  let h ← hMFormT C v v h
  hGadgetT C i pool v C.alpha 0 h

variable (C) in
/-- one iteration of `GenSwitchingKey` (keygen.go:294-324) -/
def hGenSwkStepT (gs : ℕ → Nega N ℤ) (pool : ℕ) (swk : SwkObj) (w : ℕ × Heap N) (i : ℕ) : TG N (ℕ × Heap N) := do
  let v ← blk swk i
  let h ← hSwkBlockT C (gs w.1) pool i v w.2
  .ok (w.1 + 1, h)

variable (C) in
/-- `GenSwitchingKey(skIn, swk)` (keygen.go:270-327) -/
def hGenSwkT (gs : ℕ → Nega N ℤ) (K : HKG) (pos : ℕ) (skIn : SkObj) (swk : SwkObj) (h : Heap N) : TG N (ℕ × Heap N) := do
  let h ← op3T C.q C.nQ (fun i x _ _ => (C.RQ i).mulScalar C.P x) skIn.value.q skIn.value.q K.poolQ h
  TG.loop (hGenSwkStepT C gs K.poolQ swk) (pos, h) (List.range (C.beta (C.nQ - 1)))

/-- one iteration of the loops `for i < beta { f(crs[i], swk[i]) }` of keygen.go -/
def hBlocksStepT (f : QP → QP → Heap N → TG N (Heap N)) (a swk : SwkObj) (h : Heap N) (i : ℕ) : TG N (Heap N) := do
  let x ← blk a i
  let v ← blk swk i
  f x v h

variable (C) in
/-- the loops `for i < beta { f(crs[i], swk[i]) }` of keygen.go -/
def hBlocksT (f : QP → QP → Heap N → TG N (Heap N)) (a swk : SwkObj) (h : Heap N) : TG N (Heap N) :=
  TG.loop (hBlocksStepT f a swk) h (List.range (C.beta (C.nQ - 1)))

variable (C) in
/-- one block of `b` (keygen.go:164-168), with `GenGaussianError(tmp)` -/
def hRelinBT (x : Nega N ℤ) (sk : SkObj) (a tmp b : QP) (h : Heap N) : TG N (Heap N) := do
  let h ← hMulT C a sk.value b h
  let h ← hInvMFormT C b b h
  let h ← hGenErrT C x tmp h
  let h ← hSubT C tmp b b h
  hMFormT C b b h

variable (C) in
/-- one block of `v` (keygen.go:182-184) -/
def hRelinVT (sk : SkObj) (u v : QP) (h : Heap N) : TG N (Heap N) := do
  let h ← hMulAddT C u sk.value v h
  hNegT C v h

variable (C) in
/-- one iteration of the loop over `b` (keygen.go:164-168) -/
def hRelinBStepT (gs : ℕ → Nega N ℤ) (sk : SkObj) (tmp : QP) (a b : SwkObj) (s : ℕ × Heap N) (i : ℕ) : TG N (ℕ × Heap N) := do
  let x ← blk a i
  let v ← blk b i
  let h ← hRelinBT C (gs s.1) sk x tmp v s.2
  .ok (s.1 + 1, h)

variable (C) in
/-- `GenRelinearizationKey(sk, r)` (keygen.go:137-187) -/
def hGenRlkT (crs : GoMap ℤ SwkObj) (gs : ℕ → Nega N ℤ) (K : HKG) (pos : ℕ) (sk r : SkObj) (h : Heap N) : TG N (RlkObj × ℕ × Heap N) := do
  if C.nP = 0 then .error (.panic "modulus P is empty")
  else
    let w ← newRelinearizationKeyT C sk.id h
    let a ← crs.deref 0
    let b ← TG.loop (hRelinBStepT C gs sk K.poolQP a w.1.b) (pos, w.2) (List.range (C.beta (C.nQ - 1)))
    let d ← hGenSwkT C gs K b.1 sk w.1.d b.2
    let h ← hBlocksT C (fun x v h => hMulSubT C x r.value v h) a w.1.d d.2
    let v ← hGenSwkT C gs K d.1 r w.1.v h
    let u ← crs.deref (-1)
    let h ← hBlocksT C (hRelinVT C sk) u w.1.v v.2
    .ok (w.1, v.1, h)

variable (C) in
/-- `GenRotationKey(rotidx, sk)` (keygen.go:190-229) -/
def hGenRotT (crs : GoMap ℤ SwkObj) (gs : ℕ → Nega N ℤ) (K : HKG) (pos : ℕ) (rotidx : ℤ) (sk : SkObj) (h : Heap N) :
    TG N (GalObj × ℕ × Heap N) := do
  let skOut ← newSecretKeyT C sk.id h
  if (crs.lookup rotidx).isNone then .error (.panic "Cannot GenRotationKey: CRS for given rot idx is not generated")
  else
    let r := adjustIdx N rotidx
    let h ← hPermT C (galElInv N (galElCol N r.toNat)) sk.value skOut.1.value skOut.2
    let rk ← newRotationKeyT C r.toNat sk.id h
    let w ← hGenSwkT C gs K pos sk rk.1.value rk.2
    let a ← crs.deref r
    let h ← hBlocksT C (fun x v h => hMulSubT C x skOut.1.value v h) a rk.1.value w.2
    .ok (rk.1, w.1, h)

variable (C) in
/-- `GenConjugationKey(sk)` (keygen.go:240-267) -/
def hGenConjT (crs : GoMap ℤ SwkObj) (gs : ℕ → Nega N ℤ) (K : HKG) (pos : ℕ) (sk : SkObj) (h : Heap N) : TG N (GalObj × ℕ × Heap N) := do
  let skOut ← newSecretKeyT C sk.id h
  let h ← hPermT C (galElRow N) sk.value skOut.1.value skOut.2
  let ck ← newConjugationKeyT C sk.id h
  let w ← hGenSwkT C gs K pos skOut.1 ck.1.value ck.2
  let a ← crs.deref (-2)
  let h ← hBlocksT C (fun x v h => hMulSubT C x sk.value v h) a ck.1.value w.2
  .ok (ck.1, w.1, h)

/-! ## mkbfv/keygen.go -/

variable (C) in
/-- one block of `GenBFVSwitchingKey` (mkbfv/keygen.go:123-131, 152-160); the error polynomial is new -/
def hBfvBlockT (x : Nega N ℤ) (sk : SkObj) (G : ℕ) (v : QP) (h : Heap N) : TG N (Heap N) := do
  let h ← hInvMFormT C sk.value v h
  let h ← hMulScalarT C G v h
  let e ← newQPT C h
  let h ← hGenErrT C x e.1 e.2
  let h ← hAddT C v e.1 v h
  hMFormT C v v h

/-- one iteration of the two loops of `GenBFVSwitchingKey` (mkbfv/keygen.go:105-131, 134-160) -/
def hBfvHalfStepT (B : BCtx N) (mods : ℕ → ℕ) (gs : ℕ → Nega N ℤ) (sk : SkObj) (swk : SwkObj) (w : ℕ × Heap N) (i : ℕ) : TG N (ℕ × Heap N) := do
  let m ← blockMod B.C.nQ mods B.C.alpha i
  let v ← blk swk i
  let h ← hBfvBlockT B.C (gs w.1) sk (gadgetInt B m) v w.2
  .ok (w.1 + 1, h)

/-- one of the two loops of `GenBFVSwitchingKey` (mkbfv/keygen.go:105-131, 134-160) -/
def hBfvHalfT (B : BCtx N) (mods : ℕ → ℕ) (gs : ℕ → Nega N ℤ) (sk : SkObj) (swk : SwkObj) (pos : ℕ) (h : Heap N) : TG N (ℕ × Heap N) :=
  TG.loop (hBfvHalfStepT B mods gs sk swk) (pos, h) (List.range (B.C.beta (B.C.nQ - 1)))

/-- `GenBFVSwitchingKey(sk, swk1, swk2)` (mkbfv/keygen.go:91-162) -/
def hGenBfvSwkT (B : BCtx N) (gs : ℕ → Nega N ℤ) (pos : ℕ) (sk : SkObj) (swk1 swk2 : SwkObj) (h : Heap N) : TG N (ℕ × Heap N) := do
  let w ← hBfvHalfT B B.C.q gs sk swk1 pos h
  hBfvHalfT B B.m gs sk swk2 w.1 w.2

/-- one iteration of the loop over the blocks of `d1` and `d2` (mkbfv/keygen.go:70-73) -/
def hBlocks2StepT (f : QP → QP → Heap N → TG N (Heap N)) (a1 d1 a2 d2 : SwkObj) (h : Heap N) (i : ℕ) : TG N (Heap N) := do
  let x1 ← blk a1 i
  let v1 ← blk d1 i
  let h ← f x1 v1 h
  let x2 ← blk a2 i
  let v2 ← blk d2 i
  f x2 v2 h

variable (C) in
/-- the loop over the blocks of `d1` and `d2` (mkbfv/keygen.go:70-73) -/
def hBlocks2T (f : QP → QP → Heap N → TG N (Heap N)) (a1 d1 a2 d2 : SwkObj) (h : Heap N) : TG N (Heap N) :=
  TG.loop (hBlocks2StepT f a1 d1 a2 d2) h (List.range (C.beta (C.nQ - 1)))

/-- one iteration of the loop over `b1` and `b2` (mkbfv/keygen.go:47-61) -/
def hBfvRelinStepT (B : BCtx N) (gs : ℕ → Nega N ℤ) (sk : SkObj) (e1 e2 : QP) (a1 b1 a2 b2 : SwkObj) (s : ℕ × Heap N) (i : ℕ) : TG N (ℕ × Heap N) := do
  let x1 ← blk a1 i
  let y1 ← blk b1 i
  let x2 ← blk a2 i
  let y2 ← blk b2 i
  let h ← hRelinBT B.C (gs s.1) sk x1 e1 y1 s.2
  let h ← hRelinBT B.C (gs (s.1 + 1)) sk x2 e2 y2 h
  .ok (s.1 + 2, h)

/-- `GenRelinearizationKey(sk, r)` (mkbfv/keygen.go:24-88) -/
def hGenBfvRlkT (B : BCtx N) (crs : GoMap ℤ SwkObj) (gs : ℕ → Nega N ℤ) (K : HKG) (pos : ℕ) (sk r : SkObj) (h : Heap N) :
    TG N (BRlkObj × ℕ × Heap N) := do
  let w ← newBfvRelinearizationKeyT B.C sk.id h
  let a1 ← crs.deref 0
  let a2 ← crs.deref (-3)
  let e1 ← newQPT B.C w.2
  let e2 ← newQPT B.C e1.2
  let b ← TG.loop (hBfvRelinStepT B gs sk e1.1 e2.1 a1 w.1.v0.b a2 w.1.v1.b) (pos, e2.2) (List.range (B.C.beta (B.C.nQ - 1)))
  let d ← hGenBfvSwkT B gs b.1 sk w.1.v0.d w.1.v1.d b.2
  let h ← hBlocks2T B.C (fun x v h => hMulSubT B.C x r.value v h) a1 w.1.v0.d a2 w.1.v1.d d.2
  let v ← hGenSwkT B.C gs K d.1 r w.1.v0.v h
  let u ← crs.deref (-1)
  let h ← hBlocksT B.C (hRelinVT B.C sk) u w.1.v0.v v.2
  .ok (w.1, v.1, h)

/-- one call other than `AddCRS` on the heap, with the key generator `K` and the writes recorded; the state it returns is that of `heapStep` -/
def heapStepT (B : BCtx N) (gs : ℕ → Nega N ℤ) (K : HKG) (s : HState N) : Cmd N → TG N (HState N)
  | .addCRS _ => .error (.panic "not modelled here")
  | .genSk x id => do
    let w ← hGenSkT B.C x id s.heap
    .ok { s with keys := s.keys ++ [.sk w.1], heap := w.2 }
  | .genSkGaussian id => do
    let w ← hGenSkT B.C (gs s.pos) id s.heap
    .ok { s with keys := s.keys ++ [.sk w.1], pos := s.pos + 1, heap := w.2 }
  | .genPk i => do
    let k ← Obj.getSk s.keys i
    let w ← hGenPkT B.C s.crs gs s.pos k s.heap
    .ok { s with keys := s.keys ++ [.pk w.1], pos := w.2.1, heap := w.2.2 }
  | .genRlk i j => do
    let k ← Obj.getSk s.keys i
    let r ← Obj.getSk s.keys j
    let w ← hGenRlkT B.C s.crs gs K s.pos k r s.heap
    .ok { s with keys := s.keys ++ [.rlk w.1], pos := w.2.1, heap := w.2.2 }
  | .genBfvRlk i j => do
    let k ← Obj.getSk s.keys i
    let r ← Obj.getSk s.keys j
    let w ← hGenBfvRlkT B s.crs gs K s.pos k r s.heap
    .ok { s with keys := s.keys ++ [.brlk w.1], pos := w.2.1, heap := w.2.2 }
  | .genRot r i => do
    let k ← Obj.getSk s.keys i
    let w ← hGenRotT B.C s.crs gs K s.pos r k s.heap
    .ok { s with keys := s.keys ++ [.gal w.1], pos := w.2.1, heap := w.2.2 }
  | .genConj i => do
    let k ← Obj.getSk s.keys i
    let w ← hGenConjT B.C s.crs gs K s.pos k s.heap
    .ok { s with keys := s.keys ++ [.gal w.1], pos := w.2.1, heap := w.2.2 }
  | .copy i =>
    match s.keys[i]? with
    | some (.sk k) => do
      let w ← skCopyNewT k s.heap
      .ok { s with keys := s.keys ++ [.sk w.1], heap := w.2 }
    | some (.pk k) => do
      let w ← pkCopyNewT k s.heap
      .ok { s with keys := s.keys ++ [.pk w.1], heap := w.2 }
    | _ => .error .nilDeref

end Heap
end MKHE
