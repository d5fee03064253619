import Verif.Model.HeapKeys
import Verif.Model.Params
import Verif.Model.Rotate

set_option autoImplicit false

/-!
# A program that makes keys

Parameters, a key generator and any sequence of calls of the key generator, of `AddCRS` and of the copy functions, once on values
(`valStep`) and once on the heap (`heapStep`). The keys a program has made are numbered in the order they were made. An index that is not the number
of a key of the right kind stands for a nil pointer.
-/

namespace MKHE
namespace Heap
variable {N : ℕ} [NeZero N]

section crs
variable (C : Ctx N)

/-- `uniformSamplerQ.Read(v.Q)` and `uniformSamplerP.Read(v.P)` returning `u` (params.go:54-55, 95-96) -/
def hUniform (u : PolyQP C) (v : QP) (h : Heap N) : Go (Heap N) := qpOp (C := C) (fun i _ _ _ => u.Q i) (fun j _ _ _ => u.P j) v v v h

/-- one iteration of the loop over the components of a CRS entry (params.go:52-57, 93-98) -/
def hCrsStep (us : ℕ → PolyQP C) (w : SwkObj × ℕ × Heap N) (_ : ℕ) : Go (SwkObj × ℕ × Heap N) := do
  let v := newQP C w.2.2
  let h ← hUniform C (us w.2.1) v.1 v.2
  let h ← hMForm C v.1 v.1 h
  .ok (w.1 ++ [v.1], w.2.1 + 1, h)

/-- the components of one CRS entry -/
def hCrsSwk (us : ℕ → PolyQP C) (used : ℕ) (h : Heap N) : Go (SwkObj × ℕ × Heap N) :=
  Go.loop (hCrsStep C us) ([], used, h) (List.range (C.beta (C.nQ - 1)))

/-- `AddCRS(idx)` (params.go:77-99), and the body of the loop of `NewParameters` (params.go:49-58). The map of the parameters is shared by all their
copies. -/
def hAddCRS (us : ℕ → PolyQP C) (idx : ℤ) (w : GoMap ℤ SwkObj × ℕ × Heap N) : Go (GoMap ℤ SwkObj × ℕ × Heap N) := do
  let s ← hCrsSwk C us w.2.1 w.2.2
  .ok (w.1.insert idx s.1, s.2.1, s.2.2)

variable {C} in
/-- the value of a component: the sample `u`, read into a new polynomial and put into Montgomery form -/
def crsBlock (u : PolyQP C) : PolyQP C := let v := setQP (C.nQ - 1) u PolyQP.zero; qpMForm (C.nQ - 1) v v

variable {C} in
/-- the value of a CRS entry whose samples begin at `used` -/
def crsSwk (us : ℕ → PolyQP C) (used : ℕ) : Swk C := ⟨C.beta (C.nQ - 1), fun i => crsBlock (us (used + i))⟩

/-- `NewKeyGenerator(params)` (keygen.go:24-41) -/
def hNewKeyGenerator (h : Heap N) : HKG × Heap N :=
  let w := h.allocPoly false (List.replicate C.nQ 0)
  let v := newQP C w.2
  (⟨w.1, v.1⟩, v.2)

end crs

/-- a key object -/
inductive Obj where
  | sk (k : SkObj)
  | pk (k : PkObj)
  | rlk (k : RlkObj)
  | gal (k : GalObj)
  | brlk (k : BRlkObj)

/-- the value of a key -/
inductive Val (C : Ctx N) where
  | sk (k : SKey C)
  | pk (k : PKey C)
  | rlk (k : Rlk C)
  | gal (k : GalKey C)
  | brlk (k : BRlk C)

/-- the calls a program can make -/
inductive Cmd (N : ℕ) where
  /-- `params.AddCRS(idx)` -/
  | addCRS (idx : ℤ)
  /-- `GenSecretKey(id)` and its variants with a fresh ternary sampler, which returns `x` -/
  | genSk (x : Nega N ℤ) (id : String)
  /-- `GenSecretKeyGaussian(id)` -/
  | genSkGaussian (id : String)
  /-- `GenPublicKey(keys[i])` -/
  | genPk (i : ℕ)
  /-- `GenRelinearizationKey(keys[i], keys[j])` of mkrlwe -/
  | genRlk (i j : ℕ)
  /-- `GenRelinearizationKey(keys[i], keys[j])` of mkbfv -/
  | genBfvRlk (i j : ℕ)
  /-- `GenRotationKey(r, keys[i])` -/
  | genRot (r : ℤ) (i : ℕ)
  /-- `GenConjugationKey(keys[i])` -/
  | genConj (i : ℕ)
  /-- `keys[i].CopyNew()` of a secret or public key -/
  | copy (i : ℕ)

/-- key number `i`, a secret key -/
def Obj.getSk (l : List Obj) (i : ℕ) : Go SkObj :=
  match l[i]? with
  | some (.sk k) => .ok k
  | _ => .error .nilDeref

/-- key number `i`, a secret key -/
def Val.getSk {C : Ctx N} (l : List (Val C)) (i : ℕ) : Go (SKey C) :=
  match l[i]? with
  | some (.sk k) => .ok k
  | _ => .error .nilDeref

/-- the program's memory: the CRS map, the positions of the uniform and of the Gaussian sampler, the keys, the heap -/
structure HState (N : ℕ) [NeZero N] where
  crs : GoMap ℤ SwkObj
  used : ℕ
  pos : ℕ
  keys : List Obj
  heap : Heap N

/-- the same as values -/
structure VState (C : Ctx N) where
  crs : GoMap ℤ (Swk C)
  used : ℕ
  kg : KG C
  keys : List (Val C)

variable {B : BCtx N}

/-- one call on values, with the functions of `Verif/Model/KeyGen.lean` and `Verif/Model/BfvKeyGen.lean` -/
def valStep (us : ℕ → PolyQP B.C) (gs : ℕ → Nega N ℤ) (s : VState B.C) : Cmd N → Go (VState B.C)
  | .addCRS idx => .ok { s with crs := s.crs.insert idx (crsSwk us s.used), used := s.used + B.C.beta (B.C.nQ - 1) }
  | .genSk x id => .ok { s with keys := s.keys ++ [.sk (genSecretKeyFromSampler x id)] }
  | .genSkGaussian id =>
    let w := genSecretKeyGaussian gs s.kg id
    .ok { s with keys := s.keys ++ [.sk w.1], kg := w.2 }
  | .genPk i => do
    let k ← Val.getSk s.keys i
    let w ← genPublicKey s.crs gs s.kg k
    .ok { s with keys := s.keys ++ [.pk w.1], kg := w.2 }
  | .genRlk i j => do
    let k ← Val.getSk s.keys i
    let r ← Val.getSk s.keys j
    let w ← genRelinearizationKey s.crs gs s.kg k r
    .ok { s with keys := s.keys ++ [.rlk w.1], kg := w.2 }
  | .genBfvRlk i j => do
    let k ← Val.getSk s.keys i
    let r ← Val.getSk s.keys j
    let w ← genBfvRelinearizationKey s.crs gs s.kg k r
    .ok { s with keys := s.keys ++ [.brlk w.1], kg := w.2 }
  | .genRot r i => do
    let k ← Val.getSk s.keys i
    let w ← genRotationKey s.crs gs s.kg r k
    .ok { s with keys := s.keys ++ [.gal w.1], kg := w.2 }
  | .genConj i => do
    let k ← Val.getSk s.keys i
    let w ← genConjugationKey s.crs gs s.kg k
    .ok { s with keys := s.keys ++ [.gal w.1], kg := w.2 }
  | .copy i =>
    match s.keys[i]? with
    | some (.sk k) => .ok { s with keys := s.keys ++ [.sk k] }
    | some (.pk k) => .ok { s with keys := s.keys ++ [.pk k] }
    | _ => .error .nilDeref

/-- one call on the heap, with the key generator `K` -/
def heapStep (B : BCtx N) (us : ℕ → PolyQP B.C) (gs : ℕ → Nega N ℤ) (K : HKG) (s : HState N) : Cmd N → Go (HState N)
  | .addCRS idx => do
    let w ← hAddCRS B.C us idx (s.crs, s.used, s.heap)
    .ok { s with crs := w.1, used := w.2.1, heap := w.2.2 }
  | .genSk x id => do
    let w ← hGenSk B.C x id s.heap
    .ok { s with keys := s.keys ++ [.sk w.1], heap := w.2 }
  | .genSkGaussian id => do
    let w ← hGenSk B.C (gs s.pos) id s.heap
    .ok { s with keys := s.keys ++ [.sk w.1], pos := s.pos + 1, heap := w.2 }
  | .genPk i => do
    let k ← Obj.getSk s.keys i
    let w ← hGenPk B.C s.crs gs s.pos k s.heap
    .ok { s with keys := s.keys ++ [.pk w.1], pos := w.2.1, heap := w.2.2 }
  | .genRlk i j => do
    let k ← Obj.getSk s.keys i
    let r ← Obj.getSk s.keys j
    let w ← hGenRlk B.C s.crs gs K s.pos k r s.heap
    .ok { s with keys := s.keys ++ [.rlk w.1], pos := w.2.1, heap := w.2.2 }
  | .genBfvRlk i j => do
    let k ← Obj.getSk s.keys i
    let r ← Obj.getSk s.keys j
    let w ← hGenBfvRlk B s.crs gs K s.pos k r s.heap
    .ok { s with keys := s.keys ++ [.brlk w.1], pos := w.2.1, heap := w.2.2 }
  | .genRot r i => do
    let k ← Obj.getSk s.keys i
    let w ← hGenRot B.C s.crs gs K s.pos r k s.heap
    .ok { s with keys := s.keys ++ [.gal w.1], pos := w.2.1, heap := w.2.2 }
  | .genConj i => do
    let k ← Obj.getSk s.keys i
    let w ← hGenConj B.C s.crs gs K s.pos k s.heap
    .ok { s with keys := s.keys ++ [.gal w.1], pos := w.2.1, heap := w.2.2 }
  | .copy i =>
    match s.keys[i]? with
    | some (.sk k) => do
      let w := skCopyNew (some k) s.heap
      let k' ← orNil w.1
      .ok { s with keys := s.keys ++ [.sk k'], heap := w.2 }
    | some (.pk k) => do
      let w := pkCopyNew (some k) s.heap
      let k' ← orNil w.1
      .ok { s with keys := s.keys ++ [.pk k'], heap := w.2 }
    | _ => .error .nilDeref

/-- `NewParameters` (params.go:31-58), `NewKeyGenerator` and then the calls, on values -/
def valRun (us : ℕ → PolyQP B.C) (gs : ℕ → Nega N ℤ) (cmds : List (Cmd N)) : Go (VState B.C) := do
  let s ← Go.loop (fun s idx => valStep us gs s (.addCRS idx)) (⟨∅, 0, ⟨0, fun _ => Limb.zero, PolyQP.zero⟩, []⟩ : VState B.C) (crsIdxs B.C.logN)
  Go.loop (valStep us gs) s cmds

/-- the same on the heap `h0`, which may hold other objects -/
def heapRun (B : BCtx N) (us : ℕ → PolyQP B.C) (gs : ℕ → Nega N ℤ) (cmds : List (Cmd N)) (h0 : Heap N) : Go (HKG × HState N) := do
  let w ← Go.loop (fun w idx => hAddCRS B.C us idx w) ((∅, 0, h0) : GoMap ℤ SwkObj × ℕ × Heap N) (crsIdxs B.C.logN)
  let K := hNewKeyGenerator B.C w.2.2
  let s ← Go.loop (heapStep B us gs K.1) ⟨w.1, w.2.1, 0, [], K.2⟩ cmds
  .ok (K.1, s)

end Heap
end MKHE
