import Verif.Model.HeapCrypt

set_option autoImplicit false

/-!
# Memory model with the writes recorded

The functions of `Model/Heap.lean`, `Model/HeapEval.lean` and `Model/HeapCrypt.lean`, once more, now with the list of the writes to the heap they make before they return
**or panic**. The text of each function is that of the function without the suffix `T`; only the primitives differ. `Lemmas/HeapTrace.lean` proves that a function with
the suffix returns (or panics with) exactly what the one without does, and that replaying the recorded writes gives the heap it returns.

While a row is being written its words are anything: lattigo transforms rows in place. A ring function that is called with a level beyond the rows of an argument writes
the rows before the missing one and then panics.
-/

namespace MKHE

/-- a write to the heap -/
inductive Write (N : ℕ) where
  /-- the words of the row buffer `a` are replaced, one after the other -/
  | row (a : ℕ) (r : RowBuf N)
  /-- `p.IsNTT = b` -/
  | flag (p : ℕ) (b : Bool)
  /-- `p.Coeffs = p.Coeffs[:n]` -/
  | reslice (p n : ℕ)
  /-- an entry of the map of ciphertext `c` is set or deleted -/
  | map (c : ℕ) (m : GoMap String ℕ)
  /-- a polynomial is allocated -/
  | newPoly (isNTT : Bool) (rows : List (RowBuf N))
  /-- a ciphertext is allocated -/
  | newCt (m : GoMap String ℕ)

namespace Write
variable {N : ℕ} [NeZero N]

/-- the heap after the write -/
def apply (h : Heap N) : Write N → Heap N
  | .row a r => h.setRow a r
  | .flag p b => h.setNTT p b
  | .reslice p n => { h with poly := Function.update h.poly p { h.poly p with coeffs := (h.poly p).coeffs.take n } }
  | .map c m => h.setCt c m
  | .newPoly b rows => (h.allocPoly b rows).2
  | .newCt m => (h.allocCt m).2

/-- heaps that may be seen while the write is under way -/
def Partly (h : Heap N) : Write N → Heap N → Prop
  | .row a _, g => ∃ r, g = h.setRow a r
  | _, _ => False

/-- the heap after some writes -/
def replay (h : Heap N) : List (Write N) → Heap N
  | [] => h
  | w :: ws => replay (w.apply h) ws

/-- the heaps that may be seen between the begin and the end of some writes -/
def During (h : Heap N) : List (Write N) → Heap N → Prop
  | [], g => g = h
  | w :: ws, g => g = h ∨ w.Partly h g ∨ During (w.apply h) ws g

end Write

/-- a computation with the writes it makes before it returns or panics -/
structure TG (N : ℕ) (α : Type) where
  writes : List (Write N)
  res : Go α

namespace TG
variable {N : ℕ} {α β σ : Type}

/-- return -/
def ok (a : α) : TG N α := ⟨[], .ok a⟩

/-- panic -/
def error (e : Fault) : TG N α := ⟨[], .error e⟩

/-- a computation that does not write -/
def ofGo (x : Go α) : TG N α := ⟨[], x⟩

/-- the writes after a computation with the given result -/
def next (f : α → TG N β) : Go α → List (Write N)
  | .ok a => (f a).writes
  | .error _ => []

/-- sequencing -/
def bind (x : TG N α) (f : α → TG N β) : TG N β := ⟨x.writes ++ next f x.res, x.res >>= fun a => (f a).res⟩

instance : Monad (TG N) where
  pure := ok
  bind := bind

instance : MonadLift Go (TG N) := ⟨ofGo⟩

/-- `Go.loop` with writes -/
def loop (f : σ → α → TG N σ) : σ → List α → TG N σ
  | s, [] => ok s
  | s, a :: l => bind (f s a) fun s => loop f s l

end TG

namespace Heap
variable {N : ℕ} [NeZero N]

/-! ## primitives -/

/-- one write -/
def write (h : Heap N) (w : Write N) : TG N (Heap N) := ⟨[w], .ok (w.apply h)⟩

/-- set the flag of a polynomial -/
def setNTTT (h : Heap N) (p : ℕ) (b : Bool) : TG N (Heap N) := h.write (.flag p b)

/-- change the map of a ciphertext object -/
def setCtT (h : Heap N) (c : ℕ) (m : GoMap String ℕ) : TG N (Heap N) := h.write (.map c m)

/-- allocate a polynomial with the given rows -/
def allocPolyT (h : Heap N) (isNTT : Bool) (rows : List (RowBuf N)) : TG N (ℕ × Heap N) := ⟨[.newPoly isNTT rows], .ok (h.allocPoly isNTT rows)⟩

/-- `ring.NewPoly(N, level+1)` of lattigo -/
def newPolyT (h : Heap N) (level : ℕ) : TG N (ℕ × Heap N) := h.allocPolyT false (List.replicate (level + 1) 0)

/-- `Poly.CopyNew` of lattigo -/
def polyCopyNewT (h : Heap N) (p : ℕ) : TG N (ℕ × Heap N) := h.allocPolyT (h.poly p).isNTT ((h.poly p).coeffs.map h.row)

/-- allocate a ciphertext object with the given map -/
def allocCtT (h : Heap N) (m : GoMap String ℕ) : TG N (ℕ × Heap N) := ⟨[.newCt m], .ok (h.allocCt m)⟩

/-- `p.Coeffs = p.Coeffs[:n]` -/
def truncateT (h : Heap N) (p n : ℕ) : TG N (Heap N) :=
  if h.len p < n then .error .indexOutOfRange else h.write (.reslice p n)

/-- the first `n` rows of `c` become `f i` of the rows of `a` and `b` -/
def rowsOpT (h : Heap N) (n : ℕ) (f : ℕ → RowBuf N → RowBuf N → RowBuf N) (a b c : ℕ) : TG N (Heap N) :=
  TG.loop (fun h i => h.write (.row (h.addr c i) (f i (h.row (h.addr a i)) (h.row (h.addr b i))))) h (List.range n)

/-- a lattigo ring function with a level: if a row is missing, the rows before it are written, then the call panics -/
def polyOpT (h : Heap N) (level : ℕ) (f : ℕ → RowBuf N → RowBuf N → RowBuf N) (a b c : ℕ) : TG N (Heap N) :=
  if level < h.len a ∧ level < h.len b ∧ level < h.len c then h.rowsOpT (level + 1) f a b c
  else do
    let _ ← h.rowsOpT (min (level + 1) (min (h.len a) (min (h.len b) (h.len c)))) f a b c
    .error .indexOutOfRange

/-- `Poly.Copy(src)` of lattigo -/
def polyCopyT (h : Heap N) (dst src : ℕ) : TG N (Heap N) := do
  let h1 ← h.rowsOpT (min (h.len dst) (h.len src)) (fun _ r _ => r) src src dst
  h1.setNTTT dst (h.poly src).isNTT

/-! ## mkrlwe/elements.go -/

/-- `NewCiphertext(params, idset, level)` (mkrlwe/elements.go:22-33) -/
def newCtT (o : Order String) (ids : IDSet) (level : ℕ) (h : Heap N) : TG N (ℕ × Heap N) := do
  let w ← h.newPolyT level
  let w ← TG.loop (fun (w : GoMap String ℕ × Heap N) id => do
    let v ← w.2.newPolyT level
    .ok (w.1.insert id v.1, v.2)) (AList.insert "0" w.1 (∅ : GoMap String ℕ), w.2) (GoMap.range o ids.value)
  w.2.allocCtT w.1

/-- `CopyNew()` (mkrlwe/elements.go:70-81) -/
def copyNewT (o : Order String) (h : Heap N) (c : ℕ) : TG N (ℕ × Heap N) := do
  let p0 ← h.get c "0"
  let w ← h.polyCopyNewT p0
  let w ← TG.loop (fun (w : GoMap String ℕ × Heap N) id => do
    let p ← w.2.get c id
    let v ← w.2.polyCopyNewT p
    .ok (w.1.insert id v.1, v.2)) (AList.insert "0" w.1 (∅ : GoMap String ℕ), w.2) (GoMap.range o (h.ct c))
  w.2.allocCtT w.1

/-- one iteration of `PadCiphertext` (mkrlwe/elements.go:100-103) -/
def padStepT (c level : ℕ) (isNTT : Bool) (old : IDSet) (h : Heap N) (id : String) : TG N (Heap N) :=
  if old.has id then .ok h
  else do
    let w ← h.newPolyT level
    let h ← w.2.setCtT c ((w.2.ct c).insert id w.1)
    h.setNTTT w.1 isNTT

/-- `PadCiphertext(idset)` (mkrlwe/elements.go:91-105) -/
def padT (o1 o2 : Order String) (h : Heap N) (c : ℕ) (ids : IDSet) : TG N (Heap N) := do
  let p0 ← h.get c "0"
  let old ← h.idSet o1 c
  let l ← h.level c
  TG.loop (padStepT c l (h.poly p0).isNTT old) h (GoMap.range o2 ids.value)

variable {C : Ctx N}

/-- `Copy(ct)` (mkrlwe/elements.go:84-88) -/
def copyT (o : Order String) (h : Heap N) (dst src : ℕ) : TG N (Heap N) :=
  TG.loop (fun (h : Heap N) id => do
    let p ← h.get dst id
    let q ← h.get src id
    h.polyCopyT p q) h (GoMap.range o (h.ct src))

/-- `if !p.IsNTT { f(p) }` -/
def unlessNTTT (h : Heap N) (p level : ℕ) (f : ∀ i, Limb N (C.q i) → Limb N (C.q i)) : TG N (Heap N) :=
  if (h.poly p).isNTT then .ok h else h.polyOpT level (lift1 f) p p p

/-- `PartialDecrypt(ct, sk)` (mkrlwe/decryptor.go:26-43). The secret key is read only; it is passed as a value. -/
def partialDecryptT (sk : SKey C) (h : Heap N) (c : ℕ) : TG N (Heap N) := do
  let level ← h.level c
  let p ← h.get c sk.id
  let h ← h.unlessNTTT p level (fun i a => (C.RQ i).ntt a)
  let h ← h.polyOpT level (lift1 fun i a => (C.RQ i).mulMont a (sk.value.Q i)) p p p
  let h ← h.unlessNTTT p level (fun i a => (C.RQ i).intt a)
  let p0 ← h.get c "0"
  let h ← h.polyOpT level (lift2 fun i a b => (C.RQ i).add a b) p0 p p0
  h.setCtT c ((h.ct c).erase sk.id)

/-- the loop over the secret keys (mkrlwe/decryptor.go:55-59, mkbfv/decryptor.go:46-50) -/
def decryptLoopT (ids : IDSet) (sks : KeySet (SKey C)) (h : Heap N) (tmp : ℕ) (l : List String) : TG N (Heap N) :=
  TG.loop (fun (h : Heap N) k => do
    let sk ← sks.value.deref k
    if ids.has sk.id then partialDecryptT sk h tmp else .ok h) h l

/-- `Decrypt(ciphertext, skSet, plaintext)` (mkrlwe/decryptor.go:48-66); `pt` is the polynomial `plaintext.Value` -/
def decryptT (o : Sched String) (h : Heap N) (c : ℕ) (sks : KeySet (SKey C)) (pt : ℕ) : TG N (Heap N) := do
  let l ← h.level c
  let level := min l (h.len pt - 1)
  let h ← h.truncateT pt (level + 1)
  let w ← copyNewT (o 200) h c
  let ids ← w.2.idSet (o 201) w.1
  let h ← decryptLoopT ids sks w.2 w.1 (GoMap.range (o 202) sks.value)
  if 1 < (h.ct w.1).keys.length then .error (.panic "Cannot Decrypt: there is a missing secretkey")
  else
    let p0 ← h.get w.1 "0"
    h.polyOpT level (lift1 fun i a => (C.RQ i).reduce a) p0 p0 pt

/-- `mkckks.Decryptor.Decrypt` (mkckks/decryptor.go:34-43) up to the decoding: `pool` is the polynomial of `ptxtPool` -/
def ckksDecryptT (o : Sched String) (h : Heap N) (c : ℕ) (sks : KeySet (SKey C)) (pool : ℕ) : TG N (Heap N) := do
  let w ← copyNewT (o 203) h c
  decryptT o w.2 w.1 sks pool

/-- `mkbfv.Decryptor.Decrypt` (mkbfv/decryptor.go:34-57) up to the decoding: the address of the polynomial handed to the encoder -/
def bfvDecryptT (o : Sched String) (h : Heap N) (c : ℕ) (sks : KeySet (SKey C)) : TG N (ℕ × Heap N) := do
  let w ← copyNewT (o 204) h c
  let ids ← w.2.idSet (o 205) w.1
  let h ← decryptLoopT ids sks w.2 w.1 (GoMap.range (o 206) sks.value)
  let p ← h.get w.1 "0"
  .ok (p, h)

/-- `DropLevel(ct0, levels)` (mkckks/evaluator.go:106-112) -/
def dropLevelT (o : Order String) (h : Heap N) (c levels : ℕ) : TG N (Heap N) := do
  let p0 ← h.get c "0"
  if h.len p0 < levels then .error .indexOutOfRange
  else
    let n := h.len p0 - levels
    TG.loop (fun (h : Heap N) id => do
      let p ← h.get c id
      h.truncateT p n) h (GoMap.range o (h.ct c))

/-- `DropLevelNew` (mkckks/evaluator.go:98-102) -/
def dropLevelNewT (o o' : Order String) (h : Heap N) (c : HCt) (levels : ℕ) : TG N (HCt × Heap N) := do
  let w ← copyNewT o h c.ct
  let h ← dropLevelT o' w.2 w.1 levels
  .ok (⟨w.1, c.scale⟩, h)

/-- the inner part of `MultByConst` on one component (mkckks/evaluator.go:155-196) -/
def constStepT (mredPsi : ℕ → ℕ → ℕ) (level : ℕ) (k : ℚ × ℚ × ℚ) (c out : ℕ) (h : Heap N) (id : String) : TG N (Heap N) := do
  let a ← h.get c id
  let b ← h.get out id
  h.polyOpT level (lift1 fun i x => constRow (C.RQ i) (constWords C.fm (mredPsi i) (C.q i) k) x) a a b

/-- `MultByConst(ct0, constant, ctOut)` (mkckks/evaluator.go:117-198) -/
def multByConstT (C : Ctx N) (mredPsi : ℕ → ℕ → ℕ) (o : Order String) (h : Heap N) (c : HCt) (k : Const) (out : ℕ) : TG N (ℚ × Heap N) := do
  if N % 16 ≠ 0 then .error (.panic "unsafe access outside of the row")
  else
    let l0 ← h.level c.ct
    let lo ← h.level out
    let level := min l0 lo
    let k := getConstAndScale C.fm (C.q level) k
    let h ← TG.loop (constStepT (C := C) mredPsi level k c.ct out) h (GoMap.range o (h.ct c.ct))
    .ok (C.fm.mul c.scale k.2.2, h)

/-- `ring.CopyValuesLvl(level, src, dst)` of lattigo -/
def copyLvlT (h : Heap N) (level dst src : ℕ) : TG N (Heap N) := h.polyOpT level (fun _ r _ => r) src src dst

/-- the loop body of `evaluateInPlace` (mkckks/evaluator.go:293-301, mkbfv/evaluator.go:36-44) -/
def evalStepT (f : ℕ → RowBuf N → RowBuf N → RowBuf N) (level : ℕ) (cp : Heap N → ℕ → ℕ → TG N (Heap N)) (t0 t1 : ℕ) (ids0 ids1 : IDSet)
    (out : ℕ) (h : Heap N) (id : String) : TG N (Heap N) :=
  if ids0.has id = false then do
    let b ← h.get t1 id
    let p ← h.get out id
    cp h p b
  else if ids1.has id = false then do
    let a ← h.get t0 id
    let p ← h.get out id
    cp h p a
  else do
    let a ← h.get t0 id
    let b ← h.get t1 id
    let p ← h.get out id
    h.polyOpT level f a b p

/-- the end of `evaluateInPlace` (mkckks/evaluator.go:291-302, mkbfv/evaluator.go:35-44) -/
def evalCoreT (f : ℕ → RowBuf N → RowBuf N → RowBuf N) (level : ℕ) (cp : Heap N → ℕ → ℕ → TG N (Heap N)) (o1 o2 : Order String)
    (h : Heap N) (t0 t1 : ℕ) (ids0 ids1 : IDSet) (out : ℕ) : TG N (Heap N) := do
  let a ← h.get t0 "0"
  let b ← h.get t1 "0"
  let p ← h.get out "0"
  let h ← h.polyOpT level f a b p
  let ids ← h.idSet o1 out
  TG.loop (evalStepT f level cp t0 t1 ids0 ids1 out) h (GoMap.range o2 ids.value)

/-- the scale alignment for a receiver that is neither operand (mkckks/evaluator.go:269-289): the two operands to use. `pool` is `ctxtPool`. -/
def alignScalesT (C : Ctx N) (mredPsi : ℕ → ℕ → ℕ) (o : Order String) (h : Heap N) (c0 c1 : HCt) (pool : ℕ) : TG N ((ℕ × ℕ) × Heap N) :=
  if c0.scale < c1.scale ∧ 1 < ⌊C.fm.div c1.scale c0.scale⌋ then do
    let w ← multByConstT C mredPsi o h c0 (.flt ⌊C.fm.div c1.scale c0.scale⌋) pool
    .ok ((pool, c1.ct), w.2)
  else if c1.scale < c0.scale ∧ 1 < ⌊C.fm.div c0.scale c1.scale⌋ then do
    let w ← multByConstT C mredPsi o h c1 (.flt ⌊C.fm.div c0.scale c1.scale⌋) pool
    .ok ((c0.ct, pool), w.2)
  else .ok ((c0.ct, c1.ct), h)

/-- `if ctOut.Level() > level { DropLevel(...) }` (mkckks/evaluator.go:217-219) -/
def dropToT (o : Order String) (h : Heap N) (out lo level m : ℕ) : TG N (Heap N) :=
  if level < lo then dropLevelT o h out (lo - m) else .ok h

/-- `evaluateInPlace(c0, c1, ctOut, evaluate)` (mkckks/evaluator.go:200-304) when `ctOut` is neither operand -/
def ckksEvaluateInPlaceT (C : Ctx N) (f : ℕ → RowBuf N → RowBuf N → RowBuf N) (mredPsi : ℕ → ℕ → ℕ) (o : Sched String) (h : Heap N)
    (pool : ℕ) (c0 c1 : HCt) (out : ℕ) : TG N (Heap N) := do
  let ids0 ← h.idSet (o 120) c0.ct
  let ids1 ← h.idSet (o 121) c1.ct
  let ids ← IDSet.union (o 122) (o 123) ids0 ids1
  let h ← padT (o 124) (o 125) h pool ids
  let l0 ← h.level c0.ct
  let l1 ← h.level c1.ct
  let lo ← h.level out
  let h ← dropToT (o 126) h out lo (min (min l0 l1) lo) (min l0 l1)
  let w ← alignScalesT C mredPsi (o 127) h c0 c1 pool
  evalCoreT f (min (min l0 l1) lo) (fun h dst src => h.copyLvlT (min (min l0 l1) lo) dst src) (o 128) (o 129) w.2 w.1.1 w.1.2 ids0 ids1 out

/-- `newCiphertextBinary` (mkckks/evaluator.go:306-313) -/
def newCiphertextBinaryT (o : Sched String) (h : Heap N) (op0 op1 : HCt) : TG N (HCt × Heap N) := do
  let l0 ← h.level op0.ct
  let l1 ← h.level op1.ct
  let ids0 ← h.idSet (o 80) op0.ct
  let ids1 ← h.idSet (o 81) op1.ct
  let ids ← IDSet.union (o 82) (o 83) ids0 ids1
  let w ← newCtT (o 84) ids (min l0 l1) h
  .ok (⟨w.1, max op0.scale op1.scale⟩, w.2)

/-- `AddNew` (mkckks/evaluator.go:316-326) -/
def ckksAddNewT (C : Ctx N) (mredPsi : ℕ → ℕ → ℕ) (o : Sched String) (h : Heap N) (pool : ℕ) (c0 c1 : HCt) : TG N (HCt × Heap N) := do
  let w ← newCiphertextBinaryT o h c0 c1
  let h ← ckksEvaluateInPlaceT C (lift2 fun i => (C.RQ i).add) mredPsi o w.2 pool c0 c1 w.1.ct
  .ok (w.1, h)

/-- one iteration of the negation loop of `sub` (mkckks/evaluator.go:337-339, mkbfv/evaluator.go:67-69) -/
def negStepT (C : Ctx N) (level : ℕ) (ids0 : IDSet) (out : ℕ) (h : Heap N) (id : String) : TG N (Heap N) :=
  if ids0.has id = false then do
    let p ← h.get out id
    h.polyOpT level (lift1 fun i => (C.RQ i).neg) p p p
  else .ok h

/-- the negation loop of `sub` (mkckks/evaluator.go:335-341, mkbfv/evaluator.go:66-70) -/
def negNewT (C : Ctx N) (level : ℕ) (o1 o2 o3 : Order String) (h : Heap N) (op0 out : ℕ) : TG N (Heap N) := do
  let ids0 ← h.idSet o1 op0
  let ids ← h.idSet o2 out
  TG.loop (negStepT C level ids0 out) h (GoMap.range o3 ids.value)

/-- `SubNew` (mkckks/evaluator.go:329-351) -/
def ckksSubNewT (C : Ctx N) (mredPsi : ℕ → ℕ → ℕ) (o : Sched String) (h : Heap N) (pool : ℕ) (c0 c1 : HCt) : TG N (HCt × Heap N) := do
  let w ← newCiphertextBinaryT o h c0 c1
  let h ← ckksEvaluateInPlaceT C (lift2 fun i => (C.RQ i).sub) mredPsi o w.2 pool c0 c1 w.1.ct
  let l0 ← h.level c0.ct
  let l1 ← h.level c1.ct
  let lo ← h.level w.1.ct
  let h ← negNewT C (min (min l0 l1) lo) (o 130) (o 131) (o 132) h c0.ct w.1.ct
  .ok (w.1, h)

/-- one component of `Rescale` (mkckks/evaluator.go:386-389) -/
noncomputable def rescaleStepT (C : Ctx N) (level nb cin out : ℕ) (h : Heap N) (id : String) : TG N (Heap N) := do
  let a ← h.get cin id
  let b ← h.get out id
  h.need a level
  if h.len b < level + 1 - nb then .error .indexOutOfRange
  else
    let v := divRows C level nb h a
    let h1 ← h.rowsOpT (level + 1 - nb) (fun i _ _ => v i) a a b
    h1.truncateT b (level + 1 - nb)

/-- `Rescale(ctIn, minScale, ctOut)` (mkckks/evaluator.go:359-398); `same` is the pointer comparison `ctIn == ctOut`. Returns the error value and the
new scale of `ctOut`. -/
noncomputable def rescaleT (C : Ctx N) (o : Order String) (h : Heap N) (cin : HCt) (minScale : ℚ) (out : HCt) (same : Bool) :
    TG N ((Option String × HCt) × Heap N) := do
  if minScale ≤ 0 then .ok ((some "cannot Rescale: minScale is 0", out), h)
  else if cin.scale = 0 then .ok ((some "cannot Rescale: ciphertext scale is 0", out), h)
  else
    let level ← h.level cin.ct
    if level = 0 then .ok ((some "cannot Rescale: input Ciphertext already at level 0", out), h)
    else
      let w ← rescaleLoop C.fm C.q (C.fm.div minScale 2) (level + 1) cin.scale 0
      if 0 < w.2 then
        let h ← TG.loop (rescaleStepT C level w.2 cin.ct out.ct) h (GoMap.range o (h.ct out.ct))
        .ok ((none, ⟨out.ct, w.1⟩), h)
      else if same then .ok ((none, ⟨out.ct, w.1⟩), h)
      else
        let c ← copyNewT o h cin.ct        -- `ctOut = ctIn.CopyNew()`: an object that is dropped on return
        .ok ((none, ⟨out.ct, w.1⟩), c.2)

/-- `RescaleNew` (mkckks/evaluator.go:406-411) -/
noncomputable def rescaleNewT (C : Ctx N) (o : Sched String) (h : Heap N) (c : HCt) (thr : ℚ) : TG N ((Option String × HCt) × Heap N) := do
  let ids ← h.idSet (o 85) c.ct
  let level ← h.level c.ct
  let w ← newCtT (o 87) ids level h
  rescaleT C (o 86) w.2 c thr ⟨w.1, c.scale⟩ false

/-- `newCiphertextBinary` (mkbfv/evaluator.go:25-28) -/
def bfvNewBinaryT (C : Ctx N) (o : Sched String) (h : Heap N) (op0 op1 : ℕ) : TG N (ℕ × Heap N) := do
  let ids0 ← h.idSet (o 80) op0
  let ids1 ← h.idSet (o 81) op1
  let ids ← IDSet.union (o 82) (o 83) ids0 ids1
  newCtT (o 84) ids (C.nQ - 1) h

/-- `evaluateInPlace` (mkbfv/evaluator.go:31-45) -/
def bfvEvaluateInPlaceT (C : Ctx N) (f : ℕ → RowBuf N → RowBuf N → RowBuf N) (o : Sched String) (h : Heap N) (c0 c1 out : ℕ) : TG N (Heap N) := do
  let ids0 ← h.idSet (o 110) c0
  let ids1 ← h.idSet (o 111) c1
  evalCoreT f (C.nQ - 1) (fun h dst src => h.polyCopyT dst src) (o 112) (o 113) h c0 c1 ids0 ids1 out

/-- `AddNew` (mkbfv/evaluator.go:48-57) -/
def bfvAddNewT (C : Ctx N) (o : Sched String) (h : Heap N) (c0 c1 : ℕ) : TG N (ℕ × Heap N) := do
  let w ← bfvNewBinaryT C o h c0 c1
  let h ← bfvEvaluateInPlaceT C (lift2 fun i => (C.RQ i).add) o w.2 c0 c1 w.1
  .ok (w.1, h)

/-- `SubNew` (mkbfv/evaluator.go:60-79) -/
def bfvSubNewT (C : Ctx N) (o : Sched String) (h : Heap N) (c0 c1 : ℕ) : TG N (ℕ × Heap N) := do
  let w ← bfvNewBinaryT C o h c0 c1
  let h ← bfvEvaluateInPlaceT C (lift2 fun i => (C.RQ i).sub) o w.2 c0 c1 w.1
  let h ← negNewT C (C.nQ - 1) (o 114) (o 115) (o 116) h c0 w.1
  .ok (w.1, h)

/-- a lattigo ring function with a level whose output is `ct.Value[id]`: the new rows are `f` of its old rows -/
def updT (level c : ℕ) (id : String) (f : QRows C → QRows C) (h : Heap N) : TG N (Heap N) := do
  let p ← h.get c id
  h.polyOpT level (fun i _ _ => wr (f (h.view C p).rows i)) p p p

/-- `ct.Value[id].Copy(P)` of lattigo for a polynomial `P` of a pool -/
def putCopyT (c : ℕ) (id : String) (P : Poly C) (h : Heap N) : TG N (Heap N) := do
  let p ← h.get c id
  let h1 ← h.rowsOpT (min (h.len p) P.len) (fun i _ _ => wr (P.rows i)) p p p
  h1.setNTTT p P.isNTT

/-- the permutation of all components (mkrlwe/keyswitch.go:264-296): `for id := range ctIn.Value` -/
def permuteAllT (S : Scratch C) (level galEl : ℕ) (ids : List String) (out : ℕ) (h : Heap N) : TG N (Heap N × Scratch C) :=
  TG.loop (fun (st : Heap N × Scratch C) id => do
    let p ← st.1.get out id
    st.1.need p level
    let S := { st.2 with q0 := permRows level galEl (st.1.view C p).rows st.2.q0 }
    let h ← st.1.putCopyT out id (pool0Poly S)
    .ok (h, S)) (h, S) ids

/-- the body of the loop over the parties in `Rotate` (mkrlwe/keyswitch.go:256-262) and `RotateHoisted` (mkrlwe/keyswitch_hoisted.go:206-212) -/
def rotateStepT (level cin r : ℕ) (hoisted : Option (HoistedCt C)) (rks : RotKeySet (GalKey C)) (a : Option (Swk C)) (out : ℕ)
    (st : Heap N × Scratch C) (id : String) : TG N (Heap N × Scratch C) := do
  let rk ← rks.get id r
  let w ← extProd st.2 level (value C st.1 cin) hoisted id rk.value st.2.q0
  let h ← updT (C := C) level out "0" (fun old i => (C.RQ i).add (old i) (w.1 i)) st.1
  let a ← orNil a
  let p ← h.get out id
  h.need p level
  let w ← extProd { w.2 with q0 := w.1 } level (value C h cin) hoisted id a (h.view C p).rows
  let h ← updT (C := C) level out id (fun _ => w.1) h
  .ok (h, w.2)

/-- `Rotate(ctIn, rotidx, rkSet, ctOut)` (mkrlwe/keyswitch.go:234-298), and, with a hoisted form, `RotateHoisted` (mkrlwe/keyswitch_hoisted.go:183-247). `cin`
and `out` may be the same object. -/
def rotateWithT (crs : GoMap ℤ (Swk C)) (o : Sched String) (S : Scratch C) (cin : ℕ) (rotidx : ℤ) (hoisted : Option (HoistedCt C))
    (rks : RotKeySet (GalKey C)) (out : ℕ) (h : Heap N) : TG N (Heap N × Scratch C) := do
  let level ← h.level out
  let ids ← h.idSet (o 20) cin
  let lin ← h.level cin
  if lin < level then .error (.panic "Cannot Rotate: ctIn and ctOut have different levels")
  else
    let r := adjustIdx N rotidx
    let c0 ← h.get cin "0"
    let p0 ← h.get out "0"
    let h1 ← h.polyCopyT p0 c0
    let st ← TG.loop (rotateStepT level cin r.toNat hoisted rks (crs.lookup r) out) (h1, S) (GoMap.range (o 21) ids.value)
    permuteAllT st.2 level (galElCol N r.toNat) (GoMap.range (o 22) (st.1.ct cin)) out st.1

/-- `ringQ.Permute(ctIn.Value[id], galEl, ctOut.Value[id])` (mkrlwe/keyswitch.go:315-317) on the rows `0..permLevel`; lattigo reads a row while it
writes the other one, so the two must be different rows -/
def permStepT (permLevel galEl cin out : ℕ) (h : Heap N) (id : String) : TG N (Heap N) := do
  let a ← h.get cin id
  let b ← h.get out id
  h.polyOpT permLevel (lift1 (C := C) fun i x => (C.RQ i).permute galEl x) a a b

/-- `c0 <- c0 + IP(c_i, rk_i)` (mkrlwe/keyswitch.go:319-323) -/
def conjStep0T (level : ℕ) (cks : KeySet (GalKey C)) (out : ℕ) (st : Heap N × Scratch C) (id : String) : TG N (Heap N × Scratch C) := do
  let ck ← cks.get "cannot GetConjugationKey: there is no conjugation key with given id" id
  let b ← (value C st.1 out).deref id
  let w ← externalProduct st.2 level b ck.value st.2.q0
  let h ← updT (C := C) level out "0" (fun old i => (C.RQ i).add (old i) (w.1 i)) st.1
  .ok (h, { w.2 with q0 := w.1 })

/-- `c_i <- IP(c_i, a)` (mkrlwe/keyswitch.go:327-330) -/
def conjStep1T (level : ℕ) (a : Option (Swk C)) (out : ℕ) (st : Heap N × Scratch C) (id : String) : TG N (Heap N × Scratch C) := do
  let b ← (value C st.1 out).deref id
  let a ← orNil a
  let w ← externalProduct st.2 level b a st.2.q0
  let h ← st.1.putCopyT out id (pool0Poly { w.2 with q0 := w.1 })
  .ok (h, { w.2 with q0 := w.1 })

/-- `Conjugate(ctIn, ckSet, ctOut)` (mkrlwe/keyswitch.go:302-332) for different objects `ctIn`, `ctOut` -/
def conjugateT (permLevel : ℕ) (crs : GoMap ℤ (Swk C)) (o : Sched String) (S : Scratch C) (cin : ℕ) (cks : KeySet (GalKey C)) (out : ℕ)
    (h : Heap N) : TG N (Heap N × Scratch C) := do
  let level ← h.level out
  let ids ← h.idSet (o 30) cin
  let lin ← h.level cin
  if lin < level then .error (.panic "Cannot Conjugate: ctIn and ctOut have different levels")
  else
    let h ← TG.loop (permStepT (C := C) permLevel (galElRow N) cin out) h (GoMap.range (o 31) (h.ct cin))
    let st ← TG.loop (conjStep0T level cks out) (h, S) (GoMap.range (o 32) ids.value)
    TG.loop (conjStep1T level (crs.lookup (-2)) out) st (GoMap.range (o 33) ids.value)

/-- "ctOut_i <- op0_i * op1_0" (mkrlwe/keyswitch.go:193-197; hoisted 129-133) -/
def tensorStep0T (level op0 out : ℕ) (st : Heap N × Scratch C) (id : String) : TG N (Heap N × Scratch C) := do
  let a ← (value C st.1 op0).deref id
  a.need level
  let S := { st.2 with q2 := setQ level (fun i => (C.RQ i).ntt (a.rows i)) st.2.q2 }
  let h ← updT (C := C) level out id (fun _ i => (C.RQ i).mulMont (S.q1 i) (S.q2 i)) st.1
  .ok (h, S)

/-- "ctOut_j += op0_0 * op1_j" (mkrlwe/keyswitch.go:199-206; hoisted 135-142) -/
def tensorStep1T (level op1 : ℕ) (ids0 : IDSet) (out : ℕ) (st : Heap N × Scratch C) (id : String) : TG N (Heap N × Scratch C) := do
  let a ← (value C st.1 op1).deref id
  a.need level
  let S := { st.2 with q2 := setQ level (fun i => (C.RQ i).ntt (a.rows i)) st.2.q2 }
  let h ← updT (C := C) level out id (fun old i =>
    if ids0.has id then (C.RQ i).mulMontAdd (S.q0 i) (S.q2 i) (old i) else (C.RQ i).mulMont (S.q0 i) (S.q2 i)) st.1
  .ok (h, S)

/-- the tensor product (mkrlwe/keyswitch.go:185-208; hoisted 121-146) -/
def tensorT (o : Sched String) (S : Scratch C) (level op0 op1 : ℕ) (ids0 ids1 : IDSet) (out : ℕ) (h : Heap N) : TG N (Heap N × Scratch C) := do
  let a0 ← (value C h op0).deref "0"
  a0.need level
  let a1 ← (value C h op1).deref "0"
  a1.need level
  let S := { S with q0 := setQ level (fun i => (C.RQ i).ntt (a0.rows i)) S.q0 }
  let S := { S with q1 := setQ level (fun i => (C.RQ i).ntt (a1.rows i)) S.q1 }
  let S := { S with q0 := setQ level (fun i => (C.RQ i).mform (S.q0 i)) S.q0 }
  let h ← updT (C := C) level out "0" (fun _ i => (C.RQ i).mulMont (S.q0 i) (S.q1 i)) h
  let S := { S with q1 := setQ level (fun i => (C.RQ i).mform (S.q1 i)) S.q1 }
  let st ← TG.loop (tensorStep0T level op0 out) (h, S) (GoMap.range (o 0) ids0.value)
  let st ← TG.loop (tensorStep1T level op1 ids0 out) st (GoMap.range (o 1) ids1.value)
  let h ← TG.loop (fun h id => updT (C := C) level out id (fun old i => (C.RQ i).intt (old i)) h) st.1 (GoMap.range (o 2) (st.1.ct out))
  .ok (h, st.2)

/-- "ctOut_j += Inter(op1_j, x)" (mkrlwe/keyswitch.go:210-214; hoisted 148-156) -/
def addXStepT (level op1 : ℕ) (h1 : Option (HoistedCt C)) (x : Swk C) (out : ℕ) (st : Heap N × Scratch C) (id : String) :
    TG N (Heap N × Scratch C) := do
  let S ← extInto0 st.2 level (value C st.1 op1) h1 id x
  let h ← updT (C := C) level out id (fun old i => (C.RQ i).add (old i) (S.q0 i)) st.1
  .ok (h, S)

/-- the last loop of `MulAndRelinHoisted` (mkrlwe/keyswitch_hoisted.go:159-178) -/
def relinStepHoistedT (level op0 : ℕ) (h0 : Option (HoistedCt C)) (rlk : RlkMap C) (y : Swk C) (u : Option (Swk C)) (out : ℕ)
    (st : Heap N × Scratch C) (id : String) : TG N (Heap N × Scratch C) := do
  let key ← rlk.value.deref id
  let S ← extInto0 st.2 level (value C st.1 op0) h0 id y
  let d ← decompose S level S.poly0 S.swk3
  let S := { d.2 with swk3 := d.1 }
  let w ← externalProductHoisted S level S.swk3 key.v S.q1
  let S := { w.2 with q1 := w.1 }
  let h ← updT (C := C) level out "0" (fun old i => (C.RQ i).add (old i) (S.q1 i)) st.1
  let u ← orNil u
  let w ← externalProductHoisted S level S.swk3 u S.q2
  let S := { w.2 with q2 := w.1 }
  let h ← updT (C := C) level out id (fun old i => (C.RQ i).add (old i) (S.q2 i)) h
  .ok (h, S)

/-- the part common to both multiplications (mkrlwe/keyswitch.go:124-214; hoisted 46-156) -/
def mulFrontT (o : Sched String) (S : Scratch C) (op0 op1 : ℕ) (h0 h1 : Option (HoistedCt C)) (rlk : RlkMap C) (out : ℕ) (h : Heap N) :
    TG N ((ℕ × IDSet × Swk C) × Heap N × Scratch C) := do
  let level ← mulChecks (value C h op0) (value C h out)
  let ids0 ← h.idSet (o 10) op0
  let ids1 ← h.idSet (o 11) op1
  let x ← zeroVec (C.beta level) S.swk1
  let y ← zeroVec (C.beta level) S.swk2
  let x ← genVec S level (value C h op0) h0 rlk Rlk.d (GoMap.range (o 12) ids0.value) x
  let y ← genVec x.2 level (value C h op1) h1 rlk Rlk.b (GoMap.range (o 13) ids1.value) y
  let S := { y.2 with swk1 := x.1, swk2 := y.1 }
  let st ← tensorT o S level op0 op1 ids0 ids1 out h
  let st ← TG.loop (addXStepT level op1 h1 x.1 out) st (GoMap.range (o 3) ids1.value)
  .ok ((level, ids0, y.1), st)

/-- `MulAndRelinHoisted(op0, op1, op0Hoisted, op1Hoisted, rlkSet, ctOut)` (mkrlwe/keyswitch_hoisted.go:44-179) -/
def mulAndRelinHoistedT (crs : GoMap ℤ (Swk C)) (o : Sched String) (S : Scratch C) (op0 op1 : ℕ) (h0 h1 : Option (HoistedCt C)) (rlk : RlkMap C)
    (out : ℕ) (h : Heap N) : TG N (Heap N × Scratch C) := do
  let f ← mulFrontT o S op0 op1 h0 h1 rlk out h
  TG.loop (relinStepHoistedT f.1.1 op0 h0 rlk f.1.2.2 (crs.lookup (-1)) out) f.2 (GoMap.range (o 4) f.1.2.1.value)

/-- `for k := 1; rotidx > 0; k *= 2 { ... }` (mkckks/evaluator.go:518-524, mkbfv/evaluator.go:183-189) -/
def rotLoopT (crs : GoMap ℤ (Swk C)) (o : ℕ → Sched String) (rks : RotKeySet (GalKey C)) (tmp out : ℕ) :
    ℕ → ℕ → Heap N → Scratch C → TG N (Heap N × Scratch C)
  | k, r, h, S =>
    if hr : 0 < r then
      if r % 2 ≠ 0 then do
        let w ← rotateWithT crs (o k) S tmp k none rks out h
        let h ← copyT (o k 60) w.1 tmp out
        rotLoopT crs o rks tmp out (2 * k) (r / 2) h w.2
      else rotLoopT crs o rks tmp out (2 * k) (r / 2) h S
    else .ok (h, S)
  termination_by _ r => r
  decreasing_by all_goals omega

/-- `rotate` (mkckks/evaluator.go:494-526) -/
def ckksRotateT (crs : GoMap ℤ (Swk C)) (o : ℕ → Sched String) (S : Scratch C) (c : ℕ) (rotidx : ℤ) (rks : RotKeySet (GalKey C)) (out : ℕ)
    (h : Heap N) : TG N (Heap N × Scratch C) := do
  let r := rotNorm N rotidx
  if r = 0 then
    let h ← copyT (o 0 61) h out c
    .ok (h, S)
  else if (crs.lookup r).isSome then rotateWithT crs (o 0) S c r none rks out h
  else
    let w ← copyNewT (o 0 62) h c
    rotLoopT crs o rks w.1 out 1 r.toNat w.2 S

/-- `RotateNew` (mkckks/evaluator.go:484-489) -/
def ckksRotateNewT (crs : GoMap ℤ (Swk C)) (o : ℕ → Sched String) (E : Eval C) (c : HCt) (rotidx : ℤ) (rks : RotKeySet (GalKey C)) (h : Heap N) :
    TG N ((HCt × Eval C) × Heap N) := do
  let ids ← h.idSet (o 0 63) c.ct
  let level ← h.level c.ct
  let w ← newCtT (o 0 64) ids level h
  let r ← ckksRotateT crs o E.ksw c.ct rotidx rks w.1 w.2
  .ok ((⟨w.1, c.scale⟩, { E with ksw := r.2 }), r.1)

/-- `rotateHoisted` (mkckks/evaluator.go:593-617) -/
def ckksRotateHoistedT (crs : GoMap ℤ (Swk C)) (o : ℕ → Sched String) (S : Scratch C) (c : ℕ) (rotidx : ℤ) (hc : HoistedCt C)
    (rks : RotKeySet (GalKey C)) (out : ℕ) (h : Heap N) : TG N (Heap N × Scratch C) := do
  let r := rotNorm N rotidx
  if r = 0 then
    let h ← copyT (o 0 61) h out c
    .ok (h, S)
  else if (crs.lookup r).isSome then rotateWithT crs (o 0) S c r (some hc) rks out h
  else .error (.panic "Hoisted rotation only works for precomputed rotation keys")

/-- `RotateHoistedNew` (mkckks/evaluator.go:585-589) -/
def ckksRotateHoistedNewT (crs : GoMap ℤ (Swk C)) (o : ℕ → Sched String) (E : Eval C) (c : HCt) (rotidx : ℤ) (hc : HoistedCt C)
    (rks : RotKeySet (GalKey C)) (h : Heap N) : TG N ((HCt × Eval C) × Heap N) := do
  let ids ← h.idSet (o 0 63) c.ct
  let level ← h.level c.ct
  let w ← newCtT (o 0 64) ids level h
  let r ← ckksRotateHoistedT crs o E.ksw c.ct rotidx hc rks w.1 w.2
  .ok ((⟨w.1, c.scale⟩, { E with ksw := r.2 }), r.1)

/-- `ConjugateNew` and `conjugate` (mkckks/evaluator.go:530-540) -/
def ckksConjugateNewT (permLevel : ℕ) (crs : GoMap ℤ (Swk C)) (o : Sched String) (E : Eval C) (c : HCt) (cks : KeySet (GalKey C)) (h : Heap N) :
    TG N ((HCt × Eval C) × Heap N) := do
  let ids ← h.idSet (o 63) c.ct
  let level ← h.level c.ct
  let w ← newCtT (o 64) ids level h
  let r ← conjugateT permLevel crs o E.ksw c.ct cks w.1 w.2
  .ok ((⟨w.1, c.scale⟩, { E with ksw := r.2 }), r.1)

/-- `mulRelinHoisted` (mkckks/evaluator.go:570-581) -/
noncomputable def ckksMulRelinHoistedT (pscale : ℚ) (crs : GoMap ℤ (Swk C)) (o : Sched String) (E : Eval C) (op0 op1 : HCt)
    (h0 h1 : Option (HoistedCt C)) (rlk : RlkMap C) (out : ℕ) (h : Heap N) : TG N ((HCt × Eval C) × Heap N) := do
  let l0 ← h.level op0.ct
  let l1 ← h.level op1.ct
  let lo ← h.level out
  let level := min (min l0 l1) lo
  let h ← dropToT (o 90) h out lo level level
  let w ← mulAndRelinHoistedT crs o E.ksw op0.ct op1.ct h0 h1 rlk out h
  let r ← rescaleT C (o 91) w.1 ⟨out, C.fm.mul op0.scale op1.scale⟩ pscale ⟨out, C.fm.mul op0.scale op1.scale⟩ true
  .ok ((r.1.2, { E with ksw := w.2 }), r.2)

/-- `MulRelinHoistedNew` (mkckks/evaluator.go:558-564) -/
noncomputable def ckksMulRelinHoistedNewT (pscale : ℚ) (crs : GoMap ℤ (Swk C)) (o : Sched String) (E : Eval C) (op0 op1 : HCt)
    (h0 h1 : Option (HoistedCt C)) (rlk : RlkMap C) (h : Heap N) : TG N ((HCt × Eval C) × Heap N) := do
  let w ← newCiphertextBinaryT o h op0 op1
  ckksMulRelinHoistedT pscale crs o E op0 op1 h0 h1 rlk w.1.ct w.2

/-- `MulRelinNew` (mkckks/evaluator.go:416-443): the test `op0 == op1` compares pointers. Two operands that point to the same embedded
ciphertext are the same object here. -/
noncomputable def ckksMulRelinNewT (pscale : ℚ) (crs : GoMap ℤ (Swk C)) (o : Sched String) (E : Eval C) (op0 op1 : HCt) (rlk : RlkMap C)
    (h : Heap N) : TG N ((HCt × Eval C × RlkMap C) × Heap N) := do
  if op0.ct = op1.ct then
    let w ← hoistInto (o 92) (o 93) E.ksw (value C h op0.ct) rlk.pool0
    let rlk := { rlk with pool0 := w.1 }
    let r ← ckksMulRelinHoistedNewT pscale crs o { E with ksw := w.2 } op0 op1 (some rlk.pool0) (some rlk.pool0) rlk h
    .ok ((r.1.1, r.1.2, rlk), r.2)
  else
    let w ← hoistInto (o 92) (o 93) E.ksw (value C h op0.ct) rlk.pool0
    let rlk := { rlk with pool0 := w.1 }
    let w ← hoistInto (o 94) (o 95) w.2 (value C h op1.ct) rlk.pool1
    let rlk := { rlk with pool1 := w.1 }
    let r ← ckksMulRelinHoistedNewT pscale crs o { E with ksw := w.2 } op0 op1 (some rlk.pool0) (some rlk.pool1) rlk h
    .ok ((r.1.1, r.1.2, rlk), r.2)

/-- one component of `MulPtxtNew` (mkckks/evaluator.go:473-478) -/
def mulPtxtStepT (level c : ℕ) (pq : QRows C) (out : ℕ) (h : Heap N) (id : String) : TG N (Heap N) := do
  let a ← (value C h c).deref id
  a.need level
  let h ← updT (C := C) level out id (fun _ i => (C.RQ i).ntt (a.rows i)) h
  let h ← updT (C := C) level out id (fun old i => (C.RQ i).mulMont (old i) (pq i)) h
  updT (C := C) level out id (fun old i => (C.RQ i).intt (old i)) h

/-- `MulPtxtNew(ct, pt)` (mkckks/evaluator.go:465-481) -/
noncomputable def mulPtxtNewT (pscale : ℚ) (o : Sched String) (E : Eval C) (c : HCt) (pt : Poly C) (ptScale : ℚ) (h : Heap N) :
    TG N ((HCt × Eval C) × Heap N) := do
  let ids ← h.idSet (o 100) c.ct
  let level ← h.level c.ct
  let w ← newCtT (o 101) ids level h
  pt.need level
  let E := { E with polyQ := setQ level (fun i => (C.RQ i).ntt (pt.rows i)) E.polyQ }
  let E := { E with polyQ := setQ level (fun i => (C.RQ i).mform (E.polyQ i)) E.polyQ }
  let h ← TG.loop (mulPtxtStepT level c.ct E.polyQ w.1) w.2 (GoMap.range (o 102) (w.2.ct c.ct))
  let r ← rescaleT C (o 103) h ⟨w.1, C.fm.mul c.scale ptScale⟩ pscale ⟨w.1, C.fm.mul c.scale ptScale⟩ true
  .ok ((r.1.2, E), r.2)

/-- `rotate` (mkbfv/evaluator.go:161-192) -/
def bfvRotateT (crs : GoMap ℤ (Swk C)) (o : ℕ → Sched String) (S : Scratch C) (c : ℕ) (rotidx : ℤ) (rks : RotKeySet (GalKey C)) (out : ℕ)
    (h : Heap N) : TG N (Heap N × Scratch C) := do
  let r := rotNorm N rotidx
  if r = 0 then
    let h ← copyT (o 0 61) h out c
    .ok (h, S)
  else
    let w ← copyNewT (o 0 62) h c
    if (crs.lookup r).isSome then rotateWithT crs (o 0) S w.1 r none rks out w.2
    else rotLoopT crs o rks w.1 out 1 r.toNat w.2 S

/-- `RotateNew` (mkbfv/evaluator.go:154-158) -/
def bfvRotateNewT (crs : GoMap ℤ (Swk C)) (o : ℕ → Sched String) (S : Scratch C) (c : ℕ) (rotidx : ℤ) (rks : RotKeySet (GalKey C)) (h : Heap N) :
    TG N ((ℕ × Scratch C) × Heap N) := do
  let ids ← h.idSet (o 0 63) c
  let w ← newCtT (o 0 64) ids (C.nQ - 1) h
  let r ← bfvRotateT crs o S c rotidx rks w.1 w.2
  .ok ((w.1, r.2), r.1)

/-- `ConjugateNew` and `conjugate` (mkbfv/evaluator.go:197-208) -/
def bfvConjugateNewT (permLevel : ℕ) (crs : GoMap ℤ (Swk C)) (o : Sched String) (S : Scratch C) (c : ℕ) (cks : KeySet (GalKey C)) (h : Heap N) :
    TG N ((ℕ × Scratch C) × Heap N) := do
  let ids ← h.idSet (o 63) c
  let w ← newCtT (o 64) ids (C.nQ - 1) h
  let t ← copyNewT (o 62) w.2 c
  let r ← conjugateT permLevel crs o S t.1 cks w.1 t.2
  .ok ((w.1, r.2), r.1)

variable {B : BCtx N}

/-- `conv.Quantize(a, ctOut.Value[id], params.T())` (mkbfv/keyswitch.go:197, 207, 215, 227) -/
def quantT (pool : Fin N → ℕ → ℕ) (a : RowsR B) (id : String) (out : ℕ) (h : Heap N) : TG N (Heap N) := do
  let p ← h.get out id
  h.need p B.top
  let r ← quantize pool a (h.view B.C p).rows
  updT (C := B.C) B.top out id (fun _ => r) h

/-- mkbfv/keyswitch.go:202-208; the operands over R are scratch of the key set -/
def tensorB0T (op0 : CtR N) (ids1 : IDSet) (out : ℕ) (w : Heap N × BScratch B) (id : String) : TG N (Heap N × BScratch B) := do
  if ids1.has id = false then
    let a ← op0.deref id
    let S := { w.2 with r3 := nttR a }
    let S := { S with r3 := mulR S.r2 S.r3 }
    let h ← quantT S.conv S.r3 id out w.1
    .ok (h, S)
  else .ok w

/-- mkbfv/keyswitch.go:210-216 -/
def tensorB1T (op1 : CtR N) (ids0 : IDSet) (out : ℕ) (w : Heap N × BScratch B) (id : String) : TG N (Heap N × BScratch B) := do
  if ids0.has id = false then
    let a ← op1.deref id
    let S := { w.2 with r3 := nttR a }
    let S := { S with r3 := mulR S.r1 S.r3 }
    let h ← quantT S.conv S.r3 id out w.1
    .ok (h, S)
  else .ok w

/-- mkbfv/keyswitch.go:218-228 -/
def tensorB2T (op0 op1 : CtR N) (ids0 : IDSet) (out : ℕ) (w : Heap N × BScratch B) (id : String) : TG N (Heap N × BScratch B) := do
  if ids0.has id then
    let a ← op1.deref id
    let S := { w.2 with r3 := nttR a }
    let S := { S with r3 := mulR S.r1 S.r3 }
    let b ← op0.deref id
    let S := { S with r4 := nttR b }
    let S := { S with r3 := mulAddR S.r2 S.r4 S.r3 }
    let h ← quantT S.conv S.r3 id out w.1
    .ok (h, S)
  else .ok w

/-- the tensor product (mkbfv/keyswitch.go:191-228; hoisted 136-173) -/
def tensorBT (o : Sched String) (S : BScratch B) (op0 op1 : CtR N) (ids0 ids1 : IDSet) (out : ℕ) (h : Heap N) : TG N (Heap N × BScratch B) := do
  let a0 ← op0.deref "0"
  let S := { S with r1 := nttR a0 }
  let a1 ← op1.deref "0"
  let S := { S with r2 := nttR a1 }
  let S := { S with r1 := mformR S.r1 }
  let S := { S with r3 := mulR S.r1 S.r2 }
  let h ← quantT S.conv S.r3 "0" out h
  let S := { S with r2 := mformR S.r2 }
  let w ← TG.loop (tensorB0T op0 ids1 out) (h, S) (GoMap.range (o 0) ids0.value)
  let w ← TG.loop (tensorB1T op1 ids0 out) w (GoMap.range (o 1) ids1.value)
  TG.loop (tensorB2T op0 op1 ids0 out) w (GoMap.range (o 2) ids1.value)

/-- `ctOut_j += Inter(op1_j, x)` (mkbfv/keyswitch.go:231-234; hoisted 176-183) -/
def addXBT (level : ℕ) (op1 : CtR N) (h1 : HoistedPair B) (out : ℕ) (w : Heap N × BScratch B) (id : String) : TG N (Heap N × BScratch B) := do
  let S ← extIntoB w.2 level op1 h1 id w.2.s3 w.2.s4
  let h ← updT (C := B.C) level out id (fun old i => (B.C.RQ i).add (old i) (S.q1 i)) w.1
  .ok (h, S)

/-- the last loop of `MulAndRelinBFVHoisted` (mkbfv/keyswitch_hoisted.go:190-206) -/
def lastBHoistedT (crs : GoMap ℤ (Swk B.C)) (level : ℕ) (op0 : CtR N) (h0 : HoistedPair B) (rlk : GoMap String (BRlk B.C)) (out : ℕ)
    (w : Heap N × BScratch B) (id : String) : TG N (Heap N × BScratch B) := do
  let key ← rlk.deref id
  let S ← extIntoB w.2 level op0 h0 id w.2.s5 w.2.s6
  let d ← decompose S.base level S.poly1 S.s3
  let S := { S with base := d.2, s3 := d.1 }
  let e ← externalProductHoisted S.base level S.s3 key.k1.v S.q2
  let S := { S with base := e.2, q2 := e.1 }
  let h ← updT (C := B.C) level out "0" (fun old i => (B.C.RQ i).add (old i) (S.q2 i)) w.1
  let u ← crs.deref (-1)
  let e ← externalProductHoisted S.base level S.s3 u S.q2
  let S := { S with base := e.2, q2 := e.1 }
  let h ← updT (C := B.C) level out id (fun old i => (B.C.RQ i).add (old i) (S.q2 i)) h
  .ok (h, S)

/-- the front part of the multiplications (mkbfv/keyswitch.go:117-234; hoisted 44-183) -/
def mulFrontBT (o : Sched String) (S : BScratch B) (op0 op1 : CtR N) (h0 h1 : HoistedPair B) (rlk : GoMap String (BRlk B.C)) (out : ℕ) (h : Heap N) :
    TG N ((ℕ × IDSet) × Heap N × BScratch B) := do
  let level ← mulChecksB B op0 (value B.C h out)
  let ids0 ← IDSet.ofCiphertext (o 10) op0
  let ids1 ← IDSet.ofCiphertext (o 11) op1
  let x1 ← zeroVec (B.C.beta level) S.s3
  let x2 ← zeroVec (B.C.beta level) S.s4
  let y1 ← zeroVec (B.C.beta level) S.s5
  let y2 ← zeroVec (B.C.beta level) S.s6
  let x ← genVecB S level op0 h0 rlk Rlk.d (GoMap.range (o 12) ids0.value) x1 x2
  let y ← genVecB x.2 level op1 h1 rlk Rlk.b (GoMap.range (o 13) ids1.value) y1 y2
  let S := { y.2 with s3 := x.1.1, s4 := x.1.2, s5 := y.1.1, s6 := y.1.2 }
  let w ← tensorBT o S op0 op1 ids0 ids1 out h
  let w ← TG.loop (addXBT level op1 h1 out) w (GoMap.range (o 3) ids1.value)
  .ok ((level, ids0), w)

/-- `mulRelinHoisted(ct0, ct1, rlkSet, ctOut)` (mkbfv/evaluator.go:118-150) with `MulAndRelinBFVHoisted` (mkbfv/keyswitch_hoisted.go:39-207) -/
def bfvMulRelinHoistedT (crs : GoMap ℤ (Swk B.C)) (o : Sched String) (S : BScratch B) (c0 c1 : ℕ) (set : BRlkMap B) (out : ℕ) (h : Heap N) :
    TG N (Heap N × BScratch B) := do
  let ct0R ← toR (modUpQtoR B S.conv) (o 120) set.polyR1 (value B.C h c0)
  let ct1R ← toR (rescaleR B S.conv S.conv) (o 121) set.polyR2 (value B.C h c1)
  let ids0 ← h.idSet (o 122) c0
  let ids1 ← h.idSet (o 123) c1
  let l0 ← h.level c0
  let h0 ← hoistB S l0 ct0R (GoMap.range (o 124) ids0.value) (set.hoist10, set.hoist20)
  let l1 ← h.level c1
  let h1 ← hoistB S l1 ct1R (GoMap.range (o 125) ids1.value) (set.hoist11, set.hoist21)
  let f ← mulFrontBT o S ct0R ct1R (some h0) (some h1) set.value out h
  TG.loop (lastBHoistedT crs f.1.1 ct0R (some h0) set.value out) f.2 (GoMap.range (o 4) f.1.2.value)

/-- `MulRelinNew(op0, op1, rlkSet)` (mkbfv/evaluator.go:84-88) -/
def bfvMulRelinNewT (crs : GoMap ℤ (Swk B.C)) (o : Sched String) (S : BScratch B) (c0 c1 : ℕ) (set : BRlkMap B) (h : Heap N) :
    TG N ((ℕ × BScratch B) × Heap N) := do
  let w ← bfvNewBinaryT B.C o h c0 c1
  let r ← bfvMulRelinHoistedT crs o S c0 c1 set w.1 w.2
  .ok ((w.1, r.2), r.1)

/-- a lattigo call that overwrites the rows up to `level` of `ct.Value[id]`; row `i` of the result may depend on its old row -/
def onRowsT (c : ℕ) (id : String) (level : ℕ) (f : ∀ i, Limb N (C.q i) → Limb N (C.q i)) (h : Heap N) : TG N (Heap N) := do
  let p ← h.get c id
  h.polyOpT level (lift1 f) p p p

/-- the branch for an NTT-form ciphertext (mkrlwe/encryptor.go:74-92) -/
def encryptNTTT (gs : ℕ → Nega N ℤ) (st : Enc C) (levelQ pt : ℕ) (id : String) (c : ℕ) (h : Heap N) : TG N (Enc C × Heap N) := do
  let pool := setQ levelQ (smallRows (gs st.gpos)) st.pool
  let pool := setQ levelQ (fun i => (C.RQ i).ntt (pool i)) pool
  let h ← h.onRowsT c id levelQ (fun i a => (C.RQ i).add a (pool i))
  let pool := setQ levelQ (smallRows (gs (st.gpos + 1))) pool
  h.need pt levelQ
  if !(h.poly pt).isNTT then
    let pool := setQ levelQ (fun i => (C.RQ i).add (pool i) ((h.view C pt).rows i)) pool
    let pool := setQ levelQ (fun i => (C.RQ i).ntt (pool i)) pool
    let h ← h.onRowsT c "0" levelQ (fun i a => (C.RQ i).add a (pool i))
    .ok (⟨pool, st.upos, st.gpos + 2⟩, h)
  else
    let pool := setQ levelQ (fun i => (C.RQ i).ntt (pool i)) pool
    let h ← h.onRowsT c "0" levelQ (fun i a => (C.RQ i).add a (pool i))
    let h ← h.onRowsT c "0" levelQ (fun i a => (C.RQ i).add a ((h.view C pt).rows i))
    .ok (⟨pool, st.upos, st.gpos + 2⟩, h)

/-- the branch for a coefficient-form ciphertext (mkrlwe/encryptor.go:94-111) -/
def encryptCoeffT (gs : ℕ → Nega N ℤ) (st : Enc C) (levelQ pt : ℕ) (id : String) (c : ℕ) (h : Heap N) : TG N (Enc C × Heap N) := do
  let h ← h.onRowsT c "0" levelQ (fun i a => (C.RQ i).intt a)
  let h ← h.onRowsT c id levelQ (fun i a => (C.RQ i).intt a)
  let l0 ← h.level c
  let h ← h.onRowsT c "0" l0 (fun i a => (C.RQ i).add a (smallRow _ (gs st.gpos)))
  let l1 ← h.level c
  let h ← h.onRowsT c id l1 (fun i a => (C.RQ i).add a (smallRow _ (gs (st.gpos + 1))))
  h.need pt levelQ
  if !(h.poly pt).isNTT then
    let h ← h.onRowsT c "0" levelQ (fun i a => (C.RQ i).add a ((h.view C pt).rows i))
    .ok (⟨st.pool, st.upos, st.gpos + 2⟩, h)
  else
    let pool := setQ levelQ (fun i => (C.RQ i).intt ((h.view C pt).rows i)) st.pool
    let h ← h.onRowsT c "0" levelQ (fun i a => (C.RQ i).add a (pool i))
    .ok (⟨pool, st.upos, st.gpos + 2⟩, h)

/-- the two branches on `ciphertextNTT` (mkrlwe/encryptor.go:73-112) -/
def encryptBodyT (ntt : Bool) (gs : ℕ → Nega N ℤ) (st : Enc C) (levelQ pt : ℕ) (id : String) (c : ℕ) (h : Heap N) : TG N (Enc C × Heap N) :=
  if ntt then encryptNTTT gs st levelQ pt id c h else encryptCoeffT gs st levelQ pt id c h

/-- `p.Coeffs = p.Coeffs[:levelQ+1]` for `p = ct.Value[id]` (mkrlwe/encryptor.go:115-116) -/
def truncAtT (c : ℕ) (id : String) (levelQ : ℕ) (h : Heap N) : TG N (Heap N) := do
  let p ← h.get c id
  h.truncateT p (levelQ + 1)

/-- `ctOut.Value[id].IsNTT = ctOut.Value["0"].IsNTT` (mkrlwe/encryptor.go:113) -/
def copyFlagT (c : ℕ) (id : String) (h : Heap N) : TG N (Heap N) := do
  let q0 ← h.get c "0"
  let q1 ← h.get c id
  h.setNTTT q1 (h.poly q0).isNTT

/-- `Encrypt(plaintext, pk, ctOut)` (mkrlwe/encryptor.go:55-118): `pt` is the polynomial `plaintext.Value` -/
def encryptT (us gs : ℕ → Nega N ℤ) (st : Enc C) (pt : ℕ) (pk : PKey C) (c : ℕ) (h : Heap N) : TG N (Enc C × Heap N) := do
  let l0 ← h.level c
  let levelQ := min (h.len pt - 1) l0
  let p0 ← h.get c "0"
  let pool := setQ levelQ (smallRows (us st.upos)) st.pool
  let pool := setQ levelQ (fun i => (C.RQ i).ntt (pool i)) pool
  let pool := setQ levelQ (fun i => (C.RQ i).mform (pool i)) pool
  let ntt := (h.poly p0).isNTT
  let h ← h.onRowsT c "0" levelQ (fun i _ => (C.RQ i).mulMont (pool i) (pk.v0.Q i))
  let h ← h.onRowsT c pk.id levelQ (fun i _ => (C.RQ i).mulMont (pool i) (pk.v1.Q i))
  let w ← encryptBodyT ntt gs ⟨pool, st.upos + 1, st.gpos⟩ levelQ pt pk.id c h
  let h ← copyFlagT c pk.id w.2
  let h ← truncAtT c "0" levelQ h
  let h ← truncAtT c pk.id levelQ h
  .ok (w.1, h)

/-- `mkckks.EncryptPtxt` (mkckks/encryptor.go:34-37): the scale of the receiver is set -/
def ckksEncryptPtxtT (us gs : ℕ → Nega N ℤ) (st : Enc C) (pt : ℕ) (scale : ℚ) (pk : PKey C) (c : ℕ) (h : Heap N) : TG N ((HCt × Enc C) × Heap N) := do
  let w ← encryptT us gs st pt pk c h
  .ok ((⟨c, scale⟩, w.1), w.2)

/-- `mkckks.EncryptMsgNew` (mkckks/encryptor.go:52-60) after the encoding into `ptxtPool` -/
def ckksEncryptNewT (o : Sched String) (us gs : ℕ → Nega N ℤ) (st : Enc C) (pt : ℕ) (scale : ℚ) (pk : PKey C) (h : Heap N) : TG N ((HCt × Enc C) × Heap N) := do
  let ids ← IDSet.new.add pk.id
  let w ← newCtT (o 207) ids (C.nQ - 1) h
  ckksEncryptPtxtT us gs st pt scale pk w.1 w.2

/-- `mkbfv.EncryptMsgNew` (mkbfv/encryptor.go:49-63) after the encoding into `ptxtPool` -/
def bfvEncryptNewT (o : Sched String) (us gs : ℕ → Nega N ℤ) (st : Enc C) (pt : ℕ) (pk : PKey C) (h : Heap N) : TG N ((ℕ × Enc C) × Heap N) := do
  let ids ← IDSet.new.add pk.id
  let w ← newCtT (o 207) ids (C.nQ - 1) h
  let r ← encryptT us gs st pt pk w.1 w.2
  .ok ((w.1, r.1), r.2)

end Heap
end MKHE
