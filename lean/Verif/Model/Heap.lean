import Verif.Model.Crypt
import Verif.Model.Bfv

set_option autoImplicit false

/-!
# Memory model: row buffers, polynomial objects, ciphertext maps

The other model files treat ciphertexts as values. This file models the same functions on a heap, to speak about sharing: a ciphertext is a
map from ids to pointers to `ring.Poly` objects, and a `ring.Poly` is a slice of pointers to row buffers and a flag. Operands may share
polynomials. Functions return the new heap; a panic is a fault (the heap at that point is not tracked).
-/

namespace MKHE

/-- a row buffer, `[]uint64` of length `N` -/
abbrev RowBuf (N : ℕ) := Fin N → ℕ

/-- a `ring.Poly` object of lattigo: `Coeffs [][]uint64` (addresses of the rows) and `IsNTT` -/
structure PolyObj where
  coeffs : List ℕ
  isNTT : Bool

/-- the heap: contents of every row buffer, polynomial object and ciphertext map, and the next free address of each kind -/
structure Heap (N : ℕ) where
  row : ℕ → RowBuf N
  poly : ℕ → PolyObj
  ct : ℕ → GoMap String ℕ
  nrow : ℕ
  npoly : ℕ
  nct : ℕ

namespace Heap
variable {N : ℕ} [NeZero N]

/-- number of rows of a polynomial -/
def len (h : Heap N) (p : ℕ) : ℕ := (h.poly p).coeffs.length

/-- address of row `i` of a polynomial -/
def addr (h : Heap N) (p i : ℕ) : ℕ := (h.poly p).coeffs.getD i 0

/-- overwrite a row buffer -/
def setRow (h : Heap N) (a : ℕ) (r : RowBuf N) : Heap N := { h with row := Function.update h.row a r }

/-- allocate a polynomial with the given rows -/
def allocPoly (h : Heap N) (isNTT : Bool) (rows : List (RowBuf N)) : ℕ × Heap N :=
  (h.npoly, { h with
    row := fun a => if h.nrow ≤ a ∧ a < h.nrow + rows.length then rows.getD (a - h.nrow) 0 else h.row a
    poly := Function.update h.poly h.npoly ⟨(List.range rows.length).map (h.nrow + ·), isNTT⟩
    nrow := h.nrow + rows.length
    npoly := h.npoly + 1 })

/-- `ring.NewPoly(N, level+1)` of lattigo: new zero rows, flag cleared -/
def newPoly (h : Heap N) (level : ℕ) : ℕ × Heap N := h.allocPoly false (List.replicate (level + 1) 0)

/-- `Poly.CopyNew` of lattigo: new rows with the same contents, same flag -/
def polyCopyNew (h : Heap N) (p : ℕ) : ℕ × Heap N := h.allocPoly (h.poly p).isNTT ((h.poly p).coeffs.map h.row)

/-- set the flag of a polynomial -/
def setNTT (h : Heap N) (p : ℕ) (b : Bool) : Heap N :=
  { h with poly := Function.update h.poly p { h.poly p with isNTT := b } }

/-- `p.Coeffs = p.Coeffs[:n]`; the rows themselves stay where they are. Reslicing beyond the current length is reported as a panic (as in
`dropLevel`). -/
def truncate (h : Heap N) (p n : ℕ) : Go (Heap N) :=
  if h.len p < n then .error .indexOutOfRange
  else .ok { h with poly := Function.update h.poly p { h.poly p with coeffs := (h.poly p).coeffs.take n } }

/-- allocate a ciphertext object with the given map -/
def allocCt (h : Heap N) (m : GoMap String ℕ) : ℕ × Heap N :=
  (h.nct, { h with ct := Function.update h.ct h.nct m, nct := h.nct + 1 })

/-- change the map of a ciphertext object -/
def setCt (h : Heap N) (c : ℕ) (m : GoMap String ℕ) : Heap N := { h with ct := Function.update h.ct c m }

/-- `ct.Value[id]`, whose use is a nil dereference if the id is missing -/
def get (h : Heap N) (c : ℕ) (id : String) : Go ℕ := (h.ct c).deref id

/-- rows up to `level` exist -/
def need (h : Heap N) (p level : ℕ) : Go Unit := if level < h.len p then .ok () else .error .indexOutOfRange

/-- `Level()` (mkrlwe/elements.go:60-62) -/
def level (h : Heap N) (c : ℕ) : Go ℕ := do
  let p ← h.get c "0"
  .ok (h.len p - 1)

/-- the first `n` rows of `c` become `f i` of the rows of `a` and `b`: the loop of every lattigo ring function, row by row, reading the
heap as it is when the row is computed (`c` may be `a` or `b`) -/
def rowsOp (h : Heap N) (n : ℕ) (f : ℕ → RowBuf N → RowBuf N → RowBuf N) (a b c : ℕ) : Heap N :=
  forN n (fun h i => h.setRow (h.addr c i) (f i (h.row (h.addr a i)) (h.row (h.addr b i)))) h

/-- a lattigo ring function with a level: rows `0..level` must exist on all three polynomials -/
def polyOp (h : Heap N) (level : ℕ) (f : ℕ → RowBuf N → RowBuf N → RowBuf N) (a b c : ℕ) : Go (Heap N) :=
  if level < h.len a ∧ level < h.len b ∧ level < h.len c then .ok (h.rowsOp (level + 1) f a b c)
  else .error .indexOutOfRange

/-- `Poly.Copy(src)` of lattigo: copies the rows that exist on both sides, and the flag -/
def polyCopy (h : Heap N) (dst src : ℕ) : Heap N :=
  (h.rowsOp (min (h.len dst) (h.len src)) (fun _ r _ => r) src src dst).setNTT dst (h.poly src).isNTT

/-! ## mkrlwe/elements.go -/

/-- `NewCiphertext(params, idset, level)` (elements.go:22-33). The map is filled before the object is allocated; nothing else can see it. -/
def newCt (o : Order String) (ids : IDSet) (level : ℕ) (h : Heap N) : ℕ × Heap N :=
  let w := h.newPoly level
  let w := (GoMap.range o ids.value).foldl (fun (w : GoMap String ℕ × Heap N) id =>
    (w.1.insert id (w.2.newPoly level).1, (w.2.newPoly level).2)) (AList.insert "0" w.1 ∅, w.2)
  w.2.allocCt w.1

/-- `NewCiphertextNTT(params, idset, level)` (elements.go:36-44) -/
def newCtNTT (o o' : Order String) (ids : IDSet) (level : ℕ) (h : Heap N) : Go (ℕ × Heap N) := do
  let w := newCt o ids level h
  let h ← Go.loop (fun (h : Heap N) id => do
    let p ← h.get w.1 id
    .ok (h.setNTT p true)) w.2 (GoMap.range o' (w.2.ct w.1))
  .ok (w.1, h)

/-- `IDSet()` (elements.go:47-57) -/
def idSet (o : Order String) (h : Heap N) (c : ℕ) : Go IDSet := IDSet.ofCiphertext o (h.ct c)

/-- `CopyNew()` (elements.go:70-81) -/
def copyNew (o : Order String) (h : Heap N) (c : ℕ) : Go (ℕ × Heap N) := do
  let p0 ← h.get c "0"
  let w := h.polyCopyNew p0
  let w ← Go.loop (fun (w : GoMap String ℕ × Heap N) id => do
    let p ← w.2.get c id
    .ok (w.1.insert id (w.2.polyCopyNew p).1, (w.2.polyCopyNew p).2)) (AList.insert "0" w.1 (∅ : GoMap String ℕ), w.2) (GoMap.range o (h.ct c))
  .ok (w.2.allocCt w.1)

/-- `Copy(ct)` (elements.go:84-88) -/
def copy (o : Order String) (h : Heap N) (dst src : ℕ) : Go (Heap N) :=
  Go.loop (fun (h : Heap N) id => do
    let p ← h.get dst id
    let q ← h.get src id
    .ok (h.polyCopy p q)) h (GoMap.range o (h.ct src))

/-- one iteration of `PadCiphertext` (elements.go:100-103) -/
def padStep (c level : ℕ) (isNTT : Bool) (old : IDSet) (h : Heap N) (id : String) : Heap N :=
  if old.has id then h
  else
    let w := h.newPoly level
    (w.2.setCt c ((w.2.ct c).insert id w.1)).setNTT w.1 isNTT

/-- `PadCiphertext(idset)` (elements.go:91-105) -/
def pad (o1 o2 : Order String) (h : Heap N) (c : ℕ) (ids : IDSet) : Go (Heap N) := do
  let p0 ← h.get c "0"
  let old ← h.idSet o1 c
  let l ← h.level c
  .ok ((GoMap.range o2 ids.value).foldl (padStep c l (h.poly p0).isNTT old) h)

/-! ## typed row operations -/

variable {C : Ctx N}

/-- a row buffer seen as residues modulo the prime of row `i` -/
def rd (C : Ctx N) (i : ℕ) (r : RowBuf N) : Limb N (C.q i) := fun t => toWord (C.q i) (r t)

/-- the words of a row -/
def wr {q : ℕ} (l : Limb N q) : RowBuf N := fun t => (l t).val

/-- a unary row function on buffers -/
def lift1 (f : ∀ i, Limb N (C.q i) → Limb N (C.q i)) : ℕ → RowBuf N → RowBuf N → RowBuf N := fun i a _ => wr (f i (rd C i a))

/-- a binary row function on buffers -/
def lift2 (f : ∀ i, Limb N (C.q i) → Limb N (C.q i) → Limb N (C.q i)) : ℕ → RowBuf N → RowBuf N → RowBuf N :=
  fun i a b => wr (f i (rd C i a) (rd C i b))

/-- the value of a polynomial object. Rows that do not exist are shown as zero. -/
def view (C : Ctx N) (h : Heap N) (p : ℕ) : Poly C :=
  ⟨h.len p, (h.poly p).isNTT, fun i => if i < h.len p then rd C i (h.row (h.addr p i)) else Limb.zero⟩

/-- the contents of a ciphertext object: the map from ids to polynomials (mkrlwe/elements.go:17-19) with every pointer followed -/
def value (C : Ctx N) (h : Heap N) (c : ℕ) : Ct C :=
  ⟨(h.ct c).entries.map fun e => ⟨e.1, view C h e.2⟩, by
    unfold List.NodupKeys List.keys
    rw [List.map_map]
    exact (h.ct c).nodupKeys⟩

/-! ## mkrlwe/decryptor.go -/

/-- `if !p.IsNTT { f(p) }` -/
def unlessNTT (h : Heap N) (p level : ℕ) (f : ∀ i, Limb N (C.q i) → Limb N (C.q i)) : Go (Heap N) :=
  if (h.poly p).isNTT then .ok h else h.polyOp level (lift1 f) p p p

/-- `PartialDecrypt(ct, sk)` (decryptor.go:26-43). The secret key is read only; it is passed as a value. -/
def partialDecrypt (sk : SKey C) (h : Heap N) (c : ℕ) : Go (Heap N) := do
  let level ← h.level c
  let p ← h.get c sk.id
  let h ← h.unlessNTT p level (fun i a => (C.RQ i).ntt a)
  let h ← h.polyOp level (lift1 fun i a => (C.RQ i).mulMont a (sk.value.Q i)) p p p
  let h ← h.unlessNTT p level (fun i a => (C.RQ i).intt a)
  let p0 ← h.get c "0"
  let h ← h.polyOp level (lift2 fun i a b => (C.RQ i).add a b) p0 p p0
  .ok (h.setCt c ((h.ct c).erase sk.id))

/-- the loop over the secret keys (decryptor.go:55-59, mkbfv/decryptor.go:46-50) -/
def decryptLoop (ids : IDSet) (sks : KeySet (SKey C)) (h : Heap N) (tmp : ℕ) (l : List String) : Go (Heap N) :=
  Go.loop (fun (h : Heap N) k => do
    let sk ← sks.value.deref k
    if ids.has sk.id then partialDecrypt sk h tmp else .ok h) h l

/-- `Decrypt(ciphertext, skSet, plaintext)` (decryptor.go:48-66); `pt` is the polynomial `plaintext.Value` -/
def decrypt (o : Sched String) (h : Heap N) (c : ℕ) (sks : KeySet (SKey C)) (pt : ℕ) : Go (Heap N) := do
  let l ← h.level c
  let level := min l (h.len pt - 1)
  let h ← h.truncate pt (level + 1)
  let w ← copyNew (o 200) h c
  let ids ← w.2.idSet (o 201) w.1
  let h ← decryptLoop ids sks w.2 w.1 (GoMap.range (o 202) sks.value)
  if 1 < (h.ct w.1).keys.length then .error (.panic "Cannot Decrypt: there is a missing secretkey")
  else
    let p0 ← h.get w.1 "0"
    h.polyOp level (lift1 fun i a => (C.RQ i).reduce a) p0 p0 pt

/-- `mkckks.Decryptor.Decrypt` (mkckks/decryptor.go:34-43) up to the decoding: `pool` is the polynomial of `ptxtPool` -/
def ckksDecrypt (o : Sched String) (h : Heap N) (c : ℕ) (sks : KeySet (SKey C)) (pool : ℕ) : Go (Heap N) := do
  let w ← copyNew (o 203) h c
  decrypt o w.2 w.1 sks pool

/-- `mkbfv.Decryptor.Decrypt` (mkbfv/decryptor.go:34-57) up to the decoding: the address of the polynomial handed to the encoder -/
def bfvDecrypt (o : Sched String) (h : Heap N) (c : ℕ) (sks : KeySet (SKey C)) : Go (ℕ × Heap N) := do
  let w ← copyNew (o 204) h c
  let ids ← w.2.idSet (o 205) w.1
  let h ← decryptLoop ids sks w.2 w.1 (GoMap.range (o 206) sks.value)
  let p ← h.get w.1 "0"
  .ok (p, h)

/-! ## mkckks/evaluator.go -/

/-- a `mkckks.Ciphertext` (mkckks/elements.go:5-8): pointer to the embedded ciphertext, and the scale -/
structure HCt where
  ct : ℕ
  scale : ℚ

/-- `DropLevel(ct0, levels)` (evaluator.go:106-112) -/
def dropLevel (o : Order String) (h : Heap N) (c levels : ℕ) : Go (Heap N) := do
  let p0 ← h.get c "0"
  if h.len p0 < levels then .error .indexOutOfRange
  else
    let n := h.len p0 - levels
    Go.loop (fun (h : Heap N) id => do
      let p ← h.get c id
      h.truncate p n) h (GoMap.range o (h.ct c))

/-- `DropLevelNew` (evaluator.go:98-102) -/
def dropLevelNew (o o' : Order String) (h : Heap N) (c : HCt) (levels : ℕ) : Go (HCt × Heap N) := do
  let w ← copyNew o h c.ct
  let h ← dropLevel o' w.2 w.1 levels
  .ok (⟨w.1, c.scale⟩, h)

/-- the inner part of `MultByConst` on one component (evaluator.go:155-196) -/
def constStep (mredPsi : ℕ → ℕ → ℕ) (level : ℕ) (k : ℚ × ℚ × ℚ) (c out : ℕ) (h : Heap N) (id : String) : Go (Heap N) := do
  let a ← h.get c id
  let b ← h.get out id
  h.polyOp level (lift1 fun i x => constRow (C.RQ i) (constWords C.fm (mredPsi i) (C.q i) k) x) a a b

/-- `MultByConst(ct0, constant, ctOut)` (evaluator.go:117-198) -/
def multByConst (C : Ctx N) (mredPsi : ℕ → ℕ → ℕ) (o : Order String) (h : Heap N) (c : HCt) (k : Const) (out : ℕ) : Go (ℚ × Heap N) := do
  if N % 16 ≠ 0 then .error (.panic "unsafe access outside of the row")
  else
    let l0 ← h.level c.ct
    let lo ← h.level out
    let level := min l0 lo
    let k := getConstAndScale C.fm (C.q level) k
    let h ← Go.loop (constStep (C := C) mredPsi level k c.ct out) h (GoMap.range o (h.ct c.ct))
    .ok (C.fm.mul c.scale k.2.2, h)

/-- `ring.CopyValuesLvl(level, src, dst)` of lattigo -/
def copyLvl (h : Heap N) (level dst src : ℕ) : Go (Heap N) := h.polyOp level (fun _ r _ => r) src src dst

/-- the loop body of `evaluateInPlace` (evaluator.go:293-301, mkbfv/evaluator.go:36-44) -/
def evalStep (f : ℕ → RowBuf N → RowBuf N → RowBuf N) (level : ℕ) (cp : Heap N → ℕ → ℕ → Go (Heap N)) (t0 t1 : ℕ) (ids0 ids1 : IDSet)
    (out : ℕ) (h : Heap N) (id : String) : Go (Heap N) :=
  if ids0.has id = false then do
    let b ← h.get t1 id
    let p ← h.get out id
    cp h p b
  else if ids1.has id = false then do
    let a ← h.get t0 id
    let p ← h.get out id
    cp h p a
  else do
    let a ← h.get t0 id
    let b ← h.get t1 id
    let p ← h.get out id
    h.polyOp level f a b p

/-- the end of `evaluateInPlace` (evaluator.go:291-302, mkbfv/evaluator.go:35-44) -/
def evalCore (f : ℕ → RowBuf N → RowBuf N → RowBuf N) (level : ℕ) (cp : Heap N → ℕ → ℕ → Go (Heap N)) (o1 o2 : Order String)
    (h : Heap N) (t0 t1 : ℕ) (ids0 ids1 : IDSet) (out : ℕ) : Go (Heap N) := do
  let a ← h.get t0 "0"
  let b ← h.get t1 "0"
  let p ← h.get out "0"
  let h ← h.polyOp level f a b p
  let ids ← h.idSet o1 out
  Go.loop (evalStep f level cp t0 t1 ids0 ids1 out) h (GoMap.range o2 ids.value)

/-- the scale alignment for a receiver that is neither operand (evaluator.go:269-289): the two operands to use. `pool` is `ctxtPool`. -/
def alignScales (C : Ctx N) (mredPsi : ℕ → ℕ → ℕ) (o : Order String) (h : Heap N) (c0 c1 : HCt) (pool : ℕ) : Go ((ℕ × ℕ) × Heap N) :=
  if c0.scale < c1.scale ∧ 1 < ⌊C.fm.div c1.scale c0.scale⌋ then do
    let w ← multByConst C mredPsi o h c0 (.flt ⌊C.fm.div c1.scale c0.scale⌋) pool
    .ok ((pool, c1.ct), w.2)
  else if c1.scale < c0.scale ∧ 1 < ⌊C.fm.div c0.scale c1.scale⌋ then do
    let w ← multByConst C mredPsi o h c1 (.flt ⌊C.fm.div c0.scale c1.scale⌋) pool
    .ok ((c0.ct, pool), w.2)
  else .ok ((c0.ct, c1.ct), h)

/-- `if ctOut.Level() > level { DropLevel(...) }` (evaluator.go:217-219) -/
def dropTo (o : Order String) (h : Heap N) (out lo level m : ℕ) : Go (Heap N) :=
  if level < lo then dropLevel o h out (lo - m) else .ok h

/-- `evaluateInPlace(c0, c1, ctOut, evaluate)` (evaluator.go:200-304) when `ctOut` is neither operand -/
def ckksEvaluateInPlace (C : Ctx N) (f : ℕ → RowBuf N → RowBuf N → RowBuf N) (mredPsi : ℕ → ℕ → ℕ) (o : Sched String) (h : Heap N)
    (pool : ℕ) (c0 c1 : HCt) (out : ℕ) : Go (Heap N) := do
  let ids0 ← h.idSet (o 120) c0.ct
  let ids1 ← h.idSet (o 121) c1.ct
  let ids ← IDSet.union (o 122) (o 123) ids0 ids1
  let h ← pad (o 124) (o 125) h pool ids
  let l0 ← h.level c0.ct
  let l1 ← h.level c1.ct
  let lo ← h.level out
  let h ← dropTo (o 126) h out lo (min (min l0 l1) lo) (min l0 l1)
  let w ← alignScales C mredPsi (o 127) h c0 c1 pool
  evalCore f (min (min l0 l1) lo) (fun h dst src => h.copyLvl (min (min l0 l1) lo) dst src) (o 128) (o 129) w.2 w.1.1 w.1.2 ids0 ids1 out

/-- `newCiphertextBinary` (evaluator.go:306-313) -/
def newCiphertextBinary (o : Sched String) (h : Heap N) (op0 op1 : HCt) : Go (HCt × Heap N) := do
  let l0 ← h.level op0.ct
  let l1 ← h.level op1.ct
  let ids0 ← h.idSet (o 80) op0.ct
  let ids1 ← h.idSet (o 81) op1.ct
  let ids ← IDSet.union (o 82) (o 83) ids0 ids1
  let w := newCt (o 84) ids (min l0 l1) h
  .ok (⟨w.1, max op0.scale op1.scale⟩, w.2)

/-- `AddNew` (evaluator.go:316-326) -/
def ckksAddNew (C : Ctx N) (mredPsi : ℕ → ℕ → ℕ) (o : Sched String) (h : Heap N) (pool : ℕ) (c0 c1 : HCt) : Go (HCt × Heap N) := do
  let w ← newCiphertextBinary o h c0 c1
  let h ← ckksEvaluateInPlace C (lift2 fun i => (C.RQ i).add) mredPsi o w.2 pool c0 c1 w.1.ct
  .ok (w.1, h)

/-- one iteration of the negation loop of `sub` (evaluator.go:337-339, mkbfv/evaluator.go:67-69) -/
def negStep (C : Ctx N) (level : ℕ) (ids0 : IDSet) (out : ℕ) (h : Heap N) (id : String) : Go (Heap N) :=
  if ids0.has id = false then do
    let p ← h.get out id
    h.polyOp level (lift1 fun i => (C.RQ i).neg) p p p
  else .ok h

/-- the negation loop of `sub` (evaluator.go:335-341, mkbfv/evaluator.go:66-70) -/
def negNew (C : Ctx N) (level : ℕ) (o1 o2 o3 : Order String) (h : Heap N) (op0 out : ℕ) : Go (Heap N) := do
  let ids0 ← h.idSet o1 op0
  let ids ← h.idSet o2 out
  Go.loop (negStep C level ids0 out) h (GoMap.range o3 ids.value)

/-- `SubNew` (evaluator.go:329-351) -/
def ckksSubNew (C : Ctx N) (mredPsi : ℕ → ℕ → ℕ) (o : Sched String) (h : Heap N) (pool : ℕ) (c0 c1 : HCt) : Go (HCt × Heap N) := do
  let w ← newCiphertextBinary o h c0 c1
  let h ← ckksEvaluateInPlace C (lift2 fun i => (C.RQ i).sub) mredPsi o w.2 pool c0 c1 w.1.ct
  let l0 ← h.level c0.ct
  let l1 ← h.level c1.ct
  let lo ← h.level w.1.ct
  let h ← negNew C (min (min l0 l1) lo) (o 130) (o 131) (o 132) h c0.ct w.1.ct
  .ok (w.1, h)

/-- the rows of a polynomial after `DivRoundByLastModulusManyLvl` by `nb` primes -/
noncomputable def divRows (C : Ctx N) (level nb : ℕ) (h : Heap N) (a : ℕ) : ℕ → RowBuf N :=
  fun i => wr (divRoundMany level nb (fun i => rd C i (h.row (h.addr a i))) i)

/-- one component of `Rescale` (evaluator.go:386-389): lattigo divides the rows of `a` through a pool and writes rows `0..level-nb` of
`b`; then the slice of `b` is shortened -/
noncomputable def rescaleStep (C : Ctx N) (level nb cin out : ℕ) (h : Heap N) (id : String) : Go (Heap N) := do
  let a ← h.get cin id
  let b ← h.get out id
  h.need a level
  if h.len b < level + 1 - nb then .error .indexOutOfRange
  else
    let v := divRows C level nb h a
    (h.rowsOp (level + 1 - nb) (fun i _ _ => v i) a a b).truncate b (level + 1 - nb)

/-- `Rescale(ctIn, minScale, ctOut)` (evaluator.go:359-398); `same` is the pointer comparison `ctIn == ctOut`. Returns the error value and the
new scale of `ctOut`. -/
noncomputable def rescale (C : Ctx N) (o : Order String) (h : Heap N) (cin : HCt) (minScale : ℚ) (out : HCt) (same : Bool) :
    Go ((Option String × HCt) × Heap N) := do
  if minScale ≤ 0 then .ok ((some "cannot Rescale: minScale is 0", out), h)
  else if cin.scale = 0 then .ok ((some "cannot Rescale: ciphertext scale is 0", out), h)
  else
    let level ← h.level cin.ct
    if level = 0 then .ok ((some "cannot Rescale: input Ciphertext already at level 0", out), h)
    else
      let w ← rescaleLoop C.fm C.q (C.fm.div minScale 2) (level + 1) cin.scale 0
      if 0 < w.2 then
        let h ← Go.loop (rescaleStep C level w.2 cin.ct out.ct) h (GoMap.range o (h.ct out.ct))
        .ok ((none, ⟨out.ct, w.1⟩), h)
      else if same then .ok ((none, ⟨out.ct, w.1⟩), h)
      else
        let c ← copyNew o h cin.ct        -- `ctOut = ctIn.CopyNew()`: an object that is dropped on return
        .ok ((none, ⟨out.ct, w.1⟩), c.2)

/-- `RescaleNew` (evaluator.go:406-411) -/
noncomputable def rescaleNew (C : Ctx N) (o : Sched String) (h : Heap N) (c : HCt) (thr : ℚ) : Go ((Option String × HCt) × Heap N) := do
  let ids ← h.idSet (o 85) c.ct
  let level ← h.level c.ct
  let w := newCt (o 87) ids level h
  rescale C (o 86) w.2 c thr ⟨w.1, c.scale⟩ false

/-! ## mkbfv/evaluator.go -/

/-- `newCiphertextBinary` (mkbfv/evaluator.go:25-28) -/
def bfvNewBinary (C : Ctx N) (o : Sched String) (h : Heap N) (op0 op1 : ℕ) : Go (ℕ × Heap N) := do
  let ids0 ← h.idSet (o 80) op0
  let ids1 ← h.idSet (o 81) op1
  let ids ← IDSet.union (o 82) (o 83) ids0 ids1
  .ok (newCt (o 84) ids (C.nQ - 1) h)

/-- `evaluateInPlace` (mkbfv/evaluator.go:31-45) -/
def bfvEvaluateInPlace (C : Ctx N) (f : ℕ → RowBuf N → RowBuf N → RowBuf N) (o : Sched String) (h : Heap N) (c0 c1 out : ℕ) : Go (Heap N) := do
  let ids0 ← h.idSet (o 110) c0
  let ids1 ← h.idSet (o 111) c1
  evalCore f (C.nQ - 1) (fun h dst src => .ok (h.polyCopy dst src)) (o 112) (o 113) h c0 c1 ids0 ids1 out

/-- `AddNew` (mkbfv/evaluator.go:48-57) -/
def bfvAddNew (C : Ctx N) (o : Sched String) (h : Heap N) (c0 c1 : ℕ) : Go (ℕ × Heap N) := do
  let w ← bfvNewBinary C o h c0 c1
  let h ← bfvEvaluateInPlace C (lift2 fun i => (C.RQ i).add) o w.2 c0 c1 w.1
  .ok (w.1, h)

/-- `SubNew` (mkbfv/evaluator.go:60-79) -/
def bfvSubNew (C : Ctx N) (o : Sched String) (h : Heap N) (c0 c1 : ℕ) : Go (ℕ × Heap N) := do
  let w ← bfvNewBinary C o h c0 c1
  let h ← bfvEvaluateInPlace C (lift2 fun i => (C.RQ i).sub) o w.2 c0 c1 w.1
  let h ← negNew C (C.nQ - 1) (o 114) (o 115) (o 116) h c0 w.1
  .ok (w.1, h)

end Heap
end MKHE
