import Verif.Model.Ring
import Verif.Model.IDSet
import Verif.Model.KeySets

set_option autoImplicit false

/-!
# Model of mkrlwe/keyswitch.go and mkrlwe/keyswitch_hoisted.go

All scratch memory of the `KeySwitcher` is an explicit argument `S : Scratch`, so that theorems can quantify over its
stale content. Map iteration orders are arguments (`o : Sched String`, one order per `range` statement).
-/

namespace MKHE
variable {N : ℕ} [NeZero N] (C : Ctx N)

/-- the scratch memory of `KeySwitcher` (keyswitch.go:9-17; `rlwe.KeySwitcher` of lattigo holds `Pool`, `PoolInvNTT` and
the base converter). `polyQPool` polynomials have all rows and never get the NTT flag. -/
structure Scratch where
  /-- `PoolInvNTT` -/
  inv : QRows C
  /-- `Pool[0]` -/
  pool0 : PolyQP C
  /-- `Pool[1]`. `ExternalProduct` finishes with an in-place lazy inverse NTT (keyswitch.go:114-115) that leaves words up to
  `2q` there; the model keeps the value before that step. The pool is always overwritten up to the level in use before it
  is read again, see `externalProduct_ok`. -/
  pool1 : PolyQP C
  /-- `Baseconverter.polypoolQ`: stale words, overwritten before use (C39); its updates are not tracked -/
  conv : Fin N → ℕ → ℕ
  /-- `polyQPool[0..2]` -/
  q0 : QRows C
  q1 : QRows C
  q2 : QRows C
  /-- `swkPool1..3` -/
  swk1 : Swk C
  swk2 : Swk C
  swk3 : Swk C

variable {C}

/-- `DecomposeSingleNTT(levelQ, PCount-1, Alpha, k, Gamma, a, old)` (keyswitch.go:21-31): `DecomposeAndSplit` on every
coefficient, then NTT of all rows. -/
def decomposeSingleNTT (level k : ℕ) (a : QRows C) (old : PolyQP C) : Go (PolyQP C) := do
  let w ← Go.fillFin (fun x => decomposeAndSplit C.fm C.nQ C.q C.nP C.p level (C.nP - 1) C.alpha k C.gamma
    (fun i => (a i x).val) (fun i => (old.Q i x).val) (fun j => (old.P j x).val)) (fun _ => (fun _ => 0, fun _ => 0))
  .ok (setQP level ⟨fun i => (C.RQ i).nttRaw fun x => (w x).1 i, fun j => (C.RP j).nttRaw fun x => (w x).2 j⟩ old)

/-- keyswitch.go:54-61 and 85-92: coefficient-domain rows of `a`, through `PoolInvNTT` if `a` has the NTT flag -/
def coeffRows (S : Scratch C) (level : ℕ) (a : Poly C) : Go (QRows C × Scratch C) := do
  a.need level
  if a.isNTT then
    let S := { S with inv := setQ level (fun i => (C.RQ i).intt (a.rows i)) S.inv }
    .ok (S.inv, S)
  else .ok (a.rows, S)

/-- `Decompose(levelQ, a, ad)` (keyswitch.go:49-73) -/
def decompose (S : Scratch C) (level : ℕ) (a : Poly C) (ad : Swk C) : Go (Swk C × Scratch C) := do
  let (rows, S) ← coeffRows S level a
  if ad.len < C.beta level then .error .indexOutOfRange
  else
    let val ← Go.loop (fun val k => do
      let r ← decomposeSingleNTT level k rows (val k)
      .ok (Function.update val k r)) ad.val (List.range (C.beta level))
    .ok (⟨ad.len, val⟩, S)

/-- read a word produced by `ModDownQPtoQ`; it is below `q` (C39), so nothing is clamped -/
def toWord (q n : ℕ) : Word q := ⟨min n q, Nat.min_le_right _ _⟩

/-- the end of `ExternalProduct` (keyswitch.go:113-117, keyswitch_hoisted.go:35-38): lazy inverse NTT and
`ModDownQPtoQ(levelQ, PCount-1, x.Q, x.P, c)`. The base converter is lattigo's; its code is the one copied in
mkrlwe/basis_extension.go, so the model uses `modDownQPtoQ`. -/
def modDownRows (level : ℕ) (x : PolyQP C) (conv : Fin N → ℕ → ℕ) (c : QRows C) : Go (QRows C) := do
  let w ← Go.fillFin (fun t => modDownQPtoQ C.fm C.nQ C.q C.nP C.p level (C.nP - 1)
    (fun i => (C.RQ i).inttLazy (x.Q i) t) (fun j => (C.RP j).inttLazy (x.P j) t) (conv t) (fun i => (c i t).val))
    (fun _ _ => 0)
  .ok (setQ level (fun i t => toWord (C.q i) (w t i)) c)

/-- `ExternalProduct(levelQ, a, bg, c)` (keyswitch.go:79-118); `c` are the old rows of the output -/
def externalProduct (S : Scratch C) (level : ℕ) (a : Poly C) (bg : Swk C) (c : QRows C) : Go (QRows C × Scratch C) := do
  let (rows, S) ← coeffRows S level a
  if bg.len < C.beta level then .error .indexOutOfRange
  else
    let S ← Go.loop (fun S k => do
      let c0 ← decomposeSingleNTT level k rows S.pool0
      let c1 := if k = 0 then qpMul level (bg.val k) c0 S.pool1 else qpMulAdd level (bg.val k) c0 S.pool1
      .ok { S with pool0 := c0, pool1 := c1 }) S (List.range (C.beta level))
    let c' ← modDownRows level S.pool1 S.conv c
    .ok (c', S)

/-- `ExternalProductHoisted(levelQ, aHoisted, bg, c)` (keyswitch_hoisted.go:10-40) -/
def externalProductHoisted (S : Scratch C) (level : ℕ) (h bg : Swk C) (c : QRows C) : Go (QRows C × Scratch C) := do
  if bg.len < C.beta level ∨ h.len < C.beta level then .error .indexOutOfRange
  else
    let S ← Go.loop (fun S k =>
      .ok { S with pool1 := if k = 0 then qpMul level (bg.val k) (h.val k) S.pool1
                            else qpMulAdd level (bg.val k) (h.val k) S.pool1 }) S (List.range (C.beta level))
    let c' ← modDownRows level S.pool1 S.conv c
    .ok (c', S)

/-- `RelinearizationKey` (keys.go:39-42): `Value = [b, d, v]` -/
structure Rlk (C : Ctx N) where
  id : String
  b : Swk C
  d : Swk C
  v : Swk C

/-- `RotationKey` (keys.go:45-50) and `ConjugationKey`: owner, index (0 for a conjugation key), value -/
structure GalKey (C : Ctx N) where
  id : String
  rotIdx : ℕ
  value : Swk C

/-- a relinearization key set over these keys -/
abbrev RlkMap (C : Ctx N) := RlkSet (Rlk C) (Swk C)

/-- update the rows up to `level` of `ct.Value[id]` in place -/
def Ct.upd (level : ℕ) (id : String) (f : QRows C → QRows C) (ct : Ct C) : Go (Ct C) := do
  let a ← ct.deref id
  a.need level
  .ok (ct.insert id (a.set level (f a.rows)))

/-- `Level()` (elements.go:60-62); polynomials have at least one row -/
def Ct.level (ct : Ct C) : Go ℕ := do
  let a ← ct.deref "0"
  .ok (a.len - 1)

/-- zero the first `Beta` components (keyswitch.go:151-157) -/
def zeroVec (beta : ℕ) (v : Swk C) : Go (Swk C) :=
  if v.len < beta then .error .indexOutOfRange
  else .ok ⟨v.len, fun k => if k < beta then PolyQP.zero else v.val k⟩

/-- `for i < beta { x[i] += d[i] * h[i] }` (keyswitch.go:163-165); component `i` only reads and writes component `i` -/
def accVec (level beta : ℕ) (d h x : Swk C) : Go (Swk C) :=
  if d.len < beta ∨ h.len < beta ∨ x.len < beta then .error .indexOutOfRange
  else .ok ⟨x.len, fun k => if k < beta then qpMulAdd level (d.val k) (h.val k) (x.val k) else x.val k⟩

/-- `for i < beta { x[i] = MForm(x[i]) }` (keyswitch.go:168-170) -/
def mformVec (level beta : ℕ) (x : Swk C) : Go (Swk C) :=
  if x.len < beta then .error .indexOutOfRange
  else .ok ⟨x.len, fun k => if k < beta then qpMForm level (x.val k) (x.val k) else x.val k⟩

/-- digits of component `id`: decomposed into `swkPool3` (keyswitch.go:161), or read from the hoisted form
(keyswitch_hoisted.go:76-89) -/
def digitsOf (S : Scratch C) (level : ℕ) (op : Ct C) (hoisted : Option (HoistedCt C)) (id : String) :
    Go (Swk C × Scratch C) :=
  match hoisted with
  | none => do
    let a ← op.deref id
    let (s3, S) ← decompose S level a S.swk3
    .ok (s3, { S with swk3 := s3 })
  | some h => do
    let s ← h.deref id
    .ok (s, S)

/-- "gen x vector" (keyswitch.go:160-170; hoisted 74-95) and "gen y vector" (173-183; hoisted 98-119), which only differ in
the operand and in the key component `sel` -/
def genVec (S : Scratch C) (level : ℕ) (op : Ct C) (hoisted : Option (HoistedCt C)) (rlk : RlkMap C) (sel : Rlk C → Swk C)
    (ids : List String) (x : Swk C) : Go (Swk C × Scratch C) := do
  let (x, S) ← Go.loop (fun (st : Swk C × Scratch C) id => do
    let (h, S) ← digitsOf st.2 level op hoisted id
    let key ← rlk.value.deref id
    let x ← accVec level (C.beta level) (sel key) h st.1
    .ok (x, S)) (x, S) ids
  let x ← mformVec level (C.beta level) x
  .ok (x, S)

/-- the tensor product (keyswitch.go:185-208; hoisted 121-146) -/
def tensor (o : Sched String) (S : Scratch C) (level : ℕ) (op0 op1 : Ct C) (ids0 ids1 : IDSet) (out : Ct C) :
    Go (Ct C × Scratch C) := do
  let a0 ← op0.deref "0"
  a0.need level
  let a1 ← op1.deref "0"
  a1.need level
  let S := { S with q0 := setQ level (fun i => (C.RQ i).ntt (a0.rows i)) S.q0 }
  let S := { S with q1 := setQ level (fun i => (C.RQ i).ntt (a1.rows i)) S.q1 }
  let S := { S with q0 := setQ level (fun i => (C.RQ i).mform (S.q0 i)) S.q0 }
  let out ← out.upd level "0" fun _ i => (C.RQ i).mulMont (S.q0 i) (S.q1 i)
  let S := { S with q1 := setQ level (fun i => (C.RQ i).mform (S.q1 i)) S.q1 }
  let (out, S) ← Go.loop (fun (st : Ct C × Scratch C) id => do
    let a ← op0.deref id
    a.need level
    let S := { st.2 with q2 := setQ level (fun i => (C.RQ i).ntt (a.rows i)) st.2.q2 }
    let out ← st.1.upd level id fun _ i => (C.RQ i).mulMont (S.q1 i) (S.q2 i)
    .ok (out, S)) (out, S) (GoMap.range (o 0) ids0.value)
  let (out, S) ← Go.loop (fun (st : Ct C × Scratch C) id => do
    let a ← op1.deref id
    a.need level
    let S := { st.2 with q2 := setQ level (fun i => (C.RQ i).ntt (a.rows i)) st.2.q2 }
    let out ← st.1.upd level id fun old i =>
      if ids0.has id then (C.RQ i).mulMontAdd (S.q0 i) (S.q2 i) (old i) else (C.RQ i).mulMont (S.q0 i) (S.q2 i)
    .ok (out, S)) (out, S) (GoMap.range (o 1) ids1.value)
  let out ← Go.loop (fun out id => out.upd level id fun old i => (C.RQ i).intt (old i)) out (GoMap.range (o 2) out)
  .ok (out, S)

/-- the external product of component `id` with `bg` into `polyQPool[0]`: from the polynomial, or from the hoisted digits -/
def extInto0 (S : Scratch C) (level : ℕ) (op : Ct C) (hoisted : Option (HoistedCt C)) (id : String) (bg : Swk C) :
    Go (Scratch C) :=
  match hoisted with
  | none => do
    let a ← op.deref id
    let (r, S) ← externalProduct S level a bg S.q0
    .ok { S with q0 := r }
  | some h => do
    let s ← h.deref id
    let (r, S) ← externalProductHoisted S level s bg S.q0
    .ok { S with q0 := r }

/-- `polyQPool[0]` seen as a polynomial: all rows, coefficient domain -/
def Scratch.poly0 (S : Scratch C) : Poly C := ⟨C.nQ, false, S.q0⟩

/-- "ctOut_j += Inter(op1_j, x)" (keyswitch.go:210-214; hoisted 148-156) -/
def addX (o : Sched String) (S : Scratch C) (level : ℕ) (op1 : Ct C) (h1 : Option (HoistedCt C)) (ids1 : IDSet) (x : Swk C)
    (out : Ct C) : Go (Ct C × Scratch C) :=
  Go.loop (fun (st : Ct C × Scratch C) id => do
    let S ← extInto0 st.2 level op1 h1 id x
    let out ← st.1.upd level id fun old i => (C.RQ i).add (old i) (S.q0 i)
    .ok (out, S)) (out, S) (GoMap.range (o 3) ids1.value)

/-- checks common to `MulAndRelin` (keyswitch.go:124-132) and `MulAndRelinHoisted` (46-54): only `op0`'s level is compared;
the second test compares `ctOut`'s level with itself -/
def mulChecks (op0 out : Ct C) : Go ℕ := do
  let level ← out.level
  let l0 ← op0.level
  if l0 < level then .error (.panic "Cannot MulAndRelin: op0 and op1 have different levels")
  else if level < level then .error (.panic "Cannot MulAndRelin: op0 and ctOut have different levels")
  else .ok level

/-- `MulAndRelin(op0, op1, rlkSet, ctOut)` (keyswitch.go:122-230) -/
def mulAndRelin (crs : GoMap ℤ (Swk C)) (o : Sched String) (S : Scratch C) (op0 op1 : Ct C) (rlk : RlkMap C) (out : Ct C) :
    Go (Ct C × Scratch C) := do
  let level ← mulChecks op0 out
  let ids0 ← IDSet.ofCiphertext (o 10) op0
  let ids1 ← IDSet.ofCiphertext (o 11) op1
  let x ← zeroVec (C.beta level) S.swk1
  let y ← zeroVec (C.beta level) S.swk2
  let (x, S) ← genVec S level op0 none rlk Rlk.d (GoMap.range (o 12) ids0.value) x
  let (y, S) ← genVec S level op1 none rlk Rlk.b (GoMap.range (o 13) ids1.value) y
  let S := { S with swk1 := x, swk2 := y }
  let (out, S) ← tensor o S level op0 op1 ids0 ids1 out
  let (out, S) ← addX o S level op1 none ids1 x out
  let u := crs.lookup (-1)
  Go.loop (fun (st : Ct C × Scratch C) id => do
    let key ← rlk.value.deref id
    let S ← extInto0 st.2 level op0 none id y
    let (r, S) ← externalProduct S level S.poly0 key.v S.q1
    let S := { S with q1 := r }
    let out ← st.1.upd level "0" fun old i => (C.RQ i).add (old i) (S.q1 i)
    let u ← match u with | some u => .ok u | none => .error .nilDeref
    let (r, S) ← externalProduct S level S.poly0 u S.q2
    let S := { S with q2 := r }
    let out ← out.upd level id fun old i => (C.RQ i).add (old i) (S.q2 i)
    .ok (out, S)) (out, S) (GoMap.range (o 4) ids0.value)

/-- `MulAndRelinHoisted(op0, op1, op0Hoisted, op1Hoisted, rlkSet, ctOut)` (keyswitch_hoisted.go:44-179) -/
def mulAndRelinHoisted (crs : GoMap ℤ (Swk C)) (o : Sched String) (S : Scratch C) (op0 op1 : Ct C)
    (h0 h1 : Option (HoistedCt C)) (rlk : RlkMap C) (out : Ct C) : Go (Ct C × Scratch C) := do
  let level ← mulChecks op0 out
  let ids0 ← IDSet.ofCiphertext (o 10) op0
  let ids1 ← IDSet.ofCiphertext (o 11) op1
  let x ← zeroVec (C.beta level) S.swk1
  let y ← zeroVec (C.beta level) S.swk2
  let (x, S) ← genVec S level op0 h0 rlk Rlk.d (GoMap.range (o 12) ids0.value) x
  let (y, S) ← genVec S level op1 h1 rlk Rlk.b (GoMap.range (o 13) ids1.value) y
  let S := { S with swk1 := x, swk2 := y }
  let (out, S) ← tensor o S level op0 op1 ids0 ids1 out
  let (out, S) ← addX o S level op1 h1 ids1 x out
  let u := crs.lookup (-1)
  Go.loop (fun (st : Ct C × Scratch C) id => do
    let key ← rlk.value.deref id
    let S ← extInto0 st.2 level op0 h0 id y
    let (s3, S) ← decompose S level S.poly0 S.swk3
    let S := { S with swk3 := s3 }
    let (r, S) ← externalProductHoisted S level S.swk3 key.v S.q1
    let S := { S with q1 := r }
    let out ← st.1.upd level "0" fun old i => (C.RQ i).add (old i) (S.q1 i)
    let u ← match u with | some u => .ok u | none => .error .nilDeref
    let (r, S) ← externalProductHoisted S level S.swk3 u S.q2
    let S := { S with q2 := r }
    let out ← out.upd level id fun old i => (C.RQ i).add (old i) (S.q2 i)
    .ok (out, S)) (out, S) (GoMap.range (o 4) ids0.value)

end MKHE
