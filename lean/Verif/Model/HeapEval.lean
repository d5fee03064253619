import Verif.Model.Heap
import Verif.Model.BfvMul

set_option autoImplicit false

/-!
# Memory model, continued: rotation, conjugation, multiplication, encryption

The heap holds the ciphertexts. The pools of the key switcher, of the evaluator and of the key sets are private to their owner and stay values, as in
`Verif/Model/KeySwitch.lean`; so do keys, plaintexts and hoisted forms, which these functions only read. A read of an operand is a read of the heap as it
is at that moment: `value C h c` are the contents of ciphertext `c` in `h`. All writes to ciphertexts go through pointers.
-/

namespace MKHE
namespace Heap
variable {N : ℕ} [NeZero N] {C : Ctx N}

/-- a lattigo ring function with a level whose output is `ct.Value[id]`: the new rows are `f` of its old rows -/
def upd (level c : ℕ) (id : String) (f : QRows C → QRows C) (h : Heap N) : Go (Heap N) := do
  let p ← h.get c id
  h.polyOp level (fun i _ _ => wr (f (h.view C p).rows i)) p p p

/-- `ct.Value[id].Copy(P)` of lattigo for a polynomial `P` of a pool -/
def putCopy (c : ℕ) (id : String) (P : Poly C) (h : Heap N) : Go (Heap N) := do
  let p ← h.get c id
  .ok ((h.rowsOp (min (h.len p) P.len) (fun i _ _ => wr (P.rows i)) p p p).setNTT p P.isNTT)

/-! ## mkrlwe/keyswitch.go: rotation and conjugation -/

/-- the permutation of all components (keyswitch.go:264-296): `for id := range ctIn.Value` -/
def permuteAll (S : Scratch C) (level galEl : ℕ) (ids : List String) (out : ℕ) (h : Heap N) : Go (Heap N × Scratch C) :=
  Go.loop (fun (st : Heap N × Scratch C) id => do
    let p ← st.1.get out id
    st.1.need p level
    let S := { st.2 with q0 := permRows level galEl (st.1.view C p).rows st.2.q0 }
    let h ← st.1.putCopy out id (pool0Poly S)
    .ok (h, S)) (h, S) ids

/-- the body of the loop over the parties in `Rotate` (keyswitch.go:256-262) and `RotateHoisted` (keyswitch_hoisted.go:206-212) -/
def rotateStep (level cin r : ℕ) (hoisted : Option (HoistedCt C)) (rks : RotKeySet (GalKey C)) (a : Option (Swk C)) (out : ℕ)
    (st : Heap N × Scratch C) (id : String) : Go (Heap N × Scratch C) := do
  let rk ← rks.get id r
  let w ← extProd st.2 level (value C st.1 cin) hoisted id rk.value st.2.q0
  let h ← upd (C := C) level out "0" (fun old i => (C.RQ i).add (old i) (w.1 i)) st.1
  let a ← orNil a
  let p ← h.get out id
  h.need p level
  let w ← extProd { w.2 with q0 := w.1 } level (value C h cin) hoisted id a (h.view C p).rows
  let h ← upd (C := C) level out id (fun _ => w.1) h
  .ok (h, w.2)

/-- `Rotate(ctIn, rotidx, rkSet, ctOut)` (keyswitch.go:234-298), and, with a hoisted form, `RotateHoisted` (keyswitch_hoisted.go:183-247). `cin`
and `out` may be the same object. -/
def rotateWith (crs : GoMap ℤ (Swk C)) (o : Sched String) (S : Scratch C) (cin : ℕ) (rotidx : ℤ) (hoisted : Option (HoistedCt C))
    (rks : RotKeySet (GalKey C)) (out : ℕ) (h : Heap N) : Go (Heap N × Scratch C) := do
  let level ← h.level out
  let ids ← h.idSet (o 20) cin
  let lin ← h.level cin
  if lin < level then .error (.panic "Cannot Rotate: ctIn and ctOut have different levels")
  else
    let r := adjustIdx N rotidx
    let c0 ← h.get cin "0"
    let p0 ← h.get out "0"
    let st ← Go.loop (rotateStep level cin r.toNat hoisted rks (crs.lookup r) out) (h.polyCopy p0 c0, S) (GoMap.range (o 21) ids.value)
    permuteAll st.2 level (galElCol N r.toNat) (GoMap.range (o 22) (st.1.ct cin)) out st.1

/-- `ringQ.Permute(ctIn.Value[id], galEl, ctOut.Value[id])` (keyswitch.go:315-317) on the rows `0..permLevel`; lattigo reads a row while it
writes the other one, so the two must be different rows -/
def permStep (permLevel galEl cin out : ℕ) (h : Heap N) (id : String) : Go (Heap N) := do
  let a ← h.get cin id
  let b ← h.get out id
  h.polyOp permLevel (lift1 (C := C) fun i x => (C.RQ i).permute galEl x) a a b

/-- `c0 <- c0 + IP(c_i, rk_i)` (keyswitch.go:319-323) -/
def conjStep0 (level : ℕ) (cks : KeySet (GalKey C)) (out : ℕ) (st : Heap N × Scratch C) (id : String) : Go (Heap N × Scratch C) := do
  let ck ← cks.get "cannot GetConjugationKey: there is no conjugation key with given id" id
  let b ← (value C st.1 out).deref id
  let w ← externalProduct st.2 level b ck.value st.2.q0
  let h ← upd (C := C) level out "0" (fun old i => (C.RQ i).add (old i) (w.1 i)) st.1
  .ok (h, { w.2 with q0 := w.1 })

/-- `c_i <- IP(c_i, a)` (keyswitch.go:327-330) -/
def conjStep1 (level : ℕ) (a : Option (Swk C)) (out : ℕ) (st : Heap N × Scratch C) (id : String) : Go (Heap N × Scratch C) := do
  let b ← (value C st.1 out).deref id
  let a ← orNil a
  let w ← externalProduct st.2 level b a st.2.q0
  let h ← st.1.putCopy out id (pool0Poly { w.2 with q0 := w.1 })
  .ok (h, { w.2 with q0 := w.1 })

/-- `Conjugate(ctIn, ckSet, ctOut)` (keyswitch.go:302-332) for different objects `ctIn`, `ctOut` -/
def conjugate (permLevel : ℕ) (crs : GoMap ℤ (Swk C)) (o : Sched String) (S : Scratch C) (cin : ℕ) (cks : KeySet (GalKey C)) (out : ℕ)
    (h : Heap N) : Go (Heap N × Scratch C) := do
  let level ← h.level out
  let ids ← h.idSet (o 30) cin
  let lin ← h.level cin
  if lin < level then .error (.panic "Cannot Conjugate: ctIn and ctOut have different levels")
  else
    let h ← Go.loop (permStep (C := C) permLevel (galElRow N) cin out) h (GoMap.range (o 31) (h.ct cin))
    let st ← Go.loop (conjStep0 level cks out) (h, S) (GoMap.range (o 32) ids.value)
    Go.loop (conjStep1 level (crs.lookup (-2)) out) st (GoMap.range (o 33) ids.value)

/-! ## mkrlwe/keyswitch.go, keyswitch_hoisted.go: multiplication -/

/-- "ctOut_i <- op0_i * op1_0" (keyswitch.go:193-197; hoisted 129-133) -/
def tensorStep0 (level op0 out : ℕ) (st : Heap N × Scratch C) (id : String) : Go (Heap N × Scratch C) := do
  let a ← (value C st.1 op0).deref id
  a.need level
  let S := { st.2 with q2 := setQ level (fun i => (C.RQ i).ntt (a.rows i)) st.2.q2 }
  let h ← upd (C := C) level out id (fun _ i => (C.RQ i).mulMont (S.q1 i) (S.q2 i)) st.1
  .ok (h, S)

/-- "ctOut_j += op0_0 * op1_j" (keyswitch.go:199-206; hoisted 135-142) -/
def tensorStep1 (level op1 : ℕ) (ids0 : IDSet) (out : ℕ) (st : Heap N × Scratch C) (id : String) : Go (Heap N × Scratch C) := do
  let a ← (value C st.1 op1).deref id
  a.need level
  let S := { st.2 with q2 := setQ level (fun i => (C.RQ i).ntt (a.rows i)) st.2.q2 }
  let h ← upd (C := C) level out id (fun old i =>
    if ids0.has id then (C.RQ i).mulMontAdd (S.q0 i) (S.q2 i) (old i) else (C.RQ i).mulMont (S.q0 i) (S.q2 i)) st.1
  .ok (h, S)

/-- the tensor product (keyswitch.go:185-208; hoisted 121-146) -/
def tensor (o : Sched String) (S : Scratch C) (level op0 op1 : ℕ) (ids0 ids1 : IDSet) (out : ℕ) (h : Heap N) : Go (Heap N × Scratch C) := do
  let a0 ← (value C h op0).deref "0"
  a0.need level
  let a1 ← (value C h op1).deref "0"
  a1.need level
  let S := { S with q0 := setQ level (fun i => (C.RQ i).ntt (a0.rows i)) S.q0 }
  let S := { S with q1 := setQ level (fun i => (C.RQ i).ntt (a1.rows i)) S.q1 }
  let S := { S with q0 := setQ level (fun i => (C.RQ i).mform (S.q0 i)) S.q0 }
  let h ← upd (C := C) level out "0" (fun _ i => (C.RQ i).mulMont (S.q0 i) (S.q1 i)) h
  let S := { S with q1 := setQ level (fun i => (C.RQ i).mform (S.q1 i)) S.q1 }
  let st ← Go.loop (tensorStep0 level op0 out) (h, S) (GoMap.range (o 0) ids0.value)
  let st ← Go.loop (tensorStep1 level op1 ids0 out) st (GoMap.range (o 1) ids1.value)
  let h ← Go.loop (fun h id => upd (C := C) level out id (fun old i => (C.RQ i).intt (old i)) h) st.1 (GoMap.range (o 2) (st.1.ct out))
  .ok (h, st.2)

/-- "ctOut_j += Inter(op1_j, x)" (keyswitch.go:210-214; hoisted 148-156) -/
def addXStep (level op1 : ℕ) (h1 : Option (HoistedCt C)) (x : Swk C) (out : ℕ) (st : Heap N × Scratch C) (id : String) :
    Go (Heap N × Scratch C) := do
  let S ← extInto0 st.2 level (value C st.1 op1) h1 id x
  let h ← upd (C := C) level out id (fun old i => (C.RQ i).add (old i) (S.q0 i)) st.1
  .ok (h, S)

/-- the last loop of `MulAndRelin` (keyswitch.go:217-229) -/
def relinStep (level op0 : ℕ) (rlk : RlkMap C) (y : Swk C) (u : Option (Swk C)) (out : ℕ) (st : Heap N × Scratch C) (id : String) :
    Go (Heap N × Scratch C) := do
  let key ← rlk.value.deref id
  let S ← extInto0 st.2 level (value C st.1 op0) none id y
  let w ← externalProduct S level S.poly0 key.v S.q1
  let S := { w.2 with q1 := w.1 }
  let h ← upd (C := C) level out "0" (fun old i => (C.RQ i).add (old i) (S.q1 i)) st.1
  let u ← orNil u
  let w ← externalProduct S level S.poly0 u S.q2
  let S := { w.2 with q2 := w.1 }
  let h ← upd (C := C) level out id (fun old i => (C.RQ i).add (old i) (S.q2 i)) h
  .ok (h, S)

/-- the last loop of `MulAndRelinHoisted` (keyswitch_hoisted.go:159-178) -/
def relinStepHoisted (level op0 : ℕ) (h0 : Option (HoistedCt C)) (rlk : RlkMap C) (y : Swk C) (u : Option (Swk C)) (out : ℕ)
    (st : Heap N × Scratch C) (id : String) : Go (Heap N × Scratch C) := do
  let key ← rlk.value.deref id
  let S ← extInto0 st.2 level (value C st.1 op0) h0 id y
  let d ← decompose S level S.poly0 S.swk3
  let S := { d.2 with swk3 := d.1 }
  let w ← externalProductHoisted S level S.swk3 key.v S.q1
  let S := { w.2 with q1 := w.1 }
  let h ← upd (C := C) level out "0" (fun old i => (C.RQ i).add (old i) (S.q1 i)) st.1
  let u ← orNil u
  let w ← externalProductHoisted S level S.swk3 u S.q2
  let S := { w.2 with q2 := w.1 }
  let h ← upd (C := C) level out id (fun old i => (C.RQ i).add (old i) (S.q2 i)) h
  .ok (h, S)

/-- the part common to both multiplications (keyswitch.go:124-214; hoisted 46-156) -/
def mulFront (o : Sched String) (S : Scratch C) (op0 op1 : ℕ) (h0 h1 : Option (HoistedCt C)) (rlk : RlkMap C) (out : ℕ) (h : Heap N) :
    Go ((ℕ × IDSet × Swk C) × Heap N × Scratch C) := do
  let level ← mulChecks (value C h op0) (value C h out)
  let ids0 ← h.idSet (o 10) op0
  let ids1 ← h.idSet (o 11) op1
  let x ← zeroVec (C.beta level) S.swk1
  let y ← zeroVec (C.beta level) S.swk2
  let x ← genVec S level (value C h op0) h0 rlk Rlk.d (GoMap.range (o 12) ids0.value) x
  let y ← genVec x.2 level (value C h op1) h1 rlk Rlk.b (GoMap.range (o 13) ids1.value) y
  let S := { y.2 with swk1 := x.1, swk2 := y.1 }
  let st ← tensor o S level op0 op1 ids0 ids1 out h
  let st ← Go.loop (addXStep level op1 h1 x.1 out) st (GoMap.range (o 3) ids1.value)
  .ok ((level, ids0, y.1), st)

/-- `MulAndRelin(op0, op1, rlkSet, ctOut)` (keyswitch.go:122-230) -/
def mulAndRelin (crs : GoMap ℤ (Swk C)) (o : Sched String) (S : Scratch C) (op0 op1 : ℕ) (rlk : RlkMap C) (out : ℕ) (h : Heap N) :
    Go (Heap N × Scratch C) := do
  let f ← mulFront o S op0 op1 none none rlk out h
  Go.loop (relinStep f.1.1 op0 rlk f.1.2.2 (crs.lookup (-1)) out) f.2 (GoMap.range (o 4) f.1.2.1.value)

/-- `MulAndRelinHoisted(op0, op1, op0Hoisted, op1Hoisted, rlkSet, ctOut)` (keyswitch_hoisted.go:44-179) -/
def mulAndRelinHoisted (crs : GoMap ℤ (Swk C)) (o : Sched String) (S : Scratch C) (op0 op1 : ℕ) (h0 h1 : Option (HoistedCt C)) (rlk : RlkMap C)
    (out : ℕ) (h : Heap N) : Go (Heap N × Scratch C) := do
  let f ← mulFront o S op0 op1 h0 h1 rlk out h
  Go.loop (relinStepHoisted f.1.1 op0 h0 rlk f.1.2.2 (crs.lookup (-1)) out) f.2 (GoMap.range (o 4) f.1.2.1.value)

/-! ## mkckks/evaluator.go -/

/-- `for k := 1; rotidx > 0; k *= 2 { ... }` (mkckks/evaluator.go:518-524, mkbfv/evaluator.go:183-189) -/
def rotLoop (crs : GoMap ℤ (Swk C)) (o : ℕ → Sched String) (rks : RotKeySet (GalKey C)) (tmp out : ℕ) :
    ℕ → ℕ → Heap N → Scratch C → Go (Heap N × Scratch C)
  | k, r, h, S =>
    if hr : 0 < r then
      if r % 2 ≠ 0 then do
        let w ← rotateWith crs (o k) S tmp k none rks out h
        let h ← copy (o k 60) w.1 tmp out
        rotLoop crs o rks tmp out (2 * k) (r / 2) h w.2
      else rotLoop crs o rks tmp out (2 * k) (r / 2) h S
    else .ok (h, S)
  termination_by _ r => r
  decreasing_by all_goals omega

/-- `rotate` (mkckks/evaluator.go:494-526) -/
def ckksRotate (crs : GoMap ℤ (Swk C)) (o : ℕ → Sched String) (S : Scratch C) (c : ℕ) (rotidx : ℤ) (rks : RotKeySet (GalKey C)) (out : ℕ)
    (h : Heap N) : Go (Heap N × Scratch C) := do
  let r := rotNorm N rotidx
  if r = 0 then
    let h ← copy (o 0 61) h out c
    .ok (h, S)
  else if (crs.lookup r).isSome then rotateWith crs (o 0) S c r none rks out h
  else
    let w ← copyNew (o 0 62) h c
    rotLoop crs o rks w.1 out 1 r.toNat w.2 S

/-- `RotateNew` (mkckks/evaluator.go:484-489) -/
def ckksRotateNew (crs : GoMap ℤ (Swk C)) (o : ℕ → Sched String) (E : Eval C) (c : HCt) (rotidx : ℤ) (rks : RotKeySet (GalKey C)) (h : Heap N) :
    Go ((HCt × Eval C) × Heap N) := do
  let ids ← h.idSet (o 0 63) c.ct
  let level ← h.level c.ct
  let w := newCt (o 0 64) ids level h
  let r ← ckksRotate crs o E.ksw c.ct rotidx rks w.1 w.2
  .ok ((⟨w.1, c.scale⟩, { E with ksw := r.2 }), r.1)

/-- `rotateHoisted` (mkckks/evaluator.go:593-617) -/
def ckksRotateHoisted (crs : GoMap ℤ (Swk C)) (o : ℕ → Sched String) (S : Scratch C) (c : ℕ) (rotidx : ℤ) (hc : HoistedCt C)
    (rks : RotKeySet (GalKey C)) (out : ℕ) (h : Heap N) : Go (Heap N × Scratch C) := do
  let r := rotNorm N rotidx
  if r = 0 then
    let h ← copy (o 0 61) h out c
    .ok (h, S)
  else if (crs.lookup r).isSome then rotateWith crs (o 0) S c r (some hc) rks out h
  else .error (.panic "Hoisted rotation only works for precomputed rotation keys")

/-- `RotateHoistedNew` (mkckks/evaluator.go:585-589) -/
def ckksRotateHoistedNew (crs : GoMap ℤ (Swk C)) (o : ℕ → Sched String) (E : Eval C) (c : HCt) (rotidx : ℤ) (hc : HoistedCt C)
    (rks : RotKeySet (GalKey C)) (h : Heap N) : Go ((HCt × Eval C) × Heap N) := do
  let ids ← h.idSet (o 0 63) c.ct
  let level ← h.level c.ct
  let w := newCt (o 0 64) ids level h
  let r ← ckksRotateHoisted crs o E.ksw c.ct rotidx hc rks w.1 w.2
  .ok ((⟨w.1, c.scale⟩, { E with ksw := r.2 }), r.1)

/-- `ConjugateNew` and `conjugate` (mkckks/evaluator.go:530-540) -/
def ckksConjugateNew (permLevel : ℕ) (crs : GoMap ℤ (Swk C)) (o : Sched String) (E : Eval C) (c : HCt) (cks : KeySet (GalKey C)) (h : Heap N) :
    Go ((HCt × Eval C) × Heap N) := do
  let ids ← h.idSet (o 63) c.ct
  let level ← h.level c.ct
  let w := newCt (o 64) ids level h
  let r ← conjugate permLevel crs o E.ksw c.ct cks w.1 w.2
  .ok ((⟨w.1, c.scale⟩, { E with ksw := r.2 }), r.1)

/-- `mulRelinHoisted` (mkckks/evaluator.go:570-581) -/
noncomputable def ckksMulRelinHoisted (pscale : ℚ) (crs : GoMap ℤ (Swk C)) (o : Sched String) (E : Eval C) (op0 op1 : HCt)
    (h0 h1 : Option (HoistedCt C)) (rlk : RlkMap C) (out : ℕ) (h : Heap N) : Go ((HCt × Eval C) × Heap N) := do
  let l0 ← h.level op0.ct
  let l1 ← h.level op1.ct
  let lo ← h.level out
  let level := min (min l0 l1) lo
  let h ← dropTo (o 90) h out lo level level
  let w ← mulAndRelinHoisted crs o E.ksw op0.ct op1.ct h0 h1 rlk out h
  let r ← rescale C (o 91) w.1 ⟨out, C.fm.mul op0.scale op1.scale⟩ pscale ⟨out, C.fm.mul op0.scale op1.scale⟩ true
  .ok ((r.1.2, { E with ksw := w.2 }), r.2)

/-- `MulRelinHoistedNew` (mkckks/evaluator.go:558-564) -/
noncomputable def ckksMulRelinHoistedNew (pscale : ℚ) (crs : GoMap ℤ (Swk C)) (o : Sched String) (E : Eval C) (op0 op1 : HCt)
    (h0 h1 : Option (HoistedCt C)) (rlk : RlkMap C) (h : Heap N) : Go ((HCt × Eval C) × Heap N) := do
  let w ← newCiphertextBinary o h op0 op1
  ckksMulRelinHoisted pscale crs o E op0 op1 h0 h1 rlk w.1.ct w.2

/-- `MulRelinNew` (mkckks/evaluator.go:416-443): the test `op0 == op1` compares pointers. Two operands that point to the same embedded
ciphertext are the same object here. -/
noncomputable def ckksMulRelinNew (pscale : ℚ) (crs : GoMap ℤ (Swk C)) (o : Sched String) (E : Eval C) (op0 op1 : HCt) (rlk : RlkMap C)
    (h : Heap N) : Go ((HCt × Eval C × RlkMap C) × Heap N) := do
  if op0.ct = op1.ct then
    let w ← hoistInto (o 92) (o 93) E.ksw (value C h op0.ct) rlk.pool0
    let rlk := { rlk with pool0 := w.1 }
    let r ← ckksMulRelinHoistedNew pscale crs o { E with ksw := w.2 } op0 op1 (some rlk.pool0) (some rlk.pool0) rlk h
    .ok ((r.1.1, r.1.2, rlk), r.2)
  else
    let w ← hoistInto (o 92) (o 93) E.ksw (value C h op0.ct) rlk.pool0
    let rlk := { rlk with pool0 := w.1 }
    let w ← hoistInto (o 94) (o 95) w.2 (value C h op1.ct) rlk.pool1
    let rlk := { rlk with pool1 := w.1 }
    let r ← ckksMulRelinHoistedNew pscale crs o { E with ksw := w.2 } op0 op1 (some rlk.pool0) (some rlk.pool1) rlk h
    .ok ((r.1.1, r.1.2, rlk), r.2)

/-- one component of `MulPtxtNew` (mkckks/evaluator.go:473-478) -/
def mulPtxtStep (level c : ℕ) (pq : QRows C) (out : ℕ) (h : Heap N) (id : String) : Go (Heap N) := do
  let a ← (value C h c).deref id
  a.need level
  let h ← upd (C := C) level out id (fun _ i => (C.RQ i).ntt (a.rows i)) h
  let h ← upd (C := C) level out id (fun old i => (C.RQ i).mulMont (old i) (pq i)) h
  upd (C := C) level out id (fun old i => (C.RQ i).intt (old i)) h

/-- `MulPtxtNew(ct, pt)` (mkckks/evaluator.go:465-481) -/
noncomputable def mulPtxtNew (pscale : ℚ) (o : Sched String) (E : Eval C) (c : HCt) (pt : Poly C) (ptScale : ℚ) (h : Heap N) :
    Go ((HCt × Eval C) × Heap N) := do
  let ids ← h.idSet (o 100) c.ct
  let level ← h.level c.ct
  let w := newCt (o 101) ids level h
  pt.need level
  let E := { E with polyQ := setQ level (fun i => (C.RQ i).ntt (pt.rows i)) E.polyQ }
  let E := { E with polyQ := setQ level (fun i => (C.RQ i).mform (E.polyQ i)) E.polyQ }
  let h ← Go.loop (mulPtxtStep level c.ct E.polyQ w.1) w.2 (GoMap.range (o 102) (w.2.ct c.ct))
  let r ← rescale C (o 103) h ⟨w.1, C.fm.mul c.scale ptScale⟩ pscale ⟨w.1, C.fm.mul c.scale ptScale⟩ true
  .ok ((r.1.2, E), r.2)

/-! ## mkbfv/evaluator.go -/

/-- `rotate` (mkbfv/evaluator.go:161-192) -/
def bfvRotate (crs : GoMap ℤ (Swk C)) (o : ℕ → Sched String) (S : Scratch C) (c : ℕ) (rotidx : ℤ) (rks : RotKeySet (GalKey C)) (out : ℕ)
    (h : Heap N) : Go (Heap N × Scratch C) := do
  let r := rotNorm N rotidx
  if r = 0 then
    let h ← copy (o 0 61) h out c
    .ok (h, S)
  else
    let w ← copyNew (o 0 62) h c
    if (crs.lookup r).isSome then rotateWith crs (o 0) S w.1 r none rks out w.2
    else rotLoop crs o rks w.1 out 1 r.toNat w.2 S

/-- `RotateNew` (mkbfv/evaluator.go:154-158) -/
def bfvRotateNew (crs : GoMap ℤ (Swk C)) (o : ℕ → Sched String) (S : Scratch C) (c : ℕ) (rotidx : ℤ) (rks : RotKeySet (GalKey C)) (h : Heap N) :
    Go ((ℕ × Scratch C) × Heap N) := do
  let ids ← h.idSet (o 0 63) c
  let w := newCt (o 0 64) ids (C.nQ - 1) h
  let r ← bfvRotate crs o S c rotidx rks w.1 w.2
  .ok ((w.1, r.2), r.1)

/-- `ConjugateNew` and `conjugate` (mkbfv/evaluator.go:197-208) -/
def bfvConjugateNew (permLevel : ℕ) (crs : GoMap ℤ (Swk C)) (o : Sched String) (S : Scratch C) (c : ℕ) (cks : KeySet (GalKey C)) (h : Heap N) :
    Go ((ℕ × Scratch C) × Heap N) := do
  let ids ← h.idSet (o 63) c
  let w := newCt (o 64) ids (C.nQ - 1) h
  let t ← copyNew (o 62) w.2 c
  let r ← conjugate permLevel crs o S t.1 cks w.1 t.2
  .ok ((w.1, r.2), r.1)

variable {B : BCtx N}

/-- `conv.Quantize(a, ctOut.Value[id], params.T())` (mkbfv/keyswitch.go:197, 207, 215, 227) -/
def quant (pool : Fin N → ℕ → ℕ) (a : RowsR B) (id : String) (out : ℕ) (h : Heap N) : Go (Heap N) := do
  let p ← h.get out id
  h.need p B.top
  let r ← quantize pool a (h.view B.C p).rows
  upd (C := B.C) B.top out id (fun _ => r) h

/-- mkbfv/keyswitch.go:202-208; the operands over R are scratch of the key set -/
def tensorB0 (op0 : CtR N) (ids1 : IDSet) (out : ℕ) (w : Heap N × BScratch B) (id : String) : Go (Heap N × BScratch B) := do
  if ids1.has id = false then
    let a ← op0.deref id
    let S := { w.2 with r3 := nttR a }
    let S := { S with r3 := mulR S.r2 S.r3 }
    let h ← quant S.conv S.r3 id out w.1
    .ok (h, S)
  else .ok w

/-- mkbfv/keyswitch.go:210-216 -/
def tensorB1 (op1 : CtR N) (ids0 : IDSet) (out : ℕ) (w : Heap N × BScratch B) (id : String) : Go (Heap N × BScratch B) := do
  if ids0.has id = false then
    let a ← op1.deref id
    let S := { w.2 with r3 := nttR a }
    let S := { S with r3 := mulR S.r1 S.r3 }
    let h ← quant S.conv S.r3 id out w.1
    .ok (h, S)
  else .ok w

/-- mkbfv/keyswitch.go:218-228 -/
def tensorB2 (op0 op1 : CtR N) (ids0 : IDSet) (out : ℕ) (w : Heap N × BScratch B) (id : String) : Go (Heap N × BScratch B) := do
  if ids0.has id then
    let a ← op1.deref id
    let S := { w.2 with r3 := nttR a }
    let S := { S with r3 := mulR S.r1 S.r3 }
    let b ← op0.deref id
    let S := { S with r4 := nttR b }
    let S := { S with r3 := mulAddR S.r2 S.r4 S.r3 }
    let h ← quant S.conv S.r3 id out w.1
    .ok (h, S)
  else .ok w

/-- the tensor product (mkbfv/keyswitch.go:191-228; hoisted 136-173) -/
def tensorB (o : Sched String) (S : BScratch B) (op0 op1 : CtR N) (ids0 ids1 : IDSet) (out : ℕ) (h : Heap N) : Go (Heap N × BScratch B) := do
  let a0 ← op0.deref "0"
  let S := { S with r1 := nttR a0 }
  let a1 ← op1.deref "0"
  let S := { S with r2 := nttR a1 }
  let S := { S with r1 := mformR S.r1 }
  let S := { S with r3 := mulR S.r1 S.r2 }
  let h ← quant S.conv S.r3 "0" out h
  let S := { S with r2 := mformR S.r2 }
  let w ← Go.loop (tensorB0 op0 ids1 out) (h, S) (GoMap.range (o 0) ids0.value)
  let w ← Go.loop (tensorB1 op1 ids0 out) w (GoMap.range (o 1) ids1.value)
  Go.loop (tensorB2 op0 op1 ids0 out) w (GoMap.range (o 2) ids1.value)

/-- `ctOut_j += Inter(op1_j, x)` (mkbfv/keyswitch.go:231-234; hoisted 176-183) -/
def addXB (level : ℕ) (op1 : CtR N) (h1 : HoistedPair B) (out : ℕ) (w : Heap N × BScratch B) (id : String) : Go (Heap N × BScratch B) := do
  let S ← extIntoB w.2 level op1 h1 id w.2.s3 w.2.s4
  let h ← upd (C := B.C) level out id (fun old i => (B.C.RQ i).add (old i) (S.q1 i)) w.1
  .ok (h, S)

/-- the last loop of `MulAndRelinBFVHoisted` (mkbfv/keyswitch_hoisted.go:190-206) -/
def lastBHoisted (crs : GoMap ℤ (Swk B.C)) (level : ℕ) (op0 : CtR N) (h0 : HoistedPair B) (rlk : GoMap String (BRlk B.C)) (out : ℕ)
    (w : Heap N × BScratch B) (id : String) : Go (Heap N × BScratch B) := do
  let key ← rlk.deref id
  let S ← extIntoB w.2 level op0 h0 id w.2.s5 w.2.s6
  let d ← decompose S.base level S.poly1 S.s3
  let S := { S with base := d.2, s3 := d.1 }
  let e ← externalProductHoisted S.base level S.s3 key.k1.v S.q2
  let S := { S with base := e.2, q2 := e.1 }
  let h ← upd (C := B.C) level out "0" (fun old i => (B.C.RQ i).add (old i) (S.q2 i)) w.1
  let u ← crs.deref (-1)
  let e ← externalProductHoisted S.base level S.s3 u S.q2
  let S := { S with base := e.2, q2 := e.1 }
  let h ← upd (C := B.C) level out id (fun old i => (B.C.RQ i).add (old i) (S.q2 i)) h
  .ok (h, S)

/-- the front part of the multiplications (mkbfv/keyswitch.go:117-234; hoisted 44-183) -/
def mulFrontB (o : Sched String) (S : BScratch B) (op0 op1 : CtR N) (h0 h1 : HoistedPair B) (rlk : GoMap String (BRlk B.C)) (out : ℕ) (h : Heap N) :
    Go ((ℕ × IDSet) × Heap N × BScratch B) := do
  let level ← mulChecksB B op0 (value B.C h out)
  let ids0 ← IDSet.ofCiphertext (o 10) op0
  let ids1 ← IDSet.ofCiphertext (o 11) op1
  let x1 ← zeroVec (B.C.beta level) S.s3
  let x2 ← zeroVec (B.C.beta level) S.s4
  let y1 ← zeroVec (B.C.beta level) S.s5
  let y2 ← zeroVec (B.C.beta level) S.s6
  let x ← genVecB S level op0 h0 rlk Rlk.d (GoMap.range (o 12) ids0.value) x1 x2
  let y ← genVecB x.2 level op1 h1 rlk Rlk.b (GoMap.range (o 13) ids1.value) y1 y2
  let S := { y.2 with s3 := x.1.1, s4 := x.1.2, s5 := y.1.1, s6 := y.1.2 }
  let w ← tensorB o S op0 op1 ids0 ids1 out h
  let w ← Go.loop (addXB level op1 h1 out) w (GoMap.range (o 3) ids1.value)
  .ok ((level, ids0), w)

/-- `mulRelinHoisted(ct0, ct1, rlkSet, ctOut)` (mkbfv/evaluator.go:118-150) with `MulAndRelinBFVHoisted` (mkbfv/keyswitch_hoisted.go:39-207) -/
def bfvMulRelinHoisted (crs : GoMap ℤ (Swk B.C)) (o : Sched String) (S : BScratch B) (c0 c1 : ℕ) (set : BRlkMap B) (out : ℕ) (h : Heap N) :
    Go (Heap N × BScratch B) := do
  let ct0R ← toR (modUpQtoR B S.conv) (o 120) set.polyR1 (value B.C h c0)
  let ct1R ← toR (rescaleR B S.conv S.conv) (o 121) set.polyR2 (value B.C h c1)
  let ids0 ← h.idSet (o 122) c0
  let ids1 ← h.idSet (o 123) c1
  let l0 ← h.level c0
  let h0 ← hoistB S l0 ct0R (GoMap.range (o 124) ids0.value) (set.hoist10, set.hoist20)
  let l1 ← h.level c1
  let h1 ← hoistB S l1 ct1R (GoMap.range (o 125) ids1.value) (set.hoist11, set.hoist21)
  let f ← mulFrontB o S ct0R ct1R (some h0) (some h1) set.value out h
  Go.loop (lastBHoisted crs f.1.1 ct0R (some h0) set.value out) f.2 (GoMap.range (o 4) f.1.2.value)

/-- `MulRelinNew(op0, op1, rlkSet)` (mkbfv/evaluator.go:84-88) -/
def bfvMulRelinNew (crs : GoMap ℤ (Swk B.C)) (o : Sched String) (S : BScratch B) (c0 c1 : ℕ) (set : BRlkMap B) (h : Heap N) :
    Go ((ℕ × BScratch B) × Heap N) := do
  let w ← bfvNewBinary B.C o h c0 c1
  let r ← bfvMulRelinHoisted crs o S c0 c1 set w.1 w.2
  .ok ((w.1, r.2), r.1)

end Heap
end MKHE
