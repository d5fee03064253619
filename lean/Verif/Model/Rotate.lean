import Verif.Model.KeySwitch

set_option autoImplicit false

/-!
# Model of `Rotate`, `Conjugate` (mkrlwe/keyswitch.go:232-332) and `RotateHoisted` (mkrlwe/keyswitch_hoisted.go:181-247)
-/

namespace MKHE

/-- The permutation loop on one row (keyswitch.go:266-293; the same code in keyswitch_hoisted.go:216-243), on machine words
(arithmetic modulo 2^64). The program runs the rows in an inner loop; rows do not interact. `old` is the stale content of
`polyQPool[0]`. The store index is at most `N - 1` because of the mask, so it never leaves the row. -/
def permRow (N q galEl : ℕ) (src old : ℕ → ℕ) : ℕ → ℕ :=
  let mask := N - 1
  let logN := Nat.size mask                       -- bits.Len64(mask)
  forN N (fun buf i =>
    let indexRaw := i * galEl % 2 ^ 64
    let index := indexRaw &&& mask
    let tmp := (indexRaw >>> logN) &&& 1
    Function.update buf index ((src i * (tmp ^^^ 1)) % 2 ^ 64 ||| ((q + 2 ^ 64 - src i) % 2 ^ 64 * tmp) % 2 ^ 64)) old

/-- `GaloisElementForColumnRotationBy(k)` of lattigo v2.3.0 for `k ≥ 0`: `5^(k mod 2N) mod 2N` -/
def galElCol (N k : ℕ) : ℕ := 5 ^ (k % (2 * N)) % (2 * N)

/-- `GaloisElementForRowRotation()` of lattigo: `2N - 1` -/
def galElRow (N : ℕ) : ℕ := 2 * N - 1

/-- `InverseGaloisElement(galEl)` of lattigo: `galEl^(2N-1) mod 2N` -/
def galElInv (N galEl : ℕ) : ℕ := galEl ^ (2 * N - 1) % (2 * N)

/-- `for rotidx < 0 { rotidx += N/2 }` (keyswitch.go:248-250, keygen.go:209-211, ...), run at most `fuel` times -/
def addWhileNeg (half : ℤ) : ℕ → ℤ → ℤ
  | 0, r => r
  | fuel + 1, r => if r < 0 then addWhileNeg half fuel (r + half) else r

/-- `for rotidx >= N/2 { rotidx -= N/2 }` (mkckks/evaluator.go:498-500), run at most `fuel` times -/
def subWhileGe (half : ℤ) : ℕ → ℤ → ℤ
  | 0, r => r
  | fuel + 1, r => if half ≤ r then subWhileGe half fuel (r - half) else r

/-- the loop `for rotidx < 0`: `|rotidx|` iterations are enough when `N ≥ 2` -/
def adjustIdx (N : ℕ) (r : ℤ) : ℤ := addWhileNeg (N / 2 : ℕ) r.natAbs r

variable {N : ℕ} [NeZero N] {C : Ctx N}

/-- the permutation loop on the rows up to `level`, into `polyQPool[0]` -/
def permRows (level galEl : ℕ) (src old : QRows C) : QRows C :=
  setQ level (fun j => fun t => toWord (C.q j) (permRow N (C.q j) galEl (fun i => if h : i < N then (src j ⟨i, h⟩).val else 0)
    (fun i => if h : i < N then (old j ⟨i, h⟩).val else 0) t)) old

/-- `polyQPool[0]` as a polynomial of the ring -/
def pool0Poly (S : Scratch C) : Poly C := ⟨C.nQ, false, S.q0⟩

/-- the permutation of all components (keyswitch.go:264-296): `for id := range ctIn.Value` -/
def permuteAll (S : Scratch C) (level galEl : ℕ) (ids : List String) (out : Ct C) : Go (Ct C × Scratch C) :=
  Go.loop (fun (st : Ct C × Scratch C) id => do
    let p ← st.1.deref id
    p.need level
    let S := { st.2 with q0 := permRows level galEl p.rows st.2.q0 }
    .ok (st.1.insert id (p.copy (pool0Poly S)), S)) (out, S) ids

/-- an external product of component `id`, plain or hoisted, with old output rows `c` -/
def extProd (S : Scratch C) (level : ℕ) (op : Ct C) (hoisted : Option (HoistedCt C)) (id : String) (bg : Swk C) (c : QRows C) :
    Go (QRows C × Scratch C) :=
  match hoisted with
  | none => do
    let a ← op.deref id
    externalProduct S level a bg c
  | some h => do
    let s ← h.deref id
    externalProductHoisted S level s bg c

/-- use of a possibly nil pointer -/
def orNil {α : Type*} : Option α → Go α
  | some a => .ok a
  | none => .error .nilDeref

/-- the body of the loop over the parties in `Rotate` (keyswitch.go:256-262) and `RotateHoisted` (keyswitch_hoisted.go:206-212);
`a` is `params.CRS[rotidx]` -/
def rotateStep (level : ℕ) (ctIn : Ct C) (r : ℕ) (hoisted : Option (HoistedCt C)) (rks : RotKeySet (GalKey C)) (a : Option (Swk C))
    (st : Ct C × Scratch C) (id : String) : Go (Ct C × Scratch C) := do
  let rk ← rks.get id r
  let w ← extProd st.2 level ctIn hoisted id rk.value st.2.q0
  let out ← st.1.upd level "0" fun old i => (C.RQ i).add (old i) (w.1 i)
  let a ← orNil a
  let p ← out.deref id
  p.need level
  let w ← extProd { w.2 with q0 := w.1 } level ctIn hoisted id a p.rows
  .ok (out.insert id { p with rows := w.1 }, w.2)

/-- `Rotate(ctIn, rotidx, rkSet, ctOut)` (keyswitch.go:234-298), and, with a hoisted form, `RotateHoisted` (keyswitch_hoisted.go:183-247):
the two functions differ only in the external product called. -/
def rotateWith (crs : GoMap ℤ (Swk C)) (o : Sched String) (S : Scratch C) (ctIn : Ct C) (rotidx : ℤ) (hoisted : Option (HoistedCt C))
    (rks : RotKeySet (GalKey C)) (out : Ct C) : Go (Ct C × Scratch C) := do
  let level ← out.level
  let ids ← IDSet.ofCiphertext (o 20) ctIn
  let lin ← ctIn.level
  if lin < level then .error (.panic "Cannot Rotate: ctIn and ctOut have different levels")
  else
    let r := adjustIdx N rotidx
    let c0 ← ctIn.deref "0"
    let p0 ← out.deref "0"
    let st ← Go.loop (rotateStep level ctIn r.toNat hoisted rks (crs.lookup r)) (out.insert "0" (p0.copy c0), S)
      (GoMap.range (o 21) ids.value)
    permuteAll st.2 level (galElCol N r.toNat) (GoMap.range (o 22) ctIn) st.1

/-- `Rotate` (keyswitch.go:234-298) -/
def rotate (crs : GoMap ℤ (Swk C)) (o : Sched String) (S : Scratch C) (ctIn : Ct C) (rotidx : ℤ) (rks : RotKeySet (GalKey C)) (out : Ct C) :
    Go (Ct C × Scratch C) := rotateWith crs o S ctIn rotidx none rks out

/-- `RotateHoisted` (keyswitch_hoisted.go:183-247) -/
def rotateHoisted (crs : GoMap ℤ (Swk C)) (o : Sched String) (S : Scratch C) (ctIn : Ct C) (rotidx : ℤ) (h : HoistedCt C)
    (rks : RotKeySet (GalKey C)) (out : Ct C) : Go (Ct C × Scratch C) := rotateWith crs o S ctIn rotidx (some h) rks out

/-- `ringQ.Permute(a, galEl, b)` of lattigo on the rows `0..permLevel`. The function loops over *all* primes of its ring, so
`permLevel = nQ - 1` for `params.RingQ()`; polynomials with fewer rows make it index out of range. The parameter is kept so
that the theorems do not depend on that detail of lattigo. The flag of the output is not changed. -/
def ringPermute (permLevel galEl : ℕ) (a b : Poly C) : Go (Poly C) := do
  a.need permLevel
  b.need permLevel
  .ok { b with rows := setQ permLevel (fun i => (C.RQ i).permute galEl (a.rows i)) b.rows }

/-- `c0 <- c0 + IP(c_i, rk_i)` (keyswitch.go:319-323) -/
def conjStep0 (level : ℕ) (cks : KeySet (GalKey C)) (st : Ct C × Scratch C) (id : String) : Go (Ct C × Scratch C) := do
  let ck ← cks.get "cannot GetConjugationKey: there is no conjugation key with given id" id
  let b ← st.1.deref id
  let w ← externalProduct st.2 level b ck.value st.2.q0
  let out ← st.1.upd level "0" fun old i => (C.RQ i).add (old i) (w.1 i)
  .ok (out, { w.2 with q0 := w.1 })

/-- `c_i <- IP(c_i, a)` (keyswitch.go:327-330) -/
def conjStep1 (level : ℕ) (a : Option (Swk C)) (st : Ct C × Scratch C) (id : String) : Go (Ct C × Scratch C) := do
  let b ← st.1.deref id
  let a ← orNil a
  let w ← externalProduct st.2 level b a st.2.q0
  .ok (st.1.insert id (b.copy (pool0Poly { w.2 with q0 := w.1 })), { w.2 with q0 := w.1 })

/-- `Conjugate(ctIn, ckSet, ctOut)` (keyswitch.go:302-332) -/
def conjugate (permLevel : ℕ) (crs : GoMap ℤ (Swk C)) (o : Sched String) (S : Scratch C) (ctIn : Ct C) (cks : KeySet (GalKey C))
    (out : Ct C) : Go (Ct C × Scratch C) := do
  let level ← out.level
  let ids ← IDSet.ofCiphertext (o 30) ctIn
  let lin ← ctIn.level
  if lin < level then .error (.panic "Cannot Conjugate: ctIn and ctOut have different levels")
  else
    let out ← Go.loop (fun out id => do
      let a ← ctIn.deref id
      let b ← GoMap.deref out id
      let b ← ringPermute permLevel (galElRow N) a b
      .ok (out.insert id b)) out (GoMap.range (o 31) ctIn)
    let st ← Go.loop (conjStep0 level cks) (out, S) (GoMap.range (o 32) ids.value)
    Go.loop (conjStep1 level (crs.lookup (-2))) st (GoMap.range (o 33) ids.value)

end MKHE
