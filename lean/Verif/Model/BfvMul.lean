import Verif.Model.Bfv
import Verif.Model.KeyGen

set_option autoImplicit false

/-!
# Model of the BFV multiplication

mkbfv/basis_extension.go, mkbfv/keyswitch.go, mkbfv/keyswitch_hoisted.go, mkbfv/keygen.go and the multiplications of mkbfv/evaluator.go.

The ring R has the primes of Q followed by as many primes of QMul. A coefficient-domain polynomial of R is a table of raw machine words,
because `ModUpQtoP` leaves words up to three times the prime there. Stale content of the base converter pools (`polypoolQ`,
`polypoolQMul`, `polypoolR`) and of `swkRPPool` is an argument whose updates are not tracked; theorems quantify over it.
-/

namespace MKHE
variable {N : ℕ} [NeZero N]

/-- `mkbfv.Parameters` (mkbfv/params.go:27-32): the QP parameters, the primes of QMul (as many as Q, checked at params.go:38-40), and the
plaintext modulus (`T()`, mkbfv/params.go:100-102; `RingT()`, mkbfv/params.go:105-107, is only used by the encoder). `paramsRP` has the primes `concatMods nQ q m` and the same P, gamma, N. -/
structure BCtx (N : ℕ) [NeZero N] where
  C : Ctx N
  m : ℕ → ℕ
  RM : ∀ j, LimbOps N (m j)
  t : ℕ

namespace BCtx
variable (B : BCtx N)

/-- the primes of R -/
def r : ℕ → ℕ := concatMods B.C.nQ B.C.q B.m
/-- the maximal level, the only one BFV ciphertexts have -/
def top : ℕ := B.C.nQ - 1
/-- `ringQ.ModulusBigint` -/
def Q : ℕ := ∏ i ∈ Finset.range B.C.nQ, B.C.q i
/-- `ringQMul.ModulusBigint` -/
def QMul : ℕ := ∏ j ∈ Finset.range B.C.nQ, B.m j
/-- `Beta(MaxLevel)` of `paramsRP`, the number of components of `swkRPPool` -/
def betaRP : ℕ := (⟨2 * B.C.nQ, B.C.nP, B.C.gamma, B.C.logN⟩ : Dims).beta B.C.fm (2 * B.C.nQ - 1)

end BCtx

/-- a coefficient-domain polynomial of R: raw words of the Q rows and of the QMul rows -/
structure PolyR (N : ℕ) where
  Q : ℕ → Fin N → ℕ
  M : ℕ → Fin N → ℕ

/-- an NTT-domain polynomial of R -/
structure RowsR (B : BCtx N) where
  Q : QRows B.C
  M : (j : ℕ) → Limb N (B.m j)

/-- a ciphertext over R, `ct0R`/`ct1R` of evaluator.go:96-99; its level is `2*nQ - 1` -/
abbrev CtR (N : ℕ) := GoMap String (PolyR N)

/-- `mkbfv.RelinearizationKey` (mkbfv/keys.go:6-9): `Value[0] = (b1, d1, v)`, `Value[1] = (b2, d2, unused)` -/
structure BRlk (C : Ctx N) where
  id : String
  k1 : Rlk C
  k2 : Rlk C

variable {B : BCtx N}

/-! ## ring operations on all rows of R -/

/-- `ringR.NTT(a, _)` -/
def nttR (a : PolyR N) : RowsR B := ⟨fun i => (B.C.RQ i).nttRaw (a.Q i), fun j => (B.RM j).nttRaw (a.M j)⟩
/-- `ringR.MForm(a, _)` -/
def mformR (a : RowsR B) : RowsR B := ⟨fun i => (B.C.RQ i).mform (a.Q i), fun j => (B.RM j).mform (a.M j)⟩
/-- `ringR.MulCoeffsMontgomery(a, b, _)` -/
def mulR (a b : RowsR B) : RowsR B := ⟨fun i => (B.C.RQ i).mulMont (a.Q i) (b.Q i), fun j => (B.RM j).mulMont (a.M j) (b.M j)⟩
/-- `ringR.MulCoeffsMontgomeryAndAdd(a, b, c)` -/
def mulAddR (a b c : RowsR B) : RowsR B :=
  ⟨fun i => (B.C.RQ i).mulMontAdd (a.Q i) (b.Q i) (c.Q i), fun j => (B.RM j).mulMontAdd (a.M j) (b.M j) (c.M j)⟩

/-! ## mkbfv/basis_extension.go -/

/-- the words of the first `n` rows; the others do not exist in the program and are zero here -/
def firstRows (n : ℕ) (w : Fin N → ℕ → ℕ) : ℕ → Fin N → ℕ := fun j x => if j < n then w x j else 0

variable (B) in
/-- `ModUpQtoR(polyQ, polyR)` (basis_extension.go:49-63); `pool` is the stale `polypoolQMul` -/
def modUpQtoR (pool : Fin N → ℕ → ℕ) (a : Poly B.C) : Go (PolyR N) := do
  a.need B.top
  let w ← Go.fillFin (fun x => modUp B.C.fm B.C.nQ B.C.q B.C.nQ B.m B.top B.top (fun i => (a.rows i x).val) (pool x)) (fun _ _ => 0)
  .ok ⟨firstRows B.C.nQ fun x i => (a.rows i x).val, firstRows B.C.nQ w⟩

variable (B) in
/-- `mFormQMul` (basis_extension.go:41-43): the constant `QMul mod q_i` in every coefficient, in Montgomery form -/
def mFormQMul : QRows B.C := fun i => (B.C.RQ i).mform fun _ => toWord (B.C.q i) (B.QMul % B.C.q i)

variable (B) in
/-- `Rescale(polyQ, polyR)` (basis_extension.go:83-97). `MulScalar(_, 0, _)` clears `polypoolQMul`; `poolM` are the stale words of
the pool of `convQQMul` that `ModDownQPtoP` uses, and `poolQ` those of `polypoolQ` that `ModUpPtoQ` overwrites. -/
def rescaleR (poolM poolQ : Fin N → ℕ → ℕ) (a : Poly B.C) : Go (PolyR N) := do
  a.need B.top
  let pQ : QRows B.C := fun i => (B.C.RQ i).mulMont (a.rows i) (mFormQMul B i)
  let w1 ← Go.fillFin (fun x => modDownQPtoP B.C.fm B.C.nQ B.C.q B.C.nQ B.m B.top B.top (fun i => (pQ i x).val) (fun _ => 0) (poolM x)
    (fun _ => 0)) (fun _ _ => 0)
  let w2 ← Go.fillFin (fun x => modUp B.C.fm B.C.nQ B.m B.C.nQ B.C.q B.top B.top (w1 x) (poolQ x)) (fun _ _ => 0)
  .ok ⟨firstRows B.C.nQ w2, firstRows B.C.nQ w1⟩

/-- `Quantize(polyR, polyQ, t)` (basis_extension.go:66-80); `c` are the old rows of `polyQ` -/
def quantize (pool : Fin N → ℕ → ℕ) (a : RowsR B) (c : QRows B.C) : Go (QRows B.C) := do
  let xQ : QRows B.C := fun i => (B.C.RQ i).intt ((B.C.RQ i).mulScalar B.t (a.Q i))
  let xM : (j : ℕ) → Limb N (B.m j) := fun j => (B.RM j).intt ((B.RM j).mulScalar B.t (a.M j))
  let w ← Go.fillFin (fun x => modDownQPtoQ B.C.fm B.C.nQ B.C.q B.C.nQ B.m B.top B.top (fun i => (xQ i x).val) (fun j => (xM j x).val)
    (pool x) (fun i => (c i x).val)) (fun _ _ => 0)
  .ok (setQ B.top (fun i x => toWord (B.C.q i) (w x i)) c)

/-! ## mkbfv/keyswitch.go: digits and external products -/

/-- the scratch memory of `mkbfv.KeySwitcher` (keyswitch.go:6-28) -/
structure BScratch (B : BCtx N) where
  /-- the embedded `mkrlwe.KeySwitcher` -/
  base : Scratch B.C
  /-- `swkRPPool`: stale words (Q rows, P rows) of every component -/
  rp : ℕ → Fin N → (ℕ → ℕ) × (ℕ → ℕ)
  /-- stale words of the base converter pools -/
  conv : Fin N → ℕ → ℕ
  s1 : Swk B.C
  s2 : Swk B.C
  s3 : Swk B.C
  s4 : Swk B.C
  s5 : Swk B.C
  s6 : Swk B.C
  /-- `polyQPool1`, `polyQPool2` -/
  q1 : QRows B.C
  q2 : QRows B.C
  /-- `polyRPool1..4` -/
  r1 : RowsR B
  r2 : RowsR B
  r3 : RowsR B
  r4 : RowsR B

/-- word `i` of coefficient `x` of a polynomial of R: first the Q rows, then the QMul rows -/
def PolyR.word (nQ : ℕ) (a : PolyR N) (x : Fin N) : ℕ → ℕ := fun i => if i < nQ then a.Q i x else a.M (i - nQ) x

variable (B) in
/-- `kswRP.DecomposeSingleNTT(levelQ, PCount-1, Alpha, k, Gamma, aR, swkRPPool[k].Q, swkRPPool[k].P)` (keyswitch.go:65-66,
mkrlwe/keyswitch.go:21-31). The decomposer is built for the 2*nQ primes of R. Only rows up to `levelQ` are transformed, and only those
are read by the caller, so the model returns no others. -/
def decomposeSingleR (level k : ℕ) (a : PolyR N) (old : Fin N → (ℕ → ℕ) × (ℕ → ℕ)) : Go (PolyQP B.C) := do
  let w ← Go.fillFin (fun x => decomposeAndSplit B.C.fm (2 * B.C.nQ) B.r B.C.nP B.C.p level (B.C.nP - 1) B.C.alpha k B.C.gamma
    (a.word B.C.nQ x) (old x).1 (old x).2) (fun _ => (fun _ => 0, fun _ => 0))
  .ok (setQP level ⟨fun i => (B.C.RQ i).nttRaw fun x => (w x).1 i, fun j => (B.C.RP j).nttRaw fun x => (w x).2 j⟩ PolyQP.zero)

/-- `DecomposeBFV(levelQ, aR, ad1, ad2)` (keyswitch.go:57-80): all `2*beta` digits into `swkRPPool`, then copies into `ad1` and `ad2` -/
def decomposeBFV (S : BScratch B) (level : ℕ) (a : PolyR N) (ad1 ad2 : Swk B.C) : Go (Swk B.C × Swk B.C) := do
  let beta := B.C.beta level
  if B.betaRP < 2 * beta then .error .indexOutOfRange
  else
    let vals ← Go.loop (fun (v : ℕ → PolyQP B.C) k => do
      let r ← decomposeSingleR B level k a (S.rp k)
      .ok (Function.update v k r)) (fun _ => PolyQP.zero) (List.range (2 * beta))
    if ad1.len < beta ∨ ad2.len < beta then .error .indexOutOfRange
    else .ok (⟨ad1.len, fun k => if k < beta then setQP level (vals k) (ad1.val k) else ad1.val k⟩,
      ⟨ad2.len, fun k => if k < beta then setQP level (vals (k + beta)) (ad2.val k) else ad2.val k⟩)

/-- `ExternalProductBFVHoisted(levelQ, aHoisted1, aHoisted2, bg1, bg2, c)` (keyswitch_hoisted.go:7-35) -/
def extProdBFVHoisted (S : BScratch B) (level : ℕ) (h1 h2 bg1 bg2 : Swk B.C) (c : QRows B.C) : Go (QRows B.C × BScratch B) := do
  if bg1.len < B.C.beta level ∨ bg2.len < B.C.beta level ∨ h1.len < B.C.beta level ∨ h2.len < B.C.beta level then
    .error .indexOutOfRange
  else
    let pool ← Go.loop (fun (pool : PolyQP B.C) i =>
      let p := if i = 0 then qpMul level (bg1.val i) (h1.val i) pool else qpMulAdd level (bg1.val i) (h1.val i) pool
      .ok (qpMulAdd level (bg2.val i) (h2.val i) p)) S.base.pool1 (List.range (B.C.beta level))
    let c' ← modDownRows level pool S.base.conv c
    .ok (c', { S with base := { S.base with pool1 := pool } })

/-- `ExternalProductBFV(levelQ, aR, bg1, bg2, c)` (keyswitch.go:83-111): the digits go to `swkPool1` and `swkPool2`; the loop is that of
`ExternalProductBFVHoisted` -/
def extProdBFV (S : BScratch B) (level : ℕ) (a : PolyR N) (bg1 bg2 : Swk B.C) (c : QRows B.C) : Go (QRows B.C × BScratch B) := do
  let w ← decomposeBFV S level a S.s1 S.s2
  let S := { S with s1 := w.1, s2 := w.2 }
  extProdBFVHoisted S level S.s1 S.s2 bg1 bg2 c

/-! ## multiplication with relinearization -/

/-- an optional pair of hoisted forms (`op0Hoisted1 == nil` selects the plain branch, keyswitch_hoisted.go:88, 113, 177, 193) -/
abbrev HoistedPair (B : BCtx N) := Option (HoistedCt B.C × HoistedCt B.C)

/-- the digits of component `id`: into `swkPool1`, `swkPool2` (keyswitch.go:161, 177), or read from the hoisted forms
(keyswitch_hoisted.go:100-101, 125-126) -/
def digitsB (S : BScratch B) (level : ℕ) (op : CtR N) (hoisted : HoistedPair B) (id : String) :
    Go ((Swk B.C × Swk B.C) × BScratch B) :=
  match hoisted with
  | none => do
    let a ← op.deref id
    let w ← decomposeBFV S level a S.s1 S.s2
    .ok (w, { S with s1 := w.1, s2 := w.2 })
  | some h => do
    let h1 ← h.1.deref id
    let h2 ← h.2.deref id
    .ok ((h1, h2), S)

/-- one iteration of "gen x vector" / "gen y vector" (keyswitch.go:160-168, 176-184; hoisted 87-104, 112-129); `sel` picks `d` or `b` -/
def genVecBStep (level : ℕ) (op : CtR N) (hoisted : HoistedPair B) (rlk : GoMap String (BRlk B.C)) (sel : Rlk B.C → Swk B.C)
    (w : (Swk B.C × Swk B.C) × BScratch B) (id : String) : Go ((Swk B.C × Swk B.C) × BScratch B) := do
  let h ← digitsB w.2 level op hoisted id
  let key ← rlk.deref id
  let x1 ← accVec level (B.C.beta level) (sel key.k1) h.1.1 w.1.1
  let x2 ← accVec level (B.C.beta level) (sel key.k2) h.1.2 w.1.2
  .ok ((x1, x2), h.2)

/-- "gen x vector" (keyswitch.go:159-173) and "gen y vector" (175-189); hoisted 86-109 and 111-134 -/
def genVecB (S : BScratch B) (level : ℕ) (op : CtR N) (hoisted : HoistedPair B) (rlk : GoMap String (BRlk B.C)) (sel : Rlk B.C → Swk B.C)
    (ids : List String) (x1 x2 : Swk B.C) : Go ((Swk B.C × Swk B.C) × BScratch B) := do
  let w ← Go.loop (genVecBStep level op hoisted rlk sel) ((x1, x2), S) ids
  let x1 ← mformVec level (B.C.beta level) w.1.1
  let x2 ← mformVec level (B.C.beta level) w.1.2
  .ok ((x1, x2), w.2)

/-- `conv.Quantize(a, ctOut.Value[id], params.T())` -/
def Ct.quant (pool : Fin N → ℕ → ℕ) (a : RowsR B) (id : String) (out : Ct B.C) : Go (Ct B.C) := do
  let p ← out.deref id
  p.need B.top
  let r ← quantize pool a p.rows
  .ok (out.insert id { p with rows := r })

/-- keyswitch.go:202-208: `ctOut_id <- op0_id * op1_0` for the ids of op0 only -/
def tensorB0 (op0 : CtR N) (ids1 : IDSet) (w : Ct B.C × BScratch B) (id : String) : Go (Ct B.C × BScratch B) := do
  if ids1.has id = false then
    let a ← op0.deref id
    let S := { w.2 with r3 := nttR a }
    let S := { S with r3 := mulR S.r2 S.r3 }
    let out ← w.1.quant S.conv S.r3 id
    .ok (out, S)
  else .ok w

/-- keyswitch.go:210-216: `ctOut_id <- op0_0 * op1_id` for the ids of op1 only -/
def tensorB1 (op1 : CtR N) (ids0 : IDSet) (w : Ct B.C × BScratch B) (id : String) : Go (Ct B.C × BScratch B) := do
  if ids0.has id = false then
    let a ← op1.deref id
    let S := { w.2 with r3 := nttR a }
    let S := { S with r3 := mulR S.r1 S.r3 }
    let out ← w.1.quant S.conv S.r3 id
    .ok (out, S)
  else .ok w

/-- keyswitch.go:218-228: `ctOut_id <- op0_0 * op1_id + op0_id * op1_0` for the common ids -/
def tensorB2 (op0 op1 : CtR N) (ids0 : IDSet) (w : Ct B.C × BScratch B) (id : String) : Go (Ct B.C × BScratch B) := do
  if ids0.has id then
    let a ← op1.deref id
    let S := { w.2 with r3 := nttR a }
    let S := { S with r3 := mulR S.r1 S.r3 }
    let b ← op0.deref id
    let S := { S with r4 := nttR b }
    let S := { S with r3 := mulAddR S.r2 S.r4 S.r3 }
    let out ← w.1.quant S.conv S.r3 id
    .ok (out, S)
  else .ok w

/-- the tensor product (keyswitch.go:191-228; hoisted 136-173) -/
def tensorB (o : Sched String) (S : BScratch B) (op0 op1 : CtR N) (ids0 ids1 : IDSet) (out : Ct B.C) : Go (Ct B.C × BScratch B) := do
  let a0 ← op0.deref "0"
  let S := { S with r1 := nttR a0 }
  let a1 ← op1.deref "0"
  let S := { S with r2 := nttR a1 }
  let S := { S with r1 := mformR S.r1 }
  let S := { S with r3 := mulR S.r1 S.r2 }
  let out ← out.quant S.conv S.r3 "0"
  let S := { S with r2 := mformR S.r2 }
  let w ← Go.loop (tensorB0 op0 ids1) (out, S) (GoMap.range (o 0) ids0.value)
  let w ← Go.loop (tensorB1 op1 ids0) w (GoMap.range (o 1) ids1.value)
  Go.loop (tensorB2 op0 op1 ids0) w (GoMap.range (o 2) ids1.value)

/-- the external product of component `id` with `(bg1, bg2)` into `polyQPool1` (keyswitch.go:232, 243; hoisted 177-181, 193-197) -/
def extIntoB (S : BScratch B) (level : ℕ) (op : CtR N) (hoisted : HoistedPair B) (id : String) (bg1 bg2 : Swk B.C) : Go (BScratch B) :=
  match hoisted with
  | none => do
    let a ← op.deref id
    let w ← extProdBFV S level a bg1 bg2 S.q1
    .ok { w.2 with q1 := w.1 }
  | some h => do
    let h1 ← h.1.deref id
    let h2 ← h.2.deref id
    let w ← extProdBFVHoisted S level h1 h2 bg1 bg2 S.q1
    .ok { w.2 with q1 := w.1 }

/-- `ctOut_j += Inter(op1_j, x)` (keyswitch.go:231-234; hoisted 176-183); `x1`, `x2` are `swkPool3`, `swkPool4` -/
def addXB (level : ℕ) (op1 : CtR N) (h1 : HoistedPair B) (w : Ct B.C × BScratch B) (id : String) : Go (Ct B.C × BScratch B) := do
  let S ← extIntoB w.2 level op1 h1 id w.2.s3 w.2.s4
  let out ← w.1.upd level id fun old i => (B.C.RQ i).add (old i) (S.q1 i)
  .ok (out, S)

/-- `polyQPool1` as a polynomial -/
def BScratch.poly1 (S : BScratch B) : Poly B.C := ⟨B.C.nQ, false, S.q1⟩

/-- the last loop of `MulAndRelinBFV` (keyswitch.go:241-250); `y1`, `y2` are `swkPool5`, `swkPool6` -/
def lastB (crs : GoMap ℤ (Swk B.C)) (level : ℕ) (op0 : CtR N) (rlk : GoMap String (BRlk B.C)) (w : Ct B.C × BScratch B) (id : String) :
    Go (Ct B.C × BScratch B) := do
  let key ← rlk.deref id
  let S ← extIntoB w.2 level op0 none id w.2.s5 w.2.s6
  let e ← externalProduct S.base level S.poly1 key.k1.v S.q2
  let S := { S with base := e.2, q2 := e.1 }
  let out ← w.1.upd level "0" fun old i => (B.C.RQ i).add (old i) (S.q2 i)
  let u ← crs.deref (-1)
  let e ← externalProduct S.base level S.poly1 u S.q2
  let S := { S with base := e.2, q2 := e.1 }
  let out ← out.upd level id fun old i => (B.C.RQ i).add (old i) (S.q2 i)
  .ok (out, S)

/-- the last loop of `MulAndRelinBFVHoisted` (keyswitch_hoisted.go:190-206). Line 199 decomposes into `swkPool3`, which is `x1`. -/
def lastBHoisted (crs : GoMap ℤ (Swk B.C)) (level : ℕ) (op0 : CtR N) (h0 : HoistedPair B) (rlk : GoMap String (BRlk B.C))
    (w : Ct B.C × BScratch B) (id : String) : Go (Ct B.C × BScratch B) := do
  let key ← rlk.deref id
  let S ← extIntoB w.2 level op0 h0 id w.2.s5 w.2.s6
  let d ← decompose S.base level S.poly1 S.s3
  let S := { S with base := d.2, s3 := d.1 }
  let e ← externalProductHoisted S.base level S.s3 key.k1.v S.q2
  let S := { S with base := e.2, q2 := e.1 }
  let out ← w.1.upd level "0" fun old i => (B.C.RQ i).add (old i) (S.q2 i)
  let u ← crs.deref (-1)
  let e ← externalProductHoisted S.base level S.s3 u S.q2
  let S := { S with base := e.2, q2 := e.1 }
  let out ← out.upd level id fun old i => (B.C.RQ i).add (old i) (S.q2 i)
  .ok (out, S)

variable (B) in
/-- the level checks (keyswitch.go:117-125; hoisted 44-52): the level of `op0`, an R ciphertext, is `2*nQ - 1`; the second test compares
a level with itself -/
def mulChecksB (op0 : CtR N) (out : Ct B.C) : Go ℕ := do
  let level ← out.level
  let _ ← op0.deref "0"
  if 2 * B.C.nQ - 1 < level then .error (.panic "Cannot MulAndRelin: op0 and op1 have different levels")
  else if level < level then .error (.panic "Cannot MulAndRelin: op0 and ctOut have different levels")
  else .ok level

/-- the part common to both multiplications (keyswitch.go:117-234; hoisted 44-183): it leaves `x1, x2, y1, y2` in `swkPool3..6` -/
def mulFrontB (o : Sched String) (S : BScratch B) (op0 op1 : CtR N) (h0 h1 : HoistedPair B) (rlk : GoMap String (BRlk B.C)) (out : Ct B.C) :
    Go (ℕ × IDSet × Ct B.C × BScratch B) := do
  let level ← mulChecksB B op0 out
  let ids0 ← IDSet.ofCiphertext (o 10) op0
  let ids1 ← IDSet.ofCiphertext (o 11) op1
  let x1 ← zeroVec (B.C.beta level) S.s3
  let x2 ← zeroVec (B.C.beta level) S.s4
  let y1 ← zeroVec (B.C.beta level) S.s5
  let y2 ← zeroVec (B.C.beta level) S.s6
  let x ← genVecB S level op0 h0 rlk Rlk.d (GoMap.range (o 12) ids0.value) x1 x2
  let y ← genVecB x.2 level op1 h1 rlk Rlk.b (GoMap.range (o 13) ids1.value) y1 y2
  let S := { y.2 with s3 := x.1.1, s4 := x.1.2, s5 := y.1.1, s6 := y.1.2 }
  let w ← tensorB o S op0 op1 ids0 ids1 out
  let w ← Go.loop (addXB level op1 h1) w (GoMap.range (o 3) ids1.value)
  .ok (level, ids0, w.1, w.2)

/-- `MulAndRelinBFV(op0, op1, rlkSet, ctOut)` (keyswitch.go:115-251) -/
def mulAndRelinBFV (crs : GoMap ℤ (Swk B.C)) (o : Sched String) (S : BScratch B) (op0 op1 : CtR N) (rlk : GoMap String (BRlk B.C))
    (out : Ct B.C) : Go (Ct B.C × BScratch B) := do
  let f ← mulFrontB o S op0 op1 none none rlk out
  Go.loop (lastB crs f.1 op0 rlk) (f.2.2.1, f.2.2.2) (GoMap.range (o 4) f.2.1.value)

/-- `MulAndRelinBFVHoisted(op0, op1, op0Hoisted1, op0Hoisted2, op1Hoisted1, op1Hoisted2, rlkSet, ctOut)`
(keyswitch_hoisted.go:39-207) -/
def mulAndRelinBFVHoisted (crs : GoMap ℤ (Swk B.C)) (o : Sched String) (S : BScratch B) (op0 op1 : CtR N) (h0 h1 : HoistedPair B)
    (rlk : GoMap String (BRlk B.C)) (out : Ct B.C) : Go (Ct B.C × BScratch B) := do
  let f ← mulFrontB o S op0 op1 h0 h1 rlk out
  Go.loop (lastBHoisted crs f.1 op0 h0 rlk) (f.2.2.1, f.2.2.2) (GoMap.range (o 4) f.2.1.value)

/-! ## mkbfv/evaluator.go -/

/-- the key set with its pools -/
abbrev BRlkMap (B : BCtx N) := BfvRlkSet (BRlk B.C) (Swk B.C) (PolyR N)

/-- the loops `for id := range ct.Value { ctR[id] = pool[id]; f(ct[id], ctR[id]) }` (evaluator.go:101-109, 125-133): the pool entry must
exist; all its rows are overwritten -/
def toR (f : Poly B.C → Go (PolyR N)) (o : Order String) (pool : GoMap String (PolyR N)) (ct : Ct B.C) : Go (CtR N) :=
  Go.loop (fun (r : CtR N) id => do
    let a ← ct.deref id
    let _ ← pool.deref id
    let x ← f a
    .ok (r.insert id x)) ∅ (GoMap.range o ct)

/-- `mulRelin(ct0, ct1, rlkSet, ctOut)` (evaluator.go:94-112) -/
def bfvMulRelin (crs : GoMap ℤ (Swk B.C)) (o : Sched String) (S : BScratch B) (ct0 ct1 : Ct B.C) (set : BRlkMap B) (out : Ct B.C) :
    Go (Ct B.C × BScratch B) := do
  let ct0R ← toR (modUpQtoR B S.conv) (o 120) set.polyR1 ct0
  let ct1R ← toR (rescaleR B S.conv S.conv) (o 121) set.polyR2 ct1
  mulAndRelinBFV crs o S ct0R ct1R set.value out

/-- the loops `for id := range idset.Value { DecomposeBFV(level, ctR[id], HoistPool1[k][id], HoistPool2[k][id]) }`
(evaluator.go:138-144) -/
def hoistB (S : BScratch B) (level : ℕ) (ctR : CtR N) (ids : List String) (h : HoistedCt B.C × HoistedCt B.C) :
    Go (HoistedCt B.C × HoistedCt B.C) :=
  Go.loop (fun (h : HoistedCt B.C × HoistedCt B.C) id => do
    let a ← ctR.deref id
    let h1 ← h.1.deref id
    let h2 ← h.2.deref id
    let w ← decomposeBFV S level a h1 h2
    .ok (h.1.insert id w.1, h.2.insert id w.2)) h ids

/-- `mulRelinHoisted(ct0, ct1, rlkSet, ctOut)` (evaluator.go:118-150) -/
def bfvMulRelinHoisted (crs : GoMap ℤ (Swk B.C)) (o : Sched String) (S : BScratch B) (ct0 ct1 : Ct B.C) (set : BRlkMap B) (out : Ct B.C) :
    Go (Ct B.C × BScratch B) := do
  let ct0R ← toR (modUpQtoR B S.conv) (o 120) set.polyR1 ct0
  let ct1R ← toR (rescaleR B S.conv S.conv) (o 121) set.polyR2 ct1
  let ids0 ← IDSet.ofCiphertext (o 122) ct0
  let ids1 ← IDSet.ofCiphertext (o 123) ct1
  let l0 ← ct0.level
  let h0 ← hoistB S l0 ct0R (GoMap.range (o 124) ids0.value) (set.hoist10, set.hoist20)
  let l1 ← ct1.level
  let h1 ← hoistB S l1 ct1R (GoMap.range (o 125) ids1.value) (set.hoist11, set.hoist21)
  mulAndRelinBFVHoisted crs o S ct0R ct1R (some h0) (some h1) set.value out

/-- `MulRelinNew(op0, op1, rlkSet)` (evaluator.go:84-88) -/
def bfvMulRelinNew (crs : GoMap ℤ (Swk B.C)) (o : Sched String) (S : BScratch B) (ct0 ct1 : Ct B.C) (set : BRlkMap B) :
    Go (Ct B.C × BScratch B) := do
  let out ← bfvNewBinary o ct0 ct1
  bfvMulRelinHoisted crs o S ct0 ct1 set out

end MKHE
