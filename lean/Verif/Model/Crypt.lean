import Verif.Model.KeyGen
import Verif.Model.Ckks

set_option autoImplicit false

/-!
# Model of mkrlwe/encryptor.go and mkrlwe/decryptor.go, and of the decryptors of mkckks and mkbfv

Encoding and decoding of messages is done by lattigo's encoders and is not modelled: the functions work on plaintext polynomials.
Polynomials are assumed to have at least one row (`Level() ≥ 0`) and at most `QCount` rows.
-/

namespace MKHE
variable {N : ℕ} [NeZero N] {C : Ctx N}

/-- a lattigo call that overwrites the rows up to `level` of `ct.Value[id]`; row `i` of the result may depend on its old row -/
def Ct.onRows (ct : Ct C) (id : String) (level : ℕ) (f : ∀ i, Limb N (C.q i) → Limb N (C.q i)) : Go (Ct C) := do
  let p ← ct.deref id
  p.need level
  .ok (ct.insert id (p.set level fun i => f i (p.rows i)))

/-- mutable state of an `Encryptor` (encryptor.go:9-20): `poolQ[0]`, the positions in the outputs of its ternary and Gaussian samplers -/
structure Enc (C : Ctx N) where
  pool : QRows C
  upos : ℕ
  gpos : ℕ

/-- the branch for an NTT-form ciphertext (encryptor.go:74-92) -/
def encryptNTT (gs : ℕ → Nega N ℤ) (st : Enc C) (levelQ : ℕ) (pt : Poly C) (id : String) (ct : Ct C) : Go (Ct C × Enc C) := do
  let pool := setQ levelQ (smallRows (gs st.gpos)) st.pool
  let pool := setQ levelQ (fun i => (C.RQ i).ntt (pool i)) pool
  let ct ← ct.onRows id levelQ (fun i a => (C.RQ i).add a (pool i))
  let pool := setQ levelQ (smallRows (gs (st.gpos + 1))) pool
  pt.need levelQ
  if !pt.isNTT then
    let pool := setQ levelQ (fun i => (C.RQ i).add (pool i) (pt.rows i)) pool
    let pool := setQ levelQ (fun i => (C.RQ i).ntt (pool i)) pool
    let ct ← ct.onRows "0" levelQ (fun i a => (C.RQ i).add a (pool i))
    .ok (ct, ⟨pool, st.upos, st.gpos + 2⟩)
  else
    let pool := setQ levelQ (fun i => (C.RQ i).ntt (pool i)) pool
    let ct ← ct.onRows "0" levelQ (fun i a => (C.RQ i).add a (pool i))
    let ct ← ct.onRows "0" levelQ (fun i a => (C.RQ i).add a (pt.rows i))
    .ok (ct, ⟨pool, st.upos, st.gpos + 2⟩)

/-- the branch for a coefficient-form ciphertext (encryptor.go:94-111). `ReadAndAddLvl` adds the sampled residues to the rows. -/
def encryptCoeff (gs : ℕ → Nega N ℤ) (st : Enc C) (levelQ : ℕ) (pt : Poly C) (id : String) (ct : Ct C) : Go (Ct C × Enc C) := do
  let ct ← ct.onRows "0" levelQ (fun i a => (C.RQ i).intt a)
  let ct ← ct.onRows id levelQ (fun i a => (C.RQ i).intt a)
  let l0 ← ct.level
  let ct ← ct.onRows "0" l0 (fun i a => (C.RQ i).add a (smallRow _ (gs st.gpos)))
  let l1 ← ct.level
  let ct ← ct.onRows id l1 (fun i a => (C.RQ i).add a (smallRow _ (gs (st.gpos + 1))))
  pt.need levelQ
  if !pt.isNTT then
    let ct ← ct.onRows "0" levelQ (fun i a => (C.RQ i).add a (pt.rows i))
    .ok (ct, ⟨st.pool, st.upos, st.gpos + 2⟩)
  else
    let pool := setQ levelQ (fun i => (C.RQ i).intt (pt.rows i)) st.pool
    let ct ← ct.onRows "0" levelQ (fun i a => (C.RQ i).add a (pool i))
    .ok (ct, ⟨pool, st.upos, st.gpos + 2⟩)

/-- the two branches on `ciphertextNTT` (encryptor.go:73-112) -/
def encryptBody (ntt : Bool) (gs : ℕ → Nega N ℤ) (st : Enc C) (levelQ : ℕ) (pt : Poly C) (id : String) (ct : Ct C) : Go (Ct C × Enc C) :=
  if ntt then encryptNTT gs st levelQ pt id ct else encryptCoeff gs st levelQ pt id ct

/-- `p.Coeffs = p.Coeffs[:levelQ+1]` (encryptor.go:115-116) -/
def Ct.truncate (ct : Ct C) (id : String) (levelQ : ℕ) : Go (Ct C) := do
  let p ← ct.deref id
  p.need levelQ
  .ok (ct.insert id { p with len := levelQ + 1 })

/-- `Encrypt(plaintext, pk, ctOut)` (encryptor.go:55-118): `us` and `gs` are the outputs of the ternary and the Gaussian sampler -/
def encrypt (us gs : ℕ → Nega N ℤ) (st : Enc C) (pt : Poly C) (pk : PKey C) (ctOut : Ct C) : Go (Ct C × Enc C) := do
  let l0 ← ctOut.level
  let levelQ := min (pt.len - 1) l0
  let p0 ← ctOut.deref "0"
  let pool := setQ levelQ (smallRows (us st.upos)) st.pool
  let pool := setQ levelQ (fun i => (C.RQ i).ntt (pool i)) pool
  let pool := setQ levelQ (fun i => (C.RQ i).mform (pool i)) pool
  let ct ← ctOut.onRows "0" levelQ (fun i _ => (C.RQ i).mulMont (pool i) (pk.v0.Q i))
  let ct ← ct.onRows pk.id levelQ (fun i _ => (C.RQ i).mulMont (pool i) (pk.v1.Q i))
  let w ← encryptBody p0.isNTT gs ⟨pool, st.upos + 1, st.gpos⟩ levelQ pt pk.id ct
  let q0 ← w.1.deref "0"
  let q1 ← w.1.deref pk.id
  let ct := w.1.insert pk.id { q1 with isNTT := q0.isNTT }
  let ct ← Ct.truncate ct "0" levelQ
  let ct ← Ct.truncate ct pk.id levelQ
  .ok (ct, w.2)

/-- `if !ct.Value[id].IsNTT { f(ct.Value[id]) }` (decryptor.go:30-32, 36-38) -/
def Ct.onRowsUnlessNTT (ct : Ct C) (id : String) (level : ℕ) (f : ∀ i, Limb N (C.q i) → Limb N (C.q i)) : Go (Ct C) := do
  let p ← ct.deref id
  if !p.isNTT then ct.onRows id level f else .ok ct

/-- `PartialDecrypt(ct, sk)` (decryptor.go:26-43) -/
def partialDecrypt (ct : Ct C) (sk : SKey C) : Go (Ct C) := do
  let level ← ct.level
  let ct ← ct.onRowsUnlessNTT sk.id level (fun i a => (C.RQ i).ntt a)
  let ct ← ct.onRows sk.id level (fun i a => (C.RQ i).mulMont a (sk.value.Q i))
  let ct ← ct.onRowsUnlessNTT sk.id level (fun i a => (C.RQ i).intt a)
  let p ← ct.deref sk.id
  p.need level
  let ct ← ct.onRows "0" level (fun i a => (C.RQ i).add a (p.rows i))
  .ok (ct.erase sk.id)

/-- `for _, sk := range skSet.Value { if idset.Has(sk.ID) { PartialDecrypt(ctTmp, sk) } }` (decryptor.go:55-59, mkbfv/decryptor.go:46-50) -/
def decryptLoop (ids : IDSet) (sks : KeySet (SKey C)) (tmp : Ct C) (l : List String) : Go (Ct C) :=
  Go.loop (fun (tmp : Ct C) k => do
    let sk ← sks.value.deref k
    if ids.has sk.id then partialDecrypt tmp sk else .ok tmp) tmp l

/-- `Decrypt(ciphertext, skSet, plaintext)` (decryptor.go:48-66): the new contents of the plaintext.
The generic decryptor (`NewDecryptor`, mkrlwe/decryptor.go:16-23) only holds parameters, the ring and a scratch polynomial that no function reads before
writing it, so it is no argument here. -/
def decrypt (o : Sched String) (ct : Ct C) (sks : KeySet (SKey C)) (pt : Poly C) : Go (Poly C) := do
  let l ← ct.level
  let level := min l (pt.len - 1)
  let tmp ← ct.copyNew (o 200)
  let ids ← IDSet.ofCiphertext (o 201) tmp
  let tmp ← decryptLoop ids sks tmp (GoMap.range (o 202) sks.value)
  if 1 < tmp.keys.length then .error (.panic "Cannot Decrypt: there is a missing secretkey")
  else
    let p0 ← tmp.deref "0"
    p0.need level
    .ok { pt with len := level + 1, rows := setQ level (fun i => (C.RQ i).reduce (p0.rows i)) pt.rows }

/-- the `ptxtPool` of a new `mkckks.Decryptor` (mkckks/decryptor.go:14-24): maximal level, flag cleared -/
def ckksNewDecryptor : Poly C := Poly.new (C.nQ - 1)

/-- `mkckks.Decryptor.Decrypt` (mkckks/decryptor.go:34-43) up to the decoding: the plaintext and scale handed to the encoder. The decryptor's
`ptxtPool` is its only state. -/
def ckksDecrypt (o : Sched String) (pool : Poly C) (ct : CCt C) (sks : KeySet (SKey C)) : Go ((Poly C × ℚ) × Poly C) := do
  let tmp ← ct.ct.copyNew (o 203)
  let pt ← decrypt o tmp sks pool
  .ok ((pt, ct.scale), pt)

/-- `mkbfv.Decryptor.Decrypt` (mkbfv/decryptor.go:34-57) up to the decoding: the plaintext polynomial handed to the encoder.
`NewDecryptor` (mkbfv/decryptor.go:14-24) allocates the encoder and a plaintext that `Decrypt` only points to that polynomial: no state. -/
def bfvDecrypt (o : Sched String) (ct : Ct C) (sks : KeySet (SKey C)) : Go (Poly C) := do
  let tmp ← ct.copyNew (o 204)
  let ids ← IDSet.ofCiphertext (o 205) tmp
  let tmp ← decryptLoop ids sks tmp (GoMap.range (o 206) sks.value)
  tmp.deref "0"

/-- `mkckks.EncryptPtxt` (mkckks/encryptor.go:34-37) -/
def ckksEncryptPtxt (us gs : ℕ → Nega N ℤ) (st : Enc C) (pt : Poly C) (scale : ℚ) (pk : PKey C) (ctOut : Ct C) : Go (CCt C × Enc C) := do
  let w ← encrypt us gs st pt pk ctOut
  .ok (⟨w.1, scale⟩, w.2)

/-- `mkckks.EncryptMsgNew` (mkckks/encryptor.go:52-60) after the encoding: a fresh ciphertext of the owner at the maximal level -/
def ckksEncryptNew (o : Sched String) (us gs : ℕ → Nega N ℤ) (st : Enc C) (pt : Poly C) (scale : ℚ) (pk : PKey C) : Go (CCt C × Enc C) := do
  let ids ← IDSet.new.add pk.id
  ckksEncryptPtxt us gs st pt scale pk (Ct.new (o 207) ids (C.nQ - 1))

/-- `mkbfv.EncryptMsgNew` (mkbfv/encryptor.go:49-63) after the encoding; `EncryptPtxt` (mkbfv/encryptor.go:30-32) is `encrypt` itself -/
def bfvEncryptNew (o : Sched String) (us gs : ℕ → Nega N ℤ) (st : Enc C) (pt : Poly C) (pk : PKey C) : Go (Ct C × Enc C) := do
  let ids ← IDSet.new.add pk.id
  encrypt us gs st pt pk (Ct.new (o 207) ids (C.nQ - 1))

end MKHE
