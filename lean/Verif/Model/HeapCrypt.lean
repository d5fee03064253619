import Verif.Model.HeapEval
import Verif.Model.Crypt

set_option autoImplicit false

/-!
# Memory model, continued: encryption

The plaintext polynomial and the receiver are objects on the heap; the encryptor's pool and samplers are private, and public keys are read only, so these
stay values as in `Verif/Model/Crypt.lean`. Encoding of messages into the plaintext polynomial is lattigo's and is not modelled.
-/

namespace MKHE
namespace Heap
variable {N : ℕ} [NeZero N] {C : Ctx N}

/-- a lattigo call that overwrites the rows up to `level` of `ct.Value[id]`; row `i` of the result may depend on its old row -/
def onRows (c : ℕ) (id : String) (level : ℕ) (f : ∀ i, Limb N (C.q i) → Limb N (C.q i)) (h : Heap N) : Go (Heap N) := do
  let p ← h.get c id
  h.polyOp level (lift1 f) p p p

/-- the branch for an NTT-form ciphertext (encryptor.go:74-92) -/
def encryptNTT (gs : ℕ → Nega N ℤ) (st : Enc C) (levelQ pt : ℕ) (id : String) (c : ℕ) (h : Heap N) : Go (Enc C × Heap N) := do
  let pool := setQ levelQ (smallRows (gs st.gpos)) st.pool
  let pool := setQ levelQ (fun i => (C.RQ i).ntt (pool i)) pool
  let h ← h.onRows c id levelQ (fun i a => (C.RQ i).add a (pool i))
  let pool := setQ levelQ (smallRows (gs (st.gpos + 1))) pool
  h.need pt levelQ
  if !(h.poly pt).isNTT then
    let pool := setQ levelQ (fun i => (C.RQ i).add (pool i) ((h.view C pt).rows i)) pool
    let pool := setQ levelQ (fun i => (C.RQ i).ntt (pool i)) pool
    let h ← h.onRows c "0" levelQ (fun i a => (C.RQ i).add a (pool i))
    .ok (⟨pool, st.upos, st.gpos + 2⟩, h)
  else
    let pool := setQ levelQ (fun i => (C.RQ i).ntt (pool i)) pool
    let h ← h.onRows c "0" levelQ (fun i a => (C.RQ i).add a (pool i))
    let h ← h.onRows c "0" levelQ (fun i a => (C.RQ i).add a ((h.view C pt).rows i))
    .ok (⟨pool, st.upos, st.gpos + 2⟩, h)

/-- the branch for a coefficient-form ciphertext (encryptor.go:94-111) -/
def encryptCoeff (gs : ℕ → Nega N ℤ) (st : Enc C) (levelQ pt : ℕ) (id : String) (c : ℕ) (h : Heap N) : Go (Enc C × Heap N) := do
  let h ← h.onRows c "0" levelQ (fun i a => (C.RQ i).intt a)
  let h ← h.onRows c id levelQ (fun i a => (C.RQ i).intt a)
  let l0 ← h.level c
  let h ← h.onRows c "0" l0 (fun i a => (C.RQ i).add a (smallRow _ (gs st.gpos)))
  let l1 ← h.level c
  let h ← h.onRows c id l1 (fun i a => (C.RQ i).add a (smallRow _ (gs (st.gpos + 1))))
  h.need pt levelQ
  if !(h.poly pt).isNTT then
    let h ← h.onRows c "0" levelQ (fun i a => (C.RQ i).add a ((h.view C pt).rows i))
    .ok (⟨st.pool, st.upos, st.gpos + 2⟩, h)
  else
    let pool := setQ levelQ (fun i => (C.RQ i).intt ((h.view C pt).rows i)) st.pool
    let h ← h.onRows c "0" levelQ (fun i a => (C.RQ i).add a (pool i))
    .ok (⟨pool, st.upos, st.gpos + 2⟩, h)

/-- the two branches on `ciphertextNTT` (encryptor.go:73-112) -/
def encryptBody (ntt : Bool) (gs : ℕ → Nega N ℤ) (st : Enc C) (levelQ pt : ℕ) (id : String) (c : ℕ) (h : Heap N) : Go (Enc C × Heap N) :=
  if ntt then encryptNTT gs st levelQ pt id c h else encryptCoeff gs st levelQ pt id c h

/-- `p.Coeffs = p.Coeffs[:levelQ+1]` for `p = ct.Value[id]` (encryptor.go:115-116) -/
def truncAt (c : ℕ) (id : String) (levelQ : ℕ) (h : Heap N) : Go (Heap N) := do
  let p ← h.get c id
  h.truncate p (levelQ + 1)

/-- `ctOut.Value[id].IsNTT = ctOut.Value["0"].IsNTT` (encryptor.go:113) -/
def copyFlag (c : ℕ) (id : String) (h : Heap N) : Go (Heap N) := do
  let q0 ← h.get c "0"
  let q1 ← h.get c id
  .ok (h.setNTT q1 (h.poly q0).isNTT)

/-- `Encrypt(plaintext, pk, ctOut)` (mkrlwe/encryptor.go:55-118): `pt` is the polynomial `plaintext.Value` -/
def encrypt (us gs : ℕ → Nega N ℤ) (st : Enc C) (pt : ℕ) (pk : PKey C) (c : ℕ) (h : Heap N) : Go (Enc C × Heap N) := do
  let l0 ← h.level c
  let levelQ := min (h.len pt - 1) l0
  let p0 ← h.get c "0"
  let pool := setQ levelQ (smallRows (us st.upos)) st.pool
  let pool := setQ levelQ (fun i => (C.RQ i).ntt (pool i)) pool
  let pool := setQ levelQ (fun i => (C.RQ i).mform (pool i)) pool
  let ntt := (h.poly p0).isNTT
  let h ← h.onRows c "0" levelQ (fun i _ => (C.RQ i).mulMont (pool i) (pk.v0.Q i))
  let h ← h.onRows c pk.id levelQ (fun i _ => (C.RQ i).mulMont (pool i) (pk.v1.Q i))
  let w ← encryptBody ntt gs ⟨pool, st.upos + 1, st.gpos⟩ levelQ pt pk.id c h
  let h ← copyFlag c pk.id w.2
  let h ← truncAt c "0" levelQ h
  let h ← truncAt c pk.id levelQ h
  .ok (w.1, h)

/-- `mkckks.EncryptPtxt` (mkckks/encryptor.go:34-37): the scale of the receiver is set -/
def ckksEncryptPtxt (us gs : ℕ → Nega N ℤ) (st : Enc C) (pt : ℕ) (scale : ℚ) (pk : PKey C) (c : ℕ) (h : Heap N) : Go ((HCt × Enc C) × Heap N) := do
  let w ← encrypt us gs st pt pk c h
  .ok ((⟨c, scale⟩, w.1), w.2)

/-- `mkckks.EncryptMsgNew` (mkckks/encryptor.go:52-60) after the encoding into `ptxtPool` -/
def ckksEncryptNew (o : Sched String) (us gs : ℕ → Nega N ℤ) (st : Enc C) (pt : ℕ) (scale : ℚ) (pk : PKey C) (h : Heap N) : Go ((HCt × Enc C) × Heap N) := do
  let ids ← IDSet.new.add pk.id
  let w := newCt (o 207) ids (C.nQ - 1) h
  ckksEncryptPtxt us gs st pt scale pk w.1 w.2

/-- the encoder writes the rows of the encoded message into `ptxtPool` (mkbfv/encryptor.go:40, mkckks/encryptor.go:44); the encoding itself is lattigo's and
is given as the polynomial `P` -/
def encodeInto (pool : ℕ) (P : Poly C) (h : Heap N) : Heap N :=
  (h.rowsOp (min (h.len pool) P.len) (fun i _ _ => wr (P.rows i)) pool pool pool).setNTT pool P.isNTT

/-- `mkbfv.EncryptMsgNew` (mkbfv/encryptor.go:49-63) after the encoding into `ptxtPool` -/
def bfvEncryptNew (o : Sched String) (us gs : ℕ → Nega N ℤ) (st : Enc C) (pt : ℕ) (pk : PKey C) (h : Heap N) : Go ((ℕ × Enc C) × Heap N) := do
  let ids ← IDSet.new.add pk.id
  let w := newCt (o 207) ids (C.nQ - 1) h
  let r ← encrypt us gs st pt pk w.1 w.2
  .ok ((w.1, r.1), r.2)

/-- messages encrypted one after the other by one `mkbfv.Encryptor` (mkbfv/encryptor.go:39-63), all through its only `ptxtPool` -/
def bfvEncryptAll (o : ℕ → Sched String) (us gs : ℕ → Nega N ℤ) (pks : KeySet (PKey C)) (pool : ℕ) (st : Enc C) (h : Heap N)
    (ins : List (String × Poly C)) : Go ((List ℕ × Enc C) × Heap N) :=
  Go.loop (fun (w : (List ℕ × Enc C) × Heap N) (x : String × Poly C) => do
    let pk ← pks.get "cannot get public key: there is no public key with given id" x.1
    let c ← bfvEncryptNew (o w.1.1.length) us gs w.1.2 pool pk (encodeInto pool x.2 w.2)
    .ok ((w.1.1 ++ [c.1.1], c.1.2), c.2)) (([], st), h) ins

end Heap
end MKHE
