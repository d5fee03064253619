import Verif.Model.Cnn
import Verif.Model.CnnPack
import Verif.Model.Setup
import Verif.Model.Crypt
import Verif.Model.Params

set_option autoImplicit false

/-!
# The client of the encrypted neural network (cnn/cnn_test.go:100-232, 353-545)

Key setup, encryption of the inputs, evaluation and decryption. What the encoder makes of the packed messages (lattigo) is a parameter: `Encoded`.
-/

namespace MKHE.Cnn
variable {N : ℕ} [NeZero N] {C : Ctx N}

/-- the amounts `AddCRS` is called for (cnn_test.go:185-189) -/
def extraRots : List ℤ := [14, 15, 384, 512, 640, 768, 896, 8191, 8190, 8188, 8184]

/-- `for _, rot := range rots { params.AddCRS(rot) }` on new parameters (cnn_test.go:187-189) -/
def clientCrs {A : Type*} (rand : ℕ → A) (mform : A → A) (fm : FloatModel) (d : Dims) : CrsState A :=
  extraRots.foldl (addCrs rand mform fm d) (newCrs rand mform fm d)

/-- the amounts rotation keys are generated for (cnn_test.go:185, 198-200) -/
def clientRots (logN : ℕ) : List ℤ := extraRots ++ (List.range (logN - 1)).map fun i => (2 : ℤ) ^ i

/-- the encodings of the packed messages -/
structure Encoded (C : Ctx N) where
  img : Poly C
  kers : List (Poly C)
  mats : List (Poly C)
  fc2 : Poly C
  b1 : Poly C
  b2 : Poly C
  mask : Poly C

/-- the ciphertexts of cnn_test.go:121-126 -/
structure Inputs (C : Ctx N) where
  img : CCt C
  kers : List (CCt C)
  mats : List (CCt C)
  fc2 : CCt C
  b1 : CCt C
  b2 : CCt C

/-- `for i := … { ctOut[i] = EncryptMsgNew(msg, pk) }` (cnn_test.go:432-436, 477-481) -/
def encryptList (o : ℕ → Sched String) (us gs : ℕ → Nega N ℤ) (scale : ℚ) (pk : PKey C) (st : Enc C) (pts : List (Poly C)) :
    Go (List (CCt C) × Enc C) :=
  Go.loop (fun (w : List (CCt C) × Enc C) (pt : Poly C) => do
    let c ← ckksEncryptNew (o w.1.length) us gs w.2 pt scale pk
    .ok (w.1 ++ [c.1], c.2)) ([], st) pts

/-- encryption of the inputs (cnn_test.go:121-126): the image under the data owner's public key, the model under the model owner's; `us` and `gs` are the
streams of the encryptor's samplers, `st` its memory -/
def encryptInputs (o : ℕ → ℕ → Sched String) (us gs : ℕ → Nega N ℤ) (st : Enc C) (scale : ℚ) (pks : KeySet (PKey C)) (x : Encoded C) :
    Go (Inputs C × Enc C) := do
  let pk ← pks.get "cannot get public key: there is no public key with given id" "dataOwner"
  let img ← ckksEncryptNew (o 0 0) us gs st x.img scale pk
  let pk ← pks.get "cannot get public key: there is no public key with given id" "modelOwner"
  let kers ← encryptList (o 1) us gs scale pk img.2 x.kers
  let mats ← encryptList (o 2) us gs scale pk kers.2 x.mats
  let fc2 ← ckksEncryptNew (o 3 0) us gs mats.2 x.fc2 scale pk
  let b1 ← ckksEncryptNew (o 4 0) us gs fc2.2 x.b1 scale pk
  let b2 ← ckksEncryptNew (o 5 0) us gs b1.2 x.b2 scale pk
  .ok (⟨img.1, kers.1, mats.1, fc2.1, b1.1, b2.1⟩, b2.2)

/-- `TestCNN` (cnn_test.go:100-165, with `genTestParams` 180-232) from the key setup to what the decryptor hands to the decoder. `gs`, `kg`, `s`, `r`: the key
generator; `us`, `es`, `st`: the encryptor; `E`: the evaluator's memory; `ids`: the order in which the map of parties is iterated; the other arguments
are iteration orders. -/
noncomputable def testCNN (crs : GoMap ℤ (Swk C)) (gs : ℕ → Nega N ℤ) (s r : String → Nega N ℤ) (kg : KG C) (ids : List String) (us es : ℕ → Nega N ℤ)
    (st : Enc C) (scale : ℚ) (x : Encoded C) (E : Eval C) (mredPsi : ℕ → ℕ → ℕ) (oe : ℕ → ℕ → Sched String) (o : ℕ → ℕ → Ord) (od : Sched String) :
    Go (Poly C × ℚ) := do
  let w ← setup crs gs s r (clientRots C.logN) kg ids
  let i ← encryptInputs oe us es st scale w.pks x
  let f ← forward ⟨scale, crs, w.rks, mredPsi⟩ o w.rlk E i.1.img i.1.kers i.1.mats i.1.fc2 i.1.b1 i.1.b2 (x.mask, scale)
  let d ← ckksDecrypt od ckksNewDecryptor f.1 w.sks
  .ok d.1

end MKHE.Cnn
