import Verif.Model.KeyGen
import Verif.Model.KeySets
import Verif.Model.Crypt

set_option autoImplicit false

/-!
# A client of mkckks

The repository has no setup function outside its tests; this is `genTestParams` of mkckks/mkckks_test.go:135-179 with the lines that are commented out
there (conjugation and rotation keys, 155, 157, 162), followed by encryption of inputs (181-199, 211-213).
-/

namespace MKHE
variable {N : ℕ} [NeZero N] {C : Ctx N}

/-- the key generator and the key sets (mkckks_test.go:141-147) -/
structure CkksKeyStore (C : Ctx N) where
  kg : KG C
  sks : KeySet (SKey C)
  pks : KeySet (PKey C)
  rlk : RlkMap C
  rks : RotKeySet (GalKey C)
  cks : KeySet (GalKey C)

/-- the keys of one party (mkckks_test.go:151-164): `s` and `r` are what the ternary sampler returns for its two secret keys -/
def ckksSetupParty (crs : GoMap ℤ (Swk C)) (gs : ℕ → Nega N ℤ) (s r : String → Nega N ℤ) (w : CkksKeyStore C) (id : String) :
    Go (CkksKeyStore C) := do
  let kp ← genKeyPair crs gs w.kg (s id) id
  let l ← genRelinearizationKey crs gs kp.2.2 kp.1 (genSecretKey (r id) id)
  let c ← genConjugationKey crs gs l.2 kp.1
  let t ← genDefaultRotationKeys crs gs c.2 kp.1 w.rks
  .ok ⟨t.2, w.sks.add SKey.id kp.1, w.pks.add PKey.id kp.2.1, w.rlk.add Rlk.id Swk.new l.1, t.1, w.cks.add GalKey.id c.1⟩

/-- all parties in turn, into new key sets (mkckks_test.go:143-164); the order of `ids` is that of the map iteration -/
def ckksSetup (crs : GoMap ℤ (Swk C)) (gs : ℕ → Nega N ℤ) (s r : String → Nega N ℤ) (kg : KG C) (ids : List String) : Go (CkksKeyStore C) :=
  Go.loop (ckksSetupParty crs gs s r) ⟨kg, KeySet.new, KeySet.new, RlkSet.new, RotKeySet.new, KeySet.new⟩ ids

/-- inputs encrypted one after the other by one encryptor (mkckks_test.go:181-199, 211-213), each with the public key of its owner; the polynomial is what
lattigo's encoder makes of the message (not modelled), at the default scale (mkckks/encryptor.go:52-60) -/
def ckksEncryptAll (o : ℕ → Sched String) (us gs : ℕ → Nega N ℤ) (scale : ℚ) (pks : KeySet (PKey C)) (st : Enc C) (ins : List (String × Poly C)) :
    Go (List (CCt C) × Enc C) :=
  Go.loop (fun (w : List (CCt C) × Enc C) (x : String × Poly C) => do
    let pk ← pks.get "cannot get public key: there is no public key with given id" x.1
    let c ← ckksEncryptNew (o w.1.length) us gs w.2 x.2 scale pk
    .ok (w.1 ++ [c.1], c.2)) ([], st) ins

end MKHE
