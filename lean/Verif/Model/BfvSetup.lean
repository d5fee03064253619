import Verif.Model.BfvKeyGen
import Verif.Model.Crypt

set_option autoImplicit false

/-!
# A client of mkbfv

The repository has no setup function outside its tests; this is `genTestParams` of mkbfv/mkbfv_test.go:193-233 with the lines that are commented out
there (rotation and conjugation keys, 204-205, 212-214, 219), followed by encryption of inputs (264-280) and decryption.
-/

namespace MKHE
variable {N : ℕ} [NeZero N] {B : BCtx N}

/-- the key generator and the key sets -/
structure BfvKeyStore (B : BCtx N) where
  kg : KG B.C
  sks : KeySet (SKey B.C)
  pks : KeySet (PKey B.C)
  rlk : BRlkMap B
  rks : RotKeySet (GalKey B.C)
  cks : KeySet (GalKey B.C)

/-- `RingR().NewPoly()` -/
def PolyR.zero : PolyR N := ⟨fun _ _ => 0, fun _ _ => 0⟩

/-- the keys of one party (mkbfv_test.go:208-220): `s` and `r` are what the ternary sampler returns for its two secret keys -/
def bfvSetupParty (crs : GoMap ℤ (Swk B.C)) (gs : ℕ → Nega N ℤ) (s r : String → Nega N ℤ) (w : BfvKeyStore B) (id : String) :
    Go (BfvKeyStore B) := do
  let kp ← genKeyPair crs gs w.kg (s id) id
  let l ← genBfvRelinearizationKey crs gs kp.2.2 kp.1 (genSecretKey (r id) id)
  let c ← genConjugationKey crs gs l.2 kp.1
  let t ← genDefaultRotationKeys crs gs c.2 kp.1 w.rks
  .ok ⟨t.2, w.sks.add SKey.id kp.1, w.pks.add PKey.id kp.2.1, w.rlk.add BRlk.id PolyR.zero Swk.new l.1, t.1, w.cks.add GalKey.id c.1⟩

/-- all parties in turn, into new key sets (mkbfv_test.go:201-221); the order of `ids` is that of the map iteration -/
def bfvSetup (crs : GoMap ℤ (Swk B.C)) (gs : ℕ → Nega N ℤ) (s r : String → Nega N ℤ) (kg : KG B.C) (ids : List String) : Go (BfvKeyStore B) :=
  Go.loop (bfvSetupParty crs gs s r) ⟨kg, KeySet.new, KeySet.new, BfvRlkSet.new PolyR.zero, RotKeySet.new, KeySet.new⟩ ids

/-- inputs encrypted one after the other by one encryptor (mkbfv_test.go:264-280, 386-388), each with the public key of its owner -/
def bfvEncryptAll (o : ℕ → Sched String) (us gs : ℕ → Nega N ℤ) (pks : KeySet (PKey B.C)) (st : Enc B.C) (ins : List (String × Poly B.C)) :
    Go (List (Ct B.C) × Enc B.C) :=
  Go.loop (fun (w : List (Ct B.C) × Enc B.C) (x : String × Poly B.C) => do
    let pk ← pks.get "cannot get public key: there is no public key with given id" x.1
    let c ← bfvEncryptNew (o w.1.length) us gs w.2 x.2 pk
    .ok (w.1 ++ [c.1], c.2)) ([], st) ins

end MKHE
