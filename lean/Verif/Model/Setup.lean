import Verif.Model.KeyGen
import Verif.Model.KeySets

set_option autoImplicit false

/-!
# Key setup of a client

The repository has no setup function outside its tests; this is the one of cnn/cnn_test.go:174-230 (`genTestParams`), which the tests of
mkckks share (mkckks_test.go:135-164).
-/

namespace MKHE
variable {N : ℕ} [NeZero N] {C : Ctx N}

/-- the key generator and the key sets -/
structure KeyStore (C : Ctx N) where
  kg : KG C
  sks : KeySet (SKey C)
  pks : KeySet (PKey C)
  rlk : RlkMap C
  rks : RotKeySet (GalKey C)

/-- `for _, rot := range rots { rtkSet.AddRotationKey(kgen.GenRotationKey(rot, sk)) }` (cnn_test.go:209-212) -/
def rotKeyStep (crs : GoMap ℤ (Swk C)) (gs : ℕ → Nega N ℤ) (sk : SKey C) (w : RotKeySet (GalKey C) × KG C) (rot : ℤ) :
    Go (RotKeySet (GalKey C) × KG C) := do
  let k ← genRotationKey crs gs w.2 rot sk
  .ok (w.1.add GalKey.id GalKey.rotIdx k.1, k.2)

/-- the keys of one party (cnn_test.go:203-217): `s` and `r` are what the ternary sampler returns for its two secret keys -/
def setupParty (crs : GoMap ℤ (Swk C)) (gs : ℕ → Nega N ℤ) (s r : String → Nega N ℤ) (rots : List ℤ) (w : KeyStore C) (id : String) :
    Go (KeyStore C) := do
  let kp ← genKeyPair crs gs w.kg (s id) id
  let l ← genRelinearizationKey crs gs kp.2.2 kp.1 (genSecretKey (r id) id)
  let t ← Go.loop (rotKeyStep crs gs kp.1) (w.rks, l.2) rots
  .ok ⟨t.2, w.sks.add SKey.id kp.1, w.pks.add PKey.id kp.2.1, w.rlk.add Rlk.id Swk.new l.1, t.1⟩

/-- all parties in turn, into new key sets (cnn_test.go:191-217); the order of `ids` is that of the map iteration -/
def setup (crs : GoMap ℤ (Swk C)) (gs : ℕ → Nega N ℤ) (s r : String → Nega N ℤ) (rots : List ℤ) (kg : KG C) (ids : List String) :
    Go (KeyStore C) :=
  Go.loop (setupParty crs gs s r rots) ⟨kg, KeySet.new, KeySet.new, RlkSet.new, RotKeySet.new⟩ ids

end MKHE
