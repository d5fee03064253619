import Verif.Model.Setup
import Verif.Model.Crypt
import Verif.Model.BfvMul
import Verif.Lemmas.Keep
import Verif.Lemmas.BfvMul

set_option autoImplicit false

/-!
# The objects the constructors allocate

`NewKeySwitcher`, `NewEvaluator`, `NewKeyGenerator` and `NewEncryptor` of mkrlwe, mkckks and mkbfv: the scratch memories of the model's state, all zero
(`ring.NewPoly`). Samplers, encoders and the tables of the basis converters are not state of the model.
-/

namespace MKHE
open Finset

variable {N : ℕ} [NeZero N]

section Ckks
variable (C : Ctx N)

/-- `mkrlwe.NewKeySwitcher(params)` (mkrlwe/keyswitch.go:33-47), with the pools of the embedded `rlwe.KeySwitcher` -/
def newKeySwitcher : Scratch C where
  inv := fun _ => Limb.zero
  pool0 := PolyQP.zero
  pool1 := PolyQP.zero
  conv := fun _ _ => 0
  q0 := fun _ => Limb.zero
  q1 := fun _ => Limb.zero
  q2 := fun _ => Limb.zero
  swk1 := Swk.new
  swk2 := Swk.new
  swk3 := Swk.new

/-- `mkckks.NewEvaluator(params)` (mkckks/evaluator.go:22-37) for parameters with special primes (`PCount() != 0`; otherwise the key switcher is nil) -/
def newEvaluator (o : Order String) : Eval C where
  ksw := newKeySwitcher C
  pool := Ct.new o IDSet.new (C.nQ - 1)
  polyQ := fun _ => Limb.zero

/-- `mkrlwe.NewKeyGenerator(params)` (mkrlwe/keygen.go:24-41); the sampler stands at the beginning of its output -/
def newKeyGenerator : KG C := ⟨0, fun _ => Limb.zero, PolyQP.zero⟩

/-- `mkrlwe.NewEncryptor(params)` (mkrlwe/encryptor.go:122-124, which is `newEncryptorBase`, mkrlwe/encryptor.go:27-52) -/
def newEncryptor : Enc C := ⟨fun _ => Limb.zero, 0, 0⟩

end Ckks

/-- `mkbfv.NewKeySwitcher(params)` (mkbfv/keyswitch.go:30-55), which is all the state of `mkbfv.NewEvaluator` (mkbfv/evaluator.go:16-23) -/
def newBfvKeySwitcher (B : BCtx N) : BScratch B where
  base := newKeySwitcher B.C
  rp := fun _ _ => (fun _ => 0, fun _ => 0)
  conv := fun _ _ => 0
  s1 := Swk.new
  s2 := Swk.new
  s3 := Swk.new
  s4 := Swk.new
  s5 := Swk.new
  s6 := Swk.new
  q1 := fun _ => Limb.zero
  q2 := fun _ => Limb.zero
  r1 := ⟨fun _ => Limb.zero, fun _ => Limb.zero⟩
  r2 := ⟨fun _ => Limb.zero, fun _ => Limb.zero⟩
  r3 := ⟨fun _ => Limb.zero, fun _ => Limb.zero⟩
  r4 := ⟨fun _ => Limb.zero, fun _ => Limb.zero⟩

/-! ## they are ready -/

/-- **a new evaluator is ready**: every theorem about operations of an evaluator applies to it -/
theorem newEvaluator_ready (C : Ctx N) (o : Order String) : (newEvaluator C o).Ready :=
  ⟨⟨le_rfl, le_rfl, le_rfl⟩, Ct.new_atLevel o IDSet.new _⟩

theorem newBfvKeySwitcher_alloc (B : BCtx N) : (newBfvKeySwitcher B).Alloc := ⟨le_rfl, le_rfl, le_rfl, le_rfl, le_rfl, le_rfl⟩

end MKHE
