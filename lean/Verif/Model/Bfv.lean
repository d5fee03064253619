import Verif.Model.Ckks

set_option autoImplicit false

/-!
# Model of mkbfv/evaluator.go: addition, subtraction, rotation, conjugation

`mkbfv.NewCiphertext` (mkbfv/elements.go) allocates at the maximal level. The plain ring operations of lattigo (`Add`, `Sub`,
`Neg` without a level) loop over all primes of the ring, that is over the rows up to `nQ - 1`.
-/

namespace MKHE
variable {N : ℕ} [NeZero N] {C : Ctx N}

/-- `newCiphertextBinary` (evaluator.go:25-28) -/
def bfvNewBinary (o : Sched String) (op0 op1 : Ct C) : Go (Ct C) := do
  let ids0 ← IDSet.ofCiphertext (o 80) op0
  let ids1 ← IDSet.ofCiphertext (o 81) op1
  let ids ← IDSet.union (o 82) (o 83) ids0 ids1
  .ok (Ct.new (o 84) ids (C.nQ - 1))

/-- `evaluateInPlace` (evaluator.go:31-45); components of one operand only are copied with `Poly.Copy` -/
def bfvEvaluateInPlace (f : (i : ℕ) → Limb N (C.q i) → Limb N (C.q i) → Limb N (C.q i)) (o : Sched String) (ct0 ct1 out : Ct C) :
    Go (Ct C) := do
  let ids0 ← IDSet.ofCiphertext (o 110) ct0
  let ids1 ← IDSet.ofCiphertext (o 111) ct1
  evalCore f (C.nQ - 1) (fun dst src => .ok (dst.copy src)) (o 112) (o 113) ct0 ct1 ids0 ids1 out

/-- `AddNew` (evaluator.go:48-57) -/
def bfvAddNew (o : Sched String) (op0 op1 : Ct C) : Go (Ct C) := do
  let out ← bfvNewBinary o op0 op1
  bfvEvaluateInPlace (fun i => (C.RQ i).add) o op0 op1 out

/-- `SubNew` (evaluator.go:60-79) -/
def bfvSubNew (o : Sched String) (op0 op1 : Ct C) : Go (Ct C) := do
  let out ← bfvNewBinary o op0 op1
  let out ← bfvEvaluateInPlace (fun i => (C.RQ i).sub) o op0 op1 out
  negNew (C.nQ - 1) (o 114) (o 115) (o 116) op0 out

/-- `rotate` (evaluator.go:161-192); unlike the CKKS evaluator it copies the operand before looking at the CRS -/
def bfvRotate (crs : GoMap ℤ (Swk C)) (o : ℕ → Sched String) (S : Scratch C) (ct : Ct C) (rotidx : ℤ) (rks : RotKeySet (GalKey C))
    (out : Ct C) : Go (Ct C × Scratch C) := do
  let r := rotNorm N rotidx
  if r = 0 then
    let out ← out.copyFrom (o 0 61) ct
    .ok (out, S)
  else
    let tmp ← ct.copyNew (o 0 62)
    if (crs.lookup r).isSome then rotate crs (o 0) S tmp r rks out
    else rotLoop crs o rks 1 r.toNat tmp out S

/-- `RotateNew` (evaluator.go:154-158) -/
def bfvRotateNew (crs : GoMap ℤ (Swk C)) (o : ℕ → Sched String) (S : Scratch C) (ct : Ct C) (rotidx : ℤ) (rks : RotKeySet (GalKey C)) :
    Go (Ct C × Scratch C) := do
  let ids ← IDSet.ofCiphertext (o 0 63) ct
  bfvRotate crs o S ct rotidx rks (Ct.new (o 0 64) ids (C.nQ - 1))

/-- `ConjugateNew` and `conjugate` (evaluator.go:197-208) -/
def bfvConjugateNew (permLevel : ℕ) (crs : GoMap ℤ (Swk C)) (o : Sched String) (S : Scratch C) (ct : Ct C) (cks : KeySet (GalKey C)) :
    Go (Ct C × Scratch C) := do
  let ids ← IDSet.ofCiphertext (o 63) ct
  let tmp ← ct.copyNew (o 62)
  conjugate permLevel crs o S tmp cks (Ct.new (o 64) ids (C.nQ - 1))

end MKHE
