import Verif.Model.BfvMul

set_option autoImplicit false

/-!
# Parameter literals and the constructors of parameter sets
-/

namespace MKHE

/-- element `i` of a slice; beyond the end (where the program never reads) the first element -/
def nth (l : List ℕ) (i : ℕ) : ℕ := l.getD i (l.headD 0)

/-- `rlwe.ParametersLiteral`/`ckks.ParametersLiteral` as the repository uses them: `LogN`, the primes of Q and the special primes (mkrlwe_test.go:22-35,
mkckks_test.go:50-92, cnn_test.go:80-97) -/
structure Lit where
  logN : ℕ
  Q : List ℕ
  P : List ℕ

/-- `mkbfv.ParametersLiteral` (mkbfv/params.go:12-22), without the fields no code of the repository reads and without Sigma -/
structure BLit extends Lit where
  QMul : List ℕ
  T : ℕ

/-- what lattigo's `ring.NewRing(N, moduli)` accepts: distinct primes congruent to 1 modulo `2N` (contract; lattigo is not modelled) -/
def ringOk (logN : ℕ) (l : List ℕ) : Prop := l.Nodup ∧ ∀ x ∈ l, x.Prime ∧ x ≡ 1 [MOD 2 ^ (logN + 1)]

/-- `mkrlwe.NewParameters(params, gamma)` (mkrlwe/params.go:16-61), the numbers of it: the CRS is modelled by `newCrs`. `fm` is the float64 model, `rq`
and `rp` the row operations of lattigo. -/
def Lit.ctx (L : Lit) (gamma : ℕ) (fm : FloatModel) (rq : ∀ i, LimbOps (2 ^ L.logN) (nth L.Q i)) (rp : ∀ j, LimbOps (2 ^ L.logN) (nth L.P j)) :
    Ctx (2 ^ L.logN) where
  fm := fm
  nQ := L.Q.length
  nP := L.P.length
  gamma := gamma
  logN := L.logN
  q := nth L.Q
  p := nth L.P
  RQ := rq
  RP := rp

/-- the row operations modulo all primes of a BFV literal -/
structure BLit.Rows (L : BLit) where
  rq : ∀ i, LimbOps (2 ^ L.logN) (nth L.Q i)
  rm : ∀ i, LimbOps (2 ^ L.logN) (nth L.QMul i)
  rp : ∀ j, LimbOps (2 ^ L.logN) (nth L.P j)

/-- the parameters `mkbfv.NewParametersFromLiteral` builds: `gamma = 2` (mkbfv/params.go:77-78) -/
def BLit.bctx (L : BLit) (fm : FloatModel) (R : L.Rows) : BCtx (2 ^ L.logN) where
  C := L.toLit.ctx 2 fm R.rq R.rp
  m := nth L.QMul
  RM := R.rm
  t := L.T

open Classical in
/-- `mkbfv.NewParametersFromLiteral` (mkbfv/params.go:36-81): the length check (38-40), the rings modulo T (47-50) and QMul (54-57), the rlwe parameters
for QP (61-66) and for RP (68-75, R is Q followed by QMul, 43-45); each of the last four panics if lattigo rejects the moduli -/
noncomputable def newBfvParams (L : BLit) (fm : FloatModel) (R : L.Rows) : Go (BCtx (2 ^ L.logN)) := do
  if L.Q.length ≠ L.QMul.length then .error (.panic "cannot NewParametersFromLiteral: length of Q & QMul is not equal")
  if ¬ ringOk L.logN [L.T] then .error (.panic "cannot NewParametersFromLiteral: ring T cannot be generated")
  if ¬ ringOk L.logN L.QMul then .error (.panic "cannot NewParametersFromLiteral: ring QMul cannot be generated")
  if ¬ (ringOk L.logN L.Q ∧ ringOk L.logN L.P) then .error (.panic "cannot NewParametersFromLiteral: ring QP cannot be generated")
  if ¬ (ringOk L.logN (L.Q ++ L.QMul) ∧ ringOk L.logN L.P) then .error (.panic "err")
  .ok (L.bctx fm R)

end MKHE
