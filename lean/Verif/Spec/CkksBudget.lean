import Verif.Props.CkksProg

set_option autoImplicit false

/-!
# Programs on complex vectors, and an error estimator for CKKS programs in natural numbers

A client can run the estimator before encrypting anything: it needs only bounds of the inputs and the program. `Verif/Props/CkksBudget.lean` proves that its answer is safe.
-/

namespace MKHE.C67

/-- what a call does to the messages, vectors of slots; `pt p` is the message of plaintext operand number `p`. Rotation by `r` moves slot `j + r` to slot `j`. -/
noncomputable def plainStep (pt : ℕ → ℤ → ℂ) (z : List (ℤ → ℂ)) : C59.Instr → List (ℤ → ℂ)
  | .add i j => z ++ [fun x => z.getD i 0 x + z.getD j 0 x]
  | .sub i j => z ++ [fun x => z.getD i 0 x - z.getD j 0 x]
  | .mul i j | .mulH i j _ _ => z ++ [fun x => z.getD i 0 x * z.getD j 0 x]
  | .rot i r | .rotH i r _ => z ++ [fun x => z.getD i 0 (x + r)]
  | .conj i => z ++ [fun x => (starRingEnd ℂ) (z.getD i 0 x)]
  | .hoist _ => z
  | .mulPt i p => z ++ [fun x => pt p x * z.getD i 0 x]
  | .drop i _ | .rescale i _ => z ++ [z.getD i 0]
  | .const i k => z ++ [fun x => (C59.constVal k : ℝ) * z.getD i 0 x]

/-- the program on the messages -/
noncomputable def plain (pt : ℕ → ℤ → ℂ) (z : List (ℤ → ℂ)) (p : List C59.Instr) : List (ℤ → ℂ) := p.foldl (plainStep pt) z

/-- the numbers of a parameter set: ring degree, default scale `M`, primes of Q, the relative distance of the scale from a prime of level 1 and above
(unit `2^-40`), the least prime, the error of a product (`K`) and of a rotation or conjugation (`R`) in a slot -/
structure Pars where
  N : ℕ
  M : ℕ
  q : List ℕ
  qlo : ℕ
  rho : ℕ
  K : ℕ
  R : ℕ

/-- what the estimator knows of a ciphertext: its level, the relative distance of its scale from the default scale (unit `2^-40`), a bound of the slots of its
value (unit `2^-20`), and a bound of the error in a slot of the unscaled plaintext -/
structure Est where
  level : ℕ
  eta : ℕ
  v : ℕ
  b : ℕ
  deriving DecidableEq

/-- the scales are close enough to the default scale (`2^-11`) -/
def Est.near (e : Est) : Bool := decide (e.eta ≤ 2 ^ 29)

/-- sum or difference -/
def Est.add (P : Pars) (a b : Est) : Option Est :=
  if a.near && b.near then
    some ⟨min a.level b.level, max a.eta b.eta, a.v + b.v, a.b + b.b + ((a.eta + b.eta) * P.M * (a.v + b.v) / 2 ^ 60 + 1)⟩
  else none

/-- product -/
def Est.mul (P : Pars) (a b : Est) : Option Est :=
  if a.near && b.near && decide (1 ≤ min a.level b.level) then
    some ⟨min a.level b.level - 1, a.eta + b.eta + (a.eta * b.eta / 2 ^ 40 + 1) + P.rho, a.v * b.v / 2 ^ 20 + 1,
      (a.b * b.b / P.qlo + 1) + (1025 * (a.b * b.v + a.v * b.b) / 2 ^ 30 + 1) + P.K + (16 * (a.v * b.v) / 2 ^ 40 + 1)⟩
  else none

/-- rotation or conjugation -/
def Est.rot (P : Pars) (a : Est) : Est := { a with b := a.b + P.R }

/-- the ciphertexts, and the number of its ciphertext for each hoisted form -/
structure EstSt where
  cts : List Est
  hs : List ℕ

def EstSt.push (A : EstSt) (e : Est) : EstSt := ⟨A.cts ++ [e], A.hs⟩

/-- one call; `none`: the estimator gives up. Plaintext operand number `p` has slots below `(pv p).1 * 2^-20`, encoded at the default scale with an error of at most
`(pv p).2`. Calls of `MultByConst` and `Rescale` are not estimated. -/
def EstSt.step (P : Pars) (pv : ℕ → ℕ × ℕ) (A : EstSt) : C59.Instr → Option EstSt
  | .add i j | .sub i j => do
    let a ← A.cts[i]?
    let b ← A.cts[j]?
    let e ← a.add P b
    some (A.push e)
  | .mul i j => do
    let a ← A.cts[i]?
    let b ← A.cts[j]?
    let e ← a.mul P b
    some (A.push e)
  | .rot i _ => do
    let a ← A.cts[i]?
    some (A.push (a.rot P))
  | .conj i => do
    let a ← A.cts[i]?
    some (A.push (a.rot P))
  | .hoist i => do
    let _ ← A.cts[i]?
    some ⟨A.cts, A.hs ++ [i]⟩
  | .mulH i j h k => do
    let a ← A.cts[i]?
    let b ← A.cts[j]?
    let e ← a.mul P b
    if A.hs[h]? = some i ∧ A.hs[k]? = some j then some (A.push e) else none
  | .rotH i r h => do
    let a ← A.cts[i]?
    if A.hs[h]? = some i ∧ (C35.amount P.N r = 0 ∨ C35.amount P.N r = 2 ^ Nat.log2 (C35.amount P.N r)) then some (A.push (a.rot P)) else none
  | .mulPt i p => do
    let a ← A.cts[i]?
    let e ← Est.mul P a ⟨a.level, 0, (pv p).1, (pv p).2⟩
    some (A.push e)
  | .drop i k => do
    let a ← A.cts[i]?
    if k ≤ a.level then some (A.push { a with level := a.level - k }) else none
  | .const _ _ => none
  | .rescale _ _ => none

def EstSt.steps (P : Pars) (pv : ℕ → ℕ × ℕ) : EstSt → List C59.Instr → Option EstSt
  | A, [] => some A
  | A, c :: p => (A.step P pv c).bind fun A => A.steps P pv p

/-- the value and its error are below half the modulus of the level -/
def Est.fits (P : Pars) (e : Est) : Bool :=
  decide (2 * (1025 * P.M * e.v + 2 ^ 30 * e.b) < 2 ^ 30 * (P.q.take (e.level + 1)).prod)

/-- the estimate for ciphertext number `i` after the program, if it is safe to decrypt -/
def estimate (P : Pars) (pv : ℕ → ℕ × ℕ) (A : EstSt) (p : List C59.Instr) (i : ℕ) : Option Est := do
  let A ← A.steps P pv p
  let e ← A.cts[i]?
  if e.near && e.fits P then some e else none

end MKHE.C67
