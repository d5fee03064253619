import Verif.Model.KeySwitch

set_option autoImplicit false

/-!
# Model of `ModDownQPtoQNTT` (mkrlwe/basis_extension.go:239-288)
-/

namespace MKHE
variable {N : ℕ} [NeZero N] {C : Ctx N}

/-- the loop over the coefficients of one row (basis_extension.go:269-284): `modDownParams[levelP][i]` is read once per row (258) -/
def modDownNTTRow (levelP : ℕ) (xQ : QRows C) (conv : Fin N → ℕ → ℕ) (i : ℕ) : Go (Fin N → ℕ) :=
  Go.andThen (Go.idx (modDownTable C.nQ C.q C.nP C.p) levelP) fun row =>
    Go.andThen (Go.idx row i) fun param =>
      let y := (C.RQ i).nttLazy (fun t => conv t i)
      .ok fun t => modDownStep (C.q i) (xQ i t).val (y t) param

/-- `ModDownQPtoQNTT(levelQ, levelP, p1Q, p1P, p2Q)` (basis_extension.go:239-288): the rows written to `p2Q`, and the words left in `p1P`, whose rows
up to `levelP` are overwritten with their lazy inverse transform (line 247). `pool` is the stale content of `polypoolQ`. A `levelP` that the ring P
does not have is an index out of range. -/
def modDownQPtoQNTT (levelQ levelP : ℕ) (xQ : QRows C) (xP : PRows C) (pool : Fin N → ℕ → ℕ) (out : QRows C) :
    Go (QRows C × (ℕ → Fin N → ℕ)) := do
  if C.nP ≤ levelP then .error .indexOutOfRange
  let a : ℕ → Fin N → ℕ := fun j => if j ≤ levelP then (C.RP j).inttLazy (xP j) else (xP j).raw
  let conv ← Go.fillFin (fun t => modUp C.fm C.nP C.p C.nQ C.q levelP levelQ (fun j => a j t) (pool t)) pool
  let w ← Go.fill (modDownNTTRow levelP xQ conv) (fun i => (out i).raw) (List.range (levelQ + 1))
  .ok (setQ levelQ (fun i t => toWord (C.q i) (w i t)) out, a)

end MKHE
