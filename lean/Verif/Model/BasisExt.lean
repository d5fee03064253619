import Verif.Base.Go
import Verif.Base.Float
import Verif.Model.Scalar
import Verif.Model.Params

set_option autoImplicit false

/-!
# Word-level model of mkrlwe/basis_extension.go

The code handles eight coefficients at a time through `unsafe` casts; the lanes do not interact, so the model
treats one coefficient at a time (`N` is a multiple of 8 in every lattigo ring). A slice of moduli
`Modulus[:n]` is a length and a function.
-/

namespace MKHE

/-- `modupParams` (basis_extension.go:24-32) -/
structure ModUpParams where
  qoverqiinvqi : List ℕ
  qoverqimodp : List (List ℕ)
  vtimesqmodp : List (List ℕ)

/-- the inner product loop (basis_extension.go:110-116 and 123-128), started at `s0`, modulo `r` -/
def hatLoop (n : ℕ) (Q : ℕ → ℕ) (i r s0 : ℕ) : ℕ :=
  forN n (fun s j => if j ≠ i then mred s (mformW (Q j) r) r (mredParams r) else s) s0

/-- the correction table row (basis_extension.go:140-149) for one modulus `p`: entries `-(v*Q) mod p`, `v = 0..n` -/
def vTable (n : ℕ) (Q : ℕ → ℕ) (p : ℕ) : List ℕ :=
  let QmodPi := forN n (fun s i => mred s (mformW (Q i) p) p (mredParams p)) 1
  let v := p - QmodPi
  forN n (fun t _ => t ++ [cred (t.getLastD 0 + v) p]) [0]

/-- `basisextenderparameters(Q, P)` (basis_extension.go:83-153) for slices `Q` of length `n`, `P` of length `m` -/
def basisExtParams (n : ℕ) (Q : ℕ → ℕ) (m : ℕ) (P : ℕ → ℕ) : ModUpParams where
  qoverqiinvqi := (List.range n).map fun i =>
    modExpMont (hatLoop n Q i (Q i) (mformW 1 (Q i))) (Q i - 2) (Q i)
  qoverqimodp := (List.range m).map fun j => (List.range n).map fun i =>
    mformW (hatLoop n Q i (P j) 1) (P j)
  vtimesqmodp := (List.range m).map fun j => vTable n Q (P j)

/-- one step of the 128-bit accumulation (basis_extension.go:590-592) on `(rlo, rhi)` -/
def accStep (y c : ℕ → ℕ) (r : ℕ × ℕ) (i : ℕ) : ℕ × ℕ :=
  let mhi := mulHi (y i) (c i)
  let mlo := mulLo (y i) (c i)
  let rlo := (r.1 + mlo) % W64
  let carry := (r.1 + mlo) / W64
  (rlo, (r.2 + (mhi + carry) % W64) % W64)

/-- `multSum` (basis_extension.go:582-646), one lane -/
def multSum (y : ℕ → ℕ) (v alpha pj qInv : ℕ) (vt qo : List ℕ) : Go ℕ :=
  if qo.length < alpha then .error .indexOutOfRange
  else
    let r := forN alpha (accStep y fun i => qo.getD i 0) (0, 0)
    let hhi := mulHi (r.1 * qInv % W64) pj
    Go.andThen (Go.idx vt v) fun t => .ok ((r.2 + (W64 - hhi) + pj + t) % W64)

/-- `reconstructRNS` (basis_extension.go:537-579), one lane: the words `y_i` and the correction index `v`. The
arrays `y` have 32 entries. -/
def reconstructRNS (fm : FloatModel) (n : ℕ) (a Q : ℕ → ℕ) (qb : List ℕ) : Go ((ℕ → ℕ) × ℕ) :=
  if 32 < n ∨ qb.length < n then .error .indexOutOfRange
  else
    let y := fun i => mred (a i) (qb.getD i 0) (Q i) (mredParams (Q i))
    .ok (y, FloatModel.toUint64 (fm.accum ((List.range n).map fun i => (y i, Q i))))

/-- `modUpExact` (basis_extension.go:337-357), one coefficient: `n` input rows modulo `Q`, `m` output rows modulo
`P`; `out` is the previous content of the output rows. -/
def modUpExact (fm : FloatModel) (n : ℕ) (Q : ℕ → ℕ) (m : ℕ) (P : ℕ → ℕ) (pr : ModUpParams)
    (a out : ℕ → ℕ) : Go (ℕ → ℕ) :=
  Go.andThen (reconstructRNS fm n a Q pr.qoverqiinvqi) fun (y, v) =>
    Go.fill (fun j => Go.andThen (Go.idx pr.vtimesqmodp j) fun vt => Go.andThen (Go.idx pr.qoverqimodp j) fun qo =>
      multSum y v n (P j) (mredParams (P j)) vt qo) out (List.range m)

/-- `ModUpQtoP(levelQ, levelP, ..)` (basis_extension.go:177-179), one coefficient, on an extender built by
`NewFastBasisExtender` (57-81) from rings with `nQ` and `nP` primes. `ModUpPtoQ` (184-186) is the same with the two
bases swapped. -/
def modUp (fm : FloatModel) (nQ : ℕ) (Q : ℕ → ℕ) (nP : ℕ) (P : ℕ → ℕ) (levelQ levelP : ℕ)
    (a out : ℕ → ℕ) : Go (ℕ → ℕ) :=
  Go.andThen (Go.idx ((List.range nQ).map fun i => basisExtParams (i + 1) Q nP P) levelQ) fun pr =>
    modUpExact fm (levelQ + 1) Q (levelP + 1) P pr a out

/-- `genModDownParams(ringQ, ringP)` (basis_extension.go:34-54): entry `[j][i]` -/
def modDownParam (P : ℕ → ℕ) (q : ℕ) : ℕ → ℕ
  | 0 => mformW (modExp (P 0) (q - 2) q) q
  | j + 1 => mred (mformW (modExp (P (j + 1)) (q - 2) q) q) (modDownParam P q j) q (mredParams q)

/-- the table as nested lists -/
def modDownTable (nQ : ℕ) (Q : ℕ → ℕ) (nP : ℕ) (P : ℕ → ℕ) : List (List ℕ) :=
  (List.range nP).map fun j => (List.range nQ).map fun i => modDownParam P (Q i) j

/-- the final loop of `ModDownQPtoQ` (basis_extension.go:203-229), one coefficient of one row -/
def modDownStep (q x y param : ℕ) : ℕ :=
  mred ((y + 2 * q + (W64 - x)) % W64) (q - param) q (mredParams q)

/-- `ModDownQPtoQ(levelQ, levelP, p1Q, p1P, p2Q)` (basis_extension.go:192-232), one coefficient. `pool` is the stale
content of `polypoolQ`, `out` that of `p2Q`. The swapped copy `ModDownQPtoP` is `modDownQPtoP`. -/
def modDownQPtoQ (fm : FloatModel) (nQ : ℕ) (Q : ℕ → ℕ) (nP : ℕ) (P : ℕ → ℕ) (levelQ levelP : ℕ)
    (xQ xP pool out : ℕ → ℕ) : Go (ℕ → ℕ) :=
  Go.andThen (modUp fm nP P nQ Q levelP levelQ xP pool) fun pool' =>
    Go.fill (fun i => Go.andThen (Go.idx (modDownTable nQ Q nP P) levelP) fun row =>
      Go.andThen (Go.idx row i) fun param => .ok (modDownStep (Q i) (xQ i) (pool' i) param))
      out (List.range (levelQ + 1))

/-- `ModDownQPtoP(levelQ, levelP, p1Q, p1P, p2P)` (basis_extension.go:294-334), one coefficient. Line 312 reads
`modDownParams[levelP][i]` from the table `genModDownParams(ringP, ringQ)`, whose first index is a Q index. -/
def modDownQPtoP (fm : FloatModel) (nQ : ℕ) (Q : ℕ → ℕ) (nP : ℕ) (P : ℕ → ℕ) (levelQ levelP : ℕ)
    (xQ xP pool out : ℕ → ℕ) : Go (ℕ → ℕ) :=
  Go.andThen (modUp fm nQ Q nP P levelQ levelP xQ pool) fun pool' =>
    Go.fill (fun i => Go.andThen (Go.idx (modDownTable nP P nQ Q) levelP) fun row =>
      Go.andThen (Go.idx row i) fun param => .ok (modDownStep (P i) (xP i) (pool' i) param))
      out (List.range (levelP + 1))

/-- the target moduli of the decomposer parameters: all of Q, then the P primes (basis_extension.go:410-416) -/
def concatMods (nQ : ℕ) (Q P : ℕ → ℕ) : ℕ → ℕ := fun k => if k < nQ then Q k else P (k - nQ)

/-- `NewDecomposer` (basis_extension.go:368-424): `modUpParams[lvlP][i][j]`, for `nQ`, `nP` primes -/
def decomposerParams (fm : FloatModel) (nQ : ℕ) (Q : ℕ → ℕ) (nP : ℕ) (P : ℕ → ℕ) (gamma : ℕ) :
    List (List (List ModUpParams)) :=
  (List.range (nP - 1)).map fun lvlP =>
    let lenP := lvlP + 2
    let alpha := FloatModel.ceilInt (fm.div (fm.ofNat lenP) (fm.ofNat gamma))
    let beta := FloatModel.ceilInt (fm.div (fm.ofNat nQ) (fm.ofNat alpha))
    (List.range beta).map fun i =>
      let xalpha := if nQ % alpha ≠ 0 ∧ i = beta - 1 then nQ % alpha else alpha
      (List.range (xalpha - 1)).map fun j =>
        basisExtParams (j + 2) (fun k => Q (i * alpha + k)) (nQ + lenP) (concatMods nQ Q P)

/-- `DecomposeAndSplit(levelQ, levelP, alpha, beta, gamma, p0Q, p1Q, p1P)` (basis_extension.go:428-535), one
coefficient: `a` are the words of `p0Q`, `outQ`/`outP` the previous words of `p1Q`/`p1P`. -/
def decomposeAndSplit (fm : FloatModel) (nQ : ℕ) (Q : ℕ → ℕ) (nP : ℕ) (P : ℕ → ℕ)
    (levelQ levelP alpha beta gamma : ℕ) (a outQ outP : ℕ → ℕ) : Go ((ℕ → ℕ) × (ℕ → ℕ)) :=
  let start := beta * alpha
  -- decompLvl (435-440) is an int that can be -1; `cnt = decompLvl + 2` is the number of primes of the block
  let cnt := if levelQ + 1 > alpha * (beta + 1) then alpha else levelQ % alpha + 1
  if cnt = 1 then
    -- 443-451: plain copies
    .ok (fun j => if j < levelQ + 1 then a start else outQ j, fun j => if j < levelP + 1 then a start else outP j)
  else
    Go.andThen (Go.idx (decomposerParams fm nQ Q nP P gamma) (gamma * alpha - 2)) fun pl =>
    Go.andThen (Go.idx pl beta) fun pb =>
    Go.andThen (Go.idx pb (cnt - 2)) fun pr =>
    -- 476-517: copy the block's words, reconstruct
    let outQ1 := fun j => if start ≤ j ∧ j < start + cnt then a j else outQ j
    Go.andThen (reconstructRNS fm cnt (fun i => a (start + i)) (fun i => Q (start + i)) pr.qoverqiinvqi) fun (y, v) =>
    let ms := fun (u r : ℕ) => Go.andThen (Go.idx pr.vtimesqmodp u) fun vt =>
      Go.andThen (Go.idx pr.qoverqimodp u) fun qo => multSum y v cnt r (mredParams r) vt qo
    -- 520-522: rows below the block; 525-527: rows from the start of the block on
    Go.andThen (Go.fill (fun j => ms j (Q j)) outQ1 (List.range start)) fun outQ2 =>
    Go.andThen (Go.fill (fun j => ms j (Q j)) outQ2 ((List.range (levelQ + 1)).filter fun j => alpha * beta ≤ j)) fun outQ3 =>
    -- 530-532: special primes
    Go.andThen (Go.fill (fun j => ms (nQ + j) (P j)) outP (List.range (levelP + 1))) fun outP1 =>
    .ok (outQ3, outP1)

end MKHE
