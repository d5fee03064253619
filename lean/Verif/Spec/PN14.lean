import Verif.Spec.Phase
import Verif.Base.LimbInst
import Verif.Base.Primes
import Mathlib.Tactic.IntervalCases

set_option autoImplicit false

/-!
# The parameter set PN14QP433 of the neural network (cnn/cnn_test.go:80-97)

`LogN = 14`, seven primes of Q, two special primes, default scale `2^47`; `gamma = 2` (mkckks/params.go). It is valid, and the contract
for lattigo's row operations can be met.
-/

namespace MKHE.PN14
open Finset Nega

instance : NeZero (16384 : ℕ) := ⟨by norm_num⟩

/-- the primes of Q (cnn_test.go:83-89) -/
def pq : ℕ → ℕ
  | 0 => 0x2000000002b0001
  | 1 => 0x800000020001
  | 2 => 0x800000280001
  | 3 => 0x800000520001
  | 4 => 0x800000770001
  | 5 => 0x800000aa0001
  | _ => 0x800000ad0001

/-- the special primes (cnn_test.go:90-93) -/
def pp : ℕ → ℕ
  | 0 => 0x800000df0001
  | _ => 0x800000f80001

/-- row operations for a prime with a primitive `2^15`-th root of unity -/
noncomputable def ops (q : ℕ) (hq : q.Prime) (hodd : Odd q) (h61 : q < 2 ^ 61) (z : ZMod q) (hz : z ^ 16384 = -1) : LimbOps 16384 q :=
  haveI : Fact q.Prime := ⟨hq⟩
  limbInst hodd h61 z (by
    have hne : (1 : ZMod q) ≠ -1 := by
      intro h
      have h2 : ((2 : ℕ) : ZMod q) = 0 := by
        have : (1 : ZMod q) + 1 = 0 := by nth_rewrite 2 [h]; ring
        push_cast; rw [← this]; ring
      have h3 := (ZMod.natCast_eq_zero_iff _ _).mp h2
      have h4 := Nat.le_of_dvd (by norm_num) h3
      have := hq.two_le
      have : q = 2 := by omega
      subst this; exact absurd hodd (by decide)
    have h32 : z ^ 2 ^ (14 + 1) = 1 := by
      rw [show 2 ^ (14 + 1) = 16384 * 2 by norm_num, pow_mul, hz]; ring
    have : orderOf z = 2 ^ (14 + 1) := orderOf_eq_prime_pow (by
      rw [show 2 ^ 14 = 16384 by norm_num, hz]; exact fun h => hne h.symm) h32
    have h5 := IsPrimitiveRoot.orderOf z
    rw [this] at h5
    exact h5)

/-- the operations modulo the primes of Q -/
noncomputable def RQ : ∀ i, LimbOps 16384 (pq i)
  | 0 => ops 144115188078673921 prime_q0 (by decide) (by norm_num) _ root_q0
  | 1 => ops 140737488486401 prime_q1 (by decide) (by norm_num) _ root_q1
  | 2 => ops 140737490976769 prime_q2 (by decide) (by norm_num) _ root_q2
  | 3 => ops 140737493729281 prime_q3 (by decide) (by norm_num) _ root_q3
  | 4 => ops 140737496154113 prime_q4 (by decide) (by norm_num) _ root_q4
  | 5 => ops 140737499496449 prime_q5 (by decide) (by norm_num) _ root_q5
  | _ + 6 => ops 140737499693057 prime_q6 (by decide) (by norm_num) _ root_q6

/-- the operations modulo the special primes -/
noncomputable def RP : ∀ j, LimbOps 16384 (pp j)
  | 0 => ops 140737502969857 prime_p0 (by decide) (by norm_num) _ root_p0
  | _ + 1 => ops 140737504608257 prime_p1 (by decide) (by norm_num) _ root_p1

/-- the parameters, for any float64 model and any implementation of the row operations -/
def ctx (fm : FloatModel) (rq : ∀ i, LimbOps 16384 (pq i)) (rp : ∀ j, LimbOps 16384 (pp j)) : Ctx 16384 where
  fm := fm
  nQ := 7
  nP := 2
  gamma := 2
  logN := 14
  q := pq
  p := pp
  RQ := rq
  RP := rp

variable (fm : FloatModel) (rq : ∀ i, LimbOps 16384 (pq i)) (rp : ∀ j, LimbOps 16384 (pp j))

theorem pq_lt (i : ℕ) : pq i ≤ 0x2000000002b0001 := by unfold pq; split <;> norm_num

/-- **PN14QP433 is a valid parameter set** -/
theorem valid : (ctx fm rq rp).Valid where
  pair :=
    { primeQ := fun i hi => by
        change i < 7 at hi
        interval_cases i
        exacts [prime_q0, prime_q1, prime_q2, prime_q3, prime_q4, prime_q5, prime_q6]
      oddQ := fun i hi => by change i < 7 at hi; interval_cases i <;> simp only [ctx, pq] <;> decide
      lt61Q := fun i hi => by change i < 7 at hi; interval_cases i <;> norm_num [ctx, pq]
      primeP := fun i hi => by
        change i < 2 at hi
        interval_cases i
        exacts [prime_p0, prime_p1]
      oddP := fun i hi => by change i < 2 at hi; interval_cases i <;> simp only [ctx, pp] <;> decide
      lt61P := fun i hi => by change i < 2 at hi; interval_cases i <;> norm_num [ctx, pp]
      distinctQ := fun i hi k hk h => by
        change i < 7 at hi; change k < 7 at hk; interval_cases i <;> interval_cases k <;> simp [ctx, pq] at h ⊢
      distinctP := fun i hi k hk h => by
        change i < 2 at hi; change k < 2 at hk; interval_cases i <;> interval_cases k <;> simp [ctx, pp] at h ⊢
      disjoint := fun i hi k hk => by
        change i < 7 at hi; change k < 2 at hk; interval_cases i <;> interval_cases k <;> simp [ctx, pq, pp] }
  g1 := by show 1 ≤ 2; norm_num
  gle := by show 2 ≤ 2; norm_num
  gdiv := .inl (by show 2 ∣ 2; exact dvd_rfl)
  q1 := by show 1 ≤ 7; norm_num
  nQ53 := by show 7 < _; norm_num
  le32 := by show 2 ≤ 32; norm_num
  sumP := by
    show ∑ j ∈ range 2, pp j ≤ W64
    simp [sum_range_succ, pp, W64]
  sumQ := fun s n hn _ => by
    change n ≤ 2 / 2 at hn
    calc ∑ k ∈ range n, pq (s + k) ≤ ∑ _k ∈ range n, 0x2000000002b0001 := sum_le_sum fun k _ => pq_lt _
      _ = n * 0x2000000002b0001 := by simp
      _ ≤ W64 := by norm_num [W64]; omega
  hN := rfl
  log1 := by show 1 ≤ 14; norm_num
  log31 := by show 14 ≤ 31; norm_num

theorem beta_eq {l : ℕ} (hl : l < 7) : (ctx fm rq rp).beta l = l + 1 := by
  rw [(valid fm rq rp).beta_eq (by show l < 7; exact hl)]; simp [Ctx.alpha, Ctx.dims, Dims.alpha, ctx]

end MKHE.PN14
