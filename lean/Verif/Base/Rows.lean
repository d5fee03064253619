import Verif.Base.LimbInst
import Verif.Base.Primes

set_option autoImplicit false

/-!
# Row operations exist for every prime with a root of unity
-/

namespace MKHE.PN14

/-- row operations for a prime `q` and degree `2^k`, from an element whose `2^l`-th power is `-1`, `k ≤ l` -/
theorem rows_of_root {q z l k : ℕ} (hq : q.Prime) (hodd : Odd q) (h61 : q < 2 ^ 61) (hl : l < 17) (hk : k ≤ l)
    (h : powMod q 17 z (2 ^ l) = q - 1) : Nonempty (LimbOps (2 ^ k) q) := by
  haveI : Fact q.Prime := ⟨hq⟩
  have hz : (z : ZMod q) ^ 2 ^ l = -1 := by
    rw [powMod_eq _ _ _ _ (Nat.pow_lt_pow_right (by norm_num) hl)] at h
    have h2 : ((z ^ 2 ^ l : ℕ) : ZMod q) = ((q - 1 : ℕ) : ZMod q) :=
      (ZMod.natCast_eq_natCast_iff' _ _ _).mpr (by rw [h, Nat.mod_eq_of_lt (by have := hq.two_le; omega)])
    rw [Nat.cast_sub hq.one_lt.le, ZMod.natCast_self] at h2
    push_cast at h2
    rw [h2]; ring
  have hw : ((z : ZMod q) ^ 2 ^ (l - k)) ^ 2 ^ k = -1 := by
    rw [← pow_mul, ← pow_add, show l - k + k = l by omega]; exact hz
  have hne : (1 : ZMod q) ≠ -1 := by
    intro h
    have h2 : ((2 : ℕ) : ZMod q) = 0 := by
      have : (1 : ZMod q) + 1 = 0 := by nth_rewrite 2 [h]; ring
      push_cast; rw [← this]; ring
    have h3 := (ZMod.natCast_eq_zero_iff _ _).mp h2
    have h4 := Nat.le_of_dvd (by norm_num) h3
    have := hq.two_le
    have : q = 2 := by omega
    subst this; exact absurd hodd (by decide)
  refine ⟨limbInst hodd h61 ((z : ZMod q) ^ 2 ^ (l - k)) ?_⟩
  have h32 : ((z : ZMod q) ^ 2 ^ (l - k)) ^ 2 ^ (k + 1) = 1 := by
    rw [pow_succ 2 k, pow_mul, hw]; ring
  have : orderOf ((z : ZMod q) ^ 2 ^ (l - k)) = 2 ^ (k + 1) := orderOf_eq_prime_pow (by rw [hw]; exact fun h => hne h.symm) h32
  have h5 := IsPrimitiveRoot.orderOf ((z : ZMod q) ^ 2 ^ (l - k))
  rw [this, pow_succ, mul_comm] at h5
  exact h5

end MKHE.PN14
