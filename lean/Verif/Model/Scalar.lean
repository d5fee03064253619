import Mathlib.Data.Nat.ModEq
import Mathlib.Data.Int.ModEq
import Mathlib.Data.ZMod.Basic
import Mathlib.FieldTheory.Finite.Basic
import Mathlib.Tactic.Ring
import Mathlib.Tactic.Linarith
import Mathlib.Tactic.NormNum

set_option autoImplicit false

/-!
# Scalar word arithmetic of lattigo used by the repository (package `ring`)

Words are naturals below `2^64`; wrap-around is explicit. `MRed` and `CRed` are transcribed from lattigo v2.3.0
(ring/modular_reduction.go); `MForm`, `ModExp`, `ModexpMontgomery`, `MRedParams` are given by the canonical result
their contract prescribes. All are trusted (outside /repo).
-/

namespace MKHE

/-- `2^64` -/
abbrev W64 : ℕ := 2 ^ 64

/-- high word of `bits.Mul64` -/
def mulHi (a b : ℕ) : ℕ := a * b / W64
/-- low word of `bits.Mul64` -/
def mulLo (a b : ℕ) : ℕ := a * b % W64

/-- `MRedParams(q)`: the inverse of `q` modulo `2^64`, as a word. -/
def mredParams (q : ℕ) : ℕ := (((q : ZMod W64)⁻¹).val)

/-- `MRed(x, y, q, qInv)` = `x*y/2^64 mod q`, with uint64 wrap-around. -/
def mred (x y q qInv : ℕ) : ℕ :=
  let ahi := mulHi x y
  let alo := mulLo x y
  let R := alo * qInv % W64
  let H := mulHi R q
  let r := (ahi + (W64 - H) + q) % W64
  if r ≥ q then r - q else r

/-- `CRed(a, q)`: conditional subtraction. -/
def cred (a q : ℕ) : ℕ := if a ≥ q then a - q else a

/-- `MForm(a, q, _)`: `a * 2^64 mod q`. -/
def mformW (a q : ℕ) : ℕ := a * W64 % q

/-- `ModExp(x, e, q)`: `x^e mod q`. -/
def modExp (x e q : ℕ) : ℕ := x ^ e % q

/-- `ModexpMontgomery(x, e, q, ...)`: for `x = a * 2^64 mod q` returns `a^e * 2^64 mod q`. -/
def modExpMont (x e q : ℕ) : ℕ := (((x : ZMod q) * ((W64 : ℕ) : ZMod q)⁻¹) ^ e * ((W64 : ℕ) : ZMod q)).val

theorem mredParams_lt (q : ℕ) : mredParams q < W64 := ZMod.val_lt _

theorem coprime_W64 {q : ℕ} (h : Odd q) : Nat.Coprime W64 q :=
  Nat.Coprime.pow_left _ (Nat.coprime_two_left.mpr h)

theorem mredParams_spec {q : ℕ} (h : Odd q) : mredParams q * q ≡ 1 [MOD W64] := by
  rw [← ZMod.natCast_eq_natCast_iff]
  unfold mredParams
  push_cast
  rw [ZMod.natCast_zmod_val, mul_comm]
  exact ZMod.coe_mul_inv_eq_one q (coprime_W64 h).symm

/-- The exact value behind Montgomery reduction: with `m = (lo(S) * qInv mod 2^64)`, `S - m*q` is divisible by
`2^64` and the quotient is `hi(S) - hi(m*q)`. -/
theorem mont_exact (S q : ℕ) (hq : Odd q) :
    ((S / W64 : ℕ) : ℤ) - ((mulHi (S % W64 * mredParams q % W64) q : ℕ) : ℤ) =
      ((S : ℤ) - ((S % W64 * mredParams q % W64 : ℕ) : ℤ) * q) / W64 ∧
    (((S / W64 : ℕ) : ℤ) - ((mulHi (S % W64 * mredParams q % W64) q : ℕ) : ℤ)) * W64 =
      (S : ℤ) - ((S % W64 * mredParams q % W64 : ℕ) : ℤ) * q := by
  set m := S % W64 * mredParams q % W64 with hm
  have hmod : m * q % W64 = S % W64 := by
    have h1 : m * q ≡ S % W64 * mredParams q * q [MOD W64] := (Nat.mod_modEq _ _).mul_right q
    have h2 : S % W64 * (mredParams q * q) ≡ S % W64 * 1 [MOD W64] := (mredParams_spec hq).mul_left _
    rw [mul_one] at h2
    rw [mul_assoc] at h1
    exact (h1.trans h2).trans (Nat.mod_modEq S W64)
  have e : (((S / W64 : ℕ) : ℤ) - ((mulHi m q : ℕ) : ℤ)) * W64 = (S : ℤ) - (m : ℤ) * q := by
    have a1 := Nat.div_add_mod S W64
    have a2 := Nat.div_add_mod (m * q) W64
    unfold mulHi
    zify at a1 a2 hmod ⊢
    linear_combination a1 - a2 + hmod
  exact ⟨by rw [← e, Int.mul_ediv_cancel _ (by norm_num)], e⟩

/-- `MRed` is Montgomery multiplication: for `x*y < q*2^64`, `q < 2^63` odd, the result is below `q` and times `2^64`
congruent to `x*y`. -/
theorem mred_spec {x y q : ℕ} (hq : Odd q) (hq64 : q < 2 ^ 63) (hxy : x * y < q * W64) :
    mred x y q (mredParams q) < q ∧ mred x y q (mredParams q) * W64 ≡ x * y [MOD q] := by
  obtain ⟨-, e⟩ := mont_exact (x * y) q hq
  set m := x * y % W64 * mredParams q % W64 with hm
  have hmlt : m < W64 := Nat.mod_lt _ (by norm_num)
  have hqpos : 0 < q := hq.pos
  have hH : mulHi m q < q := by
    unfold mulHi
    rw [Nat.div_lt_iff_lt_mul (by norm_num), Nat.mul_comm q]
    exact Nat.mul_lt_mul_of_pos_right hmlt hqpos
  have hA : x * y / W64 < q := by
    rw [Nat.div_lt_iff_lt_mul (by norm_num)]; exact hxy
  have hval : mred x y q (mredParams q) =
      if (x * y / W64 + (W64 - mulHi m q) + q) % W64 ≥ q then (x * y / W64 + (W64 - mulHi m q) + q) % W64 - q
      else (x * y / W64 + (W64 - mulHi m q) + q) % W64 := rfl
  rw [hval, ← Int.natCast_modEq_iff, Int.natCast_mul]
  generalize x * y / W64 = A at *
  generalize mulHi m q = H at *
  have hW : (W64 : ℕ) = 18446744073709551616 := rfl
  have hr : (A + (W64 - H) + q) % W64 = A + q - H := by
    rw [hW] at *
    omega
  rw [hr]
  split
  · rename_i hge
    refine ⟨by omega, ?_⟩
    have : ((A + q - H - q : ℕ) : ℤ) = (A : ℤ) - (H : ℤ) := by omega
    rw [this, e, Int.modEq_iff_dvd]
    exact ⟨m, by push_cast; ring⟩
  · rename_i hlt
    refine ⟨by omega, ?_⟩
    have : ((A + q - H : ℕ) : ℤ) = (A : ℤ) - (H : ℤ) + q := by omega
    rw [this, add_mul, e, Int.modEq_iff_dvd]
    exact ⟨m - W64, by push_cast; ring⟩

theorem cred_spec {a q : ℕ} (h : a < 2 * q) : cred a q < q ∧ cred a q ≡ a [MOD q] := by
  unfold cred
  split
  · refine ⟨by omega, ?_⟩
    exact (Nat.ModEq.symm (by
      have h2 : a - q + q ≡ a - q [MOD q] := Nat.add_modEq_right
      rwa [Nat.sub_add_cancel (by assumption)] at h2))
  · exact ⟨by omega, rfl⟩

theorem mformW_lt {a q : ℕ} (hq : 0 < q) : mformW a q < q := Nat.mod_lt _ hq

theorem mformW_spec (a q : ℕ) : mformW a q ≡ a * W64 [MOD q] := Nat.mod_modEq _ _

/-- `MRed(x, MForm(y))` is plain multiplication modulo `q`. -/
theorem mred_mform {x y q : ℕ} (hq : Odd q) (hq64 : q < 2 ^ 63) (hx : x < W64) :
    mred x (mformW y q) q (mredParams q) < q ∧ mred x (mformW y q) q (mredParams q) ≡ x * y [MOD q] := by
  have hb : x * mformW y q < q * W64 := by
    have h1 := mformW_lt (a := y) hq.pos
    calc x * mformW y q ≤ x * q := Nat.mul_le_mul_left _ h1.le
      _ < W64 * q := Nat.mul_lt_mul_of_pos_right hx hq.pos
      _ = q * W64 := Nat.mul_comm _ _
  obtain ⟨h1, h2⟩ := mred_spec hq hq64 hb
  refine ⟨h1, ?_⟩
  have h3 : mred x (mformW y q) q (mredParams q) * W64 ≡ x * y * W64 [MOD q] := by
    refine h2.trans ?_
    rw [mul_assoc]
    exact (mformW_spec y q).mul_left x
  exact Nat.ModEq.cancel_right_of_coprime (by rw [Nat.gcd_comm]; exact coprime_W64 hq) h3

/-- Fermat inverse through `ModExp(x, q-2, q)`. -/
theorem modExp_inv {x q : ℕ} (hq : q.Prime) (hx : ¬ q ∣ x) :
    modExp x (q - 2) q < q ∧ modExp x (q - 2) q * x ≡ 1 [MOD q] := by
  refine ⟨Nat.mod_lt _ hq.pos, ?_⟩
  have : Fact q.Prime := ⟨hq⟩
  rw [← ZMod.natCast_eq_natCast_iff]
  unfold modExp
  have h2 : (((x ^ (q - 2) % q : ℕ)) : ZMod q) = ((x ^ (q - 2) : ℕ) : ZMod q) := ZMod.natCast_mod _ _
  rw [Nat.cast_mul, h2]
  push_cast
  rw [← pow_succ, show q - 2 + 1 = q - 1 from by have := hq.two_le; omega]
  exact ZMod.pow_card_sub_one_eq_one (by rwa [Ne, ZMod.natCast_eq_zero_iff])

/-- Fermat inverse through `ModexpMontgomery(x, q-2)`: for `x ≡ a*2^64`, the result `r < q` satisfies
`r * a ≡ 2^64`. -/
theorem modExpMont_inv {x a q : ℕ} (hq : q.Prime) (hodd : Odd q) (ha : ¬ q ∣ a) (hx : x ≡ a * W64 [MOD q]) :
    modExpMont x (q - 2) q < q ∧ modExpMont x (q - 2) q * a ≡ W64 [MOD q] := by
  have : Fact q.Prime := ⟨hq⟩
  refine ⟨ZMod.val_lt _, ?_⟩
  rw [← ZMod.natCast_eq_natCast_iff] at hx ⊢
  unfold modExpMont
  have hW : ((W64 : ℕ) : ZMod q) * ((W64 : ℕ) : ZMod q)⁻¹ = 1 := ZMod.coe_mul_inv_eq_one _ (coprime_W64 hodd)
  rw [Nat.cast_mul, ZMod.natCast_zmod_val, hx, Nat.cast_mul, mul_assoc (a : ZMod q), hW, mul_one]
  have hf : (a : ZMod q) ^ (q - 2) * a = 1 := by
    rw [← pow_succ, show q - 2 + 1 = q - 1 from by have := hq.two_le; omega]
    exact ZMod.pow_card_sub_one_eq_one (by rwa [Ne, ZMod.natCast_eq_zero_iff])
  calc (a : ZMod q) ^ (q - 2) * ((W64 : ℕ) : ZMod q) * a
      = ((a : ZMod q) ^ (q - 2) * a) * ((W64 : ℕ) : ZMod q) := by ring
    _ = ((W64 : ℕ) : ZMod q) := by rw [hf, one_mul]

end MKHE
