import Verif.Props.RotateAll
import Mathlib.RingTheory.RootsOfUnity.Complex
import Mathlib.Analysis.Complex.Basic
import Mathlib.RingTheory.ZMod.UnitsCyclic
import Mathlib.LinearAlgebra.Complex.FiniteDimensional

set_option autoImplicit false

/-!
# Real polynomials modulo `X^N + 1` and the slots of CKKS

The message space of CKKS: real polynomials, and their evaluations at the primitive `2N`-th roots of unity `ζ^(5^j)`, the slots.
-/

namespace MKHE
open Finset Nega

/-! ## coefficient bounds over the reals -/

variable {N : ℕ}

/-- every coefficient has absolute value at most `B` -/
def RBdd (v : Nega N ℝ) (B : ℝ) : Prop := ∀ x, |v x| ≤ B

theorem RBdd.mono {v : Nega N ℝ} {B B' : ℝ} (h : RBdd v B) (hB : B ≤ B') : RBdd v B' := fun x => (h x).trans hB

theorem RBdd.zero : RBdd (0 : Nega N ℝ) 0 := fun x => by simp

theorem RBdd.add {a b : Nega N ℝ} {A B : ℝ} (ha : RBdd a A) (hb : RBdd b B) : RBdd (a + b) (A + B) :=
  fun x => (abs_add_le _ _).trans (add_le_add (ha x) (hb x))

theorem RBdd.neg {a : Nega N ℝ} {A : ℝ} (ha : RBdd a A) : RBdd (-a) A := fun x => by
  rw [Nega.neg_apply, abs_neg]; exact ha x

theorem RBdd.sub {a b : Nega N ℝ} {A B : ℝ} (ha : RBdd a A) (hb : RBdd b B) : RBdd (a - b) (A + B) := by
  rw [sub_eq_add_neg]; exact ha.add hb.neg

theorem sgn_abs_sum_real (i k : Fin N) : ∑ j : Fin N, |sgn ℝ i j k| ≤ 1 := by
  have h : ∀ j, |sgn ℝ i j k| = ((|sgn ℤ i j k| : ℤ) : ℝ) := fun j => by
    unfold sgn; split_ifs <;> simp
  simp only [h]
  exact_mod_cast sgn_abs_sum i k

variable [NeZero N]

theorem RBdd.nonneg {a : Nega N ℝ} {B : ℝ} (h : RBdd a B) : 0 ≤ B :=
  le_trans (abs_nonneg _) (h ⟨0, Nat.pos_of_ne_zero (NeZero.ne N)⟩)

/-- `‖ab‖∞ ≤ N ‖a‖∞ ‖b‖∞` -/
theorem RBdd.mul {a b : Nega N ℝ} {A B : ℝ} (ha : RBdd a A) (hb : RBdd b B) : RBdd (a * b) (N * A * B) := by
  intro k
  rw [mul_apply]
  have hA := ha.nonneg
  have hB := hb.nonneg
  calc |∑ i, ∑ j, sgn ℝ i j k * (a i * b j)|
      ≤ ∑ i, |∑ j, sgn ℝ i j k * (a i * b j)| := Finset.abs_sum_le_sum_abs _ _
    _ ≤ ∑ i : Fin N, A * B := by
        refine Finset.sum_le_sum fun i _ => ?_
        calc |∑ j, sgn ℝ i j k * (a i * b j)|
            ≤ ∑ j, |sgn ℝ i j k * (a i * b j)| := Finset.abs_sum_le_sum_abs _ _
          _ ≤ ∑ j, |sgn ℝ i j k| * (A * B) := by
              refine Finset.sum_le_sum fun j _ => ?_
              rw [abs_mul, abs_mul]
              exact mul_le_mul_of_nonneg_left
                (mul_le_mul (ha i) (hb j) (abs_nonneg _) hA) (abs_nonneg _)
          _ = (∑ j, |sgn ℝ i j k|) * (A * B) := by rw [Finset.sum_mul]
          _ ≤ 1 * (A * B) := mul_le_mul_of_nonneg_right (sgn_abs_sum_real i k) (mul_nonneg hA hB)
          _ = A * B := one_mul _
    _ = N * A * B := by simp [mul_assoc]

theorem RBdd.galois {n g : ℕ} (hN : N = 2 ^ n) (hg : Odd g) {a : Nega N ℝ} {B : ℝ} (h : RBdd a B) : RBdd (Nega.galois g a) B := by
  intro k
  obtain ⟨i, hi, rfl⟩ := galois_surj hN hg k
  rw [galois_at hN hg, abs_mul, abs_pow, abs_neg, abs_one, one_pow, one_mul]
  exact h i

theorem RBdd.smul {a : Nega N ℝ} {A : ℝ} (c : ℝ) (ha : RBdd a A) : RBdd (Nega.C c * a) (|c| * A) := fun x => by
  rw [C_mul, abs_mul]; exact mul_le_mul_of_nonneg_left (ha x) (abs_nonneg _)

/-- an integer polynomial seen as a real one -/
noncomputable def toReal : Nega N ℤ →+* Nega N ℝ := Nega.map (Int.castRingHom ℝ)

@[simp] theorem toReal_apply (a : Nega N ℤ) (x : Fin N) : toReal a x = (a x : ℝ) := rfl

theorem toReal_galois (g : ℕ) (a : Nega N ℤ) : toReal (galois g a) = galois g (toReal a) := (galois_map _ _ _).symm

/-! ## slots -/

/-- the root of unity `exp(i π / N)` -/
noncomputable def zeta (N : ℕ) : ℂ := Complex.exp (2 * Real.pi * Complex.I / (2 * N : ℕ))

theorem zeta_prim : IsPrimitiveRoot (zeta N) (2 * N) :=
  Complex.isPrimitiveRoot_exp (2 * N) (by have := NeZero.ne N; omega)

theorem zeta_pow_N : zeta N ^ N = -1 := by
  have h := zeta_prim (N := N)
  have h2 : (zeta N ^ N) ^ 2 = 1 := by rw [← pow_mul, mul_comm]; exact h.pow_eq_one
  rcases sq_eq_one_iff.mp h2 with h1 | h1
  · exfalso
    have := h.dvd_of_pow_eq_one N h1
    have hN : 0 < N := Nat.pos_of_ne_zero (NeZero.ne N)
    exact absurd (Nat.le_of_dvd hN this) (by omega)
  · exact h1

theorem zeta_odd {g : ℕ} (hg : Odd g) : (zeta N ^ g) ^ N = -1 := by
  rw [← pow_mul, mul_comm, pow_mul, zeta_pow_N, hg.neg_one_pow]

/-- evaluation at an odd power of `zeta` -/
noncomputable def evalC (g : ℕ) (hg : Odd g) : Nega N ℝ →+* ℂ :=
  (AdjoinRoot.lift (Complex.ofRealHom) (zeta N ^ g) (by simp [zeta_odd hg])).comp Nega.toQuotHom

theorem evalC_apply (g : ℕ) (hg : Odd g) (a : Nega N ℝ) : evalC g hg a = ∑ k : Fin N, (a k : ℂ) * (zeta N ^ g) ^ (k : ℕ) := by
  have h0 : evalC g hg a = AdjoinRoot.lift Complex.ofRealHom (zeta N ^ g) (by simp [zeta_odd hg]) (Nega.toQuot a) := rfl
  rw [h0]
  unfold Nega.toQuot Nega.rt
  rw [map_sum]
  refine Finset.sum_congr rfl fun j _ => ?_
  rw [map_mul, map_pow, AdjoinRoot.lift_of, AdjoinRoot.lift_root]; rfl

theorem evalC_galois (g h : ℕ) (hg : Odd g) (hh : Odd h) (a : Nega N ℝ) : evalC g hg (galois h a) = evalC (g * h) (hg.mul hh) a := by
  have h0 : evalC g hg (galois h a) = AdjoinRoot.lift Complex.ofRealHom (zeta N ^ g) (by simp [zeta_odd hg]) (Nega.toQuot (galois h a)) := rfl
  rw [h0, toQuot_galois, evalC_apply, map_sum]
  unfold Nega.rt
  refine Finset.sum_congr rfl fun j _ => ?_
  rw [map_mul, map_pow, map_pow, AdjoinRoot.lift_of, AdjoinRoot.lift_root, ← pow_mul (zeta N)]; rfl

theorem evalC_congr {g h : ℕ} (hg : Odd g) (hh : Odd h) (e : g % (2 * N) = h % (2 * N)) (a : Nega N ℝ) : evalC g hg a = evalC h hh a := by
  have : zeta N ^ g = zeta N ^ h := by
    have key : ∀ g : ℕ, zeta N ^ g = zeta N ^ (g % (2 * N)) := fun g => by
      conv_lhs => rw [← Nat.div_add_mod g (2 * N), pow_add, pow_mul (zeta N) (2 * N), zeta_prim.pow_eq_one, one_pow, one_mul]
    rw [key g, key h, e]
  rw [evalC_apply, evalC_apply, this]

theorem norm_zeta : ‖zeta N‖ = 1 := zeta_prim.norm'_eq_one (by have := NeZero.ne N; omega)

theorem evalC_norm {g : ℕ} (hg : Odd g) {a : Nega N ℝ} {B : ℝ} (h : RBdd a B) : ‖evalC g hg a‖ ≤ N * B := by
  rw [evalC_apply]
  calc ‖∑ k : Fin N, (a k : ℂ) * (zeta N ^ g) ^ (k : ℕ)‖ ≤ ∑ k : Fin N, ‖(a k : ℂ) * (zeta N ^ g) ^ (k : ℕ)‖ := norm_sum_le _ _
    _ ≤ ∑ k : Fin N, B := Finset.sum_le_sum fun k _ => by
        rw [norm_mul, norm_pow, norm_pow, norm_zeta, one_pow, one_pow, mul_one, Complex.norm_real]
        exact h k
    _ = N * B := by simp

/-- **Slot `j`** of a real polynomial: its value at `ζ^(5^j)`, `ζ = exp(iπ/N)`; `j` counts modulo `N/2`, the number of slots. -/
noncomputable def slot (j : ℤ) : Nega N ℝ →+* ℂ := evalC (5 ^ C35.amount N j) (odd_five_pow _)

/-- the definition spelled out -/
theorem slot_apply (j : ℤ) (v : Nega N ℝ) :
    slot j v = ∑ k : Fin N, (v k : ℂ) * Complex.exp (2 * Real.pi * Complex.I / (2 * N : ℕ)) ^ (5 ^ C35.amount N j * (k : ℕ)) := by
  unfold slot
  rw [evalC_apply]
  refine Finset.sum_congr rfl fun k _ => ?_
  rw [← pow_mul]; rfl

theorem slot_smul (j : ℤ) (c : ℝ) (v : Nega N ℝ) : slot j (Nega.C c * v) = (c : ℂ) * slot j v := by
  rw [slot_apply, slot_apply, Finset.mul_sum]
  refine Finset.sum_congr rfl fun k _ => ?_
  rw [C_mul]; push_cast; ring

/-- the slots of a polynomial with coefficients below `B` are below `N B` -/
theorem slot_norm (j : ℤ) {v : Nega N ℝ} {B : ℝ} (h : RBdd v B) : ‖slot j v‖ ≤ N * B := evalC_norm _ h

/-- powers of five with exponents that agree modulo `N/2` agree modulo `2N` -/
theorem five_pow_congr {n : ℕ} (hN : N = 2 ^ n) (hn : 1 ≤ n) {a b : ℕ} (h : a % (N / 2) = b % (N / 2)) : 5 ^ a % (2 * N) = 5 ^ b % (2 * N) := by
  have h5 : 5 ^ (N / 2) % (2 * N) = 1 := by rw [hN]; exact five_pow_half hn
  have h2 : 1 < 2 * N := by rw [hN]; have := Nat.one_le_two_pow (n := n); omega
  have key : ∀ a : ℕ, 5 ^ a % (2 * N) = 5 ^ (a % (N / 2)) % (2 * N) := fun a => by
    conv_lhs => rw [← Nat.div_add_mod a (N / 2), pow_add, pow_mul, Nat.mul_mod, Nat.pow_mod, h5, one_pow]
    rw [Nat.mod_eq_of_lt h2, one_mul, Nat.mod_mod]
  rw [key a, key b, h]

omit [NeZero N] in
theorem amount_add {n : ℕ} (hN : N = 2 ^ n) (hn : 1 ≤ n) (j r : ℤ) :
    (C35.amount N j + C35.amount N r) % (N / 2) = C35.amount N (j + r) % (N / 2) := by
  have hh : (0 : ℤ) < ((N / 2 : ℕ) : ℤ) := by
    have : 2 ≤ N := by rw [hN]; calc 2 = 2 ^ 1 := rfl
                        _ ≤ 2 ^ n := Nat.pow_le_pow_right (by norm_num) hn
    have : 0 < N / 2 := by omega
    exact_mod_cast this
  unfold C35.amount
  generalize N / 2 = m at *
  have a1 := Int.emod_nonneg j hh.ne'
  have a2 := Int.emod_nonneg r hh.ne'
  have a3 := Int.emod_nonneg (j + r) hh.ne'
  zify
  rw [Int.toNat_of_nonneg a1, Int.toNat_of_nonneg a2, Int.toNat_of_nonneg a3, ← Int.add_emod, Int.emod_emod]

/-- **rotation of the slots**: the automorphism of a rotation by `r` brings slot `j + r` to slot `j`, for all integers `j` and `r` -/
theorem slot_rotate {n : ℕ} (hN : N = 2 ^ n) (hn : 1 ≤ n) (j r : ℤ) (v : Nega N ℝ) :
    slot j (galois (5 ^ C35.amount N r) v) = slot (j + r) v := by
  unfold slot
  rw [evalC_galois _ _ _ (odd_five_pow _)]
  refine evalC_congr _ _ ?_ v
  rw [← pow_add]
  exact five_pow_congr hN hn (amount_add hN hn j r)

/-- slots are counted modulo `N/2` -/
theorem slot_period (j : ℤ) (v : Nega N ℝ) : slot (j + (N / 2 : ℕ)) v = slot j v := by
  have : C35.amount N (j + (N / 2 : ℕ)) = C35.amount N j := by
    unfold C35.amount; rw [Int.add_emod_right]
  unfold slot
  exact evalC_congr _ _ (by rw [this]) v

/-- **conjugation of the slots** -/
theorem slot_conj (j : ℤ) (v : Nega N ℝ) : slot j (galois (2 * N - 1) v) = (starRingEnd ℂ) (slot j v) := by
  have h1 : 1 ≤ N := Nat.pos_of_ne_zero (NeZero.ne N)
  have hodd : Odd (2 * N - 1) := ⟨N - 1, by omega⟩
  unfold slot
  rw [evalC_galois _ _ _ hodd, evalC_apply, evalC_apply, map_sum]
  refine Finset.sum_congr rfl fun k _ => ?_
  rw [map_mul, Complex.conj_ofReal, map_pow, map_pow]
  congr 2
  have hc : (starRingEnd ℂ) (zeta N) = (zeta N)⁻¹ := (Complex.inv_eq_conj norm_zeta).symm
  have hz : zeta N ≠ 0 := zeta_prim.ne_zero (by omega)
  rw [hc, mul_comm, pow_mul]
  congr 1
  refine eq_inv_of_mul_eq_one_left ?_
  rw [← pow_succ, show 2 * N - 1 + 1 = 2 * N by omega]
  exact zeta_prim.pow_eq_one


/-! ## every vector of slots is that of one real polynomial -/

/-- the exponents of the slots are different -/
theorem five_pow_inj {n : ℕ} (hN : N = 2 ^ n) (hn : 1 ≤ n) {j k : ℕ} (hj : j < N / 2) (hk : k < N / 2)
    (h : 5 ^ j % (2 * N) = 5 ^ k % (2 * N)) : j = k := by
  obtain ⟨m, rfl⟩ : ∃ m, n = m + 1 := ⟨n - 1, by omega⟩
  have h2 : 2 * N = 2 ^ (m + 2) := by rw [hN]; ring
  have hh : N / 2 = 2 ^ m := by rw [hN, pow_succ]; omega
  have h' : ((5 : ZMod (2 ^ (m + 2))) ^ j) = 5 ^ k := by
    have := (ZMod.natCast_eq_natCast_iff' (5 ^ j) (5 ^ k) (2 ^ (m + 2))).mpr (by rw [← h2]; exact h)
    exact_mod_cast this
  refine pow_injOn_Iio_orderOf (x := (5 : ZMod (2 ^ (m + 2)))) ?_ ?_ h' <;> rw [Set.mem_Iio, ZMod.orderOf_five] <;> omega

theorem zeta_pow_eq {a b : ℕ} (h : zeta N ^ a = zeta N ^ b) : a % (2 * N) = b % (2 * N) := by
  have := (zeta_prim (N := N)).pow_inj (i := a % (2 * N)) (j := b % (2 * N))
    (Nat.mod_lt _ (by have := NeZero.ne N; omega)) (Nat.mod_lt _ (by have := NeZero.ne N; omega))
  have key : ∀ g : ℕ, zeta N ^ g = zeta N ^ (g % (2 * N)) := fun g => by
    conv_lhs => rw [← Nat.div_add_mod g (2 * N), pow_add, pow_mul (zeta N) (2 * N), zeta_prim.pow_eq_one, one_pow, one_mul]
  exact this (by rw [← key, ← key, h])

theorem geom_zero {w : ℂ} (h1 : w ≠ 1) (hN : w ^ N = 1) : ∑ x : Fin N, w ^ (x : ℕ) = 0 := by
  rw [Fin.sum_univ_eq_sum_range (fun x => w ^ x) N, geom_sum_eq h1, hN, sub_self, zero_div]

/-- the real polynomial with given slots -/
noncomputable def ofSlots (N : ℕ) (z : ℕ → ℂ) : Nega N ℝ := fun x =>
  2 / N * (∑ k ∈ range (N / 2), z k * (zeta N ^ 5 ^ k)⁻¹ ^ (x : ℕ)).re

theorem amount_lt {n : ℕ} (hN : N = 2 ^ n) (hn : 1 ≤ n) (j : ℤ) : C35.amount N j < N / 2 := by
  have h2 : 2 ≤ N := by
    rw [hN]
    calc 2 = 2 ^ 1 := rfl
      _ ≤ 2 ^ n := Nat.pow_le_pow_right (by norm_num) hn
  unfold C35.amount
  have hp : 0 < N / 2 := by omega
  have h0 : (0 : ℤ) < ((N / 2 : ℕ) : ℤ) := by exact_mod_cast hp
  have := Int.emod_lt_of_pos j h0
  have := Int.emod_nonneg j h0.ne'
  omega

theorem slot_ofSlots {n : ℕ} (hN : N = 2 ^ n) (hn : 1 ≤ n) (z : ℕ → ℂ) (j : ℤ) : slot j (ofSlots N z) = z (C35.amount N j) := by
  have h2 : 2 ≤ N := by
    rw [hN]
    calc 2 = 2 ^ 1 := rfl
      _ ≤ 2 ^ n := Nat.pow_le_pow_right (by norm_num) hn
  have hz : ∀ k, zeta N ^ k ≠ 0 := fun k => pow_ne_zero _ (zeta_prim.ne_zero (by omega))
  have hconj : ∀ k, (starRingEnd ℂ) ((zeta N ^ k)⁻¹) = zeta N ^ k := fun k => by
    rw [map_inv₀, map_pow, ← Complex.inv_eq_conj norm_zeta, inv_pow, inv_inv]
  set g := C35.amount N j with hg
  have hgl : g < N / 2 := amount_lt hN hn j
  have hre : ∀ x : Fin N, ((ofSlots N z x : ℝ) : ℂ) =
      1 / N * ∑ k ∈ range (N / 2), (z k * (zeta N ^ 5 ^ k)⁻¹ ^ (x : ℕ) + (starRingEnd ℂ) (z k) * (zeta N ^ 5 ^ k) ^ (x : ℕ)) := by
    intro x
    unfold ofSlots
    push_cast
    rw [Complex.re_eq_add_conj, map_sum, ← Finset.sum_add_distrib]
    have : ∀ k, (starRingEnd ℂ) (z k * (zeta N ^ 5 ^ k)⁻¹ ^ (x : ℕ)) = (starRingEnd ℂ) (z k) * (zeta N ^ 5 ^ k) ^ (x : ℕ) := fun k => by
      rw [map_mul, map_pow, hconj]
    simp only [this]
    ring
  unfold slot
  rw [evalC_apply]
  simp only [hre, ← hg]
  have e1 : ∑ x : Fin N, 1 / (N : ℂ) * (∑ k ∈ range (N / 2), (z k * (zeta N ^ 5 ^ k)⁻¹ ^ (x : ℕ) + (starRingEnd ℂ) (z k) * (zeta N ^ 5 ^ k) ^ (x : ℕ))) *
      (zeta N ^ 5 ^ g) ^ (x : ℕ) = 1 / N * ∑ k ∈ range (N / 2), (z k * ∑ x : Fin N, ((zeta N ^ 5 ^ k)⁻¹ * zeta N ^ 5 ^ g) ^ (x : ℕ) +
        (starRingEnd ℂ) (z k) * ∑ x : Fin N, (zeta N ^ (5 ^ k + 5 ^ g)) ^ (x : ℕ)) := by
    simp only [Finset.mul_sum, Finset.sum_mul, ← Finset.sum_add_distrib]
    rw [Finset.sum_comm]
    refine Finset.sum_congr rfl fun k _ => Finset.sum_congr rfl fun x _ => ?_
    rw [mul_pow, pow_add, mul_pow]; ring
  rw [e1]
  have e2 : ∀ k ∈ range (N / 2), (z k * ∑ x : Fin N, ((zeta N ^ 5 ^ k)⁻¹ * zeta N ^ 5 ^ g) ^ (x : ℕ) +
        (starRingEnd ℂ) (z k) * ∑ x : Fin N, (zeta N ^ (5 ^ k + 5 ^ g)) ^ (x : ℕ)) = if k = g then z g * N else 0 := by
    intro k hk
    have hk' := mem_range.mp hk
    have hs : ∑ x : Fin N, (zeta N ^ (5 ^ k + 5 ^ g)) ^ (x : ℕ) = 0 := by
      refine geom_zero (fun h => ?_) ?_
      · have hd := (zeta_prim (N := N)).dvd_of_pow_eq_one _ h
        have h4 : 4 ∣ 2 * N := by
          obtain ⟨m, rfl⟩ : ∃ m, n = m + 1 := ⟨n - 1, by omega⟩
          rw [hN, pow_succ]; exact ⟨2 ^ m, by ring⟩
        have h5 : ∀ a, 5 ^ a % 4 = 1 := fun a => by rw [Nat.pow_mod]; norm_num
        have := h4.trans hd
        have := h5 k
        have := h5 g
        omega
      · rw [← pow_mul, mul_comm, pow_mul, zeta_pow_N]
        exact Even.neg_one_pow ((odd_five_pow k).add_odd (odd_five_pow g))
    rw [hs, mul_zero, add_zero]
    split_ifs with h
    · subst h
      rw [inv_mul_cancel₀ (hz _)]
      simp
    · rw [geom_zero, mul_zero]
      · intro h1
        have := eq_of_inv_mul_eq_one h1
        exact h (five_pow_inj hN hn hk' hgl (zeta_pow_eq this))
      · rw [mul_pow, inv_pow, zeta_odd (odd_five_pow k), zeta_odd (odd_five_pow g)]; norm_num
  rw [Finset.sum_congr rfl e2, Finset.sum_ite_eq' (range (N / 2)) g, if_pos (mem_range.mpr hgl)]
  have : (N : ℂ) ≠ 0 := by exact_mod_cast NeZero.ne N
  field_simp

/-- the slots as a linear map -/
noncomputable def slotsL (N : ℕ) [NeZero N] : (Fin N → ℝ) →ₗ[ℝ] (Fin (N / 2) → ℂ) where
  toFun := fun v j => slot (N := N) (j : ℕ) v
  map_add' := fun v w => funext fun j => map_add (slot (N := N) (j : ℕ)) v w
  map_smul' := fun c v => funext fun j => by
    have e : ∀ v' : Nega N ℝ, (fun x => c * v' x : Nega N ℝ) = Nega.C c * v' := fun v' => Nega.ext fun x => (C_mul c v' x).symm
    show slot (N := N) (j : ℕ) (fun x => c * v x) = c • slot (N := N) (j : ℕ) v
    exact (congrArg _ (e v)).trans (slot_smul _ _ _)

/-- **a real polynomial is determined by its slots** -/
theorem slots_inj {n : ℕ} (hN : N = 2 ^ n) (hn : 1 ≤ n) {v w : Nega N ℝ} (h : ∀ j, slot j v = slot j w) : v = w := by
  have hamt : ∀ j : Fin (N / 2), C35.amount N ((j : ℕ) : ℤ) = j := fun j => by
    unfold C35.amount
    have : ((j : ℕ) : ℤ) % ((N / 2 : ℕ) : ℤ) = (j : ℕ) := Int.emod_eq_of_lt (by positivity) (by exact_mod_cast j.2)
    rw [this]; rfl
  have hsurj : Function.Surjective (slotsL N) := fun z => by
    refine ⟨ofSlots N fun k => if h : k < N / 2 then z ⟨k, h⟩ else 0, funext fun j => ?_⟩
    show slot (N := N) (j : ℕ) (ofSlots N _) = z j
    rw [slot_ofSlots hN hn, hamt, dif_pos j.2]
  have hdim : Module.finrank ℝ (Fin N → ℝ) = Module.finrank ℝ (Fin (N / 2) → ℂ) := by
    rw [Module.finrank_pi, Module.finrank_pi_fintype]
    simp only [Complex.finrank_real_complex, Finset.sum_const, Finset.card_univ, Fintype.card_fin, smul_eq_mul]
    obtain ⟨m, rfl⟩ : ∃ m, n = m + 1 := ⟨n - 1, by omega⟩
    rw [hN, pow_succ]; omega
  have hinj := (LinearMap.injective_iff_surjective_of_finrank_eq_finrank hdim).mpr hsurj
  exact hinj (funext fun j => h (j : ℕ))

/-- **coefficients are bounded by slots** -/
theorem coeff_le_slots {n : ℕ} (hN : N = 2 ^ n) (hn : 1 ≤ n) {v : Nega N ℝ} {B : ℝ} (h : ∀ j, ‖slot j v‖ ≤ B) : RBdd v B := by
  have e : v = ofSlots N fun k => slot (k : ℤ) v := slots_inj hN hn fun j => by
    rw [slot_ofSlots hN hn]
    unfold slot
    refine evalC_congr _ _ ?_ v
    have : C35.amount N (C35.amount N j : ℤ) = C35.amount N j := by
      unfold C35.amount
      have hp : 0 < N / 2 := lt_of_le_of_lt (Nat.zero_le _) (amount_lt hN hn j)
      rw [Int.toNat_of_nonneg (Int.emod_nonneg _ (by exact_mod_cast hp.ne')), Int.emod_emod]
    rw [this]
  intro x
  have h0 : 0 ≤ B := le_trans (norm_nonneg _) (h 0)
  rw [e]
  unfold ofSlots
  have hNpos : (0 : ℝ) < N := by exact_mod_cast Nat.pos_of_ne_zero (NeZero.ne N)
  rw [abs_mul, abs_of_pos (by positivity)]
  have h1 : |(∑ k ∈ range (N / 2), slot (k : ℤ) v * (zeta N ^ 5 ^ k)⁻¹ ^ (x : ℕ)).re| ≤ (N / 2 : ℕ) * B := by
    refine (Complex.abs_re_le_norm _).trans ((norm_sum_le _ _).trans ?_)
    calc ∑ k ∈ range (N / 2), ‖slot (k : ℤ) v * (zeta N ^ 5 ^ k)⁻¹ ^ (x : ℕ)‖ ≤ ∑ k ∈ range (N / 2), B := Finset.sum_le_sum fun k _ => by
          rw [norm_mul, norm_pow, norm_inv, norm_pow, norm_zeta, one_pow, inv_one, one_pow, mul_one]; exact h k
      _ = (N / 2 : ℕ) * B := by simp
  have h2 : ((N / 2 : ℕ) : ℝ) ≤ N / 2 := Nat.cast_div_le
  calc 2 / (N : ℝ) * _ ≤ 2 / N * (N / 2 * B) := by
        refine mul_le_mul_of_nonneg_left (h1.trans (mul_le_mul_of_nonneg_right h2 h0)) (by positivity)
    _ = B := by field_simp

/-! ## slot bounds -/

/-- every slot has absolute value at most `B` -/
def SBdd (v : Nega N ℝ) (B : ℝ) : Prop := ∀ j : ℤ, ‖slot j v‖ ≤ B

theorem SBdd.nonneg {v : Nega N ℝ} {B : ℝ} (h : SBdd v B) : 0 ≤ B := le_trans (norm_nonneg _) (h 0)

theorem SBdd.mono {v : Nega N ℝ} {B B' : ℝ} (h : SBdd v B) (hB : B ≤ B') : SBdd v B' := fun j => (h j).trans hB

theorem SBdd.add {a b : Nega N ℝ} {A B : ℝ} (ha : SBdd a A) (hb : SBdd b B) : SBdd (a + b) (A + B) := fun j => by
  rw [map_add]; exact (norm_add_le _ _).trans (add_le_add (ha j) (hb j))

theorem SBdd.neg {a : Nega N ℝ} {A : ℝ} (ha : SBdd a A) : SBdd (-a) A := fun j => by
  rw [map_neg, norm_neg]; exact ha j

theorem SBdd.sub {a b : Nega N ℝ} {A B : ℝ} (ha : SBdd a A) (hb : SBdd b B) : SBdd (a - b) (A + B) := by
  rw [sub_eq_add_neg]; exact ha.add hb.neg

/-- slots multiply -/
theorem SBdd.mul {a b : Nega N ℝ} {A B : ℝ} (ha : SBdd a A) (hb : SBdd b B) : SBdd (a * b) (A * B) := fun j => by
  rw [map_mul, norm_mul]; exact mul_le_mul (ha j) (hb j) (norm_nonneg _) ha.nonneg

theorem SBdd.smul {a : Nega N ℝ} {A : ℝ} (c : ℝ) (ha : SBdd a A) : SBdd (Nega.C c * a) (|c| * A) := fun j => by
  rw [slot_smul, norm_mul, Complex.norm_real]; exact mul_le_mul_of_nonneg_left (ha j) (abs_nonneg _)

theorem SBdd.rotate {n : ℕ} (hN : N = 2 ^ n) (hn : 1 ≤ n) (r : ℤ) {a : Nega N ℝ} {A : ℝ} (ha : SBdd a A) :
    SBdd (galois (5 ^ C35.amount N r) a) A := fun j => by
  rw [slot_rotate hN hn]; exact ha _

theorem SBdd.conj {a : Nega N ℝ} {A : ℝ} (ha : SBdd a A) : SBdd (galois (2 * N - 1) a) A := fun j => by
  rw [slot_conj, RCLike.norm_conj]; exact ha _

theorem RBdd.slots {a : Nega N ℝ} {A : ℝ} (ha : RBdd a A) : SBdd a (N * A) := fun j => slot_norm j ha

theorem SBdd.coeff {n : ℕ} (hN : N = 2 ^ n) (hn : 1 ≤ n) {a : Nega N ℝ} {A : ℝ} (ha : SBdd a A) : RBdd a A := coeff_le_slots hN hn ha

end MKHE
