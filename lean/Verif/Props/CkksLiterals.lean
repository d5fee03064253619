import Verif.Props.CkksBudget
import Verif.Props.Literals
import Verif.Props.BfvBudget
import Verif.Model.Alloc
import Verif.Props.CnnBounds

set_option autoImplicit false

/-!
# C67 at the parameters of mkckks' tests

For PN14QP439 and PN15QP880 (mkckks_test.go:50-92), up to four parties (the default of the flag `n`, mkckks_test.go:21), ternary secrets, errors of at most 19 (lattigo
truncates the Gaussian of standard deviation 3.2 at six deviations): the numbers `pars14`, `pars15` of the estimator are right, so its answers are guarantees.
-/

namespace MKHE.C67
open Finset Nega C59 Lits

/-- the numbers of the estimator for PN14QP439 (mkckks_test.go:73-91) -/
def pars14 : Pars := ⟨2 ^ 14, 2 ^ 52, ckks14Q, 0xfffffffa60001, 2881, 536937473, 27918991361⟩

/-- the numbers of the estimator for PN15QP880 (mkckks_test.go:51-72) -/
def pars15 : Pars := ⟨2 ^ 15, 2 ^ 54, ckks15Q, 0x3ffffffed30001, 2409, 2156216321, 120262754305⟩

/-- conditions on the numbers that are checked by computation: `n` parties, digits below `D/2`, ternary secrets, errors of at most 19 -/
structure Checked (P : Pars) (L : Lit) (n : ℕ) (D : ℤ) : Prop where
  deg : P.N = 2 ^ L.logN
  q : P.q = L.Q
  M : 2 ^ 20 ≤ P.M ∧ P.M ≤ 2 ^ 54 ∧ 2 ∣ P.M
  qlo : ∀ x ∈ L.Q, P.qlo ≤ x
  near : 1024 * (2049 * P.M) ≤ 2048 * (1025 * P.qlo)
  dist : ∀ x ∈ L.Q.tail, 2 ^ 41 * |(x : ℤ) - P.M| + P.M ≤ P.rho * P.M
  rho : P.rho ≤ 2 ^ 20
  K : 2 * P.N * mulNoise P.N L.P.prod n n L.Q.length D 1 1 19 + L.P.prod * (P.N * (1 + n * P.N) * P.qlo) ≤ 2 * L.P.prod * (P.K * P.qlo)
  R : P.N * ((L.logN - 1 : ℕ) * C33.rotNoise P.N L.P.prod n L.Q.length D 1 19) ≤ P.R * L.P.prod
  D : ∀ x ∈ L.Q, 2 * (x : ℤ) ≤ D
  log : 2 ≤ L.logN

theorem mulNoise_mono {N P n0 n1 n b b' : ℕ} (h0 : n0 ≤ n) (h1 : n1 ≤ n) (hb : b ≤ b') {D : ℤ} (hD : 0 ≤ D) :
    0 ≤ mulNoise N P n0 n1 b D 1 1 19 ∧ mulNoise N P n0 n1 b D 1 1 19 ≤ mulNoise N P n n b' D 1 1 19 := by
  unfold mulNoise
  have h0' : (n0 : ℤ) ≤ n := by exact_mod_cast h0
  have h1' : (n1 : ℤ) ≤ n := by exact_mod_cast h1
  have hb' : (b : ℤ) ≤ b' := by exact_mod_cast hb
  constructor
  · positivity
  · gcongr

theorem rotNoise_mono {N P n0 n b b' : ℕ} (h0 : n0 ≤ n) (hb : b ≤ b') {D : ℤ} (hD : 0 ≤ D) :
    0 ≤ C33.rotNoise N P n0 b D 1 19 ∧ C33.rotNoise N P n0 b D 1 19 ≤ C33.rotNoise N P n b' D 1 19 := by
  unfold C33.rotNoise
  have h0' : (n0 : ℤ) ≤ n := by exact_mod_cast h0
  have hb' : (b : ℤ) ≤ b' := by exact_mod_cast hb
  constructor
  · positivity
  · gcongr

section
variable {L : Lit} (h : C61.Good L 2) (h2 : L.P.length = 2) (fm : FloatModel) (rq : ∀ i, LimbOps (2 ^ L.logN) (nth L.Q i))
  (rp : ∀ j, LimbOps (2 ^ L.logN) (nth L.P j))
include h2

theorem alpha_ctx : (L.ctx 2 fm rq rp).alpha = 1 := by
  show L.P.length / 2 = 1
  rw [h2]

include h in
theorem beta_ctx {l : ℕ} (hl : l < L.Q.length) : (L.ctx 2 fm rq rp).beta l = l + 1 := by
  rw [(C61.valid h fm rq rp).beta_eq hl, alpha_ctx h2, Nat.div_one]

omit h2 in
theorem P_ctx : (L.ctx 2 fm rq rp).P = L.P.prod := C61.prod_nth _

include h in
theorem block_ctx {D : ℤ} (hD : ∀ x ∈ L.Q, 2 * (x : ℤ) ≤ D) :
    ∀ l < (L.ctx 2 fm rq rp).nQ, ∀ k < (L.ctx 2 fm rq rp).beta l, 2 * ((L.ctx 2 fm rq rp).blockProd l k : ℤ) ≤ D := by
  intro l hl k hk
  change l < L.Q.length at hl
  rw [beta_ctx h h2 fm rq rp hl] at hk
  have e : (L.ctx 2 fm rq rp).blockProd l k = nth L.Q k := by
    unfold Ctx.blockProd
    rw [alpha_ctx h2, show blockLen l 1 k = 1 by unfold blockLen; omega, prod_range_one, mul_one, add_zero]
    rfl
  rw [e]
  exact hD _ (C61.nth_mem (by omega))

include h in
/-- numbers that pass the checks are right for every system of up to `n` parties at the literal -/
theorem Checked.good {P : Pars} {n : ℕ} {D : ℤ} (c : Checked P L n D) {S : Sys (L.ctx 2 fm rq rp)} (hp : S.pscale = P.M) (hU : S.U.card ≤ n) (hSb : S.Sb = 1)
    (hRb : S.Rb = 1) (hBe : S.Be = 19) (hSD : S.D = D) : P.Good S := by
  have V := C61.valid h fm rq rp
  have hN : ((2 ^ L.logN : ℕ)) = P.N := c.deg.symm
  have hPp : 0 < L.P.prod := by rw [← P_ctx fm rq rp]; exact V.P_pos
  have hD0 : (0 : ℤ) ≤ D := le_trans (by positivity) (c.D _ (C61.nth_mem h.ne.1))
  have hq : ∀ l < L.Q.length, P.qlo ≤ nth L.Q l := fun l hl => c.qlo _ (C61.nth_mem hl)
  have hqlo0 : 0 < P.qlo := by have := c.near; have := c.M.1; omega
  have hmn := (mulNoise_mono (N := P.N) (P := L.P.prod) (le_refl n) (le_refl n) (le_refl L.Q.length) hD0).1
  -- the bound of the product for any prime
  have hK : ∀ l < L.Q.length, 2 * P.N * mulNoise P.N L.P.prod n n L.Q.length D 1 1 19 + L.P.prod * (P.N * (1 + n * P.N) * (nth L.Q l : ℕ)) ≤
      2 * L.P.prod * (P.K * (nth L.Q l : ℕ)) := fun l hl => by
    have hql : (P.qlo : ℤ) ≤ (nth L.Q l : ℕ) := by exact_mod_cast hq l hl
    have hk := c.K
    have hx : (0 : ℤ) ≤ 2 * L.P.prod * P.K - L.P.prod * (P.N * (1 + n * P.N)) := by
      by_contra hc
      push Not at hc
      have := mul_lt_mul_of_pos_right hc (show (0 : ℤ) < P.qlo by exact_mod_cast hqlo0)
      have h0 : (0 : ℤ) ≤ 2 * P.N * mulNoise P.N L.P.prod n n L.Q.length D 1 1 19 := by positivity
      linarith
    have := mul_le_mul_of_nonneg_left hql hx
    linarith
  have hKp : ∀ l < L.Q.length, (L.P.prod : ℤ) * (P.N * (1 + n * P.N) * (nth L.Q l : ℕ)) ≤ L.P.prod * (2 * (P.K * (nth L.Q l : ℕ))) := fun l hl => by
    have := hK l hl
    have h0 : (0 : ℤ) ≤ 2 * P.N * mulNoise P.N L.P.prod n n L.Q.length D 1 1 19 := by positivity
    linarith
  have hrot : ∀ (m : ℕ) (b : ℕ) (U : Finset String), m ≤ L.logN - 1 → b ≤ L.Q.length → U ⊆ S.U →
      0 ≤ ((2 ^ L.logN : ℕ) : ℝ) * (((m * C33.rotNoise (2 ^ L.logN) (L.ctx 2 fm rq rp).P U.card b S.D S.Sb S.Be : ℤ) : ℝ) / (L.ctx 2 fm rq rp).P) ∧
      ((2 ^ L.logN : ℕ) : ℝ) * (((m * C33.rotNoise (2 ^ L.logN) (L.ctx 2 fm rq rp).P U.card b S.D S.Sb S.Be : ℤ) : ℝ) / (L.ctx 2 fm rq rp).P) ≤ P.R :=
      fun m b U hm hb hUS => by
    rw [P_ctx, hSb, hBe, hSD, hN]
    obtain ⟨k0, k1⟩ := rotNoise_mono (N := P.N) (P := L.P.prod) ((card_le_card hUS).trans hU) hb hD0
    have hPr : (0 : ℝ) < L.P.prod := by exact_mod_cast hPp
    have k2 : (m : ℤ) * C33.rotNoise P.N L.P.prod U.card b D 1 19 ≤ (L.logN - 1 : ℕ) * C33.rotNoise P.N L.P.prod n L.Q.length D 1 19 :=
      mul_le_mul (by exact_mod_cast hm) k1 k0 (by positivity)
    have k3 : (0 : ℤ) ≤ (m : ℤ) * C33.rotNoise P.N L.P.prod U.card b D 1 19 := by positivity
    have k4 : (P.N : ℤ) * ((m : ℤ) * C33.rotNoise P.N L.P.prod U.card b D 1 19) ≤ P.R * L.P.prod :=
      (mul_le_mul_of_nonneg_left k2 (by positivity)).trans c.R
    generalize (m : ℤ) * C33.rotNoise P.N L.P.prod U.card b D 1 19 = x at *
    generalize L.P.prod = Pp at *
    have x0 : (0 : ℝ) ≤ x := by exact_mod_cast k3
    have x1 : (P.N : ℝ) * x ≤ P.R * Pp := by have := (Int.cast_le (R := ℝ)).mpr k4; push_cast at this ⊢; exact this
    refine ⟨by positivity, ?_⟩
    rw [mul_div_assoc', div_le_iff₀ hPr]
    exact x1
  refine ⟨c.deg, c.M.1, c.M.2.1, c.M.2.2, hp, by rw [c.q]; rfl, fun i hi => by rw [c.q]; rfl, fun i hi => hq i hi, c.near, fun l hl hl1 => ?_, c.rho, fun l hl U0 h0 U1 h1 => ?_,
    fun l hl hl1 U0 h0 U1 h1 => ?_, fun l hl U hu => ?_, fun l hl hl1 U hu => ?_, fun r a hl hi => ?_, fun a hl hi => ?_⟩
  · change l < L.Q.length at hl
    refine c.dist _ ?_
    show nth L.Q l ∈ _
    have : nth L.Q l = L.Q.tail[l - 1]'(by rw [List.length_tail]; omega) := by
      rw [C61.nth_lt hl, List.getElem_tail]
      congr 1
      omega
    rw [this]
    exact List.getElem_mem _
  · change l < L.Q.length at hl
    unfold mulEb
    rw [beta_ctx h h2 fm rq rp hl, P_ctx, hSb, hRb, hBe, hSD, show C27.dropped (L.ctx 2 fm rq rp).q l 1 = nth L.Q l by
      unfold C27.dropped; rw [prod_range_one]; rfl, hN]
    have k0 := (mulNoise_mono (N := P.N) (P := L.P.prod) ((card_le_card h0).trans hU) ((card_le_card h1).trans hU) (le_refl (l + 1)) hD0).1
    have kq : (0 : ℤ) ≤ ((nth L.Q l : ℕ) : ℤ) - 1 := by have := hq l hl; omega
    have : (0 : ℤ) ≤ 2 * mulNoise P.N L.P.prod U0.card U1.card (l + 1) D 1 1 19 + L.P.prod * ((((nth L.Q l : ℕ) : ℤ) - 1) * (1 + (U0 ∪ U1).card * P.N * 1)) := by
      positivity
    have : (0 : ℝ) ≤ ((2 * mulNoise P.N L.P.prod U0.card U1.card (l + 1) D 1 1 19 + L.P.prod * ((((nth L.Q l : ℕ) : ℤ) - 1) * (1 + (U0 ∪ U1).card * P.N * 1)) : ℤ) : ℝ) := by
      exact_mod_cast this
    positivity
  · change l < L.Q.length at hl
    unfold mulEb
    rw [beta_ctx h h2 fm rq rp hl, P_ctx, hSb, hRb, hBe, hSD, show C27.dropped (L.ctx 2 fm rq rp).q l 1 = nth L.Q l by
      unfold C27.dropped; rw [prod_range_one]; rfl]
    change _ ≤ (P.K : ℝ) * ((nth L.Q l : ℕ) : ℝ)
    rw [hN]
    obtain ⟨k0, k1⟩ := mulNoise_mono (N := P.N) (P := L.P.prod) ((card_le_card h0).trans hU) ((card_le_card h1).trans hU) (show l + 1 ≤ L.Q.length by omega) hD0
    have kq : (0 : ℤ) ≤ ((nth L.Q l : ℕ) : ℤ) - 1 := by have := hq l hl; omega
    have hc : (((U0 ∪ U1).card : ℕ) : ℤ) ≤ n := by exact_mod_cast (card_le_card (union_subset h0 h1)).trans hU
    have k2 : (((nth L.Q l : ℕ) : ℤ) - 1) * (1 + (U0 ∪ U1).card * P.N * 1) ≤ ((nth L.Q l : ℕ) : ℤ) * (1 + n * P.N) := by
      refine mul_le_mul (by omega) ?_ (by positivity) (by positivity)
      rw [mul_one]
      gcongr
    have k3 : (P.N : ℤ) * (2 * mulNoise P.N L.P.prod U0.card U1.card (l + 1) D 1 1 19 + L.P.prod * ((((nth L.Q l : ℕ) : ℤ) - 1) * (1 + (U0 ∪ U1).card * P.N * 1))) ≤
        P.K * (nth L.Q l : ℕ) * (2 * L.P.prod) := by
      have a1 := mul_le_mul_of_nonneg_left k1 (show (0 : ℤ) ≤ 2 * P.N by positivity)
      have a2 := mul_le_mul_of_nonneg_left k2 (show (0 : ℤ) ≤ P.N * L.P.prod by positivity)
      have := hK l hl
      linarith
    have hPr : (0 : ℝ) < 2 * L.P.prod := by have : (0 : ℝ) < L.P.prod := by exact_mod_cast hPp
                                            linarith
    generalize (2 * mulNoise P.N L.P.prod U0.card U1.card (l + 1) D 1 1 19 + L.P.prod * ((((nth L.Q l : ℕ) : ℤ) - 1) * (1 + (U0 ∪ U1).card * P.N * 1)) : ℤ) = x at *
    generalize L.P.prod = Pp at *
    have k4 : (P.N : ℝ) * x ≤ P.K * (nth L.Q l : ℕ) * (2 * Pp) := by have := (Int.cast_le (R := ℝ)).mpr k3; push_cast at this ⊢; exact this
    rw [mul_div_assoc', div_le_iff₀ hPr]
    exact k4
  · change l < L.Q.length at hl
    rw [hSb]
    change (0 : ℝ) ≤ ((((nth L.Q l : ℕ) : ℤ) - 1) * (1 + U.card * ((2 ^ L.logN : ℕ) : ℤ) * 1) : ℤ) / 2
    rw [hN]
    have kq : (0 : ℤ) ≤ ((nth L.Q l : ℕ) : ℤ) - 1 := by have := hq l hl; omega
    have : (0 : ℤ) ≤ (((nth L.Q l : ℕ) : ℤ) - 1) * (1 + U.card * P.N * 1) := by positivity
    have : (0 : ℝ) ≤ (((((nth L.Q l : ℕ) : ℤ) - 1) * (1 + U.card * P.N * 1) : ℤ) : ℝ) := by exact_mod_cast this
    exact div_nonneg this (by norm_num)
  · change l < L.Q.length at hl
    rw [hSb]
    change ((2 ^ L.logN : ℕ) : ℝ) * ((((((nth L.Q l : ℕ) : ℤ) - 1) * (1 + U.card * ((2 ^ L.logN : ℕ) : ℤ) * 1) : ℤ) : ℝ) / 2) ≤ (P.K : ℝ) * ((nth L.Q l : ℕ) : ℝ)
    rw [hN]
    show (P.N : ℝ) * (((((((nth L.Q l : ℕ) : ℤ) - 1) * (1 + U.card * P.N * 1) : ℤ)) : ℝ) / 2) ≤ (P.K : ℝ) * ((nth L.Q l : ℕ) : ℝ)
    have kq : (0 : ℤ) ≤ ((nth L.Q l : ℕ) : ℤ) - 1 := by have := hq l hl; omega
    have hc : ((U.card : ℕ) : ℤ) ≤ n := by exact_mod_cast (card_le_card hu).trans hU
    have k2 : (((nth L.Q l : ℕ) : ℤ) - 1) * (1 + U.card * P.N * 1) ≤ ((nth L.Q l : ℕ) : ℤ) * (1 + n * P.N) := by
      refine mul_le_mul (by omega) ?_ (by positivity) (by positivity)
      rw [mul_one]
      gcongr
    have k3 : (P.N : ℤ) * ((((nth L.Q l : ℕ) : ℤ) - 1) * (1 + U.card * P.N * 1)) ≤ 2 * (P.K * (nth L.Q l : ℕ)) := by
      have a2 := mul_le_mul_of_nonneg_left k2 (show (0 : ℤ) ≤ P.N by positivity)
      have := le_of_mul_le_mul_left (hKp l hl) (show (0 : ℤ) < L.P.prod by exact_mod_cast hPp)
      linarith
    generalize ((((nth L.Q l : ℕ) : ℤ) - 1) * (1 + U.card * P.N * 1) : ℤ) = x at *
    have k4 : (P.N : ℝ) * x ≤ 2 * (P.K * (nth L.Q l : ℕ)) := by have := (Int.cast_le (R := ℝ)).mpr k3; push_cast at this ⊢; exact this
    linarith
  · change a.level < L.Q.length at hl
    unfold rotErr
    rw [beta_ctx h h2 fm rq rp hl]
    refine hrot _ _ _ ?_ (by omega) hi
    unfold C35.rotCount
    have hlog := c.log
    split_ifs
    · exact Nat.zero_le _
    · omega
    · refine C58.popcount_le _ _ ?_
      have := (C35.rotNorm_amount V r).2
      have e : 2 ^ L.logN / 2 = 2 ^ (L.logN - 1) := by
        rw [show L.logN = L.logN - 1 + 1 by omega, pow_succ, Nat.mul_div_cancel _ (by norm_num)]; rfl
      rw [← e]
      exact this
  · change a.level < L.Q.length at hl
    unfold conjErr
    rw [beta_ctx h h2 fm rq rp hl]
    have := hrot 1 (a.level + 1) a.ids (by have := c.log; omega) (by omega) hi
    rw [Nat.cast_one, one_mul] at this
    exact this

end

theorem checked14 : Checked pars14 ckks14 4 (2 * 0x7ffffffffe70001) where
  deg := by decide +kernel
  q := rfl
  M := by decide +kernel
  qlo := by decide +kernel
  near := by decide +kernel
  dist := by decide +kernel
  rho := by decide +kernel
  K := by unfold mulNoise; decide +kernel
  R := by unfold C33.rotNoise; decide +kernel
  D := by decide +kernel
  log := by decide +kernel

theorem checked15 : Checked pars15 ckks15 4 (2 * 0xfffffffff6a0001) where
  deg := by decide +kernel
  q := rfl
  M := by decide +kernel
  qlo := by decide +kernel
  near := by decide +kernel
  dist := by decide +kernel
  rho := by decide +kernel
  K := by unfold mulNoise; decide +kernel
  R := by unfold C33.rotNoise; decide +kernel
  D := by decide +kernel
  log := by decide +kernel

end MKHE.C67
