import Verif.Spec.CkksBudget
import Verif.Props.CkksClient
import Verif.Props.Literal

set_option autoImplicit false

/-!
# C67: the error estimator is safe
-/

namespace MKHE.C67
open Finset Nega C59

/-! ## scales -/

/-- one product and division by a prime near the default scale `M` -/
theorem scale_step (fm : FloatModel) {M : ℚ} (hM : 0 < M) (hM54 : M ≤ 2 ^ 54) {a b q ηa ηb ρ : ℚ} (ha : |a - M| ≤ ηa * M) (hb : |b - M| ≤ ηb * M)
    (h0a : 0 ≤ ηa) (h1a : ηa ≤ 1 / 2048) (h0b : 0 ≤ ηb) (h1b : ηb ≤ 1 / 2048) (hq : |q - M| ≤ ρ * M) (h0 : 0 ≤ ρ) (h1 : ρ ≤ 1 / 2 ^ 20) :
    |fm.div (fm.mul a b) (fm.rnd q) - M| ≤ (ηa + ηb + ηa * ηb + 2 * ρ + 1 / 2 ^ 48) * M ∧
      |a * b / q - fm.div (fm.mul a b) (fm.rnd q)| ≤ 16 := by
  obtain ⟨A, rfl⟩ : ∃ A, a = M * A := ⟨a / M, by field_simp⟩
  obtain ⟨B, rfl⟩ : ∃ B, b = M * B := ⟨b / M, by field_simp⟩
  obtain ⟨Q, rfl⟩ : ∃ Q, q = M * Q := ⟨q / M, by field_simp⟩
  have norm : ∀ {x η : ℚ}, |M * x - M| ≤ η * M → 1 - η ≤ x ∧ x ≤ 1 + η := fun {x η} h => by
    obtain ⟨h1, h2⟩ := abs_le.mp h
    constructor <;> nlinarith
  obtain ⟨hA1, hA2⟩ := norm ha
  obtain ⟨hB1, hB2⟩ := norm hb
  obtain ⟨hQ1, hQ2⟩ := norm hq
  have hA0 : 0 < A := by linarith
  have hB0 : 0 < B := by linarith
  have hQ0 : 0 < Q := by linarith
  have hAB0 : 0 < A * B := mul_pos hA0 hB0
  have hAB1 : (1 - ηa) * (1 - ηb) ≤ A * B := mul_le_mul hA1 hB1 (by linarith) hA0.le
  have hAB2 : A * B ≤ (1 + ηa) * (1 + ηb) := mul_le_mul hA2 hB2 hB0.le (by linarith)
  have hAB3 : A * B ≤ 1026 / 1024 := hAB2.trans (by nlinarith)
  -- the exact quotient, over M
  set z := A * B / Q with hz
  have hz0 : 0 < z := div_pos hAB0 hQ0
  have hz1 : z ≤ A * B + 3 / 2 * ρ := by
    rw [hz, div_le_iff₀ hQ0]
    nlinarith
  have hz2 : A * B - 3 / 2 * ρ ≤ z := by
    rw [hz, le_div_iff₀ hQ0]
    nlinarith
  have hz3 : z ≤ 5 / 4 := by linarith
  -- rounding
  obtain ⟨u, hu⟩ : ∃ u : ℚ, u = unitRoundoff := ⟨_, rfl⟩
  have hu0 : u = 1 / 2 ^ 53 := hu
  have hx : (0 : ℚ) ≤ M * A * (M * B) := by positivity
  have r1 := fm.rnd_le hx
  have r2 := fm.le_rnd hx
  have hMQ : 0 ≤ M * Q := by positivity
  have t1 := fm.rnd_le hMQ
  have t2 := fm.le_rnd hMQ
  rw [← hu] at r1 r2 t1 t2
  have hu1 : (0 : ℚ) < 1 - u := by rw [hu0]; norm_num
  have hq0 : 0 < fm.rnd (M * Q) := lt_of_lt_of_le (mul_pos (mul_pos hM hQ0) hu1) t2
  have hy : 0 ≤ fm.rnd (M * A * (M * B)) / fm.rnd (M * Q) := div_nonneg (fm.rnd_nonneg hx) hq0.le
  have s1 := fm.rnd_le hy
  have s2 := fm.le_rnd hy
  rw [← hu] at s1 s2
  unfold FloatModel.div FloatModel.mul
  set X := fm.rnd (M * A * (M * B))
  set T := fm.rnd (M * Q)
  set Y := fm.rnd (X / T)
  have hX1 : X / T ≤ M * z * ((1 + u) / (1 - u)) := by
    rw [div_le_iff₀ hq0]
    have e : M * z * ((1 + u) / (1 - u)) * (M * Q * (1 - u)) = M * A * (M * B) * (1 + u) := by rw [hz]; field_simp
    have := mul_le_mul_of_nonneg_left t2 (show 0 ≤ M * z * ((1 + u) / (1 - u)) by rw [hu0]; positivity)
    linarith
  have hX2 : M * z * ((1 - u) / (1 + u)) ≤ X / T := by
    rw [le_div_iff₀ hq0]
    have e : M * z * ((1 - u) / (1 + u)) * (M * Q * (1 + u)) = M * A * (M * B) * (1 - u) := by
      have : (1 + u) ≠ 0 := by rw [hu0]; norm_num
      rw [hz]; field_simp
    have hn : 0 ≤ M * z * ((1 - u) / (1 + u)) := mul_nonneg (by positivity) (by rw [hu0]; norm_num)
    have := mul_le_mul_of_nonneg_left t1 hn
    linarith
  have hMz : 0 ≤ M * z := by positivity
  have hY1 : Y ≤ M * z * (1 + 5 / 2 ^ 53) := by
    refine s1.trans ((mul_le_mul_of_nonneg_right hX1 (by rw [hu0]; norm_num)).trans ?_)
    rw [mul_assoc (M * z)]
    exact mul_le_mul_of_nonneg_left (by rw [hu0]; norm_num) hMz
  have hY2 : M * z * (1 - 5 / 2 ^ 53) ≤ Y := by
    refine le_trans ?_ ((mul_le_mul_of_nonneg_right hX2 (by rw [hu0]; norm_num)).trans s2)
    rw [mul_assoc (M * z)]
    exact mul_le_mul_of_nonneg_left (by rw [hu0]; norm_num) hMz
  have e : M * A * (M * B) / (M * Q) = M * z := by rw [hz]; field_simp
  constructor
  · have c1 : Y ≤ M * (A * B + 3 / 2 * ρ + 1 / 2 ^ 49) := by
      refine hY1.trans ?_
      rw [mul_assoc]
      refine mul_le_mul_of_nonneg_left ?_ hM.le
      linarith
    have c2 : M * (A * B - 3 / 2 * ρ - 1 / 2 ^ 49) ≤ Y := by
      refine le_trans ?_ hY2
      rw [mul_assoc]
      refine mul_le_mul_of_nonneg_left ?_ hM.le
      linarith
    have d1 : A * B - 1 + 3 / 2 * ρ + 1 / 2 ^ 49 ≤ ηa + ηb + ηa * ηb + 2 * ρ + 1 / 2 ^ 48 := by linarith
    have d2 : -(ηa + ηb + ηa * ηb + 2 * ρ + 1 / 2 ^ 48) ≤ A * B - 1 - 3 / 2 * ρ - 1 / 2 ^ 49 := by
      have := mul_nonneg h0a h0b
      linarith
    have f1 := mul_le_mul_of_nonneg_left d1 hM.le
    have f2 := mul_le_mul_of_nonneg_left d2 hM.le
    rw [abs_le]
    constructor <;> linarith
  · rw [e]
    have : M * z ≤ 2 ^ 54 * (5 / 4) := mul_le_mul hM54 hz3 hz0.le (by norm_num)
    rw [abs_le]
    constructor <;> linarith

/-- rounding down a natural quotient loses less than one -/
theorem le_div (x : ℕ) {d : ℕ} (hd : 0 < d) : (x : ℝ) / d ≤ ((x / d : ℕ) : ℝ) + 1 := by
  rw [div_le_iff₀ (by exact_mod_cast hd)]
  have := Nat.lt_mul_div_succ x hd
  have h : (x : ℝ) ≤ ((d * (x / d + 1) : ℕ) : ℝ) := by exact_mod_cast this.le
  push_cast at h ⊢
  linarith

/-- the error of a product in the numbers of the estimator -/
theorem prod_err {N q K M qlo va vb ba bb : ℕ} {Eb sa Va Ba sb Vb Bb s : ℝ} (hq0 : 0 < qlo) (hq : qlo ≤ q) (hE : N * Eb ≤ K * q)
    (hM : 1024 * (2049 * M) ≤ 2048 * (1025 * qlo)) (sa0 : 0 ≤ sa) (sa1 : sa ≤ M * (2049 / 2048)) (sb0 : 0 ≤ sb) (sb1 : sb ≤ M * (2049 / 2048))
    (Va0 : 0 ≤ Va) (Va1 : Va ≤ va / 2 ^ 20) (Vb0 : 0 ≤ Vb) (Vb1 : Vb ≤ vb / 2 ^ 20) (Ba0 : 0 ≤ Ba) (Ba1 : Ba ≤ ba) (Bb0 : 0 ≤ Bb) (Bb1 : Bb ≤ bb)
    (hs : |sa * sb / q - s| ≤ 16) :
    prodErr N q Eb sa Va Ba sb Vb Bb s ≤
      (((ba * bb / qlo + 1) + (1025 * (ba * vb + va * bb) / 2 ^ 30 + 1) + K + (16 * (va * vb) / 2 ^ 40 + 1) : ℕ) : ℝ) := by
  have h1 := le_div (ba * bb) hq0
  have h2 := le_div (1025 * (ba * vb + va * bb)) (show 0 < 2 ^ 30 by norm_num)
  have h3 := le_div (16 * (va * vb)) (show 0 < 2 ^ 40 by norm_num)
  have q0 : (0 : ℝ) < qlo := by exact_mod_cast hq0
  have q1 : (qlo : ℝ) ≤ q := by exact_mod_cast hq
  have q2 : (0 : ℝ) < q := by linarith
  have hMr : (M : ℝ) * (2049 / 2048) ≤ 1025 / 1024 * q := by
    have : ((1024 * (2049 * M) : ℕ) : ℝ) ≤ ((2048 * (1025 * qlo) : ℕ) : ℝ) := by exact_mod_cast hM
    push_cast at this
    linarith
  have ba0 : (0 : ℝ) ≤ ba := Nat.cast_nonneg _
  have bb0 : (0 : ℝ) ≤ bb := Nat.cast_nonneg _
  have va0 : (0 : ℝ) ≤ va / 2 ^ 20 := by positivity
  have vb0 : (0 : ℝ) ≤ vb / 2 ^ 20 := by positivity
  have t1 : Ba * Bb ≤ (ba * bb / qlo : ℝ) * q := by
    calc Ba * Bb ≤ ba * bb := mul_le_mul Ba1 Bb1 Bb0 ba0
      _ = (ba * bb / qlo : ℝ) * qlo := by field_simp
      _ ≤ _ := mul_le_mul_of_nonneg_left q1 (by positivity)
  have t2 : Ba * (sb * Vb) ≤ ba * (1025 / 1024 * q * (vb / 2 ^ 20)) :=
    mul_le_mul Ba1 (mul_le_mul (sb1.trans hMr) Vb1 Vb0 (by positivity)) (mul_nonneg sb0 Vb0) ba0
  have t3 : sa * Va * Bb ≤ 1025 / 1024 * q * (va / 2 ^ 20) * bb :=
    mul_le_mul (mul_le_mul (sa1.trans hMr) Va1 Va0 (by positivity)) Bb1 Bb0 (by positivity)
  have t4 : (Ba * Bb + Ba * (sb * Vb) + sa * Va * Bb + N * Eb) / q ≤ ba * bb / qlo + 1025 * (ba * vb + va * bb) / 2 ^ 30 + K := by
    rw [div_le_iff₀ q2]
    have e : (ba * bb / qlo + 1025 * (ba * vb + va * bb) / 2 ^ 30 + K : ℝ) * q = (ba * bb / qlo : ℝ) * q +
        ba * (1025 / 1024 * q * (vb / 2 ^ 20)) + 1025 / 1024 * q * (va / 2 ^ 20) * bb + K * q := by ring
    rw [e]
    linarith
  have t5 : |sa * sb / q - s| * (Va * Vb) ≤ 16 * (va * vb) / 2 ^ 40 := by
    calc _ ≤ 16 * (va / 2 ^ 20 * (vb / 2 ^ 20) : ℝ) := mul_le_mul hs (mul_le_mul Va1 Vb1 Vb0 va0) (mul_nonneg Va0 Vb0) (by norm_num)
      _ = _ := by ring
  unfold prodErr
  push_cast at h1 h2 h3 ⊢
  linarith

variable {N : ℕ} [NeZero N] {C : Ctx N}

/-- the estimator's numbers are right for the system -/
structure Pars.Good (P : Pars) (S : Sys C) : Prop where
  deg : P.N = N
  M20 : 2 ^ 20 ≤ P.M
  M54 : P.M ≤ 2 ^ 54
  even : 2 ∣ P.M
  pscale : S.pscale = P.M
  len : P.q.length = C.nQ
  q : ∀ i < C.nQ, C.q i = nth P.q i
  qlo : ∀ i < C.nQ, P.qlo ≤ C.q i
  near : 1024 * (2049 * P.M) ≤ 2048 * (1025 * P.qlo)
  dist : ∀ l < C.nQ, 1 ≤ l → 2 ^ 41 * |(C.q l : ℤ) - P.M| + P.M ≤ P.rho * P.M
  rho : P.rho ≤ 2 ^ 20
  K0 : ∀ l < C.nQ, ∀ U0 ⊆ S.U, ∀ U1 ⊆ S.U, 0 ≤ mulEb S l 1 U0 U1
  K : ∀ l < C.nQ, 1 ≤ l → ∀ U0 ⊆ S.U, ∀ U1 ⊆ S.U, N * mulEb S l 1 U0 U1 ≤ P.K * C.q l
  Kp0 : ∀ l < C.nQ, ∀ U ⊆ S.U, (0 : ℝ) ≤ ((((C.q l - 1) * (1 + U.card * N * S.Sb) : ℤ) : ℝ) / 2)
  Kp : ∀ l < C.nQ, 1 ≤ l → ∀ U ⊆ S.U, (N : ℝ) * ((((C.q l - 1) * (1 + U.card * N * S.Sb) : ℤ) : ℝ) / 2) ≤ P.K * C.q l
  R : ∀ r (a : Info), a.level < C.nQ → a.ids ⊆ S.U → 0 ≤ rotErr S r a ∧ rotErr S r a ≤ P.R
  Rc : ∀ a : Info, a.level < C.nQ → a.ids ⊆ S.U → 0 ≤ conjErr S a ∧ conjErr S a ≤ P.R

/-- the estimate covers what is known of a ciphertext -/
structure Near (P : Pars) (S : Sys C) (i : Info) (e : Est) : Prop where
  lt : e.level < C.nQ
  level : i.level = e.level
  ids : i.ids ⊆ S.U
  scale : |i.scale - P.M| ≤ (e.eta : ℚ) / 2 ^ 40 * P.M
  v0 : 0 ≤ i.V
  v : i.V ≤ e.v / 2 ^ 20
  b0 : 0 ≤ i.B
  b : i.B ≤ e.b

variable {P : Pars} {S : Sys C} {a b : Info} {ea eb e : Est}

theorem eta_le (h : e.near = true) : (e.eta : ℚ) / 2 ^ 40 ≤ 1 / 2048 := by
  have h : e.eta ≤ 2 ^ 29 := of_decide_eq_true h
  have : (e.eta : ℚ) ≤ 2 ^ 29 := by exact_mod_cast h
  rw [div_le_iff₀ (by norm_num)]
  linarith

theorem eta_nonneg : (0 : ℚ) ≤ (e.eta : ℚ) / 2 ^ 40 := by positivity

theorem Near.pos (G : P.Good S) (h : Near P S a ea) (hn : ea.near = true) : 0 < a.scale ∧ a.scale ≤ P.M * (2049 / 2048) ∧ P.M * (2047 / 2048) ≤ a.scale := by
  have h1 := abs_le.mp h.scale
  have h2 := eta_le hn
  have hM : (0 : ℚ) < P.M := by have := G.M20; exact_mod_cast (show 0 < P.M by omega)
  have h3 := mul_le_mul_of_nonneg_right h2 hM.le
  refine ⟨?_, ?_, ?_⟩ <;> linarith [h1.1, h1.2]

/-- relative distance of a prime from the default scale -/
theorem rho_le (G : P.Good S) {l : ℕ} (hl : l < C.nQ) (hl1 : 1 ≤ l) : ∃ ρ : ℚ, 0 ≤ ρ ∧ ρ ≤ 1 / 2 ^ 20 ∧ |(C.q l : ℚ) - P.M| ≤ ρ * P.M ∧
    2 * ρ + 1 / 2 ^ 48 ≤ (P.rho : ℚ) / 2 ^ 40 := by
  have hM : (0 : ℚ) < P.M := by have := G.M20; exact_mod_cast (show 0 < P.M by omega)
  have h : (2 : ℚ) ^ 41 * |(C.q l : ℚ) - P.M| + P.M ≤ P.rho * P.M := by exact_mod_cast G.dist l hl hl1
  have hr : (P.rho : ℚ) ≤ 2 ^ 20 := by exact_mod_cast G.rho
  have h2 : 2 ^ 41 * (|(C.q l : ℚ) - P.M| / P.M) + 1 ≤ P.rho := by
    have e : (2 ^ 41 * (|(C.q l : ℚ) - P.M| / P.M) + 1) * P.M = 2 ^ 41 * |(C.q l : ℚ) - P.M| + P.M := by field_simp
    exact le_of_mul_le_mul_right (by rw [e]; exact h) hM
  refine ⟨|(C.q l : ℚ) - P.M| / P.M, by positivity, ?_, by rw [div_mul_cancel₀ _ hM.ne'], ?_⟩
  · linarith
  · rw [le_div_iff₀ (by norm_num)]
    linarith

theorem count_unique {fm : FloatModel} {q : ℕ → ℕ} {l : ℕ} {s ms : ℚ} {n n' : ℕ} (h : Drops fm q l s ms n) (h' : Drops fm q l s ms n') : n = n' := by
  rcases h with ⟨h1, h2⟩ | ⟨h1, h2⟩ <;> rcases h' with ⟨h1', h2'⟩ | ⟨h1', h2'⟩
  · omega
  · omega
  · omega
  · rcases lt_trichotomy n n' with hn | hn | hn
    · exact absurd (h2'.above n hn) (not_le.mpr h2.below)
    · exact hn
    · exact absurd (h2.above n' hn) (not_le.mpr h2'.below)

theorem half (G : P.Good S) (fm : FloatModel) : fm.div P.M 2 = P.M / 2 := by
  obtain ⟨m, hm⟩ := G.even
  have h54 := G.M54
  unfold FloatModel.div
  have := fm.exact_nat m (by omega)
  rw [hm]
  push_cast
  rw [mul_div_cancel_left₀ _ (by norm_num : (2 : ℚ) ≠ 0)]
  exact this

/-- a product of two scales near the default scale is divided by exactly one prime -/
theorem product (G : P.Good S) {l : ℕ} (hl : l < C.nQ) (hl1 : 1 ≤ l) {sa sb ηa ηb : ℚ} (ha : |sa - P.M| ≤ ηa * P.M) (hb : |sb - P.M| ≤ ηb * P.M)
    (h0a : 0 ≤ ηa) (h1a : ηa ≤ 1 / 2048) (h0b : 0 ≤ ηb) (h1b : ηb ≤ 1 / 2048) :
    MulOk S l (C.fm.mul sa sb) ∧ drops S l (C.fm.mul sa sb) = 1 ∧ C27.dropped C.q l 1 = C.q l ∧
      |C27.scaleAfter C.fm C.q l (C.fm.mul sa sb) 1 - P.M| ≤ (ηa + ηb + ηa * ηb + (P.rho : ℚ) / 2 ^ 40) * P.M ∧
      |sa * sb / C.q l - C27.scaleAfter C.fm C.q l (C.fm.mul sa sb) 1| ≤ 16 := by
  have hM : (0 : ℚ) < P.M := by have := G.M20; exact_mod_cast (show 0 < P.M by omega)
  have hM20 : (2 ^ 20 : ℚ) ≤ P.M := by exact_mod_cast G.M20
  have hM54 : (P.M : ℚ) ≤ 2 ^ 54 := by exact_mod_cast G.M54
  obtain ⟨ρ, r0, r1, r2, r3⟩ := rho_le G hl hl1
  obtain ⟨s1, s2⟩ := scale_step C.fm hM hM54 ha hb h0a h1a h0b h1b r2 r0 r1
  have hsc : C27.scaleAfter C.fm C.q l (C.fm.mul sa sb) 1 = C.fm.div (C.fm.mul sa sb) (C.fm.rnd (C.q l)) := rfl
  have hη : ηa + ηb + ηa * ηb + 2 * ρ + 1 / 2 ^ 48 ≤ 1 / 256 := by nlinarith
  have s3 := abs_le.mp (s1.trans (mul_le_mul_of_nonneg_right hη hM.le))
  have hd : Drops C.fm C.q l (C.fm.mul sa sb) S.pscale 1 := by
    rw [G.pscale]
    refine .inr ⟨hl1, hl1, fun j hj => ?_, ?_⟩
    · have : j = 0 := by omega
      subst this
      rw [half G]
      show (P.M : ℚ) / 2 ≤ C.fm.div (C.fm.mul sa sb) (C.fm.rnd (C.q (l - 0)))
      rw [Nat.sub_zero]
      linarith [s3.1]
    · rw [half G]
      show C.fm.div (C.fm.div (C.fm.mul sa sb) (C.fm.rnd (C.q (l - 0)))) (C.fm.rnd (C.q (l - 1))) < P.M / 2
      rw [Nat.sub_zero]
      set t := C.fm.div (C.fm.mul sa sb) (C.fm.rnd (C.q l))
      have ht1 : t ≤ 2 * P.M := by linarith [s3.2]
      have hqn : (P.M : ℚ) / 2 ≤ C.q (l - 1) := by
        have h1 := G.qlo (l - 1) (by omega)
        have h2 := G.near
        have h3 : P.M ≤ 2 * C.q (l - 1) := by omega
        have : (P.M : ℚ) ≤ 2 * C.q (l - 1) := by exact_mod_cast h3
        linarith
      have hq : (P.M : ℚ) / 4 ≤ C.fm.rnd (C.q (l - 1)) := by
        have h := C.fm.le_rnd (show (0 : ℚ) ≤ C.q (l - 1) by positivity)
        have hu : unitRoundoff = 1 / 2 ^ 53 := rfl
        rw [hu] at h
        linarith
      have hd : t / C.fm.rnd (C.q (l - 1)) ≤ ((8 : ℕ) : ℚ) := by
        rw [div_le_iff₀ (by linarith)]
        push_cast
        linarith
      unfold FloatModel.div
      calc C.fm.rnd (t / C.fm.rnd (C.q (l - 1))) ≤ C.fm.rnd ((8 : ℕ) : ℚ) := C.fm.mono _ _ hd
        _ = 8 := by rw [C.fm.exact_nat 8 (by norm_num)]; norm_num
        _ < _ := by linarith
  have hm : MulOk S l (C.fm.mul sa sb) := ⟨1, hd⟩
  refine ⟨hm, count_unique (MulOk.spec hm) hd, ?_, ?_, ?_⟩
  · unfold C27.dropped; rw [prod_range_one]; rfl
  · rw [hsc]
    refine s1.trans (mul_le_mul_of_nonneg_right ?_ hM.le)
    linarith
  · rw [hsc]; exact s2

/-! ## the operations -/

theorem ratio_lt (fm : FloatModel) {M s s' ηa ηb : ℚ} (hM : 0 < M) (ha : |s - M| ≤ ηa * M) (hb : |s' - M| ≤ ηb * M) (h1a : ηa ≤ 1 / 2048)
    (h1b : ηb ≤ 1 / 2048) : ⌊fm.div s' s⌋ ≤ 1 := by
  have a' := abs_le.mp ha
  have b' := abs_le.mp hb
  have ca := mul_le_mul_of_nonneg_right h1a hM.le
  have cb := mul_le_mul_of_nonneg_right h1b hM.le
  have hs : 0 < s := by linarith [a'.1]
  have hs' : 0 < s' := by linarith [b'.1]
  have h1 : s' / s ≤ 3 / 2 := by
    rw [div_le_iff₀ hs]
    linarith [a'.1, b'.2]
  have h2 := fm.rnd_le (div_nonneg hs'.le hs.le)
  unfold FloatModel.div
  have hu : unitRoundoff = 1 / 2 ^ 53 := rfl
  rw [← Int.lt_add_one_iff, Int.floor_lt]
  push_cast
  calc fm.rnd (s' / s) ≤ s' / s * (1 + unitRoundoff) := h2
    _ ≤ 3 / 2 * (1 + unitRoundoff) := mul_le_mul_of_nonneg_right h1 (by rw [hu]; norm_num)
    _ < _ := by rw [hu]; norm_num

theorem factor_one (fm : FloatModel) {M s s' ηa ηb : ℚ} (hM : 0 < M) (ha : |s - M| ≤ ηa * M) (hb : |s' - M| ≤ ηb * M) (h1a : ηa ≤ 1 / 2048)
    (h1b : ηb ≤ 1 / 2048) : C23.factor fm s s' = 1 := by
  unfold C23.factor
  rw [if_neg]
  rintro ⟨-, h⟩
  exact absurd (ratio_lt fm hM ha hb h1a h1b) (not_le.mpr h)

theorem Good.posM (G : P.Good S) : (0 : ℚ) < P.M := by have := G.M20; exact_mod_cast (show 0 < P.M by omega)

theorem Near.sum (G : P.Good S) (ha : Near P S a ea) (hb : Near P S b eb) (h : ea.add P eb = some e) : AddOk C.fm a b ∧ Near P S (a.add C.fm b) e := by
  unfold Est.add at h
  split at h
  case isFalse => cases h
  rename_i hn
  injection h with h
  subst h
  rw [Bool.and_eq_true] at hn
  have hM := Good.posM G
  have h1a := eta_le hn.1
  have h1b := eta_le hn.2
  have f1 := factor_one C.fm hM ha.scale hb.scale h1a h1b
  have f2 := factor_one C.fm hM hb.scale ha.scale h1b h1a
  have r1 := ratio_lt C.fm hM ha.scale hb.scale h1a h1b
  have r2 := ratio_lt C.fm hM hb.scale ha.scale h1b h1a
  have a' := abs_le.mp ha.scale
  have b' := abs_le.mp hb.scale
  have ca : (0 : ℚ) ≤ ea.eta / 2 ^ 40 * P.M := mul_nonneg eta_nonneg hM.le
  have cb : (0 : ℚ) ≤ eb.eta / 2 ^ 40 * P.M := mul_nonneg eta_nonneg hM.le
  have m1 : |a.scale - max a.scale b.scale| ≤ (ea.eta + eb.eta) / 2 ^ 40 * P.M := by
    rw [add_div, add_mul]
    rcases max_choice a.scale b.scale with h | h <;> rw [h, abs_le] <;> constructor <;> linarith [a'.1, a'.2, b'.1, b'.2]
  have m2 : |b.scale - max a.scale b.scale| ≤ (ea.eta + eb.eta) / 2 ^ 40 * P.M := by
    rw [add_div, add_mul]
    rcases max_choice a.scale b.scale with h | h <;> rw [h, abs_le] <;> constructor <;> linarith [a'.1, a'.2, b'.1, b'.2]
  have M1 : |(a.scale : ℝ) - (max a.scale b.scale : ℚ)| ≤ (ea.eta + eb.eta) / 2 ^ 40 * P.M := by
    have := (Rat.cast_le (K := ℝ)).mpr m1
    rw [Rat.cast_abs, Rat.cast_sub] at this
    push_cast at this ⊢
    exact this
  have M2 : |(b.scale : ℝ) - (max a.scale b.scale : ℚ)| ≤ (ea.eta + eb.eta) / 2 ^ 40 * P.M := by
    have := (Rat.cast_le (K := ℝ)).mpr m2
    rw [Rat.cast_abs, Rat.cast_sub] at this
    push_cast at this ⊢
    exact this
  have e0 : (0 : ℝ) ≤ (ea.eta + eb.eta) / 2 ^ 40 * P.M := le_trans (abs_nonneg _) M1
  have hVa := ha.v0; have hVb := hb.v0; have hBa := ha.b0; have hBb := hb.b0
  refine ⟨⟨by omega, by omega⟩, ?_, ?_, ?_, ?_, ?_, ?_, ?_, ?_⟩
  · exact lt_of_le_of_lt (min_le_left _ _) ha.lt
  · show min a.level b.level = _
    rw [ha.level, hb.level]
  · exact union_subset ha.ids hb.ids
  · show |max a.scale b.scale - P.M| ≤ ((max ea.eta eb.eta : ℕ) : ℚ) / 2 ^ 40 * P.M
    have k : ∀ {x : ℕ}, x ≤ max ea.eta eb.eta → (x : ℚ) / 2 ^ 40 * P.M ≤ ((max ea.eta eb.eta : ℕ) : ℚ) / 2 ^ 40 * P.M := fun {x} h => by
      have : (x : ℚ) ≤ ((max ea.eta eb.eta : ℕ) : ℚ) := by exact_mod_cast h
      gcongr
    rcases max_choice a.scale b.scale with h | h
    · rw [h]; exact ha.scale.trans (k (le_max_left _ _))
    · rw [h]; exact hb.scale.trans (k (le_max_right _ _))
  · exact add_nonneg hVa hVb
  · show a.V + b.V ≤ ((ea.v + eb.v : ℕ) : ℝ) / 2 ^ 20
    push_cast
    rw [add_div]
    exact add_le_add ha.v hb.v
  all_goals
    unfold Info.add
    dsimp only
    unfold addErr
    rw [f1, f2, Nat.cast_one, one_mul, one_mul, one_mul, one_mul]
  · exact add_nonneg (add_nonneg (add_nonneg hBa hBb) (mul_nonneg (abs_nonneg _) hVa)) (mul_nonneg (abs_nonneg _) hVb)
  · have t1 := mul_le_mul M1 ha.v hVa e0
    have t2 := mul_le_mul M2 hb.v hVb e0
    have := ha.b; have := hb.b
    have t3 := le_div ((ea.eta + eb.eta) * P.M * (ea.v + eb.v)) (show 0 < 2 ^ 60 by norm_num)
    push_cast at t1 t2 t3 ⊢
    have t4 : ((ea.eta + eb.eta) * P.M * (ea.v + eb.v) / 1152921504606846976 : ℝ) =
        (ea.eta + eb.eta) / 2 ^ 40 * P.M * (ea.v / 2 ^ 20) + (ea.eta + eb.eta) / 2 ^ 40 * P.M * (eb.v / 2 ^ 20) := by ring
    linarith

/-- a product or a product with a plaintext -/
theorem Near.prod (G : P.Good S) {l : ℕ} (hl : l < C.nQ) (hl1 : 1 ≤ l) {sa sb : ℚ} {Va Ba Vb Bb Eb : ℝ} {ηa ηb va ba vb bb : ℕ}
    (hsa : |sa - P.M| ≤ (ηa : ℚ) / 2 ^ 40 * P.M) (hsb : |sb - P.M| ≤ (ηb : ℚ) / 2 ^ 40 * P.M) (hna : ηa ≤ 2 ^ 29) (hnb : ηb ≤ 2 ^ 29)
    (Va0 : 0 ≤ Va) (Va1 : Va ≤ va / 2 ^ 20) (Vb0 : 0 ≤ Vb) (Vb1 : Vb ≤ vb / 2 ^ 20) (Ba0 : 0 ≤ Ba) (Ba1 : Ba ≤ ba) (Bb0 : 0 ≤ Bb) (Bb1 : Bb ≤ bb)
    (E0 : 0 ≤ Eb) (E1 : N * Eb ≤ P.K * C.q l) {U : Finset String} (hU : U ⊆ S.U) :
    MulOk S l (C.fm.mul sa sb) ∧ drops S l (C.fm.mul sa sb) = 1 ∧ C27.dropped C.q l 1 = C.q l ∧
      Near P S ⟨l - 1, C27.scaleAfter C.fm C.q l (C.fm.mul sa sb) 1, U, Va * Vb,
          prodErr N (C.q l) Eb sa Va Ba sb Vb Bb (C27.scaleAfter C.fm C.q l (C.fm.mul sa sb) 1)⟩
        ⟨l - 1, ηa + ηb + (ηa * ηb / 2 ^ 40 + 1) + P.rho, va * vb / 2 ^ 20 + 1,
          (ba * bb / P.qlo + 1) + (1025 * (ba * vb + va * bb) / 2 ^ 30 + 1) + P.K + (16 * (va * vb) / 2 ^ 40 + 1)⟩ := by
  have hM := Good.posM G
  have h1a : (ηa : ℚ) / 2 ^ 40 ≤ 1 / 2048 := eta_le (e := ⟨0, ηa, 0, 0⟩) (decide_eq_true hna)
  have h1b : (ηb : ℚ) / 2 ^ 40 ≤ 1 / 2048 := eta_le (e := ⟨0, ηb, 0, 0⟩) (decide_eq_true hnb)
  obtain ⟨p1, p2, p3, p4, p5⟩ := product G hl hl1 hsa hsb (by positivity) h1a (by positivity) h1b
  refine ⟨p1, p2, p3, ?_⟩
  generalize C27.scaleAfter C.fm C.q l (C.fm.mul sa sb) 1 = s at *
  have qlo0 : 0 < P.qlo := by have := G.near; have := G.M20; omega
  have rng : ∀ {x : ℚ} {η : ℕ}, |x - P.M| ≤ (η : ℚ) / 2 ^ 40 * P.M → (η : ℚ) / 2 ^ 40 ≤ 1 / 2048 → (0 : ℝ) ≤ x ∧ (x : ℝ) ≤ P.M * (2049 / 2048) := fun {x η} h1 h2 => by
    have h1 := abs_le.mp h1
    have h3 := mul_le_mul_of_nonneg_right h2 hM.le
    have c1 : (0 : ℚ) ≤ x := by linarith [h1.1]
    have c2 : x ≤ P.M * (2049 / 2048) := by linarith [h1.2]
    refine ⟨by exact_mod_cast c1, ?_⟩
    have := (Rat.cast_le (K := ℝ)).mpr c2
    push_cast at this
    exact this
  obtain ⟨a1, a2⟩ := rng hsa h1a
  obtain ⟨b1, b2⟩ := rng hsb h1b
  have p5' : |(sa : ℝ) * sb / C.q l - s| ≤ 16 := by exact_mod_cast p5
  refine ⟨lt_of_le_of_lt (Nat.sub_le _ _) hl, rfl, hU, ?_, mul_nonneg Va0 Vb0, ?_, ?_, ?_⟩
  · refine p4.trans (mul_le_mul_of_nonneg_right ?_ hM.le)
    show _ ≤ ((ηa + ηb + (ηa * ηb / 2 ^ 40 + 1) + P.rho : ℕ) : ℚ) / 2 ^ 40
    have h : (ηa : ℚ) * ηb / 2 ^ 40 ≤ ((ηa * ηb / 2 ^ 40 + 1 : ℕ) : ℚ) := by
      rw [div_le_iff₀ (by norm_num)]
      have := Nat.lt_mul_div_succ (ηa * ηb) (show 0 < 2 ^ 40 by norm_num)
      have h : ((ηa * ηb : ℕ) : ℚ) ≤ ((2 ^ 40 * (ηa * ηb / 2 ^ 40 + 1) : ℕ) : ℚ) := by exact_mod_cast this.le
      push_cast at h ⊢
      linarith
    rw [Nat.cast_add, Nat.cast_add, Nat.cast_add, add_div, add_div, add_div]
    have e : (ηa : ℚ) / 2 ^ 40 * (ηb / 2 ^ 40) = ηa * ηb / 2 ^ 40 / 2 ^ 40 := by ring
    have h' : (ηa : ℚ) * ηb / 2 ^ 40 / 2 ^ 40 ≤ ((ηa * ηb / 2 ^ 40 + 1 : ℕ) : ℚ) / 2 ^ 40 := div_le_div_of_nonneg_right h (by norm_num)
    rw [e]
    linarith
  · show Va * Vb ≤ ((va * vb / 2 ^ 20 + 1 : ℕ) : ℝ) / 2 ^ 20
    have h := le_div (va * vb) (show 0 < 2 ^ 20 by norm_num)
    push_cast at h ⊢
    calc Va * Vb ≤ va / 2 ^ 20 * (vb / 2 ^ 20) := mul_le_mul Va1 Vb1 Vb0 (by positivity)
      _ = (va * vb : ℝ) / 2 ^ 20 / 2 ^ 20 := by ring
      _ ≤ _ := div_le_div_of_nonneg_right (by norm_num; exact h) (by norm_num)
  · show 0 ≤ prodErr N (C.q l) Eb sa Va Ba sb Vb Bb s
    unfold prodErr
    positivity
  · exact prod_err qlo0 (G.qlo l hl) E1 G.near a1 a2 b1 b2 Va0 Va1 Vb0 Vb1 Ba0 Ba1 Bb0 Bb1 p5'

theorem Near.mul (G : P.Good S) (ha : Near P S a ea) (hb : Near P S b eb) (h : ea.mul P eb = some e) :
    MulOk S (min a.level b.level) (C.fm.mul a.scale b.scale) ∧ Near P S (a.mul S b) e := by
  unfold Est.mul at h
  split at h
  case isFalse => cases h
  rename_i hn
  injection h with h
  rw [Bool.and_eq_true, Bool.and_eq_true] at hn
  have hl1 : 1 ≤ min ea.level eb.level := of_decide_eq_true hn.2
  have hl : min ea.level eb.level < C.nQ := lt_of_le_of_lt (min_le_left _ _) ha.lt
  obtain ⟨p1, p2, p3, p4⟩ := Near.prod G hl hl1 ha.scale hb.scale (of_decide_eq_true hn.1.1) (of_decide_eq_true hn.1.2) ha.v0 ha.v hb.v0 hb.v ha.b0 ha.b hb.b0 hb.b
    (G.K0 _ hl a.ids ha.ids b.ids hb.ids) (G.K _ hl hl1 a.ids ha.ids b.ids hb.ids) (union_subset ha.ids hb.ids)
  rw [h] at p4
  unfold Info.mul
  dsimp only
  rw [ha.level, hb.level, p2, p3]
  exact ⟨p1, p4⟩

/-- product with a plaintext encoded at the default scale -/
theorem Near.mulPt (G : P.Good S) (ha : Near P S a ea) {Vp Bp : ℝ} {vp bp : ℕ} (v0 : 0 ≤ Vp) (v1 : Vp ≤ vp / 2 ^ 20) (b0 : 0 ≤ Bp) (b1 : Bp ≤ bp)
    (h : Est.mul P ea ⟨ea.level, 0, vp, bp⟩ = some e) :
    MulOk S a.level (C.fm.mul a.scale P.M) ∧ Near P S (a.mulPt S P.M Vp Bp) e := by
  unfold Est.mul at h
  split at h
  case isFalse => cases h
  rename_i hn
  injection h with h
  rw [Bool.and_eq_true, Bool.and_eq_true] at hn
  have hl1 : 1 ≤ min ea.level ea.level := of_decide_eq_true hn.2
  rw [min_self] at hl1 h
  have hl := ha.lt
  obtain ⟨p1, p2, p3, p4⟩ := Near.prod G (sa := a.scale) (sb := P.M) (ηb := 0) hl hl1 ha.scale (by simp) (of_decide_eq_true hn.1.1) (by norm_num) ha.v0 ha.v v0 v1
    ha.b0 ha.b b0 b1 (G.Kp0 _ hl a.ids ha.ids) (G.Kp _ hl hl1 a.ids ha.ids) ha.ids
  rw [h] at p4
  unfold Info.mulPt
  dsimp only
  rw [ha.level, p2, p3, mul_comm Vp]
  refine ⟨p1, ?_⟩
  have e : ∀ x y z : ℝ, prodErr N (C.q ea.level) x ((P.M : ℚ) : ℝ) Vp Bp y a.V a.B z = prodErr N (C.q ea.level) x y a.V a.B ((P.M : ℚ) : ℝ) Vp Bp z := fun x y z => by
    unfold prodErr
    rw [mul_comm ((P.M : ℚ) : ℝ) y, mul_comm Vp a.V]
    ring
  rw [e]
  exact p4

theorem Near.rotated (G : P.Good S) (ha : Near P S a ea) (r : ℤ) : Near P S (a.rot S r) (ea.rot P) := by
  obtain ⟨h1, h2⟩ := G.R r a (by rw [ha.level]; exact ha.lt) ha.ids
  exact ⟨ha.lt, ha.level, ha.ids, ha.scale, ha.v0, ha.v, add_nonneg ha.b0 h1, by
    show a.B + rotErr S r a ≤ ((ea.b + P.R : ℕ) : ℝ)
    push_cast
    exact add_le_add ha.b h2⟩

theorem Near.conjugated (G : P.Good S) (ha : Near P S a ea) : Near P S (a.conj S) (ea.rot P) := by
  obtain ⟨h1, h2⟩ := G.Rc a (by rw [ha.level]; exact ha.lt) ha.ids
  exact ⟨ha.lt, ha.level, ha.ids, ha.scale, ha.v0, ha.v, add_nonneg ha.b0 h1, by
    show a.B + conjErr S a ≤ ((ea.b + P.R : ℕ) : ℝ)
    push_cast
    exact add_le_add ha.b h2⟩

theorem Near.dropped (ha : Near P S a ea) (k : ℕ) : Near P S { a with level := a.level - k } { ea with level := ea.level - k } :=
  ⟨lt_of_le_of_lt (Nat.sub_le _ _) ha.lt, by show a.level - k = _; rw [ha.level], ha.ids, ha.scale, ha.v0, ha.v, ha.b0, ha.b⟩

/-! ## programs -/

/-- the estimator's state covers what the client knows -/
structure Covers (P : Pars) (S : Sys C) (A : Abs N) (T : EstSt) : Prop where
  cts : List.Forall₂ (fun x e => Near P S x.2 e) A.cts T.cts
  hs : A.hs = T.hs

theorem Covers.get {A : Abs N} {T : EstSt} (h : Covers P S A T) {i : ℕ} (hi : T.cts[i]? = some e) :
    i < A.cts.length ∧ Near P S (A.info i) e := by
  obtain ⟨hi1, hi2⟩ := List.getElem?_eq_some_iff.mp hi
  have hl := h.cts.length_eq
  have hi' : i < A.cts.length := by omega
  refine ⟨hi', ?_⟩
  have := (List.forall₂_iff_get.mp h.cts).2 i hi' hi1
  unfold Abs.info
  rw [List.getElem?_eq_getElem hi']
  rw [← hi2]
  exact this

theorem Covers.push {A : Abs N} {T : EstSt} (h : Covers P S A T) (v : Nega N ℝ) {x : Info} (hx : Near P S x e) : Covers P S (A.push v x) (T.push e) :=
  ⟨List.rel_append h.cts (.cons hx .nil), h.hs⟩

/-- the plaintext operands are encoded at the default scale within the estimator's bounds -/
structure PvOk (P : Pars) (w : Env C) (pts : Pts N) (pv : ℕ → ℕ × ℕ) : Prop where
  scale : ∀ p, (w.pts p).2 = P.M
  v0 : ∀ p, 0 ≤ (pts p).2.1
  v : ∀ p, (pts p).2.1 ≤ ((pv p).1 : ℝ) / 2 ^ 20
  b0 : ∀ p, 0 ≤ (pts p).2.2
  b : ∀ p, (pts p).2.2 ≤ ((pv p).2 : ℝ)

theorem step_covers (G : P.Good S) {w : Env C} {pts : Pts N} {pv : ℕ → ℕ × ℕ} (hw : PvOk P w pts pv) (hperm : ∀ l < C.nQ, w.perm l = l) (hcj : S.Conj)
    (hcrs : ∀ r : ℤ, C35.amount N r = 2 ^ Nat.log2 (C35.amount N r) → (S.crs.lookup (C35.amount N r : ℤ)).isSome)
    {A : Abs N} {T T' : EstSt} (h : Covers P S A T) (c : Instr) (hc : T.step P pv c = some T') :
    c.Ok S w A ∧ Covers P S (exec S w pts A c) T' := by
  cases c with
  | add i j =>
    simp only [EstSt.step, Option.bind_eq_bind, Option.bind_eq_some_iff, Option.some.injEq] at hc
    obtain ⟨x, x1, y, y1, z, z1, rfl⟩ := hc
    obtain ⟨hi, ha⟩ := h.get x1
    obtain ⟨hj, hb⟩ := h.get y1
    obtain ⟨k1, k2⟩ := Near.sum G ha hb z1
    exact ⟨⟨hi, hj, k1⟩, h.push _ k2⟩
  | sub i j =>
    simp only [EstSt.step, Option.bind_eq_bind, Option.bind_eq_some_iff, Option.some.injEq] at hc
    obtain ⟨x, x1, y, y1, z, z1, rfl⟩ := hc
    obtain ⟨hi, ha⟩ := h.get x1
    obtain ⟨hj, hb⟩ := h.get y1
    obtain ⟨k1, k2⟩ := Near.sum G ha hb z1
    exact ⟨⟨hi, hj, k1⟩, h.push _ k2⟩
  | mul i j =>
    simp only [EstSt.step, Option.bind_eq_bind, Option.bind_eq_some_iff, Option.some.injEq] at hc
    obtain ⟨x, x1, y, y1, z, z1, rfl⟩ := hc
    obtain ⟨hi, ha⟩ := h.get x1
    obtain ⟨hj, hb⟩ := h.get y1
    obtain ⟨k1, k2⟩ := Near.mul G ha hb z1
    exact ⟨⟨hi, hj, k1⟩, h.push _ k2⟩
  | rot i r =>
    simp only [EstSt.step, Option.bind_eq_bind, Option.bind_eq_some_iff, Option.some.injEq] at hc
    obtain ⟨x, x1, rfl⟩ := hc
    obtain ⟨hi, ha⟩ := h.get x1
    exact ⟨hi, h.push _ (ha.rotated G r)⟩
  | conj i =>
    simp only [EstSt.step, Option.bind_eq_bind, Option.bind_eq_some_iff, Option.some.injEq] at hc
    obtain ⟨x, x1, rfl⟩ := hc
    obtain ⟨hi, ha⟩ := h.get x1
    exact ⟨⟨hi, hperm _ (by rw [ha.level]; exact ha.lt), hcj⟩, h.push _ (ha.conjugated G)⟩
  | hoist i =>
    simp only [EstSt.step, Option.bind_eq_bind, Option.bind_eq_some_iff, Option.some.injEq] at hc
    obtain ⟨x, x1, rfl⟩ := hc
    obtain ⟨hi, ha⟩ := h.get x1
    exact ⟨hi, ⟨h.cts, by show A.hs ++ [i] = T.hs ++ [i]; rw [h.hs]⟩⟩
  | mulH i j k l =>
    simp only [EstSt.step, Option.bind_eq_bind, Option.bind_eq_some_iff] at hc
    obtain ⟨x, x1, y, y1, z, z1, hc⟩ := hc
    split at hc
    case isFalse => cases hc
    rename_i hh
    injection hc with hc
    subst hc
    obtain ⟨hi, ha⟩ := h.get x1
    obtain ⟨hj, hb⟩ := h.get y1
    obtain ⟨k1, k2⟩ := Near.mul G ha hb z1
    exact ⟨⟨hi, hj, by rw [h.hs]; exact hh.1, by rw [h.hs]; exact hh.2, k1⟩, h.push _ k2⟩
  | rotH i r k =>
    simp only [EstSt.step, Option.bind_eq_bind, Option.bind_eq_some_iff] at hc
    obtain ⟨x, x1, hc⟩ := hc
    split at hc
    case isFalse => cases hc
    rename_i hh
    injection hc with hc
    subst hc
    obtain ⟨hi, ha⟩ := h.get x1
    refine ⟨⟨hi, by rw [h.hs]; exact hh.1, fun h0 => ?_⟩, h.push _ (ha.rotated G r)⟩
    have h2 := hh.2
    rw [G.deg] at h2
    exact hcrs r (h2.resolve_left h0)
  | mulPt i p =>
    simp only [EstSt.step, Option.bind_eq_bind, Option.bind_eq_some_iff, Option.some.injEq] at hc
    obtain ⟨x, x1, z, z1, rfl⟩ := hc
    obtain ⟨hi, ha⟩ := h.get x1
    obtain ⟨k1, k2⟩ := Near.mulPt G ha (hw.v0 p) (hw.v p) (hw.b0 p) (hw.b p) z1
    refine ⟨⟨hi, by rw [hw.scale]; exact k1⟩, ?_⟩
    simp only [exec]
    rw [hw.scale]
    exact h.push _ k2
  | drop i k =>
    simp only [EstSt.step, Option.bind_eq_bind, Option.bind_eq_some_iff] at hc
    obtain ⟨x, x1, hc⟩ := hc
    split at hc
    case isFalse => cases hc
    rename_i hh
    injection hc with hc
    subst hc
    obtain ⟨hi, ha⟩ := h.get x1
    exact ⟨⟨hi, by rw [ha.level]; exact hh⟩, h.push _ (ha.dropped k)⟩
  | const i k => cases hc
  | rescale i ms => cases hc

theorem steps_covers (G : P.Good S) {w : Env C} {pts : Pts N} {pv : ℕ → ℕ × ℕ} (hw : PvOk P w pts pv) (hperm : ∀ l < C.nQ, w.perm l = l) (hcj : S.Conj)
    (hcrs : ∀ r : ℤ, C35.amount N r = 2 ^ Nat.log2 (C35.amount N r) → (S.crs.lookup (C35.amount N r : ℤ)).isSome) :
    ∀ (p : List Instr) {A : Abs N} {T T' : EstSt}, Covers P S A T → T.steps P pv p = some T' →
      ProgOk S w pts A p ∧ Covers P S (execs S w pts A p) T'
  | [], A, T, T', h, ht => by
    simp only [EstSt.steps, Option.some.injEq] at ht
    subst ht
    exact ⟨trivial, h⟩
  | c :: p, A, T, T', h, ht => by
    simp only [EstSt.steps, Option.bind_eq_some_iff] at ht
    obtain ⟨T1, t1, t2⟩ := ht
    obtain ⟨k1, k2⟩ := step_covers G hw hperm hcj hcrs h c t1
    obtain ⟨k3, k4⟩ := steps_covers G hw hperm hcj hcrs p k2 t2
    exact ⟨⟨k1, k3⟩, k4⟩

/-! ## values -/

theorem val_slot (A : Abs N) (i : ℕ) (j : ℤ) : slot j (A.val i) = (A.cts.map fun x j => slot j x.1).getD i 0 j := by
  unfold Abs.val
  rw [List.getD_eq_getElem?_getD, List.getElem?_map]
  cases A.cts[i]? with
  | none => simp
  | some x => rfl

theorem exec_plain (V : C.Valid) (S : Sys C) (w : Env C) (pts : Pts N) (A : Abs N) (c : Instr) :
    ((exec S w pts A c).cts.map fun x j => slot j x.1) = plainStep (fun p j => slot j (pts p).1) (A.cts.map fun x j => slot j x.1) c := by
  have key : ∀ (v : Nega N ℝ) (x : Info) (f : ℤ → ℂ), (∀ j, slot j v = f j) →
      ((A.push v x).cts.map fun x j => slot j x.1) = (A.cts.map fun x j => slot j x.1) ++ [f] := fun v x f h => by
    unfold Abs.push
    rw [List.map_append, List.map_singleton]
    congr 2
    exact funext h
  cases c <;> simp only [exec, plainStep]
  · exact key _ _ _ fun j => by rw [map_add, val_slot, val_slot]
  · exact key _ _ _ fun j => by rw [map_sub, val_slot, val_slot]
  · exact key _ _ _ fun j => by rw [map_mul, val_slot, val_slot]
  · exact key _ _ _ fun j => by rw [slot_rotate V.hN V.log1, val_slot]
  · exact key _ _ _ fun j => by rw [slot_conj, val_slot]
  · exact key _ _ _ fun j => by rw [map_mul, val_slot, val_slot]
  · exact key _ _ _ fun j => by rw [slot_rotate V.hN V.log1, val_slot]
  · exact key _ _ _ fun j => by rw [map_mul, val_slot]
  · exact key _ _ _ fun j => val_slot _ _ _
  · exact key _ _ _ fun j => by rw [slot_smul, val_slot]
  · exact key _ _ _ fun j => val_slot _ _ _

/-- the slots of the values of a program are the program on the slots -/
theorem execs_plain (V : C.Valid) (S : Sys C) (w : Env C) (pts : Pts N) : ∀ (p : List Instr) (A : Abs N),
    ((execs S w pts A p).cts.map fun x j => slot j x.1) = plain (fun p j => slot j (pts p).1) (A.cts.map fun x j => slot j x.1) p
  | [], A => rfl
  | c :: p, A => by
    show ((execs S w pts (exec S w pts A c) p).cts.map fun x j => slot j x.1) = plain _ (plainStep _ _ c) p
    rw [execs_plain V S w pts p, exec_plain V]

/-! ## the estimate is safe -/

theorem modulus_eq (G : P.Good S) {l : ℕ} (hl : l < C.nQ) : modulus C l = (P.q.take (l + 1)).prod := by
  unfold modulus
  have h1 : (P.q.take (l + 1)).length = l + 1 := by rw [List.length_take, G.len]; omega
  rw [← C61.prod_nth, h1]
  refine prod_congr rfl fun i hi => ?_
  have hi := mem_range.mp hi
  rw [G.q i (by omega), C61.nth_lt (by rw [G.len]; omega), C61.nth_lt (by omega), List.getElem_take]

/-- what the estimator says of a ciphertext when it accepts -/
theorem Near.safe (G : P.Good S) (ha : Near P S a ea) (hn : ea.near = true) (hf : ea.fits P = true) :
    2 * ((a.scale : ℝ) * a.V + a.B) < modulus C a.level ∧ a.B / a.scale ≤ ea.b * 1025 / (1024 * P.M) := by
  obtain ⟨p1, p2, p3⟩ := ha.pos G hn
  have q1 : (0 : ℝ) < a.scale := by exact_mod_cast p1
  have q2 : (a.scale : ℝ) ≤ P.M * (2049 / 2048) := by
    have := (Rat.cast_le (K := ℝ)).mpr p2
    push_cast at this; exact this
  have q3 : (P.M : ℝ) * (2047 / 2048) ≤ a.scale := by
    have := (Rat.cast_le (K := ℝ)).mpr p3
    push_cast at this; exact this
  have hM : (0 : ℝ) < P.M := by exact_mod_cast Good.posM G
  have hv := ha.v; have hv0 := ha.v0; have hb := ha.b; have hb0 := ha.b0
  constructor
  · have hf : 2 * (1025 * P.M * ea.v + 2 ^ 30 * ea.b) < 2 ^ 30 * (P.q.take (ea.level + 1)).prod := of_decide_eq_true hf
    rw [ha.level, modulus_eq G ha.lt]
    generalize (P.q.take (ea.level + 1)).prod = Q at *
    have hf' : (2 : ℝ) * (1025 * P.M * ea.v + 2 ^ 30 * ea.b) < 2 ^ 30 * Q := by
      have : ((2 * (1025 * P.M * ea.v + 2 ^ 30 * ea.b) : ℕ) : ℝ) < ((2 ^ 30 * Q : ℕ) : ℝ) := by exact_mod_cast hf
      push_cast at this ⊢
      norm_num at this ⊢
      exact this
    have h1 : (a.scale : ℝ) * a.V ≤ P.M * (1025 / 1024) * (ea.v / 2 ^ 20) :=
      mul_le_mul (q2.trans (mul_le_mul_of_nonneg_left (by norm_num) hM.le)) hv hv0 (by positivity)
    have h2 : (P.M : ℝ) * (1025 / 1024) * (ea.v / 2 ^ 20) = 1025 * P.M * ea.v / 2 ^ 30 := by ring
    linarith
  · rw [div_le_div_iff₀ q1 (by positivity)]
    have h1 : a.B * (1024 * (P.M : ℝ)) ≤ ea.b * (1024 * P.M) := mul_le_mul_of_nonneg_right hb (by positivity)
    have h2 : (ea.b : ℝ) * 1025 * (P.M * (2047 / 2048)) ≤ ea.b * 1025 * a.scale := mul_le_mul_of_nonneg_left q3 (by positivity)
    have h3 : (0 : ℝ) ≤ ea.b * P.M := by positivity
    nlinarith

/-- the estimate for an input with slots below `v * 2^-20`, encoded with an error of at most `bp` and encrypted with noise of at most `F` -/
def freshEst (P : Pars) (v bp F : ℕ) : Est := ⟨P.q.length - 1, 0, v, bp + P.N * F⟩

/-- **C67, the estimator is safe.** For every parameter set and every client (any parties, inputs, randomness within its bounds, history of the evaluator's memory and
iteration orders): if the estimator accepts the program, then key generation, encryption, evaluation and decryption succeed and every slot of the decrypted plaintext, divided
by its scale, is within the estimated error of the program on the messages. -/
theorem client_estimate (V : C.Valid) (hN : N % 16 = 0) {B : ℤ} (hB : C.SmallBound B) {gs : ℕ → Nega N ℤ} (hg : ∀ n, Bdd (gs n) B)
    {crs : GoMap ℤ (Swk C)} (hcrs : CrsLen C crs) (hd : C16.DefaultIdx N crs)
    {s r : String → Nega N ℤ} {Sb Rb : ℤ} (hs : ∀ id, Bdd (s id) Sb) (hSb : Sb ≤ B) (hr : ∀ id, Bdd (r id) Rb) (hRb : Rb ≤ B)
    (kg : KG C) (ids : List String) (h0 : "0" ∉ ids) {D : ℤ} (hD : ∀ l < C.nQ, ∀ k < C.beta l, 2 * (C.blockProd l k : ℤ) ≤ D)
    {us es : ℕ → Nega N ℤ} {Bu Bg : ℤ} (hu : ∀ n, Bdd (us n) Bu) (he : ∀ n, Bdd (es n) Bg) (st : Enc C)
    {P : Pars} (hG : ∀ S : Sys C, S.crs = crs → S.pscale = P.M → S.U = ids.toFinset → S.Sb = Sb → S.Rb = Rb → S.Be = B → S.D = D → P.Good S) (hM : 0 < P.M)
    (ins : List (Input C)) {v : Input C → ℕ} {bp F : ℕ} (hF0 : 0 ≤ freshNoise N Bu Bg B Sb) (hF : freshNoise N Bu Bg B Sb ≤ F)
    (hins : ∀ x ∈ ins, x.owner ∈ ids ∧ Encodes x.pt P.M x.val bp ∧ SBdd x.val (v x / 2 ^ 20))
    {env : Env C} {pts : Pts N} {pv : ℕ → ℕ × ℕ} (hpts : PtsOk env pts) (hpv : PvOk P env pts pv) (hperm : ∀ l < C.nQ, env.perm l = l)
    (p : List Instr) (i : ℕ) (oe : ℕ → Sched String) {E : Eval C} (hE : E.Ready) (od : Sched String) {pool : Poly C} (hpool : C.nQ ≤ pool.len) {e : Est}
    (hest : estimate P pv ⟨ins.map fun x => freshEst P (v x) bp F, []⟩ p i = some e) :
    ∃ (pt : Poly C) (sc : ℚ), client crs gs s r kg ids us es st P.M ins env p i oe E od pool = .ok (pt, sc) ∧ 0 < sc ∧
      ∃ l < C.nQ, pt.len = l + 1 ∧ ∃ Φ : Nega N ℤ, (∀ k ≤ l, cf (pt.rows k) = red (C.q k) Φ) ∧ (∀ x, 2 * |Φ x| < modulus C l) ∧
        ∀ j : ℤ, ‖slot j (toReal Φ) / (sc : ℂ) - (plain (fun p j => slot j (pts p).1) (ins.map fun x j => slot j x.val) p).getD i 0 j‖ ≤
          e.b * 1025 / (1024 * P.M) := by
  have hMq : (0 : ℚ) < P.M := by exact_mod_cast hM
  refine client_ok V hN hB hg hcrs hd hs hSb hr hRb kg ids h0 hMq hD hu he st ins (Vb := fun x => v x / 2 ^ 20) (Bp := bp) hins hpts p i oe hE od hpool
    fun S e1 e2 e3 e4 e5 e6 e7 hS hcj => ?_
  have G := hG S e1 e2 e3 e4 e5 e6 e7
  unfold estimate at hest
  simp only [Option.bind_eq_bind, Option.bind_eq_some_iff] at hest
  obtain ⟨T, t1, x, t2, t3⟩ := hest
  split at t3
  case isFalse => cases t3
  rename_i hx
  injection t3 with t3
  subst t3
  rw [Bool.and_eq_true] at hx
  have hcov : Covers P S (start C P.M (fun x => (v x : ℝ) / 2 ^ 20) bp (freshNoise N Bu Bg B Sb) ins) ⟨ins.map fun x => freshEst P (v x) bp F, []⟩ := by
    refine ⟨?_, rfl⟩
    show List.Forall₂ _ (ins.map _) (ins.map _)
    rw [List.forall₂_map_left_iff, List.forall₂_map_right_iff, List.forall₂_same]
    intro y hy
    have hq1 := V.q1
    have hF' : ((freshNoise N Bu Bg B Sb : ℤ) : ℝ) ≤ (F : ℝ) := by exact_mod_cast hF
    have hF0' : (0 : ℝ) ≤ ((freshNoise N Bu Bg B Sb : ℤ) : ℝ) := by exact_mod_cast hF0
    refine ⟨?_, ?_, ?_, ?_, ?_, le_rfl, ?_, ?_⟩
    · show P.q.length - 1 < C.nQ
      rw [G.len]; omega
    · show C.nQ - 1 = P.q.length - 1
      rw [G.len]
    · show {y.owner} ⊆ S.U
      rw [e3, singleton_subset_iff, List.mem_toFinset]
      exact (hins y hy).1
    · show |((P.M : ℕ) : ℚ) - P.M| ≤ _
      simp [freshEst]
    · show (0 : ℝ) ≤ v y / 2 ^ 20
      positivity
    · show (0 : ℝ) ≤ bp + N * ((freshNoise N Bu Bg B Sb : ℤ) : ℝ)
      positivity
    · show (bp : ℝ) + N * ((freshNoise N Bu Bg B Sb : ℤ) : ℝ) ≤ ((bp + P.N * F : ℕ) : ℝ)
      rw [G.deg]
      push_cast
      exact add_le_add le_rfl (mul_le_mul_of_nonneg_left hF' (by positivity))
  obtain ⟨k1, k2⟩ := steps_covers G hpv hperm hcj (fun r hr => by
    rw [e1]
    have h2 := (C35.rotNorm_amount V r).2
    have hm : ((C35.amount N r : ℕ) : ℤ) ∈ crs := by
      rw [hd]
      refine .inr (.inr (.inr (.inr (.inr ⟨Nat.log2 (C35.amount N r), ?_, ?_⟩))))
      · exact_mod_cast hr
      · omega
    exact GoMap.mem_iff_lookup.mp hm) p hcov t1
  refine ⟨k1, ?_⟩
  obtain ⟨hi, kn⟩ := k2.get t2
  have hpl := execs_plain V S env pts p (start C P.M (fun x => (v x : ℝ) / 2 ^ 20) bp (freshNoise N Bu Bg B Sb) ins)
  have hst : ((start C P.M (fun x => (v x : ℝ) / 2 ^ 20) bp (freshNoise N Bu Bg B Sb) ins).cts.map fun x (j : ℤ) => slot j x.1) =
      ins.map fun x (j : ℤ) => slot j x.val := by
    unfold start
    rw [List.map_map]
    rfl
  rw [hst] at hpl
  obtain ⟨s1, s2⟩ := kn.safe G hx.1 hx.2
  unfold Abs.info at s1 s2
  rw [List.getElem?_eq_getElem hi] at s1 s2
  refine ⟨_, _, List.getElem?_eq_getElem hi, fun j => ?_, s1, s2⟩
  rw [← hpl, ← val_slot]
  unfold Abs.val
  rw [List.getElem?_eq_getElem hi]
  rfl

end MKHE.C67
