import Verif.Spec.PN14
import Verif.Props.CnnBounds
import Verif.Model.Alloc

set_option autoImplicit false

/-!
# C60: the neural network at its own parameters (PN14QP433)

Levels, scales and error bounds of the network, for every float64 model: the hypotheses of `testCNN_ok` are met.
-/

namespace MKHE.PN14
open Finset Nega C59 C49

/-! ## scales -/

/-- one product and division by a prime of about `2^47` -/
theorem scale_step (fm : FloatModel) {a b : ℚ} {q : ℕ} {ηa ηb : ℚ} (ha : |a - 2 ^ 47| ≤ ηa * 2 ^ 47) (hb : |b - 2 ^ 47| ≤ ηb * 2 ^ 47)
    (h0a : 0 ≤ ηa) (h1a : ηa ≤ 1 / 1024) (h0b : 0 ≤ ηb) (h1b : ηb ≤ 1 / 1024) (hq1 : 2 ^ 47 ≤ q) (hq2 : q ≤ 2 ^ 47 + 2 ^ 24) :
    |fm.div (fm.mul a b) (fm.ofNat q) - 2 ^ 47| ≤ (ηa + ηb + ηa * ηb + 1 / 2 ^ 22) * 2 ^ 47 ∧
      |a * b / q - fm.div (fm.mul a b) (fm.ofNat q)| ≤ 1 := by
  have hT : (0 : ℚ) < 2 ^ 47 := by norm_num
  obtain ⟨a1, a2⟩ := abs_le.mp ha
  obtain ⟨b1, b2⟩ := abs_le.mp hb
  have hqq1 : (2 ^ 47 : ℚ) ≤ q := by exact_mod_cast hq1
  have hqq2 : (q : ℚ) ≤ 2 ^ 47 + 2 ^ 24 := by exact_mod_cast hq2
  have hq0 : (0 : ℚ) < q := by linarith
  unfold FloatModel.div FloatModel.mul FloatModel.ofNat
  rw [fm.exact_nat q (by omega)]
  -- normalize
  obtain ⟨A, rfl⟩ : ∃ A, a = 2 ^ 47 * A := ⟨a / 2 ^ 47, by field_simp⟩
  obtain ⟨B, rfl⟩ : ∃ B, b = 2 ^ 47 * B := ⟨b / 2 ^ 47, by field_simp⟩
  have hA1 : 1 - ηa ≤ A := by nlinarith
  have hA2 : A ≤ 1 + ηa := by nlinarith
  have hB1 : 1 - ηb ≤ B := by nlinarith
  have hB2 : B ≤ 1 + ηb := by nlinarith
  have hA0 : 0 < A := by linarith
  have hB0 : 0 < B := by linarith
  have hAB0 : 0 < A * B := mul_pos hA0 hB0
  have hAB1 : (1 - ηa) * (1 - ηb) ≤ A * B := mul_le_mul hA1 hB1 (by linarith) hA0.le
  have hAB2 : A * B ≤ (1 + ηa) * (1 + ηb) := mul_le_mul hA2 hB2 hB0.le (by linarith)
  have hAB3 : A * B ≤ 2 := hAB2.trans (by nlinarith)
  have hx : (0 : ℚ) ≤ 2 ^ 47 * A * (2 ^ 47 * B) := by positivity
  have r1 := fm.rnd_le hx
  have r2 := fm.le_rnd hx
  have hy : 0 ≤ fm.rnd (2 ^ 47 * A * (2 ^ 47 * B)) / q := div_nonneg (fm.rnd_nonneg hx) hq0.le
  have s1 := fm.rnd_le hy
  have s2 := fm.le_rnd hy
  set u := unitRoundoff with hu
  have hu0 : u = 1 / 2 ^ 53 := rfl
  set X := fm.rnd (2 ^ 47 * A * (2 ^ 47 * B))
  set Y := fm.rnd (X / q)
  -- the exact quotient
  set z := 2 ^ 47 * A * (2 ^ 47 * B) / (q : ℚ) with hz
  have hz0 : 0 ≤ z := div_nonneg hx hq0.le
  have hz1 : z ≤ 2 ^ 47 * (A * B) := by
    rw [hz, div_le_iff₀ hq0]
    nlinarith [mul_le_mul_of_nonneg_left hqq1 (mul_nonneg hT.le hAB0.le)]
  have hz2 : 2 ^ 47 * (A * B) * (1 - 1 / 2 ^ 23) ≤ z := by
    rw [hz, le_div_iff₀ hq0]
    have h1 : (1 - 1 / 2 ^ 23) * (q : ℚ) ≤ 2 ^ 47 := by nlinarith
    calc 2 ^ 47 * (A * B) * (1 - 1 / 2 ^ 23) * (q : ℚ) = 2 ^ 47 * (A * B) * ((1 - 1 / 2 ^ 23) * q) := by ring
      _ ≤ 2 ^ 47 * (A * B) * 2 ^ 47 := mul_le_mul_of_nonneg_left h1 (by positivity)
      _ = _ := by ring
  have hX1 : X / q ≤ z * (1 + u) := by
    rw [div_le_iff₀ hq0, hz]
    calc X ≤ _ := r1
      _ = _ := by field_simp
  have hX2 : z * (1 - u) ≤ X / q := by
    rw [le_div_iff₀ hq0, hz]
    calc _ = 2 ^ 47 * A * (2 ^ 47 * B) * (1 - u) := by field_simp
      _ ≤ X := r2
  have hY1 : Y ≤ z * (1 + u) * (1 + u) := s1.trans (mul_le_mul_of_nonneg_right hX1 (by rw [hu0]; norm_num))
  have hY2 : z * (1 - u) * (1 - u) ≤ Y := le_trans (mul_le_mul_of_nonneg_right hX2 (by rw [hu0]; norm_num)) s2
  have hz3 : z ≤ 2 ^ 48 := hz1.trans (by linarith)
  rw [hu0] at hY1 hY2
  constructor
  · rw [abs_le]
    constructor
    · nlinarith
    · nlinarith
  · rw [abs_le]
    constructor <;> nlinarith

/-! ## the number of primes a product drops -/

theorem count_unique {fm : FloatModel} {q : ℕ → ℕ} {l : ℕ} {s ms : ℚ} {n n' : ℕ} (h : Drops fm q l s ms n) (h' : Drops fm q l s ms n') : n = n' := by
  rcases h with ⟨h1, h2⟩ | ⟨h1, h2⟩ <;> rcases h' with ⟨h1', h2'⟩ | ⟨h1', h2'⟩
  · omega
  · omega
  · omega
  · rcases lt_trichotomy n n' with hn | hn | hn
    · exact absurd (h2'.above n hn) (not_le.mpr h2.below)
    · exact hn
    · exact absurd (h2.above n' hn) (not_le.mpr h2'.below)

variable {fm : FloatModel} {rq : ∀ i, LimbOps 16384 (pq i)} {rp : ∀ j, LimbOps 16384 (pp j)}

theorem pq_ge (i : ℕ) : 2 ^ 47 ≤ pq i := by unfold pq; split <;> norm_num

theorem pq_le {i : ℕ} (hi : 1 ≤ i) : pq i ≤ 2 ^ 47 + 2 ^ 24 := by
  unfold pq
  split
  · omega
  all_goals norm_num

theorem half (fm : FloatModel) : fm.div (2 ^ 47) 2 = 2 ^ 46 := by
  unfold FloatModel.div
  have := fm.exact_nat (2 ^ 46) (by norm_num)
  rw [show (2 ^ 47 / 2 : ℚ) = ((2 ^ 46 : ℕ) : ℚ) by norm_num, this]; norm_num

/-- a product of two scales near `2^47` is divided by exactly one prime -/
theorem drops_one {l : ℕ} (hl : 1 ≤ l) {a b ηa ηb : ℚ} (ha : |a - 2 ^ 47| ≤ ηa * 2 ^ 47) (hb : |b - 2 ^ 47| ≤ ηb * 2 ^ 47)
    (h0a : 0 ≤ ηa) (h1a : ηa ≤ 1 / 1024) (h0b : 0 ≤ ηb) (h1b : ηb ≤ 1 / 1024) : Drops fm pq l (fm.mul a b) (2 ^ 47) 1 := by
  obtain ⟨h1, -⟩ := scale_step fm ha hb h0a h1a h0b h1b (pq_ge l) (pq_le hl)
  have h2 := abs_le.mp h1
  have hη : ηa + ηb + ηa * ηb + 1 / 2 ^ 22 ≤ 1 / 256 := by nlinarith
  refine .inr ⟨hl, hl, fun j hj => ?_, ?_⟩
  · have : j = 0 := by omega
    subst this
    rw [half]
    show (2 : ℚ) ^ 46 ≤ fm.div (fm.mul a b) (fm.ofNat (pq (l - 0)))
    rw [Nat.sub_zero]
    nlinarith [h2.1]
  · rw [half]
    show fm.div (fm.div (fm.mul a b) (fm.ofNat (pq (l - 0)))) (fm.ofNat (pq (l - 1))) < 2 ^ 46
    rw [Nat.sub_zero]
    set t := fm.div (fm.mul a b) (fm.ofNat (pq l))
    have ht0 : 0 ≤ t := by nlinarith [h2.1]
    have ht1 : t ≤ 2 ^ 48 := by nlinarith [h2.2]
    have hq : (2 : ℚ) ^ 47 ≤ fm.ofNat (pq (l - 1)) := by
      have e := fm.exact_nat (2 ^ 47) (by norm_num)
      have := fm.mono ((2 ^ 47 : ℕ) : ℚ) (pq (l - 1)) (by exact_mod_cast pq_ge _)
      rw [e] at this
      unfold FloatModel.ofNat
      push_cast at this
      exact this
    have hd : t / fm.ofNat (pq (l - 1)) ≤ ((2 : ℕ) : ℚ) := by
      rw [div_le_iff₀ (by linarith)]
      push_cast
      linarith
    unfold FloatModel.div
    calc fm.rnd (t / fm.ofNat (pq (l - 1))) ≤ fm.rnd ((2 : ℕ) : ℚ) := fm.mono _ _ hd
      _ = 2 := by rw [fm.exact_nat 2 (by norm_num)]; norm_num
      _ < _ := by norm_num

/-! ## error bounds -/

/-- the numbers of the client at PN14QP433: scale `2^47`, ternary secrets, Gaussian errors truncated at `6σ = 19` -/
structure Std (S : Sys (ctx fm rq rp)) : Prop where
  pscale : S.pscale = 2 ^ 47
  Sb : S.Sb = 1
  Rb : S.Rb = 1
  Be : S.Be = 19
  D : S.D = 2 * (pq 0 : ℤ)

/-- level and parties are known, the scale is within a factor `1 ± η` of `2^47`, values and errors are bounded -/
structure Near (i : Info) (l : ℕ) (U : Finset String) (η : ℚ) (V B : ℝ) : Prop where
  level : i.level = l
  ids : i.ids = U
  scale : |i.scale - 2 ^ 47| ≤ η * 2 ^ 47
  v0 : 0 ≤ i.V
  v : i.V ≤ V
  b0 : 0 ≤ i.B
  b : i.B ≤ B

variable {S : Sys (ctx fm rq rp)} {a b : Info} {la lb : ℕ} {Ua Ub : Finset String} {ηa ηb : ℚ} {Va Vb Ba Bb : ℝ}

theorem Near.mono (h : Near a la Ua ηa Va Ba) {η : ℚ} (hη : ηa ≤ η) {V B : ℝ} (hV : Va ≤ V) (hB : Ba ≤ B) : Near a la Ua η V B :=
  ⟨h.level, h.ids, h.scale.trans (mul_le_mul_of_nonneg_right hη (by norm_num)), h.v0, h.v.trans hV, h.b0, h.b.trans hB⟩

theorem popcount_le (n : ℕ) : ∀ r, r < 2 ^ n → popcount r ≤ n := by
  induction n with
  | zero =>
    intro r hr
    have : r = 0 := by simpa using hr
    rw [this, popcount_zero]
  | succ n ih =>
    intro r hr
    rw [popcount_half]
    have := ih (r / 2) (by rw [pow_succ] at hr; omega)
    omega

theorem P_eq : (ctx fm rq rp).P = 19807044972774832760864309249 := by
  show ∏ j ∈ range 2, pp j = _
  rw [prod_range_succ, prod_range_one]
  norm_num [pp]

theorem rotCount_le (crs : GoMap ℤ (Swk (ctx fm rq rp))) (r : ℤ) : C35.rotCount crs (C35.amount 16384 r) ≤ 13 := by
  unfold C35.rotCount
  split_ifs
  · norm_num
  · norm_num
  · refine popcount_le 13 _ ?_
    unfold C35.amount
    omega

/-- the error of a rotation by any amount -/
theorem rotErr_le (hS : Std S) (r : ℤ) (hl : a.level ≤ 6) (hc : a.ids.card ≤ 2) : 0 ≤ rotErr S r a ∧ rotErr S r a ≤ 2 ^ 34 := by
  have h1 := rotCount_le S.crs r
  unfold rotErr C33.rotNoise
  rw [hS.Sb, hS.Be, hS.D, beta_eq fm rq rp (by omega), P_eq]
  have hb : a.level + 1 ≤ 7 := by omega
  generalize C35.rotCount S.crs (C35.amount 16384 r) = n at *
  generalize a.level + 1 = be at *
  generalize a.ids.card = c at *
  have e : (pq 0 : ℤ) = 144115188078673921 := rfl
  rw [e]
  have hn : (n : ℤ) ≤ 13 := by exact_mod_cast h1
  have hc' : (c : ℤ) ≤ 2 := by exact_mod_cast hc
  have hb' : (be : ℤ) ≤ 7 := by exact_mod_cast hb
  have k0 : (0 : ℤ) ≤ n * (c * (be * (((16384 : ℕ) : ℤ) * (2 * 144115188078673921) * 19) + 2 * ((19807044972774832760864309249 : ℕ) : ℤ) +
      ((16384 : ℕ) : ℤ) * 1 * (2 * ((19807044972774832760864309249 : ℕ) : ℤ)))) := by positivity
  have k1 : n * (c * (be * (((16384 : ℕ) : ℤ) * (2 * 144115188078673921) * 19) + 2 * ((19807044972774832760864309249 : ℕ) : ℤ) +
      ((16384 : ℕ) : ℤ) * 1 * (2 * ((19807044972774832760864309249 : ℕ) : ℤ)))) ≤
      13 * (2 * (7 * (((16384 : ℕ) : ℤ) * (2 * 144115188078673921) * 19) + 2 * ((19807044972774832760864309249 : ℕ) : ℤ) +
      ((16384 : ℕ) : ℤ) * 1 * (2 * ((19807044972774832760864309249 : ℕ) : ℤ)))) := by gcongr
  generalize (n : ℤ) * (c * (be * (((16384 : ℕ) : ℤ) * (2 * 144115188078673921) * 19) + 2 * ((19807044972774832760864309249 : ℕ) : ℤ) +
      ((16384 : ℕ) : ℤ) * 1 * (2 * ((19807044972774832760864309249 : ℕ) : ℤ)))) = x at *
  have x0 : (0 : ℝ) ≤ x := by exact_mod_cast k0
  have x1 : (x : ℝ) ≤ 13 * (2 * (7 * ((16384 : ℝ) * (2 * 144115188078673921) * 19) + 2 * 19807044972774832760864309249 +
      (16384 : ℝ) * 1 * (2 * 19807044972774832760864309249))) := by exact_mod_cast k1
  constructor
  · positivity
  · push_cast
    rw [mul_div_assoc', div_le_iff₀ (by norm_num)]
    calc (16384 : ℝ) * x ≤ 16384 * _ := mul_le_mul_of_nonneg_left x1 (by norm_num)
      _ ≤ _ := by norm_num

theorem Near.rot (hS : Std S) (h : Near a la Ua ηa Va Ba) (hl : la ≤ 6) (hU : Ua.card ≤ 2) (r : ℤ) : Near (a.rot S r) la Ua ηa Va (Ba + 2 ^ 34) := by
  obtain ⟨h1, h2⟩ := rotErr_le hS r (a := a) (by rw [h.level]; exact hl) (by rw [h.ids]; exact hU)
  exact ⟨h.level, h.ids, h.scale, h.v0, h.v, add_nonneg h.b0 h1, add_le_add h.b h2⟩

theorem Near.rotAdd (hS : Std S) (h : Near a la Ua ηa Va Ba) (hl : la ≤ 6) (hU : Ua.card ≤ 2) (r : ℤ) :
    Near (rotAddInfo S r a) la Ua ηa (2 * Va) (2 * Ba + 2 ^ 34) := by
  obtain ⟨h1, h2⟩ := rotErr_le hS r (a := a) (by rw [h.level]; exact hl) (by rw [h.ids]; exact hU)
  have := h.v0
  have := h.b0
  have := h.v
  have := h.b
  exact ⟨h.level, h.ids, h.scale, by show 0 ≤ 2 * a.V; linarith, by show 2 * a.V ≤ _; linarith, by show 0 ≤ 2 * a.B + rotErr S r a; linarith,
    by show 2 * a.B + rotErr S r a ≤ _; linarith⟩

theorem Near.rotAdds (hS : Std S) (h : Near a la Ua ηa Va Ba) (hl : la ≤ 6) (hU : Ua.card ≤ 2) (step : ℤ) :
    ∀ n, Near (rotAddsInfo S step a n) la Ua ηa (2 ^ n * Va) (2 ^ n * Ba + (2 ^ n - 1) * 2 ^ 34)
  | 0 => h.mono le_rfl (by simp) (by simp)
  | n + 1 => ((Near.rotAdds hS h hl hU step n).rotAdd hS hl hU _).mono le_rfl (by rw [pow_succ (2 : ℝ) n]; linarith) (by rw [pow_succ (2 : ℝ) n]; nlinarith)

theorem Near.pos (h : Near a la Ua ηa Va Ba) (h1 : ηa ≤ 1 / 1024) : 0 < a.scale ∧ a.scale ≤ 2 ^ 47 * (1025 / 1024) := by
  have := abs_le.mp h.scale
  constructor <;> nlinarith [this.1, this.2]

/-- one product -/
theorem Near.mul (hS : Std S) (ha : Near a la Ua ηa Va Ba) (hb : Near b lb Ub ηb Vb Bb) {l : ℕ} (hl : min la lb = l) (hl1 : 1 ≤ l)
    (h0a : 0 ≤ ηa) (h1a : ηa ≤ 1 / 1024) (h0b : 0 ≤ ηb) (h1b : ηb ≤ 1 / 1024) {K : ℝ} (hE0 : 0 ≤ mulEb S l 1 Ua Ub)
    (hE : 16384 * mulEb S l 1 Ua Ub ≤ K * 2 ^ 47) {V B : ℝ} (hV : Va * Vb ≤ V) (hB : Ba * Bb / 2 ^ 47 + 1025 / 1024 * (Ba * Vb + Va * Bb) + K + Va * Vb ≤ B)
    {η : ℚ} (hη : ηa + ηb + ηa * ηb + 1 / 2 ^ 22 ≤ η) :
    MulsOk S a b ∧ Near (a.mul S b) (l - 1) (Ua ∪ Ub) η V B := by
  have hl' : min a.level b.level = l := by rw [ha.level, hb.level]; exact hl
  have hd : Drops fm pq l (fm.mul a.scale b.scale) (2 ^ 47) 1 := drops_one hl1 ha.scale hb.scale h0a h1a h0b h1b
  have hm : MulsOk S a b := ⟨1, by
    rw [hl', hS.pscale]; exact hd⟩
  have hn : drops S (min a.level b.level) ((ctx fm rq rp).fm.mul a.scale b.scale) = 1 := by
    have := MulOk.spec hm
    rw [hl', hS.pscale] at this
    rw [hl']
    exact count_unique this hd
  obtain ⟨s1, s2⟩ := scale_step fm ha.scale hb.scale h0a h1a h0b h1b (pq_ge l) (pq_le hl1)
  obtain ⟨pa, pa'⟩ := ha.pos h1a
  obtain ⟨pb, pb'⟩ := hb.pos h1b
  have hdr : C27.dropped (ctx fm rq rp).q l 1 = pq l := by
    unfold C27.dropped; rw [prod_range_one]; rfl
  have hsc : C27.scaleAfter (ctx fm rq rp).fm (ctx fm rq rp).q l ((ctx fm rq rp).fm.mul a.scale b.scale) 1 =
      fm.div (fm.mul a.scale b.scale) (fm.ofNat (pq l)) := rfl
  have hq : (2 : ℝ) ^ 47 ≤ pq l := by exact_mod_cast pq_ge l
  have hq0 : (0 : ℝ) < pq l := by linarith [show (0 : ℝ) < 2 ^ 47 by norm_num]
  have pa1 : (0 : ℝ) < a.scale := by exact_mod_cast pa
  have pb1 : (0 : ℝ) < b.scale := by exact_mod_cast pb
  have pa2 : (a.scale : ℝ) ≤ 2 ^ 47 * (1025 / 1024) := by
    have := (Rat.cast_le (K := ℝ)).mpr pa'
    push_cast at this; exact this
  have pb2 : (b.scale : ℝ) ≤ 2 ^ 47 * (1025 / 1024) := by
    have := (Rat.cast_le (K := ℝ)).mpr pb'
    push_cast at this; exact this
  have s3 : |(a.scale : ℝ) * b.scale / (pq l : ℕ) - (fm.div (fm.mul a.scale b.scale) (fm.ofNat (pq l)) : ℚ)| ≤ 1 := by exact_mod_cast s2
  have hVa : 0 ≤ Va := ha.v0.trans ha.v
  have hVb : 0 ≤ Vb := hb.v0.trans hb.v
  have hBa : 0 ≤ Ba := ha.b0.trans ha.b
  have hBb : 0 ≤ Bb := hb.b0.trans hb.b
  refine ⟨hm, ?_, ?_, ?_, ?_, ?_, ?_, ?_⟩
  · show min a.level b.level - drops S (min a.level b.level) ((ctx fm rq rp).fm.mul a.scale b.scale) = _
    rw [hn, hl']
  · show a.ids ∪ b.ids = _
    rw [ha.ids, hb.ids]
  · show |C27.scaleAfter (ctx fm rq rp).fm (ctx fm rq rp).q (min a.level b.level) ((ctx fm rq rp).fm.mul a.scale b.scale)
      (drops S (min a.level b.level) ((ctx fm rq rp).fm.mul a.scale b.scale)) - 2 ^ 47| ≤ _
    rw [hn, hl', hsc]
    exact s1.trans (mul_le_mul_of_nonneg_right hη (by norm_num))
  · exact mul_nonneg ha.v0 hb.v0
  · exact (mul_le_mul ha.v hb.v hb.v0 hVa).trans hV
  all_goals
    unfold Info.mul
    dsimp only
    rw [hn, hl', hdr, hsc, ha.ids, hb.ids]
    unfold prodErr
  · have := ha.v0; have := hb.v0; have := ha.b0; have := hb.b0
    positivity
  · have t1 : a.B * b.B ≤ Ba * Bb := mul_le_mul ha.b hb.b hb.b0 hBa
    have t2 : a.B * (b.scale * b.V) ≤ Ba * (2 ^ 47 * (1025 / 1024) * Vb) :=
      mul_le_mul ha.b (mul_le_mul pb2 hb.v hb.v0 (by norm_num)) (mul_nonneg pb1.le hb.v0) hBa
    have t3 : a.scale * a.V * b.B ≤ 2 ^ 47 * (1025 / 1024) * Va * Bb :=
      mul_le_mul (mul_le_mul pa2 ha.v ha.v0 (by norm_num)) hb.b hb.b0 (mul_nonneg (by norm_num) hVa)
    have t4 : (a.B * b.B + a.B * (b.scale * b.V) + a.scale * a.V * b.B + (16384 : ℕ) * mulEb S l 1 Ua Ub) / (pq l : ℕ) ≤
        (Ba * Bb + Ba * (2 ^ 47 * (1025 / 1024) * Vb) + 2 ^ 47 * (1025 / 1024) * Va * Bb + K * 2 ^ 47) / 2 ^ 47 := by
      have hE' : ((16384 : ℕ) : ℝ) * mulEb S l 1 Ua Ub ≤ K * 2 ^ 47 := by push_cast; exact hE
      have hK : 0 ≤ K * 2 ^ 47 := le_trans (mul_nonneg (Nat.cast_nonneg _) hE0) hE'
      have c1 := mul_nonneg hBa hBb
      have c2 : 0 ≤ Ba * (2 ^ 47 * (1025 / 1024) * Vb) := mul_nonneg hBa (mul_nonneg (by norm_num) hVb)
      have c3 : 0 ≤ 2 ^ 47 * (1025 / 1024) * Va * Bb := mul_nonneg (mul_nonneg (by norm_num) hVa) hBb
      exact div_le_div₀ (by linarith) (by linarith) (by norm_num) hq
    have t5 : (Ba * Bb + Ba * (2 ^ 47 * (1025 / 1024) * Vb) + 2 ^ 47 * (1025 / 1024) * Va * Bb + K * 2 ^ 47) / 2 ^ 47 =
        Ba * Bb / 2 ^ 47 + 1025 / 1024 * (Ba * Vb + Va * Bb) + K := by ring
    have t6 : |(a.scale : ℝ) * b.scale / (pq l : ℕ) - (fm.div (fm.mul a.scale b.scale) (fm.ofNat (pq l)) : ℚ)| * (a.V * b.V) ≤ Va * Vb := by
      calc _ ≤ 1 * (a.V * b.V) := mul_le_mul_of_nonneg_right s3 (mul_nonneg ha.v0 hb.v0)
        _ ≤ Va * Vb := by rw [one_mul]; exact mul_le_mul ha.v hb.v hb.v0 hVa
    linarith

/-- the product with a plaintext, which is encoded with an error of at most `2^14` in a slot -/
theorem Near.mulPt (hS : Std S) (ha : Near a la Ua ηa Va Ba) (hU : Ua.card ≤ 2) (hl1 : 1 ≤ la) (h0a : 0 ≤ ηa) (h1a : ηa ≤ 1 / 1024)
    {V B : ℝ} (hV : Va ≤ V) (hB : 2 ^ 14 * Ba / 2 ^ 47 + 1025 / 1024 * (2 ^ 14 * Va) + Ba + 16384 * (1 + 2 * 16384) / 2 + Va ≤ B)
    {η : ℚ} (hη : ηa + 1 / 2 ^ 22 ≤ η) :
    MulOk S a.level (fm.mul a.scale (2 ^ 47)) ∧ Near (a.mulPt S (2 ^ 47) 1 (2 ^ 14)) (la - 1) Ua η V B := by
  have hd : Drops fm pq la (fm.mul a.scale (2 ^ 47)) (2 ^ 47) 1 :=
    drops_one hl1 ha.scale (b := 2 ^ 47) (ηb := 0) (by norm_num) h0a h1a le_rfl (by norm_num)
  have hm : MulOk S a.level (fm.mul a.scale (2 ^ 47)) := ⟨1, by rw [ha.level, hS.pscale]; exact hd⟩
  have hn : drops S a.level ((ctx fm rq rp).fm.mul a.scale (2 ^ 47)) = 1 := by
    have := MulOk.spec hm
    rw [ha.level, hS.pscale] at this
    rw [ha.level]
    exact count_unique this hd
  obtain ⟨s1, s2⟩ := scale_step fm ha.scale (b := 2 ^ 47) (ηb := 0) (by norm_num) h0a h1a le_rfl (by norm_num) (pq_ge la) (pq_le hl1)
  obtain ⟨pa, pa'⟩ := ha.pos h1a
  have hdr : C27.dropped (ctx fm rq rp).q la 1 = pq la := by
    unfold C27.dropped; rw [prod_range_one]; rfl
  have hsc : C27.scaleAfter (ctx fm rq rp).fm (ctx fm rq rp).q la ((ctx fm rq rp).fm.mul a.scale (2 ^ 47)) 1 =
      fm.div (fm.mul a.scale (2 ^ 47)) (fm.ofNat (pq la)) := rfl
  have hq : (2 : ℝ) ^ 47 ≤ pq la := by exact_mod_cast pq_ge la
  have hq0 : (0 : ℝ) < pq la := by linarith [show (0 : ℝ) < 2 ^ 47 by norm_num]
  have pa1 : (0 : ℝ) < a.scale := by exact_mod_cast pa
  have pa2 : (a.scale : ℝ) ≤ 2 ^ 47 * (1025 / 1024) := by
    have := (Rat.cast_le (K := ℝ)).mpr pa'
    push_cast at this; exact this
  have s3 : |((2 ^ 47 : ℚ) : ℝ) * a.scale / (pq la : ℕ) - (fm.div (fm.mul a.scale (2 ^ 47)) (fm.ofNat (pq la)) : ℚ)| ≤ 1 := by
    have := (Rat.cast_le (K := ℝ)).mpr s2
    push_cast at this ⊢
    rw [mul_comm]
    exact this
  have hVa : 0 ≤ Va := ha.v0.trans ha.v
  have hBa : 0 ≤ Ba := ha.b0.trans ha.b
  refine ⟨hm, ?_, ?_, ?_, ?_, ?_, ?_, ?_⟩
  · show a.level - drops S a.level ((ctx fm rq rp).fm.mul a.scale (2 ^ 47)) = _
    rw [hn, ha.level]
  · exact ha.ids
  · show |C27.scaleAfter (ctx fm rq rp).fm (ctx fm rq rp).q a.level ((ctx fm rq rp).fm.mul a.scale (2 ^ 47))
      (drops S a.level ((ctx fm rq rp).fm.mul a.scale (2 ^ 47))) - 2 ^ 47| ≤ _
    rw [hn, ha.level, hsc]
    refine s1.trans (mul_le_mul_of_nonneg_right (le_trans ?_ hη) (by norm_num))
    linarith
  · show 0 ≤ 1 * a.V
    rw [one_mul]; exact ha.v0
  · show 1 * a.V ≤ V
    rw [one_mul]; exact ha.v.trans hV
  all_goals
    unfold Info.mulPt
    dsimp only
    rw [hn, ha.level, hdr, hsc, ha.ids, hS.Sb]
    unfold prodErr
  all_goals
    have e47 : (((2 : ℚ) ^ 47 : ℚ) : ℝ) = 2 ^ 47 := by norm_num
    have hEb : ((16384 : ℕ) : ℝ) * (((((pq la : ℕ) - 1) * (1 + (Ua.card : ℤ) * ((16384 : ℕ) : ℤ) * 1) : ℤ) : ℝ) / 2) ≤
        16384 * (1 + 2 * 16384) / 2 * (pq la : ℕ) := by
      push_cast
      have hc : (Ua.card : ℝ) ≤ 2 := by exact_mod_cast hU
      have hc0 : (0 : ℝ) ≤ Ua.card := Nat.cast_nonneg _
      have h1 : ((pq la : ℝ) - 1) * (1 + (Ua.card : ℝ) * 16384 * 1) ≤ (pq la : ℝ) * (1 + 2 * 16384) :=
        mul_le_mul (by linarith) (by linarith) (by linarith) hq0.le
      linarith
    have hEb0 : 0 ≤ ((16384 : ℕ) : ℝ) * (((((pq la : ℕ) - 1) * (1 + (Ua.card : ℤ) * ((16384 : ℕ) : ℤ) * 1) : ℤ) : ℝ) / 2) := by
      push_cast
      have hc0 : (0 : ℝ) ≤ Ua.card := Nat.cast_nonneg _
      have h1 : 0 ≤ ((pq la : ℝ) - 1) * (1 + (Ua.card : ℝ) * 16384 * 1) :=
        mul_nonneg (by linarith [show (1 : ℝ) ≤ 2 ^ 47 by norm_num]) (by linarith)
      linarith
    generalize ((16384 : ℕ) : ℝ) * (((((pq la : ℕ) - 1) * (1 + (Ua.card : ℤ) * ((16384 : ℕ) : ℤ) * 1) : ℤ) : ℝ) / 2) = w at *
    have b1 := ha.b0
    have b2 := ha.v0
    have b3 := mul_nonneg pa1.le ha.v0
    have b4 : (0 : ℝ) ≤ 2 ^ 14 * a.B := mul_nonneg (by norm_num) b1
    have b5 : (0 : ℝ) ≤ 2 ^ 14 * (a.scale * a.V) := mul_nonneg (by norm_num) b3
    have b6 : (0 : ℝ) ≤ 2 ^ 47 * 1 * a.B := mul_nonneg (by norm_num) b1
    rw [e47] at s3 ⊢
  · exact add_nonneg (div_nonneg (by linarith) hq0.le) (mul_nonneg (abs_nonneg _) (by linarith))
  · have t6 : |(2 ^ 47 : ℝ) * a.scale / (pq la : ℕ) - (fm.div (fm.mul a.scale (2 ^ 47)) (fm.ofNat (pq la)) : ℚ)| * (1 * a.V) ≤ Va := by
      calc _ ≤ 1 * (1 * a.V) := mul_le_mul_of_nonneg_right s3 (by linarith)
        _ ≤ Va := by rw [one_mul, one_mul]; exact ha.v
    have t2 : (2 : ℝ) ^ 14 * (a.scale * a.V) ≤ 2 ^ 14 * (2 ^ 47 * (1025 / 1024) * Va) :=
      mul_le_mul_of_nonneg_left (mul_le_mul pa2 ha.v ha.v0 (by norm_num)) (by norm_num)
    have t3 : (2 : ℝ) ^ 14 * a.B ≤ 2 ^ 14 * Ba := mul_le_mul_of_nonneg_left ha.b (by norm_num)
    have t4 : (2 ^ 14 * a.B + 2 ^ 14 * (a.scale * a.V) + 2 ^ 47 * 1 * a.B + w) / (pq la : ℕ) ≤
        2 ^ 14 * Ba / 2 ^ 47 + 1025 / 1024 * (2 ^ 14 * Va) + Ba + 16384 * (1 + 2 * 16384) / 2 := by
      rw [div_le_iff₀ hq0]
      have u0 : 0 ≤ 2 ^ 14 * Ba / 2 ^ 47 + 1025 / 1024 * (2 ^ 14 * Va) + Ba := by positivity
      have u1 : (2 ^ 14 * Ba / 2 ^ 47 + 1025 / 1024 * (2 ^ 14 * Va) + Ba) * 2 ^ 47 ≤
          (2 ^ 14 * Ba / 2 ^ 47 + 1025 / 1024 * (2 ^ 14 * Va) + Ba) * (pq la : ℕ) := mul_le_mul_of_nonneg_left hq u0
      have u2 : (2 ^ 14 * Ba / 2 ^ 47 + 1025 / 1024 * (2 ^ 14 * Va) + Ba) * 2 ^ 47 =
          2 ^ 14 * Ba + 2 ^ 14 * (2 ^ 47 * (1025 / 1024) * Va) + 2 ^ 47 * 1 * Ba := by ring
      have u3 : (2 : ℝ) ^ 47 * 1 * a.B ≤ 2 ^ 47 * 1 * Ba := mul_le_mul_of_nonneg_left ha.b (by norm_num)
      rw [u2] at u1
      generalize (2 ^ 14 * Ba / 2 ^ 47 + 1025 / 1024 * (2 ^ 14 * Va) + Ba) = y at *
      rw [add_mul]
      linarith
    linarith

theorem ratio_lt (fm : FloatModel) {s s' ηa ηb : ℚ} (ha : |s - 2 ^ 47| ≤ ηa * 2 ^ 47) (hb : |s' - 2 ^ 47| ≤ ηb * 2 ^ 47) (h1a : ηa ≤ 1 / 1024)
    (h1b : ηb ≤ 1 / 1024) : ⌊fm.div s' s⌋ ≤ 1 := by
  have a' := abs_le.mp ha
  have b' := abs_le.mp hb
  have hs : 0 < s := by linarith [a'.1]
  have hs' : 0 < s' := by linarith [b'.1]
  have h1 : s' / s ≤ 3 / 2 := by
    rw [div_le_iff₀ hs]
    linarith [a'.1, b'.2]
  have h2 := fm.rnd_le (div_nonneg hs'.le hs.le)
  unfold FloatModel.div
  have hu : unitRoundoff = 1 / 2 ^ 53 := rfl
  rw [← Int.lt_add_one_iff, Int.floor_lt]
  push_cast
  calc fm.rnd (s' / s) ≤ s' / s * (1 + unitRoundoff) := h2
    _ ≤ 3 / 2 * (1 + unitRoundoff) := mul_le_mul_of_nonneg_right h1 (by rw [hu]; norm_num)
    _ < _ := by rw [hu]; norm_num

theorem factor_one (fm : FloatModel) {s s' ηa ηb : ℚ} (ha : |s - 2 ^ 47| ≤ ηa * 2 ^ 47) (hb : |s' - 2 ^ 47| ≤ ηb * 2 ^ 47) (h1a : ηa ≤ 1 / 1024)
    (h1b : ηb ≤ 1 / 1024) : C23.factor fm s s' = 1 := by
  unfold C23.factor
  rw [if_neg]
  rintro ⟨-, h⟩
  exact absurd (ratio_lt fm ha hb h1a h1b) (not_le.mpr h)

theorem max_near {s s' ηa ηb : ℚ} (ha : |s - 2 ^ 47| ≤ ηa * 2 ^ 47) (hb : |s' - 2 ^ 47| ≤ ηb * 2 ^ 47) :
    |max s s' - 2 ^ 47| ≤ max ηa ηb * 2 ^ 47 := by
  have h1 : ηa * 2 ^ 47 ≤ max ηa ηb * 2 ^ 47 := mul_le_mul_of_nonneg_right (le_max_left _ _) (by norm_num)
  have h2 : ηb * 2 ^ 47 ≤ max ηa ηb * 2 ^ 47 := mul_le_mul_of_nonneg_right (le_max_right _ _) (by norm_num)
  rcases max_choice s s' with h | h
  · rw [h]; exact ha.trans h1
  · rw [h]; exact hb.trans h2

/-- a sum with scales that differ by a small factor -/
theorem Near.add (ha : Near a la Ua ηa Va Ba) (hb : Near b lb Ub ηb Vb Bb) {l : ℕ} (hl : min la lb = l) (h0a : 0 ≤ ηa) (h1a : ηa ≤ 1 / 1024)
    (h0b : 0 ≤ ηb) (h1b : ηb ≤ 1 / 1024) {V B : ℝ} (hV : Va + Vb ≤ V) (hB : Ba + Bb + (ηa + ηb : ℚ) * 2 ^ 47 * (Va + Vb) ≤ B)
    {η : ℚ} (hη : max ηa ηb ≤ η) :
    AddOk fm a b ∧ Near (a.add fm b) l (Ua ∪ Ub) η V B := by
  have f1 := factor_one fm ha.scale hb.scale h1a h1b
  have f2 := factor_one fm hb.scale ha.scale h1b h1a
  have r1 := ratio_lt fm ha.scale hb.scale h1a h1b
  have r2 := ratio_lt fm hb.scale ha.scale h1b h1a
  have a' := abs_le.mp ha.scale
  have b' := abs_le.mp hb.scale
  have m1 : |a.scale - max a.scale b.scale| ≤ (ηa + ηb) * 2 ^ 47 := by
    rcases max_choice a.scale b.scale with h | h <;> rw [h, abs_le] <;> constructor <;> nlinarith [a'.1, a'.2, b'.1, b'.2]
  have m2 : |b.scale - max a.scale b.scale| ≤ (ηa + ηb) * 2 ^ 47 := by
    rcases max_choice a.scale b.scale with h | h <;> rw [h, abs_le] <;> constructor <;> nlinarith [a'.1, a'.2, b'.1, b'.2]
  have M1 : |(a.scale : ℝ) - (max a.scale b.scale : ℚ)| ≤ ((ηa + ηb : ℚ) : ℝ) * 2 ^ 47 := by exact_mod_cast m1
  have M2 : |(b.scale : ℝ) - (max a.scale b.scale : ℚ)| ≤ ((ηa + ηb : ℚ) : ℝ) * 2 ^ 47 := by exact_mod_cast m2
  have e0 : (0 : ℝ) ≤ ((ηa + ηb : ℚ) : ℝ) * 2 ^ 47 := le_trans (abs_nonneg _) M1
  have hVa := ha.v0; have hVb := hb.v0; have hBa := ha.b0; have hBb := hb.b0
  refine ⟨⟨by omega, by omega⟩, ?_, ?_, ?_, ?_, ?_, ?_, ?_⟩
  · show min a.level b.level = l
    rw [ha.level, hb.level, hl]
  · show a.ids ∪ b.ids = _
    rw [ha.ids, hb.ids]
  · exact (max_near ha.scale hb.scale).trans (mul_le_mul_of_nonneg_right hη (by norm_num))
  · exact add_nonneg hVa hVb
  · exact (add_le_add ha.v hb.v).trans hV
  all_goals
    show _ ≤ _
    unfold Info.add
    dsimp only
    unfold addErr
    rw [f1, f2, Nat.cast_one, one_mul, one_mul, one_mul, one_mul]
  · exact add_nonneg (add_nonneg (add_nonneg hBa hBb) (mul_nonneg (abs_nonneg _) hVa)) (mul_nonneg (abs_nonneg _) hVb)
  · have t1 := mul_le_mul M1 ha.v hVa e0
    have t2 := mul_le_mul M2 hb.v hVb e0
    have := ha.b; have := hb.b
    rw [mul_add] at hB
    linarith

/-! ## the errors of the five products -/

theorem mulEb_eq (hS : Std S) {l : ℕ} (hl : l ≤ 6) {U0 U1 : Finset String} {c0 c1 cu : ℕ} (h0 : U0.card = c0) (h1 : U1.card = c1) (hu : (U0 ∪ U1).card = cu) :
    mulEb S l 1 U0 U1 = ((2 * mulNoise 16384 19807044972774832760864309249 c0 c1 (l + 1) (2 * 144115188078673921) 1 1 19 +
      (19807044972774832760864309249 : ℕ) * (((pq l : ℕ) - 1) * (1 + cu * (16384 : ℕ) * 1)) : ℤ) : ℝ) / (2 * (19807044972774832760864309249 : ℕ)) := by
  unfold mulEb
  have hdr : C27.dropped (ctx fm rq rp).q l 1 = pq l := by
    unfold C27.dropped; rw [prod_range_one]; rfl
  rw [hS.Sb, hS.Rb, hS.Be, hS.D, beta_eq fm rq rp (by omega), P_eq, h0, h1, hu, hdr]
  rfl

/-- all but the last entry of a row are determined by the level -/
theorem mulEb_le (hS : Std S) {U0 U1 : Finset String} :
    (U0.card = 1 → U1.card = 1 → (U0 ∪ U1).card = 2 → 0 ≤ mulEb S 6 1 U0 U1 ∧ 16384 * mulEb S 6 1 U0 U1 ≤ 2 ^ 40 * (9 / 16) * 2 ^ 47) ∧
    (U0.card = 2 → U1.card = 2 → (U0 ∪ U1).card = 2 → 0 ≤ mulEb S 5 1 U0 U1 ∧ 16384 * mulEb S 5 1 U0 U1 ≤ 2 ^ 40 * (29 / 16) * 2 ^ 47) ∧
    (U0.card = 2 → U1.card = 1 → (U0 ∪ U1).card = 2 → 0 ≤ mulEb S 4 1 U0 U1 ∧ 16384 * mulEb S 4 1 U0 U1 ≤ 2 ^ 40 * (3 / 4) * 2 ^ 47) ∧
    (U0.card = 2 → U1.card = 2 → (U0 ∪ U1).card = 2 → 0 ≤ mulEb S 3 1 U0 U1 ∧ 16384 * mulEb S 3 1 U0 U1 ≤ 2 ^ 40 * (5 / 4) * 2 ^ 47) ∧
    (U0.card = 2 → U1.card = 1 → (U0 ∪ U1).card = 2 → 0 ≤ mulEb S 1 1 U0 U1 ∧ 16384 * mulEb S 1 1 U0 U1 ≤ 2 ^ 40 * (5 / 16) * 2 ^ 47) := by
  refine ⟨?_, ?_, ?_, ?_, ?_⟩
  all_goals
    intro h0 h1 h2
    rw [mulEb_eq hS (by norm_num) h0 h1 h2]
    norm_num [mulNoise, pq]

/-! ## the network -/

/-- the two owners -/
abbrev both : Finset String := {"dataOwner"} ∪ {"modelOwner"}

/-- the inputs: fresh encryptions at the top level and the default scale, with bounds of the values in the slots -/
structure Inputs (a k m b1 f b2 : Info) : Prop where
  img : Near a 6 {"dataOwner"} 0 1 (2 ^ 34)
  ker : Near k 6 {"modelOwner"} 0 (1 / 16) (2 ^ 34)
  mat : Near m 6 {"modelOwner"} 0 (1 / 1024) (2 ^ 34)
  b1 : Near b1 6 {"modelOwner"} 0 1 (2 ^ 34)
  fc2 : Near f 6 {"modelOwner"} 0 (1 / 2 ^ 13) (2 ^ 34)
  b2 : Near b2 6 {"modelOwner"} 0 200 (2 ^ 34)

theorem both_self : both ∪ both = both := by decide

theorem both_model : both ∪ {"modelOwner"} = both := by decide

theorem both_card : both.card = 2 := by decide

/-- **the levels suffice**, and the scale and the error of the result -/
theorem network (hS : Std S) {k m b1 f b2 : Info} (h : Inputs a k m b1 f b2) :
    LevelsOk S a k m b1 f b2 8 (2 ^ 47) 1 (2 ^ 14) ∧
      Near (f2 S a k m b1 f b2 8 (2 ^ 47) 1 (2 ^ 14)) 0 both (1 / 2 ^ 18) (401 / 2) (2490368 * 2 ^ 30) := by
  obtain ⟨e6, -, -, -, -⟩ := mulEb_le hS (U0 := {"dataOwner"}) (U1 := {"modelOwner"})
  obtain ⟨-, e5, -, e3, -⟩ := mulEb_le hS (U0 := both) (U1 := both)
  obtain ⟨-, -, e4, -, e1⟩ := mulEb_le hS (U0 := both) (U1 := {"modelOwner"})
  obtain ⟨e6a, e6b⟩ := e6 (by decide) (by decide) (by decide)
  obtain ⟨e5a, e5b⟩ := e5 (by decide) (by decide) (by decide)
  obtain ⟨e4a, e4b⟩ := e4 (by decide) (by decide) (by decide)
  obtain ⟨e3a, e3b⟩ := e3 (by decide) (by decide) (by decide)
  obtain ⟨e1a, e1b⟩ := e1 (by decide) (by decide) (by decide)
  have hc : both.card ≤ 2 := by decide
  -- the four products of the convolution
  have hp : ∀ x : Info, Near x 6 {"dataOwner"} 0 1 (2 ^ 34 + 2 ^ 34) → MulsOk S x k ∧ Near (x.mul S k) 5 both (1 / 2 ^ 22) (1 / 16) (600 * 2 ^ 30) := fun x hx =>
    hx.mul hS h.ker (l := 6) (by norm_num) (by norm_num) le_rfl (by norm_num) le_rfl (by norm_num) e6a e6b (by norm_num) (by norm_num) (by norm_num)
  obtain ⟨p0, q0⟩ := hp a (h.img.mono le_rfl le_rfl (by norm_num))
  obtain ⟨-, q1⟩ := hp _ (h.img.rot hS (by norm_num) (by decide) 1)
  obtain ⟨-, q2⟩ := hp _ (h.img.rot hS (by norm_num) (by decide) 14)
  obtain ⟨-, q3⟩ := hp _ (h.img.rot hS (by norm_num) (by decide) 15)
  have hconv : Near (convInfo S a k) 5 both (1 / 2 ^ 22) 1 (9728 * 2 ^ 30) := by
    have hs : Near ⟨(a.mul S k).level, (a.mul S k).scale, (a.mul S k).ids, (a.mul S k).V + (a.mul S k).V + (a.mul S k).V + (a.mul S k).V,
        (a.mul S k).B + ((a.rot S 1).mul S k).B + ((a.rot S 14).mul S k).B + ((a.rot S 15).mul S k).B⟩ 5 both (1 / 2 ^ 22) (1 / 4) (2400 * 2 ^ 30) := by
      have := q0.v0; have := q0.v; have := q0.b0; have := q0.b; have := q1.b0; have := q1.b; have := q2.b0; have := q2.b; have := q3.b0; have := q3.b
      refine ⟨q0.level, q0.ids, q0.scale, ?_, ?_, ?_, ?_⟩ <;> dsimp only <;> linarith
    exact (((hs.rotAdd hS (by norm_num) hc 2048).rotAdd hS (by norm_num) hc 1024)).mono le_rfl (by norm_num) (by norm_num)
  obtain ⟨p1, r1⟩ := hconv.mul hS hconv (l := 5) (by norm_num) (by norm_num) (by norm_num) (by norm_num) (by norm_num) (by norm_num) e5a e5b
    (V := 1) (B := 22272 * 2 ^ 30) (η := 1 / 2 ^ 20) (by norm_num) (by norm_num) (by norm_num)
  rw [both_self] at r1
  -- the first dense layer
  have ht : ∀ x : Info, Near x 4 both (1 / 2 ^ 20) 1 (22272 * 2 ^ 30 + 2 ^ 34) → MulsOk S x m ∧ Near (x.mul S m) 3 (both ∪ {"modelOwner"}) (5 / 2 ^ 22) (1 / 1024) (816 * 2 ^ 30) := fun x hx =>
    hx.mul hS h.mat (l := 4) (by norm_num) (by norm_num) (by norm_num) (by norm_num) le_rfl (by norm_num) e4a e4b (by norm_num) (by norm_num) (by norm_num)
  rw [both_model] at ht
  obtain ⟨p2, t0⟩ := ht (s1 S a k) (r1.mono le_rfl le_rfl (by norm_num))
  have hsum : Near (fc1Sum S (s1 S a k) m 8) 3 both (5 / 2 ^ 22) (8 / 1024) (8 * (816 * 2 ^ 30)) := by
    have hb : ∀ i ∈ range 8, 0 ≤ (((s1 S a k).rot S (i * 128)).mul S m).B ∧ (((s1 S a k).rot S (i * 128)).mul S m).B ≤ 816 * 2 ^ 30 := fun i _ => by
      obtain ⟨-, t⟩ := ht _ (r1.rot hS (by norm_num) hc (i * 128))
      exact ⟨t.b0, t.b⟩
    refine ⟨t0.level, t0.ids, t0.scale, ?_, ?_, sum_nonneg fun i hi => (hb i hi).1, ?_⟩
    · show 0 ≤ ((8 : ℕ) : ℝ) * _
      exact mul_nonneg (by norm_num) t0.v0
    · show ((8 : ℕ) : ℝ) * _ ≤ _
      have := t0.v
      push_cast
      linarith
    · calc _ ≤ ∑ _i ∈ range 8, (816 * 2 ^ 30 : ℝ) := sum_le_sum fun i hi => (hb i hi).2
        _ = _ := by rw [sum_const, card_range]; norm_num
  obtain ⟨-, u⟩ := (hsum.rotAdds hS (by norm_num) hc 1 7).add (fm := fm) h.b1 (l := 3) (by norm_num) (by norm_num) (by norm_num) le_rfl (by norm_num)
    (V := 2) (B := 851968 * 2 ^ 30) (η := 5 / 2 ^ 22) (by norm_num) (by norm_num) (by norm_num)
  rw [both_model] at u
  obtain ⟨p3, -⟩ := t0.add (fm := fm) h.b1 (l := 3) (by norm_num) (by norm_num) (by norm_num) le_rfl (by norm_num)
    le_rfl le_rfl le_rfl
  -- the second square, the mask and the second dense layer
  obtain ⟨p4, v⟩ := u.mul hS u (l := 3) (by norm_num) (by norm_num) (by norm_num) (by norm_num) (by norm_num) (by norm_num) e3a e3b
    (V := 4) (B := 9043968 * 2 ^ 30) (η := 12 / 2 ^ 22) (by norm_num) (by norm_num) (by norm_num)
  rw [both_self] at v
  obtain ⟨p5, w⟩ := v.mulPt hS hc (by norm_num) (by norm_num) (by norm_num) (V := 4) (B := 9175040 * 2 ^ 30) (η := 13 / 2 ^ 22) le_rfl (by norm_num)
    (by norm_num)
  have w4 : Near _ _ _ _ 64 (148897792 * 2 ^ 30) := (w.rotAdds hS (by norm_num) hc (-1) 4).mono le_rfl (by norm_num) (by norm_num)
  obtain ⟨-, g⟩ := w4.mul hS h.fc2 (l := 1) (by norm_num) (by norm_num) (by norm_num) (by norm_num) le_rfl (by norm_num) e1a e1b
    (V := 1 / 128) (B := 37888 * 2 ^ 30) (η := 14 / 2 ^ 22) (by norm_num) (by norm_num) (by norm_num)
  obtain ⟨p6, -⟩ := w.mul hS h.fc2 (l := 1) (by norm_num) (by norm_num) (by norm_num) (by norm_num) le_rfl (by norm_num) e1a e1b
    le_rfl le_rfl le_rfl
  rw [both_model] at g
  obtain ⟨p7, -⟩ := g.add (fm := fm) h.b2 (l := 0) (by norm_num) (by norm_num) (by norm_num) le_rfl (by norm_num) le_rfl le_rfl le_rfl
  obtain ⟨-, z⟩ := (g.rotAdds hS (by norm_num) hc 128 6).add (fm := fm) h.b2 (l := 0) (by norm_num) (by norm_num) (by norm_num) le_rfl (by norm_num)
    (V := 401 / 2) (B := 2490368 * 2 ^ 30) (η := 1 / 2 ^ 18) (by norm_num) (by norm_num) (by norm_num)
  rw [both_model] at z
  exact ⟨⟨p0, p1, p2, p3, p4, p5, p6, p7⟩, z⟩

/-! ## the client -/

/-- bounds of the data for which the worst-case analysis leaves room: pixels at most 1, kernels `1/16`, weights `2^-10` and `2^-13`, biases 1 and 200 -/
noncomputable def weights : Bounds := ⟨1, 1 / 16, 1 / 1024, 1 / 2 ^ 13, 1, 200⟩

/-- ternary secrets, Gaussian errors truncated at 19 -/
theorem small19 : (ctx fm rq rp).SmallBound 19 where
  q0 := by show 2 * (19 : ℤ) < (pq 0 : ℕ); norm_num [pq]
  p := fun j _ => by show (19 : ℤ) ≤ (pp j : ℕ); unfold pp; split <;> norm_num

theorem block_le (l k : ℕ) : 2 * ((ctx fm rq rp).blockProd l k : ℤ) ≤ 2 * (pq 0 : ℤ) := by
  have hal : (ctx fm rq rp).alpha = 1 := by simp [Ctx.alpha, Ctx.dims, Dims.alpha, ctx]
  have h : (ctx fm rq rp).blockProd l k ≤ pq 0 := by
    unfold Ctx.blockProd
    rw [hal]
    have hb : blockLen l 1 k ≤ 1 := by unfold blockLen; omega
    have h0 : ∀ n ≤ 1, ∏ i ∈ range n, (ctx fm rq rp).q (k * 1 + i) ≤ pq 0 := fun n hn => by
      interval_cases n
      · rw [prod_range_zero]; norm_num [pq]
      · rw [prod_range_one]; exact pq_lt _
    exact h0 _ hb
  exact_mod_cast Nat.mul_le_mul_left 2 h

/-- fresh encryptions at these bounds -/
theorem near_fresh (id : String) {Vb : ℝ} (hV : 0 ≤ Vb) : Near (freshInfo (ctx fm rq rp) (2 ^ 47) id Vb (2 ^ 14) (freshNoise 16384 1 19 19 1)) 6 {id} 0 Vb (2 ^ 34) := by
  refine ⟨rfl, rfl, by show |(2 : ℚ) ^ 47 - 2 ^ 47| ≤ _; norm_num, hV, le_rfl, ?_, ?_⟩
  all_goals
    show _ ≤ _
    unfold freshInfo freshNoise
    norm_num

theorem inputs : Inputs (freshInfo (ctx fm rq rp) (2 ^ 47) "dataOwner" weights.img (2 ^ 14) (freshNoise 16384 1 19 19 1))
    (freshInfo (ctx fm rq rp) (2 ^ 47) "modelOwner" weights.kers (2 ^ 14) (freshNoise 16384 1 19 19 1))
    (freshInfo (ctx fm rq rp) (2 ^ 47) "modelOwner" weights.mats (2 ^ 14) (freshNoise 16384 1 19 19 1))
    (freshInfo (ctx fm rq rp) (2 ^ 47) "modelOwner" weights.b1 (2 ^ 14) (freshNoise 16384 1 19 19 1))
    (freshInfo (ctx fm rq rp) (2 ^ 47) "modelOwner" weights.fc2 (2 ^ 14) (freshNoise 16384 1 19 19 1))
    (freshInfo (ctx fm rq rp) (2 ^ 47) "modelOwner" weights.b2 (2 ^ 14) (freshNoise 16384 1 19 19 1)) where
  img := near_fresh _ (by norm_num [weights])
  ker := near_fresh _ (by norm_num [weights])
  mat := near_fresh _ (by norm_num [weights])
  b1 := near_fresh _ (by norm_num [weights])
  fc2 := near_fresh _ (by norm_num [weights])
  b2 := near_fresh _ (by norm_num [weights])

/-- the result fits the modulus -/
theorem fits {i : Info} (h : Near i 0 both (1 / 2 ^ 18) (401 / 2) (2490368 * 2 ^ 30)) :
    2 * ((i.scale : ℝ) * weights.out + i.B) < modulus (ctx fm rq rp) i.level := by
  have su := (h.pos (by norm_num)).2
  have hb := h.b
  have hv : weights.out = 401 / 2 := by norm_num [Bounds.out, weights]
  have su' : (i.scale : ℝ) ≤ 2 ^ 47 * (1025 / 1024) := by
    have := (Rat.cast_le (K := ℝ)).mpr su
    push_cast at this; exact this
  have hm : modulus (ctx fm rq rp) 0 = 144115188078673921 := by unfold modulus; rw [prod_range_one]; rfl
  rw [h.level, hm, hv]
  push_cast
  linarith

/-- **C60 at the client's own parameters.** For PN14QP433 (`LogN = 14`, seven primes, two special primes, scale `2^47`), ternary secrets and encryption
randomness, errors of at most 19 (`6σ`), every float64 rounding, every implementation of the row operations that meets the contract, every iteration
order, every content of all scratch memories and every image and model within the bounds `weights`: the client runs through, and the scores it decrypts
are those of the network in the clear, within 20; it reads off the right class if that is ahead by more than 40. -/
theorem testCNN_pn14 (rand : ℕ → PolyQP (ctx fm rq rp)) (mform : PolyQP (ctx fm rq rp) → PolyQP (ctx fm rq rp)) {gs : ℕ → Nega 16384 ℤ}
    (hgs : ∀ n, Bdd (gs n) 19) {s r : String → Nega 16384 ℤ} (hs : ∀ id, Bdd (s id) 1) (hr : ∀ id, Bdd (r id) 1) (kg : KG (ctx fm rq rp))
    {ids : List String} (hids : "dataOwner" ∈ ids ∧ "modelOwner" ∈ ids) {us es : ℕ → Nega 16384 ℤ} (hu : ∀ n, Bdd (us n) 1) (hg : ∀ n, Bdd (es n) 19)
    (st : Enc (ctx fm rq rp)) {D : Cnn.Data} (hD : DataBdd D weights) {pi pf p1 p2 pm : Cnn.Arr} {pk pms : List Cnn.Arr}
    (hP : Packed D pi pk pms pf p1 p2 pm) {x : Cnn.Encoded (ctx fm rq rp)} (hx : EncodesAll x (2 ^ 47) (2 ^ 14) pi pk pms pf p1 p2 pm)
    {E : Eval (ctx fm rq rp)} (hE : E.Ready) (mredPsi : ℕ → ℕ → ℕ) (oe : ℕ → ℕ → Sched String) (o : ℕ → ℕ → Cnn.Ord) (od : Sched String) :
    ∃ (res : Poly (ctx fm rq rp)) (sc : ℚ),
      Cnn.testCNN (C16.crsOf (Cnn.clientCrs rand mform (ctx fm rq rp).fm (ctx fm rq rp).dims)) gs s r kg ids us es st (2 ^ 47) x E mredPsi oe o od = .ok (res, sc) ∧
      ∃ Φ : Nega 16384 ℤ, cf (res.rows 0) = red (pq 0) Φ ∧ (∀ t, 2 * |Φ t| < pq 0) ∧
        (∀ c < 10, ‖slot (c : ℕ) (toReal Φ) / (sc : ℂ) - Cnn.score D.image D.kernel D.fc1 D.b1 D.fc2 D.b2 c‖ ≤ 20) ∧
        ∀ c0 < 10, -80 < (Cnn.score D.image D.kernel D.fc1 D.b1 D.fc2 D.b2 c0).re →
          (∀ c < 10, c ≠ c0 → (Cnn.score D.image D.kernel D.fc1 D.b1 D.fc2 D.b2 c).re + 40 < (Cnn.score D.image D.kernel D.fc1 D.b1 D.fc2 D.b2 c0).re) →
          Cnn.argmax (fun c => slot (c : ℕ) (toReal Φ) / (sc : ℂ)) = c0 := by
  have hW := hD.hold hP
  set S0 : Sys (ctx fm rq rp) := numbers (C16.crsOf (Cnn.clientCrs rand mform (ctx fm rq rp).fm (ctx fm rq rp).dims)) (2 ^ 47) 1 1 19 (2 * (pq 0 : ℤ)) with hS0
  have hstd : Std S0 := ⟨rfl, rfl, rfl, rfl, rfl⟩
  obtain ⟨hL, hN⟩ := network hstd inputs
  have hN' : Near (outInfo S0 (2 ^ 47) weights (2 ^ 14) (freshNoise 16384 1 19 19 1)) 0 both (1 / 2 ^ 18) (401 / 2) (2490368 * 2 ^ 30) := hN
  obtain ⟨sp, su⟩ := hN'.pos (by norm_num)
  have sl : (2 ^ 47 * (1 - 1 / 2 ^ 18) : ℚ) ≤ (outInfo S0 (2 ^ 47) weights (2 ^ 14) (freshNoise 16384 1 19 19 1)).scale := by
    have := (abs_le.mp hN'.scale).1
    linarith
  have hb := hN'.b
  have hb0 := hN'.b0
  have hlev := hN'.level
  obtain ⟨⟨res, sc⟩, r1, r2, Φ, r3, r4, r5, r6⟩ := testCNN_ok (valid fm rq rp) (by norm_num) rand mform small19 hgs hs (by norm_num) hr (by norm_num) kg hids hu hg st
    (scale := 2 ^ 47) (by norm_num) hP hW hx hE mredPsi oe o od (fun l _ k _ => block_le l k) rfl rfl hL (slotNet_le hW hP.mask) (fits hN')
  set i := outInfo S0 (2 ^ 47) weights (2 ^ 14) (freshNoise 16384 1 19 19 1) with hi
  change sc = i.scale at r2
  subst r2
  have sl' : (2 ^ 47 * (1 - 1 / 2 ^ 18) : ℝ) ≤ i.scale := by
    have := (Rat.cast_le (K := ℝ)).mpr sl
    push_cast at this; exact this
  have sp' : (0 : ℝ) < i.scale := by exact_mod_cast sp
  have herr : i.B / i.scale ≤ 20 := by
    rw [div_le_iff₀ sp']
    linarith
  have herr0 : 0 ≤ i.B / i.scale := div_nonneg hb0 sp'.le
  have hm : modulus (ctx fm rq rp) i.level = pq 0 := by
    rw [hlev]
    unfold modulus; rw [prod_range_one]; rfl
  refine ⟨res, i.scale, r1, Φ, r3 0 (Nat.zero_le _), fun t => ?_, fun c hc => (r5 c hc).trans herr, fun c0 hc0 h1 h2 => ?_⟩
  · have := r4 t
    rw [hm] at this
    exact this
  · exact r6 c0 hc0 (by linarith) fun c hc hne => by have := h2 c hc hne; linarith

/-! ## a concrete run -/

/-- an image and a model within the bounds; class 3 is far ahead of the others -/
noncomputable def data : Cnn.Data where
  image := fun i j => if (i + j) % 2 = 0 then 1 else 1 / 2
  kernel := fun k y x => if k = y ∨ x = 0 then 1 / 16 else -1 / 32
  fc1 := fun _ l => if l % 2 = 0 then 1 / 1024 else -1 / 2048
  fc2 := fun l c => if l = c then 1 / 2 ^ 13 else 0
  b1 := fun l => if l = 0 then 1 else 1 / 2
  b2 := fun c => if c = 3 then 100 else 0

theorem data_bdd : DataBdd data weights := by
  constructor
  all_goals
    intros
    simp only [data, weights]
    split_ifs <;> norm_num

/-- the scores of the classes in the clear: class 3 wins by more than 40 -/
theorem data_score (c : ℕ) (hc : c < 10) : ∃ u : ℂ, ‖u‖ ≤ 1 / 2 ∧
    Cnn.score data.image data.kernel data.fc1 data.b1 data.fc2 data.b2 c = u + if c = 3 then 100 else 0 := by
  refine ⟨∑ l ∈ range 64, Cnn.clearFc1 data.image data.kernel data.fc1 data.b1 l ^ 2 * data.fc2 l c, ?_, rfl⟩
  have hB := data_bdd
  have k1 : ∀ k < 5, ∀ i < 13, ∀ j < 13, ‖Cnn.clearConv data.image data.kernel k i j‖ ≤ 1 := fun k hk i hi j hj => by
    unfold Cnn.clearConv
    refine (sum_le (B := 1 / 4) fun y hy => (sum_le (B := 1 / 16) fun x hx => ?_).trans_eq (by norm_num)).trans_eq (by norm_num)
    exact (mul_le (hB.image _ (by omega) _ (by omega)) (hB.kernel k hk y hy x hx)).trans_eq (by norm_num [weights])
  have k2 : ∀ l < 64, ‖Cnn.clearFc1 data.image data.kernel data.fc1 data.b1 l‖ ≤ 2 := fun l hl => by
    unfold Cnn.clearFc1
    refine (norm_add_le _ _).trans ((add_le_add (sum_le (B := 13 * (13 * (1 / 1024))) fun k hk => (sum_le (B := 13 * (1 / 1024)) fun i hi =>
      (sum_le (B := 1 / 1024) fun j hj => ?_).trans_eq (by norm_num)).trans_eq (by norm_num)) (hB.b1 l hl)).trans (by norm_num [weights]))
    refine (mul_le (A := 1) ?_ (hB.fc1 (k + 5 * (13 * i + j)) (by omega) l hl)).trans_eq (by norm_num [weights])
    rw [norm_pow]
    exact pow_le_one₀ (norm_nonneg _) (k1 k hk i hi j hj)
  refine (sum_le (B := 4 * (1 / 2 ^ 13)) fun l hl => ?_).trans (by norm_num)
  refine (mul_le (A := 4) ?_ (hB.fc2 l hl c hc)).trans_eq (by norm_num [weights])
  rw [norm_pow]
  exact (pow_le_pow_left₀ (norm_nonneg _) (k2 l hl) 2).trans_eq (by norm_num)

/-- **a concrete run**: with newly allocated objects and constant samplers, for every float64 rounding and every iteration order, the client classifies the image
as class 3, as the network in the clear does -/
theorem run_pn14 (fm : FloatModel) (mredPsi : ℕ → ℕ → ℕ) (oe : ℕ → ℕ → Sched String) (o : ℕ → ℕ → Cnn.Ord) (od : Sched String) (o' : Order String) :
    ∃ (x : Cnn.Encoded (ctx fm RQ RP)) (res : Poly (ctx fm RQ RP)) (sc : ℚ),
      Cnn.testCNN (C16.crsOf (Cnn.clientCrs (fun _ => PolyQP.zero) id (ctx fm RQ RP).fm (ctx fm RQ RP).dims)) (fun n t => if (n + t) % 2 = 0 then 19 else -7)
        (fun id _ => if id = "dataOwner" then 1 else -1) (fun _ t => if t = 0 then 1 else 0) (newKeyGenerator _) ["dataOwner", "modelOwner"]
        (fun _ _ => 1) (fun _ _ => -19) (newEncryptor _) (2 ^ 47) x (newEvaluator _ o') mredPsi oe o od = .ok (res, sc) ∧
      ∃ Φ : Nega 16384 ℤ, cf (res.rows 0) = red (pq 0) Φ ∧ (∀ t, 2 * |Φ t| < pq 0) ∧ Cnn.argmax (fun c => slot (c : ℕ) (toReal Φ) / (sc : ℂ)) = 3 := by
  obtain ⟨pi, pk, pms, pf, p1, p2, pm, hP, -, -⟩ := packed data
  obtain ⟨x, hx⟩ := encodesAll_exists (valid fm RQ RP) (by norm_num) (2 ^ 47) pi pf p1 p2 pm pk pms (Bp := 2 ^ 14) (by norm_num)
  obtain ⟨res, sc, r1, Φ, r2, r3, -, r5⟩ := testCNN_pn14 (rq := RQ) (rp := RP) (fm := fm) (fun _ => PolyQP.zero) id
    (gs := fun n t => if (n + t) % 2 = 0 then 19 else -7) (fun n t => by dsimp only; split_ifs <;> norm_num)
    (s := fun id _ => if id = "dataOwner" then 1 else -1) (r := fun _ t => if t = 0 then 1 else 0)
    (fun id t => by dsimp only; split_ifs <;> norm_num) (fun id t => by dsimp only; split_ifs <;> norm_num) (newKeyGenerator _)
    (ids := ["dataOwner", "modelOwner"]) (by simp) (us := fun _ _ => 1) (es := fun _ _ => -19) (fun n t => by norm_num) (fun n t => by norm_num)
    (newEncryptor _) data_bdd hP hx (newEvaluator_ready _ o') mredPsi oe o od
  have hs : ∀ c < 10, |(Cnn.score data.image data.kernel data.fc1 data.b1 data.fc2 data.b2 c).re - if c = 3 then 100 else 0| ≤ 1 / 2 := fun c hc => by
    obtain ⟨u, u1, u2⟩ := data_score c hc
    have e : (Cnn.score data.image data.kernel data.fc1 data.b1 data.fc2 data.b2 c).re = u.re + if c = 3 then 100 else 0 := by
      rw [u2, Complex.add_re]
      split_ifs <;> simp
    rw [e, add_sub_cancel_right]
    exact (Complex.abs_re_le_norm u).trans u1
  have h3 := abs_le.mp (hs 3 (by norm_num))
  rw [if_pos rfl] at h3
  refine ⟨x, res, sc, r1, Φ, r2, r3, r5 3 (by norm_num) (by linarith [h3.1]) fun c hc hne => ?_⟩
  have h := abs_le.mp (hs c hc)
  rw [if_neg hne] at h
  linarith [h.2, h3.1]

end MKHE.PN14
