import Verif.Model.Stats
import Verif.Spec.Stats

set_option autoImplicit false

/-!
# C79: `StandardDeviation` and `scaleDown`

`StandardDeviation` is the textbook value up to an explicit rounding error that grows linearly with the length
of the vector; of the empty vector it is NaN. `scaleDown` is the quotient up to three units of relative error;
with divisor zero it is an infinity or NaN.
-/

namespace MKHE.C79

open Spec

/-- the unit roundoff as a real number -/
noncomputable abbrev u : ℝ := (unitRoundoff : ℝ)

theorem u_eq : u = 1 / 2 ^ 53 := by
  show ((unitRoundoff : ℚ) : ℝ) = _
  unfold unitRoundoff; push_cast; norm_num

theorem u_pos : 0 < u := by rw [u_eq]; positivity

theorem u_small : u ≤ 1 / 2 ^ 50 := by rw [u_eq]; norm_num

variable (fm : F64)

theorem rnd_zero : fm.rnd 0 = 0 := by
  have := fm.exact_nat 0 (by norm_num); simpa using this

theorem rnd_le {x : ℝ} (h : 0 ≤ x) : fm.rnd x ≤ x * (1 + u) := by
  have := (abs_le.mp (fm.err x)).2; rw [abs_of_nonneg h] at this; show _ ≤ x * (1 + (unitRoundoff : ℝ)); linarith

theorem le_rnd {x : ℝ} (h : 0 ≤ x) : x * (1 - u) ≤ fm.rnd x := by
  have := (abs_le.mp (fm.err x)).1; rw [abs_of_nonneg h] at this; show x * (1 - (unitRoundoff : ℝ)) ≤ _; linarith

/-- the first loop: absolute error of a running sum -/
theorem sumLoop_err (M : ℝ) (v : List ℝ) (hM : ∀ c ∈ v, |c| ≤ M) (hM0 : 0 ≤ M) (hn : v.length ≤ 2 ^ 40) :
    ∃ s, fm.sumLoop v = .num s ∧ |s - v.sum| ≤ (v.length : ℝ) ^ 2 * M * u ∧ |v.sum| ≤ v.length * M := by
  induction v using List.reverseRecOn with
  | nil => exact ⟨0, rfl, by simp, by simp⟩
  | append_singleton l a ih =>
    have hlen : (l ++ [a]).length = l.length + 1 := by simp
    rw [hlen] at hn
    obtain ⟨s, h1, h2, h3⟩ := ih (fun c hc => hM c (List.mem_append_left _ hc)) (by omega)
    have ha := hM a (by simp)
    have hs : (l ++ [a]).sum = l.sum + a := by simp
    refine ⟨fm.rnd (s + a), ?_, ?_, ?_⟩
    · have : fm.sumLoop (l ++ [a]) = fm.add (fm.sumLoop l) (.num a) := by
        simp [F64.sumLoop, List.foldl_append]
      rw [this, h1]; rfl
    · rw [hs, hlen]
      have r := fm.err (s + a)
      have hk : (l.length : ℝ) ≤ 2 ^ 40 := by exact_mod_cast (by omega : l.length ≤ 2 ^ 40)
      have hk0 : (0 : ℝ) ≤ l.length := by positivity
      push_cast
      set k : ℝ := (l.length : ℝ)
      have hu := u_pos
      have hu2 := u_small
      have t1 : |s + a| ≤ k ^ 2 * M * u + k * M + M := by
        have e : s + a = (s - l.sum) + l.sum + a := by ring
        rw [e]; exact (abs_add_three _ _ _).trans (by linarith)
      have t2 : |fm.rnd (s + a) - (l.sum + a)| ≤ u * |s + a| + |s - l.sum| := by
        have e : fm.rnd (s + a) - (l.sum + a) = (fm.rnd (s + a) - (s + a)) + (s - l.sum) := by ring
        rw [e]; exact (abs_add_le _ _).trans (by linarith)
      refine t2.trans ?_
      have t3 : u * |s + a| ≤ u * (k ^ 2 * M * u + k * M + M) := mul_le_mul_of_nonneg_left t1 hu.le
      have hku : k * u ≤ 1 := by
        rw [u_eq]; rw [mul_one_div, div_le_one (by positivity)]; exact hk.trans (by norm_num)
      have t4 : k ^ 2 * M * u * u ≤ k * M * u := by
        have : k ^ 2 * M * u * u = (k * M * u) * (k * u) := by ring
        rw [this]; exact mul_le_of_le_one_right (by positivity) hku
      nlinarith
    · rw [hs, hlen]; push_cast
      exact (abs_add_le _ _).trans (by linarith)

/-- the second loop: the sum of squared distances to any finite `m`, up to relative errors -/
theorem errLoop_err (m : ℝ) (v : List ℝ) :
    ∃ s, fm.errLoop v (.num m) = .num s ∧
      (1 - u) ^ (v.length + 3) * (v.map fun c => (c - m) ^ 2).sum ≤ s ∧
      s ≤ (1 + u) ^ (v.length + 3) * (v.map fun c => (c - m) ^ 2).sum := by
  have hu := u_pos
  have hu2 := u_small
  have hu1 : 0 ≤ 1 - u := by linarith [show (1 : ℝ) / 2 ^ 50 ≤ 1 by norm_num]
  have hu1' : 1 - u ≤ 1 := by linarith
  induction v using List.reverseRecOn with
  | nil => exact ⟨0, rfl, by simp, by simp⟩
  | append_singleton l a ih =>
    have hlen : (l ++ [a]).length = l.length + 1 := by simp
    obtain ⟨s, h1, h2, h3⟩ := ih
    have hs : ((l ++ [a]).map fun c => (c - m) ^ 2).sum = (l.map fun c => (c - m) ^ 2).sum + (a - m) ^ 2 := by simp
    have hS0 : 0 ≤ (l.map fun c => (c - m) ^ 2).sum :=
      List.sum_nonneg (by intro x hx; simp only [List.mem_map] at hx; obtain ⟨c, _, rfl⟩ := hx; positivity)
    have hs0 : 0 ≤ s := le_trans (by positivity) h2
    have hrun : fm.errLoop (l ++ [a]) (.num m) = .num (fm.rnd (s + fm.rnd (fm.rnd (a - m) * fm.rnd (a - m)))) := by
      have : fm.errLoop (l ++ [a]) (.num m) = fm.add (fm.errLoop l (.num m))
          (fm.mul (fm.sub (.num a) (.num m)) (fm.sub (.num a) (.num m))) := by
        simp [F64.errLoop, List.foldl_append]
      rw [this, h1]; rfl
    refine ⟨_, hrun, ?_, ?_⟩ <;> rw [hs, hlen]
    all_goals
      set S := (l.map fun c => (c - m) ^ 2).sum
      set d := fm.rnd (a - m)
      have hd := fm.err (a - m)
      set D := (a - m) with hD
      have hdd : (1 - u) * |D| ≤ |d| ∧ |d| ≤ (1 + u) * |D| := by
        constructor
        · have := abs_sub_abs_le_abs_sub D d
          rw [abs_sub_comm D d] at this
          show (1 - (unitRoundoff : ℝ)) * _ ≤ _; linarith
        · have := abs_sub_abs_le_abs_sub d D
          show _ ≤ (1 + (unitRoundoff : ℝ)) * _; linarith
      have e2 : d * d = |d| ^ 2 := by rw [sq_abs]; ring
      have e3 : D ^ 2 = |D| ^ 2 := (sq_abs D).symm
      have hdd0 : 0 ≤ d * d := mul_self_nonneg d
      have q1 := rnd_le fm hdd0
      have q2 := le_rnd fm hdd0
      have hq0 : 0 ≤ fm.rnd (d * d) := le_trans (by positivity) q2
      have q3 := rnd_le fm (add_nonneg hs0 hq0)
      have q4 := le_rnd fm (add_nonneg hs0 hq0)
    · refine le_trans ?_ q4
      have a1 : (1 - u) ^ 2 * D ^ 2 ≤ d * d := by
        rw [e2, e3, ← mul_pow]; exact pow_le_pow_left₀ (by positivity) hdd.1 2
      have a2 : (1 - u) ^ (l.length + 3) * D ^ 2 ≤ fm.rnd (d * d) := by
        refine le_trans ?_ q2
        have p1 : (1 - u) ^ (l.length + 3) ≤ (1 - u) ^ 3 := pow_le_pow_of_le_one hu1 hu1' (by omega)
        calc (1 - u) ^ (l.length + 3) * D ^ 2 ≤ (1 - u) ^ 3 * D ^ 2 :=
              mul_le_mul_of_nonneg_right p1 (sq_nonneg D)
          _ = (1 - u) ^ 2 * D ^ 2 * (1 - u) := by ring
          _ ≤ d * d * (1 - u) := mul_le_mul_of_nonneg_right a1 hu1
      calc (1 - u) ^ (l.length + 1 + 3) * (S + D ^ 2)
          = ((1 - u) ^ (l.length + 3) * S + (1 - u) ^ (l.length + 3) * D ^ 2) * (1 - u) := by ring
        _ ≤ (s + fm.rnd (d * d)) * (1 - u) := mul_le_mul_of_nonneg_right (by linarith) hu1
    · refine le_trans q3 ?_
      have a1 : d * d ≤ (1 + u) ^ 2 * D ^ 2 := by
        rw [e2, e3, ← mul_pow]; exact pow_le_pow_left₀ (abs_nonneg d) hdd.2 2
      have a2 : fm.rnd (d * d) ≤ (1 + u) ^ (l.length + 3) * D ^ 2 := by
        refine le_trans q1 ?_
        have p1 : (1 + u) ^ 3 ≤ (1 + u) ^ (l.length + 3) := pow_le_pow_right₀ (by linarith) (by omega)
        calc d * d * (1 + u) ≤ (1 + u) ^ 2 * D ^ 2 * (1 + u) := mul_le_mul_of_nonneg_right a1 (by linarith)
          _ = (1 + u) ^ 3 * D ^ 2 := by ring
          _ ≤ _ := mul_le_mul_of_nonneg_right p1 (sq_nonneg D)
      calc (s + fm.rnd (d * d)) * (1 + u)
          ≤ ((1 + u) ^ (l.length + 3) * S + (1 + u) ^ (l.length + 3) * D ^ 2) * (1 + u) :=
            mul_le_mul_of_nonneg_right (by linarith) (by linarith)
        _ = _ := by ring

/-- moving the centre away from the mean -/
theorem sq_sum_shift (v : List ℝ) (hv : v ≠ []) (m : ℝ) :
    (v.map fun c => (c - m) ^ 2).sum / v.length =
      (v.map fun c => (c - mean v) ^ 2).sum / v.length + (m - mean v) ^ 2 := by
  have hn : (v.length : ℝ) ≠ 0 := by exact_mod_cast (List.length_pos_iff.mpr hv).ne'
  have key : ∀ (w : List ℝ) (a : ℝ), (w.map fun c => (c - a) ^ 2).sum =
      (w.map fun c => c ^ 2).sum - 2 * a * w.sum + w.length * a ^ 2 := by
    intro w a
    induction w with
    | nil => simp
    | cons x w ih => simp only [List.map_cons, List.sum_cons, List.length_cons, ih]; push_cast; ring
  rw [key v m, key v (mean v)]
  have hm : v.sum = mean v * v.length := by unfold mean; field_simp
  rw [hm]; field_simp; ring

theorem pow_upper (k : ℕ) (hk : k ≤ 2 ^ 42) : (1 + u) ^ k ≤ 1 + 2 * k * u := by
  have hu := u_pos
  induction k with
  | zero => simp
  | succ k ih =>
    have ih := ih (by omega)
    have hku : (k : ℝ) * u ≤ 1 / 2 := by
      rw [u_eq, mul_one_div, div_le_iff₀ (by positivity)]
      have : (k : ℝ) ≤ 2 ^ 42 := by exact_mod_cast (by omega : k ≤ 2 ^ 42)
      exact this.trans (by norm_num)
    rw [pow_succ]; push_cast
    calc (1 + u) ^ k * (1 + u) ≤ (1 + 2 * k * u) * (1 + u) := mul_le_mul_of_nonneg_right ih (by linarith)
      _ = 1 + 2 * k * u + u + 2 * (k * u) * u := by ring
      _ ≤ _ := by nlinarith

theorem pow_lower (k : ℕ) : 1 - k * u ≤ (1 - u) ^ k := by
  have hu := u_pos
  have hu1 : u ≤ 1 := u_small.trans (by norm_num)
  have := one_add_mul_le_pow (a := -u) (by linarith) k
  calc 1 - k * u = 1 + k * (-u) := by ring
    _ ≤ (1 + -u) ^ k := this
    _ = _ := by ring

/-- **C79.** For every non-empty vector of at most `2^40` numbers of absolute value at most `M` and every scale
at least `0`, `StandardDeviation` returns a number, and it differs from the scaled textbook standard deviation
by at most `(4 n + 22) * 2^-53 * M * scale`. -/
theorem standardDeviation_err (v : List ℝ) (hv : v ≠ []) (M scale : ℝ) (hM : ∀ c ∈ v, |c| ≤ M)
    (hs : 0 ≤ scale) (hn : v.length ≤ 2 ^ 40) :
    ∃ r, fm.standardDeviation v scale = .num r ∧ 0 ≤ r ∧
      |r - scale * stdDev v| ≤ (4 * v.length + 22) * (1 / 2 ^ 53) * M * scale := by
  obtain ⟨c0, hc0⟩ := List.exists_mem_of_ne_nil v hv
  have hM0 : 0 ≤ M := (abs_nonneg c0).trans (hM c0 hc0)
  have hpos : 0 < v.length := List.length_pos_iff.mpr hv
  have hnR : (0 : ℝ) < v.length := by exact_mod_cast hpos
  have hn1 : (1 : ℝ) ≤ v.length := by exact_mod_cast hpos
  have hn40 : (v.length : ℝ) ≤ 2 ^ 40 := by exact_mod_cast hn
  have hlenr : fm.rnd (v.length : ℝ) = v.length := fm.exact_nat _ (hn.trans (by norm_num))
  have hu := u_pos
  have hu1 : u ≤ 1 / 2 ^ 50 := u_small
  have hu1' : 0 ≤ 1 - u := by linarith [show (1 : ℝ) / 2 ^ 50 ≤ 1 by norm_num]
  obtain ⟨s, hsum, hserr, hsabs⟩ := sumLoop_err fm M v hM hM0 hn
  -- the computed mean
  set m := fm.rnd (s / v.length) with hm
  have hmean : fm.div (fm.sumLoop v) (.num (fm.rnd (v.length : ℝ))) = .num m := by
    rw [hsum, hlenr]; simp only [F64.div, if_neg hnR.ne']; rfl
  set n : ℝ := (v.length : ℝ) with hndef
  have hmm : |m - mean v| ≤ (n + 2) * M * u := by
    have e1 : |s / n - mean v| ≤ n * M * u := by
      have : s / n - mean v = (s - v.sum) / n := by unfold mean; rw [← hndef]; ring
      rw [this, abs_div, abs_of_pos hnR, div_le_iff₀ hnR]
      calc _ ≤ n ^ 2 * M * u := hserr
        _ = _ := by ring
    have e2 : |mean v| ≤ M := by
      unfold mean; rw [← hndef, abs_div, abs_of_pos hnR, div_le_iff₀ hnR]; linarith
    have e3 : |s / n| ≤ M + n * M * u := by
      have : s / n = mean v + (s / n - mean v) := by ring
      rw [this]; exact (abs_add_le _ _).trans (by linarith)
    have hnu : n * u ≤ 1 := by
      rw [u_eq, mul_one_div, div_le_one (by positivity)]; exact hn40.trans (by norm_num)
    have r := fm.err (s / n)
    have e4 : u * |s / n| ≤ 2 * M * u := by
      have : u * |s / n| ≤ u * (M + n * M * u) := mul_le_mul_of_nonneg_left e3 hu.le
      have h5 : u * (M + n * M * u) ≤ u * (M + M) := by
        apply mul_le_mul_of_nonneg_left _ hu.le
        have : n * M * u = M * (n * u) := by ring
        nlinarith
      linarith
    have : m - mean v = (m - s / n) + (s / n - mean v) := by ring
    rw [this]
    refine (abs_add_le _ _).trans ?_
    have r' : |m - s / n| ≤ u * |s / n| := r
    linarith
  obtain ⟨S, hS, hSl, hSu⟩ := errLoop_err fm m v
  set T := (v.map fun c => (c - m) ^ 2).sum with hT
  have hT0 : 0 ≤ T :=
    List.sum_nonneg (by intro x hx; simp only [List.mem_map] at hx; obtain ⟨c, _, rfl⟩ := hx; positivity)
  have hS0 : 0 ≤ S := le_trans (by positivity) hSl
  have hSn0 : 0 ≤ S / n := div_nonneg hS0 hnR.le
  have hW := le_rnd fm hSn0
  have hW' := rnd_le fm hSn0
  set W := fm.rnd (S / n) with hWdef
  have hW0 : 0 ≤ W := le_trans (by positivity) hW
  have hR := le_rnd fm (Real.sqrt_nonneg W)
  have hR' := rnd_le fm (Real.sqrt_nonneg W)
  set R := fm.rnd (Real.sqrt W) with hRdef
  have hR0 : 0 ≤ R := le_trans (mul_nonneg (Real.sqrt_nonneg W) hu1') hR
  have hX := le_rnd fm (mul_nonneg hR0 hs)
  have hX' := rnd_le fm (mul_nonneg hR0 hs)
  have hX0 : 0 ≤ fm.rnd (R * scale) := le_trans (mul_nonneg (mul_nonneg hR0 hs) hu1') hX
  refine ⟨fm.rnd (R * scale), ?_, hX0, ?_⟩
  · unfold F64.standardDeviation
    simp only []
    rw [hmean, hS, hlenr]
    simp only [F64.div, if_neg hnR.ne']
    show fm.mul (fm.sqrt (.num W)) (.num scale) = _
    simp only [F64.sqrt, if_neg (not_lt.mpr hW0)]
    rfl
  -- the root of the mean squared distance to the computed mean
  set τ := Real.sqrt (T / n) with hτ
  set σ := stdDev v with hσ
  have hσ0 : 0 ≤ σ := Real.sqrt_nonneg _
  have hTn : T / n = (v.map fun c => (c - mean v) ^ 2).sum / n + (m - mean v) ^ 2 := sq_sum_shift v hv m
  have hV0 : 0 ≤ (v.map fun c => (c - mean v) ^ 2).sum / n :=
    div_nonneg (List.sum_nonneg (by
      intro x hx; simp only [List.mem_map] at hx; obtain ⟨c, _, rfl⟩ := hx; positivity)) hnR.le
  have hτσ : σ ≤ τ := Real.sqrt_le_sqrt (by rw [hTn]; nlinarith [sq_nonneg (m - mean v)])
  have hτσ' : τ ≤ σ + |m - mean v| := by
    rw [hτ]; apply Real.sqrt_le_iff.mpr
    refine ⟨by positivity, ?_⟩
    have : σ ^ 2 = (v.map fun c => (c - mean v) ^ 2).sum / n := Real.sq_sqrt hV0
    rw [hTn, add_sq, this, sq_abs]
    have : 0 ≤ 2 * σ * |m - mean v| := by positivity
    linarith
  have hσM : σ ≤ M := by
    rw [hσ]; unfold stdDev; apply Real.sqrt_le_iff.mpr
    refine ⟨hM0, ?_⟩
    have h0 := sq_sum_shift v hv 0
    have hb : (v.map fun c => (c - 0) ^ 2).sum ≤ n * M ^ 2 := by
      have := List.sum_le_card_nsmul (v.map fun c => (c - 0) ^ 2) (M ^ 2) (by
        intro x hx; simp only [List.mem_map] at hx; obtain ⟨c, hc, rfl⟩ := hx
        rw [sub_zero, ← sq_abs]; exact pow_le_pow_left₀ (abs_nonneg c) (hM c hc) 2)
      simpa [nsmul_eq_mul, hndef] using this
    have hb' : (v.map fun c => (c - 0) ^ 2).sum / n ≤ M ^ 2 := by
      rw [div_le_iff₀ hnR]; linarith
    rw [← hndef] at h0
    nlinarith [sq_nonneg (0 - mean v)]
  -- relative errors
  set L := v.length
  have hTn0 : 0 ≤ T / n := div_nonneg hT0 hnR.le
  have up1 : W ≤ (1 + u) ^ (L + 4) * (T / n) := by
    calc W ≤ S / n * (1 + u) := hW'
      _ ≤ (1 + u) ^ (L + 3) * T / n * (1 + u) := by
          apply mul_le_mul_of_nonneg_right _ (by linarith)
          exact div_le_div_of_nonneg_right hSu hnR.le
      _ = _ := by ring
  have lo1 : (1 - u) ^ (L + 4) * (T / n) ≤ W := by
    calc (1 - u) ^ (L + 4) * (T / n) = (1 - u) ^ (L + 3) * T / n * (1 - u) := by ring
      _ ≤ S / n * (1 - u) := by
          apply mul_le_mul_of_nonneg_right _ hu1'
          exact div_le_div_of_nonneg_right hSl hnR.le
      _ ≤ W := hW
  have up2 : Real.sqrt W ≤ (1 + u) ^ (L + 4) * τ := by
    apply Real.sqrt_le_iff.mpr
    refine ⟨by positivity, up1.trans ?_⟩
    rw [mul_pow, hτ, Real.sq_sqrt hTn0]
    apply mul_le_mul_of_nonneg_right _ hTn0
    rw [← pow_mul]
    exact pow_le_pow_right₀ (by linarith) (by omega)
  have lo2 : (1 - u) ^ (L + 4) * τ ≤ Real.sqrt W := by
    apply Real.le_sqrt_of_sq_le
    refine le_trans ?_ lo1
    rw [mul_pow, hτ, Real.sq_sqrt hTn0]
    apply mul_le_mul_of_nonneg_right _ hTn0
    rw [← pow_mul]
    exact pow_le_pow_of_le_one hu1' (by linarith) (by omega)
  have hτ0 : 0 ≤ τ := Real.sqrt_nonneg _
  have up3 : fm.rnd (R * scale) ≤ (1 + u) ^ (L + 6) * (τ * scale) := by
    calc fm.rnd (R * scale) ≤ R * scale * (1 + u) := hX'
      _ ≤ (Real.sqrt W * (1 + u)) * scale * (1 + u) := by
          apply mul_le_mul_of_nonneg_right _ (by linarith)
          exact mul_le_mul_of_nonneg_right hR' hs
      _ ≤ ((1 + u) ^ (L + 4) * τ * (1 + u)) * scale * (1 + u) := by
          apply mul_le_mul_of_nonneg_right _ (by linarith)
          apply mul_le_mul_of_nonneg_right _ hs
          exact mul_le_mul_of_nonneg_right up2 (by linarith)
      _ = _ := by ring
  have lo3 : (1 - u) ^ (L + 6) * (τ * scale) ≤ fm.rnd (R * scale) := by
    calc (1 - u) ^ (L + 6) * (τ * scale) = ((1 - u) ^ (L + 4) * τ * (1 - u)) * scale * (1 - u) := by ring
      _ ≤ (Real.sqrt W * (1 - u)) * scale * (1 - u) := by
          apply mul_le_mul_of_nonneg_right _ hu1'
          apply mul_le_mul_of_nonneg_right _ hs
          exact mul_le_mul_of_nonneg_right lo2 hu1'
      _ ≤ R * scale * (1 - u) := by
          apply mul_le_mul_of_nonneg_right _ hu1'
          exact mul_le_mul_of_nonneg_right hR hs
      _ ≤ _ := hX
  have pu := pow_upper (L + 6) (by omega)
  have pl := pow_lower (L + 6)
  have hcast : ((L + 6 : ℕ) : ℝ) = n + 6 := by push_cast; rfl
  rw [hcast] at pu pl
  have hδ : τ ≤ σ + (n + 2) * M * u := hτσ'.trans (by linarith)
  have hsmall : (n + 6) * u ≤ 1 / 2 ^ 10 := by
    rw [u_eq, mul_one_div, div_le_iff₀ (by positivity)]
    have : n + 6 ≤ 2 ^ 40 + 6 := by linarith
    exact this.trans (by norm_num)
  rw [← u_eq]
  have hMs : 0 ≤ M * scale := mul_nonneg hM0 hs
  have hτM : τ ≤ M * (1 + 1 / 2 ^ 10) := by
    have : (n + 2) * M * u ≤ M * (1 / 2 ^ 10) := by
      calc (n + 2) * M * u = M * ((n + 2) * u) := by ring
        _ ≤ M * (1 / 2 ^ 10) := mul_le_mul_of_nonneg_left (by linarith) hM0
    linarith
  have hk0 : 0 ≤ (n + 6) * u := by positivity
  rw [abs_le]
  constructor
  · -- lower
    have h1 : τ * scale - (n + 6) * u * (τ * scale) ≤ fm.rnd (R * scale) := by
      refine le_trans (le_of_eq ?_) ((mul_le_mul_of_nonneg_right pl (mul_nonneg hτ0 hs)).trans lo3)
      ring
    have h2 : scale * σ ≤ τ * scale := by rw [mul_comm]; exact mul_le_mul_of_nonneg_right hτσ hs
    have h3 : (n + 6) * u * (τ * scale) ≤ (n + 6) * u * (M * (1 + 1 / 2 ^ 10) * scale) :=
      mul_le_mul_of_nonneg_left (mul_le_mul_of_nonneg_right hτM hs) hk0
    have h4 : (n + 6) * u * (M * (1 + 1 / 2 ^ 10) * scale) ≤ (4 * n + 22) * u * M * scale := by
      have e1 : (n + 6) * u * (M * (1 + 1 / 2 ^ 10) * scale) = ((n + 6) * (1 + 1 / 2 ^ 10)) * (u * (M * scale)) := by ring
      have e2 : (4 * n + 22) * u * M * scale = (4 * n + 22) * (u * (M * scale)) := by ring
      rw [e1, e2]
      apply mul_le_mul_of_nonneg_right _ (mul_nonneg hu.le hMs)
      norm_num; linarith
    linarith
  · have h1 : fm.rnd (R * scale) ≤ τ * scale + 2 * ((n + 6) * u) * (τ * scale) := by
      refine up3.trans (le_trans (mul_le_mul_of_nonneg_right pu (mul_nonneg hτ0 hs)) (le_of_eq ?_))
      ring
    have h2 : τ * scale ≤ scale * σ + (n + 2) * u * (M * scale) := by
      have := mul_le_mul_of_nonneg_right hδ hs
      linarith
    have h3 : 2 * ((n + 6) * u) * (τ * scale) ≤ 2 * ((n + 6) * u) * (M * (1 + 1 / 2 ^ 10) * scale) :=
      mul_le_mul_of_nonneg_left (mul_le_mul_of_nonneg_right hτM hs) (by linarith)
    have h4 : 2 * ((n + 6) * u) * (M * (1 + 1 / 2 ^ 10) * scale) + (n + 2) * u * (M * scale)
        ≤ (4 * n + 22) * u * M * scale := by
      have e1 : 2 * ((n + 6) * u) * (M * (1 + 1 / 2 ^ 10) * scale) + (n + 2) * u * (M * scale)
          = (2 * (n + 6) * (1 + 1 / 2 ^ 10) + (n + 2)) * (u * (M * scale)) := by ring
      have e2 : (4 * n + 22) * u * M * scale = (4 * n + 22) * (u * (M * scale)) := by ring
      rw [e1, e2]
      apply mul_le_mul_of_nonneg_right _ (mul_nonneg hu.le hMs)
      norm_num; linarith
    linarith

/-- the empty vector: `0 / 0` is NaN and stays NaN -/
theorem standardDeviation_nil (scale : ℝ) : fm.standardDeviation [] scale = .nan := by
  have h0 : fm.rnd ((([] : List ℝ).length : ℕ) : ℝ) = 0 := by
    simp [rnd_zero]
  unfold F64.standardDeviation
  simp only []
  rw [h0]
  simp [F64.sumLoop, F64.errLoop, F64.div, F64.sqrt, F64.mul]

/-- `scaleDown` is the quotient up to a relative error of `3 * 2^-53`. -/
theorem scaleDown_err (coeff : ℤ) (n : ℝ) (hn : n ≠ 0) :
    ∃ x, fm.scaleDown coeff n = .num x ∧ |x - coeff / n| ≤ 3 * (1 / 2 ^ 53) * |coeff / n| := by
  refine ⟨fm.rnd (fm.rnd (coeff : ℝ) / n), by simp only [F64.scaleDown, F64.div, if_neg hn], ?_⟩
  have hu := u_pos
  have hu1 : u ≤ 1 / 2 ^ 50 := u_small
  have h1 := fm.err (coeff : ℝ)
  have h2 := fm.err (fm.rnd (coeff : ℝ) / n)
  set y := fm.rnd (coeff : ℝ)
  have hn' : 0 < |n| := abs_pos.mpr hn
  have h3 : |y / n - coeff / n| ≤ u * |(coeff : ℝ) / n| := by
    rw [← sub_div, abs_div, abs_div, ← mul_div_assoc]
    exact div_le_div_of_nonneg_right h1 hn'.le
  have h4 : |y / n| ≤ (1 + u) * |(coeff : ℝ) / n| := by
    have e : y / n = (y / n - coeff / n) + coeff / n := by ring
    rw [e]; exact (abs_add_le _ _).trans (by linarith)
  have e : fm.rnd (y / n) - coeff / n = (fm.rnd (y / n) - y / n) + (y / n - coeff / n) := by ring
  rw [e, ← u_eq]
  have h5 : u * |y / n| ≤ u * ((1 + u) * |(coeff : ℝ) / n|) := mul_le_mul_of_nonneg_left h4 hu.le
  have h2' : |fm.rnd (y / n) - y / n| ≤ u * |y / n| := h2
  refine (abs_add_le _ _).trans ?_
  have ha : 0 ≤ |(coeff : ℝ) / n| := abs_nonneg _
  have : u * ((1 + u) * |(coeff : ℝ) / n|) ≤ 2 * u * |(coeff : ℝ) / n| := by
    have : u * ((1 + u) * |(coeff : ℝ) / n|) = (u * (1 + u)) * |(coeff : ℝ) / n| := by ring
    rw [this]; apply mul_le_mul_of_nonneg_right _ ha; nlinarith
  linarith

/-- integers of at most 53 bits divided by one come out exactly -/
theorem scaleDown_exact (k : ℕ) (hk : k ≤ 2 ^ 53) : fm.scaleDown k 1 = .num k := by
  have : ((k : ℤ) : ℝ) = (k : ℝ) := by push_cast; rfl
  simp only [F64.scaleDown, F64.div, this, fm.exact_nat k hk, div_one, if_neg one_ne_zero]

/-- a nonzero value rounds to a value of the same sign -/
theorem rnd_ne_zero {x : ℝ} (h : x ≠ 0) : fm.rnd x ≠ 0 ∧ (0 < fm.rnd x ↔ 0 < x) := by
  have hx := abs_pos.mpr h
  have e := fm.err x
  have hu : u ≤ 1 / 2 := u_small.trans (by norm_num)
  have hb : |fm.rnd x - x| ≤ 1 / 2 * |x| := e.trans (mul_le_mul_of_nonneg_right hu hx.le)
  rw [abs_le] at hb
  rcases lt_or_gt_of_ne h with hlt | hgt
  · rw [abs_of_neg hlt] at hb
    have : fm.rnd x < 0 := by linarith [hb.2]
    exact ⟨this.ne, ⟨fun h => absurd h (by linarith), fun h => absurd h (by linarith)⟩⟩
  · rw [abs_of_pos hgt] at hb
    have : 0 < fm.rnd x := by linarith [hb.1]
    exact ⟨this.ne', ⟨fun _ => hgt, fun _ => this⟩⟩

/-- a zero divisor is never reported as a number -/
theorem scaleDown_zero (coeff : ℤ) :
    fm.scaleDown coeff 0 = if coeff = 0 then .nan else if 0 < coeff then .posInf else .negInf := by
  by_cases h : coeff = 0
  · subst h; simp [F64.scaleDown, F64.div, rnd_zero]
  · have h' : (coeff : ℝ) ≠ 0 := by exact_mod_cast h
    obtain ⟨h1, h2⟩ := rnd_ne_zero fm h'
    rw [if_neg h]
    simp only [F64.scaleDown, F64.div, if_true, if_neg h1]
    by_cases hp : 0 < coeff
    · rw [if_pos hp, if_pos (h2.mpr (by exact_mod_cast hp))]
    · rw [if_neg hp, if_neg (fun hh => hp (by exact_mod_cast h2.mp hh))]

/-- exact arithmetic is a model of the contract -/
noncomputable def exactF64 : F64 where
  rnd := fun x => x
  err := fun x => by
    simp only [sub_self, abs_zero]
    exact mul_nonneg u_pos.le (abs_nonneg x)
  exact_nat := fun _ _ => rfl

/-- non-vacuity: the vector `1, 3` has standard deviation `1`; with scale `5` any float64 arithmetic is within
`150 * 2^-53 * 3` of `5` -/
example : ∃ r, fm.standardDeviation [1, 3] 5 = .num r ∧ |r - 5| ≤ (4 * 2 + 22) * (1 / 2 ^ 53) * 3 * 5 := by
  obtain ⟨r, h1, _, h3⟩ := standardDeviation_err fm [1, 3] (by simp) 3 5
    (by intro c hc; fin_cases hc <;> norm_num) (by norm_num) (by simp)
  refine ⟨r, h1, ?_⟩
  have : stdDev [1, 3] = 1 := by
    unfold stdDev mean; norm_num
  rw [this] at h3
  simpa using h3

end MKHE.C79
