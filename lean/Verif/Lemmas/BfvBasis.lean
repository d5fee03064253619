import Verif.Model.BfvMul
import Verif.Lemmas.Noise

set_option autoImplicit false

/-!
# BFV basis conversions and the decomposition over R
-/

namespace MKHE
open Finset Nega

/-! ## one coefficient of DecomposeAndSplit, for any block of the basis -/

/-- `DecomposeAndSplit` called with a level that bounds the rows needed but not the block: the block lies anywhere in the basis. The level
plus one is a multiple of alpha, so that every block is full. -/
theorem decompose_uniform_any (fm : FloatModel) (nQ : ℕ) (Q : ℕ → ℕ) (nP : ℕ) (P : ℕ → ℕ) (levelQ levelP alpha beta gamma : ℕ)
    (h : GoodPair nQ Q nP P) (hg : 1 ≤ gamma) (ha : 1 ≤ alpha) (hga : gamma * alpha ≤ nP)
    (hlP : levelP < gamma * alpha ∨ (alpha = 1 ∧ levelP < nP))
    (hnQ : nQ < 2 ^ 53) (hnP : nP < 2 ^ 53) (hlQ : levelQ < nQ) (hd : alpha ∣ levelQ + 1) (hb : beta * alpha + alpha ≤ nQ)
    (h32 : alpha ≤ 32) (hs : ∑ k ∈ range alpha, Q (beta * alpha + k) ≤ W64)
    (a : ℕ → ℕ) (hain : ∀ i < nQ, a i < 3 * Q i) :
    ∃ D : ℤ, (∀ i < alpha, D ≡ a (beta * alpha + i) [ZMOD Q (beta * alpha + i)]) ∧
      |D| ≤ 3 * (mprod alpha fun k => Q (beta * alpha + k) : ℕ) ∧
      ∃ gQ gP : ℕ → ℕ, (∀ outQ outP, ∃ oQ, decomposeAndSplit fm nQ Q nP P levelQ levelP alpha beta gamma a outQ outP =
          .ok (oQ, overlay (levelP + 1) gP outP) ∧ ∀ i ≤ levelQ, oQ i = gQ i) ∧
        (∀ i ≤ levelQ, RepD (gQ i) D (Q i)) ∧ (∀ j ≤ levelP, RepD (gP j) D (P j)) := by
  have hcnt : (if levelQ + 1 > alpha * (beta + 1) then alpha else levelQ % alpha + 1) = alpha := by
    split
    · rfl
    · obtain ⟨c, hc⟩ := hd
      have h1 : 1 ≤ c := by rcases c with _ | c <;> omega
      have h2 : levelQ = alpha * (c - 1) + (alpha - 1) := by
        have : alpha * c = alpha * (c - 1) + alpha := by
          conv_lhs => rw [show c = c - 1 + 1 by omega, Nat.mul_add, Nat.mul_one]
        omega
      rw [h2, Nat.mul_add_mod, Nat.mod_eq_of_lt (by omega)]
      omega
  have hword : ∀ i < nQ, a i < 2 ^ 63 := fun i hi => by
    have := hain i hi
    have := h.lt61Q i hi
    omega
  unfold decomposeAndSplit
  simp only [hcnt]
  by_cases hc : alpha = 1
  · simp only [if_pos hc]
    have hst : beta * alpha < nQ := by omega
    refine ⟨a (beta * alpha), ?_, ?_, fun _ => a (beta * alpha), fun _ => a (beta * alpha), fun outQ outP => ⟨_, rfl, ?_⟩, ?_, ?_⟩
    · intro i hi; have : i = 0 := by omega
      subst this; exact Int.ModEq.refl _
    · rw [hc]
      have e : (mprod 1 fun k => Q (beta * 1 + k)) = Q (beta * 1) := by simp [mprod]
      rw [e]
      have := hain _ hst
      rw [hc] at this
      rw [abs_of_nonneg (by positivity)]
      exact_mod_cast this.le
    · intro i hi; simp only [if_pos (show i < levelQ + 1 by omega)]
    · intro i hi; exact ⟨Int.ModEq.refl _, hword _ hst⟩
    · intro i hi; exact ⟨Int.ModEq.refl _, hword _ hst⟩
  · have hlP : levelP < gamma * alpha := hlP.resolve_right (fun e => by omega)
    obtain ⟨pl, pb, p1, p2, p3⟩ := decomposerParams_lookup fm nQ Q nP P gamma alpha beta alpha hg (by omega) hga hnQ hnP
      (by omega) le_rfl (by omega)
    simp only [if_neg hc, Go.idx_ok p1, Go.andThen_ok, Go.idx_ok p2, Go.idx_ok p3]
    set Qb : ℕ → ℕ := fun k => Q (beta * alpha + k) with hQb
    have hB : GoodBasis alpha Qb := h.goodBasis (beta * alpha) alpha (by omega) (by omega) (by omega) hs
    obtain ⟨y, v, r1, r2, r3, r4, r5⟩ := reconstruct_spec fm alpha Qb (nQ + gamma * alpha) (concatMods nQ Q P) hB
      (fun i => a (beta * alpha + i)) (fun i hi => by
        have := hword (beta * alpha + i) (by omega)
        show a (beta * alpha + i) < 2 ^ 64
        omega)
    have hnr : NearRange (liftInt alpha Qb y v) (mprod alpha Qb) := ⟨r5.1, r5.2⟩
    have hm0 : (0 : ℤ) ≤ (mprod alpha Qb : ℕ) := by positivity
    refine ⟨liftInt alpha Qb y v, r4, hnr.abs_le.trans (by linarith), ?_⟩
    simp only [r1, Go.andThen_ok]
    set pr := basisExtParams alpha Qb (nQ + gamma * alpha) (concatMods nQ Q P) with hpr
    have hQex : ∀ j < nQ, ∃ r, (Go.andThen (Go.idx pr.vtimesqmodp j) fun vt =>
      Go.andThen (Go.idx pr.qoverqimodp j) fun qo => multSum y v alpha (Q j) (mredParams (Q j)) vt qo) = .ok r ∧
        Rep3 r (liftInt alpha Qb y v) (Q j) := by
      intro j hj
      have hc : concatMods nQ Q P j = Q j := by simp [concatMods, hj]
      obtain ⟨vt, qo, r, a1, a2, a3, a4, a5⟩ := multSum_lift alpha Qb (nQ + gamma * alpha) (concatMods nQ Q P) hB y v r2 r3 j
        (by omega) (by rw [hc]; exact h.goodMod j hj)
      rw [hc] at a3 a4 a5
      exact ⟨r, by rw [Go.idx_ok a1, Go.andThen_ok, Go.idx_ok a2, Go.andThen_ok, a3], a4, a5⟩
    have hPex : ∀ j < gamma * alpha, ∃ r, (Go.andThen (Go.idx pr.vtimesqmodp (nQ + j)) fun vt =>
      Go.andThen (Go.idx pr.qoverqimodp (nQ + j)) fun qo => multSum y v alpha (P j) (mredParams (P j)) vt qo) = .ok r ∧
        Rep3 r (liftInt alpha Qb y v) (P j) := by
      intro j hj
      have hc : concatMods nQ Q P (nQ + j) = P j := by simp [concatMods]
      obtain ⟨vt, qo, r, a1, a2, a3, a4, a5⟩ := multSum_lift alpha Qb (nQ + gamma * alpha) (concatMods nQ Q P) hB y v r2 r3
        (nQ + j) (by omega) (by rw [hc]; exact h.symm.goodMod j (by omega))
      rw [hc] at a3 a4 a5
      exact ⟨r, by rw [Go.idx_ok a1, Go.andThen_ok, Go.idx_ok a2, Go.andThen_ok, a3], a4, a5⟩
    choose! g hg1 hg2 using hQex
    choose! k hk1 hk2 using hPex
    refine ⟨g, k, ?_, fun i hi => (hg2 i (by omega)).repD (h.lt61Q i (by omega)),
      fun j hj => (hk2 j (by omega)).repD (h.lt61P j (by omega))⟩
    intro outQ outP
    rw [Go.fill_ok _ g _ _ (fun j hj => hg1 j (by have := List.mem_range.mp hj; omega)), Go.andThen_ok]
    rw [Go.fill_ok _ g _ _ (fun j hj => hg1 j (by have := List.mem_range.mp (List.mem_of_mem_filter hj); omega)), Go.andThen_ok]
    rw [Go.fill_ok _ k _ _ (fun j hj => hk1 j (by have := List.mem_range.mp hj; omega)), Go.andThen_ok]
    have e2 : alpha * beta = beta * alpha := Nat.mul_comm _ _
    refine ⟨_, rfl.trans (congrArg (fun z => Except.ok (_, z)) ?_), ?_⟩
    · funext j
      simp only [List.mem_range, overlay]
    · intro i hi
      by_cases hi2 : alpha * beta ≤ i
      · rw [if_pos (by simp [hi2]; omega)]
      · rw [if_neg (by simp [hi2]), if_pos (by simp; omega)]

variable {N : ℕ} [NeZero N]

/-! ## the parameters -/

/-- Hypotheses on a BFV parameter set: those of the QP parameters, the same for the primes of R with P, and `alpha` divides the number of
primes of Q (otherwise `GenBFVSwitchingKey` indexes out of range), at most 32 primes in Q and in QMul (the size of the arrays of
`modUpExact`) with sums that fit a word. -/
structure BCtx.Valid (B : BCtx N) : Prop where
  qp : B.C.Valid
  rp : GoodPair (2 * B.C.nQ) B.r B.C.nP B.C.p
  div : B.C.alpha ∣ B.C.nQ
  nQ52 : 2 * B.C.nQ < 2 ^ 53
  nQ32 : B.C.nQ ≤ 32
  sumQ : ∑ i ∈ range B.C.nQ, B.C.q i ≤ W64
  sumM : ∑ i ∈ range B.C.nQ, B.m i ≤ W64
  sumR : ∀ k, k * B.C.alpha + B.C.alpha ≤ 2 * B.C.nQ → ∑ i ∈ range B.C.alpha, B.r (k * B.C.alpha + i) ≤ W64

namespace BCtx
variable (B : BCtx N)

theorem r_q {i : ℕ} (h : i < B.C.nQ) : B.r i = B.C.q i := if_pos h
theorem r_m (j : ℕ) : B.r (B.C.nQ + j) = B.m j := by unfold r concatMods; simp

end BCtx

variable {B : BCtx N}

namespace BCtx.Valid
variable (V : B.Valid)
include V

theorem top_lt : B.top < B.C.nQ := by have := V.qp.q1; unfold BCtx.top; omega
theorem top_succ : B.top + 1 = B.C.nQ := by have := V.qp.q1; unfold BCtx.top; omega

/-- Q and QMul are coprime bases -/
theorem qm : GoodPair B.C.nQ B.C.q B.C.nQ B.m where
  primeQ := V.qp.pair.primeQ
  oddQ := V.qp.pair.oddQ
  lt61Q := V.qp.pair.lt61Q
  primeP := fun j hj => by have := V.rp.primeQ (B.C.nQ + j) (by omega); rwa [B.r_m] at this
  oddP := fun j hj => by have := V.rp.oddQ (B.C.nQ + j) (by omega); rwa [B.r_m] at this
  lt61P := fun j hj => by have := V.rp.lt61Q (B.C.nQ + j) (by omega); rwa [B.r_m] at this
  distinctQ := V.qp.pair.distinctQ
  distinctP := fun i hi k hk e => by
    have := V.rp.distinctQ (B.C.nQ + i) (by omega) (B.C.nQ + k) (by omega) (by rw [B.r_m, B.r_m, e])
    omega
  disjoint := fun i hi j hj e => by
    have := V.rp.distinctQ i (by omega) (B.C.nQ + j) (by omega) (by rw [B.r_m, B.r_q hi, e])
    omega

theorem betaTop : B.C.beta B.top * B.C.alpha = B.C.nQ := by
  obtain ⟨c, hc⟩ := V.div
  have h1 := V.qp.alpha_pos
  have h2 := V.top_succ
  rw [V.qp.beta_eq V.top_lt]
  have h3 : 1 ≤ c := by
    rcases c with _ | c
    · rw [Nat.mul_zero] at hc; omega
    · omega
  have h4 : B.top = B.C.alpha * (c - 1) + (B.C.alpha - 1) := by
    have : B.C.alpha * c = B.C.alpha * (c - 1) + B.C.alpha := by
      conv_lhs => rw [show c = c - 1 + 1 by omega, Nat.mul_add, Nat.mul_one]
    omega
  rw [h4, Nat.mul_add_div (by omega), Nat.div_eq_of_lt (by omega), hc, Nat.add_zero, Nat.sub_add_cancel h3, Nat.mul_comm]

/-- `swkRPPool` has exactly twice as many components as a key -/
theorem betaRP_eq : B.betaRP = 2 * B.C.beta B.top := by
  have h1 := V.qp.alpha_pos
  have h3 := V.qp.le32
  have h4 := V.qp.alpha_le
  have h5 := V.betaTop
  have h6 := V.qp.q1
  have h7 := V.nQ52
  unfold BCtx.betaRP Dims.beta
  change FloatModel.ceilInt (B.C.fm.div (B.C.fm.ofNat (2 * B.C.nQ - 1 + 1)) (B.C.fm.ofNat B.C.alpha)) = _
  rw [B.C.fm.ceil_div_exact _ _ (by omega) h1 (by omega)]
  have e : 2 * B.C.nQ - 1 + 1 + B.C.alpha - 1 = B.C.alpha * (2 * B.C.beta B.top) + (B.C.alpha - 1) := by
    have : B.C.alpha * (2 * B.C.beta B.top) = 2 * B.C.nQ := by rw [← h5]; ring
    omega
  rw [e, Nat.mul_add_div (by omega), Nat.div_eq_of_lt (by omega), Nat.add_zero]

theorem block_le {k : ℕ} (hk : k < 2 * B.C.beta B.top) : k * B.C.alpha + B.C.alpha ≤ 2 * B.C.nQ := by
  have h5 := V.betaTop
  calc k * B.C.alpha + B.C.alpha = (k + 1) * B.C.alpha := by ring
    _ ≤ (2 * B.C.beta B.top) * B.C.alpha := Nat.mul_le_mul_right _ (by omega)
    _ = 2 * B.C.nQ := by rw [← h5]; ring

theorem QMul_coprime {i : ℕ} (hi : i < B.C.nQ) : Nat.Coprime (B.C.q i) B.QMul := by
  apply Nat.Coprime.prod_right
  intro k hk
  have := mem_range.mp hk
  exact (Nat.coprime_primes (V.qm.primeQ i hi) (V.qm.primeP k this)).mpr (V.qm.disjoint i hi k this)

theorem Q_coprime {j : ℕ} (hj : j < B.C.nQ) : Nat.Coprime (B.m j) B.Q := by
  apply Nat.Coprime.prod_right
  intro k hk
  have := mem_range.mp hk
  exact (Nat.coprime_primes (V.qm.primeP j hj) (V.qm.primeQ k this)).mpr (fun e => V.qm.disjoint k this j hj e.symm)

theorem Q_pos : 0 < B.Q := Finset.prod_pos fun j hj => (V.qm.primeQ j (mem_range.mp hj)).pos
theorem QMul_pos : 0 < B.QMul := Finset.prod_pos fun j hj => (V.qm.primeP j (mem_range.mp hj)).pos

theorem QMul_dvd (z : ℤ) (hz : ∀ j < B.C.nQ, (B.m j : ℤ) ∣ z) : (B.QMul : ℤ) ∣ z := by
  unfold BCtx.QMul
  push_cast
  apply Finset.prod_dvd_of_coprime
  · intro a ha b hb hab
    have ha' := mem_range.mp (Finset.mem_coe.mp ha)
    have hb' := mem_range.mp (Finset.mem_coe.mp hb)
    exact Nat.isCoprime_iff_coprime.mpr ((Nat.coprime_primes (V.qm.primeP a ha') (V.qm.primeP b hb')).mpr
      fun e => hab (V.qm.distinctP a ha' b hb' e))
  · intro k hk
    exact hz k (mem_range.mp hk)

theorem Q_dvd (z : ℤ) (hz : ∀ j < B.C.nQ, (B.C.q j : ℤ) ∣ z) : (B.Q : ℤ) ∣ z := by
  unfold BCtx.Q
  push_cast
  apply Finset.prod_dvd_of_coprime
  · intro a ha b hb hab
    have ha' := mem_range.mp (Finset.mem_coe.mp ha)
    have hb' := mem_range.mp (Finset.mem_coe.mp hb)
    exact Nat.isCoprime_iff_coprime.mpr ((Nat.coprime_primes (V.qm.primeQ a ha') (V.qm.primeQ b hb')).mpr
      fun e => hab (V.qm.distinctQ a ha' b hb' e))
  · intro k hk
    exact hz k (mem_range.mp hk)

/-- `QMul` can be cancelled modulo the primes of Q -/
theorem QMul_cancel {i : ℕ} (hi : i < B.C.nQ) {a b : ℤ} (h : (B.QMul : ℤ) * a ≡ B.QMul * b [ZMOD B.C.q i]) : a ≡ b [ZMOD B.C.q i] := by
  have hc : IsCoprime (B.C.q i : ℤ) (B.QMul : ℤ) := Nat.isCoprime_iff_coprime.mpr (V.QMul_coprime hi)
  have h1 := Int.modEq_iff_dvd.mp h
  rw [← mul_sub] at h1
  exact Int.modEq_iff_dvd.mpr (hc.dvd_of_dvd_mul_left h1)

end BCtx.Valid

/-! ## polynomials of R -/

/-- the words of `a` represent the integer polynomial `X` modulo every prime of R, in words below three times the prime -/
structure PolyR.Rep (B : BCtx N) (a : PolyR N) (X : Nega N ℤ) : Prop where
  q : ∀ i < B.C.nQ, ∀ x, Rep3 (a.Q i x) (X x) (B.C.q i)
  m : ∀ j < B.C.nQ, ∀ x, Rep3 (a.M j x) (X x) (B.m j)

omit [NeZero N] in
theorem firstRows_lt {n j : ℕ} (h : j < n) (w : Fin N → ℕ → ℕ) (x : Fin N) : firstRows n w j x = w x j := if_pos h

omit [NeZero N] in
theorem firstRows_overlay {n : ℕ} (g : Fin N → ℕ → ℕ) (out : Fin N → ℕ → ℕ) :
    firstRows n (fun x => overlay n (g x) (out x)) = firstRows n g := by
  funext j x
  unfold firstRows
  split
  · exact overlay_lt _ _ ‹_›
  · rfl

/-- **`ModUpQtoR`**: never fails, does not depend on the pool, and the words represent one small integer polynomial modulo all of R -/
theorem modUpQtoR_spec (V : B.Valid) (a : Poly B.C) (ha : B.C.nQ ≤ a.len) :
    ∃ (r : PolyR N) (X : Nega N ℤ), (∀ pool, modUpQtoR B pool a = .ok r) ∧ r.Rep B X ∧ Bdd X (2 * B.Q) ∧
      ∀ i < B.C.nQ, red (B.C.q i) X = cf (a.rows i) := by
  have e := V.top_succ
  have h1 := V.qp.q1
  have hB : GoodBasis (B.top + 1) B.C.q := by
    have := V.qm.goodBasis 0 B.C.nQ h1 V.nQ32 (by omega) (by simpa using V.sumQ)
    rw [e]; simpa using this
  have key := fun x : Fin N => modUp_uniform B.C.fm B.C.nQ B.C.q B.C.nQ B.m B.top B.top V.top_lt V.top_lt hB
    (fun j hj => V.qm.symm.goodMod j (by omega)) (fun i => (a.rows i x).val) (fun i hi => by
      have := (a.rows i x).le
      have := V.qm.lt61Q i (by omega)
      have hW : (W64 : ℕ) = 18446744073709551616 := by norm_num
      show (a.rows i x).val < W64
      rw [hW]; omega)
  choose X x1 x2 g x3 x4 using key
  refine ⟨⟨firstRows B.C.nQ fun x i => (a.rows i x).val, firstRows B.C.nQ g⟩, fun x => X x, fun pool => ?_, ⟨fun i hi x => ?_,
    fun j hj x => ?_⟩, fun x => ?_, fun i hi => ?_⟩
  · unfold modUpQtoR
    rw [Poly.need_ok (by omega), bind_ok, Go.fillFin_ok _ _ _ (fun x => x3 x (pool x)), bind_ok, e, firstRows_overlay]
  · simp only [firstRows_lt hi]
    refine ⟨(x1 x i (by omega)).symm, ?_⟩
    have := (a.rows i x).le
    have := (V.qm.primeQ i hi).pos
    omega
  · simp only [firstRows_lt hj]
    exact x4 x j (by omega)
  · refine (x2 x).abs_le.trans (le_of_eq ?_)
    rw [e]; rfl
  · apply red_ext; intro x
    have h5 := (ZMod.intCast_eq_intCast_iff _ _ _).mpr (x1 x i (by omega))
    rw [h5]; simp [cf, Limb.res]

/-- **`Rescale`**: never fails, does not depend on the pools; the words represent one integer polynomial `Y` modulo all of R, with
`Q * Y = QMul * x' - X` for an `x'` that represents the input and a small `X`: `Y` is the input scaled by `QMul/Q` up to less than 3 -/
theorem rescaleR_spec (V : B.Valid) (a : Poly B.C) (ha : B.C.nQ ≤ a.len) :
    ∃ (r : PolyR N) (Y x' X : Nega N ℤ), (∀ poolM poolQ, rescaleR B poolM poolQ a = .ok r) ∧ r.Rep B Y ∧ Bdd Y (2 * B.QMul) ∧
      Bdd X (2 * B.Q) ∧ (B.Q : Nega N ℤ) * Y = (B.QMul : Nega N ℤ) * x' - X ∧
      ∀ i < B.C.nQ, red (B.C.q i) x' = cf (a.rows i) := by
  have e := V.top_succ
  have h1 := V.qp.q1
  have hW : (W64 : ℕ) = 18446744073709551616 := by norm_num
  have hs1 : ∑ k ∈ range (B.top + 1), B.C.q k ≤ W64 := by rw [e]; exact V.sumQ
  set pQ : QRows B.C := fun i => (B.C.RQ i).mulMont (a.rows i) (mFormQMul B i) with hpQ
  -- ModDownQPtoP at equal levels is ModDownQPtoQ of the swapped bases
  have key := fun x : Fin N => modDownQPtoQ_uniform B.C.fm B.C.nQ B.m B.C.nQ B.C.q B.top B.top V.top_lt V.top_lt V.qm.symm
    (by rw [e]; exact V.nQ32) hs1 (fun _ => 0) (fun i => (pQ i x).val) (fun i _ => Nat.zero_le _) (fun i hi => by
      have := (pQ i x).le
      have := V.qm.lt61Q i (by omega)
      show (pQ i x).val < W64
      rw [hW]; omega)
  choose X x1 x2 g g1 g2 using key
  rw [e] at x2 g2
  have hB : GoodBasis (B.top + 1) B.m := by
    have := V.qm.symm.goodBasis 0 B.C.nQ h1 V.nQ32 (by omega) (by simpa using V.sumM)
    rw [e]; simpa using this
  have key2 := fun x : Fin N => modUp_uniform B.C.fm B.C.nQ B.m B.C.nQ B.C.q B.top B.top V.top_lt V.top_lt hB
    (fun j hj => V.qm.goodMod j (by omega)) (overlay (B.top + 1) (g x) fun _ => 0) (fun i hi => by
      rw [overlay_lt _ _ (by omega)]
      have := (g2 x i hi).1
      have := V.qm.lt61P i (by omega)
      rw [hW]; omega)
  choose Y y1 y2 k y3 y4 using key2
  -- the integer quotient
  have hz : ∀ x, (B.QMul : ℤ) ∣ B.Q * Y x + X x := fun x => V.QMul_dvd _ fun j hj => by
    have a1 := (g2 x j (by omega)).2
    have a2 := y1 x j (by omega)
    rw [overlay_lt _ _ (by omega)] at a2
    have a3 : (B.Q : ℤ) * Y x + X x ≡ 0 [ZMOD B.m j] := by
      have a4 : (B.Q : ℤ) * Y x ≡ B.Q * g x j [ZMOD B.m j] := a2.mul_left _
      have a5 : (B.Q : ℤ) * g x j ≡ 0 - X x [ZMOD B.m j] := by
        have : (B.Q : ℤ) * g x j = g x j * (mprod B.C.nQ B.C.q : ℕ) := by rw [mul_comm]; rfl
        rw [this]; simpa using a1
      have := (a4.trans a5).add_right (X x)
      simpa using this
    exact (Int.modEq_zero_iff_dvd).mp a3
  choose x' hx' using hz
  refine ⟨⟨firstRows B.C.nQ k, firstRows B.C.nQ g⟩, fun x => Y x, fun x => x' x, fun x => X x, fun poolM poolQ => ?_,
    ⟨fun i hi x => ?_, fun j hj x => ?_⟩, fun x => ?_, fun x => ?_, ?_, fun i hi => ?_⟩
  · unfold rescaleR
    rw [Poly.need_ok (by omega), bind_ok]
    dsimp only
    rw [Go.fillFin_ok _ _ _ (fun x => (show modDownQPtoP B.C.fm B.C.nQ B.C.q B.C.nQ B.m B.top B.top (fun i => (pQ i x).val) (fun _ => 0)
      (poolM x) (fun _ => 0) = _ from g1 x (poolM x) (fun _ => 0))), bind_ok]
    rw [Go.fillFin_ok _ _ _ (fun x => y3 x (poolQ x)), bind_ok, e, firstRows_overlay, firstRows_overlay]
  · simp only [firstRows_lt hi]
    exact y4 x i (by omega)
  · simp only [firstRows_lt hj]
    have a2 := y1 x j (by omega)
    rw [overlay_lt _ _ (by omega)] at a2
    have a3 := (g2 x j (by omega)).1
    exact ⟨a2.symm, by omega⟩
  · refine (y2 x).abs_le.trans (le_of_eq ?_)
    rw [e]; rfl
  · refine (x2 x).abs_le.trans (le_of_eq ?_)
    rfl
  · apply Nega.ext; intro x
    refine (natCast_mul_apply B.Q (Y : Nega N ℤ) x).trans ?_
    refine Eq.trans ?_ (congrArg (· - X x) (natCast_mul_apply B.QMul (x' : Nega N ℤ) x)).symm
    have := hx' x
    show (B.Q : ℤ) * Y x = B.QMul * x' x - X x
    linarith
  · apply red_ext; intro x
    have a1 := x1 x i (by omega)
    have hq : (B.C.q i : ℤ) ∣ B.Q := by
      exact_mod_cast Finset.dvd_prod_of_mem B.C.q (mem_range.mpr hi)
    -- the word of pQ is QMul times the input
    have a2 : ((pQ i x).val : ZMod (B.C.q i)) = (B.QMul : ZMod (B.C.q i)) * ((a.rows i x).val : ZMod (B.C.q i)) := by
      have b1 := congrFun ((B.C.RQ i).mulMont_res (a.rows i) (mFormQMul B i)) x
      have b2 := congrFun ((B.C.RQ i).mform_res fun _ => toWord (B.C.q i) (B.QMul % B.C.q i)) x
      have b3 : (((toWord (B.C.q i) (B.QMul % B.C.q i)).val : ℕ) : ZMod (B.C.q i)) = (B.QMul : ZMod (B.C.q i)) := by
        have : (toWord (B.C.q i) (B.QMul % B.C.q i)).val = B.QMul % B.C.q i :=
          min_eq_left (Nat.mod_lt _ (V.qm.primeQ i hi).pos).le
        rw [this, ZMod.natCast_mod]
      have : Fact (B.C.q i).Prime := ⟨V.qm.primeQ i hi⟩
      have h2 : ((2 : ZMod (B.C.q i)) ^ 64) ≠ 0 := by
        apply pow_ne_zero
        intro h0
        have h3 : ((2 : ℕ) : ZMod (B.C.q i)) = 0 := by exact_mod_cast h0
        have h4 := (Nat.prime_dvd_prime_iff_eq (V.qm.primeQ i hi) Nat.prime_two).mp ((ZMod.natCast_eq_zero_iff _ _).mp h3)
        have h5 := V.qm.oddQ i hi
        rw [h4] at h5
        exact absurd h5 (by decide)
      apply mul_right_cancel₀ h2
      have b4 : ((pQ i x).val : ZMod (B.C.q i)) * 2 ^ 64 = ((a.rows i x).val : ZMod (B.C.q i)) *
          ((((fun _ => toWord (B.C.q i) (B.QMul % B.C.q i) : Limb N (B.C.q i)) x).val : ZMod (B.C.q i)) * 2 ^ 64) :=
        b1.trans (congrArg (((a.rows i x).val : ZMod (B.C.q i)) * ·) b2)
      rw [b4, b3]; ring
    have a3 : (B.QMul : ℤ) * x' x ≡ B.QMul * ((a.rows i x).val : ℤ) [ZMOD B.C.q i] := by
      rw [← hx' x]
      have c1 : (B.Q : ℤ) * Y x + X x ≡ 0 + ((pQ i x).val : ℤ) [ZMOD B.C.q i] :=
        Int.ModEq.add ((Int.modEq_zero_iff_dvd).mpr (hq.mul_right _)) a1
      refine c1.trans ?_
      rw [zero_add]
      apply (ZMod.intCast_eq_intCast_iff _ _ _).mp
      push_cast
      exact a2
    have a4 := (ZMod.intCast_eq_intCast_iff _ _ _).mpr (V.QMul_cancel hi a3)
    rw [a4]; simp [cf, Limb.res]

/-! ## Quantize -/

/-- the rows that `Quantize` writes -/
def quantG (a : RowsR B) : QRows B.C :=
  match quantize (fun _ _ => 0) a (fun _ => Limb.zero) with
  | .ok r => r
  | .error _ => fun _ => Limb.zero

/-- NTT-domain rows of R that represent an integer polynomial -/
structure RowsR.Holds (a : RowsR B) (W : Nega N ℤ) : Prop where
  q : ∀ i < B.C.nQ, (B.C.RQ i).ev (a.Q i) = red (B.C.q i) W
  m : ∀ j < B.C.nQ, (B.RM j).ev (a.M j) = red (B.m j) W

theorem quantize_aux (V : B.Valid) (a : RowsR B) :
    ∃ r : QRows B.C, ∃ L : Nega N ℤ, (∀ pool c, quantize pool a c = .ok (setQ B.top r c)) ∧
      (∀ i < B.C.nQ, (r i).Canon) ∧ Bdd L (2 * B.QMul) ∧
      (∀ j < B.C.nQ, red (B.m j) L = (B.t : Nega N (ZMod (B.m j))) * (B.RM j).ev (a.M j)) ∧
      ∀ i < B.C.nQ, (B.QMul : Nega N (ZMod (B.C.q i))) * cf (r i) =
        (B.t : Nega N (ZMod (B.C.q i))) * (B.C.RQ i).ev (a.Q i) - red (B.C.q i) L := by
  have e := V.top_succ
  have hW : (W64 : ℕ) = 18446744073709551616 := by norm_num
  set xQ : QRows B.C := fun i => (B.C.RQ i).intt ((B.C.RQ i).mulScalar B.t (a.Q i)) with hxQ
  set xM : (j : ℕ) → Limb N (B.m j) := fun j => (B.RM j).intt ((B.RM j).mulScalar B.t (a.M j)) with hxM
  have key := fun x : Fin N => modDownQPtoQ_uniform B.C.fm B.C.nQ B.C.q B.C.nQ B.m B.top B.top V.top_lt V.top_lt V.qm
    (by rw [e]; exact V.nQ32) (by rw [e]; exact V.sumM) (fun i => (xQ i x).val) (fun j => (xM j x).val)
    (fun i _ => (xQ i x).le.trans (by omega)) (fun j hj => by
      have := (xM j x).le
      have := V.qm.lt61P j (by omega)
      show (xM j x).val < W64
      rw [hW]; omega)
  choose X x1 x2 g g1 g2 using key
  rw [e] at x2 g2
  refine ⟨fun i x => toWord (B.C.q i) (g x i), fun x => X x, fun pool c => ?_, fun i hi x => ?_, fun x => ?_, fun j hj => ?_,
    fun i hi => ?_⟩
  · unfold quantize
    dsimp only
    rw [Go.fillFin_ok _ _ _ (fun x => g1 x _ _), bind_ok]
    congr 1
    apply setQ_congr
    intro i hi
    funext x
    show toWord _ (overlay _ _ _ _) = _
    rw [overlay_lt _ _ (by omega)]
  · have := (g2 x i (by omega)).1
    show min _ _ < _
    omega
  · exact (x2 x).abs_le.trans (le_of_eq rfl)
  · apply red_ext; intro x
    have h5 := (ZMod.intCast_eq_intCast_iff _ _ _).mpr (x1 x j (by omega))
    rw [h5, ← LimbOps.ev_mulScalar, ← LimbOps.cf_intt]
    simp [hxM, cf, Limb.res]
  · apply Nega.ext; intro x
    obtain ⟨ga, gb⟩ := g2 x i (by omega)
    have h5 := (ZMod.intCast_eq_intCast_iff _ _ _).mpr gb
    have h8 : red (B.C.q i) (X : Nega N ℤ) x = ((X x : ℤ) : ZMod (B.C.q i)) := rfl
    rw [natCast_mul_apply, Nega.sub_apply]
    show _ = _ - red (B.C.q i) (X : Nega N ℤ) x
    rw [h8, ← LimbOps.ev_mulScalar, ← LimbOps.cf_intt]
    have h6 : cf (fun x => toWord (B.C.q i) (g x i)) x = (g x i : ZMod (B.C.q i)) := by
      show ((min (g x i) (B.C.q i) : ℕ) : ZMod (B.C.q i)) = _
      rw [min_eq_left ga.le]
    rw [h6]
    have h7 : (B.QMul : ZMod (B.C.q i)) = ((mprod B.C.nQ B.m : ℕ) : ZMod (B.C.q i)) := rfl
    rw [h7, mul_comm]
    push_cast at h5
    exact h5

theorem quantize_run (V : B.Valid) (a : RowsR B) (pool : Fin N → ℕ → ℕ) (c : QRows B.C) :
    quantize pool a c = .ok (setQ B.top (quantG a) c) := by
  obtain ⟨r, L, h1, _⟩ := quantize_aux V a
  have : quantG a = setQ B.top r fun _ => Limb.zero := by unfold quantG; rw [h1]
  rw [h1, this]
  congr 1
  funext i; unfold setQ; split <;> rfl

/-- an integer polynomial that vanishes modulo every prime of QMul is a multiple of QMul -/
theorem BCtx.Valid.exists_divM (V : B.Valid) (W : Nega N ℤ) (h : ∀ j < B.C.nQ, red (B.m j) W = 0) :
    ∃ E : Nega N ℤ, W = (B.QMul : Nega N ℤ) * E := by
  have : ∀ x, (B.QMul : ℤ) ∣ W x := fun x => V.QMul_dvd _ fun j hj => (red_eq_zero_iff _ _).mp (h j hj) x
  choose E hE using this
  exact ⟨(E : Nega N ℤ), Nega.ext fun x => (hE x).trans (natCast_mul_apply B.QMul (E : Nega N ℤ) x).symm⟩

/-- `QMul` can be cancelled in the polynomial ring modulo a prime of Q -/
theorem BCtx.Valid.QMul_cancel' (V : B.Valid) {i : ℕ} (hi : i < B.C.nQ) {a b : Nega N (ZMod (B.C.q i))}
    (h : (B.QMul : Nega N (ZMod (B.C.q i))) * a = (B.QMul : Nega N (ZMod (B.C.q i))) * b) : a = b := by
  have hu := ZMod.coe_mul_inv_eq_one B.QMul (V.QMul_coprime hi).symm
  have key : (CHom (((B.QMul : ℕ) : ZMod (B.C.q i))⁻¹) : Nega N (ZMod (B.C.q i))) * (B.QMul : Nega N (ZMod (B.C.q i))) = 1 := by
    rw [← map_natCast (Nega.CHom (N := N) (K := ZMod (B.C.q i))), ← map_mul, mul_comm, hu, map_one]
  have := congrArg ((CHom (((B.QMul : ℕ) : ZMod (B.C.q i))⁻¹) : Nega N (ZMod (B.C.q i))) * ·) h
  simp only [← mul_assoc, key, one_mul] at this
  exact this

/-- **`Quantize`** of rows that represent an integer polynomial `W`: reduced words of `O` with `QMul * O = t * W - L`, `L` small -/
theorem quantG_spec (V : B.Valid) {a : RowsR B} {W : Nega N ℤ} (h : a.Holds W) :
    (∀ i < B.C.nQ, (quantG a i).Canon) ∧ ∃ O L : Nega N ℤ, Bdd L (2 * B.QMul) ∧
      (B.QMul : Nega N ℤ) * O = (B.t : Nega N ℤ) * W - L ∧ ∀ i < B.C.nQ, cf (quantG a i) = red (B.C.q i) O := by
  obtain ⟨r, L, h1, h2, h3, h4, h5⟩ := quantize_aux V a
  have e := V.top_succ
  have hr : ∀ i < B.C.nQ, quantG a i = r i := fun i hi => by
    have : quantG a = setQ B.top r fun _ => Limb.zero := by unfold quantG; rw [h1]
    rw [this, setQ_le _ _ (by omega)]
  obtain ⟨O, hO⟩ := V.exists_divM ((B.t : Nega N ℤ) * W - L) (fun j hj => by
    rw [map_sub, map_mul, map_natCast, h4 j hj, h.m j hj, sub_self])
  refine ⟨fun i hi => by rw [hr i hi]; exact h2 i hi, O, L, h3, hO.symm, fun i hi => ?_⟩
  rw [hr i hi]
  apply V.QMul_cancel' hi
  rw [h5 i hi, h.q i hi]
  have := congrArg (red (B.C.q i)) hO
  rw [map_sub, map_mul, map_mul, map_natCast, map_natCast] at this
  exact this

theorem nttR_holds (V : B.Valid) {a : PolyR N} {X : Nega N ℤ} (h : a.Rep B X) : (nttR a : RowsR B).Holds X where
  q := fun i hi => by
    have := V.qm.lt61Q i hi
    show (B.C.RQ i).ev ((B.C.RQ i).nttRaw (a.Q i)) = _
    rw [LimbOps.nttRaw_ev _ _ (fun x => by have := (h.q i hi x).2; omega)]
    symm; apply red_ext; intro x
    have h5 := (ZMod.intCast_eq_intCast_iff _ _ _).mpr (h.q i hi x).1
    rw [← h5]
    show _ = ((a.Q i x : ℕ) : ZMod (B.C.q i))
    simp
  m := fun i hi => by
    have := V.qm.lt61P i hi
    show (B.RM i).ev ((B.RM i).nttRaw (a.M i)) = _
    rw [LimbOps.nttRaw_ev _ _ (fun x => by have := (h.m i hi x).2; omega)]
    symm; apply red_ext; intro x
    have h5 := (ZMod.intCast_eq_intCast_iff _ _ _).mpr (h.m i hi x).1
    rw [← h5]
    show _ = ((a.M i x : ℕ) : ZMod (B.m i))
    simp

theorem mulR_mform_holds {a b : RowsR B} {X Y : Nega N ℤ} (ha : a.Holds X) (hb : b.Holds Y) : (mulR (mformR a) b).Holds (X * Y) where
  q := fun i hi => by
    simp only [mulR, mformR, LimbOps.ev_mulMont, LimbOps.ev_mform, ha.q i hi, hb.q i hi, map_mul]
    rw [mul_right_comm _ (Mont N _), mul_assoc, LimbOps.mul_rinv, mul_one]
  m := fun i hi => by
    simp only [mulR, mformR, LimbOps.ev_mulMont, LimbOps.ev_mform, ha.m i hi, hb.m i hi, map_mul]
    rw [mul_right_comm _ (Mont N _), mul_assoc, LimbOps.mul_rinv, mul_one]

theorem mulAddR_mform_holds {a b c : RowsR B} {X Y Z : Nega N ℤ} (ha : a.Holds X) (hb : b.Holds Y) (hc : c.Holds Z) :
    (mulAddR (mformR a) b c).Holds (Z + X * Y) where
  q := fun i hi => by
    simp only [mulAddR, mformR, LimbOps.ev_mulMontAdd, LimbOps.ev_mform, ha.q i hi, hb.q i hi, hc.q i hi, map_add, map_mul]
    rw [mul_right_comm _ (Mont N _), mul_assoc, LimbOps.mul_rinv, mul_one]
  m := fun i hi => by
    simp only [mulAddR, mformR, LimbOps.ev_mulMontAdd, LimbOps.ev_mform, ha.m i hi, hb.m i hi, hc.m i hi, map_add, map_mul]
    rw [mul_right_comm _ (Mont N _), mul_assoc, LimbOps.mul_rinv, mul_one]

/-! ## digits over R -/

/-- the product of the primes of block `k` of R -/
def BCtx.blockR (B : BCtx N) (k : ℕ) : ℕ := ∏ i ∈ range B.C.alpha, B.r (k * B.C.alpha + i)

/-- the rows that `DecomposeSingleNTT` of the R/P key switcher writes -/
def digRG (k : ℕ) (a : PolyR N) : PolyQP B.C :=
  match decomposeSingleR B B.top k a (fun _ => (fun _ => 0, fun _ => 0)) with
  | .ok r => r
  | .error _ => PolyQP.zero

/-- **the digits of a polynomial of R**: for every block `k` of R a small integer polynomial congruent to it modulo the primes of the
block, given modulo Q and P; nothing depends on stale memory -/
theorem decomposeSingleR_spec (V : B.Valid) {k : ℕ} (hk : k < 2 * B.C.beta B.top) {a : PolyR N} {X : Nega N ℤ} (ha : a.Rep B X) :
    (∀ old, decomposeSingleR B B.top k a old = .ok (digRG k a)) ∧
    ∃ D : Nega N ℤ, Bdd D (3 * B.blockR k) ∧ (∀ i < 2 * B.C.nQ, i / B.C.alpha = k → ∀ x, D x ≡ X x [ZMOD B.r i]) ∧
      Holds B.C B.top (digRG k a) D := by
  have h1 := V.qp.alpha_pos
  have h2 := V.qp.alpha_le
  have h3 := V.qp.le32
  have h4 := V.qp.nP_pos
  have e0 := V.top_succ
  have htop := V.top_lt
  have hga : B.C.gamma * B.C.alpha ≤ B.C.nP := Nat.mul_div_le _ _
  have hlP : B.C.nP - 1 < B.C.gamma * B.C.alpha ∨ (B.C.alpha = 1 ∧ B.C.nP - 1 < B.C.nP) := by
    rcases V.qp.gdiv with hd | hd
    · left
      have : B.C.gamma * B.C.alpha = B.C.nP := Nat.mul_div_cancel' hd
      omega
    · right; exact ⟨hd, by omega⟩
  have hbl := V.block_le hk
  have hword : ∀ i < 2 * B.C.nQ, ∀ x, Rep3 (a.word B.C.nQ x i) (X x) (B.r i) := by
    intro i hi x
    unfold PolyR.word
    split
    · rename_i h; rw [B.r_q h]; exact ha.q i h x
    · rename_i h
      have := B.r_m (i - B.C.nQ)
      rw [show B.C.nQ + (i - B.C.nQ) = i by omega] at this
      rw [this]; exact ha.m _ (by omega) x
  have key := fun x : Fin N => decompose_uniform_any B.C.fm (2 * B.C.nQ) B.r B.C.nP B.C.p B.top (B.C.nP - 1) B.C.alpha k B.C.gamma
    V.rp V.qp.g1 h1 hga hlP V.nQ52 (by omega) (by omega) (by rw [e0]; exact V.div) hbl (by omega) (V.sumR k hbl)
    (a.word B.C.nQ x) (fun i hi => (hword i hi x).2)
  choose D d1 d2 gQ gP d3 d4 d5 using key
  have e : B.C.nP - 1 + 1 = B.C.nP := by omega
  set g : PolyQP B.C := ⟨fun i => (B.C.RQ i).nttRaw fun x => gQ x i, fun j => (B.C.RP j).nttRaw fun x => gP x j⟩ with hg
  have run : ∀ old, decomposeSingleR B B.top k a old = .ok (setQP B.top g PolyQP.zero) := by
    intro old
    have := fun x => d3 x (old x).1 (old x).2
    choose oQ o1 o2 using this
    unfold decomposeSingleR
    rw [Go.fillFin_ok _ _ _ o1, bind_ok]
    congr 1
    apply setQP_congr
    refine ⟨fun i hi => ?_, fun j hj => ?_⟩
    · simp only [hg]
      congr 1; funext x
      exact o2 x i hi
    · simp only [hg, e]
      congr 1; funext x
      rw [overlay_lt _ _ hj]
  have hdig : digRG k a = setQP B.top g PolyQP.zero := by unfold digRG; rw [run]
  have ag : (digRG k a).Agree B.top g := by rw [hdig]; exact setQP_agree _ _ _
  refine ⟨fun old => by rw [run, hdig], fun x => D x, fun x => d2 x, fun i hi hik x => ?_, ⟨fun i hi => ?_, fun j hj => ?_⟩⟩
  · have hi3 : k * B.C.alpha + i % B.C.alpha = i := by
      have := Nat.div_add_mod i B.C.alpha
      rw [hik, Nat.mul_comm] at this; exact this
    have := d1 x (i % B.C.alpha) (Nat.mod_lt _ (by omega))
    rw [hi3] at this
    exact this.trans (hword i hi x).1
  · rw [ag.1 i hi]
    simp only [hg]
    have hr := B.r_q (show i < B.C.nQ by omega)
    rw [LimbOps.nttRaw_ev]
    · symm; apply red_ext; intro x
      have := (d4 x i hi).1
      rw [hr] at this
      have h5 := (ZMod.intCast_eq_intCast_iff _ _ _).mpr this
      rw [← h5]
      show _ = ((gQ x i : ℕ) : ZMod (B.C.q i))
      simp
    · intro x; exact (d4 x i hi).2
  · rw [ag.2 j hj]
    simp only [hg]
    rw [LimbOps.nttRaw_ev]
    · symm; apply red_ext; intro x
      have h5 := (ZMod.intCast_eq_intCast_iff _ _ _).mpr (d5 x j (by omega)).1
      rw [← h5]
      show _ = ((gP x j : ℕ) : ZMod (B.C.p j))
      simp
    · intro x; exact (d5 x j (by omega)).2

end MKHE
