import Verif.Lemmas.Decompose
import Verif.Base.Limb
import Mathlib.Tactic.NormNum.Prime

set_option autoImplicit false

/-!
# C37 - C41: basis extension, division by P, digit decomposition (mkrlwe/basis_extension.go)

All statements are about one coefficient of every row (the code treats eight independent lanes at a time).
-/

namespace MKHE
open Finset

/-! ## A concrete parameter set used in the examples -/

/-- two small Q primes -/
def exQ : ℕ → ℕ := fun i => if i = 0 then 97 else 193
/-- two small P primes -/
def exP : ℕ → ℕ := fun i => if i = 0 then 257 else 353

theorem exPair : GoodPair 2 exQ 2 exP := by
  constructor
  · intro i hi; interval_cases i <;> norm_num [exQ]
  · intro i hi; interval_cases i <;> simp only [exQ] <;> decide
  · intro i hi; interval_cases i <;> norm_num [exQ]
  · intro i hi; interval_cases i <;> norm_num [exP]
  · intro i hi; interval_cases i <;> simp only [exP] <;> decide
  · intro i hi; interval_cases i <;> norm_num [exP]
  · intro i hi k hk; interval_cases i <;> interval_cases k <;> norm_num [exQ]
  · intro i hi k hk; interval_cases i <;> interval_cases k <;> norm_num [exP]
  · intro i hi k hk; interval_cases i <;> interval_cases k <;> norm_num [exQ, exP]

theorem exBasisQ : GoodBasis 2 exQ := by
  have := exPair.goodBasis 0 2 (by norm_num) (by norm_num) (by norm_num) (by norm_num [sum_range_succ, exQ, W64])
  simpa using this

/-! ## C37 -/

namespace C37

/-- **C37.** For residues `y_i < q_i` of a basis `Q` and a correction index `v ≤ n`, `multSum` with the tables of
`basisextenderparameters` returns a word congruent modulo `p` to `(Σ y_i * Q/q_i) - v*Q`, and below `3p`; the 128-bit
accumulation never loses a carry (no hypothesis on the accumulator is needed). -/
theorem multSum_exact (n : ℕ) (Q : ℕ → ℕ) (m : ℕ) (P : ℕ → ℕ) (h : GoodBasis n Q) (y : ℕ → ℕ) (v : ℕ)
    (hy : ∀ i < n, y i < Q i) (hv : v ≤ n) (j : ℕ) (hj : j < m) (hp : GoodMod (P j)) :
    ∃ vt qo r, (basisExtParams n Q m P).vtimesqmodp[j]? = some vt ∧
      (basisExtParams n Q m P).qoverqimodp[j]? = some qo ∧
      multSum y v n (P j) (mredParams (P j)) vt qo = .ok r ∧
      (r : ℤ) ≡ (∑ i ∈ range n, (y i : ℤ) * ((∏ k ∈ range n, Q k) / Q i : ℕ)) - v * ((∏ k ∈ range n, Q k : ℕ) : ℤ)
        [ZMOD P j] ∧ r < 3 * P j := by
  obtain ⟨vt, qo, r, h1, h2, h3, h4, h5⟩ := multSum_lift n Q m P h y v hy hv j hj hp
  refine ⟨vt, qo, r, h1, h2, h3, ?_, h5⟩
  have : liftInt n Q y v =
      (∑ i ∈ range n, (y i : ℤ) * ((∏ k ∈ range n, Q k) / Q i : ℕ)) - v * ((∏ k ∈ range n, Q k : ℕ) : ℤ) := by
    unfold liftInt mprod
    push_cast
    congr 1
    refine sum_congr rfl fun i hi => ?_
    have hi' := mem_range.mp hi
    have e := mhat_mul n Q i hi'
    have : (∏ k ∈ range n, Q k) / Q i = mhat n Q i := by
      unfold mprod at e; rw [← e]; exact Nat.mul_div_cancel _ (h.prime i hi').pos
    have h2 := congrArg (Nat.cast : ℕ → ℤ) this
    push_cast at h2
    rw [← h2]
  rw [← this]; exact h4

/-- The same for any table rows: `r * 2^64` is congruent to the accumulated sum plus the correction. -/
theorem multSum_any_table (y : ℕ → ℕ) (v alpha p : ℕ) (vt qo : List ℕ) (t : ℕ) (hodd : Odd p) (h3 : 3 * p ≤ 2 ^ 64)
    (hq : alpha ≤ qo.length) (ht : vt[v]? = some t) (htp : t < p)
    (hS : ∑ i ∈ range alpha, y i * qo.getD i 0 ≤ p * 2 ^ 64) :
    ∃ r, multSum y v alpha p (mredParams p) vt qo = .ok r ∧
      (r : ℤ) * 2 ^ 64 ≡ (∑ i ∈ range alpha, y i * qo.getD i 0 : ℕ) + (t : ℤ) * 2 ^ 64 [ZMOD p] ∧ r < 3 * p := by
  obtain ⟨r, h1, h2, _, h4⟩ := multSum_spec y v alpha p vt qo t hodd h3 hq ht htp hS
  exact ⟨r, h1, by simpa using h2, h4⟩

/-- **The comment's range `[0, 2p-1]` is not guaranteed**: inputs meeting all hypotheses of `multSum_any_table` for which
the result is at least `2p`. -/
theorem documented_range_false :
    ∃ (y : ℕ → ℕ) (v alpha p : ℕ) (vt qo : List ℕ) (t r : ℕ), Odd p ∧ 3 * p ≤ 2 ^ 64 ∧ alpha ≤ qo.length ∧
      vt[v]? = some t ∧ t < p ∧ (∀ c ∈ qo, c < p) ∧ (∀ i < alpha, y i < 2 ^ 33) ∧
      ∑ i ∈ range alpha, y i * qo.getD i 0 ≤ p * 2 ^ 64 ∧
      multSum y v alpha p (mredParams p) vt qo = .ok r ∧ 2 * p ≤ r := by
  refine ⟨fun _ => 2 ^ 32, 0, 1, 2 ^ 32 + 15, [2 ^ 32 + 14], [2 ^ 32], 2 ^ 32 + 14,
    1 + (2 ^ 32 + 15) + (2 ^ 32 + 14), ?_, by norm_num, by simp, by simp, by norm_num, ?_, by norm_num, ?_, ?_, by norm_num⟩
  · decide
  · intro c hc
    rw [List.mem_singleton] at hc; subst hc; norm_num
  · simp
  · generalize mredParams (2 ^ 32 + 15) = qi
    norm_num [multSum, forN, accStep, mulHi, mulLo, Go.idx, W64, List.range_succ]

/-- the hypotheses of `multSum_exact` are met by a concrete basis -/
example : ∃ vt qo r, (basisExtParams 2 exQ 2 exP).vtimesqmodp[1]? = some vt ∧
      (basisExtParams 2 exQ 2 exP).qoverqimodp[1]? = some qo ∧
      multSum (fun i => 50 + i) 1 2 353 (mredParams 353) vt qo = .ok r ∧
      (r : ℤ) ≡ (50 * 193 + 51 * 97) - 97 * 193 [ZMOD 353] ∧ r < 3 * 353 := by
  obtain ⟨vt, qo, r, h1, h2, h3, h4, h5⟩ := multSum_exact 2 exQ 2 exP exBasisQ (fun i => 50 + i) 1
    (by intro i hi; interval_cases i <;> norm_num [exQ]) (by norm_num) 1 (by norm_num) (exPair.symm.goodMod 1 (by norm_num))
  refine ⟨vt, qo, r, h1, h2, h3, ?_, h5⟩
  simpa [sum_range_succ, prod_range_succ, exQ, exP] using h4

end C37

/-! ## C38 -/

namespace C38

/-- **C38.** `ModUpQtoP(levelQ, levelP)` (and, with the bases exchanged, `ModUpPtoQ`): for every input there is one integer
`X`, congruent to the input words modulo each input prime, in `[-Q/2^42, (1+2^-42) Q]`, whose residues are written in every
output row `≤ levelP` (as words below `3p`); the call never indexes out of range, rows above `levelP` are untouched. The
float64 quotient is modelled by any rounding function with relative error `2^-53`. -/
theorem modUp_one_small_integer (fm : FloatModel) (nQ : ℕ) (Q : ℕ → ℕ) (nP : ℕ) (P : ℕ → ℕ) (levelQ levelP : ℕ)
    (h : GoodPair nQ Q nP P) (hQ : levelQ < nQ) (hP : levelP < nP) (h32 : levelQ + 1 ≤ 32)
    (hs : ∑ k ∈ range (levelQ + 1), Q k ≤ 2 ^ 64) (a out : ℕ → ℕ) (ha : ∀ i ≤ levelQ, a i < 2 ^ 64) :
    ∃ X : ℤ, (∀ i ≤ levelQ, X ≡ a i [ZMOD Q i]) ∧
      -((∏ k ∈ range (levelQ + 1), Q k : ℕ) : ℤ) ≤ 2 ^ 42 * X ∧
      2 ^ 42 * X ≤ (2 ^ 42 + 1) * ((∏ k ∈ range (levelQ + 1), Q k : ℕ) : ℤ) ∧
      ∃ out', modUp fm nQ Q nP P levelQ levelP a out = .ok out' ∧
        (∀ j ≤ levelP, (out' j : ℤ) ≡ X [ZMOD P j] ∧ out' j < 3 * P j) ∧ ∀ j, levelP < j → out' j = out j := by
  have hB : GoodBasis (levelQ + 1) Q := by
    have := h.goodBasis 0 (levelQ + 1) (by omega) h32 (by omega) (by simpa [W64] using hs)
    simpa using this
  obtain ⟨X, h1, h2, h3⟩ := modUp_spec fm nQ Q nP P levelQ levelP hQ hP hB (fun j hj => h.symm.goodMod j (by omega)) a out ha
  exact ⟨X, h1, h2.1, h2.2, h3⟩

/-- With more than 32 input primes the fixed-size arrays of `reconstructRNS` are indexed out of range. -/
theorem modUp_more_than_32 (fm : FloatModel) (nQ : ℕ) (Q : ℕ → ℕ) (nP : ℕ) (P : ℕ → ℕ) (levelQ levelP : ℕ)
    (hQ : levelQ < nQ) (h32 : 32 ≤ levelQ) (a out : ℕ → ℕ) :
    modUp fm nQ Q nP P levelQ levelP a out = .error .indexOutOfRange := by
  unfold modUp
  have : ((List.range nQ).map fun i => basisExtParams (i + 1) Q nP P)[levelQ]? =
      some (basisExtParams (levelQ + 1) Q nP P) := by
    rw [List.getElem?_map, List.getElem?_range hQ, Option.map_some]
  rw [Go.idx_ok this, Go.andThen_ok]
  unfold modUpExact reconstructRNS
  rw [if_pos (Or.inl (by omega))]
  rfl

/-- concrete instance: lifting from `97 * 193` to `257, 353` -/
example (fm : FloatModel) : ∃ X : ℤ, X ≡ 90 [ZMOD 97] ∧ X ≡ 100 [ZMOD 193] ∧ 2 ^ 42 * X ≤ (2 ^ 42 + 1) * (97 * 193) ∧
    ∃ out', modUp fm 2 exQ 2 exP 1 1 (fun i => 90 + 10 * i) (fun _ => 7) = .ok out' ∧
      (out' 1 : ℤ) ≡ X [ZMOD 353] ∧ out' 2 = 7 := by
  obtain ⟨X, h1, h2, h3, out', h4, h5, h6⟩ := modUp_one_small_integer fm 2 exQ 2 exP 1 1 exPair (by norm_num) (by norm_num)
    (by norm_num) (by simp [sum_range_succ, exQ]) (fun i => 90 + 10 * i) (fun _ => 7)
    (by intro i hi; show 90 + 10 * i < 2 ^ 64; omega)
  refine ⟨X, ?_, ?_, ?_, out', h4, ?_, h6 2 (by norm_num)⟩
  · simpa [exQ] using h1 0 (by norm_num)
  · simpa [exQ] using h1 1 (by norm_num)
  · simpa [prod_range_succ, exQ] using h3
  · simpa [exP] using (h5 1 (by norm_num)).1

end C38

/-! ## C39 -/

namespace C39

/-- **C39.** `ModDownQPtoQ(levelQ, levelP)`: one integer `X ≡ x mod P` with `-P/2^42 ≤ X ≤ (1+2^-42) P`, and the result is
`(x - X)/P` modulo every prime of Q up to `levelQ`, as a reduced word. -/
theorem modDown_divides (fm : FloatModel) (nQ : ℕ) (Q : ℕ → ℕ) (nP : ℕ) (P : ℕ → ℕ) (levelQ levelP : ℕ)
    (h : GoodPair nQ Q nP P) (hQ : levelQ < nQ) (hP : levelP < nP) (h32 : levelP + 1 ≤ 32)
    (hs : ∑ k ∈ range (levelP + 1), P k ≤ 2 ^ 64)
    (xQ xP pool out : ℕ → ℕ) (hxQ : ∀ i ≤ levelQ, xQ i ≤ 2 * Q i) (hxP : ∀ j ≤ levelP, xP j < 2 ^ 64) :
    ∃ X : ℤ, (∀ j ≤ levelP, X ≡ xP j [ZMOD P j]) ∧
      -((∏ k ∈ range (levelP + 1), P k : ℕ) : ℤ) ≤ 2 ^ 42 * X ∧
      2 ^ 42 * X ≤ (2 ^ 42 + 1) * ((∏ k ∈ range (levelP + 1), P k : ℕ) : ℤ) ∧
      ∃ out', modDownQPtoQ fm nQ Q nP P levelQ levelP xQ xP pool out = .ok out' ∧
        (∀ i ≤ levelQ, out' i < Q i ∧
          (out' i : ℤ) * ((∏ k ∈ range (levelP + 1), P k : ℕ) : ℤ) ≡ xQ i - X [ZMOD Q i]) ∧
        ∀ i, levelQ < i → out' i = out i := by
  obtain ⟨X, h1, h2, h3⟩ := modDownQPtoQ_spec fm nQ Q nP P levelQ levelP hQ hP h h32 hs xQ xP pool out hxQ hxP
  exact ⟨X, h1, h2.1, h2.2, h3⟩

theorem coprime_prod {n nQ : ℕ} {Q P : ℕ → ℕ} {nP i : ℕ} (h : GoodPair nQ Q nP P) (hi : i < nQ) (hn : n ≤ nP) :
    Nat.Coprime (Q i) (∏ k ∈ range n, P k) := by
  apply Nat.Coprime.prod_right
  intro k hk
  have := mem_range.mp hk
  exact (Nat.coprime_primes (h.primeQ i hi) (h.primeP k (by omega))).mpr (h.disjoint i hi k (by omega))

/-- product of the P primes divides a number divisible by each of them -/
theorem prod_dvd_int {n nQ nP : ℕ} {Q P : ℕ → ℕ} (h : GoodPair nQ Q nP P) (hn : n ≤ nP) (z : ℤ)
    (hz : ∀ k < n, (P k : ℤ) ∣ z) : ((∏ k ∈ range n, P k : ℕ) : ℤ) ∣ z := by
  push_cast
  apply Finset.prod_dvd_of_coprime
  · intro a ha b hb hab
    have ha' := mem_range.mp (Finset.mem_coe.mp ha)
    have hb' := mem_range.mp (Finset.mem_coe.mp hb)
    exact Nat.isCoprime_iff_coprime.mpr ((Nat.coprime_primes (h.primeP a (by omega)) (h.primeP b (by omega))).mpr
      fun e => hab (h.distinctP a (by omega) b (by omega) e))
  · intro k hk
    exact hz k (mem_range.mp hk)

/-- **C39, in terms of an integer.** If the words are the residues of an integer `x`, there is a `k ∈ {-1, 0, 1}` such that
every output word is `⌊x/P⌋ - k` modulo its prime: the floor of the division, up to one unit. -/
theorem modDown_floor (fm : FloatModel) (nQ : ℕ) (Q : ℕ → ℕ) (nP : ℕ) (P : ℕ → ℕ) (levelQ levelP : ℕ)
    (h : GoodPair nQ Q nP P) (hQ : levelQ < nQ) (hP : levelP < nP) (h32 : levelP + 1 ≤ 32)
    (hs : ∑ k ∈ range (levelP + 1), P k ≤ 2 ^ 64)
    (xQ xP pool out : ℕ → ℕ) (hxQ : ∀ i ≤ levelQ, xQ i ≤ 2 * Q i) (hxP : ∀ j ≤ levelP, xP j < 2 ^ 64)
    (x : ℤ) (h1 : ∀ i ≤ levelQ, (xQ i : ℤ) ≡ x [ZMOD Q i]) (h2 : ∀ j ≤ levelP, (xP j : ℤ) ≡ x [ZMOD P j]) :
    ∃ k : ℤ, (-1 ≤ k ∧ k ≤ 1) ∧
      ∃ out', modDownQPtoQ fm nQ Q nP P levelQ levelP xQ xP pool out = .ok out' ∧
        ∀ i ≤ levelQ, out' i < Q i ∧ (out' i : ℤ) ≡ x / ((∏ k ∈ range (levelP + 1), P k : ℕ) : ℤ) - k [ZMOD Q i] := by
  obtain ⟨X, a1, a2, a3, out', a4, a5, _⟩ := modDown_divides fm nQ Q nP P levelQ levelP h hQ hP h32 hs xQ xP pool out hxQ hxP
  set M : ℕ := ∏ k ∈ range (levelP + 1), P k with hM
  have hMpos : 0 < M := by
    rw [hM]; exact prod_pos fun k hk => (h.primeP k (by have := mem_range.mp hk; omega)).pos
  have hMz : (0 : ℤ) < M := by exact_mod_cast hMpos
  have hdvd : (M : ℤ) ∣ x - X := by
    rw [hM]
    refine prod_dvd_int h (by omega) _ fun k hk => ?_
    exact ((a1 k (by omega)).trans (h2 k (by omega))).dvd
  obtain ⟨w, hw⟩ := hdvd
  have hxdiv := Int.mul_ediv_add_emod x M
  have hr0 := Int.emod_nonneg x hMz.ne'
  have hr1 := Int.emod_lt_of_pos x hMz
  set F := x / (M : ℤ) with hF
  set r := x % (M : ℤ) with hr
  -- X = r + M * (F - w)
  have hX : X = r + M * (F - w) := by linarith
  refine ⟨F - w, ⟨?_, ?_⟩, out', a4, fun i hi => ⟨(a5 i hi).1, ?_⟩⟩
  · by_contra hc
    have hc' : F - w ≤ -2 := by omega
    have : (M : ℤ) * (F - w) ≤ M * (-2) := mul_le_mul_of_nonneg_left hc' hMz.le
    nlinarith
  · by_contra hc
    have hc' : 2 ≤ F - w := by omega
    have : (M : ℤ) * 2 ≤ M * (F - w) := mul_le_mul_of_nonneg_left hc' hMz.le
    nlinarith
  · have hcop : Int.gcd (Q i : ℤ) (M : ℤ) = 1 := by
      rw [Int.gcd_natCast_natCast]; exact coprime_prod h (by omega) (by omega)
    have e1 : (out' i : ℤ) * M ≡ w * M [ZMOD Q i] := by
      have := (a5 i hi).2.trans ((h1 i hi).sub_right X)
      rw [hw] at this
      rwa [mul_comm w]
    have e2 := Int.ModEq.cancel_right_div_gcd (by exact_mod_cast (h.primeQ i (by omega)).pos) e1
    rw [hcop, Nat.cast_one, Int.ediv_one] at e2
    have : F - (F - w) = w := by ring
    rw [this]; exact e2

/-- **The comment's "rounded integer division" is not what is computed**: for `P = 5`, `Q = 7` and `x = 4` the rounded
quotient is `1` (`4/5 = 0.8`), but `ModDownQPtoQ` returns `0`, in exact arithmetic. -/
theorem not_rounded :
    modDownQPtoQ FloatModel.exact 1 (fun _ => 7) 1 (fun _ => 5) 0 0 (fun _ => 4) (fun _ => 4) (fun _ => 0) (fun _ => 0) =
      .ok (fun _ => 0) ∧ (round ((4 : ℚ) / 5) : ℤ) = 1 := by
  constructor
  · have hp : GoodPair 1 (fun _ => 7) 1 (fun _ => 5) := by
      constructor <;> intro i hi <;> try norm_num
      · decide
      · decide
      all_goals omega
    obtain ⟨X, a1, a2, a3, out', a4, a5, a6⟩ := modDown_divides FloatModel.exact 1 (fun _ => 7) 1 (fun _ => 5) 0 0 hp
      (by norm_num) (by norm_num) (by norm_num) (by norm_num) (fun _ => 4) (fun _ => 4) (fun _ => 0) (fun _ => 0)
      (by intro i _; norm_num) (by intro i _; norm_num)
    rw [a4]
    congr 1
    funext i
    rcases Nat.eq_zero_or_pos i with h0 | h0
    · subst h0
      have b1 := a1 0 le_rfl
      have b5 := a5 0 le_rfl
      norm_num at a2 a3 b1 b5
      have hX : X = 4 := by
        rw [Int.modEq_iff_dvd] at b1
        omega
      subst hX
      have := b5.2
      rw [Int.modEq_iff_dvd] at this
      omega
    · exact a6 i h0
  · norm_num

/-- concrete instance of `modDown_floor` at a non-trivial level -/
example (fm : FloatModel) : ∃ k : ℤ, (-1 ≤ k ∧ k ≤ 1) ∧
    ∃ out', modDownQPtoQ fm 2 exQ 2 exP 1 1 (fun i => 1000000 % exQ i) (fun i => 1000000 % exP i) (fun _ => 3) (fun _ => 4) = .ok out' ∧
      (out' 1 : ℤ) ≡ 11 - k [ZMOD 193] := by
  obtain ⟨k, hk, out', h1, h2⟩ := modDown_floor fm 2 exQ 2 exP 1 1 exPair (by norm_num) (by norm_num) (by norm_num)
    (by simp [sum_range_succ, exP]) (fun i => 1000000 % exQ i) (fun i => 1000000 % exP i) (fun _ => 3) (fun _ => 4)
    (by intro i hi; interval_cases i <;> norm_num [exQ]) (by intro i hi; interval_cases i <;> norm_num [exP])
    1000000 (by intro i _; push_cast; exact Int.mod_modEq _ _) (by intro i _; push_cast; exact Int.mod_modEq _ _)
  refine ⟨k, hk, out', h1, ?_⟩
  have := (h2 1 le_rfl).2
  simpa [prod_range_succ, exP, exQ] using this

end C39

/-! ## C40 -/

namespace C40

/-- **C40 (partial).** When `levelQ = levelP`, `ModDownQPtoP` divides by the product of the Q primes up to `levelQ`. In
general (`modDownQPtoP_spec`) it multiplies by the inverse of the product of the first `levelP + 1` Q primes. -/
theorem modDownQPtoP_partial (fm : FloatModel) (nQ : ℕ) (Q : ℕ → ℕ) (nP : ℕ) (P : ℕ → ℕ) (level : ℕ)
    (h : GoodPair nQ Q nP P) (hQ : level < nQ) (hP : level < nP) (h32 : level + 1 ≤ 32)
    (hs : ∑ k ∈ range (level + 1), Q k ≤ 2 ^ 64)
    (xQ xP pool out : ℕ → ℕ) (hxP : ∀ i ≤ level, xP i ≤ 2 * P i) (hxQ : ∀ j ≤ level, xQ j < 2 ^ 64) :
    ∃ X : ℤ, (∀ j ≤ level, X ≡ xQ j [ZMOD Q j]) ∧ NearRange X (∏ k ∈ range (level + 1), Q k) ∧
      ∃ out', modDownQPtoP fm nQ Q nP P level level xQ xP pool out = .ok out' ∧
        (∀ i ≤ level, out' i < P i ∧
          (out' i : ℤ) * ((∏ k ∈ range (level + 1), Q k : ℕ) : ℤ) ≡ xP i - X [ZMOD P i]) ∧
        ∀ i, level < i → out' i = out i :=
  modDownQPtoP_spec fm nQ Q nP P level level hQ hP hQ h h32 hs xQ xP pool out hxP hxQ

/-- **C40 is false in general** (basis_extension.go:312 indexes the table by `levelP`). For `Q = 3*5`, `P = 7`,
`levelQ = 1`, `levelP = 0` and `x = 16` the exact quotient is `⌊x/Q⌋ = 1`, and the result is not within one unit of it. -/
theorem modDownQPtoP_wrong :
    ∃ (Q P : ℕ → ℕ), GoodPair 2 Q 1 P ∧ ∃ out', modDownQPtoP FloatModel.exact 2 Q 1 P 1 0 (fun i => 16 % Q i)
      (fun i => 16 % P i) (fun _ => 0) (fun _ => 0) = .ok out' ∧
      ∀ k : ℤ, -1 ≤ k → k ≤ 1 → ¬ (out' 0 : ℤ) ≡ 16 / ((Q 0 * Q 1 : ℕ) : ℤ) - k [ZMOD P 0] := by
  have hgood : GoodPair 2 (fun i => if i = 0 then 3 else 5) 1 (fun _ => 7) := by
    constructor
    · intro i hi; interval_cases i <;> norm_num
    · intro i hi; interval_cases i <;> simp <;> decide
    · intro i hi; interval_cases i <;> norm_num
    · intro i hi; norm_num
    · intro i hi; decide
    · intro i hi; norm_num
    · intro i hi k hk; interval_cases i <;> interval_cases k <;> norm_num
    · intro i hi k hk; omega
    · intro i hi k hk; interval_cases i <;> norm_num
  refine ⟨fun i => if i = 0 then 3 else 5, fun _ => 7, hgood, ?_⟩
  · obtain ⟨X, a1, a2, out', a4, a5, _⟩ := modDownQPtoP_spec FloatModel.exact 2 (fun i => if i = 0 then 3 else 5) 1
      (fun _ => 7) 1 0 (by norm_num) (by norm_num) (by norm_num) hgood (by norm_num) (by norm_num [sum_range_succ, W64])
      (fun i => 16 % (if i = 0 then 3 else 5)) (fun _ => 16 % 7) (fun _ => 0) (fun _ => 0) (by intro i _; norm_num)
      (by intro i hi; interval_cases i <;> norm_num [W64])
    refine ⟨out', a4, ?_⟩
    have b0 := a1 0 (by norm_num)
    have b1 := a1 1 (by norm_num)
    have b2 := a2.1
    have b3 := a2.2
    have b5 := a5 0 le_rfl
    simp [mprod, prod_range_succ] at b0 b1 b2 b3 b5
    have hX : X = 1 := by
      rw [Int.modEq_iff_dvd] at b0 b1
      omega
    subst hX
    have b6 := b5.2
    rw [Int.modEq_iff_dvd] at b6
    intro k h1 h2 hc
    rw [Int.modEq_iff_dvd] at hc
    norm_num at hc
    omega

/-- **Index fault**: with at least as many special levels as Q primes, `ModDownQPtoP` reads outside its table. -/
theorem modDownQPtoP_fault (fm : FloatModel) (nQ : ℕ) (Q : ℕ → ℕ) (nP : ℕ) (P : ℕ → ℕ) (levelQ levelP : ℕ)
    (h : GoodPair nQ Q nP P) (hQ : levelQ < nQ) (hP : levelP < nP) (hPQ : nQ ≤ levelP) (h32 : levelQ + 1 ≤ 32)
    (hs : ∑ k ∈ range (levelQ + 1), Q k ≤ 2 ^ 64) (xQ xP pool out : ℕ → ℕ) (hxQ : ∀ j ≤ levelQ, xQ j < 2 ^ 64) :
    modDownQPtoP fm nQ Q nP P levelQ levelP xQ xP pool out = .error .indexOutOfRange := by
  have hB : GoodBasis (levelQ + 1) Q := by
    have := h.goodBasis 0 (levelQ + 1) (by omega) h32 (by omega) (by simpa [W64] using hs)
    simpa using this
  obtain ⟨X, x1, x2, pool', p1, p2, _⟩ := modUp_spec fm nQ Q nP P levelQ levelP hQ hP hB
    (fun i hi => h.symm.goodMod i (by omega)) xQ pool hxQ
  unfold modDownQPtoP
  rw [p1, Go.andThen_ok]
  unfold Go.fill
  rw [List.range_succ_eq_map, Go.loop_cons, Go.idx_none (by simp [modDownTable]; omega)]
  rfl

/-- concrete instance of `modDownQPtoP_partial` -/
example (fm : FloatModel) : ∃ X : ℤ, X ≡ 90 [ZMOD 97] ∧ ∃ out', modDownQPtoP fm 2 exQ 2 exP 1 1 (fun i => 90 + 10 * i)
    (fun i => 200 + i) (fun _ => 3) (fun _ => 4) = .ok out' ∧ (out' 1 : ℤ) * (97 * 193) ≡ 201 - X [ZMOD 353] := by
  obtain ⟨X, a1, _, out', a4, a5, _⟩ := modDownQPtoP_partial fm 2 exQ 2 exP 1 exPair (by norm_num) (by norm_num) (by norm_num)
    (by simp [sum_range_succ, exQ]) (fun i => 90 + 10 * i) (fun i => 200 + i) (fun _ => 3) (fun _ => 4)
    (by intro i hi; interval_cases i <;> norm_num [exP]) (by intro i hi; show 90 + 10 * i < 2 ^ 64; omega)
  refine ⟨X, ?_, out', a4, ?_⟩
  · simpa [exQ] using a1 0 (by norm_num)
  · simpa [exP, exQ, prod_range_succ] using (a5 1 le_rfl).2

end C40

/-! ## C41 -/

namespace C41

/-- **C41.** With `alpha = PCount/gamma` and a block index `beta` below `Beta(levelQ)` (i.e. `beta*alpha ≤ levelQ`),
`DecomposeAndSplit` succeeds and writes, into every Q row up to `levelQ` and every P row, the residues of one integer `D`
that is congruent to the input modulo the primes of the block (those up to `levelQ`) and lies in `[-B/2^42, (1+2^-42)B]` for
the block product `B`. Words stay below `2^63` (what the following NTT accepts). Needs `gamma ∣ PCount`, or `alpha = 1`. -/
theorem decompose_correct (fm : FloatModel) (nQ : ℕ) (Q : ℕ → ℕ) (nP : ℕ) (P : ℕ → ℕ) (levelQ beta gamma : ℕ)
    (h : GoodPair nQ Q nP P) (hg : 1 ≤ gamma) (hP1 : gamma ≤ nP) (hdiv : gamma ∣ nP ∨ nP / gamma = 1)
    (hnQ : nQ < 2 ^ 53) (hnP : nP < 2 ^ 53) (hlQ : levelQ < nQ) (hb : beta * (nP / gamma) ≤ levelQ)
    (h32 : nP / gamma ≤ 32)
    (hs : ∑ k ∈ range (min (levelQ + 1) ((nP / gamma) * (beta + 1)) - (nP / gamma) * beta), Q (beta * (nP / gamma) + k) ≤ 2 ^ 64)
    (a outQ outP : ℕ → ℕ) (hain : ∀ i ≤ levelQ, a i ≤ Q i) :
    ∃ D : ℤ, (∀ i ≤ levelQ, beta * (nP / gamma) ≤ i → i < (beta + 1) * (nP / gamma) → D ≡ a i [ZMOD Q i]) ∧
      NearRange D (∏ k ∈ range (min (levelQ + 1) ((nP / gamma) * (beta + 1)) - (nP / gamma) * beta), Q (beta * (nP / gamma) + k)) ∧
      ∃ oQ oP, decomposeAndSplit fm nQ Q nP P levelQ (nP - 1) (nP / gamma) beta gamma a outQ outP = .ok (oQ, oP) ∧
        (∀ i ≤ levelQ, (oQ i : ℤ) ≡ D [ZMOD Q i] ∧ oQ i < 2 ^ 63) ∧
        (∀ j < nP, (oP j : ℤ) ≡ D [ZMOD P j] ∧ oP j < 2 ^ 63) ∧
        (∀ i, levelQ < i → oQ i = outQ i) ∧ (∀ j, nP ≤ j → oP j = outP j) := by
  have hal : 1 ≤ nP / gamma := (Nat.le_div_iff_mul_le hg).mpr (by omega)
  have hga : gamma * (nP / gamma) ≤ nP := Nat.mul_div_le _ _
  have hlP : nP - 1 < gamma * (nP / gamma) ∨ (nP / gamma = 1 ∧ nP - 1 < nP) := by
    rcases hdiv with hd | hd
    · left; rw [Nat.mul_div_cancel' hd]; omega
    · right; exact ⟨hd, by omega⟩
  obtain ⟨D, d1, d2, oQ, oP, d3, d4, d5, d6, d7⟩ := decompose_spec fm nQ Q nP P levelQ (nP - 1) (nP / gamma) beta gamma h hg hal
    hga hlP hnQ hnP hlQ hb h32 hs a outQ outP hain
  refine ⟨D, ?_, d2, oQ, oP, d3, d4, fun j hj => d5 j (by omega), d6, fun j hj => d7 j (by omega)⟩
  intro i hi h1 h2
  have := d1 (i - beta * (nP / gamma)) (by
    unfold blockLen
    have e1 : (nP / gamma) * (beta + 1) = (beta + 1) * (nP / gamma) := Nat.mul_comm _ _
    have e2 : (nP / gamma) * beta = beta * (nP / gamma) := Nat.mul_comm _ _
    omega)
  have e : beta * (nP / gamma) + (i - beta * (nP / gamma)) = i := by omega
  rwa [e] at this

/-- **The divisibility hypothesis is needed**: if `gamma` does not divide `PCount` and the block has two primes or more, the
call indexes out of range. -/
theorem decompose_out_of_range (fm : FloatModel) (nQ : ℕ) (Q : ℕ → ℕ) (nP : ℕ) (P : ℕ → ℕ) (levelQ beta gamma : ℕ)
    (h : GoodPair nQ Q nP P) (hg : 1 ≤ gamma) (hP1 : gamma ≤ nP) (hdiv : ¬ gamma ∣ nP)
    (hnQ : nQ < 2 ^ 53) (hnP : nP < 2 ^ 53) (hlQ : levelQ < nQ) (hb : beta * (nP / gamma) + 1 ≤ levelQ)
    (hal : 2 ≤ nP / gamma) (h32 : nP / gamma ≤ 32)
    (hs : ∑ k ∈ range (min (levelQ + 1) ((nP / gamma) * (beta + 1)) - (nP / gamma) * beta), Q (beta * (nP / gamma) + k) ≤ 2 ^ 64)
    (a outQ outP : ℕ → ℕ) (hain : ∀ i ≤ levelQ, a i ≤ Q i) :
    decomposeAndSplit fm nQ Q nP P levelQ (nP - 1) (nP / gamma) beta gamma a outQ outP = .error .indexOutOfRange := by
  have hga : gamma * (nP / gamma) ≤ nP := Nat.mul_div_le _ _
  have hne : gamma * (nP / gamma) ≠ nP := fun e => hdiv ⟨_, e.symm⟩
  have e1 : (nP / gamma) * (beta + 1) = beta * (nP / gamma) + nP / gamma := by ring
  have e2 : (nP / gamma) * beta = beta * (nP / gamma) := Nat.mul_comm _ _
  exact decompose_fault fm nQ Q nP P levelQ (nP - 1) (nP / gamma) beta gamma h hg (by omega) hga (by omega) hnQ hnP hlQ
    (by omega) h32 hs (by unfold blockLen; omega) a outQ outP hain

/-- concrete instance: two Q primes, two P primes, `gamma = 1`, so `alpha = 2` and one block of two primes -/
example (fm : FloatModel) : ∃ D : ℤ, D ≡ 90 [ZMOD 97] ∧ D ≡ 100 [ZMOD 193] ∧ ∃ oQ oP,
    decomposeAndSplit fm 2 exQ 2 exP 1 1 2 0 1 (fun i => 90 + 10 * i) (fun _ => 5) (fun _ => 6) = .ok (oQ, oP) ∧
    (oP 1 : ℤ) ≡ D [ZMOD 353] ∧ oQ 2 = 5 := by
  obtain ⟨D, d1, _, oQ, oP, d3, _, d5, d6, _⟩ := decompose_correct fm 2 exQ 2 exP 1 0 1 exPair le_rfl (by norm_num)
    (Or.inl (by norm_num)) (by norm_num) (by norm_num) (by norm_num) (by norm_num) (by norm_num)
    (by norm_num [sum_range_succ, exQ]) (fun i => 90 + 10 * i) (fun _ => 5) (fun _ => 6)
    (by intro i hi; interval_cases i <;> norm_num [exQ])
  refine ⟨D, ?_, ?_, oQ, oP, d3, ?_, d6 2 (by norm_num)⟩
  · simpa [exQ] using d1 0 (by norm_num) (by norm_num) (by norm_num)
  · simpa [exQ] using d1 1 (by norm_num) (by norm_num) (by norm_num)
  · simpa [exP] using (d5 1 (by norm_num)).1

end C41
end MKHE
