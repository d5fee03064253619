import Verif.Model.BasisExt
import Mathlib.Algebra.BigOperators.Group.Finset.Basic
import Mathlib.Algebra.BigOperators.Intervals
import Mathlib.Algebra.Order.BigOperators.Group.Finset
import Mathlib.Data.Nat.Prime.Basic
import Mathlib.Algebra.Field.Rat
import Mathlib.Algebra.BigOperators.Field

set_option autoImplicit false

/-!
# Lemmas about the word-level basis extension
-/

namespace MKHE
open Finset

/-- product of the first `n` moduli -/
def mprod (n : ℕ) (Q : ℕ → ℕ) : ℕ := ∏ j ∈ range n, Q j

/-- product of the first `n` moduli without the `i`-th -/
def mhat (n : ℕ) (Q : ℕ → ℕ) (i : ℕ) : ℕ := ∏ j ∈ range n, if j ≠ i then Q j else 1

theorem mhat_mul (n : ℕ) (Q : ℕ → ℕ) (i : ℕ) (hi : i < n) : mhat n Q i * Q i = mprod n Q := by
  unfold mhat mprod
  have h1 := Finset.prod_erase_mul (range n) (fun j => if j ≠ i then Q j else 1) (mem_range.mpr hi)
  have h2 := Finset.prod_erase_mul (range n) Q (mem_range.mpr hi)
  rw [← h1, ← h2]
  simp only [ne_eq, not_true_eq_false, if_false, mul_one]
  congr 1
  refine Finset.prod_congr rfl fun j hj => ?_
  rw [if_pos (Finset.ne_of_mem_erase hj)]

theorem dvd_mhat (n : ℕ) (Q : ℕ → ℕ) (i j : ℕ) (hj : j < n) (hij : j ≠ i) : Q j ∣ mhat n Q i := by
  have := Finset.dvd_prod_of_mem (fun j => if j ≠ i then Q j else 1) (mem_range.mpr hj)
  simp only [ne_eq, hij, not_false_eq_true, if_true] at this
  exact this

theorem dvd_mprod (n : ℕ) (Q : ℕ → ℕ) (j : ℕ) (hj : j < n) : Q j ∣ mprod n Q :=
  Finset.dvd_prod_of_mem Q (mem_range.mpr hj)

theorem mhat_not_dvd (n : ℕ) (Q : ℕ → ℕ) (i : ℕ) (hp : ∀ j < n, (Q j).Prime)
    (hd : ∀ j < n, ∀ k < n, Q j = Q k → j = k) (hi : i < n) : ¬ Q i ∣ mhat n Q i := by
  intro h
  rw [mhat, Prime.dvd_finsetProd_iff (hp i hi).prime] at h
  obtain ⟨j, hj, h⟩ := h
  rw [mem_range] at hj
  by_cases hji : j = i
  · simp [hji, (hp i hi).ne_one] at h
  · rw [if_pos hji] at h
    exact hji (hd j hj i hi ((Nat.prime_dvd_prime_iff_eq (hp i hi) (hp j hj)).mp h).symm)

theorem hatLoop_spec (n : ℕ) (Q : ℕ → ℕ) (i r s0 : ℕ) (hr : Odd r) (hr63 : r < 2 ^ 63) (hs : s0 < W64) :
    hatLoop n Q i r s0 < W64 ∧ hatLoop n Q i r s0 ≡ s0 * mhat n Q i [MOD r] := by
  unfold hatLoop
  refine forN_inv n _ (fun k s => s < W64 ∧ s ≡ s0 * mhat k Q i [MOD r]) s0 ⟨hs, by simp [mhat]; rfl⟩ ?_
  rintro k s _ ⟨h1, h2⟩
  unfold mhat at *
  rw [Finset.prod_range_succ]
  by_cases hk : k ≠ i
  · rw [if_pos hk, if_pos hk]
    obtain ⟨a, b⟩ := mred_mform (x := s) (y := Q k) hr hr63 h1
    refine ⟨a.trans (hr63.trans (by norm_num)), b.trans ?_⟩
    rw [← mul_assoc]; exact h2.mul_right _
  · rw [if_neg hk, if_neg hk, mul_one]; exact ⟨h1, h2⟩

/-- entries `(Q/q_i)^-1` in Montgomery form -/
theorem qoverqiinvqi_spec (n : ℕ) (Q : ℕ → ℕ) (m : ℕ) (P : ℕ → ℕ) (hp : ∀ j < n, (Q j).Prime)
    (hodd : ∀ j < n, Odd (Q j)) (h63 : ∀ j < n, Q j < 2 ^ 63)
    (hd : ∀ j < n, ∀ k < n, Q j = Q k → j = k) (i : ℕ) (hi : i < n) :
    ∃ c, (basisExtParams n Q m P).qoverqiinvqi[i]? = some c ∧ c < Q i ∧ c * mhat n Q i ≡ W64 [MOD Q i] := by
  refine ⟨_, by simp only [basisExtParams, List.getElem?_map, List.getElem?_range hi, Option.map_some]; rfl, ?_⟩
  have h1 : mformW 1 (Q i) < W64 := (mformW_lt (hp i hi).pos).trans ((h63 i hi).trans (by norm_num))
  obtain ⟨_, b⟩ := hatLoop_spec n Q i (Q i) _ (hodd i hi) (h63 i hi) h1
  have hx : hatLoop n Q i (Q i) (mformW 1 (Q i)) ≡ mhat n Q i * W64 [MOD Q i] := by
    refine b.trans ?_
    rw [mul_comm (mhat n Q i)]
    have := (mformW_spec 1 (Q i)).mul_right (mhat n Q i)
    rwa [one_mul] at this
  exact modExpMont_inv (hp i hi) (hodd i hi) (mhat_not_dvd n Q i hp hd hi) hx

/-- entries `Q/q_i mod p_j` in Montgomery form -/
theorem qoverqimodp_spec (n : ℕ) (Q : ℕ → ℕ) (m : ℕ) (P : ℕ → ℕ) (j : ℕ) (hj : j < m) (hodd : Odd (P j))
    (h63 : P j < 2 ^ 63) :
    ∃ row, (basisExtParams n Q m P).qoverqimodp[j]? = some row ∧ row.length = n ∧
      ∀ i < n, row.getD i 0 < P j ∧ row.getD i 0 ≡ mhat n Q i * W64 [MOD P j] := by
  have hrow : (basisExtParams n Q m P).qoverqimodp[j]? =
      some ((List.range n).map fun i => mformW (hatLoop n Q i (P j) 1) (P j)) := by
    simp only [basisExtParams, List.getElem?_map, List.getElem?_range hj, Option.map_some]
  refine ⟨_, hrow, by rw [List.length_map, List.length_range], ?_⟩
  intro i hi
  have : ((List.range n).map fun i => mformW (hatLoop n Q i (P j) 1) (P j)).getD i 0 =
      mformW (hatLoop n Q i (P j) 1) (P j) := by
    rw [List.getD_eq_getElem?_getD, List.getElem?_map, List.getElem?_range hi, Option.map_some, Option.getD_some]
  rw [this]
  refine ⟨mformW_lt hodd.pos, (mformW_spec _ _).trans (Nat.ModEq.mul_right _ ?_)⟩
  have h1 : (1 : ℕ) < W64 := Nat.one_lt_two_pow (by norm_num)
  obtain ⟨_, b⟩ := hatLoop_spec n Q i (P j) 1 hodd h63 h1
  rwa [one_mul] at b

theorem vTable_spec (n : ℕ) (Q : ℕ → ℕ) (p : ℕ) (hodd : Odd p) (h63 : p < 2 ^ 63) (h1 : 1 < p) :
    ∀ v ≤ n, ∃ t, (vTable n Q p)[v]? = some t ∧ t < p ∧ t + v * mprod n Q ≡ 0 [MOD p] := by
  have hQ : forN n (fun s i => mred s (mformW (Q i) p) p (mredParams p)) 1 < p ∧
      forN n (fun s i => mred s (mformW (Q i) p) p (mredParams p)) 1 ≡ mprod n Q [MOD p] := by
    refine forN_inv n _ (fun k s => s < p ∧ s ≡ mprod k Q [MOD p]) 1 ⟨h1, by simp [mprod]; rfl⟩ ?_
    rintro k s _ ⟨a, b⟩
    obtain ⟨c, d⟩ := mred_mform (x := s) (y := Q k) hodd h63 (a.trans (h63.trans (by norm_num)))
    refine ⟨c, d.trans ?_⟩
    unfold mprod at *
    rw [Finset.prod_range_succ]; exact b.mul_right _
  unfold vTable
  set M := forN n (fun s i => mred s (mformW (Q i) p) p (mredParams p)) 1
  have hv : (p - M) + mprod n Q ≡ 0 [MOD p] := by
    have : (p - M) + mprod n Q ≡ (p - M) + M [MOD p] := hQ.2.symm.add_left _
    refine this.trans ?_
    rw [Nat.sub_add_cancel hQ.1.le]; exact (Nat.modEq_zero_iff_dvd.mpr dvd_rfl)
  have key := forN_inv n (fun (t : List ℕ) _ => t ++ [cred (t.getLastD 0 + (p - M)) p])
    (fun k t => t.length = k + 1 ∧ (∀ v ≤ k, ∃ w, t[v]? = some w ∧ w < p ∧ w + v * mprod n Q ≡ 0 [MOD p]) ∧
      t.getLastD 0 < p ∧ t.getLastD 0 + k * mprod n Q ≡ 0 [MOD p]) [0]
    (by
      refine ⟨rfl, ?_, by simpa using by omega, by simp; rfl⟩
      intro v hv
      obtain rfl : v = 0 := by omega
      exact ⟨0, rfl, by omega, by simp; rfl⟩)
    (by
      rintro k t _ ⟨hl, ht, hlast, hcong⟩
      have hc := cred_spec (a := t.getLastD 0 + (p - M)) (q := p) (by omega)
      have hcong' : cred (t.getLastD 0 + (p - M)) p + (k + 1) * mprod n Q ≡ 0 [MOD p] := by
        refine (hc.2.add_right _).trans ?_
        have : t.getLastD 0 + (p - M) + (k + 1) * mprod n Q =
          (t.getLastD 0 + k * mprod n Q) + ((p - M) + mprod n Q) := by ring
        rw [this]
        exact (hcong.add hv)
      refine ⟨by simp [hl], ?_, by simpa using hc.1, by simpa using hcong'⟩
      intro v hvk
      rcases Nat.lt_or_ge v (k + 1) with h | h
      · obtain ⟨w, hw, hw2⟩ := ht v (by omega)
        refine ⟨w, ?_, hw2⟩
        rw [List.getElem?_append_left (by omega)]; exact hw
      · obtain rfl : v = k + 1 := by omega
        refine ⟨_, ?_, hc.1, hcong'⟩
        rw [List.getElem?_append_right (by omega), hl]; simp)
  exact key.2.1

/-- the 128-bit accumulator holds the exact sum -/
theorem acc_exact (y c : ℕ → ℕ) (alpha : ℕ) (hS : ∑ i ∈ range alpha, y i * c i < W64 * W64) :
    (forN alpha (accStep y c) (0, 0)).1 < W64 ∧
    (forN alpha (accStep y c) (0, 0)).1 + W64 * (forN alpha (accStep y c) (0, 0)).2 =
      ∑ i ∈ range alpha, y i * c i := by
  refine forN_inv alpha _ (fun k r => r.1 < W64 ∧ r.1 + W64 * r.2 = ∑ i ∈ range k, y i * c i) (0, 0)
    ⟨by norm_num, by simp⟩ ?_
  rintro k ⟨lo, hi⟩ hk ⟨h1, h2⟩
  have hsub : ∑ i ∈ range (k + 1), y i * c i ≤ ∑ i ∈ range alpha, y i * c i :=
    Finset.sum_le_sum_of_subset (Finset.range_subset_range.mpr hk)
  rw [Finset.sum_range_succ] at hsub ⊢
  simp only [accStep] at *
  have hdm := Nat.div_add_mod (y k * c k) W64
  unfold mulHi mulLo
  set A := y k * c k / W64
  set B := y k * c k % W64
  have hdm2 := Nat.div_add_mod (lo + B) W64
  set C := (lo + B) / W64
  set D := (lo + B) % W64
  have htot : D + W64 * (hi + (A + C)) < W64 * W64 := by
    have : D + W64 * (hi + (A + C)) = (lo + W64 * hi) + (W64 * A + B) := by
      have : W64 * (hi + (A + C)) = W64 * hi + W64 * A + W64 * C := by ring
      omega
    rw [this, h2, hdm]; omega
  have hlt : hi + (A + C) < W64 := by
    by_contra hcon
    have := Nat.mul_le_mul_left W64 (Nat.le_of_not_lt hcon)
    omega
  refine ⟨Nat.mod_lt _ (by norm_num), ?_⟩
  rw [Nat.mod_eq_of_lt (by omega : A + C < W64), Nat.mod_eq_of_lt hlt]
  have : W64 * (hi + (A + C)) = W64 * hi + W64 * A + W64 * C := by ring
  omega

/-- **multSum** is exact: no wrap-around affects the result. -/
theorem multSum_spec (y : ℕ → ℕ) (v alpha p : ℕ) (vt qo : List ℕ) (t : ℕ) (hodd : Odd p) (h3 : 3 * p ≤ W64)
    (hq : alpha ≤ qo.length) (ht : vt[v]? = some t) (htp : t < p)
    (hS : ∑ i ∈ range alpha, y i * qo.getD i 0 ≤ p * W64) :
    ∃ r, multSum y v alpha p (mredParams p) vt qo = .ok r ∧
      (r : ℤ) * W64 ≡ (∑ i ∈ range alpha, y i * qo.getD i 0 : ℕ) + (t : ℤ) * W64 [ZMOD p] ∧
      W64 * r ≤ (∑ i ∈ range alpha, y i * qo.getD i 0) + W64 * (p + t) ∧ r < 3 * p := by
  set S := ∑ i ∈ range alpha, y i * qo.getD i 0 with hSdef
  have hp := hodd.pos
  have hS2 : S < W64 * W64 := by
    refine lt_of_le_of_lt hS (Nat.mul_lt_mul_of_pos_right (by omega) (by norm_num))
  obtain ⟨hlo, hsum⟩ := acc_exact y (fun i => qo.getD i 0) alpha (by rw [← hSdef]; exact hS2)
  rw [← hSdef] at hsum
  set R := forN alpha (accStep y fun i => qo.getD i 0) (0, 0) with hR
  have hR1 : R.1 = S % W64 := by
    rw [← hsum, Nat.add_mul_mod_self_left, Nat.mod_eq_of_lt hlo]
  have hR2 : R.2 = S / W64 := by
    rw [← hsum, Nat.add_mul_div_left _ _ (by norm_num), Nat.div_eq_of_lt hlo, Nat.zero_add]
  obtain ⟨-, e⟩ := mont_exact S p hodd
  set mm := S % W64 * mredParams p % W64 with hm
  have hmlt : mm < W64 := Nat.mod_lt _ (by norm_num)
  have hH : mulHi mm p < p := by
    unfold mulHi
    rw [Nat.div_lt_iff_lt_mul (by norm_num), Nat.mul_comm p]
    exact Nat.mul_lt_mul_of_pos_right hmlt hp
  have hA : S / W64 ≤ p := by
    rw [Nat.div_le_iff_le_mul_add_pred (by norm_num)]
    have : W64 * p = p * W64 := Nat.mul_comm _ _
    omega
  have hAS : W64 * (S / W64) ≤ S := Nat.mul_div_le _ _
  refine ⟨S / W64 + p + t - mulHi mm p, ?_, ?_, ?_, ?_⟩
  · unfold multSum
    rw [if_neg (by omega)]
    simp only [← hR]
    rw [Go.idx_ok ht, Go.andThen_ok]
    congr 1
    rw [hR1, hR2, ← hm]
    generalize S / W64 = A at *
    generalize mulHi mm p = H at *
    have h3' : 3 * p ≤ 18446744073709551616 := h3
    show (A + (18446744073709551616 - H) + p + t) % 18446744073709551616 = _
    clear e hsum hS2 hS hAS
    omega
  · have hcast : ((S / W64 + p + t - mulHi mm p : ℕ) : ℤ) =
        (((S / W64 : ℕ) : ℤ) - ((mulHi mm p : ℕ) : ℤ)) + p + t := by omega
    rw [hcast, add_mul, add_mul, e, Int.modEq_iff_dvd]
    exact ⟨mm - W64, by ring⟩
  · have : W64 * (S / W64 + p + t - mulHi mm p) ≤ W64 * (S / W64 + (p + t)) :=
      Nat.mul_le_mul_left _ (by omega)
    rw [Nat.mul_add] at this
    omega
  · omega

/-- What is assumed of a source basis: at most 32 distinct odd primes below `2^61`, of sum at most `2^64`. -/
structure GoodBasis (n : ℕ) (Q : ℕ → ℕ) : Prop where
  pos : 1 ≤ n
  le32 : n ≤ 32
  prime : ∀ j < n, (Q j).Prime
  odd : ∀ j < n, Odd (Q j)
  lt61 : ∀ j < n, Q j < 2 ^ 61
  distinct : ∀ j < n, ∀ k < n, Q j = Q k → j = k
  sum : ∑ j ∈ range n, Q j ≤ W64

/-- What is assumed of a target modulus. -/
structure GoodMod (p : ℕ) : Prop where
  odd : Odd p
  gt1 : 1 < p
  lt61 : p < 2 ^ 61

theorem GoodBasis.goodMod {n : ℕ} {Q : ℕ → ℕ} (h : GoodBasis n Q) (j : ℕ) (hj : j < n) : GoodMod (Q j) :=
  ⟨h.odd j hj, (h.prime j hj).one_lt, h.lt61 j hj⟩

/-- the integer represented by the words `y` and the correction index `v` -/
def liftInt (n : ℕ) (Q : ℕ → ℕ) (y : ℕ → ℕ) (v : ℕ) : ℤ :=
  ((∑ i ∈ range n, y i * mhat n Q i : ℕ) : ℤ) - v * (mprod n Q : ℕ)

theorem mprod_pos {n : ℕ} {Q : ℕ → ℕ} (h : ∀ j < n, 0 < Q j) : 0 < mprod n Q :=
  Finset.prod_pos fun j hj => h j (mem_range.mp hj)

/-- CRT reconstruction: the lift is congruent to the input modulo every input prime. -/
theorem liftInt_congr {n : ℕ} {Q : ℕ → ℕ} {y : ℕ → ℕ} {v : ℕ} {a c : ℕ → ℕ} (h : GoodBasis n Q)
    (hy : ∀ i < n, y i * W64 ≡ a i * c i [MOD Q i]) (hc : ∀ i < n, c i * mhat n Q i ≡ W64 [MOD Q i])
    (i : ℕ) (hi : i < n) : liftInt n Q y v ≡ a i [ZMOD Q i] := by
  unfold liftInt
  have h1 : ((v : ℤ) * (mprod n Q : ℕ)) ≡ 0 [ZMOD Q i] := by
    rw [Int.modEq_zero_iff_dvd]
    exact Dvd.dvd.mul_left (Int.natCast_dvd_natCast.mpr (dvd_mprod n Q i hi)) _
  have h2 : (∑ k ∈ range n, y k * mhat n Q k) ≡ y i * mhat n Q i [MOD Q i] := by
    rw [← Finset.add_sum_erase _ _ (mem_range.mpr hi)]
    have : Q i ∣ ∑ k ∈ (range n).erase i, y k * mhat n Q k :=
      Finset.dvd_sum fun k hk => Dvd.dvd.mul_left (dvd_mhat n Q k i hi (Finset.ne_of_mem_erase hk).symm) _
    have h0 := (Nat.modEq_zero_iff_dvd.mpr this).add_left (y i * mhat n Q i)
    simpa using h0
  have h3 : y i * mhat n Q i ≡ a i [MOD Q i] := by
    have e1 : y i * mhat n Q i * W64 ≡ a i * W64 [MOD Q i] := by
      have l1 := (hy i hi).mul_right (mhat n Q i)
      have l2 := (hc i hi).mul_left (a i)
      calc y i * mhat n Q i * W64 = y i * W64 * mhat n Q i := by ring
        _ ≡ a i * c i * mhat n Q i [MOD Q i] := l1
        _ = a i * (c i * mhat n Q i) := by ring
        _ ≡ a i * W64 [MOD Q i] := l2
    exact Nat.ModEq.cancel_right_of_coprime (by rw [Nat.gcd_comm]; exact coprime_W64 (h.odd i hi)) e1
  have h4 := (Int.natCast_modEq_iff.mpr (h2.trans h3)).sub h1
  simpa using h4

/-- `reconstructRNS` on a good basis: no abort, words below the primes, a correction index inside the table, and
a lift that represents the input and lies within `2^-42` of `[0, Q)`. -/
theorem reconstruct_spec (fm : FloatModel) (n : ℕ) (Q : ℕ → ℕ) (m : ℕ) (P : ℕ → ℕ) (h : GoodBasis n Q)
    (a : ℕ → ℕ) (ha : ∀ i < n, a i < W64) :
    ∃ y v, reconstructRNS fm n a Q (basisExtParams n Q m P).qoverqiinvqi = .ok (y, v) ∧
      (∀ i < n, y i < Q i) ∧ v ≤ n ∧ (∀ i < n, liftInt n Q y v ≡ a i [ZMOD Q i]) ∧
      -(mprod n Q : ℤ) ≤ 2 ^ 42 * liftInt n Q y v ∧ 2 ^ 42 * liftInt n Q y v ≤ (2 ^ 42 + 1) * (mprod n Q : ℤ) := by
  have h63 : ∀ j < n, Q j < 2 ^ 63 := fun j hj => (h.lt61 j hj).trans (by norm_num)
  set qb := (basisExtParams n Q m P).qoverqiinvqi with hqb
  have hlen : qb.length = n := by rw [hqb]; simp [basisExtParams]
  have hc : ∀ i < n, qb.getD i 0 < Q i ∧ qb.getD i 0 * mhat n Q i ≡ W64 [MOD Q i] := by
    intro i hi
    obtain ⟨c, h1, h2⟩ := qoverqiinvqi_spec n Q m P h.prime h.odd h63 h.distinct i hi
    rw [← hqb] at h1
    rw [List.getD_eq_getElem?_getD, h1]; exact h2
  have hy : ∀ i < n, mred (a i) (qb.getD i 0) (Q i) (mredParams (Q i)) < Q i ∧
      mred (a i) (qb.getD i 0) (Q i) (mredParams (Q i)) * W64 ≡ a i * qb.getD i 0 [MOD Q i] := by
    intro i hi
    refine mred_spec (h.odd i hi) (h63 i hi) ?_
    calc a i * qb.getD i 0 ≤ a i * Q i := Nat.mul_le_mul_left _ (hc i hi).1.le
      _ < W64 * Q i := Nat.mul_lt_mul_of_pos_right (ha i hi) (h.prime i hi).pos
      _ = Q i * W64 := Nat.mul_comm _ _
  set y := fun i => mred (a i) (qb.getD i 0) (Q i) (mredParams (Q i)) with hydef
  set l := (List.range n).map fun i => (y i, Q i) with hl
  have hlt : ∀ yq ∈ l, yq.1 < yq.2 := by
    intro yq hyq
    rw [hl, List.mem_map] at hyq
    obtain ⟨i, hi, rfl⟩ := hyq
    exact (hy i (List.mem_range.mp hi)).1
  have hll : l.length = n := by rw [hl]; simp
  obtain ⟨e1, e2⟩ := fm.accum_err l hlt (by rw [hll]; exact h.le32.trans (by norm_num))
  obtain ⟨b1, b2⟩ := FloatModel.exactSum_bounds l hlt
  rw [hll] at e1 b2
  have hsmall : (n : ℚ) * (n + 8) * unitRoundoff ≤ 1 / 2 ^ 42 := by
    have hn : (n : ℚ) ≤ 32 := by exact_mod_cast h.le32
    have hn0 : (0 : ℚ) ≤ n := by positivity
    have : (n : ℚ) * (n + 8) ≤ 1280 := by nlinarith
    calc (n : ℚ) * (n + 8) * unitRoundoff ≤ 1280 * unitRoundoff :=
          mul_le_mul_of_nonneg_right this (by unfold unitRoundoff; positivity)
      _ ≤ 1 / 2 ^ 42 := by unfold unitRoundoff; norm_num
  have e3 := abs_le.mp (e1.trans hsmall)
  set vi := fm.accum l with hvi
  set T := FloatModel.exactSum l with hT
  have hvle : (⌊vi⌋₊ : ℚ) ≤ vi := Nat.floor_le e2
  have hvlt : vi < ⌊vi⌋₊ + 1 := Nat.lt_floor_add_one vi
  have hvn : ⌊vi⌋₊ ≤ n := by
    have : (⌊vi⌋₊ : ℚ) < n + 1 := by
      have : (1 : ℚ) / 2 ^ 42 < 1 := by norm_num
      linarith [e3.2]
    have : ⌊vi⌋₊ < n + 1 := by exact_mod_cast this
    omega
  have hQpos : ∀ j < n, 0 < Q j := fun j hj => (h.prime j hj).pos
  have hMpos := mprod_pos hQpos
  have hMq : (0 : ℚ) < mprod n Q := by exact_mod_cast hMpos
  -- the exact quotient
  have hquot : ((liftInt n Q y ⌊vi⌋₊ : ℤ) : ℚ) = (T - ⌊vi⌋₊) * mprod n Q := by
    have hTs : T = ∑ i ∈ range n, (y i : ℚ) / Q i := by
      rw [hT, hl, FloatModel.exactSum, List.map_map, Finset.sum_range]
      rw [← List.sum_ofFn]
      congr 1
      apply List.ext_getElem
      · simp
      · intro i h1 h2
        simp
    unfold liftInt
    push_cast
    rw [sub_mul, hTs, Finset.sum_mul]
    congr 1
    refine Finset.sum_congr rfl fun i hi => ?_
    have hq0 : (Q i : ℚ) ≠ 0 := by
      have := hQpos i (mem_range.mp hi); positivity
    rw [← mhat_mul n Q i (mem_range.mp hi)]
    push_cast
    field_simp
  refine ⟨y, ⌊vi⌋₊, ?_, fun i hi => (hy i hi).1, hvn,
    fun i hi => liftInt_congr h (fun i hi => (hy i hi).2) (fun i hi => (hc i hi).2) i hi, ?_, ?_⟩
  · unfold reconstructRNS
    have hle := h.le32
    rw [if_neg (by rw [hlen]; omega)]
    rfl
  · have : (-(mprod n Q : ℤ) : ℚ) ≤ ((2 ^ 42 * liftInt n Q y ⌊vi⌋₊ : ℤ) : ℚ) := by
      push_cast
      rw [hquot]
      have : -(1 / 2 ^ 42 : ℚ) ≤ T - ⌊vi⌋₊ := by linarith [e3.1, e3.2]
      have := mul_le_mul_of_nonneg_right this hMq.le
      linarith
    exact_mod_cast this
  · have : ((2 ^ 42 * liftInt n Q y ⌊vi⌋₊ : ℤ) : ℚ) ≤ (((2 ^ 42 + 1) * (mprod n Q : ℤ) : ℤ) : ℚ) := by
      push_cast
      rw [hquot]
      have : T - ⌊vi⌋₊ ≤ 1 + 1 / 2 ^ 42 := by linarith [e3.1, e3.2]
      have := mul_le_mul_of_nonneg_right this hMq.le
      linarith
    exact_mod_cast this

/-- One output word of the extension: no abort, congruent to the lift modulo the target, below `3p`. -/
theorem multSum_lift (n : ℕ) (Q : ℕ → ℕ) (m : ℕ) (P : ℕ → ℕ) (h : GoodBasis n Q) (y : ℕ → ℕ) (v : ℕ)
    (hy : ∀ i < n, y i < Q i) (hv : v ≤ n) (j : ℕ) (hj : j < m) (hp : GoodMod (P j)) :
    ∃ vt qo r, (basisExtParams n Q m P).vtimesqmodp[j]? = some vt ∧
      (basisExtParams n Q m P).qoverqimodp[j]? = some qo ∧
      multSum y v n (P j) (mredParams (P j)) vt qo = .ok r ∧ (r : ℤ) ≡ liftInt n Q y v [ZMOD P j] ∧
      r < 3 * P j := by
  have h63 : P j < 2 ^ 63 := hp.lt61.trans (by norm_num)
  obtain ⟨qo, q1, q2, q3⟩ := qoverqimodp_spec n Q m P j hj hp.odd h63
  obtain ⟨t, t1, t2, t3⟩ := vTable_spec n Q (P j) hp.odd h63 hp.gt1 v hv
  have hvt : (basisExtParams n Q m P).vtimesqmodp[j]? = some (vTable n Q (P j)) := by
    simp only [basisExtParams, List.getElem?_map, List.getElem?_range hj, Option.map_some]
  have hS : ∑ i ∈ range n, y i * qo.getD i 0 ≤ P j * W64 := by
    calc ∑ i ∈ range n, y i * qo.getD i 0 ≤ ∑ i ∈ range n, Q i * P j :=
          Finset.sum_le_sum fun i hi => Nat.mul_le_mul (hy i (mem_range.mp hi)).le (q3 i (mem_range.mp hi)).1.le
      _ = (∑ i ∈ range n, Q i) * P j := by rw [Finset.sum_mul]
      _ ≤ W64 * P j := Nat.mul_le_mul_right _ h.sum
      _ = P j * W64 := Nat.mul_comm _ _
  have h3 : 3 * P j ≤ W64 := by
    have := hp.lt61
    have e : (W64 : ℕ) = 8 * 2 ^ 61 := by norm_num
    omega
  obtain ⟨r, r1, r2, _, r4⟩ := multSum_spec y v n (P j) _ qo t hp.odd h3 q2.ge t1 t2 hS
  refine ⟨_, qo, r, hvt, q1, r1, ?_, r4⟩
  -- cancel 2^64
  have hcop : Int.gcd (P j : ℤ) (W64 : ℤ) = 1 := by
    have := coprime_W64 hp.odd
    rw [Int.gcd_natCast_natCast, Nat.gcd_comm]; exact this
  have hSc : ((∑ i ∈ range n, y i * qo.getD i 0 : ℕ) : ℤ) ≡
      ((∑ i ∈ range n, y i * mhat n Q i : ℕ) : ℤ) * W64 [ZMOD P j] := by
    rw [← Int.natCast_mul, Int.natCast_modEq_iff, Finset.sum_mul]
    rw [← ZMod.natCast_eq_natCast_iff]
    push_cast
    refine Finset.sum_congr rfl fun i hi => ?_
    have := (q3 i (mem_range.mp hi)).2
    rw [← ZMod.natCast_eq_natCast_iff] at this
    rw [this]; push_cast; ring
  have htc : (t : ℤ) ≡ -((v : ℤ) * (mprod n Q : ℕ)) [ZMOD P j] := by
    have := Int.natCast_modEq_iff.mpr t3
    push_cast at this
    have h' := this.sub_right ((v : ℤ) * (mprod n Q : ℤ))
    simpa using h'
  have hfin : (r : ℤ) * W64 ≡ liftInt n Q y v * W64 [ZMOD P j] := by
    refine r2.trans ?_
    unfold liftInt
    have := hSc.add (htc.mul_right (W64 : ℤ))
    refine this.trans ?_
    rw [← add_mul, ← sub_eq_add_neg]
  have := Int.ModEq.cancel_right_div_gcd (by exact_mod_cast hp.odd.pos) hfin
  rwa [hcop, Nat.cast_one, Int.ediv_one] at this

end MKHE
