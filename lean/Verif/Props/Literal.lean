import Verif.Model.Literal
import Verif.Lemmas.BfvBasis
import Verif.Base.PrimeList
import Mathlib.Data.List.GetD

set_option autoImplicit false

/-!
# C61: which parameter literals the library can work with; the shipped ones are among them
-/

namespace MKHE.C61
open Finset

/-! ## slices -/

theorem nth_lt {l : List ℕ} {i : ℕ} (h : i < l.length) : nth l i = l[i] := by
  unfold nth; rw [List.getD_eq_getElem _ _ h]

theorem nth_mem {l : List ℕ} {i : ℕ} (h : i < l.length) : nth l i ∈ l := by rw [nth_lt h]; exact List.getElem_mem h

theorem nth_mem' {l : List ℕ} (h : l ≠ []) (i : ℕ) : nth l i ∈ l := by
  by_cases hi : i < l.length
  · exact nth_mem hi
  · unfold nth
    rw [List.getD_eq_default _ _ (by omega)]
    cases l with
    | nil => exact absurd rfl h
    | cons a l => exact List.mem_cons_self

theorem nth_inj {l : List ℕ} (h : l.Nodup) {i k : ℕ} (hi : i < l.length) (hk : k < l.length) (e : nth l i = nth l k) : i = k := by
  rw [nth_lt hi, nth_lt hk] at e
  exact (List.Nodup.getElem_inj_iff h).mp e

/-- the sum of a slice -/
theorem sum_nth (l : List ℕ) : ∑ i ∈ range l.length, nth l i = l.sum := by
  rw [← Fin.sum_univ_eq_sum_range (fun i => nth l i), ← List.sum_ofFn]
  congr 1
  refine List.ext_getElem (by simp) fun i h1 h2 => ?_
  rw [List.getElem_ofFn]
  exact nth_lt h2

/-- the product of a slice -/
theorem prod_nth (l : List ℕ) : ∏ i ∈ range l.length, nth l i = l.prod := by
  rw [← Fin.prod_univ_eq_prod_range (fun i => nth l i), ← List.prod_ofFn]
  congr 1
  refine List.ext_getElem (by simp) fun i h1 h2 => ?_
  rw [List.getElem_ofFn]
  exact nth_lt h2

/-- R: the primes of Q followed by those of QMul -/
theorem concat_nth {a b : List ℕ} {i : ℕ} (h : i < a.length + b.length) : concatMods a.length (nth a) (nth b) i = nth (a ++ b) i := by
  unfold concatMods
  split_ifs with hi
  · rw [nth_lt hi, nth_lt (by simpa using h), List.getElem_append_left hi]
  · rw [nth_lt (by omega : i - a.length < b.length), nth_lt (by simpa using h), List.getElem_append_right (by omega)]

/-! ## which literals are valid -/

/-- Conditions on a literal and `gamma` that a user can check: lattigo's `NewRing` accepts Q and P (distinct primes congruent to 1 modulo `2N`), the primes
are below `2^61`, no prime is in both, `gamma` divides the number of special primes, of which there are at most 8. -/
structure Good (L : Lit) (gamma : ℕ) : Prop where
  log : 1 ≤ L.logN ∧ L.logN ≤ 31
  Q : ringOk L.logN L.Q
  P : ringOk L.logN L.P
  ltQ : ∀ x ∈ L.Q, x < 2 ^ 61
  ltP : ∀ x ∈ L.P, x < 2 ^ 61
  disjoint : ∀ x ∈ L.Q, x ∉ L.P
  ne : 1 ≤ L.Q.length ∧ L.Q.length < 2 ^ 52
  gamma : gamma ∣ L.P.length
  nP : 1 ≤ L.P.length ∧ L.P.length ≤ 8

theorem odd_of_ringOk {k : ℕ} {l : List ℕ} (h : ringOk k l) {x : ℕ} (hx : x ∈ l) : Odd x := by
  have h2 := ((h.2 x hx).2.of_dvd (dvd_pow_self 2 (by omega)) : x ≡ 1 [MOD 2])
  exact Nat.odd_iff.mpr h2

theorem pair_of {a b : List ℕ} {k : ℕ} (ha : ringOk k a) (hb : ringOk k b) (la : ∀ x ∈ a, x < 2 ^ 61) (lb : ∀ x ∈ b, x < 2 ^ 61)
    (hd : ∀ x ∈ a, x ∉ b) : GoodPair a.length (nth a) b.length (nth b) where
  primeQ := fun i hi => (ha.2 _ (nth_mem hi)).1
  oddQ := fun i hi => odd_of_ringOk ha (nth_mem hi)
  lt61Q := fun i hi => la _ (nth_mem hi)
  primeP := fun i hi => (hb.2 _ (nth_mem hi)).1
  oddP := fun i hi => odd_of_ringOk hb (nth_mem hi)
  lt61P := fun i hi => lb _ (nth_mem hi)
  distinctQ := fun i hi k hk e => nth_inj ha.1 hi hk e
  distinctP := fun i hi k hk e => nth_inj hb.1 hi hk e
  disjoint := fun i hi j hj e => hd _ (nth_mem hi) (e ▸ nth_mem hj)

/-- a sum of at most eight words below `2^61` fits a word -/
theorem sum_le_word {n : ℕ} (f : ℕ → ℕ) (hn : n ≤ 8) (h : ∀ i < n, f i < 2 ^ 61) : ∑ i ∈ range n, f i ≤ W64 := by
  calc ∑ i ∈ range n, f i ≤ ∑ _i ∈ range n, 2 ^ 61 := sum_le_sum fun i hi => (h i (mem_range.mp hi)).le
    _ = n * 2 ^ 61 := by simp
    _ ≤ 8 * 2 ^ 61 := Nat.mul_le_mul_right _ hn
    _ = W64 := by norm_num [W64]

/-- **C61, mkrlwe and mkckks.** For a literal that satisfies the conditions, the parameter set the constructor builds satisfies all assumptions made on
parameters by the theorems about it, for every float64 model and every implementation of the row operations. -/
theorem valid {L : Lit} {gamma : ℕ} (h : Good L gamma) (fm : FloatModel) (rq : ∀ i, LimbOps (2 ^ L.logN) (nth L.Q i))
    (rp : ∀ j, LimbOps (2 ^ L.logN) (nth L.P j)) : (L.ctx gamma fm rq rp).Valid where
  pair := pair_of h.Q h.P h.ltQ h.ltP h.disjoint
  g1 := Nat.pos_of_dvd_of_pos h.gamma h.nP.1
  gle := Nat.le_of_dvd h.nP.1 h.gamma
  gdiv := .inl h.gamma
  q1 := h.ne.1
  nQ53 := lt_trans h.ne.2 (by norm_num)
  le32 := by show L.P.length ≤ 32; have := h.nP.2; omega
  sumP := sum_le_word _ h.nP.2 fun i hi => h.ltP _ (nth_mem hi)
  sumQ := fun s n hn hs => by
    change n ≤ L.P.length / gamma at hn
    change s + n ≤ L.Q.length at hs
    refine sum_le_word (fun k => nth L.Q (s + k)) ?_ fun i hi => h.ltQ _ (nth_mem (by omega))
    have := Nat.div_le_self L.P.length gamma
    have := h.nP.2
    omega
  hN := rfl
  log1 := h.log.1
  log31 := h.log.2

/-- the conditions for a BFV literal: those of the literal with `gamma = 2`, and for QMul: as many primes as in Q, distinct from those of Q and P. The number
of special primes over 2 divides the number of primes of Q (otherwise key generation panics), of which there are at most 32. -/
structure BGood (L : BLit) : Prop where
  qp : Good L.toLit 2
  len : L.Q.length = L.QMul.length
  T : ringOk L.logN [L.T]
  R : ringOk L.logN (L.Q ++ L.QMul)
  ltM : ∀ x ∈ L.QMul, x < 2 ^ 61
  disjointM : ∀ x ∈ L.QMul, x ∉ L.P
  div : L.P.length / 2 ∣ L.Q.length
  n32 : L.Q.length ≤ 32
  sumQ : L.Q.sum ≤ W64
  sumM : L.QMul.sum ≤ W64

/-- **C61, mkbfv.** For a literal that satisfies the conditions, `NewParametersFromLiteral` does not panic and the parameter set it returns satisfies all
assumptions made by the theorems about it. -/
theorem bvalid {L : BLit} (h : BGood L) (fm : FloatModel) (R : L.Rows) : newBfvParams L fm R = .ok (L.bctx fm R) ∧ (L.bctx fm R).Valid := by
  refine ⟨?_, ?_⟩
  · unfold newBfvParams
    have hM : ringOk L.logN L.QMul := ⟨(List.nodup_append.mp h.R.1).2.1, fun x hx => h.R.2 x (List.mem_append_right _ hx)⟩
    rw [if_neg (not_not.mpr h.len), if_neg (not_not.mpr h.T), if_neg (not_not.mpr hM), if_neg (not_not.mpr ⟨h.qp.Q, h.qp.P⟩),
      if_neg (not_not.mpr ⟨h.R, h.qp.P⟩)]
  have hlen : ∀ i, i < 2 * (L.bctx fm R).C.nQ → i < L.Q.length + L.QMul.length := fun i hi => by
    change i < 2 * L.Q.length at hi
    have := h.len
    omega
  have hr : ∀ i, i < 2 * (L.bctx fm R).C.nQ → (L.bctx fm R).r i = nth (L.Q ++ L.QMul) i := fun i hi => concat_nth (hlen i hi)
  have hl : ∀ x ∈ L.Q ++ L.QMul, x < 2 ^ 61 := fun x hx => (List.mem_append.mp hx).elim (h.qp.ltQ x) (h.ltM x)
  have G := pair_of h.R h.qp.P hl h.qp.ltP fun x hx => (List.mem_append.mp hx).elim (h.qp.disjoint x) (h.disjointM x)
  have hlen' : ∀ i, i < 2 * (L.bctx fm R).C.nQ → i < (L.Q ++ L.QMul).length := fun i hi => by rw [List.length_append]; exact hlen i hi
  refine ⟨valid h.qp fm R.rq R.rp, ?_, ?_, ?_, h.n32, ?_, ?_, ?_⟩
  · exact ⟨fun i hi => by rw [hr i hi]; exact G.primeQ i (hlen' i hi), fun i hi => by rw [hr i hi]; exact G.oddQ i (hlen' i hi),
      fun i hi => by rw [hr i hi]; exact G.lt61Q i (hlen' i hi), G.primeP, G.oddP, G.lt61P,
      fun i hi k hk e => by rw [hr i hi, hr k hk] at e; exact G.distinctQ i (hlen' i hi) k (hlen' k hk) e, G.distinctP,
      fun i hi j hj => by rw [hr i hi]; exact G.disjoint i (hlen' i hi) j hj⟩
  · exact h.div
  · show 2 * L.Q.length < _
    have := h.n32
    omega
  · show ∑ i ∈ range L.Q.length, nth L.Q i ≤ W64
    rw [sum_nth]; exact h.sumQ
  · show ∑ i ∈ range L.Q.length, nth L.QMul i ≤ W64
    rw [h.len, sum_nth]; exact h.sumM
  · intro k hk
    have ha : (L.bctx fm R).C.alpha ≤ 8 := (Nat.div_le_self L.P.length 2).trans h.qp.nP.2
    refine sum_le_word (fun i => (L.bctx fm R).r (k * (L.bctx fm R).C.alpha + i)) ha fun i hi => ?_
    have : k * (L.bctx fm R).C.alpha + i < 2 * (L.bctx fm R).C.nQ := by omega
    rw [hr _ this]
    exact G.lt61Q _ (hlen' _ this)

/-- A literal with Q and QMul of different lengths is rejected. -/
theorem length_mismatch {L : BLit} (h : L.Q.length ≠ L.QMul.length) (fm : FloatModel) (R : L.Rows) :
    newBfvParams L fm R = .error (.panic "cannot NewParametersFromLiteral: length of Q & QMul is not equal") := by
  unfold newBfvParams; rw [if_pos h]; rfl

/-- A literal whose Q and QMul share a prime is rejected. -/
theorem shared_prime {L : BLit} {x : ℕ} (h1 : x ∈ L.Q) (h2 : x ∈ L.QMul) (fm : FloatModel) (R : L.Rows) :
    ∃ e, newBfvParams L fm R = .error e := by
  have hR : ¬ (ringOk L.logN (L.Q ++ L.QMul) ∧ ringOk L.logN L.P) := fun h =>
    (List.nodup_append.mp h.1.1).2.2 x h1 x h2 rfl
  unfold newBfvParams
  split_ifs <;> exact ⟨_, rfl⟩

end MKHE.C61
