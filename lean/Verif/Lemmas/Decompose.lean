import Verif.Lemmas.ModUpDown

set_option autoImplicit false

/-!
# Specification of DecomposeAndSplit, one coefficient
-/

namespace MKHE
open Finset

/-- the number of primes of block `beta` at level `levelQ` -/
def blockLen (levelQ alpha beta : ℕ) : ℕ := min (levelQ + 1) (alpha * (beta + 1)) - alpha * beta

/-- the parameters looked up by DecomposeAndSplit exist and are those of the block -/
theorem decomposerParams_lookup (fm : FloatModel) (nQ : ℕ) (Q : ℕ → ℕ) (nP : ℕ) (P : ℕ → ℕ) (gamma alpha beta cnt : ℕ)
    (hg : 1 ≤ gamma) (ha : 2 ≤ alpha) (hga : gamma * alpha ≤ nP) (hnQ : nQ < 2 ^ 53) (hnP : nP < 2 ^ 53)
    (hc2 : 2 ≤ cnt) (hcalpha : cnt ≤ alpha) (hend : beta * alpha + cnt ≤ nQ) :
    ∃ pl pb, (decomposerParams fm nQ Q nP P gamma)[gamma * alpha - 2]? = some pl ∧ pl[beta]? = some pb ∧
      pb[cnt - 2]? = some (basisExtParams cnt (fun k => Q (beta * alpha + k)) (nQ + gamma * alpha) (concatMods nQ Q P)) := by
  have h2 : 2 ≤ gamma * alpha := le_trans ha (Nat.le_mul_of_pos_left _ hg)
  have hgle : gamma ≤ nP := le_trans (Nat.le_mul_of_pos_right _ (by omega)) hga
  have hale : alpha ≤ nP := le_trans (Nat.le_mul_of_pos_left _ hg) hga
  have hlen : gamma * alpha - 2 + 2 = gamma * alpha := by omega
  have halpha : FloatModel.ceilInt (fm.div (fm.ofNat (gamma * alpha - 2 + 2)) (fm.ofNat gamma)) = alpha := by
    rw [hlen, fm.ceil_div_exact _ _ (by omega) (by omega) (by omega)]
    rw [Nat.add_sub_assoc hg, Nat.mul_add_div (by omega), Nat.div_eq_of_lt (by omega : gamma - 1 < gamma), Nat.add_zero]
  have hbeta : FloatModel.ceilInt (fm.div (fm.ofNat nQ) (fm.ofNat alpha)) = (nQ + alpha - 1) / alpha :=
    fm.ceil_div_exact _ _ hnQ (by omega) (by omega)
  refine ⟨?pl, ?pb, ?_, ?_, ?_⟩
  rotate_left 2
  · unfold decomposerParams
    rw [List.getElem?_map, List.getElem?_range (by omega), Option.map_some]
  · simp only [halpha, hbeta]
    have hb : beta < (nQ + alpha - 1) / alpha := by
      have : beta + 1 ≤ (nQ + alpha - 1) / alpha := by
        rw [Nat.le_div_iff_mul_le (by omega), Nat.add_mul, Nat.one_mul]; omega
      omega
    rw [List.getElem?_map, List.getElem?_range hb, Option.map_some]
  · rw [hlen]
    have hx : cnt - 2 < (if nQ % alpha ≠ 0 ∧ beta = (nQ + alpha - 1) / alpha - 1 then nQ % alpha else alpha) - 1 := by
      split
      · rename_i h
        obtain ⟨h1, h3⟩ := h
        have hdm := Nat.div_add_mod nQ alpha
        have hlt := Nat.mod_lt nQ (by omega : alpha > 0)
        have hq : (nQ + alpha - 1) / alpha = nQ / alpha + 1 := by
          rw [Nat.div_eq_iff (by omega), Nat.add_mul, Nat.mul_comm (nQ / alpha)]; omega
        have hbe : beta = nQ / alpha := by rw [h3, hq]; rfl
        have : beta * alpha = alpha * (nQ / alpha) := by rw [hbe, Nat.mul_comm]
        omega
      · omega
    rw [List.getElem?_map, List.getElem?_range hx, Option.map_some]
    have : cnt - 2 + 2 = cnt := by omega
    rw [this]

theorem blockLen_pos {levelQ alpha beta : ℕ} (hb : beta * alpha ≤ levelQ) (ha : 1 ≤ alpha) :
    1 ≤ blockLen levelQ alpha beta ∧ blockLen levelQ alpha beta ≤ alpha ∧
      beta * alpha + blockLen levelQ alpha beta ≤ levelQ + 1 := by
  unfold blockLen
  have e1 : alpha * (beta + 1) = beta * alpha + alpha := by ring
  have e2 : alpha * beta = beta * alpha := Nat.mul_comm _ _
  rw [e1, e2]
  omega

theorem decompose_cnt {levelQ alpha beta : ℕ} (hb : beta * alpha ≤ levelQ) (ha : 1 ≤ alpha) :
    (if levelQ + 1 > alpha * (beta + 1) then alpha else levelQ % alpha + 1) = blockLen levelQ alpha beta := by
  unfold blockLen
  have e1 : alpha * (beta + 1) = alpha * beta + alpha := by ring
  have e2 : alpha * beta = beta * alpha := Nat.mul_comm _ _
  split
  · omega
  · have h3 : levelQ = alpha * beta + (levelQ - alpha * beta) := by omega
    have h4 : levelQ % alpha = levelQ - alpha * beta := by
      conv_lhs => rw [h3]
      rw [Nat.mul_add_mod, Nat.mod_eq_of_lt (by omega)]
    rw [h4]; omega

/-- what a word of the decomposed polynomial is allowed to be -/
def RepD (r : ℕ) (D : ℤ) (p : ℕ) : Prop := (r : ℤ) ≡ D [ZMOD p] ∧ r < 2 ^ 63

theorem Rep3.repD {r : ℕ} {X : ℤ} {p : ℕ} (h : Rep3 r X p) (hp : p < 2 ^ 61) : RepD r X p :=
  ⟨h.1, by have := h.2; omega⟩

theorem decompose_uniform (fm : FloatModel) (nQ : ℕ) (Q : ℕ → ℕ) (nP : ℕ) (P : ℕ → ℕ) (levelQ levelP alpha beta gamma : ℕ)
    (h : GoodPair nQ Q nP P) (hg : 1 ≤ gamma) (ha : 1 ≤ alpha) (hga : gamma * alpha ≤ nP)
    (hlP : levelP < gamma * alpha ∨ (alpha = 1 ∧ levelP < nP))
    (hnQ : nQ < 2 ^ 53) (hnP : nP < 2 ^ 53) (hlQ : levelQ < nQ) (hb : beta * alpha ≤ levelQ)
    (h32 : alpha ≤ 32) (hs : ∑ k ∈ range (blockLen levelQ alpha beta), Q (beta * alpha + k) ≤ W64)
    (a : ℕ → ℕ) (hain : ∀ i ≤ levelQ, a i ≤ Q i) :
    ∃ D : ℤ, (∀ i < blockLen levelQ alpha beta, D ≡ a (beta * alpha + i) [ZMOD Q (beta * alpha + i)]) ∧
      NearRange D (mprod (blockLen levelQ alpha beta) fun k => Q (beta * alpha + k)) ∧
      ∃ gQ gP, (∀ outQ outP, decomposeAndSplit fm nQ Q nP P levelQ levelP alpha beta gamma a outQ outP =
          .ok (overlay (levelQ + 1) gQ outQ, overlay (levelP + 1) gP outP)) ∧
        (∀ i ≤ levelQ, RepD (gQ i) D (Q i)) ∧ (∀ j ≤ levelP, RepD (gP j) D (P j)) := by
  obtain ⟨hl1, hl2, hl3⟩ := blockLen_pos hb ha
  set cnt := blockLen levelQ alpha beta with hcnt
  unfold decomposeAndSplit
  simp only [decompose_cnt hb ha, ← hcnt]
  by_cases hc : cnt = 1
  · have hst : beta * alpha ≤ levelQ := hb
    simp only [if_pos hc]
    refine ⟨a (beta * alpha), ?_, ?_, fun _ => a (beta * alpha), fun _ => a (beta * alpha), fun _ _ => rfl, ?_, ?_⟩
    · intro i hi; have : i = 0 := by omega
      subst this; exact Int.ModEq.refl _
    · have h1 := hain _ hst
      rw [hc]
      have : (mprod 1 fun k => Q (beta * alpha + k)) = Q (beta * alpha) := by simp [mprod]
      rw [this]
      constructor
      · have : (0 : ℤ) ≤ a (beta * alpha) := by positivity
        have : (0 : ℤ) ≤ Q (beta * alpha) := by positivity
        linarith
      · have : (a (beta * alpha) : ℤ) ≤ Q (beta * alpha) := by exact_mod_cast h1
        have : (0 : ℤ) ≤ Q (beta * alpha) := by positivity
        linarith
    · intro i hi
      have := hain _ hst
      have := h.lt61Q (beta * alpha) (by omega)
      exact ⟨Int.ModEq.refl _, by show a (beta * alpha) < 2 ^ 63; omega⟩
    · intro i hi
      have := hain _ hst
      have := h.lt61Q (beta * alpha) (by omega)
      exact ⟨Int.ModEq.refl _, by show a (beta * alpha) < 2 ^ 63; omega⟩
  · have hlP : levelP < gamma * alpha := hlP.resolve_right (fun e => by omega)
    obtain ⟨pl, pb, p1, p2, p3⟩ := decomposerParams_lookup fm nQ Q nP P gamma alpha beta cnt hg (by omega) hga hnQ hnP
      (by omega) hl2 (by omega)
    simp only [if_neg hc, Go.idx_ok p1, Go.andThen_ok, Go.idx_ok p2, Go.idx_ok p3]
    set Qb : ℕ → ℕ := fun k => Q (beta * alpha + k) with hQb
    have hB : GoodBasis cnt Qb := h.goodBasis (beta * alpha) cnt hl1 (by omega) (by omega) hs
    obtain ⟨y, v, r1, r2, r3, r4, r5⟩ := reconstruct_spec fm cnt Qb (nQ + gamma * alpha) (concatMods nQ Q P) hB
      (fun i => a (beta * alpha + i)) (fun i hi => by
        have := hain (beta * alpha + i) (by omega)
        have := h.lt61Q (beta * alpha + i) (by omega)
        show a (beta * alpha + i) < 2 ^ 64
        omega)
    refine ⟨liftInt cnt Qb y v, r4, ⟨r5.1, r5.2⟩, ?_⟩
    simp only [r1, Go.andThen_ok]
    set pr := basisExtParams cnt Qb (nQ + gamma * alpha) (concatMods nQ Q P) with hpr
    have hQex : ∀ j < nQ, ∃ r, (Go.andThen (Go.idx pr.vtimesqmodp j) fun vt =>
      Go.andThen (Go.idx pr.qoverqimodp j) fun qo => multSum y v cnt (Q j) (mredParams (Q j)) vt qo) = .ok r ∧
        Rep3 r (liftInt cnt Qb y v) (Q j) := by
      intro j hj
      have hc : concatMods nQ Q P j = Q j := by simp [concatMods, hj]
      obtain ⟨vt, qo, r, a1, a2, a3, a4, a5⟩ := multSum_lift cnt Qb (nQ + gamma * alpha) (concatMods nQ Q P) hB y v r2 r3 j
        (by omega) (by rw [hc]; exact h.goodMod j hj)
      rw [hc] at a3 a4 a5
      exact ⟨r, by rw [Go.idx_ok a1, Go.andThen_ok, Go.idx_ok a2, Go.andThen_ok, a3], a4, a5⟩
    have hPex : ∀ j < gamma * alpha, ∃ r, (Go.andThen (Go.idx pr.vtimesqmodp (nQ + j)) fun vt =>
      Go.andThen (Go.idx pr.qoverqimodp (nQ + j)) fun qo => multSum y v cnt (P j) (mredParams (P j)) vt qo) = .ok r ∧
        Rep3 r (liftInt cnt Qb y v) (P j) := by
      intro j hj
      have hc : concatMods nQ Q P (nQ + j) = P j := by simp [concatMods]
      obtain ⟨vt, qo, r, a1, a2, a3, a4, a5⟩ := multSum_lift cnt Qb (nQ + gamma * alpha) (concatMods nQ Q P) hB y v r2 r3
        (nQ + j) (by omega) (by rw [hc]; exact h.symm.goodMod j (by omega))
      rw [hc] at a3 a4 a5
      exact ⟨r, by rw [Go.idx_ok a1, Go.andThen_ok, Go.idx_ok a2, Go.andThen_ok, a3], a4, a5⟩
    choose! g hg1 hg2 using hQex
    choose! k hk1 hk2 using hPex
    refine ⟨g, k, ?_, fun i hi => (hg2 i (by omega)).repD (h.lt61Q i (by omega)),
      fun j hj => (hk2 j (by omega)).repD (h.lt61P j (by omega))⟩
    intro outQ outP
    rw [Go.fill_ok _ g _ _ (fun j hj => hg1 j (by have := List.mem_range.mp hj; omega)), Go.andThen_ok]
    rw [Go.fill_ok _ g _ _ (fun j hj => hg1 j (by have := List.mem_range.mp (List.mem_of_mem_filter hj); omega)), Go.andThen_ok]
    rw [Go.fill_ok _ k _ _ (fun j hj => hk1 j (by have := List.mem_range.mp hj; omega)), Go.andThen_ok]
    have e2 : alpha * beta = beta * alpha := Nat.mul_comm _ _
    congr 2
    · funext i
      by_cases hi : i < levelQ + 1
      · rw [overlay_lt _ _ hi]
        by_cases hi2 : alpha * beta ≤ i
        · rw [if_pos (by simp [hi2]; omega)]
        · rw [if_neg (by simp [hi2]), if_pos (by simp; omega)]
      · rw [overlay_ge _ _ (by omega), if_neg (by simp; omega), if_neg (by simp; omega), if_neg (by omega)]
    · funext j
      simp only [List.mem_range, overlay]

theorem decompose_spec (fm : FloatModel) (nQ : ℕ) (Q : ℕ → ℕ) (nP : ℕ) (P : ℕ → ℕ) (levelQ levelP alpha beta gamma : ℕ)
    (h : GoodPair nQ Q nP P) (hg : 1 ≤ gamma) (ha : 1 ≤ alpha) (hga : gamma * alpha ≤ nP)
    (hlP : levelP < gamma * alpha ∨ (alpha = 1 ∧ levelP < nP))
    (hnQ : nQ < 2 ^ 53) (hnP : nP < 2 ^ 53) (hlQ : levelQ < nQ) (hb : beta * alpha ≤ levelQ)
    (h32 : alpha ≤ 32) (hs : ∑ k ∈ range (blockLen levelQ alpha beta), Q (beta * alpha + k) ≤ W64)
    (a outQ outP : ℕ → ℕ) (hain : ∀ i ≤ levelQ, a i ≤ Q i) :
    ∃ D : ℤ, (∀ i < blockLen levelQ alpha beta, D ≡ a (beta * alpha + i) [ZMOD Q (beta * alpha + i)]) ∧
      NearRange D (mprod (blockLen levelQ alpha beta) fun k => Q (beta * alpha + k)) ∧
      ∃ oQ oP, decomposeAndSplit fm nQ Q nP P levelQ levelP alpha beta gamma a outQ outP = .ok (oQ, oP) ∧
        (∀ i ≤ levelQ, RepD (oQ i) D (Q i)) ∧ (∀ j ≤ levelP, RepD (oP j) D (P j)) ∧
        (∀ i, levelQ < i → oQ i = outQ i) ∧ (∀ j, levelP < j → oP j = outP j) := by
  obtain ⟨D, h1, h2, gQ, gP, h3, h4, h5⟩ := decompose_uniform fm nQ Q nP P levelQ levelP alpha beta gamma h hg ha hga hlP
    hnQ hnP hlQ hb h32 hs a hain
  refine ⟨D, h1, h2, _, _, h3 outQ outP, fun i hi => ?_, fun i hi => ?_, fun i hi => overlay_ge _ _ (by omega),
    fun i hi => overlay_ge _ _ (by omega)⟩
  · rw [overlay_lt _ _ (by omega)]; exact h4 i hi
  · rw [overlay_lt _ _ (by omega)]; exact h5 i hi

/-- if gamma does not divide the number of special primes, a block of at least two primes makes the decomposer index out
of range -/
theorem decompose_fault (fm : FloatModel) (nQ : ℕ) (Q : ℕ → ℕ) (nP : ℕ) (P : ℕ → ℕ) (levelQ levelP alpha beta gamma : ℕ)
    (h : GoodPair nQ Q nP P) (hg : 1 ≤ gamma) (ha : 1 ≤ alpha) (hga : gamma * alpha ≤ nP)
    (hlP : gamma * alpha ≤ levelP)
    (hnQ : nQ < 2 ^ 53) (hnP : nP < 2 ^ 53) (hlQ : levelQ < nQ) (hb : beta * alpha ≤ levelQ)
    (h32 : alpha ≤ 32) (hs : ∑ k ∈ range (blockLen levelQ alpha beta), Q (beta * alpha + k) ≤ W64)
    (hcnt2 : 2 ≤ blockLen levelQ alpha beta)
    (a outQ outP : ℕ → ℕ) (hain : ∀ i ≤ levelQ, a i ≤ Q i) :
    decomposeAndSplit fm nQ Q nP P levelQ levelP alpha beta gamma a outQ outP = .error .indexOutOfRange := by
  obtain ⟨hl1, hl2, hl3⟩ := blockLen_pos hb ha
  set cnt := blockLen levelQ alpha beta with hcnt
  unfold decomposeAndSplit
  simp only [decompose_cnt hb ha, ← hcnt]
  have hc : cnt ≠ 1 := by omega
  obtain ⟨pl, pb, p1, p2, p3⟩ := decomposerParams_lookup fm nQ Q nP P gamma alpha beta cnt hg (by omega) hga hnQ hnP
    (by omega) hl2 (by omega)
  simp only [if_neg hc, Go.idx_ok p1, Go.andThen_ok, Go.idx_ok p2, Go.idx_ok p3]
  set Qb : ℕ → ℕ := fun k => Q (beta * alpha + k) with hQb
  have hB : GoodBasis cnt Qb := h.goodBasis (beta * alpha) cnt hl1 (by omega) (by omega) hs
  obtain ⟨y, v, r1, r2, r3, r4, r5⟩ := reconstruct_spec fm cnt Qb (nQ + gamma * alpha) (concatMods nQ Q P) hB
    (fun i => a (beta * alpha + i)) (fun i hi => by
      have := hain (beta * alpha + i) (by omega)
      have := h.lt61Q (beta * alpha + i) (by omega)
      show a (beta * alpha + i) < 2 ^ 64
      omega)
  simp only [r1, Go.andThen_ok]
  set pr := basisExtParams cnt Qb (nQ + gamma * alpha) (concatMods nQ Q P) with hpr
  have hQex : ∀ j < nQ, ∃ r, (Go.andThen (Go.idx pr.vtimesqmodp j) fun vt =>
    Go.andThen (Go.idx pr.qoverqimodp j) fun qo => multSum y v cnt (Q j) (mredParams (Q j)) vt qo) = .ok r := by
    intro j hj
    have hc : concatMods nQ Q P j = Q j := by simp [concatMods, hj]
    obtain ⟨vt, qo, r, a1, a2, a3, a4, a5⟩ := multSum_lift cnt Qb (nQ + gamma * alpha) (concatMods nQ Q P) hB y v r2 r3 j
      (by omega) (by rw [hc]; exact h.goodMod j hj)
    rw [hc] at a3 a4 a5
    exact ⟨r, by rw [Go.idx_ok a1, Go.andThen_ok, Go.idx_ok a2, Go.andThen_ok, a3]⟩
  have hPex : ∀ j < gamma * alpha, ∃ r, (Go.andThen (Go.idx pr.vtimesqmodp (nQ + j)) fun vt =>
    Go.andThen (Go.idx pr.qoverqimodp (nQ + j)) fun qo => multSum y v cnt (P j) (mredParams (P j)) vt qo) = .ok r := by
    intro j hj
    have hc : concatMods nQ Q P (nQ + j) = P j := by simp [concatMods]
    obtain ⟨vt, qo, r, a1, a2, a3, a4, a5⟩ := multSum_lift cnt Qb (nQ + gamma * alpha) (concatMods nQ Q P) hB y v r2 r3
      (nQ + j) (by omega) (by rw [hc]; exact h.symm.goodMod j (by omega))
    rw [hc] at a3 a4 a5
    exact ⟨r, by rw [Go.idx_ok a1, Go.andThen_ok, Go.idx_ok a2, Go.andThen_ok, a3]⟩
  choose! g hg1 using hQex
  choose! k hk1 using hPex
  rw [Go.fill_ok _ g _ _ (fun j hj => hg1 j (by have := List.mem_range.mp hj; omega)), Go.andThen_ok]
  rw [Go.fill_ok _ g _ _ (fun j hj => hg1 j (by have := List.mem_range.mp (List.mem_of_mem_filter hj); omega)), Go.andThen_ok]
  -- the loop over the special primes reaches the missing row
  have hsplit : ∃ l2, List.range (levelP + 1) = List.range (gamma * alpha) ++ ((gamma * alpha) :: l2) := by
    have e : levelP + 1 = gamma * alpha + ((levelP - gamma * alpha) + 1) := by omega
    rw [e, List.range_add, List.range_succ_eq_map, List.map_cons, Nat.add_zero]
    exact ⟨_, rfl⟩
  obtain ⟨l2, hsplit⟩ := hsplit
  have hloop : ∀ (f : ℕ → Go ℕ) (s : ℕ → ℕ) (l1 l2 : List ℕ) (x : ℕ) (gg : ℕ → ℕ) (e : Fault),
      (∀ j ∈ l1, f j = .ok (gg j)) → f x = .error e → Go.fill f s (l1 ++ x :: l2) = .error e := by
    intro f s l1 l2 x gg e h1 h2
    unfold Go.fill
    induction l1 generalizing s with
    | nil => rw [List.nil_append, Go.loop_cons, h2]; rfl
    | cons z l1 ih =>
      rw [List.cons_append, Go.loop_cons, h1 z List.mem_cons_self]
      exact ih _ fun j hj => h1 j (List.mem_cons_of_mem _ hj)
  rw [hsplit, hloop _ _ _ _ _ k .indexOutOfRange (fun j hj => hk1 j (List.mem_range.mp hj)) ?_]
  · rfl
  · rw [Go.idx_none]
    · rfl
    · rw [hpr]; simp [basisExtParams]

end MKHE
