import Verif.Model.Utils
import Mathlib.Data.Nat.Bitwise

set_option autoImplicit false

/-!
# C48: in-place bit reversal (mkckks/utils.go:227-290)
-/

namespace MKHE.C48

/-- `r` is `i` with its `k` bits in reverse order -/
def IsRev (k i r : ℕ) : Prop := r < 2 ^ k ∧ ∀ b < k, r.testBit b = i.testBit (k - 1 - b)

/-- the reversal, lowest bit first -/
def rev : ℕ → ℕ → ℕ
  | 0, _ => 0
  | k + 1, i => i % 2 * 2 ^ k + rev k (i / 2)

theorem rev_lt (k i : ℕ) : rev k i < 2 ^ k := by
  induction k generalizing i with
  | zero => simp [rev]
  | succ k ih =>
    have := ih (i / 2)
    have h2 : i % 2 < 2 := Nat.mod_lt _ (by norm_num)
    unfold rev
    rw [pow_succ]
    interval_cases i % 2 <;> omega

theorem rev_testBit (k i b : ℕ) (hb : b < k) : (rev k i).testBit b = i.testBit (k - 1 - b) := by
  induction k generalizing i b with
  | zero => omega
  | succ k ih =>
    unfold rev
    rw [Nat.mul_comm, Nat.testBit_two_pow_mul_add _ (rev_lt k _)]
    split_ifs with h
    · rw [ih _ _ h, Nat.testBit_div_two]
      congr 1; omega
    · have : b = k := by omega
      subst this
      simp [Nat.testBit_zero]

theorem isRev_rev (k i : ℕ) : IsRev k i (rev k i) := ⟨rev_lt k i, fun b hb => rev_testBit k i b hb⟩

theorem IsRev.unique {k i r r' : ℕ} (h : IsRev k i r) (h' : IsRev k i r') : r = r' := by
  refine Nat.eq_of_testBit_eq fun b => ?_
  by_cases hb : b < k
  · rw [h.2 b hb, h'.2 b hb]
  · rw [Nat.testBit_lt_two_pow (h.1.trans_le (Nat.pow_le_pow_right (by norm_num) (by omega))),
      Nat.testBit_lt_two_pow (h'.1.trans_le (Nat.pow_le_pow_right (by norm_num) (by omega)))]

theorem rev_rev {k i : ℕ} (hi : i < 2 ^ k) : rev k (rev k i) = i := by
  refine (isRev_rev k (rev k i)).unique ⟨hi, fun b hb => ?_⟩
  rw [rev_testBit k i _ (by omega)]
  congr 1; omega

theorem rev_zero (k : ℕ) : rev k 0 = 0 := by
  induction k with
  | zero => rfl
  | succ k ih => simp [rev, ih]

/-- the inner loop turns the reversal of `i` into the reversal of `i + 1` -/
theorem revInner_spec (k i : ℕ) (hi : i + 1 < 2 ^ k) : ∃ j bit, revInner (rev k i) (2 ^ k / 2) = some (j, bit) ∧ j + bit = rev k (i + 1) := by
  induction k generalizing i with
  | zero => simp at hi
  | succ k ih =>
    have hb : 2 ^ (k + 1) / 2 = 2 ^ k := by rw [pow_succ]; omega
    have hpos : 0 < 2 ^ k := by positivity
    have hlt := rev_lt k (i / 2)
    rw [hb]
    unfold revInner
    rw [dif_neg hpos.ne']
    rcases Nat.mod_two_eq_zero_or_one i with h | h
    · have e : rev (k + 1) i = rev k (i / 2) := by
        conv_lhs => unfold rev
        rw [h]; omega
      have e' : rev (k + 1) (i + 1) = 2 ^ k + rev k (i / 2) := by
        conv_lhs => unfold rev
        rw [show (i + 1) % 2 = 1 by omega, show (i + 1) / 2 = i / 2 by omega, one_mul]
      rw [if_neg (by rw [e]; omega)]
      exact ⟨_, _, rfl, by rw [e, e']; omega⟩
    · have e : rev (k + 1) i = 2 ^ k + rev k (i / 2) := by
        conv_lhs => unfold rev
        rw [h, one_mul]
      have e' : rev (k + 1) (i + 1) = rev k (i / 2 + 1) := by
        conv_lhs => unfold rev
        rw [show (i + 1) % 2 = 0 by omega, show (i + 1) / 2 = i / 2 + 1 by omega, zero_mul, zero_add]
      rw [if_pos (by rw [e]; omega), e, Nat.add_sub_cancel_left, e']
      exact ih (i / 2) (by rw [pow_succ] at hi; omega)

variable {α : Type}

theorem swapAt_ok (s : List α) {i j : ℕ} (hi : i < s.length) (hj : j < s.length) (hne : i ≠ j) :
    ∃ s', swapAt s i j = .ok s' ∧ s'.length = s.length ∧ ∀ x, s'[x]? = if x = i then s[j]? else if x = j then s[i]? else s[x]? := by
  refine ⟨(s.set i s[j]).set j s[i], ?_, by simp, fun x => ?_⟩
  · unfold swapAt
    rw [List.getElem?_eq_getElem hi, List.getElem?_eq_getElem hj]
  · rw [List.getElem?_set, List.getElem?_set]
    simp only [List.length_set]
    split_ifs with h1 h2 h3 h4 h5 h6 <;> first | omega | (subst_vars; simp_all)

/-- **C48.** On a slice with at least `2^k` elements the function returns; element `i` is the one whose index is `i` with its `k` bits reversed, the
elements from `2^k` on stay. -/
theorem sliceBitReverse_spec (k : ℕ) (s : List α) (hs : 2 ^ k ≤ s.length) :
    ∃ s', sliceBitReverse s (2 ^ k) = .ok s' ∧ s'.length = s.length ∧ (∀ i < 2 ^ k, ∀ r, IsRev k i r → s'[i]? = s[r]?) ∧
      ∀ i, 2 ^ k ≤ i → s'[i]? = s[i]? := by
  have hpos : 0 < 2 ^ k := by positivity
  obtain ⟨w, e, h1, h2, h3, h4⟩ := Go.loop_inv (revStep (2 ^ k))
    (fun pre (w : ℕ × List α) => w.1 = rev k pre.length ∧ w.2.length = s.length ∧
      (∀ x < 2 ^ k, w.2[x]? = if min x (rev k x) ≤ pre.length then s[rev k x]? else s[x]?) ∧ ∀ x, 2 ^ k ≤ x → w.2[x]? = s[x]?)
    ((List.range (2 ^ k - 1)).map (· + 1)) (0, s) ⟨(rev_zero k).symm, rfl, fun x hx => by
      split_ifs with h
      · have : x = 0 ∨ rev k x = 0 := by rcases Nat.le_total x (rev k x) with h' | h' <;> simp [h'] at h <;> omega
        have : x = 0 := by
          rcases this with h | h
          · exact h
          · rw [← rev_rev hx, h, rev_zero]
        subst this; rw [rev_zero]
      · rfl, fun x _ => rfl⟩ (by
    rintro pre a suf w hl ⟨g1, g2, g3, g4⟩
    have hlen : pre.length + (suf.length + 1) = 2 ^ k - 1 := by
      have := congrArg List.length hl
      simp at this; omega
    have ha : a = pre.length + 1 := by
      have h := congrArg (fun l => l[pre.length]?) hl
      simp only [List.getElem?_map, List.getElem?_append_right (le_refl pre.length), Nat.sub_self, List.getElem?_cons_zero] at h
      rw [List.getElem?_range (by omega)] at h
      simpa using h.symm
    subst ha
    obtain ⟨j, bit, e1, e2⟩ := revInner_spec k pre.length (by omega)
    have hr := rev_lt k (pre.length + 1)
    have hrr : rev k (rev k (pre.length + 1)) = pre.length + 1 := rev_rev (by omega)
    unfold revStep
    rw [g1, e1]
    dsimp only
    rw [e2]
    by_cases hlt : pre.length + 1 < rev k (pre.length + 1)
    · rw [if_pos hlt]
      obtain ⟨s', f1, f2, f3⟩ := swapAt_ok w.2 (i := pre.length + 1) (j := rev k (pre.length + 1)) (by omega) (by omega) (by omega)
      rw [f1]
      refine ⟨_, rfl, by simp, by rw [f2, g2], fun x hx => ?_, fun x hx => ?_⟩
      · show s'[x]? = _
        rw [f3, List.length_append, List.length_singleton]
        by_cases c1 : x = pre.length + 1
        · subst c1
          rw [if_pos rfl, if_pos (by omega), g3 _ hr, hrr, if_neg (by omega)]
        · by_cases c2 : x = rev k (pre.length + 1)
          · rw [if_neg c1, if_pos c2, g3 _ (by omega), if_neg (by omega), c2, hrr, if_pos (by omega)]
          · rw [if_neg c1, if_neg c2, g3 x hx]
            have : rev k x ≠ pre.length + 1 := fun h => c2 (by rw [← h, rev_rev hx])
            by_cases c3 : min x (rev k x) ≤ pre.length
            · rw [if_pos c3, if_pos (by omega)]
            · rw [if_neg c3, if_neg (by omega)]
      · show s'[x]? = _
        rw [f3, if_neg (by omega), if_neg (by omega), g4 x hx]
    · rw [if_neg hlt]
      refine ⟨_, rfl, by simp, g2, fun x hx => ?_, g4⟩
      show w.2[x]? = _
      rw [g3 x hx, List.length_append, List.length_singleton]
      by_cases c3 : min x (rev k x) ≤ pre.length
      · rw [if_pos c3, if_pos (by omega)]
      · rw [if_neg c3]
        split_ifs with c4
        · have : x = pre.length + 1 ∨ rev k x = pre.length + 1 := by omega
          have hx' : rev k x = x := by
            rcases this with h | h
            · rw [h] at c3 ⊢; omega
            · have h' : x = rev k (pre.length + 1) := by rw [← h, rev_rev hx]
              omega
          rw [hx']
        · rfl)
  refine ⟨w.2, by unfold sliceBitReverse; rw [e]; rfl, h2, fun i hi r hr => ?_, h4⟩
  have hr' := hr.unique (isRev_rev k i)
  rw [h3 i hi, hr', if_pos]
  have := rev_lt k i
  simp only [List.length_map, List.length_range]
  omega

/-- **C48.** Applying it twice gives the slice back. -/
theorem sliceBitReverse_involution (k : ℕ) (s : List α) (hs : 2 ^ k ≤ s.length) :
    ∃ s', sliceBitReverse s (2 ^ k) = .ok s' ∧ sliceBitReverse s' (2 ^ k) = .ok s := by
  obtain ⟨s1, e1, l1, a1, b1⟩ := sliceBitReverse_spec k s hs
  obtain ⟨s2, e2, l2, a2, b2⟩ := sliceBitReverse_spec k s1 (by omega)
  refine ⟨s1, e1, ?_⟩
  rw [e2]
  congr 1
  refine List.ext_getElem? fun i => ?_
  by_cases hi : i < 2 ^ k
  · rw [a2 i hi _ (isRev_rev k i), a1 _ (rev_lt k i) i]
    have := isRev_rev k (rev k i)
    rwa [rev_rev hi] at this
  · rw [b2 i (by omega), b1 i (by omega)]

/-- it only permutes: the multiset of elements is the same -/
theorem sliceBitReverse_perm (k : ℕ) (s : List α) (hs : 2 ^ k ≤ s.length) : ∃ s', sliceBitReverse s (2 ^ k) = .ok s' ∧
    ∀ i < 2 ^ k, ∃ r < 2 ^ k, s'[r]? = s[i]? := by
  obtain ⟨s1, e1, l1, a1, b1⟩ := sliceBitReverse_spec k s hs
  refine ⟨s1, e1, fun i hi => ⟨rev k i, rev_lt k i, a1 _ (rev_lt k i) i ?_⟩⟩
  have := isRev_rev k (rev k i)
  rwa [rev_rev hi] at this

/-- a length that is not a power of two: with `N = 3` the inner loop does not end -/
theorem not_power (a b c : α) : sliceBitReverse [a, b, c] 3 = .error (.panic "the inner loop does not end") := by
  have h1 : revInner 0 1 = some (0, 1) := by unfold revInner; simp
  have h2 : revInner 1 1 = none := by unfold revInner; simp; unfold revInner; simp
  simp [sliceBitReverse, Go.loop_cons, revStep, h1, h2, List.range_succ]
  rfl

/-- eight elements -/
example : IsRev 3 1 4 ∧ IsRev 3 3 6 := by
  refine ⟨⟨by norm_num, ?_⟩, ⟨by norm_num, ?_⟩⟩ <;> decide
example : ∃ s', sliceBitReverse [0, 1, 2, 3, 4, 5, 6, 7] (2 ^ 3) = .ok s' ∧ sliceBitReverse s' (2 ^ 3) = .ok [0, 1, 2, 3, 4, 5, 6, 7] :=
  sliceBitReverse_involution 3 _ (by decide)

end MKHE.C48
