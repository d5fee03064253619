import Verif.Model.Utils
import Verif.Lemmas.Const
import Mathlib.Algebra.BigOperators.Group.List.Basic

set_option autoImplicit false

/-!
# C47, C56, C57: scalar helpers (mkckks/utils.go)
-/

namespace MKHE.C47
open Finset

/-- the integer a caller passed -/
def ModArg.val : ModArg → Option ℤ
  | .uint64 n => some n
  | .int64 z => some z
  | .big z => some z
  | .other => none

/-- the values that occur: `uint64`, `int64` words -/
def ModArg.Word : ModArg → Prop
  | .uint64 n => n < 2 ^ 64
  | .int64 z => -2 ^ 63 ≤ z ∧ z < 2 ^ 63
  | _ => True

/-- **C47, interfaceMod**: for every supported type the result is a word congruent to the argument. For `uint64` and `*big.Int` it is below `q`. -/
theorem interfaceMod_congr {q : ℕ} (hq : 0 < q) (hq63 : q < 2 ^ 63) (x : ModArg) (hx : ModArg.Word x) {z : ℤ} (hz : ModArg.val x = some z) :
    ∃ w, interfaceMod q x = .ok w ∧ w < 2 ^ 64 ∧ (q : ℤ) ∣ w - z ∧ ((∀ y, x ≠ .int64 y) → w < q) := by
  have hq' : (0 : ℤ) < q := by exact_mod_cast hq
  cases x with
  | other => cases hz
  | uint64 n =>
    cases hz
    have := Nat.mod_lt n hq
    refine ⟨n % q, rfl, by omega, ?_, fun _ => this⟩
    rw [Int.natCast_mod]
    exact ⟨-(n / q), by have := Int.mul_ediv_add_emod n q; linarith⟩
  | big y =>
    cases hz
    by_cases h : z = 0
    · subst h; exact ⟨0, rfl, by norm_num, by simp, fun _ => hq⟩
    · have h0 := Int.emod_nonneg z hq'.ne'
      have h1 := Int.emod_lt_of_pos z hq'
      refine ⟨(z % q).toNat, by simp [interfaceMod, h], by omega, ?_, fun _ => by omega⟩
      rw [Int.toNat_of_nonneg h0]
      exact ⟨-(z / q), by have := Int.mul_ediv_add_emod z q; linarith⟩
  | int64 y =>
    cases hz
    obtain ⟨hl, hu⟩ := hx
    rcases lt_trichotomy z 0 with h | h | h
    · have h0 := Int.lt_tmod_of_pos z hq'
      have h1 : z.tmod q ≤ 0 := by
        have := Int.tmod_nonneg (a := -z) q (by omega)
        rw [Int.neg_tmod] at this; omega
      refine ⟨((q : ℤ) + z.tmod q).toNat, by simp [interfaceMod, h, h.le], by omega, ?_, fun H => absurd rfl (H z)⟩
      rw [Int.toNat_of_nonneg (by omega)]
      exact ⟨1 - z.tdiv q, by have := Int.mul_tdiv_add_tmod z q; linarith⟩
    · subst h; exact ⟨0, rfl, by norm_num, by simp, fun _ => hq⟩
    · refine ⟨z.toNat, by simp [interfaceMod, h], by omega, ?_, fun H => absurd rfl (H z)⟩
      rw [Int.toNat_of_nonneg h.le]; simp

/-- other types panic -/
theorem interfaceMod_other (q : ℕ) : ∃ msg, interfaceMod q .other = .error (.panic msg) := ⟨_, rfl⟩

/-- C56 is false of the code: a positive `int64` is returned unreduced, and a negative multiple of `q` gives `q`. -/
theorem interfaceMod_not_reduced {q : ℕ} (hq : 0 < q) (k : ℕ) :
    interfaceMod q (.int64 (q + k : ℕ)) = .ok (q + k) ∧ interfaceMod q (.int64 (-(q : ℤ))) = .ok q := by
  have h1 : (0 : ℤ) < ((q + k : ℕ) : ℤ) := by exact_mod_cast (by omega)
  have h2 : (-(q : ℤ)) < 0 := by omega
  refine ⟨by simp only [interfaceMod, h1, if_true, Int.toNat_natCast], ?_⟩
  simp [interfaceMod, hq]

/-- **C47, scaleUpExact**: a word at most `q`, congruent to an integer within one half (and two float64 roundings) of `n * value`; it is below `q` unless
`value` is negative and that integer is a multiple of `q`, when it is exactly `q`. -/
theorem scaleUpExact_spec (fm : FloatModel) (v n : ℚ) (hn : 0 ≤ n) {q : ℕ} (hq : 0 < q) :
    ∃ z : ℤ, |(z : ℚ) - n * v| ≤ 1 / 2 + (n * |v| + 1 / 2) * (1 / 2 ^ 51) ∧ (q : ℤ) ∣ scaleUpExact fm v n q - z ∧
      scaleUpExact fm v n q ≤ q ∧ (scaleUpExact fm v n q = q ↔ v < 0 ∧ (q : ℤ) ∣ z) := by
  have hm := Nat.mod_lt ⌊fm.rnd (fm.rnd (n * |v|) + 1 / 2)⌋₊ hq
  refine ⟨scaleInt fm v n, scaleInt_near fm v n hn, ?_, scaleUpExact_le fm v n hq, ?_⟩
  · have := scaleUpExact_res fm v n hq
    rw [← Int.cast_natCast, ZMod.intCast_eq_intCast_iff, Int.modEq_iff_dvd] at this
    rw [← Int.dvd_neg, neg_sub]; exact this
  · unfold scaleUpExact scaleInt
    dsimp only
    split_ifs with hv
    · rw [Int.dvd_neg, Int.natCast_dvd_natCast, Nat.dvd_iff_mod_eq_zero]
      simp only [hv, true_and]
      omega
    · simp only [hv, false_and, iff_false]
      omega

/-- C56 is false of the code: the constant `-1` scaled by `q` gives the word `q`. -/
theorem scaleUpExact_not_reduced (fm : FloatModel) {q : ℕ} (hq : 0 < q) (h50 : q < 2 ^ 50) : scaleUpExact fm (-1) q q = q := by
  obtain ⟨z, h1, h2, h3, h4⟩ := scaleUpExact_spec fm (-1) q (by positivity) hq
  refine h4.mpr ⟨by norm_num, ?_⟩
  have hqq : (q : ℚ) + 1 ≤ 2 ^ 50 := by exact_mod_cast h50
  have hz : z = -(q : ℤ) := by
    rw [abs_neg, abs_one, mul_one, mul_neg, mul_one, sub_neg_eq_add] at h1
    obtain ⟨a, b⟩ := abs_le.mp h1
    have c1 : (z : ℚ) + q < 1 := by linarith
    have c2 : -1 < (z : ℚ) + q := by linarith
    have c1' : z + q < 1 := by exact_mod_cast c1
    have c2' : -1 < z + q := by exact_mod_cast c2
    omega
  exact ⟨-1, by rw [hz]; ring⟩

/-- **C56 (partial).** Exactly when `interfaceMod` returns a reduced word: always, except for an `int64` that is at least `q`, or negative and a multiple
of `q`. (The full property, a word below `q` for every argument, is refuted by `interfaceMod_not_reduced`.) -/
theorem interfaceMod_reduced_partial {q : ℕ} (hq : 0 < q) (x : ModArg) {w : ℕ} (hw : interfaceMod q x = .ok w) :
    w < q ↔ ∀ y, x = .int64 y → y < q ∧ (y < 0 → ¬ (q : ℤ) ∣ y) := by
  have hq' : (0 : ℤ) < q := by exact_mod_cast hq
  cases x with
  | other => cases hw
  | uint64 n =>
    cases hw
    exact ⟨(fun _ y h => by cases h), fun _ => Nat.mod_lt n hq⟩
  | big y =>
    refine ⟨(fun _ y h => by cases h), fun _ => ?_⟩
    simp only [interfaceMod] at hw
    split_ifs at hw
    all_goals cases hw
    · have h1 := Int.emod_nonneg y hq'.ne'
      have h2 := Int.emod_lt_of_pos y hq'
      omega
    · exact hq
  | int64 y =>
    simp only [interfaceMod] at hw
    have key : (∀ y', ModArg.int64 y = .int64 y' → y' < q ∧ (y' < 0 → ¬ (q : ℤ) ∣ y')) ↔ (y < q ∧ (y < 0 → ¬ (q : ℤ) ∣ y)) :=
      ⟨fun h => h y rfl, fun h y' e => by cases e; exact h⟩
    rw [key]
    split_ifs at hw with h h'
    all_goals cases hw
    · omega
    · have h0 := Int.lt_tmod_of_pos y hq'
      have h1 : y.tmod q ≤ 0 := by
        have := Int.tmod_nonneg (a := -y) q (by omega)
        rw [Int.neg_tmod] at this; omega
      have hd : (q : ℤ) ∣ y ↔ y.tmod q = 0 := ⟨fun h => Int.tmod_eq_zero_of_dvd h, fun h => Int.dvd_of_tmod_eq_zero h⟩
      rw [hd]
      constructor
      · intro hlt
        exact ⟨by omega, fun _ h => by omega⟩
      · intro hh
        have := hh.2 h'
        omega
    · have : y = 0 := by omega
      subst this
      exact ⟨fun _ => ⟨hq', fun h => absurd h (lt_irrefl _)⟩, fun _ => hq⟩

/-- **C56 (partial).** `scaleUpExact` returns a reduced word for every non-negative constant. (For negative ones see `scaleUpExact_spec`: the word is `q`
exactly when the scaled and rounded value is a multiple of `q`, and `scaleUpExact_not_reduced` shows that this happens.) -/
theorem scaleUpExact_reduced_partial (fm : FloatModel) (v n : ℚ) (hn : 0 ≤ n) {q : ℕ} (hq : 0 < q) (hv : 0 ≤ v) : scaleUpExact fm v n q < q := by
  obtain ⟨z, -, -, h3, h4⟩ := scaleUpExact_spec fm v n hn hq
  refine lt_of_le_of_ne h3 fun h => ?_
  exact absurd (h4.mp h).1 (not_lt.mpr hv)

/-- **C47, genBigIntChain**: the prefix products; the empty slice panics. -/
theorem genBigIntChain_spec (Q : List ℕ) (h : Q ≠ []) :
    ∃ c, genBigIntChain Q = .ok c ∧ c.length = Q.length ∧ ∀ i (hi : i < c.length), c[i] = (Q.take (i + 1)).prod := by
  obtain ⟨q0, t, rfl⟩ := List.exists_cons_of_ne_nil h
  refine ⟨_, rfl, ?_, ?_⟩
  · exact (forN_inv _ _ (fun _ (c : List ℕ) => c.length = (q0 :: t).length) _ (by simp) (fun i c _ hc => by simpa using hc))
  · have H := forN_inv ((q0 :: t).length - 1) (fun c i => c.set (i + 1) ((q0 :: t).getD (i + 1) 0 * c.getD i 0))
      (fun n (c : List ℕ) => c.length = (q0 :: t).length ∧ ∀ i ≤ n, c.getD i 0 = ((q0 :: t).take (i + 1)).prod)
      ((List.replicate (q0 :: t).length 0).set 0 q0) ⟨by simp, fun i hi => by
        have : i = 0 := by omega
        subst this; simp [List.replicate_succ]⟩ (by
      rintro n c hn ⟨h1, h2⟩
      refine ⟨by simpa using h1, fun i hi => ?_⟩
      have hn' : n + 1 < (q0 :: t).length := by omega
      rw [List.getD_eq_getElem?_getD, List.getElem?_set]
      by_cases e : n + 1 = i
      · subst e
        rw [if_pos rfl, if_pos (by omega), Option.getD_some, h2 n le_rfl, List.prod_take_succ _ _ hn', mul_comm]
        congr 1
        rw [List.getD_eq_getElem?_getD, List.getElem?_eq_getElem hn', Option.getD_some]
      · rw [if_neg e, ← List.getD_eq_getElem?_getD]
        exact h2 i (by omega))
    intro i hi
    have := H.2 i (by rw [H.1] at hi; omega)
    rw [← this, List.getD_eq_getElem?_getD, List.getElem?_eq_getElem hi, Option.getD_some]

theorem genBigIntChain_empty : genBigIntChain [] = .error .indexOutOfRange := rfl

/-- **C47, GenSwitchkeysRescalingParams**: for distinct odd primes, `params[i]` is below `Q[i]` and `params[i] * P = 2^64` modulo `Q[i]`: the inverse of
`P` in Montgomery form, so that `MRed(x, params[i])` divides by `P`. -/
theorem rescalingParams_spec (Q P : List ℕ) (hQ : ∀ q ∈ Q, q.Prime ∧ Odd q ∧ q < 2 ^ 61) (hP : ∀ p ∈ P, p.Prime) (hd : ∀ q ∈ Q, q ∉ P) :
    (genSwitchkeysRescalingParams Q P).length = Q.length ∧
    ∀ i (hi : i < Q.length), ∃ w, (genSwitchkeysRescalingParams Q P)[i]? = some w ∧ w < Q[i] ∧ w * P.prod ≡ W64 [MOD Q[i]] ∧
      ∀ x < W64, mred x w Q[i] (mredParams Q[i]) < Q[i] ∧ mred x w Q[i] (mredParams Q[i]) * P.prod ≡ x [MOD Q[i]] := by
  refine ⟨by simp [genSwitchkeysRescalingParams], fun i hi => ?_⟩
  obtain ⟨hp, hodd, h61⟩ := hQ _ (List.getElem_mem hi)
  set q := Q[i] with hq
  have hPB : P.foldl (fun a p => a * p) 1 = P.prod := by
    rw [List.prod_eq_foldl]
  have hnd : ¬ q ∣ P.prod % q := by
    rw [Nat.dvd_mod_iff (dvd_refl q), hp.prime.dvd_prod_iff]
    rintro ⟨p, hpP, hdvd⟩
    have := (Nat.prime_dvd_prime_iff_eq hp (hP p hpP)).mp hdvd
    exact hd q (List.getElem_mem hi) (by rw [this]; exact hpP)
  obtain ⟨-, e⟩ := modExp_inv hp hnd
  set y := modExp (P.prod % q) (q - 2) q with hy
  have e' : y * P.prod ≡ 1 [MOD q] := ((Nat.mod_modEq P.prod q).mul_left y).symm.trans e
  refine ⟨mformW y q, ?_, mformW_lt hp.pos, ?_, fun x hx => ?_⟩
  · unfold genSwitchkeysRescalingParams
    rw [List.getElem?_map, List.getElem?_eq_getElem hi, hPB]; rfl
  · refine ((mformW_spec y q).mul_right _).trans ?_
    have := e'.mul_right W64
    rw [one_mul] at this
    rwa [mul_right_comm]
  · obtain ⟨g1, g2⟩ := mred_mform (y := y) hodd (by omega) hx
    refine ⟨g1, (g2.mul_right _).trans ?_⟩
    have := e'.mul_left x
    rw [mul_one] at this
    rwa [mul_assoc]

example := rescalingParams_spec [97, 193] [353, 449] (by intro q h; fin_cases h <;> norm_num <;> decide) (by intro q h; fin_cases h <;> norm_num)
  (by intro q h; fin_cases h <;> norm_num)

end MKHE.C47

namespace MKHE.C57

/-- `a[j][i]` -/
def get2 (a : List (List ℕ)) (j i : ℕ) : Option ℕ := a[j]?.bind fun r => r[i]?

/-- `m` rows of length `L` -/
def Rect (m L : ℕ) (a : List (List ℕ)) : Prop := a.length = m ∧ ∀ r ∈ a, r.length = L

theorem set2_ok {a : List (List ℕ)} {m L : ℕ} (H : Rect m L a) {j i : ℕ} (hj : j < m) (hi : i < L) (w : ℕ) :
    ∃ a', set2 a j i w = .ok a' ∧ Rect m L a' ∧ ∀ j' i', get2 a' j' i' = if j' = j ∧ i' = i then some w else get2 a j' i' := by
  obtain ⟨hl, hr⟩ := H
  have hj' : j < a.length := by omega
  have hri : i < a[j].length := by rw [hr _ (List.getElem_mem hj')]; exact hi
  refine ⟨a.set j (a[j].set i w), ?_, ⟨by simpa using hl, fun r h => ?_⟩, fun j' i' => ?_⟩
  · unfold set2
    rw [List.getElem?_eq_getElem hj']
    dsimp only
    rw [if_pos hri]
  · rcases List.mem_or_eq_of_mem_set h with h | rfl
    · exact hr r h
    · rw [List.length_set]; exact hr _ (List.getElem_mem hj')
  · unfold get2
    rw [List.getElem?_set]
    by_cases e : j = j'
    · subst e
      rw [if_pos rfl, if_pos hj', Option.bind_some, List.getElem?_set, List.getElem?_eq_getElem hj', Option.bind_some]
      by_cases e' : i = i'
      · subst e'; simp [hri]
      · simp [e', Ne.symm e']
    · rw [if_neg e, if_neg (fun h => e h.1.symm)]

/-- filling a column -/
theorem col_ok {a : List (List ℕ)} {m L : ℕ} (H : Rect m L a) {i n : ℕ} (hi : i < L) (hn : n ≤ m) (w : ℕ → ℕ) :
    ∃ a', Go.loop (fun c j => set2 c j i (w j)) a (List.range n) = .ok a' ∧ Rect m L a' ∧
      ∀ j' i', get2 a' j' i' = if j' < n ∧ i' = i then some (w j') else get2 a j' i' := by
  obtain ⟨a', e, h1, h2⟩ := Go.loop_inv (fun c j => set2 c j i (w j))
    (fun pre a' => Rect m L a' ∧ ∀ j' i', get2 a' j' i' = if j' ∈ pre ∧ i' = i then some (w j') else get2 a j' i') (List.range n) a
    ⟨H, fun _ _ => by simp⟩ (by
      rintro pre x suf s hl ⟨g1, g2⟩
      have hx : x < n := List.mem_range.mp (by rw [hl]; simp)
      obtain ⟨s', f1, f2, f3⟩ := set2_ok g1 (by omega : x < m) hi (w x)
      refine ⟨s', f1, f2, fun j' i' => ?_⟩
      rw [f3, g2]
      by_cases e1 : j' = x <;> by_cases e2 : i' = i <;> simp [e1, e2])
  refine ⟨a', e, h1, fun j' i' => ?_⟩
  rw [h2]; simp [List.mem_range]

/-- filling all columns -/
theorem fill_ok {a : List (List ℕ)} {m L : ℕ} (H : Rect m L a) {k n : ℕ} (hk : k ≤ L) (hn : n ≤ m) (w : ℕ → ℕ → ℕ) :
    ∃ a', Go.loop (fun c i => Go.loop (fun c j => set2 c j i (w i j)) c (List.range n)) a (List.range k) = .ok a' ∧ Rect m L a' ∧
      ∀ j' i', get2 a' j' i' = if j' < n ∧ i' < k then some (w i' j') else get2 a j' i' := by
  obtain ⟨a', e, h1, h2⟩ := Go.loop_inv (fun c i => Go.loop (fun c j => set2 c j i (w i j)) c (List.range n))
    (fun pre a' => Rect m L a' ∧ ∀ j' i', get2 a' j' i' = if j' < n ∧ i' ∈ pre then some (w i' j') else get2 a j' i') (List.range k) a
    ⟨H, fun _ _ => by simp⟩ (by
      rintro pre x suf s hl ⟨g1, g2⟩
      have hx : x < k := List.mem_range.mp (by rw [hl]; simp)
      obtain ⟨s', f1, f2, f3⟩ := col_ok g1 (by omega : x < L) hn (w x)
      refine ⟨s', f1, f2, fun j' i' => ?_⟩
      rw [f3, g2]
      by_cases e1 : j' < n <;> by_cases e2 : i' = x <;> simp [e1, e2])
  refine ⟨a', e, h1, fun j' i' => ?_⟩
  rw [h2]; simp [List.mem_range]

/-- clearing the rest of a row -/
theorem row_ok {a : List (List ℕ)} {m L : ℕ} (H : Rect m L a) {j k n : ℕ} (hj : j < m) (hk : k + n ≤ L) :
    ∃ a', Go.loop (fun c x => set2 c j (k + x) 0) a (List.range n) = .ok a' ∧ Rect m L a' ∧
      ∀ j' i', get2 a' j' i' = if j' = j ∧ k ≤ i' ∧ i' < k + n then some 0 else get2 a j' i' := by
  obtain ⟨a', e, h1, h2⟩ := Go.loop_inv (fun c x => set2 c j (k + x) 0)
    (fun pre a' => Rect m L a' ∧ ∀ j' i', get2 a' j' i' = if j' = j ∧ ∃ x ∈ pre, i' = k + x then some 0 else get2 a j' i') (List.range n) a
    ⟨H, fun _ _ => by simp⟩ (by
      rintro pre x suf s hl ⟨g1, g2⟩
      have hx : x < n := List.mem_range.mp (by rw [hl]; simp)
      obtain ⟨s', f1, f2, f3⟩ := set2_ok g1 hj (by omega : k + x < L) 0
      refine ⟨s', f1, f2, fun j' i' => ?_⟩
      rw [f3, g2]
      by_cases e1 : j' = j <;> by_cases e2 : i' = k + x
      · rw [if_pos ⟨e1, e2⟩, if_pos ⟨e1, x, by simp, e2⟩]
      · rw [if_neg (fun h => e2 h.2)]
        congr 1
        simp only [e1, true_and, List.mem_append, List.mem_singleton, eq_iff_iff]
        constructor
        · rintro ⟨y, h, h'⟩; exact ⟨y, Or.inl h, h'⟩
        · rintro ⟨y, h | h, h'⟩
          · exact ⟨y, h, h'⟩
          · rw [h] at h'; exact absurd h' e2
      · simp [e1]
      · simp [e1])
  refine ⟨a', e, h1, fun j' i' => ?_⟩
  rw [h2]
  congr 1
  simp only [List.mem_range, eq_iff_iff, and_congr_right_iff]
  intro _
  constructor
  · rintro ⟨x, h1, h2⟩; omega
  · rintro ⟨h1, h2⟩; exact ⟨i' - k, by omega, by omega⟩

theorem clearRest_ok {a : List (List ℕ)} {m L : ℕ} (H : Rect m L a) {k : ℕ} {moduli : List ℕ} (hm : moduli.length ≤ m) (hk : k ≤ L) :
    ∃ a', clearRest L k moduli a = .ok a' ∧ Rect m L a' ∧
      ∀ j' i', get2 a' j' i' = if j' < moduli.length ∧ k ≤ i' ∧ i' < L then some 0 else get2 a j' i' := by
  obtain ⟨a', e, h1, h2⟩ := Go.loop_inv (fun c i => Go.loop (fun c j => set2 c i (k + j) 0) c (List.range (L - k)))
    (fun pre a' => Rect m L a' ∧ ∀ j' i', get2 a' j' i' = if j' ∈ pre ∧ k ≤ i' ∧ i' < L then some 0 else get2 a j' i') (List.range moduli.length) a
    ⟨H, fun _ _ => by simp⟩ (by
      rintro pre x suf s hl ⟨g1, g2⟩
      have hx : x < moduli.length := List.mem_range.mp (by rw [hl]; simp)
      obtain ⟨s', f1, f2, f3⟩ := row_ok g1 (by omega : x < m) (k := k) (n := L - k) (by omega)
      refine ⟨s', f1, f2, fun j' i' => ?_⟩
      rw [f3, g2, show k + (L - k) = L by omega]
      by_cases e1 : j' = x <;> by_cases e2 : k ≤ i' ∧ i' < L <;> simp [e1, e2])
  refine ⟨a', e, h1, fun j' i' => ?_⟩
  rw [h2]; simp [List.mem_range]

/-- no value falls on the boundary of the conversion to `uint64`. With float64 this only excludes `n * |value| = 2^64`. -/
def InRange (fm : FloatModel) (n v : ℚ) : Prop := fm.rnd (fm.rnd (n * |v|) + 1 / 2) < 2 ^ 64 ∨ 2 ^ 64 < fm.rnd (n * |v|)

theorem scaleUpWord_eq {fm : FloatModel} {n v : ℚ} (h : InRange fm n v) (ovf : ℚ → ℕ) (q : ℕ) : scaleUpWord fm ovf n v q = scaleUpExact fm v n q := by
  unfold scaleUpWord scaleUpExact
  dsimp only
  by_cases hx : 2 ^ 64 < fm.rnd (n * |v|)
  · rw [if_pos hx]
  · rw [if_neg hx, if_pos (h.resolve_right hx)]

/-- **C57, scaleUpVecExact**: with enough rows of the same length `L`, at least as long as `values`, entry `i` of row `j` becomes the word
`scaleUpExact(values[i], n, moduli[j])` (congruent to the scaled and rounded value, C47), the rest of these rows is cleared, further rows are untouched. -/
theorem scaleUpVecExact_spec (fm : FloatModel) (ovf : ℚ → ℕ) (values : List ℚ) (n : ℚ) (moduli : List ℕ) {coeffs : List (List ℕ)} {m L : ℕ}
    (H : Rect m L coeffs) (hm0 : 0 < m) (hm : moduli.length ≤ m) (hv : values.length ≤ L) (hr : ∀ v ∈ values, InRange fm n v) :
    ∃ c, scaleUpVecExact fm ovf values n moduli coeffs = .ok c ∧ Rect m L c ∧
      (∀ j (hj : j < moduli.length) i (hi : i < values.length), get2 c j i = some (scaleUpExact fm values[i] n moduli[j])) ∧
      (∀ j < moduli.length, ∀ i, values.length ≤ i → i < L → get2 c j i = some 0) ∧
      ∀ j, moduli.length ≤ j → ∀ i, get2 c j i = get2 coeffs j i := by
  obtain ⟨a, e1, h1, h2⟩ := fill_ok H hv hm (fun i j => scaleUpWord fm ovf n (values.getD i 0) (moduli.getD j 0))
  have e1' : Go.loop (fun c i => scaleUpCol fm ovf n moduli i (values.getD i 0) c) coeffs (List.range values.length) = .ok a := e1
  have hw : ∀ j (hj : j < moduli.length) i (hi : i < values.length), scaleUpWord fm ovf n (values.getD i 0) (moduli.getD j 0) =
      scaleUpExact fm values[i] n moduli[j] := by
    intro j hj i hi
    rw [List.getD_eq_getElem?_getD, List.getD_eq_getElem?_getD, List.getElem?_eq_getElem hj, List.getElem?_eq_getElem hi, Option.getD_some, Option.getD_some]
    exact scaleUpWord_eq (hr _ (List.getElem_mem hi)) ovf _
  obtain ⟨r0, t, ha⟩ := List.exists_cons_of_ne_nil (show a ≠ [] by
    intro h; rw [h] at h1; have := h1.1; simp at this; omega)
  have hr0 : r0.length = L := h1.2 r0 (by rw [ha]; simp)
  unfold scaleUpVecExact
  rw [e1', bind_ok, ha]
  dsimp only
  rw [hr0, ← ha]
  by_cases hlt : values.length < L
  · rw [if_pos hlt]
    obtain ⟨c, f1, f2, f3⟩ := clearRest_ok h1 hm hv
    refine ⟨c, f1, f2, fun j hj i hi => ?_, fun j hj i h1 h2 => ?_, fun j hj i => ?_⟩
    · rw [f3, if_neg (by omega), h2, if_pos ⟨hj, hi⟩, hw j hj i hi]
    · rw [f3, if_pos ⟨hj, h1, h2⟩]
    · rw [f3, if_neg (by omega), h2, if_neg (by omega)]
  · rw [if_neg hlt]
    refine ⟨a, rfl, h1, fun j hj i hi => ?_, fun j hj i h1 h2 => by omega, fun j hj i => ?_⟩
    · rw [h2, if_pos ⟨hj, hi⟩, hw j hj i hi]
    · rw [h2, if_neg (by omega)]

/-- the boundary: for a value with `n * value = 2^64` exactly the branch with the plain conversion is taken, whose result Go does not define -/
theorem boundary (ovf : ℚ → ℕ) (q : ℕ) : scaleUpWord FloatModel.exact ovf 1 (2 ^ 64) q = ovf (2 ^ 64 + 1 / 2) % q := by
  unfold scaleUpWord FloatModel.exact
  norm_num

/-- **C57, scaleUpVecExactBigFloat**: entry `i` of row `j` becomes a word below `2 * moduli[j]`, congruent to the scaled and rounded value; for negative
values the word is never reduced (it is at least `moduli[j]`). -/
theorem scaleUpVecExactBigFloat_spec (rnd : ℚ → ℚ) {values : List ℚ} (hne : values ≠ []) (n : ℚ) {moduli : List ℕ} {coeffs : List (List ℕ)} {m L : ℕ}
    (H : Rect m L coeffs) (hm : moduli.length ≤ m) (hv : values.length ≤ L) (hpos : ∀ q ∈ moduli, 0 < q) :
    ∃ c, scaleUpVecExactBigFloat rnd values n moduli coeffs = .ok c ∧ Rect m L c ∧
      (∀ j (hj : j < moduli.length) i (hi : i < values.length), ∃ w, get2 c j i = some w ∧ (moduli[j] : ℤ) ∣ w - bigFloatInt rnd n values[i] ∧
        w < 2 * moduli[j] ∧ (moduli[j] ≤ w ↔ values[i] < 0)) ∧
      ∀ j i, moduli.length ≤ j ∨ values.length ≤ i → get2 c j i = get2 coeffs j i := by
  obtain ⟨a, e1, h1, h2⟩ := fill_ok H hv hm (fun i j => bigFloatWord rnd n (values.getD i 0) (moduli.getD j 0))
  refine ⟨a, ?_, h1, fun j hj i hi => ?_, fun j i h => ?_⟩
  · unfold scaleUpVecExactBigFloat
    obtain ⟨v0, t, ha⟩ := List.exists_cons_of_ne_nil hne
    rw [ha] at e1 ⊢
    exact e1
  · refine ⟨_, by rw [h2, if_pos ⟨hj, hi⟩], ?_⟩
    rw [List.getD_eq_getElem?_getD, List.getD_eq_getElem?_getD, List.getElem?_eq_getElem hj, List.getElem?_eq_getElem hi, Option.getD_some, Option.getD_some]
    have hq := hpos _ (List.getElem_mem hj)
    set q := moduli[j]
    have hq' : (0 : ℤ) < q := by exact_mod_cast hq
    set z := bigFloatInt rnd n values[i] with hz
    have g0 := Int.emod_nonneg z hq'.ne'
    have g1 := Int.emod_lt_of_pos z hq'
    have g2 := Int.mul_ediv_add_emod z q
    unfold bigFloatWord
    dsimp only
    rw [← hz]
    split_ifs with hneg
    · refine ⟨?_, by omega, by simp [hneg]⟩
      push_cast
      rw [Int.toNat_of_nonneg g0]
      exact ⟨1 - z / q, by linarith⟩
    · refine ⟨?_, by omega, ?_⟩
      · rw [Int.toNat_of_nonneg g0]
        exact ⟨- (z / q), by linarith⟩
      · simp only [hneg, iff_false]; omega
  · rw [h2, if_neg (by omega)]

/-- the integer is the nearest one, when nothing is lost to the precision -/
theorem bigFloatInt_near (n v : ℚ) (hn : 0 ≤ n) : |(bigFloatInt id n v : ℚ) - n * v| ≤ 1 / 2 := by
  unfold bigFloatInt truncInt
  simp only [id]
  split_ifs with h1 h2 h2
  · have a := Int.ceil_lt_add_one (n * v - 1 / 2)
    have b := Int.le_ceil (n * v - 1 / 2)
    rw [abs_le]; constructor <;> linarith
  · have : n * v ≤ 0 := mul_nonpos_of_nonneg_of_nonpos hn h1.le
    linarith
  · have : 0 ≤ n * v := mul_nonneg hn (not_lt.mp h1)
    linarith
  · have a := Int.floor_le (n * v + 1 / 2)
    have b := Int.lt_floor_add_one (n * v + 1 / 2)
    rw [abs_le]; constructor <;> linarith

/-- the hypotheses are met: two values, two moduli, three rows of length 4 -/
example (ovf : ℚ → ℕ) := scaleUpVecExact_spec FloatModel.exact ovf [3 / 2, -7] 8 [97, 193] (coeffs := List.replicate 3 (List.replicate 4 5)) (m := 3) (L := 4)
  ⟨by simp, by simp⟩ (by norm_num) (by decide) (by decide) (by
    intro v hv
    fin_cases hv <;> refine Or.inl ?_ <;> simp [FloatModel.exact, abs_of_nonneg, abs_of_neg] <;> norm_num)
example := scaleUpVecExactBigFloat_spec id (values := [3 / 2, -7]) (by simp) 8 (moduli := [97, 193]) (coeffs := List.replicate 3 (List.replicate 4 5))
  (m := 3) (L := 4) ⟨by simp, by simp⟩ (by decide) (by decide) (by decide)

end MKHE.C57
