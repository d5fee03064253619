import Mathlib.NumberTheory.LucasPrimality
import Mathlib.Tactic.NormNum.Prime

set_option autoImplicit false

/-!
# Primality of the moduli of the parameter set PN14QP433 (cnn/cnn_test.go:80-97)

Lucas' test with the factorizations of `p - 1`, and `2^15`-th roots of unity.
-/

namespace MKHE.PN14

/-- `a^e mod m` by repeated squaring, `k` bits of `e` -/
def powMod (m : ℕ) : ℕ → ℕ → ℕ → ℕ
  | 0, _, _ => 1 % m
  | k + 1, a, e => if e % 2 = 1 then a * powMod m k (a * a % m) (e / 2) % m else powMod m k (a * a % m) (e / 2)

theorem powMod_eq (m : ℕ) : ∀ k a e, e < 2 ^ k → powMod m k a e = a ^ e % m
  | 0, a, e, h => by
    have : e = 0 := by simpa using h
    subst this; rfl
  | k + 1, a, e, h => by
    have h' : e / 2 < 2 ^ k := by rw [pow_succ] at h; omega
    have ih := powMod_eq m k (a * a % m) (e / 2) h'
    have e1 : (a * a % m) ^ (e / 2) % m = a ^ (2 * (e / 2)) % m := by rw [← Nat.pow_mod, ← pow_two, ← pow_mul]
    unfold powMod
    split_ifs with h2
    · rw [ih, e1, Nat.mul_mod, Nat.mod_mod, ← Nat.mul_mod, ← pow_succ']
      congr 2; omega
    · rw [ih, e1]
      congr 2; omega

theorem cast_pow_ne {p g e : ℕ} (hp : 1 < p) (h : g ^ e % p ≠ 1) : (g : ZMod p) ^ e ≠ 1 := by
  intro h1
  apply h
  have h2 : ((g ^ e : ℕ) : ZMod p) = ((1 : ℕ) : ZMod p) := by push_cast; exact h1
  have h3 := (ZMod.natCast_eq_natCast_iff' _ _ _).mp h2
  rwa [Nat.mod_eq_of_lt hp] at h3

/-- Lucas' test with the factorization of `p - 1` given -/
theorem prime_of_lucas {p : ℕ} (g e : ℕ) (fs : List ℕ) (hp : 1 < p) (h64 : p < 2 ^ 64) (h1 : powMod p 64 g (p - 1) = 1) (h : p - 1 = 2 ^ e * fs.prod)
    (h2 : powMod p 64 g ((p - 1) / 2) ≠ 1) (hfs : ∀ f ∈ fs, f.Prime) (hg : ∀ f ∈ fs, powMod p 64 g ((p - 1) / f) ≠ 1) : p.Prime := by
  have hlt : ∀ f, (p - 1) / f < 2 ^ 64 := fun f => lt_of_le_of_lt (Nat.div_le_self _ _) (by omega)
  rw [powMod_eq _ _ _ _ (by omega)] at h1
  rw [powMod_eq _ _ _ _ (hlt 2)] at h2
  refine lucas_primality p (g : ZMod p) ?_ fun r hr hd => ?_
  · have : ((g ^ (p - 1) : ℕ) : ZMod p) = ((1 : ℕ) : ZMod p) :=
      (ZMod.natCast_eq_natCast_iff' _ _ _).mpr (by rw [h1, Nat.mod_eq_of_lt hp])
    exact_mod_cast this
  · rw [h] at hd
    rcases (Nat.Prime.dvd_mul hr).mp hd with hd | hd
    · have := (Nat.prime_dvd_prime_iff_eq hr Nat.prime_two).mp (hr.dvd_of_dvd_pow hd)
      subst this
      exact cast_pow_ne hp h2
    · obtain ⟨f, hf, hd⟩ := (Prime.dvd_prod_iff hr.prime).mp hd
      have := (Nat.prime_dvd_prime_iff_eq hr (hfs f hf)).mp hd
      subst this
      have := hg r hf
      rw [powMod_eq _ _ _ _ (hlt r)] at this
      exact cast_pow_ne hp this

theorem root_of_nat {p z n : ℕ} (hp : 1 < p) (hn : n < 2 ^ 16) (h : powMod p 16 z n = p - 1) : (z : ZMod p) ^ n = -1 := by
  rw [powMod_eq _ _ _ _ hn] at h
  have h2 : ((z ^ n : ℕ) : ZMod p) = ((p - 1 : ℕ) : ZMod p) :=
    (ZMod.natCast_eq_natCast_iff' _ _ _).mpr (by rw [h, Nat.mod_eq_of_lt (by omega)])
  rw [Nat.cast_sub (by omega), ZMod.natCast_self] at h2
  push_cast at h2
  rw [h2]; ring

theorem prime_big : (6373980451 : ℕ).Prime :=
  prime_of_lucas 2 1 [3, 3, 3, 5, 5, 4721467] (by norm_num) (by norm_num) (by decide +kernel) (by norm_num) (by decide +kernel)
    (by simp only [List.forall_mem_cons, List.not_mem_nil, false_imp_iff, implies_true, and_true]; norm_num) (by decide +kernel)

theorem prime_big' : (1073741909 : ℕ).Prime :=
  prime_of_lucas 2 2 [19, 101, 139883] (by norm_num) (by norm_num) (by decide +kernel) (by norm_num) (by decide +kernel)
    (by simp only [List.forall_mem_cons, List.not_mem_nil, false_imp_iff, implies_true, and_true]; norm_num) (by decide +kernel)

theorem prime_q0 : (144115188078673921 : ℕ).Prime :=
  prime_of_lucas 11 16 [3, 5, 23, 6373980451] (by norm_num) (by norm_num) (by decide +kernel) (by norm_num) (by decide +kernel)
    (by simp only [List.forall_mem_cons, List.not_mem_nil, false_imp_iff, implies_true, and_true]; exact ⟨by norm_num, by norm_num, by norm_num, prime_big⟩) (by decide +kernel)

theorem root_q0 : ((112999938413243253 : ℕ) : ZMod 144115188078673921) ^ 16384 = -1 := root_of_nat (by norm_num) (by norm_num) (by decide +kernel)

theorem prime_q1 : (140737488486401 : ℕ).Prime :=
  prime_of_lucas 6 17 [5, 5, 13, 41, 61, 1321] (by norm_num) (by norm_num) (by decide +kernel) (by norm_num) (by decide +kernel)
    (by simp only [List.forall_mem_cons, List.not_mem_nil, false_imp_iff, implies_true, and_true]; norm_num) (by decide +kernel)

theorem root_q1 : ((43136699337964 : ℕ) : ZMod 140737488486401) ^ 16384 = -1 := root_of_nat (by norm_num) (by norm_num) (by decide +kernel)

theorem prime_q2 : (140737490976769 : ℕ).Prime :=
  prime_of_lucas 13 19 [3, 7, 23, 555767] (by norm_num) (by norm_num) (by decide +kernel) (by norm_num) (by decide +kernel)
    (by simp only [List.forall_mem_cons, List.not_mem_nil, false_imp_iff, implies_true, and_true]; norm_num) (by decide +kernel)

theorem root_q2 : ((54359299500977 : ℕ) : ZMod 140737490976769) ^ 16384 = -1 := root_of_nat (by norm_num) (by norm_num) (by decide +kernel)

theorem prime_q3 : (140737493729281 : ℕ).Prime :=
  prime_of_lucas 13 17 [3, 5, 7, 10226113] (by norm_num) (by norm_num) (by decide +kernel) (by norm_num) (by decide +kernel)
    (by simp only [List.forall_mem_cons, List.not_mem_nil, false_imp_iff, implies_true, and_true]; norm_num) (by decide +kernel)

theorem root_q3 : ((110017044743481 : ℕ) : ZMod 140737493729281) ^ 16384 = -1 := root_of_nat (by norm_num) (by norm_num) (by decide +kernel)

theorem prime_q4 : (140737496154113 : ℕ).Prime :=
  prime_of_lucas 3 16 [11, 13, 127, 118247] (by norm_num) (by norm_num) (by decide +kernel) (by norm_num) (by decide +kernel)
    (by simp only [List.forall_mem_cons, List.not_mem_nil, false_imp_iff, implies_true, and_true]; norm_num) (by decide +kernel)

theorem root_q4 : ((39614246088598 : ℕ) : ZMod 140737496154113) ^ 16384 = -1 := root_of_nat (by norm_num) (by norm_num) (by decide +kernel)

theorem prime_q5 : (140737499496449 : ℕ).Prime :=
  prime_of_lucas 3 17 [1073741909] (by norm_num) (by norm_num) (by decide +kernel) (by norm_num) (by decide +kernel)
    (by simp only [List.forall_mem_cons, List.not_mem_nil, false_imp_iff, implies_true, and_true]; exact prime_big') (by decide +kernel)

theorem root_q5 : ((121288312402916 : ℕ) : ZMod 140737499496449) ^ 16384 = -1 := root_of_nat (by norm_num) (by norm_num) (by decide +kernel)

theorem prime_q6 : (140737499693057 : ℕ).Prime :=
  prime_of_lucas 3 16 [7, 71, 4320893] (by norm_num) (by norm_num) (by decide +kernel) (by norm_num) (by decide +kernel)
    (by simp only [List.forall_mem_cons, List.not_mem_nil, false_imp_iff, implies_true, and_true]; norm_num) (by decide +kernel)

theorem root_q6 : ((58182432944569 : ℕ) : ZMod 140737499693057) ^ 16384 = -1 := root_of_nat (by norm_num) (by norm_num) (by decide +kernel)

theorem prime_p0 : (140737502969857 : ℕ).Prime :=
  prime_of_lucas 5 16 [3, 3, 13, 18354563] (by norm_num) (by norm_num) (by decide +kernel) (by norm_num) (by decide +kernel)
    (by simp only [List.forall_mem_cons, List.not_mem_nil, false_imp_iff, implies_true, and_true]; norm_num) (by decide +kernel)

theorem root_p0 : ((57972582327045 : ℕ) : ZMod 140737502969857) ^ 16384 = -1 := root_of_nat (by norm_num) (by norm_num) (by decide +kernel)

theorem prime_p1 : (140737504608257 : ℕ).Prime :=
  prime_of_lucas 3 19 [41, 6547207] (by norm_num) (by norm_num) (by decide +kernel) (by norm_num) (by decide +kernel)
    (by simp only [List.forall_mem_cons, List.not_mem_nil, false_imp_iff, implies_true, and_true]; norm_num) (by decide +kernel)

theorem root_p1 : ((83565438994101 : ℕ) : ZMod 140737504608257) ^ 16384 = -1 := root_of_nat (by norm_num) (by norm_num) (by decide +kernel)

end MKHE.PN14
