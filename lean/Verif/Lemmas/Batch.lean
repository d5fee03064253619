import Verif.Spec.Batch
import Verif.Base.LimbInst
import Verif.Lemmas.Slots
import Mathlib.RingTheory.ZMod.UnitsCyclic

set_option autoImplicit false

/-!
# Batched BFV messages: entries as ring homomorphisms, rotations, row exchange, and the bijection with polynomials modulo `t`
-/

namespace MKHE.Batch
open Finset Nega

variable {N t : ℕ} [NeZero N] [Fact t.Prime]

theorem expo_odd (row : Bool) (j : ℤ) : Odd (expo N row j) := by
  have h1 : 1 ≤ N := Nat.pos_of_ne_zero (NeZero.ne N)
  unfold expo
  split_ifs
  · exact Odd.mul ⟨N - 1, by omega⟩ (odd_five_pow _)
  · exact odd_five_pow _

theorem pow_mod {ψ : ZMod t} (h : IsPrimitiveRoot ψ (2 * N)) (g : ℕ) : ψ ^ g = ψ ^ (g % (2 * N)) := by
  conv_lhs => rw [← Nat.div_add_mod g (2 * N), pow_add, pow_mul ψ (2 * N), h.pow_eq_one, one_pow, one_mul]

theorem pow_odd {ψ : ZMod t} (h : IsPrimitiveRoot ψ (2 * N)) {g : ℕ} (hg : Odd g) : (ψ ^ g) ^ N = -1 := by
  obtain ⟨k, rfl⟩ := hg; exact psi_odd h k

/-- evaluation at an odd power of `ψ` -/
noncomputable def evalP {ψ : ZMod t} (h : IsPrimitiveRoot ψ (2 * N)) (g : ℕ) (hg : Odd g) : Nega N ℤ →+* ZMod t :=
  (evalAt (ψ ^ g) (pow_odd h hg)).comp (red t)

theorem evalP_apply {ψ : ZMod t} (h : IsPrimitiveRoot ψ (2 * N)) (g : ℕ) (hg : Odd g) (m : Nega N ℤ) :
    evalP h g hg m = ∑ k : Fin N, (m k : ZMod t) * ψ ^ (g * (k : ℕ)) := by
  show evalAt (ψ ^ g) (pow_odd h hg) (red t m) = _
  rw [evalAt_apply]
  exact Finset.sum_congr rfl fun k _ => by rw [← pow_mul]; rfl

theorem evalP_galois {ψ : ZMod t} (h : IsPrimitiveRoot ψ (2 * N)) (g k : ℕ) (hg : Odd g) (hk : Odd k) (m : Nega N ℤ) :
    evalP h g hg (galois k m) = evalP h (g * k) (hg.mul hk) m := by
  have h0 : evalP h g hg (galois k m) = AdjoinRoot.lift (RingHom.id _) (ψ ^ g) (by simp [pow_odd h hg]) (Nega.toQuot (galois k (red t m))) := by
    show evalAt (ψ ^ g) (pow_odd h hg) (red t (galois k m)) = _
    have e : red t (galois k m) = galois k (red t m) := (galois_map _ _ _).symm
    rw [e]; rfl
  rw [h0, toQuot_galois, evalP_apply, map_sum]
  unfold Nega.rt
  refine Finset.sum_congr rfl fun j _ => ?_
  rw [map_mul, map_pow, map_pow, AdjoinRoot.lift_of, AdjoinRoot.lift_root, ← pow_mul ψ, ← pow_mul]; rfl

theorem evalP_congr {ψ : ZMod t} (h : IsPrimitiveRoot ψ (2 * N)) {g k : ℕ} (hg : Odd g) (hk : Odd k) (e : g % (2 * N) = k % (2 * N)) (m : Nega N ℤ) :
    evalP h g hg m = evalP h k hk m := by
  have : ψ ^ g = ψ ^ k := by rw [pow_mod h g, pow_mod h k, e]
  simp only [evalP_apply, pow_mul, this]

theorem entries_eq {ψ : ZMod t} (h : IsPrimitiveRoot ψ (2 * N)) (m : Nega N ℤ) (row : Bool) (j : ℤ) :
    entries ψ m row j = evalP h (expo N row j) (expo_odd row j) m := (evalP_apply h _ _ m).symm

/-! ## operations -/

variable {ψ : ZMod t}

theorem entries_add (h : IsPrimitiveRoot ψ (2 * N)) (a b : Nega N ℤ) : entries ψ (a + b) = add (entries ψ a) (entries ψ b) := by
  funext row j
  show entries ψ (a + b) row j = entries ψ a row j + entries ψ b row j
  rw [entries_eq h, entries_eq h, entries_eq h, map_add]

theorem entries_sub (h : IsPrimitiveRoot ψ (2 * N)) (a b : Nega N ℤ) : entries ψ (a - b) = sub (entries ψ a) (entries ψ b) := by
  funext row j
  show entries ψ (a - b) row j = entries ψ a row j - entries ψ b row j
  rw [entries_eq h, entries_eq h, entries_eq h, map_sub]

theorem entries_mul (h : IsPrimitiveRoot ψ (2 * N)) (a b : Nega N ℤ) : entries ψ (a * b) = mul (entries ψ a) (entries ψ b) := by
  funext row j
  show entries ψ (a * b) row j = entries ψ a row j * entries ψ b row j
  rw [entries_eq h, entries_eq h, entries_eq h, map_mul]

theorem entries_rot {n : ℕ} (hN : N = 2 ^ n) (hn : 1 ≤ n) (h : IsPrimitiveRoot ψ (2 * N)) (r : ℤ) (a : Nega N ℤ) :
    entries ψ (galois (5 ^ C35.amount N r) a) = rotCols r (entries ψ a) := by
  funext row j
  show _ = entries ψ a row (j + r)
  rw [entries_eq h, entries_eq h, evalP_galois h _ _ _ (odd_five_pow _)]
  refine evalP_congr h _ _ ?_ a
  have key : (5 ^ col N j * 5 ^ C35.amount N r) % (2 * N) = 5 ^ col N (j + r) % (2 * N) := by
    rw [← pow_add]; exact five_pow_congr hN hn (amount_add hN hn j r)
  unfold expo
  split_ifs
  · rw [mul_assoc, Nat.mul_mod, key, ← Nat.mul_mod]
  · exact key

theorem entries_conj (h : IsPrimitiveRoot ψ (2 * N)) (a : Nega N ℤ) : entries ψ (galois (2 * N - 1) a) = swapRows (entries ψ a) := by
  have h1 : 1 ≤ N := Nat.pos_of_ne_zero (NeZero.ne N)
  have hodd : Odd (2 * N - 1) := ⟨N - 1, by omega⟩
  funext row j
  show _ = entries ψ a (!row) j
  rw [entries_eq h, entries_eq h, evalP_galois h _ _ _ hodd]
  refine evalP_congr h _ _ ?_ a
  unfold expo
  cases row
  · show 5 ^ col N j * (2 * N - 1) % (2 * N) = (2 * N - 1) * 5 ^ col N j % (2 * N)
    rw [mul_comm]
  · show (2 * N - 1) * 5 ^ col N j * (2 * N - 1) % (2 * N) = 5 ^ col N j % (2 * N)
    have h2 : (2 * N - 1) * (2 * N - 1) % (2 * N) = 1 := by
      have e : (2 * N - 1) * (2 * N - 1) = 1 + 2 * N * (2 * N - 2) := by
        obtain ⟨k, rfl⟩ : ∃ k, N = k + 1 := ⟨N - 1, by omega⟩
        rw [show 2 * (k + 1) - 1 = 2 * k + 1 by omega, show 2 * (k + 1) - 2 = 2 * k by omega]; ring
      rw [e, Nat.add_mul_mod_self_left, Nat.mod_eq_of_lt (by omega)]
    have e : (2 * N - 1) * 5 ^ col N j * (2 * N - 1) = (2 * N - 1) * (2 * N - 1) * 5 ^ col N j := by ring
    rw [e, Nat.mul_mod, h2, one_mul, Nat.mod_mod]

/-- entries depend on the coefficients modulo `t` only -/
theorem entries_congr {a b : Fin N → ℤ} (e : ∀ x, a x ≡ b x [ZMOD t]) : entries ψ a = entries ψ b := by
  funext row j
  refine Finset.sum_congr rfl fun k _ => ?_
  rw [(ZMod.intCast_eq_intCast_iff (a k) (b k) t).mpr (e k)]

/-- columns are counted modulo `N/2` -/
theorem entries_period (a : Fin N → ℤ) (row : Bool) (j : ℤ) : entries ψ a row (j + (N / 2 : ℕ)) = entries ψ a row j := by
  have : col N (j + (N / 2 : ℕ)) = col N j := by unfold col; rw [Int.add_emod_right]
  unfold entries expo; rw [this]

/-! ## every matrix is that of exactly one polynomial modulo `t` -/

theorem col_nat {n : ℕ} {j : ℕ} (hj : j < N / 2) (_ : N = 2 ^ n) : col N (j : ℤ) = j := by
  unfold col
  rw [Int.emod_eq_of_lt (by omega) (by omega)]; simp

/-- different entries belong to different powers -/
theorem expo_inj {n : ℕ} (hN : N = 2 ^ n) (hn : 1 ≤ n) {r r' : Bool} {j k : ℕ} (hj : j < N / 2) (hk : k < N / 2)
    (e : expo N r (j : ℤ) % (2 * N) = expo N r' (k : ℤ) % (2 * N)) : r = r' ∧ j = k := by
  have h1 : 1 ≤ N := Nat.pos_of_ne_zero (NeZero.ne N)
  have h4 : 4 ∣ 2 * N := by
    obtain ⟨m, rfl⟩ : ∃ m, n = m + 1 := ⟨n - 1, by omega⟩
    rw [hN, pow_succ]; exact ⟨2 ^ m, by ring⟩
  have h5 : ∀ a, 5 ^ a % 4 = 1 := fun a => by rw [Nat.pow_mod]; norm_num
  have h3 : ∀ a, (2 * N - 1) * 5 ^ a % 4 = 3 := fun a => by
    rw [Nat.mul_mod, h5]; omega
  have e4 : expo N r (j : ℤ) % 4 = expo N r' (k : ℤ) % 4 := by
    rw [← Nat.mod_mod_of_dvd _ h4, e, Nat.mod_mod_of_dvd _ h4]
  unfold expo at e e4
  rw [col_nat hj hN, col_nat hk hN] at e e4
  have hneg : ∀ a b, (2 * N - 1) * 5 ^ a % (2 * N) = (2 * N - 1) * 5 ^ b % (2 * N) → 5 ^ a % (2 * N) = 5 ^ b % (2 * N) := fun a b hab => by
    refine Nat.ModEq.cancel_left_of_coprime ?_ hab
    have : Nat.Coprime (2 * N) (2 * N - 1) := by
      rw [Nat.coprime_comm]
      have := Nat.coprime_self_add_right (m := 2 * N - 1) (n := 1)
      rw [show 2 * N - 1 + 1 = 2 * N by omega] at this
      exact this.mpr (Nat.coprime_one_right _)
    exact this
  cases r <;> cases r'
  · exact ⟨rfl, five_pow_inj hN hn hj hk e⟩
  · simp [h5, h3] at e4
  · simp [h5, h3] at e4
  · exact ⟨rfl, five_pow_inj hN hn hj hk (hneg _ _ e)⟩

/-- a polynomial modulo `t` with all entries zero is zero -/
theorem inj_zero {n : ℕ} (hN : N = 2 ^ n) (hn : 1 ≤ n) (h : IsPrimitiveRoot ψ (2 * N)) (a : Fin N → ZMod t)
    (ha : ∀ (r : Bool) (j : Fin (N / 2)), ∑ k : Fin N, a k * ψ ^ (expo N r ((j : ℕ) : ℤ) * (k : ℕ)) = 0) : a = 0 := by
  have hc : Fintype.card (Fin N) = Fintype.card (Bool × Fin (N / 2)) := by
    have : 2 * (N / 2) = N := by
      obtain ⟨m, rfl⟩ : ∃ m, n = m + 1 := ⟨n - 1, by omega⟩
      rw [hN, pow_succ]; omega
    simp [this]
  let e := Fintype.equivOfCardEq hc
  have hdet : (Matrix.vandermonde fun k : Fin N => ψ ^ expo N (e k).1 (((e k).2 : ℕ) : ℤ)).det ≠ 0 := by
    rw [Matrix.det_vandermonde_ne_zero_iff]
    intro i j hij
    have h0 : 0 < 2 * N := by have := NeZero.ne N; omega
    have h2 := h.pow_inj (Nat.mod_lt (expo N (e i).1 (((e i).2 : ℕ) : ℤ)) h0) (Nat.mod_lt (expo N (e j).1 (((e j).2 : ℕ) : ℤ)) h0)
      ((pow_mod h _).symm.trans (hij.trans (pow_mod h _)))
    obtain ⟨h3, h4⟩ := expo_inj hN hn (e i).2.2 (e j).2.2 h2
    exact e.injective (Prod.ext h3 (Fin.ext h4))
  refine Matrix.eq_zero_of_mulVec_eq_zero hdet ?_
  funext k
  have := ha (e k).1 (e k).2
  simp only [Matrix.mulVec, dotProduct, Matrix.vandermonde_apply, Pi.zero_apply]
  rw [← this]
  exact Finset.sum_congr rfl fun j _ => by rw [← pow_mul, mul_comm]

/-- the entries of residues -/
def matOf (ψ : ZMod t) (a : Fin N → ZMod t) : Bool × Fin (N / 2) → ZMod t := fun p => ∑ k : Fin N, a k * ψ ^ (expo N p.1 ((p.2 : ℕ) : ℤ) * (k : ℕ))

theorem matOf_bij {n : ℕ} (hN : N = 2 ^ n) (hn : 1 ≤ n) (h : IsPrimitiveRoot ψ (2 * N)) : Function.Bijective (matOf (N := N) ψ) := by
  have hc : Fintype.card (Bool × Fin (N / 2)) = N := by
    have : 2 * (N / 2) = N := by
      obtain ⟨m, rfl⟩ : ∃ m, n = m + 1 := ⟨n - 1, by omega⟩
      rw [hN, pow_succ]; omega
    simp [this]
  rw [Fintype.bijective_iff_injective_and_card]
  constructor
  · intro a b hab
    have := inj_zero hN hn h (a - b) fun r j => by
      have := congrFun hab (r, j)
      unfold matOf at this
      simp only [Pi.sub_apply, sub_mul, Finset.sum_sub_distrib]
      rw [sub_eq_zero]; exact this
    exact sub_eq_zero.mp this
  · rw [Fintype.card_fun, Fintype.card_fun, hc, Fintype.card_fin]

/-- **Encoding is a bijection**: every matrix is the matrix of exactly one polynomial with coefficients in `[0, t)`. -/
theorem encode_unique {n : ℕ} (hN : N = 2 ^ n) (hn : 1 ≤ n) (h : IsPrimitiveRoot ψ (2 * N)) (z : Bool → ℕ → ZMod t) :
    ∃! m : Fin N → ℤ, (∀ x, 0 ≤ m x ∧ m x < t) ∧ ∀ (row : Bool) (j : ℕ), j < N / 2 → entries ψ m row (j : ℤ) = z row j := by
  obtain ⟨i1, i2⟩ := matOf_bij hN hn h
  have ht : 0 < t := (Fact.out : t.Prime).pos
  haveI : NeZero t := ⟨ht.ne'⟩
  have link : ∀ (m : Fin N → ℤ) (r : Bool) (j : Fin (N / 2)), entries ψ m r ((j : ℕ) : ℤ) = matOf ψ (fun k => (m k : ZMod t)) (r, j) := fun _ _ _ => rfl
  obtain ⟨a, ha⟩ := i2 fun p => z p.1 p.2
  refine ⟨fun k => ((a k).val : ℤ), ⟨fun x => ⟨Int.natCast_nonneg _, Int.ofNat_lt.mpr (ZMod.val_lt (a x))⟩, fun row j hj => ?_⟩, fun m hm => ?_⟩
  · rw [link _ row ⟨j, hj⟩]
    have e : (fun k => (((a k).val : ℤ) : ZMod t)) = a := by funext k; simp
    rw [e, ha]
  · have e : (fun k => (m k : ZMod t)) = a := by
      refine i1 (funext fun p => ?_)
      rw [ha]; exact hm.2 p.1 p.2 p.2.2
    funext k
    have hk := congrFun e k
    show m k = ((a k).val : ℤ)
    rw [← hk]
    have h0 := hm.1 k
    rw [ZMod.val_intCast, Int.emod_eq_of_lt h0.1 h0.2]

/-- integer polynomials with equal matrices agree modulo `t` -/
theorem entries_injective {n : ℕ} (hN : N = 2 ^ n) (hn : 1 ≤ n) (h : IsPrimitiveRoot ψ (2 * N)) {a b : Fin N → ℤ} (e : entries ψ a = entries ψ b) (x : Fin N) :
    a x ≡ b x [ZMOD t] := by
  have := (matOf_bij hN hn h).1 (a₁ := fun k => (a k : ZMod t)) (a₂ := fun k => (b k : ZMod t)) (funext fun p => congrFun (congrFun e p.1) ((p.2 : ℕ) : ℤ))
  exact (ZMod.intCast_eq_intCast_iff (a x) (b x) t).mp (congrFun this x)

/-- a prime with `2N ∣ t - 1` has a primitive `2N`-th root of unity -/
theorem exists_root (hd : 2 * N ∣ t - 1) : ∃ ψ : ZMod t, IsPrimitiveRoot ψ (2 * N) := by
  obtain ⟨g, hg⟩ := IsCyclic.exists_ofOrder_eq_natCard (α := (ZMod t)ˣ)
  rw [Nat.card_eq_fintype_card, ZMod.card_units] at hg
  obtain ⟨c, hc⟩ := hd
  have h2 : 2 ≤ t := (Fact.out : t.Prime).two_le
  have hp : IsPrimitiveRoot g (t - 1) := hg ▸ IsPrimitiveRoot.orderOf g
  have := hp.pow (by omega) (a := c) (b := 2 * N) (by rw [hc, mul_comm])
  exact ⟨((g ^ c : (ZMod t)ˣ) : ZMod t), (IsPrimitiveRoot.coe_units_iff).mpr this⟩

end MKHE.Batch
