import Verif.Lemmas.MulRelin
import Mathlib.Algebra.BigOperators.Ring.Finset
import Mathlib.Tactic.LinearCombination
import Mathlib.Data.Nat.Prime.Int
import Mathlib.RingTheory.Coprime.Lemmas

set_option autoImplicit false

/-!
# Key equations and the algebra of relinearization
-/

namespace MKHE
open Finset Nega

variable {N : ℕ} [NeZero N] {C : Ctx N}

/-- the polynomial represented by a row in NTT and Montgomery form -/
noncomputable def LimbOps.mv {q : ℕ} (L : LimbOps N q) (a : Limb N q) : Nega N (ZMod q) := L.ev a * L.rinv

theorem LimbOps.mv_mont {q : ℕ} (L : LimbOps N q) (a : Limb N q) : L.mv a * Mont N q = L.ev a := by
  unfold mv; rw [mul_assoc, L.rinv_mul, mul_one]

/-- the factor of the gadget vector for block `k` modulo the `i`-th prime of Q: `P` in the block, `0` elsewhere -/
noncomputable def Ctx.gad (C : Ctx N) (k i : ℕ) : Nega N (ZMod (C.q i)) := if i / C.alpha = k then (C.P : Nega N (ZMod (C.q i))) else 0

/-- **Key equation.** `key_k = -sec * a_k + P*g_k*m + e_k` modulo every prime of Q and P (`P*g_k` vanishes modulo the primes
of P), for the blocks `k < n`, with errors bounded by `B`. All rows are in NTT and Montgomery form. -/
def KeyRel (C : Ctx N) (n : ℕ) (sec : Nega N ℤ) (a : ℕ → PolyQP C) (m : Nega N ℤ) (B : ℤ) (key : ℕ → PolyQP C) : Prop :=
  ∃ e : ℕ → Nega N ℤ, ∀ k < n, Bdd (e k) B ∧
    (∀ i < C.nQ, (C.RQ i).mv ((key k).Q i) =
      - red (C.q i) sec * (C.RQ i).mv ((a k).Q i) + C.gad k i * red (C.q i) m + red (C.q i) (e k)) ∧
    ∀ j < C.nP, (C.RP j).mv ((key k).P j) = - red (C.p j) sec * (C.RP j).mv ((a k).P j) + red (C.p j) (e k)

/-! ## dividing by P -/

namespace Ctx.Valid
variable (V : C.Valid)
include V

theorem P_pos : 0 < C.P := Finset.prod_pos fun j hj => (V.pair.primeP j (mem_range.mp hj)).pos

theorem coprime_P {i : ℕ} (hi : i < C.nQ) : Nat.Coprime (C.q i) C.P := by
  apply Nat.Coprime.prod_right
  intro k hk
  have := mem_range.mp hk
  exact (Nat.coprime_primes (V.pair.primeQ i hi) (V.pair.primeP k this)).mpr (V.pair.disjoint i hi k this)

theorem P_dvd (z : ℤ) (hz : ∀ j < C.nP, (C.p j : ℤ) ∣ z) : (C.P : ℤ) ∣ z := by
  unfold Ctx.P
  push_cast
  apply Finset.prod_dvd_of_coprime
  · intro a ha b hb hab
    have ha' := mem_range.mp (Finset.mem_coe.mp ha)
    have hb' := mem_range.mp (Finset.mem_coe.mp hb)
    exact Nat.isCoprime_iff_coprime.mpr ((Nat.coprime_primes (V.pair.primeP a ha') (V.pair.primeP b hb')).mpr
      fun e => hab (V.pair.distinctP a ha' b hb' e))
  · intro k hk
    exact hz k (mem_range.mp hk)

theorem P_cancel {i : ℕ} (hi : i < C.nQ) {a b : Nega N (ZMod (C.q i))}
    (h : (C.P : Nega N (ZMod (C.q i))) * a = (C.P : Nega N (ZMod (C.q i))) * b) : a = b := by
  have hu := ZMod.coe_mul_inv_eq_one C.P (V.coprime_P hi).symm
  have key : (CHom (((C.P : ℕ) : ZMod (C.q i))⁻¹) : Nega N (ZMod (C.q i))) * (C.P : Nega N (ZMod (C.q i))) = 1 := by
    rw [← map_natCast (Nega.CHom (N := N) (K := ZMod (C.q i))), ← map_mul, mul_comm, hu, map_one]
  have := congrArg ((CHom (((C.P : ℕ) : ZMod (C.q i))⁻¹) : Nega N (ZMod (C.q i))) * ·) h
  simp only [← mul_assoc, key, one_mul] at this
  exact this

/-- `P` vanishes modulo its own primes -/
theorem P_zero {j : ℕ} (hj : j < C.nP) : (C.P : Nega N (ZMod (C.p j))) = 0 := by
  have _ := V
  have : C.p j ∣ C.P := Finset.dvd_prod_of_mem _ (mem_range.mpr hj)
  apply Nega.ext; intro x
  rw [natCast_def]
  unfold Nega.C
  split
  · rw [Nega.zero_apply]; exact (ZMod.natCast_eq_zero_iff _ _).mpr this
  · rfl

/-- an integer polynomial that vanishes modulo every prime of P is a multiple of P -/
theorem exists_div (W : Nega N ℤ) (h : ∀ j < C.nP, red (C.p j) W = 0) : ∃ E : Nega N ℤ, W = (C.P : Nega N ℤ) * E := by
  have : ∀ x, (C.P : ℤ) ∣ W x := fun x => V.P_dvd _ fun j hj => (red_eq_zero_iff _ _).mp (h j hj) x
  choose E hE using this
  exact ⟨(E : Nega N ℤ), Nega.ext fun x => (hE x).trans (natCast_mul_apply C.P (E : Nega N ℤ) x).symm⟩

end Ctx.Valid

/-- the block sum of the gadget: `Σ_k P g_k f(k) = P f(i/alpha)` -/
theorem gad_sum (V : C.Valid) {level i : ℕ} (hl : level < C.nQ) (hi : i ≤ level) (f : ℕ → Nega N (ZMod (C.q i))) :
    ∑ k ∈ range (C.beta level), C.gad k i * f k = (C.P : Nega N (ZMod (C.q i))) * f (i / C.alpha) := by
  rw [Finset.sum_eq_single (i / C.alpha)]
  · unfold Ctx.gad; rw [if_pos rfl]
  · intro k _ hk; unfold Ctx.gad; rw [if_neg (Ne.symm hk), zero_mul]
  · intro h; exact absurd (mem_range.mpr (V.div_lt_beta hl hi)) h

/-! ## bounds -/

theorem Bdd.sum_const {ι : Type*} (s : Finset ι) (f : ι → Nega N ℤ) (B : ℤ) (h : ∀ i ∈ s, Bdd (f i) B) :
    Bdd (∑ i ∈ s, f i) (s.card * B) := by
  have := Bdd.sum s f (fun _ => B) h
  rwa [Finset.sum_const, nsmul_eq_mul] at this

/-! ## the algebra of relinearization, in any commutative ring -/

theorem relin_identity {R I : Type*} [CommRing R] (I0 I1 : Finset I) (K : Finset ℕ) (Pm : R) (g : ℕ → R)
    (c00 c10 : R) (c0 c1 s r : I → R) (D0 D1 Dw : I → ℕ → R) (a u : ℕ → R) (b d v eb ed ev : I → ℕ → R) (x y : ℕ → R)
    (w EPx EPv EPu LX LY LV LU : I → R)
    (hb : ∀ j ∈ I1, ∀ k ∈ K, b j k = - s j * a k + eb j k)
    (hd : ∀ i ∈ I0, ∀ k ∈ K, d i k = - r i * a k + g k * s i + ed i k)
    (hv : ∀ i ∈ I0, ∀ k ∈ K, v i k = - s i * u k - g k * r i + ev i k)
    (hx : ∀ k ∈ K, x k = ∑ i ∈ I0, d i k * D0 i k)
    (hy : ∀ k ∈ K, y k = ∑ j ∈ I1, b j k * D1 j k)
    (hw : ∀ i ∈ I0, Pm * w i = (∑ k ∈ K, y k * D0 i k) - LY i)
    (hX : ∀ j ∈ I1, Pm * EPx j = (∑ k ∈ K, x k * D1 j k) - LX j)
    (hV : ∀ i ∈ I0, Pm * EPv i = (∑ k ∈ K, v i k * Dw i k) - LV i)
    (hU : ∀ i ∈ I0, Pm * EPu i = (∑ k ∈ K, u k * Dw i k) - LU i)
    (hg : ∀ i ∈ I0, ∀ j ∈ I1, ∑ k ∈ K, g k * (D0 i k * D1 j k) = Pm * (c0 i * c1 j))
    (hgw : ∀ i ∈ I0, ∑ k ∈ K, g k * Dw i k = Pm * w i) :
    Pm * (c00 * c10 + ∑ i ∈ I0, EPv i + (∑ i ∈ I0, (c10 * c0 i + EPu i) * s i + ∑ j ∈ I1, (c00 * c1 j + EPx j) * s j)) =
      Pm * ((c00 + ∑ i ∈ I0, c0 i * s i) * (c10 + ∑ j ∈ I1, c1 j * s j)) +
      (∑ j ∈ I1, ∑ i ∈ I0, ∑ k ∈ K, s j * (D1 j k * (D0 i k * ed i k))
        - ∑ j ∈ I1, s j * LX j
        - ∑ i ∈ I0, ∑ j ∈ I1, ∑ k ∈ K, r i * (D0 i k * (D1 j k * eb j k))
        + ∑ i ∈ I0, r i * LY i
        + ∑ i ∈ I0, ∑ k ∈ K, Dw i k * ev i k
        - ∑ i ∈ I0, LV i - ∑ i ∈ I0, s i * LU i) := by
  -- the two last external products
  have A : ∀ i ∈ I0, Pm * EPv i + Pm * EPu i * s i =
      - (Pm * w i * r i) + (∑ k ∈ K, Dw i k * ev i k) - LV i - s i * LU i := by
    intro i hi
    rw [hV i hi, hU i hi, ← hgw i hi]
    have e1 : ∑ k ∈ K, v i k * Dw i k =
        ∑ k ∈ K, (- s i * (u k * Dw i k) - (g k * Dw i k) * r i + Dw i k * ev i k) := by
      refine sum_congr rfl fun k hk => ?_
      rw [hv i hi k hk]; ring
    rw [e1, sum_add_distrib, sum_sub_distrib, ← mul_sum, ← sum_mul]
    ring
  -- the external products with x
  have B : ∀ j ∈ I1, Pm * EPx j * s j = (∑ i ∈ I0, ((Pm * (c0 i * c1 j)) * (s i * s j) +
      (∑ k ∈ K, s j * (D1 j k * (D0 i k * ed i k))) - ∑ k ∈ K, r i * (s j * a k * (D0 i k * D1 j k)))) - s j * LX j := by
    intro j hj
    rw [hX j hj]
    have e1 : ∑ k ∈ K, x k * D1 j k = ∑ i ∈ I0, ∑ k ∈ K, d i k * D0 i k * D1 j k := by
      rw [sum_comm]
      refine sum_congr rfl fun k hk => ?_
      rw [hx k hk, sum_mul]
    rw [e1, sub_mul, sum_mul]
    congr 1
    · refine sum_congr rfl fun i hi => ?_
      rw [← hg i hi j hj, sum_mul, sum_mul, ← sum_add_distrib, ← sum_sub_distrib]
      refine sum_congr rfl fun k hk => ?_
      rw [hd i hi k hk]; ring
    · ring
  -- the external product with y
  have D : ∀ i ∈ I0, Pm * w i * r i = (∑ j ∈ I1, ((∑ k ∈ K, r i * (D0 i k * (D1 j k * eb j k))) -
      ∑ k ∈ K, r i * (s j * a k * (D0 i k * D1 j k)))) - r i * LY i := by
    intro i hi
    rw [hw i hi]
    have e1 : ∑ k ∈ K, y k * D0 i k = ∑ j ∈ I1, ∑ k ∈ K, b j k * D1 j k * D0 i k := by
      rw [sum_comm]
      refine sum_congr rfl fun k hk => ?_
      rw [hy k hk, sum_mul]
    rw [e1, sub_mul, sum_mul]
    congr 1
    · refine sum_congr rfl fun j hj => ?_
      rw [← sum_sub_distrib, sum_mul]
      refine sum_congr rfl fun k hk => ?_
      rw [hb j hj k hk]; ring
    · ring
  have A' := sum_congr (rfl : I0 = I0) A
  have B' := sum_congr (rfl : I1 = I1) B
  have D' := sum_congr (rfl : I0 = I0) D
  simp only [sum_add_distrib, sum_sub_distrib, sum_neg_distrib] at A' B' D'
  -- the tensor product
  have T : (c00 + ∑ i ∈ I0, c0 i * s i) * (c10 + ∑ j ∈ I1, c1 j * s j) = c00 * c10 + ∑ i ∈ I0, c10 * c0 i * s i +
      ∑ j ∈ I1, c00 * c1 j * s j + ∑ j ∈ I1, ∑ i ∈ I0, (c0 i * c1 j) * (s i * s j) := by
    have e : (∑ i ∈ I0, c0 i * s i) * (∑ j ∈ I1, c1 j * s j) = ∑ j ∈ I1, ∑ i ∈ I0, (c0 i * c1 j) * (s i * s j) := by
      rw [sum_mul_sum, sum_comm]
      refine sum_congr rfl fun j _ => sum_congr rfl fun i _ => by ring
    have e2 : (∑ i ∈ I0, c0 i * s i) * c10 = ∑ i ∈ I0, c10 * c0 i * s i := by
      rw [sum_mul]; exact sum_congr rfl fun i _ => by ring
    have e3 : c00 * (∑ j ∈ I1, c1 j * s j) = ∑ j ∈ I1, c00 * c1 j * s j := by
      rw [mul_sum]; exact sum_congr rfl fun i _ => by ring
    rw [← e, ← e2, ← e3]; ring
  have e4 : ∑ j ∈ I1, ∑ i ∈ I0, Pm * (c0 i * c1 j) * (s i * s j) =
      Pm * ∑ j ∈ I1, ∑ i ∈ I0, (c0 i * c1 j) * (s i * s j) := by
    rw [mul_sum]; refine sum_congr rfl fun j _ => ?_
    rw [mul_sum]; exact sum_congr rfl fun i _ => by ring
  have e5 : ∑ i ∈ I0, (c10 * c0 i + EPu i) * s i = ∑ i ∈ I0, c10 * c0 i * s i + ∑ i ∈ I0, EPu i * s i := by
    rw [← sum_add_distrib]; exact sum_congr rfl fun i _ => by ring
  have e6 : ∑ j ∈ I1, (c00 * c1 j + EPx j) * s j = ∑ j ∈ I1, c00 * c1 j * s j + ∑ j ∈ I1, EPx j * s j := by
    rw [← sum_add_distrib]; exact sum_congr rfl fun i _ => by ring
  have e7 : ∑ i ∈ I0, Pm * EPv i = Pm * ∑ i ∈ I0, EPv i := by rw [mul_sum]
  have e8 : ∑ i ∈ I0, Pm * EPu i * s i = Pm * ∑ i ∈ I0, EPu i * s i := by
    rw [mul_sum]; exact sum_congr rfl fun i _ => by ring
  have e9 : ∑ j ∈ I1, Pm * EPx j * s j = Pm * ∑ j ∈ I1, EPx j * s j := by
    rw [mul_sum]; exact sum_congr rfl fun i _ => by ring
  have e10 : ∑ j ∈ I1, ∑ i ∈ I0, ∑ k ∈ K, r i * (s j * a k * (D0 i k * D1 j k)) =
      ∑ i ∈ I0, ∑ j ∈ I1, ∑ k ∈ K, r i * (s j * a k * (D0 i k * D1 j k)) := sum_comm
  rw [e7, e8] at A'
  rw [e9, e4, e10] at B'
  rw [e5, e6, T]
  linear_combination A' + B' - D'


/-! ## the noise of a multiplication -/

/-- the phase `c_0 + Σ_id c_id s_id` modulo the `i`-th prime -/
noncomputable def phaseRows (ids : Finset String) (s : String → Nega N ℤ) (a : String → QRows C) (i : ℕ) : Nega N (ZMod (C.q i)) :=
  cf (a "0" i) + ∑ id ∈ ids, cf (a id i) * red (C.q i) (s id)

/-- bound on `P` times the noise of a multiplication: `n0`, `n1` parties, `beta` digits bounded by `D`, secrets bounded by `Sb`
and `Rb`, key errors bounded by `Be` -/
def mulNoise (N P : ℕ) (n0 n1 beta : ℕ) (D Sb Rb Be : ℤ) : ℤ :=
  n1 * (n0 * (beta * (N * Sb * (N * D * (N * D * Be))))) + n1 * (N * Sb * (2 * P))
    + n0 * (n1 * (beta * (N * Rb * (N * D * (N * D * Be))))) + n0 * (N * Rb * (2 * P))
    + n0 * (beta * (N * D * Be)) + n0 * (2 * P) + n0 * (N * Sb * (2 * P))

/-- what the keys of the parties and the digits must satisfy -/
structure MulKeys (level : ℕ) (M : MulIn C) (s r : String → Nega N ℤ) (a : ℕ → PolyQP C) (D Sb Rb Be : ℤ) : Prop where
  n0 : "0" ∉ M.ids0
  n1 : "0" ∉ M.ids1
  d : ∀ id ∈ M.ids0, KeyRel C (C.beta level) (r id) a (s id) Be (M.d id)
  v : ∀ id ∈ M.ids0, KeyRel C (C.beta level) (s id) M.u (- r id) Be (M.v id)
  b : ∀ id ∈ M.ids1, KeyRel C (C.beta level) (s id) a 0 Be (M.b id)
  dig0 : ∀ id ∈ M.ids0, ∀ k < C.beta level, ∃ X, IsDigit C level k (M.a0 id) D X ∧ Holds C level (M.h0 id k) X
  dig1 : ∀ id ∈ M.ids1, ∀ k < C.beta level, ∃ X, IsDigit C level k (M.a1 id) D X ∧ Holds C level (M.h1 id k) X
  block : ∀ k < C.beta level, 2 * (C.blockProd level k : ℤ) ≤ D
  s0 : ∀ id ∈ M.ids0 ∪ M.ids1, Bdd (s id) Sb
  r0 : ∀ id ∈ M.ids0, Bdd (r id) Rb

theorem mul_noise (V : C.Valid) {level : ℕ} (hl : level < C.nQ) (M : MulIn C) (s r : String → Nega N ℤ) (a : ℕ → PolyQP C)
    (D Sb Rb Be : ℤ) (H : MulKeys level M s r a D Sb Rb Be) :
    ∃ E : Nega N ℤ, (∀ x, C.P * |E x| ≤ mulNoise N C.P M.ids0.card M.ids1.card (C.beta level) D Sb Rb Be) ∧
      ∀ i ≤ level, phaseRows (M.ids0 ∪ M.ids1) s (M.out level) i =
        phaseRows M.ids0 s M.a0 i * phaseRows M.ids1 s M.a1 i + red (C.q i) E := by
  -- extract all integer polynomials
  have hD0 : ∀ id k, ∃ X, id ∈ M.ids0 → k < C.beta level → IsDigit C level k (M.a0 id) D X ∧ Holds C level (M.h0 id k) X := by
    intro id k
    by_cases h : id ∈ M.ids0 ∧ k < C.beta level
    · obtain ⟨X, hX⟩ := H.dig0 id h.1 k h.2; exact ⟨X, fun _ _ => hX⟩
    · exact ⟨0, fun h1 h2 => absurd ⟨h1, h2⟩ h⟩
  have hD1 : ∀ id k, ∃ X, id ∈ M.ids1 → k < C.beta level → IsDigit C level k (M.a1 id) D X ∧ Holds C level (M.h1 id k) X := by
    intro id k
    by_cases h : id ∈ M.ids1 ∧ k < C.beta level
    · obtain ⟨X, hX⟩ := H.dig1 id h.1 k h.2; exact ⟨X, fun _ _ => hX⟩
    · exact ⟨0, fun h1 h2 => absurd ⟨h1, h2⟩ h⟩
  have hDw : ∀ id k, ∃ X, k < C.beta level → IsDigit C level k (M.w level id) D X ∧
      Holds C level (digs level (M.w level id) k) X := by
    intro id k
    by_cases h : k < C.beta level
    · obtain ⟨X, hX1, hX2⟩ := digs_spec V hl h (M.w level id)
      exact ⟨X, fun _ => ⟨⟨hX1.bdd.mono (H.block k h), hX1.cong⟩, hX2⟩⟩
    · exact ⟨0, fun h1 => absurd h1 h⟩
  choose D0 hD0 using hD0
  choose D1 hD1 using hD1
  choose Dw hDw using hDw
  have hd : ∀ id, ∃ e : ℕ → Nega N ℤ, id ∈ M.ids0 → ∀ k < C.beta level, Bdd (e k) Be ∧
    (∀ i < C.nQ, (C.RQ i).mv ((M.d id k).Q i) =
      - red (C.q i) (r id) * (C.RQ i).mv ((a k).Q i) + C.gad k i * red (C.q i) (s id) + red (C.q i) (e k)) ∧
    ∀ j < C.nP, (C.RP j).mv ((M.d id k).P j) = - red (C.p j) (r id) * (C.RP j).mv ((a k).P j) + red (C.p j) (e k) := by
    intro id
    by_cases h : id ∈ M.ids0
    · obtain ⟨e, he⟩ := H.d id h; exact ⟨e, fun _ => he⟩
    · exact ⟨0, fun h1 => absurd h1 h⟩
  have hv : ∀ id, ∃ e : ℕ → Nega N ℤ, id ∈ M.ids0 → ∀ k < C.beta level, Bdd (e k) Be ∧
    (∀ i < C.nQ, (C.RQ i).mv ((M.v id k).Q i) =
      - red (C.q i) (s id) * (C.RQ i).mv ((M.u k).Q i) + C.gad k i * red (C.q i) (- r id) + red (C.q i) (e k)) ∧
    ∀ j < C.nP, (C.RP j).mv ((M.v id k).P j) = - red (C.p j) (s id) * (C.RP j).mv ((M.u k).P j) + red (C.p j) (e k) := by
    intro id
    by_cases h : id ∈ M.ids0
    · obtain ⟨e, he⟩ := H.v id h; exact ⟨e, fun _ => he⟩
    · exact ⟨0, fun h1 => absurd h1 h⟩
  have hb : ∀ id, ∃ e : ℕ → Nega N ℤ, id ∈ M.ids1 → ∀ k < C.beta level, Bdd (e k) Be ∧
    (∀ i < C.nQ, (C.RQ i).mv ((M.b id k).Q i) =
      - red (C.q i) (s id) * (C.RQ i).mv ((a k).Q i) + C.gad k i * red (C.q i) 0 + red (C.q i) (e k)) ∧
    ∀ j < C.nP, (C.RP j).mv ((M.b id k).P j) = - red (C.p j) (s id) * (C.RP j).mv ((a k).P j) + red (C.p j) (e k) := by
    intro id
    by_cases h : id ∈ M.ids1
    · obtain ⟨e, he⟩ := H.b id h; exact ⟨e, fun _ => he⟩
    · exact ⟨0, fun h1 => absurd h1 h⟩
  choose ed hd using hd
  choose ev hv using hv
  choose eb hb using hb
  choose LX hLX using fun id => (epG_spec V hl (M.h1 id) M.x).2
  choose LY hLY using fun id => (epG_spec V hl (M.h0 id) M.y).2
  choose LV hLV using fun id => (epG_spec V hl (digs level (M.w level id)) (M.v id)).2
  choose LU hLU using fun id => (epG_spec V hl (digs level (M.w level id)) M.u).2
  set K := range (C.beta level) with hK
  set W : Nega N ℤ := ∑ j ∈ M.ids1, ∑ i ∈ M.ids0, ∑ k ∈ K, s j * (D1 j k * (D0 i k * ed i k))
        - ∑ j ∈ M.ids1, s j * LX j
        - ∑ i ∈ M.ids0, ∑ j ∈ M.ids1, ∑ k ∈ K, r i * (D0 i k * (D1 j k * eb j k))
        + ∑ i ∈ M.ids0, r i * LY i
        + ∑ i ∈ M.ids0, ∑ k ∈ K, Dw i k * ev i k
        - ∑ i ∈ M.ids0, LV i - ∑ i ∈ M.ids0, s i * LU i with hW
  -- the Q rows
  have hQ : ∀ i ≤ level, (C.P : Nega N (ZMod (C.q i))) * phaseRows (M.ids0 ∪ M.ids1) s (M.out level) i =
      (C.P : Nega N (ZMod (C.q i))) * (phaseRows M.ids0 s M.a0 i * phaseRows M.ids1 s M.a1 i) + red (C.q i) W := by
    intro i hi
    have hin : i < C.nQ := by omega
    have key := relin_identity M.ids0 M.ids1 K (C.P : Nega N (ZMod (C.q i))) (fun k => C.gad k i)
      (cf (M.a0 "0" i)) (cf (M.a1 "0" i)) (fun id => cf (M.a0 id i)) (fun id => cf (M.a1 id i))
      (fun id => red (C.q i) (s id)) (fun id => red (C.q i) (r id))
      (fun id k => red (C.q i) (D0 id k)) (fun id k => red (C.q i) (D1 id k)) (fun id k => red (C.q i) (Dw id k))
      (fun k => (C.RQ i).mv ((a k).Q i)) (fun k => (C.RQ i).mv ((M.u k).Q i))
      (fun id k => (C.RQ i).mv ((M.b id k).Q i)) (fun id k => (C.RQ i).mv ((M.d id k).Q i))
      (fun id k => (C.RQ i).mv ((M.v id k).Q i))
      (fun id k => red (C.q i) (eb id k)) (fun id k => red (C.q i) (ed id k)) (fun id k => red (C.q i) (ev id k))
      (fun k => (C.RQ i).mv ((M.x k).Q i)) (fun k => (C.RQ i).mv ((M.y k).Q i))
      (fun id => cf (M.w level id i)) (fun id => cf (epG level (M.h1 id) M.x i))
      (fun id => cf (epG level (digs level (M.w level id)) (M.v id) i))
      (fun id => cf (epG level (digs level (M.w level id)) M.u i))
      (fun id => red (C.q i) (LX id)) (fun id => red (C.q i) (LY id)) (fun id => red (C.q i) (LV id))
      (fun id => red (C.q i) (LU id))
      (fun j hj k hk => by rw [(hb j hj k (mem_range.mp hk)).2.1 i hin]; simp)
      (fun j hj k hk => (hd j hj k (mem_range.mp hk)).2.1 i hin)
      (fun j hj k hk => by rw [(hv j hj k (mem_range.mp hk)).2.1 i hin, map_neg]; ring)
      (fun k hk => by
        show (C.RQ i).ev ((C.RQ i).ofEv _) * _ = _
        rw [LimbOps.ev_ofEv, sum_mul]
        refine sum_congr rfl fun id hid => ?_
        rw [← (hD0 id k hid (mem_range.mp hk)).2.q i hi]
        unfold LimbOps.mv; ring)
      (fun k hk => by
        show (C.RQ i).ev ((C.RQ i).ofEv _) * _ = _
        rw [LimbOps.ev_ofEv, sum_mul]
        refine sum_congr rfl fun id hid => ?_
        rw [← (hD1 id k hid (mem_range.mp hk)).2.q i hi]
        unfold LimbOps.mv; ring)
      (fun id hid => by
        refine ((hLY id).2.2 i hi).trans ?_
        congr 1
        refine sum_congr rfl fun k hk => ?_
        rw [← (hD0 id k hid (mem_range.mp hk)).2.q i hi]
        unfold LimbOps.mv; ring)
      (fun id hid => by
        refine ((hLX id).2.2 i hi).trans ?_
        congr 1
        refine sum_congr rfl fun k hk => ?_
        rw [← (hD1 id k hid (mem_range.mp hk)).2.q i hi]
        unfold LimbOps.mv; ring)
      (fun id hid => by
        refine ((hLV id).2.2 i hi).trans ?_
        congr 1
        refine sum_congr rfl fun k hk => ?_
        rw [← (hDw id k (mem_range.mp hk)).2.q i hi]
        unfold LimbOps.mv; ring)
      (fun id hid => by
        refine ((hLU id).2.2 i hi).trans ?_
        congr 1
        refine sum_congr rfl fun k hk => ?_
        rw [← (hDw id k (mem_range.mp hk)).2.q i hi]
        unfold LimbOps.mv; ring)
      (fun id hid id' hid' => by
        rw [gad_sum V hl hi (fun k => red (C.q i) (D0 id k) * red (C.q i) (D1 id' k))]
        have hb := V.div_lt_beta hl hi
        rw [(hD0 id _ hid hb).1.cong i hi rfl, (hD1 id' _ hid' hb).1.cong i hi rfl])
      (fun id hid => by
        rw [gad_sum V hl hi (fun k => red (C.q i) (Dw id k))]
        rw [(hDw id _ (V.div_lt_beta hl hi)).1.cong i hi rfl])
    have hph : phaseRows (M.ids0 ∪ M.ids1) s (M.out level) i =
        cf (M.a0 "0" i) * cf (M.a1 "0" i) + ∑ id ∈ M.ids0, cf (epG level (digs level (M.w level id)) (M.v id) i) +
        (∑ id ∈ M.ids0, (cf (M.a1 "0" i) * cf (M.a0 id i) + cf (epG level (digs level (M.w level id)) M.u i)) * red (C.q i) (s id) +
         ∑ id ∈ M.ids1, (cf (M.a0 "0" i) * cf (M.a1 id i) + cf (epG level (M.h1 id) M.x i)) * red (C.q i) (s id)) := by
      unfold phaseRows
      have h0 : cf (M.out level "0" i) = _ := LimbOps.cf_ofCf (C.RQ i) _
      rw [h0]
      congr 1
      have e0 : ∑ id ∈ M.ids0, (cf (M.a1 "0" i) * cf (M.a0 id i) + cf (epG level (digs level (M.w level id)) M.u i)) * red (C.q i) (s id)
          = ∑ id ∈ M.ids0 ∪ M.ids1, if id ∈ M.ids0 then
            (cf (M.a1 "0" i) * cf (M.a0 id i) + cf (epG level (digs level (M.w level id)) M.u i)) * red (C.q i) (s id) else 0 := by
        rw [Finset.sum_ite_mem, Finset.inter_eq_right.mpr subset_union_left]
      have e1 : ∑ id ∈ M.ids1, (cf (M.a0 "0" i) * cf (M.a1 id i) + cf (epG level (M.h1 id) M.x i)) * red (C.q i) (s id)
          = ∑ id ∈ M.ids0 ∪ M.ids1, if id ∈ M.ids1 then
            (cf (M.a0 "0" i) * cf (M.a1 id i) + cf (epG level (M.h1 id) M.x i)) * red (C.q i) (s id) else 0 := by
        rw [Finset.sum_ite_mem, Finset.inter_eq_right.mpr subset_union_right]
      rw [e0, e1, ← sum_add_distrib]
      refine sum_congr rfl fun id hid => ?_
      have hne : id ≠ "0" := by
        rintro rfl
        rcases mem_union.mp hid with h | h
        · exact H.n0 h
        · exact H.n1 h
      have h1 : M.out level id i = M.outI level id i := by
        unfold MulIn.out; rw [if_neg hne]
      have h2 : cf (M.outI level id i) = _ := LimbOps.cf_ofCf (C.RQ i) _
      rw [h1, h2]
      split_ifs <;> ring
    rw [hph, key]
    unfold phaseRows
    congr 1
    rw [hW]
    simp only [map_add, map_sub, map_sum, map_mul]
  -- the P rows
  have hP : ∀ j < C.nP, red (C.p j) W = 0 := by
    intro j hj
    have key := relin_identity M.ids0 M.ids1 K (0 : Nega N (ZMod (C.p j))) (fun _ => 0)
      0 0 (fun _ => 0) (fun _ => 0)
      (fun id => red (C.p j) (s id)) (fun id => red (C.p j) (r id))
      (fun id k => red (C.p j) (D0 id k)) (fun id k => red (C.p j) (D1 id k)) (fun id k => red (C.p j) (Dw id k))
      (fun k => (C.RP j).mv ((a k).P j)) (fun k => (C.RP j).mv ((M.u k).P j))
      (fun id k => (C.RP j).mv ((M.b id k).P j)) (fun id k => (C.RP j).mv ((M.d id k).P j))
      (fun id k => (C.RP j).mv ((M.v id k).P j))
      (fun id k => red (C.p j) (eb id k)) (fun id k => red (C.p j) (ed id k)) (fun id k => red (C.p j) (ev id k))
      (fun k => (C.RP j).mv ((M.x k).P j)) (fun k => (C.RP j).mv ((M.y k).P j))
      (fun _ => 0) (fun _ => 0) (fun _ => 0) (fun _ => 0)
      (fun id => red (C.p j) (LX id)) (fun id => red (C.p j) (LY id)) (fun id => red (C.p j) (LV id))
      (fun id => red (C.p j) (LU id))
      (fun id hid k hk => (hb id hid k (mem_range.mp hk)).2.2 j hj)
      (fun id hid k hk => by rw [(hd id hid k (mem_range.mp hk)).2.2 j hj]; ring)
      (fun id hid k hk => by rw [(hv id hid k (mem_range.mp hk)).2.2 j hj]; ring)
      (fun k hk => by
        show (C.RP j).ev ((C.RP j).ofEv _) * _ = _
        rw [LimbOps.ev_ofEv, sum_mul]
        refine sum_congr rfl fun id hid => ?_
        rw [← (hD0 id k hid (mem_range.mp hk)).2.p j hj]
        unfold LimbOps.mv; ring)
      (fun k hk => by
        show (C.RP j).ev ((C.RP j).ofEv _) * _ = _
        rw [LimbOps.ev_ofEv, sum_mul]
        refine sum_congr rfl fun id hid => ?_
        rw [← (hD1 id k hid (mem_range.mp hk)).2.p j hj]
        unfold LimbOps.mv; ring)
      (fun id hid => by
        rw [(hLY id).2.1 j hj, zero_mul, eq_comm, sub_eq_zero]
        refine sum_congr rfl fun k hk => ?_
        rw [← (hD0 id k hid (mem_range.mp hk)).2.p j hj]
        unfold LimbOps.mv; ring)
      (fun id hid => by
        rw [(hLX id).2.1 j hj, zero_mul, eq_comm, sub_eq_zero]
        refine sum_congr rfl fun k hk => ?_
        rw [← (hD1 id k hid (mem_range.mp hk)).2.p j hj]
        unfold LimbOps.mv; ring)
      (fun id hid => by
        rw [(hLV id).2.1 j hj, zero_mul, eq_comm, sub_eq_zero]
        refine sum_congr rfl fun k hk => ?_
        rw [← (hDw id k (mem_range.mp hk)).2.p j hj]
        unfold LimbOps.mv; ring)
      (fun id hid => by
        rw [(hLU id).2.1 j hj, zero_mul, eq_comm, sub_eq_zero]
        refine sum_congr rfl fun k hk => ?_
        rw [← (hDw id k (mem_range.mp hk)).2.p j hj]
        unfold LimbOps.mv; ring)
      (fun id hid id' hid' => by simp) (fun id hid => by simp)
    rw [zero_mul, zero_mul, zero_add] at key
    rw [hW]
    simp only [map_add, map_sub, map_sum, map_mul]
    exact key.symm
  obtain ⟨E, hE⟩ := V.exists_div W hP
  refine ⟨E, fun x => ?_, fun i hi => V.P_cancel (show i < C.nQ by omega) ?_⟩
  · -- the bound
    have hcard : (K.card : ℤ) = C.beta level := by rw [hK, card_range]
    have hWb : Bdd W (mulNoise N C.P M.ids0.card M.ids1.card (C.beta level) D Sb Rb Be) := by
      rw [hW]
      unfold mulNoise
      have sb : ∀ id ∈ M.ids1, Bdd (s id) Sb := fun id h => H.s0 id (mem_union_right _ h)
      have sa : ∀ id ∈ M.ids0, Bdd (s id) Sb := fun id h => H.s0 id (mem_union_left _ h)
      refine Bdd.sub (Bdd.sub (Bdd.add (Bdd.add (Bdd.sub (Bdd.sub ?_ ?_) ?_) ?_) ?_) ?_) ?_
      · refine Bdd.sum_const _ _ _ fun j hj => Bdd.sum_const _ _ _ fun i hi => ?_
        rw [← hcard]
        refine Bdd.sum_const _ _ _ fun k hk => (sb j hj).mul ((hD1 j k hj (mem_range.mp hk)).1.bdd.mul
          ((hD0 i k hi (mem_range.mp hk)).1.bdd.mul (hd i hi k (mem_range.mp hk)).1))
      · exact Bdd.sum_const _ _ _ fun j hj => (sb j hj).mul (hLX j).1
      · refine Bdd.sum_const _ _ _ fun i hi => Bdd.sum_const _ _ _ fun j hj => ?_
        rw [← hcard]
        refine Bdd.sum_const _ _ _ fun k hk => (H.r0 i hi).mul ((hD0 i k hi (mem_range.mp hk)).1.bdd.mul
          ((hD1 j k hj (mem_range.mp hk)).1.bdd.mul (hb j hj k (mem_range.mp hk)).1))
      · exact Bdd.sum_const _ _ _ fun i hi => (H.r0 i hi).mul (hLY i).1
      · refine Bdd.sum_const _ _ _ fun i hi => ?_
        rw [← hcard]
        exact Bdd.sum_const _ _ _ fun k hk => (hDw i k (mem_range.mp hk)).1.bdd.mul (hv i hi k (mem_range.mp hk)).1
      · exact Bdd.sum_const _ _ _ fun i _ => (hLV i).1
      · exact Bdd.sum_const _ _ _ fun i hi => (sa i hi).mul (hLU i).1
    have := hWb x
    rw [hE, natCast_mul_apply, abs_mul, Nat.abs_cast] at this
    exact this
  · rw [hQ i hi, hE, map_mul, map_natCast, mul_add]

/-! ## the noise of one key switch -/

/-- `EP(h, bg) + sec*EP(h, a') = c*m + E` for digits `h` of `c` and a key `bg = -sec*a' + P g m + e` -/
theorem ks_noise (V : C.Valid) {level : ℕ} (hl : level < C.nQ) (h : ℕ → PolyQP C) (c : QRows C) (bg a' : ℕ → PolyQP C)
    (sec m : Nega N ℤ) (Sb Be D : ℤ) (hs : Bdd sec Sb) (hk : KeyRel C (C.beta level) sec a' m Be bg)
    (hdig : ∀ k < C.beta level, ∃ X, IsDigit C level k c D X ∧ Holds C level (h k) X) :
    ∃ E : Nega N ℤ, (∀ x, C.P * |E x| ≤ C.beta level * (N * D * Be) + 2 * C.P + N * Sb * (2 * C.P)) ∧
      ∀ i ≤ level, cf (epG level h bg i) + red (C.q i) sec * cf (epG level h a' i) = cf (c i) * red (C.q i) m + red (C.q i) E := by
  have hD : ∀ k, ∃ X, k < C.beta level → IsDigit C level k c D X ∧ Holds C level (h k) X := by
    intro k
    by_cases hk : k < C.beta level
    · obtain ⟨D, h⟩ := hdig k hk; exact ⟨D, fun _ => h⟩
    · exact ⟨0, fun h => absurd h hk⟩
  choose X hX using hD
  obtain ⟨e, he⟩ := hk
  obtain ⟨-, L, l1, l2, l3⟩ := epG_spec V hl h bg
  obtain ⟨-, L', l1', l2', l3'⟩ := epG_spec V hl h a'
  set W : Nega N ℤ := (∑ k ∈ range (C.beta level), X k * e k) - L - sec * L' with hW
  have hWb : Bdd W (C.beta level * (N * D * Be) + 2 * C.P + N * Sb * (2 * C.P)) := by
    refine ((Bdd.sub ?_ l1).sub (hs.mul l1'))
    have := Bdd.sum_const (range (C.beta level)) (fun k => X k * e k) (N * D * Be) (fun k hk =>
      (hX k (mem_range.mp hk)).1.bdd.mul (he k (mem_range.mp hk)).1)
    rwa [card_range] at this
  have hP : ∀ j < C.nP, red (C.p j) W = 0 := by
    intro j hj
    rw [hW]
    simp only [map_sub, map_sum, map_mul]
    rw [l2 j hj, l2' j hj, mul_sum, ← sum_sub_distrib, ← sum_sub_distrib]
    refine sum_eq_zero fun k hk => ?_
    have hk' := mem_range.mp hk
    have e1 := (he k hk').2.2 j hj
    unfold LimbOps.mv at e1
    have e2 := (hX k hk').2.p j hj
    rw [e2]
    linear_combination (- red (C.p j) (X k)) * e1
  obtain ⟨E, hE⟩ := V.exists_div W hP
  refine ⟨E, fun x => ?_, fun i hi => ?_⟩
  · have h1 := hWb x
    rw [hE, natCast_mul_apply, abs_mul, Nat.abs_cast] at h1
    exact_mod_cast h1
  · apply V.P_cancel (lt_of_le_of_lt hi hl)
    have hPE : (C.P : Nega N (ZMod (C.q i))) * red (C.q i) E = red (C.q i) W := by rw [hE, map_mul, map_natCast]
    have g := gad_sum V hl hi (fun k => red (C.q i) (X k))
    rw [(hX _ (V.div_lt_beta hl hi)).1.cong i hi rfl] at g
    rw [mul_add, mul_add, hPE, hW, ← mul_assoc, ← mul_assoc, mul_right_comm, l3 i hi]
    have : (C.P : Nega N (ZMod (C.q i))) * cf (epG level h a' i) * red (C.q i) sec = red (C.q i) sec *
        ((C.P : Nega N (ZMod (C.q i))) * cf (epG level h a' i)) := by ring
    rw [this, l3' i hi, ← g, mul_sub, mul_sum, sum_mul]
    simp only [map_sub, map_sum, map_mul]
    have key : ∑ k ∈ range (C.beta level), (C.RQ i).ev ((bg k).Q i) * (C.RQ i).ev ((h k).Q i) * (C.RQ i).rinv +
        ∑ k ∈ range (C.beta level), red (C.q i) sec * ((C.RQ i).ev ((a' k).Q i) * (C.RQ i).ev ((h k).Q i) * (C.RQ i).rinv) =
        ∑ k ∈ range (C.beta level), C.gad k i * red (C.q i) (X k) * red (C.q i) m +
        ∑ k ∈ range (C.beta level), red (C.q i) (X k) * red (C.q i) (e k) := by
      rw [← sum_add_distrib, ← sum_add_distrib]
      refine sum_congr rfl fun k hk => ?_
      have hk' := mem_range.mp hk
      have e1 := (he k hk').2.1 i (lt_of_le_of_lt hi hl)
      unfold LimbOps.mv at e1
      rw [(hX k hk').2.q i hi]
      linear_combination (red (C.q i) (X k)) * e1
    linear_combination key

end MKHE
