import Verif.Model.Rotate
import Verif.Lemmas.ExtProd
import Mathlib.Data.Nat.Size
import Mathlib.Data.Nat.Totient
import Mathlib.Data.Fintype.EquivFin

set_option autoImplicit false

/-!
# The permutation loop of `Rotate` computes the automorphism `X ↦ X^g`
-/

namespace MKHE
open Finset Nega

/-! ## positions -/

/-- multiplication by an odd number permutes the positions modulo a power of two -/
theorem mulMod_inj {n g i j : ℕ} (hg : Odd g) (hi : i < 2 ^ n) (hj : j < 2 ^ n) (h : i * g % 2 ^ n = j * g % 2 ^ n) : i = j := by
  have hc : Nat.Coprime (2 ^ n) g := Nat.Coprime.pow_left _ (Nat.coprime_two_left.mpr hg)
  have : i ≡ j [MOD 2 ^ n] := Nat.ModEq.cancel_right_of_coprime (c := g) hc h
  exact Nat.ModEq.eq_of_lt_of_lt this hi hj

theorem mulMod_surj {n g k : ℕ} (hg : Odd g) (hk : k < 2 ^ n) : ∃ i < 2 ^ n, i * g % 2 ^ n = k := by
  have inj : Function.Injective (fun i : Fin (2 ^ n) => (⟨i * g % 2 ^ n, Nat.mod_lt _ (by positivity)⟩ : Fin (2 ^ n))) := by
    intro i j h
    exact Fin.ext (mulMod_inj hg i.2 j.2 (congrArg Fin.val h))
  obtain ⟨i, hi⟩ := Finite.surjective_of_injective inj ⟨k, hk⟩
  exact ⟨i, i.2, congrArg Fin.val hi⟩

/-- the word the loop stores for source word `w` and bit `b` -/
def signWord (q w b : ℕ) : ℕ := if b = 0 then w else q - w

theorem storeWord (q w b : ℕ) (hq : q < 2 ^ 61) (hw : w ≤ q) (hb : b < 2) :
    ((w * (b ^^^ 1)) % 2 ^ 64 ||| ((q + 2 ^ 64 - w) % 2 ^ 64 * b) % 2 ^ 64) = signWord q w b := by
  have hb' : b = 0 ∨ b = 1 := by omega
  unfold signWord
  rcases hb' with rfl | rfl
  · simp only [Nat.zero_xor, mul_one, mul_zero, Nat.zero_mod, Nat.or_zero, if_true]
    exact Nat.mod_eq_of_lt (by omega)
  · have e : (1 ^^^ 1 : ℕ) = 0 := by decide
    rw [e, mul_zero, Nat.zero_mod, Nat.zero_or, mul_one, if_neg (by omega)]
    omega

/-- **what the loop computes**: position `i*g mod N` receives `± src i`; nothing else is written -/
theorem permRow_spec {n q g : ℕ} (hn : n ≤ 31) (hq : q < 2 ^ 61) (hg : Odd g) (hgl : g < 2 * 2 ^ n) (src old : ℕ → ℕ)
    (hs : ∀ i < 2 ^ n, src i ≤ q) :
    (∀ i < 2 ^ n, permRow (2 ^ n) q g src old (i * g % 2 ^ n) = signWord q (src i) (i * g / 2 ^ n % 2)) ∧
      ∀ t, 2 ^ n ≤ t → permRow (2 ^ n) q g src old t = old t := by
  have hlen : Nat.size (2 ^ n - 1) = n := by
    apply le_antisymm
    · rw [Nat.size_le]; have := Nat.two_pow_pos n; omega
    · rcases Nat.eq_zero_or_pos n with h0 | h0
      · omega
      · by_contra hlt
        have hle : Nat.size (2 ^ n - 1) ≤ n - 1 := by omega
        rw [Nat.size_le] at hle
        have : 2 ^ n = 2 * 2 ^ (n - 1) := by rw [← pow_succ']; congr 1; omega
        have := Nat.two_pow_pos (n - 1)
        omega
  have h31 : 2 ^ n ≤ 2 ^ 31 := Nat.pow_le_pow_right (by norm_num) hn
  have body : ∀ i < 2 ^ n, i * g % 2 ^ 64 = i * g := by
    intro i hi
    apply Nat.mod_eq_of_lt
    calc i * g ≤ 2 ^ 31 * (2 * 2 ^ 31) := Nat.mul_le_mul (by omega) (by omega)
      _ < 2 ^ 64 := by norm_num
  have key := forN_inv (2 ^ n) (fun (buf : ℕ → ℕ) i =>
    let indexRaw := i * g % 2 ^ 64
    let index := indexRaw &&& (2 ^ n - 1)
    let tmp := (indexRaw >>> Nat.size (2 ^ n - 1)) &&& 1
    Function.update buf index ((src i * (tmp ^^^ 1)) % 2 ^ 64 ||| ((q + 2 ^ 64 - src i) % 2 ^ 64 * tmp) % 2 ^ 64))
    (fun m buf => (∀ i < m, buf (i * g % 2 ^ n) = signWord q (src i) (i * g / 2 ^ n % 2)) ∧ ∀ t, 2 ^ n ≤ t → buf t = old t) old
    ⟨fun i hi => absurd hi (by omega), fun _ _ => rfl⟩ (by
      intro i buf hi ⟨h1, h2⟩
      dsimp only
      rw [body i hi, hlen, Nat.and_two_pow_sub_one_eq_mod, Nat.shiftRight_eq_div_pow, Nat.and_one_is_mod,
        storeWord q _ _ hq (hs i hi) (Nat.mod_lt _ (by norm_num))]
      refine ⟨fun j hj => ?_, fun t ht => ?_⟩
      · by_cases e : j = i
        · subst e; rw [Function.update_self]
        · rw [Function.update_of_ne]
          · exact h1 j (by omega)
          · intro he; exact e (mulMod_inj hg (by omega) hi he)
      · rw [Function.update_of_ne]
        · exact h2 t ht
        · have : i * g % 2 ^ n < 2 ^ n := Nat.mod_lt _ (by positivity)
          omega)
  exact key

variable {N : ℕ} [NeZero N]

/-- coefficient `i` of `a` moves to position `i*g mod N` with the sign of `i*g / N` -/
theorem galois_at {K : Type*} [CommRing K] {n g : ℕ} (hN : N = 2 ^ n) (hg : Odd g) (a : Nega N K) (i : Fin N) (h : (i : ℕ) * g % N < N) :
    galois g a ⟨(i : ℕ) * g % N, h⟩ = (-1) ^ ((i : ℕ) * g / N) * a i := by
  unfold galois
  rw [Finset.sum_eq_single i]
  · rw [if_pos rfl]
  · intro j _ hj
    rw [if_neg]
    intro he
    have := j.2
    have := i.2
    apply hj; apply Fin.ext
    subst hN
    exact mulMod_inj hg j.2 i.2 he
  · simp

theorem galois_surj {n g : ℕ} (hN : N = 2 ^ n) (hg : Odd g) (k : Fin N) : ∃ (i : Fin N) (h : (i : ℕ) * g % N < N), k = ⟨(i : ℕ) * g % N, h⟩ := by
  subst hN
  obtain ⟨i, hi, e⟩ := mulMod_surj hg k.2
  refine ⟨⟨i, hi⟩, Nat.mod_lt _ (by positivity), Fin.ext e.symm⟩

/-- the automorphisms preserve the coefficient bound -/
theorem Bdd.galois {n g : ℕ} (hN : N = 2 ^ n) (hg : Odd g) {a : Nega N ℤ} {B : ℤ} (h : Bdd a B) : Bdd (Nega.galois g a) B := by
  intro k
  obtain ⟨i, hi, rfl⟩ := galois_surj hN hg k
  rw [galois_at hN hg, abs_mul, abs_pow, abs_neg, abs_one, one_pow, one_mul]
  exact h i

theorem signWord_cast (q w m : ℕ) (hw : w ≤ q) : ((signWord q w (m % 2) : ℕ) : ZMod q) = (-1) ^ m * (w : ZMod q) := by
  unfold signWord
  rcases Nat.even_or_odd m with h | h
  · rw [if_pos (Nat.even_iff.mp h), h.neg_one_pow, one_mul]
  · rw [if_neg (by rw [Nat.odd_iff.mp h]; norm_num), h.neg_one_pow, Nat.cast_sub hw]
    simp

theorem signWord_le (q w b : ℕ) (hw : w ≤ q) : signWord q w b ≤ q := by unfold signWord; split <;> omega

/-! ## Galois elements -/

theorem odd_five_pow (k : ℕ) : Odd (5 ^ k) := Odd.pow (by decide)

theorem odd_mod_two_mul {a m : ℕ} (h : Odd a) : Odd (a % (2 * m)) := by
  rw [Nat.odd_iff] at *
  rw [Nat.mod_mul_right_mod, h]

theorem galElCol_odd (N k : ℕ) : Odd (galElCol N k) := odd_mod_two_mul (odd_five_pow _)

theorem galElCol_lt {N : ℕ} (hN : 0 < N) (k : ℕ) : galElCol N k < 2 * N := Nat.mod_lt _ (by omega)

/-- an odd number has order dividing `N` modulo `2N`, for `N` a power of two -/
theorem odd_pow_mod {n g : ℕ} (hg : Odd g) : g ^ 2 ^ n % (2 * 2 ^ n) = 1 := by
  have hc : Nat.Coprime g (2 ^ (n + 1)) := (Nat.Coprime.pow_left _ (Nat.coprime_two_left.mpr hg)).symm
  have := Nat.ModEq.pow_totient hc
  rw [Nat.totient_prime_pow_succ Nat.prime_two] at this
  simp only [mul_one, Nat.reduceSub] at this
  unfold Nat.ModEq at this
  rw [pow_succ'] at this
  rw [this]
  exact Nat.mod_eq_of_lt (by have := Nat.two_pow_pos n; omega)

theorem galElInv_odd {N g : ℕ} (hg : Odd g) : Odd (galElInv N g) := odd_mod_two_mul hg.pow

/-- `InverseGaloisElement` is the inverse modulo `2N` -/
theorem galElInv_mul {n g : ℕ} (hg : Odd g) : g * galElInv (2 ^ n) g % (2 * 2 ^ n) = 1 := by
  unfold galElInv
  rw [Nat.mul_mod_mod, ← pow_succ']
  have : 2 * 2 ^ n - 1 + 1 = 2 ^ n * 2 := by have := Nat.two_pow_pos n; omega
  rw [this, pow_mul, Nat.pow_mod, odd_pow_mod hg, one_pow]
  exact Nat.mod_eq_of_lt (by have := Nat.two_pow_pos n; omega)

theorem galois_inv {K : Type*} [CommRing K] {n g : ℕ} (hN : N = 2 ^ n) (hg : Odd g) (a : Nega N K) :
    galois g (galois (galElInv N g) a) = a := by
  subst hN
  rw [galois_galois _ _ hg, ← galois_mod, galElInv_mul hg, galois_one]

theorem galois_inv' {K : Type*} [CommRing K] {n g : ℕ} (hN : N = 2 ^ n) (hg : Odd g) (a : Nega N K) :
    galois (galElInv N g) (galois g a) = a := by
  subst hN
  rw [galois_galois _ _ (galElInv_odd hg), ← galois_mod, mul_comm, galElInv_mul hg, galois_one]

/-- `5^(2^m) = 1 mod 2^(m+2)` -/
theorem five_pow_mod (m : ℕ) : 5 ^ 2 ^ m % 2 ^ (m + 2) = 1 := by
  have h : ∀ m : ℕ, ∃ k, 5 ^ 2 ^ m = 1 + 2 ^ (m + 2) * k := by
    intro m
    induction m with
    | zero => exact ⟨1, by norm_num⟩
    | succ m ih =>
      obtain ⟨k, hk⟩ := ih
      refine ⟨k + 2 ^ (m + 1) * k ^ 2, ?_⟩
      rw [pow_succ, pow_mul, hk]
      ring
  obtain ⟨k, hk⟩ := h m
  rw [hk, Nat.add_mul_mod_self_left]
  exact Nat.mod_eq_of_lt (Nat.one_lt_two_pow (by omega))

/-- rotations by multiples of `N/2` are trivial: the Galois element only depends on the amount modulo `N/2` -/
theorem galElCol_eq {n : ℕ} (hn : 1 ≤ n) (k : ℕ) : galElCol (2 ^ n) k = 5 ^ k % (2 * 2 ^ n) ∧
    5 ^ k % (2 * 2 ^ n) = 5 ^ (k % (2 ^ n / 2)) % (2 * 2 ^ n) := by
  have hhalf : 2 ^ n / 2 = 2 ^ (n - 1) := by
    obtain ⟨m, rfl⟩ : ∃ m, n = m + 1 := ⟨n - 1, by omega⟩
    rw [pow_succ, Nat.mul_div_cancel _ (by norm_num)]; simp
  have h1 : 5 ^ 2 ^ (n - 1) % (2 * 2 ^ n) = 1 := by
    have := five_pow_mod (n - 1)
    have e : n - 1 + 2 = n + 1 := by omega
    rwa [e, pow_succ' 2 n] at this
  have red : ∀ m k : ℕ, 2 ^ (n - 1) ∣ m → 5 ^ (k % m) % (2 * 2 ^ n) = 5 ^ k % (2 * 2 ^ n) := by
    intro m k ⟨c, hc⟩
    conv_rhs => rw [← Nat.div_add_mod k m, pow_add, hc, mul_assoc, pow_mul, Nat.mul_mod, Nat.pow_mod, h1, one_pow]
    rw [hc, ← Nat.mul_mod]
    have : 1 % (2 * 2 ^ n) = 1 := Nat.mod_eq_of_lt (by have := Nat.two_pow_pos n; omega)
    rw [one_mul]
  refine ⟨red _ _ ?_, (red _ _ ?_).symm⟩
  · rw [← pow_succ']; exact pow_dvd_pow _ (by omega)
  · rw [hhalf]

/-- the normalization loop computes the remainder modulo `N/2` of a negative amount and leaves others alone -/
theorem addWhileNeg_eq (half : ℤ) (hh : 1 ≤ half) : ∀ (fuel : ℕ) (r : ℤ), -(fuel : ℤ) ≤ r → r < 0 →
    addWhileNeg half fuel r = r % half := by
  intro fuel
  induction fuel with
  | zero => intro r h1 h2; simp at h1; omega
  | succ fuel ih =>
    intro r h1 h2
    unfold addWhileNeg
    rw [if_pos h2]
    by_cases h3 : r + half < 0
    · rw [ih (r + half) (by push_cast at h1; omega) h3, Int.add_emod_right]
    · have e : r % half = r + half := by
        rw [← Int.add_emod_right]; exact Int.emod_eq_of_lt (by omega) (by omega)
      rw [e]
      cases fuel with
      | zero => rfl
      | succ f => unfold addWhileNeg; rw [if_neg h3]

theorem adjustIdx_neg {N : ℕ} (hN : 2 ≤ N) {r : ℤ} (h : r < 0) : adjustIdx N r = r % (N / 2 : ℕ) := by
  unfold adjustIdx
  exact addWhileNeg_eq _ (by have : 1 ≤ N / 2 := by omega
                             exact_mod_cast this) _ _ (by omega) h

theorem adjustIdx_nonneg {N : ℕ} {r : ℤ} (h : 0 ≤ r) : adjustIdx N r = r := by
  unfold adjustIdx
  cases r.natAbs with
  | zero => rfl
  | succ n => unfold addWhileNeg; rw [if_neg (by omega)]

end MKHE

namespace MKHE
open Finset Nega
variable {N : ℕ} [NeZero N]

/-- one row through the permutation loop, starting from a zero buffer -/
def permL (q g : ℕ) (a : Limb N q) : Limb N q := fun t =>
  toWord q (permRow N q g (fun i => if h : i < N then (a ⟨i, h⟩).val else 0) (fun _ => 0) t)

/-- the loop writes every position: the stale buffer does not matter -/
theorem permRow_old {n q g : ℕ} (hN : N = 2 ^ n) (hn : n ≤ 31) (hq : q < 2 ^ 61) (hg : Odd g) (hgl : g < 2 * N) (a : Limb N q)
    (old : ℕ → ℕ) (t : Fin N) :
    permRow N q g (fun i => if h : i < N then (a ⟨i, h⟩).val else 0) old t =
      permRow N q g (fun i => if h : i < N then (a ⟨i, h⟩).val else 0) (fun _ => 0) t := by
  subst hN
  have hs : ∀ i < 2 ^ n, (fun i => if h : i < 2 ^ n then (a ⟨i, h⟩).val else 0) i ≤ q := by
    intro i hi; simp only [dif_pos hi]; exact (a _).le
  obtain ⟨i, hi, e⟩ := mulMod_surj hg t.2
  rw [← e, (permRow_spec hn hq hg hgl _ _ hs).1 i hi, (permRow_spec hn hq hg hgl _ _ hs).1 i hi]

theorem permL_at {n q g : ℕ} (hN : N = 2 ^ n) (hn : n ≤ 31) (hq : q < 2 ^ 61) (hg : Odd g) (hgl : g < 2 * N) (a : Limb N q)
    (i : Fin N) (h : (i : ℕ) * g % N < N) :
    (permL q g a ⟨(i : ℕ) * g % N, h⟩).val = signWord q (a i).val ((i : ℕ) * g / N % 2) := by
  subst hN
  have hs : ∀ i < 2 ^ n, (fun i => if h : i < 2 ^ n then (a ⟨i, h⟩).val else 0) i ≤ q := by
    intro i hi; simp only [dif_pos hi]; exact (a _).le
  have := (permRow_spec hn hq hg hgl _ (fun _ => 0) hs).1 i i.2
  unfold permL toWord
  simp only
  rw [this]
  simp only [dif_pos i.2]
  exact min_eq_left (signWord_le _ _ _ (a i).le)

/-- **the loop computes the automorphism** -/
theorem cf_permL {n q g : ℕ} (hN : N = 2 ^ n) (hn : n ≤ 31) (hq : q < 2 ^ 61) (hg : Odd g) (hgl : g < 2 * N) (a : Limb N q) :
    cf (permL q g a) = galois g (cf a) := by
  apply Nega.ext; intro k
  obtain ⟨i, hi, rfl⟩ := galois_surj hN hg k
  rw [galois_at hN hg]
  have := permL_at hN hn hq hg hgl a i hi
  unfold cf Limb.res
  rw [this]
  exact signWord_cast _ _ _ (a i).le

variable {C : Ctx N}

theorem permRows_eq (V : C.Valid) {level g : ℕ} (hg : Odd g) (hgl : g < 2 * N) (src old : QRows C) :
    permRows level g src old = setQ level (fun j => permL (C.q j) g (src j)) old := by
  unfold permRows
  apply setQ_congr
  intro j _
  funext t
  unfold permL
  rw [permRow_old V.hN V.log31 (C.RQ j).lt61 hg hgl]

end MKHE
