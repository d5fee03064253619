import Mathlib.RingTheory.AdjoinRoot
import Mathlib.Data.ZMod.Basic
import Mathlib.Tactic.Ring
import Mathlib.Tactic.Linarith
import Mathlib.Algebra.BigOperators.Fin
import Mathlib.Algebra.Order.BigOperators.Group.Finset

set_option autoImplicit false

/-!
# The negacyclic ring `K[X]/(X^N+1)`

`Nega N K` is the type of coefficient vectors of length `N`, with the *explicit* negacyclic
convolution as multiplication (`X^N = -1`).  This is the ring every ciphertext component lives in
(lattigo `ring.Ring`, not part of /repo).  The commutative-ring axioms are proved by embedding into
Mathlib's `AdjoinRoot (X^N+1)`.
-/

open Polynomial Finset

namespace MKHE

/-- Coefficient vectors of polynomials modulo `X^N + 1`. -/
def Nega (N : ℕ) (K : Type*) : Type _ := Fin N → K

namespace Nega

variable {N : ℕ} {K L : Type*}

@[ext] theorem ext {a b : Nega N K} (h : ∀ i, a i = b i) : a = b := funext h

section Ring
variable [CommRing K]

instance : AddCommGroup (Nega N K) := inferInstanceAs (AddCommGroup (Fin N → K))

@[simp] theorem add_apply (a b : Nega N K) (i : Fin N) : (a + b) i = a i + b i := rfl
@[simp] theorem sub_apply (a b : Nega N K) (i : Fin N) : (a - b) i = a i - b i := rfl
@[simp] theorem neg_apply (a : Nega N K) (i : Fin N) : (-a) i = - a i := rfl
@[simp] theorem zero_apply (i : Fin N) : (0 : Nega N K) i = 0 := rfl

/-- The contribution of `X^i * X^j` to the coefficient of `X^k`, using `X^N = -1`. -/
def sgn (K : Type*) [CommRing K] {N : ℕ} (i j k : Fin N) : K :=
  if (i : ℕ) + j = k then 1 else if (i : ℕ) + j = k + N then -1 else 0

instance : Mul (Nega N K) := ⟨fun a b k => ∑ i, ∑ j, sgn K i j k * (a i * b j)⟩

/-- Negacyclic convolution. -/
theorem mul_apply (a b : Nega N K) (k : Fin N) :
    (a * b) k = ∑ i, ∑ j, sgn K i j k * (a i * b j) := rfl

/-- the constant polynomial `c` -/
def C (c : K) : Nega N K := fun k => if (k : ℕ) = 0 then c else 0

instance : One (Nega N K) := ⟨C 1⟩
instance : NatCast (Nega N K) := ⟨fun n => C n⟩
instance : IntCast (Nega N K) := ⟨fun n => C n⟩
instance : Pow (Nega N K) ℕ := ⟨fun a n => npowRec n a⟩

theorem one_def : (1 : Nega N K) = C 1 := rfl
theorem natCast_def (n : ℕ) : (n : Nega N K) = C (n : K) := rfl
theorem intCast_def (n : ℤ) : (n : Nega N K) = C (n : K) := rfl

/-- The quotient ring. -/
abbrev Quot (N : ℕ) (K : Type*) [CommRing K] := AdjoinRoot (X ^ N + 1 : K[X])

/-- class of `X` -/
noncomputable abbrev rt (N : ℕ) (K : Type*) [CommRing K] : Quot N K := AdjoinRoot.root (X ^ N + 1 : K[X])

theorem rt_pow : (rt N K) ^ N = -1 := by
  have h : AdjoinRoot.mk (X ^ N + 1 : K[X]) (X ^ N + 1) = 0 := AdjoinRoot.mk_self
  rw [map_add, map_pow, AdjoinRoot.mk_X, map_one] at h
  exact eq_neg_of_add_eq_zero_left h

/-- The embedding into the quotient ring. -/
noncomputable def toQuot (a : Nega N K) : Quot N K :=
  ∑ i, AdjoinRoot.of (X ^ N + 1 : K[X]) (a i) * rt N K ^ (i : ℕ)

theorem toQuot_injective : Function.Injective (toQuot (N := N) (K := K)) := by
  intro a b h
  rcases Nat.eq_zero_or_pos N with h0 | hN
  · subst h0; ext i; exact i.elim0
  rcases subsingleton_or_nontrivial K with hs | hs
  · ext i; exact Subsingleton.elim _ _
  have hmon : (X ^ N + 1 : K[X]).Monic := by
    have := monic_X_pow_add_C (1 : K) (Nat.pos_iff_ne_zero.mp hN)
    simpa using this
  have hdeg : (X ^ N + 1 : K[X]).natDegree = N := by
    have := natDegree_X_pow_add_C (n := N) (r := (1 : K))
    simpa using this
  let pa : K[X] := ∑ i : Fin N, Polynomial.C (a i) * X ^ (i : ℕ)
  let pb : K[X] := ∑ i : Fin N, Polynomial.C (b i) * X ^ (i : ℕ)
  have hA : AdjoinRoot.mk (X ^ N + 1 : K[X]) pa = toQuot a := by
    simp only [pa, toQuot, map_sum, map_mul, map_pow, AdjoinRoot.mk_X, AdjoinRoot.mk_C]
  have hB : AdjoinRoot.mk (X ^ N + 1 : K[X]) pb = toQuot b := by
    simp only [pb, toQuot, map_sum, map_mul, map_pow, AdjoinRoot.mk_X, AdjoinRoot.mk_C]
  have hd : (X ^ N + 1 : K[X]) ∣ pa - pb := by
    rw [← AdjoinRoot.mk_eq_zero, map_sub, hA, hB, h, sub_self]
  have hdlt : ∀ c : Fin N → K, (∑ i : Fin N, Polynomial.C (c i) * X ^ (i : ℕ)).degree < (N : WithBot ℕ) := by
    intro c
    refine lt_of_le_of_lt (degree_sum_le _ _) ?_
    rw [Finset.sup_lt_iff (by exact WithBot.bot_lt_coe N)]
    intro i _
    refine lt_of_le_of_lt (degree_C_mul_X_pow_le _ _) ?_
    exact_mod_cast i.2
  have hpd : (pa - pb).degree < (X ^ N + 1 : K[X]).degree := by
    rw [degree_eq_natDegree hmon.ne_zero, hdeg]
    refine lt_of_le_of_lt (degree_sub_le _ _) ?_
    exact max_lt (hdlt a) (hdlt b)
  have hz : pa - pb = 0 := by
    by_contra hne
    exact hmon.not_dvd_of_degree_lt hne hpd hd
  have hcoef : ∀ c : Fin N → K, ∀ k : Fin N,
      (∑ i : Fin N, Polynomial.C (c i) * X ^ (i : ℕ)).coeff k = c k := by
    intro c k
    simp only [finsetSum_coeff, coeff_C_mul_X_pow]
    rw [Finset.sum_eq_single k]
    · simp
    · intro j _ hj
      rw [if_neg]
      intro hh; exact hj (Fin.ext hh.symm)
    · simp
  refine Nega.ext fun k => ?_
  have := congrArg (fun p => Polynomial.coeff p (k : ℕ)) (sub_eq_zero.mp hz)
  simp only [pa, pb] at this
  rw [hcoef a k, hcoef b k] at this
  exact this

theorem toQuot_add (a b : Nega N K) : toQuot (a + b) = toQuot a + toQuot b := by
  simp [toQuot, add_mul, Finset.sum_add_distrib]

theorem toQuot_zero : toQuot (0 : Nega N K) = 0 := by simp [toQuot]

theorem toQuot_neg (a : Nega N K) : toQuot (-a) = - toQuot a := by
  simp [toQuot]

theorem toQuot_sub (a b : Nega N K) : toQuot (a - b) = toQuot a - toQuot b := by
  rw [sub_eq_add_neg, toQuot_add, toQuot_neg, sub_eq_add_neg]

theorem toQuot_C [NeZero N] (c : K) : toQuot (C c : Nega N K) = AdjoinRoot.of _ c := by
  unfold toQuot
  rw [Finset.sum_eq_single (⟨0, Nat.pos_of_ne_zero (NeZero.ne N)⟩ : Fin N)]
  · simp [C]
  · intro j _ hj
    have : (j : ℕ) ≠ 0 := fun h => hj (Fin.ext h)
    simp [C, this]
  · simp

theorem sgn_sum (i j : Fin N) :
    ∑ k : Fin N, AdjoinRoot.of (X ^ N + 1 : K[X]) (sgn K i j k) * rt N K ^ (k : ℕ)
      = rt N K ^ ((i : ℕ) + j) := by
  by_cases h : (i : ℕ) + j < N
  · rw [Finset.sum_eq_single (⟨(i : ℕ) + j, h⟩ : Fin N)]
    · simp [sgn]
    · intro k _ hk
      have h1 : ¬ ((i : ℕ) + j = k) := fun hh => hk (Fin.ext hh.symm)
      have h2 : ¬ ((i : ℕ) + j = k + N) := by omega
      simp [sgn, h1, h2]
    · simp
  · have hi := i.2
    have hj := j.2
    have hlt : (i : ℕ) + j - N < N := by omega
    rw [Finset.sum_eq_single (⟨(i : ℕ) + j - N, hlt⟩ : Fin N)]
    · have h1 : ¬ ((i : ℕ) + j = (i : ℕ) + j - N) := by omega
      have h2 : ((i : ℕ) + j = (i : ℕ) + j - N + N) := by omega
      simp only [sgn]
      rw [if_neg h1, if_pos h2]
      conv_rhs => rw [h2, pow_add, rt_pow]
      simp
    · intro k _ hk
      have hk' : (k : ℕ) ≠ (i : ℕ) + j - N := fun hh => hk (Fin.ext hh)
      have hkN := k.2
      have h1 : ¬ ((i : ℕ) + j = k) := by omega
      have h2 : ¬ ((i : ℕ) + j = k + N) := by omega
      simp [sgn, h1, h2]
    · simp

theorem toQuot_mul (a b : Nega N K) : toQuot (a * b) = toQuot a * toQuot b := by
  have lhs : toQuot (a * b) = ∑ i, ∑ j, AdjoinRoot.of (X ^ N + 1 : K[X]) (a i * b j) *
      ∑ k : Fin N, AdjoinRoot.of (X ^ N + 1 : K[X]) (sgn K i j k) * rt N K ^ (k : ℕ) := by
    simp only [toQuot, mul_apply, map_sum, Finset.sum_mul, Finset.mul_sum]
    rw [Finset.sum_comm]
    refine Finset.sum_congr rfl fun i _ => ?_
    rw [Finset.sum_comm]
    refine Finset.sum_congr rfl fun j _ => ?_
    refine Finset.sum_congr rfl fun k _ => ?_
    rw [map_mul]; ring
  rw [lhs]
  simp only [sgn_sum]
  unfold toQuot
  rw [Finset.sum_mul_sum]
  refine Finset.sum_congr rfl fun i _ => Finset.sum_congr rfl fun j _ => ?_
  rw [map_mul, pow_add]; ring

theorem toQuot_nsmul (n : ℕ) (a : Nega N K) : toQuot (n • a) = n • toQuot a := by
  induction n with
  | zero => simp [toQuot_zero]
  | succ n ih => rw [succ_nsmul, succ_nsmul, toQuot_add, ih]

theorem toQuot_zsmul (n : ℤ) (a : Nega N K) : toQuot (n • a) = n • toQuot a := by
  cases n with
  | ofNat n => simpa using toQuot_nsmul n a
  | negSucc n => rw [negSucc_zsmul, negSucc_zsmul, toQuot_neg, toQuot_nsmul]

noncomputable instance [NeZero N] : CommRing (Nega N K) :=
  Function.Injective.commRing toQuot toQuot_injective toQuot_zero
    (by rw [one_def, toQuot_C, map_one]) toQuot_add toQuot_mul toQuot_neg toQuot_sub
    (fun n a => toQuot_nsmul n a) (fun n a => toQuot_zsmul n a)
    (by
      intro a n
      induction n with
      | zero =>
        change toQuot (1 : Nega N K) = _
        rw [one_def, toQuot_C, map_one, pow_zero]
      | succ n ih =>
        change toQuot (npowRec n a * a) = _
        rw [toQuot_mul, pow_succ]
        congr 1)
    (fun n => by rw [natCast_def, toQuot_C, map_natCast])
    (fun n => by rw [intCast_def, toQuot_C, map_intCast])

/-- The embedding as a ring homomorphism. -/
noncomputable def toQuotHom [NeZero N] : Nega N K →+* Quot N K where
  toFun := toQuot
  map_one' := by rw [one_def, toQuot_C, map_one]
  map_mul' := toQuot_mul
  map_zero' := toQuot_zero
  map_add' := toQuot_add

theorem C_mul [NeZero N] (c : K) (a : Nega N K) (k : Fin N) :
    ((C c : Nega N K) * a) k = c * a k := by
  rw [mul_apply]
  rw [Finset.sum_eq_single (⟨0, Nat.pos_of_ne_zero (NeZero.ne N)⟩ : Fin N)]
  · rw [Finset.sum_eq_single k]
    · simp [sgn, C]
    · intro j _ hj
      have h1 : ¬ ((j : ℕ) = k) := fun h => hj (Fin.ext h)
      have h2 : ¬ ((j : ℕ) = k + N) := by have := j.2; omega
      simp [sgn, h1, h2]
    · simp
  · intro i _ hi
    have : (i : ℕ) ≠ 0 := fun h => hi (Fin.ext h)
    simp [C, this]
  · simp

@[simp] theorem natCast_mul_apply [NeZero N] (n : ℕ) (a : Nega N K) (k : Fin N) :
    ((n : Nega N K) * a) k = n * a k := C_mul (n : K) a k

@[simp] theorem intCast_mul_apply [NeZero N] (n : ℤ) (a : Nega N K) (k : Fin N) :
    ((n : Nega N K) * a) k = n * a k := C_mul (n : K) a k

/-- constants as a ring homomorphism -/
noncomputable def CHom [NeZero N] : K →+* Nega N K where
  toFun := C
  map_one' := rfl
  map_mul' a b := by
    ext k; rw [C_mul]; simp only [C]; split <;> simp
  map_zero' := by ext k; simp [C]
  map_add' a b := by ext k; simp only [C, add_apply]; split <;> simp

@[simp] theorem CHom_apply [NeZero N] (c : K) : (CHom c : Nega N K) = C c := rfl

theorem sum_apply [NeZero N] {ι : Type*} (s : Finset ι) (f : ι → Nega N K) (k : Fin N) :
    (∑ i ∈ s, f i) k = ∑ i ∈ s, f i k := by
  classical
  induction s using Finset.induction_on with
  | empty => simp
  | insert a s ha ih => rw [Finset.sum_insert ha, Finset.sum_insert ha, add_apply, ih]

/-- Coefficientwise application of a ring homomorphism. -/
noncomputable def map [CommRing L] [NeZero N] (f : K →+* L) : Nega N K →+* Nega N L where
  toFun a := fun i => f (a i)
  map_one' := by
    ext k; simp only [one_def, C]; split <;> simp
  map_mul' a b := by
    ext k
    simp only [mul_apply, map_sum, map_mul]
    refine Finset.sum_congr rfl fun i _ => Finset.sum_congr rfl fun j _ => ?_
    congr 1
    by_cases h1 : (i : ℕ) + j = k
    · simp [sgn, h1]
    · by_cases h2 : (i : ℕ) + j = k + N <;> simp [sgn, h2, NeZero.ne N, h1]
  map_zero' := by ext k; simp
  map_add' a b := by ext k; exact map_add f _ _

@[simp] theorem map_apply [CommRing L] [NeZero N] (f : K →+* L) (a : Nega N K) (i : Fin N) :
    map f a i = f (a i) := rfl

/-! ### The Galois automorphism `X ↦ X^g` -/

/-- `X ↦ X^g` on coefficients: coefficient `i` moves to position `i*g mod N` with the sign
`(-1)^(i*g / N)`. -/
def galois (g : ℕ) (a : Nega N K) : Nega N K := fun k =>
  ∑ i : Fin N, if ((i : ℕ) * g) % N = k then (-1) ^ (((i : ℕ) * g) / N) * a i else 0

theorem toQuot_galois [NeZero N] (g : ℕ) (a : Nega N K) :
    toQuot (galois g a) = ∑ i, AdjoinRoot.of (X ^ N + 1 : K[X]) (a i) * (rt N K ^ g) ^ (i : ℕ) := by
  unfold toQuot galois
  simp only [map_sum, Finset.sum_mul]
  rw [Finset.sum_comm]
  refine Finset.sum_congr rfl fun i _ => ?_
  have hN : 0 < N := Nat.pos_of_ne_zero (NeZero.ne N)
  rw [Finset.sum_eq_single (⟨((i : ℕ) * g) % N, Nat.mod_lt _ hN⟩ : Fin N)]
  · rw [if_pos rfl]
    rw [← pow_mul, mul_comm g i]
    conv_rhs => rw [← Nat.div_add_mod ((i : ℕ) * g) N, pow_add, pow_mul, rt_pow]
    simp only [map_mul, map_pow, map_neg, map_one]
    ring
  · intro k _ hk
    rw [if_neg]
    · simp
    · intro hh; exact hk (Fin.ext hh.symm)
  · simp

/-- For odd `g`, `X ↦ X^g` is a ring endomorphism. -/
noncomputable def galoisHom [NeZero N] (g : ℕ) (hg : Odd g) : Nega N K →+* Nega N K where
  toFun := galois g
  map_one' := by
    apply toQuot_injective
    rw [toQuot_galois]
    have := toQuot_C (N := N) (1 : K)
    unfold toQuot at this
    rw [one_def, toQuot_C]
    rw [Finset.sum_eq_single (⟨0, Nat.pos_of_ne_zero (NeZero.ne N)⟩ : Fin N)]
    · simp [C]
    · intro j _ hj
      have : (j : ℕ) ≠ 0 := fun h => hj (Fin.ext h)
      simp [C, this]
    · simp
  map_mul' a b := by
    have hroot : (rt N K ^ g) ^ N = -1 := by
      rw [← pow_mul, mul_comm, pow_mul, rt_pow, hg.neg_one_pow]
    have hev : ((X ^ N + 1 : K[X])).eval₂ (AdjoinRoot.of (X ^ N + 1 : K[X])) (rt N K ^ g) = 0 := by
      simp [eval₂_add, eval₂_pow, hroot]
    let ψ : Quot N K →+* Quot N K := AdjoinRoot.lift (AdjoinRoot.of (X ^ N + 1 : K[X])) (rt N K ^ g) hev
    have key : ∀ c : Nega N K, toQuot (galois g c) = ψ (toQuot c) := by
      intro c
      rw [toQuot_galois]
      simp only [toQuot, map_sum, map_mul, map_pow, ψ, AdjoinRoot.lift_root, AdjoinRoot.lift_of]
    apply toQuot_injective
    rw [toQuot_mul, key, key, key, toQuot_mul, map_mul]
  map_zero' := by ext k; simp [galois]
  map_add' a b := by
    ext k
    simp only [galois, add_apply, ← Finset.sum_add_distrib]
    refine Finset.sum_congr rfl fun i _ => ?_
    split <;> ring

@[simp] theorem galoisHom_apply [NeZero N] (g : ℕ) (hg : Odd g) (a : Nega N K) :
    galoisHom g hg a = galois g a := rfl

theorem galois_map [CommRing L] [NeZero N] (f : K →+* L) (g : ℕ) (a : Nega N K) :
    galois g (map f a) = map f (galois g a) := by
  ext k
  simp only [galois, map_apply, map_sum]
  refine Finset.sum_congr rfl fun i _ => ?_
  split <;> simp

theorem galois_galois [NeZero N] (g h : ℕ) (hg : Odd g) (a : Nega N K) :
    galois g (galois h a) = galois (g * h) a := by
  have hroot : (rt N K ^ g) ^ N = -1 := by
    rw [← pow_mul, mul_comm, pow_mul, rt_pow, hg.neg_one_pow]
  have hev : ((X ^ N + 1 : K[X])).eval₂ (AdjoinRoot.of (X ^ N + 1 : K[X])) (rt N K ^ g) = 0 := by
    simp [eval₂_add, eval₂_pow, hroot]
  let ψ : Quot N K →+* Quot N K := AdjoinRoot.lift (AdjoinRoot.of (X ^ N + 1 : K[X])) (rt N K ^ g) hev
  have key : ∀ c : Nega N K, toQuot (galois g c) = ψ (toQuot c) := by
    intro c
    rw [toQuot_galois]
    simp only [toQuot, map_sum, map_mul, map_pow, ψ, AdjoinRoot.lift_root, AdjoinRoot.lift_of]
  apply toQuot_injective
  rw [key, toQuot_galois, toQuot_galois]
  simp only [map_sum, map_mul, map_pow, ψ, AdjoinRoot.lift_root, AdjoinRoot.lift_of, ← pow_mul, mul_assoc]

/-- `galois` depends on `g` only modulo `2N`. -/
theorem galois_mod [NeZero N] (g : ℕ) (a : Nega N K) : galois (g % (2 * N)) a = galois g a := by
  apply toQuot_injective
  rw [toQuot_galois, toQuot_galois]
  have : rt N K ^ (2 * N) = 1 := by rw [mul_comm, pow_mul, rt_pow]; simp
  have h2 : rt N K ^ (g % (2 * N)) = rt N K ^ g := by
    conv_rhs => rw [← Nat.div_add_mod g (2 * N), pow_add, pow_mul, this, one_pow, one_mul]
  rw [h2]

theorem galois_one [NeZero N] (a : Nega N K) : galois 1 a = a := by
  apply toQuot_injective
  rw [toQuot_galois]
  simp [toQuot]

end Ring

/-! ### Sup-norm on integer polynomials -/

/-- every coefficient has absolute value at most `B` -/
def Bdd (a : Nega N ℤ) (B : ℤ) : Prop := ∀ i, |a i| ≤ B

theorem Bdd.nonneg [NeZero N] {a : Nega N ℤ} {B : ℤ} (h : Bdd a B) : 0 ≤ B :=
  le_trans (abs_nonneg _) (h ⟨0, Nat.pos_of_ne_zero (NeZero.ne N)⟩)

theorem Bdd.mono {a : Nega N ℤ} {B B' : ℤ} (h : Bdd a B) (hB : B ≤ B') : Bdd a B' :=
  fun i => le_trans (h i) hB

theorem Bdd.add {a b : Nega N ℤ} {A B : ℤ} (ha : Bdd a A) (hb : Bdd b B) : Bdd (a + b) (A + B) :=
  fun i => le_trans (abs_add_le _ _) (add_le_add (ha i) (hb i))

theorem Bdd.neg {a : Nega N ℤ} {A : ℤ} (ha : Bdd a A) : Bdd (-a) A := fun i => by
  rw [neg_apply, abs_neg]; exact ha i

theorem Bdd.sub {a b : Nega N ℤ} {A B : ℤ} (ha : Bdd a A) (hb : Bdd b B) : Bdd (a - b) (A + B) := by
  rw [sub_eq_add_neg]; exact ha.add hb.neg

theorem Bdd.zero : Bdd (0 : Nega N ℤ) 0 := fun i => by simp

theorem Bdd.sum [NeZero N] {ι : Type*} (s : Finset ι) (f : ι → Nega N ℤ) (B : ι → ℤ)
    (h : ∀ i ∈ s, Bdd (f i) (B i)) : Bdd (∑ i ∈ s, f i) (∑ i ∈ s, B i) := by
  classical
  induction s using Finset.induction_on with
  | empty => simpa using Bdd.zero
  | insert a s ha ih =>
    rw [Finset.sum_insert ha, Finset.sum_insert ha]
    exact (h a (by simp)).add (ih fun i hi => h i (by simp [hi]))

theorem sgn_abs_sum (i k : Fin N) : ∑ j : Fin N, |sgn ℤ i j k| ≤ 1 := by
  by_cases h : (i : ℕ) ≤ k
  · have hk := k.2
    rw [Finset.sum_eq_single (⟨(k : ℕ) - i, by omega⟩ : Fin N)]
    · have : (i : ℕ) + (k - i) = k := by omega
      simp [sgn, this]
    · intro j _ hj
      have hj' : (j : ℕ) ≠ k - i := fun hh => hj (Fin.ext hh)
      have h1 : ¬ ((i : ℕ) + j = k) := by omega
      have h2 : ¬ ((i : ℕ) + j = k + N) := by have := j.2; omega
      simp [sgn, h1, h2]
    · simp
  · have hi := i.2
    rw [Finset.sum_eq_single (⟨(k : ℕ) + N - i, by omega⟩ : Fin N)]
    · have h1 : ¬ ((i : ℕ) + (k + N - i) = k) := by omega
      have h2 : (i : ℕ) + (k + N - i) = k + N := by omega
      simp only [sgn]
      rw [if_neg h1, if_pos h2]; simp
    · intro j _ hj
      have hj' : (j : ℕ) ≠ k + N - i := fun hh => hj (Fin.ext hh)
      have h1 : ¬ ((i : ℕ) + j = k) := by omega
      have h2 : ¬ ((i : ℕ) + j = k + N) := by have := j.2; omega
      simp [sgn, h1, h2]
    · simp

/-- `‖ab‖∞ ≤ N ‖a‖∞ ‖b‖∞` -/
theorem Bdd.mul [NeZero N] {a b : Nega N ℤ} {A B : ℤ} (ha : Bdd a A) (hb : Bdd b B) :
    Bdd (a * b) (N * A * B) := by
  intro k
  rw [mul_apply]
  have hA := ha.nonneg
  have hB := hb.nonneg
  calc |∑ i, ∑ j, sgn ℤ i j k * (a i * b j)|
      ≤ ∑ i, |∑ j, sgn ℤ i j k * (a i * b j)| := Finset.abs_sum_le_sum_abs _ _
    _ ≤ ∑ i : Fin N, A * B := by
        refine Finset.sum_le_sum fun i _ => ?_
        calc |∑ j, sgn ℤ i j k * (a i * b j)|
            ≤ ∑ j, |sgn ℤ i j k * (a i * b j)| := Finset.abs_sum_le_sum_abs _ _
          _ ≤ ∑ j, |sgn ℤ i j k| * (A * B) := by
              refine Finset.sum_le_sum fun j _ => ?_
              rw [abs_mul, abs_mul]
              exact mul_le_mul_of_nonneg_left
                (mul_le_mul (ha i) (hb j) (abs_nonneg _) hA) (abs_nonneg _)
          _ = (∑ j, |sgn ℤ i j k|) * (A * B) := by rw [Finset.sum_mul]
          _ ≤ 1 * (A * B) := mul_le_mul_of_nonneg_right (sgn_abs_sum i k) (mul_nonneg hA hB)
          _ = A * B := one_mul _
    _ = N * A * B := by simp [mul_assoc]

theorem Bdd.natMul [NeZero N] {a : Nega N ℤ} {A : ℤ} (n : ℕ) (ha : Bdd a A) :
    Bdd ((n : Nega N ℤ) * a) (n * A) := by
  intro k
  rw [natCast_mul_apply, abs_mul, Nat.abs_cast]
  exact mul_le_mul_of_nonneg_left (ha k) (Nat.cast_nonneg n)

/-- reduction of an integer polynomial modulo `q` -/
noncomputable def red [NeZero N] (q : ℕ) : Nega N ℤ →+* Nega N (ZMod q) := map (Int.castRingHom (ZMod q))

@[simp] theorem red_apply [NeZero N] (q : ℕ) (a : Nega N ℤ) (i : Fin N) :
    red q a i = (a i : ZMod q) := rfl

theorem red_eq_zero_iff [NeZero N] (q : ℕ) (a : Nega N ℤ) :
    red q a = 0 ↔ ∀ i, (q : ℤ) ∣ a i := by
  constructor
  · intro h i
    have := congrFun h i
    rw [red_apply] at this
    exact (ZMod.intCast_zmod_eq_zero_iff_dvd _ _).mp this
  · intro h
    ext i
    exact (ZMod.intCast_zmod_eq_zero_iff_dvd _ _).mpr (h i)

end Nega
end MKHE
