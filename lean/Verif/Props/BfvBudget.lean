import Verif.Props.BfvSetup

set_option autoImplicit false

/-!
# C58: a noise budget in bits

For fixed parameters the noise bound of a program is at most `2^bits`, where `bits` is computed by a simple rule: `F` for an input, one more than the larger
operand for a sum, a difference, a rotation or a conjugation, `M` more than the larger operand for a product.
-/

namespace MKHE.C58
open Finset Nega

variable {N : ℕ} [NeZero N] {B : BCtx N}

/-- the budget rule -/
def Circ.bits (F M : ℕ) : Circ → ℕ
  | .input _ => F
  | .add a b => max (a.bits F M) (b.bits F M) + 1
  | .sub a b => max (a.bits F M) (b.bits F M) + 1
  | .mul a b => max (a.bits F M) (b.bits F M) + M
  | .rot _ a => a.bits F M + 1
  | .conj a => a.bits F M + 1

theorem Circ.le_bits (F M : ℕ) (c : Circ) : F ≤ c.bits F M := by
  induction c with
  | input n => exact le_rfl
  | add a b iha ihb => exact iha.trans ((le_max_left _ _).trans (Nat.le_add_right _ _))
  | sub a b iha ihb => exact iha.trans ((le_max_left _ _).trans (Nat.le_add_right _ _))
  | mul a b iha ihb => exact iha.trans ((le_max_left _ _).trans (Nat.le_add_right _ _))
  | rot r a iha => exact iha.trans (Nat.le_add_right _ _)
  | conj a iha => exact iha.trans (Nat.le_add_right _ _)

theorem bmulNoise_mono {P QMul n0 n1 nU bt k : ℕ} (h0 : n0 ≤ k) (h1 : n1 ≤ k) (hU : nU ≤ k) {D Sb Rb Be : ℤ} (hD : 0 ≤ D) (hS : 0 ≤ Sb)
    (hR : 0 ≤ Rb) (hB : 0 ≤ Be) : bmulNoise N P QMul n0 n1 nU bt D Sb Rb Be ≤ bmulNoise N P QMul k k k bt D Sb Rb Be := by
  unfold bmulNoise
  gcongr

theorem noise_mono {n0 n1 nU k : ℕ} (h0 : n0 ≤ k) (h1 : n1 ≤ k) (hU : nU ≤ k) {D Sb Rb Be : ℤ} (hD : 0 ≤ D) (hS : 0 ≤ Sb) (hR : 0 ≤ Rb) (hB : 0 ≤ Be) :
    C45.noise B n0 n1 nU D Sb Rb Be ≤ C45.noise B k k k D Sb Rb Be := by
  unfold C45.noise C45.liftBound
  have := bmulNoise_mono (N := N) (P := B.C.P) (QMul := B.QMul) (bt := B.bt) h0 h1 hU hD hS hR hB
  gcongr

theorem rotNoise_mono {P n beta k : ℕ} (h : n ≤ k) {D Sb Be : ℤ} (hD : 0 ≤ D) (hS : 0 ≤ Sb) (hB : 0 ≤ Be) :
    C33.rotNoise N P n beta D Sb Be ≤ C33.rotNoise N P k beta D Sb Be := by
  unfold C33.rotNoise
  gcongr

theorem popcount_le (j r : ℕ) (h : r < 2 ^ j) : popcount r ≤ j := by
  unfold popcount onBits
  refine (card_filter_le _ _).trans ?_
  rw [card_range]
  exact Nat.size_le.mpr h

theorem rotCount_le {crs : GoMap ℤ (Swk B.C)} {k : ℕ} (h : N = 2 ^ (k + 1)) (r : ℤ) (hk : 1 ≤ k) : C35.rotCount crs (C35.amount N r) ≤ k := by
  have hlt : C35.amount N r < 2 ^ k := by
    unfold C35.amount
    have h2 : N / 2 = 2 ^ k := by rw [h, pow_succ]; omega
    rw [h2]
    have hp : (0 : ℤ) < ((2 ^ k : ℕ) : ℤ) := by positivity
    have h3 := Int.emod_lt_of_pos r hp
    have h4 := Int.emod_nonneg r hp.ne'
    omega
  unfold C35.rotCount
  split_ifs
  · omega
  · omega
  · exact popcount_le _ _ hlt

/-- What makes `F` and `M` a budget for at most `k` parties: numbers only. -/
structure Budget (B : BCtx N) (k : ℕ) (D Sb Rb Be : ℤ) (F M : ℕ) : Prop where
  logN : 2 ≤ B.C.logN
  D0 : 0 ≤ D
  S0 : 0 ≤ Sb
  R0 : 0 ≤ Rb
  B0 : 0 ≤ Be
  /-- a key switch of a rotation -/
  rot : B.t * ((B.C.logN - 1 : ℕ) * C33.rotNoise N B.C.P k B.bt D Sb Be / B.C.P) ≤ 2 ^ F
  /-- growth of the noise of the operands, and the noise a product adds -/
  mul : N * (5 * (B.t * (1 + k * (N * Sb))) + 3) * 2 ^ F + (B.t * C45.noise B k k k D Sb Rb Be / (B.Q * (B.QMul * B.C.P)) + 1) ≤ 2 ^ (F + M)

/-- the noise of a product, with operands of noise at most `X ≤ Q` -/
theorem mulBound_le (V : B.Valid) {n0 n1 nU k : ℕ} (h0 : n0 ≤ k) (h1 : n1 ≤ k) (hU : nU ≤ k) {D Sb Rb Be : ℤ} (hD : 0 ≤ D) (hS : 0 ≤ Sb) (hR : 0 ≤ Rb)
    (hB : 0 ≤ Be) {B0 B1 X : ℤ} (b0 : 0 ≤ B0) (b1 : 0 ≤ B1) (x0 : B0 ≤ X) (x1 : B1 ≤ X) (hX : X ≤ B.Q) :
    mulBound B n0 n1 nU D Sb Rb Be B0 B1 ≤ N * (5 * (B.t * (1 + k * (N * Sb))) + 3) * X +
      (B.t * C45.noise B k k k D Sb Rb Be / (B.Q * (B.QMul * B.C.P)) + 1) := by
  have hQ : (0 : ℤ) < B.Q := by exact_mod_cast V.Q_pos
  have hM : (0 : ℤ) < B.QMul := by exact_mod_cast V.QMul_pos
  have hP : (0 : ℤ) < B.C.P := by exact_mod_cast V.qp.P_pos
  have hMP : (0 : ℤ) < B.QMul * B.C.P := mul_pos hM hP
  have hX0 : 0 ≤ X := b0.trans x0
  have hL0 : ∀ n ≤ k, C45.liftBound N B.Q n Sb ≤ B.Q * (1 + k * (N * Sb)) := fun n hn => by
    unfold C45.liftBound
    have : (n : ℤ) * (N * B.Q * Sb) ≤ k * (N * B.Q * Sb) := by gcongr
    linarith
  have hL1 : ∀ n : ℕ, 0 ≤ C45.liftBound N B.Q n Sb := fun n => by unfold C45.liftBound; positivity
  unfold mulBound
  set W := B.t * C45.noise B k k k D Sb Rb Be with hW
  have hnm : B.t * C45.noise B n0 n1 nU D Sb Rb Be ≤ W := by
    rw [hW]
    have := noise_mono (B := B) h0 h1 hU hD hS hR hB
    gcongr
  set L : ℤ := 1 + k * (N * Sb) with hL
  have hLp : 0 ≤ L := by rw [hL]; positivity
  have e1 : N * (B.t * (2 * C45.liftBound N B.Q n0 Sb) + B0) * B1 ≤ N * (B.t * (2 * (B.Q * L)) + B.Q) * X := by
    have := hL0 n0 h0
    have := hL1 n0
    have hB0Q : B0 ≤ B.Q := x0.trans hX
    gcongr
  have e2 : N * (B.t * (3 * C45.liftBound N B.Q n1 Sb) + B1) * B0 ≤ N * (B.t * (3 * (B.Q * L)) + B.Q) * X := by
    have := hL0 n1 h1
    have := hL1 n1
    have hB1Q : B1 ≤ B.Q := x1.trans hX
    gcongr
  have e3 : N * B0 * B1 ≤ N * B.Q * X := by
    have hB0Q : B0 ≤ B.Q := x0.trans hX
    gcongr
  have hden : (0 : ℤ) < B.Q * (B.QMul * B.C.P) := mul_pos hQ hMP
  have key : B.QMul * B.C.P * (N * (B.t * (2 * C45.liftBound N B.Q n0 Sb) + B0) * B1 + N * (B.t * (3 * C45.liftBound N B.Q n1 Sb) + B1) * B0 + N * B0 * B1)
      + B.t * C45.noise B n0 n1 nU D Sb Rb Be ≤ B.Q * (B.QMul * B.C.P) * (N * (5 * (B.t * L) + 3) * X) + W := by
    have h3 : N * (B.t * (2 * C45.liftBound N B.Q n0 Sb) + B0) * B1 + N * (B.t * (3 * C45.liftBound N B.Q n1 Sb) + B1) * B0 + N * B0 * B1 ≤
        B.Q * (N * (5 * (B.t * L) + 3) * X) := by
      calc _ ≤ N * (B.t * (2 * (B.Q * L)) + B.Q) * X + N * (B.t * (3 * (B.Q * L)) + B.Q) * X + N * B.Q * X := add_le_add (add_le_add e1 e2) e3
        _ = _ := by ring
    have h4 := mul_le_mul_of_nonneg_left h3 hMP.le
    calc _ ≤ B.QMul * B.C.P * (B.Q * (N * (5 * (B.t * L) + 3) * X)) + W := add_le_add h4 hnm
      _ = _ := by ring
  calc _ ≤ (B.Q * (B.QMul * B.C.P) * (N * (5 * (B.t * L) + 3) * X) + W) / (B.Q * (B.QMul * B.C.P)) := Int.ediv_le_ediv hden key
    _ = N * (5 * (B.t * L) + 3) * X + W / (B.Q * (B.QMul * B.C.P)) := by rw [add_comm, Int.add_mul_ediv_left _ _ hden.ne', add_comm]
    _ ≤ _ := by linarith

theorem mulBound_nonneg {n0 n1 nU : ℕ} {D Sb Rb Be : ℤ} (hD : 0 ≤ D) (hS : 0 ≤ Sb) (hR : 0 ≤ Rb)
    (hB : 0 ≤ Be) {B0 B1 : ℤ} (b0 : 0 ≤ B0) (b1 : 0 ≤ B1) : 0 ≤ mulBound B n0 n1 nU D Sb Rb Be B0 B1 := by
  unfold mulBound C45.noise C45.liftBound bmulNoise
  positivity

theorem Circ.noise_nonneg {crs : GoMap ℤ (Swk B.C)} {I : ℕ → Finset String} {Bin : ℕ → ℤ} (hin : ∀ n, 0 ≤ Bin n)
    {D Sb Rb Be : ℤ} (hD : 0 ≤ D) (hS : 0 ≤ Sb) (hR : 0 ≤ Rb) (hB : 0 ≤ Be) (c : Circ) : 0 ≤ c.noise B crs I Bin D Sb Rb Be := by
  induction c with
  | input n => exact hin n
  | add a b iha ihb => exact add_nonneg iha ihb
  | sub a b iha ihb => exact add_nonneg iha ihb
  | mul a b iha ihb => exact mulBound_nonneg hD hS hR hB iha ihb
  | rot r a iha => unfold Circ.noise C33.rotNoise; positivity
  | conj a iha => unfold Circ.noise C33.rotNoise; positivity

/-- **C58, noise budget.** If the parties of the inputs are among `U` with at most `k` members and the bits of the program are at most those of Q, the noise
bound of the program is at most `2^bits`. -/
theorem Circ.noise_le_bits (V : B.Valid) {k F M : ℕ} {D Sb Rb Be : ℤ} (H : Budget B k D Sb Rb Be F M) {crs : GoMap ℤ (Swk B.C)} {I : ℕ → Finset String}
    {U : Finset String} (hU : U.card ≤ k) {Bin : ℕ → ℤ} (hin0 : ∀ n, 0 ≤ Bin n) (hin : ∀ n, Bin n ≤ 2 ^ F) (c : Circ) (hI : ∀ n ∈ c.inputs, I n ⊆ U)
    (hb : (2 : ℤ) ^ c.bits F M ≤ B.Q) : c.noise B crs I Bin D Sb Rb Be ≤ 2 ^ c.bits F M := by
  have hids : ∀ c' : Circ, c'.inputs ⊆ c.inputs → c'.ids I ⊆ U := by
    intro c'
    induction c' with
    | input n => exact fun h => hI n (h (mem_singleton_self n))
    | add a b iha ihb => exact fun h => union_subset (iha (subset_union_left.trans h)) (ihb (subset_union_right.trans h))
    | sub a b iha ihb => exact fun h => union_subset (iha (subset_union_left.trans h)) (ihb (subset_union_right.trans h))
    | mul a b iha ihb => exact fun h => union_subset (iha (subset_union_left.trans h)) (ihb (subset_union_right.trans h))
    | rot r a iha => exact fun h => iha h
    | conj a iha => exact fun h => iha h
  have hcard : ∀ c' : Circ, c'.inputs ⊆ c.inputs → (c'.ids I).card ≤ k := fun c' h => (card_le_card (hids c' h)).trans hU
  have pw : ∀ {a b : ℕ}, a ≤ b → (2 : ℤ) ^ a ≤ 2 ^ b := fun h => pow_le_pow_right₀ (by norm_num) h
  have hlog : N = 2 ^ ((B.C.logN - 1) + 1) := by rw [show B.C.logN - 1 + 1 = B.C.logN by have := V.qp.log1; omega]; exact V.qp.hN
  have hP : (0 : ℤ) < B.C.P := by exact_mod_cast V.qp.P_pos
  have hrn : 0 ≤ C33.rotNoise N B.C.P k B.bt D Sb Be := by
    unfold C33.rotNoise
    have := H.D0; have := H.S0; have := H.B0
    positivity
  have hrot : ∀ (m n : ℕ), m ≤ B.C.logN - 1 → n ≤ k → B.t * (m * C33.rotNoise N B.C.P n B.bt D Sb Be / B.C.P) ≤ 2 ^ F := fun m n hm hn => by
    refine le_trans ?_ H.rot
    have h2 := rotNoise_mono (N := N) (P := B.C.P) (beta := B.bt) hn H.D0 H.S0 H.B0
    refine mul_le_mul_of_nonneg_left (Int.ediv_le_ediv hP ?_) (by positivity)
    calc (m : ℤ) * C33.rotNoise N B.C.P n B.bt D Sb Be ≤ m * C33.rotNoise N B.C.P k B.bt D Sb Be := mul_le_mul_of_nonneg_left h2 (by positivity)
      _ ≤ _ := mul_le_mul_of_nonneg_right (by exact_mod_cast hm) hrn
  have main : ∀ c' : Circ, c'.inputs ⊆ c.inputs → (2 : ℤ) ^ c'.bits F M ≤ B.Q → c'.noise B crs I Bin D Sb Rb Be ≤ 2 ^ c'.bits F M := by
    intro c'
    induction c' with
    | input n => exact fun _ _ => hin n
    | add a b iha ihb =>
      intro h hq
      have ha := (iha (subset_union_left.trans h) ((pw ((le_max_left _ _).trans (Nat.le_add_right _ _))).trans hq)).trans (pw (le_max_left (a.bits F M) (b.bits F M)))
      have hb := (ihb (subset_union_right.trans h) ((pw ((le_max_right _ _).trans (Nat.le_add_right _ _))).trans hq)).trans (pw (le_max_right (a.bits F M) (b.bits F M)))
      show a.noise B crs I Bin D Sb Rb Be + b.noise B crs I Bin D Sb Rb Be ≤ 2 ^ (max (a.bits F M) (b.bits F M) + 1)
      rw [pow_succ]; linarith
    | sub a b iha ihb =>
      intro h hq
      have ha := (iha (subset_union_left.trans h) ((pw ((le_max_left _ _).trans (Nat.le_add_right _ _))).trans hq)).trans (pw (le_max_left (a.bits F M) (b.bits F M)))
      have hb := (ihb (subset_union_right.trans h) ((pw ((le_max_right _ _).trans (Nat.le_add_right _ _))).trans hq)).trans (pw (le_max_right (a.bits F M) (b.bits F M)))
      show a.noise B crs I Bin D Sb Rb Be + b.noise B crs I Bin D Sb Rb Be ≤ 2 ^ (max (a.bits F M) (b.bits F M) + 1)
      rw [pow_succ]; linarith
    | mul a b iha ihb =>
      intro h hq
      have ha := (iha (subset_union_left.trans h) ((pw ((le_max_left _ _).trans (Nat.le_add_right _ _))).trans hq)).trans (pw (le_max_left (a.bits F M) (b.bits F M)))
      have hb := (ihb (subset_union_right.trans h) ((pw ((le_max_right _ _).trans (Nat.le_add_right _ _))).trans hq)).trans (pw (le_max_right (a.bits F M) (b.bits F M)))
      have hXQ : (2 : ℤ) ^ max (a.bits F M) (b.bits F M) ≤ B.Q := (pw (Nat.le_add_right _ M)).trans hq
      have hF : F ≤ max (a.bits F M) (b.bits F M) := (Circ.le_bits F M a).trans (le_max_left _ _)
      show mulBound B _ _ _ D Sb Rb Be _ _ ≤ 2 ^ (max (a.bits F M) (b.bits F M) + M)
      generalize max (a.bits F M) (b.bits F M) = m at *
      refine (mulBound_le V (hcard a (subset_union_left.trans h)) (hcard b (subset_union_right.trans h)) (hcard (.mul a b) h) H.D0 H.S0 H.R0 H.B0
        (Circ.noise_nonneg hin0 H.D0 H.S0 H.R0 H.B0 a) (Circ.noise_nonneg hin0 H.D0 H.S0 H.R0 H.B0 b) ha hb hXQ).trans ?_
      have hm : (1 : ℤ) ≤ 2 ^ (m - F) := one_le_pow₀ (by norm_num)
      have hc : 0 ≤ B.t * C45.noise B k k k D Sb Rb Be / (B.Q * (B.QMul * B.C.P)) + 1 := by
        have := H.D0; have := H.S0; have := H.B0; have := H.R0
        unfold C45.noise C45.liftBound bmulNoise; positivity
      have e1 : (2 : ℤ) ^ m = 2 ^ F * 2 ^ (m - F) := by rw [← pow_add]; congr 1; omega
      calc _ ≤ N * (5 * (B.t * (1 + k * (N * Sb))) + 3) * 2 ^ m +
            (B.t * C45.noise B k k k D Sb Rb Be / (B.Q * (B.QMul * B.C.P)) + 1) * 2 ^ (m - F) := by nlinarith
        _ = (N * (5 * (B.t * (1 + k * (N * Sb))) + 3) * 2 ^ F + (B.t * C45.noise B k k k D Sb Rb Be / (B.Q * (B.QMul * B.C.P)) + 1)) * 2 ^ (m - F) := by
            rw [e1]; ring
        _ ≤ 2 ^ (F + M) * 2 ^ (m - F) := mul_le_mul_of_nonneg_right H.mul (by positivity)
        _ = 2 ^ (m + M) := by rw [← pow_add]; congr 1; omega
    | rot r a iha =>
      intro h hq
      have ha := iha h ((pw (Nat.le_add_right _ 1)).trans hq)
      have h2 := (hrot _ _ (rotCount_le (crs := crs) hlog r (by have := H.logN; omega)) (hcard a h)).trans (pw (Circ.le_bits F M a))
      show a.noise B crs I Bin D Sb Rb Be + _ ≤ 2 ^ (a.bits F M + 1)
      rw [pow_succ]; linarith
    | conj a iha =>
      intro h hq
      have ha := iha h ((pw (Nat.le_add_right _ 1)).trans hq)
      have h2 := (hrot 1 _ (by have := H.logN; omega) (hcard a h)).trans (pw (Circ.le_bits F M a))
      rw [Nat.cast_one, one_mul] at h2
      show a.noise B crs I Bin D Sb Rb Be + _ ≤ 2 ^ (a.bits F M + 1)
      rw [pow_succ]; linarith
  exact main c (Finset.Subset.refl _) hb

end MKHE.C58

namespace MKHE.C58
open Finset Nega

/-! ## programs by depth -/

/-- multiplicative depth -/
def Circ.mulDepth : Circ → ℕ
  | .input _ => 0
  | .add a b => max a.mulDepth b.mulDepth
  | .sub a b => max a.mulDepth b.mulDepth
  | .mul a b => max a.mulDepth b.mulDepth + 1
  | .rot _ a => a.mulDepth
  | .conj a => a.mulDepth

/-- largest number of additions, subtractions, rotations and conjugations on a path from the result to an input -/
def Circ.linDepth : Circ → ℕ
  | .input _ => 0
  | .add a b => max a.linDepth b.linDepth + 1
  | .sub a b => max a.linDepth b.linDepth + 1
  | .mul a b => max a.linDepth b.linDepth
  | .rot _ a => a.linDepth + 1
  | .conj a => a.linDepth + 1

theorem Circ.bits_le (F M : ℕ) (c : Circ) : c.bits F M ≤ F + M * c.mulDepth + c.linDepth := by
  have step : ∀ {x y a b a' b' : ℕ}, x ≤ F + M * a + b → y ≤ F + M * a' + b' → max x y ≤ F + M * max a a' + max b b' := fun {x y a b a' b'} h1 h2 => by
    have e1 : M * a ≤ M * max a a' := Nat.mul_le_mul_left _ (le_max_left _ _)
    have e2 : M * a' ≤ M * max a a' := Nat.mul_le_mul_left _ (le_max_right _ _)
    have e3 := le_max_left b b'
    have e4 := le_max_right b b'
    exact max_le (by omega) (by omega)
  induction c with
  | input n => exact Nat.le_add_right _ _
  | add a b iha ihb => have := step iha ihb; show max _ _ + 1 ≤ F + M * max _ _ + (max _ _ + 1); omega
  | sub a b iha ihb => have := step iha ihb; show max _ _ + 1 ≤ F + M * max _ _ + (max _ _ + 1); omega
  | mul a b iha ihb => have := step iha ihb; show max _ _ + M ≤ F + M * (max _ _ + 1) + max _ _; rw [Nat.mul_add]; omega
  | rot r a iha => show _ + 1 ≤ F + M * a.mulDepth + (a.linDepth + 1); omega
  | conj a iha => show _ + 1 ≤ F + M * a.mulDepth + (a.linDepth + 1); omega

variable {N : ℕ} [NeZero N] {B : BCtx N}

/-- **C58, a client with a budget.** As `client_ok`, with the condition on the noise replaced by the budget: the depths of the program. -/
theorem client_budget (V : B.Valid) {Be : ℤ} (hB : B.C.SmallBound Be) {gs : ℕ → Nega N ℤ} (hg : ∀ n, Bdd (gs n) Be)
    (rand : ℕ → PolyQP B.C) (mform : PolyQP B.C → PolyQP B.C) {s r : String → Nega N ℤ} {Sb Rb : ℤ} (hs : ∀ id, Bdd (s id) Sb) (hSb : Sb ≤ Be)
    (hr : ∀ id, Bdd (r id) Rb) (hRb : Rb ≤ Be) (kg : KG B.C) (ids : List String) (h0 : "0" ∉ ids) {us es : ℕ → Nega N ℤ} {Bu Bg Bm : ℤ}
    (hu : ∀ n, Bdd (us n) Bu) (he : ∀ n, Bdd (es n) Bg) (st : Enc B.C) (ins : List (Input B))
    (hins : ∀ x ∈ ins, x.owner ∈ ids ∧ Encodes B x.pt x.msg Bm) (c : Circ) (hc : ∀ n ∈ c.inputs, n < ins.length)
    {D : ℤ} (hD : ∀ k < 2 * B.bt, 3 * (B.blockR k : ℤ) ≤ D) (hD' : ∀ k < B.bt, 2 * (B.C.blockProd B.top k : ℤ) ≤ D)
    {m : ℕ → Nega N ℤ} (hm : ∀ (n : ℕ) (x : Input B), ins[n]? = some x → m n = x.msg)
    {k F M : ℕ} (H : Budget B k D Sb Rb Be F M) (hk : ids.length ≤ k) (hF0 : 0 ≤ freshNoise B Bm Bu Bg Be Sb) (hF : freshNoise B Bm Bu Bg Be Sb ≤ 2 ^ F)
    (hbits : 2 * (2 : ℤ) ^ (F + M * c.mulDepth + c.linDepth) < B.Q)
    (oe : ℕ → Sched String) (o : List ℕ → ℕ → Sched String) (S : BScratch B) (hS : S.Alloc) (od : Sched String) :
    ∃ p, client (C16.crsOf (newCrs rand mform B.C.fm B.C.dims)) gs s r kg ids us es st ins c oe o S od = .ok p ∧
      (∃ Φ : Nega N ℤ, ∀ i < B.C.nQ, cf (p.coeffs i) = red (B.C.q i) Φ) ∧
      ∀ Φ : Nega N ℤ, (∀ i < B.C.nQ, cf (p.coeffs i) = red (B.C.q i) Φ) → ∀ x,
        (2 * (B.t * Φ x) + B.Q) / (2 * B.Q) ≡ c.val m x [ZMOD B.t] := by
  obtain ⟨c1, c2⟩ := C16.newCrs_default V.qp rand mform
  have hb : (2 : ℤ) ^ c.bits F M ≤ 2 ^ (F + M * c.mulDepth + c.linDepth) := pow_le_pow_right₀ (by norm_num) (Circ.bits_le F M c)
  have hpos : (0 : ℤ) < 2 ^ (F + M * c.mulDepth + c.linDepth) := by positivity
  have hn := Circ.noise_le_bits V H (crs := C16.crsOf (newCrs rand mform B.C.fm B.C.dims))
    (I := fun n => {((ins[n]?).map Input.owner).getD ""}) (U := ids.toFinset) ((List.toFinset_card_le ids).trans hk)
    (Bin := fun _ => freshNoise B Bm Bu Bg Be Sb) (fun _ => hF0) (fun _ => hF) c (fun n hn => by
      have h1 := hc n hn
      rw [singleton_subset_iff, List.getElem?_eq_getElem h1]
      exact List.mem_toFinset.mpr (hins _ (List.getElem_mem h1)).1) (by linarith)
  exact client_ok V hB hg c1 c2 hs hSb hr hRb kg ids h0 hu he st ins hins c hc hD hD'
    (owner := fun n => ((ins[n]?).map Input.owner).getD "") (m := m) (fun n x hx => ⟨by rw [hx]; rfl, hm n x hx⟩) (by linarith) oe o S hS od

end MKHE.C58
