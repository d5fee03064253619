import Verif.Props.Cnn
import Verif.Lemmas.CnnPack

set_option autoImplicit false

/-!
# C49: the encrypted neural network computes the network

On the slots the packing of cnn_test.go leaves, the slot formulas of the layers give the scores of the network in the clear.
-/

namespace MKHE.C49
open Finset Cnn

/-- a slice of 8192 as a vector of slots -/
def cyc (a : Arr) (j : ℤ) : ℂ := a (j % 8192).toNat

theorem cyc_nat (a : Arr) (p : ℕ) : cyc a p = a (p % 8192) := by
  unfold cyc
  congr 1

theorem cyc_eq (a : Arr) (j : ℤ) (p : ℕ) (h : j % 8192 = (p : ℤ) % 8192) : cyc a j = a (p % 8192) := by
  rw [← cyc_nat a p]
  unfold cyc
  rw [h]

theorem block_arith (Q a r s : ℕ) (h : r + s < 1024) :
    (1024 * Q + r + 1024 * a + s) % 8192 % 4096 = 1024 * ((Q + a) % 4) + (r + s) ∧ (1024 * Q + r + 1024 * a + s) % 8192 % 1024 = r + s := by
  omega

theorem place_arith {k i x u v : ℕ} (hi : i < 13) (hx : x < 13) (hu : u < 2) (hv : v < 2) :
    (196 * k + 14 * i + x + (v + 14 * u)) % 196 / 14 = i + u ∧ (196 * k + 14 * i + x + (v + 14 * u)) % 14 = x + v ∧
      (196 * k + 14 * i + x + (v + 14 * u)) / 196 = k := by
  have e : 196 * k + 14 * i + x + (v + 14 * u) = 196 * k + (14 * (i + u) + (x + v)) := by ring
  rw [e]
  generalize hm : 14 * (i + u) + (x + v) = m
  have hm' : m < 196 := by omega
  have e1 : (196 * k + m) % 196 = m := by omega
  refine ⟨?_, ?_, by omega⟩
  · rw [e1]; omega
  · omega

theorem imageAt_block (im : ℕ → ℕ → ℂ) {q k i x u v : ℕ} (hk : k < 5) (hi : i < 13) (hx : x < 13) (hu : u < 2) (hv : v < 2) :
    imageAt im (1024 * q + (196 * k + 14 * i + x + (v + 14 * u))) = im (2 * i + (q / 2 + 2 * u)) (2 * x + (q % 2 + 2 * v)) := by
  obtain ⟨a1, a2, a3⟩ := place_arith (k := k) hi hx hu hv
  have hlt : 196 * k + 14 * i + x + (v + 14 * u) < 1024 := by omega
  unfold imageAt
  rw [Nat.mul_add_mod, Nat.mod_eq_of_lt hlt, Nat.mul_add_div (by norm_num), Nat.div_eq_of_lt hlt, add_zero, a1, a2]
  congr 1 <;> ring

theorem kernelAt_block (ker : ℕ → ℕ → ℕ → ℂ) {q t r : ℕ} (hr : r < 1024) :
    kernelAt ker (t, 1024 * q + r) = ker (r / 196) (q / 2 + 2 * (t / 2)) (q % 2 + 2 * (t % 2)) := by
  unfold kernelAt
  dsimp only
  rw [Nat.mul_add_mod, Nat.mod_eq_of_lt hr, Nat.mul_add_div (by norm_num), Nat.div_eq_of_lt hr, add_zero]

/-- a place and its kernel, row and column -/
theorem place_split {r : ℕ} (hr : r < 1024) (h : Place r) :
    ∃ k i x, r = 196 * k + 14 * i + x ∧ k < 5 ∧ i < 13 ∧ x < 13 ∧ r / 196 = k ∧ r % 196 / 14 = i ∧ r % 14 = x := by
  obtain ⟨p1, p2, p3⟩ := h
  rw [Nat.mod_eq_of_lt hr] at p1 p2 p3
  exact ⟨r / 196, r % 196 / 14, r % 14, by omega, by omega, p2, p3, rfl, rfl, rfl⟩

section Conv
variable {im : ℕ → ℕ → ℂ} {ker : ℕ → ℕ → ℕ → ℂ} {e : Arr} {es : ℕ → Arr}

/-- **the convolution** of the packed image with the packed kernels: at the place of `(k, i, j)` in every block of 1024 slots, output `(i, j)` of
kernel `k`, elsewhere zero -/
theorem conv_slots (he : ∀ p < 8192, e p = if p % 1024 < 980 then imageAt im (p % 4096) else 0)
    (hes : ∀ t < 4, ∀ p < 8192, es t p = if Place p then kernelAt ker (t, p % 4096) else 0) (j : ℤ) (r : ℕ) (hr : j % 1024 = r) :
    slotConv (cyc e) (fun t => cyc (es t)) j =
      if Place r then clearConv im ker (r / 196) (r % 196 / 14) (r % 14) else 0 := by
  have hrl : r < 1024 := by omega
  obtain ⟨Q, hQ, hb⟩ : ∃ Q : ℕ, Q < 8 ∧ j % 8192 = ((1024 * Q + r : ℕ) : ℤ) := ⟨(j % 8192 / 1024).toNat, by omega, by omega⟩
  have hX : ∀ a s : ℕ, cyc e (j + 1024 * a + s) = e ((1024 * Q + r + 1024 * a + s) % 8192) := fun a s => cyc_eq _ _ _ (by push_cast at hb ⊢; omega)
  have hK : ∀ t a : ℕ, cyc (es t) (j + 1024 * a) = es t ((1024 * Q + r + 1024 * a + 0) % 8192) := fun t a =>
    cyc_eq _ _ _ (by push_cast at hb ⊢; omega)
  have hpl : ∀ a, Place ((1024 * Q + r + 1024 * a + 0) % 8192) ↔ Place r := fun a => by
    unfold Place
    rw [(block_arith Q a r 0 (by omega)).2, add_zero, Nat.mod_eq_of_lt hrl]
  have hK' : ∀ t < 4, ∀ a : ℕ, cyc (es t) (j + 1024 * a) = if Place r then kernelAt ker (t, 1024 * ((Q + a) % 4) + r) else 0 :=
    fun t ht a => by
      rw [hK, hes t ht _ (Nat.mod_lt _ (by norm_num)), if_congr (hpl a) rfl rfl, (block_arith Q a r 0 (by omega)).1, add_zero]
  have term : ∀ a : ℕ, ∀ t < 4, ∀ s : ℕ, s = t % 2 + 14 * (t / 2) → cyc e (j + 1024 * a + s) * cyc (es t) (j + 1024 * a) =
      if Place r then im (2 * (r % 196 / 14) + ((Q + a) % 4 / 2 + 2 * (t / 2))) (2 * (r % 14) + ((Q + a) % 4 % 2 + 2 * (t % 2))) *
        ker (r / 196) ((Q + a) % 4 / 2 + 2 * (t / 2)) ((Q + a) % 4 % 2 + 2 * (t % 2)) else 0 := by
    intro a t ht s hs
    rw [hK' t ht]
    by_cases h : Place r
    · rw [if_pos h, if_pos h, hX, he _ (Nat.mod_lt _ (by norm_num))]
      obtain ⟨k, i, x, hx, hk, hi, hx', r1, r2, r3⟩ := place_split hrl h
      have hu : t / 2 < 2 := by omega
      have hv : t % 2 < 2 := by omega
      have hlt : r + s < 980 := by omega
      rw [(block_arith Q a r s (by omega)).1, (block_arith Q a r s (by omega)).2, if_pos hlt, kernelAt_block ker hrl, r2, r3]
      congr 1
      rw [hs, hx, imageAt_block im hk hi hx' hu hv]
    · rw [if_neg h, if_neg h, mul_zero]
  have sum4 : slotConv (cyc e) (fun t => cyc (es t)) j =
      ∑ a ∈ range 4, ∑ t ∈ range 4, if Place r then
        im (2 * (r % 196 / 14) + ((Q + a) % 4 / 2 + 2 * (t / 2))) (2 * (r % 14) + ((Q + a) % 4 % 2 + 2 * (t % 2))) *
        ker (r / 196) ((Q + a) % 4 / 2 + 2 * (t / 2)) ((Q + a) % 4 % 2 + 2 * (t % 2)) else 0 := by
    unfold slotConv
    refine Finset.sum_congr rfl fun a _ => ?_
    have t0 := term a 0 (by norm_num) 0 (by norm_num)
    have t1 := term a 1 (by norm_num) 1 (by norm_num)
    have t2 := term a 2 (by norm_num) 14 (by norm_num)
    have t3 := term a 3 (by norm_num) 15 (by norm_num)
    rw [Nat.cast_zero, add_zero] at t0
    rw [Nat.cast_one] at t1
    rw [Nat.cast_ofNat] at t2 t3
    rw [sum_range_succ, sum_range_succ, sum_range_succ, sum_range_succ, sum_range_zero, zero_add, t0, t1, t2, t3]
  rw [sum4]
  by_cases h : Place r
  · simp only [if_pos h]
    generalize r / 196 = k
    generalize r % 196 / 14 = i
    generalize r % 14 = x
    unfold clearConv
    simp only [sum_range_succ, sum_range_zero]
    interval_cases Q <;> norm_num <;> ring
  · simp only [if_neg h, sum_const_zero]

end Conv

theorem sum_rotate8 (F : ℕ → ℂ) (l : ℕ) : ∑ i ∈ range 8, F ((i + l) % 8) = ∑ i ∈ range 8, F i := by
  have e : ∀ i, (i + l) % 8 = (i + l % 8) % 8 := fun i => by omega
  simp only [e]
  have h : l % 8 < 8 := Nat.mod_lt _ (by norm_num)
  generalize l % 8 = m at h
  simp only [sum_range_succ, sum_range_zero]
  interval_cases m <;> norm_num <;> ring

theorem sum_blocks' (G : ℕ → ℂ) (b a : ℕ) : ∑ t ∈ range b, ∑ i ∈ range a, G (b * i + t) = ∑ p ∈ range (b * a), G p := by
  rw [Finset.sum_comm]
  induction a with
  | zero => simp
  | succ a ih => rw [sum_range_succ, ih, Nat.mul_succ, Finset.sum_range_add]

theorem sum_blocks (G : ℕ → ℂ) : ∑ t ∈ range 128, ∑ i ∈ range 8, G (128 * i + t) = ∑ p ∈ range 1024, G p := sum_blocks' G 128 8

theorem sum_places (G : ℕ → ℂ) :
    ∑ p ∈ range 1024, (if Place p then G p else 0) = ∑ k ∈ range 5, ∑ i ∈ range 13, ∑ x ∈ range 13, G (196 * k + 14 * i + x) := by
  have e : ∀ k ∈ range 5, ∑ i ∈ range 13, ∑ x ∈ range 13, G (196 * k + 14 * i + x) =
      ∑ w ∈ range 13 ×ˢ range 13, G (196 * k + 14 * w.1 + w.2) := fun k _ => (Finset.sum_product' _ _ _).symm
  rw [← Finset.sum_filter, Finset.sum_congr rfl e, ← Finset.sum_product']
  refine (Finset.sum_nbij' (fun w => 196 * w.1 + 14 * w.2.1 + w.2.2) (fun p => (p / 196, p % 196 / 14, p % 14)) ?_ ?_ ?_ ?_ ?_).symm
  · rintro ⟨k, i, x⟩ hw
    simp only [mem_product, mem_range] at hw
    obtain ⟨hk, hi, hx⟩ := hw
    obtain ⟨a1, a2, a3⟩ := place_arith (k := k) (u := 0) (v := 0) hi hx (by norm_num) (by norm_num)
    simp only [mul_zero, add_zero] at a1 a2 a3
    have hlt : 196 * k + 14 * i + x < 1024 := by omega
    rw [mem_filter, mem_range]
    refine ⟨hlt, ?_⟩
    unfold Place
    rw [Nat.mod_eq_of_lt hlt, a1, a2]
    exact ⟨by omega, hi, hx⟩
  · intro p hp
    rw [mem_filter, mem_range] at hp
    obtain ⟨k, i, x, e, hk, hi, hx, e1, e2, e3⟩ := place_split hp.1 hp.2
    simp only [mem_product, mem_range, e1, e2, e3]
    exact ⟨hk, hi, hx⟩
  · rintro ⟨k, i, x⟩ hw
    simp only [mem_product, mem_range] at hw
    obtain ⟨hk, hi, hx⟩ := hw
    obtain ⟨a1, a2, a3⟩ := place_arith (k := k) (u := 0) (v := 0) hi hx (by norm_num) (by norm_num)
    simp only [mul_zero, add_zero] at a1 a2 a3
    dsimp only
    rw [a1, a2, a3]
  · intro p hp
    rw [mem_filter, mem_range] at hp
    obtain ⟨k, i, x, e, hk, hi, hx, e1, e2, e3⟩ := place_split hp.1 hp.2
    dsimp only
    rw [e1, e2, e3, ← e]
  · rintro ⟨k, i, x⟩ _
    rfl

section Dense
variable {fc1 : ℕ → ℕ → ℂ} {es : ℕ → Arr} {eb : Arr} {b1 : ℕ → ℂ}

/-- **the first dense layer** on slots that hold `g k i x` at the places of every block of 1024 -/
theorem fc1_slots {X : ℤ → ℂ} {g : ℕ → ℕ → ℕ → ℂ}
    (hX : ∀ (j : ℤ) (r : ℕ), j % 1024 = r → X j = if Place r then g (r / 196) (r % 196 / 14) (r % 14) else 0)
    (hes : ∀ i < 8, ∀ p < 8192, es i p = if Place (128 * ((i + p / 128) % 8) + p % 128) then
      tempAt fc1 (p / 128, 128 * ((i + p / 128) % 8) + p % 128) else 0)
    (hb : ∀ l < 64, eb (128 * l) = b1 l) {l : ℕ} (hl : l < 64) :
    slotFc1 X 8 (fun i => cyc (es i)) (cyc eb) (128 * l) =
      ∑ k ∈ range 5, ∑ i ∈ range 13, ∑ x ∈ range 13, g k i x * fc1 (k + 5 * (13 * i + x)) l + b1 l := by
  set G : ℕ → ℂ := fun p => g (p / 196) (p % 196 / 14) (p % 14) * fc1 (p / 196 + 5 * (p % 196 / 14 * 13 + p % 14)) l with hG
  have term : ∀ t : ℕ, t < 128 → ∀ i : ℕ, i < 8 → X (128 * l + t + 128 * i) * cyc (es i) (128 * l + t) =
      (fun p => if Place p then G p else 0) (128 * ((i + l) % 8) + t) := by
    intro t ht i hi
    have e1 : cyc (es i) (128 * l + t) = es i (128 * l + t) := by
      rw [cyc_eq (es i) _ (128 * l + t) (by push_cast; rfl), Nat.mod_eq_of_lt (by omega)]
    rw [e1, hX _ (128 * ((i + l) % 8) + t) (by push_cast; omega), hes i hi _ (by omega), show (128 * l + t) / 128 = l by omega,
      show (128 * l + t) % 128 = t by omega]
    dsimp only
    by_cases h : Place (128 * ((i + l) % 8) + t)
    · rw [if_pos h, if_pos h, if_pos h, hG]
      rfl
    · rw [if_neg h, if_neg h, if_neg h, zero_mul]
  unfold slotFc1
  congr 1
  · rw [Finset.sum_congr rfl fun t ht => Finset.sum_congr rfl fun i hi => term t (mem_range.mp ht) i (mem_range.mp hi)]
    rw [Finset.sum_congr rfl fun t _ => sum_rotate8 (fun i => (fun p => if Place p then G p else 0) (128 * i + t)) l,
      sum_blocks (fun p => if Place p then G p else 0), sum_places]
    refine Finset.sum_congr rfl fun k hk => Finset.sum_congr rfl fun i hi => Finset.sum_congr rfl fun x hx => ?_
    rw [mem_range] at hk hi hx
    obtain ⟨a1, a2, a3⟩ := place_arith (k := k) (u := 0) (v := 0) hi hx (by norm_num) (by norm_num)
    simp only [mul_zero, add_zero] at a1 a2 a3
    rw [hG]
    dsimp only
    rw [a1, a2, a3, Nat.mul_comm i 13]
  · have := hb l hl
    rw [cyc_eq eb _ (128 * l) (by push_cast; rfl), Nat.mod_eq_of_lt (by omega), this]

/-- **the second dense layer** on slots that hold `h l` at the multiples of 128 -/
theorem fc2_slots {X : ℤ → ℂ} {h : ℕ → ℂ} (hX : ∀ l < 64, X (128 * (l : ℕ)) = h l) {mask ef e2 : Arr} {fc2 : ℕ → ℕ → ℂ} {b2 : ℕ → ℂ}
    (hmask : ∀ p < 8192, mask p = if p % 128 = 0 then 1 else 0)
    (hf : ∀ p < 8192, ef p = if p % 128 < 10 ∧ p / 128 < 64 then fc2 (p / 128) (p % 128) else 0) (hb : ∀ c < 10, e2 c = b2 c) {c : ℕ}
    (hc : c < 10) :
    slotFc2 X (cyc mask) (cyc ef) (cyc e2) c = ∑ l ∈ range 64, h l * fc2 l c + b2 c := by
  unfold slotFc2
  congr 1
  · refine Finset.sum_congr rfl fun t ht => ?_
    rw [mem_range] at ht
    congr 1
    · rw [Finset.sum_eq_single c]
      · have e : (c : ℤ) + 128 * t - c = 128 * (t : ℕ) := by push_cast; ring
        rw [e, hX t ht, cyc_eq mask _ (128 * t) (by push_cast; rfl), Nat.mod_eq_of_lt (by omega), hmask _ (by omega), if_pos (by omega), one_mul]
      · intro u hu huc
        rw [mem_range] at hu
        have hm : cyc mask (c + 128 * t - u) = 0 := by
          unfold cyc
          rw [hmask _ (by omega), if_neg (by omega)]
        rw [hm, zero_mul]
      · intro hn
        exact absurd (mem_range.mpr (by omega)) hn
    · rw [cyc_eq ef _ (c + 128 * t) (by push_cast; rfl), Nat.mod_eq_of_lt (by omega), hf _ (by omega), if_pos (by omega),
        show (c + 128 * t) / 128 = t by omega, show (c + 128 * t) % 128 = c by omega]
  · rw [cyc_nat, Nat.mod_eq_of_lt (by omega), hb c hc]

end Dense

/-- what the client's packing functions leave in the messages they encrypt -/
structure Packed (D : Data) (img : Arr) (kers mats : List Arr) (fc2 b1 b2 mask : Arr) : Prop where
  img : packImage D.image = .ok img
  kers : packKernels D.kernel = .ok kers
  mats : packFC1 D.fc1 = .ok mats
  fc2 : packFC2 8192 D.fc2 = .ok fc2
  b1 : packB1 8192 D.b1 = .ok b1
  b2 : packB2 8192 D.b2 = .ok b2
  mask : packMask 8192 = .ok mask

/-- the packing functions never fault -/
theorem packed (D : Data) : ∃ img kers mats fc2 b1 b2 mask, Packed D img kers mats fc2 b1 b2 mask ∧ kers.length = 4 ∧ mats.length = 8 := by
  obtain ⟨i, i1, _⟩ := packImage_ok D.image
  obtain ⟨k, k1, k2, _⟩ := packKernels_ok D.kernel
  obtain ⟨m, m1, m2, _⟩ := packFC1_ok D.fc1
  obtain ⟨f, f1, _⟩ := packFC2_ok (slots := 8192) D.fc2
  obtain ⟨b, c1, _⟩ := packB1_ok (slots := 8192) (by norm_num) D.b1
  obtain ⟨d, d1, _⟩ := packB2_ok (slots := 8192) (by norm_num) D.b2
  obtain ⟨e, e1, _⟩ := packMask_ok 8192
  exact ⟨i, k, m, f, b, d, e, ⟨i1, k1, m1, f1, c1, d1, e1⟩, k2, m2⟩

/-- **C49, the slot formulas compute the network.** On the messages that `encryptImage`, `encryptKernels`, `encryptFC1`, `encryptFC2`, `encryptB1`,
`encryptB2` and the mask loop make of any data, slot `c < 10` of the layers' slot formulas is the score of class `c`. -/
theorem slotNet_score (D : Data) {img fc2 b1 b2 mask : Arr} {kers mats : List Arr} (h : Packed D img kers mats fc2 b1 b2 mask) {c : ℕ} (hc : c < 10) :
    slotNet (cyc img) (fun t => cyc (kers.getD t zeros)) mats.length (fun i => cyc (mats.getD i zeros)) (cyc b1) (cyc mask) (cyc fc2) (cyc b2) c =
      score D.image D.kernel D.fc1 D.b1 D.fc2 D.b2 c := by
  obtain ⟨i, i1, i2⟩ := packImage_ok D.image
  obtain ⟨k, k1, k2, k3⟩ := packKernels_ok D.kernel
  obtain ⟨m, m1, m2, m3⟩ := packFC1_ok D.fc1
  obtain ⟨f, f1, f2⟩ := packFC2_ok (slots := 8192) D.fc2
  obtain ⟨b, c1, c2'⟩ := packB1_ok (slots := 8192) (by norm_num) D.b1
  obtain ⟨d, d1, d2'⟩ := packB2_ok (slots := 8192) (by norm_num) D.b2
  have c2 : ∀ l < 64, b (128 * l) = D.b1 l := fun l hl => by
    rw [c2', if_pos (by omega), Nat.mul_div_cancel_left _ (by norm_num)]
  have d2 : ∀ c < 10, d c = D.b2 c := fun c hc => by rw [d2', if_pos hc]
  obtain ⟨e, e1, e2⟩ := packMask_ok 8192
  obtain rfl : img = i := Except.ok.inj (h.img.symm.trans i1)
  obtain rfl : kers = k := Except.ok.inj (h.kers.symm.trans k1)
  obtain rfl : mats = m := Except.ok.inj (h.mats.symm.trans m1)
  obtain rfl : fc2 = f := Except.ok.inj (h.fc2.symm.trans f1)
  obtain rfl : b1 = b := Except.ok.inj (h.b1.symm.trans c1)
  obtain rfl : b2 = d := Except.ok.inj (h.b2.symm.trans d1)
  obtain rfl : mask = e := Except.ok.inj (h.mask.symm.trans e1)
  unfold slotNet score
  rw [m2]
  refine fc2_slots (h := fun l => clearFc1 D.image D.kernel D.fc1 D.b1 l ^ 2) (fun l hl => ?_) e2 f2 d2 hc
  unfold clearFc1
  rw [fc1_slots (g := fun k i x => clearConv D.image D.kernel k i x ^ 2) (fc1 := D.fc1) (b1 := D.b1) (fun j r hr => ?_) (fun i hi p hp => ?_) c2 hl]
  · rw [conv_slots (im := D.image) (ker := D.kernel) i2 (fun t ht p hp => ?_) j r hr]
    · by_cases hp : Place r
      · rw [if_pos hp, if_pos hp]
      · rw [if_neg hp, if_neg hp, zero_pow two_ne_zero]
    · rw [List.getD_eq_getElem?_getD, List.getElem?_eq_getElem (by omega), Option.getD_some]
      exact k3 t (by omega) p hp
  · rw [List.getD_eq_getElem?_getD, List.getElem?_eq_getElem (by omega), Option.getD_some]
    exact m3 i (by omega) p hp

end MKHE.C49
