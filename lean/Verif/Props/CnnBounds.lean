import Verif.Props.CnnClient
import Mathlib.Data.List.GetD

set_option autoImplicit false

/-!
# C60: bounds of the packed messages and of the network's slots, from bounds of the data
-/

namespace MKHE.C49
open Finset Cnn

/-- bounds of the image, the kernels, the weights and the biases -/
structure DataBdd (D : Data) (W : Bounds) : Prop where
  image : ∀ i < 28, ∀ j < 28, ‖D.image i j‖ ≤ W.img
  kernel : ∀ k < 5, ∀ y < 4, ∀ x < 4, ‖D.kernel k y x‖ ≤ W.kers
  fc1 : ∀ i < 845, ∀ l < 64, ‖D.fc1 i l‖ ≤ W.mats
  fc2 : ∀ l < 64, ∀ c < 10, ‖D.fc2 l c‖ ≤ W.fc2
  b1 : ∀ l < 64, ‖D.b1 l‖ ≤ W.b1
  b2 : ∀ c < 10, ‖D.b2 c‖ ≤ W.b2

namespace DataBdd
variable {D : Data} {W : Bounds}

theorem nonneg (h : DataBdd D W) : 0 ≤ W.img ∧ 0 ≤ W.kers ∧ 0 ≤ W.mats ∧ 0 ≤ W.fc2 ∧ 0 ≤ W.b1 ∧ 0 ≤ W.b2 :=
  ⟨(norm_nonneg _).trans (h.image 0 (by norm_num) 0 (by norm_num)), (norm_nonneg _).trans (h.kernel 0 (by norm_num) 0 (by norm_num) 0 (by norm_num)),
    (norm_nonneg _).trans (h.fc1 0 (by norm_num) 0 (by norm_num)), (norm_nonneg _).trans (h.fc2 0 (by norm_num) 0 (by norm_num)),
    (norm_nonneg _).trans (h.b1 0 (by norm_num)), (norm_nonneg _).trans (h.b2 0 (by norm_num))⟩

theorem getD_le {l : List Arr} {B : ℝ} (hB : 0 ≤ B) (h : ∀ t (ht : t < l.length), ∀ p < 8192, ‖l[t] p‖ ≤ B) (t : ℕ) : ∀ p < 8192, ‖l.getD t zeros p‖ ≤ B := by
  intro p hp
  by_cases ht : t < l.length
  · rw [List.getD_eq_getElem l zeros ht]
    exact h t ht p hp
  · rw [List.getD_eq_default l zeros (by omega)]
    simpa [zeros] using hB

/-- **the packed messages have the bounds of the data** -/
theorem hold (h : DataBdd D W) {pi pf p1 p2 pm : Arr} {pk pms : List Arr} (hD : Packed D pi pk pms pf p1 p2 pm) : W.Hold pi pk pms pf p1 p2 := by
  obtain ⟨n1, n2, n3, n4, n5, n6⟩ := h.nonneg
  obtain ⟨i, i1, i2⟩ := packImage_ok D.image
  obtain ⟨k, k1, k2, k3⟩ := packKernels_ok D.kernel
  obtain ⟨m, m1, m2, m3⟩ := packFC1_ok D.fc1
  obtain ⟨f, f1, f2⟩ := packFC2_ok (slots := 8192) D.fc2
  obtain ⟨b, c1, c2⟩ := packB1_ok (slots := 8192) (by norm_num) D.b1
  obtain ⟨d, d1, d2⟩ := packB2_ok (slots := 8192) (by norm_num) D.b2
  obtain rfl : pi = i := Except.ok.inj (hD.img.symm.trans i1)
  obtain rfl : pk = k := Except.ok.inj (hD.kers.symm.trans k1)
  obtain rfl : pms = m := Except.ok.inj (hD.mats.symm.trans m1)
  obtain rfl : pf = f := Except.ok.inj (hD.fc2.symm.trans f1)
  obtain rfl : p1 = b := Except.ok.inj (hD.b1.symm.trans c1)
  obtain rfl : p2 = d := Except.ok.inj (hD.b2.symm.trans d1)
  refine ⟨fun p hp => ?_, getD_le n2 fun t ht p hp => ?_, getD_le n3 fun t ht p hp => ?_, fun p hp => ?_, fun p _ => ?_, fun p _ => ?_⟩
  · rw [i2 p hp]
    split_ifs with hc
    · exact h.image _ (by omega) _ (by omega)
    · simpa using n1
  · rw [k3 t ht p hp]
    split_ifs with hc
    · obtain ⟨g1, g2, g3⟩ := hc
      unfold kernelAt
      dsimp only
      exact h.kernel _ (by omega) _ (by omega) _ (by omega)
    · simpa using n2
  · rw [m3 t ht p hp]
    split_ifs with hc
    · obtain ⟨g1, g2, g3⟩ := hc
      have hr : 128 * ((t + p / 128) % 8) + p % 128 < 1024 := by omega
      have hl : p / 128 < 64 := by omega
      generalize 128 * ((t + p / 128) % 8) + p % 128 = r at *
      generalize p / 128 = l at *
      rw [Nat.mod_eq_of_lt hr] at g1 g2 g3
      unfold tempAt
      dsimp only
      exact h.fc1 _ (by omega) _ hl
    · simpa using n3
  · rw [f2 p hp]
    split_ifs with hc
    · exact h.fc2 _ hc.2 _ hc.1
    · simpa using n4
  · rw [c2 p]
    split_ifs with hc
    · exact h.b1 _ hc.2
    · simpa using n5
  · rw [d2 p]
    split_ifs with hc
    · exact h.b2 _ hc
    · simpa using n6

end DataBdd

theorem cyc_le {a : Arr} {B : ℝ} (h : ∀ p < 8192, ‖a p‖ ≤ B) (j : ℤ) : ‖cyc a j‖ ≤ B := h _ (by omega)

theorem sum_le {n : ℕ} {f : ℕ → ℂ} {B : ℝ} (h : ∀ i < n, ‖f i‖ ≤ B) : ‖∑ i ∈ range n, f i‖ ≤ n * B := by
  refine (norm_sum_le _ _).trans ((sum_le_card_nsmul _ _ B fun i hi => h i (mem_range.mp hi)).trans_eq ?_)
  rw [card_range, nsmul_eq_mul]

theorem mul_le {x y : ℂ} {A B : ℝ} (hx : ‖x‖ ≤ A) (hy : ‖y‖ ≤ B) : ‖x * y‖ ≤ A * B := by
  rw [norm_mul]
  exact mul_le_mul hx hy (norm_nonneg _) ((norm_nonneg _).trans hx)

/-- a bound of the slots of the result -/
noncomputable def Bounds.out (W : Bounds) : ℝ :=
  64 * (16 * (1 * ((128 * (8 * ((4 * (4 * (W.img * W.kers))) ^ 2 * W.mats)) + W.b1) ^ 2)) * W.fc2) + W.b2

theorem slotNet_le {W : Bounds} {pi pf p1 p2 pm : Arr} {pk pms : List Arr} (h : W.Hold pi pk pms pf p1 p2) (hm : Cnn.packMask 8192 = .ok pm) (j : ℤ) :
    ‖slotNet (cyc pi) (fun t => cyc (pk.getD t zeros)) 8 (fun i => cyc (pms.getD i zeros)) (cyc p1) (cyc pm) (cyc pf) (cyc p2) j‖ ≤ W.out := by
  have c : ∀ j, ‖slotConv (cyc pi) (fun t => cyc (pk.getD t zeros)) j‖ ≤ 4 * (4 * (W.img * W.kers)) := fun j => by
    unfold slotConv
    refine (sum_le (B := 4 * (W.img * W.kers)) fun a _ => ?_).trans_eq (by norm_num)
    have t : ∀ (x y : ℤ) (k : ℕ), ‖cyc pi x * cyc (pk.getD k zeros) y‖ ≤ W.img * W.kers := fun x y k => mul_le (cyc_le h.img x) (cyc_le (h.kers k) y)
    refine (norm_add_le _ _).trans ?_
    refine (add_le_add ((norm_add_le _ _).trans (add_le_add ((norm_add_le _ _).trans (add_le_add (t _ _ 0) (t _ _ 1))) (t _ _ 2))) (t _ _ 3)).trans_eq (by ring)
  have d : ∀ j, ‖slotFc1 (fun j => slotConv (cyc pi) (fun t => cyc (pk.getD t zeros)) j ^ 2) 8 (fun i => cyc (pms.getD i zeros)) (cyc p1) j‖ ≤
      128 * (8 * ((4 * (4 * (W.img * W.kers))) ^ 2 * W.mats)) + W.b1 := fun j => by
    unfold slotFc1
    refine (norm_add_le _ _).trans (add_le_add ?_ (cyc_le h.b1 j))
    refine (sum_le (B := 8 * ((4 * (4 * (W.img * W.kers))) ^ 2 * W.mats)) fun a _ => ?_).trans_eq (by norm_num)
    refine (sum_le (B := (4 * (4 * (W.img * W.kers))) ^ 2 * W.mats) fun i _ => ?_).trans_eq (by norm_num)
    refine mul_le ?_ (cyc_le (h.mats i) _)
    rw [norm_pow]
    exact pow_le_pow_left₀ (norm_nonneg _) (c _) 2
  unfold slotNet slotFc2 Bounds.out
  refine (norm_add_le _ _).trans (add_le_add ?_ (cyc_le h.b2 j))
  refine (sum_le fun t _ => mul_le (sum_le fun u _ => mul_le (B := (128 * (8 * ((4 * (4 * (W.img * W.kers))) ^ 2 * W.mats)) + W.b1) ^ 2) (mask_le hm _) ?_)
    (cyc_le h.fc2 _)).trans_eq ?_
  · rw [norm_pow]
    exact pow_le_pow_left₀ (norm_nonneg _) (d _) 2
  · norm_num

section Encode
variable {N : ℕ} [NeZero N] {C : Ctx N}
open Nega

/-- every packed message has an encoding, with an error of at most `N/2` in a slot: what the encoder is trusted with is not vacuous -/
theorem encodes_exists (V : C.Valid) (hN : N / 2 = 8192) (scale : ℚ) (a : Arr) : ∃ pt : Poly C, pt.isNTT = false ∧ EncodesAt pt scale a (N / 2) := by
  have hrow : ∀ Φ : Nega N ℤ, ∀ i, ∃ row : Limb N (C.q i), i < C.nQ → cf row = red (C.q i) Φ := fun Φ i => by
    by_cases hi : i < C.nQ
    · haveI : Fact (C.q i).Prime := ⟨V.pair.primeQ i hi⟩
      exact ⟨ofRes (red (C.q i) Φ), fun _ => res_ofRes _⟩
    · exact ⟨Limb.zero, fun h => absurd h hi⟩
  let w : Nega N ℝ := Nega.C (scale : ℝ) * ofSlots N a
  choose rows hrows using hrow (fun x => round (w x))
  refine ⟨⟨C.nQ, false, rows⟩, rfl, rfl, fun x => round (w x), fun i hi => hrows i (by have := V.q1; omega), fun j => ?_⟩
  rw [← slot_cyc V hN, ← slot_smul, ← map_sub]
  have hb : RBdd (toReal (fun x => round (w x)) - w) (1 / 2) := fun x => by
    show |((round (w x) : ℤ) : ℝ) - w x| ≤ 1 / 2
    rw [abs_sub_comm]
    exact abs_sub_round _
  refine (hb.slots j).trans_eq ?_
  ring

/-- an array is encoded entry by entry -/
theorem encodesAll_exists (V : C.Valid) (hN : N / 2 = 8192) (scale : ℚ) (pi pf p1 p2 pm : Arr) (pk pms : List Arr) {Bp : ℝ} (hB : (N : ℝ) / 2 ≤ Bp) :
    ∃ x : Cnn.Encoded C, EncodesAll x scale Bp pi pk pms pf p1 p2 pm := by
  have hm : ∀ {pt : Poly C} {a : Arr}, EncodesAt pt scale a (N / 2) → EncodesAt pt scale a Bp := by
    rintro pt a ⟨h1, Φ, h2, h3⟩
    exact ⟨h1, Φ, h2, fun j => (h3 j).trans hB⟩
  choose enc he1 he2 using encodes_exists V hN scale
  have hl : ∀ (l : List Arr) i (hi : i < (l.map enc).length), EncodesAt (l.map enc)[i] scale (l.getD i zeros) Bp := fun l i hi => by
    rw [List.length_map] at hi
    rw [List.getElem_map, List.getD_eq_getElem l zeros hi]
    exact hm (he2 _)
  exact ⟨⟨enc pi, pk.map enc, pms.map enc, enc pf, enc p1, enc p2, enc pm⟩, hm (he2 pi), List.length_map _, hl pk, List.length_map _, hl pms,
    hm (he2 pf), hm (he2 p1), hm (he2 p2), hm (he2 pm), he1 pm⟩

end Encode

end MKHE.C49
