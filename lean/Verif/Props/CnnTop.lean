import Verif.Props.CnnNet

set_option autoImplicit false

/-!
# C49: from the encrypted inputs of the neural network to the class the client reads off
-/

namespace MKHE.C49
open Finset C59 Nega

/-- **the class read off.** If every score is known within `ε`, the class of the greatest score is returned when it is ahead by more than `2ε` and above
-100 (where the loop starts). -/
theorem argmax_ok {value sc : ℕ → ℂ} {ε : ℝ} (h : ∀ c < 10, ‖value c - sc c‖ ≤ ε) {c0 : ℕ} (hc : c0 < 10) (hlow : -100 < (sc c0).re - ε)
    (hbest : ∀ c < 10, c ≠ c0 → (sc c).re + 2 * ε < (sc c0).re) : Cnn.argmax value = c0 := by
  have hre : ∀ c < 10, |(value c).re - (sc c).re| ≤ ε := fun c hc => by
    rw [← Complex.sub_re]
    exact (Complex.abs_re_le_norm _).trans (h c hc)
  have hlt : ∀ c < 10, c ≠ c0 → (value c).re < (value c0).re := fun c hc' hne => by
    have h1 := abs_le.mp (hre c hc')
    have h2 := abs_le.mp (hre c0 hc)
    have h3 := hbest c hc' hne
    linarith [h1.2, h2.1]
  have key : ∀ n ≤ 10, (c0 < n → (List.range n).foldl (fun (w : ℤ × ℝ) (i : ℕ) => if w.2 < (value i).re then ((i : ℤ), (value i).re) else w) (-1, -100) =
        ((c0 : ℤ), (value c0).re)) ∧
      (n ≤ c0 → ((List.range n).foldl (fun (w : ℤ × ℝ) (i : ℕ) => if w.2 < (value i).re then ((i : ℤ), (value i).re) else w) (-1, -100)).2 <
        (value c0).re) := by
    intro n
    induction n with
    | zero =>
      refine fun _ => ⟨fun h => absurd h (Nat.not_lt_zero _), fun _ => ?_⟩
      have h2 := abs_le.mp (hre c0 hc)
      show (-100 : ℝ) < _
      linarith [h2.1]
    | succ n ih =>
      intro hn
      obtain ⟨i1, i2⟩ := ih (by omega)
      rw [List.range_succ, List.foldl_append, List.foldl_cons, List.foldl_nil]
      refine ⟨fun hl => ?_, fun hl => ?_⟩
      · by_cases e : n = c0
        · subst e
          rw [if_pos (i2 le_rfl)]
        · rw [i1 (by omega)]
          rw [if_neg (not_lt.mpr (hlt n (by omega) e).le)]
      · have := i2 (by omega)
        split_ifs
        · exact hlt n (by omega) (by omega)
        · exact this
  unfold Cnn.argmax
  rw [(key 10 le_rfl).1 hc]

/-- when no score is above -100, the loop returns no class -/
theorem argmax_none {value : ℕ → ℂ} (h : ∀ c < 10, (value c).re ≤ -100) : Cnn.argmax value = -1 := by
  have key : ∀ n ≤ 10, (List.range n).foldl (fun (w : ℤ × ℝ) (i : ℕ) => if w.2 < (value i).re then ((i : ℤ), (value i).re) else w) (-1, -100) =
      (-1, -100) := by
    intro n
    induction n with
    | zero => exact fun _ => rfl
    | succ n ih =>
      intro hn
      rw [List.range_succ, List.foldl_append, ih (by omega), List.foldl_cons, List.foldl_nil, if_neg (not_lt.mpr (h n (by omega)))]
  unfold Cnn.argmax
  rw [key 10 le_rfl]

variable {N : ℕ} [NeZero N] {C : Ctx N} {S : Sys C}

theorem slot_cyc (V : C.Valid) (hN : N / 2 = 8192) (a : Cnn.Arr) (j : ℤ) : slot j (ofSlots N a) = cyc a j := by
  rw [slot_ofSlots V.hN V.log1]
  unfold cyc C35.amount
  rw [hN]
  rfl

/-- a tighter bound of the slots -/
theorem tighten {ct : CCt C} {v : Nega N ℝ} {a : Info} (h : Approx S ct v a) {Vo : ℝ} (hv : SBdd v Vo) : Approx S ct v ⟨a.level, a.scale, a.ids, Vo, a.B⟩ :=
  ⟨h.lt, h.lvl, h.scale, h.pos, h.ids, h.sub, hv, h.enc⟩

/-- **C49, the classification.** The image and the model packed as cnn_test.go packs them and encrypted under any parties' keys (`Approx`): the
evaluation succeeds for every iteration order and every content of the scratch memory; if its result fits the modulus (`Vo` bounds its slots), a
decryptor holding the keys of the parties involved gets a plaintext whose centred representative, decoded, has in slot `c < 10` the score of class `c`
of the network in the clear, within the error computed along the way; and the client reads off the class of the greatest score if it is ahead by more
than twice that. -/
theorem classify (V : C.Valid) (hS : S.Ok) (hN : N / 2 = 8192) (mredPsi : ℕ → ℕ → ℕ) (o : ℕ → ℕ → Cnn.Ord) (od : Sched String) {E : Eval C}
    {rlk : RlkMap C} (hst : St.Ready S ⟨E, rlk⟩) {D : Cnn.Data} {pi pf p1 p2 pm : Cnn.Arr} {pk pms : List Cnn.Arr}
    (hD : Packed D pi pk pms pf p1 p2 pm) {img fc2 b1 b2 : CCt C} {kers mats : List (CCt C)} {a k m ib1 f ib2 : Info}
    (himg : Approx S img (ofSlots N pi) a) (hkl : kers.length = pk.length)
    (hk : ∀ i (hi : i < kers.length), Approx S kers[i] (ofSlots N (pk.getD i Cnn.zeros)) k) (hml : mats.length = pms.length)
    (hm : ∀ i (hi : i < mats.length), Approx S mats[i] (ofSlots N (pms.getD i Cnn.zeros)) m) (hf : Approx S fc2 (ofSlots N pf) f)
    (hb1 : Approx S b1 (ofSlots N p1) ib1) (hb2 : Approx S b2 (ofSlots N p2) ib2) {pt : Poly C} {sc : ℚ} (hsc : 0 < sc) {Vp Bp : ℝ}
    (hmk : SBdd (ofSlots N pm) Vp) (hpt : CkksPt pt (C.nQ - 1) sc (ofSlots N pm) Bp) (hr : ∀ r ∈ [1, 14, 15], HasAmount S r)
    (hr' : ∀ i < 8, HasAmount S ((i : ℕ) * 128)) (hL : LevelsOk S a k m ib1 f ib2 8 sc Vp Bp) :
    ∃ out E' rlk', Cnn.forward (env S mredPsi) o rlk E img kers mats fc2 b1 b2 (pt, sc) = .ok (out, E', rlk') ∧ St.Ready S ⟨E', rlk'⟩ ∧
      (f2 S a k m ib1 f ib2 8 sc Vp Bp).level < C.nQ ∧ (f2 S a k m ib1 f ib2 8 sc Vp Bp).ids ⊆ S.U ∧
      ∀ (Vo : ℝ), (∀ j, ‖slotNet (cyc pi) (fun t => cyc (pk.getD t Cnn.zeros)) 8 (fun i => cyc (pms.getD i Cnn.zeros)) (cyc p1) (cyc pm) (cyc pf) (cyc p2)
          j‖ ≤ Vo) →
        ∀ (sks : KeySet (SKey C)), SKeys.Of sks (f2 S a k m ib1 f ib2 8 sc Vp Bp).ids S.s →
        ∀ (pool : Poly C), (f2 S a k m ib1 f ib2 8 sc Vp Bp).level < pool.len →
        2 * ((f2 S a k m ib1 f ib2 8 sc Vp Bp).scale * Vo + (f2 S a k m ib1 f ib2 8 sc Vp Bp).B) <
          modulus C (f2 S a k m ib1 f ib2 8 sc Vp Bp).level →
        ∃ res pool', ckksDecrypt od pool out sks = .ok ((res, (f2 S a k m ib1 f ib2 8 sc Vp Bp).scale), pool') ∧
          ∃ Φ : Nega N ℤ, (∀ i ≤ (f2 S a k m ib1 f ib2 8 sc Vp Bp).level, cf (res.rows i) = red (C.q i) Φ) ∧
            (∀ x, 2 * |Φ x| < modulus C (f2 S a k m ib1 f ib2 8 sc Vp Bp).level) ∧
            (∀ c < 10, ‖slot (c : ℕ) (toReal Φ) / ((f2 S a k m ib1 f ib2 8 sc Vp Bp).scale : ℂ) -
              Cnn.score D.image D.kernel D.fc1 D.b1 D.fc2 D.b2 c‖ ≤
                (f2 S a k m ib1 f ib2 8 sc Vp Bp).B / (f2 S a k m ib1 f ib2 8 sc Vp Bp).scale) ∧
            ∀ c0 < 10, -100 < (Cnn.score D.image D.kernel D.fc1 D.b1 D.fc2 D.b2 c0).re -
                (f2 S a k m ib1 f ib2 8 sc Vp Bp).B / (f2 S a k m ib1 f ib2 8 sc Vp Bp).scale →
              (∀ c < 10, c ≠ c0 → (Cnn.score D.image D.kernel D.fc1 D.b1 D.fc2 D.b2 c).re +
                2 * ((f2 S a k m ib1 f ib2 8 sc Vp Bp).B / (f2 S a k m ib1 f ib2 8 sc Vp Bp).scale) <
                  (Cnn.score D.image D.kernel D.fc1 D.b1 D.fc2 D.b2 c0).re) →
              Cnn.argmax (fun c => slot (c : ℕ) (toReal Φ) / ((f2 S a k m ib1 f ib2 8 sc Vp Bp).scale : ℂ)) = c0 := by
  obtain ⟨_, _, _, _, _, _, _, hD', l4, l8⟩ := packed D
  have e4 : pk.length = 4 := by rw [← l4]; exact congrArg _ (Except.ok.inj (hD.kers.symm.trans hD'.kers))
  have e8 : pms.length = 8 := by rw [← l8]; exact congrArg _ (Except.ok.inj (hD.mats.symm.trans hD'.mats))
  have hm8 : mats.length = 8 := hml.trans e8
  have hne : mats ≠ [] := by intro h; rw [h] at hm8; simp at hm8
  obtain ⟨out, E', rlk', v', a1, a2, a3, a4⟩ := forward_ok V hS mredPsi o hst himg (by omega) hk hm hne hf hb1 hb2 hsc hmk hpt hr
    (by rw [hm8]; exact hr') (by rw [hm8]; exact hL)
  rw [hm8] at a3
  have hslot : ∀ j, slot j v' = slotNet (cyc pi) (fun t => cyc (pk.getD t Cnn.zeros)) 8 (fun i => cyc (pms.getD i Cnn.zeros)) (cyc p1) (cyc pm)
      (cyc pf) (cyc p2) j := fun j => by
    rw [a4 j, hm8]
    simp only [slot_cyc V hN]
  refine ⟨out, E', rlk', a1, a2, a3.lt, a3.sub, fun Vo hVo sks hs pool hpool hfit => ?_⟩
  obtain ⟨res, pool', d1, d2, Φ, d3, d4, d5, d6, d7⟩ := C59.decrypt V od (tighten a3 (Vo := Vo) fun j => by rw [hslot j]; exact hVo j) hs pool hpool hfit
  have hsc' : ∀ c < 10, ‖slot (c : ℕ) (toReal Φ) / ((f2 S a k m ib1 f ib2 8 sc Vp Bp).scale : ℂ) -
      Cnn.score D.image D.kernel D.fc1 D.b1 D.fc2 D.b2 c‖ ≤
        (f2 S a k m ib1 f ib2 8 sc Vp Bp).B / (f2 S a k m ib1 f ib2 8 sc Vp Bp).scale := fun c hc => by
    have h1 := d7 (c : ℕ)
    rw [hslot] at h1
    have h2 := slotNet_score D hD hc
    rw [e8] at h2
    rw [h2] at h1
    exact h1
  exact ⟨res, pool', d1, Φ, d3, d4, hsc', fun c0 hc0 hl hb => argmax_ok hsc' hc0 hl hb⟩

end MKHE.C49
