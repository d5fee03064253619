import Verif.Props.AddSub

set_option autoImplicit false

/-!
# C25: multiplication by a constant
-/

namespace MKHE
open Finset Nega

variable {N : ℕ} [NeZero N] {C : Ctx N}

namespace C25

/-- `c` is a real constant of value `v` -/
inductive Real : Const → ℚ → Prop
  | flt (r : ℚ) : Real (.flt r) r
  | cplx (r : ℚ) : Real (.cplx r 0) r
  | uint (n : ℕ) : Real (.uint n) n
  | int (z : ℤ) : Real (.int z) z

/-- the scaling factor the program chooses: one for integers (in the range of `int64`) and for constants of an integer type, the top
prime (as a float64) otherwise -/
def scaleOf (fm : FloatModel) (ql : ℕ) : Const → ℚ
  | .flt r => if ⌊r⌋ = r ∧ -(2 ^ 63) ≤ r ∧ r < 2 ^ 63 then 1 else fm.ofNat ql
  | .cplx r _ => if ⌊r⌋ = r ∧ -(2 ^ 63) ≤ r ∧ r < 2 ^ 63 then 1 else fm.ofNat ql
  | _ => 1

theorem real_const (fm : FloatModel) (ql : ℕ) {c : Const} {v : ℚ} (h : Real c v) :
    ∃ v', getConstAndScale fm ql c = (v', 0, scaleOf fm ql c) ∧ |v' - v| ≤ |v| * unitRoundoff ∧
      ((∃ z : ℤ, v = z ∧ |z| ≤ 2 ^ 53) → v' = v) := by
  have hu : (0 : ℚ) ≤ unitRoundoff := by unfold unitRoundoff; positivity
  have hscale : ∀ r : ℚ, (if r ≠ 0 ∧ needsScale r = true then fm.ofNat ql else (1 : ℚ)) =
      if ⌊r⌋ = r ∧ -(2 ^ 63) ≤ r ∧ r < 2 ^ 63 then 1 else fm.ofNat ql := by
    intro r
    unfold needsScale
    by_cases h0 : r = 0
    · subst h0; norm_num
    · by_cases hh : ⌊r⌋ = r ∧ -(2 ^ 63) ≤ r ∧ r < 2 ^ 63
      · rw [if_pos hh, if_neg]; simp [hh.1, hh.2.1, hh.2.2]
      · rw [if_neg hh, if_pos ⟨h0, by
          simp only [Bool.not_eq_true', decide_eq_false_iff_not]; tauto⟩]
  cases h with
  | flt r => exact ⟨v, by unfold getConstAndScale scaleOf; dsimp only; rw [hscale], by simp; positivity, fun _ => rfl⟩
  | cplx r =>
    refine ⟨v, ?_, by simp; positivity, fun _ => rfl⟩
    unfold getConstAndScale scaleOf
    dsimp only
    rw [← hscale]
    simp
  | uint n =>
    refine ⟨fm.ofNat n, rfl, ?_, fun ⟨z, h1, h2⟩ => ?_⟩
    · have := fm.err n (by positivity)
      rw [Nat.abs_cast, mul_comm]; exact this
    · have : (n : ℤ) = z := by exact_mod_cast h1
      subst this
      exact fm.exact_nat n (by rw [Nat.abs_cast] at h2; exact_mod_cast h2)
  | int z =>
    have hk : (|(z : ℚ)|) = ((z.natAbs : ℕ) : ℚ) := by rw [Nat.cast_natAbs]; push_cast; rfl
    have hz : (z : ℚ) = if z < 0 then -((z.natAbs : ℕ) : ℚ) else ((z.natAbs : ℕ) : ℚ) := by
      split_ifs with h
      · rw [← hk, abs_of_neg (by exact_mod_cast h)]; ring
      · rw [← hk, abs_of_nonneg (by exact_mod_cast not_lt.mp h)]
    refine ⟨fm.ofInt z, rfl, ?_, fun ⟨z', h1, h2⟩ => ?_⟩
    · have := fm.err (z.natAbs : ℕ) (by positivity)
      rw [hk]
      conv_lhs => rw [hz]
      unfold FloatModel.ofInt FloatModel.ofNat
      split_ifs
      · rw [show - fm.rnd ((z.natAbs : ℕ) : ℚ) - -((z.natAbs : ℕ) : ℚ) = -(fm.rnd ((z.natAbs : ℕ) : ℚ) - ((z.natAbs : ℕ) : ℚ)) by ring,
          abs_neg, mul_comm]; exact this
      · rw [mul_comm]; exact this
    · have : z = z' := by exact_mod_cast h1
      subst this
      have h3 : z.natAbs ≤ 2 ^ 53 := by zify; exact h2
      conv_rhs => rw [hz]
      unfold FloatModel.ofInt FloatModel.ofNat
      rw [fm.exact_nat _ h3]

/-- the multiplier -/
theorem multiplier (fm : FloatModel) (ql : ℕ) {c : Const} {v : ℚ} (h : Real c v) : ∃ (v' : ℚ) (m : ℤ),
    getConstAndScale fm ql c = (v', 0, scaleOf fm ql c) ∧ (if v' ≠ 0 then scaleInt fm v' (scaleOf fm ql c) else 0) = m ∧
      |(m : ℚ) - scaleOf fm ql c * v| ≤ 1 / 2 + (scaleOf fm ql c * |v| + 1) / 2 ^ 50 ∧
      (∀ z : ℤ, v = z → |z| < 2 ^ 52 → m = z ∧ scaleOf fm ql c = 1) := by
  obtain ⟨v', a1, a2, a3⟩ := real_const fm ql h
  refine ⟨v', _, a1, rfl, ?_, fun z hz hz' => ?_⟩
  · have hs : 0 ≤ scaleOf fm ql c := by
      have := fm.rnd_nonneg (x := (ql : ℚ)) (by positivity)
      cases c <;> simp only [scaleOf, FloatModel.ofNat] <;> (try split_ifs) <;> first | exact this | norm_num
    have hb : |scaleOf fm ql c * v' - scaleOf fm ql c * v| ≤ scaleOf fm ql c * |v| * unitRoundoff := by
      rw [← mul_sub, abs_mul, abs_of_nonneg hs, mul_assoc]
      exact mul_le_mul_of_nonneg_left a2 hs
    have hv' : |v'| ≤ |v| * (1 + unitRoundoff) := by
      have := abs_sub_abs_le_abs_sub v' v; linarith
    have hsv : scaleOf fm ql c * |v'| ≤ scaleOf fm ql c * |v| * (1 + unitRoundoff) := by
      rw [mul_assoc]; exact mul_le_mul_of_nonneg_left hv' hs
    have hsv0 : 0 ≤ scaleOf fm ql c * |v| := by positivity
    by_cases h0 : v' = 0
    · rw [if_neg (not_not.mpr h0)]
      rw [h0] at hb
      simp only [mul_zero, zero_sub, abs_neg] at hb
      push_cast
      rw [zero_sub, abs_neg]
      unfold unitRoundoff at hb
      linarith
    · rw [if_pos h0]
      have := scaleInt_near fm v' (scaleOf fm ql c) hs
      have htri : |(scaleInt fm v' (scaleOf fm ql c) : ℚ) - scaleOf fm ql c * v| ≤
          |(scaleInt fm v' (scaleOf fm ql c) : ℚ) - scaleOf fm ql c * v'| + |scaleOf fm ql c * v' - scaleOf fm ql c * v| :=
        abs_sub_le _ _ _
      unfold unitRoundoff at hb hsv
      linarith
  · have hv' := a3 ⟨z, hz, by omega⟩
    have hs : scaleOf fm ql c = 1 := by
      have hzb := abs_lt.mp hz'
      have hr : ⌊v⌋ = v ∧ -(2 ^ 63) ≤ v ∧ v < 2 ^ 63 := by
        rw [hz]
        refine ⟨by simp, by exact_mod_cast (by omega : (-(2 ^ 63) : ℤ) ≤ z), by exact_mod_cast (by omega : z < 2 ^ 63)⟩
      cases h with
      | flt r => simp only [scaleOf]; rw [if_pos hr]
      | cplx r => simp only [scaleOf]; rw [if_pos hr]
      | uint n => rfl
      | int z => rfl
    refine ⟨?_, hs⟩
    rw [hs, hv', hz]
    by_cases h0 : z = 0
    · subst h0; simp
    · rw [if_pos (by exact_mod_cast h0), scaleInt_int fm z hz']

/-- **real constants**: for every ciphertext, level, real constant `c` of value `v`, in place or not, there is one integer `m`, within
`1/2` of `s v` (up to a relative rounding error of `2^-50`), such that the phase is multiplied by `m` modulo every prime up to the level
and the scale by `s`; `s` is `1` if `v` is an integer and the top prime otherwise; integers below `2^52` are exact. -/
theorem real_phase (h16 : N % 16 = 0) (mredPsi : ℕ → ℕ → ℕ) (o : Order String) (same : Bool) {ct0 out : CCt C}
    (hsame : same = true → out = ct0) {c : Const} {v : ℚ} (hc : Real c v) {l0 lo : ℕ} (h0 : ct0.ct.AtLevel l0) (hout : out.ct.AtLevel lo)
    (hids : out.ct.ids = ct0.ct.ids) : ∃ (r : CCt C) (m : ℤ), multByConst mredPsi o same ct0 c out = .ok r ∧ r.ct.AtLevel lo ∧
      r.ct.ids = ct0.ct.ids ∧ r.scale = C.fm.mul ct0.scale (scaleOf C.fm (C.q (min l0 lo)) c) ∧
      (∀ (s : String → Nega N ℤ) (i : ℕ), i ≤ min l0 lo → r.ct.phase s i = (m : Nega N (ZMod (C.q i))) * ct0.ct.phase s i) ∧
      |(m : ℚ) - scaleOf C.fm (C.q (min l0 lo)) c * v| ≤ 1 / 2 + (scaleOf C.fm (C.q (min l0 lo)) c * |v| + 1) / 2 ^ 50 ∧
      ∀ z : ℤ, v = z → |z| < 2 ^ 52 → m = z ∧ scaleOf C.fm (C.q (min l0 lo)) c = 1 := by
  have hsub : ∀ id ∈ ct0.ct, id ∈ out.ct := fun id hid => by
    by_cases e : id = "0"
    · subst e; exact hout.has0
    · exact (Ct.mem_ids.mp (hids ▸ Ct.mem_ids.mpr ⟨hid, e⟩)).1
  obtain ⟨ct, R, e1, e2, e3, -⟩ := multByConst_run h16 mredPsi o same hsame c h0 hout hsub
  obtain ⟨v', m, m1, m2, m3, m4⟩ := multiplier C.fm (C.q (min l0 lo)) hc
  rw [m1] at e1 e3
  have hl : ∀ id q, ct.lookup id = some q → ∃ p, out.ct.lookup id = some p ∧ q = p.set (min l0 lo) (R id) := by
    intro id q hq
    obtain ⟨p, hpp⟩ := Ct.get ((e2.mem id).mp (Ct.mem_of_lookup hq))
    refine ⟨p, hpp, ?_⟩
    have := e2.get hpp
    rw [hq] at this; injection this
  have hat : ct.AtLevel lo := by
    refine ⟨(e2.mem _).mpr hout.has0, fun id q hq => ?_, fun id q hq => ?_⟩
    · obtain ⟨p, p1, p2⟩ := hl id q hq; subst p2; exact hout.len id p p1
    · obtain ⟨p, p1, p2⟩ := hl id q hq; subst p2; exact hout.coeff id p p1
  have hid : ct.ids = ct0.ct.ids := by
    rw [← hids]; ext id; rw [Ct.mem_ids, Ct.mem_ids, e2.mem]
  refine ⟨_, m, e1, hat, hid, rfl, fun s i hi => ?_, m3, m4⟩
  rw [phase_eq_rows, hid]
  refine phaseRows_mul _ s _ fun id hid' => ?_
  have hin : id ∈ ct0.ct := hid'.elim (fun h => (Ct.mem_ids.mp h).1) fun e => e ▸ h0.has0
  obtain ⟨p, hp⟩ := Ct.get (hsub id hin)
  have hg := e2.get hp
  rw [Ct.comp_eq hg, Poly.coeffs_eq (show (p.set (min l0 lo) (R id)).isNTT = false from hout.coeff id p hp)]
  show cf (setQ (min l0 lo) (R id) p.rows i) = _
  rw [setQ_le _ _ hi, e3 id hin, constOut_real, m2]

/-- the hypotheses are met: the constant `5/2` on a ciphertext of two parties at level 2, into one at level 1 -/
example (fm : FloatModel) : Real (.flt (5 / 2)) (5 / 2) ∧ (Ex.ctAB fm 3 5).AtLevel 2 ∧ (Ex.ctAB fm 2 9).AtLevel 1 ∧
    (Ex.ctAB fm 2 9).ids = (Ex.ctAB fm 3 5).ids ∧ 16 % 16 = 0 :=
  ⟨.flt _, Ex.ctAB_at fm 2 5, Ex.ctAB_at fm 1 9, by rw [Ex.ctAB_ids, Ex.ctAB_ids], rfl⟩

/-- **complex constants**: what the program computes. Coefficients in the lower half are multiplied by `a + b ψ` and those in the upper
half by `a - b ψ`, where `ψ` is what the NTT root contributes (`mredPsi x = x ψ`). This is the product by `a + b X^(N/2)` in the NTT domain,
where the ciphertexts of this repository are not. -/
theorem complex_coefficients_partial (fm : FloatModel) {q : ℕ} (L : LimbOps N q) (mredPsi : ℕ → ℕ) {psi : ZMod q}
    (hpsi : ∀ x, mredPsi x < q ∧ (mredPsi x : ZMod q) = x * psi) {re im s : ℚ} (him : im ≠ 0) (x : Limb N q) (t : Fin N) :
    cf (constRow L (constWords fm mredPsi q (re, im, s)) x) t =
      (((if re ≠ 0 then scaleInt fm re s else 0 : ℤ) : ZMod q) +
        (if (t : ℕ) < N / 2 then (scaleInt fm im s : ZMod q) * psi else - ((scaleInt fm im s : ZMod q) * psi))) * cf x t := by
  have hq := L.pos
  set wr := if re ≠ 0 then scaleUpExact fm re s q else 0 with hwr
  set wi := mredPsi (scaleUpExact fm im s q) with hwi
  have hr : wr ≤ q := by rw [hwr]; split_ifs; exacts [scaleUpExact_le fm re s hq, Nat.zero_le _]
  have hi : wi < q := (hpsi _).1
  have hrr : (wr : ZMod q) = ((if re ≠ 0 then scaleInt fm re s else 0 : ℤ) : ZMod q) := by
    rw [hwr]; split_ifs
    · exact scaleUpExact_res fm re s hq
    · simp
  have hir : (wi : ZMod q) = (scaleInt fm im s : ZMod q) * psi := by rw [hwi, (hpsi _).2, scaleUpExact_res fm im s hq]
  have hw : constWords fm mredPsi q (re, im, s) = (cred (wr + wi) q, cred (wr + (q - wi)) q) := by
    unfold constWords; simp only [him, ne_eq, not_false_eq_true, if_true]; rfl
  have c1 : ∀ n, n ≤ 2 * q → cred n q ≤ q ∧ (cred n q : ZMod q) = n := by
    intro n hn
    unfold cred
    split_ifs with h
    · refine ⟨by omega, ?_⟩
      rw [Nat.cast_sub h, ZMod.natCast_self, sub_zero]
    · exact ⟨by omega, rfl⟩
  obtain ⟨b1, b2⟩ := c1 (wr + wi) (by omega)
  obtain ⟨b3, b4⟩ := c1 (wr + (q - wi)) (by omega)
  rw [hw, constRow_cf L (by exact b1) (by exact b3)]
  dsimp only
  rw [b2, b4, Nat.cast_add, Nat.cast_add, Nat.cast_sub hi.le, ZMod.natCast_self, hrr, hir]
  split_ifs <;> ring

/-- the monomial `X^(N/2)` -/
def xHalf (N : ℕ) (K : Type*) [CommRing K] : Nega N K := fun t => if (t : ℕ) = N / 2 then 1 else 0

/-- **finding**: multiplication by the imaginary unit is wrong for every ciphertext whose component `"0"` is the polynomial `1` modulo some
prime of its level: the result has coefficient `0` at `X^(N/2)`, where `X^(N/2) * 1` has coefficient `1`. -/
theorem imaginary_wrong (h16 : N % 16 = 0) (mredPsi : ℕ → ℕ → ℕ) (o : Order String) (same : Bool) {ct0 out : CCt C}
    (hsame : same = true → out = ct0) {l0 lo : ℕ} (h0 : ct0.ct.AtLevel l0) (hout : out.ct.AtLevel lo)
    (hids : out.ct.ids = ct0.ct.ids) {i : ℕ} (hi : i ≤ min l0 lo) (hq : 1 < C.q i) (hone : cf (ct0.ct.comp "0" i) = 1)
    (hpsi : ∀ x, mredPsi i x < C.q i) :
    ∃ r, multByConst mredPsi o same ct0 (.cplx 0 1) out = .ok r ∧
      cf (r.ct.comp "0" i) ≠ xHalf N (ZMod (C.q i)) * cf (ct0.ct.comp "0" i) := by
  have hsub : ∀ id ∈ ct0.ct, id ∈ out.ct := fun id hid => by
    by_cases e : id = "0"
    · subst e; exact hout.has0
    · exact (Ct.mem_ids.mp (hids ▸ Ct.mem_ids.mpr ⟨hid, e⟩)).1
  obtain ⟨ct, R, e1, e2, e3, -⟩ := multByConst_run h16 mredPsi o same hsame (.cplx 0 1) h0 hout hsub
  refine ⟨_, e1, fun heq => ?_⟩
  have hN : 0 < N := Nat.pos_of_ne_zero (NeZero.ne N)
  haveI : Fact (1 < C.q i) := ⟨hq⟩
  have hlt : N / 2 < N := by omega
  have h := congrFun heq ⟨N / 2, hlt⟩
  rw [hone, mul_one] at h
  obtain ⟨p, hp⟩ := Ct.get hout.has0
  have hg := e2.get hp
  rw [Ct.comp_eq hg, Poly.coeffs_eq (show (p.set (min l0 lo) (R "0")).isNTT = false from hout.coeff "0" p hp)] at h
  change cf (setQ (min l0 lo) (R "0") p.rows i) _ = _ at h
  have hc : ∀ n, n ≤ 2 * C.q i → cred n (C.q i) ≤ C.q i := fun n hn => by unfold cred; split_ifs <;> omega
  have hw : (constWords C.fm (mredPsi i) (C.q i) (getConstAndScale C.fm (C.q (min l0 lo)) (.cplx 0 1))).1 ≤ C.q i ∧
      (constWords C.fm (mredPsi i) (C.q i) (getConstAndScale C.fm (C.q (min l0 lo)) (.cplx 0 1))).2 ≤ C.q i := by
    unfold constWords getConstAndScale
    simp only [ne_eq, not_true_eq_false, if_false, one_ne_zero, not_false_eq_true, if_true, zero_add]
    exact ⟨hc _ (by have := hpsi (scaleUpExact C.fm 1 (if false ∧ needsScale 0 = true ∨ True ∧ needsScale 1 = true then C.fm.ofNat (C.q (min l0 lo)) else 1) (C.q i)); simp at this ⊢; omega), hc _ (by omega)⟩
  rw [setQ_le _ _ hi, e3 "0" h0.has0] at h
  unfold constOut at h
  rw [constRow_cf _ hw.1 hw.2, hone] at h
  have h1 : (1 : Nega N (ZMod (C.q i))) ⟨N / 2, hlt⟩ = 0 := by
    rw [Nega.one_def]; unfold Nega.C
    rw [if_neg]
    show ¬ N / 2 = 0
    omega
  rw [h1, mul_zero] at h
  unfold xHalf at h
  simp at h

/-- a ciphertext that meets the hypothesis -/
example (fm : FloatModel) : ∃ ct : Ct (Ex.ctx fm), ct.AtLevel 2 ∧ cf (ct.comp "0" 0) = 1 ∧ 1 < (Ex.ctx fm).q 0 := by
  have hl : ∀ id, (AList.insert "0" ⟨3, false, fun i t => ⟨if (t : ℕ) = 0 then min 1 ((Ex.ctx fm).q i) else 0, by split_ifs <;> omega⟩⟩ ∅ : Ct (Ex.ctx fm)).lookup id =
      if id = "0" then some ⟨3, false, fun i t => ⟨if (t : ℕ) = 0 then min 1 ((Ex.ctx fm).q i) else 0, by split_ifs <;> omega⟩⟩ else none := by
    intro id; rw [GoMap.lookup_insert']; rfl
  refine ⟨_, ⟨AList.lookup_isSome.mp (by rw [hl]; rfl), fun id p hp => ?_, fun id p hp => ?_⟩, ?_, by show 1 < 97; norm_num⟩
  · rw [hl] at hp; split_ifs at hp; injection hp with hp; subst hp; rfl
  · rw [hl] at hp; split_ifs at hp; injection hp with hp; subst hp; rfl
  · unfold Ct.comp
    rw [hl]
    apply Nega.ext; intro t
    rw [Nega.one_def]
    show (((if (t : ℕ) = 0 then min 1 97 else 0 : ℕ)) : ZMod 97) = if (t : ℕ) = 0 then 1 else 0
    split_ifs <;> simp

/-- a constant of an unsupported type is silently treated as zero -/
theorem unsupported (h16 : N % 16 = 0) (mredPsi : ℕ → ℕ → ℕ) (o : Order String) (same : Bool) {ct0 out : CCt C}
    (hsame : same = true → out = ct0) {l0 lo : ℕ} (h0 : ct0.ct.AtLevel l0) (hout : out.ct.AtLevel lo) (hids : out.ct.ids = ct0.ct.ids) :
    ∃ r, multByConst mredPsi o same ct0 .other out = .ok r ∧ ∀ id ∈ ct0.ct, ∀ i ≤ min l0 lo, cf (r.ct.comp id i) = 0 := by
  have hsub : ∀ id ∈ ct0.ct, id ∈ out.ct := fun id hid => by
    by_cases e : id = "0"
    · subst e; exact hout.has0
    · exact (Ct.mem_ids.mp (hids ▸ Ct.mem_ids.mpr ⟨hid, e⟩)).1
  obtain ⟨ct, R, e1, e2, e3, -⟩ := multByConst_run h16 mredPsi o same hsame .other h0 hout hsub
  refine ⟨_, e1, fun id hid i hi => ?_⟩
  obtain ⟨p, hp⟩ := Ct.get (hsub id hid)
  have hg := e2.get hp
  rw [Ct.comp_eq hg, Poly.coeffs_eq (show (p.set (min l0 lo) (R id)).isNTT = false from hout.coeff id p hp)]
  show cf (setQ (min l0 lo) (R id) p.rows i) = _
  rw [setQ_le _ _ hi, e3 id hid]
  unfold getConstAndScale
  rw [constOut_real]
  simp

/-- for ring degrees that are not a multiple of sixteen the unrolled loops leave the row -/
theorem small_degree (h : N % 16 ≠ 0) (mredPsi : ℕ → ℕ → ℕ) (o : Order String) (same : Bool) (ct0 : CCt C) (c : Const) (out : CCt C) :
    ∃ f, multByConst mredPsi o same ct0 c out = .error f := by
  unfold multByConst; rw [if_pos h]; exact ⟨_, rfl⟩

end C25
end MKHE
