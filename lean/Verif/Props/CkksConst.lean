import Verif.Props.CkksSem
import Verif.Props.Const

set_option autoImplicit false

/-!
# C59: multiplication by a real constant and rescaling, on the values ciphertexts stand for
-/

namespace MKHE.C59
open Finset Nega

variable {N : ℕ} [NeZero N] {C : Ctx N} {S : Sys C}

/-- the real part of a constant -/
def constVal : Const → ℚ
  | .flt r => r
  | .cplx r _ => r
  | .uint n => n
  | .int z => z
  | .other => 0

/-- how far the integer multiplier is from the scaled constant: integers below `2^52` are exact, other constants are rounded to the nearest integer (with a
relative error of `2^-50` from the floating point arithmetic) -/
def constDelta (σ v : ℚ) : ℚ := if v.den = 1 ∧ |v| < 2 ^ 52 then 0 else 1 / 2 + (σ * |v| + 1) / 2 ^ 50

/-- the result of `MultByConst` -/
noncomputable def Info.const (C : Ctx N) (a : Info) (k : Const) : Info :=
  let σ := C25.scaleOf C.fm (C.q a.level) k
  let v := constVal k
  let δ := constDelta σ v
  let s := C.fm.mul a.scale σ
  ⟨a.level, s, a.ids, |(v : ℝ)| * a.V,
    ((σ * |v| + δ : ℚ) : ℝ) * a.B + ((a.scale * δ + |a.scale * σ - s| * |v| : ℚ) : ℝ) * a.V⟩

theorem scaleOf_pos (fm : FloatModel) {q : ℕ} (hq : 0 < q) (k : Const) : 0 < C25.scaleOf fm q k := by
  have := rnd_pos fm (x := (q : ℚ)) (by exact_mod_cast hq)
  cases k <;> simp only [C25.scaleOf, FloatModel.ofNat] <;> (try split_ifs) <;> first | exact this | norm_num

/-- what follows from the phases (C25) -/
theorem const_result (V : C.Valid) {ct out : CCt C} {v : Nega N ℝ} {a : Info} (h : Approx S ct v a) {k : Const} {m : ℤ}
    (e1 : out.ct.AtLevel a.level) (e2 : out.ct.ids = ct.ct.ids) (e3 : out.scale = C.fm.mul ct.scale (C25.scaleOf C.fm (C.q a.level) k))
    (e4 : ∀ i ≤ a.level, out.ct.phase S.s i = (m : Nega N (ZMod (C.q i))) * ct.ct.phase S.s i)
    (e5 : |(m : ℚ) - C25.scaleOf C.fm (C.q a.level) k * constVal k| ≤ 1 / 2 + (C25.scaleOf C.fm (C.q a.level) k * |constVal k| + 1) / 2 ^ 50)
    (e6 : ∀ z : ℤ, constVal k = z → |z| < 2 ^ 52 → m = z ∧ C25.scaleOf C.fm (C.q a.level) k = 1) :
    Approx S out (Nega.C (constVal k : ℝ) * v) (a.const C k) := by
  have hσ := scaleOf_pos C.fm (V.pair.primeQ a.level h.lt).pos k
  have hd : |(m : ℚ) - C25.scaleOf C.fm (C.q a.level) k * constVal k| ≤ constDelta (C25.scaleOf C.fm (C.q a.level) k) (constVal k) := by
    unfold constDelta
    split_ifs with hh
    · have hz : constVal k = ((constVal k).num : ℤ) := (Rat.coe_int_num_of_den_eq_one hh.1).symm
      obtain ⟨g1, g2⟩ := e6 _ hz (by
        have := hh.2
        rw [hz] at this
        exact_mod_cast this)
      rw [g1, g2, one_mul, ← hz, sub_self, abs_zero]
    · exact e5
  refine ⟨h.lt, e1, e3.trans (by rw [h.scale]; rfl), rnd_pos _ (mul_pos h.pos hσ), e2.trans h.ids, h.sub, fun j => ?_, ?_⟩
  · rw [slot_smul, norm_mul, Complex.norm_real, Real.norm_eq_abs]
    exact mul_le_mul_of_nonneg_left (h.bdd j) (abs_nonneg _)
  obtain ⟨F, f1, f2⟩ := h.enc
  refine ⟨(m : Nega N ℤ) * F, fun i hi => by rw [e4 i hi, f1 i hi, map_mul, map_intCast], fun j => ?_⟩
  have d := f2 j
  have w := h.bdd j
  have hx : slot j (toReal ((m : Nega N ℤ) * F)) = (m : ℂ) * slot j (toReal F) := by
    rw [map_mul, map_mul, map_intCast, map_intCast]
  rw [hx, slot_smul]
  dsimp only [Info.const]
  set σ := C25.scaleOf C.fm (C.q a.level) k with hσd
  set c := constVal k with hcd
  set δ := constDelta σ c with hδ
  set s' := C.fm.mul a.scale σ with hs'
  generalize slot j (toReal F) = x at *
  generalize slot j v = y at *
  have hB : 0 ≤ a.B := le_trans (norm_nonneg _) d
  have hV : 0 ≤ a.V := le_trans (norm_nonneg _) w
  have hm : |(m : ℚ)| ≤ σ * |c| + δ := by
    have h1 : |(m : ℚ)| ≤ |(m : ℚ) - σ * c| + |σ * c| := by
      have := abs_add_le ((m : ℚ) - σ * c) (σ * c); rwa [sub_add_cancel] at this
    rw [abs_mul, abs_of_pos hσ] at h1
    linarith
  have hms : |(m : ℚ) * a.scale - s' * c| ≤ a.scale * δ + |a.scale * σ - s'| * |c| := by
    have e : (m : ℚ) * a.scale - s' * c = a.scale * (m - σ * c) + (a.scale * σ - s') * c := by ring
    rw [e]
    refine (abs_add_le _ _).trans (add_le_add ?_ (abs_mul _ _).le)
    rw [abs_mul, abs_of_pos h.pos]
    exact mul_le_mul_of_nonneg_left hd h.pos.le
  have hm' : ‖(m : ℂ)‖ ≤ ((σ * |c| + δ : ℚ) : ℝ) := by
    rw [Complex.norm_intCast]
    have := (Rat.cast_le (K := ℝ)).mpr hm
    refine le_trans (le_of_eq ?_) this
    push_cast; rfl
  have hms' : ‖(((m : ℚ) * a.scale - s' * c : ℚ) : ℂ)‖ ≤ ((a.scale * δ + |a.scale * σ - s'| * |c| : ℚ) : ℝ) := by
    have := (Rat.cast_le (K := ℝ)).mpr hms
    refine le_trans (le_of_eq ?_) this
    rw [Rat.cast_abs, ← Real.norm_eq_abs, ← Complex.norm_real]
    push_cast; rfl
  have e : (m : ℂ) * x - ((s' : ℝ) : ℂ) * (((c : ℝ) : ℂ) * y) =
      (m : ℂ) * (x - ((a.scale : ℝ) : ℂ) * y) + (((m : ℚ) * a.scale - s' * c : ℚ) : ℂ) * y := by
    push_cast; ring
  rw [e]
  refine (norm_add_le _ _).trans (add_le_add ?_ ?_)
  · rw [norm_mul]; exact mul_le_mul hm' d (norm_nonneg _) (le_trans (norm_nonneg _) hm')
  · rw [norm_mul]; exact mul_le_mul hms' w (norm_nonneg _) (le_trans (norm_nonneg _) hms')

/-- **C59, multiplication by a real constant**: `out := ct.CopyNew(); eval.MultByConst(ct, k, out)` -/
theorem const (V : C.Valid) (hS : S.Ok) (mredPsi : ℕ → ℕ → ℕ) (o o' : Order String) {ct : CCt C} {v : Nega N ℝ} {a : Info} (h : Approx S ct v a)
    {k : Const} (hk : C25.Real k (constVal k)) :
    ∃ cp out, ct.ct.copyNew o = .ok cp ∧ multByConst mredPsi o' false ct k ⟨cp, ct.scale⟩ = .ok out ∧
      Approx S out (Nega.C (constVal k : ℝ) * v) (a.const C k) := by
  obtain ⟨cp, c1, c2⟩ := Ct.copyNew_ok o h.lvl.has0
  obtain ⟨out, m, e1, e2, e3, e4, e5, e6, e7⟩ := C25.real_phase (out := ⟨cp, ct.scale⟩) hS.n16 mredPsi o' false (fun e => by cases e) hk h.lvl
    (c2.symm.atLevel h.lvl) c2.ids
  rw [min_self] at e4 e5 e6 e7
  exact ⟨cp, out, c1, e1, const_result V h e2 e3 e4 (e5 S.s) e6 e7⟩

/-- **C59, multiplication by a real constant in place**: `eval.MultByConst(ct, k, ct)` -/
theorem const_inplace (V : C.Valid) (hS : S.Ok) (mredPsi : ℕ → ℕ → ℕ) (o : Order String) {ct : CCt C} {v : Nega N ℝ} {a : Info} (h : Approx S ct v a)
    {k : Const} (hk : C25.Real k (constVal k)) :
    ∃ out, multByConst mredPsi o true ct k ct = .ok out ∧ Approx S out (Nega.C (constVal k : ℝ) * v) (a.const C k) := by
  obtain ⟨out, m, e1, e2, e3, e4, e5, e6, e7⟩ := C25.real_phase (out := ct) hS.n16 mredPsi o true (fun _ => rfl) hk h.lvl h.lvl rfl
  rw [min_self] at e4 e5 e6 e7
  exact ⟨out, e1, const_result V h e2 e3 e4 (e5 S.s) e6 e7⟩

/-! ## rescaling -/

/-- the number of primes `Rescale` divides a ciphertext of scale `sc` at level `l` by (if there is one) -/
noncomputable def dropsAt (C : Ctx N) (l : ℕ) (sc ms : ℚ) : ℕ :=
  open Classical in if h : ∃ n, Drops C.fm C.q l sc ms n then h.choose else 0

/-- `Rescale` does not run through the whole modulus chain -/
def RescaleOk (C : Ctx N) (l : ℕ) (sc ms : ℚ) : Prop := 0 < ms ∧ ∃ n, Drops C.fm C.q l sc ms n

theorem RescaleOk.spec {l : ℕ} {sc ms : ℚ} (h : RescaleOk C l sc ms) : Drops C.fm C.q l sc ms (dropsAt C l sc ms) := by
  have h' : ∃ n, Drops C.fm C.q l sc ms n := h.2
  unfold dropsAt; rw [dif_pos h']; exact h'.choose_spec

/-- the result of `Rescale` -/
noncomputable def Info.rescale (S : Sys C) (a : Info) (ms : ℚ) : Info :=
  let n := dropsAt C a.level a.scale ms
  let s := C27.scaleAfter C.fm C.q a.level a.scale n
  ⟨a.level - n, s, a.ids, a.V,
    (a.B + (((C27.dropped C.q a.level n - 1) * (1 + a.ids.card * N * S.Sb) : ℤ) : ℝ) / 2 * N) / C27.dropped C.q a.level n +
      |(a.scale : ℝ) / C27.dropped C.q a.level n - s| * a.V⟩

/-- what follows from the phases (C27) -/
theorem rescale_result (V : C.Valid) {ct out : CCt C} {v : Nega N ℝ} {a : Info} (h : Approx S ct v a) {ms : ℚ} {n : ℕ}
    (hn : n = dropsAt C a.level a.scale ms) (hle : n ≤ a.level) (e1 : out.ct.AtLevel (a.level - n)) (e2 : out.ct.ids = ct.ct.ids)
    (e3 : out.scale = C27.scaleAfter C.fm C.q a.level ct.scale n) {Er : Nega N ℤ}
    (e4 : ∀ t, 2 * |Er t| ≤ (C27.dropped C.q a.level n - 1) * (1 + ct.ct.ids.card * N * S.Sb))
    (e5 : ∀ i ≤ a.level - n, ct.ct.phase S.s i = (C27.dropped C.q a.level n : Nega N (ZMod (C.q i))) * out.ct.phase S.s i + red (C.q i) Er)
    (e6 : ∀ i, a.level - n < i → i ≤ a.level → ct.ct.phase S.s i = red (C.q i) Er) : Approx S out v (a.rescale S ms) := by
  subst hn
  rw [h.scale] at e3
  rw [h.ids] at e4
  refine ⟨lt_of_le_of_lt (Nat.sub_le _ _) h.lt, e1, e3, scaleAfter_pos V h.lt h.pos _, e2.trans h.ids, h.sub, h.bdd, ?_⟩
  obtain ⟨F, f1, f2⟩ := h.enc
  have one : ∀ j : ℤ, ‖slot j (toReal (1 : Nega N ℤ)) - (1 : ℝ) * slot j (1 : Nega N ℝ)‖ ≤ 0 := fun j => by
    rw [map_one, map_one]; simp
  have := prod_enc (Er := Er) (out := out.ct) (sc := (C27.scaleAfter C.fm C.q a.level a.scale (dropsAt C a.level a.scale ms) : ℝ)) (s := S.s)
    (Eb := (((C27.dropped C.q a.level (dropsAt C a.level a.scale ms) - 1) * (1 + a.ids.card * N * S.Sb) : ℤ) : ℝ) / 2) V h.lt hle
    (by exact_mod_cast h.pos.le) (by norm_num : (0 : ℝ) ≤ 1) f2 one h.bdd (fun j => (by rw [map_one, norm_one] : ‖slot j (1 : Nega N ℝ)‖ ≤ 1))
    (fun x => by
      rw [le_div_iff₀ (by norm_num)]
      have h' : ((2 * |Er x| : ℤ) : ℝ) ≤ _ := Int.cast_le.mpr (e4 x)
      refine le_trans (le_of_eq ?_) h'
      push_cast; ring)
    (fun i hi => by rw [mul_one, ← e5 i hi, f1 i (by omega)]) (fun i hi hi' => by rw [mul_one, ← e6 i hi hi', f1 i hi'])
  rw [mul_one] at this
  obtain ⟨Z, z1, z2⟩ := this
  refine ⟨Z, z1, fun j => (z2 j).trans (le_of_eq ?_)⟩
  dsimp only [Info.rescale, prodErr]
  ring_nf

/-- **C59, rescaling in place**: `eval.Rescale(ct, minScale, ct)` -/
theorem rescale_inplace (V : C.Valid) (hS : S.Ok) (o : Order String) {ct : CCt C} {v : Nega N ℝ} {a : Info} (h : Approx S ct v a) {ms : ℚ}
    (hm : RescaleOk C a.level a.scale ms) :
    ∃ e out, MKHE.rescale o ct ms ct true = .ok (e, out) ∧ Approx S out v (a.rescale S ms) := by
  have hd := hm.spec
  obtain ⟨e, out, c1, c2, c3, c4, c5⟩ := rescale_inplace_phase V o (ct := ct) h.lt h.lvl hm.1 (by rw [h.scale]; exact h.pos.ne')
    (by rw [h.scale]; exact hd)
  obtain ⟨Er, d1, d2, d3⟩ := c5 S.s S.Sb hS.sb
  exact ⟨e, out, c1, rescale_result V h rfl (drops_le hd) c2 c3 c4 d1 d2 d3⟩

/-- **C59, rescaling of a copy**: `out := ct.CopyNew(); eval.Rescale(out, minScale, out)` -/
theorem rescaleCopy (V : C.Valid) (hS : S.Ok) (o o' : Order String) {ct : CCt C} {v : Nega N ℝ} {a : Info} (h : Approx S ct v a) {ms : ℚ}
    (hm : RescaleOk C a.level a.scale ms) :
    ∃ cp e out, ct.ct.copyNew o = .ok cp ∧ MKHE.rescale o' ⟨cp, ct.scale⟩ ms ⟨cp, ct.scale⟩ true = .ok (e, out) ∧ Approx S out v (a.rescale S ms) := by
  obtain ⟨cp, c1, c2⟩ := Ct.copyNew_ok o h.lvl.has0
  have h' : Approx S ⟨cp, ct.scale⟩ v a := by
    refine ⟨h.lt, c2.symm.atLevel h.lvl, h.scale, h.pos, c2.ids.trans h.ids, h.sub, h.bdd, ?_⟩
    obtain ⟨F, f1, f2⟩ := h.enc
    exact ⟨F, fun i hi => by
      show cp.phase S.s i = _
      rw [c2.phase]; exact f1 i hi, f2⟩
  obtain ⟨e, out, e1, e2⟩ := rescale_inplace V hS o' h' hm
  exact ⟨cp, e, out, c1, e1, e2⟩

end MKHE.C59
