import Verif.Props.MulNew

set_option autoImplicit false

/-!
# C29, C30 for the operations that write into a ciphertext the caller gives

`mulRelin` and `mulRelinHoisted` (mkckks/evaluator.go:449-460, 570-581) with a receiver at any level: the receiver is brought down to the level of
the operands, and if it is lower the product is computed at its level.
-/

namespace MKHE
open Finset Nega
variable {N : ℕ} [NeZero N] {C : Ctx N}
namespace C29

variable {crs : GoMap ℤ (Swk C)} {l0 l1 lo : ℕ} {c0 c1 : CCt C} {rlk : RlkMap C} {s r : String → Nega N ℤ} {a : ℕ → PolyQP C} {Sb Rb Be : ℤ}

/-- the receiver after `DropLevel` -/
theorem receiver (o : Order String) {out : Ct C} (hout : out.AtLevel lo) {level : ℕ} (hle : level ≤ lo) : ∃ ct : Ct C,
    (if level < lo then dropLevel o out (lo - level) else .ok out) = .ok ct ∧ ct.AtLevel level ∧ ct.ids = out.ids := by
  by_cases h : level < lo
  · obtain ⟨d, d1, d2, d3, -⟩ := C26.dropLevel_phase o hout (Nat.sub_le lo level)
    rw [if_pos h]
    refine ⟨d, d1, ?_, d3⟩
    rwa [show lo - (lo - level) = level by omega] at d2
  · have : level = lo := by omega
    subst this
    rw [if_neg h]
    exact ⟨out, rfl, hout, rfl⟩

/-- what a product in a receiver looks like after rescaling -/
def Product (c0 c1 : CCt C) (s : String → Nega N ℤ) (Sb Rb Be D : ℤ) (level n : ℕ) (out : CCt C) : Prop :=
  out.ct.AtLevel (level - n) ∧ out.ct.ids = c0.ct.ids ∪ c1.ct.ids ∧ out.scale = C27.scaleAfter C.fm C.q level (C.fm.mul c0.scale c1.scale) n ∧
    ∃ Er : Nega N ℤ, (∀ x, 2 * (C.P * |Er x|) ≤ 2 * mulNoise N C.P c0.ct.ids.card c1.ct.ids.card (C.beta level) D Sb Rb Be +
        C.P * ((C27.dropped C.q level n - 1) * (1 + (c0.ct.ids ∪ c1.ct.ids).card * N * Sb))) ∧
      ∀ i ≤ level - n, c0.ct.phase s i * c1.ct.phase s i = (C27.dropped C.q level n : Nega N (ZMod (C.q i))) * out.ct.phase s i + red (C.q i) Er

theorem product_of (V : C.Valid) (o : Order String) {level n : ℕ} (hlev : level < C.nQ) {pscale : ℚ} (hp : 0 < pscale)
    (hs : C.fm.mul c0.scale c1.scale ≠ 0) (hn : Drops C.fm C.q level (C.fm.mul c0.scale c1.scale) pscale n) (hSb : ∀ id, Bdd (s id) Sb) {D : ℤ} {p : Ct C}
    (h1 : p.AtLevel level) (h2 : p.ids = c0.ct.ids ∪ c1.ct.ids) {E1 : Nega N ℤ}
    (b1 : ∀ x, C.P * |E1 x| ≤ mulNoise N C.P c0.ct.ids.card c1.ct.ids.card (C.beta level) D Sb Rb Be)
    (b2 : ∀ i ≤ level, p.phase s i = c0.ct.phase s i * c1.ct.phase s i + red (C.q i) E1) :
    ∃ e out, rescale o ⟨p, C.fm.mul c0.scale c1.scale⟩ pscale ⟨p, C.fm.mul c0.scale c1.scale⟩ true = .ok (e, out) ∧
      Product c0 c1 s Sb Rb Be D level n out := by
  obtain ⟨e, out, k1, k2, k3, k4, k5⟩ := rescale_inplace_phase V o (ct := ⟨p, C.fm.mul c0.scale c1.scale⟩) hlev h1 hp hs hn
  obtain ⟨E2, d1, d2, -⟩ := k5 s Sb hSb
  dsimp only at k3 d1 d2
  rw [h2] at k3 d1
  refine ⟨e, out, k1, k2, k3, k4, E2 - E1, fun x => ?_, fun i hi => ?_⟩
  · rw [Nega.sub_apply]
    have h1 : |E2 x - E1 x| ≤ |E2 x| + |E1 x| := abs_sub _ _
    have h2 := b1 x
    have h3 := d1 x
    have hP : (0 : ℤ) ≤ C.P := by positivity
    nlinarith [mul_le_mul_of_nonneg_left h1 hP, mul_le_mul_of_nonneg_left h3 hP]
  · rw [map_sub, ← sub_eq_iff_eq_add.mpr (b2 i (by omega)), d2 i hi]
    ring

/-- **C29 with a receiver, plain**: whatever the receiver holds and whatever its level, it ends up with the product at the smallest of the three
levels, rescaled -/
theorem mulRelin_phase (V : C.Valid) (pscale : ℚ) (o : Sched String) (E : Eval C) {level : ℕ} (hlevel : level = min (min l0 l1) lo)
    (hE : E.ksw.Alloc (C.beta level)) (in0 : c0.ct.AtLevel l0) (in1 : c1.ct.AtLevel l1) (hl : min l0 l1 < C.nQ) {out : CCt C} (hout : out.ct.AtLevel lo)
    (hids : out.ct.ids = c0.ct.ids ∪ c1.ct.ids) (K : Keys crs level (c0.ct.ids ∪ c1.ct.ids) rlk s r a Sb Rb Be) (hSb : ∀ id, Bdd (s id) Sb)
    (D : ℤ) (hD : ∀ k < C.beta level, 2 * (C.blockProd level k : ℤ) ≤ D) (hp : 0 < pscale) (hs : C.fm.mul c0.scale c1.scale ≠ 0) {n : ℕ}
    (hn : Drops C.fm C.q level (C.fm.mul c0.scale c1.scale) pscale n) :
    ∃ res E', ckksMulRelin pscale crs o E c0 c1 rlk out = .ok (res, E') ∧ Product c0 c1 s Sb Rb Be D level n res := by
  obtain ⟨ct, d1, d2, d3⟩ := receiver (o 90) hout (level := level) (by omega)
  obtain ⟨p, S', e1, e2, e3, E1, e4, e5⟩ := mulAndRelin_phase V o E.ksw hE (op0 := c0.ct) (op1 := c1.ct) (out := ct)
    ⟨by omega, in0.toCoeff.mono (by omega), in1.toCoeff.mono (by omega), d2, d3.trans hids⟩ K D hD
  obtain ⟨e, res, f1, f2⟩ := product_of V (o 91) (by omega) hp hs hn hSb e2 e3 e4 e5
  refine ⟨res, { E with ksw := S' }, ?_, f2⟩
  unfold ckksMulRelin
  rw [in0.level, bind_ok, in1.level, bind_ok, hout.level, bind_ok]
  dsimp only
  rw [← hlevel]
  by_cases h : level < lo
  · rw [if_pos h] at d1 ⊢
    rw [d1, bind_ok, e1, bind_ok]
    dsimp only
    rw [f1, bind_ok]
  · rw [if_neg h] at d1 ⊢
    rw [d1, bind_ok, e1, bind_ok]
    dsimp only
    rw [f1, bind_ok]

/-- **C29 with a receiver, hoisted**, with hoisted forms computed at the levels of the operands, or `nil` -/
theorem mulRelinHoisted_phase (V : C.Valid) (pscale : ℚ) (o : Sched String) (E : Eval C) {level : ℕ} (hlevel : level = min (min l0 l1) lo)
    (hE : E.ksw.Alloc (C.beta level)) (in0 : c0.ct.AtLevel l0) (in1 : c1.ct.AtLevel l1) (hl0 : l0 < C.nQ) (hl1 : l1 < C.nQ) {out : CCt C}
    (hout : out.ct.AtLevel lo) (hids : out.ct.ids = c0.ct.ids ∪ c1.ct.ids) (h0 h1 : Option (HoistedCt C)) (k0 : ∀ m, h0 = some m → IsHoisted l0 c0.ct m)
    (k1 : ∀ m, h1 = some m → IsHoisted l1 c1.ct m) (K : Keys crs level (c0.ct.ids ∪ c1.ct.ids) rlk s r a Sb Rb Be) (hSb : ∀ id, Bdd (s id) Sb)
    (D : ℤ) (hD : ∀ l ∈ [level, l0, l1], ∀ k < C.beta l, 2 * (C.blockProd l k : ℤ) ≤ D) (hp : 0 < pscale) (hs : C.fm.mul c0.scale c1.scale ≠ 0) {n : ℕ}
    (hn : Drops C.fm C.q level (C.fm.mul c0.scale c1.scale) pscale n) :
    ∃ res E', ckksMulRelinHoisted pscale crs o E c0 c1 h0 h1 rlk out = .ok (res, E') ∧ Product c0 c1 s Sb Rb Be D level n res := by
  obtain ⟨ct, d1, d2, d3⟩ := receiver (o 90) hout (level := level) (by omega)
  obtain ⟨p, S', e1, e2, e3, E1, e4, e5⟩ := mulAndRelinHoisted_phase V o E.ksw hE (op0 := c0.ct) (op1 := c1.ct) (out := ct)
    ⟨by omega, in0.toCoeff.mono (by omega), in1.toCoeff.mono (by omega), d2, d3.trans hids⟩ K h0 h1 l0 l1 (by omega) hl0 (by omega) hl1 k0 k1 D hD
  obtain ⟨e, res, f1, f2⟩ := product_of V (o 91) (by omega) hp hs hn hSb e2 e3 e4 e5
  refine ⟨res, { E with ksw := S' }, ?_, f2⟩
  unfold ckksMulRelinHoisted
  rw [in0.level, bind_ok, in1.level, bind_ok, hout.level, bind_ok]
  dsimp only
  rw [← hlevel]
  by_cases h : level < lo
  · rw [if_pos h] at d1 ⊢
    rw [d1, bind_ok, e1, bind_ok]
    dsimp only
    rw [f1, bind_ok]
  · rw [if_neg h] at d1 ⊢
    rw [d1, bind_ok, e1, bind_ok]
    dsimp only
    rw [f1, bind_ok]

/-- a product of ciphertexts of level 2 in a receiver that holds something else -/
example (fm : FloatModel) (E : Eval (Ex.ctx fm)) (hE : E.ksw.Alloc 2) : ∃ res E',
    ckksMulRelin 100 (Ex.crs fm) (fun _ => Order.rev) E ⟨Ex.ctAB fm 3 4, 200⟩ ⟨Ex.ctB fm 3 9, 200⟩ (Ex.rlks fm) ⟨Ex.ctAB fm 3 7, 5⟩ = .ok (res, E') ∧
    Product ⟨Ex.ctAB fm 3 4, 200⟩ ⟨Ex.ctB fm 3 9, 200⟩ Ex.sec 1 1 2 37442 2 1 res :=
  mulRelin_phase (c0 := ⟨Ex.ctAB fm 3 4, 200⟩) (c1 := ⟨Ex.ctB fm 3 9, 200⟩) (Ex.valid fm) 100 _ E (level := 2) (by norm_num)
    (by rw [Ex.beta_two]; exact hE) (Ex.ctAB_at fm 2 4) (Ex.ctB_at fm 2 9) (by show min 2 2 < 3; norm_num) (out := ⟨Ex.ctAB fm 3 7, 5⟩) (Ex.ctAB_at fm 2 7)
    (by rw [Ex.ctAB_ids, Ex.ctAB_ids, Ex.ctB_ids]; decide) (exKeys fm) (fun id => Ex.sec_bdd id) 37442 (Ex.blocks fm) (by norm_num)
    (by show fm.mul 200 200 ≠ 0; rw [exScale]; norm_num) (exDrops fm)

end C29
end MKHE
