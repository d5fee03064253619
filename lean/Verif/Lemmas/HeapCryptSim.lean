import Verif.Model.HeapCrypt
import Verif.Lemmas.HeapNewSim
import Verif.Lemmas.HeapEvalOk

set_option autoImplicit false
set_option linter.unusedSectionVars false

/-!
# Encryption on the heap does to the receiver what encryption on values does
-/

namespace MKHE
namespace Heap
variable {N : ℕ} [NeZero N] {C : Ctx N} {h0 h h' : Heap N} {out : ℕ} {ct ct' : Ct C}

theorem Sim.onRows (S : Sim h0 out h ct) {level : ℕ} {id : String} {f : ∀ i, Limb N (C.q i) → Limb N (C.q i)} (e : ct.onRows id level f = .ok ct') :
    ∃ h', Heap.onRows (C := C) out id level f h = .ok h' ∧ Sim h0 out h' ct' := by
  obtain ⟨P, eP, e⟩ := Go.bind_ok e
  obtain ⟨_, en, e⟩ := Go.bind_ok e
  cases e
  obtain ⟨p, g, hp, lp, vp⟩ := S.entry eP
  have ln : level < h.len p := by have := need_lt en; rw [← vp] at this; exact this
  obtain ⟨h', r1, r2⟩ := lift1_run S.rep.wf f lp lp ln ln
  rw [vp] at r2
  refine ⟨h', ?_, S.step hp r2⟩
  unfold Heap.onRows
  rw [g, bind_ok]
  exact r1

/-- polynomials that are not the receiver's are as they were -/
theorem Sim.poly (S : Sim h0 out h ct) (W : WF h0) {p : ℕ} (hp : p < h0.npoly) (hn : p ∉ polysOf h0 out) : h.view C p = h0.view C p :=
  S.only.view hp hn

theorem encryptNTT_sim (S : Sim h0 out h ct) (W : WF h0) {pt : ℕ} (hp : pt < h0.npoly) (hn : pt ∉ polysOf h0 out) {gs : ℕ → Nega N ℤ} {st : Enc C}
    {levelQ : ℕ} {id : String} {w : Ct C × Enc C} (e : MKHE.encryptNTT gs st levelQ (h0.view C pt) id ct = .ok w) :
    ∃ h', Heap.encryptNTT gs st levelQ pt id out h = .ok (w.2, h') ∧ Sim h0 out h' w.1 := by
  unfold MKHE.encryptNTT at e
  unfold Heap.encryptNTT
  dsimp only at e ⊢
  obtain ⟨c1, e1, e⟩ := Go.bind_ok e
  obtain ⟨h1, f1, S1⟩ := S.onRows e1
  rw [f1, bind_ok]
  have v1 := S1.poly W hp hn
  obtain ⟨_, e2, e⟩ := Go.bind_ok e
  rw [need_view v1 e2, bind_ok]
  have hflag : (h1.poly pt).isNTT = (h0.view C pt).isNTT := congrArg Poly.isNTT v1
  rw [hflag, v1]
  split at e
  · rename_i hc
    rw [if_pos hc]
    obtain ⟨c2, e3, e⟩ := Go.bind_ok e
    cases e
    obtain ⟨h2, f2, S2⟩ := S1.onRows e3
    rw [f2, bind_ok]
    exact ⟨h2, rfl, S2⟩
  · rename_i hc
    rw [if_neg hc]
    obtain ⟨c2, e3, e⟩ := Go.bind_ok e
    obtain ⟨h2, f2, S2⟩ := S1.onRows e3
    obtain ⟨c3, e4, e⟩ := Go.bind_ok e
    cases e
    obtain ⟨h3, f3, S3⟩ := S2.onRows e4
    rw [f2, bind_ok]
    rw [S2.poly W hp hn, f3, bind_ok]
    exact ⟨h3, rfl, S3⟩

theorem encryptCoeff_sim (S : Sim h0 out h ct) (W : WF h0) {pt : ℕ} (hp : pt < h0.npoly) (hn : pt ∉ polysOf h0 out) {gs : ℕ → Nega N ℤ} {st : Enc C}
    {levelQ : ℕ} {id : String} {w : Ct C × Enc C} (e : MKHE.encryptCoeff gs st levelQ (h0.view C pt) id ct = .ok w) :
    ∃ h', Heap.encryptCoeff gs st levelQ pt id out h = .ok (w.2, h') ∧ Sim h0 out h' w.1 := by
  unfold MKHE.encryptCoeff at e
  unfold Heap.encryptCoeff
  dsimp only at e ⊢
  obtain ⟨c1, e1, e⟩ := Go.bind_ok e
  obtain ⟨h1, f1, S1⟩ := S.onRows e1
  rw [f1, bind_ok]
  obtain ⟨c2, e2, e⟩ := Go.bind_ok e
  obtain ⟨h2, f2, S2⟩ := S1.onRows e2
  rw [f2, bind_ok]
  obtain ⟨l0, e3, e⟩ := Go.bind_ok e
  rw [level_of S2.rep e3, bind_ok]
  obtain ⟨c4, e4, e⟩ := Go.bind_ok e
  obtain ⟨h4, f4, S4⟩ := S2.onRows e4
  rw [f4, bind_ok]
  obtain ⟨l1, e5, e⟩ := Go.bind_ok e
  rw [level_of S4.rep e5, bind_ok]
  obtain ⟨c6, e6, e⟩ := Go.bind_ok e
  obtain ⟨h6, f6, S6⟩ := S4.onRows e6
  rw [f6, bind_ok]
  have v6 := S6.poly W hp hn
  obtain ⟨_, e7, e⟩ := Go.bind_ok e
  rw [need_view v6 e7, bind_ok]
  have hflag : (h6.poly pt).isNTT = (h0.view C pt).isNTT := congrArg Poly.isNTT v6
  rw [hflag, v6]
  split at e
  · rename_i hc
    rw [if_pos hc]
    obtain ⟨c8, e8, e⟩ := Go.bind_ok e
    cases e
    obtain ⟨h8, f8, S8⟩ := S6.onRows e8
    rw [f8, bind_ok]
    exact ⟨h8, rfl, S8⟩
  · rename_i hc
    rw [if_neg hc]
    obtain ⟨c8, e8, e⟩ := Go.bind_ok e
    cases e
    obtain ⟨h8, f8, S8⟩ := S6.onRows e8
    rw [f8, bind_ok]
    exact ⟨h8, rfl, S8⟩

theorem copyFlag_sim (S : Sim h0 out h ct) {id : String} {P0 P1 : Poly C} (e0 : ct.deref "0" = .ok P0) (e1 : ct.deref id = .ok P1) :
    ∃ h', copyFlag out id h = .ok h' ∧ Sim h0 out h' (ct.insert id { P1 with isNTT := P0.isNTT }) := by
  obtain ⟨p0, g0, -, -, v0⟩ := S.entry e0
  obtain ⟨p1, g1, h1, -, v1⟩ := S.entry e1
  refine ⟨h.setNTT p1 (h.poly p0).isNTT, ?_, S.step h1 ⟨setNTT_wf S.rep.wf _ _, setNTT_only _ _, rfl, rfl, rfl, ?_⟩⟩
  · unfold copyFlag; rw [g0, bind_ok, g1, bind_ok]
  · rw [view_setNTT, ← v1, ← v0]
    rfl

theorem truncAt_simV (S : SimV h0 out h ct) {id : String} {levelQ : ℕ} (e : Ct.truncate ct id levelQ = .ok ct') :
    ∃ h', truncAt out id levelQ h = .ok h' ∧ SimV h0 out h' ct' := by
  obtain ⟨P, eP, e⟩ := Go.bind_ok e
  obtain ⟨_, en, e⟩ := Go.bind_ok e
  cases e
  obtain ⟨v, S, Sh⟩ := S
  have hva : v.lookup id = some (vis P) := by rw [Sh id, GoMap.deref_some eP]; rfl
  obtain ⟨p, hp, lp, vp⟩ := S.rep.get hva
  have hl := need_lt en
  have hpl : h.len p = P.len := congrArg Poly.len vp
  obtain ⟨h', f1, T⟩ := truncate_run (C := C) S.rep.wf (p := p) (n := levelQ + 1) (by omega)
  refine ⟨h', ?_, _, S.step hp T, fun id' => ?_⟩
  · unfold truncAt; rw [get_of hp, bind_ok]; exact f1
  · rw [GoMap.lookup_insert', GoMap.lookup_insert']
    split_ifs with hid
    · show some _ = some _
      congr 1
      rw [vp]
      unfold vis cut
      dsimp only
      congr 1
      funext i
      split_ifs with hi hj
      · rfl
      · omega
      · rfl
    · exact Sh id'

/-- `Encrypt` into a receiver that does not contain the plaintext polynomial -/
theorem encrypt_sim (R : Rep h out ct) {pt : ℕ} (hp : pt < h.npoly) (hn : pt ∉ polysOf h out) {us gs : ℕ → Nega N ℤ} {st : Enc C} {pk : PKey C}
    {w : Ct C × Enc C} (e : MKHE.encrypt us gs st (h.view C pt) pk ct = .ok w) :
    ∃ h', Heap.encrypt us gs st pt pk out h = .ok (w.2, h') ∧ SimV h out h' w.1 := by
  have S := Sim.start R
  have W := R.wf
  unfold MKHE.encrypt at e
  unfold Heap.encrypt
  dsimp only at e ⊢
  obtain ⟨l0, e0, e⟩ := Go.bind_ok e
  rw [level_of R e0, bind_ok]
  obtain ⟨P0, e1, e⟩ := Go.bind_ok e
  obtain ⟨p0, g0, -, -, v0⟩ := S.entry e1
  rw [g0, bind_ok]
  have hflag : (h.poly p0).isNTT = P0.isNTT := congrArg Poly.isNTT v0
  have hlen : (h.view C pt).len = h.len pt := rfl
  rw [hlen] at e
  rw [hflag]
  obtain ⟨c2, e2, e⟩ := Go.bind_ok e
  obtain ⟨h2, f2, S2⟩ := S.onRows e2
  rw [f2, bind_ok]
  obtain ⟨c3, e3, e⟩ := Go.bind_ok e
  obtain ⟨h3, f3, S3⟩ := S2.onRows e3
  rw [f3, bind_ok]
  obtain ⟨w4, e4, e⟩ := Go.bind_ok e
  obtain ⟨h4, f4, S4⟩ : ∃ h', Heap.encryptBody P0.isNTT gs ⟨_, st.upos + 1, st.gpos⟩ (min (h.len pt - 1) l0) pt pk.id out h3 = .ok (w4.2, h') ∧ Sim h out h' w4.1 := by
    cases hb : P0.isNTT
    · rw [hb] at e4; exact encryptCoeff_sim S3 W hp hn e4
    · rw [hb] at e4; exact encryptNTT_sim S3 W hp hn e4
  rw [f4, bind_ok]
  obtain ⟨Q0, e5, e⟩ := Go.bind_ok e
  obtain ⟨Q1, e6, e⟩ := Go.bind_ok e
  obtain ⟨h6, f6, S6⟩ := copyFlag_sim S4 e5 e6
  dsimp only
  rw [f6, bind_ok]
  obtain ⟨c7, e7, e⟩ := Go.bind_ok e
  obtain ⟨h7, f7, S7⟩ := truncAt_simV (sim_simV S6) e7
  rw [f7, bind_ok]
  obtain ⟨c8, e8, e⟩ := Go.bind_ok e
  cases e
  obtain ⟨h8, f8, S8⟩ := truncAt_simV S7 e8
  rw [f8, bind_ok]
  exact ⟨h8, rfl, S8⟩

/-! ## what encryption writes -/

section ok
variable {Wp Wc : Set ℕ}

theorem onRows_ok {level c : ℕ} {id : String} {f : ∀ i, Limb N (C.q i) → Limb N (C.q i)} (K : Ok h0 Wp Wc h) (hI : Into h0 Wp h c)
    (e : Heap.onRows (C := C) c id level f h = .ok h') : Wrote h0 Wp Wc h h' := by
  obtain ⟨p, ep, e⟩ := Go.bind_ok e
  obtain ⟨a1, a2, a3, -⟩ := polyOp_ok K (Into.lt K hI ep) (hI.2 id p (get_some ep)) e
  exact ⟨a1, a2, a3⟩

theorem encryptNTT_ok {gs : ℕ → Nega N ℤ} {st : Enc C} {levelQ pt c : ℕ} {id : String} {w : Enc C × Heap N} (K : Ok h0 Wp Wc h) (hI : Into h0 Wp h c)
    (e : Heap.encryptNTT gs st levelQ pt id c h = .ok w) : Wrote h0 Wp Wc h w.2 := by
  unfold Heap.encryptNTT at e
  dsimp only at e
  obtain ⟨h1, e1, e⟩ := Go.bind_ok e
  have R1 := onRows_ok K hI e1
  obtain ⟨_, -, e⟩ := Go.bind_ok e
  split at e
  · obtain ⟨h2, e2, e⟩ := Go.bind_ok e
    cases e
    exact R1.trans (onRows_ok R1.1 (R1.into hI) e2)
  · obtain ⟨h2, e2, e⟩ := Go.bind_ok e
    have R2 := R1.trans (onRows_ok R1.1 (R1.into hI) e2)
    obtain ⟨h3, e3, e⟩ := Go.bind_ok e
    cases e
    exact R2.trans (onRows_ok R2.1 (R2.into hI) e3)

theorem encryptCoeff_ok {gs : ℕ → Nega N ℤ} {st : Enc C} {levelQ pt c : ℕ} {id : String} {w : Enc C × Heap N} (K : Ok h0 Wp Wc h) (hI : Into h0 Wp h c)
    (e : Heap.encryptCoeff gs st levelQ pt id c h = .ok w) : Wrote h0 Wp Wc h w.2 := by
  unfold Heap.encryptCoeff at e
  dsimp only at e
  obtain ⟨h1, e1, e⟩ := Go.bind_ok e
  have R1 := onRows_ok K hI e1
  obtain ⟨h2, e2, e⟩ := Go.bind_ok e
  have R2 := R1.trans (onRows_ok R1.1 (R1.into hI) e2)
  obtain ⟨l0, -, e⟩ := Go.bind_ok e
  obtain ⟨h3, e3, e⟩ := Go.bind_ok e
  have R3 := R2.trans (onRows_ok R2.1 (R2.into hI) e3)
  obtain ⟨l1, -, e⟩ := Go.bind_ok e
  obtain ⟨h4, e4, e⟩ := Go.bind_ok e
  have R4 := R3.trans (onRows_ok R3.1 (R3.into hI) e4)
  obtain ⟨_, -, e⟩ := Go.bind_ok e
  split at e
  · obtain ⟨h5, e5, e⟩ := Go.bind_ok e
    cases e
    exact R4.trans (onRows_ok R4.1 (R4.into hI) e5)
  · obtain ⟨h5, e5, e⟩ := Go.bind_ok e
    cases e
    exact R4.trans (onRows_ok R4.1 (R4.into hI) e5)

theorem copyFlag_ok {c : ℕ} {id : String} (K : Ok h0 Wp Wc h) (hI : Into h0 Wp h c) (e : copyFlag c id h = .ok h') : Wrote h0 Wp Wc h h' := by
  obtain ⟨p0, -, e⟩ := Go.bind_ok e
  obtain ⟨p, ep, e⟩ := Go.bind_ok e
  cases e
  exact ⟨K.step (hI.2 id p (get_some ep)) (setNTT_wf K.wf _ _) (setNTT_only _ _), rfl, rfl⟩

theorem truncAt_ok {c : ℕ} {id : String} {l : ℕ} (K : Ok h0 Wp Wc h) (hI : Into h0 Wp h c) (e : truncAt c id l h = .ok h') : Wrote h0 Wp Wc h h' := by
  obtain ⟨p, ep, e⟩ := Go.bind_ok e
  obtain ⟨a1, a2, a3, a4, -⟩ := truncate_inv K.wf e
  exact ⟨K.step (hI.2 id p (get_some ep)) a1 a2, a3, a4⟩

/-- `Encrypt` writes polynomials of the receiver only -/
theorem encrypt_ok {us gs : ℕ → Nega N ℤ} {st : Enc C} {pt c : ℕ} {pk : PKey C} {w : Enc C × Heap N} (K : Ok h0 Wp Wc h) (hI : Into h0 Wp h c)
    (e : Heap.encrypt us gs st pt pk c h = .ok w) : Wrote h0 Wp Wc h w.2 := by
  unfold Heap.encrypt at e
  dsimp only at e
  obtain ⟨l0, -, e⟩ := Go.bind_ok e
  obtain ⟨p0, -, e⟩ := Go.bind_ok e
  obtain ⟨h1, e1, e⟩ := Go.bind_ok e
  have R1 := onRows_ok K hI e1
  obtain ⟨h2, e2, e⟩ := Go.bind_ok e
  have R2 := R1.trans (onRows_ok R1.1 (R1.into hI) e2)
  obtain ⟨w3, e3, e⟩ := Go.bind_ok e
  have R3 : Wrote h0 Wp Wc h w3.2 := by
    unfold Heap.encryptBody at e3
    split at e3
    · exact R2.trans (encryptNTT_ok R2.1 (R2.into hI) e3)
    · exact R2.trans (encryptCoeff_ok R2.1 (R2.into hI) e3)
  obtain ⟨h4, e4, e⟩ := Go.bind_ok e
  have R4 := R3.trans (copyFlag_ok R3.1 (R3.into hI) e4)
  obtain ⟨h5, e5, e⟩ := Go.bind_ok e
  have R5 := R4.trans (truncAt_ok R4.1 (R4.into hI) e5)
  obtain ⟨h6, e6, e⟩ := Go.bind_ok e
  cases e
  exact R5.trans (truncAt_ok R5.1 (R5.into hI) e6)

end ok

/-- the encoder's write to `ptxtPool` -/
theorem encodeInto_run (P : Poly C) (W : WF h) {pool : ℕ} (hp : pool < h.npoly) : Step C h pool ((h.view C pool).copy P) (encodeInto pool P h) := by
  obtain ⟨a1, a2, a3, a4, a5, a6⟩ := rowsOp_inv (h := h) (min (h.len pool) P.len) (fun i _ _ => wr (P.rows i)) pool pool pool W hp (min_le_left _ _)
  have hv := view_rowsOp (C := C) W (n := min (h.len pool) P.len) (fun i _ _ => wr (P.rows i)) hp hp hp (min_le_left _ _) (min_le_left _ _)
    (min_le_left _ _)
  refine ⟨setNTT_wf a1 _ _, a2.trans (setNTT_only _ _), a4, a5, a6, ?_⟩
  unfold encodeInto
  rw [view_setNTT, hv]
  have hlen : (h.rowsOp (min (h.len pool) P.len) (fun i _ _ => wr (P.rows i)) pool pool pool).len pool = h.len pool :=
    congrArg (fun g : ℕ → PolyObj => (g pool).coeffs.length) a3
  rw [hlen]
  unfold Poly.copy
  refine congrArg (Poly.mk (C := C) _ _) (funext fun i => ?_)
  show (if i < min (h.len pool) P.len then _ else _) = if i < min (h.len pool) P.len then _ else _
  split
  · exact rd_wr _
  · rfl

end Heap
end MKHE
