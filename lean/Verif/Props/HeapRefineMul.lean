import Verif.Props.HeapRefine
import Verif.Lemmas.HeapBfvSim

set_option autoImplicit false
set_option linter.unusedSectionVars false

/-!
# C63: multiplication on the heap returns what it returns on values
-/

namespace MKHE
namespace C63
open Heap

section bfv
variable {N : ℕ} [NeZero N] {B : BCtx N} {h : Heap N}

/-- **C63, MulRelinNew (BFV)**: the operands may be the same object or share polynomials -/
theorem bfvMulRelinNew_refines (crs : GoMap ℤ (Swk B.C)) (o : Sched String) (S : BScratch B) {c0 c1 : ℕ} (set : BRlkMap B)
    (W : WF h) (hc0 : c0 < h.nct) (hc1 : c1 < h.nct) {r : Ct B.C × BScratch B}
    (e : MKHE.bfvMulRelinNew crs o S (value B.C h c0) (value B.C h c1) set = .ok r) :
    ∃ c' h', Heap.bfvMulRelinNew crs o S c0 c1 set h = .ok ((c', r.2), h') ∧ Rep h' c' r.1 := by
  obtain ⟨ov, e1, e⟩ := Go.bind_ok e
  obtain ⟨ids0, x1, e1⟩ := Go.bind_ok e1
  obtain ⟨ids1, x2, e1⟩ := Go.bind_ok e1
  obtain ⟨ids, x3, e1⟩ := Go.bind_ok e1
  cases e1
  obtain ⟨M, -, -⟩ := newCt_spec (C := B.C) (o 84) ids (B.C.nQ - 1) W
  obtain ⟨k1, k2, -, k4, k5⟩ := made (C := B.C) W hc0 M
  obtain ⟨j1, j2, -, j4, j5⟩ := made (C := B.C) W hc1 M
  have R := newCt_rep (C := B.C) (o 84) (o 84) ids (B.C.nQ - 1) W
  obtain ⟨r0, y1, e⟩ := Go.bind_ok e
  obtain ⟨r1, y2, e⟩ := Go.bind_ok e
  obtain ⟨i0, y3, e⟩ := Go.bind_ok e
  obtain ⟨i1, y4, e⟩ := Go.bind_ok e
  obtain ⟨l0, y5, e⟩ := Go.bind_ok e
  obtain ⟨g0, y6, e⟩ := Go.bind_ok e
  obtain ⟨l1, y7, e⟩ := Go.bind_ok e
  obtain ⟨g1, y8, e⟩ := Go.bind_ok e
  obtain ⟨h', b1, b2⟩ := mulBFVHoisted_sim R e
  refine ⟨_, h', ?_, b2.rep⟩
  unfold Heap.bfvMulRelinNew Heap.bfvNewBinary
  rw [idSet_value (C := B.C), x1, bind_ok, idSet_value (C := B.C), x2, bind_ok, x3, bind_ok, bind_ok]
  unfold Heap.bfvMulRelinHoisted
  rw [k4, y1, bind_ok, j4, y2, bind_ok, idSet_value (C := B.C), k4, y3, bind_ok, idSet_value (C := B.C), j4, y4, bind_ok, level_value (C := B.C), k4, y5, bind_ok,
    y6, bind_ok, level_value (C := B.C), j4, y7, bind_ok, y8, bind_ok, b1, bind_ok]

end bfv

variable {N : ℕ} [NeZero N] {C : Ctx N} {h : Heap N}

/-- the schedule of a multiplication on values that visits the receiver as the heap does -/
noncomputable def viaMul (k : List String) (o : Sched String) : Sched String := fun n => if n = 2 ∨ n = 91 ∨ n = 103 then (o n).via k else o n

theorem viaMul_ne (k : List String) (o : Sched String) {n : ℕ} (h : n ≠ 2 ∧ n ≠ 91 ∧ n ≠ 103) : viaMul k o n = o n := if_neg (by omega)
theorem viaMul_eq (k : List String) (o : Sched String) {n : ℕ} (h : n = 2 ∨ n = 91 ∨ n = 103) : viaMul k o n = (o n).via k := if_pos h

/-- **C63, MulRelinHoistedNew (CKKS)**: the result holds `r` up to rows beyond the new level, which a caller cannot read -/
theorem ckksMulRelinHoistedNew_refines (pscale : ℚ) (crs : GoMap ℤ (Swk C)) (o : Sched String) {c0 c1 : HCt}
    (W : WF h) (hc0 : c0.ct < h.nct) (hc1 : c1.ct < h.nct) (z0 : "0" ∈ value C h c0.ct) (z1 : "0" ∈ value C h c1.ct) :
    ∃ o' : Sched String, (∀ n, n ≠ 2 ∧ n ≠ 91 ∧ n ≠ 103 → o' n = o n) ∧ ∀ (E : Eval C) (g0 g1 : Option (HoistedCt C)) (rlk : RlkMap C) (r : CCt C × Eval C),
      MKHE.ckksMulRelinHoistedNew pscale crs o' E ⟨value C h c0.ct, c0.scale⟩ ⟨value C h c1.ct, c1.scale⟩ g0 g1 rlk = .ok r →
      ∃ c' h', Heap.ckksMulRelinHoistedNew pscale crs o E c0 c1 g0 g1 rlk h = .ok ((⟨c', r.1.scale⟩, r.2), h') ∧ Shows (value C h' c') r.1.ct := by
  obtain ⟨ids0, ids1, ids, a1, a2, a3, -, -, -⟩ := idset_union (o 80) (o 81) (o 82) (o 83) (value C h c0.ct) (value C h c1.ct)
  obtain ⟨P0, hP0⟩ := Ct.get z0
  obtain ⟨P1, hP1⟩ := Ct.get z1
  have hl0 : (value C h c0.ct).level = .ok (P0.len - 1) := by unfold Ct.level; rw [GoMap.deref_ok hP0, bind_ok]
  have hl1 : (value C h c1.ct).level = .ok (P1.len - 1) := by unfold Ct.level; rw [GoMap.deref_ok hP1, bind_ok]
  set L := min (P0.len - 1) (P1.len - 1) with hL
  obtain ⟨M, -, -⟩ := newCt_spec (C := C) (o 84) ids L W
  obtain ⟨k1, k2, -, k4, -⟩ := made (C := C) W hc0 M
  obtain ⟨j1, j2, -, j4, -⟩ := made (C := C) W hc1 M
  have R := newCt_rep (C := C) (o 84) (o 84) ids L W
  set g := (newCt (o 84) ids L h).2 with hg
  set out := (newCt (o 84) ids L h).1 with hout
  have hlo : (Ct.new (o 84) ids L : Ct C).level = .ok L := by
    unfold Ct.level
    rw [GoMap.deref_ok (show _ = some (Poly.new L) by rw [Ct.new_lookup, if_pos (Or.inl rfl)]), bind_ok]
    rfl
  refine ⟨viaMul (g.ct out).keys o, fun n hn => viaMul_ne _ _ hn, fun E g0 g1 rlk r e => ?_⟩
  obtain ⟨ov, e1, e⟩ := Go.bind_ok e
  unfold MKHE.newCiphertextBinary at e1
  dsimp only at e1
  rw [hl0, bind_ok, hl1, bind_ok, viaMul_ne _ _ (by omega), a1, bind_ok, viaMul_ne _ _ (by omega), a2, bind_ok, viaMul_ne _ _ (by omega),
    viaMul_ne _ _ (by omega), a3, bind_ok, viaMul_ne _ _ (by omega)] at e1
  cases e1
  unfold MKHE.ckksMulRelinHoisted at e
  dsimp only at e
  rw [hl0, bind_ok, hl1, bind_ok, hlo, bind_ok, ← hL, min_self, if_neg (by omega), bind_ok] at e
  obtain ⟨w, e2, e⟩ := Go.bind_ok e
  obtain ⟨v, e3, e⟩ := Go.bind_ok e
  cases e
  rw [← k4, ← j4] at e2
  obtain ⟨g2, b1, T1⟩ := mulAndRelinHoisted_sim (o := o) R k1 j1 k2 j2 (fun n hn n2 => viaMul_ne _ _ (by omega)) (viaMul_eq _ _ (Or.inl rfl)) e2
  have hv : viaMul (g.ct out).keys o 91 = (o 91).via (g2.ct out).keys := by
    rw [viaMul_eq _ _ (Or.inr (Or.inl rfl)), T1.ct]
  obtain ⟨g3, b2, T2⟩ := rescale_sim T1.rep hv e3
  refine ⟨out, g3, ?_, T2.shows⟩
  unfold Heap.ckksMulRelinHoistedNew Heap.newCiphertextBinary
  rw [level_value (C := C), hl0, bind_ok, level_value (C := C), hl1, bind_ok, idSet_value (C := C), a1, bind_ok, idSet_value (C := C), a2, bind_ok, a3, bind_ok,
    ← hL, bind_ok]
  unfold Heap.ckksMulRelinHoisted
  rw [← hout, ← hg, level_value (C := C), k4, hl0, bind_ok, level_value (C := C), j4, hl1, bind_ok, R.level, hlo, bind_ok]
  dsimp only
  rw [← hL, min_self]
  unfold Heap.dropTo
  rw [if_neg (by omega), bind_ok, b1, bind_ok]
  dsimp only
  rw [b2, bind_ok]

/-- **C63, MulRelinNew (CKKS)**: the program takes its squaring path exactly when the operands are the same object -/
theorem ckksMulRelinNew_refines (pscale : ℚ) (crs : GoMap ℤ (Swk C)) (o : Sched String) (E : Eval C) {c0 c1 : HCt} (rlk : RlkMap C) (W : WF h)
    (hc0 : c0.ct < h.nct) (hc1 : c1.ct < h.nct) (z0 : "0" ∈ value C h c0.ct) (z1 : "0" ∈ value C h c1.ct) :
    ∃ o' : Sched String, ∀ r,
      MKHE.ckksMulRelinNew pscale crs o' E (decide (c0.ct = c1.ct)) ⟨value C h c0.ct, c0.scale⟩ ⟨value C h c1.ct, c1.scale⟩ rlk = .ok r →
      ∃ c' h', Heap.ckksMulRelinNew pscale crs o E c0 c1 rlk h = .ok ((⟨c', r.1.scale⟩, r.2.1, r.2.2), h') ∧ Shows (value C h' c') r.1.ct := by
  obtain ⟨o', ho, H⟩ := ckksMulRelinHoistedNew_refines pscale crs o W hc0 hc1 z0 z1
  refine ⟨o', fun r e => ?_⟩
  unfold MKHE.ckksMulRelinNew at e
  unfold Heap.ckksMulRelinNew
  rw [ho 92 (by omega), ho 93 (by omega)] at e
  by_cases hs : c0.ct = c1.ct
  · rw [if_pos (decide_eq_true hs)] at e
    rw [if_pos hs]
    obtain ⟨w, e1, e⟩ := Go.bind_ok e
    obtain ⟨v, e2, e⟩ := Go.bind_ok e
    cases e
    obtain ⟨c', h', b1, b2⟩ := H _ _ _ _ _ e2
    refine ⟨c', h', ?_, b2⟩
    rw [e1, bind_ok]
    dsimp only
    rw [b1, bind_ok]
  · rw [if_neg (by simpa using hs)] at e
    rw [if_neg hs]
    obtain ⟨w, e1, e⟩ := Go.bind_ok e
    obtain ⟨w2, e3, e⟩ := Go.bind_ok e
    rw [ho 94 (by omega), ho 95 (by omega)] at e3
    obtain ⟨v, e2, e⟩ := Go.bind_ok e
    cases e
    obtain ⟨c', h', b1, b2⟩ := H _ _ _ _ _ e2
    refine ⟨c', h', ?_, b2⟩
    rw [e1, bind_ok]
    dsimp only
    rw [e3, bind_ok]
    rw [b1, bind_ok]

/-- **C63, MulPtxtNew** -/
theorem mulPtxtNew_refines (pscale : ℚ) (o : Sched String) (E : Eval C) {c : HCt} (pt : Poly C) (ptScale : ℚ) (W : WF h) (hc : c.ct < h.nct)
    (z : "0" ∈ value C h c.ct) :
    ∃ o' : Sched String, ∀ r, MKHE.mulPtxtNew pscale o' E ⟨value C h c.ct, c.scale⟩ pt ptScale = .ok r →
      ∃ c' h', Heap.mulPtxtNew pscale o E c pt ptScale h = .ok ((⟨c', r.1.scale⟩, r.2), h') ∧ Shows (value C h' c') r.1.ct := by
  obtain ⟨ids, a1, -⟩ := Ct.idset (o 100) (value C h c.ct)
  obtain ⟨P, hP⟩ := Ct.get z
  have hl : (value C h c.ct).level = .ok (P.len - 1) := by unfold Ct.level; rw [GoMap.deref_ok hP, bind_ok]
  set L := P.len - 1 with hL
  obtain ⟨M, -, -⟩ := newCt_spec (C := C) (o 101) ids L W
  obtain ⟨k1, k2, -, k4, k5⟩ := made (C := C) W hc M
  have R := newCt_rep (C := C) (o 101) (o 101) ids L W
  set g := (newCt (o 101) ids L h).2 with hg
  set out := (newCt (o 101) ids L h).1 with hout
  refine ⟨viaMul (g.ct out).keys o, fun r e => ?_⟩
  obtain ⟨w, e1, e⟩ := Go.bind_ok e
  obtain ⟨v, e2, e⟩ := Go.bind_ok e
  cases e
  unfold MKHE.mulPtxtRaw at e1
  dsimp only at e1
  rw [viaMul_ne _ _ (by omega), a1, bind_ok, hl, bind_ok, viaMul_ne _ _ (by omega)] at e1
  obtain ⟨_, e3, e1⟩ := Go.bind_ok e1
  obtain ⟨u, e4, e1⟩ := Go.bind_ok e1
  cases e1
  rw [viaMul_ne _ _ (by omega), range_value, ← k5] at e4
  obtain ⟨g1, b1, T1⟩ := loop_sim0 (fh := Heap.mulPtxtStep L c.ct _ out) (fun h1 ct1 id r _ T e => by
    obtain ⟨a, x1, e⟩ := Go.bind_ok e
    obtain ⟨_, x2, e⟩ := Go.bind_ok e
    obtain ⟨u1, x3, e⟩ := Go.bind_ok e
    obtain ⟨u2, x4, e⟩ := Go.bind_ok e
    obtain ⟨h2, y1, T2⟩ := T.upd x3
    obtain ⟨h3, y2, T3⟩ := T2.upd x4
    obtain ⟨h4, y3, T4⟩ := T3.upd e
    refine ⟨h4, ?_, T4⟩
    unfold Heap.mulPtxtStep
    rw [T.value M.wf k1 k2, k4, x1, bind_ok, x2, bind_ok, y1, bind_ok, y2, bind_ok]
    exact y3) (Sim.start R) e4
  have hv : viaMul (g.ct out).keys o 103 = (o 103).via (g1.ct out).keys := by
    rw [viaMul_eq _ _ (Or.inr (Or.inr rfl)), T1.ct]
  obtain ⟨g3, b2, T2⟩ := rescale_sim T1.rep hv e2
  refine ⟨out, g3, ?_, T2.shows⟩
  unfold Heap.mulPtxtNew
  rw [idSet_value (C := C), a1, bind_ok, level_value (C := C), hl, bind_ok]
  dsimp only
  rw [e3, bind_ok, ← hout, ← hg, b1, bind_ok, b2, bind_ok]

end C63
end MKHE
