import Verif.Lemmas.HeapSim
import Verif.Lemmas.HeapEvalOk

set_option autoImplicit false
set_option linter.unusedSectionVars false

/-!
# Rotation, conjugation and multiplication on the heap do what they do on values

The receiver is apart from the operands; the operands may share polynomials, and have repeated components.
-/

namespace MKHE
namespace Heap
variable {N : ℕ} [NeZero N] {C : Ctx N} {h0 h h' : Heap N} {out : ℕ} {ct : Ct C}

theorem idSet_of {o o' : Order String} {cin : ℕ} {ctIn : Ct C} (ho : GoMap.range o' ctIn = GoMap.range o (h.ct cin)) :
    h.idSet o cin = IDSet.ofCiphertext o' ctIn := by
  unfold Heap.idSet IDSet.ofCiphertext
  rw [ho]

theorem level_same {cin : ℕ} {ctIn : Ct C} (hs : ctIn.Same (value C h cin)) : h.level cin = ctIn.level := by
  rw [level_value (C := C)]
  unfold Ct.level
  rw [deref_same hs]

/-- the permutation loop -/
theorem permuteAll_sim {S : Scratch C} {level galEl : ℕ} {ids : List String} {r : Ct C × Scratch C} (R : Sim h0 out h ct)
    (e : MKHE.permuteAll S level galEl ids ct = .ok r) : ∃ h', Heap.permuteAll S level galEl ids out h = .ok (h', r.2) ∧ Sim h0 out h' r.1 := by
  refine loop_sim (fun h ct s id r _ S e => ?_) R e
  obtain ⟨P, eP, e⟩ := Go.bind_ok e
  obtain ⟨_, en, e⟩ := Go.bind_ok e
  cases e
  obtain ⟨p, g, -, -, v⟩ := S.entry eP
  obtain ⟨h', a1, a2⟩ := S.putCopy (Q := pool0Poly { s with q0 := permRows level galEl P.rows s.q0 }) eP
  refine ⟨h', ?_, a2⟩
  show (h.get out id >>= _) = _
  rw [g, bind_ok, need_view v en, bind_ok, v]
  dsimp only
  rw [a1, bind_ok]

theorem rotateStep_sim (W : WF h0) {cin : ℕ} (hc : cin < h0.nct) (ha : Apart h0 out cin) {ctIn : Ct C} (hin : ctIn.Same (value C h0 cin)) {level r : ℕ}
    {hoisted : Option (HoistedCt C)} {rks : RotKeySet (GalKey C)} {a : Option (Swk C)} {s : Scratch C} {id : String} {w : Ct C × Scratch C}
    (S : Sim h0 out h ct) (e : MKHE.rotateStep level ctIn r hoisted rks a (ct, s) id = .ok w) :
    ∃ h', Heap.rotateStep level cin r hoisted rks a out (h, s) id = .ok (h', w.2) ∧ Sim h0 out h' w.1 := by
  obtain ⟨rk, e1, e⟩ := Go.bind_ok e
  obtain ⟨v, e2, e⟩ := Go.bind_ok e
  obtain ⟨ct1, e3, e⟩ := Go.bind_ok e
  obtain ⟨a', e4, e⟩ := Go.bind_ok e
  obtain ⟨P, e5, e⟩ := Go.bind_ok e
  obtain ⟨_, e6, e⟩ := Go.bind_ok e
  obtain ⟨v2, e7, e⟩ := Go.bind_ok e
  cases e
  obtain ⟨h1, b1, S1⟩ := S.upd e3
  obtain ⟨p, g, -, -, vp⟩ := S1.entry e5
  obtain ⟨F, hF⟩ := extProd_set e7
  obtain ⟨h2, b2, S2⟩ := S1.put e5 e6 hF
  refine ⟨h2, ?_, S2⟩
  show (rks.get id r >>= _) = _
  rw [e1, bind_ok]
  dsimp only
  rw [S.value W hc ha, ← extProd_same hin, e2, bind_ok]
  show (Heap.upd (C := C) level out "0" _ h >>= _) = _
  rw [b1, bind_ok, e4, bind_ok, g, bind_ok, need_view vp e6, bind_ok, S1.value W hc ha, ← extProd_same hin, vp, e7, bind_ok, b2, bind_ok]

/-- `Rotate` and `RotateHoisted` -/
theorem rotateWith_sim (R : Rep h out ct) {cin : ℕ} (hc : cin < h.nct) (ha : Apart h out cin) {ctIn : Ct C} (hin : ctIn.Same (value C h cin))
    {crs : GoMap ℤ (Swk C)} {o o' : Sched String} {S : Scratch C} {rotidx : ℤ} {hoisted : Option (HoistedCt C)} {rks : RotKeySet (GalKey C)}
    (o20 : GoMap.range (o' 20) ctIn = GoMap.range (o 20) (h.ct cin)) (o21 : o' 21 = o 21)
    (o22 : GoMap.range (o' 22) ctIn = GoMap.range (o 22) (h.ct cin)) {w : Ct C × Scratch C}
    (e : MKHE.rotateWith crs o' S ctIn rotidx hoisted rks ct = .ok w) :
    ∃ h', Heap.rotateWith crs o S cin rotidx hoisted rks out h = .ok (h', w.2) ∧ Sim h out h' w.1 := by
  obtain ⟨level, e1, e⟩ := Go.bind_ok e
  obtain ⟨ids, e2, e⟩ := Go.bind_ok e
  obtain ⟨lin, e3, e⟩ := Go.bind_ok e
  split at e
  · cases e
  · rename_i hlt
    obtain ⟨c0, e4, e⟩ := Go.bind_ok e
    obtain ⟨p0, e5, e⟩ := Go.bind_ok e
    obtain ⟨st, e6, e⟩ := Go.bind_ok e
    rw [deref_same hin] at e4
    have e4' := GoMap.deref_some e4
    rw [value_lookup] at e4'
    cases hq : (h.ct cin).lookup "0" with
    | none => rw [hq] at e4'; cases e4'
    | some q =>
      rw [hq] at e4'
      have hq' : h.view C q = c0 := Option.some.inj e4'
      obtain ⟨p, g, S1⟩ := (Sim.start R).polyCopy e5 (R.wf.ctB cin hc _ q hq)
      rw [hq'] at S1
      obtain ⟨h2, b2, S2⟩ := loop_sim (fh := Heap.rotateStep level cin (adjustIdx N rotidx).toNat hoisted rks (crs.lookup (adjustIdx N rotidx)) out)
        (fun h1 ct1 s id r _ T e => rotateStep_sim R.wf hc ha hin T e) S1 e6
      obtain ⟨h3, b3, S3⟩ := permuteAll_sim S2 e
      refine ⟨h3, ?_, S3⟩
      unfold Heap.rotateWith
      rw [level_of R e1, bind_ok, idSet_of o20, e2, bind_ok, level_same hin, e3, bind_ok]
      dsimp only
      rw [if_neg hlt, get_of hq, bind_ok, g, bind_ok, ← o21, b2, bind_ok]
      dsimp only
      rw [S2.ct, ← o22]
      exact b3

/-- `Copy` into a ciphertext apart from the source -/
theorem copy_sim (R : Rep h out ct) {src : ℕ} (hc : src < h.nct) (ha : Apart h out src) {sv : Ct C} (hs : sv.Same (value C h src)) {o o' : Order String}
    (ho : GoMap.range o' sv = GoMap.range o (h.ct src)) {ct' : Ct C} (e : ct.copyFrom o' sv = .ok ct') :
    ∃ h', Heap.copy o h out src = .ok h' ∧ Sim h out h' ct' := by
  unfold Ct.copyFrom at e
  unfold Heap.copy
  rw [ho] at e
  refine loop_sim0 (fun h1 ct1 id r _ S e => ?_) (Sim.start R) e
  obtain ⟨P, e1, e⟩ := Go.bind_ok e
  obtain ⟨Q, e2, e⟩ := Go.bind_ok e
  cases e
  rw [deref_same hs, ← S.value R.wf hc ha] at e2
  have e2' := GoMap.deref_some e2
  rw [value_lookup] at e2'
  cases hq : (h1.ct src).lookup id with
  | none => rw [hq] at e2'; cases e2'
  | some q =>
    rw [hq] at e2'
    have hq' : h1.view C q = Q := Option.some.inj e2'
    obtain ⟨p, g, S1⟩ := S.polyCopy e1 (S.rep.wf.ctB src (by rw [S.nct]; exact hc) _ q hq)
    rw [hq'] at S1
    refine ⟨_, ?_, S1⟩
    rw [g, bind_ok, get_of hq, bind_ok]

/-! ## conjugation -/

theorem permStep_sim (W : WF h0) {cin : ℕ} (hc : cin < h0.nct) (ha : Apart h0 out cin) {ctIn : Ct C} (hin : ctIn.Same (value C h0 cin)) {permLevel galEl : ℕ}
    {id : String} {A B' B : Poly C} (S : Sim h0 out h ct) (e1 : ctIn.deref id = .ok A) (e2 : ct.deref id = .ok B)
    (e3 : ringPermute permLevel galEl A B = .ok B') :
    ∃ h', Heap.permStep (C := C) permLevel galEl cin out h id = .ok h' ∧ Sim h0 out h' (ct.insert id B') := by
  obtain ⟨_, n1, e3⟩ := Go.bind_ok e3
  obtain ⟨_, n2, e3⟩ := Go.bind_ok e3
  cases e3
  rw [deref_same hin, ← S.value W hc ha] at e1
  have e1' := GoMap.deref_some e1
  rw [value_lookup] at e1'
  cases hq : (h.ct cin).lookup id with
  | none => rw [hq] at e1'; cases e1'
  | some q =>
    rw [hq] at e1'
    have hq' : h.view C q = A := Option.some.inj e1'
    obtain ⟨p, g, hp, lp, vp⟩ := S.entry e2
    have lq : q < h.npoly := S.rep.wf.ctB cin (by rw [S.nct]; exact hc) _ q hq
    have l1 : permLevel < h.len q := by have := need_lt n1; rw [← hq'] at this; exact this
    have l2 : permLevel < h.len p := by have := need_lt n2; rw [← vp] at this; exact this
    obtain ⟨h1, r1, r2⟩ := lift1_run (C := C) S.rep.wf (fun i x => (C.RQ i).permute galEl x) lq lp l1 l2
    refine ⟨h1, ?_, ?_⟩
    · unfold Heap.permStep
      rw [get_of hq, bind_ok, g, bind_ok]
      exact r1
    · have := S.step hp r2
      rw [vp, hq'] at this
      exact this

theorem rep_deref (S : Sim h0 out h ct) (id : String) : (value C h out).deref id = ct.deref id := by
  unfold GoMap.deref
  rw [value_lookup, S.rep.eq]

theorem conjStep0_sim {level : ℕ} {cks : KeySet (GalKey C)} {s : Scratch C} {id : String} {w : Ct C × Scratch C}
    (S : Sim h0 out h ct) (e : MKHE.conjStep0 level cks (ct, s) id = .ok w) :
    ∃ h', Heap.conjStep0 level cks out (h, s) id = .ok (h', w.2) ∧ Sim h0 out h' w.1 := by
  obtain ⟨ck, e1, e⟩ := Go.bind_ok e
  obtain ⟨b, e2, e⟩ := Go.bind_ok e
  obtain ⟨v, e3, e⟩ := Go.bind_ok e
  obtain ⟨ct1, e4, e⟩ := Go.bind_ok e
  cases e
  obtain ⟨h1, b1, S1⟩ := S.upd e4
  refine ⟨h1, ?_, S1⟩
  show (cks.get _ id >>= _) = _
  rw [e1, bind_ok, rep_deref S, e2, bind_ok, e3, bind_ok, b1, bind_ok]

theorem conjStep1_sim {level : ℕ} {a : Option (Swk C)} {s : Scratch C} {id : String} {w : Ct C × Scratch C}
    (S : Sim h0 out h ct) (e : MKHE.conjStep1 level a (ct, s) id = .ok w) :
    ∃ h', Heap.conjStep1 level a out (h, s) id = .ok (h', w.2) ∧ Sim h0 out h' w.1 := by
  obtain ⟨b, e2, e⟩ := Go.bind_ok e
  obtain ⟨a', e1, e⟩ := Go.bind_ok e
  obtain ⟨v, e3, e⟩ := Go.bind_ok e
  cases e
  obtain ⟨h1, b1, S1⟩ := S.putCopy (Q := pool0Poly { v.2 with q0 := v.1 }) e2
  refine ⟨h1, ?_, S1⟩
  show ((value C h out).deref id >>= _) = _
  rw [rep_deref S, e2, bind_ok, e1, bind_ok, e3, bind_ok]
  dsimp only
  rw [b1, bind_ok]

/-- `Conjugate` -/
theorem conjugate_sim (R : Rep h out ct) {cin : ℕ} (hc : cin < h.nct) (ha : Apart h out cin) {ctIn : Ct C} (hin : ctIn.Same (value C h cin))
    {permLevel : ℕ} {crs : GoMap ℤ (Swk C)} {o o' : Sched String} {S : Scratch C} {cks : KeySet (GalKey C)}
    (o30 : GoMap.range (o' 30) ctIn = GoMap.range (o 30) (h.ct cin)) (o31 : GoMap.range (o' 31) ctIn = GoMap.range (o 31) (h.ct cin))
    (o32 : o' 32 = o 32) (o33 : o' 33 = o 33) {w : Ct C × Scratch C}
    (e : MKHE.conjugate permLevel crs o' S ctIn cks ct = .ok w) :
    ∃ h', Heap.conjugate permLevel crs o S cin cks out h = .ok (h', w.2) ∧ Sim h out h' w.1 := by
  obtain ⟨level, e1, e⟩ := Go.bind_ok e
  obtain ⟨ids, e2, e⟩ := Go.bind_ok e
  obtain ⟨lin, e3, e⟩ := Go.bind_ok e
  split at e
  · cases e
  · rename_i hlt
    obtain ⟨ct1, e4, e⟩ := Go.bind_ok e
    obtain ⟨st, e5, e⟩ := Go.bind_ok e
    obtain ⟨h1, b1, S1⟩ := loop_sim0 (fh := Heap.permStep (C := C) permLevel (galElRow N) cin out) (fun h1 ct1 id r _ T e => by
      obtain ⟨A, x1, e⟩ := Go.bind_ok e
      obtain ⟨B, x2, e⟩ := Go.bind_ok e
      obtain ⟨B', x3, e⟩ := Go.bind_ok e
      cases e
      exact permStep_sim R.wf hc ha hin T x1 x2 x3) (Sim.start R) e4
    obtain ⟨h2, b2, S2⟩ := loop_sim (fh := Heap.conjStep0 level cks out) (fun h1 ct1 s id r _ T e => conjStep0_sim T e) S1 e5
    obtain ⟨h3, b3, S3⟩ := loop_sim (fh := Heap.conjStep1 level (crs.lookup (-2)) out) (fun h1 ct1 s id r _ T e => conjStep1_sim T e) S2 e
    refine ⟨h3, ?_, S3⟩
    unfold Heap.conjugate
    rw [level_of R e1, bind_ok, idSet_of o30, e2, bind_ok, level_same hin, e3, bind_ok]
    rw [if_neg hlt, ← o31, b1, bind_ok, ← o32, b2, bind_ok, ← o33]
    exact b3

/-! ## multiplication -/

/-- an operand apart from the receiver -/
theorem sim_deref (S : Sim h0 out h ct) (W : WF h0) {c : ℕ} (hc : c < h0.nct) (ha : Apart h0 out c) (id : String) :
    (value C h c).deref id = (value C h0 c).deref id := by rw [S.value W hc ha]

theorem tensor_sim (R : Rep h out ct) {op0 op1 : ℕ} (hc0 : op0 < h.nct) (hc1 : op1 < h.nct) (ha0 : Apart h out op0) (ha1 : Apart h out op1)
    {o o' : Sched String} {S : Scratch C} {level : ℕ} {ids0 ids1 : IDSet} (o0 : o' 0 = o 0) (o1 : o' 1 = o 1)
    (o2 : o' 2 = (o 2).via (h.ct out).keys) {w : Ct C × Scratch C}
    (e : MKHE.tensor o' S level (value C h op0) (value C h op1) ids0 ids1 ct = .ok w) :
    ∃ h', Heap.tensor o S level op0 op1 ids0 ids1 out h = .ok (h', w.2) ∧ Sim h out h' w.1 := by
  obtain ⟨a0, e1, e⟩ := Go.bind_ok e
  obtain ⟨_, e2, e⟩ := Go.bind_ok e
  obtain ⟨a1, e3, e⟩ := Go.bind_ok e
  obtain ⟨_, e4, e⟩ := Go.bind_ok e
  obtain ⟨ct1, e5, e⟩ := Go.bind_ok e
  obtain ⟨⟨ct2, S2⟩, e6, e⟩ := Go.bind_ok e
  obtain ⟨⟨ct3, S3⟩, e7, e⟩ := Go.bind_ok e
  obtain ⟨ct4, e8, e⟩ := Go.bind_ok e
  cases e
  obtain ⟨h1, b1, T1⟩ := (Sim.start R).upd e5
  obtain ⟨h2, b2, T2⟩ := loop_sim (fh := Heap.tensorStep0 level op0 out) (fun h1 ct1 s id r _ T e => by
    obtain ⟨A, x1, e⟩ := Go.bind_ok e
    obtain ⟨_, x2, e⟩ := Go.bind_ok e
    obtain ⟨c, x3, e⟩ := Go.bind_ok e
    cases e
    obtain ⟨h', y1, y2⟩ := T.upd x3
    refine ⟨h', ?_, y2⟩
    show ((value C h1 op0).deref id >>= _) = _
    rw [sim_deref T R.wf hc0 ha0, x1, bind_ok, x2, bind_ok]
    dsimp only
    rw [y1, bind_ok]) T1 e6
  obtain ⟨h3, b3, T3⟩ := loop_sim (fh := Heap.tensorStep1 level op1 ids0 out) (fun h1 ct1 s id r _ T e => by
    obtain ⟨A, x1, e⟩ := Go.bind_ok e
    obtain ⟨_, x2, e⟩ := Go.bind_ok e
    obtain ⟨c, x3, e⟩ := Go.bind_ok e
    cases e
    obtain ⟨h', y1, y2⟩ := T.upd x3
    refine ⟨h', ?_, y2⟩
    show ((value C h1 op1).deref id >>= _) = _
    rw [sim_deref T R.wf hc1 ha1, x1, bind_ok, x2, bind_ok]
    dsimp only
    rw [y1, bind_ok]) T2 e7
  obtain ⟨h4, b4, T4⟩ := loop_sim0 (fh := fun h id => Heap.upd (C := C) level out id (fun old i => (C.RQ i).intt (old i)) h)
    (fun h1 ct1 id r _ T e => T.upd e) T3 e8
  refine ⟨h4, ?_, T4⟩
  unfold Heap.tensor
  rw [e1, bind_ok, e2, bind_ok, e3, bind_ok, e4, bind_ok]
  dsimp only
  rw [b1, bind_ok, ← o0, b2, bind_ok, ← o1, b3, bind_ok]
  rw [o2, T3.range_via] at b4
  dsimp only at b4 ⊢
  rw [b4, bind_ok]

theorem extInto0_value (S : Sim h0 out h ct) (W : WF h0) {c : ℕ} (hc : c < h0.nct) (ha : Apart h0 out c) (s : Scratch C) (level : ℕ)
    (hh : Option (HoistedCt C)) (id : String) (bg : Swk C) : extInto0 s level (value C h c) hh id bg = extInto0 s level (value C h0 c) hh id bg := by
  rw [S.value W hc ha]

theorem addX_sim {h1 : Heap N} (W : WF h0) {op1 : ℕ} (hc1 : op1 < h0.nct) (ha1 : Apart h0 out op1) {o' : Sched String} {S : Scratch C} {level : ℕ}
    {hh : Option (HoistedCt C)} {ids1 : IDSet} {x : Swk C} {w : Ct C × Scratch C} (T : Sim h0 out h1 ct)
    (e : MKHE.addX o' S level (value C h0 op1) hh ids1 x ct = .ok w) :
    ∃ h', Go.loop (Heap.addXStep level op1 hh x out) (h1, S) (GoMap.range (o' 3) ids1.value) = .ok (h', w.2) ∧ Sim h0 out h' w.1 := by
  refine loop_sim (fun h1 ct1 s id r _ T e => ?_) T e
  obtain ⟨s1, x1, e⟩ := Go.bind_ok e
  obtain ⟨c, x2, e⟩ := Go.bind_ok e
  cases e
  obtain ⟨h', y1, y2⟩ := T.upd x2
  refine ⟨h', ?_, y2⟩
  show (extInto0 s level (value C h1 op1) hh id x >>= _) = _
  rw [extInto0_value T W hc1 ha1, x1, bind_ok, y1, bind_ok]

/-- `MulAndRelin` -/
theorem mulAndRelin_sim (R : Rep h out ct) {op0 op1 : ℕ} (hc0 : op0 < h.nct) (hc1 : op1 < h.nct) (ha0 : Apart h out op0) (ha1 : Apart h out op1)
    {crs : GoMap ℤ (Swk C)} {o o' : Sched String} {S : Scratch C} {rlk : RlkMap C} (ho : ∀ n, n ≠ 2 → o' n = o n)
    (o2 : o' 2 = (o 2).via (h.ct out).keys) {w : Ct C × Scratch C}
    (e : MKHE.mulAndRelin crs o' S (value C h op0) (value C h op1) rlk ct = .ok w) :
    ∃ h', Heap.mulAndRelin crs o S op0 op1 rlk out h = .ok (h', w.2) ∧ Sim h out h' w.1 := by
  have hv : ∀ id, (value C h out).lookup id = ct.lookup id := fun id => by rw [value_lookup, R.eq]
  obtain ⟨level, e1, e⟩ := Go.bind_ok e
  obtain ⟨ids0, e2, e⟩ := Go.bind_ok e
  obtain ⟨ids1, e3, e⟩ := Go.bind_ok e
  obtain ⟨x, e4, e⟩ := Go.bind_ok e
  obtain ⟨y, e5, e⟩ := Go.bind_ok e
  obtain ⟨⟨x', S1⟩, e6, e⟩ := Go.bind_ok e
  obtain ⟨⟨y', S2⟩, e7, e⟩ := Go.bind_ok e
  obtain ⟨⟨ct1, S3⟩, e8, e⟩ := Go.bind_ok e
  obtain ⟨⟨ct2, S4⟩, e9, e⟩ := Go.bind_ok e
  dsimp only at e6 e7 e8 e9 e
  obtain ⟨h1, b1, T1⟩ := tensor_sim R hc0 hc1 ha0 ha1 (ho 0 (by omega)) (ho 1 (by omega)) o2 e8
  obtain ⟨h2, b2, T2⟩ := addX_sim R.wf hc1 ha1 T1 e9
  obtain ⟨h3, b3, T3⟩ := loop_sim (fh := Heap.relinStep level op0 rlk y' (crs.lookup (-1)) out) (fun h1 ct1 s id r _ T e => by
    obtain ⟨key, x1, e⟩ := Go.bind_ok e
    obtain ⟨s1, x2, e⟩ := Go.bind_ok e
    obtain ⟨⟨v, s2⟩, x3, e⟩ := Go.bind_ok e
    obtain ⟨c, x4, e⟩ := Go.bind_ok e
    have x5 : ∃ u, crs.lookup (-1) = some u := by
      cases hu : crs.lookup (-1) with
      | none => rw [hu] at e; cases e
      | some u => exact ⟨u, rfl⟩
    obtain ⟨u, x5⟩ := x5
    rw [x5] at e
    obtain ⟨u', x5', e⟩ := Go.bind_ok e
    cases x5'
    obtain ⟨⟨v2, s3⟩, x6, e⟩ := Go.bind_ok e
    obtain ⟨c2, x7, e⟩ := Go.bind_ok e
    cases e
    obtain ⟨h', y1, y2⟩ := T.upd x4
    obtain ⟨h'', z1, z2⟩ := y2.upd x7
    refine ⟨h'', ?_, z2⟩
    show (rlk.value.deref id >>= _) = _
    rw [x1, bind_ok]
    dsimp only
    rw [extInto0_value T R.wf hc0 ha0, x2, bind_ok, x3, bind_ok]
    dsimp only
    rw [y1, bind_ok]
    have x5' : orNil (crs.lookup (-1)) = .ok u := by rw [x5]; rfl
    rw [x5', bind_ok, x6, bind_ok]
    dsimp only
    rw [z1, bind_ok]) T2 e
  refine ⟨h3, ?_, T3⟩
  unfold Heap.mulAndRelin Heap.mulFront
  have e1' : mulChecks (value C h op0) (value C h out) = .ok level := by
    unfold mulChecks at e1 ⊢
    have : (value C h out).level = ct.level := by unfold Ct.level GoMap.deref; rw [hv]
    rw [this]; exact e1
  rw [e1', bind_ok, idSet_value (C := C), ← ho 10 (by omega), e2, bind_ok, idSet_value (C := C), ← ho 11 (by omega), e3, bind_ok, e4, bind_ok, e5, bind_ok,
    ← ho 12 (by omega), e6, bind_ok]
  dsimp only
  rw [← ho 13 (by omega), e7, bind_ok]
  dsimp only
  rw [b1, bind_ok]
  dsimp only at b2 ⊢
  rw [← ho 3 (by omega), b2, bind_ok, bind_ok]
  dsimp only at b3 ⊢
  rw [← ho 4 (by omega)]
  exact b3

/-- `MulAndRelinHoisted` -/
theorem mulAndRelinHoisted_sim (R : Rep h out ct) {op0 op1 : ℕ} (hc0 : op0 < h.nct) (hc1 : op1 < h.nct) (ha0 : Apart h out op0) (ha1 : Apart h out op1)
    {crs : GoMap ℤ (Swk C)} {o o' : Sched String} {S : Scratch C} {g0 g1 : Option (HoistedCt C)} {rlk : RlkMap C} (ho : ∀ n < 60, n ≠ 2 → o' n = o n)
    (o2 : o' 2 = (o 2).via (h.ct out).keys) {w : Ct C × Scratch C}
    (e : MKHE.mulAndRelinHoisted crs o' S (value C h op0) (value C h op1) g0 g1 rlk ct = .ok w) :
    ∃ h', Heap.mulAndRelinHoisted crs o S op0 op1 g0 g1 rlk out h = .ok (h', w.2) ∧ Sim h out h' w.1 := by
  have hv : ∀ id, (value C h out).lookup id = ct.lookup id := fun id => by rw [value_lookup, R.eq]
  obtain ⟨level, e1, e⟩ := Go.bind_ok e
  obtain ⟨ids0, e2, e⟩ := Go.bind_ok e
  obtain ⟨ids1, e3, e⟩ := Go.bind_ok e
  obtain ⟨x, e4, e⟩ := Go.bind_ok e
  obtain ⟨y, e5, e⟩ := Go.bind_ok e
  obtain ⟨⟨x', S1⟩, e6, e⟩ := Go.bind_ok e
  obtain ⟨⟨y', S2⟩, e7, e⟩ := Go.bind_ok e
  obtain ⟨⟨ct1, S3⟩, e8, e⟩ := Go.bind_ok e
  obtain ⟨⟨ct2, S4⟩, e9, e⟩ := Go.bind_ok e
  dsimp only at e6 e7 e8 e9 e
  obtain ⟨h1, b1, T1⟩ := tensor_sim R hc0 hc1 ha0 ha1 (ho 0 (by omega) (by omega)) (ho 1 (by omega) (by omega)) o2 e8
  obtain ⟨h2, b2, T2⟩ := addX_sim R.wf hc1 ha1 T1 e9
  obtain ⟨h3, b3, T3⟩ := loop_sim (fh := Heap.relinStepHoisted level op0 g0 rlk y' (crs.lookup (-1)) out) (fun h1 ct1 s id r _ T e => by
    obtain ⟨key, x1, e⟩ := Go.bind_ok e
    obtain ⟨s1, x2, e⟩ := Go.bind_ok e
    obtain ⟨⟨v, s2⟩, x3, e⟩ := Go.bind_ok e
    obtain ⟨⟨v2, s3⟩, x3', e⟩ := Go.bind_ok e
    obtain ⟨c, x4, e⟩ := Go.bind_ok e
    have x5 : ∃ u, crs.lookup (-1) = some u := by
      cases hu : crs.lookup (-1) with
      | none => rw [hu] at e; cases e
      | some u => exact ⟨u, rfl⟩
    obtain ⟨u, x5⟩ := x5
    rw [x5] at e
    obtain ⟨u', x5', e⟩ := Go.bind_ok e
    cases x5'
    obtain ⟨⟨v2, s3⟩, x6, e⟩ := Go.bind_ok e
    obtain ⟨c2, x7, e⟩ := Go.bind_ok e
    cases e
    obtain ⟨h', y1, y2⟩ := T.upd x4
    obtain ⟨h'', z1, z2⟩ := y2.upd x7
    refine ⟨h'', ?_, z2⟩
    show (rlk.value.deref id >>= _) = _
    rw [x1, bind_ok]
    dsimp only
    rw [extInto0_value T R.wf hc0 ha0, x2, bind_ok, x3, bind_ok]
    dsimp only
    dsimp only at x3'
    rw [x3', bind_ok]
    dsimp only
    rw [y1, bind_ok]
    have x5' : orNil (crs.lookup (-1)) = .ok u := by rw [x5]; rfl
    rw [x5', bind_ok, x6, bind_ok]
    dsimp only
    rw [z1, bind_ok]) T2 e
  refine ⟨h3, ?_, T3⟩
  unfold Heap.mulAndRelinHoisted Heap.mulFront
  have e1' : mulChecks (value C h op0) (value C h out) = .ok level := by
    unfold mulChecks at e1 ⊢
    have : (value C h out).level = ct.level := by unfold Ct.level GoMap.deref; rw [hv]
    rw [this]; exact e1
  rw [e1', bind_ok, idSet_value (C := C), ← ho 10 (by omega) (by omega), e2, bind_ok, idSet_value (C := C), ← ho 11 (by omega) (by omega), e3, bind_ok, e4,
    bind_ok, e5, bind_ok, ← ho 12 (by omega) (by omega), e6, bind_ok]
  dsimp only
  rw [← ho 13 (by omega) (by omega), e7, bind_ok]
  dsimp only
  rw [b1, bind_ok]
  dsimp only at b2 ⊢
  rw [← ho 3 (by omega) (by omega), b2, bind_ok, bind_ok]
  dsimp only at b3 ⊢
  rw [← ho 4 (by omega) (by omega)]
  exact b3

end Heap
end MKHE
