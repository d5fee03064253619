import Verif.Lemmas.HeapNewSim

set_option autoImplicit false
set_option linter.unusedSectionVars false

/-!
# BFV multiplication on the heap does what it does on values
-/

namespace MKHE
namespace Heap
variable {N : ℕ} [NeZero N] {B : BCtx N} {h0 h h' : Heap N} {out : ℕ} {ct : Ct B.C}

theorem quant_sim {pool : Fin N → ℕ → ℕ} {a : RowsR B} {id : String} {ct' : Ct B.C} (T : Sim h0 out h ct) (e : ct.quant pool a id = .ok ct') :
    ∃ h', Heap.quant pool a id out h = .ok h' ∧ Sim h0 out h' ct' := by
  obtain ⟨P, e1, e⟩ := Go.bind_ok e
  obtain ⟨_, e2, e⟩ := Go.bind_ok e
  obtain ⟨r, e3, e⟩ := Go.bind_ok e
  cases e
  obtain ⟨p, g, -, -, vp⟩ := T.entry e1
  have hr : ∃ F, r = setQ B.top F P.rows := by
    obtain ⟨w, -, e⟩ := Go.bind_ok e3
    cases e
    exact ⟨_, rfl⟩
  obtain ⟨F, hF⟩ := hr
  obtain ⟨h', b1, b2⟩ := T.put e1 e2 hF
  refine ⟨h', ?_, b2⟩
  unfold Heap.quant
  rw [g, bind_ok, need_view vp e2, bind_ok, vp, e3, bind_ok]
  exact b1

theorem tensorB_sim (R : Rep h out ct) {o : Sched String} {S : BScratch B} {op0 op1 : CtR N} {ids0 ids1 : IDSet} {w : Ct B.C × BScratch B}
    (e : MKHE.tensorB o S op0 op1 ids0 ids1 ct = .ok w) :
    ∃ h', Heap.tensorB o S op0 op1 ids0 ids1 out h = .ok (h', w.2) ∧ Sim h out h' w.1 := by
  obtain ⟨a0, e1, e⟩ := Go.bind_ok e
  obtain ⟨a1, e2, e⟩ := Go.bind_ok e
  obtain ⟨c1, e3, e⟩ := Go.bind_ok e
  obtain ⟨w1, e4, e⟩ := Go.bind_ok e
  obtain ⟨w2, e5, e⟩ := Go.bind_ok e
  obtain ⟨g1, b1, T1⟩ := quant_sim (Sim.start R) e3
  obtain ⟨g2, b2, T2⟩ := loop_sim (fh := Heap.tensorB0 op0 ids1 out) (fun h1 ct1 s id r _ T e => by
    unfold MKHE.tensorB0 at e
    unfold Heap.tensorB0
    dsimp only at e ⊢
    split at e
    · rename_i hi
      rw [if_pos hi]
      obtain ⟨a, x1, e⟩ := Go.bind_ok e
      obtain ⟨c, x2, e⟩ := Go.bind_ok e
      cases e
      obtain ⟨h', y1, y2⟩ := quant_sim T x2
      refine ⟨h', ?_, y2⟩
      rw [x1, bind_ok, y1, bind_ok]
    · rename_i hi
      rw [if_neg hi]
      cases e
      exact ⟨h1, rfl, T⟩) T1 e4
  obtain ⟨g3, b3, T3⟩ := loop_sim (fh := Heap.tensorB1 op1 ids0 out) (fun h1 ct1 s id r _ T e => by
    unfold MKHE.tensorB1 at e
    unfold Heap.tensorB1
    dsimp only at e ⊢
    split at e
    · rename_i hi
      rw [if_pos hi]
      obtain ⟨a, x1, e⟩ := Go.bind_ok e
      obtain ⟨c, x2, e⟩ := Go.bind_ok e
      cases e
      obtain ⟨h', y1, y2⟩ := quant_sim T x2
      refine ⟨h', ?_, y2⟩
      rw [x1, bind_ok, y1, bind_ok]
    · rename_i hi
      rw [if_neg hi]
      cases e
      exact ⟨h1, rfl, T⟩) T2 e5
  obtain ⟨g4, b4, T4⟩ := loop_sim (fh := Heap.tensorB2 op0 op1 ids0 out) (fun h1 ct1 s id r _ T e => by
    unfold MKHE.tensorB2 at e
    unfold Heap.tensorB2
    dsimp only at e ⊢
    split at e
    · rename_i hi
      rw [if_pos hi]
      obtain ⟨a, x1, e⟩ := Go.bind_ok e
      obtain ⟨b, x3, e⟩ := Go.bind_ok e
      obtain ⟨c, x2, e⟩ := Go.bind_ok e
      cases e
      obtain ⟨h', y1, y2⟩ := quant_sim T x2
      refine ⟨h', ?_, y2⟩
      rw [x1, bind_ok, x3, bind_ok, y1, bind_ok]
    · rename_i hi
      rw [if_neg hi]
      cases e
      exact ⟨h1, rfl, T⟩) T3 e
  refine ⟨g4, ?_, T4⟩
  unfold Heap.tensorB
  rw [e1, bind_ok, e2, bind_ok]
  dsimp only
  rw [b1, bind_ok, b2, bind_ok, b3, bind_ok]
  exact b4

/-- `MulAndRelinBFVHoisted` -/
theorem mulBFVHoisted_sim (R : Rep h out ct) {crs : GoMap ℤ (Swk B.C)} {o : Sched String} {S : BScratch B} {op0 op1 : CtR N} {g0 g1 : HoistedPair B}
    {rlk : GoMap String (BRlk B.C)} {w : Ct B.C × BScratch B}
    (e : MKHE.mulAndRelinBFVHoisted crs o S op0 op1 g0 g1 rlk ct = .ok w) :
    ∃ h', (Heap.mulFrontB o S op0 op1 g0 g1 rlk out h >>= fun f =>
      Go.loop (Heap.lastBHoisted crs f.1.1 op0 g0 rlk out) f.2 (GoMap.range (o 4) f.1.2.value)) = .ok (h', w.2) ∧ Sim h out h' w.1 := by
  have hv : ∀ id, (value B.C h out).lookup id = ct.lookup id := fun id => by rw [value_lookup, R.eq]
  obtain ⟨f, e0, e⟩ := Go.bind_ok e
  obtain ⟨level, e1, e0⟩ := Go.bind_ok e0
  obtain ⟨ids0, e2, e0⟩ := Go.bind_ok e0
  obtain ⟨ids1, e3, e0⟩ := Go.bind_ok e0
  obtain ⟨x1, e4, e0⟩ := Go.bind_ok e0
  obtain ⟨x2, e5, e0⟩ := Go.bind_ok e0
  obtain ⟨y1, e6, e0⟩ := Go.bind_ok e0
  obtain ⟨y2, e7, e0⟩ := Go.bind_ok e0
  obtain ⟨x, e8, e0⟩ := Go.bind_ok e0
  obtain ⟨y, e9, e0⟩ := Go.bind_ok e0
  obtain ⟨w1, e10, e0⟩ := Go.bind_ok e0
  obtain ⟨w2, e11, e0⟩ := Go.bind_ok e0
  cases e0
  obtain ⟨h1, b1, T1⟩ := tensorB_sim R e10
  obtain ⟨h2, b2, T2⟩ := loop_sim (fh := Heap.addXB level op1 g1 out) (fun h1 ct1 s id r _ T e => by
    obtain ⟨s1, z1, e⟩ := Go.bind_ok e
    obtain ⟨c, z2, e⟩ := Go.bind_ok e
    cases e
    obtain ⟨h', u1, u2⟩ := T.upd z2
    refine ⟨h', ?_, u2⟩
    show (extIntoB s level op1 g1 id s.s3 s.s4 >>= _) = _
    rw [z1, bind_ok, u1, bind_ok]) T1 e11
  obtain ⟨h3, b3, T3⟩ := loop_sim (fh := Heap.lastBHoisted crs level op0 g0 rlk out) (fun h1 ct1 s id r _ T e => by
    obtain ⟨key, z1, e⟩ := Go.bind_ok e
    obtain ⟨s1, z2, e⟩ := Go.bind_ok e
    obtain ⟨d, z3, e⟩ := Go.bind_ok e
    obtain ⟨v, z4, e⟩ := Go.bind_ok e
    obtain ⟨c, z5, e⟩ := Go.bind_ok e
    obtain ⟨u, z6, e⟩ := Go.bind_ok e
    obtain ⟨v2, z7, e⟩ := Go.bind_ok e
    obtain ⟨c2, z8, e⟩ := Go.bind_ok e
    cases e
    obtain ⟨h', u1, u2⟩ := T.upd z5
    obtain ⟨h'', u3, u4⟩ := u2.upd z8
    refine ⟨h'', ?_, u4⟩
    show (rlk.deref id >>= _) = _
    rw [z1, bind_ok]
    dsimp only
    rw [z2, bind_ok, z3, bind_ok]
    dsimp only at z4 z7 ⊢
    rw [z4, bind_ok, u1, bind_ok, z6, bind_ok, z7, bind_ok, u3, bind_ok]) T2 e
  refine ⟨h3, ?_, T3⟩
  unfold Heap.mulFrontB
  have e1' : mulChecksB B op0 (value B.C h out) = .ok level := by
    unfold mulChecksB at e1 ⊢
    have : (value B.C h out).level = ct.level := by unfold Ct.level GoMap.deref; rw [hv]
    rw [this]; exact e1
  rw [e1', bind_ok, e2, bind_ok, e3, bind_ok, e4, bind_ok, e5, bind_ok, e6, bind_ok, e7, bind_ok, e8, bind_ok, e9, bind_ok]
  dsimp only
  rw [b1, bind_ok, b2, bind_ok, bind_ok]
  exact b3

end Heap
end MKHE
