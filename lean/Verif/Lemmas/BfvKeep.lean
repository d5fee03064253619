import Verif.Lemmas.Keep
import Verif.Lemmas.BfvTop

set_option autoImplicit false

/-!
# BFV multiplication never shrinks the evaluator's scratch vectors
-/

namespace MKHE
variable {N : ℕ} [NeZero N] {B : BCtx N}

/-- the scratch vectors have the lengths they had -/
def BScratch.Lens (S S' : BScratch B) : Prop :=
  S'.s1.len = S.s1.len ∧ S'.s2.len = S.s2.len ∧ S'.s3.len = S.s3.len ∧ S'.s4.len = S.s4.len ∧ S'.s5.len = S.s5.len ∧ S'.s6.len = S.s6.len

theorem BScratch.Lens.refl (S : BScratch B) : S.Lens S := ⟨rfl, rfl, rfl, rfl, rfl, rfl⟩
theorem BScratch.Lens.trans {S S' S'' : BScratch B} (h : S.Lens S') (h' : S'.Lens S'') : S.Lens S'' :=
  ⟨h'.1.trans h.1, h'.2.1.trans h.2.1, h'.2.2.1.trans h.2.2.1, h'.2.2.2.1.trans h.2.2.2.1, h'.2.2.2.2.1.trans h.2.2.2.2.1, h'.2.2.2.2.2.trans h.2.2.2.2.2⟩
theorem BScratch.Lens.alloc {S S' : BScratch B} (h : S.Lens S') (hS : S.Alloc) : S'.Alloc := by
  obtain ⟨h1, h2, h3, h4, h5, h6⟩ := h
  exact ⟨h1 ▸ hS.s1, h2 ▸ hS.s2, h3 ▸ hS.s3, h4 ▸ hS.s4, h5 ▸ hS.s5, h6 ▸ hS.s6⟩

theorem decomposeBFV_len {S : BScratch B} {level : ℕ} {a : PolyR N} {ad1 ad2 : Swk B.C} {r : Swk B.C × Swk B.C}
    (h : decomposeBFV S level a ad1 ad2 = .ok r) : r.1.len = ad1.len ∧ r.2.len = ad2.len := by
  unfold decomposeBFV at h
  dsimp only at h
  split_ifs at h
  all_goals obtain ⟨v, -, h⟩ := Go.of_bind_ok h
  · cases h
  · injection h with h; subst h; exact ⟨rfl, rfl⟩

theorem extProdBFVHoisted_lens {S S' : BScratch B} {level : ℕ} {h1 h2 bg1 bg2 : Swk B.C} {c r : QRows B.C}
    (h : extProdBFVHoisted S level h1 h2 bg1 bg2 c = .ok (r, S')) : S.Lens S' := by
  unfold extProdBFVHoisted at h
  split_ifs at h
  obtain ⟨p, -, h⟩ := Go.of_bind_ok h
  obtain ⟨c', -, h⟩ := Go.of_bind_ok h
  injection h with h; injection h with e1 e2; subst e2; exact .refl _

theorem extProdBFV_lens {S S' : BScratch B} {level : ℕ} {a : PolyR N} {bg1 bg2 : Swk B.C} {c r : QRows B.C}
    (h : extProdBFV S level a bg1 bg2 c = .ok (r, S')) : S.Lens S' := by
  unfold extProdBFV at h
  obtain ⟨w, hw, h⟩ := Go.of_bind_ok h
  obtain ⟨l1, l2⟩ := decomposeBFV_len hw
  exact BScratch.Lens.trans (S' := { S with s1 := w.1, s2 := w.2 }) ⟨l1, l2, rfl, rfl, rfl, rfl⟩ (extProdBFVHoisted_lens h)

theorem digitsB_lens {S : BScratch B} {level : ℕ} {op : CtR N} {hh : HoistedPair B} {id : String} {r : (Swk B.C × Swk B.C) × BScratch B}
    (h : digitsB S level op hh id = .ok r) : S.Lens r.2 := by
  unfold digitsB at h
  cases hh with
  | none =>
    obtain ⟨a, -, h⟩ := Go.of_bind_ok h
    obtain ⟨w, hw, h⟩ := Go.of_bind_ok h
    obtain ⟨l1, l2⟩ := decomposeBFV_len hw
    injection h with h; subst h; exact ⟨l1, l2, rfl, rfl, rfl, rfl⟩
  | some x =>
    obtain ⟨a, -, h⟩ := Go.of_bind_ok h
    obtain ⟨b, -, h⟩ := Go.of_bind_ok h
    injection h with h; subst h; exact .refl _

theorem genVecB_lens {S : BScratch B} {level : ℕ} {op : CtR N} {hh : HoistedPair B} {rlk : GoMap String (BRlk B.C)} {sel : Rlk B.C → Swk B.C}
    {ids : List String} {x1 x2 : Swk B.C} {r : (Swk B.C × Swk B.C) × BScratch B} (h : genVecB S level op hh rlk sel ids x1 x2 = .ok r) :
    S.Lens r.2 ∧ r.1.1.len = x1.len ∧ r.1.2.len = x2.len := by
  unfold genVecB at h
  obtain ⟨w, hw, h⟩ := Go.of_bind_ok h
  have := Go.loop_keeps (fun w : (Swk B.C × Swk B.C) × BScratch B => S.Lens w.2 ∧ w.1.1.len = x1.len ∧ w.1.2.len = x2.len) (fun s k s' hs e => by
    unfold genVecBStep at e
    obtain ⟨d, hd, e⟩ := Go.of_bind_ok e
    obtain ⟨key, -, e⟩ := Go.of_bind_ok e
    obtain ⟨y1, hy1, e⟩ := Go.of_bind_ok e
    obtain ⟨y2, hy2, e⟩ := Go.of_bind_ok e
    have l := hs.1.trans (digitsB_lens hd)
    injection e with e; subst e
    exact ⟨l, (accVec_len hy1).trans hs.2.1, (accVec_len hy2).trans hs.2.2⟩) ids ⟨.refl S, rfl, rfl⟩ hw
  obtain ⟨y1, hy1, h⟩ := Go.of_bind_ok h
  obtain ⟨y2, hy2, h⟩ := Go.of_bind_ok h
  injection h with h; subst h
  exact ⟨this.1, (mformVec_len hy1).trans this.2.1, (mformVec_len hy2).trans this.2.2⟩

theorem tensorB_lens {o : Sched String} {S : BScratch B} {op0 op1 : CtR N} {ids0 ids1 : IDSet} {out : Ct B.C} {r : Ct B.C × BScratch B}
    (h : tensorB o S op0 op1 ids0 ids1 out = .ok r) : S.Lens r.2 := by
  unfold tensorB at h
  obtain ⟨a0, -, h⟩ := Go.of_bind_ok h
  obtain ⟨a1, -, h⟩ := Go.of_bind_ok h
  obtain ⟨out1, -, h⟩ := Go.of_bind_ok h
  obtain ⟨w0, h0, h⟩ := Go.of_bind_ok h
  obtain ⟨w1, h1, h⟩ := Go.of_bind_ok h
  have k0 := Go.loop_keeps (fun w : Ct B.C × BScratch B => S.Lens w.2) (fun s k s' hs e => by
    unfold tensorB0 at e
    split_ifs at e
    · obtain ⟨a, -, e⟩ := Go.of_bind_ok e
      obtain ⟨b, -, e⟩ := Go.of_bind_ok e
      injection e with e; subst e; exact hs
    · injection e with e; subst e; exact hs) _ (show S.Lens _ from .refl S) h0
  have k1 := Go.loop_keeps (fun w : Ct B.C × BScratch B => S.Lens w.2) (fun s k s' hs e => by
    unfold tensorB1 at e
    split_ifs at e
    · obtain ⟨a, -, e⟩ := Go.of_bind_ok e
      obtain ⟨b, -, e⟩ := Go.of_bind_ok e
      injection e with e; subst e; exact hs
    · injection e with e; subst e; exact hs) _ k0 h1
  exact Go.loop_keeps (fun w : Ct B.C × BScratch B => S.Lens w.2) (fun s k s' hs e => by
    unfold tensorB2 at e
    split_ifs at e
    · obtain ⟨a, -, e⟩ := Go.of_bind_ok e
      obtain ⟨b, -, e⟩ := Go.of_bind_ok e
      obtain ⟨c, -, e⟩ := Go.of_bind_ok e
      injection e with e; subst e; exact hs
    · injection e with e; subst e; exact hs) _ k1 h

theorem extIntoB_lens {S S' : BScratch B} {level : ℕ} {op : CtR N} {hh : HoistedPair B} {id : String} {bg1 bg2 : Swk B.C}
    (h : extIntoB S level op hh id bg1 bg2 = .ok S') : S.Lens S' := by
  unfold extIntoB at h
  cases hh with
  | none =>
    obtain ⟨a, -, h⟩ := Go.of_bind_ok h
    obtain ⟨⟨c, S1⟩, h1, h⟩ := Go.of_bind_ok h
    have := extProdBFV_lens h1
    injection h with h; subst h; exact this
  | some x =>
    obtain ⟨a, -, h⟩ := Go.of_bind_ok h
    obtain ⟨b, -, h⟩ := Go.of_bind_ok h
    obtain ⟨⟨c, S1⟩, h1, h⟩ := Go.of_bind_ok h
    have := extProdBFVHoisted_lens h1
    injection h with h; subst h; exact this

theorem mulFrontB_lens {o : Sched String} {S : BScratch B} {op0 op1 : CtR N} {h0 h1 : HoistedPair B} {rlk : GoMap String (BRlk B.C)} {out : Ct B.C}
    {r : ℕ × IDSet × Ct B.C × BScratch B} (h : mulFrontB o S op0 op1 h0 h1 rlk out = .ok r) : S.Lens r.2.2.2 := by
  unfold mulFrontB at h
  obtain ⟨level, -, h⟩ := Go.of_bind_ok h
  obtain ⟨ids0, -, h⟩ := Go.of_bind_ok h
  obtain ⟨ids1, -, h⟩ := Go.of_bind_ok h
  obtain ⟨x1, hx1, h⟩ := Go.of_bind_ok h
  obtain ⟨x2, hx2, h⟩ := Go.of_bind_ok h
  obtain ⟨y1, hy1, h⟩ := Go.of_bind_ok h
  obtain ⟨y2, hy2, h⟩ := Go.of_bind_ok h
  obtain ⟨x, hx, h⟩ := Go.of_bind_ok h
  obtain ⟨y, hy, h⟩ := Go.of_bind_ok h
  obtain ⟨w, hw, h⟩ := Go.of_bind_ok h
  obtain ⟨w', hw', h⟩ := Go.of_bind_ok h
  injection h with h; subst h
  obtain ⟨lx, lx1, lx2⟩ := genVecB_lens hx
  obtain ⟨ly, ly1, ly2⟩ := genVecB_lens hy
  have lxy := lx.trans ly
  have l1 : S.Lens { y.2 with s3 := x.1.1, s4 := x.1.2, s5 := y.1.1, s6 := y.1.2 } :=
    ⟨lxy.1, lxy.2.1, lx1.trans (zeroVec_len hx1), lx2.trans (zeroVec_len hx2), ly1.trans (zeroVec_len hy1), ly2.trans (zeroVec_len hy2)⟩
  have l2 := l1.trans (tensorB_lens hw)
  exact Go.loop_keeps (fun w : Ct B.C × BScratch B => S.Lens w.2) (fun s k s' hs e => by
    unfold addXB at e
    obtain ⟨S1, e1, e⟩ := Go.of_bind_ok e
    obtain ⟨out, -, e⟩ := Go.of_bind_ok e
    injection e with e; subst e; exact hs.trans (extIntoB_lens e1)) _ l2 hw'

theorem mulAndRelinBFVHoisted_lens {crs : GoMap ℤ (Swk B.C)} {o : Sched String} {S : BScratch B} {op0 op1 : CtR N} {h0 h1 : HoistedPair B}
    {rlk : GoMap String (BRlk B.C)} {out : Ct B.C} {r : Ct B.C × BScratch B}
    (h : mulAndRelinBFVHoisted crs o S op0 op1 h0 h1 rlk out = .ok r) : S.Lens r.2 := by
  unfold mulAndRelinBFVHoisted at h
  obtain ⟨f, hf, h⟩ := Go.of_bind_ok h
  exact Go.loop_keeps (fun w : Ct B.C × BScratch B => S.Lens w.2) (fun s k s' hs e => by
    unfold lastBHoisted at e
    obtain ⟨key, -, e⟩ := Go.of_bind_ok e
    obtain ⟨S1, e1, e⟩ := Go.of_bind_ok e
    obtain ⟨⟨d, S2⟩, e2, e⟩ := Go.of_bind_ok e
    obtain ⟨⟨c, S3⟩, e3, e⟩ := Go.of_bind_ok e
    obtain ⟨o1, -, e⟩ := Go.of_bind_ok e
    obtain ⟨u, -, e⟩ := Go.of_bind_ok e
    obtain ⟨⟨c', S4⟩, e4, e⟩ := Go.of_bind_ok e
    obtain ⟨o2, -, e⟩ := Go.of_bind_ok e
    injection e with e; subst e
    have l := hs.trans (extIntoB_lens e1)
    exact ⟨l.1, l.2.1, (decompose_lens e2).2.trans l.2.2.1, l.2.2.2⟩) _ (mulFrontB_lens hf) h

/-- the plain multiplication -/
theorem mulAndRelinBFV_lens {crs : GoMap ℤ (Swk B.C)} {o : Sched String} {S : BScratch B} {op0 op1 : CtR N}
    {rlk : GoMap String (BRlk B.C)} {out : Ct B.C} {r : Ct B.C × BScratch B}
    (h : mulAndRelinBFV crs o S op0 op1 rlk out = .ok r) : S.Lens r.2 := by
  unfold mulAndRelinBFV at h
  obtain ⟨f, hf, h⟩ := Go.of_bind_ok h
  exact Go.loop_keeps (fun w : Ct B.C × BScratch B => S.Lens w.2) (fun s k s' hs e => by
    unfold lastB at e
    obtain ⟨key, -, e⟩ := Go.of_bind_ok e
    obtain ⟨S1, e1, e⟩ := Go.of_bind_ok e
    obtain ⟨⟨c, S3⟩, e3, e⟩ := Go.of_bind_ok e
    obtain ⟨o1, -, e⟩ := Go.of_bind_ok e
    obtain ⟨u, -, e⟩ := Go.of_bind_ok e
    obtain ⟨⟨c', S4⟩, e4, e⟩ := Go.of_bind_ok e
    obtain ⟨o2, -, e⟩ := Go.of_bind_ok e
    have l := hs.trans (extIntoB_lens e1)
    injection e with e; subst e
    exact l) _ (mulFrontB_lens hf) h

/-- `MulRelinNew` leaves an evaluator that can multiply again -/
theorem bfvMulRelinNew_lens {crs : GoMap ℤ (Swk B.C)} {o : Sched String} {S : BScratch B} {ct0 ct1 : Ct B.C} {set : BRlkMap B} {r : Ct B.C × BScratch B}
    (h : bfvMulRelinNew crs o S ct0 ct1 set = .ok r) : S.Lens r.2 := by
  unfold bfvMulRelinNew at h
  obtain ⟨out, -, h⟩ := Go.of_bind_ok h
  unfold bfvMulRelinHoisted at h
  obtain ⟨_, -, h⟩ := Go.of_bind_ok h
  obtain ⟨_, -, h⟩ := Go.of_bind_ok h
  obtain ⟨_, -, h⟩ := Go.of_bind_ok h
  obtain ⟨_, -, h⟩ := Go.of_bind_ok h
  obtain ⟨_, -, h⟩ := Go.of_bind_ok h
  obtain ⟨_, -, h⟩ := Go.of_bind_ok h
  obtain ⟨_, -, h⟩ := Go.of_bind_ok h
  obtain ⟨_, -, h⟩ := Go.of_bind_ok h
  exact mulAndRelinBFVHoisted_lens h

end MKHE
