import Verif.Props.MulNew
import Verif.Props.AddSub
import Verif.Props.RotateAll

set_option autoImplicit false

/-!
# The evaluator's memory stays allocated

Whatever an evaluator function computes, when it returns the scratch vectors have the lengths they had before. These are partial-correctness
lemmas: they hold for all arguments for which the function returns.
-/

namespace MKHE
open Finset

variable {N : ℕ} [NeZero N] {C : Ctx N}

/-- a property kept by every step of a loop is kept by the loop -/
theorem Go.loop_keeps {σ α : Type} {f : σ → α → Go σ} (I : σ → Prop) (hf : ∀ s a s', I s → f s a = .ok s' → I s') :
    ∀ (l : List α) {s s' : σ}, I s → Go.loop f s l = .ok s' → I s'
  | [], s, s', h, e => by
    rw [Go.loop_nil] at e; injection e with e; exact e ▸ h
  | a :: l, s, s', h, e => by
    rw [Go.loop_cons] at e
    cases h1 : f s a with
    | error x => rw [h1] at e; cases e
    | ok s1 => rw [h1] at e; exact Go.loop_keeps I hf l (hf s a s1 h h1) e

/-- the switching-key sized scratch vectors keep their lengths -/
def Scratch.Lens (S S' : Scratch C) : Prop := S'.swk1.len = S.swk1.len ∧ S'.swk2.len = S.swk2.len ∧ S'.swk3.len = S.swk3.len

theorem Scratch.Lens.refl (S : Scratch C) : S.Lens S := ⟨rfl, rfl, rfl⟩
theorem Scratch.Lens.trans {S S' S'' : Scratch C} (h : S.Lens S') (h' : S'.Lens S'') : S.Lens S'' :=
  ⟨h'.1.trans h.1, h'.2.1.trans h.2.1, h'.2.2.trans h.2.2⟩
theorem Scratch.Lens.alloc {S S' : Scratch C} (h : S.Lens S') {n : ℕ} (hS : S.Alloc n) : S'.Alloc n :=
  ⟨by rw [h.1]; exact hS.swk1, by rw [h.2.1]; exact hS.swk2, by rw [h.2.2]; exact hS.swk3⟩

theorem coeffRows_lens {S S' : Scratch C} {level : ℕ} {a : Poly C} {r : QRows C} (h : coeffRows S level a = .ok (r, S')) : S.Lens S' := by
  unfold coeffRows at h
  obtain ⟨_, -, h⟩ := Go.of_bind_ok h
  split_ifs at h <;> (injection h with h; injection h with h1 h2; subst h2; exact ⟨rfl, rfl, rfl⟩)

theorem decompose_lens {S S' : Scratch C} {level : ℕ} {a : Poly C} {ad r : Swk C} (h : decompose S level a ad = .ok (r, S')) :
    S.Lens S' ∧ r.len = ad.len := by
  unfold decompose at h
  obtain ⟨⟨rows, S1⟩, h1, h⟩ := Go.of_bind_ok h
  dsimp only at h
  split_ifs at h
  obtain ⟨val, -, h⟩ := Go.of_bind_ok h
  injection h with h; injection h with h2 h3
  subst h2 h3
  exact ⟨coeffRows_lens h1, rfl⟩

theorem externalProduct_lens {S S' : Scratch C} {level : ℕ} {a : Poly C} {bg : Swk C} {c r : QRows C}
    (h : externalProduct S level a bg c = .ok (r, S')) : S.Lens S' := by
  unfold externalProduct at h
  obtain ⟨⟨rows, S1⟩, h1, h⟩ := Go.of_bind_ok h
  dsimp only at h
  split_ifs at h
  obtain ⟨S2, h2, h⟩ := Go.of_bind_ok h
  obtain ⟨c', -, h⟩ := Go.of_bind_ok h
  injection h with h; injection h with h3 h4
  subst h4
  refine (coeffRows_lens h1).trans (Go.loop_keeps (fun S => S1.Lens S) (fun s k s' hs e => ?_) _ (Scratch.Lens.refl _) h2)
  obtain ⟨c0, -, e⟩ := Go.of_bind_ok e
  injection e with e; subst e
  exact hs

theorem externalProductHoisted_lens {S S' : Scratch C} {level : ℕ} {a : Swk C} {bg : Swk C} {c r : QRows C}
    (h : externalProductHoisted S level a bg c = .ok (r, S')) : S.Lens S' := by
  unfold externalProductHoisted at h
  split_ifs at h
  obtain ⟨S2, h2, h⟩ := Go.of_bind_ok h
  obtain ⟨c', -, h⟩ := Go.of_bind_ok h
  injection h with h; injection h with h3 h4
  subst h4
  refine Go.loop_keeps (fun S1 => S.Lens S1) (fun s k s' hs e => ?_) _ (Scratch.Lens.refl _) h2
  injection e with e; subst e
  exact hs

theorem digitsOf_lens {S S' : Scratch C} {level : ℕ} {op : Ct C} {hh : Option (HoistedCt C)} {id : String} {r : Swk C}
    (h : digitsOf S level op hh id = .ok (r, S')) : S.Lens S' := by
  unfold digitsOf at h
  cases hh with
  | none =>
    dsimp only at h
    obtain ⟨a, -, h⟩ := Go.of_bind_ok h
    obtain ⟨⟨s3, S1⟩, h1, h⟩ := Go.of_bind_ok h
    injection h with h; injection h with h3 h4
    subst h3 h4
    obtain ⟨l, l'⟩ := decompose_lens h1
    exact ⟨l.1, l.2.1, l'⟩
  | some m =>
    dsimp only at h
    obtain ⟨a, -, h⟩ := Go.of_bind_ok h
    injection h with h; injection h with h3 h4
    subst h4
    exact Scratch.Lens.refl _

theorem accVec_len {level beta : ℕ} {d h x r : Swk C} (e : accVec level beta d h x = .ok r) : r.len = x.len := by
  unfold accVec at e
  split_ifs at e
  injection e with e; subst e; rfl

theorem mformVec_len {level beta : ℕ} {x r : Swk C} (e : mformVec level beta x = .ok r) : r.len = x.len := by
  unfold mformVec at e
  split_ifs at e
  injection e with e; subst e; rfl

theorem zeroVec_len {beta : ℕ} {x r : Swk C} (e : zeroVec beta x = .ok r) : r.len = x.len := by
  unfold zeroVec at e
  split_ifs at e
  injection e with e; subst e; rfl

theorem genVec_lens {S S' : Scratch C} {level : ℕ} {op : Ct C} {hh : Option (HoistedCt C)} {rlk : RlkMap C} {sel : Rlk C → Swk C}
    {ids : List String} {x r : Swk C} (h : genVec S level op hh rlk sel ids x = .ok (r, S')) : S.Lens S' ∧ r.len = x.len := by
  unfold genVec at h
  obtain ⟨⟨x1, S1⟩, h1, h⟩ := Go.of_bind_ok h
  dsimp only at h
  obtain ⟨x2, h2, h⟩ := Go.of_bind_ok h
  injection h with h; injection h with h3 h4
  subst h3 h4
  have := Go.loop_keeps (fun (st : Swk C × Scratch C) => S.Lens st.2 ∧ st.1.len = x.len) (fun s k s' hs e => by
    obtain ⟨⟨d, S2⟩, e1, e⟩ := Go.of_bind_ok e
    dsimp only at e
    obtain ⟨key, -, e⟩ := Go.of_bind_ok e
    obtain ⟨y, e2, e⟩ := Go.of_bind_ok e
    injection e with e; subst e
    exact ⟨hs.1.trans (digitsOf_lens e1), (accVec_len e2).trans hs.2⟩) _ ⟨Scratch.Lens.refl _, rfl⟩ h1
  exact ⟨this.1, (mformVec_len h2).trans this.2⟩

theorem tensor_lens {o : Sched String} {S S' : Scratch C} {level : ℕ} {op0 op1 : Ct C} {ids0 ids1 : IDSet} {out r : Ct C}
    (h : tensor o S level op0 op1 ids0 ids1 out = .ok (r, S')) : S.Lens S' := by
  unfold tensor at h
  obtain ⟨a0, -, h⟩ := Go.of_bind_ok h
  obtain ⟨_, -, h⟩ := Go.of_bind_ok h
  obtain ⟨a1, -, h⟩ := Go.of_bind_ok h
  obtain ⟨_, -, h⟩ := Go.of_bind_ok h
  obtain ⟨out1, -, h⟩ := Go.of_bind_ok h
  obtain ⟨⟨out2, S2⟩, h2, h⟩ := Go.of_bind_ok h
  obtain ⟨⟨out3, S3⟩, h3, h⟩ := Go.of_bind_ok h
  obtain ⟨out4, -, h⟩ := Go.of_bind_ok h
  injection h with h; injection h with h4 h5
  subst h5
  have k2 := Go.loop_keeps (fun (st : Ct C × Scratch C) => S.Lens st.2) (fun s k s' hs e => by
    obtain ⟨a, -, e⟩ := Go.of_bind_ok e
    obtain ⟨_, -, e⟩ := Go.of_bind_ok e
    obtain ⟨_, -, e⟩ := Go.of_bind_ok e
    injection e with e; subst e
    exact hs) _ (show S.Lens _ from ⟨rfl, rfl, rfl⟩) h2
  exact Go.loop_keeps (fun (st : Ct C × Scratch C) => S.Lens st.2) (fun s k s' hs e => by
    obtain ⟨a, -, e⟩ := Go.of_bind_ok e
    obtain ⟨_, -, e⟩ := Go.of_bind_ok e
    obtain ⟨_, -, e⟩ := Go.of_bind_ok e
    injection e with e; subst e
    exact hs) _ k2 h3

theorem extInto0_lens {S S' : Scratch C} {level : ℕ} {op : Ct C} {hh : Option (HoistedCt C)} {id : String} {bg : Swk C}
    (h : extInto0 S level op hh id bg = .ok S') : S.Lens S' := by
  unfold extInto0 at h
  cases hh with
  | none =>
    dsimp only at h
    obtain ⟨a, -, h⟩ := Go.of_bind_ok h
    obtain ⟨⟨s3, S1⟩, h1, h⟩ := Go.of_bind_ok h
    injection h with h
    subst h
    exact (show S.Lens S1 from externalProduct_lens h1)
  | some m =>
    dsimp only at h
    obtain ⟨a, -, h⟩ := Go.of_bind_ok h
    obtain ⟨⟨s3, S1⟩, h1, h⟩ := Go.of_bind_ok h
    injection h with h
    subst h
    exact (show S.Lens S1 from externalProductHoisted_lens h1)

theorem addX_lens {o : Sched String} {S S' : Scratch C} {level : ℕ} {op1 : Ct C} {h1 : Option (HoistedCt C)} {ids1 : IDSet} {x : Swk C}
    {out r : Ct C} (h : addX o S level op1 h1 ids1 x out = .ok (r, S')) : S.Lens S' := by
  unfold addX at h
  exact Go.loop_keeps (fun (st : Ct C × Scratch C) => S.Lens st.2) (fun s k s' hs e => by
    obtain ⟨S1, e1, e⟩ := Go.of_bind_ok e
    obtain ⟨_, -, e⟩ := Go.of_bind_ok e
    injection e with e; subst e
    exact hs.trans (extInto0_lens e1)) _ (Scratch.Lens.refl _) h

/-- `MulAndRelinHoisted` keeps the allocation of the scratch memory -/
theorem mulAndRelinHoisted_lens {crs : GoMap ℤ (Swk C)} {o : Sched String} {S S' : Scratch C} {op0 op1 : Ct C}
    {h0 h1 : Option (HoistedCt C)} {rlk : RlkMap C} {out r : Ct C}
    (h : mulAndRelinHoisted crs o S op0 op1 h0 h1 rlk out = .ok (r, S')) : S.Lens S' := by
  unfold mulAndRelinHoisted at h
  obtain ⟨level, -, h⟩ := Go.of_bind_ok h
  obtain ⟨ids0, -, h⟩ := Go.of_bind_ok h
  obtain ⟨ids1, -, h⟩ := Go.of_bind_ok h
  obtain ⟨x, hx, h⟩ := Go.of_bind_ok h
  obtain ⟨y, hy, h⟩ := Go.of_bind_ok h
  obtain ⟨⟨x', S1⟩, hx', h⟩ := Go.of_bind_ok h
  dsimp only at h
  obtain ⟨⟨y', S2⟩, hy', h⟩ := Go.of_bind_ok h
  dsimp only at h
  obtain ⟨⟨o1, S3⟩, ht, h⟩ := Go.of_bind_ok h
  dsimp only at h
  obtain ⟨⟨o2, S4⟩, ha, h⟩ := Go.of_bind_ok h
  dsimp only at h
  obtain ⟨gx1, gx2⟩ := genVec_lens hx'
  obtain ⟨gy1, gy2⟩ := genVec_lens hy'
  have k2 : S.Lens { S2 with swk1 := x', swk2 := y' } :=
    ⟨gx2.trans (zeroVec_len hx), gy2.trans (zeroVec_len hy), (gx1.trans gy1).2.2⟩
  have k4 : S.Lens S4 := (k2.trans (tensor_lens ht)).trans (addX_lens ha)
  exact Go.loop_keeps (fun (st : Ct C × Scratch C) => S.Lens st.2) (fun s k s' hs e => by
    obtain ⟨key, -, e⟩ := Go.of_bind_ok e
    obtain ⟨S5, e5, e⟩ := Go.of_bind_ok e
    obtain ⟨⟨s3, S6⟩, e6, e⟩ := Go.of_bind_ok e
    dsimp only at e
    obtain ⟨⟨r7, S7⟩, e7, e⟩ := Go.of_bind_ok e
    dsimp only at e
    obtain ⟨o8, -, e⟩ := Go.of_bind_ok e
    cases hu : crs.lookup (-1) with
    | none => rw [hu] at e; cases e
    | some u =>
      rw [hu] at e
      dsimp only at e
      rw [bind_ok] at e
      obtain ⟨⟨r9, S9⟩, e9, e⟩ := Go.of_bind_ok e
      dsimp only at e
      obtain ⟨o10, -, e⟩ := Go.of_bind_ok e
      injection e with e; subst e
      obtain ⟨d1, d2⟩ := decompose_lens e6
      have q5 := hs.trans (extInto0_lens e5)
      have q6 : S.Lens { S6 with swk3 := s3 } := ⟨d1.1.trans q5.1, d1.2.1.trans q5.2.1, d2.trans q5.2.2⟩
      have q7 := q6.trans (externalProductHoisted_lens e7)
      have q9 := externalProductHoisted_lens e9
      exact q7.trans (show S7.Lens S9 from q9)) _ k4 h

theorem permuteAll_lens {S S' : Scratch C} {level galEl : ℕ} {ids : List String} {out r : Ct C}
    (h : permuteAll S level galEl ids out = .ok (r, S')) : S.Lens S' := by
  unfold permuteAll at h
  exact Go.loop_keeps (fun (st : Ct C × Scratch C) => S.Lens st.2) (fun s k s' hs e => by
    obtain ⟨_, -, e⟩ := Go.of_bind_ok e
    obtain ⟨_, -, e⟩ := Go.of_bind_ok e
    injection e with e; subst e
    exact hs) _ (Scratch.Lens.refl _) h

theorem extProd_lens {S S' : Scratch C} {level : ℕ} {op : Ct C} {hh : Option (HoistedCt C)} {id : String} {bg : Swk C} {c r : QRows C}
    (h : extProd S level op hh id bg c = .ok (r, S')) : S.Lens S' := by
  unfold extProd at h
  cases hh with
  | none =>
    dsimp only at h
    obtain ⟨a, -, h⟩ := Go.of_bind_ok h
    exact externalProduct_lens h
  | some m =>
    dsimp only at h
    obtain ⟨a, -, h⟩ := Go.of_bind_ok h
    exact externalProductHoisted_lens h

/-- `Rotate` and `RotateHoisted` keep the allocation of the scratch memory -/
theorem rotateWith_lens {crs : GoMap ℤ (Swk C)} {o : Sched String} {S S' : Scratch C} {ct : Ct C} {rot : ℤ} {hh : Option (HoistedCt C)}
    {rks : RotKeySet (GalKey C)} {out r : Ct C} (h : rotateWith crs o S ct rot hh rks out = .ok (r, S')) : S.Lens S' := by
  unfold rotateWith at h
  obtain ⟨level, -, h⟩ := Go.of_bind_ok h
  obtain ⟨ids, -, h⟩ := Go.of_bind_ok h
  obtain ⟨lin, -, h⟩ := Go.of_bind_ok h
  split_ifs at h
  obtain ⟨c0, -, h⟩ := Go.of_bind_ok h
  obtain ⟨p0, -, h⟩ := Go.of_bind_ok h
  obtain ⟨⟨o1, S1⟩, h1, h⟩ := Go.of_bind_ok h
  refine Scratch.Lens.trans (Go.loop_keeps (fun (st : Ct C × Scratch C) => S.Lens st.2) (fun s k s' hs e => ?_) _ (Scratch.Lens.refl _) h1)
    (permuteAll_lens h)
  unfold rotateStep at e
  obtain ⟨rk, -, e⟩ := Go.of_bind_ok e
  obtain ⟨w, e1, e⟩ := Go.of_bind_ok e
  obtain ⟨_, -, e⟩ := Go.of_bind_ok e
  obtain ⟨a, -, e⟩ := Go.of_bind_ok e
  obtain ⟨p, -, e⟩ := Go.of_bind_ok e
  obtain ⟨_, -, e⟩ := Go.of_bind_ok e
  obtain ⟨w2, e2, e⟩ := Go.of_bind_ok e
  injection e with e; subst e
  have q1 : s.2.Lens w.2 := extProd_lens e1
  have q2 := extProd_lens (r := w2.1) (S' := w2.2) e2
  exact (hs.trans q1).trans (show w.2.Lens w2.2 from q2)

theorem rotLoop_lens {crs : GoMap ℤ (Swk C)} (o : ℕ → Sched String) (rks : RotKeySet (GalKey C)) (r : ℕ) :
    ∀ (k : ℕ) (tmp out : Ct C) (S : Scratch C) {out' : Ct C} {S' : Scratch C}, rotLoop crs o rks k r tmp out S = .ok (out', S') → S.Lens S' := by
  induction r using Nat.strong_induction_on with
  | _ r ih =>
  intro k tmp out S out' S' h
  rw [rotLoop] at h
  split_ifs at h with h1 h2
  · obtain ⟨w, e1, h⟩ := Go.of_bind_ok h
    obtain ⟨tmp', -, h⟩ := Go.of_bind_ok h
    have q1 : S.Lens w.2 := rotateWith_lens e1
    exact q1.trans (ih (r / 2) (by omega) _ _ _ _ h)
  · exact ih (r / 2) (by omega) _ _ _ _ h
  · injection h with h; injection h with h3 h4; subst h4; exact Scratch.Lens.refl _

theorem ckksRotate_lens {crs : GoMap ℤ (Swk C)} {o : ℕ → Sched String} {S S' : Scratch C} {ct : Ct C} {rot : ℤ}
    {rks : RotKeySet (GalKey C)} {out r : Ct C} (h : ckksRotate crs o S ct rot rks out = .ok (r, S')) : S.Lens S' := by
  unfold ckksRotate at h
  dsimp only at h
  split_ifs at h
  · obtain ⟨_, -, h⟩ := Go.of_bind_ok h
    injection h with h; injection h with h3 h4; subst h4; exact Scratch.Lens.refl _
  · exact rotateWith_lens h
  · obtain ⟨_, -, h⟩ := Go.of_bind_ok h
    exact rotLoop_lens _ _ _ _ _ _ _ h

theorem ckksRotateHoisted_lens {crs : GoMap ℤ (Swk C)} {o : ℕ → Sched String} {S S' : Scratch C} {ct : Ct C} {rot : ℤ} {hh : HoistedCt C}
    {rks : RotKeySet (GalKey C)} {out r : Ct C} (h : ckksRotateHoisted crs o S ct rot hh rks out = .ok (r, S')) : S.Lens S' := by
  unfold ckksRotateHoisted at h
  dsimp only at h
  split_ifs at h
  · obtain ⟨_, -, h⟩ := Go.of_bind_ok h
    injection h with h; injection h with h3 h4; subst h4; exact Scratch.Lens.refl _
  · exact rotateWith_lens h

theorem conjugate_lens {pl : ℕ} {crs : GoMap ℤ (Swk C)} {o : Sched String} {S S' : Scratch C} {ct : Ct C} {cks : KeySet (GalKey C)}
    {out r : Ct C} (h : conjugate pl crs o S ct cks out = .ok (r, S')) : S.Lens S' := by
  unfold conjugate at h
  obtain ⟨level, -, h⟩ := Go.of_bind_ok h
  obtain ⟨ids, -, h⟩ := Go.of_bind_ok h
  obtain ⟨lin, -, h⟩ := Go.of_bind_ok h
  split_ifs at h
  obtain ⟨o1, -, h⟩ := Go.of_bind_ok h
  obtain ⟨⟨o2, S2⟩, h2, h⟩ := Go.of_bind_ok h
  have k2 := Go.loop_keeps (fun (st : Ct C × Scratch C) => S.Lens st.2) (fun s k s' hs e => by
    unfold conjStep0 at e
    obtain ⟨_, -, e⟩ := Go.of_bind_ok e
    obtain ⟨_, -, e⟩ := Go.of_bind_ok e
    obtain ⟨w, e1, e⟩ := Go.of_bind_ok e
    obtain ⟨_, -, e⟩ := Go.of_bind_ok e
    injection e with e; subst e
    exact hs.trans (show s.2.Lens w.2 from externalProduct_lens e1)) _ (Scratch.Lens.refl _) h2
  exact Go.loop_keeps (fun (st : Ct C × Scratch C) => S.Lens st.2) (fun s k s' hs e => by
    unfold conjStep1 at e
    obtain ⟨_, -, e⟩ := Go.of_bind_ok e
    obtain ⟨_, -, e⟩ := Go.of_bind_ok e
    obtain ⟨w, e1, e⟩ := Go.of_bind_ok e
    injection e with e; subst e
    exact hs.trans (show s.2.Lens w.2 from externalProduct_lens e1)) _ k2 h

/-! ## the evaluator -/

/-- the evaluator as `NewEvaluator` (evaluator.go:20-37) allocates it and as every operation leaves it; contents are arbitrary -/
structure Eval.Ready (E : Eval C) : Prop where
  ksw : E.ksw.Alloc (C.beta (C.nQ - 1))
  pool : E.pool.AtLevel (C.nQ - 1)

theorem Eval.Ready.alloc {E : Eval C} (V : C.Valid) (h : E.Ready) {l : ℕ} (hl : l < C.nQ) : E.ksw.Alloc (C.beta l) := by
  have hb : C.beta l ≤ C.beta (C.nQ - 1) := V.beta_mono (by omega) (by omega)
  exact ⟨hb.trans h.ksw.swk1, hb.trans h.ksw.swk2, hb.trans h.ksw.swk3⟩

theorem Eval.Ready.of_lens {E : Eval C} (h : E.Ready) {S : Scratch C} (hS : E.ksw.Lens S) {q : QRows C} : (⟨S, E.pool, q⟩ : Eval C).Ready :=
  ⟨hS.alloc h.ksw, h.pool⟩

theorem ckksRotateNew_ready {crs : GoMap ℤ (Swk C)} {o : ℕ → Sched String} {E E' : Eval C} {ct out : CCt C} {rot : ℤ}
    {rks : RotKeySet (GalKey C)} (hE : E.Ready) (h : ckksRotateNew crs o E ct rot rks = .ok (out, E')) : E'.Ready := by
  unfold ckksRotateNew at h
  obtain ⟨_, -, h⟩ := Go.of_bind_ok h
  obtain ⟨_, -, h⟩ := Go.of_bind_ok h
  obtain ⟨w, e1, h⟩ := Go.of_bind_ok h
  injection h with h; injection h with h3 h4; subst h4
  exact hE.of_lens (show E.ksw.Lens w.2 from ckksRotate_lens e1)

theorem ckksRotateHoistedNew_ready {crs : GoMap ℤ (Swk C)} {o : ℕ → Sched String} {E E' : Eval C} {ct out : CCt C} {rot : ℤ} {hh : HoistedCt C}
    {rks : RotKeySet (GalKey C)} (hE : E.Ready) (h : ckksRotateHoistedNew crs o E ct rot hh rks = .ok (out, E')) : E'.Ready := by
  unfold ckksRotateHoistedNew at h
  obtain ⟨_, -, h⟩ := Go.of_bind_ok h
  obtain ⟨_, -, h⟩ := Go.of_bind_ok h
  obtain ⟨w, e1, h⟩ := Go.of_bind_ok h
  injection h with h; injection h with h3 h4; subst h4
  exact hE.of_lens (show E.ksw.Lens w.2 from ckksRotateHoisted_lens e1)

theorem ckksConjugateNew_ready {pl : ℕ} {crs : GoMap ℤ (Swk C)} {o : Sched String} {E E' : Eval C} {ct out : CCt C}
    {cks : KeySet (GalKey C)} (hE : E.Ready) (h : ckksConjugateNew pl crs o E ct cks = .ok (out, E')) : E'.Ready := by
  unfold ckksConjugateNew at h
  obtain ⟨_, -, h⟩ := Go.of_bind_ok h
  obtain ⟨_, -, h⟩ := Go.of_bind_ok h
  obtain ⟨w, e1, h⟩ := Go.of_bind_ok h
  injection h with h; injection h with h3 h4; subst h4
  exact hE.of_lens (show E.ksw.Lens w.2 from conjugate_lens e1)

theorem hoistedForm_lens {o : Sched String} {S S' : Scratch C} {ct : Ct C} {m : HoistedCt C} (h : hoistedForm o S ct = .ok (m, S')) : S.Lens S' := by
  unfold hoistedForm at h
  obtain ⟨_, -, h⟩ := Go.of_bind_ok h
  exact Go.loop_keeps (fun (st : HoistedCt C × Scratch C) => S.Lens st.2) (fun s k s' hs e => by
    obtain ⟨_, -, e⟩ := Go.of_bind_ok e
    obtain ⟨_, -, e⟩ := Go.of_bind_ok e
    obtain ⟨w, e1, e⟩ := Go.of_bind_ok e
    injection e with e; subst e
    exact hs.trans (show s.2.Lens w.2 from (decompose_lens e1).1)) _ (Scratch.Lens.refl _) h

/-- a hoisting pool keeps its keys and the lengths of its entries -/
def HoistedCt.Lens (m m' : HoistedCt C) : Prop := ∀ id a, m.lookup id = some a → ∃ b, m'.lookup id = some b ∧ b.len = a.len

theorem HoistedCt.Lens.poolOK {m m' : HoistedCt C} (h : m.Lens m') {n : ℕ} {ids : Finset String} (hm : PoolOK n ids m) : PoolOK n ids m' := by
  intro id hid
  obtain ⟨s, s1, s2⟩ := hm id hid
  obtain ⟨b, b1, b2⟩ := h id s s1
  exact ⟨b, b1, by omega⟩

theorem HoistedCt.Lens.refl (m : HoistedCt C) : m.Lens m := fun _ a h => ⟨a, h, rfl⟩

theorem hoistInto_lens {o1 o2 : Order String} {S S' : Scratch C} {ct : Ct C} {pool m : HoistedCt C} (h : hoistInto o1 o2 S ct pool = .ok (m, S')) :
    S.Lens S' ∧ pool.Lens m := by
  unfold hoistInto at h
  obtain ⟨_, -, h⟩ := Go.of_bind_ok h
  exact Go.loop_keeps (fun (st : HoistedCt C × Scratch C) => S.Lens st.2 ∧ pool.Lens st.1) (fun s k s' hs e => by
    obtain ⟨_, -, e⟩ := Go.of_bind_ok e
    obtain ⟨_, -, e⟩ := Go.of_bind_ok e
    obtain ⟨ad, e0, e⟩ := Go.of_bind_ok e
    obtain ⟨w, e1, e⟩ := Go.of_bind_ok e
    injection e with e; subst e
    obtain ⟨d1, d2⟩ := (decompose_lens e1 : s.2.Lens w.2 ∧ w.1.len = ad.len)
    refine ⟨hs.1.trans d1, fun id a ha => ?_⟩
    obtain ⟨b, b1, b2⟩ := hs.2 id a ha
    rw [GoMap.lookup_insert']
    by_cases hk : id = k
    · subst hk
      rw [if_pos rfl]
      rw [GoMap.deref_ok b1] at e0
      injection e0 with e0; subst e0
      exact ⟨_, rfl, d2.trans b2⟩
    · rw [if_neg hk]; exact ⟨b, b1, b2⟩) _ ⟨Scratch.Lens.refl _, HoistedCt.Lens.refl _⟩ h

theorem ckksMulRelinHoistedNew_ready {pscale : ℚ} {crs : GoMap ℤ (Swk C)} {o : Sched String} {E E' : Eval C} {c0 c1 out : CCt C}
    {h0 h1 : Option (HoistedCt C)} {rlk : RlkMap C} (hE : E.Ready)
    (h : ckksMulRelinHoistedNew pscale crs o E c0 c1 h0 h1 rlk = .ok (out, E')) : E'.Ready := by
  unfold ckksMulRelinHoistedNew ckksMulRelinHoisted at h
  obtain ⟨_, -, h⟩ := Go.of_bind_ok h
  obtain ⟨_, -, h⟩ := Go.of_bind_ok h
  obtain ⟨_, -, h⟩ := Go.of_bind_ok h
  obtain ⟨_, -, h⟩ := Go.of_bind_ok h
  dsimp only at h
  have fin : ∀ ct, (do
      let w ← mulAndRelinHoisted crs o E.ksw c0.ct c1.ct h0 h1 rlk ct
      let r ← rescale (o 91) ⟨w.1, C.fm.mul c0.scale c1.scale⟩ pscale ⟨w.1, C.fm.mul c0.scale c1.scale⟩ true
      .ok (r.2, ⟨w.2, E.pool, E.polyQ⟩) : Go (CCt C × Eval C)) = .ok (out, E') → E'.Ready := by
    intro ct h
    obtain ⟨w, e1, h⟩ := Go.of_bind_ok h
    obtain ⟨_, -, h⟩ := Go.of_bind_ok h
    injection h with h; injection h with h3 h4; subst h4
    exact hE.of_lens (show E.ksw.Lens w.2 from mulAndRelinHoisted_lens e1)
  split_ifs at h
  · obtain ⟨_, -, h⟩ := Go.of_bind_ok h
    exact fin _ h
  · exact fin _ h

/-- the pools of a relinearization key set as `AddRelinearizationKey` allocates them, for the parties `U` -/
def PoolsReady (U : Finset String) (rlk : RlkMap C) : Prop :=
  PoolOK (C.beta (C.nQ - 1)) U rlk.pool0 ∧ PoolOK (C.beta (C.nQ - 1)) U rlk.pool1

theorem ckksMulRelinNew_ready {pscale : ℚ} {crs : GoMap ℤ (Swk C)} {o : Sched String} {E E' : Eval C} {same : Bool} {c0 c1 out : CCt C}
    {rlk rlk' : RlkMap C} (hE : E.Ready) (h : ckksMulRelinNew pscale crs o E same c0 c1 rlk = .ok (out, E', rlk')) :
    E'.Ready ∧ rlk'.value = rlk.value ∧ ∀ U, PoolsReady U rlk → PoolsReady U rlk' := by
  unfold ckksMulRelinNew at h
  split_ifs at h
  · obtain ⟨w, e1, h⟩ := Go.of_bind_ok h
    obtain ⟨r, e2, h⟩ := Go.of_bind_ok h
    injection h with h; injection h with h3 h4; injection h4 with h4 h5; subst h4 h5
    obtain ⟨k1, k2⟩ := (hoistInto_lens e1 : E.ksw.Lens w.2 ∧ HoistedCt.Lens rlk.pool0 w.1)
    exact ⟨ckksMulRelinHoistedNew_ready (hE.of_lens k1 (q := E.polyQ)) e2, rfl, fun U hU => ⟨k2.poolOK hU.1, hU.2⟩⟩
  · obtain ⟨w, e1, h⟩ := Go.of_bind_ok h
    obtain ⟨w2, e2, h⟩ := Go.of_bind_ok h
    obtain ⟨r, e3, h⟩ := Go.of_bind_ok h
    injection h with h; injection h with h3 h4; injection h4 with h4 h5; subst h4 h5
    obtain ⟨k1, k2⟩ := (hoistInto_lens e1 : E.ksw.Lens w.2 ∧ HoistedCt.Lens rlk.pool0 w.1)
    obtain ⟨k3, k4⟩ := (hoistInto_lens e2 : w.2.Lens w2.2 ∧ HoistedCt.Lens rlk.pool1 w2.1)
    exact ⟨ckksMulRelinHoistedNew_ready (hE.of_lens (k1.trans k3) (q := E.polyQ)) e3, rfl, fun U hU => ⟨k2.poolOK hU.1, k4.poolOK hU.2⟩⟩

theorem mulPtxtNew_ready {pscale : ℚ} {o : Sched String} {E E' : Eval C} {ct out : CCt C} {pt : Poly C} {sc : ℚ} (hE : E.Ready)
    (h : mulPtxtNew pscale o E ct pt sc = .ok (out, E')) : E'.Ready := by
  unfold mulPtxtNew mulPtxtRaw at h
  obtain ⟨w, h1, h⟩ := Go.of_bind_ok h
  obtain ⟨_, -, h1⟩ := Go.of_bind_ok h1
  obtain ⟨_, -, h1⟩ := Go.of_bind_ok h1
  obtain ⟨_, -, h1⟩ := Go.of_bind_ok h1
  obtain ⟨_, -, h1⟩ := Go.of_bind_ok h1
  injection h1 with h1; subst h1
  obtain ⟨_, -, h⟩ := Go.of_bind_ok h
  injection h with h; injection h with h3 h4; subst h4
  exact ⟨hE.ksw, hE.pool⟩

theorem ckksEvaluateInPlace_ksw {f : (i : ℕ) → Limb N (C.q i) → Limb N (C.q i) → Limb N (C.q i)} {mredPsi : ℕ → ℕ → ℕ} {o : Sched String}
    {E E' : Eval C} {c0 c1 c out : CCt C} (h : ckksEvaluateInPlace f mredPsi o E c0 c1 c = .ok (out, E')) : E'.ksw = E.ksw := by
  unfold ckksEvaluateInPlace at h
  obtain ⟨_, -, h⟩ := Go.of_bind_ok h
  obtain ⟨_, -, h⟩ := Go.of_bind_ok h
  obtain ⟨_, -, h⟩ := Go.of_bind_ok h
  obtain ⟨_, -, h⟩ := Go.of_bind_ok h
  obtain ⟨_, -, h⟩ := Go.of_bind_ok h
  obtain ⟨_, -, h⟩ := Go.of_bind_ok h
  obtain ⟨_, -, h⟩ := Go.of_bind_ok h
  dsimp only at h
  split_ifs at h <;>
  · obtain ⟨_, -, h⟩ := Go.of_bind_ok h
    obtain ⟨_, -, h⟩ := Go.of_bind_ok h
    obtain ⟨_, -, h⟩ := Go.of_bind_ok h
    injection h with h; injection h with h3 h4; subst h4
    rfl

theorem ckksAddNew_ready {mredPsi : ℕ → ℕ → ℕ} {o : Sched String} {E E' : Eval C} {c0 c1 out : CCt C} (hE : E.Ready)
    (hp : E'.pool.AtLevel (C.nQ - 1)) (h : ckksAddNew mredPsi o E c0 c1 = .ok (out, E')) : E'.Ready := by
  unfold ckksAddNew at h
  obtain ⟨_, -, h⟩ := Go.of_bind_ok h
  exact ⟨by rw [ckksEvaluateInPlace_ksw h]; exact hE.ksw, hp⟩

theorem ckksSubNew_ready {mredPsi : ℕ → ℕ → ℕ} {o : Sched String} {E E' : Eval C} {c0 c1 out : CCt C} (hE : E.Ready)
    (hp : E'.pool.AtLevel (C.nQ - 1)) (h : ckksSubNew mredPsi o E c0 c1 = .ok (out, E')) : E'.Ready := by
  unfold ckksSubNew at h
  obtain ⟨_, -, h⟩ := Go.of_bind_ok h
  obtain ⟨w, h1, h⟩ := Go.of_bind_ok h
  obtain ⟨_, -, h⟩ := Go.of_bind_ok h
  obtain ⟨_, -, h⟩ := Go.of_bind_ok h
  obtain ⟨_, -, h⟩ := Go.of_bind_ok h
  obtain ⟨_, -, h⟩ := Go.of_bind_ok h
  injection h with h; injection h with h3 h4; subst h4
  exact ⟨by rw [ckksEvaluateInPlace_ksw (out := w.1) (E' := w.2) h1]; exact hE.ksw, hp⟩

end MKHE
