import Verif.Model.HeapEval
import Verif.Lemmas.HeapOps

set_option autoImplicit false
set_option linter.unusedSectionVars false

/-!
# What the functions of `Verif/Model/HeapEval.lean` write

Partial correctness, as in `Verif/Lemmas/HeapOps.lean`: for any heap, any operands, keys, pools and orders, a call that returns has written only polynomials
of the receiver.
-/

namespace MKHE
namespace Heap
variable {N : ℕ} [NeZero N] {C : Ctx N}

section
variable {h0 h h' : Heap N} {Wp Wc : Set ℕ}

/-- `h'` comes from `h` by writes to allowed polynomials; no map has changed -/
def Wrote (h0 : Heap N) (Wp Wc : Set ℕ) (h h' : Heap N) : Prop := Ok h0 Wp Wc h' ∧ h'.ct = h.ct ∧ h'.nct = h.nct

theorem Wrote.refl (K : Ok h0 Wp Wc h) : Wrote h0 Wp Wc h h := ⟨K, rfl, rfl⟩

theorem Wrote.trans {h1 h2 : Heap N} (a : Wrote h0 Wp Wc h h1) (b : Wrote h0 Wp Wc h1 h2) : Wrote h0 Wp Wc h h2 :=
  ⟨b.1, b.2.1.trans a.2.1, b.2.2.trans a.2.2⟩

theorem Wrote.into {c : ℕ} (a : Wrote h0 Wp Wc h h') (hI : Into h0 Wp h c) : Into h0 Wp h' c := hI.of_ct a.2.1 a.2.2

theorem upd_ok {level c : ℕ} {id : String} {f : QRows C → QRows C} (K : Ok h0 Wp Wc h) (hI : Into h0 Wp h c)
    (e : upd level c id f h = .ok h') : Wrote h0 Wp Wc h h' := by
  obtain ⟨p, ep, e⟩ := Go.bind_ok e
  obtain ⟨a1, a2, a3, -⟩ := polyOp_ok K (Into.lt K hI ep) (hI.2 id p (get_some ep)) e
  exact ⟨a1, a2, a3⟩

theorem putCopy_ok {c : ℕ} {id : String} {P : Poly C} (K : Ok h0 Wp Wc h) (hI : Into h0 Wp h c) (e : putCopy c id P h = .ok h') :
    Wrote h0 Wp Wc h h' := by
  obtain ⟨p, ep, e⟩ := Go.bind_ok e
  cases e
  obtain ⟨a1, a2, -, a4, a5, -⟩ := rowsOp_inv (h := h) (min (h.len p) P.len) (fun i _ _ => wr (P.rows i)) p p p K.wf (Into.lt K hI ep)
    (min_le_left _ _)
  exact ⟨K.step (hI.2 id p (get_some ep)) (setNTT_wf a1 _ _) (a2.trans (setNTT_only _ _)), a4, a5⟩

/-- a loop over a heap and private state -/
theorem loop_wrote {α σ : Type*} {f : Heap N × σ → α → Go (Heap N × σ)} {l : List α} {s s' : Heap N × σ} {out : ℕ} (K : Ok h0 Wp Wc s.1)
    (hI : Into h0 Wp s.1 out)
    (hstep : ∀ s a s', Ok h0 Wp Wc s.1 → Into h0 Wp s.1 out → f s a = .ok s' → Wrote h0 Wp Wc s.1 s'.1)
    (e : Go.loop f s l = .ok s') : Wrote h0 Wp Wc s.1 s'.1 := by
  refine Go.loop_pres (fun t => Wrote h0 Wp Wc s.1 t.1) (fun t a t' _ ht e => ?_) (Wrote.refl K) e
  exact ht.trans (hstep t a t' ht.1 (ht.into hI) e)

theorem permuteAll_ok {S : Scratch C} {level galEl : ℕ} {ids : List String} {out : ℕ} {r : Heap N × Scratch C} (K : Ok h0 Wp Wc h)
    (hI : Into h0 Wp h out) (e : permuteAll S level galEl ids out h = .ok r) : Wrote h0 Wp Wc h r.1 := by
  refine loop_wrote (s := (h, S)) K hI (fun s id s' k i e => ?_) e
  obtain ⟨p, -, e⟩ := Go.bind_ok e
  obtain ⟨_, -, e⟩ := Go.bind_ok e
  obtain ⟨h1, e1, e⟩ := Go.bind_ok e
  cases e
  exact putCopy_ok k i e1

theorem rotateStep_ok {level cin r : ℕ} {hoisted : Option (HoistedCt C)} {rks : RotKeySet (GalKey C)} {a : Option (Swk C)} {out : ℕ}
    {s s' : Heap N × Scratch C} {id : String} (K : Ok h0 Wp Wc s.1) (hI : Into h0 Wp s.1 out)
    (e : rotateStep level cin r hoisted rks a out s id = .ok s') : Wrote h0 Wp Wc s.1 s'.1 := by
  obtain ⟨_, -, e⟩ := Go.bind_ok e
  obtain ⟨_, -, e⟩ := Go.bind_ok e
  obtain ⟨h1, e1, e⟩ := Go.bind_ok e
  obtain ⟨_, -, e⟩ := Go.bind_ok e
  obtain ⟨_, -, e⟩ := Go.bind_ok e
  obtain ⟨_, -, e⟩ := Go.bind_ok e
  obtain ⟨_, -, e⟩ := Go.bind_ok e
  obtain ⟨h2, e2, e⟩ := Go.bind_ok e
  cases e
  have w1 := upd_ok K hI e1
  exact w1.trans (upd_ok w1.1 (w1.into hI) e2)

theorem rotateWith_ok {crs : GoMap ℤ (Swk C)} {o : Sched String} {S : Scratch C} {cin : ℕ} {rotidx : ℤ} {hoisted : Option (HoistedCt C)}
    {rks : RotKeySet (GalKey C)} {out : ℕ} {r : Heap N × Scratch C} (K : Ok h0 Wp Wc h) (hI : Into h0 Wp h out)
    (e : rotateWith crs o S cin rotidx hoisted rks out h = .ok r) : Wrote h0 Wp Wc h r.1 := by
  obtain ⟨_, -, e⟩ := Go.bind_ok e
  obtain ⟨_, -, e⟩ := Go.bind_ok e
  obtain ⟨_, -, e⟩ := Go.bind_ok e
  split at e
  · cases e
  · obtain ⟨c0, -, e⟩ := Go.bind_ok e
    obtain ⟨p0, ep, e⟩ := Go.bind_ok e
    obtain ⟨st, e1, e⟩ := Go.bind_ok e
    obtain ⟨a1, a2, a3, a4, -⟩ := polyCopy_inv (q := c0) K.wf (Into.lt K hI ep)
    have w0 : Wrote h0 Wp Wc h (h.polyCopy p0 c0) := ⟨K.step (hI.2 _ p0 (get_some ep)) a1 a2, a3, a4⟩
    have w1 : Wrote h0 Wp Wc h st.1 := w0.trans (loop_wrote (s := (h.polyCopy p0 c0, S)) w0.1 (w0.into hI) (fun s id s' k i e => rotateStep_ok k i e) e1)
    exact w1.trans (permuteAll_ok w1.1 (w1.into hI) e)

theorem conjugate_ok {permLevel : ℕ} {crs : GoMap ℤ (Swk C)} {o : Sched String} {S : Scratch C} {cin : ℕ} {cks : KeySet (GalKey C)} {out : ℕ}
    {r : Heap N × Scratch C} (K : Ok h0 Wp Wc h) (hI : Into h0 Wp h out) (e : conjugate permLevel crs o S cin cks out h = .ok r) :
    Wrote h0 Wp Wc h r.1 := by
  obtain ⟨_, -, e⟩ := Go.bind_ok e
  obtain ⟨_, -, e⟩ := Go.bind_ok e
  obtain ⟨_, -, e⟩ := Go.bind_ok e
  split at e
  · cases e
  · obtain ⟨h1, e1, e⟩ := Go.bind_ok e
    obtain ⟨st, e2, e⟩ := Go.bind_ok e
    have w1 : Wrote h0 Wp Wc h h1 := loop_out K hI (fun s id s' k i e => by
      obtain ⟨a, -, e⟩ := Go.bind_ok e
      obtain ⟨b, eb, e⟩ := Go.bind_ok e
      obtain ⟨b1, b2, b3, -⟩ := polyOp_ok k (Into.lt k i eb) (i.2 _ b (get_some eb)) e
      exact ⟨b1, b2, b3⟩) e1
    have w2 : Wrote h0 Wp Wc h st.1 := w1.trans (loop_wrote (s := (h1, S)) w1.1 (w1.into hI) (fun s id s' k i e => by
      obtain ⟨_, -, e⟩ := Go.bind_ok e
      obtain ⟨_, -, e⟩ := Go.bind_ok e
      obtain ⟨_, -, e⟩ := Go.bind_ok e
      obtain ⟨h2, e2, e⟩ := Go.bind_ok e
      cases e
      exact upd_ok k i e2) e2)
    exact w2.trans (loop_wrote w2.1 (w2.into hI) (fun s id s' k i e => by
      obtain ⟨_, -, e⟩ := Go.bind_ok e
      obtain ⟨_, -, e⟩ := Go.bind_ok e
      obtain ⟨_, -, e⟩ := Go.bind_ok e
      obtain ⟨h2, e2, e⟩ := Go.bind_ok e
      cases e
      exact putCopy_ok k i e2) e)

theorem tensor_ok {o : Sched String} {S : Scratch C} {level op0 op1 : ℕ} {ids0 ids1 : IDSet} {out : ℕ} {r : Heap N × Scratch C}
    (K : Ok h0 Wp Wc h) (hI : Into h0 Wp h out) (e : tensor o S level op0 op1 ids0 ids1 out h = .ok r) : Wrote h0 Wp Wc h r.1 := by
  obtain ⟨_, -, e⟩ := Go.bind_ok e
  obtain ⟨_, -, e⟩ := Go.bind_ok e
  obtain ⟨_, -, e⟩ := Go.bind_ok e
  obtain ⟨_, -, e⟩ := Go.bind_ok e
  obtain ⟨h1, e1, e⟩ := Go.bind_ok e
  obtain ⟨s2, e2, e⟩ := Go.bind_ok e
  obtain ⟨s3, e3, e⟩ := Go.bind_ok e
  obtain ⟨h4, e4, e⟩ := Go.bind_ok e
  cases e
  have w1 := upd_ok K hI e1
  have w2 : Wrote h0 Wp Wc h s2.1 := w1.trans (by
    have := loop_wrote (out := out) (h0 := h0) (Wp := Wp) (Wc := Wc) w1.1 (w1.into hI) (fun s id s' k i e => by
      obtain ⟨_, -, e⟩ := Go.bind_ok e
      obtain ⟨_, -, e⟩ := Go.bind_ok e
      obtain ⟨h2, e2, e⟩ := Go.bind_ok e
      cases e
      exact upd_ok k i e2) e2
    exact this)
  have w3 : Wrote h0 Wp Wc h s3.1 := w2.trans (loop_wrote w2.1 (w2.into hI) (fun s id s' k i e => by
    obtain ⟨_, -, e⟩ := Go.bind_ok e
    obtain ⟨_, -, e⟩ := Go.bind_ok e
    obtain ⟨h2, e2, e⟩ := Go.bind_ok e
    cases e
    exact upd_ok k i e2) e3)
  exact w3.trans (loop_out w3.1 (w3.into hI) (fun s id s' k i e => upd_ok k i e) e4)

theorem mulFront_ok {o : Sched String} {S : Scratch C} {op0 op1 : ℕ} {h0' h1' : Option (HoistedCt C)} {rlk : RlkMap C} {out : ℕ}
    {r : (ℕ × IDSet × Swk C) × Heap N × Scratch C} (K : Ok h0 Wp Wc h) (hI : Into h0 Wp h out)
    (e : mulFront o S op0 op1 h0' h1' rlk out h = .ok r) : Wrote h0 Wp Wc h r.2.1 := by
  obtain ⟨_, -, e⟩ := Go.bind_ok e
  obtain ⟨_, -, e⟩ := Go.bind_ok e
  obtain ⟨_, -, e⟩ := Go.bind_ok e
  obtain ⟨_, -, e⟩ := Go.bind_ok e
  obtain ⟨_, -, e⟩ := Go.bind_ok e
  obtain ⟨_, -, e⟩ := Go.bind_ok e
  obtain ⟨_, -, e⟩ := Go.bind_ok e
  obtain ⟨s1, e1, e⟩ := Go.bind_ok e
  obtain ⟨s2, e2, e⟩ := Go.bind_ok e
  cases e
  have w1 := tensor_ok K hI e1
  exact w1.trans (loop_wrote w1.1 (w1.into hI) (fun s id s' k i e => by
    obtain ⟨_, -, e⟩ := Go.bind_ok e
    obtain ⟨h2, e2, e⟩ := Go.bind_ok e
    cases e
    exact upd_ok k i e2) e2)

theorem mulAndRelin_ok {crs : GoMap ℤ (Swk C)} {o : Sched String} {S : Scratch C} {op0 op1 : ℕ} {rlk : RlkMap C} {out : ℕ}
    {r : Heap N × Scratch C} (K : Ok h0 Wp Wc h) (hI : Into h0 Wp h out) (e : mulAndRelin crs o S op0 op1 rlk out h = .ok r) :
    Wrote h0 Wp Wc h r.1 := by
  obtain ⟨f, e1, e⟩ := Go.bind_ok e
  have w1 := mulFront_ok K hI e1
  exact w1.trans (loop_wrote w1.1 (w1.into hI) (fun s id s' k i e => by
    obtain ⟨_, -, e⟩ := Go.bind_ok e
    obtain ⟨_, -, e⟩ := Go.bind_ok e
    obtain ⟨_, -, e⟩ := Go.bind_ok e
    obtain ⟨h2, e2, e⟩ := Go.bind_ok e
    obtain ⟨_, -, e⟩ := Go.bind_ok e
    obtain ⟨_, -, e⟩ := Go.bind_ok e
    obtain ⟨h3, e3, e⟩ := Go.bind_ok e
    cases e
    have v := upd_ok k i e2
    exact v.trans (upd_ok v.1 (v.into i) e3)) e)

theorem mulAndRelinHoisted_ok {crs : GoMap ℤ (Swk C)} {o : Sched String} {S : Scratch C} {op0 op1 : ℕ} {h0' h1' : Option (HoistedCt C)}
    {rlk : RlkMap C} {out : ℕ} {r : Heap N × Scratch C} (K : Ok h0 Wp Wc h) (hI : Into h0 Wp h out)
    (e : mulAndRelinHoisted crs o S op0 op1 h0' h1' rlk out h = .ok r) : Wrote h0 Wp Wc h r.1 := by
  obtain ⟨f, e1, e⟩ := Go.bind_ok e
  have w1 := mulFront_ok K hI e1
  exact w1.trans (loop_wrote w1.1 (w1.into hI) (fun s id s' k i e => by
    obtain ⟨_, -, e⟩ := Go.bind_ok e
    obtain ⟨_, -, e⟩ := Go.bind_ok e
    obtain ⟨_, -, e⟩ := Go.bind_ok e
    obtain ⟨_, -, e⟩ := Go.bind_ok e
    obtain ⟨h2, e2, e⟩ := Go.bind_ok e
    obtain ⟨_, -, e⟩ := Go.bind_ok e
    obtain ⟨_, -, e⟩ := Go.bind_ok e
    obtain ⟨h3, e3, e⟩ := Go.bind_ok e
    cases e
    have v := upd_ok k i e2
    exact v.trans (upd_ok v.1 (v.into i) e3)) e)

/-- in-place `Rescale` writes only its argument -/
theorem rescale_same_ok {o : Order String} {c : HCt} {minScale : ℚ} {err : Option String} {r : HCt} (K : Ok h0 Wp Wc h) (hI : Into h0 Wp h c.ct)
    (e : rescale C o h c minScale c true = .ok ((err, r), h')) : Wrote h0 Wp Wc h h' ∧ r.ct = c.ct := by
  unfold rescale at e
  split at e
  · cases e; exact ⟨Wrote.refl K, rfl⟩
  · split at e
    · cases e; exact ⟨Wrote.refl K, rfl⟩
    · obtain ⟨l, -, e⟩ := Go.bind_ok e
      split at e
      · cases e; exact ⟨Wrote.refl K, rfl⟩
      · obtain ⟨w, -, e⟩ := Go.bind_ok e
        split at e
        · obtain ⟨h2, e2, e⟩ := Go.bind_ok e
          cases e
          exact ⟨loop_out K hI (fun h1 id h2 k i e => rescaleStep_ok k i e) e2, rfl⟩
        · rw [if_pos rfl] at e
          cases e; exact ⟨Wrote.refl K, rfl⟩

theorem rotLoop_ok {crs : GoMap ℤ (Swk C)} {o : ℕ → Sched String} {rks : RotKeySet (GalKey C)} {tmp out : ℕ} (k r : ℕ) {S : Scratch C}
    {w : Heap N × Scratch C} (K : Ok h0 Wp Wc h) (hT : Into h0 Wp h tmp) (hI : Into h0 Wp h out)
    (e : rotLoop crs o rks tmp out k r h S = .ok w) : Wrote h0 Wp Wc h w.1 := by
  induction r using Nat.strong_induction_on generalizing k h S with
  | _ r ih =>
    unfold rotLoop at e
    split at e
    · rename_i hr
      split at e
      · obtain ⟨v, e1, e⟩ := Go.bind_ok e
        obtain ⟨h2, e2, e⟩ := Go.bind_ok e
        have w1 := rotateWith_ok K hI e1
        have w2 : Wrote h0 Wp Wc h h2 := w1.trans (copy_ok w1.1 (w1.into hT) e2)
        exact w2.trans (ih (r / 2) (by omega) (2 * k) w2.1 (w2.into hT) (w2.into hI) e)
      · exact ih (r / 2) (by omega) (2 * k) K hT hI e
    · cases e; exact Wrote.refl K

/-! ## BFV multiplication -/

variable {B : BCtx N}

theorem quant_ok {pool : Fin N → ℕ → ℕ} {a : RowsR B} {id : String} {out : ℕ} (K : Ok h0 Wp Wc h) (hI : Into h0 Wp h out)
    (e : quant pool a id out h = .ok h') : Wrote h0 Wp Wc h h' := by
  obtain ⟨_, -, e⟩ := Go.bind_ok e
  obtain ⟨_, -, e⟩ := Go.bind_ok e
  obtain ⟨_, -, e⟩ := Go.bind_ok e
  exact upd_ok K hI e

theorem tensorB_ok {o : Sched String} {S : BScratch B} {op0 op1 : CtR N} {ids0 ids1 : IDSet} {out : ℕ} {r : Heap N × BScratch B}
    (K : Ok h0 Wp Wc h) (hI : Into h0 Wp h out) (e : tensorB o S op0 op1 ids0 ids1 out h = .ok r) : Wrote h0 Wp Wc h r.1 := by
  obtain ⟨_, -, e⟩ := Go.bind_ok e
  obtain ⟨_, -, e⟩ := Go.bind_ok e
  obtain ⟨h1, e1, e⟩ := Go.bind_ok e
  obtain ⟨s2, e2, e⟩ := Go.bind_ok e
  obtain ⟨s3, e3, e⟩ := Go.bind_ok e
  have w1 := quant_ok K hI e1
  have w2 : Wrote h0 Wp Wc h s2.1 := w1.trans (by
    have := loop_wrote (out := out) (h0 := h0) (Wp := Wp) (Wc := Wc) w1.1 (w1.into hI) (fun s id s' k i e => by
      unfold tensorB0 at e
      split at e
      · obtain ⟨_, -, e⟩ := Go.bind_ok e
        obtain ⟨h2, e2, e⟩ := Go.bind_ok e
        cases e
        exact quant_ok k i e2
      · cases e; exact Wrote.refl k) e2
    exact this)
  have w3 : Wrote h0 Wp Wc h s3.1 := w2.trans (loop_wrote w2.1 (w2.into hI) (fun s id s' k i e => by
      unfold tensorB1 at e
      split at e
      · obtain ⟨_, -, e⟩ := Go.bind_ok e
        obtain ⟨h2, e2, e⟩ := Go.bind_ok e
        cases e
        exact quant_ok k i e2
      · cases e; exact Wrote.refl k) e3)
  exact w3.trans (loop_wrote w3.1 (w3.into hI) (fun s id s' k i e => by
      unfold tensorB2 at e
      split at e
      · obtain ⟨_, -, e⟩ := Go.bind_ok e
        obtain ⟨_, -, e⟩ := Go.bind_ok e
        obtain ⟨h2, e2, e⟩ := Go.bind_ok e
        cases e
        exact quant_ok k i e2
      · cases e; exact Wrote.refl k) e)

theorem mulFrontB_ok {o : Sched String} {S : BScratch B} {op0 op1 : CtR N} {h0' h1' : HoistedPair B} {rlk : GoMap String (BRlk B.C)} {out : ℕ}
    {r : (ℕ × IDSet) × Heap N × BScratch B} (K : Ok h0 Wp Wc h) (hI : Into h0 Wp h out)
    (e : mulFrontB o S op0 op1 h0' h1' rlk out h = .ok r) : Wrote h0 Wp Wc h r.2.1 := by
  obtain ⟨_, -, e⟩ := Go.bind_ok e
  obtain ⟨_, -, e⟩ := Go.bind_ok e
  obtain ⟨_, -, e⟩ := Go.bind_ok e
  obtain ⟨_, -, e⟩ := Go.bind_ok e
  obtain ⟨_, -, e⟩ := Go.bind_ok e
  obtain ⟨_, -, e⟩ := Go.bind_ok e
  obtain ⟨_, -, e⟩ := Go.bind_ok e
  obtain ⟨_, -, e⟩ := Go.bind_ok e
  obtain ⟨_, -, e⟩ := Go.bind_ok e
  obtain ⟨s1, e1, e⟩ := Go.bind_ok e
  obtain ⟨s2, e2, e⟩ := Go.bind_ok e
  cases e
  have w1 := tensorB_ok K hI e1
  exact w1.trans (loop_wrote w1.1 (w1.into hI) (fun s id s' k i e => by
    obtain ⟨_, -, e⟩ := Go.bind_ok e
    obtain ⟨h2, e2, e⟩ := Go.bind_ok e
    cases e
    exact upd_ok k i e2) e2)

theorem bfvMulRelinHoisted_ok {crs : GoMap ℤ (Swk B.C)} {o : Sched String} {S : BScratch B} {c0 c1 : ℕ} {set : BRlkMap B} {out : ℕ}
    {r : Heap N × BScratch B} (K : Ok h0 Wp Wc h) (hI : Into h0 Wp h out) (e : bfvMulRelinHoisted crs o S c0 c1 set out h = .ok r) :
    Wrote h0 Wp Wc h r.1 := by
  obtain ⟨_, -, e⟩ := Go.bind_ok e
  obtain ⟨_, -, e⟩ := Go.bind_ok e
  obtain ⟨_, -, e⟩ := Go.bind_ok e
  obtain ⟨_, -, e⟩ := Go.bind_ok e
  obtain ⟨_, -, e⟩ := Go.bind_ok e
  obtain ⟨_, -, e⟩ := Go.bind_ok e
  obtain ⟨_, -, e⟩ := Go.bind_ok e
  obtain ⟨_, -, e⟩ := Go.bind_ok e
  obtain ⟨f, e1, e⟩ := Go.bind_ok e
  have w1 := mulFrontB_ok K hI e1
  exact w1.trans (loop_wrote w1.1 (w1.into hI) (fun s id s' k i e => by
    obtain ⟨_, -, e⟩ := Go.bind_ok e
    obtain ⟨_, -, e⟩ := Go.bind_ok e
    obtain ⟨_, -, e⟩ := Go.bind_ok e
    obtain ⟨_, -, e⟩ := Go.bind_ok e
    obtain ⟨h2, e2, e⟩ := Go.bind_ok e
    obtain ⟨_, -, e⟩ := Go.bind_ok e
    obtain ⟨_, -, e⟩ := Go.bind_ok e
    obtain ⟨h3, e3, e⟩ := Go.bind_ok e
    cases e
    have v := upd_ok k i e2
    exact v.trans (upd_ok v.1 (v.into i) e3)) e)

end
end Heap
end MKHE
