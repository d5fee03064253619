import Verif.Props.HeapKeys

set_option autoImplicit false

/-!
# C70: what the key generators do to memory

Every function of the key generator, run on the heap, behaves as the value model of `Verif/Model/KeyGen.lean` says (same panics, a key with the same
value, the same use of the sampler), puts the key into new memory and changes nothing that existed except its own scratch polynomials.
-/

namespace MKHE
namespace C70
open Heap
variable {N : ℕ} [NeZero N] {C : Ctx N}

/-- what the outcome of a call of the key generator is compared with: `W` is the outcome of the value model -/
def Out {κ K' : Type} (polys : κ → List ℕ) (shows_ : Heap N → κ → K' → Prop) (K : HKG) (h : Heap N) (W : K' × KG C) (w : κ × ℕ × Heap N) : Prop :=
  shows_ w.2.2 w.1 W.1 ∧ w.2.1 = W.2.pos ∧ KGAt C w.2.2 K W.2 ∧ Ran K h w.2.2 ∧ Fresh h w.2.2 (polys w.1)

theorem KGAt.low {h : Heap N} {K : HKG} {st : KG C} (a : KGAt C h K st) : ∀ x ∈ K.mem, x < h.npoly := by
  rintro x (rfl | rfl | rfl)
  exacts [a.lt, a.qp.q, a.qp.p]

theorem CrsShows.deref {K : HKG} {h : Heap N} {crs : GoMap ℤ SwkObj} {CRS : GoMap ℤ (Swk C)} (a : CrsShows C K h crs CRS) (k : ℤ) :
    Go.Rel (fun S s => SwkShows C h s S ∧ ∀ v ∈ s, Apart K v) (CRS.deref k) (crs.deref k) := by
  rcases a k with ⟨e1, e2⟩ | ⟨s, S, e1, e2, e3⟩
  · rw [GoMap.deref_none e1, GoMap.deref_none e2]; rfl
  · rw [GoMap.deref_ok e1, GoMap.deref_ok e2]; exact e3

theorem shows_low {h : Heap N} {s : SwkObj} {S : Swk C} (a : SwkShows C h s S) : ∀ v ∈ s, v.q < h.npoly ∧ v.p < h.npoly := fun v hv => by
  obtain ⟨i, hi, e⟩ := List.mem_iff_getElem.mp hv
  have := a.2 i v (by rw [List.getElem?_eq_getElem hi, e])
  exact ⟨this.q, this.p⟩

/-- after writing to new memory and to the scratch space only -/
theorem ran_of {K : HKG} {h h0 h' : Heap N} (g : Grow h h0) {Wp : Set ℕ} (S : KStep Wp h0 h') (hW : ∀ p < h.npoly, p ∈ Wp → p ∈ K.mem) : Ran K h h' :=
  ⟨S.wf, (g.only.mono (Set.empty_subset K.mem) subset_rfl).trans' S.only (fun p hp hw => hW p hp hw) (fun _ _ hc => hc), S.nct.trans g.nct⟩

/-- **`genSecretKeyFromSampler`** (all variants of GenSecretKey) -/
theorem genSecretKey_heap (hn : 0 < C.nQ) {h : Heap N} (W : WF h) (x : Nega N ℤ) (id : String) :
    ∃ k h', hGenSk C x id h = .ok (k, h') ∧ SkShows C h' k (genSecretKeyFromSampler x id) ∧ Grow h h' ∧ Fresh h h' (SkObj.polys k) := by
  obtain ⟨g, e, n, z⟩ := newQP_spec (C := C) W
  obtain ⟨h1, e1, S1, a1⟩ := hSample_run hn g.wf x z
  obtain ⟨h2, e2, S2, a2⟩ := hNTT_run hn S1.wf a1 a1 a1.ne
  obtain ⟨h3, e3, S3, a3⟩ := hMForm_run hn S2.wf a2 a2 a2.ne
  have S := (S1.trans S2).trans S3
  refine ⟨⟨id, (newQP C h).1⟩, h3, ?_, ⟨rfl, a3⟩, ?_, ?_, ?_⟩
  · unfold hGenSk
    show (hSample C x (newQP C h).1 (newQP C h).2 >>= _) = _
    rw [e1]
    show (hNTT C _ _ h1 >>= _) = _
    rw [e2]
    show (hMForm C _ _ h2 >>= _) = _
    rw [e3]
    rfl
  · refine ⟨S.wf, g.only.trans' S.only (fun p hp hw => ?_) (fun _ _ hc => hc), S.nct.trans g.nct⟩
    rw [e] at hw
    rcases hw with rfl | rfl
    · exact absurd hp (lt_irrefl _)
    · exact absurd hp (by show ¬ h.npoly + 1 < h.npoly; omega)
  · show (QP.polys (newQP C h).1).Nodup
    rw [e]; simp [QP.polys]
  · show ∀ p ∈ QP.polys (newQP C h).1, h.npoly ≤ p ∧ p < h3.npoly
    rw [e, S.npoly, n]
    intro p hp
    simp only [QP.polys, List.mem_cons, List.not_mem_nil, or_false] at hp
    omega

theorem polyCopy_step {h : Heap N} (W : WF h) {p q : ℕ} (hp : p < h.npoly) : KStep {p} h (h.polyCopy p q) := by
  obtain ⟨a1, a2, -, a4, a5⟩ := polyCopy_inv (q := q) W hp
  refine ⟨a1, a2, a5, a4, fun x => ?_⟩
  obtain ⟨-, -, e, -⟩ := rowsOp_inv (h := h) (min (h.len p) (h.len q)) (fun _ r _ => r) q q p W hp (min_le_left _ _)
  unfold polyCopy setNTT len
  by_cases hx : x = p
  · subst hx; simp only [Function.update_self]; exact congrArg (fun o : ℕ → PolyObj => (o x).coeffs.length) e
  · simp only [Function.update_of_ne hx]; exact congrArg (fun o : ℕ → PolyObj => (o x).coeffs.length) e

theorem polyCopy_rows {m : ℕ → ℕ} {h : Heap N} (W : WF h) {p q n : ℕ} (hp : p < h.npoly) (hq : q < h.npoly) (lp : h.len p = n) (lq : h.len q = n) (i : ℕ) :
    rowsOf m (h.polyCopy p q) p i = if i < n then rowsOf m h q i else rowsOf m h p i := by
  have S := polyCopy_step (q := q) W hp
  obtain ⟨-, -, e, -⟩ := rowsOp_inv (h := h) (min (h.len p) (h.len q)) (fun _ r _ => r) q q p W hp (min_le_left _ _)
  unfold rowsOf
  rw [S.len, lp, lq]
  by_cases hi : i < n
  · simp only [if_pos hi]
    have ad : (h.polyCopy p q).addr p i = h.addr p i := by
      unfold polyCopy setNTT addr
      simp only [Function.update_self, e]
    rw [ad]
    have : (h.polyCopy p q).row (h.addr p i) = (h.rowsOp (min (h.len p) (h.len q)) (fun _ r _ => r) q q p).row (h.addr p i) := rfl
    rw [this, rowsOp_row W _ hq hq hp (min_le_right _ _) (min_le_right _ _) (min_le_left _ _) hp (by omega), if_pos ⟨rfl, by omega⟩]
  · simp only [if_neg hi]

/-- **`GenPublicKey`** -/
theorem genPublicKey_heap (hn : 0 < C.nQ) {h : Heap N} (W : WF h) (gs : ℕ → Nega N ℤ) {K : HKG} {st : KG C} {crs : GoMap ℤ SwkObj}
    {CRS : GoMap ℤ (Swk C)} {sk : SkObj} {SK : SKey C} (hK : KGAt C h K st) (hcrs : CrsShows C K h crs CRS) (hs : SkShows C h sk SK) :
    Go.Rel (Out PkObj.polys (PkShows C) K h) (genPublicKey CRS gs st SK) (hGenPk C crs gs st.pos sk h) := by
  obtain ⟨g, e, n, z0, z1⟩ := newPublicKey_spec (C := C) W sk.id
  obtain ⟨h1, e1, S1, a1⟩ := hSample_run hn g.wf (gs st.pos) z0
  obtain ⟨h2, e2, S2, a2⟩ := hNTT_run hn S1.wf a1 a1 a1.ne
  have S := S1.trans S2
  have o2 : Only (⟨h.npoly, h.npoly + 1⟩ : QP).mem ∅ h h2 := (g.only.mono (Set.empty_subset _) subset_rfl).trans S.only
  unfold genPublicKey hGenPk
  dsimp only
  rw [e]
  show Go.Rel _ _ (hSample C (gs st.pos) ⟨h.npoly, h.npoly + 1⟩ _ >>= _)
  rw [e1]
  show Go.Rel _ _ (hNTT C _ _ h1 >>= _)
  rw [e2]
  show Go.Rel _ (CRS.deref 0 >>= _) (crs.deref 0 >>= _)
  refine Go.Rel.bind (hcrs.deref 0) fun A a _ _ r => ?_
  by_cases hl : A.len = 0
  · rw [if_pos hl, blk_none (by rw [r.1.1, hl])]; rfl
  · rw [if_neg hl]
    obtain ⟨v, ev, bv, qv⟩ := r.1.at (i := 0) (by omega)
    rw [bv]
    have lowv := shows_low r.1 v (List.mem_of_getElem? ev)
    have nm : ∀ x, x < h.npoly → x ∉ (⟨h.npoly, h.npoly + 1⟩ : QP).mem := by
      rintro x hx (rfl | rfl)
      · exact lt_irrefl _ hx
      · change h.npoly + 1 < h.npoly at hx; omega
    have qv2 := qv.keep o2 (nm _ lowv.1) (nm _ lowv.2)
    have hs2 := hs.2.keep o2 (nm _ hs.2.q) (nm _ hs.2.p)
    have z2 := S.apart z1 (show h.npoly + 2 ≠ h.npoly by omega) (show h.npoly + 2 ≠ h.npoly + 1 by omega) (show h.npoly + 3 ≠ h.npoly by omega)
      (show h.npoly + 3 ≠ h.npoly + 1 by omega)
    -- the two copies
    have T1 := polyCopy_step (q := v.q) S2.wf z2.q
    have c1 : v.p < (h2.polyCopy (h.npoly + 2) v.q).npoly := by rw [T1.npoly]; exact qv2.p
    have c2 : h.npoly + 3 < (h2.polyCopy (h.npoly + 2) v.q).npoly := by rw [T1.npoly]; exact z2.p
    have T2 := polyCopy_step (q := v.p) T1.wf c2
    have T := (T1.mono (Wp' := (⟨h.npoly + 2, h.npoly + 3⟩ : QP).mem) fun _ hx => Or.inl hx).trans (T2.mono fun _ hx => Or.inr hx)
    set h4 := (h2.polyCopy (h.npoly + 2) v.q).polyCopy (h.npoly + 3) v.p with hh4
    have y : QPAt C h4 ⟨h.npoly + 2, h.npoly + 3⟩ (setQP (C.nQ - 1) (A.val 0) PolyQP.zero) := by
      refine ⟨by rw [T.npoly]; exact z2.q, by rw [T.npoly]; exact z2.p, z2.ne, by rw [T.len]; exact z2.lenQ, by rw [T.len]; exact z2.lenP, ?_⟩
      unfold qpVal setQP
      congr 1
      · rw [T2.only.rowsOf (p := h.npoly + 2) (by rw [T1.npoly]; exact z2.q) (by show h.npoly + 2 ≠ h.npoly + 3; omega)]
        funext i
        rw [polyCopy_rows S2.wf z2.q qv2.q z2.lenQ qv2.lenQ, qv2.Q, z2.Q]
        unfold setQ
        by_cases hi : i < C.nQ
        · rw [if_pos hi, if_pos (by omega)]
        · rw [if_neg hi, if_neg (by omega)]
      · funext j
        rw [polyCopy_rows (n := C.nP) T1.wf c2 c1 (by rw [T1.len]; exact z2.lenP) (by rw [T1.len]; exact qv2.lenP),
          T1.only.rowsOf qv2.p (show v.p ≠ h.npoly + 2 by omega), T1.only.rowsOf z2.p (show h.npoly + 3 ≠ h.npoly + 2 by omega), qv2.P, z2.P]
        rfl
    have s4 := T.apart hs2 (show sk.value.q ≠ h.npoly + 2 by have := hs.2.q; omega) (show sk.value.q ≠ h.npoly + 3 by have := hs.2.q; omega)
      (show sk.value.p ≠ h.npoly + 2 by have := hs.2.p; omega) (show sk.value.p ≠ h.npoly + 3 by have := hs.2.p; omega)
    have a4 := T.apart a2 (show h.npoly ≠ h.npoly + 2 by omega) (show h.npoly ≠ h.npoly + 3 by omega) (show h.npoly + 1 ≠ h.npoly + 2 by omega)
      (show h.npoly + 1 ≠ h.npoly + 3 by omega)
    obtain ⟨h5, e5, S5, a5⟩ := hMulSub_run hn T.wf s4 y a4 (show sk.value.p ≠ h.npoly by have := hs.2.p; omega)
      (show h.npoly + 3 ≠ h.npoly by omega)
    show Go.Rel _ _ (hMulSub C sk.value ⟨h.npoly + 2, h.npoly + 3⟩ ⟨h.npoly, h.npoly + 1⟩ h4 >>= _)
    rw [e5]
    have y5 := S5.apart y (show h.npoly + 2 ≠ h.npoly by omega) (show h.npoly + 2 ≠ h.npoly + 1 by omega) (show h.npoly + 3 ≠ h.npoly by omega)
      (show h.npoly + 3 ≠ h.npoly + 1 by omega)
    have SS : KStep {x | h.npoly ≤ x} (newPublicKey C sk.id h).2 h5 := by
      refine (S.mono ?_).trans ((T.mono ?_).trans (S5.mono ?_)) <;>
      · rintro x (rfl | rfl)
        · simp
        · simp; try omega
    have R : Ran K h h5 := ran_of g SS (fun p hp hw => absurd (show h.npoly ≤ p from hw) (by omega))
    refine ⟨⟨hs.1, a5, y5⟩, rfl, KGAt.pos (st := st) ?_ rfl rfl, R, ?_, ?_⟩
    · exact (hK.keep g.only (by simp)).keep SS.only fun x hx hh => absurd (KGAt.low hK x hx) (not_lt.mpr hh)
    · simp [PkObj.polys, QP.polys]
    · show ∀ p ∈ PkObj.polys ⟨sk.id, ⟨h.npoly, h.npoly + 1⟩, ⟨h.npoly + 2, h.npoly + 3⟩⟩, h.npoly ≤ p ∧ p < h5.npoly
      rw [SS.npoly, n]
      intro p hp
      simp only [PkObj.polys, QP.polys, List.mem_cons, List.cons_append, List.nil_append, List.not_mem_nil, or_false] at hp
      omega

theorem Ran.step {K : HKG} {h h1 h2 : Heap N} (R : Ran K h h1) {Wp : Set ℕ} (S : KStep Wp h1 h2) (hW : ∀ p < h.npoly, p ∈ Wp → p ∈ K.mem) : Ran K h h2 :=
  ⟨S.wf, R.only.trans' S.only hW (fun _ _ hc => hc), S.nct.trans R.nct⟩

theorem Ran.grow {K : HKG} {h h1 h2 : Heap N} (R : Ran K h h1) (g : Grow h1 h2) : Ran K h h2 :=
  ⟨g.wf, R.only.trans' g.only (fun p _ hp => absurd hp (Set.notMem_empty p)) (fun _ _ hc => hc), g.nct.trans R.nct⟩

theorem Ran.refl {K : HKG} {h : Heap N} (W : WF h) : Ran K h h := ⟨W, Only.refl _ _ _, rfl⟩

theorem Ran.sk {K : HKG} {h h1 : Heap N} (R : Ran K h h1) {v : QP} {X : PolyQP C} (a : QPAt C h v X) (ap : Apart K v) : QPAt C h1 v X :=
  a.keep R.only ap.1 ap.2

theorem Ran.swk {K : HKG} {h h1 : Heap N} (R : Ran K h h1) {s : SwkObj} {X : Swk C} (a : SwkShows C h s X) (ap : ∀ v ∈ s, Apart K v) :
    SwkShows C h1 s X := a.keep R.only ap

/-- a loop over the blocks of a key at `n` that reads blocks of an older key and an older secret key -/
theorem blocks_sim {K : HKG} {h h1 : Heap N} (R : Ran K h h1) {n : ℕ} (hle : h.npoly ≤ n) {a : SwkObj} {A S : Swk C} (hS : SwkAt C h1 n S)
    (hA : SwkShows C h a A) (ha : ∀ v ∈ a, Apart K v) {s : QP} {X : PolyQP C} (hs : QPAt C h1 s X) (slow : s.q < n ∧ s.p < n)
    {f : PolyQP C → PolyQP C → PolyQP C} {hf : QP → QP → Heap N → Go (Heap N)}
    (body : ∀ h x v X' D, WF h → QPAt C h s X → QPAt C h x X' → QPAt C h v D → x.p ≠ v.q → s.p ≠ v.q →
      ∃ h', hf x v h = .ok h' ∧ KStep v.mem h h' ∧ QPAt C h' v (f X' D)) :
    Go.Rel (fun S' h' => SwkAt C h' n S' ∧ KStep (span C n) h1 h') (mapBlocks f A S) (hBlocks C hf a (swkObj n (C.beta (C.nQ - 1))) h1) :=
  hBlocks_sim R.wf hS (R.swk hA ha) (fun v hv => by have := shows_low hA v hv; omega) (fun hh => QPAt C hh s X)
    (fun _ _ hp hT => hT.qp hp (fun hx => by have := hx.1; omega) (fun hx => by have := hx.1; omega)) hs
    (fun hh x v X' D Wh hp hx hv l1 l2 l3 l4 => body hh x v X' D Wh hp hx hv (by omega) (by omega))

/-- the key generator's scratch space survives writes to a new key -/
theorem kg_span {K : HKG} {h h1 : Heap N} {st : KG C} (a : KGAt C h K st) {n : ℕ} (low : ∀ x ∈ K.mem, x < n) (S : KStep (span C n) h h1) :
    KGAt C h1 K st := a.keep S.only fun x hx hh => by have := low x hx; have := hh.1; omega

theorem mem_span_or {K : HKG} {n m p : ℕ} (hle : m ≤ n) (hp : p < m) (hw : p ∈ K.mem ∪ span C n) : p ∈ K.mem := by
  rcases hw with hw | hw
  · exact hw
  · have := hw.1; omega

/-- **`GenConjugationKey`** -/
theorem genConjugationKey_heap (hn : 0 < C.nQ) {h : Heap N} (W : WF h) (gs : ℕ → Nega N ℤ) {K : HKG} {st : KG C} {crs : GoMap ℤ SwkObj}
    {CRS : GoMap ℤ (Swk C)} {sk : SkObj} {SK : SKey C} (hK : KGAt C h K st) (hcrs : CrsShows C K h crs CRS) (hs : SkShows C h sk SK)
    (hap : Apart K sk.value) :
    Go.Rel (Out GalObj.polys (GalShows C) K h) (genConjugationKey CRS gs st SK) (hGenConj C crs gs K st.pos sk h) := by
  obtain ⟨g, e, n, z⟩ := newQP_spec (C := C) W
  have s1 := hs.2.keep g.only (by simp) (by simp)
  rw [e] at z
  obtain ⟨h1, e1, S1, a1⟩ := hPerm_run hn g.wf (galElRow N) s1 z (show sk.value.p ≠ h.npoly by have := hs.2.p; omega)
  obtain ⟨g2, e2, n2, z2⟩ := newSwitchingKey_spec (C := C) S1.wf
  rw [S1.npoly, n] at e2 n2 z2
  have low : ∀ x ∈ K.mem, x < h.npoly := KGAt.low hK
  have R1 : Ran K h h1 := ((Ran.refl W).grow g).step S1 (by
    rintro p hp (rfl | rfl)
    · exact absurd hp (lt_irrefl _)
    · exact absurd hp (show ¬ h.npoly + 1 < h.npoly by omega))
  have R2 := R1.grow g2
  set h2 := (newSwitchingKey C h1).2 with hh2
  have K2 : KGAt C h2 K st := ((hK.keep g.only (by simp)).keep S1.only (by
    rintro x hx (rfl | rfl)
    · exact absurd (low _ hx) (lt_irrefl _)
    · exact absurd (low _ hx) (show ¬ h.npoly + 1 < h.npoly by omega))).keep g2.only (by simp)
  have so2 : QPAt C h2 ⟨h.npoly, h.npoly + 1⟩ (permKey (galElRow N) SK).value := a1.keep g2.only (by simp) (by simp)
  have low2 : ∀ x ∈ K.mem, x < h.npoly + 2 := fun x hx => by have := low x hx; omega
  obtain ⟨S', st', h3, ev, eh, A3, K3, S3⟩ := hGenSwk_sim hn g2.wf gs (sk := ⟨sk.id, ⟨h.npoly, h.npoly + 1⟩⟩) (SK := permKey (galElRow N) SK)
    K2 so2 z2 low2
  have R3 := R2.step S3 (fun p hp hw => mem_span_or (by omega) hp hw)
  unfold genConjugationKey hGenConj
  dsimp only [newSecretKey, newConjugationKey]
  rw [e, e1]
  show Go.Rel _ _ (hGenSwk C gs K st.pos ⟨sk.id, ⟨h.npoly, h.npoly + 1⟩⟩ (newSwitchingKey C h1).1 h2 >>= _)
  rw [e2, eh, ev]
  show Go.Rel _ (CRS.deref (-2) >>= _) (crs.deref (-2) >>= _)
  refine Go.Rel.bind (hcrs.deref (-2)) fun A a _ _ r => ?_
  have slow : sk.value.q < h.npoly + 2 ∧ sk.value.p < h.npoly + 2 := by have := hs.2.q; have := hs.2.p; omega
  refine Go.Rel.bind (blocks_sim R3 (by omega) A3 r.1 r.2 (R3.sk hs.2 hap) slow
    (fun hh x v X' D Wh hp hx hv l1 l2 => hMulSub_run hn Wh hx hp hv l1 l2)) fun S4 h4 _ _ r4 => ?_
  have R4 := R3.step r4.2 (fun p hp hw => mem_span_or (K := K) (by omega) hp (Or.inr hw))
  refine ⟨⟨hs.1, rfl, r4.1.shows⟩, rfl, kg_span K3 low2 r4.2, R4, ?_⟩
  show Fresh h h4 (SwkObj.polys (swkObj (h.npoly + 2) _))
  rw [polys_swkObj]
  exact fresh_range (by omega) (by rw [r4.2.npoly, S3.npoly, n2])

/-- **`GenRotationKey`** -/
theorem genRotationKey_heap (hn : 0 < C.nQ) {h : Heap N} (W : WF h) (gs : ℕ → Nega N ℤ) {K : HKG} {st : KG C} {crs : GoMap ℤ SwkObj}
    {CRS : GoMap ℤ (Swk C)} (rotidx : ℤ) {sk : SkObj} {SK : SKey C} (hK : KGAt C h K st) (hcrs : CrsShows C K h crs CRS) (hs : SkShows C h sk SK)
    (hap : Apart K sk.value) :
    Go.Rel (Out GalObj.polys (GalShows C) K h) (genRotationKey CRS gs st rotidx SK) (hGenRot C crs gs K st.pos rotidx sk h) := by
  have hnone : (crs.lookup rotidx).isNone = (CRS.lookup rotidx).isNone := by
    rcases hcrs rotidx with ⟨e1, e2⟩ | ⟨s, S, e1, e2, -⟩ <;> rw [e1, e2] <;> rfl
  obtain ⟨g, e, n, z⟩ := newQP_spec (C := C) W
  have s1 := hs.2.keep g.only (by simp) (by simp)
  rw [e] at z
  unfold genRotationKey hGenRot
  dsimp only [newSecretKey, newRotationKey]
  rw [hnone]
  by_cases hno : (CRS.lookup rotidx).isNone = true
  · rw [if_pos hno, if_pos hno]; rfl
  rw [if_neg hno, if_neg hno]
  obtain ⟨h1, e1, S1, a1⟩ := hPerm_run hn g.wf (galElInv N (galElCol N (adjustIdx N rotidx).toNat)) s1 z
    (show sk.value.p ≠ h.npoly by have := hs.2.p; omega)
  obtain ⟨g2, e2, n2, z2⟩ := newSwitchingKey_spec (C := C) S1.wf
  rw [S1.npoly, n] at e2 n2 z2
  have low : ∀ x ∈ K.mem, x < h.npoly := KGAt.low hK
  have R1 : Ran K h h1 := ((Ran.refl W).grow g).step S1 (by
    rintro p hp (rfl | rfl)
    · exact absurd hp (lt_irrefl _)
    · exact absurd hp (show ¬ h.npoly + 1 < h.npoly by omega))
  have R2 := R1.grow g2
  set h2 := (newSwitchingKey C h1).2 with hh2
  have K2 : KGAt C h2 K st := ((hK.keep g.only (by simp)).keep S1.only (by
    rintro x hx (rfl | rfl)
    · exact absurd (low _ hx) (lt_irrefl _)
    · exact absurd (low _ hx) (show ¬ h.npoly + 1 < h.npoly by omega))).keep g2.only (by simp)
  have so2 := a1.keep g2.only (by simp) (by simp)
  have low2 : ∀ x ∈ K.mem, x < h.npoly + 2 := fun x hx => by have := low x hx; omega
  obtain ⟨S', st', h3, ev, eh, A3, K3, S3⟩ := hGenSwk_sim hn g2.wf gs K2 (R2.sk hs.2 hap) z2 low2
  have R3 := R2.step S3 (fun p hp hw => mem_span_or (by omega) hp hw)
  rw [e, e1]
  show Go.Rel _ _ (hGenSwk C gs K st.pos sk (newSwitchingKey C h1).1 h2 >>= _)
  rw [e2, eh, ev]
  show Go.Rel _ (CRS.deref _ >>= _) (crs.deref _ >>= _)
  refine Go.Rel.bind (hcrs.deref _) fun A a _ _ r => ?_
  have so3 := S3.qp so2 (by rintro (hx | hx); exacts [absurd (low _ hx) (lt_irrefl _), absurd hx.1 (show ¬ h.npoly + 2 ≤ h.npoly by omega)])
    (by rintro (hx | hx); exacts [absurd (low _ hx) (show ¬ h.npoly + 1 < h.npoly by omega), absurd hx.1 (show ¬ h.npoly + 2 ≤ h.npoly + 1 by omega)])
  refine Go.Rel.bind (blocks_sim R3 (by omega) A3 r.1 r.2 so3 ⟨show h.npoly < h.npoly + 2 by omega, show h.npoly + 1 < h.npoly + 2 by omega⟩
    (fun hh x v X' D Wh hp hx hv l1 l2 => hMulSub_run hn Wh hx hp hv l1 l2)) fun S4 h4 _ _ r4 => ?_
  have R4 := R3.step r4.2 (fun p hp hw => mem_span_or (K := K) (by omega) hp (Or.inr hw))
  refine ⟨⟨hs.1, rfl, r4.1.shows⟩, rfl, kg_span K3 low2 r4.2, R4, ?_⟩
  show Fresh h h4 (SwkObj.polys (swkObj (h.npoly + 2) _))
  rw [polys_swkObj]
  exact fresh_range (by omega) (by rw [r4.2.npoly, S3.npoly, n2])

/-- an older PolyQP is separate from the blocks of a key at `n` -/
theorem sk_span {h1 h2 : Heap N} {v : QP} {X : PolyQP C} (a : QPAt C h1 v X) {n : ℕ} (h : v.q < n ∧ v.p < n) (S : KStep (span C n) h1 h2) :
    QPAt C h2 v X := S.qp a (fun hx => by have := hx.1; omega) (fun hx => by have := hx.1; omega)

/-- **`GenRelinearizationKey`** (mkrlwe, used by CKKS); `sk` and `r` may be the same object -/
theorem genRelinearizationKey_heap (hn : 0 < C.nQ) {h : Heap N} (W : WF h) (gs : ℕ → Nega N ℤ) {K : HKG} {st : KG C} {crs : GoMap ℤ SwkObj}
    {CRS : GoMap ℤ (Swk C)} {sk r : SkObj} {SK R' : SKey C} (hK : KGAt C h K st) (hcrs : CrsShows C K h crs CRS) (hs : SkShows C h sk SK)
    (hap : Apart K sk.value) (hr : SkShows C h r R') (har : Apart K r.value) :
    Go.Rel (Out RlkObj.polys (RlkShows C) K h) (genRelinearizationKey CRS gs st SK R') (hGenRlk C crs gs K st.pos sk r h) := by
  unfold genRelinearizationKey hGenRlk
  by_cases hP : C.nP = 0
  · rw [if_pos hP, if_pos hP]; rfl
  rw [if_neg hP, if_neg hP]
  obtain ⟨g, e, n, z0, z1, z2⟩ := newRelinearizationKey_spec (C := C) W sk.id
  have low : ∀ x ∈ K.mem, x < h.npoly := KGAt.low hK
  have sl : sk.value.q < h.npoly ∧ sk.value.p < h.npoly := ⟨hs.2.q, hs.2.p⟩
  have rl : r.value.q < h.npoly ∧ r.value.p < h.npoly := ⟨hr.2.q, hr.2.p⟩
  dsimp only
  rw [e]
  set h0 := (newRelinearizationKey C sk.id h).2 with hh0
  set β := C.beta (C.nQ - 1) with hβ
  have R0 : Ran K h h0 := (Ran.refl W).grow g
  have K0 : KGAt C h0 K st := hK.keep g.only (by simp)
  refine Go.Rel.bind (hcrs.deref 0) fun A a _ _ ra => ?_
  -- the vector b
  have loopB : Go.Rel (fun (w : Swk C × KG C) (s : ℕ × Heap N) => s.1 = w.2.pos ∧ SwkAt C s.2 h.npoly w.1 ∧ KGAt C s.2 K w.2 ∧
      KStep (K.mem ∪ span C h.npoly) h0 s.2)
      (Go.loop (fun (w : Swk C × KG C) i =>
        if A.len ≤ i ∨ w.1.len ≤ i then .error .indexOutOfRange
        else
          let tmp := genGaussianError gs w.2.pos w.2.poolQP
          .ok (⟨w.1.len, Function.update w.1.val i (relinB SK (A.val i) tmp (w.1.val i))⟩, { w.2 with pos := w.2.pos + 1, poolQP := tmp }))
        (Swk.new, st) (List.range β))
      (Go.loop (fun (s : ℕ × Heap N) i => do
        let x ← blk a i
        let v ← blk (swkObj h.npoly β) i
        let h ← hRelinB C (gs s.1) sk x K.poolQP v s.2
        .ok (s.1 + 1, h)) (st.pos, h0) (List.range β)) := by
    refine Go.Rel.loop _ ⟨rfl, z0, K0, KStep.refl g.wf⟩ ?_
    rintro ⟨S1, st1⟩ ⟨pos, h1⟩ ⟨p1, a1, k1, t1⟩ i hi
    dsimp only at p1 a1 k1 t1
    subst p1
    rw [List.mem_range] at hi
    dsimp only
    have R1 := R0.step t1 (fun p hp hw => mem_span_or le_rfl hp hw)
    by_cases hl : A.len ≤ i
    · rw [if_pos (Or.inl hl), blk_none (by rw [ra.1.1]; exact hl)]; rfl
    · rw [if_neg (by rw [a1.1]; omega)]
      obtain ⟨x, ex, bx, qx⟩ := ra.1.at (not_le.mp hl)
      have xl := shows_low ra.1 x (List.mem_of_getElem? ex)
      have tl1 : K.poolQP.q < h.npoly := low _ (Or.inr (Or.inl rfl))
      have tl2 : K.poolQP.p < h.npoly := low _ (Or.inr (Or.inr rfl))
      obtain ⟨h2, e2, S2, b2, tmp2⟩ := hRelinB_run hn t1.wf gs st1.pos (R1.sk hs.2 hap) (R1.sk qx (ra.2 x (List.mem_of_getElem? ex))) k1.qp
        (a1.2 i hi) (show sk.value.p ≠ h.npoly + 2 * i by omega) (show x.p ≠ h.npoly + 2 * i by omega)
        (show K.poolQP.q ≠ h.npoly + 2 * i by omega) (show K.poolQP.q ≠ h.npoly + 2 * i + 1 by omega)
        (show K.poolQP.p ≠ h.npoly + 2 * i by omega) (show K.poolQP.p ≠ h.npoly + 2 * i + 1 by omega)
      rw [bx]
      show Go.Rel _ _ (blk (swkObj h.npoly β) i >>= _)
      rw [blk_swkObj hi]
      show Go.Rel _ _ (hRelinB C (gs st1.pos) sk x K.poolQP _ h1 >>= _)
      rw [e2]
      refine ⟨rfl, a1.update hi S2 ?_ b2, ?_, t1.trans (S2.mono ?_)⟩
      · rintro y hy (hm | hm)
        · exact hm
        · have := hy.1
          rcases hm with rfl | rfl <;> omega
      · refine ⟨k1.lt.trans_le S2.only.npoly, by rw [S2.len]; exact k1.len, ?_, tmp2, k1.neQ, k1.neP⟩
        rw [S2.only.rowsOf k1.lt]
        · exact k1.rows
        · have h0 := low K.poolQ (Or.inl rfl)
          rintro (hm | hm)
          · rcases hm with hm | hm
            · change K.poolQ = h.npoly + 2 * i at hm; omega
            · change K.poolQ = h.npoly + 2 * i + 1 at hm; omega
          · rcases hm with hm | hm
            · exact k1.neQ hm
            · exact k1.neP hm
      · rintro y (hm | hm)
        · exact Or.inr (mem_span hi hm)
        · exact Or.inl (Or.inr hm)
  refine Go.Rel.bind loopB fun wb sb _ _ rb => ?_
  obtain ⟨bb, stb⟩ := wb
  obtain ⟨pb, hb⟩ := sb
  obtain ⟨rb1, rb2, rb3, rb4⟩ := rb
  dsimp only at rb1 rb2 rb3 rb4
  subst rb1
  have Rb := R0.step rb4 (fun p hp hw => mem_span_or le_rfl hp hw)
  have disj : ∀ {n' m' : ℕ}, h.npoly ≤ m' → (n' + 2 * β ≤ m' ∨ m' + 2 * β ≤ n') → ∀ x, m' ≤ x → x < m' + 2 * C.beta (C.nQ - 1) → x ∉ K.mem ∪ span C n' := by
    rintro n' m' hm hd x h1 h2 (hx | hx)
    · have := low x hx; omega
    · have := hx.1
      have := hx.2
      omega
  have d1 := z1.keep rb4.only (disj (by omega) (Or.inl (by omega)))
  have v1 := z2.keep rb4.only (disj (by omega) (Or.inl (by omega)))
  -- the vector d
  obtain ⟨Sd, std, hd, ed, ehd, Ad, Kd, Td⟩ := hGenSwk_sim hn Rb.wf gs rb3 (Rb.sk hs.2 hap) d1 (fun x hx => by have := low x hx; omega)
  have Rd := Rb.step Td (fun p hp hw => mem_span_or (by omega) hp hw)
  have b2 := rb2.keep Td.only (disj le_rfl (Or.inr (by omega)))
  have v2 := v1.keep Td.only (disj (by omega) (Or.inl (by omega)))
  show Go.Rel _ (genSwitchingKey gs stb SK Swk.new >>= _) (hGenSwk C gs K stb.pos sk _ hb >>= _)
  rw [ed, ehd]
  show Go.Rel _ (mapBlocks _ A Sd >>= _) (hBlocks C _ a _ hd >>= _)
  refine Go.Rel.bind (blocks_sim Rd (n := h.npoly + 2 * β) (by omega) Ad ra.1 ra.2 (Rd.sk hr.2 har) (by omega)
    (fun hh x v X' D Wh hp hx hv l1 l2 => hMulSub_run hn Wh hx hp hv l1 l2)) fun S3 h3 _ _ r3 => ?_
  have R3 := Rd.step r3.2 (fun p hp hw => mem_span_or (K := K) (by omega) hp (Or.inr hw))
  have T3 := r3.2.mono (Wp' := K.mem ∪ span C (h.npoly + 2 * β)) fun _ hx => Or.inr hx
  have K3 := kg_span Kd (fun x hx => by have := low x hx; omega) r3.2
  have b3 := b2.keep T3.only (disj le_rfl (Or.inr (by omega)))
  have v3 := v2.keep T3.only (disj (by omega) (Or.inl (by omega)))
  -- the vector v
  obtain ⟨Sv, stv, hv, ev, ehv, Av, Kv, Tv⟩ := hGenSwk_sim hn R3.wf gs K3 (R3.sk hr.2 har) v3 (fun x hx => by have := low x hx; omega)
  have Rv := R3.step Tv (fun p hp hw => mem_span_or (by omega) hp hw)
  have b4 := b3.keep Tv.only (disj le_rfl (Or.inr (by omega)))
  have d4 := r3.1.keep Tv.only (disj (by omega) (Or.inr (by omega)))
  show Go.Rel _ (genSwitchingKey gs std R' Swk.new >>= _) (hGenSwk C gs K std.pos r _ h3 >>= _)
  rw [ev, ehv]
  show Go.Rel _ (CRS.deref (-1) >>= _) (crs.deref (-1) >>= _)
  refine Go.Rel.bind (hcrs.deref (-1)) fun U u _ _ ru => ?_
  refine Go.Rel.bind (blocks_sim Rv (n := h.npoly + 4 * β) (by omega) Av ru.1 ru.2 (Rv.sk hs.2 hap) (by omega)
    (fun hh x v X' D Wh hp hx hv l1 l2 => hRelinV_run hn Wh hp hx hv l2 l1)) fun S5 h5 _ _ r5 => ?_
  have T5 := r5.2.mono (Wp' := K.mem ∪ span C (h.npoly + 4 * β)) fun _ hx => Or.inr hx
  have b5 := b4.keep T5.only (disj le_rfl (Or.inr (by omega)))
  have d5 := d4.keep T5.only (disj (by omega) (Or.inr (by omega)))
  refine ⟨⟨hs.1, b5.shows, d5.shows, r5.1.shows⟩, rfl, kg_span Kv (fun x hx => by have := low x hx; omega) r5.2,
    Rv.step T5 (fun p hp hw => mem_span_or (by omega) hp hw), ?_⟩
  show Fresh h h5 (RlkObj.polys ⟨sk.id, swkObj h.npoly β, swkObj (h.npoly + 2 * β) β, swkObj (h.npoly + 4 * β) β⟩)
  rw [polys_rlkObj]
  exact fresh_range le_rfl (by rw [T5.npoly, Tv.npoly, T3.npoly, Td.npoly, rb4.npoly, n])

end C70
end MKHE
