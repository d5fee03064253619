import Verif.Props.HeapKeyGen
import Verif.Props.BfvKeyGen

set_option autoImplicit false

/-!
# C70: the relinearization keys of BFV
-/

namespace MKHE
namespace C70
open Heap
variable {N : ℕ} [NeZero N] {C : Ctx N}

/-- a computation that writes to `Wp` and may allocate -/
structure Walk (Wp : Set ℕ) (h h' : Heap N) : Prop where
  wf : WF h'
  only : Only Wp ∅ h h'
  nct : h'.nct = h.nct

theorem Walk.refl {Wp : Set ℕ} {h : Heap N} (W : WF h) : Walk Wp h h := ⟨W, Only.refl _ _ _, rfl⟩

theorem Walk.trans {Wp : Set ℕ} {h h1 h2 : Heap N} (a : Walk Wp h h1) (b : Walk Wp h1 h2) : Walk Wp h h2 :=
  ⟨b.wf, a.only.trans b.only, b.nct.trans a.nct⟩

theorem Walk.mono {Wp Wp' : Set ℕ} {h h' : Heap N} (a : Walk Wp h h') (s : Wp ⊆ Wp') : Walk Wp' h h' := ⟨a.wf, a.only.mono s subset_rfl, a.nct⟩

theorem step_walk {Wp : Set ℕ} {h h' : Heap N} (a : KStep Wp h h') : Walk Wp h h' := ⟨a.wf, a.only, a.nct⟩

theorem grow_walk {Wp : Set ℕ} {h h' : Heap N} (a : Grow h h') : Walk Wp h h' := ⟨a.wf, a.only.mono (Set.empty_subset _) subset_rfl, a.nct⟩

/-- writes to memory that did not exist at the start do not count -/
theorem Walk.step {Wp Wp' : Set ℕ} {h h1 h2 : Heap N} (a : Walk Wp h h1) (b : KStep Wp' h1 h2) (hW : ∀ p < h.npoly, p ∈ Wp' → p ∈ Wp) : Walk Wp h h2 :=
  ⟨b.wf, a.only.trans' b.only hW (fun _ _ hc => hc), b.nct.trans a.nct⟩

theorem Ran.walk {K : HKG} {Wp : Set ℕ} {h h1 h2 : Heap N} (R : Ran K h h1) (S : Walk Wp h1 h2) (hW : ∀ p < h.npoly, p ∈ Wp → p ∈ K.mem) : Ran K h h2 :=
  ⟨S.wf, R.only.trans' S.only hW (fun _ _ hc => hc), S.nct.trans R.nct⟩

/-- one block of `GenBFVSwitchingKey` -/
theorem hBfvBlock_run {B : BCtx N} (hn : 0 < B.C.nQ) {h : Heap N} (W : WF h) (gs : ℕ → Nega N ℤ) (pos G : ℕ) {sk : SkObj} {SK : SKey B.C} {v : QP}
    {D : PolyQP B.C} (hs : QPAt B.C h sk.value SK.value) (hv : QPAt B.C h v D) (ns : sk.value.p ≠ v.q) :
    ∃ h', hBfvBlock B.C (gs pos) sk G v h = .ok h' ∧ Walk v.mem h h' ∧
      QPAt B.C h' v (genBfvBlock SK G (genGaussianError gs pos PolyQP.zero) D) := by
  obtain ⟨h1, e1, S1, v1⟩ := hInvMForm_run hn W hs hv ns
  obtain ⟨h2, e2, S2, v2⟩ := hMulScalar_run hn S1.wf G v1
  obtain ⟨g, eq, nq, z⟩ := newQP_spec (C := B.C) S2.wf
  have z' := z
  rw [eq] at z'
  obtain ⟨h3, e3, S3, z3⟩ := hGenErr_run hn g.wf gs pos z
  have vq : v.q < h2.npoly := v2.q
  have vp : v.p < h2.npoly := v2.p
  have v2' := v2.keep g.only (by simp) (by simp)
  have v3 := S3.apart v2' (by rw [eq]; show v.q ≠ h2.npoly; omega) (by rw [eq]; show v.q ≠ h2.npoly + 1; omega)
    (by rw [eq]; show v.p ≠ h2.npoly; omega) (by rw [eq]; show v.p ≠ h2.npoly + 1; omega)
  obtain ⟨h4, e4, S4, v4⟩ := hAdd_run hn S3.wf v3 z3 v3 v3.ne (by rw [eq]; show h2.npoly + 1 ≠ v.q; omega)
  obtain ⟨h5, e5, S5, v5⟩ := hMForm_run hn S4.wf v4 v4 v4.ne
  refine ⟨h5, ?_, ?_, v5⟩
  · unfold hBfvBlock
    rw [e1]
    show (hMulScalar B.C G v h1 >>= _) = _
    rw [e2]
    show (hGenErr B.C (gs pos) (newQP B.C h2).1 (newQP B.C h2).2 >>= _) = _
    rw [e3]
    show (hAdd B.C v _ v h3 >>= _) = _
    rw [e4]
    exact e5
  · have w2 : Walk v.mem h h2 := step_walk (S1.trans S2)
    have w3 : Walk v.mem h h3 := (w2.trans (grow_walk g)).step S3 (by
      have := S1.npoly
      have := S2.npoly
      rw [eq]
      rintro p hp (rfl | rfl)
      · exact absurd hp (show ¬ h2.npoly < h.npoly by omega)
      · exact absurd hp (show ¬ h2.npoly + 1 < h.npoly by omega))
    exact w3.trans (step_walk (S4.trans S5))

/-- block `i` of the key was rewritten, and memory may have been allocated -/
theorem update_walk {h h' : Heap N} {n : ℕ} {S : Swk C} (a : SwkAt C h n S) {i : ℕ} (hi : i < C.beta (C.nQ - 1)) {Wp : Set ℕ}
    (T : Walk Wp h h') (hW : ∀ x ∈ span C n, x ∈ Wp → x = n + 2 * i ∨ x = n + 2 * i + 1) {D : PolyQP C}
    (hD : QPAt C h' ⟨n + 2 * i, n + 2 * i + 1⟩ D) : SwkAt C h' n ⟨S.len, Function.update S.val i D⟩ := by
  refine ⟨a.1, fun k hk => ?_⟩
  show QPAt C h' _ (Function.update S.val i D k)
  by_cases hki : k = i
  · subst hki; rw [Function.update_self]; exact hD
  · rw [Function.update_of_ne hki]
    have hm : ∀ x ∈ (⟨n + 2 * k, n + 2 * k + 1⟩ : QP).mem, x ∉ Wp := by
      intro x hx hw
      have h1 := hW x (mem_span hk hx) hw
      rcases hx with rfl | rfl
      · change n + 2 * k = _ ∨ n + 2 * k = _ at h1; omega
      · change n + 2 * k + 1 = _ ∨ n + 2 * k + 1 = _ at h1; omega
    exact (a.2 k hk).keep T.only (hm _ (Or.inl rfl)) (hm _ (Or.inr rfl))

/-- one half of `GenBFVSwitchingKey` -/
theorem hBfvHalf_sim {B : BCtx N} (hn : 0 < B.C.nQ) {h : Heap N} (W : WF h) (mods : ℕ → ℕ) (gs : ℕ → Nega N ℤ) {K : HKG} {st : KG B.C} {sk : SkObj}
    {SK : SKey B.C} {n : ℕ} {S : Swk B.C} (hK : KGAt B.C h K st) (hs : QPAt B.C h sk.value SK.value) (hS : SwkAt B.C h n S) (hlow : ∀ x ∈ K.mem, x < n)
    (sl : sk.value.q < n ∧ sk.value.p < n) :
    Go.Rel (fun (w : Swk B.C × KG B.C) (s : ℕ × Heap N) => s.1 = w.2.pos ∧ SwkAt B.C s.2 n w.1 ∧ KGAt B.C s.2 K w.2 ∧ Walk (span B.C n) h s.2)
      (genBfvHalf mods gs SK S st) (hBfvHalf B mods gs sk (swkObj n (B.C.beta (B.C.nQ - 1))) st.pos h) := by
  unfold genBfvHalf hBfvHalf
  refine Go.Rel.loop _ ⟨rfl, hS, hK, Walk.refl W⟩ ?_
  rintro ⟨S1, st1⟩ ⟨pos, h1⟩ ⟨p1, a1, k1, t1⟩ i hi
  dsimp only at p1 a1 k1 t1
  subst p1
  rw [List.mem_range] at hi
  refine Go.Rel.bind (Go.Rel.of_eq rfl) fun m m' _ _ em => ?_
  subst em
  dsimp only
  rw [if_neg (by rw [a1.1]; omega), blk_swkObj hi]
  have s1 := hs.keep t1.only (fun hx => by have := hx.1; omega) (fun hx => by have := hx.1; omega)
  obtain ⟨h2, e2, T2, v2⟩ := hBfvBlock_run hn t1.wf gs st1.pos (gadgetInt B m) s1 (a1.2 i hi) (show sk.value.p ≠ n + 2 * i by omega)
  show Go.Rel _ _ (hBfvBlock B.C (gs st1.pos) sk (gadgetInt B m) _ h1 >>= _)
  rw [e2]
  refine ⟨rfl, update_walk a1 hi T2 (fun y _ hy => hy) v2, ?_, t1.trans (T2.mono (mem_span hi))⟩
  refine KGAt.pos (st := st1) (k1.keep T2.only fun x hx hw => ?_) rfl rfl
  have h1 := hlow x hx
  have h2 := (mem_span hi hw).1
  omega

/-- the loop over the blocks of `d1` and `d2` -/
theorem hBlocks2_sim {h : Heap N} (W : WF h) {n1 n2 : ℕ} (hd : n1 + 2 * C.beta (C.nQ - 1) ≤ n2) {a1 a2 : SwkObj} {A1 A2 S1 S2 : Swk C}
    (hS1 : SwkAt C h n1 S1) (hS2 : SwkAt C h n2 S2) (hA1 : SwkShows C h a1 A1) (hA2 : SwkShows C h a2 A2)
    (l1 : ∀ v ∈ a1, v.q < n1 ∧ v.p < n1) (l2 : ∀ v ∈ a2, v.q < n1 ∧ v.p < n1) (b1 : C.beta (C.nQ - 1) ≤ A1.len) (b2 : C.beta (C.nQ - 1) ≤ A2.len)
    {s : QP} {X : PolyQP C} (hs : QPAt C h s X) (sl : s.q < n1 ∧ s.p < n1)
    {f : PolyQP C → PolyQP C → PolyQP C} {hf : QP → QP → Heap N → Go (Heap N)}
    (body : ∀ h x v X' D, WF h → QPAt C h s X → QPAt C h x X' → QPAt C h v D → x.p ≠ v.q → s.p ≠ v.q →
      ∃ h', hf x v h = .ok h' ∧ KStep v.mem h h' ∧ QPAt C h' v (f X' D)) :
    ∃ D1 D2 h', mapBlocks f A1 S1 = .ok D1 ∧ mapBlocks f A2 S2 = .ok D2 ∧
      hBlocks2 C hf a1 (swkObj n1 (C.beta (C.nQ - 1))) a2 (swkObj n2 (C.beta (C.nQ - 1))) h = .ok h' ∧
      SwkAt C h' n1 D1 ∧ SwkAt C h' n2 D2 ∧ KStep (span C n1 ∪ span C n2) h h' := by
  obtain ⟨D1, e1, m1, v1⟩ := mapBlocks_ok f (swk := S1) b1 (by rw [hS1.1])
  obtain ⟨D2, e2, m2, v2⟩ := mapBlocks_ok f (swk := S2) b2 (by rw [hS2.1])
  set β := C.beta (C.nQ - 1) with hβ
  unfold hBlocks2
  obtain ⟨h', eh, k1, k2, k3⟩ := Go.loop_inv (fun (h : Heap N) i => do
      let x1 ← blk a1 i
      let v1 ← blk (swkObj n1 β) i
      let h ← hf x1 v1 h
      let x2 ← blk a2 i
      let v2 ← blk (swkObj n2 β) i
      hf x2 v2 h)
    (fun pre g => (∀ i < β, QPAt C g ⟨n1 + 2 * i, n1 + 2 * i + 1⟩ (if i ∈ pre then f (A1.val i) (S1.val i) else S1.val i)) ∧
      (∀ i < β, QPAt C g ⟨n2 + 2 * i, n2 + 2 * i + 1⟩ (if i ∈ pre then f (A2.val i) (S2.val i) else S2.val i)) ∧
      KStep (span C n1 ∪ span C n2) h g) (List.range β) h
    ⟨fun i hi => by simpa using hS1.2 i hi, fun i hi => by simpa using hS2.2 i hi, KStep.refl W⟩ (by
      rintro pre i suf g hl ⟨i1, i2, i3⟩
      have hi : i < β := List.mem_range.mp (by rw [hl]; simp)
      have hpre : i ∉ pre := nodup_split List.nodup_range hl
      obtain ⟨x1, ex1, bx1, q1⟩ := hA1.at (i := i) (by omega)
      obtain ⟨x2, ex2, bx2, q2⟩ := hA2.at (i := i) (by omega)
      have p1 := l1 x1 (List.mem_of_getElem? ex1)
      have p2 := l2 x2 (List.mem_of_getElem? ex2)
      have out : ∀ {y : ℕ}, y < n1 → y ∉ span C n1 ∪ span C n2 := by
        rintro y hy (hh | hh)
        · have := hh.1; omega
        · have := hh.1; omega
      have w1 := i1 i hi
      have w2 := i2 i hi
      rw [if_neg hpre] at w1 w2
      obtain ⟨g1, f1, T1, y1⟩ := body g x1 ⟨n1 + 2 * i, n1 + 2 * i + 1⟩ _ _ i3.wf (i3.qp hs (out sl.1) (out sl.2)) (i3.qp q1 (out p1.1) (out p1.2)) w1
        (show x1.p ≠ n1 + 2 * i by omega) (show s.p ≠ n1 + 2 * i by omega)
      have T1' : KStep (span C n1 ∪ span C n2) g g1 := T1.mono fun y hy => Or.inl (mem_span hi hy)
      have i3' := i3.trans T1'
      have w2' := T1.apart w2 (show n2 + 2 * i ≠ n1 + 2 * i by omega) (show n2 + 2 * i ≠ n1 + 2 * i + 1 by omega)
        (show n2 + 2 * i + 1 ≠ n1 + 2 * i by omega) (show n2 + 2 * i + 1 ≠ n1 + 2 * i + 1 by omega)
      obtain ⟨g2, f2, T2, y2⟩ := body g1 x2 ⟨n2 + 2 * i, n2 + 2 * i + 1⟩ _ _ T1.wf (i3'.qp hs (out sl.1) (out sl.2)) (i3'.qp q2 (out p2.1) (out p2.2)) w2'
        (show x2.p ≠ n2 + 2 * i by omega) (show s.p ≠ n2 + 2 * i by omega)
      have T2' : KStep (span C n1 ∪ span C n2) g1 g2 := T2.mono fun y hy => Or.inr (mem_span hi hy)
      refine ⟨g2, ?_, fun k hk => ?_, fun k hk => ?_, i3'.trans T2'⟩
      · rw [bx1]
        show (blk (swkObj n1 β) i >>= _) = _
        rw [blk_swkObj hi]
        show (hf x1 _ g >>= _) = _
        rw [f1]
        show (blk a2 i >>= _) = _
        rw [bx2]
        show (blk (swkObj n2 β) i >>= _) = _
        rw [blk_swkObj hi]
        exact f2
      · by_cases hki : k = i
        · subst hki
          rw [if_pos (by simp)]
          exact T2.apart y1 (show n1 + 2 * k ≠ n2 + 2 * k by omega) (show n1 + 2 * k ≠ n2 + 2 * k + 1 by omega)
            (show n1 + 2 * k + 1 ≠ n2 + 2 * k by omega) (show n1 + 2 * k + 1 ≠ n2 + 2 * k + 1 by omega)
        · have := (T1.apart (i1 k hk) (show n1 + 2 * k ≠ n1 + 2 * i by omega) (show n1 + 2 * k ≠ n1 + 2 * i + 1 by omega)
            (show n1 + 2 * k + 1 ≠ n1 + 2 * i by omega) (show n1 + 2 * k + 1 ≠ n1 + 2 * i + 1 by omega))
          have := T2.apart this (show n1 + 2 * k ≠ n2 + 2 * i by omega) (show n1 + 2 * k ≠ n2 + 2 * i + 1 by omega)
            (show n1 + 2 * k + 1 ≠ n2 + 2 * i by omega) (show n1 + 2 * k + 1 ≠ n2 + 2 * i + 1 by omega)
          simpa [hki] using this
      · by_cases hki : k = i
        · subst hki
          rw [if_pos (by simp)]
          exact y2
        · have := (T1.apart (i2 k hk) (show n2 + 2 * k ≠ n1 + 2 * i by omega) (show n2 + 2 * k ≠ n1 + 2 * i + 1 by omega)
            (show n2 + 2 * k + 1 ≠ n1 + 2 * i by omega) (show n2 + 2 * k + 1 ≠ n1 + 2 * i + 1 by omega))
          have := T2.apart this (show n2 + 2 * k ≠ n2 + 2 * i by omega) (show n2 + 2 * k ≠ n2 + 2 * i + 1 by omega)
            (show n2 + 2 * k + 1 ≠ n2 + 2 * i by omega) (show n2 + 2 * k + 1 ≠ n2 + 2 * i + 1 by omega)
          simpa [hki] using this)
  refine ⟨D1, D2, h', e1, e2, eh, ⟨m1.trans hS1.1, fun i hi => ?_⟩, ⟨m2.trans hS2.1, fun i hi => ?_⟩, k3⟩
  · have := k1 i hi
    rw [if_pos (List.mem_range.mpr hi)] at this
    rw [v1 i hi]; exact this
  · have := k2 i hi
    rw [if_pos (List.mem_range.mpr hi)] at this
    rw [v2 i hi]; exact this


theorem nbstep_len {B : BCtx N} {gs : ℕ → Nega N ℤ} {SK : SKey B.C} {A1 A2 : Swk B.C} {w w' : (Swk B.C × Swk B.C) × (PolyQP B.C × PolyQP B.C) × KG B.C}
    (h : Go.loop (genBStep gs SK A1 A2) w (List.range (B.C.beta (B.C.nQ - 1))) = .ok w') :
    B.C.beta (B.C.nQ - 1) ≤ A1.len ∧ B.C.beta (B.C.nQ - 1) ≤ A2.len := by
  have key : ∀ i < B.C.beta (B.C.nQ - 1), i < A1.len ∧ i < A2.len := fun i hi => by
    obtain ⟨t, t', ht⟩ := Go.loop_all h i (List.mem_range.mpr hi)
    unfold genBStep at ht
    by_cases hc : A1.len ≤ i ∨ t.1.1.len ≤ i ∨ A2.len ≤ i ∨ t.1.2.len ≤ i
    · rw [if_pos hc] at ht; cases ht
    · omega
  constructor
  · by_contra hc
    have := (key A1.len (by omega)).1
    omega
  · by_contra hc
    have := (key A2.len (by omega)).2
    omega

/-- **`mkbfv` `GenRelinearizationKey`** -/
theorem genBfvRelinearizationKey_heap {B : BCtx N} (hn : 0 < B.C.nQ) {h : Heap N} (W : WF h) (gs : ℕ → Nega N ℤ) {K : HKG} {st : KG B.C}
    {crs : GoMap ℤ SwkObj} {CRS : GoMap ℤ (Swk B.C)} {sk r : SkObj} {SK R' : SKey B.C} (hK : KGAt B.C h K st) (hcrs : CrsShows B.C K h crs CRS)
    (hs : SkShows B.C h sk SK) (hap : Apart K sk.value) (hr : SkShows B.C h r R') (har : Apart K r.value) :
    Go.Rel (Out BRlkObj.polys (BRlkShows B.C) K h) (genBfvRelinearizationKey CRS gs st SK R') (hGenBfvRlk B crs gs K st.pos sk r h) := by
  unfold genBfvRelinearizationKey hGenBfvRlk
  obtain ⟨g, e, n, z0, z1, z2, y0, y1, y2⟩ := newBfvRelinearizationKey_spec (C := B.C) W sk.id
  have low : ∀ x ∈ K.mem, x < h.npoly := KGAt.low hK
  have sl : sk.value.q < h.npoly ∧ sk.value.p < h.npoly := ⟨hs.2.q, hs.2.p⟩
  have rl : r.value.q < h.npoly ∧ r.value.p < h.npoly := ⟨hr.2.q, hr.2.p⟩
  dsimp only
  rw [e]
  set h00 := (newBfvRelinearizationKey B.C sk.id h).2 with hh00
  set β := B.C.beta (B.C.nQ - 1) with hβ
  refine Go.Rel.bind (hcrs.deref 0) fun A1 a1 _ _ ra1 => ?_
  refine Go.Rel.bind (hcrs.deref (-3)) fun A2 a2 _ _ ra2 => ?_
  obtain ⟨g1, q1, n1, p1⟩ := newQP_spec (C := B.C) g.wf
  obtain ⟨g2, q2, n2, p2⟩ := newQP_spec (C := B.C) g1.wf
  rw [n] at q1 n1
  rw [n1] at q2 n2
  rw [q1] at p1
  rw [q2] at p2
  rw [q1, q2]
  set h0 := (newQP B.C (newQP B.C h00).2).2 with hh0
  have gg : Grow h h0 := (g.trans g1).trans g2
  have gz : Grow h00 h0 := g1.trans g2
  have R0 : Ran K h h0 := (Ran.refl W).grow gg
  have K0 : KGAt B.C h0 K st := hK.keep gg.only (by simp)
  have z0 := z0.keep gz.only (by simp)
  have z1 := z1.keep gz.only (by simp)
  have z2 := z2.keep gz.only (by simp)
  have y0 := y0.keep gz.only (by simp)
  have y1 := y1.keep gz.only (by simp)
  have y2 := y2.keep gz.only (by simp)
  have p1 := p1.keep g2.only (by simp) (by simp)
  set m := h.npoly with hm
  -- the vectors b1 and b2
  set Wb : Set ℕ := {x | (m ≤ x ∧ x < m + 2 * β) ∨ (m + 6 * β ≤ x ∧ x < m + 6 * β + 2 * β) ∨ m + 12 * β ≤ x} with hWb
  have wlow : ∀ p < m, p ∈ Wb → p ∈ K.mem := fun p hp hw => by
    exfalso
    rcases hw with hw | hw | hw <;> omega
  have loopB : Go.Rel (fun (w : (Swk B.C × Swk B.C) × (PolyQP B.C × PolyQP B.C) × KG B.C) (s : ℕ × Heap N) =>
      s.1 = w.2.2.pos ∧ SwkAt B.C s.2 m w.1.1 ∧ SwkAt B.C s.2 (m + 6 * β) w.1.2 ∧ QPAt B.C s.2 ⟨m + 12 * β, m + 12 * β + 1⟩ w.2.1.1 ∧
      QPAt B.C s.2 ⟨m + 12 * β + 2, m + 12 * β + 2 + 1⟩ w.2.1.2 ∧ KGAt B.C s.2 K w.2.2 ∧ KStep Wb h0 s.2)
      (Go.loop (genBStep gs SK A1 A2) ((Swk.new, Swk.new), (PolyQP.zero, PolyQP.zero), st) (List.range β))
      (Go.loop (fun (s : ℕ × Heap N) i => do
        let x1 ← blk a1 i
        let y1 ← blk (swkObj m β) i
        let x2 ← blk a2 i
        let y2 ← blk (swkObj (m + 6 * β) β) i
        let h ← hRelinB B.C (gs s.1) sk x1 ⟨m + 12 * β, m + 12 * β + 1⟩ y1 s.2
        let h ← hRelinB B.C (gs (s.1 + 1)) sk x2 ⟨m + 12 * β + 2, m + 12 * β + 2 + 1⟩ y2 h
        .ok (s.1 + 2, h)) (st.pos, h0) (List.range β)) := by
    refine Go.Rel.loop _ ⟨rfl, z0, y0, p1, p2, K0, KStep.refl gg.wf⟩ ?_
    rintro ⟨⟨S1, S2⟩, ⟨E1, E2⟩, st1⟩ ⟨pos, h1⟩ ⟨c1, c2, c3, c4, c5, c6, c7⟩ i hi
    dsimp only at c1 c2 c3 c4 c5 c6 c7
    subst c1
    rw [List.mem_range] at hi
    unfold genBStep
    dsimp only
    have R1 := R0.step c7 wlow
    by_cases l1 : A1.len ≤ i
    · rw [if_pos (Or.inl l1), blk_none (by rw [ra1.1.1]; exact l1)]; rfl
    obtain ⟨x1, ex1, bx1, qx1⟩ := ra1.1.at (not_le.mp l1)
    have xl1 := shows_low ra1.1 x1 (List.mem_of_getElem? ex1)
    rw [bx1]
    by_cases l2 : A2.len ≤ i
    · rw [if_pos (Or.inr (Or.inr (Or.inl l2)))]
      show Go.Rel _ _ (blk (swkObj m β) i >>= _)
      rw [blk_swkObj hi]
      show Go.Rel _ _ (blk a2 i >>= _)
      rw [blk_none (by rw [ra2.1.1]; exact l2)]; rfl
    obtain ⟨x2, ex2, bx2, qx2⟩ := ra2.1.at (not_le.mp l2)
    have xl2 := shows_low ra2.1 x2 (List.mem_of_getElem? ex2)
    rw [if_neg (by rw [c2.1, c3.1]; omega)]
    obtain ⟨h2, e2, T2, b2, t2⟩ := hRelinB_run hn c7.wf gs st1.pos (R1.sk hs.2 hap) (R1.sk qx1 (ra1.2 x1 (List.mem_of_getElem? ex1))) c4
      (c2.2 i hi) (show sk.value.p ≠ m + 2 * i by omega) (show x1.p ≠ m + 2 * i by omega)
      (show m + 12 * β ≠ m + 2 * i by omega) (show m + 12 * β ≠ m + 2 * i + 1 by omega)
      (show m + 12 * β + 1 ≠ m + 2 * i by omega) (show m + 12 * β + 1 ≠ m + 2 * i + 1 by omega)
    have T2' : KStep Wb h1 h2 := T2.mono (by
      rintro y (hy | hy)
      · exact Or.inl (mem_span (C := B.C) hi hy)
      · right; right
        rcases hy with rfl | rfl
        · show m + 12 * β ≤ m + 12 * β; omega
        · show m + 12 * β ≤ m + 12 * β + 1; omega)
    have nin : ∀ {y : ℕ}, y ≠ m + 2 * i → y ≠ m + 2 * i + 1 → y ≠ m + 12 * β → y ≠ m + 12 * β + 1 →
        y ∉ (⟨m + 2 * i, m + 2 * i + 1⟩ : QP).mem ∪ (⟨m + 12 * β, m + 12 * β + 1⟩ : QP).mem := by
      rintro y q1 q2 q3 q4 ((hh | hh) | (hh | hh))
      exacts [q1 hh, q2 hh, q3 hh, q4 hh]
    have R2 := R1.step T2' wlow
    have d3 : SwkAt B.C h2 (m + 6 * β) S2 := c3.keep T2.only fun x k1 k2 => nin (by omega) (by omega) (by omega) (by omega)
    have d5 := T2.qp c5 (nin (show m + 12 * β + 2 ≠ _ by omega) (show m + 12 * β + 2 ≠ _ by omega) (show m + 12 * β + 2 ≠ _ by omega)
      (show m + 12 * β + 2 ≠ _ by omega)) (nin (show m + 12 * β + 2 + 1 ≠ _ by omega) (show m + 12 * β + 2 + 1 ≠ _ by omega)
      (show m + 12 * β + 2 + 1 ≠ _ by omega) (show m + 12 * β + 2 + 1 ≠ _ by omega))
    obtain ⟨h3, e3, T3, b3, t3⟩ := hRelinB_run hn T2.wf gs (st1.pos + 1) (R2.sk hs.2 hap) (R2.sk qx2 (ra2.2 x2 (List.mem_of_getElem? ex2))) d5
      (d3.2 i hi) (show sk.value.p ≠ m + 6 * β + 2 * i by omega) (show x2.p ≠ m + 6 * β + 2 * i by omega)
      (show m + 12 * β + 2 ≠ m + 6 * β + 2 * i by omega) (show m + 12 * β + 2 ≠ m + 6 * β + 2 * i + 1 by omega)
      (show m + 12 * β + 2 + 1 ≠ m + 6 * β + 2 * i by omega) (show m + 12 * β + 2 + 1 ≠ m + 6 * β + 2 * i + 1 by omega)
    have T3' : KStep Wb h2 h3 := T3.mono (by
      rintro y (hy | hy)
      · exact Or.inr (Or.inl (mem_span (C := B.C) hi hy))
      · right; right
        rcases hy with rfl | rfl
        · show m + 12 * β ≤ m + 12 * β + 2; omega
        · show m + 12 * β ≤ m + 12 * β + 2 + 1; omega)
    have nin' : ∀ {y : ℕ}, y ≠ m + 6 * β + 2 * i → y ≠ m + 6 * β + 2 * i + 1 → y ≠ m + 12 * β + 2 → y ≠ m + 12 * β + 2 + 1 →
        y ∉ (⟨m + 6 * β + 2 * i, m + 6 * β + 2 * i + 1⟩ : QP).mem ∪ (⟨m + 12 * β + 2, m + 12 * β + 2 + 1⟩ : QP).mem := by
      rintro y q1 q2 q3 q4 ((hh | hh) | (hh | hh))
      exacts [q1 hh, q2 hh, q3 hh, q4 hh]
    show Go.Rel _ _ (blk (swkObj m β) i >>= _)
    rw [blk_swkObj hi]
    show Go.Rel _ _ (blk a2 i >>= _)
    rw [bx2]
    show Go.Rel _ _ (blk (swkObj (m + 6 * β) β) i >>= _)
    rw [blk_swkObj hi]
    show Go.Rel _ _ (hRelinB B.C (gs st1.pos) sk x1 _ _ h1 >>= _)
    rw [e2]
    show Go.Rel _ _ (hRelinB B.C (gs (st1.pos + 1)) sk x2 _ _ h2 >>= _)
    rw [e3]
    have u2 : SwkAt B.C h2 m ⟨S1.len, Function.update S1.val i (relinB SK (A1.val i) (genGaussianError gs st1.pos E1) (S1.val i))⟩ :=
      c2.update hi T2 (by
        rintro y hy (hh | hh)
        · exact hh
        · have h1 := hy.1
          have h2 := hy.2
          exfalso
          rcases hh with hh | hh
          · change y = m + 12 * β at hh; omega
          · change y = m + 12 * β + 1 at hh; omega) b2
    refine ⟨rfl, u2.keep T3.only fun x k1 k2 => nin' (by omega) (by omega) (by omega) (by omega), d3.update hi T3 ?_ b3, ?_, t3, ?_,
      (c7.trans T2').trans T3'⟩
    · rintro y hy (hh | hh)
      · exact hh
      · have h1 := hy.1
        have h2 := hy.2
        exfalso
        rcases hh with hh | hh
        · change y = m + 12 * β + 2 at hh; omega
        · change y = m + 12 * β + 2 + 1 at hh; omega
    · exact T3.qp t2 (nin' (show m + 12 * β ≠ _ by omega) (show m + 12 * β ≠ _ by omega) (show m + 12 * β ≠ _ by omega)
        (show m + 12 * β ≠ _ by omega)) (nin' (show m + 12 * β + 1 ≠ _ by omega) (show m + 12 * β + 1 ≠ _ by omega)
        (show m + 12 * β + 1 ≠ _ by omega) (show m + 12 * β + 1 ≠ _ by omega))
    · refine KGAt.pos (st := st1) ((c6.keep T2.only fun x hx => ?_).keep T3.only fun x hx => ?_) rfl rfl
      · have := low x hx
        exact nin (by omega) (by omega) (by omega) (by omega)
      · have := low x hx
        exact nin' (by omega) (by omega) (by omega) (by omega)
  refine Go.Rel.bind loopB fun wb sb ewb _ rb => ?_
  obtain ⟨bA, bB⟩ := nbstep_len ewb
  obtain ⟨⟨b1, b2⟩, ⟨E1, E2⟩, stb⟩ := wb
  obtain ⟨pb, hb⟩ := sb
  obtain ⟨rb1, rb2, rb3, -, -, rb6, rb7⟩ := rb
  dsimp only at rb1 rb2 rb3 rb6 rb7
  subst rb1
  have Rb := R0.step rb7 wlow
  have nb : hb.npoly = m + 12 * β + 2 + 2 := by rw [rb7.npoly]; exact n2
  have z1 := z1.keep rb7.only (fun x k1 k2 hw => by rcases hw with hw | hw | hw <;> omega)
  have z2 := z2.keep rb7.only (fun x k1 k2 hw => by rcases hw with hw | hw | hw <;> omega)
  have y1 := y1.keep rb7.only (fun x k1 k2 hw => by rcases hw with hw | hw | hw <;> omega)
  have y2 := y2.keep rb7.only (fun x k1 k2 hw => by rcases hw with hw | hw | hw <;> omega)
  have klow : ∀ {j : ℕ}, ∀ x ∈ K.mem, x < m + j := fun x hx => by have := low x hx; omega
  have klow2 : ∀ {j j' : ℕ}, ∀ x ∈ K.mem, x < m + j + j' := fun x hx => by have := low x hx; omega
  -- the vectors d1 and d2
  dsimp only
  unfold genBFVSwitchingKey hGenBfvSwk
  have half : Go.Rel (fun (w : (Swk B.C × Swk B.C) × KG B.C) (s : ℕ × Heap N) => s.1 = w.2.pos ∧ SwkAt B.C s.2 (m + 2 * β) w.1.1 ∧
      SwkAt B.C s.2 (m + 6 * β + 2 * β) w.1.2 ∧ KGAt B.C s.2 K w.2 ∧ Walk (span B.C (m + 2 * β) ∪ span B.C (m + 6 * β + 2 * β)) hb s.2)
      (genBfvHalf B.C.q gs SK Swk.new stb >>= fun w1 => genBfvHalf B.m gs SK Swk.new w1.2 >>= fun w2 => Except.ok ((w1.1, w2.1), w2.2))
      (hBfvHalf B B.C.q gs sk (swkObj (m + 2 * β) β) stb.pos hb >>= fun w => hBfvHalf B B.m gs sk (swkObj (m + 6 * β + 2 * β) β) w.1 w.2) := by
    refine Go.Rel.bind (hBfvHalf_sim hn Rb.wf B.C.q gs rb6 (Rb.sk hs.2 hap) z1 klow (by omega)) fun w1 s1 _ _ r1 => ?_
    obtain ⟨S1, st1⟩ := w1
    obtain ⟨pos1, h1⟩ := s1
    obtain ⟨r11, r12, r13, r14⟩ := r1
    dsimp only at r11 r12 r13 r14
    subst r11
    have R1 := Rb.walk r14 (fun p hp hw => by have := hw.1; omega)
    dsimp only
    have y1' := y1.keep r14.only (fun x k1 k2 hw => by have := hw.1; have := hw.2; omega)
    have sim2 := hBfvHalf_sim hn R1.wf B.m gs r13 (R1.sk hs.2 hap) y1' klow2 (by omega)
    rw [← hβ] at sim2
    cases ev : genBfvHalf B.m gs SK Swk.new st1 with
    | error err =>
      rw [ev] at sim2
      cases eh : hBfvHalf B B.m gs sk (swkObj (m + 6 * β + 2 * β) β) st1.pos h1 with
      | error err' => rw [eh] at sim2; exact sim2
      | ok s2 => rw [eh] at sim2; exact sim2.elim
    | ok w2 =>
      rw [ev] at sim2
      cases eh : hBfvHalf B B.m gs sk (swkObj (m + 6 * β + 2 * β) β) st1.pos h1 with
      | error err' => rw [eh] at sim2; exact sim2.elim
      | ok s2 =>
        rw [eh] at sim2
        obtain ⟨q1, q2, q3, q4⟩ := sim2
        refine ⟨q1, r12.keep q4.only (fun x k1 k2 hw => by have := hw.1; have := hw.2; omega), q2, q3,
          (r14.mono Set.subset_union_left).trans (q4.mono Set.subset_union_right)⟩
  refine Go.Rel.bind half fun wd sd _ _ rd => ?_
  obtain ⟨⟨d1, d2⟩, std⟩ := wd
  obtain ⟨pd, hd⟩ := sd
  obtain ⟨rd1, rd2, rd3, rd4, rd5⟩ := rd
  dsimp only at rd1 rd2 rd3 rd4 rd5
  subst rd1
  have Rd := Rb.walk rd5 (fun p hp hw => by rcases hw with hw | hw <;> (have := hw.1; omega))
  have nd : m + 12 * β ≤ hd.npoly := by have := rd5.only.npoly; omega
  have b1d := rb2.keep rd5.only (fun x k1 k2 hw => by rcases hw with hw | hw <;> (have := hw.1; have := hw.2; omega))
  have b2d := rb3.keep rd5.only (fun x k1 k2 hw => by rcases hw with hw | hw <;> (have := hw.1; have := hw.2; omega))
  have z2 := z2.keep rd5.only (fun x k1 k2 hw => by rcases hw with hw | hw <;> (have := hw.1; have := hw.2; omega))
  have y2 := y2.keep rd5.only (fun x k1 k2 hw => by rcases hw with hw | hw <;> (have := hw.1; have := hw.2; omega))
  obtain ⟨D1, D2, h3, ev1, ev2, eh3, v1, v2, T3⟩ := hBlocks2_sim Rd.wf (n1 := m + 2 * β) (n2 := m + 6 * β + 2 * β) (by omega) rd2 rd3
    (Rd.swk ra1.1 ra1.2) (Rd.swk ra2.1 ra2.2) (fun v hv => by have := shows_low ra1.1 v hv; omega)
    (fun v hv => by have := shows_low ra2.1 v hv; omega) bA bB (Rd.sk hr.2 har) (by omega)
    (f := fun a d => qpMulSub (B.C.nQ - 1) a R'.value d) (hf := fun x v h => hMulSub B.C x r.value v h)
    (fun hh x v X' D Wh hp hx hv l1 l2 => hMulSub_run hn Wh hx hp hv l1 l2)
  show Go.Rel _ (mapBlocks _ A1 d1 >>= _) (hBlocks2 B.C _ a1 _ a2 _ hd >>= _)
  rw [ev1, eh3]
  show Go.Rel _ (mapBlocks _ A2 d2 >>= _) (hGenSwk B.C gs K std.pos r _ h3 >>= _)
  rw [ev2]
  have out3 : ∀ {x : ℕ}, (x < m + 2 * β ∨ (m + 4 * β ≤ x ∧ x < m + 8 * β) ∨ m + 10 * β ≤ x) →
      x ∉ span B.C (m + 2 * β) ∪ span B.C (m + 6 * β + 2 * β) := by
    rintro x hx (hw | hw) <;> (have := hw.1; have := hw.2; omega)
  have R3 := Rd.walk (step_walk T3) (fun p hp hw => by rcases hw with hw | hw <;> (have := hw.1; omega))
  have K3 : KGAt B.C h3 K std := rd4.keep T3.only fun x hx => out3 (by have := low x hx; omega)
  have z3 := z2.keep T3.only (fun x k1 k2 => out3 (by omega))
  have y3 := y2.keep T3.only (fun x k1 k2 => out3 (by omega))
  have b13 := b1d.keep T3.only (fun x k1 k2 => out3 (by omega))
  have b23 := b2d.keep T3.only (fun x k1 k2 => out3 (by omega))
  -- the vector v
  obtain ⟨Sv, stv, hv, ev, ehv, Av, Kv, Tv⟩ := hGenSwk_sim hn R3.wf gs K3 (R3.sk hr.2 har) z3 klow
  have Rv := R3.walk (step_walk Tv) (fun p hp hw => mem_span_or (by omega) hp hw)
  show Go.Rel _ (genSwitchingKey gs std R' Swk.new >>= _) _
  rw [ev, ehv]
  show Go.Rel _ (CRS.deref (-1) >>= _) (crs.deref (-1) >>= _)
  refine Go.Rel.bind (hcrs.deref (-1)) fun U u _ _ ru => ?_
  refine Go.Rel.bind (blocks_sim Rv (n := m + 4 * β) (by omega) Av ru.1 ru.2 (Rv.sk hs.2 hap) (by omega)
    (fun hh x v X' D Wh hp hx hv l1 l2 => hRelinV_run hn Wh hp hx hv l2 l1)) fun S5 h5 _ _ r5 => ?_
  have T5 := Tv.trans (r5.2.mono (Wp' := K.mem ∪ span B.C (m + 4 * β)) fun _ hx => Or.inr hx)
  have out5 : ∀ {x : ℕ}, m ≤ x → (x < m + 4 * β ∨ m + 6 * β ≤ x) → x ∉ K.mem ∪ span B.C (m + 4 * β) := by
    rintro x h1 hx (hw | hw)
    · have := low x hw; omega
    · have := hw.1
      have := hw.2
      omega
  have K5 : KGAt B.C h5 K stv := kg_span Kv klow r5.2
  have f1 := b13.keep T5.only (fun x k1 k2 => out5 (by omega) (by omega))
  have f2 := b23.keep T5.only (fun x k1 k2 => out5 (by omega) (by omega))
  have f3 := v1.keep T5.only (fun x k1 k2 => out5 (by omega) (by omega))
  have f4 := v2.keep T5.only (fun x k1 k2 => out5 (by omega) (by omega))
  have f5 := y3.keep T5.only (fun x k1 k2 => out5 (by omega) (by omega))
  refine ⟨⟨hs.1, ⟨hs.1, f1.shows, f3.shows, r5.1.shows⟩, hs.1, f2.shows, f4.shows, f5.shows⟩, rfl, K5,
    R3.walk (step_walk T5) (fun p hp hw => mem_span_or (by omega) hp hw), ?_⟩
  show Fresh h h5 (BRlkObj.polys ⟨sk.id, ⟨sk.id, swkObj m β, swkObj (m + 2 * β) β, swkObj (m + 4 * β) β⟩,
    ⟨sk.id, swkObj (m + 6 * β) β, swkObj (m + 6 * β + 2 * β) β, swkObj (m + 6 * β + 4 * β) β⟩⟩)
  unfold BRlkObj.polys
  rw [polys_rlkObj, polys_rlkObj, List.range'_append_1]
  refine fresh_range le_rfl ?_
  have := T5.npoly
  have := T3.npoly
  omega

end C70
end MKHE
