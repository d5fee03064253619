import Verif.Lemmas.HeapKeys

set_option autoImplicit false

/-!
# The key generator on the heap computes the keys of the value model
-/

namespace MKHE
namespace Heap
variable {N : ℕ} [NeZero N] {C : Ctx N}

theorem setRow_rows {m : ℕ → ℕ} {h : Heap N} (W : WF h) {p i : ℕ} (hp : p < h.npoly) (hi : i < h.len p) (l : Limb N (m i)) :
    rowsOf m (h.setRow (h.addr p i) (wr l)) p = Function.update (rowsOf m h p) i l := by
  funext k
  unfold rowsOf
  show (if k < h.len p then rdM m k (Function.update h.row (h.addr p i) (wr l) (h.addr p k)) else _) = _
  by_cases hk : k = i
  · subst hk
    rw [if_pos hi, Function.update_self, Function.update_self]
    exact rdM_wr l
  · rw [Function.update_of_ne hk]
    by_cases hl : k < h.len p
    · rw [if_pos hl, if_pos hl, Function.update_of_ne]
      intro e
      exact hk (addr_inj W hp hp hl hi e).2
    · rw [if_neg hl, if_neg hl]

theorem hGadget_run {i pool : ℕ} {v : QP} {p0 : QRows C} (n : ℕ) : ∀ (j : ℕ) (h : Heap N) (D : PolyQP C), WF h → QPAt C h v D →
    pool < h.npoly → h.len pool = C.nQ → rowsOf C.q h pool = p0 → pool ≠ v.q →
    ∃ h', hGadget C i pool v n j h = .ok h' ∧ KStep {v.q} h h' ∧ QPAt C h' v { D with Q := gadgetLoop i p0 n j D.Q } := by
  induction n with
  | zero => intro j h D W hv _ _ _ _; exact ⟨h, rfl, KStep.refl W, hv⟩
  | succ n ih =>
    intro j h D W hv hp lp rp hne
    unfold hGadget gadgetLoop
    by_cases hj : C.nQ ≤ i * C.alpha + j
    · rw [if_pos hj, if_pos hj]
      exact ⟨h, rfl, KStep.refl W, hv⟩
    · have lq : i * C.alpha + j < h.len v.q := by rw [hv.lenQ]; omega
      have lp' : i * C.alpha + j < h.len pool := by omega
      rw [if_neg hj, if_neg hj, if_neg (by omega)]
      have r1 : rdM C.q (i * C.alpha + j) (h.row (h.addr v.q (i * C.alpha + j))) = D.Q (i * C.alpha + j) := by
        rw [← hv.Q]; unfold rowsOf; rw [if_pos lq]
      have r2 : rdM C.q (i * C.alpha + j) (h.row (h.addr pool (i * C.alpha + j))) = p0 (i * C.alpha + j) := by
        rw [← rp]; unfold rowsOf; rw [if_pos lp']
      rw [r1, r2]
      set l := addRow (C.q (i * C.alpha + j)) (D.Q (i * C.alpha + j)) (p0 (i * C.alpha + j)) with hl
      have o := setRow_only W hv.q (addr_mem lq) (wr l)
      have hr := setRow_rows W hv.q lq l
      have S : KStep {v.q} h (h.setRow (h.addr v.q (i * C.alpha + j)) (wr l)) := ⟨setRow_wf W _ _, o, rfl, rfl, fun _ => rfl⟩
      have hv' : QPAt C (h.setRow (h.addr v.q (i * C.alpha + j)) (wr l)) v { D with Q := Function.update D.Q (i * C.alpha + j) l } := by
        refine ⟨hv.q, hv.p, hv.ne, hv.lenQ, hv.lenP, ?_⟩
        unfold qpVal
        rw [hr, hv.Q, o.rowsOf hv.p hv.ne, hv.P]
      obtain ⟨h', e, S', hv''⟩ := ih (j + 1) _ _ S.wf hv' hp lp (by rw [o.rowsOf hp hne]; exact rp) hne
      exact ⟨h', e, S.trans S', hv''⟩

/-- `GenGaussianError` -/
theorem hGenErr_run (hn : 0 < C.nQ) {h : Heap N} (W : WF h) (gs : ℕ → Nega N ℤ) (pos : ℕ) {e : QP} {D : PolyQP C} (he : QPAt C h e D) :
    ∃ h', hGenErr C (gs pos) e h = .ok h' ∧ KStep e.mem h h' ∧ QPAt C h' e (genGaussianError gs pos D) := by
  obtain ⟨h1, e1, S1, a1⟩ := hSample_run hn W (gs pos) he
  obtain ⟨h2, e2, S2, a2⟩ := hNTT_run hn S1.wf a1 a1 a1.ne
  refine ⟨h2, ?_, S1.trans S2, a2⟩
  unfold hGenErr
  rw [e1]
  exact e2

theorem hSwkBlock_run (hn : 0 < C.nQ) {h : Heap N} (W : WF h) (x : Nega N ℤ) {pool i : ℕ} {v : QP} {p0 : QRows C} {D : PolyQP C}
    (hv : QPAt C h v D) (hp : pool < h.npoly) (lp : h.len pool = C.nQ) (rp : rowsOf C.q h pool = p0) (n1 : pool ≠ v.q) (n2 : pool ≠ v.p) :
    ∃ h', hSwkBlock C x pool i v h = .ok h' ∧ KStep v.mem h h' ∧ QPAt C h' v (genSwkBlock x p0 i D) := by
  obtain ⟨h1, e1, S1, a1⟩ := hSample_run hn W x hv
  obtain ⟨h2, e2, S2, a2⟩ := hNTT_run hn S1.wf a1 a1 a1.ne
  obtain ⟨h3, e3, S3, a3⟩ := hMForm_run hn S2.wf a2 a2 a2.ne
  have S := (S1.trans S2).trans S3
  have hm : pool ∉ v.mem := by rintro (hh | hh); exacts [n1 hh, n2 hh]
  obtain ⟨h4, e4, S4, a4⟩ := hGadget_run (i := i) (p0 := p0) C.alpha 0 h3 _ S3.wf a3 (by rw [S.npoly]; exact hp) (by rw [S.len]; exact lp)
    (by rw [S.only.rowsOf hp hm]; exact rp) n1
  refine ⟨h4, ?_, S.trans (S4.mono fun y hy => Or.inl hy), a4⟩
  unfold hSwkBlock
  rw [e1]
  show (hNTT C v v h1 >>= _) = _
  rw [e2]
  show (hMForm C v v h2 >>= _) = _
  rw [e3]
  exact e4

/-- one block of `b` -/
theorem hRelinB_run (hn : 0 < C.nQ) {h : Heap N} (W : WF h) (gs : ℕ → Nega N ℤ) (pos : ℕ) {sk : SkObj} {SK : SKey C} {a tmp b : QP} {A T D : PolyQP C}
    (hs : QPAt C h sk.value SK.value) (ha : QPAt C h a A) (ht : QPAt C h tmp T) (hb : QPAt C h b D)
    (ns : sk.value.p ≠ b.q) (na : a.p ≠ b.q) (t1 : tmp.q ≠ b.q) (t2 : tmp.q ≠ b.p) (t3 : tmp.p ≠ b.q) (t4 : tmp.p ≠ b.p) :
    ∃ h', hRelinB C (gs pos) sk a tmp b h = .ok h' ∧ KStep (b.mem ∪ tmp.mem) h h' ∧
      QPAt C h' b (relinB SK A (genGaussianError gs pos T) D) ∧ QPAt C h' tmp (genGaussianError gs pos T) := by
  obtain ⟨h1, e1, S1, b1⟩ := hMul_run hn W ha hs hb na ns
  obtain ⟨h2, e2, S2, b2⟩ := hInvMForm_run hn S1.wf b1 b1 b1.ne
  have T2 := (S1.trans S2).apart ht t1 t2 t3 t4
  obtain ⟨h3, e3, S3, T3⟩ := hGenErr_run hn S2.wf gs pos T2
  have b3 := S3.apart b2 t1.symm t3.symm t2.symm t4.symm
  obtain ⟨h4, e4, S4, b4⟩ := hSub_run hn S3.wf T3 b3 b3 t3 b3.ne
  obtain ⟨h5, e5, S5, b5⟩ := hMForm_run hn S4.wf b4 b4 b4.ne
  have T5 := (S4.trans S5).apart T3 t1 t2 t3 t4
  refine ⟨h5, ?_, (((S1.trans S2).mono (fun _ => Or.inl)).trans (S3.mono fun _ => Or.inr)).trans ((S4.trans S5).mono fun _ => Or.inl), b5, T5⟩
  unfold hRelinB
  rw [e1]
  show (hInvMForm C b b h1 >>= _) = _
  rw [e2]
  show (hGenErr C (gs pos) tmp h2 >>= _) = _
  rw [e3]
  show (hSub C tmp b b h3 >>= _) = _
  rw [e4]
  exact e5

/-- one block of `v` -/
theorem hRelinV_run (hn : 0 < C.nQ) {h : Heap N} (W : WF h) {sk : SkObj} {SK : SKey C} {u v : QP} {U D : PolyQP C}
    (hs : QPAt C h sk.value SK.value) (hu : QPAt C h u U) (hv : QPAt C h v D) (ns : sk.value.p ≠ v.q) (nu : u.p ≠ v.q) :
    ∃ h', hRelinV C sk u v h = .ok h' ∧ KStep v.mem h h' ∧ QPAt C h' v (relinV SK U D) := by
  obtain ⟨h1, e1, S1, v1⟩ := hMulAdd_run hn W hu hs hv nu ns
  obtain ⟨h2, e2, S2, v2⟩ := hNeg_run hn S1.wf v1
  refine ⟨h2, ?_, S1.trans S2, v2⟩
  unfold hRelinV
  rw [e1]
  exact e2

/-! ## the loops over the blocks of a key -/

variable (C) in
/-- a switching key object (of the CRS, for example) with value `S` -/
def SwkShows (h : Heap N) (s : SwkObj) (S : Swk C) : Prop := s.length = S.len ∧ ∀ i v, s[i]? = some v → QPAt C h v (S.val i)

variable (C) in
/-- the key generator object `K` with sampler position and pools as in `st` -/
structure KGAt (h : Heap N) (K : HKG) (st : KG C) : Prop where
  lt : K.poolQ < h.npoly
  len : h.len K.poolQ = C.nQ
  rows : rowsOf C.q h K.poolQ = st.poolQ
  qp : QPAt C h K.poolQP st.poolQP
  neQ : K.poolQ ≠ K.poolQP.q
  neP : K.poolQ ≠ K.poolQP.p

/-- the polynomials of the key generator -/
def HKG.mem (K : HKG) : Set ℕ := {K.poolQ, K.poolQP.q, K.poolQP.p}

theorem KGAt.keep {h h' : Heap N} {K : HKG} {st : KG C} (a : KGAt C h K st) {Wp Wc : Set ℕ} (o : Only Wp Wc h h') (hw : ∀ x ∈ K.mem, x ∉ Wp) :
    KGAt C h' K st where
  lt := a.lt.trans_le o.npoly
  len := by have := o.poly K.poolQ a.lt (hw _ (Or.inl rfl)); unfold Heap.len; rw [this]; exact a.len
  rows := by rw [o.rowsOf a.lt (hw _ (Or.inl rfl))]; exact a.rows
  qp := a.qp.keep o (hw _ (Or.inr (Or.inl rfl))) (hw _ (Or.inr (Or.inr rfl)))
  neQ := a.neQ
  neP := a.neP

theorem KGAt.pos {h : Heap N} {K : HKG} {st st' : KG C} (a : KGAt C h K st) (e1 : st'.poolQ = st.poolQ) (e2 : st'.poolQP = st.poolQP) :
    KGAt C h K st' := ⟨a.lt, a.len, by rw [e1]; exact a.rows, by rw [e2]; exact a.qp, a.neQ, a.neP⟩

/-- the addresses of a key allocated at `n` -/
def span (C : Ctx N) (n : ℕ) : Set ℕ := {x | n ≤ x ∧ x < n + 2 * C.beta (C.nQ - 1)}

theorem mem_span {n i : ℕ} (hi : i < C.beta (C.nQ - 1)) : (⟨n + 2 * i, n + 2 * i + 1⟩ : QP).mem ⊆ span C n := by
  rintro x (rfl | rfl)
  · exact ⟨by show n ≤ n + 2 * i; omega, by show n + 2 * i < _; omega⟩
  · exact ⟨by show n ≤ n + 2 * i + 1; omega, by show n + 2 * i + 1 < _; omega⟩

/-- block `i` of the key was rewritten -/
theorem SwkAt.update {h h' : Heap N} {n : ℕ} {S : Swk C} (a : SwkAt C h n S) {i : ℕ} (hi : i < C.beta (C.nQ - 1)) {Wp : Set ℕ}
    (T : KStep Wp h h') (hW : ∀ x ∈ span C n, x ∈ Wp → x = n + 2 * i ∨ x = n + 2 * i + 1) {D : PolyQP C}
    (hD : QPAt C h' ⟨n + 2 * i, n + 2 * i + 1⟩ D) : SwkAt C h' n ⟨S.len, Function.update S.val i D⟩ := by
  refine ⟨a.1, fun k hk => ?_⟩
  show QPAt C h' _ (Function.update S.val i D k)
  by_cases hki : k = i
  · subst hki; rw [Function.update_self]; exact hD
  · rw [Function.update_of_ne hki]
    have hm : ∀ x ∈ (⟨n + 2 * k, n + 2 * k + 1⟩ : QP).mem, x ∉ Wp := by
      intro x hx hw
      have h1 := hW x (mem_span hk hx) hw
      rcases hx with rfl | rfl
      · change n + 2 * k = _ ∨ n + 2 * k = _ at h1; omega
      · change n + 2 * k + 1 = _ ∨ n + 2 * k + 1 = _ at h1; omega
    exact T.qp (a.2 k hk) (hm _ (Or.inl rfl)) (hm _ (Or.inr rfl))

theorem blk_none {s : SwkObj} {i : ℕ} (h : s.length ≤ i) : blk s i = .error .indexOutOfRange := by
  unfold blk
  rw [List.getElem?_eq_none h]

theorem blk_some {s : SwkObj} {i : ℕ} (h : i < s.length) : blk s i = .ok s[i] := by
  unfold blk
  rw [List.getElem?_eq_getElem h]

theorem SwkShows.at {h : Heap N} {s : SwkObj} {S : Swk C} (a : SwkShows C h s S) {i : ℕ} (hi : i < S.len) :
    ∃ v, s[i]? = some v ∧ blk s i = .ok v ∧ QPAt C h v (S.val i) :=
  have hl : i < s.length := by rw [a.1]; exact hi
  ⟨s[i], List.getElem?_eq_getElem hl, blk_some hl, a.2 i _ (List.getElem?_eq_getElem hl)⟩

theorem SwkShows.keep {h h' : Heap N} {s : SwkObj} {S : Swk C} (a : SwkShows C h s S) {Wp Wc : Set ℕ} (o : Only Wp Wc h h')
    (hw : ∀ v ∈ s, v.q ∉ Wp ∧ v.p ∉ Wp) : SwkShows C h' s S :=
  ⟨a.1, fun i v e => (a.2 i v e).keep o (hw v (List.mem_of_getElem? e)).1 (hw v (List.mem_of_getElem? e)).2⟩

theorem SwkAt.shows {h : Heap N} {n : ℕ} {S : Swk C} (a : SwkAt C h n S) : SwkShows C h (swkObj n (C.beta (C.nQ - 1))) S := by
  have hl : (swkObj n (C.beta (C.nQ - 1))).length = C.beta (C.nQ - 1) := by unfold swkObj; simp
  refine ⟨by rw [hl, a.1], fun i v e => ?_⟩
  have hi : i < C.beta (C.nQ - 1) := by
    have := (List.getElem?_eq_some_iff.mp e).1
    rwa [hl] at this
  rw [swkObj_get hi] at e
  cases e
  exact a.2 i hi

/-- `for i < beta { f(a[i], swk[i]) }`; `P` collects what the body needs to know about the memory outside the key -/
theorem hBlocks_sim {h : Heap N} (W : WF h) {n : ℕ} {a : SwkObj} {A S : Swk C} (hS : SwkAt C h n S) (hA : SwkShows C h a A)
    (hlow : ∀ v ∈ a, v.q < n ∧ v.p < n) (P : Heap N → Prop) (hP : ∀ h h', P h → KStep (span C n) h h' → P h') (h0 : P h)
    {f : PolyQP C → PolyQP C → PolyQP C} {hf : QP → QP → Heap N → Go (Heap N)}
    (body : ∀ h x v X D, WF h → P h → QPAt C h x X → QPAt C h v D → x.q < n → x.p < n → n ≤ v.q → n ≤ v.p →
      ∃ h', hf x v h = .ok h' ∧ KStep v.mem h h' ∧ QPAt C h' v (f X D)) :
    Go.Rel (fun S' h' => SwkAt C h' n S' ∧ KStep (span C n) h h') (mapBlocks f A S)
      (hBlocks C hf a (swkObj n (C.beta (C.nQ - 1))) h) := by
  unfold mapBlocks hBlocks
  refine Go.Rel.loop (R := fun S' h' => SwkAt C h' n S' ∧ KStep (span C n) h h') _ ⟨hS, KStep.refl W⟩ ?_
  rintro S1 h1 ⟨s1, t1⟩ i hi
  rw [List.mem_range] at hi
  have hw : ¬ S1.len ≤ i := by rw [s1.1]; omega
  by_cases hl : A.len ≤ i
  · rw [if_pos (Or.inl hl), blk_none (by rw [hA.1]; exact hl)]
    rfl
  · rw [if_neg (by tauto)]
    obtain ⟨x, ex, bx, qx⟩ := hA.at (not_le.mp hl)
    obtain ⟨l1, l2⟩ := hlow x (List.mem_of_getElem? ex)
    have qx1 : QPAt C h1 x (A.val i) := t1.qp qx (fun hh => by have := hh.1; omega) (fun hh => by have := hh.1; omega)
    obtain ⟨h2, e2, S2, q2⟩ := body h1 x ⟨n + 2 * i, n + 2 * i + 1⟩ _ _ t1.wf (hP h h1 h0 t1) qx1 (s1.2 i hi) l1 l2
      (show n ≤ n + 2 * i by omega) (show n ≤ n + 2 * i + 1 by omega)
    rw [bx]
    show Go.Rel _ _ (blk (swkObj n _) i >>= _)
    rw [blk_swkObj hi]
    show Go.Rel _ _ (hf x _ h1)
    rw [e2]
    exact ⟨s1.update hi S2 (fun y _ hy => hy) q2, t1.trans (S2.mono (mem_span hi))⟩

/-- `GenSwitchingKey` -/
theorem hGenSwk_sim (hn : 0 < C.nQ) {h : Heap N} (W : WF h) (gs : ℕ → Nega N ℤ) {K : HKG} {st : KG C} {sk : SkObj} {SK : SKey C} {n : ℕ} {S : Swk C}
    (hK : KGAt C h K st) (hs : QPAt C h sk.value SK.value) (hS : SwkAt C h n S) (hlow : ∀ x ∈ K.mem, x < n) :
    ∃ S' st' h', genSwitchingKey gs st SK S = .ok (S', st') ∧
      hGenSwk C gs K st.pos sk (swkObj n (C.beta (C.nQ - 1))) h = .ok (st'.pos, h') ∧ SwkAt C h' n S' ∧ KGAt C h' K st' ∧
      KStep (K.mem ∪ span C n) h h' := by
  obtain ⟨h1, e1, S1, r1⟩ := op3_run (m := C.q) W (fun i x _ _ => (C.RQ i).mulScalar C.P x) hs.q hs.q hK.lt hs.lenQ hs.lenQ hK.len
  set st1 : KG C := { st with poolQ := setQ (C.nQ - 1) (fun i => (C.RQ i).mulScalar C.P (SK.value.Q i)) st.poolQ } with hst1
  have K1 : KGAt C h1 K st1 := by
    refine ⟨by rw [S1.npoly]; exact hK.lt, by rw [S1.len]; exact hK.len, ?_, S1.qp hK.qp (fun hh => hK.neQ hh.symm) (fun hh => hK.neP hh.symm),
      hK.neQ, hK.neP⟩
    funext i
    rw [r1, hs.Q, hK.rows]
    show _ = setQ (C := C) (C.nQ - 1) (fun i => (C.RQ i).mulScalar C.P (SK.value.Q i)) st.poolQ i
    unfold setQ
    by_cases hi : i < C.nQ
    · rw [if_pos hi, if_pos (by omega)]
    · rw [if_neg hi, if_neg (by omega)]
  have hp0 : K.poolQ < n := hlow _ (Or.inl rfl)
  have T1 : KStep (K.mem ∪ span C n) h h1 := S1.mono (fun x hx => Or.inl (Or.inl hx))
  have A1 : SwkAt C h1 n S := hS.keep S1.only (fun x hx _ hh => by have : x = K.poolQ := hh; omega)
  have key : Go.Rel (fun (w : Swk C × KG C) (w' : ℕ × Heap N) => w.2.pos = w'.1 ∧ SwkAt C w'.2 n w.1 ∧ KGAt C w'.2 K w.2 ∧
      w.2.poolQ = st1.poolQ ∧ KStep (K.mem ∪ span C n) h w'.2 ∧ ∃ x, x = w)
      (genSwitchingKey gs st SK S) (hGenSwk C gs K st.pos sk (swkObj n (C.beta (C.nQ - 1))) h) := by
    unfold genSwitchingKey hGenSwk
    rw [e1]
    refine Go.Rel.loop (R := fun (w : Swk C × KG C) (w' : ℕ × Heap N) => w.2.pos = w'.1 ∧ SwkAt C w'.2 n w.1 ∧ KGAt C w'.2 K w.2 ∧
      w.2.poolQ = st1.poolQ ∧ KStep (K.mem ∪ span C n) h w'.2 ∧ ∃ x, x = w) _ ⟨rfl, A1, K1, rfl, T1, _, rfl⟩ ?_
    rintro ⟨S2, st2⟩ ⟨pos, h2⟩ ⟨p2, a2, k2, q2, t2, -⟩ i hi
    dsimp only at p2 a2 k2 q2 t2
    subst p2
    rw [List.mem_range] at hi
    dsimp only
    rw [if_neg (by rw [a2.1]; omega), blk_swkObj hi]
    obtain ⟨h3, e3, S3, a3⟩ := hSwkBlock_run hn t2.wf (gs st2.pos) (pool := K.poolQ) (i := i) (p0 := st2.poolQ) (a2.2 i hi) k2.lt k2.len k2.rows
      (show K.poolQ ≠ n + 2 * i by omega) (show K.poolQ ≠ n + 2 * i + 1 by omega)
    show Go.Rel _ _ (hSwkBlock C (gs st2.pos) K.poolQ i _ h2 >>= _)
    rw [e3]
    refine ⟨rfl, a2.update hi S3 (fun y _ hy => hy) a3, ?_, q2, t2.trans (S3.mono fun y hy => Or.inr (mem_span hi hy)), _, rfl⟩
    refine KGAt.pos (st := st2) (k2.keep S3.only fun x hx hw => ?_) rfl rfl
    have h1 := hlow x hx
    have h2 := (mem_span hi hw).1
    omega
  cases eg : genSwitchingKey gs st SK S with
  | error err =>
    exfalso
    unfold genSwitchingKey at eg
    obtain ⟨w, ew, -⟩ := Go.loop_inv (fun (w : Swk C × KG C) i =>
      if w.1.len ≤ i then .error .indexOutOfRange
      else .ok (⟨w.1.len, Function.update w.1.val i (genSwkBlock (gs w.2.pos) w.2.poolQ i (w.1.val i))⟩, { w.2 with pos := w.2.pos + 1 }))
      (fun _ (w : Swk C × KG C) => w.1.len = C.beta (C.nQ - 1)) (List.range (C.beta (C.nQ - 1))) (S, st1) hS.1 (by
        rintro pre i suf w hl hw
        have hi : i < C.beta (C.nQ - 1) := by
          have : i ∈ List.range (C.beta (C.nQ - 1)) := by rw [hl]; simp
          exact List.mem_range.mp this
        exact ⟨_, if_neg (by rw [hw]; omega), hw⟩)
    exact absurd (eg.symm.trans ew) (by simp)
  | ok w =>
    rw [eg] at key
    cases eh : hGenSwk C gs K st.pos sk (swkObj n (C.beta (C.nQ - 1))) h with
    | error err => rw [eh] at key; cases key
    | ok w' =>
      rw [eh] at key
      obtain ⟨k1, k2, k3, -, k5, -⟩ := key
      obtain ⟨S', st'⟩ := w
      obtain ⟨pos, h'⟩ := w'
      dsimp only at k1 k2 k3 k5
      subst k1
      exact ⟨S', st', h', rfl, rfl, k2, k3, k5⟩

end Heap
end MKHE
