import Verif.Model.HeapKeys
import Verif.Lemmas.HeapView
import Verif.Props.KeyLocal

set_option autoImplicit false

/-!
# Key objects on the heap: the effect of every step of the key generator
-/

namespace MKHE
namespace Heap
variable {N : ℕ} [NeZero N]

theorem rdM_wr {m : ℕ → ℕ} {i : ℕ} (l : Limb N (m i)) : rdM m i (wr l) = l := by
  funext t
  unfold rdM wr toWord
  cases h : l t with
  | mk v hv => simp [hv]

theorem rdM_zero (m : ℕ → ℕ) (i : ℕ) : rdM m i (0 : RowBuf N) = Limb.zero := by
  funext t
  unfold rdM toWord Limb.zero
  simp

/-- one step of a computation that only writes the polynomials in `Wp` and allocates nothing -/
structure KStep (Wp : Set ℕ) (h h' : Heap N) : Prop where
  wf : WF h'
  only : Only Wp ∅ h h'
  npoly : h'.npoly = h.npoly
  nct : h'.nct = h.nct
  len : ∀ p, h'.len p = h.len p

theorem KStep.refl {Wp : Set ℕ} {h : Heap N} (W : WF h) : KStep Wp h h := ⟨W, Only.refl _ _ _, rfl, rfl, fun _ => rfl⟩

theorem KStep.trans {Wp : Set ℕ} {h h1 h2 : Heap N} (a : KStep Wp h h1) (b : KStep Wp h1 h2) : KStep Wp h h2 :=
  ⟨b.wf, a.only.trans b.only, b.npoly.trans a.npoly, b.nct.trans a.nct, fun p => (b.len p).trans (a.len p)⟩

theorem KStep.mono {Wp Wp' : Set ℕ} {h h' : Heap N} (a : KStep Wp h h') (s : Wp ⊆ Wp') : KStep Wp' h h' :=
  ⟨a.wf, a.only.mono s subset_rfl, a.npoly, a.nct, a.len⟩

theorem Only.rowsOf {m : ℕ → ℕ} {Wp Wc : Set ℕ} {h h' : Heap N} (o : Only Wp Wc h h') {p : ℕ} (hp : p < h.npoly) (hw : p ∉ Wp) :
    rowsOf m h' p = rowsOf m h p := by
  have e := o.poly p hp hw
  funext i
  unfold Heap.rowsOf Heap.len Heap.addr
  rw [e]
  split
  · rename_i hi
    congr 1
    exact o.row p hp hw _ (getD_mem hi)
  · rfl

section rows3
variable {h : Heap N}

theorem rows3_step (n : ℕ) (f : ℕ → RowBuf N → RowBuf N → RowBuf N → RowBuf N) (a b c : ℕ) (W : WF h) (hc : c < h.npoly) (hn : n ≤ h.len c) :
    KStep {c} h (rows3 n f a b c h) ∧ (rows3 n f a b c h).poly = h.poly := by
  unfold rows3
  refine forN_inv n _ (fun _ g => KStep {c} h g ∧ g.poly = h.poly) h ⟨KStep.refl W, rfl⟩ ?_
  rintro i g hi ⟨S, e⟩
  have hl : i < g.len c := by rw [S.len]; omega
  have hcg : c < g.npoly := by rw [S.npoly]; exact hc
  refine ⟨⟨setRow_wf S.wf _ _, S.only.trans (setRow_only S.wf hcg (addr_mem hl) _), S.npoly, S.nct, S.len⟩, e⟩

theorem rows3_row (W : WF h) {n : ℕ} (f : ℕ → RowBuf N → RowBuf N → RowBuf N → RowBuf N) {a b c : ℕ} (ha : a < h.npoly) (hb : b < h.npoly)
    (hc : c < h.npoly) (la : n ≤ h.len a) (lb : n ≤ h.len b) (lc : n ≤ h.len c) {p i : ℕ} (hp : p < h.npoly) (hi : i < h.len p) :
    (rows3 n f a b c h).row (h.addr p i) =
      if p = c ∧ i < n then f i (h.row (h.addr a i)) (h.row (h.addr b i)) (h.row (h.addr c i)) else h.row (h.addr p i) := by
  have key : ∀ k ≤ n, (rows3 k f a b c h).poly = h.poly ∧ ∀ p < h.npoly, ∀ i < h.len p, (rows3 k f a b c h).row (h.addr p i) =
      if p = c ∧ i < k then f i (h.row (h.addr a i)) (h.row (h.addr b i)) (h.row (h.addr c i)) else h.row (h.addr p i) := by
    intro k
    induction k with
    | zero => intro _; exact ⟨rfl, fun p _ i _ => by simp [rows3, forN]⟩
    | succ k ih =>
      intro hm
      obtain ⟨e1, e2⟩ := ih (by omega)
      unfold rows3 at e1 e2 ⊢
      rw [forN_succ]
      set g := forN k (fun h i => h.setRow (h.addr c i) (f i (h.row (h.addr a i)) (h.row (h.addr b i)) (h.row (h.addr c i)))) h with hg
      have ad : ∀ p i, g.addr p i = h.addr p i := fun p i => by unfold addr; rw [e1]
      refine ⟨e1, fun p hp i hi => ?_⟩
      show Function.update g.row (g.addr c k) _ _ = _
      rw [ad, ad, ad, e2 a ha k (by omega), e2 b hb k (by omega), e2 c hc k (by omega), if_neg (by omega), if_neg (by omega), if_neg (by omega)]
      by_cases hpc : h.addr p i = h.addr c k
      · obtain ⟨rfl, rfl⟩ := addr_inj W hp hc hi (by omega) hpc
        rw [Function.update_self, if_pos ⟨rfl, by omega⟩]
      · rw [Function.update_of_ne hpc, e2 p hp i hi]
        by_cases hx : p = c ∧ i < k
        · rw [if_pos hx, if_pos ⟨hx.1, by omega⟩]
        · rw [if_neg hx, if_neg]
          rintro ⟨rfl, hlt⟩
          have : i = k := by by_contra hne; exact hx ⟨rfl, by omega⟩
          subst this
          exact hpc rfl
  exact (key n le_rfl).2 p hp i hi

/-- a ring function on three polynomials with exactly `n` rows -/
theorem op3_run {m : ℕ → ℕ} (W : WF h) {n : ℕ} (f : ∀ i, Limb N (m i) → Limb N (m i) → Limb N (m i) → Limb N (m i)) {a b c : ℕ}
    (ha : a < h.npoly) (hb : b < h.npoly) (hc : c < h.npoly) (la : h.len a = n) (lb : h.len b = n) (lc : h.len c = n) :
    ∃ h', op3 m n f a b c h = .ok h' ∧ KStep {c} h h' ∧
      ∀ i, rowsOf m h' c i = if i < n then f i (rowsOf m h a i) (rowsOf m h b i) (rowsOf m h c i) else rowsOf m h c i := by
  obtain ⟨S, e⟩ := rows3_step (h := h) n (lift3 f) a b c W hc (by omega)
  refine ⟨rows3 n (lift3 f) a b c h, by unfold op3; rw [if_pos ⟨by omega, by omega, by omega⟩], S, fun i => ?_⟩
  unfold rowsOf
  rw [S.len]
  by_cases hi : i < n
  · have ad : (rows3 n (lift3 f) a b c h).addr c i = h.addr c i := by unfold addr; rw [e]
    rw [la, lb, lc]
    simp only [if_pos hi]
    rw [ad, rows3_row W (lift3 f) ha hb hc (by omega) (by omega) (by omega) hc (by omega), if_pos ⟨rfl, hi⟩]
    exact rdM_wr (N := N) (m := m) (i := i) _
  · rw [lc]
    simp only [if_neg hi]

end rows3

/-! ## PolyQP -/

section qp
variable {C : Ctx N}

variable (C) in
/-- a PolyQP object with all rows, whose value is `V` -/
structure QPAt (h : Heap N) (v : QP) (V : PolyQP C) : Prop where
  q : v.q < h.npoly
  p : v.p < h.npoly
  ne : v.p ≠ v.q
  lenQ : h.len v.q = C.nQ
  lenP : h.len v.p = C.nP
  val : qpVal C h v = V

theorem QPAt.Q {h : Heap N} {v : QP} {V : PolyQP C} (a : QPAt C h v V) : rowsOf C.q h v.q = V.Q := congrArg PolyQP.Q a.val
theorem QPAt.P {h : Heap N} {v : QP} {V : PolyQP C} (a : QPAt C h v V) : rowsOf C.p h v.p = V.P := congrArg PolyQP.P a.val

/-- writes elsewhere do not change it -/
theorem QPAt.keep {h h' : Heap N} {v : QP} {V : PolyQP C} (a : QPAt C h v V) {Wp Wc : Set ℕ} (o : Only Wp Wc h h') (hq : v.q ∉ Wp) (hp : v.p ∉ Wp) :
    QPAt C h' v V where
  q := a.q.trans_le o.npoly
  p := a.p.trans_le o.npoly
  ne := a.ne
  lenQ := by have := o.poly v.q a.q hq; unfold len; rw [this]; exact a.lenQ
  lenP := by have := o.poly v.p a.p hp; unfold len; rw [this]; exact a.lenP
  val := by
    unfold qpVal
    rw [o.rowsOf a.q hq, o.rowsOf a.p hp]
    exact a.val

/-- the polynomials of a PolyQP -/
def QP.mem (v : QP) : Set ℕ := {v.q, v.p}

theorem setP_apply (n : ℕ) (x y : PRows C) (j : ℕ) : setP n x y j = if j < n then x j else y j := rfl

/-- a function of `ringQP` -/
theorem qpOp_run (hn : 0 < C.nQ) {h : Heap N} (W : WF h) (f : ∀ i, Limb N (C.q i) → Limb N (C.q i) → Limb N (C.q i) → Limb N (C.q i))
    (g : ∀ j, Limb N (C.p j) → Limb N (C.p j) → Limb N (C.p j) → Limb N (C.p j)) {a b c : QP} {A B D : PolyQP C}
    (ha : QPAt C h a A) (hb : QPAt C h b B) (hc : QPAt C h c D) (na : a.p ≠ c.q) (nb : b.p ≠ c.q) :
    ∃ h', qpOp f g a b c h = .ok h' ∧ KStep c.mem h h' ∧
      QPAt C h' c (setQP (C.nQ - 1) ⟨fun i => f i (A.Q i) (B.Q i) (D.Q i), fun j => g j (A.P j) (B.P j) (D.P j)⟩ D) := by
  obtain ⟨h1, e1, S1, r1⟩ := op3_run W f ha.q hb.q hc.q ha.lenQ hb.lenQ hc.lenQ
  have kp : ∀ {x : QP} {X : PolyQP C}, QPAt C h x X → x.p ≠ c.q → x.p < h1.npoly ∧ h1.len x.p = C.nP ∧ rowsOf C.p h1 x.p = X.P := by
    intro x X hx hne
    exact ⟨by rw [S1.npoly]; exact hx.p, by rw [S1.len]; exact hx.lenP, by rw [S1.only.rowsOf hx.p hne]; exact hx.P⟩
  obtain ⟨a1, a2, a3⟩ := kp ha na
  obtain ⟨b1, b2, b3⟩ := kp hb nb
  obtain ⟨c1, c2, c3⟩ := kp hc hc.ne
  obtain ⟨h2, e2, S2, r2⟩ := op3_run S1.wf g a1 b1 c1 a2 b2 c2
  refine ⟨h2, ?_, (S1.mono (fun x hx => Or.inl hx)).trans (S2.mono (fun x hx => Or.inr hx)), ?_⟩
  · unfold qpOp
    rw [e1]
    exact e2
  · refine ⟨by rw [S2.npoly, S1.npoly]; exact hc.q, by rw [S2.npoly, S1.npoly]; exact hc.p, hc.ne, by rw [S2.len, S1.len]; exact hc.lenQ,
      by rw [S2.len, S1.len]; exact hc.lenP, ?_⟩
    unfold qpVal setQP
    congr 1
    · have hq1 : c.q < h1.npoly := by rw [S1.npoly]; exact hc.q
      rw [S2.only.rowsOf hq1 (fun hh => hc.ne hh.symm)]
      funext i
      rw [r1, ha.Q, hb.Q, hc.Q]
      unfold setQ
      by_cases hi : i < C.nQ
      · rw [if_pos hi, if_pos (by omega)]
      · rw [if_neg hi, if_neg (by omega)]
    · funext j
      rw [r2, a3, b3, c3]
      rfl

theorem hMul_run (hn : 0 < C.nQ) {h : Heap N} (W : WF h) {a b c : QP} {A B D : PolyQP C} (ha : QPAt C h a A) (hb : QPAt C h b B) (hc : QPAt C h c D)
    (na : a.p ≠ c.q) (nb : b.p ≠ c.q) : ∃ h', hMul C a b c h = .ok h' ∧ KStep c.mem h h' ∧ QPAt C h' c (qpMul (C.nQ - 1) A B D) :=
  qpOp_run hn W _ _ ha hb hc na nb

theorem hMulAdd_run (hn : 0 < C.nQ) {h : Heap N} (W : WF h) {a b c : QP} {A B D : PolyQP C} (ha : QPAt C h a A) (hb : QPAt C h b B) (hc : QPAt C h c D)
    (na : a.p ≠ c.q) (nb : b.p ≠ c.q) : ∃ h', hMulAdd C a b c h = .ok h' ∧ KStep c.mem h h' ∧ QPAt C h' c (qpMulAdd (C.nQ - 1) A B D) :=
  qpOp_run hn W _ _ ha hb hc na nb

theorem hMulSub_run (hn : 0 < C.nQ) {h : Heap N} (W : WF h) {a b c : QP} {A B D : PolyQP C} (ha : QPAt C h a A) (hb : QPAt C h b B) (hc : QPAt C h c D)
    (na : a.p ≠ c.q) (nb : b.p ≠ c.q) : ∃ h', hMulSub C a b c h = .ok h' ∧ KStep c.mem h h' ∧ QPAt C h' c (qpMulSub (C.nQ - 1) A B D) :=
  qpOp_run hn W _ _ ha hb hc na nb

theorem hSub_run (hn : 0 < C.nQ) {h : Heap N} (W : WF h) {a b c : QP} {A B D : PolyQP C} (ha : QPAt C h a A) (hb : QPAt C h b B) (hc : QPAt C h c D)
    (na : a.p ≠ c.q) (nb : b.p ≠ c.q) : ∃ h', hSub C a b c h = .ok h' ∧ KStep c.mem h h' ∧ QPAt C h' c (qpSub (C.nQ - 1) A B D) :=
  qpOp_run hn W _ _ ha hb hc na nb

theorem hAdd_run (hn : 0 < C.nQ) {h : Heap N} (W : WF h) {a b c : QP} {A B D : PolyQP C} (ha : QPAt C h a A) (hb : QPAt C h b B) (hc : QPAt C h c D)
    (na : a.p ≠ c.q) (nb : b.p ≠ c.q) : ∃ h', hAdd C a b c h = .ok h' ∧ KStep c.mem h h' ∧
      QPAt C h' c (setQP (C.nQ - 1) ⟨fun i => (C.RQ i).add (A.Q i) (B.Q i), fun j => (C.RP j).add (A.P j) (B.P j)⟩ D) :=
  qpOp_run hn W _ _ ha hb hc na nb

theorem hMForm_run (hn : 0 < C.nQ) {h : Heap N} (W : WF h) {a c : QP} {A D : PolyQP C} (ha : QPAt C h a A) (hc : QPAt C h c D)
    (na : a.p ≠ c.q) : ∃ h', hMForm C a c h = .ok h' ∧ KStep c.mem h h' ∧ QPAt C h' c (qpMForm (C.nQ - 1) A D) :=
  qpOp_run hn W _ _ ha ha hc na na

theorem hInvMForm_run (hn : 0 < C.nQ) {h : Heap N} (W : WF h) {a c : QP} {A D : PolyQP C} (ha : QPAt C h a A) (hc : QPAt C h c D)
    (na : a.p ≠ c.q) : ∃ h', hInvMForm C a c h = .ok h' ∧ KStep c.mem h h' ∧ QPAt C h' c (qpInvMForm (C.nQ - 1) A D) :=
  qpOp_run hn W _ _ ha ha hc na na

theorem hNTT_run (hn : 0 < C.nQ) {h : Heap N} (W : WF h) {a c : QP} {A D : PolyQP C} (ha : QPAt C h a A) (hc : QPAt C h c D)
    (na : a.p ≠ c.q) : ∃ h', hNTT C a c h = .ok h' ∧ KStep c.mem h h' ∧ QPAt C h' c (qpNTT (C.nQ - 1) A D) :=
  qpOp_run hn W _ _ ha ha hc na na

theorem hPerm_run (hn : 0 < C.nQ) {h : Heap N} (W : WF h) (g : ℕ) {a c : QP} {A D : PolyQP C} (ha : QPAt C h a A) (hc : QPAt C h c D)
    (na : a.p ≠ c.q) : ∃ h', hPerm C g a c h = .ok h' ∧ KStep c.mem h h' ∧
      QPAt C h' c (setQP (C.nQ - 1) ⟨fun i => (C.RQ i).permNTT g (A.Q i), fun j => (C.RP j).permNTT g (A.P j)⟩ D) :=
  qpOp_run hn W _ _ ha ha hc na na

theorem hNeg_run (hn : 0 < C.nQ) {h : Heap N} (W : WF h) {c : QP} {D : PolyQP C} (hc : QPAt C h c D) :
    ∃ h', hNeg C c h = .ok h' ∧ KStep c.mem h h' ∧
      QPAt C h' c (setQP (C.nQ - 1) ⟨fun i => (C.RQ i).neg (D.Q i), fun j => (C.RP j).neg (D.P j)⟩ D) :=
  qpOp_run hn W _ _ hc hc hc hc.ne hc.ne

theorem hMulScalar_run (hn : 0 < C.nQ) {h : Heap N} (W : WF h) (G : ℕ) {c : QP} {D : PolyQP C} (hc : QPAt C h c D) :
    ∃ h', hMulScalar C G c h = .ok h' ∧ KStep c.mem h h' ∧
      QPAt C h' c (setQP (C.nQ - 1) ⟨fun i => (C.RQ i).mulScalar G (D.Q i), fun j => (C.RP j).mulScalar G (D.P j)⟩ D) :=
  qpOp_run hn W _ _ hc hc hc hc.ne hc.ne

theorem hSample_run (hn : 0 < C.nQ) {h : Heap N} (W : WF h) (x : Nega N ℤ) {c : QP} {D : PolyQP C} (hc : QPAt C h c D) :
    ∃ h', hSample C x c h = .ok h' ∧ KStep c.mem h h' ∧ QPAt C h' c (sampleQP x D) := by
  obtain ⟨h1, e1, S1, r1⟩ := op3_run (m := C.q) W (fun i _ _ _ => smallRow (C.q i) x) hc.q hc.q hc.q hc.lenQ hc.lenQ hc.lenQ
  have c1 : c.p < h1.npoly := by rw [S1.npoly]; exact hc.p
  have c2 : h1.len c.p = C.nP := by rw [S1.len]; exact hc.lenP
  have c3 : rowsOf C.p h1 c.p = D.P := by rw [S1.only.rowsOf hc.p hc.ne]; exact hc.P
  have hl : h1.len c.q = C.nQ := by rw [S1.len]; exact hc.lenQ
  have r0 : rdM C.q 0 (h1.row (h1.addr c.q 0)) = smallRow (C.q 0) x := by
    have := r1 0
    rw [if_pos hn] at this
    unfold rowsOf at this
    rwa [if_pos (by omega)] at this
  obtain ⟨h2, e2, S2, r2⟩ := op3_run (m := C.p) S1.wf (fun j _ _ _ => extendSmall (C := C) (rdM C.q 0 (h1.row (h1.addr c.q 0))) j) c1 c1 c1 c2 c2 c2
  refine ⟨h2, ?_, (S1.mono (fun x hx => Or.inl hx)).trans (S2.mono (fun x hx => Or.inr hx)), ?_⟩
  · unfold hSample
    rw [e1]
    show (if h1.len c.q = 0 then _ else _) = _
    rw [if_neg (by omega)]
    exact e2
  · refine ⟨by rw [S2.npoly, S1.npoly]; exact hc.q, by rw [S2.npoly, S1.npoly]; exact hc.p, hc.ne, by rw [S2.len, S1.len]; exact hc.lenQ,
      by rw [S2.len, S1.len]; exact hc.lenP, ?_⟩
    unfold qpVal sampleQP setQP
    congr 1
    · have hq1 : c.q < h1.npoly := by rw [S1.npoly]; exact hc.q
      rw [S2.only.rowsOf hq1 (fun hh => hc.ne hh.symm)]
      funext i
      rw [r1, hc.Q]
      unfold setQ smallRows
      by_cases hi : i < C.nQ
      · rw [if_pos hi, if_pos (by omega)]
      · rw [if_neg hi, if_neg (by omega)]
    · funext j
      rw [r2, c3, r0]
      rfl

theorem KStep.qp {h h' : Heap N} {Wp : Set ℕ} (S : KStep Wp h h') {v : QP} {X : PolyQP C} (a : QPAt C h v X) (hq : v.q ∉ Wp) (hp : v.p ∉ Wp) :
    QPAt C h' v X := a.keep S.only hq hp

/-- a separate PolyQP is not touched by a step on `c` -/
theorem KStep.apart {h h' : Heap N} {c : QP} (S : KStep c.mem h h') {v : QP} {X : PolyQP C} (a : QPAt C h v X) (h1 : v.q ≠ c.q) (h2 : v.q ≠ c.p)
    (h3 : v.p ≠ c.q) (h4 : v.p ≠ c.p) : QPAt C h' v X :=
  S.qp a (by rintro (h | h); exacts [h1 h, h2 h]) (by rintro (h | h); exacts [h3 h, h4 h])

end qp

/-! ## allocation -/

section alloc
variable {h : Heap N}

/-- a computation that allocates, and changes nothing that existed -/
structure Grow (h h' : Heap N) : Prop where
  wf : WF h'
  only : Only ∅ ∅ h h'
  nct : h'.nct = h.nct

theorem Grow.refl (W : WF h) : Grow h h := ⟨W, Only.refl _ _ _, rfl⟩

theorem Grow.trans {h1 h2 : Heap N} (a : Grow h h1) (b : Grow h1 h2) : Grow h h2 := ⟨b.wf, a.only.trans b.only, b.nct.trans a.nct⟩

theorem rowsOf_alloc (m : ℕ → ℕ) (h : Heap N) (b : Bool) (rows : List (RowBuf N)) (i : ℕ) :
    (h.allocPoly b rows).2.len h.npoly = rows.length ∧
    rowsOf m (h.allocPoly b rows).2 h.npoly i = if i < rows.length then rdM m i (rows.getD i 0) else Limb.zero := by
  have hself : (h.allocPoly b rows).2.poly h.npoly = ⟨(List.range rows.length).map (h.nrow + ·), b⟩ := Function.update_self _ _ _
  have hlen : (h.allocPoly b rows).2.len h.npoly = rows.length := by unfold len; rw [hself]; simp
  refine ⟨hlen, ?_⟩
  unfold rowsOf
  rw [hlen]
  split
  · rename_i hi
    congr 1
    have ha : (h.allocPoly b rows).2.addr h.npoly i = h.nrow + i := by
      unfold addr
      rw [hself]
      simp [List.getD_eq_getElem?_getD, hi]
    rw [ha]
    show (if _ then _ else _) = _
    rw [if_pos ⟨by omega, by omega⟩]
    congr 1
    omega
  · rfl

theorem alloc_grow (W : WF h) (b : Bool) (rows : List (RowBuf N)) : Grow h (h.allocPoly b rows).2 := by
  obtain ⟨a1, a2, -, a4, -, -⟩ := allocPoly_inv W b rows
  exact ⟨a1, a2, a4⟩

variable {C : Ctx N}

theorem newQP_spec (W : WF h) : Grow h (newQP C h).2 ∧ (newQP C h).1 = ⟨h.npoly, h.npoly + 1⟩ ∧ (newQP C h).2.npoly = h.npoly + 2 ∧
    QPAt C (newQP C h).2 (newQP C h).1 PolyQP.zero := by
  obtain ⟨l1, -⟩ := rowsOf_alloc C.q h false (List.replicate C.nQ 0) 0
  obtain ⟨l2, -⟩ := rowsOf_alloc C.p (h.allocPoly false (List.replicate C.nQ 0)).2 false (List.replicate C.nP 0) 0
  have g1 := alloc_grow W false (List.replicate C.nQ (0 : RowBuf N))
  have g2 := alloc_grow g1.wf false (List.replicate C.nP (0 : RowBuf N))
  have n1 : (h.allocPoly false (List.replicate C.nQ (0 : RowBuf N))).2.npoly = h.npoly + 1 := rfl
  have hk : h.npoly < (h.allocPoly false (List.replicate C.nQ (0 : RowBuf N))).2.npoly := by rw [n1]; omega
  rw [List.length_replicate] at l1 l2
  refine ⟨g1.trans g2, rfl, rfl, ⟨?_, ?_, ?_, ?_, l2, ?_⟩⟩
  · show h.npoly < h.npoly + 2; omega
  · show h.npoly + 1 < h.npoly + 2; omega
  · show h.npoly + 1 ≠ h.npoly; omega
  · rw [← l1]
    exact congrArg (fun o => o.coeffs.length) (g2.only.poly h.npoly hk (by simp))
  · unfold qpVal PolyQP.zero
    congr 1
    · funext i
      rw [show rowsOf C.q (newQP C h).2 (newQP C h).1.q = rowsOf C.q _ h.npoly from g2.only.rowsOf hk (by simp)]
      rw [(rowsOf_alloc C.q h false (List.replicate C.nQ 0) i).2]
      split
      · rename_i hi
        rw [List.length_replicate] at hi
        rw [List.getD_eq_getElem?_getD, List.getElem?_replicate, if_pos hi]
        exact rdM_zero _ i
      · rfl
    · funext i
      refine (rowsOf_alloc C.p (h.allocPoly false (List.replicate C.nQ 0)).2 false (List.replicate C.nP 0) i).2.trans ?_
      split
      · rename_i hi
        rw [List.length_replicate] at hi
        rw [List.getD_eq_getElem?_getD, List.getElem?_replicate, if_pos hi]
        exact rdM_zero _ i
      · rfl

theorem polyCopyNew_rows (m : ℕ → ℕ) (h : Heap N) (p : ℕ) :
    (h.polyCopyNew p).2.len h.npoly = h.len p ∧ rowsOf m (h.polyCopyNew p).2 h.npoly = rowsOf m h p := by
  unfold polyCopyNew
  refine ⟨?_, ?_⟩
  · rw [(rowsOf_alloc m h _ _ 0).1, List.length_map]; rfl
  · funext i
    rw [(rowsOf_alloc m h _ _ i).2, List.length_map]
    unfold rowsOf len addr
    split
    · rename_i hi
      congr 1
      simp [List.getD_eq_getElem?_getD, hi]
    · rfl

/-- `PolyQP.CopyNew` -/
theorem qpCopyNew_spec (W : WF h) {v : QP} (hp : v.p < h.npoly) : Grow h (qpCopyNew v h).2 ∧
    (qpCopyNew v h).1 = ⟨h.npoly, h.npoly + 1⟩ ∧ (qpCopyNew v h).2.npoly = h.npoly + 2 ∧
    (qpCopyNew v h).2.len h.npoly = h.len v.q ∧ (qpCopyNew v h).2.len (h.npoly + 1) = h.len v.p ∧
    ((qpCopyNew v h).2.poly h.npoly).isNTT = (h.poly v.q).isNTT ∧ ((qpCopyNew v h).2.poly (h.npoly + 1)).isNTT = (h.poly v.p).isNTT ∧
    qpVal C (qpCopyNew v h).2 (qpCopyNew v h).1 = qpVal C h v := by
  have g1 : Grow h (h.polyCopyNew v.q).2 := alloc_grow W _ _
  have g2 : Grow (h.polyCopyNew v.q).2 ((h.polyCopyNew v.q).2.polyCopyNew v.p).2 := alloc_grow g1.wf _ _
  have hk : h.npoly < (h.polyCopyNew v.q).2.npoly := show h.npoly < h.npoly + 1 by omega
  obtain ⟨l1, r1⟩ := polyCopyNew_rows C.q h v.q
  obtain ⟨l2, r2⟩ := polyCopyNew_rows C.p (h.polyCopyNew v.q).2 v.p
  have ek : (qpCopyNew v h).2.poly h.npoly = (h.polyCopyNew v.q).2.poly h.npoly := g2.only.poly h.npoly hk (by simp)
  have ep := g1.only.poly v.p hp (by simp)
  refine ⟨g1.trans g2, rfl, rfl, ?_, ?_, ?_, ?_, ?_⟩
  · rw [← l1]; unfold len; rw [ek]
  · refine l2.trans ?_
    unfold len; rw [ep]
  · have : (h.polyCopyNew v.q).2.poly h.npoly = _ := Function.update_self h.npoly _ h.poly
    rw [ek, this]
  · have : (qpCopyNew v h).2.poly (h.npoly + 1) = _ := Function.update_self (h.npoly + 1) _ (h.polyCopyNew v.q).2.poly
    rw [this, ← ep]
  · unfold qpVal
    congr 1
    · refine (g2.only.rowsOf hk (by simp)).trans r1
    · exact r2.trans (g1.only.rowsOf hp (by simp))

/-- the components of a switching key that was allocated when `n` was the next address -/
def swkObj (n β : ℕ) : SwkObj := (List.range β).map fun i => ⟨n + 2 * i, n + 2 * i + 1⟩

theorem swkObj_get {n β i : ℕ} (hi : i < β) : (swkObj n β)[i]? = some ⟨n + 2 * i, n + 2 * i + 1⟩ := by
  unfold swkObj
  simp [hi]

theorem blk_swkObj {n β i : ℕ} (hi : i < β) : blk (swkObj n β) i = .ok ⟨n + 2 * i, n + 2 * i + 1⟩ := by
  unfold blk
  rw [swkObj_get hi]

variable (C) in
/-- a switching key at these addresses, with value `S` -/
def SwkAt (h : Heap N) (n : ℕ) (S : Swk C) : Prop :=
  S.len = C.beta (C.nQ - 1) ∧ ∀ i < C.beta (C.nQ - 1), QPAt C h ⟨n + 2 * i, n + 2 * i + 1⟩ (S.val i)

theorem SwkAt.keep {h' : Heap N} {n : ℕ} {S : Swk C} (a : SwkAt C h n S) {Wp Wc : Set ℕ} (o : Only Wp Wc h h')
    (hw : ∀ x, n ≤ x → x < n + 2 * C.beta (C.nQ - 1) → x ∉ Wp) : SwkAt C h' n S :=
  ⟨a.1, fun i hi => (a.2 i hi).keep o (hw _ (show n ≤ n + 2 * i by omega) (show n + 2 * i < _ by omega))
    (hw _ (show n ≤ n + 2 * i + 1 by omega) (show n + 2 * i + 1 < _ by omega))⟩

theorem newSwitchingKey_spec (W : WF h) : Grow h (newSwitchingKey C h).2 ∧ (newSwitchingKey C h).1 = swkObj h.npoly (C.beta (C.nQ - 1)) ∧
    (newSwitchingKey C h).2.npoly = h.npoly + 2 * C.beta (C.nQ - 1) ∧ SwkAt C (newSwitchingKey C h).2 h.npoly Swk.new := by
  have key : ∀ k, ∀ w : SwkObj × Heap N, w = (List.range k).foldl (fun (w : SwkObj × Heap N) _ => (w.1 ++ [(newQP C w.2).1], (newQP C w.2).2)) ([], h) →
      Grow h w.2 ∧ w.1 = swkObj h.npoly k ∧ w.2.npoly = h.npoly + 2 * k ∧
        ∀ i < k, QPAt C w.2 ⟨h.npoly + 2 * i, h.npoly + 2 * i + 1⟩ PolyQP.zero := by
    intro k
    induction k with
    | zero => rintro w rfl; exact ⟨Grow.refl W, rfl, rfl, fun i hi => absurd hi (Nat.not_lt_zero i)⟩
    | succ k ih =>
      rintro w rfl
      rw [List.range_succ, List.foldl_append, List.foldl_cons, List.foldl_nil]
      obtain ⟨g, e, n, z⟩ := ih _ rfl
      set v := (List.range k).foldl (fun (w : SwkObj × Heap N) _ => (w.1 ++ [(newQP C w.2).1], (newQP C w.2).2)) ([], h)
      obtain ⟨g', e', n', z'⟩ := newQP_spec (C := C) g.wf
      rw [n] at e'
      refine ⟨g.trans g', ?_, ?_, fun i hi => ?_⟩
      · show v.1 ++ [(newQP C v.2).1] = _
        rw [e, e']
        unfold swkObj
        rw [List.range_succ, List.map_append, List.map_singleton]
      · show (newQP C v.2).2.npoly = _
        rw [n', n]; omega
      · show QPAt C (newQP C v.2).2 _ _
        rcases Nat.lt_succ_iff_lt_or_eq.mp hi with hi' | rfl
        · exact (z i hi').keep g'.only (by simp) (by simp)
        · rw [e'] at z'
          exact z'
  obtain ⟨g, e, n, z⟩ := key (C.beta (C.nQ - 1)) _ rfl
  exact ⟨g, e, n, rfl, z⟩

end alloc

end Heap
end MKHE
