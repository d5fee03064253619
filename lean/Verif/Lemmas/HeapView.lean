import Verif.Lemmas.HeapOps
import Verif.Props.Crypt

set_option autoImplicit false
set_option linter.unusedSectionVars false

/-!
# Contents after the functions of `Verif/Model/Heap.lean`, and their relation to the functions on values
-/

namespace MKHE
namespace Heap
variable {N : ℕ} [NeZero N] {C : Ctx N}

theorem need_lt {P : Poly C} {level : ℕ} (e : P.need level = .ok ()) : level < P.len := by
  unfold Poly.need at e
  split at e
  · assumption
  · cases e

theorem rd_wr {i : ℕ} (l : Limb N (C.q i)) : rd C i (wr l) = l := by
  funext t
  unfold rd wr toWord
  cases h : l t with
  | mk v hv => simp [hv]

/-- the heap with nothing allocated -/
def empty : Heap N := ⟨fun _ => 0, fun _ => ⟨[], false⟩, fun _ => ∅, 0, 0, 0⟩

theorem empty_wf : WF (empty : Heap N) :=
  ⟨fun p hp => absurd hp (Nat.not_lt_zero _), fun c hc => absurd hc (Nat.not_lt_zero _), fun p hp => absurd hp (Nat.not_lt_zero _),
    fun p hp => absurd hp (Nat.not_lt_zero _)⟩

theorem value_lookup (h : Heap N) (c : ℕ) (id : String) : (value C h c).lookup id = ((h.ct c).lookup id).map (view C h) := by
  show List.dlookup id ((h.ct c).entries.map fun e => (⟨e.1, view C h e.2⟩ : Sigma fun _ : String => Poly C)) =
    (List.dlookup id (h.ct c).entries).map (view C h)
  induction (h.ct c).entries with
  | nil => rfl
  | cons e l ih =>
    obtain ⟨k, v⟩ := e
    by_cases hk : k = id
    · subst hk; simp
    · rw [List.map_cons, List.dlookup_cons_ne _ _ (Ne.symm hk), List.dlookup_cons_ne _ _ (Ne.symm hk)]; exact ih

theorem value_keys (h : Heap N) (c : ℕ) : (value C h c).keys = (h.ct c).keys := by
  show ((h.ct c).entries.map fun e => (⟨e.1, view C h e.2⟩ : Sigma fun _ : String => Poly C)).keys = (h.ct c).entries.keys
  unfold List.keys
  rw [List.map_map]
  rfl

theorem value_mem {h : Heap N} {c : ℕ} {id : String} : id ∈ value C h c ↔ id ∈ h.ct c := by
  rw [AList.mem_keys, AList.mem_keys, value_keys]

theorem value_ids {h : Heap N} {c : ℕ} {id : String} : id ∈ (value C h c).ids ↔ id ∈ h.ct c ∧ id ≠ "0" := by
  rw [Ct.mem_ids, value_mem]

/-- equal maps and equal views give equal values -/
theorem value_congr {h h' : Heap N} {c c' : ℕ} (hc : h'.ct c' = h.ct c) (hv : ∀ id p, (h.ct c).lookup id = some p → view C h' p = view C h p) :
    value C h' c' = value C h c := by
  unfold value
  congr 1
  rw [hc]
  refine List.map_congr_left fun e he => ?_
  have : (h.ct c).lookup e.1 = some e.2 := (AList.mem_lookup_iff (s := h.ct c)).mpr he
  rw [hv _ _ this]

theorem Only.value {Wp Wc : Set ℕ} {h h' : Heap N} (W : WF h) (o : Only Wp Wc h h') {c : ℕ} (hc : c < h.nct) (hw : c ∉ Wc)
    (hp : ∀ id p, (h.ct c).lookup id = some p → p ∉ Wp) : Heap.value C h' c = Heap.value C h c :=
  value_congr (o.ct c hc hw) fun id p e => o.view (W.ctB c hc id p e) (hp id p e)

theorem level_value {h : Heap N} {c : ℕ} : h.level c = (value C h c).level := by
  unfold level get Ct.level GoMap.deref
  rw [value_lookup]
  cases (h.ct c).lookup "0" <;> rfl

theorem idSet_value (o : Order String) (h : Heap N) (c : ℕ) : h.idSet o c = IDSet.ofCiphertext o (value C h c) := by
  unfold idSet IDSet.ofCiphertext GoMap.range
  rw [value_keys]

/-! ## contents after the lattigo loops -/

section rows
variable {h : Heap N}

theorem rowsOp_ct (n : ℕ) (f : ℕ → RowBuf N → RowBuf N → RowBuf N) (a b c : ℕ) : (h.rowsOp n f a b c).ct = h.ct := by
  unfold rowsOp
  refine forN_inv n _ (fun _ g => g.ct = h.ct) h rfl ?_
  intro i g _ hg
  exact hg

theorem Only.mono {h' : Heap N} {Wp Wp' Wc Wc' : Set ℕ} (o : Only Wp Wc h h') (hp : Wp ⊆ Wp') (hc : Wc ⊆ Wc') : Only Wp' Wc' h h' :=
  ⟨o.nrow, o.npoly, o.nct, fun p hl hw => o.poly p hl (fun x => hw (hp x)), fun p hl hw => o.row p hl (fun x => hw (hp x)),
    fun c hl hw => o.ct c hl (fun x => hw (hc x))⟩

theorem addr_mem {p i : ℕ} (hi : i < h.len p) : h.addr p i ∈ (h.poly p).coeffs := getD_mem hi

theorem addr_inj (W : WF h) {p p' i i' : ℕ} (hp : p < h.npoly) (hp' : p' < h.npoly) (hi : i < h.len p) (hi' : i' < h.len p')
    (e : h.addr p i = h.addr p' i') : p = p' ∧ i = i' := by
  have : p = p' := W.own p hp p' hp' _ (addr_mem hi) (by rw [e]; exact addr_mem hi')
  subst this
  refine ⟨rfl, ?_⟩
  have hn := W.nodup p hp
  unfold addr at e
  rw [List.getD_eq_getElem?_getD, List.getD_eq_getElem?_getD, List.getElem?_eq_getElem hi, List.getElem?_eq_getElem hi'] at e
  exact (List.Nodup.getElem_inj_iff hn).mp e

theorem rowsOp_row (W : WF h) {n : ℕ} (f : ℕ → RowBuf N → RowBuf N → RowBuf N) {a b c : ℕ} (ha : a < h.npoly) (hb : b < h.npoly) (hc : c < h.npoly)
    (la : n ≤ h.len a) (lb : n ≤ h.len b) (lc : n ≤ h.len c) {p i : ℕ} (hp : p < h.npoly) (hi : i < h.len p) :
    (h.rowsOp n f a b c).row (h.addr p i) =
      if p = c ∧ i < n then f i (h.row (h.addr a i)) (h.row (h.addr b i)) else h.row (h.addr p i) := by
  have key : ∀ m ≤ n, (forN m (fun h i => h.setRow (h.addr c i) (f i (h.row (h.addr a i)) (h.row (h.addr b i)))) h).poly = h.poly ∧
      ∀ p < h.npoly, ∀ i < h.len p,
        (forN m (fun h i => h.setRow (h.addr c i) (f i (h.row (h.addr a i)) (h.row (h.addr b i)))) h).row (h.addr p i) =
          if p = c ∧ i < m then f i (h.row (h.addr a i)) (h.row (h.addr b i)) else h.row (h.addr p i) := by
    intro m
    induction m with
    | zero => intro _; exact ⟨rfl, fun p _ i _ => by simp⟩
    | succ m ih =>
      intro hm
      obtain ⟨e1, e2⟩ := ih (by omega)
      rw [forN_succ]
      set g := forN m (fun h i => h.setRow (h.addr c i) (f i (h.row (h.addr a i)) (h.row (h.addr b i)))) h with hg
      have ad : ∀ p i, g.addr p i = h.addr p i := fun p i => by unfold addr; rw [e1]
      refine ⟨e1, fun p hp i hi => ?_⟩
      show Function.update g.row (g.addr c m) _ _ = _
      rw [ad, ad, ad, e2 a ha m (by omega), e2 b hb m (by omega), if_neg (by omega), if_neg (by omega)]
      by_cases hpc : h.addr p i = h.addr c m
      · obtain ⟨rfl, rfl⟩ := addr_inj W hp hc hi (by omega) hpc
        rw [Function.update_self, if_pos ⟨rfl, by omega⟩]
      · rw [Function.update_of_ne hpc, e2 p hp i hi]
        by_cases hx : p = c ∧ i < m
        · rw [if_pos hx, if_pos ⟨hx.1, by omega⟩]
        · rw [if_neg hx, if_neg]
          rintro ⟨rfl, hlt⟩
          have : i = m := by by_contra hne; exact hx ⟨rfl, by omega⟩
          subst this
          exact hpc rfl
  exact (key n le_rfl).2 p hp i hi

theorem view_rowsOp (W : WF h) {n : ℕ} (f : ℕ → RowBuf N → RowBuf N → RowBuf N) {a b c : ℕ} (ha : a < h.npoly) (hb : b < h.npoly) (hc : c < h.npoly)
    (la : n ≤ h.len a) (lb : n ≤ h.len b) (lc : n ≤ h.len c) :
    (h.rowsOp n f a b c).view C c = ⟨h.len c, (h.poly c).isNTT, fun i =>
      (if i < n then (rd C i (f i (h.row (h.addr a i)) (h.row (h.addr b i)))) else (h.view C c).rows i)⟩ := by
  obtain ⟨-, -, e, -⟩ := rowsOp_inv (h := h) n f a b c W hc lc
  unfold view
  have hl : (h.rowsOp n f a b c).len c = h.len c := by unfold len; rw [e]
  rw [hl, e]
  congr 1
  funext i
  by_cases hi : i < h.len c
  · rw [if_pos hi]
    have ad : (h.rowsOp n f a b c).addr c i = h.addr c i := by unfold addr; rw [e]
    rw [ad, rowsOp_row W f ha hb hc la lb lc hc hi]
    by_cases hn : i < n
    · rw [if_pos ⟨rfl, hn⟩, if_pos hn]
    · rw [if_neg (fun h => hn h.2), if_neg hn]; exact (if_pos hi).symm
  · rw [if_neg hi, if_neg (by omega)]; exact (if_neg hi).symm

theorem view_setNTT (p : ℕ) (b : Bool) : (h.setNTT p b).view C p = ⟨h.len p, b, (h.view C p).rows⟩ := by
  have e : (h.setNTT p b).poly p = { h.poly p with isNTT := b } := Function.update_self _ _ _
  unfold view len addr
  rw [e]
  rfl

theorem view_polyCopy (W : WF h) {p q : ℕ} (hp : p < h.npoly) (hq : q < h.npoly) :
    (h.polyCopy p q).view C p = (h.view C p).copy (h.view C q) := by
  unfold polyCopy
  rw [view_setNTT, view_rowsOp W _ hq hq hp (min_le_right _ _) (min_le_right _ _) (min_le_left _ _)]
  unfold Poly.copy
  refine congrArg₂ (Poly.mk (C := C) · _ ·) ?_ ?_
  · obtain ⟨-, -, e, -⟩ := rowsOp_inv (h := h) (min (h.len p) (h.len q)) (fun _ r _ => r) q q p W hp (min_le_left _ _)
    exact congrArg (fun g : ℕ → PolyObj => (g p).coeffs.length) e
  funext i
  show (if i < min (h.len p) (h.len q) then _ else _) = if i < min (h.len p) (h.len q) then _ else _
  split
  · rename_i hi
    show _ = if i < h.len q then _ else _
    rw [if_pos (by omega)]
  · rfl

/-- a ring function returns, and its effect, if the rows exist -/
theorem polyOp_run (C : Ctx N) (W : WF h) {level : ℕ} (f : ℕ → RowBuf N → RowBuf N → RowBuf N) {a b c : ℕ} (ha : a < h.npoly) (hb : b < h.npoly)
    (hc : c < h.npoly) (la : level < h.len a) (lb : level < h.len b) (lc : level < h.len c) :
    ∃ h', h.polyOp level f a b c = .ok h' ∧ WF h' ∧ Only {c} ∅ h h' ∧ h'.ct = h.ct ∧ h'.nct = h.nct ∧ h'.npoly = h.npoly ∧
      h'.view C c = (h.view C c).set level fun i => rd C i (f i (h.row (h.addr a i)) (h.row (h.addr b i))) := by
  obtain ⟨a1, a2, -, a4, a5, a6⟩ := rowsOp_inv (h := h) (level + 1) f a b c W hc (by omega)
  refine ⟨h.rowsOp (level + 1) f a b c, ?_, a1, a2, a4, a5, a6, ?_⟩
  · unfold polyOp; rw [if_pos ⟨la, lb, lc⟩]
  · rw [view_rowsOp W f ha hb hc (by omega) (by omega) (by omega)]
    refine congrArg (Poly.mk (C := C) (h.len c) (h.poly c).isNTT) ?_
    funext i
    show _ = if i ≤ level then _ else _
    by_cases hi : i ≤ level
    · rw [if_pos hi, if_pos (by omega)]
    · rw [if_neg hi, if_neg (by omega)]

end rows

/-! ## ciphertexts made of distinct polynomials -/

/-- ciphertext `c` consists of pairwise distinct polynomials, and `ct` is its value -/
structure Rep (h : Heap N) (c : ℕ) (ct : Ct C) : Prop where
  wf : WF h
  lt : c < h.nct
  inj : ∀ id id' p, (h.ct c).lookup id = some p → (h.ct c).lookup id' = some p → id = id'
  eq : ∀ id, ct.lookup id = ((h.ct c).lookup id).map (view C h)

section rep
variable {h : Heap N} {c : ℕ} {ct : Ct C}

theorem Rep.get (R : Rep h c ct) {id : String} {P : Poly C} (e : ct.lookup id = some P) :
    ∃ p, (h.ct c).lookup id = some p ∧ p < h.npoly ∧ h.view C p = P := by
  have := R.eq id
  rw [e] at this
  cases hm : (h.ct c).lookup id with
  | none => rw [hm] at this; cases this
  | some p =>
    rw [hm] at this
    injection this with this
    exact ⟨p, rfl, R.wf.ctB c R.lt id p hm, this.symm⟩

theorem Rep.mem (R : Rep h c ct) {id : String} : id ∈ ct ↔ id ∈ h.ct c := by
  rw [GoMap.mem_iff_lookup, GoMap.mem_iff_lookup, R.eq]
  cases (h.ct c).lookup id <;> simp

theorem Rep.level (R : Rep h c ct) : h.level c = ct.level := by
  unfold Heap.level Heap.get Ct.level GoMap.deref
  rw [R.eq]
  cases (h.ct c).lookup "0" <;> rfl

theorem Rep.keysLen (R : Rep h c ct) : (h.ct c).keys.length = ct.keys.length := by
  refine List.Perm.length_eq ((List.perm_ext_iff_of_nodup (h.ct c).keys_nodup ct.keys_nodup).mpr fun id => ?_)
  rw [← AList.mem_keys, ← AList.mem_keys, R.mem]

theorem Rep.same (R : Rep h c ct) {ct' : Ct C} (hs : ct'.Same ct) : Rep h c ct' := ⟨R.wf, R.lt, R.inj, fun id => (hs id).trans (R.eq id)⟩

/-- rewrite one component -/
theorem Rep.write (R : Rep h c ct) {id : String} {p : ℕ} (hp : (h.ct c).lookup id = some p) {h' : Heap N} (W' : WF h') (o : Only {p} ∅ h h')
    (hct : h'.ct = h.ct) : Rep h' c (ct.insert id (h'.view C p)) where
  wf := W'
  lt := lt_of_lt_of_le R.lt o.nct
  inj x y q := by rw [hct]; exact R.inj x y q
  eq x := by
    rw [GoMap.lookup_insert', hct]
    split
    · rename_i hx; subst hx; rw [hp]; rfl
    · rename_i hx
      rw [R.eq]
      cases hq : (h.ct c).lookup x with
      | none => rfl
      | some q =>
        show some (h.view C q) = some (h'.view C q)
        rw [o.view (R.wf.ctB c R.lt x q hq) (fun e => hx (R.inj x id p (by rw [← e]; exact hq) hp))]

theorem Rep.onRows2 (R : Rep h c ct) {id id2 : String} {level : ℕ} {f : ∀ i, Limb N (C.q i) → Limb N (C.q i) → Limb N (C.q i)} {ct' : Ct C} {P2 : Poly C}
    (h2 : ct.lookup id2 = some P2) (l2 : level < P2.len) (e : ct.onRows id level (fun i a => f i a (P2.rows i)) = .ok ct') :
    ∃ p p2 h', (h.ct c).lookup id = some p ∧ (h.ct c).lookup id2 = some p2 ∧ h.polyOp level (lift2 f) p p2 p = .ok h' ∧ Rep h' c ct' ∧ h'.ct = h.ct := by
  obtain ⟨P, eP, e⟩ := Go.bind_ok e
  obtain ⟨_, en, e⟩ := Go.bind_ok e
  cases e
  obtain ⟨p, hp, lp, vp⟩ := R.get (GoMap.deref_some eP)
  obtain ⟨p2, hp2, lp2, vp2⟩ := R.get h2
  have ln : level < P.len := need_lt en
  obtain ⟨h', r1, r2, r3, r4, r5, r6, r7⟩ := polyOp_run C R.wf (lift2 f) lp lp2 lp (level := level)
    (by rw [← vp] at ln; exact ln) (by rw [← vp2] at l2; exact l2) (by rw [← vp] at ln; exact ln)
  refine ⟨p, p2, h', hp, hp2, r1, ?_, r4⟩
  have := R.write hp r2 r3 r4
  rw [r7] at this
  refine this.same fun x => ?_
  rw [GoMap.lookup_insert', GoMap.lookup_insert']
  split
  · congr 1
    rw [vp]
    refine Poly.set_congr (fun i hi => ?_) _
    show f i (P.rows i) (P2.rows i) = rd C i (wr (f i (rd C i _) (rd C i _)))
    rw [rd_wr, ← vp, ← vp2]
    have a1 : (h.view C p).rows i = rd C i (h.row (h.addr p i)) := by
      show (if i < h.len p then _ else _) = _
      rw [if_pos]; rw [← vp] at ln; exact lt_of_le_of_lt hi ln
    have a2 : (h.view C p2).rows i = rd C i (h.row (h.addr p2 i)) := by
      show (if i < h.len p2 then _ else _) = _
      rw [if_pos]; rw [← vp2] at l2; exact lt_of_le_of_lt hi l2
    rw [a1, a2]
  · rfl

theorem Rep.onRows (R : Rep h c ct) {id : String} {level : ℕ} {f : ∀ i, Limb N (C.q i) → Limb N (C.q i)} {ct' : Ct C}
    (e : ct.onRows id level f = .ok ct') :
    ∃ p h', (h.ct c).lookup id = some p ∧ h.polyOp level (lift1 f) p p p = .ok h' ∧ Rep h' c ct' ∧ h'.ct = h.ct := by
  have e' := e
  obtain ⟨P, eP, e'⟩ := Go.bind_ok e'
  obtain ⟨_, en, -⟩ := Go.bind_ok e'
  have ln : level < P.len := need_lt en
  obtain ⟨p, p2, h', a1, a2, a3, a4, a5⟩ := R.onRows2 (f := fun i a _ => f i a) (GoMap.deref_some eP) ln e
  rw [a1] at a2
  cases a2
  exact ⟨p, h', a1, a3, a4, a5⟩

theorem Rep.onRowsUnless (R : Rep h c ct) {id : String} {level : ℕ} {f : ∀ i, Limb N (C.q i) → Limb N (C.q i)} {ct' : Ct C}
    (e : ct.onRowsUnlessNTT id level f = .ok ct') :
    ∃ p h', (h.ct c).lookup id = some p ∧ h.unlessNTT p level f = .ok h' ∧ Rep h' c ct' ∧ h'.ct = h.ct := by
  obtain ⟨P, eP, e⟩ := Go.bind_ok e
  obtain ⟨p, hp, lp, vp⟩ := R.get (GoMap.deref_some eP)
  have hfl : (h.poly p).isNTT = P.isNTT := by rw [← vp]; rfl
  cases hb : P.isNTT with
  | true =>
    rw [hb] at e
    cases e
    exact ⟨p, h, hp, by unfold unlessNTT; rw [hfl, hb]; simp, R, rfl⟩
  | false =>
    rw [hb] at e
    obtain ⟨p', h', a1, a2, a3, a4⟩ := R.onRows e
    rw [hp] at a1
    cases a1
    exact ⟨p, h', hp, by unfold unlessNTT; rw [hfl, hb]; simpa using a2, a3, a4⟩

theorem Rep.erase (R : Rep h c ct) (id : String) : Rep (h.setCt c ((h.ct c).erase id)) c (ct.erase id) := by
  have hm : ∀ x q, ((h.ct c).erase id).lookup x = some q → (h.ct c).lookup x = some q := by
    intro x q hq
    rw [GoMap.lookup_erase'] at hq
    split at hq
    · cases hq
    · exact hq
  have hs : (h.setCt c ((h.ct c).erase id)).ct c = (h.ct c).erase id := Function.update_self _ _ _
  obtain ⟨b1, -⟩ := setCt_inv R.wf c (m := (h.ct c).erase id) (fun x q hq => R.wf.ctB c R.lt x q (hm x q hq))
  refine ⟨b1, R.lt, fun x y q hx hy => ?_, fun x => ?_⟩
  · rw [hs] at hx hy
    exact R.inj x y q (hm x q hx) (hm y q hy)
  · rw [hs, GoMap.lookup_erase', GoMap.lookup_erase']
    split
    · rfl
    · exact R.eq x

/-- `PartialDecrypt` on the heap does to the ciphertext what it does on values -/
theorem Rep.partialDecrypt (R : Rep h c ct) {sk : SKey C} {ct' : Ct C} (e : MKHE.partialDecrypt ct sk = .ok ct') :
    ∃ h', Heap.partialDecrypt sk h c = .ok h' ∧ Rep h' c ct' := by
  obtain ⟨level, e0, e⟩ := Go.bind_ok e
  obtain ⟨c1, e1, e⟩ := Go.bind_ok e
  obtain ⟨c2, e2, e⟩ := Go.bind_ok e
  obtain ⟨c3, e3, e⟩ := Go.bind_ok e
  obtain ⟨P, e4, e⟩ := Go.bind_ok e
  obtain ⟨_, en, e⟩ := Go.bind_ok e
  obtain ⟨c5, e5, e⟩ := Go.bind_ok e
  cases e
  have ln : level < P.len := need_lt en
  obtain ⟨p, h1, l1, r1, R1, m1⟩ := R.onRowsUnless e1
  obtain ⟨p', h2, l2, r2, R2, m2⟩ := R1.onRows e2
  rw [m1, l1] at l2; cases l2
  obtain ⟨p', h3, l3, r3, R3, m3⟩ := R2.onRowsUnless e3
  rw [m2, m1, l1] at l3; cases l3
  obtain ⟨p0, p', h5, l5, l5', r5, R5, m5⟩ := R3.onRows2 (f := fun i a b => (C.RQ i).add a b) (GoMap.deref_some e4) ln e5
  rw [m3, m2, m1, l1] at l5'; cases l5'
  refine ⟨_, ?_, R5.erase sk.id⟩
  unfold Heap.partialDecrypt
  rw [R.level, e0, bind_ok]
  unfold Heap.get
  rw [GoMap.deref_ok l1, bind_ok, r1, bind_ok, r2, bind_ok, r3, bind_ok, GoMap.deref_ok l5, bind_ok, r5, bind_ok]

theorem Rep.decryptLoop (R : Rep h c ct) {ids ids' : IDSet} (hids : ∀ id, ids'.has id = ids.has id) {sks : KeySet (SKey C)} {l : List String} {ct' : Ct C}
    (e : MKHE.decryptLoop ids sks ct l = .ok ct') : ∃ h', Heap.decryptLoop ids' sks h c l = .ok h' ∧ Rep h' c ct' := by
  unfold MKHE.decryptLoop at e
  unfold Heap.decryptLoop
  induction l generalizing h ct with
  | nil => cases e; exact ⟨h, rfl, R⟩
  | cons k l ih =>
    rw [Go.loop_cons] at e
    split at e
    · rename_i c1 e1
      obtain ⟨sk, es, e1⟩ := Go.bind_ok e1
      rw [Go.loop_cons, es]
      rw [bind_ok, hids]
      split at e1
      · rename_i hh
        obtain ⟨h1, r1, R1⟩ := R.partialDecrypt e1
        rw [if_pos hh, r1]
        exact ih R1 e
      · rename_i hh
        cases e1
        rw [if_neg hh]
        exact ih R e
    · cases e

end rep

/-- a copy represents the value of the original -/
theorem copyNew_rep {o : Order String} {h : Heap N} {c : ℕ} (W : WF h) (hc : c < h.nct) {c' : ℕ} {h' : Heap N} (e : copyNew o h c = .ok (c', h')) :
    Made h c' h' ∧ Rep h' c' (value C h c) := by
  obtain ⟨M, hk, hv⟩ := copyNew_spec (C := C) W hc e
  refine ⟨M, M.wf, (M.into ∅).1, M.inj, fun id => ?_⟩
  rw [value_lookup]
  cases hp : (h'.ct c').lookup id with
  | none =>
    have : (h.ct c).lookup id = none := by
      rw [AList.lookup_eq_none, ← hk, ← AList.lookup_eq_none]; exact hp
    rw [this]; rfl
  | some p' =>
    obtain ⟨p, h1, h2⟩ := hv id p' hp
    rw [h1]
    show some (h.view C p) = some (h'.view C p')
    rw [h2]

theorem Rep.value {h : Heap N} {c : ℕ} {ct : Ct C} (R : Rep h c ct) : (value C h c).Same ct := fun id => by rw [value_lookup, R.eq]

end Heap
end MKHE
