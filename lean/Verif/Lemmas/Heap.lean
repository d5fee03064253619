import Verif.Model.Heap

set_option autoImplicit false
set_option linter.unusedSectionVars false

/-!
# Which memory the functions of `Verif/Model/Heap.lean` write
-/

namespace MKHE

theorem Go.bind_ok {α β : Type} {x : Go α} {f : α → Go β} {b : β} (h : (x >>= f) = .ok b) : ∃ a, x = .ok a ∧ f a = .ok b := by
  cases x with
  | error e => cases h
  | ok a => exact ⟨a, rfl, h⟩

theorem Go.loop_pres {σ α : Type*} {f : σ → α → Go σ} (I : σ → Prop) {l : List α} {s s' : σ}
    (hstep : ∀ s a s', a ∈ l → I s → f s a = .ok s' → I s') (h0 : I s) (h : Go.loop f s l = .ok s') : I s' := by
  induction l generalizing s with
  | nil => cases h; exact h0
  | cons a l ih =>
    rw [Go.loop_cons] at h
    cases hf : f s a with
    | error e => rw [hf] at h; cases h
    | ok s1 =>
      rw [hf] at h
      exact ih (fun s b s' hb => hstep s b s' (List.mem_cons_of_mem _ hb)) (hstep s a s1 (by simp) h0 hf) h

theorem GoMap.deref_some {κ β : Type*} [DecidableEq κ] {m : GoMap κ β} {k : κ} {v : β} (h : m.deref k = .ok v) : m.lookup k = some v := by
  unfold GoMap.deref at h
  cases hm : m.lookup k with
  | none => rw [hm] at h; cases h
  | some w => rw [hm] at h; cases h; rfl

theorem getD_mem {α : Type*} {l : List α} {i : ℕ} {d : α} (h : i < l.length) : l.getD i d ∈ l := by
  rw [List.getD_eq_getElem?_getD, List.getElem?_eq_getElem h]
  exact List.getElem_mem h

namespace Heap
variable {N : ℕ} [NeZero N]

/-- Well-formed heaps: pointers are allocated, no two polynomial objects share a row buffer, and no polynomial uses a buffer twice. Ciphertexts
may share polynomial objects. -/
structure WF (h : Heap N) : Prop where
  rowB : ∀ p < h.npoly, ∀ a ∈ (h.poly p).coeffs, a < h.nrow
  ctB : ∀ c < h.nct, ∀ id p, (h.ct c).lookup id = some p → p < h.npoly
  own : ∀ p < h.npoly, ∀ q < h.npoly, ∀ a, a ∈ (h.poly p).coeffs → a ∈ (h.poly q).coeffs → p = q
  nodup : ∀ p < h.npoly, (h.poly p).coeffs.Nodup

/-- From `h` to `h'` nothing that was allocated in `h` has changed, except the polynomials in `Wp` and the ciphertext maps in `Wc`. -/
structure Only (Wp Wc : Set ℕ) (h h' : Heap N) : Prop where
  nrow : h.nrow ≤ h'.nrow
  npoly : h.npoly ≤ h'.npoly
  nct : h.nct ≤ h'.nct
  poly : ∀ p < h.npoly, p ∉ Wp → h'.poly p = h.poly p
  row : ∀ p < h.npoly, p ∉ Wp → ∀ a ∈ (h.poly p).coeffs, h'.row a = h.row a
  ct : ∀ c < h.nct, c ∉ Wc → h'.ct c = h.ct c

theorem Only.refl (Wp Wc : Set ℕ) (h : Heap N) : Only Wp Wc h h :=
  ⟨le_rfl, le_rfl, le_rfl, fun _ _ _ => rfl, fun _ _ _ _ _ => rfl, fun _ _ _ => rfl⟩

theorem Only.trans' {Wp Wc Wp' Wc' : Set ℕ} {h h1 h2 : Heap N} (a : Only Wp Wc h h1) (b : Only Wp' Wc' h1 h2)
    (hp : ∀ p < h.npoly, p ∈ Wp' → p ∈ Wp) (hc : ∀ c < h.nct, c ∈ Wc' → c ∈ Wc) : Only Wp Wc h h2 where
  nrow := a.nrow.trans b.nrow
  npoly := a.npoly.trans b.npoly
  nct := a.nct.trans b.nct
  poly p hl hw := (b.poly p (by have := a.npoly; omega) (fun h' => hw (hp p hl h'))).trans (a.poly p hl hw)
  row p hl hw x hx := (b.row p (by have := a.npoly; omega) (fun h' => hw (hp p hl h')) x (by rw [a.poly p hl hw]; exact hx)).trans (a.row p hl hw x hx)
  ct c hl hw := (b.ct c (by have := a.nct; omega) (fun h' => hw (hc c hl h'))).trans (a.ct c hl hw)

theorem Only.trans {Wp Wc : Set ℕ} {h h1 h2 : Heap N} (a : Only Wp Wc h h1) (b : Only Wp Wc h1 h2) : Only Wp Wc h h2 :=
  a.trans' b (fun _ _ h => h) (fun _ _ h => h)

/-- the view of an untouched polynomial is unchanged -/
theorem Only.view {C : Ctx N} {Wp Wc : Set ℕ} {h h' : Heap N} (o : Only Wp Wc h h') {p : ℕ} (hp : p < h.npoly) (hw : p ∉ Wp) :
    h'.view C p = h.view C p := by
  have e := o.poly p hp hw
  unfold Heap.view Heap.len Heap.addr
  rw [e]
  congr 1
  funext i
  split
  · rename_i hi
    congr 1
    refine o.row p hp hw _ ?_
    exact getD_mem hi
  · rfl

/-! ## primitives -/

theorem get_some {h : Heap N} {c : ℕ} {id : String} {p : ℕ} (e : h.get c id = .ok p) : (h.ct c).lookup id = some p := GoMap.deref_some e

section prim
variable {h : Heap N}

theorem setRow_only (W : WF h) {p : ℕ} (hp : p < h.npoly) {a : ℕ} (ha : a ∈ (h.poly p).coeffs) (r : RowBuf N) : Only {p} ∅ h (h.setRow a r) where
  nrow := le_rfl
  npoly := le_rfl
  nct := le_rfl
  poly _ _ _ := rfl
  row q hq hne x hx := by
    unfold setRow
    refine Function.update_of_ne ?_ _ _
    intro e
    subst e
    exact hne (W.own q hq p hp x hx ha)
  ct _ _ _ := rfl

theorem setRow_wf (W : WF h) (a : ℕ) (r : RowBuf N) : WF (h.setRow a r) := ⟨W.rowB, W.ctB, W.own, W.nodup⟩

/-- what `rowsOp` does not touch -/
theorem rowsOp_inv (n : ℕ) (f : ℕ → RowBuf N → RowBuf N → RowBuf N) (a b c : ℕ) (W : WF h) (hc : c < h.npoly) (hn : n ≤ h.len c) :
    WF (h.rowsOp n f a b c) ∧ Only {c} ∅ h (h.rowsOp n f a b c) ∧ (h.rowsOp n f a b c).poly = h.poly ∧ (h.rowsOp n f a b c).ct = h.ct ∧
      (h.rowsOp n f a b c).nct = h.nct ∧ (h.rowsOp n f a b c).npoly = h.npoly := by
  unfold rowsOp
  refine forN_inv n _ (fun _ h' => WF h' ∧ Only {c} ∅ h h' ∧ h'.poly = h.poly ∧ h'.ct = h.ct ∧ h'.nct = h.nct ∧ h'.npoly = h.npoly) h
    ⟨W, Only.refl _ _ _, rfl, rfl, rfl, rfl⟩ ?_
  rintro i h' hi ⟨w, o, e1, e2, e3, e4⟩
  refine ⟨setRow_wf w _ _, o.trans (setRow_only w (by rw [e4]; exact hc) ?_ _), e1, e2, e3, e4⟩
  unfold addr
  rw [e1]
  exact getD_mem (show i < (h.poly c).coeffs.length by unfold len at hn; omega)

theorem polyOp_inv {level : ℕ} {f : ℕ → RowBuf N → RowBuf N → RowBuf N} {a b c : ℕ} {h' : Heap N} (W : WF h) (hc : c < h.npoly)
    (e : h.polyOp level f a b c = .ok h') :
    WF h' ∧ Only {c} ∅ h h' ∧ h'.poly = h.poly ∧ h'.ct = h.ct ∧ h'.nct = h.nct ∧ h'.npoly = h.npoly := by
  unfold polyOp at e
  split at e
  · rename_i hl
    cases e
    exact rowsOp_inv _ _ _ _ _ W hc (by omega)
  · cases e

theorem setNTT_wf (W : WF h) (p : ℕ) (b : Bool) : WF (h.setNTT p b) := by
  have e : ∀ q, ((h.setNTT p b).poly q).coeffs = (h.poly q).coeffs := by
    intro q
    unfold setNTT
    by_cases hq : q = p
    · subst hq; simp
    · simp [Function.update_of_ne hq]
  exact ⟨fun q hq a ha => W.rowB q hq a (by rwa [e] at ha), W.ctB, fun q hq r hr a ha hb => W.own q hq r hr a (by rwa [e] at ha) (by rwa [e] at hb),
    fun q hq => by rw [e]; exact W.nodup q hq⟩

theorem setNTT_only (p : ℕ) (b : Bool) : Only {p} ∅ h (h.setNTT p b) :=
  ⟨le_rfl, le_rfl, le_rfl, fun q _ hne => Function.update_of_ne hne _ _, fun _ _ _ _ _ => rfl, fun _ _ _ => rfl⟩

theorem truncate_inv {p n : ℕ} {h' : Heap N} (W : WF h) (e : h.truncate p n = .ok h') :
    WF h' ∧ Only {p} ∅ h h' ∧ h'.ct = h.ct ∧ h'.nct = h.nct ∧ h'.npoly = h.npoly := by
  unfold truncate at e
  split at e
  · cases e
  · cases e
    have hs : ∀ q a, a ∈ (Function.update h.poly p { h.poly p with coeffs := (h.poly p).coeffs.take n } q).coeffs → a ∈ (h.poly q).coeffs := by
      intro q a ha
      by_cases hq : q = p
      · subst hq
        rw [Function.update_self] at ha
        exact List.mem_of_mem_take ha
      · rwa [Function.update_of_ne hq] at ha
    refine ⟨⟨fun q hq a ha => W.rowB q hq a (hs q a ha), W.ctB, fun q hq r hr a ha hb => W.own q hq r hr a (hs q a ha) (hs r a hb), ?_⟩,
      ⟨le_rfl, le_rfl, le_rfl, fun q _ hne => Function.update_of_ne hne _ _, fun _ _ _ _ _ => rfl, fun _ _ _ => rfl⟩, rfl, rfl, rfl⟩
    intro q hq
    show (Function.update h.poly p _ q).coeffs.Nodup
    by_cases hqp : q = p
    · subst hqp
      rw [Function.update_self]
      exact (W.nodup q hq).sublist (List.take_sublist _ _)
    · rw [Function.update_of_ne hqp]; exact W.nodup q hq

theorem polyCopy_inv {p q : ℕ} (W : WF h) (hp : p < h.npoly) :
    WF (h.polyCopy p q) ∧ Only {p} ∅ h (h.polyCopy p q) ∧ (h.polyCopy p q).ct = h.ct ∧ (h.polyCopy p q).nct = h.nct ∧
      (h.polyCopy p q).npoly = h.npoly := by
  obtain ⟨a1, a2, -, a4, a5, a6⟩ := rowsOp_inv (h := h) (min (h.len p) (h.len q)) (fun _ r _ => r) q q p W hp (min_le_left _ _)
  exact ⟨setNTT_wf a1 _ _, a2.trans (setNTT_only _ _), a4, a5, a6⟩

theorem allocPoly_inv (W : WF h) (b : Bool) (rows : List (RowBuf N)) :
    WF (h.allocPoly b rows).2 ∧ Only ∅ ∅ h (h.allocPoly b rows).2 ∧ (h.allocPoly b rows).2.ct = h.ct ∧ (h.allocPoly b rows).2.nct = h.nct ∧
      (h.allocPoly b rows).1 = h.npoly ∧ (h.allocPoly b rows).2.npoly = h.npoly + 1 := by
  have hnew : ∀ a, a ∈ (List.range rows.length).map (h.nrow + ·) ↔ h.nrow ≤ a ∧ a < h.nrow + rows.length := by
    intro a
    simp only [List.mem_map, List.mem_range]
    exact ⟨by rintro ⟨i, hi, rfl⟩; omega, fun ⟨h1, h2⟩ => ⟨a - h.nrow, by omega, by omega⟩⟩
  have hold : ∀ q < h.npoly, (h.allocPoly b rows).2.poly q = h.poly q := fun q hq => by
    unfold allocPoly
    exact Function.update_of_ne (by omega) _ _
  have hself : (h.allocPoly b rows).2.poly h.npoly = ⟨(List.range rows.length).map (h.nrow + ·), b⟩ := by
    unfold allocPoly
    exact Function.update_self _ _ _
  have hdisj : ∀ q < h.npoly, ∀ a ∈ (h.poly q).coeffs, ¬ (h.nrow ≤ a ∧ a < h.nrow + rows.length) := fun q hq a ha h' => by
    have := W.rowB q hq a ha; omega
  refine ⟨⟨?_, ?_, ?_, ?_⟩, ⟨?_, ?_, ?_, fun q hq _ => hold q hq, ?_, fun _ _ _ => rfl⟩, rfl, rfl, rfl, rfl⟩
  · intro q hq a ha
    show a < h.nrow + rows.length
    rcases Nat.lt_succ_iff_lt_or_eq.mp (show q < h.npoly + 1 from hq) with hq' | rfl
    · rw [hold q hq'] at ha
      have := W.rowB q hq' a ha; omega
    · rw [hself] at ha
      exact ((hnew a).mp ha).2
  · intro c hc id p hp
    have := W.ctB c hc id p hp
    show p < h.npoly + 1
    omega
  · intro q hq r hr a ha hb
    rcases Nat.lt_succ_iff_lt_or_eq.mp (show q < h.npoly + 1 from hq) with hq' | rfl <;>
      rcases Nat.lt_succ_iff_lt_or_eq.mp (show r < h.npoly + 1 from hr) with hr' | rfl
    · rw [hold q hq'] at ha
      rw [hold r hr'] at hb
      exact W.own q hq' r hr' a ha hb
    · rw [hold q hq'] at ha
      rw [hself] at hb
      exact absurd ((hnew a).mp hb) (hdisj q hq' a ha)
    · rw [hold r hr'] at hb
      rw [hself] at ha
      exact absurd ((hnew a).mp ha) (hdisj r hr' a hb)
    · rfl
  · intro q hq
    rcases Nat.lt_succ_iff_lt_or_eq.mp (show q < h.npoly + 1 from hq) with hq' | rfl
    · rw [hold q hq']; exact W.nodup q hq'
    · rw [hself]
      exact List.nodup_range.map (fun a b h' => by simpa using h')
  · show h.nrow ≤ h.nrow + rows.length
    omega
  · show h.npoly ≤ h.npoly + 1
    omega
  · exact le_rfl
  · intro q hq _ a ha
    show (if h.nrow ≤ a ∧ a < h.nrow + rows.length then _ else h.row a) = _
    rw [if_neg (hdisj q hq a ha)]

theorem allocCt_inv (W : WF h) {m : GoMap String ℕ} (hm : ∀ id p, m.lookup id = some p → p < h.npoly) :
    WF (h.allocCt m).2 ∧ Only ∅ ∅ h (h.allocCt m).2 ∧ (h.allocCt m).1 = h.nct ∧ (h.allocCt m).2.ct h.nct = m ∧ (h.allocCt m).2.nct = h.nct + 1 ∧
      (h.allocCt m).2.npoly = h.npoly := by
  have hself : (h.allocCt m).2.ct h.nct = m := Function.update_self _ _ _
  have hold : ∀ c < h.nct, (h.allocCt m).2.ct c = h.ct c := fun c hc => Function.update_of_ne (by omega) _ _
  refine ⟨⟨W.rowB, ?_, W.own, W.nodup⟩, ⟨le_rfl, le_rfl, Nat.le_succ _, fun _ _ _ => rfl, fun _ _ _ _ _ => rfl, fun c hc _ => hold c hc⟩, rfl,
    hself, rfl, rfl⟩
  intro c hc id p hp
  rcases Nat.lt_succ_iff_lt_or_eq.mp (show c < h.nct + 1 from hc) with hc' | rfl
  · rw [hold c hc'] at hp; exact W.ctB c hc' id p hp
  · rw [hself] at hp; exact hm id p hp

theorem setCt_inv (W : WF h) (c : ℕ) {m : GoMap String ℕ} (hm : ∀ id p, m.lookup id = some p → p < h.npoly) :
    WF (h.setCt c m) ∧ Only ∅ {c} h (h.setCt c m) := by
  refine ⟨⟨W.rowB, ?_, W.own, W.nodup⟩, ⟨le_rfl, le_rfl, le_rfl, fun _ _ _ => rfl, fun _ _ _ _ _ => rfl,
    fun d _ hne => Function.update_of_ne hne _ _⟩⟩
  intro d hd id p hp
  by_cases e : d = c
  · subst e
    exact hm id p (by rwa [show (h.setCt d m).ct d = m from Function.update_self _ _ _] at hp)
  · exact W.ctB d hd id p (by rwa [show (h.setCt c m).ct d = h.ct d from Function.update_of_ne e _ _] at hp)

end prim

/-! ## running with a base heap

`Ok h0 Wp Wc h`: the current heap `h` is well-formed and compared to `h0` only `Wp`, `Wc` and newly allocated memory have changed.
`Into h0 Wp h c`: every polynomial of ciphertext `c` may be written. -/

structure Ok (h0 : Heap N) (Wp Wc : Set ℕ) (h : Heap N) : Prop where
  wf : WF h
  only : Only Wp Wc h0 h

/-- every polynomial of the ciphertext is in `Wp` or newer than `h0` -/
def Into (h0 : Heap N) (Wp : Set ℕ) (h : Heap N) (c : ℕ) : Prop :=
  c < h.nct ∧ ∀ id p, (h.ct c).lookup id = some p → p ∈ Wp ∨ h0.npoly ≤ p

section run
variable {h0 h h' : Heap N} {Wp Wc : Set ℕ}

theorem Ok.start (W : WF h) : Ok h Wp Wc h := ⟨W, Only.refl _ _ _⟩

/-- extend a run by a step that writes one allowed polynomial -/
theorem Ok.step (K : Ok h0 Wp Wc h) {p : ℕ} (hp : p ∈ Wp ∨ h0.npoly ≤ p) (w : WF h') (o : Only {p} ∅ h h') : Ok h0 Wp Wc h' :=
  ⟨w, K.only.trans' o (fun q hq e => by
    rcases hp with hp | hp
    · rw [Set.mem_singleton_iff] at e; subst e; exact hp
    · rw [Set.mem_singleton_iff] at e; subst e; omega) (fun c _ e => e.elim)⟩

theorem Ok.fresh (K : Ok h0 Wp Wc h) (w : WF h') (o : Only ∅ ∅ h h') : Ok h0 Wp Wc h' :=
  ⟨w, K.only.trans' o (fun _ _ e => e.elim) (fun _ _ e => e.elim)⟩

theorem Ok.map (K : Ok h0 Wp Wc h) {c : ℕ} (hc : c ∈ Wc ∨ h0.nct ≤ c) (w : WF h') (o : Only ∅ {c} h h') : Ok h0 Wp Wc h' :=
  ⟨w, K.only.trans' o (fun _ _ e => e.elim) (fun q hq e => by
    rw [Set.mem_singleton_iff] at e
    subst e
    rcases hc with hc | hc
    · exact hc
    · omega)⟩

theorem Into.lt (K : Ok h0 Wp Wc h) {c : ℕ} (hI : Into h0 Wp h c) {id : String} {p : ℕ} (e : h.get c id = .ok p) : p < h.npoly :=
  K.wf.ctB c hI.1 id p (get_some e)

theorem Into.of_ct {c : ℕ} (hI : Into h0 Wp h c) (e : h'.ct = h.ct) (en : h'.nct = h.nct) : Into h0 Wp h' c :=
  ⟨by rw [en]; exact hI.1, fun id p hp => hI.2 id p (by rwa [e] at hp)⟩

theorem polyOp_ok (K : Ok h0 Wp Wc h) {level : ℕ} {f : ℕ → RowBuf N → RowBuf N → RowBuf N} {a b p : ℕ} (hp : p < h.npoly)
    (hw : p ∈ Wp ∨ h0.npoly ≤ p) (e : h.polyOp level f a b p = .ok h') : Ok h0 Wp Wc h' ∧ h'.ct = h.ct ∧ h'.nct = h.nct ∧ h'.npoly = h.npoly := by
  obtain ⟨a1, a2, -, a4, a5, a6⟩ := polyOp_inv K.wf hp e
  exact ⟨K.step hw a1 a2, a4, a5, a6⟩

/-- the shape of a loop whose body writes polynomials of `out` and leaves the maps alone -/
theorem loop_out {α : Type*} {f : Heap N → α → Go (Heap N)} {l : List α} {out : ℕ} (K : Ok h0 Wp Wc h) (hI : Into h0 Wp h out)
    (hstep : ∀ h1 a h2, Ok h0 Wp Wc h1 → Into h0 Wp h1 out → f h1 a = .ok h2 → Ok h0 Wp Wc h2 ∧ h2.ct = h1.ct ∧ h2.nct = h1.nct)
    (e : Go.loop f h l = .ok h') : Ok h0 Wp Wc h' ∧ h'.ct = h.ct ∧ h'.nct = h.nct := by
  refine Go.loop_pres (fun s => Ok h0 Wp Wc s ∧ s.ct = h.ct ∧ s.nct = h.nct) (fun s a s' _ hs e => ?_) ⟨K, rfl, rfl⟩ e
  obtain ⟨k, e1, e2⟩ := hs
  obtain ⟨k', f1, f2⟩ := hstep s a s' k (hI.of_ct e1 e2) e
  exact ⟨k', f1.trans e1, f2.trans e2⟩

end run

end Heap
end MKHE
