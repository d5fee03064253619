import Verif.Lemmas.Heap
import Verif.Lemmas.IDSet

set_option autoImplicit false
set_option linter.unusedSectionVars false

/-!
# What the functions of `Verif/Model/Heap.lean` write, function by function

Partial correctness: every statement is about a call that returned, for any heap and any order.
-/

namespace MKHE
namespace Heap
variable {N : ℕ} [NeZero N] {C : Ctx N}

/-! ## allocation -/

theorem view_alloc (h : Heap N) (b : Bool) (rows : List (RowBuf N)) :
    (h.allocPoly b rows).2.view C h.npoly = ⟨rows.length, b, fun i => if i < rows.length then rd C i (rows.getD i 0) else Limb.zero⟩ := by
  have hself : (h.allocPoly b rows).2.poly h.npoly = ⟨(List.range rows.length).map (h.nrow + ·), b⟩ := Function.update_self _ _ _
  have hlen : (h.allocPoly b rows).2.len h.npoly = rows.length := by unfold len; rw [hself]; simp
  unfold view
  rw [hlen, hself]
  congr 1
  funext i
  split
  · rename_i hi
    congr 1
    have ha : (h.allocPoly b rows).2.addr h.npoly i = h.nrow + i := by
      unfold addr
      rw [hself]
      simp [List.getD_eq_getElem?_getD, hi]
    rw [ha]
    show (if h.nrow ≤ h.nrow + i ∧ h.nrow + i < h.nrow + rows.length then _ else _) = _
    rw [if_pos ⟨by omega, by omega⟩, Nat.add_sub_cancel_left]
  · rfl

theorem rd_zero (i : ℕ) : rd C i (0 : RowBuf N) = Limb.zero := by
  funext t
  unfold rd toWord Limb.zero
  simp

/-- a new polynomial is zero, at the given level, in the coefficient domain -/
theorem view_newPoly (h : Heap N) (level : ℕ) : (h.newPoly level).2.view C h.npoly = Poly.new level := by
  unfold newPoly
  rw [view_alloc]
  unfold Poly.new
  rw [List.length_replicate]
  congr 1
  funext i
  split
  · rename_i hi
    rw [List.getD_eq_getElem?_getD, List.getElem?_replicate, if_pos hi]
    exact rd_zero i
  · rfl

theorem view_polyCopyNew (h : Heap N) (p : ℕ) : (h.polyCopyNew p).2.view C h.npoly = h.view C p := by
  unfold polyCopyNew
  rw [view_alloc]
  unfold view len addr
  rw [List.length_map]
  congr 1
  funext i
  split
  · rename_i hi
    congr 1
    simp [List.getD_eq_getElem?_getD, hi]
  · rfl

/-- what building a map of new polynomials maintains: `m` is a partial map to distinct new polynomials -/
structure Build (h0 : Heap N) (m : GoMap String ℕ) (h : Heap N) : Prop where
  wf : WF h
  only : Only ∅ ∅ h0 h
  ct : h.ct = h0.ct
  nct : h.nct = h0.nct
  new : ∀ id p, m.lookup id = some p → h0.npoly ≤ p ∧ p < h.npoly
  inj : ∀ id id' p, m.lookup id = some p → m.lookup id' = some p → id = id'

theorem Build.start {h0 : Heap N} (W : WF h0) : Build h0 ∅ h0 :=
  ⟨W, Only.refl _ _ _, rfl, rfl, fun id p h => by simp at h, fun id id' p h => by simp at h⟩

/-- add a newly allocated polynomial under `id` -/
theorem Build.add {h0 h h' : Heap N} {m : GoMap String ℕ} (B : Build h0 m h) (id : String) (w : WF h') (o : Only ∅ ∅ h h') (hct : h'.ct = h.ct)
    (hnct : h'.nct = h.nct) (hn : h'.npoly = h.npoly + 1) : Build h0 (m.insert id h.npoly) h' where
  wf := w
  only := B.only.trans o
  ct := hct.trans B.ct
  nct := hnct.trans B.nct
  new x p hx := by
    rw [GoMap.lookup_insert'] at hx
    split at hx
    · cases hx
      have := B.only.npoly
      omega
    · have := B.new x p hx; omega
  inj x y p hx hy := by
    rw [GoMap.lookup_insert'] at hx hy
    split at hx <;> split at hy
    · simp_all
    · cases hx
      have := B.new y _ hy; omega
    · cases hy
      have := B.new x _ hx; omega
    · exact B.inj x y p hx hy

/-- the result of building and allocating a ciphertext -/
structure Made (h0 : Heap N) (c : ℕ) (h : Heap N) : Prop where
  wf : WF h
  only : Only ∅ ∅ h0 h
  addr : c = h0.nct
  nct : h.nct = h0.nct + 1
  new : ∀ id p, (h.ct c).lookup id = some p → h0.npoly ≤ p ∧ p < h.npoly
  inj : ∀ id id' p, (h.ct c).lookup id = some p → (h.ct c).lookup id' = some p → id = id'

theorem Build.made {h0 h : Heap N} {m : GoMap String ℕ} (B : Build h0 m h) : Made h0 (h.allocCt m).1 (h.allocCt m).2 ∧
    (h.allocCt m).2.ct (h.allocCt m).1 = m ∧ (∀ p < h.npoly, (h.allocCt m).2.view C p = h.view C p) := by
  obtain ⟨a1, a2, a3, a4, a5, a6⟩ := allocCt_inv B.wf (fun id p hp => (B.new id p hp).2)
  have a4' : (h.allocCt m).2.ct (h.allocCt m).1 = m := by rw [a3]; exact a4
  refine ⟨⟨a1, B.only.trans a2, by rw [a3, B.nct], by rw [a5, B.nct], ?_, ?_⟩, a4', fun p hp => a2.view hp (by simp)⟩
  · intro id p hp
    rw [a4'] at hp
    rw [a6]
    exact B.new id p hp
  · intro id id' p hp hp'
    rw [a4'] at hp hp'
    exact B.inj id id' p hp hp'

theorem Made.into {h0 h : Heap N} {c : ℕ} (M : Made h0 c h) (Wp : Set ℕ) : Into h0 Wp h c :=
  ⟨by rw [M.addr, M.nct]; omega, fun id p hp => Or.inr (M.new id p hp).1⟩

/-- `NewCiphertext` on the heap -/
theorem newCt_spec (o : Order String) (ids : IDSet) (level : ℕ) {h : Heap N} (W : WF h) :
    Made h (newCt o ids level h).1 (newCt o ids level h).2 ∧
    (∀ id, id ∈ (newCt o ids level h).2.ct (newCt o ids level h).1 ↔ id = "0" ∨ ids.has id = true) ∧
    ∀ id p, ((newCt o ids level h).2.ct (newCt o ids level h).1).lookup id = some p → (newCt o ids level h).2.view C p = Poly.new level := by
  have hnp : ∀ {h : Heap N}, WF h → WF (h.newPoly level).2 ∧ Only ∅ ∅ h (h.newPoly level).2 ∧ (h.newPoly level).2.ct = h.ct ∧
      (h.newPoly level).2.nct = h.nct ∧ (h.newPoly level).1 = h.npoly ∧ (h.newPoly level).2.npoly = h.npoly + 1 := fun W => allocPoly_inv W _ _
  let I : List String → GoMap String ℕ × Heap N → Prop := fun pre w =>
    Build h w.1 w.2 ∧ (∀ id, id ∈ w.1 ↔ id = "0" ∨ id ∈ pre) ∧ ∀ id p, w.1.lookup id = some p → w.2.view C p = Poly.new level
  have hI : I (GoMap.range o ids.value) ((GoMap.range o ids.value).foldl (fun (w : GoMap String ℕ × Heap N) id =>
      (w.1.insert id (w.2.newPoly level).1, (w.2.newPoly level).2)) (AList.insert "0" (h.newPoly level).1 ∅, (h.newPoly level).2)) := by
    refine foldl_inv _ I _ _ ?_ ?_
    · obtain ⟨a1, a2, a3, a4, a5, a6⟩ := hnp W
      refine ⟨?_, ?_, ?_⟩
      · rw [a5]; exact (Build.start W).add "0" a1 a2 a3 a4 a6
      · intro id
        show id ∈ AList.insert "0" _ ∅ ↔ _
        rw [AList.mem_insert]
        simp
      · intro id p hp
        rw [GoMap.lookup_insert'] at hp
        split at hp
        · cases hp
          rw [a5]; exact view_newPoly h level
        · simp at hp
    · rintro pre id suf ⟨m, h1⟩ - ⟨B, hk, hv⟩
      obtain ⟨a1, a2, a3, a4, a5, a6⟩ := hnp B.wf
      refine ⟨?_, ?_, ?_⟩
      · show Build h (m.insert id _) _
        rw [a5]; exact B.add id a1 a2 a3 a4 a6
      · intro x
        show x ∈ m.insert id _ ↔ _
        rw [AList.mem_insert, hk]
        simp only [List.mem_append, List.mem_singleton]
        tauto
      · intro x p hp
        change (m.insert id _).lookup x = _ at hp
        rw [GoMap.lookup_insert'] at hp
        split at hp
        · cases hp
          show (h1.newPoly level).2.view C (h1.newPoly level).1 = _
          rw [a5]; exact view_newPoly h1 level
        · show (h1.newPoly level).2.view C p = _
          rw [a2.view (B.new x p hp).2 (by simp)]
          exact hv x p hp
  obtain ⟨B, hk, hv⟩ := hI
  obtain ⟨M, e, hview⟩ := B.made (C := C)
  refine ⟨M, fun id => ?_, fun id p hp => ?_⟩
  · show id ∈ (allocCt _ _).2.ct (allocCt _ _).1 ↔ _
    rw [e, hk, GoMap.mem_range, GoMap.mem_iff_lookup]
    rfl
  · change ((allocCt _ _).2.ct (allocCt _ _).1).lookup id = some p at hp
    rw [e] at hp
    show (allocCt _ _).2.view C p = _
    rw [hview p (B.new id p hp).2]
    exact hv id p hp

/-- `CopyNew` on the heap: a returned copy has new, distinct polynomials with the contents of the original -/
theorem copyNew_spec {o : Order String} {h h' : Heap N} {c c' : ℕ} (W : WF h) (hc : c < h.nct) (e : copyNew o h c = .ok (c', h')) :
    Made h c' h' ∧ (∀ id, id ∈ h'.ct c' ↔ id ∈ h.ct c) ∧
    ∀ id p', (h'.ct c').lookup id = some p' → ∃ p, (h.ct c).lookup id = some p ∧ h'.view C p' = h.view C p := by
  obtain ⟨p0, e0, e⟩ := Go.bind_ok e
  obtain ⟨w, e1, e⟩ := Go.bind_ok e
  have h0 := get_some e0
  have hnp : ∀ {h : Heap N}, WF h → ∀ p, WF (h.polyCopyNew p).2 ∧ Only ∅ ∅ h (h.polyCopyNew p).2 ∧ (h.polyCopyNew p).2.ct = h.ct ∧
      (h.polyCopyNew p).2.nct = h.nct ∧ (h.polyCopyNew p).1 = h.npoly ∧ (h.polyCopyNew p).2.npoly = h.npoly + 1 := fun W p => allocPoly_inv W _ _
  let I : GoMap String ℕ × Heap N → Prop := fun w =>
    Build h w.1 w.2 ∧ (∀ id, id ∈ w.1 → id ∈ h.ct c) ∧ ∀ id p', w.1.lookup id = some p' → ∃ p, (h.ct c).lookup id = some p ∧ w.2.view C p' = h.view C p
  have hI0 : I (AList.insert "0" (h.polyCopyNew p0).1 (∅ : GoMap String ℕ), (h.polyCopyNew p0).2) := by
    obtain ⟨a1, a2, a3, a4, a5, a6⟩ := hnp W p0
    refine ⟨?_, ?_, ?_⟩
    · rw [a5]; exact (Build.start W).add "0" a1 a2 a3 a4 a6
    · intro id hid
      simp only [AList.mem_insert, AList.notMem_empty, or_false] at hid
      subst hid
      rw [GoMap.mem_iff_lookup, h0]; rfl
    · intro id p hp
      rw [GoMap.lookup_insert'] at hp
      split at hp
      · rename_i hid
        cases hp
        subst hid
        exact ⟨p0, h0, by rw [a5]; exact view_polyCopyNew h p0⟩
      · simp at hp
  have hstep : ∀ w id w', I w → (do
      let p ← w.2.get c id
      (.ok (w.1.insert id (w.2.polyCopyNew p).1, (w.2.polyCopyNew p).2) : Go (GoMap String ℕ × Heap N))) = .ok w' → I w' ∧ id ∈ w'.1 ∧
        ∀ x, x ∈ w.1 → x ∈ w'.1 := by
    rintro ⟨m, h1⟩ id w' ⟨B, hk, hv⟩ e
    obtain ⟨p, ep, e⟩ := Go.bind_ok e
    cases e
    have hp : (h.ct c).lookup id = some p := by
      have := get_some ep
      rwa [show h1.ct = h.ct from B.ct] at this
    obtain ⟨a1, a2, a3, a4, a5, a6⟩ := hnp B.wf p
    refine ⟨⟨?_, ?_, ?_⟩, ?_, ?_⟩
    · show Build h (m.insert id _) _
      rw [a5]; exact B.add id a1 a2 a3 a4 a6
    · intro x hx
      rcases (AList.mem_insert _).mp hx with rfl | hx
      · rw [GoMap.mem_iff_lookup, hp]; rfl
      · exact hk x hx
    · intro x q hq
      change (m.insert id _).lookup x = _ at hq
      rw [GoMap.lookup_insert'] at hq
      split at hq
      · rename_i hid
        cases hq
        subst hid
        refine ⟨p, hp, ?_⟩
        show (h1.polyCopyNew p).2.view C (h1.polyCopyNew p).1 = _
        rw [a5]
        refine (view_polyCopyNew h1 p).trans (B.only.view (W.ctB c hc _ p hp) (by simp))
      · obtain ⟨p2, hp2, hv2⟩ := hv x q hq
        refine ⟨p2, hp2, ?_⟩
        show (h1.polyCopyNew p).2.view C q = _
        rw [a2.view (B.new x q hq).2 (by simp)]
        exact hv2
    · exact (AList.mem_insert _).mpr (Or.inl rfl)
    · intro x hx; exact (AList.mem_insert _).mpr (Or.inr hx)
  have hI : I w ∧ ∀ id ∈ GoMap.range o (h.ct c), id ∈ w.1 := by
    have : ∀ l s s', I s → Go.loop (fun (w : GoMap String ℕ × Heap N) id => do
        let p ← w.2.get c id
        .ok (w.1.insert id (w.2.polyCopyNew p).1, (w.2.polyCopyNew p).2)) s l = .ok s' →
        I s' ∧ (∀ id ∈ l, id ∈ s'.1) ∧ ∀ x, x ∈ s.1 → x ∈ s'.1 := by
      intro l
      induction l with
      | nil => intro s s' hs he; cases he; exact ⟨hs, by simp, fun _ h => h⟩
      | cons a l ih =>
        intro s s' hs he
        rw [Go.loop_cons] at he
        split at he
        · rename_i s1 hs1
          obtain ⟨b1, b2, b3⟩ := hstep s a s1 hs hs1
          obtain ⟨c1, c2, c3⟩ := ih s1 s' b1 he
          refine ⟨c1, ?_, fun x hx => c3 x (b3 x hx)⟩
          intro id hid
          rcases List.mem_cons.mp hid with rfl | hid
          · exact c3 _ b2
          · exact c2 id hid
        · cases he
    obtain ⟨a, b, -⟩ := this _ _ _ hI0 e1
    exact ⟨a, b⟩
  obtain ⟨⟨B, hk, hv⟩, hall⟩ := hI
  obtain ⟨M, em, hview⟩ := B.made (C := C)
  have e' : (c', h') = w.2.allocCt w.1 := by cases e; rfl
  have ec : c' = (w.2.allocCt w.1).1 := congrArg Prod.fst e'
  have eh : h' = (w.2.allocCt w.1).2 := congrArg Prod.snd e'
  rw [ec, eh]
  refine ⟨M, fun id => ?_, fun id p hp => ?_⟩
  · rw [em]
    exact ⟨hk id, fun hid => hall id (GoMap.mem_range.mpr hid)⟩
  · rw [em] at hp
    obtain ⟨q, hq, hvq⟩ := hv id p hp
    exact ⟨q, hq, by rw [hview p (B.new id p hp).2]; exact hvq⟩

/-- `CopyNew` returns for every ciphertext with a component "0" -/
theorem copyNew_returns (o : Order String) {h : Heap N} {c : ℕ} (h0 : "0" ∈ h.ct c) : ∃ c' h', copyNew o h c = .ok (c', h') := by
  obtain ⟨p0, e0⟩ := Option.isSome_iff_exists.mp (GoMap.mem_iff_lookup.mp h0)
  have hl : ∀ l (w : GoMap String ℕ × Heap N), w.2.ct = h.ct → (∀ id ∈ l, id ∈ h.ct c) → ∃ w', Go.loop (fun (w : GoMap String ℕ × Heap N) id => do
        let p ← w.2.get c id
        .ok (w.1.insert id (w.2.polyCopyNew p).1, (w.2.polyCopyNew p).2)) w l = .ok w' := by
    intro l
    induction l with
    | nil => intro w _ _; exact ⟨w, rfl⟩
    | cons a l ih =>
      intro w hw hmem
      obtain ⟨p, ep⟩ := Option.isSome_iff_exists.mp (GoMap.mem_iff_lookup.mp (hmem a (by simp)))
      have : w.2.get c a = .ok p := by unfold get; rw [hw]; exact GoMap.deref_ok ep
      obtain ⟨w', hw'⟩ := ih (w.1.insert a (w.2.polyCopyNew p).1, (w.2.polyCopyNew p).2) hw (fun id hid => hmem id (List.mem_cons_of_mem _ hid))
      refine ⟨w', ?_⟩
      rw [Go.loop_cons, this]
      exact hw'
  obtain ⟨w', hw'⟩ := hl (GoMap.range o (h.ct c)) (AList.insert "0" (h.polyCopyNew p0).1 (∅ : GoMap String ℕ), (h.polyCopyNew p0).2) rfl
    (fun id hid => GoMap.mem_range.mp hid)
  refine ⟨(w'.2.allocCt w'.1).1, (w'.2.allocCt w'.1).2, ?_⟩
  unfold copyNew
  have : h.get c "0" = .ok p0 := GoMap.deref_ok e0
  rw [this]
  show (Go.loop _ _ _ >>= _) = _
  rw [hw']
  rfl

/-! ## functions that write -/

section
variable {h0 h h' : Heap N} {Wp Wc : Set ℕ}

theorem copy_ok {o : Order String} {dst src : ℕ} (K : Ok h0 Wp Wc h) (hI : Into h0 Wp h dst) (e : copy o h dst src = .ok h') :
    Ok h0 Wp Wc h' ∧ h'.ct = h.ct ∧ h'.nct = h.nct := by
  refine loop_out K hI (fun h1 id h2 k i e => ?_) e
  obtain ⟨p, ep, e⟩ := Go.bind_ok e
  obtain ⟨q, eq, e⟩ := Go.bind_ok e
  cases e
  obtain ⟨a1, a2, a3, a4, -⟩ := polyCopy_inv (q := q) k.wf (Into.lt k i ep)
  exact ⟨k.step (i.2 id p (get_some ep)) a1 a2, a3, a4⟩

theorem dropLevel_ok {o : Order String} {c levels : ℕ} (K : Ok h0 Wp Wc h) (hI : Into h0 Wp h c) (e : dropLevel o h c levels = .ok h') :
    Ok h0 Wp Wc h' ∧ h'.ct = h.ct ∧ h'.nct = h.nct := by
  obtain ⟨p0, -, e⟩ := Go.bind_ok e
  split at e
  · cases e
  · refine loop_out K hI (fun h1 id h2 k i e => ?_) e
    obtain ⟨p, ep, e⟩ := Go.bind_ok e
    obtain ⟨a1, a2, a3, a4, -⟩ := truncate_inv k.wf e
    exact ⟨k.step (i.2 id p (get_some ep)) a1 a2, a3, a4⟩

theorem multByConst_ok {mredPsi : ℕ → ℕ → ℕ} {o : Order String} {c : HCt} {k : Const} {out : ℕ} {s : ℚ} (K : Ok h0 Wp Wc h) (hI : Into h0 Wp h out)
    (e : multByConst C mredPsi o h c k out = .ok (s, h')) : Ok h0 Wp Wc h' ∧ h'.ct = h.ct ∧ h'.nct = h.nct := by
  unfold multByConst at e
  split at e
  · cases e
  · obtain ⟨l0, -, e⟩ := Go.bind_ok e
    obtain ⟨lo, -, e⟩ := Go.bind_ok e
    obtain ⟨h1, e1, e⟩ := Go.bind_ok e
    cases e
    refine loop_out K hI (fun h1 id h2 k i e => ?_) e1
    obtain ⟨a, -, e⟩ := Go.bind_ok e
    obtain ⟨b, eb, e⟩ := Go.bind_ok e
    obtain ⟨b1, b2, b3, -⟩ := polyOp_ok k (Into.lt k i eb) (i.2 id b (get_some eb)) e
    exact ⟨b1, b2, b3⟩

theorem evalCore_ok {f : ℕ → RowBuf N → RowBuf N → RowBuf N} {level : ℕ} {cp : Heap N → ℕ → ℕ → Go (Heap N)} {o1 o2 : Order String}
    {t0 t1 out : ℕ} {ids0 ids1 : IDSet} (K : Ok h0 Wp Wc h) (hI : Into h0 Wp h out)
    (hcp : ∀ h1 p q h2, Ok h0 Wp Wc h1 → p < h1.npoly → (p ∈ Wp ∨ h0.npoly ≤ p) → cp h1 p q = .ok h2 → Ok h0 Wp Wc h2 ∧ h2.ct = h1.ct ∧ h2.nct = h1.nct)
    (e : evalCore f level cp o1 o2 h t0 t1 ids0 ids1 out = .ok h') : Ok h0 Wp Wc h' ∧ h'.ct = h.ct ∧ h'.nct = h.nct := by
  obtain ⟨a, -, e⟩ := Go.bind_ok e
  obtain ⟨b, -, e⟩ := Go.bind_ok e
  obtain ⟨p, ep, e⟩ := Go.bind_ok e
  obtain ⟨h1, e1, e⟩ := Go.bind_ok e
  obtain ⟨ids, -, e⟩ := Go.bind_ok e
  obtain ⟨K1, c1, n1, -⟩ := polyOp_ok K (Into.lt K hI ep) (hI.2 _ p (get_some ep)) e1
  obtain ⟨K2, c2, n2⟩ := loop_out K1 (hI.of_ct c1 n1) (fun h2 id h3 k i e => by
    unfold evalStep at e
    split at e
    · obtain ⟨b, -, e⟩ := Go.bind_ok e
      obtain ⟨p, ep, e⟩ := Go.bind_ok e
      exact hcp _ _ _ _ k (Into.lt k i ep) (i.2 _ p (get_some ep)) e
    · split at e
      · obtain ⟨b, -, e⟩ := Go.bind_ok e
        obtain ⟨p, ep, e⟩ := Go.bind_ok e
        exact hcp _ _ _ _ k (Into.lt k i ep) (i.2 _ p (get_some ep)) e
      · obtain ⟨a, -, e⟩ := Go.bind_ok e
        obtain ⟨b, -, e⟩ := Go.bind_ok e
        obtain ⟨p, ep, e⟩ := Go.bind_ok e
        obtain ⟨b1, b2, b3, -⟩ := polyOp_ok k (Into.lt k i ep) (i.2 _ p (get_some ep)) e
        exact ⟨b1, b2, b3⟩) e
  exact ⟨K2, c2.trans c1, n2.trans n1⟩

theorem negNew_ok {level : ℕ} {o1 o2 o3 : Order String} {op0 out : ℕ} (K : Ok h0 Wp Wc h) (hI : Into h0 Wp h out)
    (e : negNew C level o1 o2 o3 h op0 out = .ok h') : Ok h0 Wp Wc h' ∧ h'.ct = h.ct ∧ h'.nct = h.nct := by
  obtain ⟨ids0, -, e⟩ := Go.bind_ok e
  obtain ⟨ids, -, e⟩ := Go.bind_ok e
  refine loop_out K hI (fun h1 id h2 k i e => ?_) e
  unfold negStep at e
  split at e
  · obtain ⟨p, ep, e⟩ := Go.bind_ok e
    obtain ⟨b1, b2, b3, -⟩ := polyOp_ok k (Into.lt k i ep) (i.2 _ p (get_some ep)) e
    exact ⟨b1, b2, b3⟩
  · cases e
    exact ⟨k, rfl, rfl⟩

theorem rescaleStep_ok {level nb cin out : ℕ} {id : String} (K : Ok h0 Wp Wc h) (hI : Into h0 Wp h out)
    (e : rescaleStep C level nb cin out h id = .ok h') : Ok h0 Wp Wc h' ∧ h'.ct = h.ct ∧ h'.nct = h.nct := by
  obtain ⟨a, -, e⟩ := Go.bind_ok e
  obtain ⟨b, eb, e⟩ := Go.bind_ok e
  obtain ⟨-, -, e⟩ := Go.bind_ok e
  split at e
  · cases e
  · rename_i hlen
    have hb := Into.lt K hI eb
    have hw := hI.2 id b (get_some eb)
    obtain ⟨a1, a2, -, a4, a5, a6⟩ := rowsOp_inv (h := h) (level + 1 - nb) (fun i _ _ => divRows C level nb h a i) a a b K.wf hb (by omega)
    obtain ⟨b1, b2, b3, b4, -⟩ := truncate_inv a1 e
    exact ⟨(K.step hw a1 a2).step hw b1 b2, b3.trans a4, b4.trans a5⟩

/-- padding a ciphertext allocates polynomials and changes the map of that ciphertext only -/
theorem pad_ok {o1 o2 : Order String} {c : ℕ} {ids : IDSet} (K : Ok h0 Wp Wc h) (hI : Into h0 Wp h c) (hc : c ∈ Wc ∨ h0.nct ≤ c)
    (e : pad o1 o2 h c ids = .ok h') : Ok h0 Wp Wc h' ∧ Into h0 Wp h' c ∧ h'.nct = h.nct ∧ (∀ d, d ≠ c → h'.ct d = h.ct d) := by
  obtain ⟨p0, -, e⟩ := Go.bind_ok e
  obtain ⟨old, -, e⟩ := Go.bind_ok e
  obtain ⟨l, -, e⟩ := Go.bind_ok e
  have e' : (GoMap.range o2 ids.value).foldl (padStep c l (h.poly p0).isNTT old) h = h' := by cases e; rfl
  rw [← e']
  refine foldl_inv _ (fun _ s => Ok h0 Wp Wc s ∧ Into h0 Wp s c ∧ s.nct = h.nct ∧ (∀ d, d ≠ c → s.ct d = h.ct d)) _ _
    ⟨K, hI, rfl, fun _ _ => rfl⟩ ?_
  rintro pre id suf s - ⟨k, i, n, hd⟩
  unfold padStep
  split
  · exact ⟨k, i, n, hd⟩
  · obtain ⟨a1, a2, a3, a4, a5, a6⟩ := allocPoly_inv (h := s) k.wf false (List.replicate (l + 1) 0)
    change WF (s.newPoly l).2 at a1
    change Only ∅ ∅ s (s.newPoly l).2 at a2
    change (s.newPoly l).2.ct = s.ct at a3
    change (s.newPoly l).2.nct = s.nct at a4
    change (s.newPoly l).1 = s.npoly at a5
    change (s.newPoly l).2.npoly = s.npoly + 1 at a6
    have hm : ∀ x p, (((s.newPoly l).2.ct c).insert id (s.newPoly l).1).lookup x = some p → p < (s.newPoly l).2.npoly ∧
        (p ∈ Wp ∨ h0.npoly ≤ p) := by
      intro x p hp
      rw [GoMap.lookup_insert'] at hp
      split at hp
      · cases hp
        have := k.only.npoly
        exact ⟨by omega, Or.inr (by omega)⟩
      · rw [a3] at hp
        have := k.wf.ctB c i.1 x p hp
        exact ⟨by omega, i.2 x p hp⟩
    obtain ⟨b1, b2⟩ := setCt_inv a1 c (fun x p hp => (hm x p hp).1)
    have hself : ((s.newPoly l).2.setCt c (((s.newPoly l).2.ct c).insert id (s.newPoly l).1)).ct c =
      ((s.newPoly l).2.ct c).insert id (s.newPoly l).1 := Function.update_self _ _ _
    have hf : h0.npoly ≤ (s.newPoly l).1 := by have := k.only.npoly; omega
    refine ⟨((k.fresh a1 a2).map hc b1 b2).step (Or.inr hf) (setNTT_wf b1 _ _) (setNTT_only _ _), ⟨?_, ?_⟩, ?_, ?_⟩
    · show c < (s.newPoly l).2.nct
      rw [a4]; exact i.1
    · intro x p hp
      change (((s.newPoly l).2.setCt c (((s.newPoly l).2.ct c).insert id (s.newPoly l).1)).ct c).lookup x = some p at hp
      rw [hself] at hp
      exact (hm x p hp).2
    · show (s.newPoly l).2.nct = h.nct
      rw [a4, n]
    · intro d hdc
      show (Function.update (s.newPoly l).2.ct c _) d = _
      rw [Function.update_of_ne hdc, a3]
      exact hd d hdc

theorem unlessNTT_ok {p level : ℕ} {f : ∀ i, Limb N (C.q i) → Limb N (C.q i)} (K : Ok h0 Wp Wc h) (hp : p < h.npoly)
    (hw : p ∈ Wp ∨ h0.npoly ≤ p) (e : h.unlessNTT p level f = .ok h') : Ok h0 Wp Wc h' ∧ h'.ct = h.ct ∧ h'.nct = h.nct ∧ h'.npoly = h.npoly := by
  unfold unlessNTT at e
  split at e
  · cases e; exact ⟨K, rfl, rfl, rfl⟩
  · exact polyOp_ok K hp hw e

theorem partialDecrypt_ok' {sk : SKey C} {c : ℕ} (K : Ok h0 Wp Wc h) (hI : Into h0 Wp h c) (hc : c ∈ Wc ∨ h0.nct ≤ c)
    (e : partialDecrypt sk h c = .ok h') : Ok h0 Wp Wc h' ∧ Into h0 Wp h' c ∧ h'.nct = h.nct := by
  obtain ⟨level, -, e⟩ := Go.bind_ok e
  obtain ⟨p, ep, e⟩ := Go.bind_ok e
  obtain ⟨h1, e1, e⟩ := Go.bind_ok e
  obtain ⟨h2, e2, e⟩ := Go.bind_ok e
  obtain ⟨h3, e3, e⟩ := Go.bind_ok e
  obtain ⟨p0, e4, e⟩ := Go.bind_ok e
  obtain ⟨h5, e5, e⟩ := Go.bind_ok e
  have hw := hI.2 _ p (get_some ep)
  have hp := Into.lt K hI ep
  obtain ⟨K1, c1, n1, m1⟩ := unlessNTT_ok K hp hw e1
  obtain ⟨K2, c2, n2, m2⟩ := polyOp_ok K1 (by omega) hw e2
  obtain ⟨K3, c3, n3, m3⟩ := unlessNTT_ok K2 (by omega) hw e3
  have I3 : Into h0 Wp h3 c := ((hI.of_ct c1 n1).of_ct c2 n2).of_ct c3 n3
  obtain ⟨K5, c5, n5, m5⟩ := polyOp_ok K3 (Into.lt K3 I3 e4) (I3.2 _ p0 (get_some e4)) e5
  have I5 := I3.of_ct c5 n5
  have hm : ∀ x q, ((h5.ct c).erase sk.id).lookup x = some q → (h5.ct c).lookup x = some q := by
    intro x q hq
    rw [GoMap.lookup_erase'] at hq
    split at hq
    · cases hq
    · exact hq
  obtain ⟨b1, b2⟩ := setCt_inv K5.wf c (m := (h5.ct c).erase sk.id) (fun x q hq => K5.wf.ctB c I5.1 x q (hm x q hq))
  cases e
  have hself : (h5.setCt c ((h5.ct c).erase sk.id)).ct c = (h5.ct c).erase sk.id := Function.update_self _ _ _
  refine ⟨K5.map hc b1 b2, ⟨I5.1, fun x q hq => I5.2 x q (hm x q (by rwa [hself] at hq))⟩, ?_⟩
  show h5.nct = h.nct
  rw [n5, n3, n2, n1]

theorem decryptLoop_ok' {ids : IDSet} {sks : KeySet (SKey C)} {tmp : ℕ} {l : List String} (K : Ok h0 Wp Wc h) (hI : Into h0 Wp h tmp)
    (hc : tmp ∈ Wc ∨ h0.nct ≤ tmp) (e : decryptLoop ids sks h tmp l = .ok h') : Ok h0 Wp Wc h' ∧ Into h0 Wp h' tmp ∧ h'.nct = h.nct := by
  refine Go.loop_pres (fun s => Ok h0 Wp Wc s ∧ Into h0 Wp s tmp ∧ s.nct = h.nct) (fun s a s' _ hs e => ?_) ⟨K, hI, rfl⟩ e
  obtain ⟨k, i, n⟩ := hs
  obtain ⟨sk, -, e⟩ := Go.bind_ok e
  split at e
  · obtain ⟨k', i', n'⟩ := partialDecrypt_ok' k i hc e
    exact ⟨k', i', n'.trans n⟩
  · cases e
    exact ⟨k, i, n⟩

/-- `Decrypt` writes the plaintext polynomial only (besides its own temporary) -/
theorem decrypt_ok' {o : Sched String} {c : ℕ} {sks : KeySet (SKey C)} {pt : ℕ} (W : WF h) (hc : c < h.nct) (hpt : pt < h.npoly)
    (e : decrypt o h c sks pt = .ok h') : WF h' ∧ Only {pt} ∅ h h' := by
  obtain ⟨l, -, e⟩ := Go.bind_ok e
  obtain ⟨h1, e1, e⟩ := Go.bind_ok e
  obtain ⟨w, e2, e⟩ := Go.bind_ok e
  obtain ⟨ids, -, e⟩ := Go.bind_ok e
  obtain ⟨h3, e3, e⟩ := Go.bind_ok e
  obtain ⟨a1, a2, -, a4, a5⟩ := truncate_inv W e1
  obtain ⟨M, -, -⟩ := copyNew_spec (C := C) (c' := w.1) (h' := w.2) a1 (by rw [a4]; exact hc) e2
  have K : Ok h {pt} ∅ w.2 := ⟨M.wf, a2.trans' M.only (fun _ _ e => e.elim) (fun _ _ e => e.elim)⟩
  have hI : Into h {pt} w.2 w.1 := ⟨by rw [M.addr, M.nct]; omega, fun id p hp => Or.inr (by have := M.new id p hp; omega)⟩
  obtain ⟨K3, -, -⟩ := decryptLoop_ok' K hI (Or.inr (by rw [M.addr, a4])) e3
  split at e
  · cases e
  · obtain ⟨p0, -, e⟩ := Go.bind_ok e
    obtain ⟨K4, -⟩ := polyOp_ok K3 (p := pt) (by have := K3.only.npoly; omega) (Or.inl rfl) e
    exact ⟨K4.wf, K4.only⟩

end

end Heap
end MKHE
