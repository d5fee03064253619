import Verif.Lemmas.HeapView
import Mathlib.Logic.Relation

set_option autoImplicit false
set_option linter.unusedSectionVars false

/-!
# C07, C08, C09, C20, C52: allocation, copies, padding, and what is left unchanged

Statements about the memory model `Verif/Model/Heap.lean`. `value C h c` is the contents of ciphertext `c` in heap `h`; `WF h` says that no
two polynomial objects share a row buffer (ciphertexts may share polynomial objects); `Only Wp Wc h h'` says that nothing that existed in `h`
differs in `h'`, except the polynomials `Wp` and the ciphertext maps `Wc`.
-/

namespace MKHE.C07
open MKHE MKHE.Heap
variable {N : ℕ} [NeZero N] {C : Ctx N}

/-- the phase of a ciphertext whose components are all zero is zero -/
theorem phase_zero {ct : Ct C} (hz : ∀ id p, ct.lookup id = some p → ∀ i, cf (p.coeffs i) = 0) (s : String → Nega N ℤ) (i : ℕ) :
    ct.phase s i = 0 := by
  have hc : ∀ id, cf (ct.comp id i) = 0 := by
    intro id
    unfold Ct.comp
    cases h : ct.lookup id with
    | some p => exact hz id p h i
    | none => funext t; simp [cf, Limb.res, Limb.zero]
  unfold Ct.phase
  rw [hc, zero_add]
  exact Finset.sum_eq_zero fun id _ => by rw [hc, zero_mul]

/-- a ciphertext all of whose components are zero polynomials at `level` with the given domain flag, with exactly the components "0" and `ids` -/
structure IsNew (ids : IDSet) (level : ℕ) (ntt : Bool) (ct : Ct C) : Prop where
  mem : ∀ id, id ∈ ct ↔ id = "0" ∨ ids.has id = true
  zero : ∀ id p, ct.lookup id = some p → p.len = level + 1 ∧ p.isNTT = ntt ∧ ∀ i t, (p.rows i t).val = 0

theorem IsNew.level {ids : IDSet} {level : ℕ} {ntt : Bool} {ct : Ct C} (H : IsNew ids level ntt ct) : ct.level = .ok level := by
  obtain ⟨p, hp⟩ := Ct.get ((H.mem "0").mpr (Or.inl rfl))
  rw [Ct.level_ok hp (H.zero _ _ hp).1]; rfl

theorem IsNew.idSet {ids : IDSet} (h0 : ids.has "0" = false) {level : ℕ} {ntt : Bool} {ct : Ct C} (H : IsNew ids level ntt ct) (o : Order String) :
    ∃ ids', IDSet.ofCiphertext o ct = .ok ids' ∧ ∀ id, ids'.has id = ids.has id := by
  obtain ⟨ids', a1, a2⟩ := IDSet.ofCiphertext_spec o ct
  refine ⟨ids', a1, fun id => ?_⟩
  rw [Bool.eq_iff_iff, a2, H.mem]
  constructor
  · rintro ⟨rfl | h, hz⟩
    · exact absurd rfl hz
    · exact h
  · intro h
    refine ⟨Or.inr h, ?_⟩
    rintro rfl
    rw [h0] at h; cases h

theorem IsNew.phase {ids : IDSet} {level : ℕ} {ntt : Bool} {ct : Ct C} (H : IsNew ids level ntt ct) (s : String → Nega N ℤ) (i : ℕ) : ct.phase s i = 0 := by
  refine phase_zero (fun id p hp i => ?_) s i
  obtain ⟨-, -, hz⟩ := H.zero id p hp
  have h0 : cf (p.rows i) = 0 := by
    funext t
    show (((p.rows i t).val : ℕ) : ZMod (C.q i)) = 0
    rw [hz]; simp
  rw [Poly.cf_coeffs]
  unfold domVal
  split
  · have : (C.RQ i).ev (p.rows i) = (C.RQ i).F.symm (p.rows i).res := rfl
    rw [this, show (p.rows i).res = 0 from h0, map_zero]
  · exact h0

/-- **C07, NewCiphertext.** For every id set without "0" (C01: no id set of the program contains it), level, order and heap: the new ciphertext is
zero with exactly these ids at this level, its components are new and pairwise distinct, `IDSet()` returns the ids, `Level()` the level, and its
phase is zero under all secrets; nothing that existed is changed. -/
theorem newCiphertext (o : Order String) {ids : IDSet} (h0 : ids.has "0" = false) (level : ℕ) {h : Heap N} (W : WF h) :
    Made h (newCt o ids level h).1 (newCt o ids level h).2 ∧
    IsNew ids level false (value C (newCt o ids level h).2 (newCt o ids level h).1) ∧
    (newCt o ids level h).2.level (newCt o ids level h).1 = .ok level ∧
    (∀ o', ∃ ids', (newCt o ids level h).2.idSet o' (newCt o ids level h).1 = .ok ids' ∧ ∀ id, ids'.has id = ids.has id) ∧
    ∀ s i, (value C (newCt o ids level h).2 (newCt o ids level h).1).phase s i = 0 := by
  obtain ⟨M, hk, hv⟩ := newCt_spec (C := C) o ids level W
  have H : IsNew ids level false (value C (newCt o ids level h).2 (newCt o ids level h).1) := by
    refine ⟨fun id => by rw [value_mem, hk], fun id p hp => ?_⟩
    rw [value_lookup] at hp
    obtain ⟨a, ha, rfl⟩ := Option.map_eq_some_iff.mp hp
    rw [hv id a ha]
    exact ⟨rfl, rfl, fun _ _ => rfl⟩
  exact ⟨M, H, by rw [level_value (C := C)]; exact H.level, fun o' => by rw [idSet_value (C := C)]; exact H.idSet h0 o', fun s i => H.phase s i⟩

/-- **C07, NewCiphertextNTT**: the same with the NTT flag on every component -/
theorem newCiphertextNTT (o o' : Order String) {ids : IDSet} (h0 : ids.has "0" = false) (level : ℕ) {h : Heap N} (W : WF h) :
    ∃ c h', newCtNTT o o' ids level h = .ok (c, h') ∧ Made h c h' ∧ IsNew ids level true (value C h' c) ∧ h'.level c = .ok level ∧
      (∀ o', ∃ ids', h'.idSet o' c = .ok ids' ∧ ∀ id, ids'.has id = ids.has id) ∧ ∀ s i, (value C h' c).phase s i = 0 := by
  obtain ⟨M, hk, hv⟩ := newCt_spec (C := C) o ids level W
  set w := newCt o ids level h
  let f : Heap N → String → Go (Heap N) := fun h id => do
    let p ← h.get w.1 id
    .ok (h.setNTT p true)
  obtain ⟨h', e1, e2, e3, e4, e5, e6⟩ := Go.loop_inv f (fun pre s => WF s ∧ Only ∅ ∅ h s ∧ s.ct = w.2.ct ∧ (s.nct = w.2.nct ∧ s.npoly = w.2.npoly) ∧
    ∀ id p, (w.2.ct w.1).lookup id = some p → s.view C p = if id ∈ pre then { Poly.new level with isNTT := true } else Poly.new level)
    (GoMap.range o' (w.2.ct w.1)) w.2 ⟨M.wf, M.only, rfl, ⟨rfl, rfl⟩, fun id p hp => by simpa using hv id p hp⟩ (by
      rintro pre a suf s hl ⟨k1, k2, k3, k4, k5⟩
      have ha : a ∈ w.2.ct w.1 := by rw [← GoMap.mem_range (o := o'), hl]; simp
      obtain ⟨p, hp⟩ := Option.isSome_iff_exists.mp (GoMap.mem_iff_lookup.mp ha)
      have hget : s.get w.1 a = .ok p := by unfold Heap.get; rw [k3]; exact GoMap.deref_ok hp
      refine ⟨s.setNTT p true, by show (s.get w.1 a >>= _) = _; rw [hget]; rfl, setNTT_wf k1 _ _, ?_, k3, k4, ?_⟩
      · exact k2.trans' (setNTT_only p true) (fun q hq e => by
          rw [Set.mem_singleton_iff] at e
          subst e
          exact absurd hq (by have := M.new a q hp; omega)) (fun _ _ e => e)
      · intro id q hq
        by_cases hqp : q = p
        · subst hqp
          have : id = a := M.inj id a q hq hp
          subst this
          rw [view_setNTT, if_pos (by simp)]
          have := k5 id q hq
          refine congrArg₂ (Poly.mk (C := C) · true ·) ?_ ?_
          · show (s.view C q).len = _
            rw [this]; split <;> rfl
          · rw [this]; split <;> rfl
        · rw [(setNTT_only (h := s) p true).view (by rw [k4.2]; exact (M.new id q hq).2) hqp, k5 id q hq]
          have hne : id ≠ a := by
            rintro rfl
            rw [hp] at hq
            cases hq
            exact hqp rfl
          simp [hne])
  have hall : ∀ id p, (h'.ct w.1).lookup id = some p → h'.view C p = { Poly.new level with isNTT := true } := by
    intro id p hp
    rw [e4] at hp
    rw [e6 id p hp, if_pos]
    exact GoMap.mem_range.mpr (GoMap.mem_iff_lookup.mpr (by rw [hp]; rfl))
  have H : IsNew ids level true (value C h' w.1) := by
    refine ⟨fun id => by rw [value_mem, e4, hk], fun id p hp => ?_⟩
    rw [value_lookup] at hp
    obtain ⟨a, ha, rfl⟩ := Option.map_eq_some_iff.mp hp
    rw [hall id a ha]
    exact ⟨rfl, rfl, fun _ _ => rfl⟩
  refine ⟨w.1, h', ?_, ⟨e2, e3, M.addr, by rw [e5.1]; exact M.nct, ?_, ?_⟩, H, by rw [level_value (C := C)]; exact H.level,
    fun o'' => by rw [idSet_value (C := C)]; exact H.idSet h0 o'', fun s i => H.phase s i⟩
  · show (Go.loop f w.2 _ >>= _) = _
    rw [e1]; rfl
  · intro id p hp
    rw [e4] at hp
    rw [e5.2]
    exact M.new id p hp
  · intro id id' p hp hp'
    rw [e4] at hp hp'
    exact M.inj id id' p hp hp'

end MKHE.C07

namespace MKHE.C08
open MKHE MKHE.Heap
variable {N : ℕ} [NeZero N] {C : Ctx N}

/-- One in-place write through ciphertext `c`: overwrite a row of a component with arbitrary words, set the flag of a component, shorten the slice
of a component, delete a component, or add a component made of new rows. -/
inductive Write (c : ℕ) : Heap N → Heap N → Prop
  | coeff {h : Heap N} {id : String} {p i : ℕ} (r : RowBuf N) (hp : (h.ct c).lookup id = some p) (hi : i < h.len p) :
      Write c h (h.setRow (h.addr p i) r)
  | flag {h : Heap N} {id : String} {p : ℕ} (b : Bool) (hp : (h.ct c).lookup id = some p) : Write c h (h.setNTT p b)
  | shorten {h h' : Heap N} {id : String} {p n : ℕ} (hp : (h.ct c).lookup id = some p) (e : h.truncate p n = .ok h') : Write c h h'
  | delete {h : Heap N} (id : String) : Write c h (h.setCt c ((h.ct c).erase id))
  | extend {h : Heap N} (id : String) (b : Bool) (rows : List (RowBuf N)) :
      Write c h ((h.allocPoly b rows).2.setCt c ((h.ct c).insert id (h.allocPoly b rows).1))

/-- any sequence of writes through ciphertexts satisfying `S` -/
def Writes (S : ℕ → Prop) : Heap N → Heap N → Prop := Relation.ReflTransGen fun h h' => ∃ c, S c ∧ Write c h h'

theorem write_ok {h0 h h' : Heap N} {Wp Wc : Set ℕ} {c : ℕ} (K : Ok h0 Wp Wc h) (hI : Into h0 Wp h c) (hc : c ∈ Wc ∨ h0.nct ≤ c) (w : Write c h h') :
    Ok h0 Wp Wc h' ∧ h'.nct = h.nct ∧ h.npoly ≤ h'.npoly ∧ ∀ d, h'.ct d = h.ct d ∨ (d = c ∧ Into h0 Wp h' c) := by
  cases w with
  | coeff r hp hi =>
    have hlt := K.wf.ctB c hI.1 _ _ hp
    exact ⟨K.step (hI.2 _ _ hp) (setRow_wf K.wf _ _) (setRow_only K.wf hlt (addr_mem hi) r), rfl, le_rfl, fun d => Or.inl rfl⟩
  | flag b hp => exact ⟨K.step (hI.2 _ _ hp) (setNTT_wf K.wf _ _) (setNTT_only _ _), rfl, le_rfl, fun d => Or.inl rfl⟩
  | shorten hp e =>
    obtain ⟨a1, a2, a3, a4, a5⟩ := truncate_inv K.wf e
    exact ⟨K.step (hI.2 _ _ hp) a1 a2, a4, by omega, fun d => Or.inl (by rw [a3])⟩
  | delete id =>
    have hm : ∀ x q, ((h.ct c).erase id).lookup x = some q → (h.ct c).lookup x = some q := by
      intro x q hq
      rw [GoMap.lookup_erase'] at hq
      split at hq
      · cases hq
      · exact hq
    obtain ⟨b1, b2⟩ := setCt_inv K.wf c (m := (h.ct c).erase id) (fun x q hq => K.wf.ctB c hI.1 x q (hm x q hq))
    have hs : (h.setCt c ((h.ct c).erase id)).ct c = (h.ct c).erase id := Function.update_self _ _ _
    refine ⟨K.map hc b1 b2, rfl, le_rfl, fun d => ?_⟩
    by_cases hd : d = c
    · subst hd
      exact Or.inr ⟨rfl, hI.1, fun x q hq => hI.2 x q (hm x q (by rwa [hs] at hq))⟩
    · exact Or.inl (Function.update_of_ne hd _ _)
  | extend id b rows =>
    obtain ⟨a1, a2, a3, a4, a5, a6⟩ := allocPoly_inv K.wf b rows
    have hm : ∀ x q, ((h.ct c).insert id (h.allocPoly b rows).1).lookup x = some q → q < (h.allocPoly b rows).2.npoly ∧ (q ∈ Wp ∨ h0.npoly ≤ q) := by
      intro x q hq
      rw [GoMap.lookup_insert'] at hq
      split at hq
      · cases hq
        have := K.only.npoly
        exact ⟨by omega, Or.inr (by omega)⟩
      · have := K.wf.ctB c hI.1 x q hq
        exact ⟨by omega, hI.2 x q hq⟩
    obtain ⟨b1, b2⟩ := setCt_inv a1 c (m := (h.ct c).insert id (h.allocPoly b rows).1) (fun x q hq => (hm x q hq).1)
    have hs : ((h.allocPoly b rows).2.setCt c ((h.ct c).insert id (h.allocPoly b rows).1)).ct c = (h.ct c).insert id (h.allocPoly b rows).1 :=
      Function.update_self _ _ _
    refine ⟨(K.fresh a1 a2).map hc b1 b2, a4, by show h.npoly ≤ (h.allocPoly b rows).2.npoly; omega, fun d => ?_⟩
    by_cases hd : d = c
    · subst hd
      refine Or.inr ⟨rfl, ?_, fun x q hq => (hm x q (by rwa [hs] at hq)).2⟩
      show d < (h.allocPoly b rows).2.nct
      rw [a4]; exact hI.1
    · refine Or.inl ?_
      show Function.update (h.allocPoly b rows).2.ct c _ d = _
      rw [Function.update_of_ne hd, a3]

/-- a sequence of writes through ciphertexts in `S` changes nothing but `Wp` and `Wc` -/
theorem writes_ok {h0 h h' : Heap N} {Wp Wc : Set ℕ} {S : ℕ → Prop} (K : Ok h0 Wp Wc h) (hI : ∀ c, S c → Into h0 Wp h c)
    (hc : ∀ c, S c → c ∈ Wc ∨ h0.nct ≤ c) (w : Writes S h h') : Ok h0 Wp Wc h' := by
  have : Ok h0 Wp Wc h' ∧ ∀ c, S c → Into h0 Wp h' c := by
    induction w with
    | refl => exact ⟨K, hI⟩
    | tail _ hw ih =>
      obtain ⟨c, hS, hw⟩ := hw
      obtain ⟨a1, a2, a3, a4⟩ := write_ok ih.1 (ih.2 c hS) (hc c hS) hw
      refine ⟨a1, fun d hd => ?_⟩
      rcases a4 d with e | ⟨rfl, e⟩
      · exact ⟨by rw [a2]; exact (ih.2 d hd).1, fun id p hp => (ih.2 d hd).2 id p (by rwa [e] at hp)⟩
      · exact e
  exact this.1

/-- **C08, CopyNew.** A call on a ciphertext with a component "0" returns; the copy has the same value; any later sequence of in-place writes through
the copy leaves the value of every ciphertext that existed before the copy (the original in particular) unchanged, and any sequence of writes through
the ciphertexts that existed before leaves the value of the copy unchanged. For every well-formed heap, also with ciphertexts sharing polynomials. -/
theorem copyNew_deep (o : Order String) {h : Heap N} {c : ℕ} (W : WF h) (hc : c < h.nct) (h0 : "0" ∈ h.ct c) :
    ∃ c' h', copyNew o h c = .ok (c', h') ∧ h.nct ≤ c' ∧ (value C h' c').Same (value C h c) ∧
      (∀ d < h.nct, value C h' d = value C h d) ∧
      (∀ h'', Writes (· = c') h' h'' → ∀ d < h.nct, value C h'' d = value C h d) ∧
      (∀ h'', Writes (· < h.nct) h' h'' → value C h'' c' = value C h' c') := by
  obtain ⟨c', h', e⟩ := copyNew_returns o h0
  obtain ⟨M, R⟩ := copyNew_rep (C := C) W hc e
  refine ⟨c', h', e, by rw [M.addr], R.value, fun d hd => M.only.value W hd (by simp) (by simp), fun h'' w d hd => ?_, fun h'' w => ?_⟩
  · have K : Ok h ∅ ∅ h'' := writes_ok (S := (· = c')) ⟨M.wf, M.only⟩ (fun d hd => by rw [hd]; exact M.into ∅)
      (fun d hd => Or.inr (by rw [hd, M.addr])) w
    exact K.only.value W hd (by simp) (by simp)
  · have K : Ok h' {p | p < h.npoly} {d | d < h.nct} h'' := writes_ok (S := (· < h.nct)) (Ok.start M.wf)
      (fun d hd => ⟨by have := M.nct; omega, fun id p hp => Or.inl (W.ctB d hd id p (by rwa [M.only.ct d hd (by simp)] at hp))⟩)
      (fun d hd => Or.inl hd) w
    refine K.only.value M.wf (M.into ∅).1 (fun hh => ?_) (fun id p hp hh => ?_)
    · have : c' < h.nct := hh
      rw [M.addr] at this; omega
    · have := M.new id p hp
      have : p < h.npoly := hh
      omega

/-- `CopyNew` of a ciphertext without a component "0" panics -/
theorem copyNew_panics (o : Order String) {h : Heap N} {c : ℕ} (h0 : "0" ∉ h.ct c) : copyNew o h c = .error .nilDeref := by
  unfold copyNew Heap.get
  rw [GoMap.deref_none (AList.lookup_eq_none.mpr h0)]; rfl

/-- **C08, Copy.** If the receiver has every id of the argument, and its components are distinct polynomials none of which belongs to the argument,
the call returns, every component of the argument is copied into the storage of the receiver (the rows that exist on both sides, and the flag), the
other components of the receiver keep their contents, and nothing else is written. -/
theorem copy_value (o : Order String) {h : Heap N} {dst src : ℕ} (W : WF h) (hd : dst < h.nct) (hs : src < h.nct)
    (hsub : ∀ id, id ∈ h.ct src → id ∈ h.ct dst)
    (hinj : ∀ id id' p, (h.ct dst).lookup id = some p → (h.ct dst).lookup id' = some p → id = id')
    (hdis : ∀ id id' p, (h.ct dst).lookup id = some p → (h.ct src).lookup id' ≠ some p) :
    ∃ h', copy o h dst src = .ok h' ∧ h'.ct = h.ct ∧ Only {p | ∃ id, (h.ct dst).lookup id = some p} ∅ h h' ∧ value C h' src = value C h src ∧
      (∀ id P Q, (value C h dst).lookup id = some P → (value C h src).lookup id = some Q → (value C h' dst).lookup id = some (P.copy Q)) ∧
      ∀ id, id ∉ h.ct src → (value C h' dst).lookup id = (value C h dst).lookup id := by
  let Wp : Set ℕ := {p | ∃ id, (h.ct dst).lookup id = some p}
  obtain ⟨h', e1, K, e2, e3, e4⟩ := Go.loop_inv (fun (h : Heap N) id => do
      let p ← h.get dst id
      let q ← h.get src id
      (.ok (h.polyCopy p q) : Go (Heap N)))
    (fun pre s => Ok h Wp ∅ s ∧ s.ct = h.ct ∧ (s.nct = h.nct ∧ s.npoly = h.npoly) ∧
      ∀ id p, (h.ct dst).lookup id = some p → (id ∉ pre → s.view C p = h.view C p) ∧
        (∀ q, id ∈ pre → (h.ct src).lookup id = some q → s.view C p = (h.view C p).copy (h.view C q)))
    (GoMap.range o (h.ct src)) h ⟨Ok.start W, rfl, ⟨rfl, rfl⟩, fun id p _ => ⟨fun _ => rfl, fun q hq => by simp at hq⟩⟩ (by
      rintro pre a suf s hl ⟨k1, k2, k3, k4⟩
      have hnd := GoMap.nodup_range o (h.ct src)
      rw [hl] at hnd
      have hapre : a ∉ pre := fun hm => by
        have := List.nodup_append.mp hnd
        exact this.2.2 a hm a (by simp) rfl
      have ha : a ∈ h.ct src := by rw [← GoMap.mem_range (o := o), hl]; simp
      obtain ⟨q, hq⟩ := Option.isSome_iff_exists.mp (GoMap.mem_iff_lookup.mp ha)
      obtain ⟨p, hp⟩ := Option.isSome_iff_exists.mp (GoMap.mem_iff_lookup.mp (hsub a ha))
      have g1 : s.get dst a = .ok p := by unfold Heap.get; rw [k2]; exact GoMap.deref_ok hp
      have g2 : s.get src a = .ok q := by unfold Heap.get; rw [k2]; exact GoMap.deref_ok hq
      have lp : p < s.npoly := by rw [k3.2]; exact W.ctB dst hd a p hp
      have lq : q < s.npoly := by rw [k3.2]; exact W.ctB src hs a q hq
      have hqW : q ∉ Wp := fun ⟨id, hid⟩ => hdis id a q hid hq
      have vq : s.view C q = h.view C q := k1.only.view (by rw [← k3.2]; exact lq) hqW
      obtain ⟨a1, a2, a3, a4, a5⟩ := polyCopy_inv (h := s) (p := p) (q := q) k1.wf lp
      refine ⟨s.polyCopy p q, by rw [g1, bind_ok, g2, bind_ok], k1.step (Or.inl ⟨a, hp⟩) a1 a2, a3.trans k2, ⟨a4.trans k3.1, a5.trans k3.2⟩, ?_⟩
      intro id r hr
      by_cases hrp : r = p
      · subst hrp
        have : id = a := hinj id a r hr hp
        subst this
        refine ⟨fun hn => absurd (by simp) hn, fun q' _ hq' => ?_⟩
        rw [hq] at hq'
        cases hq'
        rw [view_polyCopy k1.wf lp lq, vq, (k4 id r hr).1 hapre]
      · have hne : id ≠ a := by
          rintro rfl
          rw [hp] at hr; cases hr; exact hrp rfl
        rw [a2.view (by rw [k3.2]; exact W.ctB dst hd id r hr) hrp]
        refine ⟨fun hn => (k4 id r hr).1 (fun hm => hn (by simp [hm])), fun q' hm hq' => (k4 id r hr).2 q' ?_ hq'⟩
        simpa [hne] using hm)
  refine ⟨h', e1, e2, K.only, K.only.value W hs (by simp) (fun id p hp ⟨id', hp'⟩ => hdis id' id p hp' hp), ?_, ?_⟩
  · intro id P Q hP hQ
    rw [value_lookup] at hP hQ
    obtain ⟨p, hp, rfl⟩ := Option.map_eq_some_iff.mp hP
    obtain ⟨q, hq, rfl⟩ := Option.map_eq_some_iff.mp hQ
    rw [value_lookup, e2, hp]
    show some _ = _
    rw [(e4 id p hp).2 q (GoMap.mem_range.mpr (GoMap.mem_iff_lookup.mpr (by rw [hq]; rfl))) hq]
  · intro id hid
    rw [value_lookup, value_lookup, e2]
    cases hp : (h.ct dst).lookup id with
    | none => rfl
    | some p =>
      show some _ = some _
      rw [(e4 id p hp).1 (fun hm => hid (GoMap.mem_range.mp hm))]

/-- `Copy` panics if the receiver lacks an id of the argument -/
theorem copy_panics (o : Order String) {h : Heap N} {dst src : ℕ} {id : String} (h1 : id ∈ h.ct src) (h2 : id ∉ h.ct dst) :
    copy o h dst src = .error .nilDeref := by
  unfold copy
  have hm : id ∈ GoMap.range o (h.ct src) := GoMap.mem_range.mpr h1
  have hin : ∀ x ∈ GoMap.range o (h.ct src), x ∈ h.ct src := fun x hx => GoMap.mem_range.mp hx
  generalize GoMap.range o (h.ct src) = l at hm hin
  have : ∀ (s : Heap N), s.ct = h.ct → Go.loop (fun (h : Heap N) id => do
      let p ← h.get dst id
      let q ← h.get src id
      (.ok (h.polyCopy p q) : Go (Heap N))) s l = .error .nilDeref := by
    induction l with
    | nil => simp at hm
    | cons a l ih =>
      intro s hs
      rw [Go.loop_cons]
      obtain ⟨q, hq⟩ := Option.isSome_iff_exists.mp (GoMap.mem_iff_lookup.mp (hin a (by simp)))
      cases hp : (h.ct dst).lookup a with
      | none =>
        have : s.get dst a = .error .nilDeref := by unfold Heap.get; rw [hs]; exact GoMap.deref_none hp
        rw [this]; rfl
      | some p =>
        have g1 : s.get dst a = .ok p := by unfold Heap.get; rw [hs]; exact GoMap.deref_ok hp
        have g2 : s.get src a = .ok q := by unfold Heap.get; rw [hs]; exact GoMap.deref_ok hq
        rw [g1, bind_ok, g2, bind_ok]
        refine ih ?_ (fun x hx => hin x (List.mem_cons_of_mem _ hx)) _ ?_
        · rcases List.mem_cons.mp hm with rfl | hm
          · exact absurd (GoMap.mem_iff_lookup.mpr (by rw [hp]; rfl)) h2
          · exact hm
        · rw [← hs]
          unfold polyCopy setNTT
          exact rowsOp_ct _ _ _ _ _
  exact this h rfl

end MKHE.C08

namespace MKHE.C09
open MKHE MKHE.Heap
variable {N : ℕ} [NeZero N] {C : Ctx N}

/-- **C09.** For a ciphertext at `level` whose domain flag on "0" is `b`, every id set without "0" and every order, `PadCiphertext` returns; the ids
are the union of the old ids and `ids`; old components are untouched (the same objects with the same contents), the new ones are zero polynomials at
the same level with the same flag in new pairwise distinct polynomials; the phase under any secrets is unchanged; nothing but this ciphertext's map is written. -/
theorem pad_value (o1 o2 : Order String) {h : Heap N} {c : ℕ} (W : WF h) (hc : c < h.nct) {P0 : Poly C} (h0 : (value C h c).lookup "0" = some P0)
    {level : ℕ} (hl : P0.len = level + 1) {ids : IDSet} (hz : ids.has "0" = false) :
    ∃ h', pad o1 o2 h c ids = .ok h' ∧ WF h' ∧ Only ∅ {c} h h' ∧
      (∀ id, id ∈ h'.ct c ↔ id ∈ h.ct c ∨ ids.has id = true) ∧
      (∀ id p, (h.ct c).lookup id = some p → (h'.ct c).lookup id = some p ∧ h'.view C p = h.view C p) ∧
      (∀ id P, id ∉ h.ct c → (value C h' c).lookup id = some P → P.len = level + 1 ∧ P.isNTT = P0.isNTT ∧ ∀ i t, (P.rows i t).val = 0) ∧
      (∀ id p, id ∉ h.ct c → (h'.ct c).lookup id = some p → h.npoly ≤ p ∧ ∀ id', (h'.ct c).lookup id' = some p → id' = id) ∧
      ∀ s i, (value C h' c).phase s i = (value C h c).phase s i := by
  rw [value_lookup] at h0
  obtain ⟨p0, hp0, hv0⟩ := Option.map_eq_some_iff.mp h0
  obtain ⟨old, i1, i2⟩ := IDSet.ofCiphertext_spec o1 (h.ct c)
  have hlen : h.len p0 = level + 1 := by rw [← hl, ← hv0]; rfl
  have hlev : h.level c = .ok level := by
    unfold Heap.level Heap.get
    rw [GoMap.deref_ok hp0, bind_ok, hlen]; rfl
  have hfl : (h.poly p0).isNTT = P0.isNTT := by rw [← hv0]; rfl
  set h' := (GoMap.range o2 ids.value).foldl (padStep c level (h.poly p0).isNTT old) h with hh'
  have e : pad o1 o2 h c ids = .ok h' := by
    unfold pad Heap.idSet
    rw [show h.get c "0" = .ok p0 from GoMap.deref_ok hp0, bind_ok, i1, bind_ok, hlev, bind_ok]
  have hframe := pad_ok (Ok.start (Wp := {p | p < h.npoly}) (Wc := {c}) W) (c := c) ⟨hc, fun id p hp => Or.inl (W.ctB c hc id p hp)⟩ (Or.inl rfl) e
  have hinv : WF h' ∧ Only ∅ {c} h h' ∧ h'.nct = h.nct ∧
      (∀ id, id ∈ h'.ct c ↔ id ∈ h.ct c ∨ id ∈ GoMap.range o2 ids.value) ∧
      (∀ id p, (h.ct c).lookup id = some p → (h'.ct c).lookup id = some p) ∧
      ∀ id p, id ∉ h.ct c → (h'.ct c).lookup id = some p → h.npoly ≤ p ∧ p < h'.npoly ∧
        h'.view C p = ⟨level + 1, P0.isNTT, (Poly.new level : Poly C).rows⟩ ∧ ∀ id', (h'.ct c).lookup id' = some p → id' = id := by
    refine foldl_inv _ (fun pre s => WF s ∧ Only ∅ {c} h s ∧ s.nct = h.nct ∧ (∀ id, id ∈ s.ct c ↔ id ∈ h.ct c ∨ id ∈ pre) ∧
      (∀ id p, (h.ct c).lookup id = some p → (s.ct c).lookup id = some p) ∧
      ∀ id p, id ∉ h.ct c → (s.ct c).lookup id = some p → h.npoly ≤ p ∧ p < s.npoly ∧
        s.view C p = ⟨level + 1, P0.isNTT, (Poly.new level : Poly C).rows⟩ ∧ ∀ id', (s.ct c).lookup id' = some p → id' = id) _ _ ⟨W, Only.refl _ _ _, rfl, fun id => by simp, fun _ _ h => h, ?_⟩ ?_
    · intro id p hid hp
      exact absurd (GoMap.mem_iff_lookup.mpr (by rw [hp]; rfl)) hid
    · rintro pre id suf s hsplit ⟨w, on, n, hk, hold, hnew⟩
      have hidm : id ∈ ids.value := by rw [← GoMap.mem_range (o := o2), hsplit]; simp
      have hid0 : id ≠ "0" := by
        rintro rfl
        rw [(IDSet.mem_value_iff _ _)] at hidm
        rw [hz] at hidm; cases hidm
      unfold padStep
      split
      · rename_i hhas
        have hin : id ∈ h.ct c := ((i2 id).mp hhas).1
        refine ⟨w, on, n, fun x => ?_, hold, hnew⟩
        rw [hk]
        simp only [List.mem_append, List.mem_singleton]
        constructor
        · tauto
        · rintro (h | h | rfl) <;> tauto
      · rename_i hhas
        have hnin : id ∉ h.ct c := fun hin => hhas ((i2 id).mpr ⟨hin, hid0⟩)
        obtain ⟨a1, a2, a3, a4, a5, a6⟩ := allocPoly_inv (h := s) w false (List.replicate (level + 1) 0)
        change WF (s.newPoly level).2 at a1
        change Only ∅ ∅ s (s.newPoly level).2 at a2
        change (s.newPoly level).2.ct = s.ct at a3
        change (s.newPoly level).2.nct = s.nct at a4
        change (s.newPoly level).1 = s.npoly at a5
        change (s.newPoly level).2.npoly = s.npoly + 1 at a6
        set g := s.newPoly level with hg
        have hcs : c < s.nct := by rw [n]; exact hc
        have hm : ∀ x p, ((g.2.ct c).insert id g.1).lookup x = some p → p < g.2.npoly := by
          intro x p hp
          rw [GoMap.lookup_insert'] at hp
          split at hp
          · cases hp; omega
          · rw [a3] at hp
            have := w.ctB c hcs x p hp; omega
        obtain ⟨b1, b2⟩ := setCt_inv a1 c hm
        have hself : ((g.2.setCt c ((g.2.ct c).insert id g.1)).setNTT g.1 (h.poly p0).isNTT).ct c = (g.2.ct c).insert id g.1 :=
          Function.update_self _ _ _
        have vnew : ((g.2.setCt c ((g.2.ct c).insert id g.1)).setNTT g.1 (h.poly p0).isNTT).view C g.1 =
            ⟨level + 1, P0.isNTT, (Poly.new level : Poly C).rows⟩ := by
          rw [view_setNTT, hfl]
          have : (g.2.setCt c ((g.2.ct c).insert id g.1)).view C g.1 = Poly.new level := by
            rw [b2.view (by omega) (by simp), a5]
            exact view_newPoly s level
          refine congrArg₂ (Poly.mk (C := C) · P0.isNTT ·) ?_ ?_
          · exact (congrArg Poly.len this).trans rfl
          · rw [this]
        refine ⟨setNTT_wf b1 _ _, ?_, by show g.2.nct = _; rw [a4, n], ?_, ?_, ?_⟩
        · refine (on.trans' a2 (fun _ _ e => e) (fun _ _ e => e.elim)).trans' ?_ (fun p hp e => ?_) (fun d _ e => e) (Wp' := {g.1}) (Wc' := {c})
          · exact (Only.mono b2 (Set.empty_subset _) subset_rfl).trans' (setNTT_only g.1 (h.poly p0).isNTT) (fun p hp e => e) (fun _ _ e => e.elim)
          · rw [Set.mem_singleton_iff] at e
            have := on.npoly
            omega
        · intro x
          rw [hself, AList.mem_insert, a3, hk]
          simp only [List.mem_append, List.mem_singleton]
          tauto
        · intro x p hp
          rw [hself, GoMap.lookup_insert', if_neg, a3]
          · exact hold x p hp
          · rintro rfl
            exact hnin (GoMap.mem_iff_lookup.mpr (by rw [hp]; rfl))
        · intro x p hx hp
          rw [hself, GoMap.lookup_insert'] at hp
          split at hp
          · rename_i hxid
            cases hp
            have := on.npoly
            refine ⟨by omega, by show g.1 < g.2.npoly; omega, vnew, fun x' hx' => ?_⟩
            rw [hself, GoMap.lookup_insert'] at hx'
            split at hx'
            · rename_i hx''
              exact hx''.trans hxid.symm
            · rw [a3] at hx'
              have := w.ctB c hcs x' _ hx'
              omega
          · rename_i hne
            rw [a3] at hp
            obtain ⟨t1, t2, t3, t4⟩ := hnew x p hx hp
            refine ⟨t1, by show p < g.2.npoly; omega, ?_, fun x' hx' => ?_⟩
            swap
            · rw [hself, GoMap.lookup_insert'] at hx'
              split at hx'
              · cases hx'; omega
              · rw [a3] at hx'; exact t4 x' hx'
            rw [(setNTT_only g.1 (h.poly p0).isNTT).view (by show p < g.2.npoly; omega) (by rw [Set.mem_singleton_iff]; omega),
              b2.view (by omega) (by simp), a2.view t2 (by simp)]
            exact t3
  obtain ⟨r1, r2, r3, r4, r5, r6⟩ := hinv
  have hids : ∀ id, id ∈ h'.ct c ↔ id ∈ h.ct c ∨ ids.has id = true := fun id => by
    rw [r4, GoMap.mem_range, IDSet.mem_value_iff]
  have hnewv : ∀ id P, id ∉ h.ct c → (value C h' c).lookup id = some P → P.len = level + 1 ∧ P.isNTT = P0.isNTT ∧ ∀ i t, (P.rows i t).val = 0 := by
    intro id P hid hP
    rw [value_lookup] at hP
    obtain ⟨p, hp, rfl⟩ := Option.map_eq_some_iff.mp hP
    rw [(r6 id p hid hp).2.2.1]
    exact ⟨rfl, rfl, fun _ _ => rfl⟩
  have hview : ∀ id p, (h.ct c).lookup id = some p → h'.view C p = h.view C p := fun id p hp => r2.view (W.ctB c hc id p hp) (by simp)
  refine ⟨h', e, r1, r2, hids, fun id p hp => ⟨r5 id p hp, hview id p hp⟩, hnewv, fun id p h1 h2 => ⟨(r6 id p h1 h2).1, (r6 id p h1 h2).2.2.2⟩, fun s i => ?_⟩
  have hcomp : ∀ id, id ∈ h.ct c → (value C h' c).comp id = (value C h c).comp id := by
    intro id hid
    obtain ⟨p, hp⟩ := Option.isSome_iff_exists.mp (GoMap.mem_iff_lookup.mp hid)
    unfold Ct.comp
    rw [value_lookup, value_lookup, r5 id p hp, hp]
    show Poly.coeffs (view C h' p) = Poly.coeffs (view C h p)
    rw [hview id p hp]
  have h0m : "0" ∈ h.ct c := GoMap.mem_iff_lookup.mpr (by rw [hp0]; rfl)
  unfold Ct.phase
  rw [hcomp _ h0m]
  congr 1
  rw [← Finset.sum_subset (s₁ := (value C h c).ids) (s₂ := (value C h' c).ids)]
  · exact Finset.sum_congr rfl fun id hid => by rw [hcomp _ (value_ids.mp hid).1]
  · intro id hid
    rw [value_ids] at hid ⊢
    exact ⟨(hids id).mpr (Or.inl hid.1), hid.2⟩
  · intro id hid hnid
    rw [value_ids] at hid hnid
    have hn : id ∉ h.ct c := fun hm => hnid ⟨hm, hid.2⟩
    obtain ⟨P, hP⟩ := Ct.get (value_mem (C := C).mpr hid.1)
    obtain ⟨-, -, hzero⟩ := hnewv id P hn hP
    rw [Ct.comp_eq hP, Poly.cf_coeffs]
    have hz' : (P.rows i).res = 0 := by
      funext t
      show (((P.rows i t).val : ℕ) : ZMod (C.q i)) = 0
      rw [hzero]; simp
    have : domVal P.isNTT (P.rows i) = 0 := by
      unfold domVal
      split
      · show (C.RQ i).F.symm (P.rows i).res = 0
        rw [hz', map_zero]
      · exact hz'
    rw [this, zero_mul]

end MKHE.C09
