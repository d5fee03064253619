import Verif.Props.HeapSum
import Verif.Props.CkksOps

set_option autoImplicit false
set_option linter.unusedSectionVars false

/-!
# C26, C28, C52 on the heap: DropLevelNew and RescaleNew return
-/

namespace MKHE
open Finset Heap
variable {N : ℕ} [NeZero N] {C : Ctx N}

namespace Heap

/-- a polynomial cut to `n` rows -/
def cut (n : ℕ) (P : Poly C) : Poly C := ⟨n, P.isNTT, fun i => if i < n then P.rows i else Limb.zero⟩

theorem truncate_run {h : Heap N} (W : WF h) {p n : ℕ} (hn : n ≤ h.len p) : ∃ h', h.truncate p n = .ok h' ∧ Step C h p (cut n (h.view C p)) h' := by
  obtain ⟨h', e, hp, hr⟩ : ∃ h', h.truncate p n = .ok h' ∧ h'.poly p = ⟨(h.poly p).coeffs.take n, (h.poly p).isNTT⟩ ∧ h'.row = h.row := by
    unfold truncate
    rw [if_neg (by omega)]
    exact ⟨_, rfl, Function.update_self .., rfl⟩
  obtain ⟨a1, a2, a3, a4, a5⟩ := truncate_inv W e
  refine ⟨_, e, a1, a2, a3, a4, a5, ?_⟩
  have hl : h'.len p = n := by unfold len at hn ⊢; rw [hp]; simp only [List.length_take]; omega
  have ha : ∀ i < n, h'.addr p i = h.addr p i := by
    intro i hi
    unfold addr
    rw [hp]
    show List.getD _ _ _ = List.getD _ _ _
    rw [List.getD_eq_getElem?_getD, List.getD_eq_getElem?_getD, List.getElem?_take_of_lt hi]
  unfold cut view
  dsimp only
  rw [hl, hp]
  congr 1
  funext i
  split_ifs with h1 h2
  · rw [ha i h1, hr]
  · omega
  · rfl

theorem divRoundMany_congr (n : ℕ) : ∀ (L : ℕ) {x y : QRows C}, (∀ i ≤ L, x i = y i) → ∀ i ≤ L, divRoundMany L n x i = divRoundMany L n y i := by
  induction n with
  | zero => exact fun L x y h i hi => h i hi
  | succ n ih =>
    intro L x y h i hi
    unfold divRoundMany
    have hs : ∀ i ≤ L, divRoundStep L x i = divRoundStep L y i := by
      intro i hi
      unfold divRoundStep
      rw [h i hi, h L le_rfl]
    by_cases hL : i ≤ L - 1
    · exact ih (L - 1) (fun i hi => hs i (by omega)) i hL
    · have key : ∀ (m L' : ℕ) (z : QRows C), L' < i → divRoundMany L' m z i = z i := by
        intro m
        induction m with
        | zero => exact fun _ _ _ => rfl
        | succ m ih =>
          intro L' z hlt
          unfold divRoundMany
          rw [ih (L' - 1) _ (by omega)]
          unfold divRoundStep
          rw [if_neg (by omega)]
      rw [key _ _ _ (by omega), key _ _ _ (by omega)]
      exact hs i hi

theorem rescaleStep_run {h : Heap N} (W : WF h) {level nb cin out : ℕ} {id : String} {a b : ℕ} (ha : (h.ct cin).lookup id = some a)
    (hb : (h.ct out).lookup id = some b) (la : a < h.npoly) (lb : b < h.npoly) (na : level < h.len a) (nb' : level + 1 - nb ≤ h.len b) (hnb : 0 < nb) :
    ∃ h', rescaleStep C level nb cin out h id = .ok h' ∧
      Step C h b ⟨level + 1 - nb, (h.view C b).isNTT, fun i => if i < level + 1 - nb then divRoundMany level nb (h.view C a).rows i else Limb.zero⟩ h' := by
  have hm : level + 1 - nb ≤ h.len a := by omega
  obtain ⟨a1, a2, a3, a4, a5, a6⟩ := rowsOp_inv (h := h) (level + 1 - nb) (fun i _ _ => divRows C level nb h a i) a a b W lb nb'
  have hv := view_rowsOp (C := C) W (n := level + 1 - nb) (fun i _ _ => divRows C level nb h a i) la la lb hm hm nb'
  set g := h.rowsOp (level + 1 - nb) (fun i _ _ => divRows C level nb h a i) a a b with hg
  have hl : g.len b = h.len b := by unfold len; rw [a3]
  obtain ⟨h', e1, S⟩ := truncate_run (C := C) a1 (p := b) (n := level + 1 - nb) (by omega)
  refine ⟨h', ?_, S.wf, a2.trans S.only, S.ct.trans a4, S.nct.trans a5, S.npoly.trans a6, ?_⟩
  · unfold rescaleStep
    rw [get_of ha, bind_ok, get_of hb, bind_ok]
    unfold need
    rw [if_pos na, bind_ok, if_neg (by omega)]
    exact e1
  · rw [S.view, hv]
    unfold cut
    dsimp only
    congr 1
    funext i
    split_ifs with hi
    · unfold divRows
      rw [rd_wr]
      exact divRoundMany_congr nb level (fun j hj => view_row (by omega)) i (by omega)
    · rfl

end Heap

namespace C26

/-- **C26 with sharing, DropLevelNew**: in every well-formed heap the call returns a ciphertext with `k` levels less and the same phase modulo the
remaining primes; the argument is untouched (`C52.dropLevelNew_fresh`). -/
theorem heap_dropLevelNew_phase (o o' : Order String) {h : Heap N} (W : WF h) {c : HCt} (hc : c.ct < h.nct) {level : ℕ}
    (h0 : (value C h c.ct).AtLevel level) {k : ℕ} (hk : k ≤ level) :
    ∃ r h', Heap.dropLevelNew o o' h c k = .ok (r, h') ∧ r.scale = c.scale ∧ (value C h' r.ct).AtLevel (level - k) ∧
      (value C h' r.ct).ids = (value C h c.ct).ids ∧
      ∀ (s : String → Nega N ℤ) (i : ℕ), i ≤ level - k → (value C h' r.ct).phase s i = (value C h c.ct).phase s i := by
  obtain ⟨c', h1, e1⟩ := copyNew_returns o (value_mem.mp h0.has0)
  obtain ⟨M, R⟩ := copyNew_rep (C := C) W hc e1
  have hs : (value C h1 c').Same (value C h c.ct) := R.value
  have h0' := hs.symm.atLevel h0
  obtain ⟨p0, q1, q2, q3, q4, q5⟩ := Coeff_entry M.wf R.lt h0'.toCoeff (value_mem.mp h0'.has0)
  have l0 : h1.len p0 = level + 1 := h0'.len "0" (h1.view C p0) (by rw [value_lookup, q1]; rfl)
  obtain ⟨h', e2, R2⟩ := loop_run (C := C) M.wf R.lt M.inj (f := fun (h : Heap N) id => do
      let p ← h.get c' id
      h.truncate p (level + 1 - k)) (fun _ P => cut (level + 1 - k) P) (GoMap.nodup_range o' (h1.ct c')) (fun id hid => GoMap.mem_range.mp hid) (by
      intro s V' R' id hid q hq hv
      have : s.len q = level + 1 := by
        have : (s.view C q).len = level + 1 := by rw [hv]; exact h0'.len id _ (by rw [value_lookup, hq]; rfl)
        exact this
      obtain ⟨s', f1, f2⟩ := truncate_run (C := C) R'.wf (p := q) (n := level + 1 - k) (by omega)
      rw [hv] at f2
      exact ⟨s', by rw [get_of (by rw [R'.ct]; exact hq), bind_ok]; exact f1, f2⟩)
  have hlk : ∀ id Q, (value C h' c').lookup id = some Q → ∃ P, (value C h1 c').lookup id = some P ∧ Q = cut (level + 1 - k) P := by
    intro id Q hQ
    rw [value_lookup, R2.ct] at hQ
    obtain ⟨p, hp, rfl⟩ := Option.map_eq_some_iff.mp hQ
    have := R2.view id p hp
    rw [if_pos (GoMap.mem_range.mpr (GoMap.mem_iff_lookup.mpr (by rw [hp]; rfl)))] at this
    exact ⟨h1.view C p, by rw [value_lookup, hp]; rfl, this⟩
  have hmem : ∀ id, id ∈ value C h' c' ↔ id ∈ value C h1 c' := fun id => by rw [value_mem, value_mem, R2.ct]
  have hids : (value C h' c').ids = (value C h c.ct).ids := by
    rw [← hs.ids]; ext id; rw [Ct.mem_ids, Ct.mem_ids, hmem]
  refine ⟨⟨c', c.scale⟩, h', ?_, rfl, ⟨(hmem _).mpr h0'.has0, fun id Q hQ => ?_, fun id Q hQ => ?_⟩, hids, fun s i hi => ?_⟩
  · unfold Heap.dropLevelNew
    rw [e1, bind_ok]
    unfold Heap.dropLevel
    rw [get_of q1, bind_ok, l0, if_neg (by omega)]
    dsimp only
    rw [e2, bind_ok]
  · obtain ⟨P, -, rfl⟩ := hlk id Q hQ
    show level + 1 - k = _; omega
  · obtain ⟨P, hP, rfl⟩ := hlk id Q hQ
    exact h0'.coeff id P hP
  · rw [← hs.phase]
    refine Ct.phase_congr (by rw [hids, hs.ids]) fun id hid => ?_
    have hm : id ∈ value C h' c' := by
      rcases hid with h | h
      · exact (hmem _).mpr (Ct.mem_ids.mp h).1
      · rw [h]; exact (hmem _).mpr h0'.has0
    obtain ⟨Q, hQ⟩ := Ct.get hm
    obtain ⟨P, hP, e⟩ := hlk id Q hQ
    rw [Ct.comp_eq hQ, Ct.comp_eq hP, Poly.coeffs_eq (h0'.coeff id P hP), Poly.coeffs_eq (by rw [e]; exact h0'.coeff id P hP), e]
    show (if i < level + 1 - k then P.rows i else Limb.zero) = _
    rw [if_pos (by omega)]

end C26

namespace C28

/-- **C28 with sharing, RescaleNew**: when the documentation's count is at least one, the call on the heap returns a ciphertext with the level, ids,
scale, and components that the function on values computes; the argument is untouched (`C52.rescaleNew_fresh`). -/
theorem heap_rescaleNew (o : Sched String) {h : Heap N} (W : WF h) {c : HCt} (hc : c.ct < h.nct) {level n : ℕ} (h0 : (value C h c.ct).AtLevel level)
    {thr : ℚ} (hmin : 0 < thr) (hs : c.scale ≠ 0) (hl : 0 < level) (hn : 0 < n) (hcount : C27.Count C.fm C.q level c.scale thr n) :
    ∃ r h' rv, Heap.rescaleNew C o h c thr = .ok ((none, r), h') ∧ MKHE.rescaleNew o ⟨value C h c.ct, c.scale⟩ thr = .ok (none, rv) ∧
      r.scale = rv.scale ∧ (value C h' r.ct).AtLevel (level - n) ∧ (value C h' r.ct).ids = (value C h c.ct).ids ∧
      ∀ (s : String → Nega N ℤ) (i : ℕ), i ≤ level - n → (value C h' r.ct).phase s i = rv.ct.phase s i := by
  obtain ⟨ids, a1, a2⟩ := Ct.idset (o 85) (value C h c.ct)
  have hz := (value C h c.ct).zero_notMem_ids
  obtain ⟨M, -, -⟩ := newCt_spec (C := C) (o 87) ids level W
  have hnew := newCt_is (C := C) (o 87) a2 level W
  have hle := hcount.le
  obtain ⟨ct, v1, v2⟩ := C27.rescale_run (o 86) (ctIn := ⟨value C h c.ct, c.scale⟩) (out := ⟨Ct.new (o 87) ids level, c.scale⟩) (same := false) (by simp)
    h0 (Ct.new_atLevel (o 87) ids level) (Ct.new_ids (o 87) a2 hz level) hmin hs hl hn (by omega) hcount
  set w := newCt (o 87) ids level h with hw
  have ln := M.nct
  have lw : w.1 < w.2.nct := (M.into ∅).1
  have vc : value C w.2 c.ct = value C h c.ct := M.value_old W hc
  have hc' : c.ct < w.2.nct := by omega
  obtain ⟨at1, at2⟩ := new_ids_at hz hnew
  have hin : ∀ id, id ∈ w.2.ct w.1 → id ∈ w.2.ct c.ct := by
    intro id hid
    by_cases e : id = "0"
    · subst e; exact value_mem.mp (by rw [vc]; exact h0.has0)
    · have : id ∈ (value C h c.ct).ids := by rw [← at2]; exact value_ids.mpr ⟨hid, e⟩
      rw [← vc] at this
      exact (value_ids.mp this).1
  obtain ⟨h', e2, R⟩ := loop_run (C := C) M.wf lw M.inj (f := rescaleStep C level n c.ct w.1)
    (fun id P => ⟨level + 1 - n, P.isNTT, fun i => if i < level + 1 - n then divRoundMany level n ((value C h c.ct).comp id) i else Limb.zero⟩)
    (GoMap.nodup_range (o 86) (w.2.ct w.1)) (fun id hid => GoMap.mem_range.mp hid) (by
      intro s V' R' id hid q hq hv
      obtain ⟨a, b1, b2, b3, b4, b5⟩ := Coeff_entry M.wf hc' (by rw [vc]; exact h0.toCoeff) (hin id (GoMap.mem_range.mp hid))
      have va : s.view C a = w.2.view C a := R'.other b2 (fun ⟨x, hx⟩ => (M.apart W hc).1 x id a hx b1)
      have lena : s.len a = w.2.len a := congrArg Poly.len va
      have lenq : s.len q = level + 1 := by
        have : (s.view C q).len = level + 1 := by rw [hv]; exact at1.len id _ (by rw [value_lookup, hq]; rfl)
        exact this
      obtain ⟨s', f1, f2⟩ := rescaleStep_run (C := C) R'.wf (level := level) (nb := n) (cin := c.ct) (out := w.1) (id := id) (a := a) (b := q)
        (by rw [R'.ct]; exact b1) (by rw [R'.ct]; exact hq) (by rw [R'.npoly]; exact b2) (by rw [R'.npoly]; exact M.wf.ctB _ lw id q hq) (by omega) (by omega) hn
      refine ⟨s', f1, ?_⟩
      rw [va, hv, ← b5, vc] at f2
      exact f2)
  have hlk : ∀ id Q, (value C h' w.1).lookup id = some Q → id ∈ value C w.2 w.1 ∧ Q = ⟨level + 1 - n, false, fun i => if i < level + 1 - n then
      divRoundMany level n ((value C h c.ct).comp id) i else Limb.zero⟩ := by
    intro id Q hQ
    rw [value_lookup, R.ct] at hQ
    obtain ⟨p, hp, rfl⟩ := Option.map_eq_some_iff.mp hQ
    have := R.view id p hp
    have hm : id ∈ w.2.ct w.1 := GoMap.mem_iff_lookup.mpr (by rw [hp]; rfl)
    rw [if_pos (GoMap.mem_range.mpr hm)] at this
    refine ⟨value_mem.mpr hm, ?_⟩
    rw [this, at1.coeff id (w.2.view C p) (by rw [value_lookup, hp]; rfl)]
  have hmem : ∀ id, id ∈ value C h' w.1 ↔ id ∈ value C w.2 w.1 := fun id => by rw [value_mem, value_mem, R.ct]
  have hids : (value C h' w.1).ids = (value C h c.ct).ids := by rw [← at2]; ext id; rw [Ct.mem_ids, Ct.mem_ids, hmem]
  have hmemv : ∀ id, id ∈ ct ↔ id ∈ (Ct.new (o 87) ids level : Ct C) := fun id => by
    rw [← AList.lookup_isSome, ← AList.lookup_isSome, v2 id]; simp
  have hidsv : ct.ids = (value C h c.ct).ids := by
    rw [← Ct.new_ids (C := C) (o 87) a2 hz level]; ext id; rw [Ct.mem_ids, Ct.mem_ids, hmemv]
  refine ⟨⟨w.1, C27.scaleAfter C.fm C.q level c.scale n⟩, h', ⟨ct, C27.scaleAfter C.fm C.q level c.scale n⟩, ?_, ?_, rfl, ⟨(hmem _).mpr at1.has0, fun id Q hQ => ?_, fun id Q hQ => ?_⟩, hids,
    fun s i hi => ?_⟩
  · unfold Heap.rescaleNew
    rw [idSet_value (C := C), a1, bind_ok, level_value (C := C), h0.level, bind_ok]
    dsimp only
    rw [← hw]
    unfold Heap.rescale
    rw [if_neg (not_le.mpr hmin), if_neg hs, level_value (C := C), vc, h0.level, bind_ok, if_neg (by omega)]
    rw [C27.loop_ok C.fm C.q _ n level c.scale 0 hcount.le hcount.above hcount.below, bind_ok, if_pos (by show 0 < 0 + n; omega)]
    simp only [Nat.zero_add]
    rw [e2, bind_ok]
  · unfold MKHE.rescaleNew
    rw [a1, bind_ok, h0.level, bind_ok]
    exact v1
  · rw [(hlk id Q hQ).2]
    show level + 1 - n = _; omega
  · rw [(hlk id Q hQ).2]
  · refine Ct.phase_congr (by rw [hids]; exact hidsv.symm) fun id hid => ?_
    have hid' : id ∈ ct.ids ∨ id = "0" := hid
    have hm : id ∈ value C h' w.1 := by
      rcases hid' with h | h
      · rw [hidsv, ← hids] at h; exact (Ct.mem_ids.mp h).1
      · rw [h]; exact (hmem _).mpr at1.has0
    obtain ⟨Q, hQ⟩ := Ct.get hm
    obtain ⟨-, e⟩ := hlk id Q hQ
    have hmv : id ∈ (Ct.new (o 87) ids level : Ct C) := by
      rcases hid' with h | h
      · exact (hmemv id).mp (Ct.mem_ids.mp h).1
      · rw [h]; exact (Ct.new_atLevel (C := C) (o 87) ids level).has0
    obtain ⟨P, hP⟩ := Ct.get hmv
    have hv := v2 id
    rw [hP, Option.map_some] at hv
    rw [Ct.comp_eq hQ, Ct.comp_eq hv, Poly.coeffs_eq (by rw [e]), Poly.coeffs_eq (by exact (Ct.new_atLevel (C := C) (o 87) ids level).coeff id P hP), e]
    show (if i < level + 1 - n then _ else _) = setQ (level - n) _ _ i
    rw [if_pos (by omega), setQ_le _ _ hi]

end C28
end MKHE
