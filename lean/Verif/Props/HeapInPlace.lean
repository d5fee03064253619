import Verif.Props.HeapRefine
import Verif.Props.Rotate
import Verif.Props.HeapExample
import Verif.Props.HeapProg

set_option autoImplicit false
set_option linter.unusedSectionVars false

/-!
# C66: operations in place

`Rotate(ct, r, rks, ct)` and `RotateHoisted(ct, r, hoisted, rks, ct)` with the operand as receiver: every component is read for the last time by the call
that overwrites it, so the ciphertext ends up holding what a rotation into a separate receiver would have returned. Other ciphertexts that share no
polynomial with it keep their contents. The same for `MultByConst(ct, k, ct)`, `Rescale(ct, minScale, ct)` and `DropLevel(ct, k)`.
-/

namespace MKHE
namespace Heap
variable {N : ℕ} [NeZero N] {C : Ctx N} {h0 h h' : Heap N} {c : ℕ} {ct : Ct C}

theorem extProd_at {ct ct' : Ct C} {id : String} (hs : ct'.lookup id = ct.lookup id) (S : Scratch C) (level : ℕ) (hoisted : Option (HoistedCt C))
    (bg : Swk C) (r : QRows C) : extProd S level ct' hoisted id bg r = extProd S level ct hoisted id bg r := by
  unfold extProd
  cases hoisted with
  | none => dsimp only; rw [show ct'.deref id = ct.deref id by unfold GoMap.deref; rw [hs]]
  | some hh => rfl

/-- one party, in place: as long as the component of the party is untouched -/
theorem rotateStep_inPlace {ctIn : Ct C} {level r : ℕ} {hoisted : Option (HoistedCt C)} {rks : RotKeySet (GalKey C)} {a : Option (Swk C)}
    {s : Scratch C} {id : String} {w : Ct C × Scratch C} (hz : id ≠ "0") (S : Sim h0 c h ct) (hin : ct.lookup id = ctIn.lookup id)
    (e : MKHE.rotateStep level ctIn r hoisted rks a (ct, s) id = .ok w) :
    ∃ h', Heap.rotateStep level c r hoisted rks a c (h, s) id = .ok (h', w.2) ∧ Sim h0 c h' w.1 ∧
      ∀ id', id' ≠ "0" → id' ≠ id → w.1.lookup id' = ct.lookup id' := by
  obtain ⟨rk, e1, e⟩ := Go.bind_ok e
  obtain ⟨v, e2, e⟩ := Go.bind_ok e
  obtain ⟨ct1, e3, e⟩ := Go.bind_ok e
  obtain ⟨a', e4, e⟩ := Go.bind_ok e
  obtain ⟨P, e5, e⟩ := Go.bind_ok e
  obtain ⟨_, e6, e⟩ := Go.bind_ok e
  obtain ⟨v2, e7, e⟩ := Go.bind_ok e
  cases e
  have hupd : ∀ id', id' ≠ "0" → ct1.lookup id' = ct.lookup id' := by
    intro id' hid
    obtain ⟨Q, -, e3⟩ := Go.bind_ok e3
    obtain ⟨_, -, e3⟩ := Go.bind_ok e3
    cases e3
    rw [GoMap.lookup_insert', if_neg hid]
  obtain ⟨h1, b1, S1⟩ := S.upd e3
  obtain ⟨p, g, -, -, vp⟩ := S1.entry e5
  obtain ⟨F, hF⟩ := extProd_set e7
  obtain ⟨h2, b2, S2⟩ := S1.put e5 e6 hF
  have r1 : (value C h c).lookup id = ctIn.lookup id := by rw [S.rep.value id, hin]
  have r2 : (value C h1 c).lookup id = ctIn.lookup id := by rw [S1.rep.value id, hupd id hz, hin]
  refine ⟨h2, ?_, S2, fun id' h1 h2 => ?_⟩
  · show (rks.get id r >>= _) = _
    rw [e1, bind_ok]
    dsimp only
    rw [extProd_at r1, e2, bind_ok]
    show (Heap.upd (C := C) level c "0" _ h >>= _) = _
    rw [b1, bind_ok, e4, bind_ok, g, bind_ok, need_view vp e6, bind_ok, extProd_at r2, vp, e7, bind_ok, b2, bind_ok]
  · show (ct1.insert id _).lookup id' = _
    rw [GoMap.lookup_insert', if_neg h2, hupd id' h1]

/-- all parties, in place: a party is visited once -/
theorem rotateLoop_inPlace {ctIn : Ct C} {level r : ℕ} {hoisted : Option (HoistedCt C)} {rks : RotKeySet (GalKey C)} {a : Option (Swk C)}
    (l : List String) : ∀ {h : Heap N} {ct : Ct C} {s : Scratch C} {w : Ct C × Scratch C}, l.Nodup → "0" ∉ l → Sim h0 c h ct →
    (∀ id ∈ l, ct.lookup id = ctIn.lookup id) → Go.loop (MKHE.rotateStep level ctIn r hoisted rks a) (ct, s) l = .ok w →
    ∃ h', Go.loop (Heap.rotateStep level c r hoisted rks a c) (h, s) l = .ok (h', w.2) ∧ Sim h0 c h' w.1 := by
  induction l with
  | nil => intro h ct s w _ _ S _ e; cases e; exact ⟨h, rfl, S⟩
  | cons id l ih =>
    intro h ct s w hd hz S hin e
    rw [Go.loop_cons] at e
    split at e
    · rename_i r1 e1
      have hne : id ≠ "0" := fun e => hz (by rw [e]; exact List.mem_cons_self)
      obtain ⟨h1, b1, S1, k1⟩ := rotateStep_inPlace hne S (hin id List.mem_cons_self) e1
      rw [Go.loop_cons, b1]
      refine ih (List.nodup_cons.mp hd).2 (fun hm => hz (List.mem_cons_of_mem _ hm)) S1 (fun id' hm => ?_) e
      rw [k1 id' (fun e => hz (by rw [← e]; exact List.mem_cons_of_mem _ hm)) (fun e => (List.nodup_cons.mp hd).1 (e ▸ hm)),
        hin id' (List.mem_cons_of_mem _ hm)]
    · cases e

end Heap

namespace C66
open Heap
variable {N : ℕ} [NeZero N] {C : Ctx N} {h : Heap N} {c : ℕ}

/-- **C66.** If the rotation of the contents of `ct` into a separate receiver holding the same value returns `r`, the rotation of `ct` in place returns and
leaves `r` in `ct`; only polynomials of `ct` are written. The components of `ct` must be different polynomials. -/
theorem rotate_inPlace (crs : GoMap ℤ (Swk C)) (o : Sched String) (S : Scratch C) (rotidx : ℤ) (hoisted : Option (HoistedCt C))
    (rks : RotKeySet (GalKey C)) (W : WF h) (hc : c < h.nct) (hd : Distinct h c) {w : Ct C × Scratch C}
    (e : MKHE.rotateWith crs o S (value C h c) rotidx hoisted rks (value C h c) = .ok w) :
    ∃ h', Heap.rotateWith crs o S c rotidx hoisted rks c h = .ok (h', w.2) ∧ Rep h' c w.1 ∧ Only (polysOf h c) ∅ h h' := by
  have R : Rep h c (value C h c) := ⟨W, hc, hd, fun id => value_lookup h c id⟩
  obtain ⟨level, e1, e⟩ := Go.bind_ok e
  obtain ⟨ids, e2, e⟩ := Go.bind_ok e
  obtain ⟨lin, e3, e⟩ := Go.bind_ok e
  split at e
  · cases e
  · rename_i hlt
    obtain ⟨c0, e4, e⟩ := Go.bind_ok e
    obtain ⟨p0, e5, e⟩ := Go.bind_ok e
    obtain ⟨st, e6, e⟩ := Go.bind_ok e
    obtain ⟨q, hq, lq, vq⟩ := R.get (GoMap.deref_some e4)
    obtain ⟨p, g, S1⟩ := (Sim.start R).polyCopy e5 lq
    rw [vq] at S1
    have hmem : ∀ id ∈ GoMap.range (o 21) ids.value, id ≠ "0" := by
      obtain ⟨ids', a1, a2⟩ := IDSet.ofCiphertext_spec (o 20) (value C h c)
      rw [a1] at e2
      injection e2 with e2
      subst e2
      exact fun id hid => ((a2 id).mp ((IDSet.mem_value_iff _ _).mp (GoMap.mem_range.mp hid))).2
    obtain ⟨h2, b2, S2⟩ := rotateLoop_inPlace (GoMap.range (o 21) ids.value) (GoMap.nodup_range _ _) (fun hm => hmem _ hm rfl) S1
      (fun id hid => by rw [GoMap.lookup_insert', if_neg (hmem id hid)]) e6
    obtain ⟨h3, b3, S3⟩ := permuteAll_sim S2 e
    refine ⟨h3, ?_, S3.rep, S3.only⟩
    unfold Heap.rotateWith
    have hll : lin = level := by rw [e1] at e3; injection e3 with e3; exact e3.symm
    subst hll
    rw [level_of R e1, bind_ok, idSet_value (C := C), e2, bind_ok, bind_ok]
    dsimp only
    have hpq : p = q := by rw [get_of hq] at g; injection g with g; exact g.symm
    subst hpq
    rw [if_neg hlt, g, bind_ok, bind_ok, b2, bind_ok]
    dsimp only
    rw [S2.ct, ← C63.range_value (C := C)]
    exact b3

/-- **C66, meaning.** Under the hypotheses of C33, rotating in place makes `ct` an encryption of the rotated message with the noise of C33, and every
ciphertext that shares no polynomial with `ct` keeps its value. -/
theorem rotate_inPlace_phase (V : C.Valid) (o : Sched String) (S : Scratch C) {level r : ℕ} {crs : GoMap ℤ (Swk C)} {rks : RotKeySet (GalKey C)}
    {s : String → Nega N ℤ} {Sb Be : ℤ} (W : WF h) (hc : c < h.nct) (hd : Distinct h c) (hl : level < C.nQ) (lvl : (value C h c).AtLevel level)
    (rot : ℤ) (hr : (r : ℤ) = if 0 ≤ rot then rot else rot % (N / 2 : ℕ)) (K : C33.Keys crs level (value C h c).ids r rks s Sb Be)
    (D : ℤ) (hD : ∀ k < C.beta level, 2 * (C.blockProd level k : ℤ) ≤ D) :
    ∃ h' S', Heap.rotateWith crs o S c rot none rks c h = .ok (h', S') ∧ (value C h' c).AtLevel level ∧ (value C h' c).ids = (value C h c).ids ∧
      (∃ E : Nega N ℤ, (∀ x, C.P * |E x| ≤ C33.rotNoise N C.P (value C h c).ids.card (C.beta level) D Sb Be) ∧
        ∀ i ≤ level, (value C h' c).phase s i = Nega.galois (5 ^ r) ((value C h c).phase s i) + Nega.red (C.q i) E) ∧
      ∀ d < h.nct, Apart h c d → value C h' d = value C h d := by
  obtain ⟨out, S', e1, e2, e3, e4⟩ := C33.rotate_phase V o S (ctIn := value C h c) (out := value C h c) (level := level) ⟨hl, lvl.toCoeff, lvl, rfl⟩ rot hr K D hD
  obtain ⟨h', b1, b2, b3⟩ := rotate_inPlace crs o S rot none rks W hc hd e1
  have sm := b2.value
  refine ⟨h', S', b1, ?_, ?_, ?_, fun d hd ha => ?_⟩
  · exact sm.symm.atLevel e2
  · rw [sm.ids, e3]
  · obtain ⟨E, x1, x2⟩ := e4
    exact ⟨E, x1, fun i hi => by rw [sm.phase]; exact x2 i hi⟩
  · exact b3.value W hd (by simp) (fun id p hp ⟨x, hx⟩ => ha x id p hx hp)

variable {S : C59.Sys C}
open C59 C23

/-- the ciphertexts that share no polynomial with `c` keep their value -/
def Spares (C : Ctx N) (h : Heap N) (c : ℕ) (h' : Heap N) : Prop := ∀ d < h.nct, Apart h c d → value C h' d = value C h d

theorem spares_of_only (W : WF h) {h' : Heap N} (b : Only (polysOf h c) ∅ h h') : Spares C h c h' := fun _ hd ha =>
  b.value W hd (by simp) (fun id p hp ⟨x, hx⟩ => ha x id p hx hp)

/-- **C66, MultByConst.** `MultByConst(ct, k, ct)` for a real constant: afterwards `ct` encrypts the product, with the scale, level and error of C59. -/
theorem const_inPlace (V : C.Valid) (hS : S.Ok) (mredPsi : ℕ → ℕ → ℕ) (o : Order String) (W : WF h) {c : HCt} (hc : c.ct < h.nct)
    (hd : Distinct h c.ct) {v : Nega N ℝ} {a : Info} (ha : Approx S (hval C h c) v a) {k : Const} (hk : C25.Real k (constVal k)) :
    ∃ w, Heap.multByConst C mredPsi o h c k c.ct = .ok w ∧ Approx S (hval C w.2 ⟨c.ct, w.1⟩) (Nega.C (constVal k : ℝ) * v) (a.const C k) ∧
      Spares C h c.ct w.2 := by
  obtain ⟨h2, e2, Rn⟩ := Heap.multByConst_matched (C := C) hS.n16 mredPsi o W (c := c) (out := c.ct) k hc hc ha.lvl ha.lvl (fun id hid => hid) hd
    (fun id id' p g1 g2 => hd id id' p g1 g2)
  rw [min_self] at e2 Rn
  obtain ⟨v', m, m1, m2, m3, m4⟩ := C25.multiplier C.fm (C.q a.level) hk
  rw [m1] at e2 Rn
  dsimp only at e2
  have hat1 : (value C h c.ct).AtLevel a.level := ha.lvl
  have hlk : ∀ id Q, (value C h2 c.ct).lookup id = some Q → ∃ P, (value C h c.ct).lookup id = some P ∧
      Q = P.set a.level (constOut mredPsi (v', 0, C25.scaleOf C.fm (C.q a.level) k) (value C h c.ct).comp id) := by
    intro id Q hQ
    rw [value_lookup, Rn.ct] at hQ
    obtain ⟨p, hp, rfl⟩ := Option.map_eq_some_iff.mp hQ
    refine ⟨h.view C p, by rw [value_lookup, hp]; rfl, ?_⟩
    rw [Rn.view id p hp, if_pos (GoMap.mem_iff_lookup.mpr (by rw [hp]; rfl))]
  have hat : (value C h2 c.ct).AtLevel a.level := by
    refine ⟨?_, fun id Q hQ => ?_, fun id Q hQ => ?_⟩
    · rw [value_mem, Rn.ct]; exact value_mem.mp hat1.has0
    · obtain ⟨P, p1, rfl⟩ := hlk id Q hQ; exact hat1.len id P p1
    · obtain ⟨P, p1, rfl⟩ := hlk id Q hQ; exact hat1.coeff id P p1
  have hids : (value C h2 c.ct).ids = (value C h c.ct).ids := by
    ext id
    rw [value_ids, value_ids, Rn.ct]
  refine ⟨_, e2, ?_, spares_of_only W Rn.only⟩
  refine const_result V ha (out := hval C h2 ⟨c.ct, _⟩) hat hids rfl (fun i hi => ?_) m3 m4
  show (value C h2 c.ct).phase S.s i = _ * (value C h c.ct).phase S.s i
  rw [phase_eq_rows, hids]
  refine phaseRows_mul _ S.s _ fun id hid' => ?_
  have hin : id ∈ h.ct c.ct := hid'.elim (fun g => (value_ids.mp g).1) fun e => e ▸ value_mem.mp hat1.has0
  obtain ⟨Q, hQ⟩ := Ct.get (value_mem (C := C) (h := h2) (c := c.ct) (id := id) |>.mpr (by rw [Rn.ct]; exact hin))
  obtain ⟨P, p1, e⟩ := hlk id Q hQ
  rw [Ct.comp_eq hQ, Poly.coeffs_eq (by rw [e]; exact hat1.coeff id P p1), e]
  show cf (setQ a.level _ P.rows i) = _
  rw [setQ_le _ _ hi, constOut_real, m2]

/-- **C66, Rescale.** `Rescale(ct, minScale, ct)`: afterwards `ct` encrypts the same message at the scale, level and error of C59. -/
theorem rescale_inPlace (V : C.Valid) (hS : S.Ok) (o : Order String) (W : WF h) {c : HCt} (hc : c.ct < h.nct) (hd : Distinct h c.ct)
    {v : Nega N ℝ} {a : Info} (ha : Approx S (hval C h c) v a) {ms : ℚ} (hm : RescaleOk C a.level a.scale ms) :
    ∃ w, Heap.rescale C o h c ms c true = .ok w ∧ w.1.2.ct = c.ct ∧ Approx S (hval C w.2 w.1.2) v (a.rescale S ms) ∧ Spares C h c.ct w.2 := by
  have R : Rep h c.ct (value C h c.ct) := ⟨W, hc, hd, fun id => value_lookup h c.ct id⟩
  obtain ⟨e, out, e2, e3⟩ := C59.rescale_inplace V hS (o.via (h.ct c.ct).keys) ha hm
  obtain ⟨h', f1, T⟩ := Heap.rescale_sim R (s := c.scale) (ms := ms) (o := o) rfl e2
  obtain ⟨u, Su, _⟩ := id T
  exact ⟨_, f1, rfl, C63.approx_shows e3 rfl T.shows, spares_of_only W Su.only⟩

/-- **C66, DropLevel.** `DropLevel(ct, k)`: afterwards `ct` has `k` levels less and the same phase modulo the remaining primes. -/
theorem dropLevel_inPlace (o : Order String) (W : WF h) (hc : c < h.nct) (hd : Distinct h c) {level : ℕ} (h0 : (value C h c).AtLevel level) {k : ℕ}
    (hk : k ≤ level) :
    ∃ h', Heap.dropLevel o h c k = .ok h' ∧ (value C h' c).AtLevel (level - k) ∧ (value C h' c).ids = (value C h c).ids ∧
      (∀ (s : String → Nega N ℤ) (i : ℕ), i ≤ level - k → (value C h' c).phase s i = (value C h c).phase s i) ∧ Spares C h c h' := by
  obtain ⟨p0, q1, q2, q3, q4, q5⟩ := Coeff_entry W hc h0.toCoeff (value_mem.mp h0.has0)
  have l0 : h.len p0 = level + 1 := h0.len "0" (h.view C p0) (by rw [value_lookup, q1]; rfl)
  obtain ⟨h', e2, R2⟩ := loop_run (C := C) W hc hd (f := fun (h : Heap N) id => do
      let p ← h.get c id
      h.truncate p (level + 1 - k)) (fun _ P => cut (level + 1 - k) P) (GoMap.nodup_range o (h.ct c)) (fun id hid => GoMap.mem_range.mp hid) (by
      intro s V' R' id hid q hq hv
      have : s.len q = level + 1 := by
        have : (s.view C q).len = level + 1 := by rw [hv]; exact h0.len id _ (by rw [value_lookup, hq]; rfl)
        exact this
      obtain ⟨s', f1, f2⟩ := truncate_run (C := C) R'.wf (p := q) (n := level + 1 - k) (by omega)
      rw [hv] at f2
      exact ⟨s', by rw [get_of (by rw [R'.ct]; exact hq), bind_ok]; exact f1, f2⟩)
  have hlk : ∀ id Q, (value C h' c).lookup id = some Q → ∃ P, (value C h c).lookup id = some P ∧ Q = cut (level + 1 - k) P := by
    intro id Q hQ
    rw [value_lookup, R2.ct] at hQ
    obtain ⟨p, hp, rfl⟩ := Option.map_eq_some_iff.mp hQ
    have := R2.view id p hp
    rw [if_pos (GoMap.mem_range.mpr (GoMap.mem_iff_lookup.mpr (by rw [hp]; rfl)))] at this
    exact ⟨h.view C p, by rw [value_lookup, hp]; rfl, this⟩
  have hmem : ∀ id, id ∈ value C h' c ↔ id ∈ value C h c := fun id => by rw [value_mem, value_mem, R2.ct]
  have hids : (value C h' c).ids = (value C h c).ids := by ext id; rw [Ct.mem_ids, Ct.mem_ids, hmem]
  refine ⟨h', ?_, ⟨(hmem _).mpr h0.has0, fun id Q hQ => ?_, fun id Q hQ => ?_⟩, hids, fun s i hi => ?_, spares_of_only W R2.only⟩
  · unfold Heap.dropLevel
    rw [get_of q1, bind_ok, l0, if_neg (by omega)]
    dsimp only
    exact e2
  · obtain ⟨P, -, rfl⟩ := hlk id Q hQ
    show level + 1 - k = _; omega
  · obtain ⟨P, hP, rfl⟩ := hlk id Q hQ
    exact h0.coeff id P hP
  · refine Ct.phase_congr hids fun id hid => ?_
    have hm : id ∈ value C h' c := by
      rcases hid with h | h
      · exact (hmem _).mpr (Ct.mem_ids.mp h).1
      · rw [h]; exact (hmem _).mpr h0.has0
    obtain ⟨Q, hQ⟩ := Ct.get hm
    obtain ⟨P, hP, e⟩ := hlk id Q hQ
    rw [Ct.comp_eq hQ, Ct.comp_eq hP, Poly.coeffs_eq (h0.coeff id P hP), Poly.coeffs_eq (by rw [e]; exact h0.coeff id P hP), e]
    show (if i < level + 1 - k then P.rows i else Limb.zero) = _
    rw [if_pos (by omega)]

end C66
end MKHE

/-! ## Concrete instances: the ciphertext of two parties of the example heap -/
namespace MKHE.Ex
open MKHE Finset Nega Heap
variable (fm : FloatModel)

theorem heap3_ids : (value (ctx fm) heap 3).ids = (ctAB fm 3 4).ids := by
  rw [ctAB_ids]
  ext id
  rw [value_ids, mem_insert, mem_singleton]
  show id ∈ hMap 3 ∧ id ≠ "0" ↔ _
  rw [mem_hMap]
  constructor
  · rintro ⟨h1, h2⟩
    rcases h1 with h | h | h
    · exact absurd h h2
    · exact .inl h.2
    · exact .inr h.2.2.2
  · rintro (h | h) <;> subst h <;> simp

/-- rotation by -6 (normalised to 2) in place -/
example := C66.rotate_inPlace_phase (c := 3) (valid fm) (fun _ => Order.rev) (scratch fm) (level := 2) (r := 2) heap_wf (by show 3 < 4; norm_num)
  (heap_distinct 3) (by show 2 < 3; norm_num) (heap_at fm 3) (-6) (by norm_num) (by rw [heap3_ids]; exact rotKeys2 fm) 37442 (blocks fm)

/-- dropping one level in place -/
example := C66.dropLevel_inPlace (C := ctx fm) (c := 3) Order.rev heap_wf (by show 3 < 4; norm_num) (heap_distinct 3) (heap_at fm 3) (k := 1) (by norm_num)

/-- the other ciphertexts of the heap are spared -/
example {h' : Heap 16} (hs : C66.Spares (ctx fm) heap 3 h') : value (ctx fm) h' 0 = value (ctx fm) heap 0 :=
  hs 0 (by show 0 < 4; norm_num) (heap_apart (by omega) (by norm_num))

end MKHE.Ex
