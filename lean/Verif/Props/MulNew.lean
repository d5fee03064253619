import Verif.Props.CkksOps
import Verif.Props.Mul

set_option autoImplicit false

/-!
# MulRelinNew of the CKKS evaluator: HoistedForm, products with rescaling (C29, C42), squaring (C31), independence of stale memory
and map order (C24)
-/

namespace MKHE
open Finset Nega

variable {N : ℕ} [NeZero N] {C : Ctx N}

theorem Scratch.Same.alloc {S S' : Scratch C} (h : S.Same S') {n : ℕ} (hS : S.Alloc n) : S'.Alloc n := by
  obtain ⟨h1, h2, h3, h4, h5, h6⟩ := h
  refine ⟨?_, ?_, ?_⟩
  · first | exact h1 ▸ hS.swk1 | exact h2 ▸ hS.swk1 | exact h3 ▸ hS.swk1 | exact h4 ▸ hS.swk1
  · first | exact h1 ▸ hS.swk2 | exact h2 ▸ hS.swk2 | exact h3 ▸ hS.swk2 | exact h4 ▸ hS.swk2 | exact h5 ▸ hS.swk2
  · first | exact h1 ▸ hS.swk3 | exact h2 ▸ hS.swk3 | exact h3 ▸ hS.swk3 | exact h4 ▸ hS.swk3 | exact h5 ▸ hS.swk3 | exact h6 ▸ hS.swk3

/-- a hoisting pool with an entry of at least `n` blocks for each of the ids -/
def PoolOK (n : ℕ) (ids : Finset String) (pool : HoistedCt C) : Prop := ∀ id ∈ ids, ∃ s, pool.lookup id = some s ∧ n ≤ s.len

/-- the entry a hoisting pool has after decomposing `ct` into it -/
def hoistEntry (level : ℕ) (ct : Ct C) (id : String) (old : Swk C) : Swk C :=
  ⟨old.len, fun k => if k < C.beta level then setQP level (digG level k (ct.comp id)) (old.val k) else old.val k⟩

theorem hoistInto_ok (V : C.Valid) (o1 o2 : Order String) (S : Scratch C) {op : Ct C} {pool : HoistedCt C} {l : ℕ} (hl : l < C.nQ)
    (h : op.AtLevel l) (hp : PoolOK (C.beta l) op.ids pool) : ∃ m S', hoistInto o1 o2 S op pool = .ok (m, S') ∧ S.Same S' ∧
      ∀ id, m.lookup id = if id ∈ op.ids then (pool.lookup id).map (hoistEntry l op id) else pool.lookup id := by
  obtain ⟨ids, a1, a2⟩ := Ct.idset o1 op
  unfold hoistInto
  rw [a1, bind_ok]
  obtain ⟨⟨m, S'⟩, e1, e2, e3⟩ := Go.loop_inv (fun (st : HoistedCt C × Scratch C) id => do
      let level ← op.level
      let a ← op.deref id
      let ad ← st.1.deref id
      let w ← decompose st.2 level a ad
      .ok (st.1.insert id w.1, w.2))
    (fun pre st => S.Same st.2 ∧ ∀ id, st.1.lookup id = if id ∈ pre then (pool.lookup id).map (hoistEntry l op id) else pool.lookup id)
    (GoMap.range o2 ids.value) (pool, S) ⟨Scratch.Same.refl S, by simp⟩ (by
      rintro pre id suf ⟨m, S1⟩ hlst ⟨i1, i2⟩
      have hid : id ∈ op.ids := by
        rw [← a2, ← IDSet.mem_value_iff, ← GoMap.mem_range (o := o2), hlst]; simp
      have hpre : id ∉ pre := nodup_split (GoMap.nodup_range _ _) hlst
      obtain ⟨a, ha⟩ := Ct.get (Ct.mem_ids.mp hid).1
      obtain ⟨ad, b1, b2⟩ := hp id hid
      have h1 := i2 id
      rw [if_neg hpre, b1] at h1
      obtain ⟨S2, c1, c2⟩ := decompose_ok V S1 hl (a := a) (by rw [h.len _ _ ha]; omega) ad b2
      dsimp only
      rw [h.level, bind_ok, GoMap.deref_ok ha, bind_ok, GoMap.deref_ok h1, bind_ok, c2, bind_ok]
      refine ⟨_, rfl, i1.trans c1, fun id' => ?_⟩
      rw [GoMap.lookup_insert']
      by_cases e : id' = id
      · subst e
        rw [if_pos rfl, if_pos (by simp), b1, Option.map_some]
        unfold hoistEntry
        rw [Ct.comp_eq ha]
      · rw [if_neg e, i2 id']
        by_cases e' : id' ∈ pre <;> simp [e, e'])
  refine ⟨m, S', e1, e2, fun id => ?_⟩
  rw [e3 id]
  simp only [GoMap.mem_range, IDSet.mem_value_iff, a2]

theorem hoisted_of_entry {l : ℕ} {op : Ct C} {pool m : HoistedCt C} (hp : PoolOK (C.beta l) op.ids pool)
    (h : ∀ id ∈ op.ids, m.lookup id = (pool.lookup id).map (hoistEntry l op id)) : IsHoisted l op m := by
  intro id hid
  obtain ⟨s, s1, s2⟩ := hp id hid
  refine ⟨hoistEntry l op id s, by rw [h id hid, s1]; rfl, s2, fun k hk => ?_⟩
  show (if k < C.beta l then setQP l (digG l k (op.comp id)) (s.val k) else s.val k).Agree l _
  rw [if_pos hk]
  exact setQP_agree _ _ _

/-- **HoistedForm**: for every ciphertext at a level of the modulus chain, scratch memory and map order it succeeds and returns, for exactly the
parties of the ciphertext, the digits of the component -/
theorem hoistedForm_ok (V : C.Valid) (o : Sched String) (S : Scratch C) {ct : Ct C} {l : ℕ} (hl : l < C.nQ) (h : ct.AtLevel l) :
    ∃ m S', hoistedForm o S ct = .ok (m, S') ∧ S.Same S' ∧ ∀ id, m.lookup id = if id ∈ ct.ids then
      some (hoistEntry l ct id ⟨C.beta (C.nQ - 1), fun _ => PolyQP.zero⟩) else none := by
  obtain ⟨ids, a1, a2⟩ := Ct.idset (o 70) ct
  unfold hoistedForm
  rw [a1, bind_ok]
  have hb : C.beta l ≤ C.beta (C.nQ - 1) := V.beta_mono (by omega) (by omega)
  obtain ⟨⟨m, S'⟩, e1, e2, e3⟩ := Go.loop_inv (fun (st : HoistedCt C × Scratch C) id => do
      let level ← ct.level
      let a ← ct.deref id
      let w ← decompose st.2 level a ⟨C.beta (C.nQ - 1), fun _ => PolyQP.zero⟩
      .ok (st.1.insert id w.1, w.2))
    (fun pre st => S.Same st.2 ∧ ∀ id, st.1.lookup id = if id ∈ pre then
      some (hoistEntry l ct id ⟨C.beta (C.nQ - 1), fun _ => PolyQP.zero⟩) else none)
    (GoMap.range (o 71) ids.value) (∅, S) ⟨Scratch.Same.refl S, by simp⟩ (by
      rintro pre id suf ⟨m, S1⟩ hlst ⟨i1, i2⟩
      have hid : id ∈ ct.ids := by
        rw [← a2, ← IDSet.mem_value_iff, ← GoMap.mem_range (o := o 71), hlst]; simp
      obtain ⟨a, ha⟩ := Ct.get (Ct.mem_ids.mp hid).1
      obtain ⟨S2, c1, c2⟩ := decompose_ok V S1 hl (a := a) (by rw [h.len _ _ ha]; omega)
        (⟨C.beta (C.nQ - 1), fun _ => PolyQP.zero⟩ : Swk C) hb
      dsimp only
      rw [h.level, bind_ok, GoMap.deref_ok ha, bind_ok, c2, bind_ok]
      refine ⟨_, rfl, i1.trans c1, fun id' => ?_⟩
      rw [GoMap.lookup_insert']
      by_cases e : id' = id
      · subst e
        rw [if_pos rfl, if_pos (by simp)]
        unfold hoistEntry
        rw [Ct.comp_eq ha]
      · rw [if_neg e, i2 id']
        by_cases e' : id' ∈ pre <;> simp [e, e'])
  refine ⟨m, S', e1, e2, fun id => ?_⟩
  rw [e3 id]
  simp only [GoMap.mem_range, IDSet.mem_value_iff, a2]

namespace C42

/-- **HoistedForm gives a hoisted form**: for every ciphertext, scratch memory and order. Together with `C29.mulAndRelinHoisted_phase` and the
rotation theorems this discharges their hypothesis on the hoisted operands. -/
theorem hoistedForm_isHoisted (V : C.Valid) (o : Sched String) (S : Scratch C) {ct : Ct C} {l : ℕ} (hl : l < C.nQ) (h : ct.AtLevel l) :
    ∃ m S', hoistedForm o S ct = .ok (m, S') ∧ IsHoisted l ct m := by
  obtain ⟨m, S', e1, -, e3⟩ := hoistedForm_ok V o S hl h
  refine ⟨m, S', e1, fun id hid => ⟨_, by rw [e3, if_pos hid], ?_, fun k hk => ?_⟩⟩
  · exact V.beta_mono (by omega) (by omega)
  · show (if k < C.beta l then setQP l (digG l k (ct.comp id)) _ else _).Agree l _
    rw [if_pos hk]
    exact setQP_agree _ _ _

end C42

namespace C24

/-- **HoistedForm is deterministic**: it does not depend on the scratch memory nor on the map orders -/
theorem hoistedForm_deterministic (V : C.Valid) (o o' : Sched String) (S S' : Scratch C) {ct : Ct C} {l : ℕ} (hl : l < C.nQ) (h : ct.AtLevel l) :
    ∃ a S1 b S2, hoistedForm o S ct = .ok (a, S1) ∧ hoistedForm o' S' ct = .ok (b, S2) ∧ ∀ id, a.lookup id = b.lookup id := by
  obtain ⟨a, S1, a1, -, a3⟩ := hoistedForm_ok V o S hl h
  obtain ⟨b, S2, b1, -, b3⟩ := hoistedForm_ok V o' S' hl h
  exact ⟨a, S1, b, S2, a1, b1, fun id => (a3 id).trans (b3 id).symm⟩

example (fm : FloatModel) : ∃ a S1 b S2, hoistedForm (fun _ => Order.id) (Ex.scratch fm) (Ex.ctAB fm 3 4) = .ok (a, S1) ∧
    hoistedForm (fun _ => Order.rev) (Ex.scratch fm) (Ex.ctAB fm 3 4) = .ok (b, S2) ∧ ∀ id, a.lookup id = b.lookup id :=
  hoistedForm_deterministic (Ex.valid fm) _ _ _ _ (show 2 < 3 by norm_num) (Ex.ctAB_at fm 2 4)

end C24

/-! ## the product before rescaling -/

/-- the rows of the product of two ciphertexts decomposed at their own levels -/
noncomputable def mulRows (crs : GoMap ℤ (Swk C)) (l0 l1 : ℕ) (op0 op1 : Ct C) (rlk : RlkMap C) : String → QRows C :=
  ({ mulIn crs (min l0 l1) op0 op1 none none rlk with
      h0 := fun id => digs l0 (op0.comp id), h1 := fun id => digs l1 (op1.comp id) } : MulIn C).out (min l0 l1)

/-- what a product of two ciphertexts at levels `l0`, `l1` needs in order not to panic -/
structure ProdHyp (crs : GoMap ℤ (Swk C)) (l0 l1 : ℕ) (op0 op1 : Ct C) (rlk : RlkMap C) : Prop where
  lvl0 : l0 < C.nQ
  lvl1 : l1 < C.nQ
  in0 : op0.AtLevel l0
  in1 : op1.AtLevel l1
  keys : ∀ id ∈ op0.ids ∪ op1.ids, ∃ key, rlk.value.lookup id = some key ∧ C.beta (min l0 l1) ≤ key.b.len ∧
    C.beta (min l0 l1) ≤ key.d.len ∧ C.beta (min l0 l1) ≤ key.v.len
  crsU : ∃ u, crs.lookup (-1) = some u ∧ C.beta (min l0 l1) ≤ u.len

variable {crs : GoMap ℤ (Swk C)} {l0 l1 : ℕ} {op0 op1 : Ct C} {rlk : RlkMap C}

theorem ProdHyp.mulHyp (H : ProdHyp crs l0 l1 op0 op1 rlk) {out : Ct C} (h : out.AtLevel (min l0 l1)) (hi : out.ids = op0.ids ∪ op1.ids) :
    MulHyp crs (min l0 l1) op0 op1 rlk out where
  lvl := lt_of_le_of_lt (min_le_left _ _) H.lvl0
  in0 := H.in0.toCoeff.mono (min_le_left _ _)
  in1 := H.in1.toCoeff.mono (min_le_right _ _)
  res := h
  ids := hi
  keys := H.keys
  crsU := H.crsU

theorem ct_zero_notMem_union (a b : Ct C) : "0" ∉ a.ids ∪ b.ids := by
  rw [mem_union]; rintro (h | h)
  · exact a.zero_notMem_ids h
  · exact b.zero_notMem_ids h

/-- the allocation of the result of a binary operation -/
theorem newCiphertextBinary_ok (o : Sched String) {op0 op1 : CCt C} (h0 : op0.ct.AtLevel l0) (h1 : op1.ct.AtLevel l1) :
    ∃ out, newCiphertextBinary o op0 op1 = .ok out ∧ out.scale = max op0.scale op1.scale ∧
      ∀ id, out.ct.lookup id = if id = "0" ∨ id ∈ op0.ct.ids ∪ op1.ct.ids then some (Poly.new (min l0 l1)) else none := by
  obtain ⟨i0, i1, u, a1, a2, a3, -, -, a4⟩ := idset_union (o 80) (o 81) (o 82) (o 83) op0.ct op1.ct
  unfold newCiphertextBinary
  rw [h0.level, bind_ok, h1.level, bind_ok, a1, bind_ok, a2, bind_ok, a3, bind_ok]
  exact ⟨_, rfl, rfl, Ct.new_is _ a4 _⟩

/-- hoisted multiplication into a fresh ciphertext: the rows written are determined -/
theorem mulAndRelinHoisted_made (V : C.Valid) (o : Sched String) (S : Scratch C) (hS : S.Alloc (C.beta (min l0 l1)))
    (H : ProdHyp crs l0 l1 op0 op1 rlk) {h0 h1 : HoistedCt C} (k0 : IsHoisted l0 op0 h0) (k1 : IsHoisted l1 op1 h1) {out : Ct C}
    (hout : ∀ id, out.lookup id = if id = "0" ∨ id ∈ op0.ids ∪ op1.ids then some (Poly.new (min l0 l1)) else none) :
    ∃ out' S', mulAndRelinHoisted crs o S op0 op1 (some h0) (some h1) rlk out = .ok (out', S') ∧
      out'.Made (min l0 l1) (op0.ids ∪ op1.ids) (mulRows crs l0 l1 op0 op1 rlk) := by
  have hz := ct_zero_notMem_union op0 op1
  have hat : out.AtLevel (min l0 l1) := by
    refine ⟨AList.lookup_isSome.mp (by rw [hout]; simp), fun id p hp => ?_, fun id p hp => ?_⟩ <;>
    · rw [hout] at hp; split_ifs at hp; injection hp with hp; subst hp; rfl
  have hids : out.ids = op0.ids ∪ op1.ids := by
    ext id
    rw [Ct.mem_ids, ← AList.lookup_isSome, hout]
    by_cases e : id = "0"
    · subst e; simp only [ne_eq, not_true_eq_false, and_false, false_iff]; exact hz
    · by_cases hs : id ∈ op0.ids ∪ op1.ids <;> simp [e, hs]
  have M := H.mulHyp hat hids
  have ok0 : HoistOK (min l0 l1) op0 (some h0) := by
    intro m hm id hid
    injection hm with hm; subst hm
    obtain ⟨s, s1, s2, -⟩ := k0 id hid
    exact ⟨s, s1, le_trans (V.beta_mono H.lvl0 (min_le_left _ _)) s2⟩
  have ok1 : HoistOK (min l0 l1) op1 (some h1) := by
    intro m hm id hid
    injection hm with hm; subst hm
    obtain ⟨s, s1, s2, -⟩ := k1 id hid
    exact ⟨s, s1, le_trans (V.beta_mono H.lvl1 (min_le_right _ _)) s2⟩
  obtain ⟨out', S', e1, R, e2, e3⟩ := mulAndRelinHoisted_run V o (mulOK_of M ok0 ok1 hS)
  refine ⟨out', S', e1, Ct.Made.of_upd hout (e2.congr fun id hid i hi => ?_)⟩
  have hid' : id ∈ op0.ids ∪ op1.ids ∨ id = "0" := by
    by_cases e : id = "0"
    · exact .inr e
    · left; rw [← hids]; exact Ct.mem_ids.mpr ⟨hid, e⟩
  rw [e3 id hid' i hi]
  have dig : ∀ {op : Ct C} {h : HoistedCt C} {l : ℕ}, l < C.nQ → min l0 l1 ≤ l → IsHoisted l op h → ∀ id ∈ op.ids,
      ∀ k < C.beta (min l0 l1), (digitsFor (min l0 l1) op (some h) id k).Agree (min l0 l1) (digs l (op.comp id) k) := by
    intro op h l hl hle hk id hid k hkb
    obtain ⟨s, s1, s2, s3⟩ := hk id hid
    simp only [digitsFor, s1]
    exact (s3 k (lt_of_lt_of_le hkb (V.beta_mono hl hle))).mono hle
  exact mulOut_congr V (mulIn crs (min l0 l1) op0 op1 (some h0) (some h1) rlk) (fun id => digs l0 (op0.comp id))
    (fun id => digs l1 (op1.comp id)) (dig H.lvl0 (min_le_left _ _) k0) (dig H.lvl1 (min_le_right _ _) k1) id i

/-! ## the product with rescaling -/

/-- the number of primes `mulRelin` divides out: the documentation's count, none at level zero (where `Rescale` returns an error that is
ignored) -/
def Drops (fm : FloatModel) (q : ℕ → ℕ) (level : ℕ) (s minScale : ℚ) (n : ℕ) : Prop :=
  (level = 0 ∧ n = 0) ∨ (0 < level ∧ C27.Count fm q level s minScale n)

/-- the components of a rescaled ciphertext -/
noncomputable def rescaled (level n : ℕ) (a : QRows C) (p : Poly C) : Poly C :=
  if n = 0 then p else { p with len := level + 1 - n, rows := setQ (level - n) (divRoundMany level n a) p.rows }

/-- rescaling in place, whatever the number of primes divided out -/
theorem rescale_inplace (o : Order String) {ct : CCt C} {minScale : ℚ} {level n : ℕ} (h : ct.ct.AtLevel level) (hmin : 0 < minScale)
    (hs : ct.scale ≠ 0) (hn : Drops C.fm C.q level ct.scale minScale n) : ∃ e r, rescale o ct minScale ct true = .ok (e, r) ∧
      r.scale = C27.scaleAfter C.fm C.q level ct.scale n ∧
      ∀ id, r.ct.lookup id = (ct.ct.lookup id).map (rescaled level n (ct.ct.comp id)) := by
  have hid : ∀ id, (ct.ct.lookup id).map (rescaled level 0 (ct.ct.comp id)) = ct.ct.lookup id := fun id => by
    cases ct.ct.lookup id <;> simp [rescaled]
  rcases hn with ⟨h1, h2⟩ | ⟨h1, h2⟩
  · subst h2
    obtain ⟨e, he⟩ := C27.rescale_errors (same := true) (out := ct) o h (.inr (.inr h1) : minScale ≤ 0 ∨ _)
    exact ⟨_, _, he, rfl, fun id => (hid id).symm⟩
  · by_cases hn0 : n = 0
    · subst hn0
      exact ⟨_, _, C27.rescale_none o h hmin hs h1 h2, rfl, fun id => (hid id).symm⟩
    · obtain ⟨r, r1, r2⟩ := C27.rescale_run o (same := true) (fun _ => rfl) h h rfl hmin hs h1 (by omega) (by omega) h2
      refine ⟨_, _, r1, rfl, fun id => ?_⟩
      rw [r2 id]
      unfold rescaled
      simp only [if_neg hn0]

/-- the phase after rescaling in place -/
theorem rescale_inplace_phase (V : C.Valid) (o : Order String) {ct : CCt C} {minScale : ℚ} {level n : ℕ} (hlev : level < C.nQ)
    (h : ct.ct.AtLevel level) (hmin : 0 < minScale) (hs : ct.scale ≠ 0) (hn : Drops C.fm C.q level ct.scale minScale n) :
    ∃ e r, rescale o ct minScale ct true = .ok (e, r) ∧ r.ct.AtLevel (level - n) ∧ r.ct.ids = ct.ct.ids ∧
      r.scale = C27.scaleAfter C.fm C.q level ct.scale n ∧
      ∀ (s : String → Nega N ℤ) (B : ℤ), (∀ id, Bdd (s id) B) → ∃ E : Nega N ℤ,
        (∀ t, 2 * |E t| ≤ (C27.dropped C.q level n - 1) * (1 + ct.ct.ids.card * N * B)) ∧
        (∀ i ≤ level - n, ct.ct.phase s i = (C27.dropped C.q level n : Nega N (ZMod (C.q i))) * r.ct.phase s i + red (C.q i) E) ∧
        ∀ i, level - n < i → i ≤ level → ct.ct.phase s i = red (C.q i) E := by
  by_cases hn0 : n = 0
  · subst hn0
    have hz : ∀ (s : String → Nega N ℤ) (B : ℤ), (∀ id, Bdd (s id) B) → ∃ E : Nega N ℤ,
        (∀ t, 2 * |E t| ≤ (C27.dropped C.q level 0 - 1) * (1 + ct.ct.ids.card * N * B)) ∧
        (∀ i ≤ level - 0, ct.ct.phase s i = (C27.dropped C.q level 0 : Nega N (ZMod (C.q i))) * ct.ct.phase s i + red (C.q i) E) ∧
        ∀ i, level - 0 < i → i ≤ level → ct.ct.phase s i = red (C.q i) E :=
      fun s B _ => ⟨0, fun t => by simp [C27.dropped], fun i _ => by simp [C27.dropped], fun i h1 h2 => by omega⟩
    rcases hn with ⟨h1, h2⟩ | ⟨h1, h2⟩
    · obtain ⟨e, he⟩ := C27.rescale_errors (same := true) (out := ct) o h (.inr (.inr h1) : minScale ≤ 0 ∨ _)
      exact ⟨_, _, he, h, rfl, rfl, hz⟩
    · exact ⟨_, _, C27.rescale_none o h hmin hs h1 h2, h, rfl, rfl, hz⟩
  · rcases hn with ⟨h1, h2⟩ | ⟨h1, h2⟩
    · exact absurd h2 hn0
    · obtain ⟨r, r1, r2⟩ := C27.rescale_phase V o (same := true) (fun _ => rfl) hlev h h rfl hmin hs h1 (by omega) (by omega) h2
      exact ⟨_, r, r1, r2⟩

section
variable {c0 c1 : CCt C}

/-- `MulRelinHoistedNew` up to the rescaling -/
theorem ckksMulRelinHoistedNew_run (V : C.Valid) (pscale : ℚ) (o : Sched String) (E : Eval C) (hE : E.ksw.Alloc (C.beta (min l0 l1)))
    (H : ProdHyp crs l0 l1 c0.ct c1.ct rlk) {h0 h1 : HoistedCt C} (k0 : IsHoisted l0 c0.ct h0) (k1 : IsHoisted l1 c1.ct h1) :
    ∃ p S', p.Made (min l0 l1) (c0.ct.ids ∪ c1.ct.ids) (mulRows crs l0 l1 c0.ct c1.ct rlk) ∧
      ckksMulRelinHoistedNew pscale crs o E c0 c1 (some h0) (some h1) rlk =
        (rescale (o 91) ⟨p, C.fm.mul c0.scale c1.scale⟩ pscale ⟨p, C.fm.mul c0.scale c1.scale⟩ true).map
          fun r => (r.2, { E with ksw := S' }) := by
  obtain ⟨out, a1, a2, a3⟩ := newCiphertextBinary_ok o H.in0 H.in1
  obtain ⟨p, S', b1, b2⟩ := mulAndRelinHoisted_made V o E.ksw hE H k0 k1 a3
  have hat : out.ct.AtLevel (min l0 l1) := by
    refine ⟨AList.lookup_isSome.mp (by rw [a3]; simp), fun id p hp => ?_, fun id p hp => ?_⟩ <;>
    · rw [a3] at hp; split_ifs at hp; injection hp with hp; subst hp; rfl
  refine ⟨p, S', b2, ?_⟩
  unfold ckksMulRelinHoistedNew
  rw [a1, bind_ok]
  unfold ckksMulRelinHoisted
  dsimp only
  rw [H.in0.level, bind_ok, H.in1.level, bind_ok, hat.level, bind_ok, min_self, if_neg (lt_irrefl _), bind_ok, b1, bind_ok]
  cases rescale (o 91) ⟨p, C.fm.mul c0.scale c1.scale⟩ pscale ⟨p, C.fm.mul c0.scale c1.scale⟩ true <;> rfl

/-- `MulRelinNew` up to the rescaling. With `same` set the operands are one object. -/
theorem ckksMulRelinNew_run (V : C.Valid) (pscale : ℚ) (o : Sched String) (E : Eval C) (hE : E.ksw.Alloc (C.beta (min l0 l1)))
    {same : Bool} (hsame : same = true → c1 = c0 ∧ l1 = l0) (H : ProdHyp crs l0 l1 c0.ct c1.ct rlk)
    (p0 : PoolOK (C.beta l0) c0.ct.ids rlk.pool0) (p1 : PoolOK (C.beta l1) c1.ct.ids rlk.pool1) :
    ∃ p E' rlk', p.Made (min l0 l1) (c0.ct.ids ∪ c1.ct.ids) (mulRows crs l0 l1 c0.ct c1.ct rlk) ∧ rlk'.value = rlk.value ∧
      ckksMulRelinNew pscale crs o E same c0 c1 rlk =
        (rescale (o 91) ⟨p, C.fm.mul c0.scale c1.scale⟩ pscale ⟨p, C.fm.mul c0.scale c1.scale⟩ true).map fun r => (r.2, E', rlk') := by
  unfold ckksMulRelinNew
  obtain ⟨m0, S0, a1, a2, a3⟩ := hoistInto_ok V (o 92) (o 93) E.ksw H.lvl0 H.in0 p0
  have h0 : IsHoisted l0 c0.ct m0 := hoisted_of_entry p0 fun id hid => by rw [a3, if_pos hid]
  cases same with
  | true =>
    obtain ⟨e1, e2⟩ := hsame rfl
    subst e1 e2
    have Hk : ProdHyp crs l1 l1 c1.ct c1.ct { rlk with pool0 := m0 } := ⟨H.lvl0, H.lvl1, H.in0, H.in1, H.keys, H.crsU⟩
    rw [if_pos rfl, a1, bind_ok]
    dsimp only
    obtain ⟨p, S', b1, b2⟩ := ckksMulRelinHoistedNew_run V pscale o { E with ksw := S0 } (a2.alloc hE) Hk h0 h0
    refine ⟨p, { E with ksw := S' }, { rlk with pool0 := m0 }, b1, rfl, ?_⟩
    rw [b2]
    cases rescale (o 91) ⟨p, C.fm.mul c1.scale c1.scale⟩ pscale ⟨p, C.fm.mul c1.scale c1.scale⟩ true <;> rfl
  | false =>
    rw [if_neg (by simp), a1, bind_ok]
    dsimp only
    obtain ⟨m1, S1, b1, b2, b3⟩ := hoistInto_ok V (o 94) (o 95) S0 H.lvl1 H.in1 p1
    have h1 : IsHoisted l1 c1.ct m1 := hoisted_of_entry p1 fun id hid => by rw [b3, if_pos hid]
    rw [b1, bind_ok]
    dsimp only
    have Hk : ProdHyp crs l0 l1 c0.ct c1.ct { value := rlk.value, pool0 := m0, pool1 := m1 } :=
      ⟨H.lvl0, H.lvl1, H.in0, H.in1, H.keys, H.crsU⟩
    obtain ⟨p, S', c1', c2⟩ := ckksMulRelinHoistedNew_run V pscale o { E with ksw := S1 } (b2.alloc (a2.alloc hE)) Hk h0 h1
    refine ⟨p, { E with ksw := S' }, { value := rlk.value, pool0 := m0, pool1 := m1 }, c1', rfl, ?_⟩
    rw [c2]
    cases rescale (o 91) ⟨p, C.fm.mul c0.scale c1.scale⟩ pscale ⟨p, C.fm.mul c0.scale c1.scale⟩ true <;> rfl

end

/-! ## C29, C42: phases -/
namespace C29

/-- the keys of all parties of the operands are in the set, satisfy the key equations, and their hoisting pools are allocated -/
structure NewHyp (crs : GoMap ℤ (Swk C)) (l0 l1 : ℕ) (op0 op1 : Ct C) (rlk : RlkMap C) (s r : String → Nega N ℤ)
    (a : ℕ → PolyQP C) (Sb Rb Be : ℤ) : Prop where
  lvl0 : l0 < C.nQ
  lvl1 : l1 < C.nQ
  in0 : op0.AtLevel l0
  in1 : op1.AtLevel l1
  keys : Keys crs (min l0 l1) (op0.ids ∪ op1.ids) rlk s r a Sb Rb Be
  pool0 : PoolOK (C.beta l0) op0.ids rlk.pool0
  pool1 : PoolOK (C.beta l1) op1.ids rlk.pool1

variable {s r : String → Nega N ℤ} {a : ℕ → PolyQP C} {Sb Rb Be : ℤ} {c0 c1 : CCt C}

theorem NewHyp.prod (H : NewHyp crs l0 l1 op0 op1 rlk s r a Sb Rb Be) : ProdHyp crs l0 l1 op0 op1 rlk := by
  obtain ⟨u, u1, u2, u3⟩ := H.keys.u
  refine ⟨H.lvl0, H.lvl1, H.in0, H.in1, fun id hid => ?_, u, u1, u2⟩
  obtain ⟨key, k1, k2⟩ := u3 id hid
  exact ⟨key, k1, k2.lenb, k2.lend, k2.lenv⟩

/-- the phase of a ciphertext with the rows of the product -/
theorem made_phase (V : C.Valid) (H : NewHyp crs l0 l1 op0 op1 rlk s r a Sb Rb Be) {p : Ct C}
    (hp : p.Made (min l0 l1) (op0.ids ∪ op1.ids) (mulRows crs l0 l1 op0 op1 rlk))
    (D : ℤ) (hD : ∀ l ∈ [l0, l1], ∀ k < C.beta l, 2 * (C.blockProd l k : ℤ) ≤ D) :
    ∃ E : Nega N ℤ, (∀ x, C.P * |E x| ≤ mulNoise N C.P op0.ids.card op1.ids.card (C.beta (min l0 l1)) D Sb Rb Be) ∧
      ∀ i ≤ min l0 l1, p.phase s i = op0.phase s i * op1.phase s i + red (C.q i) E := by
  have hlev : min l0 l1 < C.nQ := lt_of_le_of_lt (min_le_left _ _) H.lvl0
  obtain ⟨u, u1, u2, u3⟩ := H.keys.u
  have hkey : ∀ id ∈ op0.ids ∪ op1.ids, KeyRel C (C.beta (min l0 l1)) (r id) a (s id) Be (keyFor rlk Rlk.d id) ∧
      KeyRel C (C.beta (min l0 l1)) (s id) u.val (-r id) Be (keyFor rlk Rlk.v id) ∧
      KeyRel C (C.beta (min l0 l1)) (s id) a 0 Be (keyFor rlk Rlk.b id) := by
    intro id hid
    obtain ⟨key, q1, q2⟩ := u3 id hid
    simp only [keyFor, q1]
    exact ⟨q2.d, q2.v, q2.b⟩
  have hMu : (mulIn crs (min l0 l1) op0 op1 none none rlk).u = u.val := by simp only [mulIn, u1]
  have dig : ∀ {op : Ct C} {l : ℕ}, min l0 l1 ≤ l → l < C.nQ → (∀ k < C.beta l, 2 * (C.blockProd l k : ℤ) ≤ D) → ∀ id ∈ op.ids,
      ∀ k < C.beta (min l0 l1), ∃ X, IsDigit C (min l0 l1) k (op.comp id) D X ∧ Holds C (min l0 l1) (digs l (op.comp id) k) X := by
    intro op l hl hl' hD' id hid k hkb
    have hkb' := lt_of_lt_of_le hkb (V.beta_mono hl' hl)
    obtain ⟨X, x1, x2⟩ := digs_spec V hl' hkb' (op.comp id)
    exact ⟨X, (x1.mono hl).bound (hD' k hkb'), x2.mono hl⟩
  obtain ⟨E, E1, E2⟩ := mul_noise V hlev ({ mulIn crs (min l0 l1) op0 op1 none none rlk with
      h0 := fun id => digs l0 (op0.comp id), h1 := fun id => digs l1 (op1.comp id) } : MulIn C) s r a D Sb Rb Be
    { n0 := fun h => (Ct.mem_ids.mp h).2 rfl
      n1 := fun h => (Ct.mem_ids.mp h).2 rfl
      d := fun id hid => (hkey id (mem_union_left _ hid)).1
      v := fun id hid => by
        have := (hkey id (mem_union_left _ hid)).2.1
        rw [← hMu] at this; exact this
      b := fun id hid => (hkey id (mem_union_right _ hid)).2.2
      dig0 := dig (min_le_left _ _) H.lvl0 (hD l0 (by simp))
      dig1 := dig (min_le_right _ _) H.lvl1 (hD l1 (by simp))
      block := by
        rcases min_choice l0 l1 with h | h <;> rw [h]
        · exact hD l0 (by simp)
        · exact hD l1 (by simp)
      s0 := H.keys.s
      r0 := fun id hid => H.keys.r id (mem_union_left _ hid) }
  refine ⟨E, E1, fun i hi => ?_⟩
  rw [hp.phase (ct_zero_notMem_union op0 op1) s hi]
  exact E2 i hi

/-- **C29 at the level of the API**: `MulRelinNew`, for all operands (at any levels, over any parties), evaluator memory and map orders. It
succeeds; the result is over the union of the parties, at the smaller of the two levels minus the `n` primes divided out, with the scale
divided by them; and the product of the phases is the product `D` of those primes times the phase of the result, plus an error `E` that
does not depend on the prime with `2P|E| ≤ 2 mulNoise + P (D-1)(1 + #ids N Sb)`; modulo the primes divided out the product of the phases is
`E` itself, so that the division by `D` is one of integers. With `same` set, the operands are one object (the square
case of the code). -/
theorem mulRelinNew_phase (V : C.Valid) (pscale : ℚ) (o : Sched String) (E : Eval C) (hE : E.ksw.Alloc (C.beta (min l0 l1)))
    {same : Bool} (hsame : same = true → c1 = c0 ∧ l1 = l0) (H : NewHyp crs l0 l1 c0.ct c1.ct rlk s r a Sb Rb Be)
    (hSb : ∀ id, Bdd (s id) Sb) (D : ℤ) (hD : ∀ l ∈ [l0, l1], ∀ k < C.beta l, 2 * (C.blockProd l k : ℤ) ≤ D)
    (hp : 0 < pscale) (hs : C.fm.mul c0.scale c1.scale ≠ 0) {n : ℕ}
    (hn : Drops C.fm C.q (min l0 l1) (C.fm.mul c0.scale c1.scale) pscale n) :
    ∃ out E' rlk', ckksMulRelinNew pscale crs o E same c0 c1 rlk = .ok (out, E', rlk') ∧ out.ct.AtLevel (min l0 l1 - n) ∧
      out.ct.ids = c0.ct.ids ∪ c1.ct.ids ∧ out.scale = C27.scaleAfter C.fm C.q (min l0 l1) (C.fm.mul c0.scale c1.scale) n ∧
      ∃ Er : Nega N ℤ, (∀ x, 2 * (C.P * |Er x|) ≤
          2 * mulNoise N C.P c0.ct.ids.card c1.ct.ids.card (C.beta (min l0 l1)) D Sb Rb Be +
          C.P * ((C27.dropped C.q (min l0 l1) n - 1) * (1 + (c0.ct.ids ∪ c1.ct.ids).card * N * Sb))) ∧
        (∀ i ≤ min l0 l1 - n, c0.ct.phase s i * c1.ct.phase s i =
          (C27.dropped C.q (min l0 l1) n : Nega N (ZMod (C.q i))) * out.ct.phase s i + red (C.q i) Er) ∧
        ∀ i, min l0 l1 - n < i → i ≤ min l0 l1 → c0.ct.phase s i * c1.ct.phase s i = red (C.q i) Er := by
  obtain ⟨p, E', rlk', a1, a2, a3⟩ := ckksMulRelinNew_run V pscale o E hE hsame H.prod H.pool0 H.pool1
  obtain ⟨E1, b1, b2⟩ := made_phase V H a1 D hD
  have hz := ct_zero_notMem_union c0.ct c1.ct
  have hlev : min l0 l1 < C.nQ := lt_of_le_of_lt (min_le_left _ _) H.lvl0
  obtain ⟨e, out, c1', c2, c3, c4, c5⟩ := rescale_inplace_phase V (o 91) (ct := ⟨p, C.fm.mul c0.scale c1.scale⟩) hlev a1.atLevel hp hs hn
  rw [c1'] at a3
  obtain ⟨E2, d1, d2, d3⟩ := c5 s Sb hSb
  rw [show (⟨p, C.fm.mul c0.scale c1.scale⟩ : CCt C).ct.ids = _ from a1.ids hz] at c3 d1
  refine ⟨out, E', rlk', a3, c2, c3, c4, E2 - E1, fun x => ?_, fun i hi => ?_, fun i h1 h2 => ?_⟩
  · rw [Nega.sub_apply]
    have h1 : |E2 x - E1 x| ≤ |E2 x| + |E1 x| := abs_sub _ _
    have h2 := b1 x
    have h3 := d1 x
    have hP : (0 : ℤ) ≤ C.P := by positivity
    nlinarith [mul_le_mul_of_nonneg_left h1 hP, mul_le_mul_of_nonneg_left h3 hP]
  · have e1 := b2 i (by omega)
    have e2 := d2 i hi
    dsimp only at e2
    rw [map_sub, ← sub_eq_iff_eq_add.mpr e1, e2]
    ring
  · rw [map_sub, ← sub_eq_iff_eq_add.mpr (b2 i h2), ← d3 i h1 h2]

/-- `MulRelinNew` panics exactly when the scale of the product stays above half the default scale through the whole modulus chain (the
fault of `Rescale`, C27) -/
theorem mulRelinNew_panics (V : C.Valid) (pscale : ℚ) (o : Sched String) (E : Eval C) (hE : E.ksw.Alloc (C.beta (min l0 l1)))
    {same : Bool} (hsame : same = true → c1 = c0 ∧ l1 = l0) (H : NewHyp crs l0 l1 c0.ct c1.ct rlk s r a Sb Rb Be)
    (hp : 0 < pscale) (hs : C.fm.mul c0.scale c1.scale ≠ 0) (hl : 0 < min l0 l1) :
    (∃ w, ckksMulRelinNew pscale crs o E same c0 c1 rlk = .ok w) ↔
      ∃ n, C27.Count C.fm C.q (min l0 l1) (C.fm.mul c0.scale c1.scale) pscale n := by
  obtain ⟨p, E', rlk', a1, a2, a3⟩ := ckksMulRelinNew_run V pscale o E hE hsame H.prod H.pool0 H.pool1
  rw [C27.rescale_total (o 91) (ctIn := ⟨p, C.fm.mul c0.scale c1.scale⟩) (out := ⟨p, C.fm.mul c0.scale c1.scale⟩) (same := true)
    (fun _ => rfl) a1.atLevel a1.atLevel rfl hp hs hl le_rfl, a3]
  cases rescale (o 91) ⟨p, C.fm.mul c0.scale c1.scale⟩ pscale ⟨p, C.fm.mul c0.scale c1.scale⟩ true with
  | ok r => exact ⟨fun _ => ⟨_, rfl⟩, fun _ => ⟨_, rfl⟩⟩
  | error e => exact ⟨fun ⟨w, hw⟩ => by simp [Except.map] at hw, fun ⟨w, hw⟩ => by simp at hw⟩

end C29

/-! ## C24 and C31: the result is a function of the operands' entries, the keys and the scales -/
namespace C24

variable {c0 c1 d0 d1 : CCt C} {rlk2 : RlkMap C} {crs2 : GoMap ℤ (Swk C)}

theorem mulRows_congr (h0 : c0.ct.Same d0.ct) (h1 : c1.ct.Same d1.ct) (hk : ∀ id, rlk.value.lookup id = rlk2.value.lookup id)
    (hu : crs.lookup (-1) = crs2.lookup (-1)) : mulRows crs l0 l1 c0.ct c1.ct rlk = mulRows crs2 l0 l1 d0.ct d1.ct rlk2 := by
  have hkey : ∀ f, keyFor rlk f = keyFor rlk2 f := fun f => by funext id; unfold keyFor; rw [hk]
  unfold mulRows mulIn
  rw [h0.ids, h1.ids, h0.comp, h1.comp, hkey, hkey, hkey, hu]

/-- **C24 for MulRelinNew.** Two calls on operands with the same entries and scales and key sets with the same keys return the same
ciphertext with the same scale, for all contents of the evaluators' scratch memory and of the hoisting pools of the key sets, all map
orders, and whether or not the operands of a call are one object. -/
theorem mulRelinNew_deterministic (V : C.Valid) (pscale : ℚ) (o o' : Sched String) (E E' : Eval C) (hE : E.ksw.Alloc (C.beta (min l0 l1)))
    (hE' : E'.ksw.Alloc (C.beta (min l0 l1))) {same same' : Bool} (hsame : same = true → c1 = c0 ∧ l1 = l0)
    (hsame' : same' = true → d1 = d0 ∧ l1 = l0) (H : ProdHyp crs l0 l1 c0.ct c1.ct rlk)
    (p0 : PoolOK (C.beta l0) c0.ct.ids rlk.pool0) (p1 : PoolOK (C.beta l1) c1.ct.ids rlk.pool1)
    (q0 : PoolOK (C.beta l0) c0.ct.ids rlk2.pool0) (q1 : PoolOK (C.beta l1) c1.ct.ids rlk2.pool1)
    (h0 : c0.ct.Same d0.ct) (h1 : c1.ct.Same d1.ct) (s0 : c0.scale = d0.scale) (s1 : c1.scale = d1.scale)
    (hk : ∀ id, rlk.value.lookup id = rlk2.value.lookup id) (hu : crs.lookup (-1) = crs2.lookup (-1))
    (hp : 0 < pscale) (hs : C.fm.mul c0.scale c1.scale ≠ 0) {n : ℕ}
    (hn : Drops C.fm C.q (min l0 l1) (C.fm.mul c0.scale c1.scale) pscale n) :
    ∃ a E1 r1 b E2 r2, ckksMulRelinNew pscale crs o E same c0 c1 rlk = .ok (a, E1, r1) ∧
      ckksMulRelinNew pscale crs2 o' E' same' d0 d1 rlk2 = .ok (b, E2, r2) ∧ a.ct.Same b.ct ∧ a.scale = b.scale := by
  have H2 : ProdHyp crs2 l0 l1 d0.ct d1.ct rlk2 := by
    refine ⟨H.lvl0, H.lvl1, h0.atLevel H.in0, h1.atLevel H.in1, fun id hid => ?_, ?_⟩
    · rw [← h0.ids, ← h1.ids] at hid
      obtain ⟨key, k⟩ := H.keys id hid
      exact ⟨key, by rw [← hk]; exact k.1, k.2⟩
    · obtain ⟨u, u1, u2⟩ := H.crsU
      exact ⟨u, by rw [← hu]; exact u1, u2⟩
  obtain ⟨p, E1, r1, a1, a2, a3⟩ := ckksMulRelinNew_run V pscale o E hE hsame H p0 p1
  obtain ⟨q, E2, r2, b1, b2, b3⟩ := ckksMulRelinNew_run V pscale o' E' hE' hsame' H2 (h0.ids ▸ q0) (h1.ids ▸ q1)
  rw [← h0.ids, ← h1.ids, ← mulRows_congr h0 h1 hk hu] at b1
  have hpq : p.Same q := a1.same b1 fun _ _ _ _ => rfl
  obtain ⟨e, a, c1', c2, c3⟩ := rescale_inplace (o 91) (ct := ⟨p, C.fm.mul c0.scale c1.scale⟩) a1.atLevel hp hs hn
  obtain ⟨e', b, d1', d2, d3⟩ := rescale_inplace (o' 91) (ct := ⟨q, C.fm.mul c0.scale c1.scale⟩) b1.atLevel hp hs hn
  rw [← s0, ← s1] at b3
  rw [c1'] at a3
  rw [d1'] at b3
  refine ⟨a, E1, r1, b, E2, r2, a3, b3, fun id => ?_, c2.trans d2.symm⟩
  rw [c3, d3]
  dsimp only
  rw [hpq id, hpq.comp]

end C24

namespace C31

variable {c0 : CCt C}

/-- **C31.** Squaring: `MulRelinNew(ct, ct)` takes a path of its own that decomposes the operand once and uses one pool for both operands.
For every ciphertext, key set, evaluator state and schedule it returns the same ciphertext and scale as `MulRelinNew(ct, ct')` with `ct'`
a copy of `ct`. -/
theorem square_eq_mul_copy (V : C.Valid) (pscale : ℚ) (o o' : Sched String) (oc : Order String) (E E' : Eval C)
    (hE : E.ksw.Alloc (C.beta l0)) (hE' : E'.ksw.Alloc (C.beta l0)) (H : ProdHyp crs l0 l0 c0.ct c0.ct rlk)
    (p0 : PoolOK (C.beta l0) c0.ct.ids rlk.pool0) (p1 : PoolOK (C.beta l0) c0.ct.ids rlk.pool1)
    (hp : 0 < pscale) (hs : C.fm.mul c0.scale c0.scale ≠ 0) {n : ℕ}
    (hn : Drops C.fm C.q l0 (C.fm.mul c0.scale c0.scale) pscale n) :
    ∃ cp a E1 r1 b E2 r2, c0.ct.copyNew oc = .ok cp ∧ ckksMulRelinNew pscale crs o E true c0 c0 rlk = .ok (a, E1, r1) ∧
      ckksMulRelinNew pscale crs o' E' false c0 ⟨cp, c0.scale⟩ rlk = .ok (b, E2, r2) ∧ a.ct.Same b.ct ∧ a.scale = b.scale := by
  obtain ⟨cp, c1, c2⟩ := Ct.copyNew_ok oc H.in0.has0
  obtain ⟨a, E1, r1, b, E2, r2, h⟩ := C24.mulRelinNew_deterministic (d0 := c0) (d1 := ⟨cp, c0.scale⟩) V pscale o o' E E'
    (by rwa [min_self]) (by rwa [min_self]) (same := true) (same' := false) (fun _ => ⟨rfl, rfl⟩) (fun h => by cases h) H p0 p1 p0 p1
    (Ct.Same.refl _) c2.symm rfl rfl (fun _ => rfl) rfl hp hs (by rwa [min_self])
  exact ⟨cp, a, E1, r1, b, E2, r2, c1, h⟩

end C31

/-! ## concrete instances -/
namespace C29

theorem exPool (fm : FloatModel) (ids : Finset String) (h : ids ⊆ {"a", "b"}) : PoolOK ((Ex.ctx fm).beta 2) ids (Ex.rlks fm).pool0 ∧
    PoolOK ((Ex.ctx fm).beta 2) ids (Ex.rlks fm).pool1 := by
  have e0 : (Ex.rlks fm).pool0 = AList.insert "b" ⟨2, fun _ => PolyQP.zero⟩ (AList.insert "a" ⟨2, fun _ => PolyQP.zero⟩ ∅) := rfl
  have e1 : (Ex.rlks fm).pool1 = AList.insert "b" ⟨2, fun _ => PolyQP.zero⟩ (AList.insert "a" ⟨2, fun _ => PolyQP.zero⟩ ∅) := rfl
  rw [e0, e1]
  constructor <;>
  · intro id hid
    have := h hid
    simp only [mem_insert, mem_singleton] at this
    rw [Ex.beta_two]
    refine ⟨⟨2, fun _ => PolyQP.zero⟩, ?_, le_rfl⟩
    rcases this with rfl | rfl
    · rw [GoMap.lookup_insert', if_neg (by decide), GoMap.lookup_insert', if_pos rfl]
    · rw [GoMap.lookup_insert', if_pos rfl]

theorem exNew (fm : FloatModel) : NewHyp (Ex.crs fm) 2 2 (Ex.ctAB fm 3 4) (Ex.ctB fm 3 9) (Ex.rlks fm) Ex.sec Ex.sec' (Ex.crsv fm 5) 1 1 2 where
  lvl0 := by show 2 < 3; norm_num
  lvl1 := by show 2 < 3; norm_num
  in0 := Ex.ctAB_at fm 2 4
  in1 := Ex.ctB_at fm 2 9
  keys := exKeys fm
  pool0 := (exPool fm _ (by rw [Ex.ctAB_ids])).1
  pool1 := (exPool fm _ (by rw [Ex.ctB_ids]; simp)).2

theorem exScale (fm : FloatModel) : fm.mul 200 200 = 40000 := by
  unfold FloatModel.mul
  have := fm.exact_nat 40000 (by norm_num)
  push_cast at this
  norm_num
  exact this

theorem exDrops (fm : FloatModel) : Drops fm (Ex.ctx fm).q 2 (fm.mul 200 200) 100 1 := by
  rw [exScale]; exact .inr ⟨by norm_num, C27.exCount fm⟩

/-- two ciphertexts of parties `"a"`, `"b"` and `"b"`, of scale 200 at level 2, default scale 100: the product is at level 1 -/
example (fm : FloatModel) (E : Eval (Ex.ctx fm)) (hE : E.ksw.Alloc 2) : ∃ out E' rlk', ckksMulRelinNew 100 (Ex.crs fm) (fun _ => Order.rev) E false
      ⟨Ex.ctAB fm 3 4, 200⟩ ⟨Ex.ctB fm 3 9, 200⟩ (Ex.rlks fm) = .ok (out, E', rlk') ∧ out.ct.AtLevel 1 := by
  obtain ⟨out, E', rlk', h1, h2, -⟩ := mulRelinNew_phase (c0 := ⟨Ex.ctAB fm 3 4, 200⟩) (c1 := ⟨Ex.ctB fm 3 9, 200⟩) (Ex.valid fm) 100
    (fun _ => Order.rev) E (by rw [min_self, Ex.beta_two]; exact hE) (same := false) (fun h => by cases h) (exNew fm) (fun id => Ex.sec_bdd id) 37442
    (by intro l hl; simp only [List.mem_cons, List.not_mem_nil, or_false, or_self] at hl; subst hl; exact Ex.blocks fm) (by norm_num)
    (by show fm.mul 200 200 ≠ 0; rw [exScale]; norm_num) (exDrops fm)
  exact ⟨out, E', rlk', h1, h2⟩

end C29

/-- squaring a ciphertext of party `"b"` -/
example (fm : FloatModel) (E E' : Eval (Ex.ctx fm)) (hE : E.ksw.Alloc 2) (hE' : E'.ksw.Alloc 2) : ∃ cp a E1 r1 b E2 r2,
    (Ex.ctB fm 3 9).copyNew Order.rev = .ok cp ∧
    ckksMulRelinNew 100 (Ex.crs fm) (fun _ => Order.id) E true ⟨Ex.ctB fm 3 9, 200⟩ ⟨Ex.ctB fm 3 9, 200⟩ (Ex.rlks fm) = .ok (a, E1, r1) ∧
    ckksMulRelinNew 100 (Ex.crs fm) (fun _ => Order.rev) E' false ⟨Ex.ctB fm 3 9, 200⟩ ⟨cp, 200⟩ (Ex.rlks fm) = .ok (b, E2, r2) ∧
    a.ct.Same b.ct ∧ a.scale = b.scale := by
  have hb : (Ex.ctB fm 3 9).ids ⊆ {"a", "b"} := by rw [Ex.ctB_ids]; simp
  refine C31.square_eq_mul_copy (c0 := ⟨Ex.ctB fm 3 9, 200⟩) (Ex.valid fm) 100 _ _ _ E E' (by rw [Ex.beta_two]; exact hE)
    (by rw [Ex.beta_two]; exact hE') ?_ (C29.exPool fm _ hb).1 (C29.exPool fm _ hb).2 (by norm_num)
    (by show fm.mul 200 200 ≠ 0; rw [C29.exScale]; norm_num) (C29.exDrops fm)
  refine ⟨by show 2 < 3; norm_num, by show 2 < 3; norm_num, Ex.ctB_at fm 2 9, Ex.ctB_at fm 2 9, fun id hid => ?_, _, Ex.crs_u fm, ?_⟩
  · have : id = "b" := by simpa [Ex.ctB_ids] using hid
    have hr := Ex.rlk_rel fm id
    rw [min_self, Ex.beta_two]
    exact ⟨_, Ex.rlks_lookup fm id (.inr this), hr.lenb, hr.lend, hr.lenv⟩
  · rw [min_self, Ex.beta_two]

end MKHE
