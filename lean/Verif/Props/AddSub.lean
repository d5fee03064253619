import Verif.Lemmas.Const
import Verif.Props.RotateAll

set_option autoImplicit false

/-!
# C22, C23 (and C24 for AddNew, SubNew): addition and subtraction
-/

namespace MKHE
open Finset Nega

variable {N : ℕ} [NeZero N] {C : Ctx N}

namespace C22

/-- the components of a BFV sum -/
theorem addNew_made (o : Sched String) {c0 c1 : Ct C} (h0 : c0.AtLevel (C.nQ - 1)) (h1 : c1.AtLevel (C.nQ - 1)) :
    ∃ out, bfvAddNew o c0 c1 = .ok out ∧
      out.Made (C.nQ - 1) (c0.ids ∪ c1.ids) (evalOut (fun i => (C.RQ i).add) c0.ids c1.ids c0.comp c1.comp) := by
  obtain ⟨i0, i1, u, a1, a2, a3, a4, a5, a6⟩ := idset_union (o 80) (o 81) (o 82) (o 83) c0 c1
  obtain ⟨j0, b1, b2⟩ := Ct.idset (o 110) c0
  obtain ⟨j1, b3, b4⟩ := Ct.idset (o 111) c1
  unfold bfvAddNew bfvNewBinary bfvEvaluateInPlace
  rw [a1, bind_ok, a2, bind_ok, a3, bind_ok, bind_ok, b1, bind_ok, b3, bind_ok]
  have hz : "0" ∉ c0.ids ∪ c1.ids := by
    rw [mem_union]; exact fun h => h.elim c0.zero_notMem_ids c1.zero_notMem_ids
  obtain ⟨out, e1, e2⟩ := evalCore_run (fun i => (C.RQ i).add) (level := C.nQ - 1)
    (cp := fun dst src => .ok (dst.copy src)) (fun dst src d1 d2 d3 d4 => by rw [Poly.copy_set d1 (d2.trans d4.symm) d3])
    (o 112) (o 113) b2 b4 h0.toCoeff h1.toCoeff (fun id h => (Ct.mem_ids.mp h).1) (fun id h => (Ct.mem_ids.mp h).1)
    (Ct.new_atLevel (o 84) u (C.nQ - 1)) (Ct.new_ids (o 84) a6 hz _)
  exact ⟨out, e1, Ct.Made.of_upd (Ct.new_is (o 84) a6 _) e2⟩

/-- the components of a BFV difference -/
theorem subNew_made (o : Sched String) {c0 c1 : Ct C} (h0 : c0.AtLevel (C.nQ - 1)) (h1 : c1.AtLevel (C.nQ - 1)) :
    ∃ out, bfvSubNew o c0 c1 = .ok out ∧
      out.Made (C.nQ - 1) (c0.ids ∪ c1.ids) (fun id i => if id ∈ c0.ids ∨ id = "0" then
        evalOut (fun i => (C.RQ i).sub) c0.ids c1.ids c0.comp c1.comp id i else
        (C.RQ i).neg (evalOut (fun i => (C.RQ i).sub) c0.ids c1.ids c0.comp c1.comp id i)) := by
  obtain ⟨i0, i1, u, a1, a2, a3, a4, a5, a6⟩ := idset_union (o 80) (o 81) (o 82) (o 83) c0 c1
  obtain ⟨j0, b1, b2⟩ := Ct.idset (o 110) c0
  obtain ⟨j1, b3, b4⟩ := Ct.idset (o 111) c1
  unfold bfvSubNew bfvNewBinary bfvEvaluateInPlace
  rw [a1, bind_ok, a2, bind_ok, a3, bind_ok, bind_ok, b1, bind_ok, b3, bind_ok]
  have hz : "0" ∉ c0.ids ∪ c1.ids := by
    rw [mem_union]; exact fun h => h.elim c0.zero_notMem_ids c1.zero_notMem_ids
  obtain ⟨out, e1, e2⟩ := evalCore_run (fun i => (C.RQ i).sub) (level := C.nQ - 1)
    (cp := fun dst src => .ok (dst.copy src)) (fun dst src d1 d2 d3 d4 => by rw [Poly.copy_set d1 (d2.trans d4.symm) d3])
    (o 112) (o 113) b2 b4 h0.toCoeff h1.toCoeff (fun id h => (Ct.mem_ids.mp h).1) (fun id h => (Ct.mem_ids.mp h).1)
    (Ct.new_atLevel (o 84) u (C.nQ - 1)) (Ct.new_ids (o 84) a6 hz _)
  have hm := Ct.Made.of_upd (Ct.new_is (o 84) a6 _) e2
  rw [e1, bind_ok]
  obtain ⟨out', f1, f2⟩ := negNew_run (o 114) (o 115) (o 116) (op0 := c0) hm.atLevel
  refine ⟨out', f1, hm.upd (f2.congr fun id hid i hi => ?_)⟩
  have hin : id = "0" ∨ id ∈ c0.ids ∪ c1.ids := by
    by_cases e : id = "0"
    · exact .inl e
    · right; rw [← hm.ids hz]; exact Ct.mem_ids.mpr ⟨hid, e⟩
  have := hm.comp hin hi
  split_ifs <;> simp only [this]

/-- **BFV AddNew**: for all operands at the top level, over any id sets, and all iteration orders, the result exists, has the union of
the id sets, and its phase under any secret keys is the sum of the phases modulo every prime. -/
theorem addNew_phase (o : Sched String) {c0 c1 : Ct C} (h0 : c0.AtLevel (C.nQ - 1)) (h1 : c1.AtLevel (C.nQ - 1)) :
    ∃ out, bfvAddNew o c0 c1 = .ok out ∧ out.AtLevel (C.nQ - 1) ∧ out.ids = c0.ids ∪ c1.ids ∧
      ∀ (s : String → Nega N ℤ) (i : ℕ), i ≤ C.nQ - 1 → out.phase s i = c0.phase s i + c1.phase s i := by
  obtain ⟨out, e1, e2⟩ := addNew_made o h0 h1
  have hz : "0" ∉ c0.ids ∪ c1.ids := by
    rw [mem_union]; exact fun h => h.elim c0.zero_notMem_ids c1.zero_notMem_ids
  refine ⟨out, e1, e2.atLevel, e2.ids hz, fun s i hi => ?_⟩
  rw [e2.phase hz s hi, phase_addOut _ _ c0.zero_notMem_ids c1.zero_notMem_ids]; rfl

/-- **BFV SubNew**: the phase is the difference of the phases. -/
theorem subNew_phase (o : Sched String) {c0 c1 : Ct C} (h0 : c0.AtLevel (C.nQ - 1)) (h1 : c1.AtLevel (C.nQ - 1)) :
    ∃ out, bfvSubNew o c0 c1 = .ok out ∧ out.AtLevel (C.nQ - 1) ∧ out.ids = c0.ids ∪ c1.ids ∧
      ∀ (s : String → Nega N ℤ) (i : ℕ), i ≤ C.nQ - 1 → out.phase s i = c0.phase s i - c1.phase s i := by
  obtain ⟨out, e1, e2⟩ := subNew_made o h0 h1
  have hz : "0" ∉ c0.ids ∪ c1.ids := by
    rw [mem_union]; exact fun h => h.elim c0.zero_notMem_ids c1.zero_notMem_ids
  refine ⟨out, e1, e2.atLevel, e2.ids hz, fun s i hi => ?_⟩
  rw [e2.phase hz s hi, phase_subOut _ _ c0.zero_notMem_ids c1.zero_notMem_ids s c0.comp c1.comp i _ fun id _ => rfl]; rfl

/-- the hypotheses are met by two ciphertexts over different parties -/
example (fm : FloatModel) : (Ex.ctAB fm 3 5).AtLevel ((Ex.ctx fm).nQ - 1) ∧ (Ex.ctB fm 3 9).AtLevel ((Ex.ctx fm).nQ - 1) ∧
    (Ex.ctAB fm 3 5).ids = {"a", "b"} ∧ (Ex.ctB fm 3 9).ids = {"b"} :=
  ⟨Ex.ctAB_at fm 2 5, Ex.ctB_at fm 2 9, Ex.ctAB_ids fm 3 5, Ex.ctB_ids fm 3 9⟩

end C22

namespace C23

/-- the integer by which an operand of scale `s` is multiplied when the other operand has scale `s'` -/
def factor (fm : FloatModel) (s s' : ℚ) : ℕ := if s < s' ∧ 1 < ⌊fm.div s' s⌋ then ⌊fm.div s' s⌋.toNat else 1

/-- `PadCiphertext` on the pool -/
theorem pad_ok (o1 o2 : Order String) {ct : Ct C} {level : ℕ} (h : ct.AtLevel level) {ids : IDSet} {s : Finset String}
    (hs : ∀ id, ids.has id = true ↔ id ∈ s) : ∃ ct', ct.pad o1 o2 ids = .ok ct' ∧ ct'.AtLevel level ∧ (∀ id ∈ s, id ∈ ct') := by
  obtain ⟨p, hp⟩ := Ct.get h.has0
  obtain ⟨old, a1, a2⟩ := Ct.idset o1 ct
  unfold Ct.pad
  rw [GoMap.deref_ok hp, bind_ok, a1, bind_ok]
  have hlen := h.len _ _ hp
  have hntt := h.coeff _ _ hp
  have := foldl_inv (fun (ct : Ct C) id =>
      if old.has id then ct else ct.insert id { Poly.new (p.len - 1) with isNTT := p.isNTT })
    (fun pre ct' => ct'.AtLevel level ∧ (∀ id ∈ ct, id ∈ ct') ∧ ∀ id ∈ pre, id ∈ ct') (GoMap.range o2 ids.value) ct
    ⟨h, fun _ h => h, by simp⟩ (by
      rintro pre id suf ct' _ ⟨i1, i2, i3⟩
      by_cases hh : old.has id = true
      · simp only [hh, if_true]
        refine ⟨i1, i2, fun id' hid' => ?_⟩
        rcases List.mem_append.mp hid' with h' | h'
        · exact i3 id' h'
        · have : id' = id := by simpa using h'
          subst this; exact i2 _ (Ct.mem_ids.mp ((a2 _).mp hh)).1
      · simp only [hh, Bool.false_eq_true, if_false]
        refine ⟨⟨?_, fun id' q hq => ?_, fun id' q hq => ?_⟩, fun id' h' => ?_, fun id' h' => ?_⟩
        · rw [AList.mem_insert]; exact .inr i1.has0
        · rw [GoMap.lookup_insert'] at hq
          split_ifs at hq
          · injection hq with hq; subst hq; show p.len - 1 + 1 = level + 1; omega
          · exact i1.len _ _ hq
        · rw [GoMap.lookup_insert'] at hq
          split_ifs at hq
          · injection hq with hq; subst hq; exact hntt
          · exact i1.coeff _ _ hq
        · rw [AList.mem_insert]; exact .inr (i2 _ h')
        · rw [AList.mem_insert]
          rcases List.mem_append.mp h' with h' | h'
          · exact .inr (i3 _ h')
          · exact .inl (by simpa using h'))
  refine ⟨_, rfl, this.1, fun id hid => this.2.2 id (GoMap.mem_range.mpr ((IDSet.mem_value_iff _ _).mpr ((hs id).mpr hid)))⟩

/-- an integer constant below `2^52` needs no scaling -/
theorem getConst_int (fm : FloatModel) (ql : ℕ) (z : ℤ) (hz : |z| < 2 ^ 52) : getConstAndScale fm ql (.flt z) = ((z : ℚ), 0, 1) := by
  have h := abs_lt.mp hz
  have : needsScale (z : ℚ) = false := by
    unfold needsScale
    have h1 : (-(2 ^ 63) : ℚ) ≤ z := by exact_mod_cast (by omega : (-(2 ^ 63) : ℤ) ≤ z)
    have h2 : (z : ℚ) < 2 ^ 63 := by exact_mod_cast (by omega : z < 2 ^ 63)
    simp [h1, h2]
  unfold getConstAndScale
  simp [this]

/-- multiplication of an operand into the pool -/
theorem scaled (h16 : N % 16 = 0) (mredPsi : ℕ → ℕ → ℕ) (o : Order String) {c : CCt C} {pool : Ct C} {l : ℕ} (hl : l < C.nQ)
    (h : c.ct.AtLevel l) (hp : pool.AtLevel (C.nQ - 1)) (hids : ∀ id ∈ c.ct.ids, id ∈ pool) (k : ℤ) (hk0 : 1 < k) (hk : k < 2 ^ 52)
    (sc : ℚ) : ∃ t, multByConst mredPsi o false c (.flt k) ⟨pool, sc⟩ = .ok t ∧ t.ct.AtLevel (C.nQ - 1) ∧ (∀ id ∈ c.ct, id ∈ t.ct) ∧
      ∀ id ∈ c.ct, ∀ i ≤ l, t.ct.comp id i = constOut mredPsi ((k : ℚ), 0, 1) c.ct.comp id i := by
  have hsub : ∀ id ∈ c.ct, id ∈ pool := fun id hid => by
    by_cases e : id = "0"
    · subst e; exact hp.has0
    · exact hids id (Ct.mem_ids.mpr ⟨hid, e⟩)
  obtain ⟨ct, R, e1, e2, e3, e4⟩ := multByConst_run h16 mredPsi o false (ct0 := c) (out := ⟨pool, sc⟩) (by simp) (.flt k) h hp hsub
  have hmin : min l (C.nQ - 1) = l := by omega
  have habs : |k| < 2 ^ 52 := by rw [abs_of_pos (by omega)]; exact hk
  rw [hmin, getConst_int _ _ _ habs] at e1 e3
  rw [hmin] at e2
  have hmem : ∀ id, id ∈ ct ↔ id ∈ pool := fun id => e2.mem id
  have hlk : ∀ id q, ct.lookup id = some q → ∃ p, pool.lookup id = some p ∧ q = p.set l (R id) := by
    intro id q hq
    obtain ⟨p, hpp⟩ := Ct.get ((hmem id).mp (Ct.mem_of_lookup hq))
    refine ⟨p, hpp, ?_⟩
    have := e2.get hpp
    rw [hq] at this; injection this
  refine ⟨_, e1, ⟨(hmem _).mpr hp.has0, fun id q hq => ?_, fun id q hq => ?_⟩, fun id hid => (hmem _).mpr (hsub _ hid), fun id hid i hi => ?_⟩
  · obtain ⟨p, p1, p2⟩ := hlk id q hq; subst p2; exact hp.len id p p1
  · obtain ⟨p, p1, p2⟩ := hlk id q hq; subst p2; exact hp.coeff id p p1
  · obtain ⟨p, hpp⟩ := Ct.get (hsub id hid)
    have hg := e2.get hpp
    show ct.comp id i = _
    rw [Ct.comp_eq hg, Poly.coeffs_eq (show (p.set l (R id)).isNTT = false from hp.coeff id p hpp)]
    show setQ l (R id) p.rows i = _
    rw [setQ_le _ _ hi, e3 id hid]

/-- the components of an operand after alignment -/
noncomputable def aligned (mredPsi : ℕ → ℕ → ℕ) (c : CCt C) (s' : ℚ) : String → QRows C :=
  if c.scale < s' ∧ 1 < ⌊C.fm.div s' c.scale⌋ then constOut mredPsi (((⌊C.fm.div s' c.scale⌋ : ℤ) : ℚ), 0, 1) c.ct.comp else c.ct.comp

theorem aligned_cf (mredPsi : ℕ → ℕ → ℕ) (c : CCt C) (s' : ℚ) (hr : ⌊C.fm.div s' c.scale⌋ < 2 ^ 52) (id : String) (i : ℕ) :
    cf (aligned mredPsi c s' id i) = (factor C.fm c.scale s' : Nega N (ZMod (C.q i))) * cf (c.ct.comp id i) := by
  unfold aligned factor
  by_cases h : c.scale < s' ∧ 1 < ⌊C.fm.div s' c.scale⌋
  · rw [if_pos h, if_pos h, constOut_real]
    have hne : ((⌊C.fm.div s' c.scale⌋ : ℤ) : ℚ) ≠ 0 := by exact_mod_cast (by omega : ⌊C.fm.div s' c.scale⌋ ≠ 0)
    rw [if_pos hne, scaleInt_int _ _ (by rw [abs_of_pos (by omega)]; exact hr)]
    congr 1
    conv_lhs => rw [← Int.toNat_of_nonneg (show 0 ≤ ⌊C.fm.div s' c.scale⌋ by omega)]
    rw [Int.cast_natCast]
  · rw [if_neg h, if_neg h]; simp

theorem alignScales_ok (h16 : N % 16 = 0) (mredPsi : ℕ → ℕ → ℕ) (o : Order String) {c0 c1 : CCt C} {pool : Ct C} {l0 l1 : ℕ}
    (hl0 : l0 < C.nQ) (hl1 : l1 < C.nQ) (h0 : c0.ct.AtLevel l0) (h1 : c1.ct.AtLevel l1) (hp : pool.AtLevel (C.nQ - 1))
    (hids : ∀ id ∈ c0.ct.ids ∪ c1.ct.ids, id ∈ pool) (hr0 : ⌊C.fm.div c1.scale c0.scale⌋ < 2 ^ 52)
    (hr1 : ⌊C.fm.div c0.scale c1.scale⌋ < 2 ^ 52) (sc : ℚ) :
    ∃ t, alignScales mredPsi o c0 c1 pool sc = .ok t ∧ t.2.2.AtLevel (C.nQ - 1) ∧ t.1.Coeff (min l0 l1) ∧ t.2.1.Coeff (min l0 l1) ∧
      (∀ id ∈ c0.ct.ids, id ∈ t.1) ∧ (∀ id ∈ c1.ct.ids, id ∈ t.2.1) ∧
      (∀ id ∈ c0.ct, ∀ i ≤ min l0 l1, t.1.comp id i = aligned mredPsi c0 c1.scale id i) ∧
      ∀ id ∈ c1.ct, ∀ i ≤ min l0 l1, t.2.1.comp id i = aligned mredPsi c1 c0.scale id i := by
  unfold alignScales
  by_cases g0 : c0.scale < c1.scale ∧ 1 < ⌊C.fm.div c1.scale c0.scale⌋
  · rw [if_pos g0]
    have g1 : ¬ (c1.scale < c0.scale ∧ 1 < ⌊C.fm.div c0.scale c1.scale⌋) := fun h => absurd h.1 (by linarith [g0.1])
    obtain ⟨t, t1, t2, t3, t4⟩ := scaled h16 mredPsi o hl0 h0 hp (fun id h => hids id (mem_union_left _ h)) _ g0.2 hr0 sc
    rw [t1, bind_ok]
    refine ⟨_, rfl, t2, t2.toCoeff.mono (by omega), h1.toCoeff.mono (by omega), fun id h => t3 id (Ct.mem_ids.mp h).1,
      fun id h => (Ct.mem_ids.mp h).1, fun id hid i hi => ?_, fun id hid i hi => ?_⟩
    · unfold aligned; rw [if_pos g0]; exact t4 id hid i (by omega)
    · unfold aligned; rw [if_neg g1]
  · rw [if_neg g0]
    by_cases g1 : c1.scale < c0.scale ∧ 1 < ⌊C.fm.div c0.scale c1.scale⌋
    · rw [if_pos g1]
      obtain ⟨t, t1, t2, t3, t4⟩ := scaled h16 mredPsi o hl1 h1 hp (fun id h => hids id (mem_union_right _ h)) _ g1.2 hr1 sc
      rw [t1, bind_ok]
      refine ⟨_, rfl, t2, h0.toCoeff.mono (by omega), t2.toCoeff.mono (by omega), fun id h => (Ct.mem_ids.mp h).1,
        fun id h => t3 id (Ct.mem_ids.mp h).1, fun id hid i hi => ?_, fun id hid i hi => ?_⟩
      · unfold aligned; rw [if_neg g0]
      · unfold aligned; rw [if_pos g1]; exact t4 id hid i (by omega)
    · rw [if_neg g1]
      refine ⟨_, rfl, hp, h0.toCoeff.mono (by omega), h1.toCoeff.mono (by omega), fun id h => (Ct.mem_ids.mp h).1,
        fun id h => (Ct.mem_ids.mp h).1, fun id hid i hi => ?_, fun id hid i hi => ?_⟩
      · unfold aligned; rw [if_neg g0]
      · unfold aligned; rw [if_neg g1]

/-- what `AddNew` and `SubNew` need: operands at levels of the chain, a pool as `NewEvaluator` allocates it (and as every earlier
addition leaves it), a ratio of scales below `2^52` -/
structure Shape (E : Eval C) (c0 c1 : CCt C) (l0 l1 : ℕ) : Prop where
  lt0 : l0 < C.nQ
  lt1 : l1 < C.nQ
  h0 : c0.ct.AtLevel l0
  h1 : c1.ct.AtLevel l1
  pool : E.pool.AtLevel (C.nQ - 1)
  r0 : ⌊C.fm.div c1.scale c0.scale⌋ < 2 ^ 52
  r1 : ⌊C.fm.div c0.scale c1.scale⌋ < 2 ^ 52

theorem evaluate_made (h16 : N % 16 = 0) (f : (i : ℕ) → Limb N (C.q i) → Limb N (C.q i) → Limb N (C.q i)) (mredPsi : ℕ → ℕ → ℕ)
    (o : Sched String) {E : Eval C} {c0 c1 : CCt C} {l0 l1 : ℕ} (H : Shape E c0 c1 l0 l1) : ∃ out E',
      (newCiphertextBinary o c0 c1 >>= fun out => ckksEvaluateInPlace f mredPsi o E c0 c1 out) = .ok (out, E') ∧
      E'.pool.AtLevel (C.nQ - 1) ∧ out.scale = max c0.scale c1.scale ∧
      out.ct.Made (min l0 l1) (c0.ct.ids ∪ c1.ct.ids)
        (evalOut f c0.ct.ids c1.ct.ids (aligned mredPsi c0 c1.scale) (aligned mredPsi c1 c0.scale)) := by
  obtain ⟨i0, i1, u, a1, a2, a3, a4, a5, a6⟩ := idset_union (o 80) (o 81) (o 82) (o 83) c0.ct c1.ct
  obtain ⟨j0, j1, v, b1, b2, b3, b4, b5, b6⟩ := idset_union (o 120) (o 121) (o 122) (o 123) c0.ct c1.ct
  have hz : "0" ∉ c0.ct.ids ∪ c1.ct.ids := by
    rw [mem_union]; exact fun h => h.elim c0.ct.zero_notMem_ids c1.ct.zero_notMem_ids
  obtain ⟨pool, p1, p2, p3⟩ := pad_ok (o 124) (o 125) H.pool b6
  have hnew := Ct.new_atLevel (C := C) (o 84) u (min l0 l1)
  obtain ⟨t, t1, t2, t3, t4, t5, t6, t7, t8⟩ := alignScales_ok h16 mredPsi (o 127) H.lt0 H.lt1 H.h0 H.h1 p2 p3 H.r0 H.r1 (max c0.scale c1.scale)
  obtain ⟨out, e1, e2⟩ := evalCore_run f (level := min l0 l1) (cp := copyLvl (min l0 l1)) (fun dst src d1 d2 d3 d4 => by
      unfold copyLvl
      rw [Poly.need_ok d3, bind_ok, Poly.need_ok (by omega), bind_ok]) (o 128) (o 129) b4 b5 t3 t4 t5 t6 hnew (Ct.new_ids (o 84) a6 hz _)
  refine ⟨⟨out, max c0.scale c1.scale⟩, { E with pool := t.2.2 }, ?_, t2, rfl, ?_⟩
  · unfold newCiphertextBinary ckksEvaluateInPlace
    rw [H.h0.level, bind_ok, H.h1.level, bind_ok, a1, bind_ok, a2, bind_ok, a3, bind_ok, bind_ok, b1, bind_ok, b2, bind_ok, b3, bind_ok,
      p1, bind_ok, bind_ok, bind_ok]
    dsimp only
    rw [hnew.level, bind_ok, if_neg (by omega), bind_ok, t1, bind_ok]
    rw [Nat.min_self, e1, bind_ok]
  · refine Ct.Made.of_upd (Ct.new_is (o 84) a6 _) (e2.congr fun id hid i hi => ?_)
    have m0 : ∀ id, id = "0" ∨ id ∈ c0.ct.ids → t.1.comp id i = aligned mredPsi c0 c1.scale id i := fun id h =>
      t7 id (h.elim (fun e => e ▸ H.h0.has0) fun h => (Ct.mem_ids.mp h).1) i hi
    have m1 : ∀ id, id = "0" ∨ id ∈ c1.ct.ids → t.2.1.comp id i = aligned mredPsi c1 c0.scale id i := fun id h =>
      t8 id (h.elim (fun e => e ▸ H.h1.has0) fun h => (Ct.mem_ids.mp h).1) i hi
    have hin : id = "0" ∨ id ∈ c0.ct.ids ∪ c1.ct.ids := by
      by_cases e : id = "0"
      · exact .inl e
      · right; rw [← Ct.new_ids (C := C) (o 84) a6 hz (min l0 l1)]; exact Ct.mem_ids.mpr ⟨hid, e⟩
    unfold evalOut
    by_cases e : id = "0"
    · rw [if_pos e, if_pos e, m0 id (.inl e), m1 id (.inl e)]
    · rw [if_neg e, if_neg e]
      by_cases g0 : id ∈ c0.ct.ids
      · rw [if_neg (not_not.mpr g0), if_neg (not_not.mpr g0)]
        by_cases g1 : id ∈ c1.ct.ids
        · rw [if_neg (not_not.mpr g1), if_neg (not_not.mpr g1), m0 id (.inr g0), m1 id (.inr g1)]
        · rw [if_pos g1, if_pos g1, m0 id (.inr g0)]
      · rw [if_pos g0, if_pos g0]
        exact m1 id (.inr ((mem_union.mp (hin.resolve_left e)).resolve_left g0))

/-- the components of a CKKS difference -/
theorem subNew_made (h16 : N % 16 = 0) (mredPsi : ℕ → ℕ → ℕ) (o : Sched String) {E : Eval C} {c0 c1 : CCt C} {l0 l1 : ℕ}
    (H : Shape E c0 c1 l0 l1) : ∃ out E', ckksSubNew mredPsi o E c0 c1 = .ok (out, E') ∧ E'.pool.AtLevel (C.nQ - 1) ∧
      out.scale = max c0.scale c1.scale ∧ out.ct.Made (min l0 l1) (c0.ct.ids ∪ c1.ct.ids) (fun id i => if id ∈ c0.ct.ids ∨ id = "0" then
        evalOut (fun i => (C.RQ i).sub) c0.ct.ids c1.ct.ids (aligned mredPsi c0 c1.scale) (aligned mredPsi c1 c0.scale) id i else
        (C.RQ i).neg (evalOut (fun i => (C.RQ i).sub) c0.ct.ids c1.ct.ids (aligned mredPsi c0 c1.scale) (aligned mredPsi c1 c0.scale) id i)) := by
  obtain ⟨out, E', e1, e2, e3, e4⟩ := evaluate_made h16 (fun i => (C.RQ i).sub) mredPsi o H
  have hz : "0" ∉ c0.ct.ids ∪ c1.ct.ids := by
    rw [mem_union]; exact fun h => h.elim c0.ct.zero_notMem_ids c1.ct.zero_notMem_ids
  unfold ckksSubNew
  rw [← bind_assoc, e1, bind_ok, H.h0.level, bind_ok, H.h1.level, bind_ok]
  dsimp only
  rw [e4.atLevel.level, bind_ok, Nat.min_self]
  obtain ⟨ct, f1, f2⟩ := negNew_run (o 130) (o 131) (o 132) (op0 := c0.ct) e4.atLevel
  rw [f1, bind_ok]
  refine ⟨_, _, rfl, e2, e3, e4.upd (f2.congr fun id hid i hi => ?_)⟩
  have hin : id = "0" ∨ id ∈ c0.ct.ids ∪ c1.ct.ids := by
    by_cases e : id = "0"
    · exact .inl e
    · right; rw [← e4.ids hz]; exact Ct.mem_ids.mpr ⟨hid, e⟩
  have := e4.comp hin hi
  split_ifs <;> simp only [this]

/-- **CKKS AddNew**: for all operands, levels, scales of ratio below `2^52`, id sets, pool contents and iteration orders, the result has
the smaller level, the larger scale, the union of the id sets, and its phase under any secret keys is `k0 * phase0 + k1 * phase1`
modulo every prime, where the operand of smaller scale is multiplied by the floor of the ratio of the scales and the other one by one.
The pool is again as it was allocated. -/
theorem addNew_phase (h16 : N % 16 = 0) (mredPsi : ℕ → ℕ → ℕ) (o : Sched String) {E : Eval C} {c0 c1 : CCt C} {l0 l1 : ℕ}
    (H : Shape E c0 c1 l0 l1) : ∃ out E', ckksAddNew mredPsi o E c0 c1 = .ok (out, E') ∧ E'.pool.AtLevel (C.nQ - 1) ∧
      out.ct.AtLevel (min l0 l1) ∧ out.scale = max c0.scale c1.scale ∧ out.ct.ids = c0.ct.ids ∪ c1.ct.ids ∧
      ∀ (s : String → Nega N ℤ) (i : ℕ), i ≤ min l0 l1 →
        out.ct.phase s i = (factor C.fm c0.scale c1.scale : Nega N (ZMod (C.q i))) * c0.ct.phase s i +
          (factor C.fm c1.scale c0.scale : Nega N (ZMod (C.q i))) * c1.ct.phase s i := by
  obtain ⟨out, E', e1, e2, e3, e4⟩ := evaluate_made h16 (fun i => (C.RQ i).add) mredPsi o H
  have hz : "0" ∉ c0.ct.ids ∪ c1.ct.ids := by
    rw [mem_union]; exact fun h => h.elim c0.ct.zero_notMem_ids c1.ct.zero_notMem_ids
  refine ⟨out, E', e1, e2, e4.atLevel, e3, e4.ids hz, fun s i hi => ?_⟩
  rw [e4.phase hz s hi, phase_addOut _ _ c0.ct.zero_notMem_ids c1.ct.zero_notMem_ids,
    phaseRows_mul _ s _ fun id _ => aligned_cf mredPsi c0 _ H.r0 id i, phaseRows_mul _ s _ fun id _ => aligned_cf mredPsi c1 _ H.r1 id i]
  rfl

/-- **CKKS SubNew**. -/
theorem subNew_phase (h16 : N % 16 = 0) (mredPsi : ℕ → ℕ → ℕ) (o : Sched String) {E : Eval C} {c0 c1 : CCt C} {l0 l1 : ℕ}
    (H : Shape E c0 c1 l0 l1) : ∃ out E', ckksSubNew mredPsi o E c0 c1 = .ok (out, E') ∧ E'.pool.AtLevel (C.nQ - 1) ∧
      out.ct.AtLevel (min l0 l1) ∧ out.scale = max c0.scale c1.scale ∧ out.ct.ids = c0.ct.ids ∪ c1.ct.ids ∧
      ∀ (s : String → Nega N ℤ) (i : ℕ), i ≤ min l0 l1 →
        out.ct.phase s i = (factor C.fm c0.scale c1.scale : Nega N (ZMod (C.q i))) * c0.ct.phase s i -
          (factor C.fm c1.scale c0.scale : Nega N (ZMod (C.q i))) * c1.ct.phase s i := by
  obtain ⟨out, E', e1, e2, e3, e4⟩ := subNew_made h16 mredPsi o H
  have hz : "0" ∉ c0.ct.ids ∪ c1.ct.ids := by
    rw [mem_union]; exact fun h => h.elim c0.ct.zero_notMem_ids c1.ct.zero_notMem_ids
  refine ⟨out, E', e1, e2, e4.atLevel, e3, e4.ids hz, fun s i hi => ?_⟩
  rw [e4.phase hz s hi, phase_subOut _ _ c0.ct.zero_notMem_ids c1.ct.zero_notMem_ids s _ _ i _ fun id _ => rfl,
    phaseRows_mul _ s _ fun id _ => aligned_cf mredPsi c0 _ H.r0 id i, phaseRows_mul _ s _ fun id _ => aligned_cf mredPsi c1 _ H.r1 id i]
  rfl

/-- the operand of larger scale is multiplied by one -/
theorem factor_of_ge (fm : FloatModel) {s s' : ℚ} (h : s' ≤ s) : factor fm s s' = 1 := by
  unfold factor; rw [if_neg (fun h' => absurd h'.1 (not_lt.mpr h))]

/-- **alignment error**: the multiplied scale is at most the larger scale and falls short of it by less than the smaller scale, up to the
rounding of the quotient (`2^-53` relative) -/
theorem factor_close (fm : FloatModel) {s s' : ℚ} (h0 : 0 < s) (h : s ≤ s') :
    (factor fm s s' : ℚ) * s ≤ s' * (1 + unitRoundoff) ∧ s' * (1 - unitRoundoff) < ((factor fm s s' : ℚ) + 1) * s := by
  have hq0 : 0 ≤ s' / s := div_nonneg (by linarith) h0.le
  have hx : s' / s * s = s' := by field_simp
  have a1 := fm.rnd_le hq0
  have a2 := fm.le_rnd hq0
  have hf1 := Int.floor_le (fm.div s' s)
  have hf2 := Int.lt_floor_add_one (fm.div s' s)
  have hge : 1 ≤ ⌊fm.div s' s⌋ := by
    rw [Int.le_floor]
    have := fm.mono ((1 : ℕ) : ℚ) (s' / s) (by rw [le_div_iff₀ h0]; push_cast; linarith)
    rw [fm.exact_nat 1 (by norm_num)] at this
    exact_mod_cast this
  have hval : (factor fm s s' : ℚ) = (⌊fm.div s' s⌋ : ℚ) := by
    unfold factor
    by_cases hc : s < s' ∧ 1 < ⌊fm.div s' s⌋
    · rw [if_pos hc]
      have := Int.toNat_of_nonneg (show 0 ≤ ⌊fm.div s' s⌋ by omega)
      exact_mod_cast congrArg (Int.cast : ℤ → ℚ) this
    · rw [if_neg hc]
      by_cases e : s < s'
      · have : ⌊fm.div s' s⌋ = 1 := by
          have hn : ¬ 1 < ⌊fm.div s' s⌋ := fun h' => hc ⟨e, h'⟩
          omega
        rw [this]; simp
      · have : s' = s := le_antisymm (not_lt.mp e) h
        have h1 : fm.div s' s = 1 := by
          unfold FloatModel.div
          rw [this, div_self h0.ne']
          have := fm.exact_nat 1 (by norm_num)
          simpa using this
        rw [h1]; simp
  unfold FloatModel.div at *
  rw [hval]
  constructor
  · calc ((⌊fm.rnd (s' / s)⌋ : ℤ) : ℚ) * s ≤ (s' / s * (1 + unitRoundoff)) * s := by
          apply mul_le_mul_of_nonneg_right _ h0.le; linarith
      _ = s' / s * s * (1 + unitRoundoff) := by ring
      _ = _ := by rw [hx]
  · calc s' * (1 - unitRoundoff) = s' / s * s * (1 - unitRoundoff) := by rw [hx]
      _ = (s' / s * (1 - unitRoundoff)) * s := by ring
      _ < ((⌊fm.rnd (s' / s)⌋ : ℚ) + 1) * s := by apply mul_lt_mul_of_pos_right _ h0; linarith

/-- integer ratios are aligned exactly -/
theorem factor_integer (fm : FloatModel) {s : ℚ} (h0 : 0 < s) {k : ℕ} (hk : 1 ≤ k) (hk' : k ≤ 2 ^ 53) : factor fm s (k * s) = k := by
  unfold factor FloatModel.div
  rw [mul_div_assoc, div_self h0.ne', mul_one, fm.exact_nat k hk']
  by_cases h : 1 < k
  · rw [if_pos ⟨by nlinarith [show (1 : ℚ) < k by exact_mod_cast h], by simpa using h⟩]; simp
  · have : k = 1 := by omega
    subst this; simp

/-- **limit of the alignment**: scales in ratio `3/2` are added without any alignment, although the smaller one is off by a third -/
theorem factor_three_halves (fm : FloatModel) : factor fm 2 3 = 1 := by
  unfold factor FloatModel.div
  have h : fm.rnd (3 / 2) < 2 := by
    have := fm.rnd_le (x := 3 / 2) (by norm_num)
    unfold unitRoundoff at this; linarith
  rw [if_neg]
  rintro ⟨_, h'⟩
  have := Int.floor_le (fm.rnd (3 / 2))
  have h2 : (2 : ℚ) ≤ (⌊fm.rnd (3 / 2)⌋ : ℚ) := by exact_mod_cast h'
  linarith

/-- an evaluator with a stale pool -/
noncomputable def exEval (fm : FloatModel) : Eval (Ex.ctx fm) := ⟨Ex.scratch fm, Ex.ctAB fm 3 21, fun _ => Ex.row _ 8⟩

/-- the hypotheses are met by operands at different levels, over different parties, with scales `2` and `10` -/
theorem exShape (fm : FloatModel) : Shape (exEval fm) ⟨Ex.ctAB fm 3 5, 2⟩ ⟨Ex.ctB fm 2 9, 10⟩ 2 1 where
  lt0 := by show 2 < 3; norm_num
  lt1 := by show 1 < 3; norm_num
  h0 := Ex.ctAB_at fm 2 5
  h1 := Ex.ctB_at fm 1 9
  pool := Ex.ctAB_at fm 2 21
  r0 := by
    have : fm.div 10 2 = 5 := by
      unfold FloatModel.div
      have := fm.exact_nat 5 (by norm_num)
      norm_num at this ⊢; exact this
    show ⌊fm.div 10 2⌋ < 2 ^ 52
    rw [this]; norm_num
  r1 := by
    have : fm.div 2 10 < 1 := by
      unfold FloatModel.div
      have := fm.rnd_le (x := 2 / 10) (by norm_num)
      unfold unitRoundoff at this; linarith
    show ⌊fm.div 2 10⌋ < 2 ^ 52
    have h : ⌊fm.div 2 10⌋ < 1 := by rw [Int.floor_lt]; exact_mod_cast this
    omega

/-- there the phase is `5 * phase0 + phase1` -/
example (fm : FloatModel) : factor fm 2 10 = 5 ∧ factor fm 10 2 = 1 := by
  refine ⟨?_, factor_of_ge fm (by norm_num)⟩
  have := factor_integer fm (s := 2) (k := 5) (by norm_num) (by norm_num) (by norm_num)
  norm_num at this; exact this

end C23

namespace C24

/-- the result of `AddNew` depends neither on the evaluator's pools nor on the iteration orders -/
theorem addNew_deterministic (h16 : N % 16 = 0) (mredPsi : ℕ → ℕ → ℕ) (o o' : Sched String) {E E' : Eval C} {c0 c1 : CCt C} {l0 l1 : ℕ}
    (H : C23.Shape E c0 c1 l0 l1) (H' : C23.Shape E' c0 c1 l0 l1) :
    ∃ a E1 b E2, ckksAddNew mredPsi o E c0 c1 = .ok (a, E1) ∧ ckksAddNew mredPsi o' E' c0 c1 = .ok (b, E2) ∧ a.ct.Same b.ct ∧
      a.scale = b.scale := by
  obtain ⟨a, E1, a1, -, a3, a4⟩ := C23.evaluate_made h16 (fun i => (C.RQ i).add) mredPsi o H
  obtain ⟨b, E2, b1, -, b3, b4⟩ := C23.evaluate_made h16 (fun i => (C.RQ i).add) mredPsi o' H'
  exact ⟨a, E1, b, E2, a1, b1, a4.same b4 fun _ _ _ _ => rfl, a3.trans b3.symm⟩

/-- the same for `SubNew` -/
theorem subNew_deterministic (h16 : N % 16 = 0) (mredPsi : ℕ → ℕ → ℕ) (o o' : Sched String) {E E' : Eval C} {c0 c1 : CCt C} {l0 l1 : ℕ}
    (H : C23.Shape E c0 c1 l0 l1) (H' : C23.Shape E' c0 c1 l0 l1) :
    ∃ a E1 b E2, ckksSubNew mredPsi o E c0 c1 = .ok (a, E1) ∧ ckksSubNew mredPsi o' E' c0 c1 = .ok (b, E2) ∧ a.ct.Same b.ct ∧
      a.scale = b.scale := by
  obtain ⟨a, E1, a1, -, a3, a4⟩ := C23.subNew_made h16 mredPsi o H
  obtain ⟨b, E2, b1, -, b3, b4⟩ := C23.subNew_made h16 mredPsi o' H'
  exact ⟨a, E1, b, E2, a1, b1, a4.same b4 fun _ _ _ _ => rfl, a3.trans b3.symm⟩

/-- BFV addition and subtraction do not depend on the iteration orders -/
theorem bfv_deterministic (o o' : Sched String) {c0 c1 : Ct C} (h0 : c0.AtLevel (C.nQ - 1)) (h1 : c1.AtLevel (C.nQ - 1)) :
    (∃ a b, bfvAddNew o c0 c1 = .ok a ∧ bfvAddNew o' c0 c1 = .ok b ∧ a.Same b) ∧
      ∃ a b, bfvSubNew o c0 c1 = .ok a ∧ bfvSubNew o' c0 c1 = .ok b ∧ a.Same b := by
  obtain ⟨a, a1, a2⟩ := C22.addNew_made o h0 h1
  obtain ⟨b, b1, b2⟩ := C22.addNew_made o' h0 h1
  obtain ⟨a', a1', a2'⟩ := C22.subNew_made o h0 h1
  obtain ⟨b', b1', b2'⟩ := C22.subNew_made o' h0 h1
  exact ⟨⟨a, b, a1, b1, a2.same b2 fun _ _ _ _ => rfl⟩, a', b', a1', b1', a2'.same b2' fun _ _ _ _ => rfl⟩

end C24
end MKHE
