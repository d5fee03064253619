import Verif.Props.AddSub

set_option autoImplicit false

/-!
# C72: ciphertext addition and subtraction obey the laws of a module

Component by component (a party that does not occur counts as the zero polynomial) `AddNew` adds and `SubNew` subtracts, for all id sets. Hence addition is
commutative and associative, `a - a` is zero, `(a - b) + b` is `a`, `a - b` is the opposite of `b - a`. If the words of the operands are reduced,
commutativity and associativity hold word for word. In CKKS the same holds with the factors of the scale alignment.
-/

namespace MKHE
open Finset Nega

variable {N : ℕ} [NeZero N] {C : Ctx N}

namespace C72

/-- same parties and the same polynomials modulo the primes up to the level -/
def Eqv (level : ℕ) (a b : Ct C) : Prop := a.ids = b.ids ∧ ∀ (id : String) (i : ℕ), i ≤ level → cf (a.comp id i) = cf (b.comp id i)

/-- all words are below their prime -/
def Reduced (level : ℕ) (a : Ct C) : Prop := ∀ (id : String) (i : ℕ), i ≤ level → (a.comp id i).Canon

/-- the rows are those of a newly allocated ciphertext -/
def Whole (level : ℕ) (a : Ct C) : Prop := ∃ R, a.Made level a.ids R

theorem comp_absent {a : Ct C} {id : String} (h : id ∉ a) (i : ℕ) : a.comp id i = Limb.zero := by
  unfold Ct.comp
  rw [AList.lookup_eq_none.mpr h]

theorem notMem {a : Ct C} {id : String} (h : id ∉ a.ids) (h0 : id ≠ "0") : id ∉ a := fun h' => h (Ct.mem_ids.mpr ⟨h', h0⟩)

/-- **word for word**: two results of operations with the same reduced polynomials are the same ciphertext -/
theorem Eqv.same {level : ℕ} {a b : Ct C} (h : Eqv level a b) (ra : Reduced level a) (rb : Reduced level b) (wa : Whole level a) (wb : Whole level b) :
    a.Same b := by
  obtain ⟨R, hR⟩ := wa
  obtain ⟨R', hR'⟩ := wb
  rw [← h.1] at hR'
  refine hR.same hR' fun id hid i hi => ?_
  rw [← hR.comp hid hi, ← hR'.comp hid hi]
  exact cf_inj (ra id i hi) (rb id i hi) (h.2 id i hi)

theorem zero_union (c0 c1 : Ct C) : "0" ∉ c0.ids ∪ c1.ids := by
  rw [mem_union]; exact fun h => h.elim c0.zero_notMem_ids c1.zero_notMem_ids

/-- rows of operands that are zero where a party is absent -/
def Supp (s : Finset String) (a : String → QRows C) (i : ℕ) : Prop := ∀ id, id ≠ "0" → id ∉ s → cf (a id i) = 0

theorem evalOut_add_cf {s0 s1 : Finset String} {a b : String → QRows C} {i : ℕ} (ha : Supp s0 a i) (hb : Supp s1 b i) (id : String) :
    cf (evalOut (fun i => (C.RQ i).add) s0 s1 a b id i) = cf (a id i) + cf (b id i) := by
  unfold evalOut
  by_cases e : id = "0"
  · rw [if_pos e, LimbOps.cf_add]
  · rw [if_neg e]
    by_cases g0 : id ∈ s0
    · rw [if_neg (not_not.mpr g0)]
      by_cases g1 : id ∈ s1
      · rw [if_neg (not_not.mpr g1), LimbOps.cf_add]
      · rw [if_pos g1, hb id e g1, add_zero]
    · rw [if_pos g0, ha id e g0, zero_add]

theorem evalOut_sub_cf {s0 s1 : Finset String} {a b : String → QRows C} {i : ℕ} (ha : Supp s0 a i) (hb : Supp s1 b i) (id : String) :
    cf (if id ∈ s0 ∨ id = "0" then evalOut (fun i => (C.RQ i).sub) s0 s1 a b id i else
      (C.RQ i).neg (evalOut (fun i => (C.RQ i).sub) s0 s1 a b id i)) = cf (a id i) - cf (b id i) := by
  unfold evalOut
  by_cases e : id = "0"
  · rw [if_pos (.inr e), if_pos e, LimbOps.cf_sub]
  · rw [if_neg e]
    by_cases g0 : id ∈ s0
    · rw [if_pos (.inl g0), if_neg (not_not.mpr g0)]
      by_cases g1 : id ∈ s1
      · rw [if_neg (not_not.mpr g1), LimbOps.cf_sub]
      · rw [if_pos g1, hb id e g1, sub_zero]
    · rw [if_neg (by rintro (h | h) <;> contradiction), if_pos g0, LimbOps.cf_neg, ha id e g0, zero_sub]

theorem evalOut_add_canon {s0 s1 : Finset String} {a b : String → QRows C} {i : ℕ} (ha : ∀ id, (a id i).Canon) (hb : ∀ id, (b id i).Canon)
    (id : String) : (evalOut (fun i => (C.RQ i).add) s0 s1 a b id i).Canon := by
  unfold evalOut
  split_ifs
  all_goals
    first
    | exact (C.RQ i).add_canon _ _ (.inl (ha id))
    | exact hb id
    | exact ha id

theorem supp_comp (a : Ct C) (i : ℕ) : Supp a.ids a.comp i := fun id h0 h => by rw [comp_absent (notMem h h0), cf_zero]

/-- the components of a result, also of the parties that do not occur in it -/
theorem made_cf {level : ℕ} {s : Finset String} {R : String → QRows C} {out : Ct C} (h : out.Made level s R) {i : ℕ} (hi : i ≤ level)
    (hR : Supp s R i) (id : String) : cf (out.comp id i) = cf (R id i) := by
  by_cases hid : id = "0" ∨ id ∈ s
  · rw [h.comp hid hi]
  · have hl := h id
    rw [if_neg hid] at hl
    rw [comp_absent (AList.lookup_eq_none.mp hl), cf_zero, hR id (fun e => hid (.inl e)) fun e => hid (.inr e)]

theorem made_canon {level : ℕ} {s : Finset String} {R : String → QRows C} {out : Ct C} (h : out.Made level s R) (hR : ∀ id, ∀ i ≤ level, (R id i).Canon) :
    Reduced level out := by
  intro id i hi
  by_cases hid : id = "0" ∨ id ∈ s
  · rw [h.comp hid hi]; exact hR id i hi
  · have hl := h id
    rw [if_neg hid] at hl
    rw [comp_absent (AList.lookup_eq_none.mp hl)]
    exact Limb.zero_canon (C.RQ i).pos

/-! ## BFV -/

/-- **BFV AddNew adds the components**, for all id sets and iteration orders; reduced words stay reduced -/
theorem bfv_add (o : Sched String) {a b : Ct C} (ha : a.AtLevel (C.nQ - 1)) (hb : b.AtLevel (C.nQ - 1)) :
    ∃ out, bfvAddNew o a b = .ok out ∧ out.AtLevel (C.nQ - 1) ∧ out.ids = a.ids ∪ b.ids ∧ Whole (C.nQ - 1) out ∧
      (∀ (id : String) (i : ℕ), i ≤ C.nQ - 1 → cf (out.comp id i) = cf (a.comp id i) + cf (b.comp id i)) ∧
      (Reduced (C.nQ - 1) a → Reduced (C.nQ - 1) b → Reduced (C.nQ - 1) out) := by
  obtain ⟨out, e1, e2⟩ := C22.addNew_made o ha hb
  have hids := e2.ids (zero_union a b)
  refine ⟨out, e1, e2.atLevel, hids, ⟨_, by rw [hids]; exact e2⟩, fun id i hi => ?_, fun ra rb => made_canon e2 fun id i hi =>
    evalOut_add_canon (fun id => ra id i hi) (fun id => rb id i hi) id⟩
  have key := evalOut_add_cf (supp_comp a i) (supp_comp b i)
  rw [made_cf e2 hi, key]
  intro id h0 h
  rw [key, supp_comp a i id h0 fun h' => h (mem_union_left _ h'), supp_comp b i id h0 fun h' => h (mem_union_right _ h'), add_zero]

/-- **BFV SubNew subtracts the components** -/
theorem bfv_sub (o : Sched String) {a b : Ct C} (ha : a.AtLevel (C.nQ - 1)) (hb : b.AtLevel (C.nQ - 1)) :
    ∃ out, bfvSubNew o a b = .ok out ∧ out.AtLevel (C.nQ - 1) ∧ out.ids = a.ids ∪ b.ids ∧
      ∀ (id : String) (i : ℕ), i ≤ C.nQ - 1 → cf (out.comp id i) = cf (a.comp id i) - cf (b.comp id i) := by
  obtain ⟨out, e1, e2⟩ := C22.subNew_made o ha hb
  have hids := e2.ids (zero_union a b)
  refine ⟨out, e1, e2.atLevel, hids, fun id i hi => ?_⟩
  have key := evalOut_sub_cf (supp_comp a i) (supp_comp b i)
  rw [made_cf e2 hi, key]
  intro id h0 h
  rw [key, supp_comp a i id h0 fun h' => h (mem_union_left _ h'), supp_comp b i id h0 fun h' => h (mem_union_right _ h'), sub_zero]

/-- **commutative**: `AddNew(a, b)` and `AddNew(b, a)` are the same polynomials, and the same words if the operands are reduced -/
theorem bfv_comm (o o' : Sched String) {a b : Ct C} (ha : a.AtLevel (C.nQ - 1)) (hb : b.AtLevel (C.nQ - 1)) :
    ∃ x y, bfvAddNew o a b = .ok x ∧ bfvAddNew o' b a = .ok y ∧ Eqv (C.nQ - 1) x y ∧
      (Reduced (C.nQ - 1) a → Reduced (C.nQ - 1) b → x.Same y) := by
  obtain ⟨x, e1, -, i1, w1, c1, r1⟩ := bfv_add o ha hb
  obtain ⟨y, e2, -, i2, w2, c2, r2⟩ := bfv_add o' hb ha
  have h : Eqv (C.nQ - 1) x y := ⟨by rw [i1, i2, union_comm], fun id i hi => by rw [c1 id i hi, c2 id i hi, add_comm]⟩
  exact ⟨x, y, e1, e2, h, fun ra rb => h.same (r1 ra rb) (r2 rb ra) w1 w2⟩

/-- **associative** -/
theorem bfv_assoc (o1 o2 o3 o4 : Sched String) {a b c : Ct C} (ha : a.AtLevel (C.nQ - 1)) (hb : b.AtLevel (C.nQ - 1)) (hc : c.AtLevel (C.nQ - 1)) :
    ∃ x y, (bfvAddNew o1 a b >>= fun ab => bfvAddNew o2 ab c) = .ok x ∧ (bfvAddNew o3 b c >>= fun bc => bfvAddNew o4 a bc) = .ok y ∧
      Eqv (C.nQ - 1) x y ∧ (Reduced (C.nQ - 1) a → Reduced (C.nQ - 1) b → Reduced (C.nQ - 1) c → x.Same y) := by
  obtain ⟨ab, e1, l1, i1, w1, c1, r1⟩ := bfv_add o1 ha hb
  obtain ⟨x, e2, l2, i2, w2, c2, r2⟩ := bfv_add o2 l1 hc
  obtain ⟨bc, e3, l3, i3, w3, c3, r3⟩ := bfv_add o3 hb hc
  obtain ⟨y, e4, l4, i4, w4, c4, r4⟩ := bfv_add o4 ha l3
  have h : Eqv (C.nQ - 1) x y := ⟨by rw [i2, i1, i4, i3, union_assoc], fun id i hi => by
    rw [c2 id i hi, c1 id i hi, c4 id i hi, c3 id i hi, add_assoc]⟩
  exact ⟨x, y, by rw [e1, bind_ok, e2], by rw [e3, bind_ok, e4], h, fun ra rb rc => h.same (r2 (r1 ra rb) rc) (r4 ra (r3 rb rc)) w2 w4⟩

/-- **`a - a` is zero** modulo every prime -/
theorem bfv_sub_self (o : Sched String) {a : Ct C} (ha : a.AtLevel (C.nQ - 1)) : ∃ x, bfvSubNew o a a = .ok x ∧ x.ids = a.ids ∧
    ∀ (id : String) (i : ℕ), i ≤ C.nQ - 1 → cf (x.comp id i) = 0 := by
  obtain ⟨x, e1, -, i1, c1⟩ := bfv_sub o ha ha
  exact ⟨x, e1, by rw [i1, union_self], fun id i hi => by rw [c1 id i hi, sub_self]⟩

/-- **`(a - b) + b` is `a`**, padded with zero components for the parties of `b` -/
theorem bfv_sub_add (o o' : Sched String) {a b : Ct C} (ha : a.AtLevel (C.nQ - 1)) (hb : b.AtLevel (C.nQ - 1)) :
    ∃ x, (bfvSubNew o a b >>= fun d => bfvAddNew o' d b) = .ok x ∧ x.ids = a.ids ∪ b.ids ∧
      ∀ (id : String) (i : ℕ), i ≤ C.nQ - 1 → cf (x.comp id i) = cf (a.comp id i) := by
  obtain ⟨d, e1, l1, i1, c1⟩ := bfv_sub o ha hb
  obtain ⟨x, e2, -, i2, -, c2, -⟩ := bfv_add o' l1 hb
  exact ⟨x, by rw [e1, bind_ok, e2], by rw [i2, i1, union_assoc, union_self], fun id i hi => by rw [c2 id i hi, c1 id i hi, sub_add_cancel]⟩

/-- **`(a + b) - b` is `a`**, padded -/
theorem bfv_add_sub (o o' : Sched String) {a b : Ct C} (ha : a.AtLevel (C.nQ - 1)) (hb : b.AtLevel (C.nQ - 1)) :
    ∃ x, (bfvAddNew o a b >>= fun d => bfvSubNew o' d b) = .ok x ∧ x.ids = a.ids ∪ b.ids ∧
      ∀ (id : String) (i : ℕ), i ≤ C.nQ - 1 → cf (x.comp id i) = cf (a.comp id i) := by
  obtain ⟨d, e1, l1, i1, -, c1, -⟩ := bfv_add o ha hb
  obtain ⟨x, e2, -, i2, c2⟩ := bfv_sub o' l1 hb
  exact ⟨x, by rw [e1, bind_ok, e2], by rw [i2, i1, union_assoc, union_self], fun id i hi => by rw [c2 id i hi, c1 id i hi, add_sub_cancel_right]⟩

/-- **`a - b` is the opposite of `b - a`** -/
theorem bfv_sub_anti (o o' : Sched String) {a b : Ct C} (ha : a.AtLevel (C.nQ - 1)) (hb : b.AtLevel (C.nQ - 1)) :
    ∃ x y, bfvSubNew o a b = .ok x ∧ bfvSubNew o' b a = .ok y ∧ x.ids = y.ids ∧
      ∀ (id : String) (i : ℕ), i ≤ C.nQ - 1 → cf (x.comp id i) = - cf (y.comp id i) := by
  obtain ⟨x, e1, -, i1, c1⟩ := bfv_sub o ha hb
  obtain ⟨y, e2, -, i2, c2⟩ := bfv_sub o' hb ha
  exact ⟨x, y, e1, e2, by rw [i1, i2, union_comm], fun id i hi => by rw [c1 id i hi, c2 id i hi, neg_sub]⟩

/-! ## CKKS -/

theorem aligned_canon {mredPsi : ℕ → ℕ → ℕ} {c : CCt C} {s' : ℚ} {i : ℕ} (h : ∀ id, (c.ct.comp id i).Canon) (id : String) :
    (C23.aligned mredPsi c s' id i).Canon := by
  unfold C23.aligned
  split_ifs
  · exact constRow_canon _ _ _
  · exact h id

theorem supp_aligned (mredPsi : ℕ → ℕ → ℕ) (c : CCt C) (s' : ℚ) (hr : ⌊C.fm.div s' c.scale⌋ < 2 ^ 52) (i : ℕ) :
    Supp c.ct.ids (C23.aligned mredPsi c s') i := fun id h0 h => by
  rw [C23.aligned_cf mredPsi c s' hr, comp_absent (notMem h h0), cf_zero, mul_zero]

/-- **CKKS AddNew**: the components are added after the multiplication by the factors of the scale alignment -/
theorem ckks_add (h16 : N % 16 = 0) (mredPsi : ℕ → ℕ → ℕ) (o : Sched String) {E : Eval C} {a b : CCt C} {la lb : ℕ} (H : C23.Shape E a b la lb) :
    ∃ out E', ckksAddNew mredPsi o E a b = .ok (out, E') ∧ E'.pool.AtLevel (C.nQ - 1) ∧ out.ct.AtLevel (min la lb) ∧
      out.scale = max a.scale b.scale ∧ out.ct.ids = a.ct.ids ∪ b.ct.ids ∧ Whole (min la lb) out.ct ∧
      (∀ (id : String) (i : ℕ), i ≤ min la lb → cf (out.ct.comp id i) =
        (C23.factor C.fm a.scale b.scale : Nega N (ZMod (C.q i))) * cf (a.ct.comp id i) +
        (C23.factor C.fm b.scale a.scale : Nega N (ZMod (C.q i))) * cf (b.ct.comp id i)) ∧
      (Reduced la a.ct → Reduced lb b.ct → Reduced (min la lb) out.ct) := by
  obtain ⟨out, E', e1, e2, e3, e4⟩ := C23.evaluate_made h16 (fun i => (C.RQ i).add) mredPsi o H
  have hids := e4.ids (zero_union a.ct b.ct)
  refine ⟨out, E', e1, e2, e4.atLevel, e3, hids, ⟨_, by rw [hids]; exact e4⟩, fun id i hi => ?_, fun ra rb => made_canon e4 fun id i hi =>
    evalOut_add_canon (aligned_canon fun id => ra id i (by omega)) (aligned_canon fun id => rb id i (by omega)) id⟩
  have s0 := supp_aligned mredPsi a b.scale H.r0 i
  have s1 := supp_aligned mredPsi b a.scale H.r1 i
  have key := evalOut_add_cf s0 s1
  rw [made_cf e4 hi, key, C23.aligned_cf mredPsi a _ H.r0, C23.aligned_cf mredPsi b _ H.r1]
  intro id h0 h
  rw [key, s0 id h0 fun h' => h (mem_union_left _ h'), s1 id h0 fun h' => h (mem_union_right _ h'), add_zero]

/-- **CKKS SubNew** -/
theorem ckks_sub (h16 : N % 16 = 0) (mredPsi : ℕ → ℕ → ℕ) (o : Sched String) {E : Eval C} {a b : CCt C} {la lb : ℕ} (H : C23.Shape E a b la lb) :
    ∃ out E', ckksSubNew mredPsi o E a b = .ok (out, E') ∧ E'.pool.AtLevel (C.nQ - 1) ∧ out.ct.AtLevel (min la lb) ∧
      out.scale = max a.scale b.scale ∧ out.ct.ids = a.ct.ids ∪ b.ct.ids ∧
      ∀ (id : String) (i : ℕ), i ≤ min la lb → cf (out.ct.comp id i) =
        (C23.factor C.fm a.scale b.scale : Nega N (ZMod (C.q i))) * cf (a.ct.comp id i) -
        (C23.factor C.fm b.scale a.scale : Nega N (ZMod (C.q i))) * cf (b.ct.comp id i) := by
  obtain ⟨out, E', e1, e2, e3, e4⟩ := C23.subNew_made h16 mredPsi o H
  have hids := e4.ids (zero_union a.ct b.ct)
  refine ⟨out, E', e1, e2, e4.atLevel, e3, hids, fun id i hi => ?_⟩
  have s0 := supp_aligned mredPsi a b.scale H.r0 i
  have s1 := supp_aligned mredPsi b a.scale H.r1 i
  have key := evalOut_sub_cf s0 s1
  rw [made_cf e4 hi, key, C23.aligned_cf mredPsi a _ H.r0, C23.aligned_cf mredPsi b _ H.r1]
  intro id h0 h
  rw [key, s0 id h0 fun h' => h (mem_union_left _ h'), s1 id h0 fun h' => h (mem_union_right _ h'), sub_zero]

/-- **commutative**, for all levels and scales, whatever the two evaluators hold in their pools -/
theorem ckks_comm (h16 : N % 16 = 0) (mredPsi : ℕ → ℕ → ℕ) (o o' : Sched String) {E F : Eval C} {a b : CCt C} {la lb : ℕ} (H : C23.Shape E a b la lb)
    (hF : F.pool.AtLevel (C.nQ - 1)) : ∃ x y E' F', ckksAddNew mredPsi o E a b = .ok (x, E') ∧ ckksAddNew mredPsi o' F b a = .ok (y, F') ∧
      x.scale = y.scale ∧ Eqv (min la lb) x.ct y.ct ∧ (Reduced la a.ct → Reduced lb b.ct → x.ct.Same y.ct) := by
  have H' : C23.Shape F b a lb la := ⟨H.lt1, H.lt0, H.h1, H.h0, hF, H.r1, H.r0⟩
  obtain ⟨x, E', e1, -, -, s1, i1, w1, c1, r1⟩ := ckks_add h16 mredPsi o H
  obtain ⟨y, F', e2, -, -, s2, i2, w2, c2, r2⟩ := ckks_add h16 mredPsi o' H'
  rw [min_comm lb la] at w2 c2 r2
  have h : Eqv (min la lb) x.ct y.ct := ⟨by rw [i1, i2, union_comm], fun id i hi => by rw [c1 id i hi, c2 id i hi, add_comm]⟩
  exact ⟨x, y, E', F', e1, e2, by rw [s1, s2, max_comm], h, fun ra rb => h.same (r1 ra rb) (r2 rb ra) w1 w2⟩

theorem factor_self (fm : FloatModel) (s : ℚ) : C23.factor fm s s = 1 := C23.factor_of_ge fm le_rfl

theorem floor_div_self (fm : FloatModel) {s : ℚ} (h : 0 < s) : ⌊fm.div s s⌋ < 2 ^ 52 := by
  have h1 : fm.div s s = 1 := by
    unfold FloatModel.div
    rw [div_self h.ne']
    simpa using fm.exact_nat 1 (by norm_num)
  rw [h1]; norm_num

/-- operands of one scale can be added -/
theorem shape_eq {E : Eval C} {a b : CCt C} {la lb : ℕ} (ha : la < C.nQ) (hb : lb < C.nQ) (h0 : a.ct.AtLevel la) (h1 : b.ct.AtLevel lb)
    (hp : E.pool.AtLevel (C.nQ - 1)) (hs : a.scale = b.scale) (hpos : 0 < b.scale) : C23.Shape E a b la lb :=
  ⟨ha, hb, h0, h1, hp, by rw [hs]; exact floor_div_self _ hpos, by rw [hs]; exact floor_div_self _ hpos⟩

/-- **associative** for operands of one scale, at any levels -/
theorem ckks_assoc (h16 : N % 16 = 0) (mredPsi : ℕ → ℕ → ℕ) (o1 o2 o3 o4 : Sched String) {E F : Eval C} {a b c : CCt C} {la lb lc : ℕ}
    (hla : la < C.nQ) (hlb : lb < C.nQ) (hlc : lc < C.nQ) (ha : a.ct.AtLevel la) (hb : b.ct.AtLevel lb) (hc : c.ct.AtLevel lc)
    (hE : E.pool.AtLevel (C.nQ - 1)) (hF : F.pool.AtLevel (C.nQ - 1)) (hab : a.scale = b.scale) (hbc : b.scale = c.scale) (hpos : 0 < c.scale) :
    ∃ x y E' F', (ckksAddNew mredPsi o1 E a b >>= fun r => ckksAddNew mredPsi o2 r.2 r.1 c) = .ok (x, E') ∧
      (ckksAddNew mredPsi o3 F b c >>= fun r => ckksAddNew mredPsi o4 r.2 a r.1) = .ok (y, F') ∧
      x.scale = y.scale ∧ Eqv (min (min la lb) lc) x.ct y.ct ∧ (Reduced la a.ct → Reduced lb b.ct → Reduced lc c.ct → x.ct.Same y.ct) := by
  have m1 : min la lb < C.nQ := by omega
  have m3 : min lb lc < C.nQ := by omega
  obtain ⟨ab, E1, e1, p1, l1, s1, i1, w1, c1, r1⟩ := ckks_add h16 mredPsi o1 (shape_eq hla hlb ha hb hE hab (hbc ▸ hpos))
  have s1' : ab.scale = c.scale := by rw [s1, hab, max_self, hbc]
  obtain ⟨x, E', e2, p2, l2, s2, i2, w2, c2, r2⟩ := ckks_add h16 mredPsi o2 (shape_eq m1 hlc l1 hc p1 s1' hpos)
  obtain ⟨bc, F1, e3, p3, l3, s3, i3, w3, c3, r3⟩ := ckks_add h16 mredPsi o3 (shape_eq hlb hlc hb hc hF hbc hpos)
  have s3' : bc.scale = c.scale := by rw [s3, hbc, max_self]
  have s3a : a.scale = bc.scale := by rw [s3', hab, hbc]
  obtain ⟨y, F', e4, p4, l4, s4, i4, w4, c4, r4⟩ := ckks_add h16 mredPsi o4 (shape_eq hla m3 ha l3 p3 s3a (s3' ▸ hpos))
  rw [← min_assoc] at w4 c4 r4
  have h : Eqv (min (min la lb) lc) x.ct y.ct := ⟨by rw [i2, i1, i4, i3, union_assoc], fun id i hi => by
    rw [c2 id i hi, c1 id i (by omega), c4 id i hi, c3 id i (by omega), hab, s1', s3', hbc, factor_self]; ring⟩
  exact ⟨x, y, E', F', by rw [e1, bind_ok, e2], by rw [e3, bind_ok, e4], by rw [s2, s4, s1', s3', hab, hbc], h,
    fun ra rb rc => h.same (r2 (r1 ra rb) rc) (r4 ra (r3 rb rc)) w2 w4⟩

/-- **`a - a` is zero** -/
theorem ckks_sub_self (h16 : N % 16 = 0) (mredPsi : ℕ → ℕ → ℕ) (o : Sched String) {E : Eval C} {a : CCt C} {l : ℕ} (hl : l < C.nQ)
    (ha : a.ct.AtLevel l) (hE : E.pool.AtLevel (C.nQ - 1)) (hpos : 0 < a.scale) :
    ∃ x E', ckksSubNew mredPsi o E a a = .ok (x, E') ∧ x.ct.ids = a.ct.ids ∧ x.scale = a.scale ∧
      ∀ (id : String) (i : ℕ), i ≤ l → cf (x.ct.comp id i) = 0 := by
  obtain ⟨x, E', e1, -, -, s1, i1, c1⟩ := ckks_sub h16 mredPsi o (shape_eq hl hl ha ha hE rfl hpos)
  exact ⟨x, E', e1, by rw [i1, union_self], by rw [s1, max_self], fun id i hi => by rw [c1 id i (by omega), sub_self]⟩

/-- **`(a - b) + b` is `a`**, padded, at the smaller level, for operands of one scale -/
theorem ckks_sub_add (h16 : N % 16 = 0) (mredPsi : ℕ → ℕ → ℕ) (o o' : Sched String) {E : Eval C} {a b : CCt C} {la lb : ℕ}
    (hla : la < C.nQ) (hlb : lb < C.nQ) (ha : a.ct.AtLevel la) (hb : b.ct.AtLevel lb) (hE : E.pool.AtLevel (C.nQ - 1)) (hab : a.scale = b.scale)
    (hpos : 0 < b.scale) :
    ∃ x E', (ckksSubNew mredPsi o E a b >>= fun r => ckksAddNew mredPsi o' r.2 r.1 b) = .ok (x, E') ∧ x.scale = a.scale ∧
      x.ct.ids = a.ct.ids ∪ b.ct.ids ∧ ∀ (id : String) (i : ℕ), i ≤ min la lb → cf (x.ct.comp id i) = cf (a.ct.comp id i) := by
  obtain ⟨d, E1, e1, p1, l1, s1, i1, c1⟩ := ckks_sub h16 mredPsi o (shape_eq hla hlb ha hb hE hab hpos)
  have s1' : d.scale = b.scale := by rw [s1, hab, max_self]
  obtain ⟨x, E', e2, -, -, s2, i2, -, c2, -⟩ := ckks_add h16 mredPsi o' (shape_eq (by omega) hlb l1 hb p1 s1' hpos)
  refine ⟨x, E', by rw [e1, bind_ok, e2], by rw [s2, s1', max_self, hab], by rw [i2, i1, union_assoc, union_self], fun id i hi => ?_⟩
  rw [c2 id i (by omega), c1 id i hi, s1', hab, factor_self]; ring

/-- **`a - b` is the opposite of `b - a`**, for all levels and scales -/
theorem ckks_sub_anti (h16 : N % 16 = 0) (mredPsi : ℕ → ℕ → ℕ) (o o' : Sched String) {E F : Eval C} {a b : CCt C} {la lb : ℕ}
    (H : C23.Shape E a b la lb) (hF : F.pool.AtLevel (C.nQ - 1)) :
    ∃ x y E' F', ckksSubNew mredPsi o E a b = .ok (x, E') ∧ ckksSubNew mredPsi o' F b a = .ok (y, F') ∧ x.scale = y.scale ∧ x.ct.ids = y.ct.ids ∧
      ∀ (id : String) (i : ℕ), i ≤ min la lb → cf (x.ct.comp id i) = - cf (y.ct.comp id i) := by
  have H' : C23.Shape F b a lb la := ⟨H.lt1, H.lt0, H.h1, H.h0, hF, H.r1, H.r0⟩
  obtain ⟨x, E', e1, -, -, s1, i1, c1⟩ := ckks_sub h16 mredPsi o H
  obtain ⟨y, F', e2, -, -, s2, i2, c2⟩ := ckks_sub h16 mredPsi o' H'
  exact ⟨x, y, E', F', e1, e2, by rw [s1, s2, max_comm], by rw [i1, i2, union_comm], fun id i hi => by
    rw [c1 id i hi, c2 id i (by omega), neg_sub]⟩

/-- the hypotheses are met by ciphertexts of different parties -/
example (fm : FloatModel) : ∃ x y, bfvAddNew (fun _ => Order.id) (Ex.ctAB fm 3 5) (Ex.ctB fm 3 9) = .ok x ∧
    bfvAddNew (fun _ => Order.id) (Ex.ctB fm 3 9) (Ex.ctAB fm 3 5) = .ok y ∧ Eqv 2 x y ∧ x.ids = {"a", "b"} := by
  obtain ⟨x, y, e1, e2, h, -⟩ := bfv_comm (fun _ => Order.id) (fun _ => Order.id) (Ex.ctAB_at fm 2 5) (Ex.ctB_at fm 2 9)
  obtain ⟨x', f1, -, i1, -⟩ := bfv_add (fun _ => Order.id) (Ex.ctAB_at fm 2 5) (Ex.ctB_at fm 2 9)
  have : x = x' := Except.ok.inj (e1.symm.trans f1)
  subst this
  refine ⟨x, y, e1, e2, h, ?_⟩
  rw [i1, Ex.ctAB_ids, Ex.ctB_ids]
  decide

end C72
end MKHE
