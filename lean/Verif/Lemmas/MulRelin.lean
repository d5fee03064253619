import Verif.Lemmas.ExtProd
import Verif.Lemmas.IDSet

set_option autoImplicit false

/-!
# What `MulAndRelin` and `MulAndRelinHoisted` write
-/

namespace MKHE
open Finset Nega

variable {N : ℕ} [NeZero N] {C : Ctx N}

/-! ## in-place updates of a ciphertext -/

/-- `out'` is `out` with the rows up to `level` of every component replaced by those of `R` -/
def Ct.Upd (level : ℕ) (out : Ct C) (R : String → QRows C) (out' : Ct C) : Prop :=
  ∀ id, out'.lookup id = (out.lookup id).map fun p => p.set level (R id)

theorem Poly.set_set (level : ℕ) (a b : QRows C) (p : Poly C) : (p.set level a).set level b = p.set level b := by
  unfold Poly.set setQ
  congr 1
  funext i; dsimp only; split <;> rfl

theorem Poly.set_congr {level : ℕ} {a b : QRows C} (h : ∀ i ≤ level, a i = b i) (p : Poly C) : p.set level a = p.set level b := by
  unfold Poly.set; rw [setQ_congr h]

theorem Ct.Upd.refl (level : ℕ) (out : Ct C) : ∃ R, Ct.Upd level out R out := by
  refine ⟨fun id => match out.lookup id with | some p => p.rows | none => fun _ => Limb.zero, fun id => ?_⟩
  cases h : out.lookup id with
  | none => rfl
  | some p =>
    simp only [Option.map_some]
    congr 1
    unfold Poly.set setQ
    cases p; congr 1; funext i; simp only [h, ite_self]

theorem Ct.Upd.congr {level : ℕ} {out out' : Ct C} {R R' : String → QRows C} (h : Ct.Upd level out R out')
    (hR : ∀ id ∈ out, ∀ i ≤ level, R id i = R' id i) : Ct.Upd level out R' out' := by
  intro id
  rw [h id]
  cases hl : out.lookup id with
  | none => rfl
  | some p =>
    simp only [Option.map_some]
    rw [Poly.set_congr (hR id (AList.lookup_isSome.mp (by rw [hl]; rfl)))]

theorem Ct.Upd.mem {level : ℕ} {out out' : Ct C} {R : String → QRows C} (h : Ct.Upd level out R out') (id : String) :
    id ∈ out' ↔ id ∈ out := by
  rw [← AList.lookup_isSome, ← AList.lookup_isSome, h id]; simp

/-- one in-place update of the component `id` -/
theorem Ct.Upd.upd {level : ℕ} {out out' : Ct C} {R : String → QRows C} (h : Ct.Upd level out R out') {id : String} {p : Poly C}
    (hp : out.lookup id = some p) (hlen : level < p.len) (F : ∀ i, Limb N (C.q i) → Limb N (C.q i)) :
    ∃ out'', out'.upd level id (fun old i => F i (old i)) = .ok out'' ∧
      Ct.Upd level out (Function.update R id fun i => F i (R id i)) out'' := by
  have h1 := h id
  rw [hp, Option.map_some] at h1
  refine ⟨out'.insert id ((p.set level (R id)).set level fun i => F i ((p.set level (R id)).rows i)), ?_, fun id' => ?_⟩
  · unfold Ct.upd
    rw [GoMap.deref_ok h1, bind_ok, Poly.need_ok (by exact hlen), bind_ok]
  · rw [GoMap.lookup_insert']
    by_cases e : id' = id
    · subst e
      rw [if_pos rfl, hp, Option.map_some, Function.update_self, Poly.set_set]
      congr 1
      apply Poly.set_congr
      intro i hi
      show F i (setQ level (R id') p.rows i) = _
      rw [setQ_le _ _ hi]
    · rw [if_neg e, h id', Function.update_of_ne e]

/-! ## the specification -/

/-- the data a multiplication reads: component rows, digits and key material per id -/
structure MulIn (C : Ctx N) where
  ids0 : Finset String
  ids1 : Finset String
  a0 : String → QRows C
  a1 : String → QRows C
  h0 : String → ℕ → PolyQP C
  h1 : String → ℕ → PolyQP C
  d : String → ℕ → PolyQP C
  b : String → ℕ → PolyQP C
  v : String → ℕ → PolyQP C
  u : ℕ → PolyQP C

/-- `Σ_id key_id,k * h_id,k`, in reduced words -/
noncomputable def vecG (ids : Finset String) (key h : String → ℕ → PolyQP C) : ℕ → PolyQP C := fun k =>
  ⟨fun i => (C.RQ i).ofEv (∑ id ∈ ids, (C.RQ i).ev ((key id k).Q i) * (C.RQ i).ev ((h id k).Q i)),
   fun j => (C.RP j).ofEv (∑ id ∈ ids, (C.RP j).ev ((key id k).P j) * (C.RP j).ev ((h id k).P j))⟩

namespace MulIn
variable (M : MulIn C) (level : ℕ)

/-- the vector `x` -/
noncomputable def x : ℕ → PolyQP C := vecG M.ids0 M.d M.h0
/-- the vector `y` -/
noncomputable def y : ℕ → PolyQP C := vecG M.ids1 M.b M.h1
/-- the external product of `op0[id]` with `y` -/
noncomputable def w (id : String) : QRows C := epG level (M.h0 id) M.y

/-- the component `"0"` of the result -/
noncomputable def out0 : QRows C := fun i => (C.RQ i).ofCf
  (cf (M.a0 "0" i) * cf (M.a1 "0" i) + ∑ id ∈ M.ids0, cf (epG level (digs level (M.w level id)) (M.v id) i))

/-- the other components -/
noncomputable def outI (id : String) : QRows C := fun i => (C.RQ i).ofCf
  ((if id ∈ M.ids0 then cf (M.a1 "0" i) * cf (M.a0 id i) else 0) + (if id ∈ M.ids1 then cf (M.a0 "0" i) * cf (M.a1 id i) else 0)
    + (if id ∈ M.ids1 then cf (epG level (M.h1 id) M.x i) else 0)
    + (if id ∈ M.ids0 then cf (epG level (digs level (M.w level id)) M.u i) else 0))

/-- the result rows -/
noncomputable def out (id : String) : QRows C := if id = "0" then M.out0 level else M.outI level id

end MulIn

/-- where the digits of component `id` come from -/
def DigOK (level : ℕ) (op : Ct C) (hoisted : Option (HoistedCt C)) (id : String) (h : ℕ → PolyQP C) : Prop :=
  match hoisted with
  | none => ∃ a, op.lookup id = some a ∧ level < a.len ∧ h = digs level a.coeffs
  | some m => ∃ s, m.lookup id = some s ∧ C.beta level ≤ s.len ∧ h = s.val

/-- an operand: coefficient-domain components with at least `level + 1` rows -/
structure OpOK (level : ℕ) (op : Ct C) (ids : Finset String) (a : String → QRows C) : Prop where
  mem : ∀ id, id ∈ ids ↔ id ∈ op ∧ id ≠ "0"
  val : ∀ id, id ∈ ids ∨ id = "0" → ∃ p, op.lookup id = some p ∧ level < p.len ∧ p.isNTT = false ∧ p.rows = a id

/-! ## scratch bookkeeping -/

theorem zeroVec_ok {beta : ℕ} {v : Swk C} (h : beta ≤ v.len) :
    zeroVec beta v = .ok ⟨v.len, fun k => if k < beta then PolyQP.zero else v.val k⟩ := if_neg (by omega)

theorem digitsOf_ok (V : C.Valid) (S : Scratch C) {level : ℕ} (hl : level < C.nQ) {op : Ct C} {hoisted : Option (HoistedCt C)}
    {id : String} {h : ℕ → PolyQP C} (hd : DigOK level op hoisted id h) (hs : C.beta level ≤ S.swk3.len) :
    ∃ s S', digitsOf S level op hoisted id = .ok (s, S') ∧ C.beta level ≤ s.len ∧
      (∀ k < C.beta level, (s.val k).Agree level (h k)) ∧ C.beta level ≤ S'.swk3.len := by
  unfold DigOK at hd
  unfold digitsOf
  cases hoisted with
  | none =>
    obtain ⟨a, h1, h2, h3⟩ := hd
    obtain ⟨S', e1, e2⟩ := decompose_ok V S hl h2 S.swk3 hs
    simp only [GoMap.deref_ok h1, bind_ok, e2]
    refine ⟨_, _, rfl, hs, fun k hk => ?_, hs⟩
    simp only [if_pos hk, h3]
    exact setQP_agree _ _ _
  | some m =>
    obtain ⟨s, h1, h2, h3⟩ := hd
    simp only [GoMap.deref_ok h1, bind_ok]
    exact ⟨_, _, rfl, h2, fun k _ => by rw [h3]; exact PolyQP.Agree.refl _ _, hs⟩

theorem genVec_ok (V : C.Valid) (S : Scratch C) {level : ℕ} (hl : level < C.nQ) (op : Ct C) (hoisted : Option (HoistedCt C))
    (rlk : RlkMap C) (sel : Rlk C → Swk C) (l : List String) (hnd : l.Nodup) (key h : String → ℕ → PolyQP C) (x : Swk C)
    (hd : ∀ id ∈ l, DigOK level op hoisted id (h id))
    (hk : ∀ id ∈ l, ∃ r, rlk.value.lookup id = some r ∧ C.beta level ≤ (sel r).len ∧ (sel r).val = key id)
    (hx : C.beta level ≤ x.len) (hx0 : ∀ k < C.beta level, x.val k = PolyQP.zero) (hs : C.beta level ≤ S.swk3.len) :
    ∃ x' S', genVec S level op hoisted rlk sel l x = .ok (x', S') ∧ C.beta level ≤ x'.len ∧
      (∀ k < C.beta level, (x'.val k).Agree level (vecG l.toFinset key h k)) ∧ C.beta level ≤ S'.swk3.len := by
  unfold genVec
  obtain ⟨⟨x', S'⟩, e1, e2, e3, e4⟩ := Go.loop_inv (fun (st : Swk C × Scratch C) id => do
    let (h, S) ← digitsOf st.2 level op hoisted id
    let key ← rlk.value.deref id
    let x ← accVec level (C.beta level) (sel key) h st.1
    (.ok (x, S) : Go (Swk C × Scratch C)))
    (fun pre st => C.beta level ≤ st.1.len ∧ C.beta level ≤ st.2.swk3.len ∧ ∀ k < C.beta level,
      (∀ i ≤ level, ((st.1.val k).Q i).Canon ∧ (C.RQ i).ev ((st.1.val k).Q i) =
        (pre.map fun id => (C.RQ i).ev ((key id k).Q i) * (C.RQ i).ev ((h id k).Q i) * (C.RQ i).rinv).sum) ∧
      ∀ j < C.nP, ((st.1.val k).P j).Canon ∧ (C.RP j).ev ((st.1.val k).P j) =
        (pre.map fun id => (C.RP j).ev ((key id k).P j) * (C.RP j).ev ((h id k).P j) * (C.RP j).rinv).sum)
    l (x, S) ⟨hx, hs, fun k hk' => by
      simp only [hx0 k hk', PolyQP.zero]
      exact ⟨fun i _ => ⟨Limb.zero_canon (C.RQ i).pos, by simp⟩, fun j _ => ⟨Limb.zero_canon (C.RP j).pos, by simp⟩⟩⟩ (by
      intro pre id suf st hl' ⟨i1, i2, i3⟩
      have hid : id ∈ l := by rw [hl']; simp
      obtain ⟨s, S', d1, d2, d3, d4⟩ := digitsOf_ok V st.2 hl (hd id hid) i2
      obtain ⟨r, k1, k2, k3⟩ := hk id hid
      refine ⟨(⟨st.1.len, fun k => if k < C.beta level then qpMulAdd level ((sel r).val k) (s.val k) (st.1.val k)
        else st.1.val k⟩, S'), ?_, i1, d4, fun k hk' => ?_⟩
      · rw [d1]
        simp only [bind_ok, GoMap.deref_ok k1, accVec, if_neg (by omega : ¬((sel r).len < C.beta level ∨
          s.len < C.beta level ∨ st.1.len < C.beta level))]
      · obtain ⟨j1, j2⟩ := i3 k hk'
        have ag := d3 k hk'
        simp only [if_pos hk', k3]
        refine ⟨fun i hi => ⟨?_, ?_⟩, fun j hj => ⟨?_, ?_⟩⟩
        · simp only [qpMulAdd, setQP, setQ_le _ _ hi]; exact LimbOps.mulMontAdd_canon _ _ _ _ (j1 i hi).1
        · simp only [qpMulAdd, setQP, setQ_le _ _ hi, LimbOps.ev_mulMontAdd, (j1 i hi).2, ag.1 i hi, List.map_append,
            List.sum_append, List.map_cons, List.map_nil, List.sum_cons, List.sum_nil, add_zero]
        · simp only [qpMulAdd, setQP, setP_lt _ _ hj]; exact LimbOps.mulMontAdd_canon _ _ _ _ (j2 j hj).1
        · simp only [qpMulAdd, setQP, setP_lt _ _ hj, LimbOps.ev_mulMontAdd, (j2 j hj).2, ag.2 j hj, List.map_append,
            List.sum_append, List.map_cons, List.map_nil, List.sum_cons, List.sum_nil, add_zero])
  rw [e1]
  simp only [bind_ok, mformVec, if_neg (not_lt.mpr e2)]
  refine ⟨_, _, rfl, e2, fun k hk' => ?_, e3⟩
  obtain ⟨j1, j2⟩ := e4 k hk'
  simp only [if_pos hk']
  refine ⟨fun i hi => ?_, fun j hj => ?_⟩
  · simp only [qpMForm, setQP, setQ_le _ _ hi, vecG]
    apply (C.RQ i).ev_inj (LimbOps.mform_canon _ _) (LimbOps.ofEv_canon _ _)
    rw [LimbOps.ev_mform, (j1 i hi).2, LimbOps.ev_ofEv, List.sum_toFinset _ hnd, ← List.sum_map_mul_right]
    congr 1; apply List.map_congr_left; intro id _
    rw [mul_assoc, LimbOps.rinv_mul, mul_one]
  · simp only [qpMForm, setQP, setP_lt _ _ hj, vecG]
    apply (C.RP j).ev_inj (LimbOps.mform_canon _ _) (LimbOps.ofEv_canon _ _)
    rw [LimbOps.ev_mform, (j2 j hj).2, LimbOps.ev_ofEv, List.sum_toFinset _ hnd, ← List.sum_map_mul_right]
    congr 1; apply List.map_congr_left; intro id _
    rw [mul_assoc, LimbOps.rinv_mul, mul_one]

/-- the output ciphertext has all ids, with at least `level + 1` rows each -/
structure OutOK (level : ℕ) (out : Ct C) (ids : Finset String) : Prop where
  mem : ∀ id, id ∈ ids ∨ id = "0" → id ∈ out
  len : ∀ id p, out.lookup id = some p → level < p.len

theorem OutOK.get {level : ℕ} {out : Ct C} {ids : Finset String} (h : OutOK level out ids) {id : String}
    (hi : id ∈ ids ∨ id = "0") : ∃ p, out.lookup id = some p ∧ level < p.len := by
  have := AList.lookup_isSome.mpr (h.mem id hi)
  obtain ⟨p, hp⟩ := Option.isSome_iff_exists.mp this
  exact ⟨p, hp, h.len id p hp⟩

theorem mem_append_singleton' {α : Type*} {a b : α} {l : List α} : b ∈ l ++ [a] ↔ b = a ∨ b ∈ l := by
  simp [or_comm]

theorem nodup_split {α : Type*} {l pre suf : List α} {a : α} (h : l.Nodup) (e : l = pre ++ a :: suf) : a ∉ pre := by
  subst e
  have := List.nodup_append.mp h
  exact fun hk => this.2.2 a hk a (by simp) rfl

theorem tensor_ok (o : Sched String) (S : Scratch C) {level : ℕ} {op0 op1 : Ct C} {ids0 ids1 : IDSet} {out : Ct C}
    {I0 I1 : Finset String} {a0 a1 : String → QRows C} (h0 : OpOK level op0 I0 a0) (h1 : OpOK level op1 I1 a1)
    (hi0 : ∀ id, ids0.has id = true ↔ id ∈ I0) (hi1 : ∀ id, ids1.has id = true ↔ id ∈ I1)
    (ho : OutOK level out (I0 ∪ I1)) :
    ∃ out' S' R, tensor o S level op0 op1 ids0 ids1 out = .ok (out', S') ∧ S'.swk3 = S.swk3 ∧ Ct.Upd level out R out' ∧
      ∀ i ≤ level, ((R "0" i).Canon ∧ cf (R "0" i) = cf (a0 "0" i) * cf (a1 "0" i)) ∧
        ∀ id, id ∈ I0 ∪ I1 → (R id i).Canon ∧ cf (R id i) = (if id ∈ I0 then cf (a1 "0" i) * cf (a0 id i) else 0) +
          (if id ∈ I1 then cf (a0 "0" i) * cf (a1 id i) else 0) := by
  obtain ⟨p0, p01, p02, -, p04⟩ := h0.val "0" (.inr rfl)
  obtain ⟨p1, p11, p12, -, p14⟩ := h1.val "0" (.inr rfl)
  obtain ⟨R0, hR0⟩ := Ct.Upd.refl level out
  obtain ⟨pz, hz1, hz2⟩ := ho.get (id := "0") (.inr rfl)
  have n0 : "0" ∉ I0 := fun h => ((h0.mem _).mp h).2 rfl
  have n1 : "0" ∉ I1 := fun h => ((h1.mem _).mp h).2 rfl
  unfold tensor
  rw [GoMap.deref_ok p01, bind_ok, Poly.need_ok p02, bind_ok, GoMap.deref_ok p11, bind_ok, Poly.need_ok p12, bind_ok]
  dsimp only
  -- the two Montgomery / NTT copies
  set q0 : QRows C := setQ level (fun i => (C.RQ i).mform (setQ level (fun i => (C.RQ i).ntt (p0.rows i)) S.q0 i))
    (setQ level (fun i => (C.RQ i).ntt (p0.rows i)) S.q0) with hq0
  set q1 : QRows C := setQ level (fun i => (C.RQ i).ntt (p1.rows i)) S.q1 with hq1
  set q1' : QRows C := setQ level (fun i => (C.RQ i).mform (q1 i)) q1 with hq1'
  have ev0 : ∀ i ≤ level, (C.RQ i).ev (q0 i) = cf (a0 "0" i) * Mont N (C.q i) := by
    intro i hi; simp only [hq0, setQ_le _ _ hi, LimbOps.ev_mform, LimbOps.ev_ntt, p04]
  have ev1 : ∀ i ≤ level, (C.RQ i).ev (q1 i) = cf (a1 "0" i) := by
    intro i hi; simp only [hq1, setQ_le _ _ hi, LimbOps.ev_ntt, p14]
  have ev1' : ∀ i ≤ level, (C.RQ i).ev (q1' i) = cf (a1 "0" i) * Mont N (C.q i) := by
    intro i hi; simp only [hq1', setQ_le _ _ hi, LimbOps.ev_mform, ev1 i hi]
  obtain ⟨out1, u1, u2⟩ := hR0.upd hz1 hz2 (fun i _ => (C.RQ i).mulMont (q0 i) (q1 i))
  rw [u1, bind_ok]
  set R1 := Function.update R0 "0" fun i => (C.RQ i).mulMont (q0 i) (q1 i) with hR1
  -- first loop
  obtain ⟨⟨out2, S2⟩, l1, l2, R2, l3, l4, l5⟩ := Go.loop_inv (fun (st : Ct C × Scratch C) id => do
    let a ← op0.deref id
    a.need level
    let S := { st.2 with q2 := setQ level (fun i => (C.RQ i).ntt (a.rows i)) st.2.q2 }
    let out ← st.1.upd level id fun _ i => (C.RQ i).mulMont (S.q1 i) (S.q2 i)
    (.ok (out, S) : Go (Ct C × Scratch C)))
    (fun pre st => (st.2.q0 = q0 ∧ st.2.q1 = q1' ∧ st.2.swk3 = S.swk3) ∧ ∃ R, Ct.Upd level out R st.1 ∧
      (∀ i, R "0" i = (C.RQ i).mulMont (q0 i) (q1 i)) ∧ ∀ i ≤ level, ∀ id ∈ pre, (R id i).Canon ∧
        (C.RQ i).ev (R id i) = cf (a1 "0" i) * cf (a0 id i))
    (GoMap.range (o 0) ids0.value) (out1, { S with q0 := q0, q1 := q1' })
    ⟨⟨rfl, rfl, rfl⟩, R1, u2, fun i => by simp [hR1], by simp⟩ (by
      rintro pre id suf ⟨out2, S2⟩ hl' ⟨⟨i1, i2, i3⟩, R, i4, i5, i6⟩
      have hid : id ∈ I0 := by
        rw [← hi0, ← IDSet.mem_value_iff, ← GoMap.mem_range (o := o 0), hl']; simp
      have hne : id ≠ "0" := fun e => n0 (e ▸ hid)
      obtain ⟨p, v1, v2, -, v4⟩ := h0.val id (.inl hid)
      obtain ⟨pz, w1, w2⟩ := ho.get (id := id) (.inl (mem_union_left _ hid))
      set q2 : QRows C := setQ level (fun i => (C.RQ i).ntt (p.rows i)) S2.q2 with hq2
      obtain ⟨out3, x1, x2⟩ := i4.upd w1 w2 (fun i _ => (C.RQ i).mulMont (S2.q1 i) (q2 i))
      refine ⟨(out3, { S2 with q2 := q2 }), ?_, ⟨i1, i2, i3⟩, _, x2, fun i => ?_, fun i hi id' hid' => ?_⟩
      · simp only [GoMap.deref_ok v1, bind_ok, Poly.need_ok v2, ← hq2]
        rw [x1, bind_ok]
      · rw [Function.update_of_ne hne.symm]; exact i5 i
      · by_cases e : id' = id
        · subst e
          rw [Function.update_self]
          refine ⟨LimbOps.mulMont_canon _ _ _, ?_⟩
          dsimp only at i2
          rw [LimbOps.ev_mulMont, i2, ev1' i hi, hq2, setQ_le _ _ hi, LimbOps.ev_ntt, v4]
          have := (C.RQ i).mul_rinv
          linear_combination (cf (a1 "0" i) * cf (a0 id' i)) * this
        · rw [Function.update_of_ne e]
          exact i6 i hi id' ((mem_append_singleton'.mp hid').resolve_left e))
  dsimp only at l1 ⊢
  rw [l1, bind_ok]
  dsimp only at l2 ⊢
  obtain ⟨l21, l22, l23⟩ := l2
  -- second loop
  obtain ⟨⟨out3, S3⟩, m1, m2, R3, m3, m4, m5⟩ := Go.loop_inv (fun (st : Ct C × Scratch C) id => do
    let a ← op1.deref id
    a.need level
    let S := { st.2 with q2 := setQ level (fun i => (C.RQ i).ntt (a.rows i)) st.2.q2 }
    let out ← st.1.upd level id fun old i =>
      if ids0.has id then (C.RQ i).mulMontAdd (S.q0 i) (S.q2 i) (old i) else (C.RQ i).mulMont (S.q0 i) (S.q2 i)
    (.ok (out, S) : Go (Ct C × Scratch C)))
    (fun pre st => (st.2.q0 = q0 ∧ st.2.swk3 = S.swk3) ∧ ∃ R, Ct.Upd level out R st.1 ∧
      (∀ i, R "0" i = (C.RQ i).mulMont (q0 i) (q1 i)) ∧ ∀ i ≤ level,
        (∀ id, id ∈ I0 → id ∉ pre → (R id i).Canon ∧ (C.RQ i).ev (R id i) = cf (a1 "0" i) * cf (a0 id i)) ∧
        (∀ id ∈ pre, (R id i).Canon ∧ (C.RQ i).ev (R id i) = (if id ∈ I0 then cf (a1 "0" i) * cf (a0 id i) else 0) +
          cf (a0 "0" i) * cf (a1 id i)))
    (GoMap.range (o 1) ids1.value) (out2, S2)
    ⟨⟨l21, l23⟩, R2, l3, l4, fun i hi => ⟨fun id hid _ => l5 i hi id (by
      rw [GoMap.mem_range, IDSet.mem_value_iff, hi0]; exact hid), by simp⟩⟩ (by
      rintro pre id suf ⟨out4, S4⟩ hl' ⟨⟨i1, i3⟩, R, i4, i5, i6⟩
      have hid : id ∈ I1 := by
        rw [← hi1, ← IDSet.mem_value_iff, ← GoMap.mem_range (o := o 1), hl']; simp
      have hne : id ≠ "0" := fun e => n1 (e ▸ hid)
      have hpre : id ∉ pre := nodup_split (GoMap.nodup_range _ _) hl'
      obtain ⟨p, v1, v2, -, v4⟩ := h1.val id (.inl hid)
      obtain ⟨pz, w1, w2⟩ := ho.get (id := id) (.inl (mem_union_right _ hid))
      set q2 : QRows C := setQ level (fun i => (C.RQ i).ntt (p.rows i)) S4.q2 with hq2
      obtain ⟨out5, x1, x2⟩ := i4.upd w1 w2 (fun i old => if ids0.has id then (C.RQ i).mulMontAdd (S4.q0 i) (q2 i) old else
        (C.RQ i).mulMont (S4.q0 i) (q2 i))
      dsimp only at i1
      refine ⟨(out5, { S4 with q2 := q2 }), ?_, ⟨i1, i3⟩, _, x2, fun i => ?_, fun i hi => ⟨fun id' hid' hp' => ?_,
        fun id' hid' => ?_⟩⟩
      · simp only [GoMap.deref_ok v1, bind_ok, Poly.need_ok v2, ← hq2]
        rw [x1, bind_ok]
      · rw [Function.update_of_ne hne.symm]; exact i5 i
      · have hh := mt mem_append_singleton'.mpr hp'
        push Not at hh
        rw [Function.update_of_ne hh.1]
        exact (i6 i hi).1 id' hid' hh.2
      · by_cases e : id' = id
        · subst e
          rw [Function.update_self]
          have e1 : (C.RQ i).ev (q2 i) = cf (a1 id' i) := by rw [hq2, setQ_le _ _ hi, LimbOps.ev_ntt, v4]
          have := (C.RQ i).mul_rinv
          by_cases hI : id' ∈ I0
          · obtain ⟨c1, c2⟩ := (i6 i hi).1 id' hI hpre
            simp only [(hi0 id').mpr hI, if_true, if_pos hI]
            refine ⟨LimbOps.mulMontAdd_canon _ _ _ _ c1, ?_⟩
            rw [LimbOps.ev_mulMontAdd, c2, i1, ev0 i hi, e1]
            linear_combination (cf (a0 "0" i) * cf (a1 id' i)) * this
          · have hI' : ids0.has id' = false := by
              cases hb : ids0.has id' with
              | false => rfl
              | true => exact absurd ((hi0 id').mp hb) hI
            simp only [hI', if_neg hI, Bool.false_eq_true, if_false]
            refine ⟨LimbOps.mulMont_canon _ _ _, ?_⟩
            rw [LimbOps.ev_mulMont, i1, ev0 i hi, e1]
            linear_combination (cf (a0 "0" i) * cf (a1 id' i)) * this
        · rw [Function.update_of_ne e]
          exact (i6 i hi).2 id' ((mem_append_singleton'.mp hid').resolve_left e))
  rw [m1, bind_ok]
  dsimp only at m2 m3 ⊢
  -- inverse NTT of every component
  obtain ⟨out4, k1, R4, k2, k3, k4⟩ := Go.loop_inv (fun (out : Ct C) id => out.upd level id fun old i => (C.RQ i).intt (old i))
    (fun pre st => ∃ R, Ct.Upd level out R st ∧ (∀ id, id ∉ pre → R id = R3 id) ∧
      ∀ id ∈ pre, ∀ i, R id i = (C.RQ i).intt (R3 id i))
    (GoMap.range (o 2) out3) out3 ⟨R3, m3, fun _ _ => rfl, by simp⟩ (by
      rintro pre id suf st hl' ⟨R, i1, i2, i3⟩
      have hpre : id ∉ pre := nodup_split (GoMap.nodup_range _ _) hl'
      have hid : id ∈ out := by
        rw [← m3.mem, ← GoMap.mem_range (o := o 2), hl']; simp
      obtain ⟨p, hp⟩ := Option.isSome_iff_exists.mp (AList.lookup_isSome.mpr hid)
      obtain ⟨out5, x1, x2⟩ := i1.upd hp (ho.len id p hp) (fun i old => (C.RQ i).intt old)
      refine ⟨out5, x1, _, x2, fun id' hid' => ?_, fun id' hid' i => ?_⟩
      · have hh := mt mem_append_singleton'.mpr hid'
        push Not at hh
        rw [Function.update_of_ne hh.1]; exact i2 id' hh.2
      · by_cases e : id' = id
        · subst e; rw [Function.update_self, i2 id' hpre]
        · rw [Function.update_of_ne e]
          exact i3 id' ((mem_append_singleton'.mp hid').resolve_left e) i)
  rw [k1, bind_ok]
  have hin : ∀ id, id ∈ I0 ∪ I1 ∨ id = "0" → id ∈ GoMap.range (o 2) out3 := by
    intro id hid; rw [GoMap.mem_range, m3.mem]; exact ho.mem id hid
  refine ⟨out4, S3, R4, rfl, m2.2, k2, fun i hi => ⟨?_, fun id hid => ?_⟩⟩
  · rw [k4 "0" (hin _ (.inr rfl)), m4]
    refine ⟨LimbOps.intt_canon _ _, ?_⟩
    rw [LimbOps.cf_intt, LimbOps.ev_mulMont, ev0 i hi, ev1 i hi]
    have := (C.RQ i).mul_rinv
    linear_combination (cf (a0 "0" i) * cf (a1 "0" i)) * this
  · rw [k4 id (hin _ (.inl hid))]
    refine ⟨LimbOps.intt_canon _ _, ?_⟩
    rw [LimbOps.cf_intt]
    by_cases hI1 : id ∈ I1
    · rw [if_pos hI1]
      exact ((m5 i hi).2 id (by rw [GoMap.mem_range, IDSet.mem_value_iff, hi1]; exact hI1)).2
    · have hI0 : id ∈ I0 := (mem_union.mp hid).resolve_right hI1
      rw [if_neg hI1, if_pos hI0, add_zero]
      exact ((m5 i hi).1 id hI0 (by rw [GoMap.mem_range, IDSet.mem_value_iff, hi1]; exact hI1)).2


theorem extInto0_ok (V : C.Valid) (S : Scratch C) {level : ℕ} (hl : level < C.nQ) {op : Ct C} {hoisted : Option (HoistedCt C)}
    {id : String} {h : ℕ → PolyQP C} (hd : DigOK level op hoisted id h) {bg : Swk C} (hbg : C.beta level ≤ bg.len)
    {g : ℕ → PolyQP C} (hg : ∀ k < C.beta level, (bg.val k).Agree level (g k)) :
    ∃ S', extInto0 S level op hoisted id bg = .ok S' ∧ S'.swk3 = S.swk3 ∧ S'.q0 = setQ level (epG level h g) S.q0 := by
  unfold DigOK at hd
  unfold extInto0
  cases hoisted with
  | none =>
    obtain ⟨a, h1, h2, h3⟩ := hd
    obtain ⟨S', e1, e2⟩ := externalProduct_ok V S hl h2 bg hbg S.q0
    simp only [GoMap.deref_ok h1, bind_ok, e2]
    refine ⟨_, rfl, e1.2.2.2.2.2, ?_⟩
    rw [h3, epG_congr V (fun k _ => PolyQP.Agree.refl _ _) hg]
  | some m =>
    obtain ⟨s, h1, h2, h3⟩ := hd
    obtain ⟨S', e1, e2⟩ := externalProductHoisted_ok V S hl s bg h2 hbg S.q0
    simp only [GoMap.deref_ok h1, bind_ok, e2]
    refine ⟨_, rfl, e1.2.2.2.2.2, ?_⟩
    rw [h3, epG_congr V (fun k _ => PolyQP.Agree.refl _ _) hg]

theorem addX_ok (V : C.Valid) (o : Sched String) (S : Scratch C) {level : ℕ} (hl : level < C.nQ) {op1 : Ct C}
    {hoisted : Option (HoistedCt C)} {ids1 : IDSet} {I1 : Finset String} (hi1 : ∀ id, ids1.has id = true ↔ id ∈ I1)
    {h : String → ℕ → PolyQP C} (hd : ∀ id ∈ I1, DigOK level op1 hoisted id (h id)) {x : Swk C} (hx : C.beta level ≤ x.len)
    {g : ℕ → PolyQP C} (hg : ∀ k < C.beta level, (x.val k).Agree level (g k))
    {out out' : Ct C} {ids : Finset String} (ho : OutOK level out ids) (hsub : I1 ⊆ ids) {R : String → QRows C}
    (hR : Ct.Upd level out R out') :
    ∃ out'' S' R', addX o S level op1 hoisted ids1 x out' = .ok (out'', S') ∧ S'.swk3 = S.swk3 ∧ Ct.Upd level out R' out'' ∧
      (∀ id, id ∉ I1 → R' id = R id) ∧
      ∀ id ∈ I1, ∀ i ≤ level, R' id i = (C.RQ i).add (R id i) (epG level (h id) g i) := by
  unfold addX
  obtain ⟨⟨out2, S2⟩, e1, e2, R2, e3, e4, e5⟩ := Go.loop_inv (fun (st : Ct C × Scratch C) id => do
    let S ← extInto0 st.2 level op1 hoisted id x
    let out ← st.1.upd level id fun old i => (C.RQ i).add (old i) (S.q0 i)
    (.ok (out, S) : Go (Ct C × Scratch C)))
    (fun pre st => st.2.swk3 = S.swk3 ∧ ∃ R', Ct.Upd level out R' st.1 ∧ (∀ id, id ∉ pre → R' id = R id) ∧
      ∀ id ∈ pre, ∀ i ≤ level, R' id i = (C.RQ i).add (R id i) (epG level (h id) g i))
    (GoMap.range (o 3) ids1.value) (out', S) ⟨rfl, R, hR, fun _ _ => rfl, by simp⟩ (by
      rintro pre id suf ⟨out2, S2⟩ hl' ⟨i1, R', i2, i3, i4⟩
      have hpre : id ∉ pre := nodup_split (GoMap.nodup_range _ _) hl'
      have hid : id ∈ I1 := by
        rw [← hi1, ← IDSet.mem_value_iff, ← GoMap.mem_range (o := o 3), hl']; simp
      obtain ⟨S3, x1, x2, x3⟩ := extInto0_ok V S2 hl (hd id hid) hx hg
      obtain ⟨p, w1, w2⟩ := ho.get (id := id) (.inl (hsub hid))
      obtain ⟨out3, u1, u2⟩ := i2.upd w1 w2 (fun i old => (C.RQ i).add old (S3.q0 i))
      refine ⟨(out3, S3), ?_, x2.trans i1, _, u2, fun id' hid' => ?_, fun id' hid' i hi => ?_⟩
      · simp only [x1, bind_ok]
        rw [u1, bind_ok]
      · have hh := mt mem_append_singleton'.mpr hid'
        push Not at hh
        rw [Function.update_of_ne hh.1]; exact i3 id' hh.2
      · by_cases e : id' = id
        · subst e
          rw [Function.update_self, i3 id' hpre, x3, setQ_le _ _ hi]
        · rw [Function.update_of_ne e]
          exact i4 id' ((mem_append_singleton'.mp hid').resolve_left e) i hi)
  refine ⟨out2, S2, R2, e1, e2, e3, fun id hid => e4 id ?_, fun id hid => e5 id ?_⟩
  · rw [GoMap.mem_range, IDSet.mem_value_iff, hi1]; exact hid
  · rw [GoMap.mem_range, IDSet.mem_value_iff, hi1]; exact hid

/-- everything a multiplication at `level` relies on -/
structure MulOK (crs : GoMap ℤ (Swk C)) (level : ℕ) (op0 op1 : Ct C) (h0 h1 : Option (HoistedCt C)) (rlk : RlkMap C)
    (out : Ct C) (S : Scratch C) (M : MulIn C) : Prop where
  lvl : level < C.nQ
  hop0 : OpOK level op0 M.ids0 M.a0
  hop1 : OpOK level op1 M.ids1 M.a1
  hout : OutOK level out (M.ids0 ∪ M.ids1)
  olen : ∃ p, out.lookup "0" = some p ∧ p.len = level + 1
  dig0 : ∀ id ∈ M.ids0, DigOK level op0 h0 id (M.h0 id)
  dig1 : ∀ id ∈ M.ids1, DigOK level op1 h1 id (M.h1 id)
  key0 : ∀ id ∈ M.ids0, ∃ r, rlk.value.lookup id = some r ∧ C.beta level ≤ r.d.len ∧ C.beta level ≤ r.v.len ∧
    r.d.val = M.d id ∧ r.v.val = M.v id
  key1 : ∀ id ∈ M.ids1, ∃ r, rlk.value.lookup id = some r ∧ C.beta level ≤ r.b.len ∧ r.b.val = M.b id
  hcrs : ∃ u, crs.lookup (-1) = some u ∧ C.beta level ≤ u.len ∧ u.val = M.u
  swk1 : C.beta level ≤ S.swk1.len
  swk2 : C.beta level ≤ S.swk2.len
  swk3 : C.beta level ≤ S.swk3.len

/-- the result of a multiplication: every component in use holds the specified rows up to `level` -/
def MulRes (level : ℕ) (out : Ct C) (M : MulIn C) (out' : Ct C) : Prop :=
  ∃ R, Ct.Upd level out R out' ∧ ∀ id, id ∈ M.ids0 ∪ M.ids1 ∨ id = "0" → ∀ i ≤ level, R id i = M.out level id i

section
variable {crs : GoMap ℤ (Swk C)} {level : ℕ} {op0 op1 : Ct C} {h0 h1 : Option (HoistedCt C)} {rlk : RlkMap C} {out : Ct C}
  {S : Scratch C} {M : MulIn C}

theorem mulChecks_ok (hlev : ∃ p, out.lookup "0" = some p ∧ p.len = level + 1)
    (h : ∃ p, op0.lookup "0" = some p ∧ level < p.len) : mulChecks op0 out = .ok level := by
  obtain ⟨p, h1, h2⟩ := hlev
  obtain ⟨p', h3, h4⟩ := h
  unfold mulChecks Ct.level
  simp only [GoMap.deref_ok h1, GoMap.deref_ok h3, bind_ok, h2, Nat.add_sub_cancel, lt_irrefl, if_false]
  rw [if_neg (by omega)]

/-- the common part, up to the last loop -/
theorem mulFront_ok (V : C.Valid) (o : Sched String) (H : MulOK crs level op0 op1 h0 h1 rlk out S M) :
    ∃ ids0 ids1 x0 y0 x y S1 S2 out1 S3 out2 S4 R,
      mulChecks op0 out = .ok level ∧ IDSet.ofCiphertext (o 10) op0 = .ok ids0 ∧ IDSet.ofCiphertext (o 11) op1 = .ok ids1 ∧
      zeroVec (C.beta level) S.swk1 = .ok x0 ∧ zeroVec (C.beta level) S.swk2 = .ok y0 ∧
      genVec S level op0 h0 rlk Rlk.d (GoMap.range (o 12) ids0.value) x0 = .ok (x, S1) ∧
      genVec S1 level op1 h1 rlk Rlk.b (GoMap.range (o 13) ids1.value) y0 = .ok (y, S2) ∧
      tensor o { S2 with swk1 := x, swk2 := y } level op0 op1 ids0 ids1 out = .ok (out1, S3) ∧
      addX o S3 level op1 h1 ids1 x out1 = .ok (out2, S4) ∧
      (∀ id, ids0.has id = true ↔ id ∈ M.ids0) ∧
      C.beta level ≤ y.len ∧ (∀ k < C.beta level, (y.val k).Agree level (M.y k)) ∧ C.beta level ≤ S4.swk3.len ∧
      Ct.Upd level out R out2 ∧ ∀ i ≤ level, ((R "0" i).Canon ∧ cf (R "0" i) = cf (M.a0 "0" i) * cf (M.a1 "0" i)) ∧
        ∀ id ∈ M.ids0 ∪ M.ids1, (R id i).Canon ∧ cf (R id i) =
          (if id ∈ M.ids0 then cf (M.a1 "0" i) * cf (M.a0 id i) else 0) +
          (if id ∈ M.ids1 then cf (M.a0 "0" i) * cf (M.a1 id i) else 0) +
          (if id ∈ M.ids1 then cf (epG level (M.h1 id) M.x i) else 0) := by
  obtain ⟨ids0, a1, a2⟩ := IDSet.ofCiphertext_spec (o 10) op0
  obtain ⟨ids1, b1, b2⟩ := IDSet.ofCiphertext_spec (o 11) op1
  have hi0 : ∀ id, ids0.has id = true ↔ id ∈ M.ids0 := fun id => by rw [a2, H.hop0.mem]
  have hi1 : ∀ id, ids1.has id = true ↔ id ∈ M.ids1 := fun id => by rw [b2, H.hop1.mem]
  have f0 : (GoMap.range (o 12) ids0.value).toFinset = M.ids0 := by
    ext id; rw [List.mem_toFinset, GoMap.mem_range, IDSet.mem_value_iff, hi0]
  have f1 : (GoMap.range (o 13) ids1.value).toFinset = M.ids1 := by
    ext id; rw [List.mem_toFinset, GoMap.mem_range, IDSet.mem_value_iff, hi1]
  have m0 : ∀ id ∈ GoMap.range (o 12) ids0.value, id ∈ M.ids0 := fun id h => by rw [← f0]; exact List.mem_toFinset.mpr h
  have m1 : ∀ id ∈ GoMap.range (o 13) ids1.value, id ∈ M.ids1 := fun id h => by rw [← f1]; exact List.mem_toFinset.mpr h
  obtain ⟨x, S1, x1, x2, x3, x4⟩ := genVec_ok V S H.lvl op0 h0 rlk Rlk.d (GoMap.range (o 12) ids0.value) (GoMap.nodup_range _ _)
    M.d M.h0 ⟨S.swk1.len, fun k => if k < C.beta level then PolyQP.zero else S.swk1.val k⟩ (fun id h => H.dig0 id (m0 id h))
    (fun id h => by obtain ⟨r, r1, r2, r3, r4, r5⟩ := H.key0 id (m0 id h); exact ⟨r, r1, r2, r4⟩)
    H.swk1 (fun k hk => if_pos hk) H.swk3
  obtain ⟨y, S2, y1, y2, y3, y4⟩ := genVec_ok V S1 H.lvl op1 h1 rlk Rlk.b (GoMap.range (o 13) ids1.value) (GoMap.nodup_range _ _)
    M.b M.h1 ⟨S.swk2.len, fun k => if k < C.beta level then PolyQP.zero else S.swk2.val k⟩ (fun id h => H.dig1 id (m1 id h))
    (fun id h => H.key1 id (m1 id h))
    H.swk2 (fun k hk => if_pos hk) x4
  rw [f0] at x3
  rw [f1] at y3
  obtain ⟨out1, S3, R1, t1, t2, t3, t4⟩ := tensor_ok o { S2 with swk1 := x, swk2 := y } H.hop0 H.hop1 hi0 hi1 H.hout
  obtain ⟨out2, S4, R2, u1, u2, u3, u4, u5⟩ := addX_ok V o S3 H.lvl hi1 H.dig1 x2 x3 H.hout (subset_union_right) t3
  refine ⟨ids0, ids1, _, _, x, y, S1, S2, out1, S3, out2, S4, R2, mulChecks_ok H.olen ?_, a1, b1, zeroVec_ok H.swk1,
    zeroVec_ok H.swk2, x1, y1, t1, u1, hi0, y2, y3, ?_, u3, ?_⟩
  · obtain ⟨p, p1, p2, _⟩ := H.hop0.val "0" (.inr rfl); exact ⟨p, p1, p2⟩
  · rw [u2, t2]; exact y4
  · intro i hi
    obtain ⟨c1, c2⟩ := t4 i hi
    have n1 : "0" ∉ M.ids1 := fun h => ((H.hop1.mem _).mp h).2 rfl
    refine ⟨by rw [u4 _ n1]; exact c1, fun id hid => ?_⟩
    by_cases hI : id ∈ M.ids1
    · rw [u5 id hI i hi]
      have ep := (epG_spec V H.lvl (M.h1 id) M.x).1 i hi
      refine ⟨LimbOps.add_canon _ _ _ (.inr ep), ?_⟩
      rw [LimbOps.cf_add, (c2 id hid).2]
      simp only [if_pos hI]
      rfl
    · rw [u4 id hI, if_neg hI, if_neg hI, add_zero]
      have := c2 id hid
      rw [if_neg hI] at this
      exact this

/-- the last loop, for any body that adds the two external products -/
theorem mulBack_ok (V : C.Valid) (H : MulOK crs level op0 op1 h0 h1 rlk out S M)
    (f : Ct C × Scratch C → String → Go (Ct C × Scratch C)) (l : List String) (hnd : l.Nodup) (hl : l.toFinset = M.ids0)
    (hf : ∀ id ∈ M.ids0, ∀ out2 S2, C.beta level ≤ S2.swk3.len → ∃ S3, C.beta level ≤ S3.swk3.len ∧ ∃ r1 r2 : QRows C,
      (∀ i ≤ level, r1 i = epG level (digs level (M.w level id)) (M.v id) i) ∧
      (∀ i ≤ level, r2 i = epG level (digs level (M.w level id)) M.u i) ∧
      f (out2, S2) id = (do
        let out ← out2.upd level "0" fun old i => (C.RQ i).add (old i) (r1 i)
        let out ← out.upd level id fun old i => (C.RQ i).add (old i) (r2 i)
        (.ok (out, S3) : Go (Ct C × Scratch C))))
    {out2 : Ct C} {S4 : Scratch C} (hs : C.beta level ≤ S4.swk3.len) {R : String → QRows C} (hR : Ct.Upd level out R out2)
    (hc : ∀ i ≤ level, ((R "0" i).Canon ∧ cf (R "0" i) = cf (M.a0 "0" i) * cf (M.a1 "0" i)) ∧
        ∀ id ∈ M.ids0 ∪ M.ids1, (R id i).Canon ∧ cf (R id i) =
          (if id ∈ M.ids0 then cf (M.a1 "0" i) * cf (M.a0 id i) else 0) +
          (if id ∈ M.ids1 then cf (M.a0 "0" i) * cf (M.a1 id i) else 0) +
          (if id ∈ M.ids1 then cf (epG level (M.h1 id) M.x i) else 0)) :
    ∃ out' S', Go.loop f (out2, S4) l = .ok (out', S') ∧ MulRes level out M out' := by
  have n0 : "0" ∉ M.ids0 := fun h => ((H.hop0.mem _).mp h).2 rfl
  have n1 : "0" ∉ M.ids1 := fun h => ((H.hop1.mem _).mp h).2 rfl
  obtain ⟨⟨out', S'⟩, e1, e2, R', e3, e4, e5, e6⟩ := Go.loop_inv f
    (fun pre st => C.beta level ≤ st.2.swk3.len ∧ ∃ R', Ct.Upd level out R' st.1 ∧
      (∀ i ≤ level, (R' "0" i).Canon ∧ cf (R' "0" i) = cf (R "0" i) +
        (pre.map fun id => cf (epG level (digs level (M.w level id)) (M.v id) i)).sum) ∧
      (∀ id, id ≠ "0" → id ∉ pre → R' id = R id) ∧
      ∀ id ∈ pre, ∀ i ≤ level, (R' id i).Canon ∧ cf (R' id i) = cf (R id i) +
        cf (epG level (digs level (M.w level id)) M.u i))
    l (out2, S4) ⟨hs, R, hR, fun i hi => ⟨(hc i hi).1.1, by simp⟩, fun _ _ _ => rfl, by simp⟩ (by
      rintro pre id suf ⟨out3, S3⟩ hl' ⟨i1, R', i2, i3, i4, i5⟩
      have hpre : id ∉ pre := nodup_split hnd hl'
      have hid : id ∈ M.ids0 := by rw [← hl, hl']; simp
      have hne : id ≠ "0" := fun e => n0 (e ▸ hid)
      obtain ⟨S5, s1, r1, r2, s2, s3, s4⟩ := hf id hid out3 S3 i1
      obtain ⟨p0, w1, w2⟩ := H.hout.get (id := "0") (.inr rfl)
      obtain ⟨p, w3, w4⟩ := H.hout.get (id := id) (.inl (mem_union_left _ hid))
      obtain ⟨out5, u1, u2⟩ := i2.upd w1 w2 (fun i old => (C.RQ i).add old (r1 i))
      obtain ⟨out6, u3, u4⟩ := u2.upd w3 w4 (fun i old => (C.RQ i).add old (r2 i))
      refine ⟨(out6, S5), ?_, s1, _, u4, fun i hi => ?_, fun id' hz hid' => ?_, fun id' hid' i hi => ?_⟩
      · rw [s4, u1, bind_ok, u3, bind_ok]
      · rw [Function.update_of_ne hne.symm, Function.update_self, s2 i hi]
        have ep := (epG_spec V H.lvl (digs level (M.w level id)) (M.v id)).1 i hi
        refine ⟨LimbOps.add_canon _ _ _ (.inr ep), ?_⟩
        rw [LimbOps.cf_add, (i3 i hi).2]
        simp [add_assoc]
      · have hh := mt mem_append_singleton'.mpr hid'
        push Not at hh
        rw [Function.update_of_ne hh.1, Function.update_of_ne hz]; exact i4 id' hz hh.2
      · by_cases e : id' = id
        · subst e
          rw [Function.update_self, Function.update_of_ne hne, i4 id' hne hpre, s3 i hi]
          have ep := (epG_spec V H.lvl (digs level (M.w level id')) M.u).1 i hi
          exact ⟨LimbOps.add_canon _ _ _ (.inr ep), by rw [LimbOps.cf_add]⟩
        · have hmem := (mem_append_singleton'.mp hid').resolve_left e
          have hz : id' ≠ "0" := by
            intro h0; apply n0; rw [← hl, hl', ← h0]; simp [hmem]
          rw [Function.update_of_ne e, Function.update_of_ne hz]
          exact i5 id' hmem i hi)
  refine ⟨out', S', e1, R', e3, fun id hid i hi => ?_⟩
  unfold MulIn.out
  rcases eq_or_ne id "0" with h | h
  · subst h
    rw [if_pos rfl]
    apply cf_inj (e4 i hi).1 (LimbOps.ofCf_canon _ _)
    rw [(e4 i hi).2, LimbOps.cf_ofCf, (hc i hi).1.2, ← List.sum_toFinset _ hnd, hl]
  · rw [if_neg h]
    have hid' := hid.resolve_right h
    obtain ⟨c1, c2⟩ := (hc i hi).2 id hid'
    by_cases hI : id ∈ M.ids0
    · obtain ⟨d1, d2⟩ := e6 id (List.mem_toFinset.mp (hl ▸ hI)) i hi
      apply cf_inj d1 (LimbOps.ofCf_canon _ _)
      rw [d2, LimbOps.cf_ofCf, c2]
      simp only [if_pos hI]
    · rw [e5 id h (fun hm => hI (hl ▸ List.mem_toFinset.mpr hm))]
      apply cf_inj c1 (LimbOps.ofCf_canon _ _)
      rw [c2, LimbOps.cf_ofCf]
      simp only [if_neg hI, add_zero]

theorem Scratch.poly0_coeffs (S : Scratch C) : S.poly0.coeffs = S.q0 := by
  unfold Scratch.poly0 Poly.coeffs; simp

theorem mulAndRelin_run (V : C.Valid) (o : Sched String) (H : MulOK crs level op0 op1 none none rlk out S M) :
    ∃ out' S', mulAndRelin crs o S op0 op1 rlk out = .ok (out', S') ∧ MulRes level out M out' := by
  obtain ⟨ids0, ids1, x0, y0, x, y, S1, S2, out1, S3, out2, S4, R, g1, g2, g3, g4, g5, g6, g7, g8, g9, hi0, g10, g11, g12, g13,
    g14⟩ := mulFront_ok V o H
  obtain ⟨u, k1, k2, k3⟩ := H.hcrs
  unfold mulAndRelin
  simp only [g1, g2, g3, g4, g5, g6, g7, g8, g9, bind_ok]
  have f0 : (GoMap.range (o 4) ids0.value).toFinset = M.ids0 := by
    ext id; rw [List.mem_toFinset, GoMap.mem_range, IDSet.mem_value_iff, hi0]
  refine mulBack_ok V H _ (GoMap.range (o 4) ids0.value) (GoMap.nodup_range _ _) f0 ?_ g12 g13 g14
  intro id hid out2 S2 hs
  obtain ⟨r, r1, r2, r3, r4, r5⟩ := H.key0 id hid
  obtain ⟨T1, t1, t2, t3⟩ := extInto0_ok V S2 H.lvl (H.dig0 id hid) g10 g11
  have hw : ∀ i ≤ level, T1.poly0.coeffs i = M.w level id i := fun i hi => by
    rw [Scratch.poly0_coeffs, t3, setQ_le _ _ hi]; rfl
  have hdig : ∀ T : Scratch C, (∀ i ≤ level, T.poly0.coeffs i = M.w level id i) → ∀ k < C.beta level,
      (digs level T.poly0.coeffs k).Agree level (digs level (M.w level id) k) := by
    intro T hT k hk
    unfold digs; rw [digG_congr V H.lvl hk hT]; exact PolyQP.Agree.refl _ _
  obtain ⟨T2, v1, v2⟩ := externalProduct_ok V T1 H.lvl (a := T1.poly0) (by exact H.lvl) r.v r3 T1.q1
  set T2' : Scratch C := { T2 with q1 := setQ level (epG level (digs level T1.poly0.coeffs) r.v.val) T1.q1 } with hT2
  have hw2 : ∀ i ≤ level, T2'.poly0.coeffs i = M.w level id i := fun i hi => by
    rw [Scratch.poly0_coeffs, hT2, ← hw i hi, Scratch.poly0_coeffs]; exact congrFun v1.1 i
  obtain ⟨T3, w1, w2⟩ := externalProduct_ok V T2' H.lvl (a := T2'.poly0) (by exact H.lvl) u k2 T2'.q2
  refine ⟨{ T3 with q2 := setQ level (epG level (digs level T2'.poly0.coeffs) u.val) T2'.q2 }, ?_, T2'.q1,
    setQ level (epG level (digs level T2'.poly0.coeffs) u.val) T2'.q2, fun i hi => ?_, fun i hi => ?_, ?_⟩
  · show _ ≤ T3.swk3.len
    rw [w1.2.2.2.2.2]
    show _ ≤ T2.swk3.len
    rw [v1.2.2.2.2.2, t2]; exact hs
  · rw [hT2]; simp only [setQ_le _ _ hi]
    rw [epG_congr V (hdig T1 hw) (fun k _ => by rw [r5]; exact PolyQP.Agree.refl _ _)]
  · rw [setQ_le _ _ hi, epG_congr V (hdig T2' hw2) (fun k _ => by rw [k3]; exact PolyQP.Agree.refl _ _)]
  · simp only [GoMap.deref_ok r1, bind_ok, t1, v2, k1]
    have hq1 : T2'.q1 = setQ level (epG level (digs level T1.poly0.coeffs) r.v.val) T1.q1 := rfl
    rw [hq1]
    congr 1; funext out3
    rw [w2, bind_ok]

theorem mulAndRelinHoisted_run (V : C.Valid) (o : Sched String) (H : MulOK crs level op0 op1 h0 h1 rlk out S M) :
    ∃ out' S', mulAndRelinHoisted crs o S op0 op1 h0 h1 rlk out = .ok (out', S') ∧ MulRes level out M out' := by
  obtain ⟨ids0, ids1, x0, y0, x, y, S1, S2, out1, S3, out2, S4, R, g1, g2, g3, g4, g5, g6, g7, g8, g9, hi0, g10, g11, g12, g13,
    g14⟩ := mulFront_ok V o H
  obtain ⟨u, k1, k2, k3⟩ := H.hcrs
  unfold mulAndRelinHoisted
  simp only [g1, g2, g3, g4, g5, g6, g7, g8, g9, bind_ok]
  have f0 : (GoMap.range (o 4) ids0.value).toFinset = M.ids0 := by
    ext id; rw [List.mem_toFinset, GoMap.mem_range, IDSet.mem_value_iff, hi0]
  refine mulBack_ok V H _ (GoMap.range (o 4) ids0.value) (GoMap.nodup_range _ _) f0 ?_ g12 g13 g14
  intro id hid out2 S2 hs
  obtain ⟨r, r1, r2, r3, r4, r5⟩ := H.key0 id hid
  obtain ⟨T1, t1, t2, t3⟩ := extInto0_ok V S2 H.lvl (H.dig0 id hid) g10 g11
  have hw : ∀ i ≤ level, T1.poly0.coeffs i = M.w level id i := fun i hi => by
    rw [Scratch.poly0_coeffs, t3, setQ_le _ _ hi]; rfl
  have hs1 : C.beta level ≤ T1.swk3.len := by rw [t2]; exact hs
  obtain ⟨T2, v1, v2⟩ := decompose_ok V T1 H.lvl (a := T1.poly0) (by exact H.lvl) T1.swk3 hs1
  set s3 : Swk C := ⟨T1.swk3.len, fun k => if k < C.beta level then setQP level (digG level k T1.poly0.coeffs) (T1.swk3.val k)
    else T1.swk3.val k⟩ with hs3
  have hdig : ∀ k < C.beta level, (s3.val k).Agree level (digs level (M.w level id) k) := by
    intro k hk
    rw [hs3]; simp only [if_pos hk]
    unfold digs; rw [digG_congr V H.lvl hk hw]; exact setQP_agree _ _ _
  set T2' : Scratch C := { T2 with swk3 := s3 } with hT2
  obtain ⟨T3, w1, w2⟩ := externalProductHoisted_ok V T2' H.lvl s3 r.v hs1 r3 T2'.q1
  set T3' : Scratch C := { T3 with q1 := setQ level (epG level s3.val r.v.val) T2'.q1 } with hT3
  have h33 : T3'.swk3 = s3 := w1.2.2.2.2.2
  obtain ⟨T4, z1, z2⟩ := externalProductHoisted_ok V T3' H.lvl T3'.swk3 u (by rw [h33]; exact hs1) k2 T3'.q2
  refine ⟨{ T4 with q2 := setQ level (epG level T3'.swk3.val u.val) T3'.q2 }, ?_, T3'.q1,
    setQ level (epG level T3'.swk3.val u.val) T3'.q2, fun i hi => ?_, fun i hi => ?_, ?_⟩
  · show _ ≤ T4.swk3.len
    rw [z1.2.2.2.2.2, h33]
    exact hs1
  · rw [hT3]; simp only [setQ_le _ _ hi]
    rw [epG_congr V hdig (fun k _ => by rw [r5]; exact PolyQP.Agree.refl _ _)]
  · rw [setQ_le _ _ hi, h33, epG_congr V hdig (fun k _ => by rw [k3]; exact PolyQP.Agree.refl _ _)]
  · simp only [GoMap.deref_ok r1, bind_ok, t1, v2, k1]
    rw [w2]
    simp only [bind_ok]
    congr 1; funext out3
    rw [z2, bind_ok]

end

end MKHE
