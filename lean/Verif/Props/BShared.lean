import Verif.Model.BShared
import Verif.Lemmas.Heap
import Verif.Props.Shared
import Verif.Props.BfvProg

set_option autoImplicit false

/-!
# Concurrent BFV multiplications that share a relinearization key set (C78)

The wanted property: goroutines with an evaluator each may call the BFV `MulRelinNew` with one key set, and every call returns what it returns
when it runs alone. `Props/BSharedRace.lean` refutes it for any two calls, even for operands of different parties. Here it is proved, for any
number of goroutines and every schedule, when each has a key set of its own.
-/

namespace MKHE
open Finset Nega

variable {N : ℕ} [NeZero N] {B : BCtx N}

/-! ## the entries of the pools -/

/-- the components of `c` outside `todo` have been converted into the pool -/
def UpOk (pool : GoMap String (PolyR N)) (F : Poly B.C → PolyR N) (c : Ct B.C) (todo : List String) : Prop :=
  (∀ id ∈ todo, id ∈ c) ∧ ∀ id p, c.lookup id = some p → id ∈ todo ∨ pool.lookup id = some (F p)

/-- the entries of a pair of hoisting pools for a party hold the digits of `x` -/
def DigOk (h1 h2 : HoistedCt B.C) (x : PolyR N) (id : String) : Prop :=
  ∃ s1 s2, h1.lookup id = some s1 ∧ h2.lookup id = some s2 ∧ B.bt ≤ s1.len ∧ B.bt ≤ s2.len ∧
    ∀ k < 2 * B.bt, (comb B.bt s1.val s2.val k).Agree B.top (digRG k x)

/-- the components of the parties outside `todo` have been decomposed into the pools -/
def DigsOk (h1 h2 : HoistedCt B.C) (A : String → PolyR N) (ids : Finset String) (todo : List String) : Prop :=
  (∀ id ∈ todo, id ∈ ids) ∧ ∀ id ∈ ids, id ∈ todo ∨ DigOk h1 h2 (A id) id

section
variable {pool : GoMap String (PolyR N)} {F : Poly B.C → PolyR N} {c : Ct B.C} {todo : List String} {id : String} {h1 h2 : HoistedCt B.C}
  {A : String → PolyR N} {ids : Finset String}

theorem UpOk.start (o : Order String) : UpOk pool F c (GoMap.range o c) :=
  ⟨fun _ h => GoMap.mem_range.mp h, fun _ _ h => .inl (GoMap.mem_range.mpr (Ct.mem_of_lookup h))⟩

theorem UpOk.insert {p : Poly B.C} (h : UpOk pool F c (id :: todo)) (hp : c.lookup id = some p) : UpOk (pool.insert id (F p)) F c todo := by
  refine ⟨fun i hi => h.1 i (List.mem_cons_of_mem _ hi), fun i q hq => ?_⟩
  rw [GoMap.lookup_insert']
  by_cases e : i = id
  · subst e
    rw [hp] at hq; injection hq with hq; subst hq
    rw [if_pos rfl]; exact .inr rfl
  · rw [if_neg e]
    refine (h.2 i q hq).imp_left fun hm => ?_
    rcases List.mem_cons.mp hm with h | h
    · exact absurd h e
    · exact h

theorem UpOk.torn (x : PolyR N) (h : UpOk pool F c (id :: todo)) : UpOk (pool.insert id x) F c (id :: todo) := by
  refine ⟨h.1, fun i q hq => ?_⟩
  rw [GoMap.lookup_insert']
  by_cases e : i = id
  · exact .inl (by rw [e]; simp)
  · rw [if_neg e]; exact h.2 i q hq

theorem DigsOk.start (o1 o2 : Order String) {c : Ct B.C} {i : IDSet} (h : IDSet.ofCiphertext o1 c = .ok i) :
    DigsOk h1 h2 A c.ids (GoMap.range o2 i.value) := by
  obtain ⟨j, a1, a2⟩ := Ct.idset o1 c
  obtain rfl : j = i := Except.ok.inj (a1.symm.trans h)
  have hm : ∀ id, id ∈ GoMap.range o2 j.value ↔ id ∈ c.ids := fun id => by rw [GoMap.mem_range, IDSet.mem_value_iff, a2]
  exact ⟨fun id h => (hm id).mp h, fun id h => .inl ((hm id).mpr h)⟩

theorem DigsOk.insert {s1 s2 : Swk B.C} (h : DigsOk h1 h2 A ids (id :: todo)) (hd : DigOk (h1.insert id s1) (h2.insert id s2) (A id) id) :
    DigsOk (h1.insert id s1) (h2.insert id s2) A ids todo := by
  refine ⟨fun i hi => h.1 i (List.mem_cons_of_mem _ hi), fun i hi => ?_⟩
  by_cases e : i = id
  · subst e; exact .inr hd
  · rcases h.2 i hi with hm | ⟨u1, u2, x1, x2, x3⟩
    · rcases List.mem_cons.mp hm with h | h
      · exact absurd h e
      · exact .inl h
    · exact .inr ⟨u1, u2, by rw [GoMap.lookup_insert', if_neg e]; exact x1, by rw [GoMap.lookup_insert', if_neg e]; exact x2, x3⟩

theorem DigsOk.torn (s1 s2 : Swk B.C) (h : DigsOk h1 h2 A ids (id :: todo)) : DigsOk (h1.insert id s1) (h2.insert id s2) A ids (id :: todo) := by
  refine ⟨h.1, fun i hi => ?_⟩
  by_cases e : i = id
  · exact .inl (by rw [e]; simp)
  · rcases h.2 i hi with hm | ⟨u1, u2, x1, x2, x3⟩
    · exact .inl hm
    · exact .inr ⟨u1, u2, by rw [GoMap.lookup_insert', if_neg e]; exact x1, by rw [GoMap.lookup_insert', if_neg e]; exact x2, x3⟩

end

/-- a pool that differs at most at the entries under the identifiers of `c`, and has all its entries -/
def WroteR (c : Ct B.C) (pool pool' : GoMap String (PolyR N)) : Prop :=
  (∀ id, id ∉ c → pool'.lookup id = pool.lookup id) ∧ ∀ id, id ∈ pool → id ∈ pool'

theorem WroteR.refl (c : Ct B.C) (pool : GoMap String (PolyR N)) : WroteR c pool pool := ⟨fun _ _ => rfl, fun _ h => h⟩

theorem WroteR.insert {c : Ct B.C} {pool : GoMap String (PolyR N)} {id : String} (h : id ∈ c) (x : PolyR N) : WroteR c pool (pool.insert id x) := by
  refine ⟨fun i hi => ?_, fun i hi => AList.mem_insert _ |>.mpr (.inr hi)⟩
  rw [GoMap.lookup_insert', if_neg (fun e : i = id => hi (by rw [e]; exact h))]

theorem WroteR.trans {c : Ct B.C} {p p' p'' : GoMap String (PolyR N)} (h : WroteR c p p') (h' : WroteR c p' p'') : WroteR c p p'' :=
  ⟨fun id hid => (h'.1 id hid).trans (h.1 id hid), fun id hid => h'.2 id (h.2 id hid)⟩

theorem Wrote.trans {C : Ctx N} {ids : Finset String} {p p' p'' : HoistedCt C} (h : Wrote ids p p') (h' : Wrote ids p' p'') : Wrote ids p p'' :=
  ⟨fun id hid => (h'.1 id hid).trans (h.1 id hid), fun id s hs => by
    obtain ⟨s', a, b⟩ := h.2 id s hs
    obtain ⟨s'', c, d⟩ := h'.2 id s' a
    exact ⟨s'', c, d.trans b⟩⟩

namespace C78

variable {ι : Type} [DecidableEq ι] {crs : GoMap ℤ (Swk B.C)}

/-- the pools hold the converted components and the digits of `c0` and `c1` -/
structure Full (c0 c1 : Ct B.C) (m : BRlkMap B) : Prop where
  up0 : UpOk m.polyR1 liftOf c0 []
  up1 : UpOk m.polyR2 rescOf c1 []
  dig0 : DigsOk m.hoist10 m.hoist20 (liftCt c0) c0.ids []
  dig1 : DigsOk m.hoist11 m.hoist21 (rescCt c1) c1.ids []

/-- what two operands need so that the BFV `MulRelinNew` succeeds when it runs alone: both at the maximal level, complete keys of all
their parties and pools in the key set, and the common reference string of index -1 -/
structure OpsOk (crs : GoMap ℤ (Swk B.C)) (op0 op1 : Ct B.C) (m : BRlkMap B) : Prop where
  in0 : op0.AtLevel B.top
  in1 : op1.AtLevel B.top
  keys : ∀ id ∈ op0.ids ∪ op1.ids, ∃ key, m.value.lookup id = some key ∧ B.bt ≤ key.k1.b.len ∧ B.bt ≤ key.k2.b.len ∧
    B.bt ≤ key.k1.d.len ∧ B.bt ≤ key.k2.d.len ∧ B.bt ≤ key.k1.v.len
  crsU : ∃ u, crs.lookup (-1) = some u ∧ B.bt ≤ u.len
  pools : C45.Pools (op0.ids ∪ op1.ids) m

/-- a call that would succeed if it ran alone -/
structure CallOk (crs : GoMap ℤ (Swk B.C)) (t : BTask B) (m : BRlkMap B) : Prop where
  start : t.stage = .start
  ops : OpsOk crs t.op0 t.op1 m
  alloc : t.S.Alloc

theorem OpsOk.hyp {op0 op1 out : Ct B.C} {m : BRlkMap B} (H : OpsOk crs op0 op1 m) (ho : out.AtLevel B.top) (hi : out.ids = op0.ids ∪ op1.ids) :
    BMulHyp crs op0 op1 m out :=
  ⟨H.in0, H.in1, ho, hi, H.keys, H.crsU, H.pools.zero1, H.pools.zero2, H.pools.pool1, H.pools.pool2, H.pools.h10, H.pools.h11, H.pools.h20,
    H.pools.h21⟩

theorem OpsOk.of {op0 op1 : Ct B.C} {m m' : BRlkMap B} (H : OpsOk crs op0 op1 m) (hv : m'.value = m.value) (P : C45.Pools (op0.ids ∪ op1.ids) m') :
    OpsOk crs op0 op1 m' := ⟨H.in0, H.in1, by rw [hv]; exact H.keys, H.crsU, P⟩

/-- the ciphertext that the multiplication of `c0` and `c1` returns -/
def Returns (crs : GoMap ℤ (Swk B.C)) (c0 c1 : Ct B.C) (rlk : GoMap String (BRlk B.C)) (out : Ct B.C) : Prop :=
  ∃ z : Ct B.C, (∀ id, z.lookup id = if id = "0" ∨ id ∈ c0.ids ∪ c1.ids then some (Poly.new B.top) else none) ∧
    BMulRes z (bmulIn crs c0 c1 rlk) out

theorem Returns.unique {c0 c1 : Ct B.C} {rlk : GoMap String (BRlk B.C)} {a b : Ct B.C} (ha : Returns crs c0 c1 rlk a) (hb : Returns crs c0 c1 rlk b) :
    a.Same b := by
  obtain ⟨z, z1, R, r1, r2⟩ := ha
  obtain ⟨y, y1, T, t1, t2⟩ := hb
  refine C24.upd_same (fun id => by rw [z1, y1]) r1 t1 fun id hid i hi => ?_
  have hm : id ∈ c0.ids ∪ c1.ids ∨ id = "0" := by
    by_contra hn
    rw [← AList.lookup_isSome, z1, if_neg (fun h => hn h.symm)] at hid
    cases hid
  rw [r2 id hm i hi, t2 id hm i hi]

theorem newBinary_ok (o : Sched String) (c0 c1 : Ct B.C) : ∃ z, bfvNewBinary o c0 c1 = .ok z ∧ z.AtLevel B.top ∧ z.ids = c0.ids ∪ c1.ids ∧
    ∀ id, z.lookup id = if id = "0" ∨ id ∈ c0.ids ∪ c1.ids then some (Poly.new B.top) else none := by
  obtain ⟨i0, i1, u, a1, a2, a3, a4, a5, a6⟩ := idset_union (o 80) (o 81) (o 82) (o 83) c0 c1
  have hz : "0" ∉ c0.ids ∪ c1.ids := by rw [mem_union]; exact fun h => h.elim c0.zero_notMem_ids c1.zero_notMem_ids
  refine ⟨Ct.new (C := B.C) (o 84) u (B.C.nQ - 1), ?_, Ct.new_atLevel (o 84) u (B.C.nQ - 1), Ct.new_ids (o 84) a6 hz _, fun id => ?_⟩
  · unfold bfvNewBinary
    rw [a1, bind_ok, a2, bind_ok, a3, bind_ok]
  · rw [Ct.new_lookup]
    simp only [a6]
    rfl

/-- what the call returns when it runs alone -/
theorem alone_returns (V : B.Valid) (o : Sched String) {S : BScratch B} (hS : S.Alloc) {c0 c1 : Ct B.C} {m : BRlkMap B} (H : OpsOk crs c0 c1 m) :
    ∃ a S', bfvMulRelinNew crs o S c0 c1 m = .ok (a, S') ∧ Returns crs c0 c1 m.value a := by
  obtain ⟨z, z1, z2, z3, z4⟩ := newBinary_ok o c0 c1
  obtain ⟨a, S', e1, e2⟩ := bfvMulRelinHoisted_run V o S hS (H.hyp z2 z3)
  refine ⟨a, S', ?_, z, z4, e2⟩
  unfold bfvMulRelinNew
  rw [z1, bind_ok, e1]

/-- what holds of the key set at each stage of a call -/
def StageOk (crs : GoMap ℤ (Swk B.C)) (c0 c1 : Ct B.C) (m0 m : BRlkMap B) : BStage B → Prop
  | .start => True
  | .up0 todo => UpOk m.polyR1 liftOf c0 todo
  | .up1 todo => UpOk m.polyR1 liftOf c0 [] ∧ UpOk m.polyR2 rescOf c1 todo
  | .hoist0 todo => UpOk m.polyR1 liftOf c0 [] ∧ UpOk m.polyR2 rescOf c1 [] ∧ DigsOk m.hoist10 m.hoist20 (liftCt c0) c0.ids todo
  | .hoist1 todo => UpOk m.polyR1 liftOf c0 [] ∧ UpOk m.polyR2 rescOf c1 [] ∧ DigsOk m.hoist10 m.hoist20 (liftCt c0) c0.ids [] ∧
      DigsOk m.hoist11 m.hoist21 (rescCt c1) c1.ids todo
  | .ready => Full c0 c1 m
  | .done out => Returns crs c0 c1 m0.value out

/-- `t` is the call `t0` at a later moment, when its key set, initially `m0`, is `m` -/
structure TaskInv (crs : GoMap ℤ (Swk B.C)) (t0 : BTask B) (m0 : BRlkMap B) (t : BTask B) (m : BRlkMap B) : Prop where
  eq : ∃ S st, t = { t0 with S := S, stage := st }
  alloc : (∀ out, t.stage ≠ .done out) → t.S.Alloc
  value : m.value = m0.value
  pools : C45.Pools (t0.op0.ids ∪ t0.op1.ids) m
  stage : StageOk crs t0.op0 t0.op1 m0 m t.stage

/-- two key set contents between which only the entries of the operands were written -/
structure Changed (t0 : BTask B) (m m' : BRlkMap B) : Prop where
  value : m'.value = m.value
  r1 : WroteR t0.op0 m.polyR1 m'.polyR1
  r2 : WroteR t0.op1 m.polyR2 m'.polyR2
  h10 : Wrote t0.op0.ids m.hoist10 m'.hoist10
  h20 : Wrote t0.op0.ids m.hoist20 m'.hoist20
  h11 : Wrote t0.op1.ids m.hoist11 m'.hoist11
  h21 : Wrote t0.op1.ids m.hoist21 m'.hoist21

theorem Changed.refl (t0 : BTask B) (m : BRlkMap B) : Changed t0 m m :=
  ⟨rfl, .refl _ _, .refl _ _, .refl _ _, .refl _ _, .refl _ _, .refl _ _⟩

theorem Changed.trans {t0 : BTask B} {m m' m'' : BRlkMap B} (h : Changed t0 m m') (h' : Changed t0 m' m'') : Changed t0 m m'' :=
  ⟨h'.value.trans h.value, h.r1.trans h'.r1, h.r2.trans h'.r2, h.h10.trans h'.h10, h.h20.trans h'.h20, h.h11.trans h'.h11, h.h21.trans h'.h21⟩

theorem Changed.pools {t0 : BTask B} {m m' : BRlkMap B} (h : Changed t0 m m') {ids : Finset String} (P : C45.Pools ids m) : C45.Pools ids m' :=
  ⟨h.r1.2 _ P.zero1, h.r2.2 _ P.zero2, fun id hid => h.r1.2 _ (P.pool1 id hid), fun id hid => h.r2.2 _ (P.pool2 id hid), h.h10.pool P.h10,
    h.h11.pool P.h11, h.h20.pool P.h20, h.h21.pool P.h21⟩

theorem poolR {c : Ct B.C} {ids : Finset String} {pool : GoMap String (PolyR N)} (hz : "0" ∈ pool) (hp : ∀ id ∈ ids, id ∈ pool) (hc : c.ids ⊆ ids)
    {id : String} (h : id ∈ c) : ∃ x, pool.lookup id = some x := by
  refine Option.isSome_iff_exists.mp (AList.lookup_isSome.mpr ?_)
  by_cases e : id = "0"
  · rw [e]; exact hz
  · exact hp id (hc (Ct.mem_ids.mpr ⟨h, e⟩))

theorem readR_ok (o : Order String) {pool : GoMap String (PolyR N)} {op c : Ct B.C} {F : Poly B.C → PolyR N} (hk : ∀ id, id ∈ c ↔ id ∈ op)
    (h : UpOk pool F c []) : ∃ r, readR o pool op = .ok r ∧ ∀ id, r.lookup id = (c.lookup id).map F := by
  unfold readR
  obtain ⟨r, e1, e2⟩ := Go.loop_inv (fun (r : CtR N) id => do
      let x ← pool.deref id
      (.ok (r.insert id x) : Go (CtR N)))
    (fun pre r => ∀ id, r.lookup id = if id ∈ pre then (c.lookup id).map F else none) (GoMap.range o op) ∅ (by simp) (by
      intro pre id suf r hl hI
      have hid : id ∈ c := (hk id).mpr (GoMap.mem_range.mp (by rw [hl]; simp))
      obtain ⟨p, hp1⟩ := Ct.get hid
      have hx := (h.2 id p hp1).resolve_left (by simp)
      refine ⟨r.insert id (F p), by rw [GoMap.deref_ok hx, bind_ok], fun id' => ?_⟩
      rw [GoMap.lookup_insert', hI id']
      by_cases e : id' = id
      · subst e; rw [if_pos rfl, if_pos (by simp), hp1]; rfl
      · rw [if_neg e]
        have : id' ∈ pre ++ [id] ↔ id' ∈ pre := by rw [mem_append_singleton']; tauto
        simp only [this])
  refine ⟨r, e1, fun id => ?_⟩
  rw [e2 id]
  by_cases hc : id ∈ c
  · rw [if_pos (GoMap.mem_range.mpr ((hk id).mp hc))]
  · rw [if_neg (fun hh => hc ((hk id).mpr (GoMap.mem_range.mp hh)))]
    have : c.lookup id = none := by
      cases hl : c.lookup id with
      | none => rfl
      | some p => exact absurd (Ct.mem_of_lookup hl) hc
    rw [this]; rfl

/-- **the multiplication step**: a call whose operands are `t.op0` and `t.op1`, at a moment when the pools hold the components and digits of `c0` and
`c1` under the same identifiers, returns the product of `c0` and `c1` -/
theorem ready_run (V : B.Valid) {t : BTask B} (hr : t.stage = .ready) (hS : t.S.Alloc) {m : BRlkMap B} {c0 c1 : Ct B.C} (H : OpsOk crs c0 c1 m)
    (k0 : ∀ id, id ∈ c0 ↔ id ∈ t.op0) (k1 : ∀ id, id ∈ c1 ↔ id ∈ t.op1) (F : Full c0 c1 m) :
    ∃ out S', t.step crs m = .ok ({ t with stage := .done out, S := S' }, m) ∧ Returns crs c0 c1 m.value out := by
  obtain ⟨z, z1, z2, z3, z4⟩ := newBinary_ok t.o t.op0 t.op1
  obtain ⟨r0, a0, b0⟩ := readR_ok (t.o 120) k0 F.up0
  obtain ⟨r1, a1, b1⟩ := readR_ok (t.o 121) k1 F.up1
  have i0 : t.op0.ids = c0.ids := by ext id; rw [Ct.mem_ids, Ct.mem_ids, k0]
  have i1 : t.op1.ids = c1.ids := by ext id; rw [Ct.mem_ids, Ct.mem_ids, k1]
  rw [i0, i1] at z3 z4
  have g0 : ∀ id, ∃ d : ℕ → PolyQP B.C, id ∈ c0.ids → DigB r0 (some (m.hoist10, m.hoist20)) id d ∧
      ∀ k < 2 * B.bt, (digRG k (liftCt c0 id)).Agree B.top (d k) := fun id => by
    by_cases hid : id ∈ c0.ids
    · obtain ⟨s1, s2, t2, t3, t4, t5, t6⟩ := (F.dig0.2 id hid).resolve_left (by simp)
      exact ⟨_, fun _ => ⟨⟨s1, s2, t2, t3, t4, t5, rfl⟩, fun k hk => (t6 k hk).symm⟩⟩
    · exact ⟨fun _ => PolyQP.zero, fun h => absurd h hid⟩
  have g1 : ∀ id, ∃ d : ℕ → PolyQP B.C, id ∈ c1.ids → DigB r1 (some (m.hoist11, m.hoist21)) id d ∧
      ∀ k < 2 * B.bt, (digRG k (rescCt c1 id)).Agree B.top (d k) := fun id => by
    by_cases hid : id ∈ c1.ids
    · obtain ⟨s1, s2, t2, t3, t4, t5, t6⟩ := (F.dig1.2 id hid).resolve_left (by simp)
      exact ⟨_, fun _ => ⟨⟨s1, s2, t2, t3, t4, t5, rfl⟩, fun k hk => (t6 k hk).symm⟩⟩
    · exact ⟨fun _ => PolyQP.zero, fun h => absurd h hid⟩
  choose d0 hd0 using g0
  choose d1 hd1 using g1
  obtain ⟨out, S', f1, f2⟩ := mulAndRelinBFVHoisted_run V t.o (bmulOK_of V (H.hyp z2 z3) b0 b1 hS (some (m.hoist10, m.hoist20))
    (some (m.hoist11, m.hoist21)) d0 d1 (fun id hid => (hd0 id hid).1) (fun id hid => (hd1 id hid).1))
  refine ⟨out, S', ?_, z, z4, f2.congr V (fun id hid k hk => (hd0 id hid).2 k hk) (fun id hid k hk => (hd1 id hid).2 k hk)⟩
  simp only [BTask.step, hr]
  rw [z1, bind_ok, a0, bind_ok, a1, bind_ok, f1, bind_ok]

theorem dig_insert (h1 h2 : HoistedCt B.C) (x : PolyR N) (id : String) {s1 s2 : Swk B.C} (l1 : B.bt ≤ s1.len) (l2 : B.bt ≤ s2.len) :
    DigOk (h1.insert id ⟨s1.len, fun k => if k < B.bt then setQP B.top (digRG k x) (s1.val k) else s1.val k⟩)
      (h2.insert id ⟨s2.len, fun k => if k < B.bt then setQP B.top (digRG (k + B.bt) x) (s2.val k) else s2.val k⟩) x id := by
  refine ⟨⟨s1.len, fun k => if k < B.bt then setQP B.top (digRG k x) (s1.val k) else s1.val k⟩,
    ⟨s2.len, fun k => if k < B.bt then setQP B.top (digRG (k + B.bt) x) (s2.val k) else s2.val k⟩,
    by rw [GoMap.lookup_insert', if_pos rfl], by rw [GoMap.lookup_insert', if_pos rfl], l1, l2, ?_⟩
  rw [comb_forall (P := fun k g => PolyQP.Agree B.top g (digRG k x))]
  intro k hk
  simp only [if_pos hk]
  exact ⟨setQP_agree _ _ _, setQP_agree _ _ _⟩

/-- **a step of one call**: it does not panic, keeps the invariant, and writes only the entries of its operands -/
theorem TaskInv.step (V : B.Valid) {t0 : BTask B} {m0 : BRlkMap B} (H : CallOk crs t0 m0) {t : BTask B} {m : BRlkMap B} (I : TaskInv crs t0 m0 t m)
    (hd : ∀ out, t.stage ≠ .done out) : ∃ t' m', t.step crs m = .ok (t', m') ∧ TaskInv crs t0 m0 t' m' ∧ Changed t0 m m' := by
  obtain ⟨⟨S, st, rfl⟩, hS, hval, hp, hst⟩ := I
  replace hS := hS hd
  dsimp only at hS hst hd
  have etop := V.top_succ
  cases st with
  | start => exact ⟨_, m, rfl, ⟨⟨_, _, rfl⟩, fun _ => hS, hval, hp, UpOk.start _⟩, Changed.refl _ _⟩
  | up0 todo =>
    cases todo with
    | nil => exact ⟨_, m, rfl, ⟨⟨_, _, rfl⟩, fun _ => hS, hval, hp, hst, UpOk.start _⟩, Changed.refl _ _⟩
    | cons id todo =>
      have hid := hst.1 id (by simp)
      obtain ⟨p, hp1⟩ := Ct.get hid
      obtain ⟨x, hx⟩ := poolR hp.zero1 hp.pool1 subset_union_left hid
      have hc : Changed t0 m { m with polyR1 := m.polyR1.insert id (liftOf p) } :=
        ⟨rfl, .insert hid _, .refl _ _, .refl _ _, .refl _ _, .refl _ _, .refl _ _⟩
      refine ⟨{ t0 with S := S, stage := .up0 todo }, { m with polyR1 := m.polyR1.insert id (liftOf p) }, ?_,
        ⟨⟨_, _, rfl⟩, fun _ => hS, hval, hc.pools hp, hst.insert hp1⟩, hc⟩
      simp only [BTask.step]
      rw [GoMap.deref_ok hp1, bind_ok, GoMap.deref_ok hx, bind_ok, (liftOf_spec V p (by rw [H.ops.in0.len _ _ hp1]; omega)).1, bind_ok]
  | up1 todo =>
    cases todo with
    | nil =>
      obtain ⟨i, a1, -⟩ := Ct.idset (t0.o 122) t0.op0
      refine ⟨{ t0 with S := S, stage := .hoist0 (GoMap.range (t0.o 124) i.value) }, m, by simp only [BTask.step, a1, bind_ok],
        ⟨⟨_, _, rfl⟩, fun _ => hS, hval, hp, hst.1, hst.2, DigsOk.start _ _ a1⟩, Changed.refl _ _⟩
    | cons id todo =>
      have hid := hst.2.1 id (by simp)
      obtain ⟨p, hp1⟩ := Ct.get hid
      obtain ⟨x, hx⟩ := poolR hp.zero2 hp.pool2 subset_union_right hid
      have hc : Changed t0 m { m with polyR2 := m.polyR2.insert id (rescOf p) } :=
        ⟨rfl, .refl _ _, .insert hid _, .refl _ _, .refl _ _, .refl _ _, .refl _ _⟩
      refine ⟨{ t0 with S := S, stage := .up1 todo }, { m with polyR2 := m.polyR2.insert id (rescOf p) }, ?_,
        ⟨⟨_, _, rfl⟩, fun _ => hS, hval, hc.pools hp, hst.1, hst.2.insert hp1⟩, hc⟩
      simp only [BTask.step]
      rw [GoMap.deref_ok hp1, bind_ok, GoMap.deref_ok hx, bind_ok, (rescOf_spec V p (by rw [H.ops.in1.len _ _ hp1]; omega)).1, bind_ok]
  | hoist0 todo =>
    obtain ⟨u0, u1, d0⟩ := hst
    cases todo with
    | nil =>
      obtain ⟨i, a1, -⟩ := Ct.idset (t0.o 123) t0.op1
      refine ⟨{ t0 with S := S, stage := .hoist1 (GoMap.range (t0.o 125) i.value) }, m, by simp only [BTask.step, a1, bind_ok],
        ⟨⟨_, _, rfl⟩, fun _ => hS, hval, hp, u0, u1, d0, DigsOk.start _ _ a1⟩, Changed.refl _ _⟩
    | cons id todo =>
      have hid := d0.1 id (by simp)
      obtain ⟨p, hp1⟩ := Ct.get (Ct.mem_ids.mp hid).1
      obtain ⟨s1, x1, x2⟩ := hp.h10 id (mem_union_left _ hid)
      obtain ⟨s2, y1, y2⟩ := hp.h20 id (mem_union_left _ hid)
      have hx := (u0.2 id p hp1).resolve_left (by simp)
      obtain ⟨X, r1, -⟩ := (liftOf_spec V p (by rw [H.ops.in0.len _ _ hp1]; omega)).2
      obtain ⟨m', hm'⟩ : ∃ m' : BRlkMap B, m' = { m with
          hoist10 := m.hoist10.insert id ⟨s1.len, fun k => if k < B.bt then setQP B.top (digRG k (liftOf p)) (s1.val k) else s1.val k⟩
          hoist20 := m.hoist20.insert id ⟨s2.len, fun k => if k < B.bt then setQP B.top (digRG (k + B.bt) (liftOf p)) (s2.val k) else s2.val k⟩ } :=
        ⟨_, rfl⟩
      have hc : Changed t0 m m' := by
        rw [hm']
        exact ⟨rfl, .refl _ _, .refl _ _, .insert hid x1 rfl, .insert hid y1 rfl, .refl _ _, .refl _ _⟩
      refine ⟨{ t0 with S := S, stage := .hoist0 todo }, m', ?_, ⟨⟨_, _, rfl⟩, fun _ => hS, by rw [hc.value, hval], hc.pools hp, ?_⟩, hc⟩
      · simp only [BTask.step]
        rw [H.ops.in0.level_ok, bind_ok, GoMap.deref_ok hx, bind_ok, GoMap.deref_ok x1, bind_ok, GoMap.deref_ok y1, bind_ok,
          decomposeBFV_ok V S r1 s1 s2 x2 y2, bind_ok, hm']
      · subst hm'
        refine ⟨u0, u1, d0.insert ?_⟩
        rw [liftCt_eq hp1]
        exact dig_insert _ _ _ _ x2 y2
  | hoist1 todo =>
    obtain ⟨u0, u1, d0, d1⟩ := hst
    cases todo with
    | nil => exact ⟨_, m, rfl, ⟨⟨_, _, rfl⟩, fun _ => hS, hval, hp, u0, u1, d0, d1⟩, Changed.refl _ _⟩
    | cons id todo =>
      have hid := d1.1 id (by simp)
      obtain ⟨p, hp1⟩ := Ct.get (Ct.mem_ids.mp hid).1
      obtain ⟨s1, x1, x2⟩ := hp.h11 id (mem_union_right _ hid)
      obtain ⟨s2, y1, y2⟩ := hp.h21 id (mem_union_right _ hid)
      have hx := (u1.2 id p hp1).resolve_left (by simp)
      obtain ⟨X, _, _, r1, -⟩ := (rescOf_spec V p (by rw [H.ops.in1.len _ _ hp1]; omega)).2
      obtain ⟨m', hm'⟩ : ∃ m' : BRlkMap B, m' = { m with
          hoist11 := m.hoist11.insert id ⟨s1.len, fun k => if k < B.bt then setQP B.top (digRG k (rescOf p)) (s1.val k) else s1.val k⟩
          hoist21 := m.hoist21.insert id ⟨s2.len, fun k => if k < B.bt then setQP B.top (digRG (k + B.bt) (rescOf p)) (s2.val k) else s2.val k⟩ } :=
        ⟨_, rfl⟩
      have hc : Changed t0 m m' := by
        rw [hm']
        exact ⟨rfl, .refl _ _, .refl _ _, .refl _ _, .refl _ _, .insert hid x1 rfl, .insert hid y1 rfl⟩
      refine ⟨{ t0 with S := S, stage := .hoist1 todo }, m', ?_, ⟨⟨_, _, rfl⟩, fun _ => hS, by rw [hc.value, hval], hc.pools hp, ?_⟩, hc⟩
      · simp only [BTask.step]
        rw [H.ops.in1.level_ok, bind_ok, GoMap.deref_ok hx, bind_ok, GoMap.deref_ok x1, bind_ok, GoMap.deref_ok y1, bind_ok,
          decomposeBFV_ok V S r1 s1 s2 x2 y2, bind_ok, hm']
      · subst hm'
        refine ⟨u0, u1, d0, d1.insert ?_⟩
        rw [rescCt_eq hp1]
        exact dig_insert _ _ _ _ x2 y2
  | ready =>
    obtain ⟨out, S', e1, e2⟩ := ready_run V (t := { t0 with S := S, stage := .ready }) rfl hS (H.ops.of hval hp) (fun _ => Iff.rfl) (fun _ => Iff.rfl) hst
    exact ⟨_, m, e1, ⟨⟨S', .done out, rfl⟩, fun h => absurd rfl (h out), hval, hp, by rw [hval] at e2; exact e2⟩, Changed.refl _ _⟩
  | done out => exact absurd rfl (hd out)

theorem TaskInv.torn {t0 t : BTask B} {m0 m m' : BRlkMap B} (I : TaskInv crs t0 m0 t m) (h : BTorn t.stage m m') :
    TaskInv crs t0 m0 t m' ∧ Changed t0 m m' := by
  obtain ⟨st, hst⟩ : ∃ st, st = t.stage := ⟨_, rfl⟩
  have hs := I.stage
  rw [← hst] at h hs
  suffices hh : Changed t0 m m' ∧ StageOk crs t0.op0 t0.op1 m0 m' st from
    ⟨⟨I.eq, I.alloc, hh.1.value.trans I.value, hh.1.pools I.pools, by rw [← hst]; exact hh.2⟩, hh.1⟩
  cases h with
  | up0 x h => exact ⟨⟨rfl, .insert (hs.1 _ (by simp)) _, .refl _ _, .refl _ _, .refl _ _, .refl _ _, .refl _ _⟩, hs.torn x⟩
  | up1 x h => exact ⟨⟨rfl, .refl _ _, .insert (hs.2.1 _ (by simp)) _, .refl _ _, .refl _ _, .refl _ _, .refl _ _⟩, hs.1, hs.2.torn x⟩
  | hoist0 s1 s2 h1 h2 l1 l2 =>
    obtain ⟨u0, u1, d0⟩ := hs
    exact ⟨⟨rfl, .refl _ _, .refl _ _, .insert (d0.1 _ (by simp)) h1 l1, .insert (d0.1 _ (by simp)) h2 l2, .refl _ _, .refl _ _⟩, u0, u1, d0.torn s1 s2⟩
  | hoist1 s1 s2 h1 h2 l1 l2 =>
    obtain ⟨u0, u1, d0, d1⟩ := hs
    exact ⟨⟨rfl, .refl _ _, .refl _ _, .refl _ _, .refl _ _, .insert (d1.1 _ (by simp)) h1 l1, .insert (d1.1 _ (by simp)) h2 l2⟩, u0, u1, d0, d1.torn s1 s2⟩

/-! ## all calls together -/

/-- all calls succeed on their own -/
def AllOk (crs : GoMap ℤ (Swk B.C)) (w : BWorld ι B) : Prop := ∀ k, CallOk crs (w.task k) (w.sets (w.task k).set)

/-- no two calls were given the same key set -/
def OwnSets (w : BWorld ι B) : Prop := Function.Injective fun k => (w.task k).set

/-- the invariant of all calls -/
def Inv (crs : GoMap ℤ (Swk B.C)) (w0 w : BWorld ι B) : Prop :=
  ∀ k, TaskInv crs (w0.task k) (w0.sets (w0.task k).set) (w.task k) (w.sets (w0.task k).set)

variable {w0 w w' : BWorld ι B}

theorem TaskInv.start {t : BTask B} {m : BRlkMap B} (H : CallOk crs t m) : TaskInv crs t m t m :=
  ⟨⟨_, _, rfl⟩, fun _ => H.alloc, rfl, H.ops.pools, by rw [H.start]; trivial⟩

theorem TaskInv.set {t0 t : BTask B} {m0 m : BRlkMap B} (I : TaskInv crs t0 m0 t m) : t.set = t0.set := by
  obtain ⟨S, st, h⟩ := I.eq
  rw [h]

theorem Inv.put (I : Inv crs w0 w) (A : OwnSets w0) {k : ι} {t : BTask B} {m : BRlkMap B}
    (ht : TaskInv crs (w0.task k) (w0.sets (w0.task k).set) t m) : Inv crs w0 (w.put k t m) := by
  intro j
  unfold BWorld.put
  dsimp only
  rw [(I k).set]
  by_cases e : j = k
  · subst e
    rw [Function.update_self, Function.update_self]
    exact ht
  · rw [Function.update_of_ne e, Function.update_of_ne (fun h => e (A h))]
    exact I j

/-- a call that has stopped writing to the pools -/
def Idle (t : BTask B) : Prop := t.stage = .ready ∨ ∃ out, t.stage = .done out

theorem step_idle {t t' : BTask B} {m m' : BRlkMap B} (hi : Idle t) (h : t.step crs m = .ok (t', m')) : m' = m ∧ Idle t' := by
  rcases hi with hi | ⟨out, hi⟩
  · simp only [BTask.step, hi] at h
    obtain ⟨_, -, h⟩ := Go.bind_ok h
    obtain ⟨_, -, h⟩ := Go.bind_ok h
    obtain ⟨_, -, h⟩ := Go.bind_ok h
    obtain ⟨_, -, h⟩ := Go.bind_ok h
    injection h with h
    injection h with h3 h4
    subst h3 h4
    exact ⟨rfl, .inr ⟨_, rfl⟩⟩
  · simp only [BTask.step, hi] at h; cases h

theorem torn_idle {t : BTask B} {m m' : BRlkMap B} (hi : Idle t) (h : BTorn t.stage m m') : False := by
  rcases hi with hi | ⟨out, hi⟩ <;> rw [hi] at h <;> cases h

/-- what a transition does: one call moves on, and writes nothing if it has stopped writing -/
theorem Inv.trans (V : B.Valid) (H : AllOk crs w0) (I : Inv crs w0 w) (h : BTrans crs w w') :
    ∃ k t m, w' = w.put k t m ∧ TaskInv crs (w0.task k) (w0.sets (w0.task k).set) t m ∧ (Idle (w.task k) → m = w.sets (w0.task k).set ∧ Idle t) := by
  cases h with
  | @act k t m h =>
    have hd : ∀ out, (w.task k).stage ≠ .done out := fun out e => by unfold BTask.step at h; rw [e] at h; cases h
    obtain ⟨t', m', s1, s2, -⟩ := (I k).step V (H k) hd
    rw [(I k).set] at h
    have h' := Except.ok.inj (s1.symm.trans h)
    injection h' with h1 h2
    subst h1 h2
    exact ⟨k, _, _, rfl, s2, fun hi => step_idle hi h⟩
  | @torn k m h =>
    rw [(I k).set] at h
    exact ⟨k, _, _, rfl, ((I k).torn h).1, fun hi => (torn_idle hi h).elim⟩

theorem inv_reach (V : B.Valid) (H : AllOk crs w0) (A : OwnSets w0) (R : BReach crs w0 w) : Inv crs w0 w := by
  induction R with
  | refl => exact fun k => .start (H k)
  | tail _ h I =>
    obtain ⟨k, t, m, rfl, h1, -⟩ := I.trans V H h
    exact I.put A h1

/-- **stability**: from the moment a call has prepared its operands, its key set does not change, so that it makes no difference at which
moments the multiplication reads it -/
theorem stable (V : B.Valid) (H : AllOk crs w0) (A : OwnSets w0) (R : BReach crs w0 w) {k : ι} (hk : (w.task k).stage = .ready)
    (R' : BReach crs w w') : w'.sets (w0.task k).set = w.sets (w0.task k).set := by
  suffices h : Idle (w'.task k) ∧ w'.sets (w0.task k).set = w.sets (w0.task k).set from h.2
  induction R' with
  | refl => exact ⟨.inl hk, rfl⟩
  | @tail w1 w2 R1 h ih =>
    have I := inv_reach V H A (R.trans R1)
    obtain ⟨j, t, m, rfl, -, h3⟩ := I.trans V H h
    obtain ⟨i1, i2⟩ := ih
    unfold BWorld.put
    dsimp only
    rw [(I j).set]
    by_cases e : k = j
    · subst e
      obtain ⟨f1, f2⟩ := h3 i1
      rw [Function.update_self, Function.update_self, f1]
      exact ⟨f2, i2⟩
    · rw [Function.update_of_ne e, Function.update_of_ne (fun h => e (A h))]
      exact ⟨i1, i2⟩

/-- **C78, where it holds.** Any number of goroutines call the BFV `MulRelinNew`, each with an evaluator and a key set of its own, in any schedule; each
call would succeed on its own. Then no call panics, and what a call has returned is what it returns when it runs alone.
Missing: calls that share a key set. For these the claim is false, whatever the parties of the operands (`race`). -/
theorem calls_partial (V : B.Valid) (H : AllOk crs w0) (A : OwnSets w0) (R : BReach crs w0 w) (k : ι) :
    ((∀ out, (w.task k).stage ≠ .done out) → ∃ r, (w.task k).step crs (w.sets (w.task k).set) = .ok r) ∧
    ∀ out, (w.task k).stage = .done out → ∃ a S', bfvMulRelinNew crs (w0.task k).o (w0.task k).S (w0.task k).op0 (w0.task k).op1
      (w0.sets (w0.task k).set) = .ok (a, S') ∧ out.Same a := by
  have I := inv_reach V H A R
  refine ⟨fun hd => ?_, fun out ho => ?_⟩
  · obtain ⟨t', m', s1, -, -⟩ := (I k).step V (H k) hd
    rw [(I k).set]
    exact ⟨_, s1⟩
  · have hst := (I k).stage
    rw [ho] at hst
    obtain ⟨a, S', a1, a2⟩ := alone_returns V (w0.task k).o (H k).alloc (H k).ops
    exact ⟨a, S', a1, hst.unique a2⟩

/-! ## calls finish -/

/-- the number of steps a call has left -/
def left (t : BTask B) : ℕ :=
  match t.stage with
  | .start => t.op0.keys.length + t.op1.keys.length + t.op0.ids.card + t.op1.ids.card + 6
  | .up0 todo => todo.length + t.op1.keys.length + t.op0.ids.card + t.op1.ids.card + 5
  | .up1 todo => todo.length + t.op0.ids.card + t.op1.ids.card + 4
  | .hoist0 todo => todo.length + t.op1.ids.card + 3
  | .hoist1 todo => todo.length + 2
  | .ready => 1
  | .done _ => 0

theorem range_len (o : Order String) (c : Ct B.C) : (GoMap.range o c).length = c.keys.length := (o.perm c.keys).length_eq

/-- every step brings a call closer to its end -/
theorem step_left {t t' : BTask B} {m m' : BRlkMap B} (h : t.step crs m = .ok (t', m')) : left t' < left t := by
  unfold BTask.step at h
  unfold left
  split at h <;> rename_i hs <;> rw [hs] <;> dsimp only
  · cases h; dsimp only; rw [range_len]; omega
  · obtain ⟨_, -, h⟩ := Go.bind_ok h
    obtain ⟨_, -, h⟩ := Go.bind_ok h
    obtain ⟨_, -, h⟩ := Go.bind_ok h
    cases h; dsimp only; rw [List.length_cons]; omega
  · cases h; dsimp only; rw [range_len, List.length_nil]; omega
  · obtain ⟨_, -, h⟩ := Go.bind_ok h
    obtain ⟨_, -, h⟩ := Go.bind_ok h
    obtain ⟨_, -, h⟩ := Go.bind_ok h
    cases h; dsimp only; rw [List.length_cons]; omega
  · obtain ⟨_, h1, h⟩ := Go.bind_ok h
    cases h; dsimp only; rw [C77.range_length _ _ _ h1, List.length_nil]; omega
  · obtain ⟨_, -, h⟩ := Go.bind_ok h
    obtain ⟨_, -, h⟩ := Go.bind_ok h
    obtain ⟨_, -, h⟩ := Go.bind_ok h
    obtain ⟨_, -, h⟩ := Go.bind_ok h
    obtain ⟨_, -, h⟩ := Go.bind_ok h
    cases h; dsimp only; rw [List.length_cons]; omega
  · obtain ⟨_, h1, h⟩ := Go.bind_ok h
    cases h; dsimp only; rw [C77.range_length _ _ _ h1, List.length_nil]; omega
  · obtain ⟨_, -, h⟩ := Go.bind_ok h
    obtain ⟨_, -, h⟩ := Go.bind_ok h
    obtain ⟨_, -, h⟩ := Go.bind_ok h
    obtain ⟨_, -, h⟩ := Go.bind_ok h
    obtain ⟨_, -, h⟩ := Go.bind_ok h
    cases h; dsimp only; rw [List.length_cons]; omega
  · cases h; dsimp only; rw [List.length_nil]; omega
  · obtain ⟨_, -, h⟩ := Go.bind_ok h
    obtain ⟨_, -, h⟩ := Go.bind_ok h
    obtain ⟨_, -, h⟩ := Go.bind_ok h
    obtain ⟨_, -, h⟩ := Go.bind_ok h
    cases h; dsimp only; omega
  · cases h

/-- from every reachable moment every call can finish -/
theorem finishes (V : B.Valid) (H : AllOk crs w0) (A : OwnSets w0) (R : BReach crs w0 w) (k : ι) :
    ∃ w' out, BReach crs w w' ∧ (w'.task k).stage = .done out := by
  obtain ⟨n, hn⟩ : ∃ n, left (w.task k) = n := ⟨_, rfl⟩
  induction n using Nat.strong_induction_on generalizing w with
  | _ n ih =>
    by_cases hd : ∃ out, (w.task k).stage = .done out
    · obtain ⟨out, ho⟩ := hd
      exact ⟨w, out, Relation.ReflTransGen.refl, ho⟩
    · obtain ⟨r, hr⟩ := (calls_partial V H A R k).1 fun out ho => hd ⟨out, ho⟩
      have ht : BTrans crs w (w.put k r.1 r.2) := .act k hr
      have hl : left ((w.put k r.1 r.2).task k) < n := by
        rw [← hn]
        unfold BWorld.put
        dsimp only
        rw [Function.update_self]
        exact step_left hr
      obtain ⟨w', out, R', ho⟩ := ih _ hl (R.tail ht) rfl
      exact ⟨w', out, Relation.ReflTransGen.head ht R', ho⟩

end C78
end MKHE
