import Verif.Model.Shared
import Verif.Lemmas.Heap
import Verif.Props.MulNew

set_option autoImplicit false

/-!
# Concurrent multiplications that share a relinearization key set (C77)

The wanted property: goroutines with an evaluator each may call `MulRelinNew` with one key set, and every call returns what it returns when
it runs alone. `Props/SharedRace.lean` refutes it. Here it is proved, for any number of goroutines and every schedule, when no two calls
with one key set use the same entry of a hoisting pool; in particular for goroutines with key sets of their own, and for
`MulRelinHoistedNew` with hoisted operands, which uses no pool at all.
-/

namespace MKHE
open Finset Nega

variable {N : ℕ} [NeZero N] {C : Ctx N}

theorem hoistInto_eq (o1 o2 : Order String) (S : Scratch C) (op : Ct C) (pool : HoistedCt C) :
    hoistInto o1 o2 S op pool = (do
      let ids ← IDSet.ofCiphertext o1 op
      Go.loop (hoistOne op) (pool, S) (GoMap.range o2 ids.value)) := rfl

theorem hoistOne_ok (V : C.Valid) {op : Ct C} {l : ℕ} (hl : l < C.nQ) (h : op.AtLevel l) {id : String} (hid : id ∈ op.ids) (S : Scratch C)
    {pool : HoistedCt C} {s : Swk C} (hp : pool.lookup id = some s) (hs : C.beta l ≤ s.len) :
    ∃ S', hoistOne op (pool, S) id = .ok (pool.insert id (hoistEntry l op id s), S') ∧ S.Same S' := by
  obtain ⟨a, ha⟩ := Ct.get (Ct.mem_ids.mp hid).1
  obtain ⟨S2, c1, c2⟩ := decompose_ok V S hl (a := a) (by rw [h.len _ _ ha]; omega) s hs
  refine ⟨S2, ?_, c1⟩
  unfold hoistOne
  dsimp only
  rw [h.level, bind_ok, GoMap.deref_ok ha, bind_ok, GoMap.deref_ok hp, bind_ok, c2, bind_ok]
  unfold hoistEntry
  rw [Ct.comp_eq ha]

/-- the entry of a pool for a party holds the digits of its component -/
def EntryOk (l : ℕ) (op : Ct C) (pool : HoistedCt C) (id : String) : Prop :=
  ∃ s, pool.lookup id = some s ∧ C.beta l ≤ s.len ∧ ∀ k < C.beta l, (s.val k).Agree l (digG l k (op.comp id))

theorem EntryOk.congr {l : ℕ} {op : Ct C} {pool pool' : HoistedCt C} {id : String} (h : EntryOk l op pool id)
    (e : pool'.lookup id = pool.lookup id) : EntryOk l op pool' id := by
  obtain ⟨s, h1, h2⟩ := h
  exact ⟨s, e.trans h1, h2⟩

theorem entryOk_insert {l : ℕ} {op : Ct C} {pool : HoistedCt C} {id : String} {s : Swk C} (hs : C.beta l ≤ s.len) :
    EntryOk l op (pool.insert id (hoistEntry l op id s)) id := by
  refine ⟨hoistEntry l op id s, by rw [GoMap.lookup_insert', if_pos rfl], hs, fun k hk => ?_⟩
  show (if k < C.beta l then setQP l (digG l k (op.comp id)) (s.val k) else s.val k).Agree l _
  rw [if_pos hk]
  exact setQP_agree _ _ _

/-- a pool that differs at most at the entries of some parties, and has there an entry of the same size -/
def Wrote (ids : Finset String) (pool pool' : HoistedCt C) : Prop :=
  (∀ id, id ∉ ids → pool'.lookup id = pool.lookup id) ∧ ∀ id s, pool.lookup id = some s → ∃ s', pool'.lookup id = some s' ∧ s'.len = s.len

theorem Wrote.refl (ids : Finset String) (pool : HoistedCt C) : Wrote ids pool pool := ⟨fun _ _ => rfl, fun _ s h => ⟨s, h, rfl⟩⟩

theorem Wrote.insert {ids : Finset String} {pool : HoistedCt C} {id : String} (hid : id ∈ ids) {s s' : Swk C} (hs : pool.lookup id = some s)
    (hl : s'.len = s.len) : Wrote ids pool (pool.insert id s') := by
  refine ⟨fun i hi => ?_, fun i v hv => ?_⟩
  · rw [GoMap.lookup_insert', if_neg (fun e : i = id => hi (by rw [e]; exact hid))]
  · rw [GoMap.lookup_insert']
    by_cases e : i = id
    · subst e
      rw [if_pos rfl]
      rw [hs] at hv
      injection hv with hv
      exact ⟨s', rfl, by rw [hl, hv]⟩
    · rw [if_neg e]; exact ⟨v, hv, rfl⟩

theorem Wrote.pool {ids s : Finset String} {n : ℕ} {pool pool' : HoistedCt C} (h : Wrote ids pool pool') (hp : PoolOK n s pool) : PoolOK n s pool' := by
  intro id hid
  obtain ⟨v, v1, v2⟩ := hp id hid
  obtain ⟨v', w1, w2⟩ := h.2 id v v1
  exact ⟨v', w1, by omega⟩

/-- the parties whose entries of the first hoisting pool a call uses: those of the first operand, unless it was given hoisted operands -/
def Task.uses0 (t : Task C) : Finset String := if t.pre.isNone then t.op0.ct.ids else ∅

/-- the parties whose entries of the second hoisting pool a call uses: those of the second operand, unless the operands are one object or
the call was given hoisted operands -/
def Task.uses1 (t : Task C) : Finset String := if t.pre.isNone ∧ t.same = false then t.op1.ct.ids else ∅

namespace C77

variable {ι : Type} [DecidableEq ι] {pscale : ℚ} {crs : GoMap ℤ (Swk C)}

/-- a call that would succeed if it ran alone: operands at levels `l0`, `l1`, keys of all their parties, hoisting pools with an entry for
each, an evaluator, and a scale that the final rescaling can handle -/
structure CallOk (pscale : ℚ) (crs : GoMap ℤ (Swk C)) (t : Task C) (rlk : RlkMap C) (l0 l1 : ℕ) : Prop where
  start : t.stage = .start
  prod : ProdHyp crs l0 l1 t.op0.ct t.op1.ct rlk
  ev : t.E.ksw.Alloc (C.beta (min l0 l1))
  same : t.same = true → t.op1 = t.op0 ∧ l1 = l0
  pool0 : PoolOK (C.beta l0) t.op0.ct.ids rlk.pool0
  pool1 : PoolOK (C.beta l1) t.op1.ct.ids rlk.pool1
  pre : ∀ h, t.pre = some h → IsHoisted l0 t.op0.ct h.1 ∧ IsHoisted l1 t.op1.ct h.2
  base : 0 < pscale
  scale : C.fm.mul t.op0.scale t.op1.scale ≠ 0
  drops : ∃ n, Drops C.fm C.q (min l0 l1) (C.fm.mul t.op0.scale t.op1.scale) pscale n

/-- no two calls that were given the same key set use the same entry of one of its pools -/
def Apart (w : World ι C) : Prop := ∀ k k', k ≠ k' → (w.task k).set = (w.task k').set →
  Disjoint (w.task k).uses0 (w.task k').uses0 ∧ Disjoint (w.task k).uses1 (w.task k').uses1

/-- the ciphertext a call returns -/
def Returns (pscale : ℚ) (crs : GoMap ℤ (Swk C)) (l0 l1 : ℕ) (c0 c1 : CCt C) (rlk : RlkMap C) (out : CCt C) : Prop :=
  ∃ p : Ct C, p.Made (min l0 l1) (c0.ct.ids ∪ c1.ct.ids) (mulRows crs l0 l1 c0.ct c1.ct rlk) ∧ ∃ o e,
    rescale o ⟨p, C.fm.mul c0.scale c1.scale⟩ pscale ⟨p, C.fm.mul c0.scale c1.scale⟩ true = .ok (e, out)

/-- what holds of the key set at each stage of a call -/
def StageOk (pscale : ℚ) (crs : GoMap ℤ (Swk C)) (l0 l1 : ℕ) (t : Task C) (rlk0 : RlkMap C) (m : RlkMap C) : Stage C → Prop
  | .start => True
  | .hoist0 todo => t.pre = none ∧ (∀ id ∈ todo, id ∈ t.op0.ct.ids) ∧ ∀ id ∈ t.op0.ct.ids, id ∈ todo ∨ EntryOk l0 t.op0.ct m.pool0 id
  | .hoist1 todo => t.pre = none ∧ t.same = false ∧ (∀ id ∈ t.op0.ct.ids, EntryOk l0 t.op0.ct m.pool0 id) ∧
      (∀ id ∈ todo, id ∈ t.op1.ct.ids) ∧ ∀ id ∈ t.op1.ct.ids, id ∈ todo ∨ EntryOk l1 t.op1.ct m.pool1 id
  | .ready => t.pre = none → (∀ id ∈ t.op0.ct.ids, EntryOk l0 t.op0.ct m.pool0 id) ∧
      (t.same = false → ∀ id ∈ t.op1.ct.ids, EntryOk l1 t.op1.ct m.pool1 id)
  | .done out => Returns pscale crs l0 l1 t.op0 t.op1 rlk0 out

/-- `t` is the call `t0` at a later moment, when its key set, initially `m0`, is `m` -/
structure TaskInv (pscale : ℚ) (crs : GoMap ℤ (Swk C)) (l0 l1 : ℕ) (t0 : Task C) (m0 : RlkMap C) (t : Task C) (m : RlkMap C) : Prop where
  eq : ∃ E st, t = { t0 with E := E, stage := st }
  ev : (∀ out, t.stage ≠ .done out) → t.E.ksw.Alloc (C.beta (min l0 l1))
  value : m.value = m0.value
  pool0 : PoolOK (C.beta l0) t0.op0.ct.ids m.pool0
  pool1 : PoolOK (C.beta l1) t0.op1.ct.ids m.pool1
  stage : StageOk pscale crs l0 l1 t0 m0 m t.stage

/-- two key set contents between which only the entries of some parties were written -/
structure Changed (t0 : Task C) (m m' : RlkMap C) : Prop where
  value : m'.value = m.value
  pool0 : Wrote t0.uses0 m.pool0 m'.pool0
  pool1 : Wrote t0.uses1 m.pool1 m'.pool1

theorem Changed.refl (t0 : Task C) (m : RlkMap C) : Changed t0 m m := ⟨rfl, Wrote.refl _ _, Wrote.refl _ _⟩

theorem uses0_eq {t : Task C} (h : t.pre = none) : t.uses0 = t.op0.ct.ids := by unfold Task.uses0; rw [h]; rfl

theorem uses1_eq {t : Task C} (h : t.pre = none) (h' : t.same = false) : t.uses1 = t.op1.ct.ids := by unfold Task.uses1; rw [h, h']; rfl

/-- **a step of one call**: it does not panic, keeps the invariant, and writes only its own entries -/
theorem TaskInv.step (V : C.Valid) {l0 l1 : ℕ} {t0 : Task C} {m0 : RlkMap C} (H : CallOk pscale crs t0 m0 l0 l1) {t : Task C} {m : RlkMap C}
    (I : TaskInv pscale crs l0 l1 t0 m0 t m) (hd : ∀ out, t.stage ≠ .done out) : ∃ t' m', t.step pscale crs m = .ok (t', m') ∧
      TaskInv pscale crs l0 l1 t0 m0 t' m' ∧ Changed t0 m m' := by
  obtain ⟨⟨E, st, rfl⟩, hev, hval, hp0, hp1, hst⟩ := I
  replace hev := hev hd
  dsimp only at hev hst hd
  cases st with
  | start =>
    cases hpre : t0.pre with
    | some h =>
      refine ⟨{ t0 with E := E, stage := .ready }, m, by simp only [Task.step, hpre], ⟨⟨_, _, rfl⟩, fun _ => hev, hval, hp0, hp1, fun hn => ?_⟩, Changed.refl _ _⟩
      rw [hpre] at hn; cases hn
    | none =>
      obtain ⟨ids, a1, a2⟩ := Ct.idset (t0.o 92) t0.op0.ct
      have hmem : ∀ id, id ∈ GoMap.range (t0.o 93) ids.value ↔ id ∈ t0.op0.ct.ids := fun id => by
        rw [GoMap.mem_range, IDSet.mem_value_iff, a2]
      refine ⟨{ t0 with E := E, stage := .hoist0 (GoMap.range (t0.o 93) ids.value) }, m, by simp only [Task.step, hpre, a1, bind_ok],
        ⟨⟨_, _, rfl⟩, fun _ => hev, hval, hp0, hp1, hpre, fun id h => (hmem id).mp h, fun id h => .inl ((hmem id).mpr h)⟩, Changed.refl _ _⟩
  | hoist0 todo =>
    obtain ⟨hpre, h1, h2⟩ := hst
    cases todo with
    | nil =>
      have hh : ∀ id ∈ t0.op0.ct.ids, EntryOk l0 t0.op0.ct m.pool0 id := fun id hid => (h2 id hid).resolve_left (by simp)
      cases hs : t0.same with
      | true =>
        refine ⟨{ t0 with E := E, stage := .ready }, m, by simp only [Task.step, hs]; rfl, ⟨⟨_, _, rfl⟩, fun _ => hev, hval, hp0, hp1, fun _ => ⟨hh, fun hf => ?_⟩⟩,
          Changed.refl _ _⟩
        rw [hs] at hf; cases hf
      | false =>
        obtain ⟨ids, a1, a2⟩ := Ct.idset (t0.o 94) t0.op1.ct
        have hmem : ∀ id, id ∈ GoMap.range (t0.o 95) ids.value ↔ id ∈ t0.op1.ct.ids := fun id => by
          rw [GoMap.mem_range, IDSet.mem_value_iff, a2]
        refine ⟨{ t0 with E := E, stage := .hoist1 (GoMap.range (t0.o 95) ids.value) }, m, ?_,
          ⟨⟨_, _, rfl⟩, fun _ => hev, hval, hp0, hp1, hpre, hs, hh, fun id h => (hmem id).mp h, fun id h => .inl ((hmem id).mpr h)⟩, Changed.refl _ _⟩
        simp only [Task.step, hs, a1, bind_ok]; rfl
    | cons id todo =>
      have hid := h1 id (by simp)
      obtain ⟨s, s1, s2⟩ := hp0 id hid
      obtain ⟨S', e1, e2⟩ := hoistOne_ok V H.prod.lvl0 H.prod.in0 hid E.ksw s1 s2
      have hw : Wrote t0.uses0 m.pool0 (m.pool0.insert id (hoistEntry l0 t0.op0.ct id s)) := Wrote.insert (by rw [uses0_eq hpre]; exact hid) s1 rfl
      refine ⟨{ t0 with E := { E with ksw := S' }, stage := .hoist0 todo }, { m with pool0 := m.pool0.insert id (hoistEntry l0 t0.op0.ct id s) },
        by simp only [Task.step, e1, bind_ok], ⟨⟨_, _, rfl⟩, fun _ => e2.alloc hev, hval, hw.pool hp0, hp1, hpre, fun i h => h1 i (by simp [h]), fun i h => ?_⟩,
        rfl, hw, Wrote.refl _ _⟩
      by_cases e : i = id
      · subst e; exact .inr (entryOk_insert s2)
      · rcases h2 i h with h3 | h3
        · exact .inl ((List.mem_cons.mp h3).resolve_left e)
        · exact .inr (h3.congr (by dsimp only; rw [GoMap.lookup_insert', if_neg e]))
  | hoist1 todo =>
    obtain ⟨hpre, hs, hh, h1, h2⟩ := hst
    cases todo with
    | nil =>
      exact ⟨{ t0 with E := E, stage := .ready }, m, by simp only [Task.step], ⟨⟨_, _, rfl⟩, fun _ => hev, hval, hp0, hp1, fun _ => ⟨hh, fun _ id hid =>
        (h2 id hid).resolve_left (by simp)⟩⟩, Changed.refl _ _⟩
    | cons id todo =>
      have hid := h1 id (by simp)
      obtain ⟨s, s1, s2⟩ := hp1 id hid
      obtain ⟨S', e1, e2⟩ := hoistOne_ok V H.prod.lvl1 H.prod.in1 hid E.ksw s1 s2
      have hw : Wrote t0.uses1 m.pool1 (m.pool1.insert id (hoistEntry l1 t0.op1.ct id s)) := Wrote.insert (by rw [uses1_eq hpre hs]; exact hid) s1 rfl
      refine ⟨{ t0 with E := { E with ksw := S' }, stage := .hoist1 todo }, { m with pool1 := m.pool1.insert id (hoistEntry l1 t0.op1.ct id s) },
        by simp only [Task.step, e1, bind_ok], ⟨⟨_, _, rfl⟩, fun _ => e2.alloc hev, hval, hp0, hw.pool hp1, hpre, hs, hh, fun i h => h1 i (by simp [h]), fun i h => ?_⟩,
        rfl, Wrote.refl _ _, hw⟩
      by_cases e : i = id
      · subst e; exact .inr (entryOk_insert s2)
      · rcases h2 i h with h3 | h3
        · exact .inl ((List.mem_cons.mp h3).resolve_left e)
        · exact .inr (h3.congr (by dsimp only; rw [GoMap.lookup_insert', if_neg e]))
  | ready =>
    have Hk : ProdHyp crs l0 l1 t0.op0.ct t0.op1.ct m := ⟨H.prod.lvl0, H.prod.lvl1, H.prod.in0, H.prod.in1, by rw [hval]; exact H.prod.keys, H.prod.crsU⟩
    obtain ⟨h0, h1, k0, k1, hstep⟩ : ∃ h0 h1 : HoistedCt C, IsHoisted l0 t0.op0.ct h0 ∧ IsHoisted l1 t0.op1.ct h1 ∧
        ({ t0 with E := E, stage := .ready } : Task C).step pscale crs m = (do
          let r ← ckksMulRelinHoistedNew pscale crs t0.o E t0.op0 t0.op1 (some h0) (some h1) m
          .ok ({ t0 with E := r.2, stage := .done r.1 }, m)) := by
      cases hpre : t0.pre with
      | some h => exact ⟨h.1, h.2, (H.pre h hpre).1, (H.pre h hpre).2, by simp only [Task.step, hpre]⟩
      | none =>
        obtain ⟨g0, g1⟩ := hst hpre
        cases hs : t0.same with
        | true =>
          obtain ⟨e1, e2⟩ := H.same hs
          refine ⟨m.pool0, m.pool0, g0, by rw [e1, e2]; exact g0, ?_⟩
          simp only [Task.step, hpre, hs]; rfl
        | false =>
          refine ⟨m.pool0, m.pool1, g0, g1 hs, ?_⟩
          simp only [Task.step, hpre, hs]; rfl
    obtain ⟨p, S', b1, b2⟩ := ckksMulRelinHoistedNew_run V pscale t0.o E hev Hk k0 k1
    obtain ⟨n, hn⟩ := H.drops
    obtain ⟨e, r, r1, -, -⟩ := rescale_inplace (t0.o 91) (ct := ⟨p, C.fm.mul t0.op0.scale t0.op1.scale⟩) b1.atLevel H.base H.scale hn
    rw [r1] at b2
    rw [hstep, b2]
    refine ⟨{ t0 with E := { E with ksw := S' }, stage := .done r }, m, rfl, ⟨⟨_, _, rfl⟩, fun h => absurd rfl (h r), hval, hp0, hp1, p, ?_, t0.o 91, e, r1⟩, Changed.refl _ _⟩
    · rw [show mulRows crs l0 l1 t0.op0.ct t0.op1.ct m0 = mulRows crs l0 l1 t0.op0.ct t0.op1.ct m from
        C24.mulRows_congr (c0 := t0.op0) (c1 := t0.op1) (Ct.Same.refl _) (Ct.Same.refl _) (fun id => by rw [hval]) rfl]
      exact b1
  | done out => exact absurd rfl (hd out)

/-- what the other calls write does not disturb a call -/
theorem TaskInv.other {l0 l1 : ℕ} {t0 t1 t : Task C} {m0 m m' : RlkMap C} (I : TaskInv pscale crs l0 l1 t0 m0 t m) (h : Changed t1 m m')
    (d0 : Disjoint t0.uses0 t1.uses0) (d1 : Disjoint t0.uses1 t1.uses1) : TaskInv pscale crs l0 l1 t0 m0 t m' := by
  have e0 : t0.pre = none → ∀ id ∈ t0.op0.ct.ids, m'.pool0.lookup id = m.pool0.lookup id := fun hp id hid =>
    h.pool0.1 id (disjoint_left.mp d0 (by rw [uses0_eq hp]; exact hid))
  have e1 : t0.pre = none → t0.same = false → ∀ id ∈ t0.op1.ct.ids, m'.pool1.lookup id = m.pool1.lookup id := fun hp hs id hid =>
    h.pool1.1 id (disjoint_left.mp d1 (by rw [uses1_eq hp hs]; exact hid))
  refine ⟨I.eq, I.ev, h.value.trans I.value, h.pool0.pool I.pool0, h.pool1.pool I.pool1, ?_⟩
  have hst := I.stage
  cases hs : t.stage with
  | start => trivial
  | hoist0 todo =>
    rw [hs] at hst
    obtain ⟨a, b, c⟩ := hst
    exact ⟨a, b, fun id hid => (c id hid).imp (fun x => x) fun x => x.congr (e0 a id hid)⟩
  | hoist1 todo =>
    rw [hs] at hst
    obtain ⟨a, b, c, d, e⟩ := hst
    exact ⟨a, b, fun id hid => (c id hid).congr (e0 a id hid), d, fun id hid => (e id hid).imp (fun x => x) fun x => x.congr (e1 a b id hid)⟩
  | ready =>
    rw [hs] at hst
    exact fun hp => ⟨fun id hid => ((hst hp).1 id hid).congr (e0 hp id hid), fun hs id hid => ((hst hp).2 hs id hid).congr (e1 hp hs id hid)⟩
  | done out => rw [hs] at hst; exact hst

theorem TaskInv.torn0 {l0 l1 : ℕ} {t0 t : Task C} {m0 m : RlkMap C} (I : TaskInv pscale crs l0 l1 t0 m0 t m) {id : String} {todo : List String}
    (h : t.stage = .hoist0 (id :: todo)) {s s' : Swk C} (hs : m.pool0.lookup id = some s) (hl : s'.len = s.len) :
    TaskInv pscale crs l0 l1 t0 m0 t { m with pool0 := m.pool0.insert id s' } ∧ Changed t0 m { m with pool0 := m.pool0.insert id s' } := by
  have hst := I.stage
  rw [h] at hst
  obtain ⟨a, b, c⟩ := hst
  have hw : Wrote t0.uses0 m.pool0 (m.pool0.insert id s') := Wrote.insert (by rw [uses0_eq a]; exact b id (by simp)) hs hl
  refine ⟨⟨I.eq, I.ev, I.value, hw.pool I.pool0, I.pool1, ?_⟩, rfl, hw, Wrote.refl _ _⟩
  rw [h]
  refine ⟨a, b, fun i hi => ?_⟩
  by_cases e : i = id
  · subst e; exact .inl (by simp)
  · exact (c i hi).imp (fun x => x) fun x => x.congr (by dsimp only; rw [GoMap.lookup_insert', if_neg e])

theorem TaskInv.torn1 {l0 l1 : ℕ} {t0 t : Task C} {m0 m : RlkMap C} (I : TaskInv pscale crs l0 l1 t0 m0 t m) {id : String} {todo : List String}
    (h : t.stage = .hoist1 (id :: todo)) {s s' : Swk C} (hs : m.pool1.lookup id = some s) (hl : s'.len = s.len) :
    TaskInv pscale crs l0 l1 t0 m0 t { m with pool1 := m.pool1.insert id s' } ∧ Changed t0 m { m with pool1 := m.pool1.insert id s' } := by
  have hst := I.stage
  rw [h] at hst
  obtain ⟨a, b, c, d, f⟩ := hst
  have hw : Wrote t0.uses1 m.pool1 (m.pool1.insert id s') := Wrote.insert (by rw [uses1_eq a b]; exact d id (by simp)) hs hl
  refine ⟨⟨I.eq, I.ev, I.value, I.pool0, hw.pool I.pool1, ?_⟩, rfl, Wrote.refl _ _, hw⟩
  rw [h]
  refine ⟨a, b, c, d, fun i hi => ?_⟩
  by_cases e : i = id
  · subst e; exact .inl (by simp)
  · exact (f i hi).imp (fun x => x) fun x => x.congr (by dsimp only; rw [GoMap.lookup_insert', if_neg e])

/-! ## all calls together -/

/-- all calls succeed on their own -/
def AllOk (pscale : ℚ) (crs : GoMap ℤ (Swk C)) (l0 l1 : ι → ℕ) (w : World ι C) : Prop :=
  ∀ k, CallOk pscale crs (w.task k) (w.sets (w.task k).set) (l0 k) (l1 k)

/-- the invariant of all calls -/
def Inv (pscale : ℚ) (crs : GoMap ℤ (Swk C)) (l0 l1 : ι → ℕ) (w0 w : World ι C) : Prop :=
  ∀ k, TaskInv pscale crs (l0 k) (l1 k) (w0.task k) (w0.sets (w0.task k).set) (w.task k) (w.sets (w0.task k).set)

variable {l0 l1 : ι → ℕ} {w0 w w' : World ι C}

theorem Inv.start (H : AllOk pscale crs l0 l1 w0) : Inv pscale crs l0 l1 w0 w0 := fun k =>
  ⟨⟨_, _, rfl⟩, fun _ => (H k).ev, rfl, (H k).pool0, (H k).pool1, by rw [(H k).start]; trivial⟩

theorem Inv.set (I : Inv pscale crs l0 l1 w0 w) (k : ι) : (w.task k).set = (w0.task k).set := by
  obtain ⟨E, st, h⟩ := (I k).eq
  rw [h]

theorem Inv.put (I : Inv pscale crs l0 l1 w0 w) (A : Apart w0) {k : ι} {t : Task C} {m : RlkMap C}
    (ht : TaskInv pscale crs (l0 k) (l1 k) (w0.task k) (w0.sets (w0.task k).set) t m) (hc : Changed (w0.task k) (w.sets (w0.task k).set) m) :
    Inv pscale crs l0 l1 w0 (w.put k t m) := by
  intro j
  unfold World.put
  dsimp only
  rw [I.set]
  by_cases e : j = k
  · subst e
    rw [Function.update_self, Function.update_self]
    exact ht
  · rw [Function.update_of_ne e]
    by_cases es : (w0.task j).set = (w0.task k).set
    · obtain ⟨d0, d1⟩ := A j k e es
      have hj := I j
      rw [es] at hj ⊢
      rw [Function.update_self]
      exact hj.other hc d0 d1
    · rw [Function.update_of_ne es]
      exact I j

/-- a call that has stopped writing to the pools -/
def Idle (t : Task C) : Prop := t.stage = .ready ∨ ∃ out, t.stage = .done out

theorem step_idle {t t' : Task C} {m m' : RlkMap C} (hi : Idle t) (h : t.step pscale crs m = .ok (t', m')) : m' = m ∧ Idle t' := by
  rcases hi with hi | ⟨out, hi⟩
  · simp only [Task.step, hi] at h
    obtain ⟨r, -, h2⟩ := Go.bind_ok h
    injection h2 with h2
    injection h2 with h3 h4
    subst h3 h4
    exact ⟨rfl, .inr ⟨_, rfl⟩⟩
  · simp only [Task.step, hi] at h; cases h

/-- what a transition does: one call moves on, and writes only its own entries; none if it has stopped writing -/
theorem Inv.trans (V : C.Valid) (H : AllOk pscale crs l0 l1 w0) (I : Inv pscale crs l0 l1 w0 w) (h : Trans pscale crs w w') :
    ∃ k t m, w' = w.put k t m ∧ TaskInv pscale crs (l0 k) (l1 k) (w0.task k) (w0.sets (w0.task k).set) t m ∧
      Changed (w0.task k) (w.sets (w0.task k).set) m ∧ (Idle (w.task k) → m = w.sets (w0.task k).set ∧ Idle t) := by
  cases h with
  | @act k t m h =>
    have hd : ∀ out, (w.task k).stage ≠ .done out := fun out e => by unfold Task.step at h; rw [e] at h; cases h
    obtain ⟨t', m', s1, s2, s3⟩ := (I k).step V (H k) hd
    rw [I.set k] at h
    have h' := Except.ok.inj (s1.symm.trans h)
    injection h' with h1 h2
    subst h1 h2
    exact ⟨k, _, _, rfl, s2, s3, fun hi => step_idle hi h⟩
  | @torn0 k id todo h s s' hs hl =>
    rw [I.set k] at hs ⊢
    obtain ⟨a, b⟩ := (I k).torn0 h hs hl
    exact ⟨k, _, _, rfl, a, b, fun hi => by rcases hi with hi | ⟨_, hi⟩ <;> rw [h] at hi <;> cases hi⟩
  | @torn1 k id todo h s s' hs hl =>
    rw [I.set k] at hs ⊢
    obtain ⟨a, b⟩ := (I k).torn1 h hs hl
    exact ⟨k, _, _, rfl, a, b, fun hi => by rcases hi with hi | ⟨_, hi⟩ <;> rw [h] at hi <;> cases hi⟩

theorem inv_reach (V : C.Valid) (H : AllOk pscale crs l0 l1 w0) (A : Apart w0) (R : Reach pscale crs w0 w) : Inv pscale crs l0 l1 w0 w := by
  induction R with
  | refl => exact Inv.start H
  | tail _ h I =>
    obtain ⟨k, t, m, rfl, h1, h2, -⟩ := I.trans V H h
    exact I.put A h1 h2

/-- **stability**: from the moment a call has decomposed its operands, the entries it reads do not change, so that it makes no difference
at which moments the multiplication reads them -/
theorem stable (V : C.Valid) (H : AllOk pscale crs l0 l1 w0) (A : Apart w0) (R : Reach pscale crs w0 w) {k : ι}
    (hk : (w.task k).stage = .ready) (R' : Reach pscale crs w w') :
    (∀ id ∈ (w0.task k).uses0, (w'.sets (w0.task k).set).pool0.lookup id = (w.sets (w0.task k).set).pool0.lookup id) ∧
    (∀ id ∈ (w0.task k).uses1, (w'.sets (w0.task k).set).pool1.lookup id = (w.sets (w0.task k).set).pool1.lookup id) ∧
    (w'.sets (w0.task k).set).value = (w.sets (w0.task k).set).value := by
  suffices h : Idle (w'.task k) ∧ (∀ id ∈ (w0.task k).uses0, (w'.sets (w0.task k).set).pool0.lookup id = (w.sets (w0.task k).set).pool0.lookup id) ∧
      (∀ id ∈ (w0.task k).uses1, (w'.sets (w0.task k).set).pool1.lookup id = (w.sets (w0.task k).set).pool1.lookup id) ∧
      (w'.sets (w0.task k).set).value = (w.sets (w0.task k).set).value from h.2
  induction R' with
  | refl => exact ⟨.inl hk, fun _ _ => rfl, fun _ _ => rfl, rfl⟩
  | @tail w1 w2 R1 h ih =>
    have I := inv_reach V H A (R.trans R1)
    obtain ⟨j, t, m, rfl, h1, h2, h3⟩ := I.trans V H h
    obtain ⟨i1, i2, i3, i4⟩ := ih
    unfold World.put
    dsimp only
    rw [I.set]
    by_cases e : k = j
    · subst e
      obtain ⟨f1, f2⟩ := h3 i1
      rw [Function.update_self, Function.update_self, f1]
      exact ⟨f2, i2, i3, i4⟩
    · rw [Function.update_of_ne e]
      by_cases es : (w0.task k).set = (w0.task j).set
      · obtain ⟨d0, d1⟩ := A k j e es
        rw [es] at i2 i3 i4 ⊢
        rw [Function.update_self]
        exact ⟨i1, fun id hid => (h2.pool0.1 id (disjoint_left.mp d0 hid)).trans (i2 id hid), fun id hid =>
          (h2.pool1.1 id (disjoint_left.mp d1 hid)).trans (i3 id hid), h2.value.trans i4⟩
      · rw [Function.update_of_ne es]
        exact ⟨i1, i2, i3, i4⟩

/-! ## the result -/

theorem Returns.unique {pscale : ℚ} {crs : GoMap ℤ (Swk C)} {l0 l1 : ℕ} {c0 c1 : CCt C} {rlk : RlkMap C} {a b : CCt C} {n : ℕ} (hp : 0 < pscale)
    (hs : C.fm.mul c0.scale c1.scale ≠ 0) (hn : Drops C.fm C.q (min l0 l1) (C.fm.mul c0.scale c1.scale) pscale n)
    (ha : Returns pscale crs l0 l1 c0 c1 rlk a) (hb : Returns pscale crs l0 l1 c0 c1 rlk b) : a.ct.Same b.ct ∧ a.scale = b.scale := by
  obtain ⟨p, p1, o, e, p2⟩ := ha
  obtain ⟨q, q1, o', e', q2⟩ := hb
  have hpq : p.Same q := p1.same q1 fun _ _ _ _ => rfl
  obtain ⟨ea, a', c1', c2, c3⟩ := rescale_inplace o (ct := ⟨p, C.fm.mul c0.scale c1.scale⟩) p1.atLevel hp hs hn
  obtain ⟨eb, b', d1', d2, d3⟩ := rescale_inplace o' (ct := ⟨q, C.fm.mul c0.scale c1.scale⟩) q1.atLevel hp hs hn
  rw [p2] at c1'
  rw [q2] at d1'
  injection c1' with c1'
  injection d1' with d1'
  injection c1' with x1 x2
  injection d1' with y1 y2
  subst x1 x2 y1 y2
  refine ⟨fun id => ?_, c2.trans d2.symm⟩
  rw [c3, d3]
  dsimp only
  rw [hpq id, hpq.comp]

/-- what a call returns when it runs alone -/
theorem alone_returns (V : C.Valid) {l0 l1 : ℕ} {t : Task C} {rlk : RlkMap C} (H : CallOk pscale crs t rlk l0 l1) :
    ∃ a, t.alone pscale crs rlk = .ok a ∧ Returns pscale crs l0 l1 t.op0 t.op1 rlk a := by
  obtain ⟨n, hn⟩ := H.drops
  unfold Task.alone
  cases hpre : t.pre with
  | none =>
    obtain ⟨p, E', rlk', a1, a2, a3⟩ := ckksMulRelinNew_run V pscale t.o t.E H.ev H.same H.prod H.pool0 H.pool1
    obtain ⟨e, r, r1, -, -⟩ := rescale_inplace (t.o 91) (ct := ⟨p, C.fm.mul t.op0.scale t.op1.scale⟩) a1.atLevel H.base H.scale hn
    dsimp only
    rw [a3, r1]
    exact ⟨r, rfl, p, a1, t.o 91, e, r1⟩
  | some h =>
    obtain ⟨p, S', b1, b2⟩ := ckksMulRelinHoistedNew_run V pscale t.o t.E H.ev H.prod (H.pre h hpre).1 (H.pre h hpre).2
    obtain ⟨e, r, r1, -, -⟩ := rescale_inplace (t.o 91) (ct := ⟨p, C.fm.mul t.op0.scale t.op1.scale⟩) b1.atLevel H.base H.scale hn
    dsimp only
    rw [b2, r1]
    exact ⟨r, rfl, p, b1, t.o 91, e, r1⟩

/-- **C77, where it holds.** Any number of goroutines call `MulRelinNew` or `MulRelinHoistedNew`, each with an evaluator of its own, in any
schedule; each call would succeed on its own, and no two of them use the same entry of a pool of one key set. Then no call panics, and what a
call has returned is what it returns when it runs alone.
Missing: calls that share a key set and a party. For these the claim is false (`race`). -/
theorem calls_partial (V : C.Valid) (H : AllOk pscale crs l0 l1 w0) (A : Apart w0) (R : Reach pscale crs w0 w) (k : ι) :
    ((∀ out, (w.task k).stage ≠ .done out) → ∃ r, (w.task k).step pscale crs (w.sets (w.task k).set) = .ok r) ∧
    ∀ out, (w.task k).stage = .done out → ∃ a, (w0.task k).alone pscale crs (w0.sets (w0.task k).set) = .ok a ∧
      out.ct.Same a.ct ∧ out.scale = a.scale := by
  have I := inv_reach V H A R
  refine ⟨fun hd => ?_, fun out ho => ?_⟩
  · obtain ⟨t', m', s1, -, -⟩ := (I k).step V (H k) hd
    rw [I.set k]
    exact ⟨_, s1⟩
  · have hst := (I k).stage
    rw [ho] at hst
    obtain ⟨a, a1, a2⟩ := alone_returns V (H k)
    obtain ⟨n, hn⟩ := (H k).drops
    exact ⟨a, a1, Returns.unique (H k).base (H k).scale hn hst a2⟩

/-- goroutines with key sets of their own never disturb each other -/
theorem own_sets_partial (V : C.Valid) (H : AllOk pscale crs l0 l1 w0) (hi : Function.Injective fun k => (w0.task k).set)
    (R : Reach pscale crs w0 w) (k : ι) :
    ((∀ out, (w.task k).stage ≠ .done out) → ∃ r, (w.task k).step pscale crs (w.sets (w.task k).set) = .ok r) ∧
    ∀ out, (w.task k).stage = .done out → ∃ a, (w0.task k).alone pscale crs (w0.sets (w0.task k).set) = .ok a ∧
      out.ct.Same a.ct ∧ out.scale = a.scale :=
  calls_partial V H (fun _ _ hk he => absurd (hi he) hk) R k

/-- calls of `MulRelinHoistedNew` with hoisted operands never disturb each other, whatever key sets they share -/
theorem hoisted_partial (V : C.Valid) (H : AllOk pscale crs l0 l1 w0) (hh : ∀ k, (w0.task k).pre ≠ none)
    (R : Reach pscale crs w0 w) (k : ι) :
    ((∀ out, (w.task k).stage ≠ .done out) → ∃ r, (w.task k).step pscale crs (w.sets (w.task k).set) = .ok r) ∧
    ∀ out, (w.task k).stage = .done out → ∃ a, (w0.task k).alone pscale crs (w0.sets (w0.task k).set) = .ok a ∧
      out.ct.Same a.ct ∧ out.scale = a.scale := by
  have e : ∀ k, (w0.task k).uses0 = ∅ ∧ (w0.task k).uses1 = ∅ := fun k => by
    obtain ⟨h, hk⟩ := Option.ne_none_iff_exists'.mp (hh k)
    unfold Task.uses0 Task.uses1
    rw [hk]
    exact ⟨rfl, rfl⟩
  refine calls_partial V H (fun j j' _ _ => ?_) R k
  rw [(e j).1, (e j).2]
  exact ⟨disjoint_empty_left _, disjoint_empty_left _⟩

/-! ## calls finish -/

/-- the number of steps a call has left -/
def left (t : Task C) : ℕ :=
  match t.stage with
  | .start => t.op0.ct.ids.card + t.op1.ct.ids.card + 4
  | .hoist0 todo => todo.length + t.op1.ct.ids.card + 3
  | .hoist1 todo => todo.length + 2
  | .ready => 1
  | .done _ => 0

theorem range_length (o1 o2 : Order String) (op : Ct C) {ids : IDSet} (h : IDSet.ofCiphertext o1 op = .ok ids) :
    (GoMap.range o2 ids.value).length = op.ids.card := by
  obtain ⟨ids', a1, a2⟩ := Ct.idset o1 op
  obtain rfl : ids' = ids := Except.ok.inj (a1.symm.trans h)
  rw [← List.toFinset_card_of_nodup (GoMap.nodup_range _ _)]
  congr 1
  ext id
  rw [List.mem_toFinset, GoMap.mem_range, IDSet.mem_value_iff, a2]

/-- every step brings a call closer to its end: it takes at most one step per component of its operands and four more -/
theorem step_left {t t' : Task C} {m m' : RlkMap C} (h : t.step pscale crs m = .ok (t', m')) : left t' < left t := by
  unfold Task.step at h
  unfold left
  split at h
  · rename_i hs
    rw [hs]
    split at h
    · cases h; dsimp only; omega
    · obtain ⟨ids, h1, h2⟩ := Go.bind_ok h
      cases h2
      dsimp only
      rw [range_length _ _ _ h1]
      omega
  · rename_i hs
    obtain ⟨w, h1, h2⟩ := Go.bind_ok h
    cases h2
    rw [hs]; dsimp only; rw [List.length_cons]; omega
  · rename_i hs
    rw [hs]
    split at h
    · cases h; dsimp only; simp
    · obtain ⟨ids, h1, h2⟩ := Go.bind_ok h
      cases h2
      dsimp only
      rw [range_length _ _ _ h1, List.length_nil]
      omega
  · rename_i hs
    obtain ⟨w, h1, h2⟩ := Go.bind_ok h
    cases h2
    rw [hs]; dsimp only; rw [List.length_cons]; omega
  · rename_i hs
    cases h
    rw [hs]; dsimp only; rw [List.length_nil]; omega
  · rename_i hs
    obtain ⟨w, h1, h2⟩ := Go.bind_ok h
    cases h2
    rw [hs]; dsimp only; omega
  · cases h

/-- from every reachable moment every call can finish -/
theorem finishes (V : C.Valid) (H : AllOk pscale crs l0 l1 w0) (A : Apart w0) (R : Reach pscale crs w0 w) (k : ι) :
    ∃ w' out, Reach pscale crs w w' ∧ (w'.task k).stage = .done out := by
  obtain ⟨n, hn⟩ : ∃ n, left (w.task k) = n := ⟨_, rfl⟩
  induction n using Nat.strong_induction_on generalizing w with
  | _ n ih =>
    by_cases hd : ∃ out, (w.task k).stage = .done out
    · obtain ⟨out, ho⟩ := hd
      exact ⟨w, out, Relation.ReflTransGen.refl, ho⟩
    · obtain ⟨r, hr⟩ := (calls_partial V H A R k).1 fun out ho => hd ⟨out, ho⟩
      have ht : Trans pscale crs w (w.put k r.1 r.2) := .act k hr
      have hl : left ((w.put k r.1 r.2).task k) < n := by
        rw [← hn]
        unfold World.put
        dsimp only
        rw [Function.update_self]
        exact step_left hr
      obtain ⟨w', out, R', ho⟩ := ih _ hl (R.tail ht) rfl
      exact ⟨w', out, Relation.ReflTransGen.head ht R', ho⟩

end C77
end MKHE
