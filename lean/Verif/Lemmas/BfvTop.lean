import Verif.Lemmas.BfvMul

set_option autoImplicit false

/-!
# From BFV ciphertexts to the specification of the BFV multiplication
-/

namespace MKHE
open Finset Nega

variable {N : ℕ} [NeZero N] {B : BCtx N}

/-- the polynomial over R that `ModUpQtoR` writes -/
def liftOf (a : Poly B.C) : PolyR N :=
  match modUpQtoR B (fun _ _ => 0) a with
  | .ok r => r
  | .error _ => ⟨fun _ _ => 0, fun _ _ => 0⟩

/-- the polynomial over R that `Rescale` writes -/
def rescOf (a : Poly B.C) : PolyR N :=
  match rescaleR B (fun _ _ => 0) (fun _ _ => 0) a with
  | .ok r => r
  | .error _ => ⟨fun _ _ => 0, fun _ _ => 0⟩

theorem liftOf_spec (V : B.Valid) (a : Poly B.C) (ha : B.C.nQ ≤ a.len) :
    (∀ pool, modUpQtoR B pool a = .ok (liftOf a)) ∧ ∃ X : Nega N ℤ, (liftOf a).Rep B X ∧ Bdd X (2 * B.Q) ∧
      ∀ i < B.C.nQ, red (B.C.q i) X = cf (a.rows i) := by
  obtain ⟨r, X, h1, h2⟩ := modUpQtoR_spec V a ha
  have : liftOf a = r := by unfold liftOf; rw [h1]
  rw [this]
  exact ⟨h1, X, h2⟩

theorem rescOf_spec (V : B.Valid) (a : Poly B.C) (ha : B.C.nQ ≤ a.len) :
    (∀ poolM poolQ, rescaleR B poolM poolQ a = .ok (rescOf a)) ∧ ∃ Y x' X : Nega N ℤ, (rescOf a).Rep B Y ∧ Bdd Y (2 * B.QMul) ∧
      Bdd X (2 * B.Q) ∧ (B.Q : Nega N ℤ) * Y = (B.QMul : Nega N ℤ) * x' - X ∧
      ∀ i < B.C.nQ, red (B.C.q i) x' = cf (a.rows i) := by
  obtain ⟨r, Y, x', X, h1, h2⟩ := rescaleR_spec V a ha
  have : rescOf a = r := by unfold rescOf; rw [h1]
  rw [this]
  exact ⟨h1, Y, x', X, h2⟩

/-- the conversion loops of `mulRelin` and `mulRelinHoisted` -/
theorem toR_ok {f : Poly B.C → Go (PolyR N)} {F : Poly B.C → PolyR N} {ct : Ct B.C} (o : Order String) {pool : GoMap String (PolyR N)}
    (hf : ∀ id p, ct.lookup id = some p → f p = .ok (F p)) (hp : ∀ id ∈ ct, id ∈ pool) :
    ∃ r, toR f o pool ct = .ok r ∧ ∀ id, r.lookup id = (ct.lookup id).map F := by
  unfold toR
  obtain ⟨r, e1, e2⟩ := Go.loop_inv (fun (r : CtR N) id => do
      let a ← ct.deref id
      let _ ← pool.deref id
      let x ← f a
      (.ok (r.insert id x) : Go (CtR N)))
    (fun pre r => ∀ id, r.lookup id = if id ∈ pre then (ct.lookup id).map F else none) (GoMap.range o ct) ∅ (by simp) (by
      intro pre id suf r hl hI
      have hid : id ∈ ct := GoMap.mem_range.mp (by rw [hl]; simp)
      obtain ⟨p, hp1⟩ := Ct.get hid
      obtain ⟨q, hq1⟩ := Option.isSome_iff_exists.mp (AList.lookup_isSome.mpr (hp id hid))
      refine ⟨r.insert id (F p), ?_, fun id' => ?_⟩
      · rw [GoMap.deref_ok hp1, bind_ok, GoMap.deref_ok hq1, bind_ok, hf id p hp1, bind_ok]
      · rw [GoMap.lookup_insert', hI id']
        by_cases e : id' = id
        · subst e; rw [if_pos rfl, if_pos (by simp), hp1]; rfl
        · rw [if_neg e]
          have : id' ∈ pre ++ [id] ↔ id' ∈ pre := by rw [mem_append_singleton']; tauto
          simp only [this])
  refine ⟨r, e1, fun id => ?_⟩
  rw [e2 id]
  by_cases h : id ∈ ct
  · rw [if_pos (GoMap.mem_range.mpr h)]
  · rw [if_neg (fun hh => h (GoMap.mem_range.mp hh))]
    have : ct.lookup id = none := by
      cases hl : ct.lookup id with
      | none => rfl
      | some p => exact absurd (Ct.mem_of_lookup hl) h
    rw [this]; rfl

/-- the hoisting loops of `mulRelinHoisted` -/
theorem hoistB_ok (V : B.Valid) (S : BScratch B) {ctR : CtR N} (l : List String) (hnd : l.Nodup) (h : HoistedCt B.C × HoistedCt B.C)
    (ha : ∀ id ∈ l, ∃ a X, ctR.lookup id = some a ∧ a.Rep B X)
    (hp : ∀ id ∈ l, (∃ s, h.1.lookup id = some s ∧ B.bt ≤ s.len) ∧ ∃ s, h.2.lookup id = some s ∧ B.bt ≤ s.len) :
    ∃ h', hoistB S B.top ctR l h = .ok h' ∧ ∀ id ∈ l, ∃ a s1 s2, ctR.lookup id = some a ∧ h'.1.lookup id = some s1 ∧
      h'.2.lookup id = some s2 ∧ B.bt ≤ s1.len ∧ B.bt ≤ s2.len ∧
      ∀ k < 2 * B.bt, (comb B.bt s1.val s2.val k).Agree B.top (digRG k a) := by
  unfold hoistB
  obtain ⟨h', e1, e2, e3⟩ := Go.loop_inv (fun (h : HoistedCt B.C × HoistedCt B.C) id => do
      let a ← ctR.deref id
      let h1 ← h.1.deref id
      let h2 ← h.2.deref id
      let w ← decomposeBFV S B.top a h1 h2
      (.ok (h.1.insert id w.1, h.2.insert id w.2) : Go (HoistedCt B.C × HoistedCt B.C)))
    (fun pre h' => (∀ id, id ∉ pre → h'.1.lookup id = h.1.lookup id ∧ h'.2.lookup id = h.2.lookup id) ∧
      ∀ id ∈ pre, ∃ a s1 s2, ctR.lookup id = some a ∧ h'.1.lookup id = some s1 ∧
      h'.2.lookup id = some s2 ∧ B.bt ≤ s1.len ∧ B.bt ≤ s2.len ∧
      ∀ k < 2 * B.bt, (comb B.bt s1.val s2.val k).Agree B.top (digRG k a)) l h ⟨fun _ _ => ⟨rfl, rfl⟩, by simp⟩ (by
      rintro pre id suf ⟨g1, g2⟩ hl ⟨hI, hJ⟩
      have hid : id ∈ l := by rw [hl]; simp
      have hpre : id ∉ pre := nodup_split hnd hl
      obtain ⟨a, X, a1, a2⟩ := ha id hid
      obtain ⟨⟨s1, b1, b2⟩, s2, b3, b4⟩ := hp id hid
      obtain ⟨c1, c2⟩ := hI id hpre
      dsimp only at c1 c2
      refine ⟨_, by rw [GoMap.deref_ok a1, bind_ok, GoMap.deref_ok (c1.trans b1), bind_ok, GoMap.deref_ok (c2.trans b3), bind_ok,
        decomposeBFV_ok V S a2 s1 s2 b2 b4, bind_ok], fun id' hid' => ?_, fun id' hid' => ?_⟩
      · have hh := mt mem_append_singleton'.mpr hid'
        push Not at hh
        dsimp only
        rw [GoMap.lookup_insert', GoMap.lookup_insert', if_neg hh.1, if_neg hh.1]
        exact hI id' hh.2
      · dsimp only
        by_cases e : id' = id
        · subst e
          refine ⟨a, ⟨s1.len, fun k => if k < B.bt then setQP B.top (digRG k a) (s1.val k) else s1.val k⟩,
            ⟨s2.len, fun k => if k < B.bt then setQP B.top (digRG (k + B.bt) a) (s2.val k) else s2.val k⟩, a1, by rw [GoMap.lookup_insert', if_pos rfl], by rw [GoMap.lookup_insert', if_pos rfl], b2, b4, ?_⟩
          rw [comb_forall (P := fun k g => PolyQP.Agree B.top g (digRG k a))]
          intro k hk
          simp only [if_pos hk]
          exact ⟨setQP_agree _ _ _, setQP_agree _ _ _⟩
        · rw [GoMap.lookup_insert', GoMap.lookup_insert', if_neg e, if_neg e]
          exact hJ id' ((mem_append_singleton'.mp hid').resolve_left e))
  exact ⟨h', e1, e3⟩

/-- component `sel` of `Value[0]` and `Value[1]` of the key of a party -/
def bkeyFor (rlk : GoMap String (BRlk B.C)) (sel : Rlk B.C → Swk B.C) (id : String) : ℕ → PolyQP B.C :=
  match rlk.lookup id with
  | some r => comb B.bt (sel r.k1).val (sel r.k2).val
  | none => fun _ => PolyQP.zero

/-- component `v` of the key of a party -/
def bkeyV (rlk : GoMap String (BRlk B.C)) (id : String) : ℕ → PolyQP B.C :=
  match rlk.lookup id with
  | some r => r.k1.v.val
  | none => fun _ => PolyQP.zero

/-- the lifted components of the first operand -/
def liftCt (ct : Ct B.C) (id : String) : PolyR N :=
  match ct.lookup id with
  | some p => liftOf p
  | none => ⟨fun _ _ => 0, fun _ _ => 0⟩

/-- the rescaled components of the second operand -/
def rescCt (ct : Ct B.C) (id : String) : PolyR N :=
  match ct.lookup id with
  | some p => rescOf p
  | none => ⟨fun _ _ => 0, fun _ _ => 0⟩

/-- the data of a BFV multiplication -/
def bmulIn (crs : GoMap ℤ (Swk B.C)) (ct0 ct1 : Ct B.C) (rlk : GoMap String (BRlk B.C)) : BMulIn B where
  ids0 := ct0.ids
  ids1 := ct1.ids
  a0 := liftCt ct0
  a1 := rescCt ct1
  h0 := fun id k => digRG k (liftCt ct0 id)
  h1 := fun id k => digRG k (rescCt ct1 id)
  d := bkeyFor rlk Rlk.d
  b := bkeyFor rlk Rlk.b
  v := bkeyV rlk
  u := match crs.lookup (-1) with
    | some u => u.val
    | none => fun _ => PolyQP.zero

/-- what a BFV multiplication needs in order not to panic: operands and result at the maximal level (the only one BFV ciphertexts have),
the result with the parties of both operands, complete relinearization keys for all of them (each `Value` entry with `beta` components)
together with the pools `AddRelinearizationKey` creates beside each key, and the common reference string of `v` -/
structure BMulHyp (crs : GoMap ℤ (Swk B.C)) (ct0 ct1 : Ct B.C) (set : BRlkMap B) (out : Ct B.C) : Prop where
  in0 : ct0.AtLevel B.top
  in1 : ct1.AtLevel B.top
  res : out.AtLevel B.top
  ids : out.ids = ct0.ids ∪ ct1.ids
  keys : ∀ id ∈ ct0.ids ∪ ct1.ids, ∃ key, set.value.lookup id = some key ∧ B.bt ≤ key.k1.b.len ∧ B.bt ≤ key.k2.b.len ∧
    B.bt ≤ key.k1.d.len ∧ B.bt ≤ key.k2.d.len ∧ B.bt ≤ key.k1.v.len
  crsU : ∃ u, crs.lookup (-1) = some u ∧ B.bt ≤ u.len
  zero1 : "0" ∈ set.polyR1
  zero2 : "0" ∈ set.polyR2
  pool1 : ∀ id ∈ ct0.ids ∪ ct1.ids, id ∈ set.polyR1
  pool2 : ∀ id ∈ ct0.ids ∪ ct1.ids, id ∈ set.polyR2
  h10 : ∀ id ∈ ct0.ids ∪ ct1.ids, ∃ s, set.hoist10.lookup id = some s ∧ B.bt ≤ s.len
  h11 : ∀ id ∈ ct0.ids ∪ ct1.ids, ∃ s, set.hoist11.lookup id = some s ∧ B.bt ≤ s.len
  h20 : ∀ id ∈ ct0.ids ∪ ct1.ids, ∃ s, set.hoist20.lookup id = some s ∧ B.bt ≤ s.len
  h21 : ∀ id ∈ ct0.ids ∪ ct1.ids, ∃ s, set.hoist21.lookup id = some s ∧ B.bt ≤ s.len

/-- the specified rows only depend on the digits up to the level -/
theorem bmulOut_congr (V : B.Valid) (M : BMulIn B) (h0 h1 : String → ℕ → PolyQP B.C)
    (e0 : ∀ id ∈ M.ids0, ∀ k < 2 * B.bt, (M.h0 id k).Agree B.top (h0 id k))
    (e1 : ∀ id ∈ M.ids1, ∀ k < 2 * B.bt, (M.h1 id k).Agree B.top (h1 id k)) (id : String) (i : ℕ) :
    M.out id i = ({ M with h0 := h0, h1 := h1 } : BMulIn B).out id i := by
  set M' : BMulIn B := { M with h0 := h0, h1 := h1 } with hM'
  have hx : ∀ k < 2 * B.bt, (M.x k).Agree B.top (M'.x k) := fun k hk => vecG_congr fun id hid => e0 id hid k hk
  have hy : ∀ k < 2 * B.bt, (M.y k).Agree B.top (M'.y k) := fun k hk => vecG_congr fun id hid => e1 id hid k hk
  have hw : ∀ id ∈ M.ids0, M.w id = M'.w id := fun id hid => epB_congr V (e0 id hid) hy
  have hE : ∀ id ∈ M.ids1, epB (M.h1 id) M.x = epB (M'.h1 id) M'.x := fun id hid => epB_congr V (e1 id hid) hx
  have i0 : M'.ids0 = M.ids0 := rfl
  have i1 : M'.ids1 = M.ids1 := rfl
  have ht : ∀ id, M'.tens id = M.tens id := fun _ => rfl
  unfold BMulIn.out
  split_ifs with hz
  · have : ∑ id ∈ M.ids0, cf (epG B.top (digs B.top (M.w id)) (M.v id) i) =
        ∑ id ∈ M'.ids0, cf (epG B.top (digs B.top (M'.w id)) (M'.v id) i) :=
      sum_congr rfl fun id hid => by rw [hw id hid]
    unfold BMulIn.out0
    rw [this, ht]
  · unfold BMulIn.outI
    rw [i0, i1, ht]
    have t1 : (if id ∈ M.ids1 then cf (epB (M.h1 id) M.x i) else 0) =
        if id ∈ M.ids1 then cf (epB (M'.h1 id) M'.x i) else 0 := by
      split_ifs with h
      · rw [hE id h]
      · rfl
    have t2 : (if id ∈ M.ids0 then cf (epG B.top (digs B.top (M.w id)) M.u i) else 0) =
        if id ∈ M.ids0 then cf (epG B.top (digs B.top (M'.w id)) M'.u i) else 0 := by
      split_ifs with h
      · rw [hw id h]
      · rfl
    rw [t1, t2]

theorem BMulRes.congr (V : B.Valid) {out out' : Ct B.C} {M : BMulIn B} {h0 h1 : String → ℕ → PolyQP B.C}
    (e0 : ∀ id ∈ M.ids0, ∀ k < 2 * B.bt, (M.h0 id k).Agree B.top (h0 id k))
    (e1 : ∀ id ∈ M.ids1, ∀ k < 2 * B.bt, (M.h1 id k).Agree B.top (h1 id k))
    (h : BMulRes out ({ M with h0 := h0, h1 := h1 } : BMulIn B) out') : BMulRes out M out' := by
  obtain ⟨R, r1, r2⟩ := h
  exact ⟨R, r1, fun id hid i hi => by rw [r2 id hid i hi, bmulOut_congr V M h0 h1 e0 e1]⟩

section
variable {crs : GoMap ℤ (Swk B.C)} {ct0 ct1 out : Ct B.C} {set : BRlkMap B}

theorem BMulHyp.conv (V : B.Valid) (H : BMulHyp crs ct0 ct1 set out) (o1 o2 : Order String) (pool pM pQ : Fin N → ℕ → ℕ) :
    ∃ r0 r1, toR (modUpQtoR B pool) o1 set.polyR1 ct0 = .ok r0 ∧ toR (rescaleR B pM pQ) o2 set.polyR2 ct1 = .ok r1 ∧
      (∀ id, r0.lookup id = (ct0.lookup id).map liftOf) ∧ ∀ id, r1.lookup id = (ct1.lookup id).map rescOf := by
  have e := V.top_succ
  obtain ⟨r0, a1, a2⟩ := toR_ok (B := B) (f := modUpQtoR B pool) (F := liftOf) (ct := ct0) o1 (pool := set.polyR1)
    (fun id p hp => (liftOf_spec V p (by rw [H.in0.len id p hp]; omega)).1 pool) (fun id hid => by
      by_cases h : id = "0"
      · rw [h]; exact H.zero1
      · exact H.pool1 id (mem_union_left _ (Ct.mem_ids.mpr ⟨hid, h⟩)))
  obtain ⟨r1, b1, b2⟩ := toR_ok (B := B) (f := rescaleR B pM pQ) (F := rescOf) (ct := ct1) o2 (pool := set.polyR2)
    (fun id p hp => (rescOf_spec V p (by rw [H.in1.len id p hp]; omega)).1 pM pQ) (fun id hid => by
      by_cases h : id = "0"
      · rw [h]; exact H.zero2
      · exact H.pool2 id (mem_union_right _ (Ct.mem_ids.mpr ⟨hid, h⟩)))
  exact ⟨r0, r1, a1, b1, a2, b2⟩

theorem opB_of {ct : Ct B.C} (h0 : "0" ∈ ct) {r : CtR N} {F : Poly B.C → PolyR N} {a : String → PolyR N}
    (hr : ∀ id, r.lookup id = (ct.lookup id).map F) (ha : ∀ id p, ct.lookup id = some p → a id = F p) : OpB r ct.ids a := by
  have hm : ∀ id, id ∈ r ↔ id ∈ ct := fun id => by
    rw [← AList.lookup_isSome, ← AList.lookup_isSome, hr]; simp
  refine ⟨fun id => by rw [Ct.mem_ids, hm], fun id hid => ?_⟩
  have : id ∈ ct := by
    rcases hid with h | h
    · exact (Ct.mem_ids.mp h).1
    · rw [h]; exact h0
  obtain ⟨p, hp⟩ := Ct.get this
  rw [hr, hp, ha id p hp]; rfl

theorem liftCt_eq {ct : Ct B.C} {id : String} {p : Poly B.C} (h : ct.lookup id = some p) : liftCt ct id = liftOf p := by
  unfold liftCt; rw [h]
theorem rescCt_eq {ct : Ct B.C} {id : String} {p : Poly B.C} (h : ct.lookup id = some p) : rescCt ct id = rescOf p := by
  unfold rescCt; rw [h]

/-- the assumptions of `mulAndRelinBFV_run`, for any source of the digits -/
theorem bmulOK_of (V : B.Valid) (H : BMulHyp crs ct0 ct1 set out) {r0 r1 : CtR N} (e0 : ∀ id, r0.lookup id = (ct0.lookup id).map liftOf)
    (e1 : ∀ id, r1.lookup id = (ct1.lookup id).map rescOf) {S : BScratch B} (hS : S.Alloc) (h0 h1 : HoistedPair B)
    (d0 d1 : String → ℕ → PolyQP B.C) (k0 : ∀ id ∈ ct0.ids, DigB r0 h0 id (d0 id)) (k1 : ∀ id ∈ ct1.ids, DigB r1 h1 id (d1 id)) :
    BMulOK crs r0 r1 h0 h1 set.value out S ({ bmulIn crs ct0 ct1 set.value with h0 := d0, h1 := d1 } : BMulIn B) where
  hop0 := opB_of H.in0.has0 e0 fun id p hp => liftCt_eq hp
  hop1 := opB_of H.in1.has0 e1 fun id p hp => rescCt_eq hp
  hout := ⟨fun id hid => by
    rcases hid with h | h
    · exact (Ct.mem_ids.mp (H.ids ▸ h)).1
    · rw [h]; exact H.res.has0, fun id p hp => by rw [H.res.len id p hp]; omega⟩
  olen := by
    obtain ⟨p, hp⟩ := Ct.get H.res.has0
    exact ⟨p, hp, by rw [H.res.len _ _ hp, V.top_succ]⟩
  dig0 := k0
  dig1 := k1
  key0 := fun id hid => by
    obtain ⟨r, r1, r2, r3, r4, r5, r6⟩ := H.keys id (mem_union_left _ hid)
    exact ⟨r, r1, ⟨r4, r5, by simp [bmulIn, bkeyFor, r1]⟩, r6, by simp [bmulIn, bkeyV, r1]⟩
  key1 := fun id hid => by
    obtain ⟨r, r1, r2, r3, r4, r5, r6⟩ := H.keys id (mem_union_right _ hid)
    exact ⟨r, r1, r2, r3, by simp [bmulIn, bkeyFor, r1]⟩
  hcrs := by
    obtain ⟨u, u1, u2⟩ := H.crsU
    exact ⟨u, u1, u2, by simp [bmulIn, u1]⟩
  alloc := hS

/-- **`mulRelin`** does not fail, and writes the specified rows -/
theorem bfvMulRelin_run (V : B.Valid) (o : Sched String) (S : BScratch B) (hS : S.Alloc) (H : BMulHyp crs ct0 ct1 set out) :
    ∃ out' S', bfvMulRelin crs o S ct0 ct1 set out = .ok (out', S') ∧ BMulRes out (bmulIn crs ct0 ct1 set.value) out' := by
  obtain ⟨r0, r1, a0, a1, b0, b1⟩ := H.conv V (o 120) (o 121) S.conv S.conv S.conv
  have e := V.top_succ
  have k0 : ∀ id ∈ ct0.ids, DigB r0 none id fun k => digRG k (liftCt ct0 id) := fun id hid => by
    obtain ⟨p, hp⟩ := Ct.get (Ct.mem_ids.mp hid).1
    obtain ⟨X, x1, _⟩ := (liftOf_spec V p (by rw [H.in0.len _ _ hp]; omega)).2
    exact ⟨liftOf p, X, by rw [b0, hp]; rfl, x1, by rw [liftCt_eq hp]⟩
  have k1 : ∀ id ∈ ct1.ids, DigB r1 none id fun k => digRG k (rescCt ct1 id) := fun id hid => by
    obtain ⟨p, hp⟩ := Ct.get (Ct.mem_ids.mp hid).1
    obtain ⟨X, _, _, x1, _⟩ := (rescOf_spec V p (by rw [H.in1.len _ _ hp]; omega)).2
    exact ⟨rescOf p, X, by rw [b1, hp]; rfl, x1, by rw [rescCt_eq hp]⟩
  obtain ⟨out', S', g1, g2⟩ := mulAndRelinBFV_run V o (bmulOK_of V H b0 b1 hS none none _ _ k0 k1)
  refine ⟨out', S', ?_, g2⟩
  unfold bfvMulRelin
  rw [a0, bind_ok, a1, bind_ok, g1]

theorem Ct.AtLevel.level_ok {C : Ctx N} {level : ℕ} {ct : Ct C} (h : ct.AtLevel level) : ct.level = .ok level := by
  obtain ⟨p, hp⟩ := Ct.get h.has0
  unfold Ct.level
  rw [GoMap.deref_ok hp, bind_ok, h.len _ _ hp, Nat.add_sub_cancel]

/-- **`mulRelinHoisted`** does not fail, and writes the same rows -/
theorem bfvMulRelinHoisted_run (V : B.Valid) (o : Sched String) (S : BScratch B) (hS : S.Alloc) (H : BMulHyp crs ct0 ct1 set out) :
    ∃ out' S', bfvMulRelinHoisted crs o S ct0 ct1 set out = .ok (out', S') ∧ BMulRes out (bmulIn crs ct0 ct1 set.value) out' := by
  obtain ⟨r0, r1, a0, a1, b0, b1⟩ := H.conv V (o 120) (o 121) S.conv S.conv S.conv
  have e := V.top_succ
  obtain ⟨i0, c1, c2⟩ := IDSet.ofCiphertext_spec (o 122) ct0
  obtain ⟨i1, c3, c4⟩ := IDSet.ofCiphertext_spec (o 123) ct1
  have m0 : ∀ id, id ∈ GoMap.range (o 124) i0.value ↔ id ∈ ct0.ids := fun id => by
    rw [GoMap.mem_range, IDSet.mem_value_iff, c2, Ct.mem_ids]
  have m1 : ∀ id, id ∈ GoMap.range (o 125) i1.value ↔ id ∈ ct1.ids := fun id => by
    rw [GoMap.mem_range, IDSet.mem_value_iff, c4, Ct.mem_ids]
  obtain ⟨g0, p1, p2⟩ := hoistB_ok V S (ctR := r0) (GoMap.range (o 124) i0.value) (GoMap.nodup_range _ _) (set.hoist10, set.hoist20)
    (fun id hid => by
      obtain ⟨p, hp⟩ := Ct.get (Ct.mem_ids.mp ((m0 id).mp hid)).1
      obtain ⟨X, x1, _⟩ := (liftOf_spec V p (by rw [H.in0.len _ _ hp]; omega)).2
      exact ⟨liftOf p, X, by rw [b0, hp]; rfl, x1⟩)
    (fun id hid => ⟨H.h10 id (mem_union_left _ ((m0 id).mp hid)), H.h20 id (mem_union_left _ ((m0 id).mp hid))⟩)
  obtain ⟨g1, q1, q2⟩ := hoistB_ok V S (ctR := r1) (GoMap.range (o 125) i1.value) (GoMap.nodup_range _ _) (set.hoist11, set.hoist21)
    (fun id hid => by
      obtain ⟨p, hp⟩ := Ct.get (Ct.mem_ids.mp ((m1 id).mp hid)).1
      obtain ⟨X, _, _, x1, _⟩ := (rescOf_spec V p (by rw [H.in1.len _ _ hp]; omega)).2
      exact ⟨rescOf p, X, by rw [b1, hp]; rfl, x1⟩)
    (fun id hid => ⟨H.h11 id (mem_union_right _ ((m1 id).mp hid)), H.h21 id (mem_union_right _ ((m1 id).mp hid))⟩)
  -- the digits read from the pools
  have k0 : ∀ id, ∃ d : ℕ → PolyQP B.C, id ∈ ct0.ids → DigB r0 (some g0) id d ∧
      ∀ k < 2 * B.bt, (digRG k (liftCt ct0 id)).Agree B.top (d k) := fun id => by
    by_cases hid : id ∈ ct0.ids
    · obtain ⟨a, s1, s2, t1, t2, t3, t4, t5, t6⟩ := p2 id ((m0 id).mpr hid)
      obtain ⟨p, hp⟩ := Ct.get (Ct.mem_ids.mp hid).1
      have ha : liftCt ct0 id = a := by
        rw [liftCt_eq hp]
        rw [b0, hp] at t1; injection t1
      exact ⟨_, fun _ => ⟨⟨s1, s2, t2, t3, t4, t5, rfl⟩, fun k hk => by rw [ha]; exact (t6 k hk).symm⟩⟩
    · exact ⟨fun _ => PolyQP.zero, fun h => absurd h hid⟩
  have k1 : ∀ id, ∃ d : ℕ → PolyQP B.C, id ∈ ct1.ids → DigB r1 (some g1) id d ∧
      ∀ k < 2 * B.bt, (digRG k (rescCt ct1 id)).Agree B.top (d k) := fun id => by
    by_cases hid : id ∈ ct1.ids
    · obtain ⟨a, s1, s2, t1, t2, t3, t4, t5, t6⟩ := q2 id ((m1 id).mpr hid)
      obtain ⟨p, hp⟩ := Ct.get (Ct.mem_ids.mp hid).1
      have ha : rescCt ct1 id = a := by
        rw [rescCt_eq hp]
        rw [b1, hp] at t1; injection t1
      exact ⟨_, fun _ => ⟨⟨s1, s2, t2, t3, t4, t5, rfl⟩, fun k hk => by rw [ha]; exact (t6 k hk).symm⟩⟩
    · exact ⟨fun _ => PolyQP.zero, fun h => absurd h hid⟩
  choose d0 hd0 using k0
  choose d1 hd1 using k1
  obtain ⟨out', S', f1, f2⟩ := mulAndRelinBFVHoisted_run V o (bmulOK_of V H b0 b1 hS (some g0) (some g1) d0 d1
    (fun id hid => (hd0 id hid).1) (fun id hid => (hd1 id hid).1))
  refine ⟨out', S', ?_, f2.congr V (fun id hid k hk => (hd0 id hid).2 k hk) (fun id hid k hk => (hd1 id hid).2 k hk)⟩
  unfold bfvMulRelinHoisted
  rw [a0, bind_ok, a1, bind_ok, c1, bind_ok, c3, bind_ok, H.in0.level_ok, bind_ok, p1, bind_ok, H.in1.level_ok, bind_ok, q1, bind_ok, f1]

/-- rows written by a multiplication, as a ciphertext -/
theorem bmulRes_comp {out out' : Ct B.C} {M : BMulIn B} (hout : out.AtLevel B.top)
    (hids : out.ids = M.ids0 ∪ M.ids1) (h : BMulRes out M out') :
    out'.AtLevel B.top ∧ out'.ids = M.ids0 ∪ M.ids1 ∧
      ∀ id, id ∈ M.ids0 ∪ M.ids1 ∨ id = "0" → ∀ i ≤ B.top, out'.comp id i = M.out id i := by
  obtain ⟨R, hR, hv⟩ := h
  have hlk : ∀ id p, out'.lookup id = some p → ∃ p0, out.lookup id = some p0 ∧ p = p0.set B.top (R id) := by
    intro id p hp
    have := hR id
    rw [hp] at this
    cases h0 : out.lookup id with
    | none => rw [h0] at this; cases this
    | some p0 => rw [h0] at this; exact ⟨p0, rfl, by injection this⟩
  have hA : out'.AtLevel B.top := by
    refine ⟨(hR.mem _).mpr hout.has0, fun id p hp => ?_, fun id p hp => ?_⟩
    · obtain ⟨p0, a, b⟩ := hlk id p hp
      rw [b]; exact hout.len _ p0 a
    · obtain ⟨p0, a, b⟩ := hlk id p hp
      rw [b]; exact hout.coeff _ p0 a
  have hI : out'.ids = M.ids0 ∪ M.ids1 := by
    rw [← hids]; ext id; rw [Ct.mem_ids, Ct.mem_ids, hR.mem]
  refine ⟨hA, hI, fun id hid i hi => ?_⟩
  have hm : id ∈ out' := by
    rcases hid with h | h
    · exact (Ct.mem_ids.mp (hI ▸ h)).1
    · rw [h]; exact hA.has0
  obtain ⟨p, hp⟩ := Ct.get hm
  obtain ⟨p0, a, b⟩ := hlk id p hp
  rw [hA.toCoeff.comp hp, b, ← hv id hid i hi]
  exact setQ_le _ _ hi

/-- two multiplications that specify the same rows give the same ciphertext -/
theorem bmulRes_unique {out out1 out2 : Ct B.C} {M : BMulIn B} (hids : out.ids = M.ids0 ∪ M.ids1)
    (h1 : BMulRes out M out1) (h2 : BMulRes out M out2) : ∀ id, out1.lookup id = out2.lookup id := by
  obtain ⟨R1, r1, v1⟩ := h1
  obtain ⟨R2, r2, v2⟩ := h2
  intro id
  rw [r1 id, r2 id]
  cases h0 : out.lookup id with
  | none => rfl
  | some p =>
    have hid : id ∈ M.ids0 ∪ M.ids1 ∨ id = "0" := by
      by_cases e : id = "0"
      · exact .inr e
      · left; rw [← hids]; exact Ct.mem_ids.mpr ⟨Ct.mem_of_lookup h0, e⟩
    simp only [Option.map_some]
    have : ∀ i ≤ B.top, R1 id i = R2 id i := fun i hi => by rw [v1 id hid i hi, v2 id hid i hi]
    rw [Poly.set_congr this]

end

end MKHE
