import Verif.Props.BShared
import Verif.Props.BfvExample

set_option autoImplicit false

/-!
# The race on the pools of a BFV key set (C78)

Two calls of the BFV `MulRelinNew` that share a key set: `race_reach` is a schedule in which the first of them returns the product of operands in which
the components that the second call's operands also have (at least the one under "0") are those of the second call's. `MKHE.BSEx.race` is a
concrete case: two calls for different parties, one of which returns an encryption of 0 instead of 1.
-/

namespace MKHE
open Finset Nega

variable {N : ℕ} [NeZero N] {B : BCtx N}

/-- `x` has the identifiers of `c`, with the components of `c'` where `c'` has one -/
def Ct.Mixed {C : Ctx N} (c c' x : Ct C) : Prop := ∀ id, x.lookup id = if id ∈ c then (c'.lookup id).or (c.lookup id) else none

namespace C78

variable {ι : Type} [DecidableEq ι] {crs : GoMap ℤ (Swk B.C)} {w0 w : BWorld ι B}

section
variable {C : Ctx N} {c c' x : Ct C}

theorem mixed_mem (h : c.Mixed c' x) (id : String) : id ∈ x ↔ id ∈ c := by
  rw [← AList.lookup_isSome, h id]
  by_cases hc : id ∈ c
  · obtain ⟨p, hp⟩ := Ct.get hc
    rw [if_pos hc, hp]
    cases c'.lookup id <;> simp [hc]
  · rw [if_neg hc]; simp [hc]

theorem mixed_ids (h : c.Mixed c' x) : x.ids = c.ids := by
  ext id; rw [Ct.mem_ids, Ct.mem_ids, mixed_mem h]

theorem mixed_lookup (h : c.Mixed c' x) {id : String} {p : Poly C} (hp : x.lookup id = some p) :
    c'.lookup id = some p ∨ id ∉ c' ∧ c.lookup id = some p := by
  have hc : id ∈ c := (mixed_mem h id).mp (Ct.mem_of_lookup hp)
  rw [h id, if_pos hc] at hp
  cases hl : c'.lookup id with
  | some q => rw [hl] at hp; exact .inl hp
  | none =>
    rw [hl] at hp
    refine .inr ⟨fun hm => ?_, hp⟩
    obtain ⟨q, hq⟩ := Ct.get hm
    rw [hl] at hq; cases hq

theorem mixed_atLevel {l : ℕ} (h : c.Mixed c' x) (hc : c.AtLevel l) (hc' : c'.AtLevel l) : x.AtLevel l := by
  refine ⟨(mixed_mem h _).mpr hc.has0, fun id p hp => ?_, fun id p hp => ?_⟩
  · rcases mixed_lookup h hp with e | ⟨-, e⟩
    · exact hc'.len _ _ e
    · exact hc.len _ _ e
  · rcases mixed_lookup h hp with e | ⟨-, e⟩
    · exact hc'.coeff _ _ e
    · exact hc.coeff _ _ e

/-- the mixed operand exists -/
theorem mixed_exists (c c' : Ct C) : ∃ x, c.Mixed c' x := by
  have h : ∀ l : List String, ∃ x : Ct C, ∀ id, x.lookup id = if id ∈ l then (c'.lookup id).or (c.lookup id) else none := by
    intro l
    induction l with
    | nil => exact ⟨∅, fun id => by simp⟩
    | cons a l ih =>
      obtain ⟨x, hx⟩ := ih
      cases ha : (c'.lookup a).or (c.lookup a) with
      | none =>
        refine ⟨x, fun id => ?_⟩
        rw [hx]
        by_cases e : id = a
        · subst e; rw [ha]; simp
        · simp [e]
      | some p =>
        refine ⟨x.insert a p, fun id => ?_⟩
        rw [GoMap.lookup_insert', hx]
        by_cases e : id = a
        · subst e; rw [ha]; simp
        · simp [e]
  obtain ⟨x, hx⟩ := h c.keys
  refine ⟨x, fun id => ?_⟩
  rw [hx]
  by_cases e : id ∈ c
  · exact (if_pos (AList.mem_keys.mpr e)).trans (if_pos e).symm
  · exact (if_neg (fun h => e (AList.mem_keys.mp h))).trans (if_neg e).symm

end

theorem up_mixed {pool pool' : GoMap String (PolyR N)} {F : Poly B.C → PolyR N} {c c' x : Ct B.C} (hx : c.Mixed c' x) (h : UpOk pool F c [])
    (h' : UpOk pool' F c' []) (hw : WroteR c' pool pool') : UpOk pool' F x [] := by
  refine ⟨by simp, fun id p hp => .inr ?_⟩
  rcases mixed_lookup hx hp with e | ⟨e1, e2⟩
  · exact (h'.2 id p e).resolve_left (by simp)
  · rw [hw.1 id e1]
    exact (h.2 id p e2).resolve_left (by simp)

theorem digs_mixed {h1 h2 h1' h2' : HoistedCt B.C} {A : Ct B.C → String → PolyR N} (hA : ∀ (c d : Ct B.C) id, c.lookup id = d.lookup id → A c id = A d id)
    {c c' x : Ct B.C} (hx : c.Mixed c' x) (h : DigsOk h1 h2 (A c) c.ids []) (h' : DigsOk h1' h2' (A c') c'.ids []) (w1 : Wrote c'.ids h1 h1')
    (w2 : Wrote c'.ids h2 h2') : DigsOk h1' h2' (A x) x.ids [] := by
  refine ⟨by simp, fun id hid => .inr ?_⟩
  obtain ⟨hm, hz⟩ := Ct.mem_ids.mp hid
  obtain ⟨p, hp⟩ := Ct.get hm
  rcases mixed_lookup hx hp with e | ⟨e1, e2⟩
  · rw [hA x c' id (hp.trans e.symm)]
    exact (h'.2 id (Ct.mem_ids.mpr ⟨Ct.mem_of_lookup e, hz⟩)).resolve_left (by simp)
  · rw [hA x c id (hp.trans e2.symm)]
    obtain ⟨s1, s2, x1, x2, x3⟩ := (h.2 id (by rw [← mixed_ids hx]; exact hid)).resolve_left (by simp)
    have hn : id ∉ c'.ids := fun hh => e1 (Ct.mem_ids.mp hh).1
    exact ⟨s1, s2, (w1.1 id hn).trans x1, (w2.1 id hn).trans x2, x3⟩

theorem put_put (w : BWorld ι B) (k : ι) {t t' : BTask B} {m m' : BRlkMap B} (h : t.set = (w.task k).set) :
    (w.put k t m).put k t' m' = w.put k t' m' := by
  unfold BWorld.put
  dsimp only
  rw [Function.update_self, h, Function.update_idem, Function.update_idem]

theorem put_self (w : BWorld ι B) (k : ι) : w.put k (w.task k) (w.sets (w.task k).set) = w := by
  unfold BWorld.put
  rw [Function.update_eq_self, Function.update_eq_self]

theorem step_done {t t' : BTask B} {m m' : BRlkMap B} (h : t.step crs m = .ok (t', m')) {out : Ct B.C} (ho : t'.stage = .done out) : t.stage = .ready := by
  unfold BTask.step at h
  split at h <;> rename_i hs
  case h_10 => exact hs
  all_goals exfalso
  · cases h; cases ho
  · obtain ⟨_, -, h⟩ := Go.bind_ok h
    obtain ⟨_, -, h⟩ := Go.bind_ok h
    obtain ⟨_, -, h⟩ := Go.bind_ok h
    cases h; cases ho
  · cases h; cases ho
  · obtain ⟨_, -, h⟩ := Go.bind_ok h
    obtain ⟨_, -, h⟩ := Go.bind_ok h
    obtain ⟨_, -, h⟩ := Go.bind_ok h
    cases h; cases ho
  · obtain ⟨_, h1, h⟩ := Go.bind_ok h
    cases h; cases ho
  · obtain ⟨_, -, h⟩ := Go.bind_ok h
    obtain ⟨_, -, h⟩ := Go.bind_ok h
    obtain ⟨_, -, h⟩ := Go.bind_ok h
    obtain ⟨_, -, h⟩ := Go.bind_ok h
    obtain ⟨_, -, h⟩ := Go.bind_ok h
    cases h; cases ho
  · obtain ⟨_, h1, h⟩ := Go.bind_ok h
    cases h; cases ho
  · obtain ⟨_, -, h⟩ := Go.bind_ok h
    obtain ⟨_, -, h⟩ := Go.bind_ok h
    obtain ⟨_, -, h⟩ := Go.bind_ok h
    obtain ⟨_, -, h⟩ := Go.bind_ok h
    obtain ⟨_, -, h⟩ := Go.bind_ok h
    cases h; cases ho
  · cases h; cases ho
  · cases h

/-- a call can go on alone until it has prepared its operands -/
theorem prepares (V : B.Valid) {t0 : BTask B} {m0 : BRlkMap B} (H : CallOk crs t0 m0) {k : ι}
    (I : TaskInv crs t0 m0 (w.task k) (w.sets (w.task k).set)) (hd : ∀ out, (w.task k).stage ≠ .done out) :
    ∃ t m, BReach crs w (w.put k t m) ∧ TaskInv crs t0 m0 t m ∧ t.stage = .ready ∧ Changed t0 (w.sets (w.task k).set) m := by
  obtain ⟨n, hn⟩ : ∃ n, left (w.task k) = n := ⟨_, rfl⟩
  induction n using Nat.strong_induction_on generalizing w with
  | _ n ih =>
    by_cases hr : (w.task k).stage = .ready
    · exact ⟨w.task k, w.sets (w.task k).set, by rw [put_self]; exact Relation.ReflTransGen.refl, I, hr, Changed.refl _ _⟩
    · obtain ⟨t, m, s1, s2, s3⟩ := I.step V H hd
      have hset : t.set = (w.task k).set := s2.set.trans I.set.symm
      have htask : (w.put k t m).task k = t := by unfold BWorld.put; dsimp only; rw [Function.update_self]
      have hsets : (w.put k t m).sets t.set = m := by rw [hset]; unfold BWorld.put; dsimp only; rw [Function.update_self]
      obtain ⟨t', m', R, I', hr', hc⟩ := ih (left t) (hn ▸ step_left s1) (w := w.put k t m) (by rw [htask, hsets]; exact s2)
        (by rw [htask]; exact fun out ho => hr (step_done s1 ho)) (by rw [htask])
      rw [put_put w k hset] at R
      rw [htask, hsets] at hc
      exact ⟨t', m', Relation.ReflTransGen.head (.act k s1) R, I', hr', s3.trans hc⟩

/-- **the race.** Two goroutines call the BFV `MulRelinNew` with one key set, on any operands, with or without parties in common. There is a
schedule in which the first call returns not the product of its operands but, precisely, what a call running alone returns for the operands `x0`,
`x1` in which every component that the second call's operand also has (at least the one under "0") is replaced by the second call's. -/
theorem race_reach (V : B.Valid) {k k' : ι} (hk : k ≠ k') (hset : (w0.task k).set = (w0.task k').set)
    (H : CallOk crs (w0.task k) (w0.sets (w0.task k).set)) (H' : CallOk crs (w0.task k') (w0.sets (w0.task k').set))
    {x0 x1 : Ct B.C} (h0 : (w0.task k).op0.Mixed (w0.task k').op0 x0) (h1 : (w0.task k).op1.Mixed (w0.task k').op1 x1) :
    ∃ w out a S', BReach crs w0 w ∧ (w.task k).stage = .done out ∧
      bfvMulRelinNew crs (w0.task k).o (w0.task k).S x0 x1 (w0.sets (w0.task k).set) = .ok (a, S') ∧ out.Same a := by
  -- the first call prepares its operands
  obtain ⟨t, m, R1, I1, r1, c1⟩ := prepares V (w := w0) H (k := k) (.start H) (fun out h => by rw [H.start] at h; cases h)
  obtain ⟨S, st, rfl⟩ := I1.eq
  obtain rfl : st = .ready := r1
  have F1 : Full (w0.task k).op0 (w0.task k).op1 m := I1.stage
  have tk' : (w0.put k { w0.task k with S := S, stage := .ready } m).task k' = w0.task k' := by
    unfold BWorld.put; dsimp only; rw [Function.update_of_ne hk.symm]
  have sk' : (w0.put k { w0.task k with S := S, stage := .ready } m).sets (w0.task k').set = m := by
    rw [← hset]; unfold BWorld.put; dsimp only; rw [Function.update_self]
  -- the second call prepares its own in the same memory
  obtain ⟨t', m', R2, I2, r2, c2⟩ := prepares V (w := w0.put k { w0.task k with S := S, stage := .ready } m) H' (k := k')
    (by
      rw [tk', sk']
      exact ⟨⟨_, _, rfl⟩, fun _ => H'.alloc, by rw [I1.value, hset], c1.pools (by rw [hset]; exact H'.ops.pools), by rw [H'.start]; trivial⟩)
    (fun out h => by rw [tk', H'.start] at h; cases h)
  rw [tk', sk'] at c2
  have F2 : Full (w0.task k').op0 (w0.task k').op1 m' := by
    have hst := I2.stage
    rw [r2] at hst
    exact hst
  obtain ⟨w2, hw2⟩ : ∃ w2, w2 = (w0.put k { w0.task k with S := S, stage := .ready } m).put k' t' m' := ⟨_, rfl⟩
  rw [← hw2] at R2
  have tk : w2.task k = { w0.task k with S := S, stage := .ready } := by
    rw [hw2]; unfold BWorld.put; dsimp only; rw [Function.update_of_ne hk, Function.update_self]
  have sk : w2.sets (w0.task k).set = m' := by
    have hput : ∀ (v : BWorld ι B) (t : BTask B), (v.put k' t m').sets (v.task k').set = m' := fun v t => by
      unfold BWorld.put; dsimp only; rw [Function.update_self]
    have := hput (w0.put k { w0.task k with S := S, stage := .ready } m) t'
    rw [tk', ← hset] at this
    rw [hw2]
    exact this
  -- the first call multiplies
  have hval : m'.value = (w0.sets (w0.task k).set).value := by rw [I2.value, hset]
  have FX : Full x0 x1 m' :=
    ⟨up_mixed h0 F1.up0 F2.up0 c2.r1, up_mixed h1 F1.up1 F2.up1 c2.r2,
      digs_mixed (A := liftCt) (fun c d id h => by unfold liftCt; rw [h]) h0 F1.dig0 F2.dig0 c2.h10 c2.h20,
      digs_mixed (A := rescCt) (fun c d id h => by unfold rescCt; rw [h]) h1 F1.dig1 F2.dig1 c2.h11 c2.h21⟩
  have HX : OpsOk crs x0 x1 (w0.sets (w0.task k).set) :=
    ⟨mixed_atLevel h0 H.ops.in0 H'.ops.in0, mixed_atLevel h1 H.ops.in1 H'.ops.in1, by rw [mixed_ids h0, mixed_ids h1]; exact H.ops.keys, H.ops.crsU,
      by rw [mixed_ids h0, mixed_ids h1]; exact H.ops.pools⟩
  obtain ⟨out, S', e1, e2⟩ := ready_run V (t := { w0.task k with S := S, stage := .ready }) rfl (I1.alloc fun out h => by cases h)
    (HX.of hval (by rw [mixed_ids h0, mixed_ids h1]; exact c2.pools (c1.pools H.ops.pools))) (mixed_mem h0) (mixed_mem h1) FX
  rw [hval] at e2
  obtain ⟨a, S'', a1, a2⟩ := alone_returns V (w0.task k).o H.alloc HX
  have hstep : (w2.task k).step crs (w2.sets (w2.task k).set) = .ok ({ w0.task k with stage := .done out, S := S' }, m') := by
    rw [tk]
    show BTask.step crs _ (w2.sets (w0.task k).set) = _
    rw [sk]
    exact e1
  refine ⟨w2.put k _ m', out, a, S'', (R1.trans R2).tail (.act k hstep), ?_, a1, e2.unique a2⟩
  unfold BWorld.put
  dsimp only
  rw [Function.update_self]

end C78

/-! ## two goroutines for different parties -/

namespace BSEx
open MKHE.BEx MKHE.Ex

variable (fm : FloatModel)

/-- the polynomial zero -/
noncomputable def zp : Poly (qp fm) := ⟨2, false, fun i => ((qp fm).RQ i).ofCf 0⟩

/-- the ciphertext `(pt, 0)` of a party -/
noncomputable def triv (id : String) (pt : Poly (qp fm)) : Ct (qp fm) := AList.insert id (zp fm) (AList.insert "0" pt ∅)

theorem triv_lookup (id : String) (pt : Poly (qp fm)) (x : String) : (triv fm id pt).lookup x =
    if x = id then some (zp fm) else if x = "0" then some pt else none := by
  unfold triv; rw [GoMap.lookup_insert', GoMap.lookup_insert']; rfl

theorem triv_at {id : String} (h : id ≠ "0") {pt : Poly (qp fm)} (hl : pt.len = 2) (hn : pt.isNTT = false) : (triv fm id pt).AtLevel 1 := by
  refine ⟨AList.lookup_isSome.mp (by rw [triv_lookup, if_neg h.symm]; rfl), fun x p hp => ?_, fun x p hp => ?_⟩ <;>
  · rw [triv_lookup] at hp
    split_ifs at hp <;> injection hp with hp <;> subst hp
    · rfl
    · assumption

theorem triv_ids {id : String} (h : id ≠ "0") (pt : Poly (qp fm)) : (triv fm id pt).ids = {id} := by
  ext x
  rw [Ct.mem_ids, ← AList.lookup_isSome, triv_lookup]
  simp only [mem_singleton]
  by_cases h1 : x = id
  · subst h1; simp [h]
  · by_cases h3 : x = "0"
    · subst h3; simp [h1]
    · simp [h1, h3]

theorem triv_mem {id : String} (pt : Poly (qp fm)) (x : String) : x ∈ triv fm id pt ↔ x = id ∨ x = "0" := by
  rw [← AList.lookup_isSome, triv_lookup]
  by_cases h1 : x = id
  · rw [if_pos h1]; simp [h1]
  · rw [if_neg h1]
    by_cases h3 : x = "0"
    · rw [if_pos h3]; simp [h3]
    · rw [if_neg h3]; simp [h1, h3]

/-- mixing the ciphertexts of different parties takes the component under "0" from the second -/
theorem triv_mixed {id id' : String} (h : id ≠ "0") (h' : id' ≠ "0") (hne : id ≠ id') (pt pt' : Poly (qp fm)) :
    (triv fm id pt).Mixed (triv fm id' pt') (triv fm id pt') := by
  intro x
  by_cases h1 : x = id
  · subst h1
    rw [if_pos ((triv_mem fm pt x).mpr (.inl rfl)), triv_lookup, triv_lookup, triv_lookup]
    simp [hne, h]
  · by_cases h3 : x = "0"
    · subst h3
      rw [if_pos ((triv_mem fm pt "0").mpr (.inr rfl)), triv_lookup, triv_lookup, triv_lookup]
      simp [h.symm, h'.symm]
    · rw [if_neg (fun hh => ((triv_mem fm pt x).mp hh).elim h1 h3), triv_lookup]
      simp [h1, h3]

/-- `floor(Q*m/T)` -/
noncomputable def scaled (m : Nega 16 ℤ) : Nega 16 ℤ := fun x => (bctx fm).Q * m x / (bctx fm).t

/-- a message as a plaintext polynomial, scaled up by `Q/T` -/
noncomputable def enc (m : Nega 16 ℤ) : Poly (qp fm) := ⟨2, false, fun i => ((qp fm).RQ i).ofCf (red ((qp fm).q i) (scaled fm m))⟩

theorem triv_phase {id : String} (h : id ≠ "0") (m : Nega 16 ℤ) (i : ℕ) : (triv fm id (enc fm m)).phase sec i = red ((qp fm).q i) (scaled fm m) := by
  rw [phase_eq_rows]
  unfold phaseRows
  have e0 : (triv fm id (enc fm m)).comp "0" = (enc fm m).rows := by
    rw [Ct.comp_eq (p := enc fm m) (by rw [triv_lookup, if_neg h.symm, if_pos rfl]), Poly.coeffs_eq rfl]
  have e1 : (triv fm id (enc fm m)).comp id = (zp fm).rows := by
    rw [Ct.comp_eq (p := zp fm) (by rw [triv_lookup, if_pos rfl]), Poly.coeffs_eq rfl]
  have c0 : cf ((enc fm m).rows i) = red ((qp fm).q i) (scaled fm m) := ((qp fm).RQ i).cf_ofCf _
  have c1 : cf ((zp fm).rows i) = 0 := ((qp fm).RQ i).cf_ofCf _
  rw [triv_ids fm h, sum_singleton, e0, e1, c0, c1, zero_mul, add_zero]

/-- the ciphertext `(enc m, 0)` is an encryption of `m` -/
theorem triv_enc {id : String} (h : id ≠ "0") (m : Nega 16 ℤ) : BfvEnc (bctx fm) sec (triv fm id (enc fm m)) m 7 := by
  obtain ⟨b, hb⟩ : ∃ b : Nega 16 ℤ, ∀ x, b x = -((bctx fm).Q * m x % (bctx fm).t) := ⟨fun x => -((bctx fm).Q * m x % (bctx fm).t), fun _ => rfl⟩
  have hs : ∀ x, scaled fm m x = (bctx fm).Q * m x / (bctx fm).t := fun _ => rfl
  refine ⟨scaled fm m, 0, b, fun x => ?_, Nega.ext fun x => ?_, fun i _ => triv_phase fm h m i⟩
  · have ht : (0 : ℤ) < (bctx fm).t := by show (0 : ℤ) < (7 : ℕ); norm_num
    rw [hb, abs_neg, abs_of_nonneg (Int.emod_nonneg _ ht.ne')]
    have := Int.emod_lt_of_pos ((bctx fm).Q * m x) ht
    have e : ((bctx fm).t : ℤ) = 7 := rfl
    omega
  · rw [natCast_mul_apply, Nega.add_apply, natCast_mul_apply, mul_zero, add_zero, hs, hb]
    have := Int.emod_add_mul_ediv ((bctx fm).Q * m x) (bctx fm).t
    linarith

/-- a goroutine that multiplies encryptions of `m` and `m'` of a party, with key set object number `n` -/
noncomputable def task (n : ℕ) (id : String) (m m' : Nega 16 ℤ) : BTask (bctx fm) :=
  ⟨n, fun _ => Order.id, triv fm id (enc fm m), triv fm id (enc fm m'), scratch fm, .start⟩

theorem at_top {id : String} (h : id ≠ "0") (m : Nega 16 ℤ) : (triv fm id (enc fm m)).AtLevel (bctx fm).top := triv_at fm h rfl rfl

theorem sub_parties {id : String} (hid : id = "a" ∨ id = "b") (hne : id ≠ "0") (p p' : Poly (qp fm)) :
    (triv fm id p).ids ∪ (triv fm id p').ids ⊆ parties := by
  rw [triv_ids fm hne, triv_ids fm hne, union_self, singleton_subset_iff]
  rcases hid with h | h <;> subst h <;> decide

theorem call_ok (n : ℕ) {id : String} (hid : id = "a" ∨ id = "b") (m m' : Nega 16 ℤ) : C78.CallOk (BEx.crs fm) (task fm n id m m') (rlks fm) := by
  have hne : id ≠ "0" := by rcases hid with h | h <;> subst h <;> decide
  have hs := sub_parties fm hid hne (enc fm m) (enc fm m')
  have K := C58.keys_mono hs (rlkKeys fm)
  have P := C58.pools_mono hs (rlkPools fm)
  have hz : "0" ∉ (triv fm id (enc fm m)).ids ∪ (triv fm id (enc fm m')).ids := by
    rw [mem_union]; exact fun h => h.elim (Ct.zero_notMem_ids _) (Ct.zero_notMem_ids _)
  obtain ⟨z, -, z2, z3, -⟩ := C78.newBinary_ok (B := bctx fm) (fun _ => Order.id) (triv fm id (enc fm m)) (triv fm id (enc fm m'))
  have M := C45.mulHyp (at_top fm hne m) (at_top fm hne m') z2 z3 K P
  exact ⟨rfl, ⟨M.in0, M.in1, M.keys, M.crsU, P⟩, scratch_alloc fm⟩

/-- a goroutine for each of two parties; `n` gives the key set object of each -/
noncomputable def world (n : Bool → ℕ) (m : Bool → Nega 16 ℤ × Nega 16 ℤ) : BWorld Bool (bctx fm) :=
  ⟨fun k => task fm (n k) (if k then "a" else "b") (m k).1 (m k).2, fun _ => rlks fm⟩

theorem world_ok (n : Bool → ℕ) (m : Bool → Nega 16 ℤ × Nega 16 ℤ) : C78.AllOk (BEx.crs fm) (world fm n m) := fun k =>
  call_ok fm (n k) (by cases k <;> simp) _ _

/-- key sets of their own: whatever the schedule, both calls can finish and return what they return alone -/
example (m : Bool → Nega 16 ℤ × Nega 16 ℤ) (w : BWorld Bool (bctx fm)) (R : BReach (BEx.crs fm) (world fm (fun k => if k then 0 else 1) m) w) (k : Bool) :
    ∃ w' out a S', BReach (BEx.crs fm) w w' ∧ (w'.task k).stage = .done out ∧ bfvMulRelinNew (BEx.crs fm) (fun _ => Order.id) (scratch fm)
      (triv fm (if k then "a" else "b") (enc fm (m k).1)) (triv fm (if k then "a" else "b") (enc fm (m k).2)) (rlks fm) = .ok (a, S') ∧ out.Same a := by
  have A : C78.OwnSets (world fm (fun k => if k then 0 else 1) m) := by
    intro k k' h
    cases k <;> cases k' <;> first | rfl | (exact absurd h (by show ¬ _ = _; simp [world, task]))
  obtain ⟨w', out, R', ho⟩ := C78.finishes (valid fm) (world_ok fm _ m) A R k
  obtain ⟨a, S', h1, h2⟩ := (C78.calls_partial (valid fm) (world_ok fm _ m) A (R.trans R') k).2 out ho
  exact ⟨w', out, a, S', R', ho, h1, h2⟩

/-- the noise of the products -/
theorem noise_lt : 2 * C58.mulBound (bctx fm) 1 1 1 Dg 1 1 2 7 7 < (bctx fm).Q := by
  simp only [C58.mulBound, C45.noise, C45.liftBound, bmulNoise, Q_val, QMul_val, P_val, bt_one, Dg]
  norm_num

/-- a product of party "a" -/
theorem prod_a (m m' : Nega 16 ℤ) : ∃ a S', bfvMulRelinNew (B := bctx fm) (BEx.crs fm) (fun _ => Order.id) (scratch fm) (triv fm "a" (enc fm m))
    (triv fm "a" (enc fm m')) (rlks fm) = .ok (a, S') ∧ BfvEnc (bctx fm) sec a (m * m') (C58.mulBound (bctx fm) 1 1 1 Dg 1 1 2 7 7) := by
  have hne : "a" ≠ "0" := by decide
  have hs := sub_parties fm (id := "a") (.inl rfl) hne (enc fm m) (enc fm m')
  obtain ⟨a, S', e1, -, -, e4⟩ := C58.mul (valid fm) (fun _ => Order.id) (scratch fm) (scratch_alloc fm) (at_top fm hne m) (at_top fm hne m')
    (C58.keys_mono hs (rlkKeys fm)) (C58.pools_mono hs (rlkPools fm)) (blockR_le fm) (triv_enc fm hne m) (triv_enc fm hne m')
  rw [triv_ids fm hne, triv_ids fm hne, union_self, card_singleton] at e4
  exact ⟨a, S', e1, e4⟩

/-- what the goroutine of party "a" returns in a schedule with the goroutine of party "b": an encryption of the product of the other goroutine's
messages -/
theorem raced (m : Bool → Nega 16 ℤ × Nega 16 ℤ) : ∃ w out, BReach (BEx.crs fm) (world fm (fun _ => 0) m) w ∧ (w.task true).stage = .done out ∧
    BfvEnc (bctx fm) sec out ((m false).1 * (m false).2) (C58.mulBound (bctx fm) 1 1 1 Dg 1 1 2 7 7) := by
  have ha : "a" ≠ "0" := by decide
  have hb : "b" ≠ "0" := by decide
  have hab : "a" ≠ "b" := by decide
  obtain ⟨w, out, a, S', R, ho, e1, e2⟩ := C78.race_reach (valid fm) (w0 := world fm (fun _ => 0) m) (k := true) (k' := false) (by decide) rfl
    (world_ok fm _ m true) (world_ok fm _ m false) (triv_mixed fm ha hb hab (enc fm (m true).1) (enc fm (m false).1))
    (triv_mixed fm ha hb hab (enc fm (m true).2) (enc fm (m false).2))
  obtain ⟨a', S'', f1, f2⟩ := prod_a fm (m false).1 (m false).2
  have : a = a' := congrArg Prod.fst (Except.ok.inj (e1.symm.trans f1))
  subst this
  refine ⟨w, out, R, ho, ?_⟩
  obtain ⟨Φ, k, b, b1, b2, b3⟩ := f2
  refine ⟨Φ, k, b, b1, b2, fun i hi => ?_⟩
  rw [← b3 i hi, phase_eq_rows, phase_eq_rows, e2.ids, e2.comp]

/-- **C78 is false in general.** Two goroutines call the BFV `MulRelinNew` with an evaluator each and one key set, on ciphertexts of different parties; each
call succeeds on its own. There is a schedule in which the first, which multiplies encryptions of 1 and 1, returns an encryption of 0. -/
theorem race : ∃ (w0 w : BWorld Bool (bctx fm)) (out a : Ct (qp fm)) (S' : BScratch (bctx fm)), C78.AllOk (BEx.crs fm) w0 ∧
    Disjoint ((w0.task true).op0.ids ∪ (w0.task true).op1.ids) ((w0.task false).op0.ids ∪ (w0.task false).op1.ids) ∧ BReach (BEx.crs fm) w0 w ∧
    (w.task true).stage = .done out ∧
    bfvMulRelinNew (BEx.crs fm) (w0.task true).o (w0.task true).S (w0.task true).op0 (w0.task true).op1 (w0.sets (w0.task true).set) = .ok (a, S') ∧
    ¬ out.Same a ∧ ∃ Bd : ℤ, 2 * Bd < (bctx fm).Q ∧ BfvEnc (bctx fm) sec a 1 Bd ∧ BfvEnc (bctx fm) sec out 0 Bd := by
  obtain ⟨w, out, R, ho, h⟩ := raced fm fun k => if k then (1, 1) else (0, 0)
  obtain ⟨a, S', e1, e2⟩ := prod_a fm 1 1
  have h' : BfvEnc (bctx fm) sec out 0 (C58.mulBound (bctx fm) 1 1 1 Dg 1 1 2 7 7) := by
    have : (0 : Nega 16 ℤ) * 0 = 0 := mul_zero 0
    rw [← this]; exact h
  rw [mul_one] at e2
  refine ⟨world fm (fun _ => 0) fun k => if k then (1, 1) else (0, 0), w, out, a, S', world_ok fm _ _, ?_, R, ho, e1, fun hs => ?_, _, noise_lt fm, e2, h'⟩
  · show Disjoint ((triv fm "a" _).ids ∪ (triv fm "a" _).ids) ((triv fm "b" _).ids ∪ (triv fm "b" _).ids)
    rw [triv_ids fm (by decide), triv_ids fm (by decide), triv_ids fm (by decide), triv_ids fm (by decide)]
    decide
  · have e3 : BfvEnc (bctx fm) sec out 1 (C58.mulBound (bctx fm) 1 1 1 Dg 1 1 2 7 7) := by
      obtain ⟨Φ, k, b, b1, b2, b3⟩ := e2
      exact ⟨Φ, k, b, b1, b2, fun i hi => by rw [← b3 i hi, phase_eq_rows, phase_eq_rows, hs.ids, hs.comp]⟩
    have hc := C58.unique (valid fm) e3 h' (noise_lt fm) (noise_lt fm) 0
    have h1 : (1 : Nega 16 ℤ) 0 = 1 := rfl
    have h0 : (0 : Nega 16 ℤ) 0 = 0 := rfl
    rw [h1, h0] at hc
    have ht : ((bctx fm).t : ℤ) = 7 := rfl
    rw [ht] at hc
    exact absurd hc (by decide)

end BSEx
end MKHE
