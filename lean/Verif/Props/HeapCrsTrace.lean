import Verif.Model.HeapCrsTrace
import Verif.Props.KeyHistory

set_option autoImplicit false
set_option linter.unusedSectionVars false

/-!
# C83: an `AddCRS` that does not return

`addCRS_stopped`: whenever `AddCRS(idx)` is stopped, everything except the entry `idx` is as it was: the other entries, all keys, the key generator; the entry has at most `β`
components, all but the last of them right. `others`: calls that do not use the entry run and are right. `repaired`: calling `AddCRS(idx)` again repairs it.
`short_entry`: with an entry that lacks components no rotation key is made. `exposed`: but there is a moment after which `GenRotationKey(idx, sk)` returns a key whose last
block is `P*g*s + e` with no mask, from which `s` can be computed (`determined`).
-/

namespace MKHE
namespace C83
open Heap Nega C70 C82
variable {N : ℕ} [NeZero N] {B : BCtx N} {h0 : Heap N} {K : HKG} {V : VState B.C} {s : HState N}

section entry
variable {C : Ctx N} {h : Heap N}

theorem filling_runs (W : WF h) (u : PolyQP C) {v : QP} (hq : v.q < h.npoly) (hp : v.p < h.npoly) :
    TG.Runs (KKept h {v.q, v.p}) h (hFillCrsT C u v h) (fun g => g) := by
  have K : Ok h {v.q, v.p} ∅ h := Ok.start W
  have t : Tgt h {v.q, v.p} h (QP.polys v) := fun p hm => by
    simp only [QP.polys, List.mem_cons, List.not_mem_nil, or_false] at hm
    rcases hm with rfl | rfl
    exacts [⟨Or.inl (by simp), hq⟩, ⟨Or.inl (by simp), hp⟩]
  exact TG.Runs.bind (qpOpT_runs K t) fun _ _ r => qpOpT_runs r.ok (t.keep r)

/-- **the recorded writes are those of the call**: a component is finished when its writes are -/
theorem filling_res (us : ℕ → PolyQP C) (w : SwkObj × ℕ × Heap N) (i : ℕ) :
    hCrsStep C us w i = (do
      let g ← (hFillCrsT C (us w.2.1) (newQP C w.2.2).1 (newQP C w.2.2).2).res
      .ok (w.1 ++ [(newQP C w.2.2).1], w.2.1 + 1, g)) := by
  unfold hCrsStep hFillCrsT hUniformT hUniform
  trace_res [qpOpT_res, hMFormT_res]
  exact (bind_assoc _ _ _).symm

/-- **the entry of an `AddCRS` that was stopped** -/
theorem stopped_entry (hn : 0 < C.nQ) (W : WF h) {us : ℕ → PolyQP C} {used : ℕ} {entry : SwkObj} {g : Heap N} (st : AddStopped C us used h entry g) :
    Grow h g ∧ ∃ S : Swk C, SwkShows C g entry S ∧ Fresh h g (SwkObj.polys entry) ∧ S.len ≤ C.beta (C.nQ - 1) ∧
      ∀ j, j + 1 < S.len → S.val j = crsBlock (us (used + j)) := by
  cases st with
  | @allocating i w g hi e hg =>
    obtain ⟨h', e', k1, k2, k3⟩ := hCrsPrefix_run hn W us used i
    rw [e] at e'
    cases e'
    have k := (newQPT_runs (C := C) (Ok.start (Wp := ∅) k1.wf)).during g hg
    have gg : Grow h' g := ⟨k.ok.wf, k.ok.only, k.nct⟩
    refine ⟨k1.trans gg, ⟨i, fun j => crsBlock (us (used + j))⟩, ⟨by simp [swkObj], fun j v hv => ?_⟩, ?_, hi.le, fun j _ => rfl⟩
    · have hj : j < i := by
        by_contra hc
        rw [List.getElem?_eq_none (by simp [swkObj]; omega)] at hv
        cases hv
      rw [swkObj_get hj] at hv
      cases hv
      exact (k3 j hj).keep gg.only (by simp) (by simp)
    · rw [polys_swkObj]
      exact fresh_range le_rfl (by have := k.npoly; omega)
  | @filling i w v g hi e ev hg =>
    obtain ⟨h', e', k1, k2, k3⟩ := hCrsPrefix_run hn W us used i
    rw [e] at e'
    cases e'
    cases ev
    obtain ⟨g1, e1, n1, z1⟩ := newQP_spec (C := C) k1.wf
    have k := (filling_runs (C := C) g1.wf (us (used + i)) z1.q z1.p).during g hg
    have e2 : (newQP C h').1 = ⟨h.npoly + 2 * i, h.npoly + 2 * i + 1⟩ := by rw [e1, k2]
    have hob : swkObj h.npoly i ++ [(newQP C h').1] = swkObj h.npoly (i + 1) := by
      rw [e2]; unfold swkObj; rw [List.range_succ, List.map_append, List.map_singleton]
    have o := k.ok.only
    rw [e2] at o
    have np := k.npoly
    have gg := k1.trans g1
    suffices H : ∀ E, E = swkObj h.npoly (i + 1) → Grow h g ∧ ∃ S : Swk C, SwkShows C g E S ∧ Fresh h g (SwkObj.polys E) ∧ S.len ≤ C.beta (C.nQ - 1) ∧
        ∀ j, j + 1 < S.len → S.val j = crsBlock (us (used + j)) from H _ hob
    rintro _ rfl
    refine ⟨⟨k.ok.wf, gg.only.trans' o (fun p hp hw => ?_) (fun _ _ hc => hc), k.nct.trans gg.nct⟩,
      ⟨i + 1, fun j => qpVal C g ⟨h.npoly + 2 * j, h.npoly + 2 * j + 1⟩⟩, ⟨by simp [swkObj], fun j v hv => ?_⟩, ?_, hi, fun j hj => ?_⟩
    · rcases hw with rfl | rfl
      · exact absurd hp (show ¬ h.npoly + 2 * i < h.npoly by omega)
      · exact absurd hp (show ¬ h.npoly + 2 * i + 1 < h.npoly by omega)
    · have hj : j < i + 1 := by
        by_contra hc
        rw [List.getElem?_eq_none (by simp [swkObj]; omega)] at hv
        cases hv
      rw [swkObj_get hj] at hv
      cases hv
      by_cases hji : j = i
      · subst hji
        rw [e2] at z1
        exact ⟨z1.q.trans_le np, z1.p.trans_le np, z1.ne, (k.len _ z1.q).trans z1.lenQ, (k.len _ z1.p).trans z1.lenP, rfl⟩
      · have q := ((k3 j (by omega)).keep g1.only (by simp) (by simp)).keep o
          (by simp; omega) (by simp; omega)
        exact ⟨q.q, q.p, q.ne, q.lenQ, q.lenP, rfl⟩
    · rw [polys_swkObj]
      exact fresh_range le_rfl (by omega)
    · have hj' : j < i := by
        have : j + 1 < i + 1 := hj
        omega
      exact (((k3 j hj').keep g1.only (by simp) (by simp)).keep o (by simp; omega) (by simp; omega)).val

/-- the moment before the last component is filled -/
theorem zero_entry (hn : 0 < C.nQ) (W : WF h) (us : ℕ → PolyQP C) (used : ℕ) (hb : 0 < C.beta (C.nQ - 1)) :
    ∃ entry g, AddStopped C us used h entry g ∧ Grow h g ∧ ∃ S : Swk C, SwkShows C g entry S ∧ Fresh h g (SwkObj.polys entry) ∧
      S.len = C.beta (C.nQ - 1) ∧ S.val (C.beta (C.nQ - 1) - 1) = PolyQP.zero := by
  obtain ⟨h', e, k1, k2, k3⟩ := hCrsPrefix_run hn W us used (C.beta (C.nQ - 1) - 1)
  obtain ⟨g1, e1, n1, z1⟩ := newQP_spec (C := C) k1.wf
  have st : AddStopped C us used h (swkObj h.npoly (C.beta (C.nQ - 1) - 1) ++ [(newQP C h').1]) (newQP C h').2 :=
    .filling (C.beta (C.nQ - 1) - 1) (v := newQP C h') (by omega) e rfl (During.start _ _)
  obtain ⟨gr, S, s1, s2, -, -⟩ := stopped_entry hn W st
  have hl : S.len = C.beta (C.nQ - 1) := by
    rw [← s1.1, List.length_append, List.length_singleton]
    simp [swkObj]; omega
  refine ⟨_, _, st, gr, S, s1, s2, hl, ?_⟩
  have : (swkObj h.npoly (C.beta (C.nQ - 1) - 1) ++ [(newQP C h').1])[C.beta (C.nQ - 1) - 1]? = some (newQP C h').1 := by
    rw [List.getElem?_append_right (by simp [swkObj])]
    simp [swkObj]
  exact (s1.2 _ _ this).val.symm.trans z1.val

end entry

/-! ## the program -/

/-- a new entry in the map, in new memory -/
theorem owned_setCrs (a : Owned B.C h0 K V s) (idx : ℤ) {entry : SwkObj} {g : Heap N} {S : Swk B.C} (gr : Grow s.heap g) (sh : SwkShows B.C g entry S)
    (f : Fresh s.heap g (SwkObj.polys entry)) (used : ℕ) :
    Owned B.C h0 K { V with crs := V.crs.insert idx S, used := used } (s.addStopped idx entry used g) := by
  have bl := a.base.only.npoly
  refine ⟨gr.wf, a.base.trans gr, rfl, a.pos, a.kg.keep gr.only (by simp), a.kgNew, a.crs.insert bl idx gr sh f, ?_, ?_, a.nodup, a.apart, ?_, a.keysNew⟩
  · intro k x ex p hp hk
    unfold HState.addStopped at ex
    rw [GoMap.lookup_insert'] at ex
    split at ex
    · cases ex
      have := (f.2 p hp).1
      have := KGAt.low a.kg p hk
      omega
    · exact a.crsApart k x ex p hp hk
  · refine List.forall₂_iff_get.mpr ⟨a.keys.length_eq, fun i h1 h2 => ?_⟩
    exact (a.keys.get h1 h2).keep gr.only fun p hp => by simp
  · intro k x ex p hp hk
    unfold HState.addStopped at ex
    rw [GoMap.lookup_insert'] at ex
    split at ex
    · cases ex
      have := (f.2 p hp).1
      have := a.low p hk
      omega
    · exact a.noCrs k x ex p hp hk

variable {us : ℕ → PolyQP B.C} {gs : ℕ → Nega N ℤ}

/-- **C83, what is left behind.** Whenever `AddCRS(idx)` is stopped, and wherever the samplers are then, the program is in a state in which every key, every other entry of the
CRS and the key generator are as they were and own their memory; the entry `idx` has at most `β` components, and all of them but the last are those the call should make. -/
theorem addCRS_stopped (hn : 0 < B.C.nQ) (a : Owned B.C h0 K V s) (idx : ℤ) {entry : SwkObj} {g : Heap N} (st : AddStopped B.C us s.used s.heap entry g) :
    ∃ S : Swk B.C, S.len ≤ B.C.beta (B.C.nQ - 1) ∧ (∀ j, j + 1 < S.len → S.val j = crsBlock (us (s.used + j))) ∧
      ∀ used, Owned B.C h0 K { V with crs := V.crs.insert idx S, used := used } (s.addStopped idx entry used g) := by
  obtain ⟨gr, S, s1, s2, s3, s4⟩ := stopped_entry hn a.wf st
  exact ⟨S, s3, s4, fun used => owned_setCrs a idx gr s1 s2 used⟩

/-- **C83, repair.** Calling `AddCRS(idx)` again returns, and puts a right entry there; everything else stays. -/
theorem repaired (hn : 0 < B.C.nQ) {S : Swk B.C} {idx : ℤ} {entry : SwkObj} {g : Heap N} {used : ℕ}
    (a : Owned B.C h0 K { V with crs := V.crs.insert idx S, used := used } (s.addStopped idx entry used g)) :
    ∃ s', heapStep B us gs K (s.addStopped idx entry used g) (.addCRS idx) = .ok s' ∧ ∃ V', Owned B.C h0 K V' s' ∧ V'.keys = V.keys ∧
      V'.crs.lookup idx = some (crsSwk us used) ∧ ∀ k, k ≠ idx → V'.crs.lookup k = V.crs.lookup k := by
  have r := step_owned hn us gs a (.addCRS idx)
  cases e : heapStep B us gs K (s.addStopped idx entry used g) (.addCRS idx) with
  | error x => rw [e] at r; exact r.elim
  | ok s' =>
    rw [e] at r
    refine ⟨s', rfl, _, r, rfl, ?_, fun k hk => ?_⟩
    · show AList.lookup idx _ = _
      rw [GoMap.lookup_insert', if_pos rfl]
    · show AList.lookup k _ = _
      rw [GoMap.lookup_insert', if_neg hk, GoMap.lookup_insert', if_neg hk]

/-! ## calls that do not use the entry -/

/-- the call reads or replaces the entry `k` of the CRS -/
def Uses (k : ℤ) : Cmd N → Prop
  | .addCRS _ => True
  | .genPk _ => k = 0
  | .genRlk _ _ => k = 0 ∨ k = -1
  | .genBfvRlk _ _ => k = 0 ∨ k = -1 ∨ k = -3
  | .genRot r _ => k = r ∨ k = adjustIdx N r
  | .genConj _ => k = -2
  | _ => False

theorem deref_insert {β : Type} (m : GoMap ℤ β) {i k : ℤ} (S : β) (h : k ≠ i) : GoMap.deref (m.insert k S : GoMap ℤ β) i = GoMap.deref m i := by
  unfold GoMap.deref
  rw [GoMap.lookup_insert', if_neg (Ne.symm h)]

/-- the state with another entry `idx` -/
def setCrs (V : VState B.C) (idx : ℤ) (S : Swk B.C) (used : ℕ) : VState B.C := { V with crs := V.crs.insert idx S, used := used }

/-- on values, such a call does the same whatever the entry is -/
theorem same_call (V : VState B.C) (idx : ℤ) (S : Swk B.C) (used : ℕ) {c : Cmd N} (hc : ¬ Uses idx c) :
    valStep us gs (setCrs V idx S used) c = (valStep us gs V c >>= fun V' => .ok (setCrs V' idx S used)) := by
  cases c with
  | addCRS i => exact absurd trivial hc
  | genSk x id => rfl
  | genSkGaussian id => rfl
  | genPk i =>
    have h : idx ≠ 0 := hc
    unfold valStep genPublicKey setCrs
    dsimp only
    rw [deref_insert _ _ h]
    simp only [bind_assoc]
    rfl
  | genRlk i j =>
    have h : idx ≠ 0 ∧ idx ≠ -1 := not_or.mp hc
    unfold valStep genRelinearizationKey setCrs
    dsimp only
    rw [deref_insert _ _ h.1, deref_insert _ _ h.2]
    simp only [bind_assoc]
    rfl
  | genBfvRlk i j =>
    have h : idx ≠ 0 ∧ ¬ (idx = -1 ∨ idx = -3) := not_or.mp hc
    have h' := not_or.mp h.2
    unfold valStep genBfvRelinearizationKey setCrs
    dsimp only
    rw [deref_insert _ _ h.1, deref_insert _ _ h'.1, deref_insert _ _ h'.2]
    simp only [bind_assoc]
    rfl
  | genRot r i =>
    have h : idx ≠ r ∧ idx ≠ adjustIdx N r := not_or.mp hc
    unfold valStep genRotationKey setCrs
    dsimp only
    rw [deref_insert _ _ h.2, GoMap.lookup_insert', if_neg h.1.symm]
    simp only [bind_assoc]
    rfl
  | genConj i =>
    have h : idx ≠ -2 := hc
    unfold valStep genConjugationKey setCrs
    dsimp only
    rw [deref_insert _ _ h]
    simp only [bind_assoc]
    rfl
  | copy i =>
    unfold valStep setCrs
    dsimp only
    generalize V.keys[i]? = o
    rcases o with _ | _ | _ | _ | _ | _ <;> rfl

/-- **C83, the other calls.** After an `AddCRS(idx)` that was stopped, a call that does not use the entry `idx` ends as if there had been no such `AddCRS`: it makes the key that
the call would make of the old CRS, or panics as it would. -/
theorem others (hn : 0 < B.C.nQ) {S : Swk B.C} {idx : ℤ} {entry : SwkObj} {g : Heap N} {used : ℕ}
    (a : Owned B.C h0 K { V with crs := V.crs.insert idx S, used := used } (s.addStopped idx entry used g)) {c : Cmd N} (hc : ¬ Uses idx c) :
    Go.Rel (fun V' s' => Owned B.C h0 K { V' with crs := V'.crs.insert idx S, used := used } s') (valStep us gs V c)
      (heapStep B us gs K (s.addStopped idx entry used g) c) := by
  have r := step_owned hn us gs a c
  have e : valStep us gs { V with crs := V.crs.insert idx S, used := used } c = (valStep us gs V c >>= fun V' => .ok (setCrs V' idx S used)) :=
    same_call V idx S used hc
  rw [e] at r
  cases ev : valStep us gs V c with
  | error x =>
    rw [ev] at r
    cases eh : heapStep B us gs K (s.addStopped idx entry used g) c with
    | error y => rw [eh] at r; exact r
    | ok s' => rw [eh] at r; exact r.elim
  | ok V' =>
    rw [ev] at r
    cases eh : heapStep B us gs K (s.addStopped idx entry used g) c with
    | error y => rw [eh] at r; exact r.elim
    | ok s' => rw [eh] at r; exact r

/-! ## calls that use the entry -/

theorem loop_fails {α σ : Type} {f : σ → α → Go σ} {l : List α} {x : α} (hx : x ∈ l) (hf : ∀ s, ∃ e, f s x = .error e) (s : σ) :
    ∃ e, Go.loop f s l = .error e := by
  induction l generalizing s with
  | nil => cases hx
  | cons y l ih =>
    rw [Go.loop_cons]
    cases e : f s y with
    | error x => exact ⟨x, rfl⟩
    | ok s' =>
      rcases List.mem_cons.mp hx with rfl | h
      · obtain ⟨x, e'⟩ := hf s
        rw [e] at e'; cases e'
      · exact ih h s'

theorem mapBlocks_short {C : Ctx N} (f : PolyQP C → PolyQP C → PolyQP C) {a swk : Swk C} (ha : a.len < C.beta (C.nQ - 1)) :
    ∃ e, mapBlocks f a swk = .error e :=
  loop_fails (List.mem_range.mpr ha) (fun s => ⟨.indexOutOfRange, by rw [if_pos (Or.inl le_rfl)]⟩) _

/-- **C83, an entry that lacks components** is never used to make a key: `GenRotationKey` panics -/
theorem short_entry (hn : 0 < B.C.nQ) {S : Swk B.C} {r : ℤ} {entry : SwkObj} {g : Heap N} {used : ℕ}
    (a : Owned B.C h0 K { V with crs := V.crs.insert (adjustIdx N r) S, used := used } (s.addStopped (adjustIdx N r) entry used g))
    (hs : S.len < B.C.beta (B.C.nQ - 1)) (i : ℕ) : ∃ e, heapStep B us gs K (s.addStopped (adjustIdx N r) entry used g) (.genRot r i) = .error e := by
  have rr := step_owned hn us gs a (.genRot r i)
  have e : ∃ e, valStep us gs { V with crs := V.crs.insert (adjustIdx N r) S, used := used } (.genRot r i) = .error e := by
    unfold valStep
    dsimp only
    cases Val.getSk V.keys i with
    | error x => exact ⟨x, rfl⟩
    | ok k =>
      rw [bind_ok]
      unfold genRotationKey
      split
      · exact ⟨_, rfl⟩
      dsimp only
      obtain ⟨w, st', e1, -⟩ := genSwitchingKey_total gs V.kg k (swk := Swk.new) le_rfl
      have e2 : GoMap.deref (V.crs.insert (adjustIdx N r) S) (adjustIdx N r) = .ok S := GoMap.deref_ok (by rw [GoMap.lookup_insert', if_pos rfl])
      obtain ⟨x, e3⟩ := mapBlocks_short (fun a d => qpMulSub (B.C.nQ - 1) a (permKey (galElInv N (galElCol N (adjustIdx N r).toNat)) k).value d) hs (swk := w)
      rw [e1, bind_ok, e2, bind_ok, e3]
      exact ⟨x, rfl⟩
  obtain ⟨x, e⟩ := e
  rw [e] at rr
  cases eh : heapStep B us gs K (s.addStopped (adjustIdx N r) entry used g) (.genRot r i) with
  | error y => exact ⟨y, rfl⟩
  | ok s' => rw [eh] at rr; exact rr.elim

theorem last_block {C : Ctx N} (W : C.Valid) : (C.nQ - 1) / C.alpha = C.beta (C.nQ - 1) - 1 := by
  have h : C.nQ - 1 < C.nQ := by have := W.q1; omega
  have b := W.beta_pos h
  have h1 := (W.lt_beta (k := C.beta (C.nQ - 1) - 1) h).mp (by omega)
  have h2 := W.div_lt_beta h (le_refl (C.nQ - 1))
  have h3 := (Nat.le_div_iff_mul_le W.alpha_pos).mpr h1
  omega

theorem mv_zero {q : ℕ} (L : LimbOps N q) : L.mv Limb.zero = 0 := by
  unfold LimbOps.mv
  rw [LimbOps.ev_zero, zero_mul]

/-- **C83, exposure.** `AddCRS(r)` may be stopped at a moment after which `GenRotationKey(r, sk)`, for every secret key of the program, returns a key whose last block is
`P*σ + e` modulo the last prime of Q and `e` modulo the primes of P: the rotation key, which is sent to the evaluator, is not masked there. -/
theorem exposed (W : B.C.Valid) {Bd : ℤ} (hB : B.C.SmallBound Bd) (hg : ∀ n, Bdd (gs n) Bd) (a : Owned B.C h0 K V s) (r : ℕ) :
    ∃ entry g, AddStopped B.C us s.used s.heap entry g ∧ ∀ (used i : ℕ) (k : SKey B.C) (σ : Nega N ℤ), V.keys[i]? = some (.sk k) → k.Is σ →
      ∃ s' o rk, heapStep B us gs K (s.addStopped r entry used g) (.genRot r i) = .ok s' ∧ s'.keys = s.keys ++ [o] ∧ C70.Shows B.C s'.heap o (.gal rk) ∧
        ∃ e, Bdd e Bd ∧
          (B.C.RQ (B.C.nQ - 1)).mv ((rk.value.val (B.C.beta (B.C.nQ - 1) - 1)).Q (B.C.nQ - 1)) =
            (B.C.P : Nega N (ZMod (B.C.q (B.C.nQ - 1)))) * red (B.C.q (B.C.nQ - 1)) σ + red (B.C.q (B.C.nQ - 1)) e ∧
          ∀ j < B.C.nP, (B.C.RP j).mv ((rk.value.val (B.C.beta (B.C.nQ - 1) - 1)).P j) = red (B.C.p j) e := by
  have hn : B.C.nQ - 1 < B.C.nQ := by have := W.q1; omega
  have hb : 0 < B.C.beta (B.C.nQ - 1) := W.beta_pos hn
  obtain ⟨entry, g, st, gr, S, sh, f, l, z⟩ := zero_entry W.q1 a.wf us s.used hb
  refine ⟨entry, g, st, fun used i k σ hk hσ => ?_⟩
  have a' := owned_setCrs a (r : ℤ) gr sh f used
  have hr : adjustIdx N (r : ℤ) = (r : ℤ) := adjustIdx_nonneg (by omega)
  obtain ⟨rk, st', e1, -, -, -, ke⟩ := C15.rotationKey W hB hg V.kg hσ (crs := V.crs.insert (r : ℤ) S) (a := S) (rot := r) (r := r) (by simp) hr
    (by rw [GoMap.lookup_insert', if_pos rfl]) l.ge
  have ev : valStep us gs { V with crs := V.crs.insert (r : ℤ) S, used := used } (.genRot r i) =
      .ok { V with crs := V.crs.insert (r : ℤ) S, used := used, keys := V.keys ++ [.gal rk], kg := st' } := by
    unfold valStep Val.getSk
    dsimp only
    rw [hk]
    dsimp only
    rw [bind_ok, e1]
    rfl
  have rr := step_owned W.q1 us gs a' (.genRot r i)
  rw [ev] at rr
  cases eh : heapStep B us gs K (s.addStopped r entry used g) (.genRot r i) with
  | error y => rw [eh] at rr; exact rr.elim
  | ok s' =>
    rw [eh] at rr
    obtain ⟨o, ho⟩ : ∃ o, s'.keys = s.keys ++ [o] := by
      unfold heapStep at eh
      dsimp only at eh
      obtain ⟨x, -, eh⟩ := Go.of_bind_ok eh
      obtain ⟨w, -, eh⟩ := Go.of_bind_ok eh
      cases eh
      exact ⟨_, rfl⟩
    have hs : C70.Shows B.C s'.heap o (.gal rk) := by
      have := rr.keys
      rw [ho] at this
      have l1 := a.keys.length_eq
      have := this.get (i := s.keys.length) (by simp) (by simp [l1])
      simpa [l1] using this
    obtain ⟨q, p⟩ := ke (B.C.beta (B.C.nQ - 1) - 1) (by omega)
    refine ⟨s', o, rk, rfl, ho, hs, gs (V.kg.pos + (B.C.beta (B.C.nQ - 1) - 1)), hg _, ?_, fun j hj => ?_⟩
    · rw [q _ hn, z, if_pos (last_block W)]
      show - _ * LimbOps.mv _ Limb.zero + _ + _ = _
      rw [mv_zero, mul_zero, zero_add]
    · rw [p j hj, z]
      show - _ * LimbOps.mv _ Limb.zero + _ = _
      rw [mv_zero, mul_zero, zero_add]

/-- **C83, what it means**: such a block determines the secret key: two small secret keys with the same last block are equal -/
theorem determined {C : Ctx N} (W : C.Valid) {Be Bs : ℤ} (he : 2 * Be < C.p 0) (hs : 2 * Bs < C.q (C.nQ - 1)) {σ σ' e e' : Nega N ℤ} (b1 : Bdd σ Bs) (b2 : Bdd σ' Bs)
    (b3 : Bdd e Be) (b4 : Bdd e' Be) {v : PolyQP C}
    (q : (C.RQ (C.nQ - 1)).mv (v.Q (C.nQ - 1)) = (C.P : Nega N (ZMod (C.q (C.nQ - 1)))) * red (C.q (C.nQ - 1)) σ + red (C.q (C.nQ - 1)) e)
    (p : (C.RP 0).mv (v.P 0) = red (C.p 0) e)
    (q' : (C.RQ (C.nQ - 1)).mv (v.Q (C.nQ - 1)) = (C.P : Nega N (ZMod (C.q (C.nQ - 1)))) * red (C.q (C.nQ - 1)) σ' + red (C.q (C.nQ - 1)) e')
    (p' : (C.RP 0).mv (v.P 0) = red (C.p 0) e') : σ = σ' := by
  have inj : ∀ {m : ℕ} {b : ℤ} {x y : Nega N ℤ}, 2 * b < m → Bdd x b → Bdd y b → red m x = red m y → x = y := by
    intro m b x y hm hx hy h
    have hz : red m (x - y) = 0 := by rw [map_sub, h, sub_self]
    apply Nega.ext
    intro t
    have d := (red_eq_zero_iff m (x - y)).mp hz t
    have h1 := abs_le.mp (hx t)
    have h2 := abs_le.mp (hy t)
    have : x t - y t = 0 := Int.eq_zero_of_abs_lt_dvd d (by show |x t - y t| < _; rw [abs_lt]; constructor <;> linarith)
    linarith
  have ee : e = e' := inj he b3 b4 (p.symm.trans p')
  subst ee
  have hn : C.nQ - 1 < C.nQ := by have := W.q1; omega
  exact inj hs b1 b2 (W.P_cancel hn (add_right_cancel (q.symm.trans q')))

/-! ## histories -/

/-- what happens to a program that makes keys and extends the CRS -/
inductive Event (N : ℕ) where
  /-- the call returned -/
  | done (c : Cmd N)
  /-- the call, not an `AddCRS`, was stopped by its own panic or from outside -/
  | stopped (c : Cmd N)
  /-- `AddCRS(idx)` was stopped -/
  | stoppedAdd (idx : ℤ)

/-- from state to state -/
inductive History (B : BCtx N) (us : ℕ → PolyQP B.C) (gs : ℕ → Nega N ℤ) (K : HKG) : HState N → List (Event N) → HState N → Prop
  | nil (s : HState N) : History B us gs K s [] s
  | done {s s' s'' : HState N} {c : Cmd N} {l : List (Event N)} : heapStep B us gs K s c = .ok s' → History B us gs K s' l s'' →
      History B us gs K s (.done c :: l) s''
  | stopped {s s'' : HState N} {c : Cmd N} {l : List (Event N)} {g : Heap N} (pos : ℕ) : Write.During s.heap (heapStepT B gs K s c).writes g →
      History B us gs K { s with heap := g, pos := pos } l s'' → History B us gs K s (.stopped c :: l) s''
  | stoppedAdd {s s'' : HState N} {idx : ℤ} {l : List (Event N)} {entry : SwkObj} {g : Heap N} (used : ℕ) :
      AddStopped B.C us s.used s.heap entry g → History B us gs K (s.addStopped idx entry used g) l s'' → History B us gs K s (.stoppedAdd idx :: l) s''

/-- the indices that a history adds to the CRS, or tries to -/
def Event.adds : List (Event N) → List ℤ
  | [] => []
  | .done (.addCRS i) :: l => i :: adds l
  | .stoppedAdd i :: l => i :: adds l
  | _ :: l => adds l

theorem valStep_crs {V V' : VState B.C} {c : Cmd N} (e : valStep us gs V c = .ok V') : (∃ i, c = .addCRS i ∧ ∀ k, k ≠ i → V'.crs.lookup k = V.crs.lookup k) ∨
    (¬ Cmd.IsAddCRS c ∧ V'.crs = V.crs) := by
  cases c with
  | addCRS i => cases e; exact Or.inl ⟨i, rfl, fun k hk => by rw [GoMap.lookup_insert', if_neg hk]⟩
  | genSk x id => cases e; exact Or.inr ⟨fun h => h, rfl⟩
  | genSkGaussian id => cases e; exact Or.inr ⟨fun h => h, rfl⟩
  | genPk i =>
    obtain ⟨k, -, e⟩ := Go.of_bind_ok e
    obtain ⟨w, -, e⟩ := Go.of_bind_ok e
    cases e; exact Or.inr ⟨fun h => h, rfl⟩
  | genRlk i j =>
    obtain ⟨k, -, e⟩ := Go.of_bind_ok e
    obtain ⟨k', -, e⟩ := Go.of_bind_ok e
    obtain ⟨w, -, e⟩ := Go.of_bind_ok e
    cases e; exact Or.inr ⟨fun h => h, rfl⟩
  | genBfvRlk i j =>
    obtain ⟨k, -, e⟩ := Go.of_bind_ok e
    obtain ⟨k', -, e⟩ := Go.of_bind_ok e
    obtain ⟨w, -, e⟩ := Go.of_bind_ok e
    cases e; exact Or.inr ⟨fun h => h, rfl⟩
  | genRot r i =>
    obtain ⟨k, -, e⟩ := Go.of_bind_ok e
    obtain ⟨w, -, e⟩ := Go.of_bind_ok e
    cases e; exact Or.inr ⟨fun h => h, rfl⟩
  | genConj i =>
    obtain ⟨k, -, e⟩ := Go.of_bind_ok e
    obtain ⟨w, -, e⟩ := Go.of_bind_ok e
    cases e; exact Or.inr ⟨fun h => h, rfl⟩
  | copy i =>
    dsimp only [valStep] at e
    generalize V.keys[i]? = o at e
    rcases o with _ | _ | _ | _ | _ | _ <;> first | (cases e; exact Or.inr ⟨fun h => h, rfl⟩) | cases e

/-- **C83, histories.** After every history of calls that return and calls that are stopped, among them `AddCRS`, every key made by a call that returned has its value and its own
memory, and so has every entry of the CRS whose index the history does not add. -/
theorem history (hn : 0 < B.C.nQ) {s s' : HState N} {l : List (Event N)} (hl : History B us gs K s l s') :
    ∀ {V : VState B.C}, Owned B.C h0 K V s → ∃ V', Owned B.C h0 K V' s' ∧ V.keys <+: V'.keys ∧ ∀ k, k ∉ Event.adds l → V'.crs.lookup k = V.crs.lookup k := by
  induction hl with
  | nil s => exact fun {V} a => ⟨V, a, List.prefix_rfl, fun _ _ => rfl⟩
  | @done s s1 s2 c l e _ ih =>
    intro V a
    have r := step_owned hn us gs a c
    rw [e] at r
    cases ev : valStep us gs V c with
    | error x => rw [ev] at r; exact r.elim
    | ok V1 =>
      rw [ev] at r
      obtain ⟨V', h1, h2, h3⟩ := ih r
      refine ⟨V', h1, (valStep_keys ev).trans h2, fun k hk => ?_⟩
      rcases valStep_crs ev with ⟨i, rfl, h⟩ | ⟨hc, h⟩
      · have hk' := not_or.mp (fun o => (show k ∉ i :: Event.adds l from hk) (List.mem_cons.mpr o))
        exact (h3 k hk'.2).trans (h k hk'.1)
      · rw [← h]
        refine h3 k ?_
        cases c <;> first | exact absurd trivial hc | exact hk
  | @stopped s s2 c l g pos hg _ ih =>
    intro V a
    obtain ⟨kg, -, a'⟩ := interrupted gs a c hg pos
    obtain ⟨V', h1, h2, h3⟩ := ih a'
    exact ⟨V', h1, h2, h3⟩
  | @stoppedAdd s s2 idx l entry g used st _ ih =>
    intro V a
    obtain ⟨S, -, -, h⟩ := addCRS_stopped hn a idx st
    obtain ⟨V', h1, h2, h3⟩ := ih (h used)
    refine ⟨V', h1, h2, fun k hk => ?_⟩
    have hk' := not_or.mp (fun o => (show k ∉ idx :: Event.adds l from hk) (List.mem_cons.mpr o))
    refine (h3 k hk'.2).trans ?_
    show AList.lookup k _ = _
    rw [GoMap.lookup_insert', if_neg hk'.1]

/-! ## a concrete case -/

/-- with the example parameters: a secret key is made, then `AddCRS(5)` is stopped at the wrong moment, then a rotation key for 5 is made, and its last block gives the
secret key away -/
theorem exposed_ex (fm : FloatModel) (us : ℕ → PolyQP (BEx.qp fm)) {gs : ℕ → Nega 16 ℤ} (hg : ∀ n, Bdd (gs n) 2) :
    ∃ (K : HKG) (s0 s1 : HState 16), heapRun (BEx.bctx fm) us gs [] Heap.empty = .ok (K, s0) ∧
      heapStep (BEx.bctx fm) us gs K s0 (.genSk (Ex.sec "a") "a") = .ok s1 ∧
      ∃ entry g, AddStopped (BEx.qp fm) us s1.used s1.heap entry g ∧ ∀ used, ∃ s2 o rk,
        heapStep (BEx.bctx fm) us gs K (s1.addStopped 5 entry used g) (.genRot 5 0) = .ok s2 ∧ s2.keys = s1.keys ++ [o] ∧
        C70.Shows (BEx.qp fm) s2.heap o (.gal rk) ∧ ∀ σ e, Bdd σ 2 → Bdd e 2 →
          ((BEx.qp fm).RQ ((BEx.qp fm).nQ - 1)).mv ((rk.value.val ((BEx.qp fm).beta ((BEx.qp fm).nQ - 1) - 1)).Q ((BEx.qp fm).nQ - 1)) =
            ((BEx.qp fm).P : Nega 16 (ZMod ((BEx.qp fm).q ((BEx.qp fm).nQ - 1)))) * red ((BEx.qp fm).q ((BEx.qp fm).nQ - 1)) σ +
              red ((BEx.qp fm).q ((BEx.qp fm).nQ - 1)) e →
          ((BEx.qp fm).RP 0).mv ((rk.value.val ((BEx.qp fm).beta ((BEx.qp fm).nQ - 1) - 1)).P 0) = red ((BEx.qp fm).p 0) e → σ = Ex.sec "a" := by
  have W := BEx.valid_qp fm
  have hB := small_ex fm
  have b1 : Bdd (Ex.sec "a") 2 := (Ex.sec_bdd "a").mono (by norm_num)
  obtain ⟨S0, K, s0, e0, a0, c0, k0, m0⟩ := start (B := BEx.bctx fm) W.q1 us gs Heap.empty_wf
  have r := step_owned (B := BEx.bctx fm) W.q1 us gs a0 (.genSk (Ex.sec "a") "a")
  cases e1 : heapStep (BEx.bctx fm) us gs K s0 (.genSk (Ex.sec "a") "a") with
  | error y => rw [e1] at r; exact r.elim
  | ok s1 =>
    rw [e1] at r
    refine ⟨K, s0, s1, e0, e1, ?_⟩
    obtain ⟨entry, g, st, h⟩ := exposed W hB hg r 5
    refine ⟨entry, g, st, fun used => ?_⟩
    obtain ⟨s2, o, rk, h1, h2, h3, e, he, h4, h5⟩ := h used 0 (genSecretKeyFromSampler (Ex.sec "a") "a") (Ex.sec "a") (by rw [k0]; rfl)
      (C12.secretKey W hB b1 "a").1
    refine ⟨s2, o, rk, h1, h2, h3, fun σ e' hσ he' h6 h7 => ?_⟩
    refine (determined W (Be := 2) (Bs := 2) ?_ ?_ b1 hσ he he' h4 (h5 0 W.nP_pos) h6 h7).symm
    · show (2 * 2 : ℤ) < ((BEx.bp 0 : ℕ) : ℤ); simp [BEx.bp]
    · show (2 * 2 : ℤ) < ((BEx.bq ((BEx.qp fm).nQ - 1) : ℕ) : ℤ); unfold BEx.bq; split_ifs <;> norm_num

end C83
end MKHE
