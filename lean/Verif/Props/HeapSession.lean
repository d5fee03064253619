import Verif.Model.HeapSession
import Verif.Props.HeapBfvKeyGen

set_option autoImplicit false

/-!
# C70: every program that makes keys

`program_owned`: for every sequence of calls of `AddCRS`, of the key generators and of the copy functions, the run on the heap ends as the run on
values does (with the same panic, or not at all), and at the end **every** key made on the way still has the value it was made with, no two keys share a
polynomial, no key shares one with the common reference string or with the scratch space of the key generator, and nothing that existed
before was changed. `write_local`: whatever is written to the polynomials of one key, every other key, the CRS and the key generator stay as they are.
-/

namespace MKHE
namespace C70
open Heap
variable {N : ℕ} [NeZero N] {C : Ctx N}

/-- the polynomials of a key -/
def Obj.polys : Obj → List ℕ
  | .sk k => SkObj.polys k
  | .pk k => PkObj.polys k
  | .rlk k => RlkObj.polys k
  | .gal k => GalObj.polys k
  | .brlk k => BRlkObj.polys k

variable (C) in
/-- the key object has this value -/
def Shows (h : Heap N) : Obj → Val C → Prop
  | .sk k, .sk K => SkShows C h k K
  | .pk k, .pk K => PkShows C h k K
  | .rlk k, .rlk K => RlkShows C h k K
  | .gal k, .gal K => GalShows C h k K
  | .brlk k, .brlk K => BRlkShows C h k K
  | _, _ => False

/-- all polynomials of the keys -/
def allPolys (l : List Obj) : List ℕ := l.flatMap Obj.polys

theorem Shows.keep {h h' : Heap N} {Wp Wc : Set ℕ} {o : Obj} {v : Val C} (a : Shows C h o v) (w : Only Wp Wc h h') (hw : ∀ p ∈ Obj.polys o, p ∉ Wp) :
    Shows C h' o v := by
  cases o <;> cases v <;> first
    | exact a.elim
    | exact SkShows.keep a w hw
    | exact PkShows.keep a w hw
    | exact RlkShows.keep a w hw
    | exact GalShows.keep a w hw
    | exact BRlkShows.keep a w hw

theorem swk_low {h : Heap N} {s : SwkObj} {S : Swk C} (a : SwkShows C h s S) : ∀ p ∈ SwkObj.polys s, p < h.npoly := fun p hp => by
  obtain ⟨v, hv, hm⟩ := List.mem_flatMap.mp hp
  have := shows_low a v hv
  simp only [QP.polys, List.mem_cons, List.not_mem_nil, or_false] at hm
  omega

theorem rlk_low {h : Heap N} {k : RlkObj} {X : Rlk C} (a : RlkShows C h k X) : ∀ p ∈ RlkObj.polys k, p < h.npoly := fun p hp => by
  simp only [RlkObj.polys, List.mem_append] at hp
  rcases hp with (hp | hp) | hp
  exacts [swk_low a.2.1 p hp, swk_low a.2.2.1 p hp, swk_low a.2.2.2 p hp]

theorem Shows.low {h : Heap N} {o : Obj} {v : Val C} (a : Shows C h o v) : ∀ p ∈ Obj.polys o, p < h.npoly := by
  have qp : ∀ {v : QP} {X : PolyQP C}, QPAt C h v X → ∀ p ∈ QP.polys v, p < h.npoly := fun {v X} a p hp => by
    have := a.q
    have := a.p
    simp only [QP.polys, List.mem_cons, List.not_mem_nil, or_false] at hp
    omega
  cases o <;> cases v <;> first | exact a.elim | exact qp a.2 | exact rlk_low a | exact swk_low a.2.2 | skip
  · intro p hp
    rcases List.mem_append.mp hp with hp | hp
    exacts [qp a.2.1 p hp, qp a.2.2 p hp]
  · intro p hp
    rcases List.mem_append.mp hp with hp | hp
    exacts [rlk_low a.2.1 p hp, rlk_low a.2.2 p hp]

/-! ## the common reference string -/

/-- the first `n` components of an entry: fresh samples in new memory -/
theorem hCrsPrefix_run (hn : 0 < C.nQ) {h : Heap N} (W : WF h) (us : ℕ → PolyQP C) (used n : ℕ) :
    ∃ h', Go.loop (hCrsStep C us) ([], used, h) (List.range n) = .ok (swkObj h.npoly n, used + n, h') ∧ Grow h h' ∧ h'.npoly = h.npoly + 2 * n ∧
      ∀ i < n, QPAt C h' ⟨h.npoly + 2 * i, h.npoly + 2 * i + 1⟩ (crsBlock (us (used + i))) := by
  obtain ⟨⟨s, u, h'⟩, e, k1, k2, k3, k4, k5⟩ := Go.loop_inv (hCrsStep C us)
    (fun pre (w : SwkObj × ℕ × Heap N) => Grow h w.2.2 ∧ w.1 = swkObj h.npoly pre.length ∧ w.2.1 = used + pre.length ∧
      w.2.2.npoly = h.npoly + 2 * pre.length ∧
      ∀ i < pre.length, QPAt C w.2.2 ⟨h.npoly + 2 * i, h.npoly + 2 * i + 1⟩ (crsBlock (us (used + i)))) (List.range n) ([], used, h)
    ⟨Grow.refl W, rfl, rfl, rfl, fun i hi => absurd hi (Nat.not_lt_zero i)⟩ (by
      rintro pre i suf ⟨s, u, g⟩ hl ⟨j1, j2, j3, j4, j5⟩
      dsimp only at j1 j2 j3 j4 j5
      obtain ⟨g1, e1, n1, z1⟩ := newQP_spec (C := C) j1.wf
      obtain ⟨h2, e2, S2, z2⟩ := qpOp_run hn g1.wf (fun i _ _ _ => (us u).Q i) (fun j _ _ _ => (us u).P j) z1 z1 z1 z1.ne z1.ne
      obtain ⟨h3, e3, S3, z3⟩ := hMForm_run hn S2.wf z2 z2 z2.ne
      have S := S2.trans S3
      have e1' := e1
      rw [j4] at e1'
      refine ⟨(s ++ [(newQP C g).1], u + 1, h3), ?_, ?_, ?_, ?_, ?_, ?_⟩
      · unfold hCrsStep hUniform
        dsimp only
        rw [e2]
        show (hMForm C _ _ h2 >>= _) = _
        rw [e3]
        rfl
      · have gg := j1.trans g1
        refine ⟨S.wf, gg.only.trans' S.only (fun p hp hw => ?_) (fun _ _ hc => hc), S.nct.trans gg.nct⟩
        rw [e1'] at hw
        rcases hw with rfl | rfl
        · exact absurd hp (show ¬ h.npoly + 2 * pre.length < h.npoly by omega)
        · exact absurd hp (show ¬ h.npoly + 2 * pre.length + 1 < h.npoly by omega)
      · show s ++ [(newQP C g).1] = _
        rw [j2, e1', List.length_append, List.length_singleton]
        unfold swkObj
        rw [List.range_succ, List.map_append, List.map_singleton]
      · show u + 1 = _
        rw [j3, List.length_append, List.length_singleton]; omega
      · show h3.npoly = _
        rw [S.npoly, n1, j4, List.length_append, List.length_singleton]; omega
      · intro i hi
        rw [List.length_append, List.length_singleton] at hi
        show QPAt C h3 _ _
        by_cases hk : i = pre.length
        · subst hk
          rw [← j3]
          rw [e1'] at z3
          exact z3
        · have := (j5 i (by omega)).keep g1.only (by simp) (by simp)
          refine S.apart this ?_ ?_ ?_ ?_ <;> rw [e1']
          · show h.npoly + 2 * i ≠ h.npoly + 2 * pre.length; omega
          · show h.npoly + 2 * i ≠ h.npoly + 2 * pre.length + 1; omega
          · show h.npoly + 2 * i + 1 ≠ h.npoly + 2 * pre.length; omega
          · show h.npoly + 2 * i + 1 ≠ h.npoly + 2 * pre.length + 1; omega)
  dsimp only at k1 k2 k3 k4 k5
  rw [List.length_range] at k2 k3 k4 k5
  exact ⟨h', by rw [e, k2, k3], k1, k4, k5⟩

/-- one entry: fresh samples in new memory -/
theorem hCrsSwk_run (hn : 0 < C.nQ) {h : Heap N} (W : WF h) (us : ℕ → PolyQP C) (used : ℕ) :
    ∃ s h', hCrsSwk C us used h = .ok (s, used + C.beta (C.nQ - 1), h') ∧ Grow h h' ∧ SwkShows C h' s (crsSwk us used) ∧ Fresh h h' (SwkObj.polys s) := by
  obtain ⟨h', e, k1, k4, k5⟩ := hCrsPrefix_run hn W us used (C.beta (C.nQ - 1))
  have at' : SwkAt C h' h.npoly (crsSwk us used) := ⟨rfl, k5⟩
  refine ⟨_, h', e, k1, at'.shows, ?_⟩
  rw [polys_swkObj]
  exact fresh_range le_rfl (by omega)

/-- the CRS: the values, and every entry has its own memory, all of it newer than `h0` -/
structure CrsOwned (C : Ctx N) (h0 h : Heap N) (crs : GoMap ℤ SwkObj) (CRS : GoMap ℤ (Swk C)) : Prop where
  val : ∀ k, (crs.lookup k = none ∧ CRS.lookup k = none) ∨ ∃ s S, crs.lookup k = some s ∧ CRS.lookup k = some S ∧ SwkShows C h s S
  nodup : ∀ k s, crs.lookup k = some s → (SwkObj.polys s).Nodup
  disj : ∀ k k' s s', k ≠ k' → crs.lookup k = some s → crs.lookup k' = some s' → List.Disjoint (SwkObj.polys s) (SwkObj.polys s')
  new : ∀ k s, crs.lookup k = some s → ∀ p ∈ SwkObj.polys s, h0.npoly ≤ p

theorem CrsOwned.low {h0 h : Heap N} {crs : GoMap ℤ SwkObj} {CRS : GoMap ℤ (Swk C)} (a : CrsOwned C h0 h crs CRS) :
    ∀ k s, crs.lookup k = some s → ∀ p ∈ SwkObj.polys s, p < h.npoly := fun k s e => by
  rcases a.val k with ⟨e1, -⟩ | ⟨s', S, e1, -, e3⟩
  · rw [e1] at e; cases e
  · rw [e1] at e; cases e; exact swk_low e3

theorem CrsOwned.keep {h0 h h' : Heap N} {crs : GoMap ℤ SwkObj} {CRS : GoMap ℤ (Swk C)} (a : CrsOwned C h0 h crs CRS) {Wp Wc : Set ℕ}
    (o : Only Wp Wc h h') (hw : ∀ k s, crs.lookup k = some s → ∀ p ∈ SwkObj.polys s, p ∉ Wp) : CrsOwned C h0 h' crs CRS :=
  ⟨fun k => by
    rcases a.val k with e | ⟨s, S, e1, e2, e3⟩
    · exact Or.inl e
    · exact Or.inr ⟨s, S, e1, e2, swk_keep e3 o (hw k s e1)⟩, a.nodup, a.disj, a.new⟩

/-- `AddCRS` -/
theorem CrsOwned.insert {h0 h h' : Heap N} {crs : GoMap ℤ SwkObj} {CRS : GoMap ℤ (Swk C)} (a : CrsOwned C h0 h crs CRS) (h0le : h0.npoly ≤ h.npoly)
    (idx : ℤ) {s : SwkObj} {S : Swk C} (g : Grow h h') (hs : SwkShows C h' s S) (f : Fresh h h' (SwkObj.polys s)) :
    CrsOwned C h0 h' (crs.insert idx s) (CRS.insert idx S) := by
  have a' := a.keep g.only (fun _ _ _ _ _ => by simp)
  have low := a.low
  refine ⟨fun k => ?_, fun k t e => ?_, fun k k' t t' hk e e' => ?_, fun k t e p hp => ?_⟩
  · simp only [GoMap.lookup_insert']
    by_cases hk : k = idx
    · simp only [if_pos hk]
      exact Or.inr ⟨s, S, rfl, rfl, hs⟩
    · simp only [if_neg hk]
      exact a'.val k
  · rw [GoMap.lookup_insert'] at e
    split at e
    · cases e; exact f.1
    · exact a.nodup k t e
  · rw [GoMap.lookup_insert'] at e e'
    by_cases h1 : k = idx
    · rw [if_pos h1] at e
      rw [if_neg (fun h2 => hk (h1.trans h2.symm))] at e'
      cases e
      intro p hp hp'
      have := (f.2 p hp).1
      have := low _ _ e' p hp'
      omega
    · rw [if_neg h1] at e
      by_cases h2 : k' = idx
      · rw [if_pos h2] at e'
        cases e'
        intro p hp hp'
        have := (f.2 p hp').1
        have := low _ _ e p hp
        omega
      · rw [if_neg h2] at e'
        exact a.disj k k' t t' hk e e'
  · rw [GoMap.lookup_insert'] at e
    split at e
    · cases e
      have := (f.2 p hp).1
      omega
    · exact a.new k t e p hp

/-! ## the invariant -/

/-- **what holds after every program**: `V` is the state the run on values ends in -/
structure Owned (C : Ctx N) (h0 : Heap N) (K : HKG) (V : VState C) (s : HState N) : Prop where
  wf : WF s.heap
  /-- nothing that existed before was changed -/
  base : Grow h0 s.heap
  used : s.used = V.used
  pos : s.pos = V.kg.pos
  /-- the key generator is in the state of the value model, in its own memory -/
  kg : KGAt C s.heap K V.kg
  kgNew : ∀ p ∈ K.mem, h0.npoly ≤ p
  /-- so is the common reference string -/
  crs : CrsOwned C h0 s.heap s.crs V.crs
  crsApart : ∀ k a, s.crs.lookup k = some a → ∀ p ∈ SwkObj.polys a, p ∉ K.mem
  /-- all keys made so far have the value they were made with -/
  keys : List.Forall₂ (Shows C s.heap) s.keys V.keys
  /-- no polynomial belongs to two keys, or twice to one -/
  nodup : (allPolys s.keys).Nodup
  /-- nor to the key generator -/
  apart : ∀ p ∈ allPolys s.keys, p ∉ K.mem
  /-- nor to the CRS -/
  noCrs : ∀ k a, s.crs.lookup k = some a → ∀ p ∈ SwkObj.polys a, p ∉ allPolys s.keys
  /-- nor to what existed before -/
  keysNew : ∀ p ∈ allPolys s.keys, h0.npoly ≤ p

variable {h0 : Heap N} {K : HKG} {V : VState C} {s : HState N}

theorem Owned.low (a : Owned C h0 K V s) : ∀ p ∈ allPolys s.keys, p < s.heap.npoly := fun p hp => by
  obtain ⟨o, ho, hm⟩ := List.mem_flatMap.mp hp
  have h1 := a.keys
  obtain ⟨i, hi, e⟩ := List.mem_iff_getElem.mp ho
  have hv : i < V.keys.length := h1.length_eq ▸ hi
  have := h1.get hi hv
  simp only [List.get_eq_getElem, e] at this
  exact this.low p hm

theorem Owned.crsShows (a : Owned C h0 K V s) : CrsShows C K s.heap s.crs V.crs := fun k => by
  rcases a.crs.val k with e | ⟨t, S, e1, e2, e3⟩
  · exact Or.inl e
  · exact Or.inr ⟨t, S, e1, e2, e3, fun v hv => ⟨a.crsApart k t e1 _ (List.mem_flatMap.mpr ⟨v, hv, by simp [QP.polys]⟩),
      a.crsApart k t e1 _ (List.mem_flatMap.mpr ⟨v, hv, by simp [QP.polys]⟩)⟩⟩

/-- a new key -/
theorem Owned.push (a : Owned C h0 K V s) {h' : Heap N} {st' : KG C} {o : Obj} {v : Val C} (R : Ran K s.heap h') (hK : KGAt C h' K st')
    (hs : Shows C h' o v) (f : Fresh s.heap h' (Obj.polys o)) :
    Owned C h0 K { V with keys := V.keys ++ [v], kg := st' } { s with keys := s.keys ++ [o], pos := st'.pos, heap := h' } := by
  have all : allPolys (s.keys ++ [o]) = allPolys s.keys ++ Obj.polys o := by unfold allPolys; simp
  have bl := a.base.only.npoly
  refine ⟨R.wf, ⟨R.wf, a.base.only.trans' R.only (fun p hp hw => ?_) (fun _ _ hc => hc), R.nct.trans a.base.nct⟩, a.used, rfl, hK, a.kgNew,
    a.crs.keep R.only a.crsApart, a.crsApart, ?_, ?_, ?_, ?_, ?_⟩
  · have := a.kgNew p hw; omega
  · refine List.rel_append ?_ (List.Forall₂.cons hs List.Forall₂.nil)
    refine List.forall₂_iff_get.mpr ⟨a.keys.length_eq, fun i h1 h2 => ?_⟩
    refine (a.keys.get h1 h2).keep R.only fun p hp => a.apart p (List.mem_flatMap.mpr ⟨_, List.get_mem _ _, hp⟩)
  · show (allPolys (s.keys ++ [o])).Nodup
    rw [all]
    refine List.Nodup.append a.nodup f.1 fun p hp hp' => ?_
    have := a.low p hp
    have := (f.2 p hp').1
    omega
  · show ∀ p ∈ allPolys (s.keys ++ [o]), _
    rw [all]
    intro p hp hk
    rcases List.mem_append.mp hp with hp | hp
    · exact a.apart p hp hk
    · have := KGAt.low a.kg p hk
      have := (f.2 p hp).1
      omega
  · show ∀ k t, _ → ∀ p ∈ _, p ∉ allPolys (s.keys ++ [o])
    rw [all]
    intro k t e p hp hm
    rcases List.mem_append.mp hm with hm | hm
    · exact a.noCrs k t e p hp hm
    · have := a.crs.low k t e p hp
      have := (f.2 p hm).1
      omega
  · show ∀ p ∈ allPolys (s.keys ++ [o]), _
    rw [all]
    intro p hp
    rcases List.mem_append.mp hp with hp | hp
    · exact a.keysNew p hp
    · have := (f.2 p hp).1
      omega

/-- a secret key of the program -/
theorem Owned.sk (a : Owned C h0 K V s) (i : ℕ) :
    Go.Rel (fun X k => SkShows C s.heap k X ∧ Apart K k.value) (Val.getSk V.keys i) (Obj.getSk s.keys i) := by
  unfold Val.getSk Obj.getSk
  by_cases hi : i < s.keys.length
  · have hv : i < V.keys.length := a.keys.length_eq ▸ hi
    have hr := a.keys.get hi hv
    rw [List.getElem?_eq_getElem hi, List.getElem?_eq_getElem hv]
    simp only [List.get_eq_getElem] at hr
    have hm : ∀ p ∈ Obj.polys s.keys[i], p ∉ K.mem := fun p hp => a.apart p (List.mem_flatMap.mpr ⟨_, List.getElem_mem hi, hp⟩)
    cases ho : s.keys[i] with
    | sk k =>
      cases hw : V.keys[i] with
      | sk k' =>
        rw [ho, hw] at hr
        rw [ho] at hm
        exact ⟨hr, hm _ (by simp [Obj.polys, SkObj.polys, QP.polys]), hm _ (by simp [Obj.polys, SkObj.polys, QP.polys])⟩
      | _ => rw [ho, hw] at hr; exact hr.elim
    | _ => cases hw : V.keys[i] <;> first | rfl | (rw [ho, hw] at hr; exact hr.elim)
  · have hl : s.keys.length = V.keys.length := a.keys.length_eq
    rw [List.getElem?_eq_none (by omega), List.getElem?_eq_none (by omega)]
    rfl

theorem grow_ran {h h' : Heap N} (g : Grow h h') : Ran K h h' := ⟨g.wf, g.only.mono (Set.empty_subset _) subset_rfl, g.nct⟩

theorem qpCopyNew_at {h : Heap N} (W : WF h) {v : QP} {X : PolyQP C} (a : QPAt C h v X) : Grow h (qpCopyNew v h).2 ∧
    (qpCopyNew v h).1 = ⟨h.npoly, h.npoly + 1⟩ ∧ (qpCopyNew v h).2.npoly = h.npoly + 2 ∧ QPAt C (qpCopyNew v h).2 ⟨h.npoly, h.npoly + 1⟩ X := by
  obtain ⟨g, e, n, l1, l2, -, -, w⟩ := qpCopyNew_spec (C := C) W (v := v) a.p
  rw [e] at w
  refine ⟨g, e, n, ⟨?_, ?_, ?_, l1.trans a.lenQ, l2.trans a.lenP, w.trans a.val⟩⟩
  · show h.npoly < _; omega
  · show h.npoly + 1 < _; omega
  · show h.npoly + 1 ≠ h.npoly; omega

/-! ## one call -/

variable {B : BCtx N} {V : VState B.C}

/-- **one call** keeps the invariant, on the heap as on values -/
theorem step_owned (hn : 0 < B.C.nQ) (us : ℕ → PolyQP B.C) (gs : ℕ → Nega N ℤ) (a : Owned B.C h0 K V s) (c : Cmd N) :
    Go.Rel (Owned B.C h0 K) (valStep us gs V c) (heapStep B us gs K s c) := by
  have W := a.wf
  have ep := a.pos
  cases c with
  | addCRS idx =>
    obtain ⟨t, h', e, g, sh, f⟩ := hCrsSwk_run hn W us V.used
    show Go.Rel _ _ (hAddCRS B.C us idx (s.crs, s.used, s.heap) >>= _)
    unfold hAddCRS
    dsimp only
    rw [a.used, e]
    have bl := a.base.only.npoly
    refine ⟨g.wf, a.base.trans g, rfl, a.pos, a.kg.keep g.only (by simp), a.kgNew, a.crs.insert bl idx g sh f, ?_, ?_, a.nodup, a.apart, ?_, a.keysNew⟩
    · intro k x ex p hp hk
      rw [GoMap.lookup_insert'] at ex
      split at ex
      · cases ex
        have := (f.2 p hp).1
        have := KGAt.low a.kg p hk
        omega
      · exact a.crsApart k x ex p hp hk
    · refine List.forall₂_iff_get.mpr ⟨a.keys.length_eq, fun i h1 h2 => ?_⟩
      exact (a.keys.get h1 h2).keep g.only fun p hp => by simp
    · intro k x ex p hp hk
      rw [GoMap.lookup_insert'] at ex
      split at ex
      · cases ex
        have := (f.2 p hp).1
        have := a.low p hk
        omega
      · exact a.noCrs k x ex p hp hk
  | genSk x id =>
    obtain ⟨k, h', e, sh, g, f⟩ := genSecretKey_heap (C := B.C) hn W x id
    show Go.Rel _ _ (hGenSk B.C x id s.heap >>= _)
    rw [e]
    have := a.push (o := .sk k) (v := .sk (genSecretKeyFromSampler x id)) (grow_ran g) (a.kg.keep g.only (by simp)) sh f
    show Owned _ _ _ _ _
    convert this using 2
  | genSkGaussian id =>
    obtain ⟨k, h', e, sh, g, f⟩ := genSecretKey_heap (C := B.C) hn W (gs V.kg.pos) id
    show Go.Rel _ _ (hGenSk B.C (gs s.pos) id s.heap >>= _)
    rw [ep, e]
    exact a.push (o := .sk k) (v := .sk (genSecretKeyFromSampler (gs V.kg.pos) id)) (st' := { V.kg with pos := V.kg.pos + 1 }) (grow_ran g)
      ((a.kg.keep g.only (by simp)).pos rfl rfl) sh f
  | genPk i =>
    refine Go.Rel.bind (a.sk i) fun X k _ _ r => ?_
    refine Go.Rel.bind (ep ▸ genPublicKey_heap hn W gs a.kg a.crsShows r.1) fun w w' _ _ o => ?_
    have := a.push (o := .pk w'.1) (v := .pk w.1) o.2.2.2.1 o.2.2.1 o.1 o.2.2.2.2
    rw [← o.2.1] at this
    exact this
  | genRlk i j =>
    refine Go.Rel.bind (a.sk i) fun X k _ _ r => ?_
    refine Go.Rel.bind (a.sk j) fun X' k' _ _ r' => ?_
    refine Go.Rel.bind (ep ▸ genRelinearizationKey_heap hn W gs a.kg a.crsShows r.1 r.2 r'.1 r'.2) fun w w' _ _ o => ?_
    have := a.push (o := .rlk w'.1) (v := .rlk w.1) o.2.2.2.1 o.2.2.1 o.1 o.2.2.2.2
    rw [← o.2.1] at this
    exact this
  | genBfvRlk i j =>
    refine Go.Rel.bind (a.sk i) fun X k _ _ r => ?_
    refine Go.Rel.bind (a.sk j) fun X' k' _ _ r' => ?_
    refine Go.Rel.bind (ep ▸ genBfvRelinearizationKey_heap hn W gs a.kg a.crsShows r.1 r.2 r'.1 r'.2) fun w w' _ _ o => ?_
    have := a.push (o := .brlk w'.1) (v := .brlk w.1) o.2.2.2.1 o.2.2.1 o.1 o.2.2.2.2
    rw [← o.2.1] at this
    exact this
  | genRot r i =>
    refine Go.Rel.bind (a.sk i) fun X k _ _ r' => ?_
    refine Go.Rel.bind (ep ▸ genRotationKey_heap hn W gs r a.kg a.crsShows r'.1 r'.2) fun w w' _ _ o => ?_
    have := a.push (o := .gal w'.1) (v := .gal w.1) o.2.2.2.1 o.2.2.1 o.1 o.2.2.2.2
    rw [← o.2.1] at this
    exact this
  | genConj i =>
    refine Go.Rel.bind (a.sk i) fun X k _ _ r' => ?_
    refine Go.Rel.bind (ep ▸ genConjugationKey_heap hn W gs a.kg a.crsShows r'.1 r'.2) fun w w' _ _ o => ?_
    have := a.push (o := .gal w'.1) (v := .gal w.1) o.2.2.2.1 o.2.2.1 o.1 o.2.2.2.2
    rw [← o.2.1] at this
    exact this
  | copy i =>
    show Go.Rel _ (match V.keys[i]? with | some (.sk k) => _ | some (.pk k) => _ | _ => _)
      (match s.keys[i]? with | some (.sk k) => _ | some (.pk k) => _ | _ => _)
    by_cases hi : i < s.keys.length
    · have hv : i < V.keys.length := a.keys.length_eq ▸ hi
      have hr := a.keys.get hi hv
      simp only [List.get_eq_getElem] at hr
      rw [List.getElem?_eq_getElem hi, List.getElem?_eq_getElem hv]
      cases ho : s.keys[i] with
      | sk k =>
        cases hw : V.keys[i] with
        | sk X =>
          rw [ho, hw] at hr
          obtain ⟨g, e, n, q⟩ := qpCopyNew_at W hr.2
          have f : Fresh s.heap (qpCopyNew k.value s.heap).2 (SkObj.polys ⟨k.id, (qpCopyNew k.value s.heap).1⟩) := by
            rw [e]
            refine ⟨by simp [SkObj.polys, QP.polys], fun p hp => ?_⟩
            simp only [SkObj.polys, QP.polys, List.mem_cons, List.not_mem_nil, or_false] at hp
            omega
          have sh : SkShows B.C (qpCopyNew k.value s.heap).2 ⟨k.id, (qpCopyNew k.value s.heap).1⟩ X := ⟨hr.1, by rw [e]; exact q⟩
          have := a.push (o := .sk _) (v := .sk X) (grow_ran g) (a.kg.keep g.only (by simp)) sh f
          rw [← ep] at this
          exact this
        | _ => rw [ho, hw] at hr; exact hr.elim
      | pk k =>
        cases hw : V.keys[i] with
        | pk X =>
          rw [ho, hw] at hr
          obtain ⟨g, e, n, q⟩ := qpCopyNew_at W hr.2.1
          obtain ⟨g', e', n', q'⟩ := qpCopyNew_at g.wf (hr.2.2.keep g.only (by simp) (by simp))
          rw [n] at e' n' q'
          have f : Fresh s.heap (qpCopyNew k.v1 (qpCopyNew k.v0 s.heap).2).2
              (PkObj.polys ⟨k.id, (qpCopyNew k.v0 s.heap).1, (qpCopyNew k.v1 (qpCopyNew k.v0 s.heap).2).1⟩) := by
            rw [e, e']
            refine ⟨by simp [PkObj.polys, QP.polys]; omega, fun p hp => ?_⟩
            simp only [PkObj.polys, QP.polys, List.mem_cons, List.cons_append, List.nil_append, List.not_mem_nil, or_false] at hp
            omega
          have sh : PkShows B.C (qpCopyNew k.v1 (qpCopyNew k.v0 s.heap).2).2
              ⟨k.id, (qpCopyNew k.v0 s.heap).1, (qpCopyNew k.v1 (qpCopyNew k.v0 s.heap).2).1⟩ X :=
            ⟨hr.1, by rw [e]; exact q.keep g'.only (by simp) (by simp), by rw [e']; exact q'⟩
          have := a.push (o := .pk _) (v := .pk X) (grow_ran (g.trans g')) (a.kg.keep (g.trans g').only (by simp)) sh f
          rw [← ep] at this
          exact this
        | _ => rw [ho, hw] at hr; exact hr.elim
      | _ => cases hw : V.keys[i] <;> first | rfl | (rw [ho, hw] at hr; exact hr.elim)
    · have hl : s.keys.length = V.keys.length := a.keys.length_eq
      rw [List.getElem?_eq_none (by omega), List.getElem?_eq_none (by omega)]
      rfl

/-! ## every program -/

/-- `NewKeyGenerator`: zero pools in new memory -/
theorem newKeyGenerator_heap {h : Heap N} (W : WF h) : Grow h (hNewKeyGenerator C h).2 ∧ (∀ p ∈ (hNewKeyGenerator C h).1.mem, h.npoly ≤ p) ∧
    KGAt C (hNewKeyGenerator C h).2 (hNewKeyGenerator C h).1 ⟨0, fun _ => Limb.zero, PolyQP.zero⟩ := by
  have g1 := alloc_grow W false (List.replicate C.nQ (0 : RowBuf N))
  obtain ⟨g2, e, n, z⟩ := newQP_spec (C := C) g1.wf
  have n1 : (h.allocPoly false (List.replicate C.nQ (0 : RowBuf N))).2.npoly = h.npoly + 1 := rfl
  obtain ⟨l1, -⟩ := rowsOf_alloc C.q h false (List.replicate C.nQ 0) 0
  have hk : h.npoly < (h.allocPoly false (List.replicate C.nQ (0 : RowBuf N))).2.npoly := by rw [n1]; omega
  have pq : (hNewKeyGenerator C h).1 = ⟨h.npoly, ⟨h.npoly + 1, h.npoly + 1 + 1⟩⟩ := by
    show HKG.mk h.npoly (newQP C (h.allocPoly false (List.replicate C.nQ 0)).2).1 = _
    rw [e, n1]
  refine ⟨g1.trans g2, ?_, ?_⟩
  · rw [pq]
    rintro p (rfl | rfl | rfl)
    · exact le_rfl
    · show h.npoly ≤ h.npoly + 1; omega
    · show h.npoly ≤ h.npoly + 1 + 1; omega
  · refine ⟨?_, ?_, ?_, z, ?_, ?_⟩
    · exact hk.trans_le g2.only.npoly
    · rw [List.length_replicate] at l1
      rw [← l1]
      exact congrArg (fun o => o.coeffs.length) (g2.only.poly h.npoly hk (by simp))
    · funext i
      rw [show rowsOf C.q (hNewKeyGenerator C h).2 (hNewKeyGenerator C h).1.poolQ = rowsOf C.q _ h.npoly from g2.only.rowsOf hk (by simp)]
      rw [(rowsOf_alloc C.q h false (List.replicate C.nQ 0) i).2]
      split
      · rename_i hi
        rw [List.length_replicate] at hi
        rw [List.getD_eq_getElem?_getD, List.getElem?_replicate, if_pos hi]
        exact rdM_zero _ i
      · rfl
    · rw [pq]; show h.npoly ≠ h.npoly + 1; omega
    · rw [pq]; show h.npoly ≠ h.npoly + 1 + 1; omega

/-- **every program**: it ends on the heap as it does on values; at the end every key has its value and its own memory (`Owned`) -/
theorem program_owned (hn : 0 < B.C.nQ) (us : ℕ → PolyQP B.C) (gs : ℕ → Nega N ℤ) (cmds : List (Cmd N)) (W : WF h0) :
    Go.Rel (fun V w => Owned B.C h0 w.1 V w.2) (valRun us gs cmds) (heapRun B us gs cmds h0) := by
  unfold valRun heapRun
  have init : Go.Rel (fun (V : VState B.C) (w : GoMap ℤ SwkObj × ℕ × Heap N) => Grow h0 w.2.2 ∧ w.2.1 = V.used ∧ CrsOwned B.C h0 w.2.2 w.1 V.crs ∧
      V.kg = ⟨0, fun _ => Limb.zero, PolyQP.zero⟩ ∧ V.keys = [])
      (Go.loop (fun s idx => valStep us gs s (.addCRS idx)) (⟨∅, 0, ⟨0, fun _ => Limb.zero, PolyQP.zero⟩, []⟩ : VState B.C) (crsIdxs B.C.logN))
      (Go.loop (fun w idx => hAddCRS B.C us idx w) ((∅, 0, h0) : GoMap ℤ SwkObj × ℕ × Heap N) (crsIdxs B.C.logN)) := by
    refine Go.Rel.loop _ ⟨Grow.refl W, rfl, ⟨fun k => Or.inl ⟨rfl, rfl⟩, ?_, ?_, ?_⟩, rfl, rfl⟩ ?_
    · intro k s e; cases e
    · intro k k' s s' _ e; cases e
    · intro k s e; cases e
    rintro V ⟨crs, used, h⟩ ⟨c1, c2, c3, c4, c5⟩ idx _
    dsimp only at c1 c2 c3
    subst c2
    obtain ⟨t, h', e, g, sh, f⟩ := hCrsSwk_run hn c1.wf us V.used
    unfold hAddCRS
    dsimp only
    rw [e]
    exact ⟨c1.trans g, rfl, c3.insert c1.only.npoly idx g sh f, c4, c5⟩
  refine Go.Rel.bind init fun V w _ _ r => ?_
  obtain ⟨r1, r2, r3, r4, r5⟩ := r
  obtain ⟨g, nw, kg⟩ := newKeyGenerator_heap (C := B.C) r1.wf
  have start : Owned B.C h0 (hNewKeyGenerator B.C w.2.2).1 V ⟨w.1, w.2.1, 0, [], (hNewKeyGenerator B.C w.2.2).2⟩ := by
    refine ⟨g.wf, r1.trans g, r2, by rw [r4], by rw [r4]; exact kg, fun p hp => ?_, r3.keep g.only (fun _ _ _ _ _ => by simp), ?_, ?_, ?_, ?_, ?_, ?_⟩
    · have := nw p hp
      have := r1.only.npoly
      omega
    · intro k a e p hp hk
      have := r3.low k a e p hp
      have := nw p hk
      omega
    · rw [r5]; exact List.Forall₂.nil
    · exact List.nodup_nil
    · intro p hp; cases hp
    · intro k a e p hp hm; cases hm
    · intro p hp; cases hp
  have run := Go.Rel.loop (R := Owned B.C h0 (hNewKeyGenerator B.C w.2.2).1) (f := valStep us gs) (g := heapStep B us gs (hNewKeyGenerator B.C w.2.2).1)
    cmds start (fun V s a c _ => step_owned hn us gs a c)
  dsimp only
  revert run
  cases Go.loop (valStep us gs) V cmds <;> cases Go.loop (heapStep B us gs (hNewKeyGenerator B.C w.2.2).1) _ cmds <;> exact id

/-- **writes to one key are local**: after any later change that is confined to the polynomials of key `i`, every other key, the CRS and the key
generator are what they were -/
theorem write_local {V : VState C} (a : Owned C h0 K V s) {i : ℕ} {o : Obj} (hi : s.keys[i]? = some o) {h' : Heap N} {Wc : Set ℕ}
    (w : Only {p | p ∈ Obj.polys o} Wc s.heap h') :
    (∀ j o' v, j ≠ i → s.keys[j]? = some o' → V.keys[j]? = some v → Shows C h' o' v) ∧ CrsOwned C h0 h' s.crs V.crs ∧ KGAt C h' K V.kg := by
  have ho : o ∈ s.keys := List.mem_of_getElem? hi
  refine ⟨fun j o' v hj e e' => ?_, a.crs.keep w fun k t et p hp hm => ?_, a.kg.keep w fun p hp hm => ?_⟩
  · obtain ⟨l1, e1⟩ := List.getElem?_eq_some_iff.mp e
    obtain ⟨l2, e2⟩ := List.getElem?_eq_some_iff.mp e'
    obtain ⟨l3, e3⟩ := List.getElem?_eq_some_iff.mp hi
    have := a.keys.get l1 l2
    simp only [List.get_eq_getElem, e1, e2] at this
    refine this.keep w fun p hp hm => ?_
    have nd := a.nodup
    unfold allPolys at nd
    rw [List.nodup_flatMap] at nd
    have pw := List.pairwise_iff_getElem.mp nd.2
    rcases lt_or_gt_of_ne hj with hlt | hlt
    · have := pw j i l1 l3 hlt
      rw [e1, e3] at this
      exact this hp hm
    · have := pw i j l3 l1 hlt
      rw [e1, e3] at this
      exact this hm hp
  · exact a.noCrs k t et p hp (List.mem_flatMap.mpr ⟨o, ho, hm⟩)
  · exact a.apart p (List.mem_flatMap.mpr ⟨o, ho, hm⟩) hp

end C70
end MKHE
