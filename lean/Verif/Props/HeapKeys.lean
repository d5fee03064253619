import Verif.Lemmas.HeapKeySim

set_option autoImplicit false

/-!
# C70: a key owns its memory

`SkShows`, `PkShows`, `SwkShows`, `RlkShows`, `GalShows`, `BRlkShows` say which value a key object on the heap has. `polys` lists the polynomial objects
of a key. `Fresh h h' l`: the polynomials of `l` are pairwise distinct and were all allocated between `h` and `h'`. `Ran K h h'`: from `h` to `h'` nothing
that existed was changed but the scratch polynomials of the key generator `K`.
-/

namespace MKHE
namespace C70
open Heap
variable {N : ℕ} [NeZero N] {C : Ctx N}

def QP.polys (v : QP) : List ℕ := [v.q, v.p]
def SkObj.polys (k : SkObj) : List ℕ := QP.polys k.value
def PkObj.polys (k : PkObj) : List ℕ := QP.polys k.v0 ++ QP.polys k.v1
def SwkObj.polys (s : SwkObj) : List ℕ := s.flatMap QP.polys
def RlkObj.polys (k : RlkObj) : List ℕ := SwkObj.polys k.b ++ SwkObj.polys k.d ++ SwkObj.polys k.v
def GalObj.polys (k : GalObj) : List ℕ := SwkObj.polys k.value
def BRlkObj.polys (k : BRlkObj) : List ℕ := RlkObj.polys k.v0 ++ RlkObj.polys k.v1

variable (C) in
def SkShows (h : Heap N) (k : SkObj) (K : SKey C) : Prop := k.id = K.id ∧ QPAt C h k.value K.value
variable (C) in
def PkShows (h : Heap N) (k : PkObj) (K : PKey C) : Prop := k.id = K.id ∧ QPAt C h k.v0 K.v0 ∧ QPAt C h k.v1 K.v1
variable (C) in
def RlkShows (h : Heap N) (k : RlkObj) (K : Rlk C) : Prop :=
  k.id = K.id ∧ SwkShows C h k.b K.b ∧ SwkShows C h k.d K.d ∧ SwkShows C h k.v K.v
variable (C) in
def GalShows (h : Heap N) (k : GalObj) (K : GalKey C) : Prop := k.id = K.id ∧ k.rotIdx = K.rotIdx ∧ SwkShows C h k.value K.value
variable (C) in
def BRlkShows (h : Heap N) (k : BRlkObj) (K : BRlk C) : Prop := k.id = K.id ∧ RlkShows C h k.v0 K.k1 ∧ RlkShows C h k.v1 K.k2

/-- these polynomials are distinct and were allocated between `h` and `h'` -/
def Fresh (h h' : Heap N) (l : List ℕ) : Prop := l.Nodup ∧ ∀ p ∈ l, h.npoly ≤ p ∧ p < h'.npoly

/-- nothing that existed was changed, but the scratch space of the key generator -/
structure Ran (K : HKG) (h h' : Heap N) : Prop where
  wf : WF h'
  only : Only K.mem ∅ h h'
  nct : h'.nct = h.nct

/-- the secret key is not in the scratch space of the key generator -/
def Apart (K : HKG) (v : QP) : Prop := v.q ∉ K.mem ∧ v.p ∉ K.mem

variable (C) in
/-- the common reference string on the heap -/
def CrsShows (K : HKG) (h : Heap N) (crs : GoMap ℤ SwkObj) (CRS : GoMap ℤ (Swk C)) : Prop :=
  ∀ k, (crs.lookup k = none ∧ CRS.lookup k = none) ∨
    ∃ s S, crs.lookup k = some s ∧ CRS.lookup k = some S ∧ SwkShows C h s S ∧ ∀ v ∈ s, Apart K v

/-! ## writes elsewhere -/

section keep
variable {h h' : Heap N} {Wp Wc : Set ℕ}

theorem SkShows.keep {k : SkObj} {X : SKey C} (a : SkShows C h k X) (o : Only Wp Wc h h') (hw : ∀ p ∈ SkObj.polys k, p ∉ Wp) : SkShows C h' k X :=
  ⟨a.1, a.2.keep o (hw _ (by simp [SkObj.polys, QP.polys])) (hw _ (by simp [SkObj.polys, QP.polys]))⟩

theorem PkShows.keep {k : PkObj} {X : PKey C} (a : PkShows C h k X) (o : Only Wp Wc h h') (hw : ∀ p ∈ PkObj.polys k, p ∉ Wp) : PkShows C h' k X :=
  ⟨a.1, a.2.1.keep o (hw _ (by simp [PkObj.polys, QP.polys])) (hw _ (by simp [PkObj.polys, QP.polys])),
    a.2.2.keep o (hw _ (by simp [PkObj.polys, QP.polys])) (hw _ (by simp [PkObj.polys, QP.polys]))⟩

theorem swk_keep {s : SwkObj} {X : Swk C} (a : SwkShows C h s X) (o : Only Wp Wc h h') (hw : ∀ p ∈ SwkObj.polys s, p ∉ Wp) : SwkShows C h' s X :=
  a.keep o fun v hv => ⟨hw _ (List.mem_flatMap.mpr ⟨v, hv, by simp [QP.polys]⟩), hw _ (List.mem_flatMap.mpr ⟨v, hv, by simp [QP.polys]⟩)⟩

theorem RlkShows.keep {k : RlkObj} {X : Rlk C} (a : RlkShows C h k X) (o : Only Wp Wc h h') (hw : ∀ p ∈ RlkObj.polys k, p ∉ Wp) :
    RlkShows C h' k X :=
  ⟨a.1, swk_keep a.2.1 o fun p hp => hw p (by simp [RlkObj.polys, hp]), swk_keep a.2.2.1 o fun p hp => hw p (by simp [RlkObj.polys, hp]),
    swk_keep a.2.2.2 o fun p hp => hw p (by simp [RlkObj.polys, hp])⟩

theorem GalShows.keep {k : GalObj} {X : GalKey C} (a : GalShows C h k X) (o : Only Wp Wc h h') (hw : ∀ p ∈ GalObj.polys k, p ∉ Wp) :
    GalShows C h' k X := ⟨a.1, a.2.1, swk_keep a.2.2 o hw⟩

theorem BRlkShows.keep {k : BRlkObj} {X : BRlk C} (a : BRlkShows C h k X) (o : Only Wp Wc h h') (hw : ∀ p ∈ BRlkObj.polys k, p ∉ Wp) :
    BRlkShows C h' k X :=
  ⟨a.1, a.2.1.keep o fun p hp => hw p (by simp [BRlkObj.polys, hp]), a.2.2.keep o fun p hp => hw p (by simp [BRlkObj.polys, hp])⟩

end keep

theorem CrsShows.keep {K : HKG} {h h' : Heap N} {crs : GoMap ℤ SwkObj} {CRS : GoMap ℤ (Swk C)} (a : CrsShows C K h crs CRS)
    (o : Only K.mem ∅ h h') : CrsShows C K h' crs CRS := fun k => by
  rcases a k with e | ⟨s, S, e1, e2, e3, e4⟩
  · exact Or.inl e
  · exact Or.inr ⟨s, S, e1, e2, e3.keep o e4, e4⟩

/-! ## constructors -/

section fresh
variable {h : Heap N}

theorem polys_swkObj (n β : ℕ) : SwkObj.polys (swkObj n β) = List.range' n (2 * β) := by
  induction β with
  | zero => rfl
  | succ β ih =>
    have : swkObj n (β + 1) = swkObj n β ++ [⟨n + 2 * β, n + 2 * β + 1⟩] := by
      unfold swkObj; rw [List.range_succ, List.map_append, List.map_singleton]
    rw [this]
    unfold SwkObj.polys at ih ⊢
    rw [List.flatMap_append, ih, show 2 * (β + 1) = 2 * β + 1 + 1 by omega, List.range'_concat, List.range'_concat, List.append_assoc]
    simp [QP.polys]
    omega

omit [NeZero N] in
theorem fresh_range {h h' : Heap N} {n k : ℕ} (hn : h.npoly ≤ n) (hk : n + k ≤ h'.npoly) : Fresh h h' (List.range' n k) :=
  ⟨List.nodup_range', fun p hp => by rw [List.mem_range'_1] at hp; omega⟩

/-- **`NewSwitchingKey`**: all polynomials are new and distinct, the key is zero, nothing else changes -/
theorem newSwitchingKey_fresh (W : WF h) : Grow h (newSwitchingKey C h).2 ∧ Fresh h (newSwitchingKey C h).2 (SwkObj.polys (newSwitchingKey C h).1) ∧
    SwkShows C (newSwitchingKey C h).2 (newSwitchingKey C h).1 Swk.new := by
  obtain ⟨g, e, n, s⟩ := newSwitchingKey_spec (C := C) W
  refine ⟨g, ?_, by rw [e]; exact s.shows⟩
  rw [e, polys_swkObj]
  exact fresh_range le_rfl (by omega)

/-- **`NewSecretKey`** -/
theorem newSecretKey_fresh (W : WF h) (id : String) : Grow h (newSecretKey C id h).2 ∧
    Fresh h (newSecretKey C id h).2 (SkObj.polys (newSecretKey C id h).1) ∧
    SkShows C (newSecretKey C id h).2 (newSecretKey C id h).1 ⟨id, PolyQP.zero⟩ := by
  obtain ⟨g, e, n, z⟩ := newQP_spec (C := C) W
  refine ⟨g, ⟨?_, ?_⟩, rfl, z⟩
  · show (QP.polys (newQP C h).1).Nodup
    rw [e]; simp [QP.polys]
  · show ∀ p ∈ QP.polys (newQP C h).1, h.npoly ≤ p ∧ p < (newQP C h).2.npoly
    rw [e, n]
    intro p hp
    simp only [QP.polys, List.mem_cons, List.not_mem_nil, or_false] at hp
    omega

theorem newPublicKey_spec (W : WF h) (id : String) : Grow h (newPublicKey C id h).2 ∧
    (newPublicKey C id h).1 = ⟨id, ⟨h.npoly, h.npoly + 1⟩, ⟨h.npoly + 2, h.npoly + 3⟩⟩ ∧ (newPublicKey C id h).2.npoly = h.npoly + 4 ∧
    QPAt C (newPublicKey C id h).2 ⟨h.npoly, h.npoly + 1⟩ PolyQP.zero ∧ QPAt C (newPublicKey C id h).2 ⟨h.npoly + 2, h.npoly + 3⟩ PolyQP.zero := by
  obtain ⟨g, e, n, z⟩ := newQP_spec (C := C) W
  obtain ⟨g', e', n', z'⟩ := newQP_spec (C := C) g.wf
  rw [n] at e'
  refine ⟨g.trans g', ?_, ?_, ?_, ?_⟩
  · show PkObj.mk id (newQP C h).1 (newQP C (newQP C h).2).1 = _
    rw [e, e']
  · show (newQP C (newQP C h).2).2.npoly = _
    omega
  · rw [e] at z; exact z.keep g'.only (by simp) (by simp)
  · rw [e'] at z'; exact z'

/-- **`NewPublicKey`** -/
theorem newPublicKey_fresh (W : WF h) (id : String) : Grow h (newPublicKey C id h).2 ∧
    Fresh h (newPublicKey C id h).2 (PkObj.polys (newPublicKey C id h).1) ∧
    PkShows C (newPublicKey C id h).2 (newPublicKey C id h).1 ⟨id, PolyQP.zero, PolyQP.zero⟩ := by
  obtain ⟨g, e, n, z, z'⟩ := newPublicKey_spec (C := C) W id
  refine ⟨g, ⟨?_, ?_⟩, ?_⟩
  · rw [e]; simp [PkObj.polys, QP.polys]
  · rw [e, n]
    intro p hp
    simp only [PkObj.polys, QP.polys, List.mem_cons, List.cons_append, List.nil_append, List.not_mem_nil, or_false] at hp
    omega
  · rw [e]; exact ⟨rfl, z, z'⟩

theorem newRelinearizationKey_spec (W : WF h) (id : String) : Grow h (newRelinearizationKey C id h).2 ∧
    (newRelinearizationKey C id h).1 = ⟨id, swkObj h.npoly (C.beta (C.nQ - 1)), swkObj (h.npoly + 2 * C.beta (C.nQ - 1)) (C.beta (C.nQ - 1)),
      swkObj (h.npoly + 4 * C.beta (C.nQ - 1)) (C.beta (C.nQ - 1))⟩ ∧
    (newRelinearizationKey C id h).2.npoly = h.npoly + 6 * C.beta (C.nQ - 1) ∧
    SwkAt C (newRelinearizationKey C id h).2 h.npoly Swk.new ∧
    SwkAt C (newRelinearizationKey C id h).2 (h.npoly + 2 * C.beta (C.nQ - 1)) Swk.new ∧
    SwkAt C (newRelinearizationKey C id h).2 (h.npoly + 4 * C.beta (C.nQ - 1)) Swk.new := by
  obtain ⟨g, e, n, z⟩ := newSwitchingKey_spec (C := C) W
  obtain ⟨g', e', n', z'⟩ := newSwitchingKey_spec (C := C) g.wf
  obtain ⟨g'', e'', n'', z''⟩ := newSwitchingKey_spec (C := C) g'.wf
  rw [n', n] at e'' n'' z''
  rw [n] at e' z'
  refine ⟨(g.trans g').trans g'', ?_, ?_, z.keep (g'.trans g'').only (by simp), z'.keep g''.only (by simp), ?_⟩
  · show RlkObj.mk id (newSwitchingKey C h).1 (newSwitchingKey C (newSwitchingKey C h).2).1
      (newSwitchingKey C (newSwitchingKey C (newSwitchingKey C h).2).2).1 = _
    rw [e, e', e'']
    congr 2
    omega
  · show (newSwitchingKey C (newSwitchingKey C (newSwitchingKey C h).2).2).2.npoly = _
    omega
  · rw [show h.npoly + 4 * C.beta (C.nQ - 1) = h.npoly + 2 * C.beta (C.nQ - 1) + 2 * C.beta (C.nQ - 1) by omega]
    exact z''

theorem polys_rlkObj (id : String) (n β : ℕ) :
    RlkObj.polys ⟨id, swkObj n β, swkObj (n + 2 * β) β, swkObj (n + 4 * β) β⟩ = List.range' n (6 * β) := by
  unfold RlkObj.polys
  rw [polys_swkObj, polys_swkObj, polys_swkObj, List.range'_append_1, show n + 4 * β = n + (2 * β + 2 * β) by omega, List.range'_append_1]
  congr 1
  omega

/-- **`NewRelinearizationKey`** -/
theorem newRelinearizationKey_fresh (W : WF h) (id : String) : Grow h (newRelinearizationKey C id h).2 ∧
    Fresh h (newRelinearizationKey C id h).2 (RlkObj.polys (newRelinearizationKey C id h).1) ∧
    RlkShows C (newRelinearizationKey C id h).2 (newRelinearizationKey C id h).1 ⟨id, Swk.new, Swk.new, Swk.new⟩ := by
  obtain ⟨g, e, n, z0, z1, z2⟩ := newRelinearizationKey_spec (C := C) W id
  refine ⟨g, ?_, ?_⟩
  · rw [e, polys_rlkObj]
    exact fresh_range le_rfl (by omega)
  · rw [e]; exact ⟨rfl, z0.shows, z1.shows, z2.shows⟩

/-- **`NewRotationKey`** -/
theorem newRotationKey_fresh (W : WF h) (r : ℕ) (id : String) : Grow h (newRotationKey C r id h).2 ∧
    Fresh h (newRotationKey C r id h).2 (GalObj.polys (newRotationKey C r id h).1) ∧
    GalShows C (newRotationKey C r id h).2 (newRotationKey C r id h).1 ⟨id, r, Swk.new⟩ := by
  obtain ⟨g, f, s⟩ := newSwitchingKey_fresh (C := C) W
  exact ⟨g, f, rfl, rfl, s⟩

/-- **`NewConjugationKey`** -/
theorem newConjugationKey_fresh (W : WF h) (id : String) : Grow h (newConjugationKey C id h).2 ∧
    Fresh h (newConjugationKey C id h).2 (GalObj.polys (newConjugationKey C id h).1) ∧
    GalShows C (newConjugationKey C id h).2 (newConjugationKey C id h).1 ⟨id, 0, Swk.new⟩ := by
  obtain ⟨g, f, s⟩ := newSwitchingKey_fresh (C := C) W
  exact ⟨g, f, rfl, rfl, s⟩

theorem newBfvRelinearizationKey_spec (W : WF h) (id : String) : Grow h (newBfvRelinearizationKey C id h).2 ∧
    (newBfvRelinearizationKey C id h).1 = ⟨id,
      ⟨id, swkObj h.npoly (C.beta (C.nQ - 1)), swkObj (h.npoly + 2 * C.beta (C.nQ - 1)) (C.beta (C.nQ - 1)),
        swkObj (h.npoly + 4 * C.beta (C.nQ - 1)) (C.beta (C.nQ - 1))⟩,
      ⟨id, swkObj (h.npoly + 6 * C.beta (C.nQ - 1)) (C.beta (C.nQ - 1)), swkObj (h.npoly + 6 * C.beta (C.nQ - 1) + 2 * C.beta (C.nQ - 1)) (C.beta (C.nQ - 1)),
        swkObj (h.npoly + 6 * C.beta (C.nQ - 1) + 4 * C.beta (C.nQ - 1)) (C.beta (C.nQ - 1))⟩⟩ ∧
    (newBfvRelinearizationKey C id h).2.npoly = h.npoly + 12 * C.beta (C.nQ - 1) ∧
    SwkAt C (newBfvRelinearizationKey C id h).2 h.npoly Swk.new ∧
    SwkAt C (newBfvRelinearizationKey C id h).2 (h.npoly + 2 * C.beta (C.nQ - 1)) Swk.new ∧
    SwkAt C (newBfvRelinearizationKey C id h).2 (h.npoly + 4 * C.beta (C.nQ - 1)) Swk.new ∧
    SwkAt C (newBfvRelinearizationKey C id h).2 (h.npoly + 6 * C.beta (C.nQ - 1)) Swk.new ∧
    SwkAt C (newBfvRelinearizationKey C id h).2 (h.npoly + 6 * C.beta (C.nQ - 1) + 2 * C.beta (C.nQ - 1)) Swk.new ∧
    SwkAt C (newBfvRelinearizationKey C id h).2 (h.npoly + 6 * C.beta (C.nQ - 1) + 4 * C.beta (C.nQ - 1)) Swk.new := by
  obtain ⟨g, e, n, z0, z1, z2⟩ := newRelinearizationKey_spec (C := C) W id
  obtain ⟨g', e', n', y0, y1, y2⟩ := newRelinearizationKey_spec (C := C) g.wf id
  rw [n] at e' n' y0 y1 y2
  refine ⟨g.trans g', ?_, ?_, z0.keep g'.only (by simp), z1.keep g'.only (by simp), z2.keep g'.only (by simp), y0, y1, y2⟩
  · show BRlkObj.mk id (newRelinearizationKey C id h).1 (newRelinearizationKey C id (newRelinearizationKey C id h).2).1 = _
    rw [e, e']
  · show (newRelinearizationKey C id (newRelinearizationKey C id h).2).2.npoly = _
    omega

/-- **`mkbfv.NewRelinearizationKey`** -/
theorem newBfvRelinearizationKey_fresh (W : WF h) (id : String) : Grow h (newBfvRelinearizationKey C id h).2 ∧
    Fresh h (newBfvRelinearizationKey C id h).2 (BRlkObj.polys (newBfvRelinearizationKey C id h).1) ∧
    BRlkShows C (newBfvRelinearizationKey C id h).2 (newBfvRelinearizationKey C id h).1
      ⟨id, ⟨id, Swk.new, Swk.new, Swk.new⟩, ⟨id, Swk.new, Swk.new, Swk.new⟩⟩ := by
  obtain ⟨g, e, n, z0, z1, z2, y0, y1, y2⟩ := newBfvRelinearizationKey_spec (C := C) W id
  refine ⟨g, ?_, ?_⟩
  · rw [e]
    unfold BRlkObj.polys
    rw [polys_rlkObj, polys_rlkObj, List.range'_append_1]
    exact fresh_range le_rfl (by omega)
  · rw [e]; exact ⟨rfl, ⟨rfl, z0.shows, z1.shows, z2.shows⟩, rfl, y0.shows, y1.shows, y2.shows⟩

/-! ## copies -/

/-- **`SecretKey.CopyNew`**: the copy has the same identifier and value, lives in new memory, and nothing else changes; the copy of nil is nil -/
theorem skCopyNew_deep (W : WF h) {k : SkObj} (hp : k.value.p < h.npoly) :
    skCopyNew none h = (none, h) ∧ ∃ k' h', skCopyNew (some k) h = (some k', h') ∧ Grow h h' ∧ Fresh h h' (SkObj.polys k') ∧ k'.id = k.id ∧
      qpVal C h' k'.value = qpVal C h k.value ∧ h'.len k'.value.q = h.len k.value.q ∧ h'.len k'.value.p = h.len k.value.p ∧
      (h'.poly k'.value.q).isNTT = (h.poly k.value.q).isNTT ∧ (h'.poly k'.value.p).isNTT = (h.poly k.value.p).isNTT := by
  obtain ⟨g, e, n, l1, l2, f1, f2, v⟩ := qpCopyNew_spec (C := C) W (v := k.value) hp
  refine ⟨rfl, ⟨k.id, (qpCopyNew k.value h).1⟩, _, rfl, g, ⟨?_, ?_⟩, rfl, v, ?_⟩
  · show (QP.polys (qpCopyNew k.value h).1).Nodup
    rw [e]; simp [QP.polys]
  · show ∀ p ∈ QP.polys (qpCopyNew k.value h).1, h.npoly ≤ p ∧ p < (qpCopyNew k.value h).2.npoly
    rw [e, n]
    intro p hp
    simp only [QP.polys, List.mem_cons, List.not_mem_nil, or_false] at hp
    omega
  · rw [e]; exact ⟨l1, l2, f1, f2⟩

/-- **`PublicKey.CopyNew`** -/
theorem pkCopyNew_deep (W : WF h) {k : PkObj} (hp0 : k.v0.p < h.npoly) (hq1 : k.v1.q < h.npoly) (hp1 : k.v1.p < h.npoly) :
    pkCopyNew none h = (none, h) ∧ ∃ k' h', pkCopyNew (some k) h = (some k', h') ∧ Grow h h' ∧ Fresh h h' (PkObj.polys k') ∧ k'.id = k.id ∧
      qpVal C h' k'.v0 = qpVal C h k.v0 ∧ qpVal C h' k'.v1 = qpVal C h k.v1 := by
  obtain ⟨g, e, n, -, -, -, -, v⟩ := qpCopyNew_spec (C := C) W (v := k.v0) hp0
  have hp1' : k.v1.p < (qpCopyNew k.v0 h).2.npoly := by omega
  obtain ⟨g', e', n', -, -, -, -, v'⟩ := qpCopyNew_spec (C := C) g.wf (v := k.v1) hp1'
  rw [n] at e'
  have val : ∀ {h1 h2 : Heap N} {x : QP}, Grow h1 h2 → x.q < h1.npoly → x.p < h1.npoly → qpVal C h2 x = qpVal C h1 x := by
    intro h1 h2 x G a b
    unfold qpVal
    rw [G.only.rowsOf a (by simp), G.only.rowsOf b (by simp)]
  refine ⟨rfl, ⟨k.id, (qpCopyNew k.v0 h).1, (qpCopyNew k.v1 (qpCopyNew k.v0 h).2).1⟩, _, rfl, g.trans g', ⟨?_, ?_⟩, rfl, ?_, ?_⟩
  · show (QP.polys (qpCopyNew k.v0 h).1 ++ QP.polys (qpCopyNew k.v1 (qpCopyNew k.v0 h).2).1).Nodup
    rw [e, e']; simp [QP.polys]; try omega
  · show ∀ p ∈ QP.polys (qpCopyNew k.v0 h).1 ++ QP.polys (qpCopyNew k.v1 (qpCopyNew k.v0 h).2).1, h.npoly ≤ p ∧
      p < (qpCopyNew k.v1 (qpCopyNew k.v0 h).2).2.npoly
    rw [e, e', n']
    intro p hp
    simp only [QP.polys, List.mem_cons, List.cons_append, List.nil_append, List.not_mem_nil, or_false] at hp
    omega
  · rw [← v]
    exact val g' (by rw [e, n]; show h.npoly < _; omega) (by rw [e, n]; show h.npoly + 1 < _; omega)
  · exact v'.trans (val g hq1 hp1)

end fresh

end C70
end MKHE
