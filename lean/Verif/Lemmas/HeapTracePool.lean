import Verif.Lemmas.HeapTraceEval
import Verif.Lemmas.HeapRun

set_option autoImplicit false
set_option linter.unusedSectionVars false

/-!
# The evaluator's pool ciphertext at every point of `AddNew` and `SubNew`

The pool keeps its shape: all components have `L + 1` rows and are in coefficient form, no two are the same object, and none belongs to a ciphertext that
had nothing in common with the pool before.
-/

namespace MKHE
namespace Heap
open TG
variable {N : ℕ} [NeZero N] {C : Ctx N}

/-- the pool `a` is in shape -/
structure Shape (a L : ℕ) (g : Heap N) : Prop where
  wf : WF g
  lt : a < g.nct
  has0 : "0" ∈ g.ct a
  len : ∀ id p, (g.ct a).lookup id = some p → g.len p = L + 1
  coeff : ∀ id p, (g.ct a).lookup id = some p → (g.poly p).isNTT = false
  dist : Distinct g a

/-- from `h` to `g` -/
structure Kept (a L : ℕ) (h g : Heap N) : Prop where
  shape : Shape a L g
  nct : h.nct ≤ g.nct
  npoly : h.npoly ≤ g.npoly
  ct : ∀ c < h.nct, c ≠ a → g.ct c = h.ct c
  apart : ∀ c < h.nct, Apart h a c → Apart g a c

section
variable {a L : ℕ} {h : Heap N}

theorem Kept.refl (K : Shape a L h) : Kept a L h h := ⟨K, le_rfl, le_rfl, fun _ _ _ => rfl, fun _ _ x => x⟩

instance : Rel (Kept (N := N) a L) where
  trans x y z p q := ⟨q.shape, p.nct.trans q.nct, p.npoly.trans q.npoly, fun c hc hn => (q.ct c (lt_of_lt_of_le hc p.nct) hn).trans (p.ct c hc hn),
    fun c hc hx => q.apart c (lt_of_lt_of_le hc p.nct) (p.apart c hc hx)⟩
  refl _ _ p := Kept.refl p.shape

/-- nothing that was allocated has changed -/
theorem Kept.of_only {g : Heap N} (K : Shape a L h) (W : WF g) (o : Only ∅ ∅ h g) : Kept a L h g := by
  have hct : ∀ c, c < h.nct → g.ct c = h.ct c := fun c hc => o.ct c hc (by simp)
  refine ⟨⟨W, lt_of_lt_of_le K.lt o.nct, by rw [hct _ K.lt]; exact K.has0, fun id p hp => ?_, fun id p hp => ?_, ?_⟩, o.nct, o.npoly,
    fun c hc _ => hct c hc, fun c hc hx => ?_⟩
  · rw [hct _ K.lt] at hp
    unfold len
    rw [o.poly p (K.wf.ctB _ K.lt id p hp) (by simp)]
    exact K.len id p hp
  · rw [hct _ K.lt] at hp
    rw [o.poly p (K.wf.ctB _ K.lt id p hp) (by simp)]
    exact K.coeff id p hp
  · unfold Distinct; rw [hct _ K.lt]; exact K.dist
  · unfold Apart; rw [hct _ K.lt, hct _ hc]; exact hx

theorem RowsTo.kept {p : ℕ} {g : Heap N} (r : RowsTo p h g) (K : Shape a L h) : Kept a L h g := by
  refine ⟨⟨r.wf, by rw [r.nct]; exact K.lt, by rw [r.ct]; exact K.has0, fun id q hq => ?_, fun id q hq => ?_, ?_⟩, r.nct.ge, r.npoly.ge,
    fun c _ _ => by rw [r.ct], fun c _ hx => ?_⟩
  · rw [r.ct] at hq; unfold len; rw [r.poly]; exact K.len id q hq
  · rw [r.ct] at hq; rw [r.poly]; exact K.coeff id q hq
  · unfold Distinct; rw [r.ct]; exact K.dist
  · unfold Apart; rw [r.ct]; exact hx

theorem polyOpT_kept {level : ℕ} {f : ℕ → RowBuf N → RowBuf N → RowBuf N} {x y p : ℕ} (K : Shape a L h) (hp : p < h.npoly) :
    Runs (Kept a L) h (h.polyOpT level f x y p) (fun g => g) := (polyOpT_rows K.wf hp).mono fun _ r => r.kept K

theorem truncateT_kept {p n : ℕ} (K : Shape a L h) (hp : ∀ id, (h.ct a).lookup id ≠ some p) : Runs (Kept a L) h (h.truncateT p n) (fun g => g) := by
  unfold truncateT
  split
  · exact Runs.error (Kept.refl K)
  · rename_i hl
    have e : h.truncate p n = .ok ((Write.reslice p n).apply h) := by unfold truncate; rw [if_neg hl]; rfl
    obtain ⟨a1, a2, a3, a4, a5⟩ := truncate_inv K.wf e
    have hpoly : ∀ id q, (h.ct a).lookup id = some q → ((Write.reslice p n).apply h).poly q = h.poly q := fun id q hq =>
      Function.update_of_ne (fun (e : q = p) => hp id (by rw [← e]; exact hq)) _ _
    refine write_runs (Kept.refl K) ⟨⟨a1, K.lt, K.has0, fun id q hq => ?_, fun id q hq => ?_, K.dist⟩, le_rfl, le_rfl, fun _ _ _ => rfl, fun _ _ x => x⟩
      (fun _ e => e.elim)
    · unfold len; rw [hpoly id q hq]; exact K.len id q hq
    · rw [hpoly id q hq]; exact K.coeff id q hq

theorem setNTTT_kept {p : ℕ} (K : Shape a L h) : Runs (Kept a L) h (h.setNTTT p false) (fun g => g) := by
  have hlen : ∀ q, (h.setNTT p false).len q = h.len q := fun q => by
    unfold setNTT len
    by_cases e : q = p
    · subst e; simp
    · simp [Function.update_of_ne e]
  refine write_runs (Kept.refl K) ⟨⟨setNTT_wf K.wf _ _, K.lt, K.has0, fun id q hq => ?_, fun id q hq => ?_, K.dist⟩, le_rfl, le_rfl,
    fun _ _ _ => rfl, fun _ _ x => x⟩ (fun _ e => e.elim)
  · show (h.setNTT p false).len q = _
    rw [hlen]; exact K.len id q hq
  · show ((h.setNTT p false).poly q).isNTT = false
    unfold setNTT
    by_cases e : q = p
    · subst e; simp
    · simpa [Function.update_of_ne e] using K.coeff id q hq

/-- a call that writes new memory only -/
theorem Runs.kept {α : Type} {x : TG N α} {π : α → Heap N} (r : Runs (Grew h ∅ ∅) h x π) (K : Shape a L h) : Runs (Kept a L) h x π :=
  r.mono fun _ g => Kept.of_only K g.ok.wf g.ok.only

theorem newPolyT_kept {level : ℕ} (K : Shape a L h) : Runs (Kept a L) h (h.newPolyT level) (·.2) := Runs.kept (allocPolyT_runs (Ok.start K.wf)) K

theorem padT_kept {o1 o2 : Order String} {ids : IDSet} (K : Shape a L h) : Runs (Kept a L) h (padT o1 o2 h a ids) (fun g => g) := by
  refine Runs.lift (Kept.refl K) fun p0 e0 => Runs.lift (Kept.refl K) fun old _ => Runs.lift (Kept.refl K) fun l el => ?_
  have hl : l = L := by
    obtain ⟨p, ep, el⟩ := Go.bind_ok el
    cases el
    rw [K.len _ p (get_some ep), Nat.add_sub_cancel]
  have hb : (h.poly p0).isNTT = false := K.coeff _ p0 (get_some e0)
  rw [hb]
  subst hl
  refine Runs.loop rfl (Kept.refl K) fun s id r => ?_
  unfold padStepT
  split
  · exact Runs.ok (Kept.refl r.shape) rfl
  refine Runs.bind (newPolyT_kept r.shape) fun w e r1 => ?_
  have hw : w = s.newPoly l := by
    rw [newPolyT_res] at e
    cases e; rfl
  subst hw
  obtain ⟨a1, a2, a3, a4, a5, a6⟩ := allocPoly_inv (h := s) r.shape.wf false (List.replicate (l + 1) 0)
  change WF (s.newPoly l).2 at a1
  change Only ∅ ∅ s (s.newPoly l).2 at a2
  change (s.newPoly l).2.ct = s.ct at a3
  change (s.newPoly l).2.nct = s.nct at a4
  change (s.newPoly l).1 = s.npoly at a5
  change (s.newPoly l).2.npoly = s.npoly + 1 at a6
  have hself : (s.newPoly l).2.poly s.npoly = ⟨(List.range (List.replicate (l + 1) (0 : RowBuf N)).length).map (s.nrow + ·), false⟩ := Function.update_self _ _ _
  refine Runs.bind (π := fun g => g) ?_ fun g _ r2 => setNTTT_kept r2.shape
  rw [a3, a5]
  have hm : ∀ x p, ((s.ct a).insert id s.npoly).lookup x = some p → p = s.npoly ∧ x = id ∨ x ≠ id ∧ (s.ct a).lookup x = some p ∧ p < s.npoly := by
    intro x p hp
    rw [GoMap.lookup_insert'] at hp
    split at hp
    · rename_i hx
      cases hp; exact Or.inl ⟨rfl, hx⟩
    · rename_i hx
      exact Or.inr ⟨hx, hp, r.shape.wf.ctB _ r.shape.lt x p hp⟩
  obtain ⟨b1, b2⟩ := setCt_inv a1 a (m := (s.ct a).insert id s.npoly) (fun x p hp => by rcases hm x p hp with ⟨h1, -⟩ | ⟨-, -, h1⟩ <;> omega)
  have hct : ((s.newPoly l).2.setCt a ((s.ct a).insert id s.npoly)).ct a = (s.ct a).insert id s.npoly := Function.update_self _ _ _
  have hoth : ∀ c, c ≠ a → ((s.newPoly l).2.setCt a ((s.ct a).insert id s.npoly)).ct c = s.ct c := fun c hc => by
    rw [show ((s.newPoly l).2.setCt a ((s.ct a).insert id s.npoly)).ct c = (s.newPoly l).2.ct c from Function.update_of_ne hc _ _, a3]
  have key : Kept a l (s.newPoly l).2 ((s.newPoly l).2.setCt a ((s.ct a).insert id s.npoly)) := by
    refine ⟨⟨b1, r1.shape.lt, ?_, fun x p hp => ?_, fun x p hp => ?_, fun x y p hx hy => ?_⟩, le_rfl, le_rfl, fun c _ hc => ?_, fun c hc hx x y p hp hy => ?_⟩
    · rw [hct, AList.mem_insert]; exact Or.inr r.shape.has0
    · rw [hct] at hp
      show (s.newPoly l).2.len p = _
      rcases hm x p hp with ⟨rfl, -⟩ | ⟨-, h1, -⟩
      · unfold len; rw [hself]; simp
      · exact r1.shape.len x p (by rw [a3]; exact h1)
    · rw [hct] at hp
      show ((s.newPoly l).2.poly p).isNTT = false
      rcases hm x p hp with ⟨rfl, -⟩ | ⟨-, h1, -⟩
      · rw [hself]
      · exact r1.shape.coeff x p (by rw [a3]; exact h1)
    · rw [hct] at hx hy
      rcases hm x p hx with ⟨h1, h2⟩ | ⟨-, h1, h2⟩ <;> rcases hm y p hy with ⟨h3, h4⟩ | ⟨-, h3, h4⟩
      · rw [h2, h4]
      · omega
      · omega
      · exact r.shape.dist x y p h1 h3
    · rw [hoth c hc, a3]
    · rw [hct] at hp
      rcases eq_or_ne c a with hca | hca
      · subst hca
        obtain ⟨q, hq⟩ := Option.isSome_iff_exists.mp (GoMap.mem_iff_lookup.mp r1.shape.has0)
        exact hx "0" "0" q hq hq
      · rw [hoth c hca] at hy
        have := r.shape.wf.ctB c (by rw [← a4]; exact hc) y p hy
        rcases hm x p hp with ⟨h1, -⟩ | ⟨-, h1, -⟩
        · omega
        · exact hx x y p (by rw [a3]; exact h1) (by rw [a3]; exact hy)
  exact write_runs (Kept.refl r1.shape) key (fun _ e => e.elim)

theorem dropLevelT_kept {o : Order String} {c levels : ℕ} (K : Shape a L h) (hc : c < h.nct) (hx : Apart h a c) :
    Runs (Kept a L) h (dropLevelT o h c levels) (fun g => g) := by
  refine Runs.lift (Kept.refl K) fun p0 _ => ?_
  split
  · exact Runs.error (Kept.refl K)
  · refine Runs.loop rfl (Kept.refl K) fun s id r => ?_
    refine Runs.lift (Kept.refl r.shape) fun p ep => truncateT_kept r.shape fun x hp => ?_
    exact r.apart c hc hx x id p hp (get_some ep)

theorem multByConstT_kept {mredPsi : ℕ → ℕ → ℕ} {o : Order String} {c : HCt} {k : Const} {out : ℕ} (K : Shape a L h) (ho : out < h.nct) :
    Runs (Kept a L) h (multByConstT C mredPsi o h c k out) (·.2) := by
  unfold multByConstT
  split
  · exact Runs.error (Kept.refl K)
  · refine Runs.lift (Kept.refl K) fun _ _ => Runs.lift (Kept.refl K) fun _ _ => ?_
    refine Runs.bind (π := fun g => g) (Runs.loop rfl (Kept.refl K) fun s id r => ?_) fun g _ r => Runs.ok (Kept.refl r.shape) rfl
    refine Runs.lift (Kept.refl r.shape) fun p _ => Runs.lift (Kept.refl r.shape) fun q eq => ?_
    exact polyOpT_kept r.shape (r.shape.wf.ctB out (lt_of_lt_of_le ho r.nct) _ q (get_some eq))

theorem alignScalesT_kept {mredPsi : ℕ → ℕ → ℕ} {o : Order String} {c0 c1 : HCt} (K : Shape a L h) :
    Runs (Kept a L) h (alignScalesT C mredPsi o h c0 c1 a) (·.2) := by
  unfold alignScalesT
  split
  · exact Runs.bind (multByConstT_kept K K.lt) fun w _ r => Runs.ok (Kept.refl r.shape) rfl
  · split
    · exact Runs.bind (multByConstT_kept K K.lt) fun w _ r => Runs.ok (Kept.refl r.shape) rfl
    · exact Runs.ok (Kept.refl K) rfl

theorem evalCoreT_kept {f : ℕ → RowBuf N → RowBuf N → RowBuf N} {level lv : ℕ} {o1 o2 : Order String}
    {t0 t1 out : ℕ} {ids0 ids1 : IDSet} (K : Shape a L h) (ho : out < h.nct) :
    Runs (Kept a L) h (evalCoreT f level (fun h dst src => h.copyLvlT lv dst src) o1 o2 h t0 t1 ids0 ids1 out) (fun g => g) := by
  refine Runs.lift (Kept.refl K) fun _ _ => Runs.lift (Kept.refl K) fun _ _ => Runs.lift (Kept.refl K) fun p ep => ?_
  refine Runs.bind (polyOpT_kept K (K.wf.ctB out ho _ p (get_some ep))) fun h1 _ r1 => ?_
  refine Runs.lift (Kept.refl r1.shape) fun ids _ => Runs.loop rfl (Kept.refl r1.shape) fun s id r => ?_
  have k := r.shape
  have ho' : out < s.nct := lt_of_lt_of_le ho (r1.nct.trans r.nct)
  unfold evalStepT
  split
  · exact Runs.lift (Kept.refl k) fun _ _ => Runs.lift (Kept.refl k) fun p ep => polyOpT_kept k (k.wf.ctB out ho' _ p (get_some ep))
  · split
    · exact Runs.lift (Kept.refl k) fun _ _ => Runs.lift (Kept.refl k) fun p ep => polyOpT_kept k (k.wf.ctB out ho' _ p (get_some ep))
    · refine Runs.lift (Kept.refl k) fun _ _ => Runs.lift (Kept.refl k) fun _ _ => Runs.lift (Kept.refl k) fun p ep => ?_
      exact polyOpT_kept k (k.wf.ctB out ho' _ p (get_some ep))

theorem ckksEvaluateInPlaceT_kept {f : ℕ → RowBuf N → RowBuf N → RowBuf N} {mredPsi : ℕ → ℕ → ℕ} {o : Sched String} {c0 c1 : HCt} {out : ℕ}
    (K : Shape a L h) (ho : out < h.nct) (hx : Apart h a out) : Runs (Kept a L) h (ckksEvaluateInPlaceT C f mredPsi o h a c0 c1 out) (fun g => g) := by
  refine Runs.lift (Kept.refl K) fun _ _ => Runs.lift (Kept.refl K) fun _ _ => Runs.lift (Kept.refl K) fun _ _ => ?_
  refine Runs.bind (padT_kept K) fun h1 _ r1 => ?_
  refine Runs.lift (Kept.refl r1.shape) fun _ _ => Runs.lift (Kept.refl r1.shape) fun _ _ => Runs.lift (Kept.refl r1.shape) fun _ _ => ?_
  have ho1 : out < h1.nct := lt_of_lt_of_le ho r1.nct
  refine Runs.bind (π := fun g => g) ?_ fun h2 _ r2 => ?_
  · unfold dropToT
    split
    · exact dropLevelT_kept r1.shape ho1 (r1.apart _ ho hx)
    · exact Runs.ok (Kept.refl r1.shape) rfl
  refine Runs.bind (alignScalesT_kept r2.shape) fun w _ r3 => ?_
  exact evalCoreT_kept r3.shape (lt_of_lt_of_le ho1 (r2.nct.trans r3.nct))

theorem newCiphertextBinaryT_kept (C : Ctx N) {o : Sched String} {op0 op1 : HCt} {w : HCt × Heap N} (K : Shape a L h)
    (e : (newCiphertextBinaryT o h op0 op1).res = .ok w) : Apart w.2 a w.1.ct ∧ w.1.ct < w.2.nct := by
  obtain ⟨l0, -, e⟩ := Go.bind_ok e
  obtain ⟨l1, -, e⟩ := Go.bind_ok e
  obtain ⟨ids0, -, e⟩ := Go.bind_ok e
  obtain ⟨ids1, -, e⟩ := Go.bind_ok e
  obtain ⟨ids, -, e⟩ := Go.bind_ok e
  obtain ⟨v, e1, e⟩ := Go.bind_ok e
  cases e
  rw [newCtT_res] at e1
  cases e1
  have M := (newCt_spec (C := C) (o 84) ids (min l0 l1) K.wf).1
  refine ⟨fun x y p hx hy => ?_, by show (newCt _ _ _ _).1 < (newCt _ _ _ _).2.nct; rw [M.addr, M.nct]; omega⟩
  have h1 := M.only.ct a K.lt (by simp)
  change ((newCt _ _ _ _).2.ct a).lookup x = some p at hx
  rw [h1] at hx
  have := K.wf.ctB a K.lt x p hx
  have := M.new y p hy
  omega

theorem ckksAddNewT_kept {mredPsi : ℕ → ℕ → ℕ} {o : Sched String} {c0 c1 : HCt} (K : Shape a L h) :
    Runs (Kept a L) h (ckksAddNewT C mredPsi o h a c0 c1) (·.2) := by
  refine Runs.bind (Runs.kept (newCiphertextBinaryT_runs (Ok.start K.wf)) K) fun w e r => ?_
  obtain ⟨x, y⟩ := newCiphertextBinaryT_kept C K e
  exact Runs.bind (ckksEvaluateInPlaceT_kept r.shape y x) fun g _ r => Runs.ok (Kept.refl r.shape) rfl

theorem ckksSubNewT_kept {mredPsi : ℕ → ℕ → ℕ} {o : Sched String} {c0 c1 : HCt} (K : Shape a L h) :
    Runs (Kept a L) h (ckksSubNewT C mredPsi o h a c0 c1) (·.2) := by
  refine Runs.bind (Runs.kept (newCiphertextBinaryT_runs (Ok.start K.wf)) K) fun w e r => ?_
  obtain ⟨x, y⟩ := newCiphertextBinaryT_kept C K e
  refine Runs.bind (ckksEvaluateInPlaceT_kept r.shape y x) fun g _ r => ?_
  have ho := lt_of_lt_of_le y r.nct
  have K := r.shape
  refine Runs.lift (Kept.refl K) fun _ _ => Runs.lift (Kept.refl K) fun _ _ => Runs.lift (Kept.refl K) fun _ _ => ?_
  refine Runs.bind (π := fun g => g) ?_ fun g _ r => Runs.ok (Kept.refl r.shape) rfl
  refine Runs.lift (Kept.refl K) fun _ _ => Runs.lift (Kept.refl K) fun _ _ => Runs.loop rfl (Kept.refl K) fun s id r => ?_
  unfold negStepT
  split
  · exact Runs.lift (Kept.refl r.shape) fun p ep => polyOpT_kept r.shape (r.shape.wf.ctB _ (lt_of_lt_of_le ho r.nct) _ p (get_some ep))
  · exact Runs.ok (Kept.refl r.shape) rfl

end
end Heap
end MKHE
