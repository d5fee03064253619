import Verif.Lemmas.HeapTrace

set_option autoImplicit false
set_option linter.unusedSectionVars false

/-!
# What is written at every point of a call

`Runs R h x π`: the computation `x`, started on the heap `h`, passes only through heaps that are related to `h`, also when it panics; and when it returns, its
writes have led to the heap it returns.
-/

namespace MKHE
open Write

section
variable {N : ℕ} [NeZero N]

theorem replay_append (h : Heap N) (a b : List (Write N)) : replay h (a ++ b) = replay (replay h a) b := by
  induction a generalizing h with
  | nil => rfl
  | cons w a ih => exact ih (w.apply h)

theorem During.start (h : Heap N) (ws : List (Write N)) : During h ws h := by
  cases ws with
  | nil => exact rfl
  | cons w ws => exact Or.inl rfl

theorem During.stop (h : Heap N) (ws : List (Write N)) : During h ws (replay h ws) := by
  induction ws generalizing h with
  | nil => exact rfl
  | cons w ws ih => exact Or.inr (Or.inr (ih _))

theorem During.append {h g : Heap N} {a b : List (Write N)} : During h (a ++ b) g → During h a g ∨ During (replay h a) b g := by
  induction a generalizing h with
  | nil => exact Or.inr
  | cons w a ih =>
    rintro (e | e | e)
    · exact Or.inl (Or.inl e)
    · exact Or.inl (Or.inr (Or.inl e))
    · rcases ih e with e | e
      · exact Or.inl (Or.inr (Or.inr e))
      · exact Or.inr e

/-- `During` after some first writes -/
theorem During.left {h g : Heap N} {a b : List (Write N)} (e : During h a g) : During h (a ++ b) g := by
  induction a generalizing h with
  | nil => cases e; exact During.start _ _
  | cons w a ih =>
    rcases e with e | e | e
    · exact Or.inl e
    · exact Or.inr (Or.inl e)
    · exact Or.inr (Or.inr (ih e))

end

namespace TG
variable {N : ℕ} [NeZero N] {α β σ : Type} {R : Heap N → Heap N → Prop} {h : Heap N}

/-- the relations used here -/
class Rel (R : Heap N → Heap N → Prop) : Prop where
  trans : ∀ a b c, R a b → R b c → R a c
  refl : ∀ a b, R a b → R b b

/-- see the top of the file -/
structure Runs (R : Heap N → Heap N → Prop) (h : Heap N) (x : TG N α) (π : α → Heap N) : Prop where
  during : ∀ g, During h x.writes g → R h g
  final : ∀ a, x.res = .ok a → π a = replay h x.writes

theorem Runs.after {x : TG N α} {π : α → Heap N} (r : Runs R h x π) {a : α} (e : x.res = .ok a) : R h (π a) := by
  rw [r.final a e]; exact r.during _ (During.stop _ _)

theorem Runs.refl {x : TG N α} {π : α → Heap N} (r : Runs R h x π) : R h h := r.during h (During.start _ _)

theorem Runs.mono {R' : Heap N → Heap N → Prop} {x : TG N α} {π : α → Heap N} (r : Runs R h x π) (hR : ∀ g, R h g → R' h g) : Runs R' h x π :=
  ⟨fun g hg => hR g (r.during g hg), r.final⟩

theorem Runs.ok {π : α → Heap N} {a : α} (hr : R h h) (e : π a = h) : Runs R h (TG.ok a) π :=
  ⟨fun g hg => by cases hg; exact hr, fun b hb => by cases hb; exact e⟩

theorem Runs.error {π : α → Heap N} {e : Fault} (hr : R h h) : Runs R h (TG.error e) π :=
  ⟨fun g hg => by cases hg; exact hr, fun b hb => by cases hb⟩

theorem Runs.lift {x : Go α} {f : α → TG N β} {ρ : β → Heap N} (hr : R h h) (k : ∀ a, x = .ok a → Runs R h (f a) ρ) :
    Runs R h ((liftM x : TG N α) >>= f) ρ := by
  cases x with
  | error e => exact ⟨fun g hg => by cases hg; exact hr, fun b hb => by cases hb⟩
  | ok a =>
    obtain ⟨k1, k2⟩ := k a rfl
    exact ⟨k1, k2⟩

theorem Runs.bind [Rel R] {x : TG N α} {π : α → Heap N} {f : α → TG N β} {ρ : β → Heap N} (r : Runs R h x π)
    (k : ∀ a, x.res = .ok a → R h (π a) → Runs R (π a) (f a) ρ) : Runs R h (x >>= f) ρ := by
  have ew : (x >>= f).writes = x.writes ++ next f x.res := rfl
  have er : (x >>= f).res = x.res >>= fun a => (f a).res := rfl
  cases hx : x.res with
  | error e =>
    rw [hx] at ew er
    refine ⟨fun g hg => r.during g ?_, fun b hb => ?_⟩
    · rw [ew] at hg
      simpa [next] using hg
    · rw [er] at hb; cases hb
  | ok a =>
    rw [hx] at ew er
    have ra := r.after hx
    obtain ⟨k1, k2⟩ := k a hx ra
    have ef := r.final a hx
    refine ⟨fun g hg => ?_, fun b hb => ?_⟩
    · rw [ew] at hg
      rcases During.append hg with hg | hg
      · exact r.during g hg
      · rw [← ef] at hg
        exact Rel.trans _ _ _ ra (k1 g hg)
    · rw [er] at hb
      rw [ew, replay_append, ← ef]
      exact k2 b hb

/-- a loop; `I` is an invariant of the state -/
theorem Runs.loop_inv [Rel R] (I : σ → Prop) {π : σ → Heap N} {f : σ → α → TG N σ} {l : List α} {s : σ} (hs : π s = h) (hr : R h h) (hI : I s)
    (step : ∀ s a, a ∈ l → I s → R h (π s) → Runs R (π s) (f s a) π ∧ ∀ s', (f s a).res = .ok s' → I s') : Runs R h (TG.loop f s l) π := by
  subst hs
  induction l generalizing s with
  | nil => exact Runs.ok hr rfl
  | cons a l ih =>
    obtain ⟨r1, i1⟩ := step s a (by simp) hI hr
    refine Runs.bind r1 fun s' e r' => ?_
    exact ih (i1 s' e) (Rel.refl _ _ r') fun t b hb it rt => step t b (List.mem_cons_of_mem _ hb) it (Rel.trans _ _ _ r' rt)

theorem Runs.loop [Rel R] {π : σ → Heap N} {f : σ → α → TG N σ} {l : List α} {s : σ} (hs : π s = h) (hr : R h h)
    (step : ∀ s a, R h (π s) → Runs R (π s) (f s a) π) : Runs R h (TG.loop f s l) π :=
  Runs.loop_inv (fun _ => True) hs hr trivial fun s a _ _ r => ⟨step s a r, fun _ _ => trivial⟩

end TG

namespace Heap
open TG
variable {N : ℕ} [NeZero N] {C : Ctx N}

/-! ## primitives -/

theorem write_runs {R : Heap N → Heap N → Prop} {h : Heap N} {w : Write N} (h1 : R h h) (h2 : R h (w.apply h)) (h3 : ∀ g, w.Partly h g → R h g) :
    Runs R h (h.write w) (fun g => g) := by
  refine ⟨fun g hg => ?_, fun a e => by cases e; rfl⟩
  rcases hg with e | e | e
  · rw [e]; exact h1
  · exact h3 g e
  · cases e; exact h2

/-- rows of `p` have been written, nothing else -/
structure RowsTo (p : ℕ) (h g : Heap N) : Prop where
  wf : WF g
  lt : p < g.npoly
  only : Only {p} ∅ h g
  poly : g.poly = h.poly
  ct : g.ct = h.ct
  nct : g.nct = h.nct
  npoly : g.npoly = h.npoly

theorem RowsTo.refl {p : ℕ} {h : Heap N} (W : WF h) (hp : p < h.npoly) : RowsTo p h h := ⟨W, hp, Only.refl _ _ _, rfl, rfl, rfl, rfl⟩

instance (p : ℕ) : Rel (RowsTo (N := N) p) where
  trans _ _ _ x y := ⟨y.wf, y.lt, x.only.trans y.only, y.poly.trans x.poly, y.ct.trans x.ct, y.nct.trans x.nct, y.npoly.trans x.npoly⟩
  refl _ _ x := RowsTo.refl x.wf x.lt

theorem RowsTo.setRow {p : ℕ} {h : Heap N} (W : WF h) (hp : p < h.npoly) {i : ℕ} (hi : i < h.len p) (r : RowBuf N) : RowsTo p h (h.setRow (h.addr p i) r) :=
  ⟨setRow_wf W _ _, hp, setRow_only W hp (getD_mem hi) r, rfl, rfl, rfl, rfl⟩

theorem rowsOpT_rows {h : Heap N} {n : ℕ} {f : ℕ → RowBuf N → RowBuf N → RowBuf N} {a b p : ℕ} (W : WF h) (hp : p < h.npoly) (hn : n ≤ h.len p) :
    Runs (RowsTo p) h (h.rowsOpT n f a b p) (fun g => g) := by
  refine Runs.loop_inv (fun _ => True) rfl (RowsTo.refl W hp) trivial fun s i hi _ r => ⟨?_, fun _ _ => trivial⟩
  have hi' : i < s.len p := by
    have : s.len p = h.len p := by unfold len; rw [r.poly]
    have := List.mem_range.mp hi
    omega
  refine write_runs (RowsTo.refl r.wf r.lt) (RowsTo.setRow r.wf r.lt hi' _) ?_
  rintro g ⟨x, rfl⟩
  exact RowsTo.setRow r.wf r.lt hi' x

theorem polyOpT_rows {h : Heap N} {level : ℕ} {f : ℕ → RowBuf N → RowBuf N → RowBuf N} {a b p : ℕ} (W : WF h) (hp : p < h.npoly) :
    Runs (RowsTo p) h (h.polyOpT level f a b p) (fun g => g) := by
  unfold polyOpT
  split
  · exact rowsOpT_rows W hp (by omega)
  · exact Runs.bind (rowsOpT_rows W hp (by omega)) fun g _ r => Runs.error (Rel.refl _ _ r)

/-! ## compared to the heap at the begin -/

section
variable {h0 h : Heap N} {Wp Wc : Set ℕ}

/-- from `h` to `g`: compared to `h0` only `Wp`, `Wc` and new memory have been written; ciphertexts whose polynomials may be written are still such -/
structure Grew (h0 : Heap N) (Wp Wc : Set ℕ) (h g : Heap N) : Prop where
  ok : Ok h0 Wp Wc g
  nct : h.nct ≤ g.nct
  npoly : h.npoly ≤ g.npoly
  into : ∀ c, Into h0 Wp h c → Into h0 Wp g c

theorem Grew.refl (K : Ok h0 Wp Wc h) : Grew h0 Wp Wc h h := ⟨K, le_rfl, le_rfl, fun _ i => i⟩

instance : Rel (Grew h0 Wp Wc) where
  trans _ _ _ x y := ⟨y.ok, x.nct.trans y.nct, x.npoly.trans y.npoly, fun c i => y.into c (x.into c i)⟩
  refl _ _ x := Grew.refl x.ok

theorem Wrote.grew {g : Heap N} (w : Wrote h0 Wp Wc h g) (hn : h.npoly ≤ g.npoly) : Grew h0 Wp Wc h g := ⟨w.1, w.2.2.ge, hn, fun _ i => w.into i⟩

theorem RowsTo.grew {p : ℕ} {g : Heap N} (r : RowsTo p h g) (K : Ok h0 Wp Wc h) (hw : p ∈ Wp ∨ h0.npoly ≤ p) : Grew h0 Wp Wc h g :=
  Wrote.grew ⟨K.step hw r.wf r.only, r.ct, r.nct⟩ r.npoly.ge

theorem polyOpT_runs {level : ℕ} {f : ℕ → RowBuf N → RowBuf N → RowBuf N} {a b p : ℕ} (K : Ok h0 Wp Wc h) (hp : p < h.npoly) (hw : p ∈ Wp ∨ h0.npoly ≤ p) :
    Runs (Grew h0 Wp Wc) h (h.polyOpT level f a b p) (fun g => g) := (polyOpT_rows K.wf hp).mono fun _ r => r.grew K hw

theorem rowsOpT_runs {n : ℕ} {f : ℕ → RowBuf N → RowBuf N → RowBuf N} {a b p : ℕ} (K : Ok h0 Wp Wc h) (hp : p < h.npoly) (hw : p ∈ Wp ∨ h0.npoly ≤ p)
    (hn : n ≤ h.len p) : Runs (Grew h0 Wp Wc) h (h.rowsOpT n f a b p) (fun g => g) := (rowsOpT_rows K.wf hp hn).mono fun _ r => r.grew K hw

theorem setNTTT_runs {p : ℕ} {b : Bool} (K : Ok h0 Wp Wc h) (hw : p ∈ Wp ∨ h0.npoly ≤ p) : Runs (Grew h0 Wp Wc) h (h.setNTTT p b) (fun g => g) :=
  write_runs (Grew.refl K) (Wrote.grew ⟨K.step hw (setNTT_wf K.wf _ _) (setNTT_only _ _), rfl, rfl⟩ le_rfl) (fun _ e => e.elim)

theorem truncateT_runs {p n : ℕ} (K : Ok h0 Wp Wc h) (hw : p ∈ Wp ∨ h0.npoly ≤ p) : Runs (Grew h0 Wp Wc) h (h.truncateT p n) (fun g => g) := by
  unfold truncateT
  split
  · exact Runs.error (Grew.refl K)
  · rename_i hl
    have e : h.truncate p n = .ok ((Write.reslice p n).apply h) := by unfold truncate; rw [if_neg hl]; rfl
    obtain ⟨a1, a2, a3, a4, a5⟩ := truncate_inv K.wf e
    exact write_runs (Grew.refl K) (Wrote.grew ⟨K.step hw a1 a2, a3, a4⟩ a5.ge) (fun _ e => e.elim)

theorem polyCopyT_runs {p q : ℕ} (K : Ok h0 Wp Wc h) (hp : p < h.npoly) (hw : p ∈ Wp ∨ h0.npoly ≤ p) :
    Runs (Grew h0 Wp Wc) h (h.polyCopyT p q) (fun g => g) :=
  Runs.bind (rowsOpT_runs K hp hw (min_le_left _ _)) fun _ _ r => setNTTT_runs r.ok hw

theorem allocPolyT_runs {b : Bool} {rows : List (RowBuf N)} (K : Ok h0 Wp Wc h) : Runs (Grew h0 Wp Wc) h (h.allocPolyT b rows) (·.2) := by
  obtain ⟨a1, a2, a3, a4, a5, a6⟩ := allocPoly_inv (h := h) K.wf b rows
  refine ⟨fun g hg => ?_, fun a e => by cases e; rfl⟩
  rcases hg with e | e | e
  · rw [e]; exact Grew.refl K
  · exact e.elim
  · cases e
    exact Wrote.grew ⟨K.fresh a1 a2, a3, a4⟩ (by show _ ≤ (h.allocPoly b rows).2.npoly; omega)

theorem allocPolyT_res {b : Bool} {rows : List (RowBuf N)} {w : ℕ × Heap N} (e : (h.allocPolyT b rows).res = .ok w) :
    w.1 = h.npoly ∧ w.2.npoly = h.npoly + 1 ∧ w.2.ct = h.ct := by cases e; exact ⟨rfl, rfl, rfl⟩

theorem allocCtT_runs {m : GoMap String ℕ} (K : Ok h0 Wp Wc h) (hm : ∀ id p, m.lookup id = some p → p < h.npoly) :
    Runs (Grew h0 Wp Wc) h (h.allocCtT m) (·.2) := by
  obtain ⟨a1, a2, a3, a4, a5, a6⟩ := allocCt_inv K.wf hm
  refine ⟨fun g hg => ?_, fun a e => by cases e; rfl⟩
  rcases hg with e | e | e
  · rw [e]; exact Grew.refl K
  · exact e.elim
  · cases e
    refine ⟨K.fresh a1 a2, a2.nct, a2.npoly, fun c i => ⟨lt_of_lt_of_le i.1 a2.nct, fun id p hp => i.2 id p ?_⟩⟩
    have := a2.ct c i.1 (by simp)
    change ((h.allocCt m).2.ct c).lookup id = some p at hp
    rw [this] at hp
    exact hp

/-- an entry of a map that may be changed is set or deleted -/
theorem setCtT_runs {c : ℕ} {m : GoMap String ℕ} (K : Ok h0 Wp Wc h) (hc : c ∈ Wc ∨ h0.nct ≤ c) (hm : ∀ id p, m.lookup id = some p → p < h.npoly)
    (hi : Into h0 Wp h c → ∀ id p, m.lookup id = some p → p ∈ Wp ∨ h0.npoly ≤ p) : Runs (Grew h0 Wp Wc) h (h.setCtT c m) (fun g => g) := by
  obtain ⟨b1, b2⟩ := setCt_inv K.wf c hm
  refine write_runs (Grew.refl K) ⟨K.map hc b1 b2, le_rfl, le_rfl, fun d i => ⟨i.1, fun id p hp => ?_⟩⟩ (fun _ e => e.elim)
  change ((h.setCt c m).ct d).lookup id = some p at hp
  by_cases e : d = c
  · subst e
    exact hi i id p (by rwa [show (h.setCt d m).ct d = m from Function.update_self _ _ _] at hp)
  · exact i.2 id p (by rwa [show (h.setCt c m).ct d = h.ct d from Function.update_of_ne e _ _] at hp)

/-! ## mkrlwe/elements.go -/

theorem newCtT_runs {o : Order String} {ids : IDSet} {level : ℕ} (K : Ok h0 Wp Wc h) : Runs (Grew h0 Wp Wc) h (newCtT o ids level h) (·.2) := by
  refine Runs.bind (allocPolyT_runs K) fun w e r => ?_
  obtain ⟨e1, e2, -⟩ := allocPolyT_res e
  let I : GoMap String ℕ × Heap N → Prop := fun w => ∀ id p, w.1.lookup id = some p → p < w.2.npoly
  have hI0 : I (AList.insert "0" w.1 (∅ : GoMap String ℕ), w.2) := fun id p hp => by
    change (AList.insert "0" w.1 (∅ : GoMap String ℕ)).lookup id = some p at hp
    rw [GoMap.lookup_insert'] at hp
    split at hp
    · cases hp; show w.1 < w.2.npoly; omega
    · simp at hp
  have hI : ∀ (s : GoMap String ℕ × Heap N) (id : String) s', I s → (s.2.newPolyT level >>= fun v => TG.ok (s.1.insert id v.1, v.2)).res = .ok s' → I s' := by
    intro s id s' hs e
    cases e
    intro x p hp
    change (s.1.insert id _).lookup x = some p at hp
    show p < s.2.npoly + 1
    rw [GoMap.lookup_insert'] at hp
    split at hp
    · cases hp; exact Nat.lt_succ_self _
    · have := hs x p hp; omega
  refine Runs.bind (π := (·.2)) (Runs.loop_inv I rfl (Grew.refl r.ok) hI0 fun s a _ hs rs => ⟨?_, fun s' e => hI s a s' hs e⟩) fun s e rs => ?_
  · exact Runs.bind (allocPolyT_runs rs.ok) fun v _ rv => Runs.ok (Grew.refl rv.ok) rfl
  · refine allocCtT_runs rs.ok ?_
    rw [res_loop] at e
    exact Go.loop_pres I (fun s a s' _ hs e => hI s a s' hs e) hI0 e

theorem copyNewT_runs {o : Order String} {c : ℕ} (K : Ok h0 Wp Wc h) : Runs (Grew h0 Wp Wc) h (copyNewT o h c) (·.2) := by
  refine Runs.lift (Grew.refl K) fun p0 _ => Runs.bind (allocPolyT_runs K) fun w e r => ?_
  obtain ⟨e1, e2, -⟩ := allocPolyT_res e
  let I : GoMap String ℕ × Heap N → Prop := fun w => ∀ id p, w.1.lookup id = some p → p < w.2.npoly
  have hI0 : I (AList.insert "0" w.1 (∅ : GoMap String ℕ), w.2) := fun id p hp => by
    change (AList.insert "0" w.1 (∅ : GoMap String ℕ)).lookup id = some p at hp
    rw [GoMap.lookup_insert'] at hp
    split at hp
    · cases hp; show w.1 < w.2.npoly; omega
    · simp at hp
  have hI : ∀ (s : GoMap String ℕ × Heap N) (id : String) s', I s →
      ((liftM (s.2.get c id) : TG N ℕ) >>= fun p => s.2.polyCopyNewT p >>= fun v => TG.ok (s.1.insert id v.1, v.2)).res = .ok s' → I s' := by
    intro s id s' hs e
    obtain ⟨p, -, e⟩ := Go.bind_ok e
    cases e
    intro x p hp
    change (s.1.insert id _).lookup x = some p at hp
    show p < s.2.npoly + 1
    rw [GoMap.lookup_insert'] at hp
    split at hp
    · cases hp; exact Nat.lt_succ_self _
    · have := hs x p hp; omega
  refine Runs.bind (π := (·.2)) (Runs.loop_inv I rfl (Grew.refl r.ok) hI0 fun s a _ hs rs => ⟨?_, fun s' e => hI s a s' hs e⟩) fun s e rs => ?_
  · exact Runs.lift (Grew.refl rs.ok) fun p _ => Runs.bind (allocPolyT_runs rs.ok) fun v _ rv => Runs.ok (Grew.refl rv.ok) rfl
  · refine allocCtT_runs rs.ok ?_
    rw [res_loop] at e
    exact Go.loop_pres I (fun s a s' _ hs e => hI s a s' hs e) hI0 e

/-- a ciphertext that was made during the call may be written -/
theorem Made.into' {c : ℕ} {g : Heap N} (M : Made h c g) (K : Ok h0 Wp Wc h) : Into h0 Wp g c ∧ h0.nct ≤ c :=
  ⟨⟨by rw [M.addr, M.nct]; omega, fun id p hp => Or.inr (by have := M.new id p hp; have := K.only.npoly; omega)⟩, by
    rw [M.addr]; exact K.only.nct⟩

theorem newCtT_into (C : Ctx N) {o : Order String} {ids : IDSet} {level : ℕ} {w : ℕ × Heap N} (K : Ok h0 Wp Wc h) (e : (newCtT o ids level h).res = .ok w) :
    Into h0 Wp w.2 w.1 ∧ h0.nct ≤ w.1 := by
  rw [newCtT_res] at e
  cases e
  exact (newCt_spec (C := C) o ids level K.wf).1.into' K

theorem copyNewT_into (C : Ctx N) {o : Order String} {c : ℕ} {w : ℕ × Heap N} (K : Ok h0 Wp Wc h) (hc : c < h.nct) (e : (copyNewT o h c).res = .ok w) :
    Into h0 Wp w.2 w.1 ∧ h0.nct ≤ w.1 := by
  rw [copyNewT_res] at e
  exact (copyNew_spec (C := C) K.wf hc e).1.into' K

end
end Heap
end MKHE
