import Verif.Model.HeapEval
import Verif.Props.HeapSum

set_option autoImplicit false
set_option linter.unusedSectionVars false

/-!
# The functions on the heap do to the receiver what the functions on values do

`Sim h0 out h ct`: since `h0` only polynomials of `out` were written, and `out` holds the value `ct`.
-/

namespace MKHE

/-- the order that treats every permutation of `k` as `k` -/
noncomputable def Order.via (k : List String) (o : Order String) : Order String := by
  classical
  exact ⟨fun l => if l.Perm k then o.f k else o.f l, fun l => by
    split
    · rename_i h; exact (o.perm k).trans h.symm
    · exact o.perm l⟩

theorem Order.via_perm {k l : List String} (o : Order String) (h : l.Perm k) : (o.via k).f l = o.f k := by
  unfold Order.via
  exact if_pos h

namespace Heap
variable {N : ℕ} [NeZero N] {C : Ctx N}

/-- since `h0`, only polynomials of `out` were written, and `out` holds `ct` -/
structure Sim (h0 : Heap N) (out : ℕ) (h : Heap N) (ct : Ct C) : Prop where
  rep : Rep h out ct
  only : Only (polysOf h0 out) ∅ h0 h
  ct : h.ct = h0.ct
  nct : h.nct = h0.nct
  npoly : h.npoly = h0.npoly

variable {h0 h h' : Heap N} {out : ℕ} {ct ct' : Ct C}

theorem Sim.start (R : Rep h out ct) : Sim h out h ct := ⟨R, Only.refl _ _ _, rfl, rfl, rfl⟩

theorem Sim.step (S : Sim h0 out h ct) {id : String} {p : ℕ} (hp : (h.ct out).lookup id = some p) {P : Poly C} (T : Step C h p P h') :
    Sim h0 out h' (ct.insert id P) := by
  have R := S.rep.write hp T.wf T.only T.ct
  rw [T.view] at R
  refine ⟨R, S.only.trans (T.only.mono (fun x hx => ⟨id, ?_⟩) subset_rfl), T.ct.trans S.ct, T.nct.trans S.nct, T.npoly.trans S.npoly⟩
  rw [Set.mem_singleton_iff] at hx
  rw [hx, ← S.ct]
  exact hp

theorem Sim.same (S : Sim h0 out h ct) (e : ct'.Same ct) : Sim h0 out h ct' := ⟨S.rep.same e, S.only, S.ct, S.nct, S.npoly⟩

theorem Sim.trans {h1 : Heap N} (S : Sim h0 out h1 ct) (T : Sim h1 out h ct') : Sim h0 out h ct' := by
  refine ⟨T.rep, S.only.trans ?_, T.ct.trans S.ct, T.nct.trans S.nct, T.npoly.trans S.npoly⟩
  have e : polysOf h1 out = polysOf h0 out := by unfold polysOf; rw [S.ct]
  rw [← e]; exact T.only

theorem Sim.value (S : Sim h0 out h ct) (W : WF h0) {c : ℕ} (hc : c < h0.nct) (ha : Apart h0 out c) : value C h c = value C h0 c :=
  S.only.value W hc (by simp) (fun id p hp ⟨x, hx⟩ => ha x id p hx hp)

/-- a ciphertext apart from the receiver keeps what it holds -/
theorem Sim.keep (S : Sim h0 out h ct) {c : ℕ} {cv : Ct C} (R : Rep h0 c cv) (ha : Apart h0 out c) : Rep h c cv := by
  refine ⟨S.rep.wf, by rw [S.nct]; exact R.lt, by rw [S.ct]; exact R.inj, fun id => ?_⟩
  have := congrArg (fun m : Ct C => m.lookup id) (S.value R.wf R.lt ha)
  rw [value_lookup, value_lookup] at this
  rw [R.eq id, ← this]

theorem Sim.entry (S : Sim h0 out h ct) {id : String} {P : Poly C} (e : ct.deref id = .ok P) :
    ∃ p, h.get out id = .ok p ∧ (h.ct out).lookup id = some p ∧ p < h.npoly ∧ h.view C p = P := by
  obtain ⟨p, a, b, c⟩ := S.rep.get (GoMap.deref_some e)
  exact ⟨p, get_of a, a, b, c⟩

theorem need_view {p level : ℕ} {P : Poly C} (v : h.view C p = P) (e : P.need level = .ok ()) : h.need p level = .ok () := by
  have := need_lt e
  rw [← v] at this
  unfold Heap.need
  exact if_pos this

theorem Sim.upd (S : Sim h0 out h ct) {level : ℕ} {id : String} {f : QRows C → QRows C} (e : ct.upd level id f = .ok ct') :
    ∃ h', Heap.upd (C := C) level out id f h = .ok h' ∧ Sim h0 out h' ct' := by
  obtain ⟨P, eP, e⟩ := Go.bind_ok e
  obtain ⟨_, en, e⟩ := Go.bind_ok e
  cases e
  obtain ⟨p, g, hp, lp, vp⟩ := S.entry eP
  have ln : level < h.len p := by have := need_lt en; rw [← vp] at this; exact this
  obtain ⟨h', r1, r2, r3, r4, r5, r6, r7⟩ := polyOp_run C S.rep.wf (fun i _ _ => wr (f (h.view C p).rows i)) lp lp lp ln ln ln
  refine ⟨h', ?_, S.step hp ⟨r2, r3, r4, r5, r6, ?_⟩⟩
  · unfold Heap.upd
    rw [g, bind_ok]
    exact r1
  · rw [r7, vp]
    exact Poly.set_congr (fun i _ => rd_wr _) _

/-- writing rows that differ from the old ones up to `level` only -/
theorem Sim.put (S : Sim h0 out h ct) {level : ℕ} {id : String} {P : Poly C} (eP : ct.deref id = .ok P) (en : P.need level = .ok ()) {r F : QRows C}
    (hr : r = setQ level F P.rows) : ∃ h', Heap.upd (C := C) level out id (fun _ => r) h = .ok h' ∧ Sim h0 out h' (ct.insert id { P with rows := r }) := by
  have : ct.upd level id (fun _ => r) = .ok (ct.insert id { P with rows := r }) := by
    unfold Ct.upd
    rw [eP, bind_ok, en, bind_ok]
    congr 2
    unfold Poly.set
    congr 1
    subst hr
    funext i
    unfold setQ
    by_cases hi : i ≤ level
    · simp [hi]
    · simp [hi]
  exact S.upd this

theorem Sim.putCopy (S : Sim h0 out h ct) {id : String} {P Q : Poly C} (e : ct.deref id = .ok P) :
    ∃ h', Heap.putCopy out id Q h = .ok h' ∧ Sim h0 out h' (ct.insert id (P.copy Q)) := by
  obtain ⟨p, g, hp, lp, vp⟩ := S.entry e
  obtain ⟨a1, a2, a3, a4, a5, a6⟩ := rowsOp_inv (h := h) (min (h.len p) Q.len) (fun i _ _ => wr (Q.rows i)) p p p S.rep.wf lp (min_le_left _ _)
  have hv := view_rowsOp (C := C) S.rep.wf (n := min (h.len p) Q.len) (fun i _ _ => wr (Q.rows i)) lp lp lp (min_le_left _ _) (min_le_left _ _)
    (min_le_left _ _)
  refine ⟨_, ?_, S.step hp (h' := (h.rowsOp (min (h.len p) Q.len) (fun i _ _ => wr (Q.rows i)) p p p).setNTT p Q.isNTT)
    ⟨setNTT_wf a1 _ _, a2.trans (setNTT_only _ _), a4, a5, a6, ?_⟩⟩
  · unfold Heap.putCopy
    rw [g, bind_ok]
  · rw [view_setNTT, hv]
    have hlen : (h.rowsOp (min (h.len p) Q.len) (fun i _ _ => wr (Q.rows i)) p p p).len p = h.len p :=
      congrArg (fun g : ℕ → PolyObj => (g p).coeffs.length) a3
    rw [hlen, ← vp]
    unfold Poly.copy
    refine congrArg (Poly.mk (C := C) _ _) (funext fun i => ?_)
    show (if i < min (h.len p) Q.len then _ else _) = if i < min (h.len p) Q.len then _ else _
    split
    · exact rd_wr _
    · rfl

/-- `ct.Value[id].Copy(other.Value[id])` -/
theorem Sim.polyCopy (S : Sim h0 out h ct) {id : String} {P : Poly C} (e : ct.deref id = .ok P) {q : ℕ} (hq : q < h.npoly) :
    ∃ p, h.get out id = .ok p ∧ Sim h0 out (h.polyCopy p q) (ct.insert id (P.copy (h.view C q))) := by
  obtain ⟨p, g, hp, lp, vp⟩ := S.entry e
  refine ⟨p, g, S.step hp ?_⟩
  have := polyCopy_run (C := C) S.rep.wf hq lp
  rwa [vp] at this

/-- loops over the receiver and private state -/
theorem loop_sim {σ : Type} {fv : Ct C × σ → String → Go (Ct C × σ)} {fh : Heap N × σ → String → Go (Heap N × σ)} {l : List String}
    (hstep : ∀ h ct s id r, id ∈ l → Sim h0 out h ct → fv (ct, s) id = .ok r → ∃ h', fh (h, s) id = .ok (h', r.2) ∧ Sim h0 out h' r.1)
    {s : σ} {r : Ct C × σ} (S : Sim h0 out h ct) (e : Go.loop fv (ct, s) l = .ok r) :
    ∃ h', Go.loop fh (h, s) l = .ok (h', r.2) ∧ Sim h0 out h' r.1 := by
  induction l generalizing h ct s with
  | nil => cases e; exact ⟨h, rfl, S⟩
  | cons a l ih =>
    rw [Go.loop_cons] at e
    split at e
    · rename_i r1 e1
      obtain ⟨h1, a1, S1⟩ := hstep h ct s a r1 (by simp) S e1
      rw [Go.loop_cons, a1]
      exact ih (fun h ct s id r hm => hstep h ct s id r (by simp [hm])) S1 e
    · cases e

/-- loops over the receiver alone -/
theorem loop_sim0 {fv : Ct C → String → Go (Ct C)} {fh : Heap N → String → Go (Heap N)} {l : List String}
    (hstep : ∀ h ct id r, id ∈ l → Sim h0 out h ct → fv ct id = .ok r → ∃ h', fh h id = .ok h' ∧ Sim h0 out h' r)
    {r : Ct C} (S : Sim h0 out h ct) (e : Go.loop fv ct l = .ok r) : ∃ h', Go.loop fh h l = .ok h' ∧ Sim h0 out h' r := by
  induction l generalizing h ct with
  | nil => cases e; exact ⟨h, rfl, S⟩
  | cons a l ih =>
    rw [Go.loop_cons] at e
    split at e
    · rename_i r1 e1
      obtain ⟨h1, a1, S1⟩ := hstep h ct a r1 (by simp) S e1
      rw [Go.loop_cons, a1]
      exact ih (fun h ct id r hm => hstep h ct id r (by simp [hm])) S1 e
    · cases e

theorem Rep.keysPerm (R : Rep h out ct) : ct.keys.Perm (h.ct out).keys :=
  (List.perm_ext_iff_of_nodup ct.keys_nodup (h.ct out).keys_nodup).mpr fun id => by rw [← AList.mem_keys, ← AList.mem_keys, R.mem]

theorem Rep.range_via (R : Rep h out ct) (o : Order String) : GoMap.range (o.via (h.ct out).keys) ct = GoMap.range o (h.ct out) :=
  Order.via_perm o R.keysPerm

theorem Sim.range_via (S : Sim h0 out h ct) (o : Order String) : GoMap.range (o.via (h0.ct out).keys) ct = GoMap.range o (h.ct out) := by
  rw [← S.ct]; exact S.rep.range_via o

theorem level_of (R : Rep h out ct) {l : ℕ} (e : ct.level = .ok l) : h.level out = .ok l := R.level.trans e

/-! ## external products only write rows up to the level -/

theorem modDownRows_set {level : ℕ} {x : PolyQP C} {conv : Fin N → ℕ → ℕ} {c r : QRows C} (e : modDownRows level x conv c = .ok r) :
    ∃ F, r = setQ level F c := by
  obtain ⟨w, -, e⟩ := Go.bind_ok e
  cases e
  exact ⟨_, rfl⟩

theorem externalProduct_set {S : Scratch C} {level : ℕ} {a : Poly C} {bg : Swk C} {c : QRows C} {w : QRows C × Scratch C}
    (e : externalProduct S level a bg c = .ok w) : ∃ F, w.1 = setQ level F c := by
  obtain ⟨⟨rows, S1⟩, -, e⟩ := Go.bind_ok e
  dsimp only at e
  split at e
  · cases e
  · obtain ⟨S2, -, e⟩ := Go.bind_ok e
    obtain ⟨c', e1, e⟩ := Go.bind_ok e
    cases e
    exact modDownRows_set e1

theorem externalProductHoisted_set {S : Scratch C} {level : ℕ} {a bg : Swk C} {c : QRows C} {w : QRows C × Scratch C}
    (e : externalProductHoisted S level a bg c = .ok w) : ∃ F, w.1 = setQ level F c := by
  unfold externalProductHoisted at e
  split at e
  · cases e
  · obtain ⟨S2, -, e⟩ := Go.bind_ok e
    obtain ⟨c', e1, e⟩ := Go.bind_ok e
    cases e
    exact modDownRows_set e1

theorem extProd_set {S : Scratch C} {level : ℕ} {op : Ct C} {hoisted : Option (HoistedCt C)} {id : String} {bg : Swk C} {c : QRows C}
    {w : QRows C × Scratch C} (e : extProd S level op hoisted id bg c = .ok w) : ∃ F, w.1 = setQ level F c := by
  cases hoisted with
  | none =>
    obtain ⟨a, -, e⟩ := Go.bind_ok e
    exact externalProduct_set e
  | some hh =>
    obtain ⟨a, -, e⟩ := Go.bind_ok e
    exact externalProductHoisted_set e

theorem deref_same {ct ct' : Ct C} (e : ct'.Same ct) (id : String) : ct'.deref id = ct.deref id := by
  unfold GoMap.deref; rw [e id]

theorem extProd_same {ct ct' : Ct C} (hs : ct'.Same ct) (S : Scratch C) (level : ℕ) (hoisted : Option (HoistedCt C)) (id : String) (bg : Swk C)
    (c : QRows C) : extProd S level ct' hoisted id bg c = extProd S level ct hoisted id bg c := by
  unfold extProd
  cases hoisted with
  | none => dsimp only; rw [deref_same hs]
  | some hh => rfl

end Heap
end MKHE
