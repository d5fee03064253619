import Verif.Lemmas.HeapEvalSim
import Verif.Props.HeapLevel

set_option autoImplicit false
set_option linter.unusedSectionVars false

/-!
# New ciphertexts, the rotation loop, rescaling and plaintext products on the heap do what they do on values
-/

namespace MKHE

namespace Heap
variable {N : ℕ} [NeZero N] {C : Ctx N} {h0 h h' : Heap N} {out : ℕ} {ct : Ct C}

theorem newCt_rep (o : Order String) (o' : Order String) (ids : IDSet) (level : ℕ) {h : Heap N} (W : WF h) :
    Rep (newCt o ids level h).2 (newCt o ids level h).1 (Ct.new o' ids level : Ct C) := by
  obtain ⟨M, hk, hv⟩ := newCt_spec (C := C) o ids level W
  refine ⟨M.wf, (M.into ∅).1, M.inj, fun id => ?_⟩
  rw [Ct.new_lookup]
  split_ifs with hid
  · obtain ⟨p, hp⟩ := Option.isSome_iff_exists.mp (GoMap.mem_iff_lookup.mp ((hk id).mpr hid))
    rw [hp]
    show _ = some _
    rw [hv id p hp]
  · rw [AList.lookup_eq_none.mpr fun hm => hid ((hk id).mp hm)]
    rfl

/-- the schedule of a rotation on values that visits the maps of the heap -/
noncomputable def viaRot (tmp out : List String) (o : ℕ → Sched String) : ℕ → Sched String := fun k n =>
  if n = 20 ∨ n = 22 then (o k n).via tmp else if n = 60 then (o k n).via out else o k n

/-- the loop over the bits of the amount -/
theorem rotLoop_sim {crs : GoMap ℤ (Swk C)} {o : ℕ → Sched String} {rks : RotKeySet (GalKey C)} {tmp out : ℕ} (r : ℕ) :
    ∀ {k : ℕ} {h : Heap N} {tv ov : Ct C} {S : Scratch C} {w : Ct C × Scratch C}, Rep h tmp tv → Rep h out ov → Apart h out tmp → Apart h tmp out →
      MKHE.rotLoop crs (viaRot (h.ct tmp).keys (h.ct out).keys o) rks k r tv ov S = .ok w →
      ∃ h', Heap.rotLoop crs o rks tmp out k r h S = .ok (h', w.2) ∧ Rep h' out w.1 := by
  induction r using Nat.strong_induction_on with
  | _ r ih =>
    intro k h tv ov S w Rt Ro a1 a2 e
    unfold MKHE.rotLoop at e
    unfold Heap.rotLoop
    split at e
    · rename_i hr
      rw [dif_pos hr]
      split at e
      · rename_i hodd
        rw [if_pos hodd]
        obtain ⟨u, e1, e⟩ := Go.bind_ok e
        obtain ⟨tv', e2, e⟩ := Go.bind_ok e
        obtain ⟨g1, b1, S1⟩ := rotateWith_sim (o := o k) Ro Rt.lt a1 (ctIn := tv) (fun id => by rw [value_lookup]; exact Rt.eq id)
          (by show GoMap.range (viaRot _ _ o k 20) tv = _; unfold viaRot; rw [if_pos (Or.inl rfl)]; exact Rt.range_via _)
          (by unfold viaRot; rw [if_neg (by omega), if_neg (by omega)])
          (by show GoMap.range (viaRot _ _ o k 22) tv = _; unfold viaRot; rw [if_pos (Or.inr rfl)]; exact Rt.range_via _) e1
        have Rt1 := S1.keep Rt a1
        have Ro1 := S1.rep
        have a1' : Apart g1 out tmp := by unfold Apart; rw [S1.ct]; exact a1
        have a2' : Apart g1 tmp out := by unfold Apart; rw [S1.ct]; exact a2
        obtain ⟨g2, b2, S2⟩ := copy_sim (o := o k 60) Rt1 Ro1.lt a2' (sv := u.1) (fun id => by rw [value_lookup]; exact Ro1.eq id)
          (by unfold viaRot; rw [if_neg (by omega), if_pos rfl, ← S1.ct]; exact Ro1.range_via _) e2
        have hct : g2.ct = h.ct := S2.ct.trans S1.ct
        rw [← hct] at e
        obtain ⟨h', b3, R3⟩ := ih (r / 2) (by omega) S2.rep (S2.keep Ro1 a2') (by unfold Apart; rw [hct]; exact a1) (by unfold Apart; rw [hct]; exact a2) e
        refine ⟨h', ?_, R3⟩
        rw [b1, bind_ok]
        show (Heap.copy (o k 60) g1 tmp out >>= _) = _
        rw [b2, bind_ok]
        exact b3
      · rename_i hodd
        rw [if_neg hodd]
        exact ih (r / 2) (by omega) Rt Ro a1 a2 e
    · rename_i hr
      rw [dif_neg hr]
      cases e
      exact ⟨h, rfl, Ro⟩

/-- copying into new memory -/
theorem copyNew_sim {o o' : Order String} {h : Heap N} {c : ℕ} (W : WF h) (hc : c < h.nct) {tv : Ct C}
    (e : (value C h c).copyNew o' = .ok tv) : ∃ c' h', copyNew o h c = .ok (c', h') ∧ Made h c' h' ∧ Rep h' c' tv := by
  have h0 : "0" ∈ value C h c := by
    obtain ⟨p, e1, -⟩ := Go.bind_ok e
    exact GoMap.mem_iff_lookup.mpr (by rw [GoMap.deref_some e1]; rfl)
  obtain ⟨c', h', e1⟩ := copyNew_returns o (value_mem.mp h0)
  obtain ⟨M, R⟩ := copyNew_rep (C := C) W hc e1
  obtain ⟨tv', e2, hs⟩ := Ct.copyNew_ok o' h0
  rw [e] at e2
  injection e2 with e2
  subst e2
  exact ⟨c', h', e1, M, R.same hs⟩

/-! ## what a caller can see of a ciphertext -/

/-- a polynomial without rows beyond its length -/
def vis (P : Poly C) : Poly C := cut P.len P

/-- `v` is `ct` up to rows beyond the lengths -/
def Shows (v ct : Ct C) : Prop := ∀ id, v.lookup id = (ct.lookup id).map vis

theorem Shows.mem {v ct : Ct C} (S : Shows v ct) {id : String} : id ∈ v ↔ id ∈ ct := by
  rw [← AList.lookup_isSome, ← AList.lookup_isSome, S id, Option.isSome_map]

theorem Shows.ids {v ct : Ct C} (S : Shows v ct) : v.ids = ct.ids := by
  ext id; rw [Ct.mem_ids, Ct.mem_ids, S.mem]

theorem Shows.get {v ct : Ct C} (S : Shows v ct) {id : String} {P : Poly C} (e : v.lookup id = some P) : ∃ Q, ct.lookup id = some Q ∧ P = vis Q := by
  rw [S id] at e
  obtain ⟨Q, a, b⟩ := Option.map_eq_some_iff.mp e
  exact ⟨Q, a, b.symm⟩

theorem Shows.atLevel {v ct : Ct C} (S : Shows v ct) {level : ℕ} (H : ct.AtLevel level) : v.AtLevel level := by
  refine ⟨S.mem.mpr H.has0, fun id P hP => ?_, fun id P hP => ?_⟩
  · obtain ⟨Q, a, rfl⟩ := S.get hP; exact H.len id Q a
  · obtain ⟨Q, a, rfl⟩ := S.get hP; exact H.coeff id Q a

theorem Shows.comp {v ct : Ct C} (S : Shows v ct) {level : ℕ} (H : ct.AtLevel level) (id : String) {i : ℕ} (hi : i ≤ level) :
    v.comp id i = ct.comp id i := by
  unfold Ct.comp
  rw [S id]
  cases e : ct.lookup id with
  | none => rfl
  | some Q =>
    have l := H.len id Q e
    have c := H.coeff id Q e
    show (vis Q).coeffs i = Q.coeffs i
    unfold Poly.coeffs
    have c' : (vis Q).isNTT = false := c
    rw [c, c']
    show (if i < Q.len then Q.rows i else Limb.zero) = Q.rows i
    rw [if_pos (by omega)]

theorem Shows.phase {v ct : Ct C} (S : Shows v ct) {level : ℕ} (H : ct.AtLevel level) (s : String → Nega N ℤ) {i : ℕ} (hi : i ≤ level) :
    v.phase s i = ct.phase s i := by
  unfold Ct.phase
  rw [S.ids, S.comp H "0" hi]
  congr 1
  exact Finset.sum_congr rfl fun id _ => by rw [S.comp H id hi]

theorem vis_view (h : Heap N) (p : ℕ) : vis (h.view C p) = h.view C p := by
  unfold vis cut
  unfold view
  congr 1
  funext i
  dsimp only
  split_ifs <;> rfl

/-- what the heap holds has nothing beyond the lengths -/
theorem rep_shows (R : Rep h out ct) : Shows (value C h out) ct := by
  intro id
  rw [value_lookup, R.eq]
  cases (h.ct out).lookup id with
  | none => rfl
  | some p => show some _ = some _; rw [vis_view]

/-! ## rescaling in place -/

/-- the receiver holds what can be seen of `ct` -/
def SimV (h0 : Heap N) (out : ℕ) (h : Heap N) (ct : Ct C) : Prop := ∃ v, Sim h0 out h v ∧ Shows v ct

theorem SimV.shows (S : SimV h0 out h ct) : Shows (value C h out) ct := by
  obtain ⟨v, a, b⟩ := S
  intro id
  rw [← b id, value_lookup, a.rep.eq]

theorem sim_simV (S : Sim h0 out h ct) : SimV h0 out h ct := by
  refine ⟨value C h out, S.same fun id => ?_, rep_shows S.rep⟩
  rw [value_lookup, S.rep.eq]

theorem SimV.trans {h1 : Heap N} {ct' : Ct C} (S : Sim h0 out h1 ct) (T : SimV h1 out h ct') : SimV h0 out h ct' := by
  obtain ⟨v, a, b⟩ := T
  exact ⟨v, S.trans a, b⟩

/-- the loop of `Rescale` -/
theorem rescaleLoop_sim {level nb : ℕ} (hnb : 0 < nb) (l : List String) : ∀ {h : Heap N} {ct r : Ct C}, SimV h0 out h ct →
    Go.loop (fun (ct : Ct C) id => do
          let a ← (if true = true then ct else ct).deref id
          let b ← ct.deref id
          a.need level
          if b.len < level + 1 - nb then .error .indexOutOfRange
          else .ok (ct.insert id { b with len := level + 1 - nb, rows := setQ (level - nb) (divRoundMany level nb a.rows) b.rows })) ct l = .ok r →
    ∃ h', Go.loop (rescaleStep C level nb out out) h l = .ok h' ∧ SimV h0 out h' r := by
  induction l with
  | nil => intro h ct r S e; cases e; exact ⟨h, rfl, S⟩
  | cons id l ih =>
    intro h ct r S e
    rw [Go.loop_cons] at e
    split at e
    · rename_i r1 e1
      obtain ⟨a, d1, e1⟩ := Go.bind_ok e1
      obtain ⟨b, d2, e1⟩ := Go.bind_ok e1
      obtain ⟨_, d3, e1⟩ := Go.bind_ok e1
      split at e1
      · cases e1
      · rename_i hlen
        cases e1
        rw [if_pos rfl] at d1
        rw [d1] at d2
        injection d2 with d2
        subst d2
        have hl := need_lt d3
        obtain ⟨v, S, Sh⟩ := S
        have hva : v.lookup id = some (vis a) := by rw [Sh id, GoMap.deref_some d1]; rfl
        obtain ⟨p, hp, lp, vp⟩ := S.rep.get hva
        have hpl : h.len p = a.len := by
          have := congrArg Poly.len vp
          exact this
        obtain ⟨h1, f1, T⟩ := rescaleStep_run (C := C) S.rep.wf (level := level) (nb := nb) hp hp lp lp (by omega) (by omega) hnb
        have S1 := S.step hp T
        obtain ⟨h', g1, g2⟩ := ih (h := h1) ⟨_, S1, fun id' => by
          rw [GoMap.lookup_insert', GoMap.lookup_insert']
          split_ifs with hid
          · show some _ = some _
            congr 1
            rw [vp]
            unfold vis cut
            dsimp only
            congr 1
            funext i
            split_ifs with hi
            · refine Eq.trans ?_ (setQ_le _ _ (show i ≤ level - nb by omega)).symm
              exact divRoundMany_congr nb level (fun j hj => by show (if j < a.len then _ else _) = _; rw [if_pos (by omega)]) i (by omega)
            · rfl
          · exact Sh id'⟩ e
        exact ⟨h', by rw [Go.loop_cons, f1]; exact g1, g2⟩
    · cases e

/-- `Rescale(ct, minScale, ct)` -/
theorem rescale_sim (R : Rep h out ct) {s ms : ℚ} {o o' : Order String} (ho : o' = o.via (h.ct out).keys) {r : Option String × CCt C}
    (e : MKHE.rescale o' ⟨ct, s⟩ ms ⟨ct, s⟩ true = .ok r) :
    ∃ h', Heap.rescale C o h ⟨out, s⟩ ms ⟨out, s⟩ true = .ok ((r.1, ⟨out, r.2.scale⟩), h') ∧ SimV h out h' r.2.ct := by
  have T := sim_simV (Sim.start R)
  unfold MKHE.rescale at e
  unfold Heap.rescale
  dsimp only at e ⊢
  split at e
  · rename_i hm; cases e; exact ⟨h, if_pos hm, T⟩
  · rename_i hm
    rw [if_neg hm]
    split at e
    · rename_i hs; cases e; exact ⟨h, if_pos hs, T⟩
    · rename_i hs
      rw [if_neg hs]
      obtain ⟨level, e1, e⟩ := Go.bind_ok e
      rw [level_of R e1, bind_ok]
      split at e
      · rename_i hl; cases e; exact ⟨h, if_pos hl, T⟩
      · rename_i hl
        rw [if_neg hl]
        obtain ⟨w, e2, e⟩ := Go.bind_ok e
        rw [e2, bind_ok]
        split at e
        · rename_i hw
          rw [if_pos hw]
          obtain ⟨c, e3, e⟩ := Go.bind_ok e
          cases e
          rw [ho, R.range_via] at e3
          obtain ⟨h', f1, f2⟩ := rescaleLoop_sim hw _ T e3
          exact ⟨h', by rw [f1, bind_ok], f2⟩
        · rename_i hw
          rw [if_neg hw]
          rw [if_pos rfl] at e ⊢
          cases e
          exact ⟨h, rfl, T⟩

end Heap
end MKHE
