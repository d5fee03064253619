import Verif.Lemmas.Rename

set_option autoImplicit false

/-!
# C73: party identifiers are only labels (operations on ciphertexts)

Each function, called on renamed arguments, returns the renamed result; if it panics, it panics in the same way on renamed arguments.
No hypothesis is made on the arguments.
-/

namespace MKHE.C73

variable {N : ℕ} [NeZero N] {C : Ctx N} (π : Renaming)

/-- renaming the map of a pair -/
abbrev rp {β γ : Type} (w : GoMap String β × γ) : GoMap String β × γ := (w.1.rn π, w.2)

/-! ## IDSet -/

theorem has (s : IDSet) (v : String) : (s.ren π).has (π v) = s.has v := by
  unfold IDSet.has IDSet.ren; dsimp only; rw [GoMap.lookup_rn]

theorem add (s : IDSet) (v : String) : (s.ren π).add (π v) = (s.add v).map (IDSet.ren π) := by
  unfold IDSet.add
  by_cases h : v = "0"
  · rw [if_pos h, if_pos (π.eq_zero.2 h)]; rfl
  · rw [if_neg h, if_neg (fun h' => h (π.eq_zero.1 h'))]
    show Except.ok _ = Except.ok _
    unfold IDSet.ren; rw [GoMap.insert_rn]

theorem remove (s : IDSet) (v : String) : (s.ren π).remove (π v) = (s.remove v).ren π := by
  unfold IDSet.remove IDSet.ren; rw [GoMap.erase_rn]

theorem size (s : IDSet) : (s.ren π).size = s.size := by
  unfold IDSet.size IDSet.ren; rw [GoMap.keys_rn, List.length_map]

theorem idset_copyNew (o : Order String) (s : IDSet) : IDSet.copyNew (o.ren π) (s.ren π) = (IDSet.copyNew o s).map (IDSet.ren π) := by
  unfold IDSet.copyNew
  show Go.loop _ (IDSet.ren π IDSet.new) (GoMap.range _ (s.value.rn π)) = _
  rw [GoMap.range_rn]
  exact Go.loop_ren π _ _ fun s id => add π s id

theorem intersection (o : Order String) (s t : IDSet) : IDSet.intersection (o.ren π) (s.ren π) (t.ren π) = (IDSet.intersection o s t).map (IDSet.ren π) := by
  unfold IDSet.intersection
  show Go.loop _ (IDSet.ren π IDSet.new) (GoMap.range _ (t.value.rn π)) = _
  rw [GoMap.range_rn]
  refine Go.loop_ren π _ _ fun r id => ?_
  rw [has]
  exact Go.ite_ren (add π r id) rfl

theorem union (o o' : Order String) (s t : IDSet) : IDSet.union (o.ren π) (o'.ren π) (s.ren π) (t.ren π) = (IDSet.union o o' s t).map (IDSet.ren π) := by
  have key : ∀ (o : Order String) (r s : IDSet), Go.loop (fun (res : IDSet) v => res.add v) (r.ren π) (GoMap.range (o.ren π) (s.value.rn π))
      = (Go.loop (fun (res : IDSet) v => res.add v) r (GoMap.range o s.value)).map (IDSet.ren π) := fun o r s => by
    rw [GoMap.range_rn]
    exact Go.loop_ren π _ _ fun s id => add π s id
  unfold IDSet.union
  rw [show Go.loop (fun (res : IDSet) v => res.add v) IDSet.new (GoMap.range (o.ren π) (s.ren π).value) = _ from key o IDSet.new s]
  cases Go.loop (fun (res : IDSet) v => res.add v) IDSet.new (GoMap.range o s.value) with
  | ok r => exact key o' r t
  | error e => rfl

theorem ofCiphertext {β : Type} (o : Order String) (m : GoMap String β) : IDSet.ofCiphertext (o.ren π) (m.rn π) = (IDSet.ofCiphertext o m).map (IDSet.ren π) := by
  unfold IDSet.ofCiphertext
  show Go.loop _ (IDSet.ren π IDSet.new) _ = _
  rw [GoMap.range_rn]
  refine Go.loop_ren π _ _ fun r id => ?_
  have : (π id ≠ "0") = (id ≠ "0") := by rw [ne_eq, π.eq_zero]
  simp only [this]
  exact Go.ite_ren (add π r id) rfl

/-! ## ciphertexts -/

theorem level (ct : Ct C) : Ct.level (ct.rn π) = ct.level := by
  unfold Ct.level; rw [GoMap.deref_rn0]

theorem new (o : Order String) (s : IDSet) (l : ℕ) : (Ct.new (o.ren π) (s.ren π) l : Ct C) = (Ct.new o s l).rn π := by
  unfold Ct.new
  have e : (AList.insert "0" (Poly.new l) ∅ : Ct C) = GoMap.rn π (AList.insert "0" (Poly.new l) ∅) := (GoMap.insert_rn0 π ∅ _).symm
  refine (congrArg (fun x => List.foldl _ x _) e).trans ?_
  show List.foldl _ _ (GoMap.range _ (s.value.rn π)) = _
  rw [GoMap.range_rn]
  refine foldl_ren π _ _ fun ct id => ?_
  exact (GoMap.insert_rn π ct id _).symm

theorem copyNew (o : Order String) (ct : Ct C) : Ct.copyNew (o.ren π) (ct.rn π) = (Ct.copyNew o ct).map (GoMap.rn π) := by
  unfold Ct.copyNew
  refine Go.bind_eq' (GoMap.deref_rn0 π ct) fun p => ?_
  have e : (AList.insert "0" p ∅ : Ct C) = GoMap.rn π (AList.insert "0" p ∅) := (GoMap.insert_rn0 π ∅ _).symm
  rw [GoMap.range_rn]
  refine (congrArg (fun x => Go.loop _ x _) e).trans ?_
  refine Go.loop_ren π _ _ fun out id => ?_
  refine Go.bind_eq' (GoMap.deref_rn π ct id) fun p => ?_
  exact congrArg Except.ok (GoMap.insert_rn π out id p).symm

theorem copyFrom (o : Order String) (dst src : Ct C) : Ct.copyFrom (o.ren π) (dst.rn π) (src.rn π) = (Ct.copyFrom o dst src).map (GoMap.rn π) := by
  unfold Ct.copyFrom
  rw [GoMap.range_rn]
  refine Go.loop_ren π _ _ fun out id => ?_
  refine Go.bind_eq' (GoMap.deref_rn π out id) fun p => Go.bind_eq' (GoMap.deref_rn π src id) fun q => ?_
  exact congrArg Except.ok (GoMap.insert_rn π out id _).symm

theorem pad (o o' : Order String) (ct : Ct C) (s : IDSet) : Ct.pad (o.ren π) (o'.ren π) (ct.rn π) (s.ren π) = (Ct.pad o o' ct s).map (GoMap.rn π) := by
  unfold Ct.pad
  refine Go.bind_eq' (GoMap.deref_rn0 π ct) fun p => Go.bind_ren (ofCiphertext π o ct) fun old => ?_
  refine congrArg Except.ok ?_
  show List.foldl _ _ (GoMap.range _ (s.value.rn π)) = _
  rw [GoMap.range_rn]
  refine foldl_ren π _ _ fun ct id => ?_
  dsimp only
  rw [has]
  split_ifs
  · rfl
  · exact (GoMap.insert_rn π ct id _).symm

theorem upd (l : ℕ) (id : String) (f : QRows C → QRows C) (ct : Ct C) : Ct.upd l (π id) f (ct.rn π) = (Ct.upd l id f ct).map (GoMap.rn π) := by
  unfold Ct.upd
  refine Go.bind_eq' (GoMap.deref_rn π ct id) fun p => Go.bind_eq' rfl fun _ => ?_
  exact congrArg Except.ok (GoMap.insert_rn π ct id _).symm

theorem upd0 (l : ℕ) (f : QRows C → QRows C) (ct : Ct C) : Ct.upd l "0" f (ct.rn π) = (Ct.upd l "0" f ct).map (GoMap.rn π) := by
  have := upd π l "0" f ct; rwa [π.zero] at this

theorem ok_insert {β γ : Type} (m : GoMap String β) (id : String) (v : β) (x : γ) :
    (Except.ok ((m.rn π).insert (π id) v, x) : Go _) = Except.map (rp π) (Except.ok (m.insert id v, x)) :=
  congrArg (fun m => Except.ok (m, x)) (GoMap.insert_rn π m id v).symm

/-! ## keys of the relinearization key set -/

theorem rlk_deref (s : RlkMap C) (id : String) : (RlkMap.ren π s).value.deref (π id) = (s.value.deref id).map (Rlk.ren π) := GoMap.deref_ren _ _ _ _

/-! ## multiplication -/

/-- an optional hoisted form -/
def hren (h : Option (HoistedCt C)) : Option (HoistedCt C) := h.map (GoMap.rn π)

theorem digitsOf (S : Scratch C) (l : ℕ) (op : Ct C) (h : Option (HoistedCt C)) (id : String) :
    MKHE.digitsOf S l (op.rn π) (hren π h) (π id) = MKHE.digitsOf S l op h id := by
  cases h with
  | none => show (GoMap.deref _ _ >>= _) = _; rw [GoMap.deref_rn]; rfl
  | some h => show (GoMap.deref _ _ >>= _) = _; rw [GoMap.deref_rn]; rfl

theorem genVec (S : Scratch C) (l : ℕ) (op : Ct C) (h : Option (HoistedCt C)) (rlk : RlkMap C) (sel : Rlk C → Swk C) (hsel : ∀ k, sel (k.ren π) = sel k)
    (ids : List String) (x : Swk C) :
    MKHE.genVec S l (op.rn π) (hren π h) (RlkMap.ren π rlk) sel (ids.map π) x = MKHE.genVec S l op h rlk sel ids x := by
  unfold MKHE.genVec
  refine Go.bind_ren_same (r := fun a => a) ?_ fun a => rfl
  refine Go.loop_ren (r := fun a => a) π ids (x, S) fun st id => ?_
  refine Go.bind_eq' (digitsOf π st.2 l op h id) fun w => Go.bind_ren (rlk_deref π rlk id) fun k => Go.bind_eq' ?_ fun x => rfl
  rw [hsel]

theorem tensor (o : Sched String) (S : Scratch C) (l : ℕ) (op0 op1 : Ct C) (ids0 ids1 : IDSet) (out : Ct C) :
    MKHE.tensor (Sched.ren π o) S l (op0.rn π) (op1.rn π) (ids0.ren π) (ids1.ren π) (out.rn π)
      = (MKHE.tensor o S l op0 op1 ids0 ids1 out).map fun w => (w.1.rn π, w.2) := by
  unfold MKHE.tensor
  refine Go.bind_eq' (GoMap.deref_rn0 π op0) fun a0 => Go.bind_eq' rfl fun _ => Go.bind_eq' (GoMap.deref_rn0 π op1) fun a1 => Go.bind_eq' rfl fun _ => ?_
  refine Go.bind_ren (upd0 π l _ out) fun out => Go.bind_ren (r := rp π) ?_ fun w => Go.bind_ren (r := rp π) ?_ fun w => ?_
  · show Go.loop _ _ (GoMap.range ((o 0).ren π) (ids0.value.rn π)) = _
    rw [GoMap.range_rn]
    refine Go.loop_ren π (r := rp π) _ (out, _) fun st id => ?_
    refine Go.bind_eq' (GoMap.deref_rn π op0 id) fun a => Go.bind_eq' rfl fun _ => ?_
    exact Go.bind_ren (upd π l id _ st.1) fun _ => rfl
  · show Go.loop _ _ (GoMap.range ((o 1).ren π) (ids1.value.rn π)) = _
    rw [GoMap.range_rn]
    refine Go.loop_ren π (r := rp π) _ w fun st id => ?_
    refine Go.bind_eq' (GoMap.deref_rn π op1 id) fun a => Go.bind_eq' rfl fun _ => ?_
    rw [has]
    exact Go.bind_ren (upd π l id _ st.1) fun _ => rfl
  · refine Go.bind_ren (r := GoMap.rn π) ?_ fun _ => rfl
    show Go.loop _ _ (GoMap.range ((o 2).ren π) (w.1.rn π)) = _
    rw [GoMap.range_rn]
    exact Go.loop_ren π _ _ fun st id => upd π l id _ st

theorem extInto0 (S : Scratch C) (l : ℕ) (op : Ct C) (h : Option (HoistedCt C)) (id : String) (bg : Swk C) :
    MKHE.extInto0 S l (op.rn π) (hren π h) (π id) bg = MKHE.extInto0 S l op h id bg := by
  cases h with
  | none => show (GoMap.deref _ _ >>= _) = _; rw [GoMap.deref_rn]; rfl
  | some h => show (GoMap.deref _ _ >>= _) = _; rw [GoMap.deref_rn]; rfl

theorem addX (o : Sched String) (S : Scratch C) (l : ℕ) (op1 : Ct C) (h1 : Option (HoistedCt C)) (ids1 : IDSet) (x : Swk C) (out : Ct C) :
    MKHE.addX (Sched.ren π o) S l (op1.rn π) (hren π h1) (ids1.ren π) x (out.rn π)
      = (MKHE.addX o S l op1 h1 ids1 x out).map fun w => (w.1.rn π, w.2) := by
  unfold MKHE.addX
  show Go.loop _ _ (GoMap.range ((o 3).ren π) (ids1.value.rn π)) = _
  rw [GoMap.range_rn]
  refine Go.loop_ren π (r := rp π) _ (out, S) fun st id => ?_
  refine Go.bind_eq' (extInto0 π st.2 l op1 h1 id x) fun S => ?_
  exact Go.bind_ren (upd π l id _ st.1) fun _ => rfl

theorem mulChecks (op0 out : Ct C) : MKHE.mulChecks (op0.rn π) (out.rn π) = MKHE.mulChecks op0 out := by
  unfold MKHE.mulChecks; rw [level, level]

/-- `MulAndRelin` -/
theorem mulAndRelin (crs : GoMap ℤ (Swk C)) (o : Sched String) (S : Scratch C) (op0 op1 : Ct C) (rlk : RlkMap C) (out : Ct C) :
    MKHE.mulAndRelin crs (Sched.ren π o) S (op0.rn π) (op1.rn π) (RlkMap.ren π rlk) (out.rn π)
      = (MKHE.mulAndRelin crs o S op0 op1 rlk out).map fun w => (w.1.rn π, w.2) := by
  unfold MKHE.mulAndRelin
  refine Go.bind_eq' (mulChecks π op0 out) fun l => Go.bind_ren (ofCiphertext π (o 10) op0) fun ids0 => Go.bind_ren (ofCiphertext π (o 11) op1) fun ids1 => ?_
  refine Go.bind_eq' rfl fun x => Go.bind_eq' rfl fun y => Go.bind_eq' ?_ fun x => Go.bind_eq' ?_ fun y => ?_
  · show MKHE.genVec _ _ _ (hren π none) _ _ (GoMap.range ((o 12).ren π) (ids0.value.rn π)) _ = _
    rw [GoMap.range_rn]
    exact genVec π S l op0 none rlk Rlk.d (fun _ => rfl) _ x
  · show MKHE.genVec _ _ _ (hren π none) _ _ (GoMap.range ((o 13).ren π) (ids1.value.rn π)) _ = _
    rw [GoMap.range_rn]
    exact genVec π _ l op1 none rlk Rlk.b (fun _ => rfl) _ y
  refine Go.bind_ren (tensor π o _ l op0 op1 ids0 ids1 out) fun w => Go.bind_ren (addX π o _ l op1 none ids1 _ w.1) fun w => ?_
  show Go.loop _ _ (GoMap.range ((o 4).ren π) (ids0.value.rn π)) = _
  rw [GoMap.range_rn]
  refine Go.loop_ren π (r := rp π) _ w fun st id => ?_
  refine Go.bind_ren (rlk_deref π rlk id) fun k => ?_
  refine Go.bind_eq' (extInto0 π st.2 l op0 none id _) fun S => Go.bind_eq' rfl fun r => Go.bind_ren (upd0 π l _ st.1) fun out => ?_
  cases crs.lookup (-1) with
  | none => rfl
  | some u =>
  refine Go.bind_eq' rfl fun u => Go.bind_eq' rfl fun r => ?_
  exact Go.bind_ren (upd π l id _ out) fun _ => rfl

/-- `MulAndRelinHoisted` -/
theorem mulAndRelinHoisted (crs : GoMap ℤ (Swk C)) (o : Sched String) (S : Scratch C) (op0 op1 : Ct C) (h0 h1 : Option (HoistedCt C)) (rlk : RlkMap C)
    (out : Ct C) : MKHE.mulAndRelinHoisted crs (Sched.ren π o) S (op0.rn π) (op1.rn π) (hren π h0) (hren π h1) (RlkMap.ren π rlk) (out.rn π)
      = (MKHE.mulAndRelinHoisted crs o S op0 op1 h0 h1 rlk out).map fun w => (w.1.rn π, w.2) := by
  unfold MKHE.mulAndRelinHoisted
  refine Go.bind_eq' (mulChecks π op0 out) fun l => Go.bind_ren (ofCiphertext π (o 10) op0) fun ids0 => Go.bind_ren (ofCiphertext π (o 11) op1) fun ids1 => ?_
  refine Go.bind_eq' rfl fun x => Go.bind_eq' rfl fun y => Go.bind_eq' ?_ fun x => Go.bind_eq' ?_ fun y => ?_
  · show MKHE.genVec _ _ _ _ _ _ (GoMap.range ((o 12).ren π) (ids0.value.rn π)) _ = _
    rw [GoMap.range_rn]
    exact genVec π S l op0 h0 rlk Rlk.d (fun _ => rfl) _ x
  · show MKHE.genVec _ _ _ _ _ _ (GoMap.range ((o 13).ren π) (ids1.value.rn π)) _ = _
    rw [GoMap.range_rn]
    exact genVec π _ l op1 h1 rlk Rlk.b (fun _ => rfl) _ y
  refine Go.bind_ren (tensor π o _ l op0 op1 ids0 ids1 out) fun w => Go.bind_ren (addX π o _ l op1 h1 ids1 _ w.1) fun w => ?_
  show Go.loop _ _ (GoMap.range ((o 4).ren π) (ids0.value.rn π)) = _
  rw [GoMap.range_rn]
  refine Go.loop_ren π (r := rp π) _ w fun st id => ?_
  refine Go.bind_ren (rlk_deref π rlk id) fun k => ?_
  refine Go.bind_eq' (extInto0 π st.2 l op0 h0 id _) fun S => Go.bind_eq' rfl fun d => Go.bind_eq' rfl fun r => Go.bind_ren (upd0 π l _ st.1) fun out => ?_
  cases crs.lookup (-1) with
  | none => rfl
  | some u =>
  refine Go.bind_eq' rfl fun u => Go.bind_eq' rfl fun r => ?_
  exact Go.bind_ren (upd π l id _ out) fun _ => rfl

/-! ## rotation and conjugation -/

theorem rks_get (s : RotKeySet (GalKey C)) (id : String) (r : ℕ) : (s.ren π).get (π id) r = (s.get id r).map (GalKey.ren π) := by
  unfold RotKeySet.get RotKeySet.ren
  dsimp only
  rw [GoMap.lookup_ren]
  cases s.value.lookup id with
  | none => rfl
  | some m =>
    dsimp only [Option.map_some]
    have := GoMap.lookup_ren (Equiv.refl ℕ) (GalKey.ren π) m r
    rw [Equiv.refl_apply] at this
    rw [this]
    cases m.lookup r <;> rfl

theorem ks_get {K : Type} (g : K → K) (msg : String) (s : KeySet K) (id : String) : (s.ren π g).get msg (π id) = (s.get msg id).map g := by
  unfold KeySet.get KeySet.ren
  dsimp only
  rw [GoMap.lookup_ren]
  cases s.value.lookup id <;> rfl

theorem extProd (S : Scratch C) (l : ℕ) (op : Ct C) (h : Option (HoistedCt C)) (id : String) (bg : Swk C) (c : QRows C) :
    MKHE.extProd S l (op.rn π) (hren π h) (π id) bg c = MKHE.extProd S l op h id bg c := by
  cases h with
  | none => show (GoMap.deref _ _ >>= _) = _; rw [GoMap.deref_rn]; rfl
  | some h => show (GoMap.deref _ _ >>= _) = _; rw [GoMap.deref_rn]; rfl

/-- `Rotate` and `RotateHoisted` -/
theorem rotateWith (crs : GoMap ℤ (Swk C)) (o : Sched String) (S : Scratch C) (ct : Ct C) (r : ℤ) (h : Option (HoistedCt C)) (rks : RotKeySet (GalKey C))
    (out : Ct C) : MKHE.rotateWith crs (Sched.ren π o) S (ct.rn π) r (hren π h) (rks.ren π) (out.rn π)
      = (MKHE.rotateWith crs o S ct r h rks out).map fun w => (w.1.rn π, w.2) := by
  unfold MKHE.rotateWith
  refine Go.bind_eq' (level π out) fun l => Go.bind_ren (ofCiphertext π (o 20) ct) fun ids => Go.bind_eq' (level π ct) fun l' => Go.ite_ren rfl ?_
  refine Go.bind_eq' (GoMap.deref_rn0 π ct) fun c0 => Go.bind_eq' (GoMap.deref_rn0 π out) fun p0 => Go.bind_ren (r := rp π) ?_ fun st => ?_
  · rw [← GoMap.insert_rn0]
    show Go.loop _ _ (GoMap.range ((o 21).ren π) (ids.value.rn π)) = _
    rw [GoMap.range_rn]
    refine Go.loop_ren π (r := rp π) _ (_, S) fun st id => ?_
    unfold rotateStep
    refine Go.bind_ren (rks_get π rks id _) fun rk => Go.bind_eq' (extProd π st.2 l ct h id _ _) fun w => Go.bind_ren (upd0 π l _ st.1) fun out => ?_
    refine Go.bind_eq' rfl fun a => Go.bind_eq' (GoMap.deref_rn π out id) fun p => Go.bind_eq' rfl fun _ => Go.bind_eq' (extProd π _ l ct h id _ _) fun w => ?_
    exact ok_insert π _ id _ _
  · show permuteAll _ _ _ (GoMap.range ((o 22).ren π) (ct.rn π)) _ = _
    rw [GoMap.range_rn]
    unfold permuteAll
    refine Go.loop_ren π (r := rp π) _ st fun st id => ?_
    refine Go.bind_eq' (GoMap.deref_rn π st.1 id) fun p => Go.bind_eq' rfl fun _ => ?_
    exact ok_insert π _ id _ _

theorem rotate (crs : GoMap ℤ (Swk C)) (o : Sched String) (S : Scratch C) (ct : Ct C) (r : ℤ) (rks : RotKeySet (GalKey C)) (out : Ct C) :
    MKHE.rotate crs (Sched.ren π o) S (ct.rn π) r (rks.ren π) (out.rn π) = (MKHE.rotate crs o S ct r rks out).map fun w => (w.1.rn π, w.2) :=
  rotateWith π crs o S ct r none rks out

theorem rotateHoisted (crs : GoMap ℤ (Swk C)) (o : Sched String) (S : Scratch C) (ct : Ct C) (r : ℤ) (h : HoistedCt C) (rks : RotKeySet (GalKey C))
    (out : Ct C) : MKHE.rotateHoisted crs (Sched.ren π o) S (ct.rn π) r (h.rn π) (rks.ren π) (out.rn π)
      = (MKHE.rotateHoisted crs o S ct r h rks out).map fun w => (w.1.rn π, w.2) :=
  rotateWith π crs o S ct r (some h) rks out

theorem conjugate (pl : ℕ) (crs : GoMap ℤ (Swk C)) (o : Sched String) (S : Scratch C) (ct : Ct C) (cks : KeySet (GalKey C)) (out : Ct C) :
    MKHE.conjugate pl crs (Sched.ren π o) S (ct.rn π) (cks.ren π (GalKey.ren π)) (out.rn π)
      = (MKHE.conjugate pl crs o S ct cks out).map fun w => (w.1.rn π, w.2) := by
  unfold MKHE.conjugate
  refine Go.bind_eq' (level π out) fun l => Go.bind_ren (ofCiphertext π (o 30) ct) fun ids => Go.bind_eq' (level π ct) fun l' => Go.ite_ren rfl ?_
  refine Go.bind_ren (r := GoMap.rn π) ?_ fun out => Go.bind_ren (r := rp π) ?_ fun st => ?_
  · show Go.loop _ _ (GoMap.range ((o 31).ren π) (ct.rn π)) = _
    rw [GoMap.range_rn]
    refine Go.loop_ren π _ _ fun out id => ?_
    refine Go.bind_eq' (GoMap.deref_rn π ct id) fun a => Go.bind_eq' (GoMap.deref_rn π out id) fun b => Go.bind_eq' rfl fun b => ?_
    exact congrArg Except.ok (GoMap.insert_rn π out id _).symm
  · show Go.loop _ _ (GoMap.range ((o 32).ren π) (ids.value.rn π)) = _
    rw [GoMap.range_rn]
    refine Go.loop_ren π (r := rp π) _ (out, S) fun st id => ?_
    unfold conjStep0
    refine Go.bind_ren (ks_get π _ _ cks id) fun ck => Go.bind_eq' (GoMap.deref_rn π st.1 id) fun b => Go.bind_eq' rfl fun w => ?_
    exact Go.bind_ren (upd0 π l _ st.1) fun _ => rfl
  · show Go.loop _ _ (GoMap.range ((o 33).ren π) (ids.value.rn π)) = _
    rw [GoMap.range_rn]
    refine Go.loop_ren π (r := rp π) _ st fun st id => ?_
    unfold conjStep1
    refine Go.bind_eq' (GoMap.deref_rn π st.1 id) fun b => Go.bind_eq' rfl fun a => Go.bind_eq' rfl fun w => ?_
    exact ok_insert π _ id _ _

end MKHE.C73
