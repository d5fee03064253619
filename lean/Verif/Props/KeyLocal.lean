import Verif.Model.Bfv
import Verif.Model.BfvMul
import Verif.Model.Crypt
import Verif.Props.Crypt
import Verif.Props.KeySets
import Verif.Lemmas.Heap

set_option autoImplicit false

/-!
# C64: only the keys of the participants matter

A key set holds keys of many parties. Multiplication, rotation, conjugation and decryption look at a key set only at the ids of
their operands: two key sets that agree on these ids give the same outcome — the same ciphertext, the same panic, the same scratch
contents. So adding, replacing or deleting the keys of a party that takes no part in a computation cannot change it, for every
operand, level, iteration order and state of the evaluator.

No hypothesis is made about the operands or the keys: they may be malformed, and the computation may fail.
-/

namespace MKHE

/-- two runs with the same outcome: the same fault, or results related by `R` -/
def Go.Rel {α β : Type} (R : α → β → Prop) : Go α → Go β → Prop
  | .ok a, .ok b => R a b
  | .error e, .error e' => e = e'
  | _, _ => False

namespace Go.Rel
variable {α β γ δ : Type}

theorem refl {R : α → α → Prop} (h : ∀ a, R a a) (x : Go α) : Go.Rel R x x := by
  cases x with
  | ok a => exact h a
  | error e => rfl

theorem bind {R : α → β → Prop} {S : γ → δ → Prop} {x : Go α} {y : Go β} {f : α → Go γ} {g : β → Go δ} (h : Go.Rel R x y)
    (hf : ∀ a b, x = .ok a → y = .ok b → R a b → Go.Rel S (f a) (g b)) : Go.Rel S (x >>= f) (y >>= g) := by
  cases x with
  | ok a =>
    cases y with
    | ok b => exact hf a b rfl rfl h
    | error e => cases h
  | error e =>
    cases y with
    | ok b => cases h
    | error e' => exact h

theorem eq {x y : Go α} (h : Go.Rel (fun a b => a = b) x y) : x = y := by
  cases x with
  | ok a =>
    cases y with
    | ok b => exact congrArg _ h
    | error e => cases h
  | error e =>
    cases y with
    | ok b => cases h
    | error e' => exact congrArg _ h

theorem of_eq {x y : Go α} (h : x = y) : Go.Rel (fun a b => a = b) x y := h ▸ refl (fun _ => rfl) x

theorem loop {σ τ : Type} {ι : Type} {R : σ → τ → Prop} {f : σ → ι → Go σ} {g : τ → ι → Go τ} (l : List ι) {s : σ} {t : τ}
    (hs : R s t) (h : ∀ s t, R s t → ∀ a ∈ l, Go.Rel R (f s a) (g t a)) : Go.Rel R (Go.loop f s l) (Go.loop g t l) := by
  induction l generalizing s t with
  | nil => exact hs
  | cons a l ih =>
    rw [Go.loop_cons, Go.loop_cons]
    have := h s t hs a List.mem_cons_self
    cases hf : f s a with
    | ok s1 =>
      cases hg : g t a with
      | ok t1 =>
        rw [hf, hg] at this
        exact ih this fun s t r b hb => h s t r b (List.mem_cons_of_mem _ hb)
      | error e => rw [hf, hg] at this; cases this
    | error e =>
      cases hg : g t a with
      | ok t1 => rw [hf, hg] at this; cases this
      | error e' => rw [hf, hg] at this; exact this

end Go.Rel

theorem Go.bind_congr {α β : Type} (x : Go α) {f g : α → Go β} (h : ∀ a, x = .ok a → f a = g a) : (x >>= f) = (x >>= g) := by
  cases x with
  | ok a => exact h a rfl
  | error e => rfl

theorem Go.loop_congr_on {σ ι : Type} {f g : σ → ι → Go σ} (l : List ι) (s : σ) (h : ∀ s, ∀ a ∈ l, f s a = g s a) :
    Go.loop f s l = Go.loop g s l :=
  (Go.Rel.loop (R := fun a b => a = b) l rfl fun s t e a ha => by subst e; exact Go.Rel.of_eq (h s a ha)).eq

namespace GoMap
variable {κ β : Type} [DecidableEq κ]

theorem deref_congr {m m' : GoMap κ β} {k : κ} (h : m.lookup k = m'.lookup k) : m.deref k = m'.deref k := by
  unfold deref; rw [h]

theorem deref_mem {m : GoMap κ β} {k : κ} {v : β} (h : m.deref k = .ok v) : k ∈ m := by
  cases hl : m.lookup k with
  | none => rw [deref_none hl] at h; cases h
  | some v => exact mem_iff_lookup.mpr (by rw [hl]; rfl)

end GoMap

theorem ids_range {β : Type} {o : Order String} {ct : GoMap String β} {ids : IDSet} (h : IDSet.ofCiphertext o ct = .ok ids)
    (o' : Order String) {id : String} (hid : id ∈ GoMap.range o' ids.value) : id ∈ ct ∧ id ≠ "0" := by
  obtain ⟨ids', a1, a2⟩ := IDSet.ofCiphertext_spec o ct
  rw [a1] at h
  injection h with h
  subst h
  exact (a2 id).mp ((IDSet.mem_value_iff _ _).mp (GoMap.mem_range.mp hid))

end MKHE

namespace MKHE.C64
variable {N : ℕ} [NeZero N] {C : Ctx N} {B : BCtx N}

/-- the ids of the participants of an operand given as a map (`"0"` is the constant component) -/
def Parties {β : Type} (ct : GoMap String β) (id : String) : Prop := id ∈ ct ∧ id ≠ "0"

/-- two maps agree on the ids in `U` -/
def On (U : String → Prop) {β : Type} (m m' : GoMap String β) : Prop := ∀ id, U id → m.lookup id = m'.lookup id

theorem On.mono {U W : String → Prop} {β : Type} {m m' : GoMap String β} (h : On U m m') (hw : ∀ id, W id → U id) : On W m m' :=
  fun id hid => h id (hw id hid)

theorem On.insert {U : String → Prop} {β : Type} {m m' : GoMap String β} (h : On U m m') (k : String) (v : β) :
    On U (m.insert k v) (m'.insert k v) := fun id hid => by
  rw [GoMap.lookup_insert', GoMap.lookup_insert', h id hid]

/-- two optional hoisted forms agree -/
def HOn (U : String → Prop) : Option (HoistedCt C) → Option (HoistedCt C) → Prop
  | none, none => True
  | some h, some h' => On U h h'
  | _, _ => False

theorem HOn.refl (U : String → Prop) (h : Option (HoistedCt C)) : HOn U h h := by
  cases h with
  | none => trivial
  | some h => exact fun _ _ => rfl

theorem digitsOf_local {U : String → Prop} {h h' : Option (HoistedCt C)} (hh : HOn U h h') (S : Scratch C) (level : ℕ) (op : Ct C)
    {id : String} (hid : U id) : digitsOf S level op h id = digitsOf S level op h' id := by
  unfold digitsOf
  cases h with
  | none => cases h' with
    | none => rfl
    | some h' => cases hh
  | some h => cases h' with
    | none => cases hh
    | some h' => dsimp only; rw [GoMap.deref_congr (hh id hid)]

theorem extInto0_local {U : String → Prop} {h h' : Option (HoistedCt C)} (hh : HOn U h h') (S : Scratch C) (level : ℕ) (op : Ct C)
    {id : String} (hid : U id) (bg : Swk C) : extInto0 S level op h id bg = extInto0 S level op h' id bg := by
  unfold extInto0
  cases h with
  | none => cases h' with
    | none => rfl
    | some h' => cases hh
  | some h => cases h' with
    | none => cases hh
    | some h' => dsimp only; rw [GoMap.deref_congr (hh id hid)]

theorem extProd_local {U : String → Prop} {h h' : Option (HoistedCt C)} (hh : HOn U h h') (S : Scratch C) (level : ℕ) (op : Ct C)
    {id : String} (hid : U id) (bg : Swk C) (c : QRows C) : extProd S level op h id bg c = extProd S level op h' id bg c := by
  unfold extProd
  cases h with
  | none => cases h' with
    | none => rfl
    | some h' => cases hh
  | some h => cases h' with
    | none => cases hh
    | some h' => dsimp only; rw [GoMap.deref_congr (hh id hid)]

theorem genVec_local {U : String → Prop} {h h' : Option (HoistedCt C)} (hh : HOn U h h') {rlk rlk' : RlkMap C}
    (hr : On U rlk.value rlk'.value) (S : Scratch C) (level : ℕ) (op : Ct C) (sel : Rlk C → Swk C) {ids : List String}
    (hids : ∀ id ∈ ids, U id) (x : Swk C) : genVec S level op h rlk sel ids x = genVec S level op h' rlk' sel ids x := by
  unfold genVec
  rw [Go.loop_congr_on ids (x, S) (fun s id hid => by
    rw [digitsOf_local hh _ _ _ (hids id hid), GoMap.deref_congr (hr id (hids id hid))])]

theorem addX_local {U : String → Prop} {h h' : Option (HoistedCt C)} (hh : HOn U h h') (o : Sched String) (S : Scratch C) (level : ℕ)
    (op : Ct C) (ids : IDSet) (hids : ∀ id ∈ GoMap.range (o 3) ids.value, U id) (x : Swk C) (out : Ct C) :
    addX o S level op h ids x out = addX o S level op h' ids x out := by
  unfold addX
  exact Go.loop_congr_on _ _ fun s id hid => by rw [extInto0_local hh _ _ _ (hids id hid)]

/-! ## multiplication -/

/-- **`MulAndRelin` looks only at the relinearization keys of the operands' participants.** -/
theorem mulAndRelin_local (crs : GoMap ℤ (Swk C)) (o : Sched String) (S : Scratch C) (op0 op1 out : Ct C) {rlk rlk' : RlkMap C}
    (h : On (fun id => Parties op0 id ∨ Parties op1 id) rlk.value rlk'.value) :
    mulAndRelin crs o S op0 op1 rlk out = mulAndRelin crs o S op0 op1 rlk' out := by
  unfold mulAndRelin
  refine Go.bind_congr _ fun level _ => Go.bind_congr _ fun ids0 h0 => Go.bind_congr _ fun ids1 h1 => ?_
  have k0 : ∀ (o' : Order String), ∀ id ∈ GoMap.range o' ids0.value, Parties op0 id ∨ Parties op1 id :=
    fun o' id hid => Or.inl (ids_range h0 o' hid)
  have k1 : ∀ (o' : Order String), ∀ id ∈ GoMap.range o' ids1.value, Parties op0 id ∨ Parties op1 id :=
    fun o' id hid => Or.inr (ids_range h1 o' hid)
  refine Go.bind_congr _ fun x _ => Go.bind_congr _ fun y _ => ?_
  rw [genVec_local (HOn.refl _ none) h _ _ _ _ (k0 _)]
  refine Go.bind_congr _ fun xS _ => ?_
  dsimp only
  rw [genVec_local (HOn.refl _ none) h _ _ _ _ (k1 _)]
  refine Go.bind_congr _ fun yS _ => Go.bind_congr _ fun w _ => Go.bind_congr _ fun w' _ => ?_
  exact Go.loop_congr_on _ _ fun s id hid => by rw [GoMap.deref_congr (h id (k0 _ id hid))]

/-- `MulAndRelinHoisted` looks only at the keys and hoisted components of the operands' participants. -/
theorem mulAndRelinHoisted_local (crs : GoMap ℤ (Swk C)) (o : Sched String) (S : Scratch C) (op0 op1 out : Ct C) {rlk rlk' : RlkMap C}
    (h : On (fun id => Parties op0 id ∨ Parties op1 id) rlk.value rlk'.value) {h0 h0' h1 h1' : Option (HoistedCt C)}
    (e0 : HOn (Parties op0) h0 h0') (e1 : HOn (Parties op1) h1 h1') :
    mulAndRelinHoisted crs o S op0 op1 h0 h1 rlk out = mulAndRelinHoisted crs o S op0 op1 h0' h1' rlk' out := by
  unfold mulAndRelinHoisted
  refine Go.bind_congr _ fun level _ => Go.bind_congr _ fun ids0 i0 => Go.bind_congr _ fun ids1 i1 => ?_
  have k0 : ∀ (o' : Order String), ∀ id ∈ GoMap.range o' ids0.value, Parties op0 id := fun o' id hid => ids_range i0 o' hid
  have k1 : ∀ (o' : Order String), ∀ id ∈ GoMap.range o' ids1.value, Parties op1 id := fun o' id hid => ids_range i1 o' hid
  refine Go.bind_congr _ fun x _ => Go.bind_congr _ fun y _ => ?_
  rw [genVec_local e0 (h.mono fun _ => Or.inl) _ _ _ _ (k0 _)]
  refine Go.bind_congr _ fun xS _ => ?_
  dsimp only
  rw [genVec_local e1 (h.mono fun _ => Or.inr) _ _ _ _ (k1 _)]
  refine Go.bind_congr _ fun yS _ => Go.bind_congr _ fun w _ => ?_
  rw [addX_local e1 _ _ _ _ _ (k1 _)]
  refine Go.bind_congr _ fun w' _ => ?_
  exact Go.loop_congr_on _ _ fun s id hid => by
    rw [GoMap.deref_congr (h id (Or.inl (k0 _ id hid))), extInto0_local e0 _ _ _ (k0 _ id hid)]

theorem ckksMulRelinHoisted_local (pscale : ℚ) (crs : GoMap ℤ (Swk C)) (o : Sched String) (E : Eval C) (op0 op1 out : CCt C)
    {rlk rlk' : RlkMap C} (h : On (fun id => Parties op0.ct id ∨ Parties op1.ct id) rlk.value rlk'.value)
    {h0 h0' h1 h1' : Option (HoistedCt C)} (e0 : HOn (Parties op0.ct) h0 h0') (e1 : HOn (Parties op1.ct) h1 h1') :
    ckksMulRelinHoisted pscale crs o E op0 op1 h0 h1 rlk out = ckksMulRelinHoisted pscale crs o E op0 op1 h0' h1' rlk' out := by
  unfold ckksMulRelinHoisted
  refine Go.bind_congr _ fun l0 _ => Go.bind_congr _ fun l1 _ => Go.bind_congr _ fun lo _ => ?_
  dsimp only
  split
  · refine Go.bind_congr _ fun ct _ => ?_
    rw [mulAndRelinHoisted_local crs o _ _ _ _ h e0 e1]
  · refine Go.bind_congr _ fun ct _ => ?_
    rw [mulAndRelinHoisted_local crs o _ _ _ _ h e0 e1]

/-- **`MulRelinHoistedNew`** -/
theorem ckksMulRelinHoistedNew_local (pscale : ℚ) (crs : GoMap ℤ (Swk C)) (o : Sched String) (E : Eval C) (op0 op1 : CCt C)
    {rlk rlk' : RlkMap C} (h : On (fun id => Parties op0.ct id ∨ Parties op1.ct id) rlk.value rlk'.value)
    {h0 h0' h1 h1' : Option (HoistedCt C)} (e0 : HOn (Parties op0.ct) h0 h0') (e1 : HOn (Parties op1.ct) h1 h1') :
    ckksMulRelinHoistedNew pscale crs o E op0 op1 h0 h1 rlk = ckksMulRelinHoistedNew pscale crs o E op0 op1 h0' h1' rlk' := by
  unfold ckksMulRelinHoistedNew
  exact Go.bind_congr _ fun out _ => ckksMulRelinHoisted_local pscale crs o E op0 op1 _ h e0 e1

/-- filling the pools: the same outcome, and the pools agree afterwards where they agreed before -/
theorem hoistInto_local {U : String → Prop} (o1 o2 : Order String) (S : Scratch C) (op : Ct C) (hU : ∀ id, Parties op id → U id)
    {pool pool' : HoistedCt C} (h : On U pool pool') :
    Go.Rel (fun w w' => On U w.1 w'.1 ∧ w.2 = w'.2) (hoistInto o1 o2 S op pool) (hoistInto o1 o2 S op pool') := by
  unfold hoistInto
  refine Go.Rel.bind (Go.Rel.of_eq rfl) fun ids ids' e1 _ e => ?_
  subst e
  refine Go.Rel.loop _ ⟨h, rfl⟩ fun s t r id hid => ?_
  refine Go.Rel.bind (Go.Rel.of_eq rfl) fun l l' _ _ e => ?_
  subst e
  refine Go.Rel.bind (Go.Rel.of_eq rfl) fun a a' _ _ e => ?_
  subst e
  have hd := GoMap.deref_congr (r.1 id (hU id (ids_range e1 _ hid)))
  refine Go.Rel.bind (Go.Rel.of_eq hd) fun ad ad' _ _ e => ?_
  subst e
  rw [r.2]
  refine Go.Rel.bind (Go.Rel.of_eq rfl) fun w w' _ _ e => ?_
  subst e
  exact ⟨r.1.insert _ _, rfl⟩

/-- **`MulRelinNew` (CKKS)**: if two key sets agree — keys and pools — at the participants of the operands, the outcome is the same,
and so are the resulting ciphertext and evaluator; the key sets keep agreeing there. -/
theorem ckksMulRelinNew_local (pscale : ℚ) (crs : GoMap ℤ (Swk C)) (o : Sched String) (E : Eval C) (same : Bool) (op0 op1 : CCt C)
    {rlk rlk' : RlkMap C} (h : On (fun id => Parties op0.ct id ∨ Parties op1.ct id) rlk.value rlk'.value)
    (p0 : On (fun id => Parties op0.ct id ∨ Parties op1.ct id) rlk.pool0 rlk'.pool0)
    (p1 : On (fun id => Parties op0.ct id ∨ Parties op1.ct id) rlk.pool1 rlk'.pool1) :
    Go.Rel (fun r r' => r.1 = r'.1 ∧ r.2.1 = r'.2.1 ∧ r.2.2.value = rlk.value ∧ r'.2.2.value = rlk'.value ∧
      On (fun id => Parties op0.ct id ∨ Parties op1.ct id) r.2.2.pool0 r'.2.2.pool0 ∧
      On (fun id => Parties op0.ct id ∨ Parties op1.ct id) r.2.2.pool1 r'.2.2.pool1)
      (ckksMulRelinNew pscale crs o E same op0 op1 rlk) (ckksMulRelinNew pscale crs o E same op0 op1 rlk') := by
  unfold ckksMulRelinNew
  cases same with
  | true =>
    rw [if_pos rfl, if_pos rfl]
    refine Go.Rel.bind (hoistInto_local (o 92) (o 93) E.ksw op0.ct (fun _ => Or.inl) p0) fun w w' _ _ r => ?_
    dsimp only
    rw [← r.2]
    refine Go.Rel.bind (Go.Rel.of_eq (ckksMulRelinHoistedNew_local pscale crs o _ op0 op1 (rlk' := { rlk' with pool0 := w'.1 }) h
      (show HOn _ (some w.1) (some w'.1) from r.1.mono fun _ => Or.inl)
      (show HOn _ (some w.1) (some w'.1) from r.1.mono fun _ => Or.inr))) fun a b _ _ e => ?_
    subst e
    exact ⟨rfl, rfl, rfl, rfl, r.1, p1⟩
  | false =>
    rw [if_neg (by simp), if_neg (by simp)]
    refine Go.Rel.bind (hoistInto_local (o 92) (o 93) E.ksw op0.ct (fun _ => Or.inl) p0) fun w w' _ _ r => ?_
    dsimp only
    rw [← r.2]
    refine Go.Rel.bind (hoistInto_local (o 94) (o 95) w.2 op1.ct (fun _ => Or.inr) p1) fun v v' _ _ t => ?_
    rw [← t.2]
    refine Go.Rel.bind (Go.Rel.of_eq (ckksMulRelinHoistedNew_local pscale crs o _ op0 op1
      (rlk' := { rlk' with pool0 := w'.1, pool1 := v'.1 }) h
      (show HOn _ (some w.1) (some w'.1) from r.1.mono fun _ => Or.inl)
      (show HOn _ (some v.1) (some v'.1) from t.1.mono fun _ => Or.inr))) fun a b _ _ e => ?_
    subst e
    exact ⟨rfl, rfl, rfl, rfl, r.1, t.1⟩

/-! ## rotation and conjugation -/

/-- two rotation key sets answer every request for the ids in `U` alike -/
def RotOn (U : String → Prop) (rks rks' : RotKeySet (GalKey C)) : Prop := ∀ id, U id → ∀ k, rks.get id k = rks'.get id k

theorem rotateWith_local (crs : GoMap ℤ (Swk C)) (o : Sched String) (S : Scratch C) (ct : Ct C) (r : ℤ) (out : Ct C)
    {rks rks' : RotKeySet (GalKey C)} (h : RotOn (Parties ct) rks rks') {hh hh' : Option (HoistedCt C)} (e : HOn (Parties ct) hh hh') :
    rotateWith crs o S ct r hh rks out = rotateWith crs o S ct r hh' rks' out := by
  unfold rotateWith
  refine Go.bind_congr _ fun level _ => Go.bind_congr _ fun ids i0 => Go.bind_congr _ fun lin _ => ?_
  split
  · rfl
  · dsimp only
    refine Go.bind_congr _ fun c0 _ => Go.bind_congr _ fun p0 _ => ?_
    rw [Go.loop_congr_on _ _ (fun s id hid => ?_)]
    have hp := ids_range i0 _ hid
    unfold rotateStep
    rw [h id hp]
    refine Go.bind_congr _ fun rk _ => ?_
    rw [extProd_local e _ _ _ hp]
    refine Go.bind_congr _ fun w _ => Go.bind_congr _ fun out _ => Go.bind_congr _ fun a _ => Go.bind_congr _ fun p _ =>
      Go.bind_congr _ fun _ _ => ?_
    rw [extProd_local e _ _ _ hp]

/-- **`Rotate`** -/
theorem rotate_local (crs : GoMap ℤ (Swk C)) (o : Sched String) (S : Scratch C) (ct : Ct C) (r : ℤ) (out : Ct C)
    {rks rks' : RotKeySet (GalKey C)} (h : RotOn (Parties ct) rks rks') :
    rotate crs o S ct r rks out = rotate crs o S ct r rks' out := rotateWith_local crs o S ct r out h (HOn.refl _ none)

theorem loop_insert_keys {ct ct' : Ct C} {f : Ct C → String → Go (Ct C)} {l : List String} {P : String → Prop}
    (hf : ∀ c c' id, f c id = .ok c' → ∀ k, k ∈ c' → k ∈ c) (h : Go.loop f ct l = .ok ct') (hP : ∀ k, k ∈ ct → P k) :
    ∀ k, k ∈ ct' → P k := by
  induction l generalizing ct with
  | nil => injection h with h; subst h; exact hP
  | cons a l ih =>
    rw [Go.loop_cons] at h
    cases hfa : f ct a with
    | error e => rw [hfa] at h; cases h
    | ok c =>
      rw [hfa] at h
      exact ih h fun k hk => hP k (hf ct c a hfa k hk)

/-- `Copy` never creates a component -/
theorem copyFrom_keys {o : Order String} {dst src dst' : Ct C} (h : dst.copyFrom o src = .ok dst') {P : String → Prop}
    (hP : ∀ k, k ∈ dst → P k) : ∀ k, k ∈ dst' → P k := by
  unfold Ct.copyFrom at h
  refine loop_insert_keys (fun c c' id e k hk => ?_) h hP
  cases hd : c.deref id with
  | error x => rw [hd] at e; cases e
  | ok p =>
    rw [hd, bind_ok] at e
    cases hs : src.deref id with
    | error x => rw [hs] at e; cases e
    | ok q =>
      rw [hs, bind_ok] at e
      injection e with e
      subst e
      rcases (AList.mem_insert c).mp hk with rfl | hk
      · exact GoMap.deref_mem hd
      · exact hk

theorem copyNew_keys {o : Order String} {ct ct' : Ct C} (h : ct.copyNew o = .ok ct') : ∀ k, k ∈ ct' → k ∈ ct := by
  have h0 : "0" ∈ ct := by
    unfold Ct.copyNew at h
    cases hd : ct.deref "0" with
    | error x => rw [hd] at h; cases h
    | ok p => exact GoMap.deref_mem hd
  obtain ⟨c, a1, a2⟩ := Ct.copyNew_ok o h0
  rw [a1] at h
  injection h with h
  subst h
  intro k hk
  exact GoMap.mem_iff_lookup.mpr (by rw [← a2 k]; exact GoMap.mem_iff_lookup.mp hk)

theorem rotLoop_local (crs : GoMap ℤ (Swk C)) (o : ℕ → Sched String) {rks rks' : RotKeySet (GalKey C)} {U : String → Prop}
    (h : RotOn U rks rks') (r : ℕ) : ∀ (k : ℕ) (tmp out : Ct C) (S : Scratch C), (∀ id, Parties tmp id → U id) →
      rotLoop crs o rks k r tmp out S = rotLoop crs o rks' k r tmp out S := by
  induction r using Nat.strong_induction_on with
  | _ r ih =>
    intro k tmp out S hU
    unfold rotLoop
    by_cases hr : 0 < r
    · rw [dif_pos hr, dif_pos hr]
      by_cases h2 : r % 2 ≠ 0
      · rw [if_pos h2, if_pos h2, rotate_local crs (o k) S tmp k out (rks' := rks') (fun id hid => h id (hU id hid))]
        refine Go.bind_congr _ fun w _ => Go.bind_congr _ fun tmp' ht => ?_
        refine ih _ (by omega) _ _ _ _ fun id hid => ?_
        exact copyFrom_keys (P := fun k => k ≠ "0" → U k) ht (fun k hk hz => hU k ⟨hk, hz⟩) id hid.1 hid.2
      · rw [if_neg h2, if_neg h2]
        exact ih _ (by omega) _ _ _ _ hU
    · rw [dif_neg hr, dif_neg hr]

theorem ckksRotate_local (crs : GoMap ℤ (Swk C)) (o : ℕ → Sched String) (S : Scratch C) (ct : Ct C) (r : ℤ) (out : Ct C)
    {rks rks' : RotKeySet (GalKey C)} (h : RotOn (Parties ct) rks rks') :
    ckksRotate crs o S ct r rks out = ckksRotate crs o S ct r rks' out := by
  unfold ckksRotate
  dsimp only
  split
  · rfl
  · split
    · exact rotate_local crs _ S ct _ out h
    · exact Go.bind_congr _ fun tmp ht => rotLoop_local crs o h _ _ _ _ _ fun id hid => ⟨copyNew_keys ht id hid.1, hid.2⟩

/-- **`RotateNew` (CKKS)**, for every rotation amount -/
theorem ckksRotateNew_local (crs : GoMap ℤ (Swk C)) (o : ℕ → Sched String) (E : Eval C) (ct : CCt C) (r : ℤ)
    {rks rks' : RotKeySet (GalKey C)} (h : RotOn (Parties ct.ct) rks rks') :
    ckksRotateNew crs o E ct r rks = ckksRotateNew crs o E ct r rks' := by
  unfold ckksRotateNew
  refine Go.bind_congr _ fun ids _ => Go.bind_congr _ fun level _ => ?_
  rw [ckksRotate_local crs o _ _ _ _ h]

/-- **`RotateHoistedNew` (CKKS)** -/
theorem ckksRotateHoistedNew_local (crs : GoMap ℤ (Swk C)) (o : ℕ → Sched String) (E : Eval C) (ct : CCt C) (r : ℤ)
    {hh hh' : HoistedCt C} (e : On (Parties ct.ct) hh hh') {rks rks' : RotKeySet (GalKey C)} (h : RotOn (Parties ct.ct) rks rks') :
    ckksRotateHoistedNew crs o E ct r hh rks = ckksRotateHoistedNew crs o E ct r hh' rks' := by
  unfold ckksRotateHoistedNew
  refine Go.bind_congr _ fun ids _ => Go.bind_congr _ fun level _ => ?_
  have : ∀ out, ckksRotateHoisted crs o E.ksw ct.ct r hh rks out = ckksRotateHoisted crs o E.ksw ct.ct r hh' rks' out := by
    intro out
    unfold ckksRotateHoisted
    dsimp only
    split
    · rfl
    · split
      · exact rotateWith_local crs _ _ _ _ _ h (show HOn _ (some hh) (some hh') from e)
      · rfl
  rw [this]

/-- **`RotateNew` (BFV)**, for every rotation amount -/
theorem bfvRotateNew_local (crs : GoMap ℤ (Swk C)) (o : ℕ → Sched String) (S : Scratch C) (ct : Ct C) (r : ℤ)
    {rks rks' : RotKeySet (GalKey C)} (h : RotOn (Parties ct) rks rks') :
    bfvRotateNew crs o S ct r rks = bfvRotateNew crs o S ct r rks' := by
  unfold bfvRotateNew
  refine Go.bind_congr _ fun ids _ => ?_
  unfold bfvRotate
  dsimp only
  split
  · rfl
  · refine Go.bind_congr _ fun tmp ht => ?_
    have hU : ∀ id, Parties tmp id → Parties ct id := fun id hid => ⟨copyNew_keys ht id hid.1, hid.2⟩
    split
    · exact rotate_local crs _ S tmp _ _ fun id hid => h id (hU id hid)
    · exact rotLoop_local crs o h _ _ _ _ _ hU

/-- **`Conjugate`** -/
theorem conjugate_local (permLevel : ℕ) (crs : GoMap ℤ (Swk C)) (o : Sched String) (S : Scratch C) (ct out : Ct C)
    {cks cks' : KeySet (GalKey C)} (h : On (Parties ct) cks.value cks'.value) :
    conjugate permLevel crs o S ct cks out = conjugate permLevel crs o S ct cks' out := by
  unfold conjugate
  refine Go.bind_congr _ fun level _ => Go.bind_congr _ fun ids i0 => Go.bind_congr _ fun lin _ => ?_
  split
  · rfl
  · refine Go.bind_congr _ fun out _ => ?_
    rw [Go.loop_congr_on _ _ (fun s id hid => ?_)]
    unfold conjStep0 KeySet.get
    rw [h id (ids_range i0 _ hid)]

theorem ckksConjugateNew_local (permLevel : ℕ) (crs : GoMap ℤ (Swk C)) (o : Sched String) (E : Eval C) (ct : CCt C)
    {cks cks' : KeySet (GalKey C)} (h : On (Parties ct.ct) cks.value cks'.value) :
    ckksConjugateNew permLevel crs o E ct cks = ckksConjugateNew permLevel crs o E ct cks' := by
  unfold ckksConjugateNew
  refine Go.bind_congr _ fun ids _ => Go.bind_congr _ fun level _ => ?_
  rw [conjugate_local permLevel crs o _ _ _ h]

theorem bfvConjugateNew_local (permLevel : ℕ) (crs : GoMap ℤ (Swk C)) (o : Sched String) (S : Scratch C) (ct : Ct C)
    {cks cks' : KeySet (GalKey C)} (h : On (Parties ct) cks.value cks'.value) :
    bfvConjugateNew permLevel crs o S ct cks = bfvConjugateNew permLevel crs o S ct cks' := by
  unfold bfvConjugateNew
  refine Go.bind_congr _ fun ids _ => Go.bind_congr _ fun tmp ht => ?_
  exact conjugate_local permLevel crs o _ _ _ (h.mono fun id hid => ⟨copyNew_keys ht id hid.1, hid.2⟩)

/-! ## BFV multiplication -/

/-- two optional pairs of hoisted forms agree -/
def BHOn (U : String → Prop) : HoistedPair B → HoistedPair B → Prop
  | none, none => True
  | some h, some h' => On U h.1 h'.1 ∧ On U h.2 h'.2
  | _, _ => False

theorem BHOn.refl (U : String → Prop) (h : HoistedPair B) : BHOn U h h := by
  cases h with
  | none => trivial
  | some h => exact ⟨fun _ _ => rfl, fun _ _ => rfl⟩

theorem digitsB_local {U : String → Prop} {h h' : HoistedPair B} (hh : BHOn U h h') (S : BScratch B) (level : ℕ) (op : CtR N)
    {id : String} (hid : U id) : digitsB S level op h id = digitsB S level op h' id := by
  unfold digitsB
  cases h with
  | none => cases h' with
    | none => rfl
    | some h' => cases hh
  | some h => cases h' with
    | none => cases hh
    | some h' => dsimp only; rw [GoMap.deref_congr (hh.1 id hid), GoMap.deref_congr (hh.2 id hid)]

theorem extIntoB_local {U : String → Prop} {h h' : HoistedPair B} (hh : BHOn U h h') (S : BScratch B) (level : ℕ) (op : CtR N)
    {id : String} (hid : U id) (b1 b2 : Swk B.C) : extIntoB S level op h id b1 b2 = extIntoB S level op h' id b1 b2 := by
  unfold extIntoB
  cases h with
  | none => cases h' with
    | none => rfl
    | some h' => cases hh
  | some h => cases h' with
    | none => cases hh
    | some h' => dsimp only; rw [GoMap.deref_congr (hh.1 id hid), GoMap.deref_congr (hh.2 id hid)]

theorem genVecB_local {U : String → Prop} {h h' : HoistedPair B} (hh : BHOn U h h') {rlk rlk' : GoMap String (BRlk B.C)}
    (hr : On U rlk rlk') (S : BScratch B) (level : ℕ) (op : CtR N) (sel : Rlk B.C → Swk B.C) {ids : List String}
    (hids : ∀ id ∈ ids, U id) (x1 x2 : Swk B.C) : genVecB S level op h rlk sel ids x1 x2 = genVecB S level op h' rlk' sel ids x1 x2 := by
  unfold genVecB
  rw [Go.loop_congr_on ids ((x1, x2), S) (fun s id hid => ?_)]
  unfold genVecBStep
  rw [digitsB_local hh _ _ _ (hids id hid), GoMap.deref_congr (hr id (hids id hid))]

theorem mulFrontB_local (o : Sched String) (S : BScratch B) (op0 op1 : CtR N) (out : Ct B.C) {rlk rlk' : GoMap String (BRlk B.C)}
    (h : On (fun id => Parties op0 id ∨ Parties op1 id) rlk rlk') {h0 h0' h1 h1' : HoistedPair B}
    (e0 : BHOn (Parties op0) h0 h0') (e1 : BHOn (Parties op1) h1 h1') :
    mulFrontB o S op0 op1 h0 h1 rlk out = mulFrontB o S op0 op1 h0' h1' rlk' out ∧
    ∀ f, mulFrontB o S op0 op1 h0 h1 rlk out = .ok f → ∀ o', ∀ id ∈ GoMap.range o' f.2.1.value, Parties op0 id := by
  have main : mulFrontB o S op0 op1 h0 h1 rlk out = mulFrontB o S op0 op1 h0' h1' rlk' out := by
    unfold mulFrontB
    refine Go.bind_congr _ fun level _ => Go.bind_congr _ fun ids0 i0 => Go.bind_congr _ fun ids1 i1 => ?_
    have k0 : ∀ (o' : Order String), ∀ id ∈ GoMap.range o' ids0.value, Parties op0 id := fun o' id hid => ids_range i0 o' hid
    have k1 : ∀ (o' : Order String), ∀ id ∈ GoMap.range o' ids1.value, Parties op1 id := fun o' id hid => ids_range i1 o' hid
    refine Go.bind_congr _ fun x1 _ => Go.bind_congr _ fun x2 _ => Go.bind_congr _ fun y1 _ => Go.bind_congr _ fun y2 _ => ?_
    rw [genVecB_local e0 (h.mono fun _ => Or.inl) _ _ _ _ (k0 _)]
    refine Go.bind_congr _ fun x _ => ?_
    rw [genVecB_local e1 (h.mono fun _ => Or.inr) _ _ _ _ (k1 _)]
    refine Go.bind_congr _ fun y _ => ?_
    dsimp only
    refine Go.bind_congr _ fun w _ => ?_
    rw [Go.loop_congr_on _ _ (fun s id hid => ?_)]
    unfold addXB
    rw [extIntoB_local e1 _ _ _ (k1 _ id hid)]
  refine ⟨main, fun f hf o' id hid => ?_⟩
  unfold mulFrontB at hf
  obtain ⟨level, _, hf⟩ := Go.bind_ok hf
  obtain ⟨ids0, i0, hf⟩ := Go.bind_ok hf
  obtain ⟨_, _, hf⟩ := Go.bind_ok hf
  obtain ⟨_, _, hf⟩ := Go.bind_ok hf
  obtain ⟨_, _, hf⟩ := Go.bind_ok hf
  obtain ⟨_, _, hf⟩ := Go.bind_ok hf
  obtain ⟨_, _, hf⟩ := Go.bind_ok hf
  obtain ⟨_, _, hf⟩ := Go.bind_ok hf
  obtain ⟨_, _, hf⟩ := Go.bind_ok hf
  obtain ⟨_, _, hf⟩ := Go.bind_ok hf
  obtain ⟨_, _, hf⟩ := Go.bind_ok hf
  injection hf with hf
  subst hf
  exact ids_range i0 o' hid

/-- **`MulAndRelinBFV`** -/
theorem mulAndRelinBFV_local (crs : GoMap ℤ (Swk B.C)) (o : Sched String) (S : BScratch B) (op0 op1 : CtR N) (out : Ct B.C)
    {rlk rlk' : GoMap String (BRlk B.C)} (h : On (fun id => Parties op0 id ∨ Parties op1 id) rlk rlk') :
    mulAndRelinBFV crs o S op0 op1 rlk out = mulAndRelinBFV crs o S op0 op1 rlk' out := by
  unfold mulAndRelinBFV
  obtain ⟨a, b⟩ := mulFrontB_local o S op0 op1 out h (BHOn.refl _ none) (BHOn.refl _ none)
  rw [← a]
  refine Go.bind_congr _ fun f hf => Go.loop_congr_on _ _ fun s id hid => ?_
  unfold lastB
  rw [GoMap.deref_congr (h id (Or.inl (b f hf _ id hid)))]

/-- **`MulAndRelinBFVHoisted`** -/
theorem mulAndRelinBFVHoisted_local (crs : GoMap ℤ (Swk B.C)) (o : Sched String) (S : BScratch B) (op0 op1 : CtR N) (out : Ct B.C)
    {rlk rlk' : GoMap String (BRlk B.C)} (h : On (fun id => Parties op0 id ∨ Parties op1 id) rlk rlk') {h0 h0' h1 h1' : HoistedPair B}
    (e0 : BHOn (Parties op0) h0 h0') (e1 : BHOn (Parties op1) h1 h1') :
    mulAndRelinBFVHoisted crs o S op0 op1 h0 h1 rlk out = mulAndRelinBFVHoisted crs o S op0 op1 h0' h1' rlk' out := by
  unfold mulAndRelinBFVHoisted
  obtain ⟨a, b⟩ := mulFrontB_local o S op0 op1 out h e0 e1
  rw [← a]
  refine Go.bind_congr _ fun f hf => Go.loop_congr_on _ _ fun s id hid => ?_
  have hp := b f hf _ id hid
  unfold lastBHoisted
  rw [GoMap.deref_congr (h id (Or.inl hp)), extIntoB_local e0 _ _ _ hp]

theorem toR_local (f : Poly B.C → Go (PolyR N)) (o : Order String) {pool pool' : GoMap String (PolyR N)} (ct : Ct B.C)
    (h : On (fun id => id ∈ ct) pool pool') : toR f o pool ct = toR f o pool' ct ∧
    ∀ r, toR f o pool ct = .ok r → ∀ id, id ∈ r → id ∈ ct := by
  refine ⟨?_, fun r hr id hid => ?_⟩
  · unfold toR
    exact Go.loop_congr_on _ _ fun s id hid => by rw [GoMap.deref_congr (h id (GoMap.mem_range.mp hid))]
  · unfold toR at hr
    have key : ∀ (l : List String) (s : CtR N), (∀ k, k ∈ s → k ∈ ct) → Go.loop (fun (r : CtR N) id => do
        let a ← ct.deref id
        let _ ← pool.deref id
        let x ← f a
        .ok (r.insert id x)) s l = .ok r → ∀ k, k ∈ r → k ∈ ct := by
      intro l
      induction l with
      | nil => intro s hs e; injection e with e; subst e; exact hs
      | cons a l ih =>
        intro s hs e
        rw [Go.loop_cons] at e
        cases hd : ct.deref a with
        | error x => simp only [hd, bind_error] at e; cases e
        | ok p =>
          cases hq : pool.deref a with
          | error x => simp only [hd, hq, bind_ok, bind_error] at e; cases e
          | ok q =>
            cases hx : f p with
            | error x => simp only [hd, hq, hx, bind_ok, bind_error] at e; cases e
            | ok x =>
              simp only [hd, hq, hx, bind_ok] at e
              refine ih _ (fun k hk => ?_) e
              rcases (AList.mem_insert s).mp hk with rfl | hk
              · exact GoMap.deref_mem hd
              · exact hs k hk
    exact key _ ∅ (fun k hk => absurd hk (AList.notMem_empty k)) hr id hid

theorem hoistB_local {U : String → Prop} (S : BScratch B) (level : ℕ) (ctR : CtR N) (ids : List String) (hids : ∀ id ∈ ids, U id)
    {h h' : HoistedCt B.C × HoistedCt B.C} (e1 : On U h.1 h'.1) (e2 : On U h.2 h'.2) :
    Go.Rel (fun w w' => On U w.1 w'.1 ∧ On U w.2 w'.2) (hoistB S level ctR ids h) (hoistB S level ctR ids h') := by
  unfold hoistB
  refine Go.Rel.loop _ ⟨e1, e2⟩ fun s t r id hid => ?_
  refine Go.Rel.bind (Go.Rel.of_eq rfl) fun a a' _ _ e => ?_
  subst e
  refine Go.Rel.bind (Go.Rel.of_eq (GoMap.deref_congr (r.1 id (hids id hid)))) fun b b' _ _ e => ?_
  subst e
  refine Go.Rel.bind (Go.Rel.of_eq (GoMap.deref_congr (r.2 id (hids id hid)))) fun c c' _ _ e => ?_
  subst e
  refine Go.Rel.bind (Go.Rel.of_eq rfl) fun w w' _ _ e => ?_
  subst e
  exact ⟨r.1.insert _ _, r.2.insert _ _⟩

/-- two BFV relinearization key sets agree, keys and pools, at the ids in `U` -/
structure SetOn (U : String → Prop) (s s' : BRlkMap B) : Prop where
  value : On U s.value s'.value
  polyR1 : On U s.polyR1 s'.polyR1
  polyR2 : On U s.polyR2 s'.polyR2
  hoist10 : On U s.hoist10 s'.hoist10
  hoist11 : On U s.hoist11 s'.hoist11
  hoist20 : On U s.hoist20 s'.hoist20
  hoist21 : On U s.hoist21 s'.hoist21

/-- **`MulRelinNew` (BFV)**: key sets that agree at the components of the operands (`"0"` has pool entries but no key) give the same
outcome. -/
theorem bfvMulRelinNew_local (crs : GoMap ℤ (Swk B.C)) (o : Sched String) (S : BScratch B) (ct0 ct1 : Ct B.C) {set set' : BRlkMap B}
    (h : SetOn (fun id => id ∈ ct0 ∨ id ∈ ct1) set set') :
    bfvMulRelinNew crs o S ct0 ct1 set = bfvMulRelinNew crs o S ct0 ct1 set' := by
  unfold bfvMulRelinNew
  refine Go.bind_congr _ fun out _ => ?_
  unfold bfvMulRelinHoisted
  obtain ⟨a0, b0⟩ := toR_local (modUpQtoR B S.conv) (o 120) ct0 (h.polyR1.mono fun _ => Or.inl)
  obtain ⟨a1, b1⟩ := toR_local (rescaleR B S.conv S.conv) (o 121) ct1 (h.polyR2.mono fun _ => Or.inr)
  rw [← a0, ← a1]
  refine Go.bind_congr _ fun c0 h0 => Go.bind_congr _ fun c1 h1 => Go.bind_congr _ fun ids0 i0 => Go.bind_congr _ fun ids1 i1 =>
    Go.bind_congr _ fun l0 _ => ?_
  have m0 : ∀ id, Parties c0 id → id ∈ ct0 := fun id hid => b0 c0 h0 id hid.1
  have m1 : ∀ id, Parties c1 id → id ∈ ct1 := fun id hid => b1 c1 h1 id hid.1
  refine Go.Rel.eq (Go.Rel.bind (hoistB_local (U := fun id => id ∈ ct0) S l0 c0 _ (fun id hid => (ids_range i0 _ hid).1)
    (h.hoist10.mono fun _ => Or.inl) (h.hoist20.mono fun _ => Or.inl)) fun g0 g0' _ _ r0 => ?_)
  refine Go.Rel.bind (Go.Rel.of_eq rfl) fun l1 l1' _ _ e => ?_
  subst e
  refine Go.Rel.bind (hoistB_local (U := fun id => id ∈ ct1) S l1 c1 _ (fun id hid => (ids_range i1 _ hid).1)
    (h.hoist11.mono fun _ => Or.inr) (h.hoist21.mono fun _ => Or.inr)) fun g1 g1' _ _ r1 => ?_
  refine Go.Rel.of_eq (mulAndRelinBFVHoisted_local crs o S c0 c1 out ?_ ⟨r0.1.mono m0, r0.2.mono m0⟩ ⟨r1.1.mono m1, r1.2.mono m1⟩)
  exact h.value.mono fun id hid => hid.imp (m0 id) (m1 id)

/-! ## decryption -/

section
open Finset

theorem at_congr {sks sks' : KeySet (SKey C)} {id : String} (h : sks.value.lookup id = sks'.value.lookup id) :
    SKeys.at sks id = SKeys.at sks' id := by unfold SKeys.at; rw [h]

/-- **`Decrypt`**: two key sets that agree on the participants give the same outcome — the same plaintext words or the same panic — even when
the maps are visited in different orders. -/
theorem decrypt_local {ct : Ct C} {b : Bool} {level : ℕ} (hct : ct.Flag b level) {sks sks' : KeySet (SKey C)} (hk : sks.Keyed SKey.id)
    (hk' : sks'.Keyed SKey.id) (h : On (Parties ct) sks.value sks'.value) (o o' : Sched String) (pt : Poly C) :
    decrypt o ct sks pt = decrypt o' ct sks' pt := by
  have hp : ∀ id ∈ ct.ids, Parties ct id := fun id hid => Ct.mem_ids.mp hid
  have hm : ∀ id ∈ ct.ids, (id ∈ sks.value ↔ id ∈ sks'.value) := fun id hid => by
    rw [GoMap.mem_iff_lookup, GoMap.mem_iff_lookup, h id (hp id hid)]
  obtain ⟨a1, a2⟩ := decrypt_ok hct hk o pt
  obtain ⟨b1, b2⟩ := decrypt_ok hct hk' o' pt
  by_cases hmiss : ∃ id ∈ ct.ids, id ∉ sks.value
  · rw [a1 hmiss, b1 (by obtain ⟨id, x, y⟩ := hmiss; exact ⟨id, x, fun hh => y ((hm id x).mpr hh)⟩)]
  · push Not at hmiss
    obtain ⟨rows, c1, c2, c3⟩ := a2 hmiss
    obtain ⟨rows', d1, d2, d3⟩ := b2 fun id hid => (hm id hid).mp (hmiss id hid)
    rw [c2, d2]
    have : setQ (min level (pt.len - 1)) rows pt.rows = setQ (min level (pt.len - 1)) rows' pt.rows := by
      refine setQ_congr (fun i hi => ?_)
      have hi' : i ≤ level := by omega
      have e : domVal b (rows i) = domVal b (rows' i) := by
        rw [c3 i hi', d3 i hi']
        congr 1
        exact sum_congr rfl fun id hid => by rw [at_congr (h id (hp id hid))]
      unfold domVal at e
      cases b with
      | true => rw [if_pos rfl, if_pos rfl] at e; exact (C.RQ i).ev_inj (c1 i) (d1 i) e
      | false => rw [if_neg (by simp), if_neg (by simp)] at e; exact cf_inj (c1 i) (d1 i) e
    rw [this]

/-- **`mkckks.Decrypt`** -/
theorem ckksDecrypt_local {ct : CCt C} {b : Bool} {level : ℕ} (hct : ct.ct.Flag b level) {sks sks' : KeySet (SKey C)}
    (hk : sks.Keyed SKey.id) (hk' : sks'.Keyed SKey.id) (h : On (Parties ct.ct) sks.value sks'.value) (o : Sched String) (pool : Poly C) :
    ckksDecrypt o pool ct sks = ckksDecrypt o pool ct sks' := by
  unfold ckksDecrypt
  obtain ⟨tmp, a1, a2⟩ := Ct.copyNew_ok (o 203) hct.has0
  rw [a1, bind_ok, bind_ok, decrypt_local (a2.symm.flag hct) hk hk' (h.mono fun id hid => ⟨copyNew_keys a1 id hid.1, hid.2⟩) o o pool]

/-- **`mkbfv.Decrypt`**: the plaintexts handed to the decoder represent the same polynomial modulo every prime. -/
theorem bfvDecrypt_local {ct : Ct C} {b : Bool} {level : ℕ} (hct : ct.Flag b level) {sks sks' : KeySet (SKey C)} (hk : sks.Keyed SKey.id)
    (hk' : sks'.Keyed SKey.id) (h : On (Parties ct) sks.value sks'.value) (o o' : Sched String) :
    ∃ p p', bfvDecrypt o ct sks = .ok p ∧ bfvDecrypt o' ct sks' = .ok p' ∧ p.len = p'.len ∧ p.isNTT = p'.isNTT ∧
      ∀ i ≤ level, cf (p.coeffs i) = cf (p'.coeffs i) := by
  have hp : ∀ id ∈ ct.ids, Parties ct id := fun id hid => Ct.mem_ids.mp hid
  obtain ⟨tmp, ids, c, p, e1, e2, e3, e4, e5, e6, _, e8⟩ := decrypt_core hct hk (o 204) (o 205) (o 206)
  obtain ⟨tmp', ids', c', p', f1, f2, f3, f4, f5, f6, _, f8⟩ := decrypt_core hct hk' (o' 204) (o' 205) (o' 206)
  refine ⟨p, p', by unfold bfvDecrypt; rw [e1, bind_ok, e2, bind_ok, e3, bind_ok, GoMap.deref_ok e4],
    by unfold bfvDecrypt; rw [f1, bind_ok, f2, bind_ok, f3, bind_ok, GoMap.deref_ok f4], by rw [e5, f5], by rw [e6, f6], fun i hi => ?_⟩
  rw [Poly.cf_coeffs, Poly.cf_coeffs, e6, f6, e8 i hi, f8 i hi]
  congr 1
  have hf : (ct.ids.filter fun id => id ∈ sks.value) = ct.ids.filter fun id => id ∈ sks'.value :=
    filter_congr fun id hid => by rw [GoMap.mem_iff_lookup, GoMap.mem_iff_lookup, h id (hp id hid)]
  rw [hf]
  exact sum_congr rfl fun id hid => by rw [at_congr (h id (hp id (mem_filter.mp hid).1))]

end

/-! ## what strangers do to a key set -/

section
open C04
variable {K W R : Type} (idOf : K → String)

theorem foldl_on {S : Type} {A : Type} (step : S → Op K A → S) (addr : K → A) (V : A → Prop) (P : S → S → Prop)
    (hrefl : ∀ s, P s s) (htrans : ∀ s t u, P s t → P t u → P s u)
    (hstep : ∀ s op, (∀ a, V a → ¬ op.touches addr a) → P s (step s op)) (s : S) (h : List (Op K A))
    (hh : ∀ op ∈ h, ∀ a, V a → ¬ op.touches addr a) : P s (h.foldl step s) := by
  induction h generalizing s with
  | nil => exact hrefl s
  | cons op h ih =>
    exact htrans _ _ _ (hstep s op (hh op List.mem_cons_self)) (ih _ fun x hx => hh x (List.mem_cons_of_mem _ hx))

theorem On.refl (U : String → Prop) {β : Type} (m : GoMap String β) : On U m m := fun _ _ => rfl
theorem On.trans {U : String → Prop} {β : Type} {m m' m'' : GoMap String β} (h : On U m m') (h' : On U m' m'') : On U m m'' :=
  fun id hid => (h id hid).trans (h' id hid)
theorem On.insert_out {U : String → Prop} {β : Type} (m : GoMap String β) {k : String} (hk : ∀ id, U id → k ≠ id) (v : β) :
    On U m (m.insert k v) := fun id hid => by rw [GoMap.lookup_insert', if_neg (Ne.symm (hk id hid))]
theorem On.erase_out {U : String → Prop} {β : Type} (m : GoMap String β) {k : String} (hk : ∀ id, U id → k ≠ id) :
    On U m (m.erase k) := fun id hid => by rw [GoMap.lookup_erase', if_neg (Ne.symm (hk id hid))]

/-- **Strangers, secret / public / conjugation keys.** Additions and deletions under other ids leave the set as it is on `U`. -/
theorem keySet_strangers (U : String → Prop) (h h' : List (Op K String)) (hh : ∀ op ∈ h', ∀ id, U id → ¬ op.touches idOf id) :
    On U (runKeySet idOf h).value (runKeySet idOf (h ++ h')).value := by
  unfold runKeySet
  rw [List.foldl_append]
  refine foldl_on _ idOf U (fun s t : KeySet K => On U s.value t.value) (fun _ => On.refl _ _) (fun _ _ _ => On.trans) ?_ _ h' hh
  intro s op hop
  cases op with
  | add k => exact On.insert_out _ (fun id hid e => hop id hid e) _
  | del a => exact On.erase_out _ fun id hid e => hop id hid e

/-- **Strangers, relinearization keys.** -/
theorem rlk_strangers (U : String → Prop) (fresh : W) (h h' : List (Op K String)) (hh : ∀ op ∈ h', ∀ id, U id → ¬ op.touches idOf id) :
    On U (runRlk idOf fresh h).value (runRlk idOf fresh (h ++ h')).value ∧
    On U (runRlk idOf fresh h).pool0 (runRlk idOf fresh (h ++ h')).pool0 ∧
    On U (runRlk idOf fresh h).pool1 (runRlk idOf fresh (h ++ h')).pool1 := by
  unfold runRlk
  rw [List.foldl_append]
  refine foldl_on _ idOf U (fun s t : RlkSet K W => On U s.value t.value ∧ On U s.pool0 t.pool0 ∧ On U s.pool1 t.pool1)
    (fun _ => ⟨On.refl _ _, On.refl _ _, On.refl _ _⟩) (fun _ _ _ a b => ⟨a.1.trans b.1, a.2.1.trans b.2.1, a.2.2.trans b.2.2⟩) ?_ _ h' hh
  intro s op hop
  cases op with
  | add k => exact ⟨On.insert_out _ (fun id hid e => hop id hid e) _, On.insert_out _ (fun id hid e => hop id hid e) _,
      On.insert_out _ (fun id hid e => hop id hid e) _⟩
  | del a => exact ⟨On.erase_out _ fun id hid e => hop id hid e, On.refl _ _, On.refl _ _⟩

/-- **Strangers, BFV relinearization keys.** -/
theorem bfvRlk_strangers {idOf : BRlk B.C → String} (U : String → Prop) (z : PolyR N) (fresh : Swk B.C) (h h' : List (Op (BRlk B.C) String))
    (hh : ∀ op ∈ h', ∀ id, U id → ¬ op.touches idOf id) :
    SetOn U (runBfvRlk idOf z fresh h : BRlkMap B) (runBfvRlk idOf z fresh (h ++ h')) := by
  unfold runBfvRlk
  rw [List.foldl_append]
  refine foldl_on _ idOf U (fun s t : BRlkMap B => SetOn U s t)
    (fun _ => ⟨On.refl _ _, On.refl _ _, On.refl _ _, On.refl _ _, On.refl _ _, On.refl _ _, On.refl _ _⟩)
    (fun _ _ _ a b => ⟨a.1.trans b.1, a.2.trans b.2, a.3.trans b.3, a.4.trans b.4, a.5.trans b.5, a.6.trans b.6, a.7.trans b.7⟩) ?_ _ h' hh
  intro s op hop
  cases op with
  | add k =>
    have hk : ∀ id, U id → idOf k ≠ id := fun id hid e => hop id hid e
    exact ⟨On.insert_out _ hk _, On.insert_out _ hk _, On.insert_out _ hk _, On.insert_out _ hk _, On.insert_out _ hk _,
      On.insert_out _ hk _, On.insert_out _ hk _⟩
  | del a =>
    exact ⟨On.erase_out _ fun id hid e => hop id hid e, On.refl _ _, On.refl _ _, On.refl _ _, On.refl _ _, On.refl _ _, On.refl _ _⟩

/-- **Strangers, rotation keys.** -/
theorem rot_strangers {idOf : GalKey C → String} (idxOf : GalKey C → ℕ) (U : String → Prop) (h h' : List (Op (GalKey C) (String × ℕ)))
    (hh : ∀ op ∈ h', ∀ a : String × ℕ, U a.1 → ¬ op.touches (fun k => (idOf k, idxOf k)) a) :
    RotOn U (runRot idOf idxOf h) (runRot idOf idxOf (h ++ h')) := by
  have main : On U (runRot idOf idxOf h).value (runRot idOf idxOf (h ++ h')).value := by
    unfold runRot
    rw [List.foldl_append]
    refine foldl_on _ (fun k => (idOf k, idxOf k)) (fun a => U a.1) (fun s t : RotKeySet (GalKey C) => On U s.value t.value)
      (fun _ => On.refl _ _) (fun _ _ _ => On.trans) ?_ _ h' hh
    intro s op hop
    cases op with
    | add k =>
      have hk : ∀ id, U id → idOf k ≠ id := fun id hid e => hop (idOf k, idxOf k) (by rw [e]; exact hid) rfl
      show On U s.value (RotKeySet.add idOf idxOf s k).value
      unfold RotKeySet.add
      dsimp only
      cases hl : s.value.lookup (idOf k) with
      | some inner =>
        dsimp only
        rw [hl]
        exact On.insert_out _ hk _
      | none =>
        dsimp only
        rw [GoMap.lookup_insert', if_pos rfl]
        exact (On.insert_out _ hk _).trans (On.insert_out _ hk _)
    | del a =>
      have hk : ∀ id, U id → a.1 ≠ id := fun id hid e => hop a (by rw [e]; exact hid) rfl
      show On U s.value (s.del a.1 a.2).value
      unfold RotKeySet.del
      cases s.value.lookup a.1 with
      | some inner => exact On.insert_out _ hk _
      | none => exact On.refl _ _
  intro id hid k
  unfold RotKeySet.get
  rw [main id hid]

end

/-- **C64, multiplication.** Whatever keys of parties outside both operands are added to the set or removed from it, `MulRelinNew` returns the same
ciphertext (or panics alike). -/
theorem mulRelinNew_strangers (pscale : ℚ) (crs : GoMap ℤ (Swk C)) (o : Sched String) (E : Eval C) (same : Bool) (op0 op1 : CCt C)
    (fresh : Swk C) (h h' : List (C04.Op (Rlk C) String))
    (hh : ∀ op ∈ h', ∀ id, Parties op0.ct id ∨ Parties op1.ct id → ¬ op.touches Rlk.id id) :
    Go.Rel (fun r r' => r.1 = r'.1 ∧ r.2.1 = r'.2.1)
      (ckksMulRelinNew pscale crs o E same op0 op1 (C04.runRlk Rlk.id fresh h))
      (ckksMulRelinNew pscale crs o E same op0 op1 (C04.runRlk Rlk.id fresh (h ++ h'))) := by
  obtain ⟨a, b, c⟩ := rlk_strangers Rlk.id (fun id => Parties op0.ct id ∨ Parties op1.ct id) fresh h h' hh
  have := ckksMulRelinNew_local pscale crs o E same op0 op1 a b c
  generalize ckksMulRelinNew pscale crs o E same op0 op1 (C04.runRlk Rlk.id fresh h) = x at *
  generalize ckksMulRelinNew pscale crs o E same op0 op1 (C04.runRlk Rlk.id fresh (h ++ h')) = y at *
  cases x with
  | ok r => cases y with
    | ok r' => exact ⟨this.1, this.2.1⟩
    | error e => cases this
  | error e => cases y with
    | ok r' => cases this
    | error e' => exact this

/-- **C64, BFV multiplication.** -/
theorem bfvMulRelinNew_strangers (crs : GoMap ℤ (Swk B.C)) (o : Sched String) (S : BScratch B) (ct0 ct1 : Ct B.C) {idOf : BRlk B.C → String}
    (z : PolyR N) (fresh : Swk B.C) (h h' : List (C04.Op (BRlk B.C) String))
    (hh : ∀ op ∈ h', ∀ id, id ∈ ct0 ∨ id ∈ ct1 → ¬ op.touches idOf id) :
    bfvMulRelinNew crs o S ct0 ct1 (C04.runBfvRlk idOf z fresh h) = bfvMulRelinNew crs o S ct0 ct1 (C04.runBfvRlk idOf z fresh (h ++ h')) :=
  bfvMulRelinNew_local crs o S ct0 ct1 (bfvRlk_strangers _ z fresh h h' hh)

/-- **C64, rotation.** -/
theorem rotateNew_strangers (crs : GoMap ℤ (Swk C)) (o : ℕ → Sched String) (E : Eval C) (ct : CCt C) (r : ℤ)
    (h h' : List (C04.Op (GalKey C) (String × ℕ)))
    (hh : ∀ op ∈ h', ∀ a : String × ℕ, Parties ct.ct a.1 → ¬ op.touches (fun k : GalKey C => (k.id, k.rotIdx)) a) :
    ckksRotateNew crs o E ct r (C04.runRot GalKey.id GalKey.rotIdx h) =
      ckksRotateNew crs o E ct r (C04.runRot GalKey.id GalKey.rotIdx (h ++ h')) :=
  ckksRotateNew_local crs o E ct r (rot_strangers GalKey.rotIdx _ h h' hh)

theorem bfvRotateNew_strangers (crs : GoMap ℤ (Swk C)) (o : ℕ → Sched String) (S : Scratch C) (ct : Ct C) (r : ℤ)
    (h h' : List (C04.Op (GalKey C) (String × ℕ)))
    (hh : ∀ op ∈ h', ∀ a : String × ℕ, Parties ct a.1 → ¬ op.touches (fun k : GalKey C => (k.id, k.rotIdx)) a) :
    bfvRotateNew crs o S ct r (C04.runRot GalKey.id GalKey.rotIdx h) =
      bfvRotateNew crs o S ct r (C04.runRot GalKey.id GalKey.rotIdx (h ++ h')) :=
  bfvRotateNew_local crs o S ct r (rot_strangers GalKey.rotIdx _ h h' hh)

/-- **C64, conjugation.** -/
theorem conjugateNew_strangers (permLevel : ℕ) (crs : GoMap ℤ (Swk C)) (o : Sched String) (E : Eval C) (ct : CCt C)
    (h h' : List (C04.Op (GalKey C) String)) (hh : ∀ op ∈ h', ∀ id, Parties ct.ct id → ¬ op.touches GalKey.id id) :
    ckksConjugateNew permLevel crs o E ct (C04.runKeySet GalKey.id h) =
      ckksConjugateNew permLevel crs o E ct (C04.runKeySet GalKey.id (h ++ h')) :=
  ckksConjugateNew_local permLevel crs o E ct (keySet_strangers GalKey.id _ h h' hh)

theorem keyed_run (h : List (C04.Op (SKey C) String)) : (C04.runKeySet SKey.id h).Keyed SKey.id := by
  unfold C04.runKeySet
  generalize e : (KeySet.new : KeySet (SKey C)) = s
  have hs : s.Keyed SKey.id := e ▸ KeySet.keyed_new _
  clear e
  induction h generalizing s with
  | nil => exact hs
  | cons op h ih =>
    cases op with
    | add k => exact ih _ (hs.add k)
    | del a => exact ih _ (hs.del a)

/-- **C64, decryption.** -/
theorem decrypt_strangers {ct : Ct C} {b : Bool} {level : ℕ} (hct : ct.Flag b level) (o o' : Sched String) (pt : Poly C)
    (h h' : List (C04.Op (SKey C) String)) (hh : ∀ op ∈ h', ∀ id, Parties ct id → ¬ op.touches SKey.id id) :
    decrypt o ct (C04.runKeySet SKey.id h) pt = decrypt o' ct (C04.runKeySet SKey.id (h ++ h')) pt :=
  decrypt_local hct (keyed_run h) (keyed_run _) (keySet_strangers SKey.id _ h h' hh) o o' pt

/-- The hypothesis is met by real histories: a stranger "c" joins, is replaced and leaves while "a" and "b" compute. -/
example (k k' : Rlk C) (hk : k.id = "c") (hk' : k'.id = "c") (ct : Ct C) (hc : ¬ Parties ct "c") :
    ∀ op ∈ [C04.Op.add k, .add k', .del "c"], ∀ id, Parties ct id ∨ Parties ct id → ¬ op.touches Rlk.id id := by
  intro op hop id hid e
  have hid := hid.elim (fun h => h) (fun h => h)
  simp only [List.mem_cons, List.not_mem_nil, or_false] at hop
  rcases hop with rfl | rfl | rfl
  · exact hc (by rw [← hk, show k.id = id from e]; exact hid)
  · exact hc (by rw [← hk', show k'.id = id from e]; exact hid)
  · exact hc (by rw [show ("c" : String) = id from e]; exact hid)

end MKHE.C64
