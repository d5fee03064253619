import Verif.Spec.Rename

set_option autoImplicit false

/-!
# Renaming commutes with maps, loops and sequencing
-/

namespace MKHE

namespace GoMap
variable {κ β : Type*} [DecidableEq κ] (e : Equiv.Perm κ) (g : β → β)

theorem keys_ren (m : GoMap κ β) : (m.ren e g).keys = m.keys.map e := by
  unfold AList.keys GoMap.ren List.keys
  rw [List.map_map, List.map_map]
  rfl

theorem lookup_ren (m : GoMap κ β) (k : κ) : (m.ren e g).lookup (e k) = (m.lookup k).map g := by
  unfold AList.lookup GoMap.ren
  dsimp only
  induction m.entries with
  | nil => rfl
  | cons a l ih =>
    obtain ⟨x, v⟩ := a
    by_cases h : k = x
    · subst h; simp [List.dlookup_cons_eq]
    · rw [List.map_cons, List.dlookup_cons_ne _ _ (by simpa using h), List.dlookup_cons_ne _ _ (by simpa using h), ih]

theorem erase_ren (m : GoMap κ β) (k : κ) : GoMap.ren e g (m.erase k) = (m.ren e g).erase (e k) := by
  apply AList.ext
  show (List.kerase k m.entries).map _ = List.kerase (e k) (m.entries.map _)
  induction m.entries with
  | nil => rfl
  | cons a l ih =>
    obtain ⟨x, v⟩ := a
    by_cases h : k = x
    · subst h; simp
    · rw [List.kerase_cons_ne (by simpa using h), List.map_cons, List.map_cons, List.kerase_cons_ne (by simpa using h), ih]

theorem insert_ren (m : GoMap κ β) (k : κ) (v : β) : GoMap.ren e g (m.insert k v) = (m.ren e g).insert (e k) (g v) := by
  apply AList.ext
  have := congrArg AList.entries (erase_ren e g m k)
  have e1 : (GoMap.ren e g (m.insert k v)).entries = (m.insert k v).entries.map fun s => ⟨e s.1, g s.2⟩ := rfl
  rw [e1, AList.entries_insert, AList.entries_insert, List.map_cons]
  exact congrArg _ this

theorem empty_ren : (∅ : GoMap κ β).ren e g = ∅ := rfl

theorem deref_ren (m : GoMap κ β) (k : κ) : (m.ren e g).deref (e k) = (m.deref k).map g := by
  unfold deref
  rw [lookup_ren]
  cases m.lookup k <;> rfl

end GoMap

variable (π : Renaming)

namespace GoMap
variable {β : Type*} (m : GoMap String β)

theorem rn_eq : m.rn π = m.ren π.perm fun v => v := rfl

theorem lookup_rn (k : String) : (m.rn π).lookup (π k) = m.lookup k := by
  rw [rn_eq, lookup_ren]; exact Option.map_id'

theorem lookup_rn0 : (m.rn π).lookup "0" = m.lookup "0" := by
  have := lookup_rn π m "0"; rwa [π.zero] at this

theorem insert_rn (k : String) (v : β) : GoMap.rn π (m.insert k v) = (m.rn π).insert (π k) v := insert_ren _ _ m k v
theorem insert_rn0 (v : β) : GoMap.rn π (m.insert "0" v) = (m.rn π).insert "0" v := by
  have := insert_rn π m "0" v; rwa [π.zero] at this
theorem erase_rn (k : String) : GoMap.rn π (m.erase k) = (m.rn π).erase (π k) := erase_ren _ _ m k
theorem empty_rn : (∅ : GoMap String β).rn π = ∅ := rfl
theorem keys_rn : (m.rn π).keys = m.keys.map π := keys_ren _ _ m

theorem deref_rn (k : String) : (m.rn π).deref (π k) = m.deref k := by
  unfold deref; rw [lookup_rn]

theorem deref_rn0 : (m.rn π).deref "0" = m.deref "0" := by
  unfold deref; rw [lookup_rn0]

theorem range_ren (o : Order String) (g : β → β) : GoMap.range (o.ren π) (m.ren π.perm g) = (GoMap.range o m).map π := by
  unfold GoMap.range Order.ren
  dsimp only
  rw [keys_ren, List.map_map, show (π.perm.symm ∘ π.perm : String → String) = fun x => x from funext fun x => π.perm.symm_apply_apply x, List.map_id']

theorem range_rn (o : Order String) : GoMap.range (o.ren π) (m.rn π) = (GoMap.range o m).map π := range_ren π m o _

end GoMap

/-! ## sequencing -/

namespace Go
variable {α α' β β' σ σ' : Type}

theorem bind_ren {x : Go α} {y : Go α'} {r : α → α'} {f : α → Go β} {g : α' → Go β'} {s : β → β'} (h : y = x.map r)
    (hf : ∀ a, g (r a) = (f a).map s) : (y >>= g) = (x >>= f).map s := by
  subst h
  cases x with
  | ok a => exact hf a
  | error e => rfl

/-- the first call has the same result in both runs -/
theorem bind_eq' {x y : Go α} {f : α → Go β} {g : α → Go β'} {s : β → β'} (h : y = x) (hf : ∀ a, g a = (f a).map s) : (y >>= g) = (x >>= f).map s := by
  subst h
  cases y with
  | ok a => exact hf a
  | error e => rfl

/-- both runs have the same result -/
theorem bind_ren_same {x : Go α} {y : Go α'} {r : α → α'} {f : α → Go β} {g : α' → Go β} (h : y = x.map r) (hf : ∀ a, g (r a) = f a) : (y >>= g) = (x >>= f) := by
  subst h
  cases x with
  | ok a => exact hf a
  | error e => rfl

theorem loop_ren (π : String → String) {f : σ → String → Go σ} {g : σ' → String → Go σ'} {r : σ → σ'} (l : List String) (s : σ)
    (h : ∀ s id, g (r s) (π id) = (f s id).map r) : Go.loop g (r s) (l.map π) = (Go.loop f s l).map r := by
  induction l generalizing s with
  | nil => rfl
  | cons a l ih =>
    rw [List.map_cons, Go.loop_cons, Go.loop_cons, h]
    cases f s a with
    | ok s' => exact ih s'
    | error e => rfl

theorem ite_ren {p : Prop} [Decidable p] {a b : Go α} {a' b' : Go α'} {r : α → α'} (ha : a' = a.map r) (hb : b' = b.map r) :
    (if p then a' else b') = (if p then a else b).map r := by
  split_ifs
  · exact ha
  · exact hb

theorem map_id {x : Go α} : x.map (fun a => a) = x := by cases x <;> rfl

end Go

theorem foldl_ren {σ σ' : Type} (π : String → String) {f : σ → String → σ} {g : σ' → String → σ'} {r : σ → σ'} (l : List String) (s : σ)
    (h : ∀ s id, g (r s) (π id) = r (f s id)) : List.foldl g (r s) (l.map π) = r (List.foldl f s l) := by
  induction l generalizing s with
  | nil => rfl
  | cons a l ih =>
    rw [List.map_cons, List.foldl_cons, List.foldl_cons, h, ih]

/-! ## renamings from one-to-one maps -/

namespace Renaming

theorem eq_zero {k : String} : π k = "0" ↔ k = "0" := by
  constructor
  · intro h; exact π.perm.injective (h.trans π.zero.symm)
  · rintro rfl; exact π.zero

/-- no renaming at all -/
def one : Renaming := ⟨Equiv.refl _, rfl⟩

/-- the inverse renaming -/
def inv : Renaming := ⟨π.perm.symm, π.perm.symm_apply_eq.2 π.zero.symm⟩

end Renaming

theorem GoMap.rn_inv {β : Type*} (m : GoMap String β) : (m.rn π).rn π.inv = m := by
  apply AList.ext
  show (m.entries.map _).map _ = m.entries
  rw [List.map_map]
  conv_rhs => rw [← List.map_id m.entries]
  refine List.map_congr_left fun s _ => ?_
  obtain ⟨k, v⟩ := s
  show (⟨π.perm.symm (π.perm k), v⟩ : (_ : String) × β) = ⟨k, v⟩
  rw [Equiv.symm_apply_apply]

theorem GoMap.rn_injective {β : Type*} : Function.Injective (GoMap.rn π (β := β)) := fun a b h => by
  have := congrArg (GoMap.rn π.inv) h
  rwa [GoMap.rn_inv, GoMap.rn_inv] at this

end MKHE
