import Verif.Model.Crypt
import Verif.Model.BfvKeyGen
import Mathlib.Logic.Equiv.Basic

set_option autoImplicit false

/-!
# Renaming parties (specification for C73)

A renaming is a one-to-one change of identifiers that keeps the reserved identifier "0" (the identifier of the common component of a
ciphertext, idset.go:12-17, elements.go:22-33). Renaming an object replaces every identifier in it, that is the keys of its maps and the `ID`
fields of keys, and nothing else. The iteration order of a Go map has no relation to its keys; the order of the renamed map is the renamed order.
-/

namespace MKHE

/-- a one-to-one renaming of identifiers that keeps "0" -/
structure Renaming where
  perm : Equiv.Perm String
  zero : perm "0" = "0"

instance : CoeFun Renaming fun _ => String → String := ⟨fun π => π.perm⟩

/-- replace every key `k` of a map by `e k`, and every value `v` by `g v` -/
def GoMap.ren {κ β : Type*} [DecidableEq κ] (e : Equiv.Perm κ) (g : β → β) (m : GoMap κ β) : GoMap κ β :=
  ⟨m.entries.map fun s => ⟨e s.1, g s.2⟩, by
    have h := m.nodupKeys
    unfold List.NodupKeys List.keys at h ⊢
    rw [List.map_map]
    have : (Sigma.fst ∘ fun s : (_ : κ) × β => (⟨e s.1, g s.2⟩ : (_ : κ) × β)) = e ∘ Sigma.fst := rfl
    rw [this, ← List.map_map]
    exact h.map e.injective⟩

/-- a map from parties to objects that contain no identifiers: ciphertexts, hoisted forms, pools, sets of identifiers -/
def GoMap.rn {β : Type*} (π : Renaming) (m : GoMap String β) : GoMap String β := GoMap.ren π.perm (fun v => v) m

/-- the renamed iteration order -/
def Order.ren (π : Renaming) (o : Order String) : Order String where
  f l := (o.f (l.map π.perm.symm)).map π
  perm l := by
    have := (o.perm (l.map π.perm.symm)).map π
    rwa [List.map_map, show (π ∘ π.perm.symm : String → String) = fun x => x from funext fun x => π.perm.apply_symm_apply x, List.map_id'] at this

/-- all orders of a schedule -/
def Sched.ren (π : Renaming) (o : Sched String) : Sched String := fun k => (o k).ren π

def IDSet.ren (π : Renaming) (s : IDSet) : IDSet := ⟨s.value.rn π⟩

section Keys
variable {N : ℕ} [NeZero N] {C : Ctx N} {B : BCtx N}

def SKey.ren (π : Renaming) (k : SKey C) : SKey C := { k with id := π k.id }
def PKey.ren (π : Renaming) (k : PKey C) : PKey C := { k with id := π k.id }
def Rlk.ren (π : Renaming) (k : Rlk C) : Rlk C := { k with id := π k.id }
def GalKey.ren (π : Renaming) (k : GalKey C) : GalKey C := { k with id := π k.id }
def BRlk.ren (π : Renaming) (k : BRlk C) : BRlk C := ⟨π k.id, k.k1.ren π, k.k2.ren π⟩

/-- secret, public and conjugation key sets; `g` renames a key -/
def KeySet.ren {K : Type} (π : Renaming) (g : K → K) (s : KeySet K) : KeySet K := ⟨GoMap.ren π.perm g s.value⟩
def RotKeySet.ren (π : Renaming) (s : RotKeySet (GalKey C)) : RotKeySet (GalKey C) :=
  ⟨GoMap.ren π.perm (GoMap.ren (Equiv.refl ℕ) (GalKey.ren π)) s.value⟩
def RlkMap.ren (π : Renaming) (s : RlkMap C) : RlkMap C := ⟨GoMap.ren π.perm (Rlk.ren π) s.value, s.pool0.rn π, s.pool1.rn π⟩
def BRlkMap.ren (π : Renaming) (s : BRlkMap B) : BRlkMap B :=
  ⟨GoMap.ren π.perm (BRlk.ren π) s.value, s.polyR1.rn π, s.polyR2.rn π, s.hoist10.rn π, s.hoist11.rn π, s.hoist20.rn π, s.hoist21.rn π⟩

/-- a CKKS ciphertext keeps its scale -/
def CCt.ren (π : Renaming) (c : CCt C) : CCt C := ⟨c.ct.rn π, c.scale⟩
/-- the evaluator's only object with identifiers is its pool ciphertext -/
def Eval.ren (π : Renaming) (E : Eval C) : Eval C := { E with pool := E.pool.rn π }

end Keys

end MKHE
