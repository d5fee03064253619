import Verif.Base.Go

set_option autoImplicit false

/-!
# Model of mkrlwe/idset.go and of `Ciphertext.IDSet` (mkrlwe/elements.go:47-57)
-/

namespace MKHE

/-- `IDSet` (mkrlwe/idset.go:3-5): `map[string]struct{}`. -/
structure IDSet where
  value : GoMap String Unit

namespace IDSet

/-- `Has` (idset.go:7-10). -/
def has (s : IDSet) (v : String) : Bool := (s.value.lookup v).isSome

/-- `Add` (idset.go:12-17): panics on "0", else inserts. The receiver is updated in place; the model
returns the new value. -/
def add (s : IDSet) (v : String) : Go IDSet :=
  if v = "0" then .error (.panic "Cannot IDSet Add : 0 cannot be used")
  else .ok ⟨s.value.insert v ()⟩

/-- `Remove` (idset.go:19-21): `delete(s.Value, v)`. -/
def remove (s : IDSet) (v : String) : IDSet := ⟨s.value.erase v⟩

/-- `Size` (idset.go:23-25): `len(s.Value)`. -/
def size (s : IDSet) : ℕ := s.value.keys.length

/-- `NewIDSet` (idset.go:27-31). -/
def new : IDSet := ⟨∅⟩

/-- `CopyNew` (idset.go:33-39), ranging over `s.Value` in the order `o`. -/
def copyNew (o : Order String) (s : IDSet) : Go IDSet :=
  Go.loop (fun res v => res.add v) new (GoMap.range o s.value)

/-- `Intersection` (idset.go:41-50), ranging over `s2.Value` in the order `o`. -/
def intersection (o : Order String) (s s2 : IDSet) : Go IDSet :=
  Go.loop (fun res v => if s.has v then res.add v else .ok res) new (GoMap.range o s2.value)

/-- `Union` (idset.go:52-62), with an iteration order for each of its two loops. -/
def union (o1 o2 : Order String) (s s2 : IDSet) : Go IDSet :=
  match Go.loop (fun res v => res.add v) new (GoMap.range o1 s.value) with
  | .ok res => Go.loop (fun res v => res.add v) res (GoMap.range o2 s2.value)
  | .error e => .error e

/-- `(el *Ciphertext) IDSet` (mkrlwe/elements.go:47-57): all keys of the ciphertext's map but "0". The value
type of the map is irrelevant. -/
def ofCiphertext {β : Type*} (o : Order String) (m : GoMap String β) : Go IDSet :=
  Go.loop (fun res id => if id ≠ "0" then res.add id else .ok res) new (GoMap.range o m)

end IDSet
end MKHE
