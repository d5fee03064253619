import Verif.Base.Go

set_option autoImplicit false

/-!
# Model of the key sets: mkrlwe/keys.go and mkbfv/keys.go

Keys are pointers to immutable-here records; the model keeps the record type abstract (`K`) with its `ID`
field given by `idOf`.
-/

namespace MKHE

/-- `SecretKeySet` (mkrlwe/keys.go:12-14), `PublicKeySet` (28-30), `ConjugationKeySet` (65-67): all three are
`struct { Value map[string]*K }`. -/
structure KeySet (K : Type*) where
  value : GoMap String K

namespace KeySet
variable {K : Type*}

/-- `NewSecretKeySet` (keys.go:70-74), `NewPublicKeyKeySet` (keys.go:97-101), `NewConjugationKeySet` (keys.go:201-205). -/
def new : KeySet K := ⟨∅⟩

/-- `AddSecretKey` (keys.go:77-79), `AddPublicKey` (keys.go:104-106), `AddConjugationKey` (keys.go:208-210):
`set.Value[k.ID] = k`. -/
def add (idOf : K → String) (s : KeySet K) (k : K) : KeySet K := ⟨s.value.insert (idOf k) k⟩

/-- `DelSecretKey` (keys.go:82-84), `DelPublicKey` (keys.go:109-111), `DelConjugationKey` (keys.go:213-215). -/
def del (s : KeySet K) (id : String) : KeySet K := ⟨s.value.erase id⟩

/-- `GetSecretKey` (keys.go:87-94), `GetPublicKey` (keys.go:114-122), `GetConjugationKey` (keys.go:218-226). The panic
message is a parameter (the three functions use different texts). -/
def get (msg : String) (s : KeySet K) (id : String) : Go K :=
  match s.value.lookup id with
  | some k => .ok k
  | none => .error (.panic msg)

end KeySet

/-- `mkrlwe.RelinearizationKeySet` (keys.go:53-57): the key map and the two hoisting pools
(`HoistPool[0].Value`, `HoistPool[1].Value`, maps to switching keys `W`). `params` only feeds `NewSwitchingKey`,
whose result is the parameter `fresh`. -/
structure RlkSet (K W : Type*) where
  value : GoMap String K
  pool0 : GoMap String W
  pool1 : GoMap String W

namespace RlkSet
variable {K W : Type*}

/-- `NewRelinearizationKeyKeySet` (keys.go:165-175). -/
def new : RlkSet K W := ⟨∅, ∅, ∅⟩

/-- `AddRelinearizationKey` (keys.go:178-182). -/
def add (idOf : K → String) (fresh : W) (s : RlkSet K W) (k : K) : RlkSet K W :=
  ⟨s.value.insert (idOf k) k, s.pool0.insert (idOf k) fresh, s.pool1.insert (idOf k) fresh⟩

/-- `DelRelinearizationKey` (keys.go:185-187): deletes from `Value` only. -/
def del (s : RlkSet K W) (id : String) : RlkSet K W := { s with value := s.value.erase id }

/-- `GetRelinearizationKey` (keys.go:190-198). -/
def get (s : RlkSet K W) (id : String) : Go K :=
  match s.value.lookup id with
  | some k => .ok k
  | none => .error (.panic "cannot GetRelinearizationKey: there is no relinearization key with given id")

end RlkSet

/-- `mkbfv.RelinearizationKeySet` (mkbfv/keys.go:12-22): key map, two ring-R polynomial pools, four hoisting pools. -/
structure BfvRlkSet (K W R : Type*) where
  value : GoMap String K
  polyR1 : GoMap String R
  polyR2 : GoMap String R
  hoist10 : GoMap String W
  hoist11 : GoMap String W
  hoist20 : GoMap String W
  hoist21 : GoMap String W

namespace BfvRlkSet
variable {K W R : Type*}

/-- `NewRelinearizationKeyKeySet` (mkbfv/keys.go:36-54); `z` is `RingR().NewPoly()`. -/
def new (z : R) : BfvRlkSet K W R :=
  ⟨∅, AList.insert "0" z ∅, AList.insert "0" z ∅, ∅, ∅, ∅, ∅⟩

/-- `AddRelinearizationKey` (mkbfv/keys.go:57-67). -/
def add (idOf : K → String) (z : R) (fresh : W) (s : BfvRlkSet K W R) (k : K) : BfvRlkSet K W R :=
  { value := s.value.insert (idOf k) k
    polyR1 := s.polyR1.insert (idOf k) z
    polyR2 := s.polyR2.insert (idOf k) z
    hoist10 := s.hoist10.insert (idOf k) fresh
    hoist11 := s.hoist11.insert (idOf k) fresh
    hoist20 := s.hoist20.insert (idOf k) fresh
    hoist21 := s.hoist21.insert (idOf k) fresh }

/-- `DelRelinearizationKey` (mkbfv/keys.go:70-72). -/
def del (s : BfvRlkSet K W R) (id : String) : BfvRlkSet K W R := { s with value := s.value.erase id }

/-- `GetRelinearizationKey` (mkbfv/keys.go:75-83). -/
def get (s : BfvRlkSet K W R) (id : String) : Go K :=
  match s.value.lookup id with
  | some k => .ok k
  | none => .error (.panic "cannot GetRelinearizationKey: there is no relinearization key with given id")

end BfvRlkSet

/-- `RotationKeySet` (mkrlwe/keys.go:60-62): `map[string]map[uint]*RotationKey`. -/
structure RotKeySet (K : Type*) where
  value : GoMap String (GoMap ℕ K)

namespace RotKeySet
variable {K : Type*}

/-- `NewRotationKeySet` (keys.go:125-130). -/
def new : RotKeySet K := ⟨∅⟩

/-- `AddRotationKey` (keys.go:133-143): create the inner map if the id is unknown, then store. -/
def add (idOf : K → String) (idxOf : K → ℕ) (s : RotKeySet K) (k : K) : RotKeySet K :=
  let v1 := match s.value.lookup (idOf k) with
    | some _ => s.value
    | none => s.value.insert (idOf k) ∅
  match v1.lookup (idOf k) with
  | some inner => ⟨v1.insert (idOf k) (inner.insert (idxOf k) k)⟩
  | none => ⟨v1⟩   -- unreachable: the entry was just created

/-- `DelRotationKey` (keys.go:146-148): `delete` on the inner map; on a missing id the inner map is nil and
`delete` does nothing. -/
def del (s : RotKeySet K) (id : String) (idx : ℕ) : RotKeySet K :=
  match s.value.lookup id with
  | some inner => ⟨s.value.insert id (inner.erase idx)⟩
  | none => s

/-- `GetRotationKey` (keys.go:151-162). -/
def get (s : RotKeySet K) (id : String) (idx : ℕ) : Go K :=
  match s.value.lookup id with
  | none => .error (.panic "cannot GetRotationKeys: there is no rotation key with given id")
  | some inner =>
    match inner.lookup idx with
    | none => .error (.panic "cannot GetRotationKeys: there is no rotation key with given id")
    | some k => .ok k

end RotKeySet
end MKHE
