import Verif.Model.HeapKeyTrace

set_option autoImplicit false

/-!
# `AddCRS`, stopped on the way

`AddCRS` (mkrlwe/params.go:77-99) enters an empty switching key in the CRS map and then, component by component, allocates a polynomial, stores it in the key, fills it
from the uniform samplers and puts it into Montgomery form. `AddStopped` says what the map and the memory hold when the call is stopped in between.

Simplification: `make([]rlwe.PolyQP, beta)` gives the key all its components at once, those not yet allocated with nil polynomials; here the entry has only the components
allocated so far. A later read of a component that is missing panics here with an index out of range, in Go with a nil dereference.
-/

namespace MKHE
namespace Heap
variable {N : ℕ} [NeZero N] (C : Ctx N)

/-- `uniformSamplerQ.Read(v.Q)` and `uniformSamplerP.Read(v.P)` returning `u` (params.go:95-96), with the writes recorded -/
def hUniformT (u : PolyQP C) (v : QP) (h : Heap N) : TG N (Heap N) := qpOpT (C := C) (fun i _ _ _ => u.Q i) (fun j _ _ _ => u.P j) v v v h

/-- the samplers and `MFormLvl` (params.go:95-97) -/
def hFillCrsT (u : PolyQP C) (v : QP) (h : Heap N) : TG N (Heap N) := do
  let h ← hUniformT C u v h
  hMFormT C v v h

/-- `AddStopped C us used h entry g`: `AddCRS` called on memory `h` when the samplers are at `used` may be stopped with the components `entry` in the map and the
memory `g` (params.go:89-98) -/
inductive AddStopped (us : ℕ → PolyQP C) (used : ℕ) (h : Heap N) : SwkObj → Heap N → Prop
  /-- `i` components are finished, `NewPoly` has not returned (params.go:94) -/
  | allocating (i : ℕ) {w : SwkObj × ℕ × Heap N} {g : Heap N} : i < C.beta (C.nQ - 1) → Go.loop (hCrsStep C us) ([], used, h) (List.range i) = .ok w →
      Write.During w.2.2 (newQPT C w.2.2).writes g → AddStopped us used h w.1 g
  /-- `i` components are finished, the next one is stored and is being filled (params.go:95-97) -/
  | filling (i : ℕ) {w : SwkObj × ℕ × Heap N} {v : QP × Heap N} {g : Heap N} : i < C.beta (C.nQ - 1) →
      Go.loop (hCrsStep C us) ([], used, h) (List.range i) = .ok w → (newQPT C w.2.2).res = .ok v →
      Write.During v.2 (hFillCrsT C (us w.2.1) v.1 v.2).writes g → AddStopped us used h (w.1 ++ [v.1]) g

variable {C}

/-- the program after an `AddCRS(idx)` that was stopped with the components `entry` in the map, in memory `g`, the samplers wherever they are -/
def HState.addStopped (s : HState N) (idx : ℤ) (entry : SwkObj) (used : ℕ) (g : Heap N) : HState N :=
  { s with crs := s.crs.insert idx entry, used := used, heap := g }

end Heap
end MKHE
