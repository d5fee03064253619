import Verif.Model.Rotate

set_option autoImplicit false

/-!
# Model of mkrlwe/elements.go on values

Ciphertexts are maps from ids to polynomials. Sharing of polynomials between ciphertexts is the subject of `Verif/Model/Heap.lean`;
here every function returns the new contents of the ciphertext it writes.
-/

namespace MKHE
variable {N : ℕ} [NeZero N] {C : Ctx N}

/-- `ring.NewPoly(N, level+1)`: zero rows, no NTT flag -/
def Poly.new (level : ℕ) : Poly C := ⟨level + 1, false, fun _ => Limb.zero⟩

/-- `NewCiphertext(params, idset, level)` (elements.go:22-33) -/
def Ct.new (o : Order String) (ids : IDSet) (level : ℕ) : Ct C :=
  (GoMap.range o ids.value).foldl (fun ct id => ct.insert id (Poly.new level)) (AList.insert "0" (Poly.new level) ∅)

/-- `CopyNew()` (elements.go:70-81) -/
def Ct.copyNew (o : Order String) (ct : Ct C) : Go (Ct C) := do
  let p0 ← ct.deref "0"
  Go.loop (fun out id => do
    let p ← ct.deref id
    .ok (out.insert id p)) (AList.insert "0" p0 (∅ : Ct C)) (GoMap.range o ct)

/-- `Copy(ct)` (elements.go:84-88) -/
def Ct.copyFrom (o : Order String) (dst src : Ct C) : Go (Ct C) :=
  Go.loop (fun (dst : Ct C) id => do
    let p ← dst.deref id
    let q ← src.deref id
    .ok (dst.insert id (p.copy q))) dst (GoMap.range o src)

/-- `PadCiphertext(idset)` (elements.go:91-105); `o1` orders `el.IDSet()`, `o2` the loop -/
def Ct.pad (o1 o2 : Order String) (ct : Ct C) (ids : IDSet) : Go (Ct C) := do
  let p0 ← ct.deref "0"
  let old ← IDSet.ofCiphertext o1 ct
  .ok ((GoMap.range o2 ids.value).foldl (fun (ct : Ct C) id =>
    if old.has id then ct else ct.insert id { Poly.new (p0.len - 1) with isNTT := p0.isNTT }) ct)

end MKHE
