import Verif.Base.Limb
import Mathlib.LinearAlgebra.Vandermonde
import Mathlib.LinearAlgebra.Matrix.ToLinearEquiv
import Mathlib.RingTheory.RootsOfUnity.PrimitiveRoots
import Mathlib.FieldTheory.Finite.Basic

set_option autoImplicit false

/-!
# The contract `LimbOps` can be met

For every odd prime `q` and primitive `2N`-th root of unity modulo `q`, evaluation at the odd powers of the root
is a ring isomorphism from the negacyclic ring to the pointwise ring, and all operations of the contract exist.
-/

namespace MKHE
open Polynomial

variable {N q : ℕ} [NeZero N] [Fact q.Prime]

/-- evaluation of a negacyclic polynomial at a root `z` of `X^N + 1` -/
noncomputable def evalAt (z : ZMod q) (hz : z ^ N = -1) : Nega N (ZMod q) →+* ZMod q :=
  (AdjoinRoot.lift (RingHom.id _) z (by simp [hz])).comp Nega.toQuotHom

theorem evalAt_apply (z : ZMod q) (hz : z ^ N = -1) (a : Nega N (ZMod q)) :
    evalAt z hz a = ∑ j : Fin N, a j * z ^ (j : ℕ) := by
  have h0 : evalAt z hz a = AdjoinRoot.lift (RingHom.id _) z (by simp [hz]) (Nega.toQuot a) := rfl
  rw [h0]
  unfold Nega.toQuot Nega.rt
  rw [map_sum]
  refine Finset.sum_congr rfl fun j _ => ?_
  rw [map_mul, map_pow, AdjoinRoot.lift_of, AdjoinRoot.lift_root]; rfl

theorem psi_pow_N {ψ : ZMod q} (h : IsPrimitiveRoot ψ (2 * N)) : ψ ^ N = -1 := by
  have h2 : (ψ ^ N) ^ 2 = 1 := by rw [← pow_mul, mul_comm]; exact h.pow_eq_one
  rcases sq_eq_one_iff.mp h2 with h1 | h1
  · exfalso
    have := h.dvd_of_pow_eq_one N h1
    have hN : 0 < N := Nat.pos_of_ne_zero (NeZero.ne N)
    have := Nat.le_of_dvd hN this
    omega
  · exact h1
  
theorem psi_odd {ψ : ZMod q} (h : IsPrimitiveRoot ψ (2 * N)) (k : ℕ) : (ψ ^ (2 * k + 1)) ^ N = -1 := by
  rw [← pow_mul, mul_comm, pow_mul, psi_pow_N h, Odd.neg_one_pow ⟨k, rfl⟩]

/-- all evaluations at once -/
noncomputable def nttHom (ψ : ZMod q) (h : IsPrimitiveRoot ψ (2 * N)) : Nega N (ZMod q) →+* (Fin N → ZMod q) :=
  RingHom.pi fun k => evalAt (ψ ^ (2 * (k : ℕ) + 1)) (psi_odd h k)

theorem nttHom_injective (ψ : ZMod q) (h : IsPrimitiveRoot ψ (2 * N)) : Function.Injective (nttHom (N := N) ψ h) := by
  rw [injective_iff_map_eq_zero]
  intro a ha
  have hdet : (Matrix.vandermonde fun k : Fin N => ψ ^ (2 * (k : ℕ) + 1)).det ≠ 0 := by
    rw [Matrix.det_vandermonde_ne_zero_iff]
    intro i j hij
    have := h.pow_inj (by omega) (by omega) hij
    exact Fin.ext (by omega)
  have := Matrix.eq_zero_of_mulVec_eq_zero hdet (v := fun j => a j) (by
    funext k
    have hk : evalAt (ψ ^ (2 * (k : ℕ) + 1)) (psi_odd h k) a = 0 := congrFun ha k
    rw [evalAt_apply] at hk
    simp only [Matrix.mulVec, dotProduct, Matrix.vandermonde_apply, Pi.zero_apply]
    rw [← hk]
    exact Finset.sum_congr rfl fun j _ => mul_comm (_ : ZMod q) _)
  exact Nega.ext fun i => congrFun this i

/-- the transform is an isomorphism -/
noncomputable def nttEquiv (ψ : ZMod q) (h : IsPrimitiveRoot ψ (2 * N)) : Nega N (ZMod q) ≃+* (Fin N → ZMod q) :=
  RingEquiv.ofBijective (nttHom ψ h) (by
    have : Fintype (Nega N (ZMod q)) := inferInstanceAs (Fintype (Fin N → ZMod q))
    rw [Fintype.bijective_iff_injective_and_card]
    exact ⟨nttHom_injective ψ h, Fintype.card_congr (Equiv.refl _)⟩)

/-- canonical words of residues -/
def ofRes (f : Fin N → ZMod q) : Limb N q :=
  fun i => ⟨(f i).val, (ZMod.val_lt _).le⟩

omit [NeZero N] in
@[simp] theorem res_ofRes (f : Fin N → ZMod q) : (ofRes f).res = f := by
  funext i; simp [ofRes, Limb.res]

omit [NeZero N] in
@[simp] theorem rawRes_ofRes (f : Fin N → ZMod q) : rawRes q (ofRes f).raw = f := by
  funext i; simp [ofRes, Limb.raw, rawRes]

/-- **The contract is satisfiable**: an implementation of `LimbOps` for every odd prime with a primitive `2N`-th
root of unity. -/
noncomputable def limbInst (hodd : Odd q) (h61 : q < 2 ^ 61) (ψ : ZMod q) (h : IsPrimitiveRoot ψ (2 * N)) : LimbOps N q :=
  have hu : ((2 : ZMod q) ^ 64)⁻¹ * 2 ^ 64 = 1 := by
    refine inv_mul_cancel₀ (pow_ne_zero _ fun h2 => ?_)
    have : ((2 : ℕ) : ZMod q) = 0 := by exact_mod_cast h2
    rw [ZMod.natCast_eq_zero_iff] at this
    rcases (Nat.dvd_prime Nat.prime_two).mp this with h1 | h1
    · exact (Fact.out : q.Prime).one_lt.ne' h1
    · rw [h1] at hodd; exact absurd hodd (by decide)
  { F := nttEquiv ψ h
    odd := hodd
    lt61 := h61
    add := fun a b => ofRes (a.res + b.res)
    add_res := fun a b => res_ofRes _
    add_canon := fun _ _ _ _ => ZMod.val_lt _
    sub := fun a b => ofRes (a.res - b.res)
    sub_res := fun a b => res_ofRes _
    neg := fun a => ofRes (- a.res)
    neg_res := fun a => res_ofRes _
    reduce := fun a => ofRes a.res
    reduce_res := fun a => res_ofRes _
    reduce_lt := fun a i => ZMod.val_lt _
    mform := fun a => ofRes (a.res * fun _ => 2 ^ 64)
    mform_res := fun a => res_ofRes _
    mform_canon := fun _ _ => ZMod.val_lt _
    invMform := fun a => ofRes (a.res * fun _ => (2 ^ 64)⁻¹)
    invMform_res := fun a => by
      rw [res_ofRes]; funext i; simp only [Pi.mul_apply]; rw [mul_assoc, hu, mul_one]
    mulMont := fun a b => ofRes (a.res * b.res * fun _ => (2 ^ 64)⁻¹)
    mulMont_res := fun a b => by
      rw [res_ofRes]; funext i; simp only [Pi.mul_apply]; rw [mul_assoc, hu, mul_one]
    mulMont_canon := fun _ _ _ => ZMod.val_lt _
    mulMontAdd := fun a b c => ofRes (c.res + a.res * b.res * fun _ => (2 ^ 64)⁻¹)
    mulMontAdd_res := fun a b c => by
      rw [res_ofRes, add_sub_cancel_left]; funext i; simp only [Pi.mul_apply]; rw [mul_assoc, hu, mul_one]
    mulMontAdd_canon := fun _ _ _ _ _ => ZMod.val_lt _
    mulMontSub := fun a b c => ofRes (c.res - a.res * b.res * fun _ => (2 ^ 64)⁻¹)
    mulMontSub_res := fun a b c => by
      rw [res_ofRes, sub_sub_cancel]; funext i; simp only [Pi.mul_apply]; rw [mul_assoc, hu, mul_one]
    mulScalar := fun n a => ofRes ((fun _ => (n : ZMod q)) * a.res)
    mulScalar_res := fun n a => res_ofRes _
    nttRaw := fun a => ofRes (nttEquiv ψ h (rawPoly q a))
    nttRaw_res := fun a _ => res_ofRes _
    nttRaw_canon := fun _ _ => ZMod.val_lt _
    nttLazy := fun a => (ofRes (nttEquiv ψ h (rawPoly q a))).raw
    nttLazy_res := fun a _ => rawRes_ofRes _
    nttLazy_lt := fun a i => by
      have : (ofRes (nttEquiv (N := N) ψ h (rawPoly q a))).raw i < q := ZMod.val_lt _
      omega
    intt := fun a => ofRes ((nttEquiv ψ h).symm a.res)
    intt_res := fun a => by
      have : cf (ofRes ((nttEquiv (N := N) ψ h).symm a.res)) = (nttEquiv ψ h).symm a.res := res_ofRes _
      rw [this, RingEquiv.apply_symm_apply]
    intt_canon := fun _ _ => ZMod.val_lt _
    inttLazy := fun a => (ofRes ((nttEquiv ψ h).symm a.res)).raw
    inttLazy_res := fun a => by
      have : rawPoly q (ofRes ((nttEquiv (N := N) ψ h).symm a.res)).raw = (nttEquiv ψ h).symm a.res :=
        rawRes_ofRes _
      rw [this, RingEquiv.apply_symm_apply]
    inttLazy_lt := fun a i => by
      have : (ofRes ((nttEquiv (N := N) ψ h).symm a.res)).raw i < q := ZMod.val_lt _
      omega
    permNTT := fun g a => ofRes (nttEquiv ψ h (Nega.galois g ((nttEquiv ψ h).symm a.res)))
    permNTT_res := fun g _ a => by rw [res_ofRes, RingEquiv.symm_apply_apply]
    permute := fun g a => ofRes (Nega.galois g (cf a))
    permute_res := fun g _ a => res_ofRes _ }

end MKHE
