import Verif.Base.Nega
import Mathlib.Data.ZMod.Basic
import Mathlib.Tactic.Ring
import Mathlib.Tactic.Linarith

set_option autoImplicit false

/-!
# Words, limbs, and the contract of lattigo's per-modulus operations

A polynomial of the code is a list of rows, one per prime; a row is `N` machine words. Words are *at most* `q`
(not below `q`): the repository itself stores the word `q` (mkrlwe/keyswitch.go:290).

`LimbOps N q` is the contract for the lattigo v2.3.0 functions of package `ring` that the repository calls
on one row. It is part of the trusted base; `Verif/Base/LimbInst.lean` shows that it can be met for every
odd prime with a primitive `2N`-th root of unity.
-/

namespace MKHE

/-- a machine word standing for a residue modulo `q`, possibly the non-canonical word `q` itself -/
structure Word (q : ℕ) where
  val : ℕ
  le : val ≤ q

/-- one row of a polynomial -/
abbrev Limb (N q : ℕ) := Fin N → Word q

/-- the zero row (`ring.NewPoly`, `Poly.Zero`) -/
def Limb.zero {N q : ℕ} : Limb N q := fun _ => ⟨0, Nat.zero_le _⟩

/-- the residues of a row of raw words -/
def rawRes {N : ℕ} (q : ℕ) (a : Fin N → ℕ) : Fin N → ZMod q := fun i => (a i : ZMod q)

/-- all words of the row are reduced -/
def Limb.Canon {N q : ℕ} (a : Limb N q) : Prop := ∀ i, (a i).val < q

/-- the residues of a row -/
def Limb.res {N q : ℕ} (a : Limb N q) : Fin N → ZMod q := fun i => ((a i).val : ZMod q)

/-- the raw words of a row -/
def Limb.raw {N q : ℕ} (a : Limb N q) : Fin N → ℕ := fun i => (a i).val

/-- the polynomial represented by a row in the coefficient domain -/
def cf {N q : ℕ} (a : Limb N q) : Nega N (ZMod q) := a.res

/-- the polynomial represented by raw words in the coefficient domain -/
def rawPoly {N : ℕ} (q : ℕ) (a : Fin N → ℕ) : Nega N (ZMod q) := rawRes q a

/-- Contract of the lattigo operations on one row modulo `q`. -/
structure LimbOps (N q : ℕ) [NeZero N] where
  /-- the number-theoretic transform as a ring isomorphism -/
  F : Nega N (ZMod q) ≃+* (Fin N → ZMod q)
  /-- `q` is odd (Montgomery arithmetic with `R = 2^64`) -/
  odd : Odd q
  /-- word-size bound of lattigo moduli -/
  lt61 : q < 2 ^ 61
  /-- `AddLvl` -/
  add : Limb N q → Limb N q → Limb N q
  add_res : ∀ a b, (add a b).res = a.res + b.res
  /-- the conditional subtraction reduces `x + y` if one of the words is below `q` -/
  add_canon : ∀ a b, a.Canon ∨ b.Canon → (add a b).Canon
  /-- `SubLvl` -/
  sub : Limb N q → Limb N q → Limb N q
  sub_res : ∀ a b, (sub a b).res = a.res - b.res
  /-- `NegLvl` -/
  neg : Limb N q → Limb N q
  neg_res : ∀ a, (neg a).res = - a.res
  /-- `ReduceLvl` -/
  reduce : Limb N q → Limb N q
  reduce_res : ∀ a, (reduce a).res = a.res
  reduce_lt : ∀ a i, (reduce a i).val < q
  /-- `MFormLvl`: multiplication by `2^64` -/
  mform : Limb N q → Limb N q
  mform_res : ∀ a, (mform a).res = a.res * fun _ => (2 : ZMod q) ^ 64
  mform_canon : ∀ a, (mform a).Canon
  /-- `InvMFormLvl`: division by `2^64` -/
  invMform : Limb N q → Limb N q
  invMform_res : ∀ a, (invMform a).res * (fun _ => (2 : ZMod q) ^ 64) = a.res
  /-- `MulCoeffsMontgomeryLvl`: pointwise product divided by `2^64` -/
  mulMont : Limb N q → Limb N q → Limb N q
  mulMont_res : ∀ a b, (mulMont a b).res * (fun _ => (2 : ZMod q) ^ 64) = a.res * b.res
  mulMont_canon : ∀ a b, (mulMont a b).Canon
  /-- `MulCoeffsMontgomeryAndAddLvl(a, b, c)`: `c + a*b/2^64` -/
  mulMontAdd : Limb N q → Limb N q → Limb N q → Limb N q
  mulMontAdd_res : ∀ a b c, ((mulMontAdd a b c).res - c.res) * (fun _ => (2 : ZMod q) ^ 64) = a.res * b.res
  mulMontAdd_canon : ∀ a b c, c.Canon → (mulMontAdd a b c).Canon
  /-- `MulCoeffsMontgomeryAndSubLvl(a, b, c)`: `c - a*b/2^64` -/
  mulMontSub : Limb N q → Limb N q → Limb N q → Limb N q
  mulMontSub_res : ∀ a b c, (c.res - (mulMontSub a b c).res) * (fun _ => (2 : ZMod q) ^ 64) = a.res * b.res
  /-- `MulScalarLvl`, `MulScalarBigintLvl` -/
  mulScalar : ℕ → Limb N q → Limb N q
  mulScalar_res : ∀ n a, (mulScalar n a).res = (fun _ => (n : ZMod q)) * a.res
  /-- `NTTLvl`, accepting unreduced words below `2^63` (each butterfly subtracts `4q` from a large first operand and
  fully reduces the second; the final Barrett reduction accepts any word) -/
  nttRaw : (Fin N → ℕ) → Limb N q
  nttRaw_res : ∀ a, (∀ i, a i < 2 ^ 63) → (nttRaw a).res = F (rawPoly q a)
  nttRaw_canon : ∀ a, (nttRaw a).Canon
  /-- `ring.NTTLazy`: the same, words below `2q` -/
  nttLazy : (Fin N → ℕ) → (Fin N → ℕ)
  nttLazy_res : ∀ a, (∀ i, a i < 2 ^ 63) → rawRes q (nttLazy a) = F (rawPoly q a)
  nttLazy_lt : ∀ a i, nttLazy a i < 2 * q
  /-- `InvNTTLvl` -/
  intt : Limb N q → Limb N q
  intt_res : ∀ a, F (cf (intt a)) = a.res
  intt_canon : ∀ a, (intt a).Canon
  /-- `InvNTTLazyLvl`: words below `2q` -/
  inttLazy : Limb N q → (Fin N → ℕ)
  inttLazy_res : ∀ a, F (rawPoly q (inttLazy a)) = a.res
  inttLazy_lt : ∀ a i, inttLazy a i < 2 * q
  /-- `PermuteNTTWithIndexLvl` with the index of the Galois element `g` -/
  permNTT : ℕ → Limb N q → Limb N q
  permNTT_res : ∀ g, Odd g → ∀ a : Limb N q, F.symm (permNTT g a).res = Nega.galois g (F.symm a.res)
  /-- `ring.Permute` with the Galois element `g` (coefficient domain) -/
  permute : ℕ → Limb N q → Limb N q
  permute_res : ∀ g, Odd g → ∀ a : Limb N q,
    cf (permute g a) = Nega.galois g (cf a)

namespace LimbOps
variable {N q : ℕ} [NeZero N] (L : LimbOps N q)

/-- `NTTLvl` on a row of words at most `q` -/
def ntt (a : Limb N q) : Limb N q := L.nttRaw a.raw

/-- the polynomial represented by a row in the NTT domain -/
noncomputable def ev (a : Limb N q) : Nega N (ZMod q) := L.F.symm a.res

end LimbOps

/-- the Montgomery constant `2^64` as an element of the polynomial ring -/
noncomputable def Mont (N q : ℕ) [NeZero N] : Nega N (ZMod q) := ((2 ^ 64 : ℕ) : Nega N (ZMod q))

namespace LimbOps
variable {N q : ℕ} [NeZero N] (L : LimbOps N q)

theorem pos (L : LimbOps N q) : 0 < q := L.odd.pos

include L in
theorem mont_unit : IsUnit (Mont N q) := by
  have h : Nat.Coprime (2 ^ 64) q := Nat.Coprime.pow_left _ (Nat.coprime_two_left.mpr L.odd)
  have hu := ZMod.coe_mul_inv_eq_one (2 ^ 64) h
  have : Mont N q * Nega.CHom (((2 ^ 64 : ℕ) : ZMod q)⁻¹) = 1 := by
    unfold Mont
    rw [← map_natCast (Nega.CHom (N := N) (K := ZMod q)), ← map_mul, hu, map_one]
  exact IsUnit.of_mul_eq_one _ this

include L in
/-- cancel the Montgomery constant -/
theorem mont_cancel {a b : Nega N (ZMod q)} (h : a * Mont N q = b * Mont N q) : a = b :=
  L.mont_unit.mul_right_cancel h

/-- inverse of the Montgomery constant -/
noncomputable def rinv : Nega N (ZMod q) := (L.mont_unit.unit⁻¹ : (Nega N (ZMod q))ˣ)

@[simp] theorem rinv_mul : L.rinv * Mont N q = 1 := L.mont_unit.val_inv_mul
@[simp] theorem mul_rinv : Mont N q * L.rinv = 1 := L.mont_unit.mul_val_inv

theorem F_natCast (n : ℕ) : L.F (n : Nega N (ZMod q)) = fun _ => (n : ZMod q) := by
  rw [map_natCast]; rfl

theorem F_mont : L.F (Mont N q) = fun _ => (2 : ZMod q) ^ 64 := by
  unfold Mont; rw [F_natCast]; funext _; norm_num

theorem symm_mont : L.F.symm (fun _ => (2 : ZMod q) ^ 64) = Mont N q := by
  rw [← F_mont, RingEquiv.symm_apply_apply]

theorem nttRaw_ev (a : Fin N → ℕ) (h : ∀ i, a i < 2 ^ 63) : L.ev (L.nttRaw a) = rawPoly q a := by
  unfold ev; rw [L.nttRaw_res a h, RingEquiv.symm_apply_apply]

@[simp] theorem ev_ntt (a : Limb N q) : L.ev (L.ntt a) = cf a := by
  unfold ntt
  rw [L.nttRaw_ev]
  · rfl
  · intro i
    have := (a i).le
    have := L.lt61
    show (a i).val < 2 ^ 63
    omega

@[simp] theorem cf_intt (a : Limb N q) : cf (L.intt a) = L.ev a := by
  unfold ev; rw [← L.intt_res a, RingEquiv.symm_apply_apply]

@[simp] theorem rawPoly_inttLazy (a : Limb N q) : rawPoly q (L.inttLazy a) = L.ev a := by
  unfold ev; rw [← L.inttLazy_res a, RingEquiv.symm_apply_apply]

@[simp] theorem ev_add (a b : Limb N q) : L.ev (L.add a b) = L.ev a + L.ev b := by
  unfold ev; rw [L.add_res, map_add]

@[simp] theorem cf_add (a b : Limb N q) : cf (L.add a b) = cf a + cf b := L.add_res a b

@[simp] theorem ev_sub (a b : Limb N q) : L.ev (L.sub a b) = L.ev a - L.ev b := by
  unfold ev; rw [L.sub_res, map_sub]

@[simp] theorem cf_sub (a b : Limb N q) : cf (L.sub a b) = cf a - cf b := L.sub_res a b

@[simp] theorem ev_neg (a : Limb N q) : L.ev (L.neg a) = - L.ev a := by
  unfold ev; rw [L.neg_res, map_neg]

@[simp] theorem cf_neg (a : Limb N q) : cf (L.neg a) = - cf a := L.neg_res a

@[simp] theorem cf_reduce (a : Limb N q) : cf (L.reduce a) = cf a := L.reduce_res a

@[simp] theorem ev_reduce (a : Limb N q) : L.ev (L.reduce a) = L.ev a := by
  unfold ev; rw [L.reduce_res]

@[simp] theorem ev_mform (a : Limb N q) : L.ev (L.mform a) = L.ev a * Mont N q := by
  unfold ev; rw [L.mform_res, map_mul, symm_mont]

@[simp] theorem ev_invMform (a : Limb N q) : L.ev (L.invMform a) = L.ev a * L.rinv := by
  have h := congrArg L.F.symm (L.invMform_res a)
  rw [map_mul, symm_mont] at h
  have h2 := congrArg (· * L.rinv) h
  simp only [mul_assoc, mul_rinv, mul_one] at h2
  exact h2

@[simp] theorem ev_mulMont (a b : Limb N q) : L.ev (L.mulMont a b) = L.ev a * L.ev b * L.rinv := by
  have h := congrArg L.F.symm (L.mulMont_res a b)
  rw [map_mul, map_mul, symm_mont] at h
  have h2 := congrArg (· * L.rinv) h
  simp only [mul_assoc, mul_rinv, mul_one] at h2
  rw [mul_assoc]; exact h2

@[simp] theorem ev_mulMontAdd (a b c : Limb N q) :
    L.ev (L.mulMontAdd a b c) = L.ev c + L.ev a * L.ev b * L.rinv := by
  have h := congrArg L.F.symm (L.mulMontAdd_res a b c)
  rw [map_mul, map_mul, map_sub, symm_mont] at h
  have h2 := congrArg (· * L.rinv) h
  simp only [mul_assoc, mul_rinv, mul_one] at h2
  rw [mul_assoc]; unfold ev; rw [← h2]; ring

@[simp] theorem ev_mulMontSub (a b c : Limb N q) :
    L.ev (L.mulMontSub a b c) = L.ev c - L.ev a * L.ev b * L.rinv := by
  have h := congrArg L.F.symm (L.mulMontSub_res a b c)
  rw [map_mul, map_mul, map_sub, symm_mont] at h
  have h2 := congrArg (· * L.rinv) h
  simp only [mul_assoc, mul_rinv, mul_one] at h2
  rw [mul_assoc]; unfold ev; rw [← h2]; ring

@[simp] theorem ev_mulScalar (n : ℕ) (a : Limb N q) :
    L.ev (L.mulScalar n a) = (n : Nega N (ZMod q)) * L.ev a := by
  unfold ev; rw [L.mulScalar_res, map_mul, ← F_natCast, RingEquiv.symm_apply_apply]

@[simp] theorem cf_mulScalar (n : ℕ) (a : Limb N q) :
    cf (L.mulScalar n a) = (n : Nega N (ZMod q)) * cf a := by
  apply Nega.ext; intro i
  rw [Nega.natCast_mul_apply]
  exact congrFun (L.mulScalar_res n a) i

theorem ev_permNTT (g : ℕ) (hg : Odd g) (a : Limb N q) : L.ev (L.permNTT g a) = Nega.galois g (L.ev a) :=
  L.permNTT_res g hg a

theorem cf_permute (g : ℕ) (hg : Odd g) (a : Limb N q) : cf (L.permute g a) = Nega.galois g (cf a) :=
  L.permute_res g hg a

@[simp] theorem ev_zero : L.ev Limb.zero = 0 := by
  have : (Limb.zero : Limb N q).res = 0 := by funext i; simp [Limb.zero, Limb.res]
  unfold ev; rw [this, map_zero]

theorem _root_.MKHE.Limb.zero_canon (hq : 0 < q) : (Limb.zero : Limb N q).Canon := fun _ => hq

/-- reduced words are determined by their residues -/
theorem _root_.MKHE.Limb.Canon.ext {a b : Limb N q} (ha : a.Canon) (hb : b.Canon) (h : a.res = b.res) : a = b := by
  funext i
  have h1 := congrFun h i
  have ha := ha i
  have hb := hb i
  unfold Limb.res at h1
  rw [ZMod.natCast_eq_natCast_iff] at h1
  have h2 : (a i).val = (b i).val := Nat.ModEq.eq_of_lt_of_lt h1 ha hb
  cases hx : a i; cases hy : b i
  rw [hx, hy] at h2
  simp at h2
  subst h2; rfl

/-- reduced words are determined by the NTT-domain polynomial -/
theorem ev_inj {a b : Limb N q} (ha : a.Canon) (hb : b.Canon) (h : L.ev a = L.ev b) : a = b :=
  ha.ext hb (L.F.symm.injective h)

/-- reduced words are determined by the coefficient-domain polynomial -/
theorem _root_.MKHE.cf_inj {a b : Limb N q} (ha : a.Canon) (hb : b.Canon) (h : cf a = cf b) : a = b :=
  ha.ext hb h

end LimbOps

@[simp] theorem cf_zero {N q : ℕ} : cf (Limb.zero : Limb N q) = 0 := by
  apply Nega.ext; intro i; simp [cf, Limb.zero, Limb.res]

end MKHE
