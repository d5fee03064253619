import Verif.Model.ModDownNTT
import Verif.Lemmas.ExtProd
import Verif.Props.BasisExt
import Verif.Spec.Example

set_option autoImplicit false

/-!
# C39, the NTT variant
-/

namespace MKHE.C39
open Finset Nega
variable {N : ℕ} [NeZero N] {C : Ctx N}

/-- the product of the first `levelP + 1` primes of `P` -/
def prodP (C : Ctx N) (levelP : ℕ) : ℕ := ∏ k ∈ range (levelP + 1), C.p k

/-- **C39, NTT variant.** `ModDownQPtoQNTT(levelQ, levelP)` on polynomials in the NTT domain: one integer polynomial `L`, congruent to the P-part, with
coefficients in `[-P/2^42, (1+2^-42) P]`, such that the result is `(x - L)/P` in the NTT domain, as reduced words, modulo every prime up to `levelQ`.
Other rows of the result are untouched. Whatever the stale memory. The P-part of the input has become its inverse transform (not reduced: below `2p`). -/
theorem modDownNTT_divides (V : C.Valid) {levelQ levelP : ℕ} (hQ : levelQ < C.nQ) (hP : levelP < C.nP) (xQ : QRows C) (xP : PRows C) :
    ∃ (r : QRows C) (a : ℕ → Fin N → ℕ) (L : Nega N ℤ),
      (∀ pool out, ∃ r', modDownQPtoQNTT levelQ levelP xQ xP pool out = .ok (r', a) ∧ (∀ i ≤ levelQ, r' i = r i) ∧ ∀ i, levelQ < i → r' i = out i) ∧
      (∀ j ≤ levelP, rawPoly (C.p j) (a j) = (C.RP j).ev (xP j) ∧ ∀ t, a j t < 2 * C.p j) ∧ (∀ j, levelP < j → a j = (xP j).raw) ∧
      (∀ x, -(prodP C levelP : ℤ) ≤ 2 ^ 42 * L x ∧ 2 ^ 42 * L x ≤ (2 ^ 42 + 1) * prodP C levelP) ∧
      (∀ j ≤ levelP, red (C.p j) L = (C.RP j).ev (xP j)) ∧
      ∀ i ≤ levelQ, (r i).Canon ∧ (prodP C levelP : Nega N (ZMod (C.q i))) * (C.RQ i).ev (r i) = (C.RQ i).ev (xQ i) - red (C.q i) L := by
  have h32 := V.le32
  have hW : (W64 : ℕ) = 18446744073709551616 := by norm_num
  have hs : ∑ k ∈ range (levelP + 1), C.p k ≤ W64 :=
    (sum_le_sum_of_subset (range_subset_range.mpr (by omega))).trans V.sumP
  have hB : GoodBasis (levelP + 1) C.p := by
    have := V.pair.symm.goodBasis 0 (levelP + 1) (by omega) (by omega) (by omega) (by simpa using hs)
    simpa using this
  have key := fun t : Fin N => modUp_uniform C.fm C.nP C.p C.nQ C.q levelP levelQ hP hQ hB (fun i hi => V.pair.goodMod i (by omega))
    (fun j => (if j ≤ levelP then (C.RP j).inttLazy (xP j) else (xP j).raw) t) (fun j hj => by
      have h1 := (C.RP j).inttLazy_lt (xP j) t
      have h2 := (C.RP j).lt61
      show (if j ≤ levelP then (C.RP j).inttLazy (xP j) else (xP j).raw) t < W64
      rw [if_pos hj, hW]; omega)
  choose X x1 x2 g g1 g2 using key
  have hpar : ∀ i ≤ levelQ, ∀ conv : Fin N → ℕ → ℕ, modDownNTTRow levelP xQ conv i =
      .ok fun t => modDownStep (C.q i) (xQ i t).val ((C.RQ i).nttLazy (fun t => conv t i) t) (modDownParam C.p (C.q i) levelP) := fun i hi conv => by
    have e1 : (modDownTable C.nQ C.q C.nP C.p)[levelP]? = some ((List.range C.nQ).map fun i => modDownParam C.p (C.q i) levelP) := by
      unfold modDownTable
      rw [List.getElem?_map, List.getElem?_range hP, Option.map_some]
    have e2 : ((List.range C.nQ).map fun i => modDownParam C.p (C.q i) levelP)[i]? = some (modDownParam C.p (C.q i) levelP) := by
      rw [List.getElem?_map, List.getElem?_range (by omega), Option.map_some]
    unfold modDownNTTRow
    rw [Go.idx_ok e1, Go.andThen_ok, Go.idx_ok e2, Go.andThen_ok]
  -- the transformed lift and its properties
  have hg63 : ∀ i ≤ levelQ, ∀ t, g t i < 2 ^ 63 := fun i hi t => by
    have h1 := (g2 t i hi).2
    have h2 := (C.RQ i).lt61
    omega
  have hres : ∀ i ≤ levelQ, rawRes (C.q i) ((C.RQ i).nttLazy fun t => g t i) = (C.RQ i).F (red (C.q i) (X : Nega N ℤ)) := fun i hi => by
    rw [(C.RQ i).nttLazy_res _ (hg63 i hi)]
    congr 1
    apply Nega.ext; intro t
    have := (ZMod.intCast_eq_intCast_iff _ _ _).mpr (g2 t i hi).1
    push_cast at this
    exact this
  have hstep : ∀ i ≤ levelQ, ∀ t, modDownStep (C.q i) (xQ i t).val ((C.RQ i).nttLazy (fun t => g t i) t) (modDownParam C.p (C.q i) levelP) < C.q i ∧
      ((modDownStep (C.q i) (xQ i t).val ((C.RQ i).nttLazy (fun t => g t i) t) (modDownParam C.p (C.q i) levelP) : ℕ) : ℤ) * mprod (levelP + 1) C.p ≡
        (xQ i t).val - ((C.RQ i).nttLazy (fun t => g t i) t : ℕ) [ZMOD C.q i] := fun i hi t => by
    have hin : i < C.nQ := by omega
    obtain ⟨d1, d2⟩ := modDownParam_spec C.p (C.q i) (V.pair.primeQ i hin) (V.pair.oddQ i hin)
      ((V.pair.lt61Q i hin).trans (by norm_num)) levelP (fun k hk => V.pair.not_dvd i hin k (by omega))
    have h1 := (C.RQ i).nttLazy_lt (fun t => g t i) t
    have h2 := (xQ i t).le
    exact modDownStep_spec (V.pair.oddQ i hin) (V.pair.lt61Q i hin) (by omega) (by omega) d1 d2
  refine ⟨fun i t => toWord (C.q i) (modDownStep (C.q i) (xQ i t).val ((C.RQ i).nttLazy (fun t => g t i) t) (modDownParam C.p (C.q i) levelP)),
    fun j => if j ≤ levelP then (C.RP j).inttLazy (xP j) else (xP j).raw, X, fun pool out => ?_, fun j hj => ?_, fun j hj => if_neg (by omega), fun x => x2 x,
    fun j hj => ?_, fun i hi => ⟨fun t => ?_, ?_⟩⟩
  · refine ⟨setQ levelQ (fun i t => toWord (C.q i) (modDownStep (C.q i) (xQ i t).val ((C.RQ i).nttLazy (fun t => g t i) t) (modDownParam C.p (C.q i) levelP))) out,
      ?_, fun i hi => by unfold setQ; rw [if_pos hi], fun i hi => by unfold setQ; rw [if_neg (by omega)]⟩
    unfold modDownQPtoQNTT
    rw [if_neg (by omega)]
    dsimp only [bind, Except.bind, pure, Except.pure]
    rw [Go.fillFin_ok _ _ _ (fun t => g1 t (pool t))]
    dsimp only [bind, Except.bind, pure, Except.pure]
    have h := Go.fill_ok (modDownNTTRow levelP xQ fun t => overlay (levelQ + 1) (g t) (pool t))
      (fun i t => modDownStep (C.q i) (xQ i t).val ((C.RQ i).nttLazy (fun t => g t i) t) (modDownParam C.p (C.q i) levelP)) (fun i => (out i).raw)
      (List.range (levelQ + 1)) (fun i hi => by
        have hi' : i ≤ levelQ := by have := List.mem_range.mp hi; omega
        rw [hpar i hi']
        have : (fun t => overlay (levelQ + 1) (g t) (pool t) i) = fun t => g t i := funext fun t => overlay_lt _ _ (by omega)
        rw [this])
    rw [h]
    dsimp only [bind, Except.bind, pure, Except.pure]
    congr 2
    apply setQ_congr
    intro i hi
    funext t
    rw [if_pos (List.mem_range.mpr (by omega))]
  · dsimp only
    rw [if_pos hj]
    exact ⟨(C.RP j).rawPoly_inttLazy _, (C.RP j).inttLazy_lt _⟩
  · apply red_ext; intro t
    have h5 := (ZMod.intCast_eq_intCast_iff _ _ _).mpr (x1 t j hj)
    rw [if_pos hj] at h5
    rw [h5, ← (C.RP j).rawPoly_inttLazy]
    simp [rawPoly, rawRes]
  · have := (hstep i hi t).1
    show min _ _ < _
    omega
  · have hF : (C.RQ i).F ((prodP C levelP : Nega N (ZMod (C.q i))) * (C.RQ i).ev
        (fun t => toWord (C.q i) (modDownStep (C.q i) (xQ i t).val ((C.RQ i).nttLazy (fun t => g t i) t) (modDownParam C.p (C.q i) levelP)))) =
        (C.RQ i).F ((C.RQ i).ev (xQ i) - red (C.q i) (X : Nega N ℤ)) := by
      rw [map_mul, map_natCast, map_sub, ← hres i hi]
      unfold LimbOps.ev
      rw [RingEquiv.apply_symm_apply, RingEquiv.apply_symm_apply]
      funext t
      obtain ⟨b1, b2⟩ := hstep i hi t
      have h5 := (ZMod.intCast_eq_intCast_iff _ _ _).mpr b2
      push_cast at h5
      show (prodP C levelP : ZMod (C.q i)) * ((min _ _ : ℕ) : ZMod (C.q i)) = ((xQ i t).val : ZMod (C.q i)) - (((C.RQ i).nttLazy (fun t => g t i) t : ℕ) : ZMod (C.q i))
      rw [min_eq_left b1.le, ← h5, mul_comm]
      congr 1
    exact (C.RQ i).F.injective hF

/-- **C39, NTT variant, in terms of an integer polynomial.** If the input is the transform of an integer polynomial `x`, the result is the transform of
`⌊x/P⌋ - k`, coefficient by coefficient, with `k ∈ {-1, 0, 1}`. -/
theorem modDownNTT_floor (V : C.Valid) {levelQ levelP : ℕ} (hQ : levelQ < C.nQ) (hP : levelP < C.nP) (xQ : QRows C) (xP : PRows C) (x : Nega N ℤ)
    (h1 : ∀ i ≤ levelQ, (C.RQ i).ev (xQ i) = red (C.q i) x) (h2 : ∀ j ≤ levelP, (C.RP j).ev (xP j) = red (C.p j) x)
    (pool : Fin N → ℕ → ℕ) (out : QRows C) :
    ∃ (r : QRows C) (a : ℕ → Fin N → ℕ) (k : Nega N ℤ), modDownQPtoQNTT levelQ levelP xQ xP pool out = .ok (r, a) ∧ (∀ t, -1 ≤ k t ∧ k t ≤ 1) ∧
      ∀ i ≤ levelQ, (r i).Canon ∧ (C.RQ i).ev (r i) = red (C.q i) (fun t => x t / (prodP C levelP : ℤ) - k t) := by
  obtain ⟨r, a, L, a1, -, -, a4, a5, a6⟩ := modDownNTT_divides V hQ hP xQ xP
  obtain ⟨r', e1, e2, -⟩ := a1 pool out
  have hM : 0 < prodP C levelP := prod_pos fun k hk => (V.pair.primeP k (by have := mem_range.mp hk; omega)).pos
  have hMz : (0 : ℤ) < prodP C levelP := by exact_mod_cast hM
  have hdvd : ∀ t, (prodP C levelP : ℤ) ∣ x t - L t := fun t => by
    refine prod_dvd_int V.pair (by omega) _ fun k hk => ?_
    have := congrFun ((a5 k (by omega)).trans (h2 k (by omega))) t
    have h3 : ((L t : ℤ) : ZMod (C.p k)) = ((x t : ℤ) : ZMod (C.p k)) := this
    exact ((ZMod.intCast_eq_intCast_iff _ _ _).mp h3).dvd
  choose w hw using hdvd
  refine ⟨r', a, fun t => x t / (prodP C levelP : ℤ) - w t, e1, fun t => ?_, fun i hi => ?_⟩
  · have hxdiv := Int.mul_ediv_add_emod (x t) (prodP C levelP)
    have hr0 := Int.emod_nonneg (x t) hMz.ne'
    have hr1 := Int.emod_lt_of_pos (x t) hMz
    obtain ⟨b1, b2⟩ := a4 t
    have hwt := hw t
    show -1 ≤ x t / (prodP C levelP : ℤ) - w t ∧ x t / (prodP C levelP : ℤ) - w t ≤ 1
    set F := x t / (prodP C levelP : ℤ)
    set r := x t % (prodP C levelP : ℤ)
    have hX : L t = r + prodP C levelP * (F - w t) := by linarith
    constructor
    · by_contra hc
      have : (prodP C levelP : ℤ) * (F - w t) ≤ prodP C levelP * (-2) := mul_le_mul_of_nonneg_left (by omega) hMz.le
      nlinarith
    · by_contra hc
      have : (prodP C levelP : ℤ) * 2 ≤ prodP C levelP * (F - w t) := mul_le_mul_of_nonneg_left (by omega) hMz.le
      nlinarith
  · rw [e2 i hi]
    refine ⟨(a6 i hi).1, ?_⟩
    have hin : i < C.nQ := by omega
    have hx := (a6 i hi).2
    rw [h1 i hi, ← map_sub] at hx
    apply Nega.ext; intro t
    have h3 := congrFun hx t
    rw [natCast_mul_apply] at h3
    have h4 : red (C.q i) (x - L) t = ((x t - L t : ℤ) : ZMod (C.q i)) := rfl
    rw [h4, hw t] at h3
    have h5 : red (C.q i) (fun t => x t / (prodP C levelP : ℤ) - (x t / (prodP C levelP : ℤ) - w t)) t = ((w t : ℤ) : ZMod (C.q i)) := by
      show ((x t / (prodP C levelP : ℤ) - (x t / (prodP C levelP : ℤ) - w t) : ℤ) : ZMod (C.q i)) = _
      congr 1; ring
    rw [h5]
    have hcop : Nat.Coprime (prodP C levelP) (C.q i) := (coprime_prod V.pair hin (by omega)).symm
    have hu : IsUnit (prodP C levelP : ZMod (C.q i)) := (ZMod.unitOfCoprime _ hcop).isUnit
    push_cast at h3
    exact hu.mul_left_cancel h3

/-- a `levelP` the ring P does not have is an index out of range -/
theorem modDownNTT_fault (levelQ levelP : ℕ) (hP : C.nP ≤ levelP) (xQ : QRows C) (xP : PRows C) (pool : Fin N → ℕ → ℕ) (out : QRows C) :
    modDownQPtoQNTT levelQ levelP xQ xP pool out = .error .indexOutOfRange := by
  unfold modDownQPtoQNTT
  rw [if_pos hP]; rfl

/-- **instance**: `N = 16`, three primes of Q and one of two primes of P; the input is the transform of the polynomial with coefficients `1000 t + 5` -/
example (fm : FloatModel) (pool : Fin 16 → ℕ → ℕ) (out : QRows (Ex.ctx fm)) : ∃ (xQ : QRows (Ex.ctx fm)) (xP : PRows (Ex.ctx fm)) (r : QRows (Ex.ctx fm)) (a : ℕ → Fin 16 → ℕ)
    (k : Nega 16 ℤ), modDownQPtoQNTT 2 0 xQ xP pool out = .ok (r, a) ∧ (∀ t, -1 ≤ k t ∧ k t ≤ 1) ∧
      ∀ i ≤ 2, ((Ex.ctx fm).RQ i).ev (r i) = red ((Ex.ctx fm).q i) (fun t => (1000 * t.val + 5) / (prodP (Ex.ctx fm) 0 : ℤ) - k t) := by
  have hq : ∀ q : ℕ, ∀ L : LimbOps 16 q, q.Prime → ∃ l : Limb 16 q, L.ev l = red q (fun t => 1000 * (t.val : ℤ) + 5) := fun q L hp => by
    haveI := Fact.mk hp
    refine ⟨ofRes (L.F (red q (fun t => 1000 * (t.val : ℤ) + 5))), ?_⟩
    unfold LimbOps.ev
    rw [res_ofRes, RingEquiv.symm_apply_apply]
  have hpq : ∀ i, ((Ex.ctx fm).q i).Prime := fun i => by rcases i with _ | _ | i <;> simp only [Ex.ctx, Ex.exq] <;> norm_num
  have hpp : ∀ i, ((Ex.ctx fm).p i).Prime := fun i => by rcases i with _ | _ | i <;> simp only [Ex.ctx, Ex.exp] <;> norm_num
  choose xQ h1 using fun i => hq _ ((Ex.ctx fm).RQ i) (hpq i)
  choose xP h2 using fun i => hq _ ((Ex.ctx fm).RP i) (hpp i)
  obtain ⟨r, a, k, e1, e2, e3⟩ := modDownNTT_floor (Ex.valid fm) (levelQ := 2) (levelP := 0) (by show 2 < 3; norm_num) (by show 0 < 2; norm_num) xQ xP _
    (fun i _ => h1 i) (fun j _ => h2 j) pool out
  exact ⟨xQ, xP, r, a, k, e1, e2, fun i hi => (e3 i hi).2⟩

end MKHE.C39
