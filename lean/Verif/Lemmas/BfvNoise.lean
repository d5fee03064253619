import Verif.Spec.Bfv
import Verif.Lemmas.BfvTop

set_option autoImplicit false

/-!
# The algebra of the BFV multiplication
-/

namespace MKHE
open Finset Nega

variable {N : ℕ} [NeZero N]

/-- relinearization with a gadget vector `G` for the operands and another, `g`, for `v`, in any commutative ring -/
theorem relin_core {R I : Type*} [CommRing R] (I0 I1 : Finset I) (K1 K2 : Finset ℕ) (Pm : R) (G g : ℕ → R)
    (s r : I → R) (D0 D1 Dw : I → ℕ → R) (a u : ℕ → R) (b d v eb ed ev : I → ℕ → R) (x y : ℕ → R)
    (w EPx EPv EPu LX LY LV LU : I → R)
    (hb : ∀ j ∈ I1, ∀ k ∈ K1, b j k = - s j * a k + eb j k)
    (hd : ∀ i ∈ I0, ∀ k ∈ K1, d i k = - r i * a k + G k * s i + ed i k)
    (hv : ∀ i ∈ I0, ∀ k ∈ K2, v i k = - s i * u k - g k * r i + ev i k)
    (hx : ∀ k ∈ K1, x k = ∑ i ∈ I0, d i k * D0 i k)
    (hy : ∀ k ∈ K1, y k = ∑ j ∈ I1, b j k * D1 j k)
    (hw : ∀ i ∈ I0, Pm * w i = (∑ k ∈ K1, y k * D0 i k) - LY i)
    (hX : ∀ j ∈ I1, Pm * EPx j = (∑ k ∈ K1, x k * D1 j k) - LX j)
    (hV : ∀ i ∈ I0, Pm * EPv i = (∑ k ∈ K2, v i k * Dw i k) - LV i)
    (hU : ∀ i ∈ I0, Pm * EPu i = (∑ k ∈ K2, u k * Dw i k) - LU i)
    (hgw : ∀ i ∈ I0, ∑ k ∈ K2, g k * Dw i k = Pm * w i) :
    Pm * (∑ i ∈ I0, EPv i + (∑ i ∈ I0, EPu i * s i + ∑ j ∈ I1, EPx j * s j)) =
      ∑ j ∈ I1, ∑ i ∈ I0, (∑ k ∈ K1, G k * (D0 i k * D1 j k)) * (s i * s j) +
      (∑ j ∈ I1, ∑ i ∈ I0, ∑ k ∈ K1, s j * (D1 j k * (D0 i k * ed i k))
        - ∑ j ∈ I1, s j * LX j
        - ∑ i ∈ I0, ∑ j ∈ I1, ∑ k ∈ K1, r i * (D0 i k * (D1 j k * eb j k))
        + ∑ i ∈ I0, r i * LY i
        + ∑ i ∈ I0, ∑ k ∈ K2, Dw i k * ev i k
        - ∑ i ∈ I0, LV i - ∑ i ∈ I0, s i * LU i) := by
  have A : ∀ i ∈ I0, Pm * EPv i + Pm * EPu i * s i =
      - (Pm * w i * r i) + (∑ k ∈ K2, Dw i k * ev i k) - LV i - s i * LU i := by
    intro i hi
    rw [hV i hi, hU i hi, ← hgw i hi]
    have e1 : ∑ k ∈ K2, v i k * Dw i k =
        ∑ k ∈ K2, (- s i * (u k * Dw i k) - (g k * Dw i k) * r i + Dw i k * ev i k) := by
      refine sum_congr rfl fun k hk => ?_
      rw [hv i hi k hk]; ring
    rw [e1, sum_add_distrib, sum_sub_distrib, ← mul_sum, ← sum_mul]
    ring
  have B : ∀ j ∈ I1, Pm * EPx j * s j = (∑ i ∈ I0, ((∑ k ∈ K1, G k * (D0 i k * D1 j k)) * (s i * s j) +
      (∑ k ∈ K1, s j * (D1 j k * (D0 i k * ed i k))) - ∑ k ∈ K1, r i * (s j * a k * (D0 i k * D1 j k)))) - s j * LX j := by
    intro j hj
    rw [hX j hj]
    have e1 : ∑ k ∈ K1, x k * D1 j k = ∑ i ∈ I0, ∑ k ∈ K1, d i k * D0 i k * D1 j k := by
      rw [sum_comm]
      refine sum_congr rfl fun k hk => ?_
      rw [hx k hk, sum_mul]
    rw [e1, sub_mul, sum_mul]
    congr 1
    · refine sum_congr rfl fun i hi => ?_
      rw [sum_mul, sum_mul, ← sum_add_distrib, ← sum_sub_distrib]
      refine sum_congr rfl fun k hk => ?_
      rw [hd i hi k hk]; ring
    · ring
  have D : ∀ i ∈ I0, Pm * w i * r i = (∑ j ∈ I1, ((∑ k ∈ K1, r i * (D0 i k * (D1 j k * eb j k))) -
      ∑ k ∈ K1, r i * (s j * a k * (D0 i k * D1 j k)))) - r i * LY i := by
    intro i hi
    rw [hw i hi]
    have e1 : ∑ k ∈ K1, y k * D0 i k = ∑ j ∈ I1, ∑ k ∈ K1, b j k * D1 j k * D0 i k := by
      rw [sum_comm]
      refine sum_congr rfl fun k hk => ?_
      rw [hy k hk, sum_mul]
    rw [e1, sub_mul, sum_mul]
    congr 1
    · refine sum_congr rfl fun j hj => ?_
      rw [← sum_sub_distrib, sum_mul]
      refine sum_congr rfl fun k hk => ?_
      rw [hb j hj k hk]; ring
    · ring
  have A' := sum_congr (rfl : I0 = I0) A
  have B' := sum_congr (rfl : I1 = I1) B
  have D' := sum_congr (rfl : I0 = I0) D
  simp only [sum_add_distrib, sum_sub_distrib, sum_neg_distrib] at A' B' D'
  have e7 : ∑ i ∈ I0, Pm * EPv i = Pm * ∑ i ∈ I0, EPv i := by rw [mul_sum]
  have e8 : ∑ i ∈ I0, Pm * EPu i * s i = Pm * ∑ i ∈ I0, EPu i * s i := by
    rw [mul_sum]; exact sum_congr rfl fun i _ => by ring
  have e9 : ∑ j ∈ I1, Pm * EPx j * s j = Pm * ∑ j ∈ I1, EPx j * s j := by
    rw [mul_sum]; exact sum_congr rfl fun i _ => by ring
  have e10 : ∑ j ∈ I1, ∑ i ∈ I0, ∑ k ∈ K1, r i * (s j * a k * (D0 i k * D1 j k)) =
      ∑ i ∈ I0, ∑ j ∈ I1, ∑ k ∈ K1, r i * (s j * a k * (D0 i k * D1 j k)) := sum_comm
  rw [e7, e8] at A'
  rw [e9, e10] at B'
  linear_combination A' + B' - D'

variable {B : BCtx N}

/-- a Q block of R is a block of Q -/
theorem BCtx.Valid.blockProd_top (V : B.Valid) {k : ℕ} (hk : k < B.bt) : B.C.blockProd B.top k = B.blockR k := by
  have h1 := V.qp.alpha_pos
  have e := V.top_succ
  have hbt : B.bt * B.C.alpha = B.C.nQ := V.betaTop
  have hle : k * B.C.alpha + B.C.alpha ≤ B.C.nQ := by
    calc k * B.C.alpha + B.C.alpha = (k + 1) * B.C.alpha := by ring
      _ ≤ B.bt * B.C.alpha := Nat.mul_le_mul_right _ (by omega)
      _ = B.C.nQ := hbt
  have hlen : blockLen B.top B.C.alpha k = B.C.alpha := by
    unfold blockLen
    have h2 : B.C.alpha * (k + 1) = k * B.C.alpha + B.C.alpha := by ring
    rw [e, min_eq_right (by omega), Nat.mul_succ]
    omega
  unfold Ctx.blockProd BCtx.blockR
  rw [hlen]
  refine prod_congr rfl fun i hi => (B.r_q ?_).symm
  have := mem_range.mp hi
  omega

/-- block recombination over R with any gadget vector -/
theorem BfvGadget.sum (V : B.Valid) {G g rho : ℕ → ℕ} (hG : BfvGadget B G g rho) (f : ℕ → Nega N ℤ) (F : Nega N ℤ)
    (hf : ∀ i < 2 * B.C.nQ, red (B.r i) (f (i / B.C.alpha)) = red (B.r i) F) :
    ∃ K : Nega N ℤ, ∑ k ∈ range (2 * B.bt), (g k : Nega N ℤ) * f k = F + (B.R : Nega N ℤ) * K := by
  have hα := V.qp.alpha_pos
  have hbt : B.bt * B.C.alpha = B.C.nQ := V.betaTop
  have h : ∀ x, (B.R : ℤ) ∣ (∑ k ∈ range (2 * B.bt), (g k : Nega N ℤ) * f k - F) x := by
    intro x
    apply V.R_dvd
    intro i hi
    revert x
    rw [← red_eq_zero_iff, map_sub, map_sum, ← hf i hi, sub_eq_zero]
    have hk : i / B.C.alpha < 2 * B.bt := by
      rw [Nat.div_lt_iff_lt_mul hα]
      have : 2 * B.bt * B.C.alpha = 2 * B.C.nQ := by rw [mul_assoc, hbt]
      omega
    rw [Finset.sum_eq_single (i / B.C.alpha)]
    · rw [map_mul, map_natCast]
      have : ((g (i / B.C.alpha) : ℕ) : Nega N (ZMod (B.r i))) = 1 := by
        rw [← map_natCast (Nega.CHom (N := N) (K := ZMod (B.r i))),
          (ZMod.natCast_eq_natCast_iff _ _ _).mpr (hG.same _ hk i hi rfl), Nat.cast_one, map_one]
      rw [this, one_mul]
    · intro k hk' hne
      rw [map_mul, map_natCast]
      have : ((g k : ℕ) : Nega N (ZMod (B.r i))) = 0 := by
        rw [← map_natCast (Nega.CHom (N := N) (K := ZMod (B.r i))),
          (ZMod.natCast_eq_natCast_iff _ _ _).mpr (hG.other _ (mem_range.mp hk') i hi (Ne.symm hne)), Nat.cast_zero, map_zero]
      rw [this, zero_mul]
    · intro h; exact absurd (mem_range.mpr hk) h
  obtain ⟨K, hK⟩ : ∃ K : Nega N ℤ, ∀ x, (∑ k ∈ range (2 * B.bt), (g k : Nega N ℤ) * f k - F) x = B.R * K x := by
    choose K hK using h
    exact ⟨K, hK⟩
  refine ⟨K, ?_⟩
  have : ∑ k ∈ range (2 * B.bt), (g k : Nega N ℤ) * f k - F = (B.R : Nega N ℤ) * K :=
    Nega.ext fun x => (hK x).trans (natCast_mul_apply B.R K x).symm
  rw [← this]; ring

/-- bound on `QMul*P` times the error of a product of the lifted phases: `n0`, `n1` parties (`nU` together), `bt` components per key,
digits bounded by `D`, secrets by `Sb` and `Rb`, key errors by `Be` -/
def bmulNoise (N P QMul : ℕ) (n0 n1 nU bt : ℕ) (D Sb Rb Be : ℤ) : ℤ :=
  QMul * (n1 * (n0 * ((2 * bt : ℕ) * (N * Sb * (N * D * (N * D * Be))))) + n1 * (N * Sb * (2 * P))
    + n0 * (n1 * ((2 * bt : ℕ) * (N * Rb * (N * D * (N * D * Be))))) + n0 * (N * Rb * (2 * P))
    + n0 * (bt * (N * D * Be)) + n0 * (2 * P) + n0 * (N * Sb * (2 * P)))
  + n1 * (n0 * (N * ((2 * bt : ℕ) * (QMul * (N * D * D))) * (N * Sb * Sb)))
  + P * (2 * QMul + nU * (N * (2 * QMul) * Sb))

/-- what the keys of the parties, the lifted components and the digits must satisfy -/
structure BMulKeys (M : BMulIn B) (s r : String → Nega N ℤ) (a : ℕ → PolyQP B.C) (G g rho : ℕ → ℕ) (A0 A1 : String → Nega N ℤ)
    (D Sb Rb Be : ℤ) : Prop where
  n0 : "0" ∉ M.ids0
  n1 : "0" ∉ M.ids1
  gad : BfvGadget B G g rho
  d : ∀ id ∈ M.ids0, KeyRelG B.C (2 * B.bt) (r id) a (fun k => (G k : ℤ)) (s id) Be (M.d id)
  v : ∀ id ∈ M.ids0, KeyRel B.C B.bt (s id) M.u (- r id) Be (M.v id)
  b : ∀ id ∈ M.ids1, KeyRelG B.C (2 * B.bt) (s id) a (fun _ => 0) 0 Be (M.b id)
  rep0 : ∀ id, id ∈ M.ids0 ∨ id = "0" → (M.a0 id).Rep B (A0 id)
  rep1 : ∀ id, id ∈ M.ids1 ∨ id = "0" → (M.a1 id).Rep B (A1 id)
  dig0 : ∀ id, M.h0 id = fun k => digRG k (M.a0 id)
  dig1 : ∀ id, M.h1 id = fun k => digRG k (M.a1 id)
  block : ∀ k < 2 * B.bt, 3 * (B.blockR k : ℤ) ≤ D
  s0 : ∀ id ∈ M.ids0 ∪ M.ids1, Bdd (s id) Sb
  r0 : ∀ id ∈ M.ids0, Bdd (r id) Rb

/-- the integer polynomial the tensor product represents -/
noncomputable def tensI (M : BMulIn B) (A0 A1 : String → Nega N ℤ) (id : String) : Nega N ℤ :=
  if id = "0" then A0 "0" * A1 "0" else
    (if id ∈ M.ids0 then A1 "0" * A0 id else 0) + (if id ∈ M.ids1 then A0 "0" * A1 id else 0)

theorem tens_holds (V : B.Valid) {M : BMulIn B} {A0 A1 : String → Nega N ℤ}
    (rep0 : ∀ id, id ∈ M.ids0 ∨ id = "0" → (M.a0 id).Rep B (A0 id)) (rep1 : ∀ id, id ∈ M.ids1 ∨ id = "0" → (M.a1 id).Rep B (A1 id))
    {id : String} (hid : id ∈ M.ids0 ∪ M.ids1 ∨ id = "0") : (M.tens id).Holds (tensI M A0 A1 id) := by
  unfold BMulIn.tens tensI
  have z0 := nttR_holds V (rep0 "0" (.inr rfl))
  have z1 := nttR_holds V (rep1 "0" (.inr rfl))
  split_ifs with h h0 h1 h1
  · exact mulR_mform_holds z0 z1
  · have := mulAddR_mform_holds z1 (nttR_holds V (rep0 id (.inl h0))) (mulR_mform_holds z0 (nttR_holds V (rep1 id (.inl h1))))
    rwa [add_comm] at this
  · rw [add_zero]; exact mulR_mform_holds z1 (nttR_holds V (rep0 id (.inl h0)))
  · rw [zero_add]; exact mulR_mform_holds z0 (nttR_holds V (rep1 id (.inl h1)))
  · exfalso
    rcases hid with e | e
    · rcases mem_union.mp e with e | e
      · exact h0 e
      · exact h1 e
    · exact h e

/-- **the noise of a BFV product, in terms of the lifted operands**: the phase of the result modulo Q is `Φ` with
`QMul*P*Φ = T*P*(lifted phase of op0)*(lifted phase of op1) + Err` over the integers -/
theorem bmul_noise (V : B.Valid) (M : BMulIn B) (s r : String → Nega N ℤ) (a : ℕ → PolyQP B.C) (G g rho : ℕ → ℕ)
    (A0 A1 : String → Nega N ℤ) (D Sb Rb Be : ℤ) (H : BMulKeys M s r a G g rho A0 A1 D Sb Rb Be) :
    ∃ Φ Err : Nega N ℤ, Bdd Err (bmulNoise N B.C.P B.QMul M.ids0.card M.ids1.card (M.ids0 ∪ M.ids1).card B.bt D Sb Rb Be) ∧
      (B.QMul : Nega N ℤ) * (B.C.P : Nega N ℤ) * Φ = (B.t : Nega N ℤ) * (B.C.P : Nega N ℤ) *
        ((A0 "0" + ∑ id ∈ M.ids0, A0 id * s id) * (A1 "0" + ∑ id ∈ M.ids1, A1 id * s id)) + Err ∧
      ∀ i < B.C.nQ, phaseRows (M.ids0 ∪ M.ids1) s M.out i = red (B.C.q i) Φ := by
  have htop := V.top_lt
  have hts := V.top_succ
  have hbeta : B.C.beta B.top = B.bt := rfl
  -- extract all integer polynomials
  have hD0 : ∀ id k, ∃ X, id ∈ M.ids0 → k < 2 * B.bt → Bdd X D ∧
      (∀ i < 2 * B.C.nQ, i / B.C.alpha = k → ∀ x, X x ≡ A0 id x [ZMOD B.r i]) ∧ Holds B.C B.top (M.h0 id k) X := by
    intro id k
    by_cases h : id ∈ M.ids0 ∧ k < 2 * B.bt
    · obtain ⟨X, x1, x2, x3⟩ := (decomposeSingleR_spec V h.2 (H.rep0 id (.inl h.1))).2
      exact ⟨X, fun _ _ => ⟨x1.mono (H.block k h.2), x2, by rw [H.dig0 id]; exact x3⟩⟩
    · exact ⟨0, fun h1 h2 => absurd ⟨h1, h2⟩ h⟩
  have hD1 : ∀ id k, ∃ X, id ∈ M.ids1 → k < 2 * B.bt → Bdd X D ∧
      (∀ i < 2 * B.C.nQ, i / B.C.alpha = k → ∀ x, X x ≡ A1 id x [ZMOD B.r i]) ∧ Holds B.C B.top (M.h1 id k) X := by
    intro id k
    by_cases h : id ∈ M.ids1 ∧ k < 2 * B.bt
    · obtain ⟨X, x1, x2, x3⟩ := (decomposeSingleR_spec V h.2 (H.rep1 id (.inl h.1))).2
      exact ⟨X, fun _ _ => ⟨x1.mono (H.block k h.2), x2, by rw [H.dig1 id]; exact x3⟩⟩
    · exact ⟨0, fun h1 h2 => absurd ⟨h1, h2⟩ h⟩
  have hDw : ∀ id k, ∃ X, k < B.bt → IsDigit B.C B.top k (M.w id) D X ∧ Holds B.C B.top (digs B.top (M.w id) k) X := by
    intro id k
    by_cases h : k < B.bt
    · obtain ⟨X, hX1, hX2⟩ := digs_spec V.qp htop h (M.w id)
      refine ⟨X, fun _ => ⟨⟨hX1.bdd.mono ?_, hX1.cong⟩, hX2⟩⟩
      have h3 := H.block k (by omega)
      rw [V.blockProd_top h]
      have : (0 : ℤ) ≤ B.blockR k := by positivity
      linarith
    · exact ⟨0, fun h1 => absurd h1 h⟩
  choose D0 hD0 using hD0
  choose D1 hD1 using hD1
  choose Dw hDw using hDw
  have hd : ∀ id, ∃ e : ℕ → Nega N ℤ, id ∈ M.ids0 → ∀ k < 2 * B.bt, Bdd (e k) Be ∧
    (∀ i < B.C.nQ, (B.C.RQ i).mv ((M.d id k).Q i) =
      - red (B.C.q i) (r id) * (B.C.RQ i).mv ((a k).Q i) + (((G k : ℕ) : ℤ) : Nega N (ZMod (B.C.q i))) * red (B.C.q i) (s id) + red (B.C.q i) (e k)) ∧
    ∀ j < B.C.nP, (B.C.RP j).mv ((M.d id k).P j) =
      - red (B.C.p j) (r id) * (B.C.RP j).mv ((a k).P j) + (((G k : ℕ) : ℤ) : Nega N (ZMod (B.C.p j))) * red (B.C.p j) (s id) + red (B.C.p j) (e k) := by
    intro id
    by_cases h : id ∈ M.ids0
    · obtain ⟨e, he⟩ := H.d id h; exact ⟨e, fun _ => he⟩
    · exact ⟨0, fun h1 => absurd h1 h⟩
  have hv : ∀ id, ∃ e : ℕ → Nega N ℤ, id ∈ M.ids0 → ∀ k < B.bt, Bdd (e k) Be ∧
    (∀ i < B.C.nQ, (B.C.RQ i).mv ((M.v id k).Q i) =
      - red (B.C.q i) (s id) * (B.C.RQ i).mv ((M.u k).Q i) + B.C.gad k i * red (B.C.q i) (- r id) + red (B.C.q i) (e k)) ∧
    ∀ j < B.C.nP, (B.C.RP j).mv ((M.v id k).P j) = - red (B.C.p j) (s id) * (B.C.RP j).mv ((M.u k).P j) + red (B.C.p j) (e k) := by
    intro id
    by_cases h : id ∈ M.ids0
    · obtain ⟨e, he⟩ := H.v id h; exact ⟨e, fun _ => he⟩
    · exact ⟨0, fun h1 => absurd h1 h⟩
  have hb : ∀ id, ∃ e : ℕ → Nega N ℤ, id ∈ M.ids1 → ∀ k < 2 * B.bt, Bdd (e k) Be ∧
    (∀ i < B.C.nQ, (B.C.RQ i).mv ((M.b id k).Q i) = - red (B.C.q i) (s id) * (B.C.RQ i).mv ((a k).Q i) + red (B.C.q i) (e k)) ∧
    ∀ j < B.C.nP, (B.C.RP j).mv ((M.b id k).P j) = - red (B.C.p j) (s id) * (B.C.RP j).mv ((a k).P j) + red (B.C.p j) (e k) := by
    intro id
    by_cases h : id ∈ M.ids1
    · obtain ⟨e, he⟩ := H.b id h
      exact ⟨e, fun _ k hk => ⟨(he k hk).1, fun i hi => by rw [(he k hk).2.1 i hi]; simp, fun j hj => by rw [(he k hk).2.2 j hj]; simp⟩⟩
    · exact ⟨0, fun h1 => absurd h1 h⟩
  choose ed hd using hd
  choose ev hv using hv
  choose eb hb using hb
  choose LX hLX using fun id => (epB_spec V (M.h1 id) M.x).2
  choose LY hLY using fun id => (epB_spec V (M.h0 id) M.y).2
  choose LV hLV using fun id => (epG_spec V.qp htop (digs B.top (M.w id)) (M.v id)).2
  choose LU hLU using fun id => (epG_spec V.qp htop (digs B.top (M.w id)) M.u).2
  -- the quantized tensor product
  have hO : ∀ id, ∃ O L : Nega N ℤ, id ∈ M.ids0 ∪ M.ids1 ∨ id = "0" → Bdd L (2 * B.QMul) ∧
      (B.QMul : Nega N ℤ) * O = (B.t : Nega N ℤ) * tensI M A0 A1 id - L ∧ ∀ i < B.C.nQ, cf (quantG (M.tens id) i) = red (B.C.q i) O := by
    intro id
    by_cases h : id ∈ M.ids0 ∪ M.ids1 ∨ id = "0"
    · obtain ⟨-, O, L, h1, h2, h3⟩ := quantG_spec V (tens_holds V H.rep0 H.rep1 h)
      exact ⟨O, L, fun _ => ⟨h1, h2, h3⟩⟩
    · exact ⟨0, 0, fun h1 => absurd h1 h⟩
  choose O L hO using hO
  -- recombination of the digits
  have hK : ∀ id id', ∃ K : Nega N ℤ, id ∈ M.ids0 → id' ∈ M.ids1 →
      ∑ k ∈ range (2 * B.bt), (g k : Nega N ℤ) * (D0 id k * D1 id' k) = A0 id * A1 id' + (B.R : Nega N ℤ) * K := by
    intro id id'
    by_cases h : id ∈ M.ids0 ∧ id' ∈ M.ids1
    · have hα := V.qp.alpha_pos
      have hbt : B.bt * B.C.alpha = B.C.nQ := V.betaTop
      obtain ⟨K, hK⟩ := H.gad.sum V (fun k => D0 id k * D1 id' k) (A0 id * A1 id') (fun i hi => by
        have hk : i / B.C.alpha < 2 * B.bt := by
          rw [Nat.div_lt_iff_lt_mul hα]
          have : 2 * B.bt * B.C.alpha = 2 * B.C.nQ := by rw [mul_assoc, hbt]
          omega
        rw [map_mul, map_mul]
        congr 1
        · exact Nega.ext fun x => by
            rw [red_apply, red_apply]; exact (ZMod.intCast_eq_intCast_iff _ _ _).mpr ((hD0 id _ h.1 hk).2.1 i hi rfl x)
        · exact Nega.ext fun x => by
            rw [red_apply, red_apply]; exact (ZMod.intCast_eq_intCast_iff _ _ _).mpr ((hD1 id' _ h.2 hk).2.1 i hi rfl x))
      exact ⟨K, fun _ _ => hK⟩
    · exact ⟨0, fun h1 h2 => absurd ⟨h1, h2⟩ h⟩
  choose Kc hKc using hK
  set K1 := range (2 * B.bt) with hK1
  set K2 := range B.bt with hK2
  set W : Nega N ℤ := ∑ j ∈ M.ids1, ∑ i ∈ M.ids0, ∑ k ∈ K1, s j * (D1 j k * (D0 i k * ed i k))
        - ∑ j ∈ M.ids1, s j * LX j
        - ∑ i ∈ M.ids0, ∑ j ∈ M.ids1, ∑ k ∈ K1, r i * (D0 i k * (D1 j k * eb j k))
        + ∑ i ∈ M.ids0, r i * LY i
        + ∑ i ∈ M.ids0, ∑ k ∈ K2, Dw i k * ev i k
        - ∑ i ∈ M.ids0, LV i - ∑ i ∈ M.ids0, s i * LU i with hW
  set GD : Nega N ℤ := ∑ j ∈ M.ids1, ∑ i ∈ M.ids0, (∑ k ∈ K1, (G k : Nega N ℤ) * (D0 i k * D1 j k)) * (s i * s j) with hGD
  -- the P rows
  have hP : ∀ j < B.C.nP, red (B.C.p j) (GD + W) = 0 := by
    intro j hj
    have key := relin_core M.ids0 M.ids1 K1 K2 (0 : Nega N (ZMod (B.C.p j))) (fun k => (G k : Nega N (ZMod (B.C.p j)))) (fun _ => 0)
      (fun id => red (B.C.p j) (s id)) (fun id => red (B.C.p j) (r id))
      (fun id k => red (B.C.p j) (D0 id k)) (fun id k => red (B.C.p j) (D1 id k)) (fun id k => red (B.C.p j) (Dw id k))
      (fun k => (B.C.RP j).mv ((a k).P j)) (fun k => (B.C.RP j).mv ((M.u k).P j))
      (fun id k => (B.C.RP j).mv ((M.b id k).P j)) (fun id k => (B.C.RP j).mv ((M.d id k).P j))
      (fun id k => (B.C.RP j).mv ((M.v id k).P j))
      (fun id k => red (B.C.p j) (eb id k)) (fun id k => red (B.C.p j) (ed id k)) (fun id k => red (B.C.p j) (ev id k))
      (fun k => (B.C.RP j).mv ((M.x k).P j)) (fun k => (B.C.RP j).mv ((M.y k).P j))
      (fun _ => 0) (fun _ => 0) (fun _ => 0) (fun _ => 0)
      (fun id => red (B.C.p j) (LX id)) (fun id => red (B.C.p j) (LY id)) (fun id => red (B.C.p j) (LV id))
      (fun id => red (B.C.p j) (LU id))
      (fun id hid k hk => (hb id hid k (mem_range.mp hk)).2.2 j hj)
      (fun id hid k hk => by rw [(hd id hid k (mem_range.mp hk)).2.2 j hj]; push_cast; ring)
      (fun id hid k hk => by rw [(hv id hid k (mem_range.mp hk)).2.2 j hj]; ring)
      (fun k hk => by
        show (B.C.RP j).ev ((B.C.RP j).ofEv _) * _ = _
        rw [LimbOps.ev_ofEv, sum_mul]
        refine sum_congr rfl fun id hid => ?_
        rw [← (hD0 id k hid (mem_range.mp hk)).2.2.p j hj]
        unfold LimbOps.mv; ring)
      (fun k hk => by
        show (B.C.RP j).ev ((B.C.RP j).ofEv _) * _ = _
        rw [LimbOps.ev_ofEv, sum_mul]
        refine sum_congr rfl fun id hid => ?_
        rw [← (hD1 id k hid (mem_range.mp hk)).2.2.p j hj]
        unfold LimbOps.mv; ring)
      (fun id hid => by
        rw [(hLY id).2.1 j hj, zero_mul, eq_comm, sub_eq_zero]
        refine sum_congr rfl fun k hk => ?_
        rw [← (hD0 id k hid (mem_range.mp hk)).2.2.p j hj]
        unfold LimbOps.mv; ring)
      (fun id hid => by
        rw [(hLX id).2.1 j hj, zero_mul, eq_comm, sub_eq_zero]
        refine sum_congr rfl fun k hk => ?_
        rw [← (hD1 id k hid (mem_range.mp hk)).2.2.p j hj]
        unfold LimbOps.mv; ring)
      (fun id hid => by
        rw [(hLV id).2.1 j hj, zero_mul, eq_comm, sub_eq_zero]
        refine sum_congr rfl fun k hk => ?_
        rw [← (hDw id k (mem_range.mp hk)).2.p j hj]
        unfold LimbOps.mv; ring)
      (fun id hid => by
        rw [(hLU id).2.1 j hj, zero_mul, eq_comm, sub_eq_zero]
        refine sum_congr rfl fun k hk => ?_
        rw [← (hDw id k (mem_range.mp hk)).2.p j hj]
        unfold LimbOps.mv; ring)
      (fun id hid => by simp)
    rw [zero_mul] at key
    rw [hGD, hW]
    simp only [map_add, map_sub, map_sum, map_mul, map_natCast]
    exact key.symm
  obtain ⟨Z, hZ⟩ := V.qp.exists_div (GD + W) hP
  -- the Q rows
  have hQ : ∀ i < B.C.nQ, (B.C.P : Nega N (ZMod (B.C.q i))) *
      (∑ id ∈ M.ids0, cf (epG B.top (digs B.top (M.w id)) (M.v id) i) +
        (∑ id ∈ M.ids0, cf (epG B.top (digs B.top (M.w id)) M.u i) * red (B.C.q i) (s id) +
         ∑ id ∈ M.ids1, cf (epB (M.h1 id) M.x i) * red (B.C.q i) (s id))) = red (B.C.q i) (GD + W) := by
    intro i hin
    have hi : i ≤ B.top := by omega
    have key := relin_core M.ids0 M.ids1 K1 K2 (B.C.P : Nega N (ZMod (B.C.q i))) (fun k => (G k : Nega N (ZMod (B.C.q i))))
      (fun k => B.C.gad k i)
      (fun id => red (B.C.q i) (s id)) (fun id => red (B.C.q i) (r id))
      (fun id k => red (B.C.q i) (D0 id k)) (fun id k => red (B.C.q i) (D1 id k)) (fun id k => red (B.C.q i) (Dw id k))
      (fun k => (B.C.RQ i).mv ((a k).Q i)) (fun k => (B.C.RQ i).mv ((M.u k).Q i))
      (fun id k => (B.C.RQ i).mv ((M.b id k).Q i)) (fun id k => (B.C.RQ i).mv ((M.d id k).Q i))
      (fun id k => (B.C.RQ i).mv ((M.v id k).Q i))
      (fun id k => red (B.C.q i) (eb id k)) (fun id k => red (B.C.q i) (ed id k)) (fun id k => red (B.C.q i) (ev id k))
      (fun k => (B.C.RQ i).mv ((M.x k).Q i)) (fun k => (B.C.RQ i).mv ((M.y k).Q i))
      (fun id => cf (M.w id i)) (fun id => cf (epB (M.h1 id) M.x i))
      (fun id => cf (epG B.top (digs B.top (M.w id)) (M.v id) i))
      (fun id => cf (epG B.top (digs B.top (M.w id)) M.u i))
      (fun id => red (B.C.q i) (LX id)) (fun id => red (B.C.q i) (LY id)) (fun id => red (B.C.q i) (LV id))
      (fun id => red (B.C.q i) (LU id))
      (fun j hj k hk => (hb j hj k (mem_range.mp hk)).2.1 i hin)
      (fun j hj k hk => by rw [(hd j hj k (mem_range.mp hk)).2.1 i hin]; push_cast; ring)
      (fun j hj k hk => by rw [(hv j hj k (mem_range.mp hk)).2.1 i hin, map_neg]; ring)
      (fun k hk => by
        show (B.C.RQ i).ev ((B.C.RQ i).ofEv _) * _ = _
        rw [LimbOps.ev_ofEv, sum_mul]
        refine sum_congr rfl fun id hid => ?_
        rw [← (hD0 id k hid (mem_range.mp hk)).2.2.q i hi]
        unfold LimbOps.mv; ring)
      (fun k hk => by
        show (B.C.RQ i).ev ((B.C.RQ i).ofEv _) * _ = _
        rw [LimbOps.ev_ofEv, sum_mul]
        refine sum_congr rfl fun id hid => ?_
        rw [← (hD1 id k hid (mem_range.mp hk)).2.2.q i hi]
        unfold LimbOps.mv; ring)
      (fun id hid => by
        refine ((hLY id).2.2 i hi).trans ?_
        congr 1
        refine sum_congr rfl fun k hk => ?_
        rw [← (hD0 id k hid (mem_range.mp hk)).2.2.q i hi]
        unfold LimbOps.mv; ring)
      (fun id hid => by
        refine ((hLX id).2.2 i hi).trans ?_
        congr 1
        refine sum_congr rfl fun k hk => ?_
        rw [← (hD1 id k hid (mem_range.mp hk)).2.2.q i hi]
        unfold LimbOps.mv; ring)
      (fun id hid => by
        refine ((hLV id).2.2 i hi).trans ?_
        congr 1
        refine sum_congr rfl fun k hk => ?_
        rw [← (hDw id k (mem_range.mp hk)).2.q i hi]
        unfold LimbOps.mv; ring)
      (fun id hid => by
        refine ((hLU id).2.2 i hi).trans ?_
        congr 1
        refine sum_congr rfl fun k hk => ?_
        rw [← (hDw id k (mem_range.mp hk)).2.q i hi]
        unfold LimbOps.mv; ring)
      (fun id hid => by
        rw [hK2, ← hbeta, gad_sum V.qp htop hi (fun k => red (B.C.q i) (Dw id k))]
        rw [(hDw id _ (V.qp.div_lt_beta htop hi)).1.cong i hi rfl])
    rw [key, hGD, hW]
    simp only [map_add, map_sub, map_sum, map_mul, map_natCast]
  -- the phase of the result
  have hph : ∀ i < B.C.nQ, phaseRows (M.ids0 ∪ M.ids1) s M.out i =
      red (B.C.q i) (O "0" + ∑ id ∈ M.ids0 ∪ M.ids1, O id * s id + Z) := by
    intro i hin
    apply V.qp.P_cancel hin
    have e : (B.C.P : Nega N (ZMod (B.C.q i))) * red (B.C.q i) (O "0" + ∑ id ∈ M.ids0 ∪ M.ids1, O id * s id + Z) =
        (B.C.P : Nega N (ZMod (B.C.q i))) * (red (B.C.q i) (O "0") + ∑ id ∈ M.ids0 ∪ M.ids1, red (B.C.q i) (O id) * red (B.C.q i) (s id)) +
        red (B.C.q i) (GD + W) := by
      rw [hZ]; simp only [map_add, map_mul, map_sum, map_natCast]; ring
    rw [e, ← hQ i hin, ← mul_add]
    congr 1
    unfold phaseRows
    have h0 : cf (M.out "0" i) = _ := LimbOps.cf_ofCf (B.C.RQ i) _
    rw [h0, (hO "0" (.inr rfl)).2.2 i hin]
    have e0 : ∑ id ∈ M.ids0, cf (epG B.top (digs B.top (M.w id)) M.u i) * red (B.C.q i) (s id)
        = ∑ id ∈ M.ids0 ∪ M.ids1, if id ∈ M.ids0 then cf (epG B.top (digs B.top (M.w id)) M.u i) * red (B.C.q i) (s id) else 0 := by
      rw [Finset.sum_ite_mem, Finset.inter_eq_right.mpr subset_union_left]
    have e1 : ∑ id ∈ M.ids1, cf (epB (M.h1 id) M.x i) * red (B.C.q i) (s id)
        = ∑ id ∈ M.ids0 ∪ M.ids1, if id ∈ M.ids1 then cf (epB (M.h1 id) M.x i) * red (B.C.q i) (s id) else 0 := by
      rw [Finset.sum_ite_mem, Finset.inter_eq_right.mpr subset_union_right]
    have e2 : ∑ id ∈ M.ids0 ∪ M.ids1, cf (M.out id i) * red (B.C.q i) (s id) =
        ∑ id ∈ M.ids0 ∪ M.ids1, red (B.C.q i) (O id) * red (B.C.q i) (s id) +
        (∑ id ∈ M.ids0, cf (epG B.top (digs B.top (M.w id)) M.u i) * red (B.C.q i) (s id) +
         ∑ id ∈ M.ids1, cf (epB (M.h1 id) M.x i) * red (B.C.q i) (s id)) := by
      rw [e0, e1, ← sum_add_distrib, ← sum_add_distrib]
      refine sum_congr rfl fun id hid => ?_
      have hne : id ≠ "0" := by
        rintro rfl
        rcases mem_union.mp hid with h | h
        · exact H.n0 h
        · exact H.n1 h
      have h1 : M.out id i = M.outI id i := by
        unfold BMulIn.out; rw [if_neg hne]
      have h2 : cf (M.outI id i) = _ := LimbOps.cf_ofCf (B.C.RQ i) _
      rw [h1, h2, (hO id (.inl hid)).2.2 i hin]
      split_ifs <;> ring
    rw [e2]
    ring
  -- the equation over the integers
  set RD : Nega N ℤ := ∑ j ∈ M.ids1, ∑ i ∈ M.ids0, (∑ k ∈ K1, (rho k : Nega N ℤ) * (D0 i k * D1 j k)) * (s i * s j) with hRD
  set KS : Nega N ℤ := ∑ j ∈ M.ids1, ∑ i ∈ M.ids0, Kc i j * (s i * s j) with hKS
  set LT : Nega N ℤ := L "0" + ∑ id ∈ M.ids0 ∪ M.ids1, L id * s id with hLT
  have hgad : (B.QMul : Nega N ℤ) * GD = (B.t : Nega N ℤ) * (B.C.P : Nega N ℤ) *
      (∑ j ∈ M.ids1, ∑ i ∈ M.ids0, A0 i * A1 j * (s i * s j) + (B.R : Nega N ℤ) * KS) - RD := by
    rw [hGD, hRD, hKS, mul_sum, mul_sum, ← sum_add_distrib, mul_sum, ← sum_sub_distrib]
    refine sum_congr rfl fun j hj => ?_
    rw [mul_sum, mul_sum, ← sum_add_distrib, mul_sum, ← sum_sub_distrib]
    refine sum_congr rfl fun i hi => ?_
    have h1 : (B.QMul : Nega N ℤ) * ∑ k ∈ K1, (G k : Nega N ℤ) * (D0 i k * D1 j k) =
        (B.t : Nega N ℤ) * (B.C.P : Nega N ℤ) * (∑ k ∈ K1, (g k : Nega N ℤ) * (D0 i k * D1 j k)) -
        ∑ k ∈ K1, (rho k : Nega N ℤ) * (D0 i k * D1 j k) := by
      rw [mul_sum, mul_sum, ← sum_sub_distrib]
      refine sum_congr rfl fun k hk => ?_
      have h2 := congrArg (fun n : ℕ => (n : Nega N ℤ)) (H.gad.eq k (mem_range.mp hk))
      push_cast at h2
      linear_combination (D0 i k * D1 j k) * h2
    rw [hKc i j hi hj] at h1
    linear_combination (s i * s j) * h1
  have htens : (B.QMul : Nega N ℤ) * (O "0" + ∑ id ∈ M.ids0 ∪ M.ids1, O id * s id) = (B.t : Nega N ℤ) *
      (A0 "0" * A1 "0" + ∑ id ∈ M.ids0, A1 "0" * A0 id * s id + ∑ id ∈ M.ids1, A0 "0" * A1 id * s id) - LT := by
    have e0 : ∑ id ∈ M.ids0, A1 "0" * A0 id * s id = ∑ id ∈ M.ids0 ∪ M.ids1, if id ∈ M.ids0 then A1 "0" * A0 id * s id else 0 := by
      rw [Finset.sum_ite_mem, Finset.inter_eq_right.mpr subset_union_left]
    have e1 : ∑ id ∈ M.ids1, A0 "0" * A1 id * s id = ∑ id ∈ M.ids0 ∪ M.ids1, if id ∈ M.ids1 then A0 "0" * A1 id * s id else 0 := by
      rw [Finset.sum_ite_mem, Finset.inter_eq_right.mpr subset_union_right]
    have e2 : (B.QMul : Nega N ℤ) * ∑ id ∈ M.ids0 ∪ M.ids1, O id * s id = (B.t : Nega N ℤ) *
        (∑ id ∈ M.ids0, A1 "0" * A0 id * s id + ∑ id ∈ M.ids1, A0 "0" * A1 id * s id) - ∑ id ∈ M.ids0 ∪ M.ids1, L id * s id := by
      rw [e0, e1, ← sum_add_distrib, mul_sum, mul_sum, ← sum_sub_distrib]
      refine sum_congr rfl fun id hid => ?_
      have hne : id ≠ "0" := by
        rintro rfl
        rcases mem_union.mp hid with h | h
        · exact H.n0 h
        · exact H.n1 h
      have h1 := (hO id (.inl hid)).2.1
      unfold tensI at h1
      rw [if_neg hne] at h1
      rw [← mul_assoc, h1]
      split_ifs <;> ring
    have e3 := (hO "0" (.inr rfl)).2.1
    unfold tensI at e3
    rw [if_pos rfl] at e3
    rw [mul_add, e2, e3, hLT]
    ring
  have hprod : (A0 "0" + ∑ id ∈ M.ids0, A0 id * s id) * (A1 "0" + ∑ id ∈ M.ids1, A1 id * s id) =
      A0 "0" * A1 "0" + ∑ id ∈ M.ids0, A1 "0" * A0 id * s id + ∑ id ∈ M.ids1, A0 "0" * A1 id * s id +
        ∑ j ∈ M.ids1, ∑ i ∈ M.ids0, A0 i * A1 j * (s i * s j) := by
    have e : (∑ i ∈ M.ids0, A0 i * s i) * (∑ j ∈ M.ids1, A1 j * s j) = ∑ j ∈ M.ids1, ∑ i ∈ M.ids0, A0 i * A1 j * (s i * s j) := by
      rw [sum_mul_sum, sum_comm]
      refine sum_congr rfl fun j _ => sum_congr rfl fun i _ => by ring
    have e2 : (∑ i ∈ M.ids0, A0 i * s i) * A1 "0" = ∑ i ∈ M.ids0, A1 "0" * A0 i * s i := by
      rw [sum_mul]; exact sum_congr rfl fun i _ => by ring
    have e3 : A0 "0" * (∑ j ∈ M.ids1, A1 j * s j) = ∑ j ∈ M.ids1, A0 "0" * A1 j * s j := by
      rw [mul_sum]; exact sum_congr rfl fun i _ => by ring
    rw [← e, ← e2, ← e3]; ring
  have hR : (B.R : Nega N ℤ) = (B.Q : Nega N ℤ) * (B.QMul : Nega N ℤ) := by
    unfold BCtx.R; push_cast; rfl
  refine ⟨O "0" + ∑ id ∈ M.ids0 ∪ M.ids1, O id * s id + Z - (B.t : Nega N ℤ) * (B.Q : Nega N ℤ) * KS,
    (B.QMul : Nega N ℤ) * W - RD - (B.C.P : Nega N ℤ) * LT, ?_, ?_, fun i hin => ?_⟩
  · -- the bound
    have hWb : Bdd W (M.ids1.card * (M.ids0.card * ((2 * B.bt : ℕ) * (N * Sb * (N * D * (N * D * Be))))) + M.ids1.card * (N * Sb * (2 * B.C.P))
        + M.ids0.card * (M.ids1.card * ((2 * B.bt : ℕ) * (N * Rb * (N * D * (N * D * Be))))) + M.ids0.card * (N * Rb * (2 * B.C.P))
        + M.ids0.card * (B.bt * (N * D * Be)) + M.ids0.card * (2 * B.C.P) + M.ids0.card * (N * Sb * (2 * B.C.P))) := by
      rw [hW]
      have sb : ∀ id ∈ M.ids1, Bdd (s id) Sb := fun id h => H.s0 id (mem_union_right _ h)
      have sa : ∀ id ∈ M.ids0, Bdd (s id) Sb := fun id h => H.s0 id (mem_union_left _ h)
      have c1 : ((2 * B.bt : ℕ) : ℤ) = K1.card := by rw [hK1, card_range]
      have c2 : (B.bt : ℤ) = K2.card := by rw [hK2, card_range]
      refine Bdd.sub (Bdd.sub (Bdd.add (Bdd.add (Bdd.sub (Bdd.sub ?_ ?_) ?_) ?_) ?_) ?_) ?_
      · refine Bdd.sum_const _ _ _ fun j hj => Bdd.sum_const _ _ _ fun i hi => ?_
        rw [c1]
        refine Bdd.sum_const _ _ _ fun k hk => (sb j hj).mul ((hD1 j k hj (mem_range.mp hk)).1.mul
          ((hD0 i k hi (mem_range.mp hk)).1.mul (hd i hi k (mem_range.mp hk)).1))
      · exact Bdd.sum_const _ _ _ fun j hj => (sb j hj).mul (hLX j).1
      · refine Bdd.sum_const _ _ _ fun i hi => Bdd.sum_const _ _ _ fun j hj => ?_
        rw [c1]
        refine Bdd.sum_const _ _ _ fun k hk => (H.r0 i hi).mul ((hD0 i k hi (mem_range.mp hk)).1.mul
          ((hD1 j k hj (mem_range.mp hk)).1.mul (hb j hj k (mem_range.mp hk)).1))
      · exact Bdd.sum_const _ _ _ fun i hi => (H.r0 i hi).mul (hLY i).1
      · refine Bdd.sum_const _ _ _ fun i hi => ?_
        rw [c2]
        exact Bdd.sum_const _ _ _ fun k hk => (hDw i k (mem_range.mp hk)).1.bdd.mul (hv i hi k (mem_range.mp hk)).1
      · exact Bdd.sum_const _ _ _ fun i _ => (hLV i).1
      · exact Bdd.sum_const _ _ _ fun i hi => (sa i hi).mul (hLU i).1
    have hRb : Bdd RD (M.ids1.card * (M.ids0.card * (N * ((2 * B.bt : ℕ) * (B.QMul * (N * D * D))) * (N * Sb * Sb)))) := by
      rw [hRD]
      have c1 : ((2 * B.bt : ℕ) : ℤ) = K1.card := by rw [hK1, card_range]
      refine Bdd.sum_const _ _ _ fun j hj => Bdd.sum_const _ _ _ fun i hi => ?_
      refine Bdd.mul ?_ ((H.s0 i (mem_union_left _ hi)).mul (H.s0 j (mem_union_right _ hj)))
      rw [c1]
      refine Bdd.sum_const _ _ _ fun k hk => ?_
      have h1 := ((hD0 i k hi (mem_range.mp hk)).1.mul (hD1 j k hj (mem_range.mp hk)).1)
      refine (h1.natMul (rho k)).mono (mul_le_mul_of_nonneg_right ?_ h1.nonneg)
      exact_mod_cast (H.gad.rem k (mem_range.mp hk)).le
    have hLb : Bdd LT (2 * B.QMul + (M.ids0 ∪ M.ids1).card * (N * (2 * B.QMul) * Sb)) := by
      rw [hLT]
      refine Bdd.add (hO "0" (.inr rfl)).1 (Bdd.sum_const _ _ _ fun id hid => (hO id (.inl hid)).1.mul (H.s0 id hid))
    unfold bmulNoise
    exact ((hWb.natMul B.QMul).sub hRb).sub (hLb.natMul B.C.P)
  · rw [hprod]
    have hZ' : (B.C.P : Nega N ℤ) * Z = GD + W := hZ.symm
    rw [hR] at hgad
    linear_combination (B.C.P : Nega N ℤ) * htens + hgad + (B.QMul : Nega N ℤ) * hZ'
  · rw [hph i hin, map_sub, map_mul, map_mul, map_natCast, map_natCast]
    have : (B.Q : Nega N (ZMod (B.C.q i))) = 0 := by
      have h1 : B.C.q i ∣ B.Q := Finset.dvd_prod_of_mem _ (mem_range.mpr hin)
      rw [← map_natCast (Nega.CHom (N := N) (K := ZMod (B.C.q i))), (ZMod.natCast_eq_zero_iff _ _).mpr h1, map_zero]
    rw [this]
    ring

end MKHE
