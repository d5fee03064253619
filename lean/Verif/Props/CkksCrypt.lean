import Verif.Props.CkksSem
import Verif.Props.Crypt

set_option autoImplicit false

/-!
# C59: CKKS encryption and decryption as approximate semantics
-/

namespace MKHE.C59
open Finset Nega

variable {N : ℕ} [NeZero N] {C : Ctx N} {S : Sys C}

/-- the exact length of what `EncryptMsgNew` returns -/
theorem ckksEncryptNew_atLevel (V : C.Valid) (o : Sched String) (us gs : ℕ → Nega N ℤ) (st : Enc C) {pt : Poly C} (hpt : 0 < pt.len) {scale : ℚ}
    {pk : PKey C} (hid : pk.id ≠ "0") {ct : CCt C} {st' : Enc C} (h : ckksEncryptNew o us gs st pt scale pk = .ok (ct, st')) :
    ct.ct.AtLevel (min (pt.len - 1) (C.nQ - 1)) := by
  have hq := V.q1
  obtain ⟨ids, a1, a2⟩ := C17.newReceiver (C := C) (o 207) hid (C.nQ - 1)
  obtain ⟨p0, h0, hl0, hb⟩ := a2.comp0
  obtain ⟨p1, h1, hl1⟩ := a2.comp1
  obtain ⟨ct', st'', e1, _, _, e4, e5, e6⟩ := encrypt_ok us gs st (pt := pt) hpt hid h0 h1 (by omega) (by omega)
  unfold ckksEncryptNew ckksEncryptPtxt at h
  rw [a1, bind_ok, e1, bind_ok] at h
  injection h with h
  have h := congrArg Prod.fst h
  dsimp only at h
  subst h
  have hl : min (pt.len - 1) (p0.len - 1) = min (pt.len - 1) (C.nQ - 1) := by omega
  rw [hl] at e4 e5
  refine ⟨Ct.mem_of_lookup e4, fun id p hp => ?_, fun id p hp => ?_⟩
  all_goals
    dsimp only at hp
    by_cases i0 : id = "0"
    · subst i0
      rw [e4] at hp; injection hp with hp; subst hp
      unfold enc0; rw [hb]; first | rfl | exact hb
    · by_cases i1 : id = pk.id
      · subst i1
        rw [e5] at hp; injection hp with hp; subst hp
        unfold enc1; rw [hb]; rfl
      · rw [e6 id i0 i1] at hp
        have : id ∈ (Ct.new (o 207) ids (C.nQ - 1) : Ct C).ids := Ct.mem_ids.mpr ⟨Ct.mem_of_lookup hp, i0⟩
        rw [a2.ids, mem_singleton] at this
        exact absurd this i1

/-- **C59, encryption.** `EncryptMsgNew` of a plaintext that encodes `v` with error `Bp` gives an encryption of `v`, with the error of the
encoding and the encryption noise. The ciphertext has the level of the plaintext. -/
theorem encrypt (V : C.Valid) (hS : S.Ok) (o : Sched String) (us gs : ℕ → Nega N ℤ) (st : Enc C) {pt : Poly C} {l : ℕ} (hlen : pt.len = l + 1)
    (hl : l < C.nQ) {scale : ℚ} (hsc : 0 < scale) {v : Nega N ℝ} {Vb Bp : ℝ} (hv : SBdd v Vb)
    (hpt : ∃ Φ : Nega N ℤ, (∀ i ≤ l, cf (pt.coeffs i) = red (C.q i) Φ) ∧ ∀ j : ℤ, ‖slot j (toReal Φ) - ((scale : ℝ) : ℂ) * slot j v‖ ≤ Bp) {pk : PKey C} (hid : pk.id ≠ "0")
    (hU : pk.id ∈ S.U) {e : Nega N ℤ} (hpk : C17.PubKey pk (S.s pk.id) e) {Bu Be Bg : ℤ} (hu : ∀ n, Bdd (us n) Bu) (hg : ∀ n, Bdd (gs n) Bg)
    (he : Bdd e Be) :
    ∃ ct st', ckksEncryptNew o us gs st pt scale pk = .ok (ct, st') ∧
      Approx S ct v ⟨l, scale, {pk.id}, Vb, Bp + N * ((N * Bu * Be + Bg + N * Bg * S.Sb : ℤ) : ℝ)⟩ := by
  obtain ⟨ct, st', a1, a2, a3, e0, e1, a4, a5⟩ := C17.ckksEncryptNew_phase V o us gs st (pt := pt) (by omega) scale hid hpk
  have hmin : min (pt.len - 1) (C.nQ - 1) = l := by omega
  have hat := ckksEncryptNew_atLevel V o us gs st (by omega) hid a1
  rw [hmin] at hat a5
  obtain ⟨Φ, p1, p2⟩ := hpt
  have hE : Bdd (us st.upos * e + e0 + e1 * S.s pk.id) (N * Bu * Be + Bg + N * Bg * S.Sb) := by
    refine C17.noise_bound (hu _) he ?_ ?_ (hS.sb _)
    · rcases a4 with ⟨h, _⟩ | ⟨_, h⟩ <;> rw [h] <;> exact hg _
    · rcases a4 with ⟨_, h⟩ | ⟨h, _⟩ <;> rw [h] <;> exact hg _
  refine ⟨_, st', a1, hl, hat, rfl, hsc, a2, singleton_subset_iff.mpr hU, hv, Φ + (us st.upos * e + e0 + e1 * S.s pk.id), fun i hi => ?_, fun x => ?_⟩
  · exact (a5 i hi).trans (by rw [p1 i hi, ← map_add])
  · generalize us st.upos * e + e0 + e1 * S.s pk.id = F at hE
    have h1 : ‖slot x (toReal F)‖ ≤ N * ((N * Bu * Be + Bg + N * Bg * S.Sb : ℤ) : ℝ) := slot_norm x fun y => by
      rw [toReal_apply, ← Int.cast_abs]; exact Int.cast_le.mpr (hE y)
    have h2 := p2 x
    rw [map_add, map_add, show ∀ p q r : ℂ, p + q - r = (p - r) + q by intros; ring]
    exact (norm_add_le _ _).trans (add_le_add h2 h1)

/-- the modulus of a level -/
def modulus (C : Ctx N) (l : ℕ) : ℕ := ∏ i ∈ range (l + 1), C.q i

/-- an integer polynomial is determined by its residues if it is smaller than half the modulus -/
theorem lift_unique (V : C.Valid) {l : ℕ} (hl : l < C.nQ) {F G : Nega N ℤ} (hF : ∀ x, 2 * |F x| < modulus C l) (hG : ∀ x, 2 * |G x| ≤ modulus C l)
    (h : ∀ i ≤ l, red (C.q i) F = red (C.q i) G) : F = G := by
  refine Nega.ext fun x => ?_
  have hd : ((modulus C l : ℕ) : ℤ) ∣ F x - G x := by
    unfold modulus
    push_cast
    apply Finset.prod_dvd_of_coprime
    · intro a ha b hb hab
      have ha' := mem_range.mp (Finset.mem_coe.mp ha)
      have hb' := mem_range.mp (Finset.mem_coe.mp hb)
      refine Nat.isCoprime_iff_coprime.mpr ((Nat.coprime_primes (V.pair.primeQ _ (by omega)) (V.pair.primeQ _ (by omega))).mpr fun e => hab ?_)
      exact V.pair.distinctQ _ (by omega) _ (by omega) e
    · intro j hj
      have hj' := mem_range.mp hj
      have := (red_eq_zero_iff (C.q j) (F - G)).mp (by rw [map_sub, h j (by omega), sub_self]) x
      rwa [Nega.sub_apply] at this
  have h1 := hF x
  have h2 := hG x
  have h3 : |F x - G x| ≤ |F x| + |G x| := abs_sub _ _
  have := Int.eq_zero_of_abs_lt_dvd hd (by omega)
  omega

/-- a polynomial that holds the phase of an encryption of a value that fits the modulus has one centred representative, near the value -/
theorem centred (V : C.Valid) {ct : CCt C} {v : Nega N ℝ} {a : Info} (h : Approx S ct v a) (hfit : 2 * (a.scale * a.V + a.B) < modulus C a.level) {pt : Poly C}
    (hpt : ∀ i ≤ a.level, cf (pt.rows i) = ct.ct.phase S.s i) :
    ∃ Φ : Nega N ℤ, (∀ i ≤ a.level, cf (pt.rows i) = red (C.q i) Φ) ∧ (∀ x, 2 * |Φ x| < modulus C a.level) ∧
      (∀ Ψ : Nega N ℤ, (∀ i ≤ a.level, cf (pt.rows i) = red (C.q i) Ψ) → (∀ x, 2 * |Ψ x| ≤ modulus C a.level) → Ψ = Φ) ∧
      (∀ x, |(Φ x : ℝ) - a.scale * v x| ≤ a.B) ∧
      ∀ j : ℤ, ‖slot j (toReal Φ) / (a.scale : ℂ) - slot j v‖ ≤ a.B / a.scale := by
  obtain ⟨Φ, f1, f2⟩ := h.enc
  have hsc : (0 : ℝ) < a.scale := by exact_mod_cast h.pos
  have hcoef : ∀ x, |(Φ x : ℝ) - a.scale * v x| ≤ a.B := by
    have hb : SBdd (toReal Φ - Nega.C (a.scale : ℝ) * v) a.B := fun j => by rw [map_sub, slot_smul]; exact f2 j
    intro x
    have := hb.coeff V.hN V.log1 x
    rwa [Nega.sub_apply, C_mul, toReal_apply] at this
  have hbig : ∀ x, 2 * |Φ x| < modulus C a.level := fun x => by
    have g1 := hcoef x
    have g2 := h.bdd.coeff V.hN V.log1 x
    have g3 : |(Φ x : ℝ)| ≤ a.scale * a.V + a.B := by
      have e : (Φ x : ℝ) = (Φ x - a.scale * v x) + a.scale * v x := by ring
      rw [e]
      refine (abs_add_le _ _).trans ?_
      rw [abs_mul, abs_of_pos hsc, add_comm]
      exact add_le_add (mul_le_mul_of_nonneg_left g2 hsc.le) g1
    have g4 : (2 : ℝ) * |(Φ x : ℝ)| < modulus C a.level := lt_of_le_of_lt (by linarith) hfit
    exact_mod_cast g4
  have hrep : ∀ i ≤ a.level, cf (pt.rows i) = red (C.q i) Φ := fun i hi => (hpt i hi).trans (f1 i hi)
  refine ⟨Φ, hrep, hbig, fun Ψ hΨ hb => ?_, hcoef, fun j => ?_⟩
  · exact (lift_unique V h.lt hbig hb fun i hi => by rw [← hrep i hi, hΨ i hi]).symm
  · have hsl := f2 j
    have hne : ((a.scale : ℝ) : ℂ) ≠ 0 := by exact_mod_cast hsc.ne'
    have e : slot j (toReal Φ) / (a.scale : ℂ) - slot j v = (slot j (toReal Φ) - ((a.scale : ℝ) : ℂ) * slot j v) / ((a.scale : ℝ) : ℂ) := by
      rw [sub_div, mul_div_cancel_left₀ _ hne, Complex.ofReal_ratCast]
    rw [e, norm_div, Complex.norm_real, Real.norm_of_nonneg hsc.le]
    exact div_le_div_of_nonneg_right hsl hsc.le

/-- **C59, decryption.** With a fresh decryptor, or one whose pool still has at least this level (see C21), and the keys of all parties,
`Decrypt` hands the decoder a plaintext of the ciphertext's level and scale. If the value fits the modulus, the centred representative of
that plaintext, which is what the decoder takes, is within `B` of `scale * v` in every coefficient and slot, so that after division by
the scale every slot is within `B / scale` of that of `v`. -/
theorem decrypt (V : C.Valid) (o : Sched String) {ct : CCt C} {v : Nega N ℝ} {a : Info} (h : Approx S ct v a) {sks : KeySet (SKey C)}
    (hs : SKeys.Of sks a.ids S.s) (pool : Poly C) (hpool : a.level < pool.len) (hfit : 2 * (a.scale * a.V + a.B) < modulus C a.level) :
    ∃ pt pool', ckksDecrypt o pool ct sks = .ok ((pt, a.scale), pool') ∧ pt.len = a.level + 1 ∧
      ∃ Φ : Nega N ℤ, (∀ i ≤ a.level, cf (pt.rows i) = red (C.q i) Φ) ∧ (∀ x, 2 * |Φ x| < modulus C a.level) ∧
        (∀ Ψ : Nega N ℤ, (∀ i ≤ a.level, cf (pt.rows i) = red (C.q i) Ψ) → (∀ x, 2 * |Ψ x| ≤ modulus C a.level) → Ψ = Φ) ∧
        (∀ x, |(Φ x : ℝ) - a.scale * v x| ≤ a.B) ∧
        ∀ j : ℤ, ‖slot j (toReal Φ) / (a.scale : ℂ) - slot j v‖ ≤ a.B / a.scale := by
  obtain ⟨cp, c1, c2⟩ := Ct.copyNew_ok (o 203) h.lvl.has0
  have hfl : cp.Flag false a.level := c2.symm.flag h.lvl.toFlag
  have hids : cp.ids = a.ids := c2.ids.trans h.ids
  obtain ⟨pt, d1, d2, -, -, d5⟩ := C20.decrypt_value hfl h.lt (by rw [hids]; exact hs) o pool
  have hmin : min a.level (pool.len - 1) = a.level := by omega
  rw [hmin] at d2 d5
  refine ⟨pt, pt, ?_, d2, centred V h hfit fun i hi => ?_⟩
  · unfold ckksDecrypt
    rw [c1, bind_ok, d1, bind_ok, h.scale]
  · have := d5 i hi
    simp only [Bool.false_eq_true, if_false] at this
    rw [this, c2.phase]

end MKHE.C59
