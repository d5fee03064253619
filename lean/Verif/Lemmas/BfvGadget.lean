import Verif.Lemmas.BfvTop
import Verif.Lemmas.KeyGen
import Verif.Model.BfvKeyGen

set_option autoImplicit false

/-!
# The BFV gadget vector and the BFV relinearization keys
-/

namespace MKHE
open Finset Nega

variable {N : ℕ} [NeZero N] {B : BCtx N}

/-- the modulus of R -/
def BCtx.R (B : BCtx N) : ℕ := B.Q * B.QMul

/-- the integer that is 1 modulo block `k` of R and 0 modulo the other blocks -/
def BCtx.crt (B : BCtx N) (k : ℕ) : ℕ := (B.R / B.blockR k) * bigModInverse (B.R / B.blockR k) (B.blockR k)

/-- component `k` of the BFV gadget vector -/
def BCtx.gadB (B : BCtx N) (k : ℕ) : ℕ := gadgetInt B (B.blockR k)

/-- what the division by `QMul` cuts off -/
def BCtx.rho (B : BCtx N) (k : ℕ) : ℕ := (B.t * B.C.P * B.crt k) % B.QMul

namespace BCtx.Valid
variable (V : B.Valid)
include V

theorem R_eq : B.R = ∏ i ∈ range (2 * B.C.nQ), B.r i := by
  have _ := V
  unfold BCtx.R BCtx.Q BCtx.QMul
  rw [two_mul, prod_range_add]
  congr 1
  · exact prod_congr rfl fun i hi => (B.r_q (mem_range.mp hi)).symm
  · exact prod_congr rfl fun i _ => (B.r_m i).symm

theorem blockR_eq {k : ℕ} (hk : k < 2 * B.bt) : B.blockR k = ∏ i ∈ (range (2 * B.C.nQ)).filter (fun i => i / B.C.alpha = k), B.r i := by
  have h1 := V.qp.alpha_pos
  have hb := V.block_le (k := k) hk
  have : (range (2 * B.C.nQ)).filter (fun i => i / B.C.alpha = k) = (range B.C.alpha).image (fun j => k * B.C.alpha + j) := by
    ext i
    rw [mem_filter, mem_range, mem_image, Nat.div_eq_iff h1]
    constructor
    · rintro ⟨a, b, c⟩
      exact ⟨i - k * B.C.alpha, mem_range.mpr (by omega), by omega⟩
    · rintro ⟨j, hj, rfl⟩
      have := mem_range.mp hj
      omega
  rw [this, prod_image (by intro a _ b _ h; simpa using h)]
  rfl

theorem R_split {k : ℕ} (hk : k < 2 * B.bt) :
    B.R = B.blockR k * ∏ i ∈ (range (2 * B.C.nQ)).filter (fun i => ¬ i / B.C.alpha = k), B.r i := by
  rw [V.R_eq, V.blockR_eq hk, prod_filter_mul_prod_filter_not]

theorem blockR_pos {k : ℕ} (hk : k < 2 * B.bt) : 0 < B.blockR k := by
  rw [V.blockR_eq hk]
  exact prod_pos fun i hi => (V.rp.primeQ i (mem_range.mp (mem_filter.mp hi).1)).pos

theorem R_pos : 0 < B.R := Nat.mul_pos V.Q_pos V.QMul_pos

theorem R_div {k : ℕ} (hk : k < 2 * B.bt) :
    B.R / B.blockR k = ∏ i ∈ (range (2 * B.C.nQ)).filter (fun i => ¬ i / B.C.alpha = k), B.r i := by
  rw [V.R_split hk, Nat.mul_div_cancel_left _ (V.blockR_pos hk)]

theorem R_div_coprime {k : ℕ} (hk : k < 2 * B.bt) : Nat.Coprime (B.R / B.blockR k) (B.blockR k) := by
  rw [V.R_div hk, V.blockR_eq hk]
  apply Nat.Coprime.prod_left
  intro i hi
  apply Nat.Coprime.prod_right
  intro j hj
  obtain ⟨hi1, hi2⟩ := mem_filter.mp hi
  obtain ⟨hj1, hj2⟩ := mem_filter.mp hj
  have hi1 := mem_range.mp hi1
  have hj1 := mem_range.mp hj1
  exact (Nat.coprime_primes (V.rp.primeQ i hi1) (V.rp.primeQ j hj1)).mpr
    fun e => hi2 (by rw [V.rp.distinctQ i hi1 j hj1 e]; exact hj2)

/-- the inverse computed by `ModInverse` -/
theorem crt_block {k : ℕ} (hk : k < 2 * B.bt) : B.crt k ≡ 1 [MOD B.blockR k] := by
  rw [← ZMod.natCast_eq_natCast_iff]
  unfold BCtx.crt bigModInverse
  haveI : NeZero (B.blockR k) := ⟨(V.blockR_pos hk).ne'⟩
  rw [Nat.cast_mul, ZMod.natCast_zmod_val, ZMod.coe_mul_inv_eq_one _ (V.R_div_coprime hk), Nat.cast_one]

theorem crt_same {k i : ℕ} (hk : k < 2 * B.bt) (hi : i < 2 * B.C.nQ) (h : i / B.C.alpha = k) : (B.crt k : ZMod (B.r i)) = 1 := by
  have h1 : B.r i ∣ B.blockR k := by
    rw [V.blockR_eq hk]; exact dvd_prod_of_mem _ (mem_filter.mpr ⟨mem_range.mpr hi, h⟩)
  have := (V.crt_block hk).of_dvd h1
  rw [← ZMod.natCast_eq_natCast_iff] at this
  rw [this, Nat.cast_one]

theorem crt_other {k i : ℕ} (hk : k < 2 * B.bt) (hi : i < 2 * B.C.nQ) (h : i / B.C.alpha ≠ k) : (B.crt k : ZMod (B.r i)) = 0 := by
  rw [ZMod.natCast_eq_zero_iff]
  unfold BCtx.crt
  apply Dvd.dvd.mul_right
  rw [V.R_div hk]; exact dvd_prod_of_mem _ (mem_filter.mpr ⟨mem_range.mpr hi, h⟩)

theorem R_dvd (z : ℤ) (hz : ∀ i < 2 * B.C.nQ, (B.r i : ℤ) ∣ z) : (B.R : ℤ) ∣ z := by
  rw [V.R_eq]
  push_cast
  apply Finset.prod_dvd_of_coprime
  · intro a ha b hb hab
    have ha' := mem_range.mp (Finset.mem_coe.mp ha)
    have hb' := mem_range.mp (Finset.mem_coe.mp hb)
    exact Nat.isCoprime_iff_coprime.mpr ((Nat.coprime_primes (V.rp.primeQ a ha') (V.rp.primeQ b hb')).mpr
      fun e => hab (V.rp.distinctQ a ha' b hb' e))
  · intro k hk
    exact hz k (mem_range.mp hk)

/-- block recombination over R -/
theorem crt_sum (f : ℕ → Nega N ℤ) (F : Nega N ℤ)
    (hf : ∀ i < 2 * B.C.nQ, red (B.r i) (f (i / B.C.alpha)) = red (B.r i) F) :
    ∃ K : Nega N ℤ, ∑ k ∈ range (2 * B.bt), (B.crt k : Nega N ℤ) * f k = F + (B.R : Nega N ℤ) * K := by
  have hα := V.qp.alpha_pos
  have hbt : B.bt * B.C.alpha = B.C.nQ := V.betaTop
  have h : ∀ x, (B.R : ℤ) ∣ (∑ k ∈ range (2 * B.bt), (B.crt k : Nega N ℤ) * f k - F) x := by
    intro x
    apply V.R_dvd
    intro i hi
    revert x
    rw [← red_eq_zero_iff, map_sub, map_sum, ← hf i hi, sub_eq_zero]
    have hk : i / B.C.alpha < 2 * B.bt := by
      rw [Nat.div_lt_iff_lt_mul hα]
      have : 2 * B.bt * B.C.alpha = 2 * B.C.nQ := by rw [mul_assoc, hbt]
      omega
    rw [Finset.sum_eq_single (i / B.C.alpha)]
    · rw [map_mul, map_natCast]
      have : ((B.crt (i / B.C.alpha) : ℕ) : Nega N (ZMod (B.r i))) = 1 := by
        rw [← map_natCast (Nega.CHom (N := N) (K := ZMod (B.r i))), V.crt_same hk hi rfl, map_one]
      rw [this, one_mul]
    · intro k hk' hne
      rw [map_mul, map_natCast]
      have : ((B.crt k : ℕ) : Nega N (ZMod (B.r i))) = 0 := by
        rw [← map_natCast (Nega.CHom (N := N) (K := ZMod (B.r i))), V.crt_other (mem_range.mp hk') hi (Ne.symm hne), map_zero]
      rw [this, zero_mul]
    · intro h; exact absurd (mem_range.mpr hk) h
  obtain ⟨K, hK⟩ : ∃ K : Nega N ℤ, ∀ x, (∑ k ∈ range (2 * B.bt), (B.crt k : Nega N ℤ) * f k - F) x = B.R * K x := by
    choose K hK using h
    exact ⟨K, hK⟩
  refine ⟨K, ?_⟩
  have : ∑ k ∈ range (2 * B.bt), (B.crt k : Nega N ℤ) * f k - F = (B.R : Nega N ℤ) * K :=
    Nega.ext fun x => (hK x).trans (natCast_mul_apply B.R K x).symm
  rw [← this]; ring

omit V in
/-- the component of the gadget vector is `T*P*crt/QMul` rounded down -/
theorem gadB_eq (k : ℕ) : B.QMul * B.gadB k + B.rho k = B.t * B.C.P * B.crt k := by
  unfold BCtx.gadB gadgetInt BCtx.rho BCtx.crt
  dsimp only
  have : B.Q * B.QMul / B.blockR k * B.t * bigModInverse (B.Q * B.QMul / B.blockR k) (B.blockR k) * B.C.P =
      B.t * B.C.P * (B.R / B.blockR k * bigModInverse (B.R / B.blockR k) (B.blockR k)) := by
    unfold BCtx.R; ring
  rw [this]
  exact Nat.div_add_mod _ _

theorem rho_lt (k : ℕ) : B.rho k < B.QMul := Nat.mod_lt _ V.QMul_pos

/-- for the blocks of Q nothing is cut off -/
theorem rho_zero {k : ℕ} (hk : k < B.bt) : B.rho k = 0 := by
  have hα := V.qp.alpha_pos
  have hbt : B.bt * B.C.alpha = B.C.nQ := V.betaTop
  unfold BCtx.rho
  apply Nat.mod_eq_zero_of_dvd
  apply Dvd.dvd.mul_left
  unfold BCtx.crt
  apply Dvd.dvd.mul_right
  rw [V.R_div (by omega)]
  have : B.QMul = ∏ i ∈ (range B.C.nQ).image (fun j => B.C.nQ + j), B.r i := by
    rw [prod_image (by intro a _ b _ h; simpa using h)]
    exact prod_congr rfl fun i _ => (B.r_m i).symm
  rw [this]
  apply prod_dvd_prod_of_subset
  intro i hi
  obtain ⟨j, hj, rfl⟩ := mem_image.mp hi
  have := mem_range.mp hj
  refine mem_filter.mpr ⟨mem_range.mpr (by omega), fun h => ?_⟩
  have h2 : B.bt ≤ (B.C.nQ + j) / B.C.alpha := by
    rw [Nat.le_div_iff_mul_le hα, hbt]; omega
  omega

end BCtx.Valid

/-! ## key generation -/

/-- **Key equation with an integer gadget**: `key_k = -sec * a_k + G_k*m + e_k` modulo every prime of Q and P, for the blocks `k < n`, with
errors bounded by `Be`. All rows are in NTT and Montgomery form. -/
def KeyRelG (C : Ctx N) (n : ℕ) (sec : Nega N ℤ) (a : ℕ → PolyQP C) (G : ℕ → ℤ) (m : Nega N ℤ) (Be : ℤ) (key : ℕ → PolyQP C) : Prop :=
  ∃ e : ℕ → Nega N ℤ, ∀ k < n, Bdd (e k) Be ∧
    (∀ i < C.nQ, (C.RQ i).mv ((key k).Q i) =
      - red (C.q i) sec * (C.RQ i).mv ((a k).Q i) + (G k : Nega N (ZMod (C.q i))) * red (C.q i) m + red (C.q i) (e k)) ∧
    ∀ j < C.nP, (C.RP j).mv ((key k).P j) =
      - red (C.p j) sec * (C.RP j).mv ((a k).P j) + (G k : Nega N (ZMod (C.p j))) * red (C.p j) m + red (C.p j) (e k)

theorem blockMod_ok {n : ℕ} {mods : ℕ → ℕ} {alpha i : ℕ} (h : i * alpha + alpha ≤ n) :
    blockMod n mods alpha i = .ok (∏ j ∈ range alpha, mods (i * alpha + j)) := by
  unfold blockMod
  have : ∀ m ≤ alpha, Go.loop (fun (acc : ℕ) j => if n ≤ i * alpha + j then (.error .indexOutOfRange : Go ℕ) else .ok (acc * mods (i * alpha + j)))
      1 (List.range m) = .ok (∏ j ∈ range m, mods (i * alpha + j)) := by
    intro m hm
    obtain ⟨r, e1, e2⟩ := Go.loop_inv (fun (acc : ℕ) j => if n ≤ i * alpha + j then (.error .indexOutOfRange : Go ℕ)
        else .ok (acc * mods (i * alpha + j))) (fun pre acc => acc = (pre.map fun j => mods (i * alpha + j)).prod) (List.range m) 1 (by simp) (by
        intro pre j suf acc hl hI
        have : j < m := List.mem_range.mp (by rw [hl]; simp)
        rw [if_neg (by omega)]
        exact ⟨_, rfl, by rw [hI]; simp⟩)
    rw [e1, e2, ← List.prod_toFinset _ List.nodup_range, List.toFinset_range]
  exact this alpha le_rfl

/-- one block: `mv = G*s + x` modulo every prime of Q and P -/
theorem genBfvBlock_eq (V : B.Valid) {sk : SKey B.C} {s x : Nega N ℤ} (hs : sk.Is s) (G : ℕ) {e : PolyQP B.C} (he : e.Is x)
    (old : PolyQP B.C) :
    (∀ i < B.C.nQ, (B.C.RQ i).mv ((genBfvBlock sk G e old).Q i) = (G : Nega N (ZMod (B.C.q i))) * red (B.C.q i) s + red (B.C.q i) x) ∧
    ∀ j < B.C.nP, (B.C.RP j).mv ((genBfvBlock sk G e old).P j) = (G : Nega N (ZMod (B.C.p j))) * red (B.C.p j) s + red (B.C.p j) x := by
  refine ⟨fun i hi => ?_, fun j hj => ?_⟩
  · have := hs.q i hi
    unfold LimbOps.mv at this
    show (B.C.RQ i).mv (setQ (B.C.nQ - 1) _ _ i) = _
    rw [setQ_top V.qp _ _ hi]
    unfold LimbOps.mv
    rw [LimbOps.ev_mform, mul_assoc, LimbOps.mul_rinv, mul_one]
    show (B.C.RQ i).ev (setQ (B.C.nQ - 1) _ _ i) = _
    rw [setQ_top V.qp _ _ hi, LimbOps.ev_add, he.q i hi]
    show (B.C.RQ i).ev (setQ (B.C.nQ - 1) _ _ i) + _ = _
    rw [setQ_top V.qp _ _ hi, LimbOps.ev_mulScalar]
    show _ * (B.C.RQ i).ev (setQ (B.C.nQ - 1) _ _ i) + _ = _
    rw [setQ_top V.qp _ _ hi, LimbOps.ev_invMform, this]
  · have := hs.p j hj
    unfold LimbOps.mv at this
    show (B.C.RP j).mv (setP B.C.nP _ _ j) = _
    rw [setP_top _ _ hj]
    unfold LimbOps.mv
    rw [LimbOps.ev_mform, mul_assoc, LimbOps.mul_rinv, mul_one]
    show (B.C.RP j).ev (setP B.C.nP _ _ j) = _
    rw [setP_top _ _ hj, LimbOps.ev_add, he.p j hj]
    show (B.C.RP j).ev (setP B.C.nP _ _ j) + _ = _
    rw [setP_top _ _ hj, LimbOps.ev_mulScalar]
    show _ * (B.C.RP j).ev (setP B.C.nP _ _ j) + _ = _
    rw [setP_top _ _ hj, LimbOps.ev_invMform, this]

/-- one of the two loops of `GenBFVSwitchingKey` -/
theorem genBfvHalf_ok (V : B.Valid) {Be : ℤ} (hB : B.C.SmallBound Be) {gs : ℕ → Nega N ℤ} (hg : ∀ n, Bdd (gs n) Be) (st : KG B.C)
    {sk : SKey B.C} {s : Nega N ℤ} (hs : sk.Is s) {swk : Swk B.C} (hlen : B.bt ≤ swk.len) (mods : ℕ → ℕ) :
    ∃ w st', genBfvHalf mods gs sk swk st = .ok (w, st') ∧ w.len = swk.len ∧ st'.pos = st.pos + B.bt ∧
      ∀ k < B.bt, ∀ G, G = gadgetInt B (∏ j ∈ range B.C.alpha, mods (k * B.C.alpha + j)) →
        (∀ i < B.C.nQ, (B.C.RQ i).mv ((w.val k).Q i) = (G : Nega N (ZMod (B.C.q i))) * red (B.C.q i) s + red (B.C.q i) (gs (st.pos + k))) ∧
        ∀ j < B.C.nP, (B.C.RP j).mv ((w.val k).P j) = (G : Nega N (ZMod (B.C.p j))) * red (B.C.p j) s + red (B.C.p j) (gs (st.pos + k)) := by
  have hbt : B.bt * B.C.alpha = B.C.nQ := V.betaTop
  unfold genBfvHalf
  obtain ⟨⟨w, st'⟩, e1, e2, e3, e4⟩ := Go.loop_inv (fun (w : Swk B.C × KG B.C) i => do
      let blk ← blockMod B.C.nQ mods B.C.alpha i
      if w.1.len ≤ i then (.error .indexOutOfRange : Go (Swk B.C × KG B.C))
      else
        let e := genGaussianError gs w.2.pos PolyQP.zero
        .ok (⟨w.1.len, Function.update w.1.val i (genBfvBlock sk (gadgetInt B blk) e (w.1.val i))⟩, { w.2 with pos := w.2.pos + 1 }))
    (fun pre w => w.1.len = swk.len ∧ w.2.pos = st.pos + pre.length ∧ ∀ k ∈ pre, ∀ G,
      G = gadgetInt B (∏ j ∈ range B.C.alpha, mods (k * B.C.alpha + j)) →
        (∀ i < B.C.nQ, (B.C.RQ i).mv ((w.1.val k).Q i) = (G : Nega N (ZMod (B.C.q i))) * red (B.C.q i) s + red (B.C.q i) (gs (st.pos + k))) ∧
        ∀ j < B.C.nP, (B.C.RP j).mv ((w.1.val k).P j) = (G : Nega N (ZMod (B.C.p j))) * red (B.C.p j) s + red (B.C.p j) (gs (st.pos + k)))
    (List.range (B.C.beta (B.C.nQ - 1))) (swk, st) ⟨rfl, rfl, by simp⟩ (by
      rintro pre a suf ⟨w, st1⟩ hl ⟨i1, i2, i3⟩
      have ha : a = pre.length := by
        have := congrArg (fun l => l[pre.length]?) hl
        simp only [List.getElem?_append_right (le_refl _), Nat.sub_self, List.getElem?_cons_zero] at this
        obtain ⟨h1, h2⟩ := List.getElem?_eq_some_iff.mp this
        rw [List.getElem_range] at h2
        exact h2.symm
      have hab : a < B.bt := List.mem_range.mp (by show a ∈ List.range (B.C.beta (B.C.nQ - 1)); rw [hl]; simp)
      have hblk : a * B.C.alpha + B.C.alpha ≤ B.C.nQ := by
        calc a * B.C.alpha + B.C.alpha = (a + 1) * B.C.alpha := by ring
          _ ≤ B.bt * B.C.alpha := Nat.mul_le_mul_right _ (by omega)
          _ = B.C.nQ := hbt
      dsimp only at i1 i2 i3 ⊢
      rw [blockMod_ok hblk, bind_ok, if_neg (by omega)]
      refine ⟨_, rfl, i1, ?_, fun k hk G hG => ?_⟩
      · show st1.pos + 1 = _; rw [i2]; simp; omega
      · by_cases e : k = a
        · subst e
          dsimp only
          rw [Function.update_self, i2, ← ha, hG]
          exact genBfvBlock_eq V hs _ (sampleNTT_is V.qp hB (hg _) _) _
        · dsimp only
          rw [Function.update_of_ne e]
          exact i3 k (by simpa [e] using hk) G hG)
  dsimp only at e2 e3 e4
  rw [List.length_range] at e3
  exact ⟨w, st', e1, e2, e3, fun k hk => e4 k (List.mem_range.mpr hk)⟩

/-- **`GenBFVSwitchingKey`**: component `k` of the two halves together is `G_k*s + e_k` modulo every prime of Q and P -/
theorem genBFVSwitchingKey_ok (V : B.Valid) {Be : ℤ} (hB : B.C.SmallBound Be) {gs : ℕ → Nega N ℤ} (hg : ∀ n, Bdd (gs n) Be) (st : KG B.C)
    {sk : SKey B.C} {s : Nega N ℤ} (hs : sk.Is s) {swk1 swk2 : Swk B.C} (h1 : B.bt ≤ swk1.len) (h2 : B.bt ≤ swk2.len) :
    ∃ w1 w2 st', genBFVSwitchingKey gs st sk swk1 swk2 = .ok ((w1, w2), st') ∧ w1.len = swk1.len ∧ w2.len = swk2.len ∧
      st'.pos = st.pos + 2 * B.bt ∧ ∀ k < 2 * B.bt,
        (∀ i < B.C.nQ, (B.C.RQ i).mv ((comb B.bt w1.val w2.val k).Q i) =
          (B.gadB k : Nega N (ZMod (B.C.q i))) * red (B.C.q i) s + red (B.C.q i) (gs (st.pos + k))) ∧
        ∀ j < B.C.nP, (B.C.RP j).mv ((comb B.bt w1.val w2.val k).P j) =
          (B.gadB k : Nega N (ZMod (B.C.p j))) * red (B.C.p j) s + red (B.C.p j) (gs (st.pos + k)) := by
  have hbt : B.bt * B.C.alpha = B.C.nQ := V.betaTop
  obtain ⟨w1, st1, a1, a2, a3, a4⟩ := genBfvHalf_ok V hB hg st hs h1 B.C.q
  obtain ⟨w2, st2, b1, b2, b3, b4⟩ := genBfvHalf_ok V hB hg st1 hs h2 B.m
  refine ⟨w1, w2, st2, ?_, a2, b2, by omega, ?_⟩
  · unfold genBFVSwitchingKey
    rw [a1, bind_ok, b1, bind_ok]
  · intro k hk
    have key := (comb_forall (beta := B.bt) (s1 := w1.val) (s2 := w2.val) (P := fun k g =>
        (∀ i < B.C.nQ, (B.C.RQ i).mv (g.Q i) =
          (B.gadB k : Nega N (ZMod (B.C.q i))) * red (B.C.q i) s + red (B.C.q i) (gs (st.pos + k))) ∧
        ∀ j < B.C.nP, (B.C.RP j).mv (g.P j) =
          (B.gadB k : Nega N (ZMod (B.C.p j))) * red (B.C.p j) s + red (B.C.p j) (gs (st.pos + k)))).mpr ?_ k hk
    · exact key
    · intro k hk
      have hblk : k * B.C.alpha + B.C.alpha ≤ B.C.nQ := by
        calc k * B.C.alpha + B.C.alpha = (k + 1) * B.C.alpha := by ring
          _ ≤ B.bt * B.C.alpha := Nat.mul_le_mul_right _ (by omega)
          _ = B.C.nQ := hbt
      refine ⟨a4 k hk _ ?_, ?_⟩
      · unfold BCtx.gadB BCtx.blockR
        congr 1
        exact prod_congr rfl fun j hj => B.r_q (by have := mem_range.mp hj; omega)
      · have := b4 k hk (B.gadB (k + B.bt)) (by
          unfold BCtx.gadB BCtx.blockR
          congr 1
          refine prod_congr rfl fun j hj => ?_
          rw [← B.r_m]; congr 1; rw [add_mul, hbt]; ring)
        rw [a3] at this
        rw [show st.pos + (k + B.bt) = st.pos + B.bt + k by ring]
        exact this

end MKHE
