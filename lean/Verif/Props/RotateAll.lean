import Verif.Lemmas.Elements
import Verif.Model.Bfv

set_option autoImplicit false

/-!
# C35: every rotation amount, with the default rotation keys only; C24 for `RotateNew` and `ConjugateNew`
-/

namespace MKHE
open Finset Nega

variable {N : ℕ} [NeZero N] {C : Ctx N}

/-! ## normalization of the amount -/

theorem subWhileGe_eq (half : ℤ) (hh : 1 ≤ half) : ∀ (fuel : ℕ) (r : ℤ), r ≤ fuel → 0 ≤ r → subWhileGe half fuel r = r % half := by
  intro fuel
  induction fuel with
  | zero => intro r h1 h2; have : r = 0 := by push_cast at h1; omega
            subst this; simp [subWhileGe]
  | succ n ih =>
    intro r h1 h2
    unfold subWhileGe
    split_ifs with h
    · rw [ih (r - half) (by push_cast at h1; omega) (by omega), Int.sub_emod_right]
    · rw [Int.emod_eq_of_lt h2 (by omega)]

theorem subWhileGe_neg (half : ℤ) (hh : 1 ≤ half) (fuel : ℕ) (r : ℤ) (h : r < 0) : subWhileGe half fuel r = r := by
  cases fuel with
  | zero => rfl
  | succ n => unfold subWhileGe; rw [if_neg (by omega)]

/-- the amount is reduced modulo the number of slots -/
theorem rotNorm_eq {N : ℕ} (hN : 2 ≤ N) (r : ℤ) : rotNorm N r = r % (N / 2 : ℕ) := by
  have hh : (1 : ℤ) ≤ ((N / 2 : ℕ) : ℤ) := by have : 1 ≤ N / 2 := by omega
                                              exact_mod_cast this
  unfold rotNorm
  rcases lt_or_ge r 0 with h | h
  · rw [subWhileGe_neg _ hh _ _ h, adjustIdx_neg hN h]
  · rw [subWhileGe_eq _ hh _ _ (by omega) h, adjustIdx_nonneg (Int.emod_nonneg _ (by omega))]

theorem Ctx.Valid.two_le (V : C.Valid) : 2 ≤ N := by
  rw [V.hN]; calc 2 = 2 ^ 1 := rfl
      _ ≤ 2 ^ C.logN := Nat.pow_le_pow_right (by norm_num) V.log1

/-- `5` has an order dividing `N/2` modulo `2N`: rotation amounts only matter modulo the number of slots -/
theorem five_pow_half {n : ℕ} (hn : 1 ≤ n) : 5 ^ (2 ^ n / 2) % (2 * 2 ^ n) = 1 := by
  obtain ⟨m, rfl⟩ : ∃ m, n = m + 1 := ⟨n - 1, by omega⟩
  have h2 : 2 ^ (m + 1) / 2 = 2 ^ m := by rw [pow_succ]; omega
  rw [h2]
  have key : ∀ m : ℕ, ∃ t, 5 ^ 2 ^ m = 1 + t * (2 * 2 ^ (m + 1)) := by
    intro m
    induction m with
    | zero => exact ⟨1, by norm_num⟩
    | succ m ih =>
      obtain ⟨t, ht⟩ := ih
      refine ⟨t + t * t * 2 ^ (m + 1), ?_⟩
      rw [pow_succ 2 m, pow_mul, ht]
      ring
  obtain ⟨t, ht⟩ := key m
  rw [ht, Nat.add_mul_mod_self_right, Nat.mod_eq_of_lt]
  have : 1 ≤ 2 ^ (m + 1) := Nat.one_le_two_pow
  omega

theorem galois_five_mod {K : Type*} [CommRing K] (V : C.Valid) (r : ℕ) (x : Nega N K) :
    galois (5 ^ (r % (N / 2))) x = galois (5 ^ r) x := by
  rw [← galois_mod (5 ^ (r % (N / 2))), ← galois_mod (5 ^ r)]
  congr 1
  have h : 5 ^ (N / 2) % (2 * N) = 1 := by rw [V.hN]; exact five_pow_half V.log1
  conv_rhs => rw [← Nat.div_add_mod r (N / 2), pow_add, pow_mul, Nat.mul_mod, Nat.pow_mod, h, one_pow]
  have h2 : 1 < 2 * N := by have := V.two_le; omega
  rw [Nat.mod_eq_of_lt h2, one_mul, Nat.mod_mod]

/-! ## auxiliary facts -/

theorem galois_abs (V : C.Valid) {g : ℕ} (hg : Odd g) {E : Nega N ℤ} {c b : ℤ} (h : ∀ x, c * |E x| ≤ b) (x : Fin N) :
    c * |galois g E x| ≤ b := by
  obtain ⟨y, hy, rfl⟩ := galois_surj V.hN hg x
  rw [galois_at V.hN hg, abs_mul, abs_pow, abs_neg, abs_one, one_pow, one_mul]
  exact h y

theorem galois_add {K : Type*} [CommRing K] {g : ℕ} (hg : Odd g) (a b : Nega N K) : galois g (a + b) = galois g a + galois g b := by
  rw [← galoisHom_apply g hg, map_add]; rfl

/-- the set bits of `r` -/
def onBits (r : ℕ) : Finset ℕ := (range (Nat.size r)).filter fun j => r.testBit j

theorem mem_onBits {r j : ℕ} : j ∈ onBits r ↔ r.testBit j = true := by
  unfold onBits
  rw [mem_filter, mem_range]
  refine ⟨fun h => h.2, fun h => ⟨?_, h⟩⟩
  by_contra hlt
  rw [Nat.testBit_lt_two_pow (lt_of_lt_of_le (Nat.lt_size_self r) (Nat.pow_le_pow_right (by norm_num) (by omega)))] at h
  cases h

/-- number of one bits -/
def popcount (r : ℕ) : ℕ := (onBits r).card

theorem onBits_half (r : ℕ) : onBits r = if r % 2 = 0 then (onBits (r / 2)).map ⟨Nat.succ, Nat.succ_injective⟩
    else insert 0 ((onBits (r / 2)).map ⟨Nat.succ, Nat.succ_injective⟩) := by
  ext j
  split_ifs with h
  · cases j with
    | zero => simp [mem_onBits, h]
    | succ j => simp [mem_onBits, Nat.testBit_succ]
  · cases j with
    | zero => simp [mem_onBits]; omega
    | succ j => simp [mem_onBits, Nat.testBit_succ]

theorem popcount_half (r : ℕ) : popcount r = r % 2 + popcount (r / 2) := by
  unfold popcount
  rw [onBits_half]
  split_ifs with h
  · rw [card_map, h, zero_add]
  · rw [card_insert_of_notMem (by simp), card_map]; omega

theorem popcount_zero : popcount 0 = 0 := by unfold popcount; rw [card_eq_zero]; ext j; simp [mem_onBits]

/-- an invariant of a loop that ran to the end -/
theorem Go.loop_keep {σ α : Type*} {f : σ → α → Go σ} (P : σ → Prop) (hf : ∀ s a s', f s a = .ok s' → P s → P s') :
    ∀ {l : List α} {s s' : σ}, Go.loop f s l = .ok s' → P s → P s' := by
  intro l
  induction l with
  | nil => intro s s' h hs; rw [Go.loop_nil] at h; injection h with h; subst h; exact hs
  | cons a l ih =>
    intro s s' h hs
    rw [Go.loop_cons] at h
    cases hfa : f s a with
    | error e => rw [hfa] at h; cases h
    | ok s1 => rw [hfa] at h; exact ih h (hf _ _ _ hfa hs)

theorem Ct.copyFrom_mem {o : Order String} {dst src out : Ct C} (h : dst.copyFrom o src = .ok out) {id : String} (hid : id ∈ dst) :
    id ∈ out := by
  unfold Ct.copyFrom at h
  refine Go.loop_keep (fun ct : Ct C => id ∈ ct) ?_ h hid
  intro ct a ct' hs hm
  obtain ⟨p, -, hs⟩ := Go.of_bind_ok hs
  obtain ⟨q, -, hs⟩ := Go.of_bind_ok hs
  injection hs with hs; subst hs
  rw [← AList.lookup_isSome] at hm ⊢
  rw [GoMap.lookup_insert']
  split_ifs
  · rfl
  · exact hm

/-! ## C35 -/
namespace C35
open C33

variable {crs : GoMap ℤ (Swk C)} {level : ℕ} {rks : RotKeySet (GalKey C)} {s : String → Nega N ℤ} {Sb Be : ℤ}

/-- the loop over the bits of the amount -/
theorem rotLoop_phase (V : C.Valid) (o : ℕ → Sched String) (D : ℤ) (hD : ∀ k < C.beta level, 2 * (C.blockProd level k : ℤ) ≤ D)
    (ids : Finset String) (r : ℕ) : ∀ (k : ℕ) (tmp out : Ct C) (S : Scratch C), 0 < r → level < C.nQ → tmp.AtLevel level →
    out.AtLevel level → tmp.ids = ids → out.ids = ids → (∀ j ∈ onBits r, Keys crs level ids (k * 2 ^ j) rks s Sb Be) →
    ∃ out' S', rotLoop crs o rks k r tmp out S = .ok (out', S') ∧ out'.AtLevel level ∧ out'.ids = ids ∧
      ∃ E : Nega N ℤ, (∀ x, C.P * |E x| ≤ popcount r * rotNoise N C.P ids.card (C.beta level) D Sb Be) ∧
        ∀ i ≤ level, out'.phase s i = galois (5 ^ (k * r)) (tmp.phase s i) + red (C.q i) E := by
  induction r using Nat.strong_induction_on with
  | _ r ih =>
  intro k tmp out S hr hl ht ho hti hoi hK
  have hrec : ∀ j ∈ onBits (r / 2), Keys crs level ids (2 * k * 2 ^ j) rks s Sb Be := by
    intro j hj
    have : j + 1 ∈ onBits r := by rw [mem_onBits, Nat.testBit_succ]; exact mem_onBits.mp hj
    have := hK _ this
    rwa [show k * 2 ^ (j + 1) = 2 * k * 2 ^ j by rw [pow_succ]; ring] at this
  have hpc := popcount_half r
  rw [rotLoop, dif_pos hr]
  by_cases hodd : r % 2 ≠ 0
  · rw [if_pos hodd]
    have hr1 : r % 2 = 1 := by omega
    have hk0 : Keys crs level tmp.ids k rks s Sb Be := by
      have := hK 0 (by rw [mem_onBits]; simp [hr1])
      rw [hti]; simpa using this
    obtain ⟨out1, S1, e1, e2, e3, E, e4, e5⟩ := rotate_phase V (o k) S ⟨hl, ht.toCoeff, ho, by rw [hoi, hti]⟩ (k : ℤ)
      (by rw [if_pos (by omega)]) hk0 D hD
    obtain ⟨tmp', c1, c2, c3, c4, -⟩ := Ct.copyFrom_same (o k 60) ht e2 e3.symm
    have hph : ∀ i ≤ level, tmp'.phase s i = out1.phase s i := fun i hi =>
      Ct.phase_congr c3 (fun id hid => c4 id (by
        rcases hid with h | h
        · exact (Ct.mem_ids.mp h).1
        · rw [h]; exact e2.has0) i hi)
    rw [e1, bind_ok]
    dsimp only
    rw [c1, bind_ok]
    rw [hti] at e3 e4
    by_cases h2 : r / 2 = 0
    · have hr' : r = 1 := by omega
      subst hr'
      rw [show (1 / 2 : ℕ) = 0 from rfl, rotLoop, dif_neg (by omega)]
      refine ⟨out1, S1, rfl, e2, e3, E, fun x => ?_, fun i hi => ?_⟩
      · rw [hpc, show (1 / 2 : ℕ) = 0 from rfl, popcount_zero]; simpa using e4 x
      · rw [mul_one]; exact e5 i hi
    · obtain ⟨out2, S2, f1, f2, f3, E2, f4, f5⟩ := ih (r / 2) (by omega) (2 * k) tmp' out1 S1 (by omega) hl c2 e2 (c3.trans e3)
        e3 hrec
      refine ⟨out2, S2, f1, f2, f3, galois (5 ^ (2 * k * (r / 2))) E + E2, fun x => ?_, fun i hi => ?_⟩
      · rw [hpc, hr1]
        have h1 := galois_abs V (odd_five_pow (2 * k * (r / 2))) e4 x
        have h2 := f4 x
        have h3 : |(galois (5 ^ (2 * k * (r / 2))) E + E2) x| ≤ |galois (5 ^ (2 * k * (r / 2))) E x| + |E2 x| := abs_add_le _ _
        have hP : (0 : ℤ) ≤ C.P := by positivity
        push_cast
        nlinarith [mul_le_mul_of_nonneg_left h3 hP]
      · rw [f5 i hi, hph i hi, e5 i hi, galois_add (odd_five_pow _), galois_galois _ _ (odd_five_pow _), ← pow_add, galois_red,
          map_add, add_assoc]
        congr 2
        rw [show 2 * k * (r / 2) + k = k * r by
          conv_rhs => rw [← Nat.div_add_mod r 2, hr1]
          ring]
  · rw [if_neg hodd]
    have hr0 : r % 2 = 0 := by omega
    obtain ⟨out2, S2, f1, f2, f3, E2, f4, f5⟩ := ih (r / 2) (by omega) (2 * k) tmp out S (by omega) hl ht ho hti hoi hrec
    refine ⟨out2, S2, f1, f2, f3, E2, fun x => ?_, fun i hi => ?_⟩
    · rw [hpc, hr0, zero_add]; exact f4 x
    · rw [f5 i hi]
      congr 3
      conv_rhs => rw [← Nat.div_add_mod r 2, hr0]
      ring_nf

/-- number of key switchings for the normalized amount `r`: none for `0`, one if the CRS has this very index, else one per set bit -/
def rotCount (crs : GoMap ℤ (Swk C)) (r : ℕ) : ℕ := if r = 0 then 0 else if (crs.lookup (r : ℤ)).isSome then 1 else popcount r

/-- what the keys must provide: the default keys (all powers of two below `N/2`, as `GenDefaultRotationKeys` produces them), and the
key for the amount itself if the CRS has that index -/
structure HasKeys (crs : GoMap ℤ (Swk C)) (level : ℕ) (ids : Finset String) (r : ℕ) (rks : RotKeySet (GalKey C))
    (s : String → Nega N ℤ) (Sb Be : ℤ) : Prop where
  default : ∀ j, 2 ^ j < N / 2 → Keys crs level ids (2 ^ j) rks s Sb Be
  special : (crs.lookup (r : ℤ)).isSome → r ≠ 0 → Keys crs level ids r rks s Sb Be

/-- what a rotation by any amount returns -/
def Result (crs : GoMap ℤ (Swk C)) (level : ℕ) (s : String → Nega N ℤ) (Sb Be D : ℤ) (r : ℕ) (ct out : Ct C) : Prop :=
  out.AtLevel level ∧ out.ids = ct.ids ∧
    ∃ E : Nega N ℤ, (∀ x, C.P * |E x| ≤ rotCount crs r * rotNoise N C.P ct.ids.card (C.beta level) D Sb Be) ∧
      ∀ i ≤ level, out.phase s i = galois (5 ^ r) (ct.phase s i) + red (C.q i) E

/-- the three cases of the rotation functions -/
theorem copy_result (o : Order String) {ct out : Ct C} (hct : ct.AtLevel level) (hout : out.AtLevel level) (hids : out.ids = ct.ids)
    (D : ℤ) : ∃ out', out.copyFrom o ct = .ok out' ∧ Result crs level s Sb Be D 0 ct out' := by
  obtain ⟨out', c1, c2, c3, c4, -⟩ := Ct.copyFrom_same o hout hct hids
  refine ⟨out', c1, c2, c3, 0, fun x => ?_, fun i hi => ?_⟩
  · unfold rotCount; rw [if_pos rfl]; simp
  · rw [pow_zero, galois_one, map_zero, add_zero]
    exact Ct.phase_congr c3 (fun id hid => c4 id (by
        rcases hid with h | h
        · exact (Ct.mem_ids.mp h).1
        · rw [h]; exact hct.has0) i hi)

theorem single_result (V : C.Valid) (o : Sched String) (S : Scratch C) {ct out : Ct C} (hl : level < C.nQ) (hct : ct.AtLevel level)
    (hout : out.AtLevel level) (hids : out.ids = ct.ids) (D : ℤ) (hD : ∀ k < C.beta level, 2 * (C.blockProd level k : ℤ) ≤ D)
    {r : ℕ} (hr : r ≠ 0) (hc : (crs.lookup (r : ℤ)).isSome) (K : Keys crs level ct.ids r rks s Sb Be) :
    ∃ out' S', rotate crs o S ct r rks out = .ok (out', S') ∧ Result crs level s Sb Be D r ct out' := by
  obtain ⟨out1, S1, e1, e2, e3, E, e4, e5⟩ := rotate_phase V o S ⟨hl, hct.toCoeff, hout, hids⟩ (r : ℤ)
      (by rw [if_pos (by omega)]) K D hD
  refine ⟨out1, S1, e1, e2, e3, E, fun x => ?_, e5⟩
  unfold rotCount
  rw [if_neg hr, if_pos hc, Nat.cast_one, one_mul]
  exact e4 x

theorem loop_result (V : C.Valid) (o : ℕ → Sched String) (S : Scratch C) {ct tmp out : Ct C} (hl : level < C.nQ) (hct : ct.AtLevel level)
    (hs : tmp.Same ct) (hout : out.AtLevel level) (hids : out.ids = ct.ids) (D : ℤ) (hD : ∀ k < C.beta level, 2 * (C.blockProd level k : ℤ) ≤ D)
    {r : ℕ} (hr : r ≠ 0) (hlt : r < N / 2) (hc : ¬ (crs.lookup (r : ℤ)).isSome)
    (K : ∀ j, 2 ^ j < N / 2 → Keys crs level ct.ids (2 ^ j) rks s Sb Be) :
    ∃ out' S', rotLoop crs o rks 1 r tmp out S = .ok (out', S') ∧ Result crs level s Sb Be D r ct out' := by
  obtain ⟨out1, S1, e1, e2, e3, E, e4, e5⟩ := rotLoop_phase V o D hD ct.ids r 1 tmp out S (Nat.pos_of_ne_zero hr) hl
    (hs.symm.atLevel hct) hout hs.ids hids (fun j hj => by
      rw [one_mul]
      refine K j (lt_of_le_of_lt ?_ hlt)
      by_contra h
      rw [mem_onBits, Nat.testBit_lt_two_pow (by omega)] at hj
      cases hj)
  refine ⟨out1, S1, e1, e2, e3, E, fun x => ?_, fun i hi => ?_⟩
  · unfold rotCount
    rw [if_neg hr, if_neg hc]
    exact e4 x
  · rw [e5 i hi, one_mul, hs.phase]

/-- the normalized amount -/
def amount (N : ℕ) (rot : ℤ) : ℕ := (rot % (N / 2 : ℕ)).toNat

theorem rotNorm_amount (V : C.Valid) (rot : ℤ) : rotNorm N rot = (amount N rot : ℤ) ∧ amount N rot < N / 2 := by
  have h2 := V.two_le
  have hh : (0 : ℤ) < ((N / 2 : ℕ) : ℤ) := by have : 0 < N / 2 := by omega
                                              exact_mod_cast this
  have h0 : 0 ≤ rot % (N / 2 : ℕ) := Int.emod_nonneg _ (by omega)
  have h1 : rot % (N / 2 : ℕ) < (N / 2 : ℕ) := Int.emod_lt_of_pos _ hh
  refine ⟨by rw [rotNorm_eq h2, amount, Int.toNat_of_nonneg h0], ?_⟩
  unfold amount; omega

/-- **C35, what the normalized amount means**: rotating by `rot ≥ 0` is `X ↦ X^(5^rot)`, and rotating by `rot < 0` is the inverse of
rotating by `-rot`. -/
theorem amount_meaning {K : Type*} [CommRing K] (V : C.Valid) (rot : ℤ) (x : Nega N K) :
    (0 ≤ rot → galois (5 ^ amount N rot) x = galois (5 ^ rot.toNat) x) ∧
    (rot < 0 → galois (5 ^ (-rot).toNat) (galois (5 ^ amount N rot) x) = x) := by
  have h2 := V.two_le
  have hh : (0 : ℤ) < ((N / 2 : ℕ) : ℤ) := by have : 0 < N / 2 := by omega
                                              exact_mod_cast this
  constructor
  · intro h
    rw [← galois_five_mod V rot.toNat]
    congr 2
    unfold amount
    obtain ⟨n, rfl⟩ := Int.eq_ofNat_of_zero_le h
    rw [Int.toNat_natCast]
    omega
  · intro h
    rw [galois_galois _ _ (odd_five_pow _), ← pow_add, ← galois_five_mod V]
    have : ((-rot).toNat + amount N rot) % (N / 2) = 0 := by
      unfold amount
      obtain ⟨n, hn⟩ := Int.eq_ofNat_of_zero_le (show 0 ≤ -rot by omega)
      have hr : rot = -(n : ℤ) := by omega
      subst hr
      have h0 : 0 ≤ (-(n : ℤ)) % (N / 2 : ℕ) := Int.emod_nonneg _ (by omega)
      generalize N / 2 = m at *
      zify
      rw [Int.toNat_of_nonneg h0, neg_neg, Int.toNat_natCast, Int.add_emod, Int.emod_emod, ← Int.add_emod, add_neg_cancel, Int.zero_emod]
    rw [this, pow_zero, galois_one]

/-- **C35 (CKKS).** With the default rotation keys, `RotateNew` succeeds for every integer amount; the phase of the result is the
phase of the operand under `X ↦ X^(5^r)`, `r = rot mod N/2`, up to the noise of at most one key switching per set bit of `r`. The
scale, level and parties are those of the operand. All schedules and scratch contents. -/
theorem ckksRotateNew_phase (V : C.Valid) (o : ℕ → Sched String) (Ev : Eval C) (ct : CCt C) (rot : ℤ) (hl : level < C.nQ)
    (hct : ct.ct.AtLevel level) (K : HasKeys crs level ct.ct.ids (amount N rot) rks s Sb Be)
    (D : ℤ) (hD : ∀ k < C.beta level, 2 * (C.blockProd level k : ℤ) ≤ D) :
    ∃ out Ev', ckksRotateNew crs o Ev ct rot rks = .ok (out, Ev') ∧ out.scale = ct.scale ∧
      Result crs level s Sb Be D (amount N rot) ct.ct out.ct := by
  obtain ⟨ids, a1, a2⟩ := Ct.idset (o 0 63) ct.ct
  obtain ⟨hn, hlt⟩ := rotNorm_amount V rot
  have hnew : (Ct.new (o 0 64) ids level : Ct C).AtLevel level := Ct.new_atLevel _ _ _
  have hnid : (Ct.new (o 0 64) ids level : Ct C).ids = ct.ct.ids := Ct.new_ids _ a2 (Ct.zero_notMem_ids _) _
  have hlk : (crs.lookup (rotNorm N rot) : Option (Swk C)) = crs.lookup (amount N rot : ℤ) :=
    congrArg (fun k : ℤ => (crs.lookup k : Option (Swk C))) hn
  unfold ckksRotateNew ckksRotate
  rw [a1, bind_ok, hct.level, bind_ok]
  dsimp only
  rw [hlk]
  by_cases hr : amount N rot = 0
  · rw [if_pos (by rw [hn, hr]; rfl)]
    obtain ⟨out', c1, c2⟩ := copy_result (crs := crs) (s := s) (Sb := Sb) (Be := Be) (o 0 61) hct hnew hnid D
    rw [c1, bind_ok, bind_ok]
    rw [hr]
    exact ⟨⟨out', ct.scale⟩, { Ev with ksw := Ev.ksw }, rfl, rfl, c2⟩
  · rw [if_neg (by rw [hn]; exact_mod_cast hr)]
    by_cases hc : (crs.lookup (amount N rot : ℤ)).isSome
    · rw [if_pos hc, hn]
      obtain ⟨out', S', c1, c2⟩ := single_result V (o 0) Ev.ksw hl hct hnew hnid D hD hr hc (K.special hc hr)
      rw [c1, bind_ok]
      exact ⟨⟨out', ct.scale⟩, { Ev with ksw := S' }, rfl, rfl, c2⟩
    · rw [if_neg hc, hn, Int.toNat_natCast]
      obtain ⟨tmp, t1, t2⟩ := Ct.copyNew_ok (o 0 62) hct.has0
      rw [t1, bind_ok]
      obtain ⟨out', S', c1, c2⟩ := loop_result V o Ev.ksw hl hct t2 hnew hnid D hD hr hlt hc K.default
      rw [c1, bind_ok]
      exact ⟨⟨out', ct.scale⟩, { Ev with ksw := S' }, rfl, rfl, c2⟩

/-- **C35 (BFV).** -/
theorem bfvRotateNew_phase (V : C.Valid) (o : ℕ → Sched String) (S : Scratch C) (ct : Ct C) (rot : ℤ)
    (hct : ct.AtLevel (C.nQ - 1)) (K : HasKeys crs (C.nQ - 1) ct.ids (amount N rot) rks s Sb Be)
    (D : ℤ) (hD : ∀ k < C.beta (C.nQ - 1), 2 * (C.blockProd (C.nQ - 1) k : ℤ) ≤ D) :
    ∃ out S', bfvRotateNew crs o S ct rot rks = .ok (out, S') ∧ Result crs (C.nQ - 1) s Sb Be D (amount N rot) ct out := by
  have hl : C.nQ - 1 < C.nQ := by have := V.q1; omega
  obtain ⟨ids, a1, a2⟩ := Ct.idset (o 0 63) ct
  obtain ⟨hn, hlt⟩ := rotNorm_amount V rot
  have hnew : (Ct.new (o 0 64) ids (C.nQ - 1) : Ct C).AtLevel (C.nQ - 1) := Ct.new_atLevel _ _ _
  have hnid : (Ct.new (o 0 64) ids (C.nQ - 1) : Ct C).ids = ct.ids := Ct.new_ids _ a2 (Ct.zero_notMem_ids _) _
  have hlk : (crs.lookup (rotNorm N rot) : Option (Swk C)) = crs.lookup (amount N rot : ℤ) :=
    congrArg (fun k : ℤ => (crs.lookup k : Option (Swk C))) hn
  unfold bfvRotateNew bfvRotate
  rw [a1, bind_ok]
  dsimp only
  rw [hlk]
  by_cases hr : amount N rot = 0
  · rw [if_pos (by rw [hn, hr]; rfl)]
    obtain ⟨out', c1, c2⟩ := copy_result (crs := crs) (s := s) (Sb := Sb) (Be := Be) (o 0 61) hct hnew hnid D
    rw [c1, bind_ok, hr]
    exact ⟨out', S, rfl, c2⟩
  · rw [if_neg (by rw [hn]; exact_mod_cast hr)]
    obtain ⟨tmp, t1, t2⟩ := Ct.copyNew_ok (o 0 62) hct.has0
    rw [t1, bind_ok]
    by_cases hc : (crs.lookup (amount N rot : ℤ)).isSome
    · rw [if_pos hc, hn]
      obtain ⟨out', S', c1, c2, c3, E, c4, c5⟩ := single_result V (o 0) S hl (t2.symm.atLevel hct) hnew (hnid.trans t2.symm.ids) D hD hr hc
        (by rw [t2.ids]; exact K.special hc hr)
      refine ⟨out', S', c1, c2, c3.trans t2.ids, E, fun x => ?_, fun i hi => ?_⟩
      · rw [← t2.ids]; exact c4 x
      · rw [c5 i hi, t2.phase]
    · rw [if_neg hc, hn, Int.toNat_natCast]
      exact loop_result V o S hl hct t2 hnew hnid D hD hr hlt hc K.default

/-- **C35, hoisted.** `RotateHoistedNew` with a hoisted form computed at the level of the operand or above succeeds if the amount is zero or the CRS has
the normalized amount, and has the same phase specification. -/
theorem ckksRotateHoistedNew_phase (V : C.Valid) (o : ℕ → Sched String) (Ev : Eval C) (ct : CCt C) (rot : ℤ) (hl : level < C.nQ)
    (hct : ct.ct.AtLevel level) (K : HasKeys crs level ct.ct.ids (amount N rot) rks s Sb Be)
    (hc' : amount N rot ≠ 0 → (crs.lookup (amount N rot : ℤ)).isSome) (h : HoistedCt C) (l : ℕ) (hl' : level ≤ l) (hl2 : l < C.nQ)
    (hh : IsHoisted l ct.ct h) (D : ℤ) (hD : ∀ l' ∈ [level, l], ∀ k < C.beta l', 2 * (C.blockProd l' k : ℤ) ≤ D) :
    ∃ out Ev', ckksRotateHoistedNew crs o Ev ct rot h rks = .ok (out, Ev') ∧ out.scale = ct.scale ∧
      Result crs level s Sb Be D (amount N rot) ct.ct out.ct := by
  obtain ⟨ids, a1, a2⟩ := Ct.idset (o 0 63) ct.ct
  obtain ⟨hn, hlt⟩ := rotNorm_amount V rot
  have hnew : (Ct.new (o 0 64) ids level : Ct C).AtLevel level := Ct.new_atLevel _ _ _
  have hnid : (Ct.new (o 0 64) ids level : Ct C).ids = ct.ct.ids := Ct.new_ids _ a2 (Ct.zero_notMem_ids _) _
  have hlk : (crs.lookup (rotNorm N rot) : Option (Swk C)) = crs.lookup (amount N rot : ℤ) :=
    congrArg (fun k : ℤ => (crs.lookup k : Option (Swk C))) hn
  unfold ckksRotateHoistedNew ckksRotateHoisted
  rw [a1, bind_ok, hct.level, bind_ok]
  dsimp only
  rw [hlk]
  by_cases hr : amount N rot = 0
  · rw [if_pos (by rw [hn, hr]; rfl)]
    obtain ⟨out', c1, c2⟩ := copy_result (crs := crs) (s := s) (Sb := Sb) (Be := Be) (o 0 61) hct hnew hnid D
    rw [c1, bind_ok, bind_ok]
    rw [hr]
    exact ⟨⟨out', ct.scale⟩, { Ev with ksw := Ev.ksw }, rfl, rfl, c2⟩
  · have hc := hc' hr
    rw [if_neg (by rw [hn]; exact_mod_cast hr), if_pos hc, hn]
    obtain ⟨out', S', e1, e2, e3, E, e4, e5⟩ := rotateHoisted_phase V (o 0) Ev.ksw ⟨hl, hct.toCoeff, hnew, hnid⟩ (amount N rot : ℤ)
      (by rw [if_pos (by omega)]) (K.special hc hr) h l hl' hl2 hh D hD
    rw [e1, bind_ok]
    refine ⟨⟨out', ct.scale⟩, { Ev with ksw := S' }, rfl, rfl, e2, e3, E, fun x => ?_, e5⟩
    unfold rotCount
    rw [if_neg hr, if_pos hc, Nat.cast_one, one_mul]
    exact e4 x

/-- **C35, panic.** A hoisted rotation by an amount the CRS does not have panics with the message of the program. -/
theorem ckksRotateHoisted_noCRS (V : C.Valid) (o : ℕ → Sched String) (S : Scratch C) (ct out : Ct C) (rot : ℤ) (h : HoistedCt C)
    (h0 : amount N rot ≠ 0) (hc : ¬ (crs.lookup (amount N rot : ℤ)).isSome) :
    ckksRotateHoisted crs o S ct rot h rks out = .error (.panic "Hoisted rotation only works for precomputed rotation keys") := by
  obtain ⟨hn, hlt⟩ := rotNorm_amount V rot
  have hlk : (crs.lookup (rotNorm N rot) : Option (Swk C)) = crs.lookup (amount N rot : ℤ) :=
    congrArg (fun k : ℤ => (crs.lookup k : Option (Swk C))) hn
  unfold ckksRotateHoisted
  dsimp only
  rw [hlk, if_neg (by rw [hn]; exact_mod_cast h0), if_neg hc]

/-- the loop needs the key of every set bit -/
theorem rotLoop_missing (o : ℕ → Sched String) (id : String) (hz : id ≠ "0") (r : ℕ) : ∀ (k : ℕ) (tmp out : Ct C) (S : Scratch C) (j : ℕ),
    id ∈ tmp → j ∈ onBits r → (∀ key, rks.get id (k * 2 ^ j) ≠ .ok key) → ∀ res, rotLoop crs o rks k r tmp out S ≠ .ok res := by
  induction r using Nat.strong_induction_on with
  | _ r ih =>
  intro k tmp out S j hid hj hmiss res hok
  have hr : 0 < r := by
    rcases Nat.eq_zero_or_pos r with h | h
    · subst h; simp [mem_onBits] at hj
    · exact h
  have hsucc : ∀ j', j = j' + 1 → j' ∈ onBits (r / 2) ∧ ∀ key, rks.get id (2 * k * 2 ^ j') ≠ .ok key := by
    rintro j' rfl
    rw [mem_onBits, Nat.testBit_succ] at hj
    refine ⟨mem_onBits.mpr hj, ?_⟩
    rwa [show 2 * k * 2 ^ j' = k * 2 ^ (j' + 1) by rw [pow_succ]; ring]
  rw [rotLoop, dif_pos hr] at hok
  split_ifs at hok with hodd
  · obtain ⟨w, h1, hok⟩ := Go.of_bind_ok hok
    obtain ⟨tmp', h2, hok⟩ := Go.of_bind_ok hok
    cases j with
    | zero =>
      refine rotate_missing (crs := crs) (o k) S (k : ℤ) none id (Ct.mem_ids.mpr ⟨hid, hz⟩) (fun key => ?_) _ h1
      rw [adjustIdx_nonneg (by omega), Int.toNat_natCast]
      simpa using hmiss key
    | succ j =>
      obtain ⟨h3, h4⟩ := hsucc j rfl
      exact ih (r / 2) (by omega) (2 * k) tmp' w.1 w.2 j (Ct.copyFrom_mem h2 hid) h3 h4 res hok
  · cases j with
    | zero => simp [mem_onBits] at hj; omega
    | succ j =>
      obtain ⟨h3, h4⟩ := hsucc j rfl
      exact ih (r / 2) (by omega) (2 * k) tmp out S j hid h3 h4 res hok

/-- **C35, missing keys.** If a party of the ciphertext lacks the key of a set bit of the normalized amount (and the CRS does not have
the amount itself), `RotateNew` never returns a result. -/
theorem ckksRotateNew_missing (V : C.Valid) (o : ℕ → Sched String) (Ev : Eval C) (ct : CCt C) (rot : ℤ) (id : String)
    (hid : id ∈ ct.ct.ids) (hct : ct.ct.AtLevel level) (hc : ¬ (crs.lookup (amount N rot : ℤ)).isSome) (j : ℕ)
    (hj : j ∈ onBits (amount N rot)) (hmiss : ∀ key, rks.get id (2 ^ j) ≠ .ok key) (res : CCt C × Eval C) :
    ckksRotateNew crs o Ev ct rot rks ≠ .ok res := by
  intro hok
  obtain ⟨hn, hlt⟩ := rotNorm_amount V rot
  have hlk : (crs.lookup (rotNorm N rot) : Option (Swk C)) = crs.lookup (amount N rot : ℤ) :=
    congrArg (fun k : ℤ => (crs.lookup k : Option (Swk C))) hn
  have h0 : amount N rot ≠ 0 := by
    intro h; rw [h] at hj; simp [mem_onBits] at hj
  obtain ⟨ids, a1, a2⟩ := Ct.idset (o 0 63) ct.ct
  obtain ⟨tmp, t1, t2⟩ := Ct.copyNew_ok (o 0 62) hct.has0
  unfold ckksRotateNew ckksRotate at hok
  rw [a1, bind_ok, hct.level, bind_ok] at hok
  obtain ⟨w, hok, -⟩ := Go.of_bind_ok hok
  dsimp only at hok
  rw [hlk, if_neg (by rw [hn]; exact_mod_cast h0), if_neg hc, hn, Int.toNat_natCast, t1, bind_ok] at hok
  have hm := Ct.mem_ids.mp hid
  exact rotLoop_missing o id hm.2 _ 1 tmp _ _ j (t2.mem.mpr hm.1) hj (by rwa [one_mul]) _ hok

end C35

/-! ## C24 for `RotateNew` and `ConjugateNew` -/
namespace C24

variable {crs : GoMap ℤ (Swk C)} {level : ℕ} {rks : RotKeySet (GalKey C)}

theorem upd_same {out out' o1 o2 : Ct C} {R1 R2 : String → QRows C} (hs : out.Same out') (h1 : Ct.Upd level out R1 o1)
    (h2 : Ct.Upd level out' R2 o2) (h : ∀ id ∈ out, ∀ i ≤ level, R1 id i = R2 id i) : o1.Same o2 := by
  have : Ct.Upd level out R2 o2 := fun id => by rw [h2 id, hs id]
  exact h1.unique this h

/-- what a rotation needs in order not to panic, apart from the shape of the ciphertexts -/
def KeysFor (crs : GoMap ℤ (Swk C)) (level : ℕ) (ids : Finset String) (rks : RotKeySet (GalKey C)) (r : ℕ) : Prop :=
  ∃ a, crs.lookup (r : ℤ) = some a ∧ C.beta level ≤ a.len ∧ ∀ id ∈ ids, ∃ key, rks.get id r = .ok key ∧ C.beta level ≤ key.value.len

/-- two rotations of ciphertexts with the same entries return ciphertexts with the same entries -/
theorem rotate_same (V : C.Valid) (o o' : Sched String) (S S' : Scratch C) {ct ct' out out' : Ct C} (hl : level < C.nQ)
    (hct : ct.AtLevel level) (hout : out.AtLevel level) (hids : out.ids = ct.ids) (hs : ct.Same ct') (ho : out.Same out') {r : ℕ}
    (K : KeysFor crs level ct.ids rks r) :
    ∃ o1 S1 o2 S2, rotate crs o S ct r rks out = .ok (o1, S1) ∧ rotate crs o' S' ct' r rks out' = .ok (o2, S2) ∧ o1.Same o2 ∧
      o1.AtLevel level ∧ o1.ids = ct.ids := by
  obtain ⟨a, k1, k2, k3⟩ := K
  have hadj : adjustIdx N (r : ℤ) = r := adjustIdx_nonneg (by omega)
  have H1 : RotHyp crs level ct r rks out a := ⟨hl, hct.toCoeff, hout, hids, k3, k1, k2⟩
  have H2 : RotHyp crs level ct' r rks out' a := ⟨hl, (hs.atLevel hct).toCoeff, ho.atLevel hout, by rw [← ho.ids, hids, hs.ids],
    fun id hid => k3 id (hs.ids ▸ hid), k1, k2⟩
  obtain ⟨o1, S1, e1, e2⟩ := rotateWith_run V o S none hadj H1 (HoistOK.none _ _)
  obtain ⟨o2, S2, f1, f2⟩ := rotateWith_run V o' S' none hadj H2 (HoistOK.none _ _)
  obtain ⟨g1, g2, -⟩ := e2.atLevel hout
  refine ⟨o1, S1, o2, S2, e1, f1, upd_same ho e2 f2 fun id _ i _ => ?_, g1, g2.trans hids⟩
  have hd : digitsFor level ct none = digitsFor level ct' none := by
    funext id; simp only [digitsFor]; rw [hs.comp]
  rw [hs.ids, hs.comp, hd]

theorem copyFrom_cong (o o' : Order String) {d d' t t' : Ct C} (hd : d.Same d') (ht : t.Same t') (h1 : d.AtLevel level)
    (h2 : t.AtLevel level) (hids : d.ids = t.ids) : ∃ a b, d.copyFrom o t = .ok a ∧ d'.copyFrom o' t' = .ok b ∧ a.Same b ∧
      a.AtLevel level ∧ a.ids = t.ids := by
  obtain ⟨a, a1, a2, a3, _, a4⟩ := Ct.copyFrom_same o h1 h2 hids
  obtain ⟨b, b1, b2, b3, _, b4⟩ := Ct.copyFrom_same o' (hd.atLevel h1) (ht.atLevel h2) (by rw [← hd.ids, hids, ht.ids])
  exact ⟨a, b, a1, b1, fun id => by rw [a4, b4, hd id, ht id], a2, a3⟩

theorem rotLoop_same (V : C.Valid) (o o' : ℕ → Sched String) (hl : level < C.nQ) (ids : Finset String) (r : ℕ) :
    ∀ (k : ℕ) (tmp tmp' out out' : Ct C) (S S' : Scratch C), tmp.AtLevel level → out.AtLevel level → tmp.ids = ids → out.ids = ids →
    tmp.Same tmp' → out.Same out' → (∀ j ∈ onBits r, KeysFor crs level ids rks (k * 2 ^ j)) →
    ∃ o1 S1 o2 S2, rotLoop crs o rks k r tmp out S = .ok (o1, S1) ∧ rotLoop crs o' rks k r tmp' out' S' = .ok (o2, S2) ∧ o1.Same o2 := by
  induction r using Nat.strong_induction_on with
  | _ r ih =>
  intro k tmp tmp' out out' S S' ht ho hti hoi hst hso hK
  by_cases hr : 0 < r
  · have hrec : ∀ j ∈ onBits (r / 2), KeysFor crs level ids rks (2 * k * 2 ^ j) := by
      intro j hj
      have : j + 1 ∈ onBits r := by rw [mem_onBits, Nat.testBit_succ]; exact mem_onBits.mp hj
      have := hK _ this
      rwa [show k * 2 ^ (j + 1) = 2 * k * 2 ^ j by rw [pow_succ]; ring] at this
    rw [rotLoop, dif_pos hr]
    conv => enter [1, o1, 1, S1, 1, o2, 1, S2, 2, 1]; rw [rotLoop, dif_pos hr]
    by_cases hodd : r % 2 ≠ 0
    · rw [if_pos hodd, if_pos hodd]
      have hk0 : KeysFor crs level tmp.ids rks k := by
        have := hK 0 (by rw [mem_onBits]; simp; omega)
        rw [hti]; simpa using this
      obtain ⟨o1, S1, o2, S2, e1, e2, e3, e4, e5⟩ := rotate_same V (o k) (o' k) S S' hl ht ho (hoi.trans hti.symm) hst hso hk0
      obtain ⟨t1, t2, c1, c2, c3, c4, c5⟩ := copyFrom_cong (o k 60) (o' k 60) hst e3 ht e4 e5.symm
      rw [e1, e2, bind_ok, bind_ok]
      dsimp only
      rw [c1, c2, bind_ok, bind_ok]
      exact ih (r / 2) (by omega) (2 * k) t1 t2 o1 o2 S1 S2 c4 e4 (c5.trans (e5.trans hti)) (e5.trans hti) c3 e3 hrec
    · rw [if_neg hodd, if_neg hodd]
      exact ih (r / 2) (by omega) (2 * k) tmp tmp' out out' S S' ht ho hti hoi hst hso hrec
  · rw [rotLoop, dif_neg hr]
    conv => enter [1, o1, 1, S1, 1, o2, 1, S2, 2, 1]; rw [rotLoop, dif_neg hr]
    exact ⟨out, S, out', S', rfl, rfl, hso⟩

theorem new_same (o o' : Order String) {ids ids' : IDSet} (h : ∀ id, ids.has id = true ↔ ids'.has id = true) (level : ℕ) :
    (Ct.new o ids level : Ct C).Same (Ct.new o' ids' level) := by
  intro id
  rw [Ct.new_lookup, Ct.new_lookup]
  have := h id
  by_cases h1 : ids.has id = true
  · rw [if_pos (.inr h1), if_pos (.inr (this.mp h1))]
  · have h2 : ¬ ids'.has id = true := fun h => h1 (this.mpr h)
    by_cases hz : id = "0"
    · rw [if_pos (.inl hz), if_pos (.inl hz)]
    · rw [if_neg (by tauto), if_neg (by tauto)]

/-- **C24 for `RotateNew`.** Whatever the scratch memory of the evaluator contains, and in whatever orders Go iterates its maps, the
result has the same entries and scale. -/
theorem rotateNew_deterministic (V : C.Valid) (o o' : ℕ → Sched String) (Ev Ev' : Eval C) (ct : CCt C) (rot : ℤ) (hl : level < C.nQ)
    (hct : ct.ct.AtLevel level) (K : ∀ j, 2 ^ j < N / 2 → KeysFor crs level ct.ct.ids rks (2 ^ j))
    (K' : (crs.lookup (C35.amount N rot : ℤ)).isSome → C35.amount N rot ≠ 0 → KeysFor crs level ct.ct.ids rks (C35.amount N rot)) :
    ∃ r1 E1 r2 E2, ckksRotateNew crs o Ev ct rot rks = .ok (r1, E1) ∧ ckksRotateNew crs o' Ev' ct rot rks = .ok (r2, E2) ∧
      r1.scale = r2.scale ∧ ∀ id, r1.ct.lookup id = r2.ct.lookup id := by
  obtain ⟨ids, a1, a2⟩ := Ct.idset (o 0 63) ct.ct
  obtain ⟨ids', b1, b2⟩ := Ct.idset (o' 0 63) ct.ct
  obtain ⟨hn, hlt⟩ := C35.rotNorm_amount V rot
  have hnew : (Ct.new (o 0 64) ids level : Ct C).AtLevel level := Ct.new_atLevel _ _ _
  have hnid : (Ct.new (o 0 64) ids level : Ct C).ids = ct.ct.ids := Ct.new_ids _ a2 (Ct.zero_notMem_ids _) _
  have hsame : (Ct.new (o 0 64) ids level : Ct C).Same (Ct.new (o' 0 64) ids' level) := new_same _ _ (fun id => (a2 id).trans (b2 id).symm) _
  have hlk : (crs.lookup (rotNorm N rot) : Option (Swk C)) = crs.lookup (C35.amount N rot : ℤ) :=
    congrArg (fun k : ℤ => (crs.lookup k : Option (Swk C))) hn
  unfold ckksRotateNew ckksRotate
  rw [a1, b1, bind_ok, bind_ok, hct.level, bind_ok, bind_ok]
  dsimp only
  rw [hlk]
  by_cases hr : C35.amount N rot = 0
  · have h0 : rotNorm N rot = 0 := by rw [hn, hr]; rfl
    simp only [if_pos h0]
    obtain ⟨x, y, c1, c2, c3, _⟩ := copyFrom_cong (o 0 61) (o' 0 61) hsame (Ct.Same.refl ct.ct) hnew hct hnid
    rw [c1, c2, bind_ok, bind_ok, bind_ok, bind_ok]
    exact ⟨_, _, _, _, rfl, rfl, rfl, c3⟩
  · have h0 : rotNorm N rot ≠ 0 := by rw [hn]; exact_mod_cast hr
    simp only [if_neg h0]
    by_cases hc : (crs.lookup (C35.amount N rot : ℤ)).isSome
    · simp only [if_pos hc, hn]
      obtain ⟨o1, S1, o2, S2, e1, e2, e3, _⟩ := rotate_same V (o 0) (o' 0) Ev.ksw Ev'.ksw hl hct hnew hnid (Ct.Same.refl _) hsame (K' hc hr)
      rw [e1, e2, bind_ok, bind_ok]
      exact ⟨_, _, _, _, rfl, rfl, rfl, e3⟩
    · simp only [if_neg hc, hn, Int.toNat_natCast]
      obtain ⟨tmp, t1, t2⟩ := Ct.copyNew_ok (o 0 62) hct.has0
      obtain ⟨tmp', t1', t2'⟩ := Ct.copyNew_ok (o' 0 62) hct.has0
      rw [t1, t1', bind_ok, bind_ok]
      obtain ⟨o1, S1, o2, S2, e1, e2, e3⟩ := rotLoop_same V o o' hl ct.ct.ids (C35.amount N rot) 1 tmp tmp' _ _ Ev.ksw Ev'.ksw
        (t2.symm.atLevel hct) hnew t2.ids hnid (t2.trans t2'.symm) hsame (fun j hj => by
          rw [one_mul]
          refine K j (lt_of_le_of_lt ?_ hlt)
          by_contra h
          rw [mem_onBits, Nat.testBit_lt_two_pow (by omega)] at hj
          cases hj)
      rw [e1, e2, bind_ok, bind_ok]
      exact ⟨_, _, _, _, rfl, rfl, rfl, e3⟩

/-- **C24 for `ConjugateNew`.** -/
theorem conjugateNew_deterministic (V : C.Valid) (o o' : Sched String) (Ev Ev' : Eval C) (ct : CCt C) (hl : level < C.nQ)
    (hct : ct.ct.AtLevel level) {cks : KeySet (GalKey C)} {a : Swk C}
    (K : ∀ id ∈ ct.ct.ids, ∃ key, cks.value.lookup id = some key ∧ C.beta level ≤ key.value.len)
    (ha : crs.lookup (-2) = some a ∧ C.beta level ≤ a.len) :
    ∃ r1 E1 r2 E2, ckksConjugateNew level crs o Ev ct cks = .ok (r1, E1) ∧ ckksConjugateNew level crs o' Ev' ct cks = .ok (r2, E2) ∧
      r1.scale = r2.scale ∧ ∀ id, r1.ct.lookup id = r2.ct.lookup id := by
  obtain ⟨ids, a1, a2⟩ := Ct.idset (o 63) ct.ct
  obtain ⟨ids', b1, b2⟩ := Ct.idset (o' 63) ct.ct
  have hnew : (Ct.new (o 64) ids level : Ct C).AtLevel level := Ct.new_atLevel _ _ _
  have hnid : (Ct.new (o 64) ids level : Ct C).ids = ct.ct.ids := Ct.new_ids _ a2 (Ct.zero_notMem_ids _) _
  have hnid' : (Ct.new (o' 64) ids' level : Ct C).ids = ct.ct.ids := Ct.new_ids _ b2 (Ct.zero_notMem_ids _) _
  have hsame : (Ct.new (o 64) ids level : Ct C).Same (Ct.new (o' 64) ids' level) := new_same _ _ (fun id => (a2 id).trans (b2 id).symm) _
  obtain ⟨o1, S1, e1, e2⟩ := conjugate_run V o Ev.ksw (out := Ct.new (o 64) ids level) ⟨hl, hct.toCoeff, hnew, hnid, K, ha⟩
  obtain ⟨o2, S2, f1, f2⟩ := conjugate_run V o' Ev'.ksw (out := Ct.new (o' 64) ids' level)
    ⟨hl, hct.toCoeff, Ct.new_atLevel _ _ _, hnid', K, ha⟩
  unfold ckksConjugateNew
  rw [a1, b1, bind_ok, bind_ok, hct.level, bind_ok, bind_ok, e1, f1, bind_ok, bind_ok]
  exact ⟨_, _, _, _, rfl, rfl, rfl, upd_same hsame e2 f2 fun _ _ _ _ => rfl⟩

/-- `ConjugateNew` through the evaluator: the phase is conjugated (C36), scale kept -/
theorem conjugateNew_phase (V : C.Valid) (o : Sched String) (Ev : Eval C) (ct : CCt C) (hl : level < C.nQ)
    (hct : ct.ct.AtLevel level) {cks : KeySet (GalKey C)} {s : String → Nega N ℤ} {Sb Be : ℤ} (K : C36.Keys crs level ct.ct.ids cks s Sb Be)
    (D : ℤ) (hD : ∀ k < C.beta level, 2 * (C.blockProd level k : ℤ) ≤ D) :
    ∃ out Ev', ckksConjugateNew level crs o Ev ct cks = .ok (out, Ev') ∧ out.scale = ct.scale ∧ out.ct.AtLevel level ∧
      out.ct.ids = ct.ct.ids ∧ ∃ E : Nega N ℤ, (∀ x, C.P * |E x| ≤ C33.rotNoise N C.P ct.ct.ids.card (C.beta level) D Sb Be) ∧
        ∀ i ≤ level, out.ct.phase s i = galois (2 * N - 1) (ct.ct.phase s i) + red (C.q i) E := by
  obtain ⟨ids, a1, a2⟩ := Ct.idset (o 63) ct.ct
  have hnew : (Ct.new (o 64) ids level : Ct C).AtLevel level := Ct.new_atLevel _ _ _
  have hnid : (Ct.new (o 64) ids level : Ct C).ids = ct.ct.ids := Ct.new_ids _ a2 (Ct.zero_notMem_ids _) _
  obtain ⟨out', S', e1, e2, e3, E, e4, e5⟩ := C36.conjugate_phase V o Ev.ksw ⟨hl, hct.toCoeff, hnew, hnid⟩ K D hD
  unfold ckksConjugateNew
  rw [a1, bind_ok, hct.level, bind_ok, e1, bind_ok]
  exact ⟨⟨out', ct.scale⟩, { Ev with ksw := S' }, rfl, rfl, e2, e3, E, e4, e5⟩

end C24

/-! ## Concrete instances -/
namespace Ex

/-- the default keys for `N = 16` (amounts 1, 2 and 4) serve every rotation amount -/
theorem hasKeys (fm : FloatModel) (rot : ℤ) : C35.HasKeys (crs fm) 2 (ctAB fm 3 4).ids (C35.amount 16 rot) (rks fm) sec 1 2 where
  default := by
    intro j hj
    have : j = 0 ∨ j = 1 ∨ j = 2 := by
      by_contra h
      have h2 : 3 ≤ j := by omega
      have : 2 ^ 3 ≤ 2 ^ j := Nat.pow_le_pow_right (by norm_num) h2
      omega
    rcases this with h | h | h <;> subst h
    · exact rotKeys1 fm
    · exact rotKeys2 fm
    · exact rotKeys4 fm
  special := by
    intro h h0
    have hlt := (C35.rotNorm_amount (valid fm) rot).2
    generalize C35.amount 16 rot = r at *
    by_cases h1 : r = 1
    · rw [h1]; exact rotKeys1 fm
    by_cases h2 : r = 2
    · rw [h2]; exact rotKeys2 fm
    by_cases h4 : r = 4
    · rw [h4]; exact rotKeys4 fm
    exfalso
    unfold crs at h
    simp only [GoMap.lookup_insert'] at h
    rw [if_neg (by omega), if_neg (by omega), if_neg (by omega), if_neg (by omega), if_neg (by omega), if_neg (by omega)] at h
    simp at h

/-- concrete instance of C35: rotation by `-5`, which is `3 = 1 + 2` modulo 8 and not in the CRS: two key switchings -/
example (fm : FloatModel) (Ev : Eval (ctx fm)) : ∃ out Ev', ckksRotateNew (crs fm) (fun _ _ => Order.rev) Ev ⟨ctAB fm 3 4, 2 ^ 10⟩ (-5) (rks fm) =
    .ok (out, Ev') ∧ out.scale = 2 ^ 10 ∧ C35.Result (crs fm) 2 sec 1 2 37442 3 (ctAB fm 3 4) out.ct :=
  C35.ckksRotateNew_phase (valid fm) (fun _ _ => Order.rev) Ev ⟨ctAB fm 3 4, 2 ^ 10⟩ (-5) (by show 2 < 3; norm_num) (ctAB_at fm 2 4)
    (hasKeys fm _) 37442 (blocks fm)

example (fm : FloatModel) : C35.rotCount (crs fm) 3 = 2 := by
  unfold C35.rotCount crs
  simp only [GoMap.lookup_insert']
  simp
  decide

end Ex

end MKHE
