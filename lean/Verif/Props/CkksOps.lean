import Verif.Props.Const

set_option autoImplicit false

/-!
# C26 DropLevel, C27 Rescale, C28 RescaleNew, C50 MulPtxtNew
-/

namespace MKHE
open Finset Nega

variable {N : ℕ} [NeZero N] {C : Ctx N}

namespace C26

/-- entries after `DropLevel` -/
theorem dropLevel_lookup (o : Order String) {ct : Ct C} {level : ℕ} (h : ct.AtLevel level) {k : ℕ} (hk : k ≤ level) :
    ∃ ct', dropLevel o ct k = .ok ct' ∧ ∀ id, ct'.lookup id = (ct.lookup id).map fun p => { p with len := level - k + 1 } := by
  obtain ⟨p0, hp0⟩ := Ct.get h.has0
  have hlen0 := h.len _ _ hp0
  unfold dropLevel
  rw [GoMap.deref_ok hp0, bind_ok, if_neg (by omega)]
  have e : p0.len - k = level - k + 1 := by omega
  rw [e]
  obtain ⟨ct', e1, e2⟩ := Go.loop_inv (fun (ct : Ct C) id => do
      let p ← ct.deref id
      if p.len < level - k + 1 then .error .indexOutOfRange
      else .ok (ct.insert id { p with len := level - k + 1 }))
    (fun pre ct' => ∀ id, ct'.lookup id = if id ∈ pre then (ct.lookup id).map fun p => { p with len := level - k + 1 } else ct.lookup id)
    (GoMap.range o ct) ct (by simp) (by
      intro pre id suf ct' hl hI
      have hid : id ∈ ct := by rw [← GoMap.mem_range (o := o), hl]; simp
      have hpre : id ∉ pre := nodup_split (GoMap.nodup_range _ _) hl
      obtain ⟨p, hp⟩ := Ct.get hid
      have h1 := hI id
      rw [if_neg hpre, hp] at h1
      rw [GoMap.deref_ok h1, bind_ok, if_neg (by rw [h.len _ _ hp]; omega)]
      refine ⟨_, rfl, fun id' => ?_⟩
      rw [GoMap.lookup_insert']
      by_cases e : id' = id
      · subst e; rw [if_pos rfl, if_pos (by simp), hp]; rfl
      · rw [if_neg e, hI id']
        by_cases e' : id' ∈ pre <;> simp [e, e'])
  refine ⟨ct', e1, fun id => ?_⟩
  rw [e2 id]
  split_ifs with hm
  · rfl
  · have : ct.lookup id = none := by
      rw [GoMap.mem_range] at hm
      by_contra hne
      exact hm (AList.lookup_isSome.mp (Option.isSome_iff_ne_none.mpr hne))
    rw [this]; rfl

/-- **DropLevel**: for every ciphertext and `k ≤ level`, every component loses `k` rows, nothing else changes: ids, and the phase modulo every
remaining prime under any keys. -/
theorem dropLevel_phase (o : Order String) {ct : Ct C} {level : ℕ} (h : ct.AtLevel level) {k : ℕ} (hk : k ≤ level) :
    ∃ ct', dropLevel o ct k = .ok ct' ∧ ct'.AtLevel (level - k) ∧ ct'.ids = ct.ids ∧
      ∀ (s : String → Nega N ℤ) (i : ℕ), i ≤ level - k → ct'.phase s i = ct.phase s i := by
  obtain ⟨ct', e1, e2⟩ := dropLevel_lookup o h hk
  have hmem : ∀ id, id ∈ ct' ↔ id ∈ ct := fun id => by
    rw [← AList.lookup_isSome, ← AList.lookup_isSome, e2 id]; simp
  have hids : ct'.ids = ct.ids := by ext id; rw [Ct.mem_ids, Ct.mem_ids, hmem]
  refine ⟨ct', e1, ⟨(hmem _).mpr h.has0, fun id p hp => ?_, fun id p hp => ?_⟩, hids, fun s i _ => ?_⟩
  · rw [e2 id] at hp
    obtain ⟨q, hq, rfl⟩ := Option.map_eq_some_iff.mp hp
    rfl
  · rw [e2 id] at hp
    obtain ⟨q, hq, rfl⟩ := Option.map_eq_some_iff.mp hp
    exact h.coeff id q hq
  · refine Ct.phase_congr hids fun id hid => ?_
    unfold Ct.comp
    rw [e2 id]
    cases ct.lookup id <;> rfl

/-- more levels than there are: panic -/
theorem dropLevel_too_many (o : Order String) {ct : Ct C} {level : ℕ} (h : ct.AtLevel level) {k : ℕ} (hk : level + 1 < k) :
    dropLevel o ct k = .error .indexOutOfRange := by
  obtain ⟨p0, hp0⟩ := Ct.get h.has0
  unfold dropLevel
  rw [GoMap.deref_ok hp0, bind_ok, if_pos (by rw [h.len _ _ hp0]; exact hk)]

/-- **DropLevelNew** -/
theorem dropLevelNew_phase (o o' : Order String) {ct : CCt C} {level : ℕ} (h : ct.ct.AtLevel level) {k : ℕ} (hk : k ≤ level) :
    ∃ out, dropLevelNew o o' ct k = .ok out ∧ out.ct.AtLevel (level - k) ∧ out.ct.ids = ct.ct.ids ∧ out.scale = ct.scale ∧
      ∀ (s : String → Nega N ℤ) (i : ℕ), i ≤ level - k → out.ct.phase s i = ct.ct.phase s i := by
  obtain ⟨c, c1, c2⟩ := Ct.copyNew_ok o h.has0
  obtain ⟨d, d1, d2, d3, d4⟩ := dropLevel_phase o' (c2.symm.atLevel h) hk
  unfold dropLevelNew
  rw [c1, bind_ok, d1, bind_ok]
  exact ⟨_, rfl, d2, d3.trans c2.ids, rfl, fun s i hi => (d4 s i hi).trans (c2.phase s i)⟩

example (fm : FloatModel) : (Ex.ctAB fm 3 5).AtLevel 2 ∧ 1 ≤ 2 := ⟨Ex.ctAB_at fm 2 5, by norm_num⟩

end C26

namespace C27

/-- the scale after dividing by the primes `level, level-1, ...`, `n` of them (float64 arithmetic) -/
def scaleAfter (fm : FloatModel) (q : ℕ → ℕ) (level : ℕ) (s : ℚ) : ℕ → ℚ
  | 0 => s
  | n + 1 => fm.div (scaleAfter fm q level s n) (fm.ofNat (q (level - n)))

/-- the number of divisions the documentation prescribes: `n` is the first count for which one more division brings the scale below half
of `minScale` -/
structure Count (fm : FloatModel) (q : ℕ → ℕ) (level : ℕ) (s minScale : ℚ) (n : ℕ) : Prop where
  le : n ≤ level
  above : ∀ j < n, fm.div minScale 2 ≤ scaleAfter fm q level s (j + 1)
  below : scaleAfter fm q level s (n + 1) < fm.div minScale 2

theorem scaleAfter_shift (fm : FloatModel) (q : ℕ → ℕ) (l : ℕ) (s : ℚ) (n : ℕ) :
    scaleAfter fm q (l + 1) s (n + 1) = scaleAfter fm q l (fm.div s (fm.ofNat (q (l + 1)))) n := by
  induction n with
  | zero => rfl
  | succ n ih =>
    show fm.div (scaleAfter fm q (l + 1) s (n + 1)) (fm.ofNat (q (l + 1 - (n + 1)))) = fm.div _ (fm.ofNat (q (l - n)))
    rw [ih, show l + 1 - (n + 1) = l - n by omega]

theorem loop_ok (fm : FloatModel) (q : ℕ → ℕ) (thr : ℚ) (n : ℕ) : ∀ (l : ℕ) (s : ℚ) (nb : ℕ), n ≤ l →
    (∀ j < n, thr ≤ scaleAfter fm q l s (j + 1)) → scaleAfter fm q l s (n + 1) < thr →
    rescaleLoop fm q thr (l + 1) s nb = .ok (scaleAfter fm q l s n, nb + n) := by
  induction n with
  | zero =>
    intro l s nb _ _ hb
    unfold rescaleLoop
    rw [if_neg (show ¬ thr ≤ fm.div s (fm.ofNat (q l)) from not_le.mpr hb)]; rfl
  | succ n ih =>
    intro l s nb hn ha hb
    obtain ⟨l, rfl⟩ : ∃ k, l = k + 1 := ⟨l - 1, by omega⟩
    unfold rescaleLoop
    rw [if_pos (show thr ≤ fm.div s (fm.ofNat (q (l + 1))) from ha 0 (by omega)), ih l _ (nb + 1) (by omega) (fun j hj => by
      rw [← scaleAfter_shift]; exact ha (j + 1) (by omega)) (by rw [← scaleAfter_shift]; exact hb), scaleAfter_shift]
    congr 2; omega

theorem loop_panic (fm : FloatModel) (q : ℕ → ℕ) (thr : ℚ) (l : ℕ) : ∀ (s : ℚ) (nb : ℕ),
    (∀ j ≤ l, thr ≤ scaleAfter fm q l s (j + 1)) → rescaleLoop fm q thr (l + 1) s nb = .error .indexOutOfRange := by
  induction l with
  | zero =>
    intro s nb h
    unfold rescaleLoop
    rw [if_pos (show thr ≤ fm.div s (fm.ofNat (q 0)) from h 0 le_rfl)]; rfl
  | succ l ih =>
    intro s nb h
    unfold rescaleLoop
    rw [if_pos (show thr ≤ fm.div s (fm.ofNat (q (l + 1))) from h 0 (by omega)), ih _ _ fun j hj => by rw [← scaleAfter_shift]; exact h (j + 1) (by omega)]

/-- either the documentation's count exists or every prime of the chain leaves the scale above the threshold -/
theorem count_or (fm : FloatModel) (q : ℕ → ℕ) (level : ℕ) (s minScale : ℚ) :
    (∃ n, Count fm q level s minScale n) ∨ ∀ j ≤ level, fm.div minScale 2 ≤ scaleAfter fm q level s (j + 1) := by
  by_cases h : ∃ n, n ≤ level ∧ scaleAfter fm q level s (n + 1) < fm.div minScale 2
  · left
    classical
    refine ⟨Nat.find h, (Nat.find_spec h).1, fun j hj => ?_, (Nat.find_spec h).2⟩
    have := Nat.find_min h hj
    by_contra hc
    exact this ⟨by have := (Nat.find_spec h).1; omega, not_le.mp hc⟩
  · right
    intro j hj
    by_contra hc
    exact h ⟨j, hj, not_le.mp hc⟩

/-- one rounded division: `x = q_L y + r` with `|r| ≤ (q_L - 1)/2`, modulo every prime up to the level -/
theorem divRoundStep_spec (V : C.Valid) {L : ℕ} (hL : L < C.nQ) (x : QRows C) : ∃ r : Nega N ℤ, (∀ t, 2 * |r t| ≤ C.q L - 1) ∧
    (∀ i < L, cf (x i) = (C.q L : Nega N (ZMod (C.q i))) * cf (divRoundStep L x i) + red (C.q i) r) ∧ cf (x L) = red (C.q L) r := by
  have hodd := V.pair.oddQ L hL
  obtain ⟨h, hh⟩ := hodd
  have hpos : 0 < C.q L := by omega
  have hhalf : (C.q L - 1) / 2 = h := by omega
  obtain ⟨r, hr⟩ : ∃ r : Nega N ℤ, ∀ t, r t = ((((x L t).val + (C.q L - 1) / 2) % C.q L : ℕ) : ℤ) - h := ⟨fun t => _, fun _ => rfl⟩
  refine ⟨r, fun t => ?_, fun i hi => ?_, ?_⟩
  · have := Nat.mod_lt ((x L t).val + (C.q L - 1) / 2) hpos
    rw [hr]
    have hz : ((C.q L : ℕ) : ℤ) = 2 * h + 1 := by exact_mod_cast hh
    have : |((((x L t).val + (C.q L - 1) / 2) % C.q L : ℕ) : ℤ) - h| ≤ h := by rw [abs_le]; omega
    linarith
  · have hiQ : i < C.nQ := by omega
    have hcop : Nat.Coprime (C.q L) (C.q i) := by
      rw [Nat.coprime_primes (V.pair.primeQ L hL) (V.pair.primeQ i hiQ)]
      intro e
      have := V.pair.distinctQ L hL i hiQ e
      omega
    have hinv := ZMod.coe_mul_inv_eq_one (C.q L) hcop
    haveI : NeZero (C.q i) := ⟨(V.pair.primeQ i hiQ).ne_zero⟩
    apply Nega.ext; intro t
    rw [Nega.add_apply, Nega.natCast_mul_apply]
    have e1 : cf (divRoundStep L x i) t = ((((x i t).val : ℕ) : ZMod (C.q i)) + (((C.q L - 1) / 2 : ℕ) : ZMod (C.q i)) -
        ((((x L t).val + (C.q L - 1) / 2) % C.q L : ℕ) : ZMod (C.q i))) * ((C.q L : ℕ) : ZMod (C.q i))⁻¹ := by
      unfold divRoundStep
      rw [if_pos hi]
      show (((toWord (C.q i) _).val : ℕ) : ZMod (C.q i)) = _
      rw [toWord_val (ZMod.val_lt _).le, ZMod.natCast_zmod_val]
    rw [e1, red_apply, hr]
    show (((x i t).val : ℕ) : ZMod (C.q i)) = _
    rw [hhalf, Int.cast_sub, Int.cast_natCast, Int.cast_natCast]
    have e2 : ((C.q L : ℕ) : ZMod (C.q i)) * ((((x i t).val : ℕ) : ZMod (C.q i)) + (h : ZMod (C.q i)) -
        ((((x L t).val + h) % C.q L : ℕ) : ZMod (C.q i))) * ((C.q L : ℕ) : ZMod (C.q i))⁻¹ =
        (((x i t).val : ℕ) : ZMod (C.q i)) + (h : ZMod (C.q i)) - ((((x L t).val + h) % C.q L : ℕ) : ZMod (C.q i)) := by
      rw [mul_right_comm, hinv, one_mul]
    rw [← mul_assoc, e2]
    ring
  · apply Nega.ext; intro t
    rw [red_apply, hr]
    show (((x L t).val : ℕ) : ZMod (C.q L)) = _
    rw [hhalf, Int.cast_sub, Int.cast_natCast, Int.cast_natCast, ZMod.natCast_mod]
    push_cast
    ring

/-- the product of the `n` primes that are divided out -/
def dropped (q : ℕ → ℕ) (level n : ℕ) : ℕ := ∏ j ∈ range n, q (level - j)

theorem dropped_succ (q : ℕ → ℕ) (L n : ℕ) : dropped q (L + 1) (n + 1) = q (L + 1) * dropped q L n := by
  unfold dropped
  rw [prod_range_succ', mul_comm]
  congr 1
  exact prod_congr rfl fun j _ => by rw [show L + 1 - (j + 1) = L - j by omega]

/-- `n` rounded divisions: `x = D y + r` with `|r| ≤ (D - 1)/2`, where `D` is the product of the primes, modulo every prime of the level -/
theorem divRoundMany_spec (V : C.Valid) (n : ℕ) : ∀ {L : ℕ}, L < C.nQ → n ≤ L → ∀ x : QRows C, ∃ r : Nega N ℤ,
    (∀ t, 2 * |r t| ≤ dropped C.q L n - 1) ∧
    (∀ i ≤ L - n, cf (x i) = (dropped C.q L n : Nega N (ZMod (C.q i))) * cf (divRoundMany L n x i) + red (C.q i) r) ∧
    ∀ i, L - n < i → i ≤ L → cf (x i) = red (C.q i) r := by
  induction n with
  | zero =>
    intro L hL _ x
    refine ⟨0, fun t => by simp [dropped], fun i _ => ?_, fun i h1 h2 => by omega⟩
    show cf (x i) = _ * cf (x i) + _
    simp [dropped]
  | succ n ih =>
    intro L hL hn x
    obtain ⟨L, rfl⟩ : ∃ k, L = k + 1 := ⟨L - 1, by omega⟩
    obtain ⟨r1, a1, a2, a3⟩ := divRoundStep_spec V hL x
    obtain ⟨r2, b1, b2, b3⟩ := ih (L := L) (by omega) (by omega) (divRoundStep (L + 1) x)
    have hm : divRoundMany (L + 1) (n + 1) x = divRoundMany L n (divRoundStep (L + 1) x) := rfl
    refine ⟨(C.q (L + 1) : Nega N ℤ) * r2 + r1, fun t => ?_, fun i hi => ?_, fun i h1 h2 => ?_⟩
    · rw [Nega.add_apply, Nega.natCast_mul_apply, dropped_succ]
      have h1 := a1 t
      have h2 := b1 t
      have h3 : |(C.q (L + 1) : ℤ) * r2 t + r1 t| ≤ (C.q (L + 1) : ℤ) * |r2 t| + |r1 t| := by
        refine (abs_add_le _ _).trans ?_
        rw [abs_mul, Nat.abs_cast]
      have h4 : (C.q (L + 1) : ℤ) * (2 * |r2 t|) ≤ (C.q (L + 1) : ℤ) * (dropped C.q L n - 1) := mul_le_mul_of_nonneg_left h2 (by positivity)
      push_cast
      nlinarith
    · rw [hm, a2 i (by omega), b2 i (by omega), dropped_succ, map_add, map_mul, map_natCast]
      push_cast; ring
    · by_cases e : i = L + 1
      · subst e
        rw [a3, map_add, map_mul, map_natCast]
        have : ((C.q (L + 1) : ℕ) : Nega N (ZMod (C.q (L + 1)))) = 0 := by
          rw [Nega.natCast_def, ZMod.natCast_self]; apply Nega.ext; intro t; unfold Nega.C; simp
        rw [this]; ring
      · rw [a2 i (by omega), b3 i (by omega) (by omega), map_add, map_mul, map_natCast]

/-- `Rescale` when at least one prime is divided out -/
theorem rescale_run (o : Order String) {ctIn out : CCt C} {minScale : ℚ} {same : Bool} (hsame : same = true → out = ctIn) {level lo n : ℕ}
    (h : ctIn.ct.AtLevel level) (hout : out.ct.AtLevel lo) (hids : out.ct.ids = ctIn.ct.ids) (hmin : 0 < minScale) (hs : ctIn.scale ≠ 0)
    (hl : 0 < level) (hn : 0 < n) (hlo : level - n ≤ lo) (hcount : Count C.fm C.q level ctIn.scale minScale n) :
    ∃ ct, rescale o ctIn minScale out same = .ok (none, ⟨ct, scaleAfter C.fm C.q level ctIn.scale n⟩) ∧
      ∀ id, ct.lookup id = (out.ct.lookup id).map fun p =>
        { p with len := level + 1 - n, rows := setQ (level - n) (divRoundMany level n (ctIn.ct.comp id)) p.rows } := by
  have hle := hcount.le
  unfold rescale
  rw [if_neg (not_le.mpr hmin), if_neg hs, h.level, bind_ok, if_neg (by omega)]
  rw [loop_ok C.fm C.q _ n level ctIn.scale 0 hcount.le hcount.above hcount.below, bind_ok, if_pos (by show 0 < 0 + n; omega)]
  simp only [Nat.zero_add]
  obtain ⟨ct', e1, e2⟩ := Go.loop_inv (fun (ct : Ct C) id => do
      let a ← (if same then ct else ctIn.ct).deref id
      let b ← ct.deref id
      a.need level
      if b.len < level + 1 - n then .error .indexOutOfRange
      else .ok (ct.insert id { b with len := level + 1 - n, rows := setQ (level - n) (divRoundMany level n a.rows) b.rows }))
    (fun pre ct' => ∀ id, ct'.lookup id = if id ∈ pre then (out.ct.lookup id).map fun p =>
        { p with len := level + 1 - n, rows := setQ (level - n) (divRoundMany level n (ctIn.ct.comp id)) p.rows } else out.ct.lookup id)
    (GoMap.range o out.ct) out.ct (by simp) (by
      intro pre id suf ct' hl hI
      have hid : id ∈ out.ct := by rw [← GoMap.mem_range (o := o), hl]; simp
      have hid' : id ∈ ctIn.ct := by
        by_cases e : id = "0"
        · subst e; exact h.has0
        · exact (Ct.mem_ids.mp (hids ▸ Ct.mem_ids.mpr ⟨hid, e⟩)).1
      have hpre : id ∉ pre := nodup_split (GoMap.nodup_range _ _) hl
      obtain ⟨b, hb⟩ := Ct.get hid
      obtain ⟨a, ha⟩ := Ct.get hid'
      have h1 := hI id
      rw [if_neg hpre, hb] at h1
      have ha' : (if same then ct' else ctIn.ct : Ct C).lookup id = some a := by
        cases same with
        | false => exact ha
        | true => show ct'.lookup id = _; rw [h1, ← hb, hsame rfl, ha]
      rw [GoMap.deref_ok ha', bind_ok, GoMap.deref_ok h1, bind_ok, Poly.need_ok (by rw [h.len _ _ ha]; omega), bind_ok,
        if_neg (by rw [hout.len _ _ hb]; omega)]
      refine ⟨_, rfl, fun id' => ?_⟩
      rw [GoMap.lookup_insert']
      by_cases e : id' = id
      · subst e; rw [if_pos rfl, if_pos (by simp), hb, h.toCoeff.comp ha]; rfl
      · rw [if_neg e, hI id']
        by_cases e' : id' ∈ pre <;> simp [e, e'])
  refine ⟨ct', by rw [e1]; rfl, fun id => ?_⟩
  rw [e2 id]
  split_ifs with hm
  · rfl
  · have : out.ct.lookup id = none := by
      rw [GoMap.mem_range] at hm
      by_contra hne
      exact hm (AList.lookup_isSome.mp (Option.isSome_iff_ne_none.mpr hne))
    rw [this]; rfl

/-- **Rescale**: for every ciphertext, scale, `minScale` and modulus chain for which the documentation's count `n` is at least one, in place or
into another ciphertext over the same ids: it succeeds, the level drops by `n`, the scale is divided by the last `n` primes, and the old
phase is the product `D` of those primes times the new phase plus an error polynomial `E` that does not depend on the prime, with
`2|E| ≤ (D - 1)(1 + #ids N B)` for secret keys bounded by `B`; modulo the primes divided out, where `D` is zero, the old phase is `E`: so
`(old - E)/D` is an integer division. -/
theorem rescale_phase (V : C.Valid) (o : Order String) {ctIn out : CCt C} {minScale : ℚ} {same : Bool} (hsame : same = true → out = ctIn)
    {level lo n : ℕ} (hlev : level < C.nQ) (h : ctIn.ct.AtLevel level) (hout : out.ct.AtLevel lo) (hids : out.ct.ids = ctIn.ct.ids)
    (hmin : 0 < minScale) (hs : ctIn.scale ≠ 0) (hl : 0 < level) (hn : 0 < n) (hlo : level - n ≤ lo)
    (hcount : Count C.fm C.q level ctIn.scale minScale n) :
    ∃ r, rescale o ctIn minScale out same = .ok (none, r) ∧ r.ct.AtLevel (level - n) ∧ r.ct.ids = ctIn.ct.ids ∧
      r.scale = scaleAfter C.fm C.q level ctIn.scale n ∧
      ∀ (s : String → Nega N ℤ) (B : ℤ), (∀ id, Bdd (s id) B) → ∃ E : Nega N ℤ,
        (∀ t, 2 * |E t| ≤ (dropped C.q level n - 1) * (1 + ctIn.ct.ids.card * N * B)) ∧
        (∀ i ≤ level - n, ctIn.ct.phase s i = (dropped C.q level n : Nega N (ZMod (C.q i))) * r.ct.phase s i + red (C.q i) E) ∧
        ∀ i, level - n < i → i ≤ level → ctIn.ct.phase s i = red (C.q i) E := by
  obtain ⟨ct, e1, e2⟩ := rescale_run o hsame h hout hids hmin hs hl hn hlo hcount
  have hle := hcount.le
  have hmem : ∀ id, id ∈ ct ↔ id ∈ out.ct := fun id => by
    rw [← AList.lookup_isSome, ← AList.lookup_isSome, e2 id]; simp
  have hids' : ct.ids = ctIn.ct.ids := by rw [← hids]; ext id; rw [Ct.mem_ids, Ct.mem_ids, hmem]
  have hcomp : ∀ id, id ∈ ctIn.ct.ids ∨ id = "0" → ∀ i ≤ level - n, ct.comp id i = divRoundMany level n (ctIn.ct.comp id) i := by
    intro id hid i hi
    have hid' : id ∈ out.ct := hid.elim (fun h => (Ct.mem_ids.mp (hids ▸ h)).1) fun e => e ▸ hout.has0
    obtain ⟨p, hp⟩ := Ct.get hid'
    have := e2 id
    rw [hp, Option.map_some] at this
    rw [Ct.comp_eq this, Poly.coeffs_eq (by exact hout.coeff id p hp)]
    exact setQ_le _ _ hi
  refine ⟨_, e1, ⟨(hmem _).mpr hout.has0, fun id p hp => ?_, fun id p hp => ?_⟩, hids', rfl, fun s B hB => ?_⟩
  · rw [e2 id] at hp
    obtain ⟨q, hq, rfl⟩ := Option.map_eq_some_iff.mp hp
    show level + 1 - n = level - n + 1; omega
  · rw [e2 id] at hp
    obtain ⟨q, hq, rfl⟩ := Option.map_eq_some_iff.mp hp
    exact hout.coeff id q hq
  · choose r r1 r2 r3 using fun id => divRoundMany_spec V n hlev hle (ctIn.ct.comp id)
    set D := dropped C.q level n with hD
    have hB0 : 0 ≤ B := (hB "").nonneg
    have hrb : ∀ id, Bdd (r id) (((D : ℤ) - 1) / 2) := fun id t => by have := r1 id t; omega
    refine ⟨r "0" + ∑ id ∈ ctIn.ct.ids, r id * s id, fun t => ?_, fun i hi => ?_, fun i h1 h2 => ?_⟩
    · have hb := (hrb "0").add (Bdd.sum ctIn.ct.ids (fun id => r id * s id) (fun _ => N * (((D : ℤ) - 1) / 2) * B)
        fun id _ => (hrb id).mul (hB id)) t
      rw [sum_const, nsmul_eq_mul] at hb
      have h2 : 2 * (((D : ℤ) - 1) / 2) ≤ (D : ℤ) - 1 := by omega
      have h3 : (0 : ℤ) ≤ 1 + ctIn.ct.ids.card * N * B := by positivity
      calc 2 * |(r "0" + ∑ id ∈ ctIn.ct.ids, r id * s id) t| ≤
          2 * (((D : ℤ) - 1) / 2 + ctIn.ct.ids.card * (N * (((D : ℤ) - 1) / 2) * B)) := by linarith
        _ = 2 * (((D : ℤ) - 1) / 2) * (1 + ctIn.ct.ids.card * N * B) := by ring
        _ ≤ _ := mul_le_mul_of_nonneg_right h2 h3
    · rw [phase_eq_rows, phase_eq_rows, hids']
      unfold phaseRows
      rw [hcomp "0" (.inr rfl) i hi, (r2 "0") i hi, map_add, map_sum, mul_add, mul_sum]
      have : ∑ id ∈ ctIn.ct.ids, cf (ctIn.ct.comp id i) * red (C.q i) (s id) = ∑ id ∈ ctIn.ct.ids,
          ((D : Nega N (ZMod (C.q i))) * (cf (ct.comp id i) * red (C.q i) (s id)) + red (C.q i) (r id * s id)) := by
        refine sum_congr rfl fun id hid => ?_
        rw [hcomp id (.inl hid) i hi, (r2 id) i hi, map_mul]; ring
      rw [this, sum_add_distrib]
      ring
    · rw [phase_eq_rows]
      unfold phaseRows
      rw [r3 "0" i h1 h2, map_add, map_sum]
      congr 1
      exact sum_congr rfl fun id hid => by rw [r3 id i h1 h2, map_mul]

/-- nothing to divide: the ciphertext keeps its value when it is rescaled in place -/
theorem rescale_none (o : Order String) {ctIn : CCt C} {minScale : ℚ} {level : ℕ} (h : ctIn.ct.AtLevel level) (hmin : 0 < minScale)
    (hs : ctIn.scale ≠ 0) (hl : 0 < level) (hcount : Count C.fm C.q level ctIn.scale minScale 0) :
    rescale o ctIn minScale ctIn true = .ok (none, ctIn) := by
  unfold rescale
  rw [if_neg (not_le.mpr hmin), if_neg hs, h.level, bind_ok, if_neg (by omega),
    loop_ok C.fm C.q _ 0 level ctIn.scale 0 hcount.le hcount.above hcount.below, bind_ok]
  simp [scaleAfter]

/-- the three documented errors; the receiver is untouched -/
theorem rescale_errors (o : Order String) {ctIn out : CCt C} {minScale : ℚ} {same : Bool} {level : ℕ} (h : ctIn.ct.AtLevel level)
    (hbad : minScale ≤ 0 ∨ ctIn.scale = 0 ∨ level = 0) : ∃ msg, rescale o ctIn minScale out same = .ok (some msg, out) := by
  unfold rescale
  by_cases h1 : minScale ≤ 0
  · rw [if_pos h1]; exact ⟨_, rfl⟩
  · rw [if_neg h1]
    by_cases h2 : ctIn.scale = 0
    · rw [if_pos h2]; exact ⟨_, rfl⟩
    · rw [if_neg h2, h.level, bind_ok, if_pos (by tauto)]; exact ⟨_, rfl⟩

/-- **finding**: if the scale stays above half of `minScale` even after dividing by the whole chain, `Rescale` panics instead of stopping at
level zero: the loop reads the modulus of index `-1` -/
theorem rescale_panics (o : Order String) {ctIn out : CCt C} {minScale : ℚ} {same : Bool} {level : ℕ} (h : ctIn.ct.AtLevel level)
    (hmin : 0 < minScale) (hs : ctIn.scale ≠ 0) (hl : 0 < level)
    (hbig : ∀ j ≤ level, C.fm.div minScale 2 ≤ scaleAfter C.fm C.q level ctIn.scale (j + 1)) :
    rescale o ctIn minScale out same = .error .indexOutOfRange := by
  unfold rescale
  rw [if_neg (not_le.mpr hmin), if_neg hs, h.level, bind_ok, if_neg (by omega), loop_panic C.fm C.q _ level _ _ hbig, bind_error]

/-- **exactly when it panics**: for valid arguments the outcome is decided by the documentation's count -/
theorem rescale_total (o : Order String) {ctIn out : CCt C} {minScale : ℚ} {same : Bool} (hsame : same = true → out = ctIn) {level lo : ℕ}
    (h : ctIn.ct.AtLevel level) (hout : out.ct.AtLevel lo) (hids : out.ct.ids = ctIn.ct.ids) (hmin : 0 < minScale) (hs : ctIn.scale ≠ 0)
    (hl : 0 < level) (hlo : level ≤ lo) :
    (∃ n, Count C.fm C.q level ctIn.scale minScale n) ↔ ∃ r, rescale o ctIn minScale out same = .ok r := by
  constructor
  · rintro ⟨n, hc⟩
    by_cases hn : 0 < n
    · obtain ⟨ct, e, -⟩ := rescale_run o hsame h hout hids hmin hs hl hn (by omega) hc
      exact ⟨_, e⟩
    · have : n = 0 := by omega
      subst this
      obtain ⟨c, c1, -⟩ := Ct.copyNew_ok o h.has0
      unfold rescale
      rw [if_neg (not_le.mpr hmin), if_neg hs, h.level, bind_ok, if_neg (by omega),
        loop_ok C.fm C.q _ 0 level ctIn.scale 0 hc.le hc.above hc.below, bind_ok, if_neg (by simp), c1]
      cases same
      · exact ⟨_, rfl⟩
      · exact ⟨_, rfl⟩
  · rintro ⟨r, hr⟩
    rcases count_or C.fm C.q level ctIn.scale minScale with hc | hc
    · exact hc
    · rw [rescale_panics o h hmin hs hl hc] at hr; simp at hr

/-! examples -/

theorem ex_div (fm : FloatModel) {a b : ℚ} {lo hi : ℕ} (h1 : (lo : ℚ) ≤ a / b) (h2 : a / b ≤ hi) (h3 : hi ≤ 2 ^ 53) :
    (lo : ℚ) ≤ fm.div a b ∧ fm.div a b ≤ hi := by
  have hlh : lo ≤ hi := by exact_mod_cast h1.trans h2
  have e1 := fm.mono _ _ h1
  have e2 := fm.mono _ _ h2
  rw [fm.exact_nat _ (by omega)] at e1
  rw [fm.exact_nat _ h3] at e2
  exact ⟨e1, e2⟩

theorem ex_prime (fm : FloatModel) (i : ℕ) (hi : i < 3) : fm.ofNat ((Ex.ctx fm).q i) = ((Ex.ctx fm).q i : ℕ) := by
  refine fm.exact_nat _ ?_
  show Ex.exq i ≤ _
  unfold Ex.exq; split_ifs <;> norm_num

/-- a scale of 40000 at level 2 and `minScale = 100`: one prime is divided out -/
theorem exCount (fm : FloatModel) : Count fm (Ex.ctx fm).q 2 40000 100 1 := by
  have e2 : (Ex.ctx fm).q 2 = 257 := rfl
  have e1 : (Ex.ctx fm).q 1 = 193 := rfl
  have t := ex_div fm (a := 100) (b := 2) (lo := 50) (hi := 50) (by norm_num) (by norm_num) (by norm_num)
  have a := ex_div fm (a := 40000) (b := 257) (lo := 155) (hi := 156) (by norm_num) (by norm_num) (by norm_num)
  have p2 := ex_prime fm 2 (by norm_num)
  have p1 := ex_prime fm 1 (by norm_num)
  rw [e2] at p2
  rw [e1] at p1
  have hs1 : scaleAfter fm (Ex.ctx fm).q 2 40000 1 = fm.div 40000 257 := by
    show fm.div 40000 (fm.ofNat ((Ex.ctx fm).q 2)) = _
    rw [e2, p2]; norm_num
  refine ⟨by norm_num, fun j hj => ?_, ?_⟩
  · have : j = 0 := by omega
    subst this
    rw [hs1]
    have h1 := t.2; have h2 := a.1
    push_cast at h1 h2
    linarith
  · show fm.div (scaleAfter fm (Ex.ctx fm).q 2 40000 1) (fm.ofNat ((Ex.ctx fm).q 1)) < _
    rw [hs1, e1, p1]
    have h0 := a.1; have h3 := a.2
    push_cast at h0 h3
    have b := ex_div fm (a := fm.div 40000 257) (b := ((193 : ℕ) : ℚ)) (lo := 0) (hi := 1)
      (by push_cast; apply div_nonneg <;> linarith) (by push_cast; rw [div_le_iff₀ (by norm_num)]; linarith) (by norm_num)
    have h1 := t.1; have h2 := b.2
    push_cast at h1 h2 ⊢
    linarith

/-- a scale of `10^9` at level 2 and `minScale = 1`: above the threshold after the whole chain -/
theorem exPanic (fm : FloatModel) : ∀ j ≤ 2, fm.div 1 2 ≤ scaleAfter fm (Ex.ctx fm).q 2 1000000000 (j + 1) := by
  have t := ex_div fm (a := 1) (b := 2) (lo := 0) (hi := 1) (by norm_num) (by norm_num) (by norm_num)
  have p2 := ex_prime fm 2 (by norm_num)
  have p1 := ex_prime fm 1 (by norm_num)
  have p0 := ex_prime fm 0 (by norm_num)
  rw [show (Ex.ctx fm).q 2 = 257 from rfl] at p2
  rw [show (Ex.ctx fm).q 1 = 193 from rfl] at p1
  rw [show (Ex.ctx fm).q 0 = 97 from rfl] at p0
  have h1 : (1000000 : ℚ) ≤ scaleAfter fm (Ex.ctx fm).q 2 1000000000 1 := by
    show _ ≤ fm.div 1000000000 (fm.ofNat 257)
    rw [p2]
    have := (ex_div fm (a := 1000000000) (b := ((257 : ℕ) : ℚ)) (lo := 1000000) (hi := 1000000000) (by norm_num) (by norm_num) (by norm_num)).1
    push_cast at this ⊢; exact this
  have h1' : scaleAfter fm (Ex.ctx fm).q 2 1000000000 1 ≤ 1000000000 := by
    show fm.div 1000000000 (fm.ofNat 257) ≤ _
    rw [p2]
    have := (ex_div fm (a := 1000000000) (b := ((257 : ℕ) : ℚ)) (lo := 1000000) (hi := 1000000000) (by norm_num) (by norm_num) (by norm_num)).2
    push_cast at this ⊢; exact this
  have b := ex_div fm (a := scaleAfter fm (Ex.ctx fm).q 2 1000000000 1) (b := ((193 : ℕ) : ℚ)) (lo := 1000) (hi := 1000000000)
    (by push_cast; rw [le_div_iff₀ (by norm_num)]; linarith) (by push_cast; rw [div_le_iff₀ (by norm_num)]; linarith) (by norm_num)
  have h2 : scaleAfter fm (Ex.ctx fm).q 2 1000000000 2 = fm.div (scaleAfter fm (Ex.ctx fm).q 2 1000000000 1) ((193 : ℕ) : ℚ) := by
    show fm.div _ (fm.ofNat 193) = _
    rw [p1]
  rw [← h2] at b
  have c := ex_div fm (a := scaleAfter fm (Ex.ctx fm).q 2 1000000000 2) (b := ((97 : ℕ) : ℚ)) (lo := 2) (hi := 1000000000)
    (by have := b.1; push_cast at this ⊢; rw [le_div_iff₀ (by norm_num)]; linarith)
    (by have := b.2; push_cast at this ⊢; rw [div_le_iff₀ (by norm_num)]; linarith) (by norm_num)
  have h3 : scaleAfter fm (Ex.ctx fm).q 2 1000000000 3 = fm.div (scaleAfter fm (Ex.ctx fm).q 2 1000000000 2) ((97 : ℕ) : ℚ) := by
    show fm.div _ (fm.ofNat 97) = _
    rw [p0]
  rw [← h3] at c
  have t2 := t.2; have b1 := b.1; have c1 := c.1
  push_cast at t2 b1 c1
  intro j hj
  interval_cases j
  · show _ ≤ scaleAfter fm (Ex.ctx fm).q 2 1000000000 1; linarith
  · show _ ≤ scaleAfter fm (Ex.ctx fm).q 2 1000000000 2; linarith
  · show _ ≤ scaleAfter fm (Ex.ctx fm).q 2 1000000000 3; linarith

end C27

namespace C28

/-- **partial**: when at least one prime is divided out, `RescaleNew` returns the rescaled ciphertext -/
theorem rescaleNew_phase_partial (V : C.Valid) (o : Sched String) {ct : CCt C} {thr : ℚ} {level n : ℕ} (hlev : level < C.nQ)
    (h : ct.ct.AtLevel level) (hmin : 0 < thr) (hs : ct.scale ≠ 0) (hl : 0 < level) (hn : 0 < n)
    (hcount : C27.Count C.fm C.q level ct.scale thr n) :
    ∃ r, rescaleNew o ct thr = .ok (none, r) ∧ r.ct.AtLevel (level - n) ∧ r.ct.ids = ct.ct.ids ∧
      r.scale = C27.scaleAfter C.fm C.q level ct.scale n ∧
      ∀ (s : String → Nega N ℤ) (B : ℤ), (∀ id, Bdd (s id) B) → ∃ E : Nega N ℤ,
        (∀ t, 2 * |E t| ≤ (C27.dropped C.q level n - 1) * (1 + ct.ct.ids.card * N * B)) ∧
        (∀ i ≤ level - n, ct.ct.phase s i = (C27.dropped C.q level n : Nega N (ZMod (C.q i))) * r.ct.phase s i + red (C.q i) E) ∧
        ∀ i, level - n < i → i ≤ level → ct.ct.phase s i = red (C.q i) E := by
  obtain ⟨ids, a1, a2⟩ := Ct.idset (o 85) ct.ct
  unfold rescaleNew
  rw [a1, bind_ok, h.level, bind_ok]
  exact C27.rescale_phase V (o 86) (same := false) (by simp) hlev h (Ct.new_atLevel (o 87) ids level)
    (Ct.new_ids (o 87) a2 ct.ct.zero_notMem_ids level) hmin hs hl hn (by omega) hcount

/-- **finding**: when no prime is divided out, `RescaleNew` returns, without an error, a ciphertext all of whose components are zero,
whatever the input -/
theorem rescaleNew_zero (o : Sched String) {ct : CCt C} {thr : ℚ} {level : ℕ} (h : ct.ct.AtLevel level) (hmin : 0 < thr)
    (hs : ct.scale ≠ 0) (hl : 0 < level) (hcount : C27.Count C.fm C.q level ct.scale thr 0) :
    ∃ r, rescaleNew o ct thr = .ok (none, r) ∧ ∀ (s : String → Nega N ℤ) (i : ℕ), r.ct.phase s i = 0 := by
  obtain ⟨ids, a1, a2⟩ := Ct.idset (o 85) ct.ct
  obtain ⟨c, c1, -⟩ := Ct.copyNew_ok (o 86) h.has0
  unfold rescaleNew
  rw [a1, bind_ok, h.level, bind_ok]
  unfold rescale
  rw [if_neg (not_le.mpr hmin), if_neg hs, h.level, bind_ok, if_neg (by omega),
    C27.loop_ok C.fm C.q _ 0 level ct.scale 0 hcount.le hcount.above hcount.below, bind_ok, if_neg (by simp), c1]
  refine ⟨_, rfl, fun s i => ?_⟩
  have hz : ∀ id, (Ct.new (o 87) ids level : Ct C).comp id i = Limb.zero := by
    intro id
    unfold Ct.comp
    rw [Ct.new_lookup]
    split_ifs
    · rfl
    · rfl
  unfold Ct.phase
  dsimp only
  rw [hz, cf_zero, zero_add]
  exact sum_eq_zero fun id _ => by rw [hz, cf_zero, zero_mul]

/-- hence the property fails for a concrete ciphertext of two parties with scale `1`: its phase under the zero keys is not zero, that of the
result is -/
theorem rescaleNew_not_copy (fm : FloatModel) (o : Sched String) : ∃ r, rescaleNew o ⟨Ex.ctAB fm 3 5, 1⟩ 2 = .ok (none, r) ∧
    r.ct.phase (fun _ => 0) 0 ≠ (Ex.ctAB fm 3 5).phase (fun _ => 0) 0 := by
  have t := C27.ex_div fm (a := 2) (b := 2) (lo := 1) (hi := 1) (by norm_num) (by norm_num) (by norm_num)
  have p2 := C27.ex_prime fm 2 (by norm_num)
  rw [show (Ex.ctx fm).q 2 = 257 from rfl] at p2
  have hc : C27.Count fm (Ex.ctx fm).q 2 1 2 0 := by
    refine ⟨by norm_num, by simp, ?_⟩
    show fm.div 1 (fm.ofNat 257) < _
    rw [p2]
    have h1 := t.1
    push_cast at h1
    refine lt_of_lt_of_le ?_ h1
    unfold FloatModel.div
    have := fm.rnd_le (x := 1 / ((257 : ℕ) : ℚ)) (by positivity)
    refine lt_of_le_of_lt this ?_
    unfold unitRoundoff; norm_num
  obtain ⟨r, r1, r2⟩ := rescaleNew_zero (C := Ex.ctx fm) o (ct := ⟨Ex.ctAB fm 3 5, 1⟩) (thr := 2) (Ex.ctAB_at fm 2 5) (by norm_num)
    (by norm_num) (by norm_num) hc
  refine ⟨r, r1, fun he => ?_⟩
  rw [r2] at he
  have h0 := congrFun he 0
  have hcomp : (Ex.ctAB fm 3 5).comp "0" 0 = Ex.row 97 5 := by
    unfold Ct.comp
    rw [Ex.ctAB_lookup]; rfl
  have : (Ex.ctAB fm 3 5).phase (fun _ => 0) 0 = cf (Ex.row 97 5) := by
    unfold Ct.phase; rw [hcomp]; simp; rfl
  rw [this] at h0
  change (0 : ZMod 97) = ((min (5 * 0 + 5) 97 : ℕ) : ZMod 97) at h0
  exact absurd h0 (by decide)

end C28

namespace C50

/-- the rows of the product of a component by a plaintext -/
def ptOut (pt : Poly C) (a : String → QRows C) (id : String) : QRows C := fun i =>
  (C.RQ i).intt ((C.RQ i).mulMont ((C.RQ i).ntt (a id i)) ((C.RQ i).mform ((C.RQ i).ntt (pt.rows i))))

theorem mulPtxtRaw_made (o : Sched String) (E : Eval C) {ct : CCt C} {pt : Poly C} (sc : ℚ) {level : ℕ} (h : ct.ct.AtLevel level)
    (hpt : level < pt.len) : ∃ r E', mulPtxtRaw o E ct pt sc = .ok (r, E') ∧ r.scale = C.fm.mul ct.scale sc ∧
      r.ct.Made level ct.ct.ids (ptOut pt ct.ct.comp) := by
  obtain ⟨ids, a1, a2⟩ := Ct.idset (o 100) ct.ct
  unfold mulPtxtRaw
  rw [a1, bind_ok, h.level, bind_ok]
  dsimp only
  rw [Poly.need_ok hpt, bind_ok]
  set pq : QRows C := setQ level (fun i => (C.RQ i).mform (setQ level (fun i => (C.RQ i).ntt (pt.rows i)) E.polyQ i))
    (setQ level (fun i => (C.RQ i).ntt (pt.rows i)) E.polyQ) with hpq
  have hpqi : ∀ i ≤ level, pq i = (C.RQ i).mform ((C.RQ i).ntt (pt.rows i)) := fun i hi => by
    rw [hpq, setQ_le _ _ hi, setQ_le _ _ hi]
  set out : Ct C := Ct.new (o 101) ids level with hout
  have hat : out.AtLevel level := Ct.new_atLevel _ _ _
  have hids : out.ids = ct.ct.ids := Ct.new_ids _ a2 ct.ct.zero_notMem_ids _
  have hmem : ∀ id, id ∈ out ↔ id ∈ ct.ct := fun id => by
    by_cases e : id = "0"
    · subst e; exact ⟨fun _ => h.has0, fun _ => hat.has0⟩
    · have := congrArg (id ∈ ·) hids
      simp only [Ct.mem_ids, eq_iff_iff] at this
      tauto
  obtain ⟨R0, hR0⟩ := Ct.Upd.refl level out
  obtain ⟨out', e1, R, e2, e3⟩ := Go.loop_inv (fun (out : Ct C) id => do
      let a ← ct.ct.deref id
      a.need level
      let out ← out.upd level id fun _ i => (C.RQ i).ntt (a.rows i)
      let out ← out.upd level id fun old i => (C.RQ i).mulMont (old i) (pq i)
      out.upd level id fun old i => (C.RQ i).intt (old i))
    (fun pre c => ∃ R, Ct.Upd level out R c ∧ ∀ id ∈ pre, ∀ i ≤ level, R id i = ptOut pt ct.ct.comp id i) (GoMap.range (o 102) ct.ct) out
    ⟨R0, hR0, by simp⟩ (by
      rintro pre id suf c hl ⟨R, i1, i2⟩
      have hid : id ∈ ct.ct := by rw [← GoMap.mem_range (o := o 102), hl]; simp
      obtain ⟨a, ha⟩ := Ct.get hid
      obtain ⟨p, hp⟩ := Ct.get ((hmem id).mpr hid)
      have hlen : level < p.len := hat.toCoeff.len _ _ hp
      rw [GoMap.deref_ok ha, bind_ok, Poly.need_ok (by rw [h.len _ _ ha]; omega), bind_ok]
      obtain ⟨c1, u1, u2⟩ := i1.upd hp hlen (fun i _ => (C.RQ i).ntt (a.rows i))
      obtain ⟨c2, v1, v2⟩ := u2.upd hp hlen (fun i old => (C.RQ i).mulMont old (pq i))
      obtain ⟨c3, w1, w2⟩ := v2.upd hp hlen (fun i old => (C.RQ i).intt old)
      rw [u1, bind_ok, v1, bind_ok, w1]
      refine ⟨c3, rfl, _, w2, fun id' hid' i hi => ?_⟩
      by_cases e : id' = id
      · subst e
        rw [Function.update_self, Function.update_self, Function.update_self]
        unfold ptOut
        rw [hpqi i hi, h.toCoeff.comp ha]
      · rw [Function.update_of_ne e, Function.update_of_ne e, Function.update_of_ne e]
        exact i2 id' (by simpa [e] using hid') i hi)
  rw [e1, bind_ok]
  refine ⟨_, _, rfl, rfl, Ct.Made.of_upd (Ct.new_is (o 101) a2 level) (e2.congr fun id hid i hi => ?_)⟩
  exact e3 id (GoMap.mem_range.mpr ((hmem id).mp hid)) i hi

theorem ptOut_cf (pt : Poly C) (a : String → QRows C) (id : String) (i : ℕ) :
    cf (ptOut pt a id i) = cf (pt.rows i) * cf (a id i) := by
  unfold ptOut
  rw [LimbOps.cf_intt, LimbOps.ev_mulMont, LimbOps.ev_ntt, LimbOps.ev_mform, LimbOps.ev_ntt]
  rw [mul_assoc, mul_assoc, LimbOps.mul_rinv, mul_one, mul_comm]

/-- **MulPtxtNew before rescaling**: for every ciphertext, coefficient-domain plaintext with rows up to its level, pool contents and orders, the
result has the same level and ids, the product of the scales, and its phase is the phase times the plaintext modulo every prime. -/
theorem mulPtxtRaw_phase (o : Sched String) (E : Eval C) {ct : CCt C} {pt : Poly C} (sc : ℚ) {level : ℕ} (h : ct.ct.AtLevel level)
    (hpt : level < pt.len) : ∃ r E', mulPtxtRaw o E ct pt sc = .ok (r, E') ∧ r.scale = C.fm.mul ct.scale sc ∧ r.ct.AtLevel level ∧
      r.ct.ids = ct.ct.ids ∧ ∀ (s : String → Nega N ℤ) (i : ℕ), i ≤ level → r.ct.phase s i = cf (pt.rows i) * ct.ct.phase s i := by
  obtain ⟨r, E', e1, e2, e3⟩ := mulPtxtRaw_made o E sc h hpt
  have hz := ct.ct.zero_notMem_ids
  refine ⟨r, E', e1, e2, e3.atLevel, e3.ids hz, fun s i hi => ?_⟩
  rw [e3.phase hz s hi]
  exact phaseRows_mul _ s _ fun id _ => ptOut_cf pt ct.ct.comp id i

/-- **MulPtxtNew**: with the final rescaling by `n ≥ 1` primes -/
theorem mulPtxtNew_phase (V : C.Valid) (pscale : ℚ) (o : Sched String) (E : Eval C) {ct : CCt C} {pt : Poly C} (sc : ℚ) {level n : ℕ}
    (hlev : level < C.nQ) (h : ct.ct.AtLevel level) (hpt : level < pt.len) (hp : 0 < pscale) (hs : C.fm.mul ct.scale sc ≠ 0)
    (hl : 0 < level) (hn : 0 < n) (hcount : C27.Count C.fm C.q level (C.fm.mul ct.scale sc) pscale n) :
    ∃ r E', mulPtxtNew pscale o E ct pt sc = .ok (r, E') ∧ r.ct.AtLevel (level - n) ∧ r.ct.ids = ct.ct.ids ∧
      r.scale = C27.scaleAfter C.fm C.q level (C.fm.mul ct.scale sc) n ∧
      ∀ (s : String → Nega N ℤ) (B : ℤ), (∀ id, Bdd (s id) B) → ∃ Er : Nega N ℤ,
        (∀ t, 2 * |Er t| ≤ (C27.dropped C.q level n - 1) * (1 + ct.ct.ids.card * N * B)) ∧
        (∀ i ≤ level - n, cf (pt.rows i) * ct.ct.phase s i =
          (C27.dropped C.q level n : Nega N (ZMod (C.q i))) * r.ct.phase s i + red (C.q i) Er) ∧
        ∀ i, level - n < i → i ≤ level → cf (pt.rows i) * ct.ct.phase s i = red (C.q i) Er := by
  obtain ⟨w, E', e1, e2, e3, e4, e5⟩ := mulPtxtRaw_phase o E sc h hpt
  rw [← e2] at hcount hs
  obtain ⟨r, f1, f2, f3, f4, f5⟩ := C27.rescale_phase V (o 103) (ctIn := w) (out := w) (same := true) (fun _ => rfl) hlev e3 e3 rfl hp hs hl hn
    (by omega) hcount
  unfold mulPtxtNew
  rw [e1, bind_ok, f1, bind_ok]
  refine ⟨r, E', rfl, f2, f3.trans e4, by rw [f4, e2], fun s B hB => ?_⟩
  obtain ⟨Er, g1, g2⟩ := f5 s B hB
  rw [e4] at g1
  exact ⟨Er, g1, fun i hi => by rw [← e5 s i (by omega)]; exact g2.1 i hi, fun i h1 h2 => by rw [← e5 s i h2]; exact g2.2 i h1 h2⟩

/-- the hypotheses are met -/
example (fm : FloatModel) : (Ex.ctAB fm 3 5).AtLevel 2 ∧ 2 < (Ex.poly fm 3 7).len ∧ C27.Count fm (Ex.ctx fm).q 2 40000 100 1 :=
  ⟨Ex.ctAB_at fm 2 5, by show 2 < 3; norm_num, C27.exCount fm⟩

end C50

namespace C24

/-- `MulPtxtNew` (before rescaling) depends neither on the pools nor on the orders -/
theorem mulPtxt_deterministic (o o' : Sched String) (E E' : Eval C) {ct : CCt C} {pt : Poly C} (sc : ℚ) {level : ℕ} (h : ct.ct.AtLevel level)
    (hpt : level < pt.len) : ∃ a E1 b E2, mulPtxtRaw o E ct pt sc = .ok (a, E1) ∧ mulPtxtRaw o' E' ct pt sc = .ok (b, E2) ∧
      a.ct.Same b.ct ∧ a.scale = b.scale := by
  obtain ⟨a, E1, a1, a2, a3⟩ := C50.mulPtxtRaw_made o E sc h hpt
  obtain ⟨b, E2, b1, b2, b3⟩ := C50.mulPtxtRaw_made o' E' sc h hpt
  exact ⟨a, E1, b, E2, a1, b1, a3.same b3 fun _ _ _ _ => rfl, a2.trans b2.symm⟩

end C24
end MKHE
