import Verif.Props.BfvSem

set_option autoImplicit false

/-!
# A concrete BFV parameter set, keys and ciphertexts

`N = 16`; two primes of Q and two of QMul of 21 bits, four special primes of 25 bits, `gamma = 2` as in mkbfv/params.go: so `alpha = 2`, one
block in Q and one in QMul; `T = 7`. The noise bound of a product of sums of fresh encryptions is below `Q/2`, so that the hypotheses of
`C58.circuit_decrypt` are met by a program with multiplications.
-/

namespace MKHE
open Finset Nega
variable {N : ℕ} [NeZero N] {C : Ctx N}

/-- a key that satisfies the key equation for any gadget vector, with prescribed errors -/
noncomputable def mkKeyG (C : Ctx N) (sec : Nega N ℤ) (a : ℕ → PolyQP C) (G : ℕ → ℕ) (m : Nega N ℤ) (e : ℕ → Nega N ℤ) (k : ℕ) : PolyQP C :=
  ⟨fun i => (C.RQ i).ofEv ((- red (C.q i) sec * (C.RQ i).mv ((a k).Q i) + (G k : Nega N (ZMod (C.q i))) * red (C.q i) m + red (C.q i) (e k)) *
      Mont N (C.q i)),
   fun j => (C.RP j).ofEv ((- red (C.p j) sec * (C.RP j).mv ((a k).P j) + (G k : Nega N (ZMod (C.p j))) * red (C.p j) m + red (C.p j) (e k)) *
      Mont N (C.p j))⟩

theorem mkKeyG_eq (n : ℕ) (sec : Nega N ℤ) (a : ℕ → PolyQP C) (G : ℕ → ℕ) (m : Nega N ℤ) (e : ℕ → Nega N ℤ) :
    KeyEqG C n sec a G m e (mkKeyG C sec a G m e) := by
  refine fun k hk => ⟨fun i _ => ?_, fun j _ => ?_⟩
  · unfold mkKeyG LimbOps.mv; dsimp only; rw [LimbOps.ev_ofEv, mul_assoc (_ + _), LimbOps.mul_rinv, mul_one]
  · unfold mkKeyG LimbOps.mv; dsimp only; rw [LimbOps.ev_ofEv, mul_assoc (_ + _), LimbOps.mul_rinv, mul_one]

/-- every message has an encoding: `Φ = floor(Q*m/T)` -/
theorem C58.encodes_exists {B : BCtx N} (ht : 0 < B.t) (m : Nega N ℤ) : ∃ pt : Poly B.C, C58.Encodes B pt m B.t := by
  obtain ⟨Φ, hΦ⟩ : ∃ Φ : Nega N ℤ, ∀ x, Φ x = B.Q * m x / B.t := ⟨fun x => B.Q * m x / B.t, fun _ => rfl⟩
  obtain ⟨b, hb⟩ : ∃ b : Nega N ℤ, ∀ x, b x = -(B.Q * m x % B.t) := ⟨fun x => -(B.Q * m x % B.t), fun _ => rfl⟩
  have ht' : (0 : ℤ) < B.t := by exact_mod_cast ht
  refine ⟨⟨B.C.nQ, false, fun i => (B.C.RQ i).ofCf (red (B.C.q i) Φ)⟩, rfl, Φ, b, fun x => ?_, Nega.ext fun x => ?_, fun i _ => ?_⟩
  · rw [hb, abs_neg, abs_of_nonneg (Int.emod_nonneg _ ht'.ne')]
    exact (Int.emod_lt_of_pos _ ht').le
  · rw [natCast_mul_apply, Nega.add_apply, natCast_mul_apply, hΦ, hb]
    have := Int.emod_add_mul_ediv (B.Q * m x) B.t
    linarith
  · rw [Poly.coeffs_eq rfl]; exact (B.C.RQ i).cf_ofCf _

end MKHE

namespace MKHE.BEx
open MKHE Finset Nega Ex

/-- the primes of Q -/
def bq (i : ℕ) : ℕ := if i = 0 then 1048609 else 1048897
/-- the primes of QMul -/
def bm (i : ℕ) : ℕ := if i = 0 then 1049057 else 1049089
/-- the special primes -/
def bp (j : ℕ) : ℕ := if j = 0 then 16777441 else if j = 1 then 16777601 else if j = 2 then 16777633 else 16777729

/-- the operations modulo `bq i` -/
noncomputable def RQ (i : ℕ) : LimbOps 16 (bq i) :=
  if h0 : i = 0 then
    have e : bq i = 1048609 := by simp [bq, h0]
    e ▸ ops 1048609 (by norm_num) (by decide) (by norm_num) 415330 (by decide)
  else
    have e : bq i = 1048897 := by simp [bq, h0]
    e ▸ ops 1048897 (by norm_num) (by decide) (by norm_num) 642751 (by decide)

/-- the operations modulo `bm i` -/
noncomputable def RM (i : ℕ) : LimbOps 16 (bm i) :=
  if h0 : i = 0 then
    have e : bm i = 1049057 := by simp [bm, h0]
    e ▸ ops 1049057 (by norm_num) (by decide) (by norm_num) 32273 (by decide)
  else
    have e : bm i = 1049089 := by simp [bm, h0]
    e ▸ ops 1049089 (by norm_num) (by decide) (by norm_num) 263354 (by decide)

/-- the operations modulo `bp j` -/
noncomputable def RP (j : ℕ) : LimbOps 16 (bp j) :=
  if h0 : j = 0 then
    have e : bp j = 16777441 := by simp [bp, h0]
    e ▸ ops 16777441 (by norm_num) (by decide) (by norm_num) 3595801 (by decide)
  else if h1 : j = 1 then
    have e : bp j = 16777601 := by simp [bp, h1]
    e ▸ ops 16777601 (by norm_num) (by decide) (by norm_num) 9562084 (by decide)
  else if h2 : j = 2 then
    have e : bp j = 16777633 := by simp [bp, h2]
    e ▸ ops 16777633 (by norm_num) (by decide) (by norm_num) 13102571 (by decide)
  else
    have e : bp j = 16777729 := by simp [bp, h0, h1, h2]
    e ▸ ops 16777729 (by norm_num) (by decide) (by norm_num) 10612277 (by decide)

variable (fm : FloatModel)

/-- the QP parameters -/
noncomputable def qp : Ctx 16 where
  fm := fm
  nQ := 2
  nP := 4
  gamma := 2
  logN := 4
  q := bq
  p := bp
  RQ := RQ
  RP := RP

/-- the BFV parameters -/
noncomputable abbrev bctx : BCtx 16 where
  C := qp fm
  m := bm
  RM := RM
  t := 7

theorem valid_qp : (qp fm).Valid where
  pair :=
    { primeQ := fun i hi => by change i < 2 at hi; interval_cases i <;> norm_num [qp, bq]
      oddQ := fun i hi => by change i < 2 at hi; interval_cases i <;> simp [qp, bq] <;> decide
      lt61Q := fun i hi => by change i < 2 at hi; interval_cases i <;> norm_num [qp, bq]
      primeP := fun i hi => by change i < 4 at hi; interval_cases i <;> norm_num [qp, bp]
      oddP := fun i hi => by change i < 4 at hi; interval_cases i <;> simp [qp, bp] <;> decide
      lt61P := fun i hi => by change i < 4 at hi; interval_cases i <;> norm_num [qp, bp]
      distinctQ := fun i hi k hk h => by
        change i < 2 at hi; change k < 2 at hk; interval_cases i <;> interval_cases k <;> simp [qp, bq] at h ⊢
      distinctP := fun i hi k hk h => by
        change i < 4 at hi; change k < 4 at hk; interval_cases i <;> interval_cases k <;> simp [qp, bp] at h ⊢
      disjoint := fun i hi k hk => by
        change i < 2 at hi; change k < 4 at hk; interval_cases i <;> interval_cases k <;> simp [qp, bq, bp] }
  g1 := by show 1 ≤ 2; norm_num
  gle := by show 2 ≤ 4; norm_num
  gdiv := .inl (by show 2 ∣ 4; norm_num)
  q1 := by show 1 ≤ 2; norm_num
  nQ53 := by show 2 < _; norm_num
  le32 := by show 4 ≤ 32; norm_num
  sumP := by
    show ∑ j ∈ range 4, bp j ≤ W64
    simp [sum_range_succ, bp, W64]
  sumQ := fun s n hn _ => by
    change n ≤ 4 / 2 at hn
    have h : ∀ k, bq k ≤ 1048897 := fun k => by unfold bq; split_ifs <;> norm_num
    calc ∑ k ∈ range n, bq (s + k) ≤ ∑ _k ∈ range n, 1048897 := sum_le_sum fun k _ => h _
      _ = n * 1048897 := by simp
      _ ≤ W64 := by norm_num [W64]; omega
  hN := rfl
  log1 := by show 1 ≤ 4; norm_num
  log31 := by show 4 ≤ 31; norm_num

theorem r_eq (i : ℕ) : (bctx fm).r i = if i < 2 then bq i else bm (i - 2) := rfl

theorem valid : (bctx fm).Valid where
  qp := valid_qp fm
  rp :=
    { primeQ := fun i hi => by change i < 4 at hi; interval_cases i <;> norm_num [r_eq, bq, bm]
      oddQ := fun i hi => by change i < 4 at hi; interval_cases i <;> simp [r_eq, bq, bm] <;> decide
      lt61Q := fun i hi => by change i < 4 at hi; interval_cases i <;> norm_num [r_eq, bq, bm]
      primeP := (valid_qp fm).pair.primeP
      oddP := (valid_qp fm).pair.oddP
      lt61P := (valid_qp fm).pair.lt61P
      distinctQ := fun i hi k hk h => by
        change i < 4 at hi; change k < 4 at hk; interval_cases i <;> interval_cases k <;> simp [r_eq, bq, bm] at h ⊢
      distinctP := (valid_qp fm).pair.distinctP
      disjoint := fun i hi k hk => by
        change i < 4 at hi; change k < 4 at hk
        change (bctx fm).r i ≠ bp k
        interval_cases i <;> interval_cases k <;> simp [r_eq, bq, bm, bp] }
  div := by show 4 / 2 ∣ 2; norm_num
  nQ52 := by show 2 * 2 < _; norm_num
  nQ32 := by show 2 ≤ 32; norm_num
  sumQ := by show ∑ i ∈ range 2, bq i ≤ W64; simp [sum_range_succ, bq, W64]
  sumM := by show ∑ i ∈ range 2, bm i ≤ W64; simp [sum_range_succ, bm, W64]
  sumR := fun k _ => by
    have h : ∀ k, (bctx fm).r k ≤ 1049089 := fun k => by rw [r_eq]; unfold bq bm; split_ifs <;> norm_num
    calc ∑ i ∈ range ((bctx fm).C.alpha), (bctx fm).r (k * (bctx fm).C.alpha + i) ≤ ∑ _i ∈ range (4 / 2), 1049089 := sum_le_sum fun k _ => h _
      _ = 2 * 1049089 := by simp
      _ ≤ W64 := by norm_num [W64]

theorem bt_one : (bctx fm).bt = 1 := by
  unfold BCtx.bt
  rw [(valid fm).qp.beta_eq (valid fm).top_lt]
  show (2 - 1) / (4 / 2) + 1 = 1
  norm_num

/-! ## keys -/

/-- a common reference string -/
noncomputable def crsv (n : ℕ) (k : ℕ) : PolyQP (qp fm) := ⟨fun _ => row _ (n + k), fun _ => row _ (n + 3 * k)⟩

/-- the CRS map -/
noncomputable def crs : GoMap ℤ (Swk (qp fm)) :=
  AList.insert (-3) ⟨1, crsv fm 21⟩ (AList.insert (-2) ⟨1, crsv fm 9⟩ (AList.insert 4 ⟨1, crsv fm 17⟩ (AList.insert 2 ⟨1, crsv fm 13⟩
    (AList.insert 1 ⟨1, crsv fm 11⟩ (AList.insert (-1) ⟨1, crsv fm 7⟩ (AList.insert 0 ⟨1, crsv fm 5⟩ ∅))))))

theorem crs_lookup (n : ℤ) : (crs fm).lookup n = if n = -3 then some ⟨1, crsv fm 21⟩ else if n = -2 then some ⟨1, crsv fm 9⟩ else
    if n = 4 then some ⟨1, crsv fm 17⟩ else if n = 2 then some ⟨1, crsv fm 13⟩ else if n = 1 then some ⟨1, crsv fm 11⟩ else
    if n = -1 then some ⟨1, crsv fm 7⟩ else if n = 0 then some ⟨1, crsv fm 5⟩ else none := by
  unfold crs; simp only [GoMap.lookup_insert']; rfl

/-- the vector `a` of R: the CRS of index 0 followed by that of index -3 -/
noncomputable def avec : ℕ → PolyQP (qp fm) := comb 1 (crsv fm 5) (crsv fm 21)

/-- a relinearization key -/
noncomputable def rlk (id : String) : BRlk (qp fm) :=
  ⟨id, ⟨id, ⟨1, mkKeyG _ (sec id) (avec fm) (fun _ => 0) 0 err⟩, ⟨1, mkKeyG _ (sec' id) (avec fm) (bctx fm).gadB (sec id) err⟩,
      ⟨1, mkKey _ (sec id) (crsv fm 7) (- sec' id) err⟩⟩,
    ⟨id, ⟨1, fun k => mkKeyG _ (sec id) (avec fm) (fun _ => 0) 0 err (k + 1)⟩,
      ⟨1, fun k => mkKeyG _ (sec' id) (avec fm) (bctx fm).gadB (sec id) err (k + 1)⟩, ⟨1, fun _ => PolyQP.zero⟩⟩⟩

theorem comb_shift {α : Type*} (f : ℕ → α) : comb 1 f (fun k => f (k + 1)) = f := by
  funext k
  unfold comb
  by_cases h : k < 1
  · rw [if_pos h]
  · rw [if_neg h]
    show f (k - 1 + 1) = f k
    rw [Nat.sub_add_cancel (by omega)]

theorem rlk_rel (id : String) : BRlk.Rel (B := bctx fm) (rlk fm id) (sec id) (sec' id) (avec fm) (crsv fm 7) (bctx fm).gadB 2 := by
  have h1 := bt_one fm
  refine ⟨h1.le, h1.le, h1.le, h1.le, h1.le, ?_, ?_, ?_⟩
  · rw [h1]
    have := (mkKeyG_eq (C := qp fm) 2 (sec id) (avec fm) (fun _ => 0) 0 err).rel (Be := 2) fun k _ => err_bdd k
    have e : comb 1 (rlk fm id).k1.b.val (rlk fm id).k2.b.val = mkKeyG (qp fm) (sec id) (avec fm) (fun _ => 0) 0 err := comb_shift _
    rw [e]
    simpa using this
  · rw [h1]
    have := (mkKeyG_eq (C := qp fm) 2 (sec' id) (avec fm) (bctx fm).gadB (sec id) err).rel (Be := 2) fun k _ => err_bdd k
    have e : comb 1 (rlk fm id).k1.d.val (rlk fm id).k2.d.val = mkKeyG (qp fm) (sec' id) (avec fm) (bctx fm).gadB (sec id) err := comb_shift _
    rw [e]
    exact this
  · rw [h1]; exact mkKey_rel _ _ _ _ _ _ fun k _ => err_bdd k

/-- an entry of the pools -/
def pool0 : PolyR 16 := ⟨fun _ _ => 5, fun _ _ => 6⟩

/-- the history that builds the relinearization key set -/
noncomputable def rlkHist : List (C04.Op (BRlk (qp fm)) String) := [.add (rlk fm "a"), .add (rlk fm "b")]

/-- the relinearization keys of both parties -/
noncomputable def rlks : BRlkMap (bctx fm) := C04.runBfvRlk (fun k : BRlk (qp fm) => k.id) pool0 ⟨1, fun _ => PolyQP.zero⟩ (rlkHist fm)

theorem rlks_lookup (id : String) (h : id = "a" ∨ id = "b") : (rlks fm).value.lookup id = some (rlk fm id) := by
  have : (rlks fm).value = AList.insert "b" (rlk fm "b") (AList.insert "a" (rlk fm "a") ∅) := rfl
  rw [this, GoMap.lookup_insert', GoMap.lookup_insert']
  rcases h with h | h <;> subst h <;> simp

/-- a rotation key -/
noncomputable def rotKey (r : ℕ) (n : ℕ) (id : String) : GalKey (qp fm) :=
  ⟨id, r, ⟨1, mkKey _ (galois (galElInv 16 (galElCol 16 r)) (sec id)) (crsv fm n) (sec id) err⟩⟩

/-- the default rotation keys of a party for `N = 16` -/
noncomputable def rksOf (id : String) : GoMap ℕ (GalKey (qp fm)) :=
  AList.insert 4 (rotKey fm 4 17 id) (AList.insert 2 (rotKey fm 2 13 id) (AList.insert 1 (rotKey fm 1 11 id) ∅))

/-- the rotation keys of both parties -/
noncomputable def rks : RotKeySet (GalKey (qp fm)) := ⟨AList.insert "a" (rksOf fm "a") (AList.insert "b" (rksOf fm "b") ∅)⟩

theorem rks_get (id : String) (h : id = "a" ∨ id = "b") : (rks fm).get id 1 = .ok (rotKey fm 1 11 id) ∧
    (rks fm).get id 2 = .ok (rotKey fm 2 13 id) ∧ (rks fm).get id 4 = .ok (rotKey fm 4 17 id) := by
  unfold rks rksOf RotKeySet.get
  rcases h with h | h <;> subst h <;> simp only [GoMap.lookup_insert'] <;> exact ⟨rfl, rfl, rfl⟩

/-- the parties -/
def parties : Finset String := {"a", "b"}

theorem party {id : String} (h : id ∈ parties) : id = "a" ∨ id = "b" := by simpa [parties] using h

theorem beta_one : (bctx fm).C.beta (bctx fm).top = 1 := bt_one fm

theorem rotKeys {r n : ℕ} (h : r = 1 ∧ n = 11 ∨ r = 2 ∧ n = 13 ∨ r = 4 ∧ n = 17) :
    C33.Keys (C := (bctx fm).C) (crs fm) (bctx fm).top parties r (rks fm) sec 1 2 where
  key := by
    refine ⟨⟨1, crsv fm n⟩, ?_, by rw [beta_one], fun id hid => ⟨rotKey fm r n id, ?_, by rw [beta_one]; exact le_rfl, ?_⟩⟩
    · rw [crs_lookup]
      rcases h with ⟨rfl, rfl⟩ | ⟨rfl, rfl⟩ | ⟨rfl, rfl⟩ <;> rfl
    · have := rks_get fm id (party hid)
      rcases h with ⟨rfl, rfl⟩ | ⟨rfl, rfl⟩ | ⟨rfl, rfl⟩
      · exact this.1
      · exact this.2.1
      · exact this.2.2
    · exact mkKey_rel _ _ _ _ _ _ fun k _ => err_bdd k
  s := fun id _ => sec_bdd id

/-- conjugation keys of both parties -/
noncomputable def cks : KeySet (GalKey (qp fm)) :=
  ⟨AList.insert "a" ⟨"a", 0, ⟨1, mkKey _ (sec "a") (crsv fm 9) (galois (2 * 16 - 1) (sec "a")) err⟩⟩
    (AList.insert "b" ⟨"b", 0, ⟨1, mkKey _ (sec "b") (crsv fm 9) (galois (2 * 16 - 1) (sec "b")) err⟩⟩ ∅)⟩

/-- everything the evaluator gets -/
noncomputable def keyring : C58.Keyring (bctx fm) := ⟨crs fm, rlks fm, rks fm, cks fm⟩

theorem rlkKeys : C45.Keys (crs fm) parties (rlks fm) sec sec' (avec fm) 1 1 2 where
  u := ⟨⟨1, crsv fm 7⟩, (bctx fm).gadB, (bctx fm).crt, (bctx fm).rho, by rw [crs_lookup]; rfl, (bt_one fm).le, C44.gadget (valid fm),
    fun id hid => ⟨rlk fm id, rlks_lookup fm id (party hid), rlk_rel fm id⟩⟩
  s := fun id _ => sec_bdd id
  r := fun id _ => sec'_bdd id

theorem rlkPools : C45.Pools (B := bctx fm) parties (rlks fm) :=
  C45.pools _ _ _ (bt_one fm).le _ fun id hid => GoMap.mem_iff_lookup.mpr (by
    have := rlks_lookup fm id (party hid)
    unfold rlks at this
    rw [this]; rfl)

/-- the keys are right -/
theorem keyring_ok : (keyring fm).Ok parties sec sec' 1 1 2 where
  rlk := ⟨avec fm, rlkKeys fm⟩
  pools := rlkPools fm
  rot := fun n hn => by
    refine ⟨fun j hj => ?_, fun h h0 => ?_⟩
    · have : j = 0 ∨ j = 1 ∨ j = 2 := by
        by_contra h
        have h2 : 3 ≤ j := by omega
        have : 2 ^ 3 ≤ 2 ^ j := Nat.pow_le_pow_right (by norm_num) h2
        omega
      rcases this with h | h | h <;> subst h
      · exact rotKeys fm (.inl ⟨rfl, rfl⟩)
      · exact rotKeys fm (.inr (.inl ⟨rfl, rfl⟩))
      · exact rotKeys fm (.inr (.inr ⟨rfl, rfl⟩))
    · by_cases h1 : n = 1
      · rw [h1]; exact rotKeys fm (.inl ⟨rfl, rfl⟩)
      by_cases h2 : n = 2
      · rw [h2]; exact rotKeys fm (.inr (.inl ⟨rfl, rfl⟩))
      by_cases h4 : n = 4
      · rw [h4]; exact rotKeys fm (.inr (.inr ⟨rfl, rfl⟩))
      exfalso
      have h : ((crs fm).lookup (n : ℤ)).isSome := h
      rw [crs_lookup, if_neg (by omega), if_neg (by omega), if_neg (by omega), if_neg (by omega), if_neg (by omega), if_neg (by omega),
        if_neg (by omega)] at h
      cases h
  conj := by
    refine ⟨⟨⟨1, crsv fm 9⟩, by show (crs fm).lookup (-2) = _; rw [crs_lookup]; rfl, by rw [beta_one], fun id hid => ?_⟩, fun id _ => sec_bdd id⟩
    refine ⟨⟨id, 0, ⟨1, mkKey _ (sec id) (crsv fm 9) (galois (2 * 16 - 1) (sec id)) err⟩⟩, ?_, by rw [beta_one], ?_⟩
    · show (cks fm).value.lookup id = _
      unfold cks
      rcases party hid with h | h <;> subst h <;> simp only [GoMap.lookup_insert'] <;> simp
    · exact mkKey_rel _ _ _ _ _ _ fun k _ => err_bdd k

/-! ## ciphertexts -/

/-- a public key of party `id` -/
noncomputable def pk (id : String) : PKey (qp fm) :=
  ⟨id, ⟨fun i => (RQ i).ofEv (red _ (err 1) - (RQ i).ev (row (bq i) 5) * red _ (sec id)), fun _ => row _ 0⟩, ⟨fun _ => row _ 5, fun _ => row _ 0⟩⟩

theorem pk_ok (id : String) : C17.PubKey (pk fm id) (sec id) (err 1) := fun i _ => by
  show (RQ i).ev ((RQ i).ofEv _) + (RQ i).ev (row (bq i) 5) * red (bq i) (sec id) = red (bq i) (err 1)
  rw [LimbOps.ev_ofEv]; ring

/-- fresh encryptions of any messages under both parties' keys exist -/
theorem fresh (id : String) (hid : id = "a" ∨ id = "b") (m : Nega 16 ℤ) : ∃ ct : Ct (qp fm), ct.AtLevel (bctx fm).top ∧ ct.ids = {id} ∧
    BfvEnc (bctx fm) sec ct m 700 := by
  obtain ⟨pt, hpt⟩ := C58.encodes_exists (B := bctx fm) (by show 0 < 7; norm_num) m
  obtain ⟨ct, st', -, h2, h3, h4⟩ := C58.encrypt (s := sec) (valid fm) (fun _ => Order.id) (fun n => sec (if n = 0 then "a" else "b")) err
    ⟨fun _ => row _ 1, 0, 0⟩ hpt (pk := pk fm id) (by show id ≠ "0"; rcases hid with h | h <;> subst h <;> decide) (e := err 1) (pk_ok fm id)
    (Bu := 1) (Be := 2) (Bg := 2) (Bs := 1) (fun n => sec_bdd _) (fun n => err_bdd n) (err_bdd 1) (sec_bdd _)
  exact ⟨ct, h2, h3, C58.BfvEnc.mono h4 (by show (7 : ℤ) + 7 * (16 * 1 * 2 + 2 + 16 * 2 * 1) ≤ 700; norm_num)⟩

/-- scratch memory full of stale words -/
noncomputable def scratch : BScratch (bctx fm) where
  base := ⟨fun _ => row _ 3, crsv fm 1 0, crsv fm 2 0, fun _ _ => 77, fun _ => row _ 4, fun _ => row _ 5, fun _ => row _ 6,
    ⟨1, crsv fm 3⟩, ⟨1, crsv fm 4⟩, ⟨1, crsv fm 6⟩⟩
  rp := fun _ _ => (fun _ => 3, fun _ => 4)
  conv := fun _ _ => 99
  s1 := ⟨1, crsv fm 3⟩
  s2 := ⟨1, crsv fm 4⟩
  s3 := ⟨1, crsv fm 5⟩
  s4 := ⟨1, crsv fm 6⟩
  s5 := ⟨1, crsv fm 7⟩
  s6 := ⟨1, crsv fm 8⟩
  q1 := fun _ => row _ 1
  q2 := fun _ => row _ 2
  r1 := ⟨fun _ => row _ 1, fun _ => row _ 1⟩
  r2 := ⟨fun _ => row _ 1, fun _ => row _ 2⟩
  r3 := ⟨fun _ => row _ 1, fun _ => row _ 3⟩
  r4 := ⟨fun _ => row _ 1, fun _ => row _ 4⟩

theorem scratch_alloc : (scratch fm).Alloc := by
  have := (bt_one fm).le
  exact ⟨this, this, this, this, this, this⟩

/-- bound on the digits -/
def Dg : ℤ := 3 * (1049057 * 1049089)

theorem blockR_le : ∀ k < 2 * (bctx fm).bt, 3 * ((bctx fm).blockR k : ℤ) ≤ Dg := by
  intro k hk
  rw [bt_one] at hk
  have : (bctx fm).blockR k = ∏ i ∈ range (4 / 2), (bctx fm).r (k * (4 / 2) + i) := rfl
  rw [this]
  norm_num only [prod_range_succ, prod_range_one, prod_range_zero]
  interval_cases k <;> simp [r_eq, bq, bm, Dg]

theorem block_le : ∀ k < (bctx fm).bt, 2 * ((bctx fm).C.blockProd (bctx fm).top k : ℤ) ≤ Dg := by
  intro k hk
  rw [bt_one] at hk
  have hk : k = 0 := by omega
  subst hk
  rw [show (bctx fm).top = 1 from rfl]
  simp [Ctx.blockProd, blockLen, Ctx.alpha, Ctx.dims, Dims.alpha, qp, prod_range_succ, bq, Dg]

/-! ## a program with a multiplication and a rotation decrypts correctly -/

/-- the secret key of a party -/
noncomputable def skey (id : String) : SKey (qp fm) := ⟨id, ⟨fun i => (RQ i).ofEv (red (bq i) (sec id) * Mont 16 (bq i)), fun j =>
  (RP j).ofEv (red (bp j) (sec id) * Mont 16 (bp j))⟩⟩

theorem skey_is (id : String) : (skey fm id).Is (sec id) := by
  refine ⟨fun i _ => ?_, fun j _ => ?_⟩
  · show (RQ i).mv ((RQ i).ofEv _) = _
    unfold LimbOps.mv; rw [LimbOps.ev_ofEv, mul_assoc, LimbOps.mul_rinv, mul_one]; rfl
  · show (RP j).mv ((RP j).ofEv _) = _
    unfold LimbOps.mv; rw [LimbOps.ev_ofEv, mul_assoc, LimbOps.mul_rinv, mul_one]; rfl

/-- the decryptor's key set -/
noncomputable def sks : KeySet (SKey (qp fm)) := (KeySet.new.add SKey.id (skey fm "a")).add SKey.id (skey fm "b")

theorem sks_keyed : (sks fm).Keyed SKey.id := ((KeySet.keyed_new _).add _).add _

theorem sks_lookup (id : String) : (sks fm).value.lookup id = if id = "b" then some (skey fm "b") else if id = "a" then some (skey fm "a") else none := by
  have : (sks fm).value = AList.insert "b" (skey fm "b") (AList.insert "a" (skey fm "a") ∅) := rfl
  rw [this, GoMap.lookup_insert', GoMap.lookup_insert']; rfl

theorem Q_val : (bctx fm).Q = 1099882834273 := by
  show ∏ i ∈ range 2, bq i = _
  simp [prod_range_succ, bq]
theorem QMul_val : (bctx fm).QMul = 1100554159073 := by
  show ∏ i ∈ range 2, bm i = _
  simp [prod_range_succ, bm]
theorem P_val : (qp fm).P = 79235435202928430386914996737 := by
  show ∏ j ∈ range 4, bp j = _
  simp [prod_range_succ, bp]

/-- `(a + b) * rotate(b, 1)`, conjugated and subtracted from input 0 -/
def prog : C58.Circ := .sub (.input 0) (.conj (.mul (.add (.input 0) (.input 1)) (.rot 1 (.input 1))))

/-- the parties of the inputs: the first input is encrypted by "a", all others by "b" -/
def own (n : ℕ) : String := if n = 0 then "a" else "b"

theorem own_party (n : ℕ) : own n = "a" ∨ own n = "b" := by unfold own; split_ifs <;> simp

theorem rotCount_one : C35.rotCount (crs fm) (C35.amount 16 1) = 1 := by
  have : C35.amount 16 1 = 1 := rfl
  rw [this]
  unfold C35.rotCount
  rw [if_neg one_ne_zero, crs_lookup]
  rfl

theorem prog_noise : 2 * prog.noise (bctx fm) (keyring fm).crs (fun n => {own n}) (fun _ => 700) Dg 1 1 2 < (bctx fm).Q := by
  have h0 : ({own 0} : Finset String) = {"a"} := rfl
  have h1 : ({own 1} : Finset String) = {"b"} := rfl
  have h2 : ({"a"} ∪ {"b"} : Finset String).card = 2 := rfl
  have h3 : ({"a"} ∪ {"b"} ∪ {"b"} : Finset String).card = 2 := rfl
  have hr : C35.rotCount (keyring fm).crs (C35.amount 16 1) = 1 := rotCount_one fm
  simp only [prog, C58.Circ.noise, C58.Circ.ids, h0, h1, h2, h3, hr, C58.mulBound, C45.noise, C45.liftBound, bmulNoise, C33.rotNoise, Q_val, QMul_val,
    P_val, bt_one, card_singleton, Dg]
  norm_num

/-- **instance of `C58.circuit_decrypt`**: for all messages modulo 7, fresh encryptions of them under the keys of the two parties exist, and the
program, run with any map orders, decrypts to its value modulo 7 -/
example (m : ℕ → Nega 16 ℤ) (o : List ℕ → ℕ → Sched String) (od : Sched String) : ∃ (ct : ℕ → Ct (bctx fm).C),
    (∀ n, (ct n).ids = {own n} ∧ BfvEnc (bctx fm) sec (ct n) (m n) 700) ∧
    ∃ out S' p, prog.run (keyring fm) ct o (scratch fm) = .ok (out, S') ∧ S'.Alloc ∧ bfvDecrypt od out (sks fm) = .ok p ∧
      (∃ Φ : Nega 16 ℤ, ∀ i < (bctx fm).C.nQ, cf (p.coeffs i) = red ((bctx fm).C.q i) Φ) ∧
      ∀ Φ : Nega 16 ℤ, (∀ i < (bctx fm).C.nQ, cf (p.coeffs i) = red ((bctx fm).C.q i) Φ) → ∀ x,
        (2 * ((bctx fm).t * Φ x) + (bctx fm).Q) / (2 * (bctx fm).Q) ≡
          (m 0 - galois (2 * 16 - 1) ((m 0 + m 1) * galois (5 ^ 1) (m 1))) x [ZMOD (bctx fm).t] := by
  choose ct c1 c2 c3 using fun n => fresh fm (own n) (own_party n) (m n)
  have hi : (fun n => (ct n).ids) = fun n => {own n} := funext c2
  refine ⟨ct, fun n => ⟨c2 n, c3 n⟩, ?_⟩
  refine C58.circuit_decrypt (valid fm) (keyring_ok fm) (blockR_le fm) (block_le fm) prog (fun n _ => ⟨c1 n, ?_, c3 n⟩) o _ (scratch_alloc fm) ?_
    (sks := sks fm) (sks_keyed fm) (fun id sk h => ?_) (fun id _ => ?_) od
  · rw [c2, singleton_subset_iff]
    rcases own_party n with h | h <;> rw [h] <;> decide
  · rw [hi]; exact prog_noise fm
  · rw [sks_lookup] at h
    split_ifs at h with h1 h2
    · cases h; rw [h1]; exact skey_is fm _
    · cases h; rw [h2]; exact skey_is fm _
  · rename_i hid
    rw [hi] at hid
    have : id = "a" ∨ id = "b" := by
      simp only [prog, C58.Circ.ids, mem_union, mem_singleton] at hid
      have h0 : own 0 = "a" := rfl
      have h1 : own 1 = "b" := rfl
      rw [h0, h1] at hid
      tauto
    refine GoMap.mem_iff_lookup.mpr ?_
    rw [sks_lookup]
    rcases this with h | h <;> subst h <;> simp

/-- **instance of `C45.mulRelinNew_phase`** -/
example (o : Sched String) (m0 m1 : Nega 16 ℤ) : ∃ ct0 ct1 : Ct (qp fm), ct0.ids = {"a"} ∧ ct1.ids = {"b"} ∧ ∃ out S',
    bfvMulRelinNew (B := bctx fm) (crs fm) o (scratch fm) ct0 ct1 (rlks fm) = .ok (out, S') ∧ out.ids = {"a"} ∪ {"b"} := by
  obtain ⟨ct0, a1, a2, a3⟩ := fresh fm "a" (.inl rfl) m0
  obtain ⟨ct1, b1, b2, b3⟩ := fresh fm "b" (.inr rfl) m1
  have hs : ct0.ids ∪ ct1.ids ⊆ parties := by rw [a2, b2]; decide
  obtain ⟨out, S', h1, -, h3, -⟩ := C45.mulRelinNew_phase (valid fm) o (scratch fm) (scratch_alloc fm) a1 b1
    (C58.keys_mono hs (rlkKeys fm)) (C58.pools_mono hs (rlkPools fm)) (blockR_le fm)
  exact ⟨ct0, ct1, a2, b2, out, S', h1, by rw [h3, a2, b2]⟩

/-- **instance of `C46.hoisted_eq_plain`** -/
example (o o' : Sched String) (m0 m1 : Nega 16 ℤ) : ∃ ct0 ct1 out : Ct (qp fm), ct0.ids = {"a"} ∧ ct1.ids = {"b"} ∧
    ∃ out1 S1 out2 S2, bfvMulRelin (B := bctx fm) (crs fm) o (scratch fm) ct0 ct1 (rlks fm) out = .ok (out1, S1) ∧
      bfvMulRelinHoisted (B := bctx fm) (crs fm) o' (scratch fm) ct0 ct1 (rlks fm) out = .ok (out2, S2) ∧ ∀ id, out1.lookup id = out2.lookup id := by
  obtain ⟨ct0, a1, a2, a3⟩ := fresh fm "a" (.inl rfl) m0
  obtain ⟨ct1, b1, b2, b3⟩ := fresh fm "b" (.inr rfl) m1
  obtain ⟨out, -, c2, c3, -⟩ := C22.addNew_phase (C := qp fm) o a1 b1
  have hs : ct0.ids ∪ ct1.ids ⊆ parties := by rw [a2, b2]; decide
  exact ⟨ct0, ct1, out, a2, b2, C46.hoisted_eq_plain (valid fm) o o' (scratch fm) (scratch fm) (scratch_alloc fm) (scratch_alloc fm)
    (C45.mulHyp a1 b1 c2 c3 (C58.keys_mono hs (rlkKeys fm)) (C58.pools_mono hs (rlkPools fm)))⟩

/-- **instances of C43 and C44** -/
example (a : Poly (qp fm)) (ha : 2 ≤ a.len) : ∃ (r : PolyR 16) (X : Nega 16 ℤ), (∀ pool, MKHE.modUpQtoR (bctx fm) pool a = .ok r) ∧
    (∀ x, |X x| ≤ 2 * (bctx fm).Q) ∧ ∃ (r' : PolyR 16) (Y : Nega 16 ℤ), (∀ pM pQ, rescaleR (bctx fm) pM pQ a = .ok r') ∧ ∀ x, |Y x| ≤ 2 * (bctx fm).QMul := by
  obtain ⟨r, X, h1, -, -, h4, -⟩ := C43.modUpQtoR (valid fm) a ha
  obtain ⟨r', Y, _, _, g1, -, -, g4, -⟩ := C43.rescale (valid fm) a ha
  exact ⟨r, X, h1, h4, r', Y, g1, g4⟩

example : ∃ rho, BfvGadget (bctx fm) (bctx fm).gadB (bctx fm).crt rho := ⟨_, C44.gadget (valid fm)⟩

/-- **instance of `C44.not_dividing`**: three primes of Q in blocks of two -/
example (gs : ℕ → Nega 16 ℤ) (st : KG (ctx fm)) (sk : SKey (ctx fm)) (swk1 swk2 : Swk (ctx fm)) :
    genBFVSwitchingKey (B := ⟨ctx fm, bm, RM, 7⟩) gs st sk swk1 swk2 = .error .indexOutOfRange :=
  C44.not_dividing (B := ⟨ctx fm, bm, RM, 7⟩) (Ex.valid fm) (by show ¬ 2 / 1 ∣ 3; norm_num) gs st sk swk1 swk2

end MKHE.BEx
