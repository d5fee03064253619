import Verif.Lemmas.MulTop
import Verif.Spec.Example

set_option autoImplicit false

/-!
# External product, multiplication with relinearization: C29, C30 (multiplication), C32, C42

The theorems are about `KeySwitcher.ExternalProduct`, `MulAndRelin` and `MulAndRelinHoisted` (`Verif/Model/KeySwitch.lean`), for
every parameter set, every content of the scratch memory and every map iteration order.
-/

namespace MKHE
open Finset Nega

variable {N : ℕ} [NeZero N] {C : Ctx N}

/-! ## C32 -/
namespace C32

/-- **C32, general form.** `ExternalProduct` succeeds, only writes the rows up to `level` of its output, and the rows `c` it writes
satisfy `P*c = Σ_k D_k bg_k - L` modulo every prime up to the level: `D_k` is one integer polynomial per block, congruent to `a`
modulo the primes of the block and bounded by twice the block product, and `L` is an integer polynomial bounded by `2P`, congruent
to `Σ_k D_k bg_k` modulo every special prime (`bg` is in Montgomery form). -/
theorem externalProduct_eq (V : C.Valid) (S : Scratch C) {level : ℕ} (hl : level < C.nQ) {a : Poly C} (ha : level < a.len)
    (bg : Swk C) (hbg : C.beta level ≤ bg.len) (c : QRows C) :
    ∃ c' S', externalProduct S level a bg c = .ok (c', S') ∧ (∀ i, level < i → c' i = c i) ∧
      (∀ i ≤ level, (c' i).Canon) ∧
      ∃ (D : ℕ → Nega N ℤ) (L : Nega N ℤ), Bdd L (2 * C.P) ∧
        (∀ k < C.beta level, Bdd (D k) (2 * C.blockProd level k) ∧
          ∀ i ≤ level, i / C.alpha = k → red (C.q i) (D k) = cf (a.coeffs i)) ∧
        (∀ j < C.nP, red (C.p j) L = ∑ k ∈ range (C.beta level), (C.RP j).mv ((bg.val k).P j) * red (C.p j) (D k)) ∧
        ∀ i ≤ level, (C.P : Nega N (ZMod (C.q i))) * cf (c' i) =
          (∑ k ∈ range (C.beta level), (C.RQ i).mv ((bg.val k).Q i) * red (C.q i) (D k)) - red (C.q i) L := by
  obtain ⟨S', -, h1⟩ := externalProduct_ok V S hl ha bg hbg c
  obtain ⟨e1, L, e2, e3, e4⟩ := epG_spec V hl (digs level a.coeffs) bg.val
  have hD : ∀ k, ∃ D, k < C.beta level → IsDigit C level k a.coeffs (2 * C.blockProd level k) D ∧
      Holds C level (digs level a.coeffs k) D := by
    intro k
    by_cases hk : k < C.beta level
    · obtain ⟨D, h⟩ := digs_spec V hl hk a.coeffs; exact ⟨D, fun _ => h⟩
    · exact ⟨0, fun h => absurd h hk⟩
  choose D hD using hD
  refine ⟨_, S', h1, fun i hi => setQ_gt _ _ hi, fun i hi => by rw [setQ_le _ _ hi]; exact e1 i hi, D, L, e2,
    fun k hk => ⟨(hD k hk).1.bdd, (hD k hk).1.cong⟩, fun j hj => ?_, fun i hi => ?_⟩
  · rw [e3 j hj]
    refine sum_congr rfl fun k hk => ?_
    rw [← (hD k (mem_range.mp hk)).2.p j hj]; unfold LimbOps.mv; ring
  · rw [setQ_le _ _ hi, e4 i hi]
    congr 1
    refine sum_congr rfl fun k hk => ?_
    rw [← (hD k (mem_range.mp hk)).2.q i hi]; unfold LimbOps.mv; ring

/-- **C32, key switching.** If `bg` satisfies the key equation `bg = -sec*a' + P*g*m + e`, then the external products with
`bg` and with `a'` combine to `a*m` up to a small noise: `EP(a, bg) + sec*EP(a, a') = a*m + E`,
`P*|E| ≤ beta*N*D*Be + 2P + N*Sb*2P`. -/
theorem externalProduct_switch (V : C.Valid) (S S₂ : Scratch C) {level : ℕ} (hl : level < C.nQ) {a : Poly C} (ha : level < a.len)
    (bg a' : Swk C) (hbg : C.beta level ≤ bg.len) (ha' : C.beta level ≤ a'.len) (c c₂ : QRows C)
    (sec m : Nega N ℤ) (Sb Be D : ℤ) (hs : Bdd sec Sb) (hD : ∀ k < C.beta level, 2 * (C.blockProd level k : ℤ) ≤ D)
    (hk : KeyRel C (C.beta level) sec a'.val m Be bg.val) :
    ∃ c' S' c₂' S₂', externalProduct S level a bg c = .ok (c', S') ∧ externalProduct S₂ level a a' c₂ = .ok (c₂', S₂') ∧
      ∃ E : Nega N ℤ, (∀ x, C.P * |E x| ≤ C.beta level * (N * D * Be) + 2 * C.P + N * Sb * (2 * C.P)) ∧
        ∀ i ≤ level, cf (c' i) + red (C.q i) sec * cf (c₂' i) = cf (a.coeffs i) * red (C.q i) m + red (C.q i) E := by
  obtain ⟨S', -, h1⟩ := externalProduct_ok V S hl ha bg hbg c
  obtain ⟨S₂', -, h2⟩ := externalProduct_ok V S₂ hl ha a' ha' c₂
  refine ⟨_, S', _, S₂', h1, h2, ?_⟩
  obtain ⟨E, hE, hE2⟩ := ks_noise V hl (digs level a.coeffs) a.coeffs bg.val a'.val sec m Sb Be D hs hk
    (fun k hk' => by
      obtain ⟨X, x1, x2⟩ := digs_spec V hl hk' a.coeffs
      exact ⟨X, x1.bound (hD k hk'), x2⟩)
  refine ⟨E, hE, fun i hi => ?_⟩
  rw [setQ_le _ _ hi, setQ_le _ _ hi]; exact hE2 i hi

/-- concrete instance: component `"a"` of a three-row ciphertext times a key-switching key of two blocks -/
example (fm : FloatModel) : ∃ c' S' c₂' S₂',
    externalProduct (Ex.scratch fm) 2 (Ex.poly fm 3 4) (Ex.rlk fm "a").d (fun _ => Limb.zero) = .ok (c', S') ∧
    externalProduct (Ex.scratch fm) 2 (Ex.poly fm 3 4) ⟨2, Ex.crsv fm 5⟩ (fun _ => Limb.zero) = .ok (c₂', S₂') ∧
      ∃ E : Nega 16 ℤ, (∀ x, (Ex.ctx fm).P * |E x| ≤ (Ex.ctx fm).beta 2 * (16 * 37442 * 2) + 2 * (Ex.ctx fm).P + 16 * 1 * (2 * (Ex.ctx fm).P)) ∧
        ∀ i ≤ 2, cf (c' i) + red _ (Ex.sec' "a") * cf (c₂' i) = cf ((Ex.poly fm 3 4).coeffs i) * red _ (Ex.sec "a") + red _ E :=
  externalProduct_switch (Ex.valid fm) _ _ (by show 2 < 3; norm_num) (by show 2 < 3; norm_num) _ _ (by rw [Ex.beta_two]; rfl)
    (by rw [Ex.beta_two]) _ _ (Ex.sec' "a") (Ex.sec "a") 1 2 37442 (Ex.sec'_bdd _) (Ex.blocks fm)
    (by rw [Ex.beta_two]; exact (Ex.rlk_rel fm "a").d)

end C32

/-! ## C29 and C42 -/
namespace C29

/-- the keys of all parties of the operands are in the set and satisfy the relinearization key equations, with secrets `s`, `r`
bounded by `Sb`, `Rb`, key errors bounded by `Be` and `u` the common reference string of index `-1` -/
structure Keys (crs : GoMap ℤ (Swk C)) (level : ℕ) (ids : Finset String) (rlk : RlkMap C) (s r : String → Nega N ℤ)
    (a : ℕ → PolyQP C) (Sb Rb Be : ℤ) : Prop where
  u : ∃ u, crs.lookup (-1) = some u ∧ C.beta level ≤ u.len ∧
    ∀ id ∈ ids, ∃ key, rlk.value.lookup id = some key ∧ key.Rel (C.beta level) (s id) (r id) a u.val Be
  s : ∀ id ∈ ids, Bdd (s id) Sb
  r : ∀ id ∈ ids, Bdd (r id) Rb

/-- the operands and the fresh output ciphertext of a product at `level` -/
structure Shape (level : ℕ) (op0 op1 out : Ct C) : Prop where
  lvl : level < C.nQ
  in0 : op0.Coeff level
  in1 : op1.Coeff level
  res : out.AtLevel level
  ids : out.ids = op0.ids ∪ op1.ids

variable {crs : GoMap ℤ (Swk C)} {level : ℕ} {op0 op1 out : Ct C} {rlk : RlkMap C} {s r : String → Nega N ℤ} {a : ℕ → PolyQP C}
  {Sb Rb Be : ℤ}

theorem mulHyp (H : Shape level op0 op1 out) (K : Keys crs level (op0.ids ∪ op1.ids) rlk s r a Sb Rb Be) :
    MulHyp crs level op0 op1 rlk out := by
  obtain ⟨u, u1, u2, u3⟩ := K.u
  refine ⟨H.lvl, H.in0, H.in1, H.res, H.ids, fun id hid => ?_, u, u1, u2⟩
  obtain ⟨key, k1, k2⟩ := u3 id hid
  exact ⟨key, k1, k2.lenb, k2.lend, k2.lenv⟩

/-- **C29 for hoisted operands, and C42.** `MulAndRelinHoisted` at `level`, each operand given with a hoisted form computed at
any level `l0`, `l1` at least `level`, or with none: it succeeds, and the phase of the result is the product of the phases up to
the noise `E`, for all id sets, schedules and scratch contents. `D` bounds the digits (twice the largest block product at the
levels where the digits are computed). -/
theorem mulAndRelinHoisted_phase (V : C.Valid) (o : Sched String) (S : Scratch C) (hS : S.Alloc (C.beta level))
    (H : Shape level op0 op1 out) (K : Keys crs level (op0.ids ∪ op1.ids) rlk s r a Sb Rb Be)
    (h0 h1 : Option (HoistedCt C)) (l0 l1 : ℕ) (hl0 : level ≤ l0) (hl0' : l0 < C.nQ) (hl1 : level ≤ l1) (hl1' : l1 < C.nQ)
    (k0 : ∀ m, h0 = some m → IsHoisted l0 op0 m) (k1 : ∀ m, h1 = some m → IsHoisted l1 op1 m)
    (D : ℤ) (hD : ∀ l ∈ [level, l0, l1], ∀ k < C.beta l, 2 * (C.blockProd l k : ℤ) ≤ D) :
    ∃ out' S', mulAndRelinHoisted crs o S op0 op1 h0 h1 rlk out = .ok (out', S') ∧
      out'.AtLevel level ∧ out'.ids = op0.ids ∪ op1.ids ∧
      ∃ E : Nega N ℤ, (∀ x, C.P * |E x| ≤ mulNoise N C.P op0.ids.card op1.ids.card (C.beta level) D Sb Rb Be) ∧
        ∀ i ≤ level, out'.phase s i = op0.phase s i * op1.phase s i + red (C.q i) E := by
  have hoist : ∀ {op : Ct C} {h : Option (HoistedCt C)} {l : ℕ}, level ≤ l → l < C.nQ →
      (∀ m, h = some m → IsHoisted l op m) → HoistOK level op h := by
    intro op h l hl hl' hk m hm id hid
    obtain ⟨sw, s1, s2, _⟩ := hk m hm id hid
    exact ⟨sw, s1, le_trans (V.beta_mono hl' hl) s2⟩
  have dig : ∀ {op : Ct C} {h : Option (HoistedCt C)} {l : ℕ}, level ≤ l → l < C.nQ → (∀ k < C.beta l, 2 * (C.blockProd l k : ℤ) ≤ D) →
      (∀ m, h = some m → IsHoisted l op m) → ∀ id ∈ op.ids, ∀ k < C.beta level, ∃ X, IsDigit C level k (op.comp id) D X ∧
        Holds C level (digitsFor level op h id k) X := by
    intro op h l hl hl' hD' hk id hid k hkb
    cases h with
    | none =>
      obtain ⟨X, x1, x2⟩ := digs_spec V H.lvl hkb (op.comp id)
      exact ⟨X, x1.bound (hD level (by simp) k hkb), x2⟩
    | some m =>
      obtain ⟨sw, s1, s2, s3⟩ := hk m rfl id hid
      have hkb' := lt_of_lt_of_le hkb (V.beta_mono hl' hl)
      obtain ⟨X, x1, x2⟩ := digs_spec V hl' hkb' (op.comp id)
      refine ⟨X, (x1.mono hl).bound (hD' k hkb'), ?_⟩
      have : digitsFor level op (some m) id = sw.val := by simp only [digitsFor, s1]
      rw [this]
      exact (x2.congr (s3 k hkb')).mono hl
  have H' := mulHyp H K
  obtain ⟨out', S', e1, e2⟩ := mulAndRelinHoisted_run V o (mulOK_of H' (hoist hl0 hl0' k0) (hoist hl1 hl1' k1) hS)
  obtain ⟨r1, r2, r3⟩ := mulRes_comp H.res (M := mulIn crs level op0 op1 h0 h1 rlk) H.ids e2
  refine ⟨out', S', e1, r1, r2, ?_⟩
  obtain ⟨u, u1, u2, u3⟩ := K.u
  have hkey : ∀ id ∈ op0.ids ∪ op1.ids, KeyRel C (C.beta level) (r id) a (s id) Be (keyFor rlk Rlk.d id) ∧
      KeyRel C (C.beta level) (s id) u.val (-r id) Be (keyFor rlk Rlk.v id) ∧
      KeyRel C (C.beta level) (s id) a 0 Be (keyFor rlk Rlk.b id) := by
    intro id hid
    obtain ⟨key, q1, q2⟩ := u3 id hid
    simp only [keyFor, q1]
    exact ⟨q2.d, q2.v, q2.b⟩
  have hMu : (mulIn crs level op0 op1 h0 h1 rlk).u = u.val := by simp only [mulIn, u1]
  obtain ⟨E, E1, E2⟩ := mul_noise V H.lvl (mulIn crs level op0 op1 h0 h1 rlk) s r a D Sb Rb Be
    { n0 := fun h => (Ct.mem_ids.mp h).2 rfl
      n1 := fun h => (Ct.mem_ids.mp h).2 rfl
      d := fun id hid => (hkey id (mem_union_left _ hid)).1
      v := fun id hid => by rw [hMu]; exact (hkey id (mem_union_left _ hid)).2.1
      b := fun id hid => (hkey id (mem_union_right _ hid)).2.2
      dig0 := dig hl0 hl0' (hD l0 (by simp)) k0
      dig1 := dig hl1 hl1' (hD l1 (by simp)) k1
      block := hD level (by simp)
      s0 := K.s
      r0 := fun id hid => K.r id (mem_union_left _ hid) }
  refine ⟨E, E1, fun i hi => ?_⟩
  rw [phase_eq_rows, phase_eq_rows, phase_eq_rows, r2]
  exact (phaseRows_congr fun id hid => r3 id hid i hi).trans (E2 i hi)

/-- **C29.** `MulAndRelin` at `level` succeeds and the phase of the result is the product of the phases up to the noise `E`. -/
theorem mulAndRelin_phase (V : C.Valid) (o : Sched String) (S : Scratch C) (hS : S.Alloc (C.beta level))
    (H : Shape level op0 op1 out) (K : Keys crs level (op0.ids ∪ op1.ids) rlk s r a Sb Rb Be)
    (D : ℤ) (hD : ∀ k < C.beta level, 2 * (C.blockProd level k : ℤ) ≤ D) :
    ∃ out' S', mulAndRelin crs o S op0 op1 rlk out = .ok (out', S') ∧
      out'.AtLevel level ∧ out'.ids = op0.ids ∪ op1.ids ∧
      ∃ E : Nega N ℤ, (∀ x, C.P * |E x| ≤ mulNoise N C.P op0.ids.card op1.ids.card (C.beta level) D Sb Rb Be) ∧
        ∀ i ≤ level, out'.phase s i = op0.phase s i * op1.phase s i + red (C.q i) E := by
  have H' := mulHyp H K
  have hok := mulOK_of (S := S) H' (HoistOK.none level op0) (HoistOK.none level op1) hS
  obtain ⟨out', S', e1, e2⟩ := mulAndRelin_run V o hok
  obtain ⟨out2, S2, f1, f2⟩ := mulAndRelinHoisted_run V o hok
  obtain ⟨out3, S3, g1, g2, g3, E, E1, E2⟩ := mulAndRelinHoisted_phase V o S hS H K none none level level le_rfl H.lvl le_rfl H.lvl
    (fun _ h => by cases h) (fun _ h => by cases h) D (by simpa using hD)
  rw [f1] at g1
  obtain ⟨rfl, rfl⟩ := Prod.mk.inj (Except.ok.inj g1)
  obtain ⟨r1, r2, r3⟩ := mulRes_comp H.res (M := mulIn crs level op0 op1 none none rlk) H.ids e2
  obtain ⟨t1, t2, t3⟩ := mulRes_comp H.res (M := mulIn crs level op0 op1 none none rlk) H.ids f2
  refine ⟨out', S', e1, r1, r2, E, E1, fun i hi => ?_⟩
  rw [← E2 i hi, phase_eq_rows, phase_eq_rows, r2, t2]
  exact phaseRows_congr fun id hid => by rw [r3 id hid i hi, t3 id hid i hi]

theorem exShape (fm : FloatModel) : Shape 2 (Ex.ctAB fm 3 4) (Ex.ctB fm 3 9) (Ex.ctAB fm 3 0) where
  lvl := by show 2 < 3; norm_num
  in0 := (Ex.ctAB_at fm 2 4).toCoeff
  in1 := (Ex.ctB_at fm 2 9).toCoeff
  res := Ex.ctAB_at fm 2 0
  ids := by rw [Ex.ctAB_ids, Ex.ctAB_ids, Ex.ctB_ids]; rfl

theorem exKeys (fm : FloatModel) : Keys (Ex.crs fm) 2 ((Ex.ctAB fm 3 4).ids ∪ (Ex.ctB fm 3 9).ids) (Ex.rlks fm) Ex.sec Ex.sec'
    (Ex.crsv fm 5) 1 1 2 where
  u := ⟨_, Ex.crs_u fm, by rw [Ex.beta_two], fun id hid => by
    rw [Ex.ctAB_ids, Ex.ctB_ids] at hid
    refine ⟨_, Ex.rlks_lookup fm id ?_, by rw [Ex.beta_two]; exact Ex.rlk_rel fm id⟩
    simpa using hid⟩
  s := fun id _ => Ex.sec_bdd id
  r := fun id _ => Ex.sec'_bdd id

/-- concrete instance: a ciphertext of parties `"a"`, `"b"` times one of party `"b"`, at the maximal level, with stale scratch memory
and reversed map iteration -/
example (fm : FloatModel) : ∃ out' S', mulAndRelin (Ex.crs fm) (fun _ => Order.rev) (Ex.scratch fm) (Ex.ctAB fm 3 4) (Ex.ctB fm 3 9)
      (Ex.rlks fm) (Ex.ctAB fm 3 0) = .ok (out', S') ∧ ∃ E : Nega 16 ℤ,
      (∀ x, (Ex.ctx fm).P * |E x| ≤ mulNoise 16 (Ex.ctx fm).P 2 1 2 37442 1 1 2) ∧
      ∀ i ≤ 2, out'.phase Ex.sec i = (Ex.ctAB fm 3 4).phase Ex.sec i * (Ex.ctB fm 3 9).phase Ex.sec i + red _ E := by
  obtain ⟨out', S', h1, _, _, E, h2, h3⟩ := mulAndRelin_phase (Ex.valid fm) (fun _ => Order.rev) (Ex.scratch fm)
    (by rw [Ex.beta_two]; exact Ex.scratch_alloc fm) (exShape fm) (exKeys fm) 37442 (Ex.blocks fm)
  refine ⟨out', S', h1, E, fun x => ?_, h3⟩
  have := h2 x
  rwa [Ex.ctAB_ids, Ex.ctB_ids, Ex.beta_two] at this

end C29

/-! ## C30 (multiplication): hoisted equals plain, bit for bit; independence of scratch memory and schedule -/
namespace C30

variable {crs : GoMap ℤ (Swk C)} {level : ℕ} {op0 op1 out : Ct C} {rlk : RlkMap C}

/-- **C30 for multiplication.** With hoisted forms computed at the product level (or `nil`), `MulAndRelinHoisted` returns exactly
the ciphertext `MulAndRelin` returns. The two runs may start from different scratch memories and use different map
iteration orders. -/
theorem mulAndRelinHoisted_eq (V : C.Valid) (o o' : Sched String) (S S' : Scratch C) (hS : S.Alloc (C.beta level))
    (hS' : S'.Alloc (C.beta level)) (H : MulHyp crs level op0 op1 rlk out) (h0 h1 : Option (HoistedCt C))
    (k0 : ∀ m, h0 = some m → IsHoisted level op0 m) (k1 : ∀ m, h1 = some m → IsHoisted level op1 m) :
    ∃ out1 S1 out2 S2, mulAndRelin crs o S op0 op1 rlk out = .ok (out1, S1) ∧
      mulAndRelinHoisted crs o' S' op0 op1 h0 h1 rlk out = .ok (out2, S2) ∧ ∀ id, out1.lookup id = out2.lookup id := by
  have hoist : ∀ {op : Ct C} {h : Option (HoistedCt C)}, (∀ m, h = some m → IsHoisted level op m) → HoistOK level op h := by
    intro op h hk m hm id hid
    obtain ⟨sw, s1, s2, _⟩ := hk m hm id hid
    exact ⟨sw, s1, s2⟩
  obtain ⟨out1, S1, e1, e2⟩ := mulAndRelin_run V o (mulOK_of H (HoistOK.none level op0) (HoistOK.none level op1) hS)
  obtain ⟨out2, S2, f1, f2⟩ := mulAndRelinHoisted_run V o' (mulOK_of H (hoist k0) (hoist k1) hS')
  refine ⟨out1, S1, out2, S2, e1, f1, ?_⟩
  have dig : ∀ {op : Ct C} {h : Option (HoistedCt C)}, (∀ m, h = some m → IsHoisted level op m) → ∀ id ∈ op.ids,
      ∀ k < C.beta level, (digitsFor level op none id k).Agree level (digitsFor level op h id k) := by
    intro op h hk id hid k hkb
    cases h with
    | none => exact PolyQP.Agree.refl _ _
    | some m =>
      obtain ⟨sw, s1, s2, s3⟩ := hk m rfl id hid
      have : digitsFor level op (some m) id = sw.val := by simp only [digitsFor, s1]
      rw [this]
      exact (s3 k hkb).symm
  have hM : ∀ id i, (mulIn crs level op0 op1 none none rlk).out level id i = (mulIn crs level op0 op1 h0 h1 rlk).out level id i :=
    fun id i => mulOut_congr V (mulIn crs level op0 op1 none none rlk) (digitsFor level op0 h0) (digitsFor level op1 h1) (dig k0) (dig k1) id i
  exact mulRes_unique (M := mulIn crs level op0 op1 none none rlk) (M' := mulIn crs level op0 op1 h0 h1 rlk) H.ids rfl rfl
    (fun id _ i _ => hM id i) e2 f2

/-- **C24 for multiplication.** `MulAndRelin` and `MulAndRelinHoisted` return the same ciphertext whatever the scratch memory
contains and in whatever order the maps are iterated. -/
theorem mulAndRelinHoisted_deterministic (V : C.Valid) (o o' : Sched String) (S S' : Scratch C) (hS : S.Alloc (C.beta level))
    (hS' : S'.Alloc (C.beta level)) (H : MulHyp crs level op0 op1 rlk out) (h0 h1 : Option (HoistedCt C))
    (k0 : HoistOK level op0 h0) (k1 : HoistOK level op1 h1) :
    ∃ out1 S1 out2 S2, mulAndRelinHoisted crs o S op0 op1 h0 h1 rlk out = .ok (out1, S1) ∧
      mulAndRelinHoisted crs o' S' op0 op1 h0 h1 rlk out = .ok (out2, S2) ∧ ∀ id, out1.lookup id = out2.lookup id := by
  obtain ⟨out1, S1, e1, e2⟩ := mulAndRelinHoisted_run V o (mulOK_of H k0 k1 hS)
  obtain ⟨out2, S2, f1, f2⟩ := mulAndRelinHoisted_run V o' (mulOK_of H k0 k1 hS')
  exact ⟨out1, S1, out2, S2, e1, f1, mulRes_unique (M := mulIn crs level op0 op1 h0 h1 rlk) H.ids rfl rfl
    (fun _ _ _ _ => rfl) e2 f2⟩

/-- concrete instance: the same product as above, plain and hoisted, from the same operands -/
example (fm : FloatModel) : ∃ out1 S1 out2 S2,
    mulAndRelin (Ex.crs fm) (fun _ => Order.rev) (Ex.scratch fm) (Ex.ctAB fm 3 4) (Ex.ctB fm 3 9) (Ex.rlks fm) (Ex.ctAB fm 3 0) =
      .ok (out1, S1) ∧
    mulAndRelinHoisted (Ex.crs fm) (fun _ => Order.id) (Ex.scratch fm) (Ex.ctAB fm 3 4) (Ex.ctB fm 3 9)
      (some (AList.insert "a" ⟨2, digs 2 ((Ex.ctAB fm 3 4).comp "a")⟩ (AList.insert "b" ⟨2, digs 2 ((Ex.ctAB fm 3 4).comp "b")⟩ ∅))) none
      (Ex.rlks fm) (Ex.ctAB fm 3 0) = .ok (out2, S2) ∧ ∀ id, out1.lookup id = out2.lookup id := by
  refine mulAndRelinHoisted_eq (Ex.valid fm) _ _ _ _ (by rw [Ex.beta_two]; exact Ex.scratch_alloc fm)
    (by rw [Ex.beta_two]; exact Ex.scratch_alloc fm) (C29.mulHyp (C29.exShape fm) (C29.exKeys fm)) _ _ (fun m hm id hid => ?_)
    (fun m hm => by cases hm)
  injection hm with hm
  subst hm
  rw [Ex.ctAB_ids] at hid
  simp only [GoMap.lookup_insert']
  simp only [mem_insert, mem_singleton] at hid
  rcases hid with h | h <;> subst h
  · exact ⟨_, rfl, by rw [Ex.beta_two], fun k _ => PolyQP.Agree.refl _ _⟩
  · exact ⟨_, rfl, by rw [Ex.beta_two], fun k _ => PolyQP.Agree.refl _ _⟩

end C30
end MKHE
