import Verif.Spec.Phase
import Verif.Base.LimbInst
import Mathlib.Tactic.NormNum.Prime
import Mathlib.Tactic.IntervalCases

set_option autoImplicit false

/-!
# A concrete parameter set, used to show that the hypotheses of the theorems can be met

`N = 16`, three primes of Q (97, 193, 257), two special primes (353, 449), `gamma = 1`: so `alpha = 2`, with the blocks `{0, 1}` and
`{2}`. Every prime is `1` modulo 32, hence has a primitive 32-nd root of unity and the lattigo contract can be instantiated.
-/

namespace MKHE.Ex
open MKHE Finset Nega

/-- the primes of Q -/
def exq (i : ℕ) : ℕ := if i = 0 then 97 else if i = 1 then 193 else 257
/-- the special primes -/
def exp (j : ℕ) : ℕ := if j = 0 then 353 else 449

instance : NeZero (16 : ℕ) := ⟨by decide⟩

/-- row operations for a prime with a `32`-nd root of unity -/
noncomputable def ops (q : ℕ) (hq : q.Prime) (hodd : Odd q) (h61 : q < 2 ^ 61) (z : ZMod q) (hz : z ^ 16 = -1) : LimbOps 16 q :=
  haveI : Fact q.Prime := ⟨hq⟩
  limbInst hodd h61 z (by
    have hne : (1 : ZMod q) ≠ -1 := by
      intro h
      have h2 : ((2 : ℕ) : ZMod q) = 0 := by
        have : (1 : ZMod q) + 1 = 0 := by nth_rewrite 2 [h]; ring
        push_cast; rw [← this]; ring
      have h3 := (ZMod.natCast_eq_zero_iff _ _).mp h2
      have h4 := Nat.le_of_dvd (by norm_num) h3
      have := hq.two_le
      have : q = 2 := by omega
      subst this; exact absurd hodd (by decide)
    have h32 : z ^ (2 * 16) = 1 := by rw [mul_comm, pow_mul, hz]; ring
    have : orderOf z = 2 ^ (4 + 1) := orderOf_eq_prime_pow (by
      show ¬ z ^ 16 = 1
      rw [hz]; exact fun h => hne h.symm) h32
    have h5 := IsPrimitiveRoot.orderOf z
    rw [this] at h5
    exact h5)

/-- the operations modulo `exq i` -/
noncomputable def RQ (i : ℕ) : LimbOps 16 (exq i) :=
  if h0 : i = 0 then
    have e : exq i = 97 := by simp [exq, h0]
    e ▸ ops 97 (by norm_num) (by decide) (by norm_num) 19 (by decide)
  else if h1 : i = 1 then
    have e : exq i = 193 := by simp [exq, h1]
    e ▸ ops 193 (by norm_num) (by decide) (by norm_num) 8 (by decide)
  else
    have e : exq i = 257 := by simp [exq, h0, h1]
    e ▸ ops 257 (by norm_num) (by decide) (by norm_num) 15 (by decide)

/-- the operations modulo `exp j` -/
noncomputable def RP (j : ℕ) : LimbOps 16 (exp j) :=
  if h0 : j = 0 then
    have e : exp j = 353 := by simp [exp, h0]
    e ▸ ops 353 (by norm_num) (by decide) (by norm_num) 6 (by decide)
  else
    have e : exp j = 449 := by simp [exp, h0]
    e ▸ ops 449 (by norm_num) (by decide) (by norm_num) 10 (by decide)

/-- the example parameters, for any float64 model -/
noncomputable def ctx (fm : FloatModel) : Ctx 16 where
  fm := fm
  nQ := 3
  nP := 2
  gamma := 1
  logN := 4
  q := exq
  p := exp
  RQ := RQ
  RP := RP

theorem valid (fm : FloatModel) : (ctx fm).Valid where
  pair :=
    { primeQ := fun i hi => by change i < 3 at hi; interval_cases i <;> norm_num [ctx, exq]
      oddQ := fun i hi => by change i < 3 at hi; interval_cases i <;> simp [ctx, exq] <;> decide
      lt61Q := fun i hi => by change i < 3 at hi; interval_cases i <;> norm_num [ctx, exq]
      primeP := fun i hi => by change i < 2 at hi; interval_cases i <;> norm_num [ctx, exp]
      oddP := fun i hi => by change i < 2 at hi; interval_cases i <;> simp [ctx, exp] <;> decide
      lt61P := fun i hi => by change i < 2 at hi; interval_cases i <;> norm_num [ctx, exp]
      distinctQ := fun i hi k hk h => by
        change i < 3 at hi; change k < 3 at hk; interval_cases i <;> interval_cases k <;> simp [ctx, exq] at h ⊢
      distinctP := fun i hi k hk h => by
        change i < 2 at hi; change k < 2 at hk; interval_cases i <;> interval_cases k <;> simp [ctx, exp] at h ⊢
      disjoint := fun i hi k hk => by
        change i < 3 at hi; change k < 2 at hk; interval_cases i <;> interval_cases k <;> simp [ctx, exq, exp] }
  g1 := le_rfl
  gle := by show 1 ≤ 2; norm_num
  gdiv := .inl (one_dvd _)
  q1 := by show 1 ≤ 3; norm_num
  nQ53 := by show 3 < _; norm_num
  le32 := by show 2 ≤ 32; norm_num
  sumP := by
    show ∑ j ∈ range 2, exp j ≤ W64
    simp [sum_range_succ, exp, W64]
  sumQ := fun s n hn _ => by
    change n ≤ 2 / 1 at hn
    have h : ∀ k, exq k ≤ 257 := fun k => by unfold exq; split_ifs <;> norm_num
    calc ∑ k ∈ range n, exq (s + k) ≤ ∑ _k ∈ range n, 257 := sum_le_sum fun k _ => h _
      _ = n * 257 := by simp
      _ ≤ W64 := by norm_num [W64]; omega
  hN := rfl
  log1 := by show 1 ≤ 4; norm_num
  log31 := by show 4 ≤ 31; norm_num

theorem beta_two (fm : FloatModel) : (ctx fm).beta 2 = 2 := by
  rw [(valid fm).beta_eq (by show 2 < 3; norm_num)]; simp [Ctx.alpha, Ctx.dims, Dims.alpha, ctx]

end MKHE.Ex

namespace MKHE
open Finset Nega
variable {N : ℕ} [NeZero N] {C : Ctx N}

/-- a key that satisfies the key equation with prescribed errors -/
noncomputable def mkKey (C : Ctx N) (sec : Nega N ℤ) (a : ℕ → PolyQP C) (m : Nega N ℤ) (e : ℕ → Nega N ℤ) (k : ℕ) : PolyQP C :=
  ⟨fun i => (C.RQ i).ofEv ((- red (C.q i) sec * (C.RQ i).mv ((a k).Q i) + C.gad k i * red (C.q i) m + red (C.q i) (e k)) *
      Mont N (C.q i)),
   fun j => (C.RP j).ofEv ((- red (C.p j) sec * (C.RP j).mv ((a k).P j) + red (C.p j) (e k)) * Mont N (C.p j))⟩

/-- keys satisfying the key equation exist for all secrets, messages and errors -/
theorem mkKey_rel (n : ℕ) (sec : Nega N ℤ) (a : ℕ → PolyQP C) (m : Nega N ℤ) (e : ℕ → Nega N ℤ) (B : ℤ)
    (he : ∀ k < n, Bdd (e k) B) : KeyRel C n sec a m B (mkKey C sec a m e) := by
  refine ⟨e, fun k hk => ⟨he k hk, fun i _ => ?_, fun j _ => ?_⟩⟩
  · unfold mkKey LimbOps.mv; dsimp only; rw [LimbOps.ev_ofEv, mul_assoc (_ + _), LimbOps.mul_rinv, mul_one]
  · unfold mkKey LimbOps.mv; dsimp only; rw [LimbOps.ev_ofEv, mul_assoc (_ + _), LimbOps.mul_rinv, mul_one]

end MKHE

namespace MKHE.Ex
open MKHE Finset Nega
variable (fm : FloatModel)

/-- a row of small words -/
def row (q n : ℕ) : Limb 16 q := fun x => ⟨min (n * x + n) q, Nat.min_le_right _ _⟩

/-- a coefficient-domain polynomial with `len` rows -/
noncomputable def poly (len n : ℕ) : Poly (ctx fm) := ⟨len, false, fun _ => row _ n⟩

/-- a ciphertext of the parties `"a"` and `"b"` -/
noncomputable def ctAB (len n : ℕ) : Ct (ctx fm) :=
  AList.insert "b" (poly fm len (n + 2)) (AList.insert "a" (poly fm len (n + 1)) (AList.insert "0" (poly fm len n) ∅))

/-- a ciphertext of the party `"b"` -/
noncomputable def ctB (len n : ℕ) : Ct (ctx fm) := AList.insert "b" (poly fm len (n + 1)) (AList.insert "0" (poly fm len n) ∅)

/-- secrets -/
def sec (id : String) : Nega 16 ℤ := fun x => if id = "a" then (if x = 3 then 1 else 0) else (if x = 2 then -1 else 1)
/-- the second secret of each party -/
def sec' (id : String) : Nega 16 ℤ := fun x => if id = "a" then (if x = 1 then -1 else 0) else (if x = 7 then 1 else -1)
/-- errors -/
def err (k : ℕ) : Nega 16 ℤ := fun x => if (x : ℕ) = k then 2 else -1
/-- a common reference string -/
noncomputable def crsv (n : ℕ) (k : ℕ) : PolyQP (ctx fm) := ⟨fun _ => row _ (n + k), fun _ => row _ (n + 3 * k)⟩
/-- the CRS map -/
noncomputable def crs : GoMap ℤ (Swk (ctx fm)) :=
  AList.insert (-2) ⟨2, crsv fm 9⟩ (AList.insert 4 ⟨2, crsv fm 17⟩ (AList.insert 2 ⟨2, crsv fm 13⟩ (AList.insert 1 ⟨2, crsv fm 11⟩ (AList.insert (-1) ⟨2, crsv fm 7⟩
    (AList.insert 0 ⟨2, crsv fm 5⟩ ∅)))))

/-- a relinearization key -/
noncomputable def rlk (id : String) : Rlk (ctx fm) :=
  ⟨id, ⟨2, mkKey _ (sec id) (crsv fm 5) 0 err⟩, ⟨2, mkKey _ (sec' id) (crsv fm 5) (sec id) err⟩,
    ⟨2, mkKey _ (sec id) (crsv fm 7) (- sec' id) err⟩⟩

/-- the key set of both parties -/
noncomputable def rlks : RlkMap (ctx fm) := (RlkSet.new.add Rlk.id ⟨2, fun _ => PolyQP.zero⟩ (rlk fm "a")).add Rlk.id ⟨2, fun _ => PolyQP.zero⟩
  (rlk fm "b")

/-- scratch memory full of stale words -/
noncomputable def scratch : Scratch (ctx fm) where
  inv := fun _ => row _ 3
  pool0 := crsv fm 1 0
  pool1 := crsv fm 2 0
  conv := fun _ _ => 77
  q0 := fun _ => row _ 4
  q1 := fun _ => row _ 5
  q2 := fun _ => row _ 6
  swk1 := ⟨2, crsv fm 3⟩
  swk2 := ⟨2, crsv fm 4⟩
  swk3 := ⟨2, crsv fm 6⟩

theorem scratch_alloc : (scratch fm).Alloc 2 := ⟨le_rfl, le_rfl, le_rfl⟩

theorem sec_bdd (id : String) : Bdd (sec id) 1 := by
  intro x; unfold sec; split_ifs <;> simp
theorem sec'_bdd (id : String) : Bdd (sec' id) 1 := by
  intro x; unfold sec'; split_ifs <;> simp
theorem err_bdd (k : ℕ) : Bdd (err k) 2 := by
  intro x; unfold err; split_ifs <;> simp

theorem ctAB_lookup (len n : ℕ) (id : String) : (ctAB fm len n).lookup id =
    if id = "b" then some (poly fm len (n + 2)) else if id = "a" then some (poly fm len (n + 1)) else
    if id = "0" then some (poly fm len n) else none := by
  unfold ctAB; rw [GoMap.lookup_insert', GoMap.lookup_insert', GoMap.lookup_insert']; rfl

theorem ctB_lookup (len n : ℕ) (id : String) : (ctB fm len n).lookup id =
    if id = "b" then some (poly fm len (n + 1)) else if id = "0" then some (poly fm len n) else none := by
  unfold ctB; rw [GoMap.lookup_insert', GoMap.lookup_insert']; rfl

theorem ctAB_at (level n : ℕ) : (ctAB fm (level + 1) n).AtLevel level := by
  refine ⟨AList.lookup_isSome.mp (by rw [ctAB_lookup]; rfl), fun id p h => ?_, fun id p h => ?_⟩ <;>
  · rw [ctAB_lookup] at h
    split_ifs at h <;> injection h with h <;> subst h <;> rfl

theorem ctB_at (level n : ℕ) : (ctB fm (level + 1) n).AtLevel level := by
  refine ⟨AList.lookup_isSome.mp (by rw [ctB_lookup]; rfl), fun id p h => ?_, fun id p h => ?_⟩ <;>
  · rw [ctB_lookup] at h
    split_ifs at h <;> injection h with h <;> subst h <;> rfl

theorem ctAB_ids (len n : ℕ) : (ctAB fm len n).ids = {"a", "b"} := by
  ext id
  rw [Ct.mem_ids, ← AList.lookup_isSome, ctAB_lookup]
  simp only [mem_insert, mem_singleton]
  by_cases h1 : id = "b"
  · subst h1; simp
  · by_cases h2 : id = "a"
    · subst h2; simp
    · by_cases h3 : id = "0"
      · subst h3; simp
      · simp [h1, h2, h3]

theorem ctB_ids (len n : ℕ) : (ctB fm len n).ids = {"b"} := by
  ext id
  rw [Ct.mem_ids, ← AList.lookup_isSome, ctB_lookup]
  simp only [mem_singleton]
  by_cases h1 : id = "b"
  · subst h1; simp
  · by_cases h3 : id = "0"
    · subst h3; simp
    · simp [h1, h3]

theorem rlks_lookup (id : String) (h : id = "a" ∨ id = "b") : (rlks fm).value.lookup id = some (rlk fm id) := by
  have : (rlks fm).value = AList.insert "b" (rlk fm "b") (AList.insert "a" (rlk fm "a") ∅) := rfl
  rw [this, GoMap.lookup_insert', GoMap.lookup_insert']
  rcases h with h | h <;> subst h <;> simp

theorem rlk_rel (id : String) : (rlk fm id).Rel 2 (sec id) (sec' id) (crsv fm 5) (crsv fm 7) 2 :=
  ⟨le_rfl, le_rfl, le_rfl, mkKey_rel _ _ _ _ _ _ fun k _ => err_bdd k, mkKey_rel _ _ _ _ _ _ fun k _ => err_bdd k,
    mkKey_rel _ _ _ _ _ _ fun k _ => err_bdd k⟩

theorem crs_u : (crs fm).lookup (-1) = some ⟨2, crsv fm 7⟩ := by
  unfold crs; simp only [GoMap.lookup_insert']; simp

theorem blocks : ∀ k < (ctx fm).beta 2, 2 * ((ctx fm).blockProd 2 k : ℤ) ≤ 37442 := by
  intro k hk
  rw [beta_two] at hk
  interval_cases k <;>
    simp [Ctx.blockProd, blockLen, Ctx.alpha, Ctx.dims, Dims.alpha, ctx, prod_range_succ, exq]

end MKHE.Ex
