import Verif.Lemmas.BasisExt

set_option autoImplicit false

/-!
# Specifications of modUp, modDown and the decomposer, one coefficient
-/

namespace MKHE
open Finset

/-- `r` represents the integer `X` modulo `p`, with a word below `3p` -/
def Rep3 (r : ℕ) (X : ℤ) (p : ℕ) : Prop := (r : ℤ) ≡ X [ZMOD p] ∧ r < 3 * p

/-- `X` lies in `[-Q/2^42, (1 + 2^-42) Q]` -/
def NearRange (X : ℤ) (Q : ℕ) : Prop := -(Q : ℤ) ≤ 2 ^ 42 * X ∧ 2 ^ 42 * X ≤ (2 ^ 42 + 1) * (Q : ℤ)

theorem NearRange.abs_le {X : ℤ} {Q : ℕ} (h : NearRange X Q) : |X| ≤ 2 * (Q : ℤ) := by
  obtain ⟨h1, h2⟩ := h
  have : (0 : ℤ) ≤ Q := by positivity
  rw [_root_.abs_le]; constructor <;> linarith

/-- writing `g` over the first `m` entries of `out` -/
def overlay {β : Type*} (m : ℕ) (g out : ℕ → β) : ℕ → β := fun j => if j < m then g j else out j

theorem overlay_lt {β : Type*} {m j : ℕ} (g out : ℕ → β) (h : j < m) : overlay m g out j = g j := if_pos h
theorem overlay_ge {β : Type*} {m j : ℕ} (g out : ℕ → β) (h : m ≤ j) : overlay m g out j = out j :=
  if_neg (by omega)

theorem modUpExact_uniform (fm : FloatModel) (n : ℕ) (Q : ℕ → ℕ) (m' m : ℕ) (P : ℕ → ℕ) (h : GoodBasis n Q)
    (hP : ∀ j < m, GoodMod (P j)) (hm : m ≤ m') (a : ℕ → ℕ) (ha : ∀ i < n, a i < W64) :
    ∃ X : ℤ, (∀ i < n, X ≡ a i [ZMOD Q i]) ∧ NearRange X (mprod n Q) ∧
      ∃ g, (∀ out, modUpExact fm n Q m P (basisExtParams n Q m' P) a out = .ok (overlay m g out)) ∧
        (∀ j < m, Rep3 (g j) X (P j)) := by
  obtain ⟨y, v, h1, h2, h3, h4, h5⟩ := reconstruct_spec fm n Q m' P h a ha
  refine ⟨liftInt n Q y v, h4, h5, ?_⟩
  have hex : ∀ j < m, ∃ r, (Go.andThen (Go.idx (basisExtParams n Q m' P).vtimesqmodp j) fun vt =>
      Go.andThen (Go.idx (basisExtParams n Q m' P).qoverqimodp j) fun qo =>
        multSum y v n (P j) (mredParams (P j)) vt qo) = .ok r ∧ Rep3 r (liftInt n Q y v) (P j) := by
    intro j hj
    obtain ⟨vt, qo, r, a1, a2, a3, a4, a5⟩ := multSum_lift n Q m' P h y v h2 h3 j (by omega) (hP j hj)
    exact ⟨r, by rw [Go.idx_ok a1, Go.andThen_ok, Go.idx_ok a2, Go.andThen_ok, a3], a4, a5⟩
  choose! g hg1 hg2 using hex
  refine ⟨g, ?_, hg2⟩
  intro out
  unfold modUpExact
  rw [h1, Go.andThen_ok]
  have := Go.fill_ok _ g out (List.range m) fun j hj => hg1 j (List.mem_range.mp hj)
  refine this.trans ?_
  congr 1
  funext j
  simp only [List.mem_range, overlay]

theorem modUp_uniform (fm : FloatModel) (nQ : ℕ) (Q : ℕ → ℕ) (nP : ℕ) (P : ℕ → ℕ) (levelQ levelP : ℕ)
    (hQ : levelQ < nQ) (hP : levelP < nP) (h : GoodBasis (levelQ + 1) Q) (hG : ∀ j ≤ levelP, GoodMod (P j))
    (a : ℕ → ℕ) (ha : ∀ i ≤ levelQ, a i < W64) :
    ∃ X : ℤ, (∀ i ≤ levelQ, X ≡ a i [ZMOD Q i]) ∧ NearRange X (mprod (levelQ + 1) Q) ∧
      ∃ g, (∀ out, modUp fm nQ Q nP P levelQ levelP a out = .ok (overlay (levelP + 1) g out)) ∧
        (∀ j ≤ levelP, Rep3 (g j) X (P j)) := by
  obtain ⟨X, h1, h2, g, h3, h4⟩ := modUpExact_uniform fm (levelQ + 1) Q nP (levelP + 1) P h
    (fun j hj => hG j (by omega)) (by omega) a (fun i hi => ha i (by omega))
  refine ⟨X, fun i hi => h1 i (by omega), h2, g, ?_, fun j hj => h4 j (by omega)⟩
  intro out
  unfold modUp
  have : ((List.range nQ).map fun i => basisExtParams (i + 1) Q nP P)[levelQ]? =
      some (basisExtParams (levelQ + 1) Q nP P) := by
    rw [List.getElem?_map, List.getElem?_range hQ, Option.map_some]
  rw [Go.idx_ok this, Go.andThen_ok, h3]

theorem modUp_spec (fm : FloatModel) (nQ : ℕ) (Q : ℕ → ℕ) (nP : ℕ) (P : ℕ → ℕ) (levelQ levelP : ℕ)
    (hQ : levelQ < nQ) (hP : levelP < nP) (h : GoodBasis (levelQ + 1) Q) (hG : ∀ j ≤ levelP, GoodMod (P j))
    (a out : ℕ → ℕ) (ha : ∀ i ≤ levelQ, a i < W64) :
    ∃ X : ℤ, (∀ i ≤ levelQ, X ≡ a i [ZMOD Q i]) ∧ NearRange X (mprod (levelQ + 1) Q) ∧
      ∃ out', modUp fm nQ Q nP P levelQ levelP a out = .ok out' ∧
        (∀ j ≤ levelP, Rep3 (out' j) X (P j)) ∧ ∀ j, levelP < j → out' j = out j := by
  obtain ⟨X, h1, h2, g, h3, h4⟩ := modUp_uniform fm nQ Q nP P levelQ levelP hQ hP h hG a ha
  refine ⟨X, h1, h2, _, h3 out, fun j hj => ?_, fun j hj => overlay_ge _ _ (by omega)⟩
  rw [overlay_lt _ _ (by omega)]; exact h4 j hj

/-- the ModDown table holds `(P_0 ... P_j)^-1` in Montgomery form -/
theorem modDownParam_spec (P : ℕ → ℕ) (q : ℕ) (hq : q.Prime) (hodd : Odd q) (h63 : q < 2 ^ 63) (j : ℕ)
    (hP : ∀ k ≤ j, ¬ q ∣ P k) :
    modDownParam P q j < q ∧ modDownParam P q j * mprod (j + 1) P ≡ W64 [MOD q] := by
  have base : ∀ k, ¬ q ∣ P k → mformW (modExp (P k) (q - 2) q) q < q ∧
      mformW (modExp (P k) (q - 2) q) q * P k ≡ W64 [MOD q] := by
    intro k hk
    refine ⟨mformW_lt hq.pos, ?_⟩
    have h1 := (mformW_spec (modExp (P k) (q - 2) q) q).mul_right (P k)
    have h2 := ((modExp_inv hq hk).2).mul_right W64
    calc mformW (modExp (P k) (q - 2) q) q * P k
        ≡ modExp (P k) (q - 2) q * W64 * P k [MOD q] := h1
      _ = modExp (P k) (q - 2) q * P k * W64 := by ring
      _ ≡ 1 * W64 [MOD q] := h2
      _ = W64 := one_mul _
  induction j with
  | zero =>
    have := base 0 (hP 0 le_rfl)
    simpa [modDownParam, mprod] using this
  | succ j ih =>
    obtain ⟨i1, i2⟩ := ih fun k hk => hP k (by omega)
    obtain ⟨b1, b2⟩ := base (j + 1) (hP _ le_rfl)
    have hb : mformW (modExp (P (j + 1)) (q - 2) q) q * modDownParam P q j < q * W64 := by
      have : mformW (modExp (P (j + 1)) (q - 2) q) q < W64 := b1.trans (h63.trans (by norm_num))
      calc _ ≤ mformW (modExp (P (j + 1)) (q - 2) q) q * q := Nat.mul_le_mul_left _ i1.le
        _ < W64 * q := Nat.mul_lt_mul_of_pos_right this hq.pos
        _ = q * W64 := Nat.mul_comm _ _
    obtain ⟨m1, m2⟩ := mred_spec hodd h63 hb
    refine ⟨m1, ?_⟩
    set M := mformW (modExp (P (j + 1)) (q - 2) q) q
    set D := modDownParam P q j
    show mred M D q (mredParams q) * mprod (j + 1 + 1) P ≡ W64 [MOD q]
    have hpr : mprod (j + 1 + 1) P = mprod (j + 1) P * P (j + 1) := Finset.prod_range_succ _ _
    rw [hpr]
    apply Nat.ModEq.cancel_right_of_coprime (c := W64) (by rw [Nat.gcd_comm]; exact coprime_W64 hodd)
    calc mred M D q (mredParams q) * (mprod (j + 1) P * P (j + 1)) * W64
        = mred M D q (mredParams q) * W64 * (mprod (j + 1) P * P (j + 1)) := by ring
      _ ≡ M * D * (mprod (j + 1) P * P (j + 1)) [MOD q] := m2.mul_right _
      _ = (M * P (j + 1)) * (D * mprod (j + 1) P) := by ring
      _ ≡ W64 * W64 [MOD q] := b2.mul i2

/-- one word of ModDown: `M * z ≡ x - y` -/
theorem modDownStep_spec {q x y param M : ℕ} (hodd : Odd q) (h61 : q < 2 ^ 61)
    (hx : x ≤ 2 * q) (hy : y < 3 * q) (hp1 : param < q) (hp2 : param * M ≡ W64 [MOD q]) :
    modDownStep q x y param < q ∧ (modDownStep q x y param : ℤ) * M ≡ x - y [ZMOD q] := by
  have hq := hodd.pos
  have hsum : (y + 2 * q + (W64 - x)) % W64 = y + 2 * q - x := by
    have hW : (W64 : ℕ) = 18446744073709551616 := by norm_num
    rw [hW]
    omega
  unfold modDownStep
  rw [hsum]
  have hb : (y + 2 * q - x) * (q - param) < q * W64 := by
    have h1 : y + 2 * q - x < W64 := by
      have hW : (W64 : ℕ) = 18446744073709551616 := by norm_num
      rw [hW]; omega
    calc (y + 2 * q - x) * (q - param) ≤ (y + 2 * q - x) * q := Nat.mul_le_mul_left _ (by omega)
      _ < W64 * q := Nat.mul_lt_mul_of_pos_right h1 hq
      _ = q * W64 := Nat.mul_comm _ _
  obtain ⟨m1, m2⟩ := mred_spec hodd (h61.trans (by norm_num)) hb
  refine ⟨m1, ?_⟩
  set z := mred (y + 2 * q - x) (q - param) q (mredParams q)
  have hcop : Int.gcd (q : ℤ) (W64 : ℤ) = 1 := by
    have := coprime_W64 hodd
    rw [Int.gcd_natCast_natCast, Nat.gcd_comm]; exact this
  have m2' := Int.natCast_modEq_iff.mpr m2
  have hp2' := Int.natCast_modEq_iff.mpr hp2
  push_cast [Nat.cast_sub hp1.le, Nat.cast_sub (by omega : x ≤ y + 2 * q)] at m2' hp2'
  have key : (z : ℤ) * M * W64 ≡ ((x : ℤ) - y) * W64 [ZMOD q] := by
    have e1 : (z : ℤ) * W64 * M ≡ ((y : ℤ) + 2 * q - x) * (q - param) * M [ZMOD q] := by
      push_cast; exact m2'.mul_right _
    have e2 : ((y : ℤ) + 2 * q - x) * (q - param) * M ≡ ((x : ℤ) - y) * (param * M) [ZMOD q] := by
      rw [Int.modEq_iff_dvd]
      exact ⟨-((y : ℤ) * M + 2 * q * M - x * M) + 2 * (param * M), by ring⟩
    have e3 : ((x : ℤ) - y) * (param * M) ≡ ((x : ℤ) - y) * W64 [ZMOD q] := by
      push_cast; exact hp2'.mul_left _
    calc (z : ℤ) * M * W64 = z * W64 * M := by ring
      _ ≡ _ [ZMOD q] := (e1.trans e2).trans e3
  have := Int.ModEq.cancel_right_div_gcd (by exact_mod_cast hq) key
  rwa [hcop, Nat.cast_one, Int.ediv_one] at this

/-- moduli of a ring Q and a ring P used together -/
structure GoodPair (nQ : ℕ) (Q : ℕ → ℕ) (nP : ℕ) (P : ℕ → ℕ) : Prop where
  primeQ : ∀ i < nQ, (Q i).Prime
  oddQ : ∀ i < nQ, Odd (Q i)
  lt61Q : ∀ i < nQ, Q i < 2 ^ 61
  primeP : ∀ j < nP, (P j).Prime
  oddP : ∀ j < nP, Odd (P j)
  lt61P : ∀ j < nP, P j < 2 ^ 61
  distinctQ : ∀ i < nQ, ∀ k < nQ, Q i = Q k → i = k
  distinctP : ∀ i < nP, ∀ k < nP, P i = P k → i = k
  disjoint : ∀ i < nQ, ∀ j < nP, Q i ≠ P j

theorem GoodPair.symm {nQ nP : ℕ} {Q P : ℕ → ℕ} (h : GoodPair nQ Q nP P) : GoodPair nP P nQ Q :=
  ⟨h.primeP, h.oddP, h.lt61P, h.primeQ, h.oddQ, h.lt61Q, h.distinctP, h.distinctQ,
    fun i hi j hj e => h.disjoint j hj i hi e.symm⟩

theorem GoodPair.goodMod {nQ nP : ℕ} {Q P : ℕ → ℕ} (h : GoodPair nQ Q nP P) (i : ℕ) (hi : i < nQ) :
    GoodMod (Q i) := ⟨h.oddQ i hi, (h.primeQ i hi).one_lt, h.lt61Q i hi⟩

theorem GoodPair.not_dvd {nQ nP : ℕ} {Q P : ℕ → ℕ} (h : GoodPair nQ Q nP P) (i : ℕ) (hi : i < nQ) (j : ℕ)
    (hj : j < nP) : ¬ Q i ∣ P j := fun hd =>
  h.disjoint i hi j hj ((Nat.prime_dvd_prime_iff_eq (h.primeQ i hi) (h.primeP j hj)).mp hd)

theorem GoodPair.goodBasis {nQ nP : ℕ} {Q P : ℕ → ℕ} (h : GoodPair nQ Q nP P) (s n : ℕ) (h1 : 1 ≤ n) (h32 : n ≤ 32)
    (hn : s + n ≤ nQ) (hs : ∑ k ∈ range n, Q (s + k) ≤ W64) : GoodBasis n fun k => Q (s + k) where
  pos := h1
  le32 := h32
  prime := fun j hj => h.primeQ _ (by omega)
  odd := fun j hj => h.oddQ _ (by omega)
  lt61 := fun j hj => h.lt61Q _ (by omega)
  distinct := fun j hj k hk e => by have := h.distinctQ _ (by omega) _ (by omega) e; omega
  sum := hs

theorem modDownQPtoQ_uniform (fm : FloatModel) (nQ : ℕ) (Q : ℕ → ℕ) (nP : ℕ) (P : ℕ → ℕ) (levelQ levelP : ℕ)
    (hQ : levelQ < nQ) (hP : levelP < nP) (h : GoodPair nQ Q nP P) (h32 : levelP + 1 ≤ 32)
    (hs : ∑ k ∈ range (levelP + 1), P k ≤ W64)
    (xQ xP : ℕ → ℕ) (hxQ : ∀ i ≤ levelQ, xQ i ≤ 2 * Q i) (hxP : ∀ j ≤ levelP, xP j < W64) :
    ∃ X : ℤ, (∀ j ≤ levelP, X ≡ xP j [ZMOD P j]) ∧ NearRange X (mprod (levelP + 1) P) ∧
      ∃ g, (∀ pool out, modDownQPtoQ fm nQ Q nP P levelQ levelP xQ xP pool out = .ok (overlay (levelQ + 1) g out)) ∧
        (∀ i ≤ levelQ, g i < Q i ∧ (g i : ℤ) * mprod (levelP + 1) P ≡ xQ i - X [ZMOD Q i]) := by
  have hB : GoodBasis (levelP + 1) P := by
    have := h.symm.goodBasis 0 (levelP + 1) (by omega) h32 (by omega) (by simpa using hs)
    simpa using this
  obtain ⟨X, x1, x2, g, p1, p2⟩ := modUp_uniform fm nP P nQ Q levelP levelQ hP hQ hB
    (fun i hi => h.goodMod i (by omega)) xP hxP
  refine ⟨X, x1, x2, fun i => modDownStep (Q i) (xQ i) (g i) (modDownParam P (Q i) levelP), ?_, ?_⟩
  · intro pool out
    have hex : ∀ i ≤ levelQ, (Go.andThen (Go.idx (modDownTable nQ Q nP P) levelP) fun row =>
        Go.andThen (Go.idx row i) fun param =>
          (.ok (modDownStep (Q i) (xQ i) (overlay (levelQ + 1) g pool i) param) : Go ℕ)) =
        .ok (modDownStep (Q i) (xQ i) (g i) (modDownParam P (Q i) levelP)) := by
      intro i hi
      have e1 : (modDownTable nQ Q nP P)[levelP]? = some ((List.range nQ).map fun i => modDownParam P (Q i) levelP) := by
        unfold modDownTable
        rw [List.getElem?_map, List.getElem?_range hP, Option.map_some]
      have e2 : ((List.range nQ).map fun i => modDownParam P (Q i) levelP)[i]? = some (modDownParam P (Q i) levelP) := by
        rw [List.getElem?_map, List.getElem?_range (by omega), Option.map_some]
      rw [Go.idx_ok e1, Go.andThen_ok, Go.idx_ok e2, Go.andThen_ok, overlay_lt _ _ (by omega)]
    unfold modDownQPtoQ
    rw [p1, Go.andThen_ok]
    refine (Go.fill_ok _ (fun i => modDownStep (Q i) (xQ i) (g i) (modDownParam P (Q i) levelP)) out _
      fun i hi => hex i (by have := List.mem_range.mp hi; omega)).trans ?_
    congr 1
    funext i
    simp only [List.mem_range, overlay]
  · intro i hi
    have hin : i < nQ := by omega
    obtain ⟨d1, d2⟩ := modDownParam_spec P (Q i) (h.primeQ i hin) (h.oddQ i hin)
      ((h.lt61Q i hin).trans (by norm_num)) levelP (fun k hk => h.not_dvd i hin k (by omega))
    obtain ⟨s1, s2⟩ := modDownStep_spec (h.oddQ i hin) (h.lt61Q i hin) (hxQ i hi) (p2 i hi).2 d1 d2
    exact ⟨s1, s2.trans ((p2 i hi).1.sub_left _)⟩

theorem modDownQPtoQ_spec (fm : FloatModel) (nQ : ℕ) (Q : ℕ → ℕ) (nP : ℕ) (P : ℕ → ℕ) (levelQ levelP : ℕ)
    (hQ : levelQ < nQ) (hP : levelP < nP) (h : GoodPair nQ Q nP P) (h32 : levelP + 1 ≤ 32)
    (hs : ∑ k ∈ range (levelP + 1), P k ≤ W64)
    (xQ xP pool out : ℕ → ℕ) (hxQ : ∀ i ≤ levelQ, xQ i ≤ 2 * Q i) (hxP : ∀ j ≤ levelP, xP j < W64) :
    ∃ X : ℤ, (∀ j ≤ levelP, X ≡ xP j [ZMOD P j]) ∧ NearRange X (mprod (levelP + 1) P) ∧
      ∃ out', modDownQPtoQ fm nQ Q nP P levelQ levelP xQ xP pool out = .ok out' ∧
        (∀ i ≤ levelQ, out' i < Q i ∧ (out' i : ℤ) * mprod (levelP + 1) P ≡ xQ i - X [ZMOD Q i]) ∧
        ∀ i, levelQ < i → out' i = out i := by
  obtain ⟨X, h1, h2, g, h3, h4⟩ := modDownQPtoQ_uniform fm nQ Q nP P levelQ levelP hQ hP h h32 hs xQ xP hxQ hxP
  refine ⟨X, h1, h2, _, h3 pool out, fun j hj => ?_, fun j hj => overlay_ge _ _ (by omega)⟩
  rw [overlay_lt _ _ (by omega)]; exact h4 j hj

theorem modDownQPtoP_spec (fm : FloatModel) (nQ : ℕ) (Q : ℕ → ℕ) (nP : ℕ) (P : ℕ → ℕ) (levelQ levelP : ℕ)
    (hQ : levelQ < nQ) (hP : levelP < nP) (hPQ : levelP < nQ) (h : GoodPair nQ Q nP P) (h32 : levelQ + 1 ≤ 32)
    (hs : ∑ k ∈ range (levelQ + 1), Q k ≤ W64)
    (xQ xP pool out : ℕ → ℕ) (hxP : ∀ i ≤ levelP, xP i ≤ 2 * P i) (hxQ : ∀ j ≤ levelQ, xQ j < W64) :
    ∃ X : ℤ, (∀ j ≤ levelQ, X ≡ xQ j [ZMOD Q j]) ∧ NearRange X (mprod (levelQ + 1) Q) ∧
      ∃ out', modDownQPtoP fm nQ Q nP P levelQ levelP xQ xP pool out = .ok out' ∧
        (∀ i ≤ levelP, out' i < P i ∧ (out' i : ℤ) * mprod (levelP + 1) Q ≡ xP i - X [ZMOD P i]) ∧
        ∀ i, levelP < i → out' i = out i := by
  have hB : GoodBasis (levelQ + 1) Q := by
    have := h.goodBasis 0 (levelQ + 1) (by omega) h32 (by omega) (by simpa using hs)
    simpa using this
  obtain ⟨X, x1, x2, pool', p1, p2, _⟩ := modUp_spec fm nQ Q nP P levelQ levelP hQ hP hB
    (fun i hi => h.symm.goodMod i (by omega)) xQ pool hxQ
  refine ⟨X, x1, x2, ?_⟩
  have hex : ∀ i ≤ levelP, (Go.andThen (Go.idx (modDownTable nP P nQ Q) levelP) fun row =>
      Go.andThen (Go.idx row i) fun param => (.ok (modDownStep (P i) (xP i) (pool' i) param) : Go ℕ)) =
      .ok (modDownStep (P i) (xP i) (pool' i) (modDownParam Q (P i) levelP)) := by
    intro i hi
    have e1 : (modDownTable nP P nQ Q)[levelP]? = some ((List.range nP).map fun i => modDownParam Q (P i) levelP) := by
      unfold modDownTable
      rw [List.getElem?_map, List.getElem?_range hPQ, Option.map_some]
    have e2 : ((List.range nP).map fun i => modDownParam Q (P i) levelP)[i]? = some (modDownParam Q (P i) levelP) := by
      rw [List.getElem?_map, List.getElem?_range (by omega), Option.map_some]
    rw [Go.idx_ok e1, Go.andThen_ok, Go.idx_ok e2, Go.andThen_ok]
  refine ⟨fun i => if i ∈ List.range (levelP + 1) then modDownStep (P i) (xP i) (pool' i) (modDownParam Q (P i) levelP)
    else out i, ?_, ?_, ?_⟩
  · unfold modDownQPtoP
    rw [p1, Go.andThen_ok]
    exact Go.fill_ok _ _ out _ fun i hi => hex i (by have := List.mem_range.mp hi; omega)
  · intro i hi
    have hi' : i < levelP + 1 := by omega
    simp only [List.mem_range, hi', if_true]
    have hin : i < nP := by omega
    obtain ⟨d1, d2⟩ := modDownParam_spec Q (P i) (h.primeP i hin) (h.oddP i hin)
      ((h.lt61P i hin).trans (by norm_num)) levelP (fun k hk => h.symm.not_dvd i hin k (by omega))
    obtain ⟨s1, s2⟩ := modDownStep_spec (h.oddP i hin) (h.lt61P i hin) (hxP i hi) (p2 i hi).2 d1 d2
    exact ⟨s1, s2.trans ((p2 i hi).1.sub_left _)⟩
  · intro i hi
    have : ¬ i < levelP + 1 := by omega
    simp [this]

end MKHE
