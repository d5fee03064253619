import Verif.Lemmas.BfvNoise
import Verif.Props.BfvKeyGen
import Verif.Props.KeySets
import Verif.Lemmas.Fresh

set_option autoImplicit false

/-!
# BFV multiplication: C43 (basis conversions), C44 (recombination), C45 (noise), C46 (hoisted = plain)
-/

namespace MKHE
open Finset Nega

variable {N : ℕ} [NeZero N] {B : BCtx N}

/-! ## C43 -/
namespace C43

/-- **C43, ModUpQtoR.** For every polynomial with all rows of Q and every content of the pool, the conversion succeeds, and the words of all
rows of Q and QMul are congruent to one integer polynomial `X` (and below three times the prime), with `|X| <= 2Q` and `X` congruent to the
input modulo every prime of Q. -/
theorem modUpQtoR (V : B.Valid) (a : Poly B.C) (ha : B.C.nQ ≤ a.len) :
    ∃ (r : PolyR N) (X : Nega N ℤ), (∀ pool, MKHE.modUpQtoR B pool a = .ok r) ∧
      (∀ i < B.C.nQ, ∀ x, (r.Q i x : ℤ) ≡ X x [ZMOD B.C.q i] ∧ r.Q i x < 3 * B.C.q i) ∧
      (∀ j < B.C.nQ, ∀ x, (r.M j x : ℤ) ≡ X x [ZMOD B.m j] ∧ r.M j x < 3 * B.m j) ∧
      (∀ x, |X x| ≤ 2 * B.Q) ∧ ∀ i < B.C.nQ, red (B.C.q i) X = cf (a.rows i) := by
  obtain ⟨r, X, h1, h2, h3, h4⟩ := modUpQtoR_spec V a ha
  exact ⟨r, X, h1, fun i hi x => h2.q i hi x, fun j hj x => h2.m j hj x, h3, h4⟩

/-- **C43, Rescale.** The result represents one integer polynomial `Y` with `|Y| <= 2 QMul` and `Q*Y = QMul*x' - X` where `x'` is congruent to
the input modulo every prime of Q and `|X| <= 2Q`: `Y` is `QMul*x'/Q` up to an error of at most 2 in each coefficient. -/
theorem rescale (V : B.Valid) (a : Poly B.C) (ha : B.C.nQ ≤ a.len) :
    ∃ (r : PolyR N) (Y x' X : Nega N ℤ), (∀ poolM poolQ, rescaleR B poolM poolQ a = .ok r) ∧
      (∀ i < B.C.nQ, ∀ x, (r.Q i x : ℤ) ≡ Y x [ZMOD B.C.q i] ∧ r.Q i x < 3 * B.C.q i) ∧
      (∀ j < B.C.nQ, ∀ x, (r.M j x : ℤ) ≡ Y x [ZMOD B.m j] ∧ r.M j x < 3 * B.m j) ∧
      (∀ x, |Y x| ≤ 2 * B.QMul) ∧ (∀ x, |X x| ≤ 2 * B.Q) ∧ (∀ x, B.Q * Y x = B.QMul * x' x - X x) ∧
      ∀ i < B.C.nQ, red (B.C.q i) x' = cf (a.rows i) := by
  obtain ⟨r, Y, x', X, h1, h2, h3, h4, h5, h6⟩ := rescaleR_spec V a ha
  refine ⟨r, Y, x', X, h1, fun i hi x => h2.q i hi x, fun j hj x => h2.m j hj x, h3, h4, fun x => ?_, h6⟩
  have := congrFun h5 x
  rw [natCast_mul_apply] at this
  rw [this, Nega.sub_apply, natCast_mul_apply]

/-- **C43, Quantize.** If the NTT rows represent an integer polynomial `W` modulo every prime of R, the rows written (all of Q, whatever the
old rows `c` and the pool) are reduced and represent `O` with `QMul*O = T*W - L`, `|L| <= 2 QMul`: `T*W/QMul` up to an error of at most 2. -/
theorem quantize (V : B.Valid) {a : RowsR B} {W : Nega N ℤ} (hq : ∀ i < B.C.nQ, (B.C.RQ i).ev (a.Q i) = red (B.C.q i) W)
    (hm : ∀ j < B.C.nQ, (B.RM j).ev (a.M j) = red (B.m j) W) :
    ∃ (r : QRows B.C) (O L : Nega N ℤ), (∀ pool c, ∃ c', MKHE.quantize pool a c = .ok c' ∧ ∀ i < B.C.nQ, c' i = r i) ∧
      (∀ i < B.C.nQ, (r i).Canon) ∧ (∀ x, |L x| ≤ 2 * B.QMul) ∧ (∀ x, B.QMul * O x = B.t * W x - L x) ∧
      ∀ i < B.C.nQ, cf (r i) = red (B.C.q i) O := by
  obtain ⟨h1, O, L, h2, h3, h4⟩ := quantG_spec V ⟨hq, hm⟩
  have e := V.top_succ
  refine ⟨quantG a, O, L, fun pool c => ⟨_, quantize_run V a pool c, fun i hi => setQ_le _ _ (by omega)⟩, h1, h2, fun x => ?_, h4⟩
  have := congrFun h3 x
  rw [natCast_mul_apply] at this
  rw [this, Nega.sub_apply, natCast_mul_apply]

end C43

/-! ## C44, recombination -/
namespace C44

/-- **C44, what the gadget vector does.** For every element of R (raw words representing the integer polynomial `X`), the `2*beta` digits that
the decomposition writes, one integer polynomial `D_k` per block bounded by `3*blockR k`, satisfy
`QMul * Σ_k G_k D_k = T*P*X - Σ_k rho_k D_k` modulo `T*P*Q*QMul`. -/
theorem recombination (V : B.Valid) {G g rho : ℕ → ℕ} (hG : BfvGadget B G g rho) {a : PolyR N} {X : Nega N ℤ} (ha : a.Rep B X) :
    ∃ D : ℕ → Nega N ℤ, (∀ k < 2 * B.bt, Bdd (D k) (3 * B.blockR k) ∧ ∃ d, (∀ old, decomposeSingleR B B.top k a old = .ok d) ∧
        (∀ i < B.C.nQ, (B.C.RQ i).ev (d.Q i) = red (B.C.q i) (D k)) ∧ ∀ j < B.C.nP, (B.C.RP j).ev (d.P j) = red (B.C.p j) (D k)) ∧
      ∃ K : Nega N ℤ, (B.QMul : Nega N ℤ) * ∑ k ∈ range (2 * B.bt), (G k : Nega N ℤ) * D k =
        (B.t : Nega N ℤ) * (B.C.P : Nega N ℤ) * (X + (B.Q : Nega N ℤ) * (B.QMul : Nega N ℤ) * K)
          - ∑ k ∈ range (2 * B.bt), (rho k : Nega N ℤ) * D k := by
  have hα := V.qp.alpha_pos
  have hbt : B.bt * B.C.alpha = B.C.nQ := V.betaTop
  have e := V.top_succ
  have hD : ∀ k, ∃ D, k < 2 * B.bt → Bdd D (3 * B.blockR k) ∧ (∀ i < 2 * B.C.nQ, i / B.C.alpha = k → ∀ x, D x ≡ X x [ZMOD B.r i]) ∧
      Holds B.C B.top (digRG k a) D := by
    intro k
    by_cases hk : k < 2 * B.bt
    · obtain ⟨D, h⟩ := (decomposeSingleR_spec V hk ha).2; exact ⟨D, fun _ => h⟩
    · exact ⟨0, fun h => absurd h hk⟩
  choose D hD using hD
  refine ⟨D, fun k hk => ⟨(hD k hk).1, digRG k a, (decomposeSingleR_spec V hk ha).1,
    fun i hi => (hD k hk).2.2.q i (by omega), (hD k hk).2.2.p⟩, ?_⟩
  obtain ⟨K, hK⟩ := hG.sum V D X (fun i hi => by
    have hk : i / B.C.alpha < 2 * B.bt := by
      rw [Nat.div_lt_iff_lt_mul hα]
      have : 2 * B.bt * B.C.alpha = 2 * B.C.nQ := by rw [mul_assoc, hbt]
      omega
    exact Nega.ext fun x => by
      rw [red_apply, red_apply]; exact (ZMod.intCast_eq_intCast_iff _ _ _).mpr ((hD _ hk).2.1 i hi rfl x))
  refine ⟨K, ?_⟩
  have hR : (B.R : Nega N ℤ) = (B.Q : Nega N ℤ) * (B.QMul : Nega N ℤ) := by
    unfold BCtx.R; push_cast; rfl
  rw [← hR, ← hK, mul_sum, mul_sum, ← sum_sub_distrib]
  refine sum_congr rfl fun k hk => ?_
  have h2 := congrArg (fun n : ℕ => (n : Nega N ℤ)) (hG.eq k (mem_range.mp hk))
  push_cast at h2
  linear_combination (D k) * h2

end C44

/-! ## C46 -/
namespace C46
variable {crs : GoMap ℤ (Swk B.C)} {ct0 ct1 out : Ct B.C} {set : BRlkMap B}

/-- **C46.** `mulRelin` and `mulRelinHoisted` succeed and return the same ciphertext, word for word in every component, for all operands,
key sets, map iteration orders and (independently chosen) contents of the scratch memory. -/
theorem hoisted_eq_plain (V : B.Valid) (o o' : Sched String) (S S' : BScratch B) (hS : S.Alloc) (hS' : S'.Alloc)
    (H : BMulHyp crs ct0 ct1 set out) :
    ∃ out1 S1 out2 S2, bfvMulRelin crs o S ct0 ct1 set out = .ok (out1, S1) ∧
      bfvMulRelinHoisted crs o' S' ct0 ct1 set out = .ok (out2, S2) ∧ ∀ id, out1.lookup id = out2.lookup id := by
  obtain ⟨out1, S1, a1, a2⟩ := bfvMulRelin_run V o S hS H
  obtain ⟨out2, S2, b1, b2⟩ := bfvMulRelinHoisted_run V o' S' hS' H
  exact ⟨out1, S1, out2, S2, a1, b1, bmulRes_unique H.ids a2 b2⟩

end C46

/-! ## C45 -/
namespace C45

/-- the relinearization keys of the parties are in the set and satisfy the key equations, for a BFV gadget vector, secrets `s`, `r` bounded by
`Sb`, `Rb`, key errors bounded by `Be` and `u` the common reference string of index -1 -/
structure Keys (crs : GoMap ℤ (Swk B.C)) (ids : Finset String) (set : BRlkMap B) (s r : String → Nega N ℤ) (a : ℕ → PolyQP B.C)
    (Sb Rb Be : ℤ) : Prop where
  u : ∃ u G g rho, crs.lookup (-1) = some u ∧ B.bt ≤ u.len ∧ BfvGadget B G g rho ∧
    ∀ id ∈ ids, ∃ key, set.value.lookup id = some key ∧ key.Rel (s id) (r id) a u.val G Be
  s : ∀ id ∈ ids, Bdd (s id) Sb
  r : ∀ id ∈ ids, Bdd (r id) Rb

/-- the pools of the key set have an entry for every party -/
structure Pools (ids : Finset String) (set : BRlkMap B) : Prop where
  zero1 : "0" ∈ set.polyR1
  zero2 : "0" ∈ set.polyR2
  pool1 : ∀ id ∈ ids, id ∈ set.polyR1
  pool2 : ∀ id ∈ ids, id ∈ set.polyR2
  h10 : ∀ id ∈ ids, ∃ s, set.hoist10.lookup id = some s ∧ B.bt ≤ s.len
  h11 : ∀ id ∈ ids, ∃ s, set.hoist11.lookup id = some s ∧ B.bt ≤ s.len
  h20 : ∀ id ∈ ids, ∃ s, set.hoist20.lookup id = some s ∧ B.bt ≤ s.len
  h21 : ∀ id ∈ ids, ∃ s, set.hoist21.lookup id = some s ∧ B.bt ≤ s.len

/-- **Pools, from the history.** Any sequence of `AddRelinearizationKey` and `DelRelinearizationKey` on a new key set leaves pools for every party
that has a key. -/
theorem pools (h : List (C04.Op (BRlk B.C) String)) (z : PolyR N) (fresh : Swk B.C) (hf : B.bt ≤ fresh.len) (ids : Finset String)
    (hids : ∀ id ∈ ids, id ∈ (C04.runBfvRlk (fun k : BRlk B.C => k.id) z fresh h).value) :
    Pools ids (C04.runBfvRlk (fun k : BRlk B.C => k.id) z fresh h) := by
  have hc := fun id => C04.pools_cover_keys (fun k : BRlk B.C => k.id) h fresh z id
  have key : ∀ id w, ((C04.runBfvRlk (fun k : BRlk B.C => k.id) z fresh h).hoist10.lookup id = some w → w = fresh) ∧
      ((C04.runBfvRlk (fun k : BRlk B.C => k.id) z fresh h).hoist11.lookup id = some w → w = fresh) ∧
      ((C04.runBfvRlk (fun k : BRlk B.C => k.id) z fresh h).hoist20.lookup id = some w → w = fresh) ∧
      ((C04.runBfvRlk (fun k : BRlk B.C => k.id) z fresh h).hoist21.lookup id = some w → w = fresh) := by
    clear hids hc
    induction h using List.reverseRecOn with
    | nil => intro id w; refine ⟨?_, ?_, ?_, ?_⟩ <;> intro h <;> cases h
    | append_singleton h op ih =>
      intro id w
      have ih := ih id w
      unfold C04.runBfvRlk at *
      rw [List.foldl_append]
      cases op with
      | add k =>
        simp only [List.foldl_cons, List.foldl_nil, BfvRlkSet.add, GoMap.lookup_insert']
        split_ifs
        · simp_all
        · exact ih
      | del a => exact ih
  have get : ∀ (m : GoMap String (Swk B.C)) id, id ∈ m → (∀ w, m.lookup id = some w → w = fresh) → ∃ s, m.lookup id = some s ∧ B.bt ≤ s.len := by
    intro m id hm hw
    obtain ⟨w, hw1⟩ := Option.isSome_iff_exists.mp (AList.lookup_isSome.mpr hm)
    exact ⟨w, hw1, by rw [hw w hw1]; exact hf⟩
  refine ⟨(hc "0").2.2.1, (hc "0").2.2.2, fun id hid => ?_, fun id hid => ?_, fun id hid => ?_, fun id hid => ?_, fun id hid => ?_, fun id hid => ?_⟩
  all_goals
    obtain ⟨c1, c2, c3, c4, c5, c6⟩ := (hc id).2.1 (hids id hid)
  · exact c5
  · exact c6
  · exact get _ id c1 fun w => (key id w).1
  · exact get _ id c2 fun w => (key id w).2.1
  · exact get _ id c3 fun w => (key id w).2.2.1
  · exact get _ id c4 fun w => (key id w).2.2.2

variable {crs : GoMap ℤ (Swk B.C)} {ct0 ct1 : Ct B.C} {set : BRlkMap B} {s r : String → Nega N ℤ} {a : ℕ → PolyQP B.C} {Sb Rb Be : ℤ}

theorem mulHyp (h0 : ct0.AtLevel B.top) (h1 : ct1.AtLevel B.top) {out : Ct B.C} (hout : out.AtLevel B.top)
    (hids : out.ids = ct0.ids ∪ ct1.ids) (K : Keys crs (ct0.ids ∪ ct1.ids) set s r a Sb Rb Be) (P : Pools (ct0.ids ∪ ct1.ids) set) :
    BMulHyp crs ct0 ct1 set out := by
  obtain ⟨u, G, g, rho, u1, u2, u3, u4⟩ := K.u
  refine ⟨h0, h1, hout, hids, fun id hid => ?_, ⟨u, u1, u2⟩, P.zero1, P.zero2, P.pool1, P.pool2, P.h10, P.h11, P.h20, P.h21⟩
  obtain ⟨key, k1, k2⟩ := u4 id hid
  exact ⟨key, k1, k2.lenb1, k2.lenb2, k2.lend1, k2.lend2, k2.lenv⟩

/-- size of the integer lift of the phase of an operand with `n` parties -/
def liftBound (N Q : ℕ) (n : ℕ) (Sb : ℤ) : ℤ := Q + n * (N * Q * Sb)

/-- bound on `QMul*P*|E|` for the error of a BFV product -/
def noise (B : BCtx N) (n0 n1 nU : ℕ) (D Sb Rb Be : ℤ) : ℤ :=
  B.Q * bmulNoise N B.C.P B.QMul n0 n1 nU B.bt D Sb Rb Be +
    B.t * (B.C.P * (N * (2 * liftBound N B.Q n0 Sb) * (2 * liftBound N B.Q n1 Sb)))

/-- the phase of what both multiplications write -/
theorem bmul_phase (V : B.Valid) (h0 : ct0.AtLevel B.top) (h1 : ct1.AtLevel B.top) {out out' : Ct B.C} (hout : out.AtLevel B.top)
    (hids : out.ids = ct0.ids ∪ ct1.ids) (K : Keys crs (ct0.ids ∪ ct1.ids) set s r a Sb Rb Be)
    {D : ℤ} (hD : ∀ k < 2 * B.bt, 3 * (B.blockR k : ℤ) ≤ D) (hres : BMulRes out (bmulIn crs ct0 ct1 set.value) out') :
    out'.AtLevel B.top ∧ out'.ids = ct0.ids ∪ ct1.ids ∧ ∃ Φ Φ0 Φ1 E : Nega N ℤ,
      (∀ i < B.C.nQ, out'.phase s i = red (B.C.q i) Φ) ∧ (∀ i < B.C.nQ, ct0.phase s i = red (B.C.q i) Φ0) ∧
      (∀ i < B.C.nQ, ct1.phase s i = red (B.C.q i) Φ1) ∧ Bdd Φ0 (2 * liftBound N B.Q ct0.ids.card Sb) ∧
      Bdd Φ1 (3 * liftBound N B.Q ct1.ids.card Sb) ∧ (B.Q : Nega N ℤ) * Φ = (B.t : Nega N ℤ) * (Φ0 * Φ1) + E ∧
      ∀ x, B.QMul * B.C.P * |E x| ≤ noise B ct0.ids.card ct1.ids.card (ct0.ids ∪ ct1.ids).card D Sb Rb Be := by
  obtain ⟨r1, r2, r3⟩ := bmulRes_comp (M := bmulIn crs ct0 ct1 set.value) hout hids hres
  refine ⟨r1, r2, ?_⟩
  have e := V.top_succ
  set M := bmulIn crs ct0 ct1 set.value with hM
  -- the lifted operands
  have hA0 : ∀ id, ∃ X : Nega N ℤ, id ∈ ct0.ids ∨ id = "0" → (M.a0 id).Rep B X ∧ Bdd X (2 * B.Q) ∧
      ∀ i < B.C.nQ, red (B.C.q i) X = cf (ct0.comp id i) := by
    intro id
    by_cases h : id ∈ ct0.ids ∨ id = "0"
    · have hm : id ∈ ct0 := by
        rcases h with h | h
        · exact (Ct.mem_ids.mp h).1
        · rw [h]; exact h0.has0
      obtain ⟨p, hp⟩ := Ct.get hm
      obtain ⟨X, x1, x2, x3⟩ := (liftOf_spec V p (by rw [h0.len _ _ hp]; omega)).2
      refine ⟨X, fun _ => ⟨?_, x2, fun i hi => by rw [x3 i hi, h0.toCoeff.comp hp]⟩⟩
      have : M.a0 id = liftOf p := liftCt_eq hp
      rw [this]; exact x1
    · exact ⟨0, fun hh => absurd hh h⟩
  have hA1 : ∀ id, ∃ Y x' X : Nega N ℤ, id ∈ ct1.ids ∨ id = "0" → (M.a1 id).Rep B Y ∧ Bdd Y (2 * B.QMul) ∧ Bdd X (2 * B.Q) ∧
      (B.Q : Nega N ℤ) * Y = (B.QMul : Nega N ℤ) * x' - X ∧ ∀ i < B.C.nQ, red (B.C.q i) x' = cf (ct1.comp id i) := by
    intro id
    by_cases h : id ∈ ct1.ids ∨ id = "0"
    · have hm : id ∈ ct1 := by
        rcases h with h | h
        · exact (Ct.mem_ids.mp h).1
        · rw [h]; exact h1.has0
      obtain ⟨p, hp⟩ := Ct.get hm
      obtain ⟨Y, x', X, x1, x2, x3, x4, x5⟩ := (rescOf_spec V p (by rw [h1.len _ _ hp]; omega)).2
      refine ⟨Y, x', X, fun _ => ⟨?_, x2, x3, x4, fun i hi => by rw [x5 i hi, h1.toCoeff.comp hp]⟩⟩
      have : M.a1 id = rescOf p := rescCt_eq hp
      rw [this]; exact x1
    · exact ⟨0, 0, 0, fun hh => absurd hh h⟩
  choose A0 hA0 using hA0
  choose A1 x' X hA1 using hA1
  obtain ⟨u, G, g, rho, u1, u2, u3, u4⟩ := K.u
  have HK : BMulKeys M s r a G g rho A0 A1 D Sb Rb Be := by
    refine ⟨ct0.zero_notMem_ids, ct1.zero_notMem_ids, u3, fun id hid => ?_, fun id hid => ?_, fun id hid => ?_,
      fun id hid => (hA0 id hid).1, fun id hid => (hA1 id hid).1, fun _ => rfl, fun _ => rfl, hD, K.s,
      fun id hid => K.r id (mem_union_left _ hid)⟩
    · obtain ⟨key, k1, k2⟩ := u4 id (mem_union_left _ hid)
      have : M.d id = comb B.bt key.k1.d.val key.k2.d.val := by simp [hM, bmulIn, bkeyFor, k1]
      rw [this]; exact k2.d
    · obtain ⟨key, k1, k2⟩ := u4 id (mem_union_left _ hid)
      have : M.v id = key.k1.v.val := by simp [hM, bmulIn, bkeyV, k1]
      have h' : M.u = u.val := by simp [hM, bmulIn, u1]
      rw [this, h']; exact k2.v
    · obtain ⟨key, k1, k2⟩ := u4 id (mem_union_right _ hid)
      have : M.b id = comb B.bt key.k1.b.val key.k2.b.val := by simp [hM, bmulIn, bkeyFor, k1]
      rw [this]; exact k2.b
  obtain ⟨Φ, Err, b1, b2, b3⟩ := bmul_noise V M s r a G g rho A0 A1 D Sb Rb Be HK
  have i0 : M.ids0 = ct0.ids := rfl
  have i1 : M.ids1 = ct1.ids := rfl
  rw [i0, i1] at b1 b2 b3
  set Φ0 : Nega N ℤ := A0 "0" + ∑ id ∈ ct0.ids, A0 id * s id with hΦ0
  set Y : Nega N ℤ := A1 "0" + ∑ id ∈ ct1.ids, A1 id * s id with hY
  set Φ1 : Nega N ℤ := x' "0" + ∑ id ∈ ct1.ids, x' id * s id with hΦ1
  set Ξ : Nega N ℤ := X "0" + ∑ id ∈ ct1.ids, X id * s id with hΞ
  have sa : ∀ id ∈ ct0.ids, Bdd (s id) Sb := fun id h => K.s id (mem_union_left _ h)
  have sb : ∀ id ∈ ct1.ids, Bdd (s id) Sb := fun id h => K.s id (mem_union_right _ h)
  have hQY : (B.Q : Nega N ℤ) * Y = (B.QMul : Nega N ℤ) * Φ1 - Ξ := by
    have h2 : (B.Q : Nega N ℤ) * ∑ id ∈ ct1.ids, A1 id * s id =
        (B.QMul : Nega N ℤ) * (∑ id ∈ ct1.ids, x' id * s id) - ∑ id ∈ ct1.ids, X id * s id := by
      rw [mul_sum, mul_sum, ← sum_sub_distrib]
      refine sum_congr rfl fun id hid => ?_
      linear_combination (s id) * (hA1 id (.inl hid)).2.2.2.1
    rw [hY, hΦ1, hΞ]
    linear_combination h2 + (hA1 "0" (.inr rfl)).2.2.2.1
  have bd0 : Bdd Φ0 (2 * liftBound N B.Q ct0.ids.card Sb) := by
    have h2 := (hA0 "0" (.inr rfl)).2.1.add (Bdd.sum_const ct0.ids (fun id => A0 id * s id) _
      (fun id hid => (hA0 id (.inl hid)).2.1.mul (sa id hid)))
    refine h2.mono (le_of_eq ?_)
    unfold liftBound; ring
  have bdΞ : Bdd Ξ (2 * liftBound N B.Q ct1.ids.card Sb) := by
    have h2 := (hA1 "0" (.inr rfl)).2.2.1.add (Bdd.sum_const ct1.ids (fun id => X id * s id) _
      (fun id hid => (hA1 id (.inl hid)).2.2.1.mul (sb id hid)))
    refine h2.mono (le_of_eq ?_)
    unfold liftBound; ring
  have hQM : 2 ≤ B.QMul := by
    have hq1 := V.qp.q1
    have h3 : B.m 0 ∣ B.QMul := Finset.dvd_prod_of_mem _ (mem_range.mpr (by omega))
    exact (V.qm.primeP 0 (by omega)).two_le.trans (Nat.le_of_dvd V.QMul_pos h3)
  have bdx : ∀ id, id ∈ ct1.ids ∨ id = "0" → Bdd (x' id) (3 * B.Q) := by
    intro id hid y
    obtain ⟨-, y1, y2, y3, -⟩ := hA1 id hid
    have h3 := congrFun y3 y
    rw [natCast_mul_apply, Nega.sub_apply, natCast_mul_apply] at h3
    have h4 := abs_le.mp (y1 y)
    have h5 := abs_le.mp (y2 y)
    have hQ0 : (0 : ℤ) ≤ B.Q := by positivity
    have hM2 : (2 : ℤ) ≤ B.QMul := by exact_mod_cast hQM
    rw [abs_le]
    constructor <;> nlinarith [mul_le_mul_of_nonneg_left h4.1 hQ0, mul_le_mul_of_nonneg_left h4.2 hQ0]
  have bd1 : Bdd Φ1 (3 * liftBound N B.Q ct1.ids.card Sb) := by
    have h2 := (bdx "0" (.inr rfl)).add (Bdd.sum_const ct1.ids (fun id => x' id * s id) _
      (fun id hid => (bdx id (.inl hid)).mul (sb id hid)))
    refine h2.mono (le_of_eq ?_)
    unfold liftBound; ring
  refine ⟨Φ, Φ0, Φ1, (B.Q : Nega N ℤ) * Φ - (B.t : Nega N ℤ) * (Φ0 * Φ1), fun i hi => ?_, fun i hi => ?_, fun i hi => ?_, bd0, bd1,
    by ring, fun y => ?_⟩
  · rw [phase_eq_rows, r2, ← b3 i hi]
    exact phaseRows_congr fun id hid => r3 id hid i (by omega)
  · rw [phase_eq_rows, hΦ0]
    unfold phaseRows
    rw [map_add, map_sum, (hA0 "0" (.inr rfl)).2.2 i hi]
    congr 1
    exact sum_congr rfl fun id hid => by rw [map_mul, (hA0 id (.inl hid)).2.2 i hi]
  · rw [phase_eq_rows, hΦ1]
    unfold phaseRows
    rw [map_add, map_sum, (hA1 "0" (.inr rfl)).2.2.2.2 i hi]
    congr 1
    exact sum_congr rfl fun id hid => by rw [map_mul, (hA1 id (.inl hid)).2.2.2.2 i hi]
  · have key : (B.QMul : Nega N ℤ) * ((B.C.P : Nega N ℤ) * ((B.Q : Nega N ℤ) * Φ - (B.t : Nega N ℤ) * (Φ0 * Φ1))) =
        (B.Q : Nega N ℤ) * Err - (B.t : Nega N ℤ) * ((B.C.P : Nega N ℤ) * (Φ0 * Ξ)) := by
      linear_combination (B.Q : Nega N ℤ) * b2 + (B.t : Nega N ℤ) * (B.C.P : Nega N ℤ) * Φ0 * hQY
    have hb := ((b1.natMul B.Q).sub (((bd0.mul bdΞ).natMul B.C.P).natMul B.t)) y
    rw [← key, natCast_mul_apply, natCast_mul_apply, abs_mul, abs_mul, Nat.abs_cast, Nat.abs_cast, ← mul_assoc] at hb
    exact hb

/-- **C45.** `MulRelinNew` on ciphertexts of any parties with keys from one common reference string succeeds, for every map iteration order and every
content of the scratch memory. There are integer polynomials `Φ`, `Φ0`, `Φ1`, congruent modulo every prime of Q to the phases of the result and
of the operands, with `Q*Φ = T*Φ0*Φ1 + E`, `QMul*P*|E| <= noise`. -/
theorem mulRelinNew_phase (V : B.Valid) (o : Sched String) (S : BScratch B) (hS : S.Alloc) (h0 : ct0.AtLevel B.top) (h1 : ct1.AtLevel B.top)
    (K : Keys crs (ct0.ids ∪ ct1.ids) set s r a Sb Rb Be) (P : Pools (ct0.ids ∪ ct1.ids) set)
    {D : ℤ} (hD : ∀ k < 2 * B.bt, 3 * (B.blockR k : ℤ) ≤ D) :
    ∃ out S', bfvMulRelinNew crs o S ct0 ct1 set = .ok (out, S') ∧ out.AtLevel B.top ∧ out.ids = ct0.ids ∪ ct1.ids ∧
      ∃ Φ Φ0 Φ1 E : Nega N ℤ,
      (∀ i < B.C.nQ, out.phase s i = red (B.C.q i) Φ) ∧ (∀ i < B.C.nQ, ct0.phase s i = red (B.C.q i) Φ0) ∧
      (∀ i < B.C.nQ, ct1.phase s i = red (B.C.q i) Φ1) ∧ Bdd Φ0 (2 * liftBound N B.Q ct0.ids.card Sb) ∧
      Bdd Φ1 (3 * liftBound N B.Q ct1.ids.card Sb) ∧ (B.Q : Nega N ℤ) * Φ = (B.t : Nega N ℤ) * (Φ0 * Φ1) + E ∧
      ∀ x, B.QMul * B.C.P * |E x| ≤ noise B ct0.ids.card ct1.ids.card (ct0.ids ∪ ct1.ids).card D Sb Rb Be := by
  obtain ⟨i0, i1, u, a1, a2, a3, a4, a5, a6⟩ := idset_union (o 80) (o 81) (o 82) (o 83) ct0 ct1
  have hz : "0" ∉ ct0.ids ∪ ct1.ids := by
    rw [mem_union]; exact fun h => h.elim ct0.zero_notMem_ids ct1.zero_notMem_ids
  have hA : (Ct.new (C := B.C) (o 84) u (B.C.nQ - 1)).AtLevel B.top := Ct.new_atLevel (o 84) u (B.C.nQ - 1)
  have hI : (Ct.new (C := B.C) (o 84) u (B.C.nQ - 1)).ids = ct0.ids ∪ ct1.ids := Ct.new_ids (o 84) a6 hz _
  obtain ⟨out, S', e1, e2⟩ := bfvMulRelinHoisted_run V o S hS (mulHyp h0 h1 hA hI K P)
  refine ⟨out, S', ?_, bmul_phase V h0 h1 hA hI K hD e2⟩
  unfold bfvMulRelinNew bfvNewBinary
  rw [a1, bind_ok, a2, bind_ok, a3, bind_ok, bind_ok, e1]

/-- the same for the plain multiplication into any ciphertext of the right shape -/
theorem mulRelin_phase (V : B.Valid) (o : Sched String) (S : BScratch B) (hS : S.Alloc) (h0 : ct0.AtLevel B.top) (h1 : ct1.AtLevel B.top)
    {out : Ct B.C} (hout : out.AtLevel B.top) (hids : out.ids = ct0.ids ∪ ct1.ids)
    (K : Keys crs (ct0.ids ∪ ct1.ids) set s r a Sb Rb Be) (P : Pools (ct0.ids ∪ ct1.ids) set)
    {D : ℤ} (hD : ∀ k < 2 * B.bt, 3 * (B.blockR k : ℤ) ≤ D) :
    ∃ out' S', bfvMulRelin crs o S ct0 ct1 set out = .ok (out', S') ∧ out'.AtLevel B.top ∧ out'.ids = ct0.ids ∪ ct1.ids ∧
      ∃ Φ Φ0 Φ1 E : Nega N ℤ,
      (∀ i < B.C.nQ, out'.phase s i = red (B.C.q i) Φ) ∧ (∀ i < B.C.nQ, ct0.phase s i = red (B.C.q i) Φ0) ∧
      (∀ i < B.C.nQ, ct1.phase s i = red (B.C.q i) Φ1) ∧ Bdd Φ0 (2 * liftBound N B.Q ct0.ids.card Sb) ∧
      Bdd Φ1 (3 * liftBound N B.Q ct1.ids.card Sb) ∧ (B.Q : Nega N ℤ) * Φ = (B.t : Nega N ℤ) * (Φ0 * Φ1) + E ∧
      ∀ x, B.QMul * B.C.P * |E x| ≤ noise B ct0.ids.card ct1.ids.card (ct0.ids ∪ ct1.ids).card D Sb Rb Be := by
  obtain ⟨out', S', e1, e2⟩ := bfvMulRelin_run V o S hS (mulHyp h0 h1 hout hids K P)
  exact ⟨out', S', e1, bmul_phase V h0 h1 hout hids K hD e2⟩

end C45

/-! ## C58: BFV plaintexts -/
namespace C58

/-- two integer polynomials with the same reductions modulo every prime of Q differ by a multiple of Q -/
theorem lift_unique (V : B.Valid) {X Y : Nega N ℤ} (h : ∀ i < B.C.nQ, red (B.C.q i) X = red (B.C.q i) Y) :
    ∃ K : Nega N ℤ, X = Y + (B.Q : Nega N ℤ) * K := by
  have h1 : ∀ x, (B.Q : ℤ) ∣ (X - Y) x := fun x => V.Q_dvd _ fun i hi =>
    (red_eq_zero_iff _ _).mp (by rw [map_sub, h i hi, sub_self]) x
  obtain ⟨K, hK⟩ : ∃ K : Nega N ℤ, ∀ x, (X - Y) x = B.Q * K x := by
    choose K hK using h1
    exact ⟨K, hK⟩
  refine ⟨K, ?_⟩
  have : X - Y = (B.Q : Nega N ℤ) * K := Nega.ext fun x => (hK x).trans (natCast_mul_apply B.Q K x).symm
  rw [← this]; ring

/-- **C58, decoding.** Whatever integer representative `Φ` of the phase is used, rounding `T*Φ/Q` to the nearest integer gives the encrypted
message modulo T, as soon as the noise is below `Q/2`. -/
theorem decode (V : B.Valid) {s : String → Nega N ℤ} {ct : Ct B.C} {m : Nega N ℤ} {Bd : ℤ} (h : BfvEnc B s ct m Bd) (hB : 2 * Bd < B.Q)
    {Φ : Nega N ℤ} (hΦ : ∀ i < B.C.nQ, ct.phase s i = red (B.C.q i) Φ) (x : Fin N) :
    (2 * (B.t * Φ x) + B.Q) / (2 * B.Q) ≡ m x [ZMOD B.t] := by
  obtain ⟨Φ', k, b, h1, h2, h3⟩ := h
  obtain ⟨K, hK⟩ := lift_unique V (X := Φ) (Y := Φ') fun i hi => by rw [← hΦ i hi, h3 i hi]
  have hQ : (0 : ℤ) < B.Q := by exact_mod_cast V.Q_pos
  have e1 : (B.t : ℤ) * Φ' x = B.Q * (m x + B.t * k x) + b x := by
    have := congrFun h2 x
    rwa [natCast_mul_apply, Nega.add_apply, natCast_mul_apply, Nega.add_apply, natCast_mul_apply] at this
  have e2 : Φ x = Φ' x + B.Q * K x := by
    have := congrFun hK x
    rwa [Nega.add_apply, natCast_mul_apply] at this
  have e3 : 2 * ((B.t : ℤ) * Φ x) + B.Q = (2 * b x + B.Q) + (2 * B.Q) * (m x + B.t * (k x + K x)) := by
    rw [e2]; linear_combination 2 * e1
  have hb := abs_le.mp (h1 x)
  rw [e3, Int.add_mul_ediv_left _ _ (by omega), Int.ediv_eq_zero_of_lt (by linarith) (by linarith), zero_add]
  exact (Int.modEq_iff_dvd.mpr ⟨-(k x + K x), by ring⟩)

/-- **C58, uniqueness.** A ciphertext encrypts at most one message modulo T with noise below `Q/2`. -/
theorem unique (V : B.Valid) {s : String → Nega N ℤ} {ct : Ct B.C} {m m' : Nega N ℤ} {Bd Bd' : ℤ} (h : BfvEnc B s ct m Bd)
    (h' : BfvEnc B s ct m' Bd') (hB : 2 * Bd < B.Q) (hB' : 2 * Bd' < B.Q) (x : Fin N) : m x ≡ m' x [ZMOD B.t] := by
  obtain ⟨Φ, k, b, h1, h2, h3⟩ := h
  exact (decode V ⟨Φ, k, b, h1, h2, h3⟩ hB h3 x).symm.trans (decode V h' hB' h3 x)

/-- noise of a product of encryptions with noises `B0` and `B1` -/
def mulBound (B : BCtx N) (n0 n1 nU : ℕ) (D Sb Rb Be B0 B1 : ℤ) : ℤ :=
  (B.QMul * B.C.P * (N * (B.t * (2 * C45.liftBound N B.Q n0 Sb) + B0) * B1 + N * (B.t * (3 * C45.liftBound N B.Q n1 Sb) + B1) * B0 + N * B0 * B1)
    + B.t * C45.noise B n0 n1 nU D Sb Rb Be) / (B.Q * (B.QMul * B.C.P))

variable {crs : GoMap ℤ (Swk B.C)} {ct0 ct1 : Ct B.C} {set : BRlkMap B} {s r : String → Nega N ℤ} {a : ℕ → PolyQP B.C} {Sb Rb Be : ℤ}

/-- **C58, multiplication.** If the operands encrypt `m0` and `m1` with noises `B0`, `B1`, the product encrypts `m0*m1` (in the negacyclic ring,
modulo T) with noise `mulBound`. -/
theorem mul (V : B.Valid) (o : Sched String) (S : BScratch B) (hS : S.Alloc) (h0 : ct0.AtLevel B.top) (h1 : ct1.AtLevel B.top)
    (K : C45.Keys crs (ct0.ids ∪ ct1.ids) set s r a Sb Rb Be) (P : C45.Pools (ct0.ids ∪ ct1.ids) set)
    {D : ℤ} (hD : ∀ k < 2 * B.bt, 3 * (B.blockR k : ℤ) ≤ D) {m0 m1 : Nega N ℤ} {B0 B1 : ℤ} (e0 : BfvEnc B s ct0 m0 B0) (e1 : BfvEnc B s ct1 m1 B1) :
    ∃ out S', bfvMulRelinNew crs o S ct0 ct1 set = .ok (out, S') ∧ out.AtLevel B.top ∧ out.ids = ct0.ids ∪ ct1.ids ∧
      BfvEnc B s out (m0 * m1) (mulBound B ct0.ids.card ct1.ids.card (ct0.ids ∪ ct1.ids).card D Sb Rb Be B0 B1) := by
  obtain ⟨out, S', r1, r2, r3, Φ, Φ0, Φ1, E, c1, c2, c3, c4, c5, c6, c7⟩ := C45.mulRelinNew_phase V o S hS h0 h1 K P hD
  refine ⟨out, S', r1, r2, r3, ?_⟩
  obtain ⟨F0, k0, b0, f1, f2, f3⟩ := e0
  obtain ⟨F1, k1, b1, g1, g2, g3⟩ := e1
  obtain ⟨K0, hK0⟩ := lift_unique V (X := Φ0) (Y := F0) fun i hi => by rw [← c2 i hi, f3 i hi]
  obtain ⟨K1, hK1⟩ := lift_unique V (X := Φ1) (Y := F1) fun i hi => by rw [← c3 i hi, g3 i hi]
  have hQ : (0 : ℤ) < B.Q := by exact_mod_cast V.Q_pos
  have hQM : (0 : ℤ) < B.QMul := by exact_mod_cast V.QMul_pos
  have hP : (0 : ℤ) < B.C.P := by exact_mod_cast V.qp.P_pos
  set T : Nega N ℤ := (B.t : Nega N ℤ) with hT
  set q : Nega N ℤ := (B.Q : Nega N ℤ) with hq
  set a0 := m0 + T * (k0 + K0) with ha0
  set a1 := m1 + T * (k1 + K1) with ha1
  have d0 : T * Φ0 = q * a0 + b0 := by rw [hK0, ha0]; linear_combination f2
  have d1 : T * Φ1 = q * a1 + b1 := by rw [hK1, ha1]; linear_combination g2
  set F : Nega N ℤ := T * Φ - q * (a0 * a1) - a0 * b1 - a1 * b0 with hF
  have hQF : q * F = b0 * b1 + T * E := by
    rw [hF]
    linear_combination T * c6 + T * Φ1 * d0 + (q * a0 + b0) * d1
  -- sizes, all times Q
  have A0 : Bdd (q * a0) (B.t * (2 * C45.liftBound N B.Q ct0.ids.card Sb) + B0) := by
    have : q * a0 = T * Φ0 - b0 := by rw [d0]; ring
    rw [this]; exact (c4.natMul B.t).sub f1
  have A1 : Bdd (q * a1) (B.t * (3 * C45.liftBound N B.Q ct1.ids.card Sb) + B1) := by
    have : q * a1 = T * Φ1 - b1 := by rw [d1]; ring
    rw [this]; exact (c5.natMul B.t).sub g1
  refine ⟨Φ, m0 * (k1 + K1) + m1 * (k0 + K0) + T * ((k0 + K0) * (k1 + K1)), a0 * b1 + a1 * b0 + F, fun x => ?_, ?_, c1⟩
  · unfold mulBound
    rw [Int.le_ediv_iff_mul_le (by positivity)]
    have k1 : q * (a0 * b1 + a1 * b0 + F) = q * a0 * b1 + q * a1 * b0 + b0 * b1 + T * E := by linear_combination hQF
    have k2 := congrFun k1 x
    rw [natCast_mul_apply, Nega.add_apply (q * a0 * b1 + q * a1 * b0 + b0 * b1) (T * E) x, natCast_mul_apply] at k2
    have k3 := (((A0.mul g1).add (A1.mul f1)).add (f1.mul g1)) x
    have k4 := c7 x
    have k5 : |(a0 * b1 + a1 * b0 + F) x| * (B.Q * (B.QMul * B.C.P)) =
        B.QMul * B.C.P * |(B.Q : ℤ) * (a0 * b1 + a1 * b0 + F) x| := by
      rw [abs_mul, Nat.abs_cast]; ring
    rw [k5, k2]
    have k6 := abs_add_le ((q * a0 * b1 + q * a1 * b0 + b0 * b1) x) (B.t * E x)
    rw [abs_mul, Nat.abs_cast] at k6
    have ht : (0 : ℤ) ≤ B.t := by positivity
    calc (B.QMul : ℤ) * B.C.P * |(q * a0 * b1 + q * a1 * b0 + b0 * b1) x + B.t * E x|
        ≤ B.QMul * B.C.P * (|(q * a0 * b1 + q * a1 * b0 + b0 * b1) x| + B.t * |E x|) :=
          mul_le_mul_of_nonneg_left k6 (by positivity)
      _ = B.QMul * B.C.P * |(q * a0 * b1 + q * a1 * b0 + b0 * b1) x| + B.t * (B.QMul * B.C.P * |E x|) := by ring
      _ ≤ _ := add_le_add (mul_le_mul_of_nonneg_left k3 (by positivity)) (mul_le_mul_of_nonneg_left k4 ht)
  · rw [hF, ha0, ha1]
    ring

end C58

end MKHE
