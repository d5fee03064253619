import Verif.Spec.Bfv
import Verif.Props.KeyGen

set_option autoImplicit false

/-!
# C44: the BFV gadget vector and the BFV relinearization keys
-/

namespace MKHE
open Finset Nega

variable {N : ℕ} [NeZero N] {C : Ctx N}

/-- one block of `b` -/
theorem relinB_mv (V : C.Valid) {sk : SKey C} {s x : Nega N ℤ} (hs : sk.Is s) (a old : PolyQP C) {tmp : PolyQP C} (ht : tmp.Is x) :
    (∀ i < C.nQ, (C.RQ i).mv ((relinB sk a tmp old).Q i) = - red (C.q i) s * (C.RQ i).mv (a.Q i) + red (C.q i) x) ∧
    ∀ j < C.nP, (C.RP j).mv ((relinB sk a tmp old).P j) = - red (C.p j) s * (C.RP j).mv (a.P j) + red (C.p j) x := by
  refine ⟨fun i hi => ?_, fun j hj => ?_⟩
  · show (C.RQ i).mv (setQ (C.nQ - 1) _ _ i) = _
    rw [setQ_top V _ _ hi]
    unfold LimbOps.mv
    rw [LimbOps.ev_mform, mul_assoc, LimbOps.mul_rinv, mul_one]
    show (C.RQ i).ev (setQ (C.nQ - 1) _ _ i) = _
    rw [setQ_top V _ _ hi, LimbOps.ev_sub, ht.q i hi]
    show _ - (C.RQ i).ev (setQ (C.nQ - 1) _ _ i) = _
    rw [setQ_top V _ _ hi, LimbOps.ev_invMform]
    show _ - (C.RQ i).ev (setQ (C.nQ - 1) _ _ i) * _ = _
    rw [setQ_top V _ _ hi, LimbOps.ev_mulMont]
    have := hs.q i hi
    unfold LimbOps.mv at this
    rw [← this]; ring
  · show (C.RP j).mv (setP C.nP _ _ j) = _
    rw [setP_top _ _ hj]
    unfold LimbOps.mv
    rw [LimbOps.ev_mform, mul_assoc, LimbOps.mul_rinv, mul_one]
    show (C.RP j).ev (setP C.nP _ _ j) = _
    rw [setP_top _ _ hj, LimbOps.ev_sub, ht.p j hj]
    show _ - (C.RP j).ev (setP C.nP _ _ j) = _
    rw [setP_top _ _ hj, LimbOps.ev_invMform]
    show _ - (C.RP j).ev (setP C.nP _ _ j) * _ = _
    rw [setP_top _ _ hj, LimbOps.ev_mulMont]
    have := hs.p j hj
    unfold LimbOps.mv at this
    rw [← this]; ring

/-- one block of `v` -/
theorem relinV_mv (V : C.Valid) {sk : SKey C} {s : Nega N ℤ} (hs : sk.Is s) (u v : PolyQP C) :
    (∀ i < C.nQ, (C.RQ i).mv ((relinV sk u v).Q i) = - red (C.q i) s * (C.RQ i).mv (u.Q i) - (C.RQ i).mv (v.Q i)) ∧
    ∀ j < C.nP, (C.RP j).mv ((relinV sk u v).P j) = - red (C.p j) s * (C.RP j).mv (u.P j) - (C.RP j).mv (v.P j) := by
  refine ⟨fun i hi => ?_, fun j hj => ?_⟩
  · show (C.RQ i).mv (setQ (C.nQ - 1) _ _ i) = _
    rw [setQ_top V _ _ hi]
    unfold LimbOps.mv
    rw [LimbOps.ev_neg]
    show -(C.RQ i).ev (setQ (C.nQ - 1) _ _ i) * _ = _
    rw [setQ_top V _ _ hi, LimbOps.ev_mulMontAdd]
    have h1 := hs.q i hi
    unfold LimbOps.mv at h1
    rw [← h1]; ring
  · show (C.RP j).mv (setP C.nP _ _ j) = _
    rw [setP_top _ _ hj]
    unfold LimbOps.mv
    rw [LimbOps.ev_neg]
    show -(C.RP j).ev (setP C.nP _ _ j) * _ = _
    rw [setP_top _ _ hj, LimbOps.ev_mulMontAdd]
    have h1 := hs.p j hj
    unfold LimbOps.mv at h1
    rw [← h1]; ring

end MKHE

namespace MKHE.C44
open Finset Nega
variable {N : ℕ} [NeZero N] {B : BCtx N}

/-- **C44, gadget vector.** `GenBFVSwitchingKey(sk, swk1, swk2)` succeeds for all valid parameters and any content of the two keys; the
components of `swk1` and then `swk2` are `G_k*s + e_k` modulo every prime of Q and P, where `G_k = floor(T*P*g_k/QMul)` and `g_k` is the
integer that is 1 modulo block `k` of R and 0 modulo the other blocks (for the blocks of Q the division is exact); the errors are the
polynomials sampled in order. -/
theorem switchingKey (V : B.Valid) {Be : ℤ} (hB : B.C.SmallBound Be) {gs : ℕ → Nega N ℤ} (hg : ∀ n, Bdd (gs n) Be) (st : KG B.C)
    {sk : SKey B.C} {s : Nega N ℤ} (hs : sk.Is s) {swk1 swk2 : Swk B.C} (h1 : B.bt ≤ swk1.len) (h2 : B.bt ≤ swk2.len) :
    ∃ w1 w2 st' G g rho, genBFVSwitchingKey gs st sk swk1 swk2 = .ok ((w1, w2), st') ∧ w1.len = swk1.len ∧ w2.len = swk2.len ∧
      BfvGadget B G g rho ∧ (∀ k < B.bt, rho k = 0) ∧ ∀ k < 2 * B.bt,
        (∀ i < B.C.nQ, (B.C.RQ i).mv ((if k < B.bt then w1.val k else w2.val (k - B.bt)).Q i) =
          (G k : Nega N (ZMod (B.C.q i))) * red (B.C.q i) s + red (B.C.q i) (gs (st.pos + k))) ∧
        ∀ j < B.C.nP, (B.C.RP j).mv ((if k < B.bt then w1.val k else w2.val (k - B.bt)).P j) =
          (G k : Nega N (ZMod (B.C.p j))) * red (B.C.p j) s + red (B.C.p j) (gs (st.pos + k)) := by
  obtain ⟨w1, w2, st', a1, a2, a3, _, a4⟩ := genBFVSwitchingKey_ok V hB hg st hs h1 h2
  exact ⟨w1, w2, st', B.gadB, B.crt, B.rho, a1, a2, a3, ⟨fun k _ => BCtx.Valid.gadB_eq k, fun k _ => V.rho_lt k,
    fun k hk i hi h => (ZMod.natCast_eq_natCast_iff _ _ _).mp (by rw [V.crt_same hk hi h, Nat.cast_one]),
    fun k hk i hi h => (ZMod.natCast_eq_natCast_iff _ _ _).mp (by rw [V.crt_other hk hi h, Nat.cast_zero])⟩,
    fun k hk => V.rho_zero hk, a4⟩

theorem gadget (V : B.Valid) : BfvGadget B B.gadB B.crt B.rho :=
  ⟨fun k _ => BCtx.Valid.gadB_eq k, fun k _ => V.rho_lt k,
    fun k hk i hi h => (ZMod.natCast_eq_natCast_iff _ _ _).mp (by rw [V.crt_same hk hi h, Nat.cast_one]),
    fun k hk i hi h => (ZMod.natCast_eq_natCast_iff _ _ _).mp (by rw [V.crt_other hk hi h, Nat.cast_zero])⟩

/-- a gadget vector is determined by its specification, up to the choice of the representatives `g_k` modulo R: `T*P*Q` divides the
difference of two of them as soon as both cut off the same remainder -/
theorem gadget_unique {G g rho G' g' : ℕ → ℕ} (V : B.Valid) (h : BfvGadget B G g rho) (h' : BfvGadget B G' g' rho) {k : ℕ} (hk : k < 2 * B.bt) :
    ((B.t * B.C.P * B.Q : ℕ) : ℤ) ∣ (G k : ℤ) - G' k := by
  have h1 : (B.R : ℤ) ∣ (g k : ℤ) - g' k := by
    apply V.R_dvd
    intro i hi
    by_cases e : i / B.C.alpha = k
    · exact ((Nat.modEq_iff_dvd.mp ((h'.same k hk i hi e).trans (h.same k hk i hi e).symm)))
    · exact ((Nat.modEq_iff_dvd.mp ((h'.other k hk i hi e).trans (h.other k hk i hi e).symm)))
  obtain ⟨c, hc⟩ := h1
  refine ⟨c, ?_⟩
  have e1 : (B.QMul : ℤ) * G k + rho k = B.t * B.C.P * g k := by exact_mod_cast h.eq k hk
  have e2 : (B.QMul : ℤ) * G' k + rho k = B.t * B.C.P * g' k := by exact_mod_cast h'.eq k hk
  have hQ : (B.QMul : ℤ) ≠ 0 := by exact_mod_cast V.QMul_pos.ne'
  apply mul_left_cancel₀ hQ
  have e3 : (B.R : ℤ) = B.Q * B.QMul := by unfold BCtx.R; push_cast; ring
  rw [e3] at hc
  push_cast
  linear_combination e1 - e2 + (B.t * B.C.P : ℤ) * hc

/-- **C44, relinearization key.** `GenRelinearizationKey(sk, r)` succeeds and returns, under the id of `sk`, two halves of `b` and `d` with
`b_k = -s*a_k + e_k`, `d_k = -r*a_k + G_k*s + e'_k` for the `2*beta` blocks of R (`a` the CRS of index 0 followed by that of index -3) and
`v_k = -s*u_k - P*g_k*r + e''_k` for the `beta` blocks of Q; the errors are the sampler's output in the order the program reads it. -/
theorem relinearizationKey (V : B.Valid) {Be : ℤ} (hB : B.C.SmallBound Be) {gs : ℕ → Nega N ℤ} (hg : ∀ n, Bdd (gs n) Be) (st : KG B.C)
    {sk rk : SKey B.C} {s r : Nega N ℤ} (hs : sk.Is s) (hr : rk.Is r) {crs : GoMap ℤ (Swk B.C)} {a1 a2 u : Swk B.C}
    (ha1 : crs.lookup 0 = some a1) (ha2 : crs.lookup (-3) = some a2) (hu : crs.lookup (-1) = some u)
    (hl1 : B.bt ≤ a1.len) (hl2 : B.bt ≤ a2.len) (hul : B.bt ≤ u.len) :
    ∃ rlk st', genBfvRelinearizationKey crs gs st sk rk = .ok (rlk, st') ∧ rlk.id = sk.id ∧
      rlk.k1.b.len = B.bt ∧ rlk.k2.b.len = B.bt ∧ rlk.k1.d.len = B.bt ∧ rlk.k2.d.len = B.bt ∧ rlk.k1.v.len = B.bt ∧
      KeyEqG B.C (2 * B.bt) s (comb B.bt a1.val a2.val) (fun _ => 0) 0
        (comb B.bt (fun k => gs (st.pos + 2 * k)) (fun k => gs (st.pos + 2 * k + 1))) (comb B.bt rlk.k1.b.val rlk.k2.b.val) ∧
      KeyEqG B.C (2 * B.bt) r (comb B.bt a1.val a2.val) B.gadB s (fun k => gs (st.pos + 2 * B.bt + k))
        (comb B.bt rlk.k1.d.val rlk.k2.d.val) ∧
      KeyEq B.C B.bt s u.val (-r) (fun k => - gs (st.pos + 4 * B.bt + k)) rlk.k1.v.val := by
  unfold genBfvRelinearizationKey
  rw [GoMap.deref_ok ha1, bind_ok, GoMap.deref_ok ha2, bind_ok]
  have hnew : (Swk.new : Swk B.C).len = B.bt := rfl
  obtain ⟨⟨⟨b1, b2⟩, ⟨e1, e2⟩, st1⟩, c1, c2, c3, c4, c5⟩ := Go.loop_inv (genBStep gs sk a1 a2)
    (fun pre w => w.1.1.len = B.bt ∧ w.1.2.len = B.bt ∧ w.2.2.pos = st.pos + 2 * pre.length ∧ ∀ k ∈ pre,
      (∃ tmp old : PolyQP B.C, tmp.Is (gs (st.pos + 2 * k)) ∧ w.1.1.val k = relinB sk (a1.val k) tmp old) ∧
      ∃ tmp old : PolyQP B.C, tmp.Is (gs (st.pos + 2 * k + 1)) ∧ w.1.2.val k = relinB sk (a2.val k) tmp old)
    (List.range B.bt) ((Swk.new, Swk.new), (PolyQP.zero, PolyQP.zero), st) ⟨rfl, rfl, rfl, by simp⟩ (by
      rintro pre i suf ⟨⟨w1, w2⟩, ⟨e1, e2⟩, st1⟩ hl ⟨i1, i2, i3, i4⟩
      have hi : i = pre.length := by
        have := congrArg (fun l => l[pre.length]?) hl
        simp only [List.getElem?_append_right (le_refl _), Nat.sub_self, List.getElem?_cons_zero] at this
        obtain ⟨h1, h2⟩ := List.getElem?_eq_some_iff.mp this
        rw [List.getElem_range] at h2
        exact h2.symm
      have hab : i < B.bt := List.mem_range.mp (by rw [hl]; simp)
      dsimp only at i1 i2 i3 i4
      unfold genBStep
      dsimp only
      rw [if_neg (by omega)]
      refine ⟨_, rfl, i1, i2, ?_, fun k hk => ?_⟩
      · show st1.pos + 2 = _; rw [i3]; simp; omega
      · by_cases e : k = i
        · subst e
          dsimp only
          rw [Function.update_self, Function.update_self]
          refine ⟨⟨_, _, ?_, rfl⟩, _, _, ?_, rfl⟩
          · rw [i3, ← hi]
            exact sampleNTT_is V.qp hB (hg _) _
          · rw [i3, ← hi]
            exact sampleNTT_is V.qp hB (hg _) _
        · dsimp only
          rw [Function.update_of_ne e, Function.update_of_ne e]
          exact i4 k (by simpa [e] using hk))
  dsimp only at c2 c3 c4 c5
  rw [List.length_range] at c4
  have hb : B.C.beta (B.C.nQ - 1) = B.bt := rfl
  rw [hb, c1, bind_ok]
  obtain ⟨d1, d2, st2, f1, f2, f3, f4, f5⟩ := genBFVSwitchingKey_ok V hB hg st1 hs (swk1 := Swk.new) (swk2 := Swk.new) (le_refl _) (le_refl _)
  dsimp only
  rw [f1, bind_ok]
  dsimp only
  obtain ⟨x1, g1, g2, g3⟩ := mapBlocks_ok (fun a d => qpMulSub (B.C.nQ - 1) a rk.value d) (a := a1) (by rw [hb]; exact hl1) (swk := d1)
    (by rw [f2]; exact le_refl _)
  rw [g1, bind_ok]
  obtain ⟨x2, k1, k2, k3⟩ := mapBlocks_ok (fun a d => qpMulSub (B.C.nQ - 1) a rk.value d) (a := a2) (by rw [hb]; exact hl2) (swk := d2)
    (by rw [f3]; exact le_refl _)
  rw [k1, bind_ok]
  obtain ⟨v, st3, v1, v2, v3, v4⟩ := genSwitchingKey_ok V.qp hB hg st2 hr (swk := Swk.new) (le_refl _)
  rw [v1, bind_ok, GoMap.deref_ok hu, bind_ok]
  obtain ⟨vv, m1, m2, m3⟩ := mapBlocks_ok (relinV sk) (a := u) (by rw [hb]; exact hul) (swk := v) (by rw [v2]; exact le_refl _)
  rw [m1, bind_ok]
  refine ⟨_, _, rfl, rfl, c2, c3, by dsimp only; rw [g2, f2, hnew], by dsimp only; rw [k2, f3, hnew],
    by dsimp only; rw [m2, v2, hnew], ?_, ?_, ?_⟩
  · intro k hk
    dsimp only
    by_cases h : k < B.bt
    · obtain ⟨⟨tmp, old, t1, t2⟩, _⟩ := c5 k (List.mem_range.mpr h)
      simp only [comb_lt _ _ h, t2]
      refine ⟨fun i hi => ?_, fun j hj => ?_⟩
      · rw [(relinB_mv V.qp hs _ _ t1).1 i hi]; simp
      · rw [(relinB_mv V.qp hs _ _ t1).2 j hj]; simp
    · obtain ⟨_, tmp, old, t1, t2⟩ := c5 (k - B.bt) (List.mem_range.mpr (by omega))
      simp only [comb, if_neg h, t2]
      refine ⟨fun i hi => ?_, fun j hj => ?_⟩
      · rw [(relinB_mv V.qp hs _ _ t1).1 i hi]; simp
      · rw [(relinB_mv V.qp hs _ _ t1).2 j hj]; simp
  · intro k hk
    dsimp only
    have f5 := f5 k hk
    rw [c4] at f5
    by_cases h : k < B.bt
    · simp only [comb_lt _ _ h] at f5 ⊢
      rw [g3 k h]
      refine ⟨fun i hi => ?_, fun j hj => ?_⟩
      · rw [(qpMulSub_mv V.qp hr _ _).1 i hi, f5.1 i hi]; ring
      · rw [(qpMulSub_mv V.qp hr _ _).2 j hj, f5.2 j hj]; ring
    · simp only [comb, if_neg h] at f5 ⊢
      rw [k3 _ (by rw [hb]; omega)]
      refine ⟨fun i hi => ?_, fun j hj => ?_⟩
      · rw [(qpMulSub_mv V.qp hr _ _).1 i hi, f5.1 i hi]; ring
      · rw [(qpMulSub_mv V.qp hr _ _).2 j hj, f5.2 j hj]; ring
  · intro k hk
    dsimp only
    rw [m3 k hk]
    have hp : st.pos + 4 * B.bt + k = st2.pos + k := by omega
    have v4 := v4 k hk
    refine ⟨fun i hi => ?_, fun j hj => ?_⟩
    · rw [(relinV_mv V.qp hs _ _).1 i hi, v4.1 i hi, hp, map_neg, map_neg]
      unfold Ctx.gad
      ring
    · rw [(relinV_mv V.qp hs _ _).2 j hj, v4.2 j hj, hp, map_neg]
      ring

/-- the generated key meets the hypothesis under which the multiplication theorems (C45, C46) hold -/
theorem relinearizationKey_rel (V : B.Valid) {Be : ℤ} (hB : B.C.SmallBound Be) {gs : ℕ → Nega N ℤ} (hg : ∀ n, Bdd (gs n) Be) (st : KG B.C)
    {sk rk : SKey B.C} {s r : Nega N ℤ} (hs : sk.Is s) (hr : rk.Is r) {crs : GoMap ℤ (Swk B.C)} {a1 a2 u : Swk B.C}
    (ha1 : crs.lookup 0 = some a1) (ha2 : crs.lookup (-3) = some a2) (hu : crs.lookup (-1) = some u)
    (hl1 : B.bt ≤ a1.len) (hl2 : B.bt ≤ a2.len) (hul : B.bt ≤ u.len) :
    ∃ rlk st' G g rho, genBfvRelinearizationKey crs gs st sk rk = .ok (rlk, st') ∧ rlk.id = sk.id ∧ BfvGadget B G g rho ∧
      rlk.Rel s r (comb B.bt a1.val a2.val) u.val G Be := by
  obtain ⟨rlk, st', e1, e2, l1, l2, l3, l4, l5, k1, k2, k3⟩ := relinearizationKey V hB hg st hs hr ha1 ha2 hu hl1 hl2 hul
  refine ⟨rlk, st', B.gadB, B.crt, B.rho, e1, e2, gadget V, l1.ge, l2.ge, l3.ge, l4.ge, l5.ge, ?_, k2.rel fun _ _ => hg _,
    k3.rel le_rfl fun _ _ => (hg _).neg⟩
  have := k1.rel (Be := Be) (fun k _ => by unfold comb; split <;> exact hg _)
  exact this

/-- a loop whose steps abort only with `e`, one of them always, aborts with `e` -/
theorem loop_abort {σ α : Type*} (f : σ → α → Go σ) (e : Fault) (l : List α) (h : ∀ s, ∀ a ∈ l, f s a = .error e ∨ ∃ s', f s a = .ok s')
    (h' : ∃ a ∈ l, ∀ s, f s a = .error e) (s : σ) : Go.loop f s l = .error e := by
  induction l generalizing s with
  | nil => obtain ⟨a, ha, -⟩ := h'; cases ha
  | cons a l ih =>
    rw [Go.loop_cons]
    obtain ⟨b, hb, hb'⟩ := h'
    rcases h s a List.mem_cons_self with h1 | ⟨s', h1⟩
    · rw [h1]
    · rw [h1]
      refine ih (fun s a ha => h s a (List.mem_cons_of_mem _ ha)) ?_ s'
      rcases List.mem_cons.mp hb with rfl | hb
      · rw [hb' s] at h1; cases h1
      · exact ⟨b, hb, hb'⟩

/-- **C44, the divisibility assumption.** The key generator indexes `Modulus[i*alpha+j]` for every `j < alpha` of every block: if alpha does not
divide the number of primes of Q, `GenBFVSwitchingKey`, and with it `GenRelinearizationKey`, always panics with an index out of range, for all
keys, randomness and receivers. -/
theorem not_dividing (V : B.C.Valid) (hdiv : ¬ B.C.alpha ∣ B.C.nQ) (gs : ℕ → Nega N ℤ) (st : KG B.C) (sk : SKey B.C) (swk1 swk2 : Swk B.C) :
    genBFVSwitchingKey gs st sk swk1 swk2 = .error .indexOutOfRange := by
  have hq := V.q1
  have hα := V.alpha_pos
  have hb : B.C.beta (B.C.nQ - 1) = (B.C.nQ - 1) / B.C.alpha + 1 := V.beta_eq (by omega)
  have hlast : ∃ j, j < B.C.alpha ∧ B.C.nQ ≤ (B.C.nQ - 1) / B.C.alpha * B.C.alpha + j := by
    have h1 := Nat.div_add_mod (B.C.nQ - 1) B.C.alpha
    have h2 := Nat.mod_lt (B.C.nQ - 1) hα
    rw [Nat.mul_comm] at h1
    refine ⟨B.C.alpha - 1, by omega, ?_⟩
    by_contra hlt
    refine hdiv ⟨(B.C.nQ - 1) / B.C.alpha + 1, ?_⟩
    rw [Nat.mul_add, Nat.mul_comm]
    omega
  obtain ⟨j, hj, hj'⟩ := hlast
  have key : genBfvHalf B.C.q gs sk swk1 st = .error .indexOutOfRange := by
    unfold genBfvHalf
    have hm : ∀ i, blockMod B.C.nQ B.C.q B.C.alpha i = .error .indexOutOfRange ∨ ∃ b, blockMod B.C.nQ B.C.q B.C.alpha i = .ok b := fun i => by
      cases hbm : blockMod B.C.nQ B.C.q B.C.alpha i with
      | ok b => exact .inr ⟨b, rfl⟩
      | error e =>
        by_cases hx : ∃ a ∈ List.range B.C.alpha, B.C.nQ ≤ i * B.C.alpha + a
        · left
          rw [← hbm]
          obtain ⟨a, ha, ha'⟩ := hx
          refine loop_abort _ _ _ (fun s a _ => ?_) ⟨a, ha, fun s => if_pos ha'⟩ _
          by_cases h : B.C.nQ ≤ i * B.C.alpha + a
          · exact .inl (if_pos h)
          · exact .inr ⟨_, if_neg h⟩
        · push Not at hx
          have := hx (B.C.alpha - 1) (List.mem_range.mpr (by omega))
          rw [blockMod_ok (by omega)] at hbm
          cases hbm
    refine loop_abort _ _ _ (fun w i _ => ?_) ⟨(B.C.nQ - 1) / B.C.alpha, List.mem_range.mpr (by omega), fun w => ?_⟩ _
    · rcases hm i with h | ⟨b, h⟩
      · left; rw [h]; rfl
      · rw [h]
        by_cases hl : w.1.len ≤ i
        · exact .inl (if_pos hl)
        · exact .inr ⟨_, if_neg hl⟩
    · have : blockMod B.C.nQ B.C.q B.C.alpha ((B.C.nQ - 1) / B.C.alpha) = .error .indexOutOfRange := by
        refine loop_abort _ _ _ (fun s a _ => ?_) ⟨j, List.mem_range.mpr hj, fun s => if_pos hj'⟩ _
        by_cases h : B.C.nQ ≤ (B.C.nQ - 1) / B.C.alpha * B.C.alpha + a
        · exact .inl (if_pos h)
        · exact .inr ⟨_, if_neg h⟩
      rw [this]; rfl
  unfold genBFVSwitchingKey
  rw [key]; rfl

end MKHE.C44
