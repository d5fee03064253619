import Verif.Props.Shared

set_option autoImplicit false

/-!
# The race on the hoisting pools of a key set (C77)

Two calls of `MulRelinNew` with one key set whose operands have a party in common: `race_reach` is a schedule in which one of them multiplies
with the digits of the other's operands, `race_phase` says what it returns then.
-/

namespace MKHE
open Finset Nega

variable {N : ℕ} [NeZero N] {C : Ctx N}
variable {crs : GoMap ℤ (Swk C)} {l0 l1 j0 j1 : ℕ} {op0 op1 x0 x1 : Ct C} {rlk : RlkMap C}

/-- the rows of a product of `op0` and `op1` computed with the digits of `x0` and `x1` -/
noncomputable def mulRowsOf (crs : GoMap ℤ (Swk C)) (l : ℕ) (j0 j1 : ℕ) (op0 op1 x0 x1 : Ct C) (rlk : RlkMap C) : String → QRows C :=
  ({ mulIn crs l op0 op1 none none rlk with
      h0 := fun id => digs j0 (x0.comp id), h1 := fun id => digs j1 (x1.comp id) } : MulIn C).out l

theorem mulAndRelinHoisted_of (V : C.Valid) (o : Sched String) (S : Scratch C) (hS : S.Alloc (C.beta (min l0 l1)))
    (H : ProdHyp crs l0 l1 op0 op1 rlk) (hj0 : j0 < C.nQ) (hj1 : j1 < C.nQ) (le0 : min l0 l1 ≤ j0) (le1 : min l0 l1 ≤ j1)
    {h0 h1 : HoistedCt C} (k0 : IsHoisted j0 x0 h0) (k1 : IsHoisted j1 x1 h1) (i0 : op0.ids ⊆ x0.ids) (i1 : op1.ids ⊆ x1.ids) {out : Ct C}
    (hout : ∀ id, out.lookup id = if id = "0" ∨ id ∈ op0.ids ∪ op1.ids then some (Poly.new (min l0 l1)) else none) :
    ∃ out' S', mulAndRelinHoisted crs o S op0 op1 (some h0) (some h1) rlk out = .ok (out', S') ∧
      out'.Made (min l0 l1) (op0.ids ∪ op1.ids) (mulRowsOf crs (min l0 l1) j0 j1 op0 op1 x0 x1 rlk) := by
  have hz := ct_zero_notMem_union op0 op1
  have hat : out.AtLevel (min l0 l1) := by
    refine ⟨AList.lookup_isSome.mp (by rw [hout]; simp), fun id p hp => ?_, fun id p hp => ?_⟩ <;>
    · rw [hout] at hp; split_ifs at hp; injection hp with hp; subst hp; rfl
  have hids : out.ids = op0.ids ∪ op1.ids := by
    ext id
    rw [Ct.mem_ids, ← AList.lookup_isSome, hout]
    by_cases e : id = "0"
    · subst e; simp only [ne_eq, not_true_eq_false, and_false, false_iff]; exact hz
    · by_cases hs : id ∈ op0.ids ∪ op1.ids <;> simp [e, hs]
  have M := H.mulHyp hat hids
  have ok0 : HoistOK (min l0 l1) op0 (some h0) := by
    intro m hm id hid
    injection hm with hm; subst hm
    obtain ⟨s, s1, s2, -⟩ := k0 id (i0 hid)
    exact ⟨s, s1, le_trans (V.beta_mono hj0 le0) s2⟩
  have ok1 : HoistOK (min l0 l1) op1 (some h1) := by
    intro m hm id hid
    injection hm with hm; subst hm
    obtain ⟨s, s1, s2, -⟩ := k1 id (i1 hid)
    exact ⟨s, s1, le_trans (V.beta_mono hj1 le1) s2⟩
  obtain ⟨out', S', e1, R, e2, e3⟩ := mulAndRelinHoisted_run V o (mulOK_of M ok0 ok1 hS)
  refine ⟨out', S', e1, Ct.Made.of_upd hout (e2.congr fun id hid i hi => ?_)⟩
  have hid' : id ∈ op0.ids ∪ op1.ids ∨ id = "0" := by
    by_cases e : id = "0"
    · exact .inr e
    · left; rw [← hids]; exact Ct.mem_ids.mpr ⟨hid, e⟩
  rw [e3 id hid' i hi]
  have dig : ∀ {op x : Ct C} {h : HoistedCt C} {l : ℕ}, l < C.nQ → min l0 l1 ≤ l → IsHoisted l x h → ∀ id ∈ x.ids,
      ∀ k < C.beta (min l0 l1), (digitsFor (min l0 l1) op (some h) id k).Agree (min l0 l1) (digs l (x.comp id) k) := by
    intro op x h l hl hle hk id hid k hkb
    obtain ⟨s, s1, s2, s3⟩ := hk id hid
    simp only [digitsFor, s1]
    exact (s3 k (lt_of_lt_of_le hkb (V.beta_mono hl hle))).mono hle
  exact mulOut_congr V (mulIn crs (min l0 l1) op0 op1 (some h0) (some h1) rlk) (fun id => digs j0 (x0.comp id))
    (fun id => digs j1 (x1.comp id)) (fun id hid => dig (op := op0) hj0 le0 k0 id (i0 hid))
    (fun id hid => dig (op := op1) hj1 le1 k1 id (i1 hid)) id i

theorem ckksMulRelinHoistedNew_of {c0 c1 : CCt C} (V : C.Valid) (pscale : ℚ) (o : Sched String) (E : Eval C) (hE : E.ksw.Alloc (C.beta (min l0 l1)))
    (H : ProdHyp crs l0 l1 c0.ct c1.ct rlk) (hj0 : j0 < C.nQ) (hj1 : j1 < C.nQ) (le0 : min l0 l1 ≤ j0) (le1 : min l0 l1 ≤ j1)
    {h0 h1 : HoistedCt C} (k0 : IsHoisted j0 x0 h0) (k1 : IsHoisted j1 x1 h1) (i0 : c0.ct.ids ⊆ x0.ids) (i1 : c1.ct.ids ⊆ x1.ids) :
    ∃ p S', p.Made (min l0 l1) (c0.ct.ids ∪ c1.ct.ids) (mulRowsOf crs (min l0 l1) j0 j1 c0.ct c1.ct x0 x1 rlk) ∧
      ckksMulRelinHoistedNew pscale crs o E c0 c1 (some h0) (some h1) rlk =
        (rescale (o 91) ⟨p, C.fm.mul c0.scale c1.scale⟩ pscale ⟨p, C.fm.mul c0.scale c1.scale⟩ true).map
          fun r => (r.2, { E with ksw := S' }) := by
  obtain ⟨out, a1, a2, a3⟩ := newCiphertextBinary_ok o H.in0 H.in1
  obtain ⟨p, S', b1, b2⟩ := mulAndRelinHoisted_of V o E.ksw hE H hj0 hj1 le0 le1 k0 k1 i0 i1 a3
  have hat : out.ct.AtLevel (min l0 l1) := by
    refine ⟨AList.lookup_isSome.mp (by rw [a3]; simp), fun id p hp => ?_, fun id p hp => ?_⟩ <;>
    · rw [a3] at hp; split_ifs at hp; injection hp with hp; subst hp; rfl
  refine ⟨p, S', b2, ?_⟩
  unfold ckksMulRelinHoistedNew
  rw [a1, bind_ok]
  unfold ckksMulRelinHoisted
  dsimp only
  rw [H.in0.level, bind_ok, H.in1.level, bind_ok, hat.level, bind_ok, min_self, if_neg (lt_irrefl _), bind_ok, b1, bind_ok]
  cases rescale (o 91) ⟨p, C.fm.mul c0.scale c1.scale⟩ pscale ⟨p, C.fm.mul c0.scale c1.scale⟩ true <;> rfl

/-- the part of the phase that involves the secrets: `Σ_id c_id s_id` -/
noncomputable def tailRows (ids : Finset String) (s : String → Nega N ℤ) (a : String → QRows C) (i : ℕ) : Nega N (ZMod (C.q i)) :=
  ∑ id ∈ ids, cf (a id i) * red (C.q i) (s id)

/-- the part of the phase that involves the secrets: `Σ_id c_id s_id` -/
noncomputable def Ct.tail (s : String → Nega N ℤ) (ct : Ct C) (i : ℕ) : Nega N (ZMod (C.q i)) := tailRows ct.ids s ct.comp i

/-- the part of the phase of a product that comes from the digits -/
noncomputable def relinPart (M : MulIn C) (level : ℕ) (s : String → Nega N ℤ) (i : ℕ) : Nega N (ZMod (C.q i)) :=
  ∑ id ∈ M.ids0, cf (epG level (digs level (M.w level id)) (M.v id) i) +
  ∑ id ∈ M.ids1, cf (epG level (M.h1 id) M.x i) * red (C.q i) (s id) +
  ∑ id ∈ M.ids0, cf (epG level (digs level (M.w level id)) M.u i) * red (C.q i) (s id)

theorem mulOut_phase (M : MulIn C) (level : ℕ) (s : String → Nega N ℤ) (i : ℕ) (n0 : "0" ∉ M.ids0) (n1 : "0" ∉ M.ids1) :
    phaseRows (M.ids0 ∪ M.ids1) s (M.out level) i = phaseRows M.ids0 s M.a0 i * phaseRows M.ids1 s M.a1 i -
      tailRows M.ids0 s M.a0 i * tailRows M.ids1 s M.a1 i + relinPart M level s i := by
  have hz : "0" ∉ M.ids0 ∪ M.ids1 := by rw [mem_union]; tauto
  have e0 : cf (M.out level "0" i) = cf (M.a0 "0" i) * cf (M.a1 "0" i) + ∑ id ∈ M.ids0, cf (epG level (digs level (M.w level id)) (M.v id) i) := by
    unfold MulIn.out; rw [if_pos rfl]; exact (C.RQ i).cf_ofCf _
  have e1 : ∑ id ∈ M.ids0 ∪ M.ids1, cf (M.out level id i) * red (C.q i) (s id) =
      ∑ id ∈ M.ids0 ∪ M.ids1, ((if id ∈ M.ids0 then (cf (M.a1 "0" i) * cf (M.a0 id i) + cf (epG level (digs level (M.w level id)) M.u i)) * red (C.q i) (s id) else 0) +
        if id ∈ M.ids1 then (cf (M.a0 "0" i) * cf (M.a1 id i) + cf (epG level (M.h1 id) M.x i)) * red (C.q i) (s id) else 0) := by
    refine sum_congr rfl fun id hid => ?_
    have hne : id ≠ "0" := fun e => hz (e ▸ hid)
    have : cf (M.out level id i) = (if id ∈ M.ids0 then cf (M.a1 "0" i) * cf (M.a0 id i) else 0) +
        (if id ∈ M.ids1 then cf (M.a0 "0" i) * cf (M.a1 id i) else 0) + (if id ∈ M.ids1 then cf (epG level (M.h1 id) M.x i) else 0)
        + (if id ∈ M.ids0 then cf (epG level (digs level (M.w level id)) M.u i) else 0) := by
      unfold MulIn.out; rw [if_neg hne]; exact (C.RQ i).cf_ofCf _
    rw [this]
    by_cases a : id ∈ M.ids0 <;> by_cases b : id ∈ M.ids1 <;> simp only [a, b, if_true, if_false] <;> ring
  unfold phaseRows tailRows relinPart
  rw [e0, e1, sum_add_distrib, ← sum_filter, ← sum_filter]
  have f0 : (M.ids0 ∪ M.ids1).filter (· ∈ M.ids0) = M.ids0 := by ext; simp
  have f1 : (M.ids0 ∪ M.ids1).filter (· ∈ M.ids1) = M.ids1 := by ext; simp
  rw [f0, f1]
  simp only [add_mul, sum_add_distrib, mul_assoc, ← mul_sum]
  ring

/-- **what a call returns that multiplies with the digits of other operands**: the phase is the product of the phases, except that the
product of the parts that involve the secrets is that of the other operands -/
theorem madeOf_phase (V : C.Valid) {s r : String → Nega N ℤ} {a : ℕ → PolyQP C} {Sb Rb Be : ℤ} {l : ℕ} (hl : l < C.nQ) (hj0 : j0 < C.nQ)
    (hj1 : j1 < C.nQ) (le0 : l ≤ j0) (le1 : l ≤ j1) (K : C29.Keys crs l (op0.ids ∪ op1.ids) rlk s r a Sb Rb Be) (i0 : x0.ids = op0.ids)
    (i1 : x1.ids = op1.ids) {p : Ct C} (hp : p.Made l (op0.ids ∪ op1.ids) (mulRowsOf crs l j0 j1 op0 op1 x0 x1 rlk))
    (D : ℤ) (hD : ∀ j ∈ [l, j0, j1], ∀ k < C.beta j, 2 * (C.blockProd j k : ℤ) ≤ D) :
    ∃ E : Nega N ℤ, (∀ x, C.P * |E x| ≤ mulNoise N C.P op0.ids.card op1.ids.card (C.beta l) D Sb Rb Be) ∧
      ∀ i ≤ l, p.phase s i = op0.phase s i * op1.phase s i - op0.tail s i * op1.tail s i + x0.tail s i * x1.tail s i + red (C.q i) E := by
  obtain ⟨u, u1, u2, u3⟩ := K.u
  have hkey : ∀ id ∈ op0.ids ∪ op1.ids, KeyRel C (C.beta l) (r id) a (s id) Be (keyFor rlk Rlk.d id) ∧
      KeyRel C (C.beta l) (s id) u.val (-r id) Be (keyFor rlk Rlk.v id) ∧
      KeyRel C (C.beta l) (s id) a 0 Be (keyFor rlk Rlk.b id) := by
    intro id hid
    obtain ⟨key, q1, q2⟩ := u3 id hid
    simp only [keyFor, q1]
    exact ⟨q2.d, q2.v, q2.b⟩
  have hMu : (mulIn crs l op0 op1 none none rlk).u = u.val := by simp only [mulIn, u1]
  have dig : ∀ {op : Ct C} {j : ℕ}, l ≤ j → j < C.nQ → (∀ k < C.beta j, 2 * (C.blockProd j k : ℤ) ≤ D) → ∀ id,
      ∀ k < C.beta l, ∃ X, IsDigit C l k (op.comp id) D X ∧ Holds C l (digs j (op.comp id) k) X := by
    intro op j hl hl' hD' id k hkb
    have hkb' := lt_of_lt_of_le hkb (V.beta_mono hl' hl)
    obtain ⟨X, y1, y2⟩ := digs_spec V hl' hkb' (op.comp id)
    exact ⟨X, (y1.mono hl).bound (hD' k hkb'), y2.mono hl⟩
  have n0 : "0" ∉ op0.ids := op0.zero_notMem_ids
  have n1 : "0" ∉ op1.ids := op1.zero_notMem_ids
  obtain ⟨M, hM⟩ : ∃ M : MulIn C, M = { mulIn crs l op0 op1 none none rlk with
      h0 := fun id => digs j0 (x0.comp id), h1 := fun id => digs j1 (x1.comp id) } := ⟨_, rfl⟩
  obtain ⟨M', hM'⟩ : ∃ M' : MulIn C, M' = { M with a0 := x0.comp, a1 := x1.comp } := ⟨_, rfl⟩
  obtain ⟨E, E1, E2⟩ := mul_noise V hl M' s r a D Sb Rb Be
    { n0 := by rw [hM', hM]; exact n0
      n1 := by rw [hM', hM]; exact n1
      d := by rw [hM', hM]; exact fun id hid => (hkey id (mem_union_left _ hid)).1
      v := by
        rw [hM', hM]
        intro id hid
        have := (hkey id (mem_union_left _ hid)).2.1
        rw [← hMu] at this; exact this
      b := by rw [hM', hM]; exact fun id hid => (hkey id (mem_union_right _ hid)).2.2
      dig0 := by rw [hM', hM]; exact fun id _ => dig le0 hj0 (hD j0 (by simp)) id
      dig1 := by rw [hM', hM]; exact fun id _ => dig le1 hj1 (hD j1 (by simp)) id
      block := hD l (by simp)
      s0 := by rw [hM', hM]; exact K.s
      r0 := by rw [hM', hM]; exact fun id hid => K.r id (mem_union_left _ hid) }
  refine ⟨E, by rw [hM', hM] at E1; exact E1, fun i hi => ?_⟩
  have h1 := mulOut_phase M l s i (by rw [hM]; exact n0) (by rw [hM]; exact n1)
  have h2 := mulOut_phase M' l s i (by rw [hM', hM]; exact n0) (by rw [hM', hM]; exact n1)
  rw [E2 i hi] at h2
  have hr : relinPart M' l s i = relinPart M l s i := by rw [hM']; rfl
  have t0 : tailRows M'.ids0 s M'.a0 i = x0.tail s i := by rw [hM', hM]; unfold Ct.tail; rw [i0]; rfl
  have t1 : tailRows M'.ids1 s M'.a1 i = x1.tail s i := by rw [hM', hM]; unfold Ct.tail; rw [i1]; rfl
  rw [hr, t0, t1] at h2
  have hout : p.phase s i = phaseRows (M.ids0 ∪ M.ids1) s (M.out l) i := by
    rw [hp.phase (ct_zero_notMem_union op0 op1) s hi, hM]; rfl
  have o0 : phaseRows M.ids0 s M.a0 i = op0.phase s i := by rw [hM]; rfl
  have o1 : phaseRows M.ids1 s M.a1 i = op1.phase s i := by rw [hM]; rfl
  have q0 : tailRows M.ids0 s M.a0 i = op0.tail s i := by rw [hM]; rfl
  have q1 : tailRows M.ids1 s M.a1 i = op1.tail s i := by rw [hM]; rfl
  rw [hout, h1, o0, o1, q0, q1]
  linear_combination -h2

namespace C77

variable {ι : Type} [DecidableEq ι] {pscale : ℚ} {w0 w : World ι C}

theorem put_put (w : World ι C) (k : ι) {t t' : Task C} {m m' : RlkMap C} (h : t.set = (w.task k).set) :
    (w.put k t m).put k t' m' = w.put k t' m' := by
  unfold World.put
  dsimp only
  rw [Function.update_self, h, Function.update_idem, Function.update_idem]

theorem put_self (w : World ι C) (k : ι) : w.put k (w.task k) (w.sets (w.task k).set) = w := by
  unfold World.put
  rw [Function.update_eq_self, Function.update_eq_self]

theorem Changed.trans {t0 : Task C} {m m' m'' : RlkMap C} (h : Changed t0 m m') (h' : Changed t0 m' m'') : Changed t0 m m'' where
  value := h'.value.trans h.value
  pool0 := ⟨fun id hid => (h'.pool0.1 id hid).trans (h.pool0.1 id hid), fun id s hs => by
    obtain ⟨s', a, b⟩ := h.pool0.2 id s hs
    obtain ⟨s'', c, d⟩ := h'.pool0.2 id s' a
    exact ⟨s'', c, d.trans b⟩⟩
  pool1 := ⟨fun id hid => (h'.pool1.1 id hid).trans (h.pool1.1 id hid), fun id s hs => by
    obtain ⟨s', a, b⟩ := h.pool1.2 id s hs
    obtain ⟨s'', c, d⟩ := h'.pool1.2 id s' a
    exact ⟨s'', c, d.trans b⟩⟩

/-- a call can go on alone until it has decomposed its operands -/
theorem prepares (V : C.Valid) {l0 l1 : ℕ} {t0 : Task C} {m0 : RlkMap C} (H : CallOk pscale crs t0 m0 l0 l1) {k : ι}
    (I : TaskInv pscale crs l0 l1 t0 m0 (w.task k) (w.sets (w.task k).set)) (hd : ∀ out, (w.task k).stage ≠ .done out) :
    ∃ t m, Reach pscale crs w (w.put k t m) ∧ TaskInv pscale crs l0 l1 t0 m0 t m ∧ t.stage = .ready ∧ Changed t0 (w.sets (w.task k).set) m := by
  obtain ⟨n, hn⟩ : ∃ n, left (w.task k) = n := ⟨_, rfl⟩
  induction n using Nat.strong_induction_on generalizing w with
  | _ n ih =>
    by_cases hr : (w.task k).stage = .ready
    · exact ⟨w.task k, w.sets (w.task k).set, by rw [put_self]; exact Relation.ReflTransGen.refl, I, hr, Changed.refl _ _⟩
    · obtain ⟨t, m, s1, s2, s3⟩ := I.step V H hd
      have hset : t.set = (w.task k).set := by
        obtain ⟨E, st, h⟩ := I.eq
        obtain ⟨E', st', h'⟩ := s2.eq
        rw [h, h']
      have htask : (w.put k t m).task k = t := by unfold World.put; dsimp only; rw [Function.update_self]
      have hsets : (w.put k t m).sets t.set = m := by rw [hset]; unfold World.put; dsimp only; rw [Function.update_self]
      have hdone : ∀ out, t.stage ≠ .done out := by
        intro out ho
        have hl := step_left s1
        cases hs : (w.task k).stage with
        | ready => exact hr hs
        | done out => exact hd out hs
        | start =>
          simp only [Task.step, hs] at s1
          split at s1
          · cases s1; cases ho
          · obtain ⟨_, -, h2⟩ := Go.bind_ok s1
            cases h2; cases ho
        | hoist0 todo =>
          cases todo with
          | nil =>
            simp only [Task.step, hs] at s1
            split at s1
            · cases s1; cases ho
            · obtain ⟨_, -, h2⟩ := Go.bind_ok s1
              cases h2; cases ho
          | cons id todo =>
            simp only [Task.step, hs] at s1
            obtain ⟨_, -, h2⟩ := Go.bind_ok s1
            cases h2; cases ho
        | hoist1 todo =>
          cases todo with
          | nil => simp only [Task.step, hs] at s1; cases s1; cases ho
          | cons id todo =>
            simp only [Task.step, hs] at s1
            obtain ⟨_, -, h2⟩ := Go.bind_ok s1
            cases h2; cases ho
      obtain ⟨t', m', R, I', hr', hc⟩ := ih (left t) (hn ▸ step_left s1) (w := w.put k t m) (by rw [htask, hsets]; exact s2) (by rw [htask]; exact hdone)
        (by rw [htask])
      rw [put_put w k hset] at R
      rw [htask, hsets] at hc
      exact ⟨t', m', Relation.ReflTransGen.head (.act k s1) R, I', hr', s3.trans hc⟩

/-- **the race.** Two goroutines call `MulRelinNew` with one key set and operands over the same parties. There is a schedule in which the first
returns a ciphertext computed with the digits of the second's operands. (`p` is the result before the final rescaling.) -/
theorem race_reach (V : C.Valid) {k k' : ι} (hk : k ≠ k') (hset : (w0.task k).set = (w0.task k').set) {l0 l1 j0 j1 : ℕ}
    (H : CallOk pscale crs (w0.task k) (w0.sets (w0.task k).set) l0 l1) (H' : CallOk pscale crs (w0.task k') (w0.sets (w0.task k').set) j0 j1)
    (hp : (w0.task k).pre = none) (hp' : (w0.task k').pre = none) (hs : (w0.task k).same = false) (hs' : (w0.task k').same = false)
    (i0 : (w0.task k).op0.ct.ids ⊆ (w0.task k').op0.ct.ids) (i1 : (w0.task k).op1.ct.ids ⊆ (w0.task k').op1.ct.ids)
    (le0 : min l0 l1 ≤ j0) (le1 : min l0 l1 ≤ j1) :
    ∃ w out p o e, Reach pscale crs w0 w ∧ (w.task k).stage = .done out ∧
      p.Made (min l0 l1) ((w0.task k).op0.ct.ids ∪ (w0.task k).op1.ct.ids) (mulRowsOf crs (min l0 l1) j0 j1 (w0.task k).op0.ct (w0.task k).op1.ct
        (w0.task k').op0.ct (w0.task k').op1.ct (w0.sets (w0.task k).set)) ∧
      rescale o ⟨p, C.fm.mul (w0.task k).op0.scale (w0.task k).op1.scale⟩ pscale ⟨p, C.fm.mul (w0.task k).op0.scale (w0.task k).op1.scale⟩ true =
        .ok (e, out) := by
  -- the first call decomposes its operands
  obtain ⟨t, m, R1, I1, r1, c1⟩ := prepares V (w := w0) H (k := k) ⟨⟨_, _, rfl⟩, fun _ => H.ev, rfl, H.pool0, H.pool1, by rw [H.start]; trivial⟩
    (fun out h => by rw [H.start] at h; cases h)
  obtain ⟨E, st, rfl⟩ := I1.eq
  obtain rfl : st = .ready := r1
  have tk' : (w0.put k { w0.task k with E := E, stage := .ready } m).task k' = w0.task k' := by
    unfold World.put; dsimp only; rw [Function.update_of_ne hk.symm]
  have sk' : (w0.put k { w0.task k with E := E, stage := .ready } m).sets (w0.task k').set = m := by
    rw [← hset]; unfold World.put; dsimp only; rw [Function.update_self]
  -- the second call decomposes its own into the same entries
  have pools : PoolOK (C.beta j0) (w0.task k').op0.ct.ids m.pool0 ∧ PoolOK (C.beta j1) (w0.task k').op1.ct.ids m.pool1 :=
    ⟨c1.pool0.pool (hset ▸ H'.pool0), c1.pool1.pool (hset ▸ H'.pool1)⟩
  obtain ⟨t', m', R2, I2, r2, c2⟩ := prepares V (w := w0.put k { w0.task k with E := E, stage := .ready } m) H' (k := k')
    (by
      rw [tk', sk']
      exact ⟨⟨_, _, rfl⟩, fun _ => H'.ev, by rw [I1.value, hset], pools.1, pools.2, by rw [H'.start]; trivial⟩)
    (fun out h => by rw [tk', H'.start] at h; cases h)
  obtain ⟨w2, hw2⟩ : ∃ w2, w2 = (w0.put k { w0.task k with E := E, stage := .ready } m).put k' t' m' := ⟨_, rfl⟩
  rw [← hw2] at R2
  have hst := I2.stage
  rw [r2] at hst
  obtain ⟨g0, g1⟩ := hst hp'
  have tk : w2.task k = { w0.task k with E := E, stage := .ready } := by
    rw [hw2]; unfold World.put; dsimp only; rw [Function.update_of_ne hk, Function.update_self]
  have sk : w2.sets (w0.task k).set = m' := by
    have hput : ∀ (v : World ι C) (t : Task C), (v.put k' t m').sets (v.task k').set = m' := fun v t => by
      unfold World.put; dsimp only; rw [Function.update_self]
    have := hput (w0.put k { w0.task k with E := E, stage := .ready } m) t'
    rw [tk', ← hset] at this
    rw [hw2]
    exact this
  -- the first call multiplies
  have hval : m'.value = (w0.sets (w0.task k).set).value := by rw [I2.value, hset]
  have Hk : ProdHyp crs l0 l1 (w0.task k).op0.ct (w0.task k).op1.ct m' :=
    ⟨H.prod.lvl0, H.prod.lvl1, H.prod.in0, H.prod.in1, by rw [hval]; exact H.prod.keys, H.prod.crsU⟩
  obtain ⟨p, S', b1, b2⟩ := ckksMulRelinHoistedNew_of V pscale (w0.task k).o E (I1.ev fun out h => by cases h) Hk H'.prod.lvl0 H'.prod.lvl1 le0 le1
    (x0 := (w0.task k').op0.ct) (x1 := (w0.task k').op1.ct) (h0 := m'.pool0) (h1 := m'.pool1) g0 (g1 hs') i0 i1
  obtain ⟨n, hn⟩ := H.drops
  obtain ⟨e, r, q1, -, -⟩ := rescale_inplace ((w0.task k).o 91) (ct := ⟨p, C.fm.mul (w0.task k).op0.scale (w0.task k).op1.scale⟩) b1.atLevel H.base
    H.scale hn
  rw [q1] at b2
  have hstep : (w2.task k).step pscale crs (w2.sets (w2.task k).set) =
      .ok ({ w0.task k with E := { E with ksw := S' }, stage := .done r }, m') := by
    rw [tk]
    show Task.step pscale crs _ (w2.sets (w0.task k).set) = _
    rw [sk]
    simp only [Task.step, hp, hs]
    show (ckksMulRelinHoistedNew pscale crs (w0.task k).o E (w0.task k).op0 (w0.task k).op1 (some m'.pool0) (some m'.pool1) m' >>= _) = _
    rw [b2]
    rfl
  have hrows : mulRowsOf crs (min l0 l1) j0 j1 (w0.task k).op0.ct (w0.task k).op1.ct (w0.task k').op0.ct (w0.task k').op1.ct m' =
      mulRowsOf crs (min l0 l1) j0 j1 (w0.task k).op0.ct (w0.task k).op1.ct (w0.task k').op0.ct (w0.task k').op1.ct (w0.sets (w0.task k).set) := by
    have hkey : ∀ f, keyFor m' f = keyFor (w0.sets (w0.task k).set) f := fun f => by funext id; unfold keyFor; rw [hval]
    unfold mulRowsOf mulIn
    rw [hkey, hkey, hkey]
  rw [hrows] at b1
  refine ⟨w2.put k _ m', r, p, (w0.task k).o 91, e, (R1.trans R2).tail (.act k hstep), ?_, b1, q1⟩
  unfold World.put
  dsimp only
  rw [Function.update_self]

/-- **what the first call returns in that schedule**: with `c`, `d` the operands of the first call and `c'`, `d'` those of the second, the phase it
returns, times the primes divided out, is not `φ(c) φ(d)` but `φ(c) φ(d) - τ(c) τ(d) + τ(c') τ(d')`, where `τ` is the part of the phase that
involves the secrets, up to the error of a correct multiplication -/
theorem race_phase (V : C.Valid) {k k' : ι} (hk : k ≠ k') (hset : (w0.task k).set = (w0.task k').set) {l0 l1 j0 j1 : ℕ}
    (H : CallOk pscale crs (w0.task k) (w0.sets (w0.task k).set) l0 l1) (H' : CallOk pscale crs (w0.task k') (w0.sets (w0.task k').set) j0 j1)
    (hp : (w0.task k).pre = none) (hp' : (w0.task k').pre = none) (hs : (w0.task k).same = false) (hs' : (w0.task k').same = false)
    {c d c' d' : CCt C} (hc : (w0.task k).op0 = c) (hd : (w0.task k).op1 = d) (hc' : (w0.task k').op0 = c') (hd' : (w0.task k').op1 = d')
    (i0 : c'.ct.ids = c.ct.ids) (i1 : d'.ct.ids = d.ct.ids) (le0 : min l0 l1 ≤ j0) (le1 : min l0 l1 ≤ j1)
    {s r : String → Nega N ℤ} {a : ℕ → PolyQP C} {Sb Rb Be : ℤ}
    (K : C29.Keys crs (min l0 l1) (c.ct.ids ∪ d.ct.ids) (w0.sets (w0.task k).set) s r a Sb Rb Be) (hSb : ∀ id, Bdd (s id) Sb)
    (D : ℤ) (hD : ∀ j ∈ [min l0 l1, j0, j1], ∀ k < C.beta j, 2 * (C.blockProd j k : ℤ) ≤ D) {n : ℕ}
    (hn : Drops C.fm C.q (min l0 l1) (C.fm.mul c.scale d.scale) pscale n) :
    ∃ w out, Reach pscale crs w0 w ∧ (w.task k).stage = .done out ∧ out.ct.AtLevel (min l0 l1 - n) ∧ out.ct.ids = c.ct.ids ∪ d.ct.ids ∧
      ∃ Er : Nega N ℤ, (∀ x, 2 * (C.P * |Er x|) ≤
          2 * mulNoise N C.P c.ct.ids.card d.ct.ids.card (C.beta (min l0 l1)) D Sb Rb Be +
          C.P * ((C27.dropped C.q (min l0 l1) n - 1) * (1 + (c.ct.ids ∪ d.ct.ids).card * N * Sb))) ∧
        ∀ i ≤ min l0 l1 - n, c.ct.phase s i * d.ct.phase s i - c.ct.tail s i * d.ct.tail s i + c'.ct.tail s i * d'.ct.tail s i =
          (C27.dropped C.q (min l0 l1) n : Nega N (ZMod (C.q i))) * out.ct.phase s i + red (C.q i) Er := by
  subst hc hd hc' hd'
  obtain ⟨w, out, p, o, e, R, ho, hm, hr⟩ := race_reach V hk hset H H' hp hp' hs hs' i0.ge i1.ge le0 le1
  have hlev : min l0 l1 < C.nQ := lt_of_le_of_lt (min_le_left _ _) H.prod.lvl0
  obtain ⟨E1, b1, b2⟩ := madeOf_phase V hlev H'.prod.lvl0 H'.prod.lvl1 le0 le1 K i0 i1 hm D hD
  have hz := ct_zero_notMem_union (w0.task k).op0.ct (w0.task k).op1.ct
  obtain ⟨e', out', c1', c2, c3, c4, c5⟩ := rescale_inplace_phase V o (ct := ⟨p, C.fm.mul (w0.task k).op0.scale (w0.task k).op1.scale⟩) hlev
    hm.atLevel H.base H.scale hn
  rw [hr] at c1'
  injection c1' with c1'
  injection c1' with _ c1'
  subst c1'
  obtain ⟨E2, d1, d2, d3⟩ := c5 s Sb hSb
  rw [show (⟨p, C.fm.mul (w0.task k).op0.scale (w0.task k).op1.scale⟩ : CCt C).ct.ids = _ from hm.ids hz] at c3 d1
  refine ⟨w, out, R, ho, c2, c3, E2 - E1, fun x => ?_, fun i hi => ?_⟩
  · rw [Nega.sub_apply]
    have h1 : |E2 x - E1 x| ≤ |E2 x| + |E1 x| := abs_sub _ _
    have h2 := b1 x
    have h3 := d1 x
    have hP : (0 : ℤ) ≤ C.P := by positivity
    nlinarith [mul_le_mul_of_nonneg_left h1 hP, mul_le_mul_of_nonneg_left h3 hP]
  · have e1 := b2 i (by omega)
    have e2 := d2 i hi
    dsimp only at e2
    rw [map_sub, ← sub_eq_iff_eq_add.mpr e1, e2]
    ring

end C77
end MKHE
