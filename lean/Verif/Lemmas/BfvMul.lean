import Verif.Lemmas.BfvBasis
import Verif.Lemmas.MulTop

set_option autoImplicit false

/-!
# What `MulAndRelinBFV` and `MulAndRelinBFVHoisted` write
-/

namespace MKHE
open Finset Nega

variable {N : ℕ} [NeZero N] {B : BCtx N}

/-- the number of components of a switching key -/
def BCtx.bt (B : BCtx N) : ℕ := B.C.beta B.top

/-- two vectors of `beta` components as one vector of `2*beta` -/
def comb {α : Type*} (beta : ℕ) (s1 s2 : ℕ → α) : ℕ → α := fun k => if k < beta then s1 k else s2 (k - beta)

theorem comb_lt {α : Type*} {beta k : ℕ} (s1 s2 : ℕ → α) (h : k < beta) : comb beta s1 s2 k = s1 k := if_pos h
theorem comb_ge {α : Type*} {beta k : ℕ} (s1 s2 : ℕ → α) : comb beta s1 s2 (k + beta) = s2 k := by
  unfold comb; rw [if_neg (by omega), Nat.add_sub_cancel]

theorem comb_forall {α : Type*} {beta : ℕ} {s1 s2 : ℕ → α} {P : ℕ → α → Prop} :
    (∀ k < 2 * beta, P k (comb beta s1 s2 k)) ↔ ∀ k < beta, P k (s1 k) ∧ P (k + beta) (s2 k) := by
  constructor
  · intro h k hk
    have h1 := h k (by omega)
    have h2 := h (k + beta) (by omega)
    rw [comb_lt _ _ hk] at h1
    rw [comb_ge] at h2
    exact ⟨h1, h2⟩
  · intro h k hk
    by_cases hb : k < beta
    · rw [comb_lt _ _ hb]; exact (h k hb).1
    · have := (h (k - beta) (by omega)).2
      rw [Nat.sub_add_cancel (by omega)] at this
      unfold comb; rw [if_neg hb]; exact this

/-! ## digits -/

theorem decomposeBFV_ok (V : B.Valid) (S : BScratch B) {a : PolyR N} {X : Nega N ℤ} (ha : a.Rep B X) (ad1 ad2 : Swk B.C)
    (h1 : B.bt ≤ ad1.len) (h2 : B.bt ≤ ad2.len) :
    decomposeBFV S B.top a ad1 ad2 =
      .ok (⟨ad1.len, fun k => if k < B.bt then setQP B.top (digRG k a) (ad1.val k) else ad1.val k⟩,
        ⟨ad2.len, fun k => if k < B.bt then setQP B.top (digRG (k + B.bt) a) (ad2.val k) else ad2.val k⟩) := by
  unfold decomposeBFV
  have hb : B.C.beta B.top = B.bt := rfl
  simp only [V.betaRP_eq, lt_irrefl, if_false]
  obtain ⟨v, e1, e2⟩ := Go.loop_inv (fun (v : ℕ → PolyQP B.C) k => do
      let r ← decomposeSingleR B B.top k a (S.rp k)
      (.ok (Function.update v k r) : Go (ℕ → PolyQP B.C)))
    (fun pre v => ∀ k ∈ pre, v k = digRG k a) (List.range (2 * B.C.beta B.top)) (fun _ => PolyQP.zero) (by simp) (by
      intro pre k suf v hl' hI
      have hk : k < 2 * B.C.beta B.top := List.mem_range.mp (by rw [hl']; simp)
      rw [(decomposeSingleR_spec V hk ha).1, bind_ok]
      refine ⟨_, rfl, fun k' hk' => ?_⟩
      rcases mem_append_singleton'.mp hk' with e | e
      · subst e; simp
      · by_cases ee : k' = k
        · subst ee; simp
        · rw [Function.update_of_ne ee]; exact hI k' e)
  rw [e1, bind_ok, if_neg (by rw [hb]; omega)]
  simp only [hb]
  congr 3
  · funext k
    split
    · rw [e2 k (List.mem_range.mpr (by rw [hb]; omega))]
    · rfl
  · congr 1
    funext k
    split
    · rw [e2 (k + B.bt) (List.mem_range.mpr (by rw [hb]; omega))]
    · rfl

/-! ## the external product -/

/-- the rows accumulated in `Pool[1]`, in reduced words -/
noncomputable def accB (h bg : ℕ → PolyQP B.C) : PolyQP B.C :=
  ⟨fun i => (B.C.RQ i).ofEv (∑ k ∈ range (2 * B.bt), (B.C.RQ i).ev ((bg k).Q i) * (B.C.RQ i).ev ((h k).Q i) * (B.C.RQ i).rinv),
   fun j => (B.C.RP j).ofEv (∑ k ∈ range (2 * B.bt), (B.C.RP j).ev ((bg k).P j) * (B.C.RP j).ev ((h k).P j) * (B.C.RP j).rinv)⟩

/-- the rows that `ExternalProductBFVHoisted` writes -/
noncomputable def epB (h bg : ℕ → PolyQP B.C) : QRows B.C :=
  match modDownRows B.top (accB h bg) (fun _ _ => 0) (fun _ => Limb.zero) with
  | .ok r => r
  | .error _ => fun _ => Limb.zero

theorem accB_congr {h h' bg bg' : ℕ → PolyQP B.C} (hh : ∀ k < 2 * B.bt, (h k).Agree B.top (h' k))
    (hb : ∀ k < 2 * B.bt, (bg k).Agree B.top (bg' k)) : (accB h bg).Agree B.top (accB h' bg') := by
  refine ⟨fun i hi => ?_, fun j hj => ?_⟩
  · unfold accB; dsimp only; congr 1
    exact sum_congr rfl fun k hk => by rw [(hh k (mem_range.mp hk)).1 i hi, (hb k (mem_range.mp hk)).1 i hi]
  · unfold accB; dsimp only; congr 1
    exact sum_congr rfl fun k hk => by rw [(hh k (mem_range.mp hk)).2 j hj, (hb k (mem_range.mp hk)).2 j hj]

theorem epB_congr (V : B.Valid) {h h' bg bg' : ℕ → PolyQP B.C} (hh : ∀ k < 2 * B.bt, (h k).Agree B.top (h' k))
    (hb : ∀ k < 2 * B.bt, (bg k).Agree B.top (bg' k)) : epB h bg = epB h' bg' := by
  unfold epB
  rw [modDownRows_congr V.qp (accB_congr hh hb)]

theorem epB_run (V : B.Valid) (h bg : ℕ → PolyQP B.C) {x : PolyQP B.C} (hx : x.Agree B.top (accB h bg)) (conv : Fin N → ℕ → ℕ)
    (c : QRows B.C) : modDownRows B.top x conv c = .ok (setQ B.top (epB h bg) c) := by
  rw [modDownRows_congr V.qp hx]
  obtain ⟨r, L, h1, _⟩ := modDownRows_spec V.qp V.top_lt (accB h bg)
  have : epB h bg = setQ B.top r fun _ => Limb.zero := by unfold epB; rw [h1]
  rw [h1, this]
  congr 1
  funext i; unfold setQ; split <;> rfl

/-- **what the BFV external product computes** -/
theorem epB_spec (V : B.Valid) (h bg : ℕ → PolyQP B.C) :
    (∀ i ≤ B.top, (epB h bg i).Canon) ∧ ∃ L : Nega N ℤ, Bdd L (2 * B.C.P) ∧
      (∀ j < B.C.nP, red (B.C.p j) L =
        ∑ k ∈ range (2 * B.bt), (B.C.RP j).ev ((bg k).P j) * (B.C.RP j).ev ((h k).P j) * (B.C.RP j).rinv) ∧
      ∀ i ≤ B.top, (B.C.P : Nega N (ZMod (B.C.q i))) * cf (epB h bg i) =
        (∑ k ∈ range (2 * B.bt), (B.C.RQ i).ev ((bg k).Q i) * (B.C.RQ i).ev ((h k).Q i) * (B.C.RQ i).rinv)
          - red (B.C.q i) L := by
  obtain ⟨r, L, h1, h2, h3, h4, h5⟩ := modDownRows_spec V.qp V.top_lt (accB h bg)
  have : epB h bg = setQ B.top r fun _ => Limb.zero := by unfold epB; rw [h1]
  refine ⟨fun i hi => by rw [this, setQ_le _ _ hi]; exact h2 i hi, L, h3, fun j hj => by rw [h4 j hj]; simp [accB],
    fun i hi => by rw [this, setQ_le _ _ hi, h5 i hi]; simp [accB]⟩

theorem extProdBFVHoisted_ok (V : B.Valid) (S : BScratch B) (h1 h2 bg1 bg2 : Swk B.C) (a1 : B.bt ≤ h1.len) (a2 : B.bt ≤ h2.len)
    (a3 : B.bt ≤ bg1.len) (a4 : B.bt ≤ bg2.len) (c : QRows B.C) :
    ∃ p, extProdBFVHoisted S B.top h1 h2 bg1 bg2 c =
      .ok (setQ B.top (epB (comb B.bt h1.val h2.val) (comb B.bt bg1.val bg2.val)) c, { S with base := { S.base with pool1 := p } }) := by
  unfold extProdBFVHoisted
  have hb : B.C.beta B.top = B.bt := rfl
  rw [hb, if_neg (by omega)]
  obtain ⟨p, e1, e2⟩ := Go.loop_inv (fun (pool : PolyQP B.C) i =>
      let p := if i = 0 then qpMul B.top (bg1.val i) (h1.val i) pool else qpMulAdd B.top (bg1.val i) (h1.val i) pool
      (.ok (qpMulAdd B.top (bg2.val i) (h2.val i) p) : Go (PolyQP B.C)))
    (fun pre p => pre ≠ [] → (∀ i ≤ B.top, (p.Q i).Canon ∧ (B.C.RQ i).ev (p.Q i) = ∑ k ∈ range pre.length,
        ((B.C.RQ i).ev ((bg1.val k).Q i) * (B.C.RQ i).ev ((h1.val k).Q i) * (B.C.RQ i).rinv +
          (B.C.RQ i).ev ((bg2.val k).Q i) * (B.C.RQ i).ev ((h2.val k).Q i) * (B.C.RQ i).rinv)) ∧
      ∀ j < B.C.nP, (p.P j).Canon ∧ (B.C.RP j).ev (p.P j) = ∑ k ∈ range pre.length,
        ((B.C.RP j).ev ((bg1.val k).P j) * (B.C.RP j).ev ((h1.val k).P j) * (B.C.RP j).rinv +
          (B.C.RP j).ev ((bg2.val k).P j) * (B.C.RP j).ev ((h2.val k).P j) * (B.C.RP j).rinv))
    (List.range B.bt) S.base.pool1 (by simp) (by
      intro pre k suf p hl' hI
      have hk : k = pre.length := by
        have := congrArg (fun l => l[pre.length]?) hl'
        simp only [List.getElem?_append_right (le_refl _), Nat.sub_self, List.getElem?_cons_zero] at this
        rw [List.getElem?_eq_some_iff] at this
        obtain ⟨_, h2⟩ := this
        simpa using h2.symm
      refine ⟨_, rfl, fun _ => ?_⟩
      rw [List.length_append, List.length_singleton, ← hk]
      by_cases h0 : k = 0
      · subst h0
        simp only [if_true, zero_add]
        refine ⟨fun i hi => ?_, fun j hj => ?_⟩
        · simp only [qpMulAdd, qpMul, setQP, setQ_le _ _ hi]
          exact ⟨LimbOps.mulMontAdd_canon _ _ _ _ (LimbOps.mulMont_canon _ _ _), by simp⟩
        · simp only [qpMulAdd, qpMul, setQP, setP_lt _ _ hj]
          exact ⟨LimbOps.mulMontAdd_canon _ _ _ _ (LimbOps.mulMont_canon _ _ _), by simp⟩
      · simp only [if_neg h0]
        obtain ⟨i1, i2⟩ := hI (by intro hp; apply h0; rw [hk, hp]; rfl)
        rw [← hk] at i1 i2
        refine ⟨fun i hi => ?_, fun j hj => ?_⟩
        · simp only [qpMulAdd, setQP, setQ_le _ _ hi]
          refine ⟨LimbOps.mulMontAdd_canon _ _ _ _ (LimbOps.mulMontAdd_canon _ _ _ _ (i1 i hi).1), ?_⟩
          rw [LimbOps.ev_mulMontAdd, LimbOps.ev_mulMontAdd, (i1 i hi).2, sum_range_succ, add_assoc]
        · simp only [qpMulAdd, setQP, setP_lt _ _ hj]
          refine ⟨LimbOps.mulMontAdd_canon _ _ _ _ (LimbOps.mulMontAdd_canon _ _ _ _ (i2 j hj).1), ?_⟩
          rw [LimbOps.ev_mulMontAdd, LimbOps.ev_mulMontAdd, (i2 j hj).2, sum_range_succ, add_assoc])
  refine ⟨p, ?_⟩
  have hpos : 0 < B.bt := V.qp.beta_pos V.top_lt
  obtain ⟨i1, i2⟩ := e2 (by intro hn; have := congrArg List.length hn; simp at this; omega)
  rw [List.length_range] at i1 i2
  have hsum : ∀ {K : Type _} [AddCommMonoid K] (f g : ℕ → K) (F : ℕ → K) (_ : ∀ k < B.bt, F k = f k) (_ : ∀ k < B.bt, F (k + B.bt) = g k),
      ∑ k ∈ range B.bt, (f k + g k) = ∑ k ∈ range (2 * B.bt), F k := by
    intro K _ f g F hf hg
    rw [two_mul, sum_range_add, sum_add_distrib]
    congr 1
    · exact sum_congr rfl fun k hk => (hf k (mem_range.mp hk)).symm
    · exact sum_congr rfl fun k hk => by rw [add_comm B.bt k]; exact (hg k (mem_range.mp hk)).symm
  have ag : p.Agree B.top (accB (comb B.bt h1.val h2.val) (comb B.bt bg1.val bg2.val)) := by
    refine ⟨fun i hi => ?_, fun j hj => ?_⟩
    · apply (B.C.RQ i).ev_inj (i1 i hi).1 (LimbOps.ofEv_canon _ _)
      rw [(i1 i hi).2, LimbOps.ev_ofEv]
      exact hsum _ _ _ (fun k hk => by rw [comb_lt _ _ hk, comb_lt _ _ hk]) (fun k hk => by rw [comb_ge, comb_ge])
    · apply (B.C.RP j).ev_inj (i2 j hj).1 (LimbOps.ofEv_canon _ _)
      rw [(i2 j hj).2, LimbOps.ev_ofEv]
      exact hsum _ _ _ (fun k hk => by rw [comb_lt _ _ hk, comb_lt _ _ hk]) (fun k hk => by rw [comb_ge, comb_ge])
  rw [e1, bind_ok, epB_run V _ _ ag, bind_ok]

/-! ## scratch bookkeeping -/

/-- what the multiplication keeps of its scratch memory between the steps -/
structure BScratch.Keep (S S' : BScratch B) : Prop where
  s3 : S'.s3 = S.s3
  s4 : S'.s4 = S.s4
  s5 : S'.s5 = S.s5
  s6 : S'.s6 = S.s6
  l1 : S'.s1.len = S.s1.len
  l2 : S'.s2.len = S.s2.len

theorem BScratch.Keep.refl (S : BScratch B) : S.Keep S := ⟨rfl, rfl, rfl, rfl, rfl, rfl⟩
theorem BScratch.Keep.trans {S S' S'' : BScratch B} (h : S.Keep S') (h' : S'.Keep S'') : S.Keep S'' :=
  ⟨h'.s3.trans h.s3, h'.s4.trans h.s4, h'.s5.trans h.s5, h'.s6.trans h.s6, h'.l1.trans h.l1, h'.l2.trans h.l2⟩

/-- the scratch vectors have been allocated with enough components (`NewKeySwitcher`, mkbfv/keyswitch.go:30-55) -/
structure BScratch.Alloc (S : BScratch B) : Prop where
  s1 : B.bt ≤ S.s1.len
  s2 : B.bt ≤ S.s2.len
  s3 : B.bt ≤ S.s3.len
  s4 : B.bt ≤ S.s4.len
  s5 : B.bt ≤ S.s5.len
  s6 : B.bt ≤ S.s6.len

/-- where the digits of component `id` come from -/
def DigB (op : CtR N) (hoisted : HoistedPair B) (id : String) (h : ℕ → PolyQP B.C) : Prop :=
  match hoisted with
  | none => ∃ a X, op.lookup id = some a ∧ a.Rep B X ∧ h = fun k => digRG k a
  | some m => ∃ s1 s2, m.1.lookup id = some s1 ∧ m.2.lookup id = some s2 ∧ B.bt ≤ s1.len ∧ B.bt ≤ s2.len ∧
      h = comb B.bt s1.val s2.val

theorem digitsB_ok (V : B.Valid) (S : BScratch B) {op : CtR N} {hoisted : HoistedPair B} {id : String} {h : ℕ → PolyQP B.C}
    (hd : DigB op hoisted id h) (h1 : B.bt ≤ S.s1.len) (h2 : B.bt ≤ S.s2.len) :
    ∃ s S', digitsB S B.top op hoisted id = .ok (s, S') ∧ S.Keep S' ∧ B.bt ≤ s.1.len ∧ B.bt ≤ s.2.len ∧
      ∀ k < 2 * B.bt, (comb B.bt s.1.val s.2.val k).Agree B.top (h k) := by
  unfold DigB at hd
  unfold digitsB
  cases hoisted with
  | none =>
    obtain ⟨a, X, b1, b2, b3⟩ := hd
    simp only [GoMap.deref_ok b1, bind_ok, decomposeBFV_ok V S b2 S.s1 S.s2 h1 h2]
    refine ⟨_, _, rfl, ⟨rfl, rfl, rfl, rfl, rfl, rfl⟩, h1, h2, ?_⟩
    rw [comb_forall (P := fun k g => PolyQP.Agree B.top g (h k))]
    intro k hk
    simp only [if_pos hk, b3]
    exact ⟨setQP_agree _ _ _, setQP_agree _ _ _⟩
  | some m =>
    obtain ⟨s1, s2, b1, b2, b3, b4, b5⟩ := hd
    simp only [GoMap.deref_ok b1, GoMap.deref_ok b2, bind_ok]
    exact ⟨_, _, rfl, BScratch.Keep.refl S, b3, b4, fun k _ => by rw [b5]; exact PolyQP.Agree.refl _ _⟩

theorem genVecB_ok (V : B.Valid) (S : BScratch B) (op : CtR N) (hoisted : HoistedPair B)
    (rlk : GoMap String (BRlk B.C)) (sel : Rlk B.C → Swk B.C) (l : List String) (hnd : l.Nodup) (key h : String → ℕ → PolyQP B.C)
    (x1 x2 : Swk B.C) (hd : ∀ id ∈ l, DigB op hoisted id (h id))
    (hk : ∀ id ∈ l, ∃ r, rlk.lookup id = some r ∧ B.bt ≤ (sel r.k1).len ∧ B.bt ≤ (sel r.k2).len ∧
      comb B.bt (sel r.k1).val (sel r.k2).val = key id)
    (hx1 : B.bt ≤ x1.len) (hx2 : B.bt ≤ x2.len) (hx0 : ∀ k < B.bt, x1.val k = PolyQP.zero ∧ x2.val k = PolyQP.zero)
    (h1 : B.bt ≤ S.s1.len) (h2 : B.bt ≤ S.s2.len) :
    ∃ x S', genVecB S B.top op hoisted rlk sel l x1 x2 = .ok (x, S') ∧ S.Keep S' ∧ B.bt ≤ x.1.len ∧ B.bt ≤ x.2.len ∧
      ∀ k < 2 * B.bt, (comb B.bt x.1.val x.2.val k).Agree B.top (vecG l.toFinset key h k) := by
  unfold genVecB
  have hb : B.C.beta B.top = B.bt := rfl
  -- the state of one component after the ids in `pre`
  let St : List String → ℕ → PolyQP B.C → Prop := fun pre k g =>
    (∀ i ≤ B.top, (g.Q i).Canon ∧ (B.C.RQ i).ev (g.Q i) =
        (pre.map fun id => (B.C.RQ i).ev ((key id k).Q i) * (B.C.RQ i).ev ((h id k).Q i) * (B.C.RQ i).rinv).sum) ∧
      ∀ j < B.C.nP, (g.P j).Canon ∧ (B.C.RP j).ev (g.P j) =
        (pre.map fun id => (B.C.RP j).ev ((key id k).P j) * (B.C.RP j).ev ((h id k).P j) * (B.C.RP j).rinv).sum
  have hstep : ∀ pre id k (g d e : PolyQP B.C), St pre k g → d.Agree B.top (h id k) → e = key id k →
      St (pre ++ [id]) k (qpMulAdd B.top e d g) := by
    intro pre id k g d e ⟨j1, j2⟩ ag he
    subst he
    refine ⟨fun i hi => ⟨?_, ?_⟩, fun j hj => ⟨?_, ?_⟩⟩
    · simp only [qpMulAdd, setQP, setQ_le _ _ hi]; exact LimbOps.mulMontAdd_canon _ _ _ _ (j1 i hi).1
    · simp only [qpMulAdd, setQP, setQ_le _ _ hi, LimbOps.ev_mulMontAdd, (j1 i hi).2, ag.1 i hi, List.map_append,
        List.sum_append, List.map_cons, List.map_nil, List.sum_cons, List.sum_nil, add_zero]
    · simp only [qpMulAdd, setQP, setP_lt _ _ hj]; exact LimbOps.mulMontAdd_canon _ _ _ _ (j2 j hj).1
    · simp only [qpMulAdd, setQP, setP_lt _ _ hj, LimbOps.ev_mulMontAdd, (j2 j hj).2, ag.2 j hj, List.map_append,
        List.sum_append, List.map_cons, List.map_nil, List.sum_cons, List.sum_nil, add_zero]
  have h0 : ∀ k, St [] k PolyQP.zero := fun k =>
    ⟨fun i _ => ⟨Limb.zero_canon (B.C.RQ i).pos, by simp [PolyQP.zero]⟩, fun j _ => ⟨Limb.zero_canon (B.C.RP j).pos, by simp [PolyQP.zero]⟩⟩
  obtain ⟨⟨⟨y1, y2⟩, S'⟩, e1, e2, e3, e4, e5⟩ := Go.loop_inv (genVecBStep B.top op hoisted rlk sel)
    (fun pre st => S.Keep st.2 ∧ B.bt ≤ st.1.1.len ∧ B.bt ≤ st.1.2.len ∧
      ∀ k < B.bt, St pre k (st.1.1.val k) ∧ St pre (k + B.bt) (st.1.2.val k))
    l ((x1, x2), S) ⟨BScratch.Keep.refl S, hx1, hx2, fun k hk' => by
      obtain ⟨z1, z2⟩ := hx0 k hk'
      refine ⟨?_, ?_⟩
      · show St [] k (x1.val k); rw [z1]; exact h0 k
      · show St [] (k + B.bt) (x2.val k); rw [z2]; exact h0 _⟩ (by
      rintro pre id suf ⟨⟨y1, y2⟩, S'⟩ hl' ⟨i1, i2, i3, i4⟩
      have hid : id ∈ l := by rw [hl']; simp
      obtain ⟨s, S'', d1, d2, d3, d4, d5⟩ := digitsB_ok V S' (hd id hid) (by rw [i1.l1]; exact h1) (by rw [i1.l2]; exact h2)
      obtain ⟨r, k1, k2, k3, k4⟩ := hk id hid
      refine ⟨((⟨y1.len, fun k => if k < B.bt then qpMulAdd B.top ((sel r.k1).val k) (s.1.val k) (y1.val k) else y1.val k⟩,
        ⟨y2.len, fun k => if k < B.bt then qpMulAdd B.top ((sel r.k2).val k) (s.2.val k) (y2.val k) else y2.val k⟩), S''),
        ?_, i1.trans d2, i2, i3, fun k hk' => ?_⟩
      · unfold genVecBStep
        dsimp only
        rw [d1]
        simp only [bind_ok, GoMap.deref_ok k1, accVec, hb]
        rw [if_neg (by show ¬(_ < B.bt ∨ _ < B.bt ∨ y1.len < B.bt); dsimp only at i2; omega), bind_ok,
          if_neg (by show ¬(_ < B.bt ∨ _ < B.bt ∨ y2.len < B.bt); dsimp only at i3; omega), bind_ok]
      · obtain ⟨c1, c2⟩ := i4 k hk'
        obtain ⟨a1, a2⟩ := (comb_forall (P := fun k g => PolyQP.Agree B.top g (h id k))).mp d5 k hk'
        simp only [if_pos hk']
        refine ⟨hstep pre id k _ _ _ c1 a1 ?_, hstep pre id (k + B.bt) _ _ _ c2 a2 ?_⟩
        · rw [← k4, comb_lt _ _ hk']
        · rw [← k4, comb_ge])
  rw [e1]
  dsimp only at e3 e4
  simp only [bind_ok, mformVec, hb]
  rw [if_neg (by omega), bind_ok, if_neg (by omega), bind_ok]
  refine ⟨_, _, rfl, e2, e3, e4, ?_⟩
  rw [comb_forall (P := fun k g => PolyQP.Agree B.top g (vecG l.toFinset key h k))]
  intro k hk'
  have hfin : ∀ k g, St l k g → (qpMForm B.top g g).Agree B.top (vecG l.toFinset key h k) := by
    intro k g ⟨j1, j2⟩
    refine ⟨fun i hi => ?_, fun j hj => ?_⟩
    · simp only [qpMForm, setQP, setQ_le _ _ hi, vecG]
      apply (B.C.RQ i).ev_inj (LimbOps.mform_canon _ _) (LimbOps.ofEv_canon _ _)
      rw [LimbOps.ev_mform, (j1 i hi).2, LimbOps.ev_ofEv, List.sum_toFinset _ hnd, ← List.sum_map_mul_right]
      congr 1; apply List.map_congr_left; intro id _
      rw [mul_assoc, LimbOps.rinv_mul, mul_one]
    · simp only [qpMForm, setQP, setP_lt _ _ hj, vecG]
      apply (B.C.RP j).ev_inj (LimbOps.mform_canon _ _) (LimbOps.ofEv_canon _ _)
      rw [LimbOps.ev_mform, (j2 j hj).2, LimbOps.ev_ofEv, List.sum_toFinset _ hnd, ← List.sum_map_mul_right]
      congr 1; apply List.map_congr_left; intro id _
      rw [mul_assoc, LimbOps.rinv_mul, mul_one]
  obtain ⟨c1, c2⟩ := e5 k hk'
  simp only [if_pos hk']
  exact ⟨hfin k _ c1, hfin _ _ c2⟩

/-! ## the specification -/

/-- the data a BFV multiplication reads; the vectors with index `k` have `2*beta` components, `v` and `u` have `beta` -/
structure BMulIn (B : BCtx N) where
  ids0 : Finset String
  ids1 : Finset String
  a0 : String → PolyR N
  a1 : String → PolyR N
  h0 : String → ℕ → PolyQP B.C
  h1 : String → ℕ → PolyQP B.C
  d : String → ℕ → PolyQP B.C
  b : String → ℕ → PolyQP B.C
  v : String → ℕ → PolyQP B.C
  u : ℕ → PolyQP B.C

namespace BMulIn
variable (M : BMulIn B)

/-- the tensor product of the components, before `Quantize` -/
def tens (id : String) : RowsR B :=
  if id = "0" then mulR (mformR (nttR (M.a0 "0"))) (nttR (M.a1 "0"))
  else if id ∈ M.ids0 then
    if id ∈ M.ids1 then mulAddR (mformR (nttR (M.a1 "0"))) (nttR (M.a0 id)) (mulR (mformR (nttR (M.a0 "0"))) (nttR (M.a1 id)))
    else mulR (mformR (nttR (M.a1 "0"))) (nttR (M.a0 id))
  else mulR (mformR (nttR (M.a0 "0"))) (nttR (M.a1 id))

/-- the vector `x` -/
noncomputable def x : ℕ → PolyQP B.C := vecG M.ids0 M.d M.h0
/-- the vector `y` -/
noncomputable def y : ℕ → PolyQP B.C := vecG M.ids1 M.b M.h1
/-- the external product of `op0[id]` with `y` -/
noncomputable def w (id : String) : QRows B.C := epB (M.h0 id) M.y

/-- the component `"0"` of the result -/
noncomputable def out0 : QRows B.C := fun i => (B.C.RQ i).ofCf
  (cf (quantG (M.tens "0") i) + ∑ id ∈ M.ids0, cf (epG B.top (digs B.top (M.w id)) (M.v id) i))

/-- the other components -/
noncomputable def outI (id : String) : QRows B.C := fun i => (B.C.RQ i).ofCf
  (cf (quantG (M.tens id) i)
    + (if id ∈ M.ids1 then cf (epB (M.h1 id) M.x i) else 0)
    + (if id ∈ M.ids0 then cf (epG B.top (digs B.top (M.w id)) M.u i) else 0))

/-- the result rows -/
noncomputable def out (id : String) : QRows B.C := if id = "0" then M.out0 else M.outI id

end BMulIn

/-- an operand over R -/
structure OpB (op : CtR N) (ids : Finset String) (a : String → PolyR N) : Prop where
  mem : ∀ id, id ∈ ids ↔ id ∈ op ∧ id ≠ "0"
  val : ∀ id, id ∈ ids ∨ id = "0" → op.lookup id = some (a id)

/-! ## loops that update components in place -/

/-- a loop whose body rewrites the rows of one component -/
theorem updLoop {σ : Type} {level : ℕ} {out : Ct B.C} (f : Ct B.C × σ → String → Go (Ct B.C × σ)) (l : List String) (hnd : l.Nodup)
    (Inv : σ → Prop) (F : String → ∀ i, Limb N (B.C.q i) → Limb N (B.C.q i))
    (hf : ∀ id ∈ l, ∀ out' S R, Inv S → Ct.Upd level out R out' → ∃ out'' S' R', f (out', S) id = .ok (out'', S') ∧ Inv S' ∧
      Ct.Upd level out R' out'' ∧ (∀ i ≤ level, R' id i = F id i (R id i)) ∧ ∀ id', id' ≠ id → R' id' = R id')
    {out1 : Ct B.C} {S1 : σ} {R1 : String → QRows B.C} (h1 : Ct.Upd level out R1 out1) (hI : Inv S1) :
    ∃ out' S' R', Go.loop f (out1, S1) l = .ok (out', S') ∧ Inv S' ∧ Ct.Upd level out R' out' ∧
      ∀ id, ∀ i ≤ level, R' id i = if id ∈ l then F id i (R1 id i) else R1 id i := by
  obtain ⟨⟨out', S'⟩, e1, e2, R', e3, e4⟩ := Go.loop_inv f
    (fun pre st => Inv st.2 ∧ ∃ R', Ct.Upd level out R' st.1 ∧
      ∀ id, ∀ i ≤ level, R' id i = if id ∈ pre then F id i (R1 id i) else R1 id i)
    l (out1, S1) ⟨hI, R1, h1, by simp⟩ (by
      rintro pre id suf ⟨out2, S2⟩ hl' ⟨i1, R', i2, i3⟩
      have hpre : id ∉ pre := nodup_split hnd hl'
      obtain ⟨out3, S3, R3, b1, b2, b3, b4, b5⟩ := hf id (by rw [hl']; simp) out2 S2 R' i1 i2
      refine ⟨(out3, S3), b1, b2, R3, b3, fun id' i hi => ?_⟩
      by_cases e : id' = id
      · subst e
        rw [b4 i hi, i3 id' i hi, if_neg hpre, if_pos (by simp)]
      · rw [b5 id' e, i3 id' i hi]
        have : id' ∈ pre ++ [id] ↔ id' ∈ pre := by rw [mem_append_singleton']; tauto
        simp only [this])
  exact ⟨out', S', R', e1, e2, e3, e4⟩

theorem Ct.Upd.quant (V : B.Valid) {out out' : Ct B.C} {R : String → QRows B.C} (h : Ct.Upd B.top out R out') {id : String} {p : Poly B.C}
    (hp : out.lookup id = some p) (hlen : B.top < p.len) (pool : Fin N → ℕ → ℕ) (a : RowsR B) :
    ∃ out'', out'.quant pool a id = .ok out'' ∧ Ct.Upd B.top out (Function.update R id (quantG a)) out'' := by
  have h1 := h id
  rw [hp, Option.map_some] at h1
  refine ⟨out'.insert id ((p.set B.top (R id)).set B.top (quantG a)), ?_, fun id' => ?_⟩
  · unfold Ct.quant
    rw [GoMap.deref_ok h1, bind_ok, Poly.need_ok (by exact hlen), bind_ok, quantize_run V, bind_ok]
    rfl
  · rw [GoMap.lookup_insert']
    by_cases e : id' = id
    · subst e
      rw [if_pos rfl, hp, Option.map_some, Function.update_self, Poly.set_set]
    · rw [if_neg e, h id', Function.update_of_ne e]

theorem tensorB_ok (V : B.Valid) (o : Sched String) (S : BScratch B) {op0 op1 : CtR N} {ids0 ids1 : IDSet} {out : Ct B.C} {M : BMulIn B}
    (h0 : OpB op0 M.ids0 M.a0) (h1 : OpB op1 M.ids1 M.a1)
    (hi0 : ∀ id, ids0.has id = true ↔ id ∈ M.ids0) (hi1 : ∀ id, ids1.has id = true ↔ id ∈ M.ids1)
    (ho : OutOK B.top out (M.ids0 ∪ M.ids1)) :
    ∃ out' S' R, tensorB o S op0 op1 ids0 ids1 out = .ok (out', S') ∧ S.Keep S' ∧ Ct.Upd B.top out R out' ∧
      ∀ id, id ∈ M.ids0 ∪ M.ids1 ∨ id = "0" → ∀ i ≤ B.top, R id i = quantG (M.tens id) i := by
  obtain ⟨R0, hR0⟩ := Ct.Upd.refl B.top out
  obtain ⟨pz, hz1, hz2⟩ := ho.get (id := "0") (.inr rfl)
  have n0 : "0" ∉ M.ids0 := fun h => ((h0.mem _).mp h).2 rfl
  have n1 : "0" ∉ M.ids1 := fun h => ((h1.mem _).mp h).2 rfl
  have f0 : ∀ id, ids0.has id = false ↔ id ∉ M.ids0 := fun id => by rw [← hi0]; simp
  have f1 : ∀ id, ids1.has id = false ↔ id ∉ M.ids1 := fun id => by rw [← hi1]; simp
  unfold tensorB
  rw [GoMap.deref_ok (h0.val "0" (.inr rfl)), bind_ok, GoMap.deref_ok (h1.val "0" (.inr rfl)), bind_ok]
  dsimp only
  obtain ⟨out1, u1, u2⟩ := hR0.quant V hz1 hz2 S.conv (mulR (mformR (nttR (M.a0 "0"))) (nttR (M.a1 "0")))
  rw [u1, bind_ok]
  -- what the loops keep
  let Inv : BScratch B → Prop := fun T => S.Keep T ∧ T.r1 = mformR (nttR (M.a0 "0")) ∧ T.r2 = mformR (nttR (M.a1 "0"))
  obtain ⟨out2, S2, R2, l1, l2, l3, l4⟩ := updLoop (tensorB0 op0 ids1) (GoMap.range (o 0) ids0.value) (GoMap.nodup_range _ _) Inv
    (fun id i r => if id ∈ M.ids1 then r else quantG (M.tens id) i) (out := out) (level := B.top) (by
      rintro id hid out' T R ⟨I1, I2, I3⟩ hU
      have hid : id ∈ M.ids0 := by rw [← hi0, ← IDSet.mem_value_iff, ← GoMap.mem_range (o := o 0)]; exact hid
      have hne : id ≠ "0" := fun e => n0 (e ▸ hid)
      unfold tensorB0
      by_cases hm : id ∈ M.ids1
      · rw [if_neg (by rw [f1]; simpa using hm)]
        exact ⟨_, _, R, rfl, ⟨I1, I2, I3⟩, hU, fun i _ => by rw [if_pos hm], fun _ _ => rfl⟩
      · rw [if_pos ((f1 id).mpr hm), GoMap.deref_ok (h0.val id (.inl hid)), bind_ok]
        dsimp only
        obtain ⟨p, w1, w2⟩ := ho.get (id := id) (.inl (mem_union_left _ hid))
        obtain ⟨out3, x1, x2⟩ := hU.quant V w1 w2 T.conv (mulR T.r2 (nttR (M.a0 id)))
        rw [x1, bind_ok]
        refine ⟨_, _, _, rfl, ⟨⟨I1.s3, I1.s4, I1.s5, I1.s6, I1.l1, I1.l2⟩, I2, I3⟩, x2, fun i _ => ?_, fun id' e => Function.update_of_ne e _ _⟩
        rw [Function.update_self, if_neg hm, I3]
        unfold BMulIn.tens
        rw [if_neg hne, if_pos hid, if_neg hm])
    u2 (S1 := ⟨S.base, S.rp, S.conv, S.s1, S.s2, S.s3, S.s4, S.s5, S.s6, S.q1, S.q2, mformR (nttR (M.a0 "0")), mformR (nttR (M.a1 "0")),
      mulR (mformR (nttR (M.a0 "0"))) (nttR (M.a1 "0")), S.r4⟩) ⟨⟨rfl, rfl, rfl, rfl, rfl, rfl⟩, rfl, rfl⟩
  rw [l1, bind_ok]
  obtain ⟨out3, S3, R3, m1, m2, m3, m4⟩ := updLoop (tensorB1 op1 ids0) (GoMap.range (o 1) ids1.value) (GoMap.nodup_range _ _) Inv
    (fun id i r => if id ∈ M.ids0 then r else quantG (M.tens id) i) (out := out) (level := B.top) (by
      rintro id hid out' T R ⟨I1, I2, I3⟩ hU
      have hid : id ∈ M.ids1 := by rw [← hi1, ← IDSet.mem_value_iff, ← GoMap.mem_range (o := o 1)]; exact hid
      have hne : id ≠ "0" := fun e => n1 (e ▸ hid)
      unfold tensorB1
      by_cases hm : id ∈ M.ids0
      · rw [if_neg (by rw [f0]; simpa using hm)]
        exact ⟨_, _, R, rfl, ⟨I1, I2, I3⟩, hU, fun i _ => by rw [if_pos hm], fun _ _ => rfl⟩
      · rw [if_pos ((f0 id).mpr hm), GoMap.deref_ok (h1.val id (.inl hid)), bind_ok]
        dsimp only
        obtain ⟨p, w1, w2⟩ := ho.get (id := id) (.inl (mem_union_right _ hid))
        obtain ⟨out3, x1, x2⟩ := hU.quant V w1 w2 T.conv (mulR T.r1 (nttR (M.a1 id)))
        rw [x1, bind_ok]
        refine ⟨_, _, _, rfl, ⟨⟨I1.s3, I1.s4, I1.s5, I1.s6, I1.l1, I1.l2⟩, I2, I3⟩, x2, fun i _ => ?_, fun id' e => Function.update_of_ne e _ _⟩
        rw [Function.update_self, if_neg hm, I2]
        unfold BMulIn.tens
        rw [if_neg hne, if_neg hm])
    l3 l2
  rw [m1, bind_ok]
  obtain ⟨out4, S4, R4, k1, k2, k3, k4⟩ := updLoop (tensorB2 op0 op1 ids0) (GoMap.range (o 2) ids1.value) (GoMap.nodup_range _ _) Inv
    (fun id i r => if id ∈ M.ids0 then quantG (M.tens id) i else r) (out := out) (level := B.top) (by
      rintro id hid out' T R ⟨I1, I2, I3⟩ hU
      have hid : id ∈ M.ids1 := by rw [← hi1, ← IDSet.mem_value_iff, ← GoMap.mem_range (o := o 2)]; exact hid
      have hne : id ≠ "0" := fun e => n1 (e ▸ hid)
      unfold tensorB2
      by_cases hm : id ∈ M.ids0
      · rw [if_pos ((hi0 id).mpr hm), GoMap.deref_ok (h1.val id (.inl hid)), bind_ok]
        dsimp only
        rw [GoMap.deref_ok (h0.val id (.inl hm)), bind_ok]
        obtain ⟨p, w1, w2⟩ := ho.get (id := id) (.inl (mem_union_right _ hid))
        obtain ⟨out3, x1, x2⟩ := hU.quant V w1 w2 T.conv (mulAddR T.r2 (nttR (M.a0 id)) (mulR T.r1 (nttR (M.a1 id))))
        rw [x1, bind_ok]
        refine ⟨_, _, _, rfl, ⟨⟨I1.s3, I1.s4, I1.s5, I1.s6, I1.l1, I1.l2⟩, I2, I3⟩, x2, fun i _ => ?_, fun id' e => Function.update_of_ne e _ _⟩
        rw [Function.update_self, if_pos hm, I2, I3]
        unfold BMulIn.tens
        rw [if_neg hne, if_pos hm, if_pos hid]
      · rw [if_neg (by rw [hi0]; exact hm)]
        exact ⟨_, _, R, rfl, ⟨I1, I2, I3⟩, hU, fun i _ => by rw [if_neg hm], fun _ _ => rfl⟩)
    m3 m2
  refine ⟨out4, S4, R4, k1, k2.1, k3, fun id hid i hi => ?_⟩
  have g0 : id ∈ GoMap.range (o 0) ids0.value ↔ id ∈ M.ids0 := by rw [GoMap.mem_range, IDSet.mem_value_iff, hi0]
  have g1 : id ∈ GoMap.range (o 1) ids1.value ↔ id ∈ M.ids1 := by rw [GoMap.mem_range, IDSet.mem_value_iff, hi1]
  have g2 : id ∈ GoMap.range (o 2) ids1.value ↔ id ∈ M.ids1 := by rw [GoMap.mem_range, IDSet.mem_value_iff, hi1]
  rw [k4 id i hi, m4 id i hi, l4 id i hi]
  simp only [g0, g1, g2]
  rcases hid with hid | hid
  · by_cases c0 : id ∈ M.ids0
    · by_cases c1 : id ∈ M.ids1
      · simp only [c0, c1, if_true]
      · simp only [c0, c1, if_true, if_false]
    · have c1 : id ∈ M.ids1 := (mem_union.mp hid).resolve_left c0
      simp only [c0, c1, if_true, if_false]
  · subst hid
    simp only [n0, n1, if_false, Function.update_self]
    unfold BMulIn.tens
    rw [if_pos rfl]

/-! ## the external products -/

theorem extIntoB_ok (V : B.Valid) (S : BScratch B) {op : CtR N} {hoisted : HoistedPair B} {id : String} {h : ℕ → PolyQP B.C}
    (hd : DigB op hoisted id h) (h1 : B.bt ≤ S.s1.len) (h2 : B.bt ≤ S.s2.len) {bg1 bg2 : Swk B.C} {bg : ℕ → PolyQP B.C}
    (b1 : B.bt ≤ bg1.len) (b2 : B.bt ≤ bg2.len) (hb : ∀ k < 2 * B.bt, (comb B.bt bg1.val bg2.val k).Agree B.top (bg k)) :
    ∃ S', extIntoB S B.top op hoisted id bg1 bg2 = .ok S' ∧ S.Keep S' ∧ S'.q1 = setQ B.top (epB h bg) S.q1 := by
  unfold DigB at hd
  unfold extIntoB
  cases hoisted with
  | none =>
    obtain ⟨a, X, c1, c2, c3⟩ := hd
    simp only [GoMap.deref_ok c1, bind_ok, extProdBFV, decomposeBFV_ok V S c2 S.s1 S.s2 h1 h2]
    set t1 : Swk B.C := ⟨S.s1.len, fun k => if k < B.bt then setQP B.top (digRG k a) (S.s1.val k) else S.s1.val k⟩
    set t2 : Swk B.C := ⟨S.s2.len, fun k => if k < B.bt then setQP B.top (digRG (k + B.bt) a) (S.s2.val k) else S.s2.val k⟩
    obtain ⟨p, hp⟩ := extProdBFVHoisted_ok V { S with s1 := t1, s2 := t2 } t1 t2 bg1 bg2 h1 h2 b1 b2 S.q1
    rw [hp, bind_ok]
    refine ⟨_, rfl, ⟨rfl, rfl, rfl, rfl, rfl, rfl⟩, ?_⟩
    show setQ _ _ _ = _
    rw [epB_congr V (h' := h) (bg' := bg) ?_ hb]
    rw [comb_forall (P := fun k g => PolyQP.Agree B.top g (h k))]
    intro k hk
    simp only [t1, t2, if_pos hk, c3]
    exact ⟨setQP_agree _ _ _, setQP_agree _ _ _⟩
  | some m =>
    obtain ⟨s1, s2, c1, c2, c3, c4, c5⟩ := hd
    simp only [GoMap.deref_ok c1, GoMap.deref_ok c2, bind_ok]
    obtain ⟨p, hp⟩ := extProdBFVHoisted_ok V S s1 s2 bg1 bg2 c3 c4 b1 b2 S.q1
    rw [hp, bind_ok]
    refine ⟨_, rfl, ⟨rfl, rfl, rfl, rfl, rfl, rfl⟩, ?_⟩
    show setQ _ _ _ = _
    rw [c5, epB_congr V (fun k _ => PolyQP.Agree.refl _ _) hb]

/-- the vectors `x1, x2, y1, y2` are in place -/
structure VecOK (M : BMulIn B) (S : BScratch B) : Prop where
  l1 : B.bt ≤ S.s1.len
  l2 : B.bt ≤ S.s2.len
  l3 : B.bt ≤ S.s3.len
  l4 : B.bt ≤ S.s4.len
  l5 : B.bt ≤ S.s5.len
  l6 : B.bt ≤ S.s6.len
  x : ∀ k < 2 * B.bt, (comb B.bt S.s3.val S.s4.val k).Agree B.top (M.x k)
  y : ∀ k < 2 * B.bt, (comb B.bt S.s5.val S.s6.val k).Agree B.top (M.y k)

theorem VecOK.keep {M : BMulIn B} {S S' : BScratch B} (h : VecOK M S) (k : S.Keep S') : VecOK M S' :=
  ⟨by rw [k.l1]; exact h.l1, by rw [k.l2]; exact h.l2, by rw [k.s3]; exact h.l3, by rw [k.s4]; exact h.l4, by rw [k.s5]; exact h.l5,
    by rw [k.s6]; exact h.l6, by rw [k.s3, k.s4]; exact h.x, by rw [k.s5, k.s6]; exact h.y⟩

theorem addXB_ok (V : B.Valid) {op1 : CtR N} {h1 : HoistedPair B} {out : Ct B.C} {M : BMulIn B} (l : List String) (hnd : l.Nodup)
    (hl : ∀ id, id ∈ l ↔ id ∈ M.ids1) (hd : ∀ id ∈ M.ids1, DigB op1 h1 id (M.h1 id)) (ho : OutOK B.top out (M.ids0 ∪ M.ids1))
    {out1 : Ct B.C} {S1 : BScratch B} {R1 : String → QRows B.C} (hS : VecOK M S1) (hU : Ct.Upd B.top out R1 out1) :
    ∃ out2 S2 R2, Go.loop (addXB B.top op1 h1) (out1, S1) l = .ok (out2, S2) ∧ VecOK M S2 ∧ Ct.Upd B.top out R2 out2 ∧
      ∀ id, ∀ i ≤ B.top, R2 id i = if id ∈ M.ids1 then (B.C.RQ i).add (R1 id i) (epB (M.h1 id) M.x i) else R1 id i := by
  obtain ⟨out2, S2, R2, e1, e2, e3, e4⟩ := updLoop (addXB B.top op1 h1) l hnd (VecOK M)
    (fun id i r => (B.C.RQ i).add r (epB (M.h1 id) M.x i)) (out := out) (level := B.top) (by
      intro id hid out' T R hT hU
      have hid : id ∈ M.ids1 := (hl id).mp hid
      obtain ⟨T', t1, t2, t3⟩ := extIntoB_ok V T (hd id hid) hT.l1 hT.l2 hT.l3 hT.l4 hT.x
      obtain ⟨p, w1, w2⟩ := ho.get (id := id) (.inl (mem_union_right _ hid))
      obtain ⟨out3, x1, x2⟩ := hU.upd w1 w2 (fun i old => (B.C.RQ i).add old (T'.q1 i))
      refine ⟨out3, T', _, ?_, hT.keep t2, x2, fun i hi => ?_, fun id' e => Function.update_of_ne e _ _⟩
      · unfold addXB
        dsimp only
        rw [t1, bind_ok, x1, bind_ok]
      · rw [Function.update_self, t3, setQ_le _ _ hi])
    hU hS
  refine ⟨out2, S2, R2, e1, e2, e3, fun id i hi => ?_⟩
  rw [e4 id i hi]
  simp only [hl]

/-! ## the last loop -/

/-- what the last loop needs: `y1`, `y2` in place; `swkPool3` and `swkPool4` may hold anything -/
structure VecY (M : BMulIn B) (S : BScratch B) : Prop where
  l1 : B.bt ≤ S.s1.len
  l2 : B.bt ≤ S.s2.len
  l3 : B.bt ≤ S.s3.len
  l5 : B.bt ≤ S.s5.len
  l6 : B.bt ≤ S.s6.len
  y : ∀ k < 2 * B.bt, (comb B.bt S.s5.val S.s6.val k).Agree B.top (M.y k)

theorem VecOK.toY {M : BMulIn B} {S : BScratch B} (h : VecOK M S) : VecY M S := ⟨h.l1, h.l2, h.l3, h.l5, h.l6, h.y⟩

theorem VecY.keep {M : BMulIn B} {S S' : BScratch B} (h : VecY M S) (k : S.Keep S') : VecY M S' :=
  ⟨by rw [k.l1]; exact h.l1, by rw [k.l2]; exact h.l2, by rw [k.s3]; exact h.l3, by rw [k.s5]; exact h.l5,
    by rw [k.s6]; exact h.l6, by rw [k.s5, k.s6]; exact h.y⟩

/-- the assumptions under which a BFV multiplication runs -/
structure BMulOK (crs : GoMap ℤ (Swk B.C)) (op0 op1 : CtR N) (h0 h1 : HoistedPair B) (rlk : GoMap String (BRlk B.C)) (out : Ct B.C)
    (S : BScratch B) (M : BMulIn B) : Prop where
  hop0 : OpB op0 M.ids0 M.a0
  hop1 : OpB op1 M.ids1 M.a1
  hout : OutOK B.top out (M.ids0 ∪ M.ids1)
  olen : ∃ p, out.lookup "0" = some p ∧ p.len = B.C.nQ
  dig0 : ∀ id ∈ M.ids0, DigB op0 h0 id (M.h0 id)
  dig1 : ∀ id ∈ M.ids1, DigB op1 h1 id (M.h1 id)
  key0 : ∀ id ∈ M.ids0, ∃ r, rlk.lookup id = some r ∧ (B.bt ≤ r.k1.d.len ∧ B.bt ≤ r.k2.d.len ∧
    comb B.bt r.k1.d.val r.k2.d.val = M.d id) ∧ B.bt ≤ r.k1.v.len ∧ r.k1.v.val = M.v id
  key1 : ∀ id ∈ M.ids1, ∃ r, rlk.lookup id = some r ∧ B.bt ≤ r.k1.b.len ∧ B.bt ≤ r.k2.b.len ∧
    comb B.bt r.k1.b.val r.k2.b.val = M.b id
  hcrs : ∃ u, crs.lookup (-1) = some u ∧ B.bt ≤ u.len ∧ u.val = M.u
  alloc : S.Alloc

/-- the result of a multiplication: every component in use holds the specified rows -/
def BMulRes (out : Ct B.C) (M : BMulIn B) (out' : Ct B.C) : Prop :=
  ∃ R, Ct.Upd B.top out R out' ∧ ∀ id, id ∈ M.ids0 ∪ M.ids1 ∨ id = "0" → ∀ i ≤ B.top, R id i = M.out id i

section
variable {crs : GoMap ℤ (Swk B.C)} {op0 op1 : CtR N} {h0 h1 : HoistedPair B} {rlk : GoMap String (BRlk B.C)} {out : Ct B.C}
  {S : BScratch B} {M : BMulIn B}

theorem mulChecksB_ok (V : B.Valid) (hlev : ∃ p, out.lookup "0" = some p ∧ p.len = B.C.nQ) (h : ∃ a, op0.lookup "0" = some a) :
    mulChecksB B op0 out = .ok B.top := by
  obtain ⟨p, h1, h2⟩ := hlev
  obtain ⟨a, h3⟩ := h
  have := V.qp.q1
  unfold mulChecksB Ct.level
  have e : B.top = B.C.nQ - 1 := rfl
  simp only [GoMap.deref_ok h1, GoMap.deref_ok h3, bind_ok, h2, lt_irrefl, if_false, e]
  rw [if_neg (by omega)]

/-- the common part, up to the last loop -/
theorem mulFrontB_ok (V : B.Valid) (o : Sched String) (H : BMulOK crs op0 op1 h0 h1 rlk out S M) :
    ∃ ids0 out2 S2 R, mulFrontB o S op0 op1 h0 h1 rlk out = .ok (B.top, ids0, out2, S2) ∧
      (∀ id, ids0.has id = true ↔ id ∈ M.ids0) ∧ VecOK M S2 ∧ Ct.Upd B.top out R out2 ∧
      ∀ id, id ∈ M.ids0 ∪ M.ids1 ∨ id = "0" → ∀ i ≤ B.top,
        (R id i).Canon ∧ cf (R id i) = cf (quantG (M.tens id) i) + (if id ∈ M.ids1 then cf (epB (M.h1 id) M.x i) else 0) := by
  obtain ⟨ids0, a1, a2⟩ := IDSet.ofCiphertext_spec (o 10) op0
  obtain ⟨ids1, b1, b2⟩ := IDSet.ofCiphertext_spec (o 11) op1
  have hi0 : ∀ id, ids0.has id = true ↔ id ∈ M.ids0 := fun id => by rw [a2, H.hop0.mem]
  have hi1 : ∀ id, ids1.has id = true ↔ id ∈ M.ids1 := fun id => by rw [b2, H.hop1.mem]
  have f0 : (GoMap.range (o 12) ids0.value).toFinset = M.ids0 := by
    ext id; rw [List.mem_toFinset, GoMap.mem_range, IDSet.mem_value_iff, hi0]
  have f1 : (GoMap.range (o 13) ids1.value).toFinset = M.ids1 := by
    ext id; rw [List.mem_toFinset, GoMap.mem_range, IDSet.mem_value_iff, hi1]
  have m0 : ∀ id ∈ GoMap.range (o 12) ids0.value, id ∈ M.ids0 := fun id h => by rw [← f0]; exact List.mem_toFinset.mpr h
  have m1 : ∀ id ∈ GoMap.range (o 13) ids1.value, id ∈ M.ids1 := fun id h => by rw [← f1]; exact List.mem_toFinset.mpr h
  have hb : B.C.beta B.top = B.bt := rfl
  obtain ⟨x, S1, x1, x2, x3, x4, x5⟩ := genVecB_ok V S op0 h0 rlk Rlk.d (GoMap.range (o 12) ids0.value) (GoMap.nodup_range _ _)
    M.d M.h0 ⟨S.s3.len, fun k => if k < B.bt then PolyQP.zero else S.s3.val k⟩
    ⟨S.s4.len, fun k => if k < B.bt then PolyQP.zero else S.s4.val k⟩ (fun id h => H.dig0 id (m0 id h))
    (fun id h => by obtain ⟨r, r1, r2, _⟩ := H.key0 id (m0 id h); exact ⟨r, r1, r2⟩)
    H.alloc.s3 H.alloc.s4 (fun k hk => ⟨if_pos hk, if_pos hk⟩) H.alloc.s1 H.alloc.s2
  obtain ⟨y, S2, y1, y2, y3, y4, y5⟩ := genVecB_ok V S1 op1 h1 rlk Rlk.b (GoMap.range (o 13) ids1.value) (GoMap.nodup_range _ _)
    M.b M.h1 ⟨S.s5.len, fun k => if k < B.bt then PolyQP.zero else S.s5.val k⟩
    ⟨S.s6.len, fun k => if k < B.bt then PolyQP.zero else S.s6.val k⟩ (fun id h => H.dig1 id (m1 id h))
    (fun id h => H.key1 id (m1 id h))
    H.alloc.s5 H.alloc.s6 (fun k hk => ⟨if_pos hk, if_pos hk⟩) (by rw [x2.l1]; exact H.alloc.s1) (by rw [x2.l2]; exact H.alloc.s2)
  rw [f0] at x5
  rw [f1] at y5
  obtain ⟨out1, S3, R1, t1, t2, t3, t4⟩ := tensorB_ok V o { S2 with s3 := x.1, s4 := x.2, s5 := y.1, s6 := y.2 } H.hop0 H.hop1 hi0 hi1
    H.hout
  have hS3 : VecOK M S3 := VecOK.keep ⟨by show _ ≤ S2.s1.len; rw [y2.l1, x2.l1]; exact H.alloc.s1,
    by show _ ≤ S2.s2.len; rw [y2.l2, x2.l2]; exact H.alloc.s2, x3, x4, y3, y4, x5, y5⟩ t2
  obtain ⟨out2, S4, R2, u1, u2, u3, u4⟩ := addXB_ok V (GoMap.range (o 3) ids1.value) (GoMap.nodup_range _ _)
    (fun id => by rw [GoMap.mem_range, IDSet.mem_value_iff, hi1]) H.dig1 H.hout hS3 t3
  refine ⟨ids0, out2, S4, R2, ?_, hi0, u2, u3, fun id hid i hi => ?_⟩
  · unfold mulFrontB
    rw [mulChecksB_ok V H.olen ⟨_, H.hop0.val "0" (.inr rfl)⟩, bind_ok, a1, bind_ok, b1, bind_ok, hb, zeroVec_ok H.alloc.s3, bind_ok,
      zeroVec_ok H.alloc.s4, bind_ok, zeroVec_ok H.alloc.s5, bind_ok, zeroVec_ok H.alloc.s6, bind_ok, x1, bind_ok]
    dsimp only
    rw [y1, bind_ok]
    dsimp only
    rw [t1, bind_ok, u1, bind_ok]
  · have c1 := t4 id hid i hi
    have e0 := V.top_succ
    have hq : (quantG (M.tens id) i).Canon := by
      obtain ⟨r, L, h1, h2, _⟩ := quantize_aux V (M.tens id)
      have : quantG (M.tens id) = setQ B.top r fun _ => Limb.zero := by unfold quantG; rw [h1]
      rw [this, setQ_le _ _ hi]; exact h2 i (by omega)
    rw [u4 id i hi]
    by_cases hI : id ∈ M.ids1
    · simp only [if_pos hI]
      have ep := (epB_spec V (M.h1 id) M.x).1 i hi
      refine ⟨LimbOps.add_canon _ _ _ (.inr ep), ?_⟩
      rw [LimbOps.cf_add, c1]
    · simp only [if_neg hI, add_zero, c1]
      exact ⟨hq, trivial⟩

/-- the last loop, for any body that adds the two external products -/
theorem mulBackB_ok (V : B.Valid) (H : BMulOK crs op0 op1 h0 h1 rlk out S M)
    (f : Ct B.C × BScratch B → String → Go (Ct B.C × BScratch B)) (l : List String) (hnd : l.Nodup) (hl : l.toFinset = M.ids0)
    (hf : ∀ id ∈ M.ids0, ∀ out2 S2, VecY M S2 → ∃ S3, VecY M S3 ∧ ∃ r1 r2 : QRows B.C,
      (∀ i ≤ B.top, r1 i = epG B.top (digs B.top (M.w id)) (M.v id) i) ∧
      (∀ i ≤ B.top, r2 i = epG B.top (digs B.top (M.w id)) M.u i) ∧
      f (out2, S2) id = (do
        let out ← out2.upd B.top "0" fun old i => (B.C.RQ i).add (old i) (r1 i)
        let out ← out.upd B.top id fun old i => (B.C.RQ i).add (old i) (r2 i)
        (.ok (out, S3) : Go (Ct B.C × BScratch B))))
    {out2 : Ct B.C} {S4 : BScratch B} (hs : VecY M S4) {R : String → QRows B.C} (hR : Ct.Upd B.top out R out2)
    (hc : ∀ id, id ∈ M.ids0 ∪ M.ids1 ∨ id = "0" → ∀ i ≤ B.top,
        (R id i).Canon ∧ cf (R id i) = cf (quantG (M.tens id) i) + (if id ∈ M.ids1 then cf (epB (M.h1 id) M.x i) else 0)) :
    ∃ out' S', Go.loop f (out2, S4) l = .ok (out', S') ∧ BMulRes out M out' := by
  have n0 : "0" ∉ M.ids0 := fun h => ((H.hop0.mem _).mp h).2 rfl
  have n1 : "0" ∉ M.ids1 := fun h => ((H.hop1.mem _).mp h).2 rfl
  obtain ⟨⟨out', S'⟩, e1, e2, R', e3, e4, e5, e6⟩ := Go.loop_inv f
    (fun pre st => VecY M st.2 ∧ ∃ R', Ct.Upd B.top out R' st.1 ∧
      (∀ i ≤ B.top, (R' "0" i).Canon ∧ cf (R' "0" i) = cf (R "0" i) +
        (pre.map fun id => cf (epG B.top (digs B.top (M.w id)) (M.v id) i)).sum) ∧
      (∀ id, id ≠ "0" → id ∉ pre → R' id = R id) ∧
      ∀ id ∈ pre, ∀ i ≤ B.top, (R' id i).Canon ∧ cf (R' id i) = cf (R id i) +
        cf (epG B.top (digs B.top (M.w id)) M.u i))
    l (out2, S4) ⟨hs, R, hR, fun i hi => ⟨(hc "0" (.inr rfl) i hi).1, by simp⟩, fun _ _ _ => rfl, by simp⟩ (by
      rintro pre id suf ⟨out3, S3⟩ hl' ⟨i1, R', i2, i3, i4, i5⟩
      have hpre : id ∉ pre := nodup_split hnd hl'
      have hid : id ∈ M.ids0 := by rw [← hl, hl']; simp
      have hne : id ≠ "0" := fun e => n0 (e ▸ hid)
      obtain ⟨S5, s1, r1, r2, s2, s3, s4⟩ := hf id hid out3 S3 i1
      obtain ⟨p0, w1, w2⟩ := H.hout.get (id := "0") (.inr rfl)
      obtain ⟨p, w3, w4⟩ := H.hout.get (id := id) (.inl (mem_union_left _ hid))
      obtain ⟨out5, u1, u2⟩ := i2.upd w1 w2 (fun i old => (B.C.RQ i).add old (r1 i))
      obtain ⟨out6, u3, u4⟩ := u2.upd w3 w4 (fun i old => (B.C.RQ i).add old (r2 i))
      refine ⟨(out6, S5), ?_, s1, _, u4, fun i hi => ?_, fun id' hz hid' => ?_, fun id' hid' i hi => ?_⟩
      · rw [s4, u1, bind_ok, u3, bind_ok]
      · rw [Function.update_of_ne hne.symm, Function.update_self, s2 i hi]
        have ep := (epG_spec V.qp V.top_lt (digs B.top (M.w id)) (M.v id)).1 i hi
        refine ⟨LimbOps.add_canon _ _ _ (.inr ep), ?_⟩
        rw [LimbOps.cf_add, (i3 i hi).2]
        simp [add_assoc]
      · have hh := mt mem_append_singleton'.mpr hid'
        push Not at hh
        rw [Function.update_of_ne hh.1, Function.update_of_ne hz]; exact i4 id' hz hh.2
      · by_cases e : id' = id
        · subst e
          rw [Function.update_self, Function.update_of_ne hne, i4 id' hne hpre, s3 i hi]
          have ep := (epG_spec V.qp V.top_lt (digs B.top (M.w id')) M.u).1 i hi
          exact ⟨LimbOps.add_canon _ _ _ (.inr ep), by rw [LimbOps.cf_add]⟩
        · have hmem := (mem_append_singleton'.mp hid').resolve_left e
          have hz : id' ≠ "0" := by
            intro h0; apply n0; rw [← hl, hl', ← h0]; simp [hmem]
          rw [Function.update_of_ne e, Function.update_of_ne hz]
          exact i5 id' hmem i hi)
  refine ⟨out', S', e1, R', e3, fun id hid i hi => ?_⟩
  unfold BMulIn.out
  rcases eq_or_ne id "0" with h | h
  · subst h
    rw [if_pos rfl]
    apply cf_inj (e4 i hi).1 (LimbOps.ofCf_canon _ _)
    rw [(e4 i hi).2, LimbOps.cf_ofCf, (hc "0" (.inr rfl) i hi).2, ← List.sum_toFinset _ hnd, hl, if_neg n1, add_zero]
  · rw [if_neg h]
    have hid' := hid.resolve_right h
    obtain ⟨c1, c2⟩ := hc id (.inl hid') i hi
    by_cases hI : id ∈ M.ids0
    · obtain ⟨d1, d2⟩ := e6 id (List.mem_toFinset.mp (hl ▸ hI)) i hi
      apply cf_inj d1 (LimbOps.ofCf_canon _ _)
      rw [d2, LimbOps.cf_ofCf, c2]
      simp only [if_pos hI]
    · rw [e5 id h (fun hm => hI (hl ▸ List.mem_toFinset.mpr hm))]
      apply cf_inj c1 (LimbOps.ofCf_canon _ _)
      rw [c2, LimbOps.cf_ofCf]
      simp only [if_neg hI, add_zero]

theorem BScratch.poly1_coeffs (S : BScratch B) : S.poly1.coeffs = S.q1 := by
  unfold BScratch.poly1 Poly.coeffs; simp

/-- **`MulAndRelinBFV`** does not fail, and writes the specified rows, whatever the scratch memory and the map orders -/
theorem mulAndRelinBFV_run (V : B.Valid) (o : Sched String) (H : BMulOK crs op0 op1 none none rlk out S M) :
    ∃ out' S', mulAndRelinBFV crs o S op0 op1 rlk out = .ok (out', S') ∧ BMulRes out M out' := by
  obtain ⟨ids0, out2, S2, R, g1, hi0, g2, g3, g4⟩ := mulFrontB_ok V o H
  obtain ⟨u, k1, k2, k3⟩ := H.hcrs
  have hl := V.top_lt
  have hb : B.C.beta B.top = B.bt := rfl
  unfold mulAndRelinBFV
  rw [g1, bind_ok]
  have f0 : (GoMap.range (o 4) ids0.value).toFinset = M.ids0 := by
    ext id; rw [List.mem_toFinset, GoMap.mem_range, IDSet.mem_value_iff, hi0]
  refine mulBackB_ok V H _ (GoMap.range (o 4) ids0.value) (GoMap.nodup_range _ _) f0 ?_ g2.toY g3 g4
  intro id hid out2 S2 hs
  obtain ⟨r, r1, r2, r4, r5⟩ := H.key0 id hid
  obtain ⟨T1, t1, t2, t3⟩ := extIntoB_ok V S2 (H.dig0 id hid) hs.l1 hs.l2 hs.l5 hs.l6 hs.y
  have hw : ∀ i ≤ B.top, T1.poly1.coeffs i = M.w id i := fun i hi => by
    rw [BScratch.poly1_coeffs, t3, setQ_le _ _ hi]; rfl
  have hdig : ∀ k < B.C.beta B.top, (digs B.top T1.poly1.coeffs k).Agree B.top (digs B.top (M.w id) k) := by
    intro k hk
    unfold digs; rw [digG_congr V.qp hl hk hw]; exact PolyQP.Agree.refl _ _
  obtain ⟨U1, v1, v2⟩ := externalProduct_ok V.qp T1.base hl (a := T1.poly1) (by exact hl) r.k1.v (by rw [hb]; exact r4) T1.q2
  set T2 : BScratch B := { T1 with base := U1, q2 := setQ B.top (epG B.top (digs B.top T1.poly1.coeffs) r.k1.v.val) T1.q2 } with hT2
  have hp : T2.poly1 = T1.poly1 := rfl
  obtain ⟨U2, w1, w2⟩ := externalProduct_ok V.qp T2.base hl (a := T2.poly1) (by exact hl) u (by rw [hb]; exact k2) T2.q2
  set T3 : BScratch B := { T2 with base := U2, q2 := setQ B.top (epG B.top (digs B.top T2.poly1.coeffs) u.val) T2.q2 } with hT3
  refine ⟨T3, hs.keep (t2.trans ⟨rfl, rfl, rfl, rfl, rfl, rfl⟩), T2.q2, T3.q2, fun i hi => ?_, fun i hi => ?_, ?_⟩
  · simp only [hT2, setQ_le _ _ hi]
    rw [epG_congr V.qp hdig (fun k _ => by rw [r5]; exact PolyQP.Agree.refl _ _)]
  · simp only [hT3, hp, setQ_le _ _ hi]
    rw [epG_congr V.qp hdig (fun k _ => by rw [k3]; exact PolyQP.Agree.refl _ _)]
  · unfold lastB
    dsimp only
    rw [GoMap.deref_ok r1, bind_ok, t1, bind_ok, v2, bind_ok]
    dsimp only
    congr 1; funext out3
    rw [GoMap.deref_ok k1, bind_ok, w2, bind_ok]

/-- **`MulAndRelinBFVHoisted`** likewise; line 199 of keyswitch_hoisted.go overwrites the vector `x1`, which is no longer needed -/
theorem mulAndRelinBFVHoisted_run (V : B.Valid) (o : Sched String) (H : BMulOK crs op0 op1 h0 h1 rlk out S M) :
    ∃ out' S', mulAndRelinBFVHoisted crs o S op0 op1 h0 h1 rlk out = .ok (out', S') ∧ BMulRes out M out' := by
  obtain ⟨ids0, out2, S2, R, g1, hi0, g2, g3, g4⟩ := mulFrontB_ok V o H
  obtain ⟨u, k1, k2, k3⟩ := H.hcrs
  have hl := V.top_lt
  have hb : B.C.beta B.top = B.bt := rfl
  unfold mulAndRelinBFVHoisted
  rw [g1, bind_ok]
  have f0 : (GoMap.range (o 4) ids0.value).toFinset = M.ids0 := by
    ext id; rw [List.mem_toFinset, GoMap.mem_range, IDSet.mem_value_iff, hi0]
  refine mulBackB_ok V H _ (GoMap.range (o 4) ids0.value) (GoMap.nodup_range _ _) f0 ?_ g2.toY g3 g4
  intro id hid out2 S2 hs
  obtain ⟨r, r1, r2, r4, r5⟩ := H.key0 id hid
  obtain ⟨T1, t1, t2, t3⟩ := extIntoB_ok V S2 (H.dig0 id hid) hs.l1 hs.l2 hs.l5 hs.l6 hs.y
  have hw : ∀ i ≤ B.top, T1.poly1.coeffs i = M.w id i := fun i hi => by
    rw [BScratch.poly1_coeffs, t3, setQ_le _ _ hi]; rfl
  have hT1 : VecY M T1 := hs.keep t2
  obtain ⟨U0, d1, d2⟩ := decompose_ok V.qp T1.base hl (a := T1.poly1) (by exact hl) T1.s3 (by rw [hb]; exact hT1.l3)
  set s3 : Swk B.C := ⟨T1.s3.len, fun k => if k < B.C.beta B.top then setQP B.top (digG B.top k T1.poly1.coeffs) (T1.s3.val k)
    else T1.s3.val k⟩ with hs3
  have hdig : ∀ k < B.C.beta B.top, (s3.val k).Agree B.top (digs B.top (M.w id) k) := by
    intro k hk
    rw [hs3]; simp only [if_pos hk]
    unfold digs; rw [digG_congr V.qp hl hk hw]; exact setQP_agree _ _ _
  set T2 : BScratch B := { T1 with base := U0, s3 := s3 } with hT2
  obtain ⟨U1, v1, v2⟩ := externalProductHoisted_ok V.qp T2.base hl s3 r.k1.v (by rw [hb]; exact hT1.l3) (by rw [hb]; exact r4) T2.q2
  set T3 : BScratch B := { T2 with base := U1, q2 := setQ B.top (epG B.top s3.val r.k1.v.val) T2.q2 } with hT3
  obtain ⟨U2, w1, w2⟩ := externalProductHoisted_ok V.qp T3.base hl s3 u (by rw [hb]; exact hT1.l3) (by rw [hb]; exact k2) T3.q2
  set T4 : BScratch B := { T3 with base := U2, q2 := setQ B.top (epG B.top s3.val u.val) T3.q2 } with hT4
  refine ⟨T4, ⟨hT1.l1, hT1.l2, hT1.l3, hT1.l5, hT1.l6, hT1.y⟩, T3.q2, T4.q2, fun i hi => ?_, fun i hi => ?_, ?_⟩
  · simp only [hT3, setQ_le _ _ hi]
    rw [epG_congr V.qp hdig (fun k _ => by rw [r5]; exact PolyQP.Agree.refl _ _)]
  · simp only [hT4, setQ_le _ _ hi]
    rw [epG_congr V.qp hdig (fun k _ => by rw [k3]; exact PolyQP.Agree.refl _ _)]
  · unfold lastBHoisted
    dsimp only
    rw [GoMap.deref_ok r1, bind_ok, t1, bind_ok, d2, bind_ok]
    dsimp only
    rw [v2, bind_ok]
    dsimp only
    congr 1; funext out3
    rw [GoMap.deref_ok k1, bind_ok, w2, bind_ok]

end

end MKHE
