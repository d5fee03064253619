import Verif.Props.HeapSum

set_option autoImplicit false
set_option linter.unusedSectionVars false

/-!
# C23, C52 on the heap: CKKS additions and subtractions
-/

namespace MKHE
open Finset Heap
variable {N : ℕ} [NeZero N] {C : Ctx N}

namespace Heap

/-- a polynomial that the receiver and the operand have in common is the same component of both; so when they are apart, and when they are one object -/
def Matched (h : Heap N) (out c : ℕ) : Prop := ∀ id id' p, (h.ct out).lookup id = some p → (h.ct c).lookup id' = some p → id = id'

theorem multByConst_matched (h16 : N % 16 = 0) (mredPsi : ℕ → ℕ → ℕ) (o : Order String) {h : Heap N} (W : WF h) {c : HCt} {out : ℕ} (k : Const)
    {l0 lo : ℕ} (hc : c.ct < h.nct) (ho : out < h.nct) (h0 : (value C h c.ct).AtLevel l0) (hout : (value C h out).AtLevel lo)
    (hsub : ∀ id ∈ h.ct c.ct, id ∈ h.ct out) (hd : Distinct h out) (ha : Matched h out c.ct) :
    ∃ h', multByConst C mredPsi o h c k out = .ok (C.fm.mul c.scale (getConstAndScale C.fm (C.q (min l0 lo)) k).2.2, h') ∧
      Ran C h out (fun id P => if id ∈ h.ct c.ct then P.set (min l0 lo)
        (constOut mredPsi (getConstAndScale C.fm (C.q (min l0 lo)) k) (value C h c.ct).comp id) else P) h' := by
  set level := min l0 lo with hl
  set kk := getConstAndScale C.fm (C.q level) k with hkk
  obtain ⟨h', e1, R⟩ := loop_run (C := C) W ho hd (f := constStep (C := C) mredPsi level kk c.ct out)
    (fun id P => P.set level (constOut mredPsi kk (value C h c.ct).comp id)) (GoMap.nodup_range o (h.ct c.ct))
    (fun id hid => hsub id (GoMap.mem_range.mp hid)) (by
      intro s V' R id hid q hq hv
      obtain ⟨a, a1, a2, a3, a4, a5⟩ := Coeff_entry W hc (h0.toCoeff.mono (show level ≤ l0 by omega)) (GoMap.mem_range.mp hid)
      have va : s.view C a = h.view C a := by
        by_cases hm : a ∈ polysOf h out
        · obtain ⟨x, hx⟩ := hm
          have := ha x id a hx a1
          subst this
          rw [hx] at hq
          injection hq with hq
          rw [hq]; exact hv
        · exact R.other a2 hm
      have la : s.len a = h.len a := congrArg Poly.len va
      have lq : q < s.npoly := by rw [R.npoly]; exact W.ctB out ho id q hq
      have hvo : (value C h out).lookup id = some (h.view C q) := by rw [value_lookup, hq]; rfl
      have slen : s.len q = lo + 1 := by
        have : (s.view C q).len = lo + 1 := by rw [hv]; exact hout.len id _ hvo
        exact this
      obtain ⟨s', f1, f2⟩ := lift1_run (C := C) R.wf (fun i x => constRow (C.RQ i) (constWords C.fm (mredPsi i) (C.q i) kk) x)
        (by rw [R.npoly]; exact a2) lq (level := level) (by omega) (by omega)
      rw [hv, va] at f2
      refine ⟨s', ?_, ?_⟩
      · unfold constStep
        rw [get_of (by rw [R.ct]; exact a1), bind_ok, get_of (by rw [R.ct]; exact hq), bind_ok]
        exact f1
      · unfold constOut
        rw [a5]
        exact f2)
  refine ⟨h', ?_, R.congr fun id p hp => by simp only [GoMap.mem_range]⟩
  unfold multByConst
  rw [if_neg (by omega), level_value (C := C), h0.level, bind_ok, level_value (C := C), hout.level, bind_ok]
  dsimp only
  rw [← hl, ← hkk, e1, bind_ok]

theorem multByConst_run (h16 : N % 16 = 0) (mredPsi : ℕ → ℕ → ℕ) (o : Order String) {h : Heap N} (W : WF h) {c : HCt} {out : ℕ} (k : Const) {l0 lo : ℕ}
    (hc : c.ct < h.nct) (ho : out < h.nct) (h0 : (value C h c.ct).AtLevel l0) (hout : (value C h out).AtLevel lo)
    (hsub : ∀ id ∈ h.ct c.ct, id ∈ h.ct out) (hd : Distinct h out) (ha : Apart h out c.ct) :
    ∃ h', multByConst C mredPsi o h c k out = .ok (C.fm.mul c.scale (getConstAndScale C.fm (C.q (min l0 lo)) k).2.2, h') ∧
      Ran C h out (fun id P => if id ∈ h.ct c.ct then P.set (min l0 lo)
        (constOut mredPsi (getConstAndScale C.fm (C.q (min l0 lo)) k) (value C h c.ct).comp id) else P) h' :=
  multByConst_matched h16 mredPsi o W k hc ho h0 hout hsub hd fun id id' p g1 g2 => absurd g2 (ha id id' p g1)

end Heap

namespace C23

/-- a heap ciphertext with its scale, as a value -/
def hval (C : Ctx N) (h : Heap N) (c : HCt) : CCt C := ⟨value C h c.ct, c.scale⟩

/-- multiplication of an operand into the pool -/
theorem heap_scaled (h16 : N % 16 = 0) (mredPsi : ℕ → ℕ → ℕ) (o : Order String) {h : Heap N} (W : WF h) {c : HCt} {pool l : ℕ} (hl : l < C.nQ)
    (hc : c.ct < h.nct) (hp : pool < h.nct) (h0 : (value C h c.ct).AtLevel l) (hpool : (value C h pool).AtLevel (C.nQ - 1))
    (hids : ∀ id ∈ (value C h c.ct).ids, id ∈ h.ct pool) (hd : Distinct h pool) (ha : Apart h pool c.ct) (k : ℤ) (hk0 : 1 < k) (hk : k < 2 ^ 52) :
    ∃ w, Heap.multByConst C mredPsi o h c (.flt k) pool = .ok w ∧ (∃ V, Ran C h pool V w.2) ∧ (value C w.2 pool).AtLevel (C.nQ - 1) ∧
      ∀ id ∈ h.ct c.ct, id ∈ h.ct pool ∧ ∀ i ≤ l, (value C w.2 pool).comp id i = constOut mredPsi ((k : ℚ), 0, 1) (value C h c.ct).comp id i := by
  have hsub : ∀ id ∈ h.ct c.ct, id ∈ h.ct pool := fun id hid => by
    by_cases e : id = "0"
    · subst e; exact value_mem.mp hpool.has0
    · exact hids id (value_ids.mpr ⟨hid, e⟩)
  obtain ⟨h', e1, R⟩ := Heap.multByConst_run h16 mredPsi o W (.flt k) hc hp h0 hpool hsub hd ha
  have hmin : min l (C.nQ - 1) = l := by omega
  have habs : |k| < 2 ^ 52 := by rw [abs_of_pos (by omega)]; exact hk
  rw [hmin, getConst_int _ _ _ habs] at e1 R
  have hlk : ∀ id Q, (value C h' pool).lookup id = some Q → ∃ P, (value C h pool).lookup id = some P ∧
      Q = if id ∈ h.ct c.ct then P.set l (constOut mredPsi ((k : ℚ), 0, 1) (value C h c.ct).comp id) else P := by
    intro id Q hQ
    rw [value_lookup, R.ct] at hQ
    obtain ⟨p, hp, rfl⟩ := Option.map_eq_some_iff.mp hQ
    exact ⟨h.view C p, by rw [value_lookup, hp]; rfl, R.view id p hp⟩
  refine ⟨_, e1, ⟨_, R⟩, ⟨?_, fun id Q hQ => ?_, fun id Q hQ => ?_⟩, fun id hid => ⟨hsub id hid, fun i hi => ?_⟩⟩
  · rw [value_mem, R.ct]; exact value_mem.mp hpool.has0
  · obtain ⟨P, p1, rfl⟩ := hlk id Q hQ
    have := hpool.len id P p1
    split_ifs
    · exact this
    · exact this
  · obtain ⟨P, p1, rfl⟩ := hlk id Q hQ
    have := hpool.coeff id P p1
    split_ifs
    · exact this
    · exact this
  · obtain ⟨Q, hQ⟩ := Ct.get (value_mem (C := C) (h := h') (c := pool) (id := id) |>.mpr (by rw [R.ct]; exact hsub id hid))
    obtain ⟨P, p1, e⟩ := hlk id Q hQ
    rw [if_pos hid] at e
    show (value C h' pool).comp id i = _
    rw [Ct.comp_eq hQ, Poly.coeffs_eq (by rw [e]; exact hpool.coeff id P p1), e]
    exact setQ_le _ _ hi

/-- the evaluation into a new ciphertext: the operands, which may share polynomials, are apart from the evaluator's pool ciphertext, whose components
are distinct -/
structure HShape (C : Ctx N) (h : Heap N) (pool : ℕ) (c0 c1 : HCt) (l0 l1 : ℕ) : Prop where
  wf : WF h
  lt0 : l0 < C.nQ
  lt1 : l1 < C.nQ
  in0 : c0.ct < h.nct
  in1 : c1.ct < h.nct
  inp : pool < h.nct
  h0 : (value C h c0.ct).AtLevel l0
  h1 : (value C h c1.ct).AtLevel l1
  hpool : (value C h pool).AtLevel (C.nQ - 1)
  dist : Distinct h pool
  ap0 : Apart h pool c0.ct
  ap1 : Apart h pool c1.ct
  r0 : ⌊C.fm.div c1.scale c0.scale⌋ < 2 ^ 52
  r1 : ⌊C.fm.div c0.scale c1.scale⌋ < 2 ^ 52

theorem heap_align (h16 : N % 16 = 0) (mredPsi : ℕ → ℕ → ℕ) (o : Order String) {h : Heap N} {pool : ℕ} {c0 c1 : HCt} {l0 l1 : ℕ}
    (H : HShape C h pool c0 c1 l0 l1) (hids : ∀ id ∈ (value C h c0.ct).ids ∪ (value C h c1.ct).ids, id ∈ h.ct pool) :
    ∃ w, Heap.alignScales C mredPsi o h c0 c1 pool = .ok w ∧ (∃ V, Ran C h pool V w.2) ∧ (value C w.2 pool).AtLevel (C.nQ - 1) ∧
      ((w.1.1 = c0.ct ∨ w.1.1 = pool) ∧ (w.1.2 = c1.ct ∨ w.1.2 = pool)) ∧
      (value C w.2 w.1.1).Coeff (min l0 l1) ∧ (value C w.2 w.1.2).Coeff (min l0 l1) ∧
      (∀ id ∈ (value C h c0.ct).ids, id ∈ h.ct w.1.1) ∧ (∀ id ∈ (value C h c1.ct).ids, id ∈ h.ct w.1.2) ∧
      (∀ id ∈ h.ct c0.ct, ∀ i ≤ min l0 l1, (value C w.2 w.1.1).comp id i = aligned mredPsi (hval C h c0) c1.scale id i) ∧
      ∀ id ∈ h.ct c1.ct, ∀ i ≤ min l0 l1, (value C w.2 w.1.2).comp id i = aligned mredPsi (hval C h c1) c0.scale id i := by
  unfold Heap.alignScales
  by_cases g0 : c0.scale < c1.scale ∧ 1 < ⌊C.fm.div c1.scale c0.scale⌋
  · rw [if_pos g0]
    have g1 : ¬ (c1.scale < c0.scale ∧ 1 < ⌊C.fm.div c0.scale c1.scale⌋) := fun h => absurd h.1 (by linarith [g0.1])
    obtain ⟨w, t1, ⟨V, R⟩, t3, t4⟩ := heap_scaled h16 mredPsi o H.wf H.lt0 H.in0 H.inp H.h0 H.hpool (fun id h => hids id (mem_union_left _ h)) H.dist H.ap0 _
      g0.2 H.r0
    rw [t1, bind_ok]
    have v1 : value C w.2 c1.ct = value C h c1.ct := R.value_other H.wf H.in1 H.ap1
    refine ⟨_, rfl, ⟨V, R⟩, t3, ⟨Or.inr rfl, Or.inl rfl⟩, t3.toCoeff.mono (by have := H.lt0; omega), ?_, fun id h => (t4 id (value_ids.mp h).1).1,
      fun id h => (value_ids.mp h).1, fun id hid i hi => ?_, fun id hid i hi => ?_⟩
    · show (value C w.2 c1.ct).Coeff _
      rw [v1]; exact H.h1.toCoeff.mono (by omega)
    · unfold aligned hval
      rw [if_pos g0]; exact (t4 id hid).2 i (by omega)
    · unfold aligned hval
      rw [if_neg g1]
      show (value C w.2 c1.ct).comp id i = _
      rw [v1]
  · rw [if_neg g0]
    by_cases g1 : c1.scale < c0.scale ∧ 1 < ⌊C.fm.div c0.scale c1.scale⌋
    · rw [if_pos g1]
      obtain ⟨w, t1, ⟨V, R⟩, t3, t4⟩ := heap_scaled h16 mredPsi o H.wf H.lt1 H.in1 H.inp H.h1 H.hpool (fun id h => hids id (mem_union_right _ h)) H.dist H.ap1 _
        g1.2 H.r1
      rw [t1, bind_ok]
      have v0 : value C w.2 c0.ct = value C h c0.ct := R.value_other H.wf H.in0 H.ap0
      refine ⟨_, rfl, ⟨V, R⟩, t3, ⟨Or.inl rfl, Or.inr rfl⟩, ?_, t3.toCoeff.mono (by have := H.lt1; omega), fun id h => (value_ids.mp h).1,
        fun id h => (t4 id (value_ids.mp h).1).1, fun id hid i hi => ?_, fun id hid i hi => ?_⟩
      · show (value C w.2 c0.ct).Coeff _
        rw [v0]; exact H.h0.toCoeff.mono (by omega)
      · unfold aligned hval
        rw [if_neg g0]
        show (value C w.2 c0.ct).comp id i = _
        rw [v0]
      · unfold aligned hval
        rw [if_pos g1]; exact (t4 id hid).2 i (by omega)
    · rw [if_neg g1]
      refine ⟨_, rfl, ⟨_, Ran.start H.wf pool⟩, H.hpool, ⟨Or.inl rfl, Or.inl rfl⟩, H.h0.toCoeff.mono (by omega), H.h1.toCoeff.mono (by omega),
        fun id h => (value_ids.mp h).1, fun id h => (value_ids.mp h).1, fun id hid i hi => ?_, fun id hid i hi => ?_⟩
      · unfold aligned hval; rw [if_neg g0]
      · unfold aligned hval; rw [if_neg g1]

theorem Apart.symm {h : Heap N} {c d : ℕ} (H : Apart h c d) : Apart h d c := fun id id' p a b => H id' id p b a

theorem heap_evaluate_made (h16 : N % 16 = 0) (f : (i : ℕ) → Limb N (C.q i) → Limb N (C.q i) → Limb N (C.q i)) (mredPsi : ℕ → ℕ → ℕ)
    (o : Sched String) {h : Heap N} {pool : ℕ} {c0 c1 : HCt} {l0 l1 : ℕ} (H : HShape C h pool c0 c1 l0 l1) :
    ∃ w h', Heap.newCiphertextBinary o h c0 c1 = .ok w ∧ Heap.ckksEvaluateInPlace C (lift2 f) mredPsi o w.2 pool c0 c1 w.1.ct = .ok h' ∧
      WF h' ∧ w.1.ct < h'.nct ∧ Distinct h' w.1.ct ∧ w.1.scale = max c0.scale c1.scale ∧
      (value C h' c0.ct = value C h c0.ct ∧ value C h' c1.ct = value C h c1.ct) ∧
      ((value C h' pool).AtLevel (C.nQ - 1) ∧ Distinct h' pool ∧ (∀ c < h.nct, Apart h pool c → Apart h' pool c) ∧ Apart h' pool w.1.ct) ∧
      (value C h' w.1.ct).Made (min l0 l1) ((value C h c0.ct).ids ∪ (value C h c1.ct).ids)
        (evalOut f (value C h c0.ct).ids (value C h c1.ct).ids (aligned mredPsi (hval C h c0) c1.scale) (aligned mredPsi (hval C h c1) c0.scale)) := by
  have W := H.wf
  obtain ⟨i0, i1, u, a1, a2, a3, a4, a5, a6⟩ := idset_union (o 80) (o 81) (o 82) (o 83) (value C h c0.ct) (value C h c1.ct)
  obtain ⟨j0, j1, v, b1, b2, b3, b4, b5, b6⟩ := idset_union (o 120) (o 121) (o 122) (o 123) (value C h c0.ct) (value C h c1.ct)
  have hz : "0" ∉ (value C h c0.ct).ids ∪ (value C h c1.ct).ids := by
    rw [mem_union]; exact fun h => h.elim (Ct.zero_notMem_ids _) (Ct.zero_notMem_ids _)
  obtain ⟨M, -, -⟩ := newCt_spec (C := C) (o 84) u (min l0 l1) W
  have hnew := newCt_is (C := C) (o 84) a6 (min l0 l1) W
  set g := newCt (o 84) u (min l0 l1) h with hg
  have ln := M.nct
  have lg : g.1 < g.2.nct := (M.into ∅).1
  have in0 : c0.ct < g.2.nct := by have := H.in0; omega
  have in1 : c1.ct < g.2.nct := by have := H.in1; omega
  have inp : pool < g.2.nct := by have := H.inp; omega
  have v0 : value C g.2 c0.ct = value C h c0.ct := M.value_old W H.in0
  have v1 : value C g.2 c1.ct = value C h c1.ct := M.value_old W H.in1
  have vp : value C g.2 pool = value C h pool := M.value_old W H.inp
  -- padding the pool
  obtain ⟨P0, hP0⟩ := Ct.get (show "0" ∈ value C g.2 pool by rw [vp]; exact H.hpool.has0)
  have hP0' : (value C h pool).lookup "0" = some P0 := by rw [← vp]; exact hP0
  obtain ⟨k, k1, k2, k3, k4, k5, k6, k7, -⟩ := C09.pad_value (o 124) (o 125) (ids := v) M.wf inp hP0 (H.hpool.len _ _ hP0')
    (by rw [← Bool.not_eq_true, b6]; exact hz)
  have npool : ∀ c, c < h.nct → c ≠ pool → k.ct c = h.ct c := fun c hc hne => by
    rw [k3.ct c (by omega) hne, M.only.ct c hc (by simp)]
  have gne : g.1 ≠ pool := by have := H.inp; rw [M.addr]; omega
  have kg : k.ct g.1 = g.2.ct g.1 := k3.ct g.1 lg gne
  have knct : g.2.nct ≤ k.nct := k3.nct
  have hpc : ∀ c, Apart h pool c → c ≠ pool := by
    rintro c ha e
    obtain ⟨p, hp⟩ := Option.isSome_iff_exists.mp (GoMap.mem_iff_lookup.mp (value_mem.mp H.hpool.has0))
    exact ha "0" "0" p hp (by rw [e]; exact hp)
  have hpc0 : c0.ct ≠ pool := hpc _ H.ap0
  have hpc1 : c1.ct ≠ pool := hpc _ H.ap1
  have w0 : value C k c0.ct = value C h c0.ct := by rw [k3.value M.wf in0 hpc0 (by simp), v0]
  have w1 : value C k c1.ct = value C h c1.ct := by rw [k3.value M.wf in1 hpc1 (by simp), v1]
  have wg : value C k g.1 = value C g.2 g.1 := k3.value M.wf lg gne (by simp)
  -- components of the padded pool: old ones as in `h`, or new
  have pcase : ∀ id p, (k.ct pool).lookup id = some p → (h.ct pool).lookup id = some p ∨
      (g.2.npoly ≤ p ∧ ∀ id', (k.ct pool).lookup id' = some p → id' = id) := by
    intro id p hp
    by_cases hm : id ∈ g.2.ct pool
    · obtain ⟨q, hq⟩ := Option.isSome_iff_exists.mp (GoMap.mem_iff_lookup.mp hm)
      have := (k5 id q hq).1
      rw [this] at hp
      cases hp
      left
      rw [← M.only.ct pool H.inp (by simp)]; exact hq
    · exact Or.inr (k7 id p hm hp)
  have kdist : Distinct k pool := by
    intro id id' p hp hp'
    rcases pcase id p hp with a | a
    · rcases pcase id' p hp' with b | b
      · exact H.dist id id' p a b
      · exact b.2 id hp
    · exact (a.2 id' hp').symm
  have hgp := M.only.npoly
  have kap : ∀ c, c < h.nct → c ≠ pool → Apart h pool c → Apart k pool c := by
    intro c hc hne ha id id' p hp hq
    rw [npool c hc hne] at hq
    rcases pcase id p hp with a | a
    · exact ha id id' p a hq
    · have := W.ctB c hc id' p hq
      omega
  have kapg : Apart k pool g.1 := by
    intro id id' p hp hq
    rw [kg] at hq
    have := M.new id' p hq
    rcases pcase id p hp with a | a
    · have := W.ctB pool H.inp id p a
      omega
    · omega
  have kat : (value C k pool).AtLevel (C.nQ - 1) := by
    refine ⟨value_mem.mpr ((k4 "0").mpr (Or.inl (value_mem.mp (by rw [vp]; exact H.hpool.has0)))), fun id P hP => ?_, fun id P hP => ?_⟩
    · by_cases hm : id ∈ g.2.ct pool
      · obtain ⟨q, hq⟩ := Option.isSome_iff_exists.mp (GoMap.mem_iff_lookup.mp hm)
        obtain ⟨x1, x2⟩ := k5 id q hq
        rw [value_lookup, x1] at hP
        cases hP
        rw [x2]
        exact H.hpool.len id _ (by rw [← vp, value_lookup, hq]; rfl)
      · exact (k6 id P hm hP).1
    · by_cases hm : id ∈ g.2.ct pool
      · obtain ⟨q, hq⟩ := Option.isSome_iff_exists.mp (GoMap.mem_iff_lookup.mp hm)
        obtain ⟨x1, x2⟩ := k5 id q hq
        rw [value_lookup, x1] at hP
        cases hP
        rw [x2]
        exact H.hpool.coeff id _ (by rw [← vp, value_lookup, hq]; rfl)
      · rw [(k6 id P hm hP).2.1]; exact H.hpool.coeff _ _ hP0'
  have HK : HShape C k pool c0 c1 l0 l1 :=
    ⟨k2, H.lt0, H.lt1, by omega, by omega, by omega, by rw [w0]; exact H.h0, by rw [w1]; exact H.h1, kat, kdist, kap _ H.in0 hpc0 H.ap0, kap _ H.in1 hpc1 H.ap1,
      H.r0, H.r1⟩
  obtain ⟨w, t1, ⟨V, R⟩, t2, ⟨e0, e1⟩, t3, t4, t5, t6, t7, t8⟩ := heap_align h16 mredPsi (o 127) HK (fun id hid => by
    rw [w0, w1] at hid
    exact (k4 id).mpr (Or.inr ((b6 id).mpr hid)))
  have in0' : c0.ct < w.2.nct := by rw [R.nct]; exact HK.in0
  have in1' : c1.ct < w.2.nct := by rw [R.nct]; exact HK.in1
  have inp' : pool < w.2.nct := by rw [R.nct]; exact HK.inp
  have lgw : g.1 < w.2.nct := by rw [R.nct]; omega
  have x0 : value C w.2 c0.ct = value C h c0.ct := by rw [R.value_other k2 HK.in0 HK.ap0, w0]
  have x1 : value C w.2 c1.ct = value C h c1.ct := by rw [R.value_other k2 HK.in1 HK.ap1, w1]
  have xg : value C w.2 g.1 = value C g.2 g.1 := by rw [R.value_other k2 (by omega) kapg, wg]
  have hnew' : ∀ id, (value C w.2 g.1).lookup id = if id = "0" ∨ id ∈ (value C h c0.ct).ids ∪ (value C h c1.ct).ids then
      some (Poly.new (min l0 l1)) else none := fun id => by rw [xg]; exact hnew id
  obtain ⟨at1, at2⟩ := new_ids_at hz hnew'
  have apg : ∀ c, c < h.nct → c ≠ pool → Apart w.2 g.1 c := by
    intro c hc hne id id' p hp hq
    rw [R.ct] at hp hq
    rw [kg] at hp
    rw [npool c hc hne] at hq
    have := M.new id p hp
    have := W.ctB c hc id' p hq
    omega
  have apgp : Apart w.2 g.1 pool := by unfold Apart; rw [R.ct]; exact Apart.symm kapg
  have ap' : ∀ c, (c = c0.ct ∨ c = pool) ∨ (c = c1.ct ∨ c = pool) → Apart w.2 g.1 c ∧ c < w.2.nct := by
    rintro c ((rfl | rfl) | (rfl | rfl))
    · exact ⟨apg _ H.in0 hpc0, in0'⟩
    · exact ⟨apgp, inp'⟩
    · exact ⟨apg _ H.in1 hpc1, in1'⟩
    · exact ⟨apgp, inp'⟩
  have hd' : Distinct w.2 g.1 := by unfold Distinct; rw [R.ct, kg]; exact M.inj
  obtain ⟨h', f1, R'⟩ := Heap.evalCore_run f (level := min l0 l1) (cp := fun h dst src => h.copyLvl (min l0 l1) dst src)
    (fun s dst src ws ld ls hlen _ hlen' _ => copyLvl_run (C := C) ws ls ld hlen' (by omega))
    (o 128) (o 129) R.wf (t0 := w.1.1) (t1 := w.1.2) (out := g.1) (ap' _ (Or.inl e0)).2 (ap' _ (Or.inr e1)).2 lgw b4 b5 t3 t4
    (fun id hid => by rw [R.ct]; exact t5 id (by rw [w0]; exact hid)) (fun id hid => by rw [R.ct]; exact t6 id (by rw [w1]; exact hid))
    at1 at2 hd' (ap' _ (Or.inl e0)).1 (ap' _ (Or.inr e1)).1
  have hlg : g.2.level g.1 = .ok (min l0 l1) := by
    rw [level_value (C := C)]
    exact (new_ids_at hz hnew).1.level
  have hlk : k.level g.1 = .ok (min l0 l1) := by
    rw [level_value (C := C), wg, ← level_value]; exact hlg
  have ctw : h'.ct = k.ct := R'.ct.trans R.ct
  have vpool : value C h' pool = value C w.2 pool := R'.value_other R.wf inp' apgp
  refine ⟨(⟨g.1, max c0.scale c1.scale⟩, g.2), h', ?_, ?_, R'.wf, by rw [R'.nct]; exact lgw, by unfold Distinct; rw [R'.ct]; exact hd', rfl, ⟨?_, ?_⟩,
    ⟨by rw [vpool]; exact t2, by unfold Distinct; rw [ctw]; exact kdist, fun c hc ha => by unfold Apart; rw [ctw]; exact kap c hc (hpc c ha) ha,
      by unfold Apart; rw [ctw]; exact kapg⟩,
    Ct.Made.of_upd hnew' (R'.upd.congr fun id hid i hi => ?_)⟩
  · unfold Heap.newCiphertextBinary
    rw [level_value (C := C), H.h0.level, bind_ok, level_value (C := C), H.h1.level, bind_ok, idSet_value (C := C), a1, bind_ok, idSet_value (C := C), a2, bind_ok,
      a3, bind_ok]
  · unfold Heap.ckksEvaluateInPlace
    dsimp only
    rw [idSet_value (C := C), v0, b1, bind_ok, idSet_value (C := C), v1, b2, bind_ok, b3, bind_ok, k1, bind_ok, level_value (C := C), w0, H.h0.level, bind_ok,
      level_value (C := C), w1, H.h1.level, bind_ok, hlk, bind_ok]
    unfold Heap.dropTo
    rw [if_neg (by omega), bind_ok, t1, bind_ok, Nat.min_self]
    exact f1
  · rw [R'.value_other R.wf in0' (apg _ H.in0 hpc0), x0]
  · rw [R'.value_other R.wf in1' (apg _ H.in1 hpc1), x1]
  · have hv0 : hval C k c0 = hval C h c0 := by unfold hval; rw [w0]
    have hv1 : hval C k c1 = hval C h c1 := by unfold hval; rw [w1]
    rw [hv0] at t7
    rw [hv1] at t8
    have z0 := value_mem.mp HK.h0.has0
    have z1 := value_mem.mp HK.h1.has0
    have m0 : ∀ id, id = "0" ∨ id ∈ (value C h c0.ct).ids → (value C w.2 w.1.1).comp id i = aligned mredPsi (hval C h c0) c1.scale id i := fun id h =>
      t7 id (h.elim (fun e => e ▸ z0) fun h => (value_ids.mp (by rw [w0]; exact h)).1) i hi
    have m1 : ∀ id, id = "0" ∨ id ∈ (value C h c1.ct).ids → (value C w.2 w.1.2).comp id i = aligned mredPsi (hval C h c1) c0.scale id i := fun id h =>
      t8 id (h.elim (fun e => e ▸ z1) fun h => (value_ids.mp (by rw [w1]; exact h)).1) i hi
    have hin : id = "0" ∨ id ∈ (value C h c0.ct).ids ∪ (value C h c1.ct).ids := by
      by_cases e : id = "0"
      · exact .inl e
      · right; rw [← at2]; exact Ct.mem_ids.mpr ⟨hid, e⟩
    unfold evalOut
    by_cases e : id = "0"
    · rw [if_pos e, if_pos e, m0 id (.inl e), m1 id (.inl e)]
    · rw [if_neg e, if_neg e]
      by_cases g0 : id ∈ (value C h c0.ct).ids
      · rw [if_neg (not_not.mpr g0), if_neg (not_not.mpr g0)]
        by_cases g1 : id ∈ (value C h c1.ct).ids
        · rw [if_neg (not_not.mpr g1), if_neg (not_not.mpr g1), m0 id (.inr g0), m1 id (.inr g1)]
        · rw [if_pos g1, if_pos g1, m0 id (.inr g0)]
      · rw [if_pos g0, if_pos g0]
        exact m1 id (.inr ((mem_union.mp (hin.resolve_left e)).resolve_left g0))

/-- **C23 with sharing, AddNew**: in every well-formed heap, for operands that may be the same ciphertext or share polynomials, apart from the
evaluator's pool: the call returns; the phase of the result is `k0 phase0 + k1 phase1` of the operands' phases before the call; afterwards the pool is
again of the shape required, so that the statement applies to every later call. -/
theorem heap_addNew_phase (h16 : N % 16 = 0) (mredPsi : ℕ → ℕ → ℕ) (o : Sched String) {h : Heap N} {pool : ℕ} {c0 c1 : HCt} {l0 l1 : ℕ}
    (H : HShape C h pool c0 c1 l0 l1) :
    ∃ r h', Heap.ckksAddNew C mredPsi o h pool c0 c1 = .ok (r, h') ∧ HShape C h' pool c0 c1 l0 l1 ∧ Apart h' pool r.ct ∧
      (∀ c < h.nct, Apart h pool c → Apart h' pool c) ∧
      (value C h' r.ct).AtLevel (min l0 l1) ∧ r.scale = max c0.scale c1.scale ∧ (value C h' r.ct).ids = (value C h c0.ct).ids ∪ (value C h c1.ct).ids ∧
      ∀ (s : String → Nega N ℤ) (i : ℕ), i ≤ min l0 l1 →
        (value C h' r.ct).phase s i = (factor C.fm c0.scale c1.scale : Nega N (ZMod (C.q i))) * (value C h c0.ct).phase s i +
          (factor C.fm c1.scale c0.scale : Nega N (ZMod (C.q i))) * (value C h c1.ct).phase s i := by
  obtain ⟨w, h', e1, e2, W', lt, hd, hs, ⟨v0, v1⟩, ⟨p1, p2, p3, p5⟩, e3⟩ := heap_evaluate_made h16 (fun i => (C.RQ i).add) mredPsi o H
  have hz : "0" ∉ (value C h c0.ct).ids ∪ (value C h c1.ct).ids := by
    rw [mem_union]; exact fun h => h.elim (Ct.zero_notMem_ids _) (Ct.zero_notMem_ids _)
  have hrun : Heap.ckksAddNew C mredPsi o h pool c0 c1 = .ok (w.1, h') := by
    unfold Heap.ckksAddNew
    rw [e1, bind_ok]
    show (Heap.ckksEvaluateInPlace C _ mredPsi o w.2 pool c0 c1 w.1.ct >>= _) = _
    rw [e2, bind_ok]
  have hn : h.nct ≤ h'.nct := (C52.ckksAddNew_fresh H.wf H.inp hrun).only.nct
  refine ⟨w.1, h', hrun, ⟨W', H.lt0, H.lt1, by have := H.in0; omega, by have := H.in1; omega, by have := H.inp; omega, by rw [v0]; exact H.h0, by rw [v1]; exact H.h1,
    p1, p2, p3 _ H.in0 H.ap0, p3 _ H.in1 H.ap1, H.r0, H.r1⟩, p5, p3, e3.atLevel, hs, e3.ids hz, fun s i hi => ?_⟩
  rw [e3.phase hz s hi, phase_addOut _ _ (Ct.zero_notMem_ids _) (Ct.zero_notMem_ids _),
    phaseRows_mul _ s _ fun id _ => aligned_cf mredPsi (hval C h c0) _ H.r0 id i, phaseRows_mul _ s _ fun id _ => aligned_cf mredPsi (hval C h c1) _ H.r1 id i]
  rfl

/-- **C23 with sharing, SubNew** -/
theorem heap_subNew_phase (h16 : N % 16 = 0) (mredPsi : ℕ → ℕ → ℕ) (o : Sched String) {h : Heap N} {pool : ℕ} {c0 c1 : HCt} {l0 l1 : ℕ}
    (H : HShape C h pool c0 c1 l0 l1) :
    ∃ r h', Heap.ckksSubNew C mredPsi o h pool c0 c1 = .ok (r, h') ∧ HShape C h' pool c0 c1 l0 l1 ∧ Apart h' pool r.ct ∧
      (∀ c < h.nct, Apart h pool c → Apart h' pool c) ∧
      (value C h' r.ct).AtLevel (min l0 l1) ∧ r.scale = max c0.scale c1.scale ∧ (value C h' r.ct).ids = (value C h c0.ct).ids ∪ (value C h c1.ct).ids ∧
      ∀ (s : String → Nega N ℤ) (i : ℕ), i ≤ min l0 l1 →
        (value C h' r.ct).phase s i = (factor C.fm c0.scale c1.scale : Nega N (ZMod (C.q i))) * (value C h c0.ct).phase s i -
          (factor C.fm c1.scale c0.scale : Nega N (ZMod (C.q i))) * (value C h c1.ct).phase s i := by
  obtain ⟨w, h2, e1, e2, W2, lt, hd, hs, ⟨v0, v1⟩, ⟨p1, p2, p3, p5⟩, e3⟩ := heap_evaluate_made h16 (fun i => (C.RQ i).sub) mredPsi o H
  have hz : "0" ∉ (value C h c0.ct).ids ∪ (value C h c1.ct).ids := by
    rw [mem_union]; exact fun h => h.elim (Ct.zero_notMem_ids _) (Ct.zero_notMem_ids _)
  obtain ⟨h', f1, R⟩ := Heap.negNew_run (C := C) (o 130) (o 131) (o 132) (op0 := c0.ct) W2 lt e3.atLevel hd
  rw [v0] at R
  have hm := e3.upd R.upd
  have hrun : Heap.ckksSubNew C mredPsi o h pool c0 c1 = .ok (w.1, h') := by
    unfold Heap.ckksSubNew
    rw [e1, bind_ok]
    show (Heap.ckksEvaluateInPlace C _ mredPsi o w.2 pool c0 c1 w.1.ct >>= _) = _
    rw [e2, bind_ok, level_value (C := C), v0, H.h0.level, bind_ok, level_value (C := C), v1, H.h1.level, bind_ok, level_value (C := C), e3.atLevel.level, bind_ok,
      Nat.min_self]
    show (Heap.negNew C (min l0 l1) _ _ _ h2 c0.ct w.1.ct >>= _) = _
    rw [f1, bind_ok]
  have F := C52.ckksSubNew_fresh H.wf H.inp hrun
  have hn : h.nct ≤ h'.nct := F.only.nct
  have hpool : pool < h2.nct := by rw [← R.nct]; have := H.inp; omega
  have h0' : value C h' c0.ct = value C h c0.ct ∧ value C h' c1.ct = value C h c1.ct := by
    have key : ∀ c, c < h.nct → Apart h pool c → value C h' c = value C h c := by
      intro c hc ha
      refine (F.unchanged H.wf hc (fun e => ?_) (fun id p hp ⟨x, hx⟩ => ha x id p hx hp)).1
      obtain ⟨p, hp⟩ := Option.isSome_iff_exists.mp (GoMap.mem_iff_lookup.mp (value_mem.mp H.hpool.has0))
      rw [Set.mem_singleton_iff] at e
      exact ha "0" "0" p hp (by rw [e]; exact hp)
    exact ⟨key _ H.in0 H.ap0, key _ H.in1 H.ap1⟩
  have vpool : value C h' pool = value C h2 pool := R.value_other W2 hpool (Apart.symm p5)
  have pp : ∀ c < h.nct, Apart h pool c → Apart h' pool c := fun c hc ha => by unfold Apart; rw [R.ct]; exact p3 c hc ha
  refine ⟨w.1, h', hrun, ⟨R.wf, H.lt0, H.lt1, by have := H.in0; omega, by have := H.in1; omega, by have := H.inp; omega, by rw [h0'.1]; exact H.h0,
    by rw [h0'.2]; exact H.h1, by rw [vpool]; exact p1, by unfold Distinct; rw [R.ct]; exact p2, pp _ H.in0 H.ap0,
    pp _ H.in1 H.ap1, H.r0, H.r1⟩, by unfold Apart; rw [R.ct]; exact p5, pp, hm.atLevel, hs, hm.ids hz, fun s i hi => ?_⟩
  rw [hm.phase hz s hi, phase_subOut _ _ (Ct.zero_notMem_ids _) (Ct.zero_notMem_ids _) s (aligned mredPsi (hval C h c0) c1.scale)
    (aligned mredPsi (hval C h c1) c0.scale) i _ fun id hid => ?_,
    phaseRows_mul _ s _ fun id _ => aligned_cf mredPsi (hval C h c0) _ H.r0 id i, phaseRows_mul _ s _ fun id _ => aligned_cf mredPsi (hval C h c1) _ H.r1 id i]
  · rfl
  · have := e3.comp (hid.symm.imp (fun x => x) fun x => x) hi
    split_ifs <;> simp only [this]

end C23
end MKHE
