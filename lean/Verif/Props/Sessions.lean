import Verif.Props.CkksProg

set_option autoImplicit false

/-!
# C69: clients that share an evaluator do not influence each other

An evaluator holds scratch memory, and the relinearization key set holds pools; every call overwrites some of it. `run_same` says that a program of evaluator calls
returns the same ciphertexts, bit for bit, whatever that memory contained and in whatever orders Go iterates its maps. `interleaved` says that when any number of clients
use one evaluator and one key set, calling in any interleaving, each of them gets bit for bit the ciphertexts it would get alone.
-/

namespace MKHE.C69
open Finset Nega C59

variable {N : ℕ} [NeZero N] {C : Ctx N}

/-- the same ciphertext: the same identifiers with the same polynomials, and the same scale -/
structure CSame (a b : CCt C) : Prop where
  ct : a.ct.Same b.ct
  scale : a.scale = b.scale

theorem CSame.symm {a b : CCt C} (h : CSame a b) : CSame b a := ⟨h.ct.symm, h.scale.symm⟩
theorem CSame.refl (a : CCt C) : CSame a a := ⟨Ct.Same.refl _, rfl⟩
theorem CSame.trans {a b c : CCt C} (h : CSame a b) (h' : CSame b c) : CSame a c := ⟨h.ct.trans h'.ct, h.scale.trans h'.scale⟩

/-- two calls return the same ciphertext -/
def Twin {α β : Type} (x : Go (CCt C × α)) (y : Go (CCt C × β)) : Prop := ∃ a p b q, x = .ok (a, p) ∧ y = .ok (b, q) ∧ CSame a b

section Ops
variable {S : Sys C} {st st' : St C} {c0 c1 d0 d1 : CCt C} {v0 v1 : Nega N ℝ} {a b : Info}

theorem aligned_congr (mredPsi : ℕ → ℕ → ℕ) (h : CSame c0 d0) (s : ℚ) : C23.aligned mredPsi c0 s = C23.aligned mredPsi d0 s := by
  unfold C23.aligned
  rw [h.scale, h.ct.comp]

theorem add_same (hS : S.Ok) (mredPsi : ℕ → ℕ → ℕ) (o o' : Sched String) (hst : st.Ready S) (hst' : st'.Ready S) (h0 : Approx S c0 v0 a) (h1 : Approx S c1 v1 b)
    (g0 : Approx S d0 v0 a) (g1 : Approx S d1 v1 b) (e0 : CSame c0 d0) (e1 : CSame c1 d1) (hr : AddOk C.fm a b) :
    Twin (ckksAddNew mredPsi o st.ev c0 c1) (ckksAddNew mredPsi o' st'.ev d0 d1) := by
  obtain ⟨x, E1, a1, -, a3, a4⟩ := C23.evaluate_made hS.n16 (fun i => (C.RQ i).add) mredPsi o (add_shape hst.ev h0 h1 hr)
  obtain ⟨y, E2, b1, -, b3, b4⟩ := C23.evaluate_made hS.n16 (fun i => (C.RQ i).add) mredPsi o' (add_shape hst'.ev g0 g1 hr)
  rw [← e0.ct.ids, ← e1.ct.ids, ← aligned_congr mredPsi e0, ← aligned_congr mredPsi e1, ← e0.scale, ← e1.scale] at b4
  refine ⟨x, E1, y, E2, a1, b1, a4.same b4 fun _ _ _ _ => rfl, ?_⟩
  rw [a3, b3, e0.scale, e1.scale]

theorem sub_same (hS : S.Ok) (mredPsi : ℕ → ℕ → ℕ) (o o' : Sched String) (hst : st.Ready S) (hst' : st'.Ready S) (h0 : Approx S c0 v0 a) (h1 : Approx S c1 v1 b)
    (g0 : Approx S d0 v0 a) (g1 : Approx S d1 v1 b) (e0 : CSame c0 d0) (e1 : CSame c1 d1) (hr : AddOk C.fm a b) :
    Twin (ckksSubNew mredPsi o st.ev c0 c1) (ckksSubNew mredPsi o' st'.ev d0 d1) := by
  obtain ⟨x, E1, a1, -, a3, a4⟩ := C23.subNew_made hS.n16 mredPsi o (add_shape hst.ev h0 h1 hr)
  obtain ⟨y, E2, b1, -, b3, b4⟩ := C23.subNew_made hS.n16 mredPsi o' (add_shape hst'.ev g0 g1 hr)
  rw [← e0.ct.ids, ← e1.ct.ids, ← aligned_congr mredPsi e0, ← aligned_congr mredPsi e1, ← e0.scale, ← e1.scale] at b4
  refine ⟨x, E1, y, E2, a1, b1, a4.same b4 fun _ _ _ _ => rfl, ?_⟩
  rw [a3, b3, e0.scale, e1.scale]

theorem mul_same (V : C.Valid) (hS : S.Ok) (o o' : Sched String) (hst : st.Ready S) (hst' : st'.Ready S) {same same' : Bool}
    (hsame : same = true → c1 = c0 ∧ b.level = a.level) (hsame' : same' = true → d1 = d0 ∧ b.level = a.level) (h0 : Approx S c0 v0 a) (h1 : Approx S c1 v1 b)
    (g0 : Approx S d0 v0 a) (g1 : Approx S d1 v1 b) (e0 : CSame c0 d0) (e1 : CSame c1 d1) (hm : MulOk S (min a.level b.level) (C.fm.mul a.scale b.scale)) :
    Twin (ckksMulRelinNew S.pscale S.crs o st.ev same c0 c1 st.rlk) (ckksMulRelinNew S.pscale S.crs o' st'.ev same' d0 d1 st'.rlk) := by
  have hlev : min a.level b.level < C.nQ := lt_of_le_of_lt (min_le_left _ _) h0.lt
  have hpos : 0 < C.fm.mul a.scale b.scale := rnd_pos _ (mul_pos h0.pos h1.pos)
  have H := newHyp V hS hst.keys hst.pools h0 h1
  have G := newHyp V hS hst'.keys hst'.pools g0 g1
  obtain ⟨x, E1, r1, y, E2, r2, a1, a2, a3, a4⟩ := C24.mulRelinNew_deterministic (crs := S.crs) (crs2 := S.crs) V S.pscale o o' st.ev st'.ev (hst.ev.alloc V hlev)
    (hst'.ev.alloc V hlev) hsame hsame' H.prod H.pool0 H.pool1 (e0.ct.ids ▸ G.pool0) (e1.ct.ids ▸ G.pool1) e0.ct e1.ct e0.scale e1.scale
    (fun id => by rw [hst.keys, hst'.keys]) rfl hS.pscale (by rw [h0.scale, h1.scale]; exact hpos.ne') (by rw [h0.scale, h1.scale]; exact hm.spec)
  exact ⟨x, (E1, r1), y, (E2, r2), a1, a2, a3, a4⟩

theorem mulH_same (V : C.Valid) (hS : S.Ok) (o o' : Sched String) (hst : st.Ready S) (hst' : st'.Ready S) (h0 : Approx S c0 v0 a) (h1 : Approx S c1 v1 b)
    (g0 : Approx S d0 v0 a) (g1 : Approx S d1 v1 b) (e0 : CSame c0 d0) (e1 : CSame c1 d1) {m0 m1 n0 n1 : HoistedCt C}
    (k0 : IsHoisted a.level c0.ct m0) (k1 : IsHoisted b.level c1.ct m1) (j0 : IsHoisted a.level d0.ct n0) (j1 : IsHoisted b.level d1.ct n1)
    (hm : MulOk S (min a.level b.level) (C.fm.mul a.scale b.scale)) :
    Twin (ckksMulRelinHoistedNew S.pscale S.crs o st.ev c0 c1 (some m0) (some m1) st.rlk)
      (ckksMulRelinHoistedNew S.pscale S.crs o' st'.ev d0 d1 (some n0) (some n1) st'.rlk) := by
  have hlev : min a.level b.level < C.nQ := lt_of_le_of_lt (min_le_left _ _) h0.lt
  have hpos : 0 < C.fm.mul a.scale b.scale := rnd_pos _ (mul_pos h0.pos h1.pos)
  have hd := hm.spec
  have H := newHyp V hS hst.keys hst.pools h0 h1
  have G := newHyp V hS hst'.keys hst'.pools g0 g1
  obtain ⟨p, S1, a1, a3⟩ := ckksMulRelinHoistedNew_run V S.pscale o st.ev (hst.ev.alloc V hlev) H.prod k0 k1
  obtain ⟨q, S2, b1, b3⟩ := ckksMulRelinHoistedNew_run V S.pscale o' st'.ev (hst'.ev.alloc V hlev) G.prod j0 j1
  rw [← e0.ct.ids, ← e1.ct.ids, ← C24.mulRows_congr e0.ct e1.ct (rlk := st.rlk) (fun id => by rw [hst.keys, hst'.keys]) rfl] at b1
  have hpq : p.Same q := a1.same b1 fun _ _ _ _ => rfl
  obtain ⟨e, x, c1', c2, c3⟩ := MKHE.rescale_inplace (o 91) (ct := ⟨p, C.fm.mul c0.scale c1.scale⟩) a1.atLevel hS.pscale
    (by rw [h0.scale, h1.scale]; exact hpos.ne') (by rw [h0.scale, h1.scale]; exact hd)
  obtain ⟨e', y, d1', d2, d3⟩ := MKHE.rescale_inplace (o' 91) (ct := ⟨q, C.fm.mul c0.scale c1.scale⟩) b1.atLevel hS.pscale
    (by rw [h0.scale, h1.scale]; exact hpos.ne') (by rw [h0.scale, h1.scale]; exact hd)
  rw [← e0.scale, ← e1.scale] at b3
  rw [c1'] at a3
  rw [d1'] at b3
  refine ⟨x, _, y, _, a3, b3, fun id => ?_, c2.trans d2.symm⟩
  rw [c3, d3]
  dsimp only
  rw [hpq id, hpq.comp]

/-! ### rotations and conjugation -/

theorem keysFor (V : C.Valid) {l : ℕ} (hl : l < C.nQ) {ids : Finset String} (hsub : ids ⊆ S.U) {r : ℕ}
    (K : C33.Keys S.crs (C.nQ - 1) S.U r S.rks S.s S.Sb S.Be) : C24.KeysFor S.crs l ids S.rks r := by
  obtain ⟨a, k1, k2, k3⟩ := (rotKeys_mono V (top_lt V) (show l ≤ C.nQ - 1 by omega) hsub K).key
  exact ⟨a, k1, k2, fun id hid => by obtain ⟨key, e1, e2, -⟩ := k3 id hid; exact ⟨key, e1, e2⟩⟩

/-- `rotate` with a hoisted form, on ciphertexts with the same entries -/
theorem rotateHoisted_same (V : C.Valid) {crs : GoMap ℤ (Swk C)} {rks : RotKeySet (GalKey C)} {level : ℕ} (o o' : Sched String) (S S' : Scratch C)
    {ct ct' out out' : Ct C} (hl : level < C.nQ) (hct : ct.AtLevel level) (hout : out.AtLevel level) (hids : out.ids = ct.ids) (hs : ct.Same ct') (ho : out.Same out')
    {r : ℕ} (K : C24.KeysFor crs level ct.ids rks r) {m m' : HoistedCt C} (k : IsHoisted level ct m) (k' : IsHoisted level ct' m') :
    ∃ o1 S1 o2 S2, rotateHoisted crs o S ct r m rks out = .ok (o1, S1) ∧ rotateHoisted crs o' S' ct' r m' rks out' = .ok (o2, S2) ∧ o1.Same o2 := by
  obtain ⟨a, k1, k2, k3⟩ := K
  have hadj : adjustIdx N (r : ℤ) = r := adjustIdx_nonneg (by omega)
  have H1 : RotHyp crs level ct r rks out a := ⟨hl, hct.toCoeff, hout, hids, k3, k1, k2⟩
  have H2 : RotHyp crs level ct' r rks out' a := ⟨hl, (hs.atLevel hct).toCoeff, ho.atLevel hout, by rw [← ho.ids, hids, hs.ids],
    fun id hid => k3 id (hs.ids ▸ hid), k1, k2⟩
  obtain ⟨x, X1, y, Y1, p1, p2, p3⟩ := C30.rotateHoisted_eq V o o S S r hadj H1 m k
  obtain ⟨z, Z1, w, W1, q1, q2, q3⟩ := C30.rotateHoisted_eq V o' o' S' S' r hadj H2 m' k'
  obtain ⟨o1, S1, o2, S2, e1, e2, e3, -⟩ := C24.rotate_same V o o' S S' hl hct hout hids hs ho ⟨a, k1, k2, k3⟩
  rw [e1] at p1
  rw [e2] at q1
  injection p1 with p1
  injection q1 with q1
  injection p1 with p1 _
  injection q1 with q1 _
  subst p1 q1
  exact ⟨y, Y1, w, W1, p2, q2, fun id => by rw [← p3 id, ← q3 id]; exact e3 id⟩

theorem rot_same (V : C.Valid) (hS : S.Ok) (o o' : ℕ → Sched String) (h0 : Approx S c0 v0 a) (e0 : CSame c0 d0) (r : ℤ) :
    Twin (ckksRotateNew S.crs o st.ev c0 r S.rks) (ckksRotateNew S.crs o' st'.ev d0 r S.rks) := by
  have hct := h0.lvl
  have hct' := e0.ct.atLevel hct
  have hU : c0.ct.ids ⊆ S.U := by rw [h0.ids]; exact h0.sub
  obtain ⟨ids, a1, a2⟩ := Ct.idset (o 0 63) c0.ct
  obtain ⟨ids', b1, b2⟩ := Ct.idset (o' 0 63) d0.ct
  obtain ⟨hn, hlt⟩ := C35.rotNorm_amount V r
  have hnew : (Ct.new (o 0 64) ids a.level : Ct C).AtLevel a.level := Ct.new_atLevel _ _ _
  have hnid : (Ct.new (o 0 64) ids a.level : Ct C).ids = c0.ct.ids := Ct.new_ids _ a2 (Ct.zero_notMem_ids _) _
  have hsame : (Ct.new (o 0 64) ids a.level : Ct C).Same (Ct.new (o' 0 64) ids' a.level) :=
    C24.new_same _ _ (fun id => by rw [a2 id, b2 id, e0.ct.ids]) _
  have hlk : (S.crs.lookup (rotNorm N r) : Option (Swk C)) = S.crs.lookup (C35.amount N r : ℤ) :=
    congrArg (fun k : ℤ => (S.crs.lookup k : Option (Swk C))) hn
  unfold Twin ckksRotateNew ckksRotate
  rw [a1, b1, bind_ok, bind_ok, hct.level, hct'.level, bind_ok, bind_ok]
  dsimp only
  rw [hlk]
  by_cases hr : C35.amount N r = 0
  · have h00 : rotNorm N r = 0 := by rw [hn, hr]; rfl
    simp only [if_pos h00]
    obtain ⟨x, y, c1, c2, c3, _⟩ := C24.copyFrom_cong (o 0 61) (o' 0 61) hsame e0.ct hnew hct hnid
    rw [c1, c2, bind_ok, bind_ok, bind_ok, bind_ok]
    exact ⟨_, _, _, _, rfl, rfl, c3, e0.scale⟩
  · have h00 : rotNorm N r ≠ 0 := by rw [hn]; exact_mod_cast hr
    simp only [if_neg h00]
    by_cases hc : (S.crs.lookup (C35.amount N r : ℤ)).isSome
    · simp only [if_pos hc, hn]
      obtain ⟨o1, S1, o2, S2, e1, e2, e3, _⟩ := C24.rotate_same V (o 0) (o' 0) st.ev.ksw st'.ev.ksw h0.lt hct hnew hnid e0.ct hsame
        (keysFor V h0.lt hU ((hS.rot _ hlt).special hc hr))
      rw [e1, e2, bind_ok, bind_ok]
      exact ⟨_, _, _, _, rfl, rfl, e3, e0.scale⟩
    · simp only [if_neg hc, hn, Int.toNat_natCast]
      obtain ⟨tmp, t1, t2⟩ := Ct.copyNew_ok (o 0 62) hct.has0
      obtain ⟨tmp', t1', t2'⟩ := Ct.copyNew_ok (o' 0 62) hct'.has0
      rw [t1, t1', bind_ok, bind_ok]
      obtain ⟨o1, S1, o2, S2, e1, e2, e3⟩ := C24.rotLoop_same V o o' h0.lt c0.ct.ids (C35.amount N r) 1 tmp tmp' _ _ st.ev.ksw st'.ev.ksw
        (t2.symm.atLevel hct) hnew t2.ids hnid (t2.trans (e0.ct.trans t2'.symm)) hsame (fun j hj => by
          rw [one_mul]
          refine keysFor V h0.lt hU ((hS.rot _ hlt).default j (lt_of_le_of_lt ?_ hlt))
          by_contra h
          rw [mem_onBits, Nat.testBit_lt_two_pow (by omega)] at hj
          cases hj)
      rw [e1, e2, bind_ok, bind_ok]
      exact ⟨_, _, _, _, rfl, rfl, e3, e0.scale⟩

theorem rotH_same (V : C.Valid) (hS : S.Ok) (o o' : ℕ → Sched String) (h0 : Approx S c0 v0 a) (e0 : CSame c0 d0) (r : ℤ)
    (hc : C35.amount N r ≠ 0 → (S.crs.lookup (C35.amount N r : ℤ)).isSome) {m m' : HoistedCt C} (k : IsHoisted a.level c0.ct m) (k' : IsHoisted a.level d0.ct m') :
    Twin (ckksRotateHoistedNew S.crs o st.ev c0 r m S.rks) (ckksRotateHoistedNew S.crs o' st'.ev d0 r m' S.rks) := by
  have hct := h0.lvl
  have hct' := e0.ct.atLevel hct
  have hU : c0.ct.ids ⊆ S.U := by rw [h0.ids]; exact h0.sub
  obtain ⟨ids, a1, a2⟩ := Ct.idset (o 0 63) c0.ct
  obtain ⟨ids', b1, b2⟩ := Ct.idset (o' 0 63) d0.ct
  obtain ⟨hn, hlt⟩ := C35.rotNorm_amount V r
  have hnew : (Ct.new (o 0 64) ids a.level : Ct C).AtLevel a.level := Ct.new_atLevel _ _ _
  have hnid : (Ct.new (o 0 64) ids a.level : Ct C).ids = c0.ct.ids := Ct.new_ids _ a2 (Ct.zero_notMem_ids _) _
  have hsame : (Ct.new (o 0 64) ids a.level : Ct C).Same (Ct.new (o' 0 64) ids' a.level) :=
    C24.new_same _ _ (fun id => by rw [a2 id, b2 id, e0.ct.ids]) _
  have hlk : (S.crs.lookup (rotNorm N r) : Option (Swk C)) = S.crs.lookup (C35.amount N r : ℤ) :=
    congrArg (fun k : ℤ => (S.crs.lookup k : Option (Swk C))) hn
  unfold Twin ckksRotateHoistedNew ckksRotateHoisted
  rw [a1, b1, bind_ok, bind_ok, hct.level, hct'.level, bind_ok, bind_ok]
  dsimp only
  rw [hlk]
  by_cases hr : C35.amount N r = 0
  · have h00 : rotNorm N r = 0 := by rw [hn, hr]; rfl
    simp only [if_pos h00]
    obtain ⟨x, y, c1, c2, c3, _⟩ := C24.copyFrom_cong (o 0 61) (o' 0 61) hsame e0.ct hnew hct hnid
    rw [c1, c2, bind_ok, bind_ok, bind_ok, bind_ok]
    exact ⟨_, _, _, _, rfl, rfl, c3, e0.scale⟩
  · have h00 : rotNorm N r ≠ 0 := by rw [hn]; exact_mod_cast hr
    simp only [if_neg h00]
    simp only [if_pos (hc hr), hn]
    obtain ⟨o1, S1, o2, S2, e1, e2, e3⟩ := rotateHoisted_same V (o 0) (o' 0) st.ev.ksw st'.ev.ksw h0.lt hct hnew hnid e0.ct hsame
      (keysFor V h0.lt hU ((hS.rot _ hlt).special (hc hr) hr)) k k'
    rw [e1, e2, bind_ok, bind_ok]
    exact ⟨_, _, _, _, rfl, rfl, e3, e0.scale⟩

theorem conj_same (V : C.Valid) (hc : S.Conj) (o o' : Sched String) (h0 : Approx S c0 v0 a) (e0 : CSame c0 d0) :
    Twin (ckksConjugateNew a.level S.crs o st.ev c0 S.cks) (ckksConjugateNew a.level S.crs o' st'.ev d0 S.cks) := by
  have hct := h0.lvl
  have hct' := e0.ct.atLevel hct
  have hU : c0.ct.ids ⊆ S.U := by rw [h0.ids]; exact h0.sub
  obtain ⟨u, k1, k2, k3⟩ := (conjKeys_mono V (top_lt V) (by have := h0.lt; omega) hU hc : C36.Keys S.crs a.level c0.ct.ids S.cks S.s S.Sb S.Be).key
  have K : ∀ id ∈ c0.ct.ids, ∃ key, S.cks.value.lookup id = some key ∧ C.beta a.level ≤ key.value.len := fun id hid => by
    obtain ⟨key, e1, e2, -⟩ := k3 id hid; exact ⟨key, e1, e2⟩
  obtain ⟨ids, a1, a2⟩ := Ct.idset (o 63) c0.ct
  obtain ⟨ids', b1, b2⟩ := Ct.idset (o' 63) d0.ct
  have hnew : (Ct.new (o 64) ids a.level : Ct C).AtLevel a.level := Ct.new_atLevel _ _ _
  have hnid : (Ct.new (o 64) ids a.level : Ct C).ids = c0.ct.ids := Ct.new_ids _ a2 (Ct.zero_notMem_ids _) _
  have hnid' : (Ct.new (o' 64) ids' a.level : Ct C).ids = d0.ct.ids := Ct.new_ids _ b2 (Ct.zero_notMem_ids _) _
  have hsame : (Ct.new (o 64) ids a.level : Ct C).Same (Ct.new (o' 64) ids' a.level) :=
    C24.new_same _ _ (fun id => by rw [a2 id, b2 id, e0.ct.ids]) _
  obtain ⟨o1, S1, e1, e2⟩ := conjugate_run V o st.ev.ksw (out := Ct.new (o 64) ids a.level) ⟨h0.lt, hct.toCoeff, hnew, hnid, K, k1, k2⟩
  obtain ⟨o2, S2, f1, f2⟩ := conjugate_run V o' st'.ev.ksw (out := Ct.new (o' 64) ids' a.level)
    ⟨h0.lt, hct'.toCoeff, Ct.new_atLevel _ _ _, hnid', fun id hid => K id (e0.ct.ids ▸ hid), k1, k2⟩
  unfold Twin ckksConjugateNew
  rw [a1, b1, bind_ok, bind_ok, hct.level, hct'.level, bind_ok, bind_ok, e1, f1, bind_ok, bind_ok]
  refine ⟨_, _, _, _, rfl, rfl, C24.upd_same hsame e2 f2 fun id _ i _ => ?_, e0.scale⟩
  have hin : conjIn c0.ct = conjIn d0.ct := by funext id; unfold conjIn; rw [e0.ct.comp]
  unfold conjOut
  rw [e0.ct.ids, hin]

/-! ### plaintexts, levels, constants, rescaling -/

theorem mulPt_same (hS : S.Ok) (o o' : Sched String) (h0 : Approx S c0 v0 a) (e0 : CSame c0 d0) {pt : Poly C} (hpt : a.level < pt.len) {sc : ℚ} (hsc : 0 < sc)
    (hm : MulOk S a.level (C.fm.mul a.scale sc)) : Twin (mulPtxtNew S.pscale o st.ev c0 pt sc) (mulPtxtNew S.pscale o' st'.ev d0 pt sc) := by
  have hpos : 0 < C.fm.mul a.scale sc := rnd_pos _ (mul_pos h0.pos hsc)
  obtain ⟨p, E1, a1, a2, a3⟩ := C50.mulPtxtRaw_made o st.ev sc h0.lvl hpt
  obtain ⟨q, E2, b1, b2, b3⟩ := C50.mulPtxtRaw_made o' st'.ev sc (e0.ct.atLevel h0.lvl) hpt
  rw [← e0.ct.ids, ← e0.ct.comp] at b3
  have hpq : p.ct.Same q.ct := a3.same b3 fun _ _ _ _ => rfl
  rw [h0.scale] at a2
  rw [← e0.scale, h0.scale] at b2
  obtain ⟨e, x, c1, c2, c3⟩ := MKHE.rescale_inplace (o 103) (ct := p) a3.atLevel hS.pscale (by rw [a2]; exact hpos.ne') (by rw [a2]; exact hm.spec)
  obtain ⟨e', y, d1, d2, d3⟩ := MKHE.rescale_inplace (o' 103) (ct := q) b3.atLevel hS.pscale (by rw [b2]; exact hpos.ne') (by rw [b2]; exact hm.spec)
  unfold Twin mulPtxtNew
  rw [a1, bind_ok, b1, bind_ok, c1, d1, bind_ok, bind_ok]
  refine ⟨_, _, _, _, rfl, rfl, fun id => ?_, ?_⟩
  · dsimp only
    rw [c3, d3, hpq id, hpq.comp]
  · dsimp only
    rw [c2, d2, a2, b2]

theorem drop_same (o1 o2 o1' o2' : Order String) (h0 : Approx S c0 v0 a) (e0 : CSame c0 d0) {k : ℕ} (hk : k ≤ a.level) :
    ∃ x y, dropLevelNew o1 o2 c0 k = .ok x ∧ dropLevelNew o1' o2' d0 k = .ok y ∧ CSame x y := by
  obtain ⟨cp, a1, a2⟩ := Ct.copyNew_ok o1 h0.lvl.has0
  obtain ⟨cp', b1, b2⟩ := Ct.copyNew_ok o1' (e0.ct.atLevel h0.lvl).has0
  obtain ⟨x, c1, c2⟩ := C26.dropLevel_lookup o2 (a2.symm.atLevel h0.lvl) hk
  obtain ⟨y, d1, d2⟩ := C26.dropLevel_lookup o2' (b2.symm.atLevel (e0.ct.atLevel h0.lvl)) hk
  unfold dropLevelNew
  rw [a1, bind_ok, b1, bind_ok, c1, d1, bind_ok, bind_ok]
  refine ⟨_, _, rfl, rfl, fun id => ?_, e0.scale⟩
  dsimp only
  rw [c2, d2, a2 id, b2 id, e0.ct id]

theorem const_same (hS : S.Ok) (mredPsi : ℕ → ℕ → ℕ) (o1 o2 o1' o2' : Order String) (h0 : Approx S c0 v0 a) (e0 : CSame c0 d0) (k : Const) :
    ∃ cp cp' x y, c0.ct.copyNew o1 = .ok cp ∧ d0.ct.copyNew o1' = .ok cp' ∧ multByConst mredPsi o2 false c0 k ⟨cp, c0.scale⟩ = .ok x ∧
      multByConst mredPsi o2' false d0 k ⟨cp', d0.scale⟩ = .ok y ∧ CSame x y := by
  have h0' := e0.ct.atLevel h0.lvl
  obtain ⟨cp, a1, a2⟩ := Ct.copyNew_ok o1 h0.lvl.has0
  obtain ⟨cp', b1, b2⟩ := Ct.copyNew_ok o1' h0'.has0
  obtain ⟨x, R, c1, c2, c3, -⟩ := multByConst_run hS.n16 mredPsi o2 false (ct0 := c0) (out := ⟨cp, c0.scale⟩) (fun h => by cases h) k h0.lvl (a2.symm.atLevel h0.lvl)
    (fun id hid => a2.mem.mpr hid)
  obtain ⟨y, R', d1, d2, d3, -⟩ := multByConst_run hS.n16 mredPsi o2' false (ct0 := d0) (out := ⟨cp', d0.scale⟩) (fun h => by cases h) k h0' (b2.symm.atLevel h0')
    (fun id hid => b2.mem.mpr hid)
  refine ⟨cp, cp', _, _, a1, b1, c1, d1, C24.upd_same (a2.trans (e0.ct.trans b2.symm)) c2 d2 fun id hid i _ => ?_, ?_⟩
  · have hid' := a2.mem.mp hid
    rw [c3 id hid', d3 id (e0.ct.mem.mp hid'), e0.ct.comp]
  · dsimp only
    rw [e0.scale]

theorem rescale_same (o1 o2 o1' o2' : Order String) (h0 : Approx S c0 v0 a) (e0 : CSame c0 d0) {ms : ℚ} (hm : RescaleOk C a.level a.scale ms) :
    ∃ cp cp' e x e' y, c0.ct.copyNew o1 = .ok cp ∧ d0.ct.copyNew o1' = .ok cp' ∧ MKHE.rescale o2 ⟨cp, c0.scale⟩ ms ⟨cp, c0.scale⟩ true = .ok (e, x) ∧
      MKHE.rescale o2' ⟨cp', d0.scale⟩ ms ⟨cp', d0.scale⟩ true = .ok (e', y) ∧ CSame x y := by
  have h0' := e0.ct.atLevel h0.lvl
  obtain ⟨cp, a1, a2⟩ := Ct.copyNew_ok o1 h0.lvl.has0
  obtain ⟨cp', b1, b2⟩ := Ct.copyNew_ok o1' h0'.has0
  have hpq : cp.Same cp' := a2.trans (e0.ct.trans b2.symm)
  have hd := hm.spec
  obtain ⟨e, x, c1, c2, c3⟩ := MKHE.rescale_inplace o2 (ct := ⟨cp, c0.scale⟩) (a2.symm.atLevel h0.lvl) hm.1 (by rw [h0.scale]; exact h0.pos.ne')
    (by rw [h0.scale]; exact hd)
  obtain ⟨e', y, d1, d2, d3⟩ := MKHE.rescale_inplace o2' (ct := ⟨cp', d0.scale⟩) (b2.symm.atLevel h0') hm.1 (by rw [← e0.scale, h0.scale]; exact h0.pos.ne')
    (by rw [← e0.scale, h0.scale]; exact hd)
  refine ⟨cp, cp', e, x, e', y, a1, b1, c1, d1, fun id => ?_, ?_⟩
  · rw [c3, d3]
    dsimp only
    rw [hpq id, hpq.comp]
  · rw [c2, d2]
    dsimp only
    rw [e0.scale]

end Ops

/-! ## programs -/

/-- the same outside world except for the map iteration orders -/
structure Alike (w w' : Env C) : Prop where
  mredPsi : w'.mredPsi = w.mredPsi
  perm : w'.perm = w.perm
  pts : w'.pts = w.pts

/-- the client holds the same ciphertexts -/
def MSame (M M' : Machine C) : Prop := List.Forall₂ CSame M.cts M'.cts

variable {S : Sys C} {w w' : Env C} {pts : Pts N}

theorem MSame.fetch {M M' : Machine C} (h : MSame M M') {i : ℕ} {x y : CCt C} (hx : M.cts[i]? = some x) (hy : M'.cts[i]? = some y) : CSame x y := by
  obtain ⟨h1, e1⟩ := List.getElem?_eq_some_iff.mp hx
  obtain ⟨h2, e2⟩ := List.getElem?_eq_some_iff.mp hy
  have := List.forall₂_iff_get.mp h |>.2 i h1 h2
  simp only [List.get_eq_getElem, e1, e2] at this
  exact this

theorem MSame.push {M M' : Machine C} (h : MSame M M') {x y : CCt C} (hxy : CSame x y) (ev ev' : Eval C) (r r' : RlkMap C) :
    MSame (M.push x ev r) (M'.push y ev' r') := List.rel_append h (.cons hxy .nil)

theorem step_same (V : C.Valid) (hS : S.Ok) (hw : Alike w w') (hp : PtsOk w pts) (n n' : ℕ) {M M' : Machine C} {A : Abs N} (h : Rel S M A) (h' : Rel S M' A)
    (hM : MSame M M') (c : Instr) (hc : c.Ok S w A) :
    ∃ X Y, step S w n M c = .ok X ∧ step S w' n' M' c = .ok Y ∧ MSame X Y := by
  cases c with
  | add i j =>
    obtain ⟨hi, hj, hr⟩ := hc
    obtain ⟨a, a1, a2, a3⟩ := h.fetch hi
    obtain ⟨b, b1, b2, b3⟩ := h.fetch hj
    obtain ⟨a', a1', a2', a3'⟩ := h'.fetch hi
    obtain ⟨b', b1', b2', b3'⟩ := h'.fetch hj
    obtain ⟨x, p, y, q, e1, e2, e3⟩ := add_same hS w.mredPsi (w.o n 0) (w'.o n' 0) h.ready h'.ready a3 b3 a3' b3' (hM.fetch a2 a2') (hM.fetch b2 b2') hr
    refine ⟨M.push x p M.st.rlk, M'.push y q M'.st.rlk, ?_, ?_, hM.push e3 _ _ _ _⟩ <;> simp only [step]
    · rw [a1, bind_ok, b1, bind_ok, e1, bind_ok]
    · rw [a1', bind_ok, b1', bind_ok, hw.mredPsi, e2, bind_ok]
  | sub i j =>
    obtain ⟨hi, hj, hr⟩ := hc
    obtain ⟨a, a1, a2, a3⟩ := h.fetch hi
    obtain ⟨b, b1, b2, b3⟩ := h.fetch hj
    obtain ⟨a', a1', a2', a3'⟩ := h'.fetch hi
    obtain ⟨b', b1', b2', b3'⟩ := h'.fetch hj
    obtain ⟨x, p, y, q, e1, e2, e3⟩ := sub_same hS w.mredPsi (w.o n 0) (w'.o n' 0) h.ready h'.ready a3 b3 a3' b3' (hM.fetch a2 a2') (hM.fetch b2 b2') hr
    refine ⟨M.push x p M.st.rlk, M'.push y q M'.st.rlk, ?_, ?_, hM.push e3 _ _ _ _⟩ <;> simp only [step]
    · rw [a1, bind_ok, b1, bind_ok, e1, bind_ok]
    · rw [a1', bind_ok, b1', bind_ok, hw.mredPsi, e2, bind_ok]
  | mul i j =>
    obtain ⟨hi, hj, hr⟩ := hc
    obtain ⟨a, a1, a2, a3⟩ := h.fetch hi
    obtain ⟨b, b1, b2, b3⟩ := h.fetch hj
    obtain ⟨a', a1', a2', a3'⟩ := h'.fetch hi
    obtain ⟨b', b1', b2', b3'⟩ := h'.fetch hj
    have hsame : decide (i = j) = true → b = a ∧ (A.info j).level = (A.info i).level := fun e => by
      have e := of_decide_eq_true e
      subst e
      rw [a2] at b2
      injection b2 with b2
      exact ⟨b2.symm, rfl⟩
    have hsame' : decide (i = j) = true → b' = a' ∧ (A.info j).level = (A.info i).level := fun e => by
      have e := of_decide_eq_true e
      subst e
      rw [a2'] at b2'
      injection b2' with b2'
      exact ⟨b2'.symm, rfl⟩
    obtain ⟨x, p, y, q, e1, e2, e3⟩ := mul_same V hS (w.o n 0) (w'.o n' 0) h.ready h'.ready hsame hsame' a3 b3 a3' b3' (hM.fetch a2 a2') (hM.fetch b2 b2') hr
    refine ⟨M.push x p.1 p.2, M'.push y q.1 q.2, ?_, ?_, hM.push e3 _ _ _ _⟩ <;> simp only [step]
    · rw [a1, bind_ok, b1, bind_ok, e1, bind_ok]
    · rw [a1', bind_ok, b1', bind_ok, e2, bind_ok]
  | rot i r =>
    obtain ⟨a, a1, a2, a3⟩ := h.fetch hc
    obtain ⟨a', a1', a2', a3'⟩ := h'.fetch hc
    obtain ⟨x, p, y, q, e1, e2, e3⟩ := rot_same (st := M.st) (st' := M'.st) V hS (w.o n) (w'.o n') a3 (hM.fetch a2 a2') r
    refine ⟨M.push x p M.st.rlk, M'.push y q M'.st.rlk, ?_, ?_, hM.push e3 _ _ _ _⟩ <;> simp only [step]
    · rw [a1, bind_ok, e1, bind_ok]
    · rw [a1', bind_ok, e2, bind_ok]
  | conj i =>
    obtain ⟨hi, hr, hcj⟩ := hc
    obtain ⟨a, a1, a2, a3⟩ := h.fetch hi
    obtain ⟨a', a1', a2', a3'⟩ := h'.fetch hi
    obtain ⟨x, p, y, q, e1, e2, e3⟩ := conj_same (st := M.st) (st' := M'.st) V hcj (w.o n 0) (w'.o n' 0) a3 (hM.fetch a2 a2')
    refine ⟨M.push x p M.st.rlk, M'.push y q M'.st.rlk, ?_, ?_, hM.push e3 _ _ _ _⟩ <;> simp only [step]
    · rw [a1, bind_ok, atLevel_level a3.lvl, bind_ok, hr, e1, bind_ok]
    · rw [a1', bind_ok, atLevel_level a3'.lvl, bind_ok, hw.perm, hr, e2, bind_ok]
  | hoist i =>
    obtain ⟨a, a1, a2, a3⟩ := h.fetch hc
    obtain ⟨a', a1', a2', a3'⟩ := h'.fetch hc
    obtain ⟨m, T, e1, -, -⟩ := hoisted V (w.o n 0) h.ready a3
    obtain ⟨m', T', e1', -, -⟩ := hoisted V (w'.o n' 0) h'.ready a3'
    refine ⟨⟨⟨{ M.st.ev with ksw := T }, M.st.rlk⟩, M.cts, M.hs ++ [m]⟩, ⟨⟨{ M'.st.ev with ksw := T' }, M'.st.rlk⟩, M'.cts, M'.hs ++ [m']⟩, ?_, ?_, hM⟩ <;>
      simp only [step]
    · rw [a1, bind_ok, e1, bind_ok]
    · rw [a1', bind_ok, e1', bind_ok]
  | mulH i j k l =>
    obtain ⟨hi, hj, hk, hl, hr⟩ := hc
    obtain ⟨a, a1, a2, a3⟩ := h.fetch hi
    obtain ⟨b, b1, b2, b3⟩ := h.fetch hj
    obtain ⟨a', a1', a2', a3'⟩ := h'.fetch hi
    obtain ⟨b', b1', b2', b3'⟩ := h'.fetch hj
    obtain ⟨m0, m1, m2⟩ := h.fetchH hk a2
    obtain ⟨n0, n1, n2⟩ := h.fetchH hl b2
    obtain ⟨m0', m1', m2'⟩ := h'.fetchH hk a2'
    obtain ⟨n0', n1', n2'⟩ := h'.fetchH hl b2'
    obtain ⟨x, p, y, q, e1, e2, e3⟩ := mulH_same V hS (w.o n 0) (w'.o n' 0) h.ready h'.ready a3 b3 a3' b3' (hM.fetch a2 a2') (hM.fetch b2 b2') m2 n2 m2' n2' hr
    refine ⟨M.push x p M.st.rlk, M'.push y q M'.st.rlk, ?_, ?_, hM.push e3 _ _ _ _⟩ <;> simp only [step]
    · rw [a1, bind_ok, b1, bind_ok, m1, bind_ok, n1, bind_ok, e1, bind_ok]
    · rw [a1', bind_ok, b1', bind_ok, m1', bind_ok, n1', bind_ok, e2, bind_ok]
  | rotH i r k =>
    obtain ⟨hi, hk, hr⟩ := hc
    obtain ⟨a, a1, a2, a3⟩ := h.fetch hi
    obtain ⟨a', a1', a2', a3'⟩ := h'.fetch hi
    obtain ⟨m0, m1, m2⟩ := h.fetchH hk a2
    obtain ⟨m0', m1', m2'⟩ := h'.fetchH hk a2'
    obtain ⟨x, p, y, q, e1, e2, e3⟩ := rotH_same (st := M.st) (st' := M'.st) V hS (w.o n) (w'.o n') a3 (hM.fetch a2 a2') r hr m2 m2'
    refine ⟨M.push x p M.st.rlk, M'.push y q M'.st.rlk, ?_, ?_, hM.push e3 _ _ _ _⟩ <;> simp only [step]
    · rw [a1, bind_ok, m1, bind_ok, e1, bind_ok]
    · rw [a1', bind_ok, m1', bind_ok, e2, bind_ok]
  | mulPt i p =>
    obtain ⟨hi, hr⟩ := hc
    obtain ⟨a, a1, a2, a3⟩ := h.fetch hi
    obtain ⟨a', a1', a2', a3'⟩ := h'.fetch hi
    have hlen : (A.info i).level < (w.pts p).1.len := by have h1 := a3.lt; have h2 := (hp.enc p).1; omega
    obtain ⟨x, p, y, q, e1, e2, e3⟩ := mulPt_same (st := M.st) (st' := M'.st) hS (w.o n 0) (w'.o n' 0) a3 (hM.fetch a2 a2') hlen (hp.pos p) hr
    refine ⟨M.push x p M.st.rlk, M'.push y q M'.st.rlk, ?_, ?_, hM.push e3 _ _ _ _⟩ <;> simp only [step]
    · rw [a1, bind_ok, e1, bind_ok]
    · rw [a1', bind_ok, hw.pts, e2, bind_ok]
  | drop i k =>
    obtain ⟨hi, hr⟩ := hc
    obtain ⟨a, a1, a2, a3⟩ := h.fetch hi
    obtain ⟨a', a1', a2', a3'⟩ := h'.fetch hi
    obtain ⟨x, y, e1, e2, e3⟩ := drop_same (w.o n 0 0) (w.o n 0 1) (w'.o n' 0 0) (w'.o n' 0 1) a3 (hM.fetch a2 a2') hr
    refine ⟨M.push x M.st.ev M.st.rlk, M'.push y M'.st.ev M'.st.rlk, ?_, ?_, hM.push e3 _ _ _ _⟩ <;> simp only [step]
    · rw [a1, bind_ok, e1, bind_ok]
    · rw [a1', bind_ok, e2, bind_ok]
  | const i k =>
    obtain ⟨hi, hr⟩ := hc
    obtain ⟨a, a1, a2, a3⟩ := h.fetch hi
    obtain ⟨a', a1', a2', a3'⟩ := h'.fetch hi
    obtain ⟨cp, cp', x, y, c1, c2, e1, e2, e3⟩ := const_same hS w.mredPsi (w.o n 0 0) (w.o n 0 1) (w'.o n' 0 0) (w'.o n' 0 1) a3 (hM.fetch a2 a2') k
    refine ⟨M.push x M.st.ev M.st.rlk, M'.push y M'.st.ev M'.st.rlk, ?_, ?_, hM.push e3 _ _ _ _⟩ <;> simp only [step]
    · rw [a1, bind_ok, c1, bind_ok, e1, bind_ok]
    · rw [a1', bind_ok, c2, bind_ok, hw.mredPsi, e2, bind_ok]
  | rescale i ms =>
    obtain ⟨hi, hr⟩ := hc
    obtain ⟨a, a1, a2, a3⟩ := h.fetch hi
    obtain ⟨a', a1', a2', a3'⟩ := h'.fetch hi
    obtain ⟨cp, cp', e, x, e', y, c1, c2, e1, e2, e3⟩ := rescale_same (w.o n 0 0) (w.o n 0 1) (w'.o n' 0 0) (w'.o n' 0 1) a3 (hM.fetch a2 a2') hr
    refine ⟨M.push x M.st.ev M.st.rlk, M'.push y M'.st.ev M'.st.rlk, ?_, ?_, hM.push e3 _ _ _ _⟩ <;> simp only [step]
    · rw [a1, bind_ok, c1, bind_ok, e1, bind_ok]
    · rw [a1', bind_ok, c2, bind_ok, e2, bind_ok]

theorem Alike.ok (hw : Alike w w') {A : Abs N} {c : Instr} (hc : c.Ok S w A) : c.Ok S w' A := by
  cases c <;> simp only [Instr.Ok, hw.perm, hw.pts] at hc ⊢ <;> exact hc

theorem Alike.pts_ok (hw : Alike w w') (hp : PtsOk w pts) : PtsOk w' pts :=
  ⟨fun p => by rw [hw.pts]; exact hp.pos p, hp.bdd, fun p => by rw [hw.pts]; exact hp.enc p⟩

theorem Alike.exec (hw : Alike w w') (A : Abs N) (c : Instr) : exec S w' pts A c = exec S w pts A c := by
  cases c <;> simp only [C59.exec, hw.pts]

/-- one call on two machines, with what `step_ok` says about both -/
theorem step_both (V : C.Valid) (hS : S.Ok) (hw : Alike w w') (hp : PtsOk w pts) (n n' : ℕ) {M M' : Machine C} {A : Abs N} (h : Rel S M A) (h' : Rel S M' A)
    (hM : MSame M M') (c : Instr) (hc : c.Ok S w A) :
    ∃ X Y, step S w n M c = .ok X ∧ step S w' n' M' c = .ok Y ∧ Rel S X (exec S w pts A c) ∧ Rel S Y (exec S w pts A c) ∧ MSame X Y := by
  obtain ⟨X, Y, e1, e2, e3⟩ := step_same V hS hw hp n n' h h' hM c hc
  obtain ⟨X', f1, f2⟩ := step_ok V hS hp n h c hc
  obtain ⟨Y', g1, g2⟩ := step_ok V hS (hw.pts_ok hp) n' h' c (hw.ok hc)
  rw [e1] at f1
  rw [e2] at g1
  injection f1 with f1
  injection g1 with g1
  subst f1 g1
  rw [hw.exec] at g2
  exact ⟨X, Y, e1, e2, f2, g2, e3⟩

/-- **C69, one client.** A program returns the same ciphertexts, bit for bit, whatever the evaluator and the pools of the key set were used for before and in whatever
orders the maps are iterated. -/
theorem run_same (V : C.Valid) (hS : S.Ok) (hw : Alike w w') (hp : PtsOk w pts) (p : List Instr) : ∀ (n n' : ℕ) {M M' : Machine C} {A : Abs N}, Rel S M A → Rel S M' A →
    MSame M M' → ProgOk S w pts A p → ∃ X Y, run S w n M p = .ok X ∧ run S w' n' M' p = .ok Y ∧ MSame X Y := by
  induction p with
  | nil => exact fun n n' M M' A _ _ hM _ => ⟨M, M', rfl, rfl, hM⟩
  | cons c p ih =>
    intro n n' M M' A h h' hM hok
    obtain ⟨X, Y, e1, e2, f1, f2, hXY⟩ := step_both V hS hw hp n n' h h' hM c hok.1
    obtain ⟨X2, Y2, g1, g2, g3⟩ := ih (n + 1) (n' + 1) f1 f2 hXY hok.2
    refine ⟨X2, Y2, ?_, ?_, g3⟩ <;> simp only [run]
    · rw [e1, bind_ok, g1]
    · rw [e2, bind_ok, g2]

/-! ## several clients -/

section Clients
variable {ι : Type} [DecidableEq ι]

/-- one evaluator with its key set, and what each client holds -/
structure Office (C : Ctx N) (ι : Type) where
  st : St C
  cts : ι → List (CCt C)
  hs : ι → List (HoistedCt C)

/-- the client `k` as the only user of the evaluator -/
def Office.client (O : Office C ι) (k : ι) : Machine C := ⟨O.st, O.cts k, O.hs k⟩

/-- after a call of client `k`: the evaluator's new state, and the client's new objects -/
def Office.put (O : Office C ι) (k : ι) (M : Machine C) : Office C ι := ⟨M.st, Function.update O.cts k M.cts, Function.update O.hs k M.hs⟩

/-- calls of several clients, in the order in which they reach the evaluator -/
noncomputable def serve (S : Sys C) (w : Env C) : ℕ → Office C ι → List (ι × Instr) → Go (Office C ι)
  | _, O, [] => .ok O
  | n, O, c :: p => do
    let M ← step S w n (O.client c.1) c.2
    serve S w (n + 1) (O.put c.1 M) p

/-- the calls of one client -/
def calls (k : ι) (p : List (ι × Instr)) : List Instr := (p.filter fun c => c.1 = k).map Prod.snd

theorem calls_self (k : ι) (c : Instr) (p : List (ι × Instr)) : calls k ((k, c) :: p) = c :: calls k p := by simp [calls]
theorem calls_other {k j : ι} (h : j ≠ k) (c : Instr) (p : List (ι × Instr)) : calls k ((j, c) :: p) = calls k p := by simp [calls, h]

theorem Rel.of_ready {M : Machine C} {A : Abs N} (h : Rel S M A) {st : St C} (hs : st.Ready S) : Rel S ⟨st, M.cts, M.hs⟩ A := ⟨hs, h.cts, h.hs⟩

/-- all clients at once, each next to a machine of its own -/
theorem serve_same (V : C.Valid) (hS : S.Ok) (w' : ι → Env C) (hw : ∀ k, Alike w (w' k)) (hp : PtsOk w pts) (p : List (ι × Instr)) :
    ∀ (n : ℕ) (n' : ι → ℕ) {O : Office C ι} {M : ι → Machine C} {A : ι → Abs N}, O.st.Ready S → (∀ k, Rel S (O.client k) (A k)) → (∀ k, Rel S (M k) (A k)) →
      (∀ k, MSame (O.client k) (M k)) → (∀ k, ProgOk S w pts (A k) (calls k p)) →
      ∃ O', serve S w n O p = .ok O' ∧ ∀ k, ∃ Y, run S (w' k) (n' k) (M k) (calls k p) = .ok Y ∧ MSame (O'.client k) Y := by
  induction p with
  | nil => exact fun n n' O M A _ _ _ hM _ => ⟨O, rfl, fun k => ⟨M k, rfl, hM k⟩⟩
  | cons c p ih =>
    obtain ⟨j, c⟩ := c
    intro n n' O M A hr h h' hM hok
    have hj := hok j
    rw [calls_self] at hj
    obtain ⟨X, Y, e1, e2, f1, f2, hXY⟩ := step_both V hS (hw j) hp n (n' j) (h j) (h' j) (hM j) c hj.1
    have hput : ∀ k, (O.put j X).client k = if k = j then X else ⟨X.st, O.cts k, O.hs k⟩ := fun k => by
      unfold Office.client Office.put
      by_cases hk : k = j
      · subst hk; simp
      · simp [hk]
    obtain ⟨O', g1, g2⟩ := ih (n + 1) (Function.update n' j (n' j + 1)) (O := O.put j X) (M := Function.update M j Y)
      (A := Function.update A j (exec S w pts (A j) c)) f1.ready
      (fun k => by
        rw [hput]
        by_cases hk : k = j
        · subst hk; simpa using f1
        · rw [if_neg hk, Function.update_of_ne hk]; exact Rel.of_ready (h k) f1.ready)
      (fun k => by
        by_cases hk : k = j
        · subst hk; simpa using f2
        · simpa [hk] using h' k)
      (fun k => by
        rw [hput]
        by_cases hk : k = j
        · subst hk; simpa using hXY
        · rw [if_neg hk, Function.update_of_ne hk]; exact hM k)
      (fun k => by
        by_cases hk : k = j
        · subst hk; simpa using hj.2
        · have := hok k
          rw [calls_other (Ne.symm hk)] at this
          simpa [hk] using this)
    refine ⟨O', ?_, fun k => ?_⟩
    · simp only [serve]
      rw [e1, bind_ok, g1]
    · obtain ⟨Z, z1, z2⟩ := g2 k
      refine ⟨Z, ?_, z2⟩
      by_cases hk : k = j
      · subst hk
        rw [calls_self]
        simp only [run]
        rw [e2, bind_ok]
        simpa using z1
      · rw [calls_other (Ne.symm hk)]
        simpa [hk] using z1

/-- **C69.** Any number of clients use one evaluator and one key set, and their calls reach it in any interleaving: no call fails, and every client ends up with, bit for
bit, the ciphertexts it gets by running its own calls alone on any other ready evaluator (for instance a new one), with other map iteration orders. -/
theorem interleaved (V : C.Valid) (hS : S.Ok) (hp : PtsOk w pts) (p : List (ι × Instr)) (n : ℕ) {O : Office C ι} {A : ι → Abs N}
    (h : ∀ k, Rel S (O.client k) (A k)) (hst : O.st.Ready S) (hok : ∀ k, ProgOk S w pts (A k) (calls k p)) :
    ∃ O', serve S w n O p = .ok O' ∧ ∀ (k : ι) (st : St C) (w' : Env C) (m : ℕ), st.Ready S → Alike w w' →
      ∃ Y, run S w' m ⟨st, O.cts k, O.hs k⟩ (calls k p) = .ok Y ∧ List.Forall₂ CSame (O'.cts k) Y.cts := by
  have key := fun (st : ι → St C) (hr : ∀ k, (st k).Ready S) (w' : ι → Env C) (hw : ∀ k, Alike w (w' k)) (n' : ι → ℕ) =>
    serve_same V hS w' hw hp p n n' (O := O) (M := fun k => ⟨st k, O.cts k, O.hs k⟩) hst h (fun k => Rel.of_ready (h k) (hr k))
      (fun k => List.forall₂_same.mpr fun x _ => CSame.refl x) hok
  obtain ⟨O', e1, -⟩ := key (fun _ => O.st) (fun _ => hst) (fun _ => w) (fun _ => ⟨rfl, rfl, rfl⟩) (fun _ => 0)
  refine ⟨O', e1, fun k st w' m hr hw => ?_⟩
  obtain ⟨O2, f1, f2⟩ := key (fun _ => st) (fun _ => hr) (fun _ => w') (fun _ => hw) (fun _ => m)
  rw [e1] at f1
  injection f1 with f1
  subst f1
  obtain ⟨Y, g1, g2⟩ := f2 k
  exact ⟨Y, g1, g2⟩

end Clients

end MKHE.C69
