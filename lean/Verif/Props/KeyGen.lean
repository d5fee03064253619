import Verif.Lemmas.KeyGen
import Verif.Spec.Example
import Verif.Props.Params
import Verif.Props.RotateAll
import Mathlib.Data.List.Sigma

set_option autoImplicit false

/-!
# C12 – C16: key generation

`gs` is the stream of the polynomials that the Gaussian sampler of the key generator returns, read from `st.pos` on; `B` bounds them. The
theorems hold for every stream, every content of the pools in `st`, every CRS and all valid parameters.
-/

namespace MKHE
open Finset Nega

variable {N : ℕ} [NeZero N] {C : Ctx N}

/-- **Key equation with given errors**: `key_k = -sec * a_k + P*g_k*m + e_k` modulo every prime of Q and P, for the blocks `k < n`, where
`P*g_k` is `P` modulo the primes of block `k` and `0` modulo every other prime. -/
def KeyEq (C : Ctx N) (n : ℕ) (sec : Nega N ℤ) (a : ℕ → PolyQP C) (m : Nega N ℤ) (e : ℕ → Nega N ℤ) (key : ℕ → PolyQP C) : Prop :=
  ∀ k < n, (∀ i < C.nQ, (C.RQ i).mv ((key k).Q i) =
      - red (C.q i) sec * (C.RQ i).mv ((a k).Q i) + (if i / C.alpha = k then (C.P : Nega N (ZMod (C.q i))) else 0) * red (C.q i) m +
        red (C.q i) (e k)) ∧
    ∀ j < C.nP, (C.RP j).mv ((key k).P j) = - red (C.p j) sec * (C.RP j).mv ((a k).P j) + red (C.p j) (e k)

theorem KeyEq.rel {n n' : ℕ} {sec m : Nega N ℤ} {a key : ℕ → PolyQP C} {e : ℕ → Nega N ℤ} {B : ℤ} (h : KeyEq C n sec a m e key)
    (hn : n' ≤ n) (hB : ∀ k < n, Bdd (e k) B) : KeyRel C n' sec a m B key :=
  ⟨e, fun k hk => ⟨hB k (by omega), (h k (by omega)).1, (h k (by omega)).2⟩⟩

/-- every CRS entry has at least `Beta(MaxLevel)` components (what `NewParameters` and `AddCRS` allocate, C11) -/
def CrsLen (C : Ctx N) (crs : GoMap ℤ (Swk C)) : Prop := ∀ k a, crs.lookup k = some a → C.beta (C.nQ - 1) ≤ a.len

/-- `GenSwitchingKey` never fails on a switching key with enough components -/
theorem genSwitchingKey_total (gs : ℕ → Nega N ℤ) (st : KG C) (sk : SKey C) {swk : Swk C} (hlen : C.beta (C.nQ - 1) ≤ swk.len) :
    ∃ w st', genSwitchingKey gs st sk swk = .ok (w, st') ∧ w.len = swk.len := by
  unfold genSwitchingKey
  obtain ⟨⟨w, st'⟩, e1, e2⟩ := Go.loop_inv (fun (w : Swk C × KG C) i =>
      if w.1.len ≤ i then (.error .indexOutOfRange : Go (Swk C × KG C))
      else .ok (⟨w.1.len, Function.update w.1.val i (genSwkBlock (gs w.2.pos) w.2.poolQ i (w.1.val i))⟩, { w.2 with pos := w.2.pos + 1 }))
    (fun _ w => w.1.len = swk.len) (List.range (C.beta (C.nQ - 1)))
    (swk, { st with poolQ := setQ (C.nQ - 1) (fun i => (C.RQ i).mulScalar C.P (sk.value.Q i)) st.poolQ }) rfl (by
      rintro pre a suf w hl i1
      have hab : a < C.beta (C.nQ - 1) := List.mem_range.mp (by rw [hl]; simp)
      rw [if_neg (by omega)]
      exact ⟨_, rfl, i1⟩)
  exact ⟨w, st', e1, e2⟩

end MKHE

namespace MKHE.C12
open Finset Nega
variable {N : ℕ} [NeZero N] {C : Ctx N}

/-- the secret key generators: the key represents the sampled polynomial modulo every prime of Q and of P and carries the given id -/
theorem secretKey (V : C.Valid) {B : ℤ} (hB : C.SmallBound B) {x : Nega N ℤ} (hx : Bdd x B) (id : String) :
    (genSecretKey (C := C) x id).Is x ∧ (genSecretKey (C := C) x id).id = id := ⟨genSecretKey_is V hB hx id, rfl⟩

theorem secretKeyGaussian (V : C.Valid) {B : ℤ} (hB : C.SmallBound B) {gs : ℕ → Nega N ℤ} (hg : ∀ n, Bdd (gs n) B) (st : KG C) (id : String) :
    (genSecretKeyGaussian gs st id).1.Is (gs st.pos) ∧ (genSecretKeyGaussian gs st id).1.id = id :=
  ⟨genSecretKey_is V hB (hg _) id, rfl⟩

/-- **C12.** `GenPublicKey(sk)` succeeds and returns `(b, a)` under the id of `sk`, where `a` is the first component of the CRS of index 0,
unchanged, and `b + a*s` is the sampled error modulo every prime of Q and P. -/
theorem publicKey (V : C.Valid) {B : ℤ} (hB : C.SmallBound B) {gs : ℕ → Nega N ℤ} (hg : ∀ n, Bdd (gs n) B) (st : KG C) {sk : SKey C}
    {s : Nega N ℤ} (hs : sk.Is s) {crs : GoMap ℤ (Swk C)} {a : Swk C} (ha : crs.lookup 0 = some a) (hlen : 0 < a.len) :
    ∃ pk st', genPublicKey crs gs st sk = .ok (pk, st') ∧ pk.id = sk.id ∧
      (∀ i < C.nQ, pk.v1.Q i = (a.val 0).Q i) ∧ (∀ j < C.nP, pk.v1.P j = (a.val 0).P j) ∧
      (∀ i < C.nQ, (C.RQ i).ev (pk.v0.Q i) + (C.RQ i).ev (pk.v1.Q i) * red (C.q i) s = red (C.q i) (gs st.pos)) ∧
      ∀ j < C.nP, (C.RP j).ev (pk.v0.P j) + (C.RP j).ev (pk.v1.P j) * red (C.p j) s = red (C.p j) (gs st.pos) := by
  have h := sampleNTT_is V hB (hg st.pos) (PolyQP.zero : PolyQP C)
  unfold genPublicKey
  rw [GoMap.deref_ok ha, bind_ok, if_neg (by omega)]
  refine ⟨_, _, rfl, rfl, fun i hi => setQ_top V _ _ hi, fun j hj => setP_top _ _ hj, fun i hi => ?_, fun j hj => ?_⟩
  · show (C.RQ i).ev (setQ (C.nQ - 1) _ _ i) + _ = _
    rw [setQ_top V _ _ hi, LimbOps.ev_mulMontSub, h.q i hi]
    have := hs.q i hi
    unfold LimbOps.mv at this
    rw [← this]; ring
  · show (C.RP j).ev (setP C.nP _ _ j) + _ = _
    rw [setP_top _ _ hj, LimbOps.ev_mulMontSub, h.p j hj]
    have := hs.p j hj
    unfold LimbOps.mv at this
    rw [← this]; ring

/-- `GenKeyPair(id)` combines the two -/
theorem keyPair (V : C.Valid) {B : ℤ} (hB : C.SmallBound B) {gs : ℕ → Nega N ℤ} (hg : ∀ n, Bdd (gs n) B) (st : KG C) {s : Nega N ℤ}
    (hs : Bdd s B) (id : String) {crs : GoMap ℤ (Swk C)} {a : Swk C} (ha : crs.lookup 0 = some a) (hlen : 0 < a.len) :
    ∃ sk pk st', genKeyPair crs gs st s id = .ok (sk, pk, st') ∧ sk.Is s ∧ sk.id = id ∧ pk.id = id ∧
      (∀ i < C.nQ, pk.v1.Q i = (a.val 0).Q i) ∧
      ∀ i < C.nQ, (C.RQ i).ev (pk.v0.Q i) + (C.RQ i).ev (pk.v1.Q i) * red (C.q i) s = red (C.q i) (gs st.pos) := by
  have hk := genSecretKey_is (C := C) V hB hs id
  obtain ⟨pk, st', e1, e2, e3, _, e4, _⟩ := publicKey V hB hg st hk ha hlen
  unfold genKeyPair
  dsimp only
  rw [show genSecretKey s id = genSecretKeyFromSampler (C := C) s id from rfl, e1, bind_ok]
  exact ⟨_, pk, st', rfl, hk, rfl, e2, e3, e4⟩

end MKHE.C12

namespace MKHE.C13
open Finset Nega
variable {N : ℕ} [NeZero N] {C : Ctx N}

/-- **C13.** `GenSwitchingKey(s, swk)` overwrites each block `k < Beta(MaxLevel)` of `swk`, whatever it held, with a value that is
`P*s + e_k` modulo the primes of block `k` and `e_k` modulo all other primes of Q and P, `e_k` the polynomials sampled in order; the length
of the last block need not be `alpha`. -/
theorem switchingKey (V : C.Valid) {B : ℤ} (hB : C.SmallBound B) {gs : ℕ → Nega N ℤ} (hg : ∀ n, Bdd (gs n) B) (st : KG C) {sk : SKey C}
    {s : Nega N ℤ} (hs : sk.Is s) {swk : Swk C} (hlen : C.beta (C.nQ - 1) ≤ swk.len) :
    ∃ w st', genSwitchingKey gs st sk swk = .ok (w, st') ∧ w.len = swk.len ∧
      ∀ k < C.beta (C.nQ - 1),
        (∀ i < C.nQ, k * C.alpha ≤ i → i < k * C.alpha + C.alpha →
          (C.RQ i).mv ((w.val k).Q i) = (C.P : Nega N (ZMod (C.q i))) * red (C.q i) s + red (C.q i) (gs (st.pos + k))) ∧
        (∀ i < C.nQ, i < k * C.alpha ∨ k * C.alpha + C.alpha ≤ i → (C.RQ i).mv ((w.val k).Q i) = red (C.q i) (gs (st.pos + k))) ∧
        ∀ j < C.nP, (C.RP j).mv ((w.val k).P j) = red (C.p j) (gs (st.pos + k)) := by
  obtain ⟨w, st', e1, e2, _, e4⟩ := genSwitchingKey_ok V hB hg st hs hlen
  have hα := V.alpha_pos
  refine ⟨w, st', e1, e2, fun k hk => ⟨fun i hi h1 h2 => ?_, fun i hi h => ?_, (e4 k hk).2⟩⟩
  · rw [(e4 k hk).1 i hi]
    unfold Ctx.gad
    rw [if_pos ((Nat.div_eq_iff hα).mpr ⟨by omega, by omega⟩)]
  · rw [(e4 k hk).1 i hi]
    unfold Ctx.gad
    rw [if_neg (fun hh => by have := (Nat.div_eq_iff hα).mp hh; omega)]; ring

end MKHE.C13

namespace MKHE.C14
open Finset Nega
variable {N : ℕ} [NeZero N] {C : Ctx N}

/-- **C14.** `GenRelinearizationKey(sk, r)` succeeds and returns, under the id of `sk`, `(b, d, v)` with `b = -s*a + e`,
`d = -r*a + P*g*s + e'` and `v = -s*u - P*g*r + e''`, `a` and `u` the CRS of index 0 and -1, the errors being three consecutive runs of the
sampler's output (the last one negated). -/
theorem relinearizationKey (V : C.Valid) {B : ℤ} (hB : C.SmallBound B) {gs : ℕ → Nega N ℤ} (hg : ∀ n, Bdd (gs n) B) (st : KG C)
    {sk rk : SKey C} {s r : Nega N ℤ} (hs : sk.Is s) (hr : rk.Is r) {crs : GoMap ℤ (Swk C)} {a u : Swk C} (ha : crs.lookup 0 = some a)
    (hu : crs.lookup (-1) = some u) (hal : C.beta (C.nQ - 1) ≤ a.len) (hul : C.beta (C.nQ - 1) ≤ u.len) :
    ∃ rlk st', genRelinearizationKey crs gs st sk rk = .ok (rlk, st') ∧ rlk.id = sk.id ∧
      rlk.b.len = C.beta (C.nQ - 1) ∧ rlk.d.len = C.beta (C.nQ - 1) ∧ rlk.v.len = C.beta (C.nQ - 1) ∧
      KeyEq C (C.beta (C.nQ - 1)) s a.val 0 (fun k => gs (st.pos + k)) rlk.b.val ∧
      KeyEq C (C.beta (C.nQ - 1)) r a.val s (fun k => gs (st.pos + C.beta (C.nQ - 1) + k)) rlk.d.val ∧
      KeyEq C (C.beta (C.nQ - 1)) s u.val (-r) (fun k => - gs (st.pos + 2 * C.beta (C.nQ - 1) + k)) rlk.v.val := by
  set β := C.beta (C.nQ - 1) with hβ
  unfold genRelinearizationKey
  rw [if_neg (by have := V.alpha_pos; intro h; unfold Ctx.alpha Ctx.dims Dims.alpha at this; simp [h] at this), GoMap.deref_ok ha, bind_ok]
  obtain ⟨⟨b, st1⟩, b1, b2, b3, b4⟩ := Go.loop_inv (fun (w : Swk C × KG C) i =>
      if a.len ≤ i ∨ w.1.len ≤ i then (.error .indexOutOfRange : Go (Swk C × KG C))
      else .ok (⟨w.1.len, Function.update w.1.val i (relinB sk (a.val i) (genGaussianError gs w.2.pos w.2.poolQP) (w.1.val i))⟩,
        { w.2 with pos := w.2.pos + 1, poolQP := genGaussianError gs w.2.pos w.2.poolQP }))
    (fun pre w => w.1.len = β ∧ w.2.pos = st.pos + pre.length ∧ ∀ k ∈ pre, ∃ tmp old : PolyQP C,
      tmp.Is (gs (st.pos + k)) ∧ w.1.val k = relinB sk (a.val k) tmp old)
    (List.range β) (Swk.new, st) ⟨rfl, rfl, by simp⟩ (by
      rintro pre i suf ⟨w, st1⟩ hl ⟨i1, i2, i3⟩
      have hi : i = pre.length := by
        have := congrArg (fun l => l[pre.length]?) hl
        simp only [List.getElem?_append_right (le_refl _), Nat.sub_self, List.getElem?_cons_zero] at this
        obtain ⟨h1, h2⟩ := List.getElem?_eq_some_iff.mp this
        rw [List.getElem_range] at h2
        exact h2.symm
      have hab : i < β := List.mem_range.mp (by rw [hl]; simp)
      dsimp only at i1 i2 i3 ⊢
      rw [if_neg (by omega)]
      refine ⟨_, rfl, i1, ?_, fun k hk => ?_⟩
      · show st1.pos + 1 = _; rw [i2]; simp; omega
      · by_cases e : k = i
        · subst e
          dsimp only
          rw [Function.update_self]
          refine ⟨_, _, ?_, rfl⟩
          rw [i2, ← hi]
          exact sampleNTT_is V hB (hg _) _
        · dsimp only
          rw [Function.update_of_ne e]
          exact i3 k (by simpa [e] using hk))
  dsimp only at b2 b3 b4
  rw [List.length_range] at b3
  rw [b1, bind_ok]
  obtain ⟨d, st2, d1, d2, d3, d4⟩ := genSwitchingKey_ok V hB hg st1 hs (swk := Swk.new) (le_refl _)
  rw [d1, bind_ok]
  obtain ⟨dv, f1, f2, f3⟩ := mapBlocks_ok (fun a d => qpMulSub (C.nQ - 1) a rk.value d) hal (swk := d) (by rw [d2]; exact le_refl _)
  rw [f1, bind_ok]
  obtain ⟨v, st3, v1, v2, v3, v4⟩ := genSwitchingKey_ok V hB hg st2 hr (swk := Swk.new) (le_refl _)
  rw [v1, bind_ok, GoMap.deref_ok hu, bind_ok]
  obtain ⟨vv, g1, g2, g3⟩ := mapBlocks_ok (relinV sk) hul (swk := v) (by rw [v2]; exact le_refl _)
  rw [g1, bind_ok]
  refine ⟨_, _, rfl, rfl, b2, by rw [f2, d2]; rfl, by rw [g2, v2]; rfl, fun k hk => ⟨fun i hi => ?_, fun j hj => ?_⟩,
    fun k hk => ⟨fun i hi => ?_, fun j hj => ?_⟩, fun k hk => ⟨fun i hi => ?_, fun j hj => ?_⟩⟩
  · obtain ⟨tmp, old, t1, t2⟩ := b4 k (List.mem_range.mpr hk)
    dsimp only
    rw [t2]
    show (C.RQ i).mv (setQ (C.nQ - 1) _ _ i) = _
    rw [setQ_top V _ _ hi]
    unfold LimbOps.mv
    rw [LimbOps.ev_mform, mul_assoc, LimbOps.mul_rinv, mul_one]
    show (C.RQ i).ev (setQ (C.nQ - 1) _ _ i) = _
    rw [setQ_top V _ _ hi, LimbOps.ev_sub, t1.q i hi]
    show _ - (C.RQ i).ev (setQ (C.nQ - 1) _ _ i) = _
    rw [setQ_top V _ _ hi, LimbOps.ev_invMform]
    show _ - (C.RQ i).ev (setQ (C.nQ - 1) _ _ i) * _ = _
    rw [setQ_top V _ _ hi, LimbOps.ev_mulMont]
    have := hs.q i hi
    unfold LimbOps.mv at this
    rw [← this, map_zero]; ring
  · obtain ⟨tmp, old, t1, t2⟩ := b4 k (List.mem_range.mpr hk)
    dsimp only
    rw [t2]
    show (C.RP j).mv (setP C.nP _ _ j) = _
    rw [setP_top _ _ hj]
    unfold LimbOps.mv
    rw [LimbOps.ev_mform, mul_assoc, LimbOps.mul_rinv, mul_one]
    show (C.RP j).ev (setP C.nP _ _ j) = _
    rw [setP_top _ _ hj, LimbOps.ev_sub, t1.p j hj]
    show _ - (C.RP j).ev (setP C.nP _ _ j) = _
    rw [setP_top _ _ hj, LimbOps.ev_invMform]
    show _ - (C.RP j).ev (setP C.nP _ _ j) * _ = _
    rw [setP_top _ _ hj, LimbOps.ev_mulMont]
    have := hs.p j hj
    unfold LimbOps.mv at this
    rw [← this]; ring
  · dsimp only
    rw [f3 k hk, (qpMulSub_mv V hr _ _).1 i hi, (d4 k hk).1 i hi, b3]
    unfold Ctx.gad
    ring
  · dsimp only
    rw [f3 k hk, (qpMulSub_mv V hr _ _).2 j hj, (d4 k hk).2 j hj, b3]
    ring
  · dsimp only
    rw [g3 k hk]
    show (C.RQ i).mv (setQ (C.nQ - 1) _ _ i) = _
    rw [setQ_top V _ _ hi]
    unfold LimbOps.mv
    rw [LimbOps.ev_neg]
    show -(C.RQ i).ev (setQ (C.nQ - 1) _ _ i) * _ = _
    rw [setQ_top V _ _ hi, LimbOps.ev_mulMontAdd]
    have h1 := hs.q i hi
    have h2 := (v4 k hk).1 i hi
    unfold LimbOps.mv at h1 h2
    rw [← h1, map_neg, map_neg, show st.pos + 2 * β + k = st2.pos + k by rw [d3, b3]; omega]
    have h3 : red (C.q i) (gs (st2.pos + k)) = (C.RQ i).ev ((v.val k).Q i) * (C.RQ i).rinv - C.gad k i * red (C.q i) r := by rw [h2]; ring
    rw [h3]
    unfold Ctx.gad
    ring
  · dsimp only
    rw [g3 k hk]
    show (C.RP j).mv (setP C.nP _ _ j) = _
    rw [setP_top _ _ hj]
    unfold LimbOps.mv
    rw [LimbOps.ev_neg]
    show -(C.RP j).ev (setP C.nP _ _ j) * _ = _
    rw [setP_top _ _ hj, LimbOps.ev_mulMontAdd]
    have h1 := hs.p j hj
    have h2 := (v4 k hk).2 j hj
    unfold LimbOps.mv at h1 h2
    rw [← h1, map_neg, show st.pos + 2 * β + k = st2.pos + k by rw [d3, b3]; omega, ← h2]
    ring

/-- the generated key meets the hypothesis under which the multiplication theorems (C29, C30) hold -/
theorem relinearizationKey_rel (V : C.Valid) {B : ℤ} (hB : C.SmallBound B) {gs : ℕ → Nega N ℤ} (hg : ∀ n, Bdd (gs n) B) (st : KG C)
    {sk rk : SKey C} {s r : Nega N ℤ} (hs : sk.Is s) (hr : rk.Is r) {crs : GoMap ℤ (Swk C)} {a u : Swk C} (ha : crs.lookup 0 = some a)
    (hu : crs.lookup (-1) = some u) (hal : C.beta (C.nQ - 1) ≤ a.len) (hul : C.beta (C.nQ - 1) ≤ u.len) {level : ℕ} (hl : level < C.nQ) :
    ∃ rlk st', genRelinearizationKey crs gs st sk rk = .ok (rlk, st') ∧ rlk.id = sk.id ∧ rlk.Rel (C.beta level) s r a.val u.val B := by
  obtain ⟨rlk, st', e1, e2, e3, e4, e5, e6, e7, e8⟩ := relinearizationKey V hB hg st hs hr ha hu hal hul
  have hb : C.beta level ≤ C.beta (C.nQ - 1) := V.beta_mono (by omega) (by omega)
  exact ⟨rlk, st', e1, e2, by omega, by omega, by omega, e6.rel hb fun _ _ => hg _, e7.rel hb fun _ _ => hg _,
    e8.rel hb fun _ _ => (hg _).neg⟩

end MKHE.C14

namespace MKHE.C15
open Finset Nega
variable {N : ℕ} [NeZero N] {C : Ctx N}

/-- **C15, rotations.** If the CRS has entries for the index `rot` and for the index `r` obtained by adding `N/2` until it is not
negative, `GenRotationKey(rot, sk)` succeeds and returns, under index `r` and the id of `sk`,
`rk = -σ⁻¹(s)*a + P*g*s + e`, `a` the CRS of index `r` and `σ⁻¹ : X ↦ X^(g⁻¹)`, `g = 5^r mod 2N`. -/
theorem rotationKey (V : C.Valid) {B : ℤ} (hB : C.SmallBound B) {gs : ℕ → Nega N ℤ} (hg : ∀ n, Bdd (gs n) B) (st : KG C)
    {sk : SKey C} {s : Nega N ℤ} (hs : sk.Is s) {crs : GoMap ℤ (Swk C)} {a : Swk C} {rot : ℤ} {r : ℕ} (h0 : rot ∈ crs)
    (hr : adjustIdx N rot = r) (ha : crs.lookup (r : ℤ) = some a) (hal : C.beta (C.nQ - 1) ≤ a.len) :
    ∃ rk st', genRotationKey crs gs st rot sk = .ok (rk, st') ∧ rk.id = sk.id ∧ rk.rotIdx = r ∧ rk.value.len = C.beta (C.nQ - 1) ∧
      KeyEq C (C.beta (C.nQ - 1)) (galois (galElInv N (galElCol N r)) s) a.val s (fun k => gs (st.pos + k)) rk.value.val := by
  unfold genRotationKey
  have h1 : ¬ (crs.lookup rot).isNone = true := by
    rw [GoMap.mem_iff_lookup] at h0
    cases h : crs.lookup rot with
    | none => rw [h] at h0; simp at h0
    | some x => simp
  rw [if_neg h1]
  dsimp only
  rw [hr]
  obtain ⟨w, st', w1, w2, w3, w4⟩ := genSwitchingKey_ok V hB hg st hs (swk := Swk.new) (le_refl _)
  rw [w1, bind_ok, GoMap.deref_ok ha, bind_ok]
  obtain ⟨v, v1, v2, v3⟩ := mapBlocks_ok (fun a d => qpMulSub (C.nQ - 1) a (permKey (galElInv N (galElCol N (r : ℤ).toNat)) sk).value d)
    hal (swk := w) (by rw [w2]; exact le_refl _)
  rw [v1, bind_ok]
  have hp := permKey_is V hs (g := galElInv N (galElCol N r)) (galElInv_odd (galElCol_odd _ _))
  refine ⟨_, _, rfl, rfl, Int.toNat_natCast r, by dsimp only; rw [v2, w2]; rfl, fun k hk => ⟨fun i hi => ?_, fun j hj => ?_⟩⟩
  · dsimp only
    rw [v3 k hk, Int.toNat_natCast, (qpMulSub_mv V hp _ _).1 i hi, (w4 k hk).1 i hi]
    unfold Ctx.gad; ring
  · dsimp only
    rw [v3 k hk, Int.toNat_natCast, (qpMulSub_mv V hp _ _).2 j hj, (w4 k hk).2 j hj]; ring

/-- **C15, conjugation.** `GenConjugationKey(sk)` returns under the id of `sk` `ck = -s*a + P*g*σ(s) + e`, `σ : X ↦ X^(2N-1)`, `a` the CRS
of index -2. -/
theorem conjugationKey (V : C.Valid) {B : ℤ} (hB : C.SmallBound B) {gs : ℕ → Nega N ℤ} (hg : ∀ n, Bdd (gs n) B) (st : KG C)
    {sk : SKey C} {s : Nega N ℤ} (hs : sk.Is s) {crs : GoMap ℤ (Swk C)} {a : Swk C} (ha : crs.lookup (-2) = some a)
    (hal : C.beta (C.nQ - 1) ≤ a.len) :
    ∃ ck st', genConjugationKey crs gs st sk = .ok (ck, st') ∧ ck.id = sk.id ∧ ck.value.len = C.beta (C.nQ - 1) ∧
      KeyEq C (C.beta (C.nQ - 1)) s a.val (galois (2 * N - 1) s) (fun k => gs (st.pos + k)) ck.value.val := by
  unfold genConjugationKey
  have hodd : Odd (galElRow N) := by
    have : 1 ≤ N := NeZero.one_le
    exact ⟨N - 1, by unfold galElRow; omega⟩
  have hp := permKey_is V hs hodd
  dsimp only
  obtain ⟨w, st', w1, w2, w3, w4⟩ := genSwitchingKey_ok V hB hg st hp (swk := Swk.new) (le_refl _)
  rw [w1, bind_ok, GoMap.deref_ok ha, bind_ok]
  obtain ⟨v, v1, v2, v3⟩ := mapBlocks_ok (fun a d => qpMulSub (C.nQ - 1) a sk.value d) hal (swk := w) (by rw [w2]; exact le_refl _)
  rw [v1, bind_ok]
  refine ⟨_, _, rfl, rfl, by dsimp only; rw [v2, w2]; rfl, fun k hk => ⟨fun i hi => ?_, fun j hj => ?_⟩⟩
  · dsimp only
    rw [v3 k hk, (qpMulSub_mv V hs _ _).1 i hi, (w4 k hk).1 i hi]
    unfold Ctx.gad galElRow; ring
  · dsimp only
    rw [v3 k hk, (qpMulSub_mv V hs _ _).2 j hj, (w4 k hk).2 j hj]; ring

end MKHE.C15

namespace MKHE.C16
open Finset Nega
variable {N : ℕ} [NeZero N] {C : Ctx N}

/-- **C16, rotation keys.** Which calls fail and how: no CRS for the raw index: a panic with a message; a CRS for the raw index but none for the
normalised index: a nil dereference; otherwise the call succeeds. -/
theorem rotationKey_outcome (gs : ℕ → Nega N ℤ) (st : KG C) (sk : SKey C) {crs : GoMap ℤ (Swk C)} (hcrs : CrsLen C crs) (rot : ℤ) :
    (rot ∉ crs → genRotationKey crs gs st rot sk =
      .error (.panic "Cannot GenRotationKey: CRS for given rot idx is not generated")) ∧
    (rot ∈ crs → adjustIdx N rot ∉ crs → genRotationKey crs gs st rot sk = .error .nilDeref) ∧
    (rot ∈ crs → adjustIdx N rot ∈ crs → ∃ rk st', genRotationKey crs gs st rot sk = .ok (rk, st') ∧
      rk.id = sk.id ∧ rk.rotIdx = (adjustIdx N rot).toNat) := by
  have hmem : ∀ k : ℤ, k ∉ crs ↔ crs.lookup k = none := fun k => AList.lookup_eq_none.symm
  refine ⟨fun h => ?_, fun h h' => ?_, fun h h' => ?_⟩
  · unfold genRotationKey
    rw [(hmem _).mp h]; rfl
  · unfold genRotationKey
    rw [if_neg (fun e => (hmem _).mpr (Option.isNone_iff_eq_none.mp e) h)]
    obtain ⟨w, st', e1, e2⟩ := genSwitchingKey_total gs st sk (swk := Swk.new) (le_refl _)
    dsimp only
    rw [e1, bind_ok, GoMap.deref_none ((hmem _).mp h')]
    rfl
  · unfold genRotationKey
    rw [if_neg (fun e => (hmem _).mpr (Option.isNone_iff_eq_none.mp e) h)]
    obtain ⟨w, st', e1, e2⟩ := genSwitchingKey_total gs st sk (swk := Swk.new) (le_refl _)
    dsimp only
    obtain ⟨a, ha⟩ := Option.isSome_iff_exists.mp (GoMap.mem_iff_lookup.mp h')
    obtain ⟨v, v1, v2, v3⟩ := mapBlocks_ok (fun a d => qpMulSub (C.nQ - 1) a (permKey (galElInv N (galElCol N (adjustIdx N rot).toNat)) sk).value d)
      (hcrs _ _ ha) (swk := w) (by rw [e2]; exact le_refl _)
    rw [e1, bind_ok, GoMap.deref_ok ha, bind_ok, v1, bind_ok]
    exact ⟨_, _, rfl, rfl, rfl⟩

/-- the CRS indices right after `NewParameters` (C11) -/
def DefaultIdx (N : ℕ) (crs : GoMap ℤ (Swk C)) : Prop :=
  ∀ k : ℤ, k ∈ crs ↔ (k = 0 ∨ k = -1 ∨ k = -2 ∨ k = -3 ∨ k = -4 ∨ ∃ i : ℕ, k = 2 ^ i ∧ k < (N : ℤ) / 2)

/-- `crs` has been extended since: the default indices are still there (`AddCRS` never removes an index) -/
def HasDefault (N : ℕ) (crs : GoMap ℤ (Swk C)) : Prop := ∀ i : ℕ, 2 ^ i < N / 2 → ((2 : ℤ) ^ i) ∈ crs

/-- on default parameters `GenRotationKey(k)` succeeds exactly for `0`, the powers of two below `N/2`, and those of `-1 .. -4` whose residue
modulo `N/2` is one of these -/
theorem default_rotationKey (V : C.Valid) (gs : ℕ → Nega N ℤ) (st : KG C) (sk : SKey C) {crs : GoMap ℤ (Swk C)} (hcrs : CrsLen C crs)
    (hd : DefaultIdx N crs) (rot : ℤ) : (∃ w, genRotationKey crs gs st rot sk = .ok w) ↔
      (rot = 0 ∨ (∃ i : ℕ, rot = 2 ^ i ∧ rot < (N : ℤ) / 2) ∨
        (-4 ≤ rot ∧ rot < 0 ∧ (rot % ((N : ℤ) / 2) = 0 ∨ ∃ i : ℕ, rot % ((N : ℤ) / 2) = 2 ^ i))) := by
  obtain ⟨h1, h2, h3⟩ := rotationKey_outcome gs st sk hcrs rot
  have hN := V.two_le
  have hiff : (∃ w, genRotationKey crs gs st rot sk = .ok w) ↔ rot ∈ crs ∧ adjustIdx N rot ∈ crs := by
    constructor
    · rintro ⟨w, hw⟩
      by_contra hc
      by_cases ha : rot ∈ crs
      · rw [h2 ha (fun hb => hc ⟨ha, hb⟩)] at hw; cases hw
      · rw [h1 ha] at hw; cases hw
    · rintro ⟨ha, hb⟩
      obtain ⟨rk, st', e, _⟩ := h3 ha hb
      exact ⟨_, e⟩
  rw [hiff]
  rcases lt_or_ge rot 0 with hneg | hpos
  · have hadj := adjustIdx_neg hN hneg
    rw [hadj, hd, hd]
    have hcast : ((N / 2 : ℕ) : ℤ) = (N : ℤ) / 2 := by push_cast; rfl
    rw [hcast]
    have hhalf : 0 < (N : ℤ) / 2 := by omega
    have hm0 := Int.emod_nonneg rot hhalf.ne'
    have hm1 := Int.emod_lt_of_pos rot hhalf
    have hpow : ∀ i : ℕ, (0 : ℤ) < 2 ^ i := fun i => by positivity
    constructor
    · rintro ⟨ha, hb⟩
      right; right
      have h4 : -4 ≤ rot := by
        rcases ha with h | h | h | h | h | ⟨i, h, _⟩
        · omega
        · omega
        · omega
        · omega
        · omega
        · have := hpow i; omega
      refine ⟨h4, hneg, ?_⟩
      rcases hb with h | h | h | h | h | ⟨i, h, _⟩
      · exact .inl h
      · omega
      · omega
      · omega
      · omega
      · exact .inr ⟨i, h⟩
    · rintro (h | ⟨i, h, _⟩ | ⟨h4, _, h5⟩)
      · omega
      · have := hpow i; omega
      · refine ⟨by omega, ?_⟩
        rcases h5 with h5 | ⟨i, h5⟩
        · exact .inl h5
        · exact .inr (.inr (.inr (.inr (.inr ⟨i, h5, hm1⟩))))
  · rw [adjustIdx_nonneg hpos, and_self, hd]
    constructor
    · rintro (h | h | h | h | h | h)
      · exact .inl h
      · omega
      · omega
      · omega
      · omega
      · exact .inr (.inl h)
    · rintro (h | h | ⟨_, h, _⟩)
      · exact .inl h
      · exact .inr (.inr (.inr (.inr (.inr h))))
      · omega

/-- from `N = 32` on, no negative index works on default parameters, although `-1 .. -4` have a CRS -/
theorem default_negative (V : C.Valid) (gs : ℕ → Nega N ℤ) (st : KG C) (sk : SKey C) {crs : GoMap ℤ (Swk C)} (hcrs : CrsLen C crs)
    (hd : DefaultIdx N crs) (h5 : 5 ≤ C.logN) {rot : ℤ} (hneg : rot < 0) : ¬ ∃ w, genRotationKey crs gs st rot sk = .ok w := by
  rw [default_rotationKey V gs st sk hcrs hd]
  have hN : (N : ℤ) / 2 = 16 * 2 ^ (C.logN - 5) := by
    have h := V.hN
    obtain ⟨m, hm⟩ : ∃ m, C.logN = m + 5 := ⟨C.logN - 5, by omega⟩
    rw [hm] at h ⊢
    have h2 : (N : ℤ) = 2 * (16 * 2 ^ m) := by rw [h, pow_add]; push_cast; ring
    rw [h2, Nat.add_sub_cancel]; simp
  have hpos : (1 : ℤ) ≤ 2 ^ (C.logN - 5) := one_le_pow₀ (by norm_num)
  rintro (h | ⟨i, h, _⟩ | ⟨h4, _, hc⟩)
  · omega
  · have : (0 : ℤ) < 2 ^ i := by positivity
    omega
  · have hm : rot % ((N : ℤ) / 2) = rot + (N : ℤ) / 2 := by
      rw [← Int.add_emod_right, Int.emod_eq_of_lt (by omega) (by omega)]
    rw [hm, hN] at hc
    rcases hc with hc | ⟨i, hc⟩
    · omega
    · have hi : 4 ≤ i → False := by
        intro hi
        obtain ⟨j, rfl⟩ : ∃ j, i = j + 4 := ⟨i - 4, by omega⟩
        have e : (2 : ℤ) ^ (j + 4) = 16 * 2 ^ j := by rw [pow_add]; norm_num; ring
        rw [e] at hc
        have : rot = 16 * (2 ^ j - 2 ^ (C.logN - 5)) := by linarith
        omega
      have hi' : i < 4 := not_le.mp hi
      have : (2 : ℤ) ^ i ≤ 2 ^ 3 := pow_le_pow_right₀ (by norm_num) (by omega)
      norm_num at this
      omega

/-- `GenKeyPairSparse` fails on every input: it reads the id of a nil key -/
theorem genKeyPairSparse_fails (crs : GoMap ℤ (Swk C)) (gs : ℕ → Nega N ℤ) (st : KG C) (x : Nega N ℤ) :
    genKeyPairSparse crs gs st x = .error .nilDeref := rfl

/-- `GenPublicKey` fails exactly when there is no CRS of index 0 -/
theorem publicKey_outcome (gs : ℕ → Nega N ℤ) (st : KG C) (sk : SKey C) {crs : GoMap ℤ (Swk C)} (hcrs : CrsLen C crs)
    (hb : 0 < C.beta (C.nQ - 1)) : (∃ w, genPublicKey crs gs st sk = .ok w) ↔ (0 : ℤ) ∈ crs := by
  unfold genPublicKey
  dsimp only
  cases h : crs.lookup (0 : ℤ) with
  | none =>
    rw [GoMap.deref_none h]
    constructor
    · rintro ⟨w, hw⟩; cases hw
    · intro hm; exact absurd hm (AList.lookup_eq_none.mp h)
  | some a =>
    rw [GoMap.deref_ok h, bind_ok, if_neg (by have := hcrs _ _ h; omega)]
    exact ⟨fun _ => GoMap.mem_iff_lookup.mpr (by rw [h]; rfl), fun _ => ⟨_, rfl⟩⟩

/-- `GenConjugationKey` fails exactly when there is no CRS of index -2 -/
theorem conjugationKey_outcome (gs : ℕ → Nega N ℤ) (st : KG C) (sk : SKey C) {crs : GoMap ℤ (Swk C)} (hcrs : CrsLen C crs) :
    (∃ w, genConjugationKey crs gs st sk = .ok w) ↔ (-2 : ℤ) ∈ crs := by
  unfold genConjugationKey
  dsimp only
  obtain ⟨w, st', e1, e2⟩ := genSwitchingKey_total gs st (permKey (galElRow N) sk) (swk := Swk.new) (le_refl _)
  rw [e1, bind_ok]
  cases h : crs.lookup (-2 : ℤ) with
  | none =>
    rw [GoMap.deref_none h]
    constructor
    · rintro ⟨w, hw⟩; cases hw
    · intro hm; exact absurd hm (AList.lookup_eq_none.mp h)
  | some a =>
    obtain ⟨v, v1, v2, v3⟩ := mapBlocks_ok (fun a d => qpMulSub (C.nQ - 1) a sk.value d) (hcrs _ _ h) (swk := w) (by rw [e2]; exact le_refl _)
    rw [GoMap.deref_ok h, bind_ok, v1, bind_ok]
    exact ⟨fun _ => GoMap.mem_iff_lookup.mpr (by rw [h]; rfl), fun _ => ⟨_, rfl⟩⟩

end MKHE.C16

namespace MKHE

theorem RotKeySet.get_add {K : Type*} (idOf : K → String) (idxOf : K → ℕ) (s : RotKeySet K) (k : K) (i : String) (n : ℕ) :
    (s.add idOf idxOf k).get i n = if i = idOf k ∧ n = idxOf k then .ok k else s.get i n := by
  unfold RotKeySet.add
  cases hh : s.value.lookup (idOf k) with
  | some inner =>
    simp only [hh]
    unfold RotKeySet.get
    by_cases hi : i = idOf k
    · subst hi
      simp only [GoMap.lookup_insert', if_true]
      by_cases hn : n = idxOf k
      · simp [hn]
      · simp [hn, hh]
    · simp [hi]
  | none =>
    simp only [GoMap.lookup_insert', if_true]
    unfold RotKeySet.get
    by_cases hi : i = idOf k
    · subst hi
      simp only [GoMap.lookup_insert', if_true, true_and, hh]
      by_cases hn : n = idxOf k
      · simp only [hn, if_true]
      · simp only [hn, if_false]; rfl
    · simp only [GoMap.lookup_insert', hi, false_and, if_false]

end MKHE

namespace MKHE.C16
open Finset Nega
variable {N : ℕ} [NeZero N] {C : Ctx N}

/-- the rotation key for amount `r` of a party with secret `s`: present in the set and satisfying the key equation of C15 -/
def HasRotKey (C : Ctx N) (crs : GoMap ℤ (Swk C)) (B : ℤ) (set : RotKeySet (GalKey C)) (id : String) (s : Nega N ℤ) (r : ℕ) : Prop :=
  ∃ key a, set.get id r = .ok key ∧ crs.lookup (r : ℤ) = some a ∧ C.beta (C.nQ - 1) ≤ a.len ∧ key.id = id ∧ key.rotIdx = r ∧
    C.beta (C.nQ - 1) ≤ key.value.len ∧
    KeyRel C (C.beta (C.nQ - 1)) (galois (galElInv N (galElCol N r)) s) a.val s B key.value.val

theorem defaultRotLoop_ok (V : C.Valid) {B : ℤ} (hB : C.SmallBound B) {gs : ℕ → Nega N ℤ} (hg : ∀ n, Bdd (gs n) B)
    {sk : SKey C} {s : Nega N ℤ} (hs : sk.Is s) {crs : GoMap ℤ (Swk C)} (hcrs : CrsLen C crs) (hd : HasDefault N crs) (fuel : ℕ) :
    ∀ (i : ℕ) (set : RotKeySet (GalKey C)) (st : KG C), N / 2 ≤ 2 ^ (i + fuel) →
    ∃ set' st', defaultRotLoop crs gs sk fuel (2 ^ i) set st = .ok (set', st') ∧
      (∀ j, i ≤ j → 2 ^ j < N / 2 → HasRotKey C crs B set' sk.id s (2 ^ j)) ∧
      ∀ id k, ¬ (id = sk.id ∧ ∃ j, i ≤ j ∧ k = 2 ^ j ∧ 2 ^ j < N / 2) → set'.get id k = set.get id k := by
  induction fuel with
  | zero =>
    intro i set st h
    refine ⟨set, st, rfl, fun j hij hj => ?_, fun _ _ _ => rfl⟩
    have : 2 ^ i ≤ 2 ^ j := Nat.pow_le_pow_right (by norm_num) hij
    rw [Nat.add_zero] at h; omega
  | succ n ih =>
    intro i set st h
    unfold defaultRotLoop
    by_cases hlt : 2 ^ i < N / 2
    · rw [if_pos hlt]
      have hmem := hd i hlt
      have hcast : (((2 ^ i : ℕ) : ℤ)) = (2 : ℤ) ^ i := by push_cast; rfl
      obtain ⟨a, ha⟩ := Option.isSome_iff_exists.mp (GoMap.mem_iff_lookup.mp hmem)
      obtain ⟨rk, st1, e1, e2, e3, e4, e5⟩ := C15.rotationKey V hB hg st hs (crs := crs) (a := a) (rot := ((2 ^ i : ℕ) : ℤ)) (r := 2 ^ i)
        (by rw [hcast]; exact hmem) (adjustIdx_nonneg (by positivity)) (by rw [hcast]; exact ha) (hcrs _ _ ha)
      rw [e1, bind_ok]
      dsimp only
      rw [show 2 * 2 ^ i = 2 ^ (i + 1) by rw [pow_succ]; ring]
      obtain ⟨set', st', f1, f2, f3⟩ := ih (i + 1) (set.add GalKey.id GalKey.rotIdx rk) st1 (by rw [show i + 1 + n = i + (n + 1) by omega]; exact h)
      refine ⟨set', st', f1, fun j hij hj => ?_, fun id k hne => ?_⟩
      · rcases Nat.eq_or_lt_of_le hij with e | e
        · subst e
          refine ⟨rk, a, ?_, by rw [hcast]; exact ha, hcrs _ _ ha, e2, e3, by omega, e5.rel (le_refl _) fun _ _ => hg _⟩
          rw [f3 _ _ (by
            rintro ⟨_, j, h1, h2, _⟩
            have := Nat.pow_right_injective (le_refl 2) h2
            omega), RotKeySet.get_add, if_pos ⟨e2.symm, e3.symm⟩]
        · exact f2 j (by omega) hj
      · rw [f3 _ _ (by rintro ⟨h1, j, h2, h3⟩; exact hne ⟨h1, j, by omega, h3⟩), RotKeySet.get_add, if_neg]
        rintro ⟨h1, h2⟩
        exact hne ⟨by rw [h1, e2], i, le_refl _, by rw [h2, e3], hlt⟩
    · rw [if_neg hlt]
      refine ⟨set, st, rfl, fun j hij hj => ?_, fun _ _ _ => rfl⟩
      have : 2 ^ i ≤ 2 ^ j := Nat.pow_le_pow_right (by norm_num) hij
      omega

/-- **C16, default rotation keys.** If the default CRS indices are present, `GenDefaultRotationKeys(sk, set)` succeeds; afterwards the set has
for every power of two below `N/2` a key of this owner satisfying the equation of C15, and every other entry is unchanged. -/
theorem defaultRotationKeys (V : C.Valid) {B : ℤ} (hB : C.SmallBound B) {gs : ℕ → Nega N ℤ} (hg : ∀ n, Bdd (gs n) B)
    {sk : SKey C} {s : Nega N ℤ} (hs : sk.Is s) {crs : GoMap ℤ (Swk C)} (hcrs : CrsLen C crs) (hd : HasDefault N crs)
    (set : RotKeySet (GalKey C)) (st : KG C) :
    ∃ set' st', genDefaultRotationKeys crs gs st sk set = .ok (set', st') ∧
      (∀ j, 2 ^ j < N / 2 → HasRotKey C crs B set' sk.id s (2 ^ j)) ∧
      ∀ id k, ¬ (id = sk.id ∧ ∃ j, k = 2 ^ j ∧ 2 ^ j < N / 2) → set'.get id k = set.get id k := by
  obtain ⟨set', st', e1, e2, e3⟩ := defaultRotLoop_ok V hB hg hs hcrs hd N 0 set st
    (by rw [Nat.zero_add]; exact le_trans (Nat.div_le_self _ _) (Nat.lt_two_pow_self).le)
  exact ⟨set', st', e1, fun j hj => e2 j (Nat.zero_le _) hj, fun id k h => e3 id k (by rintro ⟨h1, j, _, h2⟩; exact h ⟨h1, j, h2⟩)⟩

/-- a set with the default keys of all parties of `ids` serves every rotation amount (the hypothesis of C35) -/
theorem hasKeys_of_default (V : C.Valid) {B Sb : ℤ} {s : String → Nega N ℤ} (hsb : ∀ id, Bdd (s id) Sb) {crs : GoMap ℤ (Swk C)} (hcrs : CrsLen C crs)
    (hd : DefaultIdx N crs) {set' : RotKeySet (GalKey C)} {ids : Finset String}
    (e2 : ∀ id ∈ ids, ∀ j, 2 ^ j < N / 2 → HasRotKey C crs B set' id (s id) (2 ^ j)) {level : ℕ} (hl : level < C.nQ) (r : ℕ) :
    C35.HasKeys crs level ids r set' s Sb B := by
  have hd' : HasDefault N crs := fun i hi => (hd _).mpr (.inr (.inr (.inr (.inr (.inr ⟨i, rfl, by
    have h2 : ((2 ^ i : ℕ) : ℤ) < ((N / 2 : ℕ) : ℤ) := by exact_mod_cast hi
    push_cast at h2; exact h2⟩)))))
  have hb : C.beta level ≤ C.beta (C.nQ - 1) := V.beta_mono (by omega) (by omega)
  have main : ∀ j, 2 ^ j < N / 2 → C33.Keys crs level ids (2 ^ j) set' s Sb B := by
    intro j hj
    obtain ⟨a, ha⟩ := Option.isSome_iff_exists.mp (GoMap.mem_iff_lookup.mp (hd' j hj))
    have hcast : (((2 ^ j : ℕ) : ℤ)) = (2 : ℤ) ^ j := by push_cast; rfl
    refine ⟨⟨a, by rw [hcast]; exact ha, le_trans hb (hcrs _ _ ha), fun id hid => ?_⟩, fun id _ => hsb id⟩
    obtain ⟨key, a', g1, g2, _, _, _, g3, e, g4⟩ := e2 id hid j hj
    rw [hcast, ha] at g2
    injection g2 with g2
    subst g2
    exact ⟨key, g1, by omega, e, fun k hk => g4 k (by omega)⟩
  refine ⟨main, fun h h0 => ?_⟩
  rcases (hd _).mp (GoMap.mem_iff_lookup.mpr h) with h | h | h | h | h | ⟨i, h1, h2⟩
  · exact absurd (by exact_mod_cast h) h0
  · omega
  · omega
  · omega
  · omega
  · have hri : r = 2 ^ i := by exact_mod_cast h1
    subst hri
    exact main i (by omega)

/-- All parties call `GenDefaultRotationKeys` in turn: the resulting set serves every rotation amount (the hypothesis of C35). -/
theorem all_parties_hasKeys (V : C.Valid) {B Sb : ℤ} (hB : C.SmallBound B) {gs : ℕ → Nega N ℤ} (hg : ∀ n, Bdd (gs n) B)
    {s : String → Nega N ℤ} (hsb : ∀ id, Bdd (s id) Sb) {crs : GoMap ℤ (Swk C)} (hcrs : CrsLen C crs) (hd : DefaultIdx N crs)
    (sks : List (SKey C)) (hs : ∀ sk ∈ sks, sk.Is (s sk.id)) (set : RotKeySet (GalKey C)) (st : KG C) :
    ∃ set' st', Go.loop (fun (w : RotKeySet (GalKey C) × KG C) sk => genDefaultRotationKeys crs gs w.2 sk w.1) (set, st) sks = .ok (set', st') ∧
      ∀ (level : ℕ) (ids : Finset String) (r : ℕ), level < C.nQ → (∀ id ∈ ids, ∃ sk ∈ sks, sk.id = id) →
        C35.HasKeys crs level ids r set' s Sb B := by
  have hd' : HasDefault N crs := fun i hi => (hd _).mpr (.inr (.inr (.inr (.inr (.inr ⟨i, rfl, by
    have h2 : ((2 ^ i : ℕ) : ℤ) < ((N / 2 : ℕ) : ℤ) := by exact_mod_cast hi
    push_cast at h2; exact h2⟩)))))
  obtain ⟨⟨set', st'⟩, e1, e2⟩ := Go.loop_inv (fun (w : RotKeySet (GalKey C) × KG C) sk => genDefaultRotationKeys crs gs w.2 sk w.1)
    (fun pre w => ∀ sk ∈ pre, ∀ j, 2 ^ j < N / 2 → HasRotKey C crs B w.1 sk.id (s sk.id) (2 ^ j)) sks (set, st) (by simp) (by
      rintro pre sk suf ⟨w, st1⟩ hl ih
      have hsk := hs sk (by rw [hl]; simp)
      obtain ⟨w', st2, f1, f2, f3⟩ := defaultRotationKeys V hB hg hsk hcrs hd' w st1
      refine ⟨_, f1, fun sk' hk j hj => ?_⟩
      by_cases e : sk'.id = sk.id
      · rw [e]; exact f2 j hj
      · have hk' : sk' ∈ pre := by
          rcases List.mem_append.mp hk with h | h
          · exact h
          · rw [List.mem_singleton.mp h] at e; exact absurd rfl e
        obtain ⟨key, a, g1, g2⟩ := ih sk' hk' j hj
        exact ⟨key, a, by rw [f3 _ _ (fun h => e h.1)]; exact g1, g2⟩)
  refine ⟨set', st', e1, fun level ids r hl hids => hasKeys_of_default V hsb hcrs hd (fun id hid j hj => ?_) hl r⟩
  obtain ⟨sk, hsk, rfl⟩ := hids id hid
  exact e2 sk hsk j hj

/-- `GenRelinearizationKey` fails exactly when P is empty or one of the CRS 0 and -1 is missing -/
theorem relinearizationKey_outcome (V : C.Valid) {B : ℤ} (hB : C.SmallBound B) {gs : ℕ → Nega N ℤ} (hg : ∀ n, Bdd (gs n) B) (st : KG C)
    {sk rk : SKey C} {s r : Nega N ℤ} (hs : sk.Is s) (hr : rk.Is r) {crs : GoMap ℤ (Swk C)} (hcrs : CrsLen C crs) :
    (∃ w, genRelinearizationKey crs gs st sk rk = .ok w) ↔ (0 : ℤ) ∈ crs ∧ (-1 : ℤ) ∈ crs := by
  constructor
  · rintro ⟨w, hw⟩
    have h0 : (0 : ℤ) ∈ crs := by
      by_contra h
      unfold genRelinearizationKey at hw
      rw [if_neg (by have := V.alpha_pos; intro h; unfold Ctx.alpha Ctx.dims Dims.alpha at this; simp [h] at this),
        GoMap.deref_none (AList.lookup_eq_none.mpr h)] at hw
      cases hw
    refine ⟨h0, ?_⟩
    by_contra h
    unfold genRelinearizationKey at hw
    rw [if_neg (by have := V.alpha_pos; intro h; unfold Ctx.alpha Ctx.dims Dims.alpha at this; simp [h] at this)] at hw
    obtain ⟨a, ha⟩ := Option.isSome_iff_exists.mp (GoMap.mem_iff_lookup.mp h0)
    rw [GoMap.deref_ok ha, bind_ok] at hw
    generalize (Go.loop _ _ _ : Go (Swk C × KG C)) = x1 at hw
    cases x1 with
    | error e => cases hw
    | ok b =>
      rw [bind_ok] at hw
      obtain ⟨d, st2, d1, d2⟩ := genSwitchingKey_total gs b.2 sk (swk := Swk.new) (le_refl _)
      rw [d1, bind_ok] at hw
      obtain ⟨dv, f1, f2, f3⟩ := mapBlocks_ok (fun a d => qpMulSub (C.nQ - 1) a rk.value d) (hcrs _ _ ha) (swk := d) (by rw [d2]; exact le_refl _)
      rw [f1, bind_ok] at hw
      obtain ⟨v, st3, v1, v2⟩ := genSwitchingKey_total gs st2 rk (swk := Swk.new) (le_refl _)
      rw [v1, bind_ok, GoMap.deref_none (AList.lookup_eq_none.mpr h)] at hw
      cases hw
  · rintro ⟨h0, h1⟩
    obtain ⟨a, ha⟩ := Option.isSome_iff_exists.mp (GoMap.mem_iff_lookup.mp h0)
    obtain ⟨u, hu⟩ := Option.isSome_iff_exists.mp (GoMap.mem_iff_lookup.mp h1)
    obtain ⟨rlk, st', e, _⟩ := C14.relinearizationKey V hB hg st hs hr ha hu (hcrs _ _ ha) (hcrs _ _ hu)
    exact ⟨_, e⟩

/-! ### the CRS of `NewParameters` -/

/-- the CRS map of C11 (lists of components) as a map of switching keys -/
noncomputable def crsOf (c : CrsState (PolyQP C)) : GoMap ℤ (Swk C) :=
  ⟨c.crs.entries.map (.map id fun _ (l : SwkList (PolyQP C)) => ⟨l.length, fun k => l.getD k PolyQP.zero⟩), by
    unfold List.NodupKeys List.keys
    rw [List.map_map]
    exact c.crs.nodupKeys⟩

theorem crsOf_lookup (c : CrsState (PolyQP C)) (k : ℤ) : (crsOf c).lookup k =
    (c.crs.lookup k).map fun l => ⟨l.length, fun k => l.getD k PolyQP.zero⟩ := List.dlookup_map₂ k

/-- after `NewParameters`, the hypotheses of this file on the CRS hold -/
theorem newCrs_default (V : C.Valid) (rand : ℕ → PolyQP C) (mform : PolyQP C → PolyQP C) :
    CrsLen C (crsOf (newCrs rand mform C.fm C.dims)) ∧ DefaultIdx N (crsOf (newCrs rand mform C.fm C.dims)) := by
  obtain ⟨h1, ⟨pos, -, h2⟩, -⟩ := C10.crs_indices rand mform C.fm C.dims V.q1 V.log1
  refine ⟨fun k a ha => ?_, fun k => ?_⟩
  · rw [crsOf_lookup] at ha
    cases hl : (newCrs rand mform C.fm C.dims).crs.lookup k with
    | none => rw [hl] at ha; cases ha
    | some l =>
      rw [hl] at ha
      have hm : k ∈ (newCrs rand mform C.fm C.dims).crs := GoMap.mem_iff_lookup.mpr (by rw [hl]; rfl)
      have hk := h2 k hm
      rw [hl] at hk
      injection hk with hk
      injection ha with ha
      subst ha
      dsimp only
      rw [hk, List.length_map, List.length_range]
      exact le_refl _
  · rw [GoMap.mem_iff_lookup, crsOf_lookup, Option.isSome_map, ← GoMap.mem_iff_lookup, h1]
    rw [show (C.dims.N : ℤ) = (N : ℤ) from congrArg Nat.cast V.hN.symm]

end MKHE.C16

/-! ## Concrete instances -/
namespace MKHE.Ex
open MKHE Finset Nega
variable (fm : FloatModel)

theorem small : (ctx fm).SmallBound 2 where
  q0 := by show (2 * 2 : ℤ) < ((exq 0 : ℕ) : ℤ); simp [exq]
  p := fun j hj => by show (2 : ℤ) ≤ ((exp j : ℕ) : ℤ); unfold exp; split_ifs <;> norm_num

/-- a key generator with stale pools, in the middle of its error stream -/
noncomputable def kg : KG (ctx fm) := ⟨5, fun _ => row _ 8, crsv fm 6 1⟩

/-- the secret key of a party -/
noncomputable def skey (id : String) : SKey (ctx fm) := genSecretKey (sec id) id
/-- the second secret key of a party -/
noncomputable def skey' (id : String) : SKey (ctx fm) := genSecretKey (sec' id) id

theorem skey_is (id : String) : (skey fm id).Is (sec id) := genSecretKey_is (valid fm) (small fm) ((sec_bdd id).mono (by norm_num)) id
theorem skey'_is (id : String) : (skey' fm id).Is (sec' id) := genSecretKey_is (valid fm) (small fm) ((sec'_bdd id).mono (by norm_num)) id

theorem crsLen : CrsLen (ctx fm) (crs fm) := by
  intro k a h
  change (ctx fm).beta 2 ≤ a.len
  rw [beta_two]
  unfold crs at h
  simp only [GoMap.lookup_insert'] at h
  split_ifs at h <;> first | (injection h with h; subst h; exact le_refl _) | cases h

theorem crs_0 : (crs fm).lookup 0 = some ⟨2, crsv fm 5⟩ := by
  unfold crs; simp only [GoMap.lookup_insert']; simp

/-- C12 for a concrete key -/
example := C12.publicKey (valid fm) (small fm) err_bdd (kg fm) (skey_is fm "a") (crs_0 fm) (by norm_num)
/-- C13 for a concrete key, into a switching key full of stale words -/
example := C13.switchingKey (valid fm) (small fm) err_bdd (kg fm) (skey_is fm "a") (swk := ⟨2, crsv fm 3⟩) (beta_two fm).le
/-- C14 for concrete keys -/
example := C14.relinearizationKey (valid fm) (small fm) err_bdd (kg fm) (skey_is fm "a") (skey'_is fm "a") (crs_0 fm) (crs_u fm)
  (beta_two fm).le (beta_two fm).le
/-- C15: the rotation index `-4`, normalised to 4; the raw index must have a CRS too -/
example (a : Swk (ctx fm)) := C15.rotationKey (valid fm) (small fm) err_bdd (kg fm) (skey_is fm "b")
  (crs := (crs fm).insert (-4) a) (a := ⟨2, crsv fm 17⟩) (rot := -4) (r := 4)
  (GoMap.mem_iff_lookup.mpr (by rw [GoMap.lookup_insert']; rfl)) (by decide)
  (by rw [GoMap.lookup_insert', if_neg (by decide)]; unfold crs; simp only [GoMap.lookup_insert']; simp) (beta_two fm).le
/-- C16: the index 3 has no CRS -/
example : genRotationKey (crs fm) err (kg fm) 3 (skey fm "a") = .error (.panic "Cannot GenRotationKey: CRS for given rot idx is not generated") := by
  refine (C16.rotationKey_outcome err (kg fm) (skey fm "a") (crsLen fm) 3).1 ?_
  rw [GoMap.mem_iff_lookup]; unfold crs; simp only [GoMap.lookup_insert']; simp

/-- two parties generate their default keys with the CRS of `NewParameters`: the set serves every rotation -/
example (rand : ℕ → PolyQP (ctx fm)) (mform : PolyQP (ctx fm) → PolyQP (ctx fm)) :=
  C16.all_parties_hasKeys (valid fm) (small fm) err_bdd sec_bdd (C16.newCrs_default (valid fm) rand mform).1
    (C16.newCrs_default (valid fm) rand mform).2 [skey fm "a", skey fm "b"] (by
      intro sk h
      rcases List.mem_cons.mp h with rfl | h
      · exact skey_is fm "a"
      · rw [List.mem_singleton.mp h]; exact skey_is fm "b") RotKeySet.new (kg fm)

end MKHE.Ex
