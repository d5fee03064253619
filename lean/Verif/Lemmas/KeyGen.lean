import Verif.Model.KeyGen
import Verif.Lemmas.Noise
import Verif.Lemmas.Permute

set_option autoImplicit false

/-!
# Key generation: what each step computes
-/

namespace MKHE
open Finset Nega

variable {N : ℕ} [NeZero N] {C : Ctx N}

/-- a sampler bound below half of the first prime of Q and below every prime of P -/
structure Ctx.SmallBound (C : Ctx N) (B : ℤ) : Prop where
  q0 : 2 * B < C.q 0
  p : ∀ j < C.nP, B ≤ C.p j

/-- the secret key object represents the polynomial `s`, in NTT and Montgomery form, modulo every prime -/
structure SKey.Is (sk : SKey C) (s : Nega N ℤ) : Prop where
  q : ∀ i < C.nQ, (C.RQ i).mv (sk.value.Q i) = red (C.q i) s
  p : ∀ j < C.nP, (C.RP j).mv (sk.value.P j) = red (C.p j) s

/-- an NTT-form polynomial of QP represents the integer polynomial `x` modulo every prime -/
structure PolyQP.Is (v : PolyQP C) (x : Nega N ℤ) : Prop where
  q : ∀ i < C.nQ, (C.RQ i).ev (v.Q i) = red (C.q i) x
  p : ∀ j < C.nP, (C.RP j).ev (v.P j) = red (C.p j) x

theorem toWord_le {q n : ℕ} (h : n ≤ q) : (toWord q n).val = n := min_eq_left h

theorem smallRow_cf {q : ℕ} (hq : 0 < q) (x : Nega N ℤ) : cf (smallRow q x) = red q x := by
  apply Nega.ext; intro t
  rw [red_apply]
  show ((toWord q (x t % (q : ℤ)).toNat).val : ZMod q) = _
  have h0 : 0 ≤ x t % (q : ℤ) := Int.emod_nonneg _ (by exact_mod_cast hq.ne')
  have h1 : x t % (q : ℤ) < q := Int.emod_lt_of_pos _ (by exact_mod_cast hq)
  rw [toWord_le (by omega)]
  have : (((x t % (q : ℤ)).toNat : ℕ) : ZMod q) = ((x t % (q : ℤ) : ℤ) : ZMod q) := by
    rw [← Int.cast_natCast, Int.toNat_of_nonneg h0]
  rw [this, ZMod.intCast_mod]

theorem smallRow_canon {q : ℕ} (hq : 0 < q) (x : Nega N ℤ) : (smallRow q x).Canon := fun t => by
  show (toWord q (x t % (q : ℤ)).toNat).val < q
  have h0 : 0 ≤ x t % (q : ℤ) := Int.emod_nonneg _ (by exact_mod_cast hq.ne')
  have h1 : x t % (q : ℤ) < q := Int.emod_lt_of_pos _ (by exact_mod_cast hq)
  rw [toWord_le (by omega)]; omega

theorem extendSmall_cf {B : ℤ} (hB : C.SmallBound B) {x : Nega N ℤ} (hx : Bdd x B) {j : ℕ} (hj : j < C.nP) :
    cf (extendSmall (smallRows (C := C) x 0) j) = red (C.p j) x := by
  apply Nega.ext; intro t
  rw [red_apply]
  have hq := hB.q0
  have hp := hB.p j hj
  have hb := abs_le.mp (hx t)
  have hq0 : (0 : ℤ) < C.q 0 := by have := hx.nonneg; linarith
  show (((extendSmall (smallRows (C := C) x 0) j) t).val : ZMod (C.p j)) = _
  have hval : ((smallRows (C := C) x 0 t).val : ℤ) = x t % (C.q 0 : ℤ) := by
    show ((toWord (C.q 0) (x t % (C.q 0 : ℤ)).toNat).val : ℤ) = _
    have h0 : 0 ≤ x t % (C.q 0 : ℤ) := Int.emod_nonneg _ (by omega)
    have h1 : x t % (C.q 0 : ℤ) < C.q 0 := Int.emod_lt_of_pos _ (by omega)
    rw [toWord_le (by omega)]; omega
  unfold extendSmall
  by_cases hneg : x t < 0
  · have hv : x t % (C.q 0 : ℤ) = x t + C.q 0 := by
      rw [← Int.add_emod_right, Int.emod_eq_of_lt (by omega) (by omega)]
    rw [hv] at hval
    rw [if_pos (by omega), toWord_le (by omega)]
    have : ((C.p j - (C.q 0 - (smallRows (C := C) x 0 t).val) : ℕ) : ℤ) = C.p j + x t := by omega
    rw [← Int.cast_natCast, this]; simp
  · have hv : x t % (C.q 0 : ℤ) = x t := Int.emod_eq_of_lt (by omega) (by omega)
    rw [hv] at hval
    rw [if_neg (by omega), toWord_le (by omega), ← Int.cast_natCast, hval]

section
variable (V : C.Valid)
include V

theorem Ctx.Valid.qpos {i : ℕ} (hi : i < C.nQ) : 0 < C.q i := (V.pair.primeQ i hi).pos

theorem setQ_top (new old : QRows C) {i : ℕ} (hi : i < C.nQ) : setQ (C.nQ - 1) new old i = new i := setQ_le _ _ (by omega)

omit V in
theorem setP_top (new old : PRows C) {j : ℕ} (hj : j < C.nP) : setP C.nP new old j = new j := by unfold setP; rw [if_pos hj]

/-- sampling and NTT -/
theorem sampleNTT_is {B : ℤ} (hB : C.SmallBound B) {x : Nega N ℤ} (hx : Bdd x B) (old : PolyQP C) :
    (qpNTT (C.nQ - 1) (sampleQP x old) (sampleQP x old)).Is x := by
  refine ⟨fun i hi => ?_, fun j hj => ?_⟩
  · show (C.RQ i).ev (setQ (C.nQ - 1) _ _ i) = _
    rw [setQ_top V _ _ hi, LimbOps.ev_ntt]
    show cf (setQ (C.nQ - 1) _ _ i) = _
    rw [setQ_top V _ _ hi]
    exact smallRow_cf (V.qpos hi) x
  · show (C.RP j).ev (setP C.nP _ _ j) = _
    rw [setP_top _ _ hj, LimbOps.ev_ntt]
    show cf (setP C.nP _ _ j) = _
    rw [setP_top _ _ hj]
    exact extendSmall_cf hB hx hj

theorem genSecretKey_is {B : ℤ} (hB : C.SmallBound B) {x : Nega N ℤ} (hx : Bdd x B) (id : String) :
    (genSecretKeyFromSampler (C := C) x id).Is x := by
  have h := sampleNTT_is V hB hx (PolyQP.zero : PolyQP C)
  refine ⟨fun i hi => ?_, fun j hj => ?_⟩
  · show (C.RQ i).mv (setQ (C.nQ - 1) _ _ i) = _
    rw [setQ_top V _ _ hi]
    unfold LimbOps.mv
    rw [LimbOps.ev_mform, mul_assoc, LimbOps.mul_rinv, mul_one]
    exact h.q i hi
  · show (C.RP j).mv (setP C.nP _ _ j) = _
    rw [setP_top _ _ hj]
    unfold LimbOps.mv
    rw [LimbOps.ev_mform, mul_assoc, LimbOps.mul_rinv, mul_one]
    exact h.p j hj

omit V in
theorem addRow_res {q : ℕ} {a b : Limb N q} (ha : a.Canon) : (addRow q a b).res = a.res + b.res := by
  funext t
  have h1 := ha t
  have h2 := (b t).le
  show ((addRow q a b t).val : ZMod q) = ((a t).val : ZMod q) + ((b t).val : ZMod q)
  unfold addRow
  split_ifs with h
  · rw [toWord_le (by omega), Nat.cast_sub h, ZMod.natCast_self]; push_cast; ring
  · rw [toWord_le (by omega)]; push_cast; ring

omit V in
/-- the loop with its early exit adds the scaled secret to exactly the rows of the block -/
theorem gadgetLoop_eq (i : ℕ) (p0 : QRows C) (n : ℕ) : ∀ (j : ℕ) (p1 : QRows C) (l : ℕ), l < C.nQ →
    gadgetLoop i p0 n j p1 l = if i * C.alpha + j ≤ l ∧ l < i * C.alpha + j + n then addRow _ (p1 l) (p0 l) else p1 l := by
  induction n with
  | zero => intro j p1 l _; unfold gadgetLoop; rw [if_neg (by omega)]
  | succ n ih =>
    intro j p1 l hl
    unfold gadgetLoop
    split_ifs with h1 h2
    · omega
    · rfl
    · rw [ih _ _ _ hl]
      by_cases e : l = i * C.alpha + j
      · subst e; rw [if_neg (by omega), Function.update_self]
      · rw [if_pos (by omega), Function.update_of_ne e]
    · rw [ih _ _ _ hl, if_neg (by omega), Function.update_of_ne (by omega)]

/-- one block: `mv = P g_k m + x` -/
theorem genSwkBlock_eq {B : ℤ} (hB : C.SmallBound B) {x : Nega N ℤ} (hx : Bdd x B) {sk : SKey C} {s : Nega N ℤ} (hs : sk.Is s)
    {poolQ : QRows C} (hpool : ∀ i < C.nQ, poolQ i = (C.RQ i).mulScalar C.P (sk.value.Q i)) (k : ℕ) (old : PolyQP C) :
    (∀ i < C.nQ, (C.RQ i).mv ((genSwkBlock x poolQ k old).Q i) = C.gad k i * red (C.q i) s + red (C.q i) x) ∧
    ∀ j < C.nP, (C.RP j).mv ((genSwkBlock x poolQ k old).P j) = red (C.p j) x := by
  have h := sampleNTT_is V hB hx old
  have hα := V.alpha_pos
  refine ⟨fun i hi => ?_, fun j hj => ?_⟩
  · set v0 := qpNTT (C.nQ - 1) (sampleQP x old) (sampleQP x old) with hv0
    have hrow : (genSwkBlock x poolQ k old).Q i = gadgetLoop k poolQ C.alpha 0 (qpMForm (C.nQ - 1) v0 v0).Q i := rfl
    have hm : (qpMForm (C.nQ - 1) v0 v0).Q i = (C.RQ i).mform (v0.Q i) := setQ_top V _ _ hi
    have hmv : (C.RQ i).mv ((C.RQ i).mform (v0.Q i)) = red (C.q i) x := by
      unfold LimbOps.mv
      rw [LimbOps.ev_mform, mul_assoc, LimbOps.mul_rinv, mul_one, h.q i hi]
    rw [hrow, gadgetLoop_eq k poolQ C.alpha 0 _ i hi, hm]
    unfold Ctx.gad
    have hiff : (k * C.alpha + 0 ≤ i ∧ i < k * C.alpha + 0 + C.alpha) ↔ i / C.alpha = k := by
      rw [Nat.div_eq_iff hα]
      constructor
      · rintro ⟨a, b⟩; omega
      · rintro ⟨a, b⟩; omega
    by_cases hk : i / C.alpha = k
    · rw [if_pos (hiff.mpr hk), if_pos hk]
      unfold LimbOps.mv LimbOps.ev
      rw [addRow_res ((C.RQ i).mform_canon _), map_add, add_mul, hpool i hi]
      have h2 : (C.RQ i).F.symm ((C.RQ i).mulScalar C.P (sk.value.Q i)).res * (C.RQ i).rinv = (C.P : Nega N (ZMod (C.q i))) * red (C.q i) s := by
        have := hs.q i hi
        unfold LimbOps.mv at this
        rw [show (C.RQ i).F.symm ((C.RQ i).mulScalar C.P (sk.value.Q i)).res = (C.RQ i).ev ((C.RQ i).mulScalar C.P (sk.value.Q i)) from rfl,
          LimbOps.ev_mulScalar, mul_assoc, this]
      rw [h2]
      unfold LimbOps.mv LimbOps.ev at hmv
      rw [hmv]; ring
    · rw [if_neg (fun hh => hk (hiff.mp hh)), if_neg hk, hmv]; ring
  · show (C.RP j).mv (setP C.nP _ _ j) = _
    rw [setP_top _ _ hj]
    unfold LimbOps.mv
    rw [LimbOps.ev_mform, mul_assoc, LimbOps.mul_rinv, mul_one, h.p j hj]

/-- `GenSwitchingKey` -/
theorem genSwitchingKey_ok {B : ℤ} (hB : C.SmallBound B) {gs : ℕ → Nega N ℤ} (hg : ∀ n, Bdd (gs n) B) (st : KG C) {sk : SKey C}
    {s : Nega N ℤ} (hs : sk.Is s) {swk : Swk C} (hlen : C.beta (C.nQ - 1) ≤ swk.len) :
    ∃ w st', genSwitchingKey gs st sk swk = .ok (w, st') ∧ w.len = swk.len ∧ st'.pos = st.pos + C.beta (C.nQ - 1) ∧
      ∀ k < C.beta (C.nQ - 1), (∀ i < C.nQ, (C.RQ i).mv ((w.val k).Q i) = C.gad k i * red (C.q i) s + red (C.q i) (gs (st.pos + k))) ∧
        ∀ j < C.nP, (C.RP j).mv ((w.val k).P j) = red (C.p j) (gs (st.pos + k)) := by
  unfold genSwitchingKey
  set pq : QRows C := setQ (C.nQ - 1) (fun i => (C.RQ i).mulScalar C.P (sk.value.Q i)) st.poolQ with hpq
  obtain ⟨⟨w, st'⟩, e1, e2, e3, e4, e5⟩ := Go.loop_inv (fun (w : Swk C × KG C) i =>
      if w.1.len ≤ i then (.error .indexOutOfRange : Go (Swk C × KG C))
      else .ok (⟨w.1.len, Function.update w.1.val i (genSwkBlock (gs w.2.pos) w.2.poolQ i (w.1.val i))⟩, { w.2 with pos := w.2.pos + 1 }))
    (fun pre w => w.1.len = swk.len ∧ w.2.pos = st.pos + pre.length ∧ w.2.poolQ = pq ∧ ∀ k ∈ pre,
      (∀ i < C.nQ, (C.RQ i).mv ((w.1.val k).Q i) = C.gad k i * red (C.q i) s + red (C.q i) (gs (st.pos + k))) ∧
        ∀ j < C.nP, (C.RP j).mv ((w.1.val k).P j) = red (C.p j) (gs (st.pos + k)))
    (List.range (C.beta (C.nQ - 1))) (swk, { st with poolQ := pq }) ⟨rfl, rfl, rfl, by simp⟩ (by
      rintro pre a suf ⟨w, st1⟩ hl ⟨i1, i2, i3, i4⟩
      have ha : a = pre.length := by
        have := congrArg (fun l => l[pre.length]?) hl
        simp only [List.getElem?_append_right (le_refl _), Nat.sub_self, List.getElem?_cons_zero] at this
        obtain ⟨h1, h2⟩ := List.getElem?_eq_some_iff.mp this
        rw [List.getElem_range] at h2
        exact h2.symm
      have hab : a < C.beta (C.nQ - 1) := List.mem_range.mp (by rw [hl]; simp)
      dsimp only at i1 i2 i3 i4 ⊢
      rw [if_neg (by omega)]
      refine ⟨_, rfl, i1, ?_, i3, fun k hk => ?_⟩
      · show st1.pos + 1 = _; rw [i2]; simp; omega
      · by_cases e : k = a
        · subst e
          dsimp only
          rw [Function.update_self, i2, ← ha]
          exact genSwkBlock_eq V hB (hg _) hs (fun i hi => by rw [i3, hpq, setQ_top V _ _ hi]) k _
        · dsimp only
          rw [Function.update_of_ne e]
          exact i4 k (by simpa [e] using hk))
  dsimp only at e2 e3 e5 ⊢
  rw [List.length_range] at e3
  exact ⟨w, st', e1, e2, e3, fun k hk => e5 k (List.mem_range.mpr hk)⟩

omit V in
theorem mapBlocks_ok (f : PolyQP C → PolyQP C → PolyQP C) {a swk : Swk C} (ha : C.beta (C.nQ - 1) ≤ a.len)
    (hlen : C.beta (C.nQ - 1) ≤ swk.len) : ∃ w, mapBlocks f a swk = .ok w ∧ w.len = swk.len ∧
      ∀ k < C.beta (C.nQ - 1), w.val k = f (a.val k) (swk.val k) := by
  unfold mapBlocks
  obtain ⟨w, e1, e2, e3, e4⟩ := Go.loop_inv (fun (w : Swk C) i =>
      if a.len ≤ i ∨ w.len ≤ i then (.error .indexOutOfRange : Go (Swk C))
      else .ok ⟨w.len, Function.update w.val i (f (a.val i) (w.val i))⟩)
    (fun pre w => w.len = swk.len ∧ (∀ k ∈ pre, w.val k = f (a.val k) (swk.val k)) ∧ ∀ k, k ∉ pre → w.val k = swk.val k)
    (List.range (C.beta (C.nQ - 1))) swk ⟨rfl, by simp, by simp⟩ (by
      rintro pre i suf w hl ⟨i1, i2, i3⟩
      have hab : i < C.beta (C.nQ - 1) := List.mem_range.mp (by rw [hl]; simp)
      have hpre : i ∉ pre := nodup_split List.nodup_range hl
      rw [if_neg (by omega)]
      refine ⟨_, rfl, i1, fun k hk => ?_, fun k hk => ?_⟩
      · by_cases e : k = i
        · subst e
          dsimp only
          rw [Function.update_self, i3 k hpre]
        · dsimp only
          rw [Function.update_of_ne e]
          exact i2 k (by simpa [e] using hk)
      · dsimp only
        rw [Function.update_of_ne (by rintro rfl; simp at hk)]
        exact i3 k (by intro h; exact hk (by simp [h])))
  exact ⟨w, e1, e2, fun k hk => e3 k (List.mem_range.mpr hk)⟩

/-- subtracting `a * s` from a block -/
theorem qpMulSub_mv {sk : SKey C} {s : Nega N ℤ} (hs : sk.Is s) (a d : PolyQP C) :
    (∀ i < C.nQ, (C.RQ i).mv ((qpMulSub (C.nQ - 1) a sk.value d).Q i) =
      (C.RQ i).mv (d.Q i) - red (C.q i) s * (C.RQ i).mv (a.Q i)) ∧
    ∀ j < C.nP, (C.RP j).mv ((qpMulSub (C.nQ - 1) a sk.value d).P j) =
      (C.RP j).mv (d.P j) - red (C.p j) s * (C.RP j).mv (a.P j) := by
  refine ⟨fun i hi => ?_, fun j hj => ?_⟩
  · have := hs.q i hi
    show (C.RQ i).mv (setQ (C.nQ - 1) _ _ i) = _
    rw [setQ_top V _ _ hi, ← this]
    unfold LimbOps.mv
    rw [LimbOps.ev_mulMontSub]; ring
  · have := hs.p j hj
    show (C.RP j).mv (setP C.nP _ _ j) = _
    rw [setP_top _ _ hj, ← this]
    unfold LimbOps.mv
    rw [LimbOps.ev_mulMontSub]; ring

theorem permKey_is {sk : SKey C} {s : Nega N ℤ} (hs : sk.Is s) {g : ℕ} (hg : Odd g) : (permKey g sk).Is (galois g s) := by
  have hr : ∀ {q : ℕ} (L : LimbOps N q), galois g L.rinv = L.rinv := by
    intro q L
    have h1 : galois g (Mont N q) = Mont N q := by
      have h := map_natCast (galoisHom (N := N) (K := ZMod q) g hg) (2 ^ 64)
      exact h
    have h2 : galois g L.rinv * Mont N q = 1 := by
      have h3 := congrArg (galoisHom (K := ZMod q) g hg) (L.rinv_mul)
      rw [map_mul, map_one] at h3
      change galois g L.rinv * galois g (Mont N q) = 1 at h3
      rwa [h1] at h3
    exact L.mont_cancel (by rw [h2, L.rinv_mul])
  refine ⟨fun i hi => ?_, fun j hj => ?_⟩
  · show (C.RQ i).mv (setQ (C.nQ - 1) _ _ i) = _
    rw [setQ_top V _ _ hi]
    unfold LimbOps.mv
    have h1 := hs.q i hi
    unfold LimbOps.mv at h1
    rw [LimbOps.ev_permNTT _ _ hg]
    nth_rewrite 1 [← hr (C.RQ i)]
    have : galois g ((C.RQ i).ev (sk.value.Q i)) * galois g (C.RQ i).rinv = galois g ((C.RQ i).ev (sk.value.Q i) * (C.RQ i).rinv) :=
      (map_mul (galoisHom (K := ZMod (C.q i)) g hg) _ _).symm
    rw [this, h1]
    exact galois_map (Int.castRingHom (ZMod (C.q i))) g s
  · show (C.RP j).mv (setP C.nP _ _ j) = _
    rw [setP_top _ _ hj]
    unfold LimbOps.mv
    have h1 := hs.p j hj
    unfold LimbOps.mv at h1
    rw [LimbOps.ev_permNTT _ _ hg]
    nth_rewrite 1 [← hr (C.RP j)]
    have : galois g ((C.RP j).ev (sk.value.P j)) * galois g (C.RP j).rinv = galois g ((C.RP j).ev (sk.value.P j) * (C.RP j).rinv) :=
      (map_mul (galoisHom (K := ZMod (C.p j)) g hg) _ _).symm
    rw [this, h1]
    exact galois_map (Int.castRingHom (ZMod (C.p j))) g s

end
end MKHE
