import Verif.Model.Setup
import Verif.Props.CkksProg

set_option autoImplicit false

/-!
# C59: the keys that key generation makes are the ones the evaluator needs
-/

namespace MKHE.C59
open Finset Nega

variable {N : ℕ} [NeZero N] {C : Ctx N}

theorem rotLoop_ok (V : C.Valid) {B : ℤ} (hB : C.SmallBound B) {gs : ℕ → Nega N ℤ} (hg : ∀ n, Bdd (gs n) B) {sk : SKey C} {s : Nega N ℤ}
    (hs : sk.Is s) {crs : GoMap ℤ (Swk C)} (hcrs : CrsLen C crs) (rots : List ℤ) (hr : ∀ r ∈ rots, 0 < r ∧ r ∈ crs) (set : RotKeySet (GalKey C)) (st : KG C) :
    ∃ set' st', Go.loop (rotKeyStep crs gs sk) (set, st) rots = .ok (set', st') ∧
      (∀ n : ℕ, (n : ℤ) ∈ rots → C16.HasRotKey C crs B set' sk.id s n) ∧ ∀ id n, id ≠ sk.id → set'.get id n = set.get id n := by
  obtain ⟨⟨set', st'⟩, e1, e2, e3⟩ := Go.loop_inv (rotKeyStep crs gs sk)
    (fun pre w => (∀ n : ℕ, (n : ℤ) ∈ pre → C16.HasRotKey C crs B w.1 sk.id s n) ∧ ∀ id n, id ≠ sk.id → w.1.get id n = set.get id n)
    rots (set, st) ⟨by simp, fun _ _ _ => rfl⟩ (by
      rintro pre rot suf ⟨w, st1⟩ hl ⟨ih1, ih2⟩
      obtain ⟨h0, h1⟩ := hr rot (by rw [hl]; simp)
      obtain ⟨m, rfl⟩ := Int.eq_ofNat_of_zero_le h0.le
      obtain ⟨a, ha⟩ := Option.isSome_iff_exists.mp (GoMap.mem_iff_lookup.mp h1)
      obtain ⟨rk, st2, k1, k2, k3, k4, k5⟩ := C15.rotationKey V hB hg st1 hs h1 (r := m) (adjustIdx_nonneg (by omega)) ha (hcrs _ _ ha)
      refine ⟨(w.add GalKey.id GalKey.rotIdx rk, st2), by unfold rotKeyStep; rw [k1, bind_ok], fun n hn => ?_, fun id n hid => ?_⟩
      · by_cases e : n = m
        · subst e
          refine ⟨rk, a, ?_, ha, hcrs _ _ ha, k2, k3, k4.ge, k5.rel le_rfl fun _ _ => hg _⟩
          rw [RotKeySet.get_add, if_pos ⟨k2.symm, k3.symm⟩]
        · have hn' : (n : ℤ) ∈ pre := by
            rcases List.mem_append.mp hn with h | h
            · exact h
            · rw [List.mem_singleton] at h; exact absurd (by exact_mod_cast h) e
          obtain ⟨key, a', g1, g2⟩ := ih1 n hn'
          exact ⟨key, a', by rw [RotKeySet.get_add, if_neg (fun h => e (h.2.trans k3))]; exact g1, g2⟩
      · rw [RotKeySet.get_add, if_neg (fun h => hid (h.1.trans k2))]; exact ih2 id n hid)
  exact ⟨set', st', e1, e2, e3⟩

/-- what the parties processed so far have in the key sets -/
structure StoreOk (crs : GoMap ℤ (Swk C)) (a u : Swk C) (s r : String → Nega N ℤ) (rots : List ℤ) (B : ℤ) (ids : List String) (w : KeyStore C) : Prop where
  keyed : w.sks.Keyed SKey.id
  sk : ∀ id ∈ ids, ∃ sk, w.sks.value.lookup id = some sk ∧ sk.Is (s id)
  pk : ∀ id ∈ ids, ∃ pk e, w.pks.value.lookup id = some pk ∧ pk.id = id ∧ C17.PubKey pk (s id) e ∧ Bdd e B
  rlk : ∀ id ∈ ids, ∃ key, w.rlk.value.lookup id = some key ∧ key.Rel (C.beta (C.nQ - 1)) (s id) (r id) a.val u.val B
  pools : PoolsReady ids.toFinset w.rlk
  rot : ∀ id ∈ ids, ∀ n : ℕ, (n : ℤ) ∈ rots → C16.HasRotKey C crs B w.rks id (s id) n

theorem setupParty_ok (V : C.Valid) {B : ℤ} (hB : C.SmallBound B) {gs : ℕ → Nega N ℤ} (hg : ∀ n, Bdd (gs n) B) {crs : GoMap ℤ (Swk C)}
    (hcrs : CrsLen C crs) {a u : Swk C} (ha : crs.lookup 0 = some a) (hu : crs.lookup (-1) = some u) {s r : String → Nega N ℤ}
    (hs : ∀ id, Bdd (s id) B) (hr : ∀ id, Bdd (r id) B) {rots : List ℤ} (hrots : ∀ k ∈ rots, 0 < k ∧ k ∈ crs) {ids : List String} {w : KeyStore C}
    (h : StoreOk crs a u s r rots B ids w) (id : String) :
    ∃ w', setupParty crs gs s r rots w id = .ok w' ∧ StoreOk crs a u s r rots B (ids ++ [id]) w' := by
  have hb : 0 < C.beta (C.nQ - 1) := V.beta_pos (top_lt V)
  obtain ⟨sk, pk, kg1, a1, a2, a3, a4, _, a5⟩ := C12.keyPair V hB hg w.kg (hs id) id ha (lt_of_lt_of_le hb (hcrs _ _ ha))
  obtain ⟨l, kg2, b1, b2, b3⟩ := C14.relinearizationKey_rel V hB hg kg1 a2 (genSecretKey_is V hB (hr id) id) ha hu (hcrs _ _ ha) (hcrs _ _ hu)
    (top_lt V)
  obtain ⟨rk, kg3, c1, c2, c3⟩ := rotLoop_ok V hB hg a2 hcrs rots hrots w.rks kg2
  rw [a3] at b2 c2 c3
  refine ⟨⟨kg3, w.sks.add SKey.id sk, w.pks.add PKey.id pk, w.rlk.add Rlk.id Swk.new l, rk⟩, ?_, h.keyed.add _, ?_, ?_, ?_, ?_, ?_⟩
  · unfold setupParty
    rw [a1, bind_ok]
    dsimp only
    rw [show genSecretKey (r id) id = genSecretKeyFromSampler (C := C) (r id) id from rfl, b1, bind_ok]
    dsimp only
    rw [c1, bind_ok]
  · intro id' hid'
    show ∃ sk', (w.sks.value.insert (SKey.id sk) sk).lookup id' = some sk' ∧ _
    rw [GoMap.lookup_insert', a3]
    by_cases e : id' = id
    · subst e; exact ⟨sk, if_pos rfl, a2⟩
    · rw [if_neg e]
      rcases List.mem_append.mp hid' with h1 | h1
      · exact h.sk _ h1
      · exact absurd (List.mem_singleton.mp h1) e
  · intro id' hid'
    show ∃ pk' e', (w.pks.value.insert (PKey.id pk) pk).lookup id' = some pk' ∧ _
    rw [GoMap.lookup_insert', a4]
    by_cases e : id' = id
    · subst e; exact ⟨pk, gs w.kg.pos, if_pos rfl, a4, C17.PubKey.of_gen a5, hg _⟩
    · rw [if_neg e]
      rcases List.mem_append.mp hid' with h1 | h1
      · exact h.pk _ h1
      · exact absurd (List.mem_singleton.mp h1) e
  · intro id' hid'
    show ∃ key, (w.rlk.value.insert (Rlk.id l) l).lookup id' = some key ∧ _
    rw [GoMap.lookup_insert', b2]
    by_cases e : id' = id
    · subst e; exact ⟨l, if_pos rfl, b3⟩
    · rw [if_neg e]
      rcases List.mem_append.mp hid' with h1 | h1
      · exact h.rlk _ h1
      · exact absurd (List.mem_singleton.mp h1) e
  · have key : ∀ pool : HoistedCt C, PoolOK (C.beta (C.nQ - 1)) ids.toFinset pool →
        PoolOK (C.beta (C.nQ - 1)) (ids ++ [id]).toFinset (pool.insert (Rlk.id l) Swk.new) := by
      intro pool hp id' hid'
      rw [GoMap.lookup_insert', b2]
      by_cases e : id' = id
      · exact ⟨Swk.new, if_pos e, le_rfl⟩
      · rw [if_neg e]
        rw [List.mem_toFinset] at hid'
        rcases List.mem_append.mp hid' with h1 | h1
        · exact hp id' (List.mem_toFinset.mpr h1)
        · exact absurd (List.mem_singleton.mp h1) e
    exact ⟨key _ h.pools.1, key _ h.pools.2⟩
  · intro id' hid' n hn
    by_cases e : id' = id
    · subst e; exact c2 n hn
    · rcases List.mem_append.mp hid' with h1 | h1
      · obtain ⟨key, a', g1, g2⟩ := h.rot _ h1 n hn
        exact ⟨key, a', by rw [c3 _ _ e]; exact g1, g2⟩
      · exact absurd (List.mem_singleton.mp h1) e

/-- **C59, key setup.** With CRS entries for 0, -1 and a list of rotation amounts that covers the powers of two and every other amount of the CRS,
the client's key generation succeeds for any parties, and the key sets it makes are the ones the evaluator, the encryptor and the decryptor need:
all theorems of C59 apply to them. -/
theorem setup_ok (V : C.Valid) (hN : N % 16 = 0) {B : ℤ} (hB : C.SmallBound B) {gs : ℕ → Nega N ℤ} (hg : ∀ n, Bdd (gs n) B)
    {crs : GoMap ℤ (Swk C)} (hcrs : CrsLen C crs) {a : Swk C} (ha : crs.lookup 0 = some a) (hu : (-1 : ℤ) ∈ crs)
    {s r : String → Nega N ℤ} {Sb Rb : ℤ} (hs : ∀ id, Bdd (s id) Sb) (hSb : Sb ≤ B) (hr : ∀ id, Bdd (r id) Rb) (hRb : Rb ≤ B) {rots : List ℤ} (hrots : ∀ k ∈ rots, 0 < k ∧ k ∈ crs)
    (hpow : ∀ j : ℕ, 2 ^ j < N / 2 → ((2 ^ j : ℕ) : ℤ) ∈ rots) (hall : ∀ n : ℕ, n ≠ 0 → n < N / 2 → (n : ℤ) ∈ crs → (n : ℤ) ∈ rots)
    (kg : KG C) (ids : List String) {pscale : ℚ} (hp : 0 < pscale) {D : ℤ} (hD : ∀ l < C.nQ, ∀ k < C.beta l, 2 * (C.blockProd l k : ℤ) ≤ D) :
    ∃ w, setup crs gs s r rots kg ids = .ok w ∧
      (∀ cks, (⟨crs, w.rlk, w.rks, cks, pscale, ids.toFinset, s, r, a.val, Sb, Rb, B, D⟩ : Sys C).Ok) ∧ SKeys.Of w.sks ids.toFinset s ∧
      (∀ id ∈ ids, ∃ pk e, w.pks.value.lookup id = some pk ∧ pk.id = id ∧ C17.PubKey pk (s id) e ∧ Bdd e B) ∧
      PoolsReady ids.toFinset w.rlk := by
  obtain ⟨u, hu⟩ := Option.isSome_iff_exists.mp (GoMap.mem_iff_lookup.mp hu)
  obtain ⟨w, w1, w2⟩ := Go.loop_inv (setupParty crs gs s r rots) (fun pre w => StoreOk crs a u s r rots B pre w) ids
    ⟨kg, KeySet.new, KeySet.new, RlkSet.new, RotKeySet.new⟩
    ⟨KeySet.keyed_new _, by simp, by simp, by simp, ⟨fun id h => by simp at h, fun id h => by simp at h⟩, by simp⟩
    (fun pre id suf w _ hw => setupParty_ok V hB hg hcrs ha hu (fun id => (hs id).mono hSb) (fun id => (hr id).mono hRb) hrots hw id)
  refine ⟨w, w1, fun cks => ⟨⟨⟨u, hu, hcrs _ _ hu, fun id h => w2.rlk id (List.mem_toFinset.mp h)⟩, fun id _ => hs id, fun id _ => hr id⟩,
    fun n hn => ?_, hs, hD, hp, hN⟩, ⟨w2.keyed, fun id h => w2.sk id (List.mem_toFinset.mp h)⟩, w2.pk, w2.pools⟩
  have main : ∀ n : ℕ, (n : ℤ) ∈ rots → C33.Keys crs (C.nQ - 1) ids.toFinset n w.rks s Sb B := fun n hn => by
    obtain ⟨x, hx⟩ := Option.isSome_iff_exists.mp (GoMap.mem_iff_lookup.mp (hrots _ hn).2)
    refine ⟨⟨x, hx, hcrs _ _ hx, fun id hid => ?_⟩, fun id _ => hs id⟩
    obtain ⟨key, a', g1, g2, _, _, _, g3, g4⟩ := w2.rot id (List.mem_toFinset.mp hid) n hn
    rw [hx] at g2
    injection g2 with g2
    subst g2
    exact ⟨key, g1, g3, g4⟩
  exact ⟨fun j hj => main _ (hpow j hj), fun h h0 => main n (hall n h0 hn (GoMap.mem_iff_lookup.mpr h))⟩

end MKHE.C59
