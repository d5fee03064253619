import Verif.Model.CnnClient
import Verif.Props.CnnTop
import Verif.Props.CkksSetup

set_option autoImplicit false

/-!
# C49: the client of the encrypted neural network, from key setup to the decrypted scores
-/

namespace MKHE.C49
open Finset C59 Nega

variable {N : ℕ} [NeZero N] {C : Ctx N}

/-! ## the parameters -/

theorem foldl_genCrs_lookup {A : Type*} (rand : ℕ → A) (mform : A → A) (n : ℕ) (l : List ℤ) (s : CrsState A) (k : ℤ) :
    ((∃ u, (l.foldl (genCrs rand mform n) s).crs.lookup k = some ((List.range n).map fun i => mform (rand (u + i)))) ∧ k ∈ l) ∨
      ((l.foldl (genCrs rand mform n) s).crs.lookup k = s.crs.lookup k ∧ k ∉ l) := by
  induction l generalizing s with
  | nil => right; simp
  | cons a l ih =>
    rw [List.foldl_cons]
    rcases ih (genCrs rand mform n s a) with ⟨h1, h2⟩ | ⟨h1, h2⟩
    · exact .inl ⟨h1, by simp [h2]⟩
    · rw [C10.lookup_genCrs] at h1
      by_cases h : k = a
      · rw [if_pos h] at h1
        exact .inl ⟨⟨_, h1⟩, by simp [h]⟩
      · rw [if_neg h] at h1
        exact .inr ⟨h1, by simp [h, h2]⟩

/-- the common reference strings of the client: the default indices and the extra amounts -/
theorem clientCrs_ok (V : C.Valid) (rand : ℕ → PolyQP C) (mform : PolyQP C → PolyQP C) :
    CrsLen C (C16.crsOf (Cnn.clientCrs rand mform C.fm C.dims)) ∧
      ∀ k, k ∈ C16.crsOf (Cnn.clientCrs rand mform C.fm C.dims) ↔ k ∈ Cnn.extraRots ∨ k ∈ C16.crsOf (newCrs rand mform C.fm C.dims) := by
  obtain ⟨h1, h2⟩ := C16.newCrs_default V rand mform
  have key := fun k => foldl_genCrs_lookup rand mform (C.dims.beta C.fm C.dims.maxLevel) Cnn.extraRots (newCrs rand mform C.fm C.dims) k
  have e : Cnn.extraRots.foldl (genCrs rand mform (C.dims.beta C.fm C.dims.maxLevel)) (newCrs rand mform C.fm C.dims) =
      Cnn.clientCrs rand mform C.fm C.dims := rfl
  rw [e] at key
  refine ⟨fun k a ha => ?_, fun k => ?_⟩
  · rw [C16.crsOf_lookup] at ha
    rcases key k with ⟨⟨u, hu⟩, -⟩ | ⟨hu, -⟩
    · rw [hu] at ha
      injection ha with ha
      subst ha
      simp only [List.length_map, List.length_range]
      exact le_rfl
    · rw [hu, ← C16.crsOf_lookup] at ha
      exact h1 k a ha
  · rw [GoMap.mem_iff_lookup, GoMap.mem_iff_lookup, C16.crsOf_lookup, C16.crsOf_lookup, Option.isSome_map, Option.isSome_map]
    rcases key k with ⟨⟨u, hu⟩, hk⟩ | ⟨hu, hk⟩
    · rw [hu]; simp [hk]
    · rw [hu]; simp [hk]

/-- the indices of the client's CRS, for `LogN = 14` -/
theorem clientCrs_mem (V : C.Valid) (hN : N / 2 = 8192) (rand : ℕ → PolyQP C) (mform : PolyQP C → PolyQP C) (k : ℤ) :
    k ∈ C16.crsOf (Cnn.clientCrs rand mform C.fm C.dims) ↔
      k ∈ Cnn.extraRots ∨ k = 0 ∨ k = -1 ∨ k = -2 ∨ k = -3 ∨ k = -4 ∨ ∃ i < 13, k = 2 ^ i := by
  rw [(clientCrs_ok V rand mform).2, (C16.newCrs_default V rand mform).2 k]
  have hN2 : (N : ℤ) / 2 = 8192 := by omega
  have : (∃ i : ℕ, k = 2 ^ i ∧ k < (N : ℤ) / 2) ↔ ∃ i < 13, k = 2 ^ i := by
    rw [hN2]
    constructor
    · rintro ⟨i, h1, h2⟩
      refine ⟨i, ?_, h1⟩
      rw [h1] at h2
      by_contra h
      have : (2 : ℤ) ^ 13 ≤ 2 ^ i := pow_le_pow_right₀ (by norm_num) (by omega)
      omega
    · rintro ⟨i, h1, h2⟩
      refine ⟨i, h2, ?_⟩
      rw [h2]
      calc (2 : ℤ) ^ i < 2 ^ 13 := pow_lt_pow_right₀ (by norm_num) h1
        _ = 8192 := by norm_num
  rw [this]

theorem logN_eq (V : C.Valid) (hN : N / 2 = 8192) : C.logN = 14 := by
  have h := V.hN
  have h1 := V.log1
  obtain ⟨m, hm⟩ : ∃ m, C.logN = m + 1 := ⟨C.logN - 1, by omega⟩
  rw [hm, pow_succ] at h
  have h2 : 2 ^ m = 2 ^ 13 := by norm_num; omega
  have := Nat.pow_right_injective (le_refl 2) h2
  omega

theorem clientRots_mem (k : ℤ) : k ∈ Cnn.clientRots 14 ↔ k ∈ Cnn.extraRots ∨ ∃ i < 13, k = 2 ^ i := by
  unfold Cnn.clientRots
  rw [List.mem_append, List.mem_map]
  simp only [List.mem_range]
  constructor
  · rintro (h | ⟨i, h1, h2⟩)
    · exact .inl h
    · exact .inr ⟨i, h1, h2.symm⟩
  · rintro (h | ⟨i, h1, h2⟩)
    · exact .inl h
    · exact .inr ⟨i, h1, h2.symm⟩

theorem extraRots_pos {k : ℤ} (h : k ∈ Cnn.extraRots) : 0 < k := by
  simp only [Cnn.extraRots, List.mem_cons, List.not_mem_nil, or_false] at h
  omega

/-- the keys the client generates: with them every theorem of C59 applies, and the amounts of the hoisted rotations of the network are there -/
theorem client_setup (V : C.Valid) (hN : N / 2 = 8192) (rand : ℕ → PolyQP C) (mform : PolyQP C → PolyQP C) {B : ℤ} (hB : C.SmallBound B)
    {gs : ℕ → Nega N ℤ} (hg : ∀ n, Bdd (gs n) B) {s r : String → Nega N ℤ} {Sb Rb : ℤ} (hs : ∀ id, Bdd (s id) Sb) (hSb : Sb ≤ B)
    (hr : ∀ id, Bdd (r id) Rb) (hRb : Rb ≤ B) (kg : KG C)
    (ids : List String) {pscale : ℚ} (hp : 0 < pscale) {D : ℤ} (hD : ∀ l < C.nQ, ∀ k < C.beta l, 2 * (C.blockProd l k : ℤ) ≤ D) :
    ∃ w a, setup (C16.crsOf (Cnn.clientCrs rand mform C.fm C.dims)) gs s r (Cnn.clientRots C.logN) kg ids = .ok w ∧
      (∀ cks, (⟨C16.crsOf (Cnn.clientCrs rand mform C.fm C.dims), w.rlk, w.rks, cks, pscale, ids.toFinset, s, r, a, Sb, Rb, B, D⟩ : Sys C).Ok) ∧
      SKeys.Of w.sks ids.toFinset s ∧
      (∀ id ∈ ids, ∃ pk e, w.pks.value.lookup id = some pk ∧ pk.id = id ∧ C17.PubKey pk (s id) e ∧ Bdd e B) ∧
      PoolsReady ids.toFinset w.rlk := by
  have hmem := clientCrs_mem V hN rand mform
  have hlog := logN_eq V hN
  obtain ⟨a, ha⟩ := Option.isSome_iff_exists.mp (GoMap.mem_iff_lookup.mp ((hmem 0).mpr (by simp)))
  have hN16 : N % 16 = 0 := by
    have h := V.hN
    rw [hlog] at h
    norm_num at h
    omega
  rw [hlog]
  obtain ⟨w, w1, w2⟩ := setup_ok V hN16 hB hg (clientCrs_ok V rand mform).1 ha ((hmem (-1)).mpr (by simp)) hs hSb hr hRb (rots := Cnn.clientRots 14)
    (fun k hk => by
      rw [clientRots_mem] at hk
      refine ⟨?_, (hmem k).mpr ?_⟩
      · rcases hk with h | ⟨i, _, h⟩
        · exact extraRots_pos h
        · rw [h]; positivity
      · rcases hk with h | h
        · exact .inl h
        · exact .inr (.inr (.inr (.inr (.inr (.inr h))))))
    (fun j hj => by
      rw [clientRots_mem]
      refine .inr ⟨j, ?_, by push_cast; rfl⟩
      by_contra h
      have : 2 ^ 13 ≤ 2 ^ j := Nat.pow_le_pow_right (by norm_num) (by omega)
      omega)
    (fun n h0 hn hm => by
      rw [clientRots_mem]
      rcases (hmem _).mp hm with h | h | h | h | h | h | h
      · exact .inl h
      · omega
      · omega
      · omega
      · omega
      · omega
      · exact .inr h)
    kg ids hp hD
  exact ⟨w, a.val, w1, w2⟩

/-- the rotations that need their own key are in the client's CRS -/
theorem client_amounts (V : C.Valid) (hN : N / 2 = 8192) (rand : ℕ → PolyQP C) (mform : PolyQP C → PolyQP C) {S : Sys C}
    (hS : S.crs = C16.crsOf (Cnn.clientCrs rand mform C.fm C.dims)) :
    (∀ r ∈ [1, 14, 15], HasAmount S r) ∧ ∀ i < 8, HasAmount S ((i : ℕ) * 128) := by
  have hmem := clientCrs_mem V hN rand mform
  have key : ∀ n : ℕ, n < 8192 → (n : ℤ) ∈ C16.crsOf (Cnn.clientCrs rand mform C.fm C.dims) → HasAmount S n := fun n hn h _ => by
    have : C35.amount N n = n := by
      unfold C35.amount
      rw [hN]
      omega
    rw [this, hS, ← GoMap.mem_iff_lookup]
    exact h
  have e0 : HasAmount S 0 := fun h => absurd (by unfold C35.amount; simp) h
  refine ⟨fun r hr => ?_, fun i hi => ?_⟩
  · simp only [List.mem_cons, List.not_mem_nil, or_false] at hr
    rcases hr with rfl | rfl | rfl
    · exact key 1 (by norm_num) ((hmem _).mpr (.inr (.inr (.inr (.inr (.inr (.inr ⟨0, by norm_num, by norm_num⟩)))))))
    · exact key 14 (by norm_num) ((hmem _).mpr (.inl (by simp [Cnn.extraRots])))
    · exact key 15 (by norm_num) ((hmem _).mpr (.inl (by simp [Cnn.extraRots])))
  · have hk : ((i * 128 : ℕ) : ℤ) ∈ C16.crsOf (Cnn.clientCrs rand mform C.fm C.dims) := by
      rw [hmem]
      interval_cases i
      · right; left; rfl
      · exact .inr (.inr (.inr (.inr (.inr (.inr ⟨7, by norm_num, by norm_num⟩)))))
      · exact .inr (.inr (.inr (.inr (.inr (.inr ⟨8, by norm_num, by norm_num⟩)))))
      all_goals exact .inl (by simp [Cnn.extraRots])
    have := key (i * 128) (by omega) hk
    push_cast at this
    exact this

/-- the amounts the network rotates by (cnn.go:18-37 the convolution; 53, 65 the first layer with its eight matrices; 82, 90 the second layer) -/
def netRots : List ℤ :=
  [1, 14, 15, 2048, 1024] ++ (List.range 8).map (fun i => (i : ℤ) * 128) ++ (List.range 7).map (fun i => (2 : ℤ) ^ i) ++
    (List.range 4).map (fun i => -1 * (2 : ℤ) ^ i) ++ (List.range 6).map fun i => 128 * (2 : ℤ) ^ i

/-- **the client's list of amounts is what the network needs**: with the CRS of the client every rotation of the network is one key switching (or none,
for the amount 0), whereas without an own CRS an amount takes one for every binary digit; and every amount of the list is used -/
theorem client_switches (V : C.Valid) (hN : N / 2 = 8192) (rand : ℕ → PolyQP C) (mform : PolyQP C → PolyQP C) :
    (∀ r ∈ netRots, C35.rotCount (C16.crsOf (Cnn.clientCrs rand mform C.fm C.dims)) (C35.amount N r) = if r = 0 then 0 else 1) ∧
      ∀ k ∈ Cnn.extraRots, ∃ r ∈ netRots, (C35.amount N r : ℤ) = k := by
  have hmem := clientCrs_mem V hN rand mform
  have key : ∀ (r : ℤ) (n : ℕ), r % 8192 = n → n ≠ 0 → (n : ℤ) ∈ C16.crsOf (Cnn.clientCrs rand mform C.fm C.dims) →
      C35.rotCount (C16.crsOf (Cnn.clientCrs rand mform C.fm C.dims)) (C35.amount N r) = 1 := fun r n hr hn h => by
    have : C35.amount N r = n := by
      unfold C35.amount
      rw [hN]
      push_cast
      omega
    unfold C35.rotCount
    rw [this, if_neg hn, if_pos (by rw [← GoMap.mem_iff_lookup]; exact h)]
  have two : ∀ i < 13, ((2 ^ i : ℕ) : ℤ) ∈ C16.crsOf (Cnn.clientCrs rand mform C.fm C.dims) := fun i hi =>
    (hmem _).mpr (.inr (.inr (.inr (.inr (.inr (.inr ⟨i, hi, by push_cast; rfl⟩))))))
  have ext : ∀ n : ℕ, (n : ℤ) ∈ Cnn.extraRots → (n : ℤ) ∈ C16.crsOf (Cnn.clientCrs rand mform C.fm C.dims) := fun n h => (hmem _).mpr (.inl h)
  constructor
  · intro r hr
    have e : netRots = [1, 14, 15, 2048, 1024, 0, 128, 256, 384, 512, 640, 768, 896, 1, 2, 4, 8, 16, 32, 64, -1, -2, -4, -8, 128, 256, 512, 1024, 2048, 4096] := by
      decide
    rw [e] at hr
    simp only [List.mem_cons, List.not_mem_nil, or_false] at hr
    have z : C35.rotCount (C16.crsOf (Cnn.clientCrs rand mform C.fm C.dims)) (C35.amount N 0) = 0 := by
      have : C35.amount N 0 = 0 := by unfold C35.amount; simp
      unfold C35.rotCount
      rw [this, if_pos rfl]
    by_cases h0 : r = 0
    · rw [if_pos h0, h0]; exact z
    rw [if_neg h0]
    rcases hr with rfl | rfl | rfl | rfl | rfl | rfl | rfl | rfl | rfl | rfl | rfl | rfl | rfl | rfl | rfl | rfl | rfl | rfl | rfl | rfl | rfl | rfl |
      rfl | rfl | rfl | rfl | rfl | rfl | rfl | rfl
    · exact key _ 1 (by norm_num) (by norm_num) (two 0 (by norm_num))
    · exact key _ 14 (by norm_num) (by norm_num) (ext 14 (by simp [Cnn.extraRots]))
    · exact key _ 15 (by norm_num) (by norm_num) (ext 15 (by simp [Cnn.extraRots]))
    · exact key _ 2048 (by norm_num) (by norm_num) (two 11 (by norm_num))
    · exact key _ 1024 (by norm_num) (by norm_num) (two 10 (by norm_num))
    · exact absurd rfl h0
    · exact key _ 128 (by norm_num) (by norm_num) (two 7 (by norm_num))
    · exact key _ 256 (by norm_num) (by norm_num) (two 8 (by norm_num))
    · exact key _ 384 (by norm_num) (by norm_num) (ext 384 (by simp [Cnn.extraRots]))
    · exact key _ 512 (by norm_num) (by norm_num) (two 9 (by norm_num))
    · exact key _ 640 (by norm_num) (by norm_num) (ext 640 (by simp [Cnn.extraRots]))
    · exact key _ 768 (by norm_num) (by norm_num) (ext 768 (by simp [Cnn.extraRots]))
    · exact key _ 896 (by norm_num) (by norm_num) (ext 896 (by simp [Cnn.extraRots]))
    · exact key _ 1 (by norm_num) (by norm_num) (two 0 (by norm_num))
    · exact key _ 2 (by norm_num) (by norm_num) (two 1 (by norm_num))
    · exact key _ 4 (by norm_num) (by norm_num) (two 2 (by norm_num))
    · exact key _ 8 (by norm_num) (by norm_num) (two 3 (by norm_num))
    · exact key _ 16 (by norm_num) (by norm_num) (two 4 (by norm_num))
    · exact key _ 32 (by norm_num) (by norm_num) (two 5 (by norm_num))
    · exact key _ 64 (by norm_num) (by norm_num) (two 6 (by norm_num))
    · exact key _ 8191 (by norm_num) (by norm_num) (ext 8191 (by simp [Cnn.extraRots]))
    · exact key _ 8190 (by norm_num) (by norm_num) (ext 8190 (by simp [Cnn.extraRots]))
    · exact key _ 8188 (by norm_num) (by norm_num) (ext 8188 (by simp [Cnn.extraRots]))
    · exact key _ 8184 (by norm_num) (by norm_num) (ext 8184 (by simp [Cnn.extraRots]))
    · exact key _ 128 (by norm_num) (by norm_num) (two 7 (by norm_num))
    · exact key _ 256 (by norm_num) (by norm_num) (two 8 (by norm_num))
    · exact key _ 512 (by norm_num) (by norm_num) (two 9 (by norm_num))
    · exact key _ 1024 (by norm_num) (by norm_num) (two 10 (by norm_num))
    · exact key _ 2048 (by norm_num) (by norm_num) (two 11 (by norm_num))
    · exact key _ 4096 (by norm_num) (by norm_num) (two 12 (by norm_num))
  · intro k hk
    have key2 : ∀ r ∈ netRots, r % 8192 = k → ∃ r ∈ netRots, (C35.amount N r : ℤ) = k := fun r hr h => ⟨r, hr, by
      unfold C35.amount
      rw [hN]
      push_cast
      omega⟩
    simp only [Cnn.extraRots, List.mem_cons, List.not_mem_nil, or_false] at hk
    rcases hk with rfl | rfl | rfl | rfl | rfl | rfl | rfl | rfl | rfl | rfl | rfl
    · exact key2 14 (by decide) (by norm_num)
    · exact key2 15 (by decide) (by norm_num)
    · exact key2 384 (by decide) (by norm_num)
    · exact key2 512 (by decide) (by norm_num)
    · exact key2 640 (by decide) (by norm_num)
    · exact key2 768 (by decide) (by norm_num)
    · exact key2 896 (by decide) (by norm_num)
    · exact key2 (-1) (by decide) (by norm_num)
    · exact key2 (-2) (by decide) (by norm_num)
    · exact key2 (-4) (by decide) (by norm_num)
    · exact key2 (-8) (by decide) (by norm_num)

/-! ## the inputs -/

/-- what the encoder is trusted with: the plaintext of maximal level that encodes a packed message at the given scale, up to `Bp` in every slot -/
def EncodesAt (pt : Poly C) (scale : ℚ) (a : Cnn.Arr) (Bp : ℝ) : Prop :=
  pt.len = C.nQ ∧ ∃ Φ : Nega N ℤ, (∀ i ≤ C.nQ - 1, cf (pt.coeffs i) = red (C.q i) Φ) ∧
    ∀ j : ℤ, ‖slot j (toReal Φ) - ((scale : ℝ) : ℂ) * cyc a j‖ ≤ Bp

/-- what is known of a fresh ciphertext of `id` with slots below `Vb`, encoding error `Bp` and noise `F` -/
noncomputable def freshInfo (C : Ctx N) (scale : ℚ) (id : String) (Vb Bp : ℝ) (F : ℤ) : Info := ⟨C.nQ - 1, scale, {id}, Vb, Bp + N * (F : ℝ)⟩

/-- the noise of a fresh encryption, with the sampler of `u` bounded by `Bu`, that of the errors by `Bg`, the key's error by `Be` and its secret by `Sb` -/
def freshNoise (N : ℕ) (Bu Bg Be Sb : ℤ) : ℤ := N * Bu * Be + Bg + N * Bg * Sb

theorem fresh_ok {S : Sys C} (V : C.Valid) (hN : N / 2 = 8192) (hS : S.Ok) (o : Sched String) (us es : ℕ → Nega N ℤ) (st : Enc C) {pt : Poly C}
    {scale : ℚ} (hsc : 0 < scale) {a : Cnn.Arr} {Vb Bp : ℝ} (hv : ∀ p < 8192, ‖a p‖ ≤ Vb) (hpt : EncodesAt pt scale a Bp) {pk : PKey C} (hid : pk.id ≠ "0")
    (hU : pk.id ∈ S.U) {e : Nega N ℤ} (hpk : C17.PubKey pk (S.s pk.id) e) {Bu Bg : ℤ} (hu : ∀ n, Bdd (us n) Bu) (hg : ∀ n, Bdd (es n) Bg)
    (he : Bdd e S.Be) :
    ∃ ct st', ckksEncryptNew o us es st pt scale pk = .ok (ct, st') ∧ Approx S ct (ofSlots N a) (freshInfo C scale pk.id Vb Bp (freshNoise N Bu Bg S.Be S.Sb)) := by
  obtain ⟨h1, Φ, h2, h3⟩ := hpt
  have hq := V.q1
  refine C59.encrypt V hS o us es st (l := C.nQ - 1) (by omega) (by omega) hsc (fun j => ?_) ⟨Φ, h2, fun j => ?_⟩ hid hU hpk hu hg he
  · rw [slot_cyc V hN]
    exact hv _ (by omega)
  · rw [slot_cyc V hN]
    exact h3 j

theorem encryptList_ok {S : Sys C} (V : C.Valid) (hN : N / 2 = 8192) (hS : S.Ok) (o : ℕ → Sched String) (us es : ℕ → Nega N ℤ) (st : Enc C)
    {pts : List (Poly C)} {scale : ℚ} (hsc : 0 < scale) {as : List Cnn.Arr} (hlen : pts.length = as.length) {Vb Bp : ℝ}
    (hv : ∀ i, ∀ p < 8192, ‖as.getD i Cnn.zeros p‖ ≤ Vb)
    (hpt : ∀ i (hi : i < pts.length), EncodesAt pts[i] scale (as.getD i Cnn.zeros) Bp) {pk : PKey C} (hid : pk.id ≠ "0")
    (hU : pk.id ∈ S.U) {e : Nega N ℤ} (hpk : C17.PubKey pk (S.s pk.id) e) {Bu Bg : ℤ} (hu : ∀ n, Bdd (us n) Bu) (hg : ∀ n, Bdd (es n) Bg)
    (he : Bdd e S.Be) :
    ∃ cts st', Cnn.encryptList o us es scale pk st pts = .ok (cts, st') ∧ cts.length = pts.length ∧
      ∀ i (hi : i < cts.length), Approx S cts[i] (ofSlots N (as.getD i Cnn.zeros)) (freshInfo C scale pk.id Vb Bp (freshNoise N Bu Bg S.Be S.Sb)) := by
  obtain ⟨⟨cts, st'⟩, h1, h2, h3⟩ := Go.loop_inv (fun (w : List (CCt C) × Enc C) (pt : Poly C) => (do
    let c ← ckksEncryptNew (o w.1.length) us es w.2 pt scale pk
    .ok (w.1 ++ [c.1], c.2) : Go (List (CCt C) × Enc C))) (fun pre w => w.1.length = pre.length ∧
      ∀ i (hi : i < w.1.length), Approx S w.1[i] (ofSlots N (as.getD i Cnn.zeros)) (freshInfo C scale pk.id Vb Bp (freshNoise N Bu Bg S.Be S.Sb))) pts ([], st)
    ⟨rfl, fun i hi => absurd hi (by simp)⟩
    (by
      intro pre pt suf w hsplit hI
      have hlt : pre.length < pts.length := by rw [hsplit]; simp
      have hpt' : pts[pre.length] = pt := by simp [hsplit]
      obtain ⟨ct, st1, c1, c2⟩ := fresh_ok V hN hS (o w.1.length) us es w.2 hsc (hv pre.length) (hpt' ▸ hpt pre.length hlt) hid hU hpk hu hg he
      refine ⟨(w.1 ++ [ct], st1), by rw [c1, bind_ok], by simp [hI.1], fun i hi => ?_⟩
      by_cases hil : i < w.1.length
      · have e1 : (w.1 ++ [ct])[i] = w.1[i] := List.getElem_append_left hil
        show Approx S ((w.1 ++ [ct])[i]) _ _
        rw [e1]; exact hI.2 i hil
      · have hi' : i = pre.length := by
          have := hI.1
          simp only [List.length_append, List.length_singleton] at hi
          omega
        subst hi'
        have e1 : (w.1 ++ [ct])[pre.length] = ct := by
          rw [List.getElem_append_right (by omega)]
          simp
        show Approx S ((w.1 ++ [ct])[pre.length]) _ _
        rw [e1]; exact c2)
  exact ⟨cts, st', h1, h2, h3⟩

/-- the packed messages and bounds of their entries -/
structure Bounds where
  img : ℝ
  kers : ℝ
  mats : ℝ
  fc2 : ℝ
  b1 : ℝ
  b2 : ℝ

/-- **what the encoder is trusted with**: `x` holds the encodings of the packed messages at the default scale, up to `Bp` in every slot, and the mask is
in coefficient form (lattigo's `Encode` clears the flag), as `MulPtxtNew` takes it -/
structure EncodesAll (x : Cnn.Encoded C) (scale : ℚ) (Bp : ℝ) (pi : Cnn.Arr) (pk pms : List Cnn.Arr) (pf p1 p2 pm : Cnn.Arr) : Prop where
  img : EncodesAt x.img scale pi Bp
  klen : x.kers.length = pk.length
  kers : ∀ i (hi : i < x.kers.length), EncodesAt x.kers[i] scale (pk.getD i Cnn.zeros) Bp
  mlen : x.mats.length = pms.length
  mats : ∀ i (hi : i < x.mats.length), EncodesAt x.mats[i] scale (pms.getD i Cnn.zeros) Bp
  fc2 : EncodesAt x.fc2 scale pf Bp
  b1 : EncodesAt x.b1 scale p1 Bp
  b2 : EncodesAt x.b2 scale p2 Bp
  mask : EncodesAt x.mask scale pm Bp
  flag : x.mask.isNTT = false

/-- the bounds hold of the packed messages -/
structure Bounds.Hold (W : Bounds) (pi : Cnn.Arr) (pk pms : List Cnn.Arr) (pf p1 p2 : Cnn.Arr) : Prop where
  img : ∀ p < 8192, ‖pi p‖ ≤ W.img
  kers : ∀ i, ∀ p < 8192, ‖pk.getD i Cnn.zeros p‖ ≤ W.kers
  mats : ∀ i, ∀ p < 8192, ‖pms.getD i Cnn.zeros p‖ ≤ W.mats
  fc2 : ∀ p < 8192, ‖pf p‖ ≤ W.fc2
  b1 : ∀ p < 8192, ‖p1 p‖ ≤ W.b1
  b2 : ∀ p < 8192, ‖p2 p‖ ≤ W.b2

theorem get_ok {K : Type} {sks : KeySet K} {msg id : String} {k : K} (h : sks.value.lookup id = some k) : sks.get msg id = .ok k := by
  unfold KeySet.get
  rw [h]

theorem encryptInputs_ok {S : Sys C} (V : C.Valid) (hN : N / 2 = 8192) (hS : S.Ok) (o : ℕ → ℕ → Sched String) (us es : ℕ → Nega N ℤ) (st : Enc C)
    {scale : ℚ} (hsc : 0 < scale) {x : Cnn.Encoded C} {Bp : ℝ} {pi pf p1 p2 pm : Cnn.Arr} {pk pms : List Cnn.Arr}
    (hx : EncodesAll x scale Bp pi pk pms pf p1 p2 pm) {W : Bounds} (hW : W.Hold pi pk pms pf p1 p2) {pks : KeySet (PKey C)}
    (hpk : ∀ id ∈ ["dataOwner", "modelOwner"], id ∈ S.U ∧ ∃ k e, pks.value.lookup id = some k ∧ k.id = id ∧ C17.PubKey k (S.s id) e ∧ Bdd e S.Be)
    {Bu Bg : ℤ} (hu : ∀ n, Bdd (us n) Bu) (hg : ∀ n, Bdd (es n) Bg) :
    ∃ i st', Cnn.encryptInputs o us es st scale pks x = .ok (i, st') ∧
      Approx S i.img (ofSlots N pi) (freshInfo C scale "dataOwner" W.img Bp (freshNoise N Bu Bg S.Be S.Sb)) ∧ i.kers.length = pk.length ∧
      (∀ j (hj : j < i.kers.length), Approx S i.kers[j] (ofSlots N (pk.getD j Cnn.zeros)) (freshInfo C scale "modelOwner" W.kers Bp (freshNoise N Bu Bg S.Be S.Sb))) ∧
      i.mats.length = pms.length ∧
      (∀ j (hj : j < i.mats.length), Approx S i.mats[j] (ofSlots N (pms.getD j Cnn.zeros)) (freshInfo C scale "modelOwner" W.mats Bp (freshNoise N Bu Bg S.Be S.Sb))) ∧
      Approx S i.fc2 (ofSlots N pf) (freshInfo C scale "modelOwner" W.fc2 Bp (freshNoise N Bu Bg S.Be S.Sb)) ∧
      Approx S i.b1 (ofSlots N p1) (freshInfo C scale "modelOwner" W.b1 Bp (freshNoise N Bu Bg S.Be S.Sb)) ∧
      Approx S i.b2 (ofSlots N p2) (freshInfo C scale "modelOwner" W.b2 Bp (freshNoise N Bu Bg S.Be S.Sb)) := by
  obtain ⟨dU, kd, ed, d1, d2, d3, d4⟩ := hpk "dataOwner" (by simp)
  obtain ⟨mU, km, em, m1, m2, m3, m4⟩ := hpk "modelOwner" (by simp)
  have dn : kd.id ≠ "0" := by rw [d2]; decide
  have mn : km.id ≠ "0" := by rw [m2]; decide
  rw [← d2] at dU d3
  rw [← m2] at mU m3
  obtain ⟨c1, st1, a1, a2⟩ := fresh_ok V hN hS (o 0 0) us es st hsc hW.img hx.img dn dU d3 hu hg d4
  obtain ⟨c2, st2, b1, b2, b3⟩ := encryptList_ok V hN hS (o 1) us es st1 hsc hx.klen hW.kers hx.kers mn mU m3 hu hg m4
  obtain ⟨c3, st3, e1, e2, e3⟩ := encryptList_ok V hN hS (o 2) us es st2 hsc hx.mlen hW.mats hx.mats mn mU m3 hu hg m4
  obtain ⟨c4, st4, f1, f2⟩ := fresh_ok V hN hS (o 3 0) us es st3 hsc hW.fc2 hx.fc2 mn mU m3 hu hg m4
  obtain ⟨c5, st5, g1, g2⟩ := fresh_ok V hN hS (o 4 0) us es st4 hsc hW.b1 hx.b1 mn mU m3 hu hg m4
  obtain ⟨c6, st6, i1, i2⟩ := fresh_ok V hN hS (o 5 0) us es st5 hsc hW.b2 hx.b2 mn mU m3 hu hg m4
  rw [d2] at a2
  rw [m2] at b3 e3 f2 g2 i2
  refine ⟨⟨c1, c2, c3, c4, c5, c6⟩, st6, ?_, a2, b2.trans hx.klen, b3, e2.trans hx.mlen, e3, f2, g2, i2⟩
  unfold Cnn.encryptInputs
  rw [get_ok d1, bind_ok, a1, bind_ok, get_ok m1, bind_ok]
  dsimp only
  rw [b1, bind_ok]
  dsimp only
  rw [e1, bind_ok]
  dsimp only
  rw [f1, bind_ok]
  dsimp only
  rw [g1, bind_ok]
  dsimp only
  rw [i1, bind_ok]

/-- the numbers the bounds are computed from; the keys play no part in it -/
noncomputable def numbers (crs : GoMap ℤ (Swk C)) (pscale : ℚ) (Sb Rb Be D : ℤ) : Sys C :=
  ⟨crs, RlkSet.new, RotKeySet.new, KeySet.new, pscale, ∅, 0, 0, Swk.new.val, Sb, Rb, Be, D⟩

/-- the bounds do not depend on the keys -/
theorem levels_keys {crs : GoMap ℤ (Swk C)} {pscale : ℚ} {Sb Rb B D : ℤ} (rlk : RlkMap C) (rks : RotKeySet (GalKey C)) (cks : KeySet (GalKey C)) (U : Finset String)
    (s r : String → Nega N ℤ) (x : ℕ → PolyQP C) {a k m b1 f b2 : Info} {n : ℕ} {sc : ℚ} {Vp Bp : ℝ} (h : LevelsOk (numbers crs pscale Sb Rb B D) a k m b1 f b2 n sc Vp Bp) :
    LevelsOk (⟨crs, rlk, rks, cks, pscale, U, s, r, x, Sb, Rb, B, D⟩ : Sys C) a k m b1 f b2 n sc Vp Bp :=
  ⟨h.conv, h.sq1, h.fc1, h.bias1, h.sq2, h.mask, h.fc2, h.bias2⟩

theorem f2_keys {crs : GoMap ℤ (Swk C)} {pscale : ℚ} {Sb Rb B D : ℤ} (rlk : RlkMap C) (rks : RotKeySet (GalKey C)) (cks : KeySet (GalKey C)) (U : Finset String)
    (s r : String → Nega N ℤ) (x : ℕ → PolyQP C) (a k m b1 f b2 : Info) (n : ℕ) (sc : ℚ) (Vp Bp : ℝ) :
    f2 (numbers crs pscale Sb Rb B D) a k m b1 f b2 n sc Vp Bp = f2 (⟨crs, rlk, rks, cks, pscale, U, s, r, x, Sb, Rb, B, D⟩ : Sys C) a k m b1 f b2 n sc Vp Bp := rfl

theorem mask_le {pm : Cnn.Arr} (h : Cnn.packMask 8192 = .ok pm) (j : ℤ) : ‖cyc pm j‖ ≤ 1 := by
  obtain ⟨a, a1, a2⟩ := Cnn.packMask_ok 8192
  have : pm = a := Except.ok.inj (h.symm.trans a1)
  subst this
  unfold cyc
  rw [a2 _ (by omega)]
  split_ifs <;> simp

/-- what the decryptor must hand to the decoder: at the scale `i.scale`, the scores of the classes within `i.B / i.scale`; and what the client's loop makes
of it: the class of the greatest score, if it is ahead by more than twice that -/
def Classified (D : Cnn.Data) (i : Info) (res : Poly C × ℚ) : Prop :=
  res.2 = i.scale ∧ ∃ Φ : Nega N ℤ, (∀ l ≤ i.level, cf (res.1.rows l) = red (C.q l) Φ) ∧ (∀ x, 2 * |Φ x| < modulus C i.level) ∧
    (∀ c < 10, ‖slot (c : ℕ) (toReal Φ) / (i.scale : ℂ) - Cnn.score D.image D.kernel D.fc1 D.b1 D.fc2 D.b2 c‖ ≤ i.B / i.scale) ∧
    ∀ c0 < 10, -100 < (Cnn.score D.image D.kernel D.fc1 D.b1 D.fc2 D.b2 c0).re - i.B / i.scale →
      (∀ c < 10, c ≠ c0 → (Cnn.score D.image D.kernel D.fc1 D.b1 D.fc2 D.b2 c).re + 2 * (i.B / i.scale) <
        (Cnn.score D.image D.kernel D.fc1 D.b1 D.fc2 D.b2 c0).re) →
      Cnn.argmax (fun c => slot (c : ℕ) (toReal Φ) / (i.scale : ℂ)) = c0

/-- what is known of the network's result, from the bounds of the inputs -/
noncomputable def outInfo (S : Sys C) (scale : ℚ) (W : Bounds) (Bp : ℝ) (F : ℤ) : Info :=
  f2 S (freshInfo C scale "dataOwner" W.img Bp F) (freshInfo C scale "modelOwner" W.kers Bp F)
    (freshInfo C scale "modelOwner" W.mats Bp F) (freshInfo C scale "modelOwner" W.b1 Bp F)
    (freshInfo C scale "modelOwner" W.fc2 Bp F) (freshInfo C scale "modelOwner" W.b2 Bp F) 8 scale 1 Bp

/-- **C49, the whole client.** On any parameters of ring degree 2^14: new parameters with the extra reference strings; keys for two or more parties that
include the two owners; image and model encrypted under the owners' keys; the network evaluated; the result decrypted. No call fails, for every
outcome of the samplers within their bounds, every iteration order of every map and every content of all scratch memories; and if the result fits
the modulus, the client reads off the class the network in the clear puts first, as long as it is ahead by more than twice the error bound. -/
theorem testCNN_ok (V : C.Valid) (hN : N / 2 = 8192) (rand : ℕ → PolyQP C) (mform : PolyQP C → PolyQP C) {B : ℤ} (hB : C.SmallBound B)
    {gs : ℕ → Nega N ℤ} (hgs : ∀ n, Bdd (gs n) B) {s r : String → Nega N ℤ} {Sb Rb : ℤ} (hs : ∀ id, Bdd (s id) Sb) (hSb : Sb ≤ B)
    (hr : ∀ id, Bdd (r id) Rb) (hRb : Rb ≤ B) (kg : KG C)
    {ids : List String} (hids : "dataOwner" ∈ ids ∧ "modelOwner" ∈ ids) {us es : ℕ → Nega N ℤ} {Bu Bg : ℤ} (hu : ∀ n, Bdd (us n) Bu)
    (hg : ∀ n, Bdd (es n) Bg) (st : Enc C) {scale : ℚ} (hsc : 0 < scale) {D : Cnn.Data} {pi pf p1 p2 pm : Cnn.Arr} {pk pms : List Cnn.Arr}
    (hD : Packed D pi pk pms pf p1 p2 pm) {W : Bounds} (hW : W.Hold pi pk pms pf p1 p2) {x : Cnn.Encoded C} {Bp : ℝ}
    (hx : EncodesAll x scale Bp pi pk pms pf p1 p2 pm) {E : Eval C} (hE : E.Ready) (mredPsi : ℕ → ℕ → ℕ) (oe : ℕ → ℕ → Sched String)
    (o : ℕ → ℕ → Cnn.Ord) (od : Sched String) {Db : ℤ} (hDb : ∀ l < C.nQ, ∀ k < C.beta l, 2 * (C.blockProd l k : ℤ) ≤ Db)
    {S0 : Sys C} {F : ℤ} (hF : F = freshNoise N Bu Bg B Sb) (hS0 : S0 = numbers (C16.crsOf (Cnn.clientCrs rand mform C.fm C.dims)) scale Sb Rb B Db)
    (hL : LevelsOk S0 (freshInfo C scale "dataOwner" W.img Bp F) (freshInfo C scale "modelOwner" W.kers Bp F)
      (freshInfo C scale "modelOwner" W.mats Bp F) (freshInfo C scale "modelOwner" W.b1 Bp F)
      (freshInfo C scale "modelOwner" W.fc2 Bp F) (freshInfo C scale "modelOwner" W.b2 Bp F) 8 scale 1 Bp)
    {Vo : ℝ} (hVo : ∀ j, ‖slotNet (cyc pi) (fun t => cyc (pk.getD t Cnn.zeros)) 8 (fun i => cyc (pms.getD i Cnn.zeros)) (cyc p1) (cyc pm) (cyc pf)
      (cyc p2) j‖ ≤ Vo)
    (hfit : 2 * ((outInfo S0 scale W Bp F).scale * Vo + (outInfo S0 scale W Bp F).B) <
      modulus C (outInfo S0 scale W Bp F).level) :
    ∃ res, Cnn.testCNN (C16.crsOf (Cnn.clientCrs rand mform C.fm C.dims)) gs s r kg ids us es st scale x E mredPsi oe o od = .ok res ∧
      Classified D (outInfo S0 scale W Bp F) res := by
  obtain ⟨w, a, w1, w2, w3, w4, w5⟩ := client_setup V hN rand mform hB hgs hs hSb hr hRb kg ids hsc hDb
  have hS := w2 KeySet.new
  obtain ⟨h1, h2⟩ := client_amounts V hN rand mform (S := ⟨C16.crsOf (Cnn.clientCrs rand mform C.fm C.dims), w.rlk, w.rks, KeySet.new, scale,
    ids.toFinset, s, r, a, Sb, Rb, B, Db⟩) rfl
  obtain ⟨i, st', i1, i2, i3, i4, i5, i6, i7, i8, i9⟩ := encryptInputs_ok V hN hS oe us es st hsc hx hW (pks := w.pks) (fun id hid => by
    have hm : id ∈ ids := by
      simp only [List.mem_cons, List.not_mem_nil, or_false] at hid
      rcases hid with rfl | rfl
      · exact hids.1
      · exact hids.2
    exact ⟨List.mem_toFinset.mpr hm, w4 id hm⟩) hu hg
  subst hS0 hF
  unfold outInfo at hfit ⊢
  rw [f2_keys w.rlk w.rks KeySet.new ids.toFinset s r a] at hfit ⊢
  have hpt : CkksPt x.mask (C.nQ - 1) ((scale : ℚ) : ℝ) (ofSlots N pm) Bp := by
    obtain ⟨m1, Φ, m2, m3⟩ := hx.mask
    have hq := V.q1
    refine ⟨by omega, Φ, fun l hl => ?_, fun j => ?_⟩
    · have := m2 l hl
      unfold Poly.coeffs at this
      rw [hx.flag] at this
      exact this
    · rw [slot_cyc V hN]; exact m3 j
  obtain ⟨out, E', rlk', c1, c2, c3, c4, c5⟩ := classify V hS hN mredPsi o od (E := E) (rlk := w.rlk) ⟨hE, rfl, w5⟩ hD i2 i3 i4 i5 i6 i7 i8 i9 hsc
    (Vp := 1) (fun j => by rw [slot_cyc V hN]; exact mask_le hD.mask j) hpt h1 h2
    (levels_keys w.rlk w.rks KeySet.new ids.toFinset s r a hL)
  obtain ⟨res, pool', d1, d2⟩ := c5 Vo hVo w.sks ⟨w3.1, fun id hid => w3.2 id (c4 hid)⟩ ckksNewDecryptor
    (by show _ < C.nQ - 1 + 1; omega) hfit
  refine ⟨(res, _), ?_, rfl, d2⟩
  unfold Cnn.testCNN
  rw [w1, bind_ok, i1, bind_ok]
  show (Cnn.forward _ o w.rlk E i.img i.kers i.mats i.fc2 i.b1 i.b2 (x.mask, scale) >>= _) = _
  rw [show (⟨scale, C16.crsOf (Cnn.clientCrs rand mform C.fm C.dims), w.rks, mredPsi⟩ : Cnn.Env C) = env (C := C) (⟨C16.crsOf (Cnn.clientCrs rand mform C.fm C.dims), w.rlk, w.rks, KeySet.new, scale,
    ids.toFinset, s, r, a, Sb, Rb, B, Db⟩) mredPsi from rfl, c1, bind_ok]
  dsimp only
  rw [d1, bind_ok]

end MKHE.C49
