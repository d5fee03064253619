import Verif.Lemmas.Decrypt
import Verif.Props.KeyGen

set_option autoImplicit false

/-!
# C17 – C21 and C24 (Encrypt): encryption and decryption

`us` and `gs` are the outputs of the ternary and the Gaussian sampler of an encryptor; the theorems hold for all of them, for every content
of its pool, and for both domains of the plaintext and of the ciphertext.
-/

namespace MKHE.C18
open Finset Nega
variable {N : ℕ} [NeZero N] {C : Ctx N}

/-- **C18, one step.** `PartialDecrypt(ct, sk)` with the key of a participant succeeds, removes exactly that id, leaves the components of
the others alone and keeps the phase under the remaining keys. -/
theorem partialDecrypt_step {ct : Ct C} {b : Bool} {level : ℕ} (hct : ct.Flag b level) (hl : level < C.nQ) {sk : SKey C}
    {s : String → Nega N ℤ} (hs : sk.Is (s sk.id)) (hid : sk.id ∈ ct.ids) :
    ∃ ct', partialDecrypt ct sk = .ok ct' ∧ ct'.Flag b level ∧ ct'.ids = ct.ids.erase sk.id ∧
      (∀ id, id ≠ "0" → id ≠ sk.id → ct'.lookup id = ct.lookup id) ∧ ∀ i ≤ level, ct'.phase s i = ct.phase s i := by
  obtain ⟨hm, hz⟩ := Ct.mem_ids.mp hid
  obtain ⟨p0, hp0⟩ := Ct.get hct.has0
  obtain ⟨p, hp⟩ := Ct.get hm
  have hl0 := hct.len0 _ hp0
  obtain ⟨ct', e1, e2, e3, e4⟩ := partialDecrypt_ok hz hp0 hp (by omega) (by rw [hl0]; exact hct.len _ _ hp)
  have hids : ct'.ids = ct.ids.erase sk.id := by
    ext id
    rw [mem_erase, Ct.mem_ids, Ct.mem_ids, ← AList.lookup_isSome, ← AList.lookup_isSome]
    by_cases h1 : id = "0"
    · simp [h1]
    · by_cases h2 : id = sk.id
      · subst h2; simp [e3]
      · rw [e4 id h1 h2]; simp [h2]
  refine ⟨ct', e1, ⟨AList.lookup_isSome.mp (by rw [e2]; rfl), fun p' hp' => ?_, fun id p' hp' => ?_, fun id p' hp' => ?_⟩, hids, e4, fun i hi => ?_⟩
  · rw [e2] at hp'; injection hp' with hp'; subst hp'; exact hl0
  · by_cases h1 : id = "0"
    · subst h1; rw [e2] at hp'; injection hp' with hp'; subst hp'; exact (hct.len "0" p0 hp0 :)
    · by_cases h2 : id = sk.id
      · subst h2; rw [e3] at hp'; cases hp'
      · rw [e4 id h1 h2] at hp'; exact hct.len _ _ hp'
  · by_cases h1 : id = "0"
    · subst h1; rw [e2] at hp'; injection hp' with hp'; subst hp'; exact (hct.flag "0" p0 hp0 :)
    · by_cases h2 : id = sk.id
      · subst h2; rw [e3] at hp'; cases hp'
      · rw [e4 id h1 h2] at hp'; exact hct.flag _ _ hp'
  · unfold Ct.phase
    rw [hids, ← sum_erase_add _ _ hid, Ct.comp_eq e2, Ct.comp_eq hp0, Ct.comp_eq hp, add_comm (∑ _ ∈ _, _), ← add_assoc]
    congr 1
    · have f0 := hct.flag _ _ hp0
      have f1 := hct.flag _ _ hp
      rw [Poly.cf_coeffs, Poly.cf_coeffs p0, Poly.set_rows_le _ _ (by omega), ← hs.q i (by omega)]
      show domVal p0.isNTT _ = _
      rw [f0, ← f1]
      exact share_val sk p i _
    · refine sum_congr rfl fun id hmem => ?_
      obtain ⟨h2, h3⟩ := mem_erase.mp hmem
      have h1 := (Ct.mem_ids.mp h3).2
      have : ct'.comp id = ct.comp id := by unfold Ct.comp; rw [e4 id h1 h2]
      rw [this]

/-- **C18, any sequence.** Partial decryptions with the keys of some participants, in any order, remove exactly these ids and keep the phase;
with all participants only the constant component is left, and it is the phase. -/
theorem partialDecrypts {ct : Ct C} {b : Bool} {level : ℕ} (hct : ct.Flag b level) (hl : level < C.nQ) {s : String → Nega N ℤ}
    (l : List (SKey C)) (hs : ∀ sk ∈ l, sk.Is (s sk.id)) (hnd : (l.map SKey.id).Nodup) (hmem : ∀ sk ∈ l, sk.id ∈ ct.ids) :
    ∃ ct', Go.loop partialDecrypt ct l = .ok ct' ∧ ct'.Flag b level ∧ ct'.ids = ct.ids \ (l.map SKey.id).toFinset ∧
      (∀ i ≤ level, ct'.phase s i = ct.phase s i) ∧
      (ct.ids = (l.map SKey.id).toFinset → ct'.keys = ["0"] ∧ ∀ i ≤ level, cf (ct'.comp "0" i) = ct.phase s i) := by
  obtain ⟨ct', e1, e2, e3, e4⟩ := Go.loop_inv partialDecrypt (fun pre (c : Ct C) => c.Flag b level ∧
      c.ids = ct.ids \ (pre.map SKey.id).toFinset ∧ ∀ i ≤ level, c.phase s i = ct.phase s i) l ct ⟨hct, by simp, fun _ _ => rfl⟩ (by
      rintro pre sk suf c hl' ⟨i1, i2, i3⟩
      have hsk : sk ∈ l := by rw [hl']; simp
      have hpre : sk.id ∉ pre.map SKey.id := by
        refine nodup_split (suf := suf.map SKey.id) hnd ?_
        rw [hl']; simp
      have hin : sk.id ∈ c.ids := by
        rw [i2, mem_sdiff, List.mem_toFinset]; exact ⟨hmem sk hsk, hpre⟩
      obtain ⟨c', a1, a2, a3, _, a5⟩ := partialDecrypt_step i1 hl (hs sk hsk) hin
      refine ⟨c', a1, a2, ?_, fun i hi => by rw [a5 i hi, i3 i hi]⟩
      rw [a3, i2]
      ext id
      simp only [mem_erase, mem_sdiff, List.map_append, List.map_cons, List.map_nil, List.toFinset_append, mem_union, List.toFinset_cons,
        List.toFinset_nil, mem_insert, notMem_empty, or_false]
      tauto)
  refine ⟨ct', e1, e2, e3, e4, fun hall => ?_⟩
  have hempty : ct'.ids = ∅ := by rw [e3, hall, Finset.sdiff_self]
  have hkeys : ∀ id, id ∈ ct'.keys ↔ id = "0" := by
    intro id
    refine ⟨fun h => ?_, fun h => h ▸ AList.mem_keys.mp e2.has0⟩
    by_contra hz
    have := Ct.mem_ids.mpr ⟨AList.mem_keys.mpr h, hz⟩
    rw [hempty] at this; simp at this
  refine ⟨?_, fun i hi => ?_⟩
  · have hnd' := ct'.keys_nodup
    refine List.perm_singleton.mp ((List.perm_ext_iff_of_nodup hnd' (List.nodup_singleton _)).mpr fun id => ?_)
    rw [hkeys, List.mem_singleton]
  · rw [← e4 i hi]
    unfold Ct.phase
    rw [hempty, sum_empty, add_zero]

/-- **C18, order.** Two orders of the same partial decryptions give the same ciphertext, word for word. -/
theorem order_irrelevant {ct : Ct C} {b : Bool} {level : ℕ} (hct : ct.Flag b level) {l l' : List (SKey C)} (hp : l.Perm l')
    (hnd : (l.map SKey.id).Nodup) (hmem : ∀ sk ∈ l, sk.id ∈ ct.ids) :
    ∃ c c', Go.loop partialDecrypt ct l = .ok c ∧ Go.loop partialDecrypt ct l' = .ok c' ∧ c.Same c' := by
  obtain ⟨p0, hp0⟩ := Ct.get hct.has0
  have hl0 : 0 < p0.len := by rw [hct.len0 _ hp0]; omega
  have hlen : ∀ id p, ct.lookup id = some p → p0.len ≤ p.len := fun id p h => by rw [hct.len0 _ hp0]; exact hct.len id p h
  obtain ⟨c, a1, a2, a3⟩ := partialDecrypts_ok hp0 hl0 hlen l hnd hmem
  obtain ⟨c', b1, b2, b3⟩ := partialDecrypts_ok hp0 hl0 hlen l' ((hp.map _).nodup_iff.mp hnd) (fun sk h => hmem sk (hp.mem_iff.mpr h))
  refine ⟨c, c', a1, b1, fun id => ?_⟩
  by_cases hz : id = "0"
  · subst hz
    rw [a2, b2]
    exact congrArg some (Poly.set_congr (fun i _ => addShares_perm _ hp i _) _)
  · rw [a3 id hz, b3 id hz]
    simp only [(hp.map SKey.id).mem_iff]

end MKHE.C18

namespace MKHE
open Finset Nega
variable {N : ℕ} [NeZero N] {C : Ctx N}

/-- the message of the panic for a missing key -/
def missingKey : Fault := .panic "Cannot Decrypt: there is a missing secretkey"

/-- the loop of the decryptors on a copy of the ciphertext, and which keys of the copy are left -/
theorem decrypt_core {ct : Ct C} {b : Bool} {level : ℕ} (hct : ct.Flag b level) {sks : KeySet (SKey C)} (hk : sks.Keyed SKey.id)
    (o1 o2 o3 : Order String) : ∃ tmp ids ct' p0', ct.copyNew o1 = .ok tmp ∧ IDSet.ofCiphertext o2 tmp = .ok ids ∧
      decryptLoop ids sks tmp (GoMap.range o3 sks.value) = .ok ct' ∧ ct'.lookup "0" = some p0' ∧ p0'.len = level + 1 ∧ p0'.isNTT = b ∧
      (1 < ct'.keys.length ↔ ∃ id ∈ ct.ids, id ∉ sks.value) ∧
      ∀ i ≤ level, domVal b (p0'.rows i) = cf (ct.comp "0" i) +
        ∑ id ∈ ct.ids with id ∈ sks.value, cf (ct.comp id i) * (C.RQ i).mv ((SKeys.at sks id).value.Q i) := by
  obtain ⟨tmp, a1, a2⟩ := Ct.copyNew_ok o1 hct.has0
  obtain ⟨ids, b1, b2⟩ := Ct.idset o2 tmp
  obtain ⟨ct', p0', e1, e2, e3, e4, e5, e6⟩ := decryptLoop_ok (a2.symm.flag hct) b2 hk o3
  refine ⟨tmp, ids, ct', p0', a1, b1, e1, e2, e3, e4, ?_, fun i hi => by rw [e6 i hi, a2.ids, a2.comp]⟩
  have h0 : "0" ∈ ct'.keys := AList.mem_keys.mp (Ct.mem_of_lookup e2)
  have hmem : ∀ id, id ≠ "0" → (id ∈ ct'.keys ↔ id ∈ ct.ids ∧ id ∉ sks.value) := by
    intro id hz
    rw [← AList.mem_keys, ← AList.lookup_isSome, e5 id hz, Ct.mem_ids, a2 id]
    by_cases h : id ∈ sks.value
    · simp [h]
    · rw [if_neg h, AList.lookup_isSome]; simp [h, hz]
  constructor
  · intro hlen
    by_contra hno
    push Not at hno
    have hall : ∀ id ∈ ct'.keys, id = "0" := by
      intro id hid
      by_contra hz
      have := (hmem id hz).mp hid
      exact this.2 (hno id this.1)
    have : ct'.keys = ["0"] := List.perm_singleton.mp ((List.perm_ext_iff_of_nodup ct'.keys_nodup (List.nodup_singleton _)).mpr fun id => by
      rw [List.mem_singleton]; exact ⟨hall id, fun h => h ▸ h0⟩)
    rw [this] at hlen; simp at hlen
  · rintro ⟨id, h1, h2⟩
    have hz := (Ct.mem_ids.mp h1).2
    have hid := (hmem id hz).mpr ⟨h1, h2⟩
    have hsub : ({"0", id} : Finset String) ⊆ ct'.keys.toFinset := by
      intro x hx
      rcases mem_insert.mp hx with rfl | hx
      · exact List.mem_toFinset.mpr h0
      · rw [mem_singleton.mp hx]; exact List.mem_toFinset.mpr hid
    have hc := card_le_card hsub
    rw [card_pair (Ne.symm hz), List.toFinset_card_of_nodup ct'.keys_nodup] at hc
    omega

theorem Ct.Flag.level {ct : Ct C} {b : Bool} {level : ℕ} (h : ct.Flag b level) : ct.level = .ok level := by
  obtain ⟨p0, hp0⟩ := Ct.get h.has0
  rw [Ct.level_ok hp0 (h.len0 _ hp0)]; rfl

/-- the outcome of `Decrypt` -/
theorem decrypt_ok {ct : Ct C} {b : Bool} {level : ℕ} (hct : ct.Flag b level) {sks : KeySet (SKey C)} (hk : sks.Keyed SKey.id)
    (o : Sched String) (pt : Poly C) :
    ((∃ id ∈ ct.ids, id ∉ sks.value) → decrypt o ct sks pt = .error missingKey) ∧
    ((∀ id ∈ ct.ids, id ∈ sks.value) → ∃ rows : QRows C, (∀ i, (rows i).Canon) ∧
      decrypt o ct sks pt = .ok { pt with len := min level (pt.len - 1) + 1, rows := setQ (min level (pt.len - 1)) rows pt.rows } ∧
      ∀ i ≤ level, domVal b (rows i) = cf (ct.comp "0" i) +
        ∑ id ∈ ct.ids, cf (ct.comp id i) * (C.RQ i).mv ((SKeys.at sks id).value.Q i)) := by
  obtain ⟨tmp, ids, ct', p0', e1, e2, e3, e4, e5, e6, e7, e8⟩ := decrypt_core hct hk (o 200) (o 201) (o 202)
  unfold decrypt
  rw [hct.level, bind_ok]
  dsimp only
  rw [e1, bind_ok, e2, bind_ok, e3, bind_ok]
  refine ⟨fun h => by rw [if_pos (e7.mpr h)]; rfl, fun h => ?_⟩
  rw [if_neg (fun hh => by obtain ⟨id, h1, h2⟩ := e7.mp hh; exact h2 (h id h1)), GoMap.deref_ok e4, bind_ok,
    Poly.need_ok (by rw [e5]; omega), bind_ok]
  refine ⟨fun i => (C.RQ i).reduce (p0'.rows i), fun i t => (C.RQ i).reduce_lt _ _, rfl, fun i hi => ?_⟩
  rw [filter_true_of_mem h] at e8
  rw [← e8 i hi]
  unfold domVal
  rw [LimbOps.ev_reduce, LimbOps.cf_reduce]

/-- a key set that has the right key of every party -/
def SKeys.Of (sks : KeySet (SKey C)) (ids : Finset String) (s : String → Nega N ℤ) : Prop :=
  sks.Keyed SKey.id ∧ ∀ id ∈ ids, ∃ sk, sks.value.lookup id = some sk ∧ sk.Is (s id)

theorem SKeys.Of.mem {sks : KeySet (SKey C)} {ids : Finset String} {s : String → Nega N ℤ} (h : SKeys.Of sks ids s) {id : String}
    (hid : id ∈ ids) : id ∈ sks.value := by
  obtain ⟨sk, h1, _⟩ := h.2 id hid
  exact GoMap.mem_iff_lookup.mpr (by rw [h1]; rfl)

theorem SKeys.Of.at_is {sks : KeySet (SKey C)} {ids : Finset String} {s : String → Nega N ℤ} (h : SKeys.Of sks ids s) {id : String}
    (hid : id ∈ ids) : (SKeys.at sks id).Is (s id) := by
  obtain ⟨sk, h1, h2⟩ := h.2 id hid
  unfold SKeys.at; rw [h1]; exact h2

end MKHE

namespace MKHE.C19
open Finset Nega
variable {N : ℕ} [NeZero N] {C : Ctx N}

/-- **C19.** `mkrlwe.Decrypt` panics if and only if some participant has no key in the set, and otherwise it succeeds: for every ciphertext
whose components are in one domain, every key set, every order in which the maps are visited. -/
theorem decrypt_detects {ct : Ct C} {b : Bool} {level : ℕ} (hct : ct.Flag b level) {sks : KeySet (SKey C)} (hk : sks.Keyed SKey.id)
    (o : Sched String) (pt : Poly C) :
    (decrypt o ct sks pt = .error missingKey ↔ ∃ id ∈ ct.ids, id ∉ sks.value) ∧
    ((∃ pt', decrypt o ct sks pt = .ok pt') ↔ ∀ id ∈ ct.ids, id ∈ sks.value) := by
  obtain ⟨h1, h2⟩ := decrypt_ok hct hk o pt
  by_cases h : ∃ id ∈ ct.ids, id ∉ sks.value
  · have e := h1 h
    refine ⟨⟨fun _ => h, fun _ => e⟩, ⟨fun ⟨pt', hh⟩ => ?_, fun hh => ?_⟩⟩
    · rw [e] at hh; cases hh
    · obtain ⟨id, ha, hb⟩ := h; exact absurd (hh id ha) hb
  · push Not at h
    obtain ⟨rows, _, e, _⟩ := h2 h
    refine ⟨⟨fun hh => ?_, fun ⟨id, ha, hb⟩ => absurd (h id ha) hb⟩, ⟨fun _ => h, fun _ => ⟨_, e⟩⟩⟩
    rw [e] at hh; cases hh

/-- the same for `mkckks.Decrypt` -/
theorem ckksDecrypt_detects {ct : CCt C} {b : Bool} {level : ℕ} (hct : ct.ct.Flag b level) {sks : KeySet (SKey C)} (hk : sks.Keyed SKey.id)
    (o : Sched String) (pool : Poly C) :
    (ckksDecrypt o pool ct sks = .error missingKey ↔ ∃ id ∈ ct.ct.ids, id ∉ sks.value) ∧
    ((∃ r, ckksDecrypt o pool ct sks = .ok r) ↔ ∀ id ∈ ct.ct.ids, id ∈ sks.value) := by
  obtain ⟨tmp, a1, a2⟩ := Ct.copyNew_ok (o 203) hct.has0
  obtain ⟨h1, h2⟩ := decrypt_detects (a2.symm.flag hct) hk o pool
  rw [a2.ids] at h1 h2
  unfold ckksDecrypt
  rw [a1, bind_ok, ← h1, ← h2]
  cases decrypt o tmp sks pool with
  | ok pt =>
    rw [bind_ok]
    refine ⟨⟨fun h => ?_, fun h => ?_⟩, ⟨fun _ => ⟨_, rfl⟩, fun _ => ⟨_, rfl⟩⟩⟩ <;> cases h
  | error e =>
    refine ⟨⟨fun h => ?_, fun h => ?_⟩, ⟨fun h => ?_, fun h => ?_⟩⟩
    · injection h with h; rw [h]
    · injection h with h; rw [h]; rfl
    · obtain ⟨_, h⟩ := h; cases h
    · obtain ⟨_, h⟩ := h; cases h

/-- **C19, BFV: the code does not detect a missing key.** `mkbfv.Decrypt` succeeds for every key set and hands the encoder
`c_0 + Σ c_id * s_id`, the sum being over the participants that have a key in the set. With all keys present this is the phase. -/
theorem bfvDecrypt_partial {ct : Ct C} {b : Bool} {level : ℕ} (hct : ct.Flag b level) (hl : level < C.nQ) {sks : KeySet (SKey C)}
    (hk : sks.Keyed SKey.id) {s : String → Nega N ℤ} (hs : ∀ id sk, sks.value.lookup id = some sk → sk.Is (s id)) (o : Sched String) :
    ∃ p, bfvDecrypt o ct sks = .ok p ∧ p.len = level + 1 ∧ p.isNTT = b ∧
      (∀ i ≤ level, cf (p.coeffs i) = cf (ct.comp "0" i) + ∑ id ∈ ct.ids with id ∈ sks.value, cf (ct.comp id i) * red (C.q i) (s id)) ∧
      ((∀ id ∈ ct.ids, id ∈ sks.value) → ∀ i ≤ level, cf (p.coeffs i) = ct.phase s i) := by
  obtain ⟨tmp, ids, ct', p0', e1, e2, e3, e4, e5, e6, _, e8⟩ := decrypt_core hct hk (o 204) (o 205) (o 206)
  unfold bfvDecrypt
  rw [e1, bind_ok, e2, bind_ok, e3, bind_ok, GoMap.deref_ok e4]
  have key : ∀ i ≤ level, cf (p0'.coeffs i) = cf (ct.comp "0" i) +
      ∑ id ∈ ct.ids with id ∈ sks.value, cf (ct.comp id i) * red (C.q i) (s id) := by
    intro i hi
    rw [Poly.cf_coeffs, e6, e8 i hi]
    congr 1
    refine sum_congr rfl fun id hid => ?_
    obtain ⟨sk, hsk⟩ := Option.isSome_iff_exists.mp (GoMap.mem_iff_lookup.mp (mem_filter.mp hid).2)
    have := (hs id sk hsk).q i (by omega)
    unfold SKeys.at
    rw [hsk, this]
  refine ⟨p0', rfl, e5, e6, key, fun h i hi => ?_⟩
  rw [key i hi, filter_true_of_mem h]; rfl

end MKHE.C19

namespace MKHE.C20
open Finset Nega
variable {N : ℕ} [NeZero N] {C : Ctx N}

/-- **C20.** With all keys present `Decrypt` returns a plaintext of level min(ciphertext level, plaintext level) whose words are reduced
and are the phase, in the domain of the ciphertext; the flag of the plaintext is left as it was. -/
theorem decrypt_value {ct : Ct C} {b : Bool} {level : ℕ} (hct : ct.Flag b level) (hl : level < C.nQ) {sks : KeySet (SKey C)}
    {s : String → Nega N ℤ} (hs : SKeys.Of sks ct.ids s) (o : Sched String) (pt : Poly C) :
    ∃ pt', decrypt o ct sks pt = .ok pt' ∧ pt'.len = min level (pt.len - 1) + 1 ∧ pt'.isNTT = pt.isNTT ∧
      (∀ i ≤ min level (pt.len - 1), (pt'.rows i).Canon) ∧
      ∀ i ≤ min level (pt.len - 1), (if b then (C.RQ i).ev (pt'.rows i) else cf (pt'.rows i)) = ct.phase s i := by
  obtain ⟨rows, h1, h2, h3⟩ := (decrypt_ok hct hs.1 o pt).2 fun id h => hs.mem h
  refine ⟨_, h2, rfl, rfl, fun i hi => ?_, fun i hi => ?_⟩
  · dsimp only; rw [setQ_le _ _ hi]; exact h1 i
  · dsimp only
    rw [setQ_le _ _ hi]
    refine (h3 i (by omega)).trans ?_
    unfold Ct.phase
    congr 1
    exact sum_congr rfl fun id hid => by rw [(hs.at_is hid).q i (by omega)]

/-- Hence the documented domain (`plaintext.Value.IsNTT`) is right if the flags agree. -/
theorem decrypt_domain_partial {ct : Ct C} {b : Bool} {level : ℕ} (hct : ct.Flag b level) (hl : level < C.nQ) {sks : KeySet (SKey C)}
    {s : String → Nega N ℤ} (hs : SKeys.Of sks ct.ids s) (o : Sched String) (pt : Poly C) (hb : pt.isNTT = b) :
    ∃ pt', decrypt o ct sks pt = .ok pt' ∧ ∀ i ≤ min level (pt.len - 1), cf (pt'.coeffs i) = ct.phase s i := by
  obtain ⟨pt', h1, _, h3, _, h5⟩ := decrypt_value hct hl hs o pt
  refine ⟨pt', h1, fun i hi => ?_⟩
  rw [Poly.cf_coeffs, h3, hb, ← h5 i hi]; rfl

end MKHE.C20

namespace MKHE.C17
open Finset Nega
variable {N : ℕ} [NeZero N] {C : Ctx N}

/-- `pk` is a public key of the secret `s` with error `e`: `b + a*s = e` modulo every prime of Q (what `GenPublicKey` returns, C12) -/
def PubKey (pk : PKey C) (s e : Nega N ℤ) : Prop :=
  ∀ i < C.nQ, (C.RQ i).ev (pk.v0.Q i) + (C.RQ i).ev (pk.v1.Q i) * red (C.q i) s = red (C.q i) e

/-- a ciphertext that can receive an encryption for the party `id`: components "0" and `id` only, "0" at level `lo` in the domain `b`
(true: NTT), the other one at that level or above, in any domain -/
structure Receiver (id : String) (b : Bool) (lo : ℕ) (ct : Ct C) : Prop where
  ids : ct.ids = {id}
  comp0 : ∃ p, ct.lookup "0" = some p ∧ p.len = lo + 1 ∧ p.isNTT = b
  comp1 : ∃ p, ct.lookup id = some p ∧ lo < p.len

/-- **C17, encryption.** For every plaintext `m` of any domain and level, every receiver, samples bounded by `Bu` and `Bg`: `Encrypt`
succeeds; the result is a ciphertext of the owner in the receiver's domain, at the smaller of the two levels, whose phase is
`m + u*e + e0 + e1*s`. -/
theorem encrypt_phase (us gs : ℕ → Nega N ℤ) (st : Enc C) {pt : Poly C} (hpt : 0 < pt.len) {pk : PKey C} {s : String → Nega N ℤ}
    {e : Nega N ℤ} (hpk : PubKey pk (s pk.id) e) {ctOut : Ct C} {b : Bool} {lo : ℕ} (hout : Receiver pk.id b lo ctOut)
    (hl : min (pt.len - 1) lo < C.nQ) :
    ∃ ct st', encrypt us gs st pt pk ctOut = .ok (ct, st') ∧ ct.ids = {pk.id} ∧ ct.Flag b (min (pt.len - 1) lo) ∧
      ∃ e0 e1, (e0 = gs st.gpos ∧ e1 = gs (st.gpos + 1) ∨ e1 = gs st.gpos ∧ e0 = gs (st.gpos + 1)) ∧
        ∀ i ≤ min (pt.len - 1) lo, ct.phase s i = cf (pt.coeffs i) + red (C.q i) (us st.upos * e + e0 + e1 * s pk.id) := by
  obtain ⟨p0, h0, hl0, hb⟩ := hout.comp0
  obtain ⟨p1, h1, hl1⟩ := hout.comp1
  have hid : pk.id ≠ "0" := (Ct.mem_ids.mp (show pk.id ∈ ctOut.ids by rw [hout.ids]; simp)).2
  obtain ⟨ct, st', a1, _, _, a4, a5, a6⟩ := encrypt_ok us gs st hpt hid h0 h1 (by omega) (by omega)
  have e0l : (p0.len - 1) = lo := by omega
  rw [e0l] at a4 a5
  have hids : ct.ids = {pk.id} := by
    rw [← hout.ids]
    ext id
    rw [Ct.mem_ids, Ct.mem_ids, ← AList.lookup_isSome, ← AList.lookup_isSome]
    by_cases hz : id = "0"
    · simp [hz]
    · by_cases hi : id = pk.id
      · subst hi; rw [a5, h1]; simp
      · rw [a6 id hz hi]
  have hlk : ∀ id p, ct.lookup id = some p → id = "0" ∨ id = pk.id := fun id p h => by
    by_cases hz : id = "0"
    · exact .inl hz
    · have : id ∈ ct.ids := Ct.mem_ids.mpr ⟨Ct.mem_of_lookup h, hz⟩
      rw [hids, mem_singleton] at this; exact .inr this
  have hlen0 : (enc0 pt pk.v0.Q (us st.upos) (encE0 gs st.gpos p0.isNTT) (min (pt.len - 1) lo) p0).len = min (pt.len - 1) lo + 1 := by
    unfold enc0; split_ifs <;> rfl
  have hlen1 : (enc1 pk.v1.Q (us st.upos) (encE1 gs st.gpos p0.isNTT) (min (pt.len - 1) lo) p0 p1).len = min (pt.len - 1) lo + 1 := by
    unfold enc1; split_ifs <;> rfl
  have hf0 : (enc0 pt pk.v0.Q (us st.upos) (encE0 gs st.gpos p0.isNTT) (min (pt.len - 1) lo) p0).isNTT = b := by
    rw [← hb]; unfold enc0; split_ifs <;> rfl
  have hf1 : (enc1 pk.v1.Q (us st.upos) (encE1 gs st.gpos p0.isNTT) (min (pt.len - 1) lo) p0 p1).isNTT = b := by
    rw [← hb]; unfold enc1; split_ifs with h
    · exact h.symm
    · simpa using h
  refine ⟨ct, st', a1, hids, ⟨Ct.mem_of_lookup a4, fun p hp => ?_, fun id p hp => ?_, fun id p hp => ?_⟩,
    encE0 gs st.gpos p0.isNTT, encE1 gs st.gpos p0.isNTT, ?_, fun i hi => ?_⟩
  · rw [a4] at hp; injection hp with hp; rw [← hp, hlen0]
  · rcases hlk id p hp with rfl | rfl
    · rw [a4] at hp; injection hp with hp; rw [← hp, hlen0]; omega
    · rw [a5] at hp; injection hp with hp; rw [← hp, hlen1]; omega
  · rcases hlk id p hp with rfl | rfl
    · rw [a4] at hp; injection hp with hp; rw [← hp, hf0]
    · rw [a5] at hp; injection hp with hp; rw [← hp, hf1]
  · unfold encE0 encE1
    cases p0.isNTT
    · exact .inl ⟨rfl, rfl⟩
    · exact .inr ⟨rfl, rfl⟩
  · unfold Ct.phase
    rw [hids, sum_singleton, Ct.comp_eq a4, Ct.comp_eq a5, enc0_cf _ _ _ _ _ _ hi, enc1_cf _ _ _ _ _ _ hi]
    rw [map_add, map_add, map_mul, map_mul, ← hpk i (by omega)]
    ring

/-- the size of the encryption noise -/
theorem noise_bound {u e e0 e1 s : Nega N ℤ} {Bu Be Bg Bs : ℤ} (hu : Bdd u Bu) (he : Bdd e Be) (h0 : Bdd e0 Bg) (h1 : Bdd e1 Bg)
    (hs : Bdd s Bs) : Bdd (u * e + e0 + e1 * s) (N * Bu * Be + Bg + N * Bg * Bs) := ((hu.mul he).add h0).add (h1.mul hs)

/-- **C17.** Encrypting `m` under a public key of `s` and decrypting with a key set that has the owner's key returns, modulo every prime up
to the common level, `m + E` in the domain of the ciphertext, with `|E| ≤ N*Bu*Be + Bg + N*Bg*Bs`. The same `E` serves for all primes. -/
theorem encrypt_decrypt (us gs : ℕ → Nega N ℤ) (st : Enc C) {pt : Poly C} (hpt : 0 < pt.len) {pk : PKey C} {s : String → Nega N ℤ}
    {e : Nega N ℤ} (hpk : PubKey pk (s pk.id) e) {ctOut : Ct C} {b : Bool} {lo : ℕ} (hout : Receiver pk.id b lo ctOut)
    (hl : min (pt.len - 1) lo < C.nQ) {Bu Be Bg Bs : ℤ} (hu : ∀ n, Bdd (us n) Bu) (hg : ∀ n, Bdd (gs n) Bg) (he : Bdd e Be)
    (hs : Bdd (s pk.id) Bs) {sks : KeySet (SKey C)} (hsk : SKeys.Of sks {pk.id} s) (o : Sched String) (ptOut : Poly C) :
    ∃ ct st' pt', encrypt us gs st pt pk ctOut = .ok (ct, st') ∧ decrypt o ct sks ptOut = .ok pt' ∧
      pt'.len = min (min (pt.len - 1) lo) (ptOut.len - 1) + 1 ∧
      ∃ E : Nega N ℤ, Bdd E (N * Bu * Be + Bg + N * Bg * Bs) ∧ ∀ i < pt'.len,
        (if b then (C.RQ i).ev (pt'.rows i) else cf (pt'.rows i)) = cf (pt.coeffs i) + red (C.q i) E := by
  obtain ⟨ct, st', a1, a2, a3, e0, e1, a4, a5⟩ := encrypt_phase us gs st hpt hpk hout hl
  obtain ⟨pt', b1, b2, _, _, b5⟩ := C20.decrypt_value a3 hl (s := s) (sks := sks) (by rw [a2]; exact hsk) o ptOut
  refine ⟨ct, st', pt', a1, b1, b2, us st.upos * e + e0 + e1 * s pk.id, noise_bound (hu _) he ?_ ?_ hs, fun i hi => ?_⟩
  · rcases a4 with ⟨h, _⟩ | ⟨_, h⟩ <;> rw [h] <;> exact hg _
  · rcases a4 with ⟨_, h⟩ | ⟨h, _⟩ <;> rw [h] <;> exact hg _
  · rw [b5 i (by omega), a5 i (by omega)]

theorem PubKey.of_gen {pk : PKey C} {s e : Nega N ℤ}
    (h : ∀ i < C.nQ, (C.RQ i).ev (pk.v0.Q i) + (C.RQ i).ev (pk.v1.Q i) * red (C.q i) s = red (C.q i) e) : PubKey pk s e := h

/-- The whole way: a key pair from `GenKeyPair`, a ciphertext from `Encrypt`, the plaintext from `Decrypt`. -/
theorem genKeyPair_encrypt_decrypt (V : C.Valid) {B : ℤ} (hB : C.SmallBound B) {gk : ℕ → Nega N ℤ} (hgk : ∀ n, Bdd (gk n) B) (kg : KG C)
    {sp : Nega N ℤ} (hsp : Bdd sp B) {id : String} {crs : GoMap ℤ (Swk C)} {a : Swk C} (ha : crs.lookup 0 = some a) (hlen : 0 < a.len)
    {us gs : ℕ → Nega N ℤ} {Bu Bg : ℤ} (hu : ∀ n, Bdd (us n) Bu) (hg : ∀ n, Bdd (gs n) Bg) (st : Enc C) {pt : Poly C} (hpt : 0 < pt.len)
    {ctOut : Ct C} {b : Bool} {lo : ℕ} (hout : Receiver id b lo ctOut) (hl : min (pt.len - 1) lo < C.nQ) (o : Sched String) (ptOut : Poly C) :
    ∃ sk pk kg' ct st' pt', genKeyPair crs gk kg sp id = .ok (sk, pk, kg') ∧ encrypt us gs st pt pk ctOut = .ok (ct, st') ∧
      decrypt o ct (KeySet.new.add SKey.id sk) ptOut = .ok pt' ∧ pt'.len = min (min (pt.len - 1) lo) (ptOut.len - 1) + 1 ∧
      ∃ E : Nega N ℤ, Bdd E (N * Bu * B + Bg + N * Bg * B) ∧ ∀ i < pt'.len,
        (if b then (C.RQ i).ev (pt'.rows i) else cf (pt'.rows i)) = cf (pt.coeffs i) + red (C.q i) E := by
  obtain ⟨sk, pk, kg', a1, a2, a3, a4, _, a5⟩ := C12.keyPair V hB hgk kg hsp id ha hlen
  subst a4
  obtain ⟨ct, st', pt', b1, b2, b3, b4⟩ := encrypt_decrypt us gs st hpt (s := fun _ => sp) (PubKey.of_gen a5) hout hl hu hg (hgk kg.pos) hsp
    (sks := KeySet.new.add SKey.id sk) ⟨(KeySet.keyed_new _).add sk, fun id hid => ⟨sk, by
      unfold KeySet.add; rw [GoMap.lookup_insert', if_pos (by rw [mem_singleton.mp hid, a3])], a2⟩⟩ o ptOut
  exact ⟨sk, pk, kg', ct, st', pt', a1, b1, b2, b3, b4⟩

theorem newReceiver (o : Order String) {id : String} (hid : id ≠ "0") (level : ℕ) : ∃ ids, IDSet.new.add id = .ok ids ∧
    Receiver id false level (Ct.new o ids level : Ct C) := by
  refine ⟨_, by unfold IDSet.add; rw [if_neg hid], ?_, ?_, ?_⟩
  · refine Ct.new_ids o (fun id' => ?_) (by simpa using hid.symm) level
    unfold IDSet.has
    rw [GoMap.lookup_insert', mem_singleton]
    split_ifs with h
    · simp [h]
    · simp [h, IDSet.new]
  · exact ⟨_, by rw [Ct.new_lookup, if_pos (.inl rfl)], rfl, rfl⟩
  · refine ⟨_, by rw [Ct.new_lookup, if_pos (.inr ?_)], Nat.lt_succ_self _⟩
    unfold IDSet.has; rw [GoMap.lookup_insert', if_pos rfl]; rfl

/-- `EncryptMsgNew` of mkckks, after the encoding: a ciphertext of the owner in coefficient form at the plaintext's level -/
theorem ckksEncryptNew_phase (V : C.Valid) (o : Sched String) (us gs : ℕ → Nega N ℤ) (st : Enc C) {pt : Poly C} (hpt : 0 < pt.len) (scale : ℚ)
    {pk : PKey C} (hid : pk.id ≠ "0") {s : String → Nega N ℤ} {e : Nega N ℤ} (hpk : PubKey pk (s pk.id) e) :
    ∃ ct st', ckksEncryptNew o us gs st pt scale pk = .ok (⟨ct, scale⟩, st') ∧ ct.ids = {pk.id} ∧ ct.Flag false (min (pt.len - 1) (C.nQ - 1)) ∧
      ∃ e0 e1, (e0 = gs st.gpos ∧ e1 = gs (st.gpos + 1) ∨ e1 = gs st.gpos ∧ e0 = gs (st.gpos + 1)) ∧
        ∀ i ≤ min (pt.len - 1) (C.nQ - 1), ct.phase s i = cf (pt.coeffs i) + red (C.q i) (us st.upos * e + e0 + e1 * s pk.id) := by
  obtain ⟨ids, a1, a2⟩ := newReceiver (C := C) (o 207) hid (C.nQ - 1)
  have := V.q1
  obtain ⟨ct, st', b1, b2⟩ := encrypt_phase us gs st hpt hpk a2 (by omega)
  unfold ckksEncryptNew ckksEncryptPtxt
  rw [a1, bind_ok, b1, bind_ok]
  exact ⟨ct, st', rfl, b2⟩

/-- `EncryptMsgNew` of mkbfv, after the encoding -/
theorem bfvEncryptNew_phase (V : C.Valid) (o : Sched String) (us gs : ℕ → Nega N ℤ) (st : Enc C) {pt : Poly C} (hpt : 0 < pt.len)
    {pk : PKey C} (hid : pk.id ≠ "0") {s : String → Nega N ℤ} {e : Nega N ℤ} (hpk : PubKey pk (s pk.id) e) :
    ∃ ct st', bfvEncryptNew o us gs st pt pk = .ok (ct, st') ∧ ct.ids = {pk.id} ∧ ct.Flag false (min (pt.len - 1) (C.nQ - 1)) ∧
      ∃ e0 e1, (e0 = gs st.gpos ∧ e1 = gs (st.gpos + 1) ∨ e1 = gs st.gpos ∧ e0 = gs (st.gpos + 1)) ∧
        ∀ i ≤ min (pt.len - 1) (C.nQ - 1), ct.phase s i = cf (pt.coeffs i) + red (C.q i) (us st.upos * e + e0 + e1 * s pk.id) := by
  obtain ⟨ids, a1, a2⟩ := newReceiver (C := C) (o 207) hid (C.nQ - 1)
  have := V.q1
  obtain ⟨ct, st', b1, b2⟩ := encrypt_phase us gs st hpt hpk a2 (by omega)
  unfold bfvEncryptNew
  rw [a1, bind_ok, b1]
  exact ⟨ct, st', rfl, b2⟩

end MKHE.C17

namespace MKHE.C24
open Finset Nega
variable {N : ℕ} [NeZero N] {C : Ctx N}

/-- **C24, Encrypt.** The result and the consumed samples do not depend on what earlier calls left in the encryptor's pool. -/
theorem encrypt_deterministic (us gs : ℕ → Nega N ℤ) (st : Enc C) (pool' : QRows C) {pt : Poly C} (hpt : 0 < pt.len) {pk : PKey C}
    {ctOut : Ct C} {b : Bool} {lo : ℕ} (hout : C17.Receiver pk.id b lo ctOut) :
    ∃ ct ct' s1 s2, encrypt us gs st pt pk ctOut = .ok (ct, s1) ∧ encrypt us gs { st with pool := pool' } pt pk ctOut = .ok (ct', s2) ∧
      ct.Same ct' ∧ s1.upos = s2.upos ∧ s1.gpos = s2.gpos := by
  obtain ⟨p0, h0, hl0, hb⟩ := hout.comp0
  obtain ⟨p1, h1, hl1⟩ := hout.comp1
  have hid : pk.id ≠ "0" := (Ct.mem_ids.mp (show pk.id ∈ ctOut.ids by rw [hout.ids]; simp)).2
  obtain ⟨ct, s1, a1, a2, a3, a4, a5, a6⟩ := encrypt_ok us gs st hpt hid h0 h1 (by omega) (by omega)
  obtain ⟨ct', s2, b1, b2, b3, b4, b5, b6⟩ := encrypt_ok us gs { st with pool := pool' } hpt hid h0 h1 (by omega) (by omega)
  refine ⟨ct, ct', s1, s2, a1, b1, fun id => ?_, by rw [a2, b2], by rw [a3, b3]⟩
  by_cases hz : id = "0"
  · subst hz; rw [a4, b4]
  · by_cases hi : id = pk.id
    · subst hi; rw [a5, b5]
    · rw [a6 id hz hi, b6 id hz hi]

/-- the accessible rows of the result do not depend on what the receiver held before, only on its levels and domain -/
theorem encrypt_overwrites (us gs : ℕ → Nega N ℤ) (st : Enc C) {pt : Poly C} (hpt : 0 < pt.len) {pk : PKey C}
    {c1 c2 : Ct C} {b : Bool} {lo : ℕ} (h1 : C17.Receiver pk.id b lo c1) (h2 : C17.Receiver pk.id b lo c2) :
    ∃ r1 r2 s1 s2, encrypt us gs st pt pk c1 = .ok (r1, s1) ∧ encrypt us gs st pt pk c2 = .ok (r2, s2) ∧
      ∀ id ∈ ({"0", pk.id} : Finset String), ∃ a a', r1.lookup id = some a ∧ r2.lookup id = some a' ∧ a.len = a'.len ∧ a.isNTT = a'.isNTT ∧
        ∀ i < a.len, a.rows i = a'.rows i := by
  obtain ⟨p0, x0, y0, z0⟩ := h1.comp0
  obtain ⟨p1, x1, y1⟩ := h1.comp1
  obtain ⟨p0', x0', y0', z0'⟩ := h2.comp0
  obtain ⟨p1', x1', y1'⟩ := h2.comp1
  have hid : pk.id ≠ "0" := (Ct.mem_ids.mp (show pk.id ∈ c1.ids by rw [h1.ids]; simp)).2
  obtain ⟨r1, s1, a1, _, _, a4, a5, _⟩ := encrypt_ok us gs st hpt hid x0 x1 (by omega) (by omega)
  obtain ⟨r2, s2, b1, _, _, b4, b5, _⟩ := encrypt_ok us gs st hpt hid x0' x1' (by omega) (by omega)
  rw [y0, z0] at a4 a5
  rw [y0', z0'] at b4 b5
  refine ⟨r1, r2, s1, s2, a1, b1, fun id hm => ?_⟩
  rcases mem_insert.mp hm with rfl | hm
  · refine ⟨_, _, a4, b4, ?_, ?_, fun i hi => ?_⟩
    · unfold enc0; rw [z0, z0']; cases b <;> rfl
    · unfold enc0; rw [z0, z0']; cases b
      · exact z0.trans z0'.symm
      · exact z0.trans z0'.symm
    · unfold enc0 at hi ⊢
      rw [z0] at hi
      rw [z0, z0']
      cases b with
      | true =>
        simp only [if_true] at hi ⊢
        rw [Poly.set_rows_le _ _ (by omega), Poly.set_rows_le _ _ (by omega)]
      | false =>
        simp only [Bool.false_eq_true, if_false] at hi ⊢
        rw [Poly.set_rows_le _ _ (by omega), Poly.set_rows_le _ _ (by omega)]
  · rw [mem_singleton.mp hm]
    refine ⟨_, _, a5, b5, ?_, ?_, fun i hi => ?_⟩
    · unfold enc1; rw [z0, z0']; cases b <;> rfl
    · unfold enc1; rw [z0, z0']; cases b <;> rfl
    · unfold enc1 at hi ⊢
      rw [z0] at hi
      rw [z0, z0']
      cases b with
      | true =>
        simp only [if_true] at hi ⊢
        rw [Poly.set_rows_le _ _ (by omega), Poly.set_rows_le _ _ (by omega)]
      | false =>
        simp only [Bool.false_eq_true, if_false] at hi ⊢
        rw [Poly.set_rows_le _ _ (by omega), Poly.set_rows_le _ _ (by omega)]

end MKHE.C24

namespace MKHE.C21
open Finset Nega
variable {N : ℕ} [NeZero N] {C : Ctx N}

/-- one use of a `mkckks.Decryptor`: the ciphertext, its level, the key set, and the iteration orders -/
structure Use (C : Ctx N) where
  ord : Sched String
  ct : CCt C
  level : ℕ
  sks : KeySet (SKey C)

/-- a call that succeeds (C19): ciphertext in coefficient form at this level, all keys present -/
structure Use.Ok (u : Use C) : Prop where
  flag : u.ct.ct.Flag false u.level
  keyed : u.sks.Keyed SKey.id
  keys : ∀ id ∈ u.ct.ct.ids, id ∈ u.sks.value

/-- the decryptor after a history of calls -/
def after (pool : Poly C) (h : List (Use C)) : Go (Poly C) :=
  Go.loop (fun pool u => do
    let r ← ckksDecrypt u.ord pool u.ct u.sks
    .ok r.2) pool h

/-- one call: what is decoded depends on the decryptor only through the length of its plaintext -/
theorem decrypt_once {u : Use C} (hu : u.Ok) : ∃ rows : QRows C, (∀ i, (rows i).Canon) ∧
    (∀ i ≤ u.level, cf (rows i) = cf (u.ct.ct.comp "0" i) +
      ∑ id ∈ u.ct.ct.ids, cf (u.ct.ct.comp id i) * (C.RQ i).mv ((SKeys.at u.sks id).value.Q i)) ∧
    ∀ pool : Poly C, ∃ pt, ckksDecrypt u.ord pool u.ct u.sks = .ok ((pt, u.ct.scale), pt) ∧ pt.len = min u.level (pool.len - 1) + 1 ∧
      pt.isNTT = pool.isNTT ∧ ∀ i < pt.len, pt.rows i = rows i := by
  obtain ⟨tmp, a1, a2⟩ := Ct.copyNew_ok (u.ord 203) hu.flag.has0
  have hk : ∀ id ∈ tmp.ids, id ∈ u.sks.value := by rw [a2.ids]; exact hu.keys
  have hd := fun pool => (decrypt_ok (a2.symm.flag hu.flag) hu.keyed u.ord pool).2 hk
  obtain ⟨rows, b1, _, b3⟩ := hd (Poly.new u.level)
  refine ⟨rows, b1, fun i hi => by have := b3 i hi; rw [a2.ids, a2.comp] at this; exact this, fun pool => ?_⟩
  obtain ⟨rows', c1, c2, c3⟩ := hd pool
  refine ⟨⟨min u.level (pool.len - 1) + 1, pool.isNTT, setQ (min u.level (pool.len - 1)) rows' pool.rows⟩,
    by unfold ckksDecrypt; rw [a1, bind_ok, c2, bind_ok], rfl, rfl, fun i hi => ?_⟩
  dsimp only at hi ⊢
  rw [setQ_le _ _ (by omega)]
  have e1 := b3 i (by omega)
  have e2 := c3 i (by omega)
  exact cf_inj (c1 i) (b1 i) (e2.trans e1.symm)

/-- **C21: the level of the decryptor's plaintext after any history** is the smallest level seen, counting the initial one. -/
theorem after_history (h : List (Use C)) (hh : ∀ u ∈ h, u.Ok) (pool : Poly C) (hp : 0 < pool.len) :
    ∃ pool', after pool h = .ok pool' ∧ pool'.isNTT = pool.isNTT ∧ 0 < pool'.len ∧
      ∀ n, n < pool'.len ↔ n < pool.len ∧ ∀ u ∈ h, n ≤ u.level := by
  unfold after
  obtain ⟨pool', e1, e2⟩ := Go.loop_inv (fun (pool : Poly C) (u : Use C) => (do
      let r ← ckksDecrypt u.ord pool u.ct u.sks
      .ok r.2 : Go (Poly C)))
    (fun pre p => p.isNTT = pool.isNTT ∧ 0 < p.len ∧ ∀ n, n < p.len ↔ n < pool.len ∧ ∀ u ∈ pre, n ≤ u.level) h pool
    ⟨rfl, hp, by simp⟩ (by
      rintro pre u suf p hl ⟨i1, i2, i3⟩
      obtain ⟨_, _, _, h4⟩ := decrypt_once (hh u (by rw [hl]; simp))
      obtain ⟨pt, c1, c2, c3, _⟩ := h4 p
      refine ⟨pt, by rw [c1, bind_ok], by rw [c3, i1], by omega, fun n => ?_⟩
      rw [c2]
      simp only [List.mem_append, List.mem_singleton]
      constructor
      · intro hn
        have h5 := (i3 n).mp (by omega)
        refine ⟨h5.1, fun v hv => ?_⟩
        rcases hv with hv | rfl
        · exact h5.2 v hv
        · omega
      · rintro ⟨h5, h6⟩
        have h7 := (i3 n).mpr ⟨h5, fun v hv => h6 v (.inl hv)⟩
        have h8 := h6 u (.inr rfl)
        omega)
  exact ⟨pool', e1, e2⟩

/-- **C21, partial**: if no earlier ciphertext had a smaller level, `Decrypt` decodes exactly what a new decryptor decodes. Missing: the
independence from histories with smaller levels, which is false (`history_matters`). -/
theorem history_partial (V : C.Valid) (h : List (Use C)) (hh : ∀ u ∈ h, u.Ok) {u : Use C} (hu : u.Ok) (hl : u.level < C.nQ)
    (hmin : ∀ v ∈ h, u.level ≤ v.level) :
    ∃ pool pt pt', after ckksNewDecryptor h = .ok pool ∧ ckksDecrypt u.ord pool u.ct u.sks = .ok ((pt, u.ct.scale), pt) ∧
      ckksDecrypt u.ord ckksNewDecryptor u.ct u.sks = .ok ((pt', u.ct.scale), pt') ∧
      pt.len = u.level + 1 ∧ pt'.len = u.level + 1 ∧ pt.isNTT = pt'.isNTT ∧ ∀ i < pt.len, pt.rows i = pt'.rows i := by
  have hq := V.q1
  have hnew : (ckksNewDecryptor : Poly C).len = C.nQ - 1 + 1 := rfl
  obtain ⟨pool, a1, a2, a3, a4⟩ := after_history h hh (ckksNewDecryptor : Poly C) (by omega)
  obtain ⟨rows, _, _, h4⟩ := decrypt_once hu
  obtain ⟨pt, b1, b2, b3, b4⟩ := h4 pool
  obtain ⟨pt', c1, c2, c3, c4⟩ := h4 ckksNewDecryptor
  have hlt := (a4 u.level).mpr ⟨by omega, hmin⟩
  refine ⟨pool, pt, pt', a1, b1, c1, by omega, by omega, by rw [b3, c3, a2], fun i hi => ?_⟩
  rw [b4 i hi, c4 i (by omega)]

/-- **C21 is false of the code**: after any call with a ciphertext of smaller level, `Decrypt` decodes at that smaller level, while a new
decryptor decodes at the level of the ciphertext. -/
theorem history_matters {u v : Use C} (hu : u.Ok) (hv : v.Ok) (hl : u.level < C.nQ) (hlt : v.level < u.level) :
    ∃ pool pt pt', after ckksNewDecryptor [v] = .ok pool ∧ ckksDecrypt u.ord pool u.ct u.sks = .ok ((pt, u.ct.scale), pt) ∧
      ckksDecrypt u.ord ckksNewDecryptor u.ct u.sks = .ok ((pt', u.ct.scale), pt') ∧ pt.len = v.level + 1 ∧ pt'.len = u.level + 1 := by
  have hnew : (ckksNewDecryptor : Poly C).len = C.nQ - 1 + 1 := rfl
  obtain ⟨pool, a1, _, a3, a4⟩ := after_history [v] (by simpa using hv) (ckksNewDecryptor : Poly C) (by omega)
  obtain ⟨rows, _, _, h4⟩ := decrypt_once hu
  obtain ⟨pt, b1, b2, b3, b4⟩ := h4 pool
  obtain ⟨pt', c1, c2, c3, c4⟩ := h4 ckksNewDecryptor
  have h1 := (a4 v.level).mpr ⟨by omega, by simp⟩
  have h2 : ¬ v.level + 1 < pool.len := fun h => by
    have := ((a4 _).mp h).2 v (by simp); omega
  exact ⟨pool, pt, pt', a1, b1, c1, by omega, by omega⟩

end MKHE.C21

namespace MKHE.Ex
open MKHE Finset Nega
variable (fm : FloatModel)

/-- the key set of the two parties -/
noncomputable def sks : KeySet (SKey (ctx fm)) := (KeySet.new.add SKey.id (skey fm "a")).add SKey.id (skey fm "b")
/-- a key set with one key only -/
noncomputable def sksB : KeySet (SKey (ctx fm)) := KeySet.new.add SKey.id (skey fm "b")

theorem sks_lookup (id : String) : (sks fm).value.lookup id = if id = "b" then some (skey fm "b") else if id = "a" then some (skey fm "a") else none := by
  have : (sks fm).value = AList.insert "b" (skey fm "b") (AList.insert "a" (skey fm "a") ∅) := rfl
  rw [this, GoMap.lookup_insert', GoMap.lookup_insert']; rfl

theorem sks_of : SKeys.Of (sks fm) {"a", "b"} sec := by
  refine ⟨((KeySet.keyed_new _).add _).add _, fun id hid => ?_⟩
  rw [mem_insert, mem_singleton] at hid
  rcases hid with rfl | rfl
  · exact ⟨_, by rw [sks_lookup]; rfl, skey_is fm "a"⟩
  · exact ⟨_, by rw [sks_lookup]; rfl, skey_is fm "b"⟩

/-- C18 and C20 for a ciphertext of two parties -/
example := C18.partialDecrypts (ctAB_at fm 2 1).toFlag (by show 2 < 3; norm_num) [skey fm "b", skey fm "a"] (s := sec) (by
  intro sk h
  rcases List.mem_cons.mp h with rfl | h
  · exact skey_is fm "b"
  · rw [List.mem_singleton.mp h]; exact skey_is fm "a") (by show ["b", "a"].Nodup; decide) (by
  intro sk h
  rw [ctAB_ids]
  rcases List.mem_cons.mp h with rfl | h
  · show "b" ∈ _; decide
  · rw [List.mem_singleton.mp h]; show "a" ∈ _; decide)

example (o : Sched String) (pt : Poly (ctx fm)) := C20.decrypt_value (ctAB_at fm 2 1).toFlag (by show 2 < 3; norm_num)
  (by rw [ctAB_ids]; exact sks_of fm) o pt

/-- C19: without the key of "a" `Decrypt` panics, the BFV decryptor does not -/
theorem bfv_missing_key (o : Sched String) (pt : Poly (ctx fm)) :
    decrypt o (ctAB fm 3 1) (sksB fm) pt = .error missingKey ∧ ∃ p, bfvDecrypt o (ctAB fm 3 1) (sksB fm) = .ok p := by
  have hk : (sksB fm).Keyed SKey.id := (KeySet.keyed_new _).add _
  have hlk : ∀ id, (sksB fm).value.lookup id = if id = "b" then some (skey fm "b") else none := fun id => by
    have : (sksB fm).value = AList.insert "b" (skey fm "b") ∅ := rfl
    rw [this, GoMap.lookup_insert']; rfl
  refine ⟨((C19.decrypt_detects (ctAB_at fm 2 1).toFlag hk o pt).1).mpr ⟨"a", by rw [ctAB_ids]; decide, ?_⟩, ?_⟩
  · rw [GoMap.mem_iff_lookup, hlk]; simp
  · obtain ⟨p, h, _⟩ := C19.bfvDecrypt_partial (ctAB_at fm 2 1).toFlag (by show 2 < 3; norm_num) hk (s := sec) (by
      intro id sk h
      rw [hlk] at h
      split_ifs at h with e
      injection h with h; subst h; rw [e]; exact skey_is fm "b") o
    exact ⟨p, h⟩

/-- a new receiver in NTT form -/
noncomputable def recv (b : Bool) (n : ℕ) : Ct (ctx fm) :=
  AList.insert "a" ⟨3, !b, fun _ => row _ n⟩ (AList.insert "0" ⟨3, b, fun _ => row _ (n + 1)⟩ ∅)

theorem recv_ok (b : Bool) (n : ℕ) : C17.Receiver "a" b 2 (recv fm b n) where
  ids := by
    ext id
    rw [Ct.mem_ids, ← AList.lookup_isSome]
    unfold recv
    rw [GoMap.lookup_insert', GoMap.lookup_insert', mem_singleton]
    by_cases h : id = "a"
    · subst h; simp
    · by_cases h0 : id = "0"
      · subst h0; simp
      · simp [h, h0]
  comp0 := ⟨⟨3, b, fun _ => row _ (n + 1)⟩, by unfold recv; rw [GoMap.lookup_insert', GoMap.lookup_insert']; rfl, rfl, rfl⟩
  comp1 := ⟨⟨3, !b, fun _ => row _ n⟩, by unfold recv; rw [GoMap.lookup_insert']; rfl, by show 2 < 3; norm_num⟩

/-- C17: key generation, encryption into a receiver of any domain full of stale words, decryption -/
example (b : Bool) (o : Sched String) (st : Enc (ctx fm)) := C17.genKeyPair_encrypt_decrypt (valid fm) (small fm) err_bdd (kg fm)
  ((sec_bdd "a").mono (by norm_num)) (id := "a") (crs_0 fm) (by norm_num) (us := fun n => sec (if n = 0 then "a" else "b")) (gs := err)
  (fun n => sec_bdd _) err_bdd st (pt := poly fm 2 5) (by show 0 < 2; norm_num) (recv_ok fm b 4) (by show min (2 - 1) 2 < 3; norm_num) o
  (poly fm 3 0)

theorem use_ok (o : Sched String) (level : ℕ) (sc : ℚ) : C21.Use.Ok ⟨o, ⟨ctAB fm (level + 1) 1, sc⟩, level, sks fm⟩ where
  flag := (ctAB_at fm level 1).toFlag
  keyed := (sks_of fm).1
  keys := by
    show ∀ id ∈ (ctAB fm (level + 1) 1).ids, _
    rw [ctAB_ids]; exact fun id h => (sks_of fm).mem h

/-- C21: a level 0 ciphertext first, then one of level 2: one row is decoded instead of three -/
theorem history_matters_example (o : Sched String) : ∃ pool pt pt' : Poly (ctx fm),
    C21.after ckksNewDecryptor [⟨o, ⟨ctAB fm 1 1, 5⟩, 0, sks fm⟩] = .ok pool ∧
    ckksDecrypt o pool ⟨ctAB fm 3 1, 5⟩ (sks fm) = .ok ((pt, 5), pt) ∧
    ckksDecrypt o ckksNewDecryptor ⟨ctAB fm 3 1, 5⟩ (sks fm) = .ok ((pt', 5), pt') ∧ pt.len = 1 ∧ pt'.len = 3 :=
  C21.history_matters (use_ok fm o 2 5) (use_ok fm o 0 5) (by show 2 < 3; norm_num) (by show 0 < 2; norm_num)

/-- the constant polynomial 1 -/
noncomputable def polyOne : Poly (ctx fm) := ⟨1, false, fun i => (fun x => ⟨if x = 0 then 1 else 0, by
  split_ifs
  · exact (((ctx fm).RQ i).pos)
  · exact Nat.zero_le _⟩ : Limb 16 ((ctx fm).q i))⟩

/-- a ciphertext of nobody -/
noncomputable def ctOne : Ct (ctx fm) := AList.insert "0" (polyOne fm) ∅

/-- **C20: the documented output domain is not implemented.** With a coefficient-form ciphertext and an NTT-flagged plaintext the returned
plaintext, read as its flag says, is not the phase. -/
theorem decrypt_domain_false (o : Sched String) : ∃ (ct : Ct (ctx fm)) (pt pt' : Poly (ctx fm)), ct.Flag false 0 ∧ pt.isNTT = true ∧
    decrypt o ct (sks fm) pt = .ok pt' ∧ pt'.isNTT = true ∧ cf (pt'.coeffs 0) ≠ ct.phase sec 0 := by
  have hlk : ∀ id p, (ctOne fm).lookup id = some p → id = "0" ∧ p.len = 1 ∧ p.isNTT = false := by
    intro id p h
    unfold ctOne at h
    rw [GoMap.lookup_insert'] at h
    split_ifs at h with e
    · injection h with h; subst h; exact ⟨e, rfl, rfl⟩
    · simp at h
  have h0 : (ctOne fm).lookup "0" = some (polyOne fm) := by unfold ctOne; rw [GoMap.lookup_insert', if_pos rfl]
  have hf : (ctOne fm).Flag false 0 := ⟨Ct.mem_of_lookup h0, fun p h => (hlk _ _ h).2.1, fun id p h => by rw [(hlk _ _ h).2.1]; omega,
    fun id p h => (hlk _ _ h).2.2⟩
  have hids : (ctOne fm).ids = ∅ := by
    refine eq_empty_of_forall_notMem fun id hid => ?_
    obtain ⟨hm, hz⟩ := Ct.mem_ids.mp hid
    obtain ⟨p, hp⟩ := Ct.get hm
    exact hz (hlk id p hp).1
  obtain ⟨pt', e1, _, e3, _, e5⟩ := C20.decrypt_value hf (by show 0 < 3; norm_num) (s := sec) (sks := sks fm)
    ⟨(sks_of fm).1, fun id h => by rw [hids] at h; simp at h⟩ o ⟨1, true, fun _ => Limb.zero⟩
  refine ⟨ctOne fm, ⟨1, true, fun _ => Limb.zero⟩, pt', hf, rfl, e1, e3, fun hc => ?_⟩
  have h1 := e5 0 (by simp)
  rw [if_neg (by simp)] at h1
  have hph : (ctOne fm).phase sec 0 = 1 := by
    unfold Ct.phase
    rw [hids, sum_empty, add_zero, Ct.comp_eq h0, Poly.coeffs_eq rfl]
    apply Nega.ext
    intro x
    unfold cf Limb.res polyOne
    rw [Nega.one_def]
    unfold Nega.C
    by_cases hx : x = 0
    · subst hx; simp
    · have : (x : ℕ) ≠ 0 := fun h => hx (Fin.ext h)
      simp [hx, this]
  rw [Poly.cf_coeffs, e3] at hc
  change ((ctx fm).RQ 0).ev (pt'.rows 0) = _ at hc
  unfold LimbOps.ev at hc
  have hres : (pt'.rows 0).res = ((ctx fm).RQ 0).F 1 := by
    rw [← hph, ← hc, RingEquiv.apply_symm_apply]
  rw [map_one] at hres
  have h2 : (pt'.rows 0).res (1 : Fin 16) = 0 := by
    have := congrFun (h1.trans hph) (1 : Fin 16)
    rw [Nega.one_def] at this
    exact this
  rw [hres] at h2
  have : Fact (1 < (ctx fm).q 0) := ⟨by show 1 < exq 0; simp [exq]⟩
  exact one_ne_zero h2

end MKHE.Ex
