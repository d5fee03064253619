import Verif.Props.Crypt
import Verif.Props.SharedExample
import Verif.Props.KeyLocal

set_option autoImplicit false

/-!
# C80: encrypting into an existing ciphertext

`Encrypt` (and `EncryptPtxt`, `EncryptMsg` of mkckks and mkbfv, which call it) writes into a receiver chosen by the caller. It overwrites the
components "0" and of the key's owner and touches no other one. So a receiver that also has components of other parties keeps their old values, and
the result decrypts to the message plus what these values contribute: it is an encryption of the message if they are zero, and not in general.
-/

namespace MKHE.C80
open Finset Nega C17
variable {N : ℕ} [NeZero N] {C : Ctx N}

/-- a receiver with room for the party `id`, possibly among others: "0" at level `lo` in the domain `b`, the owner's component at that level or above -/
structure Slot (id : String) (b : Bool) (lo : ℕ) (ct : Ct C) : Prop where
  mem : id ∈ ct.ids
  comp0 : ∃ p, ct.lookup "0" = some p ∧ p.len = lo + 1 ∧ p.isNTT = b
  comp1 : ∃ p, ct.lookup id = some p ∧ lo < p.len

/-- what the components of the other parties contribute to the phase -/
noncomputable def others (s : String → Nega N ℤ) (id : String) (ct : Ct C) (i : ℕ) : Nega N (ZMod (C.q i)) :=
  ∑ x ∈ ct.ids.erase id, cf (ct.comp x i) * red (C.q i) (s x)

/-- **C80, what `Encrypt` does to any receiver.** It succeeds, leaves the participants and every component of another party as they were, cuts the two
components it writes to the smaller level, and the phase is `m + u*e + e0 + e1*s` plus the contribution of the untouched components. -/
theorem into (us gs : ℕ → Nega N ℤ) (st : Enc C) {pt : Poly C} (hpt : 0 < pt.len) {pk : PKey C} {s : String → Nega N ℤ}
    {e : Nega N ℤ} (hpk : PubKey pk (s pk.id) e) {ctOut : Ct C} {b : Bool} {lo : ℕ} (hout : Slot pk.id b lo ctOut)
    (hl : min (pt.len - 1) lo < C.nQ) :
    ∃ ct st', encrypt us gs st pt pk ctOut = .ok (ct, st') ∧ ct.ids = ctOut.ids ∧
      (∀ id, id ≠ "0" → id ≠ pk.id → ct.lookup id = ctOut.lookup id) ∧
      (∀ id ∈ ({"0", pk.id} : Finset String), ∃ p, ct.lookup id = some p ∧ p.len = min (pt.len - 1) lo + 1 ∧ p.isNTT = b) ∧
      ∃ e0 e1, (e0 = gs st.gpos ∧ e1 = gs (st.gpos + 1) ∨ e1 = gs st.gpos ∧ e0 = gs (st.gpos + 1)) ∧
        ∀ i ≤ min (pt.len - 1) lo, ct.phase s i =
          cf (pt.coeffs i) + red (C.q i) (us st.upos * e + e0 + e1 * s pk.id) + others s pk.id ctOut i := by
  obtain ⟨p0, h0, hl0, hb⟩ := hout.comp0
  obtain ⟨p1, h1, hl1⟩ := hout.comp1
  have hid : pk.id ≠ "0" := (Ct.mem_ids.mp hout.mem).2
  obtain ⟨ct, st', a1, _, _, a4, a5, a6⟩ := encrypt_ok us gs st hpt hid h0 h1 (by omega) (by omega)
  have e0l : (p0.len - 1) = lo := by omega
  rw [e0l] at a4 a5
  have hids : ct.ids = ctOut.ids := by
    ext id
    rw [Ct.mem_ids, Ct.mem_ids, ← AList.lookup_isSome, ← AList.lookup_isSome]
    by_cases hz : id = "0"
    · simp [hz]
    · by_cases hi : id = pk.id
      · subst hi; rw [a5, h1]; simp
      · rw [a6 id hz hi]
  have hlen0 : (enc0 pt pk.v0.Q (us st.upos) (encE0 gs st.gpos p0.isNTT) (min (pt.len - 1) lo) p0).len = min (pt.len - 1) lo + 1 := by
    unfold enc0; split_ifs <;> rfl
  have hlen1 : (enc1 pk.v1.Q (us st.upos) (encE1 gs st.gpos p0.isNTT) (min (pt.len - 1) lo) p0 p1).len = min (pt.len - 1) lo + 1 := by
    unfold enc1; split_ifs <;> rfl
  have hf0 : (enc0 pt pk.v0.Q (us st.upos) (encE0 gs st.gpos p0.isNTT) (min (pt.len - 1) lo) p0).isNTT = b := by
    rw [← hb]; unfold enc0; split_ifs <;> rfl
  have hf1 : (enc1 pk.v1.Q (us st.upos) (encE1 gs st.gpos p0.isNTT) (min (pt.len - 1) lo) p0 p1).isNTT = b := by
    rw [← hb]; unfold enc1; split_ifs with h
    · exact h.symm
    · simpa using h
  refine ⟨ct, st', a1, hids, a6, fun id hm => ?_, encE0 gs st.gpos p0.isNTT, encE1 gs st.gpos p0.isNTT, ?_, fun i hi => ?_⟩
  · rcases mem_insert.mp hm with rfl | hm
    · exact ⟨_, a4, hlen0, hf0⟩
    · rw [mem_singleton.mp hm]; exact ⟨_, a5, hlen1, hf1⟩
  · unfold encE0 encE1
    cases p0.isNTT
    · exact .inl ⟨rfl, rfl⟩
    · exact .inr ⟨rfl, rfl⟩
  · unfold Ct.phase others
    rw [hids, ← add_sum_erase _ _ hout.mem, Ct.comp_eq a4, Ct.comp_eq a5, enc0_cf _ _ _ _ _ _ hi, enc1_cf _ _ _ _ _ _ hi]
    have hsum : ∑ x ∈ ctOut.ids.erase pk.id, cf (ct.comp x i) * red (C.q i) (s x) =
        ∑ x ∈ ctOut.ids.erase pk.id, cf (ctOut.comp x i) * red (C.q i) (s x) := by
      refine sum_congr rfl fun x hx => ?_
      obtain ⟨hx1, hx2⟩ := mem_erase.mp hx
      have hlk := a6 x (Ct.mem_ids.mp hx2).2 hx1
      unfold Ct.comp
      rw [hlk]
    rw [hsum, map_add, map_add, map_mul, map_mul, ← hpk i (by omega)]
    ring

/-- **The claim a caller would expect:** whatever the receiver held, after `Encrypt` it decrypts to the message up to the encryption noise. -/
def Full (C : Ctx N) : Prop :=
  ∀ (us gs : ℕ → Nega N ℤ) (st : Enc C) (pt : Poly C) (pk : PKey C) (s : String → Nega N ℤ) (e : Nega N ℤ) (ctOut : Ct C) (b : Bool) (lo : ℕ)
    (Bu Be Bg Bs : ℤ), 0 < pt.len → PubKey pk (s pk.id) e → Slot pk.id b lo ctOut → min (pt.len - 1) lo < C.nQ →
    (∀ n, Bdd (us n) Bu) → (∀ n, Bdd (gs n) Bg) → Bdd e Be → (∀ id, Bdd (s id) Bs) →
    ∃ ct st', encrypt us gs st pt pk ctOut = .ok (ct, st') ∧ ∃ E : Nega N ℤ, Bdd E (N * Bu * Be + Bg + N * Bg * Bs) ∧
      ∀ i ≤ min (pt.len - 1) lo, ct.phase s i = cf (pt.coeffs i) + red (C.q i) E

/-- **C80, partial.** The claim holds for every receiver whose components of other parties are zero; what the components "0" and of the owner held does
not matter. Missing: receivers with other contents, for which it is false (`full_false`). -/
theorem into_partial (us gs : ℕ → Nega N ℤ) (st : Enc C) {pt : Poly C} (hpt : 0 < pt.len) {pk : PKey C} {s : String → Nega N ℤ}
    {e : Nega N ℤ} (hpk : PubKey pk (s pk.id) e) {ctOut : Ct C} {b : Bool} {lo : ℕ} (hout : Slot pk.id b lo ctOut)
    (hl : min (pt.len - 1) lo < C.nQ) {Bu Be Bg Bs : ℤ} (hu : ∀ n, Bdd (us n) Bu) (hg : ∀ n, Bdd (gs n) Bg) (he : Bdd e Be)
    (hs : Bdd (s pk.id) Bs) (hz : ∀ id ∈ ctOut.ids, id ≠ pk.id → ∀ i ≤ min (pt.len - 1) lo, cf (ctOut.comp id i) = 0) :
    ∃ ct st', encrypt us gs st pt pk ctOut = .ok (ct, st') ∧ ct.ids = ctOut.ids ∧ ∃ E : Nega N ℤ, Bdd E (N * Bu * Be + Bg + N * Bg * Bs) ∧
      ∀ i ≤ min (pt.len - 1) lo, ct.phase s i = cf (pt.coeffs i) + red (C.q i) E := by
  obtain ⟨ct, st', a1, a2, _, _, e0, e1, a4, a5⟩ := into us gs st hpt hpk hout hl
  refine ⟨ct, st', a1, a2, us st.upos * e + e0 + e1 * s pk.id, noise_bound (hu _) he ?_ ?_ hs, fun i hi => ?_⟩
  · rcases a4 with ⟨h, _⟩ | ⟨_, h⟩ <;> rw [h] <;> exact hg _
  · rcases a4 with ⟨_, h⟩ | ⟨h, _⟩ <;> rw [h] <;> exact hg _
  · rw [a5 i hi]
    have : others s pk.id ctOut i = 0 := by
      refine sum_eq_zero fun x hx => ?_
      obtain ⟨hx1, hx2⟩ := mem_erase.mp hx
      rw [hz x hx2 hx1 i hi, zero_mul]
    rw [this, add_zero]

/-- A ciphertext made by `NewCiphertext` for any set of participants that contains the owner is such a receiver: the message can be encrypted directly
into a ciphertext of several parties. -/
theorem fresh_receiver (o : Order String) {ids : IDSet} {S : Finset String} (hS : ∀ id, ids.has id = true ↔ id ∈ S) (h0 : "0" ∉ S) (level : ℕ)
    (us gs : ℕ → Nega N ℤ) (st : Enc C) {pt : Poly C} (hpt : 0 < pt.len) {pk : PKey C} {s : String → Nega N ℤ}
    {e : Nega N ℤ} (hpk : PubKey pk (s pk.id) e) (hmem : pk.id ∈ S) (hl : min (pt.len - 1) level < C.nQ) {Bu Be Bg Bs : ℤ}
    (hu : ∀ n, Bdd (us n) Bu) (hg : ∀ n, Bdd (gs n) Bg) (he : Bdd e Be) (hs : Bdd (s pk.id) Bs) :
    ∃ ct st', encrypt us gs st pt pk (Ct.new o ids level) = .ok (ct, st') ∧ ct.ids = S ∧
      ∃ E : Nega N ℤ, Bdd E (N * Bu * Be + Bg + N * Bg * Bs) ∧
      ∀ i ≤ min (pt.len - 1) level, ct.phase s i = cf (pt.coeffs i) + red (C.q i) E := by
  have hids := Ct.new_ids (C := C) o hS h0 level
  have hslot : Slot pk.id false level (Ct.new o ids level : Ct C) := by
    refine ⟨by rw [hids]; exact hmem, ⟨_, by rw [Ct.new_lookup, if_pos (.inl rfl)], rfl, rfl⟩,
      ⟨Poly.new level, ?_, Nat.lt_succ_self level⟩⟩
    rw [Ct.new_lookup, if_pos (.inr ((hS _).mpr hmem))]
  obtain ⟨ct, st', a1, a2, a3⟩ := into_partial us gs st hpt hpk hslot hl hu hg he hs (fun id hid _ i _ => by
    rw [hids] at hid
    rw [Ct.comp_eq (p := Poly.new level) (by rw [Ct.new_lookup, if_pos (.inr ((hS _).mpr hid))])]
    rw [Poly.coeffs_eq rfl]
    exact cf_zero)
  exact ⟨ct, st', a1, a2.trans hids, a3⟩

/-- **A receiver without a component of the key's owner:** `Encrypt` never returns (in Go: a nil pointer is dereferenced). -/
theorem no_slot (us gs : ℕ → Nega N ℤ) (st : Enc C) (pt : Poly C) {pk : PKey C} {ctOut : Ct C} (h : pk.id ∉ ctOut) :
    ∀ w, encrypt us gs st pt pk ctOut ≠ .ok w := by
  intro w hw
  unfold encrypt at hw
  obtain ⟨l0, -, hw⟩ := Go.of_bind_ok hw
  obtain ⟨p0, -, hw⟩ := Go.of_bind_ok hw
  dsimp only at hw
  obtain ⟨c1, h1, hw⟩ := Go.of_bind_ok hw
  obtain ⟨c2, h2, -⟩ := Go.of_bind_ok hw
  have hm1 : pk.id ∉ c1 := by
    unfold Ct.onRows at h1
    obtain ⟨p, hp, h1⟩ := Go.of_bind_ok h1
    obtain ⟨_, -, h1⟩ := Go.of_bind_ok h1
    rw [← Except.ok.inj h1, AList.mem_insert]
    rintro (e | e)
    · exact h (by rw [e]; exact GoMap.deref_mem hp)
    · exact h e
  unfold Ct.onRows at h2
  obtain ⟨p, hp, -⟩ := Go.of_bind_ok h2
  exact hm1 (GoMap.deref_mem hp)

end MKHE.C80

namespace MKHE.EIEx
open Finset Nega MKHE MKHE.Ex MKHE.BEx MKHE.SEx C17 C80
variable (fm : FloatModel)

/-- the constant polynomial 1000 -/
def big : Nega 16 ℤ := fun x => if x = 0 then 1000 else 0

/-- a receiver for the parties "a" and "b" that was used before: the component of "b" is the constant 1000 -/
noncomputable def used : Ct (qp fm) := AList.insert "b" (pol fm big) (ct1 fm "a" 1)

theorem used_lookup (x : String) : (used fm).lookup x = if x = "b" then some (pol fm big) else (ct1 fm "a" 1).lookup x := by
  unfold used; rw [GoMap.lookup_insert']

theorem used_ids : (used fm).ids = {"a", "b"} := by
  ext x
  rw [Ct.mem_ids, ← AList.lookup_isSome, used_lookup, ct1_lookup]
  simp only [mem_insert, mem_singleton]
  by_cases h1 : x = "b"
  · subst h1; simp
  · by_cases h2 : x = "a"
    · subst h2; simp
    · by_cases h3 : x = "0"
      · subst h3; simp
      · simp [h1, h2, h3]

theorem used_slot : Slot "a" false 1 (used fm) where
  mem := by rw [used_ids]; simp
  comp0 := ⟨pol fm 0, by rw [used_lookup, ct1_lookup]; rfl, rfl, rfl⟩
  comp1 := ⟨pol fm 1, by rw [used_lookup, ct1_lookup]; rfl, by show 1 < 2; norm_num⟩

theorem used_others (i : ℕ) : others sec "a" (used fm) i = red ((qp fm).q i) (big * sec "b") := by
  unfold others
  rw [used_ids]
  have : ({"a", "b"} : Finset String).erase "a" = {"b"} := by decide
  rw [this, sum_singleton, Ct.comp_eq (p := pol fm big) (by rw [used_lookup]; rfl), Poly.coeffs_eq rfl]
  show cf (((qp fm).RQ i).ofCf _) * _ = _
  rw [LimbOps.cf_ofCf, map_mul]

theorem big_mul_zero : (big * sec "b") 0 = 1000 := by decide +kernel

/-- **C80: the full claim is false.** An encryption under the key of "a" into a used ciphertext of "a" and "b" is off by 1000 times the secret of "b". -/
theorem full_false : ¬ Full (qp fm) := by
  intro H
  have hout : Slot (BEx.pk fm "a").id false 1 (used fm) := used_slot fm
  obtain ⟨ct, st', h1, E, h2, h3⟩ := H (fun n => sec (if n = 0 then "a" else "b")) err ⟨fun _ => row _ 1, 0, 0⟩ (pol fm 1) (BEx.pk fm "a") sec (err 1)
    (used fm) false 1 1 2 2 1 (by show 0 < 2; norm_num) (BEx.pk_ok fm "a") hout (by show min (2 - 1) 1 < 2; norm_num)
    (fun n => sec_bdd _) err_bdd (err_bdd 1) sec_bdd
  obtain ⟨ct', st'', g1, -, -, -, e0, e1, g4, g5⟩ := into (fun n => sec (if n = 0 then "a" else "b")) err ⟨fun _ => row _ 1, 0, 0⟩ (pt := pol fm 1)
    (by show 0 < 2; norm_num) (s := sec) (BEx.pk_ok fm "a") hout (by show min (2 - 1) 1 < 2; norm_num)
  rw [h1] at g1
  have hc := (Prod.mk.inj (Except.ok.inj g1)).1
  subst hc
  have k1 := h3 0 (Nat.zero_le _)
  have k2 := g5 0 (Nat.zero_le _)
  have k2 : ct.phase sec 0 = cf ((pol fm 1).coeffs 0) + red ((qp fm).q 0) (sec "a" * err 1 + e0 + e1 * sec "a") + others sec "a" (used fm) 0 := k2
  rw [k1, used_others, add_assoc, ← map_add] at k2
  have k2' : red ((qp fm).q 0) E = red ((qp fm).q 0) (sec "a" * err 1 + e0 + e1 * sec "a" + big * sec "b") :=
    add_left_cancel (a := (cf ((pol fm 1).coeffs 0) : Nega 16 (ZMod ((qp fm).q 0)))) k2
  have k3 := congrFun k2' 0
  rw [red_apply, red_apply, ZMod.intCast_eq_intCast_iff_dvd_sub] at k3
  have hE0 : Bdd (sec "a" * err 1 + e0 + e1 * sec "a") ((16 : ℕ) * 1 * 2 + 2 + (16 : ℕ) * 2 * 1) :=
    noise_bound (sec_bdd _) (err_bdd 1)
      (by rcases g4 with ⟨h, _⟩ | ⟨_, h⟩ <;> rw [h] <;> exact err_bdd _)
      (by rcases g4 with ⟨_, h⟩ | ⟨h, _⟩ <;> rw [h] <;> exact err_bdd _) (sec_bdd "a")
  have b1 := abs_le.mp (h2 0)
  have b2 := abs_le.mp (hE0 0)
  have e : ((sec "a" * err 1 + e0 + e1 * sec "a") + big * sec "b") 0 = (sec "a" * err 1 + e0 + e1 * sec "a") 0 + 1000 := by
    rw [← big_mul_zero]; rfl
  obtain ⟨c, hc⟩ := k3
  have hq : (((qp fm).q 0 : ℕ) : ℤ) = ((bq 0 : ℕ) : ℤ) := rfl
  have hc' : (sec "a" * err 1 + e0 + e1 * sec "a") 0 + 1000 - E 0 = ((bq 0 : ℕ) : ℤ) * c := by
    rw [← e]; exact hc
  have hbq : ((bq 0 : ℕ) : ℤ) ≥ 2000 := by norm_num [bq]
  push_cast at b1 b2
  rcases lt_trichotomy c 0 with h | h | h
  · nlinarith
  · subst h; linarith [b1.2, b2.1]
  · nlinarith

/-- the hypotheses of `fresh_receiver` are met: a message of "a" encrypted into a new ciphertext of "a" and "b" -/
example (o : Order String) (st : Enc (qp fm)) := fresh_receiver o (ids := ⟨AList.insert "b" () (AList.insert "a" () ∅)⟩) (S := {"a", "b"}) (by
    intro id
    unfold IDSet.has
    rw [GoMap.lookup_insert', GoMap.lookup_insert']
    by_cases h1 : id = "b"
    · simp [h1]
    · by_cases h2 : id = "a"
      · simp [h2]
      · simp [h1, h2]) (by decide) 1 (fun n => sec (if n = 0 then "a" else "b")) err st (pt := pol fm 1) (by show 0 < 2; norm_num)
    (s := sec) (BEx.pk_ok fm "a") (by show "a" ∈ ({"a", "b"} : Finset String); decide) (by show min (2 - 1) 1 < 2; norm_num) (fun n => sec_bdd _)
    err_bdd (err_bdd 1) (sec_bdd "a")

/-- the hypothesis of `no_slot` is met: a receiver of "b" and the key of "a" -/
example (us gs : ℕ → Nega 16 ℤ) (st : Enc (qp fm)) := no_slot us gs st (pol fm 1) (pk := BEx.pk fm "a") (ctOut := ct1 fm "b" 1) (by
  rw [← AList.lookup_isSome, ct1_lookup]; simp [BEx.pk])

end MKHE.EIEx
