import Verif.Lemmas.Crypt
import Verif.Props.KeySets

set_option autoImplicit false

/-!
# Decryption: what each step computes
-/

namespace MKHE
open Finset Nega

variable {N : ℕ} [NeZero N] {C : Ctx N}

/-- a ciphertext with component "0" at `level`, all other components at `level` or above, all components in the same domain (`b`: NTT) -/
structure Ct.Flag (b : Bool) (level : ℕ) (ct : Ct C) : Prop where
  has0 : "0" ∈ ct
  len0 : ∀ p, ct.lookup "0" = some p → p.len = level + 1
  len : ∀ id p, ct.lookup id = some p → level < p.len
  flag : ∀ id p, ct.lookup id = some p → p.isNTT = b

theorem Ct.AtLevel.toFlag {level : ℕ} {ct : Ct C} (h : ct.AtLevel level) : ct.Flag false level :=
  ⟨h.has0, h.len "0", fun id p hp => by rw [h.len id p hp]; omega, h.coeff⟩

theorem Ct.Same.flag {a b : Ct C} (h : a.Same b) {f : Bool} {level : ℕ} (ha : a.Flag f level) : b.Flag f level :=
  ⟨h.mem.mp ha.has0, fun p hp => ha.len0 p ((h _).trans hp), fun id p hp => ha.len id p ((h id).trans hp),
    fun id p hp => ha.flag id p ((h id).trans hp)⟩

/-- what `PartialDecrypt` adds to component "0": the component of the party times its secret key, in the domain of the component -/
def decShare (sk : SKey C) (p : Poly C) (i : ℕ) : Limb N (C.q i) :=
  if p.isNTT then (C.RQ i).mulMont (p.rows i) (sk.value.Q i) else (C.RQ i).intt ((C.RQ i).mulMont ((C.RQ i).ntt (p.rows i)) (sk.value.Q i))

theorem decShare_canon (sk : SKey C) (p : Poly C) (i : ℕ) : (decShare sk p i).Canon := by
  unfold decShare; split_ifs
  · exact (C.RQ i).mulMont_canon _ _
  · exact (C.RQ i).intt_canon _

theorem Ct.onRowsUnless_ok {ct : Ct C} {id : String} {level : ℕ} {p : Poly C} (f : ∀ i, Limb N (C.q i) → Limb N (C.q i))
    (h : ct.lookup id = some p) (hl : level < p.len) :
    ∃ ct', ct.onRowsUnlessNTT id level f = .ok ct' ∧
      ct'.lookup id = some (p.set level fun i => if p.isNTT then p.rows i else f i (p.rows i)) ∧
      ∀ id', id' ≠ id → ct'.lookup id' = ct.lookup id' := by
  unfold Ct.onRowsUnlessNTT
  rw [GoMap.deref_ok h, bind_ok]
  cases hb : p.isNTT with
  | false =>
    obtain ⟨c, a1, a2, a3⟩ := Ct.onRows_ok f h hl
    exact ⟨c, by simpa using a1, by simpa using a2, a3⟩
  | true =>
    refine ⟨ct, by simp, ?_, fun _ _ => rfl⟩
    rw [h]
    congr 1
    unfold Poly.set setQ
    simp

theorem partialDecrypt_ok {ct : Ct C} {sk : SKey C} {p0 p : Poly C} (hid : sk.id ≠ "0") (h0 : ct.lookup "0" = some p0)
    (h1 : ct.lookup sk.id = some p) (hl0 : 0 < p0.len) (hl1 : p0.len ≤ p.len) :
    ∃ ct', partialDecrypt ct sk = .ok ct' ∧ ct'.lookup "0" = some (p0.set (p0.len - 1) fun i => (C.RQ i).add (p0.rows i) (decShare sk p i)) ∧
      ct'.lookup sk.id = none ∧ ∀ id, id ≠ "0" → id ≠ sk.id → ct'.lookup id = ct.lookup id := by
  unfold partialDecrypt
  rw [Ct.level_ok h0 (n := p0.len) rfl, bind_ok]
  have hl : p0.len - 1 < p.len := by omega
  obtain ⟨c1, a1, a2, a3⟩ := Ct.onRowsUnless_ok (fun i a => (C.RQ i).ntt a) h1 hl
  rw [a1, bind_ok]
  obtain ⟨c2, b1, b2, b3⟩ := Ct.onRows_ok (fun i a => (C.RQ i).mulMont a (sk.value.Q i)) a2 (by exact hl)
  rw [b1, bind_ok]
  obtain ⟨c3, d1, d2, d3⟩ := Ct.onRowsUnless_ok (fun i a => (C.RQ i).intt a) b2 (by exact hl)
  rw [d1, bind_ok]
  have e1 : c3.lookup sk.id = some (p.set (p0.len - 1) (decShare sk p)) := by
    rw [d2, Poly.set_set, Poly.set_set]
    refine congrArg some (Poly.set_congr (fun i hi => ?_) _)
    show (if p.isNTT = true then _ else _) = _
    rw [Poly.set_rows_le _ _ hi, Poly.set_rows_le _ _ hi]
    unfold decShare
    cases p.isNTT <;> simp
  rw [GoMap.deref_ok e1, bind_ok, Poly.need_ok (by exact hl), bind_ok]
  have e0 : c3.lookup "0" = some p0 := by rw [d3 _ hid.symm, b3 _ hid.symm, a3 _ hid.symm, h0]
  obtain ⟨c4, f1, f2, f3⟩ := Ct.onRows_ok (fun i a => (C.RQ i).add a ((p.set (p0.len - 1) (decShare sk p)).rows i)) e0
    (show p0.len - 1 < p0.len by omega)
  rw [f1, bind_ok]
  refine ⟨_, rfl, ?_, by rw [GoMap.lookup_erase', if_pos rfl], fun id n0 n1 => ?_⟩
  · rw [GoMap.lookup_erase', if_neg hid.symm, f2]
    refine congrArg some (Poly.set_congr (fun i hi => ?_) _)
    rw [Poly.set_rows_le _ _ hi]
  · rw [GoMap.lookup_erase', if_neg n1, f3 _ n0, d3 _ n1, b3 _ n1, a3 _ n1]

/-- component "0" after the parties of a list have contributed their shares, in that order -/
def addShares (comp : String → Option (Poly C)) (l : List (SKey C)) (i : ℕ) (a : Limb N (C.q i)) : Limb N (C.q i) :=
  l.foldl (fun a sk => match comp sk.id with
    | some p => (C.RQ i).add a (decShare sk p i)
    | none => a) a

theorem partialDecrypts_ok {ct : Ct C} {p0 : Poly C} (h0 : ct.lookup "0" = some p0) (hl0 : 0 < p0.len)
    (hlen : ∀ id p, ct.lookup id = some p → p0.len ≤ p.len) (l : List (SKey C)) (hnd : (l.map SKey.id).Nodup)
    (hmem : ∀ sk ∈ l, sk.id ∈ ct.ids) :
    ∃ ct', Go.loop partialDecrypt ct l = .ok ct' ∧
      ct'.lookup "0" = some (p0.set (p0.len - 1) fun i => addShares ct.lookup l i (p0.rows i)) ∧
      ∀ id, id ≠ "0" → ct'.lookup id = if id ∈ l.map SKey.id then none else ct.lookup id := by
  obtain ⟨ct', e1, e2, e3⟩ := Go.loop_inv partialDecrypt (fun pre (c : Ct C) =>
      c.lookup "0" = some (p0.set (p0.len - 1) fun i => addShares ct.lookup pre i (p0.rows i)) ∧
      ∀ id, id ≠ "0" → c.lookup id = if id ∈ pre.map SKey.id then none else ct.lookup id) l ct
    ⟨by
      rw [h0]; congr 1; unfold Poly.set setQ addShares; simp, by simp⟩ (by
      rintro pre sk suf c hl ⟨i0, i1⟩
      have hsk : sk ∈ l := by rw [hl]; simp
      obtain ⟨hm, hz⟩ := Ct.mem_ids.mp (hmem sk hsk)
      obtain ⟨p, hp⟩ := Ct.get hm
      have hpre : sk.id ∉ pre.map SKey.id := by
        refine nodup_split (suf := suf.map SKey.id) hnd ?_
        rw [hl]; simp
      have h1 : c.lookup sk.id = some p := by rw [i1 _ hz, if_neg hpre, hp]
      obtain ⟨c', a1, a2, a3, a4⟩ := partialDecrypt_ok hz i0 h1 hl0 (hlen _ _ hp)
      refine ⟨c', a1, ?_, fun id n0 => ?_⟩
      · rw [a2]
        show some ((p0.set (p0.len - 1) _).set (p0.len - 1) _) = _
        rw [Poly.set_set]
        refine congrArg some (Poly.set_congr (fun i hi => ?_) _)
        rw [Poly.set_rows_le _ _ hi]
        unfold addShares
        rw [List.foldl_append]
        simp only [List.foldl_cons, List.foldl_nil, hp]
      · by_cases e : id = sk.id
        · subst e; rw [a3]; simp
        · rw [a4 id n0 e, i1 id n0]
          simp only [List.map_append, List.map_cons, List.map_nil, List.mem_append, List.mem_singleton, e, or_false])
  exact ⟨ct', e1, e2, e3⟩

/-- the order of the shares does not matter, not even for the words -/
theorem addShares_perm (comp : String → Option (Poly C)) {l l' : List (SKey C)} (h : l.Perm l') (i : ℕ) (a : Limb N (C.q i)) :
    addShares comp l i a = addShares comp l' i a := by
  unfold addShares
  have : RightCommutative (fun (a : Limb N (C.q i)) (sk : SKey C) => match comp sk.id with
    | some p => (C.RQ i).add a (decShare sk p i)
    | none => a) := ⟨fun a x y => by
      cases hx : comp x.id with
      | none => simp only [hx]
      | some p =>
        cases hy : comp y.id with
        | none => simp only [hx, hy]
        | some p' =>
          simp only [hx, hy]
          refine cf_inj ((C.RQ i).add_canon _ _ (.inr (decShare_canon _ _ _))) ((C.RQ i).add_canon _ _ (.inr (decShare_canon _ _ _))) ?_
          rw [LimbOps.cf_add, LimbOps.cf_add, LimbOps.cf_add, LimbOps.cf_add]; ring⟩
  exact h.foldl_eq a

/-- the share of one key in the phase -/
noncomputable def shareVal (comp : String → Option (Poly C)) (i : ℕ) (sk : SKey C) : Nega N (ZMod (C.q i)) :=
  match comp sk.id with
  | some p => cf (p.coeffs i) * (C.RQ i).mv (sk.value.Q i)
  | none => 0

/-- a row in the given domain -/
noncomputable def domVal (b : Bool) {i : ℕ} (a : Limb N (C.q i)) : Nega N (ZMod (C.q i)) := if b then (C.RQ i).ev a else cf a

theorem Poly.cf_coeffs (p : Poly C) (i : ℕ) : cf (p.coeffs i) = domVal p.isNTT (p.rows i) := by
  unfold Poly.coeffs domVal; cases p.isNTT <;> simp

theorem share_val (sk : SKey C) (p : Poly C) (i : ℕ) (a : Limb N (C.q i)) :
    domVal p.isNTT ((C.RQ i).add a (decShare sk p i)) = domVal p.isNTT a + cf (p.coeffs i) * (C.RQ i).mv (sk.value.Q i) := by
  unfold domVal decShare Poly.coeffs LimbOps.mv
  cases p.isNTT with
  | true => simp; ring
  | false => simp; ring

theorem addShare_val (comp : String → Option (Poly C)) (b : Bool) (hb : ∀ id p, comp id = some p → p.isNTT = b) (sk : SKey C) (i : ℕ)
    (a : Limb N (C.q i)) : domVal b (match comp sk.id with
      | some p => (C.RQ i).add a (decShare sk p i)
      | none => a) = domVal b a + shareVal comp i sk := by
  unfold shareVal domVal
  cases hc : comp sk.id with
  | none => simp
  | some p =>
    have := hb _ _ hc
    subst this
    dsimp only
    unfold decShare Poly.coeffs LimbOps.mv
    cases p.isNTT with
    | true => simp; ring
    | false => simp; ring

/-- the value represented by component "0" after the shares, in either domain -/
theorem addShares_val (comp : String → Option (Poly C)) (b : Bool) (hb : ∀ id p, comp id = some p → p.isNTT = b) (l : List (SKey C)) (i : ℕ)
    (a : Limb N (C.q i)) : domVal b (addShares comp l i a) = domVal b a + (l.map (shareVal comp i)).sum := by
  induction l generalizing a with
  | nil => simp [addShares]
  | cons sk l ih =>
    show domVal b (addShares comp l i _) = _
    rw [ih, List.map_cons, List.sum_cons, ← add_assoc, addShare_val comp b hb]

/-- `Decrypt` ranges over the key set and skips the keys of strangers -/
theorem decryptLoop_eq (ids : IDSet) (sks : KeySet (SKey C)) (f : String → SKey C) (l : List String)
    (hf : ∀ k ∈ l, sks.value.lookup k = some (f k)) (tmp : Ct C) :
    decryptLoop ids sks tmp l = Go.loop partialDecrypt tmp ((l.map f).filter fun sk => ids.has sk.id) := by
  unfold decryptLoop
  induction l generalizing tmp with
  | nil => rfl
  | cons k l ih =>
    have h1 := hf k (by simp)
    rw [List.map_cons, List.filter_cons, Go.loop_cons, GoMap.deref_ok h1, bind_ok]
    cases hh : ids.has (f k).id with
    | false =>
      rw [if_neg (by simp), if_neg (by simp)]
      exact ih (fun k hk => hf k (by simp [hk])) tmp
    | true =>
      rw [if_pos rfl, if_pos rfl, Go.loop_cons]
      cases partialDecrypt tmp (f k) with
      | error e => rfl
      | ok c => exact ih (fun k hk => hf k (by simp [hk])) c

end MKHE

namespace MKHE
open Finset Nega

variable {N : ℕ} [NeZero N] {C : Ctx N}

/-- every key is stored under its own id -/
def KeySet.Keyed {K : Type*} (idOf : K → String) (s : KeySet K) : Prop := ∀ k x, s.value.lookup k = some x → idOf x = k

/-- this holds of every key set that a program can build with `New…`, `Add…` and `Del…` -/
theorem KeySet.keyed_new {K : Type*} (idOf : K → String) : (KeySet.new : KeySet K).Keyed idOf := fun k x h => by
  simp [KeySet.new] at h

theorem KeySet.Keyed.add {K : Type*} {idOf : K → String} {s : KeySet K} (h : s.Keyed idOf) (x : K) : (s.add idOf x).Keyed idOf := by
  intro k y hy
  unfold KeySet.add at hy
  rw [GoMap.lookup_insert'] at hy
  split_ifs at hy with e
  · injection hy with hy; subst hy; exact e.symm
  · exact h k y hy

theorem KeySet.Keyed.del {K : Type*} {idOf : K → String} {s : KeySet K} (h : s.Keyed idOf) (id : String) : (s.del id).Keyed idOf := by
  intro k y hy
  unfold KeySet.del at hy
  rw [GoMap.lookup_erase'] at hy
  split_ifs at hy with e
  exact h k y hy

/-- the key of an id -/
def SKeys.at (sks : KeySet (SKey C)) (id : String) : SKey C :=
  match sks.value.lookup id with
  | some sk => sk
  | none => ⟨id, PolyQP.zero⟩

theorem decryptLoop_ok {ct : Ct C} {b : Bool} {level : ℕ} (hct : ct.Flag b level) {ids : IDSet} (hids : ∀ id, ids.has id = true ↔ id ∈ ct.ids)
    {sks : KeySet (SKey C)} (hk : sks.Keyed SKey.id) (o : Order String) :
    ∃ ct' p0', decryptLoop ids sks ct (GoMap.range o sks.value) = .ok ct' ∧ ct'.lookup "0" = some p0' ∧ p0'.len = level + 1 ∧ p0'.isNTT = b ∧
      (∀ id, id ≠ "0" → ct'.lookup id = if id ∈ sks.value then none else ct.lookup id) ∧
      ∀ i ≤ level, domVal b (p0'.rows i) = cf (ct.comp "0" i) +
        ∑ id ∈ ct.ids with id ∈ sks.value, cf (ct.comp id i) * (C.RQ i).mv ((SKeys.at sks id).value.Q i) := by
  obtain ⟨p0, hp0⟩ := Ct.get hct.has0
  have hf : ∀ k ∈ GoMap.range o sks.value, sks.value.lookup k = some (SKeys.at sks k) := fun k hkm => by
    obtain ⟨sk, h⟩ := Option.isSome_iff_exists.mp (AList.lookup_isSome.mpr (GoMap.mem_range.mp hkm))
    unfold SKeys.at; rw [h]
  have hid : ∀ k ∈ GoMap.range o sks.value, (SKeys.at sks k).id = k := fun k hkm => hk _ _ (hf k hkm)
  rw [decryptLoop_eq ids sks (SKeys.at sks) _ hf ct]
  have hL : ((GoMap.range o sks.value).map (SKeys.at sks)).filter (fun sk => ids.has sk.id) =
      ((GoMap.range o sks.value).filter fun k => ids.has k).map (SKeys.at sks) := by
    rw [List.filter_map]
    congr 1
    refine List.filter_congr fun k hkm => ?_
    simp only [Function.comp, hid k hkm]
  rw [hL]
  set R := (GoMap.range o sks.value).filter fun k => ids.has k with hR
  have hmR : ∀ k, k ∈ R ↔ k ∈ sks.value ∧ k ∈ ct.ids := fun k => by
    rw [hR, List.mem_filter, GoMap.mem_range, hids]
  have hndR : R.Nodup := (GoMap.nodup_range _ _).filter _
  have hmap : (R.map (SKeys.at sks)).map SKey.id = R := by
    rw [List.map_map]
    refine (List.map_congr_left fun k hkm => ?_).trans (List.map_id _)
    exact hid k (List.mem_of_mem_filter hkm)
  obtain ⟨ct', e1, e2, e3⟩ := partialDecrypts_ok hp0 (by rw [hct.len0 _ hp0]; omega)
    (fun id p hp => by rw [hct.len0 _ hp0]; exact hct.len id p hp) (R.map (SKeys.at sks)) (by rw [hmap]; exact hndR)
    (fun sk hsk => by
      obtain ⟨k, hk1, rfl⟩ := List.mem_map.mp hsk
      rw [hid k (List.mem_of_mem_filter hk1)]
      exact ((hmR k).mp hk1).2)
  refine ⟨ct', _, e1, e2, (hct.len0 p0 hp0 :), (hct.flag "0" p0 hp0 :), fun id hz => ?_, fun i hi => ?_⟩
  · rw [e3 id hz, hmap]
    by_cases h : id ∈ R
    · rw [if_pos h, if_pos ((hmR id).mp h).1]
    · rw [if_neg h]
      split_ifs with hm
      · have : id ∉ ct := fun hc => h ((hmR id).mpr ⟨hm, Ct.mem_ids.mpr ⟨hc, hz⟩⟩)
        exact AList.lookup_eq_none.mpr this
      · rfl
  · have hl0 := hct.len0 _ hp0
    rw [Poly.set_rows_le _ _ (by omega), addShares_val ct.lookup b hct.flag]
    congr 1
    · rw [Ct.comp_eq hp0]
      have := hct.flag _ _ hp0
      subst this
      unfold domVal Poly.coeffs
      cases p0.isNTT <;> simp
    · rw [List.map_map, ← List.sum_toFinset _ hndR]
      refine sum_congr ?_ fun id hmem => ?_
      · ext id
        rw [List.mem_toFinset, hmR, mem_filter, and_comm]
      · obtain ⟨hm, _⟩ := mem_filter.mp hmem
        obtain ⟨p, hp⟩ := Ct.get (Ct.mem_ids.mp hm).1
        have hks : id ∈ GoMap.range o sks.value := GoMap.mem_range.mpr (mem_filter.mp hmem).2
        show shareVal _ i (SKeys.at sks id) = _
        unfold shareVal
        rw [hid id hks]
        beta_reduce
        rw [hp, Ct.comp_eq hp]

end MKHE
