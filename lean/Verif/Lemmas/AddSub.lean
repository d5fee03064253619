import Verif.Lemmas.Elements
import Verif.Model.Bfv

set_option autoImplicit false

/-!
# Addition and subtraction of ciphertexts over different id sets
-/

namespace MKHE
open Finset Nega

variable {N : ℕ} [NeZero N] {C : Ctx N}

/-- rows of the result of `evaluateInPlace` -/
def evalOut (f : (i : ℕ) → Limb N (C.q i) → Limb N (C.q i) → Limb N (C.q i)) (s0 s1 : Finset String) (a b : String → QRows C)
    (id : String) : QRows C :=
  if id = "0" then fun i => f i (a id i) (b id i)
  else if id ∉ s0 then b id else if id ∉ s1 then a id else fun i => f i (a id i) (b id i)

theorem evalRows_ok (f : (i : ℕ) → Limb N (C.q i) → Limb N (C.q i) → Limb N (C.q i)) {level : ℕ} {a b c : Poly C}
    (ha : level < a.len) (hb : level < b.len) (hc : level < c.len) :
    evalRows f level a b c = .ok (c.set level fun i => f i (a.rows i) (b.rows i)) := by
  unfold evalRows
  rw [Poly.need_ok ha, bind_ok, Poly.need_ok hb, bind_ok, Poly.need_ok hc, bind_ok]

theorem evalCore_run (f : (i : ℕ) → Limb N (C.q i) → Limb N (C.q i) → Limb N (C.q i)) {level : ℕ}
    {cp : Poly C → Poly C → Go (Poly C)}
    (hcp : ∀ dst src : Poly C, dst.len = level + 1 → dst.isNTT = false → level < src.len → src.isNTT = false →
      cp dst src = .ok (dst.set level src.rows))
    (o1 o2 : Order String) {t0 t1 out : Ct C} {ids0 ids1 : IDSet} {s0 s1 : Finset String}
    (h0 : ∀ id, ids0.has id = true ↔ id ∈ s0) (h1 : ∀ id, ids1.has id = true ↔ id ∈ s1)
    (ht0 : t0.Coeff level) (ht1 : t1.Coeff level) (hs0 : ∀ id ∈ s0, id ∈ t0) (hs1 : ∀ id ∈ s1, id ∈ t1)
    (hout : out.AtLevel level) (hids : out.ids = s0 ∪ s1) :
    ∃ out', evalCore f level cp o1 o2 t0 t1 ids0 ids1 out = .ok out' ∧ Ct.Upd level out (evalOut f s0 s1 t0.comp t1.comp) out' := by
  obtain ⟨a, ha⟩ := Ct.get ht0.has0
  obtain ⟨b, hb⟩ := Ct.get ht1.has0
  obtain ⟨p, hp⟩ := Ct.get hout.has0
  have hpl := hout.len _ _ hp
  unfold evalCore
  rw [GoMap.deref_ok ha, bind_ok, GoMap.deref_ok hb, bind_ok, GoMap.deref_ok hp, bind_ok,
    evalRows_ok f (ht0.len _ _ ha) (ht1.len _ _ hb) (by omega), bind_ok]
  dsimp only
  obtain ⟨R0, hR0⟩ := Ct.Upd.refl level out
  have hU := hR0.insert hp hp (fun i => f i (a.rows i) (b.rows i))
  set out1 : Ct C := out.insert "0" (p.set level fun i => f i (a.rows i) (b.rows i)) with hout1
  obtain ⟨ids, a1, a2⟩ := Ct.idset o1 out1
  have hids1 : out1.ids = s0 ∪ s1 := by rw [(hU.atLevel hout).2.1, hids]
  rw [a1, bind_ok]
  obtain ⟨out', e1, R', e2, e3, e4⟩ := Go.loop_inv (evalStep f level cp t0 t1 ids0 ids1)
    (fun pre ct => ∃ R', Ct.Upd level out R' ct ∧ R' "0" = (fun i => f i (a.rows i) (b.rows i)) ∧
      ∀ id ∈ pre, R' id = evalOut f s0 s1 t0.comp t1.comp id)
    (GoMap.range o2 ids.value) out1 ⟨_, hU, by rw [Function.update_self], by simp⟩ (by
      rintro pre id suf ct hl ⟨R', i1, i2, i3⟩
      have hid : id ∈ s0 ∪ s1 := by
        rw [← hids1, ← a2, ← IDSet.mem_value_iff, ← GoMap.mem_range (o := o2), hl]; simp
      have hmo : id ∈ out ∧ id ≠ "0" := Ct.mem_ids.mp (by rw [hids]; exact hid)
      obtain ⟨p, hp⟩ := Ct.get hmo.1
      have hlen := hout.len _ _ hp
      have hget := i1.get hp
      have fin : ∀ F : QRows C, F = evalOut f s0 s1 t0.comp t1.comp id →
          ∃ R'', Ct.Upd level out R'' (ct.insert id ((p.set level (R' id)).set level F)) ∧
            R'' "0" = (fun i => f i (a.rows i) (b.rows i)) ∧ ∀ id' ∈ pre ++ [id], R'' id' = evalOut f s0 s1 t0.comp t1.comp id' := by
        intro F hF
        refine ⟨_, i1.insert hp hget F, by rw [Function.update_of_ne (Ne.symm hmo.2)]; exact i2, fun id' hid' => ?_⟩
        by_cases e : id' = id
        · subst e; rw [Function.update_self, hF]
        · rw [Function.update_of_ne e]
          exact i3 id' (by simpa [e] using hid')
      unfold evalStep
      by_cases c0 : ids0.has id = true
      · rw [if_neg (by simp [c0])]
        obtain ⟨x, hx⟩ := Ct.get (hs0 id ((h0 id).mp c0))
        have hxc := ht0.comp hx
        by_cases c1 : ids1.has id = true
        · rw [if_neg (by simp [c1])]
          obtain ⟨y, hy⟩ := Ct.get (hs1 id ((h1 id).mp c1))
          have hyc := ht1.comp hy
          rw [GoMap.deref_ok hx, bind_ok, GoMap.deref_ok hy, bind_ok, GoMap.deref_ok hget, bind_ok,
            evalRows_ok f (ht0.len _ _ hx) (ht1.len _ _ hy) (by show level < p.len; omega), bind_ok]
          refine ⟨_, rfl, fin _ ?_⟩
          unfold evalOut
          rw [if_neg hmo.2, if_neg (not_not.mpr ((h0 id).mp c0)), if_neg (not_not.mpr ((h1 id).mp c1)), hxc, hyc]
        · rw [if_pos (by simpa using c1), GoMap.deref_ok hx, bind_ok, GoMap.deref_ok hget, bind_ok,
            hcp _ _ (by exact hlen) (show (p.set level (R' id)).isNTT = false from hout.coeff id p hp) (ht0.len _ _ hx) (ht0.coeff _ _ hx), bind_ok]
          refine ⟨_, rfl, fin _ ?_⟩
          unfold evalOut
          rw [if_neg hmo.2, if_neg (not_not.mpr ((h0 id).mp c0)), if_pos (fun h => c1 ((h1 id).mpr h)), hxc]
      · have hn0 : id ∉ s0 := fun h => c0 ((h0 id).mpr h)
        have hn1 : id ∈ s1 := (mem_union.mp hid).resolve_left hn0
        obtain ⟨y, hy⟩ := Ct.get (hs1 id hn1)
        have hyc := ht1.comp hy
        rw [if_pos (by simpa using c0), GoMap.deref_ok hy, bind_ok, GoMap.deref_ok hget, bind_ok,
          hcp _ _ (by exact hlen) (show (p.set level (R' id)).isNTT = false from hout.coeff id p hp) (ht1.len _ _ hy) (ht1.coeff _ _ hy), bind_ok]
        refine ⟨_, rfl, fin _ ?_⟩
        unfold evalOut
        rw [if_neg hmo.2, if_pos hn0, hyc])
  refine ⟨out', e1, e2.congr fun id hid i hi => ?_⟩
  by_cases hz : id = "0"
  · subst hz; rw [e3]; unfold evalOut; rw [if_pos rfl, ht0.comp ha, ht1.comp hb]
  · rw [e4 id (GoMap.mem_range.mpr ((IDSet.mem_value_iff _ _).mpr ((a2 id).mpr (by
      rw [hids1, ← hids]; exact Ct.mem_ids.mpr ⟨hid, hz⟩))))]

theorem negNew_run {level : ℕ} (o1 o2 o3 : Order String) {op0 out : Ct C} (hout : out.AtLevel level) : ∃ out', negNew level o1 o2 o3 op0 out = .ok out' ∧
      Ct.Upd level out (fun id => if id ∈ op0.ids ∨ id = "0" then out.comp id else fun i => (C.RQ i).neg (out.comp id i)) out' := by
  obtain ⟨ids0, a1, a2⟩ := Ct.idset o1 op0
  obtain ⟨ids, b1, b2⟩ := Ct.idset o2 out
  unfold negNew
  rw [a1, bind_ok, b1, bind_ok]
  obtain ⟨R0, hR0⟩ := Ct.Upd.refl level out
  have hcomp := (hR0.atLevel hout).2.2
  obtain ⟨out', e1, R', e2, e3, e4⟩ := Go.loop_inv (fun (ct : Ct C) id => if ids0.has id = false then
      ct.upd level id fun old i => (C.RQ i).neg (old i) else (.ok ct : Go (Ct C)))
    (fun pre ct => ∃ R', Ct.Upd level out R' ct ∧ (∀ id, id ∉ pre ∨ id ∈ op0.ids → R' id = R0 id) ∧
      ∀ id ∈ pre, id ∉ op0.ids → R' id = fun i => (C.RQ i).neg (R0 id i))
    (GoMap.range o3 ids.value) out ⟨R0, hR0, fun _ _ => rfl, by simp⟩ (by
      rintro pre id suf ct hl ⟨R', i1, i2, i3⟩
      have hpre : id ∉ pre := nodup_split (GoMap.nodup_range _ _) hl
      have hid : id ∈ out.ids := by
        rw [← b2, ← IDSet.mem_value_iff, ← GoMap.mem_range (o := o3), hl]; simp
      obtain ⟨p, hp⟩ := Ct.get (Ct.mem_ids.mp hid).1
      have hlen := hout.len _ _ hp
      by_cases c0 : ids0.has id = true
      · rw [if_neg (by simp [c0])]
        have hm := (a2 id).mp c0
        refine ⟨ct, rfl, R', i1, fun id' h => ?_, fun id' h hn => ?_⟩
        · by_cases e : id' = id
          · subst e; exact i2 _ (.inr hm)
          · exact i2 id' (h.imp (fun h h' => h (by simp [h'])) fun h => h)
        · by_cases e : id' = id
          · subst e; exact absurd hm hn
          · exact i3 id' (by simpa [e] using h) hn
      · rw [if_pos (by simpa using c0)]
        have hm : id ∉ op0.ids := fun h => c0 ((a2 id).mpr h)
        obtain ⟨ct', u1, u2⟩ := i1.upd hp (by omega) (fun i => (C.RQ i).neg)
        refine ⟨ct', u1, _, u2, fun id' h => ?_, fun id' h hn => ?_⟩
        · have e : id' ≠ id := by
            rintro rfl
            rcases h with h | h
            · exact h (by simp)
            · exact hm h
          rw [Function.update_of_ne e]
          exact i2 id' (h.imp (fun h h' => h (by simp [h'])) fun h => h)
        · by_cases e : id' = id
          · subst e; rw [Function.update_self, i2 _ (.inl hpre)]
          · rw [Function.update_of_ne e]; exact i3 id' (by simpa [e] using h) hn)
  refine ⟨out', e1, e2.congr fun id hid i hi => ?_⟩
  by_cases hz : id = "0"
  · have hn : id ∉ GoMap.range o3 ids.value := by
      rw [GoMap.mem_range, IDSet.mem_value_iff, b2, Ct.mem_ids]; exact fun h => h.2 hz
    rw [e3 id (.inl hn), if_pos (.inr hz), hcomp id hid i hi]
  · by_cases hm : id ∈ op0.ids
    · rw [e3 id (.inr hm), if_pos (.inl hm), hcomp id hid i hi]
    · have hr : id ∈ GoMap.range o3 ids.value := by
        rw [GoMap.mem_range, IDSet.mem_value_iff, b2]; exact Ct.mem_ids.mpr ⟨hid, hz⟩
      rw [e4 id hr hm, if_neg (by tauto), hcomp id hid i hi]

/-- phase of a sum over different id sets -/
theorem phase_addOut (s0 s1 : Finset String) (h0 : "0" ∉ s0) (h1 : "0" ∉ s1) (s : String → Nega N ℤ) (a b : String → QRows C) (i : ℕ) :
    phaseRows (s0 ∪ s1) s (evalOut (fun i => (C.RQ i).add) s0 s1 a b) i = phaseRows s0 s a i + phaseRows s1 s b i := by
  unfold phaseRows
  have hz : cf (evalOut (fun i => (C.RQ i).add) s0 s1 a b "0" i) = cf (a "0" i) + cf (b "0" i) := by
    unfold evalOut; rw [if_pos rfl]; simp
  have hsum : ∑ id ∈ s0 ∪ s1, cf (evalOut (fun i => (C.RQ i).add) s0 s1 a b id i) * red (C.q i) (s id) =
      ∑ id ∈ s0 ∪ s1, ((if id ∈ s0 then cf (a id i) * red (C.q i) (s id) else 0) +
        if id ∈ s1 then cf (b id i) * red (C.q i) (s id) else 0) := by
    refine sum_congr rfl fun id hid => ?_
    have hne : id ≠ "0" := by rintro rfl; rcases mem_union.mp hid with h | h <;> contradiction
    unfold evalOut
    rw [if_neg hne]
    by_cases c0 : id ∈ s0 <;> by_cases c1 : id ∈ s1
    · simp [c0, c1, add_mul]
    · simp [c0, c1]
    · simp [c0, c1]
    · rcases mem_union.mp hid with h | h <;> contradiction
  have e0 : (s0 ∪ s1) ∩ s0 = s0 := by ext; simp
  have e1 : (s0 ∪ s1) ∩ s1 = s1 := by ext; simp
  rw [hz, hsum, sum_add_distrib, sum_ite_mem, sum_ite_mem, e0, e1]
  ring

/-- phase of a difference over different id sets, after the negation of the components of the second operand only -/
theorem phase_subOut (s0 s1 : Finset String) (h0 : "0" ∉ s0) (h1 : "0" ∉ s1) (s : String → Nega N ℤ) (a b : String → QRows C) (i : ℕ)
    (R : String → QRows C) (hR : ∀ id, id ∈ s0 ∪ s1 ∨ id = "0" → R id i = if id ∈ s0 ∨ id = "0" then
      evalOut (fun i => (C.RQ i).sub) s0 s1 a b id i else (C.RQ i).neg (evalOut (fun i => (C.RQ i).sub) s0 s1 a b id i)) :
    phaseRows (s0 ∪ s1) s R i = phaseRows s0 s a i - phaseRows s1 s b i := by
  unfold phaseRows
  have hz : cf (R "0" i) = cf (a "0" i) - cf (b "0" i) := by
    rw [hR "0" (.inr rfl), if_pos (.inr rfl)]
    unfold evalOut; rw [if_pos rfl]; simp
  have hsum : ∑ id ∈ s0 ∪ s1, cf (R id i) * red (C.q i) (s id) =
      ∑ id ∈ s0 ∪ s1, ((if id ∈ s0 then cf (a id i) * red (C.q i) (s id) else 0) -
        if id ∈ s1 then cf (b id i) * red (C.q i) (s id) else 0) := by
    refine sum_congr rfl fun id hid => ?_
    have hne : id ≠ "0" := by rintro rfl; rcases mem_union.mp hid with h | h <;> contradiction
    rw [hR id (.inl hid)]
    unfold evalOut
    rw [if_neg hne]
    by_cases c0 : id ∈ s0 <;> by_cases c1 : id ∈ s1
    · simp [c0, c1, sub_mul]
    · simp [c0, c1]
    · simp [c0, c1, hne]
    · rcases mem_union.mp hid with h | h <;> contradiction
  have e0 : (s0 ∪ s1) ∩ s0 = s0 := by ext; simp
  have e1 : (s0 ∪ s1) ∩ s1 = s1 := by ext; simp
  rw [hz, hsum, sum_sub_distrib, sum_ite_mem, sum_ite_mem, e0, e1]
  ring

end MKHE
