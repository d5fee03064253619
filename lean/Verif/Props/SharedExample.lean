import Verif.Props.SharedRace
import Verif.Props.BfvExample

set_option autoImplicit false

/-!
# Two goroutines, one key set (C77)

The parameters of `Props/BfvExample.lean` (21 bit primes), with relinearization keys of the CKKS kind. The first goroutine multiplies a
ciphertext of phase `s` by one of phase `2^18 s`, the second multiplies two ciphertexts of phase zero; all belong to party `"a"`, and the calls
share a key set.
-/

namespace MKHE.SEx
open MKHE Finset Nega Ex BEx

variable (fm : FloatModel)

theorem beta_top : (qp fm).beta 1 = 1 := bt_one fm

/-- a relinearization key -/
noncomputable def key (id : String) : Rlk (qp fm) :=
  ⟨id, ⟨1, mkKey _ (sec id) (BEx.crsv fm 5) 0 err⟩, ⟨1, mkKey _ (sec' id) (BEx.crsv fm 5) (sec id) err⟩,
    ⟨1, mkKey _ (sec id) (BEx.crsv fm 7) (- sec' id) err⟩⟩

/-- a key set with the keys of two parties -/
noncomputable def keys : RlkMap (qp fm) := (RlkSet.new.add Rlk.id ⟨1, fun _ => PolyQP.zero⟩ (key fm "a")).add Rlk.id ⟨1, fun _ => PolyQP.zero⟩ (key fm "b")

theorem keys_lookup (id : String) (h : id = "a" ∨ id = "b") : (keys fm).value.lookup id = some (key fm id) := by
  have : (keys fm).value = AList.insert "b" (key fm "b") (AList.insert "a" (key fm "a") ∅) := rfl
  rw [this, GoMap.lookup_insert', GoMap.lookup_insert']
  rcases h with h | h <;> subst h <;> simp

theorem keys_pool {ids : Finset String} (h : ids ⊆ {"a", "b"}) : PoolOK ((qp fm).beta 1) ids (keys fm).pool0 ∧ PoolOK ((qp fm).beta 1) ids (keys fm).pool1 := by
  have e0 : (keys fm).pool0 = AList.insert "b" ⟨1, fun _ => PolyQP.zero⟩ (AList.insert "a" ⟨1, fun _ => PolyQP.zero⟩ ∅) := rfl
  have e1 : (keys fm).pool1 = AList.insert "b" ⟨1, fun _ => PolyQP.zero⟩ (AList.insert "a" ⟨1, fun _ => PolyQP.zero⟩ ∅) := rfl
  rw [e0, e1]
  constructor <;>
  · intro id hid
    have := h hid
    simp only [mem_insert, mem_singleton] at this
    rw [beta_top]
    refine ⟨⟨1, fun _ => PolyQP.zero⟩, ?_, le_rfl⟩
    rcases this with rfl | rfl
    · rw [GoMap.lookup_insert', if_neg (by decide), GoMap.lookup_insert', if_pos rfl]
    · rw [GoMap.lookup_insert', if_pos rfl]

theorem keys_ok : C29.Keys (BEx.crs fm) 1 {"a", "b"} (keys fm) sec sec' (BEx.crsv fm 5) 1 1 2 where
  u := by
    refine ⟨⟨1, BEx.crsv fm 7⟩, by rw [BEx.crs_lookup]; norm_num, by rw [beta_top], fun id hid => ?_⟩
    have hid' : id = "a" ∨ id = "b" := by simpa using hid
    rw [beta_top]
    exact ⟨key fm id, keys_lookup fm id hid', le_rfl, le_rfl, le_rfl, mkKey_rel _ _ _ _ _ _ fun k _ => err_bdd k,
      mkKey_rel _ _ _ _ _ _ fun k _ => err_bdd k, mkKey_rel _ _ _ _ _ _ fun k _ => err_bdd k⟩
  s := fun id _ => sec_bdd id
  r := fun id _ => sec'_bdd id

/-- a polynomial given by its integer coefficients -/
noncomputable def pol (m : Nega 16 ℤ) : Poly (qp fm) := ⟨2, false, fun i => ((qp fm).RQ i).ofCf (red ((qp fm).q i) m)⟩

/-- the ciphertext `(0, m)` of a party -/
noncomputable def ct1 (id : String) (m : Nega 16 ℤ) : Ct (qp fm) := AList.insert id (pol fm m) (AList.insert "0" (pol fm 0) ∅)

theorem ct1_lookup (id : String) (m : Nega 16 ℤ) (x : String) : (ct1 fm id m).lookup x =
    if x = id then some (pol fm m) else if x = "0" then some (pol fm 0) else none := by
  unfold ct1; rw [GoMap.lookup_insert', GoMap.lookup_insert']; rfl

theorem ct1_at {id : String} (h : id ≠ "0") (m : Nega 16 ℤ) : (ct1 fm id m).AtLevel 1 := by
  refine ⟨AList.lookup_isSome.mp (by rw [ct1_lookup, if_neg h.symm]; rfl), fun x p hp => ?_, fun x p hp => ?_⟩ <;>
  · rw [ct1_lookup] at hp
    split_ifs at hp <;> injection hp with hp <;> subst hp <;> rfl

theorem ct1_ids {id : String} (h : id ≠ "0") (m : Nega 16 ℤ) : (ct1 fm id m).ids = {id} := by
  ext x
  rw [Ct.mem_ids, ← AList.lookup_isSome, ct1_lookup]
  simp only [mem_singleton]
  by_cases h1 : x = id
  · subst h1; simp [h]
  · by_cases h3 : x = "0"
    · subst h3; simp [h1]
    · simp [h1, h3]

theorem ct1_tail {id : String} (h : id ≠ "0") (m : Nega 16 ℤ) (i : ℕ) : (ct1 fm id m).tail sec i = red ((qp fm).q i) (m * sec id) := by
  unfold Ct.tail tailRows
  rw [ct1_ids fm h, sum_singleton, Ct.comp_eq (p := pol fm m) (by rw [ct1_lookup, if_pos rfl]), Poly.coeffs_eq rfl]
  show cf (((qp fm).RQ i).ofCf _) * _ = _
  rw [LimbOps.cf_ofCf, map_mul]

theorem ct1_phase {id : String} (h : id ≠ "0") (m : Nega 16 ℤ) (i : ℕ) : (ct1 fm id m).phase sec i = red ((qp fm).q i) (m * sec id) := by
  rw [← ct1_tail fm h, phase_eq_rows]
  unfold phaseRows
  rw [Ct.comp_eq (p := pol fm 0) (by rw [ct1_lookup, if_neg h.symm, if_pos rfl]), Poly.coeffs_eq rfl]
  show cf (((qp fm).RQ i).ofCf _) + _ = _
  rw [LimbOps.cf_ofCf, map_zero, zero_add]
  rfl

/-- an evaluator -/
noncomputable def ev : Eval (qp fm) := ⟨(BEx.scratch fm).base, ∅, fun _ => row _ 9⟩

/-- a goroutine that multiplies the ciphertexts `(0, m)` and `(0, m')` of a party, both of scale one, with key set object number `n` -/
noncomputable def task (n : ℕ) (id : String) (m m' : Nega 16 ℤ) : Task (qp fm) :=
  ⟨n, fun _ => Order.id, false, ⟨ct1 fm id m, 1⟩, ⟨ct1 fm id m', 1⟩, none, ev fm, .start⟩

theorem scale_one : fm.mul 1 1 = 1 := by
  unfold FloatModel.mul
  have := fm.exact_nat 1 (by norm_num)
  push_cast at this
  norm_num
  exact this

theorem drops : Drops fm (qp fm).q 1 (fm.mul 1 1) 4 0 := by
  rw [scale_one]
  refine .inr ⟨by norm_num, by norm_num, fun j hj => absurd hj (by omega), ?_⟩
  show fm.div 1 (fm.ofNat (bq 1)) < fm.div 4 2
  have h2 : fm.div 4 2 = 2 := by
    unfold FloatModel.div
    have := fm.exact_nat 2 (by norm_num)
    push_cast at this
    norm_num
    exact this
  have hq : fm.ofNat (bq 1) = 1048897 := by
    have := fm.exact_nat 1048897 (by norm_num)
    push_cast at this
    show fm.rnd ((bq 1 : ℕ) : ℚ) = _
    norm_num [bq]
    exact this
  have h1 : fm.div 1 1048897 ≤ 1 := by
    unfold FloatModel.div
    have := fm.mono (1 / 1048897) 1 (by norm_num)
    have e := fm.exact_nat 1 (by norm_num)
    push_cast at e
    rw [e] at this
    exact this
  rw [h2, hq]
  linarith

theorem call_ok (n : ℕ) {id : String} (hid : id = "a" ∨ id = "b") (m m' : Nega 16 ℤ) :
    C77.CallOk 4 (BEx.crs fm) (task fm n id m m') (keys fm) 1 1 := by
  have hne : id ≠ "0" := by rcases hid with h | h <;> subst h <;> decide
  have hsub : ({id} : Finset String) ⊆ {"a", "b"} := by
    intro x hx; rw [mem_singleton] at hx; subst hx; simpa using hid
  have b1 := beta_top fm
  refine ⟨rfl, ⟨by show 1 < 2; norm_num, by show 1 < 2; norm_num, ct1_at fm hne m, ct1_at fm hne m', fun x hx => ?_, ?_⟩, ?_, (fun h => by cases h), ?_, ?_,
    (fun h hh => by cases hh), by norm_num, ?_, 0, drops fm⟩
  · have hx' : x = id := by
      change x ∈ (ct1 fm id m).ids ∪ (ct1 fm id m').ids at hx
      rw [ct1_ids fm hne, ct1_ids fm hne, union_self, mem_singleton] at hx
      exact hx
    subst hx'
    rw [min_self, b1]
    exact ⟨_, keys_lookup fm x hid, le_rfl, le_rfl, le_rfl⟩
  · rw [min_self, b1]
    exact ⟨⟨1, BEx.crsv fm 7⟩, by rw [BEx.crs_lookup]; norm_num, le_rfl⟩
  · rw [min_self, b1]
    exact ⟨le_rfl, le_rfl, le_rfl⟩
  · show PoolOK _ (ct1 fm id m).ids _
    rw [ct1_ids fm hne]; exact (keys_pool fm hsub).1
  · show PoolOK _ (ct1 fm id m').ids _
    rw [ct1_ids fm hne]; exact (keys_pool fm hsub).2
  · show fm.mul 1 1 ≠ 0
    rw [scale_one]; norm_num

/-! ## goroutines that work for different parties -/

/-- a goroutine for each of two parties, one key set -/
noncomputable def world (m : Bool → Nega 16 ℤ × Nega 16 ℤ) : World Bool (qp fm) :=
  ⟨fun k => task fm 0 (if k then "a" else "b") (m k).1 (m k).2, fun _ => keys fm⟩

theorem world_ok (m : Bool → Nega 16 ℤ × Nega 16 ℤ) : C77.AllOk 4 (BEx.crs fm) (fun _ => 1) (fun _ => 1) (world fm m) := fun k =>
  call_ok fm 0 (by cases k <;> simp) _ _

theorem world_apart (m : Bool → Nega 16 ℤ × Nega 16 ℤ) : C77.Apart (world fm m) := by
  intro k k' hk _
  have e0 : ∀ k, ((world fm m).task k).uses0 = {if k then "a" else "b"} := fun k => by
    show (ct1 fm _ _).ids = _
    exact ct1_ids fm (by cases k <;> decide) _
  have e1 : ∀ k, ((world fm m).task k).uses1 = {if k then "a" else "b"} := fun k => by
    show (ct1 fm _ _).ids = _
    exact ct1_ids fm (by cases k <;> decide) _
  rw [e0, e0, e1, e1]
  cases k <;> cases k' <;> simp at hk ⊢

/-- whatever the schedule, both calls can finish and return what they return alone -/
example (m : Bool → Nega 16 ℤ × Nega 16 ℤ) (w : World Bool (qp fm)) (R : Reach 4 (BEx.crs fm) (world fm m) w) (k : Bool) :
    ∃ w' out a, Reach 4 (BEx.crs fm) w w' ∧ (w'.task k).stage = .done out ∧ ((world fm m).task k).alone 4 (BEx.crs fm) (keys fm) = .ok a ∧
      out.ct.Same a.ct ∧ out.scale = a.scale := by
  obtain ⟨w', out, R', ho⟩ := C77.finishes (BEx.valid_qp fm) (world_ok fm m) (world_apart fm m) R k
  obtain ⟨a, h1, h2, h3⟩ := (C77.calls_partial (BEx.valid_qp fm) (world_ok fm m) (world_apart fm m) (R.trans R') k).2 out ho
  exact ⟨w', out, a, R', ho, h1, h2, h3⟩

/-! ## goroutines that work for the same party -/

/-- the constant `2^18` -/
def big : Nega 16 ℤ := ((2 ^ 18 : ℕ) : Nega 16 ℤ)

/-- two goroutines for party `"a"`, one key set -/
noncomputable def shared : World Bool (qp fm) :=
  ⟨fun k => if k then task fm 0 "a" 1 big else task fm 0 "a" 0 0, fun _ => keys fm⟩

theorem shared_ok : C77.AllOk 4 (BEx.crs fm) (fun _ => 1) (fun _ => 1) (shared fm) := fun k => by
  cases k
  · exact call_ok fm 0 (.inl rfl) 0 0
  · exact call_ok fm 0 (.inl rfl) 1 big

theorem noise_le : mulNoise 16 (qp fm).P 1 1 1 Dg 1 1 2 ≤ 110 * (qp fm).P := by
  unfold mulNoise
  rw [P_val]
  norm_num [Dg]

theorem sec_sq : (sec "a" * sec "a") 6 = 1 := by
  rw [mul_apply]
  decide +kernel

theorem top_blocks : ∀ k < (qp fm).beta 1, 2 * ((qp fm).blockProd 1 k : ℤ) ≤ Dg := block_le fm

theorem noise_small {Er : Nega 16 ℤ} (h : ∀ x, 2 * ((qp fm).P * |Er x|) ≤ 2 * mulNoise 16 (qp fm).P 1 1 1 Dg 1 1 2 +
    (qp fm).P * ((C27.dropped (qp fm).q 1 0 - 1) * (1 + 1 * 16 * 1))) (x : Fin 16) : |Er x| ≤ 110 := by
  have h1 := h x
  have h2 := noise_le fm
  have e : C27.dropped (qp fm).q 1 0 = 1 := by simp [C27.dropped]
  rw [e] at h1
  have hP : (0 : ℤ) < (qp fm).P := by rw [P_val]; norm_num
  have h3 : ((qp fm).P : ℤ) * |Er x| ≤ (qp fm).P * 110 := by
    push_cast at h1
    nlinarith
  exact le_of_mul_le_mul_left h3 hP

/-- the call of the first goroutine when it runs alone: the phase it returns is `2^18 s^2`, up to an error of at most 110 -/
theorem alone_phase : ∃ a, ((shared fm).task true).alone 4 (BEx.crs fm) (keys fm) = .ok a ∧ ∃ E : Nega 16 ℤ, (∀ x, |E x| ≤ 110) ∧
    a.ct.phase sec 0 = red ((qp fm).q 0) (big * (sec "a" * sec "a") - E) := by
  have hne : "a" ≠ "0" := by decide
  have H := call_ok fm 0 (id := "a") (.inl rfl) 1 big
  have hN : C29.NewHyp (BEx.crs fm) 1 1 (ct1 fm "a" 1) (ct1 fm "a" big) (keys fm) sec sec' (BEx.crsv fm 5) 1 1 2 :=
    ⟨H.prod.lvl0, H.prod.lvl1, H.prod.in0, H.prod.in1, by
      rw [ct1_ids fm hne, ct1_ids fm hne, union_self, min_self]
      have K := keys_ok fm
      refine ⟨?_, fun id _ => sec_bdd id, fun id _ => sec'_bdd id⟩
      obtain ⟨u, u1, u2, u3⟩ := K.u
      exact ⟨u, u1, u2, fun id hid => u3 id (by rw [mem_singleton] at hid; subst hid; simp)⟩, H.pool0, H.pool1⟩
  obtain ⟨out, E', rlk', r1, r2, r3, r4, Er, r5, r6, -⟩ := C29.mulRelinNew_phase (c0 := ⟨ct1 fm "a" 1, 1⟩) (c1 := ⟨ct1 fm "a" big, 1⟩) (BEx.valid_qp fm) 4
    (fun _ => Order.id) (ev fm) H.ev (same := false) (fun h => by cases h) hN (fun id => sec_bdd id) Dg
    (by intro l hl; simp only [List.mem_cons, List.not_mem_nil, or_false, or_self] at hl; subst hl; exact top_blocks fm) H.base H.scale (drops fm)
  refine ⟨out, ?_, Er, ?_, ?_⟩
  · show (ckksMulRelinNew 4 (BEx.crs fm) (fun _ => Order.id) (ev fm) false ⟨ct1 fm "a" 1, 1⟩ ⟨ct1 fm "a" big, 1⟩ (keys fm)).map _ = _
    rw [r1]; rfl
  · rw [ct1_ids fm hne, ct1_ids fm hne, union_self, min_self, beta_top, card_singleton] at r5
    exact noise_small fm (by exact_mod_cast r5)
  · have h := r6 0 (Nat.zero_le _)
    have e : C27.dropped (qp fm).q (min 1 1) 0 = 1 := by simp [C27.dropped]
    rw [ct1_phase fm hne, ct1_phase fm hne, e, Nat.cast_one] at h
    simp only [one_mul] at h
    rw [map_sub, eq_sub_iff_add_eq, ← h, ← map_mul, mul_left_comm]

/-- the same call in a schedule of the two goroutines: the phase it returns is zero, up to an error of at most 110 -/
theorem raced_phase : ∃ w out, Reach 4 (BEx.crs fm) (shared fm) w ∧ (w.task true).stage = .done out ∧ ∃ E : Nega 16 ℤ, (∀ x, |E x| ≤ 110) ∧
    out.ct.phase sec 0 = red ((qp fm).q 0) (- E) := by
  have hne : "a" ≠ "0" := by decide
  obtain ⟨w, out, R, ho, -, -, Er, r5, r6⟩ := C77.race_phase (w0 := shared fm) (BEx.valid_qp fm) (k := true) (k' := false) (by decide) rfl (l0 := 1) (l1 := 1)
    (j0 := 1) (j1 := 1) (shared_ok fm true) (shared_ok fm false) rfl rfl rfl rfl (c := ⟨ct1 fm "a" 1, 1⟩) (d := ⟨ct1 fm "a" big, 1⟩)
    (c' := ⟨ct1 fm "a" 0, 1⟩) (d' := ⟨ct1 fm "a" 0, 1⟩) rfl rfl rfl rfl (by rw [ct1_ids fm hne, ct1_ids fm hne]) (by rw [ct1_ids fm hne, ct1_ids fm hne])
    (by norm_num) (by norm_num) (s := sec) (r := sec') (a := BEx.crsv fm 5) (Sb := 1) (Rb := 1) (Be := 2) (by
      rw [ct1_ids fm hne, ct1_ids fm hne, union_self, min_self]
      refine ⟨?_, fun id _ => sec_bdd id, fun id _ => sec'_bdd id⟩
      obtain ⟨u, u1, u2, u3⟩ := (keys_ok fm).u
      exact ⟨u, u1, u2, fun id hid => u3 id (by rw [mem_singleton] at hid; subst hid; simp)⟩) (fun id => sec_bdd id) Dg
    (by intro l hl; simp only [min_self, List.mem_cons, List.not_mem_nil, or_false, or_self] at hl; subst hl; exact top_blocks fm) (drops fm)
  refine ⟨w, out, R, ho, Er, ?_, ?_⟩
  · rw [ct1_ids fm hne, ct1_ids fm hne, union_self, min_self, beta_top, card_singleton] at r5
    exact noise_small fm (by exact_mod_cast r5)
  · have h := r6 0 (Nat.zero_le _)
    have e : C27.dropped (qp fm).q (min 1 1) 0 = 1 := by simp [C27.dropped]
    rw [ct1_phase fm hne, ct1_phase fm hne, ct1_tail fm hne, ct1_tail fm hne, ct1_tail fm hne, e, Nat.cast_one, zero_mul, map_zero, mul_zero,
      add_zero, sub_self] at h
    simp only [one_mul] at h
    rw [map_neg, eq_neg_iff_add_eq_zero, ← h]

/-- **C77 is false in general.** Two goroutines call `MulRelinNew` with an evaluator each and one key set; each call succeeds on its own. There is a
schedule in which the first returns another ciphertext than on its own: its phase, which should be `2^18 s^2` up to an error of 110, is zero
up to an error of 110. -/
theorem race : ∃ w out a, C77.AllOk 4 (BEx.crs fm) (fun _ => 1) (fun _ => 1) (shared fm) ∧ Reach 4 (BEx.crs fm) (shared fm) w ∧
    (w.task true).stage = .done out ∧ ((shared fm).task true).alone 4 (BEx.crs fm) (keys fm) = .ok a ∧ ¬ out.ct.Same a.ct ∧
    ∃ E E' : Nega 16 ℤ, (∀ x, |E x| ≤ 110) ∧ (∀ x, |E' x| ≤ 110) ∧
      a.ct.phase sec 0 = red ((qp fm).q 0) (big * (sec "a" * sec "a") + E) ∧ out.ct.phase sec 0 = red ((qp fm).q 0) E' := by
  obtain ⟨a, a1, E, a2, a3⟩ := alone_phase fm
  obtain ⟨w, out, R, ho, E', b2, b3⟩ := raced_phase fm
  refine ⟨w, out, a, shared_ok fm, R, ho, a1, fun hs => ?_, -E, -E', fun x => by rw [Nega.neg_apply, abs_neg]; exact a2 x,
    fun x => by rw [Nega.neg_apply, abs_neg]; exact b2 x, by rw [← sub_eq_add_neg]; exact a3, b3⟩
  have hph : out.ct.phase sec 0 = a.ct.phase sec 0 := by rw [phase_eq_rows, phase_eq_rows, hs.ids, hs.comp]
  rw [a3, b3] at hph
  have h6 := congrFun hph 6
  rw [red_apply, red_apply, ZMod.intCast_eq_intCast_iff_dvd_sub] at h6
  rw [Nega.sub_apply, Nega.neg_apply, show (big * (sec "a" * sec "a")) 6 = 2 ^ 18 by
    unfold big; rw [natCast_mul_apply, sec_sq]; norm_num] at h6
  have h1 := abs_le.mp (a2 6)
  have h2 := abs_le.mp (b2 6)
  generalize E 6 = e at h1 h6
  generalize E' 6 = e' at h2 h6
  obtain ⟨z, hz⟩ := h6
  have hb : (((qp fm).q 0 : ℕ) : ℤ) = 1048609 := rfl
  rw [hb] at hz
  omega

end MKHE.SEx
