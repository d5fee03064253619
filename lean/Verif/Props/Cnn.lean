import Verif.Props.CkksProg
import Verif.Model.Cnn
import Verif.Spec.Cnn

set_option autoImplicit false

/-!
# C49: the layers of the encrypted neural network
-/

namespace MKHE.C49
open Finset Nega C59

variable {N : ℕ} [NeZero N] {C : Ctx N} {S : Sys C}

/-- the environment of the layers in the setting of C59 -/
def env (S : Sys C) (mredPsi : ℕ → ℕ → ℕ) : Cnn.Env C := ⟨S.pscale, S.crs, S.rks, mredPsi⟩

/-! ## sums of ciphertexts of one scale -/

theorem addOk_same (fm : FloatModel) {a b : Info} (h0 : 0 < a.scale) (h : b.scale = a.scale) : AddOk fm a b := by
  have h1 : fm.div a.scale a.scale = 1 := by
    unfold FloatModel.div
    rw [div_self h0.ne']
    have := fm.exact_nat 1 (by norm_num)
    simpa using this
  unfold AddOk
  rw [h, h1]
  norm_num

/-- without alignment of scales, errors and bounds add -/
theorem add_same (fm : FloatModel) {a b : Info} (h : b.scale = a.scale) :
    a.add fm b = ⟨min a.level b.level, a.scale, a.ids ∪ b.ids, a.V + b.V, a.B + b.B⟩ := by
  unfold Info.add addErr
  rw [h, C23.factor_of_ge fm le_rfl, max_self]
  simp

/-! ## rotate and add -/

/-- what is known after `x = x + Rotate(x, r)` -/
noncomputable def rotAddInfo (S : Sys C) (r : ℤ) (a : Info) : Info := ⟨a.level, a.scale, a.ids, 2 * a.V, 2 * a.B + rotErr S r a⟩

theorem rotAdd_ok (V : C.Valid) (hS : S.Ok) (mredPsi : ℕ → ℕ → ℕ) (o : ℕ → ℕ → Sched String) {E : Eval C} {rlk : RlkMap C}
    (hst : St.Ready S ⟨E, rlk⟩) {ct : CCt C} {v : Nega N ℝ} {a : Info} (h : Approx S ct v a) (r : ℤ) :
    ∃ out E' v', Cnn.rotAdd (env S mredPsi) o E ct r = .ok (out, E') ∧ St.Ready S ⟨E', rlk⟩ ∧ Approx S out v' (rotAddInfo S r a) ∧
      ∀ j, slot j v' = slot j v + slot (j + r) v := by
  obtain ⟨t, E1, t1, t2, t3⟩ := rot V hS (o 0) hst h r
  obtain ⟨out, E2, u1, u2, u3⟩ := add hS mredPsi (o 1 0) t2 h t3 (addOk_same _ h.pos rfl)
  refine ⟨out, E2, v + galois (5 ^ C35.amount N r) v, ?_, u2, ?_, fun j => ?_⟩
  · show (ckksRotateNew S.crs (o 0) E ct r S.rks >>= fun t => ckksAddNew mredPsi (o 1 0) t.2 ct t.1) = _
    rw [t1, bind_ok]; exact u1
  · rw [add_same (a := a) (b := a.rot S r) _ rfl] at u3
    have e : (⟨min a.level (a.rot S r).level, a.scale, a.ids ∪ (a.rot S r).ids, a.V + (a.rot S r).V, a.B + (a.rot S r).B⟩ : Info) =
        rotAddInfo S r a := by
      show (⟨min a.level a.level, a.scale, a.ids ∪ a.ids, a.V + a.V, a.B + (a.B + rotErr S r a)⟩ : Info) = _
      rw [min_self, union_self]
      unfold rotAddInfo
      congr 1 <;> ring
    rwa [e] at u3
  · rw [map_add, slot_rotate V.hN V.log1]

/-- the loop: `logn` times -/
noncomputable def rotAddsInfo (S : Sys C) (step : ℤ) (a : Info) : ℕ → Info
  | 0 => a
  | n + 1 => rotAddInfo S (step * 2 ^ n) (rotAddsInfo S step a n)

theorem sum_double (f : ℤ → ℂ) (j step : ℤ) (n : ℕ) :
    ∑ k ∈ range (2 ^ (n + 1)), f (j + step * k) = ∑ k ∈ range (2 ^ n), f (j + step * k) + ∑ k ∈ range (2 ^ n), f (j + step * 2 ^ n + step * k) := by
  rw [pow_succ, mul_two, Finset.sum_range_add]
  congr 1
  refine Finset.sum_congr rfl fun k _ => ?_
  congr 1
  push_cast; ring

/-- **C49, rotate and add.** After `logn` rounds of `x = x + Rotate(x, step * 2^i)`, slot `j` holds the sum of the slots `j + step * k` for all
`k < 2^logn`. -/
theorem rotAddLoop_ok (V : C.Valid) (hS : S.Ok) (mredPsi : ℕ → ℕ → ℕ) (o : Cnn.Ord) {E : Eval C} {rlk : RlkMap C}
    (hst : St.Ready S ⟨E, rlk⟩) {ct : CCt C} {v : Nega N ℝ} {a : Info} (h : Approx S ct v a) (step : ℤ) (logn : ℕ) :
    ∃ out E' v', Cnn.rotAddLoop (env S mredPsi) o step logn (ct, E) = .ok (out, E') ∧ St.Ready S ⟨E', rlk⟩ ∧
      Approx S out v' (rotAddsInfo S step a logn) ∧ ∀ j, slot j v' = ∑ k ∈ range (2 ^ logn), slot (j + step * k) v := by
  obtain ⟨w, w1, w2, v', w3, w4⟩ := Go.loop_inv (fun (w : CCt C × Eval C) (i : ℕ) => Cnn.rotAdd (env S mredPsi) (o i) w.2 w.1 (step * 2 ^ i))
    (fun pre w => St.Ready S ⟨w.2, rlk⟩ ∧ ∃ v', Approx S w.1 v' (rotAddsInfo S step a pre.length) ∧
      ∀ j, slot j v' = ∑ k ∈ range (2 ^ pre.length), slot (j + step * k) v) (List.range logn) (ct, E)
    ⟨hst, v, h, fun j => by simp⟩ (by
      rintro pre i suf ⟨c, E1⟩ he ⟨hr, v1, h1, h2⟩
      have hi : i = pre.length := by
        have := congrArg (fun l : List ℕ => l[pre.length]?) he
        simp only [List.getElem?_append_right le_rfl, Nat.sub_self, List.getElem?_cons_zero] at this
        have hlt : pre.length < logn := by
          by_contra hc
          rw [List.getElem?_eq_none (by rw [List.length_range]; omega)] at this
          cases this
        rw [List.getElem?_eq_getElem (by rw [List.length_range]; exact hlt), List.getElem_range] at this
        injection this with this
        exact this.symm
      obtain ⟨out, E', v', e1, e2, e3, e4⟩ := rotAdd_ok V hS mredPsi (o i) hr h1 (step * 2 ^ i)
      refine ⟨(out, E'), e1, e2, v', ?_, fun j => ?_⟩
      · rw [List.length_append, List.length_singleton]
        show Approx S out v' (rotAddInfo S (step * 2 ^ pre.length) _)
        rw [← hi] at e3 ⊢; exact e3
      · rw [e4, h2, h2, List.length_append, List.length_singleton, sum_double (fun j => slot j v), hi])
  rw [List.length_range] at w3 w4
  exact ⟨w.1, w.2, v', w1, w2, w3, w4⟩

/-! ## products -/

/-- infos that differ in the error only add up -/
theorem add_like (fm : FloatModel) {a b : Info} (hl : b.level = a.level) (h : b.scale = a.scale) (hi : b.ids = a.ids) :
    a.add fm b = ⟨a.level, a.scale, a.ids, a.V + b.V, a.B + b.B⟩ := by
  rw [add_same fm h, hl, hi, min_self, union_self]

/-- the product of a rotated operand: only the error depends on the rotation -/
theorem mul_rot (S : Sys C) (r : ℤ) (a b : Info) :
    (a.rot S r).mul S b = { a.mul S b with B := ((a.rot S r).mul S b).B } := rfl

/-- slices of ciphertexts that encrypt the polynomials `w`, all with the bounds `b`, and of their hoisted forms -/
def Operands (S : Sys C) (cts : List (CCt C)) (hs : List (HoistedCt C)) (w : ℕ → Nega N ℝ) (b : Info) (n : ℕ) : Prop :=
  ∀ k < n, ∃ ct h, cts[k]? = some ct ∧ hs[k]? = some h ∧ Approx S ct (w k) b ∧ IsHoisted b.level ct.ct h

/-- the common reference strings have an entry for a rotation amount -/
def HasAmount (S : Sys C) (r : ℤ) : Prop := C35.amount N r ≠ 0 → (S.crs.lookup (C35.amount N r : ℤ)).isSome

/-- there are levels left for a product of ciphertexts of levels and scales as in `a` and `b` -/
def MulsOk (S : Sys C) (a b : Info) : Prop := MulOk S (min a.level b.level) (C.fm.mul a.scale b.scale)

theorem rotMul_ok (V : C.Valid) (hS : S.Ok) (mredPsi : ℕ → ℕ → ℕ) (o : ℕ → ℕ → Sched String) {E : Eval C} {rlk : RlkMap C}
    (hst : St.Ready S ⟨E, rlk⟩) {ct ker : CCt C} {v w : Nega N ℝ} {a b : Info} (h : Approx S ct v a) (hk : Approx S ker w b) {m km : HoistedCt C}
    (hm : IsHoisted a.level ct.ct m) (hkm : IsHoisted b.level ker.ct km) {r : ℤ} (hr : HasAmount S r) (hok : MulsOk S a b) :
    ∃ out E', Cnn.rotMul (env S mredPsi) o rlk E ct r m ker km = .ok (out, E') ∧ St.Ready S ⟨E', rlk⟩ ∧
      Approx S out (galois (5 ^ C35.amount N r) v * w) ((a.rot S r).mul S b) := by
  obtain ⟨t, E1, t1, t2, t3⟩ := rotHoisted V hS (o 0) hst h r hr hm
  obtain ⟨th, S', u1, u2, u3⟩ := hoisted V (o 1 0) t2 t3
  obtain ⟨out, E', x1, x2, x3⟩ := mulHoisted V hS (o 2 0) u2 t3 hk u3 hkm hok
  refine ⟨out, E', ?_, x2, x3⟩
  show (ckksRotateHoistedNew S.crs (o 0) E ct r m S.rks >>= fun t => hoistedForm (o 1 0) t.2.ksw t.1.ct >>= fun m =>
    ckksMulRelinHoistedNew S.pscale S.crs (o 2 0) { t.2 with ksw := m.2 } t.1 ker (some m.1) (some km) rlk) = _
  rw [t1, bind_ok, u1, bind_ok]
  exact x1

theorem index_ok {α : Type*} {l : List α} {i : ℕ} {a : α} (h : l[i]? = some a) : Cnn.index l i = .ok a := by
  unfold Cnn.index; rw [h]

theorem convTap_ok (V : C.Valid) (hS : S.Ok) (mredPsi : ℕ → ℕ → ℕ) (o : ℕ → ℕ → Sched String) {E : Eval C} {rlk : RlkMap C}
    (hst : St.Ready S ⟨E, rlk⟩) {img c : CCt C} {v u : Nega N ℝ} {a b x : Info} {w : ℕ → Nega N ℝ} {kers : List (CCt C)} {kerHs : List (HoistedCt C)}
    {n k : ℕ} (hk : k < n) (hker : Operands S kers kerHs w b n) (h : Approx S img v a) (hc : Approx S c u x) {m : HoistedCt C}
    (hm : IsHoisted a.level img.ct m) {r : ℤ} (hr : HasAmount S r) (hok : MulsOk S a b) (hl : (a.mul S b).level = x.level)
    (hs : (a.mul S b).scale = x.scale) (hi : (a.mul S b).ids = x.ids) :
    ∃ out E', Cnn.convTap (env S mredPsi) o rlk img m kers kerHs k r (c, E) = .ok (out, E') ∧ St.Ready S ⟨E', rlk⟩ ∧
      Approx S out (u + galois (5 ^ C35.amount N r) v * w k) ⟨x.level, x.scale, x.ids, x.V + (a.mul S b).V, x.B + ((a.rot S r).mul S b).B⟩ := by
  obtain ⟨ker, kh, k1, k2, k3, k4⟩ := hker k hk
  obtain ⟨t, E1, t1, t2, t3⟩ := rotMul_ok V hS mredPsi o hst h k3 hm k4 hr hok
  obtain ⟨out, E2, u1, u2, u3⟩ := add hS mredPsi (o 3 0) t2 hc t3 (addOk_same _ hc.pos hs)
  refine ⟨out, E2, ?_, u2, ?_⟩
  · unfold Cnn.convTap
    rw [index_ok k1, bind_ok, index_ok k2, bind_ok]
    show (Cnn.rotMul (env S mredPsi) o rlk E img r m ker kh >>= fun t => ckksAddNew mredPsi (o 3 0) t.2 c t.1) = _
    rw [t1, bind_ok]; exact u1
  · rw [add_like (b := (a.rot S r).mul S b) C.fm hl hs hi] at u3
    exact u3

/-- what is known after `Convolution` -/
noncomputable def convInfo (S : Sys C) (a b : Info) : Info :=
  rotAddInfo S 1024 (rotAddInfo S 2048 ⟨(a.mul S b).level, (a.mul S b).scale, (a.mul S b).ids,
    (a.mul S b).V + (a.mul S b).V + (a.mul S b).V + (a.mul S b).V,
    (a.mul S b).B + ((a.rot S 1).mul S b).B + ((a.rot S 14).mul S b).B + ((a.rot S 15).mul S b).B⟩)

/-- **C49, convolution.** `Convolution` on encryptions of an image and four kernels computes `slotConv` of their slots. -/
theorem convolution_ok (V : C.Valid) (hS : S.Ok) (mredPsi : ℕ → ℕ → ℕ) (o : Cnn.Ord) {E : Eval C} {rlk : RlkMap C}
    (hst : St.Ready S ⟨E, rlk⟩) {img : CCt C} {v : Nega N ℝ} {a b : Info} {w : ℕ → Nega N ℝ} {kers : List (CCt C)} {kerHs : List (HoistedCt C)}
    (hker : Operands S kers kerHs w b 4) (h : Approx S img v a) {m : HoistedCt C} (hm : IsHoisted a.level img.ct m)
    (hr : ∀ r ∈ [1, 14, 15], HasAmount S r) (hok : MulsOk S a b) :
    ∃ out E' v', Cnn.convolution (env S mredPsi) o rlk E img m kers kerHs = .ok (out, E') ∧ St.Ready S ⟨E', rlk⟩ ∧
      Approx S out v' (convInfo S a b) ∧ ∀ j, slot j v' = Cnn.slotConv (fun j => slot j v) (fun k j => slot j (w k)) j := by
  obtain ⟨ker, kh, k1, k2, k3, k4⟩ := hker 0 (by norm_num)
  obtain ⟨c0, E0, x1, x2, x3⟩ := mulHoisted V hS (o 0 0 0) hst h k3 hm k4 hok
  obtain ⟨c1, E1, y1, y2, y3⟩ := convTap_ok V hS mredPsi (o 1) x2 (k := 1) (by norm_num) hker h x3 hm (hr 1 (by simp)) hok rfl rfl rfl
  obtain ⟨c2, E2, z1, z2, z3⟩ := convTap_ok V hS mredPsi (o 2) y2 (k := 2) (by norm_num) hker h y3 hm (hr 14 (by simp)) hok rfl rfl rfl
  obtain ⟨c3, E3, u1, u2, u3⟩ := convTap_ok V hS mredPsi (o 3) z2 (k := 3) (by norm_num) hker h z3 hm (hr 15 (by simp)) hok rfl rfl rfl
  obtain ⟨c4, E4, v4, p1, p2, p3, p4⟩ := rotAdd_ok V hS mredPsi (o 4) u2 u3 2048
  obtain ⟨c5, E5, v5, q1, q2, q3, q4⟩ := rotAdd_ok V hS mredPsi (o 5) p2 p3 1024
  refine ⟨c5, E5, v5, ?_, q2, q3, fun j => ?_⟩
  · unfold Cnn.convolution
    rw [index_ok k1, bind_ok, index_ok k2, bind_ok]
    show (ckksMulRelinHoistedNew S.pscale S.crs (o 0 0 0) E img ker (some m) (some kh) rlk >>= _) = _
    rw [x1, bind_ok, y1, bind_ok, z1, bind_ok, u1, bind_ok]
    dsimp only
    rw [p1, bind_ok]
    exact q1
  · rw [q4, p4, p4]
    simp only [map_add, map_mul, slot_rotate V.hN V.log1, Cnn.slotConv, Finset.sum_range_succ, Finset.sum_range_zero]
    push_cast
    simp only [mul_zero, add_zero, mul_one, zero_add]
    ring_nf

/-! ## the dense layers -/

theorem copyNew_ok (o : Order String) {ct : CCt C} {v : Nega N ℝ} {a : Info} (h : Approx S ct v a) :
    ∃ out, Cnn.copyNew o ct = .ok out ∧ Approx S out v a := by
  obtain ⟨c, c1, c2⟩ := Ct.copyNew_ok o h.lvl.has0
  refine ⟨⟨c, ct.scale⟩, ?_, h.lt, c2.symm.atLevel h.lvl, h.scale, h.pos, c2.ids.trans h.ids, h.sub, h.bdd, ?_⟩
  · unfold Cnn.copyNew; rw [c1, bind_ok]
  · obtain ⟨F, f1, f2⟩ := h.enc
    exact ⟨F, fun i hi => by rw [c2.phase]; exact f1 i hi, f2⟩

/-- what is known after `n` passes of the first loop of `FC1Layer` -/
noncomputable def fc1Sum (S : Sys C) (a b : Info) (n : ℕ) : Info :=
  ⟨(a.mul S b).level, (a.mul S b).scale, (a.mul S b).ids, n * (a.mul S b).V, ∑ i ∈ range n, ((a.rot S (i * 128)).mul S b).B⟩

theorem range_split {n i : ℕ} {pre suf : List ℕ} (he : List.range n = pre ++ i :: suf) : i = pre.length ∧ pre.length < n := by
  have hlt : pre.length < n := by
    have := congrArg List.length he
    rw [List.length_range, List.length_append, List.length_cons] at this
    omega
  refine ⟨?_, hlt⟩
  have := congrArg (fun l : List ℕ => l[pre.length]?) he
  simp only [List.getElem?_append_right le_rfl, Nat.sub_self, List.getElem?_cons_zero] at this
  rw [List.getElem?_eq_getElem (by rw [List.length_range]; exact hlt), List.getElem_range] at this
  injection this with this
  exact this.symm

/-- the products of the diagonals -/
theorem fc1_products (V : C.Valid) (hS : S.Ok) (mredPsi : ℕ → ℕ → ℕ) (o : Cnn.Ord) {E : Eval C} {rlk : RlkMap C}
    (hst : St.Ready S ⟨E, rlk⟩) {vec : CCt C} {v : Nega N ℝ} {a b : Info} {w : ℕ → Nega N ℝ} {mats : List (CCt C)} {matHs : List (HoistedCt C)}
    (hmat : Operands S mats matHs w b mats.length) (h : Approx S vec v a) {m : HoistedCt C} (hm : IsHoisted a.level vec.ct m)
    (hr : ∀ i < mats.length, HasAmount S ((i : ℕ) * 128)) (hok : MulsOk S a b) (hne : mats ≠ []) :
    ∃ c E' v', Go.loop (Cnn.fc1Step (env S mredPsi) o rlk vec m mats matHs) (none, E) (List.range mats.length) = .ok (some c, E') ∧
      St.Ready S ⟨E', rlk⟩ ∧ Approx S c v' (fc1Sum S a b mats.length) ∧
      ∀ j, slot j v' = ∑ i ∈ range mats.length, slot (j + 128 * i) v * slot j (w i) := by
  obtain ⟨x, x1, x2, x3⟩ := Go.loop_inv (Cnn.fc1Step (env S mredPsi) o rlk vec m mats matHs)
    (fun pre x => St.Ready S ⟨x.2, rlk⟩ ∧ (pre ≠ [] → ∃ c v', x.1 = some c ∧ Approx S c v' (fc1Sum S a b pre.length) ∧
      ∀ j, slot j v' = ∑ i ∈ range pre.length, slot (j + 128 * i) v * slot j (w i))) (List.range mats.length) (none, E)
    ⟨hst, fun h => absurd rfl h⟩ (by
      rintro pre i suf ⟨c, E1⟩ he ⟨hrd, hx⟩
      obtain ⟨hi, hlt⟩ := range_split he
      subst hi
      obtain ⟨tmp, y1, _⟩ := copyNew_ok (o pre.length 4 0 0) h
      obtain ⟨mt, mh, k1, k2, k3, k4⟩ := hmat pre.length hlt
      obtain ⟨t, E2, t1, t2, t3⟩ := rotMul_ok V hS mredPsi (o pre.length) hrd h k3 hm k4 (hr _ hlt) hok
      unfold Cnn.fc1Step
      rw [y1, bind_ok, index_ok k1, bind_ok, index_ok k2, bind_ok]
      dsimp only
      rw [t1, bind_ok]
      rcases List.eq_nil_or_concat pre with rfl | ⟨pre', b', rfl⟩
      · obtain ⟨c', d1, d2⟩ := copyNew_ok (o 0 5 0 0) t3
        refine ⟨(some c', E2), ?_, t2, fun _ => ⟨c', galois (5 ^ C35.amount N (((0 : ℕ) : ℤ) * 128)) v * w 0, rfl, ?_, fun j => ?_⟩⟩
        · show (Cnn.copyNew (o 0 5 0 0) t >>= fun c => (.ok (some c, E2) : Go (Option (CCt C) × Eval C))) = _
          rw [d1, bind_ok]
        · have e : ((a.rot S (((0 : ℕ) : ℤ) * 128)).mul S b) = fc1Sum S a b 1 := by
            rw [mul_rot]
            unfold fc1Sum
            rw [sum_range_one, Nat.cast_one, one_mul]
          exact (congrArg _ e).mp d2
        · show slot j (galois (5 ^ C35.amount N (((0 : ℕ) : ℤ) * 128)) v * w 0) = _
          rw [map_mul, slot_rotate V.hN V.log1]
          simp
      · obtain ⟨c', v1, g1, g2, g3⟩ := hx (by simp)
        dsimp only at g1
        subst g1
        obtain ⟨out, E3, u1, u2, u3⟩ := add hS mredPsi (o (pre'.concat b').length 3 0) t2 g2 t3 (addOk_same _ g2.pos rfl)
        refine ⟨(some out, E3), ?_, u2, fun _ =>
          ⟨out, v1 + galois (5 ^ C35.amount N (((pre'.concat b').length : ℕ) * 128)) v * w (pre'.concat b').length, rfl, ?_, fun j => ?_⟩⟩
        · have h0 : (pre'.concat b').length ≠ 0 := by simp
          rw [if_neg h0]
          show (ckksAddNew mredPsi (o (pre'.concat b').length 3 0) E2 c' t >>= _) = _
          rw [u1, bind_ok]
        · rw [add_like (a := fc1Sum S a b (pre'.concat b').length) (b := (a.rot S (((pre'.concat b').length : ℕ) * 128)).mul S b) C.fm rfl rfl rfl] at u3
          have e : (⟨(fc1Sum S a b (pre'.concat b').length).level, (fc1Sum S a b (pre'.concat b').length).scale,
              (fc1Sum S a b (pre'.concat b').length).ids,
              (fc1Sum S a b (pre'.concat b').length).V + ((a.rot S (((pre'.concat b').length : ℕ) * 128)).mul S b).V,
              (fc1Sum S a b (pre'.concat b').length).B + ((a.rot S (((pre'.concat b').length : ℕ) * 128)).mul S b).B⟩ : Info) =
              fc1Sum S a b (pre'.concat b' ++ [(pre'.concat b').length]).length := by
            rw [List.length_append, List.length_singleton]
            unfold fc1Sum
            rw [sum_range_succ]
            congr 1
            push_cast
            rw [add_mul, one_mul]
            rfl
          exact (congrArg _ e).mp u3
        · rw [List.length_append, List.length_singleton, sum_range_succ, ← g3, map_add, map_mul, slot_rotate V.hN V.log1,
            mul_comm (((pre'.concat b').length : ℕ) : ℤ) 128])
  rcases x with ⟨y, E'⟩
  have hne' : List.range mats.length ≠ [] := by
    intro h0
    exact hne (List.length_eq_zero_iff.mp (List.range_eq_nil.mp h0))
  obtain ⟨c, v', g1, g2, g3⟩ := x3 hne'
  dsimp only at g1
  subst g1
  rw [List.length_range] at g2 g3
  exact ⟨c, E', v', x1, x2, g2, g3⟩

/-- what is known after `FC1Layer` -/
noncomputable def fc1Info (S : Sys C) (a b bias : Info) (n : ℕ) : Info := (rotAddsInfo S 1 (fc1Sum S a b n) 7).add C.fm bias

/-- **C49, first dense layer.** `FC1Layer` computes `slotFc1`, for any number of diagonals from one on. -/
theorem fc1Layer_ok (V : C.Valid) (hS : S.Ok) (mredPsi : ℕ → ℕ → ℕ) (o : ℕ → Cnn.Ord) {E : Eval C} {rlk : RlkMap C}
    (hst : St.Ready S ⟨E, rlk⟩) {vec bct : CCt C} {v bv : Nega N ℝ} {a b bias : Info} {w : ℕ → Nega N ℝ} {mats : List (CCt C)}
    {matHs : List (HoistedCt C)} (hmat : Operands S mats matHs w b mats.length) (h : Approx S vec v a) {m : HoistedCt C}
    (hm : IsHoisted a.level vec.ct m) (hr : ∀ i < mats.length, HasAmount S ((i : ℕ) * 128)) (hok : MulsOk S a b) (hne : mats ≠ [])
    (hb : Approx S bct bv bias) (hadd : AddOk C.fm (a.mul S b) bias) :
    ∃ out E' v', Cnn.fc1Layer (env S mredPsi) o rlk E vec m mats matHs bct = .ok (out, E') ∧ St.Ready S ⟨E', rlk⟩ ∧
      Approx S out v' (fc1Info S a b bias mats.length) ∧
      ∀ j, slot j v' = Cnn.slotFc1 (fun j => slot j v) mats.length (fun i j => slot j (w i)) (fun j => slot j bv) j := by
  obtain ⟨c, E1, v1, x1, x2, x3, x4⟩ := fc1_products V hS mredPsi (o 0) hst hmat h hm hr hok hne
  obtain ⟨c2, E2, v2, y1, y2, y3, y4⟩ := rotAddLoop_ok V hS mredPsi (o 1) x2 x3 1 7
  obtain ⟨out, E3, z1, z2, z3⟩ := add hS mredPsi (o 2 0 0 0) y2 y3 hb hadd
  refine ⟨out, E3, v2 + bv, ?_, z2, z3, fun j => ?_⟩
  · unfold Cnn.fc1Layer
    rw [x1, bind_ok]
    dsimp only
    rw [y1, bind_ok]
    exact z1
  · rw [map_add, y4]
    unfold Cnn.slotFc1
    congr 1
    refine sum_congr rfl fun t _ => ?_
    rw [x4, one_mul]

/-- with an empty matrix `FC1Layer` panics -/
theorem fc1Layer_empty (K : Cnn.Env C) (o : ℕ → Cnn.Ord) (rlk : RlkMap C) (E : Eval C) (vec : CCt C) (m : HoistedCt C) (matHs : List (HoistedCt C))
    (bct : CCt C) : Cnn.fc1Layer K o rlk E vec m [] matHs bct = .error .nilDeref := rfl

/-- what is known after `FC2Layer` -/
noncomputable def fc2Info (S : Sys C) (a b bias : Info) (sc : ℚ) (Vp Bp : ℝ) : Info :=
  (rotAddsInfo S 128 ((rotAddsInfo S (-1) (a.mulPt S sc Vp Bp) 4).mul S b) 6).add C.fm bias

theorem rotAddsInfo_level (S : Sys C) (step : ℤ) (a : Info) : ∀ n, (rotAddsInfo S step a n).level = a.level
  | 0 => rfl
  | n + 1 => rotAddsInfo_level S step a n

theorem rotAddsInfo_scale (S : Sys C) (step : ℤ) (a : Info) : ∀ n, (rotAddsInfo S step a n).scale = a.scale
  | 0 => rfl
  | n + 1 => rotAddsInfo_scale S step a n

theorem rotAddsInfo_ids (S : Sys C) (step : ℤ) (a : Info) : ∀ n, (rotAddsInfo S step a n).ids = a.ids
  | 0 => rfl
  | n + 1 => rotAddsInfo_ids S step a n

/-- **C49, second dense layer.** `FC2Layer` computes `slotFc2`. -/
theorem fc2Layer_ok (V : C.Valid) (hS : S.Ok) (mredPsi : ℕ → ℕ → ℕ) (o : ℕ → Cnn.Ord) {E : Eval C} {rlk : RlkMap C}
    (hst : St.Ready S ⟨E, rlk⟩) {vec mat bct : CCt C} {v w bv mk : Nega N ℝ} {a b bias : Info} (h : Approx S vec v a) (hw : Approx S mat w b)
    (hb : Approx S bct bv bias) {pt : Poly C} {sc : ℚ} (hsc : 0 < sc) {Vp Bp : ℝ} (hmk : SBdd mk Vp) (hpt : CkksPt pt a.level sc mk Bp)
    (hok1 : MulOk S a.level (C.fm.mul a.scale sc)) (hok2 : MulsOk S (a.mulPt S sc Vp Bp) b)
    (hadd : AddOk C.fm ((rotAddsInfo S (-1) (a.mulPt S sc Vp Bp) 4).mul S b) bias) :
    ∃ out E' rlk' v', Cnn.fc2Layer (env S mredPsi) o rlk E vec mat bct (pt, sc) = .ok (out, E', rlk') ∧ St.Ready S ⟨E', rlk'⟩ ∧
      Approx S out v' (fc2Info S a b bias sc Vp Bp) ∧
      ∀ j, slot j v' = Cnn.slotFc2 (fun j => slot j v) (fun j => slot j mk) (fun j => slot j w) (fun j => slot j bv) j := by
  obtain ⟨c1, E1, x1, x2, x3⟩ := mulPt V hS (o 0 0 0 0) hst h hsc hmk hpt hok1
  obtain ⟨c2, E2, v2, y1, y2, y3, y4⟩ := rotAddLoop_ok V hS mredPsi (o 1) x2 x3 (-1) 4
  have hok2' : MulOk S (min (rotAddsInfo S (-1) (a.mulPt S sc Vp Bp) 4).level b.level)
      (C.fm.mul (rotAddsInfo S (-1) (a.mulPt S sc Vp Bp) 4).scale b.scale) := by
    rw [rotAddsInfo_level, rotAddsInfo_scale]; exact hok2
  obtain ⟨c3, E3, rlk', z1, z2, z3⟩ := mul V hS (o 2 0 0 0) y2 (same := false) (by intro h; cases h) y3 hw hok2'
  obtain ⟨c4, E4, v4, p1, p2, p3, p4⟩ := rotAddLoop_ok V hS mredPsi (o 3) z2 z3 128 6
  obtain ⟨out, E5, q1, q2, q3⟩ := add hS mredPsi (o 4 0 0 0) p2 p3 hb (by
    unfold AddOk at hadd ⊢
    rw [rotAddsInfo_scale]; exact hadd)
  refine ⟨out, E5, rlk', v4 + bv, ?_, q2, q3, fun j => ?_⟩
  · unfold Cnn.fc2Layer
    show (mulPtxtNew S.pscale (o 0 0 0 0) E vec pt sc >>= _) = _
    rw [x1, bind_ok, y1, bind_ok]
    show (ckksMulRelinNew S.pscale S.crs (o 2 0 0 0) E2 false c2 mat rlk >>= _) = _
    rw [z1, bind_ok]
    dsimp only
    rw [p1, bind_ok]
    show (ckksAddNew mredPsi (o 4 0 0 0) E4 c4 bct >>= _) = _
    rw [q1, bind_ok]
  · rw [map_add, p4]
    unfold Cnn.slotFc2
    congr 1
    refine sum_congr rfl fun t _ => ?_
    rw [map_mul, y4]
    congr 1
    refine sum_congr rfl fun u _ => ?_
    rw [map_mul]
    congr 3 <;> ring

/-! ## the network -/

theorem square_ok (V : C.Valid) (hS : S.Ok) (mredPsi : ℕ → ℕ → ℕ) (o : ℕ → ℕ → Sched String) {E : Eval C} {rlk : RlkMap C}
    (hst : St.Ready S ⟨E, rlk⟩) {ct : CCt C} {v : Nega N ℝ} {a : Info} (h : Approx S ct v a) (hok : MulsOk S a a) :
    ∃ out E', Cnn.square (env S mredPsi) o rlk E ct = .ok (out, E') ∧ St.Ready S ⟨E', rlk⟩ ∧ Approx S out (v * v) (a.mul S a) := by
  obtain ⟨m, S', u1, u2, u3⟩ := hoisted V (o 0 0) hst h
  obtain ⟨out, E', x1, x2, x3⟩ := mulHoisted V hS (o 1 0) u2 h h u3 u3 hok
  refine ⟨out, E', ?_, x2, x3⟩
  unfold Cnn.square
  dsimp only at u1
  rw [u1, bind_ok]
  exact x1

/-- the precomputed hoisted forms -/
theorem hoistAll_ok (V : C.Valid) (o : Cnn.Ord) {E : Eval C} {rlk : RlkMap C} (hst : St.Ready S ⟨E, rlk⟩) {cts : List (CCt C)}
    {w : ℕ → Nega N ℝ} {b : Info} (hw : ∀ k (hk : k < cts.length), Approx S cts[k] (w k) b) :
    ∃ hs E', Cnn.hoistAll o E cts = .ok (hs, E') ∧ St.Ready S ⟨E', rlk⟩ ∧ Operands S cts hs w b cts.length := by
  obtain ⟨x, x1, x2, x3, x4⟩ := Go.loop_inv (fun (w : List (HoistedCt C) × Eval C) (i : ℕ) => do
      let ct ← Cnn.index cts i
      let h ← hoistedForm (o i 0 0) w.2.ksw ct.ct
      .ok (w.1 ++ [h.1], { w.2 with ksw := h.2 }))
    (fun pre x => St.Ready S ⟨x.2, rlk⟩ ∧ x.1.length = pre.length ∧ ∀ k < pre.length, ∃ ct h, cts[k]? = some ct ∧ x.1[k]? = some h ∧
      Approx S ct (w k) b ∧ IsHoisted b.level ct.ct h) (List.range cts.length) ([], E)
    ⟨hst, rfl, fun k hk => absurd hk (by simp)⟩ (by
      rintro pre i suf ⟨hs, E1⟩ he ⟨hrd, hl, hx⟩
      obtain ⟨hi, hlt⟩ := range_split he
      subst hi
      obtain ⟨m, S', u1, u2, u3⟩ := hoisted V (o pre.length 0 0) hrd (hw _ hlt)
      refine ⟨(hs ++ [m], { E1 with ksw := S' }), ?_, u2, by simp [hl], fun k hk => ?_⟩
      · rw [index_ok (List.getElem?_eq_getElem hlt), bind_ok]
        dsimp only at u1 ⊢
        rw [u1, bind_ok]
      · rw [List.length_append, List.length_singleton] at hk
        dsimp only at hl
        by_cases hkp : k < pre.length
        · obtain ⟨ct, h, g1, g2, g3⟩ := hx k hkp
          exact ⟨ct, h, g1, by show (hs ++ [m])[k]? = some h; rw [List.getElem?_append_left (by omega)]; exact g2, g3⟩
        · have : k = pre.length := by omega
          subst this
          exact ⟨cts[pre.length], m, List.getElem?_eq_getElem hlt,
            by show (hs ++ [m])[pre.length]? = some m; rw [← hl, List.getElem?_append_right le_rfl]; simp, hw _ hlt, u3⟩)
  rw [List.length_range] at x4
  exact ⟨x.1, x.2, x1, x2, x4⟩

/-- what is known of the results of the layers, from what is known of the inputs: image `a`, kernels `k`, matrices `m`, `f`, biases `b1`, `b2`, and
the scale, slot bound and encoding error of the mask -/
noncomputable def s1 (S : Sys C) (a k : Info) : Info := (convInfo S a k).mul S (convInfo S a k)
noncomputable def f1 (S : Sys C) (a k m b1 : Info) (n : ℕ) : Info := fc1Info S (s1 S a k) m b1 n
noncomputable def s2 (S : Sys C) (a k m b1 : Info) (n : ℕ) : Info := (f1 S a k m b1 n).mul S (f1 S a k m b1 n)
noncomputable def f2 (S : Sys C) (a k m b1 f b2 : Info) (n : ℕ) (sc : ℚ) (Vp Bp : ℝ) : Info := fc2Info S (s2 S a k m b1 n) f b2 sc Vp Bp

/-- **the levels and scales of the network are sufficient**: six products, and sums with the biases whose scales are within `2^52` -/
structure LevelsOk (S : Sys C) (a k m b1 f b2 : Info) (n : ℕ) (sc : ℚ) (Vp Bp : ℝ) : Prop where
  conv : MulsOk S a k
  sq1 : MulsOk S (convInfo S a k) (convInfo S a k)
  fc1 : MulsOk S (s1 S a k) m
  bias1 : AddOk C.fm ((s1 S a k).mul S m) b1
  sq2 : MulsOk S (f1 S a k m b1 n) (f1 S a k m b1 n)
  mask : MulOk S (s2 S a k m b1 n).level (C.fm.mul (s2 S a k m b1 n).scale sc)
  fc2 : MulsOk S ((s2 S a k m b1 n).mulPt S sc Vp Bp) f
  bias2 : AddOk C.fm ((rotAddsInfo S (-1) ((s2 S a k m b1 n).mulPt S sc Vp Bp) 4).mul S f) b2

/-- the whole network on vectors of slots -/
def slotNet (x : ℤ → ℂ) (k : ℕ → ℤ → ℂ) (n : ℕ) (m : ℕ → ℤ → ℂ) (b1 mask f b2 : ℤ → ℂ) : ℤ → ℂ :=
  Cnn.slotFc2 (fun j => Cnn.slotFc1 (fun j => Cnn.slotConv x k j ^ 2) n m b1 j ^ 2) mask f b2

/-- **C49, the network.** The evaluation of the encrypted network of cnn_test.go on encryptions of an image (of any parties), at least four kernels,
the diagonals of a matrix, a second matrix, biases and an encoded mask, succeeds for every iteration order and every content of the scratch
memory, and gives an encryption of what the network computes on the slots, within the error computed along the way. -/
theorem forward_ok (V : C.Valid) (hS : S.Ok) (mredPsi : ℕ → ℕ → ℕ) (o : ℕ → ℕ → Cnn.Ord) {E : Eval C} {rlk : RlkMap C}
    (hst : St.Ready S ⟨E, rlk⟩) {img fc2 b1 b2 : CCt C} {kers mats : List (CCt C)} {v vf v1 v2 mk : Nega N ℝ} {vk vm : ℕ → Nega N ℝ}
    {a k m ib1 f ib2 : Info} (himg : Approx S img v a) (h4 : 4 ≤ kers.length) (hk : ∀ i (hi : i < kers.length), Approx S kers[i] (vk i) k)
    (hm : ∀ i (hi : i < mats.length), Approx S mats[i] (vm i) m) (hne : mats ≠ []) (hf : Approx S fc2 vf f) (hb1 : Approx S b1 v1 ib1)
    (hb2 : Approx S b2 v2 ib2) {pt : Poly C} {sc : ℚ} (hsc : 0 < sc) {Vp Bp : ℝ} (hmk : SBdd mk Vp) (hpt : CkksPt pt (C.nQ - 1) sc mk Bp)
    (hr : ∀ r ∈ [1, 14, 15], HasAmount S r) (hr' : ∀ i < mats.length, HasAmount S ((i : ℕ) * 128))
    (hL : LevelsOk S a k m ib1 f ib2 mats.length sc Vp Bp) :
    ∃ out E' rlk' v', Cnn.forward (env S mredPsi) o rlk E img kers mats fc2 b1 b2 (pt, sc) = .ok (out, E', rlk') ∧ St.Ready S ⟨E', rlk'⟩ ∧
      Approx S out v' (f2 S a k m ib1 f ib2 mats.length sc Vp Bp) ∧
      ∀ j, slot j v' = slotNet (fun j => slot j v) (fun i j => slot j (vk i)) mats.length (fun i j => slot j (vm i)) (fun j => slot j v1)
        (fun j => slot j mk) (fun j => slot j vf) (fun j => slot j v2) j := by
  obtain ⟨ih, S1, p1, p2, p3⟩ := hoisted V (o 0 0 0 0 0) hst himg
  obtain ⟨kh, E1, q1, q2, q3⟩ := hoistAll_ok V (o 1 0) p2 hk
  obtain ⟨mh, E2, r1, r2, r3⟩ := hoistAll_ok V (o 2 0) q2 hm
  obtain ⟨c, E3, vc, t1, t2, t3, t4⟩ := convolution_ok V hS mredPsi (o 3 0) r2 (fun i hi => q3 i (by omega)) himg p3 hr hL.conv
  obtain ⟨s, E4, u1, u2, u3⟩ := square_ok V hS mredPsi (o 4 0 0) t2 t3 hL.sq1
  obtain ⟨sh, S5, w1, w2, w3⟩ := hoisted V (o 5 0 0 0 0) u2 u3
  obtain ⟨g, E6, vg, x1, x2, x3, x4⟩ := fc1Layer_ok V hS mredPsi (o 6) w2 r3 u3 w3 hr' hL.fc1 hne hb1 hL.bias1
  obtain ⟨y, E7, y1, y2, y3⟩ := square_ok V hS mredPsi (o 7 0 0) x2 x3 hL.sq2
  obtain ⟨out, E8, rlk', vo, z1, z2, z3, z4⟩ := fc2Layer_ok V hS mredPsi (o 8) y2 y3 hf hb2 hsc hmk
    (hpt.mono (by have := y3.lt; omega)) hL.mask hL.fc2 hL.bias2
  refine ⟨out, E8, rlk', vo, ?_, z2, z3, fun j => ?_⟩
  · unfold Cnn.forward
    dsimp only at p1 w1
    rw [p1, bind_ok, q1, bind_ok, r1, bind_ok, t1, bind_ok]
    dsimp only
    rw [u1, bind_ok]
    dsimp only
    rw [w1, bind_ok]
    dsimp only
    rw [x1, bind_ok]
    dsimp only
    rw [y1, bind_ok]
    exact z1
  · rw [z4]
    unfold slotNet
    congr 1
    funext i
    rw [map_mul, x4, ← pow_two]
    congr 2
    funext l
    rw [map_mul, t4, ← pow_two]

end MKHE.C49
