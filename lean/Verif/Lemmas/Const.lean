import Verif.Lemmas.Fresh

set_option autoImplicit false

/-!
# Multiplication of a ciphertext by a constant
-/

namespace MKHE
open Finset Nega

variable {N : ℕ} [NeZero N] {C : Ctx N}

/-- the integer behind `scaleUpExact` -/
def scaleInt (fm : FloatModel) (v n : ℚ) : ℤ :=
  if v < 0 then - (⌊fm.rnd (fm.rnd (n * |v|) + 1 / 2)⌋₊ : ℤ) else (⌊fm.rnd (fm.rnd (n * |v|) + 1 / 2)⌋₊ : ℤ)

theorem scaleUpExact_le (fm : FloatModel) (v n : ℚ) {q : ℕ} (hq : 0 < q) : scaleUpExact fm v n q ≤ q := by
  unfold scaleUpExact
  have := Nat.mod_lt ⌊fm.rnd (fm.rnd (n * |v|) + 1 / 2)⌋₊ hq
  dsimp only
  split_ifs <;> omega

theorem scaleUpExact_res (fm : FloatModel) (v n : ℚ) {q : ℕ} (hq : 0 < q) :
    ((scaleUpExact fm v n q : ℕ) : ZMod q) = (scaleInt fm v n : ZMod q) := by
  unfold scaleUpExact scaleInt
  have hlt := Nat.mod_lt ⌊fm.rnd (fm.rnd (n * |v|) + 1 / 2)⌋₊ hq
  dsimp only
  split_ifs with h
  · rw [Nat.cast_sub hlt.le, ZMod.natCast_self, ZMod.natCast_mod]; push_cast; ring
  · rw [ZMod.natCast_mod]; push_cast; rfl

/-- the integer is within `1/2 + 2^-51 n|v|` of `n v`: rounded to a nearest integer, up to the two float64
roundings -/
theorem scaleInt_near (fm : FloatModel) (v n : ℚ) (hn : 0 ≤ n) :
    |(scaleInt fm v n : ℚ) - n * v| ≤ 1 / 2 + (n * |v| + 1 / 2) * (1 / 2 ^ 51) := by
  set x := n * |v| with hx
  have hx0 : 0 ≤ x := by positivity
  have a1 := abs_le.mp (fm.err x hx0)
  have hy0 := fm.rnd_nonneg hx0
  have a2 := abs_le.mp (fm.err (fm.rnd x + 1 / 2) (by positivity))
  have hm0 := Nat.floor_le (fm.rnd_nonneg (show 0 ≤ fm.rnd x + 1 / 2 by positivity))
  have hm1 := Nat.lt_floor_add_one (fm.rnd (fm.rnd x + 1 / 2))
  set m := ⌊fm.rnd (fm.rnd x + 1 / 2)⌋₊ with hm
  have key : |(m : ℚ) - x| ≤ 1 / 2 + (x + 1 / 2) * (1 / 2 ^ 51) := by
    unfold unitRoundoff at a1 a2
    rw [abs_le]
    constructor <;> nlinarith
  unfold scaleInt
  rw [← hx, ← hm]
  split_ifs with h
  · have : n * v = - x := by rw [hx, abs_of_neg h]; ring
    rw [this]; push_cast
    rw [show -(m : ℚ) - -x = -(m - x) by ring, abs_neg]; exact key
  · have : n * v = x := by rw [hx, abs_of_nonneg (not_lt.mp h)]
    rw [this]; push_cast; exact key

/-- integers below `2^52` are represented exactly -/
theorem scaleInt_int (fm : FloatModel) (z : ℤ) (hz : |z| < 2 ^ 52) : scaleInt fm z 1 = z := by
  have hk : (|(z : ℚ)|) = ((z.natAbs : ℕ) : ℚ) := by rw [Nat.cast_natAbs]; push_cast; rfl
  have hlt : z.natAbs < 2 ^ 52 := by zify; exact hz
  set k := z.natAbs with hkdef
  have h1 : fm.rnd (1 * |(z : ℚ)|) = k := by rw [one_mul, hk]; exact fm.exact_nat k (by omega)
  have hfl : ⌊fm.rnd ((k : ℚ) + 1 / 2)⌋₊ = k := by
    rw [Nat.floor_eq_iff (fm.rnd_nonneg (by positivity))]
    have a := abs_le.mp (fm.err ((k : ℚ) + 1 / 2) (by positivity))
    have hkq : (k : ℚ) + 1 ≤ 2 ^ 52 := by exact_mod_cast hlt
    unfold unitRoundoff at a
    constructor
    · have := fm.mono k (k + 1 / 2) (by linarith)
      rwa [fm.exact_nat k (by omega)] at this
    · nlinarith
  unfold scaleInt
  rw [h1, hfl]
  split_ifs with h
  · have : z < 0 := by exact_mod_cast h
    omega
  · have : 0 ≤ z := by exact_mod_cast not_lt.mp h
    omega

theorem mulMont_mform_cf {q : ℕ} (L : LimbOps N q) (x y : Limb N q) (t : Fin N) :
    cf (L.mulMont x (L.mform y)) t = cf x t * ((y t).val : ZMod q) := by
  have h1 := congrFun (L.mulMont_res x (L.mform y)) t
  have h2 := congrFun (L.mform_res y) t
  have hu : IsUnit ((2 : ZMod q) ^ 64) := by
    have h : Nat.Coprime (2 ^ 64) q := Nat.Coprime.pow_left _ (Nat.coprime_two_left.mpr L.odd)
    have := (ZMod.isUnit_iff_coprime (2 ^ 64) q).mpr h
    rwa [Nat.cast_pow] at this
  simp only [Pi.mul_apply] at h1 h2
  rw [h2] at h1
  refine hu.mul_right_cancel ?_
  show (L.mulMont x (L.mform y)).res t * _ = x.res t * y.res t * _
  rw [h1]; ring

theorem toWord_val {q n : ℕ} (h : n ≤ q) : (toWord q n).val = n := Nat.min_eq_left h

theorem constRow_cf {q : ℕ} (L : LimbOps N q) {w : ℕ × ℕ} (h1 : w.1 ≤ q) (h2 : w.2 ≤ q) (x : Limb N q) (t : Fin N) :
    cf (constRow L w x) t = (if (t : ℕ) < N / 2 then (w.1 : ZMod q) else (w.2 : ZMod q)) * cf x t := by
  unfold constRow
  rw [mulMont_mform_cf, mul_comm]
  congr 1
  split_ifs
  · rw [toWord_val h1]
  · rw [toWord_val h2]

theorem constRow_nat {q : ℕ} (L : LimbOps N q) {w : ℕ} (h : w ≤ q) (x : Limb N q) :
    cf (constRow L (w, w) x) = (w : Nega N (ZMod q)) * cf x := by
  apply Nega.ext; intro t
  rw [constRow_cf L h h, Nega.natCast_mul_apply, ite_self]

theorem constRow_canon {q : ℕ} (L : LimbOps N q) (w : ℕ × ℕ) (x : Limb N q) : (constRow L w x).Canon := L.mulMont_canon _ _

/-- the components after `MultByConst` -/
def constOut (mredPsi : ℕ → ℕ → ℕ) (k : ℚ × ℚ × ℚ) (a : String → QRows C) (id : String) : QRows C :=
  fun i => constRow (C.RQ i) (constWords C.fm (mredPsi i) (C.q i) k) (a id i)

theorem multByConst_run (h16 : N % 16 = 0) (mredPsi : ℕ → ℕ → ℕ) (o : Order String) (same : Bool) {ct0 out : CCt C} (hsame : same = true → out = ct0) (c : Const) {l0 lo : ℕ}
    (h0 : ct0.ct.AtLevel l0) (hout : out.ct.AtLevel lo) (hids : ∀ id ∈ ct0.ct, id ∈ out.ct) :
    ∃ ct R, multByConst mredPsi o same ct0 c out = .ok ⟨ct, C.fm.mul ct0.scale (getConstAndScale C.fm (C.q (min l0 lo)) c).2.2⟩ ∧
      Ct.Upd (min l0 lo) out.ct R ct ∧ (∀ id ∈ ct0.ct, R id = constOut mredPsi (getConstAndScale C.fm (C.q (min l0 lo)) c) ct0.ct.comp id) ∧
      ∀ id ∈ out.ct, id ∉ ct0.ct → ∀ i ≤ min l0 lo, R id i = out.ct.comp id i := by
  unfold multByConst
  rw [if_neg (by omega), h0.level, bind_ok, hout.level, bind_ok]
  dsimp only
  set level := min l0 lo with hlv
  set k := getConstAndScale C.fm (C.q level) c with hk
  obtain ⟨R0, hR0⟩ := Ct.Upd.refl level out.ct
  have hup : out.ct.Coeff level := hout.toCoeff.mono (by omega)
  have hR0c : ∀ id ∈ out.ct, ∀ i ≤ level, R0 id i = out.ct.comp id i := by
    intro id hid i hi
    obtain ⟨p, hp⟩ := Ct.get hid
    have := hR0.get hp
    rw [hp] at this
    injection this with this
    rw [hup.comp hp]
    conv_rhs => rw [this]
    exact (setQ_le _ _ hi).symm
  obtain ⟨ct, e1, R, e2, e3, e4⟩ := Go.loop_inv (fun (ct : Ct C) id => do
      let a ← (if same then ct else ct0.ct).deref id
      a.need level
      ct.upd level id fun _ i => constRow (C.RQ i) (constWords C.fm (mredPsi i) (C.q i) k) (a.rows i))
    (fun pre ct => ∃ R, Ct.Upd level out.ct R ct ∧ (∀ id ∈ pre, R id = constOut mredPsi k ct0.ct.comp id) ∧
      ∀ id, id ∉ pre → R id = R0 id) (GoMap.range o ct0.ct) out.ct ⟨R0, hR0, by simp, fun _ _ => rfl⟩ (by
      rintro pre id suf ct hl ⟨R, i1, i2, i3⟩
      have hid : id ∈ ct0.ct := by rw [← GoMap.mem_range (o := o), hl]; simp
      obtain ⟨a, ha⟩ := Ct.get hid
      obtain ⟨p, hp⟩ := Ct.get (hids id hid)
      have hpre : id ∉ pre := nodup_split (GoMap.nodup_range _ _) hl
      have ha' : (if same then ct else ct0.ct : Ct C).lookup id = some a := by
        cases same with
        | false => exact ha
        | true =>
          have e := hsame rfl
          show ct.lookup id = some a
          have h1 := hR0.get hp
          rw [hp] at h1
          rw [i1.get hp, i3 id hpre, ← h1, ← hp, e, ha]
      rw [GoMap.deref_ok ha', bind_ok, Poly.need_ok (by rw [h0.len _ _ ha]; omega), bind_ok]
      obtain ⟨ct', u1, u2⟩ := i1.upd hp (hup.len _ _ hp)
        (fun i _ => constRow (C.RQ i) (constWords C.fm (mredPsi i) (C.q i) k) (a.rows i))
      refine ⟨ct', u1, _, u2, fun id' h => ?_, fun id' h => ?_⟩
      · by_cases e : id' = id
        · subst e
          rw [Function.update_self]
          unfold constOut
          rw [h0.toCoeff.comp ha]
        · rw [Function.update_of_ne e]; exact i2 id' (by simpa [e] using h)
      · have e : id' ≠ id := by rintro rfl; exact h (by simp)
        rw [Function.update_of_ne e]; exact i3 id' (fun h' => h (by simp [h'])))
  refine ⟨ct, R, by rw [e1]; rfl, e2, fun id hid => e3 id (GoMap.mem_range.mpr hid), fun id hid hn i hi => ?_⟩
  rw [e4 id (fun h => hn (GoMap.mem_range.mp h)), hR0c id hid i hi]

/-- real constants: one multiplier per row -/
theorem constWords_real (fm : FloatModel) (mredPsi : ℕ → ℕ) {q : ℕ} (hq : 0 < q) (v s : ℚ) :
    ∃ w, constWords fm mredPsi q (v, 0, s) = (w, w) ∧ w ≤ q ∧ (w : ZMod q) = (if v ≠ 0 then scaleInt fm v s else 0 : ℤ) := by
  unfold constWords
  by_cases hv : v = 0
  · exact ⟨0, by simp [hv], Nat.zero_le _, by simp [hv]⟩
  · exact ⟨scaleUpExact fm v s q, by simp [hv], scaleUpExact_le fm v s hq, by rw [scaleUpExact_res fm v s hq, if_pos hv]⟩

theorem natCast_nega {q : ℕ} {w : ℕ} {z : ℤ} (h : (w : ZMod q) = (z : ZMod q)) : (w : Nega N (ZMod q)) = (z : Nega N (ZMod q)) := by
  rw [← map_natCast (Nega.CHom (N := N) (K := ZMod q)), h, map_intCast]

theorem constOut_real (mredPsi : ℕ → ℕ → ℕ) (v s : ℚ) (a : String → QRows C) (id : String) (i : ℕ) :
    cf (constOut mredPsi (v, 0, s) a id i) = ((if v ≠ 0 then scaleInt C.fm v s else 0 : ℤ) : Nega N (ZMod (C.q i))) * cf (a id i) := by
  obtain ⟨w, w1, w2, w3⟩ := constWords_real C.fm (mredPsi i) (C.RQ i).pos v s
  unfold constOut
  rw [w1, constRow_nat _ w2, natCast_nega w3]

theorem phaseRows_mul (ids : Finset String) (s : String → Nega N ℤ) {a b : String → QRows C} {i : ℕ} (k : Nega N (ZMod (C.q i)))
    (h : ∀ id, id ∈ ids ∨ id = "0" → cf (b id i) = k * cf (a id i)) : phaseRows ids s b i = k * phaseRows ids s a i := by
  unfold phaseRows
  rw [h "0" (.inr rfl), mul_add, mul_sum]
  congr 1
  exact sum_congr rfl fun id hid => by rw [h id (.inl hid), mul_assoc]

end MKHE
