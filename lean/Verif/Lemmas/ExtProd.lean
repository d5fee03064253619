import Verif.Model.KeySwitch
import Verif.Lemmas.Congr

set_option autoImplicit false

/-!
# The digits, the external product, and what they compute
-/

namespace MKHE
open Finset Nega

@[simp] theorem bind_ok {α β : Type} (a : α) (f : α → Go β) : (Except.ok a >>= f : Go β) = f a := rfl
@[simp] theorem bind_error {α β : Type} (e : Fault) (f : α → Go β) : ((Except.error e : Go α) >>= f) = .error e := rfl
@[simp] theorem pure_ok {α : Type} (a : α) : (pure a : Go α) = .ok a := rfl

/-! ## canonical rows from residues -/

namespace LimbOps
variable {N q : ℕ} [NeZero N] (L : LimbOps N q)

/-- the row of reduced words with given residues -/
def ofResidues (f : Fin N → ZMod q) : Limb N q := fun i =>
  ⟨(f i).val, by have : NeZero q := ⟨L.pos.ne'⟩; exact (ZMod.val_lt (f i)).le⟩

theorem ofResidues_canon (f : Fin N → ZMod q) : (L.ofResidues f).Canon := fun i => by
  have : NeZero q := ⟨L.pos.ne'⟩; exact ZMod.val_lt (f i)

theorem ofResidues_res (f : Fin N → ZMod q) : (L.ofResidues f).res = f := by
  have : NeZero q := ⟨L.pos.ne'⟩
  funext i; exact ZMod.natCast_zmod_val (f i)

/-- the reduced row representing a polynomial in the NTT domain -/
noncomputable def ofEv (v : Nega N (ZMod q)) : Limb N q := L.ofResidues (L.F v)
/-- the reduced row representing a polynomial in the coefficient domain -/
def ofCf (v : Nega N (ZMod q)) : Limb N q := L.ofResidues v

theorem ofEv_canon (v : Nega N (ZMod q)) : (L.ofEv v).Canon := L.ofResidues_canon _
theorem ofCf_canon (v : Nega N (ZMod q)) : (L.ofCf v).Canon := L.ofResidues_canon _
@[simp] theorem ev_ofEv (v : Nega N (ZMod q)) : L.ev (L.ofEv v) = v := by
  unfold ev ofEv; rw [ofResidues_res, RingEquiv.symm_apply_apply]
@[simp] theorem cf_ofCf (v : Nega N (ZMod q)) : cf (L.ofCf v) = v := L.ofResidues_res v

theorem eq_ofEv {a : Limb N q} (h : a.Canon) : a = L.ofEv (L.ev a) := L.ev_inj h (L.ofEv_canon _) (by simp)
theorem eq_ofCf {a : Limb N q} (h : a.Canon) : a = L.ofCf (cf a) := cf_inj h (L.ofCf_canon _) (by simp)

end LimbOps

variable {N : ℕ} [NeZero N] {C : Ctx N}

theorem red_ext (q : ℕ) (D : Fin N → ℤ) (v : Nega N (ZMod q)) (h : ∀ x, ((D x : ℤ) : ZMod q) = v x) :
    red q (D : Nega N ℤ) = v := Nega.ext h

/-! ## agreement of rows up to a level -/

/-- the rows in use at `level` agree -/
def PolyQP.Agree (level : ℕ) (a b : PolyQP C) : Prop := (∀ i ≤ level, a.Q i = b.Q i) ∧ ∀ j < C.nP, a.P j = b.P j

theorem PolyQP.Agree.refl (level : ℕ) (a : PolyQP C) : a.Agree level a := ⟨fun _ _ => rfl, fun _ _ => rfl⟩
theorem PolyQP.Agree.symm {level : ℕ} {a b : PolyQP C} (h : a.Agree level b) : b.Agree level a :=
  ⟨fun i hi => (h.1 i hi).symm, fun j hj => (h.2 j hj).symm⟩
theorem PolyQP.Agree.trans {level : ℕ} {a b c : PolyQP C} (h : a.Agree level b) (h' : b.Agree level c) : a.Agree level c :=
  ⟨fun i hi => (h.1 i hi).trans (h'.1 i hi), fun j hj => (h.2 j hj).trans (h'.2 j hj)⟩
theorem PolyQP.Agree.mono {level level' : ℕ} {a b : PolyQP C} (h : a.Agree level b) (hl : level' ≤ level) : a.Agree level' b :=
  ⟨fun i hi => h.1 i (by omega), h.2⟩

theorem setQ_le {level i : ℕ} (new old : QRows C) (h : i ≤ level) : setQ level new old i = new i := if_pos h
theorem setQ_gt {level i : ℕ} (new old : QRows C) (h : level < i) : setQ level new old i = old i := if_neg (by omega)
theorem setP_lt {n j : ℕ} (new old : PRows C) (h : j < n) : setP n new old j = new j := if_pos h

theorem setQP_agree (level : ℕ) (new old : PolyQP C) : (setQP level new old).Agree level new :=
  ⟨fun _ hi => setQ_le _ _ hi, fun _ hj => setP_lt _ _ hj⟩

theorem setQ_congr {level : ℕ} {new new' old : QRows C} (h : ∀ i ≤ level, new i = new' i) :
    setQ level new old = setQ level new' old := by
  funext i; unfold setQ; split
  · exact h i ‹_›
  · rfl

theorem setQP_congr {level : ℕ} {new new' old : PolyQP C} (h : new.Agree level new') :
    setQP level new old = setQP level new' old := by
  unfold setQP
  rw [setQ_congr h.1]
  congr 1
  funext j; unfold setP; split
  · exact h.2 j ‹_›
  · rfl

@[simp] theorem setQP_setQP (level : ℕ) (a b c : PolyQP C) : setQP level a (setQP level b c) = setQP level a c := by
  unfold setQP setQ setP
  congr 1
  · funext i; dsimp only; split <;> rfl
  · funext i; dsimp only; split <;> rfl

/-! ## gadget arithmetic -/

namespace Ctx.Valid
variable (V : C.Valid)
include V

theorem alpha_pos : 1 ≤ C.alpha := (Nat.one_le_div_iff V.g1).mpr V.gle

theorem alpha_le : C.alpha ≤ C.nP := let _ := V; Nat.div_le_self _ _
theorem nP_pos : 1 ≤ C.nP := le_trans V.g1 V.gle

theorem beta_eq {level : ℕ} (hl : level < C.nQ) : C.beta level = level / C.alpha + 1 := by
  have h1 := V.alpha_pos
  have h2 := V.nQ53
  have h3 := V.le32
  have h4 := V.alpha_le
  unfold Ctx.beta Dims.beta
  change FloatModel.ceilInt (C.fm.div (C.fm.ofNat (level + 1)) (C.fm.ofNat C.alpha)) = _
  rw [C.fm.ceil_div_exact (level + 1) C.alpha (by omega) h1 (by omega)]
  have : level + 1 + C.alpha - 1 = level + C.alpha := by omega
  rw [this, Nat.add_div_right _ h1]

theorem lt_beta {level k : ℕ} (hl : level < C.nQ) : k < C.beta level ↔ k * C.alpha ≤ level := by
  rw [V.beta_eq hl, Nat.lt_succ_iff, Nat.le_div_iff_mul_le V.alpha_pos]

theorem div_lt_beta {level i : ℕ} (hl : level < C.nQ) (hi : i ≤ level) : i / C.alpha < C.beta level := by
  rw [V.lt_beta hl]; exact le_trans (Nat.div_mul_le_self _ _) hi

theorem beta_pos {level : ℕ} (hl : level < C.nQ) : 0 < C.beta level := by rw [V.lt_beta hl]; simp

theorem beta_mono {level level' : ℕ} (hl : level < C.nQ) (h : level' ≤ level) : C.beta level' ≤ C.beta level := by
  rw [V.beta_eq hl, V.beta_eq (by omega)]
  exact Nat.succ_le_succ (Nat.div_le_div_right h)

end Ctx.Valid

/-! ## digits -/

/-- `D` is an integer polynomial that is a digit of `a` for block `k`: small, and congruent to `a` modulo the primes of the
block (up to `level`) -/
structure IsDigit (C : Ctx N) (level k : ℕ) (a : QRows C) (B : ℤ) (D : Nega N ℤ) : Prop where
  bdd : Bdd D B
  cong : ∀ i ≤ level, i / C.alpha = k → red (C.q i) D = cf (a i)

/-- `g` holds the NTT rows of the integer polynomial `D` -/
structure Holds (C : Ctx N) (level : ℕ) (g : PolyQP C) (D : Nega N ℤ) : Prop where
  q : ∀ i ≤ level, (C.RQ i).ev (g.Q i) = red (C.q i) D
  p : ∀ j < C.nP, (C.RP j).ev (g.P j) = red (C.p j) D

/-- the rows that `DecomposeSingleNTT` writes -/
def digG (level k : ℕ) (a : QRows C) : PolyQP C :=
  match decomposeSingleNTT level k a PolyQP.zero with
  | .ok r => r
  | .error _ => PolyQP.zero

theorem decomposeSingleNTT_congr (V : C.Valid) {level k : ℕ} (hl : level < C.nQ) (hk : k < C.beta level) {a a' : QRows C}
    (h : ∀ i ≤ level, a i = a' i) (old : PolyQP C) :
    decomposeSingleNTT level k a old = decomposeSingleNTT level k a' old := by
  unfold decomposeSingleNTT
  have hb := (V.lt_beta hl).mp hk
  have : (fun x : Fin N => decomposeAndSplit C.fm C.nQ C.q C.nP C.p level (C.nP - 1) C.alpha k C.gamma
      (fun i => (a i x).val) (fun i => (old.Q i x).val) (fun j => (old.P j x).val)) =
      fun x => decomposeAndSplit C.fm C.nQ C.q C.nP C.p level (C.nP - 1) C.alpha k C.gamma
      (fun i => (a' i x).val) (fun i => (old.Q i x).val) (fun j => (old.P j x).val) := by
    funext x
    apply decomposeAndSplit_congr _ _ _ _ _ _ _ _ _ _ _ _ _ _ V.alpha_pos hb
    intro i hi; rw [h i hi]
  rw [this]

theorem digG_congr (V : C.Valid) {level k : ℕ} (hl : level < C.nQ) (hk : k < C.beta level) {a a' : QRows C}
    (h : ∀ i ≤ level, a i = a' i) : digG level k a = digG level k a' := by
  unfold digG; rw [decomposeSingleNTT_congr V hl hk h]

theorem decomposeSingleNTT_spec (V : C.Valid) {level k : ℕ} (hl : level < C.nQ) (hk : k < C.beta level) (a : QRows C) :
    (∀ old, decomposeSingleNTT level k a old = .ok (setQP level (digG level k a) old)) ∧
    (∃ D, IsDigit C level k a (2 * C.blockProd level k) D ∧ Holds C level (digG level k a) D) ∧
    (∀ i ≤ level, ((digG level k a).Q i).Canon) ∧ ∀ j < C.nP, ((digG level k a).P j).Canon := by
  have hb := (V.lt_beta hl).mp hk
  have h1 := V.alpha_pos
  have h2 := V.alpha_le
  have h3 := V.le32
  have h4 := V.nP_pos
  have hga : C.gamma * C.alpha ≤ C.nP := Nat.mul_div_le _ _
  have hlP : C.nP - 1 < C.gamma * C.alpha ∨ (C.alpha = 1 ∧ C.nP - 1 < C.nP) := by
    rcases V.gdiv with hd | hd
    · left
      have : C.gamma * C.alpha = C.nP := Nat.mul_div_cancel' hd
      omega
    · right; exact ⟨hd, by omega⟩
  obtain ⟨b1, b2, b3⟩ := blockLen_pos hb h1
  have key := fun x : Fin N => decompose_uniform C.fm C.nQ C.q C.nP C.p level (C.nP - 1) C.alpha k C.gamma V.pair V.g1 h1 hga
    hlP V.nQ53 (by omega) hl hb (by omega) (V.sumQ _ _ b2 (by omega)) (fun i => (a i x).val) (fun i _ => (a i x).le)
  choose D d1 d2 gQ gP d3 d4 d5 using key
  have e : C.nP - 1 + 1 = C.nP := by omega
  set g : PolyQP C := ⟨fun i => (C.RQ i).nttRaw fun x => overlay (level + 1) (gQ x) (fun _ => 0) i,
    fun j => (C.RP j).nttRaw fun x => overlay C.nP (gP x) (fun _ => 0) j⟩ with hg
  have run : ∀ old, decomposeSingleNTT level k a old = .ok (setQP level g old) := by
    intro old
    unfold decomposeSingleNTT
    rw [Go.fillFin_ok _ _ _ (fun x => d3 x _ _), bind_ok]
    congr 1
    apply setQP_congr
    refine ⟨fun i hi => ?_, fun j hj => ?_⟩
    · simp only [hg]
      congr 1; funext x
      rw [overlay_lt _ _ (by omega), overlay_lt _ _ (by omega)]
    · simp only [hg, e]
      congr 1; funext x
      rw [overlay_lt _ _ hj, overlay_lt _ _ hj]
  have hdig : digG level k a = setQP level g PolyQP.zero := by unfold digG; rw [run]
  have ag : (digG level k a).Agree level g := by rw [hdig]; exact setQP_agree _ _ _
  refine ⟨fun old => ?_, ⟨fun x => D x, ⟨fun x => ?_, fun i hi hik => ?_⟩, ⟨fun i hi => ?_, fun j hj => ?_⟩⟩, fun i hi => ?_,
    fun j hj => ?_⟩
  · rw [run]; congr 1; exact setQP_congr ag.symm
  · have := (d2 x).abs_le
    refine this.trans (le_of_eq ?_)
    unfold Ctx.blockProd mprod; rfl
  · apply red_ext; intro x
    have hi2 : i - k * C.alpha < blockLen level C.alpha k := by
      unfold blockLen
      have := Nat.div_add_mod i C.alpha
      have := Nat.mod_lt i (show 0 < C.alpha by omega)
      have e1 : C.alpha * (k + 1) = C.alpha * k + C.alpha := by ring
      have e2 : C.alpha * k = k * C.alpha := Nat.mul_comm _ _
      rw [hik] at *
      omega
    have hi3 : k * C.alpha + (i - k * C.alpha) = i := by
      have := Nat.div_mul_le_self i C.alpha
      rw [hik] at this; omega
    have := d1 x (i - k * C.alpha) hi2
    rw [hi3] at this
    have h5 := (ZMod.intCast_eq_intCast_iff _ _ _).mpr this
    rw [h5]; simp [cf, Limb.res]
  · rw [ag.1 i hi]
    simp only [hg]
    rw [LimbOps.nttRaw_ev]
    · symm; apply red_ext; intro x
      have h5 := (ZMod.intCast_eq_intCast_iff _ _ _).mpr (d4 x i hi).1
      rw [← h5]
      show _ = ((overlay (level + 1) (gQ x) (fun _ => 0) i : ℕ) : ZMod (C.q i))
      rw [overlay_lt _ _ (by omega)]; simp
    · intro x; rw [overlay_lt _ _ (by omega)]; exact (d4 x i hi).2
  · rw [ag.2 j hj]
    simp only [hg]
    rw [LimbOps.nttRaw_ev]
    · symm; apply red_ext; intro x
      have h5 := (ZMod.intCast_eq_intCast_iff _ _ _).mpr (d5 x j (by omega)).1
      rw [← h5]
      show _ = ((overlay C.nP (gP x) (fun _ => 0) j : ℕ) : ZMod (C.p j))
      rw [overlay_lt _ _ hj]; simp
    · intro x; rw [overlay_lt _ _ hj]; exact (d5 x j (by omega)).2
  · rw [ag.1 i hi]; exact LimbOps.nttRaw_canon _ _
  · rw [ag.2 j hj]; exact LimbOps.nttRaw_canon _ _

/-- the coefficient-domain rows of a polynomial, whatever its flag -/
def Poly.coeffs (a : Poly C) : QRows C := fun i => if a.isNTT then (C.RQ i).intt (a.rows i) else a.rows i

/-- two scratch memories with the same content but for the lattigo pools (`PoolInvNTT`, `Pool[0..1]`) -/
def Scratch.Same (S S' : Scratch C) : Prop :=
  S'.q0 = S.q0 ∧ S'.q1 = S.q1 ∧ S'.q2 = S.q2 ∧ S'.swk1 = S.swk1 ∧ S'.swk2 = S.swk2 ∧ S'.swk3 = S.swk3

theorem Scratch.Same.refl (S : Scratch C) : S.Same S := ⟨rfl, rfl, rfl, rfl, rfl, rfl⟩
theorem Scratch.Same.trans {S S' S'' : Scratch C} (h : S.Same S') (h' : S'.Same S'') : S.Same S'' :=
  ⟨h'.1.trans h.1, h'.2.1.trans h.2.1, h'.2.2.1.trans h.2.2.1, h'.2.2.2.1.trans h.2.2.2.1,
    h'.2.2.2.2.1.trans h.2.2.2.2.1, h'.2.2.2.2.2.trans h.2.2.2.2.2⟩

theorem Poly.need_ok {level : ℕ} {a : Poly C} (h : level < a.len) : a.need level = .ok () := if_pos h

theorem coeffRows_spec (S : Scratch C) {level : ℕ} {a : Poly C} (h : level < a.len) :
    ∃ rows S', coeffRows S level a = .ok (rows, S') ∧ S.Same S' ∧ ∀ i ≤ level, rows i = a.coeffs i := by
  unfold coeffRows Poly.coeffs
  rw [Poly.need_ok h, bind_ok]
  by_cases hN : a.isNTT
  · simp only [hN, if_true]
    refine ⟨_, _, rfl, ⟨rfl, rfl, rfl, rfl, rfl, rfl⟩, fun i hi => ?_⟩
    exact setQ_le _ _ hi
  · simp only [hN]
    exact ⟨_, _, rfl, Scratch.Same.refl S, fun _ _ => rfl⟩

theorem decompose_ok (V : C.Valid) (S : Scratch C) {level : ℕ} (hl : level < C.nQ) {a : Poly C} (h : level < a.len)
    (ad : Swk C) (had : C.beta level ≤ ad.len) :
    ∃ S', S.Same S' ∧ decompose S level a ad = .ok (⟨ad.len, fun k => if k < C.beta level then
      setQP level (digG level k a.coeffs) (ad.val k) else ad.val k⟩, S') := by
  obtain ⟨rows, S', h1, h2, h3⟩ := coeffRows_spec S h
  refine ⟨S', h2, ?_⟩
  unfold decompose
  rw [h1]
  simp only [bind_ok, if_neg (not_lt.mpr had)]
  obtain ⟨s', e1, e2⟩ := Go.loop_inv (fun (val : ℕ → PolyQP C) k => do
      let r ← decomposeSingleNTT level k rows (val k)
      (.ok (Function.update val k r) : Go (ℕ → PolyQP C)))
    (fun pre v => v = fun k => if k ∈ pre then setQP level (digG level k a.coeffs) (ad.val k) else ad.val k)
    (List.range (C.beta level)) ad.val (by simp) (by
      intro pre k suf v hl' hI
      have hk : k < C.beta level := List.mem_range.mp (by rw [hl']; simp)
      have hnd : (List.range (C.beta level)).Nodup := List.nodup_range
      have hkn : k ∉ pre := by
        rw [hl'] at hnd
        have := List.nodup_append.mp hnd
        intro hk'
        exact this.2.2 k hk' k (by simp) rfl
      rw [(decomposeSingleNTT_spec V hl hk rows).1, bind_ok]
      refine ⟨_, rfl, ?_⟩
      rw [digG_congr V hl hk h3]
      subst hI
      funext k'
      by_cases hk' : k' = k
      · subst hk'; simp [hkn]
      · simp [hk'])
  rw [e1, bind_ok, e2]
  congr 3
  funext k
  simp [List.mem_range]

/-! ## the external product -/

/-- the rows accumulated in `Pool[1]` after `n` blocks -/
def accG (level : ℕ) (h bg : ℕ → PolyQP C) : ℕ → PolyQP C
  | 0 => PolyQP.zero
  | n + 1 => if n = 0 then qpMul level (bg n) (h n) PolyQP.zero else qpMulAdd level (bg n) (h n) (accG level h bg n)

/-- the rows that `ExternalProductHoisted` writes -/
def epG (level : ℕ) (h bg : ℕ → PolyQP C) : QRows C :=
  match modDownRows level (accG level h bg (C.beta level)) (fun _ _ => 0) (fun _ => Limb.zero) with
  | .ok r => r
  | .error _ => fun _ => Limb.zero

theorem accG_congr {level : ℕ} {h h' bg bg' : ℕ → PolyQP C} (n : ℕ) (hh : ∀ k < n, (h k).Agree level (h' k))
    (hb : ∀ k < n, (bg k).Agree level (bg' k)) : (accG level h bg n).Agree level (accG level h' bg' n) := by
  induction n with
  | zero => exact PolyQP.Agree.refl _ _
  | succ n ih =>
    have ih := ih (fun k hk => hh k (by omega)) (fun k hk => hb k (by omega))
    have h1 := hh n (by omega)
    have h2 := hb n (by omega)
    unfold accG
    split
    · refine ⟨fun i hi => ?_, fun j hj => ?_⟩
      · simp only [qpMul, setQP, setQ_le _ _ hi, h1.1 i hi, h2.1 i hi]
      · simp only [qpMul, setQP, setP_lt _ _ hj, h1.2 j hj, h2.2 j hj]
    · refine ⟨fun i hi => ?_, fun j hj => ?_⟩
      · simp only [qpMulAdd, setQP, setQ_le _ _ hi, h1.1 i hi, h2.1 i hi, ih.1 i hi]
      · simp only [qpMulAdd, setQP, setP_lt _ _ hj, h1.2 j hj, h2.2 j hj, ih.2 j hj]

theorem accG_ev {level : ℕ} (h bg : ℕ → PolyQP C) (n : ℕ) :
    (∀ i ≤ level, (C.RQ i).ev ((accG level h bg n).Q i) =
      ∑ k ∈ range n, (C.RQ i).ev ((bg k).Q i) * (C.RQ i).ev ((h k).Q i) * (C.RQ i).rinv) ∧
    ∀ j < C.nP, (C.RP j).ev ((accG level h bg n).P j) =
      ∑ k ∈ range n, (C.RP j).ev ((bg k).P j) * (C.RP j).ev ((h k).P j) * (C.RP j).rinv := by
  induction n with
  | zero => exact ⟨fun i _ => by simp [accG, PolyQP.zero], fun i _ => by simp [accG, PolyQP.zero]⟩
  | succ n ih =>
    unfold accG
    by_cases hn : n = 0
    · subst hn
      refine ⟨fun i hi => ?_, fun j hj => ?_⟩
      · simp [qpMul, setQP, setQ_le _ _ hi]
      · simp [qpMul, setQP, setP_lt _ _ hj]
    · rw [if_neg hn]
      refine ⟨fun i hi => ?_, fun j hj => ?_⟩
      · simp only [qpMulAdd, setQP, setQ_le _ _ hi, LimbOps.ev_mulMontAdd, sum_range_succ, ih.1 i hi]
      · simp only [qpMulAdd, setQP, setP_lt _ _ hj, LimbOps.ev_mulMontAdd, sum_range_succ, ih.2 j hj]

theorem modDownRows_congr (V : C.Valid) {level : ℕ} {x x' : PolyQP C} (h : x.Agree level x')
    (conv : Fin N → ℕ → ℕ) (c : QRows C) : modDownRows level x conv c = modDownRows level x' conv c := by
  unfold modDownRows
  have h4 := V.nP_pos
  congr 2
  funext t
  apply modDownQPtoQ_congr
  · intro i hi; rw [h.1 i hi]
  · intro j hj; rw [h.2 j (by omega)]

/-- the end of the external product: it never fails, does not depend on stale memory, writes reduced words and divides by `P` up
to the small integer polynomial `L` that lifts the P-part -/
theorem modDownRows_spec (V : C.Valid) {level : ℕ} (hl : level < C.nQ) (x : PolyQP C) :
    ∃ r : QRows C, ∃ L : Nega N ℤ, (∀ conv c, modDownRows level x conv c = .ok (setQ level r c)) ∧
      (∀ i ≤ level, (r i).Canon) ∧ Bdd L (2 * C.P) ∧
      (∀ j < C.nP, red (C.p j) L = (C.RP j).ev (x.P j)) ∧
      ∀ i ≤ level, (C.P : Nega N (ZMod (C.q i))) * cf (r i) = (C.RQ i).ev (x.Q i) - red (C.q i) L := by
  have h3 := V.le32
  have h4 := V.nP_pos
  have e : C.nP - 1 + 1 = C.nP := by omega
  have key := fun t : Fin N => modDownQPtoQ_uniform C.fm C.nQ C.q C.nP C.p level (C.nP - 1) hl (by omega) V.pair (by omega)
    (by rw [e]; exact V.sumP) (fun i => (C.RQ i).inttLazy (x.Q i) t) (fun j => (C.RP j).inttLazy (x.P j) t)
    (fun i _ => ((C.RQ i).inttLazy_lt _ t).le) (fun j _ => by
      have := (C.RP j).inttLazy_lt (x.P j) t
      have := (C.RP j).lt61
      have hW : (W64 : ℕ) = 18446744073709551616 := by norm_num
      rw [hW]; omega)
  choose X x1 x2 g g1 g2 using key
  rw [e] at x2 g2
  refine ⟨fun i t => toWord (C.q i) (g t i), fun t => X t, fun conv c => ?_, fun i hi t => ?_, fun t => ?_, fun j hj => ?_,
    fun i hi => ?_⟩
  · unfold modDownRows
    rw [Go.fillFin_ok _ _ _ (fun t => g1 t _ _), bind_ok]
    congr 1
    apply setQ_congr
    intro i hi
    funext t
    show toWord _ (overlay _ _ _ _) = _
    rw [overlay_lt _ _ (by omega)]
  · have := (g2 t i hi).1
    show min _ _ < _
    omega
  · refine (x2 t).abs_le.trans (le_of_eq ?_)
    unfold Ctx.P mprod; rfl
  · apply red_ext; intro t
    have h5 := (ZMod.intCast_eq_intCast_iff _ _ _).mpr (x1 t j (by omega))
    rw [h5, ← (C.RP j).rawPoly_inttLazy]
    simp [rawPoly, rawRes]
  · apply Nega.ext; intro t
    obtain ⟨ga, gb⟩ := g2 t i hi
    have h5 := (ZMod.intCast_eq_intCast_iff _ _ _).mpr gb
    have h8 : red (C.q i) (X : Nega N ℤ) t = ((X t : ℤ) : ZMod (C.q i)) := rfl
    rw [natCast_mul_apply, Nega.sub_apply]
    show _ = _ - red (C.q i) (X : Nega N ℤ) t
    rw [h8, ← (C.RQ i).rawPoly_inttLazy]
    have h6 : cf (fun t => toWord (C.q i) (g t i)) t = (g t i : ZMod (C.q i)) := by
      show ((min (g t i) (C.q i) : ℕ) : ZMod (C.q i)) = _
      rw [min_eq_left ga.le]
    rw [h6]
    have h7 : (C.P : ZMod (C.q i)) = ((mprod C.nP C.p : ℕ) : ZMod (C.q i)) := rfl
    rw [h7, mul_comm]
    push_cast at h5
    exact h5

theorem epG_run (V : C.Valid) {level : ℕ} (hl : level < C.nQ) (h bg : ℕ → PolyQP C) {x : PolyQP C}
    (hx : x.Agree level (accG level h bg (C.beta level))) (conv : Fin N → ℕ → ℕ) (c : QRows C) :
    modDownRows level x conv c = .ok (setQ level (epG level h bg) c) := by
  rw [modDownRows_congr V hx]
  obtain ⟨r, L, h1, _⟩ := modDownRows_spec V hl (accG level h bg (C.beta level))
  have : epG level h bg = setQ level r fun _ => Limb.zero := by unfold epG; rw [h1]
  rw [h1, this]
  congr 1
  funext i; unfold setQ; split <;> rfl

/-- **what the external product computes** -/
theorem epG_spec (V : C.Valid) {level : ℕ} (hl : level < C.nQ) (h bg : ℕ → PolyQP C) :
    (∀ i ≤ level, (epG level h bg i).Canon) ∧ ∃ L : Nega N ℤ, Bdd L (2 * C.P) ∧
      (∀ j < C.nP, red (C.p j) L =
        ∑ k ∈ range (C.beta level), (C.RP j).ev ((bg k).P j) * (C.RP j).ev ((h k).P j) * (C.RP j).rinv) ∧
      ∀ i ≤ level, (C.P : Nega N (ZMod (C.q i))) * cf (epG level h bg i) =
        (∑ k ∈ range (C.beta level), (C.RQ i).ev ((bg k).Q i) * (C.RQ i).ev ((h k).Q i) * (C.RQ i).rinv)
          - red (C.q i) L := by
  obtain ⟨r, L, h1, h2, h3, h4, h5⟩ := modDownRows_spec V hl (accG level h bg (C.beta level))
  have : epG level h bg = setQ level r fun _ => Limb.zero := by unfold epG; rw [h1]
  obtain ⟨a1, a2⟩ := accG_ev (level := level) h bg (C.beta level)
  refine ⟨fun i hi => by rw [this, setQ_le _ _ hi]; exact h2 i hi, L, h3, fun j hj => by rw [h4 j hj, a2 j hj],
    fun i hi => by rw [this, setQ_le _ _ hi, h5 i hi, a1 i hi]⟩

theorem epG_congr (V : C.Valid) {level : ℕ} {h h' bg bg' : ℕ → PolyQP C}
    (hh : ∀ k < C.beta level, (h k).Agree level (h' k)) (hb : ∀ k < C.beta level, (bg k).Agree level (bg' k)) :
    epG level h bg = epG level h' bg' := by
  unfold epG
  rw [modDownRows_congr V (accG_congr _ hh hb)]

theorem externalProductHoisted_ok (V : C.Valid) (S : Scratch C) {level : ℕ} (hl : level < C.nQ) (h bg : Swk C)
    (hh : C.beta level ≤ h.len) (hbg : C.beta level ≤ bg.len) (c : QRows C) :
    ∃ S', S.Same S' ∧ externalProductHoisted S level h bg c = .ok (setQ level (epG level h.val bg.val) c, S') := by
  unfold externalProductHoisted
  rw [if_neg (by omega)]
  obtain ⟨S', e1, e2, e3⟩ := Go.loop_inv (fun (S : Scratch C) k =>
      (.ok { S with pool1 := if k = 0 then qpMul level (bg.val k) (h.val k) S.pool1
                            else qpMulAdd level (bg.val k) (h.val k) S.pool1 } : Go (Scratch C)))
    (fun pre S' => S.Same S' ∧ (pre ≠ [] → S'.pool1.Agree level (accG level h.val bg.val pre.length)))
    (List.range (C.beta level)) S ⟨Scratch.Same.refl S, by simp⟩ (by
      intro pre k suf S' hl' hI
      have hk : k = pre.length := by
        have := congrArg (fun l => l[pre.length]?) hl'
        simp only [List.getElem?_append_right (le_refl _), Nat.sub_self, List.getElem?_cons_zero] at this
        rw [List.getElem?_eq_some_iff] at this
        obtain ⟨_, h2⟩ := this
        simpa using h2.symm
      refine ⟨_, rfl, hI.1, fun _ => ?_⟩
      rw [List.length_append, List.length_singleton, ← hk]
      unfold accG
      by_cases h0 : k = 0
      · simp only [h0, if_true]
        unfold qpMul
        exact (setQP_agree _ _ _).trans (setQP_agree _ _ _).symm
      · simp only [if_neg h0]
        have ag := hI.2 (by intro hp; apply h0; rw [hk, hp]; rfl)
        rw [← hk] at ag
        refine ⟨fun i hi => ?_, fun j hj => ?_⟩
        · simp only [qpMulAdd, setQP, setQ_le _ _ hi, ag.1 i hi]
        · simp only [qpMulAdd, setQP, setP_lt _ _ hj, ag.2 j hj])
  refine ⟨S', e2, ?_⟩
  have hb := V.beta_pos hl
  have ag := e3 (by intro hn; have := congrArg List.length hn; simp at this; omega)
  rw [List.length_range] at ag
  rw [e1, bind_ok, epG_run V hl h.val bg.val ag, bind_ok]

/-- the digits of `a` at `level` -/
def digs (level : ℕ) (a : QRows C) : ℕ → PolyQP C := fun k => digG level k a

theorem externalProduct_ok (V : C.Valid) (S : Scratch C) {level : ℕ} (hl : level < C.nQ) {a : Poly C} (ha : level < a.len)
    (bg : Swk C) (hbg : C.beta level ≤ bg.len) (c : QRows C) :
    ∃ S', S.Same S' ∧ externalProduct S level a bg c = .ok (setQ level (epG level (digs level a.coeffs) bg.val) c, S') := by
  obtain ⟨rows, S0, h1, h2, h3⟩ := coeffRows_spec S ha
  unfold externalProduct
  rw [h1]
  simp only [bind_ok, if_neg (not_lt.mpr hbg)]
  obtain ⟨S', e1, e2, e3⟩ := Go.loop_inv (fun (S : Scratch C) k => do
      let c0 ← decomposeSingleNTT level k rows S.pool0
      let c1 := if k = 0 then qpMul level (bg.val k) c0 S.pool1 else qpMulAdd level (bg.val k) c0 S.pool1
      (.ok { S with pool0 := c0, pool1 := c1 } : Go (Scratch C)))
    (fun pre S' => S.Same S' ∧ (pre ≠ [] → S'.pool1.Agree level (accG level (digs level a.coeffs) bg.val pre.length)))
    (List.range (C.beta level)) S0 ⟨h2, by simp⟩ (by
      intro pre k suf S' hl' hI
      have hk : k = pre.length := by
        have := congrArg (fun l => l[pre.length]?) hl'
        simp only [List.getElem?_append_right (le_refl _), Nat.sub_self, List.getElem?_cons_zero] at this
        rw [List.getElem?_eq_some_iff] at this
        obtain ⟨_, h2⟩ := this
        simpa using h2.symm
      have hkb : k < C.beta level := List.mem_range.mp (by rw [hl']; simp)
      rw [(decomposeSingleNTT_spec V hl hkb rows).1, bind_ok]
      refine ⟨_, rfl, ⟨hI.1.1, hI.1.2.1, hI.1.2.2.1, hI.1.2.2.2.1, hI.1.2.2.2.2.1, hI.1.2.2.2.2.2⟩, fun _ => ?_⟩
      rw [List.length_append, List.length_singleton, ← hk, digG_congr V hl hkb h3]
      have agd := setQP_agree level (digG level k a.coeffs) S'.pool0
      unfold accG
      by_cases h0 : k = 0
      · simp only [h0, if_true]
        rw [h0] at agd
        unfold qpMul
        refine ⟨fun i hi => ?_, fun j hj => ?_⟩
        · simp only [setQP, setQ_le _ _ hi]; rfl
        · simp only [setQP, setP_lt _ _ hj]; rfl
      · simp only [if_neg h0]
        have ag := hI.2 (by intro hp; apply h0; rw [hk, hp]; rfl)
        rw [← hk] at ag
        refine ⟨fun i hi => ?_, fun j hj => ?_⟩
        · simp only [qpMulAdd, setQP, setQ_le _ _ hi, ag.1 i hi]; rfl
        · simp only [qpMulAdd, setQP, setP_lt _ _ hj, ag.2 j hj]; rfl)
  refine ⟨S', e2, ?_⟩
  have hb := V.beta_pos hl
  have ag := e3 (by intro hn; have := congrArg List.length hn; simp at this; omega)
  rw [List.length_range] at ag
  rw [e1, bind_ok, epG_run V hl _ bg.val ag, bind_ok]

theorem digs_spec (V : C.Valid) {level k : ℕ} (hl : level < C.nQ) (hk : k < C.beta level) (a : QRows C) :
    ∃ D, IsDigit C level k a (2 * C.blockProd level k) D ∧ Holds C level (digs level a k) D :=
  (decomposeSingleNTT_spec V hl hk a).2.1

end MKHE
