import Verif.Spec.Phase

set_option autoImplicit false

/-!
# From ciphertexts to the specification of `MulAndRelin`
-/

namespace MKHE
open Finset Nega

variable {N : ℕ} [NeZero N] {C : Ctx N}

/-- the digits a multiplication uses for a component -/
def digitsFor (level : ℕ) (op : Ct C) (h : Option (HoistedCt C)) (id : String) : ℕ → PolyQP C :=
  match h with
  | none => digs level (op.comp id)
  | some m => match m.lookup id with
    | some s => s.val
    | none => fun _ => PolyQP.zero

/-- component `sel` of the relinearization key of a party -/
def keyFor (rlk : RlkMap C) (sel : Rlk C → Swk C) (id : String) : ℕ → PolyQP C :=
  match rlk.value.lookup id with
  | some r => (sel r).val
  | none => fun _ => PolyQP.zero

/-- the data of a multiplication -/
def mulIn (crs : GoMap ℤ (Swk C)) (level : ℕ) (op0 op1 : Ct C) (h0 h1 : Option (HoistedCt C)) (rlk : RlkMap C) : MulIn C where
  ids0 := op0.ids
  ids1 := op1.ids
  a0 := op0.comp
  a1 := op1.comp
  h0 := digitsFor level op0 h0
  h1 := digitsFor level op1 h1
  d := keyFor rlk Rlk.d
  b := keyFor rlk Rlk.b
  v := keyFor rlk Rlk.v
  u := match crs.lookup (-1) with
    | some u => u.val
    | none => fun _ => PolyQP.zero

/-- what `MulAndRelin` needs in order not to panic -/
structure MulHyp (crs : GoMap ℤ (Swk C)) (level : ℕ) (op0 op1 : Ct C) (rlk : RlkMap C) (out : Ct C) : Prop where
  lvl : level < C.nQ
  in0 : op0.Coeff level
  in1 : op1.Coeff level
  res : out.AtLevel level
  ids : out.ids = op0.ids ∪ op1.ids
  keys : ∀ id ∈ op0.ids ∪ op1.ids, ∃ key, rlk.value.lookup id = some key ∧ C.beta level ≤ key.b.len ∧
    C.beta level ≤ key.d.len ∧ C.beta level ≤ key.v.len
  crsU : ∃ u, crs.lookup (-1) = some u ∧ C.beta level ≤ u.len

/-- a hoisted operand has an entry for every party -/
def HoistOK (level : ℕ) (op : Ct C) (h : Option (HoistedCt C)) : Prop :=
  ∀ m, h = some m → ∀ id ∈ op.ids, ∃ s, m.lookup id = some s ∧ C.beta level ≤ s.len

theorem HoistOK.none (level : ℕ) (op : Ct C) : HoistOK level op none := fun _ h => by cases h

theorem digOK_of {level : ℕ} {op : Ct C} {h : Option (HoistedCt C)} (hop : op.Coeff level) (hh : HoistOK level op h) {id : String}
    (hid : id ∈ op.ids) : DigOK level op h id (digitsFor level op h id) := by
  unfold DigOK digitsFor
  cases h with
  | none =>
    obtain ⟨p, hp⟩ := Ct.get (Ct.mem_ids.mp hid).1
    exact ⟨p, hp, hop.len _ _ hp, by rw [Ct.comp_eq hp]⟩
  | some m =>
    obtain ⟨s, h1, h2⟩ := hh m rfl id hid
    exact ⟨s, h1, h2, by simp only [h1]⟩

theorem opOK_of {level : ℕ} {op : Ct C} (hop : op.Coeff level) : OpOK level op op.ids op.comp := by
  refine ⟨fun id => Ct.mem_ids, fun id hid => ?_⟩
  have : id ∈ op := by
    rcases hid with h | h
    · exact (Ct.mem_ids.mp h).1
    · rw [h]; exact hop.has0
  obtain ⟨p, hp⟩ := Ct.get this
  exact ⟨p, hp, hop.len _ _ hp, hop.coeff _ _ hp, (hop.comp hp).symm⟩

theorem mulOK_of {crs : GoMap ℤ (Swk C)} {level : ℕ} {op0 op1 : Ct C} {h0 h1 : Option (HoistedCt C)} {rlk : RlkMap C} {out : Ct C}
    {S : Scratch C} (H : MulHyp crs level op0 op1 rlk out) (k0 : HoistOK level op0 h0) (k1 : HoistOK level op1 h1)
    (hS : S.Alloc (C.beta level)) : MulOK crs level op0 op1 h0 h1 rlk out S (mulIn crs level op0 op1 h0 h1 rlk) where
  lvl := H.lvl
  hop0 := opOK_of H.in0
  hop1 := opOK_of H.in1
  hout := ⟨fun id hid => by
    rcases hid with h | h
    · exact (Ct.mem_ids.mp (H.ids ▸ h)).1
    · rw [h]; exact H.res.has0, fun id p hp => by rw [H.res.len id p hp]; omega⟩
  olen := by
    obtain ⟨p, hp⟩ := Ct.get H.res.has0
    exact ⟨p, hp, H.res.len _ _ hp⟩
  dig0 := fun id hid => digOK_of H.in0 k0 hid
  dig1 := fun id hid => digOK_of H.in1 k1 hid
  key0 := fun id hid => by
    obtain ⟨r, r1, r2, r3, r4⟩ := H.keys id (mem_union_left _ hid)
    exact ⟨r, r1, r3, r4, by simp [mulIn, keyFor, r1], by simp [mulIn, keyFor, r1]⟩
  key1 := fun id hid => by
    obtain ⟨r, r1, r2, r3, r4⟩ := H.keys id (mem_union_right _ hid)
    exact ⟨r, r1, r2, by simp [mulIn, keyFor, r1]⟩
  hcrs := by
    obtain ⟨u, u1, u2⟩ := H.crsU
    exact ⟨u, u1, u2, by simp [mulIn, u1]⟩
  swk1 := hS.swk1
  swk2 := hS.swk2
  swk3 := hS.swk3

/-- rows written by a multiplication, as a ciphertext -/
theorem mulRes_comp {level : ℕ} {out out' : Ct C} {M : MulIn C} (hout : out.AtLevel level)
    (hids : out.ids = M.ids0 ∪ M.ids1) (h : MulRes level out M out') :
    out'.AtLevel level ∧ out'.ids = M.ids0 ∪ M.ids1 ∧
      ∀ id, id ∈ M.ids0 ∪ M.ids1 ∨ id = "0" → ∀ i ≤ level, out'.comp id i = M.out level id i := by
  obtain ⟨R, hR, hv⟩ := h
  have hlk : ∀ id p, out'.lookup id = some p → ∃ p0, out.lookup id = some p0 ∧ p = p0.set level (R id) := by
    intro id p hp
    have := hR id
    rw [hp] at this
    cases h0 : out.lookup id with
    | none => rw [h0] at this; cases this
    | some p0 => rw [h0] at this; exact ⟨p0, rfl, by injection this⟩
  have hA : out'.AtLevel level := by
    refine ⟨(hR.mem _).mpr hout.has0, fun id p hp => ?_, fun id p hp => ?_⟩
    · obtain ⟨p0, a, b⟩ := hlk id p hp
      rw [b]; exact hout.len _ p0 a
    · obtain ⟨p0, a, b⟩ := hlk id p hp
      rw [b]; exact hout.coeff _ p0 a
  have hI : out'.ids = M.ids0 ∪ M.ids1 := by
    rw [← hids]; ext id; rw [Ct.mem_ids, Ct.mem_ids, hR.mem]
  refine ⟨hA, hI, fun id hid i hi => ?_⟩
  have hm : id ∈ out' := by
    rcases hid with h | h
    · exact (Ct.mem_ids.mp (hI ▸ h)).1
    · rw [h]; exact hA.has0
  obtain ⟨p, hp⟩ := Ct.get hm
  obtain ⟨p0, a, b⟩ := hlk id p hp
  rw [hA.toCoeff.comp hp, b, ← hv id hid i hi]
  exact setQ_le _ _ hi

/-- two multiplications that specify the same rows give the same ciphertext -/
theorem mulRes_unique {level : ℕ} {out out1 out2 : Ct C} {M M' : MulIn C} (hids : out.ids = M.ids0 ∪ M.ids1)
    (e0 : M'.ids0 = M.ids0) (e1 : M'.ids1 = M.ids1)
    (hM : ∀ id, id ∈ M.ids0 ∪ M.ids1 ∨ id = "0" → ∀ i ≤ level, M.out level id i = M'.out level id i)
    (h1 : MulRes level out M out1) (h2 : MulRes level out M' out2) : ∀ id, out1.lookup id = out2.lookup id := by
  obtain ⟨R1, r1, v1⟩ := h1
  obtain ⟨R2, r2, v2⟩ := h2
  rw [e0, e1] at v2
  intro id
  rw [r1 id, r2 id]
  cases h0 : out.lookup id with
  | none => rfl
  | some p =>
    have hid : id ∈ M.ids0 ∪ M.ids1 ∨ id = "0" := by
      by_cases e : id = "0"
      · exact .inr e
      · left; rw [← hids]; exact Ct.mem_ids.mpr ⟨Ct.mem_of_lookup h0, e⟩
    simp only [Option.map_some]
    have : ∀ i ≤ level, R1 id i = R2 id i := fun i hi => by rw [v1 id hid i hi, v2 id hid i hi, hM id hid i hi]
    rw [Poly.set_congr this]

theorem vecG_congr {level : ℕ} {ids : Finset String} {key h h' : String → ℕ → PolyQP C} {k : ℕ}
    (hh : ∀ id ∈ ids, (h id k).Agree level (h' id k)) : (vecG ids key h k).Agree level (vecG ids key h' k) := by
  refine ⟨fun i hi => ?_, fun j hj => ?_⟩
  · unfold vecG; dsimp only; congr 1; exact sum_congr rfl fun id hid => by rw [(hh id hid).1 i hi]
  · unfold vecG; dsimp only; congr 1; exact sum_congr rfl fun id hid => by rw [(hh id hid).2 j hj]

/-- the specified rows only depend on the digits up to the level -/
theorem mulOut_congr (V : C.Valid) {level : ℕ} (M : MulIn C) (h0 h1 : String → ℕ → PolyQP C)
    (e0 : ∀ id ∈ M.ids0, ∀ k < C.beta level, (M.h0 id k).Agree level (h0 id k))
    (e1 : ∀ id ∈ M.ids1, ∀ k < C.beta level, (M.h1 id k).Agree level (h1 id k)) (id : String) (i : ℕ) :
    M.out level id i = ({ M with h0 := h0, h1 := h1 } : MulIn C).out level id i := by
  set M' : MulIn C := { M with h0 := h0, h1 := h1 } with hM'
  have hx : ∀ k < C.beta level, (M.x k).Agree level (M'.x k) := fun k hk => vecG_congr fun id hid => e0 id hid k hk
  have hy : ∀ k < C.beta level, (M.y k).Agree level (M'.y k) := fun k hk => vecG_congr fun id hid => e1 id hid k hk
  have hw : ∀ id ∈ M.ids0, M.w level id = M'.w level id := fun id hid => epG_congr V (e0 id hid) hy
  have hE : ∀ id ∈ M.ids1, epG level (M.h1 id) M.x = epG level (M'.h1 id) M'.x := fun id hid => epG_congr V (e1 id hid) hx
  have i0 : M'.ids0 = M.ids0 := rfl
  have i1 : M'.ids1 = M.ids1 := rfl
  unfold MulIn.out
  split_ifs with hz
  · have : ∑ id ∈ M.ids0, cf (epG level (digs level (M.w level id)) (M.v id) i) =
        ∑ id ∈ M'.ids0, cf (epG level (digs level (M'.w level id)) (M'.v id) i) :=
      sum_congr rfl fun id hid => by rw [hw id hid]
    unfold MulIn.out0
    rw [this]
  · unfold MulIn.outI
    rw [i0, i1]
    have t1 : (if id ∈ M.ids1 then cf (epG level (M.h1 id) M.x i) else 0) =
        if id ∈ M.ids1 then cf (epG level (M'.h1 id) M'.x i) else 0 := by
      split_ifs with h
      · rw [hE id h]
      · rfl
    have t2 : (if id ∈ M.ids0 then cf (epG level (digs level (M.w level id)) M.u i) else 0) =
        if id ∈ M.ids0 then cf (epG level (digs level (M'.w level id)) M'.u i) else 0 := by
      split_ifs with h
      · rw [hw id h]
      · rfl
    rw [t1, t2]

/-! ## digits computed at a higher level -/

theorem IsDigit.mono {level level' k : ℕ} {a : QRows C} {B : ℤ} {D : Nega N ℤ} (h : IsDigit C level' k a B D) (hl : level ≤ level') :
    IsDigit C level k a B D := ⟨h.bdd, fun i hi => h.cong i (hi.trans hl)⟩

theorem Holds.mono {level level' : ℕ} {g : PolyQP C} {D : Nega N ℤ} (h : Holds C level' g D) (hl : level ≤ level') :
    Holds C level g D := ⟨fun i hi => h.q i (hi.trans hl), h.p⟩

theorem Holds.congr {level : ℕ} {g g' : PolyQP C} {D : Nega N ℤ} (h : Holds C level g D) (ha : g'.Agree level g) : Holds C level g' D :=
  ⟨fun i hi => by rw [ha.1 i hi]; exact h.q i hi, fun j hj => by rw [ha.2 j hj]; exact h.p j hj⟩

theorem IsDigit.bound {level k : ℕ} {a : QRows C} {B B' : ℤ} {D : Nega N ℤ} (h : IsDigit C level k a B D) (hB : B ≤ B') :
    IsDigit C level k a B' D := ⟨h.bdd.mono hB, h.cong⟩

end MKHE
