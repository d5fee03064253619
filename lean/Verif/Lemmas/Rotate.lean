import Verif.Lemmas.Permute
import Verif.Lemmas.MulTop

set_option autoImplicit false

/-!
# What `Rotate`, `RotateHoisted` and `Conjugate` write
-/

namespace MKHE
open Finset Nega

variable {N : ℕ} [NeZero N] {C : Ctx N}

/-- overwrite the rows up to `level` of the component `id` -/
theorem Ct.Upd.insert {level : ℕ} {out out' : Ct C} {R : String → QRows C} (h : Ct.Upd level out R out') {id : String} {p p' : Poly C}
    (hp : out.lookup id = some p) (hp' : out'.lookup id = some p') (F : QRows C) :
    Ct.Upd level out (Function.update R id F) (out'.insert id (p'.set level F)) := by
  have h1 := h id
  rw [hp, Option.map_some, hp'] at h1
  have h2 : p' = p.set level (R id) := by injection h1
  intro id'
  rw [GoMap.lookup_insert']
  by_cases e : id' = id
  · subst e
    rw [if_pos rfl, hp, Option.map_some, Function.update_self, h2, Poly.set_set]
  · rw [if_neg e, h id', Function.update_of_ne e]

theorem Ct.Upd.get {level : ℕ} {out out' : Ct C} {R : String → QRows C} (h : Ct.Upd level out R out') {id : String} {p : Poly C}
    (hp : out.lookup id = some p) : out'.lookup id = some (p.set level (R id)) := by
  rw [h id, hp]; rfl

/-- copying a coefficient-domain polynomial with enough rows into one with exactly `level + 1` rows -/
theorem Poly.copy_set {level : ℕ} {p src : Poly C} (hp : p.len = level + 1) (hc : p.isNTT = src.isNTT) (hs : level < src.len) :
    p.copy src = p.set level src.rows := by
  unfold Poly.copy Poly.set setQ
  cases p with
  | mk len f rows =>
    dsimp only at *
    congr 1
    · exact hc.symm
    · funext i
      by_cases h : i ≤ level
      · rw [if_pos (by omega), if_pos h]
      · rw [if_neg (by omega), if_neg h]

/-- external product of a component, plain or hoisted -/
theorem extProd_ok (V : C.Valid) (S : Scratch C) {level : ℕ} (hl : level < C.nQ) {op : Ct C} {hoisted : Option (HoistedCt C)}
    {id : String} {h : ℕ → PolyQP C} (hd : DigOK level op hoisted id h) (bg : Swk C) (hbg : C.beta level ≤ bg.len) (c : QRows C) :
    ∃ S', S.Same S' ∧ extProd S level op hoisted id bg c = .ok (setQ level (epG level h bg.val) c, S') := by
  unfold DigOK at hd
  unfold extProd
  cases hoisted with
  | none =>
    obtain ⟨a, h1, h2, h3⟩ := hd
    obtain ⟨S', e1, e2⟩ := externalProduct_ok V S hl h2 bg hbg c
    refine ⟨S', e1, ?_⟩
    simp only [GoMap.deref_ok h1, bind_ok, e2, h3]
  | some m =>
    obtain ⟨s, h1, h2, h3⟩ := hd
    obtain ⟨S', e1, e2⟩ := externalProductHoisted_ok V S hl s bg h2 hbg c
    refine ⟨S', e1, ?_⟩
    simp only [GoMap.deref_ok h1, bind_ok, e2, h3]

/-- rows of the rotation result before the permutation -/
noncomputable def rotPre (level : ℕ) (ids : Finset String) (a : QRows C) (h key : String → ℕ → PolyQP C) (crs : ℕ → PolyQP C)
    (id : String) : QRows C :=
  if id = "0" then (if ids = ∅ then a else fun i => (C.RQ i).ofCf (cf (a i) + ∑ id ∈ ids, cf (epG level (h id) (key id) i)))
  else epG level (h id) crs

/-- the rotation key of a party -/
def rotKeyFor (rks : RotKeySet (GalKey C)) (r : ℕ) (id : String) : ℕ → PolyQP C :=
  match rks.get id r with
  | .ok k => k.value.val
  | .error _ => fun _ => PolyQP.zero

/-- what a rotation needs in order not to panic; `r` is the normalized amount -/
structure RotHyp (crs : GoMap ℤ (Swk C)) (level : ℕ) (ctIn : Ct C) (r : ℕ) (rks : RotKeySet (GalKey C)) (out : Ct C) (a : Swk C) : Prop where
  lvl : level < C.nQ
  inp : ctIn.Coeff level
  res : out.AtLevel level
  ids : out.ids = ctIn.ids
  keys : ∀ id ∈ ctIn.ids, ∃ key, rks.get id r = .ok key ∧ C.beta level ≤ key.value.len
  crsA : crs.lookup (r : ℤ) = some a ∧ C.beta level ≤ a.len

theorem Go.loop_congr {σ α : Type*} {f g : σ → α → Go σ} (h : ∀ s a, f s a = g s a) (s : σ) (l : List α) :
    Go.loop f s l = Go.loop g s l := by
  have : f = g := funext fun s => funext fun a => h s a
  rw [this]

/-- the permutation of all components -/
theorem permuteAll_ok (V : C.Valid) {level g : ℕ} (hl : level < C.nQ) (hg : Odd g) (hgl : g < 2 * N) (S : Scratch C) {out out' : Ct C}
    (hout : out.AtLevel level) {R : String → QRows C} (hR : Ct.Upd level out R out') (l : List String) (hnd : l.Nodup)
    (hm : ∀ id ∈ l, id ∈ out) :
    ∃ out'' S', permuteAll S level g l out' = .ok (out'', S') ∧
      Ct.Upd level out (fun id => if id ∈ l then fun i => permL (C.q i) g (R id i) else R id) out'' := by
  unfold permuteAll
  obtain ⟨⟨out2, S2⟩, e1, e2⟩ := Go.loop_inv (fun (st : Ct C × Scratch C) id => do
    let p ← st.1.deref id
    p.need level
    let S := { st.2 with q0 := permRows level g p.rows st.2.q0 }
    (.ok (st.1.insert id (p.copy (pool0Poly S)), S) : Go (Ct C × Scratch C)))
    (fun pre st => Ct.Upd level out (fun id => if id ∈ pre then fun i => permL (C.q i) g (R id i) else R id) st.1)
    l (out', S) (by simpa using hR) (by
      rintro pre id suf ⟨out2, S2⟩ hl' hI
      have hpre : id ∉ pre := nodup_split hnd hl'
      obtain ⟨p, hp⟩ := Ct.get (hm id (by rw [hl']; simp))
      have hlen := hout.len id p hp
      have h1 := hI.get hp
      dsimp only at h1
      dsimp only
      rw [GoMap.deref_ok h1, bind_ok, Poly.need_ok (by show level < p.len; omega), bind_ok]
      refine ⟨_, rfl, ?_⟩
      · dsimp only
        rw [permRows_eq V hg hgl]
        rw [Poly.copy_set (level := level) (by exact hlen) (by exact hout.coeff id p hp) (by exact hl)]
        refine (hI.insert hp h1 _).congr ?_
        intro id' _ i hi
        by_cases e : id' = id
        · subst e
          rw [Function.update_self]
          simp only [pool0Poly]
          rw [setQ_le _ _ hi, if_pos (mem_append_singleton'.mpr (.inl rfl))]
          simp only [Poly.set]
          rw [setQ_le _ _ hi, if_neg hpre]
        · rw [Function.update_of_ne e]
          simp only [mem_append_singleton', e, false_or])
  exact ⟨out2, S2, e1, e2⟩

variable {crs : GoMap ℤ (Swk C)} {level : ℕ} {ctIn out : Ct C} {r : ℕ} {rks : RotKeySet (GalKey C)} {a : Swk C}

/-- **what a rotation writes** -/
theorem rotateWith_run (V : C.Valid) (o : Sched String) (S : Scratch C) (h : Option (HoistedCt C)) {rot : ℤ}
    (hr : adjustIdx N rot = r) (H : RotHyp crs level ctIn r rks out a) (hh : HoistOK level ctIn h) :
    ∃ out' S', rotateWith crs o S ctIn rot h rks out = .ok (out', S') ∧
      Ct.Upd level out (fun id i => permL (C.q i) (galElCol N r)
        (rotPre level ctIn.ids (ctIn.comp "0") (digitsFor level ctIn h) (rotKeyFor rks r) a.val id i)) out' := by
  obtain ⟨ids, a1, a2⟩ := IDSet.ofCiphertext_spec (o 20) ctIn
  have hids : ∀ id, ids.has id = true ↔ id ∈ ctIn.ids := fun id => by rw [a2, Ct.mem_ids]
  obtain ⟨p0, hp0⟩ := Ct.get H.res.has0
  obtain ⟨c0, hc0⟩ := Ct.get H.inp.has0
  have hl0 := H.res.len _ _ hp0
  have hl1 := H.inp.len _ _ hc0
  have hlk : (crs.lookup (adjustIdx N rot) : Option (Swk C)) = crs.lookup (r : ℤ) :=
    congrArg (fun k : ℤ => (crs.lookup k : Option (Swk C))) hr
  unfold rotateWith Ct.level
  simp only [GoMap.deref_ok hp0, GoMap.deref_ok hc0, bind_ok, a1, hl0, Nat.add_sub_cancel, hr, Int.toNat_natCast]
  rw [if_neg (by omega)]
  set pre0 : String → QRows C := rotPre level ctIn.ids (ctIn.comp "0") (digitsFor level ctIn h) (rotKeyFor rks r) a.val with hpre0
  have hc : ctIn.comp "0" = c0.rows := H.inp.comp hc0
  have hcopy : p0.copy c0 = p0.set level (ctIn.comp "0") := by
    rw [hc]; exact Poly.copy_set hl0 (by rw [H.res.coeff _ _ hp0, H.inp.coeff _ _ hc0]) hl1
  obtain ⟨R0, hR0⟩ := Ct.Upd.refl level out
  have hU := hR0.insert hp0 hp0 (ctIn.comp "0")
  rw [hcopy]
  have lk : ∀ id ∈ ctIn.ids, ∃ p, out.lookup id = some p := fun id hid =>
    Ct.get (Ct.mem_ids.mp (H.ids ▸ hid)).1
  obtain ⟨⟨out2, S2⟩, e1, R2, e2, e3, e4⟩ := Go.loop_inv (rotateStep level ctIn r h rks (crs.lookup (r : ℤ)))
    (fun pre st => ∃ R', Ct.Upd level out R' st.1 ∧
      (if pre = [] then R' "0" = ctIn.comp "0" else ∀ i ≤ level, (R' "0" i).Canon ∧ cf (R' "0" i) = cf (ctIn.comp "0" i) +
        (pre.map fun id => cf (epG level (digitsFor level ctIn h id) (rotKeyFor rks r id) i)).sum) ∧
      ∀ id ∈ pre, ∀ i ≤ level, R' id i = epG level (digitsFor level ctIn h id) a.val i)
    (GoMap.range (o 21) ids.value) (out.insert "0" (p0.set level (ctIn.comp "0")), S)
    ⟨_, hU, by simp, by simp⟩ (by
      rintro pre id suf ⟨out2, S2⟩ hl' ⟨R', i1, i2, i3⟩
      have hpre : id ∉ pre := nodup_split (GoMap.nodup_range _ _) hl'
      have hid : id ∈ ctIn.ids := by
        rw [← hids, ← IDSet.mem_value_iff, ← GoMap.mem_range (o := o 21), hl']; simp
      have hne : id ≠ "0" := (Ct.mem_ids.mp hid).2
      obtain ⟨key, k1, k2⟩ := H.keys id hid
      have hkey : rotKeyFor rks r id = key.value.val := by unfold rotKeyFor; rw [k1]
      obtain ⟨p, hp⟩ := lk id hid
      have hlen := H.res.len _ _ hp
      obtain ⟨S3, -, x1⟩ := extProd_ok V S2 H.lvl (digOK_of H.inp hh hid) key.value k2 S2.q0
      set w1 := setQ level (epG level (digitsFor level ctIn h id) key.value.val) S2.q0 with hw1
      obtain ⟨out3, u1, u2⟩ := i1.upd hp0 (by omega) (fun i old => (C.RQ i).add old (w1 i))
      have g1 := u2.get hp
      rw [Function.update_of_ne hne] at g1
      obtain ⟨S4, -, x2⟩ := extProd_ok V { S3 with q0 := w1 } H.lvl (digOK_of H.inp hh hid) a H.crsA.2 (p.set level (R' id)).rows
      refine ⟨(out3.insert id ((p.set level (R' id)).set level (epG level (digitsFor level ctIn h id) a.val)), S4), ?_, _,
        u2.insert hp g1 _, ?_, fun id' hid' i hi => ?_⟩
      · unfold rotateStep
        rw [k1, bind_ok, x1, bind_ok]
        dsimp only
        rw [u1, bind_ok, H.crsA.1]
        simp only [orNil, bind_ok]
        rw [GoMap.deref_ok g1, bind_ok, Poly.need_ok (by show level < p.len; omega), bind_ok, x2]
        rfl
      · rw [if_neg (by simp)]
        intro i hi
        rw [Function.update_of_ne hne.symm, Function.update_self, hw1, setQ_le _ _ hi]
        have ep := (epG_spec V H.lvl (digitsFor level ctIn h id) key.value.val).1 i hi
        refine ⟨LimbOps.add_canon _ _ _ (.inr ep), ?_⟩
        rw [LimbOps.cf_add]
        by_cases hn : pre = []
        · rw [if_pos hn] at i2
          rw [i2, hn]; simp [hkey]
        · rw [if_neg hn] at i2
          rw [(i2 i hi).2]; simp [hkey, add_assoc]
      · by_cases e : id' = id
        · subst e; rw [Function.update_self]
        · have hmem := (mem_append_singleton'.mp hid').resolve_left e
          have hz : id' ≠ "0" := by
            have : id' ∈ ctIn.ids := by
              rw [← hids, ← IDSet.mem_value_iff, ← GoMap.mem_range (o := o 21), hl']; simp [hmem]
            exact (Ct.mem_ids.mp this).2
          rw [Function.update_of_ne e, Function.update_of_ne hz]
          exact i3 id' hmem i hi)
  have hR2 : ∀ id ∈ out, ∀ i ≤ level, R2 id i = pre0 id i := by
    intro id hid i hil
    have f0 : (GoMap.range (o 21) ids.value).toFinset = ctIn.ids := by
      ext id; rw [List.mem_toFinset, GoMap.mem_range, IDSet.mem_value_iff, hids]
    rw [hpre0]; unfold rotPre
    by_cases hz : id = "0"
    · subst hz
      rw [if_pos rfl]
      by_cases hn : GoMap.range (o 21) ids.value = []
      · rw [if_pos hn] at e3
        rw [hn] at f0
        rw [if_pos (by rw [← f0]; rfl), e3]
      · rw [if_neg hn] at e3
        rw [if_neg]
        · apply cf_inj (e3 i hil).1 (LimbOps.ofCf_canon _ _)
          rw [(e3 i hil).2, LimbOps.cf_ofCf, ← List.sum_toFinset _ (GoMap.nodup_range _ _), f0]
        · intro he; rw [he, List.toFinset_eq_empty_iff] at f0; exact hn f0
    · rw [if_neg hz]
      have : id ∈ ctIn.ids := H.ids ▸ Ct.mem_ids.mpr ⟨hid, hz⟩
      exact e4 id (List.mem_toFinset.mp (f0 ▸ this)) i hil
  have hUp := e2.congr hR2
  obtain ⟨out3, S3, z1, z2⟩ := permuteAll_ok V H.lvl (galElCol_odd N r) (galElCol_lt (Nat.pos_of_ne_zero (NeZero.ne N)) r) S2 H.res hUp
    (GoMap.range (o 22) ctIn) (GoMap.nodup_range _ _) (fun id hid => by
      rw [GoMap.mem_range] at hid
      by_cases hz : id = "0"
      · rw [hz]; exact H.res.has0
      · exact (Ct.mem_ids.mp (H.ids ▸ Ct.mem_ids.mpr ⟨hid, hz⟩)).1)
  refine ⟨out3, S3, ?_, z2.congr fun id hid i _ => ?_⟩
  · rw [hlk, e1, bind_ok]; exact z1
  · have : id ∈ GoMap.range (o 22) ctIn := by
      rw [GoMap.mem_range]
      by_cases hz : id = "0"
      · rw [hz]; exact H.inp.has0
      · exact (Ct.mem_ids.mp (H.ids ▸ Ct.mem_ids.mpr ⟨hid, hz⟩)).1
    rw [if_pos this]


/-! ## conjugation -/

/-- a component after the automorphism -/
def conjIn (ctIn : Ct C) (id : String) : QRows C := fun i => (C.RQ i).permute (galElRow N) (ctIn.comp id i)

/-- the conjugation key of a party -/
def conjKeyFor (cks : KeySet (GalKey C)) (id : String) : ℕ → PolyQP C :=
  match cks.value.lookup id with
  | some k => k.value.val
  | none => fun _ => PolyQP.zero

/-- rows of the conjugation result -/
noncomputable def conjOut (level : ℕ) (ctIn : Ct C) (cks : KeySet (GalKey C)) (a : ℕ → PolyQP C) (id : String) : QRows C :=
  if id = "0" then (if ctIn.ids = ∅ then conjIn ctIn "0" else fun i => (C.RQ i).ofCf (cf (conjIn ctIn "0" i) +
    ∑ id ∈ ctIn.ids, cf (epG level (digs level (conjIn ctIn id)) (conjKeyFor cks id) i)))
  else epG level (digs level (conjIn ctIn id)) a

/-- what a conjugation needs in order not to panic -/
structure ConjHyp (crs : GoMap ℤ (Swk C)) (level : ℕ) (ctIn : Ct C) (cks : KeySet (GalKey C)) (out : Ct C) (a : Swk C) : Prop where
  lvl : level < C.nQ
  inp : ctIn.Coeff level
  res : out.AtLevel level
  ids : out.ids = ctIn.ids
  keys : ∀ id ∈ ctIn.ids, ∃ key, cks.value.lookup id = some key ∧ C.beta level ≤ key.value.len
  crsA : crs.lookup (-2) = some a ∧ C.beta level ≤ a.len

theorem conjugate_run (V : C.Valid) (o : Sched String) (S : Scratch C) {cks : KeySet (GalKey C)}
    (H : ConjHyp crs level ctIn cks out a) :
    ∃ out' S', conjugate level crs o S ctIn cks out = .ok (out', S') ∧ Ct.Upd level out (conjOut level ctIn cks a.val) out' := by
  obtain ⟨ids, a1, a2⟩ := IDSet.ofCiphertext_spec (o 30) ctIn
  have hids : ∀ id, ids.has id = true ↔ id ∈ ctIn.ids := fun id => by rw [a2, Ct.mem_ids]
  obtain ⟨p0, hp0⟩ := Ct.get H.res.has0
  obtain ⟨c0, hc0⟩ := Ct.get H.inp.has0
  have hl0 := H.res.len _ _ hp0
  have hl1 := H.inp.len _ _ hc0
  have inout : ∀ id, id ∈ ctIn ↔ id ∈ out := by
    intro id
    by_cases hz : id = "0"
    · subst hz; exact ⟨fun _ => H.res.has0, fun _ => H.inp.has0⟩
    · have h1 : id ∈ out.ids ↔ id ∈ ctIn.ids := by rw [H.ids]
      rw [Ct.mem_ids, Ct.mem_ids] at h1
      tauto
  unfold conjugate Ct.level
  simp only [GoMap.deref_ok hp0, GoMap.deref_ok hc0, bind_ok, a1, hl0, Nat.add_sub_cancel]
  rw [if_neg (by omega)]
  -- permutation
  obtain ⟨R0, hR0⟩ := Ct.Upd.refl level out
  obtain ⟨out1, e1, R1, e2, e3⟩ := Go.loop_inv (fun (out : Ct C) id => do
      let a ← ctIn.deref id
      let b ← GoMap.deref out id
      let b ← ringPermute level (galElRow N) a b
      (.ok (out.insert id b) : Go (Ct C)))
    (fun pre out' => ∃ R', Ct.Upd level out R' out' ∧ ∀ id ∈ pre, ∀ i ≤ level, R' id i = conjIn ctIn id i)
    (GoMap.range (o 31) ctIn) out ⟨R0, hR0, by simp⟩ (by
      rintro pre id suf out2 hl' ⟨R', i1, i2⟩
      have hid : id ∈ ctIn := by rw [← GoMap.mem_range (o := o 31), hl']; simp
      obtain ⟨p, hp⟩ := Ct.get ((inout id).mp hid)
      obtain ⟨c, hc⟩ := Ct.get hid
      have hlen := H.res.len _ _ hp
      have hlc := H.inp.len _ _ hc
      have g1 := i1.get hp
      refine ⟨_, ?_, _, i1.insert hp g1 (conjIn ctIn id), ?_⟩
      · rw [GoMap.deref_ok hc, bind_ok, GoMap.deref_ok g1, bind_ok]
        unfold ringPermute
        rw [Poly.need_ok hlc, bind_ok, Poly.need_ok (by show level < p.len; omega), bind_ok, bind_ok]
        unfold conjIn
        rw [H.inp.comp hc]; rfl
      · intro id' hid' i hi
        by_cases e : id' = id
        · subst e; rw [Function.update_self]
        · rw [Function.update_of_ne e]; exact i2 id' ((mem_append_singleton'.mp hid').resolve_left e) i hi)
  rw [e1, bind_ok]
  have hR1 : ∀ id ∈ out, ∀ i ≤ level, R1 id i = conjIn ctIn id i := fun id hid i hi =>
    e3 id (GoMap.mem_range.mpr ((inout id).mpr hid)) i hi
  -- the keys
  obtain ⟨⟨out2, S2⟩, f1, R2, f2, f3, f4⟩ := Go.loop_inv (conjStep0 level cks)
    (fun pre st => ∃ R', Ct.Upd level out R' st.1 ∧
      (if pre = [] then ∀ i ≤ level, R' "0" i = conjIn ctIn "0" i else ∀ i ≤ level, (R' "0" i).Canon ∧
        cf (R' "0" i) = cf (conjIn ctIn "0" i) +
        (pre.map fun id => cf (epG level (digs level (conjIn ctIn id)) (conjKeyFor cks id) i)).sum) ∧
      ∀ id ∈ out, id ≠ "0" → ∀ i ≤ level, R' id i = conjIn ctIn id i)
    (GoMap.range (o 32) ids.value) (out1, S) ⟨R1, e2, by simpa using hR1 "0" H.res.has0, fun id hid _ => hR1 id hid⟩ (by
      rintro pre id suf ⟨out3, S3⟩ hl' ⟨R', i1, i2, i3⟩
      have hid : id ∈ ctIn.ids := by
        rw [← hids, ← IDSet.mem_value_iff, ← GoMap.mem_range (o := o 32), hl']; simp
      have hne : id ≠ "0" := (Ct.mem_ids.mp hid).2
      obtain ⟨key, k1, k2⟩ := H.keys id hid
      have hkey : conjKeyFor cks id = key.value.val := by unfold conjKeyFor; rw [k1]
      have hio := (inout id).mp (Ct.mem_ids.mp hid).1
      obtain ⟨p, hp⟩ := Ct.get hio
      have hlen := H.res.len _ _ hp
      have g1 := i1.get hp
      have hcoe : (p.set level (R' id)).isNTT = false := H.res.coeff _ p hp
      obtain ⟨S4, -, x1⟩ := externalProduct_ok V S3 H.lvl (a := p.set level (R' id)) (by show level < p.len; omega) key.value k2 S3.q0
      have hdg : epG level (digs level (p.set level (R' id)).coeffs) key.value.val = epG level (digs level (conjIn ctIn id)) key.value.val := by
        refine epG_congr V (fun k hk => ?_) (fun k _ => PolyQP.Agree.refl _ _)
        unfold digs
        rw [digG_congr V H.lvl hk (a' := conjIn ctIn id)]
        · exact PolyQP.Agree.refl _ _
        · intro i hi
          rw [Poly.coeffs_eq hcoe]
          show setQ level (R' id) p.rows i = _
          rw [setQ_le _ _ hi]; exact i3 id hio hne i hi
      rw [hdg] at x1
      set w1 := setQ level (epG level (digs level (conjIn ctIn id)) key.value.val) S3.q0 with hw1
      obtain ⟨out4, u1, u2⟩ := i1.upd hp0 (by omega) (fun i old => (C.RQ i).add old (w1 i))
      refine ⟨(out4, { S4 with q0 := w1 }), ?_, _, u2, ?_, fun id' hid' hz i hi => ?_⟩
      · unfold conjStep0 KeySet.get
        rw [k1]
        simp only [bind_ok]
        rw [GoMap.deref_ok g1, bind_ok, x1, bind_ok]
        dsimp only
        rw [u1, bind_ok]
      · rw [if_neg (by simp)]
        intro i hi
        rw [Function.update_self, hw1, setQ_le _ _ hi]
        have ep := (epG_spec V H.lvl (digs level (conjIn ctIn id)) key.value.val).1 i hi
        refine ⟨LimbOps.add_canon _ _ _ (.inr ep), ?_⟩
        rw [LimbOps.cf_add]
        by_cases hn : pre = []
        · rw [if_pos hn] at i2
          rw [i2 i hi, hn]; simp [hkey]
        · rw [if_neg hn] at i2
          rw [(i2 i hi).2]; simp [hkey, add_assoc]
      · rw [Function.update_of_ne hz]; exact i3 id' hid' hz i hi)
  rw [f1, bind_ok]
  -- the CRS
  obtain ⟨⟨out5, S5⟩, z1, R5, z2, z3, z4, z5⟩ := Go.loop_inv (conjStep1 level (crs.lookup (-2)))
    (fun pre st => ∃ R', Ct.Upd level out R' st.1 ∧ (∀ i ≤ level, R' "0" i = R2 "0" i) ∧
      (∀ id ∈ pre, ∀ i ≤ level, R' id i = epG level (digs level (conjIn ctIn id)) a.val i) ∧
      ∀ id ∉ pre, R' id = R2 id)
    (GoMap.range (o 33) ids.value) (out2, S2) ⟨R2, f2, fun _ _ => rfl, by simp, fun _ _ => rfl⟩ (by
      rintro pre id suf ⟨out3, S3⟩ hl' ⟨R', i1, i2, i3, i4⟩
      have hpre : id ∉ pre := nodup_split (GoMap.nodup_range _ _) hl'
      have hid : id ∈ ctIn.ids := by
        rw [← hids, ← IDSet.mem_value_iff, ← GoMap.mem_range (o := o 33), hl']; simp
      have hne : id ≠ "0" := (Ct.mem_ids.mp hid).2
      have hio := (inout id).mp (Ct.mem_ids.mp hid).1
      obtain ⟨p, hp⟩ := Ct.get hio
      have hlen := H.res.len _ _ hp
      have g1 := i1.get hp
      have hcoe : (p.set level (R' id)).isNTT = false := H.res.coeff _ p hp
      obtain ⟨S4, -, x1⟩ := externalProduct_ok V S3 H.lvl (a := p.set level (R' id)) (by show level < p.len; omega) a H.crsA.2 S3.q0
      have hdg : epG level (digs level (p.set level (R' id)).coeffs) a.val = epG level (digs level (conjIn ctIn id)) a.val := by
        refine epG_congr V (fun k hk => ?_) (fun k _ => PolyQP.Agree.refl _ _)
        unfold digs
        rw [digG_congr V H.lvl hk (a' := conjIn ctIn id)]
        · exact PolyQP.Agree.refl _ _
        · intro i hi
          rw [Poly.coeffs_eq hcoe]
          show setQ level (R' id) p.rows i = _
          rw [setQ_le _ _ hi, i4 id hpre]; exact f4 id hio hne i hi
      rw [hdg] at x1
      refine ⟨(AList.insert id (Poly.set level (setQ level (epG level (digs level (conjIn ctIn id)) a.val) S3.q0) (Poly.set level (R' id) p)) out3, { S4 with q0 := setQ level (epG level (digs level (conjIn ctIn id)) a.val) S3.q0 }), ?_, _, i1.insert hp g1 (setQ level (epG level (digs level (conjIn ctIn id)) a.val) S3.q0), ?_, ?_, ?_⟩
      · unfold conjStep1
        rw [GoMap.deref_ok g1, bind_ok, H.crsA.1]
        simp only [orNil, bind_ok]
        rw [x1, bind_ok]
        rw [Poly.copy_set (level := level) (by exact hlen) (by exact hcoe) (by exact H.lvl)]
        rfl
      · intro i hi; rw [Function.update_of_ne hne.symm]; exact i2 i hi
      · intro id' hid' i hi
        by_cases e : id' = id
        · subst e; rw [Function.update_self, setQ_le _ _ hi]
        · rw [Function.update_of_ne e]; exact i3 id' ((mem_append_singleton'.mp hid').resolve_left e) i hi
      · intro id' hid'
        have hh := mt mem_append_singleton'.mpr hid'
        push Not at hh
        rw [Function.update_of_ne hh.1]; exact i4 id' hh.2)
  refine ⟨out5, S5, z1, z2.congr fun id hid i hi => ?_⟩
  unfold conjOut
  by_cases hz : id = "0"
  · subst hz
    have f0 : (GoMap.range (o 32) ids.value).toFinset = ctIn.ids := by
      ext id; rw [List.mem_toFinset, GoMap.mem_range, IDSet.mem_value_iff, hids]
    rw [if_pos rfl, z3 i hi]
    by_cases hn : GoMap.range (o 32) ids.value = []
    · rw [if_pos hn] at f3
      rw [hn] at f0
      rw [if_pos (by rw [← f0]; rfl), f3 i hi]
    · rw [if_neg hn] at f3
      rw [if_neg]
      · apply cf_inj (f3 i hi).1 (LimbOps.ofCf_canon _ _)
        rw [(f3 i hi).2, LimbOps.cf_ofCf, ← List.sum_toFinset _ (GoMap.nodup_range _ _), f0]
      · intro he; rw [he, List.toFinset_eq_empty_iff] at f0; exact hn f0
  · rw [if_neg hz]
    refine z4 id ?_ i hi
    rw [GoMap.mem_range, IDSet.mem_value_iff, hids, ← H.ids]
    exact Ct.mem_ids.mpr ⟨hid, hz⟩

end MKHE
