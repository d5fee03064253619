import Verif.Props.HeapSumCkks
import Verif.Props.HeapLevel
import Verif.Props.Crypt

set_option autoImplicit false

/-!
# A concrete heap that meets the hypotheses of the theorems about sharing

Four ciphertexts at level 2: `0` and `1` are ciphertexts of "a" that share the polynomial with address 1; `2` is the evaluator's pool; `3` has
the parties "a" and "b". Polynomial 7 is a plaintext.
-/

namespace MKHE.Ex
open MKHE Finset Nega Heap
variable (fm : FloatModel)

/-- the maps of the four ciphertexts -/
def hMap (c : ℕ) : GoMap String ℕ :=
  if c = 0 then AList.insert "a" 1 (AList.insert "0" 0 ∅)
  else if c = 1 then AList.insert "a" 1 (AList.insert "0" 2 ∅)
  else if c = 2 then AList.insert "0" 3 ∅
  else AList.insert "b" 6 (AList.insert "a" 5 (AList.insert "0" 4 ∅))

/-- the heap: polynomial `p` owns the rows `3p`, `3p+1`, `3p+2` -/
def heap : Heap 16 where
  row a := fun t => a * t + a + 1
  poly p := ⟨[3 * p, 3 * p + 1, 3 * p + 2], false⟩
  ct := hMap
  nrow := 24
  npoly := 8
  nct := 4

theorem heap_wf : WF heap where
  rowB p hp a ha := by
    change p < 8 at hp
    simp only [heap, List.mem_cons, List.not_mem_nil, or_false] at ha ⊢
    omega
  ctB c hc id p h := by
    have key : ∀ (m : GoMap String ℕ), (∀ id p, m.lookup id = some p → p < 8) → ∀ id' p', p' < 8 → ∀ id p, (m.insert id' p').lookup id = some p → p < 8 := by
      intro m hm id' p' hp' id p h
      rw [GoMap.lookup_insert'] at h
      split_ifs at h
      · cases h; exact hp'
      · exact hm id p h
    have k0 : ∀ id p, (∅ : GoMap String ℕ).lookup id = some p → p < 8 := fun id p h => by cases h
    have : ∀ id p, (hMap c).lookup id = some p → p < 8 := by
      unfold hMap
      split_ifs
      · exact key _ (key _ k0 _ _ (by norm_num)) _ _ (by norm_num)
      · exact key _ (key _ k0 _ _ (by norm_num)) _ _ (by norm_num)
      · exact key _ k0 _ _ (by norm_num)
      · exact key _ (key _ (key _ k0 _ _ (by norm_num)) _ _ (by norm_num)) _ _ (by norm_num)
    exact this id p h
  own p _ q _ a h1 h2 := by
    simp only [heap, List.mem_cons, List.not_mem_nil, or_false] at h1 h2
    omega
  nodup p _ := by
    simp [heap]

theorem hMap_look (c : ℕ) (id : String) : (hMap c).lookup id =
    if c = 0 then (if id = "a" then some 1 else if id = "0" then some 0 else none)
    else if c = 1 then (if id = "a" then some 1 else if id = "0" then some 2 else none)
    else if c = 2 then (if id = "0" then some 3 else none)
    else (if id = "b" then some 6 else if id = "a" then some 5 else if id = "0" then some 4 else none) := by
  unfold hMap
  have k : (∅ : GoMap String ℕ).lookup id = none := rfl
  split_ifs <;> simp only [GoMap.lookup_insert', k, *] <;> rfl

theorem mem_hMap {c : ℕ} {id : String} : id ∈ hMap c ↔ id = "0" ∨ (c ≠ 2 ∧ id = "a") ∨ (c ≠ 0 ∧ c ≠ 1 ∧ c ≠ 2 ∧ id = "b") := by
  rw [GoMap.mem_iff_lookup, hMap_look]
  split_ifs <;> simp_all

theorem heap_at (c : ℕ) : (value (ctx fm) heap c).AtLevel 2 := by
  refine ⟨value_mem.mpr ?_, fun id p h => ?_, fun id p h => ?_⟩
  · exact mem_hMap.mpr (Or.inl rfl)
  all_goals
    rw [value_lookup] at h
    obtain ⟨q, -, rfl⟩ := Option.map_eq_some_iff.mp h
    rfl

theorem heap_ids : (value (ctx fm) heap 3).ids = {"a", "b"} := by
  ext id
  rw [value_ids]
  show id ∈ hMap 3 ∧ _ ↔ _
  rw [mem_hMap, mem_insert, mem_singleton]
  constructor
  · rintro ⟨h | h | h, hz⟩
    · exact absurd h hz
    · exact Or.inl h.2
    · exact Or.inr h.2.2.2
  · rintro (rfl | rfl)
    · exact ⟨Or.inr (Or.inl ⟨by norm_num, rfl⟩), by decide⟩
    · exact ⟨Or.inr (Or.inr ⟨by norm_num, by norm_num, by norm_num, rfl⟩), by decide⟩

/-- ciphertexts 0 and 1 share a polynomial -/
example : (heap.ct 0).lookup "a" = some 1 ∧ (heap.ct 1).lookup "a" = some 1 := ⟨by show (hMap 0).lookup _ = _; rw [hMap_look]; rfl, by
  show (hMap 1).lookup _ = _; rw [hMap_look]; rfl⟩

theorem heap_distinct (c : ℕ) : Distinct heap c := by
  intro id id' p h1 h2
  change (hMap c).lookup _ = _ at h1 h2
  rw [hMap_look] at h1 h2
  split_ifs at h1 h2 <;> simp_all <;> omega

theorem heap_apart {c d : ℕ} (h : c ≠ 0 ∧ c ≠ 1 ∧ c < 4) (hd : d < c) : Apart heap c d := by
  intro id id' p h1 h2
  change (hMap c).lookup _ = _ at h1
  change (hMap d).lookup _ = _ at h2
  rw [hMap_look] at h1 h2
  obtain ⟨a, b, e⟩ := h
  have : c = 2 ∨ c = 3 := by omega
  have : d = 0 ∨ d = 1 ∨ d = 2 := by omega
  split_ifs at h1 h2 <;> simp_all <;> omega

theorem heap_shape : C23.HShape (ctx fm) heap 2 ⟨0, 2⟩ ⟨1, 10⟩ 2 2 where
  wf := heap_wf
  lt0 := by show 2 < 3; norm_num
  lt1 := by show 2 < 3; norm_num
  in0 := by show 0 < 4; norm_num
  in1 := by show 1 < 4; norm_num
  inp := by show 2 < 4; norm_num
  h0 := heap_at fm 0
  h1 := heap_at fm 1
  hpool := heap_at fm 2
  dist := heap_distinct 2
  ap0 := heap_apart (by omega) (by norm_num)
  ap1 := heap_apart (by omega) (by norm_num)
  r0 := by
    show ⌊fm.div 10 2⌋ < 2 ^ 52
    have : fm.div 10 2 = 5 := by
      have := fm.exact_nat 5 (by norm_num)
      unfold FloatModel.div
      norm_num at this ⊢
      exact this
    rw [this]; norm_num
  r1 := by
    show ⌊fm.div 2 10⌋ < 2 ^ 52
    have : fm.div 2 10 ≤ 1 := by
      have h1 := fm.exact_nat 1 (by norm_num)
      unfold FloatModel.div
      refine (fm.mono _ 1 (by norm_num)).trans_eq ?_
      simpa using h1
    have : ⌊fm.div 2 10⌋ ≤ ⌊(1 : ℚ)⌋ := Int.floor_le_floor this
    norm_num at this ⊢
    omega

/-- C07 -/
example (o : Order String) := C07.newCiphertext (C := ctx fm) o (ids := ⟨AList.insert "a" () ∅⟩) (by
    unfold IDSet.has
    rw [GoMap.lookup_insert']; rfl) 1 heap_wf
/-- C08 -/
example (o : Order String) := C08.copyNew_deep (C := ctx fm) o heap_wf (c := 1) (by show 1 < 4; norm_num) (value_mem.mp (heap_at fm 1).has0)
/-- C08: copy the pool's "0" into ciphertext 3, which has more components -/
example (o : Order String) := C08.copy_value (C := ctx fm) o heap_wf (dst := 3) (src := 2) (by show 3 < 4; norm_num) (by show 2 < 4; norm_num)
  (fun id h => by
    change id ∈ hMap 2 at h
    show id ∈ hMap 3
    rw [mem_hMap] at h ⊢
    rcases h with h | h | h
    · exact Or.inl h
    · exact absurd rfl h.1
    · exact absurd rfl h.2.2.1) (heap_distinct 3) (heap_apart (by omega) (by norm_num))
/-- C08: copying ciphertext 3 into ciphertext 0 panics, because "b" is missing there -/
example (o : Order String) : Heap.copy o heap 0 3 = .error .nilDeref :=
  C08.copy_panics o (id := "b") (by show "b" ∈ hMap 3; rw [mem_hMap]; simp) (by show "b" ∉ hMap 0; rw [mem_hMap]; simp)
/-- C09 -/
example (o1 o2 : Order String) := C09.pad_value (C := ctx fm) o1 o2 heap_wf (c := 2) (by show 2 < 4; norm_num) (P0 := heap.view (ctx fm) 3)
  (by rw [value_lookup]; show ((hMap 2).lookup "0").map _ = _; rw [hMap_look]; rfl) (level := 2) rfl
  (ids := ⟨AList.insert "b" () (AList.insert "a" () ∅)⟩) (by
    unfold IDSet.has
    rw [GoMap.lookup_insert', GoMap.lookup_insert']; rfl)
/-- C20 -/
example (o : Sched String) := C20.decrypt_leaves_input (C := ctx fm) heap_wf (c := 3) (pt := 7) (by show 3 < 4; norm_num) (by show 7 < 8; norm_num)
  (by show 0 < 3; norm_num) (fun id h => by
    change (hMap 3).lookup _ = _ at h
    rw [hMap_look] at h
    split_ifs at h <;> simp_all) (heap_at fm 3).toFlag (by show 2 < 3; norm_num) (by rw [heap_ids]; exact sks_of fm) o
/-- C22: the operands share a polynomial; and an operand may be used twice -/
example (o : Sched String) := C22.heap_addNew_phase (C := ctx fm) o heap_wf (c0 := 0) (c1 := 1) (by show 0 < 4; norm_num) (by show 1 < 4; norm_num)
  (heap_at fm 0) (heap_at fm 1)
example (o : Sched String) := C22.heap_subNew_phase (C := ctx fm) o heap_wf (c0 := 1) (c1 := 1) (by show 1 < 4; norm_num) (by show 1 < 4; norm_num)
  (heap_at fm 1) (heap_at fm 1)
/-- C23 -/
example (psi : ℕ → ℕ → ℕ) (o : Sched String) := C23.heap_addNew_phase (by norm_num) psi o (heap_shape fm)
example (psi : ℕ → ℕ → ℕ) (o : Sched String) := C23.heap_subNew_phase (by norm_num) psi o (heap_shape fm)
/-- C26 -/
example (o o' : Order String) := C26.heap_dropLevelNew_phase (C := ctx fm) o o' heap_wf (c := ⟨1, 5⟩) (by show 1 < 4; norm_num) (heap_at fm 1) (k := 1)
  (by norm_num)
/-- C28 -/
example (o : Sched String) := C28.heap_rescaleNew (C := ctx fm) o heap_wf (c := ⟨1, 40000⟩) (by show 1 < 4; norm_num) (heap_at fm 1) (thr := 100)
  (by norm_num) (by norm_num) (by norm_num) (by norm_num) (C27.exCount fm)

/-- C52: the calls do return, so that the frame theorems are not vacuous -/
theorem fresh_example (psi : ℕ → ℕ → ℕ) (o : Sched String) : ∃ r h', Heap.ckksAddNew (ctx fm) psi o heap 2 ⟨0, 2⟩ ⟨1, 10⟩ = .ok (r, h') ∧
    C52.Fresh (C52.polysOf heap 2) {2} heap r.ct h' ∧ value (ctx fm) h' 3 = value (ctx fm) heap 3 := by
  obtain ⟨r, h', e, -⟩ := C23.heap_addNew_phase (by norm_num) psi o (heap_shape fm)
  have F := C52.ckksAddNew_fresh heap_wf (by show 2 < 4; norm_num) e
  refine ⟨r, h', e, F, (F.unchanged heap_wf (by show 3 < 4; norm_num) (by simp) ?_).1⟩
  rintro id p h ⟨id', h'⟩
  exact heap_apart (c := 3) (d := 2) (by omega) (by norm_num) id id' p h h'

end MKHE.Ex
