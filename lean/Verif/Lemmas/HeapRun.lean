import Verif.Props.Heap
import Verif.Props.AddSub

set_option autoImplicit false
set_option linter.unusedSectionVars false

/-!
# The evaluator functions of `Verif/Model/Heap.lean` return, with these results
-/

namespace MKHE
namespace Heap
open Finset
variable {N : ℕ} [NeZero N] {C : Ctx N}

/-- the polynomials of a ciphertext -/
def polysOf (h : Heap N) (c : ℕ) : Set ℕ := {p | ∃ id, (h.ct c).lookup id = some p}

/-- the components of a ciphertext are pairwise distinct polynomials -/
def Distinct (h : Heap N) (c : ℕ) : Prop := ∀ id id' p, (h.ct c).lookup id = some p → (h.ct c).lookup id' = some p → id = id'

/-- two ciphertexts have no polynomial in common -/
def Apart (h : Heap N) (c d : ℕ) : Prop := ∀ id id' p, (h.ct c).lookup id = some p → (h.ct d).lookup id' ≠ some p

/-- from `h`, only the polynomials of `out` were written; `V id` is the effect on component `id` -/
structure Ran (C : Ctx N) (h : Heap N) (out : ℕ) (V : String → Poly C → Poly C) (h' : Heap N) : Prop where
  wf : WF h'
  only : Only (polysOf h out) ∅ h h'
  ct : h'.ct = h.ct
  nct : h'.nct = h.nct
  npoly : h'.npoly = h.npoly
  view : ∀ id p, (h.ct out).lookup id = some p → h'.view C p = V id (h.view C p)

/-- a step that rewrites polynomial `p` -/
structure Step (C : Ctx N) (h : Heap N) (p : ℕ) (P : Poly C) (h' : Heap N) : Prop where
  wf : WF h'
  only : Only {p} ∅ h h'
  ct : h'.ct = h.ct
  nct : h'.nct = h.nct
  npoly : h'.npoly = h.npoly
  view : h'.view C p = P

theorem Ran.start {h : Heap N} (W : WF h) (out : ℕ) : Ran C h out (fun _ P => P) h :=
  ⟨W, Only.refl _ _ _, rfl, rfl, rfl, fun _ _ _ => rfl⟩

/-- views of other polynomials are unchanged -/
theorem Ran.other {h h' : Heap N} {out : ℕ} {V : String → Poly C → Poly C} (R : Ran C h out V h') {p : ℕ} (hp : p < h.npoly)
    (hn : p ∉ polysOf h out) : h'.view C p = h.view C p := R.only.view hp hn

theorem Ran.congr {h h' : Heap N} {out : ℕ} {V V' : String → Poly C → Poly C} (R : Ran C h out V h')
    (hV : ∀ id p, (h.ct out).lookup id = some p → V id (h.view C p) = V' id (h.view C p)) : Ran C h out V' h' :=
  ⟨R.wf, R.only, R.ct, R.nct, R.npoly, fun id p hp => (R.view id p hp).trans (hV id p hp)⟩

theorem Ran.trans {h h1 h2 : Heap N} {out : ℕ} {V V' : String → Poly C → Poly C} (R : Ran C h out V h1) (R' : Ran C h1 out V' h2) :
    Ran C h out (fun id P => V' id (V id P)) h2 := by
  have e : polysOf h1 out = polysOf h out := by unfold polysOf; rw [R.ct]
  refine ⟨R'.wf, R.only.trans (by rw [← e]; exact R'.only), R'.ct.trans R.ct, R'.nct.trans R.nct, R'.npoly.trans R.npoly, fun id p hp => ?_⟩
  rw [R'.view id p (by rw [R.ct]; exact hp), R.view id p hp]

/-- one component rewritten -/
theorem Ran.one {h h' : Heap N} (W : WF h) {out : ℕ} (ho : out < h.nct) (hd : Distinct h out) {a : String} {p : ℕ} (hp : (h.ct out).lookup a = some p) {P : Poly C}
    (S : Step C h p P h') : Ran C h out (fun id Q => if id = a then P else Q) h' := by
  refine ⟨S.wf, S.only.mono (fun x hx => ⟨a, by rw [Set.mem_singleton_iff] at hx; rw [hx]; exact hp⟩) subset_rfl, S.ct, S.nct, S.npoly, fun id q hq => ?_⟩
  by_cases hi : id = a
  · subst hi
    rw [hp] at hq
    cases hq
    rw [if_pos rfl, S.view]
  · rw [if_neg hi]
    exact S.only.view (W.ctB out ho id q hq) (fun e => hi (hd id a p (by rw [← e]; exact hq) hp))

/-- a loop over components of `out`, each step of which rewrites its component -/
theorem loop_run {h : Heap N} (W : WF h) {out : ℕ} (ho : out < h.nct) (hd : Distinct h out) {f : Heap N → String → Go (Heap N)}
    (V : String → Poly C → Poly C) {l : List String} (hnd : l.Nodup) (hl : ∀ id ∈ l, id ∈ h.ct out)
    (hstep : ∀ s V', Ran C h out V' s → ∀ id ∈ l, ∀ p, (h.ct out).lookup id = some p → s.view C p = h.view C p →
      ∃ s', f s id = .ok s' ∧ Step C s p (V id (h.view C p)) s') :
    ∃ h', Go.loop f h l = .ok h' ∧ Ran C h out (fun id P => if id ∈ l then V id P else P) h' := by
  obtain ⟨h', e1, e2⟩ := Go.loop_inv f (fun pre s => Ran C h out (fun id P => if id ∈ pre then V id P else P) s) l h
    ((Ran.start W out).congr fun id p _ => by simp) (by
      rintro pre a suf s e R
      have ha : a ∈ l := by rw [e]; simp
      have hpre : a ∉ pre := fun hm => by
        rw [e] at hnd
        exact (List.nodup_append.mp hnd).2.2 a hm a (by simp) rfl
      obtain ⟨p, hp⟩ := Option.isSome_iff_exists.mp (GoMap.mem_iff_lookup.mp (hl a ha))
      obtain ⟨s', e1, S⟩ := hstep s _ R a ha p hp (by rw [R.view a p hp, if_neg hpre])
      have hps : (s.ct out).lookup a = some p := by rw [R.ct]; exact hp
      have hds : Distinct s out := by unfold Distinct; rw [R.ct]; exact hd
      refine ⟨s', e1, (R.trans (Ran.one R.wf (by rw [R.nct]; exact ho) hds hps S)).congr fun id q hq => ?_⟩
      by_cases hi : id = a
      · subst hi
        rw [hp] at hq
        cases hq
        rw [if_pos rfl, if_pos (by simp)]
      · rw [if_neg hi]
        simp [hi])
  exact ⟨h', e1, e2⟩

theorem view_row {h : Heap N} {p i : ℕ} (hi : i < h.len p) : rd C i (h.row (h.addr p i)) = (h.view C p).rows i :=
  (if_pos hi).symm

/-- a binary ring function on typed rows -/
theorem lift2_run {h : Heap N} (W : WF h) {level : ℕ} (f : ∀ i, Limb N (C.q i) → Limb N (C.q i) → Limb N (C.q i)) {a b c : ℕ}
    (ha : a < h.npoly) (hb : b < h.npoly) (hc : c < h.npoly) (la : level < h.len a) (lb : level < h.len b) (lc : level < h.len c) :
    ∃ h', h.polyOp level (lift2 f) a b c = .ok h' ∧
      Step C h c ((h.view C c).set level fun i => f i ((h.view C a).rows i) ((h.view C b).rows i)) h' := by
  obtain ⟨h', e1, e2, e3, e4, e5, e6, e7⟩ := polyOp_run C W (lift2 f) ha hb hc la lb lc
  refine ⟨h', e1, e2, e3, e4, e5, e6, e7.trans (Poly.set_congr (fun i hi => ?_) _)⟩
  show rd C i (wr _) = _
  rw [rd_wr, view_row (by omega), view_row (by omega)]

theorem lift1_run {h : Heap N} (W : WF h) {level : ℕ} (f : ∀ i, Limb N (C.q i) → Limb N (C.q i)) {a c : ℕ}
    (ha : a < h.npoly) (hc : c < h.npoly) (la : level < h.len a) (lc : level < h.len c) :
    ∃ h', h.polyOp level (lift1 f) a a c = .ok h' ∧ Step C h c ((h.view C c).set level fun i => f i ((h.view C a).rows i)) h' := by
  obtain ⟨h', e1, e2, e3, e4, e5, e6, e7⟩ := polyOp_run C W (lift1 f) ha ha hc la la lc
  refine ⟨h', e1, e2, e3, e4, e5, e6, e7.trans (Poly.set_congr (fun i hi => ?_) _)⟩
  show rd C i (wr _) = _
  rw [rd_wr, view_row (by omega)]

theorem copyLvl_run {h : Heap N} (W : WF h) {level : ℕ} {a c : ℕ}
    (ha : a < h.npoly) (hc : c < h.npoly) (la : level < h.len a) (lc : level < h.len c) :
    ∃ h', h.copyLvl level c a = .ok h' ∧ Step C h c ((h.view C c).set level (h.view C a).rows) h' := by
  obtain ⟨h', e1, e2, e3, e4, e5, e6, e7⟩ := polyOp_run C W (fun _ r _ => r) ha ha hc la la lc
  exact ⟨h', e1, e2, e3, e4, e5, e6, e7.trans (Poly.set_congr (fun i hi => view_row (by omega)) _)⟩

theorem polyCopy_run {h : Heap N} (W : WF h) {a c : ℕ} (ha : a < h.npoly) (hc : c < h.npoly) :
    Step C h c ((h.view C c).copy (h.view C a)) (h.polyCopy c a) := by
  obtain ⟨a1, a2, a3, a4, a5⟩ := polyCopy_inv (q := a) W hc
  exact ⟨a1, a2, a3, a4, a5, view_polyCopy W hc ha⟩

/-! ## evaluateInPlace -/

/-- the entry of a ciphertext -/
theorem Coeff_entry {h : Heap N} {c level : ℕ} (W : WF h) (hc : c < h.nct) (H : (value C h c).Coeff level) {id : String} (hid : id ∈ h.ct c) :
    ∃ p, (h.ct c).lookup id = some p ∧ p < h.npoly ∧ level < h.len p ∧ (h.view C p).isNTT = false ∧ (value C h c).comp id = (h.view C p).rows := by
  obtain ⟨p, hp⟩ := Option.isSome_iff_exists.mp (GoMap.mem_iff_lookup.mp hid)
  have hv : (value C h c).lookup id = some (h.view C p) := by rw [value_lookup, hp]; rfl
  have hn := H.coeff id _ hv
  exact ⟨p, hp, W.ctB c hc id p hp, H.len id _ hv, hn, by rw [Ct.comp_eq hv, Poly.coeffs_eq hn]⟩

theorem get_of {h : Heap N} {c : ℕ} {id : String} {p : ℕ} (hp : (h.ct c).lookup id = some p) : h.get c id = .ok p := GoMap.deref_ok hp

/-- the common part of additions and subtractions: the receiver is apart from both operands, which may share polynomials -/
theorem evalCore_run (f : (i : ℕ) → Limb N (C.q i) → Limb N (C.q i) → Limb N (C.q i)) {level : ℕ}
    {cp : Heap N → ℕ → ℕ → Go (Heap N)}
    (hcp : ∀ (s : Heap N) dst src, WF s → dst < s.npoly → src < s.npoly → s.len dst = level + 1 → (s.view C dst).isNTT = false → level < s.len src →
      (s.view C src).isNTT = false → ∃ s', cp s dst src = .ok s' ∧ Step C s dst ((s.view C dst).set level (s.view C src).rows) s')
    (o1 o2 : Order String) {h : Heap N} {t0 t1 out : ℕ} (W : WF h) (l0 : t0 < h.nct) (l1 : t1 < h.nct) (lo : out < h.nct)
    {ids0 ids1 : IDSet} {s0 s1 : Finset String}
    (h0 : ∀ id, ids0.has id = true ↔ id ∈ s0) (h1 : ∀ id, ids1.has id = true ↔ id ∈ s1)
    (ht0 : (value C h t0).Coeff level) (ht1 : (value C h t1).Coeff level) (hs0 : ∀ id ∈ s0, id ∈ h.ct t0) (hs1 : ∀ id ∈ s1, id ∈ h.ct t1)
    (hout : (value C h out).AtLevel level) (hids : (value C h out).ids = s0 ∪ s1) (hd : Distinct h out) (a0 : Apart h out t0) (a1 : Apart h out t1) :
    ∃ h', evalCore (lift2 f) level cp o1 o2 h t0 t1 ids0 ids1 out = .ok h' ∧
      Ran C h out (fun id P => P.set level (evalOut f s0 s1 (value C h t0).comp (value C h t1).comp id)) h' := by
  obtain ⟨a, ha, la, na, -, ca⟩ := Coeff_entry W l0 ht0 (value_mem.mp ht0.has0)
  obtain ⟨b, hb, lb, nb, -, cb⟩ := Coeff_entry W l1 ht1 (value_mem.mp ht1.has0)
  obtain ⟨p, hp, lp, np, -, -⟩ := Coeff_entry W lo hout.toCoeff (value_mem.mp hout.has0)
  obtain ⟨g, e1, S⟩ := lift2_run (C := C) W f la lb lp na nb np
  have R1 := Ran.one W lo hd hp S
  have lo' : out < g.nct := by rw [S.nct]; exact lo
  have hd' : Distinct g out := by unfold Distinct; rw [S.ct]; exact hd
  obtain ⟨ids, i1, i2⟩ := IDSet.ofCiphertext_spec o1 (g.ct out)
  have hmem : ∀ id, id ∈ GoMap.range o2 ids.value ↔ id ∈ s0 ∪ s1 := by
    intro id
    rw [GoMap.mem_range, IDSet.mem_value_iff, i2, S.ct, ← hids, value_ids]
  have hne : ∀ id ∈ s0 ∪ s1, id ∈ h.ct out ∧ id ≠ "0" := fun id hid => value_ids.mp (by rw [hids]; exact hid)
  obtain ⟨h', e2, R2⟩ := loop_run (C := C) S.wf lo' hd' (f := evalStep (lift2 f) level cp t0 t1 ids0 ids1 out)
    (fun id P => P.set level (evalOut f s0 s1 (value C h t0).comp (value C h t1).comp id)) (GoMap.nodup_range o2 ids.value)
    (fun id hid => by rw [S.ct]; exact (hne id ((hmem id).mp hid)).1) (by
      intro s V' R id hid q hq hv
      have hs := (hmem id).mp hid
      have hct : s.ct = h.ct := R.ct.trans S.ct
      have hnp : s.npoly = h.npoly := R.npoly.trans S.npoly
      rw [S.ct] at hq
      have lq : q < s.npoly := by rw [hnp]; exact W.ctB out lo id q hq
      have gq : s.get out id = .ok q := get_of (by rw [hct]; exact hq)
      have hvq : g.view C q = h.view C q := by
        have := R1.view id q hq
        rw [if_neg (hne id hs).2] at this
        exact this
      have hvo : (value C h out).lookup id = some (h.view C q) := by rw [value_lookup, hq]; rfl
      have slen : s.len q = level + 1 := by
        have : (s.view C q).len = level + 1 := by rw [hv, hvq]; exact hout.len id _ hvo
        exact this
      have sntt : (s.view C q).isNTT = false := by rw [hv, hvq]; exact hout.coeff id _ hvo
      have pol : ∀ r, r < h.npoly → r ∉ polysOf h out → s.view C r = h.view C r ∧ s.len r = h.len r := by
        intro r hr hn
        have e : s.view C r = h.view C r := by
          rw [R.other (by rw [S.npoly]; exact hr) (by unfold polysOf; rw [S.ct]; exact hn), R1.other hr hn]
        exact ⟨e, congrArg Poly.len e⟩
      have opnd : ∀ t, t < h.nct → (value C h t).Coeff level → Apart h out t → id ∈ h.ct t → ∃ r, s.get t id = .ok r ∧ r < s.npoly ∧ level < s.len r ∧
          (s.view C r).isNTT = false ∧ (s.view C r).rows = (value C h t).comp id := by
        intro t ht hc hap hid
        obtain ⟨r, r1, r2, r3, r4, r5⟩ := Coeff_entry W ht hc hid
        obtain ⟨v1, v2⟩ := pol r r2 (fun ⟨x, hx⟩ => hap x id r hx r1)
        exact ⟨r, get_of (by rw [hct]; exact r1), by rw [hnp]; exact r2, by rw [v2]; exact r3, by rw [v1]; exact r4, by rw [v1, r5]⟩
      have fin : ∀ {s' : Heap N} {F : QRows C}, Step C s q ((s.view C q).set level F) s' → F = evalOut f s0 s1 (value C h t0).comp (value C h t1).comp id →
          Step C s q ((g.view C q).set level (evalOut f s0 s1 (value C h t0).comp (value C h t1).comp id)) s' := by
        intro s' F hS hF
        rw [hv, hF] at hS
        exact hS
      unfold evalStep
      by_cases c0 : ids0.has id = true
      · have m0 := (h0 id).mp c0
        rw [if_neg (by simp [c0])]
        obtain ⟨x, x1, x2, x3, x4, x5⟩ := opnd t0 l0 ht0 a0 (hs0 id m0)
        by_cases c1 : ids1.has id = true
        · have m1 := (h1 id).mp c1
          rw [if_neg (by simp [c1])]
          obtain ⟨y, y1, y2, y3, y4, y5⟩ := opnd t1 l1 ht1 a1 (hs1 id m1)
          obtain ⟨s', f1, f2⟩ := lift2_run (C := C) R.wf f x2 y2 lq x3 y3 (by omega)
          refine ⟨s', by rw [x1, bind_ok, y1, bind_ok, gq, bind_ok]; exact f1, fin f2 ?_⟩
          unfold evalOut
          rw [if_neg (hne id hs).2, if_neg (not_not.mpr m0), if_neg (not_not.mpr m1), x5, y5]
        · have m1 : id ∉ s1 := fun h => c1 ((h1 id).mpr h)
          rw [if_pos (by simpa using c1)]
          obtain ⟨s', f1, f2⟩ := hcp s q x R.wf lq x2 slen sntt x3 x4
          refine ⟨s', by rw [x1, bind_ok, gq, bind_ok]; exact f1, fin f2 ?_⟩
          unfold evalOut
          rw [if_neg (hne id hs).2, if_neg (not_not.mpr m0), if_pos m1, x5]
      · have m0 : id ∉ s0 := fun h => c0 ((h0 id).mpr h)
        have m1 : id ∈ s1 := (mem_union.mp hs).resolve_left m0
        rw [if_pos (by simpa using c0)]
        obtain ⟨y, y1, y2, y3, y4, y5⟩ := opnd t1 l1 ht1 a1 (hs1 id m1)
        obtain ⟨s', f1, f2⟩ := hcp s q y R.wf lq y2 slen sntt y3 y4
        refine ⟨s', by rw [y1, bind_ok, gq, bind_ok]; exact f1, fin f2 ?_⟩
        unfold evalOut
        rw [if_neg (hne id hs).2, if_pos m0, y5])
  refine ⟨h', ?_, (R1.trans R2).congr fun id q hq => ?_⟩
  · unfold evalCore
    rw [get_of ha, bind_ok, get_of hb, bind_ok, get_of hp, bind_ok, e1, bind_ok]
    unfold Heap.idSet
    rw [i1, bind_ok]
    exact e2
  · by_cases hz : id = "0"
    · subst hz
      rw [hp] at hq
      cases hq
      rw [if_neg (fun hm => (hne _ ((hmem _).mp hm)).2 rfl), if_pos rfl]
      refine Poly.set_congr (fun i _ => ?_) _
      unfold evalOut
      rw [if_pos rfl, ca, cb]
    · rw [if_pos ((hmem id).mpr (by rw [← hids]; exact value_ids.mpr ⟨GoMap.mem_iff_lookup.mpr (by rw [hq]; rfl), hz⟩)), if_neg hz]

/-- the negation loop of the subtractions -/
theorem negNew_run {level : ℕ} (o1 o2 o3 : Order String) {h : Heap N} {op0 out : ℕ} (W : WF h) (lo : out < h.nct)
    (hout : (value C h out).AtLevel level) (hd : Distinct h out) :
    ∃ h', negNew C level o1 o2 o3 h op0 out = .ok h' ∧ Ran C h out (fun id P => P.set level
      (if id ∈ (value C h op0).ids ∨ id = "0" then (value C h out).comp id else fun i => (C.RQ i).neg ((value C h out).comp id i))) h' := by
  obtain ⟨ids0, a1, a2⟩ := IDSet.ofCiphertext_spec o1 (h.ct op0)
  obtain ⟨ids, b1, b2⟩ := IDSet.ofCiphertext_spec o2 (h.ct out)
  have hmem : ∀ id, id ∈ GoMap.range o3 ids.value ↔ id ∈ h.ct out ∧ id ≠ "0" := by
    intro id
    rw [GoMap.mem_range, IDSet.mem_value_iff, b2]
  have h0 : ∀ id, ids0.has id = true ↔ id ∈ (value C h op0).ids := fun id => by rw [a2, value_ids]
  have ent : ∀ id q, (h.ct out).lookup id = some q → h.len q = level + 1 ∧ (value C h out).comp id = (h.view C q).rows := by
    intro id q hq
    have hvo : (value C h out).lookup id = some (h.view C q) := by rw [value_lookup, hq]; rfl
    exact ⟨hout.len id _ hvo, by rw [Ct.comp_eq hvo, Poly.coeffs_eq (hout.coeff id _ hvo)]⟩
  have hself : ∀ P : Poly C, P.set level P.rows = P := by
    intro P
    unfold Poly.set setQ
    simp
  obtain ⟨h', e2, R2⟩ := loop_run (C := C) W lo hd (f := negStep C level ids0 out)
    (fun id P => P.set level (if id ∈ (value C h op0).ids then P.rows else fun i => (C.RQ i).neg (P.rows i))) (GoMap.nodup_range o3 ids.value)
    (fun id hid => ((hmem id).mp hid).1) (by
      intro s V' R id hid q hq hv
      have lq : q < s.npoly := by rw [R.npoly]; exact W.ctB out lo id q hq
      have gq : s.get out id = .ok q := get_of (by rw [R.ct]; exact hq)
      have slen : s.len q = level + 1 := by
        have : (s.view C q).len = level + 1 := by rw [hv]; exact (ent id q hq).1
        exact this
      unfold negStep
      by_cases c0 : ids0.has id = true
      · rw [if_neg (by simp [c0]), if_pos ((h0 id).mp c0), hself]
        exact ⟨s, rfl, R.wf, Only.refl _ _ _, rfl, rfl, rfl, hv⟩
      · rw [if_pos (by simpa using c0), if_neg (fun h => c0 ((h0 id).mpr h))]
        obtain ⟨s', f1, f2⟩ := lift1_run (C := C) R.wf (fun i => (C.RQ i).neg) lq lq (level := level) (by omega) (by omega)
        rw [hv] at f2
        exact ⟨s', by rw [gq, bind_ok]; exact f1, f2⟩)
  refine ⟨h', ?_, R2.congr fun id q hq => ?_⟩
  · unfold negNew Heap.idSet
    rw [a1, bind_ok, b1, bind_ok]
    exact e2
  · have hm : id ∈ h.ct out := GoMap.mem_iff_lookup.mpr (by rw [hq]; rfl)
    rw [(ent id q hq).2]
    by_cases hz : id = "0"
    · rw [if_neg (fun h => ((hmem id).mp h).2 hz), if_pos (Or.inr hz), hself]
    · rw [if_pos ((hmem id).mpr ⟨hm, hz⟩)]
      by_cases h1 : id ∈ (value C h op0).ids
      · rw [if_pos h1, if_pos (Or.inl h1)]
      · rw [if_neg h1, if_neg (by tauto)]

theorem Ran.upd {h h' : Heap N} {out level : ℕ} {F : String → QRows C} (R : Ran C h out (fun id P => P.set level (F id)) h') :
    Ct.Upd level (value C h out) F (value C h' out) := by
  intro id
  rw [value_lookup, value_lookup, R.ct]
  cases hq : (h.ct out).lookup id with
  | none => rfl
  | some q => show some _ = some _; rw [R.view id q hq]

/-- a ciphertext apart from the written one keeps its value -/
theorem Ran.value_other {h h' : Heap N} {out : ℕ} {V : String → Poly C → Poly C} (W : WF h) (R : Ran C h out V h') {c : ℕ} (hc : c < h.nct)
    (ha : Apart h out c) : value C h' c = value C h c :=
  R.only.value W hc (by simp) (fun id p hp ⟨x, hx⟩ => ha x id p hx hp)

end Heap
end MKHE
