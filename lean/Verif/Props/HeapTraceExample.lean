import Verif.Props.HeapTrace
import Verif.Props.HeapProgExample

set_option autoImplicit false

/-!
# C76: a panic in the middle of a call, on a concrete heap

`ConjugateNew` on register 3, whose parties are "a" and "b", with an empty set of conjugation keys: the result is allocated, the components are permuted into it,
and then the missing key makes the call panic. The client recovers and runs the program of `Props/HeapProgExample.lean`.
-/

namespace MKHE
namespace C76
open Heap C59 C63 TG
variable {N : ℕ} [NeZero N] {C : Ctx N}

theorem lift_ok_writes {α β : Type} (a : α) (f : α → TG N β) : ((liftM (Except.ok a : Go α) : TG N α) >>= f).writes = (f a).writes := rfl

/-- without the key of a party, `ConjugateNew` on the heap panics -/
theorem conjugateNew_missing {l : ℕ} {crs : GoMap ℤ (Swk C)} {o : Sched String} {E : Eval C} {c : HCt} {cks : KeySet (GalKey C)} {h : Heap N} {id : String}
    (hm : id ∈ h.ct c.ct) (h0 : id ≠ "0") (hc : c.ct < h.nct) (W : WF h) (hmiss : cks.value.lookup id = none) :
    ∃ e, Heap.ckksConjugateNew l crs o E c cks h = .error e := by
  cases hok : Heap.ckksConjugateNew l crs o E c cks h with
  | error e => exact ⟨e, rfl⟩
  | ok res =>
    exfalso
    obtain ⟨ids0, -, hok⟩ := Go.bind_ok hok
    obtain ⟨lv, -, hok⟩ := Go.bind_ok hok
    obtain ⟨r, hok, -⟩ := Go.bind_ok hok
    have Md := (newCt_spec (C := C) (o 64) ids0 lv W).1
    obtain ⟨level, -, hok⟩ := Go.bind_ok hok
    obtain ⟨ids, a1, hok⟩ := Go.bind_ok hok
    obtain ⟨ids', b1, b2⟩ := IDSet.ofCiphertext_spec (o 30) ((newCt (o 64) ids0 lv h).2.ct c.ct)
    cases Except.ok.inj (a1.symm.trans b1)
    obtain ⟨lin, -, hok⟩ := Go.bind_ok hok
    split at hok
    · cases hok
    obtain ⟨h1, -, hok⟩ := Go.bind_ok hok
    obtain ⟨st, hl, -⟩ := Go.bind_ok hok
    have hm' : id ∈ GoMap.range (o 32) ids.value := by
      rw [GoMap.mem_range, IDSet.mem_value_iff, b2, Md.only.ct _ hc (by simp)]
      exact ⟨hm, h0⟩
    obtain ⟨t, t', ht⟩ := Go.loop_all hl id hm'
    obtain ⟨ck, hk, -⟩ := Go.bind_ok ht
    unfold KeySet.get at hk
    rw [hmiss] at hk
    cases hk

/-- there is a moment in `ConjugateNew` at which a new ciphertext is on the heap, also if the call panics later -/
theorem conjugateNew_moment {l : ℕ} {crs : GoMap ℤ (Swk C)} {o : Sched String} {E : Eval C} {c : HCt} {cks : KeySet (GalKey C)} {h : Heap N} (W : WF h)
    {lv : ℕ} (hl : h.level c.ct = .ok lv) : ∃ g, Write.During h (ckksConjugateNewT l crs o E c cks h).writes g ∧ g.nct = h.nct + 1 := by
  obtain ⟨ids, e1, -⟩ := IDSet.ofCiphertext_spec (o 63) (h.ct c.ct)
  have e2 : h.idSet (o 63) c.ct = .ok ids := e1
  have r := newCtT_runs (h0 := h) (Wp := ∅) (Wc := ∅) (o := o 64) (ids := ids) (level := lv) (Ok.start W)
  have Md := (newCt_spec (C := C) (o 64) ids lv W).1
  have ew : ∃ rest, (ckksConjugateNewT l crs o E c cks h).writes = (newCtT (o 64) ids lv h).writes ++ rest := by
    unfold ckksConjugateNewT
    rw [e2, hl]
    exact ⟨_, rfl⟩
  obtain ⟨rest, ew⟩ := ew
  refine ⟨Write.replay h (newCtT (o 64) ids lv h).writes, ?_, ?_⟩
  · rw [ew]
    exact During.left (During.stop _ _)
  · rw [← r.final _ (newCtT_res ..)]
    exact Md.nct

end C76

namespace CEx
open MKHE Finset Nega Ex Heap C59 C63
variable (fm : FloatModel) (S : Sys (ctx fm)) (h100 : S.pscale = 100) (hU : S.U = {"a", "b"})

include h100 hU in
/-- the call panics; there is a moment at which the memory is not what it was; and after a recovery at any moment the program of C63 runs as if the call
had not been made, whatever the evaluator's buffers contain -/
theorem panic_then (o : ℕ → ℕ → Sched String) (hS : S.Ok) (hk : S.cks = KeySet.new) {st : St (ctx fm)} (hst : st.Ready S) :
    (∃ e, hstep S (env fm o) 7 ⟨heap, 2, st, regs, []⟩ (.conj 3) = .error e) ∧
      (∃ g, Write.During heap (C76.tstep S (env fm o) 7 ⟨heap, 2, st, regs, []⟩ (.conj 3)).writes g ∧ g.nct = heap.nct + 1) ∧
      ∀ g st', Write.During heap (C76.tstep S (env fm o) 7 ⟨heap, 2, st, regs, []⟩ (.conj 3)).writes g → st'.Ready S →
        (∀ c ∈ regs, value (ctx fm) g c.ct = value (ctx fm) heap c.ct) ∧
        ∃ A : Abs 16, HRel S ⟨heap, 2, st, regs, []⟩ A ∧
          ∃ M', hrun S (env fm o) 8 ⟨g, 2, st', regs, []⟩ hprog = .ok M' ∧ HRel S M' (execs S (env fm o) pts A hprog) ∧ M'.cts.length = 15 := by
  obtain ⟨A, r1, r2, M1, -, r3, -, r4⟩ := hprog_runs fm S h100 hU o hS hst
  have h3 : regs[3]? = some ⟨3, 200⟩ := rfl
  have hl : heap.level 3 = .ok 2 := by
    rw [level_value (C := ctx fm)]
    exact (heap_at fm 3).level
  refine ⟨?_, ?_, fun g st' hg hst' => ?_⟩
  · obtain ⟨e, he⟩ := C76.conjugateNew_missing (C := ctx fm) (l := (env fm o).perm 2) (crs := S.crs) (o := (env fm o).o 7 0) (E := st.ev) (c := ⟨3, 200⟩)
      (cks := S.cks) (h := heap) (id := "b") (mem_hMap.mpr (by norm_num)) (by decide) (by show 3 < 4; norm_num) heap_wf (by rw [hk]; rfl)
    refine ⟨e, ?_⟩
    show (hstep S (env fm o) 7 ⟨heap, 2, st, regs, []⟩ (.conj 3)) = _
    simp only [hstep]
    unfold fetch
    rw [h3, bind_ok]
    dsimp only
    rw [hl, bind_ok, he]
    rfl
  · obtain ⟨g, g1, g2⟩ := C76.conjugateNew_moment (C := ctx fm) (l := (env fm o).perm 2) (crs := S.crs) (o := (env fm o).o 7 0) (E := st.ev) (c := ⟨3, 200⟩)
      (cks := S.cks) (h := heap) heap_wf hl
    refine ⟨g, ?_, g2⟩
    have : ∃ rest, (C76.tstep S (env fm o) 7 ⟨heap, 2, st, regs, []⟩ (.conj 3)).writes =
        (ckksConjugateNewT ((env fm o).perm 2) S.crs ((env fm o).o 7 0) st.ev ⟨3, 200⟩ S.cks heap).writes ++ rest := by
      refine ⟨TG.next (fun r => TG.ok ((⟨heap, 2, st, regs, []⟩ : HMachine (ctx fm)).push r.1.1 r.2 r.1.2 st.rlk))
        (ckksConjugateNewT ((env fm o).perm 2) S.crs ((env fm o).o 7 0) st.ev ⟨3, 200⟩ S.cks heap).res, ?_⟩
      have h3' : fetch regs 3 = .ok ⟨3, 200⟩ := rfl
      simp only [C76.tstep]
      rw [h3', C76.lift_ok_writes, hl, C76.lift_ok_writes]
      rfl
    obtain ⟨rest, this⟩ := this
    rw [this]
    exact During.left g1
  · obtain ⟨a1, a2⟩ := C76.aborted _ _ 7 r1 (.conj 3) hg hst'
    obtain ⟨M', s1, s2, -⟩ := C63.program (valid fm) hS (pts_ok fm o) hprog 8 a1 r2
    exact ⟨a2.2, A, r1, M', s1, s2, by rw [s2.cts.length_eq, ← r3.cts.length_eq]; exact r4⟩

/-- with the keys that the key generator makes -/
theorem panic_then_ex (o : ℕ → ℕ → Sched String) : ∃ w, setup (crs fm) err sec sec' rots (kg fm) ["a", "b"] = .ok w ∧
    ∀ S : Sys (ctx fm), S = ⟨crs fm, w.rlk, w.rks, KeySet.new, 100, ["a", "b"].toFinset, sec, sec', crsv fm 5, 2, 2, 2, 37442⟩ →
    (∃ e, hstep S (env fm o) 7 ⟨heap, 2, ⟨eval fm, w.rlk⟩, regs, []⟩ (.conj 3) = .error e) ∧
      ∃ g, Write.During heap (C76.tstep S (env fm o) 7 ⟨heap, 2, ⟨eval fm, w.rlk⟩, regs, []⟩ (.conj 3)).writes g ∧ g.nct = heap.nct + 1 ∧
        ∃ M', hrun S (env fm o) 8 ⟨g, 2, ⟨eval fm, w.rlk⟩, regs, []⟩ hprog = .ok M' ∧ M'.cts.length = 15 := by
  obtain ⟨w, w1, w2, -, -, w5⟩ := setup_ex fm
  refine ⟨w, w1, fun S hS => ?_⟩
  subst hS
  obtain ⟨p1, ⟨g, p2, p3⟩, p4⟩ := panic_then fm _ rfl (by simp) o (w2 KeySet.new) rfl (st := ⟨eval fm, w.rlk⟩) ⟨eval_ready fm, rfl, w5⟩
  obtain ⟨-, A, -, M', q1, -, q2⟩ := p4 g ⟨eval fm, w.rlk⟩ p2 ⟨eval_ready fm, rfl, w5⟩
  exact ⟨p1, g, p2, p3, M', q1, q2⟩

end CEx
end MKHE
