import Verif.Props.HeapProg
import Verif.Props.HeapExample
import Verif.Props.CkksExample

set_option autoImplicit false

/-!
# C63: a concrete heap whose registers share memory

Registers 0 and 1 are ciphertexts with a polynomial in common, register 2 is the same pointer as register 0, register 3 has the parties "a" and "b"; the
evaluator's pool is ciphertext 2 of the heap.
-/

namespace MKHE.CEx
open MKHE Finset Nega Ex Heap C59 C63
variable (fm : FloatModel)

/-- two registers that are the same pointer, and two that share a polynomial -/
def regs : List HCt := [⟨0, 200⟩, ⟨1, 200⟩, ⟨0, 200⟩, ⟨3, 200⟩]

/-- calls on operands that share memory -/
def hprog : List Instr := [.add 0 1, .mul 0 2, .mul 0 1, .rot 3 (-5), .sub 1 2, .hoist 1, .mulH 1 1 0 0, .drop 0 1, .mulPt 2 0, .add 4 3,
  .const 2 (.flt (5 / 2)), .rescale 13 100]

variable (S : Sys (ctx fm)) (h100 : S.pscale = 100) (hU : S.U = {"a", "b"})

include hU in
/-- every register encrypts something -/
theorem reg_any (c : ℕ) : ∃ v i, i.level = 2 ∧ i.scale = 200 ∧ Approx S (C23.hval (ctx fm) heap ⟨c, 200⟩) v i := by
  obtain ⟨v, B, h⟩ := approx_any (S := S) (valid fm) (ct := C23.hval (ctx fm) heap ⟨c, 200⟩) (l := 2) (by show 2 < 3; norm_num) (heap_at fm c)
    (by show (0 : ℚ) < 200; norm_num) (by
      intro id hid
      obtain ⟨h1, h2⟩ := value_ids.mp hid
      rw [hU, mem_insert, mem_singleton]
      rcases mem_hMap.mp h1 with h | h | h
      · exact absurd h h2
      · exact .inl h.2
      · exact .inr h.2.2.2)
  exact ⟨v, _, rfl, rfl, h⟩

include h100 hU in
/-- the program runs on the shared heap, leaves every register as it was and computes what it would compute on separate ciphertexts -/
theorem hprog_runs (o : ℕ → ℕ → Sched String) (hS : S.Ok) {st : St (ctx fm)} (hst : st.Ready S) :
    ∃ A : Abs 16, HRel S ⟨heap, 2, st, regs, []⟩ A ∧ ProgOk S (env fm o) pts A hprog ∧
      ∃ M', hrun S (env fm o) 0 ⟨heap, 2, st, regs, []⟩ hprog = .ok M' ∧ HRel S M' (execs S (env fm o) pts A hprog) ∧
        (∀ c ∈ regs, value (ctx fm) M'.h c.ct = value (ctx fm) heap c.ct) ∧ M'.cts.length = 15 := by
  obtain ⟨v0, i0, a0, b0, c0⟩ := reg_any fm S hU 0
  obtain ⟨v1, i1, a1, b1, c1⟩ := reg_any fm S hU 1
  obtain ⟨v3, i3, a3, b3, c3⟩ := reg_any fm S hU 3
  have hrel : HRel S ⟨heap, 2, st, regs, []⟩ ⟨[(v0, i0), (v1, i1), (v0, i0), (v3, i3)], []⟩ := by
    refine ⟨heap_wf, by show 2 < 4; norm_num, heap_at fm 2, heap_distinct 2, hst, fun c hc => ?_, fun c hc d hd _ => ?_,
      .cons c0 (.cons c1 (.cons c0 (.cons c3 .nil))), .nil⟩
    · have : c.ct = 0 ∨ c.ct = 1 ∨ c.ct = 3 := by
        simp only [regs, List.mem_cons, List.not_mem_nil, or_false] at hc
        rcases hc with rfl | rfl | rfl | rfl <;> simp
      rcases this with e | e | e <;> rw [e]
      · exact ⟨by show 0 < 4; norm_num, heap_apart (c := 2) (by omega) (by norm_num)⟩
      · exact ⟨by show 1 < 4; norm_num, heap_apart (c := 2) (by omega) (by norm_num)⟩
      · exact ⟨by show 3 < 4; norm_num, C23.Apart.symm (heap_apart (by omega) (by norm_num))⟩
    · simp only [regs, List.mem_cons, List.not_mem_nil, or_false] at hc hd
      rcases hc with rfl | rfl | rfl | rfl <;> rcases hd with rfl | rfl | rfl | rfl <;> rfl
  have hm := mulOk fm S h100
  have hmul : ∀ i j : Info, i.level = 2 → j.level = 2 → i.scale = 200 → j.scale = 200 → MulOk S (min i.level j.level) (fm.mul i.scale j.scale) := by
    intro i j h1 h2 h3 h4; rw [h1, h2, h3, h4]; exact hm
  have hok : ProgOk S (env fm o) pts ⟨[(v0, i0), (v1, i1), (v0, i0), (v3, i3)], []⟩ hprog := by
    refine ⟨⟨?_, ?_, addOk_self fm (x := 200) (by norm_num) i0 i1 b0 b1⟩, ⟨?_, ?_, hmul i0 i0 a0 a0 b0 b0⟩, ⟨?_, ?_, hmul i0 i1 a0 a1 b0 b1⟩, ?_,
      ⟨?_, ?_, addOk_self fm (x := 200) (by norm_num) i1 i0 b1 b0⟩, ?_, ⟨?_, ?_, rfl, rfl, hmul i1 i1 a1 a1 b1 b1⟩, ⟨?_, ?_⟩, ⟨?_, ?_⟩,
      ⟨?_, ?_, addOk_self fm (x := 200) (by norm_num) (i0.add fm i1) i3 ?_ b3⟩, ⟨?_, .flt _⟩, ⟨?_, ?_⟩, trivial⟩
    all_goals first
      | (show _ < List.length _; simp [exec, Abs.push]; done)
      | skip
    · show 1 ≤ i0.level; omega
    · show MulOk S i0.level (fm.mul i0.scale 200); rw [a0, b0]; exact hm
    · show max i0.scale i1.scale = 200; rw [b0, b1]; simp
    · show RescaleOk (ctx fm) i0.level (fm.mul i0.scale (C25.scaleOf fm ((ctx fm).q i0.level) (.flt (5 / 2)))) 100
      rw [a0, b0]; exact rescaleOk fm
  obtain ⟨M', r1, r2, r3⟩ := C63.program (valid fm) hS (pts_ok fm o) hprog 0 hrel hok
  exact ⟨_, hrel, hok, M', r1, r2, fun c hc => r3.2 c hc, by rw [r2.cts.length_eq]; simp [execs, exec, hprog, Abs.push]⟩

/-- with the keys that the key generator makes, and stale scratch memory -/
theorem hprog_ex (o : ℕ → ℕ → Sched String) : ∃ w, setup (crs fm) err sec sec' rots (kg fm) ["a", "b"] = .ok w ∧
    ∃ M', hrun ⟨crs fm, w.rlk, w.rks, KeySet.new, 100, ["a", "b"].toFinset, sec, sec', crsv fm 5, 2, 2, 2, 37442⟩ (env fm o) 0
        ⟨heap, 2, ⟨eval fm, w.rlk⟩, regs, []⟩ hprog = .ok M' ∧ (∀ c ∈ regs, value (ctx fm) M'.h c.ct = value (ctx fm) heap c.ct) ∧ M'.cts.length = 15 := by
  obtain ⟨w, w1, w2, -, -, w5⟩ := setup_ex fm
  obtain ⟨A, -, -, M', r1, -, r3, r4⟩ := hprog_runs fm _ rfl (by simp) o (w2 KeySet.new) (st := ⟨eval fm, w.rlk⟩) ⟨eval_ready fm, rfl, w5⟩
  exact ⟨w, w1, M', r1, r3, r4⟩

end MKHE.CEx
