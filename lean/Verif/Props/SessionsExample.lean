import Verif.Props.Sessions
import Verif.Props.CkksExample

set_option autoImplicit false

/-!
# C69: two clients of one evaluator, a concrete run
-/

namespace MKHE.CEx
open MKHE Finset Nega Ex C69

variable (fm : FloatModel)

/-- two clients make the calls of `prog`, taking turns -/
def turns : List (Bool × C59.Instr) := prog.flatMap fun c => [(true, c), (false, c)]

theorem calls_turns (k : Bool) : calls k turns = prog := by cases k <;> rfl

/-- Keys are generated for two parties and one client encrypts; both clients start from that ciphertext and share one evaluator with stale scratch memory. Each of them
ends with the 12 ciphertexts it would have got alone on the evaluator `ev`. -/
theorem turns_ex (us : ℕ → Nega 16 ℤ) (hus : ∀ n, Bdd (us n) 1) (st : Enc (ctx fm)) (o o' : ℕ → ℕ → Sched String) (oe : Sched String) (ev : Eval (ctx fm)) (hev : ev.Ready) :
    ∃ w ct O' S, setup (crs fm) err sec sec' rots (kg fm) ["a", "b"] = .ok w ∧
      serve S (env fm o) 0 (⟨⟨eval fm, w.rlk⟩, fun _ => [ct], fun _ => []⟩ : Office (ctx fm) Bool) turns = .ok O' ∧
      ∀ k, ∃ Y, C59.run S (env fm o') 7 ⟨⟨ev, w.rlk⟩, [ct], []⟩ prog = .ok Y ∧ Y.cts.length = 12 ∧ List.Forall₂ CSame (O'.cts k) Y.cts := by
  obtain ⟨w, w1, w2, w3, w4, w5⟩ := setup_ex fm
  obtain ⟨pk, e, p1, p2, p3, p4⟩ := w4 "a" (by simp)
  have hS := w2 KeySet.new
  set S : C59.Sys (ctx fm) := ⟨crs fm, w.rlk, w.rks, KeySet.new, 100, ["a", "b"].toFinset, sec, sec', crsv fm 5, 2, 2, 2, 37442⟩ with hSdef
  obtain ⟨ct, st', c1, c2⟩ := C59.encrypt (S := S) (valid fm) hS oe us err st (pt := poly fm 3 5) (l := 2) rfl (by show 2 < 3; norm_num)
    (scale := 200) (by norm_num) msg_slots (msg_enc fm) (pk := pk) (by rw [p2]; decide) (by rw [p2]; show "a" ∈ ["a", "b"].toFinset; simp)
    (by rw [p2]; exact p3) hus err_bdd p4
  rw [p2] at c2
  have hready : ∀ ev : Eval (ctx fm), ev.Ready → C59.St.Ready S ⟨ev, w.rlk⟩ := fun ev h => ⟨h, rfl, w5⟩
  have hrel : ∀ ev : Eval (ctx fm), ev.Ready → C59.Rel S ⟨⟨ev, w.rlk⟩, [ct], []⟩ ⟨[(msg, fresh)], []⟩ := fun ev h => ⟨hready ev h, .cons c2 .nil, .nil⟩
  obtain ⟨O', e1, e2⟩ := interleaved (valid fm) hS (pts_ok fm o) turns 0 (O := ⟨⟨eval fm, w.rlk⟩, fun _ => [ct], fun _ => []⟩)
    (A := fun _ => ⟨[(msg, fresh)], []⟩) (fun k => hrel _ (eval_ready fm)) (hready _ (eval_ready fm))
    (fun k => by rw [calls_turns]; exact prog_ok fm S rfl rfl o)
  refine ⟨w, ct, O', S, w1, e1, fun k => ?_⟩
  obtain ⟨Y, y1, y2⟩ := e2 k ⟨ev, w.rlk⟩ (env fm o') 7 (hready ev hev) ⟨rfl, rfl, rfl⟩
  rw [calls_turns] at y1
  obtain ⟨M2, q1, q2⟩ := C59.program (valid fm) hS (pts_ok fm o') prog 7 (hrel ev hev) (prog_ok fm S rfl rfl o')
  have hl := q2.cts.length_eq
  rw [show (⟨⟨ev, w.rlk⟩, [ct], []⟩ : C59.Machine (ctx fm)) = ⟨⟨ev, w.rlk⟩, [ct], []⟩ from rfl] at q1
  have : Y = M2 := Except.ok.inj (y1.symm.trans q1)
  subst this
  exact ⟨Y, y1, hl.trans rfl, y2⟩

end MKHE.CEx
