import Verif.Props.BfvProg
import Verif.Props.BfvExample

set_option autoImplicit false

/-!
# C69: three clients of one BFV evaluator, a concrete run
-/

namespace MKHE.BEx
open MKHE Finset Nega Ex C69

variable (fm : FloatModel)

/-- `(x + y) * rotate(y, 1)`, its square, its conjugate, a difference -/
def bprog : List BInstr := [.add 0 1, .rot 1 1, .mul 2 3, .mul 4 4, .conj 4, .sub 0 6]

/-- three clients making these calls in rounds -/
def rounds : List (Fin 3 × BInstr) := bprog.flatMap fun c => [(2, c), (0, c), (1, c)]

theorem bcalls_rounds (k : Fin 3) : bcalls k rounds = bprog := by fin_cases k <;> rfl

/-- bounds of the example -/
def bbounds : BBounds := ⟨Dg, 1, 1, 2⟩

theorem bbounds_ok : bbounds.Ok (bctx fm) := ⟨blockR_le fm, block_le fm⟩

/-- each client has its own two messages, encrypted under the keys of "a" and "b"; all share an evaluator and one key set -/
theorem rounds_ex (m : Fin 3 → ℕ → Nega 16 ℤ) (o o' : ℕ → ℕ → Sched String) (S : BScratch (bctx fm)) (hS : S.Alloc) :
    ∃ (cts : Fin 3 → List (Ct (qp fm))) (O' : BOffice (bctx fm) (Fin 3)), (∀ k, List.Forall₂ (fun ct x => BfvEnc (bctx fm) sec ct x 700) (cts k) [m k 0, m k 1]) ∧
      bserve (keyring fm) ⟨o, fun _ => rlks fm⟩ 0 ⟨scratch fm, cts⟩ rounds = .ok O' ∧
      ∀ k, ∃ Y, brun (keyring fm) ⟨o', fun _ => rlks fm⟩ 0 ⟨S, cts k⟩ bprog = .ok Y ∧ List.Forall₂ Ct.Same (O'.cts k) Y.cts := by
  choose ca a1 a2 a3 using fun k => fresh fm "a" (.inl rfl) (m k 0)
  choose cb b1 b2 b3 using fun k => fresh fm "b" (.inr rfl) (m k 1)
  have hK : (keyring fm).Ok parties sec sec' bbounds.Sb bbounds.Rb bbounds.Be := keyring_ok fm
  have hw : ∀ o : ℕ → ℕ → Sched String, BEnv.Ok (keyring fm) parties ⟨o, fun _ => rlks fm⟩ := fun o n => ⟨rfl, rlkPools fm⟩
  have ha : ∀ k, C69.Holds (B := bctx fm) sec parties (ca k) (m k 0, {"a"}, 700) := fun k => C69.Holds.of (a1 k) (a2 k) (by decide) (a3 k)
  have hb : ∀ k, C69.Holds (B := bctx fm) sec parties (cb k) (m k 1, {"b"}, 700) := fun k => C69.Holds.of (b1 k) (b2 k) (by decide) (b3 k)
  obtain ⟨O', e1, e2⟩ := binterleaved (valid fm) hK (bbounds_ok fm) (hw o) rounds 0 (O := ⟨scratch fm, fun k => [ca k, cb k]⟩)
    (A := fun k => [(m k 0, {"a"}, 700), (m k 1, {"b"}, 700)]) (scratch_alloc fm) (fun k => .cons (ha k) (.cons (hb k) .nil))
    (fun k => by
      rw [bcalls_rounds]
      simp [bprog, BProgOk, BInstr.Ok])
  refine ⟨fun k => [ca k, cb k], O', fun k => .cons (a3 k) (.cons (b3 k) .nil), e1, fun k => ?_⟩
  obtain ⟨Y, y1, y2⟩ := e2 k S ⟨o', fun _ => rlks fm⟩ 0 hS (hw o')
  rw [bcalls_rounds] at y1
  exact ⟨Y, y1, y2⟩

end MKHE.BEx
