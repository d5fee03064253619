import Verif.Lemmas.Decompose

set_option autoImplicit false

/-!
# Which words the basis-extension functions read

Rows above the level in use hold stale words; these lemmas show that they do not influence any result.
-/

namespace MKHE
open Finset

theorem forN_congr {σ : Type*} (n : ℕ) (f g : σ → ℕ → σ) (s : σ) (h : ∀ i < n, ∀ s, f s i = g s i) :
    forN n f s = forN n g s := by
  induction n with
  | zero => rfl
  | succ n ih => rw [forN_succ, forN_succ, ih fun i hi => h i (by omega), h n (by omega)]

theorem multSum_congr (y y' : ℕ → ℕ) (v n p qi : ℕ) (vt qo : List ℕ) (h : ∀ i < n, y i = y' i) :
    multSum y v n p qi vt qo = multSum y' v n p qi vt qo := by
  unfold multSum
  rw [forN_congr n (accStep y fun i => qo.getD i 0) (accStep y' fun i => qo.getD i 0) (0, 0)]
  intro i hi s
  unfold accStep
  rw [h i hi]

/-- `reconstructRNS` reads `n` words -/
theorem reconstruct_congr (fm : FloatModel) (n : ℕ) (a a' Q : ℕ → ℕ) (qb : List ℕ) (h : ∀ i < n, a i = a' i) :
    (∃ e, reconstructRNS fm n a Q qb = .error e ∧ reconstructRNS fm n a' Q qb = .error e) ∨
    ∃ y y' v, reconstructRNS fm n a Q qb = .ok (y, v) ∧ reconstructRNS fm n a' Q qb = .ok (y', v) ∧
      ∀ i < n, y i = y' i := by
  unfold reconstructRNS
  split
  · exact .inl ⟨_, rfl, rfl⟩
  · refine .inr ⟨_, _, _, rfl, ?_, fun i hi => by rw [h i hi]⟩
    have : ((List.range n).map fun i => (mred (a i) (qb.getD i 0) (Q i) (mredParams (Q i)), Q i)) =
        (List.range n).map fun i => (mred (a' i) (qb.getD i 0) (Q i) (mredParams (Q i)), Q i) := by
      apply List.map_congr_left
      intro i hi
      rw [h i (List.mem_range.mp hi)]
    simp only [this]

theorem modUpExact_congr (fm : FloatModel) (n : ℕ) (Q : ℕ → ℕ) (m : ℕ) (P : ℕ → ℕ) (pr : ModUpParams) (a a' out : ℕ → ℕ)
    (h : ∀ i < n, a i = a' i) : modUpExact fm n Q m P pr a out = modUpExact fm n Q m P pr a' out := by
  unfold modUpExact
  rcases reconstruct_congr fm n a a' Q pr.qoverqiinvqi h with ⟨e, h1, h2⟩ | ⟨y, y', v, h1, h2, h3⟩
  · rw [h1, h2]
  · rw [h1, h2]
    simp only [Go.andThen_ok]
    congr 1
    funext j
    congr 1; funext vt; congr 1; funext qo
    exact multSum_congr _ _ _ _ _ _ _ _ h3

theorem modUp_congr (fm : FloatModel) (nQ : ℕ) (Q : ℕ → ℕ) (nP : ℕ) (P : ℕ → ℕ) (levelQ levelP : ℕ) (a a' out : ℕ → ℕ)
    (h : ∀ i ≤ levelQ, a i = a' i) : modUp fm nQ Q nP P levelQ levelP a out = modUp fm nQ Q nP P levelQ levelP a' out := by
  unfold modUp
  congr 1; funext pr
  exact modUpExact_congr _ _ _ _ _ _ _ _ _ fun i hi => h i (by omega)

theorem fill_congr {ι β : Type*} [DecidableEq ι] (f g : ι → Go β) (s : ι → β) (l : List ι) (h : ∀ a ∈ l, f a = g a) :
    Go.fill f s l = Go.fill g s l := by
  unfold Go.fill
  induction l generalizing s with
  | nil => rfl
  | cons a l ih =>
    rw [Go.loop_cons, Go.loop_cons, h a (by simp)]
    cases g a with
    | ok b => exact ih _ fun c hc => h c (by simp [hc])
    | error e => rfl

theorem modDownQPtoQ_congr (fm : FloatModel) (nQ : ℕ) (Q : ℕ → ℕ) (nP : ℕ) (P : ℕ → ℕ) (levelQ levelP : ℕ)
    (xQ xQ' xP xP' pool out : ℕ → ℕ) (hQ : ∀ i ≤ levelQ, xQ i = xQ' i) (hP : ∀ j ≤ levelP, xP j = xP' j) :
    modDownQPtoQ fm nQ Q nP P levelQ levelP xQ xP pool out = modDownQPtoQ fm nQ Q nP P levelQ levelP xQ' xP' pool out := by
  unfold modDownQPtoQ
  rw [modUp_congr fm nP P nQ Q levelP levelQ xP xP' pool hP]
  congr 1; funext pool'
  apply fill_congr
  intro i hi
  have := List.mem_range.mp hi
  rw [hQ i (by omega)]

/-- `DecomposeAndSplit` reads the rows of the block only -/
theorem decomposeAndSplit_congr (fm : FloatModel) (nQ : ℕ) (Q : ℕ → ℕ) (nP : ℕ) (P : ℕ → ℕ)
    (levelQ levelP alpha beta gamma : ℕ) (a a' outQ outP : ℕ → ℕ) (ha : 1 ≤ alpha) (hb : beta * alpha ≤ levelQ)
    (h : ∀ i ≤ levelQ, a i = a' i) :
    decomposeAndSplit fm nQ Q nP P levelQ levelP alpha beta gamma a outQ outP =
      decomposeAndSplit fm nQ Q nP P levelQ levelP alpha beta gamma a' outQ outP := by
  unfold decomposeAndSplit
  have e := decompose_cnt hb ha
  obtain ⟨h1, h2, h3⟩ := blockLen_pos hb ha
  simp only [e]
  split
  · rw [h _ hb]
  · congr 1; funext pl; congr 1; funext pb; congr 1; funext pr
    have hout : (fun j => if beta * alpha ≤ j ∧ j < beta * alpha + blockLen levelQ alpha beta then a j else outQ j) =
        fun j => if beta * alpha ≤ j ∧ j < beta * alpha + blockLen levelQ alpha beta then a' j else outQ j := by
      funext j
      split
      · rw [h j (by omega)]
      · rfl
    rcases reconstruct_congr fm (blockLen levelQ alpha beta) (fun i => a (beta * alpha + i)) (fun i => a' (beta * alpha + i))
      (fun i => Q (beta * alpha + i)) pr.qoverqiinvqi (fun i hi => h _ (by omega)) with ⟨er, r1, r2⟩ | ⟨y, y', v, r1, r2, r3⟩
    · rw [r1, r2]; rfl
    · rw [r1, r2]
      simp only [Go.andThen_ok, hout]
      have hm : ∀ p qi vt qo, multSum y v (blockLen levelQ alpha beta) p qi vt qo =
          multSum y' v (blockLen levelQ alpha beta) p qi vt qo := fun p qi vt qo => multSum_congr _ _ _ _ _ _ _ _ r3
      simp only [hm]

end MKHE
