import Verif.Props.Conc

set_option autoImplicit false

/-!
# C71: concurrent `ModDownQPtoQ` divides by P; on a shared extender it may not
-/

namespace MKHE
namespace C71
open Conc Conc.Prog Finset

/-- **concurrent `ModDownQPtoQ`**: goroutine `i` makes one call on its own copy, with input words in range. Whatever the schedule: when every goroutine has had
enough turns, goroutine `i` has returned and every coefficient of its output is `(x - X)/P` modulo every prime of Q up to the level, with an integer
`X ≡ x mod P` in the range of C39 -/
theorem modDown_concurrent {S : Setup} (R : S.Rules) (G : GoodPair S.nQ S.Q S.nP S.P) {b : ℕ} (hN : S.N = 8 * b)
    {lQ lP p1Q p1P p2Q : Fin (S.copies.length + 1) → ℕ} (hc : ∀ i, S.calls i = [.modDownQPtoQ (lQ i) (lP i) (p1Q i) (p1P i) (p2Q i)])
    (hQ : ∀ i, lQ i < S.nQ) (hP : ∀ i, lP i < S.nP) (h32 : ∀ i, lP i + 1 ≤ 32) (hs : ∀ i, ∑ k ∈ range (lP i + 1), S.P k ≤ 2 ^ 64)
    {M : Mem} (hxQ : ∀ i, ∀ j ≤ lQ i, ∀ x, M ⟨p1Q i, j, x⟩ ≤ 2 * S.Q j) (hxP : ∀ i, ∀ j ≤ lP i, ∀ x, M ⟨p1P i, j, x⟩ < 2 ^ 64)
    (sched : List (Fin (S.copies.length + 1))) (i : Fin (S.copies.length + 1)) (hn : (S.thr i).steps M ≤ sched.count i) :
    (Cfg.exec ⟨M, S.thr⟩ sched).thr i = .ret () ∧ ∀ x < S.N, ∃ X : ℤ, (∀ j ≤ lP i, X ≡ M ⟨p1P i, j, x⟩ [ZMOD S.P j]) ∧
      -((∏ k ∈ range (lP i + 1), S.P k : ℕ) : ℤ) ≤ 2 ^ 42 * X ∧ 2 ^ 42 * X ≤ (2 ^ 42 + 1) * ((∏ k ∈ range (lP i + 1), S.P k : ℕ) : ℤ) ∧
      ∀ j ≤ lQ i, (Cfg.exec ⟨M, S.thr⟩ sched).mem ⟨p2Q i, j, x⟩ < S.Q j ∧
        ((Cfg.exec ⟨M, S.thr⟩ sched).mem ⟨p2Q i, j, x⟩ : ℤ) * ((∏ k ∈ range (lP i + 1), S.P k : ℕ) : ℤ) ≡ M ⟨p1Q i, j, x⟩ - X [ZMOD S.Q j] := by
  have ei : (S.ext i).poolQ = S.k + 2 * i.val := by rw [S.ext_eq]; rfl
  have o1 := R.old i _ (by rw [hc i]; exact List.mem_singleton_self _) (p1Q i) (Or.inl (by simp [ins]))
  have o2 := R.old i _ (by rw [hc i]; exact List.mem_singleton_self _) (p2Q i) (Or.inr (by simp [outs]))
  have key := fun x => C39.modDown_divides S.fm S.nQ S.Q S.nP S.P (lQ i) (lP i) G (hQ i) (hP i) (h32 i) (hs i)
    (fun j => M ⟨p1Q i, j, x⟩) (fun j => M ⟨p1P i, j, x⟩) (fun j => M ⟨(S.ext i).poolQ, j, x⟩) (fun j => M ⟨p2Q i, j, x⟩)
    (fun j hj => hxQ i j hj x) (fun j hj => hxP i j hj x)
  choose X x1 x2 x3 r r1 r2 r3 using key
  obtain ⟨M', e1, m1, -⟩ := modDown_run (fm := S.fm) (S.isExt i) b (lQ i) (lP i) (p1Q i) (p1P i) (p2Q i) (hQ i) (hP i) (by omega) (by omega) M
    (r := r) (fun x _ => r1 x)
  have run : (S.thr i).run M = .ok ((), M') := by
    unfold Setup.thr Ext.calls
    rw [hc i, hN]
    show (((S.ext i).modDownQPtoQ (8 * b) S.fm (lQ i) (lP i) (p1Q i) (p1P i) (p2Q i)).bind fun _ => Prog.ret ()).run M = _
    rw [run_bind, e1]
    rfl
  have res := copies_result R M sched i (copies_done R M sched i hn)
  rw [run] at res
  refine ⟨res.1, fun x hx => ⟨X x, x1 x, x2 x, x3 x, fun j hj => ?_⟩⟩
  have w := res.2 _ (by rw [hc i]; exact List.mem_singleton_self _) ⟨p2Q i, j, x⟩ (Or.inr (by simp [outs]))
  rw [w, m1 j hj x (by omega)]
  exact r2 x j hj

/-! ## one extender used by two goroutines -/

theorem exec_replicate {ι : Type} [DecidableEq ι] (i : ι) (n : ℕ) (c : Cfg ι) :
    Cfg.exec c (List.replicate n i) = ⟨(solo^[n] (c.mem, c.thr i)).1, Function.update c.thr i (solo^[n] (c.mem, c.thr i)).2⟩ := by
  induction n generalizing c with
  | zero =>
    show c = ⟨c.mem, Function.update c.thr i (c.thr i)⟩
    rw [Function.update_eq_self]
  | succ n ih =>
    rw [List.replicate_succ]
    show Cfg.exec (c.step i) (List.replicate n i) = _
    rw [ih]
    unfold Cfg.step
    simp only [Function.update_self, Function.update_idem, Prod.mk.eta, Function.iterate_succ_apply]

theorem solo_bind {α : Type} (p : Prog α) (f : α → Prog Unit) : ∀ {m m' : Mem} {x : α}, p.run m = .ok (x, m') →
    solo^[p.steps m] (m, p.bind f) = (m', f x) := by
  induction p with
  | ret y => intro m m' x h; cases h; rfl
  | fault e => intro m m' x h; cases h
  | rd a k ih =>
    intro m m' x h
    show solo^[(k (m a)).steps m + 1] _ = _
    rw [Function.iterate_succ_apply]
    exact ih (m a) h
  | wr a v k ih =>
    intro m m' x h
    show solo^[k.steps (Function.update m a v) + 1] _ = _
    rw [Function.iterate_succ_apply]
    exact ih h

/-- rings with the one prime 7 and the one prime 5 -/
def exE : Ext := newExt 1 (fun _ => 7) 1 (fun _ => 5) 0

/-- the inputs: all words of polynomial 3 are 2, all words of polynomial 6 are 1, the rest is 0 -/
def exM : Mem := fun a => if a.poly = 3 then 2 else if a.poly = 6 then 1 else 0

/-- the first goroutine divides (0, 2) by 5, the second one (0, 1); both on the same extender -/
def exThr (fm : FloatModel) : Bool → Prog Unit
  | false => exE.modDownQPtoQ 8 fm 0 0 2 3 4
  | true => exE.modDownQPtoQ 8 fm 0 0 5 6 7

theorem exPair : GoodPair 1 (fun _ => 7) 1 (fun _ => 5) := by
  constructor <;> intro i hi <;> try norm_num
  · decide
  · decide
  all_goals omega

/-- the division of (0, c) by 5 modulo 7, for c = 1, 2 -/
theorem exDiv (fm : FloatModel) (c d : ℕ) (hc : c = 2 ∧ d = 1 ∨ c = 1 ∧ d = 4) (pool out : ℕ → ℕ) :
    ∃ r, modDownQPtoQ fm 1 (fun _ => 7) 1 (fun _ => 5) 0 0 (fun _ => 0) (fun _ => c) pool out = .ok r ∧ r 0 = d := by
  obtain ⟨X, a1, a2, a3, r, a4, a5, -⟩ := C39.modDown_divides fm 1 (fun _ => 7) 1 (fun _ => 5) 0 0 exPair
    (by norm_num) (by norm_num) (by norm_num) (by norm_num) (fun _ => 0) (fun _ => c) pool out (by intro i _; norm_num) (by intro i _; show c < 2 ^ 64; omega)
  refine ⟨r, a4, ?_⟩
  have h1 := a1 0 le_rfl
  obtain ⟨h2, h3⟩ := a5 0 le_rfl
  simp only [zero_add, range_one, prod_singleton, Nat.cast_ofNat] at a2 a3 h3
  unfold Int.ModEq at h1 h3
  push_cast at h1 h3
  rcases hc with ⟨rfl, rfl⟩ | ⟨rfl, rfl⟩
  · have : X = 2 := by push_cast at h1; omega
    subst this; omega
  · have : X = 1 := by push_cast at h1; omega
    subst this; omega

/-- **a shared extender**: both goroutines write the same pool. There is a schedule in which both return and the first one returns 4 where its solitary run
returns 1 -/
theorem shared_wrong (fm : FloatModel) :
    (∃ M', (exThr fm false).run exM = .ok ((), M') ∧ M' ⟨4, 0, 0⟩ = 1) ∧
    ∃ sched, (∀ g, (Cfg.exec ⟨exM, exThr fm⟩ sched).thr g = .ret ()) ∧ (Cfg.exec ⟨exM, exThr fm⟩ sched).mem ⟨4, 0, 0⟩ = 4 := by
  have he : IsExt 1 (fun _ => 7) 1 (fun _ => 5) exE := new_isExt ..
  have d1 := fun x => exDiv fm 2 1 (Or.inl ⟨rfl, rfl⟩) (fun i => exM ⟨exE.poolQ, i, x⟩) (fun i => exM ⟨4, i, x⟩)
  choose r r1 r2 using d1
  refine ⟨?_, ?_⟩
  · obtain ⟨M', e, m, -⟩ := modDown_run (fm := fm) he 1 0 0 2 3 4 (by norm_num) (by norm_num) (by decide) (by decide) exM (r := r) (fun x _ => r1 x)
    exact ⟨M', e, by rw [m 0 le_rfl 0 (by norm_num), r2]⟩
  · -- the first goroutine fills the pool
    have u := fun x => modDown_parts (show 0 < 1 by norm_num) (show 0 < 1 by norm_num) (r1 x)
    choose v v1 v2 using u
    obtain ⟨M1, e1, a1, a2⟩ := modUpPtoQ_run (fm := fm) he 1 0 0 3 exE.poolQ exM (r := v) (fun x _ => v1 x) (by norm_num)
    -- the second one runs
    have in5 : ∀ i x, M1 ⟨5, i, x⟩ = 0 := fun i x => by rw [a2 _ (by rintro ⟨h, -⟩; exact absurd h (by decide : ¬ (5 = exE.poolQ)))]; rfl
    have in6 : ∀ i x, M1 ⟨6, i, x⟩ = 1 := fun i x => by rw [a2 _ (by rintro ⟨h, -⟩; exact absurd h (by decide : ¬ (6 = exE.poolQ)))]; rfl
    have in2 : ∀ i x, M1 ⟨2, i, x⟩ = 0 := fun i x => by rw [a2 _ (by rintro ⟨h, -⟩; exact absurd h (by decide : ¬ (2 = exE.poolQ)))]; rfl
    have d2 := fun x => exDiv fm 1 4 (Or.inr ⟨rfl, rfl⟩) (fun i => M1 ⟨exE.poolQ, i, x⟩) (fun i => M1 ⟨7, i, x⟩)
    choose s s1 s2 using d2
    have w := fun x => modDown_parts (show 0 < 1 by norm_num) (show 0 < 1 by norm_num) (s1 x)
    choose w w1 w2 using w
    obtain ⟨M2, e2, b1, b2⟩ := modUpPtoQ_run (fm := fm) he 1 0 0 6 exE.poolQ M1 (r := w) (fun x _ => by
      have := w1 x
      simp only [in6]
      exact this) (by norm_num)
    obtain ⟨M3, e3, c1, c2⟩ := modDown_second he 8 0 0 5 7 (by norm_num) (by norm_num) M2
    have run2 : (exThr fm true).run M1 = .ok ((), M3) := by
      show ((exE.modUpPtoQ 8 fm 0 0 6 exE.poolQ).bind _).run M1 = _
      rw [run_bind]
      have : (exE.modUpPtoQ 8 fm 0 0 6 exE.poolQ).run M1 = .ok ((), M2) := e2
      rw [this]
      exact e3
    -- the first one ends
    obtain ⟨M4, e4, f1, f2⟩ := modDown_second he 8 0 0 2 4 (by norm_num) (by norm_num) M3
    let p1 := exE.modUpPtoQ 8 fm 0 0 3 exE.poolQ
    let p2 := each (downRow 8 exE.Q exE.modDownPtoQ 0 2 exE.poolQ 4) (List.range (0 + 1))
    have t1 : solo^[p1.steps exM] (exM, exThr fm false) = (M1, p2) := solo_bind p1 (fun _ => p2) e1
    have t2 : solo^[(exThr fm true).steps M1] (M1, exThr fm true) = (M3, .ret ()) := by
      have := solo_run (exThr fm true) M1 _ le_rfl
      rwa [run2] at this
    have t3 : solo^[p2.steps M3] (M3, p2) = (M4, .ret ()) := by
      have := solo_run p2 M3 _ le_rfl
      rwa [e4] at this
    have ex : Cfg.exec ⟨exM, exThr fm⟩ (List.replicate (p1.steps exM) false ++ List.replicate ((exThr fm true).steps M1) true ++
        List.replicate (p2.steps M3) false) =
        ⟨M4, Function.update (Function.update (Function.update (exThr fm) false p2) true (.ret ())) false (.ret ())⟩ := by
      have app : ∀ (c : Cfg Bool) (l l' : List Bool), Cfg.exec c (l ++ l') = Cfg.exec (Cfg.exec c l) l' := fun c l l' => List.foldl_append
      have s1 := exec_replicate false (p1.steps exM) (⟨exM, exThr fm⟩ : Cfg Bool)
      dsimp only at s1
      rw [t1] at s1
      have s2 := exec_replicate true ((exThr fm true).steps M1) (⟨M1, Function.update (exThr fm) false p2⟩ : Cfg Bool)
      dsimp only at s2
      rw [Function.update_of_ne (by decide), t2] at s2
      have s3 := exec_replicate false (p2.steps M3) (⟨M3, Function.update (Function.update (exThr fm) false p2) true (.ret ())⟩ : Cfg Bool)
      dsimp only at s3
      rw [Function.update_of_ne (by decide), Function.update_self, t3] at s3
      rw [app, app, s1, s2, s3]
    refine ⟨List.replicate (p1.steps exM) false ++ List.replicate ((exThr fm true).steps M1) true ++ List.replicate (p2.steps M3) false, ?_, ?_⟩
    · intro g
      rw [ex]
      cases g <;> simp
    · rw [ex]
      show M4 ⟨4, 0, 0⟩ = 4
      rw [f1 0 le_rfl 0 (by norm_num)]
      have g2 : M3 ⟨2, 0, 0⟩ = 0 := by
        rw [c2 _ (by rintro ⟨h, -⟩; exact absurd h (by decide : ¬ (2 = 7))), b2 _ (by rintro ⟨h, -⟩; exact absurd h (by decide : ¬ (2 = exE.poolQ)))]
        exact in2 0 0
      have g0 : M3 ⟨exE.poolQ, 0, 0⟩ = w 0 0 := by
        rw [c2 _ (by rintro ⟨h, -⟩; exact absurd h (by decide : ¬ (exE.poolQ = 7)))]
        exact b1 0 le_rfl 0 (by norm_num)
      rw [g2, g0, ← s2 0]
      exact (w2 0 0 le_rfl).symm

/-- the same two calls, the second one on a shallow copy; the pools are the polynomials from 8 on -/
def exS (fm : FloatModel) : Setup where
  N := 8
  fm := fm
  nQ := 1
  Q := fun _ => 7
  nP := 1
  P := fun _ => 5
  k := 8
  copies := [0]
  calls := ![[.modDownQPtoQ 0 0 2 3 4], [.modDownQPtoQ 0 0 5 6 7]]

theorem exS_rules (fm : FloatModel) : (exS fm).Rules where
  old := by
    intro (i : Fin 2)
    fin_cases i
    · intro c hc p hp
      obtain rfl : c = .modDownQPtoQ 0 0 2 3 4 := List.mem_singleton.mp hc
      simp only [ins, outs, List.mem_cons, List.not_mem_nil, or_false] at hp
      show p < 8
      omega
    · intro c hc p hp
      obtain rfl : c = .modDownQPtoQ 0 0 5 6 7 := List.mem_singleton.mp hc
      simp only [ins, outs, List.mem_cons, List.not_mem_nil, or_false] at hp
      show p < 8
      omega
  sep := by
    intro (i : Fin 2) (j : Fin 2) hij
    fin_cases i <;> fin_cases j <;> first | exact absurd rfl hij | skip
    · intro c hc p hp d hd
      obtain rfl : c = .modDownQPtoQ 0 0 2 3 4 := List.mem_singleton.mp hc
      obtain rfl : d = .modDownQPtoQ 0 0 5 6 7 := List.mem_singleton.mp hd
      obtain rfl : p = 4 := List.mem_singleton.mp hp
      decide
    · intro c hc p hp d hd
      obtain rfl : c = .modDownQPtoQ 0 0 5 6 7 := List.mem_singleton.mp hc
      obtain rfl : d = .modDownQPtoQ 0 0 2 3 4 := List.mem_singleton.mp hd
      obtain rfl : p = 7 := List.mem_singleton.mp hp
      decide

/-- **with a shallow copy** the first goroutine returns 1 under every schedule -/
theorem copied_right (fm : FloatModel) (sched : List (Fin 2)) (hn : ((exS fm).thr (0 : Fin 2)).steps exM ≤ sched.count 0) :
    (Cfg.exec ⟨exM, (exS fm).thr⟩ sched).thr (0 : Fin 2) = .ret () ∧ (Cfg.exec ⟨exM, (exS fm).thr⟩ sched).mem ⟨4, 0, 0⟩ = 1 := by
  have key := modDown_concurrent (S := exS fm) (exS_rules fm) exPair (b := 1) rfl (lQ := fun _ => 0) (lP := fun _ => 0) (p1Q := ![2, 5]) (p1P := ![3, 6])
    (p2Q := ![4, 7]) (by intro (i : Fin 2); fin_cases i <;> rfl) (fun _ => by show 0 < 1; norm_num) (fun _ => by show 0 < 1; norm_num) (fun _ => by norm_num)
    (fun _ => by show ∑ k ∈ range (0 + 1), 5 ≤ 2 ^ 64; norm_num) (M := exM)
    (by intro (i : Fin 2) j _ x; fin_cases i <;> exact Nat.zero_le _)
    (by
      intro (i : Fin 2) j _ x
      fin_cases i
      · show 2 < 2 ^ 64; norm_num
      · show 1 < 2 ^ 64; norm_num) sched (0 : Fin 2) hn
  obtain ⟨h1, h2⟩ := key
  refine ⟨h1, ?_⟩
  obtain ⟨X, a1, a2, a3, a4⟩ := h2 0 (by show 0 < 8; norm_num)
  have b1 : X ≡ ((2 : ℕ) : ℤ) [ZMOD ((5 : ℕ) : ℤ)] := a1 0 le_rfl
  obtain ⟨b2, b3⟩ := a4 0 le_rfl
  have p5 : ((∏ k ∈ range (0 + 1), (exS fm).P k : ℕ) : ℤ) = 5 := by simp [exS]
  rw [p5] at a2 a3 b3
  have b2' : (Cfg.exec ⟨exM, (exS fm).thr⟩ sched).mem ⟨4, 0, 0⟩ < 7 := b2
  have b3' : ((Cfg.exec ⟨exM, (exS fm).thr⟩ sched).mem ⟨4, 0, 0⟩ : ℤ) * 5 ≡ ((0 : ℕ) : ℤ) - X [ZMOD ((7 : ℕ) : ℤ)] := b3
  generalize (Cfg.exec ⟨exM, (exS fm).thr⟩ sched).mem ⟨4, 0, 0⟩ = w at b2' b3' ⊢
  unfold Int.ModEq at b1 b3'
  push_cast at b1 b3'
  have : X = 2 := by omega
  subst this
  omega

end C71
end MKHE
