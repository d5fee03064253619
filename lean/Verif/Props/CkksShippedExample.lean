import Verif.Props.CkksShipped

set_option autoImplicit false

/-!
# C67: the hypotheses are met

Every message has an encoding with the assumed error, new objects are valid memory, and a program with every kind of call the estimator knows is accepted.
-/

namespace MKHE.C67
open Finset Nega C59 Lits

section
variable {N : ℕ} [NeZero N] {C : Ctx N}

/-- every real polynomial has an encoding with an error of at most `N/2` in a slot: what the encoder is trusted with is not vacuous -/
theorem encodes_exists (V : C.Valid) (scale : ℚ) (v : Nega N ℝ) : ∃ pt : Poly C, pt.isNTT = false ∧ Encodes pt scale v ((N : ℝ) / 2) := by
  have hrow : ∀ Φ : Nega N ℤ, ∀ i, ∃ row : Limb N (C.q i), i < C.nQ → cf row = red (C.q i) Φ := fun Φ i => by
    by_cases hi : i < C.nQ
    · haveI : Fact (C.q i).Prime := ⟨V.pair.primeQ i hi⟩
      exact ⟨ofRes (red (C.q i) Φ), fun _ => res_ofRes _⟩
    · exact ⟨Limb.zero, fun h => absurd h hi⟩
  let w : Nega N ℝ := Nega.C (scale : ℝ) * v
  choose rows hrows using hrow (fun x => round (w x))
  refine ⟨⟨C.nQ, false, rows⟩, rfl, rfl, fun x => round (w x), fun i hi => hrows i (by have := V.q1; omega), fun j => ?_⟩
  rw [← slot_smul, ← map_sub]
  have hb : RBdd (toReal (fun x => round (w x)) - w) (1 / 2) := fun x => by
    show |((round (w x) : ℤ) : ℝ) - w x| ≤ 1 / 2
    rw [abs_sub_comm]
    exact abs_sub_round _
  refine (hb.slots j).trans_eq ?_
  ring

theorem Encodes.mono {pt : Poly C} {scale : ℚ} {v : Nega N ℝ} {b b' : ℝ} (h : Encodes pt scale v b) (hb : b ≤ b') : Encodes pt scale v b' := by
  obtain ⟨h1, Φ, h2, h3⟩ := h
  exact ⟨h1, Φ, h2, fun j => (h3 j).trans hb⟩

/-- an encoding of the top level in coefficient form is a plaintext operand -/
theorem Encodes.pt (V : C.Valid) {pt : Poly C} {scale : ℚ} {v : Nega N ℝ} {b : ℝ} (h0 : pt.isNTT = false) (h : Encodes pt scale v b) : CkksPt pt (C.nQ - 1) scale v b := by
  obtain ⟨h1, Φ, h2, h3⟩ := h
  refine ⟨by have := V.q1; omega, Φ, fun i hi => ?_, h3⟩
  have := h2 i hi
  unfold Poly.coeffs at this
  rw [h0] at this
  exact this

/-- all messages of absolute value at most 1 have inputs and plaintext operands as the theorems ask for -/
theorem setting_exists (V : C.Valid) (P : Pars) {bp : ℕ} (hbp : (N : ℝ) / 2 ≤ bp) (o : Sched String) (z zp : ℕ → ℕ → ℂ) (hz : ∀ n k, ‖z n k‖ ≤ 1) (hzp : ∀ n k, ‖zp n k‖ ≤ 1)
    (owner : ℕ → String) :
    ∃ (x : ℕ → Input C) (env : Env C) (w : ℕ → Nega N ℝ), (∀ n, (x n).owner = owner n ∧ Encodes (x n).pt (P.M : ℚ) (x n).val bp ∧ SBdd (x n).val 1 ∧
      ∀ j, slot j (x n).val = z n (C35.amount N j)) ∧ EnvOk P env w (2 ^ 20) bp ∧ ∀ p j, slot j (w p) = zp p (C35.amount N j) := by
  choose pt hnt hpt using fun v : Nega N ℝ => encodes_exists V P.M v
  have hsl : ∀ (z : ℕ → ℂ) j, slot j (ofSlots N z) = z (C35.amount N j) := fun z j => slot_ofSlots V.hN V.log1 z j
  refine ⟨fun n => ⟨owner n, pt (ofSlots N (z n)), ofSlots N (z n)⟩, ⟨fun _ _ => o, fun _ _ => 0, fun l => l, fun p => (pt (ofSlots N (zp p)), P.M)⟩,
    fun p => ofSlots N (zp p), fun n => ⟨rfl, (hpt _).mono hbp, fun j => ?_, fun j => hsl _ j⟩, ⟨fun _ => rfl, fun _ => rfl, fun p j => ?_, fun p =>
      ((hpt _).mono hbp).pt V (hnt _)⟩, fun p j => hsl _ j⟩
  · rw [hsl]; exact hz n _
  · rw [hsl]; exact (hzp p _).trans (by norm_num)

/-- a run with new objects and samplers that return some small polynomials -/
noncomputable def exRun (C : Ctx N) (rand : ℕ → PolyQP C) (mform : PolyQP C → PolyQP C) (o : Sched String) : Run C where
  rand := rand
  mform := mform
  gs := fun n x => if x = 0 then n % 20 else 0
  us := fun n x => if x = 1 then n % 2 else 0
  es := fun n _ => n % 20
  s := fun _ _ => -1
  r := fun _ x => if x = 3 then 1 else 0
  gs_le := fun n x => by
    show |if x = 0 then ((n : ℤ) % 20) else 0| ≤ 19
    split_ifs
    · rw [abs_le]; omega
    · norm_num
  us_le := fun n x => by
    show |if x = 1 then ((n : ℤ) % 2) else 0| ≤ 1
    split_ifs
    · rw [abs_le]; omega
    · norm_num
  es_le := fun n x => by
    show |(n : ℤ) % 20| ≤ 19
    rw [abs_le]; omega
  s_le := fun id x => by show |(-1 : ℤ)| ≤ 1; norm_num
  r_le := fun id x => by show |if x = 3 then (1 : ℤ) else 0| ≤ 1; split_ifs <;> norm_num
  kg := newKeyGenerator C
  enc := newEncryptor C
  oe := fun _ => o
  eval := newEvaluator C (o 0)
  eval_ready := newEvaluator_ready C (o 0)
  od := o
  pool := ⟨C.nQ, false, fun _ => Limb.zero⟩
  pool_len := le_rfl

end

/-- a program with every kind of call: `p * conj(rotate(2*a*b, 9)) - a`, the factor 2 from a product computed with and without hoisting -/
def tour : List Instr :=
  [.mul 0 1, .hoist 0, .hoist 1, .mulH 0 1 0 1, .add 4 5, .rot 6 5, .conj 7, .hoist 8, .rotH 8 4 2, .mulPt 9 0, .drop 0 1, .sub 10 11]

theorem val_tour {N : ℕ} [NeZero N] {C : Ctx N} (w : ℕ → Nega N ℝ) (a b c d : Input C) :
    (plain (fun p j => slot j (w p)) ([a, b, c, d].map fun x j => slot j x.val) tour).getD 12 0 = fun j =>
      slot j (w 0) * (starRingEnd ℂ) (2 * (slot (j + 9) a.val * slot (j + 9) b.val)) - slot j a.val := by
  funext j
  show slot j (w 0) * (starRingEnd ℂ) (slot (j + 4 + 5) a.val * slot (j + 4 + 5) b.val + slot (j + 4 + 5) a.val * slot (j + 4 + 5) b.val) - slot j a.val = _
  rw [show j + 4 + 5 = j + 9 by ring, two_mul]

theorem est_tour : estimate pars14 (fun _ => (2 ^ 20, 2 ^ 14)) ⟨[freshEst pars14 (2 ^ 20) (2 ^ 14) 622611, freshEst pars14 (2 ^ 20) (2 ^ 14) 622611,
    freshEst pars14 (2 ^ 20) (2 ^ 14) 622611, freshEst pars14 (2 ^ 20) (2 ^ 14) 622611], []⟩ tour 12 = some ⟨3, 5764, 3145731, 136652909491⟩ := by
  decide +kernel

theorem hbp14 : (((2 ^ ckks14.logN : ℕ)) : ℝ) / 2 ≤ ((2 ^ 14 : ℕ) : ℝ) := by
  show (((2 ^ 14 : ℕ)) : ℝ) / 2 ≤ _
  norm_num

section
variable (fm : FloatModel) (rq : ∀ i, LimbOps (2 ^ ckks14.logN) (nth ckks14.Q i)) (rp : ∀ j, LimbOps (2 ^ ckks14.logN) (nth ckks14.P j))

/-- **instance**: all hypotheses of `client_ckks14` are met, for four parties, any messages of absolute value at most 1 and a program with every kind of call -/
theorem tour14 (rand : ℕ → PolyQP (ckks14.ctx 2 fm rq rp)) (mform : PolyQP (ckks14.ctx 2 fm rq rp) → PolyQP (ckks14.ctx 2 fm rq rp)) (o : Sched String)
    (z zp : ℕ → ℕ → ℂ) (hz : ∀ n k, ‖z n k‖ ≤ 1) (hzp : ∀ n k, ‖zp n k‖ ≤ 1) :
    ∃ (x : ℕ → Input (ckks14.ctx 2 fm rq rp)) (env : Env (ckks14.ctx 2 fm rq rp)) (w : ℕ → Nega (2 ^ ckks14.logN) ℝ) (y : Poly (ckks14.ctx 2 fm rq rp) × ℚ),
      (∀ n j, slot j (x n).val = z n (C35.amount (2 ^ ckks14.logN) j)) ∧ (∀ p j, slot j (w p) = zp p (C35.amount (2 ^ ckks14.logN) j)) ∧
      (exRun _ rand mform o).result ["user0", "user1", "user2", "user3"] (2 ^ 52 : ℕ) [x 0, x 1, x 2, x 3] env tour 12 = .ok y ∧
      Decodes y (fun j => slot j (w 0) * (starRingEnd ℂ) (2 * (slot (j + 9) (x 0).val * slot (j + 9) (x 1).val)) - slot j (x 0).val) (1 / 2 ^ 15) := by
  obtain ⟨x, env, w, hx, henv, hw⟩ := setting_exists (C61.valid C61.ckks14_good fm rq rp) pars14 (bp := 2 ^ 14) hbp14 o z zp hz hzp
    (fun n => ["user0", "user1", "user2", "user3"].getD n "")
  have hins : ∀ y ∈ [x 0, x 1, x 2, x 3], y.owner ∈ ["user0", "user1", "user2", "user3"] ∧ Encodes y.pt (2 ^ 52 : ℕ) y.val (2 ^ 14 : ℕ) ∧
      SBdd y.val (((2 ^ 20 : ℕ) : ℝ) / 2 ^ 20) := by
    have h1 : (1 : ℝ) ≤ ((2 ^ 20 : ℕ) : ℝ) / 2 ^ 20 := by norm_num
    simp only [List.forall_mem_cons, List.not_mem_nil, false_imp_iff, implies_true, and_true]
    exact ⟨⟨by rw [(hx 0).1]; decide, (hx 0).2.1, SBdd.mono' (hx 0).2.2.1 h1⟩, ⟨by rw [(hx 1).1]; decide, (hx 1).2.1, SBdd.mono' (hx 1).2.2.1 h1⟩,
      ⟨by rw [(hx 2).1]; decide, (hx 2).2.1, SBdd.mono' (hx 2).2.2.1 h1⟩, ⟨by rw [(hx 3).1]; decide, (hx 3).2.1, SBdd.mono' (hx 3).2.2.1 h1⟩⟩
  obtain ⟨y, y1, y2⟩ := client_ckks14 (exRun _ rand mform o) ["user0", "user1", "user2", "user3"] (by decide) (by decide)
    [x 0, x 1, x 2, x 3] (fun _ => 2 ^ 20) hins henv tour 12 (e := ⟨3, 5764, 3145731, 136652909491⟩) est_tour
  rw [val_tour] at y2
  exact ⟨x, env, w, y, fun n => (hx n).2.2.2, hw, y1, y2.mono (by
    show ((136652909491 : ℕ) : ℝ) * 1025 / (1024 * 2 ^ 52) ≤ _
    norm_num)⟩

end

/-- rows exist for the primes of the literal, so `tour14` is about something -/
example : Nonempty (∀ i, LimbOps (2 ^ ckks14.logN) (nth ckks14.Q i)) ∧ Nonempty (∀ j, LimbOps (2 ^ ckks14.logN) (nth ckks14.P j)) :=
  ⟨C61.ckks14Q_rows, C61.ckks14P_rows⟩

end MKHE.C67
