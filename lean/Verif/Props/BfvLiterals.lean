import Verif.Props.BfvBudget
import Verif.Props.Literals
import Verif.Props.BfvExample

set_option autoImplicit false

/-!
# C58 at the parameters of mkbfv's tests

For PN14QP439 and PN15QP880 (mkbfv_test.go:28-105), up to four parties (the default of the flag `n`, mkbfv_test.go:26), ternary secrets, errors of at most 19 (lattigo
truncates the Gaussian of standard deviation 3.2 at six deviations): a bound on the depths of a program alone guarantees that it decrypts correctly.
-/

namespace MKHE.C58
open Finset Nega Lits C61

section
variable {L : BLit} (h : BGood L) (h2 : L.P.length = 2) (fm : FloatModel) (R : L.Rows)
include h h2

theorem alpha_lit : (L.bctx fm R).C.alpha = 1 := by
  show L.P.length / 2 = 1
  rw [h2]

theorem bt_lit : (L.bctx fm R).bt = L.Q.length := by
  unfold BCtx.bt
  have V := (bvalid h fm R).2
  rw [V.qp.beta_eq V.top_lt, alpha_lit h h2, Nat.div_one]
  exact V.top_succ

/-- with two special primes, every prime of R is a block -/
theorem blockR_lit {D : ℤ} (hD : ∀ x ∈ L.Q ++ L.QMul, 3 * (x : ℤ) ≤ D) : ∀ k < 2 * (L.bctx fm R).bt, 3 * ((L.bctx fm R).blockR k : ℤ) ≤ D := by
  intro k hk
  rw [bt_lit h h2] at hk
  have e : (L.bctx fm R).blockR k = nth (L.Q ++ L.QMul) k := by
    unfold BCtx.blockR
    rw [alpha_lit h h2, prod_range_one, mul_one, add_zero]
    exact concat_nth (by have := h.len; omega)
  rw [e]
  exact hD _ (nth_mem (by rw [List.length_append]; have := h.len; omega))

theorem blockProd_lit {D : ℤ} (hD : ∀ x ∈ L.Q ++ L.QMul, 3 * (x : ℤ) ≤ D) :
    ∀ k < (L.bctx fm R).bt, 2 * ((L.bctx fm R).C.blockProd (L.bctx fm R).top k : ℤ) ≤ D := by
  intro k hk
  rw [bt_lit h h2] at hk
  have htop : (L.bctx fm R).top + 1 = L.Q.length := (bvalid h fm R).2.top_succ
  have e : (L.bctx fm R).C.blockProd (L.bctx fm R).top k = nth L.Q k := by
    unfold Ctx.blockProd
    rw [alpha_lit h h2, show blockLen (L.bctx fm R).top 1 k = 1 by unfold blockLen; omega, prod_range_one, mul_one, add_zero]
    rfl
  rw [e]
  have := hD _ (List.mem_append_left L.QMul (nth_mem hk))
  omega

omit h2 in
theorem Q_lit : (L.bctx fm R).Q = L.Q.prod := prod_nth _
omit h2 in
theorem QMul_lit : (L.bctx fm R).QMul = L.QMul.prod := by
  show ∏ i ∈ range L.Q.length, nth L.QMul i = _
  rw [h.len, prod_nth]
omit h h2 in
theorem P_lit : (L.bctx fm R).C.P = L.P.prod := prod_nth _

end

/-! ## PN14QP439 -/

theorem budget14 (fm : FloatModel) (R : bfv14.Rows) : Budget (bfv14.bctx fm R) 4 (3 * 2 ^ 54) 1 1 19 37 49 := by
  have eQ := Q_lit bfv14_good fm R
  have eM := QMul_lit bfv14_good fm R
  have eP := P_lit (L := bfv14) fm R
  have eb := bt_lit bfv14_good rfl fm R
  have et : (bfv14.bctx fm R).t = 65537 := rfl
  have el : (bfv14.bctx fm R).C.logN = 14 := rfl
  refine ⟨by rw [el]; norm_num, by norm_num, by norm_num, by norm_num, by norm_num, ?_, ?_⟩
  · rw [eP, eb, et, el]
    unfold C33.rotNoise
    decide +kernel
  · unfold C45.noise C45.liftBound bmulNoise
    rw [eP, eb, et, eQ, eM]
    decide +kernel

/-- **C58 at PN14QP439.** For up to four parties, all randomness within the sampler bounds and all messages: key generation, encryption, evaluation and decryption of every
program with `49*d + l ≤ 280`, `d` its multiplicative depth and `l` the number of other operations on a path, give the value of the program modulo 65537. -/
theorem client_bfv14 (fm : FloatModel) (R : bfv14.Rows) (rand : ℕ → PolyQP (bfv14.bctx fm R).C) (mform : PolyQP (bfv14.bctx fm R).C → PolyQP (bfv14.bctx fm R).C)
    {gs us es : ℕ → Nega (2 ^ bfv14.logN) ℤ} (hg : ∀ n, Bdd (gs n) 19) (hu : ∀ n, Bdd (us n) 1) (he : ∀ n, Bdd (es n) 19)
    {s r : String → Nega (2 ^ bfv14.logN) ℤ} (hs : ∀ id, Bdd (s id) 1) (hr : ∀ id, Bdd (r id) 1) (kg : KG (bfv14.bctx fm R).C)
    (ids : List String) (h0 : "0" ∉ ids) (hids : ids.length ≤ 4) (st : Enc (bfv14.bctx fm R).C) (ins : List (Input (bfv14.bctx fm R)))
    (hins : ∀ x ∈ ins, x.owner ∈ ids ∧ Encodes (bfv14.bctx fm R) x.pt x.msg 65537) {m : ℕ → Nega (2 ^ bfv14.logN) ℤ}
    (hm : ∀ (n : ℕ) (x : Input (bfv14.bctx fm R)), ins[n]? = some x → m n = x.msg) (c : Circ) (hc : ∀ n ∈ c.inputs, n < ins.length)
    (hdepth : 49 * c.mulDepth + c.linDepth ≤ 280) (oe : ℕ → Sched String) (o : List ℕ → ℕ → Sched String) (S : BScratch (bfv14.bctx fm R))
    (hS : S.Alloc) (od : Sched String) :
    ∃ p, client (C16.crsOf (newCrs rand mform fm (bfv14.bctx fm R).C.dims)) gs s r kg ids us es st ins c oe o S od = .ok p ∧
      (∃ Φ : Nega (2 ^ bfv14.logN) ℤ, ∀ i < (bfv14.bctx fm R).C.nQ, cf (p.coeffs i) = red ((bfv14.bctx fm R).C.q i) Φ) ∧
      ∀ Φ : Nega (2 ^ bfv14.logN) ℤ, (∀ i < (bfv14.bctx fm R).C.nQ, cf (p.coeffs i) = red ((bfv14.bctx fm R).C.q i) Φ) → ∀ x,
        (2 * (65537 * Φ x) + (bfv14.bctx fm R).Q) / (2 * (bfv14.bctx fm R).Q) ≡ c.val m x [ZMOD 65537] := by
  have hD : ∀ x ∈ bfv14.Q ++ bfv14.QMul, 3 * (x : ℤ) ≤ 3 * 2 ^ 54 := by decide +kernel
  have hN : ((2 ^ bfv14.logN : ℕ) : ℤ) = 2 ^ 14 := by decide +kernel
  have ht : (((bfv14.bctx fm R).t : ℕ) : ℤ) = 65537 := rfl
  have hf : freshNoise (bfv14.bctx fm R) 65537 1 19 19 1 ≤ 2 ^ 37 ∧ 0 ≤ freshNoise (bfv14.bctx fm R) 65537 1 19 19 1 := by
    unfold freshNoise; rw [ht, hN]; norm_num
  have hQ : (2 : ℤ) ^ 318 < (bfv14.bctx fm R).Q := by rw [Q_lit bfv14_good]; decide +kernel
  have := client_budget (bvalid bfv14_good fm R).2 (Be := 19) ⟨by show (2 : ℤ) * 19 < (nth bfv14.Q 0 : ℕ); decide +kernel, by show ∀ j < bfv14.P.length, (19 : ℤ) ≤ (nth bfv14.P j : ℕ); decide +kernel⟩ hg rand mform hs
    (by norm_num) hr (by norm_num) kg ids h0 hu he st ins hins c hc (blockR_lit bfv14_good rfl fm R hD) (blockProd_lit bfv14_good rfl fm R hD) hm (budget14 fm R) hids
    hf.2 hf.1 (by
      calc 2 * (2 : ℤ) ^ (37 + 49 * c.mulDepth + c.linDepth) = 2 ^ (37 + 49 * c.mulDepth + c.linDepth + 1) := by rw [pow_succ]; ring
        _ ≤ 2 ^ 318 := pow_le_pow_right₀ (by norm_num) (by omega)
        _ < _ := hQ) oe o S hS od
  rw [ht] at this
  exact this

/-! ## PN15QP880 -/

theorem budget15 (fm : FloatModel) (R : bfv15.Rows) : Budget (bfv15.bctx fm R) 4 (3 * 2 ^ 55) 1 1 19 38 51 := by
  have eQ := Q_lit bfv15_good fm R
  have eM := QMul_lit bfv15_good fm R
  have eP := P_lit (L := bfv15) fm R
  have eb := bt_lit bfv15_good rfl fm R
  have et : (bfv15.bctx fm R).t = 65537 := rfl
  have el : (bfv15.bctx fm R).C.logN = 15 := rfl
  refine ⟨by rw [el]; norm_num, by norm_num, by norm_num, by norm_num, by norm_num, ?_, ?_⟩
  · rw [eP, eb, et, el]
    unfold C33.rotNoise
    decide +kernel
  · unfold C45.noise C45.liftBound bmulNoise
    rw [eP, eb, et, eQ, eM]
    decide +kernel

/-- **C58 at PN15QP880.** For up to four parties, all randomness within the sampler bounds and all messages: key generation, encryption, evaluation and decryption of every
program with `51*d + l ≤ 720`, `d` its multiplicative depth and `l` the number of other operations on a path, give the value of the program modulo 65537. -/
theorem client_bfv15 (fm : FloatModel) (R : bfv15.Rows) (rand : ℕ → PolyQP (bfv15.bctx fm R).C) (mform : PolyQP (bfv15.bctx fm R).C → PolyQP (bfv15.bctx fm R).C)
    {gs us es : ℕ → Nega (2 ^ bfv15.logN) ℤ} (hg : ∀ n, Bdd (gs n) 19) (hu : ∀ n, Bdd (us n) 1) (he : ∀ n, Bdd (es n) 19)
    {s r : String → Nega (2 ^ bfv15.logN) ℤ} (hs : ∀ id, Bdd (s id) 1) (hr : ∀ id, Bdd (r id) 1) (kg : KG (bfv15.bctx fm R).C)
    (ids : List String) (h0 : "0" ∉ ids) (hids : ids.length ≤ 4) (st : Enc (bfv15.bctx fm R).C) (ins : List (Input (bfv15.bctx fm R)))
    (hins : ∀ x ∈ ins, x.owner ∈ ids ∧ Encodes (bfv15.bctx fm R) x.pt x.msg 65537) {m : ℕ → Nega (2 ^ bfv15.logN) ℤ}
    (hm : ∀ (n : ℕ) (x : Input (bfv15.bctx fm R)), ins[n]? = some x → m n = x.msg) (c : Circ) (hc : ∀ n ∈ c.inputs, n < ins.length)
    (hdepth : 51 * c.mulDepth + c.linDepth ≤ 720) (oe : ℕ → Sched String) (o : List ℕ → ℕ → Sched String) (S : BScratch (bfv15.bctx fm R))
    (hS : S.Alloc) (od : Sched String) :
    ∃ p, client (C16.crsOf (newCrs rand mform fm (bfv15.bctx fm R).C.dims)) gs s r kg ids us es st ins c oe o S od = .ok p ∧
      (∃ Φ : Nega (2 ^ bfv15.logN) ℤ, ∀ i < (bfv15.bctx fm R).C.nQ, cf (p.coeffs i) = red ((bfv15.bctx fm R).C.q i) Φ) ∧
      ∀ Φ : Nega (2 ^ bfv15.logN) ℤ, (∀ i < (bfv15.bctx fm R).C.nQ, cf (p.coeffs i) = red ((bfv15.bctx fm R).C.q i) Φ) → ∀ x,
        (2 * (65537 * Φ x) + (bfv15.bctx fm R).Q) / (2 * (bfv15.bctx fm R).Q) ≡ c.val m x [ZMOD 65537] := by
  have hD : ∀ x ∈ bfv15.Q ++ bfv15.QMul, 3 * (x : ℤ) ≤ 3 * 2 ^ 55 := by decide +kernel
  have hN : ((2 ^ bfv15.logN : ℕ) : ℤ) = 2 ^ 15 := by decide +kernel
  have ht : (((bfv15.bctx fm R).t : ℕ) : ℤ) = 65537 := rfl
  have hf : freshNoise (bfv15.bctx fm R) 65537 1 19 19 1 ≤ 2 ^ 38 ∧ 0 ≤ freshNoise (bfv15.bctx fm R) 65537 1 19 19 1 := by
    unfold freshNoise; rw [ht, hN]; norm_num
  have hQ : (2 : ℤ) ^ 759 < (bfv15.bctx fm R).Q := by rw [Q_lit bfv15_good]; decide +kernel
  have := client_budget (bvalid bfv15_good fm R).2 (Be := 19) ⟨by show (2 : ℤ) * 19 < (nth bfv15.Q 0 : ℕ); decide +kernel, by show ∀ j < bfv15.P.length, (19 : ℤ) ≤ (nth bfv15.P j : ℕ); decide +kernel⟩ hg rand mform hs
    (by norm_num) hr (by norm_num) kg ids h0 hu he st ins hins c hc (blockR_lit bfv15_good rfl fm R hD) (blockProd_lit bfv15_good rfl fm R hD) hm (budget15 fm R) hids
    hf.2 hf.1 (by
      calc 2 * (2 : ℤ) ^ (38 + 51 * c.mulDepth + c.linDepth) = 2 ^ (38 + 51 * c.mulDepth + c.linDepth + 1) := by rw [pow_succ]; ring
        _ ≤ 2 ^ 759 := pow_le_pow_right₀ (by norm_num) (by omega)
        _ < _ := hQ) oe o S hS od
  rw [ht] at this
  exact this

/-- **instance**: four parties, any messages, the program `(m0*m1 + m2) * rotate(m2*m3, 5)`: encodings exist, and the hypotheses of `client_bfv14` are met with the
memory of a new evaluator -/
example (fm : FloatModel) (R : bfv14.Rows) (rand : ℕ → PolyQP (bfv14.bctx fm R).C) (mform : PolyQP (bfv14.bctx fm R).C → PolyQP (bfv14.bctx fm R).C)
    (m : ℕ → Nega (2 ^ bfv14.logN) ℤ) (kg : KG (bfv14.bctx fm R).C) (st : Enc (bfv14.bctx fm R).C) (o : List ℕ → ℕ → Sched String) (od : Sched String) :
    ∃ (ins : List (Input (bfv14.bctx fm R))) (p : Poly (bfv14.bctx fm R).C), ins.map Input.msg = [m 0, m 1, m 2, m 3] ∧
      client (C16.crsOf (newCrs rand mform fm (bfv14.bctx fm R).C.dims)) (fun n x => if x = 0 then n % 20 else 0) (fun _ _ => -1) (fun _ x => if x = 3 then 1 else 0) kg
        ["alice", "bob", "carol", "dave"] (fun n x => if x = 1 then n % 2 else 0) (fun n _ => n % 20) st ins
        (.mul (.add (.mul (.input 0) (.input 1)) (.input 2)) (.rot 5 (.mul (.input 2) (.input 3)))) (fun _ => o []  0) o (newBfvKeySwitcher _) od = .ok p ∧
      ∀ Φ : Nega (2 ^ bfv14.logN) ℤ, (∀ i < (bfv14.bctx fm R).C.nQ, cf (p.coeffs i) = red ((bfv14.bctx fm R).C.q i) Φ) → ∀ x,
        (2 * (65537 * Φ x) + (bfv14.bctx fm R).Q) / (2 * (bfv14.bctx fm R).Q) ≡
          ((m 0 * m 1 + m 2) * galois (5 ^ 5) (m 2 * m 3)) x [ZMOD 65537] := by
  choose pt hpt using fun n => encodes_exists (B := bfv14.bctx fm R) (by show 0 < 65537; norm_num) (m n)
  have h20 : ∀ n : ℕ, ((n % 20 : ℕ) : ℤ) ≤ 19 := fun n => by have := Nat.mod_lt n (show 0 < 20 by norm_num); omega
  obtain ⟨p, p1, -, p3⟩ := client_bfv14 fm R rand mform (gs := fun n x => if x = 0 then n % 20 else 0) (us := fun n x => if x = 1 then n % 2 else 0)
    (es := fun n _ => n % 20) (s := fun _ _ => -1) (r := fun _ x => if x = 3 then 1 else 0)
    (fun n x => by
      show |if x = 0 then ((n : ℤ) % 20) else 0| ≤ 19
      have := h20 n; push_cast at this
      have h3 := Int.emod_nonneg (n : ℤ) (show (20 : ℤ) ≠ 0 by norm_num)
      split_ifs
      · rw [abs_of_nonneg h3]; exact this
      · norm_num)
    (fun n x => by
      show |if x = 1 then ((n : ℤ) % 2) else 0| ≤ 1
      split_ifs
      · rw [abs_le]; omega
      · norm_num)
    (fun n x => by
      show |(n : ℤ) % 20| ≤ 19
      rw [abs_le]; omega)
    (fun id x => by show |(-1 : ℤ)| ≤ 1; norm_num) (fun id x => by show |if x = 3 then (1 : ℤ) else 0| ≤ 1; split_ifs <;> norm_num) kg
    ["alice", "bob", "carol", "dave"] (by decide) (by decide) st
    [⟨"alice", pt 0, m 0⟩, ⟨"bob", pt 1, m 1⟩, ⟨"carol", pt 2, m 2⟩, ⟨"dave", pt 3, m 3⟩]
    (by simp only [List.forall_mem_cons, List.not_mem_nil, false_imp_iff, implies_true, and_true]
        exact ⟨⟨by decide, hpt 0⟩, ⟨by decide, hpt 1⟩, ⟨by decide, hpt 2⟩, ⟨by decide, hpt 3⟩⟩)
    (m := m) (fun n x hx => by
      rcases n with _ | _ | _ | _ | n
      all_goals first | (simp at hx; done) | (injection hx with hx; subst hx; rfl))
    (.mul (.add (.mul (.input 0) (.input 1)) (.input 2)) (.rot 5 (.mul (.input 2) (.input 3)))) (by
      show ∀ n ∈ _, n < 4
      decide) (by decide) (fun _ => o [] 0) o
    (newBfvKeySwitcher _) (newBfvKeySwitcher_alloc _) od
  exact ⟨_, p, rfl, p1, p3⟩

end MKHE.C58
