import Verif.Props.Batch

set_option autoImplicit false

/-!
# C74 at the parameters that ship with the library

T = 65537 is prime and `2N` divides T - 1 at both sets of parameters, so the root of unity exists and messages can be batched.
-/

namespace MKHE.C74
open Finset Nega MKHE.Batch MKHE.C58 MKHE.C61 MKHE.Lits

theorem prime_65537 : Nat.Prime 65537 := by norm_num

instance t14 (fm : FloatModel) (R : bfv14.Rows) : Fact (bfv14.bctx fm R).t.Prime := ⟨prime_65537⟩
instance t15 (fm : FloatModel) (R : bfv15.Rows) : Fact (bfv15.bctx fm R).t.Prime := ⟨prime_65537⟩

/-- batching is possible at PN14QP439 -/
theorem root14 (fm : FloatModel) (R : bfv14.Rows) : ∃ ψ : ZMod (bfv14.bctx fm R).t, IsPrimitiveRoot ψ (2 * 2 ^ bfv14.logN) :=
  exists_root (N := 2 ^ bfv14.logN) (t := (bfv14.bctx fm R).t) (by
    show 2 * 2 ^ 14 ∣ 65537 - 1
    exact ⟨2, by norm_num⟩)

/-- batching is possible at PN15QP880 -/
theorem root15 (fm : FloatModel) (R : bfv15.Rows) : ∃ ψ : ZMod (bfv15.bctx fm R).t, IsPrimitiveRoot ψ (2 * 2 ^ bfv15.logN) :=
  exists_root (N := 2 ^ bfv15.logN) (t := (bfv15.bctx fm R).t) (by
    show 2 * 2 ^ 15 ∣ 65537 - 1
    exact ⟨1, by norm_num⟩)

/-- the matrices of the messages of a client, from the result for polynomials -/
theorem batch_of {N : ℕ} [NeZero N] {B : BCtx N} [Fact B.t.Prime] {ψ : ZMod B.t} (V : B.Valid) (hψ : IsPrimitiveRoot ψ (2 * N)) (ins : List (Input B)) {z : ℕ → Mat B.t}
    (hz : ∀ (n : ℕ) (x : Input B), ins[n]? = some x → entries ψ x.msg = z n) (c : Circ) (hc : ∀ n ∈ c.inputs, n < ins.length) {p : Poly B.C}
    (h1 : ∃ Φ : Nega N ℤ, ∀ i < B.C.nQ, cf (p.coeffs i) = red (B.C.q i) Φ)
    (h2 : ∀ Φ : Nega N ℤ, (∀ i < B.C.nQ, cf (p.coeffs i) = red (B.C.q i) Φ) → ∀ x,
      (2 * (B.t * Φ x) + B.Q) / (2 * B.Q) ≡ c.val (fun n => ((ins[n]?).map Input.msg).getD 0) x [ZMOD B.t]) : Reads B ψ p (Circ.mat z c) := by
  have := reads_of (ψ := ψ) h1 h2
  rw [circ_entries V hψ] at this
  rw [Circ.mat_congr (z' := z) c fun n hn => by
    have h1 := hc n hn
    show entries ψ (((ins[n]?).map Input.msg).getD 0) = z n
    rw [List.getElem?_eq_getElem h1]
    exact hz n _ (List.getElem?_eq_getElem h1)] at this
  exact this

/-- **C74 at PN14QP439**: up to four parties, every program with `49*d + l ≤ 280`. -/
theorem batch_bfv14 (fm : FloatModel) (R : bfv14.Rows) {ψ : ZMod (bfv14.bctx fm R).t} (hψ : IsPrimitiveRoot ψ (2 * 2 ^ bfv14.logN))
    (rand : ℕ → PolyQP (bfv14.bctx fm R).C) (mform : PolyQP (bfv14.bctx fm R).C → PolyQP (bfv14.bctx fm R).C)
    {gs us es : ℕ → Nega (2 ^ bfv14.logN) ℤ} (hg : ∀ n, Bdd (gs n) 19) (hu : ∀ n, Bdd (us n) 1) (he : ∀ n, Bdd (es n) 19)
    {s r : String → Nega (2 ^ bfv14.logN) ℤ} (hs : ∀ id, Bdd (s id) 1) (hr : ∀ id, Bdd (r id) 1) (kg : KG (bfv14.bctx fm R).C)
    (ids : List String) (h0 : "0" ∉ ids) (hids : ids.length ≤ 4) (st : Enc (bfv14.bctx fm R).C) (ins : List (Input (bfv14.bctx fm R)))
    (hins : ∀ x ∈ ins, x.owner ∈ ids ∧ Encodes (bfv14.bctx fm R) x.pt x.msg 65537) {z : ℕ → Mat (bfv14.bctx fm R).t}
    (hz : ∀ (n : ℕ) (x : Input (bfv14.bctx fm R)), ins[n]? = some x → entries ψ x.msg = z n) (c : Circ) (hc : ∀ n ∈ c.inputs, n < ins.length)
    (hdepth : 49 * c.mulDepth + c.linDepth ≤ 280) (oe : ℕ → Sched String) (o : List ℕ → ℕ → Sched String) (S : BScratch (bfv14.bctx fm R))
    (hS : S.Alloc) (od : Sched String) :
    ∃ p, client (C16.crsOf (newCrs rand mform fm (bfv14.bctx fm R).C.dims)) gs s r kg ids us es st ins c oe o S od = .ok p ∧
      Reads (bfv14.bctx fm R) ψ p (Circ.mat z c) := by
  obtain ⟨p, p1, p2, p3⟩ := client_bfv14 fm R rand mform hg hu he hs hr kg ids h0 hids st ins hins
    (m := fun n => ((ins[n]?).map Input.msg).getD 0) (fun n x hx => by simp only [hx]; rfl) c hc hdepth oe o S hS od
  exact ⟨p, p1, batch_of (bvalid bfv14_good fm R).2 hψ ins hz c hc p2 p3⟩

/-- **C74 at PN15QP880**: up to four parties, every program with `51*d + l ≤ 720`. -/
theorem batch_bfv15 (fm : FloatModel) (R : bfv15.Rows) {ψ : ZMod (bfv15.bctx fm R).t} (hψ : IsPrimitiveRoot ψ (2 * 2 ^ bfv15.logN))
    (rand : ℕ → PolyQP (bfv15.bctx fm R).C) (mform : PolyQP (bfv15.bctx fm R).C → PolyQP (bfv15.bctx fm R).C)
    {gs us es : ℕ → Nega (2 ^ bfv15.logN) ℤ} (hg : ∀ n, Bdd (gs n) 19) (hu : ∀ n, Bdd (us n) 1) (he : ∀ n, Bdd (es n) 19)
    {s r : String → Nega (2 ^ bfv15.logN) ℤ} (hs : ∀ id, Bdd (s id) 1) (hr : ∀ id, Bdd (r id) 1) (kg : KG (bfv15.bctx fm R).C)
    (ids : List String) (h0 : "0" ∉ ids) (hids : ids.length ≤ 4) (st : Enc (bfv15.bctx fm R).C) (ins : List (Input (bfv15.bctx fm R)))
    (hins : ∀ x ∈ ins, x.owner ∈ ids ∧ Encodes (bfv15.bctx fm R) x.pt x.msg 65537) {z : ℕ → Mat (bfv15.bctx fm R).t}
    (hz : ∀ (n : ℕ) (x : Input (bfv15.bctx fm R)), ins[n]? = some x → entries ψ x.msg = z n) (c : Circ) (hc : ∀ n ∈ c.inputs, n < ins.length)
    (hdepth : 51 * c.mulDepth + c.linDepth ≤ 720) (oe : ℕ → Sched String) (o : List ℕ → ℕ → Sched String) (S : BScratch (bfv15.bctx fm R))
    (hS : S.Alloc) (od : Sched String) :
    ∃ p, client (C16.crsOf (newCrs rand mform fm (bfv15.bctx fm R).C.dims)) gs s r kg ids us es st ins c oe o S od = .ok p ∧
      Reads (bfv15.bctx fm R) ψ p (Circ.mat z c) := by
  obtain ⟨p, p1, p2, p3⟩ := client_bfv15 fm R rand mform hg hu he hs hr kg ids h0 hids st ins hins
    (m := fun n => ((ins[n]?).map Input.msg).getD 0) (fun n x hx => by simp only [hx]; rfl) c hc hdepth oe o S hS od
  exact ⟨p, p1, batch_of (bvalid bfv15_good fm R).2 hψ ins hz c hc p2 p3⟩

/-- **instance**: two parties with any two matrices `x`, `y` of `2 × 8192` numbers modulo 65537; the program `x * rotate(y, -3) - swap(x)`. Plaintexts that carry the
matrices exist, the client succeeds, and the matrix read has in row `a` and column `j` the number `x a j * y a (j-3) - x (!a) j`. -/
example (fm : FloatModel) (R : bfv14.Rows) (rand : ℕ → PolyQP (bfv14.bctx fm R).C) (mform : PolyQP (bfv14.bctx fm R).C → PolyQP (bfv14.bctx fm R).C)
    (kg : KG (bfv14.bctx fm R).C) (st : Enc (bfv14.bctx fm R).C) (o : List ℕ → ℕ → Sched String) (od : Sched String) (x y : Bool → ℕ → ZMod (bfv14.bctx fm R).t) :
    ∃ (ψ : ZMod (bfv14.bctx fm R).t) (X Y : Mat (bfv14.bctx fm R).t) (ins : List (Input (bfv14.bctx fm R))) (p : Poly (bfv14.bctx fm R).C) (w : Mat (bfv14.bctx fm R).t),
      IsPrimitiveRoot ψ (2 * 2 ^ bfv14.logN) ∧ (∀ row (j : ℕ), j < 8192 → X row (j : ℤ) = x row j ∧ Y row (j : ℤ) = y row j) ∧
      ins.map Input.owner = ["alice", "bob"] ∧
      client (C16.crsOf (newCrs rand mform fm (bfv14.bctx fm R).C.dims)) (fun _ _ => 7) (fun _ _ => -1) (fun _ _ => 1) kg
        ["alice", "bob"] (fun _ _ => 1) (fun _ _ => -5) st ins
        (.sub (.mul (.input 0) (.rot (-3) (.input 1))) (.conj (.input 0))) (fun _ => o []  0) o (newBfvKeySwitcher _) od = .ok p ∧
      Reads (bfv14.bctx fm R) ψ p w ∧ ∀ row j, w row j = X row j * Y row (j - 3) - X (!row) j := by
  obtain ⟨ψ, hψ⟩ := root14 fm R
  have V := (bvalid bfv14_good fm R).2
  obtain ⟨pt0, X, ⟨m0, hm0, e0⟩, hX, -⟩ := writes_exists V hψ x
  obtain ⟨pt1, Y, ⟨m1, hm1, e1⟩, hY, -⟩ := writes_exists V hψ y
  have hN : (2 ^ bfv14.logN : ℕ) / 2 = 8192 := by decide +kernel
  rw [hN] at hX hY
  have habs : ∀ (a b : ℤ), |a| ≤ b → ∀ _n : ℕ, Bdd (fun _ => a : Nega (2 ^ bfv14.logN) ℤ) b := fun a b h _ _ => h
  obtain ⟨p, p1, p2⟩ := batch_bfv14 fm R hψ rand mform (gs := fun _ _ => 7) (us := fun _ _ => 1) (es := fun _ _ => -5) (s := fun _ _ => -1) (r := fun _ _ => 1)
    (habs 7 19 (by norm_num)) (habs 1 1 (by norm_num)) (habs (-5) 19 (by norm_num)) (fun _ => habs (-1) 1 (by norm_num) 0) (fun _ => habs 1 1 (by norm_num) 0) kg
    ["alice", "bob"] (by decide) (by decide) st [⟨"alice", pt0, m0⟩, ⟨"bob", pt1, m1⟩]
    (by
      intro i hi
      simp only [List.mem_cons, List.not_mem_nil, or_false] at hi
      rcases hi with rfl | rfl
      · exact ⟨by simp, hm0⟩
      · exact ⟨by simp, hm1⟩) (z := fun n => if n = 0 then X else Y)
    (by
      intro n i hi
      match n, hi with
      | 0, hi => cases hi; exact e0
      | 1, hi => cases hi; exact e1)
    (.sub (.mul (.input 0) (.rot (-3) (.input 1))) (.conj (.input 0))) (by
      show ∀ n ∈ (({0} ∪ {1} ∪ {0} : Finset ℕ)), n < 2
      decide) (by decide) (fun _ => o [] 0) o (newBfvKeySwitcher _) (newBfvKeySwitcher_alloc _) od
  exact ⟨ψ, X, Y, _, p, _, hψ, fun row j hj => ⟨hX row j hj, hY row j hj⟩, rfl, p1, p2, fun row j => rfl⟩

end MKHE.C74
