import Verif.Props.HeapCrypt
import Verif.Props.BfvLiterals

set_option autoImplicit false

/-!
# C63: BFV clients on the heap at the shipped parameters

`hclient_bfv14` starts from any well-formed heap; the instance at the end starts from a heap that only holds a new encryptor's plaintext pool.
-/

namespace MKHE.C63
open Finset Nega C58 Lits C61 Heap

/-- **C63, a BFV client on the heap with a budget** -/
theorem hclient_budget {N : ℕ} [NeZero N] {B : BCtx N} (V : B.Valid) {Be : ℤ} (hB : B.C.SmallBound Be) {gs : ℕ → Nega N ℤ} (hg : ∀ n, Bdd (gs n) Be)
    (rand : ℕ → PolyQP B.C) (mform : PolyQP B.C → PolyQP B.C) {s r : String → Nega N ℤ} {Sb Rb : ℤ} (hs : ∀ id, Bdd (s id) Sb) (hSb : Sb ≤ Be)
    (hr : ∀ id, Bdd (r id) Rb) (hRb : Rb ≤ Be) (kg : KG B.C) (ids : List String) (h0 : "0" ∉ ids) {us es : ℕ → Nega N ℤ} {Bu Bg Bm : ℤ}
    (hu : ∀ n, Bdd (us n) Bu) (he : ∀ n, Bdd (es n) Bg) (st : Enc B.C) (ins : List (Input B))
    (hins : ∀ x ∈ ins, x.owner ∈ ids ∧ Encodes B x.pt x.msg Bm) (c : Circ) (hc : ∀ n ∈ c.inputs, n < ins.length)
    {D : ℤ} (hD : ∀ k < 2 * B.bt, 3 * (B.blockR k : ℤ) ≤ D) (hD' : ∀ k < B.bt, 2 * (B.C.blockProd B.top k : ℤ) ≤ D)
    {m : ℕ → Nega N ℤ} (hm : ∀ (n : ℕ) (x : Input B), ins[n]? = some x → m n = x.msg)
    {k F M : ℕ} (H : Budget B k D Sb Rb Be F M) (hk : ids.length ≤ k) (hF0 : 0 ≤ freshNoise B Bm Bu Bg Be Sb) (hF : freshNoise B Bm Bu Bg Be Sb ≤ 2 ^ F)
    (hbits : 2 * (2 : ℤ) ^ (F + M * c.mulDepth + c.linDepth) < B.Q)
    (oe : ℕ → Sched String) (o : List ℕ → ℕ → Sched String) (S : BScratch B) (hS : S.Alloc) (od : Sched String)
    {h : Heap N} (W : WF h) {pool : ℕ} (hp : pool < h.npoly) (hpl : h.len pool = B.C.nQ) :
    ∃ p h', hclient (C16.crsOf (newCrs rand mform B.C.fm B.C.dims)) gs s r kg ids us es st pool ins c oe o S od h = .ok (p, h') ∧ LaterP pool h h' ∧
      (∃ Φ : Nega N ℤ, ∀ i < B.C.nQ, cf ((h'.view B.C p).coeffs i) = red (B.C.q i) Φ) ∧
      ∀ Φ : Nega N ℤ, (∀ i < B.C.nQ, cf ((h'.view B.C p).coeffs i) = red (B.C.q i) Φ) → ∀ x,
        (2 * (B.t * Φ x) + B.Q) / (2 * B.Q) ≡ c.val m x [ZMOD B.t] := by
  obtain ⟨c1, c2⟩ := C16.newCrs_default V.qp rand mform
  have hb : (2 : ℤ) ^ c.bits F M ≤ 2 ^ (F + M * c.mulDepth + c.linDepth) := pow_le_pow_right₀ (by norm_num) (Circ.bits_le F M c)
  have hpos : (0 : ℤ) < 2 ^ (F + M * c.mulDepth + c.linDepth) := by positivity
  have hn := Circ.noise_le_bits V H (crs := C16.crsOf (newCrs rand mform B.C.fm B.C.dims))
    (I := fun n => {((ins[n]?).map Input.owner).getD ""}) (U := ids.toFinset) ((List.toFinset_card_le ids).trans hk)
    (Bin := fun _ => freshNoise B Bm Bu Bg Be Sb) (fun _ => hF0) (fun _ => hF) c (fun n hn => by
      have h1 := hc n hn
      rw [singleton_subset_iff, List.getElem?_eq_getElem h1]
      exact List.mem_toFinset.mpr (hins _ (List.getElem_mem h1)).1) (by linarith)
  exact hclient_ok V hB hg c1 c2 hs hSb hr hRb kg ids h0 hu he st ins hins c hc hD hD'
    (owner := fun n => ((ins[n]?).map Input.owner).getD "") (m := m) (fun n x hx => ⟨by rw [hx]; rfl, hm n x hx⟩) (by linarith) oe o S hS od W hp hpl

/-- **C63 at PN14QP439** -/
theorem hclient_bfv14 (fm : FloatModel) (R : bfv14.Rows) (rand : ℕ → PolyQP (bfv14.bctx fm R).C) (mform : PolyQP (bfv14.bctx fm R).C → PolyQP (bfv14.bctx fm R).C)
    {gs us es : ℕ → Nega (2 ^ bfv14.logN) ℤ} (hg : ∀ n, Bdd (gs n) 19) (hu : ∀ n, Bdd (us n) 1) (he : ∀ n, Bdd (es n) 19)
    {s r : String → Nega (2 ^ bfv14.logN) ℤ} (hs : ∀ id, Bdd (s id) 1) (hr : ∀ id, Bdd (r id) 1) (kg : KG (bfv14.bctx fm R).C)
    (ids : List String) (h0 : "0" ∉ ids) (hids : ids.length ≤ 4) (st : Enc (bfv14.bctx fm R).C) (ins : List (Input (bfv14.bctx fm R)))
    (hins : ∀ x ∈ ins, x.owner ∈ ids ∧ Encodes (bfv14.bctx fm R) x.pt x.msg 65537) {m : ℕ → Nega (2 ^ bfv14.logN) ℤ}
    (hm : ∀ (n : ℕ) (x : Input (bfv14.bctx fm R)), ins[n]? = some x → m n = x.msg) (c : Circ) (hc : ∀ n ∈ c.inputs, n < ins.length)
    (hdepth : 49 * c.mulDepth + c.linDepth ≤ 280) (oe : ℕ → Sched String) (o : List ℕ → ℕ → Sched String) (S : BScratch (bfv14.bctx fm R))
    (hS : S.Alloc) (od : Sched String) {h : Heap (2 ^ bfv14.logN)} (W : WF h) {pool : ℕ} (hp : pool < h.npoly) (hpl : h.len pool = (bfv14.bctx fm R).C.nQ) :
    ∃ p h', hclient (C16.crsOf (newCrs rand mform fm (bfv14.bctx fm R).C.dims)) gs s r kg ids us es st pool ins c oe o S od h = .ok (p, h') ∧ LaterP pool h h' ∧
      (∃ Φ : Nega (2 ^ bfv14.logN) ℤ, ∀ i < (bfv14.bctx fm R).C.nQ, cf ((h'.view (bfv14.bctx fm R).C p).coeffs i) = red ((bfv14.bctx fm R).C.q i) Φ) ∧
      ∀ Φ : Nega (2 ^ bfv14.logN) ℤ, (∀ i < (bfv14.bctx fm R).C.nQ, cf ((h'.view (bfv14.bctx fm R).C p).coeffs i) = red ((bfv14.bctx fm R).C.q i) Φ) → ∀ x,
        (2 * (65537 * Φ x) + (bfv14.bctx fm R).Q) / (2 * (bfv14.bctx fm R).Q) ≡ c.val m x [ZMOD 65537] := by
  have hD : ∀ x ∈ bfv14.Q ++ bfv14.QMul, 3 * (x : ℤ) ≤ 3 * 2 ^ 54 := by decide +kernel
  have hN : ((2 ^ bfv14.logN : ℕ) : ℤ) = 2 ^ 14 := by decide +kernel
  have ht : (((bfv14.bctx fm R).t : ℕ) : ℤ) = 65537 := rfl
  have hf : freshNoise (bfv14.bctx fm R) 65537 1 19 19 1 ≤ 2 ^ 37 ∧ 0 ≤ freshNoise (bfv14.bctx fm R) 65537 1 19 19 1 := by
    unfold freshNoise; rw [ht, hN]; norm_num
  have hQ : (2 : ℤ) ^ 318 < (bfv14.bctx fm R).Q := by rw [Q_lit bfv14_good]; decide +kernel
  have := hclient_budget (bvalid bfv14_good fm R).2 (Be := 19) ⟨by show (2 : ℤ) * 19 < (nth bfv14.Q 0 : ℕ); decide +kernel, by show ∀ j < bfv14.P.length, (19 : ℤ) ≤ (nth bfv14.P j : ℕ); decide +kernel⟩ hg rand mform hs
    (by norm_num) hr (by norm_num) kg ids h0 hu he st ins hins c hc (blockR_lit bfv14_good rfl fm R hD) (blockProd_lit bfv14_good rfl fm R hD) hm (budget14 fm R) hids
    hf.2 hf.1 (by
      calc 2 * (2 : ℤ) ^ (37 + 49 * c.mulDepth + c.linDepth) = 2 ^ (37 + 49 * c.mulDepth + c.linDepth + 1) := by rw [pow_succ]; ring
        _ ≤ 2 ^ 318 := pow_le_pow_right₀ (by norm_num) (by omega)
        _ < _ := hQ) oe o S hS od W hp hpl
  rw [ht] at this
  exact this

/-- a heap with nothing but the plaintext pool of a new encryptor -/
def newEncHeap (N : ℕ) (level : ℕ) : Heap N := ((Heap.empty : Heap N).newPoly level).2

theorem newEncHeap_ok {N : ℕ} [NeZero N] (level : ℕ) : WF (newEncHeap N level) ∧ 0 < (newEncHeap N level).npoly ∧ (newEncHeap N level).len 0 = level + 1 := by
  obtain ⟨a1, -, -, -, -, a6⟩ := allocPoly_inv (empty_wf (N := N)) false (List.replicate (level + 1) 0)
  refine ⟨a1, ?_, ?_⟩
  · show 0 < ((Heap.empty : Heap N).allocPoly false (List.replicate (level + 1) 0)).2.npoly
    rw [a6]; exact Nat.succ_pos _
  · show ((Function.update (Heap.empty : Heap N).poly 0 ⟨(List.range (List.replicate (level + 1) (0 : RowBuf N)).length).map (0 + ·), false⟩ : ℕ → PolyObj) 0).coeffs.length = _
    rw [Function.update_self, List.length_map, List.length_range, List.length_replicate]

/-- a secret, error or sampler outcome of the instance below -/
def ones (N : ℕ) : Nega N ℤ := fun _ => 1

/-- **instance**: two parties, two messages, a product minus a rotated input, starting from such a heap and stale scratch memory -/
example (fm : FloatModel) (R : bfv14.Rows) (rand : ℕ → PolyQP (bfv14.bctx fm R).C) (mform : PolyQP (bfv14.bctx fm R).C → PolyQP (bfv14.bctx fm R).C)
    (kg : KG (bfv14.bctx fm R).C) (st : Enc (bfv14.bctx fm R).C) (o : List ℕ → ℕ → Sched String) (S : BScratch (bfv14.bctx fm R)) (hS : S.Alloc)
    (m0 m1 : Nega (2 ^ bfv14.logN) ℤ) : ∃ ins : List (Input (bfv14.bctx fm R)), ins.map Input.msg = [m0, m1] ∧ ins.map Input.owner = ["a", "b"] ∧ ∃ p h',
      hclient (C16.crsOf (newCrs rand mform fm (bfv14.bctx fm R).C.dims)) (fun _ => ones _) (fun _ => ones _) (fun _ => ones _) kg ["a", "b"] (fun _ => ones _) (fun _ => ones _) st 0 ins
        (.sub (.mul (.input 0) (.input 1)) (.rot (-3) (.input 0))) (fun _ _ => Order.id) o S (fun _ => Order.id)
        (newEncHeap (2 ^ bfv14.logN) (bfv14.bctx fm R).top) = .ok (p, h') := by
  have hb : Bdd (ones (2 ^ bfv14.logN)) 1 := fun x => le_of_eq (abs_one)
  have hb' : Bdd (ones (2 ^ bfv14.logN)) 19 := fun x => (hb x).trans (by norm_num)
  obtain ⟨p0, h0⟩ := C58.encodes_exists (B := bfv14.bctx fm R) (by show 0 < 65537; norm_num) m0
  obtain ⟨p1, h1⟩ := C58.encodes_exists (B := bfv14.bctx fm R) (by show 0 < 65537; norm_num) m1
  obtain ⟨a1, a2, a3⟩ := newEncHeap_ok (N := 2 ^ bfv14.logN) (bfv14.bctx fm R).top
  refine ⟨[⟨"a", p0, m0⟩, ⟨"b", p1, m1⟩], rfl, rfl, ?_⟩
  obtain ⟨p, h', e, -⟩ := hclient_bfv14 fm R rand mform (gs := fun _ => ones _) (us := fun _ => ones _) (es := fun _ => ones _) (fun _ => hb')
    (fun _ => hb) (fun _ => hb') (s := fun _ => ones _) (r := fun _ => ones _) (fun _ => hb) (fun _ => hb) kg ["a", "b"] (by decide)
    (by decide) st [⟨"a", p0, m0⟩, ⟨"b", p1, m1⟩] (by
      intro x hx
      simp only [List.mem_cons, List.not_mem_nil, or_false] at hx
      rcases hx with rfl | rfl
      · exact ⟨by simp, h0⟩
      · exact ⟨by simp, h1⟩) (m := fun n => if n = 0 then m0 else m1) (fun n x hx => by
      rcases n with _ | _ | n
      · injection hx with hx; rw [← hx]; rfl
      · injection hx with hx; rw [← hx]; rfl
      · simp at hx)
    (.sub (.mul (.input 0) (.input 1)) (.rot (-3) (.input 0))) (by
      intro n hn
      have : n = 0 ∨ n = 1 := by
        have h2 : n ∈ ({0} ∪ {1} ∪ {0} : Finset ℕ) := hn
        simp at h2; tauto
      show n < 2
      omega) (by decide)
    (fun _ _ => Order.id) o S hS (fun _ => Order.id) a1 a2 (by rw [a3]; exact (bvalid bfv14_good fm R).2.top_succ)
  exact ⟨p, h', e⟩

end MKHE.C63
