import Verif.Lemmas.Batch
import Verif.Props.BfvBudget
import Verif.Props.BfvLiterals
import Verif.Props.BfvProg
import Verif.Props.BfvExample

set_option autoImplicit false

/-!
# C74: BFV on batched messages

A user of `mkbfv` does not see polynomials but matrices of two rows and `N/2` columns over the integers modulo T (`mkbfv.Message`). For a prime T with a primitive
`2N`-th root of unity the theorems of C58 are restated for matrices: `AddNew`, `SubNew` and `MulRelinNew` work entry by entry, `RotateNew(r)` rotates the columns of both
rows by `r`, and `ConjugateNew` exchanges the rows. The matrices (`Spec/Batch.lean`) are those of the lattigo encoder, which is not modelled: what it has to satisfy is
`Writes` and `Reads`.
-/

namespace MKHE.C74
open Finset Nega MKHE.Batch MKHE.C58

variable {N : ℕ} [NeZero N] {B : BCtx N}

/-- the plaintext carries the matrix `z`: it is the scaled encoding of a polynomial whose entries are `z`, with an error of at most `Bm` -/
def Writes (B : BCtx N) (ψ : ZMod B.t) (pt : Poly B.C) (z : Mat B.t) (Bm : ℤ) : Prop := ∃ m : Nega N ℤ, Encodes B pt m Bm ∧ entries ψ m = z

/-- the decoder reads the matrix `z` from the plaintext: its rows are the residues of a polynomial with integer coefficients, and for every such polynomial `Φ`
the entries of `round(T Φ / Q)` are `z` -/
def Reads (B : BCtx N) (ψ : ZMod B.t) (pt : Poly B.C) (z : Mat B.t) : Prop :=
  (∃ Φ : Nega N ℤ, ∀ i < B.C.nQ, cf (pt.coeffs i) = red (B.C.q i) Φ) ∧
    ∀ Φ : Nega N ℤ, (∀ i < B.C.nQ, cf (pt.coeffs i) = red (B.C.q i) Φ) → entries ψ (fun x => (2 * (B.t * Φ x) + B.Q) / (2 * B.Q)) = z

/-- the value of a program on matrices -/
def Circ.mat {t : ℕ} (z : ℕ → Mat t) : Circ → Mat t
  | .input n => z n
  | .add a b => Batch.add (Circ.mat z a) (Circ.mat z b)
  | .sub a b => Batch.sub (Circ.mat z a) (Circ.mat z b)
  | .mul a b => Batch.mul (Circ.mat z a) (Circ.mat z b)
  | .rot r a => rotCols r (Circ.mat z a)
  | .conj a => swapRows (Circ.mat z a)

variable [Fact B.t.Prime] {ψ : ZMod B.t}

omit [Fact B.t.Prime] in
theorem one_le_log (V : B.Valid) : 1 ≤ B.C.logN := by
  by_contra h
  have h2 := V.qp.two_le
  have := V.qp.hN
  rw [show B.C.logN = 0 by omega] at this
  simp at this; omega

/-- the entries of the value of a program on polynomials are the value of the program on the entries -/
theorem circ_entries (V : B.Valid) (hψ : IsPrimitiveRoot ψ (2 * N)) (m : ℕ → Nega N ℤ) (c : Circ) :
    entries ψ (c.val m) = Circ.mat (fun n => entries ψ (m n)) c := by
  induction c with
  | input n => rfl
  | add a b iha ihb => show entries ψ (a.val m + b.val m) = _; rw [entries_add hψ, iha, ihb]; rfl
  | sub a b iha ihb => show entries ψ (a.val m - b.val m) = _; rw [entries_sub hψ, iha, ihb]; rfl
  | mul a b iha ihb => show entries ψ (a.val m * b.val m) = _; rw [entries_mul hψ, iha, ihb]; rfl
  | rot r a iha => show entries ψ (galois (5 ^ C35.amount N r) (a.val m)) = _; rw [entries_rot V.qp.hN (one_le_log V) hψ, iha]; rfl
  | conj a iha => show entries ψ (galois (2 * N - 1) (a.val m)) = _; rw [entries_conj hψ, iha]; rfl

/-- the value of a program depends on its inputs only -/
theorem Circ.mat_congr {t : ℕ} {z z' : ℕ → Mat t} (c : Circ) (h : ∀ n ∈ c.inputs, z n = z' n) : Circ.mat z c = Circ.mat z' c := by
  induction c with
  | input n => exact h n (mem_singleton_self n)
  | add a b iha ihb => simp only [Circ.mat, iha fun n hn => h n (mem_union_left _ hn), ihb fun n hn => h n (mem_union_right _ hn)]
  | sub a b iha ihb => simp only [Circ.mat, iha fun n hn => h n (mem_union_left _ hn), ihb fun n hn => h n (mem_union_right _ hn)]
  | mul a b iha ihb => simp only [Circ.mat, iha fun n hn => h n (mem_union_left _ hn), ihb fun n hn => h n (mem_union_right _ hn)]
  | rot r a iha => simp only [Circ.mat, iha h]
  | conj a iha => simp only [Circ.mat, iha h]

/-- **C74, encoding**: every matrix can be written, with an error of at most T, and a plaintext that two matrices are read from has one matrix. -/
theorem writes_exists (V : B.Valid) (hψ : IsPrimitiveRoot ψ (2 * N)) (z : Bool → ℕ → ZMod B.t) :
    ∃ (pt : Poly B.C) (w : Mat B.t), Writes B ψ pt w B.t ∧ (∀ row (j : ℕ), j < N / 2 → w row (j : ℤ) = z row j) ∧
      ∀ row (j : ℤ), w row (j + (N / 2 : ℕ)) = w row j := by
  obtain ⟨m, ⟨-, hm⟩, -⟩ := encode_unique V.qp.hN (one_le_log V) hψ z
  obtain ⟨pt, hpt⟩ := encodes_exists (B := B) (Fact.out : B.t.Prime).pos (m : Nega N ℤ)
  exact ⟨pt, entries ψ m, ⟨m, hpt, rfl⟩, hm, entries_period m⟩

omit [Fact B.t.Prime] in
theorem reads_unique {pt : Poly B.C} {z z' : Mat B.t} (h : Reads B ψ pt z) (h' : Reads B ψ pt z') : z = z' := by
  obtain ⟨Φ, hΦ⟩ := h.1
  exact (h.2 Φ hΦ).symm.trans (h'.2 Φ hΦ)

/-- reading from a rounded plaintext that agrees with a polynomial modulo T -/
theorem reads_of {pt : Poly B.C} {m : Nega N ℤ} (h1 : ∃ Φ : Nega N ℤ, ∀ i < B.C.nQ, cf (pt.coeffs i) = red (B.C.q i) Φ)
    (h2 : ∀ Φ : Nega N ℤ, (∀ i < B.C.nQ, cf (pt.coeffs i) = red (B.C.q i) Φ) → ∀ x, (2 * (B.t * Φ x) + B.Q) / (2 * B.Q) ≡ m x [ZMOD B.t]) :
    Reads B ψ pt (entries ψ m) := ⟨h1, fun Φ hΦ => entries_congr (h2 Φ hΦ)⟩

/-- **C74, one client.** Parties with matrices `z 0, z 1, …` generate keys and encrypt; the evaluator runs a program within the budget; the result is decrypted with the
keys of its parties. The matrix then read is the value of the program on the matrices: `AddNew`, `SubNew`, `MulRelinNew` entry by entry, `RotateNew(r)` a rotation of the
columns, `ConjugateNew` an exchange of the rows. For all randomness within the sampler bounds and all map iteration orders. -/
theorem client_batch (V : B.Valid) (hψ : IsPrimitiveRoot ψ (2 * N)) {Be : ℤ} (hB : B.C.SmallBound Be) {gs : ℕ → Nega N ℤ} (hg : ∀ n, Bdd (gs n) Be)
    (rand : ℕ → PolyQP B.C) (mform : PolyQP B.C → PolyQP B.C) {s r : String → Nega N ℤ} {Sb Rb : ℤ} (hs : ∀ id, Bdd (s id) Sb) (hSb : Sb ≤ Be)
    (hr : ∀ id, Bdd (r id) Rb) (hRb : Rb ≤ Be) (kg : KG B.C) (ids : List String) (h0 : "0" ∉ ids) {us es : ℕ → Nega N ℤ} {Bu Bg Bm : ℤ}
    (hu : ∀ n, Bdd (us n) Bu) (he : ∀ n, Bdd (es n) Bg) (st : Enc B.C) (ins : List (Input B))
    (hins : ∀ x ∈ ins, x.owner ∈ ids ∧ Encodes B x.pt x.msg Bm) {z : ℕ → Mat B.t} (hz : ∀ (n : ℕ) (x : Input B), ins[n]? = some x → entries ψ x.msg = z n)
    (c : Circ) (hc : ∀ n ∈ c.inputs, n < ins.length)
    {D : ℤ} (hD : ∀ k < 2 * B.bt, 3 * (B.blockR k : ℤ) ≤ D) (hD' : ∀ k < B.bt, 2 * (B.C.blockProd B.top k : ℤ) ≤ D)
    {k F M : ℕ} (H : Budget B k D Sb Rb Be F M) (hk : ids.length ≤ k) (hF0 : 0 ≤ freshNoise B Bm Bu Bg Be Sb) (hF : freshNoise B Bm Bu Bg Be Sb ≤ 2 ^ F)
    (hbits : 2 * (2 : ℤ) ^ (F + M * c.mulDepth + c.linDepth) < B.Q)
    (oe : ℕ → Sched String) (o : List ℕ → ℕ → Sched String) (S : BScratch B) (hS : S.Alloc) (od : Sched String) :
    ∃ p, client (C16.crsOf (newCrs rand mform B.C.fm B.C.dims)) gs s r kg ids us es st ins c oe o S od = .ok p ∧ Reads B ψ p (Circ.mat z c) := by
  obtain ⟨p, p1, p2, p3⟩ := client_budget V hB hg rand mform hs hSb hr hRb kg ids h0 hu he st ins hins c hc hD hD'
    (m := fun n => ((ins[n]?).map Input.msg).getD 0) (fun n x hx => by simp only [hx]; rfl) H hk hF0 hF hbits oe o S hS od
  refine ⟨p, p1, ?_⟩
  have := reads_of (ψ := ψ) p2 p3
  rw [circ_entries V hψ] at this
  rw [Circ.mat_congr (z' := z) c fun n hn => by
    have h1 := hc n hn
    show entries ψ (((ins[n]?).map Input.msg).getD 0) = z n
    rw [List.getElem?_eq_getElem h1]
    exact hz n _ (List.getElem?_eq_getElem h1)] at this
  exact this

/-! ## straight-line programs, every intermediate result -/

/-- the value of one call on the matrices so far; operands are numbers of earlier results -/
def matExec {t : ℕ} (A : List (Mat t)) : C69.BInstr → List (Mat t)
  | .add i j => A ++ [Batch.add (A.getD i 0) (A.getD j 0)]
  | .sub i j => A ++ [Batch.sub (A.getD i 0) (A.getD j 0)]
  | .mul i j => A ++ [Batch.mul (A.getD i 0) (A.getD j 0)]
  | .rot i r => A ++ [rotCols r (A.getD i 0)]
  | .conj i => A ++ [swapRows (A.getD i 0)]

def matExecs {t : ℕ} : List (Mat t) → List C69.BInstr → List (Mat t)
  | A, [] => A
  | A, c :: p => matExecs (matExec A c) p

theorem get_entries (A : C69.BAbs N) (i : ℕ) : (A.map fun x => entries ψ x.1).getD i 0 = entries ψ (A.get i).1 := by
  unfold C69.BAbs.get
  rw [List.getD_eq_getElem?_getD, List.getElem?_map]
  cases A[i]? with
  | some a => rfl
  | none =>
    funext row j
    show (0 : ZMod B.t) = ∑ k : Fin N, (((0 : Nega N ℤ) k : ℤ) : ZMod B.t) * _
    simp

theorem exec_entries (V : B.Valid) (hψ : IsPrimitiveRoot ψ (2 * N)) (crs : GoMap ℤ (Swk B.C)) (b : C69.BBounds) (A : C69.BAbs N) (c : C69.BInstr) :
    (C69.bexec B crs b A c).map (fun x => entries ψ x.1) = matExec (A.map fun x => entries ψ x.1) c := by
  cases c <;> simp only [C69.bexec, matExec, List.map_append, List.map_cons, List.map_nil, get_entries]
  · rw [entries_add hψ]
  · rw [entries_sub hψ]
  · rw [entries_mul hψ]
  · rw [entries_rot V.qp.hN (one_le_log V) hψ]
  · rw [entries_conj hψ]

theorem execs_entries (V : B.Valid) (hψ : IsPrimitiveRoot ψ (2 * N)) (crs : GoMap ℤ (Swk B.C)) (b : C69.BBounds) (p : List C69.BInstr) : ∀ A : C69.BAbs N,
    (C69.bexecs B crs b A p).map (fun x => entries ψ x.1) = matExecs (A.map fun x => entries ψ x.1) p := by
  induction p with
  | nil => exact fun _ => rfl
  | cons c p ih =>
      intro A
      show (C69.bexecs B crs b (C69.bexec B crs b A c) p).map _ = _
      rw [ih, exec_entries V hψ]; rfl

/-- **C74, programs.** Any result of a straight-line program whose noise bound is below `Q/2`, decrypted with the keys of its parties, reads as the matrix that the
program computes. -/
theorem program_batch (V : B.Valid) (hψ : IsPrimitiveRoot ψ (2 * N)) {K : Keyring B} {U : Finset String} {s r : String → Nega N ℤ} {b : C69.BBounds} {w : C69.BEnv B}
    (hK : K.Ok U s r b.Sb b.Rb b.Be) (hb : b.Ok B) (hw : w.Ok K U) (p : List C69.BInstr) (n : ℕ) {M : C69.BMachine B} {A : C69.BAbs N}
    (h : C69.BRel s U M A) (hok : C69.BProgOk A.length p) {z : List (Mat B.t)} (hz : z = A.map fun x => entries ψ x.1)
    {i : ℕ} (hi : i < (C69.bexecs B K.crs b A p).length)
    (hB : 2 * ((C69.bexecs B K.crs b A p).get i).2.2 < B.Q) {sks : KeySet (SKey B.C)} (hk : sks.Keyed SKey.id)
    (hs : ∀ id sk, sks.value.lookup id = some sk → sk.Is (s id)) (hall : ∀ id ∈ ((C69.bexecs B K.crs b A p).get i).2.1, id ∈ sks.value) (od : Sched String) :
    ∃ M' ct pt x, C69.brun K w n M p = .ok M' ∧ M'.cts[i]? = some ct ∧ bfvDecrypt od ct sks = .ok pt ∧ (matExecs z p)[i]? = some x ∧ Reads B ψ pt x := by
  obtain ⟨M', ct, pt, r1, r2, r3, r4, r5⟩ := C69.bprogram_decrypt V hK hb hw p n h hok hi hB hk hs hall od
  refine ⟨M', ct, pt, entries ψ ((C69.bexecs B K.crs b A p).get i).1, r1, r2, r3, ?_, reads_of r4 r5⟩
  rw [hz, ← execs_entries V hψ K.crs b p A, List.getElem?_map, List.getElem?_eq_getElem hi]
  unfold C69.BAbs.get
  rw [List.getElem?_eq_getElem hi]; rfl

end MKHE.C74
