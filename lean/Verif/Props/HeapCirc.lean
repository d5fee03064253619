import Verif.Props.HeapRefineMul
import Verif.Props.HeapSum
import Verif.Props.HeapEval
import Verif.Props.BfvSem

set_option autoImplicit false
set_option linter.unusedSectionVars false

/-!
# C63: BFV circuits on the memory model

The circuits of C58 executed on the heap: inputs are pointers, which may be equal or share polynomials, and results of subcircuits are operands of the
others.
-/

namespace MKHE
namespace C63
open Heap Nega Finset C58
variable {N : ℕ} [NeZero N] {B : BCtx N} {s : String → Nega N ℤ}

/-- running a circuit on the heap with one evaluator (mkbfv/evaluator.go; the called functions are modelled in Model/Heap.lean and Model/HeapEval.lean) -/
def hcirc (K : Keyring B) (ct : ℕ → ℕ) : (o : List ℕ → ℕ → Sched String) → Circ → BScratch B → Heap N → Go ((ℕ × BScratch B) × Heap N)
  | _, .input n, S, h => .ok ((ct n, S), h)
  | o, .add a b, S, h => do
    let x ← hcirc K ct (fun p => o (0 :: p)) a S h
    let y ← hcirc K ct (fun p => o (1 :: p)) b x.1.2 x.2
    let r ← Heap.bfvAddNew B.C (o [] 0) y.2 x.1.1 y.1.1
    .ok ((r.1, y.1.2), r.2)
  | o, .sub a b, S, h => do
    let x ← hcirc K ct (fun p => o (0 :: p)) a S h
    let y ← hcirc K ct (fun p => o (1 :: p)) b x.1.2 x.2
    let r ← Heap.bfvSubNew B.C (o [] 0) y.2 x.1.1 y.1.1
    .ok ((r.1, y.1.2), r.2)
  | o, .mul a b, S, h => do
    let x ← hcirc K ct (fun p => o (0 :: p)) a S h
    let y ← hcirc K ct (fun p => o (1 :: p)) b x.1.2 x.2
    Heap.bfvMulRelinNew K.crs (o [] 0) y.1.2 x.1.1 y.1.1 K.rlk y.2
  | o, .rot r a, S, h => do
    let x ← hcirc K ct (fun p => o (0 :: p)) a S h
    let w ← Heap.bfvRotateNew K.crs (o []) x.1.2.base x.1.1 r K.rks x.2
    .ok ((w.1.1, { x.1.2 with base := w.1.2 }), w.2)
  | o, .conj a, S, h => do
    let x ← hcirc K ct (fun p => o (0 :: p)) a S h
    let w ← Heap.bfvConjugateNew B.top K.crs (o [] 0) x.1.2.base x.1.1 K.cks x.2
    .ok ((w.1.1, { x.1.2 with base := w.1.2 }), w.2)

/-- nothing that existed in `h` was written -/
structure Later (h h' : Heap N) : Prop where
  wf : WF h'
  only : Only ∅ ∅ h h'

theorem Later.refl {h : Heap N} (W : WF h) : Later h h := ⟨W, Only.refl _ _ _⟩

theorem Later.value {h h' : Heap N} (L : Later h h') (W : WF h) {c : ℕ} (hc : c < h.nct) : value B.C h' c = value B.C h c ∧ c < h'.nct :=
  ⟨L.only.value W hc (by simp) (by simp), lt_of_lt_of_le hc L.only.nct⟩

theorem Later.trans {h h' h'' : Heap N} (L : Later h h') (L' : Later h' h'') : Later h h'' := ⟨L'.wf, L.only.trans L'.only⟩

theorem Later.fresh {h h' h'' : Heap N} (L : Later h h') {r : ℕ} (F : C52.Fresh ∅ ∅ h' r h'') : Later h h'' := L.trans ⟨F.wf, F.only⟩

theorem enc_shows {ct ct' : Ct B.C} (V : B.Valid) (h : ct.AtLevel B.top) (Sh : Shows ct' ct) {m : Nega N ℤ} {Bd : ℤ} (e : BfvEnc B s ct m Bd) :
    BfvEnc B s ct' m Bd := by
  obtain ⟨Φ, k, b, h1, h2, h3⟩ := e
  exact ⟨Φ, k, b, h1, h2, fun i hi => by rw [Sh.phase h s (by have := V.top_succ; omega)]; exact h3 i hi⟩

theorem add_enc (V : B.Valid) {c0 c1 out : Ct B.C} {m0 m1 : Nega N ℤ} {B0 B1 : ℤ} (e0 : BfvEnc B s c0 m0 B0) (e1 : BfvEnc B s c1 m1 B1)
    (h : ∀ i ≤ B.C.nQ - 1, out.phase s i = c0.phase s i + c1.phase s i) : BfvEnc B s out (m0 + m1) (B0 + B1) := by
  obtain ⟨F0, k0, b0, f1, f2, f3⟩ := e0
  obtain ⟨F1, k1, b1, g1, g2, g3⟩ := e1
  refine ⟨F0 + F1, k0 + k1, b0 + b1, f1.add g1, by linear_combination f2 + g2, fun i hi => ?_⟩
  rw [h i (by omega), f3 i hi, g3 i hi, map_add]

theorem sub_enc (V : B.Valid) {c0 c1 out : Ct B.C} {m0 m1 : Nega N ℤ} {B0 B1 : ℤ} (e0 : BfvEnc B s c0 m0 B0) (e1 : BfvEnc B s c1 m1 B1)
    (h : ∀ i ≤ B.C.nQ - 1, out.phase s i = c0.phase s i - c1.phase s i) : BfvEnc B s out (m0 - m1) (B0 + B1) := by
  obtain ⟨F0, k0, b0, f1, f2, f3⟩ := e0
  obtain ⟨F1, k1, b1, g1, g2, g3⟩ := e1
  refine ⟨F0 - F1, k0 - k1, b0 - b1, f1.sub g1, by linear_combination f2 - g2, fun i hi => ?_⟩
  rw [h i (by omega), f3 i hi, g3 i hi, map_sub]

/-- **C63, BFV circuits.** On any well-formed heap, with inputs that may be the same ciphertext or share polynomials in any way, every circuit runs to the
end; its result encrypts the value of the circuit on the plaintexts with the noise of C58, and nothing that existed before was written. -/
theorem circuit (V : B.Valid) {K : Keyring B} {U : Finset String} {r : String → Nega N ℤ} {Sb Rb Be : ℤ} (hK : K.Ok U s r Sb Rb Be)
    {D : ℤ} (hD : ∀ k < 2 * B.bt, 3 * (B.blockR k : ℤ) ≤ D) (hD' : ∀ k < B.bt, 2 * (B.C.blockProd B.top k : ℤ) ≤ D)
    {ct : ℕ → ℕ} {m : ℕ → Nega N ℤ} {Bin : ℕ → ℤ} (c : Circ) :
    ∀ {h : Heap N} {I : ℕ → Finset String}, WF h → (∀ n ∈ c.inputs, ct n < h.nct ∧ (value B.C h (ct n)).AtLevel B.top ∧ (value B.C h (ct n)).ids = I n ∧ I n ⊆ U ∧
      BfvEnc B s (value B.C h (ct n)) (m n) (Bin n)) →
    ∀ (o : List ℕ → ℕ → Sched String) (S : BScratch B), S.Alloc → ∃ out S' h', hcirc K ct o c S h = .ok ((out, S'), h') ∧ S'.Alloc ∧ Later h h' ∧ out < h'.nct ∧
      (value B.C h' out).AtLevel B.top ∧ (value B.C h' out).ids = c.ids I ∧
      c.ids I ⊆ U ∧ BfvEnc B s (value B.C h' out) (c.val m) (c.noise B K.crs I Bin D Sb Rb Be) := by
  induction c with
  | input n =>
    intro h I W hin o S hS
    obtain ⟨h1, h2, h3, h4, h5⟩ := hin n (mem_singleton_self n)
    exact ⟨ct n, S, h, rfl, hS, Later.refl W, h1, h2, h3, h4, h5⟩
  | add a b iha ihb =>
    intro h I W hin o S hS
    obtain ⟨x, S1, g1, a1, a0, L1, al, a2, a3, a4, a5⟩ := iha W (fun n hn => hin n (mem_union_left _ hn)) (fun p => o (0 :: p)) S hS
    obtain ⟨y, S2, g2, b1, b0, L2, bl, b2, b3, b4, b5⟩ := ihb (h := g1) L1.wf (fun n hn => by
      have := hin n (mem_union_right _ hn)
      have lv := L1.value (B := B) W this.1
      rw [lv.1]; exact ⟨lv.2, this.2⟩) (fun p => o (1 :: p)) S1 a0
    have lx := L2.value (B := B) L1.wf al
    rw [← lx.1] at a2 a3 a5
    obtain ⟨out, h', c1, c2, c3, c4⟩ := C22.heap_addNew_phase (o [] 0) L2.wf lx.2 bl a2 b2
    have F := C52.bfvAddNew_fresh L2.wf c1
    unfold hcirc
    rw [a1, bind_ok, b1, bind_ok, c1, bind_ok]
    exact ⟨out, S2, h', rfl, b0, (L1.trans L2).fresh F, F.newCt.2, c2, by rw [c3, a3, b3]; rfl, union_subset a4 b4, add_enc V a5 b5 (c4 s)⟩
  | sub a b iha ihb =>
    intro h I W hin o S hS
    obtain ⟨x, S1, g1, a1, a0, L1, al, a2, a3, a4, a5⟩ := iha W (fun n hn => hin n (mem_union_left _ hn)) (fun p => o (0 :: p)) S hS
    obtain ⟨y, S2, g2, b1, b0, L2, bl, b2, b3, b4, b5⟩ := ihb (h := g1) L1.wf (fun n hn => by
      have := hin n (mem_union_right _ hn)
      have lv := L1.value (B := B) W this.1
      rw [lv.1]; exact ⟨lv.2, this.2⟩) (fun p => o (1 :: p)) S1 a0
    have lx := L2.value (B := B) L1.wf al
    rw [← lx.1] at a2 a3 a5
    obtain ⟨out, h', c1, c2, c3, c4⟩ := C22.heap_subNew_phase (o [] 0) L2.wf lx.2 bl a2 b2
    have F := C52.bfvSubNew_fresh L2.wf c1
    unfold hcirc
    rw [a1, bind_ok, b1, bind_ok, c1, bind_ok]
    exact ⟨out, S2, h', rfl, b0, (L1.trans L2).fresh F, F.newCt.2, c2, by rw [c3, a3, b3]; rfl, union_subset a4 b4, sub_enc V a5 b5 (c4 s)⟩
  | mul a b iha ihb =>
    intro h I W hin o S hS
    obtain ⟨x, S1, g1, a1, a0, L1, al, a2, a3, a4, a5⟩ := iha W (fun n hn => hin n (mem_union_left _ hn)) (fun p => o (0 :: p)) S hS
    obtain ⟨y, S2, g2, b1, b0, L2, bl, b2, b3, b4, b5⟩ := ihb (h := g1) L1.wf (fun n hn => by
      have := hin n (mem_union_right _ hn)
      have lv := L1.value (B := B) W this.1
      rw [lv.1]; exact ⟨lv.2, this.2⟩) (fun p => o (1 :: p)) S1 a0
    have lx := L2.value (B := B) L1.wf al
    rw [← lx.1] at a2 a3 a5
    have hsub : (value B.C g2 x).ids ∪ (value B.C g2 y).ids ⊆ U := by rw [a3, b3]; exact union_subset a4 b4
    obtain ⟨ka, hk⟩ := hK.rlk
    obtain ⟨out, S', c1, c2, c3, c4⟩ := C58.mul V (o [] 0) S2 b0 a2 b2 (keys_mono hsub hk) (pools_mono hsub hK.pools) hD a5 b5
    obtain ⟨r, h', d1, d2⟩ := bfvMulRelinNew_refines K.crs (o [] 0) S2 K.rlk L2.wf lx.2 bl c1
    have F := C52.bfvMulRelinNew_fresh L2.wf d1
    have Sh := rep_shows d2
    unfold hcirc
    rw [a1, bind_ok, b1, bind_ok]
    rw [a3, b3] at c4
    exact ⟨r, S', h', d1, (bfvMulRelinNew_lens c1).alloc b0, (L1.trans L2).fresh F, F.newCt.2, Sh.atLevel c2, by rw [Sh.ids, c3, a3, b3]; rfl,
      union_subset a4 b4, enc_shows V c2 Sh c4⟩
  | rot n a iha =>
    intro h I W hin o S hS
    obtain ⟨x, S1, g1, a1, a0, L1, al, a2, a3, a4, a5⟩ := iha W hin (fun p => o (0 :: p)) S hS
    obtain ⟨o', R⟩ := bfvRotateNew_refines K.crs (o []) S1.base n K.rks L1.wf al a2.has0
    obtain ⟨out, S', c1, c2, c3, c4⟩ := C58.rotate V o' S1.base n a2
      (C58.hasKeys_mono (by rw [a3]; exact a4) (hK.rot _ (C35.rotNorm_amount V.qp n).2)) hD' a5
    obtain ⟨r, h', d1, d2⟩ := R _ c1
    have F := C52.bfvRotateNew_fresh L1.wf al d1
    have Sh := rep_shows d2
    unfold hcirc
    rw [a1, bind_ok, d1, bind_ok]
    rw [a3] at c4
    exact ⟨r, _, h', rfl, ⟨a0.s1, a0.s2, a0.s3, a0.s4, a0.s5, a0.s6⟩, L1.fresh F, F.newCt.2, Sh.atLevel c2, by rw [Sh.ids, c3, a3]; rfl, a4,
      enc_shows V c2 Sh c4⟩
  | conj a iha =>
    intro h I W hin o S hS
    obtain ⟨x, S1, g1, a1, a0, L1, al, a2, a3, a4, a5⟩ := iha W hin (fun p => o (0 :: p)) S hS
    obtain ⟨o', R⟩ := bfvConjugateNew_refines B.top K.crs (o [] 0) S1.base K.cks L1.wf al a2.has0
    obtain ⟨out, S', c1, c2, c3, c4⟩ := C58.conjugate V o' S1.base a2 (C58.conjKeys_mono (by rw [a3]; exact a4) hK.conj) hD' a5
    obtain ⟨r, h', d1, d2⟩ := R _ c1
    have F := C52.bfvConjugateNew_fresh L1.wf al d1
    have Sh := rep_shows d2
    unfold hcirc
    rw [a1, bind_ok, d1, bind_ok]
    rw [a3] at c4
    exact ⟨r, _, h', rfl, ⟨a0.s1, a0.s2, a0.s3, a0.s4, a0.s5, a0.s6⟩, L1.fresh F, F.newCt.2, Sh.atLevel c2, by rw [Sh.ids, c3, a3]; rfl, a4,
      enc_shows V c2 Sh c4⟩

/-- `Decrypt` of BFV on the heap returns a polynomial with the contents it returns on values -/
theorem bfvDecrypt_refines {C : Ctx N} (o : Sched String) {h : Heap N} (W : WF h) {c : ℕ} (hc : c < h.nct) {sks : KeySet (SKey C)} {P : Poly C}
    (e : MKHE.bfvDecrypt o (value C h c) sks = .ok P) : ∃ p h', Heap.bfvDecrypt o h c sks = .ok (p, h') ∧ h'.view C p = P := by
  obtain ⟨tmp, e1, e⟩ := Go.bind_ok e
  obtain ⟨ids, e2, e⟩ := Go.bind_ok e
  obtain ⟨t', e3, e4⟩ := Go.bind_ok e
  obtain ⟨t, h1, f1, M, R⟩ := copyNew_sim (o := o 204) W hc e1
  obtain ⟨ids', i1, i2⟩ := IDSet.ofCiphertext_spec (o 205) (h1.ct t)
  obtain ⟨ids2, j1, j2⟩ := IDSet.ofCiphertext_spec (o 205) tmp
  obtain rfl : ids = ids2 := by rw [j1] at e2; injection e2 with e2; exact e2.symm
  have hids : ∀ id, ids'.has id = ids.has id := fun id => by rw [Bool.eq_iff_iff, i2, j2, R.mem]
  obtain ⟨h3, g1, R3⟩ := R.decryptLoop hids e3
  obtain ⟨p, m0, -, v0⟩ := R3.get (GoMap.deref_some e4)
  refine ⟨p, h3, ?_, v0⟩
  unfold Heap.bfvDecrypt
  rw [f1, bind_ok]
  dsimp only
  unfold Heap.idSet
  rw [i1, bind_ok, g1, bind_ok]
  unfold Heap.get
  rw [GoMap.deref_ok m0, bind_ok]

/-- **C63, BFV end to end.** Decrypting the result of a circuit run on the heap and rounding gives the value of the circuit on the plaintexts modulo T, and
neither the circuit nor the decryption wrote anything that existed before. -/
theorem circuit_decrypt (V : B.Valid) {K : Keyring B} {U : Finset String} {r : String → Nega N ℤ} {Sb Rb Be : ℤ} (hK : K.Ok U s r Sb Rb Be)
    {D : ℤ} (hD : ∀ k < 2 * B.bt, 3 * (B.blockR k : ℤ) ≤ D) (hD' : ∀ k < B.bt, 2 * (B.C.blockProd B.top k : ℤ) ≤ D)
    {ct : ℕ → ℕ} {m : ℕ → Nega N ℤ} {Bin : ℕ → ℤ} (c : Circ) {h : Heap N} {I : ℕ → Finset String} (W : WF h)
    (hin : ∀ n ∈ c.inputs, ct n < h.nct ∧ (value B.C h (ct n)).AtLevel B.top ∧ (value B.C h (ct n)).ids = I n ∧ I n ⊆ U ∧
      BfvEnc B s (value B.C h (ct n)) (m n) (Bin n)) (o : List ℕ → ℕ → Sched String) (S : BScratch B)
    (hS : S.Alloc) (hB : 2 * c.noise B K.crs I Bin D Sb Rb Be < B.Q)
    {sks : KeySet (SKey B.C)} (hk : sks.Keyed SKey.id) (hs : ∀ id sk, sks.value.lookup id = some sk → sk.Is (s id))
    (hall : ∀ id ∈ c.ids I, id ∈ sks.value) (od : Sched String) :
    ∃ out S' h1 p h2, hcirc K ct o c S h = .ok ((out, S'), h1) ∧ S'.Alloc ∧ Heap.bfvDecrypt od h1 out sks = .ok (p, h2) ∧ Later h h2 ∧
      (∃ Φ : Nega N ℤ, ∀ i < B.C.nQ, cf ((h2.view B.C p).coeffs i) = red (B.C.q i) Φ) ∧
      ∀ Φ : Nega N ℤ, (∀ i < B.C.nQ, cf ((h2.view B.C p).coeffs i) = red (B.C.q i) Φ) → ∀ x,
        (2 * (B.t * Φ x) + B.Q) / (2 * B.Q) ≡ c.val m x [ZMOD B.t] := by
  obtain ⟨out, S', h1, a1, a0, L, al, a2, a3, -, a5⟩ := circuit V hK hD hD' c W hin o S hS
  obtain ⟨P, d1, -, d3, d4⟩ := C58.decrypt V od a2 a5 hB hk hs (by rw [a3]; exact hall)
  obtain ⟨p, h2, e1, e2⟩ := bfvDecrypt_refines od L.wf al d1
  obtain ⟨f1, f2, -⟩ := C20.bfvDecrypt_writes_nothing L.wf al e1
  rw [← e2] at d3 d4
  exact ⟨out, S', h1, p, h2, a1, a0, e1, L.trans ⟨f1, f2⟩, d3, d4⟩

end C63
end MKHE
