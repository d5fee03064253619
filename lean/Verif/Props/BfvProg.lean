import Verif.Props.BfvSem

set_option autoImplicit false

/-!
# C58, C69: programs and sharing of a BFV evaluator

A client holds ciphertexts and calls the evaluator on them; every call returns a new ciphertext, which later calls can use any number of times. All calls share the
evaluator's scratch memory, which is threaded through the program. `MulRelinNew` also writes the pools of the relinearization key set; here each call finds *any* contents
in the pools (they only have to have an entry for each party, as `AddRelinearizationKey` makes them and no call removes them), which covers what the calls before it left there.
-/

namespace MKHE.C69
open Finset Nega

variable {N : ℕ} [NeZero N] {B : BCtx N}

/-- one call of the BFV evaluator; operands are numbers of earlier results -/
inductive BInstr where
  /-- `AddNew` -/
  | add (i j : ℕ)
  /-- `SubNew` -/
  | sub (i j : ℕ)
  /-- `MulRelinNew` -/
  | mul (i j : ℕ)
  /-- `RotateNew` -/
  | rot (i : ℕ) (r : ℤ)
  /-- `ConjugateNew` -/
  | conj (i : ℕ)

/-- the scratch memory of the evaluator and the ciphertexts of the client -/
structure BMachine (B : BCtx N) where
  S : BScratch B
  cts : List (Ct B.C)

/-- map iteration orders of each call, and the relinearization key set as each call finds it -/
structure BEnv (B : BCtx N) where
  o : ℕ → ℕ → Sched String
  rlk : ℕ → BRlkMap B

/-- reading an operand -/
def bfetch (l : List (Ct B.C)) (i : ℕ) : Go (Ct B.C) :=
  match l[i]? with
  | some a => .ok a
  | none => .error .indexOutOfRange

/-- one call (mkbfv/evaluator.go; the called functions are modelled in Model/Bfv.lean and Model/BfvMul.lean) -/
def bstep (K : C58.Keyring B) (w : BEnv B) (n : ℕ) (M : BMachine B) : BInstr → Go (BMachine B)
  | .add i j => do
    let x ← bfetch M.cts i
    let y ← bfetch M.cts j
    let r ← bfvAddNew (w.o n 0) x y
    .ok ⟨M.S, M.cts ++ [r]⟩
  | .sub i j => do
    let x ← bfetch M.cts i
    let y ← bfetch M.cts j
    let r ← bfvSubNew (w.o n 0) x y
    .ok ⟨M.S, M.cts ++ [r]⟩
  | .mul i j => do
    let x ← bfetch M.cts i
    let y ← bfetch M.cts j
    let r ← bfvMulRelinNew K.crs (w.o n 0) M.S x y (w.rlk n)
    .ok ⟨r.2, M.cts ++ [r.1]⟩
  | .rot i r => do
    let x ← bfetch M.cts i
    let r ← bfvRotateNew K.crs (w.o n) M.S.base x r K.rks
    .ok ⟨{ M.S with base := r.2 }, M.cts ++ [r.1]⟩
  | .conj i => do
    let x ← bfetch M.cts i
    let r ← bfvConjugateNew B.top K.crs (w.o n 0) M.S.base x K.cks
    .ok ⟨{ M.S with base := r.2 }, M.cts ++ [r.1]⟩

/-- the program, call number `n` first -/
def brun (K : C58.Keyring B) (w : BEnv B) : ℕ → BMachine B → List BInstr → Go (BMachine B)
  | _, M, [] => .ok M
  | n, M, c :: p => do
    let M ← bstep K w n M c
    brun K w (n + 1) M p

/-- the constants of a noise estimate: degree-of-freedom bounds of blocks, secrets, randomness and key errors -/
structure BBounds where
  D : ℤ
  Sb : ℤ
  Rb : ℤ
  Be : ℤ

/-- what the client knows of each ciphertext: the plaintext, the parties and a bound of the noise -/
abbrev BAbs (N : ℕ) := List (Nega N ℤ × Finset String × ℤ)

noncomputable def BAbs.get (A : BAbs N) (i : ℕ) : Nega N ℤ × Finset String × ℤ := (A[i]?).getD (0, ∅, 0)

/-- the value of one call on plaintexts, parties and noise bounds -/
noncomputable def bexec (B : BCtx N) (crs : GoMap ℤ (Swk B.C)) (b : BBounds) (A : BAbs N) : BInstr → BAbs N
  | .add i j => A ++ [((A.get i).1 + (A.get j).1, (A.get i).2.1 ∪ (A.get j).2.1, (A.get i).2.2 + (A.get j).2.2)]
  | .sub i j => A ++ [((A.get i).1 - (A.get j).1, (A.get i).2.1 ∪ (A.get j).2.1, (A.get i).2.2 + (A.get j).2.2)]
  | .mul i j => A ++ [((A.get i).1 * (A.get j).1, (A.get i).2.1 ∪ (A.get j).2.1,
      C58.mulBound B (A.get i).2.1.card (A.get j).2.1.card ((A.get i).2.1 ∪ (A.get j).2.1).card b.D b.Sb b.Rb b.Be (A.get i).2.2 (A.get j).2.2)]
  | .rot i r => A ++ [(galois (5 ^ C35.amount N r) (A.get i).1, (A.get i).2.1,
      (A.get i).2.2 + B.t * (C35.rotCount crs (C35.amount N r) * C33.rotNoise N B.C.P (A.get i).2.1.card B.bt b.D b.Sb b.Be / B.C.P))]
  | .conj i => A ++ [(galois (2 * N - 1) (A.get i).1, (A.get i).2.1,
      (A.get i).2.2 + B.t * (C33.rotNoise N B.C.P (A.get i).2.1.card B.bt b.D b.Sb b.Be / B.C.P))]

noncomputable def bexecs (B : BCtx N) (crs : GoMap ℤ (Swk B.C)) (b : BBounds) : BAbs N → List BInstr → BAbs N
  | A, [] => A
  | A, c :: p => bexecs B crs b (bexec B crs b A c) p

/-- the operands exist -/
def BInstr.Ok (n : ℕ) : BInstr → Prop
  | .add i j | .sub i j | .mul i j => i < n ∧ j < n
  | .rot i _ | .conj i => i < n

/-- all operands exist; each call adds one ciphertext -/
def BProgOk : ℕ → List BInstr → Prop
  | _, [] => True
  | n, c :: p => c.Ok n ∧ BProgOk (n + 1) p

/-- the key set has the client's keys at every call, and a pool entry for every party -/
def BEnv.Ok (K : C58.Keyring B) (U : Finset String) (w : BEnv B) : Prop := ∀ n, (w.rlk n).value = K.rlk.value ∧ C45.Pools U (w.rlk n)

variable {K : C58.Keyring B} {U : Finset String} {s r : String → Nega N ℤ} {b : BBounds} {w w' : BEnv B}

/-- the ciphertext encrypts what is claimed -/
structure Holds (s : String → Nega N ℤ) (U : Finset String) (ct : Ct B.C) (x : Nega N ℤ × Finset String × ℤ) : Prop where
  lvl : ct.AtLevel B.top
  ids : ct.ids = x.2.1
  sub : x.2.1 ⊆ U
  enc : BfvEnc B s ct x.1 x.2.2

theorem Holds.of {ct : Ct B.C} {I : Finset String} {m : Nega N ℤ} {Bd : ℤ} (h : ct.AtLevel B.top) (hi : ct.ids = I) (hs : I ⊆ U) (he : BfvEnc B s ct m Bd) :
    Holds s U ct (m, I, Bd) := ⟨h, hi, hs, he⟩

structure BRel (s : String → Nega N ℤ) (U : Finset String) (M : BMachine B) (A : BAbs N) : Prop where
  alloc : M.S.Alloc
  cts : List.Forall₂ (Holds s U) M.cts A

theorem bexec_length (crs : GoMap ℤ (Swk B.C)) (A : BAbs N) (c : BInstr) : (bexec B crs b A c).length = A.length + 1 := by
  cases c <;> simp [bexec]

theorem BRel.fetch {M : BMachine B} {A : BAbs N} (h : BRel s U M A) {i : ℕ} (hi : i < A.length) :
    ∃ ct, bfetch M.cts i = .ok ct ∧ M.cts[i]? = some ct ∧ Holds s U ct (A.get i) := by
  have hl := h.cts.length_eq
  have hi' : i < M.cts.length := by omega
  refine ⟨M.cts[i], ?_, List.getElem?_eq_getElem hi', ?_⟩
  · unfold bfetch; rw [List.getElem?_eq_getElem hi']
  · have := List.forall₂_iff_get.mp h.cts |>.2 i hi' hi
    unfold BAbs.get
    rw [List.getElem?_eq_getElem hi]
    exact this

theorem BRel.push {M : BMachine B} {A : BAbs N} (h : BRel s U M A) {S : BScratch B} (hS : S.Alloc) {ct : Ct B.C} {x : Nega N ℤ × Finset String × ℤ}
    (hx : Holds s U ct x) : BRel s U ⟨S, M.cts ++ [ct]⟩ (A ++ [x]) := ⟨hS, List.rel_append h.cts (.cons hx .nil)⟩

/-- the bounds fit the parameters -/
structure BBounds.Ok (b : BBounds) (B : BCtx N) : Prop where
  blockR : ∀ k < 2 * B.bt, 3 * (B.blockR k : ℤ) ≤ b.D
  block : ∀ k < B.bt, 2 * (B.C.blockProd B.top k : ℤ) ≤ b.D

theorem keys_value {crs : GoMap ℤ (Swk B.C)} {ids : Finset String} {set set' : BRlkMap B} {a : ℕ → PolyQP B.C} {Sb Rb Be : ℤ}
    (K : C45.Keys crs ids set s r a Sb Rb Be) (e : set'.value = set.value) : C45.Keys crs ids set' s r a Sb Rb Be := by
  obtain ⟨⟨u, G, g, rho, u1, u2, u3, u4⟩, k1, k2⟩ := K
  exact ⟨⟨u, G, g, rho, u1, u2, u3, fun id h => by rw [e]; exact u4 id h⟩, k1, k2⟩

theorem bstep_ok (V : B.Valid) (hK : K.Ok U s r b.Sb b.Rb b.Be) (hb : b.Ok B) (hw : w.Ok K U) (n : ℕ) {M : BMachine B} {A : BAbs N} (h : BRel s U M A)
    (c : BInstr) (hc : c.Ok A.length) : ∃ M', bstep K w n M c = .ok M' ∧ BRel s U M' (bexec B K.crs b A c) := by
  cases c with
  | add i j =>
    obtain ⟨x, x1, x2, x3⟩ := h.fetch hc.1
    obtain ⟨y, y1, y2, y3⟩ := h.fetch hc.2
    obtain ⟨out, e1, e2, e3, e4⟩ := C58.add V (w.o n 0) x3.lvl y3.lvl x3.enc y3.enc
    refine ⟨⟨M.S, M.cts ++ [out]⟩, ?_, h.push h.alloc ⟨e2, by rw [e3, x3.ids, y3.ids], union_subset x3.sub y3.sub, e4⟩⟩
    simp only [bstep]
    rw [x1, bind_ok, y1, bind_ok, e1, bind_ok]
  | sub i j =>
    obtain ⟨x, x1, x2, x3⟩ := h.fetch hc.1
    obtain ⟨y, y1, y2, y3⟩ := h.fetch hc.2
    obtain ⟨out, e1, e2, e3, e4⟩ := C58.sub V (w.o n 0) x3.lvl y3.lvl x3.enc y3.enc
    refine ⟨⟨M.S, M.cts ++ [out]⟩, ?_, h.push h.alloc ⟨e2, by rw [e3, x3.ids, y3.ids], union_subset x3.sub y3.sub, e4⟩⟩
    simp only [bstep]
    rw [x1, bind_ok, y1, bind_ok, e1, bind_ok]
  | mul i j =>
    obtain ⟨x, x1, x2, x3⟩ := h.fetch hc.1
    obtain ⟨y, y1, y2, y3⟩ := h.fetch hc.2
    have hsub : x.ids ∪ y.ids ⊆ U := by rw [x3.ids, y3.ids]; exact union_subset x3.sub y3.sub
    obtain ⟨ka, hk⟩ := hK.rlk
    obtain ⟨out, S', e1, e2, e3, e4⟩ := C58.mul V (w.o n 0) M.S h.alloc x3.lvl y3.lvl (keys_value (C58.keys_mono hsub hk) (hw n).1)
      (C58.pools_mono hsub (hw n).2) hb.blockR x3.enc y3.enc
    rw [x3.ids, y3.ids] at e4
    refine ⟨⟨S', M.cts ++ [out]⟩, ?_, h.push ((bfvMulRelinNew_lens e1).alloc h.alloc) ⟨e2, by rw [e3, x3.ids, y3.ids], union_subset x3.sub y3.sub, e4⟩⟩
    simp only [bstep]
    rw [x1, bind_ok, y1, bind_ok, e1, bind_ok]
  | rot i n' =>
    obtain ⟨x, x1, x2, x3⟩ := h.fetch hc
    obtain ⟨out, S', e1, e2, e3, e4⟩ := C58.rotate V (w.o n) M.S.base n' x3.lvl
      (C58.hasKeys_mono (by rw [x3.ids]; exact x3.sub) (hK.rot _ (C35.rotNorm_amount V.qp n').2)) hb.block x3.enc
    rw [x3.ids] at e4
    have e5 := Holds.of e2 (e3.trans x3.ids) x3.sub e4
    have ha := h.alloc
    refine ⟨⟨{ M.S with base := S' }, M.cts ++ [out]⟩, ?_, h.push (S := { M.S with base := S' }) ⟨ha.s1, ha.s2, ha.s3, ha.s4, ha.s5, ha.s6⟩ e5⟩
    simp only [bstep]
    rw [x1, bind_ok, e1, bind_ok]
  | conj i =>
    obtain ⟨x, x1, x2, x3⟩ := h.fetch hc
    obtain ⟨out, S', e1, e2, e3, e4⟩ := C58.conjugate V (w.o n 0) M.S.base x3.lvl (C58.conjKeys_mono (by rw [x3.ids]; exact x3.sub) hK.conj) hb.block x3.enc
    rw [x3.ids] at e4
    have e5 := Holds.of e2 (e3.trans x3.ids) x3.sub e4
    have ha := h.alloc
    refine ⟨⟨{ M.S with base := S' }, M.cts ++ [out]⟩, ?_, h.push (S := { M.S with base := S' }) ⟨ha.s1, ha.s2, ha.s3, ha.s4, ha.s5, ha.s6⟩ e5⟩
    simp only [bstep]
    rw [x1, bind_ok, e1, bind_ok]

/-- **C58, programs.** Every program whose operands exist runs to the end, whatever the map iteration orders, the scratch memory and the pools contain, and every ciphertext
the client then holds encrypts the plaintext that the program computes, within the computed noise. -/
theorem bprogram (V : B.Valid) (hK : K.Ok U s r b.Sb b.Rb b.Be) (hb : b.Ok B) (hw : w.Ok K U) (p : List BInstr) : ∀ (n : ℕ) {M : BMachine B} {A : BAbs N},
    BRel s U M A → BProgOk A.length p → ∃ M', brun K w n M p = .ok M' ∧ BRel s U M' (bexecs B K.crs b A p) := by
  induction p with
  | nil => exact fun n M A h _ => ⟨M, rfl, h⟩
  | cons c p ih =>
    intro n M A h hok
    obtain ⟨M1, s1, s2⟩ := bstep_ok V hK hb hw n h c hok.1
    obtain ⟨M2, r1, r2⟩ := ih (n + 1) s2 (by rw [bexec_length]; exact hok.2)
    refine ⟨M2, ?_, r2⟩
    simp only [brun]
    rw [s1, bind_ok, r1]

/-- **C58, end to end.** Any result of the program whose noise bound is below `Q/2`, decrypted with the keys of its parties and rounded, is the plaintext the program
computes, modulo T. -/
theorem bprogram_decrypt (V : B.Valid) (hK : K.Ok U s r b.Sb b.Rb b.Be) (hb : b.Ok B) (hw : w.Ok K U) (p : List BInstr) (n : ℕ) {M : BMachine B} {A : BAbs N}
    (h : BRel s U M A) (hok : BProgOk A.length p) {i : ℕ} (hi : i < (bexecs B K.crs b A p).length)
    (hB : 2 * ((bexecs B K.crs b A p).get i).2.2 < B.Q) {sks : KeySet (SKey B.C)} (hk : sks.Keyed SKey.id)
    (hs : ∀ id sk, sks.value.lookup id = some sk → sk.Is (s id)) (hall : ∀ id ∈ ((bexecs B K.crs b A p).get i).2.1, id ∈ sks.value) (od : Sched String) :
    ∃ M' ct pt, brun K w n M p = .ok M' ∧ M'.cts[i]? = some ct ∧ bfvDecrypt od ct sks = .ok pt ∧
      (∃ Φ : Nega N ℤ, ∀ i < B.C.nQ, cf (pt.coeffs i) = red (B.C.q i) Φ) ∧
      ∀ Φ : Nega N ℤ, (∀ i < B.C.nQ, cf (pt.coeffs i) = red (B.C.q i) Φ) → ∀ x,
        (2 * (B.t * Φ x) + B.Q) / (2 * B.Q) ≡ ((bexecs B K.crs b A p).get i).1 x [ZMOD B.t] := by
  obtain ⟨M', r1, r2⟩ := bprogram V hK hb hw p n h hok
  obtain ⟨ct, c1, c2, c3⟩ := r2.fetch hi
  obtain ⟨pt, d1, -, d3, d4⟩ := C58.decrypt V od c3.lvl c3.enc hB hk hs (by rw [c3.ids]; exact hall)
  exact ⟨M', ct, pt, r1, c2, d1, d3, d4⟩

/-! ### the same calls on two machines -/

theorem badd_same {x y x' y' : Ct B.C} (o o' : Sched String) (hx : x.AtLevel B.top) (hy : y.AtLevel B.top) (ex : x.Same x') (ey : y.Same y') :
    ∃ p q, bfvAddNew o x y = .ok p ∧ bfvAddNew o' x' y' = .ok q ∧ p.Same q := by
  obtain ⟨p, a1, a2⟩ := C22.addNew_made o hx hy
  obtain ⟨q, b1, b2⟩ := C22.addNew_made o' (ex.atLevel hx) (ey.atLevel hy)
  rw [← ex.ids, ← ey.ids, ← ex.comp, ← ey.comp] at b2
  exact ⟨p, q, a1, b1, a2.same b2 fun _ _ _ _ => rfl⟩

theorem bsub_same {x y x' y' : Ct B.C} (o o' : Sched String) (hx : x.AtLevel B.top) (hy : y.AtLevel B.top) (ex : x.Same x') (ey : y.Same y') :
    ∃ p q, bfvSubNew o x y = .ok p ∧ bfvSubNew o' x' y' = .ok q ∧ p.Same q := by
  obtain ⟨p, a1, a2⟩ := C22.subNew_made o hx hy
  obtain ⟨q, b1, b2⟩ := C22.subNew_made o' (ex.atLevel hx) (ey.atLevel hy)
  rw [← ex.ids, ← ey.ids, ← ex.comp, ← ey.comp] at b2
  exact ⟨p, q, a1, b1, a2.same b2 fun _ _ _ _ => rfl⟩

theorem bmulIn_congr {crs : GoMap ℤ (Swk B.C)} {x y x' y' : Ct B.C} (ex : x.Same x') (ey : y.Same y') (rlk : GoMap String (BRlk B.C)) :
    bmulIn crs x' y' rlk = bmulIn crs x y rlk := by
  have h1 : liftCt x' = liftCt x := by funext id; unfold liftCt; rw [ex id]
  have h2 : rescCt y' = rescCt y := by funext id; unfold rescCt; rw [ey id]
  unfold bmulIn
  rw [h1, h2, ex.ids, ey.ids]

theorem bmul_same (V : B.Valid) {crs : GoMap ℤ (Swk B.C)} {x y x' y' : Ct B.C} {set set' : BRlkMap B} {a : ℕ → PolyQP B.C} {Sb Rb Be : ℤ} (o o' : Sched String)
    {S S' : BScratch B} (hS : S.Alloc) (hS' : S'.Alloc) (hx : x.AtLevel B.top) (hy : y.AtLevel B.top) (ex : x.Same x') (ey : y.Same y')
    (Kk : C45.Keys crs (x.ids ∪ y.ids) set s r a Sb Rb Be) (hv : set'.value = set.value) (P : C45.Pools (x.ids ∪ y.ids) set) (P' : C45.Pools (x.ids ∪ y.ids) set') :
    ∃ p T q T', bfvMulRelinNew crs o S x y set = .ok (p, T) ∧ bfvMulRelinNew crs o' S' x' y' set' = .ok (q, T') ∧ p.Same q := by
  obtain ⟨i0, i1, u, a1, a2, a3, a4, a5, a6⟩ := idset_union (o 80) (o 81) (o 82) (o 83) x y
  obtain ⟨j0, j1, v, b1, b2, b3, b4, b5, b6⟩ := idset_union (o' 80) (o' 81) (o' 82) (o' 83) x' y'
  have hz : "0" ∉ x.ids ∪ y.ids := by rw [mem_union]; exact fun h => h.elim x.zero_notMem_ids y.zero_notMem_ids
  have hz' : "0" ∉ x'.ids ∪ y'.ids := by rw [mem_union]; exact fun h => h.elim x'.zero_notMem_ids y'.zero_notMem_ids
  have hA : (Ct.new (C := B.C) (o 84) u (B.C.nQ - 1)).AtLevel B.top := Ct.new_atLevel (o 84) u (B.C.nQ - 1)
  have hI : (Ct.new (C := B.C) (o 84) u (B.C.nQ - 1)).ids = x.ids ∪ y.ids := Ct.new_ids (o 84) a6 hz _
  have hA' : (Ct.new (C := B.C) (o' 84) v (B.C.nQ - 1)).AtLevel B.top := Ct.new_atLevel (o' 84) v (B.C.nQ - 1)
  have hI' : (Ct.new (C := B.C) (o' 84) v (B.C.nQ - 1)).ids = x'.ids ∪ y'.ids := Ct.new_ids (o' 84) b6 hz' _
  have hnew : (Ct.new (C := B.C) (o 84) u (B.C.nQ - 1)).Same (Ct.new (o' 84) v (B.C.nQ - 1)) :=
    C24.new_same _ _ (fun id => by rw [a6 id, b6 id, ex.ids, ey.ids]) _
  obtain ⟨p, T, e1, R1, r1, v1⟩ := bfvMulRelinHoisted_run V o S hS (C45.mulHyp hx hy hA hI Kk P)
  obtain ⟨q, T', f1, R2, r2, v2⟩ := bfvMulRelinHoisted_run V o' S' hS' (C45.mulHyp (ex.atLevel hx) (ey.atLevel hy) hA' hI'
    (by rw [← ex.ids, ← ey.ids]; exact keys_value Kk hv) (by rw [← ex.ids, ← ey.ids]; exact P'))
  rw [bmulIn_congr ex ey, hv] at v2
  refine ⟨p, T, q, T', ?_, ?_, C24.upd_same hnew r1 r2 fun id hid i hi => ?_⟩
  · unfold bfvMulRelinNew bfvNewBinary
    rw [a1, bind_ok, a2, bind_ok, a3, bind_ok, bind_ok, e1]
  · unfold bfvMulRelinNew bfvNewBinary
    rw [b1, bind_ok, b2, bind_ok, b3, bind_ok, bind_ok, f1]
  · have hm : id ∈ x.ids ∪ y.ids ∨ id = "0" := by
      by_cases e : id = "0"
      · exact .inr e
      · left; rw [← hI]; exact Ct.mem_ids.mpr ⟨hid, e⟩
    rw [v1 id hm i hi, v2 id hm i hi]

theorem keysForB {crs : GoMap ℤ (Swk B.C)} {l : ℕ} {ids : Finset String} {n : ℕ} {rks : RotKeySet (GalKey B.C)} {Sb Be : ℤ}
    (Kk : C33.Keys crs l ids n rks s Sb Be) : C24.KeysFor crs l ids rks n := by
  obtain ⟨a, k1, k2, k3⟩ := Kk.key
  exact ⟨a, k1, k2, fun id hid => by obtain ⟨key, e1, e2, -⟩ := k3 id hid; exact ⟨key, e1, e2⟩⟩

theorem brot_same (V : B.Valid) {crs : GoMap ℤ (Swk B.C)} {rks : RotKeySet (GalKey B.C)} {x x' : Ct B.C} (o o' : ℕ → Sched String) (S S' : Scratch B.C) (n : ℤ)
    (hx : x.AtLevel B.top) (ex : x.Same x') {Sb Be : ℤ} (Kk : C35.HasKeys crs B.top x.ids (C35.amount N n) rks s Sb Be) :
    ∃ p T q T', bfvRotateNew crs o S x n rks = .ok (p, T) ∧ bfvRotateNew crs o' S' x' n rks = .ok (q, T') ∧ p.Same q := by
  have hx' := ex.atLevel hx
  obtain ⟨ids, a1, a2⟩ := Ct.idset (o 0 63) x
  obtain ⟨ids', b1, b2⟩ := Ct.idset (o' 0 63) x'
  obtain ⟨hn, hlt⟩ := C35.rotNorm_amount V.qp n
  have hnew : (Ct.new (o 0 64) ids (B.C.nQ - 1) : Ct B.C).AtLevel B.top := Ct.new_atLevel _ _ _
  have hnid : (Ct.new (o 0 64) ids (B.C.nQ - 1) : Ct B.C).ids = x.ids := Ct.new_ids _ a2 (Ct.zero_notMem_ids _) _
  have hsame : (Ct.new (o 0 64) ids (B.C.nQ - 1) : Ct B.C).Same (Ct.new (o' 0 64) ids' (B.C.nQ - 1)) :=
    C24.new_same _ _ (fun id => by rw [a2 id, b2 id, ex.ids]) _
  have hlk : (crs.lookup (rotNorm N n) : Option (Swk B.C)) = crs.lookup (C35.amount N n : ℤ) :=
    congrArg (fun k : ℤ => (crs.lookup k : Option (Swk B.C))) hn
  unfold bfvRotateNew bfvRotate
  rw [a1, b1, bind_ok, bind_ok]
  dsimp only
  rw [hlk]
  by_cases hr : C35.amount N n = 0
  · have h00 : rotNorm N n = 0 := by rw [hn, hr]; rfl
    simp only [if_pos h00]
    obtain ⟨p, q, c1, c2, c3, _⟩ := C24.copyFrom_cong (o 0 61) (o' 0 61) hsame ex hnew hx hnid
    rw [c1, c2, bind_ok, bind_ok]
    exact ⟨_, _, _, _, rfl, rfl, c3⟩
  · have h00 : rotNorm N n ≠ 0 := by rw [hn]; exact_mod_cast hr
    simp only [if_neg h00]
    obtain ⟨tmp, t1, t2⟩ := Ct.copyNew_ok (o 0 62) hx.has0
    obtain ⟨tmp', t1', t2'⟩ := Ct.copyNew_ok (o' 0 62) hx'.has0
    rw [t1, t1', bind_ok, bind_ok]
    have htt : tmp.Same tmp' := t2.trans (ex.trans t2'.symm)
    by_cases hc : (crs.lookup (C35.amount N n : ℤ)).isSome
    · simp only [if_pos hc, hn]
      obtain ⟨o1, S1, o2, S2, e1, e2, e3, _⟩ := C24.rotate_same V.qp (o 0) (o' 0) S S' V.top_lt (t2.symm.atLevel hx) hnew (hnid.trans t2.ids.symm) htt hsame
        (t2.ids.symm ▸ keysForB (Kk.special hc hr))
      exact ⟨_, _, _, _, e1, e2, e3⟩
    · simp only [if_neg hc, hn, Int.toNat_natCast]
      obtain ⟨o1, S1, o2, S2, e1, e2, e3⟩ := C24.rotLoop_same V.qp o o' V.top_lt x.ids (C35.amount N n) 1 tmp tmp' _ _ S S'
        (t2.symm.atLevel hx) hnew t2.ids hnid htt hsame (fun j hj => by
          rw [one_mul]
          refine keysForB (Kk.default j (lt_of_le_of_lt ?_ hlt))
          by_contra h
          rw [mem_onBits, Nat.testBit_lt_two_pow (by omega)] at hj
          cases hj)
      exact ⟨_, _, _, _, e1, e2, e3⟩

theorem bconj_same (V : B.Valid) {crs : GoMap ℤ (Swk B.C)} {cks : KeySet (GalKey B.C)} {x x' : Ct B.C} (o o' : Sched String) (S S' : Scratch B.C)
    (hx : x.AtLevel B.top) (ex : x.Same x') {Sb Be : ℤ} (Kk : C36.Keys crs B.top x.ids cks s Sb Be) :
    ∃ p T q T', bfvConjugateNew B.top crs o S x cks = .ok (p, T) ∧ bfvConjugateNew B.top crs o' S' x' cks = .ok (q, T') ∧ p.Same q := by
  have hx' := ex.atLevel hx
  obtain ⟨u, k1, k2, k3⟩ := Kk.key
  obtain ⟨ids, a1, a2⟩ := Ct.idset (o 63) x
  obtain ⟨ids', b1, b2⟩ := Ct.idset (o' 63) x'
  obtain ⟨tmp, t1, t2⟩ := Ct.copyNew_ok (o 62) hx.has0
  obtain ⟨tmp', t1', t2'⟩ := Ct.copyNew_ok (o' 62) hx'.has0
  have htt : tmp.Same tmp' := t2.trans (ex.trans t2'.symm)
  have hK : ∀ id ∈ tmp.ids, ∃ key, cks.value.lookup id = some key ∧ B.C.beta B.top ≤ key.value.len := fun id hid => by
    obtain ⟨key, e1, e2, -⟩ := k3 id (t2.ids ▸ hid); exact ⟨key, e1, e2⟩
  have hnew : (Ct.new (o 64) ids (B.C.nQ - 1) : Ct B.C).AtLevel B.top := Ct.new_atLevel _ _ _
  have hnid : (Ct.new (o 64) ids (B.C.nQ - 1) : Ct B.C).ids = x.ids := Ct.new_ids _ a2 (Ct.zero_notMem_ids _) _
  have hnid' : (Ct.new (o' 64) ids' (B.C.nQ - 1) : Ct B.C).ids = x'.ids := Ct.new_ids _ b2 (Ct.zero_notMem_ids _) _
  have hsame : (Ct.new (o 64) ids (B.C.nQ - 1) : Ct B.C).Same (Ct.new (o' 64) ids' (B.C.nQ - 1)) :=
    C24.new_same _ _ (fun id => by rw [a2 id, b2 id, ex.ids]) _
  obtain ⟨p, T, e1, e2⟩ := conjugate_run V.qp o S (out := Ct.new (o 64) ids (B.C.nQ - 1)) ⟨V.top_lt, (t2.symm.atLevel hx).toCoeff, hnew, hnid.trans t2.ids.symm, hK, k1, k2⟩
  obtain ⟨q, T', f1, f2⟩ := conjugate_run V.qp o' S' (out := Ct.new (o' 64) ids' (B.C.nQ - 1))
    ⟨V.top_lt, (t2'.symm.atLevel hx').toCoeff, Ct.new_atLevel _ _ _, hnid'.trans t2'.ids.symm, fun id hid => hK id (htt.ids ▸ hid), k1, k2⟩
  unfold bfvConjugateNew
  rw [a1, b1, bind_ok, bind_ok, t1, t1', bind_ok, bind_ok]
  have hin : conjIn tmp = conjIn tmp' := by funext id; unfold conjIn; rw [htt.comp]
  refine ⟨p, T, q, T', e1, f1, C24.upd_same hsame e2 f2 fun id _ i _ => ?_⟩
  unfold conjOut
  rw [htt.ids, hin]

theorem bfetch_same {l l' : List (Ct B.C)} (h : List.Forall₂ Ct.Same l l') {i : ℕ} {x y : Ct B.C} (hx : l[i]? = some x) (hy : l'[i]? = some y) : x.Same y := by
  obtain ⟨h1, e1⟩ := List.getElem?_eq_some_iff.mp hx
  obtain ⟨h2, e2⟩ := List.getElem?_eq_some_iff.mp hy
  have := List.forall₂_iff_get.mp h |>.2 i h1 h2
  simp only [List.get_eq_getElem, e1, e2] at this
  exact this

/-- the client holds the same ciphertexts -/
def BSame (M M' : BMachine B) : Prop := List.Forall₂ Ct.Same M.cts M'.cts

theorem bstep_same (V : B.Valid) (hK : K.Ok U s r b.Sb b.Rb b.Be) (hw : w.Ok K U) (hw' : w'.Ok K U) (n n' : ℕ) {M M' : BMachine B} {A : BAbs N}
    (h : BRel s U M A) (h' : BRel s U M' A) (hM : BSame M M') (c : BInstr) (hc : c.Ok A.length) :
    ∃ X Y, bstep K w n M c = .ok X ∧ bstep K w' n' M' c = .ok Y ∧ BSame X Y := by
  cases c with
  | add i j =>
    obtain ⟨x, x1, x2, x3⟩ := h.fetch hc.1
    obtain ⟨y, y1, y2, y3⟩ := h.fetch hc.2
    obtain ⟨x', x1', x2', x3'⟩ := h'.fetch hc.1
    obtain ⟨y', y1', y2', y3'⟩ := h'.fetch hc.2
    obtain ⟨p, q, e1, e2, e3⟩ := badd_same (w.o n 0) (w'.o n' 0) x3.lvl y3.lvl (bfetch_same hM x2 x2') (bfetch_same hM y2 y2')
    refine ⟨⟨M.S, M.cts ++ [p]⟩, ⟨M'.S, M'.cts ++ [q]⟩, ?_, ?_, List.rel_append hM (.cons e3 .nil)⟩ <;> simp only [bstep]
    · rw [x1, bind_ok, y1, bind_ok, e1, bind_ok]
    · rw [x1', bind_ok, y1', bind_ok, e2, bind_ok]
  | sub i j =>
    obtain ⟨x, x1, x2, x3⟩ := h.fetch hc.1
    obtain ⟨y, y1, y2, y3⟩ := h.fetch hc.2
    obtain ⟨x', x1', x2', x3'⟩ := h'.fetch hc.1
    obtain ⟨y', y1', y2', y3'⟩ := h'.fetch hc.2
    obtain ⟨p, q, e1, e2, e3⟩ := bsub_same (w.o n 0) (w'.o n' 0) x3.lvl y3.lvl (bfetch_same hM x2 x2') (bfetch_same hM y2 y2')
    refine ⟨⟨M.S, M.cts ++ [p]⟩, ⟨M'.S, M'.cts ++ [q]⟩, ?_, ?_, List.rel_append hM (.cons e3 .nil)⟩ <;> simp only [bstep]
    · rw [x1, bind_ok, y1, bind_ok, e1, bind_ok]
    · rw [x1', bind_ok, y1', bind_ok, e2, bind_ok]
  | mul i j =>
    obtain ⟨x, x1, x2, x3⟩ := h.fetch hc.1
    obtain ⟨y, y1, y2, y3⟩ := h.fetch hc.2
    obtain ⟨x', x1', x2', x3'⟩ := h'.fetch hc.1
    obtain ⟨y', y1', y2', y3'⟩ := h'.fetch hc.2
    have hsub : x.ids ∪ y.ids ⊆ U := by rw [x3.ids, y3.ids]; exact union_subset x3.sub y3.sub
    obtain ⟨ka, hk⟩ := hK.rlk
    obtain ⟨p, T, q, T', e1, e2, e3⟩ := bmul_same V (w.o n 0) (w'.o n' 0) h.alloc h'.alloc x3.lvl y3.lvl (bfetch_same hM x2 x2') (bfetch_same hM y2 y2')
      (keys_value (C58.keys_mono hsub hk) (hw n).1) ((hw' n').1.trans (hw n).1.symm) (C58.pools_mono hsub (hw n).2) (C58.pools_mono hsub (hw' n').2)
    refine ⟨⟨T, M.cts ++ [p]⟩, ⟨T', M'.cts ++ [q]⟩, ?_, ?_, List.rel_append hM (.cons e3 .nil)⟩ <;> simp only [bstep]
    · rw [x1, bind_ok, y1, bind_ok, e1, bind_ok]
    · rw [x1', bind_ok, y1', bind_ok, e2, bind_ok]
  | rot i m =>
    obtain ⟨x, x1, x2, x3⟩ := h.fetch hc
    obtain ⟨x', x1', x2', x3'⟩ := h'.fetch hc
    obtain ⟨p, T, q, T', e1, e2, e3⟩ := brot_same V (w.o n) (w'.o n') M.S.base M'.S.base m x3.lvl (bfetch_same hM x2 x2')
      (C58.hasKeys_mono (by rw [x3.ids]; exact x3.sub) (hK.rot _ (C35.rotNorm_amount V.qp m).2))
    refine ⟨⟨{ M.S with base := T }, M.cts ++ [p]⟩, ⟨{ M'.S with base := T' }, M'.cts ++ [q]⟩, ?_, ?_, List.rel_append hM (.cons e3 .nil)⟩ <;> simp only [bstep]
    · rw [x1, bind_ok, e1, bind_ok]
    · rw [x1', bind_ok, e2, bind_ok]
  | conj i =>
    obtain ⟨x, x1, x2, x3⟩ := h.fetch hc
    obtain ⟨x', x1', x2', x3'⟩ := h'.fetch hc
    obtain ⟨p, T, q, T', e1, e2, e3⟩ := bconj_same V (w.o n 0) (w'.o n' 0) M.S.base M'.S.base x3.lvl (bfetch_same hM x2 x2')
      (C58.conjKeys_mono (by rw [x3.ids]; exact x3.sub) hK.conj)
    refine ⟨⟨{ M.S with base := T }, M.cts ++ [p]⟩, ⟨{ M'.S with base := T' }, M'.cts ++ [q]⟩, ?_, ?_, List.rel_append hM (.cons e3 .nil)⟩ <;> simp only [bstep]
    · rw [x1, bind_ok, e1, bind_ok]
    · rw [x1', bind_ok, e2, bind_ok]

theorem bstep_both (V : B.Valid) (hK : K.Ok U s r b.Sb b.Rb b.Be) (hb : b.Ok B) (hw : w.Ok K U) (hw' : w'.Ok K U) (n n' : ℕ) {M M' : BMachine B} {A : BAbs N}
    (h : BRel s U M A) (h' : BRel s U M' A) (hM : BSame M M') (c : BInstr) (hc : c.Ok A.length) :
    ∃ X Y, bstep K w n M c = .ok X ∧ bstep K w' n' M' c = .ok Y ∧ BRel s U X (bexec B K.crs b A c) ∧ BRel s U Y (bexec B K.crs b A c) ∧ BSame X Y := by
  obtain ⟨X, Y, e1, e2, e3⟩ := bstep_same V hK hw hw' n n' h h' hM c hc
  obtain ⟨X', f1, f2⟩ := bstep_ok V hK hb hw n h c hc
  obtain ⟨Y', g1, g2⟩ := bstep_ok V hK hb hw' n' h' c hc
  rw [e1] at f1
  rw [e2] at g1
  injection f1 with f1
  injection g1 with g1
  subst f1 g1
  exact ⟨X, Y, e1, e2, f2, g2, e3⟩

section Clients
variable {ι : Type} [DecidableEq ι]

/-- one evaluator, and what each client holds -/
structure BOffice (B : BCtx N) (ι : Type) where
  S : BScratch B
  cts : ι → List (Ct B.C)

/-- the client `k` as the only user of the evaluator -/
def BOffice.client (O : BOffice B ι) (k : ι) : BMachine B := ⟨O.S, O.cts k⟩

/-- after a call of client `k` -/
def BOffice.put (O : BOffice B ι) (k : ι) (M : BMachine B) : BOffice B ι := ⟨M.S, Function.update O.cts k M.cts⟩

/-- calls of several clients, in the order in which they reach the evaluator -/
def bserve (K : C58.Keyring B) (w : BEnv B) : ℕ → BOffice B ι → List (ι × BInstr) → Go (BOffice B ι)
  | _, O, [] => .ok O
  | n, O, c :: p => do
    let M ← bstep K w n (O.client c.1) c.2
    bserve K w (n + 1) (O.put c.1 M) p

/-- the calls of one client -/
def bcalls (k : ι) (p : List (ι × BInstr)) : List BInstr := (p.filter fun c => c.1 = k).map Prod.snd

theorem bcalls_self (k : ι) (c : BInstr) (p : List (ι × BInstr)) : bcalls k ((k, c) :: p) = c :: bcalls k p := by simp [bcalls]
theorem bcalls_other {k j : ι} (h : j ≠ k) (c : BInstr) (p : List (ι × BInstr)) : bcalls k ((j, c) :: p) = bcalls k p := by simp [bcalls, h]

theorem bserve_same (V : B.Valid) (hK : K.Ok U s r b.Sb b.Rb b.Be) (hb : b.Ok B) (hw : w.Ok K U) (w' : ι → BEnv B) (hw' : ∀ k, (w' k).Ok K U) (p : List (ι × BInstr)) :
    ∀ (n : ℕ) (n' : ι → ℕ) {O : BOffice B ι} {M : ι → BMachine B} {A : ι → BAbs N}, O.S.Alloc → (∀ k, BRel s U (O.client k) (A k)) → (∀ k, BRel s U (M k) (A k)) →
      (∀ k, BSame (O.client k) (M k)) → (∀ k, BProgOk (A k).length (bcalls k p)) →
      ∃ O', bserve K w n O p = .ok O' ∧ ∀ k, ∃ Y, brun K (w' k) (n' k) (M k) (bcalls k p) = .ok Y ∧ BSame (O'.client k) Y := by
  induction p with
  | nil => exact fun n n' O M A _ _ _ hM _ => ⟨O, rfl, fun k => ⟨M k, rfl, hM k⟩⟩
  | cons c p ih =>
    obtain ⟨j, c⟩ := c
    intro n n' O M A hr h h' hM hok
    have hj := hok j
    rw [bcalls_self] at hj
    obtain ⟨X, Y, e1, e2, f1, f2, hXY⟩ := bstep_both V hK hb hw (hw' j) n (n' j) (h j) (h' j) (hM j) c hj.1
    have hput : ∀ k, (O.put j X).client k = if k = j then X else ⟨X.S, O.cts k⟩ := fun k => by
      unfold BOffice.client BOffice.put
      by_cases hk : k = j
      · subst hk; simp
      · simp [hk]
    obtain ⟨O', g1, g2⟩ := ih (n + 1) (Function.update n' j (n' j + 1)) (O := O.put j X) (M := Function.update M j Y)
      (A := Function.update A j (bexec B K.crs b (A j) c)) f1.alloc
      (fun k => by
        rw [hput]
        by_cases hk : k = j
        · subst hk; simpa using f1
        · rw [if_neg hk, Function.update_of_ne hk]; exact ⟨f1.alloc, (h k).cts⟩)
      (fun k => by
        by_cases hk : k = j
        · subst hk; simpa using f2
        · simpa [hk] using h' k)
      (fun k => by
        rw [hput]
        by_cases hk : k = j
        · subst hk; simpa using hXY
        · rw [if_neg hk, Function.update_of_ne hk]; exact hM k)
      (fun k => by
        by_cases hk : k = j
        · subst hk; rw [Function.update_self, bexec_length]; exact hj.2
        · have := hok k
          rw [bcalls_other (Ne.symm hk)] at this
          simpa [hk] using this)
    refine ⟨O', ?_, fun k => ?_⟩
    · simp only [bserve]
      rw [e1, bind_ok, g1]
    · obtain ⟨Z, z1, z2⟩ := g2 k
      refine ⟨Z, ?_, z2⟩
      by_cases hk : k = j
      · subst hk
        rw [bcalls_self]
        simp only [brun]
        rw [e2, bind_ok]
        simpa using z1
      · rw [bcalls_other (Ne.symm hk)]
        simpa [hk] using z1

/-- **C69, BFV.** Any number of clients use one evaluator and one key set, and their calls reach it in any interleaving: no call fails, and every client ends up with, bit
for bit, the ciphertexts it gets by running its own calls alone on any other evaluator, with other map iteration orders and other contents of scratch memory and pools. -/
theorem binterleaved (V : B.Valid) (hK : K.Ok U s r b.Sb b.Rb b.Be) (hb : b.Ok B) (hw : w.Ok K U) (p : List (ι × BInstr)) (n : ℕ) {O : BOffice B ι} {A : ι → BAbs N}
    (hO : O.S.Alloc) (h : ∀ k, List.Forall₂ (Holds s U) (O.cts k) (A k)) (hok : ∀ k, BProgOk (A k).length (bcalls k p)) :
    ∃ O', bserve K w n O p = .ok O' ∧ ∀ (k : ι) (S : BScratch B) (w' : BEnv B) (m : ℕ), S.Alloc → w'.Ok K U →
      ∃ Y, brun K w' m ⟨S, O.cts k⟩ (bcalls k p) = .ok Y ∧ List.Forall₂ Ct.Same (O'.cts k) Y.cts := by
  have key := fun (S : BScratch B) (hS : S.Alloc) (w' : BEnv B) (hw' : w'.Ok K U) (m : ℕ) =>
    bserve_same V hK hb hw (fun _ => w') (fun _ => hw') p n (fun _ => m) (O := O) (M := fun k => ⟨S, O.cts k⟩) hO (fun k => ⟨hO, h k⟩) (fun k => ⟨hS, h k⟩)
      (fun k => List.forall₂_same.mpr fun x _ => Ct.Same.refl x) hok
  obtain ⟨O', e1, -⟩ := key O.S hO w hw 0
  refine ⟨O', e1, fun k S w' m hS hw' => ?_⟩
  obtain ⟨O2, f1, f2⟩ := key S hS w' hw' m
  rw [e1] at f1
  injection f1 with f1
  subst f1
  obtain ⟨Y, g1, g2⟩ := f2 k
  exact ⟨Y, g1, g2⟩

end Clients

end MKHE.C69
