import Verif.Lemmas.HeapCryptSim
import Verif.Props.HeapCirc
import Verif.Props.HeapProg
import Verif.Props.CkksCrypt
import Verif.Props.BfvSetup

set_option autoImplicit false
set_option linter.unusedSectionVars false

/-!
# C52, C63: encryption on the heap, and a BFV client on the heap end to end
-/

namespace MKHE

namespace C52
open Heap
variable {N : ℕ} [NeZero N] {C : Ctx N} {h : Heap N}

/-- **C52, Encrypt.** `Encrypt(plaintext, pk, ctOut)` writes polynomials of `ctOut` and nothing else that existed. -/
theorem encrypt_writes {us gs : ℕ → Nega N ℤ} {st : Enc C} {pt c : ℕ} {pk : PKey C} {w : Enc C × Heap N} (W : WF h) (hc : c < h.nct)
    (e : Heap.encrypt us gs st pt pk c h = .ok w) : WF w.2 ∧ Only (polysOf h c) ∅ h w.2 := by
  have R := Heap.encrypt_ok (h0 := h) (Wp := polysOf h c) (Wc := ∅) (Ok.start W) ⟨hc, fun id p hp => .inl ⟨id, hp⟩⟩ e
  exact ⟨R.1.wf, R.1.only⟩

/-- **C52, mkbfv EncryptMsgNew** -/
theorem bfvEncryptNew_fresh {o : Sched String} {us gs : ℕ → Nega N ℤ} {st : Enc C} {pt : ℕ} {pk : PKey C} {w : (ℕ × Enc C) × Heap N} (W : WF h)
    (e : Heap.bfvEncryptNew o us gs st pt pk h = .ok w) : Fresh ∅ ∅ h w.1.1 w.2 := by
  obtain ⟨ids, -, e⟩ := Go.bind_ok e
  dsimp only at e
  obtain ⟨r, e1, e⟩ := Go.bind_ok e
  cases e
  obtain ⟨M, -, -⟩ := newCt_spec (C := C) (o 207) ids (C.nQ - 1) W
  have R := Heap.encrypt_ok (h0 := h) (Wp := ∅) (Wc := ∅) ⟨M.wf, M.only⟩ (M.into ∅) e1
  exact Fresh.of_made M R.1 (by rw [R.2.1]) (by rw [R.2.2])

/-- **C52, mkckks EncryptMsgNew** -/
theorem ckksEncryptNew_fresh {o : Sched String} {us gs : ℕ → Nega N ℤ} {st : Enc C} {pt : ℕ} {scale : ℚ} {pk : PKey C} {w : (HCt × Enc C) × Heap N}
    (W : WF h) (e : Heap.ckksEncryptNew o us gs st pt scale pk h = .ok w) : Fresh ∅ ∅ h w.1.1.ct w.2 := by
  obtain ⟨ids, -, e⟩ := Go.bind_ok e
  dsimp only at e
  obtain ⟨r, e1, e⟩ := Go.bind_ok e
  cases e
  obtain ⟨M, -, -⟩ := newCt_spec (C := C) (o 207) ids (C.nQ - 1) W
  have R := Heap.encrypt_ok (h0 := h) (Wp := ∅) (Wc := ∅) ⟨M.wf, M.only⟩ (M.into ∅) e1
  exact Fresh.of_made M R.1 (by rw [R.2.1]) (by rw [R.2.2])

end C52

namespace C63
open Heap Nega Finset
variable {N : ℕ} [NeZero N]

section refine
variable {C : Ctx N} {h : Heap N}

/-- `Encrypt` into any receiver that does not contain the plaintext polynomial writes what it writes on values -/
theorem encrypt_refines {us gs : ℕ → Nega N ℤ} {st : Enc C} {pt c : ℕ} {pk : PKey C} {ct : Ct C} (R : Rep h c ct) (hp : pt < h.npoly)
    (hn : pt ∉ polysOf h c) {w : Ct C × Enc C} (e : MKHE.encrypt us gs st (h.view C pt) pk ct = .ok w) :
    ∃ h', Heap.encrypt us gs st pt pk c h = .ok (w.2, h') ∧ Shows (value C h' c) w.1 := by
  obtain ⟨h', a, b⟩ := encrypt_sim R hp hn e
  exact ⟨h', a, b.shows⟩

theorem bfvEncryptNew_refines (o : Sched String) (us gs : ℕ → Nega N ℤ) (st : Enc C) {pt : ℕ} (pk : PKey C) (W : WF h) (hp : pt < h.npoly)
    {w : Ct C × Enc C} (e : MKHE.bfvEncryptNew o us gs st (h.view C pt) pk = .ok w) :
    ∃ c h', Heap.bfvEncryptNew o us gs st pt pk h = .ok ((c, w.2), h') ∧ Shows (value C h' c) w.1 := by
  obtain ⟨ids, e1, e⟩ := Go.bind_ok e
  obtain ⟨M, -, -⟩ := newCt_spec (C := C) (o 207) ids (C.nQ - 1) W
  have R := newCt_rep (C := C) (o 207) (o 207) ids (C.nQ - 1) W
  rw [← M.only.view (C := C) hp (by simp)] at e
  obtain ⟨h', a, b⟩ := encrypt_refines R (lt_of_lt_of_le hp M.only.npoly) (fun ⟨id, h2⟩ => by have := (M.new id pt h2).1; omega) e
  refine ⟨_, h', ?_, b⟩
  unfold Heap.bfvEncryptNew
  rw [e1, bind_ok]
  dsimp only
  rw [a, bind_ok]

theorem ckksEncryptNew_refines (o : Sched String) (us gs : ℕ → Nega N ℤ) (st : Enc C) {pt : ℕ} (scale : ℚ) (pk : PKey C) (W : WF h) (hp : pt < h.npoly)
    {w : CCt C × Enc C} (e : MKHE.ckksEncryptNew o us gs st (h.view C pt) scale pk = .ok w) :
    ∃ c h', Heap.ckksEncryptNew o us gs st pt scale pk h = .ok ((⟨c, w.1.scale⟩, w.2), h') ∧ Shows (value C h' c) w.1.ct := by
  obtain ⟨ids, e1, e⟩ := Go.bind_ok e
  obtain ⟨M, -, -⟩ := newCt_spec (C := C) (o 207) ids (C.nQ - 1) W
  have R := newCt_rep (C := C) (o 207) (o 207) ids (C.nQ - 1) W
  obtain ⟨r, e2, e⟩ := Go.bind_ok e
  cases e
  rw [← M.only.view (C := C) hp (by simp)] at e2
  obtain ⟨h', a, b⟩ := encrypt_refines R (lt_of_lt_of_le hp M.only.npoly) (fun ⟨id, h2⟩ => by have := (M.new id pt h2).1; omega) e2
  refine ⟨_, h', ?_, b⟩
  unfold Heap.ckksEncryptNew
  rw [e1, bind_ok]
  dsimp only
  unfold Heap.ckksEncryptPtxt
  rw [a, bind_ok]

/-- **C63, encryption into a running machine.** A client that holds encryptions encrypts one more message, from a plaintext polynomial anywhere on the heap: the
call returns, everything the client held is unchanged, and the new register is an encryption of the message with the noise of C59. -/
theorem encrypt_push {S : C59.Sys C} {M : HMachine C} {A : C59.Abs N} (V : C.Valid) (hS : S.Ok) (H : HRel S M A) (o : Sched String) (us gs : ℕ → Nega N ℤ)
    (st : Enc C) {pt : ℕ} (hp : pt < M.h.npoly) {l : ℕ} (hlen : M.h.len pt = l + 1) (hl : l < C.nQ) {scale : ℚ} (hsc : 0 < scale) {v : Nega N ℝ} {Vb Bp : ℝ}
    (hv : SBdd v Vb)
    (hpt : ∃ Φ : Nega N ℤ, (∀ i ≤ l, cf ((M.h.view C pt).coeffs i) = red (C.q i) Φ) ∧
      ∀ j : ℤ, ‖slot j (toReal Φ) - ((scale : ℝ) : ℂ) * slot j v‖ ≤ Bp) {pk : PKey C} (hid : pk.id ≠ "0")
    (hU : pk.id ∈ S.U) {e : Nega N ℤ} (hpk : C17.PubKey pk (S.s pk.id) e) {Bu Be Bg : ℤ} (hu : ∀ n, Bdd (us n) Bu) (hg : ∀ n, Bdd (gs n) Bg)
    (he : Bdd e Be) :
    ∃ c st' h', Heap.ckksEncryptNew o us gs st pt scale pk M.h = .ok ((c, st'), h') ∧
      HRel S (M.push c h' M.st.ev M.st.rlk) (A.push v ⟨l, scale, {pk.id}, Vb, Bp + N * ((N * Bu * Be + Bg + N * Bg * S.Sb : ℤ) : ℝ)⟩) ∧
      Keeps M (M.push c h' M.st.ev M.st.rlk) := by
  obtain ⟨ct, st', e1, e2⟩ := C59.encrypt V hS o us gs st (pt := M.h.view C pt) hlen hl hsc hv hpt hid hU hpk hu hg he
  obtain ⟨c, h', f1, f2⟩ := ckksEncryptNew_refines o us gs st scale pk H.wf hp e1
  have F := C52.ckksEncryptNew_fresh H.wf f1
  exact ⟨_, st', h', f1, H.push_fresh H.ready F (approx_shows e2 rfl f2)⟩

end refine

open C58
variable {B : BCtx N}

/-- nothing that existed in `h` was written, except the polynomial `pool` -/
structure LaterP (pool : ℕ) (h h' : Heap N) : Prop where
  wf : WF h'
  only : Only {pool} ∅ h h'

theorem encodes_copy {P Q : Poly B.C} {m : Nega N ℤ} {Bm : ℤ} (hQ : Q.len = B.C.nQ) (h : Encodes B P m Bm) : Encodes B (Q.copy P) m Bm := by
  obtain ⟨hl, Φ, b, h1, h2, h3⟩ := h
  refine ⟨hQ, Φ, b, h1, h2, fun i hi => ?_⟩
  rw [← h3 i hi]
  have hr : (Q.copy P).rows i = P.rows i := if_pos (by omega)
  have hf : (Q.copy P).isNTT = P.isNTT := rfl
  unfold Poly.coeffs
  rw [hr, hf]

/-- ciphertexts with no polynomial in common with the plaintext pool -/
def Off (pool : ℕ) (h : Heap N) (c : ℕ) : Prop := c < h.nct ∧ ∀ id p, (h.ct c).lookup id = some p → p ≠ pool

theorem Off.keep {pool : ℕ} {h h' : Heap N} (W : WF h) (o : Only {pool} ∅ h h') {c : ℕ} (hc : Off pool h c) : Off pool h' c ∧ value B.C h' c = value B.C h c := by
  refine ⟨⟨lt_of_lt_of_le hc.1 o.nct, ?_⟩, o.value W hc.1 (by simp) fun id p hp e => hc.2 id p hp (Set.mem_singleton_iff.mp e)⟩
  rw [o.ct c hc.1 (by simp)]
  exact hc.2

/-- **C63, encryption.** Messages encrypted one after the other through the same plaintext pool, on any heap: every result encrypts its own message. -/
theorem encryptAll_ok (V : B.Valid) {s : String → Nega N ℤ} (o : ℕ → Sched String) {us gs : ℕ → Nega N ℤ} {Bu Bg Be Sb Bm : ℤ} (hu : ∀ n, Bdd (us n) Bu)
    (hg : ∀ n, Bdd (gs n) Bg) (hs : ∀ id, Bdd (s id) Sb) {pks : KeySet (PKey B.C)} {ids : List String} (h0 : "0" ∉ ids)
    (hpk : ∀ id ∈ ids, ∃ pk e, pks.value.lookup id = some pk ∧ pk.id = id ∧ C17.PubKey pk (s id) e ∧ Bdd e Be) (st : Enc B.C)
    (ins : List (Input B)) (hins : ∀ x ∈ ins, x.owner ∈ ids ∧ Encodes B x.pt x.msg Bm) {h : Heap N} (W : WF h) {pool : ℕ} (hp : pool < h.npoly)
    (hpl : h.len pool = B.C.nQ) :
    ∃ cs st' h', Heap.bfvEncryptAll o us gs pks pool st h (ins.map fun x => (x.owner, x.pt)) = .ok ((cs, st'), h') ∧ LaterP pool h h' ∧
      cs.length = ins.length ∧
      ∀ (n : ℕ) (x : Input B), ins[n]? = some x → ∃ c, cs[n]? = some c ∧ c < h'.nct ∧ (value B.C h' c).AtLevel B.top ∧ (value B.C h' c).ids = {x.owner} ∧
        BfvEnc B s (value B.C h' c) x.msg (freshNoise B Bm Bu Bg Be Sb) := by
  unfold Heap.bfvEncryptAll
  generalize hl : ins.map (fun x => (x.owner, x.pt)) = l
  obtain ⟨⟨⟨cs, st'⟩, h'⟩, e1, e2, e3, -, e4⟩ := Go.loop_inv (fun (w : (List ℕ × Enc B.C) × Heap N) (x : String × Poly B.C) => do
      let pk ← pks.get "cannot get public key: there is no public key with given id" x.1
      let c ← Heap.bfvEncryptNew (o w.1.1.length) us gs w.1.2 pool pk (encodeInto pool x.2 w.2)
      .ok ((w.1.1 ++ [c.1.1], c.1.2), c.2))
    (fun pre w => w.1.1.length = pre.length ∧ LaterP pool h w.2 ∧ w.2.len pool = B.C.nQ ∧ ∀ n < pre.length, ∀ x : Input B, ins[n]? = some x →
      ∃ c, w.1.1[n]? = some c ∧ Off pool w.2 c ∧ (value B.C w.2 c).AtLevel B.top ∧ (value B.C w.2 c).ids = {x.owner} ∧
      BfvEnc B s (value B.C w.2 c) x.msg (freshNoise B Bm Bu Bg Be Sb)) l (([], st), h)
    ⟨rfl, ⟨W, Only.refl _ _ _⟩, hpl, fun n h => by simp at h⟩ (by
    rintro pre y suf ⟨⟨w, st1⟩, g⟩ hpre ⟨ih1, ih2, ih3, ih4⟩
    dsimp only at ih1 ih2 ih3 ih4 ⊢
    have hy : ∃ x, ins[pre.length]? = some x ∧ y = (x.owner, x.pt) := by
      have h1 : l[pre.length]? = some y := by rw [hpre]; simp
      rw [← hl, List.getElem?_map] at h1
      cases h2 : ins[pre.length]? with
      | none => rw [h2] at h1; cases h1
      | some x => rw [h2] at h1; exact ⟨x, rfl, (Option.some.inj h1).symm⟩
    obtain ⟨x, hx, rfl⟩ := hy
    obtain ⟨hx1, hx2⟩ := hins x (List.mem_of_getElem? hx)
    obtain ⟨pk, e, p1, p2, p3, p4⟩ := hpk _ hx1
    have hid : pk.id ≠ "0" := fun h => h0 (by rw [← h, p2]; exact hx1)
    have hpg : pool < g.npoly := lt_of_lt_of_le hp ih2.only.npoly
    have T := encodeInto_run x.pt ih2.wf hpg
    have hp2 : pool < (encodeInto pool x.pt g).npoly := by rw [T.npoly]; exact hpg
    have hx3 : Encodes B ((encodeInto pool x.pt g).view B.C pool) x.msg Bm := by rw [T.view]; exact encodes_copy ih3 hx2
    obtain ⟨ct, st2, c1, c2, c3, c4⟩ := C58.encrypt (s := s) V (o w.length) us gs st1 hx3 (pk := pk) hid (by rw [p2]; exact p3) hu hg p4 (hs _)
    obtain ⟨r, g', d1, d2⟩ := bfvEncryptNew_refines (o w.length) us gs st1 pk T.wf hp2 c1
    have F := C52.bfvEncryptNew_fresh T.wf d1
    have o1 : Only {pool} ∅ g g' := T.only.trans (F.only.mono (by simp) (by simp))
    have hpool : g'.view B.C pool = (g.view B.C pool).copy x.pt := by rw [F.only.view hp2 (by simp), T.view]
    refine ⟨((w ++ [r], st2), g'), ?_, by simp [ih1], ⟨F.wf, ih2.only.trans o1⟩, ?_, fun n hn x' hx' => ?_⟩
    · unfold KeySet.get
      rw [p1]
      dsimp only
      rw [bind_ok, d1, bind_ok]
    · exact (congrArg Poly.len hpool).trans ih3
    · rw [List.length_append, List.length_singleton] at hn
      by_cases hlt : n < pre.length
      · obtain ⟨c, t1, t2, t3⟩ := ih4 n hlt x' hx'
        obtain ⟨k1, k2⟩ := t2.keep (B := B) ih2.wf o1
        refine ⟨c, by dsimp only; rw [List.getElem?_append_left (by omega)]; exact t1, k1, ?_⟩
        dsimp only
        rw [k2]; exact t3
      · have hnn : n = pre.length := by omega
        subst hnn
        rw [hx] at hx'
        injection hx' with hx'
        subst hx'
        refine ⟨r, by rw [← ih1]; simp, ⟨F.newCt.2, fun id p hp' => ?_⟩, d2.atLevel c2, by rw [d2.ids, c3, p2], enc_shows V c2 d2 c4⟩
        have := F.newPoly id p hp'
        omega)
  dsimp only at e2 e3 e4
  refine ⟨cs, st', h', e1, e3, ?_, fun n x hx => ?_⟩
  · rw [e2, ← hl, List.length_map]
  · obtain ⟨c, a, b, d⟩ := e4 n (by rw [← hl, List.length_map]; exact (List.getElem?_eq_some_iff.mp hx).1) x hx
    exact ⟨c, a, b.1, d⟩

/-- a client of mkbfv on the heap: key setup for the parties, encryption of the inputs through the encryptor's plaintext pool, a program run by the evaluator on
pointers, decryption (mkbfv/keygen.go, encryptor.go, evaluator.go, decryptor.go). The result is a pointer to the polynomial given to the decoder. -/
def hclient (crs : GoMap ℤ (Swk B.C)) (gs : ℕ → Nega N ℤ) (s r : String → Nega N ℤ) (kg : KG B.C) (ids : List String) (us es : ℕ → Nega N ℤ) (st : Enc B.C)
    (pool : ℕ) (ins : List (Input B)) (c : Circ) (oe : ℕ → Sched String) (o : List ℕ → ℕ → Sched String) (S : BScratch B) (od : Sched String) (h : Heap N) :
    Go (ℕ × Heap N) := do
  let w ← bfvSetup crs gs s r kg ids
  let e ← Heap.bfvEncryptAll oe us es w.pks pool st h (ins.map fun x => (x.owner, x.pt))
  let out ← hcirc (BfvKeyStore.ring crs w) (fun n => (e.1.1[n]?).getD 0) o c S e.2
  Heap.bfvDecrypt od out.2 out.1.1 w.sks

/-- **C63, a BFV client on the heap end to end.** As `C58.client_ok`, with every ciphertext and the encryptor's plaintext pool in shared memory; of what
existed before, only the plaintext pool is written. -/
theorem hclient_ok (V : B.Valid) {Be : ℤ} (hB : B.C.SmallBound Be) {gs : ℕ → Nega N ℤ} (hg : ∀ n, Bdd (gs n) Be) {crs : GoMap ℤ (Swk B.C)}
    (hcrs : CrsLen B.C crs) (hd : C16.DefaultIdx N crs) {s r : String → Nega N ℤ} {Sb Rb : ℤ} (hs : ∀ id, Bdd (s id) Sb) (hSb : Sb ≤ Be)
    (hr : ∀ id, Bdd (r id) Rb) (hRb : Rb ≤ Be) (kg : KG B.C) (ids : List String) (h0 : "0" ∉ ids) {us es : ℕ → Nega N ℤ} {Bu Bg Bm : ℤ}
    (hu : ∀ n, Bdd (us n) Bu) (he : ∀ n, Bdd (es n) Bg) (st : Enc B.C) (ins : List (Input B))
    (hins : ∀ x ∈ ins, x.owner ∈ ids ∧ Encodes B x.pt x.msg Bm) (c : Circ) (hc : ∀ n ∈ c.inputs, n < ins.length)
    {D : ℤ} (hD : ∀ k < 2 * B.bt, 3 * (B.blockR k : ℤ) ≤ D) (hD' : ∀ k < B.bt, 2 * (B.C.blockProd B.top k : ℤ) ≤ D)
    {owner : ℕ → String} {m : ℕ → Nega N ℤ} (hm : ∀ (n : ℕ) (x : Input B), ins[n]? = some x → owner n = x.owner ∧ m n = x.msg)
    (hn : 2 * c.noise B crs (fun n => {owner n}) (fun _ => freshNoise B Bm Bu Bg Be Sb) D Sb Rb Be < B.Q)
    (oe : ℕ → Sched String) (o : List ℕ → ℕ → Sched String) (S : BScratch B) (hS : S.Alloc) (od : Sched String)
    {h : Heap N} (W : WF h) {pool : ℕ} (hp : pool < h.npoly) (hpl : h.len pool = B.C.nQ) :
    ∃ p h', hclient crs gs s r kg ids us es st pool ins c oe o S od h = .ok (p, h') ∧ LaterP pool h h' ∧
      (∃ Φ : Nega N ℤ, ∀ i < B.C.nQ, cf ((h'.view B.C p).coeffs i) = red (B.C.q i) Φ) ∧
      ∀ Φ : Nega N ℤ, (∀ i < B.C.nQ, cf ((h'.view B.C p).coeffs i) = red (B.C.q i) Φ) → ∀ x,
        (2 * (B.t * Φ x) + B.Q) / (2 * B.Q) ≡ c.val m x [ZMOD B.t] := by
  obtain ⟨w, w1, w2, w3, w4, w5, w6⟩ := setup_ok V hB hg hcrs hd hs hSb hr hRb kg ids
  obtain ⟨cs, st', h1, e1, L1, -, e3⟩ := encryptAll_ok V oe hu he hs h0 w6 st ins hins W hp hpl
  have hin : ∀ n ∈ c.inputs, (cs[n]?).getD 0 < h1.nct ∧ (value B.C h1 ((cs[n]?).getD 0)).AtLevel B.top ∧ (value B.C h1 ((cs[n]?).getD 0)).ids = {owner n} ∧
      ({owner n} : Finset String) ⊆ ids.toFinset ∧ BfvEnc B s (value B.C h1 ((cs[n]?).getD 0)) (m n) (freshNoise B Bm Bu Bg Be Sb) := fun n hn => by
    have hx : ins[n]? = some (ins[n]'(hc n hn)) := List.getElem?_eq_getElem (hc n hn)
    obtain ⟨ct, c0, c1, c2, c3, c4⟩ := e3 n _ hx
    obtain ⟨m1, m2⟩ := hm n _ hx
    rw [c0]
    exact ⟨c1, c2, by rw [m1]; exact c3, by rw [m1, singleton_subset_iff]; exact List.mem_toFinset.mpr (hins _ (List.mem_of_getElem? hx)).1,
      by rw [m2]; exact c4⟩
  have hids : ∀ c' : Circ, c'.inputs ⊆ c.inputs → ∀ id ∈ c'.ids (fun n => {owner n}), id ∈ ids := by
    intro c'
    induction c' with
    | input n =>
      intro h id hid
      have := (hin n (h (mem_singleton_self n))).2.2.2.1 hid
      exact List.mem_toFinset.mp this
    | add a b iha ihb | sub a b iha ihb | mul a b iha ihb =>
      intro h id hid
      rcases mem_union.mp hid with h' | h'
      · exact iha (subset_union_left.trans h) id h'
      · exact ihb (subset_union_right.trans h) id h'
    | rot n a iha => exact iha
    | conj a iha => exact iha
  obtain ⟨out, S', h2, p, h3, r1, -, r2, r3, r4, r5⟩ := C63.circuit_decrypt V w2 hD hD' (ct := fun n => (cs[n]?).getD 0) (m := m)
    (Bin := fun _ => freshNoise B Bm Bu Bg Be Sb) c (I := fun n => {owner n}) L1.wf hin o S hS hn w3 w4
    (fun id hid => w5 id (hids c (Finset.Subset.refl _) id hid)) od
  refine ⟨p, h3, ?_, ⟨r3.wf, L1.only.trans (r3.only.mono (by simp) (by simp))⟩, r4, r5⟩
  unfold hclient
  rw [w1, bind_ok, e1, bind_ok, r1, bind_ok]
  exact r2

end C63
end MKHE
