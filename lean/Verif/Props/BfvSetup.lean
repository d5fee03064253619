import Verif.Model.BfvSetup
import Verif.Model.Alloc
import Verif.Props.BfvSem
import Verif.Props.BfvKeyGen

set_option autoImplicit false

/-!
# C58: the keys that BFV key generation makes are the ones the evaluator needs; a BFV client end to end
-/

namespace MKHE.C58
open Finset Nega

variable {N : ℕ} [NeZero N] {B : BCtx N}

/-- what the parties processed so far have in the key sets -/
structure StoreOk (crs : GoMap ℤ (Swk B.C)) (a u c : Swk B.C) (s r : String → Nega N ℤ) (Be : ℤ) (ids : List String) (w : BfvKeyStore B) : Prop where
  keyed : w.sks.Keyed SKey.id
  skIs : ∀ id sk, w.sks.value.lookup id = some sk → sk.Is (s id)
  skMem : ∀ id ∈ ids, id ∈ w.sks.value
  pk : ∀ id ∈ ids, ∃ pk e, w.pks.value.lookup id = some pk ∧ pk.id = id ∧ C17.PubKey pk (s id) e ∧ Bdd e Be
  rlk : ∀ id ∈ ids, ∃ key, w.rlk.value.lookup id = some key ∧ key.Rel (s id) (r id) a.val u.val B.gadB Be
  pools : C45.Pools ids.toFinset w.rlk
  rot : ∀ id ∈ ids, ∀ j : ℕ, 2 ^ j < N / 2 → C16.HasRotKey B.C crs Be w.rks id (s id) (2 ^ j)
  conj : ∀ id ∈ ids, ∃ key, w.cks.value.lookup id = some key ∧ B.bt ≤ key.value.len ∧
    KeyRel B.C B.bt (s id) c.val (galois (2 * N - 1) (s id)) Be key.value.val

/-- adding to a key set: the new key under its id, every other entry as before -/
theorem lookup_add {K : Type*} {P : String → K → Prop} (idOf : K → String) (w : KeySet K) (k : K) {ids : List String} {id : String} (hk : idOf k = id)
    (hP : P id k) (h : ∀ i ∈ ids, ∃ x, w.value.lookup i = some x ∧ P i x) :
    ∀ i ∈ ids ++ [id], ∃ x, (w.add idOf k).value.lookup i = some x ∧ P i x := by
  intro i hi
  show ∃ x, (w.value.insert (idOf k) k).lookup i = some x ∧ _
  rw [GoMap.lookup_insert', hk]
  by_cases e : i = id
  · subst e; exact ⟨k, if_pos rfl, hP⟩
  · rw [if_neg e]
    rcases List.mem_append.mp hi with h1 | h1
    · exact h _ h1
    · exact absurd (List.mem_singleton.mp h1) e

theorem insert_step {K : Type*} {P : K → Prop} (m : GoMap String K) (k : K) {ids : List String} {id : String} (hP : P k)
    (h : ∀ i ∈ ids, ∃ x, m.lookup i = some x ∧ P x) : ∀ i ∈ ids ++ [id], ∃ x, (m.insert id k).lookup i = some x ∧ P x := by
  intro i hi
  rw [GoMap.lookup_insert']
  by_cases e : i = id
  · subst e; exact ⟨k, if_pos rfl, hP⟩
  · rw [if_neg e]
    rcases List.mem_append.mp hi with h1 | h1
    · exact h _ h1
    · exact absurd (List.mem_singleton.mp h1) e

theorem mem_step {K : Type*} (m : GoMap String K) (k : K) {ids : List String} {id : String} (h : ∀ i ∈ ids, i ∈ m) :
    ∀ i ∈ ids ++ [id], i ∈ m.insert id k := by
  intro i hi
  rw [AList.mem_insert]
  rcases List.mem_append.mp hi with h1 | h1
  · exact .inr (h _ h1)
  · exact .inl (List.mem_singleton.mp h1)

theorem setupParty_ok (V : B.Valid) {Be : ℤ} (hB : B.C.SmallBound Be) {gs : ℕ → Nega N ℤ} (hg : ∀ n, Bdd (gs n) Be) {crs : GoMap ℤ (Swk B.C)}
    (hcrs : CrsLen B.C crs) (hd : C16.DefaultIdx N crs) {a1 a2 u c : Swk B.C} (ha1 : crs.lookup 0 = some a1) (hu : crs.lookup (-1) = some u)
    (hc : crs.lookup (-2) = some c) (ha2 : crs.lookup (-3) = some a2) {s r : String → Nega N ℤ}
    (hs : ∀ id, Bdd (s id) Be) (hr : ∀ id, Bdd (r id) Be) {ids : List String} {w : BfvKeyStore B}
    (h : StoreOk crs ⟨B.bt, comb B.bt a1.val a2.val⟩ u c s r Be ids w) (id : String) :
    ∃ w', bfvSetupParty crs gs s r w id = .ok w' ∧ StoreOk crs ⟨B.bt, comb B.bt a1.val a2.val⟩ u c s r Be (ids ++ [id]) w' := by
  have hd' : C16.HasDefault N crs := fun i hi => (hd _).mpr (.inr (.inr (.inr (.inr (.inr ⟨i, rfl, by
    have h2 : ((2 ^ i : ℕ) : ℤ) < ((N / 2 : ℕ) : ℤ) := by exact_mod_cast hi
    push_cast at h2; exact h2⟩)))))
  have hb : 0 < B.C.beta (B.C.nQ - 1) := V.qp.beta_pos (by have := V.qp.q1; omega)
  obtain ⟨sk, pk, kg1, b1, b2, b3, b4, _, b5⟩ := C12.keyPair V.qp hB hg w.kg (hs id) id ha1 (lt_of_lt_of_le hb (hcrs _ _ ha1))
  obtain ⟨l, kg2, c1, c2, l1, l2, l3, l4, l5, k1, k2, k3⟩ := C44.relinearizationKey V hB hg kg1 b2 (genSecretKey_is V.qp hB (hr id) id) ha1 ha2 hu
    (hcrs _ _ ha1) (hcrs _ _ ha2) (hcrs _ _ hu)
  obtain ⟨ck, kg3, d1, d2, d3, d4⟩ := C15.conjugationKey V.qp hB hg kg2 b2 hc (hcrs _ _ hc)
  obtain ⟨rk, kg4, e1, e2, e3⟩ := C16.defaultRotationKeys V.qp hB hg b2 hcrs hd' w.rks kg3
  rw [b3] at c2 d2 e2 e3
  refine ⟨⟨kg4, w.sks.add SKey.id sk, w.pks.add PKey.id pk, w.rlk.add BRlk.id PolyR.zero Swk.new l, rk, w.cks.add GalKey.id ck⟩, ?_, h.keyed.add _,
    ?_, ?_, ?_, ?_, ?_, ?_, ?_⟩
  · unfold bfvSetupParty
    rw [b1, bind_ok]
    dsimp only
    rw [show genSecretKey (r id) id = genSecretKeyFromSampler (C := B.C) (r id) id from rfl, c1, bind_ok]
    dsimp only
    rw [d1, bind_ok]
    dsimp only
    rw [e1, bind_ok]
  · intro id' sk' hsk'
    have hsk' : (w.sks.value.insert (SKey.id sk) sk).lookup id' = some sk' := hsk'
    rw [GoMap.lookup_insert', b3] at hsk'
    by_cases e : id' = id
    · rw [if_pos e] at hsk'; injection hsk' with hsk'; subst hsk'; rw [e]; exact b2
    · rw [if_neg e] at hsk'; exact h.skIs _ _ hsk'
  · have := mem_step w.sks.value sk (id := id) h.skMem
    rw [← b3] at this
    rwa [← b3]
  · have := lookup_add (P := fun i (pk : PKey B.C) => ∃ e, pk.id = i ∧ C17.PubKey pk (s i) e ∧ Bdd e Be) PKey.id w.pks pk b4
      ⟨gs w.kg.pos, b4, C17.PubKey.of_gen b5, hg _⟩ (fun i hi => by
        obtain ⟨pk, e, x1, x2⟩ := h.pk i hi; exact ⟨pk, x1, e, x2⟩)
    intro i hi
    obtain ⟨pk, x1, e, x2⟩ := this i hi
    exact ⟨pk, e, x1, x2⟩
  · refine lookup_add (P := fun i (key : BRlk B.C) => key.Rel (s i) (r i) (comb B.bt a1.val a2.val) u.val B.gadB Be) BRlk.id ⟨w.rlk.value⟩ l c2
      ⟨l1.ge, l2.ge, l3.ge, l4.ge, l5.ge, ?_, k2.rel fun _ _ => hg _, k3.rel le_rfl fun _ _ => (hg _).neg⟩ h.rlk
    exact k1.rel (Be := Be) (fun k _ => by unfold comb; split <;> exact hg _)
  · have hm : ∀ i, i ∈ (ids ++ [id]).toFinset → i ∈ ids ++ [id] := fun i => List.mem_toFinset.mp
    have hw : ∀ m : GoMap String (Swk B.C), (∀ i ∈ ids.toFinset, ∃ x, m.lookup i = some x ∧ B.bt ≤ x.len) →
        ∀ i ∈ (ids ++ [id]).toFinset, ∃ x, (m.insert (BRlk.id l) Swk.new).lookup i = some x ∧ B.bt ≤ x.len := fun m hmm i hi => by
      rw [c2]
      exact insert_step (P := fun x : Swk B.C => B.bt ≤ x.len) m Swk.new le_rfl (fun i hi => hmm i (List.mem_toFinset.mpr hi)) i (hm i hi)
    have hp : ∀ m : GoMap String (PolyR N), (∀ i ∈ ids.toFinset, i ∈ m) → ∀ i ∈ (ids ++ [id]).toFinset, i ∈ m.insert (BRlk.id l) PolyR.zero :=
      fun m hmm i hi => by
        rw [c2]
        exact mem_step m PolyR.zero (fun i hi => hmm i (List.mem_toFinset.mpr hi)) i (hm i hi)
    exact ⟨AList.mem_insert _ |>.mpr (.inr h.pools.zero1), AList.mem_insert _ |>.mpr (.inr h.pools.zero2), hp _ h.pools.pool1, hp _ h.pools.pool2,
      hw _ h.pools.h10, hw _ h.pools.h11, hw _ h.pools.h20, hw _ h.pools.h21⟩
  · intro id' hid' j hj
    by_cases e : id' = id
    · subst e; exact e2 j hj
    · rcases List.mem_append.mp hid' with h1 | h1
      · obtain ⟨key, a', g1, g2⟩ := h.rot _ h1 j hj
        exact ⟨key, a', by rw [e3 _ _ (fun h => e h.1)]; exact g1, g2⟩
      · exact absurd (List.mem_singleton.mp h1) e
  · exact lookup_add (P := fun i (key : GalKey B.C) => B.bt ≤ key.value.len ∧ KeyRel B.C B.bt (s i) c.val (galois (2 * N - 1) (s i)) Be key.value.val)
      GalKey.id w.cks ck d2 ⟨d3.ge, d4.rel le_rfl fun _ _ => hg _⟩ h.conj

/-- the ring a client sets up: keys for every party of `ids`, as theorems C58 need them -/
def BfvKeyStore.ring (crs : GoMap ℤ (Swk B.C)) (w : BfvKeyStore B) : Keyring B := ⟨crs, w.rlk, w.rks, w.cks⟩

/-- **C58, key setup.** With the common reference strings of `NewParameters`, BFV key generation succeeds for any parties, any randomness, and the key
sets it makes are the ones the evaluator, the encryptor and the decryptor need: all theorems of C58 apply to them. -/
theorem setup_ok (V : B.Valid) {Be : ℤ} (hB : B.C.SmallBound Be) {gs : ℕ → Nega N ℤ} (hg : ∀ n, Bdd (gs n) Be) {crs : GoMap ℤ (Swk B.C)}
    (hcrs : CrsLen B.C crs) (hd : C16.DefaultIdx N crs) {s r : String → Nega N ℤ} {Sb Rb : ℤ} (hs : ∀ id, Bdd (s id) Sb) (hSb : Sb ≤ Be)
    (hr : ∀ id, Bdd (r id) Rb) (hRb : Rb ≤ Be) (kg : KG B.C) (ids : List String) :
    ∃ w, bfvSetup crs gs s r kg ids = .ok w ∧ (BfvKeyStore.ring crs w).Ok ids.toFinset s r Sb Rb Be ∧
      w.sks.Keyed SKey.id ∧ (∀ id sk, w.sks.value.lookup id = some sk → sk.Is (s id)) ∧ (∀ id ∈ ids, id ∈ w.sks.value) ∧
      ∀ id ∈ ids, ∃ pk e, w.pks.value.lookup id = some pk ∧ pk.id = id ∧ C17.PubKey pk (s id) e ∧ Bdd e Be := by
  have get : ∀ k : ℤ, k = 0 ∨ k = -1 ∨ k = -2 ∨ k = -3 → ∃ a, crs.lookup k = some a := fun k hk =>
    Option.isSome_iff_exists.mp (GoMap.mem_iff_lookup.mp ((hd k).mpr (by omega)))
  obtain ⟨a1, ha1⟩ := get 0 (by norm_num)
  obtain ⟨u, hu⟩ := get (-1) (by norm_num)
  obtain ⟨c, hc⟩ := get (-2) (by norm_num)
  obtain ⟨a2, ha2⟩ := get (-3) (by norm_num)
  obtain ⟨w, w1, w2⟩ := Go.loop_inv (bfvSetupParty crs gs s r)
    (fun pre w => StoreOk crs ⟨B.bt, comb B.bt a1.val a2.val⟩ u c s r Be pre w) ids
    ⟨kg, KeySet.new, KeySet.new, BfvRlkSet.new PolyR.zero, RotKeySet.new, KeySet.new⟩
    ⟨KeySet.keyed_new _, (fun id sk h => by cases h), by simp, by simp, by simp,
      ⟨AList.mem_insert _ |>.mpr (.inl rfl), AList.mem_insert _ |>.mpr (.inl rfl), by simp, by simp, by simp, by simp, by simp, by simp⟩, by simp, by simp⟩
    (fun pre id suf w _ hw => setupParty_ok V hB hg hcrs hd ha1 hu hc ha2 (fun id => (hs id).mono hSb) (fun id => (hr id).mono hRb) hw id)
  refine ⟨w, w1, ⟨⟨comb B.bt a1.val a2.val, ⟨u, B.gadB, B.crt, B.rho, hu, hcrs _ _ hu, C44.gadget V, fun id h => w2.rlk id (List.mem_toFinset.mp h)⟩,
    fun id _ => hs id, fun id _ => hr id⟩, w2.pools, fun n _ => ?_, ⟨c, hc, hcrs _ _ hc, fun id h => w2.conj id (List.mem_toFinset.mp h)⟩,
    fun id _ => hs id⟩, w2.keyed, w2.skIs, w2.skMem, w2.pk⟩
  exact C16.hasKeys_of_default V.qp hs hcrs hd (fun id h j hj => w2.rot id (List.mem_toFinset.mp h) j hj) V.top_lt n

/-! ## a client -/

/-- the inputs of a client: owner, plaintext polynomial (what the encoder makes of the message) and message -/
structure Input (B : BCtx N) where
  owner : String
  pt : Poly B.C
  msg : Nega N ℤ

/-- noise of a fresh encryption -/
def freshNoise (B : BCtx N) (Bm Bu Bg Be Sb : ℤ) : ℤ := Bm + B.t * (N * Bu * Be + Bg + N * Bg * Sb)

theorem encryptAll_ok (V : B.Valid) {s : String → Nega N ℤ} (o : ℕ → Sched String) {us gs : ℕ → Nega N ℤ} {Bu Bg Be Sb Bm : ℤ} (hu : ∀ n, Bdd (us n) Bu)
    (hg : ∀ n, Bdd (gs n) Bg) (hs : ∀ id, Bdd (s id) Sb) {pks : KeySet (PKey B.C)} {ids : List String} (h0 : "0" ∉ ids)
    (hpk : ∀ id ∈ ids, ∃ pk e, pks.value.lookup id = some pk ∧ pk.id = id ∧ C17.PubKey pk (s id) e ∧ Bdd e Be) (st : Enc B.C)
    (ins : List (Input B)) (hins : ∀ x ∈ ins, x.owner ∈ ids ∧ Encodes B x.pt x.msg Bm) :
    ∃ cts st', bfvEncryptAll o us gs pks st (ins.map fun x => (x.owner, x.pt)) = .ok (cts, st') ∧ cts.length = ins.length ∧
      ∀ (n : ℕ) (x : Input B), ins[n]? = some x → ∃ ct, cts[n]? = some ct ∧ ct.AtLevel B.top ∧ ct.ids = {x.owner} ∧ BfvEnc B s ct x.msg (freshNoise B Bm Bu Bg Be Sb) := by
  unfold bfvEncryptAll
  generalize hl : ins.map (fun x => (x.owner, x.pt)) = l
  obtain ⟨⟨cts, st'⟩, e1, e2, e3⟩ := Go.loop_inv (fun (w : List (Ct B.C) × Enc B.C) (x : String × Poly B.C) => do
      let pk ← pks.get "cannot get public key: there is no public key with given id" x.1
      let c ← bfvEncryptNew (o w.1.length) us gs w.2 x.2 pk
      .ok (w.1 ++ [c.1], c.2))
    (fun pre w => w.1.length = pre.length ∧ ∀ n < pre.length, ∀ x : Input B, ins[n]? = some x → ∃ ct : Ct B.C, w.1[n]? = some ct ∧ ct.AtLevel B.top ∧ ct.ids = {x.owner} ∧
      BfvEnc B s ct x.msg (freshNoise B Bm Bu Bg Be Sb)) l ([], st) ⟨rfl, fun n h => by simp at h⟩ (by
    rintro pre y suf ⟨w, st1⟩ hpre ⟨ih1, ih2⟩
    dsimp only at ih1 ih2 ⊢
    have hy : ∃ x, ins[pre.length]? = some x ∧ y = (x.owner, x.pt) := by
      have h1 : l[pre.length]? = some y := by rw [hpre]; simp
      rw [← hl, List.getElem?_map] at h1
      cases h2 : ins[pre.length]? with
      | none => rw [h2] at h1; cases h1
      | some x => rw [h2] at h1; exact ⟨x, rfl, (Option.some.inj h1).symm⟩
    obtain ⟨x, hx, rfl⟩ := hy
    obtain ⟨hx1, hx2⟩ := hins x (List.mem_of_getElem? hx)
    obtain ⟨pk, e, p1, p2, p3, p4⟩ := hpk _ hx1
    have hid : pk.id ≠ "0" := fun h => h0 (by rw [← h, p2]; exact hx1)
    obtain ⟨ct, st2, c1, c2, c3, c4⟩ := encrypt (s := s) V (o w.length) us gs st1 hx2 (pk := pk) hid (by rw [p2]; exact p3) hu hg p4 (hs _)
    refine ⟨(w ++ [ct], st2), ?_, by simp [ih1], fun n hn x' hx' => ?_⟩
    · unfold KeySet.get
      rw [p1]
      dsimp only
      rw [bind_ok, c1, bind_ok]
    · rw [List.length_append, List.length_singleton] at hn
      by_cases hlt : n < pre.length
      · obtain ⟨ct', t1, t2⟩ := ih2 n hlt x' hx'
        exact ⟨ct', by rw [List.getElem?_append_left (by omega)]; exact t1, t2⟩
      · have hnn : n = pre.length := by omega
        subst hnn
        rw [hx] at hx'
        injection hx' with hx'
        subst hx'
        exact ⟨ct, by rw [← ih1]; simp, c2, by rw [c3, p2], c4⟩)
  refine ⟨cts, st', e1, ?_, fun n x hx => e3 n ?_ x hx⟩
  · rw [e2, ← hl, List.length_map]
  · rw [← hl, List.length_map]
    exact (List.getElem?_eq_some_iff.mp hx).1

/-- a client of mkbfv: key setup for the parties, encryption of the inputs, a program run by the evaluator, decryption. `gs`, `kg`, `s`, `r`: the key
generator; `us`, `es`, `st`: the encryptor; `S`: the evaluator's memory at the start; `oe`, `o`, `od`: iteration orders. -/
def client (crs : GoMap ℤ (Swk B.C)) (gs : ℕ → Nega N ℤ) (s r : String → Nega N ℤ) (kg : KG B.C) (ids : List String) (us es : ℕ → Nega N ℤ) (st : Enc B.C)
    (ins : List (Input B)) (c : Circ) (oe : ℕ → Sched String) (o : List ℕ → ℕ → Sched String) (S : BScratch B) (od : Sched String) :
    Go (Poly B.C) := do
  let w ← bfvSetup crs gs s r kg ids
  let e ← bfvEncryptAll oe us es w.pks st (ins.map fun x => (x.owner, x.pt))
  let out ← c.run (BfvKeyStore.ring crs w) (fun n => (e.1[n]?).getD ∅) o S
  bfvDecrypt od out.1 w.sks

/-- **C58, a client end to end.** For all valid parameters, the common reference strings of `NewParameters`, all parties, all randomness within its
bounds, all inputs of these parties and every program over them: if the noise bound of the program, computed from the randomness bounds, is below
`Q/2`, key generation, encryption, evaluation and decryption succeed, and what the decoder gets rounds to the value of the program on the messages,
modulo `T`. -/
theorem client_ok (V : B.Valid) {Be : ℤ} (hB : B.C.SmallBound Be) {gs : ℕ → Nega N ℤ} (hg : ∀ n, Bdd (gs n) Be) {crs : GoMap ℤ (Swk B.C)}
    (hcrs : CrsLen B.C crs) (hd : C16.DefaultIdx N crs) {s r : String → Nega N ℤ} {Sb Rb : ℤ} (hs : ∀ id, Bdd (s id) Sb) (hSb : Sb ≤ Be)
    (hr : ∀ id, Bdd (r id) Rb) (hRb : Rb ≤ Be) (kg : KG B.C) (ids : List String) (h0 : "0" ∉ ids) {us es : ℕ → Nega N ℤ} {Bu Bg Bm : ℤ}
    (hu : ∀ n, Bdd (us n) Bu) (he : ∀ n, Bdd (es n) Bg) (st : Enc B.C) (ins : List (Input B))
    (hins : ∀ x ∈ ins, x.owner ∈ ids ∧ Encodes B x.pt x.msg Bm) (c : Circ) (hc : ∀ n ∈ c.inputs, n < ins.length)
    {D : ℤ} (hD : ∀ k < 2 * B.bt, 3 * (B.blockR k : ℤ) ≤ D) (hD' : ∀ k < B.bt, 2 * (B.C.blockProd B.top k : ℤ) ≤ D)
    {owner : ℕ → String} {m : ℕ → Nega N ℤ} (hm : ∀ (n : ℕ) (x : Input B), ins[n]? = some x → owner n = x.owner ∧ m n = x.msg)
    (hn : 2 * c.noise B crs (fun n => {owner n}) (fun _ => freshNoise B Bm Bu Bg Be Sb) D Sb Rb Be < B.Q)
    (oe : ℕ → Sched String) (o : List ℕ → ℕ → Sched String) (S : BScratch B) (hS : S.Alloc) (od : Sched String) :
    ∃ p, client crs gs s r kg ids us es st ins c oe o S od = .ok p ∧
      (∃ Φ : Nega N ℤ, ∀ i < B.C.nQ, cf (p.coeffs i) = red (B.C.q i) Φ) ∧
      ∀ Φ : Nega N ℤ, (∀ i < B.C.nQ, cf (p.coeffs i) = red (B.C.q i) Φ) → ∀ x,
        (2 * (B.t * Φ x) + B.Q) / (2 * B.Q) ≡ c.val m x [ZMOD B.t] := by
  obtain ⟨w, w1, w2, w3, w4, w5, w6⟩ := setup_ok V hB hg hcrs hd hs hSb hr hRb kg ids
  obtain ⟨cts, st', e1, -, e3⟩ := encryptAll_ok V oe hu he hs h0 w6 st ins hins
  have hin : ∀ n ∈ c.inputs, ∃ ct, cts[n]? = some ct ∧ ct.AtLevel B.top ∧ ct.ids = {owner n} ∧ owner n ∈ ids ∧
      BfvEnc B s ct (m n) (freshNoise B Bm Bu Bg Be Sb) := fun n hn => by
    have hx : ins[n]? = some (ins[n]'(hc n hn)) := List.getElem?_eq_getElem (hc n hn)
    obtain ⟨ct, c1, c2, c3, c4⟩ := e3 n _ hx
    obtain ⟨m1, m2⟩ := hm n _ hx
    exact ⟨ct, c1, c2, by rw [m1]; exact c3, by rw [m1]; exact (hins _ (List.mem_of_getElem? hx)).1, by rw [m2]; exact c4⟩
  have hids : ∀ c' : Circ, c'.inputs ⊆ c.inputs → c'.ids (fun n => ((cts[n]?).getD ∅).ids) = c'.ids (fun n => {owner n}) ∧
      (∀ id ∈ c'.ids (fun n => {owner n}), id ∈ ids) ∧
      c'.noise B crs (fun n => ((cts[n]?).getD ∅).ids) (fun _ => freshNoise B Bm Bu Bg Be Sb) D Sb Rb Be =
        c'.noise B crs (fun n => {owner n}) (fun _ => freshNoise B Bm Bu Bg Be Sb) D Sb Rb Be := by
    intro c'
    induction c' with
    | input n =>
      intro h
      obtain ⟨ct, c1, -, c3, c4, -⟩ := hin n (h (mem_singleton_self n))
      refine ⟨?_, fun id hid => ?_, rfl⟩
      · show ((cts[n]?).getD ∅).ids = _
        rw [c1]; exact c3
      · rw [mem_singleton.mp hid]; exact c4
    | add a b iha ihb =>
      intro h
      obtain ⟨a1, a2, a3⟩ := iha (subset_union_left.trans h)
      obtain ⟨b1, b2, b3⟩ := ihb (subset_union_right.trans h)
      refine ⟨?_, fun id hid => ?_, ?_⟩
      · show _ ∪ _ = _ ∪ _; rw [a1, b1]
      · rcases mem_union.mp hid with h | h
        · exact a2 id h
        · exact b2 id h
      · show _ + _ = _ + _; rw [a3, b3]
    | sub a b iha ihb =>
      intro h
      obtain ⟨a1, a2, a3⟩ := iha (subset_union_left.trans h)
      obtain ⟨b1, b2, b3⟩ := ihb (subset_union_right.trans h)
      refine ⟨?_, fun id hid => ?_, ?_⟩
      · show _ ∪ _ = _ ∪ _; rw [a1, b1]
      · rcases mem_union.mp hid with h | h
        · exact a2 id h
        · exact b2 id h
      · show _ + _ = _ + _; rw [a3, b3]
    | mul a b iha ihb =>
      intro h
      obtain ⟨a1, a2, a3⟩ := iha (subset_union_left.trans h)
      obtain ⟨b1, b2, b3⟩ := ihb (subset_union_right.trans h)
      refine ⟨?_, fun id hid => ?_, ?_⟩
      · show _ ∪ _ = _ ∪ _; rw [a1, b1]
      · rcases mem_union.mp hid with h | h
        · exact a2 id h
        · exact b2 id h
      · show mulBound _ _ _ _ _ _ _ _ _ _ = mulBound _ _ _ _ _ _ _ _ _ _
        rw [a1, b1, a3, b3]
    | rot n a iha =>
      intro h
      obtain ⟨a1, a2, a3⟩ := iha h
      refine ⟨a1, a2, ?_⟩
      unfold Circ.noise
      rw [a1, a3]
    | conj a iha =>
      intro h
      obtain ⟨a1, a2, a3⟩ := iha h
      refine ⟨a1, a2, ?_⟩
      unfold Circ.noise
      rw [a1, a3]
  obtain ⟨i1, i2, i3⟩ := hids c (Finset.Subset.refl _)
  obtain ⟨out, S', p, r1, -, r2, r3, r4⟩ := circuit_decrypt V w2 hD hD' (ct := fun n => (cts[n]?).getD ∅) (m := m)
    (Bin := fun _ => freshNoise B Bm Bu Bg Be Sb) c (fun n hn => by
      obtain ⟨ct, c1, c2, c3, c4, c5⟩ := hin n hn
      rw [c1]
      exact ⟨c2, by show ct.ids ⊆ _; rw [c3, singleton_subset_iff]; exact List.mem_toFinset.mpr c4, c5⟩) o S hS
    (by show 2 * c.noise B crs _ _ D Sb Rb Be < _; rw [i3]; exact hn) w3 w4 (fun id hid => w5 id (i2 id (by rw [← i1]; exact hid))) od
  refine ⟨p, ?_, r3, r4⟩
  unfold client
  rw [w1, bind_ok, e1, bind_ok, r1, bind_ok]
  exact r2

end MKHE.C58
