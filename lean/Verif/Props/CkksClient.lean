import Verif.Model.CkksSetup
import Verif.Props.CkksSetup
import Verif.Props.BfvSetup

set_option autoImplicit false

/-!
# C67: a client of mkckks end to end: key generation for all parties, encryption, a program run by the evaluator, decryption
-/

namespace MKHE.C67
open Finset Nega C59

variable {N : ℕ} [NeZero N] {C : Ctx N}

/-! ## the model of the client -/

/-- the part of a system the evaluator computes with; the other fields, which only the theorems use, are left empty -/
noncomputable def _root_.MKHE.CkksKeyStore.sys (crs : GoMap ℤ (Swk C)) (pscale : ℚ) (w : CkksKeyStore C) : Sys C :=
  ⟨crs, w.rlk, w.rks, w.cks, pscale, ∅, fun _ => 0, fun _ => 0, fun _ => PolyQP.zero, 0, 0, 0, 0⟩

/-- an input of the client: owner, plaintext polynomial (what the encoder makes of the message) and the real polynomial that has the message in its slots -/
structure Input (C : Ctx N) where
  owner : String
  pt : Poly C
  val : Nega N ℝ

/-- what lattigo's encoder is trusted with: the plaintext, at the top level, has slots within `Bp` of `scale` times those of `v` -/
def Encodes (pt : Poly C) (scale : ℚ) (v : Nega N ℝ) (Bp : ℝ) : Prop :=
  pt.len = C.nQ ∧ ∃ Φ : Nega N ℤ, (∀ i ≤ C.nQ - 1, cf (pt.coeffs i) = red (C.q i) Φ) ∧
    ∀ j : ℤ, ‖slot j (toReal Φ) - ((scale : ℝ) : ℂ) * slot j v‖ ≤ Bp

/-- a client of mkckks (the shape of the tests mkckks_test.go:201-640): key setup for the parties `ids`, encryption of the inputs, a program `p` run by the evaluator,
decryption of ciphertext number `i`. `gs`, `kg`, `s`, `r`: the key generator; `us`, `es`, `st`: the encryptor; `E`: the evaluator's memory at the start; `pool`: the
decryptor's; `oe`, `od` and `env`: iteration orders and plaintext operands. -/
noncomputable def client (crs : GoMap ℤ (Swk C)) (gs : ℕ → Nega N ℤ) (s r : String → Nega N ℤ) (kg : KG C) (ids : List String) (us es : ℕ → Nega N ℤ) (st : Enc C)
    (pscale : ℚ) (ins : List (Input C)) (env : Env C) (p : List Instr) (i : ℕ) (oe : ℕ → Sched String) (E : Eval C) (od : Sched String) (pool : Poly C) :
    Go (Poly C × ℚ) := do
  let w ← ckksSetup crs gs s r kg ids
  let e ← ckksEncryptAll oe us es pscale w.pks st (ins.map fun x => (x.owner, x.pt))
  let M ← run (w.sys crs pscale) env 0 ⟨⟨E, w.rlk⟩, e.1, []⟩ p
  let ct ← fetch M.cts i
  let d ← ckksDecrypt od pool ct w.sks
  .ok d.1

/-! ## key setup -/

/-- what the parties processed so far have in the key sets -/
structure StoreOk (crs : GoMap ℤ (Swk C)) (a u c : Swk C) (s r : String → Nega N ℤ) (B : ℤ) (ids : List String) (w : CkksKeyStore C) : Prop where
  keyed : w.sks.Keyed SKey.id
  sk : ∀ id ∈ ids, ∃ sk, w.sks.value.lookup id = some sk ∧ sk.Is (s id)
  pk : ∀ id ∈ ids, ∃ pk e, w.pks.value.lookup id = some pk ∧ pk.id = id ∧ C17.PubKey pk (s id) e ∧ Bdd e B
  rlk : ∀ id ∈ ids, ∃ key, w.rlk.value.lookup id = some key ∧ key.Rel (C.beta (C.nQ - 1)) (s id) (r id) a.val u.val B
  pools : PoolsReady ids.toFinset w.rlk
  rot : ∀ id ∈ ids, ∀ j : ℕ, 2 ^ j < N / 2 → C16.HasRotKey C crs B w.rks id (s id) (2 ^ j)
  conj : ∀ id ∈ ids, ∃ key, w.cks.value.lookup id = some key ∧ C.beta (C.nQ - 1) ≤ key.value.len ∧
    KeyRel C (C.beta (C.nQ - 1)) (s id) c.val (galois (2 * N - 1) (s id)) B key.value.val

theorem setupParty_ok (V : C.Valid) {B : ℤ} (hB : C.SmallBound B) {gs : ℕ → Nega N ℤ} (hg : ∀ n, Bdd (gs n) B) {crs : GoMap ℤ (Swk C)}
    (hcrs : CrsLen C crs) (hd : C16.DefaultIdx N crs) {a u c : Swk C} (ha : crs.lookup 0 = some a) (hu : crs.lookup (-1) = some u)
    (hc : crs.lookup (-2) = some c) {s r : String → Nega N ℤ} (hs : ∀ id, Bdd (s id) B) (hr : ∀ id, Bdd (r id) B) {ids : List String} {w : CkksKeyStore C}
    (h : StoreOk crs a u c s r B ids w) (id : String) :
    ∃ w', ckksSetupParty crs gs s r w id = .ok w' ∧ StoreOk crs a u c s r B (ids ++ [id]) w' := by
  have hd' : C16.HasDefault N crs := fun i hi => (hd _).mpr (.inr (.inr (.inr (.inr (.inr ⟨i, rfl, by
    have h2 : ((2 ^ i : ℕ) : ℤ) < ((N / 2 : ℕ) : ℤ) := by exact_mod_cast hi
    push_cast at h2; exact h2⟩)))))
  have hb : 0 < C.beta (C.nQ - 1) := V.beta_pos (top_lt V)
  obtain ⟨sk, pk, kg1, b1, b2, b3, b4, _, b5⟩ := C12.keyPair V hB hg w.kg (hs id) id ha (lt_of_lt_of_le hb (hcrs _ _ ha))
  obtain ⟨l, kg2, c1, c2, c3⟩ := C14.relinearizationKey_rel V hB hg kg1 b2 (genSecretKey_is V hB (hr id) id) ha hu (hcrs _ _ ha) (hcrs _ _ hu) (top_lt V)
  obtain ⟨ck, kg3, d1, d2, d3, d4⟩ := C15.conjugationKey V hB hg kg2 b2 hc (hcrs _ _ hc)
  obtain ⟨rk, kg4, e1, e2, e3⟩ := C16.defaultRotationKeys V hB hg b2 hcrs hd' w.rks kg3
  rw [b3] at c2 d2 e2 e3
  refine ⟨⟨kg4, w.sks.add SKey.id sk, w.pks.add PKey.id pk, w.rlk.add Rlk.id Swk.new l, rk, w.cks.add GalKey.id ck⟩, ?_, h.keyed.add _,
    ?_, ?_, ?_, ?_, ?_, ?_⟩
  · unfold ckksSetupParty
    rw [b1, bind_ok]
    dsimp only
    rw [show genSecretKey (r id) id = genSecretKeyFromSampler (C := C) (r id) id from rfl, c1, bind_ok]
    dsimp only
    rw [d1, bind_ok]
    dsimp only
    rw [e1, bind_ok]
  · exact C58.lookup_add (P := fun i (sk : SKey C) => sk.Is (s i)) SKey.id w.sks sk b3 b2 h.sk
  · have := C58.lookup_add (P := fun i (pk : PKey C) => ∃ e, pk.id = i ∧ C17.PubKey pk (s i) e ∧ Bdd e B) PKey.id w.pks pk b4
      ⟨gs w.kg.pos, b4, C17.PubKey.of_gen b5, hg _⟩ (fun i hi => by
        obtain ⟨pk, e, x1, x2⟩ := h.pk i hi; exact ⟨pk, x1, e, x2⟩)
    intro i hi
    obtain ⟨pk, x1, e, x2⟩ := this i hi
    exact ⟨pk, e, x1, x2⟩
  · exact C58.lookup_add (P := fun i (key : Rlk C) => key.Rel (C.beta (C.nQ - 1)) (s i) (r i) a.val u.val B) Rlk.id ⟨w.rlk.value⟩ l c2 c3 h.rlk
  · have key : ∀ pool : HoistedCt C, PoolOK (C.beta (C.nQ - 1)) ids.toFinset pool →
        PoolOK (C.beta (C.nQ - 1)) (ids ++ [id]).toFinset (pool.insert (Rlk.id l) Swk.new) := fun pool hp i hi => by
      rw [c2]
      exact C58.insert_step (P := fun x : Swk C => C.beta (C.nQ - 1) ≤ x.len) pool Swk.new le_rfl (fun i hi => hp i (List.mem_toFinset.mpr hi)) i
        (List.mem_toFinset.mp hi)
    exact ⟨key _ h.pools.1, key _ h.pools.2⟩
  · intro id' hid' j hj
    by_cases e : id' = id
    · subst e; exact e2 j hj
    · rcases List.mem_append.mp hid' with h1 | h1
      · obtain ⟨key, a', g1, g2⟩ := h.rot _ h1 j hj
        exact ⟨key, a', by rw [e3 _ _ (fun h => e h.1)]; exact g1, g2⟩
      · exact absurd (List.mem_singleton.mp h1) e
  · exact C58.lookup_add (P := fun i (key : GalKey C) => C.beta (C.nQ - 1) ≤ key.value.len ∧
        KeyRel C (C.beta (C.nQ - 1)) (s i) c.val (galois (2 * N - 1) (s i)) B key.value.val)
      GalKey.id w.cks ck d2 ⟨d3.ge, d4.rel le_rfl fun _ _ => hg _⟩ h.conj

/-- the system of a client after setup, with what the theorems say about it -/
def system (crs : GoMap ℤ (Swk C)) (pscale : ℚ) (w : CkksKeyStore C) (U : Finset String) (s r : String → Nega N ℤ) (a : ℕ → PolyQP C) (Sb Rb B D : ℤ) : Sys C :=
  ⟨crs, w.rlk, w.rks, w.cks, pscale, U, s, r, a, Sb, Rb, B, D⟩

/-- **C67, key setup.** With the common reference strings of `NewParameters`, key generation succeeds for any parties and any randomness, and the key sets it makes,
with conjugation keys and keys for the powers of two only, are the ones the evaluator, the encryptor and the decryptor need. -/
theorem setup_ok (V : C.Valid) (hN : N % 16 = 0) {B : ℤ} (hB : C.SmallBound B) {gs : ℕ → Nega N ℤ} (hg : ∀ n, Bdd (gs n) B)
    {crs : GoMap ℤ (Swk C)} (hcrs : CrsLen C crs) (hd : C16.DefaultIdx N crs)
    {s r : String → Nega N ℤ} {Sb Rb : ℤ} (hs : ∀ id, Bdd (s id) Sb) (hSb : Sb ≤ B) (hr : ∀ id, Bdd (r id) Rb) (hRb : Rb ≤ B)
    (kg : KG C) (ids : List String) {pscale : ℚ} (hp : 0 < pscale) {D : ℤ} (hD : ∀ l < C.nQ, ∀ k < C.beta l, 2 * (C.blockProd l k : ℤ) ≤ D) :
    ∃ w a, ckksSetup crs gs s r kg ids = .ok w ∧ (system crs pscale w ids.toFinset s r a Sb Rb B D).Ok ∧ (system crs pscale w ids.toFinset s r a Sb Rb B D).Conj ∧
      SKeys.Of w.sks ids.toFinset s ∧
      (∀ id ∈ ids, ∃ pk e, w.pks.value.lookup id = some pk ∧ pk.id = id ∧ C17.PubKey pk (s id) e ∧ Bdd e B) ∧
      PoolsReady ids.toFinset w.rlk := by
  have get : ∀ k : ℤ, k = 0 ∨ k = -1 ∨ k = -2 → ∃ a, crs.lookup k = some a := fun k hk =>
    Option.isSome_iff_exists.mp (GoMap.mem_iff_lookup.mp ((hd k).mpr (by omega)))
  obtain ⟨a, ha⟩ := get 0 (by norm_num)
  obtain ⟨u, hu⟩ := get (-1) (by norm_num)
  obtain ⟨c, hc⟩ := get (-2) (by norm_num)
  obtain ⟨w, w1, w2⟩ := Go.loop_inv (ckksSetupParty crs gs s r) (fun pre w => StoreOk crs a u c s r B pre w) ids
    ⟨kg, KeySet.new, KeySet.new, RlkSet.new, RotKeySet.new, KeySet.new⟩
    ⟨KeySet.keyed_new _, by simp, by simp, by simp, ⟨fun id h => by simp at h, fun id h => by simp at h⟩, by simp, by simp⟩
    (fun pre id suf w _ hw => setupParty_ok V hB hg hcrs hd ha hu hc (fun id => (hs id).mono hSb) (fun id => (hr id).mono hRb) hw id)
  refine ⟨w, a.val, w1, ⟨⟨⟨u, hu, hcrs _ _ hu, fun id h => w2.rlk id (List.mem_toFinset.mp h)⟩, fun id _ => hs id, fun id _ => hr id⟩,
    fun n hn => ?_, hs, hD, hp, hN⟩, ⟨⟨c, hc, hcrs _ _ hc, fun id h => w2.conj id (List.mem_toFinset.mp h)⟩, fun id _ => hs id⟩,
    ⟨w2.keyed, fun id h => w2.sk id (List.mem_toFinset.mp h)⟩, w2.pk, w2.pools⟩
  exact C16.hasKeys_of_default V hs hcrs hd (fun id h j hj => w2.rot id (List.mem_toFinset.mp h) j hj) (top_lt V) n

/-! ## encryption of the inputs -/

/-- noise of a fresh encryption, with the sampler of `u` bounded by `Bu`, that of the errors by `Bg`, the key's error by `Be` and its secret by `Sb` -/
def freshNoise (N : ℕ) (Bu Bg Be Sb : ℤ) : ℤ := N * Bu * Be + Bg + N * Bg * Sb

/-- what is known of a fresh ciphertext of `id` with slots below `Vb`, encoding error `Bp` and noise `F` -/
noncomputable def freshInfo (C : Ctx N) (scale : ℚ) (id : String) (Vb Bp : ℝ) (F : ℤ) : Info := ⟨C.nQ - 1, scale, {id}, Vb, Bp + N * (F : ℝ)⟩

theorem encryptAll_ok {S : Sys C} (V : C.Valid) (hS : S.Ok) (o : ℕ → Sched String) {us gs : ℕ → Nega N ℤ} {Bu Bg Be : ℤ} (hu : ∀ n, Bdd (us n) Bu)
    (hg : ∀ n, Bdd (gs n) Bg) {pks : KeySet (PKey C)} {ids : List String} (hU : ids.toFinset = S.U) (h0 : "0" ∉ ids)
    (hpk : ∀ id ∈ ids, ∃ pk e, pks.value.lookup id = some pk ∧ pk.id = id ∧ C17.PubKey pk (S.s id) e ∧ Bdd e Be) (st : Enc C)
    (ins : List (Input C)) {Vb : Input C → ℝ} {Bp : ℝ} (hins : ∀ x ∈ ins, x.owner ∈ ids ∧ Encodes x.pt S.pscale x.val Bp ∧ SBdd x.val (Vb x)) :
    ∃ cts st', ckksEncryptAll o us gs S.pscale pks st (ins.map fun x => (x.owner, x.pt)) = .ok (cts, st') ∧
      List.Forall₂ (fun ct x => Approx S ct x.1 x.2) cts
        (ins.map fun x => (x.val, freshInfo C S.pscale x.owner (Vb x) Bp (freshNoise N Bu Bg Be S.Sb))) := by
  unfold ckksEncryptAll
  generalize hl : ins.map (fun x => (x.owner, x.pt)) = l
  obtain ⟨⟨cts, st'⟩, e1, e2⟩ := Go.loop_inv (fun (w : List (CCt C) × Enc C) (x : String × Poly C) => do
      let pk ← pks.get "cannot get public key: there is no public key with given id" x.1
      let c ← ckksEncryptNew (o w.1.length) us gs w.2 x.2 S.pscale pk
      .ok (w.1 ++ [c.1], c.2))
    (fun pre w => List.Forall₂ (fun ct x => Approx S ct x.1 x.2) w.1
        ((ins.take pre.length).map fun x => (x.val, freshInfo C S.pscale x.owner (Vb x) Bp (freshNoise N Bu Bg Be S.Sb)))) l ([], st)
    (by simp) (by
    rintro pre y suf ⟨w, st1⟩ hpre ih
    dsimp only at ih ⊢
    have hy : ∃ x, ins[pre.length]? = some x ∧ y = (x.owner, x.pt) := by
      have h1 : l[pre.length]? = some y := by rw [hpre]; simp
      rw [← hl, List.getElem?_map] at h1
      cases h2 : ins[pre.length]? with
      | none => rw [h2] at h1; cases h1
      | some x => rw [h2] at h1; exact ⟨x, rfl, (Option.some.inj h1).symm⟩
    obtain ⟨x, hx, rfl⟩ := hy
    obtain ⟨hx1, ⟨hx2, hx3⟩, hx4⟩ := hins x (List.mem_of_getElem? hx)
    obtain ⟨pk, e, p1, p2, p3, p4⟩ := hpk _ hx1
    have hid : pk.id ≠ "0" := fun h => h0 (by rw [← h, p2]; exact hx1)
    have hq := V.q1
    obtain ⟨ct, st2, c1, c2⟩ := C59.encrypt V hS (o w.length) us gs st1 (l := C.nQ - 1) (by omega) (by omega) hS.pscale hx4 hx3 hid
      (by rw [← hU, p2]; exact List.mem_toFinset.mpr hx1) (by rw [p2]; exact p3) hu hg p4
    refine ⟨(w ++ [ct], st2), ?_, ?_⟩
    · unfold KeySet.get
      rw [p1]
      dsimp only
      rw [bind_ok, c1, bind_ok]
    · obtain ⟨hlt, hx'⟩ := List.getElem?_eq_some_iff.mp hx
      rw [List.length_append, List.length_singleton, List.take_succ_eq_append_getElem hlt, hx', List.map_append]
      refine List.rel_append ih (.cons ?_ .nil)
      rw [p2] at c2
      exact c2)
  refine ⟨cts, st', e1, ?_⟩
  rw [← hl, List.length_map, List.take_length] at e2
  exact e2

/-! ## the client -/

/-- the evaluator computes with keys, common reference strings and default scale only -/
theorem step_congr {S S' : Sys C} (h1 : S.crs = S'.crs) (h2 : S.rks = S'.rks) (h3 : S.cks = S'.cks) (h4 : S.pscale = S'.pscale) (w : Env C) (n : ℕ)
    (M : Machine C) (c : Instr) : step S w n M c = step S' w n M c := by
  cases c <;> simp only [step, h1, h2, h3, h4]

theorem run_congr {S S' : Sys C} (h1 : S.crs = S'.crs) (h2 : S.rks = S'.rks) (h3 : S.cks = S'.cks) (h4 : S.pscale = S'.pscale) (w : Env C) :
    ∀ (p : List Instr) (n : ℕ) (M : Machine C), run S w n M p = run S' w n M p
  | [], _, _ => rfl
  | c :: p, n, M => by
    simp only [run, step_congr h1 h2 h3 h4, run_congr h1 h2 h3 h4 w p]

/-- what the client knows of its inputs after encryption -/
noncomputable def start (C : Ctx N) (scale : ℚ) (Vb : Input C → ℝ) (Bp : ℝ) (F : ℤ) (ins : List (Input C)) : Abs N :=
  ⟨ins.map fun x => (x.val, freshInfo C scale x.owner (Vb x) Bp F), []⟩

/-- **C67, a client end to end.** For all valid parameters, the common reference strings of `NewParameters`, all parties, all randomness within its bounds and all
inputs: if the program `p` meets its requirements in every system with correct keys (`hprog`), key generation, encryption, evaluation and decryption succeed, and the
slots of the decrypted plaintext, divided by its scale, are within the computed error of `z`, the slots of the value of the program. -/
theorem client_ok (V : C.Valid) (hN : N % 16 = 0) {B : ℤ} (hB : C.SmallBound B) {gs : ℕ → Nega N ℤ} (hg : ∀ n, Bdd (gs n) B)
    {crs : GoMap ℤ (Swk C)} (hcrs : CrsLen C crs) (hd : C16.DefaultIdx N crs)
    {s r : String → Nega N ℤ} {Sb Rb : ℤ} (hs : ∀ id, Bdd (s id) Sb) (hSb : Sb ≤ B) (hr : ∀ id, Bdd (r id) Rb) (hRb : Rb ≤ B)
    (kg : KG C) (ids : List String) (h0 : "0" ∉ ids) {pscale : ℚ} (hp : 0 < pscale) {D : ℤ} (hD : ∀ l < C.nQ, ∀ k < C.beta l, 2 * (C.blockProd l k : ℤ) ≤ D)
    {us es : ℕ → Nega N ℤ} {Bu Bg : ℤ} (hu : ∀ n, Bdd (us n) Bu) (he : ∀ n, Bdd (es n) Bg) (st : Enc C)
    (ins : List (Input C)) {Vb : Input C → ℝ} {Bp : ℝ} (hins : ∀ x ∈ ins, x.owner ∈ ids ∧ Encodes x.pt pscale x.val Bp ∧ SBdd x.val (Vb x))
    {env : Env C} {pts : Pts N} (hpts : PtsOk env pts) (p : List Instr) (i : ℕ) (oe : ℕ → Sched String) {E : Eval C} (hE : E.Ready) (od : Sched String)
    {pool : Poly C} (hpool : C.nQ ≤ pool.len) {z : ℤ → ℂ} {err : ℝ}
    (hprog : ∀ S : Sys C, S.crs = crs → S.pscale = pscale → S.U = ids.toFinset → S.Sb = Sb → S.Rb = Rb → S.Be = B → S.D = D → S.Ok → S.Conj →
      ProgOk S env pts (start C pscale Vb Bp (freshNoise N Bu Bg B Sb) ins) p ∧
      ∃ (v : Nega N ℝ) (x : Info), (execs S env pts (start C pscale Vb Bp (freshNoise N Bu Bg B Sb) ins) p).cts[i]? = some (v, x) ∧ (∀ j : ℤ, slot j v = z j) ∧
        2 * (x.scale * x.V + x.B) < modulus C x.level ∧ x.B / x.scale ≤ err) :
    ∃ (pt : Poly C) (sc : ℚ), client crs gs s r kg ids us es st pscale ins env p i oe E od pool = .ok (pt, sc) ∧ 0 < sc ∧
      ∃ l < C.nQ, pt.len = l + 1 ∧ ∃ Φ : Nega N ℤ, (∀ k ≤ l, cf (pt.rows k) = red (C.q k) Φ) ∧ (∀ x, 2 * |Φ x| < modulus C l) ∧
        ∀ j : ℤ, ‖slot j (toReal Φ) / (sc : ℂ) - z j‖ ≤ err := by
  obtain ⟨w, a, w1, w2, w3, w4, w5, w6⟩ := setup_ok V hN hB hg hcrs hd hs hSb hr hRb kg ids hp hD
  set S := system crs pscale w ids.toFinset s r a Sb Rb B D with hS
  obtain ⟨cts, st', e1, e2⟩ := encryptAll_ok V w2 oe hu he (ids := ids) rfl h0 w5 st ins hins
  change ckksEncryptAll oe us es pscale w.pks st _ = _ at e1
  obtain ⟨hok, v, x, x1, xz, x2, x3⟩ := hprog S rfl rfl rfl rfl rfl rfl rfl w2 w3
  have hrel : Rel S ⟨⟨E, w.rlk⟩, cts, []⟩ (start C pscale Vb Bp (freshNoise N Bu Bg B Sb) ins) :=
    ⟨⟨hE, rfl, w6⟩, e2, .nil⟩
  obtain ⟨M', r1, r2⟩ := program V w2 hpts p 0 hrel hok
  obtain ⟨hi, x1'⟩ := List.getElem?_eq_some_iff.mp x1
  obtain ⟨ct, c1, c2, c3⟩ := r2.fetch hi
  have ev : (execs S env pts (start C pscale Vb Bp (freshNoise N Bu Bg B Sb) ins) p).val i = v := by unfold Abs.val; rw [x1]; rfl
  have ei : (execs S env pts (start C pscale Vb Bp (freshNoise N Bu Bg B Sb) ins) p).info i = x := by unfold Abs.info; rw [x1]; rfl
  rw [ev, ei] at c3
  obtain ⟨pt, pool', d1, d2, Φ, d3, d4, -, -, d7⟩ := C59.decrypt V od c3 ⟨w4.1, fun id h => w4.2 id (c3.sub h)⟩ pool (by have := c3.lt; omega) x2
  refine ⟨pt, x.scale, ?_, c3.pos, x.level, c3.lt, d2, Φ, d3, d4, fun j => by rw [← xz j]; exact (d7 j).trans x3⟩
  unfold client
  rw [w1, bind_ok, e1, bind_ok, run_congr (S := w.sys crs pscale) (S' := S) rfl rfl rfl rfl, r1, bind_ok, c1, bind_ok, d1, bind_ok]

end MKHE.C67
