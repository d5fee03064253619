import Verif.Props.RenameProg
import Verif.Props.CkksExample

set_option autoImplicit false

/-!
# C73: a client under other names

From key generation over encryption and evaluation to decryption: a client whose parties have other identifiers decrypts the same plaintext.
-/

namespace MKHE.C73

variable {N : ℕ} [NeZero N] (π : Renaming)

section Setup
variable {C : Ctx N}

def KeyStore.ren (w : KeyStore C) : KeyStore C :=
  ⟨w.kg, w.sks.ren π (SKey.ren π), w.pks.ren π (PKey.ren π), RlkMap.ren π w.rlk, w.rks.ren π⟩

theorem rotKeyStep (crs : GoMap ℤ (Swk C)) (gs : ℕ → Nega N ℤ) (sk : SKey C) (rots : List ℤ) (w : RotKeySet (GalKey C) × KG C) :
    Go.loop (MKHE.rotKeyStep crs gs (sk.ren π)) (w.1.ren π, w.2) rots
      = (Go.loop (MKHE.rotKeyStep crs gs sk) w rots).map fun t => (t.1.ren π, t.2) := by
  induction rots generalizing w with
  | nil => rfl
  | cons r rots ih =>
    have h : MKHE.rotKeyStep crs gs (sk.ren π) (w.1.ren π, w.2) r = (MKHE.rotKeyStep crs gs sk w r).map fun t => (t.1.ren π, t.2) := by
      unfold MKHE.rotKeyStep
      refine Go.bind_ren (genRotationKey π crs gs w.2 r sk) fun k => ?_
      exact congrArg (fun x => Except.ok (x, k.2)) (rotSet_add π w.1 k.1)
    rw [Go.loop_cons, Go.loop_cons, h]
    cases MKHE.rotKeyStep crs gs sk w r with
    | ok t => exact ih t
    | error e => rfl

/-- the secrets under the new names -/
def secrets (s : String → Nega N ℤ) : String → Nega N ℤ := fun id => s (π.perm.symm id)

omit [NeZero N] in
theorem secrets_apply (s : String → Nega N ℤ) (id : String) : secrets π s (π id) = s id := congrArg s (π.perm.symm_apply_apply id)

theorem setupParty (crs : GoMap ℤ (Swk C)) (gs : ℕ → Nega N ℤ) (s r : String → Nega N ℤ) (rots : List ℤ) (w : KeyStore C) (id : String) :
    MKHE.setupParty crs gs (secrets π s) (secrets π r) rots (KeyStore.ren π w) (π id) = (MKHE.setupParty crs gs s r rots w id).map (KeyStore.ren π) := by
  unfold MKHE.setupParty
  rw [secrets_apply, secrets_apply]
  refine Go.bind_ren (genKeyPair π crs gs w.kg (s id) id) fun kp => Go.bind_ren (genRelinearizationKey π crs gs kp.2.2 kp.1 (MKHE.genSecretKey (r id) id)) fun l =>
    Go.bind_ren (rotKeyStep π crs gs kp.1 rots (w.rks, l.2)) fun t => congrArg Except.ok ?_
  have e1 := keySet_add π (g := SKey.ren π) (idOf := SKey.id) (fun _ => rfl) w.sks kp.1
  have e2 := keySet_add π (g := PKey.ren π) (idOf := PKey.id) (fun _ => rfl) w.pks kp.2.1
  have e3 := rlkSet_add π Swk.new w.rlk l.1
  show KeyStore.mk _ _ _ _ _ = KeyStore.mk _ _ _ _ _
  exact congr (congr (congr (congr rfl e1) e2) e3) rfl

/-- The keys of renamed parties, from the same samples, are the renamed keys. -/
theorem setup (crs : GoMap ℤ (Swk C)) (gs : ℕ → Nega N ℤ) (s r : String → Nega N ℤ) (rots : List ℤ) (kg : KG C) (ids : List String) :
    MKHE.setup crs gs (secrets π s) (secrets π r) rots kg (ids.map π) = (MKHE.setup crs gs s r rots kg ids).map (KeyStore.ren π) := by
  unfold MKHE.setup
  exact Go.loop_ren π (r := KeyStore.ren π) ids ⟨kg, KeySet.new, KeySet.new, RlkSet.new, RotKeySet.new⟩ fun w id => setupParty π crs gs s r rots w id

/-- what a client chooses: the parties, the encryptions `(party, plaintext, scale)`, the calls, and the number of the result to decrypt -/
structure Plan (C : Ctx N) where
  ids : List String
  inputs : List (String × Poly C × ℚ)
  prog : List C59.Instr
  result : ℕ

/-- what it gets from the outside: CRS, samples, memory of the key generator, encryptor, evaluator and decryptor, iteration orders, the parameters' scale -/
structure World (C : Ctx N) where
  crs : GoMap ℤ (Swk C)
  gs : ℕ → Nega N ℤ
  us : ℕ → Nega N ℤ
  s : String → Nega N ℤ
  r : String → Nega N ℤ
  rots : List ℤ
  kg : KG C
  enc : Enc C
  ev : Eval C
  pool : Poly C
  pscale : ℚ
  oe : ℕ → Sched String
  od : Sched String
  w : C59.Env C

/-- `GetPublicKey`, `EncryptMsgNew`, for each input -/
def encryptAll (W : World C) (pks : KeySet (PKey C)) : ℕ → Enc C → List (String × Poly C × ℚ) → Go (List (CCt C))
  | _, _, [] => .ok []
  | n, st, (id, pt, scale) :: l => do
    let pk ← pks.get "cannot GetPublicKey: there is no public key with given id" id
    let c ← MKHE.ckksEncryptNew (W.oe n) W.us W.gs st pt scale pk
    let cs ← encryptAll W pks (n + 1) c.2 l
    .ok (c.1 :: cs)

/-- the whole session: key generation, encryption, evaluation, decryption; the result is the plaintext and scale handed to the encoder -/
noncomputable def session (W : World C) (P : Plan C) : Go (Poly C × ℚ) := do
  let ks ← MKHE.setup W.crs W.gs W.s W.r W.rots W.kg P.ids
  let cts ← encryptAll W ks.pks 0 W.enc P.inputs
  let M ← C59.run ⟨W.crs, ks.rlk, ks.rks, KeySet.new, W.pscale, ∅, W.s, W.r, fun _ => PolyQP.zero, 0, 0, 0, 0⟩ W.w 0 ⟨⟨W.ev, ks.rlk⟩, cts, []⟩ P.prog
  let ct ← C59.fetch M.cts P.result
  let d ← MKHE.ckksDecrypt W.od W.pool ct ks.sks
  .ok d.1

/-- the plan with other party names -/
def Plan.ren (P : Plan C) : Plan C := { P with ids := P.ids.map π, inputs := P.inputs.map fun x => (π x.1, x.2) }

/-- the world of the renamed client: the same samples for the same parties -/
def World.ren (W : World C) : World C :=
  { W with s := secrets π W.s, r := secrets π W.r, ev := W.ev.ren π, oe := orders π W.oe, od := Sched.ren π W.od, w := env π W.w }

theorem encryptAll_ren (W : World C) (pks : KeySet (PKey C)) (n : ℕ) (st : Enc C) (l : List (String × Poly C × ℚ)) :
    encryptAll (World.ren π W) (pks.ren π (PKey.ren π)) n st (l.map fun x => (π x.1, x.2)) = (encryptAll W pks n st l).map (List.map (CCt.ren π)) := by
  induction l generalizing n st with
  | nil => rfl
  | cons x l ih =>
    obtain ⟨id, pt, scale⟩ := x
    exact Go.bind_ren (ks_get π (PKey.ren π) _ pks id) fun pk => Go.bind_ren (ckksEncryptNew π (W.oe n) W.us W.gs st pt scale pk) fun c =>
      Go.bind_ren (ih (n + 1) c.2) fun cs => rfl

/-- **A client whose parties have other identifiers decrypts the same plaintext**, or fails in the same way. -/
theorem session_ren (W : World C) (P : Plan C) : session (World.ren π W) (Plan.ren π P) = session W P := by
  unfold session
  refine Go.bind_ren_same (setup π W.crs W.gs W.s W.r W.rots W.kg P.ids) fun ks => ?_
  refine Go.bind_ren_same (encryptAll_ren π W ks.pks 0 W.enc P.inputs) fun cts => ?_
  refine Go.bind_ren_same (run π ⟨W.crs, ks.rlk, ks.rks, KeySet.new, W.pscale, ∅, W.s, W.r, fun _ => PolyQP.zero, 0, 0, 0, 0⟩ W.w 0 ⟨⟨W.ev, ks.rlk⟩, cts, []⟩ P.prog) fun M => ?_
  refine Go.bind_ren_same (fetch (CCt.ren π) M.cts P.result) fun ct => ?_
  show (MKHE.ckksDecrypt _ _ _ _ >>= _) = _
  refine Go.bind_ren_same (r := fun x => x) ?_ fun d => rfl
  rw [Go.map_id]
  exact ckksDecrypt π W.od W.pool ct ks.sks

/-- the calls use only the CRS, the key sets and the scale of a system, not the secrets and bounds that theorems about it mention -/
theorem run_congr {S S' : C59.Sys C} (h1 : S.crs = S'.crs) (h2 : S.rks = S'.rks) (h3 : S.cks = S'.cks) (h4 : S.pscale = S'.pscale) (w : C59.Env C) (n : ℕ)
    (M : C59.Machine C) (p : List C59.Instr) : C59.run S w n M p = C59.run S' w n M p := by
  induction p generalizing n M with
  | nil => rfl
  | cons c p ih =>
    have h : C59.step S w n M c = C59.step S' w n M c := by
      cases c <;> simp only [C59.step, h1, h2, h3, h4]
    show (C59.step S w n M c >>= _) = (C59.step S' w n M c >>= _)
    rw [h]
    exact congrArg _ (funext fun M' => ih (n + 1) M')

end Setup

end MKHE.C73

namespace MKHE.CEx
open MKHE Finset Nega Ex

variable (fm : FloatModel)

noncomputable def world (us : ℕ → Nega 16 ℤ) (st : Enc (ctx fm)) (o : ℕ → ℕ → Sched String) (od oe : Sched String) : C73.World (ctx fm) :=
  ⟨crs fm, err, us, sec, sec', rots, kg fm, st, eval fm, ckksNewDecryptor, 100, fun _ => oe, od, env fm o⟩

noncomputable def plan : C73.Plan (ctx fm) := ⟨["a", "b"], [("a", poly fm 3 5, 200)], prog, 1⟩

/-- The session of `run_ex` (keys for two parties, an encryption, 13 calls, the decryption of a result) succeeds; with the parties called "alice" and "bob" it decrypts the same plaintext. -/
theorem rename_ex (us : ℕ → Nega 16 ℤ) (hus : ∀ n, Bdd (us n) 1) (st : Enc (ctx fm)) (o : ℕ → ℕ → Sched String) (od oe : Sched String) :
    ∃ (π : Renaming) (pt : Poly (ctx fm)), C73.session (world fm us st o od oe) (plan fm) = .ok (pt, 200) ∧
      C73.session (C73.World.ren π (world fm us st o od oe)) ⟨["alice", "bob"], [("alice", poly fm 3 5, 200)], prog, 1⟩ = .ok (pt, 200) := by
  obtain ⟨w, pk, ct, st', M', ct1, pt, pool', h1, h2, h3, h4, h5, -, h6, -⟩ := run_ex fm us hus st o od oe
  obtain ⟨π, hπ⟩ := C73.extend {"a", "b"} (fun id => if id = "a" then "alice" else "bob") (by decide)
    (by intro x hx y hy h; simp only [coe_insert, coe_singleton, Set.mem_insert_iff, Set.mem_singleton_iff] at hx hy
        rcases hx with rfl | rfl <;> rcases hy with rfl | rfl <;> first | rfl | exact absurd h (by decide))
    (by intro x hx; simp only [mem_insert, mem_singleton] at hx; rcases hx with rfl | rfl <;> decide)
  have key : C73.session (world fm us st o od oe) (plan fm) = .ok (pt, 200) := by
    have e2 : C73.encryptAll (world fm us st o od oe) w.pks 0 st [("a", poly fm 3 5, 200)] = .ok [ct] := by
      have eg : w.pks.get "cannot GetPublicKey: there is no public key with given id" "a" = .ok pk := by unfold KeySet.get; rw [h2]
      show (w.pks.get _ "a" >>= _) = _
      rw [eg]
      show (ckksEncryptNew oe us err st (poly fm 3 5) 200 pk >>= _) = _
      rw [h3]
      rfl
    have e4 : C59.run ⟨crs fm, w.rlk, w.rks, KeySet.new, 100, ∅, sec, sec', fun _ => PolyQP.zero, 0, 0, 0, 0⟩ (env fm o) 0 ⟨⟨eval fm, w.rlk⟩, [ct], []⟩ prog = .ok M' := by
      rw [← h4]; exact C73.run_congr rfl rfl rfl rfl _ _ _ _
    show (setup (crs fm) err sec sec' rots (kg fm) ["a", "b"] >>= _) = _
    rw [h1]
    show (C73.encryptAll (world fm us st o od oe) w.pks 0 st [("a", poly fm 3 5, 200)] >>= _) = _
    rw [e2]
    show (C59.run ⟨crs fm, w.rlk, w.rks, KeySet.new, 100, ∅, sec, sec', fun _ => PolyQP.zero, 0, 0, 0, 0⟩ (env fm o) 0 ⟨⟨eval fm, w.rlk⟩, [ct], []⟩ prog >>= _) = _
    rw [e4]
    show (C59.fetch M'.cts 1 >>= _) = _
    unfold C59.fetch
    rw [h5]
    show (ckksDecrypt od ckksNewDecryptor ct1 w.sks >>= _) = _
    rw [h6]
    rfl
  refine ⟨π, pt, key, ?_⟩
  have ha : π "a" = "alice" := hπ "a" (by decide)
  have hb : π "b" = "bob" := hπ "b" (by decide)
  have hp : C73.Plan.ren π (plan fm) = ⟨["alice", "bob"], [("alice", poly fm 3 5, 200)], prog, 1⟩ := by
    unfold C73.Plan.ren plan
    simp only [List.map_cons, List.map_nil, ha, hb]
  rw [← hp, C73.session_ren, key]

end MKHE.CEx
