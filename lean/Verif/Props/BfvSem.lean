import Verif.Lemmas.BfvKeep
import Verif.Props.BfvMul
import Verif.Props.AddSub
import Verif.Props.RotateAll
import Verif.Props.Crypt

set_option autoImplicit false

/-!
# C58: what a BFV program computes

Every operation of the BFV evaluator on encryptions, encryption and decryption themselves, and then arbitrary circuits.
-/

namespace MKHE.C58
open Finset Nega

variable {N : ℕ} [NeZero N] {B : BCtx N} {s : String → Nega N ℤ}

/-! ## encryption and decryption -/

/-- lattigo's `ScaleUp` as a specification: the plaintext polynomial is `Φ` modulo every prime of Q, with `T*Φ = Q*m + b`, `|b| <= Bm` -/
def Encodes (B : BCtx N) (pt : Poly B.C) (m : Nega N ℤ) (Bm : ℤ) : Prop :=
  pt.len = B.C.nQ ∧ ∃ Φ b : Nega N ℤ, Bdd b Bm ∧ (B.t : Nega N ℤ) * Φ = (B.Q : Nega N ℤ) * m + b ∧
    ∀ i < B.C.nQ, cf (pt.coeffs i) = red (B.C.q i) Φ

/-- the exact length of what `EncryptMsgNew` returns -/
theorem bfvEncryptNew_atLevel (V : B.C.Valid) (o : Sched String) (us gs : ℕ → Nega N ℤ) (st : Enc B.C) {pt : Poly B.C} (hpt : pt.len = B.C.nQ)
    {pk : PKey B.C} (hid : pk.id ≠ "0") {ct : Ct B.C} {st' : Enc B.C} (h : bfvEncryptNew o us gs st pt pk = .ok (ct, st')) :
    ct.AtLevel (B.C.nQ - 1) := by
  have hq := V.q1
  obtain ⟨ids, a1, a2⟩ := C17.newReceiver (C := B.C) (o 207) hid (B.C.nQ - 1)
  obtain ⟨p0, h0, hl0, hb⟩ := a2.comp0
  obtain ⟨p1, h1, hl1⟩ := a2.comp1
  obtain ⟨ct', st'', e1, _, _, e4, e5, e6⟩ := encrypt_ok us gs st (pt := pt) (by omega) hid h0 h1 (by omega) (by omega)
  unfold bfvEncryptNew at h
  rw [a1, bind_ok, e1] at h
  injection h with h
  have h := congrArg Prod.fst h
  dsimp only at h
  subst h
  have hl : min (pt.len - 1) (p0.len - 1) = B.C.nQ - 1 := by omega
  rw [hl] at e4 e5
  refine ⟨Ct.mem_of_lookup e4, fun id p hp => ?_, fun id p hp => ?_⟩
  all_goals
    by_cases i0 : id = "0"
    · subst i0
      rw [e4] at hp; injection hp with hp; subst hp
      unfold enc0; rw [hb]; first | rfl | exact hb
    · by_cases i1 : id = pk.id
      · subst i1
        rw [e5] at hp; injection hp with hp; subst hp
        unfold enc1; rw [hb]; rfl
      · rw [e6 id i0 i1] at hp
        have : id ∈ (Ct.new (o 207) ids (B.C.nQ - 1) : Ct B.C).ids := Ct.mem_ids.mpr ⟨Ct.mem_of_lookup hp, i0⟩
        rw [a2.ids, mem_singleton] at this
        exact absurd this i1

/-- **C58, encryption.** `EncryptMsgNew` of a plaintext that encodes `m` gives an encryption of `m`. -/
theorem encrypt (V : B.Valid) (o : Sched String) (us gs : ℕ → Nega N ℤ) (st : Enc B.C) {pt : Poly B.C} {m : Nega N ℤ} {Bm : ℤ}
    (hpt : Encodes B pt m Bm) {pk : PKey B.C} (hid : pk.id ≠ "0") {e : Nega N ℤ} (hpk : C17.PubKey pk (s pk.id) e)
    {Bu Be Bg Bs : ℤ} (hu : ∀ n, Bdd (us n) Bu) (hg : ∀ n, Bdd (gs n) Bg) (he : Bdd e Be) (hs : Bdd (s pk.id) Bs) :
    ∃ ct st', bfvEncryptNew o us gs st pt pk = .ok (ct, st') ∧ ct.AtLevel B.top ∧ ct.ids = {pk.id} ∧
      BfvEnc B s ct m (Bm + B.t * (N * Bu * Be + Bg + N * Bg * Bs)) := by
  obtain ⟨hlen, Φ, b, p1, p2, p3⟩ := hpt
  have hq := V.qp.q1
  obtain ⟨ct, st', a1, a2, a3, e0, e1, a4, a5⟩ := C17.bfvEncryptNew_phase V.qp o us gs st (pt := pt) (by omega) hid hpk
  have hE : Bdd (us st.upos * e + e0 + e1 * s pk.id) (N * Bu * Be + Bg + N * Bg * Bs) := by
    refine C17.noise_bound (hu _) he ?_ ?_ hs
    · rcases a4 with ⟨h, _⟩ | ⟨_, h⟩ <;> rw [h] <;> exact hg _
    · rcases a4 with ⟨_, h⟩ | ⟨h, _⟩ <;> rw [h] <;> exact hg _
  refine ⟨ct, st', a1, bfvEncryptNew_atLevel V.qp o us gs st hlen hid a1, a2, Φ + (us st.upos * e + e0 + e1 * s pk.id), 0,
    b + (B.t : Nega N ℤ) * (us st.upos * e + e0 + e1 * s pk.id), p1.add (hE.natMul B.t), ?_, fun i hi => ?_⟩
  · linear_combination p2
  · rw [a5 i (by omega), p3 i hi, ← map_add]

/-- **C58, decryption.** With the keys of all parties, `Decrypt` hands the encoder a polynomial of which every integer representative `Φ`
rounds to the message: `round(T*Φ/Q) = m` modulo T. -/
theorem decrypt (V : B.Valid) (o : Sched String) {ct : Ct B.C} (hct : ct.AtLevel B.top) {m : Nega N ℤ} {Bd : ℤ} (h : BfvEnc B s ct m Bd)
    (hB : 2 * Bd < B.Q) {sks : KeySet (SKey B.C)} (hk : sks.Keyed SKey.id) (hs : ∀ id sk, sks.value.lookup id = some sk → sk.Is (s id))
    (hall : ∀ id ∈ ct.ids, id ∈ sks.value) :
    ∃ p, bfvDecrypt o ct sks = .ok p ∧ p.len = B.C.nQ ∧ (∃ Φ : Nega N ℤ, ∀ i < B.C.nQ, cf (p.coeffs i) = red (B.C.q i) Φ) ∧
      ∀ Φ : Nega N ℤ, (∀ i < B.C.nQ, cf (p.coeffs i) = red (B.C.q i) Φ) → ∀ x,
        (2 * (B.t * Φ x) + B.Q) / (2 * B.Q) ≡ m x [ZMOD B.t] := by
  have e := V.top_succ
  obtain ⟨p, d1, d2, -, -, d5⟩ := C19.bfvDecrypt_partial hct.toFlag V.top_lt hk hs o
  have d5 := d5 hall
  refine ⟨p, d1, by omega, ?_, fun Φ hΦ x => decode V h hB (fun i hi => ?_) x⟩
  · obtain ⟨Φ, _, _, _, _, hΦ⟩ := h
    exact ⟨Φ, fun i hi => by rw [d5 i (by omega), hΦ i hi]⟩
  · rw [← d5 i (by omega), hΦ i hi]

/-! ## the other operations -/

theorem BfvEnc.mono {ct : Ct B.C} {m : Nega N ℤ} {Bd Bd' : ℤ} (h : BfvEnc B s ct m Bd) (hB : Bd ≤ Bd') : BfvEnc B s ct m Bd' := by
  obtain ⟨Φ, k, b, h1, h2, h3⟩ := h
  exact ⟨Φ, k, b, h1.mono hB, h2, h3⟩

/-- **C58, addition.** -/
theorem add (V : B.Valid) (o : Sched String) {c0 c1 : Ct B.C} (h0 : c0.AtLevel B.top) (h1 : c1.AtLevel B.top) {m0 m1 : Nega N ℤ} {B0 B1 : ℤ}
    (e0 : BfvEnc B s c0 m0 B0) (e1 : BfvEnc B s c1 m1 B1) :
    ∃ out, bfvAddNew o c0 c1 = .ok out ∧ out.AtLevel B.top ∧ out.ids = c0.ids ∪ c1.ids ∧ BfvEnc B s out (m0 + m1) (B0 + B1) := by
  have e := V.top_succ
  obtain ⟨out, a1, a2, a3, a4⟩ := C22.addNew_phase o h0 h1
  obtain ⟨F0, k0, b0, f1, f2, f3⟩ := e0
  obtain ⟨F1, k1, b1, g1, g2, g3⟩ := e1
  refine ⟨out, a1, a2, a3, F0 + F1, k0 + k1, b0 + b1, f1.add g1, by linear_combination f2 + g2, fun i hi => ?_⟩
  rw [a4 s i (by omega), f3 i hi, g3 i hi, map_add]

/-- **C58, subtraction.** -/
theorem sub (V : B.Valid) (o : Sched String) {c0 c1 : Ct B.C} (h0 : c0.AtLevel B.top) (h1 : c1.AtLevel B.top) {m0 m1 : Nega N ℤ} {B0 B1 : ℤ}
    (e0 : BfvEnc B s c0 m0 B0) (e1 : BfvEnc B s c1 m1 B1) :
    ∃ out, bfvSubNew o c0 c1 = .ok out ∧ out.AtLevel B.top ∧ out.ids = c0.ids ∪ c1.ids ∧ BfvEnc B s out (m0 - m1) (B0 + B1) := by
  have e := V.top_succ
  obtain ⟨out, a1, a2, a3, a4⟩ := C22.subNew_phase o h0 h1
  obtain ⟨F0, k0, b0, f1, f2, f3⟩ := e0
  obtain ⟨F1, k1, b1, g1, g2, g3⟩ := e1
  refine ⟨out, a1, a2, a3, F0 - F1, k0 - k1, b0 - b1, f1.sub g1, by linear_combination f2 - g2, fun i hi => ?_⟩
  rw [a4 s i (by omega), f3 i hi, g3 i hi, map_sub]

/-- an automorphism of the phase plus a bounded error is an automorphism of the message -/
theorem galois_enc (V : B.Valid) {g : ℕ} (hg : Odd g) {ct out : Ct B.C} {m : Nega N ℤ} {Bd E' : ℤ} (h : BfvEnc B s ct m Bd) {E : Nega N ℤ}
    (hE : ∀ x, B.C.P * |E x| ≤ E') (hp : ∀ i < B.C.nQ, out.phase s i = galois g (ct.phase s i) + red (B.C.q i) E) :
    BfvEnc B s out (galois g m) (Bd + B.t * (E' / B.C.P)) := by
  obtain ⟨Φ, k, b, h1, h2, h3⟩ := h
  have hP : (0 : ℤ) < B.C.P := by exact_mod_cast V.qp.P_pos
  have hE2 : Bdd E (E' / B.C.P) := fun x => by
    rw [Int.le_ediv_iff_mul_le hP, mul_comm]; exact hE x
  refine ⟨galois g Φ + E, galois g k, galois g b + (B.t : Nega N ℤ) * E, (Bdd.galois V.qp.hN hg h1).add (hE2.natMul B.t), ?_, fun i hi => ?_⟩
  · have := congrArg (galoisHom g hg) h2
    simp only [map_mul, map_add, map_natCast, galoisHom_apply] at this
    linear_combination this
  · rw [hp i hi, h3 i hi, galois_red, map_add]

variable {crs : GoMap ℤ (Swk B.C)}

/-- **C58, rotation.** For every amount, with the default rotation keys. -/
theorem rotate (V : B.Valid) (o : ℕ → Sched String) (S : Scratch B.C) {ct : Ct B.C} (rot : ℤ) (hct : ct.AtLevel B.top)
    {rks : RotKeySet (GalKey B.C)} {Sb Be : ℤ} (K : C35.HasKeys crs B.top ct.ids (C35.amount N rot) rks s Sb Be)
    {D : ℤ} (hD : ∀ k < B.bt, 2 * (B.C.blockProd B.top k : ℤ) ≤ D) {m : Nega N ℤ} {Bd : ℤ} (h : BfvEnc B s ct m Bd) :
    ∃ out S', bfvRotateNew crs o S ct rot rks = .ok (out, S') ∧ out.AtLevel B.top ∧ out.ids = ct.ids ∧
      BfvEnc B s out (galois (5 ^ C35.amount N rot) m)
        (Bd + B.t * (C35.rotCount crs (C35.amount N rot) * C33.rotNoise N B.C.P ct.ids.card B.bt D Sb Be / B.C.P)) := by
  have e := V.top_succ
  obtain ⟨out, S', a1, a2, a3, E, a4, a5⟩ := C35.bfvRotateNew_phase V.qp o S ct rot hct K D hD
  exact ⟨out, S', a1, a2, a3, galois_enc V (odd_five_pow _) h a4 fun i hi => a5 i (show i ≤ B.top by omega)⟩

/-- **C58, conjugation.** -/
theorem conjugate (V : B.Valid) (o : Sched String) (S : Scratch B.C) {ct : Ct B.C} (hct : ct.AtLevel B.top)
    {cks : KeySet (GalKey B.C)} {Sb Be : ℤ} (K : C36.Keys crs B.top ct.ids cks s Sb Be)
    {D : ℤ} (hD : ∀ k < B.bt, 2 * (B.C.blockProd B.top k : ℤ) ≤ D) {m : Nega N ℤ} {Bd : ℤ} (h : BfvEnc B s ct m Bd) :
    ∃ out S', bfvConjugateNew B.top crs o S ct cks = .ok (out, S') ∧ out.AtLevel B.top ∧ out.ids = ct.ids ∧
      BfvEnc B s out (galois (2 * N - 1) m) (Bd + B.t * (C33.rotNoise N B.C.P ct.ids.card B.bt D Sb Be / B.C.P)) := by
  have e := V.top_succ
  have hNpos : 0 < N := Nat.pos_of_ne_zero (NeZero.ne N)
  have hodd : Odd (2 * N - 1) := ⟨N - 1, by omega⟩
  obtain ⟨ids, a1, a2⟩ := Ct.idset (o 63) ct
  obtain ⟨tmp, t1, t2⟩ := Ct.copyNew_ok (o 62) hct.has0
  have hnew : (Ct.new (o 64) ids B.top : Ct B.C).AtLevel B.top := Ct.new_atLevel _ _ _
  have hnid : (Ct.new (o 64) ids B.top : Ct B.C).ids = ct.ids := Ct.new_ids _ a2 (Ct.zero_notMem_ids _) _
  have htmp : tmp.ids = ct.ids := t2.ids
  have htA : tmp.AtLevel B.top := ⟨t2.symm.mem.mp hct.has0, fun id p hp => hct.len id p ((t2 id).symm.trans hp),
    fun id p hp => hct.coeff id p ((t2 id).symm.trans hp)⟩
  obtain ⟨out', S', e1, e2, e3, E, e4, e5⟩ := C36.conjugate_phase V.qp o S
    ⟨V.top_lt, htA.toCoeff, hnew, by rw [hnid, htmp]⟩ (by rw [htmp]; exact K) D hD
  unfold bfvConjugateNew
  rw [a1, bind_ok, t1, bind_ok]
  refine ⟨out', S', e1, e2, e3.trans htmp, galois_enc V hodd h (by rw [htmp] at e4; exact e4) fun i hi => ?_⟩
  rw [e5 i (by omega), t2.phase]

/-! ## circuits -/

/-- A BFV program over inputs numbered by `ℕ`. -/
inductive Circ where
  | input (n : ℕ)
  | add (a b : Circ)
  | sub (a b : Circ)
  | mul (a b : Circ)
  | rot (r : ℤ) (a : Circ)
  | conj (a : Circ)

/-- the plaintext meaning of a program: ring operations, rotation by `r` is `X ↦ X^(5^(r mod N/2))`, conjugation is `X ↦ X^-1` -/
noncomputable def Circ.val (m : ℕ → Nega N ℤ) : Circ → Nega N ℤ
  | .input n => m n
  | .add a b => a.val m + b.val m
  | .sub a b => a.val m - b.val m
  | .mul a b => a.val m * b.val m
  | .rot r a => galois (5 ^ C35.amount N r) (a.val m)
  | .conj a => galois (2 * N - 1) (a.val m)

/-- the parties of the result -/
def Circ.ids (I : ℕ → Finset String) : Circ → Finset String
  | .input n => I n
  | .add a b => a.ids I ∪ b.ids I
  | .sub a b => a.ids I ∪ b.ids I
  | .mul a b => a.ids I ∪ b.ids I
  | .rot _ a => a.ids I
  | .conj a => a.ids I

/-- the inputs a program reads -/
def Circ.inputs : Circ → Finset ℕ
  | .input n => {n}
  | .add a b => a.inputs ∪ b.inputs
  | .sub a b => a.inputs ∪ b.inputs
  | .mul a b => a.inputs ∪ b.inputs
  | .rot _ a => a.inputs
  | .conj a => a.inputs

/-- what the evaluator is given: common reference strings and key sets -/
structure Keyring (B : BCtx N) where
  crs : GoMap ℤ (Swk B.C)
  rlk : BRlkMap B
  rks : RotKeySet (GalKey B.C)
  cks : KeySet (GalKey B.C)

/-- running a program with one evaluator: every operation starts with the scratch memory the one before left behind; `o` gives the map
iteration orders at the node with a given path -/
def Circ.run (K : Keyring B) (ct : ℕ → Ct B.C) : (o : List ℕ → ℕ → Sched String) → Circ → BScratch B → Go (Ct B.C × BScratch B)
  | _, .input n, S => .ok (ct n, S)
  | o, .add a b, S => do
    let x ← a.run K ct (fun p => o (0 :: p)) S
    let y ← b.run K ct (fun p => o (1 :: p)) x.2
    let r ← bfvAddNew (o [] 0) x.1 y.1
    .ok (r, y.2)
  | o, .sub a b, S => do
    let x ← a.run K ct (fun p => o (0 :: p)) S
    let y ← b.run K ct (fun p => o (1 :: p)) x.2
    let r ← bfvSubNew (o [] 0) x.1 y.1
    .ok (r, y.2)
  | o, .mul a b, S => do
    let x ← a.run K ct (fun p => o (0 :: p)) S
    let y ← b.run K ct (fun p => o (1 :: p)) x.2
    bfvMulRelinNew K.crs (o [] 0) y.2 x.1 y.1 K.rlk
  | o, .rot r a, S => do
    let x ← a.run K ct (fun p => o (0 :: p)) S
    let w ← bfvRotateNew K.crs (o []) x.2.base x.1 r K.rks
    .ok (w.1, { x.2 with base := w.2 })
  | o, .conj a, S => do
    let x ← a.run K ct (fun p => o (0 :: p)) S
    let w ← bfvConjugateNew B.top K.crs (o [] 0) x.2.base x.1 K.cks
    .ok (w.1, { x.2 with base := w.2 })

/-- the noise of the result of a program, from that of the inputs -/
def Circ.noise (B : BCtx N) (crs : GoMap ℤ (Swk B.C)) (I : ℕ → Finset String) (Bin : ℕ → ℤ) (D Sb Rb Be : ℤ) : Circ → ℤ
  | .input n => Bin n
  | .add a b => a.noise B crs I Bin D Sb Rb Be + b.noise B crs I Bin D Sb Rb Be
  | .sub a b => a.noise B crs I Bin D Sb Rb Be + b.noise B crs I Bin D Sb Rb Be
  | .mul a b => mulBound B (a.ids I).card (b.ids I).card (a.ids I ∪ b.ids I).card D Sb Rb Be (a.noise B crs I Bin D Sb Rb Be)
      (b.noise B crs I Bin D Sb Rb Be)
  | .rot r a => a.noise B crs I Bin D Sb Rb Be +
      B.t * (C35.rotCount crs (C35.amount N r) * C33.rotNoise N B.C.P (a.ids I).card B.bt D Sb Be / B.C.P)
  | .conj a => a.noise B crs I Bin D Sb Rb Be + B.t * (C33.rotNoise N B.C.P (a.ids I).card B.bt D Sb Be / B.C.P)

/-- the keys of all parties of a set `U` are right -/
structure Keyring.Ok (K : Keyring B) (U : Finset String) (s r : String → Nega N ℤ) (Sb Rb Be : ℤ) : Prop where
  rlk : ∃ a, C45.Keys K.crs U K.rlk s r a Sb Rb Be
  pools : C45.Pools U K.rlk
  rot : ∀ n < N / 2, C35.HasKeys K.crs B.top U n K.rks s Sb Be
  conj : C36.Keys K.crs B.top U K.cks s Sb Be

theorem keys_mono {crs : GoMap ℤ (Swk B.C)} {U ids : Finset String} (hsub : ids ⊆ U) {set : BRlkMap B} {r : String → Nega N ℤ} {a : ℕ → PolyQP B.C}
    {Sb Rb Be : ℤ} (K : C45.Keys crs U set s r a Sb Rb Be) : C45.Keys crs ids set s r a Sb Rb Be := by
  obtain ⟨u, G, g, rho, u1, u2, u3, u4⟩ := K.u
  exact ⟨⟨u, G, g, rho, u1, u2, u3, fun id h => u4 id (hsub h)⟩, fun id h => K.s id (hsub h), fun id h => K.r id (hsub h)⟩

theorem pools_mono {U ids : Finset String} (hsub : ids ⊆ U) {set : BRlkMap B} (K : C45.Pools U set) : C45.Pools ids set :=
  ⟨K.zero1, K.zero2, fun id h => K.pool1 id (hsub h), fun id h => K.pool2 id (hsub h), fun id h => K.h10 id (hsub h),
    fun id h => K.h11 id (hsub h), fun id h => K.h20 id (hsub h), fun id h => K.h21 id (hsub h)⟩

theorem rotKeys_mono {crs : GoMap ℤ (Swk B.C)} {level n : ℕ} {U ids : Finset String} (hsub : ids ⊆ U) {rks : RotKeySet (GalKey B.C)} {Sb Be : ℤ}
    (K : C33.Keys crs level U n rks s Sb Be) : C33.Keys crs level ids n rks s Sb Be := by
  obtain ⟨a, k1, k2, k3⟩ := K.key
  exact ⟨⟨a, k1, k2, fun id h => k3 id (hsub h)⟩, fun id h => K.s id (hsub h)⟩

theorem hasKeys_mono {crs : GoMap ℤ (Swk B.C)} {level n : ℕ} {U ids : Finset String} (hsub : ids ⊆ U) {rks : RotKeySet (GalKey B.C)} {Sb Be : ℤ}
    (K : C35.HasKeys crs level U n rks s Sb Be) : C35.HasKeys crs level ids n rks s Sb Be :=
  ⟨fun j hj => rotKeys_mono hsub (K.default j hj), fun h h0 => rotKeys_mono hsub (K.special h h0)⟩

theorem conjKeys_mono {crs : GoMap ℤ (Swk B.C)} {level : ℕ} {U ids : Finset String} (hsub : ids ⊆ U) {cks : KeySet (GalKey B.C)} {Sb Be : ℤ}
    (K : C36.Keys crs level U cks s Sb Be) : C36.Keys crs level ids cks s Sb Be := by
  obtain ⟨a, k1, k2, k3⟩ := K.key
  exact ⟨⟨a, k1, k2, fun id h => k3 id (hsub h)⟩, fun id h => K.s id (hsub h)⟩

/-- **C58, circuits.** Every program of additions, subtractions, multiplications, rotations and conjugations, run by one evaluator on
encryptions of `m 0, m 1, ...` under any parties of `U`, succeeds and returns an encryption, under the union of the parties, of the value of
the program on the plaintexts, with noise at most `noise`. Whatever the map iteration orders and the content of the scratch memory at the
start, and the evaluator can be used again. -/
theorem circuit (V : B.Valid) {K : Keyring B} {U : Finset String} {r : String → Nega N ℤ} {Sb Rb Be : ℤ} (hK : K.Ok U s r Sb Rb Be)
    {D : ℤ} (hD : ∀ k < 2 * B.bt, 3 * (B.blockR k : ℤ) ≤ D) (hD' : ∀ k < B.bt, 2 * (B.C.blockProd B.top k : ℤ) ≤ D)
    {ct : ℕ → Ct B.C} {m : ℕ → Nega N ℤ} {Bin : ℕ → ℤ} (c : Circ) :
    (∀ n ∈ c.inputs, (ct n).AtLevel B.top ∧ (ct n).ids ⊆ U ∧ BfvEnc B s (ct n) (m n) (Bin n)) →
    ∀ (o : List ℕ → ℕ → Sched String) (S : BScratch B), S.Alloc → ∃ out S', c.run K ct o S = .ok (out, S') ∧ S'.Alloc ∧
      out.AtLevel B.top ∧ out.ids = c.ids (fun n => (ct n).ids) ∧
      c.ids (fun n => (ct n).ids) ⊆ U ∧ BfvEnc B s out (c.val m) (c.noise B K.crs (fun n => (ct n).ids) Bin D Sb Rb Be) := by
  induction c with
  | input n =>
    intro hin o S hS
    obtain ⟨h1, h2, h3⟩ := hin n (mem_singleton_self n)
    exact ⟨ct n, S, rfl, hS, h1, rfl, h2, h3⟩
  | add a b iha ihb =>
    intro hin o S hS
    obtain ⟨x, S1, a1, a0, a2, a3, a4, a5⟩ := iha (fun n hn => hin n (mem_union_left _ hn)) (fun p => o (0 :: p)) S hS
    obtain ⟨y, S2, b1, b0, b2, b3, b4, b5⟩ := ihb (fun n hn => hin n (mem_union_right _ hn)) (fun p => o (1 :: p)) S1 a0
    obtain ⟨out, c1, c2, c3, c4⟩ := add V (o [] 0) a2 b2 a5 b5
    unfold Circ.run
    rw [a1, bind_ok, b1, bind_ok, c1, bind_ok]
    exact ⟨out, S2, rfl, b0, c2, by rw [c3, a3, b3]; rfl, union_subset a4 b4, c4⟩
  | sub a b iha ihb =>
    intro hin o S hS
    obtain ⟨x, S1, a1, a0, a2, a3, a4, a5⟩ := iha (fun n hn => hin n (mem_union_left _ hn)) (fun p => o (0 :: p)) S hS
    obtain ⟨y, S2, b1, b0, b2, b3, b4, b5⟩ := ihb (fun n hn => hin n (mem_union_right _ hn)) (fun p => o (1 :: p)) S1 a0
    obtain ⟨out, c1, c2, c3, c4⟩ := sub V (o [] 0) a2 b2 a5 b5
    unfold Circ.run
    rw [a1, bind_ok, b1, bind_ok, c1, bind_ok]
    exact ⟨out, S2, rfl, b0, c2, by rw [c3, a3, b3]; rfl, union_subset a4 b4, c4⟩
  | mul a b iha ihb =>
    intro hin o S hS
    obtain ⟨x, S1, a1, a0, a2, a3, a4, a5⟩ := iha (fun n hn => hin n (mem_union_left _ hn)) (fun p => o (0 :: p)) S hS
    obtain ⟨y, S2, b1, b0, b2, b3, b4, b5⟩ := ihb (fun n hn => hin n (mem_union_right _ hn)) (fun p => o (1 :: p)) S1 a0
    have hsub : x.ids ∪ y.ids ⊆ U := by rw [a3, b3]; exact union_subset a4 b4
    obtain ⟨ka, hk⟩ := hK.rlk
    obtain ⟨out, S', c1, c2, c3, c4⟩ := mul V (o [] 0) S2 b0 a2 b2 (keys_mono hsub hk) (pools_mono hsub hK.pools) hD a5 b5
    unfold Circ.run
    rw [a1, bind_ok, b1, bind_ok]
    refine ⟨out, S', c1, (bfvMulRelinNew_lens c1).alloc b0, c2, by rw [c3, a3, b3]; rfl, union_subset a4 b4, ?_⟩
    rw [a3, b3] at c4
    exact c4
  | rot n a iha =>
    intro hin o S hS
    obtain ⟨x, S1, a1, a0, a2, a3, a4, a5⟩ := iha hin (fun p => o (0 :: p)) S hS
    obtain ⟨out, S', c1, c2, c3, c4⟩ := rotate V (o []) S1.base n a2
      (hasKeys_mono (by rw [a3]; exact a4) (hK.rot _ (C35.rotNorm_amount V.qp n).2)) hD' a5
    unfold Circ.run
    rw [a1, bind_ok, c1, bind_ok]
    refine ⟨out, _, rfl, ⟨a0.s1, a0.s2, a0.s3, a0.s4, a0.s5, a0.s6⟩, c2, by rw [c3, a3]; rfl, a4, ?_⟩
    rw [a3] at c4
    exact c4
  | conj a iha =>
    intro hin o S hS
    obtain ⟨x, S1, a1, a0, a2, a3, a4, a5⟩ := iha hin (fun p => o (0 :: p)) S hS
    obtain ⟨out, S', c1, c2, c3, c4⟩ := conjugate V (o [] 0) S1.base a2 (conjKeys_mono (by rw [a3]; exact a4) hK.conj) hD' a5
    unfold Circ.run
    rw [a1, bind_ok, c1, bind_ok]
    refine ⟨out, _, rfl, ⟨a0.s1, a0.s2, a0.s3, a0.s4, a0.s5, a0.s6⟩, c2, by rw [c3, a3]; rfl, a4, ?_⟩
    rw [a3] at c4
    exact c4

/-- **C58, end to end.** If the noise bound of the program is below `Q/2`, decrypting its result with the keys of its parties and rounding
gives the value of the program on the plaintexts, modulo T. -/
theorem circuit_decrypt (V : B.Valid) {K : Keyring B} {U : Finset String} {r : String → Nega N ℤ} {Sb Rb Be : ℤ} (hK : K.Ok U s r Sb Rb Be)
    {D : ℤ} (hD : ∀ k < 2 * B.bt, 3 * (B.blockR k : ℤ) ≤ D) (hD' : ∀ k < B.bt, 2 * (B.C.blockProd B.top k : ℤ) ≤ D)
    {ct : ℕ → Ct B.C} {m : ℕ → Nega N ℤ} {Bin : ℕ → ℤ} (c : Circ)
    (hin : ∀ n ∈ c.inputs, (ct n).AtLevel B.top ∧ (ct n).ids ⊆ U ∧ BfvEnc B s (ct n) (m n) (Bin n)) (o : List ℕ → ℕ → Sched String) (S : BScratch B)
    (hS : S.Alloc) (hB : 2 * c.noise B K.crs (fun n => (ct n).ids) Bin D Sb Rb Be < B.Q)
    {sks : KeySet (SKey B.C)} (hk : sks.Keyed SKey.id) (hs : ∀ id sk, sks.value.lookup id = some sk → sk.Is (s id))
    (hall : ∀ id ∈ c.ids (fun n => (ct n).ids), id ∈ sks.value) (od : Sched String) :
    ∃ out S' p, c.run K ct o S = .ok (out, S') ∧ S'.Alloc ∧ bfvDecrypt od out sks = .ok p ∧
      (∃ Φ : Nega N ℤ, ∀ i < B.C.nQ, cf (p.coeffs i) = red (B.C.q i) Φ) ∧
      ∀ Φ : Nega N ℤ, (∀ i < B.C.nQ, cf (p.coeffs i) = red (B.C.q i) Φ) → ∀ x,
        (2 * (B.t * Φ x) + B.Q) / (2 * B.Q) ≡ c.val m x [ZMOD B.t] := by
  obtain ⟨out, S', a1, a0, a2, a3, -, a5⟩ := circuit V hK hD hD' c hin o S hS
  obtain ⟨p, d1, -, d3, d4⟩ := decrypt V od a2 a5 hB hk hs (by rw [a3]; exact hall)
  exact ⟨out, S', p, a1, a0, d1, d3, d4⟩

end MKHE.C58
