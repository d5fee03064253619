import Verif.Spec.Ckks
import Verif.Lemmas.Keep

set_option autoImplicit false

/-!
# C59: what CKKS computes

Every operation of the CKKS evaluator, on ciphertexts that encrypt real polynomials up to a bounded error, returns an encryption of the
result of the corresponding operation on polynomials, with an explicit bound of the error; then so does every program of such operations,
whatever the history of the evaluator.
-/

namespace MKHE.C59
open Finset Nega

variable {N : ℕ} [NeZero N] {C : Ctx N}

/-! ## keys for lower levels and fewer parties -/

theorem keyRel_mono {n n' : ℕ} (hn : n ≤ n') {sec m : Nega N ℤ} {a key : ℕ → PolyQP C} {Be : ℤ} (h : KeyRel C n' sec a m Be key) :
    KeyRel C n sec a m Be key := by
  obtain ⟨e, he⟩ := h
  exact ⟨e, fun k hk => he k (by omega)⟩

theorem rlkRel_mono {n n' : ℕ} (hn : n ≤ n') {key : Rlk C} {s r : Nega N ℤ} {a u : ℕ → PolyQP C} {Be : ℤ} (h : key.Rel n' s r a u Be) :
    key.Rel n s r a u Be :=
  ⟨hn.trans h.lenb, hn.trans h.lend, hn.trans h.lenv, keyRel_mono hn h.b, keyRel_mono hn h.d, keyRel_mono hn h.v⟩

theorem mulKeys_mono (V : C.Valid) {crs : GoMap ℤ (Swk C)} {l l' : ℕ} (hl' : l' < C.nQ) (hl : l ≤ l') {U ids : Finset String} (hsub : ids ⊆ U)
    {rlk rlk' : RlkMap C} (hv : rlk'.value = rlk.value) {s r : String → Nega N ℤ} {a : ℕ → PolyQP C} {Sb Rb Be : ℤ}
    (K : C29.Keys crs l' U rlk s r a Sb Rb Be) : C29.Keys crs l ids rlk' s r a Sb Rb Be := by
  obtain ⟨u, u1, u2, u3⟩ := K.u
  have hb := V.beta_mono hl' hl
  refine ⟨⟨u, u1, hb.trans u2, fun id h => ?_⟩, fun id h => K.s id (hsub h), fun id h => K.r id (hsub h)⟩
  obtain ⟨key, k1, k2⟩ := u3 id (hsub h)
  exact ⟨key, by rw [hv]; exact k1, rlkRel_mono hb k2⟩

theorem rotKeys_mono (V : C.Valid) {crs : GoMap ℤ (Swk C)} {l l' n : ℕ} (hl' : l' < C.nQ) (hl : l ≤ l') {U ids : Finset String} (hsub : ids ⊆ U)
    {rks : RotKeySet (GalKey C)} {s : String → Nega N ℤ} {Sb Be : ℤ} (K : C33.Keys crs l' U n rks s Sb Be) :
    C33.Keys crs l ids n rks s Sb Be := by
  obtain ⟨a, k1, k2, k3⟩ := K.key
  have hb := V.beta_mono hl' hl
  refine ⟨⟨a, k1, hb.trans k2, fun id h => ?_⟩, fun id h => K.s id (hsub h)⟩
  obtain ⟨key, e1, e2, e3⟩ := k3 id (hsub h)
  exact ⟨key, e1, hb.trans e2, keyRel_mono hb e3⟩

theorem hasKeys_mono (V : C.Valid) {crs : GoMap ℤ (Swk C)} {l l' n : ℕ} (hl' : l' < C.nQ) (hl : l ≤ l') {U ids : Finset String} (hsub : ids ⊆ U)
    {rks : RotKeySet (GalKey C)} {s : String → Nega N ℤ} {Sb Be : ℤ} (K : C35.HasKeys crs l' U n rks s Sb Be) :
    C35.HasKeys crs l ids n rks s Sb Be :=
  ⟨fun j hj => rotKeys_mono V hl' hl hsub (K.default j hj), fun h h0 => rotKeys_mono V hl' hl hsub (K.special h h0)⟩

theorem conjKeys_mono (V : C.Valid) {crs : GoMap ℤ (Swk C)} {l l' : ℕ} (hl' : l' < C.nQ) (hl : l ≤ l') {U ids : Finset String} (hsub : ids ⊆ U)
    {cks : KeySet (GalKey C)} {s : String → Nega N ℤ} {Sb Be : ℤ} (K : C36.Keys crs l' U cks s Sb Be) :
    C36.Keys crs l ids cks s Sb Be := by
  obtain ⟨a, k1, k2, k3⟩ := K.key
  have hb := V.beta_mono hl' hl
  refine ⟨⟨a, k1, hb.trans k2, fun id h => ?_⟩, fun id h => K.s id (hsub h)⟩
  obtain ⟨key, e1, e2, e3⟩ := k3 id (hsub h)
  exact ⟨key, e1, hb.trans e2, keyRel_mono hb e3⟩

theorem poolOK_mono {n n' : ℕ} (hn : n ≤ n') {U ids : Finset String} (hsub : ids ⊆ U) {pool : HoistedCt C} (h : PoolOK n' U pool) :
    PoolOK n ids pool := fun id hid => by
  obtain ⟨s, s1, s2⟩ := h id (hsub hid)
  exact ⟨s, s1, hn.trans s2⟩

/-! ## the setting -/

/-- common reference strings, key sets and default scale the evaluator is given; the parties `U`, their secrets, the bounds of secrets, key
errors and digits -/
structure Sys (C : Ctx N) where
  crs : GoMap ℤ (Swk C)
  rlk : RlkMap C
  rks : RotKeySet (GalKey C)
  cks : KeySet (GalKey C)
  pscale : ℚ
  U : Finset String
  s : String → Nega N ℤ
  r : String → Nega N ℤ
  a : ℕ → PolyQP C
  Sb : ℤ
  Rb : ℤ
  Be : ℤ
  D : ℤ

/-- the keys of the parties of `U` are right (C14, C15), the secrets are bounded by `Sb`, the gadget blocks by `D/2` -/
structure Sys.Ok (S : Sys C) : Prop where
  rlk : C29.Keys S.crs (C.nQ - 1) S.U S.rlk S.s S.r S.a S.Sb S.Rb S.Be
  rot : ∀ n < N / 2, C35.HasKeys S.crs (C.nQ - 1) S.U n S.rks S.s S.Sb S.Be
  sb : ∀ id, Bdd (S.s id) S.Sb
  block : ∀ l < C.nQ, ∀ k < C.beta l, 2 * (C.blockProd l k : ℤ) ≤ S.D
  pscale : 0 < S.pscale
  n16 : N % 16 = 0

/-- the conjugation keys of the parties of `U` are right (C15) -/
def Sys.Conj (S : Sys C) : Prop := C36.Keys S.crs (C.nQ - 1) S.U S.cks S.s S.Sb S.Be

/-- the mutable objects: the evaluator's scratch memory and the key set with its hoisting pools -/
structure St (C : Ctx N) where
  ev : Eval C
  rlk : RlkMap C

/-- the state as constructors allocate it, and as every operation leaves it: memory of the right sizes with arbitrary contents, and the
relinearization keys of the system -/
structure St.Ready (S : Sys C) (st : St C) : Prop where
  ev : st.ev.Ready
  keys : st.rlk.value = S.rlk.value
  pools : PoolsReady S.U st.rlk

/-- what is known of a ciphertext without its keys: level, scale, parties, and a bound of the slots of the value and of the error -/
structure Info where
  level : ℕ
  scale : ℚ
  ids : Finset String
  V : ℝ
  B : ℝ

/-- `ct` encrypts `v` as `i` says -/
structure Approx (S : Sys C) (ct : CCt C) (v : Nega N ℝ) (i : Info) : Prop where
  lt : i.level < C.nQ
  lvl : ct.ct.AtLevel i.level
  scale : ct.scale = i.scale
  pos : 0 < i.scale
  ids : ct.ct.ids = i.ids
  sub : i.ids ⊆ S.U
  bdd : SBdd v i.V
  enc : CkksEnc S.s ct.ct i.level i.scale v i.B

theorem CkksEnc.nonneg {s : String → Nega N ℤ} {ct : Ct C} {l : ℕ} {sc : ℝ} {v : Nega N ℝ} {B : ℝ} (h : CkksEnc s ct l sc v B) : 0 ≤ B := by
  obtain ⟨Φ, -, h⟩ := h
  exact le_trans (norm_nonneg _) (h 0)

variable {S : Sys C}

theorem top_lt (V : C.Valid) : C.nQ - 1 < C.nQ := by have := V.q1; omega

/-! ## addition and subtraction -/

/-- error of a sum of encryptions of values below `V0`, `V1` with errors `B0`, `B1`: the operand of smaller scale is multiplied by the integer
`factor`, which leaves the difference of the scales as a relative error of the value -/
noncomputable def addErr (fm : FloatModel) (a b : Info) : ℝ :=
  C23.factor fm a.scale b.scale * a.B + C23.factor fm b.scale a.scale * b.B +
    |(C23.factor fm a.scale b.scale : ℝ) * a.scale - (max a.scale b.scale : ℚ)| * a.V +
    |(C23.factor fm b.scale a.scale : ℝ) * b.scale - (max a.scale b.scale : ℚ)| * b.V

/-- the result of an addition or subtraction -/
noncomputable def Info.add (fm : FloatModel) (a b : Info) : Info :=
  ⟨min a.level b.level, max a.scale b.scale, a.ids ∪ b.ids, a.V + b.V, addErr fm a b⟩

/-- the ratio of the scales is below `2^52` -/
def AddOk (fm : FloatModel) (a b : Info) : Prop := ⌊fm.div b.scale a.scale⌋ < 2 ^ 52 ∧ ⌊fm.div a.scale b.scale⌋ < 2 ^ 52

theorem add_shape {E : Eval C} (hE : E.Ready) {c0 c1 : CCt C} {v0 v1 : Nega N ℝ} {a b : Info} (h0 : Approx S c0 v0 a) (h1 : Approx S c1 v1 b)
    (hr : AddOk C.fm a b) : C23.Shape E c0 c1 a.level b.level where
  lt0 := h0.lt
  lt1 := h1.lt
  h0 := h0.lvl
  h1 := h1.lvl
  pool := hE.pool
  r0 := by rw [h0.scale, h1.scale]; exact hr.1
  r1 := by rw [h0.scale, h1.scale]; exact hr.2

/-- the arithmetic of one operand of a sum -/
theorem scaled_err {k s m B V : ℝ} {φ v : ℂ} (hk : 0 ≤ k) (h : ‖φ - s * v‖ ≤ B) (hv : ‖v‖ ≤ V) : ‖k * φ - m * v‖ ≤ k * B + |k * s - m| * V := by
  have e : (k : ℂ) * φ - m * v = k * (φ - s * v) + ((k * s - m : ℝ) : ℂ) * v := by push_cast; ring
  rw [e]
  refine (norm_add_le _ _).trans (add_le_add ?_ ?_)
  · rw [norm_mul, Complex.norm_real, Real.norm_of_nonneg hk]; exact mul_le_mul_of_nonneg_left h hk
  · rw [norm_mul, Complex.norm_real]; exact mul_le_mul_of_nonneg_left hv (abs_nonneg _)

/-- a sum of the phases is a sum of the values -/
theorem add_result {c0 c1 out : CCt C} {v0 v1 : Nega N ℝ} {a b : Info} (h0 : Approx S c0 v0 a) (h1 : Approx S c1 v1 b)
    (hl : out.ct.AtLevel (min a.level b.level)) (hs : out.scale = max c0.scale c1.scale) (hi : out.ct.ids = c0.ct.ids ∪ c1.ct.ids)
    (hp : ∀ (s : String → Nega N ℤ) (i : ℕ), i ≤ min a.level b.level → out.ct.phase s i =
      (C23.factor C.fm c0.scale c1.scale : Nega N (ZMod (C.q i))) * c0.ct.phase s i + (C23.factor C.fm c1.scale c0.scale : Nega N (ZMod (C.q i))) * c1.ct.phase s i) :
    Approx S out (v0 + v1) (a.add C.fm b) := by
  refine ⟨lt_of_le_of_lt (min_le_left _ _) h0.lt, hl,
    by rw [hs, h0.scale, h1.scale]; rfl, lt_max_of_lt_left h0.pos, by rw [hi, h0.ids, h1.ids]; rfl, union_subset h0.sub h1.sub,
    h0.bdd.add h1.bdd, ?_⟩
  obtain ⟨F0, f1, f2⟩ := h0.enc
  obtain ⟨F1, g1, g2⟩ := h1.enc
  rw [h0.scale, h1.scale] at hp
  refine ⟨(C23.factor C.fm a.scale b.scale : Nega N ℤ) * F0 + (C23.factor C.fm b.scale a.scale : Nega N ℤ) * F1, fun i hi => ?_, fun x => ?_⟩
  · have hi' := le_min_iff.mp (show i ≤ min a.level b.level from hi)
    rw [hp S.s i hi, f1 i hi'.1, g1 i hi'.2, map_add, map_mul, map_mul, map_natCast, map_natCast]
  · have k0 := scaled_err (m := ((max a.scale b.scale : ℚ) : ℝ)) (Nat.cast_nonneg (C23.factor C.fm a.scale b.scale)) (f2 x) (h0.bdd x)
    have k1 := scaled_err (m := ((max a.scale b.scale : ℚ) : ℝ)) (Nat.cast_nonneg (C23.factor C.fm b.scale a.scale)) (g2 x) (h1.bdd x)
    rw [map_add, map_mul, map_mul, map_natCast, map_natCast, map_add (slot x), map_mul, map_mul, map_natCast, map_natCast, map_add (slot x)]
    show _ ≤ addErr C.fm a b
    unfold addErr
    have hs : (a.add C.fm b).scale = max a.scale b.scale := rfl
    rw [hs]
    push_cast at k0 k1 ⊢
    rw [show ∀ p q r u v : ℂ, p + q - r * (u + v) = (p - r * u) + (q - r * v) by intros; ring]
    refine (norm_add_le _ _).trans ((add_le_add k0 k1).trans (le_of_eq ?_))
    ring

/-- a difference of the phases is a difference of the values -/
theorem sub_result {c0 c1 out : CCt C} {v0 v1 : Nega N ℝ} {a b : Info} (h0 : Approx S c0 v0 a) (h1 : Approx S c1 v1 b)
    (hl : out.ct.AtLevel (min a.level b.level)) (hs : out.scale = max c0.scale c1.scale) (hi : out.ct.ids = c0.ct.ids ∪ c1.ct.ids)
    (hp : ∀ (s : String → Nega N ℤ) (i : ℕ), i ≤ min a.level b.level → out.ct.phase s i =
      (C23.factor C.fm c0.scale c1.scale : Nega N (ZMod (C.q i))) * c0.ct.phase s i - (C23.factor C.fm c1.scale c0.scale : Nega N (ZMod (C.q i))) * c1.ct.phase s i) :
    Approx S out (v0 - v1) (a.add C.fm b) := by
  refine ⟨lt_of_le_of_lt (min_le_left _ _) h0.lt, hl,
    by rw [hs, h0.scale, h1.scale]; rfl, lt_max_of_lt_left h0.pos, by rw [hi, h0.ids, h1.ids]; rfl, union_subset h0.sub h1.sub,
    h0.bdd.sub h1.bdd, ?_⟩
  obtain ⟨F0, f1, f2⟩ := h0.enc
  obtain ⟨F1, g1, g2⟩ := h1.enc
  rw [h0.scale, h1.scale] at hp
  refine ⟨(C23.factor C.fm a.scale b.scale : Nega N ℤ) * F0 - (C23.factor C.fm b.scale a.scale : Nega N ℤ) * F1, fun i hi => ?_, fun x => ?_⟩
  · have hi' := le_min_iff.mp (show i ≤ min a.level b.level from hi)
    rw [hp S.s i hi, f1 i hi'.1, g1 i hi'.2, map_sub, map_mul, map_mul, map_natCast, map_natCast]
  · have k0 := scaled_err (m := ((max a.scale b.scale : ℚ) : ℝ)) (Nat.cast_nonneg (C23.factor C.fm a.scale b.scale)) (f2 x) (h0.bdd x)
    have k1 := scaled_err (m := ((max a.scale b.scale : ℚ) : ℝ)) (Nat.cast_nonneg (C23.factor C.fm b.scale a.scale)) (g2 x) (h1.bdd x)
    rw [map_sub, map_mul, map_mul, map_natCast, map_natCast, map_sub (slot x), map_mul, map_mul, map_natCast, map_natCast, map_sub (slot x)]
    show _ ≤ addErr C.fm a b
    unfold addErr
    have hs : (a.add C.fm b).scale = max a.scale b.scale := rfl
    rw [hs]
    push_cast at k0 k1 ⊢
    rw [show ∀ p q r u v : ℂ, p - q - r * (u - v) = (p - r * u) - (q - r * v) by intros; ring]
    refine (norm_sub_le _ _).trans ((add_le_add k0 k1).trans (le_of_eq ?_))
    ring

/-- **C59, addition.** -/
theorem add (hS : S.Ok) (mredPsi : ℕ → ℕ → ℕ) (o : Sched String) {st : St C} (hst : st.Ready S) {c0 c1 : CCt C} {v0 v1 : Nega N ℝ} {a b : Info}
    (h0 : Approx S c0 v0 a) (h1 : Approx S c1 v1 b) (hr : AddOk C.fm a b) :
    ∃ out E', ckksAddNew mredPsi o st.ev c0 c1 = .ok (out, E') ∧ St.Ready S ⟨E', st.rlk⟩ ∧ Approx S out (v0 + v1) (a.add C.fm b) := by
  obtain ⟨out, E', e1, e2, e3, e4, e5, e6⟩ := C23.addNew_phase hS.n16 mredPsi o (add_shape hst.ev h0 h1 hr)
  exact ⟨out, E', e1, ⟨ckksAddNew_ready hst.ev e2 e1, hst.keys, hst.pools⟩, add_result h0 h1 e3 e4 e5 e6⟩

/-- **C59, subtraction.** -/
theorem sub (hS : S.Ok) (mredPsi : ℕ → ℕ → ℕ) (o : Sched String) {st : St C} (hst : st.Ready S) {c0 c1 : CCt C} {v0 v1 : Nega N ℝ} {a b : Info}
    (h0 : Approx S c0 v0 a) (h1 : Approx S c1 v1 b) (hr : AddOk C.fm a b) :
    ∃ out E', ckksSubNew mredPsi o st.ev c0 c1 = .ok (out, E') ∧ St.Ready S ⟨E', st.rlk⟩ ∧ Approx S out (v0 - v1) (a.add C.fm b) := by
  obtain ⟨out, E', e1, e2, e3, e4, e5, e6⟩ := C23.subNew_phase hS.n16 mredPsi o (add_shape hst.ev h0 h1 hr)
  exact ⟨out, E', e1, ⟨ckksSubNew_ready hst.ev e2 e1, hst.keys, hst.pools⟩, sub_result h0 h1 e3 e4 e5 e6⟩

/-! ## rotation and conjugation -/

theorem slot_err {E : Nega N ℤ} {P : ℕ} (hP : 0 < P) {b : ℤ} (hE : ∀ x, P * |E x| ≤ b) (j : ℤ) : ‖slot j (toReal E)‖ ≤ N * ((b : ℝ) / P) := by
  refine slot_norm j fun x => ?_
  have hP' : (0 : ℝ) < P := by exact_mod_cast hP
  rw [toReal_apply, le_div_iff₀ hP', mul_comm]
  exact_mod_cast hE x

/-- an automorphism of the phase up to a bounded error is one of the value -/
theorem galois_enc (V : C.Valid) {g : ℕ} (f : ℂ →+* ℂ) (σ : ℤ → ℤ) (hf : ∀ z, ‖f z‖ = ‖z‖) (hr : ∀ x : ℝ, f x = x)
    (hσ : ∀ j (v : Nega N ℝ), slot j (galois g v) = f (slot (σ j) v))
    {s : String → Nega N ℤ} {ct out : Ct C} {l : ℕ} {sc : ℝ} {v : Nega N ℝ} {B : ℝ} {b : ℤ}
    (h : CkksEnc s ct l sc v B) {E : Nega N ℤ} (hE : ∀ x, C.P * |E x| ≤ b)
    (hp : ∀ i ≤ l, out.phase s i = galois g (ct.phase s i) + red (C.q i) E) : CkksEnc s out l sc (galois g v) (B + N * (b / C.P)) := by
  obtain ⟨Φ, f1, f2⟩ := h
  refine ⟨galois g Φ + E, fun i hi => ?_, fun j => ?_⟩
  · rw [hp i hi, f1 i hi, galois_red, map_add]
  · rw [map_add, map_add, toReal_galois, hσ, hσ, show ∀ p q r : ℂ, p + q - r = (p - r) + q by intros; ring]
    refine (norm_add_le _ _).trans (add_le_add ?_ (slot_err V.P_pos hE j))
    have e : f (slot (σ j) (toReal Φ)) - sc * f (slot (σ j) v) = f (slot (σ j) (toReal Φ) - sc * slot (σ j) v) := by rw [map_sub, map_mul, hr]
    rw [e, hf]
    exact f2 _

theorem rot_enc (V : C.Valid) (r : ℤ) {s : String → Nega N ℤ} {ct out : Ct C} {l : ℕ} {sc : ℝ} {v : Nega N ℝ} {B : ℝ} {b : ℤ}
    (h : CkksEnc s ct l sc v B) {E : Nega N ℤ} (hE : ∀ x, C.P * |E x| ≤ b)
    (hp : ∀ i ≤ l, out.phase s i = galois (5 ^ C35.amount N r) (ct.phase s i) + red (C.q i) E) :
    CkksEnc s out l sc (galois (5 ^ C35.amount N r) v) (B + N * (b / C.P)) :=
  galois_enc V (RingHom.id ℂ) (fun j => j + r) (fun _ => rfl) (fun _ => rfl) (fun j v => slot_rotate V.hN V.log1 j r v) h hE hp

theorem conj_enc (V : C.Valid) {s : String → Nega N ℤ} {ct out : Ct C} {l : ℕ} {sc : ℝ} {v : Nega N ℝ} {B : ℝ} {b : ℤ}
    (h : CkksEnc s ct l sc v B) {E : Nega N ℤ} (hE : ∀ x, C.P * |E x| ≤ b)
    (hp : ∀ i ≤ l, out.phase s i = galois (2 * N - 1) (ct.phase s i) + red (C.q i) E) :
    CkksEnc s out l sc (galois (2 * N - 1) v) (B + N * (b / C.P)) :=
  galois_enc V (starRingEnd ℂ) id (fun _ => RCLike.norm_conj _) (fun _ => Complex.conj_ofReal _) (fun j v => slot_conj j v) h hE hp

/-- error of a rotation by `r` -/
noncomputable def rotErr (S : Sys C) (r : ℤ) (a : Info) : ℝ :=
  N * (((C35.rotCount S.crs (C35.amount N r) * C33.rotNoise N C.P a.ids.card (C.beta a.level) S.D S.Sb S.Be : ℤ) : ℝ) / C.P)

/-- the result of a rotation by `r` -/
noncomputable def Info.rot (S : Sys C) (r : ℤ) (a : Info) : Info := { a with B := a.B + rotErr S r a }

theorem rot_result (V : C.Valid) {ct out : CCt C} {v : Nega N ℝ} {a : Info} (h : Approx S ct v a) (r : ℤ) (hs : out.scale = ct.scale)
    (hr : C35.Result S.crs a.level S.s S.Sb S.Be S.D (C35.amount N r) ct.ct out.ct) :
    Approx S out (galois (5 ^ C35.amount N r) v) (a.rot S r) := by
  obtain ⟨e2, e3, E, e4, e5⟩ := hr
  refine ⟨h.lt, e2, hs.trans h.scale, h.pos, e3.trans h.ids, h.sub, h.bdd.rotate V.hN V.log1 r, ?_⟩
  rw [h.ids] at e4
  exact rot_enc V r h.enc e4 e5

/-- **C59, rotation.** For every integer amount. -/
theorem rot (V : C.Valid) (hS : S.Ok) (o : ℕ → Sched String) {st : St C} (hst : st.Ready S) {ct : CCt C} {v : Nega N ℝ} {a : Info}
    (h : Approx S ct v a) (r : ℤ) :
    ∃ out E', ckksRotateNew S.crs o st.ev ct r S.rks = .ok (out, E') ∧ St.Ready S ⟨E', st.rlk⟩ ∧
      Approx S out (galois (5 ^ C35.amount N r) v) (a.rot S r) := by
  have hl : a.level ≤ C.nQ - 1 := by have := h.lt; omega
  obtain ⟨out, E', e1, e2, e3⟩ := C35.ckksRotateNew_phase V o st.ev ct r h.lt h.lvl
    (hasKeys_mono V (top_lt V) hl (by rw [h.ids]; exact h.sub) (hS.rot _ (C35.rotNorm_amount V r).2)) S.D (hS.block _ h.lt)
  exact ⟨out, E', e1, ⟨ckksRotateNew_ready hst.ev e1, hst.keys, hst.pools⟩, rot_result V h r e2 e3⟩

/-- **C59, hoisted rotation**, by an amount the CRS has -/
theorem rotHoisted (V : C.Valid) (hS : S.Ok) (o : ℕ → Sched String) {st : St C} (hst : st.Ready S) {ct : CCt C} {v : Nega N ℝ} {a : Info}
    (h : Approx S ct v a) (r : ℤ) (hc : C35.amount N r ≠ 0 → (S.crs.lookup (C35.amount N r : ℤ)).isSome) {m : HoistedCt C}
    (hm : IsHoisted a.level ct.ct m) :
    ∃ out E', ckksRotateHoistedNew S.crs o st.ev ct r m S.rks = .ok (out, E') ∧ St.Ready S ⟨E', st.rlk⟩ ∧
      Approx S out (galois (5 ^ C35.amount N r) v) (a.rot S r) := by
  have hl : a.level ≤ C.nQ - 1 := by have := h.lt; omega
  obtain ⟨out, E', e1, e2, e3⟩ := C35.ckksRotateHoistedNew_phase V o st.ev ct r h.lt h.lvl
    (hasKeys_mono V (top_lt V) hl (by rw [h.ids]; exact h.sub) (hS.rot _ (C35.rotNorm_amount V r).2)) hc m a.level le_rfl h.lt hm S.D
    (fun l hl' => by
      simp only [List.mem_cons, List.not_mem_nil, or_false, or_self] at hl'
      subst hl'; exact hS.block _ h.lt)
  exact ⟨out, E', e1, ⟨ckksRotateHoistedNew_ready hst.ev e1, hst.keys, hst.pools⟩, rot_result V h r e2 e3⟩

/-- error of a conjugation -/
noncomputable def conjErr (S : Sys C) (a : Info) : ℝ := N * (((C33.rotNoise N C.P a.ids.card (C.beta a.level) S.D S.Sb S.Be : ℤ) : ℝ) / C.P)

/-- the result of a conjugation -/
noncomputable def Info.conj (S : Sys C) (a : Info) : Info := { a with B := a.B + conjErr S a }

/-- **C59, conjugation**, where the permutation covers the level of the ciphertext only (see C36) -/
theorem conj (V : C.Valid) (hS : S.Ok) (hc : S.Conj) (o : Sched String) {st : St C} (hst : st.Ready S) {ct : CCt C} {v : Nega N ℝ} {a : Info}
    (h : Approx S ct v a) :
    ∃ out E', ckksConjugateNew a.level S.crs o st.ev ct S.cks = .ok (out, E') ∧ St.Ready S ⟨E', st.rlk⟩ ∧
      Approx S out (galois (2 * N - 1) v) (a.conj S) := by
  have hl : a.level ≤ C.nQ - 1 := by have := h.lt; omega
  obtain ⟨out, E', e1, e2, e3, e4, E, e5, e6⟩ := C24.conjugateNew_phase V o st.ev ct h.lt h.lvl
    (conjKeys_mono V (top_lt V) hl (by rw [h.ids]; exact h.sub) hc) S.D (hS.block _ h.lt)
  refine ⟨out, E', e1, ⟨ckksConjugateNew_ready hst.ev e1, hst.keys, hst.pools⟩, h.lt, e3, e2.trans h.scale, h.pos, e4.trans h.ids, h.sub,
    h.bdd.conj, ?_⟩
  rw [h.ids] at e5
  exact conj_enc V h.enc e5 e6

/-! ## multiplication -/

theorem dropped_pos (V : C.Valid) {l n : ℕ} (hl : l < C.nQ) : 0 < C27.dropped C.q l n :=
  Finset.prod_pos fun j _ => (V.pair.primeQ (l - j) (by omega)).pos

/-- an integer polynomial that vanishes modulo the primes divided out is a multiple of their product -/
theorem exists_dropped (V : C.Valid) {l n : ℕ} (hl : l < C.nQ) (hn : n ≤ l + 1) (W : Nega N ℤ)
    (h : ∀ i, l < i + n → i ≤ l → red (C.q i) W = 0) : ∃ Z : Nega N ℤ, W = (C27.dropped C.q l n : Nega N ℤ) * Z := by
  have key : ∀ x, ((C27.dropped C.q l n : ℕ) : ℤ) ∣ W x := by
    intro x
    unfold C27.dropped
    push_cast
    apply Finset.prod_dvd_of_coprime
    · intro a ha b hb hab
      have ha' := mem_range.mp (Finset.mem_coe.mp ha)
      have hb' := mem_range.mp (Finset.mem_coe.mp hb)
      refine Nat.isCoprime_iff_coprime.mpr ((Nat.coprime_primes (V.pair.primeQ _ (by omega)) (V.pair.primeQ _ (by omega))).mpr fun e => hab ?_)
      have := V.pair.distinctQ _ (by omega) _ (by omega) e
      omega
    · intro j hj
      have hj' := mem_range.mp hj
      exact (red_eq_zero_iff _ _).mp (h (l - j) (by omega) (by omega)) x
  obtain ⟨Z, hZ⟩ : ∃ Z : Nega N ℤ, ∀ x, W x = C27.dropped C.q l n * Z x := by choose Z hZ using key; exact ⟨Z, hZ⟩
  exact ⟨Z, Nega.ext fun x => (hZ x).trans (natCast_mul_apply _ Z x).symm⟩

theorem dropped_cancel (V : C.Valid) {l n i : ℕ} (hl : l < C.nQ) (hi : i + n ≤ l) {a b : Nega N (ZMod (C.q i))}
    (h : (C27.dropped C.q l n : Nega N (ZMod (C.q i))) * a = (C27.dropped C.q l n : Nega N (ZMod (C.q i))) * b) : a = b := by
  have hco : Nat.Coprime (C.q i) (C27.dropped C.q l n) := by
    apply Nat.Coprime.prod_right
    intro j hj
    have hj' := mem_range.mp hj
    refine (Nat.coprime_primes (V.pair.primeQ _ (by omega)) (V.pair.primeQ _ (by omega))).mpr fun e => ?_
    have := V.pair.distinctQ _ (by omega) _ (by omega) e
    omega
  have hu := ZMod.coe_mul_inv_eq_one (C27.dropped C.q l n) hco.symm
  have key : (CHom (((C27.dropped C.q l n : ℕ) : ZMod (C.q i))⁻¹) : Nega N (ZMod (C.q i))) * (C27.dropped C.q l n : Nega N (ZMod (C.q i))) = 1 := by
    rw [← map_natCast (Nega.CHom (N := N) (K := ZMod (C.q i))), ← map_mul, mul_comm, hu, map_one]
  have := congrArg ((CHom (((C27.dropped C.q l n : ℕ) : ZMod (C.q i))⁻¹) : Nega N (ZMod (C.q i))) * ·) h
  simp only [← mul_assoc, key, one_mul] at this
  exact this

/-- error of a product divided by `D`, up to an error with coefficients below `Eb`, and taken to have scale `s` -/
noncomputable def prodErr (N : ℕ) (D : ℕ) (Eb : ℝ) (s0 V0 B0 s1 V1 B1 s : ℝ) : ℝ :=
  (B0 * B1 + B0 * (s1 * V1) + s0 * V0 * B1 + N * Eb) / D + |s0 * s1 / D - s| * (V0 * V1)

/-- the arithmetic of a product with division by the dropped primes -/
theorem prod_enc (V : C.Valid) {l n : ℕ} (hl : l < C.nQ) (hn : n ≤ l) {s : String → Nega N ℤ} {out : Ct C} {F0 F1 Er : Nega N ℤ} {s0 s1 sc : ℝ}
    {v0 v1 : Nega N ℝ} {B0 B1 V0 V1 Eb : ℝ} (p0 : 0 ≤ s0) (p1 : 0 ≤ s1) (f0 : ∀ j : ℤ, ‖slot j (toReal F0) - s0 * slot j v0‖ ≤ B0)
    (f1 : ∀ j : ℤ, ‖slot j (toReal F1) - s1 * slot j v1‖ ≤ B1) (hv0 : SBdd v0 V0) (hv1 : SBdd v1 V1) (hE : ∀ x, |(Er x : ℝ)| ≤ Eb)
    (h1 : ∀ i ≤ l - n, red (C.q i) (F0 * F1) = (C27.dropped C.q l n : Nega N (ZMod (C.q i))) * out.phase s i + red (C.q i) Er)
    (h2 : ∀ i, l - n < i → i ≤ l → red (C.q i) (F0 * F1) = red (C.q i) Er) :
    CkksEnc s out (l - n) sc (v0 * v1) (prodErr N (C27.dropped C.q l n) Eb s0 V0 B0 s1 V1 B1 sc) := by
  have hD : (0 : ℝ) < C27.dropped C.q l n := by exact_mod_cast dropped_pos V hl
  obtain ⟨Z, hZ⟩ := exists_dropped V (n := n) hl (by omega) (F0 * F1 - Er) fun i hi hi' => by
    rw [map_sub, h2 i (by omega) hi', sub_self]
  refine ⟨Z, fun i hi => ?_, fun j => ?_⟩
  · refine dropped_cancel V hl (n := n) (by omega) ?_
    have := congrArg (red (C.q i)) hZ
    rw [map_sub, h1 i hi, map_mul, map_natCast] at this
    rw [← this]; ring
  · have hx : slot j (toReal F0) * slot j (toReal F1) - slot j (toReal Er) = (C27.dropped C.q l n : ℂ) * slot j (toReal Z) := by
      have := congrArg (fun W => slot j (toReal W)) hZ
      simpa only [map_sub, map_mul, map_natCast] using this
    have hEj : ‖slot j (toReal Er)‖ ≤ N * Eb := slot_norm j fun x => by rw [toReal_apply]; exact hE x
    have d0 := f0 j
    have d1 := f1 j
    have w0 := hv0 j
    have w1 := hv1 j
    rw [map_mul]
    generalize slot j (toReal F0) = x0 at *
    generalize slot j (toReal F1) = x1 at *
    generalize slot j (toReal Er) = e at *
    generalize slot j (toReal Z) = z at *
    generalize slot j v0 = y0 at *
    generalize slot j v1 = y1 at *
    have hV0 : 0 ≤ V0 := le_trans (norm_nonneg _) w0
    have hB0 : 0 ≤ B0 := le_trans (norm_nonneg _) d0
    unfold prodErr
    set D : ℝ := (C27.dropped C.q l n : ℝ) with hDdef
    have hDC : (D : ℂ) ≠ 0 := by exact_mod_cast hD.ne'
    have hx' : x0 * x1 - e = (D : ℂ) * z := by rw [hx, hDdef]; push_cast; rfl
    have hz : z = (x0 * x1 - e) / D := by rw [hx', mul_div_cancel_left₀ _ hDC]
    have e1 : z - sc * (y0 * y1) = ((x0 - s0 * y0) * (x1 - s1 * y1) + (x0 - s0 * y0) * (s1 * y1) + s0 * y0 * (x1 - s1 * y1) - e) / D +
        ((s0 * s1 / D - sc : ℝ) : ℂ) * (y0 * y1) := by
      rw [hz]; push_cast; field_simp; ring
    have n0 : ‖(s0 : ℂ) * y0‖ ≤ s0 * V0 := by
      rw [norm_mul, Complex.norm_real, Real.norm_of_nonneg p0]; exact mul_le_mul_of_nonneg_left w0 p0
    have n1 : ‖(s1 : ℂ) * y1‖ ≤ s1 * V1 := by
      rw [norm_mul, Complex.norm_real, Real.norm_of_nonneg p1]; exact mul_le_mul_of_nonneg_left w1 p1
    rw [e1]
    refine (norm_add_le _ _).trans (add_le_add ?_ ?_)
    · rw [norm_div, Complex.norm_real, Real.norm_of_nonneg hD.le]
      refine div_le_div_of_nonneg_right ((norm_sub_le _ _).trans (add_le_add ((norm_add_le _ _).trans (add_le_add ((norm_add_le _ _).trans
        (add_le_add ?_ ?_)) ?_)) hEj)) hD.le
      · rw [norm_mul]; exact mul_le_mul d0 d1 (norm_nonneg _) hB0
      · rw [norm_mul]; exact mul_le_mul d0 n1 (norm_nonneg _) hB0
      · rw [norm_mul]; exact mul_le_mul n0 d1 (norm_nonneg _) (mul_nonneg p0 hV0)
    · rw [norm_mul, Complex.norm_real, norm_mul]
      exact mul_le_mul_of_nonneg_left (mul_le_mul w0 w1 (norm_nonneg _) hV0) (abs_nonneg _)

/-- the number of primes a product of scale `sc` at level `l` is divided by (if there is one, see `MulOk`) -/
noncomputable def drops (S : Sys C) (l : ℕ) (sc : ℚ) : ℕ :=
  open Classical in if h : ∃ n, Drops C.fm C.q l sc S.pscale n then h.choose else 0

/-- `MulRelinNew` does not run through the whole modulus chain -/
def MulOk (S : Sys C) (l : ℕ) (sc : ℚ) : Prop := ∃ n, Drops C.fm C.q l sc S.pscale n

theorem MulOk.spec {l : ℕ} {sc : ℚ} (h : MulOk S l sc) : Drops C.fm C.q l sc S.pscale (drops S l sc) := by
  have h' : ∃ n, Drops C.fm C.q l sc S.pscale n := h
  unfold drops; rw [dif_pos h']; exact h'.choose_spec

theorem drops_le {l n : ℕ} {sc ms : ℚ} (h : Drops C.fm C.q l sc ms n) : n ≤ l := by
  rcases h with ⟨h1, h2⟩ | ⟨h1, h2⟩
  · omega
  · exact h2.le

theorem rnd_pos (fm : FloatModel) {x : ℚ} (h : 0 < x) : 0 < fm.rnd x := by
  have := fm.le_rnd h.le
  have h2 : (0 : ℚ) < 1 - unitRoundoff := by unfold unitRoundoff; norm_num
  exact lt_of_lt_of_le (mul_pos h h2) this

theorem scaleAfter_pos (V : C.Valid) {l : ℕ} (hl : l < C.nQ) {sc : ℚ} (h : 0 < sc) : ∀ n, 0 < C27.scaleAfter C.fm C.q l sc n
  | 0 => h
  | n + 1 => rnd_pos _ (div_pos (scaleAfter_pos V hl h n) (rnd_pos _ (by exact_mod_cast (V.pair.primeQ (l - n) (by omega)).pos)))

/-- bound of the error of the product before division: noise of relinearization, and half a unit per dropped prime and party -/
noncomputable def mulEb (S : Sys C) (l : ℕ) (n : ℕ) (ids0 ids1 : Finset String) : ℝ :=
  ((2 * mulNoise N C.P ids0.card ids1.card (C.beta l) S.D S.Sb S.Rb S.Be +
    C.P * ((C27.dropped C.q l n - 1) * (1 + (ids0 ∪ ids1).card * N * S.Sb)) : ℤ) : ℝ) / (2 * C.P)

/-- the result of a product with relinearization and rescaling -/
noncomputable def Info.mul (S : Sys C) (a b : Info) : Info :=
  let l := min a.level b.level
  let sc := C.fm.mul a.scale b.scale
  let n := drops S l sc
  ⟨l - n, C27.scaleAfter C.fm C.q l sc n, a.ids ∪ b.ids, a.V * b.V,
    prodErr N (C27.dropped C.q l n) (mulEb S l n a.ids b.ids) a.scale a.V a.B b.scale b.V b.B (C27.scaleAfter C.fm C.q l sc n)⟩

/-- what follows from the phases (C29) -/
theorem mul_result (V : C.Valid) {c0 c1 out : CCt C} {v0 v1 : Nega N ℝ} {a b : Info} (h0 : Approx S c0 v0 a) (h1 : Approx S c1 v1 b)
    {n : ℕ} (hn : n = drops S (min a.level b.level) (C.fm.mul a.scale b.scale)) (hle : n ≤ min a.level b.level)
    (e2 : out.ct.AtLevel (min a.level b.level - n)) (e3 : out.ct.ids = c0.ct.ids ∪ c1.ct.ids)
    (e4 : out.scale = C27.scaleAfter C.fm C.q (min a.level b.level) (C.fm.mul c0.scale c1.scale) n) {Er : Nega N ℤ}
    (e5 : ∀ x, 2 * (C.P * |Er x|) ≤ 2 * mulNoise N C.P c0.ct.ids.card c1.ct.ids.card (C.beta (min a.level b.level)) S.D S.Sb S.Rb S.Be +
          C.P * ((C27.dropped C.q (min a.level b.level) n - 1) * (1 + (c0.ct.ids ∪ c1.ct.ids).card * N * S.Sb)))
    (e6 : ∀ i ≤ min a.level b.level - n, c0.ct.phase S.s i * c1.ct.phase S.s i =
          (C27.dropped C.q (min a.level b.level) n : Nega N (ZMod (C.q i))) * out.ct.phase S.s i + red (C.q i) Er)
    (e7 : ∀ i, min a.level b.level - n < i → i ≤ min a.level b.level → c0.ct.phase S.s i * c1.ct.phase S.s i = red (C.q i) Er) :
    Approx S out (v0 * v1) (a.mul S b) := by
  have hlev : min a.level b.level < C.nQ := lt_of_le_of_lt (min_le_left _ _) h0.lt
  have hpos : 0 < C.fm.mul a.scale b.scale := rnd_pos _ (mul_pos h0.pos h1.pos)
  rw [h0.scale, h1.scale] at e4
  rw [h0.ids, h1.ids] at e3 e5
  subst hn
  refine ⟨lt_of_le_of_lt (Nat.sub_le _ _) hlev, e2, e4, scaleAfter_pos V hlev hpos _, e3, union_subset h0.sub h1.sub, h0.bdd.mul h1.bdd, ?_⟩
  obtain ⟨F0, f1, f2⟩ := h0.enc
  obtain ⟨F1, g1, g2⟩ := h1.enc
  have hP : (0 : ℝ) < C.P := by exact_mod_cast V.P_pos
  refine prod_enc (Er := Er) V hlev hle (by exact_mod_cast h0.pos.le) (by exact_mod_cast h1.pos.le) f2 g2 h0.bdd h1.bdd (fun x => ?_)
    (fun i hi => ?_) (fun i hi hi' => ?_)
  · unfold mulEb
    rw [le_div_iff₀ (by positivity)]
    have := e5 x
    have h' : ((2 * (C.P * |Er x|) : ℤ) : ℝ) ≤ _ := Int.cast_le.mpr this
    refine le_trans (le_of_eq ?_) h'
    push_cast; ring
  · have hi' := le_min_iff.mp (show i ≤ min a.level b.level by omega)
    rw [← e6 i hi, f1 i hi'.1, g1 i hi'.2, map_mul]
  · have hi'' := le_min_iff.mp hi'
    rw [← e7 i hi hi', f1 i hi''.1, g1 i hi''.2, map_mul]

/-- the operands of a product have their keys and pools -/
theorem newHyp (V : C.Valid) (hS : S.Ok) {rlk : RlkMap C} (hv : rlk.value = S.rlk.value) (hp : PoolsReady S.U rlk) {c0 c1 : CCt C} {v0 v1 : Nega N ℝ}
    {a b : Info} (h0 : Approx S c0 v0 a) (h1 : Approx S c1 v1 b) :
    C29.NewHyp S.crs a.level b.level c0.ct c1.ct rlk S.s S.r S.a S.Sb S.Rb S.Be where
  lvl0 := h0.lt
  lvl1 := h1.lt
  in0 := h0.lvl
  in1 := h1.lvl
  keys := mulKeys_mono V (top_lt V) (by have := h0.lt; have := min_le_left a.level b.level; omega)
    (by rw [h0.ids, h1.ids]; exact union_subset h0.sub h1.sub) hv hS.rlk
  pool0 := poolOK_mono (V.beta_mono (top_lt V) (by have := h0.lt; omega)) (by rw [h0.ids]; exact h0.sub) hp.1
  pool1 := poolOK_mono (V.beta_mono (top_lt V) (by have := h1.lt; omega)) (by rw [h1.ids]; exact h1.sub) hp.2

theorem blocks2 (hS : S.Ok) {a b : Info} (ha : a.level < C.nQ) (hb : b.level < C.nQ) :
    ∀ l ∈ [a.level, b.level], ∀ k < C.beta l, 2 * (C.blockProd l k : ℤ) ≤ S.D := by
  intro l hl
  simp only [List.mem_cons, List.not_mem_nil, or_false] at hl
  rcases hl with rfl | rfl
  · exact hS.block _ ha
  · exact hS.block _ hb

/-- **C59, multiplication.** `MulRelinNew`; with `same` set the operands are one object. -/
theorem mul (V : C.Valid) (hS : S.Ok) (o : Sched String) {st : St C} (hst : st.Ready S) {same : Bool} {c0 c1 : CCt C} {v0 v1 : Nega N ℝ} {a b : Info}
    (hsame : same = true → c1 = c0 ∧ b.level = a.level) (h0 : Approx S c0 v0 a) (h1 : Approx S c1 v1 b)
    (hm : MulOk S (min a.level b.level) (C.fm.mul a.scale b.scale)) :
    ∃ out E' rlk', ckksMulRelinNew S.pscale S.crs o st.ev same c0 c1 st.rlk = .ok (out, E', rlk') ∧ St.Ready S ⟨E', rlk'⟩ ∧
      Approx S out (v0 * v1) (a.mul S b) := by
  have hlev : min a.level b.level < C.nQ := lt_of_le_of_lt (min_le_left _ _) h0.lt
  have hpos : 0 < C.fm.mul a.scale b.scale := rnd_pos _ (mul_pos h0.pos h1.pos)
  have hd := hm.spec
  obtain ⟨out, E', rlk', e1, e2, e3, e4, Er, e5, e6, e7⟩ := C29.mulRelinNew_phase V S.pscale o st.ev (hst.ev.alloc V hlev) hsame
    (newHyp V hS hst.keys hst.pools h0 h1) hS.sb S.D (blocks2 hS h0.lt h1.lt) hS.pscale (by rw [h0.scale, h1.scale]; exact hpos.ne')
    (by rw [h0.scale, h1.scale]; exact hd)
  obtain ⟨r1, r2, r3⟩ := ckksMulRelinNew_ready hst.ev e1
  exact ⟨out, E', rlk', e1, ⟨r1, r2.trans hst.keys, r3 _ hst.pools⟩, mul_result V h0 h1 rfl (drops_le hd) e2 e3 e4 e5 e6 e7⟩

/-- **C59, hoisted multiplication**, `MulRelinHoistedNew` with hoisted forms of both operands -/
theorem mulHoisted (V : C.Valid) (hS : S.Ok) (o : Sched String) {st : St C} (hst : st.Ready S) {c0 c1 : CCt C} {v0 v1 : Nega N ℝ} {a b : Info}
    (h0 : Approx S c0 v0 a) (h1 : Approx S c1 v1 b) {m0 m1 : HoistedCt C} (k0 : IsHoisted a.level c0.ct m0) (k1 : IsHoisted b.level c1.ct m1)
    (hm : MulOk S (min a.level b.level) (C.fm.mul a.scale b.scale)) :
    ∃ out E', ckksMulRelinHoistedNew S.pscale S.crs o st.ev c0 c1 (some m0) (some m1) st.rlk = .ok (out, E') ∧ St.Ready S ⟨E', st.rlk⟩ ∧
      Approx S out (v0 * v1) (a.mul S b) := by
  have hlev : min a.level b.level < C.nQ := lt_of_le_of_lt (min_le_left _ _) h0.lt
  have hpos : 0 < C.fm.mul a.scale b.scale := rnd_pos _ (mul_pos h0.pos h1.pos)
  have hd := hm.spec
  have H := newHyp V hS hst.keys hst.pools h0 h1
  obtain ⟨p, S', a1, a3⟩ := ckksMulRelinHoistedNew_run V S.pscale o st.ev (hst.ev.alloc V hlev) H.prod k0 k1
  obtain ⟨E1, b1, b2⟩ := C29.made_phase V H a1 S.D (blocks2 hS h0.lt h1.lt)
  have hz := ct_zero_notMem_union c0.ct c1.ct
  obtain ⟨e, out, c1', c2, c3, c4, c5⟩ := rescale_inplace_phase V (o 91) (ct := ⟨p, C.fm.mul c0.scale c1.scale⟩) hlev a1.atLevel hS.pscale
    (by rw [h0.scale, h1.scale]; exact hpos.ne') (by rw [h0.scale, h1.scale]; exact hd)
  rw [c1'] at a3
  obtain ⟨E2, d1, d2, d3⟩ := c5 S.s S.Sb hS.sb
  rw [show (⟨p, C.fm.mul c0.scale c1.scale⟩ : CCt C).ct.ids = _ from a1.ids hz] at c3 d1
  refine ⟨out, _, a3, ⟨ckksMulRelinHoistedNew_ready hst.ev a3, hst.keys, hst.pools⟩,
    mul_result V h0 h1 rfl (drops_le hd) c2 c3 c4 (Er := E2 - E1) (fun x => ?_) (fun i hi => ?_) (fun i g1 g2 => ?_)⟩
  · rw [Nega.sub_apply]
    have g1 : |E2 x - E1 x| ≤ |E2 x| + |E1 x| := abs_sub _ _
    have g2 := b1 x
    have g3 := d1 x
    have hP : (0 : ℤ) ≤ C.P := by positivity
    nlinarith [mul_le_mul_of_nonneg_left g1 hP, mul_le_mul_of_nonneg_left g3 hP]
  · have g1 := b2 i (by omega)
    have g2 := d2 i hi
    dsimp only at g2
    rw [map_sub, ← sub_eq_iff_eq_add.mpr g1, g2]
    ring
  · rw [map_sub, ← sub_eq_iff_eq_add.mpr (b2 i g2), ← d3 i g1 g2]

/-! ## multiplication by a plaintext, levels -/

/-- the result of `MulPtxtNew` by a plaintext of scale `sc` encoding values below `Vp` with error `Bp` -/
noncomputable def Info.mulPt (S : Sys C) (a : Info) (sc : ℚ) (Vp Bp : ℝ) : Info :=
  let s := C.fm.mul a.scale sc
  let n := drops S a.level s
  ⟨a.level - n, C27.scaleAfter C.fm C.q a.level s n, a.ids, Vp * a.V,
    prodErr N (C27.dropped C.q a.level n) ((((C27.dropped C.q a.level n - 1) * (1 + a.ids.card * N * S.Sb) : ℤ) : ℝ) / 2)
      sc Vp Bp a.scale a.V a.B (C27.scaleAfter C.fm C.q a.level s n)⟩

/-- **C59, multiplication by a plaintext.** -/
theorem mulPt (V : C.Valid) (hS : S.Ok) (o : Sched String) {st : St C} (hst : st.Ready S) {ct : CCt C} {v w : Nega N ℝ} {a : Info} (h : Approx S ct v a)
    {pt : Poly C} {sc : ℚ} (hsc : 0 < sc) {Vp Bp : ℝ} (hw : SBdd w Vp) (hpt : CkksPt pt a.level sc w Bp)
    (hm : MulOk S a.level (C.fm.mul a.scale sc)) :
    ∃ out E', mulPtxtNew S.pscale o st.ev ct pt sc = .ok (out, E') ∧ St.Ready S ⟨E', st.rlk⟩ ∧ Approx S out (w * v) (a.mulPt S sc Vp Bp) := by
  have hpos : 0 < C.fm.mul a.scale sc := rnd_pos _ (mul_pos h.pos hsc)
  have hd := hm.spec
  obtain ⟨hlen, Fp, g1, g2⟩ := hpt
  obtain ⟨p, E', e1, e2, e3, e4, e5⟩ := C50.mulPtxtRaw_phase o st.ev sc h.lvl hlen
  rw [h.scale] at e2
  obtain ⟨e, out, c1, c2, c3, c4, c5⟩ := rescale_inplace_phase V (o 103) (ct := p) h.lt e3 hS.pscale (by rw [e2]; exact hpos.ne')
    (by rw [e2]; exact hd)
  obtain ⟨Er, d1, d2, d3⟩ := c5 S.s S.Sb hS.sb
  have hrun : mulPtxtNew S.pscale o st.ev ct pt sc = .ok (out, E') := by
    unfold mulPtxtNew
    rw [e1, bind_ok, c1, bind_ok]
  rw [e2] at c4
  rw [e4, h.ids] at c3 d1
  refine ⟨out, E', hrun, ⟨mulPtxtNew_ready hst.ev hrun, hst.keys, hst.pools⟩, lt_of_le_of_lt (Nat.sub_le _ _) h.lt, c2, c4,
    scaleAfter_pos V h.lt hpos _, c3, h.sub, hw.mul h.bdd, ?_⟩
  obtain ⟨F, f1, f2⟩ := h.enc
  refine prod_enc (Er := Er) V h.lt (drops_le hd) (by exact_mod_cast hsc.le) (by exact_mod_cast h.pos.le) g2 f2 hw h.bdd (fun x => ?_)
    (fun i hi => ?_) (fun i hi hi' => ?_)
  · rw [le_div_iff₀ (by norm_num)]
    have h' : ((2 * |Er x| : ℤ) : ℝ) ≤ _ := Int.cast_le.mpr (d1 x)
    refine le_trans (le_of_eq ?_) h'
    push_cast; ring
  · rw [← d2 i hi, e5 S.s i (by omega), f1 i (by omega), g1 i (by omega), map_mul]
  · rw [← d3 i hi hi', e5 S.s i hi', f1 i hi', g1 i hi', map_mul]

/-- **C59, DropLevelNew.** -/
theorem dropLevel (o o' : Order String) {ct : CCt C} {v : Nega N ℝ} {a : Info} (h : Approx S ct v a) {k : ℕ} (hk : k ≤ a.level) :
    ∃ out, dropLevelNew o o' ct k = .ok out ∧ Approx S out v { a with level := a.level - k } := by
  obtain ⟨out, e1, e2, e3, e4, e5⟩ := C26.dropLevelNew_phase o o' h.lvl hk
  refine ⟨out, e1, lt_of_le_of_lt (Nat.sub_le _ _) h.lt, e2, e4.trans h.scale, h.pos, e3.trans h.ids, h.sub, h.bdd, ?_⟩
  obtain ⟨F, f1, f2⟩ := h.enc
  exact ⟨F, fun i hi => by rw [e5 S.s i hi]; exact f1 i (le_trans hi (Nat.sub_le _ _)), f2⟩

/-- **C59, HoistedForm** gives a hoisted form and leaves the evaluator ready -/
theorem hoisted (V : C.Valid) (o : Sched String) {st : St C} (hst : st.Ready S) {ct : CCt C} {v : Nega N ℝ} {a : Info} (h : Approx S ct v a) :
    ∃ m S', hoistedForm o st.ev.ksw ct.ct = .ok (m, S') ∧ St.Ready S ⟨{ st.ev with ksw := S' }, st.rlk⟩ ∧ IsHoisted a.level ct.ct m := by
  obtain ⟨m, S', e1, e2⟩ := C42.hoistedForm_isHoisted V o st.ev.ksw h.lt h.lvl
  exact ⟨m, S', e1, ⟨hst.ev.of_lens (hoistedForm_lens e1), hst.keys, hst.pools⟩, e2⟩

end MKHE.C59
