import Verif.Props.BfvExample
import Verif.Props.CkksProg
import Verif.Props.CkksExample

set_option autoImplicit false

/-!
# C81: reorganising a computation does not change what it decrypts to

`Rewrites` is the equivalence of programs generated by the laws a user would apply: ring laws, rotations and conjugation commute with the arithmetic and compose.
Equivalent BFV programs, run by whatever evaluators under whatever map orders, decrypt to the same plaintext modulo T as long as the noise bounds of both are below
`Q/2`. CKKS programs that compute the same polynomial decrypt to slots that differ by at most the sum of their error bounds.
-/

namespace MKHE.C81
open Finset Nega C58

/-- the laws; `half` is the number of columns (N/2) -/
inductive Law (half : ℤ) : Circ → Circ → Prop
  | add_comm (a b : Circ) : Law half (.add a b) (.add b a)
  | add_assoc (a b c : Circ) : Law half (.add (.add a b) c) (.add a (.add b c))
  | mul_comm (a b : Circ) : Law half (.mul a b) (.mul b a)
  | mul_assoc (a b c : Circ) : Law half (.mul (.mul a b) c) (.mul a (.mul b c))
  | mul_add (a b c : Circ) : Law half (.mul a (.add b c)) (.add (.mul a b) (.mul a c))
  | mul_sub (a b c : Circ) : Law half (.mul a (.sub b c)) (.sub (.mul a b) (.mul a c))
  | sub_add_cancel (a b : Circ) : Law half (.add (.sub a b) b) a
  | sub_sub (a b c : Circ) : Law half (.sub (.sub a b) c) (.sub a (.add b c))
  | sub_swap (a b c : Circ) : Law half (.sub a (.sub b c)) (.add (.sub a b) c)
  | rot_add (r : ℤ) (a b : Circ) : Law half (.rot r (.add a b)) (.add (.rot r a) (.rot r b))
  | rot_sub (r : ℤ) (a b : Circ) : Law half (.rot r (.sub a b)) (.sub (.rot r a) (.rot r b))
  | rot_mul (r : ℤ) (a b : Circ) : Law half (.rot r (.mul a b)) (.mul (.rot r a) (.rot r b))
  | rot_rot (r k : ℤ) (a : Circ) : Law half (.rot r (.rot k a)) (.rot (r + k) a)
  | rot_zero (a : Circ) : Law half (.rot 0 a) a
  | rot_period (r k : ℤ) (a : Circ) : Law half (.rot (r + k * half) a) (.rot r a)
  | conj_add (a b : Circ) : Law half (.conj (.add a b)) (.add (.conj a) (.conj b))
  | conj_sub (a b : Circ) : Law half (.conj (.sub a b)) (.sub (.conj a) (.conj b))
  | conj_mul (a b : Circ) : Law half (.conj (.mul a b)) (.mul (.conj a) (.conj b))
  | conj_conj (a : Circ) : Law half (.conj (.conj a)) a
  | conj_rot (r : ℤ) (a : Circ) : Law half (.conj (.rot r a)) (.rot r (.conj a))

/-- the laws applied anywhere in a program, any number of times, in both directions -/
inductive Rewrites (half : ℤ) : Circ → Circ → Prop
  | law {a b : Circ} : Law half a b → Rewrites half a b
  | refl (a : Circ) : Rewrites half a a
  | symm {a b : Circ} : Rewrites half a b → Rewrites half b a
  | trans {a b c : Circ} : Rewrites half a b → Rewrites half b c → Rewrites half a c
  | add {a a' b b' : Circ} : Rewrites half a a' → Rewrites half b b' → Rewrites half (.add a b) (.add a' b')
  | sub {a a' b b' : Circ} : Rewrites half a a' → Rewrites half b b' → Rewrites half (.sub a b) (.sub a' b')
  | mul {a a' b b' : Circ} : Rewrites half a a' → Rewrites half b b' → Rewrites half (.mul a b) (.mul a' b')
  | rot (r : ℤ) {a a' : Circ} : Rewrites half a a' → Rewrites half (.rot r a) (.rot r a')
  | conj {a a' : Circ} : Rewrites half a a' → Rewrites half (.conj a) (.conj a')

section
variable {N : ℕ} [NeZero N]

theorem galois_sub {K : Type*} [CommRing K] {g : ℕ} (hg : Odd g) (a b : Nega N K) : galois g (a - b) = galois g a - galois g b := by
  rw [← galoisHom_apply g hg, map_sub]; rfl

theorem galois_mul {K : Type*} [CommRing K] {g : ℕ} (hg : Odd g) (a b : Nega N K) : galois g (a * b) = galois g a * galois g b := by
  rw [← galoisHom_apply g hg, map_mul]; rfl

theorem galois_congr {K : Type*} [CommRing K] {g h : ℕ} (e : g % (2 * N) = h % (2 * N)) (a : Nega N K) : galois g a = galois h a := by
  rw [← galois_mod g, ← galois_mod h, e]

theorem odd_conj : Odd (2 * N - 1) := by
  have : 0 < N := Nat.pos_of_ne_zero (NeZero.ne N)
  exact ⟨N - 1, by omega⟩

theorem conj_conj {K : Type*} [CommRing K] (a : Nega N K) : galois (2 * N - 1) (galois (2 * N - 1) a) = a := by
  have h0 : 0 < N := Nat.pos_of_ne_zero (NeZero.ne N)
  rw [galois_galois _ _ odd_conj]
  refine (galois_congr (h := 1) ?_ a).trans (galois_one a)
  obtain ⟨M, rfl⟩ : ∃ M, N = M + 1 := ⟨N - 1, by omega⟩
  have : (2 * (M + 1) - 1) * (2 * (M + 1) - 1) = 1 + 2 * (M + 1) * (2 * M) := by
    have : 2 * (M + 1) - 1 = 2 * M + 1 := by omega
    rw [this]; ring
  rw [this, Nat.add_mul_mod_self_left]

/-- **the laws preserve the value of a program** on all plaintexts -/
theorem Law.val {n : ℕ} (hN : N = 2 ^ n) (hn : 1 ≤ n) (m : ℕ → Nega N ℤ) {a b : Circ} (h : Law ((N / 2 : ℕ) : ℤ) a b) : a.val m = b.val m := by
  have h5 := fun k => odd_five_pow k
  cases h with
  | add_comm a b => exact _root_.add_comm _ _
  | add_assoc a b c => exact _root_.add_assoc _ _ _
  | mul_comm a b => exact _root_.mul_comm _ _
  | mul_assoc a b c => exact _root_.mul_assoc _ _ _
  | mul_add a b c => exact _root_.mul_add _ _ _
  | mul_sub a b c => exact _root_.mul_sub _ _ _
  | sub_add_cancel a b => exact _root_.sub_add_cancel _ _
  | sub_sub a b c => exact _root_.sub_sub _ _ _
  | sub_swap a b c => show a.val m - (b.val m - c.val m) = a.val m - b.val m + c.val m; ring
  | rot_add r a b => exact galois_add (h5 _) _ _
  | rot_sub r a b => exact galois_sub (h5 _) _ _
  | rot_mul r a b => exact galois_mul (h5 _) _ _
  | rot_rot r k a =>
    show galois (5 ^ C35.amount N r) (galois (5 ^ C35.amount N k) (a.val m)) = galois (5 ^ C35.amount N (r + k)) (a.val m)
    rw [galois_galois _ _ (h5 _), ← pow_add]
    exact galois_congr (five_pow_congr hN hn (amount_add hN hn r k)) _
  | rot_zero a =>
    show galois (5 ^ C35.amount N 0) (b.val m) = b.val m
    have : C35.amount N 0 = 0 := by simp [C35.amount]
    rw [this, pow_zero, galois_one]
  | rot_period r k a =>
    show galois (5 ^ C35.amount N (r + k * ((N / 2 : ℕ) : ℤ))) (a.val m) = galois (5 ^ C35.amount N r) (a.val m)
    have : C35.amount N (r + k * ((N / 2 : ℕ) : ℤ)) = C35.amount N r := by
      unfold C35.amount; rw [Int.add_mul_emod_self_right]
    rw [this]
  | conj_add a b => exact galois_add odd_conj _ _
  | conj_sub a b => exact galois_sub odd_conj _ _
  | conj_mul a b => exact galois_mul odd_conj _ _
  | conj_conj a => exact C81.conj_conj _
  | conj_rot r a =>
    show galois (2 * N - 1) (galois (5 ^ C35.amount N r) (a.val m)) = galois (5 ^ C35.amount N r) (galois (2 * N - 1) (a.val m))
    rw [galois_galois _ _ odd_conj, galois_galois _ _ (h5 _), _root_.mul_comm]

theorem Rewrites.val {n : ℕ} (hN : N = 2 ^ n) (hn : 1 ≤ n) (m : ℕ → Nega N ℤ) {a b : Circ} (h : Rewrites ((N / 2 : ℕ) : ℤ) a b) : a.val m = b.val m := by
  induction h with
  | law h => exact h.val hN hn m
  | refl a => rfl
  | symm _ ih => exact ih.symm
  | trans _ _ i1 i2 => exact i1.trans i2
  | add _ _ i1 i2 => simp only [Circ.val, i1, i2]
  | sub _ _ i1 i2 => simp only [Circ.val, i1, i2]
  | mul _ _ i1 i2 => simp only [Circ.val, i1, i2]
  | rot r _ i1 => simp only [Circ.val, i1]
  | conj _ i1 => simp only [Circ.val, i1]

variable {B : BCtx N} {s : String → Nega N ℤ}

/-- what `bfvDecrypt` returns, rounded as the decoder does, is congruent to `v` modulo T -/
def Decodes (B : BCtx N) (p : Poly B.C) (v : Nega N ℤ) : Prop :=
  (∃ Φ : Nega N ℤ, ∀ i < B.C.nQ, cf (p.coeffs i) = red (B.C.q i) Φ) ∧
    ∀ Φ : Nega N ℤ, (∀ i < B.C.nQ, cf (p.coeffs i) = red (B.C.q i) Φ) → ∀ x, (2 * (B.t * Φ x) + B.Q) / (2 * B.Q) ≡ v x [ZMOD B.t]

/-- **C81, BFV.** Two programs that rewrite into each other, run on the same encrypted inputs by evaluators with any scratch memory and any map orders, decrypt (with key
sets that have the keys of the respective parties) to the same plaintext modulo T, if both noise bounds are below `Q/2`. -/
theorem same_result (V : B.Valid) {K : Keyring B} {U : Finset String} {r : String → Nega N ℤ} {Sb Rb Be : ℤ} (hK : K.Ok U s r Sb Rb Be)
    {D : ℤ} (hD : ∀ k < 2 * B.bt, 3 * (B.blockR k : ℤ) ≤ D) (hD' : ∀ k < B.bt, 2 * (B.C.blockProd B.top k : ℤ) ≤ D)
    {ct : ℕ → Ct B.C} {m : ℕ → Nega N ℤ} {Bin : ℕ → ℤ} {c c' : Circ} (hc : Rewrites ((N / 2 : ℕ) : ℤ) c c')
    (hin : ∀ n ∈ c.inputs ∪ c'.inputs, (ct n).AtLevel B.top ∧ (ct n).ids ⊆ U ∧ BfvEnc B s (ct n) (m n) (Bin n))
    (o o' : List ℕ → ℕ → Sched String) (S S' : BScratch B) (hS : S.Alloc) (hS' : S'.Alloc)
    (hB : 2 * c.noise B K.crs (fun n => (ct n).ids) Bin D Sb Rb Be < B.Q) (hB' : 2 * c'.noise B K.crs (fun n => (ct n).ids) Bin D Sb Rb Be < B.Q)
    {sks : KeySet (SKey B.C)} (hk : sks.Keyed SKey.id) (hs : ∀ id sk, sks.value.lookup id = some sk → sk.Is (s id))
    (hall : ∀ id ∈ c.ids (fun n => (ct n).ids) ∪ c'.ids (fun n => (ct n).ids), id ∈ sks.value) (od od' : Sched String) :
    ∃ out out' T T' p p', c.run K ct o S = .ok (out, T) ∧ c'.run K ct o' S' = .ok (out', T') ∧
      bfvDecrypt od out sks = .ok p ∧ bfvDecrypt od' out' sks = .ok p' ∧ ∃ v, Decodes B p v ∧ Decodes B p' v := by
  obtain ⟨out, T, p, a1, -, a2, a3, a4⟩ := circuit_decrypt V hK hD hD' c (fun n hn => hin n (mem_union_left _ hn)) o S hS hB hk hs
    (fun id hid => hall id (mem_union_left _ hid)) od
  obtain ⟨out', T', p', b1, -, b2, b3, b4⟩ := circuit_decrypt V hK hD hD' c' (fun n hn => hin n (mem_union_right _ hn)) o' S' hS' hB' hk hs
    (fun id hid => hall id (mem_union_right _ hid)) od'
  refine ⟨out, out', T, T', p, p', a1, b1, a2, b2, c.val m, ⟨a3, a4⟩, b3, fun Φ hΦ x => ?_⟩
  rw [hc.val V.qp.hN V.qp.log1 m]
  exact b4 Φ hΦ x

end

section Ckks
open C59
variable {N : ℕ} [NeZero N] {C : Ctx N} {S : Sys C} {w w' : Env C} {pts pts' : Pts N}

/-- **C81, CKKS.** Two programs whose results number `i` and `i'` are the same polynomial, decrypted, give slots that differ by at most the sum of the two error bounds
(each divided by its scale). -/
theorem close_results (V : C.Valid) (hS : S.Ok) (hp : PtsOk w pts) (hp' : PtsOk w' pts') (p p' : List Instr) (n n' : ℕ) {M M' : Machine C} {A A' : Abs N}
    (h : Rel S M A) (h' : Rel S M' A') (hok : ProgOk S w pts A p) (hok' : ProgOk S w' pts' A' p') {i i' : ℕ}
    (hi : i < (execs S w pts A p).cts.length) (hi' : i' < (execs S w' pts' A' p').cts.length)
    (hv : (execs S w pts A p).val i = (execs S w' pts' A' p').val i')
    {sks : KeySet (SKey C)} (hs : SKeys.Of sks ((execs S w pts A p).info i).ids S.s) (hs' : SKeys.Of sks ((execs S w' pts' A' p').info i').ids S.s)
    (pool pool' : Poly C) (hpool : ((execs S w pts A p).info i).level < pool.len) (hpool' : ((execs S w' pts' A' p').info i').level < pool'.len)
    (hfit : 2 * (((execs S w pts A p).info i).scale * ((execs S w pts A p).info i).V + ((execs S w pts A p).info i).B) <
      modulus C ((execs S w pts A p).info i).level)
    (hfit' : 2 * (((execs S w' pts' A' p').info i').scale * ((execs S w' pts' A' p').info i').V + ((execs S w' pts' A' p').info i').B) <
      modulus C ((execs S w' pts' A' p').info i').level) (o o' : Sched String) :
    ∃ X X' ct ct' pt pt' q q' Φ Φ', run S w n M p = .ok X ∧ run S w' n' M' p' = .ok X' ∧ X.cts[i]? = some ct ∧ X'.cts[i']? = some ct' ∧
      ckksDecrypt o pool ct sks = .ok ((pt, ((execs S w pts A p).info i).scale), q) ∧
      ckksDecrypt o' pool' ct' sks = .ok ((pt', ((execs S w' pts' A' p').info i').scale), q') ∧
      (∀ k ≤ ((execs S w pts A p).info i).level, cf (pt.rows k) = red (C.q k) Φ) ∧
      (∀ k ≤ ((execs S w' pts' A' p').info i').level, cf (pt'.rows k) = red (C.q k) Φ') ∧
      ∀ j : ℤ, ‖slot j (toReal Φ) / (((execs S w pts A p).info i).scale : ℂ) - slot j (toReal Φ') / (((execs S w' pts' A' p').info i').scale : ℂ)‖ ≤
        ((execs S w pts A p).info i).B / ((execs S w pts A p).info i).scale + ((execs S w' pts' A' p').info i').B / ((execs S w' pts' A' p').info i').scale := by
  obtain ⟨X, ct, pt, q, r1, r2, r3, Φ, r4, -, r6⟩ := program_decrypt V hS hp p n h hok hi hs pool hpool hfit o
  obtain ⟨X', ct', pt', q', t1, t2, t3, Φ', t4, -, t6⟩ := program_decrypt V hS hp' p' n' h' hok' hi' hs' pool' hpool' hfit' o'
  refine ⟨X, X', ct, ct', pt, pt', q, q', Φ, Φ', r1, t1, r2, t2, r3, t3, r4, t4, fun j => ?_⟩
  have e1 := r6 j
  have e2 := t6 j
  rw [← hv] at e2
  rw [← dist_eq_norm] at *
  exact (dist_triangle _ _ _).trans (add_le_add e1 (by rw [dist_comm]; exact e2))

end Ckks

end MKHE.C81

namespace MKHE.BEx
open Finset Nega C81
variable (fm : FloatModel)

/-- `prog` with the operands of the product exchanged, the sum the other way round and the conjugation moved inwards -/
def prog2 : C58.Circ := .sub (.input 0) (.mul (.conj (.rot 1 (.input 1))) (.conj (.add (.input 1) (.input 0))))

theorem prog_rewrites : Rewrites ((16 / 2 : ℕ) : ℤ) prog prog2 :=
  .sub (.refl _) (.trans (.conj (.trans (.law (.mul_comm _ _)) (.mul (.refl _) (.law (.add_comm _ _))))) (.law (.conj_mul _ _)))

theorem prog2_noise : 2 * prog2.noise (bctx fm) (keyring fm).crs (fun n => {own n}) (fun _ => 700) Dg 1 1 2 < (bctx fm).Q := by
  have h0 : ({own 0} : Finset String) = {"a"} := rfl
  have h1 : ({own 1} : Finset String) = {"b"} := rfl
  have h2 : ({"b"} ∪ {"a"} : Finset String).card = 2 := rfl
  have h3 : ({"b"} ∪ ({"b"} ∪ {"a"}) : Finset String).card = 2 := rfl
  have hr : C35.rotCount (keyring fm).crs (C35.amount 16 1) = 1 := rotCount_one fm
  simp only [prog2, C58.Circ.noise, C58.Circ.ids, h0, h1, h2, h3, hr, C58.mulBound, C45.noise, C45.liftBound, bmulNoise, C33.rotNoise, Q_val, QMul_val,
    P_val, bt_one, card_singleton, Dg]
  norm_num

/-- **instance of `C81.same_result`**: for all messages, the two programs decrypt to the same plaintext -/
theorem rewritten_program (m : ℕ → Nega 16 ℤ) (o o' : List ℕ → ℕ → Sched String) (od od' : Sched String) : ∃ (ct : ℕ → Ct (bctx fm).C),
    (∀ n, (ct n).ids = {own n} ∧ BfvEnc (bctx fm) Ex.sec (ct n) (m n) 700) ∧
    ∃ out out' T T' p p', prog.run (keyring fm) ct o (scratch fm) = .ok (out, T) ∧ prog2.run (keyring fm) ct o' (scratch fm) = .ok (out', T') ∧
      bfvDecrypt od out (sks fm) = .ok p ∧ bfvDecrypt od' out' (sks fm) = .ok p' ∧ ∃ v, Decodes (bctx fm) p v ∧ Decodes (bctx fm) p' v := by
  choose ct c1 c2 c3 using fun n => fresh fm (own n) (own_party n) (m n)
  have hi : (fun n => (ct n).ids) = fun n => {own n} := funext c2
  refine ⟨ct, fun n => ⟨c2 n, c3 n⟩, ?_⟩
  refine C81.same_result (valid fm) (keyring_ok fm) (blockR_le fm) (block_le fm) prog_rewrites (fun n _ => ⟨c1 n, ?_, c3 n⟩) o o' _ _ (scratch_alloc fm)
    (scratch_alloc fm) ?_ ?_ (sks := sks fm) (sks_keyed fm) (fun id sk h => ?_) (fun id hid => ?_) od od'
  · rw [c2, singleton_subset_iff]
    rcases own_party n with h | h <;> rw [h] <;> decide
  · rw [hi]; exact prog_noise fm
  · rw [hi]; exact prog2_noise fm
  · rw [sks_lookup] at h
    split_ifs at h with h1 h2
    · cases h; rw [h1]; exact skey_is fm _
    · cases h; rw [h2]; exact skey_is fm _
  · rw [hi] at hid
    have : id = "a" ∨ id = "b" := by
      simp only [prog, prog2, C58.Circ.ids, mem_union, mem_singleton] at hid
      have h0 : own 0 = "a" := rfl
      have h1 : own 1 = "b" := rfl
      rw [h0, h1] at hid
      tauto
    refine GoMap.mem_iff_lookup.mpr ?_
    rw [sks_lookup]
    rcases this with h | h <;> subst h <;> simp

end MKHE.BEx

namespace MKHE.CEx
open Finset Nega C81 Ex C59
variable (fm : FloatModel)

/-- rotate by 3 = -5 (mod 8) at once -/
def once : List Instr := [.rot 0 (-5)]

/-- rotate by 1, then by 2 -/
def twice : List Instr := [.rot 0 1, .rot 1 2]

/-- A fresh encryption rotated at once and in two steps, by different evaluators: the two decryptions differ by at most the two bounds. -/
theorem rotated_twice (us : ℕ → Nega 16 ℤ) (hus : ∀ n, Bdd (us n) 1) (st : Enc (ctx fm)) (o o' : ℕ → ℕ → Sched String) (od od' oe : Sched String) :
    ∃ w pk ct st' X X' c1 c2 pt pt' q q' Φ Φ', setup (crs fm) err sec sec' rots (kg fm) ["a", "b"] = .ok w ∧ w.pks.value.lookup "a" = some pk ∧
      ckksEncryptNew oe us err st (poly fm 3 5) 200 pk = .ok (ct, st') ∧
      C59.run ⟨crs fm, w.rlk, w.rks, KeySet.new, 100, ["a", "b"].toFinset, sec, sec', crsv fm 5, 2, 2, 2, 37442⟩ (env fm o) 0
        ⟨⟨eval fm, w.rlk⟩, [ct], []⟩ once = .ok X ∧
      C59.run ⟨crs fm, w.rlk, w.rks, KeySet.new, 100, ["a", "b"].toFinset, sec, sec', crsv fm 5, 2, 2, 2, 37442⟩ (env fm o') 0
        ⟨⟨eval fm, w.rlk⟩, [ct], []⟩ twice = .ok X' ∧
      X.cts[1]? = some c1 ∧ X'.cts[2]? = some c2 ∧
      ckksDecrypt od ckksNewDecryptor c1 w.sks = .ok ((pt, 200), q) ∧ ckksDecrypt od' ckksNewDecryptor c2 w.sks = .ok ((pt', 200), q') ∧
      (∀ k ≤ 2, cf (pt.rows k) = red ((ctx fm).q k) Φ) ∧ (∀ k ≤ 2, cf (pt'.rows k) = red ((ctx fm).q k) Φ') ∧
      ∀ j : ℤ, ‖slot j (toReal Φ) / 200 - slot j (toReal Φ') / 200‖ ≤ 4800 / 200 + 4800 / 200 := by
  obtain ⟨w, w1, w2, w3, w4, w5⟩ := setup_ex fm
  obtain ⟨pk, e, p1, p2, p3, p4⟩ := w4 "a" (by simp)
  have hS := w2 KeySet.new
  set S : C59.Sys (ctx fm) := ⟨crs fm, w.rlk, w.rks, KeySet.new, 100, ["a", "b"].toFinset, sec, sec', crsv fm 5, 2, 2, 2, 37442⟩ with hSdef
  obtain ⟨ct, st', c1, c2⟩ := C59.encrypt (S := S) (valid fm) hS oe us err st (pt := poly fm 3 5) (l := 2) rfl (by show 2 < 3; norm_num)
    (scale := 200) (by norm_num) msg_slots (msg_enc fm) (pk := pk) (by rw [p2]; decide) (by rw [p2]; show "a" ∈ ["a", "b"].toFinset; simp)
    (by rw [p2]; exact p3) hus err_bdd p4
  rw [p2] at c2
  have hrel : C59.Rel S ⟨⟨eval fm, w.rlk⟩, [ct], []⟩ ⟨[(msg, fresh)], []⟩ := ⟨⟨eval_ready fm, rfl, w5⟩, .cons c2 .nil, .nil⟩
  have hinfo : (C59.execs S (env fm o) pts ⟨[(msg, fresh)], []⟩ once).info 1 = fresh.rot S (-5) := rfl
  have hinfo' : (C59.execs S (env fm o') pts ⟨[(msg, fresh)], []⟩ twice).info 2 = (fresh.rot S 1).rot S 2 := rfl
  have hval : (C59.execs S (env fm o) pts ⟨[(msg, fresh)], []⟩ once).val 1 = galois (5 ^ C35.amount 16 (-5)) msg := rfl
  have hval' : (C59.execs S (env fm o') pts ⟨[(msg, fresh)], []⟩ twice).val 2 = galois (5 ^ C35.amount 16 2) (galois (5 ^ C35.amount 16 1) msg) := rfl
  have count : C35.rotCount (crs fm) (C35.amount 16 (-5)) = 2 ∧ C35.rotCount (crs fm) (C35.amount 16 1) = 1 ∧ C35.rotCount (crs fm) (C35.amount 16 2) = 1 := by
    refine ⟨?_, ?_, ?_⟩
    · show C35.rotCount (crs fm) 3 = 2
      unfold C35.rotCount crs
      simp only [GoMap.lookup_insert']
      simp
      decide
    · show C35.rotCount (crs fm) 1 = 1
      unfold C35.rotCount crs
      simp only [GoMap.lookup_insert']
      simp
    · show C35.rotCount (crs fm) 2 = 1
      unfold C35.rotCount crs
      simp only [GoMap.lookup_insert']
      simp
  have hP : (ctx fm).P = 353 * 449 := by simp [Ctx.P, mprod, prod_range_succ, ctx, Ex.exp]
  have hb : (ctx fm).beta 2 = 2 := beta_two fm
  have hB : (fresh.rot S (-5)).B ≤ 4800 := by
    show fresh.B + C59.rotErr S (-5) fresh ≤ 4800
    unfold C59.rotErr fresh
    have hc : C35.rotCount S.crs (C35.amount 16 (-5)) = 2 := count.1
    dsimp only
    rw [hc, hb, hP]
    unfold C33.rotNoise
    norm_num [hSdef]
  have hB' : ((fresh.rot S 1).rot S 2).B ≤ 4800 := by
    show fresh.B + C59.rotErr S 1 fresh + C59.rotErr S 2 (fresh.rot S 1) ≤ 4800
    have h1 : C35.rotCount S.crs (C35.amount 16 1) = 1 := count.2.1
    have h2 : C35.rotCount S.crs (C35.amount 16 2) = 1 := count.2.2
    unfold C59.rotErr Info.rot fresh
    dsimp only
    rw [h1, h2, hb, hP]
    unfold C33.rotNoise
    norm_num [hSdef]
  have hmod : C59.modulus (ctx fm) 2 = 97 * 193 * 257 := by
    unfold C59.modulus
    simp [prod_range_succ, ctx, exq]
  have hids : SKeys.Of w.sks {"a"} S.s := ⟨w3.1, fun id hid => w3.2 id (by rw [mem_singleton] at hid; subst hid; simp)⟩
  obtain ⟨X, X', d1, d2, pt, pt', q, q', Φ, Φ', r1, r2, r3, r4, r5, r6, r7, r8, r9⟩ := close_results (valid fm) hS (pts_ok fm o) (pts_ok fm o') once twice 0 0
    hrel hrel ⟨Nat.succ_pos _, trivial⟩ ⟨Nat.succ_pos _, Nat.succ_lt_succ (Nat.succ_pos _), trivial⟩ (i := 1) (i' := 2) (Nat.succ_lt_succ (Nat.succ_pos _))
    (Nat.succ_lt_succ (Nat.succ_lt_succ (Nat.succ_pos _))) (by
      rw [hval, hval', galois_galois _ _ (odd_five_pow _), ← pow_add]
      rfl) (sks := w.sks) (by rw [hinfo]; exact hids) (by rw [hinfo']; exact hids) ckksNewDecryptor ckksNewDecryptor
    (by rw [hinfo]; show 2 < 3; norm_num) (by rw [hinfo']; show 2 < 3; norm_num) (by
      rw [hinfo]
      show 2 * (((200 : ℚ) : ℝ) * 16 + (fresh.rot S (-5)).B) < (C59.modulus (ctx fm) 2 : ℝ)
      rw [hmod]; push_cast; linarith) (by
      rw [hinfo']
      show 2 * (((200 : ℚ) : ℝ) * 16 + ((fresh.rot S 1).rot S 2).B) < (C59.modulus (ctx fm) 2 : ℝ)
      rw [hmod]; push_cast; linarith) od od'
  rw [hinfo] at r5 r7 r9
  rw [hinfo'] at r6 r8 r9
  refine ⟨w, pk, ct, st', X, X', d1, d2, pt, pt', q, q', Φ, Φ', w1, p1, c1, r1, r2, r3, r4, r5, r6, r7, r8, fun j => ?_⟩
  have h9 := r9 j
  have e1 : (((fresh.rot S (-5)).scale : ℚ) : ℂ) = 200 := by show (((200 : ℚ)) : ℂ) = 200; norm_num
  have e1' : (((fresh.rot S (-5)).scale : ℚ) : ℝ) = 200 := by show (((200 : ℚ)) : ℝ) = 200; norm_num
  have e2 : ((((fresh.rot S 1).rot S 2).scale : ℚ) : ℂ) = 200 := by show (((200 : ℚ)) : ℂ) = 200; norm_num
  have e2' : ((((fresh.rot S 1).rot S 2).scale : ℚ) : ℝ) = 200 := by show (((200 : ℚ)) : ℝ) = 200; norm_num
  rw [e1, e2, e1', e2'] at h9
  refine h9.trans (add_le_add ?_ ?_) <;> exact div_le_div_of_nonneg_right (by linarith) (by norm_num)

end MKHE.CEx
