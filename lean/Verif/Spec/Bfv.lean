import Verif.Lemmas.BfvGadget

set_option autoImplicit false

/-!
# Specification vocabulary for BFV: gadget vector, relinearization keys, encryptions
-/

namespace MKHE
open Finset Nega

variable {N : ℕ} [NeZero N]

/-- **The gadget vector of BFV.** R = Q*QMul is cut into `2*beta` blocks of `alpha` primes; `g_k` is 1 modulo the primes of block `k` and 0
modulo the other primes of R, and `G_k = floor(T*P*g_k / QMul)`, `rho_k` the remainder. -/
structure BfvGadget (B : BCtx N) (G g rho : ℕ → ℕ) : Prop where
  eq : ∀ k < 2 * B.bt, B.QMul * G k + rho k = B.t * B.C.P * g k
  rem : ∀ k < 2 * B.bt, rho k < B.QMul
  same : ∀ k < 2 * B.bt, ∀ i < 2 * B.C.nQ, i / B.C.alpha = k → g k ≡ 1 [MOD B.r i]
  other : ∀ k < 2 * B.bt, ∀ i < 2 * B.C.nQ, i / B.C.alpha ≠ k → g k ≡ 0 [MOD B.r i]

/-- **Key equation with given errors**: `key_k = -sec * a_k + G_k*m + e_k` modulo every prime of Q and P, for the blocks `k < n` -/
def KeyEqG (C : Ctx N) (n : ℕ) (sec : Nega N ℤ) (a : ℕ → PolyQP C) (G : ℕ → ℕ) (m : Nega N ℤ) (e : ℕ → Nega N ℤ)
    (key : ℕ → PolyQP C) : Prop :=
  ∀ k < n, (∀ i < C.nQ, (C.RQ i).mv ((key k).Q i) =
      - red (C.q i) sec * (C.RQ i).mv ((a k).Q i) + (G k : Nega N (ZMod (C.q i))) * red (C.q i) m + red (C.q i) (e k)) ∧
    ∀ j < C.nP, (C.RP j).mv ((key k).P j) =
      - red (C.p j) sec * (C.RP j).mv ((a k).P j) + (G k : Nega N (ZMod (C.p j))) * red (C.p j) m + red (C.p j) (e k)

theorem KeyEqG.rel {C : Ctx N} {n : ℕ} {sec m : Nega N ℤ} {a key : ℕ → PolyQP C} {G : ℕ → ℕ} {e : ℕ → Nega N ℤ} {Be : ℤ}
    (h : KeyEqG C n sec a G m e key) (hB : ∀ k < n, Bdd (e k) Be) : KeyRelG C n sec a (fun k => (G k : ℤ)) m Be key :=
  ⟨e, fun k hk => ⟨hB k hk, fun i hi => by rw [(h k hk).1 i hi]; push_cast; rfl, fun j hj => by rw [(h k hk).2 j hj]; push_cast; rfl⟩⟩

/-- the relinearization key equations of a party with secrets `s` and `r`: the two halves of `b` and `d` together have `2*beta` components,
`b = -s a + e`, `d = -r a + G s + e'` and `v = -s u - P g r + e''`, with errors bounded by `Be` -/
structure BRlk.Rel {B : BCtx N} (key : BRlk B.C) (s r : Nega N ℤ) (a u : ℕ → PolyQP B.C) (G : ℕ → ℕ) (Be : ℤ) : Prop where
  lenb1 : B.bt ≤ key.k1.b.len
  lenb2 : B.bt ≤ key.k2.b.len
  lend1 : B.bt ≤ key.k1.d.len
  lend2 : B.bt ≤ key.k2.d.len
  lenv : B.bt ≤ key.k1.v.len
  b : KeyRelG B.C (2 * B.bt) s a (fun _ => 0) 0 Be (comb B.bt key.k1.b.val key.k2.b.val)
  d : KeyRelG B.C (2 * B.bt) r a (fun k => (G k : ℤ)) s Be (comb B.bt key.k1.d.val key.k2.d.val)
  v : KeyRel B.C B.bt s u (-r) Be key.k1.v.val

/-- **BFV encryption.** The phase of `ct` modulo Q is `Φ` with `T*Φ = Q*(m + T*k) + b` for some `k` and `|b| <= Bd`: `ct` encrypts `m`
modulo T with noise `b`. -/
def BfvEnc (B : BCtx N) (s : String → Nega N ℤ) (ct : Ct B.C) (m : Nega N ℤ) (Bd : ℤ) : Prop :=
  ∃ Φ k b : Nega N ℤ, Bdd b Bd ∧ (B.t : Nega N ℤ) * Φ = (B.Q : Nega N ℤ) * (m + (B.t : Nega N ℤ) * k) + b ∧
    ∀ i < B.C.nQ, ct.phase s i = red (B.C.q i) Φ

end MKHE
