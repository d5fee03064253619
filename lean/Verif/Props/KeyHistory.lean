import Verif.Props.HeapKeyTrace

set_option autoImplicit false
set_option linter.unusedSectionVars false

/-!
# C82: the keys of a history with interrupted calls satisfy their equations

`Role` says what a key is for, `Meets` that it is a right key for it (the equations of C12, C14, C15, C44), `Made` what the key made by a call is for. `keys_right`: after
every history every key made by a call that returned is right, whatever calls were stopped in between and at whatever moment. `next_call_runs`: and a call that
follows the rules returns.
-/

namespace MKHE
namespace C82
open Heap Nega C70
variable {N : ℕ} [NeZero N] {B : BCtx N} {h0 : Heap N} {K : HKG} {us : ℕ → PolyQP B.C} {gs : ℕ → Nega N ℤ}

/-- what a key is for: the id of its owner and the polynomials of the secret keys it was made from -/
inductive Role (N : ℕ) where
  | sk (id : String) (s : Nega N ℤ)
  | pk (id : String) (s : Nega N ℤ)
  | rlk (id : String) (s r : Nega N ℤ)
  | brlk (id : String) (s r : Nega N ℤ)
  | rot (id : String) (k : ℕ) (s : Nega N ℤ)
  | conj (id : String) (s : Nega N ℤ)

variable (B) in
/-- the key is a right one, with errors bounded by `Bd`: a secret key encodes its polynomial; `(b, a)` with `b + a*s = e` and `a` from the CRS; the evaluation keys satisfy the
key equations of their kind with the CRS entries of the code -/
def Meets (Bd : ℤ) (crs : GoMap ℤ (Swk B.C)) : Val B.C → Role N → Prop
  | .sk k, .sk id s => k.id = id ∧ k.Is s
  | .pk k, .pk id s => k.id = id ∧ ∃ a e, crs.lookup 0 = some a ∧ Bdd e Bd ∧
      (∀ i < B.C.nQ, k.v1.Q i = (a.val 0).Q i) ∧ (∀ j < B.C.nP, k.v1.P j = (a.val 0).P j) ∧
      (∀ i < B.C.nQ, (B.C.RQ i).ev (k.v0.Q i) + (B.C.RQ i).ev (k.v1.Q i) * red (B.C.q i) s = red (B.C.q i) e) ∧
      ∀ j < B.C.nP, (B.C.RP j).ev (k.v0.P j) + (B.C.RP j).ev (k.v1.P j) * red (B.C.p j) s = red (B.C.p j) e
  | .rlk k, .rlk id s r => k.id = id ∧ ∃ a u, crs.lookup 0 = some a ∧ crs.lookup (-1) = some u ∧
      k.Rel (B.C.beta (B.C.nQ - 1)) s r a.val u.val Bd
  | .brlk k, .brlk id s r => k.id = id ∧ ∃ a1 a2 u G g rho, crs.lookup 0 = some a1 ∧ crs.lookup (-3) = some a2 ∧ crs.lookup (-1) = some u ∧ BfvGadget B G g rho ∧
      k.Rel s r (comb B.bt a1.val a2.val) u.val G Bd
  | .gal k, .rot id r s => k.id = id ∧ k.rotIdx = r ∧ k.value.len = B.C.beta (B.C.nQ - 1) ∧ ∃ a, crs.lookup (r : ℤ) = some a ∧
      KeyRel B.C (B.C.beta (B.C.nQ - 1)) (galois (galElInv N (galElCol N r)) s) a.val s Bd k.value.val
  | .gal k, .conj id s => k.id = id ∧ k.value.len = B.C.beta (B.C.nQ - 1) ∧ ∃ a, crs.lookup (-2) = some a ∧
      KeyRel B.C (B.C.beta (B.C.nQ - 1)) s a.val (galois (2 * N - 1) s) Bd k.value.val
  | _, _ => False

/-- what the key made by the call is for, given what the keys made so far are for; `gs` is the stream of the Gaussian sampler -/
def Made (gs : ℕ → Nega N ℤ) (roles : List (Role N)) : Cmd N → Role N → Prop
  | .genSk x id, .sk id' s => id' = id ∧ s = x
  | .genSkGaussian id, .sk id' s => id' = id ∧ ∃ n, s = gs n
  | .genPk i, .pk id s => roles[i]? = some (.sk id s)
  | .genRlk i j, .rlk id s r => roles[i]? = some (.sk id s) ∧ ∃ id', roles[j]? = some (.sk id' r)
  | .genBfvRlk i j, .brlk id s r => roles[i]? = some (.sk id s) ∧ ∃ id', roles[j]? = some (.sk id' r)
  | .genRot r i, .rot id k s => roles[i]? = some (.sk id s) ∧ adjustIdx N r = k
  | .genConj i, .conj id s => roles[i]? = some (.sk id s)
  | .copy i, ρ => roles[i]? = some ρ
  | _, _ => False

/-- what the keys made by a list of calls are for -/
inductive Roles (gs : ℕ → Nega N ℤ) : List (Role N) → List (Cmd N) → List (Role N) → Prop
  | nil (r : List (Role N)) : Roles gs r [] r
  | cons {r r' : List (Role N)} {c : Cmd N} {l : List (Cmd N)} (ρ : Role N) : Made gs r c ρ → Roles gs (r ++ [ρ]) l r' → Roles gs r (c :: l) r'

/-- the call may be made in a history: it does not replace CRS entries, and a ternary sampler has returned a small polynomial; BFV relinearization keys
are made for BFV parameters only -/
def Allowed (B : BCtx N) (Bd : ℤ) : Cmd N → Prop
  | .addCRS _ => False
  | .genSk x _ => Bdd x Bd
  | .genBfvRlk _ _ => B.Valid
  | _ => True

/-- the CRS of `NewParameters`, possibly with further entries -/
structure Complete (B : BCtx N) (crs : GoMap ℤ (Swk B.C)) : Prop where
  len : CrsLen B.C crs
  mem : ∀ k ∈ [(0 : ℤ), -1, -2, -3], k ∈ crs

theorem Complete.get {crs : GoMap ℤ (Swk B.C)} (a : Complete B crs) {k : ℤ} (h : k ∈ [(0 : ℤ), -1, -2, -3]) :
    ∃ x, crs.lookup k = some x ∧ B.C.beta (B.C.nQ - 1) ≤ x.len := by
  obtain ⟨x, hx⟩ := Option.isSome_iff_exists.mp (GoMap.mem_iff_lookup.mp (a.mem k h))
  exact ⟨x, hx, a.len _ _ hx⟩

theorem getSk_meets {Bd : ℤ} {crs : GoMap ℤ (Swk B.C)} {l : List (Val B.C)} {roles : List (Role N)} (h : List.Forall₂ (Meets B Bd crs) l roles) {i : ℕ} {k : SKey B.C}
    (e : Val.getSk l i = .ok k) : ∃ s, k.Is s ∧ roles[i]? = some (.sk k.id s) := by
  unfold Val.getSk at e
  cases hv : l[i]? with
  | none => rw [hv] at e; cases e
  | some v =>
    rw [hv] at e
    cases v with
    | sk k' =>
      cases e
      obtain ⟨l1, e1⟩ := List.getElem?_eq_some_iff.mp hv
      have l2 : i < roles.length := h.length_eq ▸ l1
      have m := h.get l1 l2
      simp only [List.get_eq_getElem, e1] at m
      cases hr : roles[i] with
      | sk id s =>
        rw [hr] at m
        exact ⟨s, m.2, by rw [List.getElem?_eq_getElem l2, hr, m.1]⟩
      | _ => rw [hr] at m; exact m.elim
    | _ => cases e

/-- one call that returns makes a right key; nothing else changes -/
theorem step_right (V : B.C.Valid) {Bd : ℤ} (hB : B.C.SmallBound Bd) (hg : ∀ n, Bdd (gs n) Bd) {S S' : VState B.C} {roles : List (Role N)}
    (hc : Complete B S.crs) (h : List.Forall₂ (Meets B Bd S.crs) S.keys roles) {c : Cmd N} (ha : Allowed B Bd c) (e : valStep us gs S c = .ok S') :
    S'.crs = S.crs ∧ ∃ ρ, Made gs roles c ρ ∧ List.Forall₂ (Meets B Bd S.crs) S'.keys (roles ++ [ρ]) := by
  have push : ∀ {v : Val B.C} {ρ : Role N}, Meets B Bd S.crs v ρ → List.Forall₂ (Meets B Bd S.crs) (S.keys ++ [v]) (roles ++ [ρ]) := fun m =>
    List.rel_append h (List.Forall₂.cons m List.Forall₂.nil)
  have hn : B.C.nQ - 1 < B.C.nQ := by have := V.q1; omega
  have hb : 0 < B.C.beta (B.C.nQ - 1) := V.beta_pos hn
  obtain ⟨a0, l0, n0⟩ := hc.get (k := 0) (by simp)
  obtain ⟨a1, l1, n1⟩ := hc.get (k := -1) (by simp)
  obtain ⟨a2, l2, n2⟩ := hc.get (k := -2) (by simp)
  obtain ⟨a3, l3, n3⟩ := hc.get (k := -3) (by simp)
  cases c with
  | addCRS i => exact ha.elim
  | genSk x id => cases e; exact ⟨rfl, .sk id x, ⟨rfl, rfl⟩, push ⟨rfl, genSecretKey_is V hB ha id⟩⟩
  | genSkGaussian id => cases e; exact ⟨rfl, .sk id (gs S.kg.pos), ⟨rfl, _, rfl⟩, push ⟨rfl, genSecretKey_is V hB (hg _) id⟩⟩
  | genPk i =>
    obtain ⟨k, e1, e⟩ := Go.of_bind_ok e
    obtain ⟨w, e2, e⟩ := Go.of_bind_ok e
    cases e
    obtain ⟨s, hs, hr⟩ := getSk_meets h e1
    obtain ⟨pk, st, e', p1, p2⟩ := C12.publicKey V hB hg S.kg hs l0 (by omega)
    cases e2.symm.trans e'
    exact ⟨rfl, .pk k.id s, hr, push ⟨p1, a0, _, l0, hg _, p2⟩⟩
  | genRlk i j =>
    obtain ⟨k, e1, e⟩ := Go.of_bind_ok e
    obtain ⟨k', e1', e⟩ := Go.of_bind_ok e
    obtain ⟨w, e2, e⟩ := Go.of_bind_ok e
    cases e
    obtain ⟨s, hs, hr⟩ := getSk_meets h e1
    obtain ⟨s', hs', hr'⟩ := getSk_meets h e1'
    obtain ⟨x, st, e', p1, p2⟩ := C14.relinearizationKey_rel V hB hg S.kg hs hs' l0 l1 n0 n1 hn
    cases e2.symm.trans e'
    exact ⟨rfl, .rlk k.id s s', ⟨hr, _, hr'⟩, push ⟨p1, a0, a1, l0, l1, p2⟩⟩
  | genBfvRlk i j =>
    obtain ⟨k, e1, e⟩ := Go.of_bind_ok e
    obtain ⟨k', e1', e⟩ := Go.of_bind_ok e
    obtain ⟨w, e2, e⟩ := Go.of_bind_ok e
    cases e
    obtain ⟨s, hs, hr⟩ := getSk_meets h e1
    obtain ⟨s', hs', hr'⟩ := getSk_meets h e1'
    obtain ⟨x, st, G, g, rho, e', p1, p2, p3⟩ := C44.relinearizationKey_rel (B := B) ha hB hg S.kg hs hs' l0 l3 l1 n0 n3 n1
    cases e2.symm.trans e'
    exact ⟨rfl, .brlk k.id s s', ⟨hr, _, hr'⟩, push ⟨p1, a0, a3, a1, G, g, rho, l0, l3, l1, p2, p3⟩⟩
  | genRot r i =>
    obtain ⟨k, e1, e⟩ := Go.of_bind_ok e
    obtain ⟨w, e2, e⟩ := Go.of_bind_ok e
    cases e
    obtain ⟨s, hs, hr⟩ := getSk_meets h e1
    obtain ⟨o1, o2, -⟩ := C16.rotationKey_outcome gs S.kg k hc.len r
    have m1 : r ∈ S.crs := by
      by_contra hm
      cases e2.symm.trans (o1 hm)
    have m2 : adjustIdx N r ∈ S.crs := by
      by_contra hm
      cases e2.symm.trans (o2 m1 hm)
    obtain ⟨m, hm⟩ : ∃ m : ℕ, adjustIdx N r = m := by
      refine Int.eq_ofNat_of_zero_le ?_
      rcases lt_or_ge r 0 with hneg | hpos
      · rw [adjustIdx_neg V.two_le hneg]
        refine Int.emod_nonneg _ ?_
        have := V.two_le
        omega
      · rw [adjustIdx_nonneg hpos]; exact hpos
    obtain ⟨a, la⟩ := Option.isSome_iff_exists.mp (GoMap.mem_iff_lookup.mp m2)
    rw [hm] at la
    obtain ⟨x, st, e', p1, p2, p3, p4⟩ := C15.rotationKey V hB hg S.kg hs m1 hm la (hc.len _ _ la)
    cases e2.symm.trans e'
    exact ⟨rfl, .rot k.id m s, ⟨hr, hm⟩, push ⟨p1, p2, p3, a, la, p4.rel le_rfl fun _ _ => hg _⟩⟩
  | genConj i =>
    obtain ⟨k, e1, e⟩ := Go.of_bind_ok e
    obtain ⟨w, e2, e⟩ := Go.of_bind_ok e
    cases e
    obtain ⟨s, hs, hr⟩ := getSk_meets h e1
    obtain ⟨x, st, e', p1, p2, p3⟩ := C15.conjugationKey V hB hg S.kg hs l2 n2
    cases e2.symm.trans e'
    exact ⟨rfl, .conj k.id s, hr, push ⟨p1, p2, a2, l2, p3.rel le_rfl fun _ _ => hg _⟩⟩
  | copy i =>
    dsimp only [valStep] at e
    by_cases hi : i < S.keys.length
    · have hi' : i < roles.length := h.length_eq ▸ hi
      have m := h.get hi hi'
      simp only [List.get_eq_getElem] at m
      rw [List.getElem?_eq_getElem hi] at e
      have hr : roles[i]? = some roles[i] := List.getElem?_eq_getElem hi'
      generalize roles[i] = ρ at m hr
      generalize S.keys[i] = v at m e
      cases v <;> first | (cases e; exact ⟨rfl, ρ, by cases ρ <;> exact hr, push m⟩) | cases e
    · rw [List.getElem?_eq_none (by omega)] at e
      cases e

/-- **C82, the keys.** After every history every key made by a call that returned is right for what it was made for, and owns its memory -/
theorem keys_right (V : B.C.Valid) {Bd : ℤ} (hB : B.C.SmallBound Bd) (hg : ∀ n, Bdd (gs n) Bd) {s s' : HState N} {l : List (Event N)}
    (hl : Session B us gs K s l s') (hal : ∀ c ∈ Event.completed l, Allowed B Bd c) :
    ∀ {S : VState B.C} {roles : List (Role N)}, Owned B.C h0 K S s → Complete B S.crs → List.Forall₂ (Meets B Bd S.crs) S.keys roles →
      ∃ S' roles', Owned B.C h0 K S' s' ∧ S'.crs = S.crs ∧ Roles gs roles (Event.completed l) roles' ∧ List.Forall₂ (Meets B Bd S.crs) S'.keys roles' := by
  induction hl with
  | nil s => exact fun {S roles} a _ m => ⟨S, roles, a, rfl, .nil _, m⟩
  | @done s s1 s2 c l e _ ih =>
    intro S roles a hc m
    have r := step_owned V.q1 us gs a c
    rw [e] at r
    cases ev : valStep us gs S c with
    | error x => rw [ev] at r; exact r.elim
    | ok S1 =>
      rw [ev] at r
      obtain ⟨k1, ρ, k2, k3⟩ := step_right V hB hg hc m (hal c (List.mem_cons_self ..)) ev
      obtain ⟨S', roles', i1, i2, i3, i4⟩ := ih (fun c hc => hal c (List.mem_cons_of_mem _ hc)) r (k1 ▸ hc) (k1 ▸ k3)
      exact ⟨S', roles', i1, i2.trans k1, .cons ρ k2 i3, k1 ▸ i4⟩
  | @stopped s s2 c l g pos hg' _ ih =>
    intro S roles a hc m
    obtain ⟨kg, -, a'⟩ := interrupted gs a c hg' pos
    exact ih hal (S := { S with kg := kg }) a' hc m

/-! ## the next call returns -/

/-- the rules know roles only by their kind -/
def Role.kind : Role N → Kind
  | .sk .. => .sk
  | .pk .. => .pk
  | _ => .eval

/-- **C82, the next call.** After every history a call that follows the rules (secret keys are passed where secret keys are due, rotation keys are made for indices
with a CRS) returns. -/
theorem next_call_runs (V : B.C.Valid) {Bd : ℤ} (hB : B.C.SmallBound Bd) (hg : ∀ n, Bdd (gs n) Bd) {s : HState N} {S : VState B.C} {roles : List (Role N)}
    (a : Owned B.C h0 K S s) (hc : Complete B S.crs) (m : List.Forall₂ (Meets B Bd S.crs) S.keys roles) {idx : List ℤ} (hi : ∀ k ∈ idx, k ∈ S.crs)
    (hd : ∀ k ∈ [(0 : ℤ), -1, -2, -3], k ∈ idx) (c : Cmd N) (f : Fits B Bd (roles.map Role.kind) idx [c]) : ∃ s', heapStep B us gs K s c = .ok s' := by
  have good : Good S (roles.map Role.kind) idx := by
    refine ⟨hc.len, hi, List.forall₂_map_right_iff.mpr (m.imp ?_)⟩
    intro v ρ h
    cases v <;> cases ρ <;> first | exact h.elim | exact trivial | exact ⟨_, h.2⟩
  obtain ⟨S', e⟩ := fits_runs V hB us hg [c] S _ idx good hd f
  rw [Go.loop_cons] at e
  have r := step_owned V.q1 us gs a c
  cases e1 : valStep us gs S c with
  | error x => rw [e1] at e; cases e
  | ok S1 =>
  rw [e1] at r
  cases e2 : heapStep B us gs K s c with
  | error x => rw [e2] at r; exact r.elim
  | ok s' => exact ⟨s', rfl⟩

/-- **the start**: `NewParameters` and `NewKeyGenerator` on any memory lead to a state from which a history may begin -/
theorem start (hn : 0 < B.C.nQ) (us : ℕ → PolyQP B.C) (gs : ℕ → Nega N ℤ) (W : WF h0) :
    ∃ S K s, heapRun B us gs [] h0 = .ok (K, s) ∧ Owned B.C h0 K S s ∧ Complete B S.crs ∧ S.keys = [] ∧ ∀ k ∈ crsIdxs B.C.logN, k ∈ S.crs := by
  have init : ∀ (l : List ℤ) (S : VState B.C) (idx : List ℤ), Good S [] idx → ∃ S', Go.loop (fun s i => valStep us gs s (.addCRS i)) S l = .ok S' ∧
      ∃ idx', Good S' [] idx' ∧ ∀ k, k ∈ idx ∨ k ∈ l → k ∈ idx' := by
    intro l
    induction l with
    | nil => intro S idx a; exact ⟨S, rfl, idx, a, fun k hk => by simpa using hk⟩
    | cons i l ih =>
      intro S idx a
      obtain ⟨S1, e, a1⟩ := a.crs (us := us) (gs := gs) i
      obtain ⟨S', e', idx', a', hm⟩ := ih S1 (i :: idx) a1
      refine ⟨S', by rw [Go.loop_cons, e]; exact e', idx', a', fun k hk => hm k ?_⟩
      rcases hk with hk | hk
      · exact Or.inl (List.mem_cons_of_mem _ hk)
      · rcases List.mem_cons.mp hk with rfl | hk
        · exact Or.inl (List.mem_cons_self ..)
        · exact Or.inr hk
  obtain ⟨S, e1, idx, a1, m1⟩ := init (crsIdxs B.C.logN) ⟨∅, 0, ⟨0, fun _ => Limb.zero, PolyQP.zero⟩, []⟩ []
    ⟨(fun k s e => by cases e), (fun k hk => by cases hk), List.Forall₂.nil⟩
  have ev : valRun us gs [] = .ok S := by unfold valRun; rw [e1]; rfl
  have rel := program_owned hn us gs [] W
  rw [ev] at rel
  cases eh : heapRun B us gs [] h0 with
  | error err => rw [eh] at rel; exact rel.elim
  | ok w =>
    rw [eh] at rel
    refine ⟨S, w.1, w.2, rfl, rel, ⟨a1.len, fun k hk => a1.mem k (m1 k (Or.inr ?_))⟩, ?_, fun k hk => a1.mem k (m1 k (Or.inr hk))⟩
    · unfold crsIdxs
      simp at hk ⊢
      omega
    · have := a1.keys
      cases h : S.keys with
      | nil => rfl
      | cons v l => rw [h] at this; cases this

/-! ## a concrete history -/

theorem small_ex (fm : FloatModel) : (BEx.qp fm).SmallBound 2 where
  q0 := by show (2 * 2 : ℤ) < ((BEx.bq 0 : ℕ) : ℤ); simp [BEx.bq]
  p := fun j _ => by show (2 : ℤ) ≤ ((BEx.bp j : ℕ) : ℤ); unfold BEx.bp; split_ifs <;> norm_num

/-- two secret keys are made; then `GenRelinearizationKey` (mkbfv) is stopped at any moment; then a rotation key is made: all of it happens, and the key is right -/
theorem history_ex (fm : FloatModel) (us : ℕ → PolyQP (BEx.qp fm)) {gs : ℕ → Nega 16 ℤ} (hg : ∀ n, Bdd (gs n) 2) (pos : ℕ) :
    ∃ (K : HKG) (s0 s2 : HState 16), heapRun (BEx.bctx fm) us gs [] Heap.empty = .ok (K, s0) ∧
      Session (BEx.bctx fm) us gs K s0 [.done (.genSk (Ex.sec "a") "a"), .done (.genSk (Ex.sec' "a") "a")] s2 ∧
      ∀ g, Write.During s2.heap (heapStepT (BEx.bctx fm) gs K s2 (.genBfvRlk 0 1)).writes g →
        ∃ s3, Session (BEx.bctx fm) us gs K s2 [.stopped (.genBfvRlk 0 1), .done (.genRot 2 0)] s3 ∧
          ∃ (S : VState (BEx.qp fm)) (k : GalKey (BEx.qp fm)), Owned (BEx.qp fm) Heap.empty K S s3 ∧ S.keys[2]? = some (.gal k) ∧
            Meets (BEx.bctx fm) 2 S.crs (.gal k) (.rot "a" 2 (Ex.sec "a")) := by
  have V := BEx.valid_qp fm
  have hB := small_ex fm
  have b1 : Bdd (Ex.sec "a") 2 := (Ex.sec_bdd "a").mono (by norm_num)
  have b2 : Bdd (Ex.sec' "a") 2 := (Ex.sec'_bdd "a").mono (by norm_num)
  obtain ⟨S0, K, s0, e0, a0, c0, k0, m0⟩ := start (B := BEx.bctx fm) V.q1 us gs Heap.empty_wf
  have n0 : List.Forall₂ (Meets (BEx.bctx fm) 2 S0.crs) S0.keys [] := by rw [k0]; exact List.Forall₂.nil
  have d : ∀ k ∈ [(0 : ℤ), -1, -2, -3], k ∈ crsIdxs 4 := by decide
  obtain ⟨s1, e1⟩ := next_call_runs (us := us) V hB hg a0 c0 n0 m0 d (.genSk (Ex.sec "a") "a") ⟨b1, trivial⟩
  obtain ⟨S1, r1, o1, q1, t1, n1⟩ := keys_right V hB hg (.done e1 (.nil _)) (fun c hc => by cases List.mem_singleton.mp hc; exact b1) a0 c0 n0
  obtain ⟨s2, e2⟩ := next_call_runs (us := us) V hB hg o1 (q1 ▸ c0) (q1 ▸ n1) (q1 ▸ m0) d (.genSk (Ex.sec' "a") "a") ⟨b2, trivial⟩
  have l2 : Session (BEx.bctx fm) us gs K s0 [.done (.genSk (Ex.sec "a") "a"), .done (.genSk (Ex.sec' "a") "a")] s2 := .done e1 (.done e2 (.nil _))
  obtain ⟨S2, r2, o2, q2, t2, n2⟩ := keys_right V hB hg l2 (fun c hc => by
    rcases List.mem_cons.mp hc with rfl | hc
    · exact b1
    · cases List.mem_singleton.mp hc; exact b2) a0 c0 n0
  have hr2 : r2 = [.sk "a" (Ex.sec "a"), .sk "a" (Ex.sec' "a")] := by
    cases t2 with
    | cons ρ h t =>
      cases t with
      | cons ρ' h' t =>
        cases t
        cases ρ <;> first | exact h.elim | skip
        cases ρ' <;> first | exact h'.elim | skip
        obtain ⟨rfl, rfl⟩ := h
        obtain ⟨rfl, rfl⟩ := h'
        rfl
  subst hr2
  refine ⟨K, s0, s2, e0, l2, fun g hg' => ?_⟩
  obtain ⟨kg, -, o3⟩ := interrupted gs o2 (.genBfvRlk 0 1) hg' pos
  obtain ⟨s3, e3⟩ := next_call_runs (us := us) V hB hg o3 (q2 ▸ c0) (q2 ▸ n2) (q2 ▸ m0) d (.genRot 2 0) ⟨⟨rfl, by decide, by decide⟩, trivial⟩
  have l3 : Session (BEx.bctx fm) us gs K s2 [.stopped (.genBfvRlk 0 1), .done (.genRot 2 0)] s3 := .stopped pos hg' (.done e3 (.nil _))
  obtain ⟨S3, r3, o4, q3, t3, n3⟩ := keys_right V hB hg l3 (fun c hc => by cases List.mem_singleton.mp hc; exact trivial) o2 (q2 ▸ c0) (q2 ▸ n2)
  have hr3 : r3 = [.sk "a" (Ex.sec "a"), .sk "a" (Ex.sec' "a"), .rot "a" 2 (Ex.sec "a")] := by
    cases t3 with
    | cons ρ h t =>
      cases t
      cases ρ <;> first | exact h.elim | skip
      obtain ⟨h1, h2⟩ := h
      cases h1
      have : (2 : ℤ) = _ := h2
      have := Int.ofNat.inj this
      subst this
      rfl
  subst hr3
  refine ⟨s3, l3, S3, ?_⟩
  rw [q3]
  cases hk : S3.keys with
  | nil => rw [hk] at n3; cases n3
  | cons v1 l =>
    rw [hk] at n3
    cases n3 with
    | cons _ n3 => cases n3 with
      | cons _ n3 => cases n3 with
        | @cons v _ _ _ x n3 =>
          cases n3
          cases v with
          | gal k => exact ⟨k, o4, rfl, x⟩
          | _ => exact x.elim

end C82
end MKHE
