import Verif.Props.KeyLocal
import Verif.Props.KeyGen
import Verif.Props.BfvKeyGen
import Verif.Props.Crypt

set_option autoImplicit false

/-!
# C65: no random polynomial is used twice

A key generator and an encryptor read polynomials from samplers. Each call reads a window of consecutive outputs whose length depends on
the parameters only, and the result is a function of the arguments and of the outputs in that window — not of earlier or later outputs and
not of what earlier calls left in the pools. Windows of different calls of one generator are disjoint. (Within one window each block of a
key uses an output of its own: the equations of C12–C15, C17 and C44 name the outputs.)
-/

namespace MKHE.C65
variable {N : ℕ} [NeZero N] {C : Ctx N} {B : BCtx N}

/-- a generator, as a function of the sampler's outputs and of the state of the key generator, reads exactly the next `n` outputs: two runs
that find the same `n` outputs, wherever they stand and whatever their pools hold, have the same outcome and both advance by `n` -/
def Reads {α : Type} (n : ℕ) (gen : (ℕ → Nega N ℤ) → KG C → Go (α × KG C)) : Prop :=
  ∀ (gs gs' : ℕ → Nega N ℤ) (st st' : KG C), (∀ k < n, gs (st.pos + k) = gs' (st'.pos + k)) →
    Go.Rel (fun r r' => r.1 = r'.1 ∧ r.2.pos = st.pos + n ∧ r'.2.pos = st'.pos + n) (gen gs st) (gen gs' st')

theorem Reads.bind {α β : Type} {n m : ℕ} {f : (ℕ → Nega N ℤ) → KG C → Go (α × KG C)}
    {g : α → (ℕ → Nega N ℤ) → KG C → Go (β × KG C)} (hf : Reads n f) (hg : ∀ a, Reads m (g a)) :
    Reads (n + m) (fun gs st => f gs st >>= fun w => g w.1 gs w.2) := by
  intro gs gs' st st' h
  refine (hf gs gs' st st' fun k hk => h k (by omega)).bind fun a b _ _ hab => ?_
  obtain ⟨e, p, p'⟩ := hab
  have := hg a.1 gs gs' a.2 b.2 fun k hk => by
    rw [p, p', Nat.add_assoc, Nat.add_assoc]; exact h (n + k) (by omega)
  rw [← e]
  revert this
  generalize g a.1 gs a.2 = x
  generalize g a.1 gs' b.2 = y
  intro hxy
  cases x <;> cases y
  · exact hxy
  · exact hxy
  · exact hxy
  · exact ⟨hxy.1, by rw [hxy.2.1, p, Nat.add_assoc], by rw [hxy.2.2, p', Nat.add_assoc]⟩

theorem Reads.lift {α : Type} (x : Go α) : Reads 0 (fun (_ : ℕ → Nega N ℤ) (st : KG C) => x >>= fun a => .ok (a, st)) := by
  intro gs gs' st st' _
  cases x with
  | ok a => exact ⟨rfl, rfl, rfl⟩
  | error e => rfl

/-- a loop `for i := 0; i < n; i++` -/
theorem rel_range {σ τ : Type} {f : σ → ℕ → Go σ} {g : τ → ℕ → Go τ} (R : ℕ → σ → τ → Prop) (n : ℕ) {s : σ} {t : τ} (h0 : R 0 s t)
    (h : ∀ i < n, ∀ s t, R i s t → Go.Rel (R (i + 1)) (f s i) (g t i)) : Go.Rel (R n) (Go.loop f s (List.range n)) (Go.loop g t (List.range n)) := by
  have key : ∀ (m k : ℕ) (s : σ) (t : τ), k + m = n → R k s t →
      Go.Rel (R n) (Go.loop f s (List.range' k m)) (Go.loop g t (List.range' k m)) := by
    intro m
    induction m with
    | zero => intro k s t e r; have : k = n := by omega
              subst this; exact r
    | succ m ih =>
      intro k s t e r
      rw [List.range'_succ, Go.loop_cons, Go.loop_cons]
      have := h k (by omega) s t r
      cases hf : f s k with
      | ok s1 =>
        cases hg : g t k with
        | ok t1 => rw [hf, hg] at this; exact ih (k + 1) s1 t1 (by omega) this
        | error e => rw [hf, hg] at this; cases this
      | error e =>
        cases hg : g t k with
        | ok t1 => rw [hf, hg] at this; cases this
        | error e' => rw [hf, hg] at this; exact this
  rw [List.range_eq_range']
  exact key n 0 s t (by omega) h0

/-! ## the pools -/

theorem gadgetLoop_congr (i : ℕ) {p0 p0' : QRows C} (h : ∀ l < C.nQ, p0 l = p0' l) (n : ℕ) :
    ∀ (j : ℕ) (p1 : QRows C), gadgetLoop i p0 n j p1 = gadgetLoop i p0' n j p1 := by
  induction n with
  | zero => intro j p1; rfl
  | succ n ih =>
    intro j p1
    unfold gadgetLoop
    split
    · rfl
    · rw [h _ (by omega), ih]

theorem genGaussianError_agree (gs gs' : ℕ → Nega N ℤ) (pos pos' : ℕ) (h : gs pos = gs' pos') (e e' : PolyQP C) :
    (genGaussianError gs pos e).Agree (C.nQ - 1) (genGaussianError gs' pos' e') := by
  unfold genGaussianError
  rw [h]
  refine (setQP_agree _ _ _).trans (PolyQP.Agree.trans ?_ (setQP_agree _ _ _).symm)
  have a : (sampleQP (gs' pos') e).Agree (C.nQ - 1) (sampleQP (gs' pos') e') := (setQP_agree _ _ _).trans (setQP_agree _ _ _).symm
  exact ⟨fun i hi => by show (C.RQ i).ntt _ = (C.RQ i).ntt _; rw [a.1 i hi], fun j hj => by
    show (C.RP j).ntt _ = (C.RP j).ntt _; rw [a.2 j hj]⟩

theorem relinB_congr (sk : SKey C) (a old : PolyQP C) {tmp tmp' : PolyQP C} (h : tmp.Agree (C.nQ - 1) tmp') :
    relinB sk a tmp old = relinB sk a tmp' old := by
  unfold relinB qpSub
  dsimp only
  rw [setQP_congr (new := ⟨fun i => (C.RQ i).sub (tmp.Q i) _, fun j => (C.RP j).sub (tmp.P j) _⟩)
    (new' := ⟨fun i => (C.RQ i).sub (tmp'.Q i) _, fun j => (C.RP j).sub (tmp'.P j) _⟩)
    ⟨fun i hi => by show (C.RQ i).sub _ _ = (C.RQ i).sub _ _; rw [h.1 i hi], fun j hj => by
      show (C.RP j).sub _ _ = (C.RP j).sub _ _; rw [h.2 j hj]⟩]

/-! ## the generators -/

/-- `GenSecretKeyGaussian` reads one polynomial -/
theorem reads_secretKeyGaussian (id : String) : Reads (C := C) 1 (fun gs st => .ok (genSecretKeyGaussian gs st id)) := by
  intro gs gs' st st' h
  refine ⟨?_, rfl, rfl⟩
  show genSecretKeyFromSampler (gs st.pos) id = genSecretKeyFromSampler (gs' st'.pos) id
  rw [show gs st.pos = gs' st'.pos from h 0 (by omega)]

/-- `GenPublicKey` reads one polynomial -/
theorem reads_publicKey (crs : GoMap ℤ (Swk C)) (sk : SKey C) : Reads 1 (fun gs st => genPublicKey crs gs st sk) := by
  intro gs gs' st st' h
  have h0 : gs st.pos = gs' st'.pos := h 0 (by omega)
  dsimp only
  unfold genPublicKey
  refine (Go.Rel.of_eq rfl).bind fun a b _ _ hab => ?_
  subst hab
  split
  · rfl
  · refine ⟨?_, rfl, rfl⟩
    dsimp only
    rw [h0]

/-- `GenSwitchingKey` reads `Beta(MaxLevel)` polynomials -/
theorem reads_switchingKey (sk : SKey C) (swk : Swk C) : Reads (C.beta (C.nQ - 1)) (fun gs st => genSwitchingKey gs st sk swk) := by
  intro gs gs' st st' h
  dsimp only
  unfold genSwitchingKey
  dsimp only
  have key := rel_range (f := fun (w : Swk C × KG C) i =>
    if w.1.len ≤ i then (.error .indexOutOfRange : Go (Swk C × KG C))
    else .ok (⟨w.1.len, Function.update w.1.val i (genSwkBlock (gs w.2.pos) w.2.poolQ i (w.1.val i))⟩, { w.2 with pos := w.2.pos + 1 }))
    (g := fun (w : Swk C × KG C) i =>
    if w.1.len ≤ i then (.error .indexOutOfRange : Go (Swk C × KG C))
    else .ok (⟨w.1.len, Function.update w.1.val i (genSwkBlock (gs' w.2.pos) w.2.poolQ i (w.1.val i))⟩, { w.2 with pos := w.2.pos + 1 }))
    (fun i w w' => w.1 = w'.1 ∧ (w.2.pos = st.pos + i ∧ w'.2.pos = st'.pos + i) ∧ ∀ l < C.nQ, w.2.poolQ l = w'.2.poolQ l)
    (C.beta (C.nQ - 1)) (s := (swk, { st with poolQ := setQ (C.nQ - 1) (fun i => (C.RQ i).mulScalar C.P (sk.value.Q i)) st.poolQ }))
    (t := (swk, { st' with poolQ := setQ (C.nQ - 1) (fun i => (C.RQ i).mulScalar C.P (sk.value.Q i)) st'.poolQ }))
    ⟨rfl, ⟨rfl, rfl⟩, fun l hl => by dsimp only; rw [setQ_le _ _ (by omega), setQ_le _ _ (by omega)]⟩ (by
      rintro i hi ⟨w, s⟩ ⟨w', s'⟩ ⟨e, ⟨p, p'⟩, q⟩
      dsimp only at e p p' q ⊢
      subst e
      split
      · rfl
      · refine ⟨?_, ⟨by dsimp only; omega, by dsimp only; omega⟩, q⟩
        dsimp only
        rw [p, p', h i hi]
        unfold genSwkBlock
        dsimp only
        rw [gadgetLoop_congr i q])
  revert key
  generalize Go.loop _ _ _ = x
  generalize Go.loop _ _ _ = y
  intro hxy
  cases x <;> cases y
  · exact hxy
  · exact hxy
  · exact hxy
  · exact ⟨hxy.1, hxy.2.1⟩

/-- `GenRotationKey` reads `Beta(MaxLevel)` polynomials -/
theorem reads_rotationKey (crs : GoMap ℤ (Swk C)) (rot : ℤ) (sk : SKey C) :
    Reads (C.beta (C.nQ - 1)) (fun gs st => genRotationKey crs gs st rot sk) := by
  intro gs gs' st st' h
  dsimp only
  unfold genRotationKey
  split
  · rfl
  · dsimp only
    refine (reads_switchingKey sk Swk.new gs gs' st st' h).bind fun a b _ _ hab => ?_
    obtain ⟨e, p⟩ := hab
    rw [← e]
    refine (Go.Rel.of_eq rfl).bind fun c c' _ _ hc => ?_
    subst hc
    refine (Go.Rel.of_eq rfl).bind fun d d' _ _ hd => ?_
    subst hd
    exact ⟨rfl, p⟩

/-- `GenConjugationKey` reads `Beta(MaxLevel)` polynomials -/
theorem reads_conjugationKey (crs : GoMap ℤ (Swk C)) (sk : SKey C) :
    Reads (C.beta (C.nQ - 1)) (fun gs st => genConjugationKey crs gs st sk) := by
  intro gs gs' st st' h
  dsimp only
  unfold genConjugationKey
  dsimp only
  refine (reads_switchingKey _ Swk.new gs gs' st st' h).bind fun a b _ _ hab => ?_
  obtain ⟨e, p⟩ := hab
  rw [← e]
  refine (Go.Rel.of_eq rfl).bind fun c c' _ _ hc => ?_
  subst hc
  refine (Go.Rel.of_eq rfl).bind fun d d' _ _ hd => ?_
  subst hd
  exact ⟨rfl, p⟩

/-- `GenRelinearizationKey` of mkrlwe reads `3*Beta(MaxLevel)` polynomials -/
theorem reads_relinearizationKey (crs : GoMap ℤ (Swk C)) (sk r : SKey C) :
    Reads (3 * C.beta (C.nQ - 1)) (fun gs st => genRelinearizationKey crs gs st sk r) := by
  intro gs gs' st st' h
  dsimp only
  unfold genRelinearizationKey
  split
  · rfl
  refine (Go.Rel.of_eq rfl).bind fun a a' _ _ ha => ?_
  subst ha
  refine (rel_range (fun i (w w' : Swk C × KG C) => w.1 = w'.1 ∧ w.2.pos = st.pos + i ∧ w'.2.pos = st'.pos + i) (C.beta (C.nQ - 1))
    (s := (Swk.new, st)) (t := (Swk.new, st')) ⟨rfl, rfl, rfl⟩ ?_).bind fun b b' _ _ hb => ?_
  · rintro i hi ⟨w, s⟩ ⟨w', s'⟩ ⟨e, p, p'⟩
    dsimp only at e p p' ⊢
    subst e
    split
    · rfl
    · refine ⟨?_, by dsimp only; omega, by dsimp only; omega⟩
      dsimp only
      rw [relinB_congr sk (a.val i) (w.val i) (genGaussianError_agree gs gs' s.pos s'.pos (by rw [p, p']; exact h i (by omega)) s.poolQP s'.poolQP)]
  obtain ⟨eb, pb, pb'⟩ := hb
  refine (reads_switchingKey sk Swk.new gs gs' b.2 b'.2 fun k hk => by
    rw [pb, pb', Nat.add_assoc, Nat.add_assoc]; exact h _ (by omega)).bind fun d d' _ _ hd => ?_
  obtain ⟨ed, pd, pd'⟩ := hd
  rw [← ed]
  refine (Go.Rel.of_eq rfl).bind fun dv dv' _ _ hdv => ?_
  subst hdv
  refine (reads_switchingKey r Swk.new gs gs' d.2 d'.2 fun k hk => by
    rw [pd, pd', pb, pb', Nat.add_assoc, Nat.add_assoc, Nat.add_assoc, Nat.add_assoc]; exact h _ (by omega)).bind fun v v' _ _ hv => ?_
  obtain ⟨ev, pv, pv'⟩ := hv
  rw [← ev, ← eb]
  refine (Go.Rel.of_eq rfl).bind fun u u' _ _ hu => ?_
  subst hu
  refine (Go.Rel.of_eq rfl).bind fun vv vv' _ _ hvv => ?_
  subst hvv
  exact ⟨rfl, by dsimp only; omega, by dsimp only; omega⟩

theorem reads_bfvHalf (mods : ℕ → ℕ) (sk : SKey B.C) (swk : Swk B.C) :
    Reads (B.C.beta (B.C.nQ - 1)) (fun gs st => genBfvHalf mods gs sk swk st) := by
  intro gs gs' st st' h
  dsimp only
  unfold genBfvHalf
  refine rel_range (fun i (w w' : Swk B.C × KG B.C) => w.1 = w'.1 ∧ w.2.pos = st.pos + i ∧ w'.2.pos = st'.pos + i) (B.C.beta (B.C.nQ - 1))
    (s := (swk, st)) (t := (swk, st')) ⟨rfl, rfl, rfl⟩ ?_
  rintro i hi ⟨w, s⟩ ⟨w', s'⟩ ⟨e, p, p'⟩
  dsimp only at e p p' ⊢
  subst e
  refine (Go.Rel.of_eq rfl).bind fun a a' _ _ ha => ?_
  subst ha
  split
  · rfl
  · refine ⟨?_, by dsimp only; omega, by dsimp only; omega⟩
    dsimp only
    unfold genGaussianError
    rw [show gs s.pos = gs' s'.pos by rw [p, p']; exact h i hi]

/-- `GenBFVSwitchingKey` reads `2*Beta(MaxLevel)` polynomials -/
theorem reads_bfvSwitchingKey (sk : SKey B.C) (swk1 swk2 : Swk B.C) :
    Reads (2 * B.C.beta (B.C.nQ - 1)) (fun gs st => genBFVSwitchingKey gs st sk swk1 swk2) := by
  intro gs gs' st st' h
  dsimp only
  unfold genBFVSwitchingKey
  refine (reads_bfvHalf B.C.q sk swk1 gs gs' st st' fun k hk => h k (by omega)).bind fun a b _ _ hab => ?_
  obtain ⟨e, p, p'⟩ := hab
  refine (reads_bfvHalf B.m sk swk2 gs gs' a.2 b.2 fun k hk => by
    rw [p, p', Nat.add_assoc, Nat.add_assoc]; exact h _ (by omega)).bind fun x y _ _ hxy => ?_
  obtain ⟨e', q, q'⟩ := hxy
  exact ⟨by rw [e, e'], by dsimp only; omega, by dsimp only; omega⟩

/-- `GenRelinearizationKey` of mkbfv reads `5*Beta(MaxLevel)` polynomials -/
theorem reads_bfvRelinearizationKey (crs : GoMap ℤ (Swk B.C)) (sk r : SKey B.C) :
    Reads (5 * B.C.beta (B.C.nQ - 1)) (fun gs st => genBfvRelinearizationKey crs gs st sk r) := by
  intro gs gs' st st' h
  dsimp only
  unfold genBfvRelinearizationKey
  refine (Go.Rel.of_eq rfl).bind fun a1 a1' _ _ ha => ?_
  subst ha
  refine (Go.Rel.of_eq rfl).bind fun a2 a2' _ _ ha => ?_
  subst ha
  refine (rel_range (fun i (w w' : (Swk B.C × Swk B.C) × (PolyQP B.C × PolyQP B.C) × KG B.C) =>
    w.1 = w'.1 ∧ w.2.2.pos = st.pos + 2 * i ∧ w'.2.2.pos = st'.pos + 2 * i) (B.C.beta (B.C.nQ - 1))
    (s := ((Swk.new, Swk.new), (PolyQP.zero, PolyQP.zero), st)) (t := ((Swk.new, Swk.new), (PolyQP.zero, PolyQP.zero), st'))
    ⟨rfl, rfl, rfl⟩ ?_).bind fun b b' _ _ hb => ?_
  · rintro i hi ⟨w, e, s⟩ ⟨w', e', s'⟩ ⟨ew, p, p'⟩
    dsimp only at ew p p' ⊢
    subst ew
    unfold genBStep
    dsimp only
    split
    · rfl
    · refine ⟨?_, by dsimp only; omega, by dsimp only; omega⟩
      dsimp only
      rw [relinB_congr sk (a1.val i) (w.1.val i) (genGaussianError_agree gs gs' s.pos s'.pos (by rw [p, p']; exact h _ (by omega)) e.1 e'.1),
        relinB_congr sk (a2.val i) (w.2.val i) (genGaussianError_agree gs gs' (s.pos + 1) (s'.pos + 1)
          (by rw [p, p', Nat.add_assoc, Nat.add_assoc]; exact h _ (by omega)) e.2 e'.2)]
  obtain ⟨eb, pb, pb'⟩ := hb
  refine (reads_bfvSwitchingKey sk Swk.new Swk.new gs gs' b.2.2 b'.2.2 fun k hk => by
    rw [pb, pb', Nat.add_assoc, Nat.add_assoc]; exact h _ (by omega)).bind fun d d' _ _ hd => ?_
  obtain ⟨ed, pd, pd'⟩ := hd
  rw [← ed]
  refine (Go.Rel.of_eq rfl).bind fun d1 d1' _ _ hd1 => ?_
  subst hd1
  refine (Go.Rel.of_eq rfl).bind fun d2 d2' _ _ hd2 => ?_
  subst hd2
  refine (reads_switchingKey r Swk.new gs gs' d.2 d'.2 fun k hk => by
    rw [pd, pd', pb, pb', Nat.add_assoc, Nat.add_assoc, Nat.add_assoc, Nat.add_assoc]; exact h _ (by omega)).bind fun v v' _ _ hv => ?_
  obtain ⟨ev, pv, pv'⟩ := hv
  rw [← ev, ← eb]
  refine (Go.Rel.of_eq rfl).bind fun u u' _ _ hu => ?_
  subst hu
  refine (Go.Rel.of_eq rfl).bind fun vv vv' _ _ hvv => ?_
  subst hvv
  exact ⟨rfl, by dsimp only; omega, by dsimp only; omega⟩

/-- number of the powers of two `2^j < N/2` with `i ≤ j < i + fuel` -/
def powers (N i fuel : ℕ) : ℕ := (List.range' i fuel).countP fun j => decide (2 ^ j < N / 2)

theorem reads_defaultRotLoop (crs : GoMap ℤ (Swk C)) (sk : SKey C) (fuel : ℕ) : ∀ (i : ℕ) (set : RotKeySet (GalKey C)),
    Reads (powers N i fuel * C.beta (C.nQ - 1)) (fun gs st => defaultRotLoop crs gs sk fuel (2 ^ i) set st) := by
  induction fuel with
  | zero =>
    intro i set gs gs' st st' _
    refine ⟨rfl, ?_, ?_⟩ <;> simp [powers]
  | succ n ih =>
    intro i set gs gs' st st' h
    dsimp only
    unfold defaultRotLoop
    by_cases hlt : 2 ^ i < N / 2
    · rw [if_pos hlt, if_pos hlt]
      have hp : powers N i (n + 1) = powers N (i + 1) n + 1 := by
        unfold powers; rw [List.range'_succ, List.countP_cons, if_pos (by simpa using hlt)]
      rw [hp, Nat.add_mul, Nat.one_mul] at h ⊢
      refine (reads_rotationKey crs _ sk gs gs' st st' fun k hk => h k (by omega)).bind fun a b _ _ hab => ?_
      obtain ⟨e, p, p'⟩ := hab
      rw [← e, show 2 * 2 ^ i = 2 ^ (i + 1) by rw [pow_succ]; ring]
      have := ih (i + 1) (set.add GalKey.id GalKey.rotIdx a.1) gs gs' a.2 b.2 fun k hk => by
        rw [p, p', Nat.add_assoc, Nat.add_assoc]; exact h _ (by omega)
      revert this
      dsimp only
      generalize defaultRotLoop crs gs sk n (2 ^ (i + 1)) _ a.2 = x
      generalize defaultRotLoop crs gs' sk n (2 ^ (i + 1)) _ b.2 = y
      intro hxy
      cases x <;> cases y
      · exact hxy
      · exact hxy
      · exact hxy
      · exact ⟨hxy.1, by rw [hxy.2.1, p]; omega, by rw [hxy.2.2, p']; omega⟩
    · rw [if_neg hlt, if_neg hlt]
      have hp : powers N i (n + 1) = 0 := by
        unfold powers
        rw [List.countP_eq_zero]
        intro j hj
        have hij := (List.mem_range'_1.mp hj).1
        have : 2 ^ i ≤ 2 ^ j := Nat.pow_le_pow_right (by norm_num) hij
        simp only [decide_eq_true_eq]
        omega
      rw [hp]
      refine ⟨rfl, ?_, ?_⟩ <;> simp

/-- `GenDefaultRotationKeys` reads `Beta(MaxLevel)` polynomials for every power of two below `N/2` -/
theorem reads_defaultRotationKeys (crs : GoMap ℤ (Swk C)) (sk : SKey C) (set : RotKeySet (GalKey C)) :
    Reads (powers N 0 N * C.beta (C.nQ - 1)) (fun gs st => genDefaultRotationKeys crs gs st sk set) :=
  reads_defaultRotLoop crs sk N 0 set

/-! ## histories of one key generator -/

/-- a call of a key generator that reads its sampler -/
inductive Call (C : Ctx N) where
  | secret (id : String)
  | pub (sk : SKey C)
  | relin (sk r : SKey C)
  | rotation (rot : ℤ) (sk : SKey C)
  | conjugation (sk : SKey C)

/-- what the call returns -/
inductive Key (C : Ctx N) where
  | secret (k : SKey C)
  | pub (k : PKey C)
  | relin (k : Rlk C)
  | gal (k : GalKey C)

/-- number of sampler outputs a call reads -/
def Call.cost : Call C → ℕ
  | .secret _ => 1
  | .pub _ => 1
  | .relin _ _ => 3 * C.beta (C.nQ - 1)
  | .rotation _ _ => C.beta (C.nQ - 1)
  | .conjugation _ => C.beta (C.nQ - 1)

/-- the call, made on a generator in state `st` -/
def Call.run (crs : GoMap ℤ (Swk C)) (gs : ℕ → Nega N ℤ) (st : KG C) : Call C → Go (Key C × KG C)
  | .secret id => .ok ((.secret (genSecretKeyGaussian gs st id).1), (genSecretKeyGaussian gs st id).2)
  | .pub sk => genPublicKey crs gs st sk >>= fun w => .ok (.pub w.1, w.2)
  | .relin sk r => genRelinearizationKey crs gs st sk r >>= fun w => .ok (.relin w.1, w.2)
  | .rotation rot sk => genRotationKey crs gs st rot sk >>= fun w => .ok (.gal w.1, w.2)
  | .conjugation sk => genConjugationKey crs gs st sk >>= fun w => .ok (.gal w.1, w.2)

/-- several calls, one after the other; a fault ends the program -/
def runCalls (crs : GoMap ℤ (Swk C)) (gs : ℕ → Nega N ℤ) : KG C → List (Call C) → Go (List (Key C) × KG C)
  | st, [] => .ok ([], st)
  | st, c :: cs => do
    let w ← c.run crs gs st
    let v ← runCalls crs gs w.2 cs
    .ok (w.1 :: v.1, v.2)

theorem Reads.map {α β : Type} {n : ℕ} {f : (ℕ → Nega N ℤ) → KG C → Go (α × KG C)} (g : α → β) (hf : Reads n f) :
    Reads n (fun gs st => f gs st >>= fun w => .ok (g w.1, w.2)) := fun gs gs' st st' h =>
  (hf gs gs' st st' h).bind fun _ _ _ _ hab => ⟨congrArg g hab.1, hab.2⟩

/-- every call reads a window of `cost` outputs -/
theorem reads_call (crs : GoMap ℤ (Swk C)) (c : Call C) : Reads c.cost (fun gs st => c.run crs gs st) := by
  cases c with
  | secret id =>
    intro gs gs' st st' h
    have := reads_secretKeyGaussian (C := C) id gs gs' st st' h
    exact ⟨congrArg Key.secret this.1, this.2⟩
  | pub sk => exact (reads_publicKey crs sk).map _
  | relin sk r => exact (reads_relinearizationKey crs sk r).map _
  | rotation rot sk => exact (reads_rotationKey crs rot sk).map _
  | conjugation sk => exact (reads_conjugationKey crs sk).map _

/-- position, relative to the start of the history, of the window of call number `k` -/
def start (cs : List (Call C)) (k : ℕ) : ℕ := ((cs.take k).map Call.cost).sum

/-- the windows of a history follow each other without overlap -/
theorem start_succ (cs : List (Call C)) {k : ℕ} {c : Call C} (h : cs[k]? = some c) : start cs (k + 1) = start cs k + c.cost := by
  unfold start
  obtain ⟨hk, e⟩ := List.getElem?_eq_some_iff.mp h
  rw [List.take_succ_eq_append_getElem hk, List.map_append, List.sum_append, e]
  simp

theorem start_mono (cs : List (Call C)) {k l : ℕ} (h : k ≤ l) : start cs k ≤ start cs l := by
  induction l, h using Nat.le_induction with
  | base => exact le_rfl
  | succ l hl ih =>
    refine ih.trans ?_
    by_cases hc : l < cs.length
    · rw [start_succ cs (List.getElem?_eq_getElem hc)]; omega
    · unfold start; rw [List.take_of_length_le (by omega), List.take_of_length_le (by omega)]

/-- **C65, disjointness.** No output of the sampler belongs to the windows of two calls of a history. -/
theorem windows_disjoint (cs : List (Call C)) {k l : ℕ} {c d : Call C} (hk : cs[k]? = some c) (hl : cs[l]? = some d) (hne : k ≠ l) {n : ℕ}
    (h : start cs k ≤ n ∧ n < start cs k + c.cost) (h' : start cs l ≤ n ∧ n < start cs l + d.cost) : False := by
  rcases Nat.lt_or_gt_of_ne hne with hlt | hlt
  · have := start_mono cs (Nat.succ_le_of_lt hlt)
    rw [Nat.succ_eq_add_one, start_succ cs hk] at this
    omega
  · have := start_mono cs (Nat.succ_le_of_lt hlt)
    rw [Nat.succ_eq_add_one, start_succ cs hl] at this
    omega

/-- the result of a call depends on its window only -/
theorem call_window (crs : GoMap ℤ (Swk C)) (c : Call C) {gs gs' : ℕ → Nega N ℤ} {st st' s1 : KG C} {key : Key C}
    (h : c.run crs gs st = .ok (key, s1)) (hw : ∀ k < c.cost, gs (st.pos + k) = gs' (st'.pos + k)) :
    s1.pos = st.pos + c.cost ∧ ∃ s1', c.run crs gs' st' = .ok (key, s1') ∧ s1'.pos = st'.pos + c.cost := by
  have := reads_call crs c gs gs' st st' hw
  dsimp only at this
  rw [h] at this
  cases hy : c.run crs gs' st' with
  | ok y =>
    rw [hy] at this
    obtain ⟨e, p, p'⟩ := this
    exact ⟨p, y.2, by rw [show key = y.1 from e], p'⟩
  | error e => rw [hy] at this; exact this.elim

/-- **C65, histories.** In a history of calls of one key generator, the result of call `k` is what a generator whose sampler starts at the
window of call `k` returns, with any contents of the pools; and the sampler has advanced by the sum of the windows. -/
theorem history (crs : GoMap ℤ (Swk C)) (gs : ℕ → Nega N ℤ) (cs : List (Call C)) : ∀ (st st' : KG C) (keys : List (Key C)),
    runCalls crs gs st cs = .ok (keys, st') →
    keys.length = cs.length ∧ st'.pos = st.pos + start cs cs.length ∧
    ∀ (k : ℕ) (c : Call C), cs[k]? = some c → ∃ key : Key C, keys[k]? = some key ∧
      ∀ (gs' : ℕ → Nega N ℤ) (fresh : KG C), (∀ n < c.cost, gs' (fresh.pos + n) = gs (st.pos + start cs k + n)) →
        ∃ s, c.run crs gs' fresh = .ok (key, s) ∧ s.pos = fresh.pos + c.cost := by
  induction cs with
  | nil =>
    intro st st' keys h
    injection h with h
    injection h with h1 h2
    subst h1; subst h2
    exact ⟨rfl, rfl, fun k c hc => by simp at hc⟩
  | cons c cs ih =>
    intro st st' keys h
    unfold runCalls at h
    cases hc : c.run crs gs st with
    | error e => rw [hc] at h; cases h
    | ok w =>
      rw [hc, bind_ok] at h
      cases hv : runCalls crs gs w.2 cs with
      | error e => rw [hv] at h; cases h
      | ok v =>
        rw [hv, bind_ok] at h
        injection h with h
        injection h with h1 h2
        subst h1; subst h2
        obtain ⟨i1, i2, i3⟩ := ih w.2 v.2 v.1 hv
        have hp : w.2.pos = st.pos + c.cost := (call_window crs c (st' := st) (gs' := gs) hc fun _ _ => rfl).1
        have hs : ∀ k, start (c :: cs) (k + 1) = c.cost + start cs k := fun k => by
          unfold start; rw [List.take_succ_cons, List.map_cons, List.sum_cons]
        refine ⟨by simp [i1], by rw [i2, List.length_cons, hs, hp]; omega, fun k d hd => ?_⟩
        cases k with
        | zero =>
          simp only [List.getElem?_cons_zero, Option.some.injEq] at hd
          subst hd
          refine ⟨w.1, rfl, fun gs' fresh hw => ?_⟩
          exact (call_window crs c (st' := fresh) (gs' := gs') hc fun n hn => by
            rw [hw n hn]; rfl).2
        | succ k =>
          obtain ⟨key, k1, k2⟩ := i3 k d (by simpa using hd)
          refine ⟨key, by simpa using k1, fun gs' fresh hw => k2 gs' fresh fun n hn => ?_⟩
          rw [hw n hn, hs, hp]
          congr 1
          omega

/-- **C65, independence.** Two histories that make the same calls and whose samplers agree on the window of call `k` (and may differ
everywhere else, as may the pools) return the same key at call `k`. -/
theorem independent (crs : GoMap ℤ (Swk C)) {gs gs' : ℕ → Nega N ℤ} {cs : List (Call C)} {st st' s s' : KG C} {keys keys' : List (Key C)}
    (h : runCalls crs gs st cs = .ok (keys, s)) (h' : runCalls crs gs' st' cs = .ok (keys', s')) {k : ℕ} {c : Call C} (hk : cs[k]? = some c)
    (hw : ∀ n < c.cost, gs (st.pos + start cs k + n) = gs' (st'.pos + start cs k + n)) : keys[k]? = keys'[k]? := by
  obtain ⟨_, _, a⟩ := history crs gs cs st s keys h
  obtain ⟨_, _, b⟩ := history crs gs' cs st' s' keys' h'
  obtain ⟨key, a1, a2⟩ := a k c hk
  obtain ⟨key', b1, b2⟩ := b k c hk
  obtain ⟨x, x1, _⟩ := a2 (fun n => gs (st.pos + start cs k + n)) ⟨0, st.poolQ, st.poolQP⟩ fun n _ => by dsimp only; rw [Nat.zero_add]
  obtain ⟨y, y1, _⟩ := b2 (fun n => gs (st.pos + start cs k + n)) ⟨0, st.poolQ, st.poolQP⟩ fun n hn => by dsimp only; rw [Nat.zero_add, hw n hn]
  rw [a1, b1]
  rw [x1] at y1
  injection y1 with y1
  injection y1 with y1 _
  rw [y1]

/-! ## encryption -/

theorem onRows_congr (ct : Ct C) (id : String) {level : ℕ} {f g : ∀ i, Limb N (C.q i) → Limb N (C.q i)} (h : ∀ i ≤ level, ∀ a, f i a = g i a) :
    ct.onRows id level f = ct.onRows id level g := by
  unfold Ct.onRows
  refine Go.bind_congr _ fun p _ => Go.bind_congr _ fun _ _ => ?_
  rw [Poly.set_congr (b := fun i => g i (p.rows i)) fun i hi => h i hi _]

/-- two runs of an encryption with the same result, each having read `a` ternary and `b` Gaussian polynomials -/
def SameEnc {α : Type} (a b : ℕ) (st st' : Enc C) : α × Enc C → α × Enc C → Prop := fun r r' =>
  r.1 = r'.1 ∧ (r.2.upos = st.upos + a ∧ r.2.gpos = st.gpos + b) ∧ r'.2.upos = st'.upos + a ∧ r'.2.gpos = st'.gpos + b

theorem reads_encryptBody (ntt : Bool) {gs gs' : ℕ → Nega N ℤ} {st st' : Enc C} (h0 : gs st.gpos = gs' st'.gpos)
    (h1 : gs (st.gpos + 1) = gs' (st'.gpos + 1)) (l : ℕ) (pt : Poly C) (id : String) (ct : Ct C) :
    Go.Rel (SameEnc 0 2 st st') (encryptBody ntt gs st l pt id ct) (encryptBody ntt gs' st' l pt id ct) := by
  unfold encryptBody
  cases ntt with
  | true =>
    rw [if_pos rfl, if_pos rfl]
    unfold encryptNTT
    dsimp only
    rw [h0, h1]
    refine (Go.Rel.of_eq (onRows_congr ct id fun i hi a => by rw [setQ_le _ _ hi, setQ_le _ _ hi, setQ_le _ _ hi, setQ_le _ _ hi])).bind
      fun c c' _ _ hc => ?_
    subst hc
    refine (Go.Rel.of_eq rfl).bind fun _ _ _ _ _ => ?_
    split
    · refine (Go.Rel.of_eq (onRows_congr c "0" fun i hi a => by
        simp only [setQ_le _ _ hi])).bind fun d d' _ _ hd => ?_
      subst hd
      exact ⟨rfl, ⟨rfl, rfl⟩, rfl, rfl⟩
    · refine (Go.Rel.of_eq (onRows_congr c "0" fun i hi a => by
        simp only [setQ_le _ _ hi])).bind fun d d' _ _ hd => ?_
      subst hd
      refine (Go.Rel.of_eq rfl).bind fun e e' _ _ he => ?_
      subst he
      exact ⟨rfl, ⟨rfl, rfl⟩, rfl, rfl⟩
  | false =>
    rw [if_neg (by simp), if_neg (by simp)]
    unfold encryptCoeff
    dsimp only
    rw [h0, h1]
    refine (Go.Rel.of_eq rfl).bind fun c c' _ _ hc => ?_
    subst hc
    refine (Go.Rel.of_eq rfl).bind fun d d' _ _ hd => ?_
    subst hd
    refine (Go.Rel.of_eq rfl).bind fun l0 l0' _ _ hl => ?_
    subst hl
    refine (Go.Rel.of_eq rfl).bind fun e e' _ _ he => ?_
    subst he
    refine (Go.Rel.of_eq rfl).bind fun l1 l1' _ _ hl => ?_
    subst hl
    refine (Go.Rel.of_eq rfl).bind fun f f' _ _ hf => ?_
    subst hf
    refine (Go.Rel.of_eq rfl).bind fun _ _ _ _ _ => ?_
    split
    · refine (Go.Rel.of_eq rfl).bind fun g g' _ _ hg => ?_
      subst hg
      exact ⟨rfl, ⟨rfl, rfl⟩, rfl, rfl⟩
    · refine (Go.Rel.of_eq (onRows_congr f "0" fun i hi a => by
        simp only [setQ_le _ _ hi])).bind fun g g' _ _ hg => ?_
      subst hg
      exact ⟨rfl, ⟨rfl, rfl⟩, rfl, rfl⟩

/-- **C65, encryption.** `Encrypt` reads one ternary and two Gaussian polynomials; the ciphertext (or the fault) is a function of the
arguments and these three, whatever the encryptor's pool holds and wherever its samplers stand. -/
theorem reads_encrypt {us us' gs gs' : ℕ → Nega N ℤ} {st st' : Enc C} (hu : us st.upos = us' st'.upos) (h0 : gs st.gpos = gs' st'.gpos)
    (h1 : gs (st.gpos + 1) = gs' (st'.gpos + 1)) (pt : Poly C) (pk : PKey C) (ctOut : Ct C) :
    Go.Rel (SameEnc 1 2 st st') (encrypt us gs st pt pk ctOut) (encrypt us' gs' st' pt pk ctOut) := by
  unfold encrypt
  refine (Go.Rel.of_eq rfl).bind fun l l' _ _ hl => ?_
  subst hl
  refine (Go.Rel.of_eq rfl).bind fun p p' _ _ hp => ?_
  subst hp
  dsimp only
  rw [hu]
  refine (Go.Rel.of_eq (onRows_congr ctOut "0" fun i hi a => by simp only [setQ_le _ _ hi])).bind fun c c' _ _ hc => ?_
  subst hc
  refine (Go.Rel.of_eq (onRows_congr c pk.id fun i hi a => by simp only [setQ_le _ _ hi])).bind fun d d' _ _ hd => ?_
  subst hd
  refine (reads_encryptBody p.isNTT (st := ⟨_, st.upos + 1, st.gpos⟩) (st' := ⟨_, st'.upos + 1, st'.gpos⟩) h0 h1 _ pt pk.id d).bind
    fun w w' _ _ hw => ?_
  obtain ⟨ew, ⟨p1, p2⟩, p3, p4⟩ := hw
  rw [← ew]
  refine (Go.Rel.of_eq rfl).bind fun q q' _ _ hq => ?_
  subst hq
  refine (Go.Rel.of_eq rfl).bind fun r r' _ _ hr => ?_
  subst hr
  refine (Go.Rel.of_eq rfl).bind fun x x' _ _ hx => ?_
  subst hx
  refine (Go.Rel.of_eq rfl).bind fun y y' _ _ hy => ?_
  subst hy
  exact ⟨rfl, ⟨p1, p2⟩, p3, p4⟩

/-- several encryptions by one encryptor, into the given receivers -/
def encryptMany (us gs : ℕ → Nega N ℤ) : Enc C → List (Poly C × PKey C × Ct C) → Go (List (Ct C) × Enc C)
  | st, [] => .ok ([], st)
  | st, m :: ms => do
    let w ← encrypt us gs st m.1 m.2.1 m.2.2
    let v ← encryptMany us gs w.2 ms
    .ok (w.1 :: v.1, v.2)

/-- **C65, encryption histories.** Ciphertext number `k` of an encryptor is a function of the arguments of the `k`-th call, of output `k`
of its ternary sampler and of outputs `2k` and `2k+1` of its Gaussian sampler. -/
theorem encrypt_history (us gs : ℕ → Nega N ℤ) (ms : List (Poly C × PKey C × Ct C)) : ∀ (st st' : Enc C) (cts : List (Ct C)),
    encryptMany us gs st ms = .ok (cts, st') →
    cts.length = ms.length ∧ st'.upos = st.upos + ms.length ∧ st'.gpos = st.gpos + 2 * ms.length ∧
    ∀ (k : ℕ) (m : Poly C × PKey C × Ct C), ms[k]? = some m → ∃ ct : Ct C, cts[k]? = some ct ∧
      ∀ (us' gs' : ℕ → Nega N ℤ) (fresh : Enc C), us' fresh.upos = us (st.upos + k) → gs' fresh.gpos = gs (st.gpos + 2 * k) →
        gs' (fresh.gpos + 1) = gs (st.gpos + 2 * k + 1) → ∃ s, encrypt us' gs' fresh m.1 m.2.1 m.2.2 = .ok (ct, s) := by
  induction ms with
  | nil =>
    intro st st' cts h
    injection h with h
    injection h with h1 h2
    subst h1; subst h2
    exact ⟨rfl, rfl, rfl, fun k c hc => by simp at hc⟩
  | cons m ms ih =>
    intro st st' cts h
    unfold encryptMany at h
    have key : ∀ (us' gs' : ℕ → Nega N ℤ) (fresh : Enc C), us' fresh.upos = us st.upos → gs' fresh.gpos = gs st.gpos →
        gs' (fresh.gpos + 1) = gs (st.gpos + 1) →
        Go.Rel (SameEnc 1 2 st fresh) (encrypt us gs st m.1 m.2.1 m.2.2) (encrypt us' gs' fresh m.1 m.2.1 m.2.2) :=
      fun us' gs' fresh hu h0 h1 => reads_encrypt hu.symm h0.symm h1.symm _ _ _
    cases hc : encrypt us gs st m.1 m.2.1 m.2.2 with
    | error e => rw [hc] at h; cases h
    | ok w =>
      rw [hc, bind_ok] at h
      cases hv : encryptMany us gs w.2 ms with
      | error e => rw [hv] at h; cases h
      | ok v =>
        rw [hv, bind_ok] at h
        injection h with h
        injection h with h1 h2
        subst h1; subst h2
        obtain ⟨i1, i2, i3, i4⟩ := ih w.2 v.2 v.1 hv
        have hp := key us gs st rfl rfl rfl
        rw [hc] at hp
        obtain ⟨_, ⟨hpu, hpg⟩, _⟩ := hp
        refine ⟨by simp [i1], by rw [i2, hpu, List.length_cons]; omega, by rw [i3, hpg, List.length_cons]; omega, fun k d hd => ?_⟩
        cases k with
        | zero =>
          simp only [List.getElem?_cons_zero, Option.some.injEq] at hd
          subst hd
          refine ⟨w.1, rfl, fun us' gs' fresh hu h0 h1 => ?_⟩
          have := key us' gs' fresh hu h0 h1
          rw [hc] at this
          cases hy : encrypt us' gs' fresh m.1 m.2.1 m.2.2 with
          | ok y => rw [hy] at this; exact ⟨y.2, by rw [show w.1 = y.1 from this.1]⟩
          | error e => rw [hy] at this; exact this.elim
        | succ k =>
          obtain ⟨ct, k1, k2⟩ := i4 k d (by simpa using hd)
          refine ⟨ct, by simpa using k1, fun us' gs' fresh hu h0 h1 => k2 us' gs' fresh ?_ ?_ ?_⟩
          · rw [hu, hpu]; congr 1; omega
          · rw [h0, hpg]; congr 1; omega
          · rw [h1, hpg]; congr 1; omega

end MKHE.C65

/-! ## A concrete history -/
namespace MKHE.Ex
variable (fm : FloatModel)

/-- a party generates its public key and its relinearization key, another one its public key -/
noncomputable def calls : List (C65.Call (ctx fm)) :=
  [.pub (skey fm "a"), .relin (skey fm "a") (skey' fm "a"), .pub (skey fm "b")]

/-- the history succeeds -/
theorem calls_run : ∃ keys st, C65.runCalls (crs fm) err (kg fm) (calls fm) = .ok (keys, st) := by
  obtain ⟨k1, s1, e1, _⟩ := C12.publicKey (valid fm) (small fm) err_bdd (kg fm) (skey_is fm "a") (crs_0 fm) (by norm_num)
  obtain ⟨k2, s2, e2, _⟩ := C14.relinearizationKey (valid fm) (small fm) err_bdd s1 (skey_is fm "a") (skey'_is fm "a") (crs_0 fm) (crs_u fm)
    (beta_two fm).le (beta_two fm).le
  obtain ⟨k3, s3, e3, _⟩ := C12.publicKey (valid fm) (small fm) err_bdd s2 (skey_is fm "b") (crs_0 fm) (by norm_num)
  refine ⟨[.pub k1, .relin k2, .pub k3], s3, ?_⟩
  unfold calls C65.runCalls C65.runCalls C65.runCalls C65.runCalls
  simp only [C65.Call.run, e1, e2, e3, bind_ok]

/-- the three calls read `1 + 3*2 + 1` outputs -/
example : ∃ keys st, C65.runCalls (crs fm) err (kg fm) (calls fm) = .ok (keys, st) ∧ keys.length = 3 ∧ st.pos = (kg fm).pos + 8 := by
  obtain ⟨keys, st, h⟩ := calls_run fm
  obtain ⟨h1, h2, _⟩ := C65.history (crs fm) err (calls fm) (kg fm) st keys h
  refine ⟨keys, st, h, h1, ?_⟩
  rw [h2]
  have : (ctx fm).beta ((ctx fm).nQ - 1) = 2 := beta_two fm
  simp [C65.start, calls, C65.Call.cost, this]

end MKHE.Ex
