import Verif.Lemmas.Rotate
import Verif.Spec.Example

set_option autoImplicit false

/-!
# Rotation and conjugation: C30 (rotation), C33, C34, C36

The theorems are about `KeySwitcher.Rotate`, `RotateHoisted` and `Conjugate` (`Verif/Model/Rotate.lean`), for every parameter set,
every content of the scratch memory and every map iteration order.
-/

namespace MKHE
open Finset Nega

variable {N : ℕ} [NeZero N] {C : Ctx N}

theorem galois_red (q g : ℕ) (a : Nega N ℤ) : galois g (red q a) = red q (galois g a) := galois_map _ _ _

/-- if a loop succeeds then its body succeeded once on every element -/
theorem Go.loop_all {σ α : Type*} {f : σ → α → Go σ} {l : List α} {s s' : σ} (h : Go.loop f s l = .ok s') :
    ∀ a ∈ l, ∃ t t', f t a = .ok t' := by
  induction l generalizing s with
  | nil => simp
  | cons b l ih =>
    rw [Go.loop_cons] at h
    intro a ha
    cases hb : f s b with
    | error e => rw [hb] at h; cases h
    | ok t =>
      rw [hb] at h
      rcases List.mem_cons.mp ha with rfl | ha
      · exact ⟨s, t, hb⟩
      · exact ih h a ha

theorem Go.of_bind_ok {α β : Type} {m : Go α} {f : α → Go β} {b : β} (h : (m >>= f) = .ok b) : ∃ a, m = .ok a ∧ f a = .ok b := by
  cases m with
  | error e => cases h
  | ok a => exact ⟨a, rfl, h⟩

/-- key switching of several components at once -/
theorem ks_noise_sum (V : C.Valid) {level : ℕ} (hl : level < C.nQ) (ids : Finset String) (h : String → ℕ → PolyQP C)
    (c : String → QRows C) (bg : String → ℕ → PolyQP C) (a' : ℕ → PolyQP C) (sec m : String → Nega N ℤ) (Sb Be D : ℤ)
    (hs : ∀ id ∈ ids, Bdd (sec id) Sb) (hk : ∀ id ∈ ids, KeyRel C (C.beta level) (sec id) a' (m id) Be (bg id))
    (hdig : ∀ id ∈ ids, ∀ k < C.beta level, ∃ X, IsDigit C level k (c id) D X ∧ Holds C level (h id k) X) :
    ∃ E : Nega N ℤ, (∀ x, C.P * |E x| ≤ ids.card * (C.beta level * (N * D * Be) + 2 * C.P + N * Sb * (2 * C.P))) ∧
      ∀ i ≤ level, ∑ id ∈ ids, cf (epG level (h id) (bg id) i) + ∑ id ∈ ids, cf (epG level (h id) a' i) * red (C.q i) (sec id) =
        ∑ id ∈ ids, cf (c id i) * red (C.q i) (m id) + red (C.q i) E := by
  classical
  have hE : ∀ id, ∃ E : Nega N ℤ, id ∈ ids → (∀ x, C.P * |E x| ≤ C.beta level * (N * D * Be) + 2 * C.P + N * Sb * (2 * C.P)) ∧
      ∀ i ≤ level, cf (epG level (h id) (bg id) i) + red (C.q i) (sec id) * cf (epG level (h id) a' i) =
        cf (c id i) * red (C.q i) (m id) + red (C.q i) E := by
    intro id
    by_cases hid : id ∈ ids
    · obtain ⟨E, e⟩ := ks_noise V hl (h id) (c id) (bg id) a' (sec id) (m id) Sb Be D (hs id hid) (hk id hid) (hdig id hid)
      exact ⟨E, fun _ => e⟩
    · exact ⟨0, fun h => absurd h hid⟩
  choose E hE using hE
  refine ⟨∑ id ∈ ids, E id, fun x => ?_, fun i hi => ?_⟩
  · rw [Nega.sum_apply]
    calc (C.P : ℤ) * |∑ id ∈ ids, E id x| ≤ C.P * ∑ id ∈ ids, |E id x| :=
          mul_le_mul_of_nonneg_left (abs_sum_le_sum_abs _ _) (by positivity)
      _ = ∑ id ∈ ids, C.P * |E id x| := mul_sum _ _ _
      _ ≤ ∑ _id ∈ ids, (C.beta level * (N * D * Be) + 2 * C.P + N * Sb * (2 * C.P)) := sum_le_sum fun id hid => (hE id hid).1 x
      _ = _ := by rw [sum_const, nsmul_eq_mul]
  · rw [map_sum, ← sum_add_distrib, ← sum_add_distrib]
    refine sum_congr rfl fun id hid => ?_
    rw [← (hE id hid).2 i hi, mul_comm (cf (epG level (h id) a' i))]

/-- the digits of a component, plain or hoisted at a higher level -/
theorem digits_ok (V : C.Valid) {level l : ℕ} (hl0 : level < C.nQ) (hl : level ≤ l) (hl' : l < C.nQ) {op : Ct C}
    {h : Option (HoistedCt C)} {D : ℤ} (hD0 : ∀ k < C.beta level, 2 * (C.blockProd level k : ℤ) ≤ D)
    (hD' : ∀ k < C.beta l, 2 * (C.blockProd l k : ℤ) ≤ D) (hk : ∀ m, h = some m → IsHoisted l op m) :
    ∀ id ∈ op.ids, ∀ k < C.beta level, ∃ X, IsDigit C level k (op.comp id) D X ∧ Holds C level (digitsFor level op h id k) X := by
  intro id hid k hkb
  cases h with
  | none =>
    obtain ⟨X, x1, x2⟩ := digs_spec V hl0 hkb (op.comp id)
    exact ⟨X, x1.bound (hD0 k hkb), x2⟩
  | some m =>
    obtain ⟨sw, s1, s2, s3⟩ := hk m rfl id hid
    have hkb' := lt_of_lt_of_le hkb (V.beta_mono hl' hl)
    obtain ⟨X, x1, x2⟩ := digs_spec V hl' hkb' (op.comp id)
    refine ⟨X, (x1.mono hl).bound (hD' k hkb'), ?_⟩
    have : digitsFor level op (some m) id = sw.val := by simp only [digitsFor, s1]
    rw [this]
    exact (x2.congr (s3 k hkb')).mono hl

theorem hoistOK_of (V : C.Valid) {level l : ℕ} (hl : level ≤ l) (hl' : l < C.nQ) {op : Ct C} {h : Option (HoistedCt C)}
    (hk : ∀ m, h = some m → IsHoisted l op m) : HoistOK level op h := by
  intro m hm id hid
  obtain ⟨sw, s1, s2, _⟩ := hk m hm id hid
  exact ⟨sw, s1, le_trans (V.beta_mono hl' hl) s2⟩

/-- what an update of the components of a ciphertext leaves -/
theorem Ct.Upd.atLevel {level : ℕ} {out out' : Ct C} {R : String → QRows C} (hout : out.AtLevel level) (h : Ct.Upd level out R out') :
    out'.AtLevel level ∧ out'.ids = out.ids ∧ ∀ id ∈ out, ∀ i ≤ level, out'.comp id i = R id i := by
  have hmem : ∀ id, id ∈ out' ↔ id ∈ out := by
    intro id
    rw [← AList.lookup_isSome, ← AList.lookup_isSome, h id]; simp
  have hlk : ∀ id p', out'.lookup id = some p' → ∃ p, out.lookup id = some p ∧ p' = p.set level (R id) := by
    intro id p' hp'
    rw [h id] at hp'
    obtain ⟨p, h1, h2⟩ := Option.map_eq_some_iff.mp hp'
    exact ⟨p, h1, h2.symm⟩
  refine ⟨⟨(hmem _).mpr hout.has0, fun id p' hp' => ?_, fun id p' hp' => ?_⟩, ?_, fun id hid i hi => ?_⟩
  · obtain ⟨p, h1, rfl⟩ := hlk id p' hp'; exact hout.len id p h1
  · obtain ⟨p, h1, rfl⟩ := hlk id p' hp'; exact hout.coeff id p h1
  · ext id; rw [Ct.mem_ids, Ct.mem_ids, hmem]
  · obtain ⟨p, hp⟩ := Ct.get hid
    rw [Ct.comp_eq (h.get hp), Poly.coeffs_eq (by exact hout.coeff id p hp)]
    exact setQ_le _ _ hi

theorem Ct.Upd.unique {level : ℕ} {out out1 out2 : Ct C} {R1 R2 : String → QRows C} (h1 : Ct.Upd level out R1 out1)
    (h2 : Ct.Upd level out R2 out2) (h : ∀ id ∈ out, ∀ i ≤ level, R1 id i = R2 id i) : ∀ id, out1.lookup id = out2.lookup id := by
  intro id
  rw [h1 id, h2 id]
  cases h0 : out.lookup id with
  | none => rfl
  | some p =>
    simp only [Option.map_some]
    rw [Poly.set_congr (fun i hi => h id (Ct.mem_of_lookup h0) i hi)]

/-! ## C34 -/
namespace C34

/-- **C34, on machine words.** One row through the permutation loop, for any odd `g < 2N` with `N = 2^n`, any stale buffer content
`old`: the word that arrives at position `i*g mod N` is the source word `i`, or `q` minus it when `i*g / N` is odd; every position is
hit exactly once; all words written are at most `q`. -/
theorem permute_words {n q g : ℕ} (hn : n ≤ 31) (hq : q < 2 ^ 61) (hg : Odd g) (hgl : g < 2 * 2 ^ n) (src old : ℕ → ℕ)
    (hs : ∀ i < 2 ^ n, src i ≤ q) :
    (∀ i < 2 ^ n, permRow (2 ^ n) q g src old (i * g % 2 ^ n) = if i * g / 2 ^ n % 2 = 0 then src i else q - src i) ∧
    (∀ k < 2 ^ n, ∃! i, i < 2 ^ n ∧ i * g % 2 ^ n = k) ∧
    (∀ k < 2 ^ n, permRow (2 ^ n) q g src old k ≤ q) ∧
    ∀ old', ∀ k < 2 ^ n, permRow (2 ^ n) q g src old' k = permRow (2 ^ n) q g src old k := by
  have h1 := permRow_spec hn hq hg hgl src
  refine ⟨fun i hi => (h1 old hs).1 i hi, fun k hk => ?_, fun k hk => ?_, fun old' k hk => ?_⟩
  · obtain ⟨i, hi, e⟩ := mulMod_surj hg hk
    exact ⟨i, ⟨hi, e⟩, fun j ⟨hj, e'⟩ => mulMod_inj hg hj hi (e'.trans e.symm)⟩
  · obtain ⟨i, hi, rfl⟩ := mulMod_surj hg hk
    rw [(h1 old hs).1 i hi]; exact signWord_le _ _ _ (hs i hi)
  · obtain ⟨i, hi, rfl⟩ := mulMod_surj hg hk
    rw [(h1 old hs).1 i hi, (h1 old' hs).1 i hi]

/-- **C34, on polynomials.** The rows up to `level` after the permutation loop are the images under the automorphism `X ↦ X^g`
modulo each prime; the other rows of the buffer are untouched. -/
theorem permute_automorphism (V : C.Valid) {level g : ℕ} (hg : Odd g) (hgl : g < 2 * N) (src old : QRows C) :
    (∀ i ≤ level, cf (permRows level g src old i) = galois g (cf (src i))) ∧
      ∀ i, level < i → permRows level g src old i = old i := by
  rw [permRows_eq V hg hgl]
  refine ⟨fun i hi => ?_, fun i hi => setQ_gt _ _ hi⟩
  rw [setQ_le _ _ hi, cf_permL V.hN V.log31 (C.RQ i).lt61 hg hgl]

/-- The specification `galois` is the substitution `X ↦ X^g` in `K[X]/(X^N + 1)`. -/
theorem galois_is_substitution {K : Type*} [CommRing K] (g : ℕ) (a : Nega N K) :
    toQuot (galois g a) = ∑ i, AdjoinRoot.of (Polynomial.X ^ N + 1 : Polynomial K) (a i) *
      (AdjoinRoot.root (Polynomial.X ^ N + 1 : Polynomial K) ^ g) ^ (i : ℕ) := toQuot_galois g a

/-- The words need not be canonical: a zero coefficient whose sign flips is written as `q`. -/
theorem permute_noncanonical : permRow 8 97 5 (fun _ => 0) (fun _ => 0) 2 = 97 := by decide

/-- concrete instance: `N = 8`, `g = 5`, the coefficient 3 of row word 7 moves to 7 with a sign flip -/
example : permRow 8 97 5 (fun i => i + 4) (fun _ => 55) 7 = 97 - 7 := by
  exact (permute_words (n := 3) (by norm_num) (by norm_num) (by decide) (by norm_num) (fun i => i + 4) (fun _ => 55)
    (fun i hi => by omega)).1 3 (by norm_num)

end C34

/-! ## C33 -/
namespace C33

/-- the rotation keys for amount `r` of all parties in `ids`: each is in the set and satisfies
`key = -σ⁻¹(s)*a + P*g*s + e`, `σ` the automorphism of the rotation by `r`, `a` the CRS of index `r` -/
structure Keys (crs : GoMap ℤ (Swk C)) (level : ℕ) (ids : Finset String) (r : ℕ) (rks : RotKeySet (GalKey C))
    (s : String → Nega N ℤ) (Sb Be : ℤ) : Prop where
  key : ∃ a, crs.lookup (r : ℤ) = some a ∧ C.beta level ≤ a.len ∧ ∀ id ∈ ids, ∃ key, rks.get id r = .ok key ∧
    C.beta level ≤ key.value.len ∧
    KeyRel C (C.beta level) (galois (galElInv N (galElCol N r)) (s id)) a.val (s id) Be key.value.val
  s : ∀ id ∈ ids, Bdd (s id) Sb

/-- the operand and the fresh output ciphertext of an automorphism at `level` -/
structure Shape (level : ℕ) (ctIn out : Ct C) : Prop where
  lvl : level < C.nQ
  inp : ctIn.Coeff level
  res : out.AtLevel level
  ids : out.ids = ctIn.ids

/-- noise of one rotation of `n` parties, times `P` -/
def rotNoise (N P n beta : ℕ) (D Sb Be : ℤ) : ℤ := n * (beta * (N * D * Be) + 2 * P + N * Sb * (2 * P))

variable {crs : GoMap ℤ (Swk C)} {level : ℕ} {ctIn out : Ct C} {r : ℕ} {rks : RotKeySet (GalKey C)} {s : String → Nega N ℤ} {Sb Be : ℤ}

theorem rotHyp (H : Shape level ctIn out) (K : Keys crs level ctIn.ids r rks s Sb Be) : ∃ a, RotHyp crs level ctIn r rks out a ∧
    ∀ id ∈ ctIn.ids, KeyRel C (C.beta level) (galois (galElInv N (galElCol N r)) (s id)) a.val (s id) Be (rotKeyFor rks r id) := by
  obtain ⟨a, k1, k2, k3⟩ := K.key
  refine ⟨a, ⟨H.lvl, H.inp, H.res, H.ids, fun id hid => ?_, k1, k2⟩, fun id hid => ?_⟩
  · obtain ⟨key, e1, e2, _⟩ := k3 id hid
    exact ⟨key, e1, e2⟩
  · obtain ⟨key, e1, e2, e3⟩ := k3 id hid
    unfold rotKeyFor; rw [e1]; exact e3

/-- the phase after the permutation of the components -/
theorem phase_perm (V : C.Valid) {g : ℕ} (hg : Odd g) (hgl : g < 2 * N) (ids : Finset String) (s : String → Nega N ℤ)
    (pre : String → QRows C) (i : ℕ) :
    phaseRows ids s (fun id i => permL (C.q i) g (pre id i)) i =
      galois g (cf (pre "0" i) + ∑ id ∈ ids, cf (pre id i) * red (C.q i) (galois (galElInv N g) (s id))) := by
  unfold phaseRows
  rw [← galoisHom_apply g hg, map_add, map_sum]
  simp only [cf_permL V.hN V.log31 (C.RQ _).lt61 hg hgl, map_mul, galoisHom_apply]
  congr 1
  refine sum_congr rfl fun id _ => ?_
  rw [galois_red, galois_inv V.hN hg]

/-- **C33, plain and hoisted.** A rotation by `rot` succeeds, and the phase of its result is the phase of the operand under the
automorphism `X ↦ X^(5^rot)` up to the noise `E`; all id sets, schedules, scratch contents, and hoisted forms computed at any
level `l ≥ level`. The amount `r` used for the keys is `rot` itself when `rot ≥ 0` and `rot mod N/2` otherwise. -/
theorem rotateWith_phase (V : C.Valid) (o : Sched String) (S : Scratch C) (H : Shape level ctIn out) (rot : ℤ)
    (hr : (r : ℤ) = if 0 ≤ rot then rot else rot % (N / 2 : ℕ)) (K : Keys crs level ctIn.ids r rks s Sb Be)
    (h : Option (HoistedCt C)) (l : ℕ) (hl : level ≤ l) (hl' : l < C.nQ) (k : ∀ m, h = some m → IsHoisted l ctIn m)
    (D : ℤ) (hD : ∀ l' ∈ [level, l], ∀ k < C.beta l', 2 * (C.blockProd l' k : ℤ) ≤ D) :
    ∃ out' S', rotateWith crs o S ctIn rot h rks out = .ok (out', S') ∧ out'.AtLevel level ∧ out'.ids = ctIn.ids ∧
      ∃ E : Nega N ℤ, (∀ x, C.P * |E x| ≤ rotNoise N C.P ctIn.ids.card (C.beta level) D Sb Be) ∧
        ∀ i ≤ level, out'.phase s i = galois (5 ^ r) (ctIn.phase s i) + red (C.q i) E := by
  have hN2 : 2 ≤ N := by
    rw [V.hN]; calc 2 = 2 ^ 1 := rfl
      _ ≤ 2 ^ C.logN := Nat.pow_le_pow_right (by norm_num) V.log1
  have hadj : adjustIdx N rot = r := by
    rw [hr]
    split_ifs with h0
    · exact adjustIdx_nonneg h0
    · exact adjustIdx_neg hN2 (by omega)
  obtain ⟨a, RH, hkey⟩ := rotHyp H K
  obtain ⟨out', S', e1, e2⟩ := rotateWith_run V o S h hadj RH (hoistOK_of V hl hl' k)
  obtain ⟨r1, r2, r3⟩ := e2.atLevel H.res
  refine ⟨out', S', e1, r1, r2.trans H.ids, ?_⟩
  set g := galElCol N r with hg
  have hodd : Odd g := galElCol_odd N r
  have hgl : g < 2 * N := galElCol_lt (Nat.pos_of_ne_zero (NeZero.ne N)) r
  have hg5 : ∀ {K : Type} [CommRing K] (x : Nega N K), galois (5 ^ r) x = galois g x := by
    intro K _ x
    rw [← galois_mod (5 ^ r)]
    congr 1
    have := (galElCol_eq V.log1 r).1
    rw [← V.hN] at this
    rw [hg, this]
  obtain ⟨E, E1, E2⟩ := ks_noise_sum V H.lvl ctIn.ids (digitsFor level ctIn h) ctIn.comp (rotKeyFor rks r) a.val
    (fun id => galois (galElInv N g) (s id)) s Sb Be D (fun id hid => Bdd.galois V.hN (galElInv_odd hodd) (K.s id hid)) hkey
    (digits_ok V H.lvl hl hl' (hD level (by simp)) (hD l (by simp)) k)
  refine ⟨galois g E, fun x => ?_, fun i hi => ?_⟩
  · obtain ⟨y, hy, rfl⟩ := galois_surj V.hN hodd x
    rw [galois_at V.hN hodd, abs_mul, abs_pow, abs_neg, abs_one, one_pow, one_mul]
    exact E1 y
  · rw [phase_eq_rows, r2, H.ids, hg5, ← galois_red, phaseRows_congr (b := fun id i => permL (C.q i) g
      (rotPre level ctIn.ids (ctIn.comp "0") (digitsFor level ctIn h) (rotKeyFor rks r) a.val id i)), phase_perm V hodd hgl]
    · rw [← galoisHom_apply g hodd, ← galoisHom_apply g hodd, ← galoisHom_apply g hodd, ← map_add]
      congr 1
      have hne : ∀ id ∈ ctIn.ids, id ≠ "0" := fun id hid => (Ct.mem_ids.mp hid).2
      have h0 : cf (rotPre level ctIn.ids (ctIn.comp "0") (digitsFor level ctIn h) (rotKeyFor rks r) a.val "0" i) =
          cf (ctIn.comp "0" i) + ∑ id ∈ ctIn.ids, cf (epG level (digitsFor level ctIn h id) (rotKeyFor rks r id) i) := by
        unfold rotPre
        rw [if_pos rfl]
        split_ifs with he
        · rw [he]; simp
        · exact LimbOps.cf_ofCf _ _
      have h1 : ∑ id ∈ ctIn.ids, cf (rotPre level ctIn.ids (ctIn.comp "0") (digitsFor level ctIn h) (rotKeyFor rks r) a.val id i) *
          red (C.q i) (galois (galElInv N g) (s id)) = ∑ id ∈ ctIn.ids, cf (epG level (digitsFor level ctIn h id) a.val i) *
          red (C.q i) (galois (galElInv N g) (s id)) := by
        refine sum_congr rfl fun id hid => ?_
        unfold rotPre
        rw [if_neg (hne id hid)]
      rw [h0, h1, phase_eq_rows]
      unfold phaseRows
      rw [add_assoc, E2 i hi, add_assoc]
    · intro id hid
      have hmem : id ∈ out := by
        rcases hid with h | h
        · exact (Ct.mem_ids.mp (H.ids ▸ h)).1
        · rw [h]; exact H.res.has0
      exact r3 id hmem i hi

/-- **C33.** `Rotate`. -/
theorem rotate_phase (V : C.Valid) (o : Sched String) (S : Scratch C) (H : Shape level ctIn out) (rot : ℤ)
    (hr : (r : ℤ) = if 0 ≤ rot then rot else rot % (N / 2 : ℕ)) (K : Keys crs level ctIn.ids r rks s Sb Be)
    (D : ℤ) (hD : ∀ k < C.beta level, 2 * (C.blockProd level k : ℤ) ≤ D) :
    ∃ out' S', rotate crs o S ctIn rot rks out = .ok (out', S') ∧ out'.AtLevel level ∧ out'.ids = ctIn.ids ∧
      ∃ E : Nega N ℤ, (∀ x, C.P * |E x| ≤ rotNoise N C.P ctIn.ids.card (C.beta level) D Sb Be) ∧
        ∀ i ≤ level, out'.phase s i = galois (5 ^ r) (ctIn.phase s i) + red (C.q i) E :=
  rotateWith_phase V o S H rot hr K none level le_rfl H.lvl (fun _ h => by cases h) D (by simpa using hD)

/-- **C33, hoisted** (with C42: the hoisted form may come from a higher level). -/
theorem rotateHoisted_phase (V : C.Valid) (o : Sched String) (S : Scratch C) (H : Shape level ctIn out) (rot : ℤ)
    (hr : (r : ℤ) = if 0 ≤ rot then rot else rot % (N / 2 : ℕ)) (K : Keys crs level ctIn.ids r rks s Sb Be)
    (h : HoistedCt C) (l : ℕ) (hl : level ≤ l) (hl' : l < C.nQ) (k : IsHoisted l ctIn h)
    (D : ℤ) (hD : ∀ l' ∈ [level, l], ∀ k < C.beta l', 2 * (C.blockProd l' k : ℤ) ≤ D) :
    ∃ out' S', rotateHoisted crs o S ctIn rot h rks out = .ok (out', S') ∧ out'.AtLevel level ∧ out'.ids = ctIn.ids ∧
      ∃ E : Nega N ℤ, (∀ x, C.P * |E x| ≤ rotNoise N C.P ctIn.ids.card (C.beta level) D Sb Be) ∧
        ∀ i ≤ level, out'.phase s i = galois (5 ^ r) (ctIn.phase s i) + red (C.q i) E :=
  rotateWith_phase V o S H rot hr K (some h) l hl hl' (fun m hm => by injection hm with hm; subst hm; exact k) D hD

/-- **C33, panics.** A rotation into a ciphertext of higher level panics with the message of the program. -/
theorem rotate_level (o : Sched String) (S : Scratch C) (rot : ℤ) (h : Option (HoistedCt C)) {pin pout : Poly C}
    (h0 : ctIn.lookup "0" = some pin) (h1 : out.lookup "0" = some pout) (hl : pin.len - 1 < pout.len - 1) :
    rotateWith crs o S ctIn rot h rks out = .error (.panic "Cannot Rotate: ctIn and ctOut have different levels") := by
  obtain ⟨ids, a1, a2⟩ := IDSet.ofCiphertext_spec (o 20) ctIn
  unfold rotateWith Ct.level
  simp only [GoMap.deref_ok h0, GoMap.deref_ok h1, bind_ok, a1]
  rw [if_pos hl]

/-- **C33, panics.** Without the rotation key of some party for the normalized amount, a rotation never returns a result. -/
theorem rotate_missing (o : Sched String) (S : Scratch C) (rot : ℤ) (h : Option (HoistedCt C)) (id : String) (hid : id ∈ ctIn.ids)
    (hmiss : ∀ key, rks.get id (adjustIdx N rot).toNat ≠ .ok key) (res : Ct C × Scratch C) :
    rotateWith crs o S ctIn rot h rks out ≠ .ok res := by
  intro hok
  obtain ⟨ids, a1, a2⟩ := IDSet.ofCiphertext_spec (o 20) ctIn
  unfold rotateWith at hok
  obtain ⟨level, -, hok⟩ := Go.of_bind_ok hok
  rw [a1, bind_ok] at hok
  obtain ⟨lin, -, hok⟩ := Go.of_bind_ok hok
  split at hok
  · cases hok
  obtain ⟨c0, -, hok⟩ := Go.of_bind_ok hok
  obtain ⟨p0, -, hok⟩ := Go.of_bind_ok hok
  obtain ⟨st, hl, -⟩ := Go.of_bind_ok hok
  have hm : id ∈ GoMap.range (o 21) ids.value := by
    rw [GoMap.mem_range, IDSet.mem_value_iff, a2]; exact Ct.mem_ids.mp hid
  obtain ⟨t, t', ht⟩ := Go.loop_all hl id hm
  unfold rotateStep at ht
  obtain ⟨key, hk, -⟩ := Go.of_bind_ok ht
  exact hmiss key hk

end C33

/-! ## C30 and C24 for rotations -/
namespace C30
variable {crs : GoMap ℤ (Swk C)} {level : ℕ} {ctIn out : Ct C} {r : ℕ} {rks : RotKeySet (GalKey C)} {a : Swk C}

theorem rotPre_congr {ids : Finset String} {c : QRows C} {h h' key : String → ℕ → PolyQP C} {crs : ℕ → PolyQP C}
    (e : ∀ id ∈ ids, ∀ bg, epG level (h id) bg = epG level (h' id) bg) (id : String) (hid : id ∈ ids ∨ id = "0") :
    rotPre level ids c h key crs id = rotPre level ids c h' key crs id := by
  unfold rotPre
  by_cases hz : id = "0"
  · rw [if_pos hz, if_pos hz]
    split_ifs
    · rfl
    · funext i
      have : ∑ id ∈ ids, cf (epG level (h id) (key id) i) = ∑ id ∈ ids, cf (epG level (h' id) (key id) i) :=
        sum_congr rfl fun id hid => by rw [e id hid]
      rw [this]
  · rw [if_neg hz, if_neg hz, e id (hid.resolve_right hz)]

/-- **C30 for rotation.** With a hoisted form computed at the level of the output, `RotateHoisted` returns exactly the ciphertext
`Rotate` returns. The two runs may start from different scratch memories and use different map iteration orders. -/
theorem rotateHoisted_eq (V : C.Valid) (o o' : Sched String) (S S' : Scratch C) (rot : ℤ) (hr : adjustIdx N rot = r)
    (H : RotHyp crs level ctIn r rks out a) (h : HoistedCt C) (k : IsHoisted level ctIn h) :
    ∃ out1 S1 out2 S2, rotate crs o S ctIn rot rks out = .ok (out1, S1) ∧
      rotateHoisted crs o' S' ctIn rot h rks out = .ok (out2, S2) ∧ ∀ id, out1.lookup id = out2.lookup id := by
  obtain ⟨out1, S1, e1, e2⟩ := rotateWith_run V o S none hr H (HoistOK.none level ctIn)
  obtain ⟨out2, S2, f1, f2⟩ := rotateWith_run V o' S' (some h) hr H
    (hoistOK_of V le_rfl H.lvl (fun m hm => by injection hm with hm; subst hm; exact k))
  refine ⟨out1, S1, out2, S2, e1, f1, e2.unique f2 fun id hid i hi => ?_⟩
  have dig : ∀ id ∈ ctIn.ids, ∀ bg, epG level (digitsFor level ctIn none id) bg = epG level (digitsFor level ctIn (some h) id) bg := by
    intro id hid bg
    obtain ⟨sw, s1, s2, s3⟩ := k id hid
    have : digitsFor level ctIn (some h) id = sw.val := by simp only [digitsFor, s1]
    rw [this]
    exact epG_congr V (fun k hk => (s3 k hk).symm) (fun k _ => PolyQP.Agree.refl _ _)
  rw [rotPre_congr dig id (by
    by_cases hz : id = "0"
    · exact .inr hz
    · exact .inl (H.ids ▸ Ct.mem_ids.mpr ⟨hid, hz⟩))]

/-- **C24 for rotation.** `Rotate` and `RotateHoisted` return the same ciphertext whatever the scratch memory contains and in
whatever order the maps are iterated. -/
theorem rotateWith_deterministic (V : C.Valid) (o o' : Sched String) (S S' : Scratch C) (rot : ℤ) (hr : adjustIdx N rot = r)
    (H : RotHyp crs level ctIn r rks out a) (h : Option (HoistedCt C)) (k : HoistOK level ctIn h) :
    ∃ out1 S1 out2 S2, rotateWith crs o S ctIn rot h rks out = .ok (out1, S1) ∧
      rotateWith crs o' S' ctIn rot h rks out = .ok (out2, S2) ∧ ∀ id, out1.lookup id = out2.lookup id := by
  obtain ⟨out1, S1, e1, e2⟩ := rotateWith_run V o S h hr H k
  obtain ⟨out2, S2, f1, f2⟩ := rotateWith_run V o' S' h hr H k
  exact ⟨out1, S1, out2, S2, e1, f1, e2.unique f2 fun _ _ _ _ => rfl⟩

/-- **C24 for conjugation.** -/
theorem conjugate_deterministic (V : C.Valid) (o o' : Sched String) (S S' : Scratch C) {cks : KeySet (GalKey C)}
    (H : ConjHyp crs level ctIn cks out a) :
    ∃ out1 S1 out2 S2, conjugate level crs o S ctIn cks out = .ok (out1, S1) ∧
      conjugate level crs o' S' ctIn cks out = .ok (out2, S2) ∧ ∀ id, out1.lookup id = out2.lookup id := by
  obtain ⟨out1, S1, e1, e2⟩ := conjugate_run V o S H
  obtain ⟨out2, S2, f1, f2⟩ := conjugate_run V o' S' H
  exact ⟨out1, S1, out2, S2, e1, f1, e2.unique f2 fun _ _ _ _ => rfl⟩

end C30

/-! ## C36 -/
namespace C36

/-- the conjugation keys of all parties in `ids`: `key = -s*a + P*g*σ(s) + e`, `σ` the automorphism `X ↦ X^(2N-1)`, `a` the CRS of
index `-2` -/
structure Keys (crs : GoMap ℤ (Swk C)) (level : ℕ) (ids : Finset String) (cks : KeySet (GalKey C)) (s : String → Nega N ℤ)
    (Sb Be : ℤ) : Prop where
  key : ∃ a, crs.lookup (-2) = some a ∧ C.beta level ≤ a.len ∧ ∀ id ∈ ids, ∃ key, cks.value.lookup id = some key ∧
    C.beta level ≤ key.value.len ∧ KeyRel C (C.beta level) (s id) a.val (galois (2 * N - 1) (s id)) Be key.value.val
  s : ∀ id ∈ ids, Bdd (s id) Sb

variable {crs : GoMap ℤ (Swk C)} {level : ℕ} {ctIn out : Ct C} {cks : KeySet (GalKey C)} {s : String → Nega N ℤ} {Sb Be : ℤ}

theorem conjHyp (H : C33.Shape level ctIn out) (K : Keys crs level ctIn.ids cks s Sb Be) : ∃ a, ConjHyp crs level ctIn cks out a ∧
    ∀ id ∈ ctIn.ids, KeyRel C (C.beta level) (s id) a.val (galois (2 * N - 1) (s id)) Be (conjKeyFor cks id) := by
  obtain ⟨a, k1, k2, k3⟩ := K.key
  refine ⟨a, ⟨H.lvl, H.inp, H.res, H.ids, fun id hid => ?_, k1, k2⟩, fun id hid => ?_⟩
  · obtain ⟨key, e1, e2, _⟩ := k3 id hid
    exact ⟨key, e1, e2⟩
  · obtain ⟨key, e1, e2, e3⟩ := k3 id hid
    unfold conjKeyFor; rw [e1]; exact e3

/-- **C36.** `Conjugate` succeeds, and the phase of its result is the phase of the operand under `X ↦ X^(2N-1) = X⁻¹` up to the noise
`E`. The lattigo permutation is applied to the rows of the output (`permLevel = level`); in lattigo v2.3.0 it runs over all primes of
the ring, so that below the maximal level it would index out of range: see `conjugate_below`. -/
theorem conjugate_phase (V : C.Valid) (o : Sched String) (S : Scratch C) (H : C33.Shape level ctIn out)
    (K : Keys crs level ctIn.ids cks s Sb Be) (D : ℤ) (hD : ∀ k < C.beta level, 2 * (C.blockProd level k : ℤ) ≤ D) :
    ∃ out' S', conjugate level crs o S ctIn cks out = .ok (out', S') ∧ out'.AtLevel level ∧ out'.ids = ctIn.ids ∧
      ∃ E : Nega N ℤ, (∀ x, C.P * |E x| ≤ C33.rotNoise N C.P ctIn.ids.card (C.beta level) D Sb Be) ∧
        ∀ i ≤ level, out'.phase s i = galois (2 * N - 1) (ctIn.phase s i) + red (C.q i) E := by
  have hNpos : 0 < N := Nat.pos_of_ne_zero (NeZero.ne N)
  have hodd : Odd (2 * N - 1) := ⟨N - 1, by omega⟩
  obtain ⟨a, CH, hkey⟩ := conjHyp H K
  obtain ⟨out', S', e1, e2⟩ := conjugate_run V o S CH
  obtain ⟨r1, r2, r3⟩ := e2.atLevel H.res
  refine ⟨out', S', e1, r1, r2.trans H.ids, ?_⟩
  obtain ⟨E, E1, E2⟩ := ks_noise_sum V H.lvl ctIn.ids (fun id => digs level (conjIn ctIn id)) (conjIn ctIn) (conjKeyFor cks) a.val
    s (fun id => galois (2 * N - 1) (s id)) Sb Be D K.s hkey (fun id _ k hk => by
      obtain ⟨X, x1, x2⟩ := digs_spec V H.lvl hk (conjIn ctIn id)
      exact ⟨X, x1.bound (hD k hk), x2⟩)
  refine ⟨E, E1, fun i hi => ?_⟩
  have hne : ∀ id ∈ ctIn.ids, id ≠ "0" := fun id hid => (Ct.mem_ids.mp hid).2
  have hcf : ∀ id, cf (conjIn ctIn id i) = galois (2 * N - 1) (cf (ctIn.comp id i)) := fun id =>
    LimbOps.cf_permute _ _ hodd _
  have h0 : cf (conjOut level ctIn cks a.val "0" i) = cf (conjIn ctIn "0" i) +
      ∑ id ∈ ctIn.ids, cf (epG level (digs level (conjIn ctIn id)) (conjKeyFor cks id) i) := by
    unfold conjOut
    rw [if_pos rfl]
    split_ifs with he
    · rw [he]; simp
    · exact LimbOps.cf_ofCf _ _
  have h1 : ∑ id ∈ ctIn.ids, cf (conjOut level ctIn cks a.val id i) * red (C.q i) (s id) =
      ∑ id ∈ ctIn.ids, cf (epG level (digs level (conjIn ctIn id)) a.val i) * red (C.q i) (s id) := by
    refine sum_congr rfl fun id hid => ?_
    unfold conjOut
    rw [if_neg (hne id hid)]
  rw [phase_eq_rows, r2, H.ids, phaseRows_congr (b := conjOut level ctIn cks a.val)]
  · unfold phaseRows
    rw [h0, h1, add_assoc, E2 i hi, ← add_assoc]
    congr 1
    rw [phase_eq_rows]
    unfold phaseRows
    rw [← galoisHom_apply _ hodd, map_add, map_sum]
    simp only [map_mul, galoisHom_apply, galois_red, hcf]
  · intro id hid
    have hmem : id ∈ out := by
      rcases hid with h | h
      · exact (Ct.mem_ids.mp (H.ids ▸ h)).1
      · rw [h]; exact H.res.has0
    exact r3 id hmem i hi

/-- **C36, panics.** Without the conjugation key of some party, `Conjugate` never returns a result. -/
theorem conjugate_missing (o : Sched String) (S : Scratch C) (permLevel : ℕ) (id : String) (hid : id ∈ ctIn.ids)
    (hmiss : cks.value.lookup id = none) (res : Ct C × Scratch C) : conjugate permLevel crs o S ctIn cks out ≠ .ok res := by
  intro hok
  obtain ⟨ids, a1, a2⟩ := IDSet.ofCiphertext_spec (o 30) ctIn
  unfold conjugate at hok
  obtain ⟨level, -, hok⟩ := Go.of_bind_ok hok
  rw [a1, bind_ok] at hok
  obtain ⟨lin, -, hok⟩ := Go.of_bind_ok hok
  split at hok
  · cases hok
  obtain ⟨out1, -, hok⟩ := Go.of_bind_ok hok
  obtain ⟨st, hl, -⟩ := Go.of_bind_ok hok
  have hm : id ∈ GoMap.range (o 32) ids.value := by
    rw [GoMap.mem_range, IDSet.mem_value_iff, a2]; exact Ct.mem_ids.mp hid
  obtain ⟨t, t', ht⟩ := Go.loop_all hl id hm
  unfold conjStep0 KeySet.get at ht
  rw [hmiss] at ht
  cases ht

/-- A permutation that runs over more rows than the ciphertext has (lattigo's `ringQ.Permute` runs over all `nQ` primes) makes
`Conjugate` panic: with such a dependency, conjugation only works at the maximal level. -/
theorem conjugate_below (o : Sched String) (S : Scratch C) (permLevel : ℕ) {p : Poly C}
    (h0 : ctIn.lookup "0" = some p) (hl : p.len ≤ permLevel) (res : Ct C × Scratch C) :
    conjugate permLevel crs o S ctIn cks out ≠ .ok res := by
  intro hok
  obtain ⟨ids, a1, a2⟩ := IDSet.ofCiphertext_spec (o 30) ctIn
  unfold conjugate at hok
  obtain ⟨level, -, hok⟩ := Go.of_bind_ok hok
  rw [a1, bind_ok] at hok
  obtain ⟨lin, -, hok⟩ := Go.of_bind_ok hok
  split at hok
  · cases hok
  obtain ⟨out1, hl1, -⟩ := Go.of_bind_ok hok
  obtain ⟨t, t', ht⟩ := Go.loop_all hl1 "0" (GoMap.mem_range.mpr (Ct.mem_of_lookup h0))
  rw [GoMap.deref_ok h0, bind_ok] at ht
  obtain ⟨b, -, ht⟩ := Go.of_bind_ok ht
  obtain ⟨b', hb, -⟩ := Go.of_bind_ok ht
  unfold ringPermute Poly.need at hb
  rw [if_neg (by omega)] at hb
  cases hb

end C36

/-! ## Concrete instances -/
namespace Ex

/-- a rotation key -/
noncomputable def rotKey (fm : FloatModel) (r : ℕ) (n : ℕ) (id : String) : GalKey (ctx fm) :=
  ⟨id, r, ⟨2, mkKey _ (galois (galElInv 16 (galElCol 16 r)) (sec id)) (crsv fm n) (sec id) err⟩⟩

/-- the default rotation keys of a party for `N = 16` -/
noncomputable def rksOf (fm : FloatModel) (id : String) : GoMap ℕ (GalKey (ctx fm)) :=
  AList.insert 4 (rotKey fm 4 17 id) (AList.insert 2 (rotKey fm 2 13 id) (AList.insert 1 (rotKey fm 1 11 id) ∅))

/-- rotation keys by 1, 2 and 4 of both parties: the default keys for `N = 16` -/
noncomputable def rks (fm : FloatModel) : RotKeySet (GalKey (ctx fm)) :=
  ⟨AList.insert "a" (rksOf fm "a") (AList.insert "b" (rksOf fm "b") ∅)⟩

theorem rks_get (fm : FloatModel) (id : String) (h : id = "a" ∨ id = "b") :
    (rks fm).get id 1 = .ok (rotKey fm 1 11 id) ∧ (rks fm).get id 2 = .ok (rotKey fm 2 13 id) ∧
      (rks fm).get id 4 = .ok (rotKey fm 4 17 id) := by
  unfold rks rksOf RotKeySet.get
  rcases h with h | h <;> subst h <;> simp only [GoMap.lookup_insert'] <;> exact ⟨rfl, rfl, rfl⟩

theorem rotKeys1 (fm : FloatModel) : C33.Keys (crs fm) 2 (ctAB fm 3 4).ids 1 (rks fm) sec 1 2 where
  key := by
    refine ⟨⟨2, crsv fm 11⟩, by unfold crs; simp only [GoMap.lookup_insert']; simp, by rw [beta_two], fun id hid => ?_⟩
    rw [ctAB_ids] at hid
    refine ⟨_, (rks_get fm id (by simpa using hid)).1, by rw [beta_two]; exact le_rfl, ?_⟩
    exact mkKey_rel _ _ _ _ _ _ fun k _ => err_bdd k
  s := fun id _ => sec_bdd id

theorem rotKeys2 (fm : FloatModel) : C33.Keys (crs fm) 2 (ctAB fm 3 4).ids 2 (rks fm) sec 1 2 where
  key := by
    refine ⟨⟨2, crsv fm 13⟩, by unfold crs; simp only [GoMap.lookup_insert']; simp, by rw [beta_two], fun id hid => ?_⟩
    rw [ctAB_ids] at hid
    refine ⟨_, (rks_get fm id (by simpa using hid)).2.1, by rw [beta_two]; exact le_rfl, ?_⟩
    exact mkKey_rel _ _ _ _ _ _ fun k _ => err_bdd k
  s := fun id _ => sec_bdd id

theorem rotKeys4 (fm : FloatModel) : C33.Keys (crs fm) 2 (ctAB fm 3 4).ids 4 (rks fm) sec 1 2 where
  key := by
    refine ⟨⟨2, crsv fm 17⟩, by unfold crs; simp only [GoMap.lookup_insert']; simp, by rw [beta_two], fun id hid => ?_⟩
    rw [ctAB_ids] at hid
    refine ⟨_, (rks_get fm id (by simpa using hid)).2.2, by rw [beta_two]; exact le_rfl, ?_⟩
    exact mkKey_rel _ _ _ _ _ _ fun k _ => err_bdd k
  s := fun id _ => sec_bdd id

theorem rotShape (fm : FloatModel) : C33.Shape 2 (ctAB fm 3 4) (ctAB fm 3 0) where
  lvl := by show 2 < 3; norm_num
  inp := (ctAB_at fm 2 4).toCoeff
  res := ctAB_at fm 2 0
  ids := by rw [ctAB_ids, ctAB_ids]

/-- conjugation keys of both parties -/
noncomputable def cks (fm : FloatModel) : KeySet (GalKey (ctx fm)) :=
  ⟨AList.insert "a" ⟨"a", 0, ⟨2, mkKey _ (sec "a") (crsv fm 9) (galois (2 * 16 - 1) (sec "a")) err⟩⟩
    (AList.insert "b" ⟨"b", 0, ⟨2, mkKey _ (sec "b") (crsv fm 9) (galois (2 * 16 - 1) (sec "b")) err⟩⟩ ∅)⟩

theorem conjKeys (fm : FloatModel) : C36.Keys (crs fm) 2 (ctAB fm 3 4).ids (cks fm) sec 1 2 where
  key := by
    refine ⟨⟨2, crsv fm 9⟩, by unfold crs; simp only [GoMap.lookup_insert']; simp, by rw [beta_two], fun id hid => ?_⟩
    rw [ctAB_ids] at hid
    refine ⟨⟨id, 0, ⟨2, mkKey _ (sec id) (crsv fm 9) (galois (2 * 16 - 1) (sec id)) err⟩⟩, ?_, by rw [beta_two], ?_⟩
    · unfold cks
      simp only [mem_insert, mem_singleton] at hid
      rcases hid with h | h <;> subst h <;> simp only [GoMap.lookup_insert'] <;> simp
    · exact mkKey_rel _ _ _ _ _ _ fun k _ => err_bdd k
  s := fun id _ => sec_bdd id

/-- concrete instance of C33: rotation by `-6` (served by the key for `2 = -6 mod 8`) of a two-party ciphertext, with stale scratch
memory and reversed map iteration -/
example (fm : FloatModel) : ∃ out' S', rotate (crs fm) (fun _ => Order.rev) (scratch fm) (ctAB fm 3 4) (-6) (rks fm) (ctAB fm 3 0) = .ok (out', S') ∧
    ∃ E : Nega 16 ℤ, ∀ i ≤ 2, out'.phase sec i = galois (5 ^ 2) ((ctAB fm 3 4).phase sec i) + red _ E := by
  obtain ⟨out', S', h1, _, _, E, _, h3⟩ := C33.rotate_phase (valid fm) (fun _ => Order.rev) (scratch fm) (rotShape fm) (-6)
    (by norm_num) (rotKeys2 fm) 37442 (blocks fm)
  exact ⟨out', S', h1, E, h3⟩

/-- concrete instance of C36 -/
example (fm : FloatModel) : ∃ out' S', conjugate 2 (crs fm) (fun _ => Order.rev) (scratch fm) (ctAB fm 3 4) (cks fm) (ctAB fm 3 0) = .ok (out', S') ∧
    ∃ E : Nega 16 ℤ, ∀ i ≤ 2, out'.phase sec i = galois 31 ((ctAB fm 3 4).phase sec i) + red _ E := by
  obtain ⟨out', S', h1, _, _, E, _, h3⟩ := C36.conjugate_phase (valid fm) (fun _ => Order.rev) (scratch fm) (rotShape fm)
    (conjKeys fm) 37442 (blocks fm)
  exact ⟨out', S', h1, E, h3⟩

/-- concrete instance of the missing-key panics: party `"c"` has no keys -/
example (fm : FloatModel) (res : Ct (ctx fm) × Scratch (ctx fm)) :
    rotate (crs fm) (fun _ => Order.id) (scratch fm) ((ctAB fm 3 4).insert "c" (poly fm 3 7)) 1 (rks fm)
      ((ctAB fm 3 0).insert "c" (poly fm 3 7)) ≠ .ok res := by
  refine C33.rotate_missing _ _ _ _ "c" ?_ (fun key hk => ?_) res
  · rw [Ct.mem_ids]; simp
  · unfold rks RotKeySet.get at hk
    simp only [GoMap.lookup_insert'] at hk
    cases hk

end Ex
end MKHE
