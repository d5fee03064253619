import Verif.Model.Crypt
import Verif.Lemmas.KeyGen
import Verif.Lemmas.Fresh

set_option autoImplicit false

/-!
# Encryption and decryption: what each step computes
-/

namespace MKHE
open Finset Nega

variable {N : ℕ} [NeZero N] {C : Ctx N}

theorem Ct.onRows_ok {ct : Ct C} {id : String} {level : ℕ} {p : Poly C} (f : ∀ i, Limb N (C.q i) → Limb N (C.q i))
    (h : ct.lookup id = some p) (hl : level < p.len) :
    ∃ ct', ct.onRows id level f = .ok ct' ∧ ct'.lookup id = some (p.set level fun i => f i (p.rows i)) ∧
      ∀ id', id' ≠ id → ct'.lookup id' = ct.lookup id' := by
  unfold Ct.onRows
  rw [GoMap.deref_ok h, bind_ok, Poly.need_ok hl, bind_ok]
  exact ⟨_, rfl, by rw [GoMap.lookup_insert', if_pos rfl], fun id' h' => by rw [GoMap.lookup_insert', if_neg h']⟩

theorem Ct.truncate_ok {ct : Ct C} {id : String} {level : ℕ} {p : Poly C} (h : ct.lookup id = some p) (hl : level < p.len) :
    ∃ ct', Ct.truncate ct id level = .ok ct' ∧ ct'.lookup id = some { p with len := level + 1 } ∧
      ∀ id', id' ≠ id → ct'.lookup id' = ct.lookup id' := by
  unfold Ct.truncate
  rw [GoMap.deref_ok h, bind_ok, Poly.need_ok hl, bind_ok]
  exact ⟨_, rfl, by rw [GoMap.lookup_insert', if_pos rfl], fun id' h' => by rw [GoMap.lookup_insert', if_neg h']⟩

theorem Ct.level_ok {ct : Ct C} {p : Poly C} {n : ℕ} (h : ct.lookup "0" = some p) (hn : p.len = n) : ct.level = .ok (n - 1) := by
  unfold Ct.level; rw [GoMap.deref_ok h, bind_ok, hn]

theorem Poly.set_rows_le (p : Poly C) {l i : ℕ} (a : QRows C) (h : i ≤ l) : (p.set l a).rows i = a i := setQ_le _ _ h

theorem Poly.set_rows_gt (p : Poly C) {l i : ℕ} (a : QRows C) (h : l < i) : (p.set l a).rows i = p.rows i := by
  unfold Poly.set setQ; dsimp only; rw [if_neg (by omega)]

section
variable (pt : Poly C) (v : QRows C) (u e : Nega N ℤ)

/-- the ephemeral secret in NTT and Montgomery form -/
def encU (i : ℕ) : Limb N (C.q i) := (C.RQ i).mform ((C.RQ i).ntt (smallRow _ u))

/-- rows of `u * pk_b + e` in an NTT-form ciphertext -/
def encN1 (i : ℕ) : Limb N (C.q i) := (C.RQ i).add ((C.RQ i).mulMont (encU u i) (v i)) ((C.RQ i).ntt (smallRow _ e))
/-- rows of `u * pk_0 + e + m` in an NTT-form ciphertext -/
def encN0 (i : ℕ) : Limb N (C.q i) :=
  if !pt.isNTT then (C.RQ i).add ((C.RQ i).mulMont (encU u i) (v i)) ((C.RQ i).ntt ((C.RQ i).add (smallRow _ e) (pt.rows i)))
  else (C.RQ i).add ((C.RQ i).add ((C.RQ i).mulMont (encU u i) (v i)) ((C.RQ i).ntt (smallRow _ e))) (pt.rows i)
/-- rows of `u * pk_b + e` in a coefficient-form ciphertext -/
def encC1 (i : ℕ) : Limb N (C.q i) := (C.RQ i).add ((C.RQ i).intt ((C.RQ i).mulMont (encU u i) (v i))) (smallRow _ e)
/-- rows of `u * pk_0 + e + m` in a coefficient-form ciphertext -/
def encC0 (i : ℕ) : Limb N (C.q i) := (C.RQ i).add (encC1 v u e i) (if !pt.isNTT then pt.rows i else (C.RQ i).intt (pt.rows i))

end

theorem encryptNTT_ok (gs : ℕ → Nega N ℤ) (st : Enc C) {l : ℕ} {pt : Poly C} (hpt : l < pt.len) {id : String} (hid : id ≠ "0") {ct : Ct C}
    {p0 p1 : Poly C} {v0 v1 : QRows C} {u : Nega N ℤ}
    (h0 : ct.lookup "0" = some (p0.set l fun i => (C.RQ i).mulMont (encU u i) (v0 i)))
    (h1 : ct.lookup id = some (p1.set l fun i => (C.RQ i).mulMont (encU u i) (v1 i))) (hl0 : l < p0.len) (hl1 : l < p1.len) :
    ∃ ct' st', encryptNTT gs st l pt id ct = .ok (ct', st') ∧ st'.upos = st.upos ∧ st'.gpos = st.gpos + 2 ∧
      ct'.lookup "0" = some (p0.set l (encN0 pt v0 u (gs (st.gpos + 1)))) ∧ ct'.lookup id = some (p1.set l (encN1 v1 u (gs st.gpos))) ∧
      ∀ id', id' ≠ "0" → id' ≠ id → ct'.lookup id' = ct.lookup id' := by
  unfold encryptNTT
  obtain ⟨c1, a1, a2, a3⟩ := Ct.onRows_ok (fun i a => (C.RQ i).add a
    (setQ l (fun i => (C.RQ i).ntt (setQ l (smallRows (gs st.gpos)) st.pool i)) (setQ l (smallRows (gs st.gpos)) st.pool) i)) h1 hl1
  dsimp only
  rw [a1, bind_ok, Poly.need_ok hpt, bind_ok]
  have e1 : c1.lookup id = some (p1.set l (encN1 v1 u (gs st.gpos))) := by
    rw [a2, Poly.set_set]
    refine congrArg some (Poly.set_congr (fun i hi => ?_) _)
    rw [Poly.set_rows_le _ _ hi, setQ_le _ _ hi, setQ_le _ _ hi]; rfl
  have e0 := (a3 "0" hid.symm).trans h0
  generalize setQ l (fun i => (C.RQ i).ntt (setQ l (smallRows (gs st.gpos)) st.pool i)) (setQ l (smallRows (gs st.gpos)) st.pool) = pool
  cases hb : pt.isNTT with
  | false =>
    rw [if_pos (by rfl)]
    obtain ⟨c2, b1, b2, b3⟩ := Ct.onRows_ok (fun i a => (C.RQ i).add a
      (setQ l (fun i => (C.RQ i).ntt (setQ l (fun i => (C.RQ i).add (setQ l (smallRows (gs (st.gpos + 1))) pool i) (pt.rows i))
        (setQ l (smallRows (gs (st.gpos + 1))) pool) i)) (setQ l (fun i => (C.RQ i).add (setQ l (smallRows (gs (st.gpos + 1))) pool i) (pt.rows i))
        (setQ l (smallRows (gs (st.gpos + 1))) pool)) i)) e0 hl0
    rw [b1, bind_ok]
    refine ⟨c2, _, rfl, rfl, rfl, ?_, by rw [b3 id hid, e1], fun id' n0 n1 => by rw [b3 _ n0, a3 _ n1]⟩
    rw [b2, Poly.set_set]
    refine congrArg some (Poly.set_congr (fun i hi => ?_) _)
    rw [Poly.set_rows_le _ _ hi, setQ_le _ _ hi, setQ_le _ _ hi, setQ_le _ _ hi]
    unfold encN0; rw [hb]; rfl
  | true =>
    rw [if_neg (by simp)]
    obtain ⟨c2, b1, b2, b3⟩ := Ct.onRows_ok (fun i a => (C.RQ i).add a
      (setQ l (fun i => (C.RQ i).ntt (setQ l (smallRows (gs (st.gpos + 1))) pool i)) (setQ l (smallRows (gs (st.gpos + 1))) pool) i)) e0 hl0
    rw [b1, bind_ok]
    obtain ⟨c3, d1, d2, d3⟩ := Ct.onRows_ok (fun i a => (C.RQ i).add a (pt.rows i)) b2 hl0
    rw [d1, bind_ok]
    refine ⟨c3, _, rfl, rfl, rfl, ?_, by rw [d3 id hid, b3 id hid, e1], fun id' n0 n1 => by rw [d3 _ n0, b3 _ n0, a3 _ n1]⟩
    rw [d2, Poly.set_set, Poly.set_set]
    refine congrArg some (Poly.set_congr (fun i hi => ?_) _)
    rw [Poly.set_rows_le _ _ hi, Poly.set_rows_le _ _ hi, setQ_le _ _ hi, setQ_le _ _ hi]
    unfold encN0; rw [hb]; rfl

/-- rows between the result level and the level of the receiver, which are cut off at the end -/
def Poly.dirty (p : Poly C) (l l0 : ℕ) (e : Nega N ℤ) : Poly C :=
  { p with rows := fun i => if i ≤ l then p.rows i else if i ≤ l0 then (C.RQ i).add (p.rows i) (smallRow _ e) else p.rows i }

theorem encryptCoeff_ok (gs : ℕ → Nega N ℤ) (st : Enc C) {l : ℕ} {pt : Poly C} (hpt : l < pt.len) {id : String} (hid : id ≠ "0") {ct : Ct C}
    {p0 p1 : Poly C} {v0 v1 : QRows C} {u : Nega N ℤ}
    (h0 : ct.lookup "0" = some (p0.set l fun i => (C.RQ i).mulMont (encU u i) (v0 i)))
    (h1 : ct.lookup id = some (p1.set l fun i => (C.RQ i).mulMont (encU u i) (v1 i))) (hl0 : l < p0.len) (hl1 : p0.len ≤ p1.len) :
    ∃ ct' st', encryptCoeff gs st l pt id ct = .ok (ct', st') ∧ st'.upos = st.upos ∧ st'.gpos = st.gpos + 2 ∧
      ct'.lookup "0" = some ((p0.dirty l (p0.len - 1) (gs st.gpos)).set l (encC0 pt v0 u (gs st.gpos))) ∧
      ct'.lookup id = some ((p1.dirty l (p0.len - 1) (gs (st.gpos + 1))).set l (encC1 v1 u (gs (st.gpos + 1)))) ∧
      ∀ id', id' ≠ "0" → id' ≠ id → ct'.lookup id' = ct.lookup id' := by
  unfold encryptCoeff
  obtain ⟨c1, a1, a2, a3⟩ := Ct.onRows_ok (fun i a => (C.RQ i).intt a) h0 hl0
  rw [a1, bind_ok]
  obtain ⟨c2, b1, b2, b3⟩ := Ct.onRows_ok (fun i a => (C.RQ i).intt a) ((a3 id hid).trans h1) (by show l < p1.len; omega)
  rw [b1, bind_ok]
  have b0 := (b3 "0" hid.symm).trans a2
  rw [Ct.level_ok b0 (n := p0.len) rfl, bind_ok]
  have hd : ∀ (p : Poly C) (A : QRows C) (e : Nega N ℤ), l ≤ p0.len - 1 →
      (p.set l A).set (p0.len - 1) (fun i => (C.RQ i).add ((p.set l A).rows i) (smallRow _ e)) =
        (p.dirty l (p0.len - 1) e).set l (fun i => (C.RQ i).add (A i) (smallRow _ e)) := by
    intro p A e hl
    unfold Poly.set Poly.dirty
    dsimp only
    congr 1
    funext i
    unfold setQ
    by_cases g1 : i ≤ l
    · have g2 : i ≤ p0.len - 1 := by omega
      simp only [if_pos g1, if_pos g2]
    · simp only [if_neg g1]
  have hle : l ≤ p0.len - 1 := by omega
  obtain ⟨c3, d1, d2, d3⟩ := Ct.onRows_ok (fun i a => (C.RQ i).add a (smallRow _ (gs st.gpos))) b0
    (show p0.len - 1 < p0.len by omega)
  rw [d1, bind_ok, Ct.level_ok d2 (n := p0.len) rfl, bind_ok]
  obtain ⟨c4, f1, f2, f3⟩ := Ct.onRows_ok (fun i a => (C.RQ i).add a (smallRow _ (gs (st.gpos + 1)))) ((d3 id hid).trans b2)
    (show p0.len - 1 < p1.len by omega)
  rw [f1, bind_ok, Poly.need_ok hpt, bind_ok]
  have e0 : c4.lookup "0" = some ((p0.dirty l (p0.len - 1) (gs st.gpos)).set l (encC1 v0 u (gs st.gpos))) := by
    rw [f3 _ hid.symm, d2]
    rw [Poly.set_set, hd _ _ _ hle]
    refine congrArg some (Poly.set_congr (fun i hi => ?_) _)
    rw [Poly.set_rows_le _ _ hi]; rfl
  have e1 : c4.lookup id = some ((p1.dirty l (p0.len - 1) (gs (st.gpos + 1))).set l (encC1 v1 u (gs (st.gpos + 1)))) := by
    rw [f2]
    rw [Poly.set_set, hd _ _ _ hle]
    refine congrArg some (Poly.set_congr (fun i hi => ?_) _)
    rw [Poly.set_rows_le _ _ hi]; rfl
  have e2 : ∀ id', id' ≠ "0" → id' ≠ id → c4.lookup id' = ct.lookup id' := fun id' n0 n1 => by
    rw [f3 _ n1, d3 _ n0, b3 _ n1, a3 _ n0]
  cases hb : pt.isNTT with
  | false =>
    rw [if_pos (by rfl)]
    obtain ⟨c5, g1, g2, g3⟩ := Ct.onRows_ok (fun i a => (C.RQ i).add a (pt.rows i)) e0 (by show l < p0.len; exact hl0)
    rw [g1, bind_ok]
    refine ⟨c5, _, rfl, rfl, rfl, ?_, by rw [g3 id hid, e1], fun id' n0 n1 => by rw [g3 _ n0, e2 _ n0 n1]⟩
    rw [g2, Poly.set_set]
    refine congrArg some (Poly.set_congr (fun i hi => ?_) _)
    rw [Poly.set_rows_le _ _ hi]
    unfold encC0; rw [hb]; rfl
  | true =>
    rw [if_neg (by simp)]
    obtain ⟨c5, g1, g2, g3⟩ := Ct.onRows_ok (fun i a => (C.RQ i).add a (setQ l (fun i => (C.RQ i).intt (pt.rows i)) st.pool i)) e0
      (by show l < p0.len; exact hl0)
    dsimp only
    rw [g1, bind_ok]
    refine ⟨c5, _, rfl, rfl, rfl, ?_, by rw [g3 id hid, e1], fun id' n0 n1 => by rw [g3 _ n0, e2 _ n0 n1]⟩
    rw [g2, Poly.set_set]
    refine congrArg some (Poly.set_congr (fun i hi => ?_) _)
    rw [Poly.set_rows_le _ _ hi, setQ_le _ _ hi]
    unfold encC0; rw [hb]; rfl

/-- component "0" of the result of `Encrypt`, from the component `p` of the receiver -/
def enc0 (pt : Poly C) (v : QRows C) (u e : Nega N ℤ) (l : ℕ) (p : Poly C) : Poly C :=
  if p.isNTT then { p.set l (encN0 pt v u e) with len := l + 1 }
  else { (p.dirty l (p.len - 1) e).set l (encC0 pt v u e) with len := l + 1 }

/-- the owner's component of the result of `Encrypt`; `p0` is component "0" of the receiver -/
def enc1 (v : QRows C) (u e : Nega N ℤ) (l : ℕ) (p0 p : Poly C) : Poly C :=
  if p0.isNTT then { p.set l (encN1 v u e) with len := l + 1, isNTT := true }
  else { (p.dirty l (p0.len - 1) e).set l (encC1 v u e) with len := l + 1, isNTT := false }

/-- the Gaussian samples used for component "0" and for the owner's component: the order of the two calls depends on the flag -/
def encE0 (gs : ℕ → Nega N ℤ) (pos : ℕ) (ntt : Bool) : Nega N ℤ := if ntt then gs (pos + 1) else gs pos
/-- see `encE0` -/
def encE1 (gs : ℕ → Nega N ℤ) (pos : ℕ) (ntt : Bool) : Nega N ℤ := if ntt then gs pos else gs (pos + 1)

theorem encrypt_ok (us gs : ℕ → Nega N ℤ) (st : Enc C) {pt : Poly C} (hpt : 0 < pt.len) {pk : PKey C} (hid : pk.id ≠ "0") {ctOut : Ct C}
    {p0 p1 : Poly C} (h0 : ctOut.lookup "0" = some p0) (h1 : ctOut.lookup pk.id = some p1) (hl0 : 0 < p0.len) (hl1 : p0.len ≤ p1.len) :
    ∃ ct st', encrypt us gs st pt pk ctOut = .ok (ct, st') ∧ st'.upos = st.upos + 1 ∧ st'.gpos = st.gpos + 2 ∧
      ct.lookup "0" = some (enc0 pt pk.v0.Q (us st.upos) (encE0 gs st.gpos p0.isNTT) (min (pt.len - 1) (p0.len - 1)) p0) ∧
      ct.lookup pk.id = some (enc1 pk.v1.Q (us st.upos) (encE1 gs st.gpos p0.isNTT) (min (pt.len - 1) (p0.len - 1)) p0 p1) ∧
      ∀ id, id ≠ "0" → id ≠ pk.id → ct.lookup id = ctOut.lookup id := by
  unfold encrypt
  rw [Ct.level_ok h0 (n := p0.len) rfl, bind_ok]
  dsimp only
  set l := min (pt.len - 1) (p0.len - 1) with hl
  have hlp : l < p0.len := by omega
  rw [GoMap.deref_ok h0, bind_ok]
  set pool := setQ l (fun i => (C.RQ i).mform (setQ l (fun i => (C.RQ i).ntt (setQ l (smallRows (us st.upos)) st.pool i))
    (setQ l (smallRows (us st.upos)) st.pool) i)) (setQ l (fun i => (C.RQ i).ntt (setQ l (smallRows (us st.upos)) st.pool i))
    (setQ l (smallRows (us st.upos)) st.pool)) with hpool
  have hp : ∀ i ≤ l, pool i = encU (us st.upos) i := fun i hi => by
    rw [hpool, setQ_le _ _ hi, setQ_le _ _ hi, setQ_le _ _ hi]; rfl
  obtain ⟨c1, a1, a2, a3⟩ := Ct.onRows_ok (fun i _ => (C.RQ i).mulMont (pool i) (pk.v0.Q i)) h0 hlp
  rw [a1, bind_ok]
  obtain ⟨c2, b1, b2, b3⟩ := Ct.onRows_ok (fun i _ => (C.RQ i).mulMont (pool i) (pk.v1.Q i)) ((a3 _ hid).trans h1) (show l < p1.len by omega)
  rw [b1, bind_ok]
  have b0 : c2.lookup "0" = some (p0.set l fun i => (C.RQ i).mulMont (encU (us st.upos) i) (pk.v0.Q i)) := by
    rw [b3 _ hid.symm, a2]
    exact congrArg some (Poly.set_congr (fun i hi => by rw [hp i hi]) _)
  have b2' : c2.lookup pk.id = some (p1.set l fun i => (C.RQ i).mulMont (encU (us st.upos) i) (pk.v1.Q i)) := by
    rw [b2]
    exact congrArg some (Poly.set_congr (fun i hi => by rw [hp i hi]) _)
  obtain ⟨c3, st3, r0, r1, d1, d2, d3, d4, d5, d6, d7, d8⟩ : ∃ c3 st3 r0 r1,
      encryptBody p0.isNTT gs ⟨pool, st.upos + 1, st.gpos⟩ l pt pk.id c2 = .ok (c3, st3) ∧ st3.upos = st.upos + 1 ∧ st3.gpos = st.gpos + 2 ∧
      c3.lookup "0" = some r0 ∧ c3.lookup pk.id = some r1 ∧ (r0.len = p0.len ∧ r1.len = p1.len ∧ r0.isNTT = p0.isNTT) ∧
      ({ r0 with len := l + 1 } = enc0 pt pk.v0.Q (us st.upos) (encE0 gs st.gpos p0.isNTT) l p0 ∧
        { r1 with isNTT := p0.isNTT, len := l + 1 } = enc1 pk.v1.Q (us st.upos) (encE1 gs st.gpos p0.isNTT) l p0 p1) ∧
      ∀ id', id' ≠ "0" → id' ≠ pk.id → c3.lookup id' = c2.lookup id' := by
    unfold encryptBody
    cases hb : p0.isNTT with
    | true =>
      rw [if_pos rfl]
      obtain ⟨c3, st3, d1, d2, d3, d4, d5, d6⟩ := encryptNTT_ok gs ⟨pool, st.upos + 1, st.gpos⟩ (show l < pt.len by omega) hid b0 b2' hlp
        (show l < p1.len by omega)
      refine ⟨c3, st3, _, _, d1, d2, d3, d4, d5, ⟨rfl, rfl, hb⟩, ⟨?_, ?_⟩, d6⟩
      · unfold enc0 encE0; rw [hb]; rfl
      · unfold enc1 encE1; rw [hb]; rfl
    | false =>
      rw [if_neg (by simp)]
      obtain ⟨c3, st3, d1, d2, d3, d4, d5, d6⟩ := encryptCoeff_ok gs ⟨pool, st.upos + 1, st.gpos⟩ (show l < pt.len by omega) hid b0 b2' hlp hl1
      refine ⟨c3, st3, _, _, d1, d2, d3, d4, d5, ⟨rfl, rfl, hb⟩, ⟨?_, ?_⟩, d6⟩
      · unfold enc0 encE0; rw [hb]; rfl
      · unfold enc1 encE1; rw [hb]; rfl
  rw [d1, bind_ok]
  dsimp only
  rw [GoMap.deref_ok d4, bind_ok, GoMap.deref_ok d5, bind_ok]
  obtain ⟨c4, f1, f2, f3⟩ := Ct.truncate_ok (ct := AList.insert pk.id { r1 with isNTT := r0.isNTT } c3) (id := "0") (level := l) (p := r0)
    (by rw [GoMap.lookup_insert', if_neg hid.symm, d4]) (by omega)
  rw [f1, bind_ok]
  obtain ⟨c5, g1, g2, g3⟩ := Ct.truncate_ok (ct := c4) (id := pk.id) (level := l) (p := { r1 with isNTT := r0.isNTT })
    (by rw [f3 _ hid, GoMap.lookup_insert', if_pos rfl]) (by show l < r1.len; omega)
  rw [g1, bind_ok]
  refine ⟨c5, st3, rfl, d2, d3, ?_, ?_, fun id n0 n1 => ?_⟩
  · rw [g3 _ hid.symm, f2, d7.1]
  · rw [g2, ← d7.2, ← d6.2.2]
  · rw [g3 _ n1, f3 _ n0, GoMap.lookup_insert', if_neg n1, d8 _ n0 n1, b3 _ n1, a3 _ n0]

/-- what the rows of the two components represent -/
theorem enc0_cf (pt : Poly C) (v : QRows C) (u e : Nega N ℤ) (l : ℕ) (p : Poly C) {i : ℕ} (hi : i ≤ l) :
    cf ((enc0 pt v u e l p).coeffs i) = (C.RQ i).ev (v i) * red (C.q i) u + red (C.q i) e + cf (pt.coeffs i) := by
  have hu : (C.RQ i).ev (encU u i) * (C.RQ i).rinv = red (C.q i) u := by
    unfold encU
    rw [LimbOps.ev_mform, mul_assoc, LimbOps.mul_rinv, mul_one, LimbOps.ev_ntt, smallRow_cf (C.RQ i).pos]
  have hm : (C.RQ i).ev ((C.RQ i).mulMont (encU u i) (v i)) = (C.RQ i).ev (v i) * red (C.q i) u := by
    rw [LimbOps.ev_mulMont, ← hu]; ring
  unfold enc0
  cases hb : p.isNTT with
  | true =>
    rw [if_pos rfl]
    unfold Poly.coeffs
    rw [if_pos (by exact hb)]
    show cf ((C.RQ i).intt ((p.set l _).rows i)) = _
    rw [LimbOps.cf_intt, Poly.set_rows_le _ _ hi]
    unfold encN0
    cases hc : pt.isNTT with
    | false => 
      simp only [Bool.not_false, if_true]
      rw [LimbOps.ev_add, hm, LimbOps.ev_ntt, LimbOps.cf_add, smallRow_cf (C.RQ i).pos]
      simp only [Bool.false_eq_true, if_false]; ring
    | true =>
      simp only [Bool.not_true, Bool.false_eq_true, if_false, if_true]
      rw [LimbOps.ev_add, LimbOps.ev_add, hm, LimbOps.ev_ntt, smallRow_cf (C.RQ i).pos, LimbOps.cf_intt]
  | false =>
    rw [if_neg (by simp)]
    rw [Poly.coeffs_eq (by exact hb)]
    show cf (((p.dirty l _ e).set l _).rows i) = _
    rw [Poly.set_rows_le _ _ hi]
    unfold encC0 encC1
    rw [LimbOps.cf_add, LimbOps.cf_add, LimbOps.cf_intt, hm, smallRow_cf (C.RQ i).pos]
    unfold Poly.coeffs
    cases hc : pt.isNTT with
    | false => simp
    | true => simp

theorem enc1_cf (v : QRows C) (u e : Nega N ℤ) (l : ℕ) (p0 p : Poly C) {i : ℕ} (hi : i ≤ l) :
    cf ((enc1 v u e l p0 p).coeffs i) = (C.RQ i).ev (v i) * red (C.q i) u + red (C.q i) e := by
  have hu : (C.RQ i).ev (encU u i) * (C.RQ i).rinv = red (C.q i) u := by
    unfold encU
    rw [LimbOps.ev_mform, mul_assoc, LimbOps.mul_rinv, mul_one, LimbOps.ev_ntt, smallRow_cf (C.RQ i).pos]
  have hm : (C.RQ i).ev ((C.RQ i).mulMont (encU u i) (v i)) = (C.RQ i).ev (v i) * red (C.q i) u := by
    rw [LimbOps.ev_mulMont, ← hu]; ring
  unfold enc1
  cases hb : p0.isNTT with
  | true =>
    rw [if_pos rfl]
    unfold Poly.coeffs
    rw [if_pos (by rfl)]
    show cf ((C.RQ i).intt ((p.set l _).rows i)) = _
    rw [LimbOps.cf_intt, Poly.set_rows_le _ _ hi]
    unfold encN1
    rw [LimbOps.ev_add, hm, LimbOps.ev_ntt, smallRow_cf (C.RQ i).pos]
  | false =>
    rw [if_neg (by simp)]
    rw [Poly.coeffs_eq (by rfl)]
    show cf (((p.dirty l _ e).set l _).rows i) = _
    rw [Poly.set_rows_le _ _ hi]
    unfold encC1
    rw [LimbOps.cf_add, LimbOps.cf_intt, hm, smallRow_cf (C.RQ i).pos]

end MKHE
