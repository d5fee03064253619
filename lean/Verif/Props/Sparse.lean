import Verif.Lemmas.Sparse
import Verif.Props.CkksShipped
import Verif.Props.CkksShippedExample

set_option autoImplicit false

/-!
# C75: CKKS messages with fewer than `N/2` slots

`mkckks.Parameters` has `LogSlots`, and a `Message` has `n = 2^LogSlots` numbers (mkckks/elements.go NewMessage, mkckks/params.go Slots). With `N = 2 n g` the encoder makes
a polynomial in `X^g`, whose `N/2` slots are `g` copies of the message, and the decoder reads the coefficients at the multiples of `g` (lattigo; not modelled, only
specified). The evaluator of `mkckks` never looks at `LogSlots`. The theorems say that it works on vectors of `n` slots all the same.
-/

namespace MKHE.C75
open Finset Nega C59 C67 Lits

/-! ## specification -/

/-- a message of `n` slots; slots are counted modulo `n` -/
abbrev Vec (n : ℕ) := ZMod n → ℂ

/-- what a call does to messages of `n` slots; rotation by `r` moves slot `j + r mod n` to slot `j` -/
noncomputable def vecStep {n : ℕ} (pt : ℕ → Vec n) (z : List (Vec n)) : Instr → List (Vec n)
  | .add i j => z ++ [fun x => z.getD i 0 x + z.getD j 0 x]
  | .sub i j => z ++ [fun x => z.getD i 0 x - z.getD j 0 x]
  | .mul i j | .mulH i j _ _ => z ++ [fun x => z.getD i 0 x * z.getD j 0 x]
  | .rot i r | .rotH i r _ => z ++ [fun x => z.getD i 0 (x + (r : ZMod n))]
  | .conj i => z ++ [fun x => (starRingEnd ℂ) (z.getD i 0 x)]
  | .hoist _ => z
  | .mulPt i p => z ++ [fun x => pt p x * z.getD i 0 x]
  | .drop i _ | .rescale i _ => z ++ [z.getD i 0]
  | .const i k => z ++ [fun x => (constVal k : ℝ) * z.getD i 0 x]

/-- the program on messages of `n` slots -/
noncomputable def vecs {n : ℕ} (pt : ℕ → Vec n) (z : List (Vec n)) (p : List Instr) : List (Vec n) := p.foldl (vecStep pt) z

/-- the real polynomial carries the message: its `N/2` slots are copies of it -/
def Carries {N : ℕ} [NeZero N] {n : ℕ} (v : Nega N ℝ) (x : Vec n) : Prop := ∀ j : ℤ, slot j v = x (j : ZMod n)

/-- a returned plaintext decodes to the message `x` of `2^l` slots within `err`, `N = 2 · 2^l · 2^m`: the slots of the polynomial of the coefficients at the multiples of
`2^m`, divided by the returned scale, are within `err` of `x`. -/
def DecodesVec {N : ℕ} [NeZero N] {C : Ctx N} (l m : ℕ) (d : Poly C × ℚ) (x : Vec (2 ^ l)) (err : ℝ) : Prop :=
  N = 2 * 2 ^ l * 2 ^ m ∧ 0 < d.2 ∧ ∃ lvl < C.nQ, d.1.len = lvl + 1 ∧ ∃ Φ : Nega N ℤ, (∀ k ≤ lvl, cf (d.1.rows k) = red (C.q k) Φ) ∧
    (∀ y, 2 * |Φ y| < modulus C lvl) ∧ ∀ j : ℤ, ‖slot j (every (2 ^ m) (toReal Φ)) / (d.2 : ℂ) - x (j : ZMod (2 ^ l))‖ ≤ err

/-! ## theorems -/

section
variable {N : ℕ} [NeZero N] {C : Ctx N} {l m : ℕ}

/-- the slots of a vector, repeated -/
def rep {n : ℕ} (x : Vec n) : ℤ → ℂ := fun j => x (j : ZMod n)

theorem rep_period (x : Vec (2 ^ l)) (j : ℤ) : rep x (j + (2 ^ l : ℕ)) = rep x j := by
  unfold rep
  rw [Int.cast_add, Int.cast_natCast, ZMod.natCast_self, add_zero]

/-- **C75, encoding**: every message is carried by exactly one real polynomial, and that is a polynomial in `X^g` -/
theorem carries_unique (hN : N = 2 * 2 ^ l * 2 ^ m) (x : Vec (2 ^ l)) : ∃! v : Nega N ℝ, Carries v x := by
  have hNp : N = 2 ^ (l + m + 1) := by rw [hN]; ring
  have hh : N / 2 = 2 ^ l * 2 ^ m := by
    rw [hN, show 2 * 2 ^ l * 2 ^ m = 2 * (2 ^ l * 2 ^ m) by ring]; omega
  refine ⟨ofSlots N fun k => x (k : ZMod (2 ^ l)), fun j => ?_, fun w hw => slots_inj hNp (by omega) fun j => ?_⟩
  all_goals
    have hs : ∀ j : ℤ, slot j (ofSlots N fun k => x (k : ZMod (2 ^ l))) = x (j : ZMod (2 ^ l)) := fun j => by
      rw [slot_ofSlots hNp (by omega)]
      congr 1
      unfold C35.amount
      have h0 : (0 : ℤ) < ((N / 2 : ℕ) : ℤ) := by rw [hh]; positivity
      have h1 := Int.emod_nonneg j h0.ne'
      have h2 : (((j % ((N / 2 : ℕ) : ℤ)).toNat : ℤ) : ZMod (2 ^ l)) = (j : ZMod (2 ^ l)) := by
        rw [Int.toNat_of_nonneg h1]
        rw [ZMod.intCast_eq_intCast_iff_dvd_sub]
        refine Dvd.dvd.trans ?_ (Int.dvd_self_sub_emod (x := j) (m := ((N / 2 : ℕ) : ℤ)))
        rw [hh]; exact ⟨2 ^ m, by push_cast; ring⟩
      exact_mod_cast h2
  · exact hs j
  · rw [hw j, hs j]

theorem carries_every (hN : N = 2 * 2 ^ l * 2 ^ m) {v : Nega N ℝ} {x : Vec (2 ^ l)} (h : Carries v x) : every (2 ^ m) v = v :=
  every_of_period hN fun j => by
    rw [h, h]; exact rep_period x j

theorem getD_rep {n : ℕ} (z : List (Vec n)) (i : ℕ) (j : ℤ) : (z.map rep).getD i 0 j = z.getD i 0 (j : ZMod n) := by
  rw [List.getD_eq_getElem?_getD, List.getD_eq_getElem?_getD, List.getElem?_map]
  cases z[i]? <;> rfl

/-- a call on repeated vectors -/
theorem plainStep_rep {n : ℕ} (pt : ℕ → Vec n) (z : List (Vec n)) (c : Instr) : plainStep (fun p => rep (pt p)) (z.map rep) c = (vecStep pt z c).map rep := by
  cases c <;> simp only [plainStep, vecStep, List.map_append, List.map_cons, List.map_nil] <;>
    first
    | rfl
    | (refine congrArg (fun a => z.map rep ++ [a]) (funext fun j => ?_)
       simp only [getD_rep, rep, Int.cast_add])

theorem plain_rep {n : ℕ} (pt : ℕ → Vec n) (p : List Instr) : ∀ z : List (Vec n), plain (fun p => rep (pt p)) (z.map rep) p = (vecs pt z p).map rep := by
  induction p with
  | nil => exact fun _ => rfl
  | cons c p ih =>
    intro z
    show plain _ (plainStep _ (z.map rep) c) p = (vecs pt (vecStep pt z c) p).map rep
    rw [plainStep_rep, ih]

/-- **C75, decoding**: what decodes to the repeated message with all slots decodes to the message with `2^l` slots, within the same error -/
theorem decodes_vec (hN : N = 2 * 2 ^ l * 2 ^ m) {d : Poly C × ℚ} {x : Vec (2 ^ l)} {err : ℝ} (h : Decodes d (rep x) err) : DecodesVec l m d x err := by
  obtain ⟨h0, lvl, h1, h2, Φ, h3, h4, h5⟩ := h
  exact ⟨hN, h0, lvl, h1, h2, Φ, h3, h4, fun j => decode_sparse hN (rep_period x) h5 j⟩

theorem map_slots {v : List (Nega N ℝ)} {z : List (Vec (2 ^ l))} (h : List.Forall₂ Carries v z) : (v.map fun x j => slot j x) = z.map rep := by
  induction h with
  | nil => rfl
  | cons hd _ ih => rw [List.map_cons, List.map_cons, ih]; congr 1; exact funext hd

/-- the slots of the value of a program on messages of `2^l` slots -/
theorem plain_carried {vs : List (Nega N ℝ)} {z : List (Vec (2 ^ l))} (h : List.Forall₂ Carries vs z) {zp : ℕ → Nega N ℝ} {pt : ℕ → Vec (2 ^ l)}
    (hp : ∀ p, Carries (zp p) (pt p)) (p : List Instr) (i : ℕ) :
    (plain (fun p j => slot j (zp p)) (vs.map fun x j => slot j x) p).getD i 0 = rep ((vecs pt z p).getD i 0) := by
  have e : (fun (p : ℕ) (j : ℤ) => slot j (zp p)) = fun p => rep (pt p) := funext fun p => funext fun j => hp p j
  rw [e, map_slots h, plain_rep]
  funext j
  rw [getD_rep]; rfl

/-- **C75, programs.** As `C59.program_decrypt`: if the inputs and the plaintext operands carry messages of `2^l` slots, any result of the program, decrypted and decoded
with `2^l` slots, is within `B / scale` of the value of the program on messages of `2^l` slots. -/
theorem program_sparse (V : C.Valid) (hN : N = 2 * 2 ^ l * 2 ^ m) {S : Sys C} {w : Env C} {pts : Pts N} (hS : S.Ok) (hp : PtsOk w pts) (p : List Instr) (n : ℕ) {M : Machine C}
    {A : Abs N} (h : Rel S M A) (hok : ProgOk S w pts A p) {z : List (Vec (2 ^ l))} (hz : List.Forall₂ Carries (A.cts.map Prod.fst) z)
    {pt : ℕ → Vec (2 ^ l)} (hpt : ∀ k, Carries (pts k).1 (pt k))
    {i : ℕ} (hi : i < (execs S w pts A p).cts.length) {sks : KeySet (SKey C)}
    (hs : SKeys.Of sks ((execs S w pts A p).info i).ids S.s) (pool : Poly C) (hpool : ((execs S w pts A p).info i).level < pool.len)
    (hfit : 2 * (((execs S w pts A p).info i).scale * ((execs S w pts A p).info i).V + ((execs S w pts A p).info i).B) <
      modulus C ((execs S w pts A p).info i).level) (o : Sched String) :
    ∃ M' ct q pool', run S w n M p = .ok M' ∧ M'.cts[i]? = some ct ∧
      ckksDecrypt o pool ct sks = .ok ((q, ((execs S w pts A p).info i).scale), pool') ∧
      ∃ Φ : Nega N ℤ, (∀ k ≤ ((execs S w pts A p).info i).level, cf (q.rows k) = red (C.q k) Φ) ∧
        (∀ Ψ : Nega N ℤ, (∀ k ≤ ((execs S w pts A p).info i).level, cf (q.rows k) = red (C.q k) Ψ) →
          (∀ x, 2 * |Ψ x| ≤ modulus C ((execs S w pts A p).info i).level) → Ψ = Φ) ∧
        ∀ j : ℤ, ‖slot j (every (2 ^ m) (toReal Φ)) / (((execs S w pts A p).info i).scale : ℂ) - (vecs pt z p).getD i 0 (j : ZMod (2 ^ l))‖ ≤
          ((execs S w pts A p).info i).B / ((execs S w pts A p).info i).scale := by
  obtain ⟨M', ct, q, pool', r1, r2, r3, Φ, r4, r5, r6⟩ := program_decrypt V hS hp p n h hok hi hs pool hpool hfit o
  refine ⟨M', ct, q, pool', r1, r2, r3, Φ, r4, r5, decode_sparse hN (rep_period ((vecs pt z p).getD i 0)) fun j => ?_⟩
  have e : slot j ((execs S w pts A p).val i) = rep ((vecs pt z p).getD i 0) j := by
    have h1 := execs_plain V S w pts p A
    have h2 := plain_carried hz hpt p i
    have h3 := congrFun (congrArg (fun a => List.getD a i 0) h1) j
    have h4 := congrFun h2 j
    rw [List.map_map] at h4
    rw [← h4]
    refine Eq.trans ?_ h3
    simp only [List.getD_eq_getElem?_getD, List.getElem?_map, List.getElem?_eq_getElem hi, Abs.val]
    rfl
  rw [← e]
  exact r6 j

/-! ## the clients of C67 -/

theorem forall_ins {ins : List (Input C)} {z : List (Vec (2 ^ l))} (h : List.Forall₂ (fun (x : Input C) (y : Vec (2 ^ l)) => Carries x.val y) ins z) :
    List.Forall₂ Carries (ins.map Input.val) z := by
  induction h with
  | nil => exact .nil
  | cons hd _ ih => exact .cons hd ih

theorem decodes_client (hN : N = 2 * 2 ^ l * 2 ^ m) {d : Poly C × ℚ} {ins : List (Input C)} {z : List (Vec (2 ^ l))}
    (hz : List.Forall₂ (fun (x : Input C) (y : Vec (2 ^ l)) => Carries x.val y) ins z) {zp : ℕ → Nega N ℝ} {pt : ℕ → Vec (2 ^ l)} (hp : ∀ p, Carries (zp p) (pt p))
    (p : List Instr) (i : ℕ) {err : ℝ} (h : Decodes d ((plain (fun p j => slot j (zp p)) (ins.map fun x j => slot j x.val) p).getD i 0) err) :
    DecodesVec l m d ((vecs pt z p).getD i 0) err := by
  refine decodes_vec hN ?_
  have := plain_carried (forall_ins hz) hp p i
  rw [List.map_map] at this
  rw [← this]
  exact h

end

section
variable {fm : FloatModel} {rq : ∀ i, LimbOps (2 ^ ckks14.logN) (nth ckks14.Q i)} {rp : ∀ j, LimbOps (2 ^ ckks14.logN) (nth ckks14.P j)}

/-- **C75 at PN14QP439**, up to four parties and any number `2^l ≤ 2^13` of slots: a program that the estimator accepts computes on messages of `2^l` slots -/
theorem client_sparse14 {l m : ℕ} (hlm : l + m = 13) (R : Run (ckks14.ctx 2 fm rq rp)) (ids : List String) (h0 : "0" ∉ ids) (hids : ids.length ≤ 4)
    (ins : List (Input (ckks14.ctx 2 fm rq rp))) (v : Input (ckks14.ctx 2 fm rq rp) → ℕ) {bp : ℕ}
    (hins : ∀ x ∈ ins, x.owner ∈ ids ∧ Encodes x.pt (2 ^ 52 : ℕ) x.val bp ∧ SBdd x.val (v x / 2 ^ 20)) {z : List (Vec (2 ^ l))}
    (hz : List.Forall₂ (fun (x : Input _) (y : Vec (2 ^ l)) => Carries x.val y) ins z)
    {env : Env (ckks14.ctx 2 fm rq rp)} {zp : ℕ → Nega (2 ^ ckks14.logN) ℝ} {vp : ℕ} (henv : EnvOk pars14 env zp vp bp) {pt : ℕ → Vec (2 ^ l)}
    (hpt : ∀ p, Carries (zp p) (pt p)) (p : List Instr) (i : ℕ) {e : Est}
    (hest : estimate pars14 (fun _ => (vp, bp)) ⟨ins.map fun x => freshEst pars14 (v x) bp 622611, []⟩ p i = some e) :
    ∃ d, R.result ids (2 ^ 52 : ℕ) ins env p i = .ok d ∧ DecodesVec l m d ((vecs pt z p).getD i 0) (e.b * 1025 / (1024 * 2 ^ 52)) := by
  obtain ⟨d, d1, d2⟩ := client_ckks14 R ids h0 hids ins v hins henv p i hest
  exact ⟨d, d1, decodes_client (by
    show 2 ^ 14 = _
    rw [show 2 * 2 ^ l * 2 ^ m = 2 * 2 ^ (l + m) by ring, hlm]; norm_num) hz hpt p i d2⟩

end

section
variable {fm : FloatModel} {rq : ∀ i, LimbOps (2 ^ ckks15.logN) (nth ckks15.Q i)} {rp : ∀ j, LimbOps (2 ^ ckks15.logN) (nth ckks15.P j)}

/-- **C75 at PN15QP880**, up to four parties and any number `2^l ≤ 2^14` of slots -/
theorem client_sparse15 {l m : ℕ} (hlm : l + m = 14) (R : Run (ckks15.ctx 2 fm rq rp)) (ids : List String) (h0 : "0" ∉ ids) (hids : ids.length ≤ 4)
    (ins : List (Input (ckks15.ctx 2 fm rq rp))) (v : Input (ckks15.ctx 2 fm rq rp) → ℕ) {bp : ℕ}
    (hins : ∀ x ∈ ins, x.owner ∈ ids ∧ Encodes x.pt (2 ^ 54 : ℕ) x.val bp ∧ SBdd x.val (v x / 2 ^ 20)) {z : List (Vec (2 ^ l))}
    (hz : List.Forall₂ (fun (x : Input _) (y : Vec (2 ^ l)) => Carries x.val y) ins z)
    {env : Env (ckks15.ctx 2 fm rq rp)} {zp : ℕ → Nega (2 ^ ckks15.logN) ℝ} {vp : ℕ} (henv : EnvOk pars15 env zp vp bp) {pt : ℕ → Vec (2 ^ l)}
    (hpt : ∀ p, Carries (zp p) (pt p)) (p : List Instr) (i : ℕ) {e : Est}
    (hest : estimate pars15 (fun _ => (vp, bp)) ⟨ins.map fun x => freshEst pars15 (v x) bp 1245203, []⟩ p i = some e) :
    ∃ d, R.result ids (2 ^ 54 : ℕ) ins env p i = .ok d ∧ DecodesVec l m d ((vecs pt z p).getD i 0) (e.b * 1025 / (1024 * 2 ^ 54)) := by
  obtain ⟨d, d1, d2⟩ := client_ckks15 R ids h0 hids ins v hins henv p i hest
  exact ⟨d, d1, decodes_client (by
    show 2 ^ 15 = _
    rw [show 2 * 2 ^ l * 2 ^ m = 2 * 2 ^ (l + m) by ring, hlm]; norm_num) hz hpt p i d2⟩

end

/-! ## the hypotheses are met -/

theorem amount_cast {N l m : ℕ} (hN : N = 2 * 2 ^ l * 2 ^ m) (j : ℤ) : ((C35.amount N j : ℕ) : ZMod (2 ^ l)) = (j : ZMod (2 ^ l)) := by
  have hh : N / 2 = 2 ^ l * 2 ^ m := by
    rw [hN, show 2 * 2 ^ l * 2 ^ m = 2 * (2 ^ l * 2 ^ m) by ring]; omega
  unfold C35.amount
  have h0 : (0 : ℤ) < ((N / 2 : ℕ) : ℤ) := by rw [hh]; positivity
  have h1 := Int.emod_nonneg j h0.ne'
  have h2 : (((j % ((N / 2 : ℕ) : ℤ)).toNat : ℤ) : ZMod (2 ^ l)) = (j : ZMod (2 ^ l)) := by
    rw [Int.toNat_of_nonneg h1]
    rw [ZMod.intCast_eq_intCast_iff_dvd_sub]
    refine Dvd.dvd.trans ?_ (Int.dvd_self_sub_emod (x := j) (m := ((N / 2 : ℕ) : ℤ)))
    rw [hh]; exact ⟨2 ^ m, by push_cast; ring⟩
  exact_mod_cast h2

section
variable (fm : FloatModel) (rq : ∀ i, LimbOps (2 ^ ckks14.logN) (nth ckks14.Q i)) (rp : ∀ j, LimbOps (2 ^ ckks14.logN) (nth ckks14.P j))

/-- **instance**: four parties with any messages of 8 slots, of absolute value at most 1, at the literal with 8192 slots, and the program of `C67.tour14`, which rotates by
9: the result is the plaintext times the conjugate of twice the product rotated by 9, that is by one slot, minus the first message -/
theorem tour_sparse (rand : ℕ → PolyQP (ckks14.ctx 2 fm rq rp)) (mform : PolyQP (ckks14.ctx 2 fm rq rp) → PolyQP (ckks14.ctx 2 fm rq rp)) (o : Sched String)
    (z pt : ℕ → Vec (2 ^ 3)) (hz : ∀ n k, ‖z n k‖ ≤ 1) (hpt : ∀ n k, ‖pt n k‖ ≤ 1) :
    ∃ (x : ℕ → Input (ckks14.ctx 2 fm rq rp)) (env : Env (ckks14.ctx 2 fm rq rp)) (y : Poly (ckks14.ctx 2 fm rq rp) × ℚ),
      (∀ n, Carries (x n).val (z n)) ∧
      (exRun _ rand mform o).result ["user0", "user1", "user2", "user3"] (2 ^ 52 : ℕ) [x 0, x 1, x 2, x 3] env tour 12 = .ok y ∧
      DecodesVec 3 10 y (fun j => pt 0 j * (starRingEnd ℂ) (2 * (z 0 (j + 1) * z 1 (j + 1))) - z 0 j) (1 / 2 ^ 15) := by
  have hN : 2 ^ ckks14.logN = 2 * 2 ^ 3 * 2 ^ 10 := by show 2 ^ 14 = _; norm_num
  obtain ⟨x, env, w, y, hx, hw, hr, hd⟩ := tour14 fm rq rp rand mform o (fun n k => z n k) (fun n k => pt n k) (fun n k => hz n k) (fun n k => hpt n k)
  have hx' : ∀ n, Carries (x n).val (z n) := fun n j => (hx n j).trans (congrArg (z n) (amount_cast hN j))
  have hw' : ∀ n, Carries (w n) (pt n) := fun n j => (hw n j).trans (congrArg (pt n) (amount_cast hN j))
  refine ⟨x, env, y, hx', hr, decodes_vec hN ?_⟩
  have e : (fun j : ℤ => slot j (w 0) * (starRingEnd ℂ) (2 * (slot (j + 9) (x 0).val * slot (j + 9) (x 1).val)) - slot j (x 0).val) =
      rep (fun j => pt 0 j * (starRingEnd ℂ) (2 * (z 0 (j + 1) * z 1 (j + 1))) - z 0 j) := by
    funext j
    have h9 : ((j + 9 : ℤ) : ZMod (2 ^ 3)) = (j : ZMod (2 ^ 3)) + 1 := by
      rw [Int.cast_add]; congr 1
    rw [hw' 0 j, hx' 0 (j + 9), hx' 1 (j + 9), hx' 0 j, h9]
    rfl
  rw [← e]
  exact hd

end

end MKHE.C75
