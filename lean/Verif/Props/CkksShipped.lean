import Verif.Props.CkksLiterals

set_option autoImplicit false

/-!
# C67: what a client of mkckks is guaranteed at the parameters of its tests
-/

namespace MKHE.C67
open Finset Nega C59 Lits

section
variable {L : Lit} (h : C61.Good L 2) (h2 : L.P.length = 2) (fm : FloatModel) (rq : ∀ i, LimbOps (2 ^ L.logN) (nth L.Q i))
  (rp : ∀ j, LimbOps (2 ^ L.logN) (nth L.P j))

include h h2 in
/-- at any literal whose numbers pass the checks, for at most `n` parties: if the estimator accepts the program, the client succeeds and its answer is within the
estimated error of the program on the messages -/
theorem client_checked {P : Pars} {n : ℕ} {D : ℤ} (c : Checked P L n D)
    (hsmall : (2 : ℤ) * 19 < (nth L.Q 0 : ℕ) ∧ ∀ j < L.P.length, (19 : ℤ) ≤ (nth L.P j : ℕ)) (hdeg : 2 ^ L.logN % 16 = 0)
    (rand : ℕ → PolyQP (L.ctx 2 fm rq rp)) (mform : PolyQP (L.ctx 2 fm rq rp) → PolyQP (L.ctx 2 fm rq rp))
    {gs us es : ℕ → Nega (2 ^ L.logN) ℤ} (hg : ∀ n, Bdd (gs n) 19) (hu : ∀ n, Bdd (us n) 1) (he : ∀ n, Bdd (es n) 19)
    {s r : String → Nega (2 ^ L.logN) ℤ} (hs : ∀ id, Bdd (s id) 1) (hr : ∀ id, Bdd (r id) 1) (kg : KG (L.ctx 2 fm rq rp))
    (ids : List String) (h0 : "0" ∉ ids) (hids : ids.length ≤ n) (st : Enc (L.ctx 2 fm rq rp)) (ins : List (Input (L.ctx 2 fm rq rp)))
    {v : Input (L.ctx 2 fm rq rp) → ℕ} {bp : ℕ} (hins : ∀ x ∈ ins, x.owner ∈ ids ∧ Encodes x.pt P.M x.val bp ∧ SBdd x.val (v x / 2 ^ 20))
    {env : Env (L.ctx 2 fm rq rp)} {pts : Pts (2 ^ L.logN)} {pv : ℕ → ℕ × ℕ} (hpts : PtsOk env pts) (hpv : PvOk P env pts pv) (hperm : ∀ l, env.perm l = l)
    (p : List Instr) (i : ℕ) (oe : ℕ → Sched String) {E : Eval (L.ctx 2 fm rq rp)} (hE : E.Ready) (od : Sched String) {pool : Poly (L.ctx 2 fm rq rp)}
    (hpool : L.Q.length ≤ pool.len) {e : Est}
    (hest : estimate P pv ⟨ins.map fun x => freshEst P (v x) bp (19 * (2 * 2 ^ L.logN + 1)), []⟩ p i = some e) :
    ∃ (pt : Poly (L.ctx 2 fm rq rp)) (sc : ℚ),
      client (C16.crsOf (newCrs rand mform fm (L.ctx 2 fm rq rp).dims)) gs s r kg ids us es st P.M ins env p i oe E od pool = .ok (pt, sc) ∧ 0 < sc ∧
      ∃ l < L.Q.length, pt.len = l + 1 ∧ ∃ Φ : Nega (2 ^ L.logN) ℤ, (∀ k ≤ l, cf (pt.rows k) = red (nth L.Q k) Φ) ∧
        (∀ x, 2 * |Φ x| < modulus (L.ctx 2 fm rq rp) l) ∧
        ∀ j : ℤ, ‖slot j (toReal Φ) / (sc : ℂ) - (plain (fun p j => slot j (pts p).1) (ins.map fun x j => slot j x.val) p).getD i 0 j‖ ≤
          e.b * 1025 / (1024 * P.M) := by
  have V := C61.valid h fm rq rp
  obtain ⟨c1, c2⟩ := C16.newCrs_default V rand mform
  exact client_estimate V hdeg (B := 19) ⟨hsmall.1, hsmall.2⟩ hg c1 c2 hs (by norm_num) hr (by norm_num) kg ids h0
    (block_ctx h h2 fm rq rp c.D) hu he st (P := P)
    (fun S e1 e2 e3 e4 e5 e6 e7 => c.good h h2 fm rq rp (by rw [e2]) (by rw [e3]; exact (List.toFinset_card_le _).trans hids) e4 e5 e6 e7)
    (by have := c.M.1; omega) ins (v := v) (bp := bp) (F := 19 * (2 * 2 ^ L.logN + 1))
    (by unfold freshNoise; positivity) (by unfold freshNoise; push_cast; ring_nf; exact le_refl _) hins hpts hpv (fun l _ => hperm l) p i oe hE od hpool hest

end

/-! ## the runs of a client -/

/-- everything a run depends on besides the parties, the inputs and the program: the outputs of the samplers (uniform, Gaussian truncated at 19, ternary), the memory
of key generator, encryptor, evaluator and decryptor, and the iteration orders of the maps -/
structure Run {N : ℕ} [NeZero N] (C : Ctx N) where
  rand : ℕ → PolyQP C
  mform : PolyQP C → PolyQP C
  gs : ℕ → Nega N ℤ
  us : ℕ → Nega N ℤ
  es : ℕ → Nega N ℤ
  s : String → Nega N ℤ
  r : String → Nega N ℤ
  gs_le : ∀ n, Bdd (gs n) 19
  us_le : ∀ n, Bdd (us n) 1
  es_le : ∀ n, Bdd (es n) 19
  s_le : ∀ id, Bdd (s id) 1
  r_le : ∀ id, Bdd (r id) 1
  kg : KG C
  enc : Enc C
  oe : ℕ → Sched String
  eval : Eval C
  eval_ready : eval.Ready
  od : Sched String
  pool : Poly C
  pool_len : C.nQ ≤ pool.len

/-- what the client gets back: plaintext polynomial and scale of ciphertext number `i` after program `p` -/
noncomputable def Run.result {N : ℕ} [NeZero N] {C : Ctx N} (R : Run C) (ids : List String) (scale : ℚ) (ins : List (Input C)) (env : Env C) (p : List Instr) (i : ℕ) :
    Go (Poly C × ℚ) :=
  client (C16.crsOf (newCrs R.rand R.mform C.fm C.dims)) R.gs R.s R.r R.kg ids R.us R.es R.enc scale ins env p i R.oe R.eval R.od R.pool

/-- a returned plaintext decodes to the message `z` (a vector of slots) within `err`: its rows represent a polynomial with centred coefficients whose slots divided by the
returned scale are within `err` of `z`. This is what lattigo's decoder computes from the plaintext (CRT reconstruction, division by the scale, embedding). -/
def Decodes {N : ℕ} [NeZero N] {C : Ctx N} (d : Poly C × ℚ) (z : ℤ → ℂ) (err : ℝ) : Prop :=
  0 < d.2 ∧ ∃ l < C.nQ, d.1.len = l + 1 ∧ ∃ Φ : Nega N ℤ, (∀ k ≤ l, cf (d.1.rows k) = red (C.q k) Φ) ∧ (∀ x, 2 * |Φ x| < modulus C l) ∧
    ∀ j : ℤ, ‖slot j (toReal Φ) / (d.2 : ℂ) - z j‖ ≤ err

/-- the conditions on plaintext operands of `MulPtxtNew`: slots below `vp/2^20`, encoded at the default scale with an error of at most `bp` in a slot -/
structure EnvOk {N : ℕ} [NeZero N] {C : Ctx N} (P : Pars) (env : Env C) (zp : ℕ → Nega N ℝ) (vp bp : ℕ) : Prop where
  perm : ∀ l, env.perm l = l
  scale : ∀ p, (env.pts p).2 = P.M
  val : ∀ p, SBdd (zp p) (vp / 2 ^ 20)
  enc : ∀ p, CkksPt (env.pts p).1 (C.nQ - 1) P.M (zp p) bp

section
variable {L : Lit} (h : C61.Good L 2) (h2 : L.P.length = 2) {fm : FloatModel} {rq : ∀ i, LimbOps (2 ^ L.logN) (nth L.Q i)}
  {rp : ∀ j, LimbOps (2 ^ L.logN) (nth L.P j)}

include h h2 in
theorem run_checked {P : Pars} {n : ℕ} {D : ℤ} (c : Checked P L n D)
    (hsmall : (2 : ℤ) * 19 < (nth L.Q 0 : ℕ) ∧ ∀ j < L.P.length, (19 : ℤ) ≤ (nth L.P j : ℕ)) (hdeg : 2 ^ L.logN % 16 = 0)
    (R : Run (L.ctx 2 fm rq rp)) (ids : List String) (h0 : "0" ∉ ids) (hids : ids.length ≤ n) (ins : List (Input (L.ctx 2 fm rq rp)))
    (v : Input (L.ctx 2 fm rq rp) → ℕ) {bp : ℕ} (hins : ∀ x ∈ ins, x.owner ∈ ids ∧ Encodes x.pt P.M x.val bp ∧ SBdd x.val (v x / 2 ^ 20))
    {env : Env (L.ctx 2 fm rq rp)} {zp : ℕ → Nega (2 ^ L.logN) ℝ} {vp : ℕ} (henv : EnvOk P env zp vp bp)
    (p : List Instr) (i : ℕ) {e : Est}
    (hest : estimate P (fun _ => (vp, bp)) ⟨ins.map fun x => freshEst P (v x) bp (19 * (2 * 2 ^ L.logN + 1)), []⟩ p i = some e) :
    ∃ d, R.result ids P.M ins env p i = .ok d ∧
      Decodes d ((plain (fun p j => slot j (zp p)) (ins.map fun x j => slot j x.val) p).getD i 0) (e.b * 1025 / (1024 * P.M)) := by
  have hM : 0 < P.M := by have := c.M.1; omega
  obtain ⟨pt, sc, a1, a2, l, a3, a4, a5⟩ := client_checked h h2 fm rq rp c hsmall hdeg R.rand R.mform R.gs_le R.us_le R.es_le R.s_le R.r_le R.kg ids h0 hids R.enc ins hins
    (env := env) (pts := fun p => (zp p, (vp : ℝ) / 2 ^ 20, (bp : ℝ))) (pv := fun _ => (vp, bp))
    ⟨fun p => by rw [henv.scale]; exact_mod_cast hM, henv.val, fun p => by rw [henv.scale]; exact henv.enc p⟩
    ⟨henv.scale, fun p => by positivity, fun p => le_rfl, fun p => by positivity, fun p => le_rfl⟩ henv.perm p i R.oe R.eval_ready R.od R.pool_len hest
  exact ⟨(pt, sc), a1, a2, l, a3, a4, a5⟩

end

theorem Decodes.mono {N : ℕ} [NeZero N] {C : Ctx N} {d : Poly C × ℚ} {z : ℤ → ℂ} {e e' : ℝ} (h : Decodes d z e) (he : e ≤ e') : Decodes d z e' := by
  obtain ⟨h0, l, h1, h2, Φ, h3, h4, h5⟩ := h
  exact ⟨h0, l, h1, h2, Φ, h3, h4, fun j => (h5 j).trans he⟩

/-- the inputs of the corollaries: owners among the parties, slots below `v`, encoded at scale `M` with an error of at most `bp` in a slot -/
def InsOk {N : ℕ} [NeZero N] {C : Ctx N} (ids : List String) (M bp : ℕ) (v : ℝ) (ins : List (Input C)) : Prop :=
  ∀ x ∈ ins, x.owner ∈ ids ∧ Encodes x.pt (M : ℚ) x.val bp ∧ SBdd x.val v

/-- repeated squaring of ciphertext 0: `k` products, each the square of the last ciphertext -/
def squarings : ℕ → List Instr
  | 0 => []
  | k + 1 => squarings k ++ [.mul k k]

theorem plain_squarings (pt : ℕ → ℤ → ℂ) (z : ℤ → ℂ) : ∀ k, (plain pt [z] (squarings k)).length = k + 1 ∧
    (plain pt [z] (squarings k)).getD k 0 = fun j => z j ^ 2 ^ k
  | 0 => ⟨rfl, by funext j; show z j = _; rw [pow_zero, pow_one]⟩
  | k + 1 => by
    obtain ⟨h1, h2⟩ := plain_squarings pt z k
    have e : plain pt [z] (squarings (k + 1)) = plainStep pt (plain pt [z] (squarings k)) (.mul k k) := by
      unfold plain
      rw [show squarings (k + 1) = squarings k ++ [.mul k k] from rfl, List.foldl_append]
      rfl
    rw [e]
    constructor
    · show (_ ++ [_]).length = _
      rw [List.length_append, h1]; rfl
    · show (_ ++ [_]).getD _ _ = _
      rw [List.getD_append_right _ _ _ _ (by omega), h1, Nat.sub_self]
      funext j
      show (plain pt [z] (squarings k)).getD k 0 j * (plain pt [z] (squarings k)).getD k 0 j = _
      rw [h2, pow_succ, pow_mul, sq]

/-- the program of testEvaluatorMul (mkckks_test.go:336-352) for four users: the sum of all four inputs and once more the first, squared -/
def sumSquare : List Instr := [.add 0 0, .add 4 1, .add 5 2, .add 6 3, .mul 7 7]

/-- the program of testEvaluatorRot (mkckks_test.go:431-445) for four users: the same sum, one level dropped, rotated by `r` -/
def sumRot (r : ℤ) : List Instr := [.add 0 0, .add 4 1, .add 5 2, .add 6 3, .drop 7 1, .rot 8 r]

/-- the program of testEvaluatorConj (mkckks_test.go:476-490) for four users -/
def sumConj : List Instr := [.add 0 0, .add 4 1, .add 5 2, .add 6 3, .conj 7]

theorem plain_sumSquare (pt : ℕ → ℤ → ℂ) (a b c d : ℤ → ℂ) :
    (plain pt [a, b, c, d] sumSquare).getD 8 0 = fun j => (2 * a j + b j + c j + d j) ^ 2 := by
  funext j
  show (a j + a j + b j + c j + d j) * (a j + a j + b j + c j + d j) = _
  ring

theorem plain_sumRot (pt : ℕ → ℤ → ℂ) (a b c d : ℤ → ℂ) (r : ℤ) :
    (plain pt [a, b, c, d] (sumRot r)).getD 9 0 = fun j => 2 * a (j + r) + b (j + r) + c (j + r) + d (j + r) := by
  funext j
  show a (j + r) + a (j + r) + b (j + r) + c (j + r) + d (j + r) = _
  ring

theorem plain_sumConj (pt : ℕ → ℤ → ℂ) (a b c d : ℤ → ℂ) :
    (plain pt [a, b, c, d] sumConj).getD 8 0 = fun j => (starRingEnd ℂ) (2 * a j + b j + c j + d j) := by
  funext j
  show (starRingEnd ℂ) (a j + a j + b j + c j + d j) = _
  congr 1
  ring

theorem val_sumSquare {N : ℕ} [NeZero N] {C : Ctx N} (pt : ℕ → ℤ → ℂ) (a b c d : Input C) :
    (plain pt ([a, b, c, d].map fun x j => slot j x.val) sumSquare).getD 8 0 = fun j => (2 * slot j a.val + slot j b.val + slot j c.val + slot j d.val) ^ 2 := plain_sumSquare pt _ _ _ _

theorem val_sumRot {N : ℕ} [NeZero N] {C : Ctx N} (pt : ℕ → ℤ → ℂ) (a b c d : Input C) (r : ℤ) :
    (plain pt ([a, b, c, d].map fun x j => slot j x.val) (sumRot r)).getD 9 0 = fun j => 2 * slot (j + r) a.val + slot (j + r) b.val + slot (j + r) c.val + slot (j + r) d.val := plain_sumRot pt _ _ _ _ r

theorem val_sumConj {N : ℕ} [NeZero N] {C : Ctx N} (pt : ℕ → ℤ → ℂ) (a b c d : Input C) :
    (plain pt ([a, b, c, d].map fun x j => slot j x.val) sumConj).getD 8 0 = fun j => (starRingEnd ℂ) (2 * slot j a.val + slot j b.val + slot j c.val + slot j d.val) := plain_sumConj pt _ _ _ _

theorem SBdd.mono' {N : ℕ} [NeZero N] {v : Nega N ℝ} {b b' : ℝ} (h : SBdd v b) (hb : b ≤ b') : SBdd v b' := fun j => (h j).trans hb

theorem half_le : (1 / 2 : ℝ) ≤ ((2 ^ 19 : ℕ) : ℝ) / 2 ^ 20 := by norm_num

/-- the estimate of a program without instructions -/
theorem estimate_nil {P : Pars} {pv : ℕ → ℕ × ℕ} {cts : List Est} {i : ℕ} {e : Est} (hi : cts[i]? = some e) (hn : e.near = true) (hf : e.fits P = true) :
    estimate P pv ⟨cts, []⟩ [] i = some e := by
  unfold estimate
  simp [EstSt.steps, hi, hn, hf]

/-! ## PN14QP439 -/

section
variable {fm : FloatModel} {rq : ∀ i, LimbOps (2 ^ ckks14.logN) (nth ckks14.Q i)} {rp : ∀ j, LimbOps (2 ^ ckks14.logN) (nth ckks14.P j)}

/-- **C67 at PN14QP439**, up to four parties: if the estimator accepts a program, the client succeeds and decodes the result of the program on the messages within the
estimated error -/
theorem client_ckks14 (R : Run (ckks14.ctx 2 fm rq rp)) (ids : List String) (h0 : "0" ∉ ids) (hids : ids.length ≤ 4) (ins : List (Input (ckks14.ctx 2 fm rq rp)))
    (v : Input (ckks14.ctx 2 fm rq rp) → ℕ) {bp : ℕ} (hins : ∀ x ∈ ins, x.owner ∈ ids ∧ Encodes x.pt (2 ^ 52 : ℕ) x.val bp ∧ SBdd x.val (v x / 2 ^ 20))
    {env : Env (ckks14.ctx 2 fm rq rp)} {zp : ℕ → Nega (2 ^ ckks14.logN) ℝ} {vp : ℕ} (henv : EnvOk pars14 env zp vp bp) (p : List Instr) (i : ℕ) {e : Est}
    (hest : estimate pars14 (fun _ => (vp, bp)) ⟨ins.map fun x => freshEst pars14 (v x) bp 622611, []⟩ p i = some e) :
    ∃ d, R.result ids (2 ^ 52 : ℕ) ins env p i = .ok d ∧
      Decodes d ((plain (fun p j => slot j (zp p)) (ins.map fun x j => slot j x.val) p).getD i 0) (e.b * 1025 / (1024 * 2 ^ 52)) := by
  have := run_checked C61.ckks14_good rfl checked14 ⟨by decide +kernel, by show ∀ j < ckks14.P.length, (19 : ℤ) ≤ (nth ckks14.P j : ℕ); decide +kernel⟩ (by decide +kernel) R ids h0 hids ins v hins henv p i hest
  have e2 : ((pars14.M : ℕ) : ℝ) = 2 ^ 52 := by show ((2 ^ 52 : ℕ) : ℝ) = 2 ^ 52; norm_num
  rw [e2] at this
  exact this

/-- **round trip**: what is encrypted is decrypted, each slot within `2^-18`, whatever the samplers return -/
theorem roundtrip14 (R : Run (ckks14.ctx 2 fm rq rp)) (ids : List String) (h0 : "0" ∉ ids) (hids : ids.length ≤ 4) (ins : List (Input (ckks14.ctx 2 fm rq rp)))
    (hins : InsOk ids (2 ^ 52) (2 ^ 14) 2 ins) {env : Env (ckks14.ctx 2 fm rq rp)} {zp : ℕ → Nega (2 ^ ckks14.logN) ℝ} (henv : EnvOk pars14 env zp (2 ^ 20) (2 ^ 14))
    (i : ℕ) (x : Input (ckks14.ctx 2 fm rq rp)) (hi : ins[i]? = some x) :
    ∃ d, R.result ids (2 ^ 52 : ℕ) ins env [] i = .ok d ∧ Decodes d (fun j => slot j x.val) (1 / 2 ^ 18) := by
  obtain ⟨d, d1, d2⟩ := client_ckks14 R ids h0 hids ins (fun _ => 2 ^ 21) (fun y hy => ⟨(hins y hy).1, (hins y hy).2.1, SBdd.mono' (hins y hy).2.2 (by norm_num)⟩)
    henv [] i (e := freshEst pars14 (2 ^ 21) (2 ^ 14) 622611) (estimate_nil (by rw [List.getElem?_map, hi]; rfl) (by decide +kernel) (by decide +kernel))
  refine ⟨d, d1, ?_⟩
  have e : (plain (fun p j => slot j (zp p)) (ins.map fun x j => slot j x.val) []).getD i 0 = fun j => slot j x.val := by
    show (ins.map fun (x : Input (ckks14.ctx 2 fm rq rp)) (j : ℤ) => slot j x.val).getD i 0 = _
    rw [List.getD_eq_getElem?_getD, List.getElem?_map, hi]
    rfl
  rw [e] at d2
  exact d2.mono (by
    show (((2 ^ 14 + 2 ^ 14 * 622611 : ℕ)) : ℝ) * 1025 / (1024 * 2 ^ 52) ≤ _
    norm_num)

theorem est_sumSquare14 : estimate pars14 (fun _ => (2 ^ 20, 2 ^ 14)) ⟨[freshEst pars14 (2 ^ 19) (2 ^ 14) 622611, freshEst pars14 (2 ^ 19) (2 ^ 14) 622611, freshEst pars14 (2 ^ 19) (2 ^ 14) 622611, freshEst pars14 (2 ^ 19) (2 ^ 14) 622611], []⟩ sumSquare 8 = some ⟨4, 2882, 6553601, 255808435233⟩ := by
  decide +kernel

theorem est_sumRot14 : estimate pars14 (fun _ => (2 ^ 20, 2 ^ 14)) ⟨[freshEst pars14 (2 ^ 19) (2 ^ 14) 622611, freshEst pars14 (2 ^ 19) (2 ^ 14) 622611, freshEst pars14 (2 ^ 19) (2 ^ 14) 622611, freshEst pars14 (2 ^ 19) (2 ^ 14) 622611], []⟩ (sumRot 0) 9 = some ⟨4, 0, 2621440, 78923366405⟩ := by
  decide +kernel

theorem est_sumConj14 : estimate pars14 (fun _ => (2 ^ 20, 2 ^ 14)) ⟨[freshEst pars14 (2 ^ 19) (2 ^ 14) 622611, freshEst pars14 (2 ^ 19) (2 ^ 14) 622611, freshEst pars14 (2 ^ 19) (2 ^ 14) 622611, freshEst pars14 (2 ^ 19) (2 ^ 14) 622611], []⟩ sumConj 8 = some ⟨5, 0, 2621440, 78923366405⟩ := by
  decide +kernel

theorem est_power14 : estimate pars14 (fun _ => (2 ^ 20, 2 ^ 14)) ⟨[freshEst pars14 (2 ^ 20) (2 ^ 14) 622611], []⟩ (squarings 5) 5 = some ⟨0, 89342, 1048607, 344742608597⟩ := by
  decide +kernel

/-- **the computation of testEvaluatorMul**: four users' inputs are summed (the first twice) and squared; the result is within `2^-14` in each slot -/
theorem sumSquare14 (R : Run (ckks14.ctx 2 fm rq rp)) (ids : List String) (h0 : "0" ∉ ids) (hids : ids.length ≤ 4) (a b c d : Input (ckks14.ctx 2 fm rq rp))
    (hins : InsOk ids (2 ^ 52) (2 ^ 14) (1 / 2) [a, b, c, d]) {env : Env (ckks14.ctx 2 fm rq rp)} {zp : ℕ → Nega (2 ^ ckks14.logN) ℝ}
    (henv : EnvOk pars14 env zp (2 ^ 20) (2 ^ 14)) :
    ∃ y, R.result ids (2 ^ 52 : ℕ) [a, b, c, d] env sumSquare 8 = .ok y ∧
      Decodes y (fun j => (2 * slot j a.val + slot j b.val + slot j c.val + slot j d.val) ^ 2) (1 / 2 ^ 14) := by
  obtain ⟨y, y1, y2⟩ := client_ckks14 R ids h0 hids [a, b, c, d] (fun _ => 2 ^ 19) (fun y hy => ⟨(hins y hy).1, (hins y hy).2.1, SBdd.mono' (hins y hy).2.2 half_le⟩)
    henv sumSquare 8 (e := ⟨4, 2882, 6553601, 255808435233⟩) (by
      simp only [List.map_cons, List.map_nil]
      exact est_sumSquare14)
  refine ⟨y, y1, ?_⟩
  rw [val_sumSquare] at y2
  exact y2.mono (by
    show ((255808435233 : ℕ) : ℝ) * 1025 / (1024 * 2 ^ 52) ≤ _
    norm_num)

/-- **the computation of testEvaluatorRot**, for every rotation amount -/
theorem sumRot14 (R : Run (ckks14.ctx 2 fm rq rp)) (ids : List String) (h0 : "0" ∉ ids) (hids : ids.length ≤ 4) (a b c d : Input (ckks14.ctx 2 fm rq rp))
    (hins : InsOk ids (2 ^ 52) (2 ^ 14) (1 / 2) [a, b, c, d]) {env : Env (ckks14.ctx 2 fm rq rp)} {zp : ℕ → Nega (2 ^ ckks14.logN) ℝ}
    (henv : EnvOk pars14 env zp (2 ^ 20) (2 ^ 14)) (r : ℤ) :
    ∃ y, R.result ids (2 ^ 52 : ℕ) [a, b, c, d] env (sumRot r) 9 = .ok y ∧
      Decodes y (fun j => 2 * slot (j + r) a.val + slot (j + r) b.val + slot (j + r) c.val + slot (j + r) d.val) (1 / 2 ^ 15) := by
  obtain ⟨y, y1, y2⟩ := client_ckks14 R ids h0 hids [a, b, c, d] (fun _ => 2 ^ 19) (fun y hy => ⟨(hins y hy).1, (hins y hy).2.1, SBdd.mono' (hins y hy).2.2 half_le⟩)
    henv (sumRot r) 9 (e := ⟨4, 0, 2621440, 78923366405⟩) est_sumRot14
  refine ⟨y, y1, ?_⟩
  rw [val_sumRot] at y2
  exact y2.mono (by
    show ((78923366405 : ℕ) : ℝ) * 1025 / (1024 * 2 ^ 52) ≤ _
    norm_num)

/-- **the computation of testEvaluatorConj** -/
theorem sumConj14 (R : Run (ckks14.ctx 2 fm rq rp)) (ids : List String) (h0 : "0" ∉ ids) (hids : ids.length ≤ 4) (a b c d : Input (ckks14.ctx 2 fm rq rp))
    (hins : InsOk ids (2 ^ 52) (2 ^ 14) (1 / 2) [a, b, c, d]) {env : Env (ckks14.ctx 2 fm rq rp)} {zp : ℕ → Nega (2 ^ ckks14.logN) ℝ}
    (henv : EnvOk pars14 env zp (2 ^ 20) (2 ^ 14)) :
    ∃ y, R.result ids (2 ^ 52 : ℕ) [a, b, c, d] env sumConj 8 = .ok y ∧
      Decodes y (fun j => (starRingEnd ℂ) (2 * slot j a.val + slot j b.val + slot j c.val + slot j d.val)) (1 / 2 ^ 15) := by
  obtain ⟨y, y1, y2⟩ := client_ckks14 R ids h0 hids [a, b, c, d] (fun _ => 2 ^ 19) (fun y hy => ⟨(hins y hy).1, (hins y hy).2.1, SBdd.mono' (hins y hy).2.2 half_le⟩)
    henv sumConj 8 (e := ⟨5, 0, 2621440, 78923366405⟩) (by
      simp only [List.map_cons, List.map_nil]
      exact est_sumConj14)
  refine ⟨y, y1, ?_⟩
  rw [val_sumConj] at y2
  exact y2.mono (by
    show ((78923366405 : ℕ) : ℝ) * 1025 / (1024 * 2 ^ 52) ≤ _
    norm_num)

/-- **depth**: 5 squarings in a row, all the levels there are, still give `z^32` within `2^-13` in each slot, for slots of absolute value at most 1 -/
theorem power14 (R : Run (ckks14.ctx 2 fm rq rp)) (ids : List String) (h0 : "0" ∉ ids) (hids : ids.length ≤ 4) (a : Input (ckks14.ctx 2 fm rq rp))
    (hins : InsOk ids (2 ^ 52) (2 ^ 14) 1 [a]) {env : Env (ckks14.ctx 2 fm rq rp)} {zp : ℕ → Nega (2 ^ ckks14.logN) ℝ}
    (henv : EnvOk pars14 env zp (2 ^ 20) (2 ^ 14)) :
    ∃ y, R.result ids (2 ^ 52 : ℕ) [a] env (squarings 5) 5 = .ok y ∧ Decodes y (fun j => slot j a.val ^ 2 ^ 5) (1 / 2 ^ 13) := by
  obtain ⟨y, y1, y2⟩ := client_ckks14 R ids h0 hids [a] (fun _ => 2 ^ 20) (fun y hy => ⟨(hins y hy).1, (hins y hy).2.1, SBdd.mono' (hins y hy).2.2 (by norm_num)⟩)
    henv (squarings 5) 5 (e := ⟨0, 89342, 1048607, 344742608597⟩) est_power14
  refine ⟨y, y1, ?_⟩
  rw [List.map_cons, List.map_nil, (plain_squarings _ _ 5).2] at y2
  exact y2.mono (by
    show ((344742608597 : ℕ) : ℝ) * 1025 / (1024 * 2 ^ 52) ≤ _
    norm_num)

end

/-! ## PN15QP880 -/

section
variable {fm : FloatModel} {rq : ∀ i, LimbOps (2 ^ ckks15.logN) (nth ckks15.Q i)} {rp : ∀ j, LimbOps (2 ^ ckks15.logN) (nth ckks15.P j)}

/-- **C67 at PN15QP880**, up to four parties -/
theorem client_ckks15 (R : Run (ckks15.ctx 2 fm rq rp)) (ids : List String) (h0 : "0" ∉ ids) (hids : ids.length ≤ 4) (ins : List (Input (ckks15.ctx 2 fm rq rp)))
    (v : Input (ckks15.ctx 2 fm rq rp) → ℕ) {bp : ℕ} (hins : ∀ x ∈ ins, x.owner ∈ ids ∧ Encodes x.pt (2 ^ 54 : ℕ) x.val bp ∧ SBdd x.val (v x / 2 ^ 20))
    {env : Env (ckks15.ctx 2 fm rq rp)} {zp : ℕ → Nega (2 ^ ckks15.logN) ℝ} {vp : ℕ} (henv : EnvOk pars15 env zp vp bp) (p : List Instr) (i : ℕ) {e : Est}
    (hest : estimate pars15 (fun _ => (vp, bp)) ⟨ins.map fun x => freshEst pars15 (v x) bp 1245203, []⟩ p i = some e) :
    ∃ d, R.result ids (2 ^ 54 : ℕ) ins env p i = .ok d ∧
      Decodes d ((plain (fun p j => slot j (zp p)) (ins.map fun x j => slot j x.val) p).getD i 0) (e.b * 1025 / (1024 * 2 ^ 54)) := by
  have := run_checked C61.ckks15_good rfl checked15 ⟨by decide +kernel, by show ∀ j < ckks15.P.length, (19 : ℤ) ≤ (nth ckks15.P j : ℕ); decide +kernel⟩ (by decide +kernel) R ids h0 hids ins v hins henv p i hest
  have e2 : ((pars15.M : ℕ) : ℝ) = 2 ^ 54 := by show ((2 ^ 54 : ℕ) : ℝ) = 2 ^ 54; norm_num
  rw [e2] at this
  exact this

/-- **round trip**: what is encrypted is decrypted, each slot within `2^-18`, whatever the samplers return -/
theorem roundtrip15 (R : Run (ckks15.ctx 2 fm rq rp)) (ids : List String) (h0 : "0" ∉ ids) (hids : ids.length ≤ 4) (ins : List (Input (ckks15.ctx 2 fm rq rp)))
    (hins : InsOk ids (2 ^ 54) (2 ^ 15) 2 ins) {env : Env (ckks15.ctx 2 fm rq rp)} {zp : ℕ → Nega (2 ^ ckks15.logN) ℝ} (henv : EnvOk pars15 env zp (2 ^ 20) (2 ^ 15))
    (i : ℕ) (x : Input (ckks15.ctx 2 fm rq rp)) (hi : ins[i]? = some x) :
    ∃ d, R.result ids (2 ^ 54 : ℕ) ins env [] i = .ok d ∧ Decodes d (fun j => slot j x.val) (1 / 2 ^ 18) := by
  obtain ⟨d, d1, d2⟩ := client_ckks15 R ids h0 hids ins (fun _ => 2 ^ 21) (fun y hy => ⟨(hins y hy).1, (hins y hy).2.1, SBdd.mono' (hins y hy).2.2 (by norm_num)⟩)
    henv [] i (e := freshEst pars15 (2 ^ 21) (2 ^ 15) 1245203) (estimate_nil (by rw [List.getElem?_map, hi]; rfl) (by decide +kernel) (by decide +kernel))
  refine ⟨d, d1, ?_⟩
  have e : (plain (fun p j => slot j (zp p)) (ins.map fun x j => slot j x.val) []).getD i 0 = fun j => slot j x.val := by
    show (ins.map fun (x : Input (ckks15.ctx 2 fm rq rp)) (j : ℤ) => slot j x.val).getD i 0 = _
    rw [List.getD_eq_getElem?_getD, List.getElem?_map, hi]
    rfl
  rw [e] at d2
  exact d2.mono (by
    show (((2 ^ 15 + 2 ^ 15 * 1245203 : ℕ)) : ℝ) * 1025 / (1024 * 2 ^ 54) ≤ _
    norm_num)

theorem est_sumSquare15 : estimate pars15 (fun _ => (2 ^ 20, 2 ^ 15)) ⟨[freshEst pars15 (2 ^ 19) (2 ^ 15) 1245203, freshEst pars15 (2 ^ 19) (2 ^ 15) 1245203, freshEst pars15 (2 ^ 19) (2 ^ 15) 1245203, freshEst pars15 (2 ^ 19) (2 ^ 15) 1245203], []⟩ sumSquare 8 = some ⟨12, 2410, 6553601, 1023225806918⟩ := by
  decide +kernel

theorem est_sumRot15 : estimate pars15 (fun _ => (2 ^ 20, 2 ^ 15)) ⟨[freshEst pars15 (2 ^ 19) (2 ^ 15) 1245203, freshEst pars15 (2 ^ 19) (2 ^ 15) 1245203, freshEst pars15 (2 ^ 19) (2 ^ 15) 1245203, freshEst pars15 (2 ^ 19) (2 ^ 15) 1245203], []⟩ (sumRot 0) 9 = some ⟨12, 0, 2621440, 324276977669⟩ := by
  decide +kernel

theorem est_sumConj15 : estimate pars15 (fun _ => (2 ^ 20, 2 ^ 15)) ⟨[freshEst pars15 (2 ^ 19) (2 ^ 15) 1245203, freshEst pars15 (2 ^ 19) (2 ^ 15) 1245203, freshEst pars15 (2 ^ 19) (2 ^ 15) 1245203, freshEst pars15 (2 ^ 19) (2 ^ 15) 1245203], []⟩ sumConj 8 = some ⟨13, 0, 2621440, 324276977669⟩ := by
  decide +kernel

theorem est_power15 : estimate pars15 (fun _ => (2 ^ 20, 2 ^ 15)) ⟨[freshEst pars15 (2 ^ 20) (2 ^ 15) 1245203], []⟩ (squarings 13) 13 = some ⟨0, 19740470, 1056789, 362729822826636⟩ := by
  decide +kernel

/-- **the computation of testEvaluatorMul**: four users' inputs are summed (the first twice) and squared; the result is within `2^-14` in each slot -/
theorem sumSquare15 (R : Run (ckks15.ctx 2 fm rq rp)) (ids : List String) (h0 : "0" ∉ ids) (hids : ids.length ≤ 4) (a b c d : Input (ckks15.ctx 2 fm rq rp))
    (hins : InsOk ids (2 ^ 54) (2 ^ 15) (1 / 2) [a, b, c, d]) {env : Env (ckks15.ctx 2 fm rq rp)} {zp : ℕ → Nega (2 ^ ckks15.logN) ℝ}
    (henv : EnvOk pars15 env zp (2 ^ 20) (2 ^ 15)) :
    ∃ y, R.result ids (2 ^ 54 : ℕ) [a, b, c, d] env sumSquare 8 = .ok y ∧
      Decodes y (fun j => (2 * slot j a.val + slot j b.val + slot j c.val + slot j d.val) ^ 2) (1 / 2 ^ 14) := by
  obtain ⟨y, y1, y2⟩ := client_ckks15 R ids h0 hids [a, b, c, d] (fun _ => 2 ^ 19) (fun y hy => ⟨(hins y hy).1, (hins y hy).2.1, SBdd.mono' (hins y hy).2.2 half_le⟩)
    henv sumSquare 8 (e := ⟨12, 2410, 6553601, 1023225806918⟩) (by
      simp only [List.map_cons, List.map_nil]
      exact est_sumSquare15)
  refine ⟨y, y1, ?_⟩
  rw [val_sumSquare] at y2
  exact y2.mono (by
    show ((1023225806918 : ℕ) : ℝ) * 1025 / (1024 * 2 ^ 54) ≤ _
    norm_num)

/-- **the computation of testEvaluatorRot**, for every rotation amount -/
theorem sumRot15 (R : Run (ckks15.ctx 2 fm rq rp)) (ids : List String) (h0 : "0" ∉ ids) (hids : ids.length ≤ 4) (a b c d : Input (ckks15.ctx 2 fm rq rp))
    (hins : InsOk ids (2 ^ 54) (2 ^ 15) (1 / 2) [a, b, c, d]) {env : Env (ckks15.ctx 2 fm rq rp)} {zp : ℕ → Nega (2 ^ ckks15.logN) ℝ}
    (henv : EnvOk pars15 env zp (2 ^ 20) (2 ^ 15)) (r : ℤ) :
    ∃ y, R.result ids (2 ^ 54 : ℕ) [a, b, c, d] env (sumRot r) 9 = .ok y ∧
      Decodes y (fun j => 2 * slot (j + r) a.val + slot (j + r) b.val + slot (j + r) c.val + slot (j + r) d.val) (1 / 2 ^ 15) := by
  obtain ⟨y, y1, y2⟩ := client_ckks15 R ids h0 hids [a, b, c, d] (fun _ => 2 ^ 19) (fun y hy => ⟨(hins y hy).1, (hins y hy).2.1, SBdd.mono' (hins y hy).2.2 half_le⟩)
    henv (sumRot r) 9 (e := ⟨12, 0, 2621440, 324276977669⟩) est_sumRot15
  refine ⟨y, y1, ?_⟩
  rw [val_sumRot] at y2
  exact y2.mono (by
    show ((324276977669 : ℕ) : ℝ) * 1025 / (1024 * 2 ^ 54) ≤ _
    norm_num)

/-- **the computation of testEvaluatorConj** -/
theorem sumConj15 (R : Run (ckks15.ctx 2 fm rq rp)) (ids : List String) (h0 : "0" ∉ ids) (hids : ids.length ≤ 4) (a b c d : Input (ckks15.ctx 2 fm rq rp))
    (hins : InsOk ids (2 ^ 54) (2 ^ 15) (1 / 2) [a, b, c, d]) {env : Env (ckks15.ctx 2 fm rq rp)} {zp : ℕ → Nega (2 ^ ckks15.logN) ℝ}
    (henv : EnvOk pars15 env zp (2 ^ 20) (2 ^ 15)) :
    ∃ y, R.result ids (2 ^ 54 : ℕ) [a, b, c, d] env sumConj 8 = .ok y ∧
      Decodes y (fun j => (starRingEnd ℂ) (2 * slot j a.val + slot j b.val + slot j c.val + slot j d.val)) (1 / 2 ^ 15) := by
  obtain ⟨y, y1, y2⟩ := client_ckks15 R ids h0 hids [a, b, c, d] (fun _ => 2 ^ 19) (fun y hy => ⟨(hins y hy).1, (hins y hy).2.1, SBdd.mono' (hins y hy).2.2 half_le⟩)
    henv sumConj 8 (e := ⟨13, 0, 2621440, 324276977669⟩) (by
      simp only [List.map_cons, List.map_nil]
      exact est_sumConj15)
  refine ⟨y, y1, ?_⟩
  rw [val_sumConj] at y2
  exact y2.mono (by
    show ((324276977669 : ℕ) : ℝ) * 1025 / (1024 * 2 ^ 54) ≤ _
    norm_num)

/-- **depth**: 13 squarings in a row, all the levels there are, still give `z^8192` within `2^-5` in each slot, for slots of absolute value at most 1 -/
theorem power15 (R : Run (ckks15.ctx 2 fm rq rp)) (ids : List String) (h0 : "0" ∉ ids) (hids : ids.length ≤ 4) (a : Input (ckks15.ctx 2 fm rq rp))
    (hins : InsOk ids (2 ^ 54) (2 ^ 15) 1 [a]) {env : Env (ckks15.ctx 2 fm rq rp)} {zp : ℕ → Nega (2 ^ ckks15.logN) ℝ}
    (henv : EnvOk pars15 env zp (2 ^ 20) (2 ^ 15)) :
    ∃ y, R.result ids (2 ^ 54 : ℕ) [a] env (squarings 13) 13 = .ok y ∧ Decodes y (fun j => slot j a.val ^ 2 ^ 13) (1 / 2 ^ 5) := by
  obtain ⟨y, y1, y2⟩ := client_ckks15 R ids h0 hids [a] (fun _ => 2 ^ 20) (fun y hy => ⟨(hins y hy).1, (hins y hy).2.1, SBdd.mono' (hins y hy).2.2 (by norm_num)⟩)
    henv (squarings 13) 13 (e := ⟨0, 19740470, 1056789, 362729822826636⟩) est_power15
  refine ⟨y, y1, ?_⟩
  rw [List.map_cons, List.map_nil, (plain_squarings _ _ 13).2] at y2
  exact y2.mono (by
    show ((362729822826636 : ℕ) : ℝ) * 1025 / (1024 * 2 ^ 54) ≤ _
    norm_num)

end

end MKHE.C67
