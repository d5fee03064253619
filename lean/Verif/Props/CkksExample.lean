import Verif.Props.CkksSetup

set_option autoImplicit false

/-!
# C59: a concrete run, from key generation to decryption
-/

namespace MKHE.CEx
open MKHE Finset Nega Ex

variable (fm : FloatModel)

/-- the amounts for which keys are generated: the CRS of the example has entries for these only -/
def rots : List ℤ := [1, 2, 4]

theorem crs_mem (k : ℤ) : k ∈ crs fm ↔ k = -2 ∨ k = 4 ∨ k = 2 ∨ k = 1 ∨ k = -1 ∨ k = 0 := by
  rw [GoMap.mem_iff_lookup]
  unfold crs
  simp only [GoMap.lookup_insert']
  split_ifs <;> simp_all

theorem blocksAll : ∀ l < (ctx fm).nQ, ∀ k < (ctx fm).beta l, 2 * ((ctx fm).blockProd l k : ℤ) ≤ 37442 := by
  intro l hl k hk
  change l < 3 at hl
  have hle : (ctx fm).beta l ≤ (ctx fm).beta 2 := (valid fm).beta_mono (by show 2 < 3; norm_num) (by omega)
  rw [beta_two] at hle
  have : k < 2 := by omega
  interval_cases l <;> interval_cases k <;>
    simp [Ctx.blockProd, blockLen, Ctx.alpha, Ctx.dims, Dims.alpha, ctx, prod_range_succ, exq]

theorem setup_ex : ∃ w, setup (crs fm) err sec sec' rots (kg fm) ["a", "b"] = .ok w ∧
      (∀ cks, (⟨crs fm, w.rlk, w.rks, cks, 100, ["a", "b"].toFinset, sec, sec', crsv fm 5, 2, 2, 2, 37442⟩ : C59.Sys (ctx fm)).Ok) ∧
      SKeys.Of w.sks ["a", "b"].toFinset sec ∧
      (∀ id ∈ ["a", "b"], ∃ pk e, w.pks.value.lookup id = some pk ∧ pk.id = id ∧ C17.PubKey pk (sec id) e ∧ Bdd e 2) ∧
      PoolsReady ["a", "b"].toFinset w.rlk := by
  refine C59.setup_ok (valid fm) (by norm_num) (small fm) err_bdd (crsLen fm) (crs_0 fm) ((crs_mem fm _).mpr (by norm_num))
    (fun id => (sec_bdd id).mono (by norm_num)) le_rfl (fun id => (sec'_bdd id).mono (by norm_num)) le_rfl ?_ ?_ ?_ (kg fm) ["a", "b"] (by norm_num) (blocksAll fm)
  · intro k hk
    simp only [rots, List.mem_cons, List.not_mem_nil, or_false] at hk
    rw [crs_mem]
    omega
  · intro j hj
    have h3 : j < 3 := by
      by_contra h
      have : 2 ^ 3 ≤ 2 ^ j := Nat.pow_le_pow_right (by norm_num) (by omega)
      omega
    interval_cases j <;> simp [rots]
  · intro n h0 hn hm
    rw [crs_mem] at hm
    simp only [rots, List.mem_cons, List.not_mem_nil, or_false]
    omega

/-- the message polynomial `5 X^0 + 10 X^1 + ... + 80 X^15` divided by 200 -/
noncomputable def msg : Nega 16 ℝ := fun x => (5 * (x : ℕ) + 5) / 200

theorem msg_bdd : RBdd msg 1 := fun x => by
  have hx : ((x : ℕ) : ℝ) ≤ 15 := by exact_mod_cast Nat.lt_succ_iff.mp x.2
  have h0 : (0 : ℝ) ≤ ((x : ℕ) : ℝ) := Nat.cast_nonneg _
  unfold msg
  rw [abs_of_nonneg (by positivity)]
  linarith

theorem msg_slots : SBdd msg 16 := (RBdd.slots msg_bdd).mono (by norm_num)

/-- the same times 200 -/
def msgInt : Nega 16 ℤ := fun x => 5 * (x : ℕ) + 5

/-- the plaintext `poly 3 5` encodes it at scale 200 without error -/
theorem msg_enc : ∃ Φ : Nega 16 ℤ, (∀ i ≤ 2, cf ((poly fm 3 5).coeffs i) = red ((ctx fm).q i) Φ) ∧ ∀ j : ℤ, ‖slot j (toReal Φ) - (((200 : ℚ) : ℝ) : ℂ) * slot j msg‖ ≤ 0 := by
  refine ⟨msgInt, fun i _ => Nega.ext fun x => ?_, fun x => ?_⟩
  · rw [red_apply]
    show (((min (5 * (x : ℕ) + 5) ((ctx fm).q i)) : ℕ) : ZMod ((ctx fm).q i)) = ((5 * (x : ℕ) + 5 : ℤ) : ZMod ((ctx fm).q i))
    have hx := x.2
    have hq : 97 ≤ (ctx fm).q i := by show 97 ≤ exq i; unfold exq; split_ifs <;> norm_num
    rw [Nat.min_eq_left (by omega)]
    push_cast; rfl
  · have e : toReal msgInt = Nega.C ((200 : ℚ) : ℝ) * msg := Nega.ext fun y => by
      rw [C_mul, toReal_apply]; unfold msg msgInt; push_cast; ring
    rw [e, slot_smul, sub_self, norm_zero]

/-- an evaluator with stale scratch memory -/
noncomputable def eval : Eval (ctx fm) := ⟨scratch fm, ctAB fm 3 8, fun _ => row _ 9⟩

theorem eval_ready : (eval fm).Ready := ⟨by
  show (scratch fm).Alloc ((ctx fm).beta 2)
  rw [beta_two]; exact scratch_alloc fm, ctAB_at fm 2 8⟩

/-- what is known of a fresh encryption -/
noncomputable def fresh : C59.Info := ⟨2, 200, {"a"}, 16, 0 + (16 : ℕ) * ((16 * 1 * 2 + 2 + 16 * 2 * 2 : ℤ) : ℝ)⟩

/-- a program with every kind of call -/
def prog : List C59.Instr :=
  [.rot 0 (-5), .add 0 1, .hoist 0, .rotH 0 4 0, .mulH 0 0 0 0, .mul 0 0, .sub 4 5, .drop 0 1, .mulPt 0 0, .mul 0 3,
    .const 0 (.flt (5 / 2)), .rescale 10 100]

noncomputable def env (o : ℕ → ℕ → Sched String) : C59.Env (ctx fm) := ⟨o, fun _ _ => 0, id, fun _ => (poly fm 3 5, 200)⟩

/-- the plaintext of the program -/
noncomputable def pts : C59.Pts 16 := fun _ => (msg, 16, 0)

theorem pts_ok (o : ℕ → ℕ → Sched String) : C59.PtsOk (env fm o) pts where
  pos := fun p => by show (0 : ℚ) < 200; norm_num
  bdd := fun p => msg_slots
  enc := fun p => ⟨by show 2 < 3; norm_num, msg_enc fm⟩

theorem addOk_self {x : ℚ} (hx : x ≠ 0) (a b : C59.Info) (ha : a.scale = x) (hb : b.scale = x) : C59.AddOk fm a b := by
  have h1 : fm.div x x = 1 := by
    unfold FloatModel.div
    rw [div_self hx]
    have := fm.exact_nat 1 (by norm_num)
    simpa using this
  unfold C59.AddOk
  rw [ha, hb, h1]
  norm_num

variable (S : C59.Sys (ctx fm)) (h100 : S.pscale = 100) (hcrs : S.crs = crs fm)

include h100 in
theorem mulOk : C59.MulOk S 2 (fm.mul 200 200) := ⟨1, by rw [h100]; exact C29.exDrops fm⟩

/-- `5/2` is not an integer: the scale is multiplied by the top prime, which `Rescale` divides out again -/
theorem rescaleOk : C59.RescaleOk (ctx fm) 2 (fm.mul 200 (C25.scaleOf fm ((ctx fm).q 2) (.flt (5 / 2)))) 100 := by
  have e2 : (ctx fm).q 2 = 257 := rfl
  have e1 : (ctx fm).q 1 = 193 := rfl
  have p2 := C27.ex_prime fm 2 (by norm_num)
  have p1 := C27.ex_prime fm 1 (by norm_num)
  rw [e2] at p2
  rw [e1] at p1
  have hs : C25.scaleOf fm ((ctx fm).q 2) (.flt (5 / 2)) = 257 := by
    have hn : ¬ (((⌊(5 / 2 : ℚ)⌋ : ℤ) : ℚ) = 5 / 2 ∧ -(2 ^ 63) ≤ (5 / 2 : ℚ) ∧ (5 / 2 : ℚ) < 2 ^ 63) := by
      rintro ⟨h, -⟩
      have : ⌊(5 / 2 : ℚ)⌋ = 2 := by rw [Int.floor_eq_iff]; norm_num
      rw [this] at h
      norm_num at h
    simp only [C25.scaleOf]
    rw [if_neg hn, e2, p2]; norm_num
  have hm : fm.mul 200 257 = 51400 := by
    have := fm.exact_nat 51400 (by norm_num)
    unfold FloatModel.mul
    norm_num at this ⊢
    exact this
  rw [hs, hm]
  refine ⟨by norm_num, 1, .inr ⟨by norm_num, ?_⟩⟩
  have t := C27.ex_div fm (a := 100) (b := 2) (lo := 50) (hi := 50) (by norm_num) (by norm_num) (by norm_num)
  have a := C27.ex_div fm (a := 51400) (b := 257) (lo := 200) (hi := 200) (by norm_num) (by norm_num) (by norm_num)
  have hs1 : C27.scaleAfter fm (ctx fm).q 2 51400 1 = fm.div 51400 257 := by
    show fm.div 51400 (fm.ofNat ((ctx fm).q 2)) = _
    rw [e2, p2]; norm_num
  refine ⟨by norm_num, fun j hj => ?_, ?_⟩
  · have : j = 0 := by omega
    subst this
    show fm.div 100 2 ≤ C27.scaleAfter fm (ctx fm).q 2 51400 1
    rw [hs1]
    have h1 := t.2; have h2 := a.1
    push_cast at h1 h2
    linarith
  · show fm.div (C27.scaleAfter fm (ctx fm).q 2 51400 1) (fm.ofNat ((ctx fm).q 1)) < fm.div 100 2
    rw [hs1, e1, p1]
    have h0 := a.1; have h3 := a.2
    push_cast at h0 h3
    have b := C27.ex_div fm (a := fm.div 51400 257) (b := ((193 : ℕ) : ℚ)) (lo := 0) (hi := 2)
      (by push_cast; apply div_nonneg <;> linarith) (by push_cast; rw [div_le_iff₀ (by norm_num)]; linarith) (by norm_num)
    have h1 := t.1; have h2 := b.2
    push_cast at h1 h2 ⊢
    linarith

include h100 hcrs in
/-- the program meets its requirements -/
theorem prog_ok (o : ℕ → ℕ → Sched String) : C59.ProgOk S (env fm o) pts ⟨[(msg, fresh)], []⟩ prog := by
  have hm := mulOk fm S h100
  have hp : 0 < C27.scaleAfter fm (ctx fm).q 2 (fm.mul 200 200) (C59.drops S 2 (fm.mul 200 200)) :=
    C59.scaleAfter_pos (C := ctx fm) (valid fm) (by show 2 < 3; norm_num) (C59.rnd_pos _ (by norm_num)) _
  refine ⟨?_, ⟨?_, ?_, addOk_self fm (x := 200) (by norm_num) _ _ rfl rfl⟩, ?_, ⟨?_, rfl, fun _ => ?_⟩, ⟨?_, ?_, rfl, rfl, hm⟩, ⟨?_, ?_, hm⟩,
    ⟨?_, ?_, addOk_self fm hp.ne' _ _ rfl rfl⟩, ⟨?_, ?_⟩, ⟨?_, hm⟩, ⟨?_, ?_, hm⟩, ⟨?_, .flt _⟩, ⟨?_, rescaleOk fm⟩,
    trivial⟩
  all_goals first
    | exact Nat.succ_pos _
    | exact Nat.succ_lt_succ (Nat.succ_pos _)
    | exact Nat.succ_lt_succ (Nat.succ_lt_succ (Nat.succ_lt_succ (Nat.succ_pos _)))
    | exact Nat.succ_lt_succ (Nat.succ_lt_succ (Nat.succ_lt_succ (Nat.succ_lt_succ (Nat.succ_pos _))))
    | exact Nat.succ_lt_succ (Nat.succ_lt_succ (Nat.succ_lt_succ (Nat.succ_lt_succ (Nat.succ_lt_succ (Nat.succ_pos _)))))
    | (show _ < List.length _; simp [C59.exec, C59.Abs.push]; done)
    | skip
  · rw [hcrs, ← GoMap.mem_iff_lookup, crs_mem]
    right; left; rfl

/-- From key generation for two parties over encryption and the program to the decryption of the rotated ciphertext (result number 1): the
centred representative of the decrypted plaintext is within 4800 of 200 times the rotated message in every slot. (The
parameters are toys; the bound is what the theorem gives.) -/
theorem run_ex (us : ℕ → Nega 16 ℤ) (hus : ∀ n, Bdd (us n) 1) (st : Enc (ctx fm)) (o : ℕ → ℕ → Sched String) (od oe : Sched String) :
    ∃ w pk ct st' M' ct1 pt pool', setup (crs fm) err sec sec' rots (kg fm) ["a", "b"] = .ok w ∧ w.pks.value.lookup "a" = some pk ∧
      ckksEncryptNew oe us err st (poly fm 3 5) 200 pk = .ok (ct, st') ∧
      C59.run ⟨crs fm, w.rlk, w.rks, KeySet.new, 100, ["a", "b"].toFinset, sec, sec', crsv fm 5, 2, 2, 2, 37442⟩ (env fm o) 0
        ⟨⟨eval fm, w.rlk⟩, [ct], []⟩ prog = .ok M' ∧ M'.cts[1]? = some ct1 ∧ M'.cts.length = 12 ∧
      ckksDecrypt od ckksNewDecryptor ct1 w.sks = .ok ((pt, 200), pool') ∧
      ∃ Φ : Nega 16 ℤ, (∀ k ≤ 2, cf (pt.rows k) = red ((ctx fm).q k) Φ) ∧
        (∀ Ψ : Nega 16 ℤ, (∀ k ≤ 2, cf (pt.rows k) = red ((ctx fm).q k) Ψ) → (∀ x, 2 * |Ψ x| ≤ C59.modulus (ctx fm) 2) → Ψ = Φ) ∧
        ∀ j : ℤ, ‖slot j (toReal Φ) / 200 - slot (j - 5) msg‖ ≤ 4800 / 200 := by
  obtain ⟨w, w1, w2, w3, w4, w5⟩ := setup_ex fm
  obtain ⟨pk, e, p1, p2, p3, p4⟩ := w4 "a" (by simp)
  have hS := w2 KeySet.new
  set S : C59.Sys (ctx fm) := ⟨crs fm, w.rlk, w.rks, KeySet.new, 100, ["a", "b"].toFinset, sec, sec', crsv fm 5, 2, 2, 2, 37442⟩ with hSdef
  obtain ⟨ct, st', c1, c2⟩ := C59.encrypt (S := S) (valid fm) hS oe us err st (pt := poly fm 3 5) (l := 2) rfl (by show 2 < 3; norm_num)
    (scale := 200) (by norm_num) msg_slots (msg_enc fm) (pk := pk) (by rw [p2]; decide) (by rw [p2]; show "a" ∈ ["a", "b"].toFinset; simp)
    (by rw [p2]; exact p3) hus err_bdd p4
  rw [p2] at c2
  have hrel : C59.Rel S ⟨⟨eval fm, w.rlk⟩, [ct], []⟩ ⟨[(msg, fresh)], []⟩ := ⟨⟨eval_ready fm, rfl, w5⟩, .cons c2 .nil, .nil⟩
  have hinfo : (C59.execs S (env fm o) pts ⟨[(msg, fresh)], []⟩ prog).info 1 = fresh.rot S (-5) := rfl
  have hval : (C59.execs S (env fm o) pts ⟨[(msg, fresh)], []⟩ prog).val 1 = galois (5 ^ C35.amount 16 (-5)) msg := rfl
  have hcount : C35.rotCount (crs fm) (C35.amount 16 (-5)) = 2 := by
    show C35.rotCount (crs fm) 3 = 2
    unfold C35.rotCount crs
    simp only [GoMap.lookup_insert']
    simp
    decide
  have hB : (fresh.rot S (-5)).B ≤ 4800 := by
    show fresh.B + C59.rotErr S (-5) fresh ≤ 4800
    unfold C59.rotErr fresh
    have hc : C35.rotCount S.crs (C35.amount 16 (-5)) = 2 := hcount
    have hP : (ctx fm).P = 353 * 449 := by simp [Ctx.P, mprod, prod_range_succ, ctx, Ex.exp]
    have hb : (ctx fm).beta 2 = 2 := beta_two fm
    dsimp only
    rw [hc, hb, hP]
    unfold C33.rotNoise
    norm_num [hSdef]
  have hmod : C59.modulus (ctx fm) 2 = 97 * 193 * 257 := by
    unfold C59.modulus
    simp [prod_range_succ, ctx, exq]
  obtain ⟨M', ct1, pt, pool', r1, r2, r3, Φ, r4, r5, r6⟩ := C59.program_decrypt (valid fm) hS (pts_ok fm o) prog 0 hrel
    (prog_ok fm S rfl rfl o) (i := 1) (Nat.succ_lt_succ (Nat.succ_pos _)) (sks := w.sks) (by
      refine ⟨w3.1, fun id hid => w3.2 id ?_⟩
      rw [hinfo] at hid
      have : id ∈ ({"a"} : Finset String) := hid
      rw [mem_singleton] at this; subst this; simp) ckksNewDecryptor (by rw [hinfo]; show 2 < 3; norm_num) (by
      rw [hinfo]
      show 2 * (((200 : ℚ) : ℝ) * 16 + (fresh.rot S (-5)).B) < (C59.modulus (ctx fm) 2 : ℝ)
      rw [hmod]; push_cast; linarith) od
  obtain ⟨M2, q1, q2⟩ := C59.program (valid fm) hS (pts_ok fm o) prog 0 hrel (prog_ok fm S rfl rfl o)
  rw [r1] at q1; injection q1 with q1; subst q1
  rw [hinfo] at r3 r4 r5 r6
  rw [hval] at r6
  refine ⟨w, pk, ct, st', M', ct1, pt, pool', w1, p1, c1, r1, r2, q2.cts.length_eq.trans rfl, r3, Φ, r4, r5, fun j => ?_⟩
  have h6 := r6 j
  rw [slot_rotate (valid fm).hN (valid fm).log1 j (-5) msg] at h6
  have e200 : (((fresh.rot S (-5)).scale : ℚ) : ℂ) = 200 := by show (((200 : ℚ)) : ℂ) = 200; norm_num
  have e200' : (((fresh.rot S (-5)).scale : ℚ) : ℝ) = 200 := by show (((200 : ℚ)) : ℝ) = 200; norm_num
  rw [e200, e200'] at h6
  refine h6.trans ?_
  apply div_le_div_of_nonneg_right _ (by norm_num)
  push_cast
  linarith

end MKHE.CEx
