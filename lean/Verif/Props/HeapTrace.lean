import Verif.Lemmas.HeapTracePool
import Verif.Props.HeapProg

set_option autoImplicit false
set_option linter.unusedSectionVars false

/-!
# C76: what is in memory while a call is under way, and after a panic

`Write.During h x.writes g`: `g` is a memory that may be seen between the start of the call `x` on `h` and the moment it returns or panics (`Model/HeapTrace.lean`).
-/

namespace MKHE
namespace C76
open Heap Nega C59 C63 TG
open C23 (hval)
variable {N : ℕ} [NeZero N] {C : Ctx N} {α : Type}

/-- the call `x`, started on the memory `h`, does what `f` does; at every moment until it returns or panics, every object that existed before, except the
polynomials in `Wp` and the ciphertexts in `Wc`, is as it was; and the memory `π` it returns is the last one seen -/
structure Frame (Wp Wc : Set ℕ) (h : Heap N) (x : TG N α) (f : Go α) (π : α → Heap N) : Prop where
  res : x.res = f
  seen : ∀ g, Write.During h x.writes g → WF g ∧ Only Wp Wc h g
  last : ∀ a, f = .ok a → π a = Write.replay h x.writes

theorem Frame.of_runs {Wp Wc : Set ℕ} {h : Heap N} {x : TG N α} {f : Go α} {π : α → Heap N} (e : x.res = f) (r : Runs (Grew h Wp Wc) h x π) :
    Frame Wp Wc h x f π := ⟨e, fun g hg => ⟨(r.during g hg).ok.wf, (r.during g hg).ok.only⟩, fun a ea => r.final a (e.trans ea)⟩

/-- a ciphertext that is not among those written has its contents at every moment -/
theorem Frame.value {Wp Wc : Set ℕ} {h : Heap N} {x : TG N α} {f : Go α} {π : α → Heap N} (F : Frame Wp Wc h x f π) (W : WF h) {c : ℕ} (hc : c < h.nct)
    (hw : c ∉ Wc) (hp : ∀ id p, (h.ct c).lookup id = some p → p ∉ Wp) {g : Heap N} (hg : Write.During h x.writes g) :
    Heap.value C g c = Heap.value C h c := (F.seen g hg).2.value W hc hw hp

/-! ## every operation that returns a new object -/

section
variable {h : Heap N}

/-- `MulRelinNew` (mkckks) -/
theorem mulRelinNew (pscale : ℚ) (crs : GoMap ℤ (Swk C)) (o : Sched String) (E : Eval C) (op0 op1 : HCt) (rlk : RlkMap C) (W : WF h) :
    Frame ∅ ∅ h (ckksMulRelinNewT pscale crs o E op0 op1 rlk h) (Heap.ckksMulRelinNew pscale crs o E op0 op1 rlk h) (·.2) :=
  .of_runs (ckksMulRelinNewT_res ..) (ckksMulRelinNewT_runs (Ok.start W))

/-- `MulRelinHoistedNew` (mkckks) -/
theorem mulRelinHoistedNew (pscale : ℚ) (crs : GoMap ℤ (Swk C)) (o : Sched String) (E : Eval C) (op0 op1 : HCt) (h0 h1 : Option (HoistedCt C))
    (rlk : RlkMap C) (W : WF h) : Frame ∅ ∅ h (ckksMulRelinHoistedNewT pscale crs o E op0 op1 h0 h1 rlk h)
      (Heap.ckksMulRelinHoistedNew pscale crs o E op0 op1 h0 h1 rlk h) (·.2) :=
  .of_runs (ckksMulRelinHoistedNewT_res ..) (ckksMulRelinHoistedNewT_runs (Ok.start W))

/-- `RotateNew` (mkckks) -/
theorem rotateNew (crs : GoMap ℤ (Swk C)) (o : ℕ → Sched String) (E : Eval C) (c : HCt) (r : ℤ) (rks : RotKeySet (GalKey C)) (W : WF h) (hc : c.ct < h.nct) :
    Frame ∅ ∅ h (ckksRotateNewT crs o E c r rks h) (Heap.ckksRotateNew crs o E c r rks h) (·.2) :=
  .of_runs (ckksRotateNewT_res ..) (ckksRotateNewT_runs (Ok.start W) hc)

/-- `RotateHoistedNew` (mkckks) -/
theorem rotateHoistedNew (crs : GoMap ℤ (Swk C)) (o : ℕ → Sched String) (E : Eval C) (c : HCt) (r : ℤ) (hc : HoistedCt C) (rks : RotKeySet (GalKey C))
    (W : WF h) : Frame ∅ ∅ h (ckksRotateHoistedNewT crs o E c r hc rks h) (Heap.ckksRotateHoistedNew crs o E c r hc rks h) (·.2) :=
  .of_runs (ckksRotateHoistedNewT_res ..) (ckksRotateHoistedNewT_runs (Ok.start W))

/-- `ConjugateNew` (mkckks) -/
theorem conjugateNew (l : ℕ) (crs : GoMap ℤ (Swk C)) (o : Sched String) (E : Eval C) (c : HCt) (cks : KeySet (GalKey C)) (W : WF h) :
    Frame ∅ ∅ h (ckksConjugateNewT l crs o E c cks h) (Heap.ckksConjugateNew l crs o E c cks h) (·.2) :=
  .of_runs (ckksConjugateNewT_res ..) (ckksConjugateNewT_runs (Ok.start W))

/-- `MulPtxtNew` (mkckks) -/
theorem mulPtxtNew (pscale : ℚ) (o : Sched String) (E : Eval C) (c : HCt) (pt : Poly C) (s : ℚ) (W : WF h) :
    Frame ∅ ∅ h (mulPtxtNewT pscale o E c pt s h) (Heap.mulPtxtNew pscale o E c pt s h) (·.2) :=
  .of_runs (mulPtxtNewT_res ..) (mulPtxtNewT_runs (Ok.start W))

/-- `DropLevelNew` (mkckks) -/
theorem dropLevelNew (C : Ctx N) (o o' : Order String) (c : HCt) (k : ℕ) (W : WF h) (hc : c.ct < h.nct) :
    Frame ∅ ∅ h (dropLevelNewT o o' h c k) (Heap.dropLevelNew o o' h c k) (·.2) :=
  .of_runs (dropLevelNewT_res ..) (dropLevelNewT_runs C (Ok.start W) hc)

/-- `RescaleNew` (mkckks) -/
theorem rescaleNew (C : Ctx N) (o : Sched String) (c : HCt) (thr : ℚ) (W : WF h) :
    Frame ∅ ∅ h (rescaleNewT C o h c thr) (Heap.rescaleNew C o h c thr) (·.2) :=
  .of_runs (rescaleNewT_res ..) (rescaleNewT_runs (Ok.start W))

/-- `AddNew` (mkckks): of the objects that existed before only the evaluator's pool ciphertext may change -/
theorem ckksAddNew (C : Ctx N) (mredPsi : ℕ → ℕ → ℕ) (o : Sched String) (pool : ℕ) (c0 c1 : HCt) (W : WF h) (hp : pool < h.nct) :
    Frame {p | ∃ id, (h.ct pool).lookup id = some p} {pool} h (ckksAddNewT C mredPsi o h pool c0 c1) (Heap.ckksAddNew C mredPsi o h pool c0 c1) (·.2) :=
  .of_runs (ckksAddNewT_res ..) (ckksAddNewT_runs (Ok.start W) ⟨hp, fun id _ e => Or.inl ⟨id, e⟩⟩ (Or.inl rfl))

/-- `SubNew` (mkckks), likewise -/
theorem ckksSubNew (C : Ctx N) (mredPsi : ℕ → ℕ → ℕ) (o : Sched String) (pool : ℕ) (c0 c1 : HCt) (W : WF h) (hp : pool < h.nct) :
    Frame {p | ∃ id, (h.ct pool).lookup id = some p} {pool} h (ckksSubNewT C mredPsi o h pool c0 c1) (Heap.ckksSubNew C mredPsi o h pool c0 c1) (·.2) :=
  .of_runs (ckksSubNewT_res ..) (ckksSubNewT_runs (Ok.start W) ⟨hp, fun id _ e => Or.inl ⟨id, e⟩⟩ (Or.inl rfl))

/-- `Decrypt` (mkckks): of the objects that existed before only the decryptor's plaintext may change, and that at the level of the ciphertext -/
theorem ckksDecrypt (o : Sched String) (c : ℕ) (sks : KeySet (SKey C)) (pt : ℕ) (W : WF h) (hc : c < h.nct) (hp : pt < h.npoly) :
    Frame {pt} ∅ h (ckksDecryptT o h c sks pt) (Heap.ckksDecrypt o h c sks pt) (fun g => g) :=
  .of_runs (ckksDecryptT_res ..) (ckksDecryptT_runs (Ok.start W) hc hp (Or.inl rfl))

/-- `EncryptMsgNew` (mkckks), after the message is encoded in the plaintext `pt` -/
theorem ckksEncryptNew (o : Sched String) (us gs : ℕ → Nega N ℤ) (st : Enc C) (pt : ℕ) (scale : ℚ) (pk : PKey C) (W : WF h) :
    Frame ∅ ∅ h (ckksEncryptNewT o us gs st pt scale pk h) (Heap.ckksEncryptNew o us gs st pt scale pk h) (·.2) :=
  .of_runs (ckksEncryptNewT_res ..) (ckksEncryptNewT_runs (Ok.start W))

/-- `AddNew` (mkbfv) -/
theorem bfvAddNew (C : Ctx N) (o : Sched String) (c0 c1 : ℕ) (W : WF h) : Frame ∅ ∅ h (bfvAddNewT C o h c0 c1) (Heap.bfvAddNew C o h c0 c1) (·.2) :=
  .of_runs (bfvAddNewT_res ..) (bfvAddNewT_runs (Ok.start W))

/-- `SubNew` (mkbfv) -/
theorem bfvSubNew (C : Ctx N) (o : Sched String) (c0 c1 : ℕ) (W : WF h) : Frame ∅ ∅ h (bfvSubNewT C o h c0 c1) (Heap.bfvSubNew C o h c0 c1) (·.2) :=
  .of_runs (bfvSubNewT_res ..) (bfvSubNewT_runs (Ok.start W))

/-- `MulRelinNew` (mkbfv) -/
theorem bfvMulRelinNew {B : BCtx N} (crs : GoMap ℤ (Swk B.C)) (o : Sched String) (S : BScratch B) (c0 c1 : ℕ) (set : BRlkMap B) (W : WF h) :
    Frame ∅ ∅ h (bfvMulRelinNewT crs o S c0 c1 set h) (Heap.bfvMulRelinNew crs o S c0 c1 set h) (·.2) :=
  .of_runs (bfvMulRelinNewT_res ..) (bfvMulRelinNewT_runs (Ok.start W))

/-- `RotateNew` (mkbfv) -/
theorem bfvRotateNew (crs : GoMap ℤ (Swk C)) (o : ℕ → Sched String) (S : Scratch C) (c : ℕ) (r : ℤ) (rks : RotKeySet (GalKey C)) (W : WF h)
    (hc : c < h.nct) : Frame ∅ ∅ h (bfvRotateNewT crs o S c r rks h) (Heap.bfvRotateNew crs o S c r rks h) (·.2) :=
  .of_runs (bfvRotateNewT_res ..) (bfvRotateNewT_runs (Ok.start W) hc)

/-- `ConjugateNew` (mkbfv) -/
theorem bfvConjugateNew (l : ℕ) (crs : GoMap ℤ (Swk C)) (o : Sched String) (S : Scratch C) (c : ℕ) (cks : KeySet (GalKey C)) (W : WF h) :
    Frame ∅ ∅ h (bfvConjugateNewT l crs o S c cks h) (Heap.bfvConjugateNew l crs o S c cks h) (·.2) :=
  .of_runs (bfvConjugateNewT_res ..) (bfvConjugateNewT_runs (Ok.start W))

/-- `Decrypt` (mkbfv) -/
theorem bfvDecrypt (o : Sched String) (c : ℕ) (sks : KeySet (SKey C)) (W : WF h) (hc : c < h.nct) :
    Frame ∅ ∅ h (bfvDecryptT o h c sks) (Heap.bfvDecrypt o h c sks) (·.2) :=
  .of_runs (bfvDecryptT_res ..) (bfvDecryptT_runs (Ok.start W) hc)

/-- `EncryptMsgNew` (mkbfv), after the message is encoded in the plaintext `pt` -/
theorem bfvEncryptNew (o : Sched String) (us gs : ℕ → Nega N ℤ) (st : Enc C) (pt : ℕ) (pk : PKey C) (W : WF h) :
    Frame ∅ ∅ h (bfvEncryptNewT o us gs st pt pk h) (Heap.bfvEncryptNew o us gs st pt pk h) (·.2) :=
  .of_runs (bfvEncryptNewT_res ..) (bfvEncryptNewT_runs (Ok.start W))

end

/-! ## programs, some calls of which are aborted -/

/-- the call of `C63.hstep` with the writes it makes -/
noncomputable def tstep (S : Sys C) (w : Env C) (n : ℕ) (M : HMachine C) : Instr → TG N (HMachine C)
  | .add i j => do
    let a ← fetch M.cts i
    let b ← fetch M.cts j
    let r ← ckksAddNewT C w.mredPsi (w.o n 0) M.h M.pool a b
    .ok (M.push r.1 r.2 M.st.ev M.st.rlk)
  | .sub i j => do
    let a ← fetch M.cts i
    let b ← fetch M.cts j
    let r ← ckksSubNewT C w.mredPsi (w.o n 0) M.h M.pool a b
    .ok (M.push r.1 r.2 M.st.ev M.st.rlk)
  | .mul i j => do
    let a ← fetch M.cts i
    let b ← fetch M.cts j
    let r ← ckksMulRelinNewT S.pscale S.crs (w.o n 0) M.st.ev a b M.st.rlk M.h
    .ok (M.push r.1.1 r.2 r.1.2.1 r.1.2.2)
  | .rot i r => do
    let a ← fetch M.cts i
    let r ← ckksRotateNewT S.crs (w.o n) M.st.ev a r S.rks M.h
    .ok (M.push r.1.1 r.2 r.1.2 M.st.rlk)
  | .conj i => do
    let a ← fetch M.cts i
    let l ← M.h.level a.ct
    let r ← ckksConjugateNewT (w.perm l) S.crs (w.o n 0) M.st.ev a S.cks M.h
    .ok (M.push r.1.1 r.2 r.1.2 M.st.rlk)
  | .hoist i => do
    let a ← fetch M.cts i
    let r ← hoistedForm (w.o n 0) M.st.ev.ksw (value C M.h a.ct)
    .ok ⟨M.h, M.pool, ⟨{ M.st.ev with ksw := r.2 }, M.st.rlk⟩, M.cts, M.hs ++ [r.1]⟩
  | .mulH i j h k => do
    let a ← fetch M.cts i
    let b ← fetch M.cts j
    let ah ← fetch M.hs h
    let bh ← fetch M.hs k
    let r ← ckksMulRelinHoistedNewT S.pscale S.crs (w.o n 0) M.st.ev a b (some ah) (some bh) M.st.rlk M.h
    .ok (M.push r.1.1 r.2 r.1.2 M.st.rlk)
  | .rotH i r h => do
    let a ← fetch M.cts i
    let ah ← fetch M.hs h
    let r ← ckksRotateHoistedNewT S.crs (w.o n) M.st.ev a r ah S.rks M.h
    .ok (M.push r.1.1 r.2 r.1.2 M.st.rlk)
  | .mulPt i p => do
    let a ← fetch M.cts i
    let r ← mulPtxtNewT S.pscale (w.o n 0) M.st.ev a (w.pts p).1 (w.pts p).2 M.h
    .ok (M.push r.1.1 r.2 r.1.2 M.st.rlk)
  | .drop i k => do
    let a ← fetch M.cts i
    let r ← dropLevelNewT (w.o n 0 0) (w.o n 0 1) M.h a k
    .ok (M.push r.1 r.2 M.st.ev M.st.rlk)
  | .const i k => do
    let a ← fetch M.cts i
    let cp ← copyNewT (w.o n 0 0) M.h a.ct
    let r ← multByConstT C w.mredPsi (w.o n 0 1) cp.2 a k cp.1
    .ok (M.push ⟨cp.1, r.1⟩ r.2 M.st.ev M.st.rlk)
  | .rescale i ms => do
    let a ← fetch M.cts i
    let cp ← copyNewT (w.o n 0 0) M.h a.ct
    let r ← rescaleT C (w.o n 0 1) cp.2 ⟨cp.1, a.scale⟩ ms ⟨cp.1, a.scale⟩ true
    .ok (M.push r.1.2 r.2 M.st.ev M.st.rlk)

variable {S : Sys C} {w : Env C} {pts : Pts N}

/-- the call returns, or panics, as `C63.hstep` does -/
theorem tstep_res (n : ℕ) (M : HMachine C) (c : Instr) : (tstep S w n M c).res = hstep S w n M c := by
  cases c <;>
  simp only [tstep, hstep, res_bind, res_lift, res_ok, ckksAddNewT_res, ckksSubNewT_res, ckksMulRelinNewT_res, ckksRotateNewT_res, ckksConjugateNewT_res,
    ckksMulRelinHoistedNewT_res, ckksRotateHoistedNewT_res, mulPtxtNewT_res, dropLevelNewT_res, copyNewT_res, multByConstT_res, rescaleT_res]

theorem fetch_mem {β : Type} {l : List β} {i : ℕ} {a : β} (e : fetch l i = .ok a) : a ∈ l := by
  unfold fetch at e
  split at e
  · cases e; exact List.mem_of_getElem? ‹_›
  · cases e

/-- every call but `AddNew` and `SubNew` writes to new memory only -/
theorem tstep_fresh (n : ℕ) {M : HMachine C} (W : WF M.h) (hown : ∀ c ∈ M.cts, c.ct < M.h.nct) (c : Instr) (h1 : ∀ i j, c ≠ .add i j)
    (h2 : ∀ i j, c ≠ .sub i j) : Runs (Grew M.h ∅ ∅) M.h (tstep S w n M c) (·.h) := by
  have K : Ok M.h ∅ ∅ M.h := Ok.start W
  have R := Grew.refl K
  cases c with
  | add i j => exact absurd rfl (h1 i j)
  | sub i j => exact absurd rfl (h2 i j)
  | mul i j =>
    exact Runs.lift R fun _ _ => Runs.lift R fun _ _ => Runs.bind (ckksMulRelinNewT_runs K) fun r _ g => Runs.ok (Grew.refl g.ok) rfl
  | rot i r => exact Runs.lift R fun a ea => Runs.bind (ckksRotateNewT_runs K (hown a (fetch_mem ea))) fun r _ g => Runs.ok (Grew.refl g.ok) rfl
  | conj i => exact Runs.lift R fun _ _ => Runs.lift R fun _ _ => Runs.bind (ckksConjugateNewT_runs K) fun r _ g => Runs.ok (Grew.refl g.ok) rfl
  | hoist i => exact Runs.lift R fun _ _ => Runs.lift R fun _ _ => Runs.ok R rfl
  | mulH i j h k =>
    exact Runs.lift R fun _ _ => Runs.lift R fun _ _ => Runs.lift R fun _ _ => Runs.lift R fun _ _ =>
      Runs.bind (ckksMulRelinHoistedNewT_runs K) fun r _ g => Runs.ok (Grew.refl g.ok) rfl
  | rotH i r h =>
    exact Runs.lift R fun _ _ => Runs.lift R fun _ _ => Runs.bind (ckksRotateHoistedNewT_runs K) fun r _ g => Runs.ok (Grew.refl g.ok) rfl
  | mulPt i p => exact Runs.lift R fun _ _ => Runs.bind (mulPtxtNewT_runs K) fun r _ g => Runs.ok (Grew.refl g.ok) rfl
  | drop i k => exact Runs.lift R fun a ea => Runs.bind (dropLevelNewT_runs C K (hown a (fetch_mem ea))) fun r _ g => Runs.ok (Grew.refl g.ok) rfl
  | const i k =>
    refine Runs.lift R fun a ea => Runs.bind (copyNewT_runs K) fun cp e g => ?_
    exact Runs.bind (multByConstT_runs g.ok (copyNewT_into C K (hown a (fetch_mem ea)) e).1) fun r _ g => Runs.ok (Grew.refl g.ok) rfl
  | rescale i ms =>
    refine Runs.lift R fun a ea => Runs.bind (copyNewT_runs K) fun cp e g => ?_
    exact Runs.bind (rescaleT_runs g.ok (copyNewT_into C K (hown a (fetch_mem ea)) e).1) fun r _ g => Runs.ok (Grew.refl g.ok) rfl

/-- the pool of a machine is in shape -/
theorem shape_of_rel {M : HMachine C} {A : Abs N} (H : HRel S M A) : Shape M.pool (C.nQ - 1) M.h where
  wf := H.wf
  lt := H.inp
  has0 := value_mem.mp H.pool.has0
  len id p hp := H.pool.len id (M.h.view C p) (by rw [value_lookup, hp]; rfl)
  coeff id p hp := H.pool.coeff id (M.h.view C p) (by rw [value_lookup, hp]; rfl)
  dist := H.dist

theorem shape_atLevel {a L : ℕ} {g : Heap N} (K : Shape a L g) : (value C g a).AtLevel L := by
  refine ⟨value_mem.mpr K.has0, fun id Q hQ => ?_, fun id Q hQ => ?_⟩
  · rw [value_lookup] at hQ
    obtain ⟨p, hp, rfl⟩ := Option.map_eq_some_iff.mp hQ
    exact K.len id p hp
  · rw [value_lookup] at hQ
    obtain ⟨p, hp, rfl⟩ := Option.map_eq_some_iff.mp hQ
    exact K.coeff id p hp

/-- at every moment of every call, the pool is in shape and the client's ciphertexts have their contents -/
theorem tstep_seen (T : Sys C) (w : Env C) (n : ℕ) {M : HMachine C} {A : Abs N} (H : HRel S M A) (c : Instr) {g : Heap N} (hg : Write.During M.h (tstep T w n M c).writes g) :
    Kept M.pool (C.nQ - 1) M.h g ∧ ∀ x ∈ M.cts, value C g x.ct = value C M.h x.ct := by
  have K := shape_of_rel H
  have hown : ∀ c ∈ M.cts, c.ct < M.h.nct := fun c hc => (H.own c hc).1
  by_cases h : (∀ i j, c ≠ .add i j) ∧ ∀ i j, c ≠ .sub i j
  · have r := tstep_fresh (S := T) (w := w) n H.wf hown c h.1 h.2
    exact ⟨(Runs.kept r K).during g hg, fun x hx => (r.during g hg).ok.only.value H.wf (hown x hx) (by simp) (by simp)⟩
  · have hval : Grew M.h {p | ∃ id, (M.h.ct M.pool).lookup id = some p} {M.pool} M.h g → ∀ x ∈ M.cts, value C g x.ct = value C M.h x.ct :=
      fun G x hx => G.ok.only.value H.wf (hown x hx) (apart_ne H (H.own x hx).2) fun id p hp ⟨y, hy⟩ => (H.own x hx).2 y id p hy hp
    have O : Ok M.h {p | ∃ id, (M.h.ct M.pool).lookup id = some p} {M.pool} M.h := Ok.start H.wf
    have I : Into M.h {p | ∃ id, (M.h.ct M.pool).lookup id = some p} M.h M.pool := ⟨H.inp, fun id _ e => Or.inl ⟨id, e⟩⟩
    cases c with
    | add i j =>
      have r : Runs (Grew M.h _ _) M.h (tstep T w n M (.add i j)) (·.h) := Runs.lift (Grew.refl O) fun _ _ => Runs.lift (Grew.refl O) fun _ _ =>
        Runs.bind (ckksAddNewT_runs O I (Or.inl rfl)) fun r _ g => Runs.ok (Grew.refl g.ok) rfl
      have k : Runs (Kept M.pool (C.nQ - 1)) M.h (tstep T w n M (.add i j)) (·.h) := Runs.lift (Kept.refl K) fun _ _ => Runs.lift (Kept.refl K) fun _ _ =>
        Runs.bind (ckksAddNewT_kept K) fun r _ g => Runs.ok (Kept.refl g.shape) rfl
      exact ⟨k.during g hg, hval (r.during g hg)⟩
    | sub i j =>
      have r : Runs (Grew M.h _ _) M.h (tstep T w n M (.sub i j)) (·.h) := Runs.lift (Grew.refl O) fun _ _ => Runs.lift (Grew.refl O) fun _ _ =>
        Runs.bind (ckksSubNewT_runs O I (Or.inl rfl)) fun r _ g => Runs.ok (Grew.refl g.ok) rfl
      have k : Runs (Kept M.pool (C.nQ - 1)) M.h (tstep T w n M (.sub i j)) (·.h) := Runs.lift (Kept.refl K) fun _ _ => Runs.lift (Kept.refl K) fun _ _ =>
        Runs.bind (ckksSubNewT_kept K) fun r _ g => Runs.ok (Kept.refl g.shape) rfl
      exact ⟨k.during g hg, hval (r.during g hg)⟩
    | _ => exact absurd ⟨by simp, by simp⟩ h

/-- **C76, one aborted call.** Any call with any arguments, keys and parameters, also one that panics, stopped at any moment: if the evaluator's private buffers are left with any
contents, the machine still holds encryptions of what it held, and the client's ciphertexts are unchanged. -/
theorem aborted (T : Sys C) (w : Env C) (n : ℕ) {M : HMachine C} {A : Abs N} (H : HRel S M A) (c : Instr) {g : Heap N} (hg : Write.During M.h (tstep T w n M c).writes g)
    {st : St C} (hst : st.Ready S) : HRel S { M with h := g, st := st } A ∧ Keeps M { M with h := g, st := st } := by
  obtain ⟨K, hv⟩ := tstep_seen T w n H c hg
  refine ⟨⟨K.shape.wf, K.shape.lt, shape_atLevel K.shape, K.shape.dist, hst, fun c hc => ⟨lt_of_lt_of_le (H.own c hc).1 K.nct, K.apart _ (H.own c hc).1 (H.own c hc).2⟩,
    H.one, ?_, ?_⟩, List.prefix_rfl, hv⟩
  · refine List.forall₂_iff_get.mpr ⟨H.cts.length_eq, fun i h1 h2 => ?_⟩
    have := List.forall₂_iff_get.mp H.cts |>.2 i h1 h2
    have e : hval C g (M.cts.get ⟨i, h1⟩) = hval C M.h (M.cts.get ⟨i, h1⟩) := by
      unfold C23.hval; rw [hv _ (List.get_mem _ _)]
    show Approx S (hval C g (M.cts.get ⟨i, h1⟩)) _ _
    rw [e]; exact this
  · refine H.hs.imp fun m i hm => ?_
    obtain ⟨ct, c1, c2, c3⟩ := hm
    exact ⟨ct, c1, c2, by show IsHoisted _ (value C g ct.ct) m; rw [hv _ (List.mem_of_getElem? c1)]; exact c3⟩

/-- what the client sees of a call -/
inductive Event where
  /-- the call returned -/
  | done (c : Instr)
  /-- the call was stopped, by its own panic or from outside, and the client went on -/
  | stopped (c : Instr)

/-- the calls that returned -/
def Event.completed : List Event → List Instr
  | [] => []
  | .done c :: l => c :: completed l
  | .stopped _ :: l => completed l

/-- from machine to machine; a stopped call, which may have been made with other keys `T`,
leaves the memory of some moment of the call, and the evaluator's private buffers with any contents -/
inductive Session (S : Sys C) (w : Env C) : ℕ → HMachine C → List Event → HMachine C → Prop
  | nil (n : ℕ) (M : HMachine C) : Session S w n M [] M
  | done {n : ℕ} {M M' M'' : HMachine C} {c : Instr} {l : List Event} : hstep S w n M c = .ok M' → Session S w (n + 1) M' l M'' →
      Session S w n M (.done c :: l) M''
  | stopped {n : ℕ} {M M'' : HMachine C} {c : Instr} {l : List Event} {g : Heap N} {st : St C} (T : Sys C) (u : Env C) :
      Write.During M.h (tstep T u n M c).writes g → st.Ready S →
      Session S w (n + 1) { M with h := g, st := st } l M'' → Session S w n M (.stopped c :: l) M''

/-- **C76, histories with aborted calls.** After any history the machine holds encryptions of what the calls that returned compute, as if the others had not been
made, and every ciphertext the client held at any time has the contents it had. -/
theorem session (V : C.Valid) (hS : S.Ok) (hp : PtsOk w pts) {n : ℕ} {M M' : HMachine C} {l : List Event} (hl : Session S w n M l M') :
    ∀ {A : Abs N}, HRel S M A → ProgOk S w pts A (Event.completed l) → HRel S M' (execs S w pts A (Event.completed l)) ∧ Keeps M M' := by
  induction hl with
  | nil n M => exact fun H _ => ⟨H, Keeps.refl M⟩
  | done e _ ih =>
    intro A H hok
    obtain ⟨M1, s1, s2, s3⟩ := hstep_ok V hS hp _ H _ hok.1
    cases Except.ok.inj (s1.symm.trans e)
    obtain ⟨r1, r2⟩ := ih s2 hok.2
    exact ⟨r1, s3.trans r2⟩
  | stopped T u hg hst _ ih =>
    intro A H hok
    obtain ⟨a1, a2⟩ := aborted T u _ H _ hg hst
    obtain ⟨r1, r2⟩ := ih a1 hok
    exact ⟨r1, a2.trans r2⟩

/-- **C76, the evaluator still works.** After any history, a program that meets the requirements runs and computes what it should. -/
theorem session_then (V : C.Valid) (hS : S.Ok) (hp : PtsOk w pts) {n : ℕ} {M M' : HMachine C} {l : List Event} (hl : Session S w n M l M') {A : Abs N}
    (H : HRel S M A) {p : List Instr} (hok : ProgOk S w pts A (Event.completed l)) (hok' : ProgOk S w pts (execs S w pts A (Event.completed l)) p) (m : ℕ) :
    ∃ M'', hrun S w m M' p = .ok M'' ∧ HRel S M'' (execs S w pts (execs S w pts A (Event.completed l)) p) ∧ Keeps M M'' := by
  obtain ⟨r1, r2⟩ := session V hS hp hl H hok
  obtain ⟨M2, s1, s2, s3⟩ := C63.program V hS hp p m r1 hok'
  exact ⟨M2, s1, s2, r2.trans s3⟩

/-- **C76, decryption.** After any history, decrypting any ciphertext the client holds gives, within `B / scale` in every slot, the polynomial that the calls that
returned compute. -/
theorem session_decrypt (V : C.Valid) (hS : S.Ok) (hp : PtsOk w pts) {n : ℕ} {M M' : HMachine C} {l : List Event} (hl : Session S w n M l M') {A R : Abs N}
    (H : HRel S M A) (hok : ProgOk S w pts A (Event.completed l)) (hR : R = execs S w pts A (Event.completed l)) {i : ℕ} (hi : i < R.cts.length)
    {sks : KeySet (SKey C)} (hs : SKeys.Of sks (R.info i).ids S.s)
    (hfit : 2 * ((R.info i).scale * (R.info i).V + (R.info i).B) < modulus C (R.info i).level) (o : Sched String) :
    ∃ c, M'.cts[i]? = some c ∧ c.scale = (R.info i).scale ∧
      ∀ pt, pt < M'.h.npoly → (R.info i).level < M'.h.len pt → (∀ c ∈ M'.cts, ∀ id, (M'.h.ct c.ct).lookup id ≠ some pt) →
      ∃ h', Heap.ckksDecrypt o M'.h c.ct sks pt = .ok h' ∧
      ∃ Φ : Nega N ℤ, (∀ k ≤ (R.info i).level, cf ((h'.view C pt).rows k) = red (C.q k) Φ) ∧
        (∀ Ψ : Nega N ℤ, (∀ k ≤ (R.info i).level, cf ((h'.view C pt).rows k) = red (C.q k) Ψ) →
          (∀ x, 2 * |Ψ x| ≤ modulus C (R.info i).level) → Ψ = Φ) ∧
        ∀ j : ℤ, ‖slot j (toReal Φ) / ((R.info i).scale : ℂ) - slot j (R.val i)‖ ≤ (R.info i).B / (R.info i).scale := by
  obtain ⟨r1, -⟩ := session V hS hp hl H hok
  rw [← hR] at r1
  obtain ⟨M2, c, e, c1, c2, -, c3⟩ := C63.program_decrypt V hS hp [] 0 r1 trivial hi hs hfit o
  cases e
  refine ⟨c, c1, c2, fun pt p1 p2 p3 => ?_⟩
  obtain ⟨h', d1, -, d2⟩ := c3 pt p1 p2 p3
  exact ⟨h', d1, d2⟩

end C76
end MKHE
