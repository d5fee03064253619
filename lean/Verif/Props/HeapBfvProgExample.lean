import Verif.Props.HeapBfvProg
import Verif.Props.HeapTraceExample
import Verif.Props.HeapCrypt
import Verif.Props.HeapClient
import Verif.Props.BfvProgExample

set_option autoImplicit false

/-!
# C63, C76: a BFV program on the heap, with a call that panics in the middle

Two messages are encrypted through one plaintext pool on a new heap. The client holds three registers, two of which are the same pointer. It calls `ConjugateNew` with
an empty set of conjugation keys, which panics after the result and a copy of the operand are allocated, recovers and runs its program.
-/

namespace MKHE
namespace C76
open Heap C63 TG
variable {N : ℕ} [NeZero N] {C : Ctx N}

/-- without the key of a party, `ConjugateNew` of mkbfv on the heap panics -/
theorem bfvConjugateNew_missing {l : ℕ} {crs : GoMap ℤ (Swk C)} {o : Sched String} {S : Scratch C} {c : ℕ} {cks : KeySet (GalKey C)} {h : Heap N} {id : String}
    (hm : id ∈ h.ct c) (h0 : id ≠ "0") (hc : c < h.nct) (W : WF h) (hmiss : cks.value.lookup id = none) :
    ∃ e, Heap.bfvConjugateNew l crs o S c cks h = .error e := by
  cases hok : Heap.bfvConjugateNew l crs o S c cks h with
  | error e => exact ⟨e, rfl⟩
  | ok res =>
    exfalso
    obtain ⟨ids0, -, hok⟩ := Go.bind_ok hok
    obtain ⟨t, ht, hok⟩ := Go.bind_ok hok
    obtain ⟨r, hok, -⟩ := Go.bind_ok hok
    have Md := (newCt_spec (C := C) (o 64) ids0 (C.nQ - 1) W).1
    have Mt := (copyNew_spec (C := C) (c' := t.1) (h' := t.2) Md.wf (lt_of_lt_of_le hc Md.only.nct) ht).2.1
    obtain ⟨level, -, hok⟩ := Go.bind_ok hok
    obtain ⟨ids, a1, hok⟩ := Go.bind_ok hok
    obtain ⟨ids', b1, b2⟩ := IDSet.ofCiphertext_spec (o 30) (t.2.ct t.1)
    cases Except.ok.inj (a1.symm.trans b1)
    obtain ⟨lin, -, hok⟩ := Go.bind_ok hok
    split at hok
    · cases hok
    obtain ⟨h1, -, hok⟩ := Go.bind_ok hok
    obtain ⟨st, hl, -⟩ := Go.bind_ok hok
    have hm' : id ∈ GoMap.range (o 32) ids.value := by
      rw [GoMap.mem_range, IDSet.mem_value_iff, b2, Mt, Md.only.ct _ hc (by simp)]
      exact ⟨hm, h0⟩
    obtain ⟨t, t', ht⟩ := Go.loop_all hl id hm'
    obtain ⟨ck, hk, -⟩ := Go.bind_ok ht
    unfold KeySet.get at hk
    rw [hmiss] at hk
    cases hk

/-- there is a moment in `ConjugateNew` of mkbfv at which a new ciphertext is on the heap, also if the call panics later -/
theorem bfvConjugateNew_moment {l : ℕ} {crs : GoMap ℤ (Swk C)} {o : Sched String} {S : Scratch C} {c : ℕ} {cks : KeySet (GalKey C)} {h : Heap N} (W : WF h) :
    ∃ g, Write.During h (bfvConjugateNewT l crs o S c cks h).writes g ∧ g.nct = h.nct + 1 := by
  obtain ⟨ids, e1, -⟩ := IDSet.ofCiphertext_spec (o 63) (h.ct c)
  have e2 : h.idSet (o 63) c = .ok ids := e1
  have r := newCtT_runs (h0 := h) (Wp := ∅) (Wc := ∅) (o := o 64) (ids := ids) (level := C.nQ - 1) (Ok.start W)
  have Md := (newCt_spec (C := C) (o 64) ids (C.nQ - 1) W).1
  have ew : ∃ rest, (bfvConjugateNewT l crs o S c cks h).writes = (newCtT (o 64) ids (C.nQ - 1) h).writes ++ rest := by
    unfold bfvConjugateNewT
    rw [e2]
    exact ⟨_, rfl⟩
  obtain ⟨rest, ew⟩ := ew
  refine ⟨Write.replay h (newCtT (o 64) ids (C.nQ - 1) h).writes, ?_, ?_⟩
  · rw [ew]
    exact During.left (During.stop _ _)
  · rw [← r.final _ (newCtT_res ..)]
    exact Md.nct

end C76

namespace BEx
open MKHE Finset Nega Ex Heap C63 C69
variable (fm : FloatModel)

/-- the public keys of the two parties -/
noncomputable def pks : KeySet (PKey (qp fm)) := (KeySet.new.add PKey.id (pk fm "a")).add PKey.id (pk fm "b")

theorem pks_lookup (id : String) (h : id ∈ ["a", "b"]) : (pks fm).value.lookup id = some (pk fm id) := by
  simp only [List.mem_cons, List.not_mem_nil, or_false] at h
  unfold pks KeySet.add
  rcases h with h | h <;> subst h <;> simp only [GoMap.lookup_insert'] <;> rfl

/-- a heap with encryptions of two messages, made through one plaintext pool -/
theorem two (m0 m1 : Nega 16 ℤ) : ∃ (h : Heap 16) (c0 c1 : ℕ), c0 < h.nct ∧ ∀ S : BScratch (bctx fm), S.Alloc →
    HBRel (B := bctx fm) sec parties ⟨h, S, [c0, c1, c0]⟩ [(m0, {"a"}, 700), (m1, {"b"}, 700), (m0, {"a"}, 700)] := by
  obtain ⟨p0, h0⟩ := C58.encodes_exists (B := bctx fm) (by show 0 < 7; norm_num) m0
  obtain ⟨p1, h1⟩ := C58.encodes_exists (B := bctx fm) (by show 0 < 7; norm_num) m1
  obtain ⟨a1, a2, a3⟩ := newEncHeap_ok (N := 16) (bctx fm).top
  obtain ⟨cs, st', h', e1, L, -, e2⟩ := encryptAll_ok (s := sec) (valid fm) (fun _ _ => Order.id) (us := fun n => sec (if n = 0 then "a" else "b")) (gs := err)
    (Bu := 1) (Bg := 2) (Be := 2) (Sb := 1) (Bm := 7) (fun n => sec_bdd _) (fun n => err_bdd n) (fun id => sec_bdd id) (pks := pks fm) (ids := ["a", "b"]) (by decide)
    (fun id hid => ⟨pk fm id, err 1, pks_lookup fm id hid, rfl, pk_ok fm id, err_bdd 1⟩) ⟨fun _ => row _ 1, 0, 0⟩
    [⟨"a", p0, m0⟩, ⟨"b", p1, m1⟩] (by
      intro x hx
      simp only [List.mem_cons, List.not_mem_nil, or_false] at hx
      rcases hx with rfl | rfl
      · exact ⟨by simp, h0⟩
      · exact ⟨by simp, h1⟩) a1 a2 (by rw [a3]; exact (valid fm).top_succ)
  obtain ⟨c0, -, x1, x2, x3, x4⟩ := e2 0 _ rfl
  obtain ⟨c1, -, y1, y2, y3, y4⟩ := e2 1 _ rfl
  have hn : C58.freshNoise (bctx fm) 7 1 2 2 1 ≤ 700 := by show (7 : ℤ) + 7 * (16 * 1 * 2 + 2 + 16 * 2 * 1) ≤ 700; norm_num
  have k0 := C69.Holds.of (U := parties) x2 x3 (by show ({"a"} : Finset String) ⊆ parties; decide) (C58.BfvEnc.mono x4 hn)
  have k1 := C69.Holds.of (U := parties) y2 y3 (by show ({"b"} : Finset String) ⊆ parties; decide) (C58.BfvEnc.mono y4 hn)
  refine ⟨h', c0, c1, x1, fun S hS => ⟨L.wf, hS, fun c hc => ?_, .cons k0 (.cons k1 (.cons k0 .nil))⟩⟩
  simp only [List.mem_cons, List.not_mem_nil, or_false] at hc
  rcases hc with rfl | rfl | rfl
  exacts [x1, y1, x1]

/-- the product of the messages minus a rotation of one of them -/
def hbprog : List BInstr := [.mul 0 1, .rot 1 1, .sub 3 4, .mul 0 2, .add 2 0]

/-- a keyring without conjugation keys -/
noncomputable def noConj : C58.Keyring (bctx fm) := { keyring fm with cks := KeySet.new }

/-- `ConjugateNew` without the key panics; there is a moment at which the memory is not what it was; and after a recovery at any moment, with any contents of the scratch
memory, the history "panic, then the program" gives encryptions of what the program computes. -/
theorem bpanic_then (m0 m1 : Nega 16 ℤ) (o : ℕ → ℕ → Sched String) : ∃ (h : Heap 16) (c0 c1 : ℕ),
    (∃ e, hbstep (noConj fm) ⟨o, fun _ => rlks fm⟩ 0 ⟨h, scratch fm, [c0, c1, c0]⟩ (.conj 2) = .error e) ∧
    (∃ g, Write.During h (C76.tbstep (noConj fm) ⟨o, fun _ => rlks fm⟩ 0 ⟨h, scratch fm, [c0, c1, c0]⟩ (.conj 2)).writes g ∧ g.nct = h.nct + 1) ∧
    ∀ (g : Heap 16) (S : BScratch (bctx fm)), S.Alloc →
      Write.During h (C76.tbstep (noConj fm) ⟨o, fun _ => rlks fm⟩ 0 ⟨h, scratch fm, [c0, c1, c0]⟩ (.conj 2)).writes g →
      ∃ M' A, hbrun (keyring fm) ⟨o, fun _ => rlks fm⟩ 1 ⟨g, S, [c0, c1, c0]⟩ hbprog = .ok M' ∧ HBRel (B := bctx fm) sec parties M' A ∧
        C76.BSession (keyring fm) ⟨o, fun _ => rlks fm⟩ 0 ⟨h, scratch fm, [c0, c1, c0]⟩ [.stopped (.conj 2)] ⟨g, S, [c0, c1, c0]⟩ ∧
        A.length = 8 ∧ (A.get 5).1 = m0 * m1 - galois (5 ^ C35.amount 16 1) m1 ∧ (A.get 6).1 = m0 * m0 ∧ (A.get 7).1 = m0 + m0 := by
  obtain ⟨h, c0, c1, hc, H⟩ := two fm m0 m1
  have HR := H _ (scratch_alloc fm)
  have hK : (keyring fm).Ok parties sec sec' bbounds.Sb bbounds.Rb bbounds.Be := keyring_ok fm
  have hw : BEnv.Ok (keyring fm) parties ⟨o, fun _ => rlks fm⟩ := fun n => ⟨rfl, rlkPools fm⟩
  have hf : C59.fetch [c0, c1, c0] 2 = .ok c0 := rfl
  refine ⟨h, c0, c1, ?_, ?_, fun g S hS hg => ?_⟩
  · have hid : "a" ∈ (value (qp fm) h c0).ids := by
      have := (H _ (scratch_alloc fm)).cts
      cases this with
      | cons k _ => rw [k.ids]; exact mem_singleton_self _
    obtain ⟨i1, i2⟩ := value_ids.mp hid
    obtain ⟨e, he⟩ := C76.bfvConjugateNew_missing (C := qp fm) (l := (bctx fm).top) (crs := crs fm) (o := o 0 0) (S := (scratch fm).base) (cks := KeySet.new)
      i1 i2 hc HR.wf rfl
    refine ⟨e, ?_⟩
    simp only [hbstep]
    rw [hf, bind_ok]
    show (Heap.bfvConjugateNew (bctx fm).top (crs fm) (o 0 0) (scratch fm).base c0 KeySet.new h >>= _) = _
    rw [he]
    rfl
  · obtain ⟨g, g1, g2⟩ := C76.bfvConjugateNew_moment (C := qp fm) (l := (bctx fm).top) (crs := crs fm) (o := o 0 0) (S := (scratch fm).base) (c := c0)
      (cks := KeySet.new) HR.wf
    refine ⟨g, ?_, g2⟩
    have : ∃ rest, (C76.tbstep (noConj fm) ⟨o, fun _ => rlks fm⟩ 0 ⟨h, scratch fm, [c0, c1, c0]⟩ (.conj 2)).writes =
        (bfvConjugateNewT (bctx fm).top (crs fm) (o 0 0) (scratch fm).base c0 KeySet.new h).writes ++ rest := by
      simp only [C76.tbstep]
      rw [hf, C76.lift_ok_writes]
      exact ⟨_, rfl⟩
    obtain ⟨rest, this⟩ := this
    rw [this]
    exact During.left g1
  · obtain ⟨a1, -⟩ := C76.baborted _ _ _ HR _ hg hS
    obtain ⟨M', r1, r2, -⟩ := C63.bprogram (valid fm) hK (bbounds_ok fm) hw hbprog 1 a1 (by simp [hbprog, BProgOk, BInstr.Ok])
    exact ⟨M', _, r1, r2, .stopped _ _ hg hS (.nil _ _), rfl, rfl, rfl, rfl⟩

end BEx
end MKHE
