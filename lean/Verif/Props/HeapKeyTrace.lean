import Verif.Lemmas.HeapKeyTrace
import Verif.Props.HeapSessionRuns

set_option autoImplicit false
set_option linter.unusedSectionVars false

/-!
# C82: a call of the key generator that does not return

A call of a key generator may panic, or be stopped from outside, at any moment. `During s.heap (heapStepT B gs K s c).writes g`: `g` is a memory that may be seen
between the start of the call `c` and the moment it returns or panics, the row written last possibly half-written (`Model/HeapTrace.lean`).
`interrupted`: whatever moment it is, the CRS and all keys are as they were and still own their memory, and the key generator may be used again.
`session`: so after every history of calls that return and calls that do not, the keys are those the calls that returned made.
-/

namespace MKHE
namespace C82
open Heap Nega C70
variable {N : ℕ} [NeZero N] {B : BCtx N} {h0 : Heap N} {K : HKG} {V : VState B.C} {s : HState N}

/-- the call `c` changes the CRS map -/
def Cmd.IsAddCRS : Cmd N → Prop
  | .addCRS _ => True
  | _ => False

theorem Cmd.ne_addCRS {c : Cmd N} (hc : ¬ Cmd.IsAddCRS c) (i : ℤ) : c ≠ .addCRS i := fun e => hc (by rw [e]; trivial)

/-- **the writes recorded are those of the call**: the call with its writes ends as the call does, and in the memory its writes lead to -/
theorem trace_is_call (us : ℕ → PolyQP B.C) (gs : ℕ → Nega N ℤ) (a : Owned B.C h0 K V s) {c : Cmd N} (hc : ¬ Cmd.IsAddCRS c) :
    (heapStepT B gs K s c).res = heapStep B us gs K s c ∧
      ∀ s', heapStep B us gs K s c = .ok s' → s'.heap = Write.replay s.heap (heapStepT B gs K s c).writes := by
  have e := heapStepT_res B us gs K s c (Cmd.ne_addCRS hc)
  exact ⟨e, fun s' h => (heapStepT_runs (gs := gs) c a.wf (KGAt.low a.kg)).final s' (e.trans h)⟩

/-- **what a call may write**: until it returns or panics, every polynomial that existed before, except the pools of the key generator, is as it was, and so is
every ciphertext -/
theorem frame (gs : ℕ → Nega N ℤ) (a : Owned B.C h0 K V s) (c : Cmd N) {g : Heap N} (hg : Write.During s.heap (heapStepT B gs K s c).writes g) :
    WF g ∧ Only K.mem ∅ s.heap g ∧ g.nct = s.heap.nct := by
  have k := (heapStepT_runs (gs := gs) c a.wf (KGAt.low a.kg)).during g hg
  exact ⟨k.ok.wf, k.ok.only, k.nct⟩

/-- **C82, one call.** At every moment of a call, memory is as in a state in which every key has its value and its own memory, the CRS is unchanged, and the pools of
the key generator have their sizes and some contents. So if the call is given up at that moment, only its result is missing. -/
theorem interrupted (gs : ℕ → Nega N ℤ) (a : Owned B.C h0 K V s) (c : Cmd N) {g : Heap N} (hg : Write.During s.heap (heapStepT B gs K s c).writes g)
    (pos : ℕ) : ∃ kg : KG B.C, kg.pos = pos ∧ Owned B.C h0 K { V with kg := kg } { s with heap := g, pos := pos } := by
  have k := (heapStepT_runs (gs := gs) c a.wf (KGAt.low a.kg)).during g hg
  have W := k.ok.wf
  have o := k.ok.only
  have bl := a.base.only.npoly
  refine ⟨⟨pos, rowsOf B.C.q g K.poolQ, qpVal B.C g K.poolQP⟩, rfl, W, ⟨W, a.base.only.trans' o (fun p hp hw => ?_) (fun _ _ hc => hc), k.nct.trans a.base.nct⟩, a.used, rfl,
    ⟨a.kg.lt.trans_le o.npoly, (k.len _ a.kg.lt).trans a.kg.len, rfl, ⟨a.kg.qp.q.trans_le o.npoly, a.kg.qp.p.trans_le o.npoly, a.kg.qp.ne,
      (k.len _ a.kg.qp.q).trans a.kg.qp.lenQ, (k.len _ a.kg.qp.p).trans a.kg.qp.lenP, rfl⟩, a.kg.neQ, a.kg.neP⟩, a.kgNew,
    a.crs.keep o a.crsApart, a.crsApart, ?_, a.nodup, a.apart, a.noCrs, a.keysNew⟩
  · have := a.kgNew p hw; omega
  · refine List.forall₂_iff_get.mpr ⟨a.keys.length_eq, fun i h1 h2 => ?_⟩
    exact (a.keys.get h1 h2).keep o fun p hp => a.apart p (List.mem_flatMap.mpr ⟨_, List.get_mem _ _, hp⟩)

/-! ## histories -/

/-- what happens to a program that makes keys -/
inductive Event (N : ℕ) where
  /-- the call returned -/
  | done (c : Cmd N)
  /-- the call was stopped, by its own panic or from outside, and the program went on -/
  | stopped (c : Cmd N)

/-- the calls that returned -/
def Event.completed : List (Event N) → List (Cmd N)
  | [] => []
  | .done c :: l => c :: completed l
  | .stopped _ :: l => completed l

/-- from state to state; a call that was stopped leaves the memory of some moment of the call, and the sampler where it happened to be -/
inductive Session (B : BCtx N) (us : ℕ → PolyQP B.C) (gs : ℕ → Nega N ℤ) (K : HKG) : HState N → List (Event N) → HState N → Prop
  | nil (s : HState N) : Session B us gs K s [] s
  | done {s s' s'' : HState N} {c : Cmd N} {l : List (Event N)} : heapStep B us gs K s c = .ok s' → Session B us gs K s' l s'' →
      Session B us gs K s (.done c :: l) s''
  | stopped {s s'' : HState N} {c : Cmd N} {l : List (Event N)} {g : Heap N} (pos : ℕ) : Write.During s.heap (heapStepT B gs K s c).writes g →
      Session B us gs K { s with heap := g, pos := pos } l s'' → Session B us gs K s (.stopped c :: l) s''

/-- the run on values: a call that was stopped changes only the position of the sampler and the contents of the pools, in some way -/
inductive VSession (B : BCtx N) (us : ℕ → PolyQP B.C) (gs : ℕ → Nega N ℤ) : VState B.C → List (Event N) → VState B.C → Prop
  | nil (V : VState B.C) : VSession B us gs V [] V
  | done {V V' V'' : VState B.C} {c : Cmd N} {l : List (Event N)} : valStep us gs V c = .ok V' → VSession B us gs V' l V'' → VSession B us gs V (.done c :: l) V''
  | stopped {V V'' : VState B.C} {c : Cmd N} {l : List (Event N)} (kg : KG B.C) : VSession B us gs { V with kg := kg } l V'' →
      VSession B us gs V (.stopped c :: l) V''

variable {us : ℕ → PolyQP B.C} {gs : ℕ → Nega N ℤ}

/-- **C82, histories.** After every history every key made by a call that returned has the value it was made with and its own memory, apart from the CRS and the key
generator. -/
theorem session (hn : 0 < B.C.nQ) {s s' : HState N} {l : List (Event N)} (hl : Session B us gs K s l s') :
    ∀ {V : VState B.C}, Owned B.C h0 K V s → ∃ V', VSession B us gs V l V' ∧ Owned B.C h0 K V' s' := by
  induction hl with
  | nil s => exact fun a => ⟨_, .nil _, a⟩
  | @done s s1 s2 c l e _ ih =>
    intro V a
    have r := step_owned hn us gs a c
    rw [e] at r
    cases ev : valStep us gs V c with
    | error x => rw [ev] at r; exact r.elim
    | ok V1 =>
      rw [ev] at r
      obtain ⟨V', h1, h2⟩ := ih r
      exact ⟨V', .done ev h1, h2⟩
  | @stopped s s2 c l g pos hg _ ih =>
    intro V a
    obtain ⟨kg, -, a'⟩ := interrupted gs a c hg pos
    obtain ⟨V', h1, h2⟩ := ih a'
    exact ⟨V', .stopped kg h1, h2⟩

/-- one call on values adds at most a key -/
theorem valStep_keys {V V' : VState B.C} {c : Cmd N} (e : valStep us gs V c = .ok V') : V.keys <+: V'.keys := by
  cases c with
  | addCRS i => cases e; exact List.prefix_rfl
  | genSk x id => cases e; exact List.prefix_append ..
  | genSkGaussian id => cases e; exact List.prefix_append ..
  | genPk i =>
    obtain ⟨k, -, e⟩ := Go.of_bind_ok e
    obtain ⟨w, -, e⟩ := Go.of_bind_ok e
    cases e; exact List.prefix_append ..
  | genRlk i j =>
    obtain ⟨k, -, e⟩ := Go.of_bind_ok e
    obtain ⟨k', -, e⟩ := Go.of_bind_ok e
    obtain ⟨w, -, e⟩ := Go.of_bind_ok e
    cases e; exact List.prefix_append ..
  | genBfvRlk i j =>
    obtain ⟨k, -, e⟩ := Go.of_bind_ok e
    obtain ⟨k', -, e⟩ := Go.of_bind_ok e
    obtain ⟨w, -, e⟩ := Go.of_bind_ok e
    cases e; exact List.prefix_append ..
  | genRot r i =>
    obtain ⟨k, -, e⟩ := Go.of_bind_ok e
    obtain ⟨w, -, e⟩ := Go.of_bind_ok e
    cases e; exact List.prefix_append ..
  | genConj i =>
    obtain ⟨k, -, e⟩ := Go.of_bind_ok e
    obtain ⟨w, -, e⟩ := Go.of_bind_ok e
    cases e; exact List.prefix_append ..
  | copy i =>
    dsimp only [valStep] at e
    generalize V.keys[i]? = o at e
    rcases o with _ | _ | _ | _ | _ | _ <;> first | (cases e; exact List.prefix_append ..) | cases e

/-- the keys made before a history are there after it, with their values -/
theorem VSession.keys {V V' : VState B.C} {l : List (Event N)} (h : VSession B us gs V l V') : V.keys <+: V'.keys := by
  induction h with
  | nil => exact List.prefix_rfl
  | done e _ ih => exact (valStep_keys e).trans ih
  | stopped kg _ ih => exact ih

/-- **keys survive**: a key with a value before a history has the same value after it -/
theorem key_kept (hn : 0 < B.C.nQ) {s s' : HState N} {l : List (Event N)} (a : Owned B.C h0 K V s) (hl : Session B us gs K s l s') {i : ℕ} {v : Val B.C}
    (hv : V.keys[i]? = some v) : ∃ o, s'.keys[i]? = some o ∧ C70.Shows B.C s'.heap o v := by
  obtain ⟨V', h1, h2⟩ := session hn hl a
  have e : V'.keys[i]? = some v := by
    obtain ⟨t, ht⟩ := h1.keys
    rw [← ht, List.getElem?_append_left (List.getElem?_eq_some_iff.mp hv).1, hv]
  obtain ⟨l1, e1⟩ := List.getElem?_eq_some_iff.mp e
  have l2 : i < s'.keys.length := h2.keys.length_eq ▸ l1
  have := h2.keys.get l2 l1
  simp only [List.get_eq_getElem, e1] at this
  exact ⟨_, List.getElem?_eq_getElem l2, this⟩

end C82
end MKHE
