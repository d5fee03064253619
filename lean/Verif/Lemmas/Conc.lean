import Verif.Model.Conc
import Mathlib.Logic.Function.Iterate
import Mathlib.Data.List.Count

set_option autoImplicit false

/-!
# Goroutines with separate footprints do not influence each other
-/

namespace MKHE
namespace Conc
open Prog

/-- every access of the goroutine, whatever it reads, is a read of an address in `R` or `W` or a write to an address in `W` -/
def Prog.Foot {α : Type} (R W : Set Addr) : Prog α → Prop
  | .ret _ => True
  | .fault _ => True
  | .rd a k => (a ∈ R ∨ a ∈ W) ∧ ∀ v, (k v).Foot R W
  | .wr a _ k => a ∈ W ∧ k.Foot R W

/-- the next access of the goroutine touches this address -/
def Prog.Touches (p : Prog Unit) (a : Addr) : Prop :=
  match p with
  | .rd b _ => b = a
  | .wr b _ _ => b = a
  | _ => False

/-- the next access of the goroutine writes this address -/
def Prog.Writes (p : Prog Unit) (a : Addr) : Prop :=
  match p with
  | .wr b _ _ => b = a
  | _ => False

/-- number of accesses of the goroutine running alone -/
def Prog.steps {α : Type} : Prog α → Mem → ℕ
  | .ret _, _ => 0
  | .fault _, _ => 0
  | .rd a k, m => (k (m a)).steps m + 1
  | .wr a v k, m => k.steps (Function.update m a v) + 1

/-- has ended, normally or with a fault -/
def Prog.Ended : Prog Unit → Prop
  | .ret _ => True
  | .fault _ => True
  | _ => False

section generic
variable {ι : Type} [DecidableEq ι]

theorem foot_solo {R W : Set Addr} {s : Mem × Prog Unit} (h : s.2.Foot R W) : (solo s).2.Foot R W := by
  obtain ⟨m, p⟩ := s
  cases p with
  | ret x => exact h
  | fault e => exact h
  | rd a k => exact h.2 _
  | wr a v k => exact h.2

/-- one access on two memories that agree on the footprint -/
theorem solo_agree {R W : Set Addr} {p : Prog Unit} (h : p.Foot R W) {m m' : Mem} (e : ∀ a, a ∈ R ∨ a ∈ W → m a = m' a) :
    (solo (m, p)).2 = (solo (m', p)).2 ∧ ∀ a, a ∈ R ∨ a ∈ W → (solo (m, p)).1 a = (solo (m', p)).1 a := by
  cases p with
  | ret x => exact ⟨rfl, e⟩
  | fault e' => exact ⟨rfl, e⟩
  | rd a k => exact ⟨congrArg k (e a h.1), e⟩
  | wr a v k =>
    refine ⟨rfl, fun b hb => ?_⟩
    show Function.update m a v b = Function.update m' a v b
    by_cases hab : b = a
    · subst hab; rw [Function.update_self, Function.update_self]
    · rw [Function.update_of_ne hab, Function.update_of_ne hab]; exact e b hb

/-- an access changes only addresses in `W` -/
theorem solo_only {R W : Set Addr} {p : Prog Unit} (h : p.Foot R W) (m : Mem) (a : Addr) (ha : a ∉ W) : (solo (m, p)).1 a = m a := by
  cases p with
  | ret x => rfl
  | fault e' => rfl
  | rd b k => rfl
  | wr b v k =>
    show Function.update m b v a = m a
    rw [Function.update_of_ne]
    rintro rfl
    exact ha h.1

/-- **separate footprints**: nobody writes what another goroutine reads or writes -/
def Separate (R W : ι → Set Addr) : Prop := ∀ i j, i ≠ j → ∀ a ∈ W i, a ∉ R j ∧ a ∉ W j

/-- **every schedule**: after any interleaving every goroutine is where it is after the same number of its own accesses running alone, with the same
memory on its footprint, and no address outside the write footprints has changed -/
theorem interleave {R W : ι → Set Addr} {ps : ι → Prog Unit} (F : ∀ i, (ps i).Foot (R i) (W i)) (S : Separate R W) (m : Mem) (sched : List ι) :
    let c := Cfg.exec ⟨m, ps⟩ sched
    (∀ i, c.thr i = (solo^[sched.count i] (m, ps i)).2 ∧ (c.thr i).Foot (R i) (W i) ∧
      ∀ a, a ∈ R i ∨ a ∈ W i → c.mem a = (solo^[sched.count i] (m, ps i)).1 a) ∧ ∀ a, (∀ i, a ∉ W i) → c.mem a = m a := by
  induction sched using List.reverseRecOn with
  | nil => exact ⟨fun i => ⟨rfl, F i, fun a _ => rfl⟩, fun a _ => rfl⟩
  | append_singleton l j ih =>
    obtain ⟨ih1, ih2⟩ := ih
    dsimp only
    have e : Cfg.exec ⟨m, ps⟩ (l ++ [j]) = (Cfg.exec ⟨m, ps⟩ l).step j := by
      unfold Cfg.exec; rw [List.foldl_append]; rfl
    rw [e]
    set c := Cfg.exec (⟨m, ps⟩ : Cfg ι) l with hc
    obtain ⟨j1, j2, j3⟩ := ih1 j
    have only := solo_only j2 c.mem
    refine ⟨fun i => ?_, fun a ha => ?_⟩
    · by_cases hij : i = j
      · subst hij
        have cnt : (l ++ [i]).count i = l.count i + 1 := by simp
        have ag := solo_agree j2 j3
        have ee : ((solo^[l.count i] (m, ps i)).1, c.thr i) = solo^[l.count i] (m, ps i) := Prod.ext rfl j1
        rw [ee] at ag
        rw [cnt, Function.iterate_succ_apply']
        refine ⟨?_, ?_, ?_⟩
        · show Function.update c.thr i _ i = _
          rw [Function.update_self, ag.1]
        · show (Function.update c.thr i _ i).Foot _ _
          rw [Function.update_self]
          exact foot_solo j2
        · intro a ha
          show (solo (c.mem, c.thr i)).1 a = _
          rw [ag.2 a ha]
      · have cnt : (l ++ [j]).count i = l.count i := by
          rw [List.count_append, List.count_singleton]
          simp [Ne.symm hij]
        obtain ⟨i1, i2, i3⟩ := ih1 i
        rw [cnt]
        refine ⟨?_, ?_, fun a ha => ?_⟩
        · show Function.update c.thr j _ i = _
          rw [Function.update_of_ne hij]; exact i1
        · show (Function.update c.thr j _ i).Foot _ _
          rw [Function.update_of_ne hij]; exact i2
        · show (solo (c.mem, c.thr j)).1 a = _
          rw [only a, i3 a ha]
          intro haj
          have := S j i (Ne.symm hij) a haj
          rcases ha with ha | ha
          · exact this.1 ha
          · exact this.2 ha
    · show (solo (c.mem, c.thr j)).1 a = _
      rw [only a (ha j)]
      exact ih2 a ha

/-- **no data race**: never do two goroutines have their next accesses at the same address, one of them a write -/
theorem no_race {R W : ι → Set Addr} {ps : ι → Prog Unit} (F : ∀ i, (ps i).Foot (R i) (W i)) (S : Separate R W) (m : Mem) (sched : List ι)
    {i j : ι} (hij : i ≠ j) (a : Addr) : ¬ (((Cfg.exec ⟨m, ps⟩ sched).thr i).Writes a ∧ ((Cfg.exec ⟨m, ps⟩ sched).thr j).Touches a) := by
  rintro ⟨h1, h2⟩
  obtain ⟨I, -⟩ := interleave F S m sched
  have fi := (I i).2.1
  have fj := (I j).2.1
  revert h1 h2 fi fj
  generalize (Cfg.exec ⟨m, ps⟩ sched).thr i = p
  generalize (Cfg.exec ⟨m, ps⟩ sched).thr j = q
  intro h1 h2 fi fj
  cases p with
  | wr b v k =>
    obtain rfl : b = a := h1
    have := S i j hij b fi.1
    cases q with
    | rd b' k' => obtain rfl : b' = b := h2; exact fj.1.elim this.1 this.2
    | wr b' v' k' => obtain rfl : b' = b := h2; exact this.2 fj.1
    | _ => exact h2
  | _ => exact h1

omit [DecidableEq ι] in
theorem solo_ended {s : Mem × Prog Unit} (h : s.2.Ended) : solo s = s := by
  obtain ⟨m, p⟩ := s
  cases p <;> first | rfl | exact h.elim

omit [DecidableEq ι] in
theorem iterate_ended {s : Mem × Prog Unit} (h : s.2.Ended) (n : ℕ) : solo^[n] s = s := by
  induction n with
  | zero => rfl
  | succ n ih => rw [Function.iterate_succ_apply, solo_ended h, ih]

omit [DecidableEq ι] in
/-- a goroutine running alone ends after `steps` accesses as `run` says -/
theorem solo_run (p : Prog Unit) : ∀ (m : Mem) (n : ℕ), p.steps m ≤ n →
    match p.run m with
    | .ok (_, m') => solo^[n] (m, p) = (m', .ret ())
    | .error e => (solo^[n] (m, p)).2 = .fault e := by
  induction p with
  | ret x => intro m n _; cases x; exact iterate_ended (by trivial) n
  | fault e => intro m n _; show (solo^[n] (m, Prog.fault e)).2 = _; rw [iterate_ended (by trivial) n]
  | rd a k ih =>
    intro m n hn
    obtain ⟨n, rfl⟩ : ∃ n', n = n' + 1 := ⟨n - 1, by unfold Prog.steps at hn; omega⟩
    rw [Function.iterate_succ_apply]
    exact ih (m a) m n (by unfold Prog.steps at hn; omega)
  | wr a v k ih =>
    intro m n hn
    obtain ⟨n, rfl⟩ : ∃ n', n = n' + 1 := ⟨n - 1, by unfold Prog.steps at hn; omega⟩
    rw [Function.iterate_succ_apply]
    exact ih _ n (by unfold Prog.steps at hn; omega)

/-- **every schedule that gives a goroutine enough turns**: the goroutine has returned, and on its footprint the memory is what its solitary run leaves -/
theorem interleave_run {R W : ι → Set Addr} {ps : ι → Prog Unit} (F : ∀ i, (ps i).Foot (R i) (W i)) (S : Separate R W) (m : Mem) (sched : List ι)
    {i : ι} {m' : Mem} (hr : (ps i).run m = .ok ((), m')) (hn : (ps i).steps m ≤ sched.count i) :
    (Cfg.exec ⟨m, ps⟩ sched).thr i = .ret () ∧ ∀ a, a ∈ R i ∨ a ∈ W i → (Cfg.exec ⟨m, ps⟩ sched).mem a = m' a := by
  obtain ⟨I, -⟩ := interleave F S m sched
  obtain ⟨i1, -, i3⟩ := I i
  have := solo_run (ps i) m _ hn
  rw [hr] at this
  dsimp only at this
  rw [this] at i1 i3
  exact ⟨i1, i3⟩

/-- a goroutine that has returned has done what its solitary run does -/
theorem interleave_returned {R W : ι → Set Addr} {ps : ι → Prog Unit} (F : ∀ i, (ps i).Foot (R i) (W i)) (S : Separate R W) (m : Mem) (sched : List ι)
    {i : ι} (he : ((Cfg.exec ⟨m, ps⟩ sched).thr i).Ended) :
    match (ps i).run m with
    | .ok (_, m') => (Cfg.exec ⟨m, ps⟩ sched).thr i = .ret () ∧ ∀ a, a ∈ R i ∨ a ∈ W i → (Cfg.exec ⟨m, ps⟩ sched).mem a = m' a
    | .error e => (Cfg.exec ⟨m, ps⟩ sched).thr i = .fault e := by
  obtain ⟨I, -⟩ := interleave F S m sched
  obtain ⟨i1, -, i3⟩ := I i
  rw [i1] at he
  have st := iterate_ended he ((ps i).steps m)
  rw [← Function.iterate_add_apply] at st
  have := solo_run (ps i) m ((ps i).steps m + sched.count i) (Nat.le_add_right _ _)
  rw [st] at this
  cases hr : (ps i).run m with
  | ok w =>
    rw [hr] at this
    dsimp only at this ⊢
    rw [this] at i1 i3
    exact ⟨i1, i3⟩
  | error e =>
    rw [hr] at this
    dsimp only at this ⊢
    rw [i1, this]

end generic

/-! ## footprints and runs of composed programs -/

section build
variable {α β : Type} {R W : Set Addr}

theorem foot_bind {p : Prog α} {f : α → Prog β} (h : p.Foot R W) (hf : ∀ x, (f x).Foot R W) : (p.bind f).Foot R W := by
  induction p with
  | ret x => exact hf x
  | fault e => trivial
  | rd a k ih => exact ⟨h.1, fun v => ih v (h.2 v)⟩
  | wr a v k ih => exact ⟨h.1, ih h.2⟩

theorem foot_lift (x : Go α) : (Prog.lift x).Foot R W := by cases x <;> trivial

theorem foot_each {f : α → Prog Unit} {l : List α} (h : ∀ a ∈ l, (f a).Foot R W) : (Prog.each f l).Foot R W := by
  induction l with
  | nil => trivial
  | cons a l ih => exact foot_bind (h a (List.mem_cons_self ..)) fun _ => ih fun b hb => h b (List.mem_cons_of_mem _ hb)

theorem foot_rdAll {l : List Addr} (h : ∀ a ∈ l, a ∈ R ∨ a ∈ W) : ∀ acc, (Prog.rdAll l acc).Foot R W := by
  induction l with
  | nil => intro _; trivial
  | cons a l ih => intro acc; exact ⟨h a (List.mem_cons_self ..), fun v => ih (fun b hb => h b (List.mem_cons_of_mem _ hb)) _⟩

theorem foot_mono {R' W' : Set Addr} (hR : R ⊆ R' ∪ W') (hW : W ⊆ W') {p : Prog α} (h : p.Foot R W) : p.Foot R' W' := by
  induction p with
  | ret x => trivial
  | fault e => trivial
  | rd a k ih => exact ⟨h.1.elim (fun x => hR x) fun x => Or.inr (hW x), fun v => ih v (h.2 v)⟩
  | wr a v k ih => exact ⟨hW h.1, ih h.2⟩

theorem run_bind (p : Prog α) (f : α → Prog β) (m : Mem) :
    (p.bind f).run m = match p.run m with | .ok (x, m') => (f x).run m' | .error e => .error e := by
  induction p generalizing m with
  | ret x => rfl
  | fault e => rfl
  | rd a k ih => exact ih (m a) m
  | wr a v k ih => exact ih _

theorem run_lift_ok {x : Go α} {y : α} (h : x = .ok y) (m : Mem) : (Prog.lift x).run m = .ok (y, m) := by rw [h]; rfl

theorem run_each (f : α → Prog Unit) (l : List α) (m : Mem) :
    (Prog.each f l).run m = (Go.loop (fun m a => ((f a).run m).map Prod.snd) m l).map fun m => ((), m) := by
  induction l generalizing m with
  | nil => rfl
  | cons a l ih =>
    show ((f a).bind fun _ => Prog.each f l).run m = _
    rw [run_bind, Go.loop_cons]
    cases (f a).run m with
    | error e => rfl
    | ok w => exact ih w.2

/-- loop rule -/
theorem run_each_inv (f : α → Prog Unit) (Inv : List α → Mem → Prop) (l : List α) (m : Mem) (h0 : Inv [] m)
    (hs : ∀ pre a suf m, l = pre ++ a :: suf → Inv pre m → ∃ m', (f a).run m = .ok ((), m') ∧ Inv (pre ++ [a]) m') :
    ∃ m', (Prog.each f l).run m = .ok ((), m') ∧ Inv l m' := by
  obtain ⟨m', e, hi⟩ := Go.loop_inv (fun m a => ((f a).run m).map Prod.snd) Inv l m h0 (by
    intro pre a suf m hl hI
    obtain ⟨m', e, hi⟩ := hs pre a suf m hl hI
    exact ⟨m', by rw [e]; rfl, hi⟩)
  exact ⟨m', by rw [run_each, e]; rfl, hi⟩

theorem run_rdAll (l : List Addr) (m : Mem) : ∀ acc, ∃ w, (Prog.rdAll l acc).run m = .ok (w, m) ∧ (∀ a ∈ l, w a = m a) ∧ ∀ a ∉ l, w a = acc a := by
  induction l with
  | nil => intro acc; exact ⟨acc, rfl, (fun a ha => by cases ha), fun _ _ => rfl⟩
  | cons b l ih =>
    intro acc
    obtain ⟨w, e, h1, h2⟩ := ih (Function.update acc b (m b))
    refine ⟨w, e, fun a ha => ?_, fun a ha => ?_⟩
    · by_cases hal : a ∈ l
      · exact h1 a hal
      · rcases List.mem_cons.mp ha with rfl | ha
        · rw [h2 a hal, Function.update_self]
        · exact absurd ha hal
    · rw [h2 a (fun h => ha (List.mem_cons_of_mem _ h)), Function.update_of_ne]
      rintro rfl
      exact ha (List.mem_cons_self ..)

end build
end Conc
end MKHE
