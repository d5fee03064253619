import Mathlib.Data.List.AList
import Mathlib.Data.Finset.Basic
import Mathlib.Data.Finset.Dedup

set_option autoImplicit false

/-!
# Go effects: panics, loops, maps with unspecified iteration order
-/

namespace MKHE

/-- The ways a Go function of this code base can abort. -/
inductive Fault where
  /-- explicit call of `panic(msg)` -/
  | panic (msg : String)
  /-- dereference of a nil pointer (for instance the value of a missing map key) -/
  | nilDeref
  /-- slice index out of range -/
  | indexOutOfRange
  deriving DecidableEq, Repr

/-- Result of a Go call: a value or an abort. -/
abbrev Go (α : Type*) := Except Fault α

namespace Go

/-- `for _, a := range l { s = f(s, a) }` where the body may abort. -/
def loop {σ α : Type*} (f : σ → α → Go σ) : σ → List α → Go σ
  | s, [] => .ok s
  | s, a :: l =>
    match f s a with
    | .ok s' => loop f s' l
    | .error e => .error e

@[simp] theorem loop_nil {σ α : Type*} (f : σ → α → Go σ) (s : σ) : loop f s [] = .ok s := rfl

theorem loop_cons {σ α : Type*} (f : σ → α → Go σ) (s : σ) (a : α) (l : List α) :
    loop f s (a :: l) = (match f s a with | .ok s' => loop f s' l | .error e => .error e) := rfl

/-- Loop rule: an invariant indexed by the processed prefix. -/
theorem loop_inv {σ α : Type*} (f : σ → α → Go σ) (Inv : List α → σ → Prop) (l : List α) (s : σ)
    (h0 : Inv [] s)
    (hstep : ∀ pre a suf s, l = pre ++ a :: suf → Inv pre s →
      ∃ s', f s a = .ok s' ∧ Inv (pre ++ [a]) s') :
    ∃ s', loop f s l = .ok s' ∧ Inv l s' := by
  suffices H : ∀ suf pre s, l = pre ++ suf → Inv pre s → ∃ s', loop f s suf = .ok s' ∧ Inv l s' by
    exact H l [] s rfl h0
  intro suf
  induction suf with
  | nil => intro pre s hl hI; exact ⟨s, rfl, by simpa [hl] using hI⟩
  | cons a suf ih =>
    intro pre s hl hI
    obtain ⟨s', hs', hI'⟩ := hstep pre a suf s hl hI
    obtain ⟨s'', h1, h2⟩ := ih (pre ++ [a]) s' (by simp [hl]) hI'
    exact ⟨s'', by rw [loop_cons, hs']; exact h1, h2⟩

/-- A loop whose body never aborts is a fold. -/
theorem loop_ok {σ α : Type*} (f : σ → α → σ) (s : σ) (l : List α) :
    loop (fun s a => (.ok (f s a) : Go σ)) s l = .ok (l.foldl f s) := by
  induction l generalizing s with
  | nil => rfl
  | cons a l ih => rw [loop_cons]; exact ih _

end Go

/-- Loop rule for loops that cannot abort. -/
theorem foldl_inv {σ α : Type*} (f : σ → α → σ) (Inv : List α → σ → Prop) (l : List α) (s : σ)
    (h0 : Inv [] s)
    (hstep : ∀ pre a suf s, l = pre ++ a :: suf → Inv pre s → Inv (pre ++ [a]) (f s a)) :
    Inv l (l.foldl f s) := by
  suffices H : ∀ suf pre s, l = pre ++ suf → Inv pre s → Inv l (suf.foldl f s) by
    exact H l [] s rfl h0
  intro suf
  induction suf with
  | nil => intro pre s hl hI; simpa [hl] using hI
  | cons a suf ih =>
    intro pre s hl hI
    exact ih (pre ++ [a]) (f s a) (by simp [hl]) (hstep pre a suf s hl hI)

/-- `for i := 0; i < n; i++ { s = f(s, i) }` -/
def forN {σ : Type*} (n : ℕ) (f : σ → ℕ → σ) (s : σ) : σ := (List.range n).foldl f s

theorem forN_inv {σ : Type*} (n : ℕ) (f : σ → ℕ → σ) (Inv : ℕ → σ → Prop) (s : σ)
    (h0 : Inv 0 s) (hstep : ∀ i s, i < n → Inv i s → Inv (i + 1) (f s i)) : Inv n (forN n f s) := by
  unfold forN
  induction n with
  | zero => simpa using h0
  | succ n ih =>
    rw [List.range_succ, List.foldl_append]
    exact hstep n _ (Nat.lt_succ_self n) (ih (fun i s hi => hstep i s (Nat.lt_succ_of_lt hi)))

theorem forN_succ {σ : Type*} (n : ℕ) (f : σ → ℕ → σ) (s : σ) :
    forN (n + 1) f s = f (forN n f s) n := by
  unfold forN; rw [List.range_succ, List.foldl_append]; rfl

@[simp] theorem forN_zero {σ : Type*} (f : σ → ℕ → σ) (s : σ) : forN 0 f s = s := rfl

/-- A Go `map[K]V`: finitely many keys, each with one value. -/
abbrev GoMap (κ : Type*) (β : Type*) [DecidableEq κ] := AList (fun _ : κ => β)

/-- An iteration order: Go's `range` over a map visits the keys in an unspecified order.
An `Order` picks some permutation for every key list. -/
structure Order (κ : Type*) where
  f : List κ → List κ
  perm : ∀ l, (f l).Perm l

/-- A schedule: one iteration order for each `range` statement executed. -/
abbrev Sched (κ : Type*) := ℕ → Order κ

/-- the identity order -/
def Order.id {κ : Type*} : Order κ := ⟨fun l => l, fun _ => List.Perm.refl _⟩

/-- the reversed order -/
def Order.rev {κ : Type*} : Order κ := ⟨List.reverse, List.reverse_perm⟩

namespace GoMap
variable {κ β : Type*} [DecidableEq κ]

/-- the keys of `m` in the order chosen by `o`: `for k := range m` -/
def range (o : Order κ) (m : GoMap κ β) : List κ := o.f m.keys

theorem mem_range {o : Order κ} {m : GoMap κ β} {k : κ} : k ∈ range o m ↔ k ∈ m := by
  unfold range
  rw [(o.perm _).mem_iff, AList.mem_keys]

theorem nodup_range (o : Order κ) (m : GoMap κ β) : (range o m).Nodup :=
  (o.perm _).nodup_iff.mpr m.keys_nodup

theorem mem_iff_lookup {m : GoMap κ β} {k : κ} : k ∈ m ↔ (m.lookup k).isSome :=
  AList.lookup_isSome.symm

/-- `m[k]` for a map of pointers: missing key gives nil, whose use is a nil dereference -/
def deref (m : GoMap κ β) (k : κ) : Go β :=
  match m.lookup k with
  | some v => .ok v
  | none => .error .nilDeref

theorem deref_ok {m : GoMap κ β} {k : κ} {v : β} (h : m.lookup k = some v) : m.deref k = .ok v := by
  unfold deref; rw [h]

theorem deref_none {m : GoMap κ β} {k : κ} (h : m.lookup k = none) : m.deref k = .error .nilDeref := by
  unfold deref; rw [h]

theorem lookup_insert' (m : GoMap κ β) (k k' : κ) (v : β) :
    (m.insert k v).lookup k' = if k' = k then some v else m.lookup k' := by
  by_cases h : k' = k
  · subst h; simp [AList.lookup_insert]
  · rw [if_neg h, AList.lookup_insert_ne h]

theorem lookup_erase' (m : GoMap κ β) (k k' : κ) :
    (m.erase k).lookup k' = if k' = k then none else m.lookup k' := by
  by_cases h : k' = k
  · subst h; simp [AList.lookup_erase]
  · rw [if_neg h, AList.lookup_erase_ne h]

end GoMap

end MKHE

namespace MKHE.Go

/-- `m >>= f` for faulting calls, as an explicit match (used instead of `do` where it reads better) -/
def andThen {α β : Type*} (m : Go α) (f : α → Go β) : Go β :=
  match m with
  | .ok a => f a
  | .error e => .error e

@[simp] theorem andThen_ok {α β : Type*} (a : α) (f : α → Go β) : andThen (.ok a : Go α) f = f a := rfl

/-- slice indexing `l[i]` -/
def idx {α : Type*} (l : List α) (i : ℕ) : Go α :=
  match l[i]? with
  | some a => .ok a
  | none => .error .indexOutOfRange

theorem idx_ok {α : Type*} {l : List α} {i : ℕ} {a : α} (h : l[i]? = some a) : idx l i = .ok a := by
  unfold idx; rw [h]

theorem idx_none {α : Type*} {l : List α} {i : ℕ} (h : l.length ≤ i) :
    idx l i = .error .indexOutOfRange := by
  unfold idx; rw [List.getElem?_eq_none h]

/-- `for _, a := range l { s[a] = f(a) }` where `f` may abort -/
def fill {ι β : Type*} [DecidableEq ι] (f : ι → Go β) (s : ι → β) (l : List ι) : Go (ι → β) :=
  loop (fun s a => andThen (f a) fun b => .ok (Function.update s a b)) s l

theorem fill_ok {ι β : Type*} [DecidableEq ι] (f : ι → Go β) (g : ι → β) (s : ι → β) (l : List ι)
    (h : ∀ a ∈ l, f a = .ok (g a)) : fill f s l = .ok (fun a => if a ∈ l then g a else s a) := by
  obtain ⟨s', h1, h2⟩ := loop_inv (fun s a => andThen (f a) fun b => (.ok (Function.update s a b) : Go (ι → β)))
    (fun pre s' => s' = fun a => if a ∈ pre then g a else s a) l s (by simp)
    (by
      intro pre a suf s' hl hI
      refine ⟨Function.update s' a (g a), ?_, ?_⟩
      · rw [h a (by rw [hl]; simp)]; rfl
      · subst hI
        funext b
        by_cases hb : b = a
        · subst hb; simp
        · simp [hb])
  unfold fill; rw [h1, h2]

/-- a loop over all coefficients -/
def fillFin {N : ℕ} {β : Type*} (f : Fin N → Go β) (s : Fin N → β) : Go (Fin N → β) :=
  fill f s (List.finRange N)

theorem fillFin_ok {N : ℕ} {β : Type*} (f : Fin N → Go β) (g : Fin N → β) (s : Fin N → β)
    (h : ∀ a, f a = .ok (g a)) : fillFin f s = .ok g := by
  unfold fillFin
  rw [fill_ok f g s _ (fun a _ => h a)]
  simp

end MKHE.Go
