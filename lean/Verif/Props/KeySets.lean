import Verif.Model.KeySets

set_option autoImplicit false

/-!
# C04, C05, C06 — key sets

`Op` is a history entry; `Current h a k` ("`k` is the key stored at address `a` after history `h`") is defined
without reference to the model: `k` was added at address `a` and nothing after it adds or deletes at `a`.
For C04 the address is the id, for C05 it is the pair (id, rotation index).
-/

namespace MKHE.C04

/-- A history entry of a key set with keys `K` stored at addresses `A`. -/
inductive Op (K A : Type) where
  | add (k : K)
  | del (a : A)

/-- does this entry touch address `a`? -/
def Op.touches {K A : Type} (addr : K → A) (a : A) : Op K A → Prop
  | .add k => addr k = a
  | .del a' => a' = a

/-- `k` is what a Get at `a` must return after `h`. -/
def Current {K A : Type} (addr : K → A) (h : List (Op K A)) (a : A) (k : K) : Prop :=
  ∃ pre suf, h = pre ++ Op.add k :: suf ∧ addr k = a ∧ ∀ op ∈ suf, ¬ op.touches addr a

section
variable {K A : Type} (addr : K → A)

theorem current_nil (a : A) (k : K) : ¬ Current addr [] a k := by
  rintro ⟨pre, suf, h, _⟩; simp at h

theorem current_add (h : List (Op K A)) (a : A) (k k' : K) :
    Current addr (h ++ [.add k']) a k ↔
      (addr k' = a ∧ k = k') ∨ (addr k' ≠ a ∧ Current addr h a k) := by
  constructor
  · rintro ⟨pre, suf, he, ha, hs⟩
    rcases List.eq_nil_or_concat suf with hn | ⟨suf', x, hx⟩
    · subst hn
      have := List.append_inj_right' he rfl
      simp at this; subst this; exact Or.inl ⟨ha, rfl⟩
    · right
      subst hx
      rw [List.concat_eq_append, ← List.cons_append, ← List.append_assoc] at he
      have h1 := List.append_inj_left' he rfl
      have h2 := List.append_inj_right' he rfl
      simp at h2
      refine ⟨?_, pre, suf', h1, ha, fun op hm => hs op (by simp [hm])⟩
      intro hh
      exact hs x (by simp) (by rw [← h2]; exact hh)
  · rintro (⟨h1, rfl⟩ | ⟨h1, pre, suf, he, ha, hs⟩)
    · exact ⟨h, [], rfl, h1, by simp⟩
    · refine ⟨pre, suf ++ [.add k'], by simp [he], ha, ?_⟩
      intro op hop
      rcases List.mem_append.mp hop with h' | h'
      · exact hs op h'
      · simp at h'; subst h'; exact h1

theorem current_del (h : List (Op K A)) (a a' : A) (k : K) :
    Current addr (h ++ [.del a']) a k ↔ (a' ≠ a ∧ Current addr h a k) := by
  constructor
  · rintro ⟨pre, suf, he, ha, hs⟩
    rcases List.eq_nil_or_concat suf with hn | ⟨suf', x, hx⟩
    · subst hn
      have := List.append_inj_right' he rfl
      simp at this
    · subst hx
      rw [List.concat_eq_append, ← List.cons_append, ← List.append_assoc] at he
      have h1 := List.append_inj_left' he rfl
      have h2 := List.append_inj_right' he rfl
      simp at h2
      refine ⟨?_, pre, suf', h1, ha, fun op hm => hs op (by simp [hm])⟩
      intro hh
      exact hs x (by simp) (by rw [← h2]; exact hh)
  · rintro ⟨h1, pre, suf, he, ha, hs⟩
    refine ⟨pre, suf ++ [.del a'], by simp [he], ha, ?_⟩
    intro op hop
    rcases List.mem_append.mp hop with h' | h'
    · exact hs op h'
    · simp at h'; subst h'; exact h1

/-- Any map-like state whose lookup follows the history. -/
theorem lookup_follows {S : Type} [DecidableEq A] (init : S) (step : S → Op K A → S) (look : S → A → Option K)
    (hi : ∀ a, look init a = none)
    (hadd : ∀ s k a, look (step s (.add k)) a = if a = addr k then some k else look s a)
    (hdel : ∀ s a' a, look (step s (.del a')) a = if a = a' then none else look s a)
    (h : List (Op K A)) (a : A) (k : K) :
    look (h.foldl step init) a = some k ↔ Current addr h a k := by
  induction h using List.reverseRecOn with
  | nil => simp [hi, current_nil]
  | append_singleton h op ih =>
    rw [List.foldl_append]
    cases op with
    | add k' =>
      simp only [List.foldl_cons, List.foldl_nil, hadd, current_add, ← ih]
      by_cases hh : a = addr k'
      · simp [hh, eq_comm]
      · simp [hh, Ne.symm hh]
    | del a' =>
      simp only [List.foldl_cons, List.foldl_nil, hdel, current_del, ← ih]
      by_cases hh : a = a'
      · simp [hh]
      · simp [hh, Ne.symm hh]

end

/-- What "Get follows the history" means for a Get function: it returns exactly the current key, and panics
exactly when there is none. -/
def GetFollows {K A : Type} (addr : K → A) (h : List (Op K A)) (get : A → Go K) : Prop :=
  (∀ a k, get a = .ok k ↔ Current addr h a k) ∧
  (∀ a, (¬ ∃ k, Current addr h a k) → ∃ m, get a = .error (.panic m))

theorem getFollows_of_lookup {K A : Type} (addr : K → A) (h : List (Op K A)) (look : A → Option K) (get : A → Go K)
    (hl : ∀ a k, look a = some k ↔ Current addr h a k)
    (hg : ∀ a, (∀ k, look a = some k → get a = .ok k) ∧ (look a = none → ∃ m, get a = .error (.panic m))) :
    GetFollows addr h get := by
  constructor
  · intro a k
    rw [← hl]
    constructor
    · intro hk
      cases hh : look a with
      | none => obtain ⟨m, hm⟩ := (hg a).2 hh; rw [hm] at hk; cases hk
      | some k' => rw [(hg a).1 k' hh] at hk; cases hk; rfl
    · exact (hg a).1 k
  · intro a hn
    refine (hg a).2 ?_
    cases hh : look a with
    | none => rfl
    | some k => exact absurd ⟨k, (hl a k).mp hh⟩ hn

section
variable {K W R : Type} (idOf : K → String)

/-- run a history on a secret / public / conjugation key set -/
def runKeySet (h : List (Op K String)) : KeySet K :=
  h.foldl (fun s op => match op with | .add k => s.add idOf k | .del a => s.del a) KeySet.new

/-- run a history on a `mkrlwe` relinearization key set -/
def runRlk (fresh : W) (h : List (Op K String)) : RlkSet K W :=
  h.foldl (fun s op => match op with | .add k => s.add idOf fresh k | .del a => s.del a) RlkSet.new

/-- run a history on a `mkbfv` relinearization key set -/
def runBfvRlk (z : R) (fresh : W) (h : List (Op K String)) : BfvRlkSet K W R :=
  h.foldl (fun s op => match op with | .add k => s.add idOf z fresh k | .del a => s.del a) (BfvRlkSet.new z)

/-- run a history on a rotation key set; addresses are (id, index) -/
def runRot (idxOf : K → ℕ) (h : List (Op K (String × ℕ))) : RotKeySet K :=
  h.foldl (fun s op => match op with | .add k => s.add idOf idxOf k | .del a => s.del a.1 a.2) RotKeySet.new

/-- **C04.** After any history, Get returns the most recently added key with that id unless it was deleted
since, and panics otherwise — for secret/public/conjugation sets, mkrlwe and mkbfv relinearization sets. -/
theorem get_returns_last_added (h : List (Op K String)) (msg : String) (fresh : W) (z : R) :
    GetFollows idOf h (fun id => (runKeySet idOf h).get msg id) ∧
    GetFollows idOf h (fun id => (runRlk idOf fresh h).get id) ∧
    GetFollows idOf h (fun id => (runBfvRlk idOf z fresh h).get id) := by
  refine ⟨?_, ?_, ?_⟩
  · refine getFollows_of_lookup idOf h (fun a => (runKeySet idOf h).value.lookup a) _
      (fun a k => lookup_follows idOf _ _ (fun (s : KeySet K) a => s.value.lookup a) ?_ ?_ ?_ h a k) ?_
    · intro a; simp [KeySet.new]
    · intro s k a; simp only [KeySet.add, GoMap.lookup_insert']
    · intro s a' a; simp only [KeySet.del, GoMap.lookup_erase']
    · intro a
      constructor
      · intro k hk; simp only [KeySet.get]; rw [hk]
      · intro hk; exact ⟨_, by simp only [KeySet.get]; rw [hk]⟩
  · refine getFollows_of_lookup idOf h (fun a => (runRlk idOf fresh h).value.lookup a) _
      (fun a k => lookup_follows idOf _ _ (fun (s : RlkSet K W) a => s.value.lookup a) ?_ ?_ ?_ h a k) ?_
    · intro a; simp [RlkSet.new]
    · intro s k a; simp only [RlkSet.add, GoMap.lookup_insert']
    · intro s a' a; simp only [RlkSet.del, GoMap.lookup_erase']
    · intro a
      constructor
      · intro k hk; simp only [RlkSet.get]; rw [hk]
      · intro hk; exact ⟨_, by simp only [RlkSet.get]; rw [hk]⟩
  · refine getFollows_of_lookup idOf h (fun a => (runBfvRlk idOf z fresh h).value.lookup a) _
      (fun a k => lookup_follows idOf _ _ (fun (s : BfvRlkSet K W R) a => s.value.lookup a) ?_ ?_ ?_ h a k) ?_
    · intro a; simp [BfvRlkSet.new]
    · intro s k a; simp only [BfvRlkSet.add, GoMap.lookup_insert']
    · intro s a' a; simp only [BfvRlkSet.del, GoMap.lookup_erase']
    · intro a
      constructor
      · intro k hk; simp only [BfvRlkSet.get]; rw [hk]
      · intro hk; exact ⟨_, by simp only [BfvRlkSet.get]; rw [hk]⟩

/-- Non-vacuity of C04: key (id, serial number); the second key added for "a" is current, "b" is deleted. -/
example : Current (K := String × ℕ) Prod.fst
      [.add ("a", 1), .add ("b", 2), .add ("a", 3), .del "b"] "a" ("a", 3) ∧
    ¬ ∃ k, Current (K := String × ℕ) Prod.fst [.add ("a", 1), .add ("b", 2), .add ("a", 3), .del "b"] "b" k := by
  constructor
  · refine ⟨[.add ("a", 1), .add ("b", 2)], [.del "b"], rfl, rfl, ?_⟩
    simp [Op.touches]
  · rintro ⟨k, hk⟩
    have := (current_del (K := String × ℕ) Prod.fst [.add ("a", 1), .add ("b", 2), .add ("a", 3)] "b" "b" k).mp hk
    exact this.1 rfl

/-- flattened lookup of a rotation key set -/
def rotLook (s : RotKeySet K) (a : String × ℕ) : Option K := (s.value.lookup a.1).bind (fun m => m.lookup a.2)

/-- **C05.** A rotation key set is a map keyed by (id, index): Get returns the last key added under that pair
and not deleted since, and panics otherwise. Deleting under an id that is not in the set changes nothing. -/
theorem rotation_key_set_two_level (idxOf : K → ℕ) (h : List (Op K (String × ℕ))) :
    GetFollows (fun k => (idOf k, idxOf k)) h (fun a => (runRot idOf idxOf h).get a.1 a.2) ∧
    (∀ (s : RotKeySet K) id idx, s.value.lookup id = none → s.del id idx = s) := by
  constructor
  · refine getFollows_of_lookup _ h (rotLook (runRot idOf idxOf h)) _
      (fun a k => lookup_follows (fun k => (idOf k, idxOf k)) _ _ rotLook ?_ ?_ ?_ h a k) ?_
    · intro a; simp [RotKeySet.new, rotLook]
    · rintro s k ⟨i, n⟩
      have key : ∀ (inner : GoMap ℕ K) (v1 : GoMap String (GoMap ℕ K)),
          (∀ i', i' ≠ idOf k → v1.lookup i' = s.value.lookup i') → v1.lookup (idOf k) = some inner →
          (∀ n', inner.lookup n' = rotLook s (idOf k, n')) →
          rotLook ⟨v1.insert (idOf k) (inner.insert (idxOf k) k)⟩ (i, n) =
            if (i, n) = (idOf k, idxOf k) then some k else rotLook s (i, n) := by
        intro inner v1 h1 h2 h3
        unfold rotLook
        by_cases hi : i = idOf k
        · subst hi
          simp only [GoMap.lookup_insert', if_true, Option.bind_some]
          by_cases hn : n = idxOf k
          · simp [hn]
          · simp only [hn, Prod.mk.injEq, true_and, if_false, h3 n]
            rfl
        · simp [GoMap.lookup_insert', hi, h1 i hi]
      simp only [RotKeySet.add]
      cases hh : s.value.lookup (idOf k) with
      | some inner =>
        simp only [hh]
        exact key inner s.value (fun _ _ => rfl) hh (fun n' => by simp [rotLook, hh])
      | none =>
        simp only [GoMap.lookup_insert', if_true]
        refine key ∅ (s.value.insert (idOf k) ∅) (fun i' hi' => by simp [GoMap.lookup_insert', hi'])
          (by simp) (fun n' => by simp [rotLook, hh])
    · rintro s ⟨i', n'⟩ ⟨i, n⟩
      simp only [RotKeySet.del]
      cases hh : s.value.lookup i' with
      | some inner =>
        simp only [rotLook, GoMap.lookup_insert']
        by_cases hi : i = i'
        · subst hi
          by_cases hn : n = n' <;> simp [hn, hh, GoMap.lookup_erase']
        · simp [hi]
      | none =>
        by_cases hi : i = i'
        · subst hi; simp [rotLook, hh]
        · simp [hi]
    · rintro ⟨i, n⟩
      constructor
      · intro k hk
        simp only [rotLook] at hk
        simp only [RotKeySet.get]
        cases hh : (runRot idOf idxOf h).value.lookup i with
        | none => simp [hh] at hk
        | some m => simp only [hh, Option.bind_some] at hk; simp only [hk]
      · intro hk
        simp only [rotLook] at hk
        simp only [RotKeySet.get]
        cases hh : (runRot idOf idxOf h).value.lookup i with
        | none => exact ⟨_, rfl⟩
        | some m => simp only [hh, Option.bind_some] at hk; simp only [hk]; exact ⟨_, rfl⟩
  · intro s id idx hn
    simp only [RotKeySet.del, hn]

/-- Non-vacuity of C05. -/
example : Current (K := String × ℕ × ℕ) (fun k => (k.1, k.2.1))
      [.add ("a", 1, 7), .del ("a", 2), .add ("a", 2, 8)] ("a", 1) ("a", 1, 7) := by
  refine ⟨[], [.del ("a", 2), .add ("a", 2, 8)], rfl, rfl, ?_⟩
  simp [Op.touches]

/-- **C06.** After any history, every id that has a relinearization key has an entry in every scratch pool of
the set; the BFV ring-R pools also hold the reserved entry "0". -/
theorem pools_cover_keys (h : List (Op K String)) (fresh : W) (z : R) (id : String) :
    (id ∈ (runRlk idOf fresh h).value →
      id ∈ (runRlk idOf fresh h).pool0 ∧ id ∈ (runRlk idOf fresh h).pool1) ∧
    (id ∈ (runBfvRlk idOf z fresh h).value →
      (id ∈ (runBfvRlk idOf z fresh h).hoist10 ∧ id ∈ (runBfvRlk idOf z fresh h).hoist11 ∧
       id ∈ (runBfvRlk idOf z fresh h).hoist20 ∧ id ∈ (runBfvRlk idOf z fresh h).hoist21 ∧
       id ∈ (runBfvRlk idOf z fresh h).polyR1 ∧ id ∈ (runBfvRlk idOf z fresh h).polyR2)) ∧
    ("0" ∈ (runBfvRlk idOf z fresh h).polyR1 ∧ "0" ∈ (runBfvRlk idOf z fresh h).polyR2) := by
  induction h using List.reverseRecOn with
  | nil =>
    simp only [runRlk, runBfvRlk, RlkSet.new, BfvRlkSet.new, List.foldl_nil, AList.mem_insert, true_or,
      and_self, and_true]
    simp
  | append_singleton h op ih =>
    obtain ⟨ih1, ih2, ih3, ih4⟩ := ih
    unfold runRlk runBfvRlk at *
    rw [List.foldl_append, List.foldl_append]
    cases op with
    | add k =>
      simp only [List.foldl_cons, List.foldl_nil, RlkSet.add, BfvRlkSet.add, AList.mem_insert]
      refine ⟨?_, ?_, Or.inr ih3, Or.inr ih4⟩
      · rintro (h' | h')
        · exact ⟨Or.inl h', Or.inl h'⟩
        · exact ⟨Or.inr (ih1 h').1, Or.inr (ih1 h').2⟩
      · rintro (h' | h')
        · exact ⟨Or.inl h', Or.inl h', Or.inl h', Or.inl h', Or.inl h', Or.inl h'⟩
        · obtain ⟨a, b, c, d, e, f⟩ := ih2 h'
          exact ⟨Or.inr a, Or.inr b, Or.inr c, Or.inr d, Or.inr e, Or.inr f⟩
    | del a =>
      simp only [List.foldl_cons, List.foldl_nil, RlkSet.del, BfvRlkSet.del, AList.mem_erase]
      exact ⟨fun h' => ih1 h'.2, fun h' => ih2 h'.2, ih3, ih4⟩

/-- Non-vacuity of C06: a set with a key after an add/delete/add history. -/
example : "a" ∈ (runRlk (K := String × ℕ) (W := ℕ) Prod.fst 0 [.add ("a", 1), .del "a", .add ("a", 2)]).value := by
  decide

end
end MKHE.C04
