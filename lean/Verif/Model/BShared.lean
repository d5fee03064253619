import Mathlib.Logic.Relation
import Verif.Model.BfvMul

set_option autoImplicit false

/-!
# Goroutines multiplying with one BFV relinearization key set

The BFV `MulRelinNew` keeps the converted operands in `rlkSet.PolyRPool1`, `rlkSet.PolyRPool2`, under the identifiers of the parties and under
"0", and the digits in `rlkSet.HoistPool1`, `rlkSet.HoistPool2` (mkbfv/evaluator.go:118-150). This file splits a call into its accesses to this
memory, and lets any number of goroutines take them in any order.

Simplifications. One step converts or decomposes one component into its entry of the pools (evaluator.go:126-127, 131-132, 139, 143). Such a step is
not atomic in the program, so that while it is under way the entry may hold anything: `BTorn`. The multiplication that reads the pools
(evaluator.go:146-149) is one step; `C78.stable` shows that in the situation where the calls are proved right nothing it reads changes until it
has returned. The allocation of the result (evaluator.go:85) is part of that step. Memory is sequentially consistent. Evaluators, operands and
results belong to one goroutine each.
-/

namespace MKHE

variable {N : ℕ} [NeZero N]

/-- how far a call of `MulRelinNew` has come; the lists hold the identifiers whose component is still to be processed (evaluator.go:118-150) -/
inductive BStage (B : BCtx N) where
  | start
  | up0 (todo : List String)
  | up1 (todo : List String)
  | hoist0 (todo : List String)
  | hoist1 (todo : List String)
  | ready
  | done (out : Ct B.C)

/-- a goroutine that calls `MulRelinNew(op0, op1, rlkSet)` (evaluator.go:84-88): `set` numbers the key set object, `S` is the scratch memory of its
own evaluator, `o` its map orders -/
structure BTask (B : BCtx N) where
  set : ℕ
  o : Sched String
  op0 : Ct B.C
  op1 : Ct B.C
  S : BScratch B
  stage : BStage B

variable {B : BCtx N}

/-- the entries of a pool that a converted operand points to (evaluator.go:120-123, 126, 131), as they are at the moment -/
def readR (o : Order String) (pool : GoMap String (PolyR N)) (ct : Ct B.C) : Go (CtR N) :=
  Go.loop (fun (r : CtR N) id => do
    let x ← pool.deref id
    .ok (r.insert id x)) ∅ (GoMap.range o ct)

/-- the next access of a call to the key set (evaluator.go:84-88, 118-150); a call that has returned takes no more steps -/
def BTask.step (crs : GoMap ℤ (Swk B.C)) (t : BTask B) (m : BRlkMap B) : Go (BTask B × BRlkMap B) :=
  match t.stage with
  | .start => .ok ({ t with stage := .up0 (GoMap.range (t.o 120) t.op0) }, m)
  | .up0 (id :: todo) => do
    let a ← t.op0.deref id
    let _ ← m.polyR1.deref id
    let x ← modUpQtoR B t.S.conv a
    .ok ({ t with stage := .up0 todo }, { m with polyR1 := m.polyR1.insert id x })
  | .up0 [] => .ok ({ t with stage := .up1 (GoMap.range (t.o 121) t.op1) }, m)
  | .up1 (id :: todo) => do
    let a ← t.op1.deref id
    let _ ← m.polyR2.deref id
    let x ← rescaleR B t.S.conv t.S.conv a
    .ok ({ t with stage := .up1 todo }, { m with polyR2 := m.polyR2.insert id x })
  | .up1 [] => do
    let ids ← IDSet.ofCiphertext (t.o 122) t.op0
    .ok ({ t with stage := .hoist0 (GoMap.range (t.o 124) ids.value) }, m)
  | .hoist0 (id :: todo) => do
    let level ← t.op0.level
    let a ← m.polyR1.deref id
    let h1 ← m.hoist10.deref id
    let h2 ← m.hoist20.deref id
    let w ← decomposeBFV t.S level a h1 h2
    .ok ({ t with stage := .hoist0 todo }, { m with hoist10 := m.hoist10.insert id w.1, hoist20 := m.hoist20.insert id w.2 })
  | .hoist0 [] => do
    let ids ← IDSet.ofCiphertext (t.o 123) t.op1
    .ok ({ t with stage := .hoist1 (GoMap.range (t.o 125) ids.value) }, m)
  | .hoist1 (id :: todo) => do
    let level ← t.op1.level
    let a ← m.polyR2.deref id
    let h1 ← m.hoist11.deref id
    let h2 ← m.hoist21.deref id
    let w ← decomposeBFV t.S level a h1 h2
    .ok ({ t with stage := .hoist1 todo }, { m with hoist11 := m.hoist11.insert id w.1, hoist21 := m.hoist21.insert id w.2 })
  | .hoist1 [] => .ok ({ t with stage := .ready }, m)
  | .ready => do
    let out ← bfvNewBinary t.o t.op0 t.op1
    let ct0R ← readR (t.o 120) m.polyR1 t.op0
    let ct1R ← readR (t.o 121) m.polyR2 t.op1
    let r ← mulAndRelinBFVHoisted crs t.o t.S ct0R ct1R (some (m.hoist10, m.hoist20)) (some (m.hoist11, m.hoist21)) m.value out
    .ok ({ t with stage := .done r.1, S := r.2 }, m)
  | .done _ => .error (.panic "the call has returned")

/-- a key set in the middle of a write to an entry (evaluator.go:127, 132, 139, 143): a conversion writes a polynomial, a decomposition the digits
in an entry of both hoisting pools -/
inductive BTorn : BStage B → BRlkMap B → BRlkMap B → Prop
  | up0 {id : String} {todo : List String} {m : BRlkMap B} (x : PolyR N) (h : id ∈ m.polyR1) :
    BTorn (.up0 (id :: todo)) m { m with polyR1 := m.polyR1.insert id x }
  | up1 {id : String} {todo : List String} {m : BRlkMap B} (x : PolyR N) (h : id ∈ m.polyR2) :
    BTorn (.up1 (id :: todo)) m { m with polyR2 := m.polyR2.insert id x }
  | hoist0 {id : String} {todo : List String} {m : BRlkMap B} {s1 s2 : Swk B.C} (s1' s2' : Swk B.C) (h1 : m.hoist10.lookup id = some s1)
      (h2 : m.hoist20.lookup id = some s2) (l1 : s1'.len = s1.len) (l2 : s2'.len = s2.len) :
    BTorn (.hoist0 (id :: todo)) m { m with hoist10 := m.hoist10.insert id s1', hoist20 := m.hoist20.insert id s2' }
  | hoist1 {id : String} {todo : List String} {m : BRlkMap B} {s1 s2 : Swk B.C} (s1' s2' : Swk B.C) (h1 : m.hoist11.lookup id = some s1)
      (h2 : m.hoist21.lookup id = some s2) (l1 : s1'.len = s1.len) (l2 : s2'.len = s2.len) :
    BTorn (.hoist1 (id :: todo)) m { m with hoist11 := m.hoist11.insert id s1', hoist21 := m.hoist21.insert id s2' }

/-- the goroutines and the key set objects -/
structure BWorld (ι : Type) (B : BCtx N) where
  task : ι → BTask B
  sets : ℕ → BRlkMap B

variable {ι : Type} [DecidableEq ι]

/-- the world after goroutine `k` has become `t` and its key set has become `m` -/
def BWorld.put (w : BWorld ι B) (k : ι) (t : BTask B) (m : BRlkMap B) : BWorld ι B :=
  ⟨Function.update w.task k t, Function.update w.sets (w.task k).set m⟩

/-- what the scheduler can let happen next: some goroutine takes its next step, or it is seen in the middle of writing an entry of a pool
(evaluator.go:118-150) -/
inductive BTrans (crs : GoMap ℤ (Swk B.C)) : BWorld ι B → BWorld ι B → Prop
  | act {w : BWorld ι B} (k : ι) {t : BTask B} {m : BRlkMap B} (h : (w.task k).step crs (w.sets (w.task k).set) = .ok (t, m)) :
    BTrans crs w (w.put k t m)
  | torn {w : BWorld ι B} (k : ι) {m : BRlkMap B} (h : BTorn (w.task k).stage (w.sets (w.task k).set) m) :
    BTrans crs w (w.put k (w.task k) m)

/-- the worlds that can be reached, whatever the scheduler does (evaluator.go:118-150) -/
def BReach (crs : GoMap ℤ (Swk B.C)) : BWorld ι B → BWorld ι B → Prop := Relation.ReflTransGen (BTrans crs)

end MKHE
