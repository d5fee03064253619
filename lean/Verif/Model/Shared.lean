import Mathlib.Logic.Relation
import Verif.Model.Ckks

set_option autoImplicit false

/-!
# Goroutines multiplying with one relinearization key set

`MulRelinNew` keeps the digits of its operands in the key set it is given (`rlkSet.HoistPool`, mkckks/evaluator.go:416-443), and reads
them back while it multiplies. Several goroutines that own an evaluator each but share a key set therefore share that memory. This file
splits a call into its accesses to the shared memory, and lets any number of goroutines take them in any order.

Simplifications. One step decomposes one component into one entry of a pool (evaluator.go:421-423, 431-437). Such a step is not atomic in the
program, so that while it is under way the entry may hold anything: `Trans.torn0`, `Trans.torn1`. The multiplication that reads the
pools (evaluator.go:425, 439) is one step; `C77.stable` shows that in the situations where the calls are proved right the entries
it reads do not change until it has returned, so that reading them at several moments would make no difference. Memory is sequentially
consistent. Evaluators, operands and results belong to one goroutine each.
-/

namespace MKHE

variable {N : ℕ} [NeZero N]

/-- how far a call of `MulRelinNew` or `MulRelinHoistedNew` has come; the lists hold the parties whose component is still to be decomposed
(evaluator.go:416-443) -/
inductive Stage (C : Ctx N) where
  | start
  | hoist0 (todo : List String)
  | hoist1 (todo : List String)
  | ready
  | done (out : CCt C)

/-- a goroutine that calls `MulRelinNew(op0, op1, rlkSet)` (evaluator.go:416-443), or `MulRelinHoistedNew` (evaluator.go:558-564) with hoisted
operands it was given: `set` numbers the key set object, `same` is the test `op0 == op1`, `E` is its own evaluator, `o` its map orders -/
structure Task (C : Ctx N) where
  set : ℕ
  o : Sched String
  same : Bool
  op0 : CCt C
  op1 : CCt C
  pre : Option (HoistedCt C × HoistedCt C)
  E : Eval C
  stage : Stage C

variable {C : Ctx N}

/-- the body of the loops of `MulRelinNew`: `Decompose(op.Level(), op.Value[id], pool.Value[id])` (evaluator.go:422, 432, 436) -/
def hoistOne (op : Ct C) (st : HoistedCt C × Scratch C) (id : String) : Go (HoistedCt C × Scratch C) := do
  let level ← op.level
  let a ← op.deref id
  let ad ← st.1.deref id
  let w ← decompose st.2 level a ad
  .ok (st.1.insert id w.1, w.2)

/-- the next access of a call to the key set (evaluator.go:416-443); a call that has returned takes no more steps -/
noncomputable def Task.step (pscale : ℚ) (crs : GoMap ℤ (Swk C)) (t : Task C) (rlk : RlkMap C) : Go (Task C × RlkMap C) :=
  match t.stage with
  | .start =>
    match t.pre with
    | some _ => .ok ({ t with stage := .ready }, rlk)
    | none => do
      let ids ← IDSet.ofCiphertext (t.o 92) t.op0.ct
      .ok ({ t with stage := .hoist0 (GoMap.range (t.o 93) ids.value) }, rlk)
  | .hoist0 (id :: todo) => do
    let w ← hoistOne t.op0.ct (rlk.pool0, t.E.ksw) id
    .ok ({ t with stage := .hoist0 todo, E := { t.E with ksw := w.2 } }, { rlk with pool0 := w.1 })
  | .hoist0 [] =>
    if t.same then .ok ({ t with stage := .ready }, rlk)
    else do
      let ids ← IDSet.ofCiphertext (t.o 94) t.op1.ct
      .ok ({ t with stage := .hoist1 (GoMap.range (t.o 95) ids.value) }, rlk)
  | .hoist1 (id :: todo) => do
    let w ← hoistOne t.op1.ct (rlk.pool1, t.E.ksw) id
    .ok ({ t with stage := .hoist1 todo, E := { t.E with ksw := w.2 } }, { rlk with pool1 := w.1 })
  | .hoist1 [] => .ok ({ t with stage := .ready }, rlk)
  | .ready => do
    let h0 := match t.pre with
      | some h => h.1
      | none => rlk.pool0
    let h1 := match t.pre with
      | some h => h.2
      | none => if t.same then rlk.pool0 else rlk.pool1
    let r ← ckksMulRelinHoistedNew pscale crs t.o t.E t.op0 t.op1 (some h0) (some h1) rlk
    .ok ({ t with stage := .done r.1, E := r.2 }, rlk)
  | .done _ => .error (.panic "the call has returned")

/-- the same call when nobody else uses the key set (evaluator.go:416-443, 558-564) -/
noncomputable def Task.alone (pscale : ℚ) (crs : GoMap ℤ (Swk C)) (t : Task C) (rlk : RlkMap C) : Go (CCt C) :=
  match t.pre with
  | none => (ckksMulRelinNew pscale crs t.o t.E t.same t.op0 t.op1 rlk).map fun r => r.1
  | some h => (ckksMulRelinHoistedNew pscale crs t.o t.E t.op0 t.op1 (some h.1) (some h.2) rlk).map fun r => r.1

/-- the goroutines and the key set objects -/
structure World (ι : Type) (C : Ctx N) where
  task : ι → Task C
  sets : ℕ → RlkMap C

variable {ι : Type} [DecidableEq ι]

/-- the world after goroutine `k` has become `t` and its key set has become `rlk` -/
def World.put (w : World ι C) (k : ι) (t : Task C) (rlk : RlkMap C) : World ι C :=
  ⟨Function.update w.task k t, Function.update w.sets (w.task k).set rlk⟩

/-- what the scheduler can let happen next: some goroutine takes its next step, or it is seen in the middle of writing an entry of a pool
(evaluator.go:421-423, 431-437) -/
inductive Trans (pscale : ℚ) (crs : GoMap ℤ (Swk C)) : World ι C → World ι C → Prop
  | act {w : World ι C} (k : ι) {t : Task C} {rlk : RlkMap C} (h : (w.task k).step pscale crs (w.sets (w.task k).set) = .ok (t, rlk)) :
    Trans pscale crs w (w.put k t rlk)
  | torn0 {w : World ι C} (k : ι) {id : String} {todo : List String} (h : (w.task k).stage = .hoist0 (id :: todo)) {s s' : Swk C}
      (hs : (w.sets (w.task k).set).pool0.lookup id = some s) (hl : s'.len = s.len) :
    Trans pscale crs w (w.put k (w.task k) { w.sets (w.task k).set with pool0 := (w.sets (w.task k).set).pool0.insert id s' })
  | torn1 {w : World ι C} (k : ι) {id : String} {todo : List String} (h : (w.task k).stage = .hoist1 (id :: todo)) {s s' : Swk C}
      (hs : (w.sets (w.task k).set).pool1.lookup id = some s) (hl : s'.len = s.len) :
    Trans pscale crs w (w.put k (w.task k) { w.sets (w.task k).set with pool1 := (w.sets (w.task k).set).pool1.insert id s' })

/-- the worlds that can be reached, whatever the scheduler does (evaluator.go:416-443) -/
def Reach (pscale : ℚ) (crs : GoMap ℤ (Swk C)) : World ι C → World ι C → Prop := Relation.ReflTransGen (Trans pscale crs)

end MKHE
