import Verif.Model.BasisExt

set_option autoImplicit false

/-!
# Goroutines that share a memory of words

The memory is a map from addresses (polynomial, row, coefficient) to words. A goroutine is a program that reads and writes single words; between any
two accesses any other goroutine may run (`Cfg.step`, `Cfg.exec`). The functions of `FastBasisExtender` are given as such programs, in the order in which the
Go code accesses memory. The tables of an extender, its rings and the local variables of a call are not written after they were made (resp. not
shared) and are values here. Polynomials have as many rows as the call needs (a shorter one is an index out of range in Go).
-/

namespace MKHE
namespace Conc

/-- a word of memory: `p.Coeffs[row][coef]` of the polynomial number `poly` -/
structure Addr where
  poly : ℕ
  row : ℕ
  coef : ℕ
  deriving DecidableEq

/-- the words of all polynomials -/
abbrev Mem := Addr → ℕ

/-- a goroutine: the next access to the memory and what follows -/
inductive Prog (α : Type) where
  | ret (x : α)
  | fault (e : Fault)
  | rd (a : Addr) (k : ℕ → Prog α)
  | wr (a : Addr) (v : ℕ) (k : Prog α)

namespace Prog

/-- sequential composition -/
def bind {α β : Type} : Prog α → (α → Prog β) → Prog β
  | ret x, f => f x
  | fault e, _ => fault e
  | rd a k, f => rd a fun v => (k v).bind f
  | wr a v k, f => wr a v (k.bind f)

instance : Monad Prog where
  pure := ret
  bind := bind

/-- a computation on local variables -/
def lift {α : Type} : Go α → Prog α
  | .ok x => ret x
  | .error e => fault e

/-- `for _, a := range l { f(a) }` -/
def each {α : Type} (f : α → Prog Unit) : List α → Prog Unit
  | [] => ret ()
  | a :: l => (f a).bind fun _ => each f l

/-- read these words, in this order -/
def rdAll : List Addr → (Addr → ℕ) → Prog (Addr → ℕ)
  | [], acc => ret acc
  | a :: l, acc => rd a fun v => rdAll l (Function.update acc a v)

/-- the goroutine running alone -/
def run {α : Type} : Prog α → Mem → Go (α × Mem)
  | ret x, m => .ok (x, m)
  | fault e, _ => .error e
  | rd a k, m => run (k (m a)) m
  | wr a v k, m => run k (Function.update m a v)

/-- one access to memory; nothing for a goroutine that has ended -/
def solo (s : Mem × Prog Unit) : Mem × Prog Unit :=
  match s.2 with
  | ret _ => s
  | fault _ => s
  | rd a k => (s.1, k (s.1 a))
  | wr a v k => (Function.update s.1 a v, k)

/-- has returned -/
def Returned (p : Prog Unit) : Prop := p = ret ()

end Prog

/-- the shared memory and the goroutines -/
structure Cfg (ι : Type) where
  mem : Mem
  thr : ι → Prog Unit

/-- goroutine `i` makes one access -/
def Cfg.step {ι : Type} [DecidableEq ι] (c : Cfg ι) (i : ι) : Cfg ι :=
  ⟨(Prog.solo (c.mem, c.thr i)).1, Function.update c.thr i (Prog.solo (c.mem, c.thr i)).2⟩

/-- a schedule: which goroutine makes the next access -/
def Cfg.exec {ι : Type} [DecidableEq ι] (c : Cfg ι) (sched : List ι) : Cfg ι := sched.foldl Cfg.step c

open Prog

/-- the eight lanes of a block (the arrays `[8]uint64`), with values computed by `f` -/
def lanes (f : ℕ → Go ℕ) : Go (ℕ → ℕ) := Go.fill f (fun _ => 0) (List.range 8)

/-- write the eight lanes of row `j` from coefficient `x` on -/
def wrLanes (p j x : ℕ) (w : ℕ → ℕ) : Prog Unit := each (fun l => .wr ⟨p, j, x + l⟩ (w l) (.ret ())) (List.range 8)

/-- the addresses `reconstructRNS` reads (basis_extension.go:543-558): for each of the `n` rows the eight coefficients from `x` on -/
def blockAddrs (p n x : ℕ) : List Addr := (List.range n).flatMap fun i => (List.range 8).map fun l => ⟨p, i, x + l⟩

/-- `multSum` of lane `l` for output row `j` (basis_extension.go:354, 582-646), from the words `w` read by `reconstructRNS` -/
def upWord (fm : FloatModel) (n : ℕ) (Q P : ℕ → ℕ) (pr : ModUpParams) (w : ℕ → ℕ) (j : ℕ) : Go ℕ :=
  Go.andThen (reconstructRNS fm n w Q pr.qoverqiinvqi) fun (y, v) =>
    Go.andThen (Go.idx pr.vtimesqmodp j) fun vt => Go.andThen (Go.idx pr.qoverqimodp j) fun qo =>
      multSum y v n (P j) (mredParams (P j)) vt qo

/-- the body of the loop of `modUpExact` (basis_extension.go:351-356): read the block, then write the block of every output row -/
def upBlock (fm : FloatModel) (n : ℕ) (Q : ℕ → ℕ) (m : ℕ) (P : ℕ → ℕ) (pr : ModUpParams) (src dst x : ℕ) : Prog Unit := do
  let w ← rdAll (blockAddrs src n x) (fun _ => 0)
  let _ ← lift (lanes fun l => Go.andThen (reconstructRNS fm n (fun i => w ⟨src, i, x + l⟩) Q pr.qoverqiinvqi) fun _ => .ok 0)
  each (fun j => do
    let z ← lift (lanes fun l => upWord fm n Q P pr (fun i => w ⟨src, i, x + l⟩) j)
    wrLanes dst j x z) (List.range m)

/-- `modUpExact(p1, p2, ringQ, ringP, params)` (basis_extension.go:337-357) for `n` rows of `src`, `m` rows of `dst` and ring degree `N` -/
def upProg (N : ℕ) (fm : FloatModel) (n : ℕ) (Q : ℕ → ℕ) (m : ℕ) (P : ℕ → ℕ) (pr : ModUpParams) (src dst : ℕ) : Prog Unit :=
  each (fun b => upBlock fm n Q m P pr src dst (8 * b)) (List.range (N / 8))

/-- one coefficient of the final loop of `ModDownQPtoQ` (basis_extension.go:216-229): `z[l] = MRed(y[l]+twoqi-x[l], ..)` -/
def downWord (q param p1 pool p2 i x : ℕ) : Prog Unit :=
  .rd ⟨pool, i, x⟩ fun y => .rd ⟨p1, i, x⟩ fun v => .wr ⟨p2, i, x⟩ (modDownStep q v y param) (.ret ())

/-- one row of the final loop of `ModDownQPtoQ` and `ModDownQPtoP` (basis_extension.go:203-229, 305-331); `k` is the first index into the table -/
def downRow (N : ℕ) (Q : ℕ → ℕ) (tab : List (List ℕ)) (k p1 pool p2 i : ℕ) : Prog Unit := do
  let param ← lift (Go.andThen (Go.idx tab k) fun row => Go.idx row i)
  each (fun x => downWord (Q i) param p1 pool p2 i x) (List.range N)

/-- `FastBasisExtender` (basis_extension.go:12-22): the rings, the tables, and the pointers to the two pools -/
structure Ext where
  nQ : ℕ
  Q : ℕ → ℕ
  nP : ℕ
  P : ℕ → ℕ
  paramsQtoP : List ModUpParams
  paramsPtoQ : List ModUpParams
  modDownPtoQ : List (List ℕ)
  modDownQtoP : List (List ℕ)
  poolQ : ℕ
  poolP : ℕ

/-- `NewFastBasisExtender(ringQ, ringP)` (basis_extension.go:57-81); the pools are the new polynomials number `k` and `k + 1` -/
def newExt (nQ : ℕ) (Q : ℕ → ℕ) (nP : ℕ) (P : ℕ → ℕ) (k : ℕ) : Ext where
  nQ := nQ
  Q := Q
  nP := nP
  P := P
  paramsQtoP := (List.range nQ).map fun i => basisExtParams (i + 1) Q nP P
  paramsPtoQ := (List.range nP).map fun i => basisExtParams (i + 1) P nQ Q
  modDownPtoQ := modDownTable nQ Q nP P
  modDownQtoP := modDownTable nP P nQ Q
  poolQ := k
  poolP := k + 1

/-- `ShallowCopy()` (basis_extension.go:157-172); `ringQ.NewPoly()` and `ringP.NewPoly()` return the new polynomials number `k` and `k + 1` -/
def Ext.shallowCopy (e : Ext) (k : ℕ) : Ext where
  nQ := e.nQ
  Q := e.Q
  nP := e.nP
  P := e.P
  paramsQtoP := e.paramsQtoP
  paramsPtoQ := e.paramsPtoQ
  modDownPtoQ := e.modDownPtoQ
  modDownQtoP := e.modDownQtoP
  poolQ := k
  poolP := k + 1

/-- a program makes one extender and then copies: entry `i` of the list says which of the extenders made so far is copied; the polynomials numbered from `k` on
are new -/
def makeCopies (e : Ext) (k : ℕ) : List ℕ → List Ext
  | l => (l.foldl (fun (s : List Ext × ℕ) i => (s.1 ++ [(s.1.getD i e).shallowCopy s.2], s.2 + 2)) ([e], k)).1

/-- `ModUpQtoP(levelQ, levelP, polQ, polP)` (basis_extension.go:177-179) -/
def Ext.modUpQtoP (e : Ext) (N : ℕ) (fm : FloatModel) (levelQ levelP polQ polP : ℕ) : Prog Unit := do
  let pr ← lift (Go.idx e.paramsQtoP levelQ)
  upProg N fm (levelQ + 1) e.Q (levelP + 1) e.P pr polQ polP

/-- `ModUpPtoQ(levelP, levelQ, polP, polQ)` (basis_extension.go:184-186) -/
def Ext.modUpPtoQ (e : Ext) (N : ℕ) (fm : FloatModel) (levelP levelQ polP polQ : ℕ) : Prog Unit := do
  let pr ← lift (Go.idx e.paramsPtoQ levelP)
  upProg N fm (levelP + 1) e.P (levelQ + 1) e.Q pr polP polQ

/-- `ModDownQPtoQ(levelQ, levelP, p1Q, p1P, p2Q)` (basis_extension.go:192-232) -/
def Ext.modDownQPtoQ (e : Ext) (N : ℕ) (fm : FloatModel) (levelQ levelP p1Q p1P p2Q : ℕ) : Prog Unit := do
  e.modUpPtoQ N fm levelP levelQ p1P e.poolQ
  each (downRow N e.Q e.modDownPtoQ levelP p1Q e.poolQ p2Q) (List.range (levelQ + 1))

/-- `ModDownQPtoP(levelQ, levelP, p1Q, p1P, p2P)` (basis_extension.go:294-334) -/
def Ext.modDownQPtoP (e : Ext) (N : ℕ) (fm : FloatModel) (levelQ levelP p1Q p1P p2P : ℕ) : Prog Unit := do
  e.modUpQtoP N fm levelQ levelP p1Q e.poolP
  each (downRow N e.P e.modDownQtoP levelP p1P e.poolP p2P) (List.range (levelP + 1))

/-- a call of a function of an extender -/
inductive Call where
  | modUpQtoP (levelQ levelP polQ polP : ℕ)
  | modUpPtoQ (levelP levelQ polP polQ : ℕ)
  | modDownQPtoQ (levelQ levelP p1Q p1P p2Q : ℕ)
  | modDownQPtoP (levelQ levelP p1Q p1P p2P : ℕ)

/-- the program of a call -/
def Ext.call (e : Ext) (N : ℕ) (fm : FloatModel) : Call → Prog Unit
  | .modUpQtoP lQ lP a b => e.modUpQtoP N fm lQ lP a b
  | .modUpPtoQ lP lQ a b => e.modUpPtoQ N fm lP lQ a b
  | .modDownQPtoQ lQ lP a b c => e.modDownQPtoQ N fm lQ lP a b c
  | .modDownQPtoP lQ lP a b c => e.modDownQPtoP N fm lQ lP a b c

/-- a goroutine that makes these calls on the extender, one after the other -/
def Ext.calls (e : Ext) (N : ℕ) (fm : FloatModel) (l : List Call) : Prog Unit := each (e.call N fm) l

end Conc
end MKHE
