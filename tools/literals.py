#!/usr/bin/env python3
"""Generates lean/Verif/Spec/Literals.lean and lean/Verif/Props/Literals.lean: the parameter literals of the repository's tests and the proof that they are good."""
P60 = [0xffffffffffc0001, 0xfffffffff840001]
L = [
 ('bfv15','mkbfv PN15QP880','mkbfv_test.go:28-75',15,[0x3fffffffd60001,0x3fffffff6d0001,0x3fffffff550001,0x3fffffff360001,0x3fffffff000001,0x3ffffffef40001,0x3ffffffed30001,0x3ffffffe970001,0x3ffffffe800001,0x3ffffffe410001,0x7fffffffe90001,0x7fffffffbd0001,0x7fffffffaa0001,0x7fffffff9f0001],P60,
   [0x3fffffffca0001,0x3fffffff5d0001,0x3fffffff390001,0x3fffffff2a0001,0x3ffffffefa0001,0x3ffffffed70001,0x3ffffffeaa0001,0x3ffffffe920001,0x3ffffffe790001,0x3ffffffe320001,0x7fffffffbf0001,0x7fffffffba0001,0x7fffffffa50001,0x7fffffff7e0001]),
 ('bfv14','mkbfv PN14QP439','mkbfv_test.go:77-105',14,[0x1fffffffe30001,0x1fffffffd10001,0x1fffffffbf0001,0x1fffffffb60001,0x1fffffff920001,0x3fffffffd60001],P60,
   [0x1fffffffd80001,0x1fffffffc50001,0x1fffffffb90001,0x1fffffffa50001,0x1fffffff900001,0x3fffffffca0001]),
 ('ckks15','mkckks PN15QP880','mkckks_test.go:51-72',15,[0xfffffffff6a0001,0x3fffffffd60001,0x3fffffffca0001,0x3fffffff6d0001,0x3fffffff5d0001,0x3fffffff550001,0x3fffffff390001,0x3fffffff360001,0x3fffffff2a0001,0x3fffffff000001,0x3ffffffefa0001,0x3ffffffef40001,0x3ffffffed70001,0x3ffffffed30001],[0x7ffffffffe70001,0x7ffffffffe10001],None),
 ('ckks14','mkckks PN14QP439','mkckks_test.go:73-91',14,[0x7ffffffffe70001,0xffffffff00001,0xfffffffe40001,0xfffffffe20001,0xfffffffbe0001,0xfffffffa60001],P60,None),
 ('rlwe16','mkrlwe PN16QP1761','mkrlwe_test.go:22-35',16,[0x80000000080001,0x2000000a0001,0x2000000e0001,0x1fffffc20001,0x200000440001,0x200000500001,0x200000620001,0x1fffff980001,0x2000006a0001,0x1fffff7e0001,0x200000860001,0x200000a60001,0x200000aa0001,0x200000b20001,0x200000c80001,0x1fffff360001,0x200000e20001,0x1fffff060001,0x200000fe0001,0x1ffffede0001,0x1ffffeca0001,0x1ffffeb40001,0x200001520001,0x1ffffe760001,0x2000019a0001,0x1ffffe640001,0x200001a00001,0x1ffffe520001,0x200001e80001,0x1ffffe0c0001,0x1ffffdee0001,0x200002480001,0x1ffffdb60001,0x200002560001],[0x80000000440001,0x7fffffffba0001,0x80000000500001,0x7fffffffaa0001],None),
]
def lst(l):
    items=[f"0x{x:x}" for x in l]
    lines=[]
    for i in range(0,len(items),7): lines.append(", ".join(items[i:i+7]))
    return "[" + ",\n    ".join(lines) + "]"
spec=['''import Verif.Model.Literal

set_option autoImplicit false

/-!
# The parameter literals of the repository's tests (generated by tools/literals.py)
-/

namespace MKHE.Lits
''']
props=['''import Verif.Props.Literal
import Verif.Spec.Literals

set_option autoImplicit false

/-!
# C61: the parameter literals of the repository's tests (generated by tools/literals.py)

Each of them satisfies the conditions of `C61.valid` or `C61.bvalid`, and row operations for it exist.
-/

namespace MKHE.C61
open Moduli Lits

theorem ringOk_of {k : ℕ} {l : List ℕ} (h : l.Nodup) (hp : ∀ x ∈ l, x.Prime) (hm : ∀ x ∈ l, x % 2 ^ (k + 1) = 1 % 2 ^ (k + 1)) : ringOk k l :=
  ⟨h, fun x hx => ⟨hp x hx, hm x hx⟩⟩

/-- operations modulo every element of a slice -/
theorem rows_exist {k : ℕ} {l : List ℕ} (hl : l ≠ []) (h : ∀ x ∈ l, Nonempty (LimbOps (2 ^ k) x)) : Nonempty (∀ i, LimbOps (2 ^ k) (nth l i)) :=
  ⟨fun i => Classical.choice (h _ (nth_mem' hl i))⟩
''']
SIMP="simp only [List.forall_mem_cons, List.not_mem_nil, false_imp_iff, implies_true, and_true]"
def allp(nm,l,f):
    return f"by\n  rw [{nm}]\n  {SIMP}\n  exact ⟨" + ", ".join(f(x) for x in l) + "⟩"
for nm,name,src,logN,Q,P,M in L:
    lists=[('Q',Q),('P',P)] + ([('M',M)] if M else [])
    for s,l in lists:
        what={'Q':'primes of Q','P':'special primes','M':'primes of QMul'}[s]
        spec.append(f"/-- {what} of {name} ({src}) -/\ndef {nm}{s} : List ℕ :=\n    {lst(l)}\n")
        props.append(f"theorem {nm}{s}_prime : ∀ x ∈ {nm}{s}, x.Prime := " + allp(f"{nm}{s}",l,lambda x:f"prime_{x:x}") + "\n")
        props.append(f"theorem {nm}{s}_ok : ringOk {logN} {nm}{s} := ringOk_of (by decide) {nm}{s}_prime (by decide)\n")
        props.append(f"theorem {nm}{s}_rows : Nonempty (∀ i, LimbOps (2 ^ {logN}) (nth {nm}{s} i)) := rows_exist (by decide) (" + allp(f"{nm}{s}",l,lambda x:f"rows_{x:x} (by norm_num)") + ")\n")
    if M:
        spec.append(f"/-- {name} ({src}) -/\ndef {nm} : BLit := ⟨⟨{logN}, {nm}Q, {nm}P⟩, {nm}M, 65537⟩\n")
        lit=f"{nm}.toLit"; g=2
    else:
        spec.append(f"/-- {name} ({src}) -/\ndef {nm} : Lit := ⟨{logN}, {nm}Q, {nm}P⟩\n")
        lit=nm; g=2
    gn = f"{nm}_good" if not M else f"{nm}_good_qp"
    props.append(f"/-- the literal {name} is good for `gamma = 2` -/\ntheorem {gn} : Good {lit} 2 where\n  log := by decide\n  Q := {nm}Q_ok\n  P := {nm}P_ok\n  ltQ := by decide\n  ltP := by decide\n  disjoint := by decide\n  ne := by decide\n  gamma := by decide\n  nP := by decide\n")
    if M:
        props.append(f"/-- the literal {name} is good -/\ntheorem {nm}_good : BGood {nm} where\n  qp := {nm}_good_qp\n  len := by decide\n  T := ringOk_of (by decide) (by simp only [List.forall_mem_cons, List.not_mem_nil, false_imp_iff, implies_true, and_true]; exact prime_10001) (by decide)\n  R := ringOk_of (by decide) (fun x hx => (List.mem_append.mp hx).elim ({nm}Q_prime x) ({nm}M_prime x)) (by decide)\n  ltM := by decide\n  disjointM := by decide\n  div := by decide\n  n32 := by decide\n  sumQ := by decide\n  sumM := by decide\n")
        props.append(f"theorem {nm}_rows : Nonempty {nm}.Rows :=\n  let ⟨a⟩ := {nm}Q_rows; let ⟨b⟩ := {nm}M_rows; let ⟨c⟩ := {nm}P_rows; ⟨⟨a, b, c⟩⟩\n")
        props.append(f"/-- **C61 for {name}**: the constructor succeeds and its result is a valid parameter set. -/\ntheorem {nm}_valid (fm : FloatModel) (R : {nm}.Rows) : newBfvParams {nm} fm R = .ok ({nm}.bctx fm R) ∧ ({nm}.bctx fm R).Valid := bvalid {nm}_good fm R\n")
    else:
        props.append(f"/-- **C61 for {name}.** -/\ntheorem {nm}_valid (fm : FloatModel) (rq : ∀ i, LimbOps (2 ^ {nm}.logN) (nth {nm}.Q i)) (rp : ∀ j, LimbOps (2 ^ {nm}.logN) (nth {nm}.P j)) :\n    ({nm}.ctx 2 fm rq rp).Valid := valid {nm}_good fm rq rp\n")
        props.append(f"example : Nonempty (∀ i, LimbOps (2 ^ {nm}.logN) (nth {nm}.Q i)) ∧ Nonempty (∀ j, LimbOps (2 ^ {nm}.logN) (nth {nm}.P j)) := ⟨{nm}Q_rows, {nm}P_rows⟩\n")
spec.append("end MKHE.Lits\n"); props.append("end MKHE.C61\n")
open('/verif/lean/Verif/Spec/Literals.lean','w').write("\n".join(spec))
open('/verif/lean/Verif/Props/Literals.lean','w').write("\n".join(props))
