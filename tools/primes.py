#!/usr/bin/env python3
"""Generates lean/Verif/Base/PrimeList.lean: primality (Lucas) and 2N-th roots of unity for the moduli of the parameter
literals of the repository's tests. Lean checks every certificate; this script is not trusted."""
import math, random
random.seed(1)
def isp(n):
    if n < 2: return False
    for p in (2,3,5,7,11,13,17,19,23,29,31,37):
        if n % p == 0: return n == p
    d, s = n-1, 0
    while d % 2 == 0: d//=2; s+=1
    for a in (2,3,5,7,11,13,17,19,23,29,31,37):
        x = pow(a,d,n)
        if x in (1,n-1): continue
        for _ in range(s-1):
            x = x*x % n
            if x == n-1: break
        else: return False
    return True
def rho(n):
    if n % 2 == 0: return 2
    while True:
        c = random.randrange(1,n); x = y = random.randrange(n); d = 1
        while d == 1:
            x = (x*x+c)%n; y = (y*y+c)%n; y = (y*y+c)%n
            d = math.gcd(abs(x-y),n)
        if d != n: return d
def factor(n):
    if n == 1: return []
    if isp(n): return [n]
    d = rho(n)
    return sorted(factor(d)+factor(n//d))
P60 = [0xffffffffffc0001, 0xfffffffff840001]
sets = {
 'bfv15': (15, [0x3fffffffd60001,0x3fffffff6d0001,0x3fffffff550001,0x3fffffff360001,0x3fffffff000001,0x3ffffffef40001,0x3ffffffed30001,0x3ffffffe970001,0x3ffffffe800001,0x3ffffffe410001,0x7fffffffe90001,0x7fffffffbd0001,0x7fffffffaa0001,0x7fffffff9f0001,
   0x3fffffffca0001,0x3fffffff5d0001,0x3fffffff390001,0x3fffffff2a0001,0x3ffffffefa0001,0x3ffffffed70001,0x3ffffffeaa0001,0x3ffffffe920001,0x3ffffffe790001,0x3ffffffe320001,0x7fffffffbf0001,0x7fffffffba0001,0x7fffffffa50001,0x7fffffff7e0001]+P60),
 'bfv14': (14, [0x1fffffffe30001,0x1fffffffd10001,0x1fffffffbf0001,0x1fffffffb60001,0x1fffffff920001,0x3fffffffd60001,
   0x1fffffffd80001,0x1fffffffc50001,0x1fffffffb90001,0x1fffffffa50001,0x1fffffff900001,0x3fffffffca0001]+P60),
 'ckks15': (15, [0xfffffffff6a0001,0x3fffffffd60001,0x3fffffffca0001,0x3fffffff6d0001,0x3fffffff5d0001,0x3fffffff550001,0x3fffffff390001,0x3fffffff360001,0x3fffffff2a0001,0x3fffffff000001,0x3ffffffefa0001,0x3ffffffef40001,0x3ffffffed70001,0x3ffffffed30001,0x7ffffffffe70001,0x7ffffffffe10001]),
 'ckks14': (14, [0x7ffffffffe70001,0xffffffff00001,0xfffffffe40001,0xfffffffe20001,0xfffffffbe0001,0xfffffffa60001]+P60),
 'rlwe16': (16, [0x80000000080001,0x2000000a0001,0x2000000e0001,0x1fffffc20001,0x200000440001,0x200000500001,0x200000620001,0x1fffff980001,0x2000006a0001,0x1fffff7e0001,0x200000860001,0x200000a60001,0x200000aa0001,0x200000b20001,0x200000c80001,0x1fffff360001,0x200000e20001,0x1fffff060001,0x200000fe0001,0x1ffffede0001,0x1ffffeca0001,0x1ffffeb40001,0x200001520001,0x1ffffe760001,0x2000019a0001,0x1ffffe640001,0x200001a00001,0x1ffffe520001,0x200001e80001,0x1ffffe0c0001,0x1ffffdee0001,0x200002480001,0x1ffffdb60001,0x200002560001,0x80000000440001,0x7fffffffba0001,0x80000000500001,0x7fffffffaa0001]),
 'T': (15, [65537]),
}
logs = {}
for k,(l,ps) in sets.items():
    assert len(set(ps)) == len(ps), k
    for p in ps:
        assert isp(p), hex(p)
        assert p % (2<<l) == 1, (k,hex(p))
        logs[p] = max(l, logs.get(p,0))
done = {}
out = []
SIMP = "by simp only [List.forall_mem_cons, List.not_mem_nil, false_imp_iff, implies_true, and_true]; "
def lucas(p):
    if p in done: return done[p]
    fs = factor(p-1)
    e = sum(1 for f in fs if f == 2); odd = [f for f in fs if f != 2]
    big = {f: lucas(f) for f in odd if f > 2**24}
    g = 2
    while any(pow(g,(p-1)//f,p) == 1 for f in set(fs)): g += 1
    nm = f"prime_{p:x}"
    terms = [big.get(f, "by norm_num") for f in odd]
    pr = "(by simp)" if not odd else "(" + SIMP + ("exact " + (terms[0] if len(terms) == 1 else "⟨" + ", ".join(terms) + "⟩")) + ")"
    if len(terms)==1 and terms[0]=="by norm_num": pr = "(" + SIMP + "norm_num)"
    out.append(f"theorem {nm} : ({p} : ℕ).Prime :=\n  prime_of_lucas {g} {e} {odd} (by norm_num) (by norm_num) (by decide +kernel) (by norm_num) (by decide +kernel)\n    {pr} (by decide +kernel)\n")
    done[p] = nm
    return nm
for p in sorted(logs):
    lucas(p)
    l = logs[p]
    g = 2
    while pow(g,(p-1)//2,p) == 1: g += 1
    z = pow(g,(p-1)//(2<<l),p)
    assert pow(z,1<<l,p) == p-1
    out.append(f"theorem rows_{p:x} {{k : ℕ}} (hk : k ≤ {l}) : Nonempty (LimbOps (2 ^ k) {p}) :=\n  rows_of_root (z := {z}) prime_{p:x} (by decide) (by norm_num) (by norm_num) hk (by decide +kernel)\n")
with open('/verif/lean/Verif/Base/PrimeList.lean','w') as f:
    f.write('''import Verif.Base.Rows

set_option autoImplicit false

/-!
# The moduli of the parameter literals of the repository's tests (generated by tools/primes.py)

mkbfv_test.go:28-105, mkckks_test.go:50-92, mkrlwe_test.go:22-35: primality by Lucas' test, and a `2N`-th root of unity for each.
-/

namespace MKHE.Moduli
open PN14

''')
    f.write("\n".join(out))
    f.write("\nend MKHE.Moduli\n")
print(len(logs), len(done))
