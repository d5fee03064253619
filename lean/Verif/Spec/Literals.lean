import Verif.Model.Literal

set_option autoImplicit false

/-!
# The parameter literals of the repository's tests (generated by tools/literals.py)
-/

namespace MKHE.Lits

/-- primes of Q of mkbfv PN15QP880 (mkbfv_test.go:28-75) -/
def bfv15Q : List ℕ :=
    [0x3fffffffd60001, 0x3fffffff6d0001, 0x3fffffff550001, 0x3fffffff360001, 0x3fffffff000001, 0x3ffffffef40001, 0x3ffffffed30001,
    0x3ffffffe970001, 0x3ffffffe800001, 0x3ffffffe410001, 0x7fffffffe90001, 0x7fffffffbd0001, 0x7fffffffaa0001, 0x7fffffff9f0001]

/-- special primes of mkbfv PN15QP880 (mkbfv_test.go:28-75) -/
def bfv15P : List ℕ :=
    [0xffffffffffc0001, 0xfffffffff840001]

/-- primes of QMul of mkbfv PN15QP880 (mkbfv_test.go:28-75) -/
def bfv15M : List ℕ :=
    [0x3fffffffca0001, 0x3fffffff5d0001, 0x3fffffff390001, 0x3fffffff2a0001, 0x3ffffffefa0001, 0x3ffffffed70001, 0x3ffffffeaa0001,
    0x3ffffffe920001, 0x3ffffffe790001, 0x3ffffffe320001, 0x7fffffffbf0001, 0x7fffffffba0001, 0x7fffffffa50001, 0x7fffffff7e0001]

/-- mkbfv PN15QP880 (mkbfv_test.go:28-75) -/
def bfv15 : BLit := ⟨⟨15, bfv15Q, bfv15P⟩, bfv15M, 65537⟩

/-- primes of Q of mkbfv PN14QP439 (mkbfv_test.go:77-105) -/
def bfv14Q : List ℕ :=
    [0x1fffffffe30001, 0x1fffffffd10001, 0x1fffffffbf0001, 0x1fffffffb60001, 0x1fffffff920001, 0x3fffffffd60001]

/-- special primes of mkbfv PN14QP439 (mkbfv_test.go:77-105) -/
def bfv14P : List ℕ :=
    [0xffffffffffc0001, 0xfffffffff840001]

/-- primes of QMul of mkbfv PN14QP439 (mkbfv_test.go:77-105) -/
def bfv14M : List ℕ :=
    [0x1fffffffd80001, 0x1fffffffc50001, 0x1fffffffb90001, 0x1fffffffa50001, 0x1fffffff900001, 0x3fffffffca0001]

/-- mkbfv PN14QP439 (mkbfv_test.go:77-105) -/
def bfv14 : BLit := ⟨⟨14, bfv14Q, bfv14P⟩, bfv14M, 65537⟩

/-- primes of Q of mkckks PN15QP880 (mkckks_test.go:51-72) -/
def ckks15Q : List ℕ :=
    [0xfffffffff6a0001, 0x3fffffffd60001, 0x3fffffffca0001, 0x3fffffff6d0001, 0x3fffffff5d0001, 0x3fffffff550001, 0x3fffffff390001,
    0x3fffffff360001, 0x3fffffff2a0001, 0x3fffffff000001, 0x3ffffffefa0001, 0x3ffffffef40001, 0x3ffffffed70001, 0x3ffffffed30001]

/-- special primes of mkckks PN15QP880 (mkckks_test.go:51-72) -/
def ckks15P : List ℕ :=
    [0x7ffffffffe70001, 0x7ffffffffe10001]

/-- mkckks PN15QP880 (mkckks_test.go:51-72) -/
def ckks15 : Lit := ⟨15, ckks15Q, ckks15P⟩

/-- primes of Q of mkckks PN14QP439 (mkckks_test.go:73-91) -/
def ckks14Q : List ℕ :=
    [0x7ffffffffe70001, 0xffffffff00001, 0xfffffffe40001, 0xfffffffe20001, 0xfffffffbe0001, 0xfffffffa60001]

/-- special primes of mkckks PN14QP439 (mkckks_test.go:73-91) -/
def ckks14P : List ℕ :=
    [0xffffffffffc0001, 0xfffffffff840001]

/-- mkckks PN14QP439 (mkckks_test.go:73-91) -/
def ckks14 : Lit := ⟨14, ckks14Q, ckks14P⟩

/-- primes of Q of mkrlwe PN16QP1761 (mkrlwe_test.go:22-35) -/
def rlwe16Q : List ℕ :=
    [0x80000000080001, 0x2000000a0001, 0x2000000e0001, 0x1fffffc20001, 0x200000440001, 0x200000500001, 0x200000620001,
    0x1fffff980001, 0x2000006a0001, 0x1fffff7e0001, 0x200000860001, 0x200000a60001, 0x200000aa0001, 0x200000b20001,
    0x200000c80001, 0x1fffff360001, 0x200000e20001, 0x1fffff060001, 0x200000fe0001, 0x1ffffede0001, 0x1ffffeca0001,
    0x1ffffeb40001, 0x200001520001, 0x1ffffe760001, 0x2000019a0001, 0x1ffffe640001, 0x200001a00001, 0x1ffffe520001,
    0x200001e80001, 0x1ffffe0c0001, 0x1ffffdee0001, 0x200002480001, 0x1ffffdb60001, 0x200002560001]

/-- special primes of mkrlwe PN16QP1761 (mkrlwe_test.go:22-35) -/
def rlwe16P : List ℕ :=
    [0x80000000440001, 0x7fffffffba0001, 0x80000000500001, 0x7fffffffaa0001]

/-- mkrlwe PN16QP1761 (mkrlwe_test.go:22-35) -/
def rlwe16 : Lit := ⟨16, rlwe16Q, rlwe16P⟩

end MKHE.Lits
