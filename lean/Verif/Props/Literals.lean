import Verif.Props.Literal
import Verif.Spec.Literals

set_option autoImplicit false

/-!
# C61: the parameter literals of the repository's tests (generated by tools/literals.py)

Each of them satisfies the conditions of `C61.valid` or `C61.bvalid`, and row operations for it exist.
-/

namespace MKHE.C61
open Moduli Lits

theorem ringOk_of {k : ℕ} {l : List ℕ} (h : l.Nodup) (hp : ∀ x ∈ l, x.Prime) (hm : ∀ x ∈ l, x % 2 ^ (k + 1) = 1 % 2 ^ (k + 1)) : ringOk k l :=
  ⟨h, fun x hx => ⟨hp x hx, hm x hx⟩⟩

/-- operations modulo every element of a slice -/
theorem rows_exist {k : ℕ} {l : List ℕ} (hl : l ≠ []) (h : ∀ x ∈ l, Nonempty (LimbOps (2 ^ k) x)) : Nonempty (∀ i, LimbOps (2 ^ k) (nth l i)) :=
  ⟨fun i => Classical.choice (h _ (nth_mem' hl i))⟩

theorem bfv15Q_prime : ∀ x ∈ bfv15Q, x.Prime := by
  rw [bfv15Q]
  simp only [List.forall_mem_cons, List.not_mem_nil, false_imp_iff, implies_true, and_true]
  exact ⟨prime_3fffffffd60001, prime_3fffffff6d0001, prime_3fffffff550001, prime_3fffffff360001, prime_3fffffff000001, prime_3ffffffef40001, prime_3ffffffed30001, prime_3ffffffe970001, prime_3ffffffe800001, prime_3ffffffe410001, prime_7fffffffe90001, prime_7fffffffbd0001, prime_7fffffffaa0001, prime_7fffffff9f0001⟩

theorem bfv15Q_ok : ringOk 15 bfv15Q := ringOk_of (by decide) bfv15Q_prime (by decide)

theorem bfv15Q_rows : Nonempty (∀ i, LimbOps (2 ^ 15) (nth bfv15Q i)) := rows_exist (by decide) (by
  rw [bfv15Q]
  simp only [List.forall_mem_cons, List.not_mem_nil, false_imp_iff, implies_true, and_true]
  exact ⟨rows_3fffffffd60001 (by norm_num), rows_3fffffff6d0001 (by norm_num), rows_3fffffff550001 (by norm_num), rows_3fffffff360001 (by norm_num), rows_3fffffff000001 (by norm_num), rows_3ffffffef40001 (by norm_num), rows_3ffffffed30001 (by norm_num), rows_3ffffffe970001 (by norm_num), rows_3ffffffe800001 (by norm_num), rows_3ffffffe410001 (by norm_num), rows_7fffffffe90001 (by norm_num), rows_7fffffffbd0001 (by norm_num), rows_7fffffffaa0001 (by norm_num), rows_7fffffff9f0001 (by norm_num)⟩)

theorem bfv15P_prime : ∀ x ∈ bfv15P, x.Prime := by
  rw [bfv15P]
  simp only [List.forall_mem_cons, List.not_mem_nil, false_imp_iff, implies_true, and_true]
  exact ⟨prime_ffffffffffc0001, prime_fffffffff840001⟩

theorem bfv15P_ok : ringOk 15 bfv15P := ringOk_of (by decide) bfv15P_prime (by decide)

theorem bfv15P_rows : Nonempty (∀ i, LimbOps (2 ^ 15) (nth bfv15P i)) := rows_exist (by decide) (by
  rw [bfv15P]
  simp only [List.forall_mem_cons, List.not_mem_nil, false_imp_iff, implies_true, and_true]
  exact ⟨rows_ffffffffffc0001 (by norm_num), rows_fffffffff840001 (by norm_num)⟩)

theorem bfv15M_prime : ∀ x ∈ bfv15M, x.Prime := by
  rw [bfv15M]
  simp only [List.forall_mem_cons, List.not_mem_nil, false_imp_iff, implies_true, and_true]
  exact ⟨prime_3fffffffca0001, prime_3fffffff5d0001, prime_3fffffff390001, prime_3fffffff2a0001, prime_3ffffffefa0001, prime_3ffffffed70001, prime_3ffffffeaa0001, prime_3ffffffe920001, prime_3ffffffe790001, prime_3ffffffe320001, prime_7fffffffbf0001, prime_7fffffffba0001, prime_7fffffffa50001, prime_7fffffff7e0001⟩

theorem bfv15M_ok : ringOk 15 bfv15M := ringOk_of (by decide) bfv15M_prime (by decide)

theorem bfv15M_rows : Nonempty (∀ i, LimbOps (2 ^ 15) (nth bfv15M i)) := rows_exist (by decide) (by
  rw [bfv15M]
  simp only [List.forall_mem_cons, List.not_mem_nil, false_imp_iff, implies_true, and_true]
  exact ⟨rows_3fffffffca0001 (by norm_num), rows_3fffffff5d0001 (by norm_num), rows_3fffffff390001 (by norm_num), rows_3fffffff2a0001 (by norm_num), rows_3ffffffefa0001 (by norm_num), rows_3ffffffed70001 (by norm_num), rows_3ffffffeaa0001 (by norm_num), rows_3ffffffe920001 (by norm_num), rows_3ffffffe790001 (by norm_num), rows_3ffffffe320001 (by norm_num), rows_7fffffffbf0001 (by norm_num), rows_7fffffffba0001 (by norm_num), rows_7fffffffa50001 (by norm_num), rows_7fffffff7e0001 (by norm_num)⟩)

/-- the literal mkbfv PN15QP880 is good for `gamma = 2` -/
theorem bfv15_good_qp : Good bfv15.toLit 2 where
  log := by decide
  Q := bfv15Q_ok
  P := bfv15P_ok
  ltQ := by decide
  ltP := by decide
  disjoint := by decide
  ne := by decide
  gamma := by decide
  nP := by decide

/-- the literal mkbfv PN15QP880 is good -/
theorem bfv15_good : BGood bfv15 where
  qp := bfv15_good_qp
  len := by decide
  T := ringOk_of (by decide) (by simp only [List.forall_mem_cons, List.not_mem_nil, false_imp_iff, implies_true, and_true]; exact prime_10001) (by decide)
  R := ringOk_of (by decide) (fun x hx => (List.mem_append.mp hx).elim (bfv15Q_prime x) (bfv15M_prime x)) (by decide)
  ltM := by decide
  disjointM := by decide
  div := by decide
  n32 := by decide
  sumQ := by decide
  sumM := by decide

theorem bfv15_rows : Nonempty bfv15.Rows :=
  let ⟨a⟩ := bfv15Q_rows; let ⟨b⟩ := bfv15M_rows; let ⟨c⟩ := bfv15P_rows; ⟨⟨a, b, c⟩⟩

/-- **C61 for mkbfv PN15QP880**: the constructor succeeds and its result is a valid parameter set. -/
theorem bfv15_valid (fm : FloatModel) (R : bfv15.Rows) : newBfvParams bfv15 fm R = .ok (bfv15.bctx fm R) ∧ (bfv15.bctx fm R).Valid := bvalid bfv15_good fm R

theorem bfv14Q_prime : ∀ x ∈ bfv14Q, x.Prime := by
  rw [bfv14Q]
  simp only [List.forall_mem_cons, List.not_mem_nil, false_imp_iff, implies_true, and_true]
  exact ⟨prime_1fffffffe30001, prime_1fffffffd10001, prime_1fffffffbf0001, prime_1fffffffb60001, prime_1fffffff920001, prime_3fffffffd60001⟩

theorem bfv14Q_ok : ringOk 14 bfv14Q := ringOk_of (by decide) bfv14Q_prime (by decide)

theorem bfv14Q_rows : Nonempty (∀ i, LimbOps (2 ^ 14) (nth bfv14Q i)) := rows_exist (by decide) (by
  rw [bfv14Q]
  simp only [List.forall_mem_cons, List.not_mem_nil, false_imp_iff, implies_true, and_true]
  exact ⟨rows_1fffffffe30001 (by norm_num), rows_1fffffffd10001 (by norm_num), rows_1fffffffbf0001 (by norm_num), rows_1fffffffb60001 (by norm_num), rows_1fffffff920001 (by norm_num), rows_3fffffffd60001 (by norm_num)⟩)

theorem bfv14P_prime : ∀ x ∈ bfv14P, x.Prime := by
  rw [bfv14P]
  simp only [List.forall_mem_cons, List.not_mem_nil, false_imp_iff, implies_true, and_true]
  exact ⟨prime_ffffffffffc0001, prime_fffffffff840001⟩

theorem bfv14P_ok : ringOk 14 bfv14P := ringOk_of (by decide) bfv14P_prime (by decide)

theorem bfv14P_rows : Nonempty (∀ i, LimbOps (2 ^ 14) (nth bfv14P i)) := rows_exist (by decide) (by
  rw [bfv14P]
  simp only [List.forall_mem_cons, List.not_mem_nil, false_imp_iff, implies_true, and_true]
  exact ⟨rows_ffffffffffc0001 (by norm_num), rows_fffffffff840001 (by norm_num)⟩)

theorem bfv14M_prime : ∀ x ∈ bfv14M, x.Prime := by
  rw [bfv14M]
  simp only [List.forall_mem_cons, List.not_mem_nil, false_imp_iff, implies_true, and_true]
  exact ⟨prime_1fffffffd80001, prime_1fffffffc50001, prime_1fffffffb90001, prime_1fffffffa50001, prime_1fffffff900001, prime_3fffffffca0001⟩

theorem bfv14M_ok : ringOk 14 bfv14M := ringOk_of (by decide) bfv14M_prime (by decide)

theorem bfv14M_rows : Nonempty (∀ i, LimbOps (2 ^ 14) (nth bfv14M i)) := rows_exist (by decide) (by
  rw [bfv14M]
  simp only [List.forall_mem_cons, List.not_mem_nil, false_imp_iff, implies_true, and_true]
  exact ⟨rows_1fffffffd80001 (by norm_num), rows_1fffffffc50001 (by norm_num), rows_1fffffffb90001 (by norm_num), rows_1fffffffa50001 (by norm_num), rows_1fffffff900001 (by norm_num), rows_3fffffffca0001 (by norm_num)⟩)

/-- the literal mkbfv PN14QP439 is good for `gamma = 2` -/
theorem bfv14_good_qp : Good bfv14.toLit 2 where
  log := by decide
  Q := bfv14Q_ok
  P := bfv14P_ok
  ltQ := by decide
  ltP := by decide
  disjoint := by decide
  ne := by decide
  gamma := by decide
  nP := by decide

/-- the literal mkbfv PN14QP439 is good -/
theorem bfv14_good : BGood bfv14 where
  qp := bfv14_good_qp
  len := by decide
  T := ringOk_of (by decide) (by simp only [List.forall_mem_cons, List.not_mem_nil, false_imp_iff, implies_true, and_true]; exact prime_10001) (by decide)
  R := ringOk_of (by decide) (fun x hx => (List.mem_append.mp hx).elim (bfv14Q_prime x) (bfv14M_prime x)) (by decide)
  ltM := by decide
  disjointM := by decide
  div := by decide
  n32 := by decide
  sumQ := by decide
  sumM := by decide

theorem bfv14_rows : Nonempty bfv14.Rows :=
  let ⟨a⟩ := bfv14Q_rows; let ⟨b⟩ := bfv14M_rows; let ⟨c⟩ := bfv14P_rows; ⟨⟨a, b, c⟩⟩

/-- **C61 for mkbfv PN14QP439**: the constructor succeeds and its result is a valid parameter set. -/
theorem bfv14_valid (fm : FloatModel) (R : bfv14.Rows) : newBfvParams bfv14 fm R = .ok (bfv14.bctx fm R) ∧ (bfv14.bctx fm R).Valid := bvalid bfv14_good fm R

theorem ckks15Q_prime : ∀ x ∈ ckks15Q, x.Prime := by
  rw [ckks15Q]
  simp only [List.forall_mem_cons, List.not_mem_nil, false_imp_iff, implies_true, and_true]
  exact ⟨prime_fffffffff6a0001, prime_3fffffffd60001, prime_3fffffffca0001, prime_3fffffff6d0001, prime_3fffffff5d0001, prime_3fffffff550001, prime_3fffffff390001, prime_3fffffff360001, prime_3fffffff2a0001, prime_3fffffff000001, prime_3ffffffefa0001, prime_3ffffffef40001, prime_3ffffffed70001, prime_3ffffffed30001⟩

theorem ckks15Q_ok : ringOk 15 ckks15Q := ringOk_of (by decide) ckks15Q_prime (by decide)

theorem ckks15Q_rows : Nonempty (∀ i, LimbOps (2 ^ 15) (nth ckks15Q i)) := rows_exist (by decide) (by
  rw [ckks15Q]
  simp only [List.forall_mem_cons, List.not_mem_nil, false_imp_iff, implies_true, and_true]
  exact ⟨rows_fffffffff6a0001 (by norm_num), rows_3fffffffd60001 (by norm_num), rows_3fffffffca0001 (by norm_num), rows_3fffffff6d0001 (by norm_num), rows_3fffffff5d0001 (by norm_num), rows_3fffffff550001 (by norm_num), rows_3fffffff390001 (by norm_num), rows_3fffffff360001 (by norm_num), rows_3fffffff2a0001 (by norm_num), rows_3fffffff000001 (by norm_num), rows_3ffffffefa0001 (by norm_num), rows_3ffffffef40001 (by norm_num), rows_3ffffffed70001 (by norm_num), rows_3ffffffed30001 (by norm_num)⟩)

theorem ckks15P_prime : ∀ x ∈ ckks15P, x.Prime := by
  rw [ckks15P]
  simp only [List.forall_mem_cons, List.not_mem_nil, false_imp_iff, implies_true, and_true]
  exact ⟨prime_7ffffffffe70001, prime_7ffffffffe10001⟩

theorem ckks15P_ok : ringOk 15 ckks15P := ringOk_of (by decide) ckks15P_prime (by decide)

theorem ckks15P_rows : Nonempty (∀ i, LimbOps (2 ^ 15) (nth ckks15P i)) := rows_exist (by decide) (by
  rw [ckks15P]
  simp only [List.forall_mem_cons, List.not_mem_nil, false_imp_iff, implies_true, and_true]
  exact ⟨rows_7ffffffffe70001 (by norm_num), rows_7ffffffffe10001 (by norm_num)⟩)

/-- the literal mkckks PN15QP880 is good for `gamma = 2` -/
theorem ckks15_good : Good ckks15 2 where
  log := by decide
  Q := ckks15Q_ok
  P := ckks15P_ok
  ltQ := by decide
  ltP := by decide
  disjoint := by decide
  ne := by decide
  gamma := by decide
  nP := by decide

/-- **C61 for mkckks PN15QP880.** -/
theorem ckks15_valid (fm : FloatModel) (rq : ∀ i, LimbOps (2 ^ ckks15.logN) (nth ckks15.Q i)) (rp : ∀ j, LimbOps (2 ^ ckks15.logN) (nth ckks15.P j)) :
    (ckks15.ctx 2 fm rq rp).Valid := valid ckks15_good fm rq rp

example : Nonempty (∀ i, LimbOps (2 ^ ckks15.logN) (nth ckks15.Q i)) ∧ Nonempty (∀ j, LimbOps (2 ^ ckks15.logN) (nth ckks15.P j)) := ⟨ckks15Q_rows, ckks15P_rows⟩

theorem ckks14Q_prime : ∀ x ∈ ckks14Q, x.Prime := by
  rw [ckks14Q]
  simp only [List.forall_mem_cons, List.not_mem_nil, false_imp_iff, implies_true, and_true]
  exact ⟨prime_7ffffffffe70001, prime_ffffffff00001, prime_fffffffe40001, prime_fffffffe20001, prime_fffffffbe0001, prime_fffffffa60001⟩

theorem ckks14Q_ok : ringOk 14 ckks14Q := ringOk_of (by decide) ckks14Q_prime (by decide)

theorem ckks14Q_rows : Nonempty (∀ i, LimbOps (2 ^ 14) (nth ckks14Q i)) := rows_exist (by decide) (by
  rw [ckks14Q]
  simp only [List.forall_mem_cons, List.not_mem_nil, false_imp_iff, implies_true, and_true]
  exact ⟨rows_7ffffffffe70001 (by norm_num), rows_ffffffff00001 (by norm_num), rows_fffffffe40001 (by norm_num), rows_fffffffe20001 (by norm_num), rows_fffffffbe0001 (by norm_num), rows_fffffffa60001 (by norm_num)⟩)

theorem ckks14P_prime : ∀ x ∈ ckks14P, x.Prime := by
  rw [ckks14P]
  simp only [List.forall_mem_cons, List.not_mem_nil, false_imp_iff, implies_true, and_true]
  exact ⟨prime_ffffffffffc0001, prime_fffffffff840001⟩

theorem ckks14P_ok : ringOk 14 ckks14P := ringOk_of (by decide) ckks14P_prime (by decide)

theorem ckks14P_rows : Nonempty (∀ i, LimbOps (2 ^ 14) (nth ckks14P i)) := rows_exist (by decide) (by
  rw [ckks14P]
  simp only [List.forall_mem_cons, List.not_mem_nil, false_imp_iff, implies_true, and_true]
  exact ⟨rows_ffffffffffc0001 (by norm_num), rows_fffffffff840001 (by norm_num)⟩)

/-- the literal mkckks PN14QP439 is good for `gamma = 2` -/
theorem ckks14_good : Good ckks14 2 where
  log := by decide
  Q := ckks14Q_ok
  P := ckks14P_ok
  ltQ := by decide
  ltP := by decide
  disjoint := by decide
  ne := by decide
  gamma := by decide
  nP := by decide

/-- **C61 for mkckks PN14QP439.** -/
theorem ckks14_valid (fm : FloatModel) (rq : ∀ i, LimbOps (2 ^ ckks14.logN) (nth ckks14.Q i)) (rp : ∀ j, LimbOps (2 ^ ckks14.logN) (nth ckks14.P j)) :
    (ckks14.ctx 2 fm rq rp).Valid := valid ckks14_good fm rq rp

example : Nonempty (∀ i, LimbOps (2 ^ ckks14.logN) (nth ckks14.Q i)) ∧ Nonempty (∀ j, LimbOps (2 ^ ckks14.logN) (nth ckks14.P j)) := ⟨ckks14Q_rows, ckks14P_rows⟩

theorem rlwe16Q_prime : ∀ x ∈ rlwe16Q, x.Prime := by
  rw [rlwe16Q]
  simp only [List.forall_mem_cons, List.not_mem_nil, false_imp_iff, implies_true, and_true]
  exact ⟨prime_80000000080001, prime_2000000a0001, prime_2000000e0001, prime_1fffffc20001, prime_200000440001, prime_200000500001, prime_200000620001, prime_1fffff980001, prime_2000006a0001, prime_1fffff7e0001, prime_200000860001, prime_200000a60001, prime_200000aa0001, prime_200000b20001, prime_200000c80001, prime_1fffff360001, prime_200000e20001, prime_1fffff060001, prime_200000fe0001, prime_1ffffede0001, prime_1ffffeca0001, prime_1ffffeb40001, prime_200001520001, prime_1ffffe760001, prime_2000019a0001, prime_1ffffe640001, prime_200001a00001, prime_1ffffe520001, prime_200001e80001, prime_1ffffe0c0001, prime_1ffffdee0001, prime_200002480001, prime_1ffffdb60001, prime_200002560001⟩

theorem rlwe16Q_ok : ringOk 16 rlwe16Q := ringOk_of (by decide) rlwe16Q_prime (by decide)

theorem rlwe16Q_rows : Nonempty (∀ i, LimbOps (2 ^ 16) (nth rlwe16Q i)) := rows_exist (by decide) (by
  rw [rlwe16Q]
  simp only [List.forall_mem_cons, List.not_mem_nil, false_imp_iff, implies_true, and_true]
  exact ⟨rows_80000000080001 (by norm_num), rows_2000000a0001 (by norm_num), rows_2000000e0001 (by norm_num), rows_1fffffc20001 (by norm_num), rows_200000440001 (by norm_num), rows_200000500001 (by norm_num), rows_200000620001 (by norm_num), rows_1fffff980001 (by norm_num), rows_2000006a0001 (by norm_num), rows_1fffff7e0001 (by norm_num), rows_200000860001 (by norm_num), rows_200000a60001 (by norm_num), rows_200000aa0001 (by norm_num), rows_200000b20001 (by norm_num), rows_200000c80001 (by norm_num), rows_1fffff360001 (by norm_num), rows_200000e20001 (by norm_num), rows_1fffff060001 (by norm_num), rows_200000fe0001 (by norm_num), rows_1ffffede0001 (by norm_num), rows_1ffffeca0001 (by norm_num), rows_1ffffeb40001 (by norm_num), rows_200001520001 (by norm_num), rows_1ffffe760001 (by norm_num), rows_2000019a0001 (by norm_num), rows_1ffffe640001 (by norm_num), rows_200001a00001 (by norm_num), rows_1ffffe520001 (by norm_num), rows_200001e80001 (by norm_num), rows_1ffffe0c0001 (by norm_num), rows_1ffffdee0001 (by norm_num), rows_200002480001 (by norm_num), rows_1ffffdb60001 (by norm_num), rows_200002560001 (by norm_num)⟩)

theorem rlwe16P_prime : ∀ x ∈ rlwe16P, x.Prime := by
  rw [rlwe16P]
  simp only [List.forall_mem_cons, List.not_mem_nil, false_imp_iff, implies_true, and_true]
  exact ⟨prime_80000000440001, prime_7fffffffba0001, prime_80000000500001, prime_7fffffffaa0001⟩

theorem rlwe16P_ok : ringOk 16 rlwe16P := ringOk_of (by decide) rlwe16P_prime (by decide)

theorem rlwe16P_rows : Nonempty (∀ i, LimbOps (2 ^ 16) (nth rlwe16P i)) := rows_exist (by decide) (by
  rw [rlwe16P]
  simp only [List.forall_mem_cons, List.not_mem_nil, false_imp_iff, implies_true, and_true]
  exact ⟨rows_80000000440001 (by norm_num), rows_7fffffffba0001 (by norm_num), rows_80000000500001 (by norm_num), rows_7fffffffaa0001 (by norm_num)⟩)

/-- the literal mkrlwe PN16QP1761 is good for `gamma = 2` -/
theorem rlwe16_good : Good rlwe16 2 where
  log := by decide
  Q := rlwe16Q_ok
  P := rlwe16P_ok
  ltQ := by decide
  ltP := by decide
  disjoint := by decide
  ne := by decide
  gamma := by decide
  nP := by decide

/-- **C61 for mkrlwe PN16QP1761.** -/
theorem rlwe16_valid (fm : FloatModel) (rq : ∀ i, LimbOps (2 ^ rlwe16.logN) (nth rlwe16.Q i)) (rp : ∀ j, LimbOps (2 ^ rlwe16.logN) (nth rlwe16.P j)) :
    (rlwe16.ctx 2 fm rq rp).Valid := valid rlwe16_good fm rq rp

example : Nonempty (∀ i, LimbOps (2 ^ rlwe16.logN) (nth rlwe16.Q i)) ∧ Nonempty (∀ j, LimbOps (2 ^ rlwe16.logN) (nth rlwe16.P j)) := ⟨rlwe16Q_rows, rlwe16P_rows⟩

end MKHE.C61
