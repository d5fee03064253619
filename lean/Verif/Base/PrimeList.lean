import Verif.Base.Rows

set_option autoImplicit false

/-!
# The moduli of the parameter literals of the repository's tests (generated by tools/primes.py)

mkbfv_test.go:28-105, mkckks_test.go:50-92, mkrlwe_test.go:22-35: primality by Lucas' test, and a `2N`-th root of unity for each.
-/

namespace MKHE.Moduli
open PN14

theorem prime_10001 : (65537 : ℕ).Prime :=
  prime_of_lucas 3 16 [] (by norm_num) (by norm_num) (by decide +kernel) (by norm_num) (by decide +kernel)
    (by simp) (by decide +kernel)

theorem rows_10001 {k : ℕ} (hk : k ≤ 15) : Nonempty (LimbOps (2 ^ k) 65537) :=
  rows_of_root (z := 3) prime_10001 (by decide) (by norm_num) (by norm_num) hk (by decide +kernel)

theorem prime_1ffffdb60001 : (35184333684737 : ℕ).Prime :=
  prime_of_lucas 3 17 [12941, 20743] (by norm_num) (by norm_num) (by decide +kernel) (by norm_num) (by decide +kernel)
    (by simp only [List.forall_mem_cons, List.not_mem_nil, false_imp_iff, implies_true, and_true]; exact ⟨by norm_num, by norm_num⟩) (by decide +kernel)

theorem rows_1ffffdb60001 {k : ℕ} (hk : k ≤ 16) : Nonempty (LimbOps (2 ^ k) 35184333684737) :=
  rows_of_root (z := 25465867545972) prime_1ffffdb60001 (by decide) (by norm_num) (by norm_num) hk (by decide +kernel)

theorem prime_1ffffdee0001 : (35184337354753 : ℕ).Prime :=
  prime_of_lucas 5 17 [3, 59, 1516583] (by norm_num) (by norm_num) (by decide +kernel) (by norm_num) (by decide +kernel)
    (by simp only [List.forall_mem_cons, List.not_mem_nil, false_imp_iff, implies_true, and_true]; exact ⟨by norm_num, by norm_num, by norm_num⟩) (by decide +kernel)

theorem rows_1ffffdee0001 {k : ℕ} (hk : k ≤ 16) : Nonempty (LimbOps (2 ^ k) 35184337354753) :=
  rows_of_root (z := 16438101651781) prime_1ffffdee0001 (by decide) (by norm_num) (by norm_num) hk (by decide +kernel)

theorem prime_1ffffe0c0001 : (35184339320833 : ℕ).Prime :=
  prime_of_lucas 5 18 [3, 3, 13, 13, 79, 1117] (by norm_num) (by norm_num) (by decide +kernel) (by norm_num) (by decide +kernel)
    (by simp only [List.forall_mem_cons, List.not_mem_nil, false_imp_iff, implies_true, and_true]; exact ⟨by norm_num, by norm_num, by norm_num, by norm_num, by norm_num, by norm_num⟩) (by decide +kernel)

theorem rows_1ffffe0c0001 {k : ℕ} (hk : k ≤ 16) : Nonempty (LimbOps (2 ^ k) 35184339320833) :=
  rows_of_root (z := 21022675657955) prime_1ffffe0c0001 (by decide) (by norm_num) (by norm_num) hk (by decide +kernel)

theorem prime_1ffffe520001 : (35184343908353 : ℕ).Prime :=
  prime_of_lucas 3 17 [41, 1279, 5119] (by norm_num) (by norm_num) (by decide +kernel) (by norm_num) (by decide +kernel)
    (by simp only [List.forall_mem_cons, List.not_mem_nil, false_imp_iff, implies_true, and_true]; exact ⟨by norm_num, by norm_num, by norm_num⟩) (by decide +kernel)

theorem rows_1ffffe520001 {k : ℕ} (hk : k ≤ 16) : Nonempty (LimbOps (2 ^ k) 35184343908353) :=
  rows_of_root (z := 13707326202840) prime_1ffffe520001 (by decide) (by norm_num) (by norm_num) hk (by decide +kernel)

theorem prime_1ffffe640001 : (35184345088001 : ℕ).Prime :=
  prime_of_lucas 3 18 [5, 5, 5, 59, 18199] (by norm_num) (by norm_num) (by decide +kernel) (by norm_num) (by decide +kernel)
    (by simp only [List.forall_mem_cons, List.not_mem_nil, false_imp_iff, implies_true, and_true]; exact ⟨by norm_num, by norm_num, by norm_num, by norm_num, by norm_num⟩) (by decide +kernel)

theorem rows_1ffffe640001 {k : ℕ} (hk : k ≤ 16) : Nonempty (LimbOps (2 ^ k) 35184345088001) :=
  rows_of_root (z := 11243559711029) prime_1ffffe640001 (by decide) (by norm_num) (by norm_num) hk (by decide +kernel)

theorem prime_1ffffe760001 : (35184346267649 : ℕ).Prime :=
  prime_of_lucas 3 17 [37, 7255007] (by norm_num) (by norm_num) (by decide +kernel) (by norm_num) (by decide +kernel)
    (by simp only [List.forall_mem_cons, List.not_mem_nil, false_imp_iff, implies_true, and_true]; exact ⟨by norm_num, by norm_num⟩) (by decide +kernel)

theorem rows_1ffffe760001 {k : ℕ} (hk : k ≤ 16) : Nonempty (LimbOps (2 ^ k) 35184346267649) :=
  rows_of_root (z := 3513891506063) prime_1ffffe760001 (by decide) (by norm_num) (by norm_num) hk (by decide +kernel)

theorem prime_1ffffeb40001 : (35184350330881 : ℕ).Prime :=
  prime_of_lucas 7 18 [3, 5, 8947843] (by norm_num) (by norm_num) (by decide +kernel) (by norm_num) (by decide +kernel)
    (by simp only [List.forall_mem_cons, List.not_mem_nil, false_imp_iff, implies_true, and_true]; exact ⟨by norm_num, by norm_num, by norm_num⟩) (by decide +kernel)

theorem rows_1ffffeb40001 {k : ℕ} (hk : k ≤ 16) : Nonempty (LimbOps (2 ^ k) 35184350330881) :=
  rows_of_root (z := 19433962522564) prime_1ffffeb40001 (by decide) (by norm_num) (by norm_num) hk (by decide +kernel)

theorem prime_1ffffeca0001 : (35184351772673 : ℕ).Prime :=
  prime_of_lucas 3 17 [53, 5064817] (by norm_num) (by norm_num) (by decide +kernel) (by norm_num) (by decide +kernel)
    (by simp only [List.forall_mem_cons, List.not_mem_nil, false_imp_iff, implies_true, and_true]; exact ⟨by norm_num, by norm_num⟩) (by decide +kernel)

theorem rows_1ffffeca0001 {k : ℕ} (hk : k ≤ 16) : Nonempty (LimbOps (2 ^ k) 35184351772673) :=
  rows_of_root (z := 24285883876603) prime_1ffffeca0001 (by decide) (by norm_num) (by norm_num) hk (by decide +kernel)

theorem prime_5555525 : (89478437 : ℕ).Prime :=
  prime_of_lucas 2 2 [73, 181, 1693] (by norm_num) (by norm_num) (by decide +kernel) (by norm_num) (by decide +kernel)
    (by simp only [List.forall_mem_cons, List.not_mem_nil, false_imp_iff, implies_true, and_true]; exact ⟨by norm_num, by norm_num, by norm_num⟩) (by decide +kernel)

theorem prime_1ffffede0001 : (35184353083393 : ℕ).Prime :=
  prime_of_lucas 7 17 [3, 89478437] (by norm_num) (by norm_num) (by decide +kernel) (by norm_num) (by decide +kernel)
    (by simp only [List.forall_mem_cons, List.not_mem_nil, false_imp_iff, implies_true, and_true]; exact ⟨by norm_num, prime_5555525⟩) (by decide +kernel)

theorem rows_1ffffede0001 {k : ℕ} (hk : k ≤ 16) : Nonempty (LimbOps (2 ^ k) 35184353083393) :=
  rows_of_root (z := 15311833401527) prime_1ffffede0001 (by decide) (by norm_num) (by norm_num) hk (by decide +kernel)

theorem prime_fffff83 : (268435331 : ℕ).Prime :=
  prime_of_lucas 2 1 [5, 47, 439, 1301] (by norm_num) (by norm_num) (by decide +kernel) (by norm_num) (by decide +kernel)
    (by simp only [List.forall_mem_cons, List.not_mem_nil, false_imp_iff, implies_true, and_true]; exact ⟨by norm_num, by norm_num, by norm_num, by norm_num⟩) (by decide +kernel)

theorem prime_1fffff060001 : (35184355704833 : ℕ).Prime :=
  prime_of_lucas 3 17 [268435331] (by norm_num) (by norm_num) (by decide +kernel) (by norm_num) (by decide +kernel)
    (by simp only [List.forall_mem_cons, List.not_mem_nil, false_imp_iff, implies_true, and_true]; exact prime_fffff83) (by decide +kernel)

theorem rows_1fffff060001 {k : ℕ} (hk : k ≤ 16) : Nonempty (LimbOps (2 ^ k) 35184355704833) :=
  rows_of_root (z := 33132215459815) prime_1fffff060001 (by decide) (by norm_num) (by norm_num) hk (by decide +kernel)

theorem prime_1fffff360001 : (35184358850561 : ℕ).Prime :=
  prime_of_lucas 3 17 [5, 17, 31, 101873] (by norm_num) (by norm_num) (by decide +kernel) (by norm_num) (by decide +kernel)
    (by simp only [List.forall_mem_cons, List.not_mem_nil, false_imp_iff, implies_true, and_true]; exact ⟨by norm_num, by norm_num, by norm_num, by norm_num⟩) (by decide +kernel)

theorem rows_1fffff360001 {k : ℕ} (hk : k ≤ 16) : Nonempty (LimbOps (2 ^ k) 35184358850561) :=
  rows_of_root (z := 25643250466013) prime_1fffff360001 (by decide) (by norm_num) (by norm_num) hk (by decide +kernel)

theorem prime_2492489 : (38347913 : ℕ).Prime :=
  prime_of_lucas 3 3 [4793489] (by norm_num) (by norm_num) (by decide +kernel) (by norm_num) (by decide +kernel)
    (by simp only [List.forall_mem_cons, List.not_mem_nil, false_imp_iff, implies_true, and_true]; norm_num) (by decide +kernel)

theorem prime_1fffff7e0001 : (35184363569153 : ℕ).Prime :=
  prime_of_lucas 5 17 [7, 38347913] (by norm_num) (by norm_num) (by decide +kernel) (by norm_num) (by decide +kernel)
    (by simp only [List.forall_mem_cons, List.not_mem_nil, false_imp_iff, implies_true, and_true]; exact ⟨by norm_num, prime_2492489⟩) (by decide +kernel)

theorem rows_1fffff7e0001 {k : ℕ} (hk : k ≤ 16) : Nonempty (LimbOps (2 ^ k) 35184363569153) :=
  rows_of_root (z := 12299075806952) prime_1fffff7e0001 (by decide) (by norm_num) (by norm_num) hk (by decide +kernel)

theorem prime_1fffff980001 : (35184365273089 : ℕ).Prime :=
  prime_of_lucas 11 19 [3, 3, 3, 2485513] (by norm_num) (by norm_num) (by decide +kernel) (by norm_num) (by decide +kernel)
    (by simp only [List.forall_mem_cons, List.not_mem_nil, false_imp_iff, implies_true, and_true]; exact ⟨by norm_num, by norm_num, by norm_num, by norm_num⟩) (by decide +kernel)

theorem rows_1fffff980001 {k : ℕ} (hk : k ≤ 16) : Nonempty (LimbOps (2 ^ k) 35184365273089) :=
  rows_of_root (z := 33929935339125) prime_1fffff980001 (by decide) (by norm_num) (by norm_num) hk (by decide +kernel)

theorem prime_1fffffc20001 : (35184368025601 : ℕ).Prime :=
  prime_of_lucas 13 17 [3, 5, 5, 3579139] (by norm_num) (by norm_num) (by decide +kernel) (by norm_num) (by decide +kernel)
    (by simp only [List.forall_mem_cons, List.not_mem_nil, false_imp_iff, implies_true, and_true]; exact ⟨by norm_num, by norm_num, by norm_num, by norm_num⟩) (by decide +kernel)

theorem rows_1fffffc20001 {k : ℕ} (hk : k ≤ 16) : Nonempty (LimbOps (2 ^ k) 35184368025601) :=
  rows_of_root (z := 31324945430104) prime_1fffffc20001 (by decide) (by norm_num) (by norm_num) hk (by decide +kernel)

theorem prime_2000000a0001 : (35184372744193 : ℕ).Prime :=
  prime_of_lucas 5 17 [3, 7, 23, 555767] (by norm_num) (by norm_num) (by decide +kernel) (by norm_num) (by decide +kernel)
    (by simp only [List.forall_mem_cons, List.not_mem_nil, false_imp_iff, implies_true, and_true]; exact ⟨by norm_num, by norm_num, by norm_num, by norm_num⟩) (by decide +kernel)

theorem rows_2000000a0001 {k : ℕ} (hk : k ≤ 16) : Nonempty (LimbOps (2 ^ k) 35184372744193) :=
  rows_of_root (z := 26570341729359) prime_2000000a0001 (by decide) (by norm_num) (by norm_num) hk (by decide +kernel)

theorem prime_10000007 : (268435463 : ℕ).Prime :=
  prime_of_lucas 5 1 [4057, 33083] (by norm_num) (by norm_num) (by decide +kernel) (by norm_num) (by decide +kernel)
    (by simp only [List.forall_mem_cons, List.not_mem_nil, false_imp_iff, implies_true, and_true]; exact ⟨by norm_num, by norm_num⟩) (by decide +kernel)

theorem prime_2000000e0001 : (35184373006337 : ℕ).Prime :=
  prime_of_lucas 3 17 [268435463] (by norm_num) (by norm_num) (by decide +kernel) (by norm_num) (by decide +kernel)
    (by simp only [List.forall_mem_cons, List.not_mem_nil, false_imp_iff, implies_true, and_true]; exact prime_10000007) (by decide +kernel)

theorem rows_2000000e0001 {k : ℕ} (hk : k ≤ 16) : Nonempty (LimbOps (2 ^ k) 35184373006337) :=
  rows_of_root (z := 29173965914997) prime_2000000e0001 (by decide) (by norm_num) (by norm_num) hk (by decide +kernel)

theorem prime_199999d : (26843549 : ℕ).Prime :=
  prime_of_lucas 2 2 [6710887] (by norm_num) (by norm_num) (by decide +kernel) (by norm_num) (by decide +kernel)
    (by simp only [List.forall_mem_cons, List.not_mem_nil, false_imp_iff, implies_true, and_true]; norm_num) (by decide +kernel)

theorem prime_200000440001 : (35184376545281 : ℕ).Prime :=
  prime_of_lucas 3 18 [5, 26843549] (by norm_num) (by norm_num) (by decide +kernel) (by norm_num) (by decide +kernel)
    (by simp only [List.forall_mem_cons, List.not_mem_nil, false_imp_iff, implies_true, and_true]; exact ⟨by norm_num, prime_199999d⟩) (by decide +kernel)

theorem rows_200000440001 {k : ℕ} (hk : k ≤ 16) : Nonempty (LimbOps (2 ^ k) 35184376545281) :=
  rows_of_root (z := 11967725323850) prime_200000440001 (by decide) (by norm_num) (by norm_num) hk (by decide +kernel)

theorem prime_200000500001 : (35184377331713 : ℕ).Prime :=
  prime_of_lucas 3 20 [7, 19, 252289] (by norm_num) (by norm_num) (by decide +kernel) (by norm_num) (by decide +kernel)
    (by simp only [List.forall_mem_cons, List.not_mem_nil, false_imp_iff, implies_true, and_true]; exact ⟨by norm_num, by norm_num, by norm_num⟩) (by decide +kernel)

theorem rows_200000500001 {k : ℕ} (hk : k ≤ 16) : Nonempty (LimbOps (2 ^ k) 35184377331713) :=
  rows_of_root (z := 9417116787951) prime_200000500001 (by decide) (by norm_num) (by norm_num) hk (by decide +kernel)

theorem prime_200000620001 : (35184378511361 : ℕ).Prime :=
  prime_of_lucas 3 17 [5, 13, 4129777] (by norm_num) (by norm_num) (by decide +kernel) (by norm_num) (by decide +kernel)
    (by simp only [List.forall_mem_cons, List.not_mem_nil, false_imp_iff, implies_true, and_true]; exact ⟨by norm_num, by norm_num, by norm_num⟩) (by decide +kernel)

theorem rows_200000620001 {k : ℕ} (hk : k ≤ 16) : Nonempty (LimbOps (2 ^ k) 35184378511361) :=
  rows_of_root (z := 10279581685689) prime_200000620001 (by decide) (by norm_num) (by norm_num) hk (by decide +kernel)

theorem prime_5555567 : (89478503 : ℕ).Prime :=
  prime_of_lucas 5 1 [131, 341521] (by norm_num) (by norm_num) (by decide +kernel) (by norm_num) (by decide +kernel)
    (by simp only [List.forall_mem_cons, List.not_mem_nil, false_imp_iff, implies_true, and_true]; exact ⟨by norm_num, by norm_num⟩) (by decide +kernel)

theorem prime_2000006a0001 : (35184379035649 : ℕ).Prime :=
  prime_of_lucas 11 17 [3, 89478503] (by norm_num) (by norm_num) (by decide +kernel) (by norm_num) (by decide +kernel)
    (by simp only [List.forall_mem_cons, List.not_mem_nil, false_imp_iff, implies_true, and_true]; exact ⟨by norm_num, prime_5555567⟩) (by decide +kernel)

theorem rows_2000006a0001 {k : ℕ} (hk : k ≤ 16) : Nonempty (LimbOps (2 ^ k) 35184379035649) :=
  rows_of_root (z := 837552380641) prime_2000006a0001 (by decide) (by norm_num) (by norm_num) hk (by decide +kernel)

theorem prime_10000043 : (268435523 : ℕ).Prime :=
  prime_of_lucas 2 1 [71, 79, 23929] (by norm_num) (by norm_num) (by decide +kernel) (by norm_num) (by decide +kernel)
    (by simp only [List.forall_mem_cons, List.not_mem_nil, false_imp_iff, implies_true, and_true]; exact ⟨by norm_num, by norm_num, by norm_num⟩) (by decide +kernel)

theorem prime_200000860001 : (35184380870657 : ℕ).Prime :=
  prime_of_lucas 3 17 [268435523] (by norm_num) (by norm_num) (by decide +kernel) (by norm_num) (by decide +kernel)
    (by simp only [List.forall_mem_cons, List.not_mem_nil, false_imp_iff, implies_true, and_true]; exact prime_10000043) (by decide +kernel)

theorem rows_200000860001 {k : ℕ} (hk : k ≤ 16) : Nonempty (LimbOps (2 ^ k) 35184380870657) :=
  rows_of_root (z := 33266809523740) prime_200000860001 (by decide) (by norm_num) (by norm_num) hk (by decide +kernel)

theorem prime_200000a60001 : (35184382967809 : ℕ).Prime :=
  prime_of_lucas 17 17 [3, 3, 3, 3, 3, 857, 1289] (by norm_num) (by norm_num) (by decide +kernel) (by norm_num) (by decide +kernel)
    (by simp only [List.forall_mem_cons, List.not_mem_nil, false_imp_iff, implies_true, and_true]; exact ⟨by norm_num, by norm_num, by norm_num, by norm_num, by norm_num, by norm_num, by norm_num⟩) (by decide +kernel)

theorem rows_200000a60001 {k : ℕ} (hk : k ≤ 16) : Nonempty (LimbOps (2 ^ k) 35184382967809) :=
  rows_of_root (z := 6110626830507) prime_200000a60001 (by decide) (by norm_num) (by norm_num) hk (by decide +kernel)

theorem prime_200000aa0001 : (35184383229953 : ℕ).Prime :=
  prime_of_lucas 3 17 [11, 31, 43, 18307] (by norm_num) (by norm_num) (by decide +kernel) (by norm_num) (by decide +kernel)
    (by simp only [List.forall_mem_cons, List.not_mem_nil, false_imp_iff, implies_true, and_true]; exact ⟨by norm_num, by norm_num, by norm_num, by norm_num⟩) (by decide +kernel)

theorem rows_200000aa0001 {k : ℕ} (hk : k ≤ 16) : Nonempty (LimbOps (2 ^ k) 35184383229953) :=
  rows_of_root (z := 19538535267104) prime_200000aa0001 (by decide) (by norm_num) (by norm_num) hk (by decide +kernel)

theorem prime_200000b20001 : (35184383754241 : ℕ).Prime :=
  prime_of_lucas 26 17 [3, 5, 7, 59, 43331] (by norm_num) (by norm_num) (by decide +kernel) (by norm_num) (by decide +kernel)
    (by simp only [List.forall_mem_cons, List.not_mem_nil, false_imp_iff, implies_true, and_true]; exact ⟨by norm_num, by norm_num, by norm_num, by norm_num, by norm_num⟩) (by decide +kernel)

theorem rows_200000b20001 {k : ℕ} (hk : k ≤ 16) : Nonempty (LimbOps (2 ^ k) 35184383754241) :=
  rows_of_root (z := 6951404504970) prime_200000b20001 (by decide) (by norm_num) (by norm_num) hk (by decide +kernel)

theorem prime_200000c80001 : (35184385196033 : ℕ).Prime :=
  prime_of_lucas 3 19 [1129, 59441] (by norm_num) (by norm_num) (by decide +kernel) (by norm_num) (by decide +kernel)
    (by simp only [List.forall_mem_cons, List.not_mem_nil, false_imp_iff, implies_true, and_true]; exact ⟨by norm_num, by norm_num⟩) (by decide +kernel)

theorem rows_200000c80001 {k : ℕ} (hk : k ≤ 16) : Nonempty (LimbOps (2 ^ k) 35184385196033) :=
  rows_of_root (z := 5320928491724) prime_200000c80001 (by decide) (by norm_num) (by norm_num) hk (by decide +kernel)

theorem prime_200000e20001 : (35184386899969 : ℕ).Prime :=
  prime_of_lucas 7 17 [3, 41, 97, 149, 151] (by norm_num) (by norm_num) (by decide +kernel) (by norm_num) (by decide +kernel)
    (by simp only [List.forall_mem_cons, List.not_mem_nil, false_imp_iff, implies_true, and_true]; exact ⟨by norm_num, by norm_num, by norm_num, by norm_num, by norm_num⟩) (by decide +kernel)

theorem rows_200000e20001 {k : ℕ} (hk : k ≤ 16) : Nonempty (LimbOps (2 ^ k) 35184386899969) :=
  rows_of_root (z := 28743078050621) prime_200000e20001 (by decide) (by norm_num) (by norm_num) hk (by decide +kernel)

theorem prime_13b13bb : (20648891 : ℕ).Prime :=
  prime_of_lucas 6 1 [5, 89, 23201] (by norm_num) (by norm_num) (by decide +kernel) (by norm_num) (by decide +kernel)
    (by simp only [List.forall_mem_cons, List.not_mem_nil, false_imp_iff, implies_true, and_true]; exact ⟨by norm_num, by norm_num, by norm_num⟩) (by decide +kernel)

theorem prime_200000fe0001 : (35184388734977 : ℕ).Prime :=
  prime_of_lucas 3 17 [13, 20648891] (by norm_num) (by norm_num) (by decide +kernel) (by norm_num) (by decide +kernel)
    (by simp only [List.forall_mem_cons, List.not_mem_nil, false_imp_iff, implies_true, and_true]; exact ⟨by norm_num, prime_13b13bb⟩) (by decide +kernel)

theorem rows_200000fe0001 {k : ℕ} (hk : k ≤ 16) : Nonempty (LimbOps (2 ^ k) 35184388734977) :=
  rows_of_root (z := 33130816244780) prime_200000fe0001 (by decide) (by norm_num) (by norm_num) hk (by decide +kernel)

theorem prime_200001520001 : (35184394240001 : ℕ).Prime :=
  prime_of_lucas 3 17 [5, 5, 5, 5, 429497] (by norm_num) (by norm_num) (by decide +kernel) (by norm_num) (by decide +kernel)
    (by simp only [List.forall_mem_cons, List.not_mem_nil, false_imp_iff, implies_true, and_true]; exact ⟨by norm_num, by norm_num, by norm_num, by norm_num, by norm_num⟩) (by decide +kernel)

theorem rows_200001520001 {k : ℕ} (hk : k ≤ 16) : Nonempty (LimbOps (2 ^ k) 35184394240001) :=
  rows_of_root (z := 643657715896) prime_200001520001 (by decide) (by norm_num) (by norm_num) hk (by decide +kernel)

theorem prime_2000019a0001 : (35184398958593 : ℕ).Prime :=
  prime_of_lucas 3 17 [13, 17, 1214641] (by norm_num) (by norm_num) (by decide +kernel) (by norm_num) (by decide +kernel)
    (by simp only [List.forall_mem_cons, List.not_mem_nil, false_imp_iff, implies_true, and_true]; exact ⟨by norm_num, by norm_num, by norm_num⟩) (by decide +kernel)

theorem rows_2000019a0001 {k : ℕ} (hk : k ≤ 16) : Nonempty (LimbOps (2 ^ k) 35184398958593) :=
  rows_of_root (z := 33325582089285) prime_2000019a0001 (by decide) (by norm_num) (by norm_num) hk (by decide +kernel)

theorem prime_200001a00001 : (35184399351809 : ℕ).Prime :=
  prime_of_lucas 3 21 [7, 71, 33757] (by norm_num) (by norm_num) (by decide +kernel) (by norm_num) (by decide +kernel)
    (by simp only [List.forall_mem_cons, List.not_mem_nil, false_imp_iff, implies_true, and_true]; exact ⟨by norm_num, by norm_num, by norm_num⟩) (by decide +kernel)

theorem rows_200001a00001 {k : ℕ} (hk : k ≤ 16) : Nonempty (LimbOps (2 ^ k) 35184399351809) :=
  rows_of_root (z := 20823736592558) prime_200001a00001 (by decide) (by norm_num) (by norm_num) hk (by decide +kernel)

theorem prime_200001e80001 : (35184404070401 : ℕ).Prime :=
  prime_of_lucas 7 19 [5, 5, 13, 206489] (by norm_num) (by norm_num) (by decide +kernel) (by norm_num) (by decide +kernel)
    (by simp only [List.forall_mem_cons, List.not_mem_nil, false_imp_iff, implies_true, and_true]; exact ⟨by norm_num, by norm_num, by norm_num, by norm_num⟩) (by decide +kernel)

theorem rows_200001e80001 {k : ℕ} (hk : k ≤ 16) : Nonempty (LimbOps (2 ^ k) 35184404070401) :=
  rows_of_root (z := 3251544502209) prime_200001e80001 (by decide) (by norm_num) (by norm_num) hk (by decide +kernel)

theorem prime_200002480001 : (35184410361857 : ℕ).Prime :=
  prime_of_lucas 5 19 [7, 89, 107719] (by norm_num) (by norm_num) (by decide +kernel) (by norm_num) (by decide +kernel)
    (by simp only [List.forall_mem_cons, List.not_mem_nil, false_imp_iff, implies_true, and_true]; exact ⟨by norm_num, by norm_num, by norm_num⟩) (by decide +kernel)

theorem rows_200002480001 {k : ℕ} (hk : k ≤ 16) : Nonempty (LimbOps (2 ^ k) 35184410361857) :=
  rows_of_root (z := 17144489341564) prime_200002480001 (by decide) (by norm_num) (by norm_num) hk (by decide +kernel)

theorem prime_200002560001 : (35184411279361 : ℕ).Prime :=
  prime_of_lucas 13 17 [3, 3, 3, 5, 7, 284059] (by norm_num) (by norm_num) (by decide +kernel) (by norm_num) (by decide +kernel)
    (by simp only [List.forall_mem_cons, List.not_mem_nil, false_imp_iff, implies_true, and_true]; exact ⟨by norm_num, by norm_num, by norm_num, by norm_num, by norm_num, by norm_num⟩) (by decide +kernel)

theorem rows_200002560001 {k : ℕ} (hk : k ≤ 16) : Nonempty (LimbOps (2 ^ k) 35184411279361) :=
  rows_of_root (z := 9406295580) prime_200002560001 (by decide) (by norm_num) (by norm_num) hk (by decide +kernel)

theorem prime_fffffffa60001 : (4503599621472257 : ℕ).Prime :=
  prime_of_lucas 3 17 [9733, 3530231] (by norm_num) (by norm_num) (by decide +kernel) (by norm_num) (by decide +kernel)
    (by simp only [List.forall_mem_cons, List.not_mem_nil, false_imp_iff, implies_true, and_true]; exact ⟨by norm_num, by norm_num⟩) (by decide +kernel)

theorem rows_fffffffa60001 {k : ℕ} (hk : k ≤ 14) : Nonempty (LimbOps (2 ^ k) 4503599621472257) :=
  rows_of_root (z := 3291220161230273) prime_fffffffa60001 (by decide) (by norm_num) (by norm_num) hk (by decide +kernel)

theorem prime_fffffffbe0001 : (4503599623045121 : ℕ).Prime :=
  prime_of_lucas 3 17 [5, 13, 1783, 296473] (by norm_num) (by norm_num) (by decide +kernel) (by norm_num) (by decide +kernel)
    (by simp only [List.forall_mem_cons, List.not_mem_nil, false_imp_iff, implies_true, and_true]; exact ⟨by norm_num, by norm_num, by norm_num, by norm_num⟩) (by decide +kernel)

theorem rows_fffffffbe0001 {k : ℕ} (hk : k ≤ 14) : Nonempty (LimbOps (2 ^ k) 4503599623045121) :=
  rows_of_root (z := 881138614017410) prime_fffffffbe0001 (by decide) (by norm_num) (by norm_num) hk (by decide +kernel)

theorem prime_fffffffe20001 : (4503599625404417 : ℕ).Prime :=
  prime_of_lucas 3 17 [113, 373, 815197] (by norm_num) (by norm_num) (by decide +kernel) (by norm_num) (by decide +kernel)
    (by simp only [List.forall_mem_cons, List.not_mem_nil, false_imp_iff, implies_true, and_true]; exact ⟨by norm_num, by norm_num, by norm_num⟩) (by decide +kernel)

theorem rows_fffffffe20001 {k : ℕ} (hk : k ≤ 14) : Nonempty (LimbOps (2 ^ k) 4503599625404417) :=
  rows_of_root (z := 790431361655986) prime_fffffffe20001 (by decide) (by norm_num) (by norm_num) hk (by decide +kernel)

theorem prime_25ed097b : (636291451 : ℕ).Prime :=
  prime_of_lucas 10 1 [3, 3, 3, 3, 5, 5, 157109] (by norm_num) (by norm_num) (by decide +kernel) (by norm_num) (by decide +kernel)
    (by simp only [List.forall_mem_cons, List.not_mem_nil, false_imp_iff, implies_true, and_true]; exact ⟨by norm_num, by norm_num, by norm_num, by norm_num, by norm_num, by norm_num, by norm_num⟩) (by decide +kernel)

theorem prime_fffffffe40001 : (4503599625535489 : ℕ).Prime :=
  prime_of_lucas 14 18 [3, 3, 3, 636291451] (by norm_num) (by norm_num) (by decide +kernel) (by norm_num) (by decide +kernel)
    (by simp only [List.forall_mem_cons, List.not_mem_nil, false_imp_iff, implies_true, and_true]; exact ⟨by norm_num, by norm_num, by norm_num, prime_25ed097b⟩) (by decide +kernel)

theorem rows_fffffffe40001 {k : ℕ} (hk : k ≤ 14) : Nonempty (LimbOps (2 ^ k) 4503599625535489) :=
  rows_of_root (z := 418288754030296) prime_fffffffe40001 (by decide) (by norm_num) (by norm_num) hk (by decide +kernel)

theorem prime_ffffffff00001 : (4503599626321921 : ℕ).Prime :=
  prime_of_lucas 7 20 [3, 5, 17, 257, 65537] (by norm_num) (by norm_num) (by decide +kernel) (by norm_num) (by decide +kernel)
    (by simp only [List.forall_mem_cons, List.not_mem_nil, false_imp_iff, implies_true, and_true]; exact ⟨by norm_num, by norm_num, by norm_num, by norm_num, by norm_num⟩) (by decide +kernel)

theorem rows_ffffffff00001 {k : ℕ} (hk : k ≤ 14) : Nonempty (LimbOps (2 ^ k) 4503599626321921) :=
  rows_of_root (z := 4006422944391896) prime_ffffffff00001 (by decide) (by norm_num) (by norm_num) hk (by decide +kernel)

theorem prime_158ed23 : (22605091 : ℕ).Prime :=
  prime_of_lucas 11 1 [3, 5, 23, 181, 181] (by norm_num) (by norm_num) (by decide +kernel) (by norm_num) (by decide +kernel)
    (by simp only [List.forall_mem_cons, List.not_mem_nil, false_imp_iff, implies_true, and_true]; exact ⟨by norm_num, by norm_num, by norm_num, by norm_num, by norm_num⟩) (by decide +kernel)

theorem prime_66666665 : (1717986917 : ℕ).Prime :=
  prime_of_lucas 2 2 [19, 22605091] (by norm_num) (by norm_num) (by decide +kernel) (by norm_num) (by decide +kernel)
    (by simp only [List.forall_mem_cons, List.not_mem_nil, false_imp_iff, implies_true, and_true]; exact ⟨by norm_num, prime_158ed23⟩) (by decide +kernel)

theorem prime_1fffffff900001 : (9007199247400961 : ℕ).Prime :=
  prime_of_lucas 3 20 [5, 1717986917] (by norm_num) (by norm_num) (by decide +kernel) (by norm_num) (by decide +kernel)
    (by simp only [List.forall_mem_cons, List.not_mem_nil, false_imp_iff, implies_true, and_true]; exact ⟨by norm_num, prime_66666665⟩) (by decide +kernel)

theorem rows_1fffffff900001 {k : ℕ} (hk : k ≤ 14) : Nonempty (LimbOps (2 ^ k) 9007199247400961) :=
  rows_of_root (z := 6357814797290494) prime_1fffffff900001 (by decide) (by norm_num) (by norm_num) hk (by decide +kernel)

theorem prime_1fffffff920001 : (9007199247532033 : ℕ).Prime :=
  prime_of_lucas 10 17 [3, 3, 3, 3, 10337, 82073] (by norm_num) (by norm_num) (by decide +kernel) (by norm_num) (by decide +kernel)
    (by simp only [List.forall_mem_cons, List.not_mem_nil, false_imp_iff, implies_true, and_true]; exact ⟨by norm_num, by norm_num, by norm_num, by norm_num, by norm_num, by norm_num⟩) (by decide +kernel)

theorem rows_1fffffff920001 {k : ℕ} (hk : k ≤ 14) : Nonempty (LimbOps (2 ^ k) 9007199247532033) :=
  rows_of_root (z := 950630942767942) prime_1fffffff920001 (by decide) (by norm_num) (by norm_num) hk (by decide +kernel)

theorem prime_1fffffffa50001 : (9007199248777217 : ℕ).Prime :=
  prime_of_lucas 3 16 [353, 6449, 60373] (by norm_num) (by norm_num) (by decide +kernel) (by norm_num) (by decide +kernel)
    (by simp only [List.forall_mem_cons, List.not_mem_nil, false_imp_iff, implies_true, and_true]; exact ⟨by norm_num, by norm_num, by norm_num⟩) (by decide +kernel)

theorem rows_1fffffffa50001 {k : ℕ} (hk : k ≤ 14) : Nonempty (LimbOps (2 ^ k) 9007199248777217) :=
  rows_of_root (z := 7435291995887417) prime_1fffffffa50001 (by decide) (by norm_num) (by norm_num) hk (by decide +kernel)

theorem prime_1c71c71c3 : (7635497411 : ℕ).Prime :=
  prime_of_lucas 2 1 [5, 6367, 119923] (by norm_num) (by norm_num) (by decide +kernel) (by norm_num) (by decide +kernel)
    (by simp only [List.forall_mem_cons, List.not_mem_nil, false_imp_iff, implies_true, and_true]; exact ⟨by norm_num, by norm_num, by norm_num⟩) (by decide +kernel)

theorem prime_1fffffffb60001 : (9007199249891329 : ℕ).Prime :=
  prime_of_lucas 13 17 [3, 3, 7635497411] (by norm_num) (by norm_num) (by decide +kernel) (by norm_num) (by decide +kernel)
    (by simp only [List.forall_mem_cons, List.not_mem_nil, false_imp_iff, implies_true, and_true]; exact ⟨by norm_num, by norm_num, prime_1c71c71c3⟩) (by decide +kernel)

theorem rows_1fffffffb60001 {k : ℕ} (hk : k ≤ 14) : Nonempty (LimbOps (2 ^ k) 9007199249891329) :=
  rows_of_root (z := 6744143536254105) prime_1fffffffb60001 (by decide) (by norm_num) (by norm_num) hk (by decide +kernel)

theorem prime_aaaaaaa93 : (45812984467 : ℕ).Prime :=
  prime_of_lucas 3 1 [3, 7635497411] (by norm_num) (by norm_num) (by decide +kernel) (by norm_num) (by decide +kernel)
    (by simp only [List.forall_mem_cons, List.not_mem_nil, false_imp_iff, implies_true, and_true]; exact ⟨by norm_num, prime_1c71c71c3⟩) (by decide +kernel)

theorem prime_1fffffffb90001 : (9007199250087937 : ℕ).Prime :=
  prime_of_lucas 5 16 [3, 45812984467] (by norm_num) (by norm_num) (by decide +kernel) (by norm_num) (by decide +kernel)
    (by simp only [List.forall_mem_cons, List.not_mem_nil, false_imp_iff, implies_true, and_true]; exact ⟨by norm_num, prime_aaaaaaa93⟩) (by decide +kernel)

theorem rows_1fffffffb90001 {k : ℕ} (hk : k ≤ 14) : Nonempty (LimbOps (2 ^ k) 9007199250087937) :=
  rows_of_root (z := 2281064738731181) prime_1fffffffb90001 (by decide) (by norm_num) (by norm_num) hk (by decide +kernel)

theorem prime_1fffffffbf0001 : (9007199250481153 : ℕ).Prime :=
  prime_of_lucas 5 16 [3, 3, 7, 23071, 94559] (by norm_num) (by norm_num) (by decide +kernel) (by norm_num) (by decide +kernel)
    (by simp only [List.forall_mem_cons, List.not_mem_nil, false_imp_iff, implies_true, and_true]; exact ⟨by norm_num, by norm_num, by norm_num, by norm_num, by norm_num⟩) (by decide +kernel)

theorem rows_1fffffffbf0001 {k : ℕ} (hk : k ≤ 14) : Nonempty (LimbOps (2 ^ k) 9007199250481153) :=
  rows_of_root (z := 8707114000956482) prime_1fffffffbf0001 (by decide) (by norm_num) (by norm_num) hk (by decide +kernel)

theorem prime_165348b : (23409803 : ℕ).Prime :=
  prime_of_lucas 2 1 [13, 43, 20939] (by norm_num) (by norm_num) (by decide +kernel) (by norm_num) (by decide +kernel)
    (by simp only [List.forall_mem_cons, List.not_mem_nil, false_imp_iff, implies_true, and_true]; exact ⟨by norm_num, by norm_num, by norm_num⟩) (by decide +kernel)

theorem prime_1fffffffc50001 : (9007199250874369 : ℕ).Prime :=
  prime_of_lucas 7 16 [3, 19, 103, 23409803] (by norm_num) (by norm_num) (by decide +kernel) (by norm_num) (by decide +kernel)
    (by simp only [List.forall_mem_cons, List.not_mem_nil, false_imp_iff, implies_true, and_true]; exact ⟨by norm_num, by norm_num, by norm_num, prime_165348b⟩) (by decide +kernel)

theorem rows_1fffffffc50001 {k : ℕ} (hk : k ≤ 14) : Nonempty (LimbOps (2 ^ k) 9007199250874369) :=
  rows_of_root (z := 3831614649833511) prime_1fffffffc50001 (by decide) (by norm_num) (by norm_num) hk (by decide +kernel)

theorem prime_2468acf1 : (610839793 : ℕ).Prime :=
  prime_of_lucas 13 4 [3, 3, 3, 3, 3, 157109] (by norm_num) (by norm_num) (by decide +kernel) (by norm_num) (by decide +kernel)
    (by simp only [List.forall_mem_cons, List.not_mem_nil, false_imp_iff, implies_true, and_true]; exact ⟨by norm_num, by norm_num, by norm_num, by norm_num, by norm_num, by norm_num⟩) (by decide +kernel)

theorem prime_1fffffffd10001 : (9007199251660801 : ℕ).Prime :=
  prime_of_lucas 17 16 [3, 3, 5, 5, 610839793] (by norm_num) (by norm_num) (by decide +kernel) (by norm_num) (by decide +kernel)
    (by simp only [List.forall_mem_cons, List.not_mem_nil, false_imp_iff, implies_true, and_true]; exact ⟨by norm_num, by norm_num, by norm_num, by norm_num, prime_2468acf1⟩) (by decide +kernel)

theorem rows_1fffffffd10001 {k : ℕ} (hk : k ≤ 14) : Nonempty (LimbOps (2 ^ k) 9007199251660801) :=
  rows_of_root (z := 1194447380597866) prime_1fffffffd10001 (by decide) (by norm_num) (by norm_num) hk (by decide +kernel)

theorem prime_4e6470b : (82200331 : ℕ).Prime :=
  prime_of_lucas 2 1 [3, 3, 5, 913337] (by norm_num) (by norm_num) (by decide +kernel) (by norm_num) (by decide +kernel)
    (by simp only [List.forall_mem_cons, List.not_mem_nil, false_imp_iff, implies_true, and_true]; exact ⟨by norm_num, by norm_num, by norm_num, by norm_num⟩) (by decide +kernel)

theorem prime_1fffffffd80001 : (9007199252119553 : ℕ).Prime :=
  prime_of_lucas 3 19 [11, 19, 82200331] (by norm_num) (by norm_num) (by decide +kernel) (by norm_num) (by decide +kernel)
    (by simp only [List.forall_mem_cons, List.not_mem_nil, false_imp_iff, implies_true, and_true]; exact ⟨by norm_num, by norm_num, prime_4e6470b⟩) (by decide +kernel)

theorem rows_1fffffffd80001 {k : ℕ} (hk : k ≤ 14) : Nonempty (LimbOps (2 ^ k) 9007199252119553) :=
  rows_of_root (z := 80681471943247) prime_1fffffffd80001 (by decide) (by norm_num) (by norm_num) hk (by decide +kernel)

theorem prime_3109193 : (51417491 : ℕ).Prime :=
  prime_of_lucas 2 1 [5, 71, 139, 521] (by norm_num) (by norm_num) (by decide +kernel) (by norm_num) (by decide +kernel)
    (by simp only [List.forall_mem_cons, List.not_mem_nil, false_imp_iff, implies_true, and_true]; exact ⟨by norm_num, by norm_num, by norm_num, by norm_num⟩) (by decide +kernel)

theorem prime_1fffffffe30001 : (9007199252840449 : ℕ).Prime :=
  prime_of_lucas 7 16 [3, 3, 3, 3, 3, 11, 51417491] (by norm_num) (by norm_num) (by decide +kernel) (by norm_num) (by decide +kernel)
    (by simp only [List.forall_mem_cons, List.not_mem_nil, false_imp_iff, implies_true, and_true]; exact ⟨by norm_num, by norm_num, by norm_num, by norm_num, by norm_num, by norm_num, prime_3109193⟩) (by decide +kernel)

theorem rows_1fffffffe30001 {k : ℕ} (hk : k ≤ 14) : Nonempty (LimbOps (2 ^ k) 9007199252840449) :=
  rows_of_root (z := 54728457711594) prime_1fffffffe30001 (by decide) (by norm_num) (by norm_num) hk (by decide +kernel)

theorem prime_9a90e7d5 : (2593187797 : ℕ).Prime :=
  prime_of_lucas 5 2 [3, 10247, 21089] (by norm_num) (by norm_num) (by decide +kernel) (by norm_num) (by decide +kernel)
    (by simp only [List.forall_mem_cons, List.not_mem_nil, false_imp_iff, implies_true, and_true]; exact ⟨by norm_num, by norm_num, by norm_num⟩) (by decide +kernel)

theorem prime_3ffffffe320001 : (18014398479204353 : ℕ).Prime :=
  prime_of_lucas 3 17 [53, 2593187797] (by norm_num) (by norm_num) (by decide +kernel) (by norm_num) (by decide +kernel)
    (by simp only [List.forall_mem_cons, List.not_mem_nil, false_imp_iff, implies_true, and_true]; exact ⟨by norm_num, prime_9a90e7d5⟩) (by decide +kernel)

theorem rows_3ffffffe320001 {k : ℕ} (hk : k ≤ 15) : Nonempty (LimbOps (2 ^ k) 18014398479204353) :=
  rows_of_root (z := 7201598451811247) prime_3ffffffe320001 (by decide) (by norm_num) (by norm_num) hk (by decide +kernel)

theorem prime_154e3b41 : (357448513 : ℕ).Prime :=
  prime_of_lucas 10 6 [3, 1861711] (by norm_num) (by norm_num) (by decide +kernel) (by norm_num) (by decide +kernel)
    (by simp only [List.forall_mem_cons, List.not_mem_nil, false_imp_iff, implies_true, and_true]; exact ⟨by norm_num, by norm_num⟩) (by decide +kernel)

theorem prime_3ffffffe410001 : (18014398480187393 : ℕ).Prime :=
  prime_of_lucas 3 16 [769, 357448513] (by norm_num) (by norm_num) (by decide +kernel) (by norm_num) (by decide +kernel)
    (by simp only [List.forall_mem_cons, List.not_mem_nil, false_imp_iff, implies_true, and_true]; exact ⟨by norm_num, prime_154e3b41⟩) (by decide +kernel)

theorem rows_3ffffffe410001 {k : ℕ} (hk : k ≤ 15) : Nonempty (LimbOps (2 ^ k) 18014398480187393) :=
  rows_of_root (z := 9519581413306459) prime_3ffffffe410001 (by decide) (by norm_num) (by norm_num) hk (by decide +kernel)

theorem prime_3ffffffe790001 : (18014398483857409 : ℕ).Prime :=
  prime_of_lucas 11 16 [3, 3, 659, 1447, 32029] (by norm_num) (by norm_num) (by decide +kernel) (by norm_num) (by decide +kernel)
    (by simp only [List.forall_mem_cons, List.not_mem_nil, false_imp_iff, implies_true, and_true]; exact ⟨by norm_num, by norm_num, by norm_num, by norm_num, by norm_num⟩) (by decide +kernel)

theorem rows_3ffffffe790001 {k : ℕ} (hk : k ≤ 15) : Nonempty (LimbOps (2 ^ k) 18014398483857409) :=
  rows_of_root (z := 10954602178181752) prime_3ffffffe790001 (by decide) (by norm_num) (by norm_num) hk (by decide +kernel)

theorem prime_3ffffffe800001 : (18014398484316161 : ℕ).Prime :=
  prime_of_lucas 6 23 [5, 19, 22605091] (by norm_num) (by norm_num) (by decide +kernel) (by norm_num) (by decide +kernel)
    (by simp only [List.forall_mem_cons, List.not_mem_nil, false_imp_iff, implies_true, and_true]; exact ⟨by norm_num, by norm_num, prime_158ed23⟩) (by decide +kernel)

theorem rows_3ffffffe800001 {k : ℕ} (hk : k ≤ 15) : Nonempty (LimbOps (2 ^ k) 18014398484316161) :=
  rows_of_root (z := 8708187168218502) prime_3ffffffe800001 (by decide) (by norm_num) (by norm_num) hk (by decide +kernel)

theorem prime_1e03a27 : (31472167 : ℕ).Prime :=
  prime_of_lucas 3 1 [3, 11, 476851] (by norm_num) (by norm_num) (by decide +kernel) (by norm_num) (by decide +kernel)
    (by simp only [List.forall_mem_cons, List.not_mem_nil, false_imp_iff, implies_true, and_true]; exact ⟨by norm_num, by norm_num, by norm_num⟩) (by decide +kernel)

theorem prime_3ffffffe920001 : (18014398485495809 : ℕ).Prime :=
  prime_of_lucas 3 17 [11, 397, 31472167] (by norm_num) (by norm_num) (by decide +kernel) (by norm_num) (by decide +kernel)
    (by simp only [List.forall_mem_cons, List.not_mem_nil, false_imp_iff, implies_true, and_true]; exact ⟨by norm_num, by norm_num, prime_1e03a27⟩) (by decide +kernel)

theorem rows_3ffffffe920001 {k : ℕ} (hk : k ≤ 15) : Nonempty (LimbOps (2 ^ k) 18014398485495809) :=
  rows_of_root (z := 7095667632875899) prime_3ffffffe920001 (by decide) (by norm_num) (by norm_num) hk (by decide +kernel)

theorem prime_3ffffffe970001 : (18014398485823489 : ℕ).Prime :=
  prime_of_lucas 11 16 [3, 7, 24967, 524269] (by norm_num) (by norm_num) (by decide +kernel) (by norm_num) (by decide +kernel)
    (by simp only [List.forall_mem_cons, List.not_mem_nil, false_imp_iff, implies_true, and_true]; exact ⟨by norm_num, by norm_num, by norm_num, by norm_num⟩) (by decide +kernel)

theorem rows_3ffffffe970001 {k : ℕ} (hk : k ≤ 15) : Nonempty (LimbOps (2 ^ k) 18014398485823489) :=
  rows_of_root (z := 10875921816360843) prime_3ffffffe970001 (by decide) (by norm_num) (by norm_num) hk (by decide +kernel)

theorem prime_282b4eb : (42120427 : ℕ).Prime :=
  prime_of_lucas 3 1 [3, 1987, 3533] (by norm_num) (by norm_num) (by decide +kernel) (by norm_num) (by decide +kernel)
    (by simp only [List.forall_mem_cons, List.not_mem_nil, false_imp_iff, implies_true, and_true]; exact ⟨by norm_num, by norm_num, by norm_num⟩) (by decide +kernel)

theorem prime_3ffffffeaa0001 : (18014398487068673 : ℕ).Prime :=
  prime_of_lucas 3 17 [13, 251, 42120427] (by norm_num) (by norm_num) (by decide +kernel) (by norm_num) (by decide +kernel)
    (by simp only [List.forall_mem_cons, List.not_mem_nil, false_imp_iff, implies_true, and_true]; exact ⟨by norm_num, by norm_num, prime_282b4eb⟩) (by decide +kernel)

theorem rows_3ffffffeaa0001 {k : ℕ} (hk : k ≤ 15) : Nonempty (LimbOps (2 ^ k) 18014398487068673) :=
  rows_of_root (z := 12232586527693525) prime_3ffffffeaa0001 (by decide) (by norm_num) (by norm_num) hk (by decide +kernel)

theorem prime_436c82a1 : (1131184801 : ℕ).Prime :=
  prime_of_lucas 7 5 [3, 3, 5, 5, 157109] (by norm_num) (by norm_num) (by decide +kernel) (by norm_num) (by decide +kernel)
    (by simp only [List.forall_mem_cons, List.not_mem_nil, false_imp_iff, implies_true, and_true]; exact ⟨by norm_num, by norm_num, by norm_num, by norm_num, by norm_num⟩) (by decide +kernel)

theorem prime_3ffffffed30001 : (18014398489755649 : ℕ).Prime :=
  prime_of_lucas 13 16 [3, 3, 3, 3, 3, 1131184801] (by norm_num) (by norm_num) (by decide +kernel) (by norm_num) (by decide +kernel)
    (by simp only [List.forall_mem_cons, List.not_mem_nil, false_imp_iff, implies_true, and_true]; exact ⟨by norm_num, by norm_num, by norm_num, by norm_num, by norm_num, prime_436c82a1⟩) (by decide +kernel)

theorem rows_3ffffffed30001 {k : ℕ} (hk : k ≤ 15) : Nonempty (LimbOps (2 ^ k) 18014398489755649) :=
  rows_of_root (z := 17022205020376607) prime_3ffffffed30001 (by decide) (by norm_num) (by norm_num) hk (by decide +kernel)

theorem prime_18618617f : (6544712063 : ℕ).Prime :=
  prime_of_lucas 5 1 [7, 2129, 219577] (by norm_num) (by norm_num) (by decide +kernel) (by norm_num) (by decide +kernel)
    (by simp only [List.forall_mem_cons, List.not_mem_nil, false_imp_iff, implies_true, and_true]; exact ⟨by norm_num, by norm_num, by norm_num⟩) (by decide +kernel)

theorem prime_3ffffffed7 : (274877906647 : ℕ).Prime :=
  prime_of_lucas 6 1 [3, 7, 6544712063] (by norm_num) (by norm_num) (by decide +kernel) (by norm_num) (by decide +kernel)
    (by simp only [List.forall_mem_cons, List.not_mem_nil, false_imp_iff, implies_true, and_true]; exact ⟨by norm_num, by norm_num, prime_18618617f⟩) (by decide +kernel)

theorem prime_3ffffffed70001 : (18014398490017793 : ℕ).Prime :=
  prime_of_lucas 3 16 [274877906647] (by norm_num) (by norm_num) (by decide +kernel) (by norm_num) (by decide +kernel)
    (by simp only [List.forall_mem_cons, List.not_mem_nil, false_imp_iff, implies_true, and_true]; exact prime_3ffffffed7) (by decide +kernel)

theorem rows_3ffffffed70001 {k : ℕ} (hk : k ≤ 15) : Nonempty (LimbOps (2 ^ k) 18014398490017793) :=
  rows_of_root (z := 9262645573027320) prime_3ffffffed70001 (by decide) (by norm_num) (by norm_num) hk (by decide +kernel)

theorem prime_5050504f : (1347440719 : ℕ).Prime :=
  prime_of_lucas 3 1 [3, 13, 13, 499, 2663] (by norm_num) (by norm_num) (by decide +kernel) (by norm_num) (by decide +kernel)
    (by simp only [List.forall_mem_cons, List.not_mem_nil, false_imp_iff, implies_true, and_true]; exact ⟨by norm_num, by norm_num, by norm_num, by norm_num, by norm_num⟩) (by decide +kernel)

theorem prime_3ffffffef40001 : (18014398491918337 : ℕ).Prime :=
  prime_of_lucas 7 18 [3, 17, 1347440719] (by norm_num) (by norm_num) (by decide +kernel) (by norm_num) (by decide +kernel)
    (by simp only [List.forall_mem_cons, List.not_mem_nil, false_imp_iff, implies_true, and_true]; exact ⟨by norm_num, by norm_num, prime_5050504f⟩) (by decide +kernel)

theorem rows_3ffffffef40001 {k : ℕ} (hk : k ≤ 15) : Nonempty (LimbOps (2 ^ k) 18014398491918337) :=
  rows_of_root (z := 2151277581576054) prime_3ffffffef40001 (by decide) (by norm_num) (by norm_num) hk (by decide +kernel)

theorem prime_3ffffffefa0001 : (18014398492311553 : ℕ).Prime :=
  prime_of_lucas 5 17 [3, 23, 127, 173, 90659] (by norm_num) (by norm_num) (by decide +kernel) (by norm_num) (by decide +kernel)
    (by simp only [List.forall_mem_cons, List.not_mem_nil, false_imp_iff, implies_true, and_true]; exact ⟨by norm_num, by norm_num, by norm_num, by norm_num, by norm_num⟩) (by decide +kernel)

theorem rows_3ffffffefa0001 {k : ℕ} (hk : k ≤ 15) : Nonempty (LimbOps (2 ^ k) 18014398492311553) :=
  rows_of_root (z := 5919288865957998) prime_3ffffffefa0001 (by decide) (by norm_num) (by norm_num) hk (by decide +kernel)

theorem prime_3fffffff000001 : (18014398492704769 : ℕ).Prime :=
  prime_of_lucas 38 24 [3, 3, 7, 11, 31, 151, 331] (by norm_num) (by norm_num) (by decide +kernel) (by norm_num) (by decide +kernel)
    (by simp only [List.forall_mem_cons, List.not_mem_nil, false_imp_iff, implies_true, and_true]; exact ⟨by norm_num, by norm_num, by norm_num, by norm_num, by norm_num, by norm_num, by norm_num⟩) (by decide +kernel)

theorem rows_3fffffff000001 {k : ℕ} (hk : k ≤ 15) : Nonempty (LimbOps (2 ^ k) 18014398492704769) :=
  rows_of_root (z := 15830018916026548) prime_3fffffff000001 (by decide) (by norm_num) (by norm_num) hk (by decide +kernel)

theorem prime_3fffffff2a0001 : (18014398495457281 : ℕ).Prime :=
  prime_of_lucas 13 17 [3, 5, 7, 26431, 49523] (by norm_num) (by norm_num) (by decide +kernel) (by norm_num) (by decide +kernel)
    (by simp only [List.forall_mem_cons, List.not_mem_nil, false_imp_iff, implies_true, and_true]; exact ⟨by norm_num, by norm_num, by norm_num, by norm_num, by norm_num⟩) (by decide +kernel)

theorem rows_3fffffff2a0001 {k : ℕ} (hk : k ≤ 15) : Nonempty (LimbOps (2 ^ k) 18014398495457281) :=
  rows_of_root (z := 16689072915307334) prime_3fffffff2a0001 (by decide) (by norm_num) (by norm_num) hk (by decide +kernel)

theorem prime_38e38e383 : (15270994819 : ℕ).Prime :=
  prime_of_lucas 2 1 [3, 3, 10337, 82073] (by norm_num) (by norm_num) (by decide +kernel) (by norm_num) (by decide +kernel)
    (by simp only [List.forall_mem_cons, List.not_mem_nil, false_imp_iff, implies_true, and_true]; exact ⟨by norm_num, by norm_num, by norm_num, by norm_num⟩) (by decide +kernel)

theorem prime_3fffffff360001 : (18014398496243713 : ℕ).Prime :=
  prime_of_lucas 5 17 [3, 3, 15270994819] (by norm_num) (by norm_num) (by decide +kernel) (by norm_num) (by decide +kernel)
    (by simp only [List.forall_mem_cons, List.not_mem_nil, false_imp_iff, implies_true, and_true]; exact ⟨by norm_num, by norm_num, prime_38e38e383⟩) (by decide +kernel)

theorem rows_3fffffff360001 {k : ℕ} (hk : k ≤ 15) : Nonempty (LimbOps (2 ^ k) 18014398496243713) :=
  rows_of_root (z := 15678278338511305) prime_3fffffff360001 (by decide) (by norm_num) (by norm_num) hk (by decide +kernel)

theorem prime_3fffffff390001 : (18014398496440321 : ℕ).Prime :=
  prime_of_lucas 7 16 [3, 5, 13, 16217, 86923] (by norm_num) (by norm_num) (by decide +kernel) (by norm_num) (by decide +kernel)
    (by simp only [List.forall_mem_cons, List.not_mem_nil, false_imp_iff, implies_true, and_true]; exact ⟨by norm_num, by norm_num, by norm_num, by norm_num, by norm_num⟩) (by decide +kernel)

theorem rows_3fffffff390001 {k : ℕ} (hk : k ≤ 15) : Nonempty (LimbOps (2 ^ k) 18014398496440321) :=
  rows_of_root (z := 2637855342907683) prime_3fffffff390001 (by decide) (by norm_num) (by norm_num) hk (by decide +kernel)

theorem prime_10c9714f9 : (4506195193 : ℕ).Prime :=
  prime_of_lucas 5 3 [3, 19, 919, 10753] (by norm_num) (by norm_num) (by decide +kernel) (by norm_num) (by decide +kernel)
    (by simp only [List.forall_mem_cons, List.not_mem_nil, false_imp_iff, implies_true, and_true]; exact ⟨by norm_num, by norm_num, by norm_num, by norm_num⟩) (by decide +kernel)

theorem prime_3fffffff550001 : (18014398498275329 : ℕ).Prime :=
  prime_of_lucas 3 16 [61, 4506195193] (by norm_num) (by norm_num) (by decide +kernel) (by norm_num) (by decide +kernel)
    (by simp only [List.forall_mem_cons, List.not_mem_nil, false_imp_iff, implies_true, and_true]; exact ⟨by norm_num, prime_10c9714f9⟩) (by decide +kernel)

theorem rows_3fffffff550001 {k : ℕ} (hk : k ≤ 15) : Nonempty (LimbOps (2 ^ k) 18014398498275329) :=
  rows_of_root (z := 12399842671717063) prime_3fffffff550001 (by decide) (by norm_num) (by norm_num) hk (by decide +kernel)

theorem prime_3fffffff5d0001 : (18014398498799617 : ℕ).Prime :=
  prime_of_lucas 5 16 [3, 31, 20483, 144299] (by norm_num) (by norm_num) (by decide +kernel) (by norm_num) (by decide +kernel)
    (by simp only [List.forall_mem_cons, List.not_mem_nil, false_imp_iff, implies_true, and_true]; exact ⟨by norm_num, by norm_num, by norm_num, by norm_num⟩) (by decide +kernel)

theorem rows_3fffffff5d0001 {k : ℕ} (hk : k ≤ 15) : Nonempty (LimbOps (2 ^ k) 18014398498799617) :=
  rows_of_root (z := 2697199737055144) prime_3fffffff5d0001 (by decide) (by norm_num) (by norm_num) hk (by decide +kernel)

theorem prime_3fffffff6d0001 : (18014398499848193 : ℕ).Prime :=
  prime_of_lucas 3 16 [13, 23, 347, 479, 5531] (by norm_num) (by norm_num) (by decide +kernel) (by norm_num) (by decide +kernel)
    (by simp only [List.forall_mem_cons, List.not_mem_nil, false_imp_iff, implies_true, and_true]; exact ⟨by norm_num, by norm_num, by norm_num, by norm_num, by norm_num⟩) (by decide +kernel)

theorem rows_3fffffff6d0001 {k : ℕ} (hk : k ≤ 15) : Nonempty (LimbOps (2 ^ k) 18014398499848193) :=
  rows_of_root (z := 4879360000855566) prime_3fffffff6d0001 (by decide) (by norm_num) (by norm_num) hk (by decide +kernel)

theorem prime_4363a2d : (70662701 : ℕ).Prime :=
  prime_of_lucas 10 2 [5, 5, 277, 2551] (by norm_num) (by norm_num) (by decide +kernel) (by norm_num) (by decide +kernel)
    (by simp only [List.forall_mem_cons, List.not_mem_nil, false_imp_iff, implies_true, and_true]; exact ⟨by norm_num, by norm_num, by norm_num, by norm_num⟩) (by decide +kernel)

theorem prime_3fffffffca0001 : (18014398505943041 : ℕ).Prime :=
  prime_of_lucas 3 17 [5, 389, 70662701] (by norm_num) (by norm_num) (by decide +kernel) (by norm_num) (by decide +kernel)
    (by simp only [List.forall_mem_cons, List.not_mem_nil, false_imp_iff, implies_true, and_true]; exact ⟨by norm_num, by norm_num, prime_4363a2d⟩) (by decide +kernel)

theorem rows_3fffffffca0001 {k : ℕ} (hk : k ≤ 15) : Nonempty (LimbOps (2 ^ k) 18014398505943041) :=
  rows_of_root (z := 12474175070067225) prime_3fffffffca0001 (by decide) (by norm_num) (by norm_num) hk (by decide +kernel)

theorem prime_1af286bc9 : (7233629129 : ℕ).Prime :=
  prime_of_lucas 3 3 [11, 82200331] (by norm_num) (by norm_num) (by decide +kernel) (by norm_num) (by decide +kernel)
    (by simp only [List.forall_mem_cons, List.not_mem_nil, false_imp_iff, implies_true, and_true]; exact ⟨by norm_num, prime_4e6470b⟩) (by decide +kernel)

theorem prime_3fffffffd60001 : (18014398506729473 : ℕ).Prime :=
  prime_of_lucas 3 17 [19, 7233629129] (by norm_num) (by norm_num) (by decide +kernel) (by norm_num) (by decide +kernel)
    (by simp only [List.forall_mem_cons, List.not_mem_nil, false_imp_iff, implies_true, and_true]; exact ⟨by norm_num, prime_1af286bc9⟩) (by decide +kernel)

theorem rows_3fffffffd60001 {k : ℕ} (hk : k ≤ 15) : Nonempty (LimbOps (2 ^ k) 18014398506729473) :=
  rows_of_root (z := 17965612358773772) prime_3fffffffd60001 (by decide) (by norm_num) (by norm_num) hk (by decide +kernel)

theorem prime_4aa9e39 : (78290489 : ℕ).Prime :=
  prime_of_lucas 3 3 [19, 29, 17761] (by norm_num) (by norm_num) (by decide +kernel) (by norm_num) (by decide +kernel)
    (by simp only [List.forall_mem_cons, List.not_mem_nil, false_imp_iff, implies_true, and_true]; exact ⟨by norm_num, by norm_num, by norm_num⟩) (by decide +kernel)

theorem prime_7fffffff7e0001 : (36028797010444289 : ℕ).Prime :=
  prime_of_lucas 3 17 [3511, 78290489] (by norm_num) (by norm_num) (by decide +kernel) (by norm_num) (by decide +kernel)
    (by simp only [List.forall_mem_cons, List.not_mem_nil, false_imp_iff, implies_true, and_true]; exact ⟨by norm_num, prime_4aa9e39⟩) (by decide +kernel)

theorem rows_7fffffff7e0001 {k : ℕ} (hk : k ≤ 15) : Nonempty (LimbOps (2 ^ k) 36028797010444289) :=
  rows_of_root (z := 19525391487962010) prime_7fffffff7e0001 (by decide) (by norm_num) (by norm_num) hk (by decide +kernel)

theorem prime_7fffffff9f0001 : (36028797012606977 : ℕ).Prime :=
  prime_of_lucas 3 16 [59, 1669, 5582921] (by norm_num) (by norm_num) (by decide +kernel) (by norm_num) (by decide +kernel)
    (by simp only [List.forall_mem_cons, List.not_mem_nil, false_imp_iff, implies_true, and_true]; exact ⟨by norm_num, by norm_num, by norm_num⟩) (by decide +kernel)

theorem rows_7fffffff9f0001 {k : ℕ} (hk : k ≤ 15) : Nonempty (LimbOps (2 ^ k) 36028797012606977) :=
  rows_of_root (z := 21715366581594520) prime_7fffffff9f0001 (by decide) (by norm_num) (by norm_num) hk (by decide +kernel)

theorem prime_7fffffffa5 : (549755813797 : ℕ).Prime :=
  prime_of_lucas 2 2 [3, 7, 7, 233, 409, 9811] (by norm_num) (by norm_num) (by decide +kernel) (by norm_num) (by decide +kernel)
    (by simp only [List.forall_mem_cons, List.not_mem_nil, false_imp_iff, implies_true, and_true]; exact ⟨by norm_num, by norm_num, by norm_num, by norm_num, by norm_num, by norm_num⟩) (by decide +kernel)

theorem prime_7fffffffa50001 : (36028797013000193 : ℕ).Prime :=
  prime_of_lucas 3 16 [549755813797] (by norm_num) (by norm_num) (by decide +kernel) (by norm_num) (by decide +kernel)
    (by simp only [List.forall_mem_cons, List.not_mem_nil, false_imp_iff, implies_true, and_true]; exact prime_7fffffffa5) (by decide +kernel)

theorem rows_7fffffffa50001 {k : ℕ} (hk : k ≤ 15) : Nonempty (LimbOps (2 ^ k) 36028797013000193) :=
  rows_of_root (z := 1571592147724705) prime_7fffffffa50001 (by decide) (by norm_num) (by norm_num) hk (by decide +kernel)

theorem prime_7fffffffaa0001 : (36028797013327873 : ℕ).Prime :=
  prime_of_lucas 5 17 [3, 13, 163, 5119, 8447] (by norm_num) (by norm_num) (by decide +kernel) (by norm_num) (by decide +kernel)
    (by simp only [List.forall_mem_cons, List.not_mem_nil, false_imp_iff, implies_true, and_true]; exact ⟨by norm_num, by norm_num, by norm_num, by norm_num, by norm_num⟩) (by decide +kernel)

theorem rows_7fffffffaa0001 {k : ℕ} (hk : k ≤ 16) : Nonempty (LimbOps (2 ^ k) 36028797013327873) :=
  rows_of_root (z := 8750162127986996) prime_7fffffffaa0001 (by decide) (by norm_num) (by norm_num) hk (by decide +kernel)

theorem prime_5afd99d : (95410589 : ℕ).Prime :=
  prime_of_lucas 2 2 [7, 13, 61, 4297] (by norm_num) (by norm_num) (by decide +kernel) (by norm_num) (by decide +kernel)
    (by simp only [List.forall_mem_cons, List.not_mem_nil, false_imp_iff, implies_true, and_true]; exact ⟨by norm_num, by norm_num, by norm_num, by norm_num⟩) (by decide +kernel)

theorem prime_7fffffffba0001 : (36028797014376449 : ℕ).Prime :=
  prime_of_lucas 3 17 [43, 67, 95410589] (by norm_num) (by norm_num) (by decide +kernel) (by norm_num) (by decide +kernel)
    (by simp only [List.forall_mem_cons, List.not_mem_nil, false_imp_iff, implies_true, and_true]; exact ⟨by norm_num, by norm_num, prime_5afd99d⟩) (by decide +kernel)

theorem rows_7fffffffba0001 {k : ℕ} (hk : k ≤ 16) : Nonempty (LimbOps (2 ^ k) 36028797014376449) :=
  rows_of_root (z := 17941272946583125) prime_7fffffffba0001 (by decide) (by norm_num) (by norm_num) hk (by decide +kernel)

theorem prime_7fffffffbd : (549755813821 : ℕ).Prime :=
  prime_of_lucas 18 2 [3, 5, 28297, 323801] (by norm_num) (by norm_num) (by decide +kernel) (by norm_num) (by decide +kernel)
    (by simp only [List.forall_mem_cons, List.not_mem_nil, false_imp_iff, implies_true, and_true]; exact ⟨by norm_num, by norm_num, by norm_num, by norm_num⟩) (by decide +kernel)

theorem prime_7fffffffbd0001 : (36028797014573057 : ℕ).Prime :=
  prime_of_lucas 3 16 [549755813821] (by norm_num) (by norm_num) (by decide +kernel) (by norm_num) (by decide +kernel)
    (by simp only [List.forall_mem_cons, List.not_mem_nil, false_imp_iff, implies_true, and_true]; exact prime_7fffffffbd) (by decide +kernel)

theorem rows_7fffffffbd0001 {k : ℕ} (hk : k ≤ 15) : Nonempty (LimbOps (2 ^ k) 36028797014573057) :=
  rows_of_root (z := 9738312694544604) prime_7fffffffbd0001 (by decide) (by norm_num) (by norm_num) hk (by decide +kernel)

theorem prime_c3b3ef9 : (205209337 : ℕ).Prime :=
  prime_of_lucas 5 3 [3, 29, 31, 9511] (by norm_num) (by norm_num) (by decide +kernel) (by norm_num) (by decide +kernel)
    (by simp only [List.forall_mem_cons, List.not_mem_nil, false_imp_iff, implies_true, and_true]; exact ⟨by norm_num, by norm_num, by norm_num, by norm_num⟩) (by decide +kernel)

theorem prime_7fffffffbf0001 : (36028797014704129 : ℕ).Prime :=
  prime_of_lucas 7 16 [3, 19, 47, 205209337] (by norm_num) (by norm_num) (by decide +kernel) (by norm_num) (by decide +kernel)
    (by simp only [List.forall_mem_cons, List.not_mem_nil, false_imp_iff, implies_true, and_true]; exact ⟨by norm_num, by norm_num, by norm_num, prime_c3b3ef9⟩) (by decide +kernel)

theorem rows_7fffffffbf0001 {k : ℕ} (hk : k ≤ 15) : Nonempty (LimbOps (2 ^ k) 36028797014704129) :=
  rows_of_root (z := 6512428802606947) prime_7fffffffbf0001 (by decide) (by norm_num) (by norm_num) hk (by decide +kernel)

theorem prime_24a34bd : (38417597 : ℕ).Prime :=
  prime_of_lucas 2 2 [7, 857, 1601] (by norm_num) (by norm_num) (by decide +kernel) (by norm_num) (by decide +kernel)
    (by simp only [List.forall_mem_cons, List.not_mem_nil, false_imp_iff, implies_true, and_true]; exact ⟨by norm_num, by norm_num, by norm_num⟩) (by decide +kernel)

theorem prime_2937b54b : (691516747 : ℕ).Prime :=
  prime_of_lucas 5 1 [3, 3, 38417597] (by norm_num) (by norm_num) (by decide +kernel) (by norm_num) (by decide +kernel)
    (by simp only [List.forall_mem_cons, List.not_mem_nil, false_imp_iff, implies_true, and_true]; exact ⟨by norm_num, by norm_num, prime_24a34bd⟩) (by decide +kernel)

theorem prime_7fffffffe90001 : (36028797017456641 : ℕ).Prime :=
  prime_of_lucas 7 16 [3, 5, 53, 691516747] (by norm_num) (by norm_num) (by decide +kernel) (by norm_num) (by decide +kernel)
    (by simp only [List.forall_mem_cons, List.not_mem_nil, false_imp_iff, implies_true, and_true]; exact ⟨by norm_num, by norm_num, by norm_num, prime_2937b54b⟩) (by decide +kernel)

theorem rows_7fffffffe90001 {k : ℕ} (hk : k ≤ 15) : Nonempty (LimbOps (2 ^ k) 36028797017456641) :=
  rows_of_root (z := 24492405559861051) prime_7fffffffe90001 (by decide) (by norm_num) (by norm_num) hk (by decide +kernel)

theorem prime_80000000080001 : (36028797019488257 : ℕ).Prime :=
  prime_of_lucas 3 19 [17, 241, 433, 38737] (by norm_num) (by norm_num) (by decide +kernel) (by norm_num) (by decide +kernel)
    (by simp only [List.forall_mem_cons, List.not_mem_nil, false_imp_iff, implies_true, and_true]; exact ⟨by norm_num, by norm_num, by norm_num, by norm_num⟩) (by decide +kernel)

theorem rows_80000000080001 {k : ℕ} (hk : k ≤ 16) : Nonempty (LimbOps (2 ^ k) 36028797019488257) :=
  rows_of_root (z := 5496172116484437) prime_80000000080001 (by decide) (by norm_num) (by norm_num) hk (by decide +kernel)

theorem prime_80000000440001 : (36028797023420417 : ℕ).Prime :=
  prime_of_lucas 3 18 [19, 42379, 170689] (by norm_num) (by norm_num) (by decide +kernel) (by norm_num) (by decide +kernel)
    (by simp only [List.forall_mem_cons, List.not_mem_nil, false_imp_iff, implies_true, and_true]; exact ⟨by norm_num, by norm_num, by norm_num⟩) (by decide +kernel)

theorem rows_80000000440001 {k : ℕ} (hk : k ≤ 16) : Nonempty (LimbOps (2 ^ k) 36028797023420417) :=
  rows_of_root (z := 990087887418232) prime_80000000440001 (by decide) (by norm_num) (by norm_num) hk (by decide +kernel)

theorem prime_22b63cbf : (582368447 : ℕ).Prime :=
  prime_of_lucas 5 1 [11, 47, 563219] (by norm_num) (by norm_num) (by decide +kernel) (by norm_num) (by decide +kernel)
    (by simp only [List.forall_mem_cons, List.not_mem_nil, false_imp_iff, implies_true, and_true]; exact ⟨by norm_num, by norm_num, by norm_num⟩) (by decide +kernel)

theorem prime_80000000500001 : (36028797024206849 : ℕ).Prime :=
  prime_of_lucas 3 20 [59, 582368447] (by norm_num) (by norm_num) (by decide +kernel) (by norm_num) (by decide +kernel)
    (by simp only [List.forall_mem_cons, List.not_mem_nil, false_imp_iff, implies_true, and_true]; exact ⟨by norm_num, prime_22b63cbf⟩) (by decide +kernel)

theorem rows_80000000500001 {k : ℕ} (hk : k ≤ 16) : Nonempty (LimbOps (2 ^ k) 36028797024206849) :=
  rows_of_root (z := 22478341329029611) prime_80000000500001 (by decide) (by norm_num) (by norm_num) hk (by decide +kernel)

theorem prime_34a661cb : (883319243 : ℕ).Prime :=
  prime_of_lucas 2 1 [13, 733, 46349] (by norm_num) (by norm_num) (by decide +kernel) (by norm_num) (by decide +kernel)
    (by simp only [List.forall_mem_cons, List.not_mem_nil, false_imp_iff, implies_true, and_true]; exact ⟨by norm_num, by norm_num, by norm_num⟩) (by decide +kernel)

theorem prime_558e5ee9f : (22966300319 : ℕ).Prime :=
  prime_of_lucas 7 1 [13, 883319243] (by norm_num) (by norm_num) (by decide +kernel) (by norm_num) (by decide +kernel)
    (by simp only [List.forall_mem_cons, List.not_mem_nil, false_imp_iff, implies_true, and_true]; exact ⟨by norm_num, prime_34a661cb⟩) (by decide +kernel)

theorem prime_7ffffffffe10001 : (576460752301391873 : ℕ).Prime :=
  prime_of_lucas 3 16 [383, 22966300319] (by norm_num) (by norm_num) (by decide +kernel) (by norm_num) (by decide +kernel)
    (by simp only [List.forall_mem_cons, List.not_mem_nil, false_imp_iff, implies_true, and_true]; exact ⟨by norm_num, prime_558e5ee9f⟩) (by decide +kernel)

theorem rows_7ffffffffe10001 {k : ℕ} (hk : k ≤ 15) : Nonempty (LimbOps (2 ^ k) 576460752301391873) :=
  rows_of_root (z := 7430198914596132) prime_7ffffffffe10001 (by decide) (by norm_num) (by norm_num) hk (by decide +kernel)

theorem prime_6dc0a80f : (1841342479 : ℕ).Prime :=
  prime_of_lucas 3 1 [3, 19, 439, 36793] (by norm_num) (by norm_num) (by decide +kernel) (by norm_num) (by decide +kernel)
    (by simp only [List.forall_mem_cons, List.not_mem_nil, false_imp_iff, implies_true, and_true]; exact ⟨by norm_num, by norm_num, by norm_num, by norm_num⟩) (by decide +kernel)

theorem prime_7ffffffffe70001 : (576460752301785089 : ℕ).Prime :=
  prime_of_lucas 3 16 [17, 281, 1841342479] (by norm_num) (by norm_num) (by decide +kernel) (by norm_num) (by decide +kernel)
    (by simp only [List.forall_mem_cons, List.not_mem_nil, false_imp_iff, implies_true, and_true]; exact ⟨by norm_num, by norm_num, prime_6dc0a80f⟩) (by decide +kernel)

theorem rows_7ffffffffe70001 {k : ℕ} (hk : k ≤ 15) : Nonempty (LimbOps (2 ^ k) 576460752301785089) :=
  rows_of_root (z := 68295455694347081) prime_7ffffffffe70001 (by decide) (by norm_num) (by norm_num) hk (by decide +kernel)

theorem prime_1aa0643 : (27919939 : ℕ).Prime :=
  prime_of_lucas 2 1 [3, 107, 157, 277] (by norm_num) (by norm_num) (by decide +kernel) (by norm_num) (by decide +kernel)
    (by simp only [List.forall_mem_cons, List.not_mem_nil, false_imp_iff, implies_true, and_true]; exact ⟨by norm_num, by norm_num, by norm_num, by norm_num⟩) (by decide +kernel)

theorem prime_fffffffff6a0001 : (1152921504597016577 : ℕ).Prime :=
  prime_of_lucas 3 17 [315047, 27919939] (by norm_num) (by norm_num) (by decide +kernel) (by norm_num) (by decide +kernel)
    (by simp only [List.forall_mem_cons, List.not_mem_nil, false_imp_iff, implies_true, and_true]; exact ⟨by norm_num, prime_1aa0643⟩) (by decide +kernel)

theorem rows_fffffffff6a0001 {k : ℕ} (hk : k ≤ 15) : Nonempty (LimbOps (2 ^ k) 1152921504597016577) :=
  rows_of_root (z := 741224627014235163) prime_fffffffff6a0001 (by decide) (by norm_num) (by norm_num) hk (by decide +kernel)

theorem prime_fffffffff840001 : (1152921504598720513 : ℕ).Prime :=
  prime_of_lucas 5 18 [3, 571, 2099, 1223179] (by norm_num) (by norm_num) (by decide +kernel) (by norm_num) (by decide +kernel)
    (by simp only [List.forall_mem_cons, List.not_mem_nil, false_imp_iff, implies_true, and_true]; exact ⟨by norm_num, by norm_num, by norm_num, by norm_num⟩) (by decide +kernel)

theorem rows_fffffffff840001 {k : ℕ} (hk : k ≤ 15) : Nonempty (LimbOps (2 ^ k) 1152921504598720513) :=
  rows_of_root (z := 684110995036099206) prime_fffffffff840001 (by decide) (by norm_num) (by norm_num) hk (by decide +kernel)

theorem prime_ffffffffffc0001 : (1152921504606584833 : ℕ).Prime :=
  prime_of_lucas 10 18 [3, 3, 7, 7, 43, 127, 337, 5419] (by norm_num) (by norm_num) (by decide +kernel) (by norm_num) (by decide +kernel)
    (by simp only [List.forall_mem_cons, List.not_mem_nil, false_imp_iff, implies_true, and_true]; exact ⟨by norm_num, by norm_num, by norm_num, by norm_num, by norm_num, by norm_num, by norm_num, by norm_num⟩) (by decide +kernel)

theorem rows_ffffffffffc0001 {k : ℕ} (hk : k ≤ 15) : Nonempty (LimbOps (2 ^ k) 1152921504606584833) :=
  rows_of_root (z := 1100972123716672435) prime_ffffffffffc0001 (by decide) (by norm_num) (by norm_num) hk (by decide +kernel)

end MKHE.Moduli
