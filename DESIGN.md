# Formal model of SNUCP/MKHE-KKLSS in Lean 4 — design

The code in /repo is read as text only. `/verif/lean` holds a Lean 4 model of it, function by
function (each definition cites file:lines), and theorems about that model. Nothing ties the
model to the code other than the reading: that reading is part of the trusted base.

## 1. Trusted base

* Lean 4.33.0 kernel; the Mathlib definitions used in statements (`ZMod`, `Finset.sum`, `ℂ`, ...).
* Axioms: at most `propext`, `Classical.choice`, `Quot.sound`, for every theorem (vcheck replays all modules in the kernel and lists axioms). None of our own,
  no `native_decide`, no `bv_decide`. Large closed numerals (primality of the shipped moduli, noise budgets) are settled with `decide +kernel`, i.e. by
  reduction in the kernel.
* The transcription Go -> Lean: the reading of /repo, with the conventions of section 2.
* `tools/primes.py` and `tools/literals.py` generate `Base/PrimeList.lean`, `Spec/Literals.lean` and `Props/Literals.lean`. They are not trusted for truth
  (what they write is checked by the kernel); that the numbers in `Spec/Literals.lean` are those of mkbfv_test.go, mkckks_test.go, cnn_test.go is reading.
* Contracts of code that is not in /repo (lattigo v2.3.0, Go runtime, IEEE floats). Each is an explicit hypothesis or a structure field, never an axiom, and
  each is shown satisfiable by a concrete instance:
  - `LimbOps N q` (Base/Limb.lean): the lattigo `ring` operations on one row (`NTTLvl`, `NTTLazy`, `InvNTTLvl`, `InvNTTLazyLvl`, `MFormLvl`, `InvMFormLvl`,
    `MulCoeffsMontgomery*`, `AddLvl`, `SubLvl`, `NegLvl`, `ReduceLvl`, `MulScalar*Lvl`, `PermuteNTTWithIndexLvl`, `Permute`). They act row by row on words
    at most `q` and are right modulo `q`; the NTT is a ring isomorphism from the negacyclic ring to the pointwise product ring. Base/LimbInst.lean builds an
    instance for every odd prime below 2^61 with a primitive 2N-th root of unity, and Base/Rows.lean for all shipped moduli.
  - lattigo scalar functions `MRed`, `MForm`, `ModExp`, `MRedParams`, ... are transcribed (Model/Scalar.lean) and *proved* to meet their specification.
  - lattigo samplers: streams of integer polynomials with a stated bound (1 for ternary, 19 for the Gaussian with sigma 3.2 cut at 6 sigma); `ReadAndAddLvl` and
    `ExtendBasisSmallNormAndCenter` are modelled from knowledge of lattigo's source.
  - lattigo's `ModDownQPtoQ` (embedded in `rlwe.KeySwitcher`): modelled by the repository's own copy of that code, for which C39 is proved.
  - lattigo's `DivRoundByLastModulus(Many)`: an explicit formula (rounded division by the last prime). The possibility that it modifies the last row of its
    input is outside the model.
  - `ringQ.Permute` in Conjugate may loop over all moduli of the ring; the number of rows it covers is a parameter (`permLevel`), see C36.
  - `AddScalarBigint` of lattigo adds to every coefficient of a row (relevant for C25/C53).
  - encoders and decoders of CKKS/BFV are not modelled as code. What they return is specified: `Encodes` (BFV: `ScaleUp` of a message, Props/BfvSem), `CkksPt`,
    `EncodesAt`, `EncodesAll` (CKKS: integer polynomial whose slots are close to scale * message; Encode clears `IsNTT`). BFV decoding is specified as rounding
    `t*phase/Q`. Existence of such encodings is proved.
  - float64: `FloatModel`, a monotone rounding function with relative error at most 2^-53, exact on small integers; theorems hold for all such functions. `Base/Float64.lean` defines binary64 round-to-nearest-even (unbounded exponent) and proves it is one (`FloatModel.binary64`), that it returns a nearest representable value and fixes representable ones.
    `big.Float` and `big.Int` operations of mkckks/utils.go are modelled in exact arithmetic with an explicit rounding where the code rounds
    (`ModInverse` as the inverse in `ZMod`).
  - `ringOk` (Model/Literal.lean): what lattigo's `NewRing` checks of a list of moduli. Lattigo's bit-size check is laxer than our `< 2^61`, and nothing checks
    that Q, P and QMul are disjoint: C61 states these as checks on the literal, and proves them for all shipped literals.

## 2. Modelling conventions

* Panics (explicit, nil dereference, index out of range) are values: `Go a = Except Fault a`.
* Go maps: `GoMap` (finite map). A `range` loop runs over *some* permutation of the keys, chosen by an oracle (`Sched`); theorems are for all oracles. C51 states
  that results do not depend on it.
* Words: natural numbers with explicit bounds (`Word q` = a word at most `q`, and not below `q`, because the code itself writes the word `q`, see C34), or explicit
  `% 2^64` in C37-C41.
* A polynomial is a family of rows indexed by prime index; `Lvl` operations touch rows up to `level` only and leave stale values elsewhere. `Poly.Copy` copies the
  rows both sides have, and the `IsNTT` flag; `NTTLvl` etc. do not set `IsNTT`. Scratch pools are explicit state, universally quantified (C24), and threaded
  through programs in C58-C60.
* Negacyclic ring `Nega N K = K[X]/(X^N+1)` with explicit convolution product (Base/Nega.lean).
* Noise is stated with integer polynomials: "exists E with P * |E_j| <= bound, and for all i <= level, phase_i(out) = ... + E mod q_i".
* Two levels of model: a value model (a ciphertext is a map from ids to rows), used for what is computed, and a heap model (Model/Heap.lean: ciphertexts are maps
  from ids to references), used for aliasing: what `CopyNew`, `PadCiphertext`, add/sub, rescale, drop-level do to memory reachable from the arguments
  (C08, C09, C52, C28). Heap theorems for add/sub/rescale/drop level connect to the value model by a view function.
* Scales are rationals (float64 values) with `FloatModel` rounding, assumed positive.

## 3. Files

* `Verif/Base/*`   : faults, loops, Go maps, negacyclic ring, words, float model, primality certificates.
* `Verif/Model/*`  : the model of the code. IDSet, KeySets, Params, Elements: mkrlwe containers. Scalar, BasisExt, ModDownNTT: word arithmetic. Ring, KeySwitch, Rotate:
  key switcher. KeyGen, Crypt, Setup, Alloc: key generation, encryption, decryption, client setup, constructors. Ckks, Utils: mkckks. Bfv, BfvMul, BfvKeyGen,
  BfvSetup: mkbfv. Heap: memory model. Cnn, CnnPack, CnnClient: cnn. Literal: parameter literals.
* `Verif/Spec/*`   : specifications and concrete parameters (`Phase`: phase of a ciphertext; `Bfv`, `Ckks`: "encrypts m with noise B"; `Cnn`: the network on plain
  numbers; `Example`: N=16 example; `PN14`, `Literals`: shipped parameters).
* `Verif/Lemmas/*` : helper lemmas.
* `Verif/Props/*`  : the property theorems, each with an instance that meets its hypotheses.
* `/verif/tools/mutate.py`, `/verif/seeded/round*.py`, `/verif/seeded/LOG.jsonl`: seeded wrong programs.

## 4. Per property: model and proof

| id | model | proof |
|----|-------|-------|
| C01-C03 | `IDSet` over `GoMap`, operations as a step function | induction over the history, refinement to `Set String` |
| C04-C06 | key sets as maps, op lists | refinement to "last add not deleted", invariant for pools |
| C07-C09 | ciphertext = map of polynomial references in a heap | heap separation invariants; loop invariants for any order |
| C10 | `alpha`, `beta` with rounding model | ceiling arithmetic, monotone rounding |
| C11 | CRS as a map | induction over LogN / AddCRS history |
| C12-C15 | key generation on words with the `LimbOps` contract | ring algebra row by row |
| C16 | `Except` model of the checks | case analysis |
| C17-C20 | encrypt / partial decrypt / decrypt | ring algebra, norm bounds, loop invariants |
| C21 | decryptor state machine | minimum over the history; negation witness (false of the code) |
| C22-C26 | evaluator add/sub/const/drop | loop invariants; scratch universally quantified |
| C27-C28 | rescale loop with float operations | loop characterisation; negation witness for C28 |
| C29-C33,C36,C42 | key switcher, statement by statement, with pools | loop invariants, ring identity, divisibility by P |
| C34 | word-level permutation loop | bijection and sign analysis against X -> X^g |
| C35 | rotation driver | binary expansion, subgroup of Galois elements generated by 5 |
| C37-C41 | word-level basis extension, both ModDown variants, decomposer | modular arithmetic with explicit 2^64 wrap, float error analysis |
| C43-C46 | BFV conversions, keys and multiplication | same method as C29, with scaling by t/Q |
| C47,C48,C56,C57 | scalar and vector helpers, bit reversal | arithmetic, loop invariants, float error analysis |
| C49 | the layers of cnn.go run on the CKKS model | induction on the number of doublings; C59 for each operation |
| C50 | MulPtxtNew | ring algebra |
| C51 | all map loops | the result is the same for all oracles |
| C52 | heap model of all `New` variants, including rotate, conjugate, multiply (Model/HeapEval) | frame theorems |
| C53-C55 | see the properties | exact result + negation witness (false of the code) |
| C58 | BFV programs (`Circ`), key setup, encryption, decryption | structural induction with "encrypts m with noise B" as invariant |
| C59 | CKKS programs, key setup, encryption, decryption | the same with "approximates v within B at scale s" |
| C60 | cnn_test.go: packing, encryption, network, decryption, argmax | composition of C49, C59 and of slot packing lemmas |
| C61 | parameter literals and constructors | certificates checked in the kernel |
| C62 | BFV clients at the shipped parameters | noise of a program is at most 2^(F + M*depth + lin), closed numerals in the kernel |
| C63 | Sharing between ciphertexts | refinement of the value model by the heap model, function by function; programs by induction, with the evaluator pool on the same heap |
| C64 | Only the participants' keys matter | relational argument over the key sets: two runs with key sets agreeing on the ids of the operands give the same outcome, operation by operation (Props/KeyLocal) |
| C65 | Freshness of randomness | two-run argument over sampler streams and pool contents; histories by induction (Props/Random) |
| C66 | Operand as receiver | heap model with cin = out; loop invariant: components of parties not yet visited are untouched (Props/HeapInPlace) |
| C67 | CKKS clients at the shipped parameters | an executable error estimator over natural numbers (Spec/CkksBudget) is proved safe by induction over the program; its constants for both literals are checked in the kernel |
| C68 | operations with incomplete key sets | unfolding of the operation up to the loop that dereferences the key; histories through C04/C05 |
| C69 | Clients sharing an evaluator | two-run argument: each call on two machines with the same ciphertexts and different scratch, pools and orders returns the same ciphertext; induction over the program, then over interleavings (Props/Sessions) |
| C70 | Key objects and their memory | key constructors, copies, generators and AddCRS on the pointer heap (Model/HeapKeys, HeapSession), each shown to simulate the value-level generator; ownership as an invariant over programs (Props/HeapSession) |
| C71 | Concurrent use of shallow copies of an extender | goroutines as programs of single-word reads and writes (Model/Conc), footprints, an invariant over all schedules (Lemmas/Conc); solitary runs tied to the word-level model; a bad schedule for a shared extender. Memory model: sequentially consistent, which Go guarantees for race-free programs; race freedom is part of the theorem. ModDownQPtoQNTT is not among the calls. |
| C72 | Ciphertext addition and subtraction obey the laws of a module | component formulas from the explicit results of evaluateInPlace (C22, C23), then ring identities; word equality by uniqueness of reduced words |
| C73 | Party identifiers are only labels | Spec/Rename.lean defines a renaming (permutation of String fixing "0") and its action on maps, keys, key sets, ciphertexts, iteration orders; equivariance of each function of the model by Go.bind_ren/loop_ren; programs by induction (C59.run, C69.brun); whole session (setup, encrypt, run, decrypt) equal; any injective map on finitely many ids extends to a renaming |
| C74 | BFV on batched messages: entry-wise arithmetic, column rotation, row exchange | Spec/Batch defines the matrix of a polynomial by evaluations at the powers 5^j and -5^j of the root; Lemmas/Batch proves that entries are ring homomorphisms, turn the Galois automorphisms into rotations and row exchange, and that the map is a bijection (Vandermonde); Props/Batch combines this with the client and program theorems of C58/C69, Props/BatchLiterals instantiates at PN14QP439 and PN15QP880. The lattigo encoder is specified (Writes, Reads), not modelled. |
| C75 | CKKS messages with fewer than N/2 slots | messages as functions on ZMod n, repeated over the N/2 slots of C59; the polynomial of the coefficients at the multiples of g has as slots the means of the slots j, j+n, j+2n, ... (sum over the conjugates 5^(nk) of a primitive root), so errors do not grow; programs of C59 and clients of C67 on repeated vectors are programs on vectors |
| C76 | Panics and interruptions leave the client's ciphertexts and the evaluator usable | the functions of the memory model once more in a monad that records every write up to the return or panic (Model/HeapTrace.lean), proved to return what the memory model returns; a predicate During for all memories seen, including rows with arbitrary words while they are written; frame and pool-shape invariants carried through every function by a Hoare-style relation; sessions of completed and stopped calls by induction over the history |
| C77 | Goroutines that multiply with one relinearization key set | Model/Shared splits a call into its accesses to the shared digit pools and lets a scheduler interleave them (one Decompose per step, plus torn entries); an invariant per goroutine (the pool entries it has written and not yet read hold its digits) is carried through every schedule if no two calls use the same entry of one key set's pools. Without this condition it is false: a schedule is constructed for every pair of calls over the same parties, its result computed (phase with the tails of the other call's operands), and a concrete instance is shown to return another ciphertext |
| C78 | Goroutines that multiply with one BFV relinearization key set | Model/BShared splits a call into its accesses to the converted operands and digits kept in the key set (one conversion or decomposition per step, plus torn entries). With a key set each: an invariant per goroutine through every schedule. With a shared key set it is false for any two calls, even of different parties, because all use the entry "0": a schedule is constructed in which the first call returns exactly what it would return alone for operands whose common components are replaced by the other call's, and in a concrete instance returns an encryption of 0 for 1*1 |
| C79 | StandardDeviation and scaleDown are accurate, and never turn a division by zero into a number | Model/Stats: float64 values (numbers, infinities, NaN) with a rounding contract; the two loops as folds. Induction over the vector for both loops (absolute error of the sum, relative error of the sum of squares), then sum of squares about any centre = variance + distance squared. |
| C80 | Encrypting into an existing ciphertext | Model/Crypt (encrypt on any receiver). `into` gives the exact phase and frame for all receivers; `into_partial` the claim for receivers whose other components are zero, `fresh_receiver` for new ciphertexts of several parties, `no_slot` the panic; `full_false` refutes the full claim in a concrete parameter set. |
| C81 | Reorganising a computation does not change what it decrypts to | congruence closure `Rewrites` of the laws on the programs of C58; value preserved by induction on the derivation; both sides decrypted with C58; CKKS by the triangle inequality on C59 |
| C82 | Interrupted key generation | Model/HeapKeyTrace: the key generators of Model/HeapKeys with the list of their writes, shown to have the same results; every prefix of the writes, with the row under way half-written, is a state of the ownership invariant of C70 (Props/HeapKeyTrace); histories by induction, and the key equations of C12-C15, C44 for every key of a history (Props/KeyHistory) |
| C83 | A stopped AddCRS | AddCRS with its writes recorded (Model/HeapCrsTrace): the state left at every moment satisfies the ownership invariant of C70 with an entry that may lack components; later calls by step_owned; the exposure by the key equation of C15 with a zero mask |

Modelled: all of mkrlwe, mkckks, mkbfv and cnn (cnn.go, and cnn_test.go without file reading), except the items listed here.
Not modelled: lattigo encoders and samplers (specified, see 1), `readData*` (file parsing) of cnn_test.go, `GenSwitchkeysRescalingParams` beyond its arithmetic,
benchmarks, `String`/print helpers; the content (not the existence and length) of pools kept inside the BFV relinearization key set between operations.
Crash points (C76): a memory seen during a call is the heap after some prefix of its writes, or that heap with arbitrary words in the one row that is being written; a
function of lattigo called with a level beyond the rows of an argument writes the rows before the missing one. `ExternalProduct` writes its output only at its end, after
everything that can panic. The private buffers of the evaluator (key switcher scratch, pools of the relinearization keys) are not followed through an aborted call: the
theorems hold for all their contents of the right sizes. Stopping is between or inside calls of one goroutine; other goroutines' views are not modelled.
Concurrency (C71, C77, C78): interleavings of sequentially consistent accesses. In C77 and C78 a step is one conversion or `Decompose` into a pool entry, which may be seen with arbitrary contents while
it is written; the multiplication that reads the pools is one step, which `C77.stable`, `C78.stable` justify (the entries it reads do not change before it returns).
Not expressible in this model and left out: security (indistinguishability, key leakage), running time, concurrent use of one evaluator (it is single-threaded by design; concurrency is modelled for basis extenders, C71, and for key sets shared by evaluators, C77, C78).

## 5. Disagreements between code, comments and expectation (findings)

Each has a theorem (negation with a concrete witness, or the exact behaviour).

1. mkckks `Rescale`/`RescaleNew` with nothing to divide and ctIn != ctOut rebinds a local variable (evaluator.go:391-395): RescaleNew returns the zero ciphertext. C28.
2. The loop of `Rescale` (380) indexes `Modulus[level-nb]` before it checks `level-nb >= 0`: index -1 panics. The level-0 error is ignored by mulRelin and MulPtxtNew. C27, C29.
3. `mkckks.Decryptor.ptxtPool` is truncated for good by mkrlwe/decryptor.go:51: later decryptions happen at the smallest level seen. C21.
4. `mkbfv.Decrypt` does not notice missing secret keys. C54.
5. `GenKeyPairSparse` dereferences nil on every call; `GenRotationKey` with a negative amount tests CRS[raw] and uses CRS[adjusted]. C16.
6. `ModDownQPtoP` indexes its table by levelP instead of levelQ. C40. `ModDownQPtoQ` floors, where the comment says it rounds. C39.
7. The decomposer runs out of range if gamma does not divide PCount (C41); `GenBFVSwitchingKey` unless alpha divides QCount (C44); fixed arrays of 32 entries (C38).
8. `MulAndRelin` never checks the level of op1, and its second level check is vacuous; its comment asks for NTT inputs, the code needs coefficient form. C29.
9. `MultByConst` with an imaginary constant is wrong for coefficient-form ciphertexts, unsupported constant types act as 0. C25, C53.
10. `scaleUpExact`, `interfaceMod` return unreduced words. C56. `scaleUpVecExact` is undefined at |n v| = 2^64, `scaleUpVecExactBigFloat` never reduces negatives. C57.
11. `SliceBitReverse` does not terminate usefully when N is not a power of two. C48. Rotation writes the word `q`. C34.
12. CKKS addition does not align scales with ratio in (1,2). C23: the error is |s-s'| times the value; this matters for the CNN biases. C49.
13. mkrlwe `Decrypt` does not convert domains as documented. C55. `Encrypt` leaves other ids of ctOut alone; `Ciphertext.Copy` leaves extra ids and dereferences nil for
    missing ones (C08); `AddCRS` replaces an existing CRS and shares the map between copies of Parameters (C11); `RotateHoisted` panics for an amount without CRS (C35).
14. `FC1Layer` with an empty matrix dereferences nil; the argmax of TestCNN returns class -1 if no score exceeds -100. C49.
15. Multiplication noise contains the square of the digit bound, so gamma = 2 (P at least the square of a block) is what makes the noise small. C29, C45. Worst-case bounds
    certify the CNN at PN14QP433 only for small weights (testCNN_pn14: error at most 20 per score). C60.
16. `MulRelinNew` stores the digits of its operands in the key set it is given (`rlkSet.HoistPool`): two goroutines with an evaluator each that share a key set and a party
    can return wrong ciphertexts without any panic. Safe: a key set each, `HoistedForm` + `MulRelinHoistedNew`, or disjoint parties. C77.
17. In BFV it is worse: the converted operands are kept in the key set too, also under the identifier "0" that every ciphertext has, so that any two concurrent `MulRelinNew`
    with one key set can exchange their operands, even for disjoint parties, and there is no hoisted variant that avoids the pools. Safe: a key set each. C78.
18. `Encrypt` into a used ciphertext of several parties leaves the other parties' components in place, so that the result does not decrypt to the message. C80.
19. `AddCRS` enters the new switching key in the CRS map before it fills it (mkrlwe/params.go:89-97). If it is stopped, or if another goroutine makes a key meanwhile, the map
    holds an unfinished entry. While components are nil, `GenRotationKey` panics; but between the last `NewPoly` and the end of the sampling that follows it, all components
    are there and the last one is zero, and `GenRotationKey(idx, sk)` returns without complaint a key whose last block is `P*s + e` unmasked, from which `s` follows. Calling
    `AddCRS(idx)` again repairs the entry, not the keys made meanwhile. The key generators have no such window. C82, C83.

Safe facts that were not obvious: the default rotation keys suffice for every amount (C35); the CNN client's AddCRS list and rotation list cover exactly the keys the network
uses (C60); all shipped literals meet the validity conditions (C61); stale scratch never influences results (C24, C58); BFV PN14QP439 guarantees 49 d + l <= 280 and
PN15QP880 51 d + l <= 720 (multiplicative depth d, other operations l) for up to four parties in the worst case (C62). At the CKKS
literals a round trip is within 2^-18 per slot, the squared sum of four inputs within 2^-14, and all levels can be used by squarings (2^-13 after 5 at PN14QP439, 2^-5 after 13
at PN15QP880), whatever the samplers return (C67); these are worst-case guarantees and weaker than the statistical thresholds of mkckks_test.go.

## 6. Partial properties

C21, C28, C40, C53, C54, C55, C56, C77, C78, C80 are kept with the statement a user would expect, which is false of the code. For each, the manifest lists a `_partial` theorem (the property
under the extra condition that makes it true, or the exact behaviour) and a theorem refuting the full statement.
