{"id": "C01", "title": "IDSet behaves as a finite set of identifiers", "statement": "After any sequence of Add and Remove calls on a fresh IDSet, Has(v) is true exactly when v was added and not removed since, and Size() is the number of such identifiers.", "quantifier": "every sequence of Add/Remove calls of any length, every identifier string", "why_tests_cant": "A test runs a few fixed call sequences; the claim is about all histories and all strings.", "anchors": ["mkrlwe/idset.go: IDSet, NewIDSet, Has, Add, Remove, Size"]}
{"id": "C02", "title": "Union, Intersection and CopyNew are the set operations, whatever the map iteration order", "statement": "For IDSets s and s2, Union contains exactly the ids in s or s2, Intersection exactly those in both, CopyNew exactly those in s; none of them depends on the order in which Go iterates the maps, and the operands are not changed.", "quantifier": "every pair of IDSets and every iteration order the Go runtime may choose for each range loop", "why_tests_cant": "Go randomises map iteration; a test observes a handful of the exponentially many orders and sets.", "anchors": ["mkrlwe/idset.go: CopyNew, Intersection, Union"]}
{"id": "C03", "title": "The reserved identifier \"0\" never enters an IDSet", "statement": "Add(\"0\") panics, and no IDSet obtained from the API (NewIDSet, Add, Remove, CopyNew, Union, Intersection, Ciphertext.IDSet) ever reports Has(\"0\").", "quantifier": "every history of API calls producing IDSets", "why_tests_cant": "The reserved key aliases the constant component of every ciphertext; only an invariant over all histories rules it out.", "anchors": ["mkrlwe/idset.go: Add", "mkrlwe/elements.go: IDSet"]}
{"id": "C04", "title": "A key set returns the last key added for an id and panics when there is none", "statement": "For secret, public, relinearization and conjugation key sets: after any sequence of Add and Del calls, Get(id) returns the key of the most recent Add with that ID if no Del(id) came after it, and panics otherwise.", "quantifier": "every sequence of Add/Del/Get calls, every id, for the four key-set types", "why_tests_cant": "Histories are unbounded.", "anchors": ["mkrlwe/keys.go: SecretKeySet, PublicKeySet, RelinearizationKeySet, ConjugationKeySet and their Add/Del/Get methods", "mkbfv/keys.go: RelinearizationKeySet"]}
{"id": "C05", "title": "RotationKeySet is a two-level map keyed by (id, rotation index)", "statement": "After any sequence of AddRotationKey and DelRotationKey, GetRotationKey(id, rotidx) returns the last key added under that pair and not deleted since, panics otherwise, and deleting under an unknown id changes nothing.", "quantifier": "every sequence of Add/Del calls, every (id, rotidx)", "why_tests_cant": "The nested map is created lazily; only a proof over all histories covers every interleaving of ids and indices.", "anchors": ["mkrlwe/keys.go: RotationKeySet, AddRotationKey, DelRotationKey, GetRotationKey"]}
{"id": "C06", "title": "Scratch space for hoisting exists for every relinearization key in a set", "statement": "At any time, for every id with a relinearization key in a set, the set's hoisting pools (CKKS: both; BFV: all four and both ring-R polynomial pools, plus the \"0\" entry) hold an entry for that id, so MulRelinNew cannot dereference a missing pool entry when the keys it needs are present.", "quantifier": "every history of AddRelinearizationKey/DelRelinearizationKey calls", "why_tests_cant": "A missing pool entry is a nil dereference that shows only for particular add/delete histories.", "anchors": ["mkrlwe/keys.go: NewRelinearizationKeyKeySet, AddRelinearizationKey, DelRelinearizationKey", "mkbfv/keys.go: same"]}
{"id": "C07", "title": "NewCiphertext is a zero ciphertext with exactly the requested ids and level", "statement": "NewCiphertext(params, idset, level) has IDSet() equal to idset, Level() equal to level, all coefficients zero and coefficient-domain flag; NewCiphertextNTT the same with the NTT flag on every component; its decryption phase is zero.", "quantifier": "every id set, level and map iteration order", "why_tests_cant": "Quantifies over all id sets and orders.", "anchors": ["mkrlwe/elements.go: NewCiphertext, NewCiphertextNTT, IDSet, Level"]}
{"id": "C08", "title": "CopyNew is a deep copy", "statement": "Ciphertext.CopyNew returns a ciphertext with equal contents sharing no polynomial storage with the original: any later sequence of in-place writes through one leaves every component of the other unchanged. Copy writes the argument's components into the receiver's storage and panics if the receiver lacks one of the ids.", "quantifier": "every ciphertext, every later sequence of in-place coefficient writes, every iteration order", "why_tests_cant": "Aliasing bugs appear only under particular later writes.", "anchors": ["mkrlwe/elements.go: CopyNew, Copy", "mkckks/elements.go: CopyNew", "mkbfv/elements.go: CopyNew"]}
{"id": "C09", "title": "PadCiphertext adds zero components and never changes the encrypted value", "statement": "After PadCiphertext(idset) the id set is the union of old ids and idset, old components are untouched, new components are zero polynomials of the same level and domain, so the decryption phase under any secret keys is unchanged.", "quantifier": "every ciphertext, id set, secret keys, iteration order", "why_tests_cant": "Quantifies over all ciphertexts and key assignments.", "anchors": ["mkrlwe/elements.go: PadCiphertext"]}
{"id": "C10", "title": "Gadget blocks partition the moduli", "statement": "With alpha = PCount/gamma >= 1, Beta(level) (computed with float64 division and Ceil) is the exact ceiling of (level+1)/alpha; every modulus index 0..level lies in exactly one block i*alpha..i*alpha+alpha-1 with i < Beta(level); Beta is monotone in the level, so a key generated at maximal level has enough components for every level.", "quantifier": "every level, PCount, gamma with gamma <= PCount and counts below 2^53", "why_tests_cant": "Float rounding and block boundaries must be right for every count, not just the parameter sets in the tests.", "anchors": ["mkrlwe/params.go: Alpha, Beta, NewParameters", "mkrlwe/keys.go: NewSwitchingKey"]}
{"id": "C11", "title": "The common reference strings available after parameter creation", "statement": "After NewParameters the CRS indices are exactly 0, -1, -2, -3, -4 and the powers of two below N/2, each with Beta(MaxLevel) components; AddCRS(idx) adds idx, replaces the CRS under an index already present, and changes no other index.", "quantifier": "every LogN, every sequence of AddCRS calls", "why_tests_cant": "The rotation and relinearization code assumes presence of indices for every parameter set.", "anchors": ["mkrlwe/params.go: NewParameters, AddCRS"]}
{"id": "C12", "title": "Public key equation", "statement": "For every secret key, GenPublicKey returns (b, a) with b + a*s equal, modulo every prime of Q and P, to the sampled error (up to the fixed NTT/Montgomery representation), with a the shared CRS[0][0], and the key carries the owner's id.", "quantifier": "every secret polynomial, error sample, CRS value, modulus chain and ring degree", "why_tests_cant": "A test samples a few keys at a few parameter sets and checks norms statistically.", "anchors": ["mkrlwe/keygen.go: GenPublicKey, genSecretKeyFromSampler"]}
{"id": "C13", "title": "Switching key gadget equation", "statement": "GenSwitchingKey(s) produces for each block i a value equal to P*s + e_i modulo the primes of block i, and e_i modulo every other prime of Q and of P (in Montgomery/NTT form), for block counts that need not divide the number of primes.", "quantifier": "every secret polynomial, error samples, chain length and block size", "why_tests_cant": "Boundary blocks (when the block size does not divide the chain length) are rarely in test parameters.", "anchors": ["mkrlwe/keygen.go: GenSwitchingKey"]}
{"id": "C14", "title": "Relinearization key equations", "statement": "GenRelinearizationKey(s, r) returns (b, d, v) with b = -s*a + e, d = -r*a + P*g*s + e', v = -s*u - P*g*r + e'' for the shared CRS a (index 0) and u (index -1), modulo every prime.", "quantifier": "every s, r, CRS, error samples, parameters", "why_tests_cant": "Same as C12/C13: an algebraic law for all samples.", "anchors": ["mkrlwe/keygen.go: GenRelinearizationKey"]}
{"id": "C15", "title": "Rotation and conjugation key equations", "statement": "GenRotationKey(k, s) returns, under the normalised index and the owner's id, rk = -sigma_k^-1(s)*a_k + P*g*s + e; GenConjugationKey(s) returns ck = -s*a + P*g*conj(s) + e with the CRS of index -2.", "quantifier": "every s, rotation index with a CRS, error samples, parameters", "why_tests_cant": "Algebraic law for all samples and indices.", "anchors": ["mkrlwe/keygen.go: GenRotationKey, GenConjugationKey"]}
{"id": "C16", "title": "Which key-generation calls panic", "statement": "GenRotationKey(k) panics exactly when no CRS exists for the raw index k or for the index after adding N/2 until non-negative; on default parameters that means it succeeds for k = 0 and powers of two below N/2 and panics for every other non-negative k; negative indices -1..-4 pass the first check yet fail unless the adjusted index also has a CRS. GenDefaultRotationKeys never panics on default parameters and stores exactly the powers of two below N/2. GenKeyPairSparse always panics (nil dereference).", "quantifier": "every rotation index, ring degree, history of AddCRS", "why_tests_cant": "Panic conditions must be characterised for all indices.", "anchors": ["mkrlwe/keygen.go: GenRotationKey, GenDefaultRotationKeys, GenKeyPairSparse"]}
{"id": "C17", "title": "Encrypt then Decrypt returns the plaintext up to bounded noise", "statement": "Encrypting a plaintext polynomial m under a public key generated from s and decrypting with s yields m + E modulo every prime up to the common level, with E = u*e + e0 + e1*s so that |E| <= N*B_u*B_e + B_e + N*B_s*B_e; in every combination of NTT flags of plaintext and ciphertext.", "quantifier": "every plaintext, key, randomness within the sampler bounds, level pair, NTT flag combination, stale scratch content", "why_tests_cant": "The bound must hold for every sample, not on average.", "anchors": ["mkrlwe/encryptor.go: Encrypt", "mkrlwe/decryptor.go: Decrypt, PartialDecrypt", "mkckks/encryptor.go", "mkbfv/encryptor.go"]}
{"id": "C18", "title": "Partial decryptions commute and add up to the phase", "statement": "Running PartialDecrypt with each participant's key, in any order, leaves only the constant component, equal to c_0 + sum_i c_i*s_i modulo each prime up to the level; each step removes exactly that id and keeps the phase under the remaining keys.", "quantifier": "every ciphertext, set of keys, order of partial decryptions, NTT flag", "why_tests_cant": "The number of orders is factorial in the number of parties.", "anchors": ["mkrlwe/decryptor.go: PartialDecrypt, Decrypt"]}
{"id": "C19", "title": "Decryption detects a missing secret key", "statement": "mkrlwe.Decrypt (and mkckks.Decrypt) panics if and only if some id of the ciphertext has no key in the set, and otherwise succeeds, whatever other keys the set contains. (BFV: C54.)", "quantifier": "every ciphertext and secret-key set", "why_tests_cant": "The claim is about every subset of keys and every iteration order of two maps.", "anchors": ["mkrlwe/decryptor.go: Decrypt", "mkbfv/decryptor.go: Decrypt"]}
{"id": "C20", "title": "Decrypt does not modify its ciphertext and returns the documented level and domain", "statement": "Decrypt leaves the input ciphertext unchanged, the output level is min(ciphertext level, plaintext level), and its words are reduced and equal to the phase in the domain of the ciphertext. (Documented output domain: C55.)", "quantifier": "every ciphertext, plaintext receiver, key set", "why_tests_cant": "Must hold for all levels, key sets and orders; the copy must share no memory with the input.", "anchors": ["mkrlwe/decryptor.go: Decrypt"]}
{"id": "C21", "title": "A CKKS Decryptor's result does not depend on earlier decryptions", "statement": "mkckks.Decryptor.Decrypt(ct) decodes at ct.Level() regardless of which ciphertexts were decrypted before.", "quantifier": "every history of Decrypt calls on one Decryptor", "why_tests_cant": "History dependence: the internal plaintext is truncated for good, so the level used is the minimum seen so far; a test needs the right history.", "anchors": ["mkckks/decryptor.go: Decrypt", "mkrlwe/decryptor.go: Decrypt line 51"]}
{"id": "C22", "title": "BFV AddNew/SubNew add and subtract phases", "statement": "AddNew(op0, op1) (SubNew) has id set the union and phase under any secret keys equal to the sum (difference) of the phases modulo each prime, for operands over different id sets.", "quantifier": "every pair of ciphertexts, secret keys, map iteration orders", "why_tests_cant": "All id-set overlaps and orders.", "anchors": ["mkbfv/evaluator.go: evaluateInPlace, AddNew, SubNew"]}
{"id": "C23", "title": "CKKS AddNew/SubNew add and subtract phases after integer scale alignment", "statement": "The result has level min, scale max of the scales, id set the union, and phase k0*phase(op0) \u00b1 k1*phase(op1) where the operand with the smaller scale is multiplied by floor(ratio) (1 for the other), for operands over different id sets; the encoded values are added up to the scale mismatch ratio/floor(ratio).", "quantifier": "every pair of ciphertexts, scales of ratio below 2^52, levels, id sets, stale pool contents, orders", "why_tests_cant": "All scale ratios, levels and id overlaps.", "anchors": ["mkckks/evaluator.go: evaluateInPlace, newCiphertextBinary, AddNew, SubNew"]}
{"id": "C24", "title": "Results do not depend on stale scratch memory", "statement": "AddNew, MulRelinNew, RotateNew, ConjugateNew, HoistedForm, MulPtxtNew and Encrypt return the same result whatever earlier operations left in the evaluator's, key switcher's, encryptor's and key set's internal pools.", "quantifier": "every content of every internal buffer (hence every history of earlier calls)", "why_tests_cant": "Histories are unbounded, and a leak shows only under particular earlier data.", "anchors": ["mkrlwe/keyswitch.go: KeySwitcher pools", "mkrlwe/keyswitch_hoisted.go", "mkckks/evaluator.go: ctxtPool, polyQPool", "mkbfv/keyswitch.go"]}
{"id": "C25", "title": "MultByConst multiplies phase and scale by a real constant", "statement": "For a real constant c, MultByConst (in place or not) multiplies the phase modulo every prime by one integer m with |m - c*s| <= 1/2 up to float64 rounding, where s = 1 if c is an integer and the top prime otherwise, and multiplies the scale by s; integer constants below 2^52 are exact; constants of unsupported types count as zero.", "quantifier": "every ciphertext, constant, level; aliasing of input and output", "why_tests_cant": "All constants, levels and moduli; rounding at every magnitude.", "anchors": ["mkckks/evaluator.go: MultByConst, getConstAndScale", "mkckks/utils.go: scaleUpExact"]}
{"id": "C26", "title": "DropLevel truncates and preserves the phase on the remaining primes", "statement": "DropLevel(ct, k) with k <= level lowers every component's level by k and keeps the residues of the phase on the remaining primes and the scale; DropLevelNew does the same to a copy.", "quantifier": "every ciphertext and number of levels", "why_tests_cant": "All level pairs and component sets.", "anchors": ["mkckks/evaluator.go: DropLevel, DropLevelNew"]}
{"id": "C27", "title": "Rescale consumes levels until the scale would fall below minScale/2", "statement": "On success Rescale divides the scale by the last n primes and lowers the level by n, where n is the first count at which dividing further would bring the scale below minScale/2; the old phase is the product of those primes times the new phase plus a bounded error; it returns an error for minScale <= 0, scale 0 or level 0; otherwise it panics exactly when the scale is still at least minScale/2 after dividing by the whole chain (the documentation promises to stop at level zero).", "quantifier": "every ciphertext level, scale, minScale, modulus chain", "why_tests_cant": "All chains and scales; the panic (the loop reads Modulus[-1]) is never reached by tests.", "anchors": ["mkckks/evaluator.go: Rescale"]}
{"id": "C28", "title": "RescaleNew returns a ciphertext with the input's value even when nothing is divided", "statement": "When the scale is already below the threshold (no division), RescaleNew returns a copy of the input.", "quantifier": "every ciphertext and threshold with zero rescales", "why_tests_cant": "False of the code: the receiver is only rebound locally, so a zero ciphertext is returned.", "anchors": ["mkckks/evaluator.go: Rescale lines 391-395, RescaleNew"]}
{"id": "C29", "title": "Multiplication with relinearization decrypts to the product up to bounded noise", "statement": "For ciphertexts over arbitrary id sets and relinearization keys generated for all involved ids from the same CRS, MulAndRelin's output satisfies phase(out) = phase(op0)*phase(op1) + E modulo every prime up to the level, with P*|E| bounded by an explicit polynomial in N, the number of parties, blocks, key and error bounds.", "quantifier": "every pair of ciphertexts, overlap of id sets, keys and errors within bounds, CRS, level, stale scratch, map order", "why_tests_cant": "Correctness of the multi-key relinearization for all inputs; a test samples messages and looks at precision.", "anchors": ["mkrlwe/keyswitch.go: MulAndRelin, ExternalProduct, Decompose", "mkckks/evaluator.go: mulRelin"]}
{"id": "C30", "title": "Hoisted multiplication and rotation return exactly what the plain ones return", "statement": "MulAndRelinHoisted, with hoisted forms computed from the operands at the product level (or nil), returns bit for bit the result of MulAndRelin, and RotateHoisted that of Rotate.", "quantifier": "every input, mix of nil/non-nil hoisted forms, level, map order, scratch content", "why_tests_cant": "Bitwise equality over all inputs and scratch states.", "anchors": ["mkrlwe/keyswitch_hoisted.go: ExternalProductHoisted, MulAndRelinHoisted, RotateHoisted"]}
{"id": "C31", "title": "Squaring through MulRelinNew equals multiplying by a copy", "statement": "MulRelinNew(ct, ct) gives the same result as MulRelinNew(ct, ct.CopyNew()), although the two paths use different pools.", "quantifier": "every ciphertext and key set", "why_tests_cant": "Depends on pool reuse for all inputs.", "anchors": ["mkckks/evaluator.go: MulRelinNew"]}
{"id": "C32", "title": "External product equation", "statement": "ExternalProduct(a, bg) returns c with P*c = sum_i D_i(a)*bg_i - L modulo each prime up to the level, where D_i(a) are digits congruent to a on block i and L is a bounded lift of the P-part; hence for bg = P*g*s+e it returns a*s + noise.", "quantifier": "every polynomial, key, level, NTT flag, scratch content", "why_tests_cant": "All inputs and levels including partial last blocks.", "anchors": ["mkrlwe/keyswitch.go: ExternalProduct, Decompose, DecomposeSingleNTT"]}
{"id": "C33", "title": "Rotation decrypts to the rotated phase up to bounded noise", "statement": "With rotation keys for all ids of the ciphertext, Rotate(ct, k) has phase sigma_k(phase(ct)) + E with an explicit bound on E; it panics if a key is missing or ctOut's level exceeds ctIn's.", "quantifier": "every ciphertext, rotation index with CRS and keys, keys and errors within bounds, level, order, scratch", "why_tests_cant": "All inputs.", "anchors": ["mkrlwe/keyswitch.go: Rotate", "mkckks/evaluator.go: rotate", "mkbfv/evaluator.go: rotate"]}
{"id": "C34", "title": "The coefficient permutation in Rotate is the Galois automorphism X -> X^g", "statement": "The loop that moves coefficient i to i*g mod N with the sign taken from bit logN of i*g computes, modulo each prime, the ring automorphism X -> X^g, for every odd g < 2N, is a bijection on positions, and writes words at most q.", "quantifier": "every N a power of two, odd g, coefficient vector, level", "why_tests_cant": "All N, g and coefficient values including zero (where it writes the non-canonical word q).", "anchors": ["mkrlwe/keyswitch.go: Rotate lines 266-296", "mkrlwe/keyswitch_hoisted.go: RotateHoisted lines 215-245"]}
{"id": "C35", "title": "Every rotation amount is served by the default keys", "statement": "For any integer rotidx, RotateNew normalises it to the representative in [0, N/2), returns a copy for 0, and otherwise applies rotations by the CRS index itself or by the powers of two of its binary expansion, whose total is congruent to rotidx modulo N/2; with the default keys it never panics; the automorphism applied is sigma_rotidx.", "quantifier": "every integer rotation amount (negative, larger than N/2), ring degree", "why_tests_cant": "Unbounded integers.", "anchors": ["mkckks/evaluator.go: rotate", "mkbfv/evaluator.go: rotate"]}
{"id": "C36", "title": "Conjugation decrypts to the conjugated phase up to bounded noise", "statement": "With conjugation keys for all ids, Conjugate(ct) has phase sigma_{2N-1}(phase(ct)) + E with an explicit bound.", "quantifier": "every ciphertext, keys and errors within bounds, level, order, scratch", "why_tests_cant": "All inputs.", "anchors": ["mkrlwe/keyswitch.go: Conjugate", "mkrlwe/keygen.go: GenConjugationKey"]}
{"id": "C37", "title": "Lazy 128-bit accumulation in the basis extension is exact", "statement": "multSum returns, for every input the callers can produce (residues y_i below q_i, table rows below p, sum of y_i*c_i at most p*2^64), without 64-bit wrap-around affecting the result, a word congruent to (sum y_i * Q/q_i) - v*Q modulo p and below 3p. The range [0, 2p-1] written in its comment is not guaranteed.", "quantifier": "every array of residues, number of terms within the overflow limit, primes below 2^61", "why_tests_cant": "Carry propagation and wrap-around depend on extreme words. The documented range is wrong (words can reach just under 3p).", "anchors": ["mkrlwe/basis_extension.go: multSum, reconstructRNS"]}
{"id": "C38", "title": "Basis extension returns the residues of one small integer, despite floating point", "statement": "modUpExact/ModUpQtoP/ModUpPtoQ write residues of a single integer X congruent to the input modulo each input prime with -eps*Q <= X < (1+eps)*Q even though the quotient v is computed in float64 with rounding, and never indexes outside the correction table.", "quantifier": "every input residue vector, chain of primes, every IEEE rounding behaviour within relative error 2^-53", "why_tests_cant": "The failing inputs, near multiples of Q, have negligible probability in random tests.", "anchors": ["mkrlwe/basis_extension.go: modUpExact, reconstructRNS, basisextenderparameters, ModUpQtoP, ModUpPtoQ"]}
{"id": "C39", "title": "ModDown divides by P", "statement": "ModDownQPtoQ (and the NTT variant) returns (x - X)/P modulo each prime, X the small representative of x modulo P, i.e. the floor of x/P up to one unit; the comment's rounded division is not what is computed.", "quantifier": "every QP element and level", "why_tests_cant": "All inputs.", "anchors": ["mkrlwe/basis_extension.go: ModDownQPtoQ, ModDownQPtoQNTT, genModDownParams"]}
{"id": "C40", "title": "ModDownQPtoP divides by Q", "statement": "ModDownQPtoP(levelQ, levelP) divides by the product of the Q primes up to levelQ.", "quantifier": "every pair of levels", "why_tests_cant": "False unless levelQ = levelP: the table is indexed by levelP.", "anchors": ["mkrlwe/basis_extension.go: ModDownQPtoP line 312"]}
{"id": "C41", "title": "Digit decomposition is correct and never indexes out of range", "statement": "For every level and block index below Beta(level), DecomposeAndSplit writes into all Q and P limbs the residues of one small integer polynomial congruent to the input modulo the primes of that block; it never indexes out of range provided gamma divides PCount (or alpha = 1).", "quantifier": "every level, block, block size, chain length, input words", "why_tests_cant": "Partial last blocks and single-prime blocks take different code paths per level.", "anchors": ["mkrlwe/basis_extension.go: NewDecomposer, DecomposeAndSplit"]}
{"id": "C42", "title": "A hoisted form computed at a higher level may be used at a lower product level", "statement": "MulRelinNew hoists each operand at its own level; the product at the smaller level is still correct with the noise bound of C29.", "quantifier": "every pair of levels, operands", "why_tests_cant": "The digits differ from those of the plain path when levels differ, so equality tests do not apply.", "anchors": ["mkckks/evaluator.go: MulRelinNew, MulRelinHoistedNew", "mkrlwe/keyswitch_hoisted.go"]}
{"id": "C43", "title": "BFV basis conversions", "statement": "ModUpQtoR lifts a polynomial mod Q to one small integer polynomial mod Q*QMul; Quantize returns t*x/QMul rounded down up to a bounded error modulo Q; Rescale returns round-down(QMul*x/Q) lifted to R with bounded error.", "quantifier": "every polynomial, modulus chains of equal length", "why_tests_cant": "All inputs near rounding boundaries.", "anchors": ["mkbfv/basis_extension.go: ModUpQtoR, Quantize, Rescale, NewFastBasisExtender"]}
{"id": "C44", "title": "BFV gadget vector", "statement": "GenBFVSwitchingKey(s) encodes for each block the factor floor(t*P*(Q*QMul/Q_i)*T_i/QMul), so that sum_i D_i(x)*G_i is t*P*x/QMul modulo Q up to a bounded error for every x in R; it panics with an index out of range unless alpha divides QCount.", "quantifier": "every secret, error, parameters", "why_tests_cant": "All parameters, all x.", "anchors": ["mkbfv/keygen.go: GenBFVSwitchingKey, GenRelinearizationKey"]}
{"id": "C45", "title": "BFV multiplication decrypts to the scaled product up to bounded noise", "statement": "For BFV ciphertexts over any id sets and keys from the same CRS, Q*phase(MulRelinNew(op0, op1)) = t*phase(op0)*phase(op1) + E' with E' bounded, as integers modulo Q*Q.", "quantifier": "every pair of ciphertexts, keys and errors within bounds, orders, scratch", "why_tests_cant": "All inputs.", "anchors": ["mkbfv/keyswitch.go: MulAndRelinBFV", "mkbfv/keyswitch_hoisted.go: MulAndRelinBFVHoisted", "mkbfv/evaluator.go: MulRelinNew"]}
{"id": "C46", "title": "BFV hoisted and plain multiplication agree despite pool reuse", "statement": "mulRelinHoisted returns bit for bit what mulRelin returns, although it reuses the buffer of x1 for the second decomposition.", "quantifier": "every input, order, scratch content", "why_tests_cant": "The reuse is harmless only because x1 is dead by then; must hold for every id overlap.", "anchors": ["mkbfv/keyswitch_hoisted.go: MulAndRelinBFVHoisted line 199", "mkbfv/evaluator.go: mulRelin, mulRelinHoisted"]}
{"id": "C47", "title": "Scalar helpers reduce correctly", "statement": "scaleUpExact returns a word of at most q congruent modulo q to n*value rounded to a nearest integer (up to two float64 roundings); interfaceMod returns a word congruent to x modulo q for every supported type, below q for uint64 and big integers, and panics on any other type; genBigIntChain returns the prefix products (and panics on an empty slice); GenSwitchkeysRescalingParams returns P^-1 in Montgomery form. (Reduced results in general: C56.)", "quantifier": "every value and modulus", "why_tests_cant": "False in part: scaleUpExact returns q for negative multiples, interfaceMod does not reduce positive int64.", "anchors": ["mkckks/utils.go: scaleUpExact, interfaceMod, genBigIntChain, GenSwitchkeysRescalingParams"]}
{"id": "C48", "title": "Bit-reversal is the bit-reversal permutation and an involution", "statement": "SliceBitReverseInPlace* with N a power of two moves element i to the position with reversed bits, hence applying it twice is the identity, and never indexes out of range.", "quantifier": "every power of two N, slice contents", "why_tests_cant": "All sizes.", "anchors": ["mkckks/utils.go: SliceBitReverseInPlaceFloat64, SliceBitReverseInPlaceComplex128, SliceBitReverseInPlaceRingComplex"]}
{"id": "C49", "title": "CNN rotate-and-add loops sum the intended slots", "statement": "At the level of slot vectors, the rotate-and-add loops of Convolution, FC1Layer and FC2Layer compute, in slot i, the sum over the documented window of slots, and Convolution's four products use rotations 0, 1, 14, 15 of the image.", "quantifier": "every slot vector and slot count divisible by the strides", "why_tests_cant": "All contents.", "anchors": ["cnn/cnn.go: Convolution, FC1Layer, FC2Layer"]}
{"id": "C50", "title": "Plaintext multiplication multiplies the phase by the plaintext", "statement": "MulPtxtNew(ct, pt) before rescaling has phase phase(ct)*pt modulo every prime up to the level and scale the product, for a coefficient-domain plaintext.", "quantifier": "every ciphertext, plaintext, keys, level, scratch", "why_tests_cant": "All inputs.", "anchors": ["mkckks/evaluator.go: MulPtxtNew"]}
{"id": "C51", "title": "Results do not depend on Go map iteration order", "statement": "AddNew, SubNew, RotateNew, ConjugateNew, MulAndRelin, MulAndRelinHoisted and HoistedForm return ciphertexts with the same entries in every run, although they iterate over Go maps in an order the runtime chooses at random.", "quantifier": "every pair of iteration orders of every loop over a map", "why_tests_cant": "The order is chosen by the runtime at each loop; a test sees a few orders.", "anchors": ["mkrlwe/keyswitch.go", "mkrlwe/keyswitch_hoisted.go", "mkckks/evaluator.go", "mkbfv/evaluator.go"]}
{"id": "C52", "title": "The New variants write only to memory they allocated", "statement": "AddNew, SubNew, DropLevelNew, CopyNew, RescaleNew, RotateNew, RotateHoistedNew, ConjugateNew, MulRelinNew, MulRelinHoistedNew and MulPtxtNew (CKKS, and the BFV versions of add, subtract, rotate, conjugate and multiply) leave every polynomial that existed before the call (operands included) unchanged, except the evaluator pools, and the result shares no polynomial with anything that existed before.", "quantifier": "every heap, also with operands that share polynomials, every id set and order", "why_tests_cant": "Aliasing of operands and results shows only under particular histories.", "anchors": ["mkrlwe/elements.go: CopyNew, NewCiphertext", "mkrlwe/keyswitch.go: MulAndRelin, Rotate, Conjugate", "mkrlwe/keyswitch_hoisted.go: MulAndRelinHoisted, RotateHoisted", "mkckks/evaluator.go: AddNew, SubNew, DropLevelNew, RescaleNew, RotateNew, ConjugateNew, MulRelinNew, MulRelinHoistedNew, MulPtxtNew", "mkbfv/evaluator.go: AddNew, SubNew, MulRelinNew, RotateNew, ConjugateNew"]}
{"id": "C53", "title": "MultByConst with an imaginary constant", "statement": "For a constant a + b*i with b non-zero, MultByConst multiplies the phase by (rounded, scaled) a + b*X^(N/2), the encoding of the constant.", "quantifier": "every ciphertext and complex constant", "why_tests_cant": "False of the code for coefficient-form ciphertexts, the only form the repository produces; a theorem gives the exact result for every constant.", "anchors": ["mkckks/evaluator.go: MultByConst"]}
{"id": "C54", "title": "The BFV decryptor detects a missing secret key", "statement": "mkbfv.Decrypt fails if some participant of the ciphertext has no key in the set. (False of the code: it never fails, and decodes c_0 + the sum of c_id*s_id over the ids that have a key.)", "quantifier": "every ciphertext and secret-key set", "why_tests_cant": "A silent wrong result looks like noise; only a theorem states exactly what is returned for each set of keys.", "anchors": ["mkbfv/decryptor.go: Decrypt"]}
{"id": "C55", "title": "Decrypt's output domain follows the plaintext's NTT flag", "statement": "The comment of Decrypt says that the output domain matches plaintext.Value.IsNTT. (False of the code when the flags of ciphertext and plaintext differ: the words are those of the ciphertext's domain.)", "quantifier": "every ciphertext and plaintext receiver, both flags", "why_tests_cant": "The tests use one combination of flags only.", "anchors": ["mkrlwe/decryptor.go: Decrypt"]}
{"id": "C56", "title": "Scalar helpers return reduced words", "statement": "scaleUpExact and interfaceMod always return a word below q. (False of the code: a positive int64 is returned unreduced by interfaceMod, a negative int64 that is a multiple of q gives q, and scaleUpExact gives q when the scaled negative value is a multiple of q.)", "quantifier": "all values, scales and moduli", "why_tests_cant": "the offending values are the multiples of q, which random tests do not hit", "anchors": ["mkckks/utils.go:interfaceMod", "mkckks/utils.go:scaleUpExact"]}
{"id": "C57", "title": "Vector scaling fills exactly the intended entries", "statement": "scaleUpVecExact writes in entry i of row j the word scaleUpExact(values[i], n, moduli[j]) for every value and modulus, clears the rest of these rows and leaves other rows alone, without indexing out of range when the rows are long enough (except for n*|value| = 2^64 exactly, where the conversion is not defined by Go); scaleUpVecExactBigFloat writes a word congruent to the scaled rounded value, in [q, 2q) for negative values.", "quantifier": "all value vectors, scales, moduli and matrices of coefficients", "why_tests_cant": "vectors, magnitudes and moduli are unbounded; the branch boundary 2^64 is a single float", "anchors": ["mkckks/utils.go:scaleUpVecExact", "mkckks/utils.go:scaleUpVecExactBigFloat"]}
{"id": "C58", "title": "BFV programs decrypt to the arithmetic of their plaintexts", "statement": "If the inputs are BFV encryptions of messages m_i modulo T (fresh encryptions of encoded messages are), every program of AddNew, SubNew, MulRelinNew, RotateNew and Conjugate run on them with the parties' keys succeeds and returns a ciphertext, involving exactly the parties of its inputs, that encrypts the value of the program on the m_i in Z_T[X]/(X^N+1); if the accumulated noise bound is below Q/2, Decrypt with all secret keys followed by rounding T*x/Q returns exactly this value modulo T.", "quantifier": "every program (any depth), any parties, messages, keys and errors within bounds, iteration orders and stale scratch contents", "why_tests_cant": "Programs, messages, noises and orders are unbounded; correctness of decryption is a statement about every noise within the bound.", "anchors": ["mkbfv/evaluator.go: AddNew, SubNew, MulRelinNew, RotateNew, ConjugateNew", "mkbfv/encryptor.go: EncryptMsgNew", "mkbfv/decryptor.go: Decrypt"]}
{"id": "C59", "title": "CKKS programs compute the real arithmetic of their messages, within an explicit error", "statement": "If the parties' keys come from key generation and the inputs are CKKS encryptions of real polynomials v_i (fresh encryptions of encoded messages are), every program of AddNew, SubNew, MulRelinNew, MulRelinHoistedNew, MulPtxtNew, RotateNew, RotateHoistedNew, Conjugate, HoistedForm, DropLevelNew, MultByConst by real constants and Rescale whose scales and levels do not run out succeeds, threading the evaluator's scratch state from call to call, and every ciphertext it makes encrypts the value of the same program on the v_i up to an error bound computed from the program; the slots of that value are added, multiplied (also by constants), cyclically rotated and conjugated. Decrypt with all secret keys returns a plaintext whose centred representative is within that bound of scale*v in each coefficient and slot.", "quantifier": "every program (any length and depth), any parties, messages, keys and errors within bounds, iteration orders, float rounding model and stale scratch contents", "why_tests_cant": "Programs, messages, noises and orders are unbounded and the error bound is a worst case over all of them; a test samples one noise.", "anchors": ["mkckks/evaluator.go: AddNew, SubNew, MulRelinNew, MulRelinHoistedNew, MulPtxtNew, RotateNew, RotateHoistedNew, ConjugateNew, HoistedForm, DropLevelNew, MultByConst, Rescale", "mkckks/encryptor.go: EncryptMsgNew", "mkckks/decryptor.go: Decrypt", "cnn/cnn_test.go: genTestParams"]}
{"id": "C60", "title": "The encrypted CNN client classifies like the network in the clear", "statement": "For every image, every model and every run of the CNN application (new parameters of ring degree 2^14 with the extra reference strings, keys for the data owner and the model owner, packing and encryption of image, kernels, dense matrices and biases, Convolution, square, FC1Layer, square, FC2Layer, decryption): no call panics or fails, and if the result fits the last modulus then the decoded slots 0..9 are the ten class scores of the network computed in the clear (convolution, square, dense, square, dense) within an error bound computable from the parameters, and the class the client reads off is the network's first class whenever that class is ahead by more than twice the bound and above -100.", "quantifier": "all images, models, sampler outcomes within their bounds, map iteration orders of every map, contents of all scratch memories, sets of parties that include the two owners, valid parameter sets of ring degree 2^14", "why_tests_cant": "The test runs ten images through one model with one set of random keys and only prints an accuracy; it says nothing about other images, models, keys, noise outcomes or iteration orders, and a packing or rotation error that only hurts some pixels would only lower the printed accuracy.", "anchors": ["cnn/cnn.go: Convolution, FC1Layer, FC2Layer", "cnn/cnn_test.go: TestCNN, genTestParams, encryptImage, encryptKernels, encryptFC1, encryptFC2, encryptB1, encryptB2"]}
{"id": "C61", "title": "Which parameter literals work, and the shipped ones do", "statement": "NewParametersFromLiteral/NewParameters applied to a literal whose primes lattigo accepts (distinct, prime, 1 modulo 2N), which are below 2^61 and not shared between Q, QMul and P, with gamma dividing the number (at most 8) of special primes - and for BFV as many primes in QMul as in Q, half the number of special primes dividing the number of Q primes, at most 32 of them - succeeds and gives a parameter set that satisfies every assumption of the other properties. All parameter literals of the repository's own tests (mkbfv PN15QP880 and PN14QP439, mkckks PN15QP880 and PN14QP439, mkrlwe PN16QP1761, cnn PN14QP433) are such literals. A BFV literal with Q and QMul of different lengths or sharing a prime is rejected with a panic.", "quantifier": "all literals, all float64 roundings, all implementations of the row operations; the six shipped literals", "why_tests_cant": "Tests run a fixed set of literals and only observe that decryption is close; that every prime really is prime, that the sums of lazily reduced words fit, and which other literals are safe, is not observable from a run.", "anchors": ["mkbfv/params.go: NewParametersFromLiteral", "mkrlwe/params.go: NewParameters", "mkckks/params.go: NewParameters", "mkbfv/mkbfv_test.go: PN15QP880, PN14QP439", "mkckks/mkckks_test.go: PN15QP880, PN14QP439", "mkrlwe/mkrlwe_test.go: PN16QP1761", "cnn/cnn_test.go: PN14QP433"]}
{"id": "C62", "title": "Guaranteed BFV depth at the shipped parameters", "statement": "At the shipped BFV parameters PN14QP439 and PN15QP880, with at most four parties, ternary secrets and errors of at most 19: for every program of additions, subtractions, multiplications, rotations and conjugations whose multiplicative depth d and number l of other operations on a path satisfy 49*d + l <= 280 (PN14QP439) or 51*d + l <= 720 (PN15QP880), generating the keys, encrypting the inputs, running the program and decrypting succeeds and gives exactly the value of the program on the messages modulo T = 65537, with no probability of failure.", "quantifier": "all programs within the depth bound, all messages, all sampler outcomes within their bounds, all map iteration orders, any contents of the evaluator's scratch memory, up to four parties with any ids other than \"0\"", "why_tests_cant": "Tests multiply a few random messages under a few random keys; the worst case noise is never observed at random and a deeper program or unlucky keys may behave differently.", "anchors": ["mkbfv/mkbfv_test.go: PN15QP880, PN14QP439, genTestParams", "mkbfv/evaluator.go: MulRelinNew, AddNew, SubNew, RotateNew, ConjugateNew", "mkbfv/keygen.go", "mkbfv/encryptor.go", "mkbfv/decryptor.go"]}
{"id": "C63", "title": "Sharing between ciphertexts never changes results", "statement": "Whatever memory the client's ciphertexts share - several variables may point to the same ciphertext, and different ciphertexts may share polynomials - every sequence of calls of the allocating evaluator functions (CKKS: AddNew, SubNew, MulRelinNew, RotateNew, ConjugateNew, the hoisted forms, MulPtxtNew, DropLevelNew, and MultByConst and Rescale on copies; BFV: every circuit of AddNew, SubNew, MulRelinNew, RotateNew, ConjugateNew) computes the same encryptions, with the same noise bounds, as if all ciphertexts were separate immutable values, and leaves everything the client held before unchanged; decryption of the results does so too. EncryptMsgNew writes only a new ciphertext and the encryptor's plaintext, so a whole client (encrypt all inputs, evaluate, decrypt) on shared memory gets the circuit's value. The CKKS client must only keep its ciphertexts apart from the evaluator's private pool, which no public function hands out.", "quantifier": "all heaps and all aliasing patterns between the client's ciphertexts, all programs, all map iteration orders, any contents of scratch memory", "why_tests_cant": "Tests use separately allocated ciphertexts; a call that reads an operand after it has written to memory shared with it gives wrong results only for particular aliasing patterns and call sequences.", "anchors": ["mkckks/evaluator.go: AddNew, SubNew, MulRelinNew, RotateNew, ConjugateNew, MulRelinHoistedNew, RotateHoistedNew, MulPtxtNew, DropLevelNew, MultByConst, Rescale", "mkbfv/evaluator.go: AddNew, SubNew, MulRelinNew, RotateNew, ConjugateNew", "mkrlwe/keyswitch.go: MulAndRelin, Rotate, Conjugate", "mkrlwe/elements.go: CopyNew, PadCiphertext"]}
{"id": "C64", "title": "Only the participants' keys matter", "statement": "MulRelinNew, MulRelinHoistedNew, RotateNew, RotateHoistedNew, ConjugateNew (CKKS and BFV) and Decrypt give the same outcome - the same ciphertext or plaintext, or the same panic - for two key sets that agree on the ids of the operands; so adding, replacing or deleting keys of a party that takes no part in the computation never changes it.", "quantifier": "every operand (well formed or not, except Decrypt), every pair of key sets agreeing on the participants, every history of Add/Del calls under other ids, every iteration order, level, rotation amount and evaluator state", "why_tests_cant": "A test compares a few key sets; the claim is that no key outside the participants is ever read into a result, for every set and every input.", "anchors": ["mkrlwe/keyswitch.go", "mkrlwe/keyswitch_hoisted.go", "mkrlwe/decryptor.go", "mkckks/evaluator.go", "mkbfv/evaluator.go", "mkbfv/keyswitch.go", "mkbfv/keyswitch_hoisted.go", "mkrlwe/keys.go"]}
{"id": "C65", "title": "No sampled polynomial is used twice", "statement": "Every key-generation call and every encryption reads a run of consecutive outputs of its samplers whose length depends on the parameters only (1 for a public key or a Gaussian secret key, beta for a rotation, conjugation or switching key, 3*beta for a relinearization key, 5*beta for a BFV relinearization key, one ternary and two Gaussian polynomials for an encryption). What the call returns is a function of its arguments and of these outputs alone: not of earlier or later outputs, not of what earlier calls left in the generator's or encryptor's buffers. In any history of calls on one generator or encryptor the runs are consecutive and disjoint, so no randomness is shared between two keys or two ciphertexts.", "quantifier": "all parameters, sampler outputs, buffer contents, arguments (also malformed ones, for which the call fails), and all histories of calls", "why_tests_cant": "a reused or leaked sample leaves every key and ciphertext individually correct and decryptable; only a statement over all pairs of sampler streams and histories excludes it", "anchors": ["mkrlwe/keygen.go:GenSecretKeyGaussian", "mkrlwe/keygen.go:GenPublicKey", "mkrlwe/keygen.go:GenSwitchingKey", "mkrlwe/keygen.go:GenRelinearizationKey", "mkrlwe/keygen.go:GenRotationKey", "mkrlwe/keygen.go:GenConjugationKey", "mkbfv/keygen.go:GenRelinearizationKey", "mkbfv/keygen.go:GenBFVSwitchingKey", "mkrlwe/encryptor.go:Encrypt"]}
{"id": "C66", "title": "Operations with the operand as receiver", "statement": "KeySwitcher.Rotate(ct, r, rks, ct) and RotateHoisted with the operand as receiver leave in ct exactly what a rotation into a separate receiver returns; MultByConst(ct, k, ct) with a real constant, Rescale(ct, minScale, ct) and DropLevel(ct, k) leave in ct the product, the rescaled ciphertext, the ciphertext at the lower level, with the message, scale and error of the version that returns a new ciphertext. Every ciphertext that shares no polynomial with ct keeps its value.", "quantifier": "all memory layouts in which the components of ct are different polynomials (other ciphertexts may share polynomials with each other and with ct), all keys, rotation amounts, levels, iteration orders, contents of the pools", "why_tests_cant": "whether an in-place call reads a component after overwriting it depends on the map iteration order and on the memory layout; tests use one layout and the order the runtime picks", "anchors": ["mkrlwe/keyswitch.go:Rotate", "mkrlwe/keyswitch_hoisted.go:RotateHoisted", "mkckks/evaluator.go:MultByConst", "mkckks/evaluator.go:Rescale", "mkckks/evaluator.go:DropLevel"]}
{"id": "C67", "title": "Guaranteed precision of CKKS programs at the shipped parameters", "statement": "With PN14QP439 (scale 2^52) and PN15QP880 (scale 2^54) and up to four parties, a client that generates all keys, encrypts its inputs, runs any program of additions, subtractions, multiplications (plain and hoisted), plaintext multiplications, rotations by any amount (plain, and hoisted by powers of two), conjugations and level drops that the error estimator accepts, and decrypts, never fails, and every slot of the decoded result is within the estimated error of the same program run on the complex message vectors. In particular a round trip is within 2^-18, the computation of testEvaluatorMul for four users within 2^-14, rotation and conjugation of the sum within 2^-15, and five (thirteen) squarings in a row give z^32 (z^8192) within 2^-13 (2^-5).", "quantifier": "all messages within the stated slot bounds, all encodings with at most the stated encoding error, all sampler outputs within the bounds of the samplers, all contents of pools at the start, all map iteration orders, all programs accepted by the estimator", "why_tests_cant": "tests sample one program, a few messages and typical noise; the bound has to hold for every message, every program and every noise the samplers can return", "anchors": ["mkckks/mkckks_test.go:PN14QP439", "mkckks/mkckks_test.go:PN15QP880", "mkckks/mkckks_test.go:testEvaluatorMul", "mkckks/evaluator.go:MulRelinNew", "mkckks/evaluator.go:RotateNew", "mkckks/decryptor.go:Decrypt"]}
{"id": "C68", "title": "A missing evaluation key is never silent", "statement": "If a party of an operand has no current relinearization key in the key set handed over (none was added since it was last deleted), mkckks MulRelinNew and MulRelinHoistedNew and mkbfv MulRelinNew do not return a ciphertext; if it has no current rotation key under an index the rotation amount needs (the normalized amount when it has a CRS, else every power of two in its binary expansion), RotateNew and RotateHoistedNew do not return; if it has no current conjugation key, ConjugateNew does not return.", "quantifier": "all parameter sets, all histories of Add/Del calls on the key sets, all operands and hoisted forms, all rotation amounts, all parties and all map iteration orders, all scratch contents", "why_tests_cant": "tests always supply complete key sets; a silently wrong result would need one particular party, amount and iteration order", "anchors": ["mkrlwe/keyswitch.go:MulAndRelin,Rotate,Conjugate", "mkrlwe/keyswitch_hoisted.go", "mkrlwe/keys.go", "mkbfv/keyswitch_hoisted.go", "mkckks/evaluator.go", "mkbfv/evaluator.go"]}
{"id": "C69", "title": "Clients that share an evaluator do not influence each other", "statement": "Any number of clients use one CKKS or BFV evaluator and one relinearization key set (whose scratch memory and hoisting pools every call overwrites), calling it in any interleaving: whenever each client's own calls meet their requirements, no call fails, and every client ends up with exactly the ciphertexts (same identifiers, same polynomials bit for bit, in CKKS same scales) that it gets by making its own calls alone on any other ready evaluator. In particular a client program returns the same ciphertexts whatever the evaluator was used for before and in whatever orders Go iterates its maps.", "quantifier": "all valid parameter sets, any number of clients, all client programs over all evaluator calls including hoisted ones, all interleavings, all initial scratch and pool contents, all map iteration orders", "why_tests_cant": "the number of interleavings and of stale scratch contents is unbounded, and Go randomizes map iteration per run", "anchors": ["mkckks/evaluator.go", "mkrlwe/keyswitch.go", "mkrlwe/keyswitch_hoisted.go", "mkrlwe/keys.go", "mkbfv/evaluator.go", "mkbfv/keyswitch_hoisted.go"]}
{"id": "C70", "title": "Key objects own their memory", "statement": "Parameters, a key generator and any sequence of calls of AddCRS, GenSecretKey (all samplers), GenPublicKey, GenRelinearizationKey (mkrlwe/mkckks and mkbfv), GenRotationKey, GenConjugationKey and of SecretKey/PublicKey CopyNew: the run ends, panics included, exactly as the value-level description of these functions says; afterwards every key made on the way still holds the value it was made with, no two keys share a polynomial, no key shares one with the common reference string or with the key generator's scratch space, and no object that existed before was changed. Whatever is later written into the polynomials of one key leaves every other key, the CRS and the key generator unchanged. Key constructors return zero keys in new memory; CopyNew is deep.", "quantifier": "all parameter sets, all sequences of calls of any length, all sampled polynomials, all initial memories (including one that holds earlier keys and ciphertexts), all later writes", "why_tests_cant": "aliasing shows only in particular sequences of calls and later writes; the sequences are unbounded", "anchors": ["mkrlwe/keys.go", "mkrlwe/keygen.go", "mkrlwe/params.go AddCRS", "mkbfv/keys.go", "mkbfv/keygen.go"]}
{"id": "C71", "title": "Shallow copies of a basis extender can be used by concurrent goroutines", "statement": "A program makes one FastBasisExtender and any number of ShallowCopy of it and of its copies, and gives each to its own goroutine, which makes any sequence of calls ModUpQtoP, ModUpPtoQ, ModDownQPtoQ, ModDownQPtoP on it. If no goroutine writes an argument polynomial that another goroutine uses (reading in common is allowed), then in every interleaving of the single reads and writes there is no data race, every goroutine ends after as many accesses as it makes running alone, whatever the others do, its arguments then hold exactly what its solitary run leaves (for ModDownQPtoQ the division by P of C39), and no other polynomial is changed. Two goroutines that share one extender can return wrong words: a schedule is exhibited.", "quantifier": "all prime chains, all numbers of copies and orders of copying, all call sequences, all input words, all schedules", "why_tests_cant": "the number of interleavings is astronomic and a race shows up only in a few of them", "anchors": ["mkrlwe/basis_extension.go ShallowCopy", "mkrlwe/basis_extension.go ModDownQPtoQ", "mkrlwe/basis_extension.go ModDownQPtoP", "mkrlwe/basis_extension.go ModUpQtoP", "mkrlwe/basis_extension.go modUpExact"]}
{"id": "C72", "title": "Ciphertext addition and subtraction obey the laws of a module", "statement": "Counting a party that does not occur in a ciphertext as a zero component, AddNew adds and SubNew subtracts component by component modulo every prime, in BFV and (with the factors of the scale alignment) in CKKS, for operands over any sets of parties, equal, disjoint or overlapping. Hence AddNew is commutative and associative (CKKS: associative for operands of one scale, at any levels), SubNew(a, a) is zero, (a - b) + b and (a + b) - b are a padded with zero components, and a - b is the opposite of b - a. If all words of the operands are reduced, the two sides of commutativity and associativity are equal word for word, with the same set of parties.", "quantifier": "all ciphertexts, party sets, levels, scales, evaluator pool contents and map iteration orders", "why_tests_cant": "a law relates two different computations for all operands; which branch of the merge a party takes depends on the two party sets", "anchors": ["mkbfv/evaluator.go AddNew", "mkbfv/evaluator.go SubNew", "mkbfv/evaluator.go evaluateInPlace", "mkckks/evaluator.go AddNew", "mkckks/evaluator.go SubNew", "mkckks/evaluator.go evaluateInPlace"]}
{"id": "C73", "title": "Party identifiers are only labels", "statement": "Replacing the identifiers of the parties, one to one and without touching the reserved identifier \"0\", in keys, key sets, ciphertexts and hoisted forms changes no polynomial: every operation on IDSets, key sets and ciphertexts, key generation, encryption, and every program of CKKS or BFV evaluator calls returns the renamed result of the original call, or fails with the same error, and decryption returns the same plaintext. So a session with other party names (any distinct names other than \"0\") decrypts the same plaintext. In particular no result depends on how identifiers compare with each other.", "quantifier": "all one-to-one renamings that keep \"0\", all objects, key sets, memory contents, iteration orders (the renamed map lists the renamed keys in the same order), call sequences", "why_tests_cant": "a test uses a handful of fixed names (the repository's tests use \"user1\", \"user2\", ...), so a computation that depends on them, say through their order or a reserved prefix, goes unnoticed", "anchors": ["mkrlwe/idset.go IDSet", "mkrlwe/elements.go Ciphertext", "mkrlwe/keys.go *Set", "mkrlwe/keyswitch.go MulAndRelin", "mkckks/evaluator.go Evaluator", "mkbfv/evaluator.go Evaluator", "mkrlwe/decryptor.go Decrypt"]}
{"id": "C74", "title": "BFV on batched messages: entry-wise arithmetic, column rotation, row exchange", "statement": "When T is a prime with a primitive 2N-th root of unity, mkbfv messages are matrices of 2 rows and N/2 columns of integers modulo T. Every such matrix is the matrix of exactly one polynomial with coefficients in [0,T). Decrypting the result of any program of AddNew, SubNew, MulRelinNew, RotateNew and ConjugateNew calls within the noise budget gives the matrix obtained by adding, subtracting and multiplying entry by entry, rotating the columns of both rows by the rotation amount (entry j of the result of RotateNew(r) is entry j+r modulo N/2 of the same row), and exchanging the two rows for ConjugateNew.", "quantifier": "all matrices of messages, all programs within the noise budget, all integer rotation amounts, all parties, all randomness within the sampler bounds, all map iteration orders; in particular at both shipped parameter sets", "why_tests_cant": "the repository's tests compare slots of one random message after one rotation by a random amount; they cannot cover all matrices, programs, amounts and randomness", "anchors": ["mkbfv/elements.go Message", "mkbfv/encryptor.go EncryptMsgNew", "mkbfv/decryptor.go Decrypt", "mkbfv/evaluator.go AddNew, SubNew, MulRelinNew, RotateNew, ConjugateNew", "mkbfv/params.go NewParametersFromLiteral"]}
{"id": "C75", "title": "CKKS messages with fewer than N/2 slots", "statement": "With LogSlots below logN-1 a message has n = 2^LogSlots numbers. A program of evaluator calls on encryptions of such messages computes on vectors of n slots: additions, subtractions, products, products with plaintexts and constants act slot by slot, rotation by r moves slot j + r modulo n to slot j, conjugation conjugates each slot. What is decrypted and decoded with n slots is within the same error that is guaranteed for all N/2 slots. Every message is carried by exactly one real polynomial, a polynomial in X^g with N = 2*n*g.", "quantifier": "every number of slots 2^l with 2^l * 2^m = N/2, every valid parameters, every message, every program of calls that meets the conditions of C59 (or is accepted by the estimator of C67), every slot, every map order", "why_tests_cant": "A test tries one LogSlots (the suite uses the full N/2) and a few rotations; that a rotation wraps around at n instead of N/2 and that the averaging decoder never increases the error is a statement about all messages, amounts and slot counts.", "anchors": ["mkckks/params.go: NewParameters, Slots, LogSlots", "mkckks/elements.go: NewMessage", "mkckks/encryptor.go: EncodeMsgNew, EncryptMsgNew", "mkckks/decryptor.go: Decrypt", "mkckks/evaluator.go: MulRelinNew, RotateNew, ConjugateNew, AddNew, SubNew, MulPtxtNew"]}
{"id": "C76", "title": "Panics and interruptions leave the client's ciphertexts and the evaluator usable", "statement": "At every moment between the start of an evaluator, encryptor or decryptor call and its return or panic, every ciphertext the client holds has exactly the contents it had, also the operands of the call; of the objects that existed before, CKKS AddNew and SubNew write only to the evaluator's own pool ciphertext, Decrypt only to the decryptor's plaintext, all others to nothing. If a call is stopped at any moment (by its own panic on a missing key or a level, or from outside) and the client recovers and goes on with the same evaluator, then every history of such calls gives the results of the calls that returned, as if the others had not been made: later programs run, and decrypt to the right values within the guaranteed error.", "quantifier": "every call with every argument (also arguments for which it panics), every moment of it including half-written rows, every heap with any sharing between ciphertexts, every contents of the evaluator's private buffers after the stop, every sequence of completed and stopped calls, every map order", "why_tests_cant": "A test can provoke a few panics with recover and look afterwards; it cannot stop every call at every write, nor try every history after it. The pool ciphertext of the CKKS evaluator is shared state that AddNew and SubNew leave half updated, so that it stays usable is an invariant, not an observation.", "anchors": ["mkckks/evaluator.go: AddNew, SubNew, evaluateInPlace, MulRelinNew, RotateNew, ConjugateNew, MultByConst, Rescale, RescaleNew, DropLevelNew, MulPtxtNew", "mkbfv/evaluator.go: AddNew, SubNew, MulRelinNew, RotateNew, ConjugateNew", "mkckks/decryptor.go: Decrypt", "mkbfv/decryptor.go: Decrypt", "mkrlwe/elements.go: PadCiphertext, CopyNew", "mkrlwe/encryptor.go: Encrypt"]}
{"id": "C77", "title": "Goroutines that multiply with one relinearization key set", "statement": "Several goroutines, each with an evaluator of its own, call MulRelinNew or MulRelinHoistedNew with key sets that may be shared; each call would succeed on its own. Whatever the scheduler does, no call panics, every call returns after a bounded number of its own steps, and returns the ciphertext it returns when run alone.", "quantifier": "any number of goroutines, any assignment of key set objects to them, all operands over any parties, every interleaving of their accesses to the key sets, including entries seen half-written, every map order", "why_tests_cant": "The outcome depends on the schedule, and the number of schedules grows exponentially with the number of goroutines and parties; the race detector only sees schedules that happen. The key set is passed as an input, and nothing in the API tells that MulRelinNew writes to it.", "anchors": ["mkckks/evaluator.go: MulRelinNew, MulRelinHoistedNew, HoistedForm", "mkrlwe/keys.go: RelinearizationKeySet.HoistPool", "mkrlwe/keyswitch.go: Decompose"]}
{"id": "C78", "title": "Goroutines that multiply with one BFV relinearization key set", "statement": "Several goroutines, each with a BFV evaluator of its own, call MulRelinNew with key sets that may be shared; each call would succeed on its own. Whatever the scheduler does, no call panics, every call returns after a bounded number of its own steps, and returns the ciphertext it returns when run alone.", "quantifier": "any number of goroutines, any assignment of key set objects to them, all operands over any parties, every interleaving of their accesses to the key sets, including entries seen half-written, every map order", "why_tests_cant": "The outcome depends on the schedule, and the number of schedules grows exponentially with the number of goroutines and parties; the race detector only sees schedules that happen. The key set is passed as an input and nothing in the API says that it is written.", "anchors": ["mkbfv/evaluator.go: MulRelinNew, mulRelinHoisted", "mkbfv/keys.go: RelinearizationKeySet (PolyRPool1, PolyRPool2, HoistPool1, HoistPool2)"]}
{"id": "C79", "title": "StandardDeviation and scaleDown are accurate, and never turn a division by zero into a number", "statement": "For every non-empty vector of at most 2^40 numbers of absolute value at most M and every scale >= 0, StandardDeviation returns a non-negative number that differs from scale times the population standard deviation by at most (4n+22)*2^-53*M*scale; for the empty vector it returns NaN. scaleDown(c, n) differs from c/n by a relative error of at most 3*2^-53 for every integer c and every n other than 0, returns integers of up to 53 bits exactly for n = 1, and for n = 0 returns NaN or the infinity of c's sign.", "quantifier": "every vector, bound, scale, integer and divisor, and every rounding function meeting the float64 contract (no overflow or underflow)", "why_tests_cant": "The error of a running sum depends on all partial sums; a test sees a few vectors, and rounding errors usually cancel on them.", "anchors": ["mkckks/utils.go:StandardDeviation", "mkckks/utils.go:scaleDown"]}
{"id": "C80", "title": "Encrypting into an existing ciphertext", "statement": "After Encrypt, EncryptPtxt or EncryptMsg with a public key of a party, the receiver decrypts to the message up to the encryption noise, whatever it held before and whoever else participates in it. Exactly: the components '0' and of the key's owner are overwritten and cut to the smaller level, every other component is untouched, so the result is the message plus noise plus the old components of the other parties times their secrets. If those are zero (in particular for a NewCiphertext of any participants) the claim holds; a receiver without a component of the owner makes the call panic.", "quantifier": "every plaintext, key, receiver (any participants, levels, contents and domain), sampler output and encryptor state", "why_tests_cant": "Tests encrypt into ciphertexts that EncryptMsgNew allocated; the effect depends on the whole history of the receiver.", "anchors": ["mkrlwe/encryptor.go:Encrypt", "mkckks/encryptor.go:EncryptPtxt", "mkckks/encryptor.go:EncryptMsg", "mkbfv/encryptor.go:EncryptPtxt", "mkbfv/encryptor.go:EncryptMsg"]}
{"id": "C81", "title": "Reorganising a computation does not change what it decrypts to", "statement": "If one BFV computation is obtained from another by applying, anywhere and any number of times, the laws of arithmetic (commutativity, associativity, distributivity of addition, subtraction and multiplication), the laws of rotations (they compose by adding the amounts, are periodic in N/2, distribute over the arithmetic) and of conjugation, then both computations, run on the same encrypted inputs with the same keys, decrypt to the same plaintext modulo T as long as both noise bounds are below Q/2, although the evaluators, their scratch memory, the intermediate ciphertexts and the map iteration orders differ. Two CKKS programs whose results are the same polynomial of the messages decrypt to slot values that differ by at most the sum of their two error bounds.", "quantifier": "all pairs of programs related by the laws (any size), all inputs and party sets, all keys meeting the key equations, all evaluator states and all map iteration orders", "why_tests_cant": "There are infinitely many programs and rewritings; the ciphertexts of the two sides are different, so equality of the decryptions is a statement about noise, not about values a test can compare for all programs.", "anchors": ["mkbfv/evaluator.go: AddNew, SubNew, MulRelinNew, RotateNew, ConjugateNew", "mkckks/evaluator.go: AddNew, SubNew, MulRelinNew, RotateNew, ConjugateNew, Rescale", "mkbfv/decryptor.go: Decrypt", "mkckks/decryptor.go: Decrypt"]}
{"id": "C82", "title": "Interrupted key generation", "statement": "A call of a key generator (GenSecretKey and its variants, GenPublicKey, GenRelinearizationKey of mkrlwe and mkbfv, GenRotationKey, GenConjugationKey, CopyNew of secret and public keys) may panic or be stopped at any moment. Until it returns it writes only the pools of the key generator and memory it has allocated itself: every key made before, the CRS and every other object keep their contents at every moment. So after a history in which some calls returned and others were stopped, every key made by a call that returned has the value it was made with, owns its memory and satisfies its key equation (C12, C14, C15, C44), the key generator can be used on, and a call that follows the rules returns.", "quantifier": "all parameters, memories, sampler outputs, secret keys, all histories of completed and stopped calls, all moments at which a call can be stopped, including in the middle of writing a row", "why_tests_cant": "a test sees memory after a call has returned, not at each of the moments at which it can be cut off, and runs a few histories", "anchors": ["mkrlwe/keygen.go: GenPublicKey, GenRelinearizationKey, GenRotationKey, GenConjugationKey, GenSwitchingKey, genSecretKeyFromSampler", "mkbfv/keygen.go: GenRelinearizationKey, GenBFVSwitchingKey", "mkrlwe/keys.go: CopyNew", "mkrlwe/params.go: AddCRS (excluded)"]}
{"id": "C83", "title": "A stopped AddCRS", "statement": "When a call AddCRS(idx) is stopped before it returns, at whatever moment, every key, every other CRS entry and the key generator are as they were, calls that do not use the entry idx give what they would have given, and calling AddCRS(idx) again puts a complete entry there. The unfinished entry is visible, though: while components are missing GenRotationKey(idx, sk) panics, and there is a moment after which it returns a rotation key whose last block carries P*s+e without a mask, from which the secret key follows.", "quantifier": "all memories and histories before the call, all moments at which it is stopped (also within the row being written), all sampler outputs, all indices and all later calls", "why_tests_cant": "A test cannot stop a call between two writes, let alone at every moment and with every content of memory; the exposure needs one of very few moments.", "anchors": ["mkrlwe/params.go: Parameters.AddCRS", "mkrlwe/keygen.go: KeyGenerator.GenRotationKey"]}
