{
 "claims": [
  {
   "property": "C01",
   "status": "proved",
   "theorems": [
    "MKHE.C01.idset_refines_finite_set"
   ],
   "note": "refinement to Set String over all Add/Remove histories"
  },
  {
   "property": "C02",
   "status": "proved",
   "theorems": [
    "MKHE.C01.set_operations"
   ],
   "note": "all iteration orders"
  },
  {
   "property": "C03",
   "status": "proved",
   "theorems": [
    "MKHE.C01.zero_never_member"
   ],
   "note": ""
  },
  {
   "property": "C04",
   "status": "proved",
   "theorems": [
    "MKHE.C04.get_returns_last_added"
   ],
   "note": "all histories"
  },
  {
   "property": "C05",
   "status": "proved",
   "theorems": [
    "MKHE.C04.rotation_key_set_two_level"
   ],
   "note": "all histories"
  },
  {
   "property": "C06",
   "status": "proved",
   "theorems": [
    "MKHE.C04.pools_cover_keys"
   ],
   "note": "all histories; also shows stale pool entries survive Del"
  },
  {
   "property": "C07",
   "status": "proved",
   "theorems": [
    "MKHE.C07.newCiphertext",
    "MKHE.C07.newCiphertextNTT"
   ],
   "note": "heap model; all id sets, levels, iteration orders"
  },
  {
   "property": "C08",
   "status": "proved",
   "theorems": [
    "MKHE.C08.copyNew_deep",
    "MKHE.C08.copyNew_panics",
    "MKHE.C08.copy_value",
    "MKHE.C08.copy_panics"
   ],
   "note": "heap model; writes through either object range over arbitrary sequences of in-place row, flag, truncate and map writes"
  },
  {
   "property": "C09",
   "status": "proved",
   "theorems": [
    "MKHE.C09.pad_value"
   ],
   "note": "heap model"
  },
  {
   "property": "C10",
   "status": "proved",
   "theorems": [
    "MKHE.C10.blocks_partition_moduli"
   ],
   "note": "float64 ceiling modelled by any rounding with relative error 2^-53; counts below 2^53"
  },
  {
   "property": "C11",
   "status": "proved",
   "theorems": [
    "MKHE.C10.crs_indices"
   ],
   "note": "uniform sampler is an arbitrary stream"
  },
  {
   "property": "C12",
   "status": "proved",
   "theorems": [
    "MKHE.C12.publicKey",
    "MKHE.C12.keyPair",
    "MKHE.C12.secretKey",
    "MKHE.C12.secretKeyGaussian"
   ],
   "note": "Errors are the polynomials the sampler returns; all streams within the bound. ExtendBasisSmallNormAndCenter, NTT and Montgomery operations of lattigo are part of the trusted contract."
  },
  {
   "property": "C13",
   "status": "proved",
   "theorems": [
    "MKHE.C13.switchingKey"
   ],
   "note": "Any stale content of the output key, block length need not divide the number of primes."
  },
  {
   "property": "C14",
   "status": "proved",
   "theorems": [
    "MKHE.C14.relinearizationKey",
    "MKHE.C14.relinearizationKey_rel"
   ],
   "note": "The second theorem gives exactly the hypothesis of the multiplication theorems."
  },
  {
   "property": "C15",
   "status": "proved",
   "theorems": [
    "MKHE.C15.rotationKey",
    "MKHE.C15.conjugationKey"
   ],
   "note": ""
  },
  {
   "property": "C16",
   "status": "proved",
   "theorems": [
    "MKHE.C16.rotationKey_outcome",
    "MKHE.C16.default_rotationKey",
    "MKHE.C16.default_negative",
    "MKHE.C16.defaultRotationKeys",
    "MKHE.C16.all_parties_hasKeys",
    "MKHE.C16.genKeyPairSparse_fails",
    "MKHE.C16.publicKey_outcome",
    "MKHE.C16.conjugationKey_outcome",
    "MKHE.C16.relinearizationKey_outcome",
    "MKHE.C16.newCrs_default"
   ],
   "note": "Panic characterisation for all indices; bridge from NewParameters (C11) to the CRS hypotheses."
  },
  {
   "property": "C17",
   "status": "proved",
   "theorems": [
    "MKHE.C17.encrypt_phase",
    "MKHE.C17.noise_bound",
    "MKHE.C17.encrypt_decrypt",
    "MKHE.C17.genKeyPair_encrypt_decrypt",
    "MKHE.C17.ckksEncryptNew_phase",
    "MKHE.C17.bfvEncryptNew_phase"
   ],
   "note": "encoders not modelled: the message is the plaintext polynomial"
  },
  {
   "property": "C18",
   "status": "proved",
   "theorems": [
    "MKHE.C18.partialDecrypt_step",
    "MKHE.C18.partialDecrypts",
    "MKHE.C18.order_irrelevant"
   ],
   "note": ""
  },
  {
   "property": "C19",
   "status": "proved",
   "theorems": [
    "MKHE.C19.decrypt_detects",
    "MKHE.C19.ckksDecrypt_detects"
   ],
   "note": "for key sets built by New/Add/Del (KeySet.Keyed)"
  },
  {
   "property": "C20",
   "status": "proved",
   "theorems": [
    "MKHE.C20.decrypt_leaves_input",
    "MKHE.C20.decrypt_value",
    "MKHE.C20.ckksDecrypt_writes_pool",
    "MKHE.C20.bfvDecrypt_writes_nothing"
   ],
   "note": "heap model: the call returns, writes only the plaintext polynomial; the plaintext polynomial must not belong to the ciphertext"
  },
  {
   "property": "C21",
   "status": "partial",
   "theorems": [
    "MKHE.C21.history_partial",
    "MKHE.C21.after_history",
    "MKHE.C21.history_matters",
    "MKHE.Ex.history_matters_example"
   ],
   "note": "false of the code: history_matters shows a decryptor that has seen a lower level decodes at that level; history_partial proves independence when no earlier level was smaller"
  },
  {
   "property": "C22",
   "status": "proved",
   "theorems": [
    "MKHE.C22.addNew_phase",
    "MKHE.C22.subNew_phase",
    "MKHE.C22.heap_addNew_phase",
    "MKHE.C22.heap_subNew_phase"
   ],
   "note": "value model and heap model (operands may share polynomials or coincide); orders quantified"
  },
  {
   "property": "C23",
   "status": "proved",
   "theorems": [
    "MKHE.C23.addNew_phase",
    "MKHE.C23.subNew_phase",
    "MKHE.C23.heap_addNew_phase",
    "MKHE.C23.heap_subNew_phase",
    "MKHE.C23.factor_close",
    "MKHE.C23.factor_integer",
    "MKHE.C23.factor_of_ge",
    "MKHE.C23.factor_three_halves"
   ],
   "note": "value and heap model; N multiple of 16; ratio of scales below 2^52; a ratio in (1,2) is not aligned (factor_three_halves)"
  },
  {
   "property": "C24",
   "status": "proved",
   "theorems": [
    "MKHE.C30.mulAndRelinHoisted_deterministic",
    "MKHE.C30.rotateWith_deterministic",
    "MKHE.C30.conjugate_deterministic",
    "MKHE.C24.rotateNew_deterministic",
    "MKHE.C24.conjugateNew_deterministic",
    "MKHE.C24.addNew_deterministic",
    "MKHE.C24.subNew_deterministic",
    "MKHE.C24.mulPtxt_deterministic",
    "MKHE.C24.mulRelinNew_deterministic",
    "MKHE.C24.hoistedForm_deterministic",
    "MKHE.C24.encrypt_deterministic",
    "MKHE.C24.encrypt_overwrites"
   ],
   "note": ""
  },
  {
   "property": "C25",
   "status": "proved",
   "theorems": [
    "MKHE.C25.real_phase",
    "MKHE.C25.unsupported",
    "MKHE.C25.small_degree"
   ],
   "note": "N multiple of 16 (otherwise the unrolled loops leave the row: small_degree)"
  },
  {
   "property": "C26",
   "status": "proved",
   "theorems": [
    "MKHE.C26.dropLevel_phase",
    "MKHE.C26.dropLevelNew_phase",
    "MKHE.C26.dropLevel_too_many",
    "MKHE.C26.heap_dropLevelNew_phase"
   ],
   "note": ""
  },
  {
   "property": "C27",
   "status": "proved",
   "theorems": [
    "MKHE.C27.rescale_phase",
    "MKHE.C27.rescale_none",
    "MKHE.C27.rescale_errors",
    "MKHE.C27.rescale_panics",
    "MKHE.C27.rescale_total"
   ],
   "note": "DivRoundByLastModulusManyLvl of lattigo is modelled by its formula"
  },
  {
   "property": "C28",
   "status": "partial",
   "theorems": [
    "MKHE.C28.rescaleNew_phase_partial",
    "MKHE.C28.heap_rescaleNew",
    "MKHE.C28.rescaleNew_zero",
    "MKHE.C28.rescaleNew_not_copy"
   ],
   "note": "refuted when no prime is divided out: rescaleNew_zero shows that the result is then the zero ciphertext for every input; rescaleNew_phase_partial proves the property when at least one prime is divided out"
  },
  {
   "property": "C29",
   "status": "proved",
   "theorems": [
    "MKHE.C29.mulAndRelin_phase",
    "MKHE.C29.mulAndRelinHoisted_phase",
    "MKHE.C29.mulRelinNew_phase",
    "MKHE.C29.mulRelinNew_panics",
    "MKHE.C29.mulRelin_phase",
    "MKHE.C29.mulRelinHoisted_phase"
   ],
   "note": "every parameter set, id sets, schedule and scratch content; explicit noise bound mulNoise; MulRelinNew including the rescaling; mulRelin and mulRelinHoisted with a receiver at any level"
  },
  {
   "property": "C30",
   "status": "proved",
   "theorems": [
    "MKHE.C30.mulAndRelinHoisted_eq",
    "MKHE.C30.rotateHoisted_eq"
   ],
   "note": "bit-for-bit equality of the returned ciphertexts; different scratch contents and map orders allowed on the two sides"
  },
  {
   "property": "C31",
   "status": "proved",
   "theorems": [
    "MKHE.C31.square_eq_mul_copy"
   ],
   "note": "every ciphertext, key set, evaluator memory, pool content, schedule"
  },
  {
   "property": "C32",
   "status": "proved",
   "theorems": [
    "MKHE.C32.externalProduct_eq",
    "MKHE.C32.externalProduct_switch"
   ],
   "note": "equation and key-switching corollary"
  },
  {
   "property": "C33",
   "status": "proved",
   "theorems": [
    "MKHE.C33.rotate_phase",
    "MKHE.C33.rotateHoisted_phase",
    "MKHE.C33.rotate_level",
    "MKHE.C33.rotate_missing"
   ],
   "note": ""
  },
  {
   "property": "C34",
   "status": "proved",
   "theorems": [
    "MKHE.C34.permute_words",
    "MKHE.C34.permute_automorphism",
    "MKHE.C34.galois_is_substitution",
    "MKHE.C34.permute_noncanonical"
   ],
   "note": ""
  },
  {
   "property": "C35",
   "status": "proved",
   "theorems": [
    "MKHE.C35.ckksRotateNew_phase",
    "MKHE.C35.bfvRotateNew_phase",
    "MKHE.C35.ckksRotateHoistedNew_phase",
    "MKHE.C35.amount_meaning",
    "MKHE.C35.ckksRotateHoisted_noCRS",
    "MKHE.C35.ckksRotateNew_missing"
   ],
   "note": "All integer amounts, both schemes; noise of one key switching per set bit; missing keys never give a result; hoisted rotation panics off the CRS."
  },
  {
   "property": "C36",
   "status": "proved",
   "theorems": [
    "MKHE.C36.conjugate_phase",
    "MKHE.C36.conjugate_missing",
    "MKHE.C36.conjugate_below"
   ],
   "note": "lattigo's ringQ.Permute is taken to act on the rows of the output; conjugate_below shows what happens if it acts on more"
  },
  {
   "property": "C37",
   "status": "proved",
   "theorems": [
    "MKHE.C37.multSum_exact",
    "MKHE.C37.multSum_any_table",
    "MKHE.C37.documented_range_false"
   ],
   "note": "comment range [0,2p-1] refuted with a witness"
  },
  {
   "property": "C38",
   "status": "proved",
   "theorems": [
    "MKHE.C38.modUp_one_small_integer",
    "MKHE.C38.modUp_more_than_32"
   ],
   "note": "at most 32 primes below 2^61 with sum at most 2^64"
  },
  {
   "property": "C39",
   "status": "proved",
   "theorems": [
    "MKHE.C39.modDown_divides",
    "MKHE.C39.modDown_floor",
    "MKHE.C39.not_rounded",
    "MKHE.C39.modDownNTT_divides",
    "MKHE.C39.modDownNTT_floor",
    "MKHE.C39.modDownNTT_fault"
   ],
   "note": "both variants; not_rounded is the witness that the comment about rounding is wrong"
  },
  {
   "property": "C40",
   "status": "partial",
   "theorems": [
    "MKHE.C40.modDownQPtoP_partial",
    "MKHE.C40.modDownQPtoP_wrong",
    "MKHE.C40.modDownQPtoP_fault"
   ],
   "note": "true when levelQ = levelP; false in general (line 312 indexes by levelP), witness proved"
  },
  {
   "property": "C41",
   "status": "proved",
   "theorems": [
    "MKHE.C41.decompose_correct",
    "MKHE.C41.decompose_out_of_range"
   ],
   "note": ""
  },
  {
   "property": "C42",
   "status": "proved",
   "theorems": [
    "MKHE.C29.mulAndRelinHoisted_phase",
    "MKHE.C29.mulRelinNew_phase",
    "MKHE.C42.hoistedForm_isHoisted",
    "MKHE.C33.rotateHoisted_phase"
   ],
   "note": "digits computed at any levels >= product level"
  },
  {
   "property": "C43",
   "status": "proved",
   "theorems": [
    "MKHE.C43.modUpQtoR",
    "MKHE.C43.rescale",
    "MKHE.C43.quantize"
   ],
   "note": "Each conversion succeeds, independent of stale pools, and represents one integer polynomial with explicit error bounds; instance in Props/BfvExample."
  },
  {
   "property": "C44",
   "status": "proved",
   "theorems": [
    "MKHE.C44.switchingKey",
    "MKHE.C44.gadget",
    "MKHE.C44.gadget_unique",
    "MKHE.C44.recombination",
    "MKHE.C44.relinearizationKey",
    "MKHE.C44.relinearizationKey_rel",
    "MKHE.C44.not_dividing"
   ],
   "note": "Equations of generated keys, the gadget identity sum_k G_k D_k(x) = tPx/QMul mod Q with explicit error, and the panic when alpha does not divide QCount. big.Int.ModInverse is the ZMod inverse."
  },
  {
   "property": "C45",
   "status": "proved",
   "theorems": [
    "MKHE.C45.mulRelinNew_phase",
    "MKHE.C45.mulRelin_phase",
    "MKHE.C45.pools"
   ],
   "note": "For all party sets, keys of the relation established by C44, orders and scratch contents."
  },
  {
   "property": "C46",
   "status": "proved",
   "theorems": [
    "MKHE.C46.hoisted_eq_plain"
   ],
   "note": "Bit for bit, for all scratch contents and orders of either call."
  },
  {
   "property": "C47",
   "status": "proved",
   "theorems": [
    "MKHE.C47.scaleUpExact_spec",
    "MKHE.C47.interfaceMod_congr",
    "MKHE.C47.interfaceMod_other",
    "MKHE.C47.genBigIntChain_spec",
    "MKHE.C47.genBigIntChain_empty",
    "MKHE.C47.rescalingParams_spec"
   ],
   "note": ""
  },
  {
   "property": "C48",
   "status": "proved",
   "theorems": [
    "MKHE.C48.sliceBitReverse_spec",
    "MKHE.C48.sliceBitReverse_involution",
    "MKHE.C48.sliceBitReverse_perm",
    "MKHE.C48.not_power"
   ],
   "note": "generic element type covers the three copies"
  },
  {
   "property": "C49",
   "status": "proved",
   "theorems": [
    "MKHE.C49.convolution_ok",
    "MKHE.C49.fc1Layer_ok",
    "MKHE.C49.fc1Layer_empty",
    "MKHE.C49.fc2Layer_ok",
    "MKHE.C49.rotAddLoop_ok",
    "MKHE.C49.square_ok",
    "MKHE.C49.forward_ok"
   ],
   "note": "The layers of cnn.go and the evaluation of cnn_test.go on the CKKS model: never fault, and every slot is within an explicit bound of the slot formula (Spec/Cnn.lean)."
  },
  {
   "property": "C50",
   "status": "proved",
   "theorems": [
    "MKHE.C50.mulPtxtRaw_phase",
    "MKHE.C50.mulPtxtNew_phase"
   ],
   "note": ""
  },
  {
   "property": "C51",
   "status": "proved",
   "theorems": [
    "MKHE.C24.addNew_deterministic",
    "MKHE.C24.subNew_deterministic",
    "MKHE.C24.bfv_deterministic",
    "MKHE.C24.rotateNew_deterministic",
    "MKHE.C24.conjugateNew_deterministic",
    "MKHE.C30.mulAndRelinHoisted_deterministic",
    "MKHE.C30.mulAndRelinHoisted_eq",
    "MKHE.C24.mulRelinNew_deterministic",
    "MKHE.C24.hoistedForm_deterministic",
    "MKHE.C18.order_irrelevant"
   ],
   "note": "each theorem runs the function under two arbitrary schedules (one iteration order per range statement) and proves equal results; MulAndRelin through mulAndRelinHoisted_eq, whose two sides have different schedules"
  },
  {
   "property": "C52",
   "status": "proved",
   "theorems": [
    "MKHE.C52.copyNew_fresh",
    "MKHE.C52.dropLevelNew_fresh",
    "MKHE.C52.bfvAddNew_fresh",
    "MKHE.C52.bfvSubNew_fresh",
    "MKHE.C52.ckksAddNew_fresh",
    "MKHE.C52.ckksSubNew_fresh",
    "MKHE.C52.rescaleNew_fresh",
    "MKHE.C52.ckksRotateNew_fresh",
    "MKHE.C52.ckksRotateHoistedNew_fresh",
    "MKHE.C52.ckksConjugateNew_fresh",
    "MKHE.C52.ckksMulRelinNew_fresh",
    "MKHE.C52.ckksMulRelinHoistedNew_fresh",
    "MKHE.C52.mulPtxtNew_fresh",
    "MKHE.C52.bfvRotateNew_fresh",
    "MKHE.C52.bfvConjugateNew_fresh",
    "MKHE.C52.bfvMulRelinNew_fresh",
    "MKHE.C52.encrypt_writes",
    "MKHE.C52.bfvEncryptNew_fresh",
    "MKHE.C52.ckksEncryptNew_fresh",
    "MKHE.C52.Fresh.unchanged",
    "MKHE.Ex.fresh_example"
   ],
   "note": "heap model; for every call that returns (the heap_ theorems of C22, C23, C26, C28 show that the additive ones do). Keys, evaluator pools and hoisted forms are private memory passed as values."
  },
  {
   "property": "C53",
   "status": "partial",
   "theorems": [
    "MKHE.C25.complex_coefficients_partial",
    "MKHE.C25.imaginary_wrong"
   ],
   "note": "refuted: imaginary_wrong; complex_coefficients_partial is the exact result for every constant"
  },
  {
   "property": "C54",
   "status": "partial",
   "theorems": [
    "MKHE.C19.bfvDecrypt_partial",
    "MKHE.Ex.bfv_missing_key"
   ],
   "note": "false of the code: bfv_missing_key is a witness, bfvDecrypt_partial states what is returned"
  },
  {
   "property": "C55",
   "status": "partial",
   "theorems": [
    "MKHE.C20.decrypt_domain_partial",
    "MKHE.Ex.decrypt_domain_false"
   ],
   "note": "false of the code when flags differ: witness decrypt_domain_false"
  },
  {
   "property": "C56",
   "status": "partial",
   "theorems": [
    "MKHE.C47.interfaceMod_reduced_partial",
    "MKHE.C47.scaleUpExact_reduced_partial",
    "MKHE.C47.interfaceMod_not_reduced",
    "MKHE.C47.scaleUpExact_not_reduced",
    "MKHE.C47.interfaceMod_congr",
    "MKHE.C47.scaleUpExact_spec"
   ],
   "note": "false of the code: the two not_reduced theorems are witnesses; the _partial theorems say when the result is below q"
  },
  {
   "property": "C57",
   "status": "proved",
   "theorems": [
    "MKHE.C57.scaleUpVecExact_spec",
    "MKHE.C57.scaleUpVecExactBigFloat_spec",
    "MKHE.C57.bigFloatInt_near",
    "MKHE.C57.boundary"
   ],
   "note": ""
  },
  {
   "property": "C58",
   "status": "proved",
   "theorems": [
    "MKHE.C58.client_ok",
    "MKHE.C58.setup_ok",
    "MKHE.C58.circuit_decrypt",
    "MKHE.C58.circuit",
    "MKHE.C58.encrypt",
    "MKHE.C58.decrypt",
    "MKHE.C58.add",
    "MKHE.C58.sub",
    "MKHE.C58.mul",
    "MKHE.C58.rotate",
    "MKHE.C58.conjugate",
    "MKHE.C58.unique",
    "MKHE.C58.encodes_exists",
    "MKHE.C69.bprogram",
    "MKHE.C69.bprogram_decrypt"
   ],
   "note": "Induction over programs. The lattigo encoder (ScaleUp) and the final rounding are specified (Encodes; round(T*x/Q) mod T), not modelled. Instance with a multiplication, rotation and conjugation whose noise bound is below Q/2 in Props/BfvExample. client_ok: from key generation to decryption; concrete client run in Props/BfvLiterals. bprogram/bprogram_decrypt: the same for programs with named intermediate results (register machine), each multiplication finding arbitrary contents in the pools of the key set."
  },
  {
   "property": "C59",
   "status": "proved",
   "theorems": [
    "MKHE.C59.program",
    "MKHE.C59.program_decrypt",
    "MKHE.C59.encrypt",
    "MKHE.C59.decrypt",
    "MKHE.C59.setup_ok",
    "MKHE.C59.slots_meaning",
    "MKHE.C59.add",
    "MKHE.C59.sub",
    "MKHE.C59.mul",
    "MKHE.C59.mulHoisted",
    "MKHE.C59.mulPt",
    "MKHE.C59.rot",
    "MKHE.C59.rotHoisted",
    "MKHE.C59.conj",
    "MKHE.C59.dropLevel",
    "MKHE.C59.hoisted",
    "MKHE.CEx.run_ex",
    "MKHE.C59.const",
    "MKHE.C59.const_inplace",
    "MKHE.C59.rescale_inplace",
    "MKHE.C59.rescaleCopy"
   ],
   "note": "Whole programs of evaluator calls, from key setup (setup_ok) and encryption to decryption; the CKKS encoder/decoder of lattigo is not modelled: an encoded message is a plaintext whose coefficients are scale*v up to a bound (CkksPt). run_ex is a complete concrete run."
  },
  {
   "property": "C60",
   "status": "proved",
   "theorems": [
    "MKHE.PN14.testCNN_pn14",
    "MKHE.C49.testCNN_ok",
    "MKHE.C49.classify",
    "MKHE.C49.forward_ok",
    "MKHE.C49.packed",
    "MKHE.C49.slotNet_score",
    "MKHE.C49.argmax_ok",
    "MKHE.C49.argmax_none",
    "MKHE.C49.client_setup",
    "MKHE.C49.client_amounts",
    "MKHE.PN14.valid",
    "MKHE.PN14.run_pn14",
    "MKHE.C49.client_switches"
   ],
   "note": "testCNN_ok: from key setup to the class read off; the CKKS encoder is trusted through EncodesAll, the decoder is the slot map. testCNN_pn14: the same at the client own parameters PN14QP433 with explicit bounds of the data and the error. run_pn14: a concrete run meets all hypotheses. argmax_none: the loop starts at -100, so a result with all scores at or below -100 gives class -1. client_switches: with the client CRS every rotation of the network is one key switching, and every amount of the list is used."
  },
  {
   "property": "C61",
   "status": "proved",
   "theorems": [
    "MKHE.C61.valid",
    "MKHE.C61.bvalid",
    "MKHE.C61.bfv14_valid",
    "MKHE.C61.bfv15_valid",
    "MKHE.C61.ckks14_valid",
    "MKHE.C61.ckks15_valid",
    "MKHE.C61.rlwe16_valid",
    "MKHE.PN14.valid",
    "MKHE.C61.length_mismatch",
    "MKHE.C61.shared_prime",
    "MKHE.C61.bfv14_good",
    "MKHE.C61.bfv15_good",
    "MKHE.C61.ckks14_good",
    "MKHE.C61.ckks15_good",
    "MKHE.C61.rlwe16_good"
   ],
   "note": "Primality by Lucas certificates checked by the kernel (Base/PrimeList). What lattigo accepts is the contract ringOk. Row operations for all literals exist (bfv14_rows etc.)."
  },
  {
   "property": "C62",
   "status": "proved",
   "theorems": [
    "MKHE.C58.client_bfv14",
    "MKHE.C58.client_bfv15",
    "MKHE.C58.client_budget",
    "MKHE.C58.Circ.noise_le_bits",
    "MKHE.C58.budget14",
    "MKHE.C58.budget15"
   ],
   "note": "Worst-case noise bounds computed by the kernel from the literals. The encoder is specified by Encodes (error at most T), the decoder by rounding T*x/Q. Concrete instance with four parties and depth 2 in Props/BfvLiterals."
  },
  {
   "property": "C63",
   "status": "proved",
   "theorems": [
    "MKHE.C63.program",
    "MKHE.C63.program_decrypt",
    "MKHE.C63.circuit",
    "MKHE.C63.circuit_decrypt",
    "MKHE.C63.ckksRotateNew_refines",
    "MKHE.C63.ckksMulRelinNew_refines",
    "MKHE.C63.ckksConjugateNew_refines",
    "MKHE.C63.bfvMulRelinNew_refines",
    "MKHE.C63.mulPtxtNew_refines",
    "MKHE.C63.hclient_ok",
    "MKHE.C63.hclient_bfv14",
    "MKHE.C63.encrypt_push",
    "MKHE.C63.bfvEncryptNew_refines",
    "MKHE.C63.ckksEncryptNew_refines",
    "MKHE.C63.heap_const",
    "MKHE.C63.heap_rescale",
    "MKHE.CEx.hprog_ex",
    "MKHE.C63.bprogram",
    "MKHE.C63.bprogram_decrypt",
    "MKHE.C63.hbstep_ok"
   ],
   "note": "programs run on an explicit heap of rows, polynomials and ciphertext maps; registers arbitrary pointers. hprog_ex is a concrete heap with equal pointers and a shared polynomial."
  },
  {
   "property": "C64",
   "status": "proved",
   "theorems": [
    "MKHE.C64.mulAndRelin_local",
    "MKHE.C64.mulAndRelinHoisted_local",
    "MKHE.C64.ckksMulRelinHoistedNew_local",
    "MKHE.C64.ckksMulRelinNew_local",
    "MKHE.C64.rotate_local",
    "MKHE.C64.ckksRotateNew_local",
    "MKHE.C64.ckksRotateHoistedNew_local",
    "MKHE.C64.bfvRotateNew_local",
    "MKHE.C64.conjugate_local",
    "MKHE.C64.ckksConjugateNew_local",
    "MKHE.C64.bfvConjugateNew_local",
    "MKHE.C64.mulAndRelinBFV_local",
    "MKHE.C64.mulAndRelinBFVHoisted_local",
    "MKHE.C64.bfvMulRelinNew_local",
    "MKHE.C64.decrypt_local",
    "MKHE.C64.ckksDecrypt_local",
    "MKHE.C64.bfvDecrypt_local",
    "MKHE.C64.keySet_strangers",
    "MKHE.C64.rlk_strangers",
    "MKHE.C64.bfvRlk_strangers",
    "MKHE.C64.rot_strangers",
    "MKHE.C64.mulRelinNew_strangers",
    "MKHE.C64.bfvMulRelinNew_strangers",
    "MKHE.C64.rotateNew_strangers",
    "MKHE.C64.bfvRotateNew_strangers",
    "MKHE.C64.conjugateNew_strangers",
    "MKHE.C64.decrypt_strangers"
   ],
   "note": "equality of outcomes (value or fault) without hypotheses on operands; decryption for ciphertexts with components in one domain"
  },
  {
   "property": "C65",
   "status": "proved",
   "theorems": [
    "MKHE.C65.reads_secretKeyGaussian",
    "MKHE.C65.reads_publicKey",
    "MKHE.C65.reads_switchingKey",
    "MKHE.C65.reads_rotationKey",
    "MKHE.C65.reads_defaultRotationKeys",
    "MKHE.C65.reads_conjugationKey",
    "MKHE.C65.reads_relinearizationKey",
    "MKHE.C65.reads_bfvSwitchingKey",
    "MKHE.C65.reads_bfvRelinearizationKey",
    "MKHE.C65.windows_disjoint",
    "MKHE.C65.history",
    "MKHE.C65.independent",
    "MKHE.C65.reads_encrypt",
    "MKHE.C65.encrypt_history"
   ],
   "note": "samplers are streams; Reads n says two runs finding the same next n outputs have the same outcome whatever the pools hold; concrete history in MKHE.Ex.calls_run. Which output goes to which block is in C12-C15, C17, C44."
  },
  {
   "property": "C66",
   "status": "proved",
   "theorems": [
    "MKHE.C66.rotate_inPlace",
    "MKHE.C66.rotate_inPlace_phase",
    "MKHE.C66.const_inPlace",
    "MKHE.C66.rescale_inPlace",
    "MKHE.C66.dropLevel_inPlace"
   ],
   "note": "on the heap model; rotate_inPlace covers Rotate and RotateHoisted. Not claimed: MulAndRelin and Conjugate with an operand as receiver (the code re-reads overwritten components there)."
  },
  {
   "property": "C67",
   "status": "proved",
   "theorems": [
    "MKHE.C67.client_estimate",
    "MKHE.C67.client_ckks14",
    "MKHE.C67.roundtrip14",
    "MKHE.C67.sumSquare14",
    "MKHE.C67.sumRot14",
    "MKHE.C67.sumConj14",
    "MKHE.C67.power14",
    "MKHE.C67.client_ckks15",
    "MKHE.C67.roundtrip15",
    "MKHE.C67.sumSquare15",
    "MKHE.C67.sumRot15",
    "MKHE.C67.sumConj15",
    "MKHE.C67.power15",
    "MKHE.C67.tour14"
   ],
   "note": "client = key generation for all parties, encryption, program, decryption (Props/CkksClient); estimator and meaning of programs in Spec/CkksBudget; constants of the literals in Props/CkksLiterals; corollaries in Props/CkksShipped; tour14 shows the hypotheses are met for a program with every kind of call. Encoding and decoding (lattigo) enter as a bound of the encoding error per slot and as the definition Decodes. MultByConst and Rescale called directly are covered by C59, not by the estimator."
  },
  {
   "property": "C68",
   "status": "proved",
   "theorems": [
    "MKHE.C68.ckks_missing_key",
    "MKHE.C68.bfv_missing_key"
   ],
   "note": "History-level theorems; the value-level ones are C68.mulAndRelin_missing, mulAndRelinHoisted_missing, ckksMulRelinNew_missing, ckksRotateNew_missing, ckksRotateHoistedNew_missing, bfvMulRelin(New)_missing, bfvRotateNew_missing, *ConjugateNew_missing. The converse (with every key the call returns) is C29, C35, C36, C45."
  },
  {
   "property": "C69",
   "status": "proved",
   "theorems": [
    "MKHE.C69.run_same",
    "MKHE.C69.interleaved",
    "MKHE.CEx.turns_ex",
    "MKHE.C69.binterleaved",
    "MKHE.BEx.rounds_ex"
   ],
   "note": "CKKS (interleaved) and BFV (binterleaved). Calls are atomic (the API is single-threaded): interleavings are of whole calls. BFV: instead of threading the pools of the key set, each call finds arbitrary contents in them. Non-vacuity: turns_ex (two CKKS clients taking turns over a 12-call program with every kind of call except conjugation, from key generation on), rounds_ex (three BFV clients, every kind of call)."
  },
  {
   "property": "C70",
   "status": "proved",
   "theorems": [
    "MKHE.C70.newSwitchingKey_fresh",
    "MKHE.C70.newSecretKey_fresh",
    "MKHE.C70.newPublicKey_fresh",
    "MKHE.C70.newRelinearizationKey_fresh",
    "MKHE.C70.newRotationKey_fresh",
    "MKHE.C70.newConjugationKey_fresh",
    "MKHE.C70.newBfvRelinearizationKey_fresh",
    "MKHE.C70.skCopyNew_deep",
    "MKHE.C70.pkCopyNew_deep",
    "MKHE.C70.genSecretKey_heap",
    "MKHE.C70.genPublicKey_heap",
    "MKHE.C70.genRelinearizationKey_heap",
    "MKHE.C70.genRotationKey_heap",
    "MKHE.C70.genConjugationKey_heap",
    "MKHE.C70.genBfvRelinearizationKey_heap",
    "MKHE.C70.newKeyGenerator_heap",
    "MKHE.C70.program_owned",
    "MKHE.C70.write_local",
    "MKHE.C70.program_runs",
    "MKHE.C70.exProg_runs"
   ],
   "note": "Key structs are records of pointers to heap polynomials; struct fields are never reassigned in the code. program_owned relates panics too. program_runs and exProg_runs show that rule-following programs, and a concrete 14-call program, do not panic."
  },
  {
   "property": "C71",
   "status": "proved",
   "theorems": [
    "MKHE.C71.makeCopies_eq",
    "MKHE.C71.modUpQtoP_run",
    "MKHE.C71.modUpPtoQ_run",
    "MKHE.C71.modDown_run",
    "MKHE.C71.modDownP_run",
    "MKHE.C71.copies_no_race",
    "MKHE.C71.copies_result",
    "MKHE.C71.copies_done",
    "MKHE.C71.copies_frame",
    "MKHE.C71.modDown_concurrent",
    "MKHE.C71.shared_wrong",
    "MKHE.C71.copied_right"
   ],
   "note": "Sequentially consistent interleavings of single word accesses; race freedom is proved. copied_right instantiates the theorems, shared_wrong shows that the copies are needed."
  },
  {
   "property": "C72",
   "status": "proved",
   "theorems": [
    "MKHE.C72.bfv_add",
    "MKHE.C72.bfv_sub",
    "MKHE.C72.bfv_comm",
    "MKHE.C72.bfv_assoc",
    "MKHE.C72.bfv_sub_self",
    "MKHE.C72.bfv_sub_add",
    "MKHE.C72.bfv_add_sub",
    "MKHE.C72.bfv_sub_anti",
    "MKHE.C72.ckks_add",
    "MKHE.C72.ckks_sub",
    "MKHE.C72.ckks_comm",
    "MKHE.C72.ckks_assoc",
    "MKHE.C72.ckks_sub_self",
    "MKHE.C72.ckks_sub_add",
    "MKHE.C72.ckks_sub_anti",
    "MKHE.C72.Eqv.same"
   ],
   "note": "SubNew is stated modulo the primes, not word for word: NegLvl leaves the word q for a zero coefficient"
  },
  {
   "property": "C73",
   "status": "proved",
   "theorems": [
    "MKHE.C73.session_ren",
    "MKHE.C73.run",
    "MKHE.C73.brun",
    "MKHE.C73.setup",
    "MKHE.C73.extend",
    "MKHE.C73.decrypt",
    "MKHE.C73.ckksDecrypt",
    "MKHE.C73.bfvDecrypt",
    "MKHE.C73.union",
    "MKHE.C73.pad",
    "MKHE.C73.ckksAddNew",
    "MKHE.C73.ckksSubNew",
    "MKHE.C73.ckksMulRelinNew",
    "MKHE.C73.ckksRotateNew",
    "MKHE.C73.ckksConjugateNew",
    "MKHE.C73.bfvMulRelinNew",
    "MKHE.C73.genRelinearizationKey",
    "MKHE.C73.genBfvRelinearizationKey",
    "MKHE.C73.genDefaultRotationKeys",
    "MKHE.C73.ckksEncryptNew",
    "MKHE.C73.bfvEncryptNew",
    "MKHE.CEx.rename_ex"
   ],
   "note": "The rename acts on the identifiers only. rename_ex: the worked session (two parties, 13 calls, decryption) with parties called alice and bob decrypts the same plaintext. The BFV session is covered call by call (brun, setup functions, bfvEncryptNew, bfvDecrypt)."
  },
  {
   "property": "C74",
   "status": "proved",
   "theorems": [
    "MKHE.Batch.encode_unique",
    "MKHE.C74.circ_entries",
    "MKHE.C74.writes_exists",
    "MKHE.C74.reads_unique",
    "MKHE.C74.client_batch",
    "MKHE.C74.program_batch",
    "MKHE.C74.root14",
    "MKHE.C74.root15",
    "MKHE.C74.batch_bfv14",
    "MKHE.C74.batch_bfv15"
   ],
   "note": "the encoder and decoder of lattigo are specified by Writes and Reads (scaling by Q/T with an error of at most Bm, rounding, evaluation at powers of a root of unity), not modelled"
  },
  {
   "property": "C75",
   "status": "proved",
   "theorems": [
    "MKHE.C75.carries_unique",
    "MKHE.C75.carries_every",
    "MKHE.C75.decodes_vec",
    "MKHE.C75.program_sparse",
    "MKHE.C75.client_sparse14",
    "MKHE.C75.client_sparse15",
    "MKHE.C75.tour_sparse",
    "MKHE.slot_every",
    "MKHE.slot_sparse_period"
   ],
   "note": "The encoder and decoder of lattigo are specified (Carries, DecodesVec), not modelled."
  },
  {
   "property": "C76",
   "status": "proved",
   "theorems": [
    "MKHE.C76.session",
    "MKHE.C76.session_then",
    "MKHE.C76.session_decrypt",
    "MKHE.C76.aborted",
    "MKHE.C76.tstep_res",
    "MKHE.C76.tstep_seen",
    "MKHE.C76.Frame.value",
    "MKHE.C76.mulRelinNew",
    "MKHE.C76.mulRelinHoistedNew",
    "MKHE.C76.rotateNew",
    "MKHE.C76.rotateHoistedNew",
    "MKHE.C76.conjugateNew",
    "MKHE.C76.mulPtxtNew",
    "MKHE.C76.dropLevelNew",
    "MKHE.C76.rescaleNew",
    "MKHE.C76.ckksAddNew",
    "MKHE.C76.ckksSubNew",
    "MKHE.C76.ckksDecrypt",
    "MKHE.C76.ckksEncryptNew",
    "MKHE.C76.bfvAddNew",
    "MKHE.C76.bfvSubNew",
    "MKHE.C76.bfvMulRelinNew",
    "MKHE.C76.bfvRotateNew",
    "MKHE.C76.bfvConjugateNew",
    "MKHE.C76.bfvDecrypt",
    "MKHE.C76.bfvEncryptNew",
    "MKHE.CEx.panic_then",
    "MKHE.CEx.panic_then_ex",
    "MKHE.C76.tbstep_res",
    "MKHE.C76.tbstep_fresh",
    "MKHE.C76.baborted",
    "MKHE.C76.bsession",
    "MKHE.C76.bsession_then",
    "MKHE.C76.bsession_decrypt",
    "MKHE.BEx.bpanic_then"
   ],
   "note": "Frame.res ties every traced call to the untraced memory model. After a stop the evaluator's private buffers (scratch of the key switcher) are quantified over: any contents of the right sizes. panic_then is the concrete case: ConjugateNew with a missing key panics after allocating and writing its result. Histories are proved for the CKKS and the BFV evaluator; aborted calls may be made with any key sets, including wrong or empty ones."
  },
  {
   "property": "C77",
   "status": "partial",
   "theorems": [
    "MKHE.C77.calls_partial",
    "MKHE.C77.own_sets_partial",
    "MKHE.C77.hoisted_partial",
    "MKHE.C77.stable",
    "MKHE.C77.finishes",
    "MKHE.C77.race_reach",
    "MKHE.C77.race_phase",
    "MKHE.SEx.race"
   ],
   "note": "False of the code: MulRelinNew keeps the operands' digits in rlkSet.HoistPool. Proved where calls use different pool entries: own key sets, hoisted operands, or disjoint parties. Refuted by race_reach, race_phase and the concrete SEx.race. For the BFV evaluator see C78."
  },
  {
   "property": "C78",
   "status": "partial",
   "theorems": [
    "MKHE.C78.calls_partial",
    "MKHE.C78.stable",
    "MKHE.C78.finishes",
    "MKHE.C78.race_reach",
    "MKHE.BSEx.raced",
    "MKHE.BSEx.race"
   ],
   "note": "Proved for goroutines with a key set each (calls_partial, stable, finishes). False as stated for shared key sets: race_reach gives, for every pair of calls with one key set, a schedule and the exact result; MKHE.BSEx.raced and race are concrete (parties a and b, products exchanged). Steps are sequentially consistent; a write under way may leave anything in its entry."
  },
  {
   "property": "C79",
   "status": "proved",
   "theorems": [
    "MKHE.C79.standardDeviation_err",
    "MKHE.C79.standardDeviation_nil",
    "MKHE.C79.scaleDown_err",
    "MKHE.C79.scaleDown_exact",
    "MKHE.C79.scaleDown_zero"
   ],
   "note": "Overflow, underflow and infinite or NaN vector entries are not modelled; big.Float.SetInt is exact and Float64 rounds to nearest (trusted contract)."
  },
  {
   "property": "C80",
   "status": "partial",
   "theorems": [
    "MKHE.C80.into_partial",
    "MKHE.C80.into",
    "MKHE.C80.fresh_receiver",
    "MKHE.C80.no_slot",
    "MKHE.EIEx.full_false"
   ],
   "note": "The expected claim is false of the code for a receiver that keeps non-zero components of other parties; proved where they are zero, with the exact effect otherwise."
  },
  {
   "property": "C81",
   "status": "proved",
   "theorems": [
    "MKHE.C81.same_result",
    "MKHE.C81.close_results",
    "MKHE.C81.Rewrites.val",
    "MKHE.BEx.rewritten_program",
    "MKHE.CEx.rotated_twice"
   ],
   "note": "Stated for the program languages of C58 and C59, on top of the noise theorems; concrete instances for both schemes."
  },
  {
   "property": "C82",
   "status": "proved",
   "theorems": [
    "MKHE.C82.trace_is_call",
    "MKHE.C82.frame",
    "MKHE.C82.interrupted",
    "MKHE.C82.session",
    "MKHE.C82.key_kept",
    "MKHE.C82.keys_right",
    "MKHE.C82.next_call_runs",
    "MKHE.C82.start",
    "MKHE.C82.history_ex"
   ],
   "note": "Stopped calls of AddCRS are outside the property: AddCRS enters the new entry in the CRS map before filling it. history_ex is a concrete history: two BFV secret keys, a relinearization key generation stopped at any moment, then a rotation key."
  },
  {
   "property": "C83",
   "status": "proved",
   "theorems": [
    "MKHE.C83.filling_res",
    "MKHE.C83.addCRS_stopped",
    "MKHE.C83.repaired",
    "MKHE.C83.others",
    "MKHE.C83.short_entry",
    "MKHE.C83.history",
    "MKHE.C83.exposed",
    "MKHE.C83.determined",
    "MKHE.C83.exposed_ex"
   ],
   "note": "The statement is the true behaviour, including the exposure (finding 19). history: every sequence of calls, returned or stopped, among them AddCRS."
  }
 ]
}