{
 "claims": [
  {
   "property": "C01",
   "status": "proved",
   "theorems": [
    "Spartan.scalar_ring_ops",
    "Spartan.scalar_rep_bijective"
   ],
   "note": "Limb-level: adc/sbb/mac, Montgomery reduction."
  },
  {
   "property": "C02",
   "status": "proved",
   "theorems": [
    "Spartan.scalar_from_bytes",
    "Spartan.scalar_to_bytes"
   ],
   "note": ""
  },
  {
   "property": "C03",
   "status": "proved",
   "theorems": [
    "Spartan.scalar_reductions",
    "Spartan.field_random"
   ],
   "note": ""
  },
  {
   "property": "C04",
   "status": "proved",
   "theorems": [
    "Spartan.field_pow",
    "Spartan.scalar_invert",
    "Spartan.batch_invert_correct",
    "Spartan.modInverseRef_spec"
   ],
   "note": "num-bigint-dig mod_inverse is a parameter with its specification as hypothesis (satisfied by modInverseRef)."
  },
  {
   "property": "C05",
   "status": "proved",
   "theorems": [
    "Spartan.field_ring_ops",
    "Spartan.field_rep_bijective",
    "Spartan.field_from_bytes",
    "Spartan.field_to_bytes",
    "Spartan.field_be_bytes",
    "Spartan.field_reductions",
    "Spartan.field_pow",
    "Spartan.field_pow_by_self",
    "Spartan.secq_field_invert",
    "Spartan.scalar_invert",
    "Spartan.field_cube_is_zero"
   ],
   "note": ""
  },
  {
   "property": "C06",
   "status": "partial",
   "theorems": [
    "Spartan.scalar_serde_partial",
    "Spartan.scalar_deserialize_total",
    "Spartan.scalar_deserialize_collision",
    "Spartan.scalar_deserialize_not_injective"
   ],
   "note": "Round trip proved. FALSE: deserialisation is not injective, v and v+p decode to the same scalar."
  },
  {
   "property": "C07",
   "status": "partial",
   "theorems": [
    "Spartan.field_serde_broken"
   ],
   "note": "FALSE: the round trip multiplies the element by 2^256; only zero survives (proved for both fields)."
  },
  {
   "property": "C08",
   "status": "partial",
   "theorems": [
    "Spartan.secp_sqrt_partial",
    "Spartan.secp_sqrt_of_nonsquare"
   ],
   "note": "Squares get a root. FALSE for non-squares: sqrt always returns Some (a root of -x)."
  },
  {
   "property": "C09",
   "status": "partial",
   "theorems": [
    "Spartan.sqrt_ratio_partial",
    "Spartan.sqrt_ratio_secp_partial",
    "Spartan.sqrt_ratio_zero"
   ],
   "note": "Proved for all u != 0. FALSE for u = 0: the flag is false although 0 is a square (the root is right)."
  },
  {
   "property": "C10",
   "status": "proved",
   "theorems": [
    "Spartan.from_uniform_bytes_total",
    "Spartan.map_to_curve_total",
    "Spartan.iso_map_total",
    "Spartan.hash_to_curve_total",
    "Spartan.from_uniform_bytes_residues"
   ],
   "note": "SEC1 decoding of an on-curve coordinate pair and the group addition are parameters."
  },
  {
   "property": "C11",
   "status": "proved",
   "theorems": [
    "Spartan.curve_orders",
    "Spartan.curve_annihilated",
    "Spartan.secq_smul_nat",
    "Spartan.secp_smul_nat",
    "Spartan.scalar_mul_correct",
    "Spartan.secq_cyclic",
    "Spartan.to_scalar_correct",
    "Spartan.curve_constants"
   ],
   "note": "Group order proved from the Hasse-free bound |E| <= 2|F|+1, a kernel-checked Jacobian ladder certificate and absence of 2-torsion. The formulas of the primeorder crate are the subject of C121."
  },
  {
   "property": "C12",
   "status": "partial",
   "theorems": [
    "Spartan.unpack_partial",
    "Spartan.unpack_error_panics",
    "Spartan.unpack_never_err",
    "Spartan.unpack_refines",
    "Spartan.secq_decompress_compress",
    "Spartan.secq_compress_decompress"
   ],
   "note": "The claim is false: every encoding that does not decode makes unpack panic in the construction of the error (negation proved). What holds: Ok iff the encoding decodes; SEC1 round-trip and canonicity given a correct square root."
  },
  {
   "property": "C13",
   "status": "proved",
   "theorems": [
    "Spartan.log2_is_ceil_log",
    "Spartan.log2_zero_panics",
    "Spartan.log2_refines",
    "Spartan.getBits_value",
    "Spartan.pow2_correct",
    "Spartan.pow2_overflow",
    "Spartan.pow2_wraps"
   ],
   "note": "pow2 panics for 64 <= k < 2^32 and wraps beyond, as the property allows; both cases are theorems."
  },
  {
   "property": "C14",
   "status": "proved",
   "theorems": [
    "Spartan.eqEvals_correct",
    "Spartan.dot_eqT",
    "Spartan.eqEvaluate_correct",
    "Spartan.eqEvaluate_length",
    "Spartan.chi_boolPoint",
    "Spartan.eqEvaluate_boolean"
   ],
   "note": ""
  },
  {
   "property": "C15",
   "status": "proved",
   "theorems": [
    "Spartan.factoredEvals_correct",
    "Spartan.bound_eval"
   ],
   "note": ""
  },
  {
   "property": "C16",
   "status": "proved",
   "theorems": [
    "Spartan.dense_evaluate_correct",
    "Spartan.dense_evaluate_panics",
    "Spartan.mle_boolean",
    "Spartan.mle_affine",
    "Spartan.boundTop_evaluate",
    "Spartan.boundBot_evaluate",
    "Spartan.boundTop_evaluate_panics"
   ],
   "note": "Evaluating a polynomial after bound_poly_var_top panics unless it is cloned first (boundTop_evaluate_panics); the commuting law is for the clone."
  },
  {
   "property": "C17",
   "status": "proved",
   "theorems": [
    "Spartan.uniEvaluate_correct",
    "Spartan.uniEval_zero_one",
    "Spartan.fromEvals_quadratic",
    "Spartan.fromEvals_cubic",
    "Spartan.fromEvals_panics",
    "Spartan.decompress_hint",
    "Spartan.decompress_panics_iff",
    "Spartan.compress_decompress"
   ],
   "note": ""
  },
  {
   "property": "C18",
   "status": "proved",
   "theorems": [
    "Spartan.sparseEvaluate_correct",
    "Spartan.sparseEvaluate_panics",
    "Spartan.multiplyVec_correct",
    "Spartan.evalTable_correct",
    "Spartan.sparseMat_evaluate_correct"
   ],
   "note": ""
  },
  {
   "property": "C19",
   "status": "partial",
   "theorems": [
    "Spartan.msm_correct",
    "Spartan.msm_too_many_scalars",
    "Spartan.msm_surplus_points_ignored",
    "Spartan.msm_partial"
   ],
   "note": "Equal lengths give the sum; too few points panics. The claim that every length mismatch is rejected is false: surplus points are ignored (negation proved)."
  },
  {
   "property": "C20",
   "status": "proved",
   "theorems": [
    "Spartan.gens_new_shape",
    "Spartan.gens_new_prefix",
    "Spartan.gens_sharing_ambiguous",
    "Spartan.gens_split_commit",
    "Spartan.gens_split_panics",
    "Spartan.gens_scale_commit",
    "Spartan.commit_homomorphic",
    "Spartan.polyCommitGens_wf",
    "Spartan.generators_from_stream",
    "Spartan.generators_independent_blocks"
   ],
   "note": "SHAKE256 and the map to the curve are parameters here; that the map lands on the curve is C10."
  },
  {
   "property": "C21",
   "status": "proved",
   "theorems": [
    "Spartan.knowledge_complete",
    "Spartan.knowledge_special_sound",
    "Spartan.knowledge_simulate",
    "Spartan.knowledge_responses_bijective"
   ],
   "note": ""
  },
  {
   "property": "C22",
   "status": "proved",
   "theorems": [
    "Spartan.equality_complete",
    "Spartan.equality_special_sound",
    "Spartan.equality_simulate"
   ],
   "note": ""
  },
  {
   "property": "C23",
   "status": "proved",
   "theorems": [
    "Spartan.product_complete",
    "Spartan.product_special_sound"
   ],
   "note": ""
  },
  {
   "property": "C24",
   "status": "proved",
   "theorems": [
    "Spartan.dotproduct_complete",
    "Spartan.dotproduct_special_sound",
    "Spartan.dotproduct_wrong_length"
   ],
   "note": ""
  },
  {
   "property": "C25",
   "status": "proved",
   "theorems": [
    "Spartan.dotproductlog_complete",
    "Spartan.dotproductlog_complete_nonzero",
    "Spartan.dotGens_ofGens_wf"
   ],
   "note": ""
  },
  {
   "property": "C26",
   "status": "partial",
   "theorems": [
    "Spartan.dotproductlog_forgery",
    "Spartan.dotproductlog_universal_forgery",
    "Spartan.dotproductlog_bound_partial",
    "Spartan.dotproductlog_knowledge_partial"
   ],
   "note": "The property is false of the code: a surplus R point replaces Gamma. Negation proved; for folding vectors of equal length, knowledge soundness with at most six unfavourable challenges per round is the partial theorem."
  },
  {
   "property": "C27",
   "status": "proved",
   "theorems": [
    "Spartan.polyeval_complete",
    "Spartan.polyeval_complete_derived"
   ],
   "note": ""
  },
  {
   "property": "C28",
   "status": "proved",
   "theorems": [
    "Spartan.proveCubic_complete",
    "Spartan.proveCubicBatched_complete"
   ],
   "note": "Needs 2 and 3 nonzero in the field, which holds for the secp256k1 base field."
  },
  {
   "property": "C29",
   "status": "proved",
   "theorems": [
    "Spartan.sumcheck_sound",
    "Spartan.sumcheck_sound_count",
    "Spartan.sumcheck_wrong_counts_panic",
    "Spartan.sumcheck_ok_shape",
    "Spartan.sumcheck_reject_is_panic"
   ],
   "note": ""
  },
  {
   "property": "C30",
   "status": "proved",
   "theorems": [
    "Spartan.proveQuad_complete",
    "Spartan.proveCubicAdditive_complete",
    "Spartan.zk_zero_rounds_panic"
   ],
   "note": ""
  },
  {
   "property": "C31",
   "status": "proved",
   "theorems": [
    "Spartan.instance_new_result",
    "Spartan.instance_new_ok_iff",
    "Spartan.instance_new_no_panic",
    "Spartan.instance_new_sizes"
   ],
   "note": ""
  },
  {
   "property": "C32",
   "status": "proved",
   "theorems": [
    "Spartan.padding_preserves_sat",
    "Spartan.isSat_wrong_length",
    "Spartan.r1cs_isSat_eq"
   ],
   "note": ""
  },
  {
   "property": "C33",
   "status": "partial",
   "theorems": [
    "Spartan.instance_cons_ge_two_partial",
    "Spartan.nizk_complete",
    "Spartan.empty_instance_unusable",
    "Spartan.nizk_one_constraint_verify_panics",
    "Spartan.nizk_one_constraint_unprovable"
   ],
   "note": "FALSE for num_cons = 0: the instance is padded to one row, prove never returns a proof and verify panics (empty_instance_unusable). Proved for num_cons >= 1."
  },
  {
   "property": "C34",
   "status": "partial",
   "theorems": [
    "Spartan.assignment_new_result",
    "Spartan.assignment_new_ok_iff",
    "Spartan.isSat_wrong_length",
    "Spartan.padding_preserves_sat",
    "Spartan.nizk_prove_oversized"
   ],
   "note": "Assignment::new and is_sat proved. FALSE for NIZK::prove, which does not reject an assignment longer than the instance (nizk_prove_oversized)."
  },
  {
   "property": "C35",
   "status": "proved",
   "theorems": [
    "Spartan.synthetic_satisfied",
    "Spartan.synthetic_panics"
   ],
   "note": ""
  },
  {
   "property": "C36",
   "status": "proved",
   "theorems": [
    "Spartan.sat_iff_sumcheck",
    "Spartan.second_sumcheck_tables",
    "Spartan.unsat_tau_count"
   ],
   "note": ""
  },
  {
   "property": "C37",
   "status": "proved",
   "theorems": [
    "Spartan.nizk_complete",
    "Spartan.nizk_complete_nonzero",
    "Spartan.nizk_complete_secq",
    "Spartan.secqEnv_lawful"
   ],
   "note": ""
  },
  {
   "property": "C38",
   "status": "partial",
   "theorems": [
    "Spartan.nizk_forgery",
    "Spartan.nizk_unsound",
    "Spartan.nizk_sound_independent_partial",
    "Spartan.nizk_forgery_run",
    "Spartan.machine_nizk_unsound"
   ],
   "note": "FALSE: universal forgery (nizk_unsound). What remains true, for proofs whose folding vectors have equal length, is nizk_sound_independent_partial; see C72."
  },
  {
   "property": "C39",
   "status": "partial",
   "theorems": [
    "Spartan.bullet_size_reported",
    "Spartan.nizk_verify_panics",
    "Spartan.nizk_verify_panics_inputs",
    "Spartan.nizk_one_constraint_verify_panics",
    "Spartan.nizk_soft",
    "Spartan.nizk_graceful"
   ],
   "note": "FALSE: panics proved for malformed proofs. nizk_soft and nizk_graceful say where a proof of the expected shape can still panic: at three equality assertions only."
  },
  {
   "property": "C40",
   "status": "proved",
   "theorems": [
    "Spartan.nizk_absorbs_statement",
    "Spartan.nizk_transcript_binds",
    "Spartan.nizkHeader_inj",
    "Spartan.snark_absorbs_statement",
    "Spartan.snarkHeader_inj",
    "Spartan.snark_transcript_binds",
    "Spartan.nizk_binds_matrices_partial"
   ],
   "note": ""
  },
  {
   "property": "C41",
   "status": "partial",
   "theorems": [
    "Spartan.nizk_malleable"
   ],
   "note": "FALSE: any accepted proof stays accepted after appending a round proof (nizk_malleable)."
  },
  {
   "property": "C42",
   "status": "proved",
   "theorems": [
    "Spartan.product_circuit_evaluate",
    "Spartan.product_circuit_short",
    "Spartan.dot_circuit_evaluate",
    "Spartan.dot_circuit_lengths",
    "Spartan.dot_circuit_split",
    "Spartan.dot_circuit_split_short"
   ],
   "note": "Tables of length one panic (product_circuit_short, dot_circuit_split_short)."
  },
  {
   "property": "C43",
   "status": "proved",
   "theorems": [
    "Spartan.product_proof_complete",
    "Spartan.product_proof_batched_complete"
   ],
   "note": ""
  },
  {
   "property": "C44",
   "status": "proved",
   "theorems": [
    "Spartan.memory_check_complete",
    "Spartan.timestamps_out_of_range",
    "Spartan.memory_check_sound",
    "Spartan.hashProd_count",
    "Spartan.memory_check_count"
   ],
   "note": "Includes the Schwartz-Zippel count for the product check."
  },
  {
   "property": "C45",
   "status": "partial",
   "theorems": [
    "Spartan.snark_complete_partial",
    "Spartan.snark_prove_one_entry",
    "Spartan.sparse_complete"
   ],
   "note": "Complete for every instance with at least one constraint and a matrix with two entries or more; with at most one entry per matrix the prover panics (snark_prove_one_entry), so the claim as stated is false there."
  },
  {
   "property": "C46",
   "status": "proved",
   "theorems": [
    "Spartan.Circuit.poseidon_circuit_native",
    "Spartan.Circuit.poseidon_circuit_iff",
    "Spartan.Circuit.poseidon_witness_unique",
    "Spartan.Circuit.constants_agree",
    "Spartan.k256_hash_correct",
    "Spartan.native_hash"
   ],
   "note": ""
  },
  {
   "property": "C47",
   "status": "partial",
   "theorems": [
    "Spartan.k256_hash_history_partial",
    "Spartan.k256_hash_uses_all",
    "Spartan.fullRound_out_of_keys",
    "Spartan.hash_twice_panics"
   ],
   "note": "The claim about reusing an object is false of the code: the round constant position is not reset, so a second call panics (hash_twice_panics). The exported function makes a fresh object for each call and is proved history independent."
  },
  {
   "property": "C48",
   "status": "proved",
   "theorems": [
    "Spartan.Circuit.merkle_circuit_iff",
    "Spartan.Circuit.merkle_with_iff",
    "Spartan.Circuit.merkle_root_unique"
   ],
   "note": ""
  },
  {
   "property": "C49",
   "status": "proved",
   "theorems": [
    "Spartan.Circuit.merkle_binding"
   ],
   "note": ""
  },
  {
   "property": "C50",
   "status": "proved",
   "theorems": [
    "Spartan.Circuit.add_incomplete_correct",
    "Spartan.Circuit.double_correct",
    "Spartan.Circuit.add_incomplete_exceptional"
   ],
   "note": "Unique solution and equality with the group law, for all curve points. What happens outside the precondition (equal x) is stated by add_incomplete_exceptional."
  },
  {
   "property": "C51",
   "status": "partial",
   "theorems": [
    "Spartan.Circuit.add_complete_partial",
    "Spartan.Circuit.add_complete_double",
    "Spartan.Circuit.add_complete_double_unsound",
    "Spartan.Circuit.add_complete_false_zero",
    "Spartan.Circuit.false_zero_exists",
    "Spartan.Circuit.add_complete_fails"
   ],
   "note": "The claim is false of the code: for P = Q the slope is unconstrained, and pairs with y_P + y_Q = 1 and different x are sent to (0,0). Both failures are proved with witnesses; the equation is proved for all other pairs."
  },
  {
   "property": "C52",
   "status": "partial",
   "theorems": [
    "Spartan.Circuit.k_outputs",
    "Spartan.Circuit.k_honest_partial",
    "Spartan.Circuit.k_honest_window",
    "Spartan.Circuit.k_honest_wrong"
   ],
   "note": "The claim is false of the code: the constraints allow every 256-bit string for every s (k_outputs). The honest witness generator is proved right for every s outside an explicit window and wrong inside it."
  },
  {
   "property": "C53",
   "status": "partial",
   "theorems": [
    "Spartan.Circuit.mul_partial",
    "Spartan.Circuit.mul_bits",
    "Spartan.Circuit.mul_complete_bits",
    "Spartan.Circuit.mul_honest_partial",
    "Spartan.Circuit.mul_any_multiple",
    "Spartan.Circuit.mul_minus_two_free",
    "Spartan.Circuit.mul_off_curve",
    "Spartan.Circuit.mul_not_sound",
    "Spartan.Circuit.acc_last",
    "Spartan.Circuit.last_double"
   ],
   "note": "The claim is false of the code. Proved: the output is (2^256+k)P for the recoded k the witness chooses, the honest witness gives s*P, and the failures; C136 counts the scalars of an honest witness that fail."
  },
  {
   "property": "C54",
   "status": "partial",
   "theorems": [
    "Spartan.Circuit.eff_ecdsa_circuit_partial",
    "Spartan.Circuit.eff_ecdsa_honest_partial",
    "Spartan.Circuit.eff_ecdsa_ignores_s",
    "Spartan.Circuit.eff_ecdsa_not_sound"
   ],
   "note": "The first half of the claim is false of the code (eff_ecdsa_ignores_s, eff_ecdsa_not_sound); the coset statement is proved outside the exceptional cases, which C136 counts."
  },
  {
   "property": "C55",
   "status": "proved",
   "theorems": [
    "Spartan.eff_ecdsa_iff",
    "Spartan.eff_ecdsa_iff_ecdsa"
   ],
   "note": ""
  },
  {
   "property": "C56",
   "status": "partial",
   "theorems": [
    "Spartan.Circuit.pubkey_membership_iff",
    "Spartan.Circuit.membership_sound_partial",
    "Spartan.Circuit.membership_honest_partial",
    "Spartan.Circuit.membership_ignores_s",
    "Spartan.Circuit.membership_off_curve"
   ],
   "note": "The exact composition is pubkey_membership_iff. The statement with points of the coset holds outside the exceptional cases; membership_off_curve shows it fails in general, membership_ignores_s that the signature scalar is not constrained."
  },
  {
   "property": "C57",
   "status": "partial",
   "theorems": [
    "Spartan.Circuit.num2bits_unique_iff",
    "Spartan.Circuit.num2bits_solutions",
    "Spartan.Circuit.num2bits_not_unique"
   ],
   "note": "The claim is false of the code: uniqueness holds exactly for values at least 2^256 - p."
  },
  {
   "property": "C58",
   "status": "partial",
   "theorems": [
    "Spartan.Circuit.pubkey_to_address",
    "Spartan.Circuit.keccak_circuit_iff",
    "Spartan.Circuit.keccakf_circuit_iff",
    "Spartan.Circuit.coords_to_address_iff",
    "Spartan.Circuit.coords_to_address_partial",
    "Spartan.Circuit.coords_to_address_alias",
    "Spartan.Circuit.address_not_unique",
    "Spartan.Circuit.generator_address",
    "Spartan.Circuit.eff_ecdsa_to_addr_iff",
    "Spartan.Circuit.addr_membership_iff",
    "Spartan.Circuit.addr_membership_sound_partial",
    "Spartan.Circuit.addr_membership_honest_partial"
   ],
   "note": "The Keccak and address circuits are proved equal to Keccak-256 and the Ethereum address on the bits of the coordinates, for all inputs and witnesses. The claim as a function of the coordinates is false for coordinates below 2^256 - p, where a second bit decomposition is accepted (address_not_unique); it is proved for all others."
  },
  {
   "property": "C59",
   "status": "partial",
   "theorems": [
    "Spartan.r1cs_read_partial",
    "Spartan.r1cs_load_sizes",
    "Spartan.r1cs_read_panics",
    "Spartan.load_sat_iff",
    "Spartan.r1cs_accepted_header",
    "Spartan.r1cs_section_loops"
   ],
   "note": "Proved for all section orders and sizes and all coefficients read_field accepts; a file with coefficient 2^240-1 makes the reader panic (r1cs_read_panics)."
  },
  {
   "property": "C60",
   "status": "partial",
   "theorems": [
    "Spartan.wtns_read_partial",
    "Spartan.wtns_accepted_header",
    "Spartan.wtns_read_panics",
    "Spartan.wtns_size_wraps"
   ],
   "note": "Round trip for readable values; header checks characterised; the size check wraps modulo 2^32 and value 2^240-1 panics, so the full claim is false."
  },
  {
   "property": "C61",
   "status": "partial",
   "theorems": [
    "Spartan.read_field_exact",
    "Spartan.read_field_partial",
    "Spartan.read_field_rejects_valid",
    "Spartan.read_field_accepts_noncanonical"
   ],
   "note": "Exact behaviour proved; the claim as stated is false in both directions, with witnesses."
  },
  {
   "property": "C62",
   "status": "partial",
   "theorems": [
    "Spartan.convert_partial",
    "Spartan.convert_sat_iff",
    "Spartan.convert_zero_satisfies",
    "Spartan.convert_ignores_inputs",
    "Spartan.convert_not_sound",
    "Spartan.load_sat_iff"
   ],
   "note": "Completeness direction proved; the converse is refuted: the all-zero assignment satisfies every converted instance and the public inputs never occur."
  },
  {
   "property": "C63",
   "status": "partial",
   "theorems": [
    "Spartan.pub_input_chunks",
    "Spartan.pub_input_decoded",
    "Spartan.pub_input_value_partial",
    "Spartan.pub_input_value_iff",
    "Spartan.pub_input_swapped"
   ],
   "note": "The claim is false: the library writes big-endian and the wasm verifier reads little-endian. Proved exactly for which values it holds."
  },
  {
   "property": "C64",
   "status": "proved",
   "theorems": [
    "Spartan.bigint_bytes_roundtrip",
    "Spartan.bytes_bigint_roundtrip",
    "Spartan.circuit_pub_input_roundtrip",
    "Spartan.pub_input_roundtrip",
    "Spartan.oversized_value_changes"
   ],
   "note": ""
  },
  {
   "property": "C65",
   "status": "proved",
   "theorems": [
    "Spartan.verify_pub_input_iff",
    "Spartan.lib_verify_iff",
    "Spartan.pointFromX_iff",
    "Spartan.verify_pub_input_ignores_root"
   ],
   "note": ""
  },
  {
   "property": "C66",
   "status": "partial",
   "theorems": [
    "Spartan.wasm_verify_partial",
    "Spartan.wasm_verify_forgery",
    "Spartan.lib_verify_forgery",
    "Spartan.machine_forgery",
    "Spartan.member_forgery",
    "Spartan.member_file_forgery",
    "Spartan.address_file_forgery"
   ],
   "note": "The full claim is refuted: for every convertible circuit and every public input an accepted proof exists. machine_forgery, member_forgery, member_file_forgery and address_file_forgery show this on the limbs, points and transcript of the program, with a witness file of zeros and the constraints of the membership circuit. What acceptance does imply is wasm_verify_partial."
  },
  {
   "property": "C67",
   "status": "partial",
   "theorems": [
    "Spartan.secp_prime_field_consts",
    "Spartan.secq_prime_field_consts",
    "Spartan.core_prime_field_consts"
   ],
   "note": "Holds for the base field of secp256k1. False for the base field of secq256k1 (S = 1 with a 64th root of unity; the right S is 6) and for the secq256k1 scalar type (S = 4, generator 7 and the root of unity are all wrong); negations proved."
  },
  {
   "property": "C68",
   "status": "proved",
   "theorems": [
    "Spartan.merge_evaluate",
    "Spartan.extend_evaluate",
    "Spartan.split_evaluate",
    "Spartan.identity_evaluate",
    "Spartan.identity_boolean",
    "Spartan.identity_panics"
   ],
   "note": ""
  },
  {
   "property": "C69",
   "status": "proved",
   "theorems": [
    "Spartan.wasm_prove_verify_bytes",
    "Spartan.wasm_prove_verify_secq",
    "Spartan.wasm_prove_verify"
   ],
   "note": "wasm_prove_verify_secq: at secq256k1, the actual field and the bincode bytes of circuit and proof. Assumes that the hash never returns zero as folding challenge and that the square root function is correct."
  },
  {
   "property": "C70",
   "status": "partial",
   "theorems": [
    "Spartan.snark_forgery",
    "Spartan.snark_unsound",
    "Spartan.hashLayer_dotp_claims",
    "Spartan.snark_sound_independent_partial",
    "Spartan.snark_forgery_run",
    "Spartan.machine_snark_unsound"
   ],
   "note": "For proofs of the right shape see C86. FALSE: verify_helper loops over the claimed addresses and never checks how many there are. snarkForge, a program that uses public data only, makes an accepted proof for every instance and input; snark_unsound gives an unsatisfiable instance."
  },
  {
   "property": "C71",
   "status": "proved",
   "theorems": [
    "Spartan.nizk_witness_indistinguishable",
    "Spartan.nizk_same_distribution",
    "Spartan.nizk_witness_indistinguishable_secq",
    "Spartan.nizk_same_distribution_secq",
    "Spartan.snark_witness_indistinguishable",
    "Spartan.wasm_witness_indistinguishable",
    "Spartan.nizk_converted_simulated"
   ],
   "note": "The random tape is a stream of arbitrary scalars: independence and uniformity of the scalars drawn from RandomTape (STROBE seeded from the OS) is in the trusted base. The hash function is arbitrary."
  },
  {
   "property": "C72",
   "status": "proved",
   "theorems": [
    "Spartan.nizk_knowledge_sound",
    "Spartan.nizk_knowledge_error",
    "Spartan.nizk_prove_shape"
   ],
   "note": "Round-by-round knowledge soundness in the algebraic group model: each point comes with a representation in the generators. The hash is arbitrary; nizk_knowledge_error counts the bad challenge vectors for an interactive strategy. Hypothesis numVars <= 2^62 excludes overflow of usize."
  },
  {
   "property": "C73",
   "status": "proved",
   "theorems": [
    "Spartan.nizk_bytes_roundtrip",
    "Spartan.snark_bytes_roundtrip",
    "Spartan.instance_bytes_roundtrip",
    "Spartan.assignment_bytes_roundtrip",
    "Spartan.instance_bytes_inj",
    "Spartan.nizk_bytes_inj",
    "Spartan.nizk_prove_bytes",
    "Spartan.secqWire_lawful",
    "Spartan.secqWire_limbs"
   ],
   "note": "bincode 1.3.3 with its default options (fixed-width little-endian integers) is modelled; its reading is in the trusted base."
  },
  {
   "property": "C74",
   "status": "partial",
   "theorems": [
    "Spartan.wasm_verify_trailing",
    "Spartan.nizk_trailing_bytes",
    "Spartan.snark_trailing_bytes",
    "Spartan.instance_trailing_bytes",
    "Spartan.nizk_length_field",
    "Spartan.scalar_bytes_iff",
    "Spartan.scalar_bytes_panic",
    "Spartan.nizk_bytes_partial"
   ],
   "note": "FALSE: trailing bytes are ignored in proof, circuit and public input, the length in front of a scalar may be any number from 32 on, and 32 bytes of any value are a scalar. nizk_bytes_partial: the canonical bytes are as long as the bytes read and are read as the same proof."
  },
  {
   "property": "C75",
   "status": "proved",
   "theorems": [
    "Spartan.nizk_prove_sizes",
    "Spartan.nizk_proof_bytes_le"
   ],
   "note": ""
  },
  {
   "property": "C76",
   "status": "partial",
   "theorems": [
    "Spartan.nizk_binds_matrices_partial",
    "Spartan.digest_inj",
    "Spartan.loaded_digest_arbitrary",
    "Spartan.loaded_digest_not_binding"
   ],
   "note": "Proved for instances of Instance::new, for a lossless compression. FALSE for circuit files: the digest is read from the file and never recomputed, so two files with different constraint systems can have the same digest."
  },
  {
   "property": "C77",
   "status": "partial",
   "theorems": [
    "Spartan.poseidon_two",
    "Spartan.poseidon_arity",
    "Spartan.hash_pub_key",
    "Spartan.poseidon_ts_circuit",
    "Spartan.poseidon_truncates"
   ],
   "note": "Proved for numbers below 2^256. FALSE above: the 33 bytes of x + 2^260 overwrite the next input, which is then written over them, so hash([x + 2^260, b]) = hash([x, b]) (poseidon_truncates)."
  },
  {
   "property": "C78",
   "status": "proved",
   "theorems": [
    "Spartan.tree_history",
    "Spartan.tree_depth",
    "Spartan.tree_root_binds"
   ],
   "note": "The npm package @zk-kit/incremental-merkle-tree 1.0.0 is modelled from its published code, which is not in the repository."
  },
  {
   "property": "C79",
   "status": "partial",
   "theorems": [
    "Spartan.tree_proof_verifies",
    "Spartan.tree_proof_circuit",
    "Spartan.tree_member_proves_partial"
   ],
   "note": "The last part excludes the exceptional cases of the signature circuit (C52-C54)."
  },
  {
   "property": "C80",
   "status": "partial",
   "theorems": [
    "Spartan.tree_verify_binds_partial",
    "Spartan.tree_verify_accepts_nodes",
    "Spartan.tree_verify_accepts_shifted"
   ],
   "note": "Proved for proofs with as many siblings as the tree is deep. FALSE in general: verifyProof does not check the length, so inner nodes and the root are accepted as leaves; and x + 2^260 is accepted for x."
  },
  {
   "property": "C81",
   "status": "partial",
   "theorems": [
    "Spartan.tree_throw_unchanged_partial",
    "Spartan.tree_failed_insert_corrupts"
   ],
   "note": "Proved for leaves that are field elements. FALSE for others: the leaf is stored before the hash throws, and every later insert throws too."
  },
  {
   "property": "C82",
   "status": "proved",
   "theorems": [
    "Spartan.tree_circuit_binds",
    "Spartan.tree_membership_binds"
   ],
   "note": ""
  },
  {
   "property": "C83",
   "status": "partial",
   "theorems": [
    "Spartan.sig_full",
    "Spartan.sig_compact",
    "Spartan.sig_short",
    "Spartan.sig_long"
   ],
   "note": "FALSE for more than 65 bytes: they are not rejected, all bytes after s are read as v (sig_long). fromRpcSig of @ethereumjs/util 8.0.3 is modelled from its published code, which is not in the repository."
  },
  {
   "property": "C84",
   "status": "partial",
   "theorems": [
    "Spartan.prover_inputs",
    "Spartan.verifies_signedWith",
    "Spartan.signedWith_verifies",
    "Spartan.zero_hash_throws",
    "Spartan.zero_hash_signature"
   ],
   "note": "Proved for message hashes that are not a multiple of the group order, and signatures whose nonce point has an x-coordinate below the group order. FALSE for the others: with message hash 0 prover and verifier throw although the signature is valid (zero_hash_signature)."
  },
  {
   "property": "C85",
   "status": "partial",
   "theorems": [
    "Spartan.member_prove_verify_partial"
   ],
   "note": "The compiled circuit and its witness generator are not in the repository: that it satisfies the constraints whenever the circuit template holds is a hypothesis; C127 shows that constraints and a generator exist, and C128 is the theorem with those. Excluded: the exceptional cases of the signature circuit (C52-C54; C136: at most a fraction of 2^-128 of the keys), message hashes as in C84, and witness and public values that the wasm module cannot read because their bytes in reverse are not below the modulus (C61, C63). Props/ProverEx meets all hypotheses with a concrete key, signature and tree."
  },
  {
   "property": "C86",
   "status": "proved",
   "theorems": [
    "Spartan.snark_knowledge_sound",
    "Spartan.snark_knowledge_error",
    "Spartan.snark_sound_independent_partial",
    "Spartan.snark_prove_shape"
   ],
   "note": "Round-by-round knowledge soundness in the algebraic group model, as in C72: each point of the proof comes with a representation in the generators and in commitments of the instance. The shape hypothesis cannot be dropped: without it the claim is false (C70)."
  },
  {
   "property": "C87",
   "status": "proved",
   "theorems": [
    "Spartan.nizk_fiat_shamir",
    "Spartan.nizk_fiat_shamir_secq",
    "Spartan.snark_fiat_shamir",
    "Spartan.snark_fiat_shamir_secq",
    "Spartan.challenge_fibres",
    "Spartan.secq_isRep_exists",
    "Spartan.asked_exists",
    "Spartan.nizk_honest_asked"
   ],
   "note": "Random-oracle and algebraic group model. Proofs whose folding vectors differ in length (or SNARK proofs of another shape) are excluded: they can be forged (C38, C70)."
  },
  {
   "property": "C88",
   "status": "partial",
   "theorems": [
    "Spartan.CoreScalar.core_ring_ops",
    "Spartan.CoreScalar.core_repr",
    "Spartan.CoreScalar.core_from_int",
    "Spartan.CoreScalar.core_random",
    "Spartan.CoreScalar.core_predicates",
    "Spartan.CoreScalar.core_decompress",
    "Spartan.CoreScalar.core_unimplemented",
    "Spartan.CoreScalar.core_char_le_bits"
   ],
   "note": "Proved for the operations the library uses. FALSE for the others: square, invert, sqrt, Sum, Product and the inherited pow_vartime panic for every argument (core_unimplemented), and char_le_bits has the bytes of the modulus in the wrong order (core_char_le_bits). ScalarCore of the elliptic-curve crate is external."
  },
  {
   "property": "C89",
   "status": "proved",
   "theorems": [
    "Spartan.challengeValue_eq",
    "Spartan.challenge_count",
    "Spartan.challenge_count_set",
    "Spartan.challenge_near_uniform",
    "Spartan.random_eq_challenge"
   ],
   "note": "Whether Merlin and the operating system deliver uniform bytes is outside the model. C87 uses the count: there the hash is a random function to 64-byte strings."
  },
  {
   "property": "C90",
   "status": "proved",
   "theorems": [
    "Spartan.Programs.cubic_r1cs",
    "Spartan.Programs.cubic_sat",
    "Spartan.Programs.cubic_runs",
    "Spartan.Programs.synthetic_snark_runs",
    "Spartan.Programs.synthetic_nizk_runs",
    "Spartan.Programs.profilers_run"
   ],
   "note": "A zero folding challenge makes the prover panic (C37, C45) and is excluded by hypothesis. Compression of the proof for the size report and criterion are not modelled."
  },
  {
   "property": "C91",
   "status": "proved",
   "theorems": [
    "Spartan.Programs.mont_params_valid",
    "Spartan.Programs.mont_params_constants",
    "Spartan.Programs.mont_params_even",
    "Spartan.Programs.valid_unique"
   ],
   "note": "num-bigint is external: modpow and mod_inverse are taken to be what they document."
  },
  {
   "property": "C92",
   "status": "proved",
   "theorems": [
    "Spartan.secq_sqrt",
    "Spartan.k256Sqrt_spec",
    "Spartan.secq_sqrt_cases",
    "Spartan.secq_decompress_iff",
    "Spartan.nizk_complete_code",
    "Spartan.programs_run_code"
   ],
   "note": "k256 0.11.6 Scalar::sqrt is transcribed from the published crate (not in the repository). With it the hypothesis SqrtSpec of the concrete protocol theorems is discharged."
  },
  {
   "property": "C93",
   "status": "proved",
   "theorems": [
    "Spartan.Merlin.challenge_is_sponge",
    "Spartan.Merlin.history_injective",
    "Spartan.Merlin.transcript_injective",
    "Spartan.Merlin.code_challenge",
    "Spartan.Merlin.blocks_injective",
    "Spartan.Merlin.nizk_challenges",
    "Spartan.Merlin.nizk_challenges_met",
    "Spartan.Merlin.snark_challenges",
    "Spartan.Merlin.nizk_fiat_shamir_sponge",
    "Spartan.Merlin.snark_fiat_shamir_sponge"
   ],
   "note": "merlin 3.0.0 is transcribed from the published crate (not in the repository); Keccak-f is a parameter, so nothing is assumed or claimed about it. Lengths are below 2^32 (digest) and counters below 2^64, as on the target machines."
  },
  {
   "property": "C94",
   "status": "proved",
   "theorems": [
    "Spartan.nizk_accepted_shape",
    "Spartan.nizk_soft",
    "Spartan.nizk_graceful",
    "Spartan.nizk_honest_shape"
   ],
   "note": "Zero folding challenges are excluded by hypothesis (inverting one panics). softNIZK in Spec/Soft.lean is the verifier with the three assertions turned into errors."
  },
  {
   "property": "C95",
   "status": "proved",
   "theorems": [
    "Spartan.polyEval_knowledge"
   ],
   "note": "For folding vectors of equal length, as the statement says; C26 shows what happens otherwise."
  },
  {
   "property": "C96",
   "status": "proved",
   "theorems": [
    "Spartan.hash_state_injective",
    "Spartan.perm_bijective",
    "Spartan.mds_branch",
    "Spartan.partial_rounds_active"
   ],
   "note": ""
  },
  {
   "property": "C97",
   "status": "proved",
   "theorems": [
    "Spartan.script_constants",
    "Spartan.createMds_mds",
    "Spartan.security_inequalities"
   ],
   "note": "The choice of the numbers of rounds (floating point) and the tests algorithm_1 to algorithm_3 of the script are not modelled; C96 proves the corresponding facts of the matrix directly."
  },
  {
   "property": "C98",
   "status": "proved",
   "theorems": [
    "Spartan.map_to_curve_standard",
    "Spartan.hash_to_curve_standard",
    "Spartan.stdImage_unique",
    "Spartan.stdImage_at_most_five",
    "Spartan.iso_map_injective",
    "Spartan.from_uniform_bytes_standard",
    "Spartan.from_uniform_bytes_spread",
    "Spartan.from_uniform_bytes_secq"
   ],
   "note": "The simplified SWU map is stated as in RFC 9380 in Spec/HashToCurve.lean (candidate abscissae, choice by squareness, sign by parity). The point decoder of the curve library is a parameter, as in C10; an example shows one that meets the assumption."
  },
  {
   "property": "C99",
   "status": "proved",
   "theorems": [
    "Spartan.nizk_zero_knowledge",
    "Spartan.nizk_simulated_distribution",
    "Spartan.snark_zero_knowledge",
    "Spartan.nizk_hash_run_iff",
    "Spartan.nizk_simulated_hash",
    "Spartan.nizk_zero_knowledge_secq",
    "Spartan.nizk_simulated_distribution_secq"
   ],
   "note": "Perfect zero-knowledge of the interactive protocol: a bijection of the prover's random scalars turns each run into a run of an explicit simulator that has the instance, the inputs and the coins but no assignment. nizk_simulated_hash carries this over to the non-interactive proof with any hash function. Unlike C71 this says something about statements with a single witness."
  },
  {
   "property": "C100",
   "status": "partial",
   "theorems": [
    "Spartan.tree_address_proves_partial",
    "Spartan.address_prove_verify_partial"
   ],
   "note": "The compiled circuit and its witness generator are not in the repository: that it satisfies the constraints whenever the circuit template holds is a hypothesis; C127 shows that constraints and a generator exist, and C128 is the theorem with those. Excluded: the exceptional cases of the signature circuit (C52-C54; C136: at most a fraction of 2^-128 of the keys), message hashes as in C84, and witness and public values that the wasm module cannot read because their bytes in reverse are not below the modulus (C61, C63). Props/AddrProverEx meets all hypotheses with a concrete key, its Ethereum address, a signature and a tree."
  },
  {
   "property": "C101",
   "status": "proved",
   "theorems": [
    "Spartan.snark_prove_sizes",
    "Spartan.snark_prove_bytes",
    "Spartan.snark_proof_bytes_le",
    "Spartan.cubic_proof_bytes"
   ],
   "note": "All vectors of a SNARK that the prover returns have lengths fixed by the dimensions; the byte bound and the read-back follow. cubic_proof_bytes: for examples/cubic.rs with the encodings of the crate the proof is accepted, has at most 14525 bytes and is read back."
  },
  {
   "property": "C102",
   "status": "proved",
   "theorems": [
    "Spartan.gen_ok_iff",
    "Spartan.gen_sat_iff",
    "Spartan.gen_prove_verify",
    "Spartan.gen_forgery",
    "Spartan.gen_circuit",
    "Spartan.inst_bytes_width",
    "Spartan.parse_decimal",
    "Spartan.parse_only_decimal"
   ],
   "note": "End to end from bytes: the r1cs file, the command line of the tool, the circuit file written on a 64-bit machine, the witness file, the wasm prover and verifier with a 32-bit usize. Limits: coefficients and witness values that read_field accepts (C61), sizes a 32-bit machine can hold (FitsWasm), one constraint at least, no folding challenge zero. gen_forgery: the same circuit file also has accepted proofs for every public input (C66). Files that cannot be created or written are not modelled."
  },
  {
   "property": "C103",
   "status": "partial",
   "theorems": [
    "Spartan.gen_accepts_foreign",
    "Spartan.gen_ignores_header",
    "Spartan.gen_foreign_partial"
   ],
   "note": "False: the prime in the header is read and never compared, and neither are the numbers of public wires: two files with the same wires and constraints give the same circuit file (gen_ignores_header, gen_accepts_foreign). Proved instead: a file with a coefficient that is not below the library's prime is refused."
  },
  {
   "property": "C104",
   "status": "proved",
   "theorems": [
    "Spartan.snark_soft",
    "Spartan.snark_graceful",
    "Spartan.snark_accepted_shape",
    "Spartan.snark_honest_shape",
    "Spartan.snark_panics_on_values",
    "Spartan.snark_one_entry_rejects"
   ],
   "note": "snark_soft compares SNARK::verify with the variant in Spec/SoftSnark.lean, written out in full, on every input. snark_graceful: that variant never panics on proofs of the shape SnarkShape. snark_accepted_shape and snark_honest_shape: accepted proofs and honest proofs have this shape. snark_panics_on_values: the assertions on values do fire, so a well-shaped wrong proof panics instead of giving an error. Hypothesis: challenges labelled u are not zero. The shape admits fewer than three opened addresses because the code never counts them (C70)."
  },
  {
   "property": "C105",
   "status": "proved",
   "theorems": [
    "Spartan.whole_script_k256",
    "Spartan.satInequiv_k256",
    "Spartan.generateMatrix_secure",
    "Spartan.alg1_spec",
    "Spartan.alg2_spec",
    "Spartan.k256_matrix_chosen",
    "Spartan.alg1_space_spec"
   ],
   "note": "Completes C97: the choice of the numbers of rounds and the three tests on the matrix are modelled too. Logarithms and the factor 1.075 are exact instead of floating point. generateMatrix_secure holds for every prime, size and generator state; k256_matrix_chosen shows that the matrix in use is such a matrix."
  },
  {
   "property": "C106",
   "status": "proved",
   "theorems": [
    "Spartan.script_z",
    "Spartan.z_criteria",
    "Spartan.script_sqrt_secq",
    "Spartan.script_sqrt_secp",
    "Spartan.script_z_secp"
   ],
   "note": "find_iso (Sage's search for isogenies) is not modelled: the coefficients of the isogenous curves are taken from affine.rs and hashtocurve.rs, and C98 proves that the isogeny of the code maps into the commitment curve. is_square and is_irreducible are Mathlib's predicates."
  },
  {
   "property": "C107",
   "status": "proved",
   "theorems": [
    "Spartan.straightLine_eq",
    "Spartan.undefs_spec",
    "Spartan.map_to_curve_reference"
   ],
   "note": "The base class GenericMap is not in the repository: inv0 is the inverse with 0 to 0, is_square is IsSquare, sqrt is any function that yields roots of squares, and sgn0 is any function (the parity in the comparison with the code)."
  },
  {
   "property": "C108",
   "status": "proved",
   "theorems": [
    "Spartan.Glue.heap_table",
    "Spartan.Glue.heap_no_leak",
    "Spartan.Glue.double_release_aliases"
   ],
   "note": "The module is trusted to release only handles it holds (a history condition); double_release_aliases shows that releasing twice makes two later objects share a handle."
  },
  {
   "property": "C109",
   "status": "proved",
   "theorems": [
    "Spartan.Glue.prove_glue",
    "Spartan.Glue.verify_glue",
    "Spartan.Glue.poseidon_glue",
    "Spartan.Glue.glue_history",
    "Spartan.Glue.pass_any_module"
   ],
   "note": "The compiled module is a parameter with the contract Spec/Glue.lean (allocator, argument and result conventions, stack use); Props/GlueEx.lean has a module that meets it. pass_any_module needs no contract: whatever address the allocator gives, an argument that does not fit there is refused and nothing is written. TextDecoder, imported functions and fetching are not modelled."
  },
  {
   "property": "C110",
   "status": "partial",
   "theorems": [
    "Spartan.Glue.failed_call_clean_partial",
    "Spartan.Glue.panic_leaks",
    "Spartan.Glue.panics_leak"
   ],
   "note": "Proved for calls that fail with an error the module returned. False for panics, which is how the library reports malformed proofs and circuits (C39, C61, C94): panics_leak. That a trap leaves the module's stack frame in use is a property of WebAssembly, here a hypothesis on the module."
  },
  {
   "property": "C111",
   "status": "proved",
   "theorems": [
    "Spartan.Wc.inputs_set",
    "Spartan.Wc.witness_returned",
    "Spartan.Wc.prime_eq",
    "Spartan.Wc.array32_roundtrip",
    "Spartan.Wc.normalize_eq",
    "Spartan.Wc.fnvHash_eq",
    "Spartan.Wc.flatArray_eq"
   ],
   "note": "The compiled circuit is a parameter with the contract Runs of Spec/WitnessCalc.lean; ex_runs and ex_fits are a circuit and inputs that meet it."
  },
  {
   "property": "C112",
   "status": "partial",
   "theorems": [
    "Spartan.Wc.wtnsBin_format",
    "Spartan.Wc.wtnsBin_read",
    "Spartan.Wc.wtnsBin_large"
   ],
   "note": "The compiled circuit is a parameter with the contract Runs of Spec/WitnessCalc.lean; ex_runs and ex_fits are a circuit and inputs that meet it. Proved for witnesses below 4 GB and values the reader can read (C60, C61). False from 4 GB on: the section length is cut out of its hexadecimal digits at the wrong end (wtnsBin_large)."
  },
  {
   "property": "C113",
   "status": "partial",
   "theorems": [
    "Spartan.Wc.overlapping_calls",
    "Spartan.Wc.sequential_calls_partial",
    "Spartan.Wc.overlapping_wrong"
   ],
   "note": "The compiled circuit is a parameter with the contract Runs of Spec/WitnessCalc.lean; ex_runs and ex_fits are a circuit and inputs that meet it. Proved for calls awaited one after the other. False for overlapping calls: every call goes on only after an await, and then reads the witness of the call started last (overlapping_wrong)."
  },
  {
   "property": "C114",
   "status": "proved",
   "theorems": [
    "Spartan.test_circuit_generated",
    "Spartan.test_circuit_read",
    "Spartan.test_circuit_meaning",
    "Spartan.test_witness",
    "Spartan.test_prove_verify",
    "Spartan.check_nizk_passes"
   ],
   "note": "The three committed binary files are in Model/TestCircuit.lean byte for byte. zlib is not modelled: test_circuit_generated holds for every digest function that gives the committed digest on the file's instance. The repository's test uses public inputs that are not those of its witness and still passes, because converted circuits ignore public inputs (C62)."
  },
  {
   "property": "C115",
   "status": "proved",
   "theorems": [
    "Spartan.Async.verify_one_moment",
    "Spartan.Async.verify_concurrent",
    "Spartan.Async.verify_true_valid",
    "Spartan.Async.init_done_ready",
    "Spartan.Async.call_ends",
    "Spartan.Async.verify_answers",
    "Spartan.Async.ready_loaded",
    "Spartan.Async.ready_loaded_applies"
   ],
   "note": "The functions of the WebAssembly module are pure once it is instantiated, which is C109. verify_one_moment shows what happens when the caller does write to its arrays during a call: the answer is that for the contents at one single moment."
  },
  {
   "property": "C116",
   "status": "partial",
   "theorems": [
    "Spartan.Async.prove_one_moment",
    "Spartan.Async.prove_concurrent_partial",
    "Spartan.Async.prove_message_changed",
    "Spartan.Async.checked_message"
   ],
   "note": "False in full: the public input that prove returns refers to the caller's msgHash array. If the caller reuses that array, even after prove has returned, the public input no longer passes the checks (prove_message_changed). prove_concurrent_partial proves it for programs that leave the array alone until they serialize."
  },
  {
   "property": "C117",
   "status": "partial",
   "theorems": [
    "Spartan.Async.verify_false_partial",
    "Spartan.Async.verify_too_early"
   ],
   "note": "False in full: before the module is loaded the call of wasm.verify throws, which verify turns into false, so every valid proof is answered by false (verify_too_early). verify_false_partial: after an init, false means that the public values are wrong or the module's verifier did not accept; that includes its panics, which are C39."
  },
  {
   "property": "C118",
   "status": "proved",
   "theorems": [
    "Spartan.multi_commit_gens_standard",
    "Spartan.generator_unique",
    "Spartan.multi_commit_gens_source",
    "Spartan.shake256_known_answer"
   ],
   "note": "sha3 0.8.2, keccak 0.1.4 and the SEC1 decoder of primeorder are not in the repository; they are transcribed. The group law is Mathlib's. multi_commit_gens_source says that the theorems about generators from an arbitrary hash (C20, C71 and others) apply to the real ones."
  },
  {
   "property": "C119",
   "status": "proved",
   "theorems": [
    "Spartan.Merlin.challenge_keccak",
    "Spartan.Merlin.code_challenge_keccak",
    "Spartan.Merlin.nizk_challenges_keccak",
    "Spartan.Merlin.snark_challenges_keccak",
    "Spartan.KeccakF.keccakBytes_eq",
    "Spartan.Merlin.merlin_known_answer"
   ],
   "note": "merlin 3.0.0 and keccak 0.1.4 are not in the repository; they are transcribed, and the transcription reproduces merlin's published test vector (merlin_known_answer, computed by the kernel). Together with C93 no parameter is left between a transcript and its challenges."
  },
  {
   "property": "C120",
   "status": "proved",
   "theorems": [
    "Spartan.Par.commit_multicore",
    "Spartan.Par.commit_multicore_total",
    "Spartan.Par.collected_eq",
    "Spartan.Par.every_schedule_ends",
    "Spartan.Par.no_deadlock"
   ],
   "note": "rayon 1.7.0 is not in the repository; splitting, joining, the writes of the parts and the final check are transcribed, memory is sequentially consistent (the parts share none of it). Splits and interleavings are arbitrary."
  },
  {
   "property": "C121",
   "status": "proved",
   "theorems": [
    "Spartan.point_representation",
    "Spartan.point_constants",
    "Spartan.point_ops",
    "Spartan.point_mul",
    "Spartan.point_sum",
    "Spartan.point_laws",
    "Spartan.point_ops_applies"
   ],
   "note": "primeorder 0.0.1 (a fork) is not in the repository; it is transcribed, with both sets of complete formulas that apply, and every theorem is about both."
  },
  {
   "property": "C122",
   "status": "proved",
   "theorems": [
    "Spartan.multiscalar_mul_correct",
    "Spartan.multiscalar_mul_refines",
    "Spartan.multiscalar_mul_applies"
   ],
   "note": "multiexp 0.2.2 is not in the repository; its choice of algorithm, the algorithms of Straus and of Pippenger and the digit preparation are transcribed, with the thresholds of both build profiles. multiscalar_mul_refines discharges the assumption of the protocol model that the sum is computed."
  },
  {
   "property": "C123",
   "status": "proved",
   "theorems": [
    "Spartan.compress_correct",
    "Spartan.decompress_correct",
    "Spartan.compress_round_trip",
    "Spartan.uniform_point_correct",
    "Spartan.point_codec_applies",
    "Spartan.encoding_unique",
    "Spartan.encoding_shapes"
   ],
   "note": "primeorder 0.0.1 (a fork) is not in the repository; it is transcribed, with both sets of complete formulas that apply, and every theorem is about both. k256's square root is transcribed (C92)."
  },
  {
   "property": "C124",
   "status": "proved",
   "theorems": [
    "Spartan.nizk_run_local",
    "Spartan.nizk_complete_run",
    "Spartan.snark_complete_run",
    "Spartan.wasm_prove_verify_run",
    "Spartan.wasmProve_run"
   ],
   "note": "The exception of C37, C44 and C69 (a zero folding challenge makes the prover panic) made explicit for the run in question; the size conditions of the SNARK are those of C44."
  },
  {
   "property": "C125",
   "status": "proved",
   "theorems": [
    "Spartan.Mach.machine_scalars",
    "Spartan.Mach.machine_points",
    "Spartan.Mach.machine_msm",
    "Spartan.Mach.machine_invert",
    "Spartan.Mach.machine_batch_invert",
    "Spartan.Mach.machine_usize",
    "Spartan.Mach.machine_encodings",
    "Spartan.Mach.machine_wire",
    "Spartan.Mach.machine_from_bytes",
    "Spartan.Mach.machine_generators",
    "Spartan.Mach.machine_challenge"
   ],
   "note": "mod_inverse of num-bigint-dig is assumed to compute modular inverses (ModInverseSpec); the digest of an instance (zlib) is a parameter."
  },
  {
   "property": "C126",
   "status": "proved",
   "theorems": [
    "Spartan.Mach.machine_nizk_complete",
    "Spartan.Mach.machine_snark_complete",
    "Spartan.Mach.machine_prove_verify"
   ],
   "note": "The condition on zero folding challenges is that of C124; the size conditions of the SNARK are those of C44. The digest of an instance (zlib) is a parameter."
  },
  {
   "property": "C127",
   "status": "proved",
   "theorems": [
    "Spartan.membership_r1cs",
    "Spartan.addr_membership_r1cs",
    "Spartan.generator_exists",
    "Spartan.systemFor_inst"
   ],
   "note": "Depth at most 32, as in the Merkle tree of the library. The system is not the one the circom compiler writes, which is not in the repository: its wires are numbered one, public, private, internal signals, and no simplification is applied."
  },
  {
   "property": "C128",
   "status": "partial",
   "theorems": [
    "Spartan.member_machine_partial",
    "Spartan.address_machine_partial"
   ],
   "note": "No assumption on a compiled circuit remains: any system of constraints for the template will do, and C127 shows that one exists together with a witness generator. Excluded as in C85 and C100: the exceptional cases of the signature circuit (C52-C54; C136: at most a fraction of 2^-128 of the keys), message hashes as in C84, witness and public values whose bytes in reverse are not below the modulus (C61, C63), and zero folding challenges (C124). Props/CompileEx meets the hypotheses with a concrete key and signature, except for the bytes of the internal signals."
  },
  {
   "property": "C129",
   "status": "partial",
   "theorems": [
    "Spartan.machine_zero_knowledge",
    "Spartan.machine_witness_indistinguishable",
    "Spartan.member_anonymous_partial",
    "Spartan.address_anonymous_partial"
   ],
   "note": "Missing are the exceptional cases of the signature circuit (at most a fraction of 2^-128 of the keys: signer_almost_all, C136) and values that the wasm module cannot read, as in C128, where the prover may fail. The generators for the blinding factors are assumed not to be the identity. The random tape is a stream of arbitrary scalars, as in C71. Props/AnonEx meets the hypotheses with two keys in a tree and signatures of both, except for the bytes of the internal signals and the generators."
  },
  {
   "property": "C130",
   "status": "proved",
   "theorems": [
    "Spartan.Mach.machine_nizk_sound",
    "Spartan.Mach.machine_snark_sound",
    "Spartan.Mach.machine_honest_asked"
   ],
   "note": "The hash that gives the 64 bytes of a challenge is a random function, as in C87; provers are algebraic: they say how each point was made. Restricted as in C87 to proofs of the right shape, without which C38 and C70 are false."
  },
  {
   "property": "C131",
   "status": "partial",
   "theorems": [
    "Spartan.member_file_partial",
    "Spartan.address_file_partial",
    "Spartan.membership_file",
    "Spartan.addr_membership_file",
    "Spartan.file_system",
    "Spartan.machine_gen",
    "Spartan.member_file_random_partial",
    "Spartan.address_file_random_partial",
    "Spartan.member_almost_all_partial",
    "Spartan.address_almost_all_partial"
   ],
   "note": "membership_file and addr_membership_file give an r1cs file and witness generator for each circuit and depth up to 32, whose values can all be read if those of the inputs can; CircuitFileEx has a signature and trees for which every hypothesis holds. member_almost_all_partial and address_almost_all_partial: the exceptional cases of the signature circuit concern at most a fraction of 2^-128 of the keys (C136). Missing: that values which the wasm module cannot read do not occur (C61, C63), and the file the circom compiler writes is any file with constraints for the circuit, not the compiler's own output, which is not in the repository."
  },
  {
   "property": "C132",
   "status": "proved",
   "theorems": [
    "Spartan.nizk_complete_random",
    "Spartan.snark_complete_random",
    "Spartan.Mach.machine_nizk_complete_random",
    "Spartan.Mach.machine_snark_complete_random",
    "Spartan.nizkV_cnt",
    "Spartan.snarkV_cnt"
   ],
   "note": "Discharges the condition of C124 that no folding challenge is zero. The hash is drawn uniformly on a finite set of inputs that contains all the run can ask, and is arbitrary elsewhere; the bound holds for every fixed random tape. C131 has the same bound for a member's proof through the library."
  },
  {
   "property": "C133",
   "status": "proved",
   "theorems": [
    "Spartan.Glue.pass_string",
    "Spartan.Glue.get_string",
    "Spartan.Glue.get_string_refuses",
    "Spartan.Glue.string_round_trip",
    "Spartan.Glue.import_error",
    "Spartan.Glue.import_throw",
    "Spartan.Glue.import_string_new",
    "Spartan.Glue.import_stack",
    "Spartan.Glue.encode_into_fits"
   ],
   "note": "TextEncoder and TextDecoder are modelled from the Encoding Standard and proved to be UTF-8 as Lean's standard library defines it (dec_iff, encode_text). The module's allocator is a parameter with the contracts Alloc and ReallocOk; GlueStrEx has a module that meets them."
  },
  {
   "property": "C134",
   "status": "partial",
   "theorems": [
    "Spartan.Glue.string_block_partial",
    "Spartan.Glue.string_block_false"
   ],
   "note": "FALSE: the block is reserved with three bytes for every code unit from the first non-ASCII one on and never shrunk. string_block_false: for every string with a non-ASCII character that does not have exactly three bytes in UTF-8, no block with the address and length given to the module is allocated, so releasing it by that length is not what the allocator expects. string_block_partial: right for ASCII strings and for modules without realloc."
  },
  {
   "property": "C135",
   "status": "proved",
   "theorems": [
    "Spartan.SecurityIneq.script_iff",
    "Spartan.SecurityIneq.poseidon_inequalities",
    "Spartan.SecurityIneq.label3_false",
    "Spartan.SecurityIneq.script_lines"
   ],
   "note": "The script rounds logarithms to 53 bits, the model uses real logarithms. label3_false: the text printed beside the third line, M(log_a 2 + log_a t), is not what the line computes and does not hold for these parameters."
  },
  {
   "property": "C136",
   "status": "proved",
   "theorems": [
    "Spartan.Rare.exceptional_scalars",
    "Spartan.Rare.mul_almost_all",
    "Spartan.Rare.mul_many_fail",
    "Spartan.Rare.eff_ecdsa_almost_all",
    "Spartan.Rare.exceptional_keys",
    "Spartan.signer_almost_all"
   ],
   "note": "Counts the exceptional cases left open in C53, C54, C85 and C132: at most 2^127 scalars, and at least 2^126, because of the window in which the recoding of the scalar is wrong. member_almost_all_partial and address_almost_all_partial (C131) use it for the library."
  },
  {
   "property": "C137",
   "status": "proved",
   "theorems": [
    "Spartan.Unread.read_field_panics_exactly",
    "Spartan.Unread.unreadable_bytes",
    "Spartan.Unread.unreadable_points",
    "Spartan.Unread.unreadable_messages",
    "Spartan.Unread.unreadable_scalars"
   ],
   "note": "Counts the failures of C61 and C63 that C85, C128, C131 and C132 exclude by hypothesis. Not counted: the roots of trees and the point T, which depend on hashes and on the coordinate of the nonce point in ways that have no known distribution."
  },
  {
   "property": "C138",
   "status": "proved",
   "theorems": [
    "Spartan.Rare.add_complete_almost_all",
    "Spartan.Rare.address_almost_all",
    "Spartan.Rare.eff_ecdsa_to_addr_almost_all"
   ],
   "note": "Counts the failures of C51, C57 and C58. address_not_unique (C58) is a key that has two addresses."
  },
  {
   "property": "C139",
   "status": "partial",
   "theorems": [
    "Spartan.Embed.embed_partial",
    "Spartan.Embed.embed_small",
    "Spartan.Embed.exported_sourceFile"
   ],
   "note": "Proved for files of at least 4096 bytes. FALSE for smaller ones: Node puts them into a shared store of 8192 bytes, and the script takes the whole store (wasm.buffer) instead of the part with the file, so the exported array is never the file (embed_small). The behaviour of readFileSync is modelled from Node's published code. That the size of the built module is above the limit is not in the repository."
  },
  {
   "property": "C140",
   "status": "partial",
   "theorems": [
    "Spartan.Wc.generate_witness_partial",
    "Spartan.Wc.generate_witness_wrong",
    "Spartan.Wc.survivors",
    "Spartan.Wc.double_exact_iff",
    "Spartan.Wc.double_nearest",
    "Spartan.Wc.last_member_counts",
    "Spartan.Wc.no_number_fails",
    "Spartan.Wc.input_kept_iff"
   ],
   "note": "Proved for files with each name once (last_member_counts: of several values the last counts) whose numbers are strings or JSON numbers of at most 53 significant bits. FALSE for other JSON numbers: JSON.parse rounds them to 53 bits and the program writes the witness of another input without an error (generate_witness_wrong, on {\"a\": [9007199254740993, [1]]}). Of the 256-bit numbers a field element can be, a fraction of 2^-203 survives (survivors). The restriction is necessary: the witness calculator is given the meant integers if and only if it holds (input_kept_iff). Not modelled: JSON numbers with a fraction or an exponent, files that cannot be read or written."
  },
  {
   "property": "C141",
   "status": "partial",
   "theorems": [
    "Spartan.square_root_floor_partial",
    "Spartan.square_root_wrong",
    "Spartan.square_root_pow4",
    "Spartan.roundedSqrt_nearest",
    "Spartan.square_root_near",
    "Spartan.square_root_square"
   ],
   "note": "Proved below 2^52 + 2^27, and for all squares, hence all powers of four. FALSE from there on: at 2^52 + 2^27 and at 2^64 - 1 the result is one too large (square_root_wrong), so the bound is sharp. It is never more than one too large and never too small (square_root_near). The helper is called only in the crate's tests, for powers of four."
  },
  {
   "property": "C142",
   "status": "proved",
   "theorems": [
    "Spartan.Bench.benchmark_key_valid",
    "Spartan.Bench.benchmark_keys_differ",
    "Spartan.Bench.benchmark_key_bytes"
   ],
   "note": "padStart and Buffer.from with utf16le are external and modelled by their specification; deriving the public key is not part of the model."
  }
 ]
}