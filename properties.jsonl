{"id": "C01", "title": "Scalar arithmetic is arithmetic in F_p", "statement": "For all canonical Scalars a, b, the results of a+b, a-b, -a, a*b, a.square(), a.double() are canonical and represent the sum, difference, negation, product, square and double in the integers modulo p = 2^256-2^32-977.", "quantifier": "every pair of field elements, i.e. every pair of reduced Montgomery limb vectors", "why_tests_cant": "2^512 input pairs; carry and borrow chains fail only on sparse corner values that sampled tests do not reach", "anchors": ["packages/Spartan-secq/src/scalar/scalar.rs: adc, sbb, mac, Scalar::add, sub, neg, mul, square, double, montgomery_reduce, MODULUS, INV, R, R2"]}
{"id": "C02", "title": "Scalar byte decoding accepts exactly the canonical encodings and round-trips", "statement": "Scalar::from_bytes returns Some iff the little-endian value of the 32 bytes is below p, the decoded Scalar represents that value, and to_bytes of the decoded scalar gives back the same bytes; conversely from_bytes(to_bytes(s)) = Some(s) for every scalar.", "quantifier": "every 32-byte array and every field element", "why_tests_cant": "the acceptance boundary is a single value in 2^256", "anchors": ["packages/Spartan-secq/src/scalar/scalar.rs: Scalar::from_bytes, Scalar::to_bytes"]}
{"id": "C03", "title": "Wide and raw decoding reduce modulo p", "statement": "Scalar::from_bytes_wide (64 bytes), Scalar::from_raw (4 limbs) and Scalar::from(u64) always return a canonical scalar congruent modulo p to the little-endian integer they are given.", "quantifier": "every 64-byte array, every 4 limbs, every u64", "why_tests_cant": "intermediate values exceed the modulus only on rare inputs", "anchors": ["packages/Spartan-secq/src/scalar/scalar.rs: from_bytes_wide, from_u512, from_raw, From<u64>"]}
{"id": "C04", "title": "Exponentiation, inversion and batch inversion are correct", "statement": "pow/pow_vartime(e) is exponentiation by the 256-bit integer e; invert returns Some of the multiplicative inverse for every nonzero scalar and None for zero; batch_invert replaces every entry of a list of nonzero scalars by its inverse and returns the product of the inverses, and panics iff some entry is zero.", "quantifier": "every scalar, every exponent, every list of scalars of any length", "why_tests_cant": "lists of unbounded length and a 2^256 exponent space", "anchors": ["packages/Spartan-secq/src/scalar/scalar.rs: pow, pow_vartime, invert, batch_invert"]}
{"id": "C05", "title": "The secq256k1 field types implement the two 256-bit prime fields", "statement": "For both FieldElement types of the secq256k1 crate (modulus p and modulus q = the secp256k1 group order), add/sub/neg/mul/square/pow/invert and the byte conversions represent the corresponding operations of the prime field, with canonical outputs.", "quantifier": "every pair of field elements of either field", "why_tests_cant": "same carry-chain argument; the inversion addition chain has one fixed exponent that tests only sample", "anchors": ["packages/secq256k1/src/field/field_secp.rs: FieldElement", "packages/secq256k1/src/field/field_secq.rs: FieldElement"]}
{"id": "C06", "title": "Scalar serialization round-trips and is injective", "statement": "Deserializing a serialized Scalar gives the same Scalar, and two different 32-byte encodings never deserialize to the same Scalar.", "quantifier": "every scalar, every 32-byte encoding", "why_tests_cant": "non-canonical encodings form a 2^-224 fraction of the space", "anchors": ["packages/Spartan-secq/src/scalar/scalar.rs: Serialize for Scalar, U64ArrayVisitor::visit_seq"]}
{"id": "C07", "title": "FieldElement serialization round-trips", "statement": "Deserializing the serialization of a secq256k1 FieldElement gives the same FieldElement.", "quantifier": "every field element of either field", "why_tests_cant": "the repository has no such test; the claim ranges over 2^256 values", "anchors": ["packages/secq256k1/src/field/field_secp.rs: Serialize, U64ArrayVisitor", "packages/secq256k1/src/field/field_secq.rs: Serialize, U64ArrayVisitor"]}
{"id": "C08", "title": "Field square roots are only returned for squares", "statement": "FieldElement::sqrt returns Some(r) only if r*r equals the argument, and returns Some for every square.", "quantifier": "every field element", "why_tests_cant": "half of the field are non-residues; the property is universally quantified", "anchors": ["packages/secq256k1/src/field/field_secp.rs: sqrt"]}
{"id": "C09", "title": "sqrt_ratio decides squareness and returns the root", "statement": "For every u and every nonzero v, sqrt_ratio(u,v) returns (true, y) with y^2*v = u when u/v is a square, and (false, y) with y^2*v = Z*u when it is not.", "quantifier": "all u, all nonzero v in the base field of secq256k1", "why_tests_cant": "the Tonelli-Shanks style loop has 2^6 paths chosen by the 2-adic part of the argument", "anchors": ["packages/secq256k1/src/field/field_secq.rs: sqrt_ratio, C1..C7"]}
{"id": "C10", "title": "Hash-to-curve is total and lands on the curve", "statement": "AffinePoint::from_uniform_bytes never panics and returns a point of secq256k1 for every 128-byte input; the simplified SWU map lands on the isogenous curve and the isogeny map never divides by zero on it.", "quantifier": "every 128-byte string (equivalently every pair of base field elements)", "why_tests_cant": "exceptional inputs of the map are a handful of values in 2^256", "anchors": ["packages/secq256k1/src/affine.rs: from_uniform_bytes, iso_a, iso_b, iso_z, iso_constants", "packages/secq256k1/src/hashtocurve.rs: map_to_curve_simple_swu, iso_map, hash_to_curve"]}
{"id": "C11", "title": "The commitment group is a vector space over the scalar field", "statement": "Every point of secq256k1 (y^2 = x^3+7 over F_q) is annihilated by p, so scalar multiplication by Scalars taken modulo p is well defined; every point of secp256k1 is annihilated by q. Both groups have prime order.", "quantifier": "every point of either curve", "why_tests_cant": "a statement about about 2^256 points", "anchors": ["packages/secq256k1/src/lib.rs: Secq256K1, ORDER", "packages/secq256k1/src/affine.rs: AffinePoint", "packages/Spartan-secq/src/group.rs: GroupElement"]}
{"id": "C12", "title": "A malformed compressed point is reported as an error", "statement": "unpack() of a compressed group element that is not a curve point returns Err(DecompressionError).", "quantifier": "every compressed encoding of every length", "why_tests_cant": "every failing encoding must be considered", "anchors": ["packages/Spartan-secq/src/group.rs: unpack, decompress", "packages/Spartan-secq/src/errors.rs: ProofVerifyError"]}
{"id": "C13", "title": "Integer helper functions", "statement": "log_2(n) is the ceiling of the base-2 logarithm for every n >= 1 and panics exactly at 0; get_bits(n,k) is the big-endian k-bit expansion of n, from which n mod 2^k is recovered; pow2(k) is 2^k for every k < 64 and panics (or wraps) otherwise.", "quantifier": "every usize value", "why_tests_cant": "all 2^64 values and the boundary at powers of two", "anchors": ["packages/Spartan-secq/src/math.rs: Math"]}
{"id": "C14", "title": "EqPolynomial::evals is the table of eq(r, x)", "statement": "EqPolynomial::new(r).evals() has length 2^|r| and its i-th entry is the product over j of r_j or 1-r_j according to the j-th big-endian bit of i; evaluate(x) equals the sum over the table weighted by the table of x, and is 1/0 on Boolean points.", "quantifier": "every point r of every dimension, every index", "why_tests_cant": "unbounded dimension", "anchors": ["packages/Spartan-secq/src/dense_mlpoly.rs: EqPolynomial::evaluate, evals"]}
{"id": "C15", "title": "Factored evaluation tables", "statement": "compute_factored_evals returns left and right tables L, R whose outer product is the full eq table, for the split used by the polynomial commitment, so <L, M R> is the evaluation of the polynomial laid out row by row in M.", "quantifier": "every point of every dimension and every coefficient vector of length 2^n", "why_tests_cant": "unbounded dimension", "anchors": ["packages/Spartan-secq/src/dense_mlpoly.rs: compute_factored_lens, compute_factored_evals, DensePolynomial::bound"]}
{"id": "C16", "title": "DensePolynomial evaluation is the multilinear extension", "statement": "evaluate(r) is linear in each coordinate, agrees with the stored table on Boolean points, and fixing the first (bound_poly_var_top) or last (bound_poly_var_bot) variable commutes with evaluation.", "quantifier": "every table of length 2^n, every point, every n", "why_tests_cant": "unbounded dimension", "anchors": ["packages/Spartan-secq/src/dense_mlpoly.rs: DensePolynomial::evaluate, bound_poly_var_top, bound_poly_var_bot"]}
{"id": "C17", "title": "Univariate interpolation and compression", "statement": "UniPoly::from_evals interpolates the given 3 or 4 values at 0,1,2,(3); evaluate agrees with the polynomial everywhere; compress then decompress with hint e(0)+e(1) is the identity; decompress(h) always satisfies e(0)+e(1) = h.", "quantifier": "every evaluation vector and every hint", "why_tests_cant": "identities over the whole field", "anchors": ["packages/Spartan-secq/src/unipoly.rs: from_evals, evaluate, eval_at_zero, eval_at_one, compress, decompress"]}
{"id": "C18", "title": "Sparse evaluation agrees with dense evaluation", "statement": "SparsePolynomial::evaluate(r) and SparseMatPolynomial::multi_evaluate(rx,ry) equal the multilinear extension of the dense vector/matrix whose entries are the sums of the listed values; multiply_vec and compute_eval_table_sparse are matrix-vector products with that matrix and its transpose.", "quantifier": "every list of entries (any number, duplicates allowed), every point", "why_tests_cant": "unbounded number of entries", "anchors": ["packages/Spartan-secq/src/sparse_mlpoly.rs: SparsePolynomial::evaluate, compute_chi, evaluate_with_tables, multi_evaluate, multiply_vec, compute_eval_table_sparse"]}
{"id": "C19", "title": "Multi-scalar multiplication pairs every scalar with its point", "statement": "vartime_multiscalar_mul(scalars, points) returns the sum of s_i*P_i, and lists of different lengths are rejected.", "quantifier": "lists of scalars and points of any lengths", "why_tests_cant": "unbounded lengths; mismatched lengths are only produced by an adversary", "anchors": ["packages/Spartan-secq/src/group.rs: vartime_multiscalar_mul"]}
{"id": "C20", "title": "Commitment generators", "statement": "MultiCommitGens::new(n,label) yields n+1 curve points that depend only on the label and position; split_at and scale preserve the commitment relation: commit(v1++v2) under the whole basis is commit under the parts, and scaling the basis scales the committed message; commitments are homomorphic.", "quantifier": "every n, every split position, every vector and blind", "why_tests_cant": "unbounded n", "anchors": ["packages/Spartan-secq/src/commitments.rs: MultiCommitGens::new, scale, split_at, Commitments::commit"]}
{"id": "C21", "title": "Knowledge proof: completeness, special soundness, simulation", "statement": "An honestly generated KnowledgeProof verifies against the returned commitment for every message, blind, tape and transcript; from two accepting responses with the same first message and different challenges an opening of the commitment is computed; for every challenge and response there is exactly one first message making it accept.", "quantifier": "every opening, generator, tape, transcript oracle", "why_tests_cant": "quantifies over all challenges and all provers", "anchors": ["packages/Spartan-secq/src/nizk/mod.rs: KnowledgeProof::prove, verify"]}
{"id": "C22", "title": "Equality proof: completeness, special soundness, simulation", "statement": "An honestly generated EqualityProof verifies when both commitments commit to the same value; two accepting responses with different challenges show that the difference of the commitments is a known multiple of h; each challenge/response has exactly one first message.", "quantifier": "every pair of commitments, tape and transcript oracle", "why_tests_cant": "quantifies over all challenges and provers", "anchors": ["packages/Spartan-secq/src/nizk/mod.rs: EqualityProof::prove, verify"]}
{"id": "C23", "title": "Product proof: completeness, special soundness", "statement": "An honestly generated ProductProof verifies when z = x*y; two accepting transcripts with different challenges yield openings of X, Y and Z whose values satisfy z = x*y.", "quantifier": "every x, y, blinds, tape and transcript oracle", "why_tests_cant": "quantifies over all challenges and provers", "anchors": ["packages/Spartan-secq/src/nizk/mod.rs: ProductProof::prove, verify, check_equality"]}
{"id": "C24", "title": "Dot-product proof: completeness, special soundness", "statement": "An honestly generated DotProductProof verifies when y = <x,a>; two accepting transcripts with different challenges yield a vector opening of Cx and an opening of Cy to its inner product with a.", "quantifier": "every vector length, vectors, blinds, tape and transcript oracle", "why_tests_cant": "unbounded vector length, all challenges and provers", "anchors": ["packages/Spartan-secq/src/nizk/mod.rs: DotProductProof::prove, verify"]}
{"id": "C25", "title": "Logarithmic dot-product proof: completeness", "statement": "For every power-of-two length n below 2^32, an honestly generated DotProductProofLog for y = <x,a> verifies and leaves prover and verifier transcripts equal, unless one of the folding challenges is zero, in which case the prover panics.", "quantifier": "every power-of-two length, vectors, blinds, tape and transcript oracle", "why_tests_cant": "unbounded recursion depth and all challenges", "anchors": ["packages/Spartan-secq/src/nizk/mod.rs: DotProductProofLog::prove, verify", "packages/Spartan-secq/src/nizk/bullet.rs: BulletReductionProof::prove, verification_scalars, verify"]}
{"id": "C26", "title": "Logarithmic dot-product proof: the accepted statement is bound by the commitments", "statement": "A DotProductProofLog whose responses are fixed cannot be accepted for unrelated commitments: acceptance constrains Cx and Cy.", "quantifier": "every commitment pair, vector a, and every (also malformed) proof object", "why_tests_cant": "the quantifier is over adversarial proof objects with arbitrary list lengths", "anchors": ["packages/Spartan-secq/src/nizk/bullet.rs: verification_scalars, verify", "packages/Spartan-secq/src/nizk/mod.rs: DotProductProofLog::verify"]}
{"id": "C27", "title": "Polynomial evaluation proof: completeness", "statement": "PolyEvalProof::prove for a polynomial, point and value v = poly(r) yields a proof accepted by verify (and verify_plain) against the polynomial commitment.", "quantifier": "every number of variables, table, point, blinds, tape and oracle with nonzero folding challenges", "why_tests_cant": "unbounded size", "anchors": ["packages/Spartan-secq/src/dense_mlpoly.rs: PolyEvalProof::prove, verify, verify_plain, DensePolynomial::commit, bound"]}
{"id": "C28", "title": "Sum-check completeness", "statement": "For prove_cubic and prove_cubic_batched the honest prover's messages are accepted by SumcheckInstanceProof::verify for the true sum; the returned final claim equals the combination evaluated at the returned point, and prover and verifier derive the same point.", "quantifier": "every number of rounds, tables, oracle", "why_tests_cant": "unbounded number of rounds, all challenges", "anchors": ["packages/Spartan-secq/src/sumcheck.rs: SumcheckInstanceProof::prove_cubic, prove_cubic_batched, verify"]}
{"id": "C29", "title": "Sum-check soundness", "statement": "If the claimed sum of a polynomial of individual degree at most d is wrong but verification ends with the correct final evaluation, then in some round the challenge was one of at most d roots fixed before that challenge was drawn; verify rejects (panics or errors) on wrong round counts or degrees.", "quantifier": "every number of rounds, every prover strategy, every polynomial", "why_tests_cant": "quantifies over all cheating provers", "anchors": ["packages/Spartan-secq/src/sumcheck.rs: SumcheckInstanceProof::verify"]}
{"id": "C30", "title": "Zero-knowledge sum-check completeness", "statement": "For prove_quad and prove_cubic_with_additive_term the honest ZKSumcheckInstanceProof is accepted by verify, the returned commitment opens to the final evaluation with the returned blind, and both sides derive the same point and transcript.", "quantifier": "every number of rounds >= 1, tables, blinds, tape, oracle", "why_tests_cant": "unbounded number of rounds", "anchors": ["packages/Spartan-secq/src/sumcheck.rs: ZKSumcheckInstanceProof::prove_quad, prove_cubic_with_additive_term, verify"]}
{"id": "C31", "title": "Instance construction validates its input", "statement": "Instance::new returns Ok iff every row index is below num_cons, every column index is below num_vars+num_inputs+1, every value is a canonical scalar encoding and num_inputs+1 does not exceed the padded number of variables; otherwise it returns the documented error.", "quantifier": "all sizes and all entry lists", "why_tests_cant": "unbounded sizes, boundary indices", "anchors": ["packages/Spartan-secq/src/lib.rs: Instance::new"]}
{"id": "C32", "title": "Padding preserves satisfiability", "statement": "For every instance and assignment, the padded system built by Instance::new is satisfied by the padded assignment (variables, zero padding, 1, inputs) iff the original system A z o B z = C z with z = (vars,1,inputs) is satisfied.", "quantifier": "all sizes, matrices, assignments", "why_tests_cant": "unbounded sizes; column remapping errors show only at size boundaries", "anchors": ["packages/Spartan-secq/src/lib.rs: Instance::new, Instance::is_sat, Assignment::pad", "packages/Spartan-secq/src/r1csinstance.rs: R1CSInstance::is_sat"]}
{"id": "C33", "title": "Every valid instance can be proved", "statement": "For every instance accepted by Instance::new with num_vars >= 1, proving and verifying do not panic because of the instance's shape (in particular the padded number of constraints is at least 2).", "quantifier": "all num_cons, num_vars, num_inputs", "why_tests_cant": "corner sizes 0 and 1", "anchors": ["packages/Spartan-secq/src/lib.rs: Instance::new, NIZK::prove, NIZK::verify", "packages/Spartan-secq/src/r1csproof.rs: R1CSProof::prove, verify"]}
{"id": "C34", "title": "Assignment validation", "statement": "Assignment::new succeeds iff all byte strings are canonical scalar encodings, and then holds exactly those values in order; is_sat and prove reject assignments of the wrong length with the documented error or panic and otherwise compute satisfaction.", "quantifier": "every list of 32-byte strings", "why_tests_cant": "unbounded length", "anchors": ["packages/Spartan-secq/src/lib.rs: Assignment::new, Instance::is_sat"]}
{"id": "C35", "title": "Synthetic instances are satisfied by their assignments", "statement": "produce_synthetic_r1cs(num_cons,num_vars,num_inputs) returns an instance satisfied by the returned assignment and inputs.", "quantifier": "all sizes for which it does not panic, all random choices", "why_tests_cant": "random generator choices are unbounded", "anchors": ["packages/Spartan-secq/src/r1csinstance.rs: produce_synthetic_r1cs"]}
{"id": "C36", "title": "Satisfaction is equivalent to the sum-check identity", "statement": "An assignment satisfies the instance iff for every tau the sum over all rows of eq(tau,x)*(Az(x)*Bz(x)-Cz(x)) is zero; and the matrix evaluation claims of the second sum-check equal the multilinear extension of the matrix applied to z.", "quantifier": "all instances, assignments and points", "why_tests_cant": "all tau in the field", "anchors": ["packages/Spartan-secq/src/r1csinstance.rs: multiply_vec, compute_eval_table_sparse, evaluate", "packages/Spartan-secq/src/r1csproof.rs: prove_phase_one, prove_phase_two"]}
{"id": "C37", "title": "NIZK completeness", "statement": "NIZK::prove on an assignment that satisfies the instance produces a proof that NIZK::verify accepts, for every oracle for which no folding challenge is zero.", "quantifier": "every instance, satisfying assignment, inputs, tape, oracle", "why_tests_cant": "unbounded instances, all challenges", "anchors": ["packages/Spartan-secq/src/lib.rs: NIZK::prove, NIZK::verify", "packages/Spartan-secq/src/r1csproof.rs: R1CSProof::prove, verify"]}
{"id": "C38", "title": "NIZK soundness", "statement": "NIZK::verify accepts only if the instance is satisfiable with the given inputs.", "quantifier": "every instance, inputs, and every proof object", "why_tests_cant": "quantifies over adversarial proof objects", "anchors": ["packages/Spartan-secq/src/lib.rs: NIZK::verify", "packages/Spartan-secq/src/nizk/bullet.rs: verify"]}
{"id": "C39", "title": "Verification reports bad proofs as errors", "statement": "NIZK::verify returns Ok or Err, never panics, on any deserialized proof object.", "quantifier": "every proof object", "why_tests_cant": "quantifies over adversarial proof objects", "anchors": ["packages/Spartan-secq/src/lib.rs: NIZK::verify", "packages/Spartan-secq/src/nizk/mod.rs: DotProductProofLog::verify", "packages/Spartan-secq/src/sumcheck.rs: verify"]}
{"id": "C40", "title": "The verifier's challenges depend on the whole statement", "statement": "Before the first challenge is drawn the verifier has absorbed the instance digest, the public inputs and the commitment to the variables; the absorbed sequence determines them uniquely.", "quantifier": "every pair of runs", "why_tests_cant": "a statement about pairs of runs", "anchors": ["packages/Spartan-secq/src/lib.rs: NIZK::verify", "packages/Spartan-secq/src/r1csproof.rs: R1CSProof::verify", "packages/Spartan-secq/src/transcript.rs: AppendToTranscript"]}
{"id": "C41", "title": "Proofs are not malleable", "statement": "No proof object different from an accepted one, obtained without re-proving, is accepted for the same statement.", "quantifier": "every accepted proof object and every modification", "why_tests_cant": "quantifies over adversarial proof objects", "anchors": ["packages/Spartan-secq/src/sumcheck.rs: ZKSumcheckInstanceProof::verify", "packages/Spartan-secq/src/scalar/scalar.rs: visit_seq"]}
{"id": "C42", "title": "Product circuits compute products", "statement": "ProductCircuit::new(poly).evaluate() is the product of all entries of poly, and DotProductCircuit::evaluate the weighted sum; splitting a dot product circuit preserves the total.", "quantifier": "every table of power-of-two length", "why_tests_cant": "unbounded length", "anchors": ["packages/Spartan-secq/src/product_tree.rs: ProductCircuit::new, compute_layer, evaluate, DotProductCircuit"]}
{"id": "C43", "title": "Product circuit proof completeness", "statement": "An honestly generated ProductCircuitEvalProof (and its batched form) is accepted and reduces the product claim to the evaluation of the input table at the returned point.", "quantifier": "every table length, number of circuits, oracle", "why_tests_cant": "unbounded depth", "anchors": ["packages/Spartan-secq/src/product_tree.rs: ProductCircuitEvalProof::prove, verify, ProductCircuitEvalProofBatched::prove, verify"]}
{"id": "C44", "title": "Offline memory checking", "statement": "For the timestamps computed from any access sequence, the multiset of reads plus final cells equals the multiset of initial cells plus writes, so the products checked by the verifier agree for every hash challenge; conversely, if the multiset equation holds for some claimed read values and timestamps with all counters small, every claimed read value is the memory content.", "quantifier": "every access sequence, memory content and hash challenge", "why_tests_cant": "unbounded sequences", "anchors": ["packages/Spartan-secq/src/sparse_mlpoly.rs: AddrTimestamps::new, build_hash_layer, Layers::new"]}
{"id": "C45", "title": "Sparse matrix evaluation proof completeness", "statement": "SparseMatPolyEvalProof::prove for the true evaluations is accepted by verify; SNARK::prove on a satisfying assignment is accepted by SNARK::verify.", "quantifier": "every instance, assignment, tape and oracle with nonzero folding challenges", "why_tests_cant": "unbounded instances", "anchors": ["packages/Spartan-secq/src/sparse_mlpoly.rs: SparseMatPolyEvalProof::prove, verify", "packages/Spartan-secq/src/lib.rs: SNARK::prove, verify"]}
{"id": "C46", "title": "The Poseidon circuit computes the Rust Poseidon", "statement": "For all inputs, the Poseidon circuit's constraints have exactly one solution and its output is the value of the native hash on the same inputs.", "quantifier": "all pairs of field elements and all witness assignments", "why_tests_cant": "2^512 inputs and arbitrary witnesses", "anchors": ["packages/poseidon/src/lib.rs: Poseidon", "packages/poseidon/src/k256_consts.rs", "packages/circuits/poseidon/poseidon.circom", "packages/circuits/poseidon/poseidon_constants.circom"]}
{"id": "C47", "title": "Hashing does not depend on earlier calls", "statement": "Calling hash repeatedly on a Poseidon object gives for each input the same result as on a fresh object; the exported hash function uses exactly the 192 round constants.", "quantifier": "every sequence of calls", "why_tests_cant": "histories of unbounded length", "anchors": ["packages/poseidon/src/lib.rs: Poseidon::hash", "packages/poseidon/src/poseidon_k256.rs: hash"]}
{"id": "C48", "title": "Merkle inclusion circuit", "statement": "The MerkleTreeInclusionProof constraints are satisfiable exactly when every path index is 0 or 1, and then root is the hash path computed from leaf, siblings and indices.", "quantifier": "every depth, leaf, path, siblings and witness", "why_tests_cant": "unbounded depth, arbitrary witnesses", "anchors": ["packages/circuits/eff_ecdsa_membership/tree.circom: MerkleTreeInclusionProof"]}
{"id": "C49", "title": "Merkle proofs bind the leaf", "statement": "If two different leaves have accepting inclusion proofs of the same depth with the same root and the same path indices, a collision of the two-to-one hash is obtained from them.", "quantifier": "every depth, path and pair of leaves", "why_tests_cant": "quantifies over adversarial paths", "anchors": ["packages/circuits/eff_ecdsa_membership/tree.circom", "packages/lib/src/helpers/tree.ts: Tree"]}
{"id": "C50", "title": "Incomplete addition and doubling circuits", "statement": "On curve points with different x (resp. any affine point) the constraints of Secp256k1AddIncomplete (resp. Secp256k1Double) have exactly one solution and the output is the group sum (resp. double).", "quantifier": "every pair of curve points, every witness", "why_tests_cant": "2^512 inputs, arbitrary witnesses", "anchors": ["packages/circuits/eff_ecdsa_membership/secp256k1/add.circom: Secp256k1AddIncomplete", "packages/circuits/eff_ecdsa_membership/secp256k1/double.circom"]}
{"id": "C51", "title": "Complete addition circuit", "statement": "For all curve points P and Q (with (0,0) standing for infinity) the constraints of Secp256k1AddComplete force the output to be P+Q.", "quantifier": "every pair of points including infinity, equal and opposite points", "why_tests_cant": "exceptional pairs are a negligible fraction of the space", "anchors": ["packages/circuits/eff_ecdsa_membership/secp256k1/add.circom: Secp256k1AddComplete"]}
{"id": "C52", "title": "Scalar recoding circuit", "statement": "The K circuit's output bits are the binary expansion of (s - 2^256) mod q.", "quantifier": "every scalar s below p, every witness", "why_tests_cant": "2^256 scalars", "anchors": ["packages/circuits/eff_ecdsa_membership/secp256k1/mul.circom: K"]}
{"id": "C53", "title": "Scalar multiplication circuit", "statement": "For every curve point P the constraints of Secp256k1Mul force the output to be scalar*P.", "quantifier": "every scalar, point and witness", "why_tests_cant": "2^512 inputs, arbitrary witnesses", "anchors": ["packages/circuits/eff_ecdsa_membership/secp256k1/mul.circom: Secp256k1Mul"]}
{"id": "C54", "title": "Efficient ECDSA circuit", "statement": "The public key output by EfficientECDSA is s*T+U; in particular every satisfying witness for public T, U outputs a point of the coset U + <T>.", "quantifier": "every s, T, U and witness", "why_tests_cant": "arbitrary witnesses", "anchors": ["packages/circuits/eff_ecdsa_membership/eff_ecdsa.circom: EfficientECDSA"]}
{"id": "C55", "title": "Efficient ECDSA is equivalent to ECDSA verification", "statement": "With R the point with x-coordinate r selected by v, T = r^-1 R and U = -(m r^-1) G, the equation Q = s*T+U holds iff s*R = m*G + r*Q, and it implies the ECDSA verification equation for (r mod q, s) and Q when s is nonzero.", "quantifier": "every message, signature and public key", "why_tests_cant": "all group elements and scalars", "anchors": ["packages/lib/src/helpers/publicInputs.ts: computeEffEcdsaPubInput", "packages/circuits/eff_ecdsa_membership/eff_ecdsa.circom"]}
{"id": "C56", "title": "Membership circuits", "statement": "A witness for PubKeyMembership exists for public (root,T,U) iff some point of U+<T> (or the degenerate output) has a hash with an inclusion path to root; an honest signer whose key is in the tree always has a witness.", "quantifier": "every depth, root, T, U, witness", "why_tests_cant": "arbitrary witnesses, unbounded depth", "anchors": ["packages/circuits/eff_ecdsa_membership/pubkey_membership.circom: PubKeyMembership", "packages/circuits/eff_ecdsa_membership/eff_ecdsa.circom"]}
{"id": "C57", "title": "Bit decomposition of coordinates is unique", "statement": "Num2Bits(256) as used for public key coordinates has exactly one solution for each field element.", "quantifier": "every field element and witness", "why_tests_cant": "2^256 values; only values below 2^256-p have a second solution", "anchors": ["packages/circuits/eff_ecdsa_membership/addr_membership.circom", "packages/circuits/eff_ecdsa_membership/eff_ecdsa_to_addr.circom"]}
{"id": "C58", "title": "Address derivation", "statement": "The address output of the address circuits is the low 160 bits of Keccak-256 of the 64-byte big-endian public key.", "quantifier": "every public key and witness", "why_tests_cant": "2^512 inputs, arbitrary witnesses", "anchors": ["packages/circuits/eff_ecdsa_membership/eff_ecdsa_to_addr.circom", "packages/circuits/eff_ecdsa_membership/to_address/zk-identity/eth.circom", "packages/circuits/eff_ecdsa_membership/to_address/vocdoni-keccak/keccak.circom"]}
{"id": "C59", "title": "Reading an R1CS file recovers the constraint system", "statement": "For every constraint system within the format's limits, reading the file that encodes it (sections in any order, with unknown extra sections) returns exactly its header fields, constraints and wire map.", "quantifier": "every constraint system and every section order", "why_tests_cant": "unbounded files", "anchors": ["packages/circuit_reader/src/circom_reader.rs: from_reader, read_header, read_constraints, read_map, load_r1cs_from_bin"]}
{"id": "C60", "title": "Reading a witness file recovers the witness", "statement": "For every witness, reading the .wtns encoding of it returns exactly the witness; malformed headers are rejected.", "quantifier": "every witness length and value", "why_tests_cant": "unbounded files", "anchors": ["packages/spartan_wasm/src/wasm.rs: load_witness_from_bin_reader, read_field"]}
{"id": "C61", "title": "Every field value can be read", "statement": "read_field accepts the 32-byte little-endian encoding of every field element used by circom (values below p) and rejects larger ones.", "quantifier": "every 32-byte string", "why_tests_cant": "the failing values are a 2^-220 fraction", "anchors": ["packages/circuit_reader/src/circom_reader.rs: read_field", "packages/spartan_wasm/src/wasm.rs: read_field", "packages/secq256k1/src/scalar.rs: from_repr"]}
{"id": "C62", "title": "Circuit conversion preserves the statement", "statement": "The Spartan instance produced from a circom circuit is satisfiable with public inputs x iff the circom circuit has a witness with wire 0 equal to 1 and public wires equal to x.", "quantifier": "every circuit and public input", "why_tests_cant": "quantifies over all circuits and witnesses", "anchors": ["packages/circuit_reader/src/lib.rs: convert_to_spartan_r1cs, load_as_spartan_inst", "packages/spartan_wasm/src/wasm.rs: prove, verify"]}
{"id": "C63", "title": "Public inputs reach the verifier with their value", "statement": "The public inputs the TypeScript verifier passes for (root,Tx,Ty,Ux,Uy) are decoded by the wasm verifier as those field elements, for all field elements.", "quantifier": "every 5-tuple of field elements", "why_tests_cant": "2^1280 tuples; palindromic values hide byte-order errors", "anchors": ["packages/lib/src/helpers/publicInputs.ts: CircuitPubInput.serialize", "packages/spartan_wasm/src/wasm.rs: verify", "packages/Spartan-secq/src/lib.rs: Assignment::new"]}
{"id": "C64", "title": "Public input serialization round-trips", "statement": "PublicInput.deserialize(PublicInput.serialize(x)) = x for every r, Tx.. below 2^256, rV below 256 and message hash of any length; bigIntToBytes and bytesToBigInt are inverse on values that fit.", "quantifier": "every public input", "why_tests_cant": "unbounded message length, boundary values", "anchors": ["packages/lib/src/helpers/publicInputs.ts: serialize, deserialize", "packages/lib/src/helpers/utils.ts: bigIntToBytes, bytesToBigInt"]}
{"id": "C65", "title": "Public input verification is exact", "statement": "verifyEffEcdsaPubInput accepts iff T and U are the points computed from r, v and the message hash; together with the verifier's final conjunction, verify returns true only if both the proof check and the public-input check succeed.", "quantifier": "every public input and proof result", "why_tests_cant": "all 2^1000+ inputs", "anchors": ["packages/lib/src/helpers/publicInputs.ts: verifyEffEcdsaPubInput, computeEffEcdsaPubInput", "packages/lib/src/core/verifier.ts: MembershipVerifier.verify"]}
{"id": "C66", "title": "End-to-end: an accepted membership proof shows a signature by a member", "statement": "If the wasm verifier accepts a proof for a converted membership circuit and public inputs (root,T,U), then there is a witness whose public key lies in U+<T> and hashes into root.", "quantifier": "every proof object, circuit, public input", "why_tests_cant": "quantifies over adversarial proofs", "anchors": ["packages/spartan_wasm/src/wasm.rs: verify", "packages/circuit_reader/src/lib.rs: convert_to_spartan_r1cs", "packages/lib/src/core/verifier.ts"]}
{"id": "C67", "title": "PrimeField constants are consistent", "statement": "For each PrimeField implementation, 2^S is the largest power of two dividing the order of the multiplicative group, multiplicative_generator() generates that group and root_of_unity() is a primitive 2^S-th root of unity.", "quantifier": "every field type and, for the generator, every nonzero element", "why_tests_cant": "being a generator quantifies over the whole multiplicative group of about 2^256 elements", "anchors": ["packages/secq256k1/src/field/field_secp.rs: impl PrimeField", "packages/secq256k1/src/field/field_secq.rs: impl PrimeField", "packages/secq256k1/src/scalar.rs: impl PrimeField"]}
{"id": "C68", "title": "Splitting, extending and merging polynomials", "statement": "The value of a merged polynomial at (s, r) is the sum over i of chi_i(s) times the value of the i-th polynomial at r, with zero for the padding; extend and split are the two halves of the first variable; the identity polynomial is the multilinear extension of i -> i.", "quantifier": "any number of polynomials of any number of variables, every evaluation point", "why_tests_cant": "unbounded sizes and all field points", "anchors": ["packages/Spartan-secq/src/dense_mlpoly.rs: merge, extend, split, IdentityPolynomial::evaluate"]}
{"id": "C69", "title": "Browser prover and verifier agree", "statement": "For every circuit, witness file and public input for which the circuit is satisfied, prove returns proof bytes on which verify returns true.", "quantifier": "every circuit, witness, public input and randomness", "why_tests_cant": "all circuits and witnesses, and all random tapes", "anchors": ["packages/spartan_wasm/src/wasm.rs: prove, verify", "packages/circuit_reader/src/lib.rs: convert_to_spartan_r1cs"]}
{"id": "C70", "title": "SNARK soundness", "statement": "SNARK::verify does not accept a proof for an instance that no assignment satisfies, when the proof is made by a program that has only the public data (the instance, its commitment and decommitment, the generators, the public input).", "quantifier": "every instance, public input, transcript, random tape and proof-making program", "why_tests_cant": "quantifies over all proofs and all proof-making programs", "anchors": ["packages/Spartan-secq/src/lib.rs: SNARK::verify", "packages/Spartan-secq/src/sparse_mlpoly.rs: HashLayerProof::verify, verify_helper"]}
{"id": "C71", "title": "Proofs reveal nothing about the witness", "statement": "For two assignments that satisfy the same instance with the same public inputs, NIZK::prove (and SNARK::prove, and prove of the wasm interface) returns each outcome with the same probability over the prover's random scalars, for any fixed hash function and transcript.", "quantifier": "every instance built by Instance::new with at least one constraint, every pair of satisfying assignments with the same inputs, every transcript, hash function and choice of generators whose blinding points generate the group", "why_tests_cant": "a statement about the whole distribution of outcomes over all random tapes, for all pairs of witnesses", "anchors": ["packages/Spartan-secq/src/lib.rs: NIZK::prove, SNARK::prove", "packages/Spartan-secq/src/r1csproof.rs: R1CSProof::prove", "packages/Spartan-secq/src/random.rs: RandomTape", "packages/spartan_wasm/src/wasm.rs: prove"]}
{"id": "C72", "title": "Knowledge soundness of well-shaped proofs", "statement": "When NIZK::verify accepts a proof whose two vectors of folding commitments have equal length (every proof made by NIZK::prove has), and each point of the proof is known as a combination of the commitment generators, then the combination of the variable commitments contains an assignment that satisfies the instance with the given public inputs, or the proof yields a nontrivial linear relation between the generators, or one of the 5k+4j+ceil(j/2)+13 Fiat-Shamir challenges (2^k constraints, 2^j variables) fell into a set of at most six values that was determined before the challenge was derived.", "quantifier": "every instance built by Instance::new, public input, transcript, hash function, generator source, proof bytes and representation of its points", "why_tests_cant": "quantifies over all proofs, including adversarial ones, and all hash functions", "anchors": ["packages/Spartan-secq/src/lib.rs: NIZK::verify", "packages/Spartan-secq/src/r1csproof.rs: R1CSProof::verify", "packages/Spartan-secq/src/sumcheck.rs: ZKSumcheckInstanceProof::verify", "packages/Spartan-secq/src/nizk/mod.rs: *::verify"]}
{"id": "C73", "title": "Serialised proofs, circuits and assignments are read back unchanged", "statement": "Deserialising the bincode bytes of a NIZK, a SNARK, an Instance or an Assignment gives the value that was serialised; in particular every proof NIZK::prove returns for an instance of at most 2^62 variables survives, also when the reader has a 32-bit usize (wasm) and the writer a 64-bit one. Different values have different bytes.", "quantifier": "every proof, instance and assignment whose integers and vector lengths fit in the reader's usize; every proof made by the prover, for every instance, witness, transcript and random tape", "why_tests_cant": "ranges over all values of recursive formats and all proofs", "anchors": ["packages/Spartan-secq/src/lib.rs: NIZK, SNARK, Instance, Assignment (Serialize, Deserialize)", "packages/Spartan-secq/src/scalar/mod.rs", "packages/Spartan-secq/src/group.rs: CompressedGroup", "packages/spartan_wasm/src/wasm.rs: prove, verify"]}
{"id": "C74", "title": "A proof, circuit or public input has only one byte form", "statement": "verify of the wasm interface accepts a proof, circuit file or public input only in the byte form the serialiser produces: bytes that deserialise to a value are the bytes of that value.", "quantifier": "every byte string offered as proof, circuit and public input", "why_tests_cant": "ranges over all byte strings", "anchors": ["packages/spartan_wasm/src/wasm.rs: verify", "packages/Spartan-secq/src/lib.rs: NIZK (Deserialize)", "packages/Spartan-secq/src/scalar/mod.rs"]}
{"id": "C75", "title": "The size of a proof depends only on the circuit's dimensions", "statement": "For an instance with 2^j variables and 2^k constraints (after padding) every vector in a proof made by NIZK::prove has a length given by k and j alone, and the serialised proof has at most 1477 + 73*2^(j/2) + 580k + 540(j+1) + 146(j - j/2) bytes (j/2 rounded down).", "quantifier": "every instance, witness, public input, generators, transcript and random tape for which the prover returns", "why_tests_cant": "a bound for all circuit sizes and all random tapes", "anchors": ["packages/Spartan-secq/src/lib.rs: NIZK::prove", "packages/Spartan-secq/src/r1csproof.rs: R1CSProof::prove", "packages/Spartan-secq/src/sumcheck.rs: ZKSumcheckInstanceProof::prove", "packages/Spartan-secq/src/nizk/bullet.rs: BulletReductionProof::prove"]}
{"id": "C76", "title": "The transcript identifies the circuit's matrices", "statement": "When NIZK::verify accepts for two instances and ends with the same transcript, the two instances have the same matrices and dimensions, the public inputs are the same and so are the commitments to the variables, whichever way the instances were obtained.", "quantifier": "every two instances (built by Instance::new or read from a circuit file), inputs, proofs and starting transcripts", "why_tests_cant": "an injectivity statement over all instances", "anchors": ["packages/Spartan-secq/src/r1csinstance.rs: R1CSInstance::get_digest", "packages/Spartan-secq/src/lib.rs: Instance::new, Instance (Deserialize), NIZK::verify", "packages/spartan_wasm/src/wasm.rs: verify"]}
{"id": "C77", "title": "Poseidon.hash of the library is the hash of the circuits", "statement": "Poseidon.hash([a, b]) returns the Poseidon hash of a and b, the number that the Poseidon circuit computes from the same two signals, and throws when a or b is not a field element or when the number of inputs is not two; Poseidon.hashPubKey of a 64-byte key is the hash of its two coordinates.", "quantifier": "every list of non-negative big integers, every public key", "why_tests_cant": "agreement of three implementations for all inputs; the failing inputs are larger than any test uses", "anchors": ["packages/lib/src/helpers/poseidon.ts: Poseidon.hash, hashPubKey", "packages/spartan_wasm/src/wasm.rs: poseidon", "packages/circuits/poseidon/poseidon.circom: Poseidon"]}
{"id": "C78", "title": "A Tree is the Merkle tree of its leaves", "statement": "After every sequence of insert and delete calls on a new Tree, leaves() are the leaves inserted, with deleted ones 0; insert throws exactly when the tree is full and delete exactly when the index is not that of a leaf; root() is the root of the complete binary tree over the leaves padded with 0, and indexOf is the first position. Equal roots mean equal leaves unless a hash collision is exhibited.", "quantifier": "every depth, every sequence of calls whose inserted leaves are field elements", "why_tests_cant": "all histories; the incremental update has to agree with recomputation after each", "anchors": ["packages/lib/src/helpers/tree.ts: Tree.insert, delete, leaves, root, indexOf"]}
{"id": "C79", "title": "Membership proofs from the library verify and satisfy the circuits", "statement": "For every leaf of a Tree, createProof returns a proof that verifyProof accepts and that satisfies the Merkle inclusion circuit with the tree's root; with it a signer whose key hash is a leaf can satisfy the membership circuit. createProof throws for an index without a leaf.", "quantifier": "every depth, history, index and signature", "why_tests_cant": "all histories and positions; relates TypeScript to circom", "anchors": ["packages/lib/src/helpers/tree.ts: Tree.createProof, verifyProof", "packages/circuits/eff_ecdsa_membership/tree.circom: MerkleTreeInclusionProof", "packages/circuits/eff_ecdsa_membership/pubkey_membership.circom: PubKeyMembership"]}
{"id": "C80", "title": "verifyProof accepts only leaves of the tree", "statement": "When verifyProof returns true for a proof with the root of a Tree, the leaf is the leaf of the tree at the position of the path, unless verification exhibits a hash collision.", "quantifier": "every tree, proof and leaf", "why_tests_cant": "all proofs an adversary may send", "anchors": ["packages/lib/src/helpers/tree.ts: Tree.verifyProof", "packages/lib/src/types/index.ts: MerkleProof"]}
{"id": "C81", "title": "A call that throws leaves the Tree unchanged", "statement": "When insert or delete throws, the tree has the same leaves, root and behaviour as before.", "quantifier": "every tree and call", "why_tests_cant": "all histories; exception safety is invisible to tests that expect only the exception", "anchors": ["packages/lib/src/helpers/tree.ts: Tree.insert, delete", "packages/lib/src/helpers/poseidon.ts: Poseidon.hash"]}
{"id": "C82", "title": "The circuits accept only leaves of the tree", "statement": "A witness of the inclusion circuit for the root of a Tree names a position and its leaf is the leaf at that position (0 if empty), and the key computed in a witness of the membership circuit hashes to such a leaf, unless the path of the witness exhibits a hash collision with the tree.", "quantifier": "every tree, every witness", "why_tests_cant": "all witnesses", "anchors": ["packages/circuits/eff_ecdsa_membership/tree.circom: MerkleTreeInclusionProof", "packages/circuits/eff_ecdsa_membership/pubkey_membership.circom: PubKeyMembership", "packages/lib/src/helpers/tree.ts: Tree.root"]}
{"id": "C83", "title": "Signatures are read as r, s and the recovery id", "statement": "The prover reads a 65-byte signature as r, s and v, where 0 and 1 mean 27 and 28, reads the 64-byte compact form of the same signature (EIP-2098) as the same three numbers, and rejects every other length.", "quantifier": "every signature string", "why_tests_cant": "all byte strings", "anchors": ["packages/lib/src/helpers/utils.ts: fromSig", "packages/lib/src/core/prover.ts: MembershipProver.prove"]}
{"id": "C84", "title": "The prover derives the right statement from a signature", "statement": "For every key Q, message hash and ECDSA signature of it by Q, the prover computes T and U with Q = s T + U, hands them, s and the Merkle proof to the witness generator, and returns a public input that the verifier's check accepts and that survives serialization.", "quantifier": "every key, message hash, signature and Merkle proof", "why_tests_cant": "all group elements; relates the code to the ECDSA equation", "anchors": ["packages/lib/src/core/prover.ts: MembershipProver.prove", "packages/lib/src/helpers/publicInputs.ts: computeEffEcdsaPubInput, verifyEffEcdsaPubInput, PublicInput"]}
{"id": "C85", "title": "A member's proof is accepted", "statement": "For every tree, every leaf that is the hash of a public key and every signature by that key, prove with the tree's Merkle proof returns a proof and a public input, and verify accepts the proof with the serialized public input.", "quantifier": "every tree history, member, message hash, signature, prover randomness", "why_tests_cant": "end-to-end completeness over all inputs and randomness, across TypeScript, circom and Rust", "anchors": ["packages/lib/src/core/prover.ts: MembershipProver.prove", "packages/lib/src/core/verifier.ts: MembershipVerifier.verify", "packages/spartan_wasm/src/wasm.rs: prove, verify", "packages/lib/src/helpers/tree.ts: Tree"]}
{"id": "C86", "title": "Knowledge soundness of SNARK proofs of the right shape", "statement": "If SNARK::verify accepts a proof of the shape SNARK::prove produces, against the commitment made by SNARK::encode for an instance, then the prover knows a satisfying assignment: one can be read off the commitments in the proof, unless the proof exhibits a discrete-logarithm relation between the generators or a Fiat-Shamir challenge fell into a set of bounded size fixed before it was drawn. The fraction of challenge vectors for which a given prover can cheat is bounded explicitly, and SNARK::prove only returns proofs of this shape.", "quantifier": "every instance built by Instance::new with at least one constraint, every proof, input, transcript and algebraic prover strategy", "why_tests_cant": "soundness against all provers; quantifies over all proofs and all challenges", "anchors": ["packages/Spartan-secq/src/lib.rs: SNARK::verify, SNARK::encode, SNARK::prove", "packages/Spartan-secq/src/sparse_mlpoly.rs: SparseMatPolyEvalProof::verify, HashLayerProof::verify, ProductLayerProof::verify", "packages/Spartan-secq/src/product_tree.rs: ProductCircuitEvalProofBatched::verify", "packages/Spartan-secq/src/r1csproof.rs: R1CSProof::verify"]}
{"id": "C87", "title": "Forging a proof takes many hash evaluations", "statement": "With the transcript hash modelled as a random function, a prover who evaluates it q times obtains a proof of the right shape that NIZK::verify accepts, although the prover knows neither a satisfying assignment nor a relation between the generators, with probability at most 6 q / p, where p is the group order; for SNARK::verify the bound is 4 (3 nz + cells) q / p. In particular 2^100 evaluations succeed with probability at most 2^-152.", "quantifier": "every instance built by Instance::new, every adaptive algebraic prover, every number of hash evaluations and every public input the prover may choose", "why_tests_cant": "a bound over all provers and all hash functions", "anchors": ["packages/Spartan-secq/src/lib.rs: NIZK::verify, SNARK::verify", "packages/Spartan-secq/src/transcript.rs: ProofTranscript::challenge_scalar", "packages/Spartan-secq/src/r1csproof.rs: R1CSProof::verify", "packages/Spartan-secq/src/sparse_mlpoly.rs: SparseMatPolyEvalProof::verify"]}
{"id": "C88", "title": "The curve crate's scalar type is the field F_p", "statement": "Values of secq256k1::Scalar behave as residues modulo the group order: +, -, unary - and * agree with arithmetic modulo p and never panic; from_repr accepts exactly the 32-byte big-endian encodings of integers below p and to_repr inverts it; from_uint_reduced reduces every 256-bit integer; try_from accepts exactly the reduced integers; random returns the first canonical block the generator yields; is_odd and is_high agree with the residue; and the remaining methods of the Field, PrimeField and PrimeFieldBits traits (square, invert, sqrt, sums, products, powers, char_le_bits) are the field operations and the modulus.", "quantifier": "every pair of scalars, every byte string, every 256-bit integer, every sequence of random blocks", "why_tests_cant": "2^512 pairs of operands and all byte strings; the crate's own tests only print results", "anchors": ["packages/secq256k1/src/scalar.rs: impl Field/PrimeField/PrimeFieldBits/Mul/Reduce for Scalar", "packages/Spartan-secq/src/scalar/mod.rs: decompress_scalar"]}
{"id": "C89", "title": "Challenges and random scalars are almost uniform", "statement": "The scalar that challenge_scalar (and random_scalar of the prover's tape) makes from 64 hash output bytes, and the one Scalar::random makes from eight words of the generator, is the residue of the 512-bit integer they encode; of the 2^512 possible buffers every scalar is obtained from floor(2^512/p) or one more, so for uniform bytes the probability of any set of scalars differs from the uniform one by less than 2^-256.", "quantifier": "every buffer, every scalar, every set of scalars", "why_tests_cant": "2^512 buffers; a statement about all sets of scalars", "anchors": ["packages/Spartan-secq/src/transcript.rs: ProofTranscript::challenge_scalar", "packages/Spartan-secq/src/random.rs: RandomTape::random_scalar", "packages/Spartan-secq/src/scalar/mod.rs, scalar.rs: Scalar::from_bytes_wide, Scalar::random"]}
{"id": "C90", "title": "The shipped programs run to completion", "statement": "The example program examples/cubic.rs, the profilers (profiler/snark.rs, profiler/nizk.rs) and the benchmark bodies end without a failed unwrap or assertion: whatever scalars are drawn, the example's instance is built, its assignment is (z, z^2, z^3, z^3+z) with public value z^3+z+5 and is accepted by is_sat, and every synthetic instance is produced, encoded, proved and verified, for every power-of-two size from two constraints up and fewer inputs than variables (as long as no folding challenge is zero).", "quantifier": "every drawn scalar, every random tape, every transcript hash without a zero folding challenge, every generator source, every power-of-two size", "why_tests_cant": "each run draws new scalars and one size; the claim is about all of them", "anchors": ["packages/Spartan-secq/examples/cubic.rs: produce_r1cs, main", "packages/Spartan-secq/profiler/snark.rs, profiler/nizk.rs, benches/snark.rs, benches/nizk.rs", "packages/Spartan-secq/src/lib.rs: Instance::produce_synthetic_r1cs, SNARK, NIZK"]}
{"id": "C91", "title": "The constants program prints valid Montgomery constants", "statement": "For every odd 256-bit modulus, src/bin/mont_params.rs prints words of the modulus, of 2^256, 2^512 and 2^768 reduced modulo it, and a word INV with modulus*INV = -1 modulo 2^64; these constants are determined by the modulus, and for the modulus in the source they are the ones in scalar.rs and field_secp.rs. For an even modulus it panics.", "quantifier": "every modulus between 2^255 and 2^256, and every even number", "why_tests_cant": "a run covers a single modulus", "anchors": ["packages/Spartan-secq/src/bin/mont_params.rs: main, get_words", "packages/Spartan-secq/src/scalar/scalar.rs: MODULUS, INV, R, R2, R3"]}
{"id": "C92", "title": "Square roots in the coordinate field of the commitment curve are right", "statement": "sqrt of the coordinate field of secq256k1 never panics, returns a square root for every square (zero included) and None for every non-square; hence a byte string is accepted as a compressed (or identity) point exactly when it is the encoding of a point of the curve, and decodes to that point.", "quantifier": "every field element, every byte string and point", "why_tests_cant": "2^256 field elements; the branches of the constant-time loop depend on a discrete logarithm", "anchors": ["packages/secq256k1/src/field/field_secq.rs: FieldElement::sqrt", "packages/Spartan-secq/src/group.rs: CompressedGroup, DecompressEncodedPoint"]}
{"id": "C93", "title": "Every challenge depends on every byte absorbed before it, with unambiguous framing", "statement": "A challenge scalar is the reduction of 64 bytes of a sponge run on a list of blocks; that list of blocks determines the name of the transcript, the sequence of calls before the challenge, and in them every label, every message byte and every length. Hence two challenges of accepting verifications, of whatever instances, inputs and proofs, use the same hash input only if all scalars, points, counters, digests and labels absorbed before them are the same; no challenge extraction panics. The bounds on forgeries hold for a random function of the hash input.", "quantifier": "every permutation, every sequence of labels, messages and output lengths; every accepting run of the NIZK and SNARK verifiers", "why_tests_cant": "injectivity of the framing over all message sequences and block boundaries", "anchors": ["packages/Spartan-secq/src/transcript.rs: ProofTranscript, AppendToTranscript", "packages/Spartan-secq/src/lib.rs: NIZK::verify, SNARK::verify", "merlin 3.0.0: Transcript, Strobe128"]}
{"id": "C94", "title": "What a proof must look like to be accepted, and where the verifier can still panic", "statement": "A proof that NIZK::verify accepts has the dimensions given by the instance (lengths of both claimed points, rounds and coefficients of both sum-checks, at least the expected number of variable commitments, no fewer right than left folding points) and all points it uses decode. On any proof of these dimensions whose points decode, the verifier can panic only because one of three equality assertions on proof contents fails, never because of an index, a length or a decoding.", "quantifier": "every proof object, every instance built by Instance::new with at least one constraint, its generators, every public input of the right length, every transcript", "why_tests_cant": "quantifies over adversarial proof objects", "anchors": ["packages/Spartan-secq/src/lib.rs: NIZK::verify", "packages/Spartan-secq/src/r1csproof.rs: R1CSProof::verify", "packages/Spartan-secq/src/sumcheck.rs: ZKSumcheckInstanceProof::verify", "packages/Spartan-secq/src/nizk/mod.rs: DotProductProofLog::verify", "packages/Spartan-secq/src/nizk/bullet.rs: BulletReductionProof::verify"]}
{"id": "C95", "title": "Polynomial evaluation proof: knowledge soundness", "statement": "When PolyEvalProof::verify accepts a proof whose two folding vectors have the same length, the value committed to in the proof is the value at the given point of the multilinear polynomial whose evaluations are the committed rows, unless an explicit equation of the run is a nontrivial relation among the generators or one of the Fiat-Shamir challenges fell in a set of at most six values fixed before it was drawn.", "quantifier": "every point, every list of row commitments, every proof object with folding vectors of equal length, every transcript and every way to write the points in terms of the generators", "why_tests_cant": "quantifies over adversarial provers", "anchors": ["packages/Spartan-secq/src/dense_mlpoly.rs: PolyEvalProof::verify", "packages/Spartan-secq/src/nizk/mod.rs: DotProductProofLog::verify", "packages/Spartan-secq/src/nizk/bullet.rs: BulletReductionProof::verify"]}
{"id": "C96", "title": "The Poseidon permutation loses nothing and mixes fully", "statement": "Hashing two different pairs with fresh hasher objects always leaves different states in the objects; the permutation is a bijection of the triples of field elements; any change of the words before the linear layer plus the change after it touches at least four words; two different states differ in the word that is raised to the fifth power in at least one of any three consecutive partial rounds.", "quantifier": "all pairs of field elements, all states, all rounds", "why_tests_cant": "quantifies over all pairs of states of 768 bits", "anchors": ["packages/poseidon/src/lib.rs: Poseidon::hash, full_round, partial_round, matrix_mul", "packages/poseidon/src/k256_consts.rs: MDS_MATRIX, ROUND_CONSTANTS"]}
{"id": "C97", "title": "The Poseidon constants are the output of the generation script", "statement": "Run with the arguments in k256_params.sh, generate_params_poseidon.sage produces exactly the round constants and the matrix in k256_consts.rs. For every modulus, size and generator state, every square part of a matrix that the script's matrix function returns is invertible. The inequalities listed in security_inequalities.sage hold with exact logarithms.", "quantifier": "all runs of the script's matrix function; the one run with the shipped arguments, for every bound on the loops from 2000 on", "why_tests_cant": "the invertibility quantifies over every generator state; floating point cannot settle inequalities between logarithms", "anchors": ["packages/poseidon/sage/generate_params_poseidon.sage: grain_sr_generator, grain_random_bits, init_generator, generate_constants, create_mds_p", "packages/poseidon/sage/security_inequalities.sage", "packages/poseidon/k256_params.sh", "packages/poseidon/src/k256_consts.rs"]}
{"id": "C98", "title": "Hash-to-curve is the standard map and spreads its outputs", "statement": "For every 128-byte string, from_uniform_bytes returns the sum of two points, the images of the residues of its two halves under the simplified SWU map of RFC 9380 followed by the isogeny. Each field element has exactly one image, at most five field elements share an image, the isogeny sends different points to different points, and no point is the result of more than a 2^-253 share of the 128-byte strings.", "quantifier": "every 128-byte string, every field element, every point", "why_tests_cant": "A map that is on the curve for every tested input may still follow a wrong branch for others or send most inputs to few points; the number of inputs behind a point cannot be counted by running the code.", "anchors": ["packages/secq256k1/src/hashtocurve.rs: hash_to_curve, map_to_curve_simple_swu, iso_map", "packages/secq256k1/src/affine.rs: from_uniform_bytes, iso_a, iso_b, iso_z, iso_constants"]}
{"id": "C99", "title": "Proofs are zero-knowledge", "statement": "For every instance, satisfying assignment and sequence of verifier challenges, what NIZK::prove outputs is distributed exactly like the output of a simulator that is given the instance, the public inputs and the challenges but not the assignment; the same for SNARK::prove.", "quantifier": "all instances built by Instance::new with at least one constraint, all satisfying assignments, all derived generators whose blinding points are not the identity, all challenge sequences, all initial transcripts", "why_tests_cant": "zero-knowledge is about the distribution over all random scalars, not about one run", "anchors": ["packages/Spartan-secq/src/lib.rs: NIZK::prove, SNARK::prove", "packages/Spartan-secq/src/r1csproof.rs: R1CSProof::prove", "packages/Spartan-secq/src/sumcheck.rs: ZKSumcheckInstanceProof::prove_cubic_with_additive_term, prove_quad"]}
{"id": "C100", "title": "An address member's proof is accepted", "statement": "For every tree whose leaves are Ethereum addresses, every leaf that is the address of a public key and every signature by that key, prove with the tree's Merkle proof and the address membership circuit returns a proof and a public input, and verify accepts the proof with the serialized public input.", "quantifier": "every tree history, member, message hash, signature, prover randomness", "why_tests_cant": "end-to-end completeness over all inputs and randomness, across TypeScript, circom (including Keccak) and Rust", "anchors": ["packages/benchmark/node/src/node.bench_addr_membership.ts", "packages/circuits/eff_ecdsa_membership/addr_membership.circom: AddrMembership", "packages/lib/src/core/prover.ts: MembershipProver.prove", "packages/lib/src/core/verifier.ts: MembershipVerifier.verify"]}
{"id": "C101", "title": "Size of a SNARK", "statement": "The lengths of all vectors in a proof returned by SNARK::prove depend only on the padded numbers of constraints, variables and matrix entries; its bytes are bounded by a sum of the square roots of the numbers of variables and entries and of squared logarithms of the dimensions, and are read back as the same proof, also where usize has 32 bits.", "quantifier": "all instances built by Instance::new, all assignments, public inputs, generators, transcripts and random tapes for which the prover returns a proof", "why_tests_cant": "a test measures the proofs of some instances and witnesses", "anchors": ["packages/Spartan-secq/src/lib.rs: SNARK::prove", "packages/Spartan-secq/src/sparse_mlpoly.rs: SparseMatPolyEvalProof::prove", "packages/Spartan-secq/src/product_tree.rs: ProductCircuitEvalProofBatched::prove"]}
{"id": "C102", "title": "The circuit tool's output is proved and verified by the wasm module", "statement": "Given the r1cs file of a circuit, the tool writes a circuit file exactly when all wires are declared and all coefficients are field elements, and otherwise panics; the wasm module reads that file as an instance satisfied exactly by the assignments that satisfy the circuit's constraints, and for every witness file that satisfies them and every canonical public input the wasm prover returns a proof that the wasm verifier accepts. The number argument is read as the decimal number it spells.", "quantifier": "all circuits, section orders, numbers of public inputs, witness files, public inputs, labels, randomness", "why_tests_cant": "the tests use a fixed compiled circuit and one witness; the tool itself has no test, and the two machines' integer widths differ", "anchors": ["packages/circuit_reader/src/bin/gen_spartan_inst.rs:main", "packages/circuit_reader/src/lib.rs:load_as_spartan_inst", "packages/spartan_wasm/src/wasm.rs:prove", "packages/spartan_wasm/src/wasm.rs:verify"]}
{"id": "C103", "title": "A circuit compiled for another field is refused", "statement": "The circuit tool refuses an r1cs file whose header names a prime other than the library's scalar field, or whose public wires do not match the number of public inputs given.", "quantifier": "all r1cs files and arguments", "why_tests_cant": "concerns files no test contains", "anchors": ["packages/circuit_reader/src/bin/gen_spartan_inst.rs:main", "packages/circuit_reader/src/circom_reader.rs:read_header"]}
{"id": "C104", "title": "On well-shaped proofs the SNARK verifier panics only at its assertions on values", "statement": "A proof that SNARK::verify accepts, and every proof SNARK::prove returns, has the dimensions that the instance fixes (number of sum-check rounds, layers, coefficients, claims, folding commitments) and only points that decode. On every proof of these dimensions SNARK::verify can panic only where it asserts an equation between values of the proof: no index is out of range, no length assertion fails, no point fails to decode. Replacing the assertions by errors changes nothing else. With at most one entry per matrix no proof is accepted.", "quantifier": "every instance, commitment, public input, transcript and every proof object of the dimensions", "why_tests_cant": "proof objects are unbounded nested vectors; a test tries a few malformed ones", "anchors": ["packages/Spartan-secq/src/lib.rs: SNARK::verify", "packages/Spartan-secq/src/sparse_mlpoly.rs: SparseMatPolyEvalProof::verify, HashLayerProof::verify, ProductLayerProof::verify", "packages/Spartan-secq/src/product_tree.rs: ProductCircuitEvalProofBatched::verify", "packages/Spartan-secq/src/sumcheck.rs: SumcheckInstanceProof::verify"]}
{"id": "C105", "title": "The whole Poseidon script yields the shipped parameters, and its tests mean what they should", "statement": "Run with the arguments in k256_params.sh, generate_params_poseidon.sage chooses eight full and 56 partial rounds, and outputs the round constants and the matrix of k256_consts.rs, which passes the three tests of the script. Every matrix the script ever outputs, for any prime field, size and generator state, has these properties: every square part is invertible; no nonzero vector whose first word stays 0 for i rounds is sent to a multiple of itself by these i rounds, for i below the size, none of these powers of the matrix is a multiple of the identity, and the vectors whose first word stays 0 for i rounds are not sent onto themselves by i or fewer rounds; no proper subspace that contains the first unit vector is mapped into itself by any of the first 4t powers of the matrix.", "quantifier": "the run with the shipped arguments, for every bound on the loops from 2000 on; all primes, sizes and generator states", "why_tests_cant": "the script needs Sage and is not run by any test; the properties of the matrices quantify over all vectors and subspaces", "anchors": ["packages/poseidon/sage/generate_params_poseidon.sage: sat_inequiv_alpha, find_FD_round_numbers, generate_vectorspace, algorithm_1, algorithm_2, algorithm_3, generate_matrix", "packages/poseidon/k256_params.sh", "packages/poseidon/src/k256_consts.rs"]}
{"id": "C106", "title": "The constants of hash-to-curve are what the scripts compute, and meet the standard's criteria", "statement": "For the isogenous curve of affine.rs the script find_z_sswu returns the constant Z of affine.rs: it is no square, not -1, the cubic minus Z is irreducible, and the cubic is a square at B/(ZA), and no candidate tried before it has these four properties. The constants of the square root in field_secq.rs and field_secp.rs are the output of sqrt_ratio_params for the Z of the respective curve.", "quantifier": "the two curves and fields of the code; the third criterion ranges over all factorizations of the cubic, the first and fourth over all field elements", "why_tests_cant": "irreducibility and nonsquareness quantify over all field elements, and the scripts need Sage and are run by no test", "anchors": ["packages/secq256k1/sage/hashtocurve_params.sage: find_z_sswu", "packages/secq256k1/sage/sqrt_ratio_params.sage: sqrt_ratio_params", "packages/secq256k1/src/affine.rs: iso_a, iso_b, iso_z", "packages/secq256k1/src/field/field_secq.rs", "packages/secq256k1/src/field/field_secp.rs"]}
{"id": "C107", "title": "The reference implementations of the map to the curve agree with each other and with the code", "statement": "Over every field, for every curve with nonzero A and Z such that the cubic is a square at B/(ZA), the straight-line implementation and the definition in sswu_generic.sage return the same point for every argument, and the list of exceptional arguments is exactly the zeros of the denominator. For the commitment curve the Rust code returns this point for every field element.", "quantifier": "all fields, curves, root functions and arguments; all field elements for the code", "why_tests_cant": "agreement must hold at every field element, including the exceptional ones no random test meets", "anchors": ["packages/secq256k1/sage/sswu_generic.sage: GenericSSWU", "packages/secq256k1/src/hashtocurve.rs: map_to_curve_simple_swu"]}
{"id": "C108", "title": "Handles to JavaScript objects stay valid until released", "statement": "After every history of additions and releases by the module: a new handle is never one that is held, nor one of the four constants; a held handle yields the object it was given for; the constants keep their values; and the table grows only when every slot is in use.", "quantifier": "all histories of additions, releases and uses of the constants, of any length", "why_tests_cant": "a freed slot is reused in an order that depends on the whole history", "anchors": ["packages/lib/src/wasm/wasm.js: heap, heap_next, getObject, dropObject, takeObject, addHeapObject"]}
{"id": "C109", "title": "The JavaScript glue passes arguments and results unchanged", "statement": "Whatever the sequence of calls and of completed (possibly overlapping) initializations: before the first one a call throws a type error; afterwards prove, verify and poseidon hand the module the argument bytes unchanged and in order and return the bytes or the truth value, or throw the error object, that its function gave, even when the memory grew and earlier views were detached in between; a trap is seen only if the module panicked or its allocator refused. A call that does not trap frees its result, leaves the stack pointer and all other blocks and handles as they were.", "quantifier": "all modules that keep the calling convention, all arguments, all states of memory and table, and all histories within the stack", "why_tests_cant": "memory growth, reuse of handles and the order of initializations depend on the history; tests see one", "anchors": ["packages/lib/src/wasm/wasm.js: prove, verify, poseidon, passArray8ToWasm0, getUint8Memory0, getInt32Memory0, getArrayU8FromWasm0, __wbg_finalize_init", "packages/lib/src/wasm/index.ts: init"]}
{"id": "C110", "title": "A failed call leaves the library as it was", "statement": "After a call of verify that throws, however often this happens, the stack and the memory of the module are as before, so that later calls are unaffected.", "quantifier": "all modules, states and arguments, and any number of failing calls", "why_tests_cant": "the loss per call is small and shows only after many calls", "anchors": ["packages/lib/src/wasm/wasm.js: verify (finally block)", "packages/lib/src/core/verifier.ts: MembershipVerifier.verify (try/catch)", "packages/spartan_wasm/src/wasm.rs: verify"]}
{"id": "C111", "title": "The witness calculator gives the circuit its inputs and returns its witness", "statement": "For every compiled circuit and every input, an object of nested arrays of integers of any sign and size: the circuit receives every value, under the 64-bit FNV-1a hash of its name, with its index in the flattened array, reduced modulo the circuit's prime; the calculator throws exactly when a name is unknown, a number of values is wrong, the circuit refuses a value or inputs are missing; otherwise it returns the circuit's witness, as integers or as little-endian bytes.", "quantifier": "all circuits, inputs, primes and limb counts", "why_tests_cant": "inputs are unbounded integers in arrays of any nesting, and limbs and hex digits have carries and paddings a test rarely meets", "anchors": ["packages/spartan_wasm/test_circuit/test_circuit_js/witness_calculator.js: _doCalculateWitness, calculateWitness, calculateBinWitness, toArray32, fromArray32, flatArray, normalize, fnvHash"]}
{"id": "C112", "title": "Witness files written by the calculator are read back", "statement": "The file calculateWTNSBin writes is a witness file of the iden3 format with the circuit's prime and witness, and the library's reader accepts it and reads that witness.", "quantifier": "all circuits over 256-bit fields and all inputs", "why_tests_cant": "the fields of the file depend on the witness size, and the test has one circuit", "anchors": ["packages/spartan_wasm/test_circuit/test_circuit_js/witness_calculator.js: calculateWTNSBin", "packages/spartan_wasm/src/wasm.rs: load_witness_from_bin_reader"]}
{"id": "C113", "title": "Calls of one witness calculator do not disturb each other", "statement": "Whatever calls are made on one calculator and however they overlap, each returns the witness of its own input.", "quantifier": "all circuits, inputs and schedules of calls", "why_tests_cant": "the outcome depends on the interleaving; tests make one call", "anchors": ["packages/spartan_wasm/test_circuit/test_circuit_js/witness_calculator.js: calculateWitness, calculateBinWitness, calculateWTNSBin (await)"]}
{"id": "C114", "title": "The shipped test circuit is what its source says, and its test cannot fail", "statement": "For the committed files of the test circuit: gen_spartan_inst with the r1cs file and 3 public inputs writes exactly the committed circuit file; the wasm module reads a circuit from it that is satisfied exactly when b_prod = b[0]*b[1] and c = a*b_prod; the committed witness file satisfies it; and prove followed by verify returns true for every randomness and every three canonical public inputs, so in particular the test check_nizk passes.", "quantifier": "all signal values, public inputs, randomness, and challenge functions without a zero folding challenge", "why_tests_cant": "the test runs one random proof with one public input; it does not show that the circuit file means what the source says for other signals, and it passes with public inputs that do not match its witness", "anchors": ["packages/spartan_wasm/test_circuit/test_circuit.circom, test_circuit.r1cs, test_circuit.circuit, witness.wtns", "packages/spartan_wasm/src/wasm.rs: check_nizk, prove, verify", "packages/circuit_reader/src/bin/gen_spartan_inst.rs: main"]}
{"id": "C115", "title": "Overlapping calls do not disturb each other", "statement": "Once an init has completed, a call of verify that overlaps with any other calls of verify, prove and init returns the same as if it ran alone: if the proof, public input and circuit file are not changed during it, the result is that of the synchronous verifier on them, and in every case a true answer means that the checks pass for the contents those arrays had at one moment during the call. Every call ends after a bounded number of its own steps.", "quantifier": "all histories of calls of init, prove and verify, all interleavings of their pieces, all writes by the program to its arrays and files", "why_tests_cant": "the tests await each call before starting the next; interleavings of awaits are not under a test's control", "anchors": ["packages/lib/src/core/verifier.ts: MembershipVerifier.verify", "packages/lib/src/core/prover.ts: MembershipProver.prove", "packages/lib/src/wasm/index.ts: init; packages/lib/src/wasm/wasm.js: init", "packages/lib/src/helpers/utils.ts: loadCircuit"]}
{"id": "C116", "title": "prove works on its arguments as they were at the time of the call", "statement": "The proof and public input that prove returns are those for the signature, message hash and Merkle proof that it was called with, whatever the program and other calls do meanwhile and afterwards.", "quantifier": "all histories of calls, interleavings and writes", "why_tests_cant": "the tests use a fresh message buffer for each proof and never reuse it", "anchors": ["packages/lib/src/core/prover.ts: MembershipProver.prove", "packages/lib/src/helpers/publicInputs.ts: PublicInput", "packages/lib/src/types/index.ts: NIZK"]}
{"id": "C117", "title": "verify answers false only for what is invalid", "statement": "verify returns false only if the public values are not those of the signature or the proof is rejected by the verifier; other failures are reported as errors.", "quantifier": "all histories, circuits, proofs and public inputs", "why_tests_cant": "the tests always initialize the module first, and every kind of failure gives the same false", "anchors": ["packages/lib/src/core/verifier.ts: MembershipVerifier.verify", "packages/lib/src/wasm/index.ts: init; packages/lib/src/wasm/wasm.js: init"]}
{"id": "C118", "title": "Commitment generators are the standard ones for their label", "statement": "For every size and label, creating commitment generators does not fail and returns, in order, the points obtained from the output stream of SHAKE256 on the label and the encoded base point: each the sum of the simplified-SWU images of two consecutive pieces of 64 bytes; the blinding generator is the next one. They depend on nothing else.", "quantifier": "all sizes and labels", "why_tests_cant": "a test compares a few generators with values from the same code; wrong handling of long labels, block boundaries of the hash or later generators stays invisible", "anchors": ["packages/Spartan-secq/src/commitments.rs: MultiCommitGens::new", "packages/secq256k1/src/affine.rs: AffinePoint::from_uniform_bytes, generator, compress"]}
{"id": "C119", "title": "Challenges are those of STROBE-128 over Keccak-f[1600]", "statement": "Every challenge that the prover and the verifier derive is the reduction of 64 bytes of the sponge with the permutation Keccak-f[1600] of FIPS 202, started from the STROBE-128 state and run on blocks that determine all messages before it.", "quantifier": "all transcripts, and all accepting runs of NIZK::verify and SNARK::verify", "why_tests_cant": "tests only see that prover and verifier agree, which they also do with a broken hash", "anchors": ["packages/Spartan-secq/src/transcript.rs: ProofTranscript", "packages/Spartan-secq/src/lib.rs: NIZK::verify, SNARK::verify"]}
{"id": "C120", "title": "Commitments do not depend on the threads", "statement": "Built with several threads, committing to a polynomial returns the commitment of the single-threaded build, or panics when that does, for every way the work is split and the threads are scheduled; it never deadlocks or runs forever and never returns memory that was not written.", "quantifier": "all polynomials, blinds and generators, all splits and all interleavings of the threads", "why_tests_cant": "a test sees the schedules of one machine", "anchors": ["packages/Spartan-secq/src/dense_mlpoly.rs: DensePolynomial::commit_inner"]}
{"id": "C121", "title": "Point arithmetic is the group law", "statement": "Adding, subtracting, negating, doubling, summing and multiplying curve points by scalars returns, for all points including equal ones, opposite ones and the identity, the point that the group law of y^2 = x^3 + 7 prescribes, and two results compare equal exactly when they are the same point. The identity and the generator are what their names say.", "quantifier": "all points, all scalars, lists of points of any length", "why_tests_cant": "there are about 2^256 points, and the exceptional pairs that break incomplete formulas are a vanishing share", "anchors": ["packages/secq256k1/src/affine.rs: AffinePoint", "packages/Spartan-secq/src/group.rs: GroupElement"]}
{"id": "C122", "title": "Multi-scalar multiplication is the sum of the multiples", "statement": "GroupElement::vartime_multiscalar_mul returns the sum of the scalar multiples of the points for any number of pairs, in debug and in release builds; surplus points are ignored and missing points panic.", "quantifier": "lists of scalars and points of any length, both build profiles", "why_tests_cant": "the algorithm and the window change with the number of pairs, and each has its own treatment of digits, carries and the top window", "anchors": ["packages/Spartan-secq/src/group.rs: vartime_multiscalar_mul"]}
{"id": "C123", "title": "Points are encoded and decoded exactly, and decoding never panics", "statement": "AffinePoint::compress writes the compressed SEC1 encoding of its point. decompress never panics, accepts exactly the compressed and the uncompressed encodings of points of the curve, and returns that point; compressing and decompressing are inverse to each other. from_uniform_bytes returns a valid representation of its point for every 128 bytes.", "quantifier": "all points, all byte strings", "why_tests_cant": "most byte strings are not encodings, and a wrongly accepted one leads off the curve", "anchors": ["packages/secq256k1/src/affine.rs: AffinePoint::compress, decompress, from_uniform_bytes"]}
{"id": "C124", "title": "Completeness for a given transcript hash", "statement": "For the fixed hash function of the transcript, whatever it is: an honest prover returns a proof that the verifier accepts unless one of the folding challenges drawn in that very run is zero. More generally what a prover or verifier returns depends on the hash only through the challenges it draws.", "quantifier": "all hash functions, instances, satisfying assignments, public inputs, initial transcripts and random tapes", "why_tests_cant": "a test sees one run; nobody can show for a concrete hash that it never returns zero, so a statement about all its values would say nothing about the deployed program", "anchors": ["packages/Spartan-secq/src/lib.rs: NIZK::prove, NIZK::verify, SNARK::prove, SNARK::verify", "packages/spartan_wasm/src/wasm.rs: prove, verify"]}
{"id": "C125", "title": "The values in memory are the field and the group", "statement": "The scalars and group elements that the library computes with, as limbs and affine points in memory and with the operations of the code, are the field of p elements and the group of secq256k1. Multi-scalar multiplication, inversion, batch inversion, conversion from integers, encodings, generators and challenges are those of the mathematical protocol.", "quantifier": "all scalars, points, lists, byte strings, labels, histories, both build modes", "why_tests_cant": "2^256 values per operand; a carry lost on one of them breaks the identification", "anchors": ["packages/Spartan-secq/src/scalar/scalar.rs: Scalar", "packages/Spartan-secq/src/group.rs: GroupElement, VartimeMultiscalarMul", "packages/Spartan-secq/src/transcript.rs: challenge_scalar", "packages/Spartan-secq/src/commitments.rs: MultiCommitGens::new"]}
{"id": "C126", "title": "Prove and verify on the data in memory", "statement": "With the limbs, points, generators and challenges that the program really computes, and the bytes it really reads and writes: an honest prover's proof is accepted, for the NIZK, the SNARK and the wasm functions prove and verify, unless a folding challenge of that run is zero.", "quantifier": "all circuits with coefficients below p, satisfying witnesses, public inputs, labels and random tapes; 32- and 64-bit usize", "why_tests_cant": "every layer from limb arithmetic to bincode has to fit for every circuit and witness", "anchors": ["packages/spartan_wasm/src/wasm.rs: prove, verify", "packages/Spartan-secq/src/lib.rs: NIZK, SNARK"]}
{"id": "C127", "title": "The circuits are rank-1 constraint systems", "statement": "The public key membership and address membership templates can be written as rank-1 constraints over numbered wires, with coefficients below p and fewer than 2^26 wires, constraints and terms: the constraints have a solution that begins with given inputs exactly if the template holds of those inputs. So a witness generator exists, and the conversion to a Spartan instance succeeds and fits a 32-bit machine.", "quantifier": "all depths up to 32 and all inputs", "why_tests_cant": "one compiled circuit shows one depth, and no run shows that unsatisfiable inputs have no witness", "anchors": ["packages/circuits/eff_ecdsa_membership/pubkey_membership.circom", "packages/circuits/eff_ecdsa_membership/addr_membership.circom", "packages/circuits/poseidon/poseidon.circom", "packages/circuit_reader/src/lib.rs: convert_to_spartan_r1cs"]}
{"id": "C128", "title": "A member's proof is accepted, on the data in memory", "statement": "Somebody who holds a signature by a key in the tree, or by a key whose address is in the tree, gets a proof from the prover, and the verifier accepts it with the serialized public input, where circuit, witness, scalars, points, generators, transcript and bytes are those of the program.", "quantifier": "all trees of depth at most 32 built by any operations, keys, signatures, message hashes, labels and random tapes; 32- and 64-bit usize", "why_tests_cant": "every layer from the signature over the circuit to the limbs has to fit for every key, tree and message", "anchors": ["packages/lib/src/core/prover.ts: MembershipProver.prove", "packages/lib/src/core/verifier.ts: MembershipVerifier.verify", "packages/spartan_wasm/src/wasm.rs: prove, verify"]}
{"id": "C129", "title": "A proof does not tell the member", "statement": "Two members of a tree who have signatures of the same message with the same nonce point get the same public input, and each proof is as likely for the one as for the other: a bijection of the random scalars the prover draws turns every result for the first into the same result for the second, on the limbs, points, generators, transcript and bytes of the program. The proof system itself is zero-knowledge on these data: what it returns is distributed like the output of a simulator that has no witness.", "quantifier": "all trees, pairs of members, signatures, messages, random tapes, labels; keys and addresses as leaves", "why_tests_cant": "equality of two distributions over 2^256-sized draws", "anchors": ["packages/lib/src/core/prover.ts: MembershipProver.prove", "packages/spartan_wasm/src/wasm.rs: prove", "packages/Spartan-secq/src/lib.rs: NIZK::prove"]}
{"id": "C130", "title": "Forging takes many hash evaluations on the program's own arithmetic", "statement": "The bound of C87 holds of the verifier on the limbs, points and encodings the program computes with: a prover who evaluates the transcript hash at most 2^100 times obtains a proof of the right shape that NIZK::verify accepts, although neither a satisfying assignment nor a relation between the generators can be read off it, for at most a fraction 2^-152 of all hash functions; for SNARK::verify and sizes up to 2^30 the fraction is 2^-119.", "quantifier": "every instance built by Instance::new, every adaptive algebraic prover, every public input, every choice of the point formulas", "why_tests_cant": "a bound over all provers and all hash functions", "anchors": ["packages/Spartan-secq/src/lib.rs: NIZK::verify, SNARK::verify", "packages/Spartan-secq/src/transcript.rs: ProofTranscript::challenge_scalar", "packages/Spartan-secq/src/scalar/scalar.rs: Scalar::from_bytes_wide", "packages/Spartan-secq/src/group.rs: GroupElement"]}
{"id": "C131", "title": "From an r1cs file of the membership circuit to an accepted proof", "statement": "If an r1cs file expresses the public key (address) membership circuit, gen_spartan_inst run with five public inputs on that file writes a circuit file with which a member of a tree, holding a signature by a key (address) in the tree, gets a proof from prove, and verify accepts that proof with the serialized public input, outside the exceptional cases of the circuit, if no folding challenge is zero and all values can be read. Every depth up to 32 has such a file. The proof is made and accepted for all but a fraction 2^-250 of the functions that could stand for the transcript hash.", "quantifier": "every r1cs file for the circuit, witness generator, tree, leaf position, key, signature, message, label and source of randomness", "why_tests_cant": "ranges over all files, trees and signatures; the repository contains no compiled circuit", "anchors": ["packages/circuit_reader/src/bin/gen_spartan_inst.rs", "packages/circuit_reader/src/circom_reader.rs: load_as_spartan_inst, load_r1cs_from_bin_file", "packages/spartan_wasm/src/wasm.rs: prove, verify", "packages/lib/src/core/prover.ts", "packages/lib/src/core/verifier.ts", "packages/circuits/eff_ecdsa_membership/pubkey_membership.circom", "packages/circuits/eff_ecdsa_membership/addr_membership.circom"]}
{"id": "C132", "title": "An honest proof fails for at most a tiny fraction of hash functions", "statement": "For every instance, satisfying assignment and random tape, prove followed by verify succeeds for all but a fraction 2^-250 (NIZK) or 2^-248 (SNARK, for sizes up to 2^58 entries, 2^61 constraints and 2^60 variables) of the functions that could stand for the transcript hash; the only failures are zero folding challenges, of which a NIZK proof has at most 31 and a SNARK proof at most 124, whatever the size of the instance.", "quantifier": "all instances, satisfying assignments, public inputs, labels and random tapes; all hash functions", "why_tests_cant": "the failing hash functions are too rare to meet in a test, and a test fixes one hash function", "anchors": ["packages/Spartan-secq/src/lib.rs: NIZK::prove, NIZK::verify, SNARK::prove, SNARK::verify", "packages/Spartan-secq/src/nizk/bullet.rs: BulletReductionProof::prove, verification_scalars", "packages/Spartan-secq/src/transcript.rs: challenge_scalar"]}
{"id": "C133", "title": "Texts pass between the library and the module unchanged", "statement": "The text of a panic that is printed, the text of an error that is thrown and the strings the module makes are exactly the texts whose UTF-8 the module holds, and bytes that are not UTF-8 are refused with an exception instead of becoming another text; a JavaScript string handed to the module, such as a stack trace, arrives as the UTF-8 of its text (unpaired surrogates replaced), in a block of its own, with its address and length where the module asked for them; no other block, no held object and no stack is changed, and the block of a printed text is released, also when printing throws.", "quantifier": "all strings of code units, all bytes and lengths, all states of memory and object table, with and without realloc and encodeInto", "why_tests_cant": "the strings, the position of the first non-ASCII character and the growth of the memory between two steps are unbounded", "anchors": ["packages/lib/src/wasm/wasm.js: getStringFromWasm0, passStringToWasm0, encodeString, __wbindgen_string_new, __wbg_stack_658279fe44541cf6, __wbg_error_f851667af71bcfc6, __wbindgen_throw"]}
{"id": "C134", "title": "A string's block can be released by the length the module is told", "statement": "After a string has been handed to the module, the address and length given to the module are those of an allocated block, so that the module can release it with them.", "quantifier": "all strings and states of memory", "why_tests_cant": "an allocator that ignores sizes hides the mismatch, and it depends on the characters of the string", "anchors": ["packages/lib/src/wasm/wasm.js: passStringToWasm0"]}
{"id": "C135", "title": "The Poseidon parameters meet the security inequalities up to 147 bits", "statement": "For the width, exponent, prime and numbers of rounds the library uses, the inequalities that security_inequalities.sage checks all hold for every security level up to 147 bits, in particular for the 128 bits the script asks for, and not all of them hold for any higher level.", "quantifier": "all security levels", "why_tests_cant": "the script compares rounded logarithms at one security level", "anchors": ["packages/poseidon/sage/security_inequalities.sage", "packages/poseidon/src/k256_consts.rs: NUM_FULL_ROUNDS, NUM_PARTIAL_ROUNDS"]}
{"id": "C136", "title": "Exceptional signatures are rare", "statement": "For every point T and U the signature circuit, with the values its hints compute, outputs exactly sT+U for all but a fraction of 2^-128 of the scalars s; for every nonce and message all but a fraction of 2^-128 of the keys never meet an exceptional case of the circuit. The multiplication circuit is wrong for at least 2^126 scalars, whatever the point.", "quantifier": "all points T and U, all scalars below the group order, all keys, nonces and messages", "why_tests_cant": "a random test meets an exceptional scalar with probability 2^-128 at most, so tests see neither that there are some nor how many", "anchors": ["packages/circuits/eff_ecdsa_membership/secp256k1/mul.circom: Secp256k1Mul, K", "packages/circuits/eff_ecdsa_membership/secp256k1/add.circom: Secp256k1AddComplete", "packages/circuits/eff_ecdsa_membership/eff_ecdsa.circom: EfficientECDSA"]}
{"id": "C137", "title": "How many values cannot be read", "statement": "Of the field elements exactly 2^32 + 976 make the readers of the circuit and witness files panic; at most a fraction of 2^-220 of the points have such a coordinate, of the message hashes lead to a public point with such a coordinate, whatever r, and of the signatures have such a scalar s.", "quantifier": "all field elements, points, message hashes, scalars and values of r", "why_tests_cant": "random tests never meet these values, which are fewer than one in 2^220", "anchors": ["packages/circuit_reader/src/circom_reader.rs: read_field", "packages/spartan_wasm/src/wasm.rs: load_witness_from_bin_reader", "packages/lib/src/helpers/publicInputs.ts"]}
{"id": "C138", "title": "Exceptional keys of the addition and address circuits are rare", "statement": "For every point Q the complete addition circuit outputs exactly P+Q for all points P but at most five. For all keys but a fraction of 2^-220 the address circuit outputs exactly the Ethereum address, whatever the witness. For all points T and U the circuit that recovers an address outputs exactly the address of sT+U, with the values its hints compute, for all but a fraction of 2^-128 of the scalars s.", "quantifier": "all points, keys, scalars and witnesses", "why_tests_cant": "the failing keys and scalars are fewer than one in 2^128, so tests neither find them nor bound their number", "anchors": ["packages/circuits/eff_ecdsa_membership/secp256k1/add.circom: Secp256k1AddComplete", "packages/circuits/eff_ecdsa_membership/eff_ecdsa_to_addr.circom: EfficientECDSAToAddr", "packages/circuits/eff_ecdsa_membership/to_address"]}
{"id": "C139", "title": "The embedded module is the module that was built", "statement": "The source file that embedWasmBytes.ts writes exports exactly the bytes of the wasm file, so that the library instantiates the module that was built.", "quantifier": "all wasm files and all states of Node's shared buffer", "why_tests_cant": "the script is run on one file; whether bytes outside the file are exported depends on its size and on what else the process has read", "anchors": ["packages/lib/embedWasmBytes.ts: embedWasmBytes", "packages/lib/src/wasm/index.ts: init"]}
{"id": "C140", "title": "The witness generator uses the numbers in its input file", "statement": "generate_witness.js writes the witness file of the circuit for exactly the numbers written in the JSON input file, or ends with an error and writes no file.", "quantifier": "all compiled circuits over 256-bit fields, all JSON input files with numbers as decimal or hexadecimal strings or as JSON numbers, nested in arrays", "why_tests_cant": "inputs in tests are small; whether a number is changed on the way depends on its size and on how it is written", "anchors": ["packages/spartan_wasm/test_circuit/test_circuit_js/generate_witness.js", "packages/spartan_wasm/test_circuit/test_circuit_js/witness_calculator.js: normalize, flatArray"]}
{"id": "C141", "title": "The integer square root helper", "statement": "square_root(n) is the integer part of the square root of n.", "quantifier": "every usize value", "why_tests_cant": "it computes with 53-bit floating-point numbers, and the error first shows at 4503599761588224", "anchors": ["packages/Spartan-secq/src/math.rs: Math::square_root"]}
{"id": "C142", "title": "Private keys of the benchmark programs", "statement": "The benchmark programs make of every name that does not begin with the code unit 0xffff and has one other than 0 among its first 16 code units a private key of 32 bytes, at least 1 and below the order of the curve; two names give the same key exactly when they agree, repeated, in the first 16 code units. The key is the code units of the repeated name, each with its low byte first.", "quantifier": "every non-empty name, of any length, including names whose repetition is cut inside a surrogate pair", "why_tests_cant": "the programs use four names; the keys depend on where the repetition is cut off", "anchors": ["packages/benchmark/node/src/node.bench_pubkey_membership.ts", "packages/benchmark/node/src/node.bench_addr_membership.ts", "packages/benchmark/web/pages/index.tsx"]}
