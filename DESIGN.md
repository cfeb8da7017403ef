# Formal model of spartan-ecdsa: design

This directory holds a Lean 4 model of personaelabs/spartan-ecdsa (sources in `/repo/packages`) and
theorems about it.  `properties.jsonl` lists the properties in English, `MANIFEST.json` maps each
property to theorem names, `seeded/LOG.jsonl` records how the theorems react to wrong programs.

## Approach

* Code is modelled function by function; every definition cites the lines it models.  `&mut` becomes a
  returned value, loops become structural recursion or folds, a Rust `Result` error and a panic are the
  two cases of `Fail` in `Out a = Except Fail a`, so "returns Err" and "panics" are different outcomes.
* Limb arithmetic is modelled on `UInt64` with the same `adc/sbb/mac` chains.
* The protocol layer is modelled over an arbitrary field `F`, an arbitrary `F`-module `G` (the group,
  written additively) and an arbitrary type `P` of compressed points.  `Env.Lawful` says that decompression
  inverts compression.  The concrete secq256k1 group is such a module for `F = ZMod p`: C11 and
  `secqEnv_lawful`; theorems with suffix `_secq` are the instances.
* The Merlin transcript is modelled as the list of labelled messages absorbed so far.  A challenge is
  `hash log` for an arbitrary function `hash`, and drawing it extends the log, as in Merlin.  So every
  theorem holds for every hash function; no theorem assumes a random oracle.  Probabilities appear as counts
  over all challenge vectors (C29, C36, C44, C72) or hash functions (C87, C93), or as bijections of tapes
  (C71).  C93 carries the list of messages to the bytes that Merlin feeds into Keccak.
* The prover's random tape is an arbitrary stream of scalars.
* Circom templates are modelled as relations: the conjunction of the `===`/`<==` constraints over
  existentially quantified signals.  `<--` hints give no constraint, exactly as in circom.  Honest witness
  computation is modelled separately where a property speaks of it.
* A property that is false of the code stays in the list.  Its negation is proved with a witness, and what
  remains true is proved under a name with suffix `_partial`.

## Files

`Verif/Model/*` model definitions, `Verif/Spec/*` small independent specifications, `Verif/Lemmas/*` helper
lemmas, `Verif/Props/*` the property theorems with non-vacuity examples.

## Per-property plan and outcome

| id | property | modelled | proof | outcome |
|----|----------|----------|-------|---------|
| C01 | Scalar arithmetic is arithmetic in F_p | limb code of `scalar.rs` (Model/Limbs) | `adc/sbb/mac` exact on naturals; Montgomery reduction by a chain of round invariants; canonical output from `< 2p` and one conditional subtraction | proved: Limb-level: adc/sbb/mac, Montgomery reduction. |
| C02 | Scalar byte decoding accepts exactly the canonical encodings and round-trips | `from_bytes`, `to_bytes` on limbs | borrow chain = comparison with p; Montgomery reduction of `aR` is `a` | proved |
| C03 | Wide and raw decoding reduce modulo p | `from_bytes_wide`, `from_raw`, `random` | congruences of `d0*R2 + d1*R3` | proved |
| C04 | Exponentiation, inversion and batch inversion are correct | `pow`, `invert`, `batch_invert` on limbs | induction over exponent bits and over the list | proved: num-bigint-dig mod_inverse is a parameter with its specification as hypothesis (satisfied by modInverseRef). |
| C05 | The secq256k1 field types implement the two 256-bit prime fields | both fields of secq256k1 | the generic limb theorems for the second modulus; the addition chain of `invert` has exponent q-2; primality by Pratt certificates checked in the kernel | proved |
| C06 | Scalar serialization round-trips and is injective | serde of `Scalar` | round trip; two byte strings with the same value | partial: Round trip proved. FALSE: deserialisation is not injective, v and v+p decode to the same scalar. |
| C07 | FieldElement serialization round-trips | serde of `FieldElement` | the composed map multiplies by 2^256 | partial: FALSE: the round trip multiplies the element by 2^256; only zero survives (proved for both fields). |
| C08 | Field square roots are only returned for squares | `sqrt` of field_secp | exponent (p+1)/4, Euler criterion | partial: Squares get a root. FALSE for non-squares: sqrt always returns Some (a root of -x). |
| C09 | sqrt_ratio decides squareness and returns the root | `sqrt_ratio` of field_secq | 2-adic loop invariant | partial: Proved for all u != 0. FALSE for u = 0: the flag is false although 0 is a square (the root is right). |
| C10 | Hash-to-curve is total and lands on the curve | SSWU, isogeny, `from_uniform_bytes` | field identities of the map; denominators cannot vanish | proved: SEC1 decoding of an on-curve coordinate pair and the group addition are parameters. |
| C11 | The commitment group is a vector space over the scalar field | affine curves through Mathlib Weierstrass points | order of the generator by kernel computation, counting bound on the group | proved: Group order proved from the Hasse-free bound |E| <= 2|F|+1, a kernel-checked Jacobian ladder certificate and absence of 2-torsion. The formulas of the primeorder crate are the subject of C121. |
| C12 | A malformed compressed point is reported as an error | `unpack`, `decompress` | case analysis | partial: The claim is false: every encoding that does not decode makes unpack panic in the construction of the error (negation proved). What holds: Ok iff the encoding decodes; SEC1 round-trip and canonicity given a correct square root. |
| C13 | Integer helper functions | `math.rs` | arithmetic on Nat | proved: pow2 panics for 64 <= k < 2^32 and wraps beyond, as the property allows; both cases are theorems. |
| C14 | EqPolynomial::evals is the table of eq(r, x) | `EqPolynomial` | induction on the number of variables | proved |
| C15 | Factored evaluation tables | `compute_factored_evals`, `bound` | outer product of the two tables | proved |
| C16 | DensePolynomial evaluation is the multilinear extension | `DensePolynomial` | induction on the number of variables | proved: Evaluating a polynomial after bound_poly_var_top panics unless it is cloned first (boundTop_evaluate_panics); the commuting law is for the clone. |
| C17 | Univariate interpolation and compression | `UniPoly` | polynomial identities | proved |
| C18 | Sparse evaluation agrees with dense evaluation | `SparsePolynomial`, `SparseMatPolynomial` | finite sums | proved |
| C19 | Multi-scalar multiplication pairs every scalar with its point | `vartime_multiscalar_mul` | fold; negation for a longer list of points | partial: Equal lengths give the sum; too few points panics. The claim that every length mismatch is rejected is false: surplus points are ignored (negation proved). |
| C20 | Commitment generators | `MultiCommitGens`, `DotProductProofGens`, `PolyCommitmentGens` | list lemmas; the stream cut into blocks | proved: SHAKE256 and the map to the curve are parameters here; that the map lands on the curve is C10. |
| C21 | Knowledge proof: completeness, special soundness, simulation | `KnowledgeProof` | linear algebra in the module | proved |
| C22 | Equality proof: completeness, special soundness, simulation | `EqualityProof` | linear algebra in the module | proved |
| C23 | Product proof: completeness, special soundness | `ProductProof` | linear algebra in the module | proved |
| C24 | Dot-product proof: completeness, special soundness | `DotProductProof` | linear algebra in the module | proved |
| C25 | Logarithmic dot-product proof: completeness | `BulletReductionProof`, `DotProductProofLog` | induction on log n: the folded generators are the s-vector combination | proved |
| C26 | Logarithmic dot-product proof: the accepted statement is bound by the commitments | same verifier | an explicit forged proof for every pair of commitments | partial: The property is false of the code: a surplus R point replaces Gamma. Negation proved; for folding vectors of equal length, knowledge soundness with at most six unfavourable challenges per round is the partial theorem. |
| C27 | Polynomial evaluation proof: completeness | `PolyEvalProof` | C15 with C25 | proved |
| C28 | Sum-check completeness | `SumcheckInstanceProof` | induction on rounds | proved: Needs 2 and 3 nonzero in the field, which holds for the secp256k1 base field. |
| C29 | Sum-check soundness | same | a wrong claim survives a round only at a root of a nonzero polynomial; counting over all challenge vectors | proved |
| C30 | Zero-knowledge sum-check completeness | `ZKSumcheckInstanceProof` | induction on rounds | proved |
| C31 | Instance construction validates its input | `Instance::new` | case analysis of the conversion | proved |
| C32 | Padding preserves satisfiability | `is_sat`, padding | finite sums | proved |
| C33 | Every valid instance can be proved | `Instance::new`, NIZK | witness for zero constraints | partial: FALSE for num_cons = 0: the instance is padded to one row, prove never returns a proof and verify panics (empty_instance_unusable). Proved for num_cons >= 1. |
| C34 | Assignment validation | `Assignment`, `is_sat`, `NIZK::prove` | case analysis, witness | partial: Assignment::new and is_sat proved. FALSE for NIZK::prove, which does not reject an assignment longer than the instance (nizk_prove_oversized). |
| C35 | Synthetic instances are satisfied by their assignments | `produce_synthetic_r1cs` | row by row | proved |
| C36 | Satisfaction is equivalent to the sum-check identity | R1CS and its extensions | multilinear extension vanishes iff the table vanishes | proved |
| C37 | NIZK completeness | `R1CSProof`, `NIZK` | composition of C21-C30 and C36 | proved |
| C38 | NIZK soundness | `NIZK::verify` | explicit forger; positive part by C72 | partial: FALSE: universal forgery (nizk_unsound). What remains true, for proofs whose folding vectors have equal length, is nizk_sound_independent_partial; see C72. |
| C39 | Verification reports bad proofs as errors | `NIZK::verify` | witnesses | partial: FALSE: panics proved for malformed proofs. nizk_soft and nizk_graceful say where a proof of the expected shape can still panic: at three equality assertions only. |
| C40 | The verifier's challenges depend on the whole statement | transcripts of NIZK and SNARK | unique parsing of the log | proved |
| C41 | Proofs are not malleable | `NIZK::verify` | an added element is ignored | partial: FALSE: any accepted proof stays accepted after appending a round proof (nizk_malleable). |
| C42 | Product circuits compute products | `ProductCircuit`, `DotProductCircuit` | induction on layers | proved: Tables of length one panic (product_circuit_short, dot_circuit_split_short). |
| C43 | Product circuit proof completeness | `ProductCircuitEvalProof(Batched)` | induction on layers | proved |
| C44 | Offline memory checking | timestamps and multiset hashes of `sparse_mlpoly.rs` | invariant on the access sequence; Schwartz-Zippel count | proved: Includes the Schwartz-Zippel count for the product check. |
| C45 | Sparse matrix evaluation proof completeness | `SparseMatPolyEvalProof`, `SNARK` | composition of C27, C43, C44 | partial: Complete for every instance with at least one constraint and a matrix with two entries or more; with at most one entry per matrix the prover panics (snark_prove_one_entry), so the claim as stated is false there. |
| C46 | The Poseidon circuit computes the Rust Poseidon | `poseidon.circom`, Rust Poseidon | round-by-round functional relation; constant tables equal | proved |
| C47 | Hashing does not depend on earlier calls | Rust Poseidon object | state after a call | partial: The claim about reusing an object is false of the code: the round constant position is not reset, so a second call panics (hash_twice_panics). The exported function makes a fresh object for each call and is proved history independent. |
| C48 | Merkle inclusion circuit | `tree.circom` | induction on depth | proved |
| C49 | Merkle proofs bind the leaf | `tree.circom` | induction on depth | proved |
| C50 | Incomplete addition and doubling circuits | `add.circom`, `double.circom` | Mathlib affine group law | proved: Unique solution and equality with the group law, for all curve points. What happens outside the precondition (equal x) is stated by add_incomplete_exceptional. |
| C51 | Complete addition circuit | `add.circom` complete addition | case analysis with witnesses | partial: The claim is false of the code: for P = Q the slope is unconstrained, and pairs with y_P + y_Q = 1 and different x are sent to (0,0). Both failures are proved with witnesses; the equation is proved for all other pairs. |
| C52 | Scalar recoding circuit | `mul.circom` template K | characterisation of all outputs | partial: The claim is false of the code: the constraints allow every 256-bit string for every s (k_outputs). The honest witness generator is proved right for every s outside an explicit window and wrong inside it. |
| C53 | Scalar multiplication circuit | `mul.circom` | chain of multiples below the prime order never meets the exceptional cases | partial: The claim is false of the code. Proved: the output is (2^256+k)P for the recoded k the witness chooses, the honest witness gives s*P, and the failures; C136 counts the scalars of an honest witness that fail. |
| C54 | Efficient ECDSA circuit | `eff_ecdsa.circom` | composition | partial: The first half of the claim is false of the code (eff_ecdsa_ignores_s, eff_ecdsa_not_sound); the coset statement is proved outside the exceptional cases, which C136 counts. |
| C55 | Efficient ECDSA is equivalent to ECDSA verification | efficient ECDSA algebra | module algebra | proved |
| C56 | Membership circuits | `pubkey_membership.circom` | composition | partial: The exact composition is pubkey_membership_iff. The statement with points of the coset holds outside the exceptional cases; membership_off_curve shows it fails in general, membership_ignores_s that the signature scalar is not constrained. |
| C57 | Bit decomposition of coordinates is unique | `Num2Bits(256)` | exact count of solutions | partial: The claim is false of the code: uniqueness holds exactly for values at least 2^256 - p. |
| C58 | Address derivation | keccak and address circuits | bitwise gates refine Boolean functions; the permutation by rounds | partial: The Keccak and address circuits are proved equal to Keccak-256 and the Ethereum address on the bits of the coordinates, for all inputs and witnesses. The claim as a function of the coordinates is false for coordinates below 2^256 - p, where a second bit decomposition is accepted (address_not_unique); it is proved for all others. |
| C59 | Reading an R1CS file recovers the constraint system | `circom_reader.rs` | parser inverts printer, for all section orders | partial: Proved for all section orders and sizes and all coefficients read_field accepts; a file with coefficient 2^240-1 makes the reader panic (r1cs_read_panics). |
| C60 | Reading a witness file recovers the witness | `load_witness_from_bin_reader` | parser inverts printer; inversion of the accepted header | partial: Round trip for readable values; header checks characterised; the size check wraps modulo 2^32 and value 2^240-1 panics, so the full claim is false. |
| C61 | Every field value can be read | `read_field` | byte-level characterisation | partial: Exact behaviour proved; the claim as stated is false in both directions, with witnesses. |
| C62 | Circuit conversion preserves the statement | `convert_to_spartan_r1cs` | homogeneity: the zero assignment satisfies every converted instance | partial: Completeness direction proved; the converse is refuted: the all-zero assignment satisfies every converted instance and the public inputs never occur. |
| C63 | Public inputs reach the verifier with their value | `publicInputs.ts`, `wasm.rs` | byte list lemmas | partial: The claim is false: the library writes big-endian and the wasm verifier reads little-endian. Proved exactly for which values it holds. |
| C64 | Public input serialization round-trips | `utils.ts`, `publicInputs.ts` | byte list lemmas | proved |
| C65 | Public input verification is exact | `verifyEffEcdsaPubInput`, `verify` | case analysis | proved |
| C66 | End-to-end: an accepted membership proof shows a signature by a member | `wasm.rs` verify | C62 with C37 | partial: The full claim is refuted: for every convertible circuit and every public input an accepted proof exists. machine_forgery, member_forgery, member_file_forgery and address_file_forgery show this on the limbs, points and transcript of the program, with a witness file of zeros and the constraints of the membership circuit. What acceptance does imply is wasm_verify_partial. |
| C67 | PrimeField constants are consistent | `PrimeField` constants | powers computed in the kernel | partial: Holds for the base field of secp256k1. False for the base field of secq256k1 (S = 1 with a 64th root of unity; the right S is 6) and for the secq256k1 scalar type (S = 4, generator 7 and the root of unity are all wrong); negations proved. |
| C68 | Splitting, extending and merging polynomials | merge, extend, split, identity polynomials | induction | proved |
| C69 | Browser prover and verifier agree | `wasm.rs` prove, verify | C37 with C62 | proved: wasm_prove_verify_secq: at secq256k1, the actual field and the bincode bytes of circuit and proof. Assumes that the hash never returns zero as folding challenge and that the square root function is correct. |
| C70 | SNARK soundness | `SNARK::verify` | explicit forger | partial: For proofs of the right shape see C86. FALSE: verify_helper loops over the claimed addresses and never checks how many there are. snarkForge, a program that uses public data only, makes an accepted proof for every instance and input; snark_unsound gives an unsatisfiable instance. |
| C71 | Proofs reveal nothing about the witness | provers on a random tape | bijection of tapes carrying each run to a run on the other witness | proved: The random tape is a stream of arbitrary scalars: independence and uniformity of the scalars drawn from RandomTape (STROBE seeded from the OS) is in the trusted base. The hash function is arbitrary. |
| C72 | Knowledge soundness of well-shaped proofs | `NIZK::verify` with arbitrary proofs | round-by-round extraction from accepted equations; counting | proved: Round-by-round knowledge soundness in the algebraic group model: each point comes with a representation in the generators. The hash is arbitrary; nizk_knowledge_error counts the bad challenge vectors for an interactive strategy. Hypothesis numVars <= 2^62 excludes overflow of usize. |
| C73 | Serialised proofs, circuits and assignments are read back unchanged | the bincode formats of all serialised types (`Model/Bincode`), leaves as parameters with laws, instantiated at the scalar field and SEC1 encodings | a format is good when decoding inverts encoding and consumes exactly the encoding; closed under pairs, vectors and structs; sizes of proofs by following the prover | proved: bincode 1.3.3 with its default options (fixed-width little-endian integers) is modelled; its reading is in the trusted base. |
| C74 | A proof, circuit or public input has only one byte form | the same decoders on arbitrary bytes | every decoder only looks at the bytes it consumes; counterexamples | partial: FALSE: trailing bytes are ignored in proof, circuit and public input, the length in front of a scalar may be any number from 32 on, and 32 bytes of any value are a scalar. nizk_bytes_partial: the canonical bytes are as long as the bytes read and are read as the same proof. |
| C75 | The size of a proof depends only on the circuit's dimensions | `NIZK::prove` and the encoders | lengths of all vectors by induction over rounds and folding steps; sum | proved |
| C76 | The transcript identifies the circuit's matrices | `get_digest` as zlib of the bincode bytes; circuit files | injectivity of the format composed with the transcript theorem of C40; counterexample for loaded files | partial: Proved for instances of Instance::new, for a lossless compression. FALSE for circuit files: the digest is read from the file and never recomputed, so two files with different constraint systems can have the same digest. |
| C77 | Poseidon.hash of the library is the hash of the circuits | `poseidon.ts` over the model of the wasm function (`Model/Tree`) | bytes round trip, then the wasm theorem of C46; counterexample by following the writes | partial: Proved for numbers below 2^256. FALSE above: the 33 bytes of x + 2^260 overwrite the next input, which is then written over them, so hash([x + 2^260, b]) = hash([x, b]) (poseidon_truncates). |
| C78 | A Tree is the Merkle tree of its leaves | `tree.ts` and the package it wraps: rows of nodes, zeroes, `insert`, `update` (`Model/Tree`) | invariant: row l holds the subtree values over the leaves; induction over levels for one call, over calls for a history | proved: The npm package @zk-kit/incremental-merkle-tree 1.0.0 is modelled from its published code, which is not in the repository. |
| C79 | Membership proofs from the library verify and satisfy the circuits | `createProof`, `verifyProof`, the inclusion and membership circuits | induction over levels; values as numbers and as field elements related by casts | partial: The last part excludes the exceptional cases of the signature circuit (C52-C54). |
| C80 | verifyProof accepts only leaves of the tree | `verifyProof` on arbitrary proofs | induction over the siblings, exhibiting the collision; counterexamples | partial: Proved for proofs with as many siblings as the tree is deep. FALSE in general: verifyProof does not check the length, so inner nodes and the root are accepted as leaves; and x + 2^260 is accepted for x. |
| C81 | A call that throws leaves the Tree unchanged | methods return the tree also when they throw | case analysis; invariant of a spoilt tree for the counterexample | partial: Proved for leaves that are field elements. FALSE for others: the leaf is stored before the hash throws, and every later insert throws too. |
| C82 | The circuits accept only leaves of the tree | the circuits of C48 and C56 with the root of a `Tree` | descent along the path, exhibiting the collision | proved |
| C83 | Signatures are read as r, s and the recovery id | `fromSig` and the function of the package it calls (`Model/Prover`) | bytes round trip; bit arithmetic for the compact form | partial: FALSE for more than 65 bytes: they are not rejected, all bytes after s are read as v (sig_long). fromRpcSig of @ethereumjs/util 8.0.3 is modelled from its published code, which is not in the repository. |
| C84 | The prover derives the right statement from a signature | the part of `prove` before the witness generator | group algebra: s R = m G + r Q is Q = s T + U; C55 and C64 | partial: Proved for message hashes that are not a multiple of the group order, and signatures whose nonce point has an x-coordinate below the group order. FALSE for the others: with message hash 0 prover and verifier throw although the signature is valid (zero_hash_signature). |
| C85 | A member's proof is accepted | all of `prove` and `verify`, with the witness generator as a parameter | C84, C79, the wasm round trip of C69 at the bytes, and the characterization of `verify`; a concrete instance checked by the kernel | partial: The compiled circuit and its witness generator are not in the repository: that it satisfies the constraints whenever the circuit template holds is a hypothesis; C127 shows that constraints and a generator exist, and C128 is the theorem with those. Excluded: the exceptional cases of the signature circuit (C52-C54; C136: at most a fraction of 2^-128 of the keys), message hashes as in C84, and witness and public values that the wasm module cannot read because their bytes in reverse are not below the modulus (C61, C63). Props/ProverEx meets all hypotheses with a concrete key, signature and tree. |
| C86 | Knowledge soundness of SNARK proofs of the right shape | `SNARK::encode`, `SNARK::verify` and everything below; the relations and the challenge sets are written out in `Spec/SnarkRels`, `Spec/SnarkExtract` | round-by-round: batched product circuits (layered sum-checks), memory checking by hashes of address, value and counter, then the R1CS part of C72 | proved: Round-by-round knowledge soundness in the algebraic group model, as in C72: each point of the proof comes with a representation in the generators and in commitments of the instance. The shape hypothesis cannot be dropped: without it the claim is false (C70). |
| C87 | Forging a proof takes many hash evaluations | `Spec/Oracle`: a prover that asks for hash values adaptively, a finite set of transcripts on which the hash is a uniformly random function to 64-byte strings (or any other values of which at most c give the same challenge) | the bad challenges of C72 and C86 are determined by earlier answers; resampling one answer shows that each evaluation is bad for at most d of |F| functions; union bound | proved: Random-oracle and algebraic group model. Proofs whose folding vectors differ in length (or SNARK proofs of another shape) are excluded: they can be forged (C38, C70). |
| C88 | The curve crate's scalar type is the field F_p | `secq256k1::Scalar` over an external `ScalarCore` (`Model/CoreScalar`) | C01, C02 and C05 for the multiplication through limbs; integer arithmetic; counterexamples for the unimplemented methods | partial: Proved for the operations the library uses. FALSE for the others: square, invert, sqrt, Sum, Product and the inherited pow_vartime panic for every argument (core_unimplemented), and char_le_bits has the bytes of the modulus in the wrong order (core_char_le_bits). ScalarCore of the elliptic-curve crate is external. |
| C89 | Challenges and random scalars are almost uniform | `challenge_scalar` from the 64 buffer bytes (`Model/Challenge`) | byte strings of length n are in bijection with the integers below 256^n; counting a residue class | proved: Whether Merlin and the operating system deliver uniform bytes is outside the model. C87 uses the count: there the hash is a random function to 64-byte strings. |
| C90 | The shipped programs run to completion | the programs, over the models of the library and of `secq256k1::Scalar` (`Model/Programs`) | C88 for the arithmetic of the example, C35 for synthetic instances, then C37 and C45 for instances of any well-formed shape | proved: A zero folding challenge makes the prover panic (C37, C45) and is excluded by hypothesis. Compression of the proof for the size report and criterion are not modelled. |
| C91 | The constants program prints valid Montgomery constants | `mont_params.rs` with the modulus as a parameter (`Model/Programs`) | Bezout for the inverse; words of a number below 2^256; uniqueness of the constants | proved: num-bigint is external: modpow and mod_inverse are taken to be what they document. |
| C92 | Square roots in the coordinate field of the commitment curve are right | `FieldElement::sqrt` of field_secq over a transcription of `k256::Scalar::sqrt` (`Model/SqrtQ`) | the constant-time loop only compares powers of the 64th root of unity, so it is carried over to exponents modulo 64, where it is evaluated on all even exponents; the two decoding theorems of C11 | proved: k256 0.11.6 Scalar::sqrt is transcribed from the published crate (not in the repository). With it the hypothesis SqrtSpec of the concrete protocol theorems is discharged. |
| C93 | Every challenge depends on every byte absorbed before it, with unambiguous framing | merlin 3.0.0 over a permutation parameter (`Model/Merlin`), messages as Merlin calls (`encMsg`) | relation between the sponge state and the list of blocks absorbed; the blocks are parsed back from the end, so the sequence of calls is unique; every accepting verifier run only absorbs messages that can be told apart; C87 along that injection | proved: merlin 3.0.0 is transcribed from the published crate (not in the repository); Keccak-f is a parameter, so nothing is assumed or claimed about it. Lengths are below 2^32 (digest) and counters below 2^64, as on the target machines. |
| C94 | What a proof must look like to be accepted, and where the verifier can still panic | the verifier of C37 and its variant with errors for assertions (`Spec/Soft`) | inversion of an accepting run gives the shape; a no-panic predicate carried through every verifier; both verifiers related step by step | proved: Zero folding challenges are excluded by hypothesis (inverting one panics). softNIZK in Spec/Soft.lean is the verifier with the three assertions turned into errors. |
| C95 | Polynomial evaluation proof: knowledge soundness | `PolyEvalProof::verify` and `DotProductProofLog::verify` as in C26 and C27 | round-by-round theorem of the inner proof with the prover's points as combinations of the generators, then the factored form of the multilinear evaluation | proved: For folding vectors of equal length, as the statement says; C26 shows what happens otherwise. |
| C96 | The Poseidon permutation loses nothing and mixes fully | the Poseidon permutation of C46 with the constants of the file | fifth powers are undone by the inverse exponent; the matrix and the determinants of its parts are evaluated by the kernel; induction over the rounds | proved |
| C97 | The Poseidon constants are the output of the generation script | the Sage script: Grain register, rejection sampling, matrix (`Model/Grain`) | the register as an 80-bit number related to the bit list, then 198 runs of 256 bits evaluated by the kernel; Lagrange interpolation for the matrices | proved: The choice of the numbers of rounds (floating point) and the tests algorithm_1 to algorithm_3 of the script are not modelled; C96 proves the corresponding facts of the matrix directly. |
| C98 | Hash-to-curve is the standard map and spreads its outputs | `map_to_curve_simple_swu`, `iso_map`, `hash_to_curve`, `from_uniform_bytes` with the constants of the code. | The values in the Montgomery code are followed to the field; the sign step is compared with the parity of canonical values. Preimages are counted through the roots of two quadratics; the isogeny is injective because its other preimages would need a square root of 7. | proved: The simplified SWU map is stated as in RFC 9380 in Spec/HashToCurve.lean (candidate abscissae, choice by squareness, sign by parity). The point decoder of the curve library is a parameter, as in C10; an example shows one that meets the assumption. |
| C99 | Proofs are zero-knowledge | Spec/Simulator.lean: the prover's program with the first sum-check tables as an argument (equal to the model's prover by rfl), the environment whose n-th challenge is a given coin, and the simulator | Lemmas/Simulator.lean: the coupling of C71 with the simulator in place of the second prover; the simulator's constant tables are chosen from the coins so that the second sum-check's claim is right for the all-zero assignment | proved: Perfect zero-knowledge of the interactive protocol: a bijection of the prover's random scalars turns each run into a run of an explicit simulator that has the instance, the inputs and the coins but no assignment. nizk_simulated_hash carries this over to the non-interactive proof with any hash function. Unlike C71 this says something about statements with a single witness. |
| C100 | An address member's proof is accepted | the definitions of C58, C79 and C85 composed: library, Merkle tree of addresses, AddrMembership, wasm prover and verifier | the address computed from the canonical bits of the key is the leaf of the library's Merkle proof, so the circuit holds; then as C85 | partial: The compiled circuit and its witness generator are not in the repository: that it satisfies the constraints whenever the circuit template holds is a hypothesis; C127 shows that constraints and a generator exist, and C128 is the theorem with those. Excluded: the exceptional cases of the signature circuit (C52-C54; C136: at most a fraction of 2^-128 of the keys), message hashes as in C84, and witness and public values that the wasm module cannot read because their bytes in reverse are not below the modulus (C61, C63). Props/AddrProverEx meets all hypotheses with a concrete key, its Ethereum address, a signature and a tree. |
| C101 | Size of a SNARK | The model of C45/C86 (SNARK prover) and of C73 (bincode formats) | Lemmas/SnarkSize.lean: lengths of the layers of the product proofs by induction over the layers, of the openings and of the commitment to the looked-up values; then the formats' lengths are added up | proved: All vectors of a SNARK that the prover returns have lengths fixed by the dimensions; the byte bound and the read-back follow. cubic_proof_bytes: for examples/cubic.rs with the encodings of the crate the proof is accepted, has at most 14525 bytes and is read back. |
| C102 | The circuit tool's output is proved and verified by the wasm module | `gen_spartan_inst.rs` (command line, `str::parse`, loading, `bincode::serialize`) on top of the readers, the conversion and the bincode model. | composition of `r1cs_read_partial`, `convert_sat_iff`, the round trip of the instance at 64 and 32 bits and `wasm_prove_verify_secq`; the size hypotheses of these are derived from the sizes of the circuit. | proved: End to end from bytes: the r1cs file, the command line of the tool, the circuit file written on a 64-bit machine, the witness file, the wasm prover and verifier with a 32-bit usize. Limits: coefficients and witness values that read_field accepts (C61), sizes a 32-bit machine can hold (FitsWasm), one constraint at least, no folding challenge zero. gen_forgery: the same circuit file also has accepted proofs for every public input (C66). Files that cannot be created or written are not modelled. |
| C103 | A circuit compiled for another field is refused | as C102. | the output is computed as a function of the number of wires and the constraints; a witness with an arbitrary prime in the header; the refusal by `instance_new_ok_iff`. | partial: False: the prime in the header is read and never compared, and neither are the numbers of public wires: two files with the same wires and constraints give the same circuit file (gen_ignores_header, gen_accepts_foreign). Proved instead: a file with a coefficient that is not below the library's prime is refused. |
| C104 | On well-shaped proofs the SNARK verifier panics only at its assertions on values | SNARK::verify with all its assertions; a variant with errors in place of the assertions on values | relational induction between the two verifiers; a non-panicking calculus over the shape; inversion of acceptance | proved: snark_soft compares SNARK::verify with the variant in Spec/SoftSnark.lean, written out in full, on every input. snark_graceful: that variant never panics on proofs of the shape SnarkShape. snark_accepted_shape and snark_honest_shape: accepted proofs and honest proofs have this shape. snark_panics_on_values: the assertions on values do fire, so a well-shaped wrong proof panics instead of giving an error. Hypothesis: challenges labelled u are not zero. The shape admits fewer than three opened addresses because the code never counts them (C70). |
| C105 | The whole Poseidon script yields the shipped parameters, and its tests mean what they should | sat_inequiv_alpha, find_FD_round_numbers, generate_vectorspace, algorithm_1 to algorithm_3, generate_matrix and the main part of the script | bounds on logarithms by powers; an invariant of the search loops; subspaces as submodules, determinants of the matrix in use by kernel arithmetic | proved: Completes C97: the choice of the numbers of rounds and the three tests on the matrix are modelled too. Logarithms and the factor 1.075 are exact instead of floating point. generateMatrix_secure holds for every prime, size and generator state; k256_matrix_chosen shows that the matrix in use is such a matrix. |
| C106 | The constants of hash-to-curve are what the scripts compute, and meet the standard's criteria | find_z_sswu and sqrt_ratio_params | rejections by roots of the candidate or of the cubic, irreducibility by an inverse of x^m - x modulo the cubic, all checked by the kernel | proved: find_iso (Sage's search for isogenies) is not modelled: the coefficients of the isogenous curves are taken from affine.rs and hashtocurve.rs, and C98 proves that the isogeny of the code maps into the commitment curve. is_square and is_irreducible are Mathlib's predicates. |
| C107 | The reference implementations of the map to the curve agree with each other and with the code | GenericSSWU: constructor, not_straight_line and straight_line, over any field | case split on the exceptional arguments and field identities; the comparison with the code through C98 | proved: The base class GenericMap is not in the repository: inv0 is the inverse with 0 to 0, is_square is IsSquare, sqrt is any function that yields roots of squares, and sgn0 is any function (the parity in the comparison with the code). |
| C108 | Handles to JavaScript objects stay valid until released | the object table: heap, heap_next, getObject, dropObject, takeObject, addHeapObject | invariant over histories: the free slots form a list without repetition, disjoint from the handles held | proved: The module is trusted to release only handles it holds (a history condition); double_release_aliases shows that releasing twice makes two later objects share a handle. |
| C109 | The JavaScript glue passes arguments and results unchanged | memory, views that are detached when the memory grows, stack pointer, prove, verify, poseidon and __wbg_finalize_init | frame rule for the blocks and handles of the caller, then induction over histories of calls and initializations | proved: The compiled module is a parameter with the contract Spec/Glue.lean (allocator, argument and result conventions, stack use); Props/GlueEx.lean has a module that meets it. pass_any_module needs no contract: whatever address the allocator gives, an argument that does not fit there is refused and nothing is written. TextDecoder, imported functions and fetching are not modelled. |
| C110 | A failed call leaves the library as it was | as C109, with a module that panics with part of its stack in use | the finally block adds 16 to whatever stack pointer the trap left; induction over the number of panics | partial: Proved for calls that fail with an error the module returned. False for panics, which is how the library reports malformed proofs and circuits (C39, C61, C94): panics_leak. That a trap leaves the module's stack frame in use is a property of WebAssembly, here a hypothesis on the module. |
| C111 | The witness calculator gives the circuit its inputs and returns its witness | WitnessCalculator and its helpers (flatArray, normalize, toArray32, fromArray32, fnvHash) over a compiled circuit given by its exported functions | digits in base 2^32 and 16, induction over keys, values and limbs, with the list of inputs set so far as ghost state | proved: The compiled circuit is a parameter with the contract Runs of Spec/WitnessCalc.lean; ex_runs and ex_fits are a circuit and inputs that meet it. |
| C112 | Witness files written by the calculator are read back | calculateWTNSBin and load_witness_from_bin_reader | the words written are the encoding of the format; then C60 | partial: The compiled circuit is a parameter with the contract Runs of Spec/WitnessCalc.lean; ex_runs and ex_fits are a circuit and inputs that meet it. Proved for witnesses below 4 GB and values the reader can read (C60, C61). False from 4 GB on: the section length is cut out of its hexadecimal digits at the wrong end (wtnsBin_large). |
| C113 | Calls of one witness calculator do not disturb each other | calls as two steps, before and after the await, in any order | induction over schedules | partial: The compiled circuit is a parameter with the contract Runs of Spec/WitnessCalc.lean; ex_runs and ex_fits are a circuit and inputs that meet it. Proved for calls awaited one after the other. False for overlapping calls: every call goes on only after an await, and then reads the witness of the call started last (overlapping_wrong). |
| C114 | The shipped test circuit is what its source says, and its test cannot fail | the committed r1cs, circuit and witness files as byte lists; the tool, reader, prover and verifier of C59, C60 and C102 | the files are encodings of the spec's formats (kernel computation); then the general theorems of C102 for all assignments, randomness and public inputs | proved: The three committed binary files are in Model/TestCircuit.lean byte for byte. zlib is not modelled: test_circuit_generated holds for every digest function that gives the committed digest on the file's instance. The repository's test uses public inputs that are not those of its witness and still passes, because converted circuits ignore public inputs (C62). |
| C115 | Overlapping calls do not disturb each other | verify, prove and init as sequences of pieces of code between awaits, over a shared heap of byte arrays and a store of circuit files; a history is any interleaving of calls, resumptions and writes | invariant of one call's state along every history; a rank that goes down at each resumption | proved: The functions of the WebAssembly module are pure once it is instantiated, which is C109. verify_one_moment shows what happens when the caller does write to its arrays during a call: the answer is that for the contents at one single moment. |
| C116 | prove works on its arguments as they were at the time of the call | as C115; the result of prove holds a reference to the caller's array | invariant of the call's state along every history; two message hashes that both pass the public check are equal modulo the group order (checked_message) | partial: False in full: the public input that prove returns refers to the caller's msgHash array. If the caller reuses that array, even after prove has returned, the public input no longer passes the checks (prove_message_changed). prove_concurrent_partial proves it for programs that leave the array alone until they serialize. |
| C117 | verify answers false only for what is invalid | as C115; calling a function of a module that is not there throws | case analysis on the synchronous verifier after verify_concurrent; a concrete history for the negation | partial: False in full: before the module is loaded the call of wasm.verify throws, which verify turns into false, so every valid proof is answered by false (verify_too_early). verify_false_partial: after an init, false means that the public values are wrong or the module's verifier did not accept; that includes its panics, which are C39. |
| C118 | Commitment generators are the standard ones for their label | MultiCommitGens::new with the buffer, padding, permutation and reader of the sha3 and keccak crates; FIPS 202 bit by bit in Spec/Keccak and Spec/Shake | the permutation lane by lane, one round at a time; invariant of the buffer; the bytes of the padded message are the bits of the specification; position of the reader; then C98 for each block | proved: sha3 0.8.2, keccak 0.1.4 and the SEC1 decoder of primeorder are not in the repository; they are transcribed. The group law is Mathlib's. multi_commit_gens_source says that the theorems about generators from an arbitrary hash (C20, C71 and others) apply to the real ones. |
| C119 | Challenges are those of STROBE-128 over Keccak-f[1600] | the transcript of C93 with the permutation of the keccak crate on 200 bytes; Keccak-f[1600] from FIPS 202 in Spec/Keccak | equality of the two permutations for every state, then C93 | proved: merlin 3.0.0 and keccak 0.1.4 are not in the repository; they are transcribed, and the transcription reproduces merlin's published test vector (merlin_known_answer, computed by the kernel). Together with C93 no parameter is left between a transcript and its challenges. |
| C120 | Commitments do not depend on the threads | commit_inner with the feature multicore: rayon's recursive splitting, join and collect as steps of any thread in any order | invariant: each part owns its places of the result; frame and progress; a measure that every step lowers | proved: rayon 1.7.0 is not in the repository; splitting, joining, the writes of the parts and the final check are transcribed, memory is sequentially consistent (the parts share none of it). Splits and interleavings are arbitrary. |
| C121 | Point arithmetic is the group law | AffinePoint and GroupElement operations on the limbs of the coordinate field: homogeneous coordinates, complete addition, mixed addition and doubling, inversion back to affine, four-bit windowed multiplication | the straight-line formulas are the closed forms of Renes, Costello and Batina; these are the group law in every case (polynomial identities modulo the curve equation, no two-torsion); the window loop by induction over the digits | proved: primeorder 0.0.1 (a fork) is not in the repository; it is transcribed, with both sets of complete formulas that apply, and every theorem is about both. |
| C122 | Multi-scalar multiplication is the sum of the multiples | vartime_multiscalar_mul down to limbs: Straus and Pippenger with windows of 3 to 8 bits | digit decomposition of the scalars, Horner over the windows; buckets hold the sums of the points with a digit, running sums give their multiples | proved: multiexp 0.2.2 is not in the repository; its choice of algorithm, the algorithms of Straus and of Pippenger and the digit preparation are transcribed, with the thresholds of both build profiles. multiscalar_mul_refines discharges the assumption of the protocol model that the sum is computed. |
| C123 | Points are encoded and decoded exactly, and decoding never panics | compress, decompress and from_uniform_bytes on limbs, for every byte string | canonical representations of field elements; the root with the parity of the tag is unique because no point has y = 0 | proved: primeorder 0.0.1 (a fork) is not in the repository; it is transcribed, with both sets of complete formulas that apply, and every theorem is about both. k256's square root is transcribed (C92). |
| C124 | Completeness for a given transcript hash | provers and verifiers of the NIZK, the SNARK and the wasm interface with two transcript hashes | a simulation between the runs with the two hashes through every prover and verifier function: results agree as long as the hashes agree on the challenges in the transcript; then completeness for the hash whose zero folding challenges are replaced by one | proved: The exception of C37, C44 and C69 (a zero folding challenge makes the prover panic) made explicit for the run in question; the size conditions of the SNARK are those of C44. |
| C125 | The values in memory are the field and the group | Model/Machine: scalars as limbs below the modulus, group elements as affine points, encodings, transcript over Keccak and generator stream, each operation the one of the code | the refinement theorems of C01, C93, C118, C121 to C123 put together: ring and group isomorphisms, and one equality per operation that the protocol uses | proved: mod_inverse of num-bigint-dig is assumed to compute modular inverses (ModInverseSpec); the digest of an instance (zlib) is a parameter. |
| C126 | Prove and verify on the data in memory | the protocol model instantiated with Model/Machine | C124 with the lawfulness proved in C125 | proved: The condition on zero folding challenges is that of C124; the size conditions of the SNARK are those of C44. The digest of an instance (zlib) is a parameter. |
| C127 | The circuits are rank-1 constraint systems | Lemmas/Rank1: relations defined by products of linear forms over outer and internal signals, closed under composition; Lemmas/Templates and TemplatesKeccak: every template of the circuits | induction over the templates with a bound on the number of terms; the internal signals are then numbered, and the coefficients written as the reader hands them over | proved: Depth at most 32, as in the Merkle tree of the library. The system is not the one the circom compiler writes, which is not in the repository: its wires are numbered one, public, private, internal signals, and no simplification is applied. |
| C128 | A member's proof is accepted, on the data in memory | the prover and verifier classes of Model/Prover and Model/Lib, the wasm functions instantiated with Model/Machine, constraints of C127 | C84 gives inputs for which the template holds; C127 gives the instance and the witness; C126 the accepted proof | partial: No assumption on a compiled circuit remains: any system of constraints for the template will do, and C127 shows that one exists together with a witness generator. Excluded as in C85 and C100: the exceptional cases of the signature circuit (C52-C54; C136: at most a fraction of 2^-128 of the keys), message hashes as in C84, witness and public values whose bytes in reverse are not below the modulus (C61, C63), and zero folding challenges (C124). Props/CompileEx meets the hypotheses with a concrete key and signature, except for the bytes of the internal signals. |
| C129 | A proof does not tell the member | the prover class, the wasm functions on Model/Machine, the constraints of C127; Signer: what is known of a member with a signature | C84 for the inputs of both members, which have the same public input; C71 with the group of the program, which every generator but the identity generates | partial: Missing are the exceptional cases of the signature circuit (at most a fraction of 2^-128 of the keys: signer_almost_all, C136) and values that the wasm module cannot read, as in C128, where the prover may fail. The generators for the blinding factors are assumed not to be the identity. The random tape is a stream of arbitrary scalars, as in C71. Props/AnonEx meets the hypotheses with two keys in a tree and signatures of both, except for the bytes of the internal signals and the generators. |
| C130 | Forging takes many hash evaluations on the program's own arithmetic | the field, module, encodings and reduction of challenges of Model/Machine; the statement of C87 | C87 at this field and module, with the count of the byte strings that reduce to one scalar; an honest prover meets all conditions | proved: The hash that gives the 64 bytes of a challenge is a random function, as in C87; provers are algebraic: they say how each point was made. Restricted as in C87 to proofs of the right shape, without which C38 and C70 are false. |
| C131 | From an r1cs file of the membership circuit to an accepted proof | the r1cs reader, the tool that writes the circuit file, the loaders, the prover and verifier of the wasm module and of the library, on the limbs, points and transcript of the program | reading back an encoded file (C61), conversion (C102), C128; for existence the rank-1 systems of C127 with every coefficient and internal signal split in two where the reader would refuse it | partial: membership_file and addr_membership_file give an r1cs file and witness generator for each circuit and depth up to 32, whose values can all be read if those of the inputs can; CircuitFileEx has a signature and trees for which every hypothesis holds. member_almost_all_partial and address_almost_all_partial: the exceptional cases of the signature circuit concern at most a fraction of 2^-128 of the keys (C136). Missing: that values which the wasm module cannot read do not occur (C61, C63), and the file the circom compiler writes is any file with constraints for the circuit, not the compiler's own output, which is not in the repository. |
| C132 | An honest proof fails for at most a tiny fraction of hash functions | the provers and verifiers, with the transcript hash a function to 64 bytes and the reduction to a scalar | a run depends on the hash only through its own challenges (C124), so by compactness it has finitely many transcripts; the position of the i-th folding challenge does not depend on the answer there, so it is zero for a fraction c/|W|; at most 31 folding challenges per inner-product argument | proved: Discharges the condition of C124 that no folding challenge is zero. The hash is drawn uniformly on a finite set of inputs that contains all the run can ask, and is arbitrary elsewhere; the bound holds for every fixed random tape. C131 has the same bound for a member's proof through the library. |
| C133 | Texts pass between the library and the module unchanged | the strings of wasm.js: code units, the ASCII loop, realloc, encodeInto and encode, the fatal decoder with its state machine, and the imports that use them | the decoder accepts exactly UTF-8 by strong induction on the bytes; three bytes per code unit are enough room; the bytes before the first one above 127 survive realloc | proved: TextEncoder and TextDecoder are modelled from the Encoding Standard and proved to be UTF-8 as Lean's standard library defines it (dec_iff, encode_text). The module's allocator is a parameter with the contracts Alloc and ReallocOk; GlueStrEx has a module that meets them. |
| C134 | A string's block can be released by the length the module is told | as C133 | the size that is reserved is computed; characters of two or four bytes leave room | partial: FALSE: the block is reserved with three bytes for every code unit from the first non-ASCII one on and never shrunk. string_block_false: for every string with a non-ASCII character that does not have exactly three bytes in UTF-8, no block with the address and length given to the module is allocated, so releasing it by that length is not what the allocator expects. string_block_partial: right for ASCII strings and for modules without realloc. |
| C135 | The Poseidon parameters meet the security inequalities up to 147 bits | the five lines of security_inequalities.sage as inequalities of real logarithms, with the numbers of rounds of the Rust constants | each inequality is turned into one between powers of integers | proved: The script rounds logarithms to 53 bits, the model uses real logarithms. label3_false: the text printed beside the third line, M(log_a 2 + log_a t), is not what the line computes and does not hold for these parameters. |
| C136 | Exceptional signatures are rare | each exceptional case of the complete additions is a polynomial condition on a point: at most four points have a given ordinate, and at most nine points A have ordinates of A and A+B that sum to one | the accumulated multiples determine all but the last bits of the multiplier, since every point but zero has the order of the group | proved: Counts the exceptional cases left open in C53, C54, C85 and C132: at most 2^127 scalars, and at least 2^126, because of the window in which the recoding of the scalar is wrong. member_almost_all_partial and address_almost_all_partial (C131) use it for the library. |
| C137 | How many values cannot be read | reversing the bytes is a bijection of the 32-byte values, so the unreadable ones are the images of the values not below the modulus | the points are counted by the fibres of the coordinates | proved: Counts the failures of C61 and C63 that C85, C128, C131 and C132 exclude by hypothesis. Not counted: the roots of trees and the point T, which depend on hashes and on the coordinate of the nonce point in ways that have no known distribution. |
| C138 | Exceptional keys of the addition and address circuits are rare | the failures of the complete addition and of the bit decomposition are conditions on single coordinates, counted as in C136 and C137 | the scalars of the address circuit are counted through the points sT+U, of which each scalar gives another | proved: Counts the failures of C51, C57 and C58. address_not_unique (C58) is a key that has two addresses. |
| C139 | The embedded module is the module that was built | the script embedWasmBytes.ts with Node's readFileSync, and a small specification of what the written JavaScript module exports | the printed bytes are read back: each byte by the kernel, the list by splitting at commas | partial: Proved for files of at least 4096 bytes. FALSE for smaller ones: Node puts them into a shared store of 8192 bytes, and the script takes the whole store (wasm.buffer) instead of the part with the file, so the exported array is never the file (embed_small). The behaviour of readFileSync is modelled from Node's published code. That the size of the built module is above the limit is not in the repository. |
| C140 | The witness generator uses the numbers in its input file | generate_witness.js with JSON.parse and BigInt on numbers and strings, on top of the witness calculator of C111 | digits are read back by induction on the number; a rounded number is compared with its multiples of the unit | partial: Proved for files with each name once (last_member_counts: of several values the last counts) whose numbers are strings or JSON numbers of at most 53 significant bits. FALSE for other JSON numbers: JSON.parse rounds them to 53 bits and the program writes the witness of another input without an error (generate_witness_wrong, on {"a": [9007199254740993, [1]]}). Of the 256-bit numbers a field element can be, a fraction of 2^-203 survives (survivors). The restriction is necessary: the witness calculator is given the meant integers if and only if it holds (input_kept_iff). Not modelled: JSON numbers with a fraction or an exponent, files that cannot be read or written. |
| C141 | The integer square root helper | math.rs: square_root with the IEEE rounding of the conversion and of the root, in integer arithmetic | the rounded root reaches the next integer only if the number is within (root + 1) / 2^(52-k) of the next square | partial: Proved below 2^52 + 2^27, and for all squares, hence all powers of four. FALSE from there on: at 2^52 + 2^27 and at 2^64 - 1 the result is one too large (square_root_wrong), so the bound is sharp. It is never more than one too large and never too small (square_root_near). The helper is called only in the crate's tests, for powers of four. |
| C142 | Private keys of the benchmark programs | node.bench_pubkey_membership.ts: padStart and utf16le on code units | the code unit at position i of the repeated name; the first two bytes bound the integer; utf16le is injective | proved: padStart and Buffer.from with utf16le are external and modelled by their specification; deriving the public key is not part of the model. |

## Defects of the code found while proving

Each is a theorem about the model; the property it refutes is in brackets.

* `DotProductProofLog::verify` and hence `NIZK::verify` accept a forged proof for every statement: the
  multi-scalar multiplication pairs scalars and points positionally and ignores surplus points, so a longer
  `R_vec` shifts the commitment out of the sum [C19, C26, C38].
* `convert_to_spartan_r1cs` maps the constant wire to a free variable, so the all-zero assignment satisfies
  every converted circuit, for every public input [C62, C66].
* `SNARK::verify` does not check how many addresses are opened; `snarkForge` makes accepted proofs for every
  instance [C70].  For proofs of the shape the prover produces it is knowledge sound [C86].
* The TypeScript library writes public inputs big-endian, the wasm verifier reads them little-endian [C63].
* The circuits do not constrain the scalar: template `K` has only hints, so membership proofs exist for any
  public key in the tree without a signature [C52-C54, C56].
* Complete addition leaves the slope unconstrained when both points are equal, and sends pairs with
  `y_P + y_Q = 1` to (0,0) [C51]; `Num2Bits(256)` has two solutions for small values, so an address is not unique [C57, C58].
* Malformed proofs and points make the verifier panic instead of returning an error [C12, C39]; accepted
  proofs are malleable [C41]; the second call of `Poseidon::hash` panics [C47]; `Instance::new` with no
  constraints is unusable [C33]; field serialisation does not round trip [C06, C07]; `sqrt` of a non-square
  returns a value [C08]; bytes of proofs and circuits have many forms, and the digest of a circuit file is never
  recomputed [C74, C76]; `Poseidon.hash` of the library drops high bits of its inputs, `Tree.verifyProof` accepts
  inner nodes, and a failed `Tree.insert` leaves the tree unusable [C77, C80, C81]; prover and verifier throw for a valid signature of
  the message hash 0, and signatures with trailing bytes are accepted [C83, C84]; the readers reject valid and accept invalid field elements [C59-C61].
* Operations of `secq256k1::Scalar` that the library does not use panic or are wrong [C67, C88]; `gen_spartan_inst` ignores the
  prime and the public wires of the file [C103]; in `wasm.js` a handle released twice is given to two objects [C108], panics leak
  memory and stack [C110], and a non-ASCII string is handed over with a length that is not that of its block [C134];
  `witness_calculator.js` mixes up overlapping calls and writes wrong section lengths from 4 GB on [C112, C113]; the public input
  `prove` returns shares the caller's message array, and `verify` before loading answers false [C116, C117];
  `embedWasmBytes.ts` embeds a shared buffer instead of the file when the file has fewer than 4096 bytes [C139];
  `generate_witness.js` rounds JSON numbers of more than 53 significant bits without a warning [C140]; `square_root` is one too large
  from 2^52 + 2^27 on [C141].
* How often honest users meet the exceptional cases is counted in C136, C137 and C138: at most one in 2^128 for the circuits, one in
  2^220 for the readers.

## Trusted base

* Lean 4.33.0's kernel, and the axioms `propext`, `Classical.choice`, `Quot.sound`; no others are used, which
  `#print axioms` shows for every theorem of the manifest.  `decide +kernel` is used for concrete constants
  (limb constants, primality certificates, round constants); it is checked by the kernel.
* The reading of the Rust, circom and TypeScript sources into the definitions of `Verif/Model`.
* The English of `properties.jsonl` against the theorem statements and `Verif/Spec`.

## What is modelled

| source | model | not modelled |
|--------|-------|--------------|
| Spartan-secq/scalar | Model/Limbs, Model/FieldOps | formatting traits, operator macros, constant-time behaviour |
| Spartan-secq/math.rs, unipoly.rs, dense_mlpoly.rs | Model/Lib, Model/Poly, Model/SquareRoot (f64 rounding in integers), Model/Parallel (rayon 1.7.0, transcribed) | tests |
| Spartan-secq/group.rs, commitments.rs | Model/Group, Model/Base, Model/Gens, Model/Shake (sha3 0.8.2, transcribed), Model/Points (multiexp 0.2.2 and primeorder 0.0.1, transcribed), Model/Machine (all of it put together, on limbs and affine points) | constant-time wrappers of subtle |
| Spartan-secq/nizk | Model/Sigma, Model/Bullet | |
| Spartan-secq/sumcheck.rs | Model/Sumcheck | |
| Spartan-secq/product_tree.rs, sparse_mlpoly.rs | Model/ProductTree, Model/SparseProof | |
| Spartan-secq/r1csinstance.rs, r1csproof.rs, lib.rs | Model/R1CS, Model/SparseProof, Model/Bincode (serde/bincode 1.3.3 formats) | zlib (parameter; injective where C76 says so) |
| Spartan-secq/transcript.rs, random.rs | Model/Base (`Msg`, `Tr`, `Env`, `Tape`), Model/Challenge, Model/Merlin and Model/KeccakF (merlin 3.0.0 and keccak 0.1.4, transcribed) | OS randomness |
| Spartan-secq/timer.rs, errors.rs, bin, benches, profiler, examples | error values; the programs in `Model/Programs` | timing output, proof-size report, criterion |
| secq256k1 | Model/Limbs, Model/FieldOps, Model/Group, Model/CoreScalar, Model/SqrtQ, Model/Points, Model/SageParams, Model/SswuGeneric | ff/group trait plumbing, the isogeny search of the Sage script |
| poseidon | Model/Poseidon, Model/PoseidonConsts, Model/Grain and Model/GrainSelect (generation script), Model/SecurityIneq (script of the inequalities) | in the script: printing, the cases field = 0 and alpha = -1, floating-point rounding |
| circuit_reader (with the tool gen_spartan_inst) | Model/Reader, Model/Lib, Model/GenInst | file system; creating and writing the output file |
| spartan_wasm | Model/Lib; wasm.js: Model/Glue (with the module's calling convention as contract) and Model/GlueStr (strings; TextEncoder and TextDecoder from the Encoding Standard); test_circuit_js/witness_calculator.js: Model/WitnessCalc (the compiled circuit is a parameter); generate_witness.js: Model/GenWitness; test_circuit.r1cs, .circuit and witness.wtns: Model/TestCircuit, byte for byte | the imports of the glue that only fetch JavaScript objects (random source), loading the module |
| benchmark | Model/BenchKeys (the private keys) | the rest: calls of the library and console output |
| circuits | Model/Circuits, Model/Membership, Model/Keccak, Model/AddrMembership, Model/Poseidon | circomlib templates are modelled by their constraints where used |
| lib (TypeScript) | Model/Embed (embedWasmBytes.ts), Model/Lib, Model/Tree (with @zk-kit/incremental-merkle-tree 1.0.0), Model/Prover (with fromRpcSig of @ethereumjs/util 8.0.3), both packages from their published code; awaits and overlapping calls: Model/Async (the module is pure there once instantiated, from C109); elliptic/bn.js read as curve and integer arithmetic | snarkjs and the compiled witness generator (parameter), profiler, fetching the module |

Parameters, with the assumptions theorems make about them stated as hypotheses: the hash behind the transcript
(none; C119 removes the parameter), SHAKE256 output (none; C118 removes it), point compression (`Env.Lawful`), proof encoding (decoding inverts encoding),
num-bigint's modular inverse (`modInverseRef_spec` shows the hypothesis can be met), instance digest (none).

Machine integers: `usize` is unbounded in the protocol layer; theorems that need it carry explicit size bounds
(for example `numVars <= 2^62`), and `pow2`, `log_2` and the file readers are modelled with their overflow
behaviour.

## Testing the theorems against wrong programs

`seeded/LOG.jsonl` has one line per attempt: a definition of the model was edited in a scratch copy the way a
bug would change it, and the project rebuilt.  `failed` names the first theorems that no longer prove (later
modules are not built then); `tightened` names theorems added or strengthened because nothing failed.
