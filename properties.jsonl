{"id": "C01", "title": "Signal addition, subtraction, negation and scaling are exact", "statement": "For circuit numbers a, b and a field constant k, the signals a+b, a-b, -a, a*k, k-a, a+k (and a/k for k != 0) take, under every assignment of the circuit variables, exactly the field value of that expression, and get_value() of the result is the same expression of the operands' values (None if an operand has no value, except that a*0 has the value 0). No constraint or variable is added.", "quantifier": "all pairs of signals (any linear combination), all constants, all assignments, every owned/borrowed operand form", "why_tests_cant": "the merge works on ordered linked lists of arbitrary length; a test exercises a handful of shapes of the two lists", "anchors": ["src/circuit/num.rs: AddAssign, SubAssign, Neg, MulAssign<Num>, DivAssign<Num>, ll_lookup", "src/macros.rs: forward_*"]}
{"id": "C02", "title": "Signals stay in canonical sparse form", "statement": "Every signal obtainable from the API by constants, variables and arithmetic has its linear combination strictly ordered by variable, with no zero coefficient on a non-constant variable; consequently the result of a + b does not depend on operand order.", "quantifier": "all finite expressions built from the signal API, all operand orders", "why_tests_cant": "an invariant over every expression; a violation only shows for rare cancellation patterns", "anchors": ["src/circuit/num.rs: AddAssign, SubAssign, MulAssign, ll_lookup, Index::cmp"]}
{"id": "C03", "title": "as_const recognises exactly the constant signals", "statement": "as_const() returns Some(c) only if the signal equals c under every assignment; and for signals built with the API, if the signal takes one value under all assignments then as_const() returns it.", "quantifier": "all signals reachable through the API, all assignments", "why_tests_cant": "needs all assignments", "anchors": ["src/circuit/num.rs: as_const"]}
{"id": "C04", "title": "Multiplication gadget is sound and complete", "statement": "a*b returns a signal whose value in every satisfying assignment is the product; an honest prover is never rejected; multiplying by a constant signal adds no variable and no constraint, otherwise exactly one of each.", "quantifier": "all operand signals, all assignments satisfying the emitted constraints, all honest witness values", "why_tests_cant": "must hold for every (adversarial) assignment", "anchors": ["src/circuit/num.rs: MulAssign<CNum>"]}
{"id": "C05", "title": "Division gadget computes the quotient", "statement": "a/b returns a signal q with q*b = a in every satisfying assignment (so q = a/b when b != 0), for all operands including constants.", "quantifier": "all operand signals including constant ones, all satisfying assignments", "why_tests_cant": "the constant-operand fast paths are separate code that random tests with allocated inputs never reach", "anchors": ["src/circuit/num.rs: DivAssign<CNum>"]}
{"id": "C06", "title": "assert_zero / assert_const / assert_eq enforce exactly equality", "statement": "The constraints emitted by assert_zero, assert_const and assert_eq (on numbers, booleans, vectors, tuples and derived structs) are satisfied by an assignment iff the compared signals are equal under it; on constants the call panics iff they differ.", "quantifier": "all signals, all assignments", "why_tests_cant": "soundness is a statement about all assignments", "anchors": ["src/circuit/num.rs: assert_zero, assert_const, assert_eq", "src/core/signal.rs", "src/circuit/bool.rs: assert_true, assert_false, c_true, c_false"]}
{"id": "C07", "title": "assert_nonzero enforces exactly non-zeroness", "statement": "The constraints of assert_nonzero can be satisfied (for some value of the helper variable) iff the signal is non-zero; the honest prover succeeds iff the value is non-zero.", "quantifier": "all signals, all assignments and helper values", "why_tests_cant": "adversarial helper values", "anchors": ["src/circuit/num.rs: assert_nonzero"]}
{"id": "C08", "title": "assert_bit enforces exactly booleanity", "statement": "The constraint of assert_bit holds under an assignment iff the signal is 0 or 1.", "quantifier": "all signals, all assignments", "why_tests_cant": "all field elements", "anchors": ["src/circuit/num.rs: assert_bit", "src/circuit/bool.rs: assert"]}
{"id": "C09", "title": "is_zero / is_eq decide equality", "statement": "In every satisfying assignment is_zero() is 1 if the signal is 0 and 0 otherwise; is_eq() on any Signal type is 1 iff all components are equal, else 0; the honest prover is never rejected.", "quantifier": "all signals and signal types, all satisfying assignments including adversarial helper values", "why_tests_cant": "a cheating inverse hint must be excluded for all inputs", "anchors": ["src/circuit/num.rs: is_zero, is_eq", "src/core/signal.rs: is_eq", "fawkes-crypto_derive/src/signal.rs"]}
{"id": "C10", "title": "switch / if_else selects", "statement": "For a boolean-valued condition, t.switch(bit, f) equals t if bit=1 and f if bit=0 in every satisfying assignment, for numbers, booleans, vectors, tuples and derived structs.", "quantifier": "all signals, boolean conditions (constant or not), all satisfying assignments", "why_tests_cant": "capacity-dependent code paths times all assignments", "anchors": ["src/circuit/num.rs: switch", "src/circuit/bool.rs: if_else", "src/core/signal.rs: switch"]}
{"id": "C11", "title": "TestCS acceptance means satisfaction", "statement": "If circuit building on the test constraint system with all values present does not panic, the recorded variable values satisfy every enforced constraint (as linear combinations); an enforce call on a violated triple panics.", "quantifier": "all sequences of circuit-building operations", "why_tests_cant": "histories of arbitrary length", "anchors": ["src/core/cs.rs: TestCS"]}
{"id": "C12", "title": "Circuit structure does not depend on witness values", "statement": "Running a gadget with values and without values (trusted setup vs proving) produces the same variables and the same constraint matrices, so keys from generate_keys fit proofs from prove; whenever proving gets through so does setup, except that setup panics on a decomposition wider than NUM_BITS.", "quantifier": "all gadgets, all witness values, all inputs", "why_tests_cant": "all witness values", "anchors": ["src/helpers/groth16/prover.rs: generate_keys, prove", "src/circuit/*"]}
{"id": "C13", "title": "Variable allocation never reuses an index", "statement": "Every alloc/alloc_input returns a variable distinct from the constant-one variable and from all earlier ones, on every back end.", "quantifier": "all allocation histories", "why_tests_cant": "histories of arbitrary length", "anchors": ["src/core/cs.rs: alloc, alloc_input", "src/helpers/groth16/mod.rs: Groth16CS"]}
{"id": "C14", "title": "Bit decomposition is sound and complete", "statement": "c_into_bits_le(x, n) (n>=1): in every satisfying assignment the n outputs are bits and sum to x in the field; if 2^n <= p they are the unique low bits of the integer x and x < 2^n; the honest prover succeeds iff x < 2^n (constants: panics iff not).", "quantifier": "all signals, all widths n, all primes, all satisfying assignments", "why_tests_cant": "adversarial alternative decompositions", "anchors": ["src/circuit/bitify.rs: c_into_bits_le"]}
{"id": "C15", "title": "Comparison with a constant is exact", "statement": "c_comp_constant(bits, c) is 1 iff the integer spelled by the bits is greater than c, else 0, whenever c fits in the compared width and 2^(ceil(n/2)+1) <= p.", "quantifier": "all bit vectors of every length, all constants, all satisfying assignments", "why_tests_cant": "all lengths and all constants", "anchors": ["src/circuit/bitify.rs: c_comp_constant"]}
{"id": "C16", "title": "Strict bit decomposition is canonical", "statement": "c_into_bits_le_strict(x) yields in every satisfying assignment exactly the binary digits of the canonical integer of x (no alias x+p), and the honest prover always succeeds.", "quantifier": "all field elements, all satisfying assignments", "why_tests_cant": "the alias x+p only exists for a sliver of field elements", "anchors": ["src/circuit/bitify.rs: c_into_bits_le_strict"]}
{"id": "C17", "title": "Bit recomposition is exact and inverse to decomposition", "statement": "c_from_bits_le(bits) is the sum of 2^i*bit_i for every assignment; composing it with either decomposition returns the original value.", "quantifier": "all bit vectors, all assignments", "why_tests_cant": "all lengths", "anchors": ["src/circuit/bitify.rs: c_from_bits_le"]}
{"id": "C18", "title": "c_mux3 selects the addressed table entry", "statement": "For boolean s0,s1,s2 each output column equals c[s0+2*s1+4*s2] in every satisfying assignment; wrong argument shapes panic.", "quantifier": "all tables, any number of columns, all boolean selectors", "why_tests_cant": "all tables", "anchors": ["src/circuit/mux.rs: c_mux3"]}
{"id": "C19", "title": "Poseidon gadget equals native Poseidon", "statement": "In every satisfying assignment c_poseidon(inputs) equals poseidon(values of inputs) for every parameter set; honest prover never rejected; both panic on the same arities.", "quantifier": "all parameter sets (t,f,p,c,m), all inputs and arities, all satisfying assignments", "why_tests_cant": "all inputs", "anchors": ["src/native/poseidon.rs: poseidon", "src/circuit/poseidon.rs: c_poseidon"]}
{"id": "C20", "title": "Salted Poseidon gadget equals native", "statement": "c_poseidon_with_salt equals poseidon_with_salt, which equals poseidon with the seed element appended; arity must leave room for the salt.", "quantifier": "all inputs, seeds, parameter sets", "why_tests_cant": "all inputs", "anchors": ["src/native/poseidon.rs: poseidon_with_salt", "src/circuit/poseidon.rs: c_poseidon_with_salt"]}
{"id": "C21", "title": "Merkle proof gadget equals native", "statement": "If the path signals are boolean, c_poseidon_merkle_proof_root equals poseidon_merkle_proof_root on the values, in every satisfying assignment, for every depth. (Allocating a CBool does not itself constrain it to a bit.)", "quantifier": "all depths, leaves, siblings, paths, satisfying assignments", "why_tests_cant": "all depths and adversarial paths", "anchors": ["src/native/poseidon.rs: poseidon_merkle_proof_root", "src/circuit/poseidon.rs: c_poseidon_merkle_proof_root"]}
{"id": "C22", "title": "Merkle tree root gadget equals native", "statement": "c_poseidon_merkle_tree_root equals poseidon_merkle_tree_root for every number of leaves.", "quantifier": "all leaf counts >= 1", "why_tests_cant": "all leaf counts", "anchors": ["src/native/poseidon.rs: poseidon_merkle_tree_root", "src/circuit/poseidon.rs: c_poseidon_merkle_tree_root"]}
{"id": "C23", "title": "Merkle proofs verify against the tree root", "statement": "poseidon_merkle_tree_root(leaves) is the root of the perfect binary tree over the leaves padded with zeros to the next power of two, and for every position i the proof (siblings on the path from leaf i, direction bits = binary digits of i) satisfies poseidon_merkle_proof_root(leaf_i, proof) = root.", "quantifier": "all leaf lists of every length, all positions", "why_tests_cant": "in-place loop over all sizes", "anchors": ["src/native/poseidon.rs: poseidon_merkle_tree_root, poseidon_merkle_proof_root"]}
{"id": "C24", "title": "Poseidon input-length behaviour", "statement": "poseidon panics iff the number of inputs is 0 or more than t; inputs shorter than t hash identically to the same inputs followed by zeros (no length separation).", "quantifier": "all inputs, all parameters", "why_tests_cant": "all inputs", "anchors": ["src/native/poseidon.rs: poseidon"]}
{"id": "C25", "title": "Projective point addition implements the Edwards law completely", "statement": "For valid extended points, add and double give valid extended points (Z != 0, ZT=XY, on curve) whose affine form is the twisted Edwards sum; no exceptional inputs.", "quantifier": "all curve points, all representatives, all parameters with d non-square and -1 square", "why_tests_cant": "no exceptional pair can be sampled", "anchors": ["src/native/ecc.rs: EdwardsPointEx::add, double, into_affine, is_in_curve"]}
{"id": "C26", "title": "Curve points form a commutative group", "statement": "add on curve points is associative and commutative, zero() is neutral, negate is inverse.", "quantifier": "all triples of curve points", "why_tests_cant": "all triples", "anchors": ["src/native/ecc.rs: EdwardsPoint::add, zero, EdwardsPointEx::negate"]}
{"id": "C27", "title": "double, mul_by_cofactor are multiples", "statement": "double(P)=P+P, mul_by_cofactor(P)=8P (so equals mul by 8).", "quantifier": "all curve points", "why_tests_cant": "all points", "anchors": ["src/native/ecc.rs: double, mul_by_cofactor"]}
{"id": "C28", "title": "Scalar multiplication is repeated addition", "statement": "mul(P,k) = P added k times for the canonical integer k, hence mul(P,a)+mul(P,b)=mul(P,a+b) for points in the subgroup, mul(mul(P,a),b)=mul(P,a*b).", "quantifier": "all scalars, all curve points", "why_tests_cant": "all scalars", "anchors": ["src/native/ecc.rs: mul, mul_raw"]}
{"id": "C29", "title": "Edwards/Montgomery conversions are inverse bijections", "statement": "into_montgomery returns None exactly for the zero point, otherwise a point on the Montgomery curve, and converting back returns the same point; into_affine on Montgomery curve points never panics.", "quantifier": "all curve points", "why_tests_cant": "all points incl. torsion", "anchors": ["src/native/ecc.rs: into_montgomery, MontgomeryPoint::into_affine"]}
{"id": "C30", "title": "get_for_y returns a point with the requested y and sign", "statement": "get_for_y(y,sign) is Some iff a curve point with ordinate y exists; the point is on the curve, has that y, and (x=0 or) the parity of x equals sign.", "quantifier": "all y, both signs", "why_tests_cant": "all y", "anchors": ["src/native/ecc.rs: get_for_y"]}
{"id": "C31", "title": "Native subgroup_decompress is correct", "statement": "subgroup_decompress(x) = Some(P) iff some point with abscissa x is in the order-l subgroup; P is then the unique such point; never panics.", "quantifier": "all field elements x", "why_tests_cant": "all x, both choices of square root", "anchors": ["src/native/ecc.rs: EdwardsPoint::subgroup_decompress"]}
{"id": "C32", "title": "from_scalar is total and lands in the subgroup", "statement": "For t != -1 from_scalar never panics and returns a curve point that is a cofactor multiple (hence in the prime order subgroup); for t = -1 it panics.", "quantifier": "all t", "why_tests_cant": "all t (square/non-square branches)", "anchors": ["src/native/ecc.rs: from_scalar_raw, from_scalar"]}
{"id": "C33", "title": "Circuit Edwards add/double equal native", "statement": "In every satisfying assignment CEdwardsPoint::add/double/mul_by_cofactor of curve points equals the native result.", "quantifier": "all curve points, all satisfying assignments", "why_tests_cant": "all assignments", "anchors": ["src/circuit/ecc.rs: CEdwardsPoint::add, double, mul_by_cofactor"]}
{"id": "C34", "title": "assert_in_curve enforces exactly curve membership", "statement": "The emitted constraints hold iff the point satisfies the curve equation checked by the native is_in_curve.", "quantifier": "all signals, all assignments", "why_tests_cant": "all assignments", "anchors": ["src/circuit/ecc.rs: assert_in_curve", "src/native/ecc.rs: is_in_curve"]}
{"id": "C35", "title": "assert_in_subgroup enforces exactly subgroup membership", "statement": "The constraints are satisfiable iff the point is in the order-l subgroup (native is_in_subgroup).", "quantifier": "all points, adversarial preimages", "why_tests_cant": "adversarial helper values", "anchors": ["src/circuit/ecc.rs: assert_in_subgroup", "src/native/ecc.rs: is_in_subgroup"]}
{"id": "C36", "title": "Circuit subgroup_decompress equals native", "statement": "In every satisfying assignment CEdwardsPoint::subgroup_decompress(x) is the point returned by native subgroup_decompress(x); if native returns None the constraints are unsatisfiable.", "quantifier": "all x, adversarial preimages", "why_tests_cant": "adversarial helper values", "anchors": ["src/circuit/ecc.rs: subgroup_decompress"]}
{"id": "C37", "title": "Circuit Montgomery arithmetic equals the group law", "statement": "CMontgomeryPoint add/double/into_edwards and into_montgomery compute the group operation on the points they represent under their documented preconditions.", "quantifier": "all points held in signals that meet the preconditions, all satisfying assignments", "why_tests_cant": "all points", "anchors": ["src/circuit/ecc.rs: CMontgomeryPoint::add, double, into_edwards, CEdwardsPoint::into_montgomery"]}
{"id": "C38", "title": "Variable-base scalar multiplication gadget is correct", "statement": "For a subgroup point P (including zero) and boolean bits, CEdwardsPoint::mul equals (sum 2^i b_i)P in every satisfying assignment; the incomplete additions never hit an exceptional case.", "quantifier": "all subgroup points held in signals, all bit strings of every length that are not all the constant zero (then it panics, as for no bits), all satisfying assignments", "why_tests_cant": "exceptional cases cannot be sampled", "anchors": ["src/circuit/ecc.rs: mul (variable base)"]}
{"id": "C39", "title": "Fixed-base scalar multiplication gadget is correct", "statement": "For a constant subgroup point P and boolean bits, CEdwardsPoint::mul equals (sum 2^i b_i)P in every satisfying assignment.", "quantifier": "all constant subgroup points, all bit strings", "why_tests_cant": "exceptional cases cannot be sampled; constant bits take other code", "anchors": ["src/circuit/ecc.rs: mul (constant base)"]}
{"id": "C40", "title": "Circuit from_scalar equals native", "statement": "In every satisfying assignment CEdwardsPoint::from_scalar(t) equals native from_scalar(t) (t != -1), whether t is a constant or not.", "quantifier": "all t, adversarial square roots", "why_tests_cant": "adversarial helper values", "anchors": ["src/circuit/ecc.rs: from_scalar"]}
{"id": "C41", "title": "Signatures produced by sign verify", "statement": "eddsaposeidon_verify(sign(sk,m), pk(sk), m) = true for every key and message (including sk = 0).", "quantifier": "all keys, messages, hash functions", "why_tests_cant": "all keys and messages", "anchors": ["src/native/eddsaposeidon.rs: eddsaposeidon_sign, eddsaposeidon_verify"]}
{"id": "C42", "title": "verify accepts exactly the EdDSA equation", "statement": "eddsaposeidon_verify is true iff r and a are abscissas of subgroup points R, A and sB = R + H(r,a,m)A; never panics with a 4-wide hash.", "quantifier": "all inputs", "why_tests_cant": "all forged inputs", "anchors": ["src/native/eddsaposeidon.rs: eddsaposeidon_verify"]}
{"id": "C43", "title": "EdDSA circuit agrees with native verify", "statement": "In every satisfying assignment the output of c_eddsaposeidon_verify is 1 iff the native equation holds for s (read as an integer of NUM_BITS(Fs) bits, mod l); inputs that do not decompress make the circuit unsatisfiable.", "quantifier": "all r, a, m (constants included), all s held in a signal (not a compile-time constant), adversarial witnesses", "why_tests_cant": "adversarial helper values", "anchors": ["src/circuit/eddsaposeidon.rs"]}
{"id": "C44", "title": "Shipped curve parameters are valid", "statement": "JubJubBN256::new() and JubJubBLS12_381::new(): moduli prime, d non-square, -1 square, u non-square, Montgomery A,B consistent with d, generator on the curve, non-zero and killed by l.", "quantifier": "the two shipped parameter sets; the properties quantify over all field elements", "why_tests_cant": "non-squareness quantifies over the whole field", "anchors": ["src/native/bn256.rs", "src/native/bls12_381.rs"]}
{"id": "C45", "title": "Integer conversions reduce modulo p", "statement": "Num::from for u64,i64,u32,i32,bool,BigUint,BigInt give the integer modulo p (negatives included); Into<u64>/Into<BigUint> return the canonical representative, Into<u64> panics iff it does not fit.", "quantifier": "all integers", "why_tests_cant": "all integers incl. extremes", "anchors": ["src/native/num.rs: From impls, Into impls"]}
{"id": "C46", "title": "Big-endian bytes round trip", "statement": "from_binary_be(into_binary_be(x)) = x; from_binary_be of any byte string is its big-endian integer mod p; into_binary_be always has num_bytes bytes.", "quantifier": "all field elements, all byte strings of any length", "why_tests_cant": "all strings", "anchors": ["src/native/num.rs: into_binary_be, from_binary_be"]}
{"id": "C47", "title": "Cross-field conversion", "statement": "into_other/from_other map the canonical integer to its residue in the target field; lossless round trip when the target modulus is not smaller.", "quantifier": "all elements, all pairs of fields", "why_tests_cant": "all pairs", "anchors": ["src/native/num.rs: into_other, from_other"]}
{"id": "C48", "title": "Bit iterators yield the canonical bits", "statement": "iterbit_le yields exactly 64*limbs booleans, the i-th being bit i of the canonical integer; is_odd/is_even are its parity.", "quantifier": "all field elements", "why_tests_cant": "all elements", "anchors": ["src/native/num.rs: BitIteratorLE, iterbit_le, is_odd, is_even"]}
{"id": "C49", "title": "Borsh encoding of Num is canonical", "statement": "deserialize(serialize(x) ++ rest) = (x, rest); deserialization rejects integers >= p and short buffers; each value has exactly one accepted encoding.", "quantifier": "all elements, all byte strings", "why_tests_cant": "all byte strings", "anchors": ["src/native/num.rs: BorshSerialize, BorshDeserialize"]}
{"id": "C50", "title": "Decimal string encoding of Num is canonical", "statement": "deserialize(serialize(x)) = x; strings denoting integers >= p are rejected instead of reduced.", "quantifier": "all elements, all decimal strings", "why_tests_cant": "all strings", "anchors": ["src/native/num.rs: Serialize, Deserialize, ToString"]}
{"id": "C51", "title": "Public-input buffers round trip", "statement": "read_num_vec(num_vec_to_buf(v)) = v; read_num_vec fails on lengths not a multiple of the element size and on non-canonical elements.", "quantifier": "all vectors, all buffers", "why_tests_cant": "all lengths", "anchors": ["src/macros.rs: read_num, read_num_vec, num_vec_to_buf"]}
{"id": "C52", "title": "Point data conversions are faithful", "statement": "G1/G2 affine -> data -> affine is the identity for curve points incl. infinity; data -> affine panics iff the point is not on the curve (or, for BLS12-381, not in the subgroup); extension-field components are stored imaginary part first.", "quantifier": "all points, all coordinate data", "why_tests_cant": "all coordinates", "anchors": ["src/helpers/groth16/mod.rs: From/Into G1PointData, G2PointData, is_on_curve"]}
{"id": "C53", "title": "Borsh encodings of points, proofs and keys round trip", "statement": "deserialize(serialize(v) ++ rest) = (v, rest) for G1/G2 point data, proofs and truncated verifying keys with any number of IC points.", "quantifier": "all values", "why_tests_cant": "all sizes", "anchors": ["src/helpers/groth16/near.rs"]}
{"id": "C54", "title": "Compressed verifying key round trip", "statement": "TruncatedVerifyingKey::read(write(vk)) = vk for keys without points at infinity; read rejects points at infinity and malformed points.", "quantifier": "all keys with any number of IC points", "why_tests_cant": "all sizes", "anchors": ["src/helpers/groth16/verifier.rs: write, read"]}
{"id": "C55", "title": "verify checks the Groth16 equation", "statement": "verify returns Err iff #inputs+1 != #IC, otherwise Ok(true) iff e(A,B) = e(alpha,beta)*e(IC0+sum x_i IC_i, gamma)*e(C,delta).", "quantifier": "all keys, proofs, inputs; any bilinear pairing", "why_tests_cant": "all inputs", "anchors": ["src/helpers/groth16/verifier.rs: verify"]}
{"id": "C56", "title": "Solidity verifier template is filled completely and consistently", "statement": "generate_sol_data replaces every placeholder by the key's coordinates: IC array length = #IC, input array length = #IC-1, one IC assignment per point in order.", "quantifier": "all keys with >= 1 IC point", "why_tests_cant": "all sizes", "anchors": ["src/helpers/groth16/ethereum.rs: generate_sol_data"]}
{"id": "C57", "title": "SizedVec always has its declared length", "statement": "A SizedVec<T,L> obtained by any safe constructor (collect, deserialize) has exactly L elements; collect panics otherwise.", "quantifier": "all constructors, all lengths", "why_tests_cant": "all inputs", "anchors": ["src/core/sizedvec.rs"]}
{"id": "C58", "title": "Public inputs are exposed in get_inputs order", "statement": "After inputize() the back end's public input variables are, in order, equal to linearize() of the signal, which is the list get_inputs() returns; one public input per leaf signal.", "quantifier": "all signal types, all satisfying assignments", "why_tests_cant": "all compound types", "anchors": ["src/core/signal.rs: linearize, inputize", "src/macros.rs: get_inputs"]}
{"id": "C59", "title": "Seedbox stream is counter-mode Blake2s", "statement": "The n-th next_u32 of a seedbox equals limb n mod 8 of Blake2s(le64(n/8) || salt-hash) for every n until the counter of 64 bits overflows; equal salts give equal streams.", "quantifier": "all n, all salts, all call histories", "why_tests_cant": "all positions", "anchors": ["src/core/seedbox.rs"]}
{"id": "C60", "title": "Poseidon parameters have the declared shape", "statement": "PoseidonParams::new(t,f,p) has f+p round constants and a t x t matrix, is a deterministic function of (t,f,p), and poseidon on it never indexes out of bounds.", "quantifier": "all t,f,p", "why_tests_cant": "all sizes", "anchors": ["src/native/poseidon.rs: PoseidonParams::new"]}
{"id": "C61", "title": "Constraint counts are data independent and bounded", "statement": "The number of constraints of a gadget depends only on the shape of its inputs; c_poseidon uses at most 3*(t*f+p), a non-constant bit decomposition of width n exactly n, is_zero at most 3.", "quantifier": "all inputs", "why_tests_cant": "all inputs", "anchors": ["README.md benchmarks", "src/circuit/*"]}
{"id": "C62", "title": "get_value and as_const of a signal without value return None", "statement": "get_value() and as_const() of any signal type return None, without panicking, when some component has no value or is not constant; alloc(Some(v)).get_value() is Some(v) and from_const(v) round-trips through both.", "quantifier": "all signal types, all values", "why_tests_cant": "all nestings of vectors, tuples and structs", "anchors": ["src/core/signal.rs: SizedVec get_value, as_const", "src/core/sizedvec.rs: FromIterator"]}
{"id": "C63", "title": "Num::from(&str) reads decimal numerals modulo p", "statement": "Num::from(s) of the decimal numeral of any non-negative integer is that integer modulo p; every other string (sign, underscore, leading zero, empty) panics.", "quantifier": "all strings, all integers", "why_tests_cant": "all strings", "anchors": ["src/native/num.rs: From<&str>"]}
{"id": "C64", "title": "Poseidon is the HADES permutation", "statement": "For parameters with f+p constants and a t x t matrix and between 1 and t inputs, poseidon returns the first element of the HADES permutation (f/2 full rounds, p partial rounds, f-f/2 full rounds; add constant, x^5, multiply by the matrix) of the inputs padded with zeros.", "quantifier": "all shaped parameter sets, all inputs", "why_tests_cant": "all inputs and parameters", "anchors": ["src/native/poseidon.rs: poseidon, ark, sigma, mix"]}
{"id": "C65", "title": "Poseidon parameters are read off the seedbox stream", "statement": "PoseidonParams::new(t,f,p) over a four-limb field is, round constants first and matrix row by row after, the sequence of those blocks of the Blake2s counter stream salted with fawkes_poseidon(t=..,f=..,p=..) that are below the modulus, in Montgomery form; rejection sampling skips nothing else; different (t,f,p) have different salts.", "quantifier": "all t, f, p, all four-limb fields", "why_tests_cant": "all sizes; the stream is unbounded", "anchors": ["src/native/poseidon.rs: PoseidonParams::new", "src/core/seedbox.rs", "src/native/num.rs: Rand for Num"]}
{"id": "C66", "title": "The generated contract answers exactly the Groth16 verification question", "statement": "verifyProof of the contract generated by generate_sol_data, called with eight proof words and one word per public input, returns an answer exactly if every proof word is below the base field modulus, every input below the scalar field modulus, all proof and key points lie on their curve and the second-group points in the prime-order subgroup; otherwise the call fails. The answer is true exactly if the Groth16 pairing equation holds. It does not depend on memory contents beyond the arguments. When the contract answers, verify() of the library on the same key, proof and inputs gives the same answer, and conversely for second-group points in the subgroup.", "quantifier": "all keys, proofs, input words (256-bit, including unreduced), memory contents, all bilinear pairings", "why_tests_cant": "all 256-bit words; the contract cannot be run by the crate's tests", "anchors": ["src/helpers/groth16/ethereum.rs: SOL_TEMPLATE (Pairing.negate, plus, scalar_mul, pairing; Verifier.verifyProof)", "src/helpers/groth16/verifier.rs: verify"]}
{"id": "C67", "title": "Keys, proofs and verification fit together", "statement": "For every circuit generated from client code over the circuit API, except for few values of the secret evaluation point of the key generator (at most 2*(constraints + public inputs)*(2*variables + 3)): if the data satisfy the circuit, then prove() with keys from generate_keys() returns a proof and verify() accepts it with the inputs get_inputs() returns, whatever the other random choices (for circuits that have a public signal or otherwise use the constant one on the right of a constraint, see C71); if the data do not satisfy the circuit, verify() rejects. generate_keys() panics for every circuit with an allocated variable that occurs in no constraint.", "quantifier": "all circuits, all public and secret data, all random choices, all bilinear pairings", "why_tests_cant": "all circuits and random choices; a test makes one proof of one circuit", "anchors": ["src/helpers/groth16/prover.rs: generate_keys, prove", "src/helpers/groth16/verifier.rs: verify", "src/macros.rs: CircuitObject, get_inputs"]}
{"id": "C68", "title": "A proof hides the secret data", "statement": "For the same keys and the same public data, proofs made with any two satisfying sets of secret data have the same distribution: a bijection of the prover's random choices maps one to the other, except for few values of the secret evaluation point of the key generator. Moreover whoever knows the secrets of the key generator, and no secret data at all, makes proofs with the same distribution from the public inputs alone (so they must be destroyed: with them proofs of false statements are accepted).", "quantifier": "all circuits, all pairs of satisfying secret data", "why_tests_cant": "a distribution, not an output", "anchors": ["src/helpers/groth16/prover.rs: prove"]}
{"id": "C69", "title": "A proof is bound to its public inputs", "statement": "verify() does not accept a proof with any list of inputs other than the one get_inputs() returns for the public data it was made with: it returns false for another list of the right length and an error for a wrong length; exceptions need special secrets of the key generator (few evaluation points, or for given others one value of beta).", "quantifier": "all circuits, all data, all other lists of inputs, all random choices", "why_tests_cant": "all input lists", "anchors": ["src/helpers/groth16/prover.rs: generate_keys, prove", "src/helpers/groth16/verifier.rs: verify"]}
{"id": "C70", "title": "The test constraint system is a faithful rehearsal of proving", "statement": "A circuit over the circuit API that does not look at variable numbers builds on TestCS without panic if and only if it builds in prove() with values that satisfy all constraints; both runs record the same values in the same order. So data that pass on TestCS give a proof that verify() accepts (with the condition of C71), and data on which TestCS panics give none (up to few evaluation points of the key generator).", "quantifier": "all circuits, all data, all random choices", "why_tests_cant": "all circuits and data; tests run on TestCS only and never on the prover's numbering", "anchors": ["src/core/cs.rs: TestCS", "src/helpers/groth16/mod.rs: Groth16CS", "src/helpers/groth16/prover.rs: prove"]}
{"id": "C71", "title": "prove() works with the keys of every circuit that has keys", "statement": "If generate_keys() returned keys for a circuit, then prove() with these keys returns a proof for all data with which the circuit can be built, whatever its constraints are.", "quantifier": "all circuits, all data, all random choices", "why_tests_cant": "all circuits; it depends on which coefficients of the constraints happen to be zero", "anchors": ["src/helpers/groth16/prover.rs: generate_keys, prove", "src/circuit/num.rs: from_const, Add"]}
{"id": "C72", "title": "base64 texts of the Waves and Near bindings are standard and faithful", "statement": "The texts written for keys, proofs and inputs are the standard base64 encoding (RFC 4648 alphabet, with padding) of the bytes; decoding any encoding gives the bytes back, and a text is decoded only if it is a canonical encoding up to what RFC 4648 allows.", "quantifier": "all byte strings, all texts", "why_tests_cant": "all lengths and characters", "anchors": ["src/macros.rs: base64::encode, base64::decode in cli_setup, cli_prove, cli_verify"]}
{"id": "C73", "title": "JSON files are read back as they were written", "statement": "Verifying keys, proofs, lists of public inputs, and the public and secret data of any circuit whose data types are nested at most 126 levels, written by serde_json::to_string_pretty and read by from_str, come back unchanged, for all values; data nested more deeply are written but cannot be read.", "quantifier": "all keys, proofs, inputs, all nestings of structs, tuples and vectors, all values", "why_tests_cant": "all data and all data types", "anchors": ["src/macros.rs: cli_setup, cli_generate_test_data, cli_prove, cli_verify (serde_json)", "src/native/num.rs: Serialize, Deserialize", "src/core/sizedvec.rs: Serialize, Deserialize"]}
{"id": "C74", "title": "Parameter and proof files are read back as they were written", "statement": "Parameters::read accepts exactly the files that consist of the key points, the lists of points with big-endian lengths, none of the list points infinity, and returns these points whatever follows; parameters written to a file are read back, checked or not, unless a list contains the point at infinity, in which case the file cannot be read. Likewise proofs in compressed form: they are read back unless one of the three points is infinity, in which case reading fails.", "quantifier": "all files, all parameters, all proofs, all lawful point encodings", "why_tests_cant": "all byte strings", "anchors": ["src/macros.rs: params.write, Parameters::read", "src/helpers/groth16/prover.rs: Proof::write, Proof::read"]}
{"id": "C75", "title": "generate-verifier reports success only with the whole contract on disk", "statement": "If the command generate-verifier prints its success line, then the output file holds the complete generated contract, whatever the disk does (faults, short writes); otherwise it panics.", "quantifier": "all contents of files, all faults and short writes of the disk", "why_tests_cant": "all schedules of faults", "anchors": ["src/macros.rs: cli_generate_verifier"]}
{"id": "C76", "title": "setup, generate-test-data and prove are honest about what they wrote", "statement": "Whatever the disk does: the commands change no files but their outputs; if a command returns, it has printed exactly its success line and its output files are complete (parameters and key from the same run of the key generator; proof and inputs from what was read); if it panics, it has printed nothing, and no file has changed unless the disk failed. On a disk that works they succeed whenever the computations do.", "quantifier": "all programs, all contents of files, all faults and short writes of the disk", "why_tests_cant": "all crash points and schedules of faults", "anchors": ["src/macros.rs: cli_setup, cli_generate_test_data, cli_prove"]}
{"id": "C77", "title": "verify prints the verdict of the verifier on what the files hold", "statement": "The command verify never changes a file. If it returns, it has printed exactly one line, true exactly if the key, the proof and the inputs in the three files satisfy the Groth16 equation and the number of inputs is right; it panics, printing nothing, if a file is missing or not well-formed; on a disk that works it panics only then.", "quantifier": "all programs, all contents of the files, all faults of the disk", "why_tests_cant": "all file contents", "anchors": ["src/macros.rs: cli_verify", "src/helpers/groth16/verifier.rs: verify"]}
{"id": "C78", "title": "A whole session of a generated program ends with the right verdict", "statement": "On a disk without faults and with five different file names, for every program generated for a circuit over the circuit API and every binding: setup, generate-test-data, prove and verify one after the other all succeed, print exactly their four lines and change no other file; the last line is \"Verify result is true.\" if the data satisfy the circuit and \"Verify result is false.\" if they do not. Exceptions: circuits without keys, circuits of C71, few random choices of setup (evaluation point, beta), and for the bindings with compressed points two or three random choices of the prover.", "quantifier": "all circuits, data, data types (nested at most 126 levels), random choices, file names, contents of the disk", "why_tests_cant": "all of these together; no test of the crate runs the commands", "anchors": ["src/macros.rs: cli_setup, cli_generate_test_data, cli_prove, cli_verify, groth16_ethereum_bindings, groth16_waves_bindings, groth16_near_bindings"]}
{"id": "C79", "title": "Points at infinity in keys and proofs are rare", "statement": "generate_keys returns no point at infinity anywhere in the parameters, and prove returns none in the proof, except for few random choices: evaluation points of the key generator (at most 2*(constraints + public inputs)*(2*variables + 1)), alpha = 0, given these at most public inputs + 1 values of beta; one value of the second random choice of the prover and, given it, two of the first. So the readers that refuse such points do not refuse what was honestly made.", "quantifier": "all circuits, all data, all random choices", "why_tests_cant": "all random choices; the bad ones are too rare to meet", "anchors": ["src/helpers/groth16/prover.rs: generate_keys, prove", "src/helpers/groth16/verifier.rs: read"]}
{"id": "C80", "title": "Structs and tuples are the signals of their fields", "statement": "A struct with a derived Signal implementation, or a tuple, of any number of fields behaves as the nested pairs of its fields: every method has the same result, allocations, constraints and panics. In particular assert_eq holds exactly if all fields are equal, is_eq is 1 or 0 accordingly, switch takes all fields from one side, and linearize lists the components field by field in the order of declaration.", "quantifier": "all lists of field types (numbers, booleans, vectors, structs, nested arbitrarily), all values, all states of the constraint system", "why_tests_cant": "all numbers and types of fields", "anchors": ["fawkes-crypto_derive/src/signal.rs: tuple_impl, struct_impl", "src/core/signal.rs: impl_for_tuples"]}
{"id": "C81", "title": "The derive macro accepts every struct of signals", "statement": "derive(Signal) on a struct with at least one field and an attribute Value gives an implementation that handles every field, whatever other attributes the struct has and however the field types are written.", "quantifier": "all structs, attributes and field types", "why_tests_cant": "all programs that use the macro", "anchors": ["fawkes-crypto_derive/src/signal.rs: expand, fetch_attr, get_typename"]}
{"id": "C82", "title": "Keys and proofs use the randomness of the operating system without bias", "statement": "If the bytes of the operating system are uniformly random, the field elements that OsRng gives are uniform, the two random choices of prove are uniform and independent, and the five secrets of generate_keys are uniform and independent of each other and of the random points. Hence: of the byte strings of any length with which generate_keys gets its random choices, at most the part 2*(constraints + public inputs)*(2*variables + 1)/r leads to keys with which an honest proof of some data fails; and for two sets of secret data with the same public data a length-preserving bijection of the byte strings turns the runs of prove with the one into those with the other. Each round of drawing fails with probability at most one half; a failing getrandom panics.", "quantifier": "all byte strings of all lengths, all circuits and data, all random points", "why_tests_cant": "the distribution over all random bytes cannot be observed by runs", "anchors": ["src/core/osrng.rs: OsRng, next_u32", "src/helpers/groth16/prover.rs: generate_keys, prove"]}
{"id": "C83", "title": "Operators do not depend on how their operands are passed", "statement": "For numbers and for signals every form of + - * / (operands by value or by reference, assignment, constant on the left or on the right) has the same result, allocations, constraints and panics as every other form of the same operator. On numbers they are the operations of the field, with a panic exactly for the divisor 0. Sums of signals do not depend on the order of the operands either, although the code exchanges them by the length of their storage; subtraction is addition of the negative.", "quantifier": "all numbers, all signals in canonical form, all combinations of passing the operands", "why_tests_cant": "all operands; the tests use one form each", "anchors": ["src/macros.rs: forward_*, swap_commutative", "src/native/num.rs: operator impls", "src/circuit/num.rs: operator impls"]}
{"id": "C84", "title": "Accepted proofs show knowledge of a witness", "statement": "Whoever makes a proof that verify accepts by combining the points of the generator's keys (adding them, taking multiples, with coefficients chosen before the keys) knows values that satisfy the circuit: the public inputs given to verify, together with the coefficients of the third point of the proof on the query l, satisfy all constraints - except for at most (4*(constraints + public inputs)*(variables + 2) + 8)*r^4 of the r^5 secrets of the key generator. If coefficients and public inputs are chosen after seeing the keys, the same holds unless the coefficients and inputs confine the secrets to such a small set, and a prover who lets the keys decide among n choices multiplies the exceptions by at most n. In terms of the bytes of the operating system: of the byte strings of any length from which the key generator draws its secrets, at most the part n*(4*(constraints + public inputs)*(variables + 2) + 8)/r leads to keys with which one of n choices is accepted without satisfying the circuit. So for public inputs that no data satisfy verify returns false. The proofs prove makes are of this kind, and the values read off are those of the circuit run. The proofs are malleable: scaling the first point and unscaling the second gives another accepted proof of the same inputs.", "quantifier": "all circuits, all public inputs, all coefficients of the prover, all groups and pairings, all but few secrets of the key generator", "why_tests_cant": "a cheating prover cannot be enumerated", "anchors": ["src/helpers/groth16/prover.rs: generate_keys, prove", "src/helpers/groth16/verifier.rs: verify, truncate_verifying_key"]}
{"id": "C85", "title": "Circuits that implement the trait Circuit directly are proved and verified like those of the macros", "statement": "For a circuit that implements Circuit by hand, as any sequence of calls of the library that may allocate and publish anywhere: with keys generated from it without data and data that satisfy it, prove returns a proof and verify accepts it together with the published values in the order in which they were published; with data that do not satisfy it verify returns false - unless the secret point of the key generator is one of few.", "quantifier": "all circuits over the API, all data, all random choices", "why_tests_cant": "all circuits, all data", "anchors": ["src/core/cs.rs: Circuit", "src/helpers/groth16/prover.rs: generate_keys, prove", "src/helpers/groth16/verifier.rs: verify"]}
{"id": "C86", "title": "The preimage circuit of the crate proves knowledge of a preimage", "statement": "The circuit with which the crate tests its prover (public: an image of Poseidon; secret: a preimage): keys can be generated for it; the proof made with any preimage and its image is accepted with what get_inputs returns, which is the image; whoever makes an accepted proof by combining points of the keys knows a preimage of the public input; no such proof is accepted for a number that is not an image. Except for few secrets of the key generator.", "quantifier": "all shaped hash parameters, all numbers, all random choices, all provers that combine points of the keys", "why_tests_cant": "the test of the crate uses one random preimage", "anchors": ["src/helpers/groth16/prover.rs: CheckPreimageKnowledge, test_helper"]}
{"id": "C87", "title": "Circuits of the macros prove knowledge of secret data", "statement": "If the code of a circuit publishes nothing itself and its constraints hold only for public and secret data in a relation R, then whoever makes an accepted proof by combining points of the keys knows secret data in the relation R to the public inputs given to verify, and the number of these is that of the public data; for public inputs that are in the relation R to no secret data verify returns false. Except for few secrets of the key generator.", "quantifier": "all circuits, relations, public inputs, provers that combine points of the keys", "why_tests_cant": "a cheating prover cannot be enumerated", "anchors": ["src/macros.rs: groth16_ethereum_bindings, groth16_waves_bindings, groth16_near_bindings", "src/helpers/groth16/verifier.rs: verify", "src/core/signal.rs: Signal::alloc, inputize"]}
{"id": "C88", "title": "Which circuits have keys", "statement": "generate_keys returns keys for a circuit exactly if building the circuit without data does not panic, every allocated variable occurs in a constraint and constraints plus public inputs fit the largest evaluation domain of the field - except for few secrets of the key generator: gamma = 0, delta = 0, and at most 2*(constraints + public inputs)*(secret variables)*r^2 of the r^3 triples (alpha, beta, tau). If one of these conditions fails, it returns keys for no choice of the secrets.", "quantifier": "all circuits of the macros and all written by hand, all secrets of the key generator, all groups", "why_tests_cant": "all circuits and all random choices", "anchors": ["src/helpers/groth16/prover.rs: generate_keys", "src/macros.rs: groth16_ethereum_bindings, groth16_waves_bindings, groth16_near_bindings"]}
{"id": "C89", "title": "A Merkle membership circuit proves membership", "statement": "For the circuit with a public root and a public leaf, a secret CMerkleProof, and the assertion that c_poseidon_merkle_proof_root of leaf and proof is the root: whoever makes an accepted proof by combining points of the keys, the leaf is in a tree of that depth with that root, except for few secrets of the key generator.", "quantifier": "all hash parameters, depths, roots, leaves, provers that combine points of the keys", "why_tests_cant": "a cheating prover cannot be enumerated", "anchors": ["src/circuit/poseidon.rs: CMerkleProof, c_poseidon_merkle_proof_root", "src/circuit/bool.rs: CBool::alloc, CBool::assert", "src/circuit/num.rs: CNum::switch", "src/helpers/groth16/verifier.rs: verify"]}
{"id": "C90", "title": "Helper variables of the library never prevent keys", "statement": "Every private variable that a function of the circuit API allocates for itself occurs in a constraint, whatever the arguments and the state of the circuit. So all variables of a circuit are used - as generate_keys demands - exactly if those are that the client allocated: the results of its own alloc calls and, in a circuit of the macros, the secret data; the public data always are, because they are published.", "quantifier": "all functions of the circuit API (numbers, booleans, bits, mux, Poseidon, Merkle, curves, EdDSA, Signal operations of all types), all arguments, all circuits of any length", "why_tests_cant": "all arguments including constants, all circuits", "anchors": ["src/circuit/num.rs: CNum", "src/circuit/bitify.rs", "src/circuit/mux.rs: c_mux3", "src/circuit/poseidon.rs", "src/circuit/ecc.rs", "src/circuit/eddsaposeidon.rs", "src/helpers/groth16/prover.rs: generate_keys"]}
{"id": "C91", "title": "JSON files may be formatted in any way, and nothing but JSON is read", "statement": "The JSON files of the commands (verifying key, proof, public inputs, data of the circuit) are read exactly when they are JSON texts in the sense of RFC 8259, nested at most 127 levels deep, whose value stands for data of the expected kind: objects may have their members in any order and unknown ones besides, every known member must occur exactly once, arrays of the values in order are accepted as well, field elements are strings with a decimal numeral (underscores and a plus sign allowed) of a number below the modulus, and the length of vectors is not checked. A text stands for at most one value, so two files that spell the same value are read alike, however they are formatted and escaped.", "quantifier": "all texts; all verifying keys, proofs, lists of inputs and layouts of circuit data; all prime fields whose numbers fill their machine words as the code requires", "why_tests_cant": "The texts, escapes, numbers, nesting and formatting that a user or another program may produce are unlimited; tests read back only what the library itself has printed.", "anchors": ["src/macros.rs:363-432 (cli_generate_verifier, cli_verify, cli_prove)", "src/native/num.rs:57-68", "src/core/sizedvec.rs:34-38", "src/helpers/groth16/mod.rs", "src/helpers/groth16/prover.rs:19-25", "src/helpers/groth16/verifier.rs:15-23"]}
{"id": "C92", "title": "The sizes of the library's circuits", "statement": "The number of constraints that a function of the circuit API adds depends only on the parameters and the numbers of its arguments, never on values or on whether keys or a proof are made: three for every nonlinear function of Poseidon, hash plus one for every level of a Merkle proof, 2^d - 1 hashes for the root of a full tree and nothing for the empty part of another one, 3 and 20 for the curve and subgroup checks, 19 for decompression, 9n+10 for the multiplication of a signal by n bits, about 2n for that of a constant, 2*bits+2 for the unique decomposition, and their sum for EdDSA. For BN256 these are the numbers of the README's table (255, 7328, 19, 513, 2296), except for EdDSA: 3866, where the README says 3860.", "quantifier": "all parameters with non-zero matrix entries (shown for those that the repository uses), all numbers of inputs, levels and bits, all states of the constraint system, all signals that are not constants", "why_tests_cant": "Tests count single circuits; the formulas range over all sizes, parameters and values.", "anchors": ["README.md:46-53", "src/circuit/poseidon.rs: c_poseidon, c_poseidon_with_salt, c_poseidon_merkle_proof_root", "src/circuit/ecc.rs: CEdwardsPoint", "src/circuit/bitify.rs: c_into_bits_le, c_into_bits_le_strict", "src/circuit/eddsaposeidon.rs: c_eddsaposeidon_verify"]}
{"id": "C93", "title": "Poseidon reaches every value equally often", "statement": "With the parameters that the repository uses (widths 2, 3 and 4, over the fields of BN256 and BLS12-381), every field element is the hash of exactly r^(t-1) of the r^t lists of t numbers: the generated matrices are invertible and the fifth power is a bijection, so no value is missed or preferred.", "quantifier": "all values, all lists of t numbers, all parameters with an invertible matrix over fields in which five does not divide r-1", "why_tests_cant": "The number of preimages ranges over all r^t inputs.", "anchors": ["src/native/poseidon.rs: PoseidonParams::new, poseidon, sigma, mix", "src/core/seedbox.rs: SeedboxBlake2"]}
{"id": "C94", "title": "A signature circuit proves knowledge of a signature", "statement": "For the circuit with a public key and a public message, a secret signature (s, r), and the assertion that c_eddsaposeidon_verify is true: for all but few random choices of the key generator there are keys; with them every signature that eddsaposeidon_sign returns - for every secret key and message - becomes a proof that verify accepts for the public key and the message; and whoever makes an accepted proof by combining points of the keys knows numbers s, r that eddsaposeidon_verify accepts for that key and that message. No proof is accepted for a key that is not the abscissa of a subgroup point. With the repository's parameters the circuit has 3869 constraints over BN256 and 3883 over BLS12-381.", "quantifier": "all secret keys, messages, signatures, random choices of key generator and prover, provers that combine points of the keys; all valid curve parameters and hash parameters, in particular those of the repository", "why_tests_cant": "a cheating prover cannot be enumerated, and the honest chain ranges over all keys, messages and random choices", "anchors": ["src/circuit/eddsaposeidon.rs: c_eddsaposeidon_verify", "src/native/eddsaposeidon.rs: eddsaposeidon_sign, eddsaposeidon_verify", "src/macros.rs: groth16_ethereum_bindings", "src/helpers/groth16/prover.rs: generate_keys, prove", "src/helpers/groth16/verifier.rs: verify"]}
{"id": "C95", "title": "Circuits have no more variables than constraints", "statement": "No call of the circuit API adds more private variables than constraints, except alloc (one), assert_in_subgroup and subgroup_decompress (at most one each) and from_scalar and c_eddsaposeidon_verify (at most two each). So the private variables of a circuit are at most its constraints, its secret numbers and these. With it the share of bad random choices of the key generator is a number: less than one in 2^225 for the signature circuit and one in 2^214 for Merkle proofs of depth up to 1024 with asserted directions, with the repository's parameters.", "quantifier": "all calls with all arguments, all clients of any length, all types of public and secret data, key generation and proving", "why_tests_cant": "the bound ranges over all circuits", "anchors": ["src/circuit/num.rs: CNum", "src/circuit/bitify.rs", "src/circuit/ecc.rs", "src/circuit/eddsaposeidon.rs", "src/circuit/poseidon.rs", "src/core/cs.rs: ConstraintSystem"]}
{"id": "C96", "title": "A Merkle root commits to the leaves", "statement": "Two Merkle proofs with the same directions and the same root have the same leaf and the same siblings; a proof for position i against poseidon_merkle_tree_root of some leaves is a proof of the leaf at position i (zero beyond the given leaves); lists of leaves with the same root and trees of the same height are equal up to trailing zeros - or else the two computations exhibit a collision: a level and position at which different pairs of numbers have the same Poseidon hash. The root commits neither to the number of leaves (zeros may be appended within the same height) nor to the height (a full tree has the root of the tree over the hashes of its pairs of leaves).", "quantifier": "all parameters, leaves, positions, proofs and depths", "why_tests_cant": "All trees and all forged proofs; a forgery cannot be looked for by runs.", "anchors": ["src/native/poseidon.rs: poseidon_merkle_proof_root, poseidon_merkle_tree_root, MerkleProof"]}
{"id": "C97", "title": "Signatures, nonces and secret keys determine each other", "statement": "Different secret keys have different public keys, although a public key is only the abscissa of a point. Two accepted signatures for one public key with the same r and different challenges reveal the secret key, as (s - s')/(h - h') modulo the order. eddsaposeidon_sign returns the same r for two pairs of secret key and message only if the pairs are equal, or Blake2s maps their different encodings to numbers that are congruent modulo the order.", "quantifier": "all valid curve parameters, hash functions, keys, messages and signatures", "why_tests_cant": "All pairs of signatures; the attack needs signatures that honest tests never make.", "anchors": ["src/native/eddsaposeidon.rs: eddsaposeidon_sign, eddsaposeidon_verify, hash_r"]}
{"id": "C98", "title": "Anyone can change an accepted proof into others", "statement": "From an accepted proof and the verifying key, without secret data or secrets, one gets accepted proofs of the same public inputs: (u*a, b/u + k*delta, c + u*k*a) for every u other than zero and every k, and a changed proof of this form is accepted only if the original was. If a is not zero all of these are different. From a proof that prove made every one of them is a proof that prove makes with other random choices. So a proof must not be used as an identifier, and seeing a second one tells nothing about who made it.", "quantifier": "all keys, proofs, public inputs, u and k, groups and pairings", "why_tests_cant": "All proofs and all factors.", "anchors": ["src/helpers/groth16/verifier.rs: verify", "src/helpers/groth16/prover.rs: prove, Proof"]}
{"id": "C99", "title": "Helper values are determined by the client's own values", "statement": "Once the values of the variables that a client allocates itself (and, for circuits of the macros, the public and secret data) are fixed, the constraints leave exactly one value for every variable that functions of the library add: a proof is made from the data and from nothing else. Exceptions are: division with a divisor of value zero; zero tests of zero and equality tests of equal values; into_bits_le with a limit that leaves room for two decompositions; point operations on points off the curve; exceptional cases of the Montgomery formulas; scalar products equal to zero; assert_in_subgroup, subgroup_decompress, from_scalar and c_eddsaposeidon_verify. The exceptions are real: zero divided by zero is any number, a zero test of zero leaves a helper any value but zero, and assert_in_subgroup holds with every point whose eightfold is the argument, so with two assignments for every point but zero. In the crate's preimage circuit and in the circuit of Merkle proofs nothing is left open.", "quantifier": "all calls with all arguments, all clients of any length, all types of data, all pairs of satisfying assignments", "why_tests_cant": "All assignments of a constraint system, most of which no run of the code produces.", "anchors": ["src/circuit/num.rs: CNum", "src/circuit/bitify.rs", "src/circuit/ecc.rs", "src/circuit/poseidon.rs", "src/circuit/mux.rs", "src/core/signal.rs: Signal", "src/core/cs.rs: ConstraintSystem", "src/macros.rs: groth16_ethereum_bindings"]}
{"id": "C100", "title": "A circuit computes what the native code computes", "statement": "A client is a sequence of calls of the circuit API; execute the same calls on field elements by the native functions (poseidon, EdwardsPoint::add and mul, subgroup_decompress, eddsaposeidon_verify, bits of integers, ...), stopping where a native check fails. A circuit can be satisfied with given values of the client's own variables if and only if the native run on them does not stop, and then the values of all signals and the published values are those of the native run. Hence the public inputs for which a circuit can be satisfied are exactly the outputs of the native code; a proof returned by prove is accepted if and only if the native code does not stop on the client's values, and who makes an accepted proof by combining key points knows data on which the native code does not stop (each except for few secrets of the key generator). Excluded are divisions by zero and of a constant, selectors and bits that are not boolean, limits that leave room for two decompositions into bits, constants too long for a comparison, points off the curve, constant points (but for multiples, and sums of a constant and a signal), the exceptional cases of the Montgomery formulas, and signature challenges equal to zero.", "quantifier": "all clients of any length, all parameters, all data, all assignments of the constraint system, all back ends; for proofs all keys but few, all groups and pairings", "why_tests_cant": "Equality of two programs on all inputs, one of which is a constraint system that must exclude all wrong assignments.", "anchors": ["src/circuit/num.rs: CNum", "src/circuit/bitify.rs", "src/circuit/ecc.rs", "src/circuit/poseidon.rs", "src/circuit/mux.rs", "src/circuit/eddsaposeidon.rs", "src/native/ecc.rs: EdwardsPoint, MontgomeryPoint", "src/native/poseidon.rs", "src/native/eddsaposeidon.rs", "src/core/cs.rs: Circuit, ConstraintSystem", "src/helpers/groth16/prover.rs: prove", "src/helpers/groth16/verifier.rs: verify"]}
{"id": "C101", "title": "Which signatures are accepted", "statement": "eddsaposeidon_verify accepts (s, r) for the public key a and the message m exactly if there are scalars sk and k such that a is the abscissa of sk*G, r that of k*G and s = k + h*sk for the challenge h: everything accepted could have come from a signer, and every accepted public key has a secret key. For every key pair and message exactly l signatures are accepted, one for each nonce. An accepted signature is accepted for another message exactly if the challenges agree modulo the order or the public key is zero, and for another key and message exactly if h*sk = h'*sk'. Under the public key zero, which nothing rejects, (s, x(s*G)) is accepted for every message, so anybody can sign under it; a signature with r = 0 reveals the key.", "quantifier": "all valid curve parameters with r < l^2 (both curves of the repository), all hash parameters, keys, messages and signatures", "why_tests_cant": "A statement about everything that is accepted, not about signatures that were made by signing.", "anchors": ["src/native/eddsaposeidon.rs: eddsaposeidon_sign, eddsaposeidon_verify", "src/native/ecc.rs: EdwardsPoint::mul, EdwardsPoint::subgroup_decompress"]}
{"id": "C102", "title": "A Merkle proof is enough to update the tree", "statement": "poseidon_merkle_proof_root of the proof of leaf i with another leaf is poseidon_merkle_tree_root of the leaves with leaf i replaced; with the proof of the first free position (a proof of the leaf zero) it is that of the leaves with the new leaf appended. Whatever proof leads from some leaf to the root of one tree and from another leaf to the root of a second tree of the same height, the second tree is the first with this one leaf replaced - or the computations exhibit a collision of the hash. A circuit with the two roots public that calls c_poseidon_merkle_proof_root twice with the same proof, and asserts that the path consists of bits, can be satisfied exactly in this case, and whoever makes an accepted proof for it knows such leaves and such a Merkle proof.", "quantifier": "all parameters, numbers of leaves, positions, leaves, proofs and depths; for accepted proofs all provers that combine points of the keys and all but few random choices of the key generator", "why_tests_cant": "All trees, positions and forged proofs.", "anchors": ["src/native/poseidon.rs: poseidon_merkle_proof_root, poseidon_merkle_tree_root, MerkleProof", "src/circuit/poseidon.rs: c_poseidon_merkle_proof_root, CMerkleProof"]}
{"id": "C103", "title": "How often random and hashed points come up", "statement": "The curve of each of the two parameter sets has exactly 8*l points, and l of them are in the subgroup. get_for_y gives one point of the curve for 8*l + 2 of the 2*r pairs of an ordinate and a sign: every point for exactly one pair, but (0, 1) and (0, -1) for two. So EdwardsPoint::rand, for n independent uniform draws, returns every point of the curve for equally many of the (2r)^n sequences, except these two points, which are twice as likely, and it is still looping after n rounds for exactly (2r - 8l - 2)^n of them, about one in 2^n. from_scalar gives the same point for t and -2 - t, no point for more than 32 scalars, and so reaches at least (r - 1)/32 points.", "quantifier": "all points, all numbers of draws and all sequences of draws, all scalars", "why_tests_cant": "Counts over all field elements and all sequences of random draws.", "anchors": ["src/native/ecc.rs: EdwardsPoint::rand, EdwardsPoint::get_for_y, EdwardsPoint::from_scalar, EdwardsPoint::is_in_curve, EdwardsPointEx::is_in_subgroup, JubJubBN256, JubJubBLS12_381"]}
{"id": "C104", "title": "Scalar multiplication takes the same steps for all scalars", "statement": "The sequence of point operations (doublings and additions) that EdwardsPoint::mul executes does not depend on the scalar, so that who measures the time of eddsaposeidon_sign learns nothing about secret key and nonce. (Found false: there is one doubling for every bit of the limbs, but an addition only for every one; the number of additions of a multiplication is the number of ones in the scalar, that of a signature the number of ones in nonce and secret key together, and the sequence of the operations determines the scalar and the secret key.)", "quantifier": "all points, scalars, secret keys and messages", "why_tests_cant": "Equality of the runs for all pairs of scalars.", "anchors": ["src/native/ecc.rs: EdwardsPointEx::mul_raw, EdwardsPoint::mul", "src/native/eddsaposeidon.rs: eddsaposeidon_sign"]}
{"id": "C105", "title": "Commands that run at the same time do not disturb each other", "statement": "Start any number of the generated commands (setup, prove, verify, ...) at the same time such that none of them writes a file that another one writes or reads; they may share files that are only read, like the proving key. However their calls to the operating system alternate, and whatever becomes of the calls (failures, partial reads and writes), each command does what it does alone: its files get the same contents, it ends with the same result and prints the same lines. A command whose own calls succeed comes to its end whatever happens to the others. A command that is killed at any moment leaves its files as after a failed call, and \"setup OK\" is printed only after both files are complete. A verdict \"true\" means what it means when nothing else runs. Files that no command writes stay as they are. What a command prints, returns and writes depends only on the files that it names and on what becomes of its own calls, not on which other commands run. Without the condition this fails: two runs of setup on the same files may both print \"setup OK\" and leave the proving key of one and the verifying key of the other, in all bindings.", "quantifier": "any number of commands with any paths, random choices and circuits; all contents of files; all schedules and all outcomes of calls; all moments of a kill", "why_tests_cant": "All interleavings of several processes.", "anchors": ["src/macros.rs: groth16_ethereum_bindings (cli_setup, cli_generate_verifier, cli_verify, cli_generate_test_data, cli_prove), groth16_waves_bindings, groth16_waves_bn256_bindings, groth16_near_bindings"]}
{"id": "C106", "title": "A verdict can be trusted for files from a stranger", "statement": "Run setup; when it ends well, keep the file with the verifying key. Later the files with the proof and with the inputs come from anywhere. If verify then prints \"true\", the inputs in the file have the right number, and the values in the coefficients by which the proof was combined from the points of the keys satisfy the circuit with these inputs - in native terms: the inputs and the secret data among these values pass all the checks of the native functions - unless the random choices of setup are among at most a fixed multiple of r^4 (of r^5) that depend only on coefficients and inputs. For n combinations fixed beforehand at most the part n*(4*(constraints + public inputs)*(variables + 2) + 8)/r of the byte strings that the operating system may give to setup allows one of them to get a false \"true\". Whatever the calls to the operating system return during setup and verify, and in all bindings (what their key files can be read as is the key that was written).", "quantifier": "all circuits, all contents of the files of proof and inputs, all provers that combine points of the keys, all outcomes of the calls during setup and verify, all random choices of setup", "why_tests_cant": "All strangers, all files and all circuits.", "anchors": ["src/macros.rs: cli_setup, cli_verify (all four bindings)", "src/helpers/groth16/prover.rs: generate_keys", "src/helpers/groth16/verifier.rs: verify, TruncatedVerifyingKey"]}
{"id": "C107", "title": "The command line says what is done", "statement": "A generated program does exactly what its command line says. The line names one of the commands of the binding and gives each of the command's options at most once, in any order and in any of the ways --long value, --long=value, -s value, -svalue, -s=value; then this command runs with these paths, and with the default paths for the options left out. No line can be read in two ways. With any other line (unknown or repeated options, missing values, other words, commands of another binding, --help) nothing is run and no file is touched. The default paths of different commands fit together and are different files, so that setup, generate-test-data, prove, verify without any options - or with options that give the same different paths to all of them - print their four lines with the right verdict. An option has the same names in all commands. Whatever the line is and whatever happens during the run, only files that the line gives to the command to write can change. If setup gets the same path for both of its files it still prints \"setup OK\", but one of the keys is lost; likewise prove and the proof.", "quantifier": "all command lines, all orders and spellings of options, all paths, all bindings, all contents of files", "why_tests_cant": "All command lines.", "anchors": ["src/macros.rs: cli_main, Opts, SubCommand, ProveOpts, VerifyOpts, SetupOpts, GenerateVerifierOpts, GenerateTestDataOpts (all four bindings)"]}
{"id": "C108", "title": "Circuits built at the same time do not influence each other", "statement": "A program may hold several constraint systems and build a circuit in each of them, calls in any order. A call of any function of the circuit API whose arguments belong to one constraint system works on this constraint system only, and its results belong to it again: every new variable and constraint goes there, all others stay as they are. So each circuit gets the variables, constraints and signals that it gets in a program of its own; if the program panics, one of the circuits panics on its own. The order of the calls does not matter. Nothing keeps a program from mixing signals of different constraint systems: their product does not panic, not even in a test, but the constraint that is made says that the result is the square of the first factor.", "quantifier": "any number of constraint systems of all kinds, all circuits (with code that depends on what it has built so far), all private data, all orders of the calls", "why_tests_cant": "All circuits and all interleavings of their calls.", "anchors": ["src/circuit/num.rs: CNum", "src/circuit/bitify.rs: c_into_bits_le, c_comp_constant", "src/circuit/poseidon.rs: c_poseidon, c_poseidon_merkle_tree_root", "src/circuit/ecc.rs: CEdwardsPoint::mul, CEdwardsPoint::from_scalar, CEdwardsPoint::subgroup_decompress", "src/circuit/eddsaposeidon.rs: c_eddsaposeidon_verify", "src/core/signal.rs: Signal::get_cs, Signal::derive_const, Signal::derive_alloc"]}
{"id": "C109", "title": "Who can forge signatures can compute secret keys", "statement": "Replace the two hash functions of the signature scheme by functions that are chosen at random (the one that makes the nonce from secret key and message is not accessible to others). A client that has a public key and makes fewer than q requests - signatures of messages of its choice, values of the challenge hash at points of its choice, each request depending on all earlier answers and on random coins - and then outputs a signature, outputs one that eddsaposeidon_verify accepts and that the signer did not give it, with probability at most q^2/l + q*(floor(r/l) + 1)/r + sqrt(q*e). Here e is the probability that an explicit program, which has only the public key and runs the client twice, outputs the secret key; l is the order of the group and r that of the field. For one key and for a random key. This also excludes a new signature of a message that was signed. The two first terms are less than 2^-120 for both curves and q up to 2^60. What the program outputs is always the secret key, and a client that has the secret key always succeeds. Signing and verifying do not panic, whatever the hash functions answer. With the hash functions of the code the model of the attack uses exactly eddsaposeidon_sign and eddsaposeidon_verify.", "quantifier": "all clients (all adaptive strategies), all numbers of requests, all secret keys, all answers of the hash functions, all parameters that describe a curve", "why_tests_cant": "A bound for all attackers.", "anchors": ["src/native/eddsaposeidon.rs: eddsaposeidon_sign, eddsaposeidon_verify, hash_r, hash_ram"]}
{"id": "C110", "title": "Keys and proofs have one form", "statement": "A verification key or a proof is read exactly if it consists of the bytes that were written for it: for both curves the bytes of a key determine the key, every key without points at infinity has exactly one form (less than one point of trailing bytes is ignored after a key, any bytes after a proof), and every byte string that is not the form of a key with points of the curve (and of the subgroup that is tested) is refused. The form of a point is a number of 256 or 512 bits (BN256) or 384 or 768 bits (BLS12-381), most significant byte first: the abscissa, with a flag that tells whether the ordinate is the greater one of y and -y, and with other flags for infinity and (BLS12-381) for compression. Infinity alone has two forms for BN256; keys and proofs with infinity are refused anyway. Parameter files use the uncompressed form, both coordinates, and they too are read, as points of the curve, exactly if they consist of the bytes that are written for them; what reading without checks accepts are all pairs of reduced coordinates, on the curve or not, but no flags.", "quantifier": "all points of the four groups, all byte strings, all keys and proofs of any length", "why_tests_cant": "All byte strings of 32 to 192 bytes, and all keys.", "anchors": ["src/helpers/groth16/verifier.rs: TruncatedVerifyingKey::read, TruncatedVerifyingKey::write", "src/helpers/groth16/prover.rs: Proof::read, Proof::write", "src/macros.rs: cli_setup, cli_prove, cli_verify (Parameters::read, Parameters::write)"]}
{"id": "C111", "title": "The secrets of a setup are uniform and all its points are good", "statement": "On BN256 every point that G1PointData converts to lies in the group of prime order r, so no subgroup test is missing there: exactly r data are accepted. (On BLS12-381, where there are other points, the tests leave exactly r data in each group; and there too the setup draws only points of order r, and equally many byte strings lead to each of the (r-1)^2 * r^5 secrets.) G2PointData accepts exactly r*(2q - r) data, of which exactly r are points of the group of order r, so there the missing test matters. generate_keys and the setup command draw two base points that are never zero and always of order r, and of the byte strings of any length that the operating system may return and for which the setup finishes its draw, equally many lead to each of the (r-1)^2 * r^5 possible secrets (two bases, alpha, beta, gamma, delta, tau); each of them is possible. So the bounds on keys that reject an honest proof, on keys with which a given algebraic forgery is accepted, and on the same through the command line, hold on BN256 and on BLS12-381 without any assumption about random points. The groups do have a pairing of the kind that these statements assume.", "quantifier": "all data of points, all byte strings of all lengths, all choices of the secrets, all circuits and lists of forgeries", "why_tests_cant": "Counts over all byte strings of a length and over groups of about 2^254 and 2^508 points.", "anchors": ["src/helpers/groth16/prover.rs: generate_keys", "src/helpers/groth16/mod.rs: G1PointData, G2PointData", "src/core/osrng.rs: OsRng", "src/macros.rs: cli_setup"]}
{"id": "C112", "title": "From the bytes of the operating system to the printed verdict", "statement": "Let a program be generated for a circuit over the circuit API that has keys (all allocated variables occur in constraints, the size fits) and uses the constant as C71 demands. Of the byte strings of any length that give setup its random choices, at most the part (2*(constraints + inputs)*(2*variables + 1 + secret variables) + inputs + 4)/r is such that for some data that satisfy the circuit and some random choices of prove the session setup, generate-test-data, prove, verify does not succeed with the four right lines, the last one 'Verify result is true.'; for given data that do not satisfy the circuit at most the part (2*(constraints + inputs)*(4*variables + 4 + secret variables) + inputs + 4)/r does not end with 'Verify result is false.'. With compressed points (Waves) this holds of the setups for which more than the part 3/r of the byte strings of some length for prove do so. On BN256 (all bindings) and on BLS12-381 (the Waves binding), with the points drawn, converted, written and read as the libraries do it, nothing is assumed but the pairing, square roots and a disk without faults.", "quantifier": "all circuits with keys, all data, all byte strings of all lengths for setup and prove, all file names and contents of the disk, the three bindings", "why_tests_cant": "Counts over all byte strings, all circuits and all data.", "anchors": ["src/macros.rs: groth16_waves_bindings, groth16_ethereum_bindings, groth16_near_bindings", "src/helpers/groth16/prover.rs: generate_keys, prove", "src/core/osrng.rs: OsRng"]}
{"id": "C113", "title": "Hash digests are those of RFC 7693, however the bytes are fed", "statement": "The values derived from hashes - field elements from seeds (from_seed), the nonce of a signature, the numbers of a seedbox - are made from digests that are exactly BLAKE2s of RFC 7693 with the personalisation __fawkes, for messages of every length. Feeding a message in several update calls, in any pieces, gives the digest of the joined bytes; no length below 2^64 panics; digest lengths other than 1 to 32 and personalisations above 8 bytes are refused.", "quantifier": "all messages of all lengths, all ways to cut them into pieces, all digest lengths and personalisations, all seeds, keys, messages and salts", "why_tests_cant": "Messages of all lengths and all cuts; test vectors have one block.", "anchors": ["src/native/num.rs: Num::from_seed", "src/native/eddsaposeidon.rs: hash_r", "src/core/seedbox.rs: SeedboxBlake2::new_with_salt, SeedboxBlake2::next_u32"]}
{"id": "C114", "title": "Square roots are found, and only square roots", "statement": "Num::sqrt ends for every element of the scalar fields of BN256 and BLS12-381, returns an element whose square is the argument if there is one, and returns None exactly for the elements that are not squares; the same holds of the base fields and quadratic extensions with which points are decompressed and drawn. So the statements about curve parameters, decompression, signatures, setups and whole sessions that speak of a square root of the field hold without that assumption: the parameter constructors succeed with the curves of the other theorems, subgroup_decompress returns exactly the points of the subgroup, signatures verify, setup secrets are uniform.", "quantifier": "all elements of six fields; all primes for the algorithms", "why_tests_cant": "The fields have 2^254 to 2^762 elements and a loop that could run forever on some of them.", "anchors": ["src/native/num.rs: Num::sqrt", "src/native/ecc.rs: EdwardsPoint::subgroup_decompress, EdwardsPoint::get_for_y, EdwardsPoint::from_scalar, JubJubParams", "src/helpers/groth16/prover.rs: generate_keys"]}
{"id": "C115", "title": "Arithmetic on machine words is that of the field", "statement": "Field elements are kept as arrays of 64-bit words. Every computation with the operators of Num (+, -, *, /, unary minus, double, square) on such arrays ends, never overflows, panics exactly if it divides by zero or starts from a constant that is not below the modulus, and otherwise returns the one array that stands for its value in the field: results are always reduced, two arrays are equal exactly if the elements are, is_zero tests for zero, from_repr accepts exactly the numbers below the modulus and into_repr returns the number itself. Random elements, drawn from a seedbox or from the operating system, are arrays that stand for the drawn elements, use the same numbers and fail in the same cases.", "quantifier": "all odd primes with any number of words, all field elements, all expressions of any size", "why_tests_cant": "Carries, borrows and final subtractions that only some of 2^508 pairs of arguments reach, and a loop whose length depends on the argument.", "anchors": ["src/native/num.rs: Num::inverse, Num::double, Num::square, Num::is_zero, AddAssign, SubAssign, MulAssign, DivAssign, Neg, PartialEq", "src/core/field.rs: Field"]}
{"id": "C116", "title": "Hashes, trees, points and signatures computed on machine words are those of the field", "statement": "The native functions run on elements kept as arrays of 64-bit words: Poseidon, with and without salt, Merkle proofs and tree roots, the generation of Poseidon constants, curve operations on affine, extended and Montgomery points, scalar multiplication with a scalar given as words, decompression, square roots, conversions to and from bytes, integers and the other field, from_seed, signing and verifying. On all inputs they return the words of the value that the definitions over the field give, and panic exactly when these do. So a signature over BN256 or BLS12-381 computed on words verifies on words, for all keys, messages and constants.", "quantifier": "all primes other than 2 (BN256 and BLS12-381 for the signature), all arrays below the modulus, all lists, parameters, scalars, bytes, keys and messages", "why_tests_cant": "All arrays of all fields, where carries and borrows that are rare for random inputs matter.", "anchors": ["src/native/num.rs: Num", "src/native/poseidon.rs: poseidon, poseidon_with_salt, poseidon_merkle_proof_root, poseidon_merkle_tree_root, PoseidonParams::new", "src/native/ecc.rs: EdwardsPoint, EdwardsPointEx, MontgomeryPoint", "src/native/eddsaposeidon.rs: eddsaposeidon_sign, eddsaposeidon_verify"]}
{"id": "C117", "title": "Circuits built on machine words record the same constraint system", "statement": "Building a circuit with elements kept as arrays of 64-bit words gives, on every constraint system of every kind, the same panic or the corresponding result, and the corresponding system: the same numbers of variables and constraints, the same indices in the same places, and coefficients and witness values that are the words of those over the field. This holds for every operation on signals, bit decomposition and comparison, Poseidon and Merkle roots, all point gadgets with scalar multiplication, subgroup check, decompression and from_scalar, and the verification of signatures. Corresponding systems are satisfied by corresponding assignments, so what holds of a circuit over the field holds of the one on words.", "quantifier": "all primes other than 2 (BN256 and BLS12-381 for signatures), all constraint systems, signals, values, lists, parameters and assignments", "why_tests_cant": "All circuits, witnesses and sizes; which variables and constraints are recorded depends on tests on elements, such as whether a coefficient or a value is zero.", "anchors": ["src/circuit/num.rs: CNum", "src/circuit/bool.rs: CBool", "src/circuit/bitify.rs: c_into_bits_le, c_into_bits_le_strict, c_comp_constant, c_from_bits_le", "src/circuit/mux.rs: c_mux3", "src/circuit/poseidon.rs: c_poseidon, c_poseidon_with_salt, c_poseidon_merkle_proof_root, c_poseidon_merkle_tree_root", "src/circuit/ecc.rs: CEdwardsPoint, CMontgomeryPoint", "src/circuit/eddsaposeidon.rs: c_eddsaposeidon_verify"]}
{"id": "C118", "title": "The files for contracts have a fixed form", "statement": "What setup and prove write for the contracts on the chains has one form. Ethereum: a JSON object with the members alpha_g1, beta_g2, gamma_g2, delta_g2 and ic (a, b and c for a proof, an array for the public inputs), where numbers are strings of decimal digits, points of the first group are [x, y], points of the second group have of each coordinate the imaginary part first, and infinity is written as zeros. Waves: base64 of the compressed points in the order of the key (of the proof), and of the public inputs one after the other, most significant byte first. Near: base64 of the numbers of the points, real parts first, least significant byte first, with the number of the points of ic (of the public inputs) in four bytes before them. After every run of setup or prove that ends well the files hold exactly that for the keys, the proof and the public inputs computed. generate-test-data writes a JSON array with the public and the secret data. verify reads a text as a key, a proof or a list of public inputs exactly if the text has that form (JSON in any spelling; base64 with or without the = at the end; nothing before or after it; for compressed points see C110).", "quantifier": "all keys, proofs and lists of public inputs, all texts, all circuits, all states of the disk before the command and all failures during it", "why_tests_cant": "Tests read back what the same code wrote, which holds for any form on which writer and reader agree.", "anchors": ["src/macros.rs: groth16_ethereum_bindings, groth16_waves_bindings, groth16_near_bindings, num_vec_to_buf", "src/helpers/groth16/mod.rs: G1PointData, G2PointData", "src/helpers/groth16/prover.rs: Proof, ProofData", "src/helpers/groth16/verifier.rs: TruncatedVerifyingKey, TruncatedVerifyingKeyData"]}
{"id": "C119", "title": "Points and Merkle proofs read from JSON are not checked, and circuits do not need the check", "statement": "EdwardsPoint and MontgomeryPoint are written as JSON objects with the members x and y, MerkleProof as an object with the members sibling and path, and each is read back as it was. Reading accepts exactly the JSON values of that form with canonical numbers. It checks neither that a point is on the curve nor that the lists of a Merkle proof have the length that the type states: for every curve some text is read as a point outside it, for every length some text is read as a Merkle proof with which poseidon_merkle_proof_root maps every value to itself, and for any siblings there is one where only the first k of them count. So a caller who checks a proof that was read natively must check the lengths too. A circuit need not: alloc of data that contain a vector of another length than its type states panics, whatever the type, so a Merkle proof that a circuit takes has the right length.", "quantifier": "all points, all Merkle proofs and lengths, all texts, all curves and Poseidon parameters, all signal types, values and constraint systems", "why_tests_cant": "All texts, types and lengths.", "anchors": ["src/native/ecc.rs: EdwardsPoint, MontgomeryPoint", "src/native/poseidon.rs: MerkleProof, poseidon_merkle_proof_root", "src/core/sizedvec.rs: SizedVec", "src/core/signal.rs: Signal::alloc"]}
