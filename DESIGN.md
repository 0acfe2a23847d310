# Design: a Lean 4 model of fawkes-crypto and its verified properties

## 1. Method

The Rust code in /repo is transcribed function by function into total, computable Lean 4
definitions (`lean/Verif/Model/*.lean`). Every definition cites the file and lines it models.
Properties are theorems in `lean/Verif/Props/*.lean`; helper lemmas live in
`lean/Verif/Lemmas/*.lean`; the small vocabulary the statements need (satisfaction of
constraints, evaluation of a linear combination, the Edwards group law, ...) lives in
`lean/Verif/Spec/*.lean` and does not mention the implementation.

### Field elements
`Num<F>` over a `PrimeField` is modelled by a Lean field. Purely algebraic gadgets are stated for
an arbitrary field `F` with decidable equality; code which looks at the integer representative
(`into_repr`, bits, bytes, parity, comparison) is stated over `ZMod p` for an arbitrary prime `p`.
The Montgomery-form arithmetic of `ff` is a dependency and is trusted, as are `BigUint`,
`blake2_rfc`, the pairing library and `bellman`.

### Circuit building
Circuit code runs in `M F α := StateT (CS F) (Except Panic)`. `CS` is the constraint system
behind the `Rc<RefCell<..>>`: the backend (TestCS, Groth16 setup, Groth16 proving), counters, and
the complete history of allocated variables and enforced constraints (for TestCS the code keeps
only a counter and a hash map; the list is the history of calls). `panic!`, `assert!`, `unwrap` on
`None` and division by zero are `Except.error`. A signal is a `value : Option F` plus a linear combination
exactly as in the code; the `cs` handle is dropped (Model/Handles keeps it, and C108 shows that for signals of one system this is the same).

Statement forms for a gadget `g`:
* **soundness**: whenever `g` returns in state `s'`, for every assignment `w` (with the constant
  variable = 1) satisfying all constraints of `s'`, the outputs evaluated under `w` are the
  specified function of the inputs evaluated under `w`. `w` is arbitrary, i.e. adversarial.
* **completeness**: from a state whose recorded values satisfy its constraints, `g` does
  not panic, the new recorded values satisfy the new constraints, and the `value` of the output is the
  specified one.
* **erasure**: running `g` with all values replaced by `None` on the setup backend produces the
  same linear combinations and constraints.

### Square roots
`PrimeField::sqrt` is a parameter `sqrt : F → Option F` with the specification that it returns a
root iff one exists; the algorithms of the fields are written out in Model/Sqrt and meet it (C114).

## 2. Per property plan

| id | plan |
|---|---|
| C01 | model the cursor merge of `AddAssign`/`SubAssign`; evaluation lemma by induction on both lists, no sortedness assumed |
| C02 | invariant: strictly sorted, non-zero non-constant coefficients; preserved by each operation; uniqueness of canonical form gives commutativity |
| C03 | case analysis + unit assignments separating canonical forms |
| C04 | soundness / completeness / count by cases on `as_const` |
| C05 | false for a constant numerator (code returns `b/a`); prove refutation and the partial theorem for the other cases |
| C06-C10 | algebra over the emitted constraints; compound types by induction on the number of leaves; the short forms of `CBool` (`if_else`, `assert_true`, `c_true`, ...) in Model/BoolApi and Props/BoolApi |
| C11 | invariant over runs of the primitive operations; for clients of the whole API (also C02, C03, C13) a run linked with itself in the simulation logic (`Lemmas/SelfLink`) |
| C12 | client programs over the whole circuit API as a syntax tree (`Model/Gadgets`); a relational logic for `same variables and matrices` (`Lemmas/Shape`, `CEccShape`, `GadgetsShape`) and a simulation logic for `setup gets through if proving does` (`Lemmas/Link*`, `Lemmas/Setup`) |
| C13 | invariant: all allocated indices are below the counters |
| C14-C17 | induction over bits; integers vs field via `2^n <= p` |
| C18 | case analysis on three bits, polynomial identities |
| C19-C24 | circuit vs native by induction on rounds/layers; tree by induction on depth |
| C25,C26 | completeness of the Edwards law (Bernstein-Lange), associativity by polynomial certificate; extended coordinates refine the affine group |
| C27,C28 | induction over bits in the group |
| C29-C32 | algebra with explicit non-vanishing conditions from non-squareness |
| C33-C40 | gadget constraints imply the affine formulas; windowed multiplication by induction over windows with the invariant that the accumulator is outside the subgroup coset that would be exceptional |
| C41-C43 | group theory on top of C28, C31, C36, C38, C39 |
| C44 | Lucas/Pratt certificates and Euler criterion, checked by the kernel with `decide`-style evaluation on `Nat` |
| C45-C51 | `Nat.digits`-style induction over bytes/limbs |
| C52-C54 | abstract coordinate fields; round trips by list induction; at the two shipped curves with the generators of both groups, the base field of BLS12-381 shown prime by an elliptic-curve certificate (`Lemmas/PrimeBls`) |
| C55 | abstract bilinear pairing |
| C56 | template as list of segments; property of the substitution |
| C57 | false for deserialisation (no length check): refutation + partial |
| C58 | induction over the signal shape |
| C59 | induction over call count, Blake2s abstract in the general theorem |
| C65 | rejection sampling over the seedbox stream (`Model/Rand`); invariant: the generator stands at a block boundary; salts of different sizes differ (a numeral ends at the first character that is not a digit) |
| C66 | the contract's source is text (C56); its functions are modelled on 256-bit words over Mathlib's curve groups with the precompiled contracts of EIP-196/EIP-197 (`Model/Contract`); answer characterised by `Statement.Of` and compared with `verify` |
| C67 | `generate_keys` and `prove` run the modelled circuit and then compute the Groth16 keys and proof from the recorded constraints (`Model/Bellman`: domains, interpolation, quotient, multi-exponentiations); the verification equation is reduced to an identity of polynomials at the secret point; satisfied constraints make it an identity, an unsatisfied one makes it a nonzero polynomial of bounded degree |
| C68 | on the same model: shift the two random choices by the difference of the interpolated sides divided by `delta`; the simulator uses the secrets of the key generator and the public inputs, and the bijection between its random choices and those of `prove` is explicit |
| C69 | on the same model: the difference of the inputs is a nonzero polynomial in the secret point because of the constraints added for the public inputs |
| C70 | the two back ends number variables differently, so linear combinations differ in order too: a simulation up to an injective renaming of variables, in both directions (`Lemmas/RenLink`, `TestLink`, `TestCode`); which variables are public is read off the whole run first |
| C71 | false: refuted by a circuit without public signals whose constant occurs on the right only with the coefficient zero (`C71_refuted`, computed); what holds is proved by comparing the filtered queries of the keys with the density trackers of the prover (`Lemmas/Queries`): canonical linear combinations (C02) have no zero coefficient except of the constant, and a column polynomial that is not zero has few roots |
| C72 | `Model/Base64` transcribes `encode` and `decode` of the base64 crate; specification by 6-bit groups (`Spec/Base64`) |
| C73 | `Model/Json` (pretty printer and parser of serde_json, with its recursion limit), `Model/Serde` (the derived and hand-written `Serialize`/`Deserialize` of keys, proofs, `Num`, `SizedVec` and of the generated data types as a `Layout`); parser after printer by induction on the document |
| C74 | `Model/KeyFiles`: reading is characterised exactly as a concatenation of blocks, round trips follow |
| C75 | `Model/Cli`: commands as state transformers over a world of files, printed lines and a plan of what the disk will do to the next calls. False: refuted with a short `write` (`C75_refuted`); the true part is `C75_partial` |
| C76, C77 | on the same model, for all plans: what every step may change (`Lemmas/Cli`), then composition |
| C78 | the four commands one after the other (`session`), the formats as round trips (`Lossless`; `LosslessFinite` for compressed points), then C67, C73, C74, C76, C77, C79; for BN256 the conversions of points are those of the code (`C78_bn256_coords`) |
| C79 | the points of keys and proofs in the exponent (C67), each a non-zero polynomial of degree one in one of the random choices |
| C80 | `Model/Derive`: the generated methods over the list of fields; equal to those of nested pairs by induction on the list (`C80_same`), so everything proved of pairs holds of structs and tuples |
| C81 | `Derive.expand` over the parsed item (attributes, fields, types); exact characterisation of what is accepted and generated; false in general (section 6) |
| C82 | the operating system is a byte string (`Model/OsRng`); every permutation of the drawn field elements lifts to a length-preserving bijection of the byte strings (a table of the positions of the drawn elements, `Slots`, closed under sequencing); counting then gives uniformity, independence, the rarity of bad keys (with C67) and hiding (with C68) |
| C83 | the forwarding macros are functions that take the written form of an operator and return the four forms (`Model/Operators`); every form is shown equal to the one function per operator that all other properties speak of; for the commutative macros (which exchange operands by capacity) by commutativity of the merge of canonical linear combinations |
| C84 | a prover that only combines the points of the keys is given by its coefficients (`Spec/Algebraic`); the equation of the verifier is then an identity between a polynomial in the five secrets and zero; if the polynomial is not zero, it has few zeros (Schwartz-Zippel, by induction over the secrets); if it is zero, comparing its coefficients (`Lemmas/Algebraic`) gives the divisibility that says that the extracted values satisfy the constraints. Provers that use other points, or that depend on the keys in another way, are outside the model |
| C85 | a circuit written by hand is a client program that starts without registers and may publish anywhere (`handwritten`); its setup run has the shape of its proving run by the simulation of C60; then as C67 |
| C86 | the crate's test circuit is modelled line by line (`Model/Preimage`), shown equal to a client program, and C85, C84, C22 and C23 are combined |
| C87 | the variables allocated for the public and the secret data are the first ones, in order (`Lemmas/Knowledge`); so the values C84 extracts from the proof are the secret data, and the soundness of the client's code applies to them |
| C88 | the entries of the queries are polynomials in the secrets; those of used variables are not zero, so few secrets are roots of one of them (Schwartz-Zippel); the converse by reading off what `generate_parameters` checks |
| C89 | the circuit as a client of C87 and its run with arbitrary directions (`Lemmas/Plain`: allocating booleans is allocating numbers); the forged witness is computed in closed form; counting shows that keys with good secrets exist in the field of 7681 elements; false in general (section 6). For the circuit with assertions the chain from key generation to the verdict, as in C94: that every sibling occurs in a constraint follows from the new variables of the hash (`Lemmas/FreshKeys`) |
| C90 | a predicate on computations, `Uses`: the variables added are in constraints; it passes through sequencing, and every allocation in a gadget is followed by a constraint on the variable; composed gadget by gadget (`Lemmas/Used`), then induction on the client program |
| C91 | `Spec/JsonGrammar` (RFC 8259 as inductive relations between texts and values) and `Spec/JsonData` (which values stand for which data), both without the readers; `Lemmas/JsonGrammar`, `Lemmas/JsonReader`: every text of the grammar is read (induction on the grammar) and what is read is in the grammar (induction on the reader's fuel) |
| C92 | `Spec/Counts`: `Adds s m n`; a small logic of exact counts (`Takes`, `Lemmas/Counts*`) over the monadic model: every multiplication of two signals that are not constants is one constraint, and the signals inside the functions are shown not to be constants (independence of the variables they contain). For a constant point of the curve the columns of the lookup tables must not be degenerate (`Generic`); for the generators of the shipped curves the kernel computes this for all windows (`Lemmas/CountsShipped`); for the Poseidon parameters it recomputes the generated matrices (`Lemmas/PoseidonShipped*`). A Merkle tree (`Spec/CountsTree`, `Lemmas/CountsTree`): the first nodes of every level vary, the others are constants, whose hashes are free |
| C93 | matrix as a Mathlib `Matrix`; injectivity of every round by the inverse matrix and `5 ∤ r − 1`; counting fibres of a bijection of `List.Vector`. The matrices of the repository's parameters and their inverses are checked by the kernel against the model of the generator |
| C94 | the client `signedMain` over the model of the gadget; C87 (which now also tells that the client starts with variables, as the gadget's soundness needs) with C43; the honest chain from C41, C43, C67 and C88/C90; that `r` is used because the square root of −1 is the abscissa of points of order four only; exact count from C92 |
| C95 | `Gains m k` (Lemmas/Slim): at least `k` more constraints than variables, composed along the programs of the gadgets as in C90; the numbers for C94 and C89 follow from the exact counts and the bounds of C87/C88 |
| C96 | induction on the directions (two proofs) and on the levels (two trees) over the model of `poseidon_merkle_proof_root` and `poseidon_merkle_tree_root`; the failure case of the induction is the collision, which the statement spells out with the numbers hashed; C22/C23 link trees and proofs |
| C97 | injectivity of multiples of the base point (prime order) with C31; the two verification equations (C42) are subtracted; the nonce through the byte model of `hash_r` (C46, Blake2s model) |
| C98 | the verification equation (C55) under the change of the points, for every bilinear pairing; C68's simulator shows that a changed proof is one that `prove` returns |
| C99 | `Rig`: two satisfying assignments that agree before a function of the library agree after it, and on its result; function by function over `Code` (`Call.Sharp` says which calls qualify); the exceptions by constructing the other assignments (`Solves`), for `assert_in_subgroup` from a run with another preimage |
| C100 | `nativeRun` (Spec/Native.lean) executes the calls of a `Code` on field elements by the modelled native functions; soundness call by call with `Spec` (`sound_call`), completeness by running the call on the state that carries the given assignment (`twin`, `runs_call`) and comparing shapes (`rel_call`), then induction over the client; `Call.Proper` lists the uses for which the two are meant to agree; `C100_circuit`, `C100_macros`, `C100_witness`, `C100_proof` and `C100_knowledge` for whole circuits, `C100_membership` as a client |
| C101 | the points killed by `l` are the multiples of the base point: two independent ones would give `l²` points with different abscissas (C31) in a field of `r < l²` elements; with it C42 becomes the signer's equation, and counting is a bijection with the nonces |
| C102 | induction on the levels: changing one leaf changes one node of every level, so the siblings stay; C23 and C96 for the roots; the circuit through C100 (`C100_macros`, `C100_knowledge`) |
| C103 | halving has at most two answers, so multiplication by 8 is at most 8 to 1, exactly 8 to 1 with a point of order 8 (certificate of C33), and its image is the subgroup, which C101 identifies with the multiples of the base point; compression by C30; `rand` by induction on the number of draws; `from_scalar` by C32: at most four scalars before the multiplication by the cofactor |
| C104 | Model/Trace repeats the loop of `mul_raw` and `eddsaposeidon_sign` recording the point operations; erasure by induction on the bits, injectivity because a doubling follows every bit |
| C105 | Model/Process gives the commands of Model/Cli as sequences of calls and runs any number of them by a schedule; a simulation shows that a process sees only its own calls, a second one that a run of one process is a run of the command of Model/Cli under some plan |
| C106 | C76 (what is in the file after `setup`) with the round trip of the key of each format (C53, C54, C72, C73), C77 (what "true" says about the files), and then C84 and C100 with the exceptions chosen after the coefficients and inputs; the count of byte strings by C82 (`C84_entropy`, `C106_entropy` in Props/Forge) |
| C107 | Model/CommandLine has the option structs of the four bindings and a reader of command lines after the documentation of `clap`; induction on the words shows that the accepted lines are exactly the spellings of options in Props/CommandLine; the session by C78 |
| C108 | Model/Handles has the functions of src/circuit once more, with the reference to the constraint system that the code uses at each place and a store of all constraint systems; equations show for each function that on signals of one system it is the function without references; induction on the order of the calls |
| C109 | Model/Forger: `signWith`, `verifyWith` (the code with the hash functions as parameters), a client as a tree of requests, `play` (the attack with given functions), the same attack with a tape of answers and a log, a signer without key, the extractor. Choosing functions or answers is the same: counting functions that agree with the log, by induction on the client (Lemmas/Lazy). Simulation by re-indexing the nonces, rewinding by induction on the client (Lemmas/Rewind), the forking lemma by Cauchy-Schwarz over tapes split at a place (Lemmas/Forking). Spec/Forger has the probability. The hash functions are idealised: no theorem about Poseidon or BLAKE2s follows |
| C110 | Model/PointBytes: `into_compressed`, `into_uncompressed`, `into_affine`, `into_affine_unchecked` of both curves, with flags and masks as in `pairing_ce`; Spec/PointBytes: the number that a point is written as. A byte string of the right length is read as a point exactly if it is this number: one lemma for every kind of coordinates (`LawfulBytes`), used for `Fq` and `Fq2`; the sign is determined because no point has ordinate zero (`-b` is no cube: a power in `Fq`, by the norm in `Fq2`). Then the laws that C54, C74, C78 assume |
| C111 | Model/RandomPoint: `Rand` for `bool`, `Fq2` and the points, as in `rand` 0.4.6 and `pairing_ce` 0.18. The orders of the groups of BN256 are computed: `Lemmas/TwistCert` checks multiples of explicit points with the kernel, Pratt certificates give the prime factors of `2q - r`, so the order of the twist is a multiple of `r·(2q - r)` and the trivial bound `2·|field| + 1`, with the oddness of the order, leaves only that (`card_bn`, `card_bn2`). For BLS12-381 (Props/BlsPoints) the orders `card_bls`, `card_bls2` come from points of prime order and, for the primes whose square divides the order, from the endomorphism `(x, y) ↦ (βx, y)` (Lemmas/CurveTurn; the points and checks are in Lemmas/BlsCert, the primes in Lemmas/PrimesBlsTwist). A sampler whose accepted values can be exchanged at will (`Free`) stays so under retrying, sequencing and bijections; the multiplication by the cofactor has fibres of one size, so the results are equally likely (`evenly`). The corollaries instantiate C82, C84 and C106. A pairing of the groups is built from logarithms |
| C112 | C78 (sessions, for secrets outside small sets), C88 (which secrets give keys) and C82 (secrets are uniform) together: the union of the six kinds of bad secrets is counted, then the byte strings. BN256: the samplers of C111, the conversions of C78 and the encodings of C110, all points of the curves (no subgroup test on reading). BLS12-381 (Props/BlsSession, the Waves binding): the groups are the points that `r` kills, which are all that the setup draws (`C112_bls_draws`) and all that are read |
| C113 | Spec/Blake2s: the pseudo-code of RFC 7693 on 32-bit words and arrays, initialisation vector from square roots; Model/Blake2 equals it (round by round, then induction over blocks). Model/Blake2Stream: the context of the hash crate with its buffer; invariant `Fed` over the bytes fed so far, then `from_seed`, `hash_r` and the seedbox with their calls as written |
| C114 | Model/Sqrt: the algorithms of `ff_derive` (3 modulo 4; Tonelli-Shanks) and of `pairing` (quadratic extension) with their loops on fuel; Euler's criterion, the invariant of the outer loop (`c` has order `2^m`, `r^2 = a t`, `t^(2^(m-1)) = 1`), termination because `m` falls; for the extension the Frobenius map is the `q`-th power and the norm of a square is a square; then the hypotheses about roots are removed from C31, C41, C111 and C112 |
| C115 | Model/Limbs: the carry functions of `ff_ce` and the functions that `ff_derive_ce` generates (sums, Montgomery product, square, reduction, binary inversion, `from_repr`, `into_repr`) on lists of 64-bit words; each loop by induction over the words against the integer they stand for; reduction with the invariant `value * 2^64 = old value + k p`; inversion with `b a = u R^2`, `c a = v R^2`, `u` and `v` coprime, their product halving in every round; then induction over expressions; Model/LimbsRand: `Rand` on words (draw, mask the top word, test), by induction over the draws against Model/Rand and Model/OsRng |
| C116 | Model/WordField: the arrays of words below the modulus as an instance of `Field` whose operations are those of Model/Limbs, isomorphic to `ZMod p` by C115; Lemmas/Natural: the native functions, which the model has for any field, commute with homomorphisms of fields; Model/WordSign: the functions that look at integers or bytes (conversions, `from_seed`, roots, signing, verifying) on arrays, against their originals by C115; both curves |
| C117 | Spec/Mapped: signals, constraints and constraint systems with every element mapped, and `SameCircuit`; Model/WordCircuit: second versions, on arrays of words, of the circuit functions that look at bits or at the scalar field (the others are written for any field); Lemmas/NaturalCircuit: every circuit function commutes with a homomorphism of fields, with a relation on the monad that is closed under `bind`; Lemmas/WordCircuit: the bit functions, by induction on their loops; both curves |
| C118 | Spec/Files: the JSON values and the bytes of keys, proofs and public inputs, from the coordinates of the points (Spec/Near for the numbers of Near). Props/FileLayout compares the writers with them, by the grammar of C91, the base64 of C72 and the layouts `C53_point_layout`, `C53_proof_layout`, `C53_vk_layout` in Props/NearLayout; the commands by C76. Props/FileReading: which texts are read, for points that are made from their own coordinates only (`C118_bn256_exact`). How serde_json indents is not part of the property |
| C119 | Model/NativeJson: the derived JSON forms of points and Merkle proofs as layouts of Model/Serde; Spec/NativeJson: the values written and the values read. Reading and writing by C73, C91 and C118; `alloc` by induction over the signal type |
| C60, C61 | length computations / counting along the structure |

Items are tracked in MANIFEST.json.

## 3. Trusted base

* **Lean 4.33.0's kernel.** Numeric facts (primes, generators, group orders, templates) are evaluated by the kernel
  (`decide +kernel`, `rfl`); no `native_decide`, `bv_decide`, `implemented_by`, `unsafe` or compiled code.
* **Axioms.** No axioms are added. Every property theorem depends on a subset of `propext`, `Classical.choice`,
  `Quot.sound`; AXIOMS.md lists the set for each theorem (output of `#print axioms`).
* **Mathlib** definitions that occur in statements: `Field`, `ZMod`, `Nat.Prime`, `List`, `BitVec`, `QuadraticAlgebra`,
  `WeierstrassCurve.Affine.Point` (the group law of the pairing curves), `Polynomial` evaluations in proofs only.
* **The transcription** Rust to Lean itself: each definition cites the lines it models; the comparison is by reading.
* **The specifications** in `Verif/Spec` and the definitions that precede the theorems in `Verif/Props`.

Behaviour of code outside /repo that the model takes as given:

| dependency | what is assumed |
|---|---|
| `ff` / `ff_derive` | field operations are those of `ZMod p` (proved in C115 of the generated word arithmetic, which Model/Limbs transcribes since its source is not in /repo); `into_repr` is the canonical representative; `from_repr` fails from the modulus on; `read_be/read_le/write_*` are positional; `sqrt` returns a root iff there is one (parameter with specification `IsSqrt`; proved in C114 of the algorithms as published, which Model/Sqrt transcribes since their source is not in /repo, with the generator 7 of both scalar fields); `Rand` draws four 64-bit limbs, masks the top bits and retries from the modulus on, and takes the accepted words as the Montgomery form |
| `blake2_rfc` | `Blake2s` as in RFC 7693, transcribed in `Model/Blake2` and proved equal to the pseudo-code of the RFC (C113, `Spec/Blake2s`); the buffering context in `Model/Blake2Stream` is written after the published crate, whose source is not in the sandbox |
| `num` (BigUint, BigInt) | arithmetic of `Nat` and `Int`, decimal printing and parsing |
| `borsh`, `serde` | little-endian `u32` length prefix and concatenation; serde: the sequence of strings or field names handed to the serializer |
| `pairing` | memory layout of the affine point used by the `transmute`s; curve and subgroup tests; the encodings of points are those of version 0.18 as transcribed in Model/PointBytes (its source is not in /repo); random points are made as transcribed in Model/RandomPoint; C54, C74 and C78 take any encodings with the stated laws, and C110 proves these laws for the transcribed ones; `Engine` is a bilinear pairing computed by a Miller loop and a final exponentiation |
| `bellman` | the order in which variables are numbered; that the key generator does not evaluate value closures and the prover does; `generate_parameters` and `create_proof` (of `bellman_ce` 0.3.1, whose source is not in /repo) compute what `Model/Bellman` states: points at infinity are left out of the three queries `a`, `b_g1`, `b_g2`, the density trackers count every occurrence of a variable, and `multiexp` fails when bases run out or are the point at infinity |
| `rand` 0.4.6, draws of `bellman` | `next_u64` is two `next_u32`, high word first; the key generator draws two points, then alpha, beta, gamma, delta, tau; the prover draws r, then s; nothing else is drawn |
| `serde_json`, `base64` | printing and parsing as transcribed in Model/Json and Model/Base64 (versions 1.0.52 and 0.12.1; their source is not in /repo); numbers other than strings do not occur in the data |
| operating system | a call fails, succeeds, or (`write`) takes a prefix of the bytes; files keep what was written |
| `std` | vector and string primitives (`replace`, `join`, slicing), panics on overflow where overflow checks are on |
| EVM | precompiled contracts 6, 7, 8 as in EIP-196/197, Solidity 0.6 semantics of the statements used, sufficient gas, caller and environment that do not interfere (the contract has no state) |

## 4. What is modelled

All of `src/` except the items listed in section 5; the correspondence file by file:

| /repo | model |
|---|---|
| src/constants.rs, src/native/bn256.rs, src/native/bls12_381.rs | Model/Params |
| src/core/cs.rs, Groth16CS of src/helpers/groth16/mod.rs | Model/CS |
| src/core/signal.rs, src/core/sizedvec.rs, fawkes-crypto_derive/src/signal.rs (generated code), CircuitObject of src/macros.rs | Model/Signal (pairs), Model/Derive (any number of fields, and the macro itself) |
| src/core/seedbox.rs | Model/Seedbox, Model/Blake2, Model/Blake2Stream |
| src/core/osrng.rs, `generate_keys` and `prove` with it | Model/OsRng; random points: Model/RandomPoint |
| src/native/num.rs | Model/Num, Model/Rand, Model/Sqrt; the field operations on machine words: Model/Limbs, random elements: Model/LimbsRand; all native functions on them: Model/WordField, Model/WordSign; circuits on them: Model/WordCircuit |
| src/native/ecc.rs | Model/Ecc; the derived JSON forms of points and Merkle proofs: Model/NativeJson |
| src/native/poseidon.rs, src/circuit/poseidon.rs | Model/Poseidon |
| src/native/eddsaposeidon.rs, src/circuit/eddsaposeidon.rs | Model/Eddsa; point operations of signing: Model/Trace; attacks with ideal hash functions: Model/Forger |
| src/circuit/num.rs, src/circuit/bool.rs | Model/CNum |
| src/circuit/bitify.rs, src/circuit/mux.rs | Model/Bitify |
| src/circuit/ecc.rs | Model/CEcc |
| src/helpers/groth16/{mod,prover,verifier,near}.rs | Model/Groth16; `generate_keys`, `prove`: Model/Bellman; the bytes of points: Model/PointBytes |
| src/helpers/groth16/ethereum.rs | Model/Solidity (generator), Model/Contract (the generated contract) |
| client code over the whole circuit API | Model/Program, Model/Gadgets; with several constraint systems: Model/Handles |
| operator macros of src/macros.rs with the operator impls of src/native/num.rs and src/circuit/num.rs | Model/Operators |
| read_num, read_num_vec, num_vec_to_buf of src/macros.rs | Model/Num |
| the commands of the binding macros of src/macros.rs (setup, generate-verifier, verify, generate-test-data, prove) | Model/Cli, Model/Process for several at the same time, Model/CommandLine for `cli_main` and the option structs, with Model/Json, Model/Serde, Model/Base64, Model/KeyFiles for the formats |
| src/helpers/groth16/prover.rs:130-152 (the test circuit `CheckPreimageKnowledge`) | Model/Preimage |

Simplifications (also stated at the definitions): the `cs` handle inside a signal is dropped and the constraint system is
threaded as state (in all modules but `Model/Handles`, where it is kept and shown to make no difference: C108); reference/value operator variants generated by the `forward_*` macros are one function in all modules but `Model/Operators`, where they are
modelled and shown equal to it (C83); `LinkedList`
is `List`; loops are structural recursion over the same index ranges; `usize` is `Nat`.

## 5. What is not modelled

* of `clap` the texts it prints, its exit codes and arguments that are not Unicode text (its reading of options is modelled after its documentation, since its version is the client's choice); of the file system: directories, permissions, links between paths, deletion and renaming by others, loss of
  data after a successful call; a closed standard output;
* token-level parsing of the derive macro (`syn`, `quote`): `Model/Derive` starts from the parsed item and ends with the list of generated field accesses;
* that Poseidon and BLAKE2s behave like random functions: C109 replaces them by random functions, all other theorems use the functions of the code;
* that the bytes of the operating system are random: the theorems count byte strings; how `pairing` makes a random point is transcribed in Model/RandomPoint and used for both curves (C111, C112);
* tests and benches, except the circuit of the prover's test (C86).

## 6. Findings: where the code differs from the property

* **C05, C33, C39**: `CNum / CNum` with a constant numerator and a non-constant denominator leaves the result
  unconstrained by the numerator (`C05_refuted`); through it, adding constant points and multiplying by constant bits.
  Exactly: the sum or double of constant points gets the inverses of the right coordinates, or panics if one is zero
  (`C33_add_constants`, `C33_double_constant`); with one constant operand the sum is right.
  The product of a constant point is right as soon as the first three bits can select multiples that differ in both Montgomery
  coordinates (`C39_window_sound_partial`), and always when they can take four values; with no bits the call panics (`C39_no_bits`).
* **C40**: for the same reason `from_scalar` of a constant gives the native point or its negative, depending on the constant
  (`C40_constant_sound_partial`, `C40_refuted`); `C40_constant_exact` says for which constants the sign is wrong (8 of 73 on the small curve).
* **C12**: a decomposition wider than the field panics in setup, though proving gets through.
* **C67**: `generate_keys` panics for a circuit that leaves an allocated variable unused.
* **C71**: `prove` panics for every data, although `generate_keys` returned keys, if the constant one occurs on the right side of
  constraints with the coefficient zero only (`x * (y + 0)` in a circuit without public signals); see `C71_refuted`.
* **C73**: data types nested more than 126 levels deep can be written as test data, but not be read by `prove`.
* **C74**: parameters or proofs that happen to contain the point at infinity are written without complaint and cannot be read.
* **C75**: `generate-verifier` calls `write`, not `write_all`, and ignores the count: after a short write it reports success with a
  truncated contract (`C75_refuted`).
* **C76**: `setup` replaces its two files one after the other: a fault between them leaves parameters and key of different runs
  (it panics without a success line).
* **C81**: `derive(Signal)` panics if an attribute like `#[allow(..)]` stands before `#[Value = ..]`, and for fields of tuple types; of a
  path with several segments only the first is used; structs without fields are refused (or, as tuple structs, give code that does not compile).
* **C45**: `From<i32>`/`From<i64>` at the minimum.
* **C57**: deserialising a `SizedVec` does not check the length.
* **C119**: nor does deserialising a `MerkleProof`, and points are not checked to be on the curve (`C119_merkle_unchecked`, `C119_point_unchecked`).
* **C62**: `get_value`/`as_const` of a vector panic instead of returning `None`. Exactly: the first
  component without a value decides. If it lies in a vector the call panics, otherwise it returns `None`
  (`C62_get_value_exact`, `C62_as_const_exact`); types without vectors never panic (`C62_no_vectors`).
* **C43**: the circuit verifier accepts `s + l` besides `s`, and cannot be used with a constant `s`.
* **C89**: a circuit that uses `c_poseidon_merkle_proof_root` with an allocated `CMerkleProof` and nothing else does not prove
  membership: the directions are not constrained to be bits, and a proof for nearly any leaf can be forged from an authentic proof of one
  leaf (`C89_forgery`).  Calling `assert` on every direction first is enough (`C89_asserted_partial`).
* **C84, C98**: proofs are malleable (`C84_malleable`, `C98_rerandomised`): who sees an accepted proof can make others for the same inputs.
* **C99**: some helper variables are not determined (`C99_div_free`, `C99_isZero_free`, `C99_subgroup_two`): zero divided by zero in a circuit is any number the prover likes (while the native division panics), so a client has to assert that a divisor is not zero; the other free values do not change results.
* **C100**: `Call.Proper` (Spec/Native.lean) lists what has to be excluded for circuit and native code to agree: it collects the differences of C12, C33, C39, C40, C43, C89 and C99.
* **C101**: `eddsaposeidon_verify` accepts the public key zero (the identity), under which everybody can sign every message (`C101_zero_key`).
* **C104**: scalar multiplication adds only for the ones of the scalar: the time of signing depends on the number of ones of nonce and secret key (`C104_sign_partial`).
* **C107**: `setup` with the same path for both files prints "setup OK" and keeps only one of the keys (`C107_same_path`); `prove` with the same path for both files prints "Proved" and keeps only the inputs (`C107_same_path_prove`).
* **C105**: two runs of `setup` on the same files may leave keys that do not belong together although both print "setup OK" (`C105_two_setups`, `C105_two_setups_text`).
* **C96**: a Merkle root commits neither to the number of leaves nor to the height of the tree (`C96_trailing_zeros`, `C96_height`): an inner
  node passes for a leaf unless the depth is fixed, as it is in the circuit.
* **C108**: signals of different constraint systems can be mixed; the product is accepted by `TestCS` too, and its constraint says something
  else (`C108_mixed`).
* **C52, C66**: the BN256 second-group conversion has no subgroup check, the contract's precompile has one.
* **C54**: `read` ignores trailing bytes shorter than a point and rejects keys with a point at infinity that `write` writes.
* **C56**: `generate_sol_data` panics for an empty `ic`; for one `ic` point the contract declares `uint256[0]`, which is
  not valid Solidity.
* `c_comp_constant` compares only as many bits as it is given; `CBool::alloc` does not constrain the signal to a bit;
  `poseidon` pads with zeros, so inputs that differ by trailing zeros collide; a Merkle tree of one leaf has its leaf as root;
  variable-base multiplication panics without bits and for bits that are all the constant zero.
* **C92**: the README gives 3860 constraints for EdDSA with BN256; the code makes 3866 (`C92_readme_eddsa`).  The other rows about
  single functions are right.  (The rollup row is about a program that is not in the repository.)
