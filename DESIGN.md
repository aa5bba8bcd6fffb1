# Formal model of NilFoundation/crypto3-zk in Lean 4

The code under `/repo/include/nil/crypto3/zk` is modelled by hand, function by
function, as total computable Lean functions. Every model definition cites the
file and lines it models. The properties of `properties.jsonl` are theorems
about these functions.

## Layout

* `lean/Verif/Model/*.lean` — model definitions only (with source citations).
* `lean/Verif/Spec/*.lean` — small independent specifications used in statements.
* `lean/Verif/Lemmas/*.lean` — helper lemmas.
* `lean/Verif/Props/*.lean` — the property theorems, each followed by an
  `example` showing that a concrete, non-trivial case meets its hypotheses.
* `seeded/LOG.jsonl` — mutation log: edits of the model that must break theorems.

## Modelling conventions

* Field elements are elements of an arbitrary Mathlib `Field F`. Concrete
  prime-field arithmetic (Montgomery form, `cpp_int`) is outside this repository
  and is trusted to implement a field.
* Vectors are `List`s; reads that could be out of bounds return `Option`
  (`none` = undefined behaviour / assertion failure / exception, said in the
  comment), so a theorem that produces `some …` also proves absence of the
  out-of-bounds access.
* `std::size_t` is `Nat` unless the property is about wrap-around; where the
  code depends on wrap-around the model uses `% 2^64` (or `% 2^32`) explicitly.
* `BOOST_ASSERT`/`assert`: each model file says how it treats them. Where the
  code after a failed assertion would misbehave (sorting in the lookup argument,
  grouping into parts, FRI) a failed assertion is the outcome `none`, so a theorem
  that produces `some …` proves that the assertion holds; elsewhere they are not
  enforced (they are no-ops in release builds), and properties state them as
  hypotheses or prove what happens without them.
* Elements of G1, G2, GT are modelled by elements of abstract modules over the
  scalar field with a bilinear map (or by their discrete logarithms when noted);
  pairing and curve arithmetic live in another repository and are trusted.
* Hash functions are arbitrary functions (parameters). Randomness is a universally
  quantified parameter.
* Merkle trees, marshalling of field elements and FFT/evaluation domains belong to
  other crypto3 libraries; they are parameters with the stated contract
  (e.g. "interpolation returns the unique polynomial of degree < m").
* Threads: the code is sequential except for `MULTICORE` pragmas in loops whose
  iterations write disjoint entries; the model is sequential.

## Trusted base

* **Lean's kernel** (4.33.0), which accepts every proof, and the statements of the
  property theorems, specifications and models.
* **Axioms**: no theorem depends on anything but `propext`, `Classical.choice` and
  `Quot.sound`. There is no `sorry`, no axiom of our own, no `native_decide`, no
  `bv_decide`. Concrete cases are checked with `decide` or `decide +kernel`, that is
  by kernel reduction.
* **The models** are written by hand from the text of the source. Nothing connects
  them to the compiled program but the citations.
* **Contracts of other libraries**, each a structure with a `Lawful` predicate
  that is an explicit hypothesis and for which an instance is constructed:
  * `EvalDomain.Lawful` — evaluation domains of crypto3-math (interpolation, the
    vanishing polynomial, Lagrange evaluations);
  * `FftLib.Lawful` — roots of unity and the transformation between values and
    coefficients of `polynomial_dfs`;
  * `MerkleLib.Lawful` — a Merkle proof made for a leaf validates against the root;
    `MerkleOps` — the interface of the set-commitment tree;
  * `PointCodec` — serialisation of group elements;
  * `Pairing` — groups are modules over the scalar field and the pairing is a
    non-degenerate bilinear map;
  * accumulation vectors and multi-exponentiation compute the sums they say;
  * `math::polynomial` is a coefficient list with schoolbook arithmetic;
    `polynomial_dfs` is its coefficient list or a Mathlib polynomial, and a
    default-constructed one is `[0]`.
* **Language-level assumptions**: `std::size_t` does not overflow unless said
  otherwise; a default-constructed field element is zero; `std::log2` is exact
  where it is applied to integers; reading an absent key of a `std::map` with
  `operator[]` gives a default-constructed value; the iteration order of
  `unordered_map`/`unordered_set` is an arbitrary parameter; converting a negative
  `int` to the field negates; hash functions and random generators are arbitrary
  functions.

## What is modelled

Paths are relative to `include/nil/crypto3/zk`; every definition in
`lean/Verif/Model` cites the lines.

| model | code |
|---|---|
| LinearCombination | math/linear_variable, math/linear_combination |
| Expression, CountMap, PlonkVariable | math/expression, expression_evaluator, expression_visitors, non_linear_combination; plonk/variable |
| IntegerPermutation, CycleRepresentation | math/integer_permutation; math/permutation and preprocessor's cycle_representation |
| R1CS, Circuits, ArithmeticPrograms | r1cs, uscs, bacs, tbcs, qap, sap, ssp and the five reductions |
| Groups, Poly, PolyOps | knowledge commitments, kc_multiexp; polynomial arithmetic used by the schemes |
| Groth16, PGHR13, GM17, USCSArg | generator, prover, verifiers of the four ppzkSNARKs |
| Groth16Aggregate | kzg_ipp2 and r1cs_gg_ppzksnark/ipp2: reference string, transcript, aggregator, verifier (hash, encodings and random coefficients are parameters; the endless loop of `read_challenge` is cut off at an arbitrary bound; `is_valid` of the aggregate does not compile) |
| CircuitArgs | bacs_ppzksnark, tbcs_ppzksnark: generator, prover, verifiers |
| PlonkTable, LookupTables | plonk/assignment, padding, constraint, table_description, constraint_system::lookup_parts, lookup_table_definition |
| PermutationArg, GateArg, LookupArg | placeholder/permutation_argument, gates_argument, lookup_argument and the parts of the preprocessor they use |
| Placeholder | placeholder preprocessor, prover, verifier (both `process` functions), proof; commitment scheme as an interface with a completeness and totality contract, met by LPC |
| Quotient | placeholder prover's quotient splitting, verifier's recombination |
| EvalStorage, KZG, LPC, FRI, OrderedMap, ProofOfWork | eval_storage, batched_commitment, kzg, kzg_v2, lpc, basic_fri, fold_polynomial, proof_of_work |
| Transcript | transcript/fiat_shamir |
| Benes | routing/benes: masks, topology, router (loop and recursion), routing of packets, checker; assertions included (that of line 250 names a member that does not exist and is read as `inverse`; with assertions on the header does not compile) |
| AsWaksman | routing/as_waksman: topology, router (loop and recursion), checker; assertions included; unsigned wrap-around of the key of row 0 included |
| PowersOfTau, Groth16MPC | powers_of_tau and its accumulator, result, keys; element_proof_of_knowledge; r1cs_gg_ppzksnark_mpc and crs_operations (serialisation, hash and random generators are parameters) |
| Pedersen, SetCommitment, PCD, Alphas | pedersen, set_commitment, r1cs_pcd compliance predicates and parameters, pickles/alphas |
| EncryptedInput | r1cs_gg_ppzksnark/encrypted_input: generator, prover, verifier (the encryption scheme is in crypto3-pubkey: its key and encryption are in Spec/EncryptedInput) |
| SizeT, Marshalling | r1cs_gg_ppzksnark/marshalling.hpp: serialiser and deserialiser (point encodings and field decoding of the other libraries are parameters; offsets stand for iterators; an out-of-bounds read is an undefined outcome) |
| KimchiPedersen | commitments/polynomial/kimchi_pedersen.hpp: commitments and their operations, prover, verifier (sponge and map to the group are a parameter; random elements are arguments; add_lagrange_basis is not modelled) |
| KimchiMapping, KimchiSponge, KimchiExpr | pickles/detail/mapping.hpp; transcript/kimchi_transcript.hpp and shift_scalar; pickles/expr.hpp and permutation.hpp (the permutation of the sponge and the square root are parameters) |
| KimchiVerifier | pickles/oracles.hpp, verifier.hpp, constraints.hpp, proof.hpp (`combine`), detail.hpp (`combine_table`) (sponges and curve are parameters; assertions and the unused combined_inner_product of the oracles left out) |
| AdSnark | ppzkadsnark/r1cs_ppzkadsnark/detail/basic_policy.hpp and the default primitives it names (pseudo-random function and signature are parameters with the contract of Spec/AdSnark.lean; random elements are arguments) |
| Equality | `operator==` of basic_fri.hpp, lpc.hpp, placeholder/proof.hpp, plonk constraint_system.hpp, gate.hpp, lookup_gate.hpp, lookup_constraint.hpp, lookup_table_definition; counters of `plonk_constraint_system` |
| LeafData | `field_element_consumer` with its cursor (copies carry a cursor into the original), the leaves of `precommit` and of the verifier as data |
| CircuitDigest | `transcript_initialization_context`, `compute_constraint_system_with_params_hash`, `verification_key`, both constructors and `operator==` of `common_data_type` |
| ColumnPolynomial | plonk/detail/column_polynomial.hpp; math/permutation.hpp (`plonk_permutation` by what `operator[]` returns). `inverse_fft` and `polynomial_dfs::resize` are external |
| PlaceholderKzg | commitments/polynomial/kzg.hpp (634-867) as the `commitment_scheme_type` of placeholder: calls of the proof system, `proof_eval` and `verify_eval` with the transcript as a state |
| Lemmas/KZGSound, Props/KZGSound, Spec/KZGSound | C101: accepted KZG openings against provers that combine the elements of the key |
| Lemmas/PlaceholderKzgPadded, Lemmas/PlaceholderKzgForgery, Props/PlaceholderKzgForgery | C102: placeholder over KZG with more fixed values in the proof than fixed polynomials |
| Spec/PlaceholderKzgSound, Lemmas/PlaceholderKzgSound, Props/PlaceholderKzgSound, Props/PlaceholderKzgSoundExample | C102: what an accepting placeholder verifier asked of KZG, and soundness when the sizes of the proof are right |
| Spec/PlaceholderPublicSound, Props/PlaceholderPublicSound, Props/PlaceholderPublicSoundExample | C103: what an accepted proof says about the public inputs given to the verifier |
| Spec/PlaceholderHiding, Lemmas/PlaceholderHiding, Props/PlaceholderHiding, Props/PlaceholderHidingExample | C104: which values `zk_padding` hides |
| CachedEvaluator | no new model: log of the subexpressions that the cached evaluator computes (math/expression_evaluator.hpp 147-315) |
| PlaceholderKzg2 | `kzg_commitment_scheme_v2` as the commitment scheme of placeholder: the two challenges of the transcript, what prover and verifier absorb (kzg_v2.hpp:236-373) |
| CycleWork (Spec, Lemmas, Props) | the number of loop iterations of `apply_copy_constraint` over a whole run |
| KimchiClaims (Spec, Props) | the single claims inside a batch of inner-product openings |
| LinearVariable | the other operators of `linear_variable.hpp` and `linear_term`, `add_term` |
| Spec/PlaceholderKzg2Sound, Lemmas/PlaceholderKzg2Padded, Props/PlaceholderKzg2Sound, Props/PlaceholderKzg2SoundExample | C108: placeholder over `kzg_commitment_scheme_v2`: the forgery of C102 carried over, and soundness when the sizes of the proof are right |
| Spec/EncryptedLinear, Lemmas/EncryptedLinear, Lemmas/EncryptedCombine, Lemmas/EncryptedCount, Props/EncryptedLinear | C109: provers with encrypted inputs as coefficients for the elements of the three keys |
| Props/PlaceholderPublicKzg2 | C103 over the second KZG scheme |
| Props/AdSnarkForgery | C110: proofs about authenticated data made without a witness |
| Spec/Simulation | simulators of the six pairing-based arguments, written for the specification (not code of the repository) |
| (Spec) GipaTree, FormalPairing | no new code: trees of transcripts of the aggregation argument, the powers of its reference string, and the groups of a prover that knows representations (polynomials in the two secrets without mixed monomials; the pairing is the product) |
| Lemmas/BlankedLookup, Props/PlaceholderKzgLookupForgery, Props/PlaceholderKzg2LookupForgery | C102, C108: the forgeries for circuits with lookups |
| Lemmas/PartsForgery, Props/PlaceholderPartsForgery, Props/PlaceholderPartsForgeryExample | C66, C102: accepted proofs for violated copy constraints when the permutation argument has several parts |
| Lemmas/LookupPartsForgery, Props/PlaceholderLookupPartsForgery | C66, C102: accepted proofs for violated lookups when the lookup argument has several parts |
| Spec/PlaceholderParts, Lemmas/PartsPolys, PartsRun, Props/PlaceholderGatesSound, PlaceholderGatesSoundExample | C66: for any numbers of parts an accepted proof shows the gates, and each of the other arguments that has one part |
| Spec/PlaceholderPartsKzg, Lemmas/PartsKzg, Props/PlaceholderKzgGatesSound, Props/PlaceholderKzg2GatesSound, Props/PlaceholderKzgGatesExample | C102, C108: soundness over both KZG schemes for any number of parts |
| Props/PlaceholderPublicParts, Props/PlaceholderPublicPartsExample | C103: the public inputs of an accepted proof, for any number of parts |

Not modelled: the batched FRI variants (basic_batched_fri_*; they derive from a struct `basic_fri` that no longer exists, so nothing can instantiate them),
the recursive PCD provers
(r1cs_sp/mp_ppzkpcd), plonk/kate (not valid C++: a literal `...` in template arguments and types that are not defined anywhere), plonk/pickles except alphas, mapping, expressions, permutation factors and the verifier,
profiling, sparse accumulators (does not compile), and the
type-trait and forwarding headers.

## Findings

Statements that are false of the code; each is a theorem with a concrete witness.

* C04: `is_valid` rejects or accepts the wrong combinations; the empty one is UB.
* C06/C09: power zero flattens to zero; degrees wrap at 2^32.
* C13: the inverse of a default-constructed permutation is UB.
* C22/C23: the booleanity constraints of TBCS→USCS miss a wire; `wire_depths` reads
  out of bounds.
* C24: the checker of the Benes network accepts settings under which a packet is lost, if the two
  rows of a switch disagree on it.
* C25: the checker of the AS-Waksman network accepts settings under which a packet is lost, if
  the settings of a column are not stored under the upper rows of its switches
  (`C25_checker_not_exact`); it is exact when the two rows of every switch read the same setting.
  For fewer than two packets the router indexes outside of its vectors (`C25_single`).
* C27/C28: rotations beyond one table length and ragged tables read out of bounds;
  2^31 rows are padded to 8.
* C29: a part can be empty or exceed its budget.
* C31: copy constraints on selector columns make the honest proof fail.
* C32, C64: with several parts, the additional challenges are drawn before the
  polynomials they separate are committed to; any table is accepted.
* C35: the lookup prover writes out of bounds if a table uses its first row, or
  if equal values of a table are not next to each other.
* C36: a `max_quotient_chunks` that is too small makes the prover write out of bounds.
* C65 needs the limit on quotient chunks to be zero or above the cost of every factor
  of the lookup argument; an option of a lookup table costs three, so limits of two
  and three with lookups make `lookup_parts` start with an empty part (C29).
* C38: a public input column used with a negative rotation is compared as moved by
  that rotation, so the right values are refused and others accepted; columns that
  are not given are not checked.
* C38, C66 without assertions: the challenge that is stored in the proof is compared with the one
  of the transcript by `BOOST_ASSERT` only, and is used for the first Lagrange polynomial and the
  public inputs. In a build with `NDEBUG` there is for every table that satisfies the gates a proof
  that is accepted, whatever the copy constraints, lookups and public inputs
  (`C66_release_forgery`); `C66_release_example` is one for LPC and a circuit with a single
  satisfying public input.
* C39/C40: empty polynomial, empty batch: out-of-bounds access, division by zero.
* C43: the degree test admits twice the degree; a zero challenge fails an assertion.
* C44: claimed evaluations are not absorbed before the challenge; a false evaluation
  is accepted; one commitment opens in two ways.
* C45: a point vector of length one passes the assertion and is read out of bounds.
* C49, C53, C54: threshold zero; unused public input; short input in GM17.
* C55/C56: a proof of knowledge with zero elements is accepted for every ratio; its
  challenge is one of 256 and does not depend on what is proved; accumulators of any
  length, and contributions of zero, are accepted; `beta_g2` is free once beta is zero;
  a ceremony of length one cannot be verified.
* C57: the accumulative transcript's challenge is constant; Poseidon integer
  challenges have half the width.
* C63: horizontal packing loses rows and overwrites tables.
* C68: a boolean circuit without gates is valid and satisfied, but the generator makes no keys for it.
* C70: the aggregate verifier binds the public inputs only through the bytes that the caller adds to
  the transcript (as its comment warns): otherwise any input can be claimed for the second proof. An
  aggregate without rounds, or with vectors of different lengths, is read out of bounds.
* C71: the verifier for encrypted inputs aborts unless at least two public inputs stay in the clear
  (`input_size - 1 > ct_size - 2`).
* **C74 (marshalling.hpp:829-891, 656-738, 349-362).** The function that reads proof, public input and
  verification key from one byte string checks only that there are enough bytes for the proof, then
  reads the number of public inputs and believes it: a string of 192 to 195 bytes is read past its end
  (`C74_verifier_input_unsafe`). The length of a proving key is never looked at
  (`C74_proving_key_unsafe`). For serialised objects cut off after any number of bytes the outcome is
  known exactly (`C74_truncated_*`): a proving key is read past its end wherever it is cut, a verifier
  input if it is cut in the public input. The loop over the constraints of a proving key overwrites the status of
  every constraint but the last, so a key with a malformed coefficient is returned with status success
  and an empty constraint, which everything satisfies, in its place
  (`C74_malformed_constraint_dropped` on one key, `C74_damaged_constraint` for every key). Bytes after the end of an object
  are ignored, whatever they are (`C74_trailing_bytes`, `C74_trailing_verifier_input`,
  `C74_trailing_proving_key`). The number of public inputs is written modulo `2 ^ 32`
  (`C73_large_input_lost`). The header itself refers to `linear_term`, `linear_combination` and
  `variable` in a namespace where they no longer are.
* **C75 (kimchi_pedersen.hpp).** The prover advances the combination scalar for the shifted part of every
  polynomial with a degree bound, the verifier only if the shifted commitment is not zero: a true claim
  about the zero polynomial with a bound makes the whole batch fail (`C75_zero_polynomial_with_bound`).
  Committing to a polynomial with fewer coefficients than its bound, but reaching the last chunk, calls
  the multi-exponentiation with ranges of different lengths (`C75_bounded_commitment_undefined`). The test
  `polynom.bound >= 0` is always true for a `std::size_t`; without bound the value is `2 ^ 64 - 1`.
* **C76 (kimchi_pedersen.hpp verify_eval).** The two random combinations both start with coefficient 1, and
  `sg` is not absorbed into the sponge: the two defects of the first batch can be made to cancel, so every
  claim about every commitment has an accepted opening (`C76_any_claim_can_be_opened`,
  `C76_false_value_accepted`). The number of rounds is not checked: too many are a write outside the
  vector of scalars (`C76_too_many_rounds`).
* **C77 (kimchi_pedersen.hpp operator-, multi_scalar_mul).** The difference copies the additional chunks and the
  shifted part of the subtrahend without negating them; the combination of several commitments stops at
  the smallest number of chunks (`C77_subtraction_of_extra_chunks`, `C77_subtraction_of_shifted_part`,
  `C77_multi_scalar_mul_drops_chunks`).
* **C79 (mapping.hpp GroupMap).** The map uses the formulas for curves without linear term. For other
  curves none of the three candidates need be on the curve and a default point is returned
  (`C79_linear_term`). Zero, and the elements with t² = -f(u), invert zero (`C79_defined_iff`).
* **C80 (kimchi_transcript.hpp absorb_fr, lines 221-222).** The test for buffered limbs is inverted: a scalar
  absorbed after a single-limb squeeze leaves the buffer, and the next limb does not depend on it
  (`C80_stale_limb`).
* **C81 (expr.hpp PolishToken(int)).** The constructor initialises `token` with itself.
* **C82 (oracles.hpp lines 298-299).** With public input, evaluations are written into a vector of vectors
  that has no elements: undefined behaviour for every proof with public input (C82_public_input_undefined).
* **C82 (proof.hpp line 122).** `combine` writes the sorted lookup values into an empty vector
  (C82_lookups_undefined).
* **C83 (verifier.hpp, verify).** Since any claim can be opened (C76), every proof that gets a verdict is
  accepted with another opening (C83_forgery).
* **C83 (verifier.hpp lines 123, 131-132).** The scalars of the generic gates use the powers of alpha of the
  permutation argument, so that a violated generic gate can cancel a violated permutation constraint or
  boundary condition (C83_rows_partial, C83_generic_and_permutation_cancel).
* **C83 (oracles.hpp).** Neither the circuit nor the previous challenges are absorbed
  (C83_challenges_bind_neither_circuit_nor_previous).
* **C84 (oracles.hpp lines 89-137).** With fewer challenges than the chunk size needs, two values are used for a
  polynomial with one chunk (C84_short_challenges).
* **C85–C87** `r1cs_ppzkadsnark`: no target of the repository compiles this header; it includes `prf.hpp`, which does not exist.
  With an odd number of inputs the verifier with the public key computes the pairing of the first tag and
  drops the result (basic_policy.hpp, line 1147), so honest proofs are rejected: `C86_public_odd`. More labels than
  inputs in the verification key: reads past the end (`C87_too_many_labels`). Two data under one label reveal the tag of any
  other datum (`C85_label_reuse`); the runner in the repository signs all inputs under one (uninitialised) label.
* **C92 (basic_fri.hpp lines 280-287).** The comparison of proofs leaves out the proof of work, so with grinding two proofs that
  compare equal can get different verdicts (C92_grinding_verdicts_differ).
* **C94 (constraint_system.hpp lines 112-114).** `public_input_total_size` adds up in an `int`: `2^32` public inputs are reported
  as none (C94_public_total_overflows).
* **C96 (preprocessor.hpp lines 571-581, transcript_initialization_context.hpp).** The verification key does not cover `max_quotient_chunks`:
  preprocessings with different limits have the same key although the verifier's data (number of parts of the
  permutation and lookup arguments) differ (C96_chunks_not_bound, C96_parts_differ).
* **C98 (plonk/detail/column_polynomial.hpp 43-105).** For a column shorter than the domain the two functions make different polynomials: `column_polynomial` continues the column with zeros, `column_polynomial_dfs` puts entry `j` of `2^k` into row `j * 2^(n-k)`.
* **C99 (math/permutation.hpp 52-59).** `cells_equal` overwrites one image and does not exchange two, so the map is no permutation of the cells after any call on two different cells.
* **C100 (placeholder/prover.hpp 380-395, verifier.hpp 103-108; kzg.hpp 793-806).** The sorted columns of the lookup argument are asked for at `y`, `y*omega` and `y*omega^usable_rows`. With one usable row two of these are the same point, and KZG interpolates through a repeated point. The same happens for rotations of one column that differ by the number of rows. `C100_one_usable_row` proves the former; `C100_kzg_complete` excludes both.
* **C101 (kzg.hpp 604-629).** `batched_kzg::verify_eval` takes the merged points `T` from its argument and never compares them with the point sets: with two or more commitments and a `T` that contains none of the points, every claim is accepted (`C101_batched_merged_points_matter`). `verify_eval` of the classes checks only the batches that are among the commitments it is given (`C101_other_batches_unchecked`).
* **C102 (verifier.hpp 210, 294, 307; kzg.hpp 837).** The placeholder verifier computes `permutation_size` from the number of fixed values in the *proof*, and reads constants and selectors at positions that depend on it; `kzg_commitment_scheme::verify_eval` loops over the points the verifier asked for and never looks at further values. A proof with zeros after the fixed values makes all constants and selectors zero, and without copy constraints every table is accepted, whatever the gates and the lookups are (`C102_kzg_forgery`, `C102_kzg_lookup_forgery`, `C102_example`, `C102_lookup_example`). LPC is not affected: it reads the points at the index of each value in the proof.
* **C103 (verifier.hpp 142-178).** The overload of `placeholder_verifier::process` with public inputs compares, for each column, the value in the proof with the value of the given inputs at the challenge stored in the proof, and never absorbs the public inputs in the transcript. Given any accepted proof, all values of a column but one can be replaced by arbitrary ones, and the last adapted so that the same proof is accepted (`C103_other_inputs`). The witness `C103_example` is a false statement that is accepted. For public inputs fixed before the challenge the statement holds (`C103_statement_partial`).
* **C104 (padding.hpp 84-143).** `zk_padding` fills the rows up to the next power of two with random values, but the number of these rows does not depend on how many values of a column a proof shows; a table of `2^n - 1` rows gets one random row. Over KZG a commitment and one opened value are two values of the column polynomial, so the proof tells witnesses apart (`C104_one_row_reveals`, `C104_example`). With enough rows the values of the witness columns are hidden (`C104_columns_hidden_partial`; as a count, `C104_same_count_partial`; they are distributed uniformly, `C104_uniform_partial`). Over LPC (basic_fri.hpp 777-861) padding does not help at all: the query points are drawn from `D[0]`, the domain on which the columns are committed, and not from a coset of it. This domain contains the rows of the table; if a query point is one, the cell of every column in this row is in the proof (`C104_lpc_queries_show_rows`), and one in `2 ^ d` of the nonzero challenges leads to such a point, where `D[0]` is `2 ^ d` times as large as the table (`C104_lpc_rows_queried`). `C104_lpc_example` is a run of three queries that shows a whole column of four rows. The same holds of an honest proof of the whole proof system over LPC: `C104_lpc_proof_shows_cells` (the witness cells of every row that is queried are in it), and `C104_lpc_proof_example` is an honest proof with the witness in a usable row.
* **C106 (kzg_v2.hpp 344; 299-307).** With `kzg_commitment_scheme_v2`, the verifier divides by the number of polynomials of each committed batch. Placeholder always commits the batch of witness and public input columns, so for a circuit on constant columns only the honest proof makes the verifier divide by zero (`C106_empty_variable_batch`, `C106_no_columns_example`). After an accepted opening the prover's transcript has absorbed the second element of the proof and the verifier's has not (`C106_transcripts_differ`).
* **C01 (linear_variable.hpp 73-81).** `variable + combination` appends the variable instead of merging it. The value is right, but the result is canonical, and accepted by `is_valid`, only when the variable comes after all others (`C01_varAdd_canonical`).
* **C108 (verifier.hpp 210, 294, 307; kzg_v2.hpp 347).** `kzg_commitment_scheme_v2::verify_eval` has the loop of `kzg_commitment_scheme::verify_eval`: it goes through the points asked for, and further values in the proof move the positions of constants and selectors without being checked. The forgery of C102 works here as well, as long as there is a witness or public input column (`C108_kzg2_forgery`, `C108_kzg2_lookup_forgery`, `C108_example`, `C108_lookup_example`).
* **C110 (ppzkadsnark/r1cs_ppzkadsnark/detail/basic_policy.hpp lines 640-641, 705-707, 1058-1059).** The generator does not zero the prefix of
  `At`, so the query for the part `g_A` of the proof still has the elements of the constant and of the inputs, consistent under
  the same `alphaA`. The verifier adds up `A0 + g_Aau + g_A`. A prover can put `-A0 - g_Aau` into `g_A` and multiples of the vanishing
  polynomial into the rest: accepted for every constraint system and all signed data, without a witness
  (C110_anything_accepted; C110_false_statement_accepted for a system that nothing satisfies). Or it can replace the signed data by other
  data (C110_other_data_accepted). PGHR13, which zeroes the prefix, does not have this (C89). C87 is only about the part `g_Aau`.
* **C113 (r1cs_gg_ppzksnark/verifier.hpp, r1cs_ppzksnark/verifier.hpp, uscs_ppzksnark/verifier.hpp).** Accepted
  proofs of Groth16, PGHR13 and unitary-square systems can be changed into different accepted proofs of the same
  input with public values only. For Groth16 this is inherent. The PGHR13 and unitary-square proofs are changed
  with the elements for the vanishing polynomial that the proving key holds for zero knowledge. Of the four
  arguments only Groth–Maller excludes it (C114).
* **C117 (commitments/polynomial/lpc.hpp 113-125, 202-224).** `theta` is drawn after the commitments were absorbed, but the claimed evaluations `z` are never absorbed. The verifier uses them only in the combination with the powers of `theta`, so two claims for the same point can be exchanged for others with the same combination (`lpc_claims_exchange`). A prover commits to two zero chunks of the quotient, learns `theta`, and claims `delta * theta` and `-delta` for them, with the `delta` for which the last equation of the Placeholder verifier (verifier.hpp, `F_consolidated == Z_at_challenge * T_consolidated`) holds. The proof is accepted for every table, with assertions, and with its public inputs. The cure is to absorb `z` before `theta` is drawn.
* **C66 (permutation_argument.hpp 174-177, 293-296; prover.hpp 156-172).** With several parts, the challenges that separate the parts of the permutation argument are drawn before the prover commits to the intermediate polynomials. The prover may choose these polynomials for the known challenges, so that the argument holds whatever the table contains. `C66_parts_forgery` proves this for the whole protocol, over every complete commitment scheme, with assertions enabled; the number of parts depends on the circuit and on `max_quotient_chunks`, which is nonzero only when the user asks for it. `C66_parts_example` accepts the public input 3 of a circuit that says that it is a fourth power modulo 257, which it is not.
* **C66 (lookup_argument.hpp 203-206, 749-752; prover.hpp 156-172).** The lookup argument draws the challenges for its parts before the running product and the partial products are committed to, as the permutation argument does. `C66_lookup_parts_forgery` carries the attack of `C64_forgery` through the whole protocol: tables that violate lookups are accepted, with assertions, over every complete commitment scheme. `C66_lookup_parts_example` is a circuit that no witness satisfies. `C66_both_parts_forgery` is for circuits with both copy constraints and lookups, each argument in several parts (`C66_both_parts_example`; over KZG `C102_kzg_both_parts_forgery`). `C66_copies_lookup_parts_forgery` and `C66_lookups_parts_forgery` forge one of the two arguments in such circuits, when it has several parts, with the other one done honestly in any number of parts; so `C66_sound_by_parts_partial` cannot be improved for circuits with both.

## Plan per property
* **C01** Linear-combination arithmetic commutes with evaluation — Model `linear_combination` as a term list; `operator+` as the two-pointer merge; prove evaluation homomorphism by functional induction; sortedness preserved.
* **C02** Building a linear combination from a term list canonicalises it without changing its value — Model the constructor as `merge ∘ sort` for any sort returning a sorted permutation; prove value and strict sortedness.
* **C03** Equality of linear combinations implies equal values — Model `==` as list equality of any two sorted permutations; prove soundness, and completeness under distinct indices.
* **C04** Validity check of a linear combination accepts exactly the in-range canonical ones — Model `is_valid` with `Option` for the empty-list UB; the property is false: prove the exact behaviour, the counterexamples and the partial statement.
* **C05** Expressions built with +, -, *, unary minus and pow evaluate to the arithmetic they denote — Inductive expression type; model every operator including zero shortcuts; structural induction.
* **C06** Flattening an expression to a sum of products preserves its value — Model the visitor and `merge_equal_terms` (association-list model of `unordered_map`, arbitrary final order); induction. Power 0 is a counterexample, proved as such.
* **C07** The cached evaluator computes the same value as the plain evaluator — State-monadic model of the cached evaluator (cache, counts); invariant: every cached value is the plain value.
* **C08** Equal expressions hash equally and evaluate equally — Model `==` and the hash with arbitrary base hashes and combiner; prove equal ⇒ same hash and same value.
* **C09** The reported maximal degree bounds the degree of the flattened polynomial — Model with 32-bit wrap; prove bound on flattened terms and on `MvPolynomial`/substituted degree.
* **C10** Equality of flat combinations is multiset equality of terms — Model the counting map; prove equivalence with `List.Perm` up to term equality.
* **C11** Plonk variables are totally ordered consistently with equality — Decision logic; direct proof of strict total order.
* **C12** Changing the variable type of an expression preserves its meaning — Model converter and visitor; structural induction.
* **C13** Integer permutations: validity, inverse and slices — Model over lists of Nat with offset; finite injectivity arguments.
* **C14** Copy constraints generate exactly the right permutation — State machine over finite maps; invariant: mapping is a permutation whose cycles are the classes recorded in aux; induction over histories.
* **C15** A table satisfies the copy constraints iff it is invariant under the generated permutation — Corollary of C14.
* **C16** Swapping the A and B matrices of an R1CS never changes what it accepts — Direct proof on the model of r1cs.hpp.
* **C17** R1CS to QAP: satisfying assignments give satisfied QAPs — Polynomials over an interpolation domain; model witness_map; prove with Mathlib Lagrange/Polynomial.
* **C18** R1CS to QAP: a QAP satisfied as polynomials comes from a satisfying assignment — Same model; divisibility by the vanishing polynomial gives vanishing at each domain point.
* **C19** R1CS to SAP is complete and sound — As C17/C18 for r1cs_to_sap.
* **C20** USCS to SSP is complete and sound — As C17/C18 for uscs_to_ssp.
* **C21** BACS to R1CS preserves satisfiability exactly — Induction over the gate list.
* **C22** TBCS to USCS preserves satisfiability — Gate table by case analysis over the field; induction over gates.
* **C23** Circuit depth and wire computations stay in bounds on valid circuits — Models with `Option` for reads; prove totality on valid circuits; TBCS wire_depths is a counterexample.
* **C24** Every permutation is routed correctly through the Benes network — Model benes.hpp recursion; chain invariant for the loop, induction on the dimension. The checker is exact only for settings whose rows agree (partial).
* **C25** Every permutation is routed correctly through the AS-Waksman network — Model as_waksman.hpp recursion; the topology is a network of switches (induction over the recursion), chain invariant for the loop, induction on the depth for the router, exactness of the checker.
* **C26** Column numbering of the Plonk table is a bijection — Direct arithmetic.
* **C27** Row rotation in constraint evaluation is cyclic — 64-bit model of the row index computation; direct arithmetic.
* **C28** Padding yields a power-of-two table and preserves contents — Model of padding loops on lists; arithmetic on powers of two.
* **C29** Splitting lookups into parts loses nothing and respects the degree budget — Fold model of the greedy loop; induction. Zero-sized parts are a counterexample.
* **C30** Packing lookup tables makes exactly the declared rows available — Model of packing loops on column maps; induction; horizontal packing has counterexamples.
* **C31** Permutation argument: honest tables give a grand product that closes — Telescoping products over rows; products over columns.
* **C32** Permutation argument: a grand product that closes for generic challenges forces the copy constraints — Polynomial identity argument on multisets of linear forms.
* **C33** Prover and verifier agree on every argument's value at the challenge point — Evaluation homomorphism of the prover's polynomial formulas vs verifier formulas.
* **C34** Gate argument vanishes exactly when the gates are satisfied — Polynomial in theta with constraint values as coefficients.
* **C35** Lookup argument: sorting is a merge of inputs and table values — Model of sort_polynomials over lists of runs; multiset reasoning.
* **C36** Quotient splitting recombines to the original polynomial — List splitting and Horner evaluation.
* **C37** The placeholder verifier accepts honest proofs and its final equation is the quotient identity — Polynomial divisibility.
* **C38** The public-input overload binds the declared public inputs — Decision-logic model of the overload; the stated property is false: witnesses and partial theorem.
* **C39** KZG opening proofs verify, and verify only for the committed value up to the trapdoor — Bilinear module model.
* **C40** Batched KZG openings verify for every set of points per polynomial — Bilinear module model with families indexed by lists.
* **C41** FRI folding is evaluation-consistent — Mathlib polynomials; even/odd split.
* **C42** FRI index arithmetic enumerates cosets consistently — Arithmetic on Nat mod powers of two.
* **C43** FRI accepts honestly folded codewords for every step list — Iterated folding; induction on the step list.
* **C44** LPC quotient identity links openings to FRI — Polynomial identities over nested lists.
* **C45** The batched-commitment container evaluates every polynomial at its requested points and no other — State machine; induction over histories.
* **C46** Evaluation storage returns the last value written — State machine; frame lemmas.
* **C47** Proof-of-work nonces produced by the prover are accepted and keep transcripts in sync — Abstract transcript; search as a partial function with fuel.
* **C48** Sparse multi-exponentiation computes the full inner product — List sums; induction.
* **C49** Pedersen verifiable secret sharing: honest shares verify and any k of them reconstruct — Polynomial evaluation and Lagrange interpolation.
* **C50** Groth16 completeness — Exponent model over a bilinear module.
* **C51** PGHR13 (R1CS ppzkSNARK) completeness — Same.
* **C52** GM17 (simulation-extractable R1CS ppzkSNARK) completeness — Same.
* **C53** USCS ppzkSNARK completeness — Same.
* **C54** Strong input consistency rejects inputs of the wrong length; weak verification zero-extends — Decision logic on verifier model.
* **C55** Powers of tau: contributions compose and every accepted accumulator is well formed — Exponent model; induction over contributions; soundness by bilinearity; whole ceremonies of arbitrary contributors by induction over accepted steps.
* **C56** Groth16 MPC phase 2 ends in a valid key pair — Same, on top of C50 model; both phases by composing C55's ceremony, the Lagrange form and phase 2 soundness.
* **C57** Fiat-Shamir challenges depend on the whole history and nothing else — State machine over abstract hash; Poseidon int_challenge width is a counterexample.
* **C58** Set-commitment accumulator tracks exactly the added elements — State machine; induction over histories.
* **C59** PCD compliance predicates: well-formedness pins the number of variables — Decision logic.
* **C60** Alpha powers handed to different constraint families never overlap — State machine; induction over registrations.
* **C61** Evaluation points requested by the placeholder prover and verifier coincide — Model both functions; prove equality.
* **C62** Proofs with different randomness for the same input are equally distributed — Bijection on the randomness.
* **C63** Horizontal packing of lookup tables — Model of the packing loops; false: witnesses, what holds for one table above the limit, and, by the invariant of C30 with column groups, that tables below the limit offer exactly their rows.
* **C64** Lookup argument: accepted rows force the lookups — Multisets of linear forms in two variables (pairs of neighbours), then compression with theta; forgery for several parts.
* **C65** Placeholder completeness: a satisfied circuit always gets a proof, and it is accepted — Totality of preprocessor and prover stage by stage (degrees of the constraint polynomials, so the quotient fits; bad challenges as bounded sets fixed before scheme and transcript), then C37/C38; LPC meets the contract.
* **C66** Placeholder soundness: an accepted proof means that the committed table satisfies the circuit — The openings are taken to be values of fixed polynomials (binding commitments); the argument values as polynomials in the challenge, bad sets for each challenge fixed by what was committed before, then C32/C34/C64. For one part of each argument (with several the property is false: C32_forgery, C64_forgery, and C66_parts_forgery and C66_lookup_parts_forgery for the whole protocol; what remains, the gates and each argument that has one part, is C66_sound_by_parts_partial).
* **C67** FRI: an accepted proof is consistent at every query point, and a false opening is exposed by some point — The opened values on the coset are interpolated by a polynomial, so that the lemmas about honest folding apply to arbitrary opened values; binding trees identify it with the committed polynomial on the coset; if all points are consistent the final polynomial is the quotient folded, and each challenge but one keeps its degree. For the share of exposing points: two foldings of a function near short polynomials put the function itself near one (even and odd part solved from the two), so at most one challenge more than halves the relative distance; the points spoilt by inconsistent queries are pushed through the rounds, and the coefficient of one claim is extracted from as many values of theta as there are claims. Only under the hypothesis that paths stand at their places, which the verifier does not check.
* **C68** Circuit arguments: a satisfied circuit gets a proof and the proof is accepted — The wrappers are composed from the reductions (C21, C22) and the arguments (C51, C53); the reduced system's well-formedness and satisfaction are transported along.
* **C69** Aggregated Groth16 proofs: an aggregate of valid proofs is accepted — Six bilinear sums are preserved by a round up to the messages' terms, by a general lemma on folding two vectors; keys are geometric vectors, whose folding is a product; the quotients of the openings come from division by X - z. The commitment to the scaled key equals the unscaled one.
* **C70** Aggregated Groth16 proofs: a failing equation or an invalid proof is rejected — The verdict is computed as a linear combination of eleven defects; one non-zero defect leaves at most one value of its coefficient; for honest aggregates the remaining defect is a polynomial in r with coefficients in the target group. Extraction from arbitrary aggregates is C112.
* **C71** Encrypted inputs: a proof for encrypted inputs is accepted with their encryption — From C72's equivalence: the encryption decrypts to the inputs and the masks cancel, so the Groth16 equation of C50 remains.
* **C72** Encrypted inputs: acceptance means a valid proof about what the ciphertext decrypts to — The verdict in closed form (loops as sums); the head of the ciphertext is moved from the `γ` to the `δ` pairing by bilinearity.
* **C73** Serialised Groth16 objects are read back as they were — The writer appends a byte string to the buffer (`Encodes`, composed over sequences and loops); the reader finds each part at its offset (`HoldsAt`).
* **C74** Deserialising untrusted bytes — For arbitrary bytes every read offset is bounded by the checks before it; where the checks are missing, concrete and general byte strings that are read past the end.
* **C75** Inner-product openings: honest openings are accepted — Closed forms of the commitment, of the folding rounds (invariant: commitment of the folded vectors plus the messages) and of the verifier's accumulated scalars; the two are matched by the coefficients of the challenge polynomial.
* **C76** Inner-product openings: acceptance means the claimed evaluations are true — The verdict as the vanishing of two power sums of defects; a defect in a later batch leaves a bounded set of random elements; extraction level by level from a 4-ary tree of accepted transcripts under independence of the generators. Single claims by counting zeros in r and then in xi. The full claim is refuted by a forger.
* **C77** Commitments are linear — Chunk-wise closed forms by induction over the loops; refuted for differences with a longer subtrahend and for combinations of different shapes.
* **C78** Challenges keep their entropy — Closed form of the loop, bounds on the two parts, and injectivity by a lattice argument modulo r.
* **C79** Mapping to the curve — Algebraic identity for the three candidates and multiplicativity of the quadratic character; refuted for curves with a linear term.
* **C80** The Kimchi transcript — Refinement of call histories to a sponge without buffer; refuted for single-limb squeezes.
* **C81** Polish notation — Induction on the expression with the stack and the remembered values generalised.
* **C82** Kimchi completeness — Each claim of the batch is shown to be an honest claim of the commitment scheme (C75); the `ft` claim by linearity of commitment and the equation.
* **C83** Kimchi soundness — The claim for `ft` is equivalent to the equation at the challenges; Schwartz–Zippel in ζ and α for the rows; forgery from C76.
* **C84** previous challenges — Horner evaluation split at the chunk boundary.
* **C85** Authenticated data — The decision procedure is proved equivalent to the defining equation; linear algebra.
* **C86** Completeness on authenticated data — Closed forms of generator, prover and accumulation loop; the seven equations by bilinearity and the QAP identity of C17; the odd case refuted.
* **C87** Acceptance on authenticated data — Verdict (iff) theorems; counting of keys and tags for fixed linear strategies.
* **C88** Groth16 against linear provers — The verification equation times γδ is a combination of 29 monomials in α, β, γ, δ with coefficients from the arithmetic program at `t`; Schwartz–Zippel (Mathlib) gives the coefficient identities at many `t`; these make the arithmetic program satisfied at many points, then C18.
* **C89** PGHR13 against linear provers — Each of the five pairing equations is a combination of monomials in the seven secrets besides `t`; Schwartz–Zippel gives the coefficient identities at many `t`. The entries of the A query for the inputs are zero in the key, so the inputs can only come from the verifier; the rows that the reduction adds for the inputs then force the K coefficients of the inputs, and C18 gives satisfaction.
* **C90** Groth–Maller against linear provers — The two pairing equations are combinations of 7 and 9 monomials in α, β, γ; Schwartz–Zippel gives the coefficient identities at many `t`: the first two elements have the same exponent, it has no β part, and the remaining identities are the square arithmetic program; then C19.
* **C91** unitary-square argument against linear provers — The knowledge equation leaves only the elements for the auxiliary variables (3 monomials in the two secrets besides `t`); the other two equations then are the square span program at `t`; then C20.
* **C92** comparison of parameters and proofs — `==` characterised as agreement of settings (element one of a domain of the FFT library determines the domain); the verifier reads nothing else.
* **C93** comparison of constraint systems — `==` is `SameCircuit`; evaluation, degree and the set of used variables do not depend on the order of variables in a term; hence every function of preprocessor and verifier agrees.
* **C94** counters — sums modulo `2^64` and in an `int`; number of sorted columns from C35.
* **C95** leaves as data — the buffer refines an array of places; closed form of a filled leaf; byte-level functions equal the FRI model over trees seen through the encoding.
* **C96** verification key — injectivity of the buffer, then of the Merkle leaves, then interpolation of the fixed columns.
* **C97** common data — rebuilding and comparing field by field.
* **C98** column polynomials — from the contract of the FFT library, on the values at the points of the domain.
* **C99** `plonk_permutation` — invariant over histories of calls; the negation by the image that is lost at the first proper call.
* **C100** placeholder over KZG — the contract of C65 for the scheme object, from C40_scheme_complete on the histories of the proof system; the points of each polynomial are different powers of the root of unity times the challenge.
* **C101** accepted KZG openings are true — the verification equation is a polynomial identity at the trapdoor; a nonzero polynomial has few zeros; a wrong claim is a nonzero coefficient of the combination, so few challenges hide it.
* **C102** accepted placeholder proofs over KZG — false; the forged proof is that of the honest protocol for a prover with the zero quotient, with zeros appended to a batch: a commitment scheme whose prover pads is complete as well (`paddedComm_complete`).
* **C102 (positive part)** the accepting verifier's calls are replayed as a session of the scheme, C101 makes the openings true outside small sets of challenges and trapdoors, and C66 does the rest; for several parts the same with `C66_sound_by_parts_partial`.
* **C103** statement with public inputs — false for inputs chosen after the proof, by solving the linear equation C38 reduces acceptance to; for inputs chosen before, C66 and C38 together.
* **C104** `zk_padding` — positive part: an interpolated polynomial that is the difference of the two witnesses on the usable rows and zero at the points seen gives the shift of the random values; negative part: with one random row the difference of the columns is determined by its value at the trapdoor.
* **C105** cached evaluator computes once — invariant over visits: as long as a subexpression is in the cache or was not computed, its counter covers the visits to come.
* **C106** placeholder over kzg_v2 — the honest prover's session meets the session theorem of the scheme; the scheme is complete for objects without empty batches, which is modelled by a prover that gives up on them, and the honest prover's object has none if there is a variable column.
* **C107** joins cost n log2 n — sizes are an invariant of the run, the sum of logarithms of cycle sizes is the potential.
* **C108** accepted placeholder proofs over `kzg_commitment_scheme_v2` — false; `padded_forgery` builds the proof for any scheme whose verifier accepts an opening with more values. The positive part replays the verifier as in C102 and uses C101_scheme2_sound for the two challenges.
* **C109** knowledge with encrypted inputs — the consistency check is a quadratic equation in `t_0, …, t_n`, so for all but few secrets its coefficients agree, which makes the ciphertext an encryption (the rows the reduction adds for the inputs exclude other relations); then C72 and the argument of C88.
* **C110** soundness on authenticated data — false; the forged proof is written down as a function of the proving key and the tags, and the verifier's equations are checked for it with the explicit key (adGenerate_eq).
* **C111** Perfect zero knowledge of the pairing-based arguments — explicit simulators and a bijection between the randomness of the prover and of the simulator.
* **C112** Aggregates made in any way — Three of the four challenges at each level are inverted to open the two messages and the commitment under the unfolded key; uniqueness of openings and the fourth challenge show that the answers are the folded openings; induction on the number of rounds. The final keys are right because a wrong one would have to be divisible by alpha - z for too many z. Over the formal groups binding is a statement about a polynomial that vanishes at alpha and beta with coefficients without mixed monomials: it is divisible by (X - alpha)(X - beta), and the quotient is zero coefficient by coefficient.
* **C113** Changing the proofs of others — The changed elements are put into the verifier's equations, which are bilinear; for Groth16 the change is solved for, given two simulated proofs.
* **C114** Groth–Maller with seen proofs — The simulator's random values are further variables: Schwartz–Zippel over them shows that the first two elements use the seen proofs alike and that at most one is used; over α, β, γ that the coefficient is 1 and the rest of the proof is constant; over `t`, because the input rows of the square program are linearly independent, that the constant is 0 and the input is the seen one, so the proof is a copy. Otherwise no seen proof is used and C90 applies.
* **C115** Groth16 with seen proofs — As C114, with the changes of C113 in place of the copies: Schwartz–Zippel over the simulator's random values shows that at most one seen proof is used, over δ that it enters as the change does, and otherwise the prover's equation is the one of C88.
* **C116** The evaluation point and the history — The verifier is followed step by step; each argument's verifier is shown to do nothing to the transcript but draw; the messages of two histories are compared with C57's collision theorem.
* **C117** Placeholder over LPC is not sound — the property is false; the forgery is proved for every circuit in which no part of the lookups is empty, every table and all transcripts (but for three conditions on challenges), from the prover of C66's forgery with an exchange of claims at the end.
