{"id": "C01", "title": "Linear-combination arithmetic commutes with evaluation", "statement": "Evaluating the sum, difference, negation or scalar multiple of two linear combinations on an assignment gives the sum, difference, negation or scalar multiple of their evaluations on that assignment, whatever the order and multiplicity of their terms; adding two combinations whose indices are strictly increasing again gives strictly increasing indices.", "quantifier": "all pairs of linear combinations, all scalars, all assignments covering their indices, all fields", "why_tests_cant": "The merge loop has three branches and a tail; correctness must hold for every interleaving of indices, which a test samples.", "anchors": ["include/nil/crypto3/zk/math/linear_combination.hpp: linear_combination::operator+", "include/nil/crypto3/zk/math/linear_combination.hpp: operator-", "include/nil/crypto3/zk/math/linear_combination.hpp: operator*", "include/nil/crypto3/zk/math/linear_combination.hpp: evaluate"]}
{"id": "C02", "title": "Building a linear combination from a term list canonicalises it without changing its value", "statement": "The linear combination built from an arbitrary vector of terms has strictly increasing indices (no variable twice) and evaluates on every assignment to the sum of the given terms.", "quantifier": "all term vectors (any order, any repetitions), any order in which an unstable sort leaves equal indices, all assignments", "why_tests_cant": "The result of an unstable sort is one of many orders; a test sees one.", "anchors": ["include/nil/crypto3/zk/math/linear_combination.hpp: linear_combination(const std::vector<linear_term>&)"]}
{"id": "C03", "title": "Equality of linear combinations implies equal values", "statement": "If two linear combinations compare equal then they evaluate to the same field element on every assignment; every combination equals itself; and for combinations that mention each variable once, reordering terms does not change equality.", "quantifier": "all pairs of linear combinations, all assignments", "why_tests_cant": "Universally quantified over assignments and term orders.", "anchors": ["include/nil/crypto3/zk/math/linear_combination.hpp: linear_combination::operator=="]}
{"id": "C04", "title": "Validity check of a linear combination accepts exactly the in-range canonical ones", "statement": "For a system with n variables (indices 0..n, 0 being the constant), the validity check accepts a linear combination exactly when its indices are strictly increasing and every index is at most n; it never reads outside the term list.", "quantifier": "all linear combinations including the empty one, all n", "why_tests_cant": "Boundary behaviour at index n and at the empty list is exactly where tests are silent.", "anchors": ["include/nil/crypto3/zk/math/linear_combination.hpp: linear_combination::is_valid", "include/nil/crypto3/zk/snark/arithmetization/constraint_satisfaction_problems/r1cs.hpp: r1cs_constraint_system::is_valid"]}
{"id": "C05", "title": "Expressions built with +, -, *, unary minus and pow evaluate to the arithmetic they denote", "statement": "For every expression obtained from variables, constants and terms with the public operators (including compound assignments and the simplifications applied when an operand is zero), evaluating it under any variable valuation gives the corresponding field arithmetic on the operands' values.", "quantifier": "all expression trees, all valuations, all fields, all powers", "why_tests_cant": "The zero-operand shortcuts apply at any depth; trees are unbounded.", "anchors": ["include/nil/crypto3/zk/math/expression.hpp: expression::operator+", "include/nil/crypto3/zk/math/expression.hpp: expression::operator-", "include/nil/crypto3/zk/math/expression.hpp: expression::operator*", "include/nil/crypto3/zk/math/expression.hpp: expression::operator+=", "include/nil/crypto3/zk/math/expression.hpp: term::operator*", "include/nil/crypto3/zk/math/expression.hpp: pow", "include/nil/crypto3/zk/math/expression_evaluator.hpp: expression_evaluator"]}
{"id": "C06", "title": "Flattening an expression to a sum of products preserves its value", "statement": "Converting an expression to a flat non-linear combination yields a combination whose value under every valuation equals the expression's value (every power in the expression being at least 1), with no two terms having the same multiset of variables and no zero coefficient.", "quantifier": "all expression trees, all valuations", "why_tests_cant": "Unbounded trees and powers; term merging depends on hash-map iteration order.", "anchors": ["include/nil/crypto3/zk/math/expression_visitors.hpp: expression_to_non_linear_combination_visitor", "include/nil/crypto3/zk/math/non_linear_combination.hpp: merge_equal_terms", "include/nil/crypto3/zk/math/non_linear_combination.hpp: operator*", "include/nil/crypto3/zk/math/non_linear_combination.hpp: operator+", "include/nil/crypto3/zk/math/non_linear_combination.hpp: operator-"]}
{"id": "C07", "title": "The cached evaluator computes the same value as the plain evaluator", "statement": "For every expression and every valuation, evaluation with sub-expression caching returns exactly the value returned by plain evaluation, and repeating the evaluation on the same evaluator object returns it again.", "quantifier": "all expression trees, all valuations, all cache and counter states reachable during evaluation, any hash function", "why_tests_cant": "Correctness depends on the cache history along the whole traversal of an unbounded tree.", "anchors": ["include/nil/crypto3/zk/math/expression_evaluator.hpp: cached_expression_evaluator::evaluate", "include/nil/crypto3/zk/math/expression_evaluator.hpp: subexpression_counter::count"]}
{"id": "C08", "title": "Equal expressions hash equally and evaluate equally", "statement": "If two terms or two expressions compare equal then their hashes are equal and their values agree under every valuation, so hash maps keyed by them never miss or confuse entries; term equality ignores the order of the variables.", "quantifier": "all pairs of terms / expression trees, all valuations", "why_tests_cant": "Quantifies over all pairs of trees and all permutations of variables.", "anchors": ["include/nil/crypto3/zk/math/expression.hpp: term::operator==", "include/nil/crypto3/zk/math/expression.hpp: expression::operator==", "include/nil/crypto3/zk/math/expression.hpp: std::hash<term>", "include/nil/crypto3/zk/math/expression.hpp: std::hash<expression>"]}
{"id": "C09", "title": "The reported maximal degree bounds the degree of the flattened polynomial", "statement": "The degree computed for an expression is an upper bound on the number of variables in every term of its flattened form, hence on the degree of the polynomial obtained by substituting polynomials of degree d for variables (at most degree*d), as long as the true degree is below 2^32.", "quantifier": "all expression trees, all substitutions", "why_tests_cant": "Unbounded trees.", "anchors": ["include/nil/crypto3/zk/math/expression_visitors.hpp: expression_max_degree_visitor"]}
{"id": "C10", "title": "Equality of flat combinations is multiset equality of terms", "statement": "Two non-linear combinations compare equal exactly when their terms agree as multisets (with term equality), so the comparison is an equivalence relation and equal combinations have equal values under every valuation.", "quantifier": "all pairs of non-linear combinations, all valuations", "why_tests_cant": "The counting loop must be right for every multiplicity pattern.", "anchors": ["include/nil/crypto3/zk/math/non_linear_combination.hpp: non_linear_combination::operator=="]}
{"id": "C11", "title": "Plonk variables are totally ordered consistently with equality", "statement": "The < relation on plonk variables is irreflexive, transitive and total up to ==, and a > b holds exactly when b < a.", "quantifier": "all triples of plonk variables", "why_tests_cant": "Sorting and ordered containers misbehave on any violating triple.", "anchors": ["include/nil/crypto3/zk/snark/arithmetization/plonk/variable.hpp: plonk_variable::operator<", "include/nil/crypto3/zk/snark/arithmetization/plonk/variable.hpp: operator>", "include/nil/crypto3/zk/snark/arithmetization/plonk/variable.hpp: operator=="]}
{"id": "C12", "title": "Changing the variable type of an expression preserves its meaning", "statement": "Converting an expression to another coefficient/variable type commutes with evaluation whenever the coefficient conversion is a ring homomorphism, and visiting the variables of an expression reports exactly the variables that occur in it.", "quantifier": "all expression trees, all valuations, all coefficient homomorphisms that send no nonzero coefficient to zero or otherwise", "why_tests_cant": "Unbounded trees.", "anchors": ["include/nil/crypto3/zk/math/expression_visitors.hpp: expression_variable_type_converter", "include/nil/crypto3/zk/math/expression_visitors.hpp: expression_for_each_variable_visitor"]}
{"id": "C13", "title": "Integer permutations: validity, inverse and slices", "statement": "The validity check accepts exactly the bijections of [min,max]; for a valid permutation the inverse composed with it on either side is the identity, the inverse is valid, and inverting twice gives back the original.", "quantifier": "all permutations of all intervals [min,max]", "why_tests_cant": "n! permutations for every n.", "anchors": ["include/nil/crypto3/zk/math/integer_permutation.hpp: integer_permutation::is_valid", "include/nil/crypto3/zk/math/integer_permutation.hpp: inverse", "include/nil/crypto3/zk/math/integer_permutation.hpp: slice"]}
{"id": "C14", "title": "Copy constraints generate exactly the right permutation", "statement": "After processing any sequence of copy constraints the resulting cell mapping is a permutation of the cells, and two cells lie on the same cycle exactly when they are linked by the reflexive, symmetric, transitive closure of the processed constraints; processing always terminates.", "quantifier": "all sequences of copy constraints over all cell sets, including cells outside the initial grid", "why_tests_cant": "Invariant over every history of union operations.", "anchors": ["include/nil/crypto3/zk/snark/systems/plonk/placeholder/preprocessor.hpp: cycle_representation"]}
{"id": "C15", "title": "A table satisfies the copy constraints iff it is invariant under the generated permutation", "statement": "An assignment of values to cells satisfies every copy constraint exactly when each cell has the value of its image under the permutation produced by the preprocessor.", "quantifier": "all copy-constraint sequences, all assignments", "why_tests_cant": "Closure over arbitrary chains of constraints.", "anchors": ["include/nil/crypto3/zk/snark/systems/plonk/placeholder/preprocessor.hpp: cycle_representation", "include/nil/crypto3/zk/snark/arithmetization/plonk/copy_constraint.hpp: plonk_copy_constraint"]}
{"id": "C16", "title": "Swapping the A and B matrices of an R1CS never changes what it accepts", "statement": "After the swap-if-beneficial optimisation an R1CS accepts exactly the same primary/auxiliary inputs as before, and it has the same numbers of inputs, variables and constraints.", "quantifier": "all R1CS instances, all inputs", "why_tests_cant": "Both branches of the heuristic, all systems.", "anchors": ["include/nil/crypto3/zk/snark/arithmetization/constraint_satisfaction_problems/r1cs.hpp: swap_AB_if_beneficial", "include/nil/crypto3/zk/snark/arithmetization/constraint_satisfaction_problems/r1cs.hpp: is_satisfied"]}
{"id": "C17", "title": "R1CS to QAP: satisfying assignments give satisfied QAPs", "statement": "For every R1CS and every satisfying input, the QAP witness computed from it satisfies the QAP instance evaluation at every point t, for every choice of the zero-knowledge blinding values d1,d2,d3.", "quantifier": "all R1CS instances over a field with a suitable evaluation domain, all satisfying inputs, all t, all d1,d2,d3", "why_tests_cant": "Polynomial identity over unbounded systems.", "anchors": ["include/nil/crypto3/zk/snark/reductions/r1cs_to_qap.hpp: witness_map", "include/nil/crypto3/zk/snark/reductions/r1cs_to_qap.hpp: instance_map_with_evaluation", "include/nil/crypto3/zk/snark/arithmetization/arithmetic_programs/qap.hpp: qap_instance_evaluation::is_satisfied"]}
{"id": "C18", "title": "R1CS to QAP: a QAP satisfied as polynomials comes from a satisfying assignment", "statement": "If the QAP divisibility identity A*B-C = H*Z holds as polynomials for the vector (1,input,aux), then the R1CS is satisfied by input and aux; and evaluating the QAP instance at t directly equals evaluating the polynomials of the instance at t.", "quantifier": "all R1CS instances, all assignments, all polynomials H, all t", "why_tests_cant": "Soundness direction quantifies over all H.", "anchors": ["include/nil/crypto3/zk/snark/reductions/r1cs_to_qap.hpp: instance_map", "include/nil/crypto3/zk/snark/reductions/r1cs_to_qap.hpp: instance_map_with_evaluation", "include/nil/crypto3/zk/snark/arithmetization/arithmetic_programs/qap.hpp: qap_instance"]}
{"id": "C19", "title": "R1CS to SAP is complete and sound", "statement": "For every R1CS, the square arithmetic program obtained from it is satisfied by the extended witness computed from a satisfying assignment (for every blinding d1,d2 and every t), and any solution of the square constraints restricts to a satisfying R1CS assignment.", "quantifier": "all R1CS instances over fields of characteristic different from 2, all assignments, all t", "why_tests_cant": "Unbounded systems; the doubled constraints and extra variables interact through index arithmetic.", "anchors": ["include/nil/crypto3/zk/snark/reductions/r1cs_to_sap.hpp: instance_map", "include/nil/crypto3/zk/snark/reductions/r1cs_to_sap.hpp: instance_map_with_evaluation", "include/nil/crypto3/zk/snark/reductions/r1cs_to_sap.hpp: witness_map", "include/nil/crypto3/zk/snark/arithmetization/arithmetic_programs/sap.hpp: sap_instance_evaluation::is_satisfied"]}
{"id": "C20", "title": "USCS to SSP is complete and sound", "statement": "For every USCS and satisfying input, the SSP witness satisfies the SSP instance evaluation at every t and every blinding d, and conversely a divisibility identity V^2-1 = H*Z as polynomials gives a satisfying USCS assignment; padding constraints up to the domain size never change satisfiability.", "quantifier": "all USCS instances, all inputs, all t, all d", "why_tests_cant": "Unbounded systems; padding depends on the domain size.", "anchors": ["include/nil/crypto3/zk/snark/reductions/uscs_to_ssp.hpp: instance_map", "include/nil/crypto3/zk/snark/reductions/uscs_to_ssp.hpp: instance_map_with_evaluation", "include/nil/crypto3/zk/snark/reductions/uscs_to_ssp.hpp: witness_map", "include/nil/crypto3/zk/snark/arithmetization/arithmetic_programs/ssp.hpp: ssp_instance_evaluation::is_satisfied"]}
{"id": "C21", "title": "BACS to R1CS preserves satisfiability exactly", "statement": "A bilinear arithmetic circuit accepts inputs (all outputs zero) exactly when the produced R1CS accepts the primary input with the computed witness; and any R1CS-satisfying auxiliary vector consists of the circuit's auxiliary input followed by the circuit's wire values.", "quantifier": "all valid BACS circuits, all inputs, all auxiliary vectors", "why_tests_cant": "Induction over unbounded circuits.", "anchors": ["include/nil/crypto3/zk/snark/reductions/bacs_to_r1cs.hpp: instance_map", "include/nil/crypto3/zk/snark/reductions/bacs_to_r1cs.hpp: witness_map", "include/nil/crypto3/zk/snark/arithmetization/circuit_satisfaction_problems/bacs.hpp: get_all_wires", "include/nil/crypto3/zk/snark/arithmetization/circuit_satisfaction_problems/bacs.hpp: is_satisfied"]}
{"id": "C22", "title": "TBCS to USCS preserves satisfiability", "statement": "A two-input boolean circuit accepts inputs (all outputs false) only if the produced USCS accepts the computed witness, and conversely every USCS-satisfying boolean-consistent assignment gives accepting circuit inputs, for fields of characteristic other than 2,3,5,7.", "quantifier": "all valid TBCS circuits, all inputs, all auxiliary vectors, all fields of suitable characteristic", "why_tests_cant": "Sixteen gate types times unbounded circuits; soundness quantifies over non-boolean wire values.", "anchors": ["include/nil/crypto3/zk/snark/reductions/tbcs_to_uscs.hpp: instance_map", "include/nil/crypto3/zk/snark/reductions/tbcs_to_uscs.hpp: witness_map", "include/nil/crypto3/zk/snark/arithmetization/circuit_satisfaction_problems/tbcs.hpp: tbcs_gate::evaluate", "include/nil/crypto3/zk/snark/arithmetization/circuit_satisfaction_problems/tbcs.hpp: is_satisfied"]}
{"id": "C23", "title": "Circuit depth and wire computations stay in bounds on valid circuits", "statement": "For every circuit accepted by the validity check, computing all wires, all outputs and wire depths reads only wires already computed, and a gate's depth is one more than the maximum depth of its inputs.", "quantifier": "all valid BACS and TBCS circuits, all inputs of the declared size", "why_tests_cant": "Out-of-bounds reads are silent in tests.", "anchors": ["include/nil/crypto3/zk/snark/arithmetization/circuit_satisfaction_problems/bacs.hpp: wire_depths", "include/nil/crypto3/zk/snark/arithmetization/circuit_satisfaction_problems/bacs.hpp: depth", "include/nil/crypto3/zk/snark/arithmetization/circuit_satisfaction_problems/bacs.hpp: get_all_wires", "include/nil/crypto3/zk/snark/arithmetization/circuit_satisfaction_problems/tbcs.hpp: wire_depths", "include/nil/crypto3/zk/snark/arithmetization/circuit_satisfaction_problems/tbcs.hpp: depth", "include/nil/crypto3/zk/snark/arithmetization/circuit_satisfaction_problems/tbcs.hpp: get_all_wires"]}
{"id": "C24", "title": "Every permutation is routed correctly through the Benes network", "statement": "For every permutation of 2^k packets, the switch settings computed for the Benes network carry packet i to the place the permutation prescribes when routed through the network's topology, and the routing checker accepts exactly the settings that do so.", "quantifier": "all k, all permutations of 2^k packets", "why_tests_cant": "(2^k)! permutations for each k.", "anchors": ["include/nil/crypto3/zk/snark/routing/benes.hpp: generate_benes_topology", "include/nil/crypto3/zk/snark/routing/benes.hpp: get_benes_routing", "include/nil/crypto3/zk/snark/routing/benes.hpp: route_by_benes", "include/nil/crypto3/zk/snark/routing/benes.hpp: valid_benes_routing"]}
{"id": "C25", "title": "Every permutation is routed correctly through the AS-Waksman network", "statement": "For every permutation of n >= 2 packets, the switch settings computed for the arbitrary-size Waksman network are accepted by the routing checker, i.e. carry every packet to its prescribed destination in the generated topology.", "quantifier": "all n >= 2, all permutations of n packets", "why_tests_cant": "n! permutations for each n, odd and even sizes nested at every level.", "anchors": ["include/nil/crypto3/zk/snark/routing/as_waksman.hpp: generate_as_waksman_topology", "include/nil/crypto3/zk/snark/routing/as_waksman.hpp: get_as_waksman_routing", "include/nil/crypto3/zk/snark/routing/as_waksman.hpp: valid_as_waksman_routing"]}
{"id": "C26", "title": "Column numbering of the Plonk table is a bijection", "statement": "Numbering columns as witnesses, then public inputs, then constants, then selectors is a bijection between the declared columns and 0..width-1, and accessing the table by number or by type and index gives the same column, or an out-of-range error exactly when the number is not below the width.", "quantifier": "all table descriptions, all column references", "why_tests_cant": "Quantifies over all table shapes.", "anchors": ["include/nil/crypto3/zk/snark/arithmetization/plonk/table_description.hpp: plonk_table_description::global_index", "include/nil/crypto3/zk/snark/arithmetization/plonk/table_description.hpp: table_width", "include/nil/crypto3/zk/snark/arithmetization/plonk/assignment.hpp: operator[]"]}
{"id": "C27", "title": "Row rotation in constraint evaluation is cyclic", "statement": "Evaluating a constraint at a row reads, for each variable with rotation r, the cell at row (row + r) modulo the table height, for every rotation whose magnitude does not exceed rows + row, and never reads outside the column.", "quantifier": "all constraints, all rows, all rotations, all table heights", "why_tests_cant": "The unsigned arithmetic wraps only for extreme rotations.", "anchors": ["include/nil/crypto3/zk/snark/arithmetization/plonk/constraint.hpp: plonk_constraint::evaluate"]}
{"id": "C28", "title": "Padding yields a power-of-two table and preserves contents", "statement": "Padding a table yields a row count that is a power of two, at least 8 and strictly greater than the number of usable rows, leaves every original cell unchanged, fills public inputs with zero, and (zero-knowledge padding) fills every other new cell with its own random draw.", "quantifier": "all tables, all usable-row counts, all random fill values", "why_tests_cant": "Boundaries at powers of two.", "anchors": ["include/nil/crypto3/zk/snark/arithmetization/plonk/padding.hpp: basic_padding", "include/nil/crypto3/zk/snark/arithmetization/plonk/padding.hpp: zk_padding"]}
{"id": "C29", "title": "Splitting lookups into parts loses nothing and respects the degree budget", "statement": "The parts computed for the lookup argument are counts whose sum is the number of lookup constraints plus table options; each part's accumulated degree stays within the quotient-chunk budget, and every part is non-empty.", "quantifier": "all lists of constraint degrees and options, all chunk limits", "why_tests_cant": "Greedy grouping over arbitrary degree sequences.", "anchors": ["include/nil/crypto3/zk/snark/arithmetization/plonk/constraint_system.hpp: lookup_parts"]}
{"id": "C30", "title": "Packing lookup tables makes exactly the declared rows available", "statement": "After packing lookup tables into constant columns, the set of tuples selected by each table's selector is exactly the table's declared rows, tables do not overlap, and the reported usable rows cover all of them.", "quantifier": "all sets of lookup tables, all starting columns and sizes", "why_tests_cant": "Placement depends on every earlier table.", "anchors": ["include/nil/crypto3/zk/snark/arithmetization/plonk/lookup_table_definition.hpp: pack_lookup_tables"]}
{"id": "C31", "title": "Permutation argument: honest tables give a grand product that closes", "statement": "If the table's columns are invariant under the permutation on the usable rows then, for every beta and gamma at which no denominator vanishes, the running product computed by the prover equals one at row 0 and at the last row, and all three constraint polynomials produced vanish on the whole domain.", "quantifier": "all tables, all permutations, all challenges, all partitionings of the factors into parts", "why_tests_cant": "Telescoping product over unbounded rows, columns and parts.", "anchors": ["include/nil/crypto3/zk/snark/systems/plonk/placeholder/permutation_argument.hpp: prove_eval"]}
{"id": "C32", "title": "Permutation argument: a grand product that closes for generic challenges forces the copy constraints", "statement": "If the multiset equality tested by the permutation argument holds as a polynomial identity in beta and gamma then each cell's value equals the value of its image under the permutation.", "quantifier": "all tables, all permutations, all fields", "why_tests_cant": "Quantifies over all tables, honest or not.", "anchors": ["include/nil/crypto3/zk/snark/systems/plonk/placeholder/permutation_argument.hpp: prove_eval", "include/nil/crypto3/zk/snark/systems/plonk/placeholder/permutation_argument.hpp: verify_eval", "include/nil/crypto3/zk/snark/systems/plonk/placeholder/preprocessor.hpp: identity_polynomials", "include/nil/crypto3/zk/snark/systems/plonk/placeholder/preprocessor.hpp: permutation_polynomials"]}
{"id": "C33", "title": "Prover and verifier agree on every argument's value at the challenge point", "statement": "For the permutation, gate and lookup arguments, evaluating the prover's polynomials at the challenge gives exactly the values the verifier recomputes from the claimed evaluations, for every part splitting and every challenge.", "quantifier": "all constraint systems, all assignments, all challenges, all evaluation points", "why_tests_cant": "Symbolic identity over unbounded systems.", "anchors": ["include/nil/crypto3/zk/snark/systems/plonk/placeholder/permutation_argument.hpp: prove_eval", "include/nil/crypto3/zk/snark/systems/plonk/placeholder/permutation_argument.hpp: verify_eval", "include/nil/crypto3/zk/snark/systems/plonk/placeholder/gates_argument.hpp: prove_eval", "include/nil/crypto3/zk/snark/systems/plonk/placeholder/gates_argument.hpp: verify_eval", "include/nil/crypto3/zk/snark/systems/plonk/placeholder/lookup_argument.hpp: prove_eval", "include/nil/crypto3/zk/snark/systems/plonk/placeholder/lookup_argument.hpp: verify_eval"]}
{"id": "C34", "title": "Gate argument vanishes exactly when the gates are satisfied", "statement": "The combined gate polynomial vanishes at a row for every theta exactly when every constraint of every selected gate holds at that row (or the row is masked).", "quantifier": "all gate systems, all tables, all rows, all theta", "why_tests_cant": "Random linear combination over unbounded constraint lists.", "anchors": ["include/nil/crypto3/zk/snark/systems/plonk/placeholder/gates_argument.hpp: prove_eval", "include/nil/crypto3/zk/snark/systems/plonk/placeholder/gates_argument.hpp: verify_eval"]}
{"id": "C35", "title": "Lookup argument: sorting is a merge of inputs and table values", "statement": "When every lookup input occurs among the table values, the sorted columns hold exactly the multiset union of inputs and table values in table order, adjacent columns overlap in one cell, and the lookup running product closes to one for all challenges at which no denominator vanishes.", "quantifier": "all input/value columns whose table values are grouped, all challenges", "why_tests_cant": "Unbounded multisets.", "anchors": ["include/nil/crypto3/zk/snark/systems/plonk/placeholder/lookup_argument.hpp: sort_polynomials", "include/nil/crypto3/zk/snark/systems/plonk/placeholder/lookup_argument.hpp: compute_V_L"]}
{"id": "C36", "title": "Quotient splitting recombines to the original polynomial", "statement": "Splitting the quotient into chunks of bounded degree and recombining the chunk evaluations with powers y^(i*rows) gives the quotient's value at y, for every polynomial and every y.", "quantifier": "all polynomials, all chunk sizes, all points", "why_tests_cant": "Unbounded degree; the last chunk may be short.", "anchors": ["include/nil/crypto3/zk/snark/systems/plonk/placeholder/prover.hpp: split_polynomial", "include/nil/crypto3/zk/snark/systems/plonk/placeholder/prover.hpp: quotient_polynomial_split_dfs", "include/nil/crypto3/zk/snark/systems/plonk/placeholder/verifier.hpp: process"]}
{"id": "C37", "title": "The placeholder verifier accepts honest proofs and its final equation is the quotient identity", "statement": "The final verification equation holds at every challenge point when the combined constraint polynomial is divisible by the vanishing polynomial and the chunks recombine to the quotient; and if it holds at more points than the degree then the constraint polynomials vanish on the domain.", "quantifier": "all constraint polynomials, all challenges and points", "why_tests_cant": "Polynomial identity over all instances.", "anchors": ["include/nil/crypto3/zk/snark/systems/plonk/placeholder/verifier.hpp: process", "include/nil/crypto3/zk/snark/systems/plonk/placeholder/prover.hpp: process"]}
{"id": "C38", "title": "The public-input overload binds the declared public inputs", "statement": "Verification with explicit public inputs accepts only if the public-input columns committed in the proof contain the given values in their first declared rows (zero elsewhere), for every public input vector supplied.", "quantifier": "all public inputs (shorter, equal or longer than declared), all proofs, all challenges", "why_tests_cant": "Which entries are ignored is invisible to positive tests.", "anchors": ["include/nil/crypto3/zk/snark/systems/plonk/placeholder/verifier.hpp: process(public_input)"]}
{"id": "C39", "title": "KZG opening proofs verify, and verify only for the committed value up to the trapdoor", "statement": "For every polynomial within the key's size, every point and every key, the opening proof verifies against the commitment and the true value; with the same proof and commitment, any other claimed value is rejected.", "quantifier": "all polynomials, points, trapdoors", "why_tests_cant": "Algebraic identity in a bilinear group.", "anchors": ["include/nil/crypto3/zk/commitments/polynomial/kzg.hpp: kzg::commit", "include/nil/crypto3/zk/commitments/polynomial/kzg.hpp: proof_eval", "include/nil/crypto3/zk/commitments/polynomial/kzg.hpp: verify_eval"]}
{"id": "C40", "title": "Batched KZG openings verify for every set of points per polynomial", "statement": "For every family of polynomials, every family of non-empty point sets and every gamma, the batched opening proof verifies against the commitments and the evaluations; the set difference and union used by prover and verifier agree.", "quantifier": "all families of polynomials and point sets, all challenges, all trapdoors", "why_tests_cant": "Unbounded batches with overlapping point sets.", "anchors": ["include/nil/crypto3/zk/commitments/polynomial/kzg.hpp: zk::algorithms::proof_eval (batched)", "include/nil/crypto3/zk/commitments/polynomial/kzg.hpp: verify_eval", "include/nil/crypto3/zk/commitments/polynomial/kzg.hpp: set_difference_polynom", "include/nil/crypto3/zk/commitments/polynomial/kzg.hpp: merge_eval_points", "include/nil/crypto3/zk/commitments/polynomial/kzg_v2.hpp: kzg_commitment_scheme_v2::proof_eval", "include/nil/crypto3/zk/commitments/polynomial/kzg_v2.hpp: verify_eval"]}
{"id": "C41", "title": "FRI folding is evaluation-consistent", "statement": "Folding a polynomial with alpha, in coefficient form or in evaluation form, gives the polynomial g with g(x^2) = (f(x)+f(-x))/2 + alpha (f(x)-f(-x))/(2x); hence the value the verifier interpolates through (s,f(s)) and (-s,f(-s)) at alpha equals the folded polynomial at s^2, and folding halves the degree bound.", "quantifier": "all polynomials, all alpha, all nonzero points, all power-of-two domains", "why_tests_cant": "Unbounded degree and domain size.", "anchors": ["include/nil/crypto3/zk/commitments/detail/polynomial/fold_polynomial.hpp: fold_polynomial", "include/nil/crypto3/zk/commitments/detail/polynomial/basic_fri.hpp: verify_eval"]}
{"id": "C42", "title": "FRI index arithmetic enumerates cosets consistently", "statement": "For a domain of power-of-two size and a step, the index list built from a query index consists of the distinct indices congruent to it modulo the folded domain size, each paired with its negation; the folded index is the query index modulo the folded size; and the reordering used to build leaves finds every element.", "quantifier": "all power-of-two domain sizes, all query indices, all steps", "why_tests_cant": "Nested halving/doubling index loops for all sizes.", "anchors": ["include/nil/crypto3/zk/commitments/detail/polynomial/basic_fri.hpp: calculate_s", "include/nil/crypto3/zk/commitments/detail/polynomial/basic_fri.hpp: get_paired_index", "include/nil/crypto3/zk/commitments/detail/polynomial/basic_fri.hpp: get_folded_index", "include/nil/crypto3/zk/commitments/detail/polynomial/basic_fri.hpp: get_correct_order"]}
{"id": "C43", "title": "FRI accepts honestly folded codewords for every step list", "statement": "If the round polynomials are produced by honest folding then every round-consistency check of the verifier and the final polynomial check succeed at every query, for every step list with the right sum; the generated step list has the right sum and shape.", "quantifier": "all polynomials of allowed degree, all alphas, all queries, all step lists", "why_tests_cant": "Unbounded rounds and steps.", "anchors": ["include/nil/crypto3/zk/commitments/detail/polynomial/basic_fri.hpp: proof_eval", "include/nil/crypto3/zk/commitments/detail/polynomial/basic_fri.hpp: verify_eval", "include/nil/crypto3/zk/commitments/detail/polynomial/basic_fri.hpp: generate_random_step_list", "include/nil/crypto3/zk/commitments/detail/polynomial/basic_fri.hpp: check_step_list"]}
{"id": "C44", "title": "LPC quotient identity links openings to FRI", "statement": "The combined quotient polynomial built by the prover equals, at every point outside the opening points, the combination the verifier recomputes from the opened values and the claimed evaluations, and it is a polynomial exactly when at every opening point the challenge-weighted sum of the claimed evaluations is that of the true ones; so for the prover's own evaluations it always is, and with a false claim it is one for at most as many challenges as there are claims at that point. The verifier accepts what the prover makes.", "quantifier": "all batches of polynomials, all opening points, all theta, all query points", "why_tests_cant": "Unbounded batches; exponents of theta must line up in nested loops.", "anchors": ["include/nil/crypto3/zk/commitments/polynomial/lpc.hpp: proof_eval", "include/nil/crypto3/zk/commitments/polynomial/lpc.hpp: verify_eval", "include/nil/crypto3/zk/commitments/batched_commitment.hpp: get_U", "include/nil/crypto3/zk/commitments/batched_commitment.hpp: get_V", "include/nil/crypto3/zk/commitments/batched_commitment.hpp: eval_polys"]}
{"id": "C45", "title": "The batched-commitment container evaluates every polynomial at its requested points and no other", "statement": "After any sequence of appending polynomials, committing batches and appending evaluation points (in the allowed order), evaluating yields for each polynomial exactly its values at its own requested points in order, and a committed batch's polynomials never change.", "quantifier": "all operation histories", "why_tests_cant": "State machine over arbitrary histories.", "anchors": ["include/nil/crypto3/zk/commitments/batched_commitment.hpp: append_to_batch", "include/nil/crypto3/zk/commitments/batched_commitment.hpp: append_eval_point", "include/nil/crypto3/zk/commitments/batched_commitment.hpp: state_commited", "include/nil/crypto3/zk/commitments/batched_commitment.hpp: eval_polys", "include/nil/crypto3/zk/commitments/batched_commitment.hpp: get_unique_points"]}
{"id": "C46", "title": "Evaluation storage returns the last value written", "statement": "Reading a stored evaluation returns the last value written at that batch/polynomial/point since the batch was last resized, and writes never affect other positions.", "quantifier": "all operation histories", "why_tests_cant": "Frame property over all histories.", "anchors": ["include/nil/crypto3/zk/commitments/detail/polynomial/eval_storage.hpp: eval_storage"]}
{"id": "C47", "title": "Proof-of-work nonces produced by the prover are accepted and keep transcripts in sync", "statement": "Whenever the nonce search stops, the verifier accepts the nonce on the same transcript and ends in the same transcript state as the prover; the verifier accepts a nonce exactly when the masked challenge is zero.", "quantifier": "all transcript states, all masks, all starting nonces, any hash", "why_tests_cant": "Search start is random and unbounded.", "anchors": ["include/nil/crypto3/zk/commitments/detail/polynomial/proof_of_work.hpp: proof_of_work::generate", "include/nil/crypto3/zk/commitments/detail/polynomial/proof_of_work.hpp: verify", "include/nil/crypto3/zk/commitments/detail/polynomial/proof_of_work.hpp: field_proof_of_work"]}
{"id": "C48", "title": "Sparse multi-exponentiation computes the full inner product", "statement": "Multi-exponentiation of a sparse vector against a scalar range equals the sum over all stored indices in the range of scalar times element, whatever mixture of zero, one and other scalars occurs; batch exponentiation of a vector stores exactly its nonzero positions regardless of how the work is chunked.", "quantifier": "all sparse vectors, all scalar ranges, all chunk counts", "why_tests_cant": "All mixtures of zero/one/other scalars and chunk boundaries.", "anchors": ["include/nil/crypto3/zk/commitments/polynomial/knowledge_commitment_multiexp.hpp: kc_multiexp_with_mixed_addition", "include/nil/crypto3/zk/commitments/polynomial/knowledge_commitment_multiexp.hpp: kc_batch_exp"]}
{"id": "C49", "title": "Pedersen verifiable secret sharing: honest shares verify and any k of them reconstruct", "statement": "For every secret, every threshold k and every n, shares produced by the prover verify; and any k distinct share indices reconstruct the secret; fewer than k are refused.", "quantifier": "all secrets, thresholds, share counts, index sets", "why_tests_cant": "Combinatorially many index sets.", "anchors": ["include/nil/crypto3/zk/commitments/polynomial/pedersen.hpp: pedersen::proof_eval", "include/nil/crypto3/zk/commitments/polynomial/pedersen.hpp: verify_eval", "include/nil/crypto3/zk/commitments/polynomial/pedersen.hpp: message_eval"]}
{"id": "C50", "title": "Groth16 completeness", "statement": "For every R1CS, every satisfying input, every toxic waste with invertible gamma and delta and every prover randomness, the proof produced with the generated proving key is accepted by the verifier with the generated verification key.", "quantifier": "all R1CS instances, satisfying inputs, toxic waste, randomness", "why_tests_cant": "Pairing-product identity over all instances and randomness.", "anchors": ["include/nil/crypto3/zk/snark/systems/ppzksnark/r1cs_gg_ppzksnark/generator.hpp: r1cs_gg_ppzksnark_generator", "include/nil/crypto3/zk/snark/systems/ppzksnark/r1cs_gg_ppzksnark/prover.hpp: r1cs_gg_ppzksnark_prover", "include/nil/crypto3/zk/snark/systems/ppzksnark/r1cs_gg_ppzksnark/verifier.hpp: r1cs_gg_ppzksnark_verifier_strong_input_consistency"]}
{"id": "C51", "title": "PGHR13 (R1CS ppzkSNARK) completeness", "statement": "For every R1CS, every satisfying input, every toxic waste and prover randomness, the produced proof passes all five verifier checks.", "quantifier": "all R1CS instances, satisfying inputs, toxic waste, randomness", "why_tests_cant": "Five pairing identities over all instances and randomness.", "anchors": ["include/nil/crypto3/zk/snark/systems/ppzksnark/r1cs_ppzksnark/generator.hpp: r1cs_ppzksnark_generator", "include/nil/crypto3/zk/snark/systems/ppzksnark/r1cs_ppzksnark/prover.hpp: r1cs_ppzksnark_prover", "include/nil/crypto3/zk/snark/systems/ppzksnark/r1cs_ppzksnark/verifier.hpp: r1cs_ppzksnark_verifier_weak_input_consistency"]}
{"id": "C52", "title": "GM17 (simulation-extractable R1CS ppzkSNARK) completeness", "statement": "For every R1CS, every satisfying input, every toxic waste and prover randomness, the produced proof passes both verifier checks.", "quantifier": "all R1CS instances, satisfying inputs, toxic waste, randomness", "why_tests_cant": "Pairing identities over all instances and randomness.", "anchors": ["include/nil/crypto3/zk/snark/systems/ppzksnark/r1cs_se_ppzksnark/generator.hpp: r1cs_se_ppzksnark_generator", "include/nil/crypto3/zk/snark/systems/ppzksnark/r1cs_se_ppzksnark/prover.hpp: r1cs_se_ppzksnark_prover", "include/nil/crypto3/zk/snark/systems/ppzksnark/r1cs_se_ppzksnark/verifier.hpp: r1cs_se_ppzksnark_verifier_strong_input_consistency"]}
{"id": "C53", "title": "USCS ppzkSNARK completeness", "statement": "For every USCS, every satisfying input, every toxic waste and prover randomness, the produced proof passes all three verifier checks.", "quantifier": "all USCS instances, satisfying inputs, toxic waste, randomness", "why_tests_cant": "Pairing identities over all instances and randomness.", "anchors": ["include/nil/crypto3/zk/snark/systems/ppzksnark/uscs_ppzksnark/generator.hpp: uscs_ppzksnark_generator", "include/nil/crypto3/zk/snark/systems/ppzksnark/uscs_ppzksnark/prover.hpp: uscs_ppzksnark_prover", "include/nil/crypto3/zk/snark/systems/ppzksnark/uscs_ppzksnark/verifier.hpp: uscs_ppzksnark_verifier_strong_input_consistency"]}
{"id": "C54", "title": "Strong input consistency rejects inputs of the wrong length; weak verification zero-extends", "statement": "The strong verifiers reject every primary input whose length differs from the number of inputs of the verification key, whatever the proof; on inputs of the right length they decide exactly as the weak verifiers, and the weak verifiers treat missing inputs as zero.", "quantifier": "all verification keys, inputs, proofs", "why_tests_cant": "Rejection must hold for every proof.", "anchors": ["include/nil/crypto3/zk/snark/systems/ppzksnark/r1cs_gg_ppzksnark/verifier.hpp: r1cs_gg_ppzksnark_verifier_strong_input_consistency", "include/nil/crypto3/zk/snark/systems/ppzksnark/r1cs_ppzksnark/verifier.hpp: r1cs_ppzksnark_verifier_strong_input_consistency"]}
{"id": "C55", "title": "Powers of tau: contributions compose and every accepted accumulator is well formed", "statement": "After any sequence of honest contributions the accumulator holds the powers of the product of the taus (times the products of alphas and betas); each honest contribution is accepted; and an accepted contribution always leaves an accumulator that is structured as powers of a single tau with constant alpha and beta, obtained from the previous secrets by the contributor's factor.", "quantifier": "all contribution histories, all secrets, all adversarial accumulators", "why_tests_cant": "Quantifies over all histories and all adversarial outputs.", "anchors": ["include/nil/crypto3/zk/commitments/polynomial/powers_of_tau.hpp: powers_of_tau::verify_eval", "include/nil/crypto3/zk/commitments/polynomial/powers_of_tau.hpp: proof_eval", "include/nil/crypto3/zk/commitments/detail/polynomial/powers_of_tau/accumulator.hpp: transform"]}
{"id": "C56", "title": "Groth16 MPC phase 2 ends in a valid key pair", "statement": "Starting from the powers-of-tau result and applying any sequence of phase-2 contributions with nonzero secrets gives the key pair the direct generator would produce with gamma = 1 and delta the product of the secrets; the honest chain of public keys is accepted, and acceptance forces the final H and L queries to be the initial ones divided by the accumulated delta.", "quantifier": "all contribution histories, all secrets, all R1CS instances", "why_tests_cant": "Quantifies over all histories.", "anchors": ["include/nil/crypto3/zk/commitments/polynomial/r1cs_gg_ppzksnark_mpc.hpp: r1cs_gg_ppzksnark_mpc::verify_eval", "include/nil/crypto3/zk/commitments/polynomial/r1cs_gg_ppzksnark_mpc.hpp: proof_eval", "include/nil/crypto3/zk/commitments/detail/polynomial/r1cs_gg_ppzksnark_mpc/crs_operations.hpp: make_r1cs_gg_ppzksnark_keypair_from_powers_of_tau", "include/nil/crypto3/zk/commitments/detail/polynomial/r1cs_gg_ppzksnark_mpc/crs_operations.hpp: transform_keypair"]}
{"id": "C57", "title": "Fiat-Shamir challenges depend on the whole history and nothing else", "statement": "Two parties that feed a transcript the same sequence of messages and challenge requests obtain the same challenges; with a collision-free hash, transcripts that absorbed different histories never return to a common state by absorbing; an integer challenge uses the full width of the requested integer type.", "quantifier": "all message/challenge histories, any hash", "why_tests_cant": "Quantifies over all histories and hash functions.", "anchors": ["include/nil/crypto3/zk/transcript/fiat_shamir.hpp: fiat_shamir_heuristic_sequential", "include/nil/crypto3/zk/transcript/fiat_shamir.hpp: fiat_shamir_heuristic_accumulative", "include/nil/crypto3/zk/transcript/fiat_shamir.hpp: int_challenge"]}
{"id": "C58", "title": "Set-commitment accumulator tracks exactly the added elements", "statement": "After any sequence of additions, membership holds exactly for the values added (up to hash equality), each distinct value keeps the position it was first given, positions are distinct, and adding a value twice changes nothing.", "quantifier": "all addition histories", "why_tests_cant": "Quantifies over all histories.", "anchors": ["include/nil/crypto3/zk/snark/set_commitment.hpp: set_commitment_accumulator"]}
{"id": "C59", "title": "PCD compliance predicates: well-formedness pins the number of variables", "statement": "The well-formedness check accepts exactly when the type is nonzero, there is one incoming length per arity, and the constraint system's inputs and variables are exactly the concatenation of outgoing message, arity, incoming messages, local data and witness; satisfaction then runs the constraint system on that concatenation.", "quantifier": "all compliance predicates and messages", "why_tests_cant": "Arithmetic over arbitrary length vectors.", "anchors": ["include/nil/crypto3/zk/snark/systems/pcd/r1cs_pcd/compliance_predicate.hpp: r1cs_pcd_compliance_predicate::is_well_formed", "include/nil/crypto3/zk/snark/systems/pcd/r1cs_pcd/compliance_predicate.hpp: is_satisfied"]}
{"id": "C60", "title": "Alpha powers handed to different constraint families never overlap", "statement": "After registering any sequence of argument types, the alpha exponents handed to distinct types are disjoint contiguous ranges, and the i-th power handed out for a type is the challenge raised to the range start plus i.", "quantifier": "all registration sequences, all challenges", "why_tests_cant": "Quantifies over histories.", "anchors": ["include/nil/crypto3/zk/snark/systems/plonk/pickles/alphas.hpp: Alphas::register_", "include/nil/crypto3/zk/snark/systems/plonk/pickles/alphas.hpp: instantiate", "include/nil/crypto3/zk/snark/systems/plonk/pickles/alphas.hpp: get_alphas"]}
{"id": "C61", "title": "Evaluation points requested by the placeholder prover and verifier coincide", "statement": "For every constraint system, the prover and the verifier request the same list of evaluation points for every polynomial of every batch, in the same order, including the rotated points required by each column.", "quantifier": "all constraint systems, all challenges", "why_tests_cant": "Duplicated code must agree for every system.", "anchors": ["include/nil/crypto3/zk/snark/systems/plonk/placeholder/prover.hpp: generate_evaluation_points", "include/nil/crypto3/zk/snark/systems/plonk/placeholder/verifier.hpp: generate_evaluation_points", "include/nil/crypto3/zk/snark/systems/plonk/placeholder/preprocessor.hpp: columns_rotations"]}
{"id": "C62", "title": "The pairing-based arguments reveal nothing about the witness", "statement": "With honestly generated keys, two satisfying witnesses for the same public input produce identically distributed proofs: for every choice of randomness with one witness there is a choice, one to one, with which the other witness yields the same proof. In Groth16 the holder of the toxic waste can make accepted proofs without a witness, and the first two proof elements determine the third.", "quantifier": "all constraint systems, inputs, witnesses, toxic waste and prover randomness", "why_tests_cant": "A statement about the distribution of proofs over all randomness and all witnesses.", "anchors": ["include/nil/crypto3/zk/snark/systems/ppzksnark/r1cs_gg_ppzksnark/prover.hpp: r1cs_gg_ppzksnark_prover::process", "include/nil/crypto3/zk/snark/systems/ppzksnark/r1cs_ppzksnark/prover.hpp: r1cs_ppzksnark_prover::process", "include/nil/crypto3/zk/snark/systems/ppzksnark/r1cs_se_ppzksnark/prover.hpp: r1cs_se_ppzksnark_prover::process", "include/nil/crypto3/zk/snark/systems/ppzksnark/uscs_ppzksnark/prover.hpp: uscs_ppzksnark_prover::process"]}
{"id": "C63", "title": "Horizontal packing of lookup tables makes exactly the declared rows available", "statement": "After packing lookup tables side by side under a limit on usable rows, what each table's options offer in the rows its selector switches on is exactly the table's declared rows, whatever the tables' sizes, and no table overwrites another.", "quantifier": "all sets of lookup tables, all limits, all starting columns and selectors", "why_tests_cant": "Depends on how table sizes relate to the limit and to each other.", "anchors": ["include/nil/crypto3/zk/snark/arithmetization/plonk/lookup_table_definition.hpp: pack_lookup_tables_horizontal", "include/nil/crypto3/zk/snark/arithmetization/plonk/lookup_table_definition.hpp: get_tables_ordered_by_rows_number"]}
{"id": "C64", "title": "Lookup argument: accepted rows force every lookup to hold", "statement": "If the verifier's four lookup values are zero on every row for committed sorted columns, running product and partition polynomials, then in every usable row where a lookup gate is switched on, the inputs of each of its constraints are an entry of the table it names, unless one of a small number of challenge values was drawn.", "quantifier": "all tables, all systems of lookup gates and tables, all polynomials of a cheating prover, all challenges outside explicitly bounded sets", "why_tests_cant": "A cheating prover chooses the polynomials freely, depending on the challenges.", "anchors": ["include/nil/crypto3/zk/snark/systems/plonk/placeholder/lookup_argument.hpp: verify_eval", "include/nil/crypto3/zk/snark/systems/plonk/placeholder/lookup_argument.hpp: prove_eval"]}
{"id": "C65", "title": "Placeholder completeness: a satisfied circuit always gets a proof, and the proof is accepted", "statement": "For every circuit and every table that satisfies its gates, copy constraints and lookups, preprocessing succeeds, the prover returns a proof (no access out of bounds, no failed inversion, the quotient fits its chunks), and the verifier accepts it, with and without the public inputs of the table, unless one of a small, explicitly bounded number of challenge values was drawn.", "quantifier": "all circuits, satisfying tables, column orders, chunk limits above the degree, transcripts and commitment schemes that meet the contract (LPC does); all challenges outside bounded sets", "why_tests_cant": "Totality and acceptance over all circuits, sizes and challenges.", "anchors": ["include/nil/crypto3/zk/snark/systems/plonk/placeholder/preprocessor.hpp: placeholder_public_preprocessor::process", "include/nil/crypto3/zk/snark/systems/plonk/placeholder/prover.hpp: placeholder_prover::process", "include/nil/crypto3/zk/snark/systems/plonk/placeholder/prover.hpp: quotient_polynomial_split_dfs", "include/nil/crypto3/zk/snark/systems/plonk/placeholder/verifier.hpp: placeholder_verifier::process", "include/nil/crypto3/zk/commitments/polynomial/lpc.hpp: proof_eval", "include/nil/crypto3/zk/commitments/polynomial/lpc.hpp: verify_eval"]}
{"id": "C66", "title": "Placeholder soundness: an accepted proof means that the committed table satisfies the circuit", "statement": "If the verifier accepts a proof whose opened values are those of fixed polynomials (the commitments are binding), then the table to which the prover is committed satisfies every gate, every copy constraint and every lookup of the circuit, unless one of a small, explicitly bounded number of values was drawn for one of the challenges, each set being fixed by what was committed before that challenge.", "quantifier": "all circuits, all tables, all polynomials of a cheating prover, all transcripts and commitment schemes, all challenges outside bounded sets", "why_tests_cant": "A statement about every cheating prover and every challenge; tests only show that particular wrong proofs are rejected.", "anchors": ["include/nil/crypto3/zk/snark/systems/plonk/placeholder/verifier.hpp: placeholder_verifier::process", "include/nil/crypto3/zk/snark/systems/plonk/placeholder/permutation_argument.hpp: verify_eval", "include/nil/crypto3/zk/snark/systems/plonk/placeholder/gates_argument.hpp: verify_eval", "include/nil/crypto3/zk/snark/systems/plonk/placeholder/lookup_argument.hpp: verify_eval"]}
{"id": "C67", "title": "FRI: an accepted proof is consistent at every query point, and a false opening is exposed by some point", "statement": "Whatever proof the FRI verifier accepts, for every query challenge the paths have the committed roots and show values that fold, with the drawn challenges, from the combined quotient of the openings down to the final polynomial, whose degree is within the bound. If the trees bind and every path stands at the place of its query point, these values are those of the committed polynomials; then, if a claimed opening is false (or the quotient has too high a degree), apart from one value of each round challenge and as many values of the combining challenge as there are claims at the point, some point of the domain exposes it: no accepted proof has a query there; and if the committed function is far, in more than e points per claim, from every allowed polynomial with the claimed value, more than e / 2^(r+1) points expose it, apart from at most one value of each round challenge and fewer values of the combining challenge than claims.", "quantifier": "all proofs, commitments, step lists, domains, transcripts, claims and round polynomials of a cheating prover, all challenges outside explicitly bounded sets", "why_tests_cant": "A statement about every proof a cheating prover can send.", "anchors": ["include/nil/crypto3/zk/commitments/detail/polynomial/basic_fri.hpp: verify_eval", "include/nil/crypto3/zk/commitments/detail/polynomial/basic_fri.hpp: calculate_s", "include/nil/crypto3/zk/commitments/detail/polynomial/basic_fri.hpp: get_folded_index", "include/nil/crypto3/zk/commitments/polynomial/lpc.hpp: verify_eval"]}
{"id": "C68", "title": "Circuit arguments: a satisfied circuit gets a proof and the proof is accepted", "statement": "For every valid bilinear arithmetic circuit and every valid two-input boolean circuit with a satisfying input, the circuit's prover returns a proof and both verifiers accept it, for every key the generator makes and all prover randomness; and the generator makes keys for all but a bounded number of the values it draws.", "quantifier": "all circuits, inputs, toxic waste and prover randomness", "why_tests_cant": "Quantifies over all circuits, inputs and randomness, through a reduction and an argument.", "anchors": ["include/nil/crypto3/zk/snark/systems/ppzksnark/bacs_ppzksnark/prover.hpp: bacs_ppzksnark_prover::process", "include/nil/crypto3/zk/snark/systems/ppzksnark/bacs_ppzksnark/generator.hpp: bacs_ppzksnark_generator::process", "include/nil/crypto3/zk/snark/systems/ppzksnark/bacs_ppzksnark/verifier.hpp: process", "include/nil/crypto3/zk/snark/systems/ppzksnark/tbcs_ppzksnark/prover.hpp: tbcs_ppzksnark_prover::process", "include/nil/crypto3/zk/snark/systems/ppzksnark/tbcs_ppzksnark/generator.hpp: tbcs_ppzksnark_generator::process", "include/nil/crypto3/zk/snark/systems/ppzksnark/tbcs_ppzksnark/verifier.hpp: process"]}
{"id": "C69", "title": "Aggregated Groth16 proofs: an aggregate of valid proofs is accepted", "statement": "For every power of two of at least two proofs within the reference string, if each proof is accepted by the Groth16 verifier for its public input, the aggregator returns an aggregate, and the aggregate verifier accepts it for these inputs, for every string the caller adds to the transcript and every choice of the verifier's random coefficients.", "quantifier": "all numbers of proofs, trapdoors, keys, proofs, inputs, transcripts, added strings and random coefficients", "why_tests_cant": "Quantifies over all proofs, sizes and random choices.", "anchors": ["include/nil/crypto3/zk/snark/systems/ppzksnark/r1cs_gg_ppzksnark/ipp2/prover.hpp: aggregate_proofs", "include/nil/crypto3/zk/snark/systems/ppzksnark/r1cs_gg_ppzksnark/ipp2/prover.hpp: prove_tipp_mipp", "include/nil/crypto3/zk/snark/systems/ppzksnark/r1cs_gg_ppzksnark/ipp2/prover.hpp: gipa_tipp_mipp", "include/nil/crypto3/zk/snark/systems/ppzksnark/r1cs_gg_ppzksnark/ipp2/verifier.hpp: verify_aggregate_proof", "include/nil/crypto3/zk/snark/systems/ppzksnark/r1cs_gg_ppzksnark/ipp2/verifier.hpp: pairing_check", "include/nil/crypto3/zk/snark/systems/ppzksnark/r1cs_gg_ppzksnark/ipp2/srs.hpp: specialize", "include/nil/crypto3/zk/commitments/polynomial/kzg_ipp2.hpp: commitment_key", "include/nil/crypto3/zk/commitments/polynomial/kzg_ipp2.hpp: pair", "include/nil/crypto3/zk/commitments/polynomial/kzg_ipp2.hpp: single"]}
{"id": "C70", "title": "Aggregated Groth16 proofs: a failing equation or an invalid proof is rejected", "statement": "The aggregate verifier accepts whenever all equations of the argument hold. If one of them fails it rejects for all choices of its random coefficients, or there is a coefficient of which at most one value is accepted, whatever the others are. An aggregate made from proofs of which one is not valid for its input is rejected unless the combining challenge is one of fewer values than there are proofs, fixed by proofs and inputs; the inputs are bound through the bytes that the caller adds to the transcript.", "quantifier": "all aggregates, keys, reference strings, inputs, transcripts and random coefficients", "why_tests_cant": "A statement about every aggregate a cheating aggregator can send and every random choice.", "anchors": ["include/nil/crypto3/zk/snark/systems/ppzksnark/r1cs_gg_ppzksnark/ipp2/verifier.hpp: verify_aggregate_proof", "include/nil/crypto3/zk/snark/systems/ppzksnark/r1cs_gg_ppzksnark/ipp2/verifier.hpp: verify_tipp_mipp", "include/nil/crypto3/zk/snark/systems/ppzksnark/r1cs_gg_ppzksnark/ipp2/verifier.hpp: gipa_verify_tipp_mipp", "include/nil/crypto3/zk/snark/systems/ppzksnark/r1cs_gg_ppzksnark/ipp2/verifier.hpp: verify_kzg_v", "include/nil/crypto3/zk/snark/systems/ppzksnark/r1cs_gg_ppzksnark/ipp2/verifier.hpp: verify_kzg_w", "include/nil/crypto3/zk/snark/systems/ppzksnark/r1cs_gg_ppzksnark/ipp2/verifier.hpp: merge_random"]}
{"id": "C71", "title": "Encrypted inputs: a proof for encrypted inputs is accepted with their encryption", "statement": "For every satisfied constraint system, if the first public inputs are encrypted and at least two remain in the clear, the proof made with the encryption's randomness is accepted together with the ciphertext. The verifier returns a verdict exactly when the sizes of ciphertext, key and inputs fit.", "quantifier": "all constraint systems, satisfying inputs, splits of the input, toxic waste, secret keys and randomness", "why_tests_cant": "Quantifies over all inputs, keys and random choices.", "anchors": ["include/nil/crypto3/zk/snark/systems/ppzksnark/r1cs_gg_ppzksnark/encrypted_input/prover.hpp: r1cs_gg_ppzksnark_prover::process", "include/nil/crypto3/zk/snark/systems/ppzksnark/r1cs_gg_ppzksnark/encrypted_input/verifier.hpp: r1cs_gg_ppzksnark_verifier_strong_input_consistency::process", "include/nil/crypto3/zk/snark/systems/ppzksnark/r1cs_gg_ppzksnark/encrypted_input/generator.hpp: process", "include/nil/crypto3/zk/snark/systems/ppzksnark/r1cs_gg_ppzksnark/verification_key.hpp: r1cs_gg_ppzksnark_extended_verification_key"]}
{"id": "C72", "title": "Encrypted inputs: acceptance means a valid proof about what the ciphertext decrypts to", "statement": "A ciphertext and a proof are accepted if and only if the consistency element fits the ciphertext and the proof, with the mask of the encryption removed, is a valid Groth16 proof for the decrypted inputs followed by the clear ones. A proof masked with other randomness, and a ciphertext with one element exchanged, are rejected.", "quantifier": "all keys, ciphertexts, proofs and inputs", "why_tests_cant": "A statement about every ciphertext and proof an adversary can send.", "anchors": ["include/nil/crypto3/zk/snark/systems/ppzksnark/r1cs_gg_ppzksnark/encrypted_input/verifier.hpp: r1cs_gg_ppzksnark_verifier_strong_input_consistency::process"]}
{"id": "C73", "title": "Serialised Groth16 objects are read back as they were", "statement": "Serialising a proof, a public input, a verification key or a proving key never writes outside the output vector and produces the fixed byte format; deserialising the result reports success and returns the same object, and a proof, public input and key written one after the other are read back by the function that reads all three.", "quantifier": "all proofs, inputs (fewer than 2^32 elements), verification keys and proving keys whose sizes fit in four bytes", "why_tests_cant": "The buffer sizes and the offsets depend on the number of entries, inputs, constraints and terms; a test covers one shape.", "anchors": ["include/nil/crypto3/zk/snark/systems/ppzksnark/r1cs_gg_ppzksnark/marshalling.hpp: r1cs_gg_ppzksnark_verifier_serializer_tvm", "include/nil/crypto3/zk/snark/systems/ppzksnark/r1cs_gg_ppzksnark/marshalling.hpp: r1cs_gg_ppzksnark_verifier_deserializer_tvm"]}
{"id": "C74", "title": "Deserialising untrusted bytes never reads outside them and never hides an error", "statement": "For every byte string, deserialising a proof, a public input, a verification key, a combined verifier input or a proving key reads only bytes of that string, and reports an error whenever part of the object is malformed.", "quantifier": "all byte strings", "why_tests_cant": "The reads are controlled by lengths inside the data, which an adversary chooses.", "anchors": ["include/nil/crypto3/zk/snark/systems/ppzksnark/r1cs_gg_ppzksnark/marshalling.hpp: r1cs_gg_ppzksnark_verifier_deserializer_tvm"]}
{"id": "C75", "title": "Inner-product openings: honest openings are accepted", "statement": "For every list of polynomials committed with commitment (with or without a degree bound), every list of points and all random elements, opening them produces a proof, and verifying any number of such openings, with the true evaluations of the chunks, returns true unless a folding challenge is zero. The polynomial built from the challenges is the product the protocol prescribes and has the computed coefficients.", "quantifier": "all generators (any number, also not a power of two), polynomials, bounds, points, random elements, sponges, numbers of batches", "why_tests_cant": "Chunking, shifting, padding and log-many folding rounds depend on all the sizes; zero chunks and bounds interact.", "anchors": ["include/nil/crypto3/zk/commitments/polynomial/kimchi_pedersen.hpp: kimchi_pedersen::commitment", "include/nil/crypto3/zk/commitments/polynomial/kimchi_pedersen.hpp: kimchi_pedersen::proof_eval", "include/nil/crypto3/zk/commitments/polynomial/kimchi_pedersen.hpp: kimchi_pedersen::verify_eval", "include/nil/crypto3/zk/commitments/polynomial/kimchi_pedersen.hpp: b_poly", "include/nil/crypto3/zk/commitments/polynomial/kimchi_pedersen.hpp: b_poly_coefficients"]}
{"id": "C76", "title": "Inner-product openings: acceptance means the claimed evaluations are true", "statement": "verify_eval returns true for a list of batches only if, except for a bounded share of the verifier's random elements, every batch satisfies its opening equation; and openings that are accepted for enough challenges show that the claimed combination of evaluations is the one of the committed polynomial. It never writes outside its buffers.", "quantifier": "all commitments, claims and openings an adversary can send", "why_tests_cant": "Soundness is a statement about every adversary.", "anchors": ["include/nil/crypto3/zk/commitments/polynomial/kimchi_pedersen.hpp: kimchi_pedersen::verify_eval"]}
{"id": "C77", "title": "Commitments are linear: sums, differences, multiples and chunk combinations", "statement": "Adding, subtracting and scaling commitments, combining several with multi_scalar_mul and folding chunks with chunk_commitment act chunk by chunk on the committed polynomials and on the shifted part, whatever the numbers of chunks.", "quantifier": "all commitments with any number of chunks, all scalars", "why_tests_cant": "Loops with different bounds for the two operands: the tests use operands of the same shape.", "anchors": ["include/nil/crypto3/zk/commitments/polynomial/kimchi_pedersen.hpp: commitment_type::operator+", "include/nil/crypto3/zk/commitments/polynomial/kimchi_pedersen.hpp: commitment_type::operator-", "include/nil/crypto3/zk/commitments/polynomial/kimchi_pedersen.hpp: commitment_type::scale", "include/nil/crypto3/zk/commitments/polynomial/kimchi_pedersen.hpp: commitment_type::multi_scalar_mul", "include/nil/crypto3/zk/commitments/polynomial/kimchi_pedersen.hpp: commitment_type::chunk_commitment"]}
{"id": "C78", "title": "Kimchi challenges of 128 bits keep their entropy as field elements", "statement": "Converting a 128-bit challenge to a field element with the endomorphism gives a*endo+b for two numbers a, b computed from the bits; different challenges give different field elements.", "quantifier": "all pairs of challenges below 2^128, all prime fields larger than 2^132 with a cube root of unity", "why_tests_cant": "A collision could occur for any of 2^256 pairs.", "anchors": ["include/nil/crypto3/zk/snark/systems/plonk/pickles/detail/mapping.hpp: ScalarChallenge::to_field"]}
{"id": "C79", "title": "Mapping field elements to curve points", "statement": "Setting up the map always ends, and mapping any field element returns a point on the curve.", "quantifier": "all field elements, all curves and fields of characteristic above 3", "why_tests_cant": "Which of three candidates is a square depends on the element; exceptional elements are rare.", "anchors": ["include/nil/crypto3/zk/snark/systems/plonk/pickles/detail/mapping.hpp: GroupMap"]}
{"id": "C80", "title": "The Kimchi transcript depends on everything absorbed", "statement": "For every sequence of absorptions and squeezes, the challenges are those of a sponge without buffered limbs: each depends on everything absorbed before it. Scalars of the other field are absorbed without collisions, and a challenge determines the 128 bits it was made of.", "quantifier": "all sequences of calls, all values", "why_tests_cant": "Buffered limbs matter only for particular sequences of calls.", "anchors": ["include/nil/crypto3/zk/transcript/kimchi_transcript.hpp: DefaultFqSponge", "include/nil/crypto3/zk/transcript/kimchi_transcript.hpp: DefaultFrSponge", "include/nil/crypto3/zk/transcript/kimchi_transcript.hpp: absorb_fr"]}
{"id": "C81", "title": "Evaluating a constraint in Polish notation gives the value of the constraint", "statement": "For every expression, evaluating its Polish notation returns the value of the expression, and reports nothing else; token lists that leave too many or too few operands are rejected. The factor for the last rows vanishes exactly on the last four rows; the Lagrange basis vanishes on the other rows.", "quantifier": "all expressions, evaluations, domains and points", "why_tests_cant": "Expressions are nested without bound, with shared subexpressions.", "anchors": ["include/nil/crypto3/zk/snark/systems/plonk/pickles/expr.hpp: PolishToken::evaluate", "include/nil/crypto3/zk/snark/systems/plonk/pickles/permutation.hpp: eval_vanishes_on_last_4_rows"]}
{"id": "C82", "title": "Honest Kimchi proofs are accepted", "statement": "For every circuit and every proof whose polynomials satisfy the constraints at the verifier's challenges and that is opened by the library, the verifier accepts, alone or in a batch with other such proofs, whatever random elements it draws.", "quantifier": "all circuits, polynomials, previous challenges, batch sizes, random elements", "why_tests_cant": "The batch consists of twenty-seven or more combined openings at random points; a test sees one circuit.", "anchors": ["include/nil/crypto3/zk/snark/systems/plonk/pickles/verifier.hpp: verifier::verify", "include/nil/crypto3/zk/snark/systems/plonk/pickles/verifier.hpp: verifier::batch_verify", "include/nil/crypto3/zk/snark/systems/plonk/pickles/verifier.hpp: verifier::to_batch", "include/nil/crypto3/zk/snark/systems/plonk/pickles/oracles.hpp: oracles"]}
{"id": "C83", "title": "An accepted Kimchi proof means that the constraints hold", "statement": "If the verifier accepts, the committed polynomials satisfy the permutation constraint, the boundary conditions, the generic gates and the other gates on every row, except with small probability; the challenges depend on circuit, previous challenges and commitments.", "quantifier": "all proofs, honest or not, all circuits", "why_tests_cant": "Tests cannot try all false proofs.", "anchors": ["include/nil/crypto3/zk/snark/systems/plonk/pickles/verifier.hpp: verifier::verify", "include/nil/crypto3/zk/snark/systems/plonk/pickles/verifier.hpp: verifier::to_batch", "include/nil/crypto3/zk/snark/systems/plonk/pickles/constraints.hpp: perm_scalars", "include/nil/crypto3/zk/snark/systems/plonk/pickles/constraints.hpp: gnrc_scalars", "include/nil/crypto3/zk/snark/systems/plonk/pickles/oracles.hpp: oracles"]}
{"id": "C84", "title": "The challenges of previous proofs are evaluated as their polynomial", "statement": "For the challenges of a previous proof the verifier uses, at every point, the values of the chunks of the polynomial with these challenges.", "quantifier": "all lists of challenges, chunk sizes and points", "why_tests_cant": "Numbers of challenges that do not match the chunk size are not tested.", "anchors": ["include/nil/crypto3/zk/snark/systems/plonk/pickles/oracles.hpp: prev_chal_evals"]}
{"id": "C85", "title": "Authenticated data can be bound to a label and value, and cannot be altered", "statement": "Data signed by the authentication scheme verifies under its labels, with the secret and with the public key; both keys accept the same data; data that verifies under the same tags and signatures is the same; lists of other lengths are not accepted.", "quantifier": "all field elements, labels, keys and lists", "why_tests_cant": "The tag is an equation over the field that must hold for all values, labels and keys.", "anchors": ["include/nil/crypto3/zk/snark/systems/ppzkadsnark/r1cs_ppzkadsnark/detail/basic_policy.hpp: r1cs_ppzkadsnark_auth_generate", "include/nil/crypto3/zk/snark/systems/ppzkadsnark/r1cs_ppzkadsnark/detail/basic_policy.hpp: r1cs_ppzkadsnark_auth_sign", "include/nil/crypto3/zk/snark/systems/ppzkadsnark/r1cs_ppzkadsnark/detail/basic_policy.hpp: r1cs_ppzkadsnark_auth_verify"]}
{"id": "C86", "title": "Honest proofs about authenticated data are accepted", "statement": "For every satisfied constraint system whose primary input was signed, the generated proof is accepted by the verifier with the secret key and by the verifier with the public key.", "quantifier": "all constraint systems, assignments, labels, keys and random elements", "why_tests_cant": "The number of inputs is arbitrary; a test fixes one number.", "anchors": ["include/nil/crypto3/zk/snark/systems/ppzkadsnark/r1cs_ppzkadsnark/detail/basic_policy.hpp: r1cs_ppzkadsnark_generator", "include/nil/crypto3/zk/snark/systems/ppzkadsnark/r1cs_ppzkadsnark/detail/basic_policy.hpp: r1cs_ppzkadsnark_prover", "include/nil/crypto3/zk/snark/systems/ppzkadsnark/r1cs_ppzkadsnark/detail/basic_policy.hpp: r1cs_ppzkadsnark_verifier"]}
{"id": "C87", "title": "An accepted proof about authenticated data satisfies the equations and contains the signed data", "statement": "The verifiers accept exactly the well-formed proofs satisfying the equations of the protocol for the data signed under the labels; the two verifiers agree; a proof whose part for the authenticated data is made of other data than the signed data is accepted with small probability over the key and the tags.", "quantifier": "all proofs, honest or not, all keys and labels", "why_tests_cant": "Tests cannot try all false proofs.", "anchors": ["include/nil/crypto3/zk/snark/systems/ppzkadsnark/r1cs_ppzkadsnark/detail/basic_policy.hpp: r1cs_ppzkadsnark_online_verifier", "include/nil/crypto3/zk/snark/systems/ppzkadsnark/r1cs_ppzkadsnark/detail/basic_policy.hpp: r1cs_ppzkadsnark_verifier"]}
{"id": "C88", "title": "Whoever makes accepted Groth16 proofs from group operations knows a witness", "statement": "A prover that computes the elements of its proof as linear combinations of the group elements in the keys, without knowing the secrets, is accepted for an input only if its coefficients contain an auxiliary input with which the constraint system is satisfied, except for a fraction of the secrets proportional to the size of the evaluation domain divided by the size of the field.", "quantifier": "all constraint systems, inputs, strategies of this kind, and secrets of the generator", "why_tests_cant": "It is a statement about all false proofs and about almost all keys.", "anchors": ["include/nil/crypto3/zk/snark/systems/ppzksnark/r1cs_gg_ppzksnark/generator.hpp: r1cs_gg_ppzksnark_generator", "include/nil/crypto3/zk/snark/systems/ppzksnark/r1cs_gg_ppzksnark/verifier.hpp: r1cs_gg_ppzksnark_verifier_weak_input_consistency"]}
{"id": "C89", "title": "Whoever makes accepted PGHR13 proofs from group operations knows a witness", "statement": "A prover that computes the eight elements of its proof as linear combinations of the group elements in the keys, including the input elements of the verification key, without knowing the secrets, is accepted for an input only if its coefficients contain an auxiliary input with which the constraint system is satisfied, except for a fraction of the secrets proportional to the size of the evaluation domain divided by the size of the field.", "quantifier": "all constraint systems, inputs, strategies of this kind, and secrets of the generator", "why_tests_cant": "It is a statement about all false proofs and about almost all keys.", "anchors": ["include/nil/crypto3/zk/snark/systems/ppzksnark/r1cs_ppzksnark/generator.hpp: r1cs_ppzksnark_generator", "include/nil/crypto3/zk/snark/systems/ppzksnark/r1cs_ppzksnark/verifier.hpp: r1cs_ppzksnark_verifier_weak_input_consistency"]}
{"id": "C90", "title": "Whoever makes accepted Groth\u2013Maller proofs from group operations knows a witness", "statement": "A prover that computes the three elements of its proof as linear combinations of the group elements in the keys, without knowing the secrets, is accepted for an input only if its coefficients contain an auxiliary input with which the constraint system is satisfied, except for a fraction of the secrets proportional to the size of the evaluation domain divided by the size of the field.", "quantifier": "all constraint systems, inputs, strategies of this kind, and secrets of the generator", "why_tests_cant": "It is a statement about all false proofs and about almost all keys.", "anchors": ["include/nil/crypto3/zk/snark/systems/ppzksnark/r1cs_se_ppzksnark/generator.hpp: r1cs_se_ppzksnark_generator", "include/nil/crypto3/zk/snark/systems/ppzksnark/r1cs_se_ppzksnark/verifier.hpp: r1cs_se_ppzksnark_verifier_weak_input_consistency"]}
{"id": "C91", "title": "Whoever makes accepted proofs for unitary-square constraint systems from group operations knows a witness", "statement": "A prover that computes the four elements of its proof as linear combinations of the group elements in the keys, without knowing the secrets, is accepted for an input only if its coefficients contain an auxiliary input with which the constraint system is satisfied, except for a fraction of the secrets proportional to the size of the evaluation domain divided by the size of the field.", "quantifier": "all constraint systems, inputs, strategies of this kind, and secrets of the generator", "why_tests_cant": "It is a statement about all false proofs and about almost all keys.", "anchors": ["include/nil/crypto3/zk/snark/systems/ppzksnark/uscs_ppzksnark/generator.hpp: uscs_ppzksnark_generator", "include/nil/crypto3/zk/snark/systems/ppzksnark/uscs_ppzksnark/verifier.hpp: uscs_ppzksnark_verifier_weak_input_consistency"]}
{"id": "C92", "title": "Parameters and proofs that compare equal are treated alike by the verifier", "statement": "FRI parameters compare equal exactly when all settings the verifier reads agree, and the verifier then gives the same verdict on every proof. FRI, LPC and placeholder proofs compare equal exactly when they differ at most in the proof of work, and without grinding the verifier then gives the same verdict for both.", "quantifier": "all parameters, proofs (honest or not), commitments, transcripts, circuits and public inputs", "why_tests_cant": "Tests compare an object with its deserialised copy; they do not show that the comparison leaves nothing out.", "anchors": ["include/nil/crypto3/zk/commitments/detail/polynomial/basic_fri.hpp: params_type::operator==", "include/nil/crypto3/zk/commitments/detail/polynomial/basic_fri.hpp: proof_type::operator==", "include/nil/crypto3/zk/commitments/polynomial/lpc.hpp: proof_type::operator==", "include/nil/crypto3/zk/snark/systems/plonk/placeholder/proof.hpp: placeholder_proof::operator=="]}
{"id": "C93", "title": "Constraint systems that compare equal are interchangeable", "statement": "Two constraint systems compare equal exactly when they have the same gates, copy constraints, lookup gates, lookup tables and public input sizes in the same order, up to the order of variables in a term; this is an equivalence relation. Equal constraint systems are satisfied by the same tables, preprocessed to the same data and given the same verdict on every proof.", "quantifier": "all pairs of constraint systems, tables, commitment schemes, transcripts and proofs", "why_tests_cant": "Equality ignores the order of variables, so there are many equal systems that are not identical; that no component is sensitive to the difference is a statement about all of them.", "anchors": ["include/nil/crypto3/zk/snark/arithmetization/plonk/constraint_system.hpp: plonk_constraint_system::operator==", "include/nil/crypto3/zk/snark/arithmetization/plonk/gate.hpp: plonk_gate::operator=="]}
{"id": "C94", "title": "A constraint system reports how large it is", "statement": "The total public input size is the sum of the sizes of the public input columns. The number of lookup options, constraints, expressions and table columns are the true ones, and the number of sorted columns is the number of columns the lookup argument sorts inputs and tables into.", "quantifier": "all constraint systems", "why_tests_cant": "The numbers are used to size transcripts and batches for all circuits; large sums overflow.", "anchors": ["include/nil/crypto3/zk/snark/arithmetization/plonk/constraint_system.hpp: plonk_constraint_system::public_input_total_size", "include/nil/crypto3/zk/snark/arithmetization/plonk/constraint_system.hpp: plonk_constraint_system::sorted_lookup_columns_number", "include/nil/crypto3/zk/snark/arithmetization/plonk/constraint_system.hpp: plonk_constraint_system::lookup_tables_columns_num"]}
{"id": "C95", "title": "The leaves that are hashed hold exactly the committed values", "statement": "The buffer for a leaf holds the encodings of the values given to it, one after the other, and refuses more values than it has room for; refilling it leaves nothing of its former contents. Two leaves have the same data exactly if they hold the same values. Prover and verifier hash the data of exactly the values on the coset, so all guarantees for trees over values hold for the trees over bytes.", "quantifier": "all numbers of values, histories of calls on the buffer, batches of polynomials, proofs and encodings of fixed length", "why_tests_cant": "Whether a stale value, a shifted value or an ambiguous encoding can occur depends on the history of calls and on all values.", "anchors": ["include/nil/crypto3/zk/detail/field_element_consumer.hpp: field_element_consumer", "include/nil/crypto3/zk/commitments/detail/polynomial/basic_fri.hpp: precommit", "include/nil/crypto3/zk/commitments/detail/polynomial/basic_fri.hpp: verify_eval"]}
{"id": "C96", "title": "The verification key determines the circuit", "statement": "If two preprocessings give the same verification key, then their constraint systems compare equal and their table shapes, commitment parameters, permutation constant, constants and selectors, and everything else the verifier uses, are the same, unless a collision of the hash has been found.", "quantifier": "all pairs of constraint systems, tables, parameters and table descriptions", "why_tests_cant": "It quantifies over all pairs of circuits; tests only see that some keys differ.", "anchors": ["include/nil/crypto3/zk/snark/systems/plonk/placeholder/detail/transcript_initialization_context.hpp: compute_constraint_system_with_params_hash", "include/nil/crypto3/zk/snark/systems/plonk/placeholder/preprocessor.hpp: placeholder_public_preprocessor::process", "include/nil/crypto3/zk/snark/systems/plonk/placeholder/preprocessor.hpp: verification_key"]}
{"id": "C97", "title": "The common data survive being written and read", "statement": "The common data of a preprocessing, rebuilt from the fields that are marshalled, are the same data; common data compare equal exactly when all of it is the same, and the verifier then gives the same verdict on every proof.", "quantifier": "all preprocessed circuits, proofs and public inputs", "why_tests_cant": "The rebuilt parts (vanishing polynomial, first Lagrange polynomial) depend on the size of the table.", "anchors": ["include/nil/crypto3/zk/snark/systems/plonk/placeholder/preprocessor.hpp: common_data_type", "include/nil/crypto3/zk/snark/systems/plonk/placeholder/preprocessor.hpp: common_data_type::operator=="]}
{"id": "C98", "title": "The polynomial of a column has the entries of the column on the rows", "statement": "The polynomial made from a column that has as many entries as the domain has points takes the j-th entry as its value at the j-th point, both when it is made in coefficient form and when it is made in evaluation form; a range of columns gives one polynomial per column in the same order.", "quantifier": "every field with a lawful FFT library, every domain size up to the two-adicity, every column and every list of columns", "why_tests_cant": "Columns have arbitrary contents and domains arbitrary size; a test fixes one of each.", "anchors": ["include/nil/crypto3/zk/snark/arithmetization/plonk/detail/column_polynomial.hpp: column_polynomial", "include/nil/crypto3/zk/snark/arithmetization/plonk/detail/column_polynomial.hpp: column_range_polynomials", "include/nil/crypto3/zk/snark/arithmetization/plonk/detail/column_polynomial.hpp: column_polynomial_dfs", "include/nil/crypto3/zk/snark/arithmetization/plonk/detail/column_polynomial.hpp: column_range_polynomial_dfs"]}
{"id": "C99", "title": "A plonk_permutation sends each cell to a cell declared equal to it", "statement": "After any sequence of calls declaring cells equal, each cell is sent to a cell of the grid that was declared equal to it, directly or through others, and the map remains a permutation of the grid whose cycles are the classes of equal cells.", "quantifier": "every grid, every history of calls on cells of the grid, every cell", "why_tests_cant": "It is a statement about all histories of calls; a test runs one.", "anchors": ["include/nil/crypto3/zk/math/permutation.hpp: plonk_permutation", "include/nil/crypto3/zk/math/permutation.hpp: cells_equal"]}
{"id": "C100", "title": "Placeholder with KZG as its commitment scheme is complete", "statement": "For every circuit and every table that satisfies it, with a KZG key of at least as many elements as the table has rows, preprocessing, proving and verifying with and without public inputs succeed and the proof is accepted, for every trapdoor, transcript and serialisation of points, unless a challenge is one of a bounded number of bad values.", "quantifier": "every circuit, satisfying table, pairing, trapdoor, key sizes, transcript, and serialisation of points; all rotations that are different rows, two usable rows if there are lookups", "why_tests_cant": "The test runs one circuit with one transcript; which points the scheme gets depends on the rotations, the number of usable rows and the challenge.", "anchors": ["include/nil/crypto3/zk/commitments/polynomial/kzg.hpp: kzg_commitment_scheme", "include/nil/crypto3/zk/commitments/polynomial/kzg.hpp: proof_eval", "include/nil/crypto3/zk/commitments/polynomial/kzg.hpp: verify_eval", "include/nil/crypto3/zk/snark/systems/plonk/placeholder/prover.hpp: placeholder_prover::process", "include/nil/crypto3/zk/snark/systems/plonk/placeholder/verifier.hpp: placeholder_verifier::process"]}
{"id": "C101", "title": "An accepted KZG opening says the truth about the committed polynomials", "statement": "If the commitments and the proof are combinations, with coefficients fixed by the prover, of the elements of the key, and the verifier of kzg, batched_kzg, kzg_commitment_scheme or kzg_commitment_scheme_v2 accepts, then every claimed value is the value of the committed polynomial at the requested point, unless a challenge lies in a set that is fixed by what was sent before it and has fewer elements than there are polynomials (for the second challenge of v2: fewer than key length + number of points), or the secret of the key is a zero of a nonzero polynomial determined by the prover's coefficients, of degree less than key length + number of points. Only batches that are among the commitments handed to the verifier are checked, and batched_kzg relies on the caller for the merged points.", "quantifier": "all fields, groups and pairings that are not degenerate, key sizes, histories of the verifier's object, batches, polynomials, claimed values, proofs combined from the key, challenge functions", "why_tests_cant": "A test tries some wrong values with some wrong proofs; that no combination of the key elements opens a commitment to a wrong value is a statement about all of them.", "anchors": ["include/nil/crypto3/zk/commitments/polynomial/kzg.hpp: kzg_commitment_scheme::verify_eval", "include/nil/crypto3/zk/commitments/polynomial/kzg.hpp: batched_kzg verify_eval", "include/nil/crypto3/zk/commitments/polynomial/kzg.hpp: kzg::verify_eval", "include/nil/crypto3/zk/commitments/polynomial/kzg_v2.hpp: kzg_commitment_scheme_v2::verify_eval"]}
{"id": "C102", "title": "Placeholder with KZG accepts only proofs for tables that satisfy the circuit", "statement": "If the placeholder verifier with kzg_commitment_scheme accepts a proof (with public inputs), then the committed witness and public input columns, with the preprocessed constant and selector columns, satisfy the gates. This is false: the verifier takes the positions of the constants and selectors among the fixed values from how many fixed values the proof has, and the KZG scheme checks only as many of them as there are fixed polynomials; zeros after the fixed values make the verifier take all constants and selectors for zero, so that for a circuit without copy constraints and lookups every public input is accepted.", "quantifier": "all circuits without copy constraints and lookups, tables (also those that violate the gates), pairings, trapdoors, key sizes, transcripts, serialisations of points and public inputs of the table", "why_tests_cant": "A test proves and verifies with honest provers, whose proofs have as many fixed values as there are fixed polynomials; a cheating proof has more.", "anchors": ["include/nil/crypto3/zk/snark/systems/plonk/placeholder/verifier.hpp: placeholder_verifier::process", "include/nil/crypto3/zk/commitments/polynomial/kzg.hpp: kzg_commitment_scheme::verify_eval"]}
{"id": "C103", "title": "An accepted proof with public inputs proves the statement for those inputs", "statement": "If placeholder_verifier::process is called with public inputs and accepts, then some table with the constants and selectors of the circuit satisfies all its gates, copy constraints and lookups and has these public inputs in its public input columns; in particular a proof that was made for some public inputs is not accepted with others.", "quantifier": "for all circuits, tables, public inputs (also ones chosen after the proof was seen), proofs, transcripts and commitment schemes", "why_tests_cant": "The public inputs to try are as many as there are field elements to the power of their number, and the ones accepted with a wrong value have to be computed from the challenge in the proof.", "anchors": ["include/nil/crypto3/zk/snark/systems/plonk/placeholder/verifier.hpp: placeholder_verifier::process"]}
{"id": "C104", "title": "Padding with zk_padding makes placeholder proofs independent of the witness", "statement": "If a table is padded with zk_padding before placeholder_prover::process, two witnesses for the same statement produce identically distributed proofs: what the proof has for the witness columns (commitments and opened values) can be obtained, one to one in the random padding, from either witness.", "quantifier": "for all circuits, tables, pairs of witnesses, random fill values, trapdoors and challenges", "why_tests_cant": "A statement about the distribution of proofs over all random values; that there are too few random rows shows in no single run.", "anchors": ["include/nil/crypto3/zk/snark/arithmetization/plonk/padding.hpp: zk_padding", "include/nil/crypto3/zk/snark/systems/plonk/placeholder/prover.hpp: placeholder_prover::process", "include/nil/crypto3/zk/commitments/polynomial/kzg.hpp: kzg_commitment_scheme::commit"]}
{"id": "C105", "title": "The cached evaluator computes a repeated subexpression once", "statement": "In each call of evaluate() on a cached_expression_evaluator, whatever calls came before, each subexpression other than a term of at most two variables is computed at most once, however often the expression contains it (up to the order of variables in terms). The values of variables are asked for no more often than without a cache. Only values of subexpressions that the expression contains at least twice are kept, and only while more uses of them are due.", "quantifier": "all expressions with fewer than 2^64 nodes, all assignments, all numbers of earlier calls of evaluate()", "why_tests_cant": "The counts, hits, stores and erasures interact over the whole tree and over earlier calls; a test sees values, which do not depend on the cache, and a few trees.", "anchors": ["include/nil/crypto3/zk/math/expression_evaluator.hpp: subexpression_counter", "include/nil/crypto3/zk/math/expression_evaluator.hpp: cached_expression_evaluator"]}
{"id": "C106", "title": "Placeholder over the second KZG scheme is complete", "statement": "With kzg_commitment_scheme_v2 as the commitment scheme, for a table that satisfies the circuit the preprocessor and the prover succeed, and the verifier accepts the proof if the table has a witness or a public input column, unless a challenge of the arguments is one of few bad ones. One power of the trapdoor in the verifier's key is enough. Without such a column the honest proof makes the verifier divide by zero.", "quantifier": "all circuits and tables in the supported shape that satisfy it, all trapdoors, serialisations of points, transcripts and challenges outside of the bad sets, all public inputs that match the table", "why_tests_cant": "a test runs a few circuits with one trapdoor and one transcript; the table without variable columns is not among them", "anchors": ["include/nil/crypto3/zk/commitments/polynomial/kzg_v2.hpp: kzg_commitment_scheme_v2::proof_eval", "include/nil/crypto3/zk/commitments/polynomial/kzg_v2.hpp: kzg_commitment_scheme_v2::verify_eval", "include/nil/crypto3/zk/commitments/polynomial/kzg_v2.hpp: kzg_commitment_scheme_v2::create_params", "include/nil/crypto3/zk/snark/systems/plonk/placeholder/prover.hpp: placeholder_prover::process", "include/nil/crypto3/zk/snark/systems/plonk/placeholder/verifier.hpp: placeholder_verifier::process"]}
{"id": "C107", "title": "Joining cycles of copy constraints takes at most n log2 n steps", "statement": "Over the processing of all copy constraints the loops that join two cycles make at most n * log2(n) iterations in total, n being the number of cells; the size kept for a cycle is always its true size, so that the smaller cycle is the one that is walked through.", "quantifier": "all grids and all sequences of copy constraints with fewer than 2^32 cells", "why_tests_cant": "An amortised bound over every history of joins; tests see single histories.", "anchors": ["include/nil/crypto3/zk/snark/systems/plonk/placeholder/preprocessor.hpp: cycle_representation::apply_copy_constraint"]}
{"id": "C108", "title": "Placeholder with the second KZG scheme accepts only proofs for tables that satisfy the circuit", "statement": "If the placeholder verifier with kzg_commitment_scheme_v2 accepts a proof (with public inputs), then the committed witness and public input columns, with the preprocessed constant and selector columns, satisfy the gates. This is false for the same reason as with the first scheme: the scheme checks only as many fixed values as there are fixed polynomials, while the verifier derives the positions of the constants and selectors from how many the proof has. If the proof has as many values as polynomials were committed to, the claim holds against provers that combine elements of the key, for all but few challenges and trapdoors.", "quantifier": "all circuits (for the forgery: without copy constraints and lookups, with a witness or public input column), tables, pairings, trapdoors, key sizes, transcripts, serialisations of points, proof elements that are combinations of the key", "why_tests_cant": "A test proves and verifies with honest provers; both a cheating proof and the absence of one are statements about all provers.", "anchors": ["include/nil/crypto3/zk/snark/systems/plonk/placeholder/verifier.hpp: placeholder_verifier::process", "include/nil/crypto3/zk/commitments/polynomial/kzg_v2.hpp: kzg_commitment_scheme_v2::verify_eval", "include/nil/crypto3/zk/commitments/polynomial/kzg_v2.hpp: kzg_commitment_scheme_v2::proof_eval"]}
{"id": "C109", "title": "Encrypted inputs: a prover that computes with group elements knows the inputs and a witness", "statement": "If the encrypted-input verifier accepts a ciphertext and a proof from a prover that forms them as linear combinations of the elements of the proving key, the extended verification key and the public key of the encryption scheme, then the ciphertext is the encryption of inputs that stand in the prover's coefficients, with randomness that stands there too, and the coefficients also contain a witness for these inputs followed by the clear inputs. This holds except for a small set of secrets that is determined by the coefficients and the clear inputs.", "quantifier": "all constraint systems, splits of the input with at least two clear inputs, coefficients (which may depend on the keys) and secrets of both key generations outside the small set", "why_tests_cant": "the claim is about every prover strategy and almost every choice of the secrets; a test runs one prover with one key", "anchors": ["include/nil/crypto3/zk/snark/systems/ppzksnark/r1cs_gg_ppzksnark/encrypted_input/verifier.hpp: r1cs_gg_ppzksnark_verifier_strong_input_consistency::process", "include/nil/crypto3/zk/snark/systems/ppzksnark/r1cs_gg_ppzksnark/encrypted_input/prover.hpp: r1cs_gg_ppzksnark_prover::process", "include/nil/crypto3/zk/snark/systems/ppzksnark/r1cs_gg_ppzksnark/encrypted_input/generator.hpp: r1cs_gg_ppzksnark_generator::process"]}
{"id": "C110", "title": "An accepted proof about authenticated data shows that the signed data satisfies the constraint system", "statement": "If a verifier for authenticated data accepts a proof for some labels, then there is a witness with which the data signed under the labels satisfies the constraint system, unless the prover knows the secrets of the generator.", "quantifier": "all constraint systems, signed data, keys, labels and provers that have the proving key and the tags", "why_tests_cant": "A test can only try proofs somebody thought of; it does not say which false proofs exist for every key.", "anchors": ["include/nil/crypto3/zk/snark/systems/ppzkadsnark/r1cs_ppzkadsnark/detail/basic_policy.hpp: r1cs_ppzkadsnark_generator", "include/nil/crypto3/zk/snark/systems/ppzkadsnark/r1cs_ppzkadsnark/detail/basic_policy.hpp: r1cs_ppzkadsnark_online_verifier", "include/nil/crypto3/zk/snark/systems/ppzkadsnark/r1cs_ppzkadsnark/detail/basic_policy.hpp: r1cs_ppzkadsnark_verifier"]}
{"id": "C111", "title": "Proofs show nothing but that the statement holds", "statement": "With honestly generated keys, for Groth16, Groth-Maller, PGHR13, the argument for unitary-square systems, Groth16 with encrypted inputs and the argument about authenticated data: the proofs the prover returns for a satisfying assignment, over its randomness, have exactly the distribution of the proofs of a simulator that is given the key-generation secrets and the public input but no witness. The simulator's proofs are accepted for every public input, also where no witness exists. With encrypted inputs the simulator sees the ciphertext but not the encrypted inputs; with authenticated data it sees the labels but not the signed data.", "quantifier": "all constraint systems, satisfying assignments, generator secrets with nonzero gamma and delta (Groth16) or an evaluation point outside the domain, labels, ciphertexts and all prover randomness", "why_tests_cant": "a test sees single proofs; equality of distributions is about all values of the randomness and all witnesses", "anchors": ["include/nil/crypto3/zk/snark/systems/ppzksnark/r1cs_gg_ppzksnark/prover.hpp: process", "include/nil/crypto3/zk/snark/systems/ppzksnark/r1cs_se_ppzksnark/prover.hpp: process", "include/nil/crypto3/zk/snark/systems/ppzksnark/r1cs_ppzksnark/prover.hpp: process", "include/nil/crypto3/zk/snark/systems/ppzksnark/uscs_ppzksnark/prover.hpp: process", "include/nil/crypto3/zk/snark/systems/ppzksnark/r1cs_gg_ppzksnark/encrypted_input/prover.hpp: process", "include/nil/crypto3/zk/snark/systems/ppzkadsnark/r1cs_ppzkadsnark/detail/basic_policy.hpp: prover"]}
{"id": "C112", "title": "Aggregated Groth16 proofs made in any way: accepted only if the committed vectors are valid proofs", "statement": "A prover commits to three vectors, is given the combining challenge r, sends the combined values and runs the folding argument. Take any prover that answers, for as many values of r as there are proofs (or inputs), on a tree of transcripts with four challenges after the messages of each round, and at the end for more values of the point z than the degree of the reference string, and that cannot make a non-trivial relation of the key or divide by alpha - z or beta - z. Then its commitments are commitments to vectors A, B, C whose entries are valid Groth16 proofs of all the inputs. Conversely a prover that has committed to valid proofs answers on such a tree for every r other than zero. The assumptions hold for every prover that knows a representation of its elements in terms of the reference string, and the equations between representations hold whenever those of the protocol do, except for few pairs of secrets.", "quantifier": "all provers, commitments, keys, reference strings, inputs, numbers of rounds, challenges and secrets", "why_tests_cant": "It is a statement about every cheating aggregator and about all continuations of a transcript.", "anchors": ["include/nil/crypto3/zk/snark/systems/ppzksnark/r1cs_gg_ppzksnark/ipp2/verifier.hpp: verify_aggregate_proof", "include/nil/crypto3/zk/snark/systems/ppzksnark/r1cs_gg_ppzksnark/ipp2/verifier.hpp: verify_tipp_mipp", "include/nil/crypto3/zk/snark/systems/ppzksnark/r1cs_gg_ppzksnark/ipp2/verifier.hpp: gipa_verify_tipp_mipp", "include/nil/crypto3/zk/snark/systems/ppzksnark/r1cs_gg_ppzksnark/ipp2/verifier.hpp: verify_kzg_v", "include/nil/crypto3/zk/snark/systems/ppzksnark/r1cs_gg_ppzksnark/ipp2/verifier.hpp: verify_kzg_w", "include/nil/crypto3/zk/snark/systems/ppzksnark/r1cs_gg_ppzksnark/ipp2/prover.hpp: gipa_tipp_mipp", "include/nil/crypto3/zk/snark/systems/ppzksnark/r1cs_gg_ppzksnark/ipp2/prover.hpp: prove_tipp_mipp"]}
{"id": "C113", "title": "Proofs of Groth16, PGHR13 and unitary-square systems can be changed into other accepted ones", "statement": "An accepted proof does not identify whoever made it: from any accepted Groth16, PGHR13 or unitary-square proof, anyone with the keys and the public input, but without a witness, computes further, different proofs that the strong-input-consistency verifier accepts for the same input. For Groth16 every (simulated or honest) proof with a non-zero first element is reached from every other one. So a proof, or its hash, must not be used as a unique identifier or as evidence that its sender knew a witness.", "quantifier": "all accepted proofs, keys, inputs and choices of the values used for the change", "why_tests_cant": "A test can show one changed proof; that all accepted proofs can be changed, and reach all others, is a statement about every proof.", "anchors": ["include/nil/crypto3/zk/snark/systems/ppzksnark/r1cs_gg_ppzksnark/verifier.hpp: r1cs_gg_ppzksnark_verifier_strong_input_consistency", "include/nil/crypto3/zk/snark/systems/ppzksnark/r1cs_ppzksnark/verifier.hpp: r1cs_ppzksnark_verifier_strong_input_consistency", "include/nil/crypto3/zk/snark/systems/ppzksnark/uscs_ppzksnark/verifier.hpp: uscs_ppzksnark_verifier_strong_input_consistency"]}
{"id": "C114", "title": "Groth-Maller proofs are simulation extractable against provers that compute with group elements", "statement": "A prover that has the keys, and any number of proofs for inputs of its choice that were made by the simulator (so without a witness), and that computes with group elements, makes an accepted proof that is not a copy of a seen proof for the same input only if its coefficients contain a witness for its input, except for a share of at most (2m + 5)/|F| of the secrets and simulator's random values. In particular seen proofs cannot be changed into new ones, unlike those of Groth16, PGHR13 and unitary-square systems.", "quantifier": "all constraint systems, fields of odd characteristic, numbers and inputs of seen proofs, coefficients and inputs of the prover, also chosen after the keys and the seen proofs are known", "why_tests_cant": "It ranges over all cheating provers and all proofs they may have seen.", "anchors": ["include/nil/crypto3/zk/snark/systems/ppzksnark/r1cs_se_ppzksnark/verifier.hpp: r1cs_se_ppzksnark_verifier_weak_input_consistency", "include/nil/crypto3/zk/snark/systems/ppzksnark/r1cs_se_ppzksnark/generator.hpp: r1cs_se_ppzksnark_generator"]}
{"id": "C115", "title": "Groth16 proofs of others can be changed, but nothing else can be made of them", "statement": "A prover that has the Groth16 keys and any number of proofs for inputs of its choice that were made without a witness (by the simulator), and that computes with group elements, makes an accepted proof only if its coefficients contain a witness for its input, or the proof is one it has seen for the same input, changed as in C113, except for a share of at most (2m + 7)/|F| of the secrets and simulator's random values. In particular proofs seen for other inputs do not help.", "quantifier": "all constraint systems, fields, numbers and inputs of seen proofs, coefficients and inputs of the prover, also chosen after the keys and the seen proofs are known", "why_tests_cant": "It ranges over all provers of the class and over all secrets; a test tries some attacks.", "anchors": ["include/nil/crypto3/zk/snark/systems/ppzksnark/r1cs_gg_ppzksnark/generator.hpp: r1cs_gg_ppzksnark_generator::process", "include/nil/crypto3/zk/snark/systems/ppzksnark/r1cs_gg_ppzksnark/verifier.hpp: r1cs_gg_ppzksnark_verifier_weak_input_consistency::process"]}
{"id": "C116", "title": "The evaluation point of a placeholder proof is derived from the key and from every commitment in it", "statement": "Whenever the placeholder verifier reaches a verdict on a proof, the evaluation point stored in the proof is the value that the Fiat-Shamir transcript returns after the digest of the constraint system, the commitment to the fixed columns, and the proof's commitments to the table, to the sorted columns, to the grand products and to the quotient, in this order, with the challenges drawn in between; all these commitments are in the proof. So a proof cannot be moved to another verification key or circuit digest, and no commitment can be replaced afterwards, unless the hash function has a collision among the strings hashed or the digest falls on the same field element.", "quantifier": "all circuits with or without copy constraints and lookups, keys, proofs, commitment schemes that only draw challenges when set up, transcripts and hash functions", "why_tests_cant": "It is about all histories: a test can change one commitment and see a rejection, but not that no value escapes the transcript for any circuit.", "anchors": ["include/nil/crypto3/zk/snark/systems/plonk/placeholder/verifier.hpp: placeholder_verifier::process", "include/nil/crypto3/zk/snark/systems/plonk/placeholder/prover.hpp: placeholder_prover", "include/nil/crypto3/zk/transcript/fiat_shamir.hpp: fiat_shamir_heuristic_sequential"]}
{"id": "C117", "title": "A Placeholder proof over LPC shows that the circuit is satisfied", "statement": "Whoever does not know a table that satisfies the circuit cannot make a proof that placeholder_verifier::process accepts when the commitment scheme is LPC, except with negligible probability over the challenges. This is false: LPC draws the challenge with which it combines the claimed evaluations from the commitments alone, so that the claims can be chosen after it. For every table of the right shape, whatever it contains, a prover can commit to two zero chunks of the quotient, wait for that challenge, and claim values for the chunks that make the last equation of the verifier hold; the proof is accepted, with assertions and with the public inputs of the table.", "quantifier": "all circuits (in which no part of the lookups is empty), all tables of the right shape, all public inputs, all transcripts and Merkle trees, all FRI parameters that fit", "why_tests_cant": "a test checks honest proofs and proofs with some changed value; the forgery needs values that are computed from a challenge of the transcript, and the claim is about all circuits, tables and transcripts", "anchors": ["include/nil/crypto3/zk/commitments/polynomial/lpc.hpp: verify_eval", "include/nil/crypto3/zk/commitments/polynomial/lpc.hpp: proof_eval", "include/nil/crypto3/zk/snark/systems/plonk/placeholder/verifier.hpp: placeholder_verifier::process"]}
