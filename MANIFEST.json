{
 "claims": [
  {
   "property": "C01",
   "status": "proved",
   "theorems": [
    "Crypto3Zk.C01_evaluate_add",
    "Crypto3Zk.C01_evaluate_scale",
    "Crypto3Zk.C01_evaluate_neg",
    "Crypto3Zk.C01_evaluate_sub",
    "Crypto3Zk.C01_evaluate_varAdd",
    "Crypto3Zk.C01_evaluate_const",
    "Crypto3Zk.C01_canonical",
    "Crypto3Zk.C01_evaluate_term",
    "Crypto3Zk.C01_evaluate_addTerm",
    "Crypto3Zk.C01_evaluate_constVar",
    "Crypto3Zk.C01_varAdd_canonical"
   ],
   "note": "All arithmetic operators of linear_combination against evaluation; sums, differences and multiples of combinations keep strictly increasing indices. Also for terms and variables as operands and for add_term (C01_evaluate_term, C01_evaluate_addTerm, C01_evaluate_constVar); a variable plus a combination keeps the canonical form only when the variable comes last (C01_varAdd_canonical)."
  },
  {
   "property": "C02",
   "status": "proved",
   "theorems": [
    "Crypto3Zk.C02_ofTerms"
   ],
   "note": "Constructor from an unsorted term vector, for every sort that meets the index-order contract."
  },
  {
   "property": "C03",
   "status": "proved",
   "theorems": [
    "Crypto3Zk.C03_eq_sound",
    "Crypto3Zk.C03_eq_equivalence",
    "Crypto3Zk.C03_eq_complete",
    "Crypto3Zk.C03_eq_not_order_independent"
   ],
   "note": "Equality is sound, an equivalence, and complete on canonical combinations; C03_eq_not_order_independent shows it is not on unsorted ones."
  },
  {
   "property": "C04",
   "status": "partial",
   "theorems": [
    "Crypto3Zk.C04_isValid_partial",
    "Crypto3Zk.C04_rejects_last_variable",
    "Crypto3Zk.C04_empty_is_undefined",
    "Crypto3Zk.C04_r1cs_valid_sound"
   ],
   "note": "The property is false of the code: C04_rejects_last_variable and C04_empty_is_undefined are witnesses. C04_isValid_partial states what does hold."
  },
  {
   "property": "C05",
   "status": "proved",
   "theorems": [
    "Crypto3Zk.C05_operators_evaluate",
    "Crypto3Zk.C05_operators_defined"
   ],
   "note": "Induction over programs built from all public operators of term and expression."
  },
  {
   "property": "C06",
   "status": "partial",
   "theorems": [
    "Crypto3Zk.C06_flatten_value_partial",
    "Crypto3Zk.C06_flatten_canonical",
    "Crypto3Zk.C06_power_zero"
   ],
   "note": "False for powers of zero (C06_power_zero). Proved for powers of at least one; the canonical form holds for all powers."
  },
  {
   "property": "C07",
   "status": "proved",
   "theorems": [
    "Crypto3Zk.C07_cached_eq_plain"
   ],
   "note": "Any number of evaluate() calls on one cached evaluator."
  },
  {
   "property": "C08",
   "status": "proved",
   "theorems": [
    "Crypto3Zk.C08_eq_iff",
    "Crypto3Zk.C08_eq_equivalence",
    "Crypto3Zk.C08_eq_hash",
    "Crypto3Zk.C08_eq_value"
   ],
   "note": "Equality is equality up to variable order inside terms; it implies equal hash and equal value."
  },
  {
   "property": "C09",
   "status": "partial",
   "theorems": [
    "Crypto3Zk.C09_max_degree_exact",
    "Crypto3Zk.C09_bounds_flat_terms_partial",
    "Crypto3Zk.C09_power_zero",
    "Crypto3Zk.C09_polynomial_degree",
    "Crypto3Zk.C09_wraps"
   ],
   "note": "Degree is exact below 2^32 (C09_wraps beyond); the bound on flattened terms fails for powers of zero (C09_power_zero), proved for powers of at least one."
  },
  {
   "property": "C10",
   "status": "proved",
   "theorems": [
    "Crypto3Zk.C10_eq_iff_multiset",
    "Crypto3Zk.C10_order_independent",
    "Crypto3Zk.C10_eq_value"
   ],
   "note": "Equality is multiset equality; it is order independent and implies equal value."
  },
  {
   "property": "C11",
   "status": "proved",
   "theorems": [
    "Crypto3Zk.C11_eq_iff",
    "Crypto3Zk.C11_strict_total_order",
    "Crypto3Zk.C11_gt_iff",
    "Crypto3Zk.C11_order_spelled_out"
   ],
   "note": "Strict total order, consistent with == and >."
  },
  {
   "property": "C12",
   "status": "proved",
   "theorems": [
    "Crypto3Zk.C12_convert_eval",
    "Crypto3Zk.C12_visitor_counts",
    "Crypto3Zk.C12_eval_congr"
   ],
   "note": "Conversion commutes with evaluation for every ring homomorphism; the visitor reports every occurrence."
  },
  {
   "property": "C13",
   "status": "proved",
   "theorems": [
    "Crypto3Zk.C13_isValid_iff_bijection",
    "Crypto3Zk.C13_inverse",
    "Crypto3Zk.C13_inverse_involutive",
    "Crypto3Zk.C13_slice",
    "Crypto3Zk.C13_constructors",
    "Crypto3Zk.C13_default_inverse_undefined",
    "Crypto3Zk.C13_get_set"
   ],
   "note": "Includes slices, constructors, get/set; C13_default_inverse_undefined records the empty permutation."
  },
  {
   "property": "C14",
   "status": "proved",
   "theorems": [
    "Crypto3Zk.C14_permutation"
   ],
   "note": "Union of cycles for every history; termination and absence of missing-key reads are part of the theorem."
  },
  {
   "property": "C15",
   "status": "proved",
   "theorems": [
    "Crypto3Zk.C15_copy_iff_invariant",
    "Crypto3Zk.C15_table",
    "Crypto3Zk.C15_grid",
    "Crypto3Zk.C15_constraint_symmetric"
   ],
   "note": "Also for the keys the preprocessor derives from plonk variables."
  },
  {
   "property": "C16",
   "status": "proved",
   "theorems": [
    "Crypto3Zk.C16_isSatisfied_iff",
    "Crypto3Zk.C16_swap_preserves",
    "Crypto3Zk.C16_swap_defined"
   ],
   "note": "R1CS satisfaction loop against the mathematical statement; swap_AB keeps satisfaction."
  },
  {
   "property": "C17",
   "status": "proved",
   "theorems": [
    "Crypto3Zk.C17_qap_complete"
   ],
   "note": "Completeness for every lawful evaluation domain, constraint system, assignment, point and blinding."
  },
  {
   "property": "C18",
   "status": "proved",
   "theorems": [
    "Crypto3Zk.C18_qap_sound",
    "Crypto3Zk.C18_qap_few_accepting_points",
    "Crypto3Zk.C18_qap_sound_on_domain",
    "Crypto3Zk.C18_qap_instance_agrees"
   ],
   "note": "Soundness at more than 2m points, counting form over finite fields, on-domain form, and instance/evaluation agreement."
  },
  {
   "property": "C19",
   "status": "proved",
   "theorems": [
    "Crypto3Zk.C19_sap_complete",
    "Crypto3Zk.C19_sap_sound",
    "Crypto3Zk.C19_sap_instance_agrees",
    "Crypto3Zk.C19_sap_sizes"
   ],
   "note": "Completeness, soundness in odd characteristic, agreement, sizes."
  },
  {
   "property": "C20",
   "status": "proved",
   "theorems": [
    "Crypto3Zk.C20_ssp_complete",
    "Crypto3Zk.C20_ssp_sound",
    "Crypto3Zk.C20_ssp_instance_agrees"
   ],
   "note": "Completeness, soundness, agreement, for a non-empty evaluation domain."
  },
  {
   "property": "C21",
   "status": "proved",
   "theorems": [
    "Crypto3Zk.C21_bacs_r1cs_agree",
    "Crypto3Zk.C21_bacs_r1cs_only_wires"
   ],
   "note": "The reduction of a BACS circuit to R1CS is accepted exactly when the circuit is, for the witness map's assignment; any satisfying assignment of the R1CS carries the circuit's own wire values."
  },
  {
   "property": "C22",
   "status": "proved",
   "theorems": [
    "Crypto3Zk.C22_gate_truth_table",
    "Crypto3Zk.C22_tbcs_uscs_agree",
    "Crypto3Zk.C22_uscs_sound",
    "Crypto3Zk.C22_last_wire_not_boolean",
    "Crypto3Zk.C22_no_gates_accepts_non_boolean",
    "Crypto3Zk.C22_unsound_mod_5"
   ],
   "note": "Agreement on the mapped witness and soundness for every assignment in which the last wire is boolean (or fields where the gate table has no solution outside {0,1}). Findings proved as negations: the boolean constraints miss the last wire; a circuit without gates accepts non-boolean inputs; in characteristic 5 the reduction is unsound."
  },
  {
   "property": "C23",
   "status": "partial",
   "theorems": [
    "Crypto3Zk.C23_bacs_wires",
    "Crypto3Zk.C23_bacs_depths",
    "Crypto3Zk.C23_tbcs_wires",
    "Crypto3Zk.C23_tbcs_depths_out_of_bounds",
    "Crypto3Zk.C23_tbcs_depths_wrong",
    "Crypto3Zk.C23_tbcs_depths_partial"
   ],
   "note": "BACS wires and depths proved in full. TBCS wires proved; TBCS wire_depths reads out of bounds / is wrong (proved negations), C23_tbcs_depths_partial covers the circuits on which it is right."
  },
  {
   "property": "C24",
   "status": "partial",
   "theorems": [
    "Crypto3Zk.C24_routes",
    "Crypto3Zk.C24_payload",
    "Crypto3Zk.C24_checker_complete",
    "Crypto3Zk.C24_checker_partial",
    "Crypto3Zk.C24_checker_not_exact",
    "Crypto3Zk.C24_other_sizes"
   ],
   "note": "Router: proved in full for all permutations of 2^d packets, d < 64 (C24_routes, C24_payload), and the checker accepts all settings that carry every packet. The converse is false: C24_checker_not_exact; proved in part (C24_checker_partial): acceptance means every packet but packet 0 is carried, and the verdict is exact when the rows that share a switch agree."
  },
  {
   "property": "C25",
   "status": "proved",
   "theorems": [
    "Crypto3Zk.C25_topology",
    "Crypto3Zk.C25_routes",
    "Crypto3Zk.C25_checker",
    "Crypto3Zk.C25_checker_not_exact",
    "Crypto3Zk.C25_single"
   ],
   "note": "All permutations of n packets, 2 <= n < 2^64: the router succeeds, its settings carry every packet to its destination in the generated topology and the checker accepts them (C25_routes). The topology consists of columns of 2x2 switches (C25_topology). The checker accepts exactly the settings that carry every packet among those on which the rows of each switch agree (C25_checker); without that it does not (C25_checker_not_exact)."
  },
  {
   "property": "C26",
   "status": "proved",
   "theorems": [
    "Crypto3Zk.C26_global_index_bijection"
   ],
   "note": "Column numbering is a bijection onto 0..table_width-1."
  },
  {
   "property": "C27",
   "status": "proved",
   "theorems": [
    "Crypto3Zk.C27_rotation_cyclic",
    "Crypto3Zk.C27_rotation_cyclic_pow2",
    "Crypto3Zk.C27_far_rotation_not_cyclic",
    "Crypto3Zk.C27_evaluate",
    "Crypto3Zk.C27_ragged_undefined",
    "Crypto3Zk.C27_column_order"
   ],
   "note": "Cyclic for rotations not further back than rows+row, and for every rotation when the height is a power of two; outside (C27_far_rotation_not_cyclic) and for ragged tables (C27_ragged_undefined) it is not."
  },
  {
   "property": "C28",
   "status": "proved",
   "theorems": [
    "Crypto3Zk.C28_padded_rows",
    "Crypto3Zk.C28_padded_rows_minimal",
    "Crypto3Zk.C28_overflow",
    "Crypto3Zk.C28_basic_padding",
    "Crypto3Zk.C28_zk_padding",
    "Crypto3Zk.C28_height_after"
   ],
   "note": "For fewer than 2^31 usable rows; with 2^31 the count wraps to 8 (C28_overflow). The double-precision log2/pow is taken to be exact."
  },
  {
   "property": "C29",
   "status": "partial",
   "theorems": [
    "Crypto3Zk.C29_parts_partial",
    "Crypto3Zk.C29_parts_sum",
    "Crypto3Zk.C29_parts_nonempty_iff",
    "Crypto3Zk.C29_empty_part",
    "Crypto3Zk.C29_limit_zero_no_gates"
   ],
   "note": "Sum, segmentation and budget proved; non-emptiness characterised exactly (C29_parts_nonempty_iff) and refuted in general (C29_empty_part)."
  },
  {
   "property": "C30",
   "status": "proved",
   "theorems": [
    "Crypto3Zk.C30_pack",
    "Crypto3Zk.C30_used_selectors",
    "Crypto3Zk.C30_blocks_disjoint",
    "Crypto3Zk.C30_all_placed"
   ],
   "note": "pack_lookup_tables. The horizontal variant is C63."
  },
  {
   "property": "C31",
   "status": "proved",
   "theorems": [
    "Crypto3Zk.C31_completeness",
    "Crypto3Zk.C31_prover_succeeds",
    "Crypto3Zk.C31_selector_copy_fails"
   ],
   "note": "Completeness for every transcript, iteration order of the permuted columns and number of parts; the prover is defined outside of few challenges. Copy constraints on selector columns break it (C31_selector_copy_fails)."
  },
  {
   "property": "C32",
   "status": "partial",
   "theorems": [
    "Crypto3Zk.C32_soundness_one_part_partial",
    "Crypto3Zk.C32_soundness_independent_alphas_partial",
    "Crypto3Zk.C32_forgery",
    "Crypto3Zk.C32_forgery_witness"
   ],
   "note": "Soundness on the rows outside of few challenges: with one part, and with several parts if the additional challenges do not depend on the prover's polynomials. The code draws these challenges before the commitment, and C32_forgery shows that any table is then accepted."
  },
  {
   "property": "C33",
   "status": "proved",
   "theorems": [
    "Crypto3Zk.C33_gates",
    "Crypto3Zk.C33_lookup",
    "Crypto3Zk.C33_permutation"
   ],
   "note": "Permutation, gate and lookup arguments: all part splittings, all points, all transcripts."
  },
  {
   "property": "C34",
   "status": "proved",
   "theorems": [
    "Crypto3Zk.C34_prover_succeeds",
    "Crypto3Zk.C34_row",
    "Crypto3Zk.C34_complete",
    "Crypto3Zk.C34_sound"
   ],
   "note": "Value on every row, completeness for every challenge, exactness row by row outside of at most as many challenges as constraints, and soundness of the verifier's value over all rows."
  },
  {
   "property": "C35",
   "status": "proved",
   "theorems": [
    "Crypto3Zk.C35_sort",
    "Crypto3Zk.C35_order",
    "Crypto3Zk.C35_product_defined_iff",
    "Crypto3Zk.C35_product_closes",
    "Crypto3Zk.C35_complete",
    "Crypto3Zk.C35_sortable",
    "Crypto3Zk.C35_prover_succeeds",
    "Crypto3Zk.C35_absent_input",
    "Crypto3Zk.C35_first_row_used",
    "Crypto3Zk.C35_not_grouped",
    "Crypto3Zk.C35_rows_accepted"
   ],
   "note": "Sorting (multiset, order, overlap, neighbours), running product, vanishing of the four polynomials, definedness of the prover, and when the compressed columns can be sorted. Findings: a table that uses row 0, or whose equal values are not adjacent, makes the prover write out of bounds (C35_first_row_used, C35_not_grouped)."
  },
  {
   "property": "C36",
   "status": "proved",
   "theorems": [
    "Crypto3Zk.C36_chunks",
    "Crypto3Zk.C36_recombine",
    "Crypto3Zk.C36_prover_chunks",
    "Crypto3Zk.C36_defined",
    "Crypto3Zk.C36_within_degree_bound",
    "Crypto3Zk.C36_limit_too_small"
   ],
   "note": "split_polynomial, the prover's chunk count and stores, and the verifier's recombination. A max_quotient_chunks below what the quotient needs makes the prover write out of bounds (C36_limit_too_small)."
  },
  {
   "property": "C37",
   "status": "proved",
   "theorems": [
    "Crypto3Zk.C37_equation_complete",
    "Crypto3Zk.C37_equation_sound",
    "Crypto3Zk.C37_alphas",
    "Crypto3Zk.C37_honest_verdict",
    "Crypto3Zk.C37_honest_accepted",
    "Crypto3Zk.C37_lpc_accepted"
   ],
   "note": "Completeness of the whole proof system: preprocessor, prover and verifier, for any complete commitment scheme (C37_honest_accepted) and for LPC (C37_lpc_accepted); exact verdict on proofs made by the prover for any table; the final equation is the quotient identity, in both directions. That the prover gets through is C65; the challenge must avoid the FRI domain."
  },
  {
   "property": "C38",
   "status": "partial",
   "theorems": [
    "Crypto3Zk.C38_verdict",
    "Crypto3Zk.C38_binding",
    "Crypto3Zk.C38_binding_partial",
    "Crypto3Zk.C38_honest_accepted",
    "Crypto3Zk.C38_rotated",
    "Crypto3Zk.C38_unchecked"
   ],
   "note": "Exact verdict, completeness and binding outside of fewer challenges than rows, assuming the openings are true (the scheme is C44). False if a public input column is used with a negative rotation: the verifier compares with the column moved by that rotation (C38_binding, C38_rotated). Columns that are not given are not checked (C38_unchecked). Built without assertions, no public input is bound (C66_release_forgery)."
  },
  {
   "property": "C39",
   "status": "proved",
   "theorems": [
    "Crypto3Zk.C39_complete",
    "Crypto3Zk.C39_wrong_value_rejected",
    "Crypto3Zk.C39_binding",
    "Crypto3Zk.C39_too_long",
    "Crypto3Zk.C39_empty_polynomial"
   ],
   "note": "Completeness for every polynomial, point and trapdoor; no second value with the same proof and commitment; two accepted values with any proofs yield 1/(alpha-z) in the group. Empty coefficient vector: out-of-bounds access (C39_empty_polynomial)."
  },
  {
   "property": "C40",
   "status": "proved",
   "theorems": [
    "Crypto3Zk.C40_merged_points",
    "Crypto3Zk.C40_set_difference",
    "Crypto3Zk.C40_verdict",
    "Crypto3Zk.C40_complete",
    "Crypto3Zk.C40_wrong_value_rejected",
    "Crypto3Zk.C40_scheme_complete",
    "Crypto3Zk.C40_scheme2_complete",
    "Crypto3Zk.C40_scheme2_empty_batch"
   ],
   "note": "Completeness of the batched algorithms and of both scheme classes (as objects, over call histories); verdict characterised by the opening equation; a changed claimed polynomial is rejected. v2 divides by zero on an empty committed batch (C40_scheme2_empty_batch)."
  },
  {
   "property": "C41",
   "status": "proved",
   "theorems": [
    "Crypto3Zk.C41_fold_coeff",
    "Crypto3Zk.C41_fold_dfs",
    "Crypto3Zk.C41_forms_agree",
    "Crypto3Zk.C41_interpolation",
    "Crypto3Zk.C41_degree",
    "Crypto3Zk.C41_empty"
   ],
   "note": "Both forms of fold_polynomial, their agreement, the verifier's interpolation, and the halved degree bound."
  },
  {
   "property": "C42",
   "status": "proved",
   "theorems": [
    "Crypto3Zk.C42_indices",
    "Crypto3Zk.C42_negation",
    "Crypto3Zk.C42_folded",
    "Crypto3Zk.C42_leaf_position",
    "Crypto3Zk.C42_reorder"
   ],
   "note": "For every power-of-two domain, query index and step: the list is exactly the class modulo the folded size, without repetition, in pairs half the domain apart; folded index, leaf position and reordering."
  },
  {
   "property": "C43",
   "status": "proved",
   "theorems": [
    "Crypto3Zk.C43_honest_accepted",
    "Crypto3Zk.C43_prover_defined",
    "Crypto3Zk.C43_check_step_list",
    "Crypto3Zk.C43_random_step_list",
    "Crypto3Zk.C43_params",
    "Crypto3Zk.C43_params_random",
    "Crypto3Zk.C43_degree_test",
    "Crypto3Zk.C43_expand_one_accepts_everything",
    "Crypto3Zk.C43_zero_challenge"
   ],
   "note": "proof_eval and verify_eval of basic_fri as a whole: whenever the prover produces a proof the verifier accepts it and ends with the same transcript; when the prover does produce one; step lists. Findings: the degree test admits twice the degree, so with expand_factor 1 every vector of values is accepted (C43_expand_one_accepts_everything); a zero query challenge fails an assertion (C43_zero_challenge)."
  },
  {
   "property": "C44",
   "status": "proved",
   "theorems": [
    "Crypto3Zk.C44_quotient",
    "Crypto3Zk.C44_true_evaluations",
    "Crypto3Zk.C44_honest_accepted",
    "Crypto3Zk.C44_prover_defined",
    "Crypto3Zk.C44_preprocess",
    "Crypto3Zk.C44_polynomial_iff",
    "Crypto3Zk.C44_polynomial_of_true",
    "Crypto3Zk.C44_false_claim",
    "Crypto3Zk.C44_claims_not_bound",
    "Crypto3Zk.C44_empty_claims_accepted",
    "Crypto3Zk.C44_equivocation",
    "Crypto3Zk.C44_same_verifier",
    "Crypto3Zk.C44_false_evaluation_accepted",
    "Crypto3Zk.C44_equivocation_witness"
   ],
   "note": "The whole scheme class over call histories: prover's quotient = verifier's combination, true evaluations, completeness (verifier accepts with the same transcript), definedness, preprocessing of fixed batches, exactness per challenge and count of bad challenges. Findings: claimed evaluations are not absorbed before the challenge, so false ones can be chosen after it (C44_claims_not_bound, C44_false_evaluation_accepted); a proof without evaluations is accepted (C44_empty_claims_accepted). C44_equivocation: one commitment opens to two different values."
  },
  {
   "property": "C45",
   "status": "proved",
   "theorems": [
    "Crypto3Zk.C45_evaluates",
    "Crypto3Zk.C45_frozen",
    "Crypto3Zk.C45_allowed",
    "Crypto3Zk.C45_uncommitted_throws",
    "Crypto3Zk.C45_verifier_points",
    "Crypto3Zk.C45_single_point_vector_out_of_bounds",
    "Crypto3Zk.C45_unique_points",
    "Crypto3Zk.C45_eval_map"
   ],
   "note": "For every history of calls: evaluations, freezing, allowed points, verifier's points, unique points and evaluation map. eval_polys' assertion admits a one-element point vector, which is then read out of bounds (C45_single_point_vector_out_of_bounds)."
  },
  {
   "property": "C46",
   "status": "proved",
   "theorems": [
    "Crypto3Zk.C46_last_write",
    "Crypto3Zk.C46_points_number",
    "Crypto3Zk.C46_other_positions",
    "Crypto3Zk.C46_defined",
    "Crypto3Zk.C46_batches"
   ],
   "note": "For every history of calls, with resizing."
  },
  {
   "property": "C47",
   "status": "proved",
   "theorems": [
    "Crypto3Zk.C47_generate_verify",
    "Crypto3Zk.C47_verify_iff",
    "Crypto3Zk.C47_default_mask",
    "Crypto3Zk.C47_nonce_bytes",
    "Crypto3Zk.C47_first",
    "Crypto3Zk.C47_terminates",
    "Crypto3Zk.C47_field_generate_verify",
    "Crypto3Zk.C47_field_verify_iff",
    "Crypto3Zk.C47_field_terminates"
   ],
   "note": "Both proof-of-work classes over an arbitrary transcript; the unbounded loop has fuel and the theorems quantify over it (exact termination condition)."
  },
  {
   "property": "C48",
   "status": "proved",
   "theorems": [
    "Crypto3Zk.C48_multiexp",
    "Crypto3Zk.C48_batch_exp",
    "Crypto3Zk.C48_chunks_irrelevant",
    "Crypto3Zk.C48_multiexp_batch_exp"
   ],
   "note": "The multi-exponentiation theorem takes any sorted knowledge-commitment vector and any scalar window; the batch theorem covers every chunk count. Groups are additive modules over the scalar field."
  },
  {
   "property": "C49",
   "status": "proved",
   "theorems": [
    "Crypto3Zk.C49_honest",
    "Crypto3Zk.C49_quorum_opens",
    "Crypto3Zk.C49_reconstruct",
    "Crypto3Zk.C49_too_few",
    "Crypto3Zk.C49_bad_shares",
    "Crypto3Zk.C49_consistent",
    "Crypto3Zk.C49_secrecy",
    "Crypto3Zk.C49_threshold_zero"
   ],
   "note": "Includes secrecy of k-1 shares and consistency against a cheating dealer. Converting a negative int to the field is assumed to negate."
  },
  {
   "property": "C50",
   "status": "proved",
   "theorems": [
    "Crypto3Zk.C50_verifier_iff",
    "Crypto3Zk.C50_groth16_complete"
   ],
   "note": "Completeness for all systems, inputs and randomness, down to group elements; the verifier's verdict is characterised by the pairing equation. Groups and pairing are modules over the scalar field and a bilinear map."
  },
  {
   "property": "C51",
   "status": "proved",
   "theorems": [
    "Crypto3Zk.C51_verifier_iff",
    "Crypto3Zk.C51_pghr13_complete",
    "Crypto3Zk.C51_generator_defined"
   ],
   "note": "Completeness for all systems, inputs and randomness; verdict characterised by the five pairing equations; the generator's assertions fail for at most (inputs+1)(m-1) points t."
  },
  {
   "property": "C52",
   "status": "proved",
   "theorems": [
    "Crypto3Zk.C52_verifier_iff",
    "Crypto3Zk.C52_gm17_complete"
   ],
   "note": "Completeness for all systems, inputs and randomness; verdict characterised by the two pairing equations."
  },
  {
   "property": "C53",
   "status": "proved",
   "theorems": [
    "Crypto3Zk.C53_verifier_iff",
    "Crypto3Zk.C53_uscs_complete",
    "Crypto3Zk.C53_unused_input_no_key",
    "Crypto3Zk.C53_generator_defined"
   ],
   "note": "Completeness with every generated key; verdict characterised by the three pairing equations; key generation fails for at most (inputs+1)(m-1) points when every input is used, and always when an input is unused (finding)."
  },
  {
   "property": "C54",
   "status": "partial",
   "theorems": [
    "Crypto3Zk.C54_gm17_strong_partial",
    "Crypto3Zk.C54_gm17_weak_short_undefined",
    "Crypto3Zk.C54_groth16_strong",
    "Crypto3Zk.C54_groth16_weak",
    "Crypto3Zk.C54_pghr13_strong",
    "Crypto3Zk.C54_pghr13_weak",
    "Crypto3Zk.C54_uscs_strong",
    "Crypto3Zk.C54_uscs_weak"
   ],
   "note": "Proved for Groth16, PGHR13 and USCS. In the Groth-Maller verifier strong verification is proved, but weak verification of a short input is outside the multi-exponentiation's contract (C54_gm17_weak_short_undefined)."
  },
  {
   "property": "C55",
   "status": "partial",
   "theorems": [
    "Crypto3Zk.C55_contributions",
    "Crypto3Zk.C55_contributions_order",
    "Crypto3Zk.C55_honest_accepted",
    "Crypto3Zk.C55_sound_partial",
    "Crypto3Zk.C55_result",
    "Crypto3Zk.C55_pok_forgery",
    "Crypto3Zk.C55_challenge_weak",
    "Crypto3Zk.C55_zero_contribution",
    "Crypto3Zk.C55_length_unchecked",
    "Crypto3Zk.C55_lengthened_stuck",
    "Crypto3Zk.C55_length_one",
    "Crypto3Zk.C55_zero_beta",
    "Crypto3Zk.C55_not_always",
    "Crypto3Zk.C55_ceremony_partial",
    "Crypto3Zk.C55_honest_ceremony"
   ],
   "note": "Any history of contributions, honest acceptance for all random choices, the result in Lagrange form, and soundness against arbitrary accumulators and public keys: accepted for at most one in |F| of the random choices unless well formed. C55_ceremony_partial follows a whole ceremony in which everybody publishes what they like: the last accumulator is well formed for the product of the factors, and an honest contributor's factor is their key; C55_honest_ceremony shows that such ceremonies exist. False as stated: C55_not_always (unlucky choices), C55_length_unchecked, C55_lengthened_stuck, C55_zero_contribution, C55_zero_beta (beta_g2 free once beta is zero), C55_pok_forgery (zero elements in the proof of knowledge), C55_challenge_weak."
  },
  {
   "property": "C56",
   "status": "partial",
   "theorems": [
    "Crypto3Zk.C56_both_phases_partial",
    "Crypto3Zk.C56_generator",
    "Crypto3Zk.C56_complete",
    "Crypto3Zk.C56_two_phases",
    "Crypto3Zk.C56_honest_accepted",
    "Crypto3Zk.C56_sound_partial",
    "Crypto3Zk.C56_sound_generator_partial",
    "Crypto3Zk.C56_pok_forgery",
    "Crypto3Zk.C56_challenge_unbound",
    "Crypto3Zk.C56_zero_factor",
    "Crypto3Zk.C56_not_always"
   ],
   "note": "Key pair of the ceremony = generator's key pair for gamma = 1 and the product of the secrets, for one and for both phases; completeness of proofs; honest acceptance; soundness against arbitrary key pairs and public keys up to one in |F| of the random choices (C56_sound_partial, C56_sound_generator_partial); C56_both_phases_partial composes this with an accepted first phase. Missing: acceptance is not impossible outside of that (C56_not_always), and knowledge of the factors cannot be concluded (C56_pok_forgery)."
  },
  {
   "property": "C57",
   "status": "partial",
   "theorems": [
    "Crypto3Zk.C57_state",
    "Crypto3Zk.C57_challenge_value",
    "Crypto3Zk.C57_causal",
    "Crypto3Zk.C57_collision",
    "Crypto3Zk.C57_fresh",
    "Crypto3Zk.C57_empty_message_is_challenge",
    "Crypto3Zk.C57_int_full_width_partial",
    "Crypto3Zk.C57_challenges",
    "Crypto3Zk.C57_accumulative_constant",
    "Crypto3Zk.C57_poseidon_half_width"
   ],
   "note": "Proved for the sequential transcript. False for the accumulative transcript (constant challenge, C57_accumulative_constant) and for the Poseidon integer challenge (half width, C57_poseidon_half_width); the Poseidon sponge itself is external."
  },
  {
   "property": "C58",
   "status": "proved",
   "theorems": [
    "Crypto3Zk.C58_member",
    "Crypto3Zk.C58_member_injective",
    "Crypto3Zk.C58_position",
    "Crypto3Zk.C58_position_stable",
    "Crypto3Zk.C58_position_distinct",
    "Crypto3Zk.C58_add_again",
    "Crypto3Zk.C58_tree",
    "Crypto3Zk.C58_defined"
   ],
   "note": "The Merkle tree class is not in the repository and is an interface; capacity is stated as the address bound in C58_tree."
  },
  {
   "property": "C59",
   "status": "proved",
   "theorems": [
    "Crypto3Zk.C59_well_formed",
    "Crypto3Zk.C59_satisfied",
    "Crypto3Zk.C59_variables_pinned",
    "Crypto3Zk.C59_incoming_place",
    "Crypto3Zk.C59_equal_lengths"
   ],
   "note": "The asserts of is_satisfied do not compile as written and are not modelled."
  },
  {
   "property": "C60",
   "status": "proved",
   "theorems": [
    "Crypto3Zk.C60_range",
    "Crypto3Zk.C60_disjoint",
    "Crypto3Zk.C60_contiguous",
    "Crypto3Zk.C60_powers",
    "Crypto3Zk.C60_reregister"
   ],
   "note": "int counters are natural numbers."
  },
  {
   "property": "C61",
   "status": "proved",
   "theorems": [
    "Crypto3Zk.C61_same_points",
    "Crypto3Zk.C61_requested",
    "Crypto3Zk.C61_defined"
   ],
   "note": "Equality of the two functions for every preprocessed circuit and challenge, which points they are, and when the rotations are defined."
  },
  {
   "property": "C62",
   "status": "proved",
   "theorems": [
    "Crypto3Zk.C62_gm17_witness_indistinguishable",
    "Crypto3Zk.C62_gm17_simulation",
    "Crypto3Zk.C62_groth16_witness_indistinguishable",
    "Crypto3Zk.C62_groth16_simulation",
    "Crypto3Zk.C62_groth16_unique_C",
    "Crypto3Zk.C62_pghr13_witness_indistinguishable",
    "Crypto3Zk.C62_uscs_witness_indistinguishable"
   ],
   "note": "For all four arguments: proofs from two witnesses correspond one to one under a bijection of the randomness. Groth16 and Groth-Maller simulation; uniqueness of the third element in Groth16."
  },
  {
   "property": "C63",
   "status": "partial",
   "theorems": [
    "Crypto3Zk.C63_small_tables_partial",
    "Crypto3Zk.C63_big_table_partial",
    "Crypto3Zk.C63_big_table_nothing_foreign",
    "Crypto3Zk.C63_loses_rows",
    "Crypto3Zk.C63_wrong_column",
    "Crypto3Zk.C63_full_table_overwritten",
    "Crypto3Zk.C63_big_table_subtable_refused"
   ],
   "note": "Refuted in general by three witnesses (lost rows, wrong column, overwritten table). Proved: what a table above the limit offers. Proved in full for tables below the limit whose subtables have different row ranges (C63_small_tables_partial): every subtable offers exactly its declared rows."
  },
  {
   "property": "C64",
   "status": "partial",
   "theorems": [
    "Crypto3Zk.C64_soundness_one_part_partial",
    "Crypto3Zk.C64_soundness_independent_alphas_partial",
    "Crypto3Zk.C64_forgery",
    "Crypto3Zk.C64_forgery_witness"
   ],
   "note": "Sound with one part, and with several parts if the additional challenges do not depend on the prover's polynomials. The code draws these before the commitment, and C64_forgery shows that any table is then accepted."
  },
  {
   "property": "C65",
   "status": "proved",
   "theorems": [
    "Crypto3Zk.C65_challenges_exist",
    "Crypto3Zk.C65_example",
    "Crypto3Zk.C65_preprocessor_succeeds",
    "Crypto3Zk.C65_prover_succeeds",
    "Crypto3Zk.C65_complete",
    "Crypto3Zk.C65_lpc_complete"
   ],
   "note": "Preprocessor, prover and verifier together, for every scheme that meets the contract (C65_complete) and for LPC (C65_lpc_complete), with the public inputs; the numbers of bad challenges are bounded explicitly and the sets are fixed before the scheme and the transcript; C65_challenges_exist shows that they can be avoided and C65_example is a run from the preprocessing to the verdict with a gate, copies, a lookup and a public input."
  },
  {
   "property": "C66",
   "status": "partial",
   "theorems": [
    "Crypto3Zk.C66_both_parts_example",
    "Crypto3Zk.C66_both_parts_forgery",
    "Crypto3Zk.C66_copies_lookup_parts_forgery",
    "Crypto3Zk.C66_sound_by_parts_partial",
    "Crypto3Zk.C66_gates_example",
    "Crypto3Zk.C66_lookup_parts_forgery",
    "Crypto3Zk.C66_lookup_parts_example",
    "Crypto3Zk.C66_lookups_parts_forgery",
    "Crypto3Zk.C66_copies_lookup_parts_example",
    "Crypto3Zk.C66_lookups_parts_example",
    "Crypto3Zk.C66_parts_forgery",
    "Crypto3Zk.C66_parts_example",
    "Crypto3Zk.C66_release_forgery",
    "Crypto3Zk.C66_release_example",
    "Crypto3Zk.C66_soundness_partial",
    "Crypto3Zk.C66_soundness_no_limit_partial",
    "Crypto3Zk.C66_honest_prover",
    "Crypto3Zk.C66_avoidable",
    "Crypto3Zk.C66_example"
   ],
   "note": "Knowledge of the polynomials is taken from the scheme (OpenedTruly); bad challenges are bounded sets fixed by what was committed before (C66_soundness_partial), they can be avoided in every large field (C66_avoidable), the honest prover meets the hypotheses (C66_honest_prover), C66_example is a wrong table that is never accepted. Missing: several parts, for which the statement is false: C66_parts_forgery runs the attack of C32_forgery through the whole protocol. For every commitment scheme that is complete and every circuit without lookups, a table that satisfies the gates but violates copy constraints is accepted, with assertions and with its public inputs, unless one of two challenges is in a small set; C66_parts_example is a circuit for which no witness exists at all. C66_lookup_parts_forgery does the same for the lookup argument in several parts (the attack of C64_forgery), C66_lookup_parts_example is a circuit no witness satisfies. C66_both_parts_forgery is for circuits with copy constraints and lookups, both in several parts: neither is proved (C66_both_parts_example). C66_copies_lookup_parts_forgery and C66_lookups_parts_forgery are for circuits with both where only one argument is forged, in several parts, and the other one is done honestly in any number of parts (C66_copies_lookup_parts_example, C66_lookups_parts_example). What remains true for any numbers of parts is C66_sound_by_parts_partial: the gates hold, and the copy constraints or the lookups hold if their own argument has one part (C66_gates_example is a table that violates a gate, with two parts). Built without assertions the statement is false: the challenge stored in the proof is compared in an assertion only, and a proof with another one is accepted although copy constraints and lookups are violated, with every public input (C66_release_forgery, C66_release_example)."
  },
  {
   "property": "C67",
   "status": "partial",
   "theorems": [
    "Crypto3Zk.C67_lucky_at_most_one",
    "Crypto3Zk.C67_honest_never_lucky",
    "Crypto3Zk.C67_share",
    "Crypto3Zk.C67_openings_exposed",
    "Crypto3Zk.C67_false_claim_share",
    "Crypto3Zk.C67_accepted_shows",
    "Crypto3Zk.C67_consistent",
    "Crypto3Zk.C67_bad_at_most_one",
    "Crypto3Zk.C67_exposed",
    "Crypto3Zk.C67_false_claim"
   ],
   "note": "Consistency of every accepted proof is proved without assumptions on the trees (C67_accepted_shows). The link to committed polynomials (C67_consistent), and with it C67_exposed and C67_false_claim, assume that the paths stand at the places of the query points: the verifier does not compare them (C44_equivocation). C67_exposed gives one exposing point; C67_share and C67_openings_exposed give more than e / 2^(r+1) of them for a function that is more than e points (times the number of claims) away, with at most one excluded challenge per round (C67_lucky_at_most_one) and fewer excluded theta than claims; the loss of a factor two per round is that of this elementary argument, the sharper bounds from proximity gaps are not proved. Probabilities over the transcript are not modelled. The degree tested is twice the declared one (C43_degree_test)."
  },
  {
   "property": "C68",
   "status": "proved",
   "theorems": [
    "Crypto3Zk.C68_bacs_complete",
    "Crypto3Zk.C68_bacs_generator",
    "Crypto3Zk.C68_tbcs_complete",
    "Crypto3Zk.C68_tbcs_generator",
    "Crypto3Zk.C68_tbcs_no_gates_no_key"
   ],
   "note": "Both circuit languages: C68_bacs_complete, C68_tbcs_complete; the generators are defined outside a bounded set of values (C68_bacs_generator; C68_tbcs_generator for circuits with a gate). A boolean circuit without gates is valid and satisfied but has no keys (C68_tbcs_no_gates_no_key)."
  },
  {
   "property": "C69",
   "status": "proved",
   "theorems": [
    "Crypto3Zk.C69_aggregate_complete",
    "Crypto3Zk.C69_aggregate_of_accepted"
   ],
   "note": "Setup, aggregator and verifier together, for proofs that satisfy the Groth16 equation (C69_aggregate_complete) and for proofs that the Groth16 verifier accepts (C69_aggregate_of_accepted). The hash is arbitrary; its reads of challenges are assumed to end."
  },
  {
   "property": "C70",
   "status": "partial",
   "theorems": [
    "Crypto3Zk.C70_equations_accepted",
    "Crypto3Zk.C70_failing_equation_rejected_partial",
    "Crypto3Zk.C70_accepted_shows_partial",
    "Crypto3Zk.C70_invalid_proof_rejected",
    "Crypto3Zk.C70_inputs_not_bound",
    "Crypto3Zk.C70_last_challenge_bytes",
    "Crypto3Zk.C70_challenges_bind",
    "Crypto3Zk.C70_malformed_undefined"
   ],
   "note": "Verdict by the equations (C70_equations_accepted, C70_failing_equation_rejected_partial); an invalid proof among honestly aggregated ones (C70_invalid_proof_rejected); the inputs are bound only by the caller's bytes (C70_inputs_not_bound); the challenges are drawn from bytes that determine everything absorbed (C70_challenges_bind); malformed aggregates are undefined behaviour (C70_malformed_undefined). Aggregates made in any other way are the subject of C112; missing here: that their acceptance with one transcript implies valid proofs, which needs computational assumptions on the groups."
  },
  {
   "property": "C71",
   "status": "proved",
   "theorems": [
    "Crypto3Zk.C71_encrypted_complete",
    "Crypto3Zk.C71_defined_iff"
   ],
   "note": "Generator, prover, encryption and verifier together (C71_encrypted_complete); exactly when there is a verdict (C71_defined_iff). The encryption scheme is outside the repository and stated in Spec/EncryptedInput.lean."
  },
  {
   "property": "C72",
   "status": "proved",
   "theorems": [
    "Crypto3Zk.C72_accepted_iff",
    "Crypto3Zk.C72_wrong_randomness_rejected",
    "Crypto3Zk.C72_tampering_rejected"
   ],
   "note": "C72_accepted_iff gives the exact meaning of acceptance; C72_wrong_randomness_rejected and C72_tampering_rejected for a non-degenerate pairing."
  },
  {
   "property": "C73",
   "status": "proved",
   "theorems": [
    "Crypto3Zk.C73_proof_written",
    "Crypto3Zk.C73_input_written",
    "Crypto3Zk.C73_vk_written",
    "Crypto3Zk.C73_pk_written",
    "Crypto3Zk.C73_proof_round_trip",
    "Crypto3Zk.C73_input_round_trip",
    "Crypto3Zk.C73_large_input_lost",
    "Crypto3Zk.C73_vk_round_trip",
    "Crypto3Zk.C73_verifier_input_round_trip",
    "Crypto3Zk.C73_pk_round_trip",
    "Crypto3Zk.C73_pk_round_trip_meaning"
   ],
   "note": "Written format and buffer bounds (C73_*_written), round trips (C73_*_round_trip), the constraint system with unsorted combinations (C73_pk_round_trip_meaning), and the loss at 2^32 elements (C73_large_input_lost). Point and field encodings are external (MarshalCodec.Lawful). The header does not compile at this commit (names moved to math); it is read with that correction."
  },
  {
   "property": "C74",
   "status": "partial",
   "theorems": [
    "Crypto3Zk.C74_proof_safe",
    "Crypto3Zk.C74_input_safe",
    "Crypto3Zk.C74_vk_safe",
    "Crypto3Zk.C74_verifier_input_safe_partial",
    "Crypto3Zk.C74_verifier_input_unsafe",
    "Crypto3Zk.C74_proving_key_unsafe",
    "Crypto3Zk.C74_damaged_constraint",
    "Crypto3Zk.C74_malformed_constraint_dropped",
    "Crypto3Zk.C74_truncated_proof",
    "Crypto3Zk.C74_truncated_input",
    "Crypto3Zk.C74_truncated_vk",
    "Crypto3Zk.C74_truncated_verifier_input",
    "Crypto3Zk.C74_truncated_proving_key",
    "Crypto3Zk.C74_trailing_bytes",
    "Crypto3Zk.C74_trailing_verifier_input",
    "Crypto3Zk.C74_trailing_proving_key",
    "Crypto3Zk.C74_truncated_proving_key_example"
   ],
   "note": "True for proofs, inputs and verification keys (C74_*_safe). False for the combined verifier input (C74_verifier_input_unsafe; C74_verifier_input_safe_partial says when it holds), for proving keys (C74_proving_key_unsafe) and for malformed constraints (C74_malformed_constraint_dropped on one key, C74_damaged_constraint for every key and every constraint but the last). Bytes after the end of an object are never noticed (C74_trailing_bytes, C74_trailing_verifier_input, C74_trailing_proving_key). For serialised objects cut off after any number of bytes the outcome is proved exactly: reported for proofs, inputs and verification keys (C74_truncated_proof, C74_truncated_input, C74_truncated_vk), past the end in the public input of a combined verifier input (C74_truncated_verifier_input) and anywhere in a proving key (C74_truncated_proving_key)."
  },
  {
   "property": "C75",
   "status": "partial",
   "theorems": [
    "Crypto3Zk.C75_prover_succeeds",
    "Crypto3Zk.C75_honest_openings_are_accepted_partial",
    "Crypto3Zk.C75_challenge_polynomial",
    "Crypto3Zk.C75_bounded_commitment_undefined",
    "Crypto3Zk.C75_zero_polynomial_with_bound"
   ],
   "note": "Prover and verifier together, any number of batches, points, polynomials, chunks and degree bounds (C75_honest_openings_are_accepted_partial, C75_prover_succeeds), the challenge polynomial (C75_challenge_polynomial). Excluded because the claim is false there: the zero polynomial with a degree bound (C75_zero_polynomial_with_bound), polynomials shorter than their bound (C75_bounded_commitment_undefined)."
  },
  {
   "property": "C76",
   "status": "partial",
   "theorems": [
    "Crypto3Zk.C76_individual_claims_partial",
    "Crypto3Zk.C76_verdict",
    "Crypto3Zk.C76_any_claim_can_be_opened",
    "Crypto3Zk.C76_later_batches_partial",
    "Crypto3Zk.C76_evaluation_binding_partial",
    "Crypto3Zk.C76_too_many_rounds",
    "Crypto3Zk.C76_false_value_accepted"
   ],
   "note": "Verdict in closed form (C76_verdict). The claim is false for the first batch: any claim can be opened (C76_any_claim_can_be_opened, C76_false_value_accepted), and an opening with too many rounds is an out-of-bounds write (C76_too_many_rounds). Proved in part: batches after the first are bound up to a bounded share of random elements (C76_later_batches_partial); from a tree of openings that satisfy both equations the combined evaluation follows (C76_evaluation_binding_partial) and, over the choices of r and xi, every individual claim follows (C76_individual_claims_partial). Missing: the claim itself, which is false."
  },
  {
   "property": "C77",
   "status": "partial",
   "theorems": [
    "Crypto3Zk.C77_addition",
    "Crypto3Zk.C77_scaling",
    "Crypto3Zk.C77_subtraction_partial",
    "Crypto3Zk.C77_subtraction_of_extra_chunks",
    "Crypto3Zk.C77_subtraction_of_shifted_part",
    "Crypto3Zk.C77_chunk_commitment",
    "Crypto3Zk.C77_multi_scalar_mul",
    "Crypto3Zk.C77_multi_scalar_mul_drops_chunks",
    "Crypto3Zk.C77_homomorphic"
   ],
   "note": "Addition, scaling, chunk combination and homomorphism of commitment for all shapes. Subtraction only if the subtrahend is no longer and has no shifted part (C77_subtraction_partial; false otherwise: C77_subtraction_of_extra_chunks, C77_subtraction_of_shifted_part); multi_scalar_mul drops the chunks beyond the shortest operand (C77_multi_scalar_mul_drops_chunks)."
  },
  {
   "property": "C78",
   "status": "proved",
   "theorems": [
    "Crypto3Zk.C78_to_field",
    "Crypto3Zk.C78_components_injective",
    "Crypto3Zk.C78_challenges_injective"
   ],
   "note": "C78_to_field, C78_components_injective, C78_challenges_injective, for all challenges; a prime and a cube root are shown in Props/KimchiMappingExample.lean."
  },
  {
   "property": "C79",
   "status": "partial",
   "theorems": [
    "Crypto3Zk.C79_constructor",
    "Crypto3Zk.C79_on_curve_partial",
    "Crypto3Zk.C79_defined_iff",
    "Crypto3Zk.C79_linear_term"
   ],
   "note": "The constructor ends (C79_constructor). The point is on the curve for curves without linear term and elements other than the exceptional ones (C79_on_curve_partial); for the exceptional elements a zero is inverted (C79_defined_iff). False for curves with a linear term: a default point is returned (C79_linear_term)."
  },
  {
   "property": "C80",
   "status": "partial",
   "theorems": [
    "Crypto3Zk.C80_transcript_partial",
    "Crypto3Zk.C80_scalars_injective",
    "Crypto3Zk.C80_shift_bijective",
    "Crypto3Zk.C80_challenge_injective",
    "Crypto3Zk.C80_stale_limb",
    "Crypto3Zk.C80_absorb_discards",
    "Crypto3Zk.C80_leftover_limbs_discarded",
    "Crypto3Zk.C80_fr_challenge"
   ],
   "note": "Proved for all histories of the calls that the protocols of the repository make (C80_transcript_partial); false for squeezes of a single limb followed by absorb_fr of a scalar (C80_stale_limb). The permutation is a parameter."
  },
  {
   "property": "C81",
   "status": "proved",
   "theorems": [
    "Crypto3Zk.C81_evaluate",
    "Crypto3Zk.C81_malformed",
    "Crypto3Zk.C81_last_rows",
    "Crypto3Zk.C81_lagrange"
   ],
   "note": "C81_evaluate for all expressions and environments, by induction on the expression; C81_malformed, C81_last_rows, C81_lagrange. The constructor PolishToken(int) is not modelled: it initialises its member with itself."
  },
  {
   "property": "C82",
   "status": "partial",
   "theorems": [
    "Crypto3Zk.C82_honest_proofs_accepted_partial",
    "Crypto3Zk.C82_prover_completes_partial",
    "Crypto3Zk.C82_public_input_undefined",
    "Crypto3Zk.C82_lookups_undefined",
    "Crypto3Zk.C82_no_proofs_undefined"
   ],
   "note": "C82_honest_proofs_accepted_partial (batches of any size) and C82_prover_completes_partial, for circuits without public input and lookups and unless a folding challenge is zero. Missing because false: with public input or sorted lookup polynomials there is no verdict but undefined behaviour (C82_public_input_undefined, C82_lookups_undefined), as for an empty batch (C82_no_proofs_undefined)."
  },
  {
   "property": "C83",
   "status": "partial",
   "theorems": [
    "Crypto3Zk.C83_rows_partial",
    "Crypto3Zk.C83_generic_and_permutation_cancel",
    "Crypto3Zk.C83_public_input_subtracted",
    "Crypto3Zk.C83_claims_are_the_equation_partial",
    "Crypto3Zk.C83_forgery",
    "Crypto3Zk.C83_challenges_bind_neither_circuit_nor_previous"
   ],
   "note": "Proved in part: the claims handed to the commitment scheme are all true iff the protocol equation holds at the challenges (C83_claims_are_the_equation_partial); if it holds at enough challenges, on every row the other gates, the sum of permutation constraint and first generic gate, and the sum of second generic gate and boundary condition vanish (C83_rows_partial). False beyond that: any proof that gets a verdict is accepted with another opening (C83_forgery); generic gate and permutation share powers of alpha and can cancel (C83_generic_and_permutation_cancel); the challenges depend neither on the circuit nor on the previous challenges (C83_challenges_bind_neither_circuit_nor_previous). C83_public_input_subtracted: the value of ft with public input."
  },
  {
   "property": "C84",
   "status": "partial",
   "theorems": [
    "Crypto3Zk.C84_previous_challenges_partial",
    "Crypto3Zk.C84_short_challenges"
   ],
   "note": "C84_previous_challenges_partial if the polynomial fills the first chunk and has at most two. False for fewer challenges (C84_short_challenges)."
  },
  {
   "property": "C85",
   "status": "proved",
   "theorems": [
    "Crypto3Zk.C85_symmetric_iff",
    "Crypto3Zk.C85_public_iff",
    "Crypto3Zk.C85_signed_data_verifies",
    "Crypto3Zk.C85_binding",
    "Crypto3Zk.C85_length_mismatch",
    "Crypto3Zk.C85_label_reuse"
   ],
   "note": "C85_symmetric_iff, C85_public_iff: verification decides the defining equation for any data; C85_signed_data_verifies; C85_binding; C85_length_mismatch. C85_label_reuse shows that two values under one label give the tag of every third value: labels must not be reused (the runner of the repository uses one label for all inputs)."
  },
  {
   "property": "C86",
   "status": "partial",
   "theorems": [
    "Crypto3Zk.C86_symmetric_complete",
    "Crypto3Zk.C86_public_complete_partial",
    "Crypto3Zk.C86_public_odd",
    "Crypto3Zk.C86_public_odd_any_default"
   ],
   "note": "Proved for the verifier with the secret key (C86_symmetric_complete); for the verifier with the public key only for an even number of inputs (C86_public_complete_partial). False for odd numbers: the first pairing is computed and discarded, so the honest proof is rejected (C86_public_odd, C86_public_odd_any_default)."
  },
  {
   "property": "C87",
   "status": "partial",
   "theorems": [
    "Crypto3Zk.C87_symmetric_iff",
    "Crypto3Zk.C87_too_many_labels",
    "Crypto3Zk.C87_length_mismatch",
    "Crypto3Zk.C87_public_iff_partial",
    "Crypto3Zk.C87_verifiers_agree",
    "Crypto3Zk.C87_tags_bind_partial",
    "Crypto3Zk.C87_adaptive_provers_partial",
    "Crypto3Zk.C87_tags_only"
   ],
   "note": "C87_symmetric_iff for any proof; C87_public_iff_partial and C87_verifiers_agree for even numbers of inputs; C87_too_many_labels (out-of-bounds read). C87_tags_bind_partial bounds the keys and tags for which a fixed proof strategy, linear in the tags, makes the verifier accept other data by 2/|F| for coefficients fixed in advance, and C87_adaptive_provers_partial says the same of coefficients that depend on everything seen: the key and the pseudorandom values then lie in a set of that size that the coefficients determine. C87_tags_only: a prover of any kind that has seen the tags only is accepted with other data for at most one in |F| of the choices. Missing: computationally bounded provers that combine the tags with multiples of the key in other ways."
  },
  {
   "property": "C88",
   "status": "partial",
   "theorems": [
    "Crypto3Zk.C88_knowledge_soundness_partial",
    "Crypto3Zk.C88_false_statements_rejected_partial",
    "Crypto3Zk.C88_adaptive_provers_partial",
    "Crypto3Zk.C88_honest_prover_is_linear"
   ],
   "note": "C88_knowledge_soundness_partial and C88_false_statements_rejected_partial for strategies whose coefficients are fixed before the keys are drawn; the witness is read off the coefficients for the third element for the auxiliary query, and the honest prover is such a prover (C88_honest_prover_is_linear). C88_adaptive_provers_partial for coefficients and inputs that depend on the keys: an accepted proof has a witness in its coefficients, or the secrets lie in a set that the coefficients determine and that has at most 2m + 4 of every |F| secrets. Missing: that secrets cannot be confined like this, which is the computational assumption, and provers that are not algebraic (this needs a cryptographic assumption)."
  },
  {
   "property": "C89",
   "status": "partial",
   "theorems": [
    "Crypto3Zk.C89_knowledge_soundness_partial",
    "Crypto3Zk.C89_false_statements_rejected_partial",
    "Crypto3Zk.C89_adaptive_provers_partial",
    "Crypto3Zk.C89_honest_prover_is_linear"
   ],
   "note": "C89_knowledge_soundness_partial and C89_false_statements_rejected_partial for strategies whose coefficients are fixed before the keys are drawn; the witness is read off the coefficients for the K query, and the honest prover is such a prover (C89_honest_prover_is_linear). C89_adaptive_provers_partial for coefficients and inputs that depend on the keys: an accepted proof has a witness in its coefficients, or the secrets lie in a set that the coefficients determine and that has at most 2m + 5 of every |F| secrets. Missing: that secrets cannot be confined like this, which is the computational assumption, and provers that are not algebraic (this needs a cryptographic assumption)."
  },
  {
   "property": "C90",
   "status": "partial",
   "theorems": [
    "Crypto3Zk.C90_knowledge_soundness_partial",
    "Crypto3Zk.C90_false_statements_rejected_partial",
    "Crypto3Zk.C90_adaptive_provers_partial",
    "Crypto3Zk.C90_honest_prover_is_linear"
   ],
   "note": "C90_knowledge_soundness_partial and C90_false_statements_rejected_partial for strategies whose coefficients are fixed before the keys are drawn; the witness is read off the coefficients for the third element for the auxiliary query, and the honest prover is such a prover (C90_honest_prover_is_linear). In odd characteristic. C90_adaptive_provers_partial for coefficients and inputs that depend on the keys: an accepted proof has a witness in its coefficients, or the secrets lie in a set that the coefficients determine and that has at most 2m + 3 of every |F| secrets. Missing: that secrets cannot be confined like this, which is the computational assumption, and provers that are not algebraic. Provers that have seen simulated proofs are the subject of C114."
  },
  {
   "property": "C91",
   "status": "partial",
   "theorems": [
    "Crypto3Zk.C91_knowledge_soundness_partial",
    "Crypto3Zk.C91_false_statements_rejected_partial",
    "Crypto3Zk.C91_adaptive_provers_partial",
    "Crypto3Zk.C91_honest_prover_is_linear"
   ],
   "note": "C91_knowledge_soundness_partial and C91_false_statements_rejected_partial for strategies whose coefficients are fixed before the keys are drawn; the witness is read off the coefficients for the \u03b1-multiples of the query, and the honest prover is such a prover (C91_honest_prover_is_linear). C91_adaptive_provers_partial for coefficients and inputs that depend on the keys: an accepted proof has a witness in its coefficients, or the secrets lie in a set that the coefficients determine and that has at most 2m + 3 of every |F| secrets. Missing: that secrets cannot be confined like this, which is the computational assumption, and provers that are not algebraic (this needs a cryptographic assumption)."
  },
  {
   "property": "C92",
   "status": "partial",
   "theorems": [
    "Crypto3Zk.C92_params_eq_iff",
    "Crypto3Zk.C92_params_same_verdict",
    "Crypto3Zk.C92_params_same_verdict_lpc",
    "Crypto3Zk.C92_proof_eq_iff",
    "Crypto3Zk.C92_proof_same_verdict_partial",
    "Crypto3Zk.C92_placeholder_same_verdict_partial",
    "Crypto3Zk.C92_nonce_not_compared",
    "Crypto3Zk.C92_grinding_verdicts_differ"
   ],
   "note": "C92_params_* hold in full. C92_proof_same_verdict_partial and C92_placeholder_same_verdict_partial assume that there is no grinding: the comparison of proof_of_work is commented out in basic_fri.hpp, so with grinding an accepted and a rejected proof can compare equal (C92_nonce_not_compared, C92_grinding_verdicts_differ)."
  },
  {
   "property": "C93",
   "status": "proved",
   "theorems": [
    "Crypto3Zk.C93_eq_iff",
    "Crypto3Zk.C93_equivalence",
    "Crypto3Zk.C93_same_tables",
    "Crypto3Zk.C93_same_preprocessing",
    "Crypto3Zk.C93_same_verdict"
   ],
   "note": "C93_eq_iff characterises ==; C93_same_tables, C93_same_preprocessing and C93_same_verdict show that equal systems are interchangeable (the hash of the circuit is an argument and is taken to be the same)."
  },
  {
   "property": "C94",
   "status": "partial",
   "theorems": [
    "Crypto3Zk.C94_public_total_partial",
    "Crypto3Zk.C94_public_total_overflows",
    "Crypto3Zk.C94_counts",
    "Crypto3Zk.C94_sorted_columns",
    "Crypto3Zk.C94_table_columns"
   ],
   "note": "C94_counts, C94_sorted_columns and C94_table_columns hold while the numbers fit in 64 bits. C94_public_total_partial needs a sum below 2^31: the sum is kept in an int, see C94_public_total_overflows."
  },
  {
   "property": "C95",
   "status": "proved",
   "theorems": [
    "Crypto3Zk.C95_layout",
    "Crypto3Zk.C95_overflow",
    "Crypto3Zk.C95_single",
    "Crypto3Zk.C95_history",
    "Crypto3Zk.C95_refill",
    "Crypto3Zk.C95_copy",
    "Crypto3Zk.C95_same_data",
    "Crypto3Zk.C95_trees",
    "Crypto3Zk.C95_precommit",
    "Crypto3Zk.C95_initial",
    "Crypto3Zk.C95_round"
   ],
   "note": "C95_layout, C95_overflow, C95_history, C95_refill and C95_same_data for the buffer; C95_precommit, C95_initial and C95_round show that the functions with byte leaves are those of the FRI model over MerkleLib.onValues, and C95_trees that this keeps the contracts used by C43, C44, C65 and C67. That the encoding has fixed length and is injective is the contract of crypto3-marshalling."
  },
  {
   "property": "C96",
   "status": "partial",
   "theorems": [
    "Crypto3Zk.C96_digest_binds",
    "Crypto3Zk.C96_key_binds_partial",
    "Crypto3Zk.C96_chunks_not_bound",
    "Crypto3Zk.C96_parts_differ"
   ],
   "note": "C96_digest_binds for the digest, C96_key_binds_partial for the key with LPC and collision-free trees. Not part of the key, so that the full claim is false: the limit on the chunks of the quotient (C96_chunks_not_bound, C96_parts_differ). That contexts are self-delimiting and that constraint systems are written injectively is the contract of crypto3-marshalling."
  },
  {
   "property": "C97",
   "status": "proved",
   "theorems": [
    "Crypto3Zk.C97_rebuilt",
    "Crypto3Zk.C97_eq_iff",
    "Crypto3Zk.C97_same_verdict"
   ],
   "note": "C97_rebuilt, C97_eq_iff, C97_same_verdict. max_quotient_chunks is a std::size_t that is stored in 32 bits; the model does not truncate it."
  },
  {
   "property": "C98",
   "status": "partial",
   "theorems": [
    "Crypto3Zk.C98_full_column_partial",
    "Crypto3Zk.C98_short_column_zeros",
    "Crypto3Zk.C98_short_column_spread",
    "Crypto3Zk.C98_forms_differ",
    "Crypto3Zk.C98_range"
   ],
   "note": "Proved for columns that fill the domain (C98_full_column_partial, C98_range). The claim is false as soon as a column is shorter: the coefficient form continues it with zeros (C98_short_column_zeros), the evaluation form spreads its entries over the rows (C98_short_column_spread), so that the two forms are different polynomials (C98_forms_differ)."
  },
  {
   "property": "C99",
   "status": "partial",
   "theorems": [
    "Crypto3Zk.C99_within_classes_partial",
    "Crypto3Zk.C99_call",
    "Crypto3Zk.C99_not_a_permutation"
   ],
   "note": "C99_within_classes_partial and C99_call. The claim that it remains a permutation is false for every history with a call on two different cells (C99_not_a_permutation). The class is not used by the placeholder prover, which uses cycle_representation (C14, C15)."
  },
  {
   "property": "C100",
   "status": "proved",
   "theorems": [
    "Crypto3Zk.C100_one_usable_row",
    "Crypto3Zk.C100_kzg_complete",
    "Crypto3Zk.C100_example"
   ],
   "note": "C100_kzg_complete: the contract of C65 (total, opening, complete) is shown for kzg_commitment_scheme, on histories that start with a preprocessed object, and the points that placeholder asks for are shown to be different and within one coset; C100_one_usable_row shows why two usable rows are asked for; C100_example is a whole run. kzg_commitment_scheme_v2 is not covered: it divides by zero when a committed batch is empty (C40_scheme2_empty_batch)."
  },
  {
   "property": "C101",
   "status": "proved",
   "theorems": [
    "Crypto3Zk.C101_scheme_sound",
    "Crypto3Zk.C101_scheme2_sound",
    "Crypto3Zk.C101_honest",
    "Crypto3Zk.C101_other_batches_unchecked",
    "Crypto3Zk.C101_single_sound",
    "Crypto3Zk.C101_batched_sound",
    "Crypto3Zk.C101_batched_merged_points_matter",
    "Crypto3Zk.C101_example"
   ],
   "note": "C101_scheme_sound, C101_scheme2_sound: both schemes as objects, for every history of the verifier; C101_single_sound, C101_batched_sound: the functions. The sets of bad challenges and bad trapdoors are fixed in the order of the messages and bounded. The prover is one that combines elements of the key (Represents); C101_honest shows that every honest prover is such a prover. Findings: C101_other_batches_unchecked (values of batches that are not among the commitments are not checked), C101_batched_merged_points_matter (batched_kzg accepts everything if the merged points given by the caller contain none of the points)."
  },
  {
   "property": "C102",
   "status": "partial",
   "theorems": [
    "Crypto3Zk.C102_kzg_both_parts_forgery",
    "Crypto3Zk.C102_kzg_copies_lookup_parts_forgery",
    "Crypto3Zk.C102_kzg_forgery",
    "Crypto3Zk.C102_example",
    "Crypto3Zk.C102_gates_example",
    "Crypto3Zk.C102_opened_parts",
    "Crypto3Zk.C102_kzg_sound_by_parts_partial",
    "Crypto3Zk.C102_kzg_lookup_forgery",
    "Crypto3Zk.C102_lookup_example",
    "Crypto3Zk.C102_opened_truly",
    "Crypto3Zk.C102_kzg_sound_partial",
    "Crypto3Zk.C102_honest_prover",
    "Crypto3Zk.C102_sound_example",
    "Crypto3Zk.C102_honest_example",
    "Crypto3Zk.C102_kzg_lookup_parts_forgery",
    "Crypto3Zk.C102_kzg_lookups_parts_forgery",
    "Crypto3Zk.C102_kzg_parts_forgery"
   ],
   "note": "The property is false: C102_kzg_forgery gives, for every circuit without copy constraints and lookups and every table, a proof that the verifier accepts, also with the public inputs of the table; C102_example is a circuit (the public input is the square of the witness) for which 3 is accepted although no table with this public input satisfies it. C102_kzg_lookup_forgery does the same for circuits with lookups (C102_lookup_example), so that only copy constraints are in the way: with them the verifier would read permuted_columns out of bounds, and the model has no verdict. When the permutation argument has several parts, C102_kzg_parts_forgery covers copy constraints too, with a proof of the right size; C102_kzg_lookup_parts_forgery is the same for lookups in several parts, C102_kzg_both_parts_forgery for both at once, C102_kzg_copies_lookup_parts_forgery and C102_kzg_lookups_parts_forgery for one of them where the other is satisfied. C102_kzg_sound_partial is what does hold, for circuits with all three arguments: if the proof has as many values as there are committed polynomials and the prover only combines elements of the key, then unless a challenge or the trapdoor is one of few, an accepted proof means that the table satisfies the circuit. C102_honest_prover shows that honest proofs have this form; C102_sound_example is the circuit of the forgery, C102_honest_example a run. C102_kzg_sound_by_parts_partial is the same for any numbers of parts: the gates hold, the copies if the permutation argument is in one part, the lookups if the lookup argument is in one part (C102_gates_example: two parts and a violated gate). Missing: the sizes are a hypothesis because the code does not check them, in several parts nothing holds for copies and lookups because of the forgeries, and the prover is algebraic."
  },
  {
   "property": "C103",
   "status": "partial",
   "theorems": [
    "Crypto3Zk.C103_kzg2_statement_partial",
    "Crypto3Zk.C103_kzg2_example",
    "Crypto3Zk.C103_statement_by_parts_partial",
    "Crypto3Zk.C103_kzg_statement_by_parts_partial",
    "Crypto3Zk.C103_kzg2_statement_by_parts_partial",
    "Crypto3Zk.C103_parts_example",
    "Crypto3Zk.C103_other_inputs",
    "Crypto3Zk.C103_any_value",
    "Crypto3Zk.C103_statement_partial",
    "Crypto3Zk.C103_kzg_statement_partial",
    "Crypto3Zk.C103_example",
    "Crypto3Zk.C103_statement_example"
   ],
   "note": "The property is false: the public inputs are never absorbed by the transcript, and the verifier compares one value per column at the challenge that is stored in the proof. C103_other_inputs: from any accepted proof, all the values of a column but one can be chosen freely, and there is a value for the last one with which the same proof is accepted. C103_example: a circuit whose two public inputs are to be squares modulo 257; an honest proof for 4 and 9 is accepted with 3 and some other value, though no table has the public input 3. C103_statement_partial and, over KZG and algebraic provers, C103_kzg_statement_partial are what does hold: for public inputs fixed before the challenge is drawn, unless a challenge is one of few, an accepted proof means that the table satisfies the circuit and has exactly these public inputs. C103_statement_by_parts_partial, C103_kzg_statement_by_parts_partial and C103_kzg2_statement_by_parts_partial are the same for any numbers of parts of the permutation and lookup arguments: the public inputs are those of the table and the gates hold, the copies if the permutation argument has one part, the lookups if the lookup argument has one part (C103_parts_example: two parts). Missing: adaptively chosen public inputs (false), copies and lookups in several parts (false, C66_parts_forgery and C66_lookup_parts_forgery), negative rotations of public input columns (C38). C103_kzg2_statement_partial and C103_kzg2_example: the same over the second KZG scheme, for the openings and challenges of C108."
  },
  {
   "property": "C104",
   "status": "partial",
   "theorems": [
    "Crypto3Zk.C104_lpc_queries_show_rows",
    "Crypto3Zk.C104_lpc_rows_queried",
    "Crypto3Zk.C104_lpc_example",
    "Crypto3Zk.C104_columns_hidden_partial",
    "Crypto3Zk.C104_one_row_reveals",
    "Crypto3Zk.C104_same_count_partial",
    "Crypto3Zk.C104_uniform_partial",
    "Crypto3Zk.C104_example",
    "Crypto3Zk.C104_lpc_proof_shows_cells",
    "Crypto3Zk.C104_lpc_proof_example"
   ],
   "note": "The property is false: zk_padding pads to the next power of two, whatever the number of values that will be seen, and may leave a single random row. C104_one_row_reveals: over KZG the commitment and the value at the challenge then determine the usable rows' contribution, and no proof can have been made from two different witnesses, whatever the random values, unless its challenge is one of at most 2^n. C104_example: the witnesses 2 and -2 for the public input 4 in a table of seven rows. C104_columns_hidden_partial is what does hold: if there are at least as many random rows as points at which a column is seen (for KZG, the opened points and the trapdoor), a shift of the random values turns the values for one witness into those for the other. C104_same_count_partial is the same as a statement about chances: any values seen arise for equally many choices of the random values with either witness. C104_uniform_partial: the values seen are distributed uniformly, whatever the witness. Over LPC the query points are taken from the domain of the commitment, which contains the rows: whenever a query point is a row, the cells of that row are in the proof (C104_lpc_queries_show_rows, C104_lpc_example; for an honest proof of the whole proof system C104_lpc_proof_shows_cells, C104_lpc_proof_example), which happens for one in 2^d of the challenges, d the logarithm of the expansion (C104_lpc_rows_queried). Missing: the polynomials derived from the witness (running products, sorted columns, quotient chunks) get no randomness of their own, and nothing is claimed about them."
  },
  {
   "property": "C105",
   "status": "proved",
   "theorems": [
    "Crypto3Zk.C105_log_is_evaluator",
    "Crypto3Zk.C105_computed_once",
    "Crypto3Zk.C105_variable_calls",
    "Crypto3Zk.C105_cache_repeated",
    "Crypto3Zk.C105_cache_useful"
   ],
   "note": "An evaluator with a log of the computed subexpressions is shown to be the modelled evaluator; the invariant relates counters, cache, log and visits still to come. Values are C07."
  },
  {
   "property": "C106",
   "status": "proved",
   "theorems": [
    "Crypto3Zk.C106_empty_variable_batch",
    "Crypto3Zk.C106_kzg2_complete",
    "Crypto3Zk.C106_transcripts_differ",
    "Crypto3Zk.C106_example",
    "Crypto3Zk.C106_no_columns_example"
   ],
   "note": "Model/PlaceholderKzg2.lean joins the models of placeholder and of kzg_v2 through the abstract commitment scheme. C106_kzg2_complete needs a key with as many elements as rows on the prover's side and one power on the verifier's, a lawful serialisation, distinct rotations, two rows and a non-zero opening challenge. It also says what happens without variable columns: the verdict is undefined (C106_empty_variable_batch for any proof without values for them). C106_transcripts_differ: after the opening the prover has absorbed the second element of the proof and the verifier has not. C106_example and C106_no_columns_example are runs."
  },
  {
   "property": "C107",
   "status": "proved",
   "theorems": [
    "Crypto3Zk.C107_total_work",
    "Crypto3Zk.C107_sizes"
   ],
   "note": "C107_total_work: the number of iterations of a loop is the least fuel with which the model finishes the constraint; the sum over the run is at most n log2 n (potential argument). C107_sizes: the recorded size is the number of linked cells. Fewer than 2^32 cells, as the code's own comment assumes."
  },
  {
   "property": "C108",
   "status": "partial",
   "theorems": [
    "Crypto3Zk.C108_opened_parts",
    "Crypto3Zk.C108_kzg2_sound_by_parts_partial",
    "Crypto3Zk.C108_kzg2_lookup_forgery",
    "Crypto3Zk.C108_lookup_example",
    "Crypto3Zk.C108_opened_truly",
    "Crypto3Zk.C108_kzg2_sound_partial",
    "Crypto3Zk.C108_kzg2_forgery",
    "Crypto3Zk.C108_honest_prover",
    "Crypto3Zk.C108_example",
    "Crypto3Zk.C108_sound_example",
    "Crypto3Zk.C108_honest_example",
    "Crypto3Zk.C108_gates_example"
   ],
   "note": "The property is false: C108_kzg2_forgery gives, for every circuit without copy constraints and lookups and every table with a witness or public input column, a proof that the verifier accepts, also with the public inputs of the table; C108_example is the circuit of C102_example, where 3 is accepted as a square modulo 257. C108_kzg2_lookup_forgery does the same for circuits with lookups (C108_lookup_example). C108_kzg2_sound_partial is what does hold, for circuits with all three arguments: if the proof has as many values as there are committed polynomials and both proof elements are combinations of the key, chosen in the order of the protocol, then unless a challenge of the arguments, one of the two challenges of the scheme or the trapdoor is one of few, an accepted proof means that the table satisfies the circuit. C108_honest_prover: honest proofs have this form. C108_sound_example, C108_honest_example: instances. C108_kzg2_sound_by_parts_partial is the same for any numbers of parts: the gates hold, the copies if the permutation argument is in one part, the lookups if the lookup argument is in one part (C108_gates_example). Missing: the sizes are a hypothesis because the code does not check them, copies and lookups in several parts, and the prover is algebraic."
  },
  {
   "property": "C109",
   "status": "partial",
   "theorems": [
    "Crypto3Zk.C109_knowledge_partial",
    "Crypto3Zk.C109_honest_prover",
    "Crypto3Zk.C109_false_statements_rejected_partial"
   ],
   "note": "C109_knowledge_partial: provers that compute with group elements, whose coefficients and clear inputs may depend on the keys; on acceptance the ciphertext is the encryption of the tag's coefficients and the last proof element's coefficients are a witness, or the secrets lie in a set of at most (3m+8)|F|^(2n+5) of |F|^(2n+6), determined by coefficients and clear inputs. C109_false_statements_rejected_partial: the consequence for false statements. C109_honest_prover: the honest prover is such a prover and exactly its inputs, randomness and witness are read off. Missing: provers that do not compute with group elements (needs a computational assumption). The encryption scheme is in crypto3-pubkey, so its keys and encryption are a specification (Spec/EncryptedInput)."
  },
  {
   "property": "C110",
   "status": "partial",
   "theorems": [
    "Crypto3Zk.C110_anything_accepted",
    "Crypto3Zk.C110_anything_accepted_public",
    "Crypto3Zk.C110_other_data_accepted",
    "Crypto3Zk.C110_other_data_accepted_public",
    "Crypto3Zk.C110_false_statement_accepted"
   ],
   "note": "The claim is false. C110_anything_accepted and C110_anything_accepted_public: for every constraint system, satisfiable or not, all signed data and all keys, a proof made from the proving key, the data and its tags without a witness is accepted by the verifier with the secret key and (even number of inputs) by the verifier with the public key. C110_false_statement_accepted: the same for a constraint system that nothing satisfies. C110_other_data_accepted and C110_other_data_accepted_public: a proof of other, satisfying data is accepted for the labels of the signed data. What the tags do bind is the part of the proof for the authenticated data: C87."
  },
  {
   "property": "C111",
   "status": "proved",
   "theorems": [
    "Crypto3Zk.C111_same_count",
    "Crypto3Zk.C111_indistinguishable",
    "Crypto3Zk.C111_groth16_simulator_accepted",
    "Crypto3Zk.C111_groth16_zero_knowledge",
    "Crypto3Zk.C111_gm17_simulator_accepted",
    "Crypto3Zk.C111_gm17_zero_knowledge",
    "Crypto3Zk.C111_pghr13_simulator_accepted",
    "Crypto3Zk.C111_pghr13_zero_knowledge",
    "Crypto3Zk.C111_uscs_simulator_accepted",
    "Crypto3Zk.C111_uscs_zero_knowledge",
    "Crypto3Zk.C111_encrypted_zero_knowledge",
    "Crypto3Zk.C111_encrypted_simulator_accepted",
    "Crypto3Zk.C111_adsnark_zero_knowledge",
    "Crypto3Zk.C111_adsnark_simulator_accepted",
    "Crypto3Zk.C111_adsnark_simulator_accepted_public"
   ],
   "note": "Simulators are explicit functions (Spec/Simulation.lean) without a witness argument. SameDistribution is a bijection of the randomness with equal outcomes; C111_same_count states it as equal counts for every proof. The randomness of the encryption itself is fixed (hiding of the ciphertext is computational and belongs to the external scheme). The curve checks are assumed to accept all elements in the acceptance theorems."
  },
  {
   "property": "C112",
   "status": "proved",
   "theorems": [
    "Crypto3Zk.C112_formal_equations",
    "Crypto3Zk.C112_tree_shows_valid_proofs",
    "Crypto3Zk.C112_valid_proofs_answer",
    "Crypto3Zk.C112_accepted_equations",
    "Crypto3Zk.C112_formal_assumptions",
    "Crypto3Zk.C112_formal_prover"
   ],
   "note": "Extraction from a tree of transcripts (C112_tree_shows_valid_proofs) and its converse (C112_valid_proofs_answer); the equations are those of the verifier (C112_accepted_equations); the assumptions hold for provers that know representations, with coefficients that may depend on the other secrets (C112_formal_assumptions, C112_formal_prover); equations at random secrets are equations of polynomials (C112_formal_equations). That an efficient prover in the real groups knows representations is the algebraic group model and is an assumption."
  },
  {
   "property": "C113",
   "status": "proved",
   "theorems": [
    "Crypto3Zk.C113_groth16_malleable",
    "Crypto3Zk.C113_groth16_every_proof",
    "Crypto3Zk.C113_pghr13_malleable",
    "Crypto3Zk.C113_uscs_malleable"
   ],
   "note": "C113_groth16_malleable, C113_pghr13_malleable, C113_uscs_malleable; C113_groth16_every_proof. The functions that change the proofs are in Verif/Spec/Malleability.lean and use public values only. The wish that an accepted new proof shows knowledge of a witness is false for these arguments; for the Groth-Maller argument see C114."
  },
  {
   "property": "C114",
   "status": "partial",
   "theorems": [
    "Crypto3Zk.C114_simulation_extractable_partial",
    "Crypto3Zk.C114_adaptive_provers_partial"
   ],
   "note": "C114_simulation_extractable_partial (coefficients and input fixed before the secrets are drawn) and C114_adaptive_provers_partial (coefficients and inputs that depend on the keys and the seen proofs: a witness, a copy, or secrets in a small set determined by the coefficients). At least one public input is assumed, and odd characteristic. Missing: provers that are not algebraic, and that the secrets cannot be confined to the small set, which is the computational assumption."
  },
  {
   "property": "C115",
   "status": "partial",
   "theorems": [
    "Crypto3Zk.C115_only_changed_copies_partial",
    "Crypto3Zk.C115_other_inputs_partial",
    "Crypto3Zk.C115_adaptive_provers_partial"
   ],
   "note": "C115_only_changed_copies_partial (coefficients and input fixed before the secrets are drawn), C115_other_inputs_partial (no proof for the input was seen) and C115_adaptive_provers_partial (coefficients and inputs that depend on the keys and the seen proofs: a witness, a changed copy, or secrets in a small set determined by the coefficients). Missing: provers that are not algebraic, and that the secrets cannot be confined to the small set, which is the computational assumption."
  },
  {
   "property": "C116",
   "status": "proved",
   "theorems": [
    "Crypto3Zk.C116_challenge_of_history",
    "Crypto3Zk.C116_history_determines",
    "Crypto3Zk.C116_challenge_is_digest",
    "Crypto3Zk.C116_binding",
    "Crypto3Zk.C116_setup_draws"
   ],
   "note": "C116_challenge_of_history: the evaluation point of a proof that gets a verdict is drawn after exactly the specified history, and all commitments are there. C116_setup_draws: the hypothesis on the scheme holds for LPC (one challenge); for the KZG schemes it holds by definition. C116_challenge_is_digest and C116_binding: with the library's transcript the point is the digest of the chain of these messages, and equal digests mean equal keys and commitments, or a collision. C116_history_determines is the part without a hash function. For builds with assertions; without them see C66_release_forgery."
  },
  {
   "property": "C117",
   "status": "partial",
   "theorems": [
    "Crypto3Zk.C117_lpc_forgery",
    "Crypto3Zk.C117_few_challenges",
    "Crypto3Zk.C117_example"
   ],
   "note": "The property is false. Proved: C117_lpc_forgery gives an accepted proof for every circuit (in which no part of the lookups is empty), every table, and its public inputs, under stated conditions on three challenges (C117_few_challenges: at most 2^N of the values of the first one and one of the second are excluded); C117_example is a run in which the public input cannot be satisfied. What does hold is C66, which assumes that the claims are those of the committed polynomials."
  }
 ]
}