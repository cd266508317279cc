{
 "claims": [
  {
   "property": "C01",
   "status": "proved",
   "theorems": [
    "Verif.Props.C01_sub_to_ind",
    "Verif.Props.C01_symmetric",
    "Verif.Props.C01_equal_raises",
    "Verif.Props.C01_injective"
   ],
   "note": ""
  },
  {
   "property": "C02",
   "status": "proved",
   "theorems": [
    "Verif.Props.C02_ind_to_sub_then_back",
    "Verif.Props.C02_back_then_ind_to_sub",
    "Verif.Props.C02_out_of_range"
   ],
   "note": ""
  },
  {
   "property": "C03",
   "status": "proved",
   "theorems": [
    "Verif.Props.C03_combinations",
    "Verif.Props.C03_unravel_index",
    "Verif.Props.C03_rejects",
    "Verif.Props.C03_agrees_with_sub_to_ind"
   ],
   "note": ""
  },
  {
   "property": "C04",
   "status": "proved",
   "theorems": [
    "Verif.Props.C04_bin_states",
    "Verif.Props.C04_bin_states_sym",
    "Verif.Props.C04_xbin_states",
    "Verif.Props.C04_xbin_states_all",
    "Verif.Props.C04_errors",
    "Verif.Props.C04_zero_spins"
   ],
   "note": ""
  },
  {
   "property": "C05",
   "status": "partial",
   "theorems": [
    "Verif.Props.C05_base_repr_partial",
    "Verif.Props.C05_positional_leading",
    "Verif.Props.C05_wrong_letters",
    "Verif.Props.C05_wrong_for_all_large_bases",
    "Verif.Props.C05_digits_all_bases",
    "Verif.Props.C05_bad_base",
    "Verif.Props.C05_overestimate_leading_zero"
   ],
   "note": "False for bases 19 to 36: the digit alphabet has I and J exchanged (C05_wrong_letters, C05_wrong_for_all_large_bases). Proved for the other bases, and for all bases up to that exchange."
  },
  {
   "property": "C06",
   "status": "proved",
   "theorems": [
    "Verif.Props.C06_xpotts_states",
    "Verif.Props.C06_errors"
   ],
   "note": ""
  },
  {
   "property": "C07",
   "status": "proved",
   "theorems": [
    "Verif.Props.C07_means",
    "Verif.Props.C07_array_weights",
    "Verif.Props.C07_scalar_weight",
    "Verif.Props.C07_tuple_weights",
    "Verif.Props.C07_bad_weights_raise",
    "Verif.Props.C07_subtract_mean",
    "Verif.Props.C07_concat"
   ],
   "note": ""
  },
  {
   "property": "C08",
   "status": "partial",
   "theorems": [
    "Verif.Props.C08_exclude_empty",
    "Verif.Props.C08_laplace_partial",
    "Verif.Props.C08_laplace_alone_ignored",
    "Verif.Props.C08_laplace_alone_witness",
    "Verif.Props.C08_bad_entries_raise"
   ],
   "note": "laplace_count given without exclude_empty has no effect (C08_laplace_alone_ignored, C08_laplace_alone_witness); the rest is proved."
  },
  {
   "property": "C09",
   "status": "partial",
   "theorems": [
    "Verif.Props.C09_weighted",
    "Verif.Props.C09_default_weights",
    "Verif.Props.C09_means_partial",
    "Verif.Props.C09_agrees_with_pair_corr",
    "Verif.Props.C09_exclude_empty_ignored",
    "Verif.Props.C09_exclude_empty_witness",
    "Verif.Props.C09_bad_weights_raise"
   ],
   "note": "exclude_empty has no effect, its results are overwritten (C09_exclude_empty_ignored, C09_exclude_empty_witness); the rest is proved."
  },
  {
   "property": "C10",
   "status": "proved",
   "theorems": [
    "Verif.Props.C10_to11_moments",
    "Verif.Props.C10_to01_moments",
    "Verif.Props.C10_11_then_01",
    "Verif.Props.C10_01_then_11",
    "Verif.Props.C10_raises",
    "Verif.Props.C10_concat"
   ],
   "note": ""
  },
  {
   "property": "C11",
   "status": "proved",
   "theorems": [
    "Verif.Props.C11_to01_energy",
    "Verif.Props.C11_to11_energy",
    "Verif.Props.C11_probabilities",
    "Verif.Props.C11_matrix_form",
    "Verif.Props.C11_asymmetric_raises",
    "Verif.Props.C11_other_raises"
   ],
   "note": ""
  },
  {
   "property": "C12",
   "status": "proved",
   "theorems": [
    "Verif.Props.C12_01_then_11",
    "Verif.Props.C12_11_then_01",
    "Verif.Props.C12_concat"
   ],
   "note": ""
  },
  {
   "property": "C13",
   "status": "proved",
   "theorems": [
    "Verif.Props.C13_to01_energy",
    "Verif.Props.C13_to11_energy",
    "Verif.Props.C13_probabilities",
    "Verif.Props.C13_other_raises",
    "Verif.Props.C13_empty_raises"
   ],
   "note": ""
  },
  {
   "property": "C14",
   "status": "proved",
   "theorems": [
    "Verif.Props.C14_coefficients_unique",
    "Verif.Props.C14_01_then_11",
    "Verif.Props.C14_11_then_01",
    "Verif.Props.C14_agrees_with_convert_params"
   ],
   "note": ""
  },
  {
   "property": "C15",
   "status": "partial",
   "theorems": [
    "Verif.Props.C15_undoes_concat",
    "Verif.Props.C15_of_converted",
    "Verif.Props.C15_terminates_partial",
    "Verif.Props.C15_diverges",
    "Verif.Props.C15_keeps_entries"
   ],
   "note": "split_concat_params undoes concatenation (proved), but it does not terminate on vectors with more than 2^n-1 entries (C15_diverges); C15_terminates_partial gives the exact termination domain."
  },
  {
   "property": "C16",
   "status": "partial",
   "theorems": [
    "Verif.Props.C16_vec2mat",
    "Verif.Props.C16_vec2mat_separate",
    "Verif.Props.C16_mat2vec",
    "Verif.Props.C16_mat2vec_asymmetric_raises",
    "Verif.Props.C16_vec_mat_vec",
    "Verif.Props.C16_mat_vec_mat",
    "Verif.Props.C16_malformed_raises_partial",
    "Verif.Props.C16_separate_accepts_malformed",
    "Verif.Props.C16_separate_malformed_witness"
   ],
   "note": "Round trips proved. Rejection of malformed lengths is proved without separate_fields and is false with separate_fields=True (C16_separate_accepts_malformed)."
  },
  {
   "property": "C17",
   "status": "proved",
   "theorems": [
    "Verif.Props.C17_replace_diag",
    "Verif.Props.C17_zero_diag",
    "Verif.Props.C17_wrong_shape_raises"
   ],
   "note": ""
  },
  {
   "property": "C18",
   "status": "proved",
   "theorems": [
    "Verif.Props.C18_empirical",
    "Verif.Props.C18_counts",
    "Verif.Props.C18_given_states",
    "Verif.Props.C18_default_weights",
    "Verif.Props.C18_no_match_nan"
   ],
   "note": ""
  },
  {
   "property": "C19",
   "status": "proved",
   "theorems": [
    "Verif.Props.C19_calc_e_is_energy",
    "Verif.Props.C19_calc_observables",
    "Verif.Props.C19_calc_e_eq_neg_dot",
    "Verif.Props.C19_rows",
    "Verif.Props.C19_sym"
   ],
   "note": ""
  },
  {
   "property": "C20",
   "status": "proved",
   "theorems": [
    "Verif.Props.C20_triplet_observables",
    "Verif.Props.C20_triplet_energy",
    "Verif.Props.C20_potts_observables",
    "Verif.Props.C20_potts_energy",
    "Verif.Props.C20_wrong_length_raises",
    "Verif.Props.C20_ternary_out_of_range"
   ],
   "note": ""
  },
  {
   "property": "C21",
   "status": "proved",
   "theorems": [
    "Verif.Props.C21_local_term",
    "Verif.Props.C21_flip",
    "Verif.Props.C21_positions"
   ],
   "note": ""
  },
  {
   "property": "C22",
   "status": "proved",
   "theorems": [
    "Verif.Props.C22_energy_differences",
    "Verif.Props.C22_positions",
    "Verif.Props.C22_bad_state_raises"
   ],
   "note": ""
  },
  {
   "property": "C23",
   "status": "proved",
   "theorems": [
    "Verif.Props.C23_reweighted_mean",
    "Verif.Props.C23_range",
    "Verif.Props.C23_zero_change",
    "Verif.Props.C23_exact",
    "Verif.Props.C23_empty_raises",
    "Verif.Props.C23_bad_entries_raise",
    "Verif.Props.C23_potts"
   ],
   "note": ""
  },
  {
   "property": "C24",
   "status": "proved",
   "theorems": [
    "Verif.Props.C24_adj",
    "Verif.Props.C24_adj_sym",
    "Verif.Props.C24_flips_valid",
    "Verif.Props.C24_random",
    "Verif.Props.C24_ends",
    "Verif.Props.C24_no_spins_diverges"
   ],
   "note": ""
  },
  {
   "property": "C25",
   "status": "proved",
   "theorems": [
    "Verif.Props.C25_difference",
    "Verif.Props.C25_values",
    "Verif.Props.C25_derivative"
   ],
   "note": ""
  },
  {
   "property": "C26",
   "status": "partial",
   "theorems": [
    "Verif.Props.C26_bins_partition_partial",
    "Verif.Props.C26_columns_follow_bins",
    "Verif.Props.C26_merges_most_similar",
    "Verif.Props.C26_too_many_rounds_raise",
    "Verif.Props.C26_negative_fails"
   ],
   "note": "False of the code in general: with non-positive similarities the zero diagonal wins the argmax (C26_negative_fails). Proved for all positive similarities."
  },
  {
   "property": "C27",
   "status": "proved",
   "theorems": [
    "Verif.Props.C27_signed",
    "Verif.Props.C27_plain",
    "Verif.Props.C27_unit_coeffs",
    "Verif.Props.C27_shift",
    "Verif.Props.C27_raises"
   ],
   "note": ""
  },
  {
   "property": "C28",
   "status": "proved",
   "theorems": [
    "Verif.Props.C28_any_constraints",
    "Verif.Props.C28_pairwise",
    "Verif.Props.C28_normalised",
    "Verif.Props.C28_triplet",
    "Verif.Props.C28_triplet_small"
   ],
   "note": ""
  },
  {
   "property": "C29",
   "status": "proved",
   "theorems": [
    "Verif.Props.C29_any_constraints",
    "Verif.Props.C29_pairwise",
    "Verif.Props.C29_triplet"
   ],
   "note": ""
  },
  {
   "property": "C30",
   "status": "proved",
   "theorems": [
    "Verif.Props.C30_bases_agree"
   ],
   "note": ""
  },
  {
   "property": "C31",
   "status": "partial",
   "theorems": [
    "Verif.Props.C31_probabilities_partial",
    "Verif.Props.C31_normalised_partial",
    "Verif.Props.C31_observables_partial",
    "Verif.Props.C31_observables_range_partial",
    "Verif.Props.C31_wrong_length_raises",
    "Verif.Props.C31_size_raises",
    "Verif.Props.C31_more_states_fail"
   ],
   "note": "Proved for up to ten states per spin; for 11 to 36 states the generated text is rejected with ValueError (C31_more_states_fail)."
  },
  {
   "property": "C32",
   "status": "partial",
   "theorems": [
    "Verif.Props.C32_get_3idx",
    "Verif.Props.C32_get_3idx_zero",
    "Verif.Props.C32_get_nidx_partial",
    "Verif.Props.C32_get_nidx_fails"
   ],
   "note": "get_3idx proved in full; get_nidx(k,n) raises NameError for every k<n (C32_get_nidx_fails), so only k=n is provable."
  },
  {
   "property": "C33",
   "status": "partial",
   "theorems": [
    "Verif.Props.C33_list",
    "Verif.Props.C33_list_rejects",
    "Verif.Props.C33_list_wrong_parts",
    "Verif.Props.C33_vector",
    "Verif.Props.C33_vector_rejects",
    "Verif.Props.C33_matrix_partial",
    "Verif.Props.C33_formats_agree_partial",
    "Verif.Props.C33_two_by_two_fails",
    "Verif.Props.C33_matrix_rejects",
    "Verif.Props.C33_int",
    "Verif.Props.C33_distribution"
   ],
   "note": "Proved for lists, vectors and matrices except 2 by 2 matrices, which are mistaken for a list [h,J] and rejected (C33_two_by_two_fails)."
  },
  {
   "property": "C34",
   "status": "proved",
   "theorems": [
    "Verif.Props.C34_triplet",
    "Verif.Props.C34_triplet_accepts",
    "Verif.Props.C34_triplet_vector_raises",
    "Verif.Props.C34_potts_vector",
    "Verif.Props.C34_potts_vector_rejects",
    "Verif.Props.C34_potts_list",
    "Verif.Props.C34_potts_formats_agree"
   ],
   "note": ""
  },
  {
   "property": "C35",
   "status": "partial",
   "theorems": [
    "Verif.Props.C35_fill_in_partial",
    "Verif.Props.C35_single_parameter_fails"
   ],
   "note": "Proved for two or more positions, or the last one alone; any other single position raises UnboundLocalError (C35_single_parameter_fails)."
  },
  {
   "property": "C36",
   "status": "proved",
   "theorems": [
    "Verif.Props.C36_unique",
    "Verif.Props.C36_unique_all_orders",
    "Verif.Props.C36_norm_zero",
    "Verif.Props.C36_solve",
    "Verif.Props.C36_start",
    "Verif.Props.C36_sparse",
    "Verif.Props.C36_sparse_solve",
    "Verif.Props.C36_size_only_raises",
    "Verif.Props.C36_sparse_default_raises",
    "Verif.Props.C36_potts_distribution"
   ],
   "note": ""
  },
  {
   "property": "C37",
   "status": "proved",
   "theorems": [
    "Verif.Props.C37_max_entropy",
    "Verif.Props.C37_pairwise",
    "Verif.Props.C37_entropy_value"
   ],
   "note": ""
  },
  {
   "property": "C38",
   "status": "proved",
   "theorems": [
    "Verif.Props.C38_K",
    "Verif.Props.C38_K_gradient",
    "Verif.Props.C38_ising_gradient",
    "Verif.Props.C38_logK"
   ],
   "note": ""
  },
  {
   "property": "C39",
   "status": "partial",
   "theorems": [
    "Verif.Props.C39_logK_gradient_partial",
    "Verif.Props.C39_gradient_wrong",
    "Verif.Props.C39_one_parameter_raises",
    "Verif.Props.C39_constructor"
   ],
   "note": "False of the code: every component of the logK gradient is off by -log(number of samples) (C39_gradient_wrong), and a single parameter raises (C39_one_parameter_raises). Proved: the exact value returned, which is the gradient when there is one data point."
  },
  {
   "property": "C40",
   "status": "proved",
   "theorems": [
    "Verif.Props.C40_conditional_objective",
    "Verif.Props.C40_every_argument",
    "Verif.Props.C40_no_memory",
    "Verif.Props.C40_total_objective"
   ],
   "note": ""
  },
  {
   "property": "C41",
   "status": "proved",
   "theorems": [
    "Verif.Props.C41_objective",
    "Verif.Props.C41_no_cost",
    "Verif.Props.C41_one_state_raises"
   ],
   "note": ""
  },
  {
   "property": "C42",
   "status": "partial",
   "theorems": [
    "Verif.Props.C42_start_partial",
    "Verif.Props.C42_right_iff",
    "Verif.Props.C42_first_spins",
    "Verif.Props.C42_zero_guess",
    "Verif.Props.C42_wrong_order"
   ],
   "note": "The start vector is proved exactly; it has the order of the objective iff the couplings of the spin to all spins before it are equal (so for r<=1 and for the default guess). For r>=2 it is permuted in general: C42_wrong_order."
  },
  {
   "property": "C43",
   "status": "proved",
   "theorems": [
    "Verif.Props.C43_learn",
    "Verif.Props.C43_path",
    "Verif.Props.C43_bounded_change",
    "Verif.Props.C43_terminates",
    "Verif.Props.C43_fixed_point",
    "Verif.Props.C43_defaults"
   ],
   "note": ""
  },
  {
   "property": "C44",
   "status": "proved",
   "theorems": [
    "Verif.Props.C44_solve",
    "Verif.Props.C44_trace",
    "Verif.Props.C44_returns",
    "Verif.Props.C44_zero_tolerance_ignored",
    "Verif.Props.C44_settings_check"
   ],
   "note": ""
  },
  {
   "property": "C45",
   "status": "proved",
   "theorems": [
    "Verif.Props.C45_every_round",
    "Verif.Props.C45_solve",
    "Verif.Props.C45_learn",
    "Verif.Props.C45_trace",
    "Verif.Props.C45_default_constraints_raise"
   ],
   "note": ""
  },
  {
   "property": "C46",
   "status": "proved",
   "theorems": [
    "Verif.Props.C46_subsets",
    "Verif.Props.C46_other",
    "Verif.Props.C46_sorted",
    "Verif.Props.C46_whole_unsorted"
   ],
   "note": "subsets is modelled branch by branch; also: sort=True is ignored when the size is that of the whole list (C46_whole_unsorted)."
  },
  {
   "property": "C47",
   "status": "partial",
   "theorems": [
    "Verif.Props.C47_telescopes_partial",
    "Verif.Props.C47_unique",
    "Verif.Props.C47_reference",
    "Verif.Props.C47_history_matters"
   ],
   "note": "Telescoping and independence of the evaluation history are proved for every entropy function of the set of spins. False as stated for the entropy the code uses, which depends on the order of the spins: C47_history_matters; meanFieldRef=True raises NameError (C47_reference)."
  },
  {
   "property": "C48",
   "status": "partial",
   "theorems": [
    "Verif.Props.C48_order_partial",
    "Verif.Props.C48_increasing",
    "Verif.Props.C48_order_matters"
   ],
   "note": "Proved for symmetric co-occurrence matrices and for spins listed in increasing order. False for the upper-triangular matrices the code builds: C48_order_matters."
  },
  {
   "property": "C49",
   "status": "partial",
   "theorems": [
    "Verif.Props.C49_undefined_log",
    "Verif.Props.C49_one_partial",
    "Verif.Props.C49_two_partial",
    "Verif.Props.C49_two_decreasing"
   ],
   "note": "As written the branch raises NameError because log is not defined (C49_undefined_log). If log were the natural logarithm the one- and two-spin results are exact for spins in increasing order; for a decreasing pair the two fields come out exchanged (C49_two_decreasing)."
  },
  {
   "property": "C50",
   "status": "proved",
   "theorems": [
    "Verif.Props.C50_accept",
    "Verif.Props.C50_detailed_balance_site",
    "Verif.Props.C50_detailed_balance",
    "Verif.Props.C50_invariant",
    "Verif.Props.C50_sample",
    "Verif.Props.C50_jit",
    "Verif.Props.C50_jit_diagonal"
   ],
   "note": "Acceptance probability, detailed balance (one site, random site), invariance under any number of updates and for every row of generate_sample_py; _jit_sample_metropolis makes the same random update for symmetric J with zero diagonal (and not with a diagonal: C50_jit_diagonal). Ideal random numbers assumed for the distributional statements."
  },
  {
   "property": "C51",
   "status": "proved",
   "theorems": [
    "Verif.Props.C51_sample",
    "Verif.Props.C51_shape",
    "Verif.Props.C51_after_parallel",
    "Verif.Props.C51_kept"
   ],
   "note": "For every stream of random numbers and every way of choosing the first state. C51_after_parallel: the call raises if several states kept from a parallel run match sample_size; C51_kept: the kept state is used only for sample_size = 1."
  },
  {
   "property": "C52",
   "status": "proved",
   "theorems": [
    "Verif.Props.C52_boost_count",
    "Verif.Props.C52_boost_rows",
    "Verif.Props.C52_count",
    "Verif.Props.C52_rows"
   ],
   "note": "Python and compiled parallel samplers: count, shape, and distribution of every row. Process seeds are treated as independent draws."
  },
  {
   "property": "C53",
   "status": "partial",
   "theorems": [
    "Verif.Props.C53_burn_in_zero",
    "Verif.Props.C53_burn_in_default",
    "Verif.Props.C53_history_partial"
   ],
   "note": "burn_in=0 means n_iters (C53_burn_in_zero refutes the claim); the history has one extra entry 0 at the end."
  },
  {
   "property": "C54",
   "status": "proved",
   "theorems": [
    "Verif.Props.C54_calc_e",
    "Verif.Props.C54_python",
    "Verif.Props.C54_update",
    "Verif.Props.C54_move",
    "Verif.Props.C54_run",
    "Verif.Props.C54_rows",
    "Verif.Props.C54_invariant",
    "Verif.Props.C54_length"
   ],
   "note": "compiled with or without assertions; double arithmetic is modelled by real numbers"
  },
  {
   "property": "C55",
   "status": "proved",
   "theorems": [
    "Verif.Props.C55_weave",
    "Verif.Props.C55_energy",
    "Verif.Props.C55_python_run",
    "Verif.Props.C55_python_rows",
    "Verif.Props.C55_python_conditional",
    "Verif.Props.C55_initial_ignored",
    "Verif.Props.C55_checks",
    "Verif.Props.C55_python_parallel",
    "Verif.Props.C55_jit_wrong",
    "Verif.Props.C55_boost_sites",
    "Verif.Props.C55_boost_rows",
    "Verif.Props.C55_boost_parallel",
    "Verif.Props.C55_boost_conditional"
   ],
   "note": "sample_size >= 1 and at least one free spin (otherwise the code raises). The unused jit version define_jit_cond_calc_e is shown wrong (C55_jit_wrong)."
  },
  {
   "property": "C56",
   "status": "proved",
   "theorems": [
    "Verif.Props.C56_cpp_calc_e",
    "Verif.Props.C56_cpp_update",
    "Verif.Props.C56_cpp_move",
    "Verif.Props.C56_cpp_invariant",
    "Verif.Props.C56_vector_constructor_wrong",
    "Verif.Props.C56_accept",
    "Verif.Props.C56_detailed_balance",
    "Verif.Props.C56_sample",
    "Verif.Props.C56_invariant"
   ],
   "note": "Python and compiled update; a constructor of the C++ class not reachable from Python is shown to build a wrong coupling matrix"
  },
  {
   "property": "C57",
   "status": "proved",
   "theorems": [
    "Verif.Props.C57_exchanges",
    "Verif.Props.C57_accept",
    "Verif.Props.C57_round",
    "Verif.Props.C57_invariant",
    "Verif.Props.C57_sample_rows",
    "Verif.Props.C57_sample_joint",
    "Verif.Props.C57_sample_row",
    "Verif.Props.C57_constructor",
    "Verif.Props.C57_constructor_rejects",
    "Verif.Props.C57_ising_linear"
   ],
   "note": "for energies linear in the parameters (shown for the Ising energy) and nonzero inverse temperatures; draws of pool processes are taken as draws of one program"
  },
  {
   "property": "C58",
   "status": "partial",
   "theorems": [
    "Verif.Props.C58_ordered_partial",
    "Verif.Props.C58_gaps",
    "Verif.Props.C58_positive_iff",
    "Verif.Props.C58_fixed_iff",
    "Verif.Props.C58_not_positive",
    "Verif.Props.C58_rejects"
   ],
   "note": "order, length and the largest inverse temperature are kept; positivity is false (C58_not_positive); C58_positive_iff gives the exact condition"
  },
  {
   "property": "C59",
   "status": "proved",
   "theorems": [
    "Verif.Props.C59_components",
    "Verif.Props.C59_same_cluster",
    "Verif.Props.C59_needs_symmetry",
    "Verif.Props.C59_pairwise_prod",
    "Verif.Props.C59_sample_bonds"
   ],
   "note": "Set.pop and the iteration order of sets are arbitrary (oracles). C59_needs_symmetry shows the symmetry hypothesis is needed."
  },
  {
   "property": "C60",
   "status": "proved",
   "theorems": [
    "Verif.Props.C60_constructor",
    "Verif.Props.C60_constructor_rejects",
    "Verif.Props.C60_cluster",
    "Verif.Props.C60_step",
    "Verif.Props.C60_site_zero_ignored",
    "Verif.Props.C60_step_raises",
    "Verif.Props.C60_sample_rows"
   ],
   "note": "Findings: first site 0 is ignored (C60_site_zero_ignored), coupling matrices are rejected except for 3 spins (C60_constructor_rejects)."
  },
  {
   "property": "C61",
   "status": "proved",
   "theorems": [
    "Verif.Props.C61_energy",
    "Verif.Props.C61_gradient",
    "Verif.Props.C61_gradient_couplings"
   ],
   "note": "Exact real arithmetic; reads out of range (not checked by the compiled code) excluded by the length hypotheses."
  },
  {
   "property": "C62",
   "status": "proved",
   "theorems": [
    "Verif.Props.C62_position",
    "Verif.Props.C62_bijection",
    "Verif.Props.C62_unflatten",
    "Verif.Props.C62_flatten_unflatten",
    "Verif.Props.C62_symmetrize",
    "Verif.Props.C62_offDiagMult",
    "Verif.Props.C62_without_diagonal"
   ],
   "note": ""
  },
  {
   "property": "C63",
   "status": "proved",
   "theorems": [
    "Verif.Props.C63_moments",
    "Verif.Props.C63_default",
    "Verif.Props.C63_too_large"
   ],
   "note": ""
  },
  {
   "property": "C64",
   "status": "proved",
   "theorems": [
    "Verif.Props.C64_cluster",
    "Verif.Props.C64_cluster_error",
    "Verif.Props.C64_embed",
    "Verif.Props.C64_restrict_embed",
    "Verif.Props.C64_symmetrize"
   ],
   "note": ""
  },
  {
   "property": "C65",
   "status": "proved",
   "theorems": [
    "Verif.Props.C65_bayesian",
    "Verif.Props.C65_stdevs"
   ],
   "note": ""
  },
  {
   "property": "C66",
   "status": "proved",
   "theorems": [
    "Verif.Props.C66_cooccurrence",
    "Verif.Props.C66_fourth"
   ],
   "note": ""
  },
  {
   "property": "C67",
   "status": "partial",
   "theorems": [
    "Verif.Props.C67_positions",
    "Verif.Props.C67_bracket_partial",
    "Verif.Props.C67_strict_unique",
    "Verif.Props.C67_tie",
    "Verif.Props.C67_raises"
   ],
   "note": "The bracket is strict on the left but only <= on the right when the minimum is tied (C67_tie); strict when the minimum is unique."
  },
  {
   "property": "C68",
   "status": "partial",
   "theorems": [
    "Verif.Props.C68_returned_partial",
    "Verif.Props.C68_returned_wrong",
    "Verif.Props.C68_sample_energy",
    "Verif.Props.C68_samples_inverted",
    "Verif.Props.C68_residual_constant",
    "Verif.Props.C68_solve",
    "Verif.Props.C68_single_spin"
   ],
   "note": "False of the code: the returned parameters have twice the energy of the mean-field matrix (C68_returned_wrong, C68_single_spin), and the samples used in the search come from another model (C68_samples_inverted)."
  },
  {
   "property": "C69",
   "status": "proved",
   "theorems": [
    "Verif.Props.C69_neighbor_dE",
    "Verif.Props.C69_find_basin",
    "Verif.Props.C69_at_minimum",
    "Verif.Props.C69_wrong_size"
   ],
   "note": "find_basin ends at a local minimum along single flips of greatest descent; wrong sizes raise."
  },
  {
   "property": "C70",
   "status": "partial",
   "theorems": [
    "Verif.Props.C70_flip_partial",
    "Verif.Props.C70_sweep",
    "Verif.Props.C70_iterations",
    "Verif.Props.C70_random_count",
    "Verif.Props.C70_empty",
    "Verif.Props.C70_lattice",
    "Verif.Props.C70_invariant_partial",
    "Verif.Props.C70_field_wrong",
    "Verif.Props.C70_narrow_wrong",
    "Verif.Props.C70_fields_refused",
    "Verif.Props.C70_integer_field",
    "Verif.Props.C70_constant_field",
    "Verif.Props.C70_init",
    "Verif.Props.C70_init_uniform"
   ],
   "note": "Sweeps visit each site once, detailed balance and invariance hold for at least two rows and columns, but for the reversed field: a positive field favours negative spins (C70_field_wrong); a single row or column breaks detailed balance (C70_narrow_wrong)."
  },
  {
   "property": "C71",
   "status": "partial",
   "theorems": [
    "Verif.Props.C71_block_sums",
    "Verif.Props.C71_majority_partial",
    "Verif.Props.C71_tie",
    "Verif.Props.C71_raises_wrong",
    "Verif.Props.C71_wide_wrong",
    "Verif.Props.C71_wide_witness",
    "Verif.Props.C71_overflow_wrong",
    "Verif.Props.C71_zero"
   ],
   "note": "Majority rule holds when the numbers of block rows and columns agree (or no columns are left over and there are no more columns) and factor <= 181; other shapes raise or silently repeat the first block, larger factors overflow 16 bits."
  },
  {
   "property": "C72",
   "status": "proved",
   "theorems": [
    "Verif.Props.C72_logp",
    "Verif.Props.C72_bad_values_raise",
    "Verif.Props.C72_one_dimensional_fails"
   ],
   "note": ""
  },
  {
   "property": "C73",
   "status": "proved",
   "theorems": [
    "Verif.Props.C73_sample_constraints"
   ],
   "note": ""
  },
  {
   "property": "C74",
   "status": "partial",
   "theorems": [
    "Verif.Props.C74_not_all_connected_fails",
    "Verif.Props.C74_objective",
    "Verif.Props.C74_start"
   ],
   "note": "Proved for all_connected=True, the default; all_connected=False always raises NameError (C74_not_all_connected_fails)."
  },
  {
   "property": "C75",
   "status": "proved",
   "theorems": [
    "Verif.Props.C75_consistent",
    "Verif.Props.C75_solve"
   ],
   "note": ""
  },
  {
   "property": "C76",
   "status": "proved",
   "theorems": [
    "Verif.Props.C76_assembled",
    "Verif.Props.C76_round_trip"
   ],
   "note": ""
  },
  {
   "property": "C77",
   "status": "proved",
   "theorems": [
    "Verif.Props.C77_conditional",
    "Verif.Props.C77_solve_recovers",
    "Verif.Props.C77_general",
    "Verif.Props.C77_potts"
   ],
   "note": ""
  },
  {
   "property": "C78",
   "status": "proved",
   "theorems": [
    "Verif.Props.C78_residual",
    "Verif.Props.C78_fit",
    "Verif.Props.C78_exact",
    "Verif.Props.C78_start",
    "Verif.Props.C78_prior"
   ],
   "note": ""
  },
  {
   "property": "C79",
   "status": "proved",
   "theorems": [
    "Verif.Props.C79_entropy"
   ],
   "note": ""
  },
  {
   "property": "C80",
   "status": "proved",
   "theorems": [
    "Verif.Props.C80_independent",
    "Verif.Props.C80_entropy"
   ],
   "note": "For the model of Sindependent over the reals."
  },
  {
   "property": "C81",
   "status": "proved",
   "theorems": [
    "Verif.Props.C81_selection",
    "Verif.Props.C81_exact",
    "Verif.Props.C81_single_raises",
    "Verif.Props.C81_reference",
    "Verif.Props.C81_unsorted"
   ],
   "note": "Selection rule, exactness when all clusters are kept, KeyError for one spin, NameError for meanFieldRef; for a cluster given in another order smaller clusters may be evaluated unsorted (C81_unsorted)."
  },
  {
   "property": "C82",
   "status": "proved",
   "theorems": [
    "Verif.Props.C82_parameters",
    "Verif.Props.C82_solve"
   ],
   "note": "End to end from the sample; the least-squares routine is a parameter assumed to find zero residuals when there are any."
  },
  {
   "property": "C83",
   "status": "proved",
   "theorems": [
    "Verif.Props.C83_pairwise_model",
    "Verif.Props.C83_sample"
   ],
   "note": "Existence by maximising the concave likelihood, uniqueness by the Gibbs inequality."
  },
  {
   "property": "C84",
   "status": "partial",
   "theorems": [
    "Verif.Props.C84_sample_aborts",
    "Verif.Props.C84_samples_ising",
    "Verif.Props.C84_parallel_partial"
   ],
   "note": "False of generate_sample, which uses the Ising sampler (C84_sample_aborts, C84_samples_ising); proved of the parallel method."
  },
  {
   "property": "C85",
   "status": "proved",
   "theorems": [
    "Verif.Props.C85_detailed_balance",
    "Verif.Props.C85_step_invariant",
    "Verif.Props.C85_sample_invariant",
    "Verif.Props.C85_single_flips"
   ],
   "note": "Exact real arithmetic, ideal random numbers."
  },
  {
   "property": "C86",
   "status": "proved",
   "theorems": [
    "Verif.Props.C86_angles",
    "Verif.Props.C86_pole",
    "Verif.Props.C86_nearby",
    "Verif.Props.C86_sigma_zero"
   ],
   "note": "Random numbers are parameters. Findings: a vector along the z axis gives NaN (C86_pole), sigma 0 with several samples reads out of range (C86_sigma_zero)."
  },
  {
   "property": "C87",
   "status": "partial",
   "theorems": [
    "Verif.Props.C87_grad3d_partial",
    "Verif.Props.C87_azimuth_wrong"
   ],
   "note": "Column of polar angles proved; the column of azimuths lacks a factor sin(theta_i), C87_azimuth_wrong."
  },
  {
   "property": "C88",
   "status": "partial",
   "theorems": [
    "Verif.Props.C88_leapfrog_reversible",
    "Verif.Props.C88_energy_change",
    "Verif.Props.C88_accepted_partial",
    "Verif.Props.C88_decision_ignored",
    "Verif.Props.C88_rejected_kept"
   ],
   "note": "Leapfrog reversibility and accepted rounds proved; rejected proposals are kept because x, xnew and x0 are one array, C88_rejected_kept."
  },
  {
   "property": "C89",
   "status": "proved",
   "theorems": [
    "Verif.Props.C89_unique",
    "Verif.Props.C89_unregularised",
    "Verif.Props.C89_solution",
    "Verif.Props.C89_inverse_covariance",
    "Verif.Props.C89_independent",
    "Verif.Props.C89_entropy_le",
    "Verif.Props.C89_raises",
    "Verif.Props.C89_plain"
   ],
   "note": "scipy.linalg.eig is an oracle assumed to return orthonormal real eigenvectors of symmetric matrices."
  },
  {
   "property": "C90",
   "status": "proved",
   "theorems": [
    "Verif.Props.C90_given",
    "Verif.Props.C90_same_distribution",
    "Verif.Props.C90_correlations",
    "Verif.Props.C90_module",
    "Verif.Props.C90_defaults",
    "Verif.Props.C90_lists_raise",
    "Verif.Props.C90_sizes"
   ],
   "note": "For arrays and numbers. Python lists, which the docstring allows, raise AttributeError (C90_lists_raise)."
  },
  {
   "property": "C91",
   "status": "proved",
   "theorems": [
    "Verif.Props.C91_converges",
    "Verif.Props.C91_converges_potts3",
    "Verif.Props.C91_sample",
    "Verif.Props.C91_sample_potts3",
    "Verif.Props.C91_constant_energy",
    "Verif.Props.C91_constant_energy_wrong",
    "Verif.Props.C91_constant_energy_rows",
    "Verif.Props.C91_systematic",
    "Verif.Props.C91_systematic_frozen",
    "Verif.Props.C91_conditional",
    "Verif.Props.C91_conditional_boost",
    "Verif.Props.C91_conditional_boost_parallel",
    "Verif.Props.C91_boost",
    "Verif.Props.C91_boost_parallel",
    "Verif.Props.C91_boost_potts3",
    "Verif.Props.C91_parallel",
    "Verif.Props.C91_wolff",
    "Verif.Props.C91_wolff_zero"
   ],
   "note": "Ideal random numbers (expectation of the program). Converges iff the energy is not constant (C91_converges, C91_constant_energy_wrong); rows of generate_sample: C91_sample, C91_sample_potts3. Failures: C91_constant_energy_rows, C91_systematic, C91_systematic_frozen."
  },
  {
   "property": "C92",
   "status": "proved",
   "theorems": [
    "Verif.Props.C92_average",
    "Verif.Props.C92_probability",
    "Verif.Props.C92_average_potts3",
    "Verif.Props.C92_constant_energy_wrong",
    "Verif.Props.C92_conditional",
    "Verif.Props.C92_conditional_boost",
    "Verif.Props.C92_boost",
    "Verif.Props.C92_boost_parallel",
    "Verif.Props.C92_boost_potts3",
    "Verif.Props.C92_parallel",
    "Verif.Props.C92_wolff"
   ],
   "note": "Mean square O(1/rows), Chebyshev bound, Potts3; C92_constant_energy_wrong shows the failure for constant energy."
  },
  {
   "property": "C93",
   "status": "proved",
   "theorems": [
    "Verif.Props.C93_partition",
    "Verif.Props.C93_entropy",
    "Verif.Props.C93_means",
    "Verif.Props.C93_no_coupling"
   ],
   "note": "quad assumed exact on the integrands (QuadExact); scipy.integrate assumed importable."
  },
  {
   "property": "C94",
   "status": "proved",
   "theorems": [
    "Verif.Props.C94_independent",
    "Verif.Props.C94_multi_information"
   ],
   "note": "quad assumed exact on the integrands."
  },
  {
   "property": "C95",
   "status": "partial",
   "theorems": [
    "Verif.Props.C95_self_consistent",
    "Verif.Props.C95_unique",
    "Verif.Props.C95_several",
    "Verif.Props.C95_zero_temperature",
    "Verif.Props.C95_avgE_partial",
    "Verif.Props.C95_avgE_wrong",
    "Verif.Props.C95_dmdT_wrong",
    "Verif.Props.C95_susc_partial",
    "Verif.Props.C95_susc_wrong",
    "Verif.Props.C95_specificHeat_wrong",
    "Verif.Props.C95_specificHeat_negative"
   ],
   "note": "m is right; avgE, dmdT, susc and specificHeat are proved wrong (C95_avgE_wrong, C95_dmdT_wrong, C95_susc_wrong, C95_specificHeat_wrong, C95_specificHeat_negative); the cases in which avgE and susc are right are C95_avgE_partial and C95_susc_partial."
  },
  {
   "property": "C96",
   "status": "proved",
   "theorems": [
    "Verif.Props.C96_spectral_radius"
   ],
   "note": "eigvals assumed to return the roots of the characteristic polynomial."
  },
  {
   "property": "C97",
   "status": "partial",
   "theorems": [
    "Verif.Props.C97_entries_partial",
    "Verif.Props.C97_variance",
    "Verif.Props.C97_not_covariance",
    "Verif.Props.C97_pm_one_wrong"
   ],
   "note": "Entries computed for all flags; variance on the diagonal for 0/1 samples; off-diagonal entries and the diagonal for -1/1 samples are proved wrong."
  },
  {
   "property": "C98",
   "status": "partial",
   "theorems": [
    "Verif.Props.C98_conditional",
    "Verif.Props.C98_conditional_method",
    "Verif.Props.C98_gradient",
    "Verif.Props.C98_gradient_method",
    "Verif.Props.C98_hessian",
    "Verif.Props.C98_hessian_method",
    "Verif.Props.C98_hessian_passed_wrong",
    "Verif.Props.C98_total_raises",
    "Verif.Props.C98_total_partial",
    "Verif.Props.C98_total_wrong"
   ],
   "note": "Values and derivatives proved; the cached Hessian is too small (C98_hessian_passed_wrong), the sums over all spins are wrong (C98_total_wrong) or raise (C98_total_raises)"
  },
  {
   "property": "C99",
   "status": "proved",
   "theorems": [
    "Verif.Props.C99_pseudo_inverse",
    "Verif.Props.C99_pseudo_inverse_minimum",
    "Verif.Props.C99_pseudo_inverse_empty",
    "Verif.Props.C99_minSize_wrong",
    "Verif.Props.C99_deprecated",
    "Verif.Props.C99_deprecated_minimum",
    "Verif.Props.C99_deprecated_empty"
   ],
   "note": "Optimiser assumed to find a minimum; its existence is proved (C99_*_minimum). minSize >= n-1 is not identifiable (C99_minSize_wrong)"
  },
  {
   "property": "C100",
   "status": "proved",
   "theorems": [
    "Verif.Props.C100_any_constraints",
    "Verif.Props.C100_pairwise",
    "Verif.Props.C100_triplet",
    "Verif.Props.C100_shipped",
    "Verif.Props.C100_shipped_sym",
    "Verif.Props.C100_shipped_triplet"
   ],
   "note": "Text of the written file, Python's logical lines, the statements and their execution are modelled. Shipped files for 7 to 9 spins are not copied into the model (too large for kernel evaluation); they are covered only as output of the generator. high_prec files are not modelled."
  },
  {
   "property": "C101",
   "status": "proved",
   "theorems": [
    "Verif.Props.C101_constructor_raises",
    "Verif.Props.C101_parallel_raises",
    "Verif.Props.C101_step",
    "Verif.Props.C101_detailed_balance",
    "Verif.Props.C101_invariant",
    "Verif.Props.C101_rows",
    "Verif.Props.C101_rows_missing",
    "Verif.Props.C101_converges",
    "Verif.Props.C101_averages"
   ],
   "note": "Any fields and couplings, for all n >= 1; the order of Python sets and the element popped are arbitrary parameters. rand() is uniform."
  },
  {
   "property": "C102",
   "status": "proved",
   "theorems": [
    "Verif.Props.C102_needs_setup",
    "Verif.Props.C102_consistent",
    "Verif.Props.C102_calc",
    "Verif.Props.C102_no_equations",
    "Verif.Props.C102_setup",
    "Verif.Props.C102_setup_works",
    "Verif.Props.C102_length_changed",
    "Verif.Props.C102_method",
    "Verif.Props.C102_rows",
    "Verif.Props.C102_returns",
    "Verif.Props.C102_serial",
    "Verif.Props.C102_parallel",
    "Verif.Props.C102_potts3_serial",
    "Verif.Props.C102_kept"
   ],
   "note": "Objects reached by any sequence of constructor, set_multipliers, setup_sampler, set_rng and generate_sample (an exception ends the sequence). Exceptions to the convergence claim are stated and proved: compiled sequential Potts3 aborts, kept states of a parallel run raise, all parameters zero (C91)."
  },
  {
   "property": "C103",
   "status": "proved",
   "theorems": [
    "Verif.Props.C103_pair",
    "Verif.Props.C103_pair_ising",
    "Verif.Props.C103_refused",
    "Verif.Props.C103_rows",
    "Verif.Props.C103_serial",
    "Verif.Props.C103_parallel"
   ],
   "note": "Vectors and pairs of vectors; n computed exactly; options n_iters and burn_in."
  },
  {
   "property": "C104",
   "status": "partial",
   "theorems": [
    "Verif.Props.C104_text_partial",
    "Verif.Props.C104_wrong_length",
    "Verif.Props.C104_size_raises",
    "Verif.Props.C104_more_states_fail"
   ],
   "note": "The claim holds for two to ten states (C104_text_partial). For more it is false: C104_more_states_fail shows that writing raises and that the file left behind cannot be imported."
  },
  {
   "property": "C105",
   "status": "proved",
   "theorems": [
    "Verif.Props.C105_constructor",
    "Verif.Props.C105_refuses",
    "Verif.Props.C105_returns",
    "Verif.Props.C105_last_error",
    "Verif.Props.C105_converged",
    "Verif.Props.C105_limit",
    "Verif.Props.C105_usual_fits",
    "Verif.Props.C105_usual",
    "Verif.Props.C105_one_spin_wrong"
   ],
   "note": "Random numbers are independent and uniform; the restriction to parameters not all close to zero is needed: C105_one_spin_wrong. learn_params_kwargs and custom_convergence_f as in C44; generate_kwargs default. NaN do not occur for samples of spins."
  },
  {
   "property": "C106",
   "status": "partial",
   "theorems": [
    "Verif.Props.C106_converges",
    "Verif.Props.C106_sample",
    "Verif.Props.C106_average",
    "Verif.Props.C106_probability",
    "Verif.Props.C106_ising",
    "Verif.Props.C106_trapped",
    "Verif.Props.C106_iff",
    "Verif.Props.C106_stuck",
    "Verif.Props.C106_equal_couplings_wrong",
    "Verif.Props.C106_equal_couplings_not_connected"
   ],
   "note": "Convergence, law of large numbers and Chebyshev bound are proved under SweepsConnect, which is proved necessary (C106_iff) and sufficient, and is established for Ising models with non-cancelling fields/couplings. Partial because the sampler does not converge for all models: C106_equal_couplings_wrong is a family of counterexamples."
  },
  {
   "property": "C107",
   "status": "partial",
   "theorems": [
    "Verif.Props.C107_sample",
    "Verif.Props.C107_average",
    "Verif.Props.C107_probability",
    "Verif.Props.C107_trapped",
    "Verif.Props.C107_iff",
    "Verif.Props.C107_equal_couplings_wrong"
   ],
   "note": "As C106: convergence of every replica proved under SweepsConnect, which is necessary (C107_iff); the code is wrong for equal couplings and odd n (C107_equal_couplings_wrong). The spawned processes are modelled as sequential updates with independent random numbers (as in C57)."
  },
  {
   "property": "C108",
   "status": "proved",
   "theorems": [
    "Verif.Props.C108_returns",
    "Verif.Props.C108_maximum_likelihood",
    "Verif.Props.C108_exists_iff",
    "Verif.Props.C108_exists_iff_all_orders",
    "Verif.Props.C108_pair_missing",
    "Verif.Props.C108_full_support",
    "Verif.Props.C108_two_spins",
    "Verif.Props.C108_no_maximum",
    "Verif.Props.C108_silent_wrong",
    "Verif.Props.C108_bound",
    "Verif.Props.C108_no_equations"
   ],
   "note": "scipy's root and minimize are parameters (they evaluate the function at the starting point first); warnings are not modelled"
  },
  {
   "property": "C109",
   "status": "proved",
   "theorems": [
    "Verif.Props.C109_closed_form",
    "Verif.Props.C109_error",
    "Verif.Props.C109_sign",
    "Verif.Props.C109_derivative",
    "Verif.Props.C109_parameter",
    "Verif.Props.C109_before_solve"
   ],
   "note": "closed form of every entry, error bound, sign, meaning as derivative; numbers are exact reals"
  },
  {
   "property": "C110",
   "status": "proved",
   "theorems": [
    "Verif.Props.C110_mpf",
    "Verif.Props.C110_pseudo_general",
    "Verif.Props.C110_pseudo_spin",
    "Verif.Props.C110_spin_missing",
    "Verif.Props.C110_pair_missing",
    "Verif.Props.C110_unique",
    "Verif.Props.C110_enumerate",
    "Verif.Props.C110_full_support"
   ],
   "note": "exact condition on the data for existence, missing pattern of a pair refutes it, uniqueness, relation to Enumerate; optimisers are not modelled"
  },
  {
   "property": "C111",
   "status": "proved",
   "theorems": [
    "Verif.Props.C111_constructor",
    "Verif.Props.C111_default_raises",
    "Verif.Props.C111_returns",
    "Verif.Props.C111_all_positions",
    "Verif.Props.C111_exists_iff",
    "Verif.Props.C111_exists_iff_sample",
    "Verif.Props.C111_maximum_likelihood",
    "Verif.Props.C111_monotone"
   ],
   "note": "Positions are natural numbers (negative ones are not modelled); the root finder and the minimizer are parameters."
  },
  {
   "property": "C112",
   "status": "proved",
   "theorems": [
    "Verif.Props.C112_never_returns",
    "Verif.Props.C112_fresh_object",
    "Verif.Props.C112_prediction",
    "Verif.Props.C112_states",
    "Verif.Props.C112_learn"
   ],
   "note": "What generate_sample and solve would do after the missing attribute is not modelled."
  },
  {
   "property": "C113",
   "status": "proved",
   "theorems": [
    "Verif.Props.C113_constructor",
    "Verif.Props.C113_constructor_helpers",
    "Verif.Props.C113_no_data",
    "Verif.Props.C113_recovers",
    "Verif.Props.C113_general",
    "Verif.Props.C113_spin_by_spin",
    "Verif.Props.C113_potts",
    "Verif.Props.C113_potts_recovers",
    "Verif.Props.C113_potts_raises",
    "Verif.Props.C113_cost",
    "Verif.Props.C113_sampled",
    "Verif.Props.C113_cluster"
   ],
   "note": "Helper functions are those of utils.py for the same k; functions written by the user are not modelled."
  },
  {
   "property": "C114",
   "status": "proved",
   "theorems": [
    "Verif.Props.C114_constructor",
    "Verif.Props.C114_default_raises",
    "Verif.Props.C114_out_of_range",
    "Verif.Props.C114_returns",
    "Verif.Props.C114_last_error",
    "Verif.Props.C114_converged",
    "Verif.Props.C114_usual"
   ],
   "note": "Model with sampler as random program; constructor, refusals, return value, error flag and probability of a wrong error."
  },
  {
   "property": "C115",
   "status": "proved",
   "theorems": [
    "Verif.Props.C115_evaluates",
    "Verif.Props.C115_frequencies_not_fitted",
    "Verif.Props.C115_function",
    "Verif.Props.C115_solve",
    "Verif.Props.C115_bracket",
    "Verif.Props.C115_int8",
    "Verif.Props.C115_kept_states",
    "Verif.Props.C115_left",
    "Verif.Props.C115_options"
   ],
   "note": "The search (scipy minimize_scalar) is any deterministic procedure that asks for values and ends. The random numbers of all processes come from one generator, and a generator made again from the same seed gives the same numbers. The import of scipy.transpose in solve is left out. Without the extension the claims that fail are shown by C115_kept_states and C115_int8."
  },
  {
   "property": "C116",
   "status": "proved",
   "theorems": [
    "Verif.Props.C116_minimum",
    "Verif.Props.C116_exists",
    "Verif.Props.C116_solve",
    "Verif.Props.C116_result",
    "Verif.Props.C116_inside",
    "Verif.Props.C116_boundary",
    "Verif.Props.C116_consistent",
    "Verif.Props.C116_magnitudes",
    "Verif.Props.C116_documented_limit",
    "Verif.Props.C116_arguments",
    "Verif.Props.C116_long_guess",
    "Verif.Props.C116_bits_as_data",
    "Verif.Props.C116_other_models",
    "Verif.Props.C116_triplet"
   ],
   "note": "The library call (scipy minimize with bounds) is any function; results about the optimum assume that it finds a smallest point within the bounds. Numbers are exact. Element types are not modelled: the compiled energy function only accepts 64-bit integers. The documented meaning of parameter_limits fails (C116_documented_limit, C116_magnitudes)."
  },
  {
   "property": "C117",
   "status": "proved",
   "theorems": [
    "Verif.Props.C117_ising",
    "Verif.Props.C117_step",
    "Verif.Props.C117_potts",
    "Verif.Props.C117_overshoots"
   ],
   "note": "Ising and Potts helpers: monotone decrease, convergence exactly for mixtures, rate; C117_step for learnMch as called; C117_overshoots shows that the limit on eta is needed (default eta = 1)."
  },
  {
   "property": "C118",
   "status": "proved",
   "theorems": [
    "Verif.Props.C118_reach",
    "Verif.Props.C118_guide_reach",
    "Verif.Props.C118_opposite",
    "Verif.Props.C118_exact",
    "Verif.Props.C118_never_falls",
    "Verif.Props.C118_step",
    "Verif.Props.C118_witness"
   ],
   "note": "The guide's approximation has the wrong sign: C118_opposite, C118_exact and C118_witness state what it computes. The reach is proved for the Ising sampler (mchSolveP); learn_settings of the Potts section enters as scale 1/2."
  },
  {
   "property": "C119",
   "status": "proved",
   "theorems": [
    "Verif.Props.C119_likelihood",
    "Verif.Props.C119_pseudolikelihood",
    "Verif.Props.C119_conditional",
    "Verif.Props.C119_flow",
    "Verif.Props.C119_enumerate",
    "Verif.Props.C119_pseudo",
    "Verif.Props.C119_mpf",
    "Verif.Props.C119_sample_and_fit",
    "Verif.Props.C119_zero_wrong"
   ],
   "note": "Searches are oracles that find a zero or smallest point if one exists; MPF with parameter limits that contain the {0,1} form of theta. C119_zero_wrong: for all parameters zero the samples of two spins never contain all four states with the default settings."
  },
  {
   "property": "C120",
   "status": "proved",
   "theorems": [
    "Verif.Props.C120_returns",
    "Verif.Props.C120_independent",
    "Verif.Props.C120_choice",
    "Verif.Props.C120_averages",
    "Verif.Props.C120_frequencies",
    "Verif.Props.C120_fit",
    "Verif.Props.C120_raises"
   ],
   "note": "numpy's legacy choice with replacement and probabilities is modelled from its documentation and source (checks, cumulative sums, searchsorted on uniform draws); searches in the fits are oracles that find what exists."
  },
  {
   "property": "C121",
   "status": "proved",
   "theorems": [
    "Verif.Props.C121_model",
    "Verif.Props.C121_minimum",
    "Verif.Props.C121_mpf",
    "Verif.Props.C121_limit",
    "Verif.Props.C121_exact",
    "Verif.Props.C121_enumerate",
    "Verif.Props.C121_maximum_likelihood",
    "Verif.Props.C121_exists_iff",
    "Verif.Props.C121_three_spins",
    "Verif.Props.C121_no_equations",
    "Verif.Props.C121_enumerate_finds",
    "Verif.Props.C121_mpf_finds",
    "Verif.Props.C121_data",
    "Verif.Props.C121_fit"
   ],
   "note": "Searches are oracles that find a zero or a smallest point within the bounds if one exists; scipy's routines themselves are not modelled."
  },
  {
   "property": "C122",
   "status": "proved",
   "theorems": [
    "Verif.Props.C122_same_iff",
    "Verif.Props.C122_not_unique",
    "Verif.Props.C122_exists_iff",
    "Verif.Props.C122_full_support",
    "Verif.Props.C122_missing_value",
    "Verif.Props.C122_pseudo",
    "Verif.Props.C122_pseudolikelihood",
    "Verif.Props.C122_pseudo_finds",
    "Verif.Props.C122_sample_and_fit"
   ],
   "note": "The search is an oracle that finds a smallest point if one exists; scipy's routines themselves are not modelled. Sampling excludes kept states in sequential calls and the compiled sequential sampler (which cannot work, C102)."
  },
  {
   "property": "C123",
   "status": "proved",
   "theorems": [
    "Verif.Props.C123_ising",
    "Verif.Props.C123_triplet"
   ],
   "note": "Searches are oracles that find what they look for if it exists. All parameters zero is excluded: there the claim is false (C119_zero_wrong)."
  },
  {
   "property": "C124",
   "status": "proved",
   "theorems": [
    "Verif.Props.C124_pairwise",
    "Verif.Props.C124_zero",
    "Verif.Props.C124_triplet",
    "Verif.Props.C124_enumerate",
    "Verif.Props.C124_guide",
    "Verif.Props.C124_triplet_guide",
    "Verif.Props.C124_no_module"
   ],
   "note": "Searches of scipy are assumed to find what they look for, if it exists; exact arithmetic. MCH, cluster expansion and mean field are not covered by the probability bound."
  },
  {
   "property": "C125",
   "status": "proved",
   "theorems": [
    "Verif.Props.C125_result",
    "Verif.Props.C125_consistency",
    "Verif.Props.C125_limit",
    "Verif.Props.C125_recovers",
    "Verif.Props.C125_threshold",
    "Verif.Props.C125_cut",
    "Verif.Props.C125_guide",
    "Verif.Props.C125_sample"
   ],
   "note": "Closed form, limit, recovery, zero couplings below the threshold, and probability bounds for the guide's recipe and sample_ising. Small least squares problems are an oracle that finds a root when there is one. Thresholds for which kept pairs overlap are covered only by C82 (negative thresholds)."
  },
  {
   "property": "C126",
   "status": "proved",
   "theorems": [
    "Verif.Props.C126_high_precision_pairwise",
    "Verif.Props.C126_high_precision_triplet",
    "Verif.Props.C126_command",
    "Verif.Props.C126_only_right_files",
    "Verif.Props.C126_refused",
    "Verif.Props.C126_traps"
   ],
   "note": "Real arithmetic (mpmath precision is not modelled); int() for ASCII text only. Size zero is left out of the claim about values. Traps proved: only the first option counts, negative numbers count as options, triplets of fewer than three spins raise AttributeError."
  },
  {
   "property": "C127",
   "status": "partial",
   "theorems": [
    "Verif.Props.C127_multinomial",
    "Verif.Props.C127_rounding_partial",
    "Verif.Props.C127_expand_binomial"
   ],
   "note": "In exact arithmetic both functions are right. On a computer multinomial returns the right number or one less, one less exactly if the computed value is below the right number (proved for any arithmetic with error below one); which case occurs depends on the library's exp and log. binom is exact here."
  },
  {
   "property": "C128",
   "status": "partial",
   "theorems": [
    "Verif.Props.C128_free_site",
    "Verif.Props.C128_free_lattice",
    "Verif.Props.C128_sweeps_partial",
    "Verif.Props.C128_random_partial",
    "Verif.Props.C128_right_iff",
    "Verif.Props.C128_default"
   ],
   "note": "Proved exactly when the simulation converges (sweeps: coupling not 0 or no field 0; random sites: coupling or a field not 0) and that the limit is the model with the fields reversed; the documented model is approached exactly if the coupling is not 0 and all fields are 0 (C128_right_iff)."
  },
  {
   "property": "C129",
   "status": "partial",
   "theorems": [
    "Verif.Props.C129_count",
    "Verif.Props.C129_unions",
    "Verif.Props.C129_nonempty",
    "Verif.Props.C129_connected",
    "Verif.Props.C129_cover",
    "Verif.Props.C129_components_partial",
    "Verif.Props.C129_tolerance",
    "Verif.Props.C129_wrong"
   ],
   "note": "Number of clusters, unions of components, connected graphs, cover and tolerance proved; that the clusters are the components needs eigenvectors supported on single components, which the library need not return (C129_wrong)."
  },
  {
   "property": "C130",
   "status": "proved",
   "theorems": [
    "Verif.Props.C130_wrong_number",
    "Verif.Props.C130_numbers",
    "Verif.Props.C130_other_class",
    "Verif.Props.C130_default",
    "Verif.Props.C130_constructor",
    "Verif.Props.C130_approximations",
    "Verif.Props.C130_returns",
    "Verif.Props.C130_last_error",
    "Verif.Props.C130_converged",
    "Verif.Props.C130_limit",
    "Verif.Props.C130_guide_triplet",
    "Verif.Props.C130_guide_potts"
   ],
   "note": "Uniform mixing bounds for the Metropolis chains of all three classes of models; for the compiled Potts sampler at least three processors are assumed (with fewer the sampler raises)."
  },
  {
   "property": "C131",
   "status": "proved",
   "theorems": [
    "Verif.Props.C131_random_sample",
    "Verif.Props.C131_random_sample_potts3",
    "Verif.Props.C131_init_sample",
    "Verif.Props.C131_setup",
    "Verif.Props.C131_model",
    "Verif.Props.C131_parameters",
    "Verif.Props.C131_zero",
    "Verif.Props.C131_sample_ising"
   ],
   "note": "Compiled sequential sampling of Potts3 is excluded (it does not work, C84); the compiled parallel one needs three processors and more samples than workers."
  },
  {
   "property": "C132",
   "status": "proved",
   "theorems": [
    "Verif.Props.C132_logsumexp",
    "Verif.Props.C132_p",
    "Verif.Props.C132_observables",
    "Verif.Props.C132_overflow"
   ],
   "note": "Assumes rounding, exp and log as in Spec.Ieee (no accuracy). Energies are inputs: their own rounding is not followed. The bound on observables assumes that sum and dot add in the same order; with different orders the bound may be exceeded by rounding."
  },
  {
   "property": "C133",
   "status": "proved",
   "theorems": [
    "Verif.Props.C133_p",
    "Verif.Props.C133_observables",
    "Verif.Props.C133_shipped"
   ],
   "note": "Assumes accuracy of rounding, exp and log as in Spec.Accurate (2^-52 for double precision with a library off by less than one unit in the last place). The entries of energyTerms are taken as sums from left to right; how they are written and read is C28 and C100."
  },
  {
   "property": "C134",
   "status": "partial",
   "theorems": [
    "Verif.Props.C134_accuracy_partial",
    "Verif.Props.C134_overflow",
    "Verif.Props.C134_overflow_witness"
   ],
   "note": "accuracy is proved as long as 1 + exp(2E) stays in range; C134_overflow and C134_overflow_witness prove that it fails otherwise (gradient NaN)"
  },
  {
   "property": "C135",
   "status": "partial",
   "theorems": [
    "Verif.Props.C135_loglikelihood",
    "Verif.Props.C135_gradient_partial",
    "Verif.Props.C135_accuracy_partial",
    "Verif.Props.C135_overflow",
    "Verif.Props.C135_overflow_witness"
   ],
   "note": "Range and accuracy proved for all arithmetics, all differences of energies and all orders of summation while the exponentials stay in range. Missing: large parameters, where the code is wrong (C135_overflow, C135_overflow_witness: all derivatives of the row are NaN although the exact ones are between -1 and 1)."
  },
  {
   "property": "C136",
   "status": "proved",
   "theorems": [
    "Verif.Props.C136_logK",
    "Verif.Props.C136_K_overflow",
    "Verif.Props.C136_witness"
   ],
   "note": "finite and accurate for uselog=True; witness that uselog=False overflows within the default limits"
  },
  {
   "property": "C137",
   "status": "partial",
   "theorems": [
    "Verif.Props.C137_overflow",
    "Verif.Props.C137_accuracy_partial"
   ],
   "note": "The bound on rounding errors holds within the range of exp (C137_accuracy_partial). Outside of it the claim is false of the code: C137_overflow proves that every prediction is NaN and that the assertion does not fail."
  },
  {
   "property": "C138",
   "status": "proved",
   "theorems": [
    "Verif.Props.C138_energy",
    "Verif.Props.C138_acceptance",
    "Verif.Props.C138_law",
    "Verif.Props.C138_rate",
    "Verif.Props.C138_boltzmann",
    "Verif.Props.C138_ising",
    "Verif.Props.C138_ising_acceptance",
    "Verif.Props.C138_ising_rate",
    "Verif.Props.C138_potts3_energy",
    "Verif.Props.C138_potts3_rate"
   ],
   "note": "Invariant of the loops; energies, states and acceptance probability. The random numbers are real numbers, and history is left out."
  }
 ]
}