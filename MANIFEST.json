{
 "claims": [
  {
   "property": "C01",
   "status": "proved",
   "theorems": [
    "JrlQp.C01_counters"
   ],
   "note": ""
  },
  {
   "property": "C02",
   "status": "proved",
   "theorems": [
    "JrlQp.C02_list_matches_status"
   ],
   "note": ""
  },
  {
   "property": "C03",
   "status": "proved",
   "theorems": [
    "JrlQp.C03_activate",
    "JrlQp.C03_deactivate"
   ],
   "note": ""
  },
  {
   "property": "C04",
   "status": "proved",
   "theorems": [
    "JrlQp.C04_ofStatus_roundtrip"
   ],
   "note": ""
  },
  {
   "property": "C05",
   "status": "proved",
   "theorems": [
    "JrlQp.C05_status_and_iterations"
   ],
   "note": "any scalar arithmetic"
  },
  {
   "property": "C06",
   "status": "proved",
   "theorems": [
    "JrlQp.C06_multipliers"
   ],
   "note": "any scalar arithmetic"
  },
  {
   "property": "C07",
   "status": "partial",
   "theorems": [
    "JrlQp.C07_success_optimal_partial",
    "JrlQp.C07_success_feasible_partial",
    "JrlQp.C07_crossed_false",
    "JrlQp.C07_order_false",
    "JrlQp.C07_threshold_false",
    "JrlQp.C45_backward",
    "JrlQp.exists_thresholds"
   ],
   "note": "exact arithmetic; bounds not crossed (otherwise false: C07_crossed_false), equalities first (otherwise false: C07_order_false), thresholds harmless (otherwise false: C07_threshold_false; such thresholds always exist: exists_thresholds; for arbitrary thresholds C45 gives the exact perturbed problem)"
  },
  {
   "property": "C08",
   "status": "partial",
   "theorems": [
    "JrlQp.C08_objective_partial",
    "JrlQp.C08_threshold_false",
    "JrlQp.exists_thresholds"
   ],
   "note": "exact arithmetic; thresholds harmless (otherwise false: C08_threshold_false)"
  },
  {
   "property": "C09",
   "status": "partial",
   "theorems": [
    "JrlQp.C09_infeasible_partial",
    "JrlQp.C09_threshold_false",
    "JrlQp.C09_order_false",
    "JrlQp.exists_thresholds"
   ],
   "note": "exact arithmetic; equalities first (otherwise false: C09_order_false), thresholds harmless (otherwise false: C09_threshold_false)"
  },
  {
   "property": "C10",
   "status": "proved",
   "theorems": [
    "JrlQp.C10_non_pos_hessian"
   ],
   "note": "exact arithmetic"
  },
  {
   "property": "C11",
   "status": "proved",
   "theorems": [
    "JrlQp.C11_unconstrained"
   ],
   "note": "exact arithmetic"
  },
  {
   "property": "C12",
   "status": "partial",
   "theorems": [
    "JrlQp.C12_no_fault_partial",
    "JrlQp.C12_overconstrained_faults"
   ],
   "note": "false in general: needs #equalities + #fixed <= n (second theorem proves the fault otherwise)"
  },
  {
   "property": "C13",
   "status": "proved",
   "theorems": [
    "JrlQp.C13_history_independence"
   ],
   "note": "any scalar arithmetic"
  },
  {
   "property": "C14",
   "status": "proved",
   "theorems": [
    "JrlQp.C14_debug_eq_release"
   ],
   "note": "any scalar arithmetic"
  },
  {
   "property": "C15",
   "status": "partial",
   "theorems": [
    "JrlQp.C15_equalities_stay_active_partial",
    "JrlQp.C15_equality_dropped"
   ],
   "note": "any scalar arithmetic; equalities first (otherwise false: C15_equality_dropped)"
  },
  {
   "property": "C16",
   "status": "partial",
   "theorems": [
    "JrlQp.C16_select_inactive",
    "JrlQp.C16_most_violated_partial",
    "JrlQp.C16_crossed_false"
   ],
   "note": "maximality: exact arithmetic, bounds not crossed (otherwise false: C16_crossed_false)"
  },
  {
   "property": "C17",
   "status": "partial",
   "theorems": [
    "JrlQp.C17_monotone",
    "JrlQp.C17_monotone_maxIter",
    "JrlQp.C17_lower_bound_partial",
    "JrlQp.C17_threshold_false",
    "JrlQp.C17_monotone_partial",
    "JrlQp.C17_monotone_maxIter_partial"
   ],
   "note": "exact arithmetic; monotonicity for all thresholds with equalities first; the lower bound needs harmless thresholds (otherwise false: C17_threshold_false)"
  },
  {
   "property": "C18",
   "status": "partial",
   "theorems": [
    "JrlQp.C18_terminates_partial",
    "JrlQp.C18_exact_solver_partial",
    "JrlQp.C18_threshold_false",
    "JrlQp.C18_default_false"
   ],
   "note": "exact arithmetic, thresholds small enough for the problem; for the fixed threshold 1e-14 of the source (and the default bigBnd and maxIter) the statement is false: the iterations can cycle with period ten on a feasible strictly convex problem with 3 variables and 5 inequalities (C18_threshold_false, C18_default_false)"
  },
  {
   "property": "C19",
   "status": "proved",
   "theorems": [
    "JrlQp.C19_lower_triangle_only"
   ],
   "note": "any scalar arithmetic"
  },
  {
   "property": "C21",
   "status": "partial",
   "theorems": [
    "JrlQp.C21_overconstrained_iff_partial",
    "JrlQp.C21_debug_assert",
    "JrlQp.C21_initial_active_set",
    "JrlQp.C21_spurious_overconstrained"
   ],
   "note": "the 'iff' needs a warm start without EQUALITY on an inequality (C21_spurious_overconstrained); a debug build asserts (C21_debug_assert)"
  },
  {
   "property": "C22",
   "status": "proved",
   "theorems": [
    "JrlQp.C22_initial_pair",
    "JrlQp.C22_final_pair"
   ],
   "note": "exact arithmetic"
  },
  {
   "property": "C23",
   "status": "proved",
   "theorems": [
    "JrlQp.C23_initialisation_drops"
   ],
   "note": "exact arithmetic"
  },
  {
   "property": "C24",
   "status": "partial",
   "theorems": [
    "JrlQp.C24_success_optimal_partial",
    "JrlQp.C24_infeasible_partial",
    "JrlQp.C24_success_feasible_partial",
    "JrlQp.C24_KKT_partial",
    "JrlQp.C24_terminates_partial",
    "JrlQp.C24_thresholds_partial",
    "JrlQp.C24_false_equality",
    "JrlQp.C24_backward_partial"
   ],
   "note": "exact arithmetic; false for a warm start with EQUALITY on an inequality (C24_false_equality)"
  },
  {
   "property": "C25",
   "status": "partial",
   "theorems": [
    "JrlQp.C25_start",
    "JrlQp.C25_success_partial",
    "JrlQp.C25_infeasible_partial",
    "JrlQp.C25_terminates_partial",
    "JrlQp.C25_thresholds_partial",
    "JrlQp.C25_backward",
    "JrlQp.C25_distance",
    "JrlQp.C25_threshold_false"
   ],
   "note": "exact arithmetic; the starting point without condition, the final answer with harmless thresholds (which always exist: C25_thresholds_partial; otherwise false: C25_threshold_false); for arbitrary thresholds SUCCESS gives the projection of a perturbed point (C25_backward, C25_distance)"
  },
  {
   "property": "C39",
   "status": "proved",
   "theorems": [
    "JrlQp.C39_box_no_fault",
    "JrlQp.C39_box_history"
   ],
   "note": "any scalar arithmetic"
  },
  {
   "property": "C26",
   "status": "proved",
   "theorems": [
    "JrlQp.C26_resize",
    "JrlQp.C26_resize_fit",
    "JrlQp.C26_changeLd",
    "JrlQp.C26_assert_strict"
   ],
   "note": "the assert of changeLd is stricter than needed (C26_assert_strict)"
  },
  {
   "property": "C27",
   "status": "partial",
   "theorems": [
    "JrlQp.C27_tri_factor",
    "JrlQp.C27_tri_iff_partial",
    "JrlQp.C27_L_solve",
    "JrlQp.C27_LT_solve",
    "JrlQp.C27_solve",
    "JrlQp.C27_true_not_posDef"
   ],
   "note": "exact arithmetic; 'returns true iff positive definite' is false (C27_true_not_posDef), the sign of the diagonal has to be looked at too"
  },
  {
   "property": "C28",
   "status": "partial",
   "theorems": [
    "JrlQp.C28_arrow_factor",
    "JrlQp.C28_arrow_iff_partial",
    "JrlQp.C28_L_solve_partial",
    "JrlQp.C28_LT_solve",
    "JrlQp.C28_solve_partial",
    "JrlQp.C28_true_not_posDef",
    "JrlQp.C28_up_size_mismatch"
   ],
   "note": "exact arithmetic; same exception as C27, and the L solve of an upward arrow needs equal first and last block sizes (C28_up_size_mismatch)"
  },
  {
   "property": "C29",
   "status": "proved",
   "theorems": [
    "JrlQp.C29_inverse",
    "JrlQp.C29_isometry",
    "JrlQp.C29_segment"
   ],
   "note": "exact arithmetic"
  },
  {
   "property": "C30",
   "status": "proved",
   "theorems": [
    "JrlQp.C30_constraint_normal"
   ],
   "note": "exact arithmetic"
  },
  {
   "property": "C31",
   "status": "proved",
   "theorems": [
    "JrlQp.C31_toFull",
    "JrlQp.C31_dot",
    "JrlQp.C31_range"
   ],
   "note": ""
  },
  {
   "property": "C20",
   "status": "partial",
   "theorems": [
    "JrlQp.C20_flags",
    "JrlQp.C20_flags_inverse",
    "JrlQp.C20_options_in_force",
    "JrlQp.C20_setters",
    "JrlQp.C20_logged_iff",
    "JrlQp.C20_log_flags_partial",
    "JrlQp.C20_removed_flag_logged",
    "JrlQp.C20_destination",
    "JrlQp.C20_iteration_number",
    "JrlQp.C20_subLog",
    "JrlQp.C20_flags_independent",
    "JrlQp.C20_logger_setFlag",
    "JrlQp.C20_disabled_silent",
    "JrlQp.C20_before_first"
   ],
   "note": "the last clause is false: removed flags stay in force (C20_removed_flag_logged, C20_logged_iff says exactly what is logged)"
  },
  {
   "property": "C32",
   "status": "proved",
   "theorems": [
    "JrlQp.C32_zero_tolerance",
    "JrlQp.C32_optimal",
    "JrlQp.C32_approximate",
    "JrlQp.C32_monotone",
    "JrlQp.C32_answers",
    "JrlQp.C32_overload",
    "JrlQp.C32_crossed_false"
   ],
   "note": "exact arithmetic; C32_crossed_false shows that the hypothesis on the bounds is needed"
  },
  {
   "property": "C33",
   "status": "partial",
   "theorems": [
    "JrlQp.C33_sep_to_feas",
    "JrlQp.C33_feas_to_sep_partial",
    "JrlQp.C33_feas_to_sep_faults",
    "JrlQp.C33_ls_objective",
    "JrlQp.C33_ls_convex",
    "JrlQp.C33_qp_objective",
    "JrlQp.C33_constant_lost",
    "JrlQp.C33_solutions",
    "JrlQp.C33_ls_checkable",
    "JrlQp.C33_wellFormed_transposed",
    "JrlQp.C33_wellFormed_rows"
   ],
   "note": "exact arithmetic; all conversions keep the solutions except FeasibilityConstraints -> SeparatedFeasibilityConstraints, which reads out of bounds (C33_feas_to_sep_faults); constants of the objective are lost (C33_constant_lost)"
  },
  {
   "property": "C34",
   "status": "proved",
   "theorems": [
    "JrlQp.C34_tight",
    "JrlQp.C34_multipliers_nonneg"
   ],
   "note": "exact arithmetic; no condition on the thresholds beyond the initialisation"
  },
  {
   "property": "C35",
   "status": "proved",
   "theorems": [
    "JrlQp.C35_factorisation",
    "JrlQp.C35_any_order"
   ],
   "note": "exact arithmetic"
  },
  {
   "property": "C36",
   "status": "proved",
   "theorems": [
    "JrlQp.C36_direction"
   ],
   "note": "exact arithmetic; equality constraints linearly independent at the 1e-14 threshold"
  },
  {
   "property": "C37",
   "status": "proved",
   "theorems": [
    "JrlQp.C37_no_fault"
   ],
   "note": "any scalar arithmetic"
  },
  {
   "property": "C38",
   "status": "proved",
   "theorems": [
    "JrlQp.C38_history_independence",
    "JrlQp.C38_debug_eq_release"
   ],
   "note": "any scalar arithmetic"
  },
  {
   "property": "C40",
   "status": "partial",
   "theorems": [
    "JrlQp.C40_structured_equals_dense",
    "JrlQp.C40_structured_solves",
    "JrlQp.C40_hypotheses_met"
   ],
   "note": "exact arithmetic; an upward arrow needs equal first and last block sizes (finding 7); the argument of the call is taken by value, which is right for the first call and wrong for the next ones in general, see C42"
  },
  {
   "property": "C41",
   "status": "proved",
   "theorems": [
    "JrlQp.C41_equality_refused",
    "JrlQp.C41_warm_start_refused",
    "JrlQp.C41_hypotheses_met"
   ],
   "note": "exact arithmetic, debug build (asserts enabled), positive definite Hessian, not more equalities than variables"
  },
  {
   "property": "C42",
   "status": "partial",
   "theorems": [
    "JrlQp.C42_first_solve_frame",
    "JrlQp.C42_load",
    "JrlQp.C42_second_solve_overwrites_first",
    "JrlQp.C42_dangling",
    "JrlQp.C42_size_mismatch",
    "JrlQp.C42_constraints",
    "JrlQp.C42_example"
   ],
   "note": "true of the first call and of the constraint matrix, false of the Hessian in later calls: the assignment of the references copies coefficients into the matrices of the earlier problem"
  },
  {
   "property": "C43",
   "status": "partial",
   "theorems": [
    "JrlQp.C43_data",
    "JrlQp.C43_active",
    "JrlQp.C43_level",
    "JrlQp.C43_inactive",
    "JrlQp.C43_not_wellFormed",
    "JrlQp.C43_example"
   ],
   "note": "exact arithmetic; everything holds but the last sentence: wellFormed() is true only for one variable (C43_not_wellFormed)"
  },
  {
   "property": "C44",
   "status": "partial",
   "theorems": [
    "JrlQp.C44_solution_partial",
    "JrlQp.C44_hypotheses_met",
    "JrlQp.C44_flip_false",
    "JrlQp.C44_rightCols_false",
    "JrlQp.C44_strict_asserts",
    "JrlQp.C44_shuffle",
    "JrlQp.C44_announced_partial",
    "JrlQp.C44_announced_met"
   ],
   "note": "exact arithmetic; the rank-revealing QR of Eigen is specified, not modelled; the full statement is false: flipped double-sided constraints (C44_flip_false), fewer rows than variables (C44_rightCols_false), strictlyFeasible (C44_strict_asserts)"
  },
  {
   "property": "C45",
   "status": "proved",
   "theorems": [
    "JrlQp.C45_backward",
    "JrlQp.C45_suboptimality"
   ],
   "note": "exact arithmetic, arbitrary thresholds"
  },
  {
   "property": "C46",
   "status": "proved",
   "theorems": [
    "JrlQp.C46_certificate",
    "JrlQp.C46_far",
    "JrlQp.C46_hypotheses_met"
   ],
   "note": "exact arithmetic, arbitrary thresholds"
  },
  {
   "property": "C47",
   "status": "proved",
   "theorems": [
    "JrlQp.C47_randOrtho"
   ],
   "note": "exact arithmetic; no hypothesis"
  },
  {
   "property": "C48",
   "status": "proved",
   "theorems": [
    "JrlQp.C48_randn",
    "JrlQp.C48_randDependent",
    "JrlQp.C48_hypotheses_met"
   ],
   "note": "exact arithmetic"
  },
  {
   "property": "C49",
   "status": "proved",
   "theorems": [
    "JrlQp.C49_success",
    "JrlQp.C49_warm_success",
    "JrlQp.C49_box_success",
    "JrlQp.notOutside_real"
   ],
   "note": "any scalar arithmetic; bigBnd not NaN; base solver: not more equalities than variables (otherwise out of bounds, C12)"
  },
  {
   "property": "C50",
   "status": "proved",
   "theorems": [
    "JrlQp.C50_checker_accepts",
    "JrlQp.C50_hypotheses_met"
   ],
   "note": "exact arithmetic"
  },
  {
   "property": "C51",
   "status": "proved",
   "theorems": [
    "JrlQp.C51_optimal_start",
    "JrlQp.C51_again",
    "JrlQp.C51_after_solve",
    "JrlQp.C51_inactive_inequalities",
    "JrlQp.C51_only_equalities",
    "JrlQp.C51_hypotheses_met"
   ],
   "note": "exact arithmetic; C51_again and C51_after_solve need the hypotheses under which the first SUCCESS is optimal (C24, C07)"
  },
  {
   "property": "C52",
   "status": "proved",
   "theorems": [
    "JrlQp.C52_linear",
    "JrlQp.C52_call_partial"
   ],
   "note": "exact arithmetic; the thresholds depend on the data (C52_linear), C52_call_partial is the statement for one call with harmless thresholds"
  },
  {
   "property": "C53",
   "status": "proved",
   "theorems": [
    "JrlQp.C53_no_fault",
    "JrlQp.C53_status",
    "JrlQp.C53_hypotheses_met"
   ],
   "note": "any scalar arithmetic with FpLaws and NulLaws; the problem of C42 (references into an earlier problem) is a separate model of memory"
  },
  {
   "property": "C54",
   "status": "proved",
   "theorems": [
    "JrlQp.C54_history_independence",
    "JrlQp.C53_hypotheses_met"
   ],
   "note": "same setting as C53"
  },
  {
   "property": "C55",
   "status": "proved",
   "theorems": [
    "JrlQp.Ieee.C55_base",
    "JrlQp.Ieee.C55_structured",
    "JrlQp.Ieee.C55_box",
    "JrlQp.Ieee.C55_warm",
    "JrlQp.Ieee.C55_compare",
    "JrlQp.Ieee.fpLaws",
    "JrlQp.Ieee.nulLaws",
    "JrlQp.Ieee.rnd_nearest",
    "JrlQp.Ieee.rnd_rep",
    "JrlQp.Ieee.rne_tie"
   ],
   "note": "for all orders of summation at each place (SumOps), without fused operations; base solver: not more equalities than variables (C12)"
  },
  {
   "property": "C56",
   "status": "proved",
   "theorems": [
    "JrlQp.Ieee.C56_success",
    "JrlQp.Ieee.C56_warm_success",
    "JrlQp.Ieee.C56_box_success",
    "JrlQp.Ieee.sub_lt_zero",
    "JrlQp.Ieee.dot_err",
    "JrlQp.Ieee.C56_hypotheses_met"
   ],
   "note": "for all orders of summation, without fused operations"
  },
  {
   "property": "C57",
   "status": "proved",
   "theorems": [
    "JrlQp.Ieee.C57_nan_objective",
    "JrlQp.Ieee.C57_hypotheses_met"
   ],
   "note": "base solver; not more equalities than variables"
  },
  {
   "property": "C58",
   "status": "proved",
   "theorems": [
    "JrlQp.Ieee.C58_nan_constraint",
    "JrlQp.Ieee.C57_hypotheses_met"
   ],
   "note": "base solver; not more equalities than variables"
  },
  {
   "property": "C59",
   "status": "proved",
   "theorems": [
    "JrlQp.C59_shadow_prices",
    "JrlQp.C59_hypotheses_met",
    "JrlQp.StdPb.solved"
   ],
   "note": "exact arithmetic, small enough thresholds"
  },
  {
   "property": "C60",
   "status": "proved",
   "theorems": [
    "JrlQp.C60_stability",
    "JrlQp.C59_hypotheses_met"
   ],
   "note": "exact arithmetic, small enough thresholds"
  },
  {
   "property": "C61",
   "status": "proved",
   "theorems": [
    "JrlQp.C61_same_problem",
    "JrlQp.C59_hypotheses_met"
   ],
   "note": "exact arithmetic, small enough thresholds"
  },
  {
   "property": "C62",
   "status": "proved",
   "theorems": [
    "JrlQp.C62_more_constraints",
    "JrlQp.C59_hypotheses_met"
   ],
   "note": "exact arithmetic, small enough thresholds"
  },
  {
   "property": "C63",
   "status": "proved",
   "theorems": [
    "JrlQp.C63_success",
    "JrlQp.C63_success_calls",
    "JrlQp.Ieee.C63_ieee",
    "JrlQp.Ieee.C63_hypotheses_met"
   ],
   "note": "structured solver, any arithmetic"
  },
  {
   "property": "C64",
   "status": "proved",
   "theorems": [
    "JrlQp.C64_certificate_warm",
    "JrlQp.C64_warm_met",
    "JrlQp.C64_certificate_struct",
    "JrlQp.C64_backward_struct",
    "JrlQp.C64_struct_met",
    "JrlQp.C64_certificate_box",
    "JrlQp.C64_hypotheses_met"
   ],
   "note": "exact arithmetic, arbitrary thresholds"
  },
  {
   "property": "C65",
   "status": "proved",
   "theorems": [
    "JrlQp.C65_eigenQuadprog",
    "JrlQp.C65_eiQuadprog",
    "JrlQp.C65_qld",
    "JrlQp.C65_lssol",
    "JrlQp.C65_gi",
    "JrlQp.C65_gi_solves",
    "JrlQp.C65_bounds_dropped",
    "JrlQp.C65_gi_flag",
    "JrlQp.C65_hypotheses_met"
   ],
   "note": "exact arithmetic; quadprog formats: lower bounds not +inf, upper bounds not -inf"
  },
  {
   "property": "C66",
   "status": "proved",
   "theorems": [
    "JrlQp.C66_random_end_to_end",
    "JrlQp.randomProblem_strict",
    "JrlQp.C66_hypotheses_met"
   ],
   "note": "exact arithmetic, small enough thresholds"
  },
  {
   "property": "C67",
   "status": "proved",
   "theorems": [
    "JrlQp.Qps.C67_reader",
    "JrlQp.Qps.C67_properties",
    "JrlQp.Qps.Ex.layout",
    "JrlQp.Qps.Ex.ok"
   ],
   "note": "exact numbers, conversion of a word to a number is an argument; MI and PL lines need a value (the code throws without one)"
  },
  {
   "property": "C68",
   "status": "proved",
   "theorems": [
    "JrlQp.Qps.C68_indices",
    "JrlQp.Qps.C68_message",
    "JrlQp.Qps.C68_message_false"
   ],
   "note": ""
  },
  {
   "property": "C69",
   "status": "proved",
   "theorems": [
    "JrlQp.Qps.C69_rows",
    "JrlQp.Qps.C69_reuse"
   ],
   "note": "files without objective row are merged with the previous one"
  },
  {
   "property": "C70",
   "status": "proved",
   "theorems": [
    "JrlQp.C70_lower_triangle_only"
   ],
   "note": ""
  },
  {
   "property": "C71",
   "status": "proved",
   "theorems": [
    "JrlQp.Log.C71_script",
    "JrlQp.Log.C71_matrix",
    "JrlQp.Log.C71_subLog"
   ],
   "note": "The Matlab reader is the independent specification Verif/MatlabSpec.lean; the texts of floating-point numbers are an argument without blanks and brackets."
  },
  {
   "property": "C72",
   "status": "proved",
   "theorems": [
    "JrlQp.Log.C72_valid",
    "JrlQp.Log.C72_debug",
    "JrlQp.Log.C72_box",
    "JrlQp.Log.C72_box_valid"
   ],
   "note": "Includes the cases where the script is rejected (index 0)."
  },
  {
   "property": "C73",
   "status": "proved",
   "theorems": [
    "JrlQp.Log.C73_iterates",
    "JrlQp.Log.C73_only",
    "JrlQp.Log.C73_last",
    "JrlQp.Log.C73_status",
    "JrlQp.Log.C73_selected",
    "JrlQp.Log.C73_selected_first"
   ],
   "note": ""
  },
  {
   "property": "C74",
   "status": "proved",
   "theorems": [
    "JrlQp.Log.C74_valid",
    "JrlQp.Log.C74_discarded",
    "JrlQp.Log.C74_explained",
    "JrlQp.Log.C74_silent"
   ],
   "note": ""
  },
  {
   "property": "C75",
   "status": "proved",
   "theorems": [
    "JrlQp.Log.C75_iterates",
    "JrlQp.Log.C75_last",
    "JrlQp.Log.C75_status",
    "JrlQp.Log.C75_selected",
    "JrlQp.Log.C75_factors",
    "JrlQp.Log.C75_factors_hypotheses_met"
   ],
   "note": ""
  },
  {
   "property": "C76",
   "status": "proved",
   "theorems": [
    "JrlQp.C76_memory",
    "JrlQp.C76_no_growth",
    "JrlQp.C76_xmemory",
    "JrlQp.C76_xno_growth",
    "JrlQp.C76_bmemory",
    "JrlQp.C76_bno_growth"
   ],
   "note": ""
  },
  {
   "property": "C77",
   "status": "proved",
   "theorems": [
    "JrlQp.C77_small",
    "JrlQp.C77_overflow",
    "JrlQp.C77_wrap",
    "JrlQp.C77_xsmall",
    "JrlQp.C77_xoverflow",
    "JrlQp.C77_xwrap",
    "JrlQp.C77_bsmall",
    "JrlQp.C77_boverflow",
    "JrlQp.C77_bwrap",
    "JrlQp.C77_bwrap_met"
   ],
   "note": ""
  },
  {
   "property": "C78",
   "status": "proved",
   "theorems": [
    "JrlQp.Ieee.C78_accepted_hessian",
    "JrlQp.Ieee.C78_warm_accepted_hessian"
   ],
   "note": "IEEE arithmetic"
  },
  {
   "property": "C79",
   "status": "proved",
   "theorems": [
    "JrlQp.Ieee.C79_stationary"
   ],
   "note": "IEEE arithmetic"
  },
  {
   "property": "C80",
   "status": "proved",
   "theorems": [
    "JrlQp.Ieee.C80_safe_hessian_accepted",
    "JrlQp.Ieee.C80_warm_safe_hessian_accepted",
    "JrlQp.Ieee.C80_hypotheses_met"
   ],
   "note": "IEEE arithmetic"
  },
  {
   "property": "C81",
   "status": "proved",
   "theorems": [
    "JrlQp.Ieee.C81_unconstrained_accuracy",
    "JrlQp.Ieee.C81_unconstrained_solved",
    "JrlQp.Ieee.C81_hypotheses_met"
   ],
   "note": "IEEE arithmetic"
  },
  {
   "property": "C82",
   "status": "proved",
   "theorems": [
    "JrlQp.Ieee.C82_value",
    "JrlQp.Ieee.C82_objective_accuracy",
    "JrlQp.Ieee.C82_hypotheses_met"
   ],
   "note": "IEEE arithmetic"
  },
  {
   "property": "C83",
   "status": "proved",
   "theorems": [
    "JrlQp.Ik.C83_reader",
    "JrlQp.Ik.C83_sizes",
    "JrlQp.Ik.C83_hypotheses_met",
    "JrlQp.Ik.C83_unchecked",
    "JrlQp.Ik.C83_errors",
    "JrlQp.Ik.C83_title"
   ],
   "note": ""
  },
  {
   "property": "C84",
   "status": "proved",
   "theorems": [
    "JrlQp.Log.C84_valid",
    "JrlQp.Log.C84_input",
    "JrlQp.Log.C84_iterates",
    "JrlQp.Log.C84_last",
    "JrlQp.Log.C84_status",
    "JrlQp.Log.C84_hypotheses_met",
    "JrlQp.Log.C84_selected"
   ],
   "note": "with the input logged the property fails for every call: C84_input"
  },
  {
   "property": "C85",
   "status": "proved",
   "theorems": [
    "JrlQp.Log.C85_step",
    "JrlQp.Log.C85_warm",
    "JrlQp.Log.C85_structured",
    "JrlQp.Log.C85_hypotheses_met",
    "JrlQp.Log.C85_structured_hypotheses_met"
   ],
   "note": ""
  },
  {
   "property": "C86",
   "status": "proved",
   "theorems": [
    "JrlQp.Ieee.C86_warm_accuracy",
    "JrlQp.Ieee.C86_warm_unconstrained",
    "JrlQp.Ieee.C86_warm_solved",
    "JrlQp.Ieee.binary64_tiny",
    "JrlQp.Ieee.C86_hypotheses_met"
   ],
   "note": "IEEE arithmetic"
  },
  {
   "property": "C87",
   "status": "proved",
   "theorems": [
    "JrlQp.Ieee.C87_warm_objective",
    "JrlQp.Ieee.C87_warm_unconstrained",
    "JrlQp.Ieee.C87_hypotheses_met"
   ],
   "note": "IEEE arithmetic"
  },
  {
   "property": "C88",
   "status": "proved",
   "theorems": [
    "JrlQp.Ieee.C88_inside",
    "JrlQp.Ieee.C88_warm_inside",
    "JrlQp.Ieee.C88_hypotheses_met"
   ],
   "note": "IEEE arithmetic"
  },
  {
   "property": "C89",
   "status": "proved",
   "theorems": [
    "JrlQp.Log.C89_input",
    "JrlQp.Log.C89_warm",
    "JrlQp.Log.C89_box",
    "JrlQp.Log.C89_replay",
    "JrlQp.Log.C89_warm_replay",
    "JrlQp.Log.C89_hypotheses_met"
   ],
   "note": "The texts of the numbers are an argument; replay asks that different numbers have different texts (not so with the default precision of a stream)."
  },
  {
   "property": "C90",
   "status": "proved",
   "theorems": [
    "JrlQp.C90_bounds",
    "JrlQp.C90_vector",
    "JrlQp.C90_hypotheses_met"
   ],
   "note": "Exact arithmetic; three solves with any histories, options with fine enough thresholds."
  },
  {
   "property": "C91",
   "status": "proved",
   "theorems": [
    "JrlQp.C91_change_of_variables",
    "JrlQp.C91_rewritten",
    "JrlQp.C91_fixed_variable",
    "JrlQp.C91_symmetry",
    "JrlQp.C91_hypotheses_met",
    "JrlQp.C95_hypotheses_met"
   ],
   "note": "Exact arithmetic; options with fine enough thresholds. The standard problems have their equalities first, hence the removed variable is the first one."
  },
  {
   "property": "C92",
   "status": "proved",
   "theorems": [
    "JrlQp.C92_relax_free_sides",
    "JrlQp.C92_delete_constraint",
    "JrlQp.C91_hypotheses_met",
    "JrlQp.C92_delete_hypotheses_met",
    "JrlQp.StdPb.solved"
   ],
   "note": "Exact arithmetic; options with fine enough thresholds."
  },
  {
   "property": "C93",
   "status": "proved",
   "theorems": [
    "JrlQp.C93_duality",
    "JrlQp.C91_hypotheses_met",
    "JrlQp.StdPb.solved"
   ],
   "note": "Exact arithmetic; options with fine enough thresholds."
  },
  {
   "property": "C94",
   "status": "proved",
   "theorems": [
    "JrlQp.C94_warm_agrees",
    "JrlQp.C94_box_agrees",
    "JrlQp.C94_hypotheses_met"
   ],
   "note": "Exact arithmetic; options with fine enough thresholds. The box solver is compared where no variable is fixed by its bounds (a general problem with a fixed variable after an inequality is not a standard problem)."
  },
  {
   "property": "C95",
   "status": "proved",
   "theorems": [
    "JrlQp.C95_independent_parts",
    "JrlQp.C95_hypotheses_met"
   ],
   "note": "Exact arithmetic; options with fine enough thresholds."
  },
  {
   "property": "C96",
   "status": "proved",
   "theorems": [
    "JrlQp.C96_growth",
    "JrlQp.C96_distance",
    "JrlQp.C95_hypotheses_met"
   ],
   "note": "Exact arithmetic; options with fine enough thresholds."
  },
  {
   "property": "C97",
   "status": "proved",
   "theorems": [
    "JrlQp.Log.C97_injective",
    "JrlQp.Log.C97_statuses",
    "JrlQp.Log.C97_solve",
    "JrlQp.Log.C97_hypotheses_met"
   ],
   "note": ""
  },
  {
   "property": "C98",
   "status": "proved",
   "theorems": [
    "JrlQp.C98_solved",
    "JrlQp.C98_duality",
    "JrlQp.C98_shadow_prices",
    "JrlQp.C98_stability",
    "JrlQp.C98_hypotheses_met",
    "JrlQp.C98_shadow_hypotheses_met",
    "JrlQp.warm_exists"
   ],
   "note": "Exact arithmetic; options with fine enough thresholds. The problems have their equality constraints first and the warm start marks no inequality as EQUALITY (counterexamples otherwise in C24)."
  },
  {
   "property": "C99",
   "status": "proved",
   "theorems": [
    "JrlQp.C99_bounds_stability",
    "JrlQp.C99_warm_bounds_stability",
    "JrlQp.C99_hypotheses_met"
   ],
   "note": "Exact arithmetic; options with fine enough thresholds."
  },
  {
   "property": "C100",
   "status": "proved",
   "theorems": [
    "JrlQp.C100_least_squares",
    "JrlQp.C100_recovery",
    "JrlQp.C100_hypotheses_met"
   ],
   "note": "Exact arithmetic; options with fine enough thresholds. Built on C33 (conversion) and C65 (adaptor and solver)."
  },
  {
   "property": "C101",
   "status": "proved",
   "theorems": [
    "JrlQp.C101_fixed_points",
    "JrlQp.C101_obtuse",
    "JrlQp.C101_contraction",
    "JrlQp.C101_hypotheses_met"
   ],
   "note": "Exact arithmetic; options with fine enough thresholds (they exist by C52)."
  },
  {
   "property": "C102",
   "status": "proved",
   "theorems": [
    "JrlQp.C102_objective",
    "JrlQp.C102_warm",
    "JrlQp.C102_concave",
    "JrlQp.C102_hypotheses_met"
   ],
   "note": "Exact arithmetic; options with fine enough thresholds."
  },
  {
   "property": "C103",
   "status": "proved",
   "theorems": [
    "JrlQp.C103_unique",
    "JrlQp.C103_warm",
    "JrlQp.C103_hypotheses_met"
   ],
   "note": "Exact arithmetic; options with fine enough thresholds."
  },
  {
   "property": "C104",
   "status": "proved",
   "theorems": [
    "JrlQp.C104_alternative",
    "JrlQp.C104_infeasible_iff",
    "JrlQp.C104_warm",
    "JrlQp.C104_hypotheses_met"
   ],
   "note": "Exact arithmetic; options with fine enough thresholds. C104_alternative is a statement about the problem data, proved by running the modelled solver."
  }
 ]
}