{
 "claims": [
  {
   "property": "C01",
   "status": "proved",
   "theorems": [
    "DoMpc.C01_scenario_tree_is_tree",
    "DoMpc.C01_empty_horizon_refused"
   ],
   "note": "node counts, unique parent/child, recorded parent; for every horizon, robust horizon, number of combinations"
  },
  {
   "property": "C02",
   "status": "proved",
   "theorems": [
    "DoMpc.C02_nodes_are_histories",
    "DoMpc.C02_nominal_without_robust_horizon",
    "DoMpc.C02_path_parameter_freezes"
   ],
   "note": "nodes = realisation histories; freezing after the robust horizon"
  },
  {
   "property": "C03",
   "status": "proved",
   "theorems": [
    "DoMpc.C03_uncertainty_values",
    "DoMpc.C03_unknown_refused"
   ],
   "note": ""
  },
  {
   "property": "C04",
   "status": "proved",
   "theorems": [
    "DoMpc.C04_C07_rows_iff_discrete",
    "DoMpc.C04_feasible_follows_model",
    "DoMpc.C04_rows_iff_any_discretisation",
    "DoMpc.C04_C10_rows_iff_collocation"
   ],
   "note": "discrete-time models and collocation"
  },
  {
   "property": "C05",
   "status": "proved",
   "theorems": [
    "DoMpc.C05_nonanticipative"
   ],
   "note": ""
  },
  {
   "property": "C06",
   "status": "partial",
   "theorems": [
    "DoMpc.C06_bounds_iff_physical",
    "DoMpc.C06_feasible_nodes_within_bounds",
    "DoMpc.C06_initial_state_unbounded",
    "DoMpc.C06_last_interval_interior_unbounded"
   ],
   "note": "exact characterisation of the bounds; the collocation points inside the last interval are not bounded although cons_check_colloc_points is on (C06_last_interval_interior_unbounded)"
  },
  {
   "property": "C07",
   "status": "partial",
   "theorems": [
    "DoMpc.C07_feasible_respects_constraints",
    "DoMpc.C07_feasible_branch_constraints_partial",
    "DoMpc.C07_fails_algebraic_states",
    "DoMpc.C07_fails_colloc_setting_discrete",
    "DoMpc.C07_colloc_setting_discrete_drops_all"
   ],
   "note": "holds with the default setting at each node; fails on the branch's own algebraic state, and nl_cons_check_colloc_points drops all constraints for discrete models"
  },
  {
   "property": "C08",
   "status": "partial",
   "theorems": [
    "DoMpc.C08_objective_average_partial",
    "DoMpc.C08_fails_full_robust_horizon",
    "DoMpc.C08_fails_algebraic_states",
    "DoMpc.C08_fails_collocation_time"
   ],
   "note": "holds when n_robust < n_horizon and algebraic states do not branch (for collocation with the algebraic states at the end of the interval); counterexamples otherwise"
  },
  {
   "property": "C09",
   "status": "partial",
   "theorems": [
    "DoMpc.C09_default_change_penalty",
    "DoMpc.C09_user_rterm_partial",
    "DoMpc.C09_user_rterm_as_coded",
    "DoMpc.C09_fails_user_rterm_scaled"
   ],
   "note": "default penalty proved; a user rterm receives the scaled previous input"
  },
  {
   "property": "C10",
   "status": "proved",
   "theorems": [
    "DoMpc.C10_collocation_iff",
    "DoMpc.C04_C10_rows_iff_collocation"
   ],
   "note": "collocation points are abstract, distinct and start with 0"
  },
  {
   "property": "C11",
   "status": "proved",
   "theorems": [
    "DoMpc.C11_bookkeeping"
   ],
   "note": ""
  },
  {
   "property": "C12",
   "status": "partial",
   "theorems": [
    "DoMpc.C12_objective_is_policy_cost",
    "DoMpc.C12_feasible_is_admissible",
    "DoMpc.C12_admissible_is_feasible",
    "DoMpc.C12_first_input_of_optimal_policy_partial",
    "DoMpc.C12_solver_problem_feasible_iff",
    "DoMpc.C12_make_step_optimal_partial",
    "DoMpc.C12_objective_collocation",
    "DoMpc.C12_feasible_is_admissible_collocation",
    "DoMpc.C12_admissible_is_feasible_collocation",
    "DoMpc.C12_first_input_collocation_partial",
    "DoMpc.C12_feasible_iff_collocation",
    "DoMpc.C12_fails_user_rterm",
    "DoMpc.C12_fails_full_robust_horizon",
    "DoMpc.C12_fails_make_step"
   ],
   "note": "discrete-time and continuous-time (collocation) models under the conditions in which C07-C09 hold; false of the code with a user-defined rterm and scaled inputs (C12_fails_user_rterm, C12_fails_make_step: no optimal policy starts with the input that make_step returns) and with n_robust = n_horizon (C12_fails_full_robust_horizon)"
  },
  {
   "property": "C13",
   "status": "proved",
   "theorems": [
    "DoMpc.C13_log",
    "DoMpc.C13_solution_row",
    "DoMpc.C14_warm_start",
    "DoMpc.C13_refused"
   ],
   "note": "every call sequence"
  },
  {
   "property": "C14",
   "status": "proved",
   "theorems": [
    "DoMpc.C14_warm_start",
    "DoMpc.queries_are_the_solver_calls"
   ],
   "note": ""
  },
  {
   "property": "C15",
   "status": "proved",
   "theorems": [
    "DoMpc.C15_log",
    "DoMpc.C15_succeeds_iff"
   ],
   "note": ""
  },
  {
   "property": "C16",
   "status": "proved",
   "theorems": [
    "DoMpc.C16_closed_loop"
   ],
   "note": ""
  },
  {
   "property": "C17",
   "status": "proved",
   "theorems": [
    "DoMpc.C17_update_ok_iff",
    "DoMpc.C17_update_appends",
    "DoMpc.C17_update_append_only",
    "DoMpc.C17_widths",
    "DoMpc.C17_query"
   ],
   "note": ""
  },
  {
   "property": "C18",
   "status": "partial",
   "theorems": [
    "DoMpc.C18_mpc_reset_partial",
    "DoMpc.C18_mpc_reset_keeps",
    "DoMpc.C18_simulator_reset",
    "DoMpc.C18_fails_mpc"
   ],
   "note": "the log and the time are reset; the MPC keeps warm start and the previous input, so outputs may differ (C18_fails_mpc)"
  },
  {
   "property": "C19",
   "status": "proved",
   "theorems": [
    "DoMpc.C19_never_destroys",
    "DoMpc.C19_saves",
    "DoMpc.C19_unknown_refused",
    "DoMpc.C19_fails_concurrent"
   ],
   "note": "one process; with two concurrent savers a result can be lost (C19_fails_concurrent)"
  },
  {
   "property": "C20",
   "status": "partial",
   "theorems": [
    "DoMpc.C20_columns_are_scenarios_iff",
    "DoMpc.C20_prediction_is_scenario_partial",
    "DoMpc.C20_fails_robust_horizon_3",
    "DoMpc.C20_fails_full_robust_horizon",
    "DoMpc.C20_fails_algebraic_states"
   ],
   "note": "holds for robust horizon <= 2 (exact condition proved); counterexamples"
  },
  {
   "property": "C21",
   "status": "proved",
   "theorems": [
    "DoMpc.C21_C23_problem",
    "DoMpc.C23_measurements_logged",
    "DoMpc.mhe_queries_are_the_solver_calls"
   ],
   "note": "the window of the last measurements for every call history; padding at the start is the spec Spec.measurementWindow"
  },
  {
   "property": "C22",
   "status": "proved",
   "theorems": [
    "DoMpc.C22_split_merge",
    "DoMpc.C22_exactly_one",
    "DoMpc.C22_merge_selects",
    "DoMpc.C22_unknown_names_ignored"
   ],
   "note": "names in p_est_list that are no parameter of the model are silently ignored"
  },
  {
   "property": "C23",
   "status": "proved",
   "theorems": [
    "DoMpc.C21_C23_problem",
    "DoMpc.C23_log",
    "DoMpc.C23_measurements_logged",
    "DoMpc.C23_reset_keeps_prior"
   ],
   "note": ""
  },
  {
   "property": "C24",
   "status": "partial",
   "theorems": [
    "DoMpc.C24_bounds_iff_partial",
    "DoMpc.C24_bounds_without_colloc",
    "DoMpc.C24_fails_returned_estimate"
   ],
   "note": "exact characterisation of the bounds; the returned estimate may violate them (C24_fails_returned_estimate)"
  },
  {
   "property": "C25",
   "status": "partial",
   "theorems": [
    "DoMpc.C25_rows_iff_as_coded",
    "DoMpc.C25_rows_iff_partial",
    "DoMpc.C25_rows_iff_collocation",
    "DoMpc.C25_fails_scaled_parameters"
   ],
   "note": "holds with unit scaling of estimated parameters"
  },
  {
   "property": "C26",
   "status": "partial",
   "theorems": [
    "DoMpc.C26_constraints_iff_partial",
    "DoMpc.C24_C25_C26_feasible_iff",
    "DoMpc.C26_objective_partial",
    "DoMpc.C26_default_objective",
    "DoMpc.C26_fails_colloc_setting",
    "DoMpc.C26_fails_current_estimate"
   ],
   "note": "false for the current estimate (never constrained) and for nl_cons_check_colloc_points with discrete-time models (raises); proved for unscaled estimated parameters and the default settings"
  },
  {
   "property": "C27",
   "status": "proved",
   "theorems": [
    "DoMpc.C27_setup_iff",
    "DoMpc.C27_functions",
    "DoMpc.C27_frozen",
    "DoMpc.C27_refused_no_effect"
   ],
   "note": "every history of configuration calls without repeated names (repeated names are left to CasADi)"
  },
  {
   "property": "C28",
   "status": "partial",
   "theorems": [
    "DoMpc.C28_set_variable_partial",
    "DoMpc.C28_fails_timevarying_parameter"
   ],
   "note": "exact set of accepted strings; timevarying_parameter is refused"
  },
  {
   "property": "C29",
   "status": "partial",
   "theorems": [
    "DoMpc.C29_duplicate_variable_partial",
    "DoMpc.C29_fails_second_rhs",
    "DoMpc.C27_functions"
   ],
   "note": "variables proved; a second right-hand side silently replaces the first"
  },
  {
   "property": "C30",
   "status": "proved",
   "theorems": [
    "DoMpc.C30_state_feedback",
    "DoMpc.C27_functions"
   ],
   "note": ""
  },
  {
   "property": "C31",
   "status": "partial",
   "theorems": [
    "DoMpc.C31_setup",
    "DoMpc.C31_setup_no_D",
    "DoMpc.C31_setup_state_feedback",
    "DoMpc.C31_setup_appends_meas",
    "DoMpc.C31_setup_equations",
    "DoMpc.C31_setup_refuses",
    "DoMpc.C31_setup_refines_model",
    "DoMpc.C31_discretize_partial",
    "DoMpc.C31_discretize_refuses_discrete",
    "DoMpc.C31_fails_discretize_drops_D",
    "DoMpc.C31_fails_shapes_unchecked"
   ],
   "note": "setup proved for all matrices and for equations; the shapes of C and D are not checked (C31_fails_shapes_unchecked); discretize drops the feed-through matrix D"
  },
  {
   "property": "C32",
   "status": "partial",
   "theorems": [
    "DoMpc.C32_state_from_input",
    "DoMpc.C32_input_from_state_square",
    "DoMpc.C32_input_from_state_partial",
    "DoMpc.C32_fails_no_equilibrium",
    "DoMpc.C32_fails_singular_A",
    "DoMpc.C32_both_given"
   ],
   "note": "returned states are steady; returned inputs are if B is square or an equilibrium exists; refused for singular A although a steady state exists"
  },
  {
   "property": "C33",
   "status": "partial",
   "theorems": [
    "DoMpc.C33_partial",
    "DoMpc.C33_first_order",
    "DoMpc.C33_fails_identity_C_with_D"
   ],
   "note": "exact unless C = I and D is not 0, in which case the call raises"
  },
  {
   "property": "C34",
   "status": "proved",
   "theorems": [
    "DoMpc.C34_gain_optimal",
    "DoMpc.C34_horizon_zero",
    "DoMpc.C34_make_step_optimal",
    "DoMpc.C34_make_step_optimal_rate",
    "DoMpc.C34_default_terminal_weight"
   ],
   "note": "exact arithmetic; every horizon >= 1 (horizon 0 raises); also for the inputs returned by make_step in both modes"
  },
  {
   "property": "C35",
   "status": "partial",
   "theorems": [
    "DoMpc.C35_standard",
    "DoMpc.C35_rate_partial",
    "DoMpc.C35_fails_row_vector"
   ],
   "note": "false for states given as row vectors; proved for column vectors, with and without input rate penalty"
  },
  {
   "property": "C36",
   "status": "partial",
   "theorems": [
    "DoMpc.C36_standard",
    "DoMpc.C36_rate_partial",
    "DoMpc.C36_fails_rate_one_argument",
    "DoMpc.C36_fails_rate_input_lost"
   ],
   "note": "standard mode proved; in rate mode set_setpoint with one argument, or a second call, breaks or distorts the augmented set point"
  },
  {
   "property": "C37",
   "status": "partial",
   "theorems": [
    "DoMpc.C37_setup_succeeds_iff",
    "DoMpc.C37_setup_problem",
    "DoMpc.C37_setup_returns_iff",
    "DoMpc.C37_configured_problem",
    "DoMpc.C37_guarded",
    "DoMpc.C37_frozen",
    "DoMpc.C37_create_again",
    "DoMpc.C37_fails_settings",
    "DoMpc.C37_fails_objective_after_prepare",
    "DoMpc.C37_fails_scaling_after_prepare",
    "DoMpc.C37_lqr_objective",
    "DoMpc.C37_fails_lqr_set_rterm"
   ],
   "note": "the solver problem and the guarded configuration are frozen; settings, calls between prepare_nlp and create_nlp, and LQR.set_rterm are not"
  },
  {
   "property": "C38",
   "status": "partial",
   "theorems": [
    "DoMpc.C38_read_back",
    "DoMpc.C38_history_partial",
    "DoMpc.C38_effect_partial",
    "DoMpc.C38_effect_state",
    "DoMpc.C38_opt_bound",
    "DoMpc.C38_fails_terminal_read",
    "DoMpc.C38_fails_terminal_no_effect",
    "DoMpc.C38_fails_terminal_changes_path",
    "DoMpc.C38_fails_opt_bound_read",
    "DoMpc.C38_fails_opt_bound_overwritten"
   ],
   "note": "state, input and algebraic bounds; false for terminal bounds and for lb_opt_x/ub_opt_x"
  },
  {
   "property": "C39",
   "status": "partial",
   "theorems": [
    "DoMpc.IP.C39_statement_partial",
    "DoMpc.IP.C39_partial",
    "DoMpc.IP.C39_others_untouched",
    "DoMpc.IP.C39_fails_augmented_assignment",
    "DoMpc.IP.C39_fails_held_reference",
    "DoMpc.IP.C39_fails_index_expression",
    "DoMpc.IP.C39_fails_index_read",
    "DoMpc.IP.C39_fails_threads",
    "DoMpc.IP.C39_fails_whole_assignment"
   ],
   "note": "false for augmented assignments with another object on the right, held references, index expressions, threads"
  },
  {
   "property": "C40",
   "status": "partial",
   "theorems": [
    "DoMpc.C40_partial",
    "DoMpc.C40_fails_soft_constraint",
    "DoMpc.C40_fails_terminal",
    "DoMpc.C40_fails_warm_start",
    "DoMpc.C40_lqr_standard",
    "DoMpc.C40_fails_lqr_rate"
   ],
   "note": "MPC: without soft constraints with a penalty, with the terminal bounds and use_terminal_bounds left unchanged; LQR standard mode; the rest is false (counterexamples)"
  },
  {
   "property": "C41",
   "status": "partial",
   "theorems": [
    "DoMpc.C41_ids_distinct",
    "DoMpc.C41_variables",
    "DoMpc.C41_add_case",
    "DoMpc.C41_refused",
    "DoMpc.C41_gen",
    "DoMpc.C41_product",
    "DoMpc.C41_fails_variable_named_id"
   ],
   "note": "holds unless a variable is itself named id (C41_fails_variable_named_id)"
  },
  {
   "property": "C42",
   "status": "partial",
   "theorems": [
    "DoMpc.C42_resume_partial",
    "DoMpc.C42_success_is_complete",
    "DoMpc.C42_existing_files_kept",
    "DoMpc.C42_index_refused",
    "DoMpc.C42_fails_torn_file",
    "DoMpc.C42_fails_pkl_in_name"
   ],
   "note": "every interruption between effects; a process killed inside the write leaves a torn file taken for finished"
  },
  {
   "property": "C43",
   "status": "partial",
   "theorems": [
    "DoMpc.C43_get_partial",
    "DoMpc.C43_filter_partial",
    "DoMpc.C43_get_configured_partial",
    "DoMpc.C43_filter_configured_partial",
    "DoMpc.C43_fails_cached_missing",
    "DoMpc.C43_fails_dir_change",
    "DoMpc.C43_fails_sequence_index",
    "DoMpc.C43_fails_filter_locals"
   ],
   "note": "holds for every query history while files are unchanged, also if data_dir and the post-processing functions are assigned before the first query; counterexamples otherwise"
  },
  {
   "property": "C44",
   "status": "partial",
   "theorems": [
    "DoMpc.C44_export_partial",
    "DoMpc.C44_fails_name_with_pkl",
    "DoMpc.C44_fails_exhausted"
   ],
   "note": "holds for names without .pkl inside"
  },
  {
   "property": "C45",
   "status": "partial",
   "theorems": [
    "DoMpc.Struct.C45_query",
    "DoMpc.Struct.C45_round_trip_partial",
    "DoMpc.Struct.C45_overwrite_scalar",
    "DoMpc.Struct.C45_others_unaffected",
    "DoMpc.Struct.C45_get_index",
    "DoMpc.Struct.C45_slice",
    "DoMpc.Struct.C45_slice_layout",
    "DoMpc.Struct.C45_full_slice",
    "DoMpc.Struct.C45_fails_shorter_list",
    "DoMpc.Struct.C45_fails_scalar_over_list",
    "DoMpc.Struct.C45_fails_list_over_scalar"
   ],
   "note": "queries and slices proved; an assignment over an existing entry of another shape leaves or loses entries (counterexamples)"
  },
  {
   "property": "C46",
   "status": "partial",
   "theorems": [
    "DoMpc.Opc.C46_partial",
    "DoMpc.Opc.C46_periodic",
    "DoMpc.Opc.C46_pending_le_starts_partial",
    "DoMpc.Opc.C46_fails_race",
    "DoMpc.Opc.C46_fails_two_triggers",
    "DoMpc.Opc.C46_fails_overlap",
    "DoMpc.Opc.C46_fails_lost_trigger",
    "DoMpc.Opc.C46_stop_before_start"
   ],
   "note": "proved if methods do not interrupt each other; in every interleaving the pending triggers are at most the start calls; false in general: a stop can be lost for ever"
  },
  {
   "property": "C47",
   "status": "partial",
   "theorems": [
    "DoMpc.Opc.C47_round_trip_partial",
    "DoMpc.Opc.C47_wrong_size_refused",
    "DoMpc.Opc.C47_fails_repeated_tag",
    "DoMpc.Opc.C47_missing_tag",
    "DoMpc.Opc.C47_fails_unknown_tag"
   ],
   "note": "pairwise different existing tags"
  },
  {
   "property": "C48",
   "status": "partial",
   "theorems": [
    "DoMpc.Opc.C48_distinct_partial",
    "DoMpc.Opc.C48_default_namespace",
    "DoMpc.Opc.C48_default_entries",
    "DoMpc.Opc.C48_fails_ambiguous_names",
    "DoMpc.Opc.C48_fails_registered_twice",
    "DoMpc.Opc.C48_fails_default_name"
   ],
   "note": "proved for default namespaces of every model; false for user-chosen names and for registering a client twice"
  },
  {
   "property": "C49",
   "status": "partial",
   "theorems": [
    "DoMpc.Diff.C49_partition",
    "DoMpc.Diff.C49_multiplier_map",
    "DoMpc.Diff.C49_fails_set_lam_zero"
   ],
   "note": "proved; the setting set_lam_zero makes every call raise"
  },
  {
   "property": "C50",
   "status": "partial",
   "theorems": [
    "DoMpc.Diff.C50_partition",
    "DoMpc.Diff.C50_map_back",
    "DoMpc.Diff.C50_wrong_length_refused",
    "DoMpc.Diff.C50_fails_wrong_length_accepted"
   ],
   "note": "index maps proved; a parameter vector of the wrong length is accepted if anything was removed"
  },
  {
   "property": "C51",
   "status": "partial",
   "theorems": [
    "DoMpc.C51_logged_aux_exact",
    "DoMpc.C51_logged_aux_partial",
    "DoMpc.C51_fails_aux_of_previous_input",
    "DoMpc.C51_fails_algebraic_state"
   ],
   "note": "exact description of what is logged; counterexamples for the stale input and algebraic state"
  },
  {
   "property": "C52",
   "status": "partial",
   "theorems": [
    "DoMpc.C52_logged_aux_exact",
    "DoMpc.C52_logged_aux_partial",
    "DoMpc.C52_fails_robust"
   ],
   "note": "false with a robust horizon (parameters of the last branch are logged); exact description proved, and the property without robust horizon"
  },
  {
   "property": "C53",
   "status": "partial",
   "theorems": [
    "DoMpc.C53_independent_partial",
    "DoMpc.C53_shared_structure",
    "DoMpc.C53_constructor_private",
    "DoMpc.C53_sizes",
    "DoMpc.C53_fails_shared"
   ],
   "note": "holds for attributes not involved in an assignment of a structure; a.x0 = b.x0 shares the object"
  },
  {
   "property": "C54",
   "status": "partial",
   "theorems": [
    "DoMpc.C54_make_step_succeeds_iff",
    "DoMpc.C54_fails_return_status"
   ],
   "note": "exact condition; the documented statistic return_status cannot be stored"
  },
  {
   "property": "C55",
   "status": "partial",
   "theorems": [
    "DoMpc.C55_set_time_partial",
    "DoMpc.C55_fails_dm"
   ],
   "note": "every DM is refused"
  },
  {
   "property": "C56",
   "status": "partial",
   "theorems": [
    "DoMpc.C56_mpc_initial_guess",
    "DoMpc.C56_mpc_first_call",
    "DoMpc.C56_mhe_initial_guess",
    "DoMpc.C56_mhe_first_call",
    "DoMpc.C56_fails_mhe_prior_without_guess"
   ],
   "note": "holds; an estimator without the call ignores x0 (prior 0)"
  },
  {
   "property": "C57",
   "status": "proved",
   "theorems": [
    "DoMpc.C57_infinite_horizon",
    "DoMpc.C57_error_propagates"
   ],
   "note": "relative to the solution of the Riccati equation returned by SciPy"
  },
  {
   "property": "C58",
   "status": "proved",
   "theorems": [
    "DoMpc.Diff.C58_linearized_kkt"
   ],
   "note": "relative to correct derivatives (CasADi) and a linear solver that returns solutions"
  },
  {
   "property": "C59",
   "status": "partial",
   "theorems": [
    "DoMpc.Diff.C59_derivative_partial",
    "DoMpc.Diff.C59_do_mpc_partial",
    "DoMpc.Diff.C59_derivative_checked_partial",
    "DoMpc.Diff.C59_sensitivity_partial",
    "DoMpc.Diff.C59_sensitivity_do_mpc_partial",
    "DoMpc.Diff.C59_solution_partial",
    "DoMpc.Diff.C59_solution_along_partial",
    "DoMpc.Diff.C59_fails_tolerance",
    "DoMpc.Diff.C59_fails_stale_bounds"
   ],
   "note": "proved (C59_sensitivity_partial for the path of first-order points, C59_solution_partial for every continuous choice of global minimisers, which near the given solution are the only ones) if the status reports LICQ and strict complementarity, the condition of second order holds, the functions are continuously differentiable and the tolerance is positive: then the solution is differentiable and the returned matrices are its derivatives; also (C59_derivative_partial) for differentiable solution paths with a constant active set.  False close to inactive bounds (where strict complementarity is reported to fail) and after changing bounds"
  },
  {
   "property": "C60",
   "status": "partial",
   "theorems": [
    "DoMpc.Dae.C60_solutions_partial",
    "DoMpc.Dae.C60_succeeds_iff",
    "DoMpc.Dae.C60_configured_variables",
    "DoMpc.Dae.C60_configured",
    "DoMpc.Dae.C60_discrete_partial",
    "DoMpc.Dae.C60_fails_vector_input",
    "DoMpc.Dae.C60_fails_noise_order",
    "DoMpc.Dae.C60_fails_discrete",
    "DoMpc.Dae.C60_fails_tvp"
   ],
   "note": "continuous time, scalar inputs, noise in the order of the states, constant parameters: solutions coincide; counterexamples for vector inputs, noise order, discrete time and time-varying parameters"
  },
  {
   "property": "C61",
   "status": "proved",
   "theorems": [
    "DoMpc.Onnx.C61_evaluation",
    "DoMpc.Onnx.C61_succeeds_iff",
    "DoMpc.Onnx.C61_history"
   ],
   "note": "tensors and operators are arbitrary; the values of the queries are the unique solution of the graph equations"
  },
  {
   "property": "C62",
   "status": "partial",
   "theorems": [
    "DoMpc.Onnx.C62_tanh",
    "DoMpc.Onnx.C62_sigmoid",
    "DoMpc.Onnx.C62_relu",
    "DoMpc.Onnx.C62_elu_partial",
    "DoMpc.Onnx.C62_matmul",
    "DoMpc.Onnx.C62_mul",
    "DoMpc.Onnx.C62_sub",
    "DoMpc.Onnx.C62_add",
    "DoMpc.Onnx.C62_gemm_partial",
    "DoMpc.Onnx.C62_concat_rows",
    "DoMpc.Onnx.C62_concat_columns",
    "DoMpc.Onnx.C62_slice_one_axis_partial",
    "DoMpc.Onnx.C62_slice_two_axes_partial",
    "DoMpc.Onnx.C62_slice",
    "DoMpc.Onnx.C62_fails_slice_other_attribute",
    "DoMpc.Onnx.C62_reshape_partial",
    "DoMpc.Onnx.C62_broadcast_partial",
    "DoMpc.Onnx.C62_dense_layer",
    "DoMpc.Onnx.C62_fails_broadcast_row",
    "DoMpc.Onnx.C62_fails_elu_alpha",
    "DoMpc.Onnx.C62_fails_gemm_without_bias",
    "DoMpc.Onnx.C62_fails_gemm_row_bias",
    "DoMpc.Onnx.C62_fails_concat_negative_axis",
    "DoMpc.Onnx.C62_fails_slice_defaults",
    "DoMpc.Onnx.C62_fails_reshape"
   ],
   "note": "real arithmetic, matrices; false for Elu with alpha, Gemm without bias or with a row bias on a batch, Concat axis -2, Slice without axes, Reshape of matrices"
  },
  {
   "property": "C63",
   "status": "partial",
   "theorems": [
    "DoMpc.Onnx.C63_names_refused",
    "DoMpc.Onnx.C63_length_refused_partial",
    "DoMpc.Onnx.C63_fails_two_dimensional",
    "DoMpc.Onnx.C63_fails_verbose",
    "DoMpc.Onnx.C63_fails_variable_length"
   ],
   "note": "names and one-dimensional lengths are checked; two-dimensional shapes are not, an input named verbose and vectors of variable length can never be converted"
  },
  {
   "property": "C64",
   "status": "partial",
   "theorems": [
    "DoMpc.C64_aux_exact",
    "DoMpc.C64_aux_partial",
    "DoMpc.C64_fails_robust_horizon",
    "DoMpc.C64_tvp_partial",
    "DoMpc.C64_fails_vector_tvp",
    "DoMpc.C64_cache",
    "DoMpc.C64_fails_parameters"
   ],
   "note": "exact result for auxiliary expressions; within the robust horizon the parameter of the last branch is used; scalar time-varying parameters only; parameters are refused; the cache is transparent"
  },
  {
   "property": "C65",
   "status": "partial",
   "theorems": [
    "DoMpc.Gfx.C65_results_partial",
    "DoMpc.Gfx.C65_predictions_partial",
    "DoMpc.Gfx.C65_fails_added_twice",
    "DoMpc.Gfx.C65_fails_clear",
    "DoMpc.Gfx.C65_fails_index",
    "DoMpc.Gfx.C65_fails_empty",
    "DoMpc.Gfx.C65_fails_parameter"
   ],
   "note": "proved for all call sequences in which no variable is added twice; a variable added twice is not updated on its first axis, clear keeps predictions, the empty record and the index behind the end raise"
  },
  {
   "property": "C66",
   "status": "partial",
   "theorems": [
    "DoMpc.Gfx.C66_default_plot_partial",
    "DoMpc.Gfx.C66_fails_dae"
   ],
   "note": "proved without a list of algebraic states; such a list is compared with the inputs and refused"
  },
  {
   "property": "C67",
   "status": "partial",
   "theorems": [
    "DoMpc.Gfx.C67_frames_partial",
    "DoMpc.Gfx.C67_fails_simulator",
    "DoMpc.Gfx.C67_fails_overwrite",
    "DoMpc.Gfx.C67_file_partial"
   ],
   "note": "frames proved for controller data; simulator and estimator data cannot be animated; the search for a free name looks at .pkl files, so that animations are overwritten"
  },
  {
   "property": "C68",
   "status": "proved",
   "theorems": [
    "DoMpc.C68_robust_constraint_satisfaction"
   ],
   "note": "closed loop of any length; discrete-time models, C76 for continuous time"
  },
  {
   "property": "C69",
   "status": "proved",
   "theorems": [
    "DoMpc.C69_plan_is_reproduced"
   ],
   "note": "discrete-time models"
  },
  {
   "property": "C70",
   "status": "proved",
   "theorems": [
    "DoMpc.C70_recursive_feasibility"
   ],
   "note": "nominal controller, discrete-time models, terminal box control invariant; C77 for continuous time"
  },
  {
   "property": "C71",
   "status": "proved",
   "theorems": [
    "DoMpc.C71_closed_loop_cost",
    "DoMpc.C71_performance_bound"
   ],
   "note": "nominal controller, discrete-time models; C78 for continuous time"
  },
  {
   "property": "C72",
   "status": "partial",
   "theorems": [
    "DoMpc.C72_minimiser_iff",
    "DoMpc.C72_estimates_partial",
    "DoMpc.MheFails.C72_fails_scaled_parameters"
   ],
   "note": "discrete-time models, default collocation settings, unscaled estimated parameters; with a scaled estimated parameter the property is false (C72_fails_scaled_parameters)"
  },
  {
   "property": "C73",
   "status": "partial",
   "theorems": [
    "DoMpc.C73_exact_estimates_partial",
    "DoMpc.MheFails.C73_fails_scaled_parameters"
   ],
   "note": "same fragment as C72, false outside it (C73_fails_scaled_parameters); C80 covers continuous-time models"
  },
  {
   "property": "C74",
   "status": "proved",
   "theorems": [
    "DoMpc.C74_robust_recursive_feasibility",
    "DoMpc.C74_safe_for_ever"
   ],
   "note": "discrete-time models, robust horizon = horizon (with a shorter one, parameters that keep changing after it are not covered by the plan), no algebraic variables unless one realisation"
  },
  {
   "property": "C75",
   "status": "proved",
   "theorems": [
    "DoMpc.C75_output_feedback",
    "DoMpc.C75_recursive_feasibility",
    "DoMpc.C75_robust_recursive_feasibility"
   ],
   "note": "discrete-time models, no noise, unscaled estimated parameters, default collocation settings"
  },
  {
   "property": "C76",
   "status": "proved",
   "theorems": [
    "DoMpc.C76_robust_constraint_satisfaction"
   ],
   "note": "plant and controller agree in the sense that the integrator ends where the collocation solution ends"
  },
  {
   "property": "C77",
   "status": "partial",
   "theorems": [
    "DoMpc.C77_recursive_feasibility_partial",
    "DoMpc.C77_robust_recursive_feasibility_partial",
    "DoMpc.C77_fails_collocation_points"
   ],
   "note": "false with cons_check_colloc_points (the default): the interior of the last interval is not bounded; proved without it or if no admissible trajectory leaves the state bounds on its way into the terminal set"
  },
  {
   "property": "C78",
   "status": "partial",
   "theorems": [
    "DoMpc.C78_closed_loop_cost_partial",
    "DoMpc.C78_fails_collocation_points"
   ],
   "note": "false with cons_check_colloc_points (the default), as C77; proved under the condition of C77; stage cost without algebraic states (C08_fails_collocation_time)"
  },
  {
   "property": "C79",
   "status": "proved",
   "theorems": [
    "DoMpc.C79_loop_runs",
    "DoMpc.C79_loop_stops_iff"
   ],
   "note": "closed loop with state feedback"
  },
  {
   "property": "C80",
   "status": "partial",
   "theorems": [
    "DoMpc.C80_minimiser_is_best",
    "DoMpc.C80_estimates_partial",
    "DoMpc.C80_exact_estimates_partial",
    "DoMpc.C80_fails_algebraic_measurement"
   ],
   "note": "false if measurements depend on algebraic states (taken at the start of the interval); proved otherwise, with the default settings for the collocation points and unscaled estimated parameters"
  },
  {
   "property": "C81",
   "status": "proved",
   "theorems": [
    "DoMpc.C81_make_step_succeeds_iff",
    "DoMpc.C81_estimator_runs",
    "DoMpc.C81_output_feedback_runs"
   ],
   "note": "every call of mhe.make_step and every iteration of the loop, for arbitrary solvers"
  },
  {
   "property": "C82",
   "status": "partial",
   "theorems": [
    "DoMpc.C82_output_feedback_partial",
    "DoMpc.C82_recursive_feasibility_partial",
    "DoMpc.C82_robust_recursive_feasibility_partial",
    "DoMpc.C82_fails_algebraic_measurement"
   ],
   "note": "only for measurements that do not depend on algebraic states (false otherwise: C82_fails_algebraic_measurement); default settings for the collocation points, unscaled estimated parameters; recursive feasibility under the hypotheses of C77"
  },
  {
   "property": "C83",
   "status": "partial",
   "theorems": [
    "DoMpc.C83_log_exact",
    "DoMpc.C83_exact_log_partial",
    "DoMpc.C83_fails_aux_is_not_of_the_row"
   ],
   "note": "what every row holds is proved exactly for every history; the rows are not self-consistent (state and parameters are the previous estimate, auxiliary values come from the new one); with exact data and priors they are (fragment of C72/C73)"
  },
  {
   "property": "C84",
   "status": "partial",
   "theorems": [
    "DoMpc.C84_setup_succeeds_iff",
    "DoMpc.C84_frozen",
    "DoMpc.C84_log_partial",
    "DoMpc.C84_fails_settings",
    "DoMpc.C84_fails_setup_again"
   ],
   "note": "proved as long as neither settings is assigned nor setup called again; settings.t_step is not guarded after setup (clock and plant then drift apart) and a second setup makes the next row log aux as 0"
  },
  {
   "property": "C85",
   "status": "proved",
   "theorems": [
    "DoMpc.C85_consistent_start",
    "DoMpc.C85_refused_before_setup"
   ],
   "note": "the optimisation that CasADi performs is a hypothesis: it returns a solution of the algebraic equations if there is one"
  },
  {
   "property": "C86",
   "status": "partial",
   "theorems": [
    "DoMpc.C86_guarded",
    "DoMpc.C86_frozen",
    "DoMpc.C86_create_again",
    "DoMpc.C86_bounds_read_back",
    "DoMpc.C86_bounds_effect_partial",
    "DoMpc.C86_setup_succeeds_iff",
    "DoMpc.C86_setup_problem",
    "DoMpc.C86_setup_returns_iff",
    "DoMpc.C86_configured_problem",
    "DoMpc.C86_opt_bound",
    "DoMpc.C86_measurements_partial",
    "DoMpc.C86_fails_settings",
    "DoMpc.C86_fails_setup_again",
    "DoMpc.C86_fails_parameter_bounds"
   ],
   "note": "proved as long as neither settings is assigned nor the problem rebuilt; settings.n_horizon is not guarded (stale measurements), a second setup with another horizon keeps the old measurement template, crossing bounds of estimated parameters are accepted"
  },
  {
   "property": "C87",
   "status": "proved",
   "theorems": [
    "DoMpc.C87_standard_law",
    "DoMpc.C87_rate_law",
    "DoMpc.C87_standard_cost",
    "DoMpc.C87_rate_cost",
    "DoMpc.C87_standard_converges",
    "DoMpc.C87_rate_converges",
    "DoMpc.LqrLoopEx.C87_finite_horizon_may_diverge"
   ],
   "note": "convergence over the real numbers, the rest over every ordered field; with input rate penalty every set_setpoint call gives both set points (otherwise C36_fails_*); a finite horizon guarantees nothing of the kind (C87_finite_horizon_may_diverge)"
  },
  {
   "property": "C88",
   "status": "partial",
   "theorems": [
    "DoMpc.Opc.C88_steps",
    "DoMpc.Opc.C88_mpc_loop",
    "DoMpc.Opc.C88_uninterrupted",
    "DoMpc.Opc.C88_undisturbed",
    "DoMpc.Opc.C88_reading_partial",
    "DoMpc.Opc.C88_fails_torn"
   ],
   "note": "proved for every order of whole steps; if requests of two clients interleave, a reader may get components of different vectors (C88_fails_torn): proved then that each component is recent, and the whole vector if no write overlaps the reading"
  },
  {
   "property": "C89",
   "status": "partial",
   "theorems": [
    "DoMpc.Sym.C89_setup",
    "DoMpc.Sym.C89_functions",
    "DoMpc.Sym.C89_coherent",
    "DoMpc.Sym.C89_handles",
    "DoMpc.Sym.C89_derived_refused",
    "DoMpc.Sym.C89_getstate",
    "DoMpc.Sym.C89_setstate",
    "DoMpc.Sym.C89_setstate_iterate",
    "DoMpc.Sym.C89_other_model_refused",
    "DoMpc.Sym.C89_tuple_partial",
    "DoMpc.Sym.C89_fails_tuple",
    "DoMpc.Sym.C89_fails_meas_expression"
   ],
   "note": "Proved for all histories and expressions. False of the code: model['x','v'] is refused although model['v'] works (C89_fails_tuple); what set_meas returns contains the noise symbol and makes setup raise when it is used in set_expression/set_rhs (C89_fails_meas_expression). Refinement of the functional model of C27 (Model/ModelBuilder.lean), so C27, C29, C30 apply to the symbolic program."
  },
  {
   "property": "C90",
   "status": "partial",
   "theorems": [
    "DoMpc.Settings.C90_settings_partial",
    "DoMpc.Settings.C90_independent_partial",
    "DoMpc.Settings.C90_defaults_partial",
    "DoMpc.Settings.C90_set_param_partial",
    "DoMpc.Settings.C90_assign_partial",
    "DoMpc.Settings.C90_mutate_partial",
    "DoMpc.Settings.C90_setup_partial",
    "DoMpc.Settings.C90_frozen",
    "DoMpc.Settings.C90_replace_ignored",
    "DoMpc.Settings.C90_fails_integration_opts",
    "DoMpc.Settings.C90_fails_mpc_argument",
    "DoMpc.Settings.C90_fails_mpc_argument_ex",
    "DoMpc.Settings.C90_fails_shared_object",
    "DoMpc.Settings.C90_fails_frozen_shared",
    "DoMpc.Settings.C90_fails_shared_dict",
    "DoMpc.Settings.C90_fails_frozen_assign",
    "DoMpc.Settings.C90_fails_misspelled",
    "DoMpc.Settings.C90_fails_method"
   ],
   "note": "Proved for all histories without sharing and without in-place changes of integration_opts. False of the code: integration_opts is one dictionary for all continuous-time simulators (C90_fails_integration_opts); MPC ignores its settings argument; MHE and LQR settings can be shared and then change after setup; assignments are not guarded after setup; misspelled assignments are accepted; set_param can overwrite methods."
  },
  {
   "property": "C91",
   "status": "partial",
   "theorems": [
    "DoMpc.Diff.C91_licq",
    "DoMpc.Diff.C91_full_rank",
    "DoMpc.Diff.C91_sc_partial",
    "DoMpc.Diff.C91_residual",
    "DoMpc.Diff.C91_certificate",
    "DoMpc.Diff.C91_history_partial",
    "DoMpc.Diff.C91_never_checked",
    "DoMpc.Diff.C91_fails_stale",
    "DoMpc.Diff.C91_fails_sc_removed",
    "DoMpc.Diff.C91_fails_lse"
   ],
   "note": "LICQ, full_rank and residuals are proved to mean what they claim for the NLP of the user. False of the code: a field keeps the result of an earlier call when the check is switched off (C91_fails_stale); SC ignores active bounds of variables that do not occur in the problem (C91_fails_sc_removed); lse_solved is true with a least squares solver even if the system has no solution (C91_fails_lse)."
  },
  {
   "property": "C92",
   "status": "partial",
   "theorems": [
    "DoMpc.C92_configuration",
    "DoMpc.C92_pipeline_partial",
    "DoMpc.C92_data_dir",
    "DoMpc.C92_data_dir_handler",
    "DoMpc.C92_accepted_iff",
    "DoMpc.C92_refused",
    "DoMpc.C92_fails_data_dir_param",
    "DoMpc.C92_fails_id_argument",
    "DoMpc.C92_fails_missing_argument"
   ],
   "note": "The configuration after any history of calls, and the pipeline for all plans, functions that can be called and directories, are proved. False of the code: Sampler(plan, data_dir=...) only prints a message and samples to ./ while DataHandler(plan, data_dir=...) reads the given directory (C92_fails_data_dir_param); set_sample_function accepts functions with a parameter id or without a parameter for a variable of the plan, which raise at sampling (C92_fails_id_argument, C92_fails_missing_argument)."
  },
  {
   "property": "C93",
   "status": "partial",
   "theorems": [
    "DoMpc.Opc.C93_tags",
    "DoMpc.Opc.C93_closed_loop",
    "DoMpc.Opc.C93_fails_same_name"
   ],
   "note": "Proved for all numbers of clients with different names. False of the code for two clients of the same name: they get the same namespace index and the second registration raises (C93_fails_same_name)."
  },
  {
   "property": "C94",
   "status": "proved",
   "theorems": [
    "DoMpc.C94_files"
   ],
   "note": "All files, all plans, all configurations with data_dir, sample_name, save_format and overwrite of the types modelled, including runs that raise."
  },
  {
   "property": "C95",
   "status": "proved",
   "theorems": [
    "DoMpc.Custom.C95_custom_problem",
    "DoMpc.Custom.C95_sizes",
    "DoMpc.Custom.C95_frozen",
    "DoMpc.Custom.C95_new_bounds",
    "DoMpc.Custom.C95_mpc",
    "DoMpc.Custom.C95_mhe"
   ],
   "note": "For all sequences of edits; MPC and MHE instances relate the result to the problem that setup() would have created."
  },
  {
   "property": "C96",
   "status": "proved",
   "theorems": [
    "DoMpc.C96_returned_input",
    "DoMpc.C96_solvable",
    "DoMpc.C96_solvable_collocation",
    "DoMpc.C96_returned_input_collocation"
   ],
   "note": "End to end from the calls to the input: combines C37, C38 and C12. The conditions are those of the statement; counterexamples without them are C07_fails_*, C08_fails_*, C09_fails_*, C12_fails_*. Discrete time and collocation."
  },
  {
   "property": "C97",
   "status": "proved",
   "theorems": [
    "DoMpc.C97_estimate",
    "DoMpc.C97_estimate_collocation"
   ],
   "note": "End to end from the calls to the estimate: combines C86 and C72 (C80 for collocation). The conditions are those of the statement; counterexamples without them are C24_fails_*, C26_fails_*, C72_fails_*, C80_fails_*."
  },
  {
   "property": "C98",
   "status": "proved",
   "theorems": [
    "DoMpc.C98_accepted",
    "DoMpc.C98_read",
    "DoMpc.C98_no_alias",
    "DoMpc.C98_cover",
    "DoMpc.C98_variable",
    "DoMpc.C98_opt_x_round_trip",
    "DoMpc.C98_opt_p_round_trip",
    "DoMpc.C98_opt_x_vector",
    "DoMpc.C98_opt_p_vector",
    "DoMpc.C98_size",
    "DoMpc.C98_rows_congr",
    "DoMpc.C98_obj_congr",
    "DoMpc.C98_flat_feasible",
    "DoMpc.C98_same_problem",
    "DoMpc.C98_minimiser",
    "DoMpc.C98_unscaled"
   ],
   "note": "The order of CasADi's structures (entries in order, last repeat index fastest) is taken from its documentation. The condition that the integrator uses only its own collocation points is proved for the discrete and the collocation integrator (discrete_ownPoints, collocation_ownPoints)."
  },
  {
   "property": "C99",
   "status": "proved",
   "theorems": [
    "DoMpc.C99_kkt_feasible",
    "DoMpc.C99_sens_num",
    "DoMpc.C99_feedback_gain",
    "DoMpc.C99_sens_num_partial",
    "DoMpc.C99_feedback_gain_partial",
    "DoMpc.FlatEx.C99_fails_documented_index"
   ],
   "note": "C99_sens_num and C99_feedback_gain: for every continuous selection of global solutions of the MPC problem; the _partial versions are for a given path of first-order points. That the solution is differentiable is proved, not assumed. Remark: the index indexf['_x',0,0] of the class docstring is refused (C99_fails_documented_index)."
  },
  {
   "property": "C100",
   "status": "proved",
   "theorems": [
    "DoMpc.C100_opt_x_round_trip",
    "DoMpc.C100_opt_p_round_trip",
    "DoMpc.C100_opt_x_vector",
    "DoMpc.C100_opt_p_vector",
    "DoMpc.C100_size",
    "DoMpc.C100_rows_congr",
    "DoMpc.C100_obj_congr",
    "DoMpc.C100_flat_feasible",
    "DoMpc.C100_same_problem",
    "DoMpc.C100_minimiser",
    "DoMpc.C100_unscaled"
   ],
   "note": "the power indices themselves are C98 (any structure)."
  },
  {
   "property": "C101",
   "status": "proved",
   "theorems": [
    "DoMpc.C101_sens_num",
    "DoMpc.C101_estimator_gain"
   ],
   "note": "for every continuous selection of global solutions of the estimation problem; differentiability is proved, not assumed."
  },
  {
   "property": "C102",
   "status": "proved",
   "theorems": [
    "DoMpc.C102_terminal_plan",
    "DoMpc.C102_convergence",
    "DoMpc.C102_stability",
    "DoMpc.C102_endless_run"
   ],
   "note": "the conditions in the statement are hypotheses of the theorems (global minimisers are what IPOPT is assumed to return); StabEx meets all of them. Continuous-time plants: C103."
  },
  {
   "property": "C103",
   "status": "proved",
   "theorems": [
    "DoMpc.C103_terminal_plan",
    "DoMpc.C103_convergence",
    "DoMpc.C103_stability"
   ],
   "note": "the conditions in the statement are hypotheses of the theorems; IntegratorEx meets all of them. The condition on cons_check_colloc_points is needed: C77_fails_collocation_points."
  },
  {
   "property": "C104",
   "status": "partial",
   "theorems": [
    "DoMpc.C104_same_plan",
    "DoMpc.C104_feasible",
    "DoMpc.C104_cost_partial",
    "DoMpc.C104_inputs_partial",
    "DoMpc.C104_same_explanation",
    "DoMpc.C104_mhe_feasible",
    "DoMpc.C104_mhe_cost",
    "DoMpc.C104_estimates",
    "DoMpc.C104_fails_default_penalty"
   ],
   "note": "Proved for equal penalties in physical units (SameChangePenalty) and any other difference in scaling. With the same set_rterm factors in both controllers the claim is false: C104_fails_default_penalty. Missing: user-defined rterm expressions (their weighting of scaled changes is C12_fails_user_rterm) and the scaling of estimated parameters (false: C72_fails_scaled_parameters)."
  },
  {
   "property": "C105",
   "status": "proved",
   "theorems": [
    "DoMpc.C105_feasible",
    "DoMpc.C105_feasible_collocation",
    "DoMpc.C105_cost",
    "DoMpc.C105_cost_collocation",
    "DoMpc.C105_best_cost"
   ],
   "note": "for settings whose NLP is the documented one (RegularConstraints / CollConstraints: nl_cons_single_slack and nl_cons_check_colloc_points off, no algebraic states on a branching tree; the others have counterexamples C07_fails_*). Cost claims also need n_robust < n_horizon (C08_fails_*)."
  },
  {
   "property": "C106",
   "status": "proved",
   "theorems": [
    "DoMpc.C106_files",
    "DoMpc.C106_process",
    "DoMpc.C106_calls",
    "DoMpc.C106_progress",
    "DoMpc.C106_alone",
    "DoMpc.C106_as_sample_data",
    "DoMpc.C106_fails_same_case"
   ],
   "note": "Interleaving semantics of sample_idx with five atomic steps (check, call, check, open/truncate, close); all by induction over the schedule. The premises on the names (GoodNames) are those of the statement. C106_fails_same_case is the boundary: two processes with the same case. Simplified: two processes that have the same file open at once (the last one to close wins); a result that cannot be pickled."
  },
  {
   "property": "C107",
   "status": "proved",
   "theorems": [
    "DoMpc.C107_mpc",
    "DoMpc.C107_sim",
    "DoMpc.C107_mhe",
    "DoMpc.C107_mpc_time",
    "DoMpc.C107_mpc_log",
    "DoMpc.C107_sim_log",
    "DoMpc.C107_registrations",
    "DoMpc.C107_calls_mpc",
    "DoMpc.C107_calls_sim",
    "DoMpc.C107_calls_mhe",
    "DoMpc.C107_fails_first_value",
    "DoMpc.C107_fails_init"
   ],
   "note": "Refinement: the program with a world of structures and functions with effects is simulated by the run-time models with functions of time (Model/MpcRun, Simulator, MheRun). The two C107_fails theorems are the documented surprises at registration and init_algebraic_variables. Not modelled: functions that raise or return a structure with other labels; changing templates from a solver callback."
  },
  {
   "property": "C108",
   "status": "partial",
   "theorems": [
    "DoMpc.Opc.C108_step",
    "DoMpc.Opc.C108_silent",
    "DoMpc.Opc.C108_undisturbed",
    "DoMpc.Opc.C108_history",
    "DoMpc.Opc.C108_recovers",
    "DoMpc.Opc.C108_silent_history",
    "DoMpc.Opc.C108_linked",
    "DoMpc.Opc.C108_unconnected",
    "DoMpc.Opc.C108_fails_retry",
    "DoMpc.Opc.C108_fails_connect",
    "DoMpc.Opc.C108_fails_endpoint"
   ],
   "note": "Proved for whole steps of the clients (interleaved requests are C88). False of the code: a step that failed while writing has already advanced the object, so that repeating it advances it twice (C108_fails_retry); connect() turns a RuntimeError into a message (C108_fails_connect); address and port of ServerOpts are ignored (C108_fails_endpoint)."
  },
  {
   "property": "C109",
   "status": "proved",
   "theorems": [
    "DoMpc.C109_step",
    "DoMpc.C109_step_collocation",
    "DoMpc.C109_runs",
    "DoMpc.C109_log"
   ],
   "note": "complete for the restrictions in the statement (those of C96: no single slack, no constraints at collocation points, no algebraic states with branching, ...); later calls that change settings, terminal bounds or opt_x bounds are excluded (C37-C40)"
  },
  {
   "property": "C110",
   "status": "proved",
   "theorems": [
    "DoMpc.C110_history",
    "DoMpc.C110_history_collocation",
    "DoMpc.C110_guess"
   ],
   "note": "complete for the restrictions in the statement (those of C97: parameters unscaled, no constraints at collocation points, bounds at all points); a direct call of solve() and later calls that change settings or opt_x bounds are not among the events (C86)"
  },
  {
   "property": "C111",
   "status": "proved",
   "theorems": [
    "DoMpc.C111_turn",
    "DoMpc.C111_turn_collocation",
    "DoMpc.C111_safe",
    "DoMpc.C111_runs",
    "DoMpc.C111_log"
   ],
   "note": "complete for the restrictions in the statement (those of C96 and full state measurement); events that move only one of the two clocks (a make_step outside of a turn, reset_history or t0 of one object alone) are excluded; process noise is excluded; feasibility is a hypothesis of each turn (its recursion is C74, C77)"
  },
  {
   "property": "C112",
   "status": "proved",
   "theorems": [
    "DoMpc.C112_for_ever",
    "DoMpc.C112_every_turn",
    "DoMpc.C112_for_ever_collocation"
   ],
   "note": "complete for the restrictions in the statement (no single slack, no constraints at collocation points, no algebraic states with branching unless one realisation; full state measurement; n_robust = 0 or n_robust >= n_horizon without open_loop); bounds assigned later and new episodes are covered by starting the argument again after them"
  },
  {
   "property": "C113",
   "status": "proved",
   "theorems": [
    "DoMpc.C113_cost",
    "DoMpc.C113_bound",
    "DoMpc.C113_settles",
    "DoMpc.C113_cost_collocation"
   ],
   "note": "complete for the restrictions in the statement (nominal, no penalty on input changes, full state measurement, global minimisers); for continuous-time models the cost bound and the count are proved, with the stage cost independent of algebraic states"
  },
  {
   "property": "C114",
   "status": "proved",
   "theorems": [
    "DoMpc.C114_output_feedback"
   ],
   "note": "complete for the restrictions in the statement (discrete time; no single slack, no constraints at collocation points; n_robust = 0 or n_robust >= n_horizon without open_loop; no noise); knowing the past exactly at the beginning is a hypothesis: without it no finite horizon estimator is exact"
  },
  {
   "property": "C115",
   "status": "proved",
   "theorems": [
    "DoMpc.C115_log",
    "DoMpc.C115_results",
    "DoMpc.C115_snapshot",
    "DoMpc.C115_attached",
    "DoMpc.C115_write"
   ],
   "note": "complete for base containers (Data of simulator, estimator and MPC); the additional prediction queries of MPCData are C28/C40"
  },
  {
   "property": "C116",
   "status": "proved",
   "theorems": [
    "DoMpc.C116_times",
    "DoMpc.C116_toc",
    "DoMpc.C116_total",
    "DoMpc.C116_info"
   ],
   "note": "complete over an ordered field (exact time differences); standard deviation, message text and histogram are not modelled"
  },
  {
   "property": "C117",
   "status": "proved",
   "theorems": [
    "DoMpc.C117_order",
    "DoMpc.C117_permutation",
    "DoMpc.C117_overwritten",
    "DoMpc.C117_constraints",
    "DoMpc.C117_estimator",
    "DoMpc.C117_simulator",
    "DoMpc.C117_permutation_estimator",
    "DoMpc.C117_overwritten_estimator",
    "DoMpc.C117_constraints_estimator",
    "DoMpc.C117_permutation_simulator",
    "DoMpc.C117_overwritten_simulator"
   ],
   "note": "complete for configuration calls before setup(); bounds assigned after setup() are C38/C109"
  },
  {
   "property": "C118",
   "status": "proved",
   "theorems": [
    "DoMpc.C118_optimal_slack",
    "DoMpc.C118_zero_violation",
    "DoMpc.C118_larger_penalty",
    "DoMpc.C118_slack",
    "DoMpc.C118_hard",
    "DoMpc.C118_penalty",
    "DoMpc.C118_optimal_slack_collocation",
    "DoMpc.C118_larger_penalty_collocation",
    "DoMpc.C118_slack_collocation"
   ],
   "note": "complete for controllers with the restrictions of C96 (no single slack, no algebraic states with branching, ...), which are PlainCalls; soft constraints without penalty (penalty_term_cons = 0) have slacks that are not determined"
  },
  {
   "property": "C119",
   "status": "proved",
   "theorems": [
    "DoMpc.C119_optimal_slack",
    "DoMpc.C119_optimal_slack_collocation",
    "DoMpc.C119_larger_penalty",
    "DoMpc.C119_slack",
    "DoMpc.C119_slack_collocation",
    "DoMpc.C119_penalty"
   ],
   "note": "complete for estimators with the restrictions of C97 (parameters unscaled, no constraints at collocation points, bounds at all points), which are PlainMheCalls; soft constraints without penalty have slacks that are not determined"
  },
  {
   "property": "C120",
   "status": "proved",
   "theorems": [
    "DoMpc.C120_relax",
    "DoMpc.C120_unused",
    "DoMpc.C120_never_blocks",
    "DoMpc.C120_as_hard",
    "DoMpc.C120_relax_collocation",
    "DoMpc.C120_unused_collocation",
    "DoMpc.C120_never_blocks_collocation",
    "DoMpc.C120_as_hard_collocation",
    "DoMpc.C120_relax_estimator",
    "DoMpc.C120_never_blocks_estimator",
    "DoMpc.C120_unused_estimator",
    "DoMpc.C120_as_hard_estimator",
    "DoMpc.C120_relax_estimator_collocation",
    "DoMpc.C120_never_blocks_estimator_collocation",
    "DoMpc.C120_unused_estimator_collocation",
    "DoMpc.C120_as_hard_estimator_collocation"
   ],
   "note": "complete for controllers and estimators, discrete-time and with collocation, with the restrictions of C96 (PlainCalls) and C97 (PlainMheCalls)"
  }
 ]
}