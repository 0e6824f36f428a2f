{
 "claims": [
  {
   "property": "C01",
   "status": "proved",
   "theorems": [
    "Pyoptmat.Props.C01_thomas_solves"
   ],
   "note": ""
  },
  {
   "property": "C02",
   "status": "proved",
   "theorems": [
    "Pyoptmat.Props.C02_pcr_solves"
   ],
   "note": ""
  },
  {
   "property": "C03",
   "status": "proved",
   "theorems": [
    "Pyoptmat.Props.C03_hybrid_solves"
   ],
   "note": ""
  },
  {
   "property": "C04",
   "status": "proved",
   "theorems": [
    "Pyoptmat.Props.C04_solve_correct",
    "Pyoptmat.Props.C04_methods_agree"
   ],
   "note": ""
  },
  {
   "property": "C05",
   "status": "proved",
   "theorems": [
    "Pyoptmat.Props.C05_chunks"
   ],
   "note": ""
  },
  {
   "property": "C06",
   "status": "proved",
   "theorems": [
    "Pyoptmat.Props.C06_thomas_reusable",
    "Pyoptmat.Props.C06_pcr_reusable_le3",
    "Pyoptmat.Props.C06_pcr_not_reusable",
    "Pyoptmat.Props.C06_hybrid_not_reusable"
   ],
   "note": ""
  },
  {
   "property": "C07",
   "status": "proved",
   "theorems": [
    "Pyoptmat.Props.C07_forward_is_dense_product",
    "Pyoptmat.Props.C07_inverse_forward"
   ],
   "note": ""
  },
  {
   "property": "C08",
   "status": "proved",
   "theorems": [
    "Pyoptmat.Props.C08_dense_block",
    "Pyoptmat.Props.C08_dense_zero",
    "Pyoptmat.Props.C08_size"
   ],
   "note": ""
  },
  {
   "property": "C09",
   "status": "proved",
   "theorems": [
    "Pyoptmat.Props.C09_coo_eq_dense",
    "Pyoptmat.Props.C09_nnz",
    "Pyoptmat.Props.C09_repeated_diagonal_differs"
   ],
   "note": ""
  },
  {
   "property": "C10",
   "status": "proved",
   "theorems": [
    "Pyoptmat.Props.C10_no_warning_meets_tolerance",
    "Pyoptmat.Props.C10_returns_first_iterate",
    "Pyoptmat.Props.C10_throw_never_returns_unconverged"
   ],
   "note": ""
  },
  {
   "property": "C11",
   "status": "proved",
   "theorems": [
    "Pyoptmat.Props.C11_warns_iff",
    "Pyoptmat.Props.C11_zero_miter",
    "Pyoptmat.Props.C11_negative_miter",
    "Pyoptmat.Props.C11_nan_is_silent"
   ],
   "note": ""
  },
  {
   "property": "C12",
   "status": "proved",
   "theorems": [
    "Pyoptmat.Props.C12_affine_one_update"
   ],
   "note": ""
  },
  {
   "property": "C13",
   "status": "proved",
   "theorems": [
    "Pyoptmat.Props.C13_forward_caller_rhs",
    "Pyoptmat.Props.C13_pcr_caller_rhs",
    "Pyoptmat.Props.C13_newton_chunk_overwrites_x0",
    "Pyoptmat.Props.C13_newton_raphson_overwrites_x0"
   ],
   "note": ""
  },
  {
   "property": "C14",
   "status": "proved",
   "theorems": [
    "Pyoptmat.Props.C14_every_time_filled",
    "Pyoptmat.Props.C14_always_returns",
    "Pyoptmat.Props.C14_bad_block_size"
   ],
   "note": ""
  },
  {
   "property": "C15",
   "status": "proved",
   "theorems": [
    "Pyoptmat.Props.C15_block_root_iff",
    "Pyoptmat.Props.C15_defect_within_tolerance",
    "Pyoptmat.Props.C15_exact_blocks_are_backward_euler",
    "Pyoptmat.Props.C15_block_size_independent"
   ],
   "note": ""
  },
  {
   "property": "C16",
   "status": "proved",
   "theorems": [
    "Pyoptmat.Props.C16_block_root_iff",
    "Pyoptmat.Props.C16_row_exact_after_updates",
    "Pyoptmat.Props.C16_integrate_is_explicit_euler"
   ],
   "note": ""
  },
  {
   "property": "C17",
   "status": "proved",
   "theorems": [
    "Pyoptmat.Props.C17_block_jacobian"
   ],
   "note": ""
  },
  {
   "property": "C18",
   "status": "proved",
   "theorems": [
    "Pyoptmat.Props.C18_one_update_exact",
    "Pyoptmat.Props.C18_linear_succeeds",
    "Pyoptmat.Props.C18_linear_integrate_exact"
   ],
   "note": ""
  },
  {
   "property": "C19",
   "status": "proved",
   "theorems": [
    "Pyoptmat.Props.C19_adjoint_backward"
   ],
   "note": ""
  },
  {
   "property": "C20",
   "status": "proved",
   "theorems": [
    "Pyoptmat.Props.C20_adjoint_forward"
   ],
   "note": ""
  },
  {
   "property": "C21",
   "status": "proved",
   "theorems": [
    "Pyoptmat.Props.C21_initial_backward",
    "Pyoptmat.Props.C21_initial_forward"
   ],
   "note": ""
  },
  {
   "property": "C22",
   "status": "proved",
   "theorems": [
    "Pyoptmat.Props.C22_adjoint_block_size"
   ],
   "note": ""
  },
  {
   "property": "C23",
   "status": "proved",
   "theorems": [
    "Pyoptmat.Props.C23_zero_guess",
    "Pyoptmat.Props.C23_previous_guess_shape",
    "Pyoptmat.Props.C23_previous_guess_value",
    "Pyoptmat.Props.C23_previous_guess_too_short",
    "Pyoptmat.Props.C23_unknown_guess"
   ],
   "note": ""
  },
  {
   "property": "C24",
   "status": "proved",
   "theorems": [
    "Pyoptmat.Props.C24_exact",
    "Pyoptmat.Props.C24_voce_chaboche",
    "Pyoptmat.Props.C24_temperature_output",
    "Pyoptmat.Props.C24_temperature_exact_of_const",
    "Pyoptmat.Props.C24_temperature_exact_iff"
   ],
   "note": ""
  },
  {
   "property": "C25",
   "status": "proved",
   "theorems": [
    "Pyoptmat.Props.C25_derivative",
    "Pyoptmat.Props.C25_exact_iff"
   ],
   "note": ""
  },
  {
   "property": "C26",
   "status": "proved",
   "theorems": [
    "Pyoptmat.Props.C26_stress_rate_imposed",
    "Pyoptmat.Props.C26_returned_jacobian",
    "Pyoptmat.Props.C26_affine_exact",
    "Pyoptmat.Props.C26_affine_test",
    "Pyoptmat.Props.C26_inelastic",
    "Pyoptmat.Props.C26_jacobian",
    "Pyoptmat.Props.C26_jacobian_exact_iff",
    "Pyoptmat.Props.C26_voce_chaboche_jacobian"
   ],
   "note": ""
  },
  {
   "property": "C27",
   "status": "proved",
   "theorems": [
    "Pyoptmat.Props.C27_selection",
    "Pyoptmat.Props.C27_entries_independent"
   ],
   "note": ""
  },
  {
   "property": "C28",
   "status": "proved",
   "theorems": [
    "Pyoptmat.Props.C28_strain_backward",
    "Pyoptmat.Props.C28_strain_forward",
    "Pyoptmat.Props.C28_stress_backward"
   ],
   "note": ""
  },
  {
   "property": "C29",
   "status": "proved",
   "theorems": [
    "Pyoptmat.Props.C29_blocks_partition",
    "Pyoptmat.Props.C29_blocks_inside",
    "Pyoptmat.Props.C29_offsets_consecutive",
    "Pyoptmat.Props.C29_size_check",
    "Pyoptmat.Props.C29_size_check_ok"
   ],
   "note": ""
  },
  {
   "property": "C30",
   "status": "proved",
   "theorems": [
    "Pyoptmat.Props.C30_sign",
    "Pyoptmat.Props.C30_dissipative",
    "Pyoptmat.Props.C30_power_law",
    "Pyoptmat.Props.C30_exact"
   ],
   "note": ""
  },
  {
   "property": "C31",
   "status": "proved",
   "theorems": [
    "Pyoptmat.Props.C31_exact",
    "Pyoptmat.Props.C31_voce_chaboche",
    "Pyoptmat.Props.C31_linear_elastic_wrong"
   ],
   "note": ""
  },
  {
   "property": "C32",
   "status": "proved",
   "theorems": [
    "Pyoptmat.Props.C32_yield",
    "Pyoptmat.Props.C32_outside"
   ],
   "note": ""
  },
  {
   "property": "C33",
   "status": "proved",
   "theorems": [
    "Pyoptmat.Props.C33_sum",
    "Pyoptmat.Props.C33_exact"
   ],
   "note": ""
  },
  {
   "property": "C34",
   "status": "proved",
   "theorems": [
    "Pyoptmat.Props.C34_scale",
    "Pyoptmat.Props.C34_speed_invariant",
    "Pyoptmat.Props.C34_lambda_zero",
    "Pyoptmat.Props.C34_exact"
   ],
   "note": ""
  },
  {
   "property": "C35",
   "status": "proved",
   "theorems": [
    "Pyoptmat.Props.C35_switch",
    "Pyoptmat.Props.C35_exact"
   ],
   "note": ""
  },
  {
   "property": "C36",
   "status": "proved",
   "theorems": [
    "Pyoptmat.Props.C36_convex",
    "Pyoptmat.Props.C36_monotone",
    "Pyoptmat.Props.C36_exact"
   ],
   "note": ""
  },
  {
   "property": "C37",
   "status": "proved",
   "theorems": [
    "Pyoptmat.Props.C37_voce",
    "Pyoptmat.Props.C37_theta0_voce",
    "Pyoptmat.Props.C37_theta0_recovery"
   ],
   "note": ""
  },
  {
   "property": "C38",
   "status": "proved",
   "theorems": [
    "Pyoptmat.Props.C38_none",
    "Pyoptmat.Props.C38_fa",
    "Pyoptmat.Props.C38_fa_default",
    "Pyoptmat.Props.C38_fa_no_recovery",
    "Pyoptmat.Props.C38_chaboche",
    "Pyoptmat.Props.C38_chaboche_recovery",
    "Pyoptmat.Props.C38_superimposed"
   ],
   "note": ""
  },
  {
   "property": "C39",
   "status": "proved",
   "theorems": [
    "Pyoptmat.Props.C39_voce_range",
    "Pyoptmat.Props.C39_voce_monotone"
   ],
   "note": ""
  },
  {
   "property": "C40",
   "status": "proved",
   "theorems": [
    "Pyoptmat.Props.C40_recovery",
    "Pyoptmat.Props.C40_chaboche"
   ],
   "note": ""
  },
  {
   "property": "C41",
   "status": "proved",
   "theorems": [
    "Pyoptmat.Props.C41_theta0_is_voce"
   ],
   "note": ""
  },
  {
   "property": "C42",
   "status": "proved",
   "theorems": [
    "Pyoptmat.Props.C42_superimposed_kinematic",
    "Pyoptmat.Props.C42_independence"
   ],
   "note": ""
  },
  {
   "property": "C43",
   "status": "proved",
   "theorems": [
    "Pyoptmat.Props.C43_exact",
    "Pyoptmat.Props.C43_no_damage_rates",
    "Pyoptmat.Props.C43_no_damage_history"
   ],
   "note": ""
  },
  {
   "property": "C44",
   "status": "proved",
   "theorems": [
    "Pyoptmat.Props.C44_true_derivatives",
    "Pyoptmat.Props.C44_exact_iff"
   ],
   "note": ""
  },
  {
   "property": "C45",
   "status": "proved",
   "theorems": [
    "Pyoptmat.Props.C45_rates",
    "Pyoptmat.Props.C45_damage_never_decreases"
   ],
   "note": ""
  },
  {
   "property": "C46",
   "status": "proved",
   "theorems": [
    "Pyoptmat.Props.C46_rupture",
    "Pyoptmat.Props.C46_life_fraction"
   ],
   "note": ""
  },
  {
   "property": "C47",
   "status": "proved",
   "theorems": [
    "Pyoptmat.Props.C47_polyline",
    "Pyoptmat.Props.C47_arbitrary_in_range",
    "Pyoptmat.Props.C47_arbitrary_out_of_range_error",
    "Pyoptmat.Props.C47_arbitrary_1d_drops_out_of_range",
    "Pyoptmat.Props.C47_batch_in_range",
    "Pyoptmat.Props.C47_batch_out_of_range",
    "Pyoptmat.Props.C47_cheater_shared_grid",
    "Pyoptmat.Props.C47_cheater_follows_entry_zero"
   ],
   "note": ""
  },
  {
   "property": "C48",
   "status": "proved",
   "theorems": [
    "Pyoptmat.Props.C48_heaviside",
    "Pyoptmat.Props.C48_macaulay",
    "Pyoptmat.Props.C48_derivative"
   ],
   "note": ""
  },
  {
   "property": "C49",
   "status": "proved",
   "theorems": [
    "Pyoptmat.Props.C49_affine",
    "Pyoptmat.Props.C49_mean_value",
    "Pyoptmat.Props.C49_limit",
    "Pyoptmat.Props.C49_new_scalar",
    "Pyoptmat.Props.C49_scalar_origin",
    "Pyoptmat.Props.C49_vector_offdiagonal",
    "Pyoptmat.Props.C49_single_component",
    "Pyoptmat.Props.C49_matrix_rows_mixed"
   ],
   "note": ""
  },
  {
   "property": "C50",
   "status": "proved",
   "theorems": [
    "Pyoptmat.Props.C50_state_jacobian",
    "Pyoptmat.Props.C50_no_force_empty"
   ],
   "note": ""
  },
  {
   "property": "C51",
   "status": "proved",
   "theorems": [
    "Pyoptmat.Props.C51_polynomial",
    "Pyoptmat.Props.C51_special"
   ],
   "note": ""
  },
  {
   "property": "C52",
   "status": "proved",
   "theorems": [
    "Pyoptmat.Props.C52_piecewise"
   ],
   "note": ""
  },
  {
   "property": "C53",
   "status": "proved",
   "theorems": [
    "Pyoptmat.Props.C53_clipped",
    "Pyoptmat.Props.C53_kocks_mecking_line",
    "Pyoptmat.Props.C53_cutoffs_disagree"
   ],
   "note": ""
  },
  {
   "property": "C54",
   "status": "proved",
   "theorems": [
    "Pyoptmat.Props.C54_arrhenius",
    "Pyoptmat.Props.C54_mts",
    "Pyoptmat.Props.C54_shear"
   ],
   "note": ""
  },
  {
   "property": "C55",
   "status": "proved",
   "theorems": [
    "Pyoptmat.Props.C55_bounded",
    "Pyoptmat.Props.C55_log_bounded",
    "Pyoptmat.Props.C55_clamp_not_injective",
    "Pyoptmat.Props.C55_scale_stat",
    "Pyoptmat.Props.C55_scale_mean"
   ],
   "note": ""
  },
  {
   "property": "C56",
   "status": "proved",
   "theorems": [
    "Pyoptmat.Props.C56_simple"
   ],
   "note": ""
  },
  {
   "property": "C57",
   "status": "proved",
   "theorems": [
    "Pyoptmat.Props.C57_bounded_scale_function",
    "Pyoptmat.Props.C57_bound_factor",
    "Pyoptmat.Props.C57_clamping"
   ],
   "note": ""
  },
  {
   "property": "C58",
   "status": "proved",
   "theorems": [
    "Pyoptmat.Props.C58_length",
    "Pyoptmat.Props.C58_times",
    "Pyoptmat.Props.C58_labels",
    "Pyoptmat.Props.C58_waveform",
    "Pyoptmat.Props.C58_bounds",
    "Pyoptmat.Props.C58_rate",
    "Pyoptmat.Props.C58_turning_points"
   ],
   "note": ""
  },
  {
   "property": "C59",
   "status": "proved",
   "theorems": [
    "Pyoptmat.Props.C59_creep_load",
    "Pyoptmat.Props.C59_creep_hold",
    "Pyoptmat.Props.C59_tension",
    "Pyoptmat.Props.C59_random_rate"
   ],
   "note": ""
  },
  {
   "property": "C60",
   "status": "proved",
   "theorems": [
    "Pyoptmat.Props.C60_cyclic",
    "Pyoptmat.Props.C60_meaning"
   ],
   "note": ""
  },
  {
   "property": "C61",
   "status": "proved",
   "theorems": [
    "Pyoptmat.Props.C61_relaxation",
    "Pyoptmat.Props.C61_only_first_labels"
   ],
   "note": ""
  },
  {
   "property": "C62",
   "status": "proved",
   "theorems": [
    "Pyoptmat.Props.C62_abstract_tensile"
   ],
   "note": ""
  },
  {
   "property": "C63",
   "status": "proved",
   "theorems": [
    "Pyoptmat.Props.C63_dispatch",
    "Pyoptmat.Props.C63_independent",
    "Pyoptmat.Props.C63_own_labels"
   ],
   "note": ""
  },
  {
   "property": "C64",
   "status": "proved",
   "theorems": [
    "Pyoptmat.Props.C64_load_results",
    "Pyoptmat.Props.C64_codes"
   ],
   "note": ""
  },
  {
   "property": "C65",
   "status": "proved",
   "theorems": [
    "Pyoptmat.Props.C65_noise",
    "Pyoptmat.Props.C65_weights"
   ],
   "note": ""
  },
  {
   "property": "C66",
   "status": "proved",
   "theorems": [
    "Pyoptmat.Props.C66_no_warning_meets_tolerance",
    "Pyoptmat.Props.C66_returns_first_iterate",
    "Pyoptmat.Props.C66_negative_miter_silent",
    "Pyoptmat.Props.C66_lanes",
    "Pyoptmat.Props.C66_linsolver_validated",
    "Pyoptmat.Props.C66_linear_solves_exact",
    "Pyoptmat.Props.C66_affine_one_update"
   ],
   "note": ""
  },
  {
   "property": "C67",
   "status": "proved",
   "theorems": [
    "Pyoptmat.Props.C67_step",
    "Pyoptmat.Props.C67_lane_not_backtracked",
    "Pyoptmat.Props.C67_full_step_if_decreasing",
    "Pyoptmat.Props.C67_no_warning_meets_tolerance",
    "Pyoptmat.Props.C67_returns_iterate"
   ],
   "note": ""
  },
  {
   "property": "C68",
   "status": "proved",
   "theorems": [
    "Pyoptmat.Props.C68_early_stop_meets_tolerance",
    "Pyoptmat.Props.C68_converged_start",
    "Pyoptmat.Props.C68_residual_bounded_by_projected",
    "Pyoptmat.Props.C68_exact_preconditioner_converges",
    "Pyoptmat.Props.C68_krylov_space",
    "Pyoptmat.Props.C68_lu_preconditioner_exact"
   ],
   "note": ""
  },
  {
   "property": "C69",
   "status": "proved",
   "theorems": [
    "Pyoptmat.Props.C69_solver_strings",
    "Pyoptmat.Props.C69_solver_strings_select",
    "Pyoptmat.Props.C69_model_integrators",
    "Pyoptmat.Props.C69_use_adjoint",
    "Pyoptmat.Props.C69_defaults",
    "Pyoptmat.Props.C69_context_strings"
   ],
   "note": ""
  },
  {
   "property": "C70",
   "status": "proved",
   "theorems": [
    "Pyoptmat.Props.C70_any_stored_preconditioner",
    "Pyoptmat.Props.C70_history",
    "Pyoptmat.Props.C70_affine",
    "Pyoptmat.Props.C70_affine_fresh"
   ],
   "note": ""
  },
  {
   "property": "C71",
   "status": "proved",
   "theorems": [
    "Pyoptmat.Props.C71_damage_derivative",
    "Pyoptmat.Props.C71_stress_derivative",
    "Pyoptmat.Props.C71_exact_iff"
   ],
   "note": ""
  },
  {
   "property": "C72",
   "status": "proved",
   "theorems": [
    "Pyoptmat.Props.C72_elastic_always_solved",
    "Pyoptmat.Props.C72_elastic_range"
   ],
   "note": ""
  },
  {
   "property": "C73",
   "status": "proved",
   "theorems": [
    "Pyoptmat.Props.C73_stress_bound"
   ],
   "note": ""
  },
  {
   "property": "C74",
   "status": "proved",
   "theorems": [
    "Pyoptmat.Props.C74_step",
    "Pyoptmat.Props.C74_history",
    "Pyoptmat.Props.C74_solve_strain_block_size"
   ],
   "note": ""
  },
  {
   "property": "C75",
   "status": "proved",
   "theorems": [
    "Pyoptmat.Props.C75_step",
    "Pyoptmat.Props.C75_relaxation",
    "Pyoptmat.Props.C75_tension"
   ],
   "note": ""
  },
  {
   "property": "C76",
   "status": "proved",
   "theorems": [
    "Pyoptmat.Props.C76_rates",
    "Pyoptmat.Props.C76_history",
    "Pyoptmat.Props.C76_solve_strain"
   ],
   "note": ""
  },
  {
   "property": "C77",
   "status": "proved",
   "theorems": [
    "Pyoptmat.Props.C77_speed_independent"
   ],
   "note": ""
  },
  {
   "property": "C78",
   "status": "proved",
   "theorems": [
    "Pyoptmat.Props.C78_stress_steps",
    "Pyoptmat.Props.C78_inelastic_steps",
    "Pyoptmat.Props.C78_creep_always_solved"
   ],
   "note": ""
  },
  {
   "property": "C79",
   "status": "proved",
   "theorems": [
    "Pyoptmat.Props.C79_both_steps",
    "Pyoptmat.Props.C79_maxwell_always_solved"
   ],
   "note": ""
  },
  {
   "property": "C80",
   "status": "proved",
   "theorems": [
    "Pyoptmat.Props.C80_batch_independent",
    "Pyoptmat.Props.C80_batch_independent_forward",
    "Pyoptmat.Props.C80_voce_chaboche_tests",
    "Pyoptmat.Props.C80_tolerance_couples"
   ],
   "note": ""
  },
  {
   "property": "C81",
   "status": "proved",
   "theorems": [
    "Pyoptmat.Props.C81_backward_accuracy",
    "Pyoptmat.Props.C81_backward_piecewise",
    "Pyoptmat.Props.C81_forward_accuracy"
   ],
   "note": ""
  },
  {
   "property": "C82",
   "status": "proved",
   "theorems": [
    "Pyoptmat.Props.C82_backward_runs",
    "Pyoptmat.Props.C82_forward_runs",
    "Pyoptmat.Props.C82_perfect_stress"
   ],
   "note": ""
  },
  {
   "property": "C83",
   "status": "proved",
   "theorems": [
    "Pyoptmat.Props.C83_backward",
    "Pyoptmat.Props.C83_forward"
   ],
   "note": ""
  },
  {
   "property": "C84",
   "status": "proved",
   "theorems": [
    "Pyoptmat.Props.C84_leaf_gradients",
    "Pyoptmat.Props.C84_unused_parameter_raises"
   ],
   "note": ""
  },
  {
   "property": "C85",
   "status": "proved",
   "theorems": [
    "Pyoptmat.Props.C85_same_values",
    "Pyoptmat.Props.C85_accepted_iff"
   ],
   "note": ""
  },
  {
   "property": "C86",
   "status": "proved",
   "theorems": [
    "Pyoptmat.Props.C86_backward",
    "Pyoptmat.Props.C86_forward_end_to_end",
    "Pyoptmat.Props.C86_backward_linear_end_to_end"
   ],
   "note": ""
  },
  {
   "property": "C87",
   "status": "proved",
   "theorems": [
    "Pyoptmat.Props.C87_parameters",
    "Pyoptmat.Props.C87_forward",
    "Pyoptmat.Props.C87_forward_tolerance"
   ],
   "note": ""
  },
  {
   "property": "C88",
   "status": "proved",
   "theorems": [
    "Pyoptmat.Props.C88_objective",
    "Pyoptmat.Props.C88_start"
   ],
   "note": ""
  },
  {
   "property": "C89",
   "status": "proved",
   "theorems": [
    "Pyoptmat.Props.C89_guide_names",
    "Pyoptmat.Props.C89_duplicate_refused",
    "Pyoptmat.Props.C89_other_number_of_tests",
    "Pyoptmat.Props.C89_same_latent_variables"
   ],
   "note": ""
  },
  {
   "property": "C90",
   "status": "proved",
   "theorems": [
    "Pyoptmat.Props.C90_get_extra_params",
    "Pyoptmat.Props.C90_no_guide",
    "Pyoptmat.Props.C90_guide_not_run"
   ],
   "note": ""
  },
  {
   "property": "C91",
   "status": "proved",
   "theorems": [
    "Pyoptmat.Props.C91_no_maximum"
   ],
   "note": ""
  },
  {
   "property": "C92",
   "status": "proved",
   "theorems": [
    "Pyoptmat.Props.C92_weights",
    "Pyoptmat.Props.C92_unlisted_type"
   ],
   "note": ""
  },
  {
   "property": "C93",
   "status": "proved",
   "theorems": [
    "Pyoptmat.Props.C93_joint_density"
   ],
   "note": ""
  },
  {
   "property": "C94",
   "status": "proved",
   "theorems": [
    "Pyoptmat.Props.C94_limit",
    "Pyoptmat.Props.C94_quadratic",
    "Pyoptmat.Props.C94_block_succeeds",
    "Pyoptmat.Props.C94_integrate_succeeds",
    "Pyoptmat.Props.C94_defaults"
   ],
   "note": ""
  },
  {
   "property": "C95",
   "status": "proved",
   "theorems": [
    "Pyoptmat.Props.C95_csr_entries",
    "Pyoptmat.Props.C95_csr_rows",
    "Pyoptmat.Props.C95_csr_cols",
    "Pyoptmat.Props.C95_csr_operator",
    "Pyoptmat.Props.C95_csr_not_square",
    "Pyoptmat.Props.C95_M_refused",
    "Pyoptmat.Props.C95_lu_check_ignored",
    "Pyoptmat.Props.C95_lu_gmres_solves",
    "Pyoptmat.Props.C95_gmres_identity",
    "Pyoptmat.Props.C95_jacobi_gmres_solves_diagonal",
    "Pyoptmat.Props.C95_stopping"
   ],
   "note": ""
  },
  {
   "property": "C96",
   "status": "proved",
   "theorems": [
    "Pyoptmat.Props.C96_chaboche_recovery",
    "Pyoptmat.Props.C96_chaboche",
    "Pyoptmat.Props.C96_fa",
    "Pyoptmat.Props.C96_fa_no_recovery",
    "Pyoptmat.Props.C96_no_kinematic",
    "Pyoptmat.Props.C96_superimposed_kinematic",
    "Pyoptmat.Props.C96_perfect",
    "Pyoptmat.Props.C96_isokin",
    "Pyoptmat.Props.C96_superimposed",
    "Pyoptmat.Props.C96_rate_independent",
    "Pyoptmat.Props.C96_kocks_mecking",
    "Pyoptmat.Props.C96_energy",
    "Pyoptmat.Props.C96_solve_strain",
    "Pyoptmat.Props.C96_no_energy_created",
    "Pyoptmat.Props.C96_solve_stress",
    "Pyoptmat.Props.C96_voce_chaboche"
   ],
   "note": ""
  },
  {
   "property": "C97",
   "status": "proved",
   "theorems": [
    "Pyoptmat.Props.C97_tension",
    "Pyoptmat.Props.C97_relaxation",
    "Pyoptmat.Props.C97_solve_strain_tension",
    "Pyoptmat.Props.C97_creep"
   ],
   "note": ""
  },
  {
   "property": "C98",
   "status": "proved",
   "theorems": [
    "Pyoptmat.Props.C98_norton_accuracy",
    "Pyoptmat.Props.C98_relaxation_curve",
    "Pyoptmat.Props.C98_relaxation",
    "Pyoptmat.Props.C98_tension"
   ],
   "note": ""
  },
  {
   "property": "C99",
   "status": "proved",
   "theorems": [
    "Pyoptmat.Props.C99_isotropic_range",
    "Pyoptmat.Props.C99_isotropic_recovery",
    "Pyoptmat.Props.C99_kinematic_recovery",
    "Pyoptmat.Props.C99_fa_is_chaboche",
    "Pyoptmat.Props.C99_theta0_range"
   ],
   "note": ""
  },
  {
   "property": "C100",
   "status": "proved",
   "theorems": [
    "Pyoptmat.Props.C100_norton_succeeds",
    "Pyoptmat.Props.C100_limit_exists",
    "Pyoptmat.Props.C100_defaults",
    "Pyoptmat.Props.C100_tension"
   ],
   "note": ""
  },
  {
   "property": "C101",
   "status": "proved",
   "theorems": [
    "Pyoptmat.Props.C101_parameter_shapes",
    "Pyoptmat.Props.C101_constant",
    "Pyoptmat.Props.C101_constant_vector",
    "Pyoptmat.Props.C101_shear",
    "Pyoptmat.Props.C101_shear_exp",
    "Pyoptmat.Props.C101_mts",
    "Pyoptmat.Props.C101_km_rate",
    "Pyoptmat.Props.C101_km_viscosity",
    "Pyoptmat.Props.C101_arrhenius",
    "Pyoptmat.Props.C101_inverse_arrhenius",
    "Pyoptmat.Props.C101_polynomial",
    "Pyoptmat.Props.C101_piecewise",
    "Pyoptmat.Props.C101_voce",
    "Pyoptmat.Props.C101_theta0_voce",
    "Pyoptmat.Props.C101_theta0_recovery",
    "Pyoptmat.Props.C101_no_kinematic",
    "Pyoptmat.Props.C101_fa",
    "Pyoptmat.Props.C101_fa_default",
    "Pyoptmat.Props.C101_fa_no_recovery",
    "Pyoptmat.Props.C101_chaboche",
    "Pyoptmat.Props.C101_chaboche_recovery",
    "Pyoptmat.Props.C101_superimposed_kinematic",
    "Pyoptmat.Props.C101_perfect",
    "Pyoptmat.Props.C101_iso_kin",
    "Pyoptmat.Props.C101_rate_independent",
    "Pyoptmat.Props.C101_superimposed",
    "Pyoptmat.Props.C101_km_switch",
    "Pyoptmat.Props.C101_km_soft",
    "Pyoptmat.Props.C101_damage",
    "Pyoptmat.Props.C101_inelastic",
    "Pyoptmat.Props.C101_damaged",
    "Pyoptmat.Props.C101_independent",
    "Pyoptmat.Props.C101_batch"
   ],
   "note": ""
  },
  {
   "property": "C102",
   "status": "proved",
   "theorems": [
    "Pyoptmat.Props.C102_chaboche_rate",
    "Pyoptmat.Props.C102_arrhenius",
    "Pyoptmat.Props.C102_forward",
    "Pyoptmat.Props.C102_arrhenius_forward",
    "Pyoptmat.Props.C102_couples",
    "Pyoptmat.Props.C102_shear",
    "Pyoptmat.Props.C102_fa_default",
    "Pyoptmat.Props.C102_piecewise_shape",
    "Pyoptmat.Props.C102_single_g"
   ],
   "note": ""
  },
  {
   "property": "C103",
   "status": "proved",
   "theorems": [
    "Pyoptmat.Props.C103_interpolate",
    "Pyoptmat.Props.C103_interpolate_refuses",
    "Pyoptmat.Props.C103_interpolate_vector",
    "Pyoptmat.Props.C103_interpolate_vector_short",
    "Pyoptmat.Props.C103_strain",
    "Pyoptmat.Props.C103_stress",
    "Pyoptmat.Props.C103_both",
    "Pyoptmat.Props.C103_refuses"
   ],
   "note": ""
  },
  {
   "property": "C104",
   "status": "proved",
   "theorems": [
    "Pyoptmat.Props.C104_never_divides_by_zero",
    "Pyoptmat.Props.C104_interpolate",
    "Pyoptmat.Props.C104_control",
    "Pyoptmat.Props.C104_trajectories",
    "Pyoptmat.Props.C104_strain",
    "Pyoptmat.Props.C104_stress",
    "Pyoptmat.Props.C104_run",
    "Pyoptmat.Props.C104_run_coupled"
   ],
   "note": ""
  },
  {
   "property": "C105",
   "status": "proved",
   "theorems": [
    "Pyoptmat.Props.C105_recorded",
    "Pyoptmat.Props.C105_recursion",
    "Pyoptmat.Props.C105_limit",
    "Pyoptmat.Props.C105_inelastic",
    "Pyoptmat.Props.C105_backward",
    "Pyoptmat.Props.C105_wrapper_refused"
   ],
   "note": ""
  },
  {
   "property": "C106",
   "status": "proved",
   "theorems": [
    "Pyoptmat.Props.C106_func",
    "Pyoptmat.Props.C106_gradient"
   ],
   "note": ""
  },
  {
   "property": "C107",
   "status": "proved",
   "theorems": [
    "Pyoptmat.Props.C107_strain",
    "Pyoptmat.Props.C107_stress",
    "Pyoptmat.Props.C107_norton_strain"
   ],
   "note": ""
  },
  {
   "property": "C108",
   "status": "proved",
   "theorems": [
    "Pyoptmat.Props.C108_reported",
    "Pyoptmat.Props.C108_larson_miller_wrong",
    "Pyoptmat.Props.C108_constant_damage"
   ],
   "note": ""
  },
  {
   "property": "C109",
   "status": "proved",
   "theorems": [
    "Pyoptmat.Props.C109_integrate",
    "Pyoptmat.Props.C109_no_garbage",
    "Pyoptmat.Props.C109_backward_euler",
    "Pyoptmat.Props.C109_forward_euler",
    "Pyoptmat.Props.C109_solve_strain",
    "Pyoptmat.Props.C109_solve_stress",
    "Pyoptmat.Props.C109_solve_both"
   ],
   "note": ""
  },
  {
   "property": "C110",
   "status": "proved",
   "theorems": [
    "Pyoptmat.Props.C110_rewind",
    "Pyoptmat.Props.C110_block_size",
    "Pyoptmat.Props.C110_gradient"
   ],
   "note": ""
  },
  {
   "property": "C111",
   "status": "proved",
   "theorems": [
    "Pyoptmat.Props.C111_variational",
    "Pyoptmat.Props.C111_accuracy",
    "Pyoptmat.Props.C111_forward_accuracy"
   ],
   "note": ""
  },
  {
   "property": "C112",
   "status": "proved",
   "theorems": [
    "Pyoptmat.Props.C112_trajectory",
    "Pyoptmat.Props.C112_strain"
   ],
   "note": ""
  },
  {
   "property": "C113",
   "status": "proved",
   "theorems": [
    "Pyoptmat.Props.C113_lanes",
    "Pyoptmat.Props.C113_recorded",
    "Pyoptmat.Props.C113_trajectory",
    "Pyoptmat.Props.C113_elastic_solved",
    "Pyoptmat.Props.C113_both"
   ],
   "note": ""
  },
  {
   "property": "C114",
   "status": "proved",
   "theorems": [
    "Pyoptmat.Props.C114_consistent",
    "Pyoptmat.Props.C114_frozen",
    "Pyoptmat.Props.C114_run",
    "Pyoptmat.Props.C114_lanes",
    "Pyoptmat.Props.C114_region",
    "Pyoptmat.Props.C114_strain",
    "Pyoptmat.Props.C114_both"
   ],
   "note": ""
  },
  {
   "property": "C115",
   "status": "proved",
   "theorems": [
    "Pyoptmat.Props.C115_jacobianize",
    "Pyoptmat.Props.C115_right_hand_side",
    "Pyoptmat.Props.C115_jacobian",
    "Pyoptmat.Props.C115_integrate",
    "Pyoptmat.Props.C115_no_forces",
    "Pyoptmat.Props.C115_per_test_parameters"
   ],
   "note": ""
  },
  {
   "property": "C116",
   "status": "proved",
   "theorems": [
    "Pyoptmat.Props.C116_solution_or_exception",
    "Pyoptmat.Props.C116_returns_iff",
    "Pyoptmat.Props.C116_contiguous"
   ],
   "note": ""
  },
  {
   "property": "C117",
   "status": "proved",
   "theorems": [
    "Pyoptmat.Props.C117_bands",
    "Pyoptmat.Props.C117_few_samples_refused"
   ],
   "note": ""
  },
  {
   "property": "C118",
   "status": "proved",
   "theorems": [
    "Pyoptmat.Props.C118_integrator",
    "Pyoptmat.Props.C118_strain",
    "Pyoptmat.Props.C118_origin",
    "Pyoptmat.Props.C118_hardening",
    "Pyoptmat.Props.C118_flow",
    "Pyoptmat.Props.C118_model",
    "Pyoptmat.Props.C118_viscoplastic"
   ],
   "note": ""
  },
  {
   "property": "C119",
   "status": "proved",
   "theorems": [
    "Pyoptmat.Props.C119_slow_tests_vanish",
    "Pyoptmat.Props.C119_lost_creep"
   ],
   "note": ""
  },
  {
   "property": "C120",
   "status": "proved",
   "theorems": [
    "Pyoptmat.Props.C120_integrate",
    "Pyoptmat.Props.C120_func",
    "Pyoptmat.Props.C120_model_integrator",
    "Pyoptmat.Props.C120_copies",
    "Pyoptmat.Props.C120_gradient_sum",
    "Pyoptmat.Props.C120_gradient_order",
    "Pyoptmat.Props.C120_gradient_repeat"
   ],
   "note": ""
  },
  {
   "property": "C121",
   "status": "proved",
   "theorems": [
    "Pyoptmat.Props.C121_two_parts",
    "Pyoptmat.Props.C121_truncate",
    "Pyoptmat.Props.C121_causal",
    "Pyoptmat.Props.C121_tests",
    "Pyoptmat.Props.C121_continue_strain",
    "Pyoptmat.Props.C121_adjoint_two_parts"
   ],
   "note": ""
  },
  {
   "property": "C122",
   "status": "proved",
   "theorems": [
    "Pyoptmat.Props.C122_more_strain_more_stress",
    "Pyoptmat.Props.C122_more_stress_more_creep"
   ],
   "note": ""
  },
  {
   "property": "C123",
   "status": "proved",
   "theorems": [
    "Pyoptmat.Props.C123_model_strain",
    "Pyoptmat.Props.C123_step",
    "Pyoptmat.Props.C123_strain",
    "Pyoptmat.Props.C123_stress",
    "Pyoptmat.Props.C123_inelastic_stress",
    "Pyoptmat.Props.C123_both",
    "Pyoptmat.Props.C123_tolerance_exists"
   ],
   "note": ""
  },
  {
   "property": "C124",
   "status": "proved",
   "theorems": [
    "Pyoptmat.Props.C124_coordinates",
    "Pyoptmat.Props.C124_gradients",
    "Pyoptmat.Props.C124_isotropic",
    "Pyoptmat.Props.C124_kinematic",
    "Pyoptmat.Props.C124_flow_rules",
    "Pyoptmat.Props.C124_damage",
    "Pyoptmat.Props.C124_models",
    "Pyoptmat.Props.C124_solve_strain",
    "Pyoptmat.Props.C124_solve_stress",
    "Pyoptmat.Props.C124_solve_both",
    "Pyoptmat.Props.C124_model_integrator",
    "Pyoptmat.Props.C124_voce_chaboche"
   ],
   "note": ""
  },
  {
   "property": "C125",
   "status": "proved",
   "theorems": [
    "Pyoptmat.Props.C125_chaboche",
    "Pyoptmat.Props.C125_model_integrator",
    "Pyoptmat.Props.C125_predictions"
   ],
   "note": ""
  },
  {
   "property": "C126",
   "status": "proved",
   "theorems": [
    "Pyoptmat.Props.C126_region",
    "Pyoptmat.Props.C126_region_stress",
    "Pyoptmat.Props.C126_energy",
    "Pyoptmat.Props.C126_no_energy_created",
    "Pyoptmat.Props.C126_damage",
    "Pyoptmat.Props.C126_rupture"
   ],
   "note": ""
  },
  {
   "property": "C127",
   "status": "proved",
   "theorems": [
    "Pyoptmat.Props.C127_any_loss",
    "Pyoptmat.Props.C127_any_loss_inexact",
    "Pyoptmat.Props.C127_output_gradient",
    "Pyoptmat.Props.C127_conversion",
    "Pyoptmat.Props.C127_training_output",
    "Pyoptmat.Props.C127_training",
    "Pyoptmat.Props.C127_training_inexact"
   ],
   "note": ""
  },
  {
   "property": "C128",
   "status": "proved",
   "theorems": [
    "Pyoptmat.Props.C128_mixed_succeeds",
    "Pyoptmat.Props.C128_limit_exists",
    "Pyoptmat.Props.C128_creep_succeeds"
   ],
   "note": ""
  },
  {
   "property": "C129",
   "status": "proved",
   "theorems": [
    "Pyoptmat.Props.C129_recorded",
    "Pyoptmat.Props.C129_limit",
    "Pyoptmat.Props.C129_forward",
    "Pyoptmat.Props.C129_linear",
    "Pyoptmat.Props.C129_no_update",
    "Pyoptmat.Props.C129_small_blocks"
   ],
   "note": ""
  },
  {
   "property": "C130",
   "status": "proved",
   "theorems": [
    "Pyoptmat.Props.C130_exact",
    "Pyoptmat.Props.C130_step",
    "Pyoptmat.Props.C130_accuracy",
    "Pyoptmat.Props.C130_reproducible",
    "Pyoptmat.Props.C130_forward_accuracy",
    "Pyoptmat.Props.C130_forward_reproducible",
    "Pyoptmat.Props.C130_budget",
    "Pyoptmat.Props.C130_exact_budget",
    "Pyoptmat.Props.C130_stagnation",
    "Pyoptmat.Props.C130_float_exact",
    "Pyoptmat.Props.C130_rounding",
    "Pyoptmat.Props.C130_perfect_stress"
   ],
   "note": ""
  },
  {
   "property": "C131",
   "status": "proved",
   "theorems": [
    "Pyoptmat.Props.C131_rates",
    "Pyoptmat.Props.C131_strain_noise",
    "Pyoptmat.Props.C131_perfect_strain_noise",
    "Pyoptmat.Props.C131_perfect_parameters",
    "Pyoptmat.Props.C131_creep"
   ],
   "note": ""
  },
  {
   "property": "C132",
   "status": "proved",
   "theorems": [
    "Pyoptmat.Props.C132_mass_damper_spring",
    "Pyoptmat.Props.C132_van_der_pol",
    "Pyoptmat.Props.C132_trajectory",
    "Pyoptmat.Props.C132_neurons"
   ],
   "note": ""
  },
  {
   "property": "C133",
   "status": "proved",
   "theorems": [
    "Pyoptmat.Props.C133_chain_energy",
    "Pyoptmat.Props.C133_chain_step_matrix",
    "Pyoptmat.Props.C133_chain_completes",
    "Pyoptmat.Props.C133_chain_dissipates",
    "Pyoptmat.Props.C133_gates",
    "Pyoptmat.Props.C133_neuron_coupling",
    "Pyoptmat.Props.C133_trajectory"
   ],
   "note": ""
  },
  {
   "property": "C134",
   "status": "proved",
   "theorems": [
    "Pyoptmat.Props.C134_scaled",
    "Pyoptmat.Props.C134_scaled_gradient",
    "Pyoptmat.Props.C134_truth",
    "Pyoptmat.Props.C134_model",
    "Pyoptmat.Props.C134_tension",
    "Pyoptmat.Props.C134_creep_fatigue",
    "Pyoptmat.Props.C134_temperature",
    "Pyoptmat.Props.C134_tension_run"
   ],
   "note": ""
  },
  {
   "property": "C135",
   "status": "proved",
   "theorems": [
    "Pyoptmat.Props.C135_input",
    "Pyoptmat.Props.C135_tension_tests",
    "Pyoptmat.Props.C135_flatten",
    "Pyoptmat.Props.C135_downsample",
    "Pyoptmat.Props.C135_load_subset",
    "Pyoptmat.Props.C135_alike"
   ],
   "note": ""
  },
  {
   "property": "C136",
   "status": "proved",
   "theorems": [
    "Pyoptmat.Props.C136_there_and_back",
    "Pyoptmat.Props.C136_no_kinematic",
    "Pyoptmat.Props.C136_both_at_once",
    "Pyoptmat.Props.C136_elastic_stress_solved",
    "Pyoptmat.Props.C136_elastic_both_solved"
   ],
   "note": ""
  }
 ]
}