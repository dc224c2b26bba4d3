{
 "claims": [
  {
   "property": "C01",
   "status": "proved",
   "theorems": [
    "Verif.Time.C01_time_never_passes_final",
    "Verif.Time.C01_release_mode_overrun"
   ],
   "note": "For all reachable states under the documented call protocol (debug assertion on next()). C01_release_mode_overrun shows that calling next() after the end in release mode passes the final time."
  },
  {
   "property": "C02",
   "status": "proved",
   "theorems": [
    "Verif.Time.C02_initial",
    "Verif.Time.C02_next_advances"
   ],
   "note": ""
  },
  {
   "property": "C03",
   "status": "proved",
   "theorems": [
    "Verif.Time.C03_driver_loop_terminates"
   ],
   "note": "Archimedean field; exact arithmetic."
  },
  {
   "property": "C04",
   "status": "proved",
   "theorems": [
    "Verif.Time.C04_desired_in_range",
    "Verif.Time.C04_desired_factor_two",
    "Verif.Time.C04_desired_granted",
    "Verif.Time.C04_step_taken",
    "Verif.Time.C04_step_le_max",
    "Verif.Time.C04_last_step_not_tiny"
   ],
   "note": ""
  },
  {
   "property": "C05",
   "status": "proved",
   "theorems": [
    "Verif.Time.C05_theta_weights",
    "Verif.Time.C05_three_weights_sum_zero",
    "Verif.Time.C05_uniform_weight",
    "Verif.Time.C05_constant_steps_exact",
    "Verif.Time.C05_weights_sum_zero",
    "Verif.Time.C05_bdf2_exact",
    "Verif.Time.C05_one_step_exact",
    "Verif.Time.C05_bdf2_run",
    "Verif.Time.C05_changed_step_breaks_weights"
   ],
   "note": "Exact for the documented protocol; C05_changed_step_breaks_weights is a counterexample for steps changed between next() calls where the stale step is used."
  },
  {
   "property": "C06",
   "status": "proved",
   "theorems": [
    "Verif.Time.C06_extrapolate_constant",
    "Verif.Time.C06_extrapolate_first_steps",
    "Verif.Time.C06_extrapolate_affine"
   ],
   "note": ""
  },
  {
   "property": "C07",
   "status": "proved",
   "theorems": [
    "Verif.Time.C07_restart_replays",
    "Verif.Time.C07_restart_weights",
    "Verif.Time.C07_restart_stale_weight"
   ],
   "note": "The exception in the statement is shown to be real by C07_restart_stale_weight."
  },
  {
   "property": "C08",
   "status": "proved",
   "theorems": [
    "Verif.Time.C08_at_end",
    "Verif.Time.C08_aligned",
    "Verif.Time.C08_reported_near_multiple",
    "Verif.Time.C08_missed_only_in_first_five_percent",
    "Verif.Time.C08_tick_missed"
   ],
   "note": "The exception in the statement is shown to be real by C08_tick_missed."
  },
  {
   "property": "C09",
   "status": "proved",
   "theorems": [
    "Verif.Boundary.C09_last_call_decides",
    "Verif.Boundary.C09_fluid_and_periodic",
    "Verif.Boundary.C09_other_ids_unaffected"
   ],
   "note": ""
  },
  {
   "property": "C10",
   "status": "partial",
   "theorems": [
    "Verif.Boundary.C10_clear_partial",
    "Verif.Boundary.C10_survivors"
   ],
   "note": "Proved for velocity, pressure, symmetry and no-slip conditions; C10_survivors shows that fluid types and periodic directions do survive, so the full statement is false of the code."
  },
  {
   "property": "C11",
   "status": "proved",
   "theorems": [
    "Verif.Boundary.C11_rejects_iff_conflict",
    "Verif.Boundary.C11_single_kind_accepted"
   ],
   "note": ""
  },
  {
   "property": "C12",
   "status": "proved",
   "theorems": [
    "Verif.Parameters.C12_accepted_consistent",
    "Verif.Parameters.C12_time_parameters_good",
    "Verif.Parameters.C12_rejects",
    "Verif.Parameters.C12_never_uninitialised",
    "Verif.Parameters.C12_negative_degree_accepted",
    "Verif.Parameters.C12_selections",
    "Verif.Parameters.C12_copied_values",
    "Verif.Parameters.C12_unsigned_exact"
   ],
   "note": "C12_negative_degree_accepted records an inconsistent file that is accepted (negative velocity degree), outside the statement."
  },
  {
   "property": "C13",
   "status": "proved",
   "theorems": [
    "Verif.Output.C13_piece_names_injective",
    "Verif.Output.C13_master_lists_pieces",
    "Verif.Output.C13_master_names"
   ],
   "note": ""
  },
  {
   "property": "C14",
   "status": "proved",
   "theorems": [
    "Verif.Output.C14_cycle_number",
    "Verif.Output.C14_ticks_do_not_overwrite",
    "Verif.Output.C14_equal_width",
    "Verif.Output.C14_final_output_overwrites"
   ],
   "note": "C14_final_output_overwrites shows the exception in the statement is real."
  },
  {
   "property": "C15",
   "status": "proved",
   "theorems": [
    "Verif.Precond.C15_vmult_entries",
    "Verif.Precond.C15_no_division_by_zero",
    "Verif.Precond.C15_exact_inverse",
    "Verif.Precond.C15_linear",
    "Verif.Precond.C15_block_entries"
   ],
   "note": ""
  },
  {
   "property": "C16",
   "status": "proved",
   "theorems": [
    "Verif.Precond.C16_last_reinit_decides",
    "Verif.Precond.C16_vector_mode",
    "Verif.Precond.C16_block_mode_refuses_vector"
   ],
   "note": ""
  },
  {
   "property": "C17",
   "status": "proved",
   "theorems": [
    "Verif.Precond.C17_multiply_per_component",
    "Verif.Precond.C17_renumbering",
    "Verif.Precond.C17_table",
    "Verif.Precond.C17_table_injective"
   ],
   "note": ""
  },
  {
   "property": "C18",
   "status": "proved",
   "theorems": [
    "Verif.Precond.C18_dof_table",
    "Verif.Precond.C18_quad_table",
    "Verif.Precond.C18_dof_range",
    "Verif.Precond.C18_dofs_covered",
    "Verif.Precond.C18_shared_iff_same_point",
    "Verif.Precond.C18_quad_bijective"
   ],
   "note": ""
  },
  {
   "property": "C19",
   "status": "proved",
   "theorems": [
    "Verif.Precond.C19_poisson_vmult",
    "Verif.Precond.C19_pin_list",
    "Verif.Precond.C19_duplicates_corrupt"
   ],
   "note": ""
  },
  {
   "property": "C20",
   "status": "proved",
   "theorems": [
    "Verif.Precond.C20_solves_block_triangular",
    "Verif.Precond.C20_inverts_block_triangular",
    "Verif.Precond.C20_stationary"
   ],
   "note": ""
  },
  {
   "property": "C21",
   "status": "partial",
   "theorems": [
    "Verif.Operator.C21_products_const_partial",
    "Verif.Operator.C21_products_unobservable_partial",
    "Verif.Operator.C21_uses_frozen",
    "Verif.Operator.C21_frozen_from_last_assembly",
    "Verif.Operator.C21_ilu_velocity_product_loses_data",
    "Verif.Operator.C21_ilu_mass_product_loses_viscosity",
    "Verif.Operator.C21_initial_storage"
   ],
   "note": "True for the AMG velocity preconditioners (C21_products_const_partial, C21_products_unobservable_partial, C21_uses_frozen, C21_frozen_from_last_assembly). For the ILU kinds the property is false of the code: C21_ilu_velocity_product_loses_data and C21_ilu_mass_product_loses_viscosity are counterexamples."
  },
  {
   "property": "C22",
   "status": "proved",
   "theorems": [
    "Verif.PhaseField.C22_solves_reference",
    "Verif.PhaseField.C22_inverts_reference"
   ],
   "note": "Inner solves are an oracle assumed exact."
  },
  {
   "property": "C23",
   "status": "proved",
   "theorems": [
    "Verif.Nonlinear.C23_budget",
    "Verif.Nonlinear.C23_escalation",
    "Verif.Nonlinear.C23_report",
    "Verif.Nonlinear.C23_residual_tells_success"
   ],
   "note": "SolverControl semantics modelled from deal.II's documentation; residual norm sequences (incl. NaN) arbitrary."
  },
  {
   "property": "C24",
   "status": "proved",
   "theorems": [
    "Verif.Nonlinear.C24_normal_return",
    "Verif.Nonlinear.C24_exception",
    "Verif.Nonlinear.C24_evaluate_reports_failure",
    "Verif.Nonlinear.C24_total_linear_iterations"
   ],
   "note": "The residual statement is about the solution before the final pressure shift (residual is not re-evaluated by the code); evaluate_time_step swallows the exception and reports {0,0}."
  },
  {
   "property": "C25",
   "status": "proved",
   "theorems": [
    "Verif.Nonlinear.C25_scheduled_before_first_solve",
    "Verif.Nonlinear.C25_rebuild_bound",
    "Verif.Nonlinear.C25_preconditioner_exists",
    "Verif.Nonlinear.C25_last_update_not_in_future",
    "Verif.Nonlinear.C25_refresh_scheduled",
    "Verif.Nonlinear.C25_deterioration_scheduled",
    "Verif.Nonlinear.C25_interval",
    "Verif.Nonlinear.C25_learning",
    "Verif.Nonlinear.C25_not_scheduled_without_reason"
   ],
   "note": "Includes existence over all histories, bound on rebuilds, and the scheduling rules."
  },
  {
   "property": "C26",
   "status": "partial",
   "theorems": [
    "Verif.Nonlinear.C26_restores_partial",
    "Verif.Nonlinear.C26_linear_variants_restore",
    "Verif.Nonlinear.C26_exception_leaves_stokes"
   ],
   "note": "Proved for every normal return and always for the linear variants; C26_exception_leaves_stokes shows that the full claim is false if the Newton iteration throws. About the copy of the parameters in the flow solver (returned by get_parameters and read by the two-phase solvers)."
  },
  {
   "property": "C27",
   "status": "proved",
   "theorems": [
    "Verif.Time.C27_old_levels",
    "Verif.Time.C27_accepted_length",
    "Verif.Time.C27_flow_start_affine",
    "Verif.Time.C27_flow_start_first",
    "Verif.Time.C27_two_phase_start_affine",
    "Verif.Time.C27_two_phase_start_first",
    "Verif.Time.C27_mixed_solver_start_lags"
   ],
   "note": "C27_mixed_solver_start_lags shows the start value is not exact for the mixed sharp-interface driver. Pressure block of the projection scheme not covered."
  },
  {
   "property": "C28",
   "status": "proved",
   "theorems": [
    "Verif.Operator.C28_zero_mean",
    "Verif.Operator.C28_idempotent",
    "Verif.Operator.C28_linear",
    "Verif.Operator.C28_changes_only_modes",
    "Verif.Operator.C28_shift",
    "Verif.Operator.C28_overlap_breaks_mean"
   ],
   "note": "For one mode and for several modes with disjoint support; C28_overlap_breaks_mean shows the disjointness is needed."
  },
  {
   "property": "C29",
   "status": "proved",
   "theorems": [
    "Verif.Operator.C29_newton_is_jacobian",
    "Verif.Operator.C29_linear_variants_exact",
    "Verif.Operator.C29_picard_consistent",
    "Verif.Operator.C29_product_linear",
    "Verif.Operator.C29_velocity_block",
    "Verif.Operator.C29_newton_step",
    "Verif.Operator.C29_linear_step",
    "Verif.Operator.C29_picard_step"
   ],
   "note": "Quadrature point operation; FE interpolation is linear oracle."
  },
  {
   "property": "C30",
   "status": "proved",
   "theorems": [
    "Verif.Operator.C30_constrained_identity",
    "Verif.Operator.C30_free_rows",
    "Verif.Operator.C30_decoupled"
   ],
   "note": ""
  },
  {
   "property": "C31",
   "status": "partial",
   "theorems": [
    "Verif.LevelSet.C31_level_set_partial",
    "Verif.LevelSet.C31_phase_field",
    "Verif.LevelSet.C31_front_tracking",
    "Verif.LevelSet.C31_pure_phases",
    "Verif.LevelSet.C31_unclamped_leaves_range"
   ],
   "note": "Proved for the level set (convex shape functions), phase field and front tracking solvers; C31_unclamped_leaves_range is a counterexample for the mixed level set solver and for the matrix-based solver without surface_tension_from_heaviside."
  },
  {
   "property": "C32",
   "status": "proved",
   "theorems": [
    "Verif.LevelSet.C32_derivative_is_delta",
    "Verif.LevelSet.C32_continuous",
    "Verif.LevelSet.C32_monotone",
    "Verif.LevelSet.C32_plateaus",
    "Verif.LevelSet.C32_range",
    "Verif.LevelSet.C32_symmetry"
   ],
   "note": "Over the reals; arcsin/sqrt/pi of Mathlib."
  },
  {
   "property": "C33",
   "status": "proved",
   "theorems": [
    "Verif.LevelSet.C33_radicands_positive",
    "Verif.LevelSet.C33_even",
    "Verif.LevelSet.C33_support",
    "Verif.LevelSet.C33_nonneg",
    "Verif.LevelSet.C33_sum_one",
    "Verif.LevelSet.C33_first_moment",
    "Verif.LevelSet.C33_sum_squares",
    "Verif.LevelSet.C33_even_odd_half"
   ],
   "note": "Also first moment and sum of squares."
  },
  {
   "property": "C34",
   "status": "proved",
   "theorems": [
    "Verif.LevelSet.C34_plateaus",
    "Verif.LevelSet.C34_antitone",
    "Verif.LevelSet.C34_range",
    "Verif.LevelSet.C34_continuous"
   ],
   "note": ""
  },
  {
   "property": "C35",
   "status": "partial",
   "theorems": [
    "Verif.LevelSet.C35_monotone_partial",
    "Verif.LevelSet.C35_order_independent_partial",
    "Verif.LevelSet.C35_not_monotone",
    "Verif.LevelSet.C35_order_matters",
    "Verif.LevelSet.C35_jump_uses_first_value"
   ],
   "note": "Proved for 3*epsilon >= concentration_subdivisions and no sign jump inside far cells; C35_not_monotone, C35_order_matters and C35_jump_uses_first_value show that each restriction is needed."
  },
  {
   "property": "C36",
   "status": "proved",
   "theorems": [
    "Verif.Bubble.C36_fraction_is_polygon_area",
    "Verif.Bubble.C36_fraction_in_unit_interval",
    "Verif.Bubble.C36_one_sided",
    "Verif.Bubble.C36_complement",
    "Verif.Bubble.C36_segments",
    "Verif.Bubble.C36_saddle_negative"
   ],
   "note": "All sixteen sign patterns: polygon area (clip + shoelace specification), range, one-sided cells, complement, segments; the excepted saddle case is shown to give a negative fraction always. Values in the patch are the perturbed ones (+1e-22); an exactly zero perturbed value is excluded."
  },
  {
   "property": "C37",
   "status": "proved",
   "theorems": [
    "Verif.Bubble.C37_patch_is_a_lattice_square",
    "Verif.Bubble.C37_weights_partition",
    "Verif.Bubble.C37_cell_area_bounds",
    "Verif.Bubble.C37_uncut_cell"
   ],
   "note": "All n >= 1 and arbitrary quadrature weights; also consequence for the cell area and for uncut cells."
  },
  {
   "property": "C38",
   "status": "proved",
   "theorems": [
    "Verif.Bubble.C38_gather_complete",
    "Verif.Bubble.C38_message_roundtrip"
   ],
   "note": "All rank counts and lists; MPI point-to-point delivery assumed."
  },
  {
   "property": "C39",
   "status": "proved",
   "theorems": [
    "Verif.Mesh.C39_flags_legal",
    "Verif.Mesh.C39_decision",
    "Verif.Mesh.C39_result_simple",
    "Verif.Mesh.C39_result_level_set",
    "Verif.Mesh.C39_levels_bounded"
   ],
   "note": "Three marking functions, arbitrary indicators (finite numbers); execute_coarsening_and_refinement specified by the allowed origin of new cells."
  },
  {
   "property": "C40",
   "status": "proved",
   "theorems": [
    "Verif.Time.C40_clocks_synchronous",
    "Verif.Time.C40_restart_harmless",
    "Verif.Time.C40_last_step_weights_differ",
    "Verif.Time.C40_start_step_out_of_range"
   ],
   "note": "Both coupled drivers, all request histories, start step within [min,max]. C40_start_step_out_of_range shows the hypothesis is needed; C40_last_step_weights_differ shows that the BDF-2 weights (not part of the claim) differ in a shortened last step."
  },
  {
   "property": "C41",
   "status": "partial",
   "theorems": [
    "Verif.Time.C41_reinit_clock_partial",
    "Verif.Time.C41_assertion_fails_in_last_step",
    "Verif.Time.C41_one_step_ahead"
   ],
   "note": "True only without the unconditional call in setup_problem; C41_assertion_fails_in_last_step proves that in every complete run without step requests the reinitialization clock hits the debug assertion."
  },
  {
   "property": "C42",
   "status": "proved",
   "theorems": [
    "Verif.Sharp.C42_compress_represents",
    "Verif.Sharp.C42_entries"
   ],
   "note": "Sort/compress of (cell, point, weight) triples; std::sort is any sorted permutation."
  },
  {
   "property": "C43",
   "status": "partial",
   "theorems": [
    "Verif.Sharp.C43_mixed_conserves",
    "Verif.Sharp.C43_front_tracking_partial",
    "Verif.Sharp.C43_front_tracking_violated"
   ],
   "note": "Conservation of the surface measure proved for the variant that keeps one owning cell per point; C43_front_tracking_partial gives the exact multiplicity for front tracking and C43_front_tracking_violated is a counterexample (points on cell faces counted more than once, points outside dropped)."
  },
  {
   "property": "C44",
   "status": "partial",
   "theorems": [
    "Verif.Sharp.C44_front_tracking_partial",
    "Verif.Sharp.C44_marching_cubes_partial",
    "Verif.Sharp.C44_regularized_partial",
    "Verif.Sharp.C44_regularized_jump",
    "Verif.Sharp.C44_mixed_violated",
    "Verif.Sharp.C44_normal_length"
   ],
   "note": "Proved for front tracking, marching cubes and the regularized force; C44_mixed_violated: the mixed level set solver multiplies with the coefficient twice (the statement is false of it)."
  },
  {
   "property": "C45",
   "status": "proved",
   "theorems": [
    "Verif.PhaseField.C45_weak_form",
    "Verif.PhaseField.C45_product_is_jacobian",
    "Verif.PhaseField.C45_contact_is_jacobian",
    "Verif.PhaseField.C45_newton_step"
   ],
   "note": "Volume and contact terms; discrete level with arbitrary linear evaluation."
  },
  {
   "property": "C46",
   "status": "partial",
   "theorems": [
    "Verif.LevelSet.C46_phase_field",
    "Verif.LevelSet.C46_level_set_partial",
    "Verif.LevelSet.C46_not_fixed_point"
   ],
   "note": "Phase field profile proved; the level set profile only on meshes with h/degree <= epsilon. C46_not_fixed_point: otherwise, and for the matrix-based solver with epsilon < subdivisions, the profile is not a fixed point."
  },
  {
   "property": "C47",
   "status": "proved",
   "theorems": [
    "Verif.Mesh.C47_partition_independent",
    "Verif.Mesh.C47_values"
   ],
   "note": ""
  },
  {
   "property": "C48",
   "status": "partial",
   "theorems": [
    "Verif.Time.C48_below_limits_partial",
    "Verif.Time.C48_formula",
    "Verif.Time.C48_in_bounds",
    "Verif.Time.C48_antitone",
    "Verif.Time.C48_density_ignored"
   ],
   "note": "Bounds proved; the requested step is a harmonic-type combination below the minimum (at least half of it), and C48_density_ignored shows that the viscosity is used in place of the density."
  },
  {
   "property": "C49",
   "status": "partial",
   "theorems": [
    "Verif.LevelSet.C49_steps_partial",
    "Verif.LevelSet.C49_extra_steps",
    "Verif.LevelSet.C49_normal_skipped",
    "Verif.LevelSet.C49_matrix_never_sharpens"
   ],
   "note": "C49_normal_skipped: the call may end without computing the normal or (0 steps requested) without a step; C49_matrix_never_sharpens: the matrix-based solver performs only diffusive steps once any is requested."
  },
  {
   "property": "C50",
   "status": "partial",
   "theorems": [
    "Verif.LevelSet.C50_sphere_corrected_partial",
    "Verif.LevelSet.C50_unchanged",
    "Verif.LevelSet.C50_resolved",
    "Verif.LevelSet.C50_sign_flip",
    "Verif.LevelSet.C50_one_dimension",
    "Verif.LevelSet.C50_not_symmetric"
   ],
   "note": "Proved for droplets with positive level set inside, away from the cut-offs; C50_not_symmetric: the mirrored case is not corrected. C50_resolved: for resolved interfaces (radius of curvature at least 6 epsilon) the result is always a positive number; C50_sign_flip: for radii below 4 epsilon the correction can make the curvature negative; C50_one_dimension: division by zero."
  },
  {
   "property": "C51",
   "status": "partial",
   "theorems": [
    "Verif.Precond.C51_pin_lowest_partial",
    "Verif.Precond.C51_error_iff",
    "Verif.Precond.C51_pins_constrained_dof"
   ],
   "note": "Proved if the lowest boundary dof of each rank is unconstrained; C51_pins_constrained_dof shows the full statement is false of the code."
  },
  {
   "property": "C52",
   "status": "proved",
   "theorems": [
    "Verif.PhaseField.C52_preconditioner_matches_weight"
   ],
   "note": ""
  },
  {
   "property": "C53",
   "status": "proved",
   "theorems": [
    "Verif.PhaseField.C53_total_balance",
    "Verif.PhaseField.C53_total_conserved",
    "Verif.PhaseField.C53_total_conserved_run"
   ],
   "note": "Constant test function and zero-integral convection are hypotheses (FE oracle)."
  },
  {
   "property": "C54",
   "status": "partial",
   "theorems": [
    "Verif.Sharp.C54_step_partial",
    "Verif.Sharp.C54_uniform_partial",
    "Verif.Sharp.C54_position_last_step",
    "Verif.Time.C54_transport_time_partial",
    "Verif.Time.C54_last_step_overshoots"
   ],
   "note": "True until the final time is reached (C54_transport_time_partial; node positions: C54_step_partial, C54_uniform_partial, with a bound on the error at the end); C54_last_step_overshoots and C54_position_last_step are counterexamples for the last step."
  },
  {
   "property": "C55",
   "status": "proved",
   "theorems": [
    "Verif.Sharp.C55_material_values",
    "Verif.Sharp.C55_external_force",
    "Verif.Sharp.C55_total_force"
   ],
   "note": ""
  },
  {
   "property": "C56",
   "status": "proved",
   "theorems": [
    "Verif.Sharp.C56_orientation",
    "Verif.Sharp.C56_phase_exchange"
   ],
   "note": ""
  },
  {
   "property": "C57",
   "status": "proved",
   "theorems": [
    "Verif.Sharp.C57_nodes_move_once",
    "Verif.Sharp.C57_uniform_flow",
    "Verif.Sharp.C57_order_independent"
   ],
   "note": ""
  },
  {
   "property": "C58",
   "status": "proved",
   "theorems": [
    "Verif.Mesh.C58_eigenvalue_bounds",
    "Verif.Mesh.C58_depends_on_local_axes",
    "Verif.Mesh.C58_aligned"
   ],
   "note": "C58_depends_on_local_axes shows that for turned local axes the reported size is not an extent of the cell."
  },
  {
   "property": "C59",
   "status": "proved",
   "theorems": [
    "Verif.Operator.C59_steady_state",
    "Verif.Operator.C59_other_schemes_inconsistent"
   ],
   "note": "C59_other_schemes_inconsistent: Crank-Nicolson and explicit Euler, which the parameter reader accepts, are only rejected by a debug assertion."
  },
  {
   "property": "C60",
   "status": "proved",
   "theorems": [
    "Verif.Operator.C60_power_balance",
    "Verif.Operator.C60_euler_energy",
    "Verif.Operator.C60_bdf2_energy",
    "Verif.Operator.C60_bdf2_any_step",
    "Verif.Operator.C60_euler_energy_run",
    "Verif.Operator.C60_bdf2_energy_run",
    "Verif.Operator.C60_bdf2_bounded_run"
   ],
   "note": "Hypothesis Closed: the discrete equations hold for the solution as test function and the energy flux through the boundary vanishes."
  },
  {
   "property": "C61",
   "status": "partial",
   "theorems": [
    "Verif.Precond.C61_velocity_entries_partial",
    "Verif.Precond.C61_scalar_entries",
    "Verif.Precond.C61_stokes_undefined"
   ],
   "note": "Proved for non-zero density; C61_stokes_undefined: for Stokes flow (density 0) the code divides by zero and every entry is undefined."
  },
  {
   "property": "C62",
   "status": "proved",
   "theorems": [
    "Verif.Precond.C62_pressure_entries",
    "Verif.Precond.C62_laplace_definite"
   ],
   "note": "Without the DG0 enrichment (augmented Taylor-Hood face terms)."
  },
  {
   "property": "C63",
   "status": "proved",
   "theorems": [
    "Verif.Nonlinear.C63_linear_tolerance",
    "Verif.Nonlinear.C63_one_solve_suffices"
   ],
   "note": "C63_linear_tolerance covers every solve of every run (for tol_nl/2 <= tol_lin in relative Newton/Picard mode); C63_one_solve_suffices is the consequence for linear variants."
  },
  {
   "property": "C64",
   "status": "proved",
   "theorems": [
    "Verif.LevelSet.C64_residual_after_update",
    "Verif.LevelSet.C64_weak_form",
    "Verif.LevelSet.C64_step_solves_transport",
    "Verif.LevelSet.C64_hanging_node_mismatch"
   ],
   "note": "Hypotheses: closed constraints, exact linear solve (`Solved`), and `FaceExact` (face data of the product agree with those of the right hand side and no hanging node sees a non-symmetry boundary face). FINDING: without the latter the product is not the derivative of the residual (C64_hanging_node_mismatch); the product also builds its FEFaceValues without the mapping."
  },
  {
   "property": "C65",
   "status": "proved",
   "theorems": [
    "Verif.LevelSet.C65_content_balance",
    "Verif.LevelSet.C65_content_conserved",
    "Verif.LevelSet.C65_constant_unchanged",
    "Verif.LevelSet.C65_content_conserved_run"
   ],
   "note": "Conservation needs hanging-node constraints only (KeepsOne), partition of unity, and weight() exact in the step (the clock may keep an old weight within its tolerance, C05; then the deviation is bounded)."
  },
  {
   "property": "C66",
   "status": "proved",
   "theorems": [
    "Verif.LevelSet.C66_bounds",
    "Verif.LevelSet.C66_first_order",
    "Verif.LevelSet.C66_vanishes_on_solutions",
    "Verif.LevelSet.C66_value",
    "Verif.LevelSet.C66_rest_is_nan",
    "Verif.LevelSet.C66_first_step"
   ],
   "note": "Bounds need positive maximal velocity and domain size with SIMD arithmetic. FINDINGS: a fluid at rest gives 0/0 = NaN (C66_rest_is_nan); in the first step the result depends on the vectorization: none with SIMD, the largest with scalar arithmetic (C66_first_step). min/max semantics of NaN as in the two code variants."
  },
  {
   "property": "C67",
   "status": "proved",
   "theorems": [
    "Verif.LevelSet.C67_content_conserved_whole_run",
    "Verif.LevelSet.C67_content_conserved_constant_steps",
    "Verif.LevelSet.C67_content_change",
    "Verif.LevelSet.C67_reinitialization_conserves"
   ],
   "note": "Hypotheses: exact linear solve on the free unknowns, constraints are hanging nodes only (constants admissible)."
  },
  {
   "property": "C68",
   "status": "proved",
   "theorems": [
    "Verif.LevelSet.C68_weak_form",
    "Verif.LevelSet.C68_symmetric_positive",
    "Verif.LevelSet.C68_diffusion_decays",
    "Verif.LevelSet.C68_equilibrium",
    "Verif.LevelSet.C68_stored_normal",
    "Verif.LevelSet.C68_pseudo_step",
    "Verif.LevelSet.C68_diffusion_bounds"
   ],
   "note": "Equilibrium and stored normals pointwise; norms given by their defining property."
  },
  {
   "property": "C69",
   "status": "proved",
   "theorems": [
    "Verif.LevelSet.C69_assembled_is_matrix_free",
    "Verif.LevelSet.C69_stable",
    "Verif.LevelSet.C69_reproduces_constants",
    "Verif.LevelSet.C69_normal_of_linear",
    "Verif.LevelSet.C69_damping_nonneg"
   ],
   "note": "Exactness uses positive quadrature weights and exact linear solve on the free unknowns."
  },
  {
   "property": "C70",
   "status": "proved",
   "theorems": [
    "Verif.LevelSet.C70_node_length",
    "Verif.LevelSet.C70_node_scaling",
    "Verif.LevelSet.C70_batch_independent",
    "Verif.LevelSet.C70_flat_interface",
    "Verif.LevelSet.C70_total_curvature",
    "Verif.LevelSet.C70_orientation",
    "Verif.LevelSet.C70_approximate_projection_shrinks"
   ],
   "note": "FINDING (C70_approximate_projection_shrinks): with approximate projections the smoothing loop passes the integer 2 to a bool parameter; it therefore applies mass plus damping and multiplies a constant curvature with 0.95 in each round."
  },
  {
   "property": "C71",
   "status": "proved",
   "theorems": [
    "Verif.LevelSet.C71_gradient_force",
    "Verif.LevelSet.C71_static_droplet",
    "Verif.LevelSet.C71_pressure_jump",
    "Verif.LevelSet.C71_hydrostatic",
    "Verif.LevelSet.C71_uninterpolated_unbalanced",
    "Verif.LevelSet.C71_interpolation",
    "Verif.LevelSet.C71_interpolation_exact",
    "Verif.LevelSet.C71_interpolated_pressure",
    "Verif.LevelSet.C71_static_droplet_conforming",
    "Verif.LevelSet.C71_hanging_node_not_pressure"
   ],
   "note": "Hypotheses: discrete integration by parts for the given pressure and test function (holds for continuous pressure and velocity vanishing on the boundary). C71_uninterpolated_unbalanced: without interpolation into the pressure space no discrete pressure balances even constant curvature. C71_interpolation, C71_interpolated_pressure and C71_static_droplet_conforming treat the interpolation matrix and the pressure space; C71_hanging_node_not_pressure shows the limit at hanging nodes."
  },
  {
   "property": "C72",
   "status": "partial",
   "theorems": [
    "Verif.LevelSet.C72_weak_form_partial",
    "Verif.LevelSet.C72_content_conserved",
    "Verif.LevelSet.C72_content_conserved_run",
    "Verif.LevelSet.C72_constrained_unknowns",
    "Verif.LevelSet.C72_viscosity_unused",
    "Verif.LevelSet.C72_stabilized_doubles"
   ],
   "note": "Proved for convection_stabilization = false (default). FINDINGS: with stabilization the right hand side is not a residual but the solution is added, so each step doubles the level set (C72_stabilized_doubles); the computed entropy viscosity is never used (C72_viscosity_unused)."
  },
  {
   "property": "C73",
   "status": "partial",
   "theorems": [
    "Verif.LevelSet.C73_imposed_partial",
    "Verif.LevelSet.C73_okz_frozen",
    "Verif.LevelSet.C73_okz_symmetry_unknown"
   ],
   "note": "Proved for the matrix-based and the stand-alone solver, for all histories of steps and changes of the mesh. FINDING: LevelSetOKZSolver copies the registered types in its constructor, before anything can be registered: C73_okz_frozen shows that the level set keeps its initial value (carried to the current mesh) at these nodes in all runs; C73_okz_symmetry_unknown: its transport operator never knows a symmetry boundary."
  },
  {
   "property": "C74",
   "status": "proved",
   "theorems": [
    "Verif.Boundary.C74_prescribed_velocity",
    "Verif.Boundary.C74_constraints",
    "Verif.Boundary.C74_late_registration"
   ],
   "note": "for nodes where the faces they lie on agree on the condition (at corners with different conditions the last face of the loop decides); linear solvers arbitrary; late registration shown to be ineffective"
  },
  {
   "property": "C75",
   "status": "proved",
   "theorems": [
    "Verif.Boundary.C75_fixed_value",
    "Verif.Boundary.C75_error_iff",
    "Verif.Boundary.C75_only_level",
    "Verif.Boundary.C75_open_projection",
    "Verif.Boundary.C75_partition_dependence"
   ],
   "note": "history theorem for the coupled schemes; the end of a step also for projection (open boundaries); -max double modelled as minus infinity; late registration (no constant mode built) is an assertion in debug mode and not covered"
  },
  {
   "property": "C76",
   "status": "partial",
   "theorems": [
    "Verif.Projection.C76_pressure_update_partial",
    "Verif.Projection.C76_initial_pressure_lost",
    "Verif.Projection.C76_pressure_used",
    "Verif.Projection.C76_uniform_coefficients",
    "Verif.Projection.C76_defect",
    "Verif.Projection.C76_projected_velocity_partial",
    "Verif.Projection.C76_second_step_defect"
   ],
   "note": "Full statement false of the code: initial pressure lost in the first step (C76_initial_pressure_lost), defect for changed weights (C76_defect gives it exactly, C76_second_step_defect a concrete case). Proved: pressure update from zero initial pressure, pressure used in the residual, equivalence to the scheme with projected velocities for constant weights, coefficients 4/3, -1/3."
  },
  {
   "property": "C77",
   "status": "partial",
   "theorems": [
    "Verif.Projection.C77_uses_last_rebuild",
    "Verif.Projection.C77_current_velocity_partial",
    "Verif.Projection.C77_stale_linearization",
    "Verif.Projection.C77_ilu_second_step"
   ],
   "note": "Full statement false of the code: steps without a preconditioner rebuild use old velocities (C77_stale_linearization; C77_uses_last_rebuild says exactly which), and with u_ilu the storage of the linearization point is lost (C77_ilu_second_step). Proved for steps with a rebuild."
  },
  {
   "property": "C78",
   "status": "proved",
   "theorems": [
    "Verif.Precond.Objects.C78_no_missing_object",
    "Verif.Precond.Objects.C78_coupled_always_runs",
    "Verif.Precond.Objects.C78_projection_component_ilu",
    "Verif.Precond.Objects.C78_stokes_parameters_do_not_arrive"
   ],
   "note": "Exact characterization (iff) of the histories that run; the excluded parameter combinations crash in the code (C78_projection_component_ilu). The initial Stokes solve is safe since its parameters do not reach the preconditioner (C78_stokes_parameters_do_not_arrive, see C111). An exception thrown by a solve ends the history (see C26)."
  },
  {
   "property": "C79",
   "status": "proved",
   "theorems": [
    "Verif.Precond.Objects.C79_flexible_iff_iterative"
   ],
   "note": "Inner iterations are recorded by their kind only; numbers are not modelled."
  },
  {
   "property": "C80",
   "status": "proved",
   "theorems": [
    "Verif.Boundary.C80_open_boundary_term",
    "Verif.Boundary.C80_closed",
    "Verif.Boundary.C80_rest_with_open_boundary"
   ],
   "note": "open boundary term = work of the prescribed pressure at the current time after every history; hydrostatic state with an open boundary has zero residual"
  },
  {
   "property": "C81",
   "status": "proved",
   "theorems": [
    "Verif.Precond.C81_coefficients",
    "Verif.Precond.C81_definite_all_steps",
    "Verif.Precond.C81_definite_stationary",
    "Verif.Precond.C81_stationary_indefinite",
    "Verif.Precond.C81_interior_penalty",
    "Verif.Precond.C81_symmetric",
    "Verif.Precond.C81_constants",
    "Verif.Precond.C81_definite",
    "Verif.Precond.C81_pattern",
    "Verif.Precond.C81_process_border_not_symmetric"
   ],
   "note": "interior penalty form, symmetry, kernel, definiteness under the trace inequality (C81_definite; C81_definite_all_steps for all densities and steps), sparsity pattern; C81_process_border_not_symmetric shows the failure at process borders that the statement excludes, C81_stationary_indefinite the one for stationary flow of small density"
  },
  {
   "property": "C82",
   "status": "proved",
   "theorems": [
    "Verif.TwoPhase.C82_solve_data_current",
    "Verif.TwoPhase.C82_one_solve_final_level_set",
    "Verif.TwoPhase.C82_correction_iff",
    "Verif.TwoPhase.C82_corrections_apart",
    "Verif.TwoPhase.C82_marking_normals",
    "Verif.TwoPhase.C82_second_refine_noop"
   ],
   "note": "Kernels are arbitrary functions; exceptions other than the swallowed non-convergence are not modelled; do_iteration throws in the code."
  },
  {
   "property": "C83",
   "status": "partial",
   "theorems": [
    "Verif.TwoPhase.C83_phase_field_solve_data_partial",
    "Verif.TwoPhase.C83_phase_field_faces_unset"
   ],
   "note": "Proved: force and material tables are current. False of the code and proved as such: the face densities are never set by the phase-field solver."
  },
  {
   "property": "C84",
   "status": "partial",
   "theorems": [
    "Verif.Operator.CellLoop.C84_operator_split",
    "Verif.Operator.CellLoop.C84_direct_split",
    "Verif.Operator.CellLoop.C84_divergence_formula",
    "Verif.Operator.CellLoop.C84_divergence_split_partial",
    "Verif.Operator.CellLoop.Example.C84_divergence_depends_on_ranges"
   ],
   "note": "Proved for residual, vmult, velocity vmult and all loops that index by the cell number. For the viscosity-weighted divergence the statement is false of the code (C84_divergence_depends_on_ranges); proved there: the exact formula, and independence whenever the weight is constant on each range. Ranges are executed one after the other; data races are not modelled."
  },
  {
   "property": "C85",
   "status": "partial",
   "theorems": [
    "Verif.Operator.Dispatch.C85_flow",
    "Verif.Operator.Dispatch.C85_level_set_force",
    "Verif.Operator.Dispatch.C85_advection",
    "Verif.Operator.Dispatch.C85_level_set_kernels",
    "Verif.Operator.Dispatch.C85_phase_field_partial",
    "Verif.Operator.Dispatch.C85_phase_vmult_silent",
    "Verif.Operator.Dispatch.C85_phase_step_guarded",
    "Verif.Operator.Dispatch.C85_velocity_degree_six"
   ],
   "note": "Proved for all operators except the throwing part for PhaseFieldSolver::vmult, which silently skips the loop with 0 or more than 4 subdivisions (C85_phase_vmult_silent). Within a time step the residual throws before (C85_phase_step_guarded). The list of evaluators was transcribed by hand; hypercube kernels with run-time degree (sharp_interface_util.h) always fit and are not listed."
  },
  {
   "property": "C86",
   "status": "partial",
   "theorems": [
    "Verif.Bubble.C86_patch_edges",
    "Verif.Bubble.C86_report",
    "Verif.Bubble.C86_partition_independent",
    "Verif.Bubble.C86_constant_velocity",
    "Verif.Bubble.C86_speed_for_time_step",
    "Verif.Bubble.C86_mean_in_range_partial",
    "Verif.Bubble.C86_area_bounds_partial",
    "Verif.Bubble.C86_translation",
    "Verif.Bubble.C86_uncut_cell_has_one_sign",
    "Verif.Bubble.C86_perimeter_is_length_of_points_partial",
    "Verif.Bubble.C86_report_3d",
    "Verif.Bubble.C86_partition_independent_3d",
    "Verif.Bubble.C86_mean_in_range_3d",
    "Verif.Bubble.C86_circularity",
    "Verif.Bubble.C86_sphericity",
    "Verif.Bubble.C86_saddle_counterexample",
    "Verif.Bubble.C86_printed_centre_depends_on_bubble_size"
   ],
   "note": "Proved in full for three dimensions and for partition independence, constant velocity, translation and the cheap test in two dimensions. Range of the means, area bounds and perimeter = length of the returned points are proved without saddle sub-cells; with them they are false of the code (C86_saddle_counterexample). Finite element evaluation is not modelled: cells carry the values read."
  },
  {
   "property": "C87",
   "status": "proved",
   "theorems": [
    "Verif.Operator.PressureOps.C87_poisson_form",
    "Verif.Operator.PressureOps.C87_poisson_symmetric_semidefinite",
    "Verif.Operator.PressureOps.C87_poisson_kernel",
    "Verif.Operator.PressureOps.C87_weight_is_a_factor",
    "Verif.Operator.PressureOps.C87_mass_form",
    "Verif.Operator.PressureOps.C87_mass_second_mode",
    "Verif.Operator.PressureOps.C87_stationary_scaling",
    "Verif.Operator.PressureOps.C87_projected_velocity_divergence_free",
    "Verif.Operator.PressureOps.C87_rotational_update",
    "Verif.Operator.PressureOps.C87_poisson_agrees_with_assembly",
    "Verif.Operator.PressureOps.C87_mass_agrees_with_assembly",
    "Verif.Operator.PressureOps.Example.C87_mass_is_not_the_assembled_one"
   ],
   "note": "The linear solves of the stationary and projection steps are hypotheses; integration by parts for the velocity is a hypothesis of the projection theorem. Agreement of the mass matrices needs a viscosity constant on cells (counterexample otherwise)."
  },
  {
   "property": "C88",
   "status": "partial",
   "theorems": [
    "Verif.LevelSet.Ranges.C88_max_velocity",
    "Verif.LevelSet.Ranges.C88_range",
    "Verif.LevelSet.Ranges.C88_partition",
    "Verif.LevelSet.Ranges.C88_sampled_nodes",
    "Verif.LevelSet.Ranges.C88_true_range_partial",
    "Verif.LevelSet.Ranges.C88_range_misses_overshoot",
    "Verif.LevelSet.Ranges.C88_diameter",
    "Verif.LevelSet.Ranges.C88_diameter_refinement",
    "Verif.LevelSet.Ranges.C88_diameter_convex",
    "Verif.LevelSet.Ranges.C88_quiet_partial",
    "Verif.LevelSet.Ranges.C88_verbose",
    "Verif.LevelSet.Ranges.C88_verbosity_changes_computation"
   ],
   "note": "Exact range proved for one or two subdivisions only; false for three or more (C88_range_misses_overshoot). Independence of the verbosity is false (C88_verbosity_changes_computation); proved for programs whose level set stays within [-1.02, 1.02] at the statistics calls. Everything else in full. Velocity samples are arbitrary values (polynomials of FE_Q not modelled)."
  },
  {
   "property": "C89",
   "status": "partial",
   "theorems": [
    "Verif.PhaseField.Energy.C89_energy_balance",
    "Verif.PhaseField.Energy.C89_energy_decays",
    "Verif.PhaseField.Energy.C89_material_partial",
    "Verif.PhaseField.Energy.C89_inflow_material",
    "Verif.PhaseField.Energy.C89_inflow_density_wrong",
    "Verif.PhaseField.Energy.C89_force_partial",
    "Verif.PhaseField.Energy.C89_force_is_pressure_gradient",
    "Verif.PhaseField.Energy.C89_trace_degree_one_partial",
    "Verif.PhaseField.Energy.C89_trace_degree_two_wrong",
    "Verif.PhaseField.Energy.C89_trace_constants",
    "Verif.PhaseField.Energy.C89_run_energy_bounded",
    "Verif.PhaseField.Energy.C89_constant_step_run",
    "Verif.PhaseField.Energy.C89_complete_run"
   ],
   "note": "Energy balance and decay in full for implicit Euler; runs of any length with BDF-2 (C89_run_energy_bounded for variable step weights, C89_constant_step_run for the weights of the clock): the energy never exceeds the initial one. Material data and force only for concentrations satisfying homogeneous constraints: false at boundaries with prescribed fluid (C89_inflow_density_wrong). Wall traces only for one subdivision: false for two (C89_trace_degree_two_wrong)."
  },
  {
   "property": "C90",
   "status": "partial",
   "theorems": [
    "Verif.Precond.Pattern.C90_velocity_components",
    "Verif.Precond.Pattern.C90_full_cells",
    "Verif.Precond.Pattern.C90_velocity_linear",
    "Verif.Precond.Pattern.C90_pressure",
    "Verif.Precond.Pattern.C90_projection",
    "Verif.Precond.Pattern.C90_phase_field_partial",
    "Verif.Precond.Pattern.C90_phase_field_missing"
   ],
   "note": "All matrices in full except the Cahn-Hilliard preconditioner, where the property is false with hanging nodes (C90_phase_field_missing) and proved for constraints without masters. deal.II distribution and pattern functions are given their documented meaning; face terms of the augmented pressure matrix are C81."
  },
  {
   "property": "C91",
   "status": "proved",
   "theorems": [
    "Verif.Precond.Wrapper.C91_constrained_rows_identity",
    "Verif.Precond.Wrapper.C91_pinned_rows",
    "Verif.Precond.Wrapper.C91_wrapper_equals_matrix",
    "Verif.Precond.Wrapper.C91_poisson_wrapper_equals_assembled",
    "Verif.Precond.Wrapper.C91_positive_definite",
    "Verif.Precond.Wrapper.C91_ignored_pin_singular"
   ],
   "note": "Both branches agree for all constraints; the Poisson instance needs equal or exact quadratures (as C87) and positive coefficients; definiteness needs a connected mesh and one fixed dof not constrained already (C51 shows that the code may pick a constrained one; C91_ignored_pin_singular shows the consequence). One process; meaning of deal.II's AffineConstraints is modelled."
  },
  {
   "property": "C92",
   "status": "partial",
   "theorems": [
    "Verif.LevelSet.MatrixNormals.C92_reinitialize_reads",
    "Verif.LevelSet.MatrixNormals.C92_recent_partial",
    "Verif.LevelSet.MatrixNormals.C92_curvature_current",
    "Verif.LevelSet.MatrixNormals.C92_marking_current",
    "Verif.LevelSet.MatrixNormals.C92_stale_after_transport"
   ],
   "note": "Curvature and marking after set-up: current normals, proved for all histories. Reinitialization: exact description of what is read, recent if the flag is unset. Missing because false of the code: advance_concentration does not reset normal_calculated, so the first (up to eight) stabilised steps of every time step use the normals of the previous step (C92_stale_after_transport, for every state); with diffusion steps the stabilised steps never use normals at all (diffuse_only is not reset)."
  },
  {
   "property": "C93",
   "status": "partial",
   "theorems": [
    "Verif.LevelSet.MatrixForce.C93_projection_matrix",
    "Verif.LevelSet.MatrixForce.C93_normal_rhs",
    "Verif.LevelSet.MatrixForce.C93_normal_of_linear",
    "Verif.LevelSet.MatrixForce.C93_normal_length",
    "Verif.LevelSet.MatrixForce.C93_total_curvature",
    "Verif.LevelSet.MatrixForce.C93_curvature_bounded",
    "Verif.LevelSet.MatrixForce.C93_curvature_bound_parameters",
    "Verif.LevelSet.MatrixForce.C93_flat_interior",
    "Verif.LevelSet.MatrixForce.C93_force",
    "Verif.LevelSet.MatrixForce.C93_same_force",
    "Verif.LevelSet.MatrixForce.C93_force_from_level_set",
    "Verif.LevelSet.MatrixForce.C93_material_between",
    "Verif.LevelSet.MatrixForce.C93_theta_steady_partial",
    "Verif.LevelSet.MatrixForce.C93_theta_curvature_lost",
    "Verif.LevelSet.MatrixForce.C93_theta_heaviside_mixed",
    "Verif.LevelSet.MatrixForce.C93_table_bounds",
    "Verif.LevelSet.MatrixForce.Example.C93_flat_not_zero"
   ],
   "note": "Proved: matrix, normals, length, curvature bound, force identity, equality with the matrix-free force, material data. Missing because false of the code: (1) steady fields with theta scheme (tau2 > 0): without gradient interpolation the old curvature is never evaluated, surface tension is tau1 times the correct one (C93_theta_curvature_lost); with the Heaviside function old gradients are those of the level set, factor tau1 + 2 tau2 (C93_theta_heaviside_mixed); (2) the gradient table is accessed out of bounds if the pressure element has more functions than the level set element (C93_table_bounds); (3) total curvature is always zero and a flat interface gets curvature at the boundary (C93_total_curvature, C93_flat_not_zero), unlike the matrix-free solver."
  },
  {
   "property": "C94",
   "status": "proved",
   "theorems": [
    "Verif.Mesh.C94_adaptive_run",
    "Verif.Mesh.C94_data_of_current_mesh",
    "Verif.Mesh.C94_preconditioner_rebuilt",
    "Verif.Mesh.C94_must_reinitialize",
    "Verif.Mesh.C94_reinit_erases",
    "Verif.Mesh.C94_clear_flags",
    "Verif.Mesh.C94_levels_bounded"
   ],
   "note": "Explicit consequence shown beside it: a vector given in user_rhs is erased by an adaptation, and a repeated initialize_matrix_free without pending transfer erases the solution (C94_reinit_erases)."
  },
  {
   "property": "C95",
   "status": "partial",
   "theorems": [
    "Verif.Sharp.C95_first_cell_irrelevant",
    "Verif.Sharp.C95_orientation_irrelevant",
    "Verif.Sharp.C95_two_phases",
    "Verif.Sharp.C95_outside",
    "Verif.Sharp.C95_no_overshoot",
    "Verif.Sharp.C95_convex_partial",
    "Verif.Sharp.C95_indicator_field",
    "Verif.Sharp.C95_cell_order_matters",
    "Verif.Sharp.C95_third_coordinate_ignored"
   ],
   "note": "Exact membership is proved for quadrature points that run once around a strictly convex polygon in the order of the cells (C95_convex_partial); separation, start, orientation and joint phases for all meshes. The general statement is false of the code: a surface mesh whose cells are not numbered along the curve gives a wrong polygon (C95_cell_order_matters), and in three dimensions the third coordinate is ignored (C95_third_coordinate_ignored)."
  },
  {
   "property": "C96",
   "status": "partial",
   "theorems": [
    "Verif.Sharp.C96_nodal_normals",
    "Verif.Sharp.C96_sphere",
    "Verif.Sharp.C96_flat",
    "Verif.Sharp.C96_motion",
    "Verif.Sharp.C96_formula_is_curvature",
    "Verif.Sharp.C96_line_formula",
    "Verif.Sharp.C96_stored_at_nodes_partial",
    "Verif.Sharp.C96_numbering_iff",
    "Verif.Sharp.C96_wrong_node"
   ],
   "note": "Normals are stored at the right nodes (C96_nodal_normals). The curvature formula is right (C96_sphere, C96_flat, C96_motion, C96_formula_is_curvature with C96_line_formula), and is stored at the right nodes if quadrature and support points are numbered alike (C96_stored_at_nodes_partial). The full statement is false of the code: the Gauss-Lobatto points are in ascending order, the nodes of FE_Q start with the vertices; these agree only for degree one (C96_numbering_iff) and the solver uses degree three, so a varying curvature is stored at wrong nodes (C96_wrong_node)."
  },
  {
   "property": "C97",
   "status": "partial",
   "theorems": [
    "Verif.App.C97_no_row_lost",
    "Verif.App.C97_log_complete",
    "Verif.App.C97_one_writer",
    "Verif.App.C97_names",
    "Verif.App.C97_step_number",
    "Verif.App.C97_small_steps_collide",
    "Verif.App.C97_columns_2d_partial",
    "Verif.App.C97_columns_3d"
   ],
   "note": "Log completeness, crash points, single writer and names are proved for all runs. False of the code: in three dimensions the header does not match the columns (C97_columns_3d; proved for two dimensions, C97_columns_2d_partial), and maximal step sizes below 9e-5 share one file name (C97_small_steps_collide)."
  },
  {
   "property": "C98",
   "status": "partial",
   "theorems": [
    "Verif.App.C98_exchange_partial",
    "Verif.App.C98_lines_partial",
    "Verif.App.C98_lid_partial",
    "Verif.App.C98_two_dimensions"
   ],
   "note": "Proved in three dimensions for all meshes whose edges are not shorter than the tolerance 1e-12 (C98_lines_partial, C98_exchange_partial, C98_lid_partial). False of the code for dimension 2, which the program accepts: the third coordinate is read (C98_two_dimensions)."
  },
  {
   "property": "C99",
   "status": "partial",
   "theorems": [
    "Verif.Output.Joint.C99_every_name_shows_its_field",
    "Verif.Output.Joint.C99_vectors",
    "Verif.Output.Joint.C99_patches",
    "Verif.Output.Joint.C99_standard_refine",
    "Verif.Output.Joint.C99_biased_refine_partial",
    "Verif.Output.Joint.C99_biased_refine_not_marking",
    "Verif.Output.Joint.C99_direction_not_a_number"
   ],
   "note": "Proved in full: fields/names/vectors/Standard_refine. Biased_refine = marking only for flow not crossing the interface in the probed point (C99_biased_refine_partial); counterexamples C99_biased_refine_not_marking (factor 20 vs 4: a cell shown as refined is coarsened) and C99_direction_not_a_number. Trusted: numbering and ownership of deal.II's FESystem DoFHandler (Spec.Conforming), DataOut. The phase field output (two_phase_base.cc:550-592) attaches each vector directly and only shares nPatches."
  },
  {
   "property": "C100",
   "status": "partial",
   "theorems": [
    "Verif.App.Channel.C100_mesh",
    "Verif.App.Channel.C100_finer_towards_walls",
    "Verif.App.Channel.C100_cells",
    "Verif.App.Channel.C100_initial_velocity",
    "Verif.App.Channel.C100_2d_reads_third_coordinate",
    "Verif.App.Channel.C100_initial_divergence",
    "Verif.App.Channel.C100_boundary_partial",
    "Verif.App.Channel.C100_2d_throws",
    "Verif.App.Channel.C100_force_power",
    "Verif.App.Channel.C100_force_brakes"
   ],
   "note": "Proved: mesh, grading, initial field, boundary conditions in 3D, force = weak form of a constant. False of the code (counterexample theorems): 2D (C100_2d_reads_third_coordinate, C100_2d_throws), the driving direction (C100_force_brakes: force -0.00337 enters the right hand side, so it takes energy out of every flow with positive flow rate), divergence-free start (C100_initial_divergence). Trusted: GridGenerator/GridTools, VectorTools::interpolate."
  },
  {
   "property": "C101",
   "status": "partial",
   "theorems": [
    "Verif.App.Particle.C101_ids_2d",
    "Verif.App.Particle.C101_ids_3d",
    "Verif.App.Particle.C101_manifolds",
    "Verif.App.Particle.C101_boundary",
    "Verif.App.Particle.C101_pressure_constraint_no_effect",
    "Verif.App.Particle.C101_ramp",
    "Verif.App.Particle.C101_inflow_2d",
    "Verif.App.Particle.C101_inflow_3d_partial",
    "Verif.App.Particle.C101_inlet2_3d",
    "Verif.App.Particle.C101_unknown",
    "Verif.App.Particle.C101_particle"
   ],
   "note": "Proved: ids, manifolds, boundary conditions, ramp, inflow in 2D and for inlets 1 and 3 in 3D, particle. False of the code: inflow at inlet 2 in 3D (C101_inlet2_3d). Also recorded: C101_pressure_constraint_no_effect. Simplification: the mesh file is represented by the geometric pieces its boundary edges lie on; GridIn, extrude_triangulation and deal.II manifolds are trusted."
  },
  {
   "property": "C102",
   "status": "partial",
   "theorems": [
    "Verif.TwoPhase.Adapt.C102_adaptive_run",
    "Verif.TwoPhase.Adapt.C102_second_level",
    "Verif.TwoPhase.Adapt.C102_initial_profile",
    "Verif.TwoPhase.Adapt.C102_concentration_conforming_partial",
    "Verif.TwoPhase.Adapt.C102_curvature_conforming",
    "Verif.TwoPhase.Adapt.C102_potential_defect_linear",
    "Verif.TwoPhase.Adapt.C102_initial_defect_persists",
    "Verif.TwoPhase.Adapt.C102_potential_never_conforming"
   ],
   "note": "Proved for all runs: no access to data of another mesh, history, second level, initial profile, conformity of concentration and curvature. False of the code: conformity of the chemical potential after adaptations (C102_potential_never_conforming, with the exact law C102_potential_defect_linear) and of the initial concentration on user-refined meshes with adaptive_refinements = 0 (C102_initial_defect_persists). Simplifications: one transfer operator per adaptation for both blocks; level set boundaries with prescribed fluid are left to C73; parallel ghost updates not modelled."
  },
  {
   "property": "C103",
   "status": "partial",
   "theorems": [
    "Verif.Parallel.Failures.C103_stabilization_stale",
    "Verif.Parallel.Failures.C103_open_projection_stale",
    "Verif.Parallel.Failures.C103_adapted_asserts",
    "Verif.Parallel.Failures.C103_distribute_matters",
    "Verif.Parallel.Failures.C103_stabilization_gmres",
    "Verif.Parallel.C103_flow_partial",
    "Verif.Parallel.C103_phase_field_partial",
    "Verif.Parallel.C103_level_set_partial",
    "Verif.Parallel.C103_mixed_partial",
    "Verif.Parallel.C103_front_partial",
    "Verif.Parallel.C103_one_process",
    "Verif.Parallel.C103_serial_level_set_partial",
    "Verif.Parallel.C103_serial_flow_partial"
   ],
   "note": "Proved for all process counts, partitions, kernels and histories: flow solver (all parameters), phase field (if distribute leaves current ghosts), level set (without convection stabilization, legal histories), mixed level set, and front tracking (for vectors that store the entries of ghost cells; see C104_front_fails). False of the code in the cases shown by C103_stabilization_stale, C103_open_projection_stale, C103_adapted_asserts, C103_distribute_matters. Trusted: deal.II's ghost semantics as listed in DESIGN.md."
  },
  {
   "property": "C104",
   "status": "partial",
   "theorems": [
    "Verif.Parallel.Surface.C104_front_partial",
    "Verif.Parallel.Surface.C104_front_fails",
    "Verif.Parallel.Surface.C104_front_one_process",
    "Verif.Parallel.Surface.C104_mixed_submitted",
    "Verif.Parallel.Surface.C104_mixed_distributed",
    "Verif.Parallel.Surface.C104_mixed_replicated_violated",
    "Verif.Parallel.Surface.C104_marching"
   ],
   "note": "Marching cubes and mixed solver with distributed surface mesh: proved for all partitions. Front tracking: proved for all steps that run through; C104_front_fails shows when they do not. Mixed solver with serial surface mesh: the property is false, C104_mixed_replicated_violated gives the factor n. The point search of deal.II (cells around a point among the known cells) and RemotePointEvaluation's delivery are assumed as specified."
  },
  {
   "property": "C105",
   "status": "partial",
   "theorems": [
    "Verif.Time.C105_never_passes_end",
    "Verif.Time.C105_next_advances_partial",
    "Verif.Time.C105_driver_loop_terminates_partial",
    "Verif.Time.C105_bdf2_weights",
    "Verif.Time.C105_one_step_weights",
    "Verif.Time.C105_extrapolation",
    "Verif.Time.C105_tick_partial",
    "Verif.Time.C105_stall",
    "Verif.Time.C105_end_unnoticed",
    "Verif.Time.C105_stall_double",
    "Verif.Time.C105_end_unnoticed_double"
   ],
   "note": "Range of the time: proved for all steps and histories. Progress, termination, at_end iff final, weights, extrapolation: proved whenever all configured steps exceed 200 u max(|start|,|final|); false in general below the resolution (C105_stall_double, C105_end_unnoticed_double). Ticks: proved while (k+5)u <= 1e-11, k < 1e9. Unbounded exponent range (no overflow/underflow/NaN), no int range in at_tick."
  },
  {
   "property": "C106",
   "status": "proved",
   "theorems": [
    "Verif.Parameters.File.C106_outcome",
    "Verif.Parameters.File.C106_members",
    "Verif.Parameters.File.C106_exceptions",
    "Verif.Parameters.File.C106_last_value",
    "Verif.Parameters.File.C106_defaults",
    "Verif.Parameters.File.C106_prm_unknown_rejected",
    "Verif.Parameters.File.C106_json_unknown_ignored",
    "Verif.Parameters.File.C106_two_phase",
    "Verif.Parameters.File.C106_micro_particle",
    "Verif.Parameters.File.C106_phase_field_unavailable"
   ],
   "note": "All statements proved. C106_json_unknown_ignored and C106_phase_field_unavailable / C106_micro_particle record the two surprising behaviours that are part of the statement."
  },
  {
   "property": "C107",
   "status": "proved",
   "theorems": [
    "Verif.Parallel.Exchange.C107_bubble_schedule",
    "Verif.Parallel.Exchange.C107_line_schedule",
    "Verif.Parallel.Exchange.C107_bubble_no_deadlock",
    "Verif.Parallel.Exchange.C107_line_no_deadlock",
    "Verif.Parallel.Exchange.C107_terminates"
   ],
   "note": "All statements proved for both codes. MPI itself (FIFO per channel, matching by source and tag, truncation error) is modelled, not verified; MPI_Gather is taken as one message per process to process 0 on its own channel."
  },
  {
   "property": "C108",
   "status": "proved",
   "theorems": [
    "Verif.Precond.Loop.C108_cells_independent",
    "Verif.Precond.Loop.C108_schedules",
    "Verif.Precond.Loop.C108_global",
    "Verif.Precond.Loop.C108_values",
    "Verif.Precond.Loop.C108_operator",
    "Verif.Precond.Loop.C108_numbering",
    "Verif.Precond.Loop.C108_stale_rows"
   ],
   "note": "Density positive as in C62; at a point of density zero, which the assertion allows, rows of the scratch matrix are skipped and keep the values of another cell (theorem C108_stale_rows). The face integrals themselves are C81; what deal.II does with a local matrix after it is handed over (constraints) is outside the model. Division by zero in the field model only occurs outside the hypotheses of C108_values."
  },
  {
   "property": "C109",
   "status": "partial",
   "theorems": [
    "Verif.Precond.Apply.C109_same_operator_partial",
    "Verif.Precond.Apply.C109_componentwise",
    "Verif.Precond.Apply.C109_inner_componentwise_fails",
    "Verif.Precond.Apply.C109_inner_componentwise_reached",
    "Verif.Precond.Apply.C109_blocks"
   ],
   "note": "Proved for ILU, AMG and linear AMG in both branches and for the component-wise ILU without inner solves; false for the component-wise ILU inside the inner solver (C109_inner_componentwise_fails): the inherited vmult is called with vectors dim times as long as the factorization, which aborts in debug mode and leaves all but the first entries of the output unset in release mode. Found by reading; not reported to the authors. PreconditionBase::vmult is deal.II code and modelled from its documentation."
  },
  {
   "property": "C110",
   "status": "partial",
   "theorems": [
    "Verif.Parallel.C110_flow_partial",
    "Verif.Parallel.C110_phase_field_partial",
    "Verif.Parallel.C110_level_set_partial",
    "Verif.Parallel.C110_level_set_step_partial",
    "Verif.Parallel.C110_mixed_partial",
    "Verif.Parallel.C110_front_partial",
    "Verif.Parallel.C110_flow_restart_partial",
    "Verif.Parallel.C110_level_set_restart_partial",
    "Verif.Parallel.C110_projection_leftover",
    "Verif.Parallel.C110_stokes_leftover",
    "Verif.Parallel.C110_normals_leftover"
   ],
   "note": "Proved for all solvers with the fields named in the specification lists flowFields, phaseFieldFields, levelSetFields, mixedFields. Missing, since false of the code: with the projection scheme the pressure block of solution_update is needed in addition (C110_projection_leftover: the first step exchanges the pressure with what this work vector contains, navier_stokes.cc:841-842), and the level set solver needs the normals and curvature of the last step unless its projections are exact (C110_normals_leftover; C110_level_set_step_partial for exact projections). An initial Stokes solve in the further history needs the older velocity too (C110_stokes_leftover). Simplification: cell-wise data, preconditioner matrices and random numbers belong to the scalars on which both runs agree; that cell data are rewritten before use is not part of this claim."
  },
  {
   "property": "C111",
   "status": "partial",
   "theorems": [
    "Verif.Operator.StokesField.C111_same_parameters_partial",
    "Verif.Operator.StokesField.C111_stokes_solve_disagrees",
    "Verif.Operator.StokesField.C111_caller_change_splits",
    "Verif.Operator.StokesField.C111_variable_coefficients_stokes",
    "Verif.Operator.StokesField.C111_constant_coefficients_time_step",
    "Verif.Operator.StokesField.C111_constant_coefficients_inertia",
    "Verif.Operator.StokesField.C111_velocity_preconditioner_undefined",
    "Verif.Operator.StokesField.C111_pressure_preconditioner_zero"
   ],
   "note": "Proved: the same parameters in every time step and between calls (C111_same_parameters_partial); with variable coefficients residual and matrix of the initial solve are those of the Stokes equations, in every history (C111_variable_coefficients_stokes). False of the code, since matrix and preconditioner are bound to the object of the caller (the constructor argument hides the member): during the initial Stokes solve they see the parameters of the flow problem (C111_stokes_solve_disagrees); with constant coefficients that solve contains inertia and convection (C111_constant_coefficients_time_step, C111_constant_coefficients_inertia); assignments of the caller reach matrix and preconditioner only (C111_caller_change_splits). In the solve with variable coefficients the velocity matrix of the preconditioner is 0/0 (C111_velocity_preconditioner_undefined) and its pressure Laplace matrix zero (C111_pressure_preconditioner_zero)."
  },
  {
   "property": "C112",
   "status": "partial",
   "theorems": [
    "Verif.Wiring.C112_okz_references",
    "Verif.Wiring.C112_okz_no_alias",
    "Verif.Wiring.C112_okz_objects",
    "Verif.Wiring.C112_okz_matrices",
    "Verif.Wiring.C112_sharp_references_partial",
    "Verif.Wiring.C112_sharp_stale",
    "Verif.Wiring.C112_sharp_no_alias",
    "Verif.Wiring.C112_sharp_objects_partial",
    "Verif.Wiring.C112_sharp_matrices_partial",
    "Verif.Wiring.C112_indices"
   ],
   "note": "Proved for LevelSetOKZSolver in every history (C112_okz_*), for the sharp-interface solver in every history in which the flow solver below is not set up again or adapted after the construction (C112_sharp_*). False otherwise: the level set solver keeps its own MatrixFree object and vectors of the old mesh while the velocity is on the new one (C112_sharp_stale). Boundary descriptions are copied at construction (C73). Simplification: ghost entries of the layouts and failing allocations are not modelled."
  },
  {
   "property": "C113",
   "status": "partial",
   "theorems": [
    "Verif.LevelSet.C113_hypercube_partial",
    "Verif.LevelSet.C113_projection_matrix",
    "Verif.LevelSet.C113_simplex",
    "Verif.LevelSet.C113_simplex_below_resolution",
    "Verif.LevelSet.C113_single_level_partial",
    "Verif.LevelSet.C113_normal_product",
    "Verif.LevelSet.C113_simplex_products_differ",
    "Verif.LevelSet.C113_factors"
   ],
   "note": "Proved: hypercubes (C113_hypercube_partial), the assembled matrix on all meshes (C113_projection_matrix), meshes of one level with epsilon >= 1 (C113_single_level_partial), the two implementations of the normals (C113_normal_product). False of the code on simplex meshes with coarser cells: the kernels divide by the template argument -1 (C113_simplex, C113_simplex_below_resolution, C113_simplex_products_differ). C113_factors: damping_scale_factor and the curvature product do not describe the systems that are solved."
  },
  {
   "property": "C114",
   "status": "proved",
   "theorems": [
    "Verif.Operator.PressureSystem.C114_projected_equations",
    "Verif.Operator.PressureSystem.C114_same_solutions",
    "Verif.Operator.PressureSystem.C114_zero_residual",
    "Verif.Operator.PressureSystem.C114_no_solution_without_balance",
    "Verif.Operator.PressureSystem.C114_cellwise_mass"
   ],
   "note": "C114_projected_equations (equivalence with explicit shares), C114_same_solutions (balanced data), C114_zero_residual, C114_no_solution_without_balance. The projection scheme and stationary problems are not projected (C28)."
  },
  {
   "property": "C115",
   "status": "partial",
   "theorems": [
    "Verif.LevelSet.C115_weak_form_partial",
    "Verif.LevelSet.C115_system_exists",
    "Verif.LevelSet.C115_zero_normal",
    "Verif.LevelSet.C115_pseudo_step",
    "Verif.LevelSet.C115_content_conserved",
    "Verif.LevelSet.C115_symmetric_positive",
    "Verif.LevelSet.C115_diffusion_decays",
    "Verif.LevelSet.C115_equilibrium"
   ],
   "note": "C115_weak_form_partial (implicit step with unit normals whenever the system exists), C115_system_exists (exact condition), C115_content_conserved, C115_symmetric_positive, C115_diffusion_decays, C115_equilibrium, C115_pseudo_step. Not \"for every level set\": C115_zero_normal shows that for a constant level set that is no pure phase the normals vanish and NaNs are assembled (the matrix-free solver bounds the norm from below)."
  },
  {
   "property": "C116",
   "status": "partial",
   "theorems": [
    "Verif.Sharp.Mixed.C116_memory",
    "Verif.Sharp.Mixed.C116_material_values_partial",
    "Verif.Sharp.Mixed.C116_equal_phases",
    "Verif.Sharp.Mixed.C116_other_numbering",
    "Verif.Sharp.Mixed.C116_open_boundary",
    "Verif.Sharp.Mixed.C116_gravity_partial",
    "Verif.Sharp.Mixed.C116_gravity_equal_densities",
    "Verif.Sharp.Mixed.C116_gravity_uniform",
    "Verif.Sharp.Mixed.C116_gravity_top_layer",
    "Verif.Sharp.Mixed.C116_gravity_layered"
   ],
   "note": "C116_material_values_partial (equal numberings, no prescribed fluid), C116_memory, C116_equal_phases, C116_gravity_partial (what gravity computes), C116_gravity_uniform, C116_gravity_equal_densities. Not in general: update_gravity_force evaluates quadrature 1 of the flow solver (k^dim points) but reads the table of the (k+1)^dim points of quadrature 0 (C116_gravity_top_layer, C116_gravity_layered); other numberings give wrong cells (C116_other_numbering); at boundaries with a prescribed fluid constrained nodes are read as zero (C116_open_boundary)."
  },
  {
   "property": "C117",
   "status": "partial",
   "theorems": [
    "Verif.PhaseField.Newton.C117_constrained_unknowns",
    "Verif.PhaseField.Newton.C117_iteration_partial",
    "Verif.PhaseField.Newton.C117_concentration_equation",
    "Verif.PhaseField.Newton.C117_potential_equation",
    "Verif.PhaseField.Newton.C117_total_balance",
    "Verif.PhaseField.Newton.C117_silent_failure"
   ],
   "note": "C117_iteration_partial (number of solves, reason of the end), C117_concentration_equation, C117_total_balance, C117_potential_equation (exact Newton remainder). Not in general: NoConvergence of GMRES is caught and the loop ends after max_nl_iteration without any report (C117_silent_failure)."
  },
  {
   "property": "C118",
   "status": "partial",
   "theorems": [
    "Verif.Operator.PressureField.C118_nodes_partial",
    "Verif.Operator.PressureField.C118_vertices",
    "Verif.Operator.PressureField.C118_exact",
    "Verif.Operator.PressureField.C118_constants",
    "Verif.Operator.PressureField.C118_hanging_node",
    "Verif.Operator.PressureField.C118_simplex_augmented",
    "Verif.Operator.PressureField.C118_curved"
   ],
   "note": "C118_nodes_partial (unconstrained nodes: right iff f does not distinguish the place under the default mapping from that of the solver), C118_vertices (degree one: always right), C118_exact, C118_constants. Not in general: curved cells (C118_curved), hanging nodes (C118_hanging_node), simplex mesh with augmented elements (C118_simplex_augmented)."
  },
  {
   "property": "C119",
   "status": "proved",
   "theorems": [
    "Verif.LevelSet.C119_balance",
    "Verif.LevelSet.C119_euler",
    "Verif.LevelSet.C119_bdf2",
    "Verif.LevelSet.C119_bdf2_any_step",
    "Verif.LevelSet.C119_run"
   ],
   "note": "Convection enters through the hypothesis that the quadrature of (u.grad phi) phi is non-negative; exact linear solves; whole runs with exact weights (single steps: up to the staleness of the weight); reinitialization between the steps is not included."
  },
  {
   "property": "C120",
   "status": "partial",
   "theorems": [
    "Verif.Timing.C120_call_partial",
    "Verif.Timing.C120_history_partial",
    "Verif.Timing.C120_exceptions_partial",
    "Verif.Timing.C120_applications_partial",
    "Verif.Timing.C120_cavity",
    "Verif.Timing.C120_setup_exception"
   ],
   "note": "Full statement is false of the code: drivencavity.cc:221-222 returns on ranks > 0 without leaving the section (C120_cavity), and exceptions leave sections entered with enter_subsection active (C120_setup_exception). Proved: every call that returns, every history without escaping exceptions, and the functions that are clean under exceptions. Data are abstracted: every condition may take any value."
  },
  {
   "property": "C121",
   "status": "partial",
   "theorems": [
    "Verif.Operator.Stationary.C121_equations_partial",
    "Verif.Operator.Stationary.C121_independent_partial",
    "Verif.Operator.Stationary.C121_fixed_point",
    "Verif.Operator.Stationary.C121_other_schemes",
    "Verif.Operator.Stationary.C121_determined_iff",
    "Verif.Operator.Stationary.C121_release_accepts"
   ],
   "note": "Full statement is false of the code in release mode: Crank-Nicolson and explicit Euler scale the stress (C121_other_schemes), and the projection, semi-implicit and explicit linearizations read evaluators that are never filled (C121_determined_iff); the reader accepts them (C121_release_accepts). Proved for Newton and Picard with implicit Euler or BDF-2: equations, independence of all iterates, fixed points. The linear solver is any function of the system."
  },
  {
   "property": "C122",
   "status": "partial",
   "theorems": [
    "Verif.Parallel.C122_flow",
    "Verif.Parallel.C122_phase_field",
    "Verif.Parallel.C122_sharp",
    "Verif.Parallel.C122_level_set_partial",
    "Verif.Parallel.C122_level_set_accurate_partial",
    "Verif.Parallel.C122_flow_parallel",
    "Verif.Parallel.C122_level_set_parallel_partial",
    "Verif.Parallel.C122_initial_output_matters"
   ],
   "note": "Full statement is false of the code for the level set solver: output before the first step replaces the start vectors of the projections (C122_initial_output_matters). Proved in full for the other solvers; for the level set solver for output after the first step (all histories), and for all output with projections independent of their start vector (histories without change of the mesh)."
  },
  {
   "property": "C123",
   "status": "partial",
   "theorems": [
    "Verif.Time.C123_flow_second_run_does_nothing",
    "Verif.Time.C123_mesh_refined_again",
    "Verif.Time.C123_two_phase_schedule_partial",
    "Verif.Time.C123_level_set_second_run_asserts",
    "Verif.Time.C123_level_set_first_value_wrong",
    "Verif.Time.C123_level_set_step_differs",
    "Verif.TwoPhase.C123_old_residual_harmless",
    "Verif.TwoPhase.C123_corrections_partial",
    "Verif.TwoPhase.C123_corrections_suppressed"
   ],
   "note": "Proved: schedule of the flow clock of two-phase solvers, harmlessness of the remembered residual, corrections without earlier corrections. The full statement is false of the code; C123_flow_second_run_does_nothing, C123_mesh_refined_again, C123_level_set_second_run_asserts, C123_level_set_first_value_wrong, C123_level_set_step_differs and C123_corrections_suppressed show where."
  },
  {
   "property": "C124",
   "status": "partial",
   "theorems": [
    "Verif.Operator.C124_momentum_balance",
    "Verif.Operator.C124_newtons_law_partial",
    "Verif.Operator.C124_momentum_conserved_partial",
    "Verif.Operator.C124_convective_form_produces",
    "Verif.Operator.C124_density_produces"
   ],
   "note": "Proved: the general balance with the production term; Newton's law and conservation for the conservative formulation with constant density. The full statement is false of the code: C124_convective_form_produces, C124_density_produces."
  },
  {
   "property": "C125",
   "status": "proved",
   "theorems": [
    "Verif.LevelSet.C125_transport",
    "Verif.LevelSet.C125_artificial_viscosity",
    "Verif.LevelSet.C125_reinitialization",
    "Verif.LevelSet.C125_normals",
    "Verif.LevelSet.C125_curvature",
    "Verif.LevelSet.C125_force",
    "Verif.LevelSet.C125_gravity_direction",
    "Verif.Operator.C125_residual",
    "Verif.Operator.C125_matrix",
    "Verif.Operator.C125_run",
    "Verif.Operator.C125_iteration",
    "Verif.PhaseField.Energy.C125_phase_field",
    "Verif.PhaseField.Energy.C125_phase_field_force"
   ],
   "note": "Flow: residual, matrix, run, nonlinear iteration. Level set: transport step, artificial viscosity, reinitialization, normals, curvature, surface tension and gravity. Phase field: residual and force. The linear solver and preconditioner of the flow are not covered (exact solutions of the linear systems)."
  },
  {
   "property": "C126",
   "status": "partial",
   "theorems": [
    "Verif.LevelSet.C126_transport_units",
    "Verif.LevelSet.C126_reinitialization_units",
    "Verif.LevelSet.C126_pseudo_time_step_depends_on_unit_of_time",
    "Verif.LevelSet.C126_artificial_viscosity_units_partial",
    "Verif.LevelSet.C126_artificial_viscosity_depends_on_unit_of_length",
    "Verif.LevelSet.C126_normal_depends_on_unit_of_length_partial",
    "Verif.Operator.C126_residual_units",
    "Verif.Operator.C126_run_units",
    "Verif.Time.C126_clock_units",
    "Verif.Time.C126_origin_matters"
   ],
   "note": "Clock, flow residual, transport step and pseudo-time step of the reinitialization proved for all units. False for three coefficients of the level set (proved as limits): threshold of the curvature, artificial viscosity, pseudo-time step. Absolute tolerances of the solvers and rounding are not covered."
  },
  {
   "property": "C127",
   "status": "proved",
   "theorems": [
    "Verif.Operator.C127_gradient_force",
    "Verif.Operator.C127_run",
    "Verif.Operator.C127_iteration"
   ],
   "note": "Residual, run and linear systems of the nonlinear iteration for exactly represented pressures; the inner linear solver is not covered (same systems). The projection scheme is covered as far as its residual is."
  },
  {
   "property": "C128",
   "status": "proved",
   "theorems": [
    "Verif.Operator.C128_superposition",
    "Verif.Operator.C128_solutions",
    "Verif.Operator.C128_not_with_inertia"
   ],
   "note": "Residual and solutions of the Stokes equations; the limit theorem shows that the restriction to Stokes is needed."
  },
  {
   "property": "C129",
   "status": "partial",
   "theorems": [
    "Verif.LevelSet.C129_transport",
    "Verif.LevelSet.C129_artificial_viscosity",
    "Verif.LevelSet.C129_reinitialization",
    "Verif.LevelSet.C129_normals_curvature",
    "Verif.LevelSet.C129_force",
    "Verif.LevelSet.C129_curvature_correction_partial",
    "Verif.PhaseField.Energy.C129_phase_field",
    "Verif.PhaseField.Energy.C129_phase_field_flow"
   ],
   "note": "All operators of the level set step proved symmetric. False with curvature correction (limit theorem, cf. C50_not_symmetric). The indicator of the negative level set is one minus the indicator by C32_symmetry; the reconstruction of C35 near jumps and rounding are not covered."
  },
  {
   "property": "C130",
   "status": "proved",
   "theorems": [
    "Verif.Precond.Amg.C130_coordinates",
    "Verif.Precond.Amg.C130_null_space",
    "Verif.Precond.Amg.C130_null_space_scalar"
   ],
   "note": "Trusted: deal.II gives every owned unknown on some owned cell, the mapping is continuous (hypotheses of the theorem), extract_constant_modes."
  }
 ]
}