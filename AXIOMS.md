# Axioms of the claimed theorems

Generated by tools/axioms.py from `#print axioms`.

## none

* Verif.Boundary.C10_survivors
* Verif.Precond.C51_pins_constrained_dof
* Verif.App.C97_columns_2d_partial
* Verif.App.Particle.C101_pressure_constraint_no_effect

## propext

* Verif.Parameters.C12_unsigned_exact
* Verif.Operator.C21_uses_frozen
* Verif.Operator.C21_ilu_velocity_product_loses_data
* Verif.Operator.C21_ilu_mass_product_loses_viscosity
* Verif.Operator.C21_initial_storage
* Verif.Nonlinear.C25_learning
* Verif.Precond.Objects.C78_stokes_parameters_do_not_arrive
* Verif.LevelSet.MatrixNormals.C92_marking_current
* Verif.Sharp.C96_numbering_iff
* Verif.App.C97_columns_3d
* Verif.App.Channel.C100_2d_throws
* Verif.App.Particle.C101_boundary
* Verif.Precond.Apply.C109_inner_componentwise_reached
* Verif.Wiring.C112_indices
* Verif.Timing.C120_setup_exception

## propext, Quot.sound

* Verif.Time.C04_desired_in_range
* Verif.Time.C06_extrapolate_first_steps
* Verif.Time.C08_at_end
* Verif.Boundary.C09_last_call_decides
* Verif.Boundary.C09_fluid_and_periodic
* Verif.Boundary.C09_other_ids_unaffected
* Verif.Boundary.C10_clear_partial
* Verif.Parameters.C12_rejects
* Verif.Parameters.C12_never_uninitialised
* Verif.Parameters.C12_selections
* Verif.Parameters.C12_copied_values
* Verif.Precond.C15_linear
* Verif.Precond.C16_last_reinit_decides
* Verif.Precond.C16_vector_mode
* Verif.Precond.C16_block_mode_refuses_vector
* Verif.Precond.C20_solves_block_triangular
* Verif.Precond.C20_inverts_block_triangular
* Verif.Operator.C21_products_const_partial
* Verif.Operator.C21_products_unobservable_partial
* Verif.Operator.C21_frozen_from_last_assembly
* Verif.Nonlinear.C23_escalation
* Verif.Nonlinear.C23_report
* Verif.Nonlinear.C23_residual_tells_success
* Verif.Nonlinear.C24_normal_return
* Verif.Nonlinear.C24_evaluate_reports_failure
* Verif.Nonlinear.C25_scheduled_before_first_solve
* Verif.Nonlinear.C25_preconditioner_exists
* Verif.Nonlinear.C25_interval
* Verif.Nonlinear.C25_not_scheduled_without_reason
* Verif.Nonlinear.C26_restores_partial
* Verif.Time.C27_old_levels
* Verif.Time.C27_accepted_length
* Verif.Time.C27_flow_start_first
* Verif.Operator.C30_decoupled
* Verif.Bubble.C38_gather_complete
* Verif.Bubble.C38_message_roundtrip
* Verif.Mesh.C39_result_simple
* Verif.Time.C40_restart_harmless
* Verif.Sharp.C42_entries
* Verif.PhaseField.C52_preconditioner_matches_weight
* Verif.LevelSet.C68_diffusion_bounds
* Verif.Projection.C77_stale_linearization
* Verif.Precond.C81_coefficients
* Verif.TwoPhase.C82_solve_data_current
* Verif.TwoPhase.C82_one_solve_final_level_set
* Verif.TwoPhase.C82_correction_iff
* Verif.TwoPhase.C82_corrections_apart
* Verif.TwoPhase.C82_marking_normals
* Verif.TwoPhase.C82_second_refine_noop
* Verif.TwoPhase.C83_phase_field_solve_data_partial
* Verif.TwoPhase.C83_phase_field_faces_unset
* Verif.Operator.CellLoop.C84_divergence_formula
* Verif.Operator.Dispatch.C85_phase_vmult_silent
* Verif.Bubble.C86_patch_edges
* Verif.Bubble.C86_report_3d
* Verif.Bubble.C86_partition_independent_3d
* Verif.LevelSet.Ranges.C88_max_velocity
* Verif.Mesh.C94_clear_flags
* Verif.Mesh.C94_levels_bounded
* Verif.Sharp.C95_first_cell_irrelevant
* Verif.Sharp.C95_two_phases
* Verif.Sharp.C96_nodal_normals
* Verif.App.Channel.C100_cells
* Verif.App.Channel.C100_boundary_partial
* Verif.Time.C105_stall
* Verif.Time.C105_end_unnoticed
* Verif.Precond.Apply.C109_same_operator_partial
* Verif.Precond.Apply.C109_inner_componentwise_fails
* Verif.Operator.StokesField.C111_same_parameters_partial
* Verif.Operator.StokesField.C111_stokes_solve_disagrees
* Verif.Operator.StokesField.C111_caller_change_splits
* Verif.Operator.StokesField.C111_constant_coefficients_time_step
* Verif.LevelSet.C113_projection_matrix
* Verif.Sharp.Mixed.C116_memory
* Verif.Operator.PressureField.C118_simplex_augmented
* Verif.Time.C123_flow_second_run_does_nothing
* Verif.Time.C123_mesh_refined_again
* Verif.TwoPhase.C123_old_residual_harmless
* Verif.TwoPhase.C123_corrections_partial
* Verif.TwoPhase.C123_corrections_suppressed
* Verif.Precond.Amg.C130_null_space_scalar

## propext, Classical.choice, Quot.sound

* Verif.Time.C01_time_never_passes_final
* Verif.Time.C01_release_mode_overrun
* Verif.Time.C02_initial
* Verif.Time.C02_next_advances
* Verif.Time.C03_driver_loop_terminates
* Verif.Time.C04_desired_factor_two
* Verif.Time.C04_desired_granted
* Verif.Time.C04_step_taken
* Verif.Time.C04_step_le_max
* Verif.Time.C04_last_step_not_tiny
* Verif.Time.C05_theta_weights
* Verif.Time.C05_three_weights_sum_zero
* Verif.Time.C05_uniform_weight
* Verif.Time.C05_constant_steps_exact
* Verif.Time.C05_weights_sum_zero
* Verif.Time.C05_bdf2_exact
* Verif.Time.C05_one_step_exact
* Verif.Time.C05_bdf2_run
* Verif.Time.C05_changed_step_breaks_weights
* Verif.Time.C06_extrapolate_constant
* Verif.Time.C06_extrapolate_affine
* Verif.Time.C07_restart_replays
* Verif.Time.C07_restart_weights
* Verif.Time.C07_restart_stale_weight
* Verif.Time.C08_aligned
* Verif.Time.C08_reported_near_multiple
* Verif.Time.C08_missed_only_in_first_five_percent
* Verif.Time.C08_tick_missed
* Verif.Boundary.C11_rejects_iff_conflict
* Verif.Boundary.C11_single_kind_accepted
* Verif.Parameters.C12_accepted_consistent
* Verif.Parameters.C12_time_parameters_good
* Verif.Parameters.C12_negative_degree_accepted
* Verif.Output.C13_piece_names_injective
* Verif.Output.C13_master_lists_pieces
* Verif.Output.C13_master_names
* Verif.Output.C14_cycle_number
* Verif.Output.C14_ticks_do_not_overwrite
* Verif.Output.C14_equal_width
* Verif.Output.C14_final_output_overwrites
* Verif.Precond.C15_vmult_entries
* Verif.Precond.C15_no_division_by_zero
* Verif.Precond.C15_exact_inverse
* Verif.Precond.C15_block_entries
* Verif.Precond.C17_multiply_per_component
* Verif.Precond.C17_renumbering
* Verif.Precond.C17_table
* Verif.Precond.C17_table_injective
* Verif.Precond.C18_dof_table
* Verif.Precond.C18_quad_table
* Verif.Precond.C18_dof_range
* Verif.Precond.C18_dofs_covered
* Verif.Precond.C18_shared_iff_same_point
* Verif.Precond.C18_quad_bijective
* Verif.Precond.C19_poisson_vmult
* Verif.Precond.C19_pin_list
* Verif.Precond.C19_duplicates_corrupt
* Verif.Precond.C20_stationary
* Verif.PhaseField.C22_solves_reference
* Verif.PhaseField.C22_inverts_reference
* Verif.Nonlinear.C23_budget
* Verif.Nonlinear.C24_exception
* Verif.Nonlinear.C24_total_linear_iterations
* Verif.Nonlinear.C25_rebuild_bound
* Verif.Nonlinear.C25_last_update_not_in_future
* Verif.Nonlinear.C25_refresh_scheduled
* Verif.Nonlinear.C25_deterioration_scheduled
* Verif.Nonlinear.C26_linear_variants_restore
* Verif.Nonlinear.C26_exception_leaves_stokes
* Verif.Time.C27_flow_start_affine
* Verif.Time.C27_two_phase_start_affine
* Verif.Time.C27_two_phase_start_first
* Verif.Time.C27_mixed_solver_start_lags
* Verif.Operator.C28_zero_mean
* Verif.Operator.C28_idempotent
* Verif.Operator.C28_linear
* Verif.Operator.C28_changes_only_modes
* Verif.Operator.C28_shift
* Verif.Operator.C28_overlap_breaks_mean
* Verif.Operator.C29_newton_is_jacobian
* Verif.Operator.C29_linear_variants_exact
* Verif.Operator.C29_picard_consistent
* Verif.Operator.C29_product_linear
* Verif.Operator.C29_velocity_block
* Verif.Operator.C29_newton_step
* Verif.Operator.C29_linear_step
* Verif.Operator.C29_picard_step
* Verif.Operator.C30_constrained_identity
* Verif.Operator.C30_free_rows
* Verif.LevelSet.C31_level_set_partial
* Verif.LevelSet.C31_phase_field
* Verif.LevelSet.C31_front_tracking
* Verif.LevelSet.C31_pure_phases
* Verif.LevelSet.C31_unclamped_leaves_range
* Verif.LevelSet.C32_derivative_is_delta
* Verif.LevelSet.C32_continuous
* Verif.LevelSet.C32_monotone
* Verif.LevelSet.C32_plateaus
* Verif.LevelSet.C32_range
* Verif.LevelSet.C32_symmetry
* Verif.LevelSet.C33_radicands_positive
* Verif.LevelSet.C33_even
* Verif.LevelSet.C33_support
* Verif.LevelSet.C33_nonneg
* Verif.LevelSet.C33_sum_one
* Verif.LevelSet.C33_first_moment
* Verif.LevelSet.C33_sum_squares
* Verif.LevelSet.C33_even_odd_half
* Verif.LevelSet.C34_plateaus
* Verif.LevelSet.C34_antitone
* Verif.LevelSet.C34_range
* Verif.LevelSet.C34_continuous
* Verif.LevelSet.C35_monotone_partial
* Verif.LevelSet.C35_order_independent_partial
* Verif.LevelSet.C35_not_monotone
* Verif.LevelSet.C35_order_matters
* Verif.LevelSet.C35_jump_uses_first_value
* Verif.Bubble.C36_fraction_is_polygon_area
* Verif.Bubble.C36_fraction_in_unit_interval
* Verif.Bubble.C36_one_sided
* Verif.Bubble.C36_complement
* Verif.Bubble.C36_segments
* Verif.Bubble.C36_saddle_negative
* Verif.Bubble.C37_patch_is_a_lattice_square
* Verif.Bubble.C37_weights_partition
* Verif.Bubble.C37_cell_area_bounds
* Verif.Bubble.C37_uncut_cell
* Verif.Mesh.C39_flags_legal
* Verif.Mesh.C39_decision
* Verif.Mesh.C39_result_level_set
* Verif.Mesh.C39_levels_bounded
* Verif.Time.C40_clocks_synchronous
* Verif.Time.C40_last_step_weights_differ
* Verif.Time.C40_start_step_out_of_range
* Verif.Time.C41_reinit_clock_partial
* Verif.Time.C41_assertion_fails_in_last_step
* Verif.Time.C41_one_step_ahead
* Verif.Sharp.C42_compress_represents
* Verif.Sharp.C43_mixed_conserves
* Verif.Sharp.C43_front_tracking_partial
* Verif.Sharp.C43_front_tracking_violated
* Verif.Sharp.C44_front_tracking_partial
* Verif.Sharp.C44_marching_cubes_partial
* Verif.Sharp.C44_regularized_partial
* Verif.Sharp.C44_regularized_jump
* Verif.Sharp.C44_mixed_violated
* Verif.Sharp.C44_normal_length
* Verif.PhaseField.C45_weak_form
* Verif.PhaseField.C45_product_is_jacobian
* Verif.PhaseField.C45_contact_is_jacobian
* Verif.PhaseField.C45_newton_step
* Verif.LevelSet.C46_phase_field
* Verif.LevelSet.C46_level_set_partial
* Verif.LevelSet.C46_not_fixed_point
* Verif.Mesh.C47_partition_independent
* Verif.Mesh.C47_values
* Verif.Time.C48_below_limits_partial
* Verif.Time.C48_formula
* Verif.Time.C48_in_bounds
* Verif.Time.C48_antitone
* Verif.Time.C48_density_ignored
* Verif.LevelSet.C49_steps_partial
* Verif.LevelSet.C49_extra_steps
* Verif.LevelSet.C49_normal_skipped
* Verif.LevelSet.C49_matrix_never_sharpens
* Verif.LevelSet.C50_sphere_corrected_partial
* Verif.LevelSet.C50_unchanged
* Verif.LevelSet.C50_resolved
* Verif.LevelSet.C50_sign_flip
* Verif.LevelSet.C50_one_dimension
* Verif.LevelSet.C50_not_symmetric
* Verif.Precond.C51_pin_lowest_partial
* Verif.Precond.C51_error_iff
* Verif.PhaseField.C53_total_balance
* Verif.PhaseField.C53_total_conserved
* Verif.PhaseField.C53_total_conserved_run
* Verif.Sharp.C54_step_partial
* Verif.Sharp.C54_uniform_partial
* Verif.Sharp.C54_position_last_step
* Verif.Time.C54_transport_time_partial
* Verif.Time.C54_last_step_overshoots
* Verif.Sharp.C55_material_values
* Verif.Sharp.C55_external_force
* Verif.Sharp.C55_total_force
* Verif.Sharp.C56_orientation
* Verif.Sharp.C56_phase_exchange
* Verif.Sharp.C57_nodes_move_once
* Verif.Sharp.C57_uniform_flow
* Verif.Sharp.C57_order_independent
* Verif.Mesh.C58_eigenvalue_bounds
* Verif.Mesh.C58_depends_on_local_axes
* Verif.Mesh.C58_aligned
* Verif.Operator.C59_steady_state
* Verif.Operator.C59_other_schemes_inconsistent
* Verif.Operator.C60_power_balance
* Verif.Operator.C60_euler_energy
* Verif.Operator.C60_bdf2_energy
* Verif.Operator.C60_bdf2_any_step
* Verif.Operator.C60_euler_energy_run
* Verif.Operator.C60_bdf2_energy_run
* Verif.Operator.C60_bdf2_bounded_run
* Verif.Precond.C61_velocity_entries_partial
* Verif.Precond.C61_scalar_entries
* Verif.Precond.C61_stokes_undefined
* Verif.Precond.C62_pressure_entries
* Verif.Precond.C62_laplace_definite
* Verif.Nonlinear.C63_linear_tolerance
* Verif.Nonlinear.C63_one_solve_suffices
* Verif.LevelSet.C64_residual_after_update
* Verif.LevelSet.C64_weak_form
* Verif.LevelSet.C64_step_solves_transport
* Verif.LevelSet.C64_hanging_node_mismatch
* Verif.LevelSet.C65_content_balance
* Verif.LevelSet.C65_content_conserved
* Verif.LevelSet.C65_constant_unchanged
* Verif.LevelSet.C65_content_conserved_run
* Verif.LevelSet.C66_bounds
* Verif.LevelSet.C66_first_order
* Verif.LevelSet.C66_vanishes_on_solutions
* Verif.LevelSet.C66_value
* Verif.LevelSet.C66_rest_is_nan
* Verif.LevelSet.C66_first_step
* Verif.LevelSet.C67_content_conserved_whole_run
* Verif.LevelSet.C67_content_conserved_constant_steps
* Verif.LevelSet.C67_content_change
* Verif.LevelSet.C67_reinitialization_conserves
* Verif.LevelSet.C68_weak_form
* Verif.LevelSet.C68_symmetric_positive
* Verif.LevelSet.C68_diffusion_decays
* Verif.LevelSet.C68_equilibrium
* Verif.LevelSet.C68_stored_normal
* Verif.LevelSet.C68_pseudo_step
* Verif.LevelSet.C69_assembled_is_matrix_free
* Verif.LevelSet.C69_stable
* Verif.LevelSet.C69_reproduces_constants
* Verif.LevelSet.C69_normal_of_linear
* Verif.LevelSet.C69_damping_nonneg
* Verif.LevelSet.C70_node_length
* Verif.LevelSet.C70_node_scaling
* Verif.LevelSet.C70_batch_independent
* Verif.LevelSet.C70_flat_interface
* Verif.LevelSet.C70_total_curvature
* Verif.LevelSet.C70_orientation
* Verif.LevelSet.C70_approximate_projection_shrinks
* Verif.LevelSet.C71_gradient_force
* Verif.LevelSet.C71_static_droplet
* Verif.LevelSet.C71_pressure_jump
* Verif.LevelSet.C71_hydrostatic
* Verif.LevelSet.C71_uninterpolated_unbalanced
* Verif.LevelSet.C71_interpolation
* Verif.LevelSet.C71_interpolation_exact
* Verif.LevelSet.C71_interpolated_pressure
* Verif.LevelSet.C71_static_droplet_conforming
* Verif.LevelSet.C71_hanging_node_not_pressure
* Verif.LevelSet.C72_weak_form_partial
* Verif.LevelSet.C72_content_conserved
* Verif.LevelSet.C72_content_conserved_run
* Verif.LevelSet.C72_constrained_unknowns
* Verif.LevelSet.C72_viscosity_unused
* Verif.LevelSet.C72_stabilized_doubles
* Verif.LevelSet.C73_imposed_partial
* Verif.LevelSet.C73_okz_frozen
* Verif.LevelSet.C73_okz_symmetry_unknown
* Verif.Boundary.C74_prescribed_velocity
* Verif.Boundary.C74_constraints
* Verif.Boundary.C74_late_registration
* Verif.Boundary.C75_fixed_value
* Verif.Boundary.C75_error_iff
* Verif.Boundary.C75_only_level
* Verif.Boundary.C75_open_projection
* Verif.Boundary.C75_partition_dependence
* Verif.Projection.C76_pressure_update_partial
* Verif.Projection.C76_initial_pressure_lost
* Verif.Projection.C76_pressure_used
* Verif.Projection.C76_uniform_coefficients
* Verif.Projection.C76_defect
* Verif.Projection.C76_projected_velocity_partial
* Verif.Projection.C76_second_step_defect
* Verif.Projection.C77_uses_last_rebuild
* Verif.Projection.C77_current_velocity_partial
* Verif.Projection.C77_ilu_second_step
* Verif.Precond.Objects.C78_no_missing_object
* Verif.Precond.Objects.C78_coupled_always_runs
* Verif.Precond.Objects.C78_projection_component_ilu
* Verif.Precond.Objects.C79_flexible_iff_iterative
* Verif.Boundary.C80_open_boundary_term
* Verif.Boundary.C80_closed
* Verif.Boundary.C80_rest_with_open_boundary
* Verif.Precond.C81_definite_all_steps
* Verif.Precond.C81_definite_stationary
* Verif.Precond.C81_stationary_indefinite
* Verif.Precond.C81_interior_penalty
* Verif.Precond.C81_symmetric
* Verif.Precond.C81_constants
* Verif.Precond.C81_definite
* Verif.Precond.C81_pattern
* Verif.Precond.C81_process_border_not_symmetric
* Verif.Operator.CellLoop.C84_operator_split
* Verif.Operator.CellLoop.C84_direct_split
* Verif.Operator.CellLoop.C84_divergence_split_partial
* Verif.Operator.CellLoop.Example.C84_divergence_depends_on_ranges
* Verif.Operator.Dispatch.C85_flow
* Verif.Operator.Dispatch.C85_level_set_force
* Verif.Operator.Dispatch.C85_advection
* Verif.Operator.Dispatch.C85_level_set_kernels
* Verif.Operator.Dispatch.C85_phase_field_partial
* Verif.Operator.Dispatch.C85_phase_step_guarded
* Verif.Operator.Dispatch.C85_velocity_degree_six
* Verif.Bubble.C86_report
* Verif.Bubble.C86_partition_independent
* Verif.Bubble.C86_constant_velocity
* Verif.Bubble.C86_speed_for_time_step
* Verif.Bubble.C86_mean_in_range_partial
* Verif.Bubble.C86_area_bounds_partial
* Verif.Bubble.C86_translation
* Verif.Bubble.C86_uncut_cell_has_one_sign
* Verif.Bubble.C86_perimeter_is_length_of_points_partial
* Verif.Bubble.C86_mean_in_range_3d
* Verif.Bubble.C86_circularity
* Verif.Bubble.C86_sphericity
* Verif.Bubble.C86_saddle_counterexample
* Verif.Bubble.C86_printed_centre_depends_on_bubble_size
* Verif.Operator.PressureOps.C87_poisson_form
* Verif.Operator.PressureOps.C87_poisson_symmetric_semidefinite
* Verif.Operator.PressureOps.C87_poisson_kernel
* Verif.Operator.PressureOps.C87_weight_is_a_factor
* Verif.Operator.PressureOps.C87_mass_form
* Verif.Operator.PressureOps.C87_mass_second_mode
* Verif.Operator.PressureOps.C87_stationary_scaling
* Verif.Operator.PressureOps.C87_projected_velocity_divergence_free
* Verif.Operator.PressureOps.C87_rotational_update
* Verif.Operator.PressureOps.C87_poisson_agrees_with_assembly
* Verif.Operator.PressureOps.C87_mass_agrees_with_assembly
* Verif.Operator.PressureOps.Example.C87_mass_is_not_the_assembled_one
* Verif.LevelSet.Ranges.C88_range
* Verif.LevelSet.Ranges.C88_partition
* Verif.LevelSet.Ranges.C88_sampled_nodes
* Verif.LevelSet.Ranges.C88_true_range_partial
* Verif.LevelSet.Ranges.C88_range_misses_overshoot
* Verif.LevelSet.Ranges.C88_diameter
* Verif.LevelSet.Ranges.C88_diameter_refinement
* Verif.LevelSet.Ranges.C88_diameter_convex
* Verif.LevelSet.Ranges.C88_quiet_partial
* Verif.LevelSet.Ranges.C88_verbose
* Verif.LevelSet.Ranges.C88_verbosity_changes_computation
* Verif.PhaseField.Energy.C89_energy_balance
* Verif.PhaseField.Energy.C89_energy_decays
* Verif.PhaseField.Energy.C89_material_partial
* Verif.PhaseField.Energy.C89_inflow_material
* Verif.PhaseField.Energy.C89_inflow_density_wrong
* Verif.PhaseField.Energy.C89_force_partial
* Verif.PhaseField.Energy.C89_force_is_pressure_gradient
* Verif.PhaseField.Energy.C89_trace_degree_one_partial
* Verif.PhaseField.Energy.C89_trace_degree_two_wrong
* Verif.PhaseField.Energy.C89_trace_constants
* Verif.PhaseField.Energy.C89_run_energy_bounded
* Verif.PhaseField.Energy.C89_constant_step_run
* Verif.PhaseField.Energy.C89_complete_run
* Verif.Precond.Pattern.C90_velocity_components
* Verif.Precond.Pattern.C90_full_cells
* Verif.Precond.Pattern.C90_velocity_linear
* Verif.Precond.Pattern.C90_pressure
* Verif.Precond.Pattern.C90_projection
* Verif.Precond.Pattern.C90_phase_field_partial
* Verif.Precond.Pattern.C90_phase_field_missing
* Verif.Precond.Wrapper.C91_constrained_rows_identity
* Verif.Precond.Wrapper.C91_pinned_rows
* Verif.Precond.Wrapper.C91_wrapper_equals_matrix
* Verif.Precond.Wrapper.C91_poisson_wrapper_equals_assembled
* Verif.Precond.Wrapper.C91_positive_definite
* Verif.Precond.Wrapper.C91_ignored_pin_singular
* Verif.LevelSet.MatrixNormals.C92_reinitialize_reads
* Verif.LevelSet.MatrixNormals.C92_recent_partial
* Verif.LevelSet.MatrixNormals.C92_curvature_current
* Verif.LevelSet.MatrixNormals.C92_stale_after_transport
* Verif.LevelSet.MatrixForce.C93_projection_matrix
* Verif.LevelSet.MatrixForce.C93_normal_rhs
* Verif.LevelSet.MatrixForce.C93_normal_of_linear
* Verif.LevelSet.MatrixForce.C93_normal_length
* Verif.LevelSet.MatrixForce.C93_total_curvature
* Verif.LevelSet.MatrixForce.C93_curvature_bounded
* Verif.LevelSet.MatrixForce.C93_curvature_bound_parameters
* Verif.LevelSet.MatrixForce.C93_flat_interior
* Verif.LevelSet.MatrixForce.C93_force
* Verif.LevelSet.MatrixForce.C93_same_force
* Verif.LevelSet.MatrixForce.C93_force_from_level_set
* Verif.LevelSet.MatrixForce.C93_material_between
* Verif.LevelSet.MatrixForce.C93_theta_steady_partial
* Verif.LevelSet.MatrixForce.C93_theta_curvature_lost
* Verif.LevelSet.MatrixForce.C93_theta_heaviside_mixed
* Verif.LevelSet.MatrixForce.C93_table_bounds
* Verif.LevelSet.MatrixForce.Example.C93_flat_not_zero
* Verif.Mesh.C94_adaptive_run
* Verif.Mesh.C94_data_of_current_mesh
* Verif.Mesh.C94_preconditioner_rebuilt
* Verif.Mesh.C94_must_reinitialize
* Verif.Mesh.C94_reinit_erases
* Verif.Sharp.C95_orientation_irrelevant
* Verif.Sharp.C95_outside
* Verif.Sharp.C95_no_overshoot
* Verif.Sharp.C95_convex_partial
* Verif.Sharp.C95_indicator_field
* Verif.Sharp.C95_cell_order_matters
* Verif.Sharp.C95_third_coordinate_ignored
* Verif.Sharp.C96_sphere
* Verif.Sharp.C96_flat
* Verif.Sharp.C96_motion
* Verif.Sharp.C96_formula_is_curvature
* Verif.Sharp.C96_line_formula
* Verif.Sharp.C96_stored_at_nodes_partial
* Verif.Sharp.C96_wrong_node
* Verif.App.C97_no_row_lost
* Verif.App.C97_log_complete
* Verif.App.C97_one_writer
* Verif.App.C97_names
* Verif.App.C97_step_number
* Verif.App.C97_small_steps_collide
* Verif.App.C98_exchange_partial
* Verif.App.C98_lines_partial
* Verif.App.C98_lid_partial
* Verif.App.C98_two_dimensions
* Verif.Output.Joint.C99_every_name_shows_its_field
* Verif.Output.Joint.C99_vectors
* Verif.Output.Joint.C99_patches
* Verif.Output.Joint.C99_standard_refine
* Verif.Output.Joint.C99_biased_refine_partial
* Verif.Output.Joint.C99_biased_refine_not_marking
* Verif.Output.Joint.C99_direction_not_a_number
* Verif.App.Channel.C100_mesh
* Verif.App.Channel.C100_finer_towards_walls
* Verif.App.Channel.C100_initial_velocity
* Verif.App.Channel.C100_2d_reads_third_coordinate
* Verif.App.Channel.C100_initial_divergence
* Verif.App.Channel.C100_force_power
* Verif.App.Channel.C100_force_brakes
* Verif.App.Particle.C101_ids_2d
* Verif.App.Particle.C101_ids_3d
* Verif.App.Particle.C101_manifolds
* Verif.App.Particle.C101_ramp
* Verif.App.Particle.C101_inflow_2d
* Verif.App.Particle.C101_inflow_3d_partial
* Verif.App.Particle.C101_inlet2_3d
* Verif.App.Particle.C101_unknown
* Verif.App.Particle.C101_particle
* Verif.TwoPhase.Adapt.C102_adaptive_run
* Verif.TwoPhase.Adapt.C102_second_level
* Verif.TwoPhase.Adapt.C102_initial_profile
* Verif.TwoPhase.Adapt.C102_concentration_conforming_partial
* Verif.TwoPhase.Adapt.C102_curvature_conforming
* Verif.TwoPhase.Adapt.C102_potential_defect_linear
* Verif.TwoPhase.Adapt.C102_initial_defect_persists
* Verif.TwoPhase.Adapt.C102_potential_never_conforming
* Verif.Parallel.Failures.C103_stabilization_stale
* Verif.Parallel.Failures.C103_open_projection_stale
* Verif.Parallel.Failures.C103_adapted_asserts
* Verif.Parallel.Failures.C103_distribute_matters
* Verif.Parallel.Failures.C103_stabilization_gmres
* Verif.Parallel.C103_flow_partial
* Verif.Parallel.C103_phase_field_partial
* Verif.Parallel.C103_level_set_partial
* Verif.Parallel.C103_mixed_partial
* Verif.Parallel.C103_front_partial
* Verif.Parallel.C103_one_process
* Verif.Parallel.C103_serial_level_set_partial
* Verif.Parallel.C103_serial_flow_partial
* Verif.Parallel.Surface.C104_front_partial
* Verif.Parallel.Surface.C104_front_fails
* Verif.Parallel.Surface.C104_front_one_process
* Verif.Parallel.Surface.C104_mixed_submitted
* Verif.Parallel.Surface.C104_mixed_distributed
* Verif.Parallel.Surface.C104_mixed_replicated_violated
* Verif.Parallel.Surface.C104_marching
* Verif.Time.C105_never_passes_end
* Verif.Time.C105_next_advances_partial
* Verif.Time.C105_driver_loop_terminates_partial
* Verif.Time.C105_bdf2_weights
* Verif.Time.C105_one_step_weights
* Verif.Time.C105_extrapolation
* Verif.Time.C105_tick_partial
* Verif.Time.C105_stall_double
* Verif.Time.C105_end_unnoticed_double
* Verif.Parameters.File.C106_outcome
* Verif.Parameters.File.C106_members
* Verif.Parameters.File.C106_exceptions
* Verif.Parameters.File.C106_last_value
* Verif.Parameters.File.C106_defaults
* Verif.Parameters.File.C106_prm_unknown_rejected
* Verif.Parameters.File.C106_json_unknown_ignored
* Verif.Parameters.File.C106_two_phase
* Verif.Parameters.File.C106_micro_particle
* Verif.Parameters.File.C106_phase_field_unavailable
* Verif.Parallel.Exchange.C107_bubble_schedule
* Verif.Parallel.Exchange.C107_line_schedule
* Verif.Parallel.Exchange.C107_bubble_no_deadlock
* Verif.Parallel.Exchange.C107_line_no_deadlock
* Verif.Parallel.Exchange.C107_terminates
* Verif.Precond.Loop.C108_cells_independent
* Verif.Precond.Loop.C108_schedules
* Verif.Precond.Loop.C108_global
* Verif.Precond.Loop.C108_values
* Verif.Precond.Loop.C108_operator
* Verif.Precond.Loop.C108_numbering
* Verif.Precond.Loop.C108_stale_rows
* Verif.Precond.Apply.C109_componentwise
* Verif.Precond.Apply.C109_blocks
* Verif.Parallel.C110_flow_partial
* Verif.Parallel.C110_phase_field_partial
* Verif.Parallel.C110_level_set_partial
* Verif.Parallel.C110_level_set_step_partial
* Verif.Parallel.C110_mixed_partial
* Verif.Parallel.C110_front_partial
* Verif.Parallel.C110_flow_restart_partial
* Verif.Parallel.C110_level_set_restart_partial
* Verif.Parallel.C110_projection_leftover
* Verif.Parallel.C110_stokes_leftover
* Verif.Parallel.C110_normals_leftover
* Verif.Operator.StokesField.C111_variable_coefficients_stokes
* Verif.Operator.StokesField.C111_constant_coefficients_inertia
* Verif.Operator.StokesField.C111_velocity_preconditioner_undefined
* Verif.Operator.StokesField.C111_pressure_preconditioner_zero
* Verif.Wiring.C112_okz_references
* Verif.Wiring.C112_okz_no_alias
* Verif.Wiring.C112_okz_objects
* Verif.Wiring.C112_okz_matrices
* Verif.Wiring.C112_sharp_references_partial
* Verif.Wiring.C112_sharp_stale
* Verif.Wiring.C112_sharp_no_alias
* Verif.Wiring.C112_sharp_objects_partial
* Verif.Wiring.C112_sharp_matrices_partial
* Verif.LevelSet.C113_hypercube_partial
* Verif.LevelSet.C113_simplex
* Verif.LevelSet.C113_simplex_below_resolution
* Verif.LevelSet.C113_single_level_partial
* Verif.LevelSet.C113_normal_product
* Verif.LevelSet.C113_simplex_products_differ
* Verif.LevelSet.C113_factors
* Verif.Operator.PressureSystem.C114_projected_equations
* Verif.Operator.PressureSystem.C114_same_solutions
* Verif.Operator.PressureSystem.C114_zero_residual
* Verif.Operator.PressureSystem.C114_no_solution_without_balance
* Verif.Operator.PressureSystem.C114_cellwise_mass
* Verif.LevelSet.C115_weak_form_partial
* Verif.LevelSet.C115_system_exists
* Verif.LevelSet.C115_zero_normal
* Verif.LevelSet.C115_pseudo_step
* Verif.LevelSet.C115_content_conserved
* Verif.LevelSet.C115_symmetric_positive
* Verif.LevelSet.C115_diffusion_decays
* Verif.LevelSet.C115_equilibrium
* Verif.Sharp.Mixed.C116_material_values_partial
* Verif.Sharp.Mixed.C116_equal_phases
* Verif.Sharp.Mixed.C116_other_numbering
* Verif.Sharp.Mixed.C116_open_boundary
* Verif.Sharp.Mixed.C116_gravity_partial
* Verif.Sharp.Mixed.C116_gravity_equal_densities
* Verif.Sharp.Mixed.C116_gravity_uniform
* Verif.Sharp.Mixed.C116_gravity_top_layer
* Verif.Sharp.Mixed.C116_gravity_layered
* Verif.PhaseField.Newton.C117_constrained_unknowns
* Verif.PhaseField.Newton.C117_iteration_partial
* Verif.PhaseField.Newton.C117_concentration_equation
* Verif.PhaseField.Newton.C117_potential_equation
* Verif.PhaseField.Newton.C117_total_balance
* Verif.PhaseField.Newton.C117_silent_failure
* Verif.Operator.PressureField.C118_nodes_partial
* Verif.Operator.PressureField.C118_vertices
* Verif.Operator.PressureField.C118_exact
* Verif.Operator.PressureField.C118_constants
* Verif.Operator.PressureField.C118_hanging_node
* Verif.Operator.PressureField.C118_curved
* Verif.LevelSet.C119_balance
* Verif.LevelSet.C119_euler
* Verif.LevelSet.C119_bdf2
* Verif.LevelSet.C119_bdf2_any_step
* Verif.LevelSet.C119_run
* Verif.Timing.C120_call_partial
* Verif.Timing.C120_history_partial
* Verif.Timing.C120_exceptions_partial
* Verif.Timing.C120_applications_partial
* Verif.Timing.C120_cavity
* Verif.Operator.Stationary.C121_equations_partial
* Verif.Operator.Stationary.C121_independent_partial
* Verif.Operator.Stationary.C121_fixed_point
* Verif.Operator.Stationary.C121_other_schemes
* Verif.Operator.Stationary.C121_determined_iff
* Verif.Operator.Stationary.C121_release_accepts
* Verif.Parallel.C122_flow
* Verif.Parallel.C122_phase_field
* Verif.Parallel.C122_sharp
* Verif.Parallel.C122_level_set_partial
* Verif.Parallel.C122_level_set_accurate_partial
* Verif.Parallel.C122_flow_parallel
* Verif.Parallel.C122_level_set_parallel_partial
* Verif.Parallel.C122_initial_output_matters
* Verif.Time.C123_two_phase_schedule_partial
* Verif.Time.C123_level_set_second_run_asserts
* Verif.Time.C123_level_set_first_value_wrong
* Verif.Time.C123_level_set_step_differs
* Verif.Operator.C124_momentum_balance
* Verif.Operator.C124_newtons_law_partial
* Verif.Operator.C124_momentum_conserved_partial
* Verif.Operator.C124_convective_form_produces
* Verif.Operator.C124_density_produces
* Verif.LevelSet.C125_transport
* Verif.LevelSet.C125_artificial_viscosity
* Verif.LevelSet.C125_reinitialization
* Verif.LevelSet.C125_normals
* Verif.LevelSet.C125_curvature
* Verif.LevelSet.C125_force
* Verif.LevelSet.C125_gravity_direction
* Verif.Operator.C125_residual
* Verif.Operator.C125_matrix
* Verif.Operator.C125_run
* Verif.Operator.C125_iteration
* Verif.PhaseField.Energy.C125_phase_field
* Verif.PhaseField.Energy.C125_phase_field_force
* Verif.LevelSet.C126_transport_units
* Verif.LevelSet.C126_reinitialization_units
* Verif.LevelSet.C126_pseudo_time_step_depends_on_unit_of_time
* Verif.LevelSet.C126_artificial_viscosity_units_partial
* Verif.LevelSet.C126_artificial_viscosity_depends_on_unit_of_length
* Verif.LevelSet.C126_normal_depends_on_unit_of_length_partial
* Verif.Operator.C126_residual_units
* Verif.Operator.C126_run_units
* Verif.Time.C126_clock_units
* Verif.Time.C126_origin_matters
* Verif.Operator.C127_gradient_force
* Verif.Operator.C127_run
* Verif.Operator.C127_iteration
* Verif.Operator.C128_superposition
* Verif.Operator.C128_solutions
* Verif.Operator.C128_not_with_inertia
* Verif.LevelSet.C129_transport
* Verif.LevelSet.C129_artificial_viscosity
* Verif.LevelSet.C129_reinitialization
* Verif.LevelSet.C129_normals_curvature
* Verif.LevelSet.C129_force
* Verif.LevelSet.C129_curvature_correction_partial
* Verif.PhaseField.Energy.C129_phase_field
* Verif.PhaseField.Energy.C129_phase_field_flow
* Verif.Precond.Amg.C130_coordinates
* Verif.Precond.Amg.C130_null_space
