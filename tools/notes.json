{
 "C01": [
  "proved",
  "For all reachable states under the documented call protocol (debug assertion on next()). C01_release_mode_overrun shows that calling next() after the end in release mode passes the final time."
 ],
 "C02": [
  "proved",
  ""
 ],
 "C03": [
  "proved",
  "Archimedean field; exact arithmetic."
 ],
 "C04": [
  "proved",
  ""
 ],
 "C05": [
  "proved",
  "Exact for the documented protocol; C05_changed_step_breaks_weights is a counterexample for steps changed between next() calls where the stale step is used."
 ],
 "C06": [
  "proved",
  ""
 ],
 "C07": [
  "proved",
  "The exception in the statement is shown to be real by C07_restart_stale_weight."
 ],
 "C08": [
  "proved",
  "The exception in the statement is shown to be real by C08_tick_missed."
 ],
 "C09": [
  "proved",
  ""
 ],
 "C10": [
  "partial",
  "Proved for velocity, pressure, symmetry and no-slip conditions; C10_survivors shows that fluid types and periodic directions do survive, so the full statement is false of the code."
 ],
 "C11": [
  "proved",
  ""
 ],
 "C12": [
  "proved",
  "C12_negative_degree_accepted records an inconsistent file that is accepted (negative velocity degree), outside the statement."
 ],
 "C13": [
  "proved",
  ""
 ],
 "C14": [
  "proved",
  "C14_final_output_overwrites shows the exception in the statement is real."
 ],
 "C15": [
  "proved",
  ""
 ],
 "C16": [
  "proved",
  ""
 ],
 "C17": [
  "proved",
  ""
 ],
 "C18": [
  "proved",
  ""
 ],
 "C19": [
  "proved",
  ""
 ],
 "C20": [
  "proved",
  ""
 ],
 "C51": [
  "partial",
  "Proved if the lowest boundary dof of each rank is unconstrained; C51_pins_constrained_dof shows the full statement is false of the code."
 ],
 "C21": [
  "partial",
  "True for the AMG velocity preconditioners (C21_products_const_partial, C21_products_unobservable_partial, C21_uses_frozen, C21_frozen_from_last_assembly). For the ILU kinds the property is false of the code: C21_ilu_velocity_product_loses_data and C21_ilu_mass_product_loses_viscosity are counterexamples."
 ],
 "C22": [
  "proved",
  "Inner solves are an oracle assumed exact."
 ],
 "C28": [
  "proved",
  "For one mode and for several modes with disjoint support; C28_overlap_breaks_mean shows the disjointness is needed."
 ],
 "C29": [
  "proved",
  "Quadrature point operation; FE interpolation is linear oracle."
 ],
 "C30": [
  "proved",
  ""
 ],
 "C45": [
  "proved",
  "Volume and contact terms; discrete level with arbitrary linear evaluation."
 ],
 "C52": [
  "proved",
  ""
 ],
 "C53": [
  "proved",
  "Constant test function and zero-integral convection are hypotheses (FE oracle)."
 ],
 "C23": [
  "proved",
  "SolverControl semantics modelled from deal.II's documentation; residual norm sequences (incl. NaN) arbitrary."
 ],
 "C24": [
  "proved",
  "The residual statement is about the solution before the final pressure shift (residual is not re-evaluated by the code); evaluate_time_step swallows the exception and reports {0,0}."
 ],
 "C25": [
  "proved",
  "Includes existence over all histories, bound on rebuilds, and the scheduling rules."
 ],
 "C26": [
  "partial",
  "Proved for every normal return and always for the linear variants; C26_exception_leaves_stokes shows that the full claim is false if the Newton iteration throws. About the copy of the parameters in the flow solver (returned by get_parameters and read by the two-phase solvers)."
 ],
 "C27": [
  "proved",
  "C27_mixed_solver_start_lags shows the start value is not exact for the mixed sharp-interface driver. Pressure block of the projection scheme not covered."
 ],
 "C31": [
  "partial",
  "Proved for the level set (convex shape functions), phase field and front tracking solvers; C31_unclamped_leaves_range is a counterexample for the mixed level set solver and for the matrix-based solver without surface_tension_from_heaviside."
 ],
 "C32": [
  "proved",
  "Over the reals; arcsin/sqrt/pi of Mathlib."
 ],
 "C33": [
  "proved",
  "Also first moment and sum of squares."
 ],
 "C34": [
  "proved",
  ""
 ],
 "C35": [
  "partial",
  "Proved for 3*epsilon >= concentration_subdivisions and no sign jump inside far cells; C35_not_monotone, C35_order_matters and C35_jump_uses_first_value show that each restriction is needed."
 ],
 "C36": [
  "proved",
  "All sixteen sign patterns: polygon area (clip + shoelace specification), range, one-sided cells, complement, segments; the excepted saddle case is shown to give a negative fraction always. Values in the patch are the perturbed ones (+1e-22); an exactly zero perturbed value is excluded."
 ],
 "C37": [
  "proved",
  "All n >= 1 and arbitrary quadrature weights; also consequence for the cell area and for uncut cells."
 ],
 "C38": [
  "proved",
  "All rank counts and lists; MPI point-to-point delivery assumed."
 ],
 "C39": [
  "proved",
  "Three marking functions, arbitrary indicators (finite numbers); execute_coarsening_and_refinement specified by the allowed origin of new cells."
 ],
 "C40": [
  "proved",
  "Both coupled drivers, all request histories, start step within [min,max]. C40_start_step_out_of_range shows the hypothesis is needed; C40_last_step_weights_differ shows that the BDF-2 weights (not part of the claim) differ in a shortened last step."
 ],
 "C41": [
  "partial",
  "True only without the unconditional call in setup_problem; C41_assertion_fails_in_last_step proves that in every complete run without step requests the reinitialization clock hits the debug assertion."
 ],
 "C54": [
  "partial",
  "True until the final time is reached (C54_transport_time_partial; node positions: C54_step_partial, C54_uniform_partial, with a bound on the error at the end); C54_last_step_overshoots and C54_position_last_step are counterexamples for the last step."
 ],
 "C42": [
  "proved",
  "Sort/compress of (cell, point, weight) triples; std::sort is any sorted permutation."
 ],
 "C43": [
  "partial",
  "Conservation of the surface measure proved for the variant that keeps one owning cell per point; C43_front_tracking_partial gives the exact multiplicity for front tracking and C43_front_tracking_violated is a counterexample (points on cell faces counted more than once, points outside dropped)."
 ],
 "C44": [
  "partial",
  "Proved for front tracking, marching cubes and the regularized force; C44_mixed_violated: the mixed level set solver multiplies with the coefficient twice (the statement is false of it)."
 ],
 "C46": [
  "partial",
  "Phase field profile proved; the level set profile only on meshes with h/degree <= epsilon. C46_not_fixed_point: otherwise, and for the matrix-based solver with epsilon < subdivisions, the profile is not a fixed point."
 ],
 "C47": [
  "proved",
  ""
 ],
 "C48": [
  "partial",
  "Bounds proved; the requested step is a harmonic-type combination below the minimum (at least half of it), and C48_density_ignored shows that the viscosity is used in place of the density."
 ],
 "C49": [
  "partial",
  "C49_normal_skipped: the call may end without computing the normal or (0 steps requested) without a step; C49_matrix_never_sharpens: the matrix-based solver performs only diffusive steps once any is requested."
 ],
 "C50": [
  "partial",
  "Proved for droplets with positive level set inside, away from the cut-offs; C50_not_symmetric: the mirrored case is not corrected. C50_resolved: for resolved interfaces (radius of curvature at least 6 epsilon) the result is always a positive number; C50_sign_flip: for radii below 4 epsilon the correction can make the curvature negative; C50_one_dimension: division by zero."
 ],
 "C55": [
  "proved",
  ""
 ],
 "C56": [
  "proved",
  ""
 ],
 "C57": [
  "proved",
  ""
 ],
 "C58": [
  "proved",
  "C58_depends_on_local_axes shows that for turned local axes the reported size is not an extent of the cell."
 ],
 "C59": [
  "proved",
  "C59_other_schemes_inconsistent: Crank-Nicolson and explicit Euler, which the parameter reader accepts, are only rejected by a debug assertion."
 ],
 "C60": [
  "proved",
  "Hypothesis Closed: the discrete equations hold for the solution as test function and the energy flux through the boundary vanishes."
 ],
 "C61": [
  "partial",
  "Proved for non-zero density; C61_stokes_undefined: for Stokes flow (density 0) the code divides by zero and every entry is undefined."
 ],
 "C62": [
  "proved",
  "Without the DG0 enrichment (augmented Taylor-Hood face terms)."
 ],
 "C63": [
  "proved",
  "C63_linear_tolerance covers every solve of every run (for tol_nl/2 <= tol_lin in relative Newton/Picard mode); C63_one_solve_suffices is the consequence for linear variants."
 ],
 "C64": [
  "proved",
  "Hypotheses: closed constraints, exact linear solve (`Solved`), and `FaceExact` (face data of the product agree with those of the right hand side and no hanging node sees a non-symmetry boundary face). FINDING: without the latter the product is not the derivative of the residual (C64_hanging_node_mismatch); the product also builds its FEFaceValues without the mapping."
 ],
 "C65": [
  "proved",
  "Conservation needs hanging-node constraints only (KeepsOne), partition of unity, and weight() exact in the step (the clock may keep an old weight within its tolerance, C05; then the deviation is bounded)."
 ],
 "C66": [
  "proved",
  "Bounds need positive maximal velocity and domain size with SIMD arithmetic. FINDINGS: a fluid at rest gives 0/0 = NaN (C66_rest_is_nan); in the first step the result depends on the vectorization: none with SIMD, the largest with scalar arithmetic (C66_first_step). min/max semantics of NaN as in the two code variants."
 ],
 "C67": [
  "proved",
  "Hypotheses: exact linear solve on the free unknowns, constraints are hanging nodes only (constants admissible)."
 ],
 "C68": [
  "proved",
  "Equilibrium and stored normals pointwise; norms given by their defining property."
 ],
 "C69": [
  "proved",
  "Exactness uses positive quadrature weights and exact linear solve on the free unknowns."
 ],
 "C70": [
  "proved",
  "FINDING (C70_approximate_projection_shrinks): with approximate projections the smoothing loop passes the integer 2 to a bool parameter; it therefore applies mass plus damping and multiplies a constant curvature with 0.95 in each round."
 ],
 "C71": [
  "proved",
  "Hypotheses: discrete integration by parts for the given pressure and test function (holds for continuous pressure and velocity vanishing on the boundary). C71_uninterpolated_unbalanced: without interpolation into the pressure space no discrete pressure balances even constant curvature. C71_interpolation, C71_interpolated_pressure and C71_static_droplet_conforming treat the interpolation matrix and the pressure space; C71_hanging_node_not_pressure shows the limit at hanging nodes."
 ],
 "C72": [
  "partial",
  "Proved for convection_stabilization = false (default). FINDINGS: with stabilization the right hand side is not a residual but the solution is added, so each step doubles the level set (C72_stabilized_doubles); the computed entropy viscosity is never used (C72_viscosity_unused)."
 ],
 "C73": [
  "partial",
  "Proved for the matrix-based and the stand-alone solver, for all histories of steps and changes of the mesh. FINDING: LevelSetOKZSolver copies the registered types in its constructor, before anything can be registered: C73_okz_frozen shows that the level set keeps its initial value (carried to the current mesh) at these nodes in all runs; C73_okz_symmetry_unknown: its transport operator never knows a symmetry boundary."
 ],
 "C74": [
  "proved",
  "for nodes where the faces they lie on agree on the condition (at corners with different conditions the last face of the loop decides); linear solvers arbitrary; late registration shown to be ineffective"
 ],
 "C75": [
  "proved",
  "history theorem for the coupled schemes; the end of a step also for projection (open boundaries); -max double modelled as minus infinity; late registration (no constant mode built) is an assertion in debug mode and not covered"
 ],
 "C76": [
  "partial",
  "Full statement false of the code: initial pressure lost in the first step (C76_initial_pressure_lost), defect for changed weights (C76_defect gives it exactly, C76_second_step_defect a concrete case). Proved: pressure update from zero initial pressure, pressure used in the residual, equivalence to the scheme with projected velocities for constant weights, coefficients 4/3, -1/3."
 ],
 "C77": [
  "partial",
  "Full statement false of the code: steps without a preconditioner rebuild use old velocities (C77_stale_linearization; C77_uses_last_rebuild says exactly which), and with u_ilu the storage of the linearization point is lost (C77_ilu_second_step). Proved for steps with a rebuild."
 ],
 "C78": [
  "proved",
  "Exact characterization (iff) of the histories that run; the excluded parameter combinations crash in the code (C78_projection_component_ilu). The initial Stokes solve is safe since its parameters do not reach the preconditioner (C78_stokes_parameters_do_not_arrive, see C111). An exception thrown by a solve ends the history (see C26)."
 ],
 "C79": [
  "proved",
  "Inner iterations are recorded by their kind only; numbers are not modelled."
 ],
 "C80": [
  "proved",
  "open boundary term = work of the prescribed pressure at the current time after every history; hydrostatic state with an open boundary has zero residual"
 ],
 "C81": [
  "proved",
  "interior penalty form, symmetry, kernel, definiteness under the trace inequality (C81_definite; C81_definite_all_steps for all densities and steps), sparsity pattern; C81_process_border_not_symmetric shows the failure at process borders that the statement excludes, C81_stationary_indefinite the one for stationary flow of small density"
 ],
 "C82": [
  "proved",
  "Kernels are arbitrary functions; exceptions other than the swallowed non-convergence are not modelled; do_iteration throws in the code."
 ],
 "C83": [
  "partial",
  "Proved: force and material tables are current. False of the code and proved as such: the face densities are never set by the phase-field solver."
 ],
 "C84": [
  "partial",
  "Proved for residual, vmult, velocity vmult and all loops that index by the cell number. For the viscosity-weighted divergence the statement is false of the code (C84_divergence_depends_on_ranges); proved there: the exact formula, and independence whenever the weight is constant on each range. Ranges are executed one after the other; data races are not modelled."
 ],
 "C85": [
  "partial",
  "Proved for all operators except the throwing part for PhaseFieldSolver::vmult, which silently skips the loop with 0 or more than 4 subdivisions (C85_phase_vmult_silent). Within a time step the residual throws before (C85_phase_step_guarded). The list of evaluators was transcribed by hand; hypercube kernels with run-time degree (sharp_interface_util.h) always fit and are not listed."
 ],
 "C86": [
  "partial",
  "Proved in full for three dimensions and for partition independence, constant velocity, translation and the cheap test in two dimensions. Range of the means, area bounds and perimeter = length of the returned points are proved without saddle sub-cells; with them they are false of the code (C86_saddle_counterexample). Finite element evaluation is not modelled: cells carry the values read."
 ],
 "C87": [
  "proved",
  "The linear solves of the stationary and projection steps are hypotheses; integration by parts for the velocity is a hypothesis of the projection theorem. Agreement of the mass matrices needs a viscosity constant on cells (counterexample otherwise)."
 ],
 "C88": [
  "partial",
  "Exact range proved for one or two subdivisions only; false for three or more (C88_range_misses_overshoot). Independence of the verbosity is false (C88_verbosity_changes_computation); proved for programs whose level set stays within [-1.02, 1.02] at the statistics calls. Everything else in full. Velocity samples are arbitrary values (polynomials of FE_Q not modelled)."
 ],
 "C89": [
  "partial",
  "Energy balance and decay in full for implicit Euler; runs of any length with BDF-2 (C89_run_energy_bounded for variable step weights, C89_constant_step_run for the weights of the clock): the energy never exceeds the initial one. Material data and force only for concentrations satisfying homogeneous constraints: false at boundaries with prescribed fluid (C89_inflow_density_wrong). Wall traces only for one subdivision: false for two (C89_trace_degree_two_wrong)."
 ],
 "C90": [
  "partial",
  "All matrices in full except the Cahn-Hilliard preconditioner, where the property is false with hanging nodes (C90_phase_field_missing) and proved for constraints without masters. deal.II distribution and pattern functions are given their documented meaning; face terms of the augmented pressure matrix are C81."
 ],
 "C91": [
  "proved",
  "Both branches agree for all constraints; the Poisson instance needs equal or exact quadratures (as C87) and positive coefficients; definiteness needs a connected mesh and one fixed dof not constrained already (C51 shows that the code may pick a constrained one; C91_ignored_pin_singular shows the consequence). One process; meaning of deal.II's AffineConstraints is modelled."
 ],
 "C92": [
  "partial",
  "Curvature and marking after set-up: current normals, proved for all histories. Reinitialization: exact description of what is read, recent if the flag is unset. Missing because false of the code: advance_concentration does not reset normal_calculated, so the first (up to eight) stabilised steps of every time step use the normals of the previous step (C92_stale_after_transport, for every state); with diffusion steps the stabilised steps never use normals at all (diffuse_only is not reset)."
 ],
 "C93": [
  "partial",
  "Proved: matrix, normals, length, curvature bound, force identity, equality with the matrix-free force, material data. Missing because false of the code: (1) steady fields with theta scheme (tau2 > 0): without gradient interpolation the old curvature is never evaluated, surface tension is tau1 times the correct one (C93_theta_curvature_lost); with the Heaviside function old gradients are those of the level set, factor tau1 + 2 tau2 (C93_theta_heaviside_mixed); (2) the gradient table is accessed out of bounds if the pressure element has more functions than the level set element (C93_table_bounds); (3) total curvature is always zero and a flat interface gets curvature at the boundary (C93_total_curvature, C93_flat_not_zero), unlike the matrix-free solver."
 ],
 "C94": [
  "proved",
  "Explicit consequence shown beside it: a vector given in user_rhs is erased by an adaptation, and a repeated initialize_matrix_free without pending transfer erases the solution (C94_reinit_erases)."
 ],
 "C95": [
  "partial",
  "Exact membership is proved for quadrature points that run once around a strictly convex polygon in the order of the cells (C95_convex_partial); separation, start, orientation and joint phases for all meshes. The general statement is false of the code: a surface mesh whose cells are not numbered along the curve gives a wrong polygon (C95_cell_order_matters), and in three dimensions the third coordinate is ignored (C95_third_coordinate_ignored)."
 ],
 "C96": [
  "partial",
  "Normals are stored at the right nodes (C96_nodal_normals). The curvature formula is right (C96_sphere, C96_flat, C96_motion, C96_formula_is_curvature with C96_line_formula), and is stored at the right nodes if quadrature and support points are numbered alike (C96_stored_at_nodes_partial). The full statement is false of the code: the Gauss-Lobatto points are in ascending order, the nodes of FE_Q start with the vertices; these agree only for degree one (C96_numbering_iff) and the solver uses degree three, so a varying curvature is stored at wrong nodes (C96_wrong_node)."
 ],
 "C97": [
  "partial",
  "Log completeness, crash points, single writer and names are proved for all runs. False of the code: in three dimensions the header does not match the columns (C97_columns_3d; proved for two dimensions, C97_columns_2d_partial), and maximal step sizes below 9e-5 share one file name (C97_small_steps_collide)."
 ],
 "C98": [
  "partial",
  "Proved in three dimensions for all meshes whose edges are not shorter than the tolerance 1e-12 (C98_lines_partial, C98_exchange_partial, C98_lid_partial). False of the code for dimension 2, which the program accepts: the third coordinate is read (C98_two_dimensions)."
 ],
 "C99": [
  "partial",
  "Proved in full: fields/names/vectors/Standard_refine. Biased_refine = marking only for flow not crossing the interface in the probed point (C99_biased_refine_partial); counterexamples C99_biased_refine_not_marking (factor 20 vs 4: a cell shown as refined is coarsened) and C99_direction_not_a_number. Trusted: numbering and ownership of deal.II's FESystem DoFHandler (Spec.Conforming), DataOut. The phase field output (two_phase_base.cc:550-592) attaches each vector directly and only shares nPatches."
 ],
 "C100": [
  "partial",
  "Proved: mesh, grading, initial field, boundary conditions in 3D, force = weak form of a constant. False of the code (counterexample theorems): 2D (C100_2d_reads_third_coordinate, C100_2d_throws), the driving direction (C100_force_brakes: force -0.00337 enters the right hand side, so it takes energy out of every flow with positive flow rate), divergence-free start (C100_initial_divergence). Trusted: GridGenerator/GridTools, VectorTools::interpolate."
 ],
 "C101": [
  "partial",
  "Proved: ids, manifolds, boundary conditions, ramp, inflow in 2D and for inlets 1 and 3 in 3D, particle. False of the code: inflow at inlet 2 in 3D (C101_inlet2_3d). Also recorded: C101_pressure_constraint_no_effect. Simplification: the mesh file is represented by the geometric pieces its boundary edges lie on; GridIn, extrude_triangulation and deal.II manifolds are trusted."
 ],
 "C102": [
  "partial",
  "Proved for all runs: no access to data of another mesh, history, second level, initial profile, conformity of concentration and curvature. False of the code: conformity of the chemical potential after adaptations (C102_potential_never_conforming, with the exact law C102_potential_defect_linear) and of the initial concentration on user-refined meshes with adaptive_refinements = 0 (C102_initial_defect_persists). Simplifications: one transfer operator per adaptation for both blocks; level set boundaries with prescribed fluid are left to C73; parallel ghost updates not modelled."
 ],
 "C103": [
  "partial",
  "Proved for all process counts, partitions, kernels and histories: flow solver (all parameters), phase field (if distribute leaves current ghosts), level set (without convection stabilization, legal histories), mixed level set, and front tracking (for vectors that store the entries of ghost cells; see C104_front_fails). False of the code in the cases shown by C103_stabilization_stale, C103_open_projection_stale, C103_adapted_asserts, C103_distribute_matters. Trusted: deal.II's ghost semantics as listed in DESIGN.md."
 ],
 "C104": [
  "partial",
  "Marching cubes and mixed solver with distributed surface mesh: proved for all partitions. Front tracking: proved for all steps that run through; C104_front_fails shows when they do not. Mixed solver with serial surface mesh: the property is false, C104_mixed_replicated_violated gives the factor n. The point search of deal.II (cells around a point among the known cells) and RemotePointEvaluation's delivery are assumed as specified."
 ],
 "C105": [
  "partial",
  "Range of the time: proved for all steps and histories. Progress, termination, at_end iff final, weights, extrapolation: proved whenever all configured steps exceed 200 u max(|start|,|final|); false in general below the resolution (C105_stall_double, C105_end_unnoticed_double). Ticks: proved while (k+5)u <= 1e-11, k < 1e9. Unbounded exponent range (no overflow/underflow/NaN), no int range in at_tick."
 ],
 "C106": [
  "proved",
  "All statements proved. C106_json_unknown_ignored and C106_phase_field_unavailable / C106_micro_particle record the two surprising behaviours that are part of the statement."
 ],
 "C107": [
  "proved",
  "All statements proved for both codes. MPI itself (FIFO per channel, matching by source and tag, truncation error) is modelled, not verified; MPI_Gather is taken as one message per process to process 0 on its own channel."
 ],
 "C108": [
  "proved",
  "Density positive as in C62; at a point of density zero, which the assertion allows, rows of the scratch matrix are skipped and keep the values of another cell (theorem C108_stale_rows). The face integrals themselves are C81; what deal.II does with a local matrix after it is handed over (constraints) is outside the model. Division by zero in the field model only occurs outside the hypotheses of C108_values."
 ],
 "C109": [
  "partial",
  "Proved for ILU, AMG and linear AMG in both branches and for the component-wise ILU without inner solves; false for the component-wise ILU inside the inner solver (C109_inner_componentwise_fails): the inherited vmult is called with vectors dim times as long as the factorization, which aborts in debug mode and leaves all but the first entries of the output unset in release mode. Found by reading; not reported to the authors. PreconditionBase::vmult is deal.II code and modelled from its documentation."
 ],
 "C110": [
  "partial",
  "Proved for all solvers with the fields named in the specification lists flowFields, phaseFieldFields, levelSetFields, mixedFields. Missing, since false of the code: with the projection scheme the pressure block of solution_update is needed in addition (C110_projection_leftover: the first step exchanges the pressure with what this work vector contains, navier_stokes.cc:841-842), and the level set solver needs the normals and curvature of the last step unless its projections are exact (C110_normals_leftover; C110_level_set_step_partial for exact projections). An initial Stokes solve in the further history needs the older velocity too (C110_stokes_leftover). Simplification: cell-wise data, preconditioner matrices and random numbers belong to the scalars on which both runs agree; that cell data are rewritten before use is not part of this claim."
 ],
 "C111": [
  "partial",
  "Proved: the same parameters in every time step and between calls (C111_same_parameters_partial); with variable coefficients residual and matrix of the initial solve are those of the Stokes equations, in every history (C111_variable_coefficients_stokes). False of the code, since matrix and preconditioner are bound to the object of the caller (the constructor argument hides the member): during the initial Stokes solve they see the parameters of the flow problem (C111_stokes_solve_disagrees); with constant coefficients that solve contains inertia and convection (C111_constant_coefficients_time_step, C111_constant_coefficients_inertia); assignments of the caller reach matrix and preconditioner only (C111_caller_change_splits). In the solve with variable coefficients the velocity matrix of the preconditioner is 0/0 (C111_velocity_preconditioner_undefined) and its pressure Laplace matrix zero (C111_pressure_preconditioner_zero)."
 ],
 "C112": [
  "partial",
  "Proved for LevelSetOKZSolver in every history (C112_okz_*), for the sharp-interface solver in every history in which the flow solver below is not set up again or adapted after the construction (C112_sharp_*). False otherwise: the level set solver keeps its own MatrixFree object and vectors of the old mesh while the velocity is on the new one (C112_sharp_stale). Boundary descriptions are copied at construction (C73). Simplification: ghost entries of the layouts and failing allocations are not modelled."
 ],
 "C113": [
  "partial",
  "Proved: hypercubes (C113_hypercube_partial), the assembled matrix on all meshes (C113_projection_matrix), meshes of one level with epsilon >= 1 (C113_single_level_partial), the two implementations of the normals (C113_normal_product). False of the code on simplex meshes with coarser cells: the kernels divide by the template argument -1 (C113_simplex, C113_simplex_below_resolution, C113_simplex_products_differ). C113_factors: damping_scale_factor and the curvature product do not describe the systems that are solved."
 ],
 "C114": [
  "proved",
  "C114_projected_equations (equivalence with explicit shares), C114_same_solutions (balanced data), C114_zero_residual, C114_no_solution_without_balance. The projection scheme and stationary problems are not projected (C28)."
 ],
 "C115": [
  "partial",
  "C115_weak_form_partial (implicit step with unit normals whenever the system exists), C115_system_exists (exact condition), C115_content_conserved, C115_symmetric_positive, C115_diffusion_decays, C115_equilibrium, C115_pseudo_step. Not \"for every level set\": C115_zero_normal shows that for a constant level set that is no pure phase the normals vanish and NaNs are assembled (the matrix-free solver bounds the norm from below)."
 ],
 "C116": [
  "partial",
  "C116_material_values_partial (equal numberings, no prescribed fluid), C116_memory, C116_equal_phases, C116_gravity_partial (what gravity computes), C116_gravity_uniform, C116_gravity_equal_densities. Not in general: update_gravity_force evaluates quadrature 1 of the flow solver (k^dim points) but reads the table of the (k+1)^dim points of quadrature 0 (C116_gravity_top_layer, C116_gravity_layered); other numberings give wrong cells (C116_other_numbering); at boundaries with a prescribed fluid constrained nodes are read as zero (C116_open_boundary)."
 ],
 "C117": [
  "partial",
  "C117_iteration_partial (number of solves, reason of the end), C117_concentration_equation, C117_total_balance, C117_potential_equation (exact Newton remainder). Not in general: NoConvergence of GMRES is caught and the loop ends after max_nl_iteration without any report (C117_silent_failure)."
 ],
 "C118": [
  "partial",
  "C118_nodes_partial (unconstrained nodes: right iff f does not distinguish the place under the default mapping from that of the solver), C118_vertices (degree one: always right), C118_exact, C118_constants. Not in general: curved cells (C118_curved), hanging nodes (C118_hanging_node), simplex mesh with augmented elements (C118_simplex_augmented)."
 ],
 "C119": [
  "proved",
  "Convection enters through the hypothesis that the quadrature of (u.grad phi) phi is non-negative; exact linear solves; whole runs with exact weights (single steps: up to the staleness of the weight); reinitialization between the steps is not included."
 ],
 "C120": [
  "partial",
  "Full statement is false of the code: drivencavity.cc:221-222 returns on ranks > 0 without leaving the section (C120_cavity), and exceptions leave sections entered with enter_subsection active (C120_setup_exception). Proved: every call that returns, every history without escaping exceptions, and the functions that are clean under exceptions. Data are abstracted: every condition may take any value."
 ],
 "C121": [
  "partial",
  "Full statement is false of the code in release mode: Crank-Nicolson and explicit Euler scale the stress (C121_other_schemes), and the projection, semi-implicit and explicit linearizations read evaluators that are never filled (C121_determined_iff); the reader accepts them (C121_release_accepts). Proved for Newton and Picard with implicit Euler or BDF-2: equations, independence of all iterates, fixed points. The linear solver is any function of the system."
 ],
 "C122": [
  "partial",
  "Full statement is false of the code for the level set solver: output before the first step replaces the start vectors of the projections (C122_initial_output_matters). Proved in full for the other solvers; for the level set solver for output after the first step (all histories), and for all output with projections independent of their start vector (histories without change of the mesh)."
 ],
 "C123": [
  "partial",
  "Proved: schedule of the flow clock of two-phase solvers, harmlessness of the remembered residual, corrections without earlier corrections. The full statement is false of the code; C123_flow_second_run_does_nothing, C123_mesh_refined_again, C123_level_set_second_run_asserts, C123_level_set_first_value_wrong, C123_level_set_step_differs and C123_corrections_suppressed show where."
 ],
 "C124": [
  "partial",
  "Proved: the general balance with the production term; Newton's law and conservation for the conservative formulation with constant density. The full statement is false of the code: C124_convective_form_produces, C124_density_produces."
 ],
 "C125": [
  "proved",
  "Flow: residual, matrix, run, nonlinear iteration. Level set: transport step, artificial viscosity, reinitialization, normals, curvature, surface tension and gravity. Phase field: residual and force. The linear solver and preconditioner of the flow are not covered (exact solutions of the linear systems)."
 ],
 "C126": [
  "partial",
  "Clock, flow residual, transport step and pseudo-time step of the reinitialization proved for all units. False for three coefficients of the level set (proved as limits): threshold of the curvature, artificial viscosity, pseudo-time step. Absolute tolerances of the solvers and rounding are not covered."
 ],
 "C127": [
  "proved",
  "Residual, run and linear systems of the nonlinear iteration for exactly represented pressures; the inner linear solver is not covered (same systems). The projection scheme is covered as far as its residual is."
 ],
 "C128": [
  "proved",
  "Residual and solutions of the Stokes equations; the limit theorem shows that the restriction to Stokes is needed."
 ],
 "C129": [
  "partial",
  "All operators of the level set step proved symmetric. False with curvature correction (limit theorem, cf. C50_not_symmetric). The indicator of the negative level set is one minus the indicator by C32_symmetry; the reconstruction of C35 near jumps and rounding are not covered."
 ],
 "C130": [
  "proved",
  "Trusted: deal.II gives every owned unknown on some owned cell, the mapping is continuous (hypotheses of the theorem), extract_constant_modes."
 ]
}