{"id": "C01", "title": "Simulated time never passes the final time", "statement": "Starting from a TimeStepping object with start < final and positive start/min/max step sizes, after any interleaving of set_desired_time_step() calls and of next() calls made while at_end() is false, now() <= final() holds, and at_end() is true exactly when now() == final().", "quantifier": "every parameter set with positive steps, every scheme, every finite call history, every sequence of desired step sizes", "why_tests_cant": "A test replays a handful of step-size histories; the claim is about all of them, including the ones where the 1% end-of-interval snapping interacts with freshly changed step sizes.", "anchors": ["source/time_stepping.cc: TimeStepping::next, set_desired_time_step", "include/adaflo/time_stepping.h: now, final, at_end"]}
{"id": "C02", "title": "Every step advances time and the reported step is the real increment", "statement": "Each call of next() that is made before the end strictly increases now(), makes previous() equal to the old now(), increments step_no() by one, returns now(), and leaves step_size() == now() - previous().", "quantifier": "every reachable state before the end and every following call", "why_tests_cant": "Would need every reachable stepping state, including after arbitrary desired-step histories.", "anchors": ["source/time_stepping.cc: TimeStepping::next", "include/adaflo/time_stepping.h: step_size, previous, step_no"]}
{"id": "C03", "title": "The time loop terminates and hits the final time exactly", "statement": "For every sequence of desired step sizes supplied between steps, the loop 'while (!at_end()) { set_desired_time_step(d_i); next(); }' with minimal step m>0 ends after at most floor((final-start)/m)+2 calls of next(), and it ends with now() == final().", "quantifier": "every parameter set with 0<min<=max and start<final, every infinite sequence of desired step sizes", "why_tests_cant": "Termination for all schedules of desired steps is not observable on finitely many runs.", "anchors": ["source/time_stepping.cc: next, set_desired_time_step"]}
{"id": "C04", "title": "Step sizes respect the configured limits", "statement": "After set_desired_time_step(d) the step size lies in [min,max] (if min<=max), and unless the [min,max] clamp or the first step interferes it changes by at most a factor two and equals d when d is within these limits; the step actually taken by a following next() is at most 1.01 times the requested step (only a final snapped step may exceed it) and a final step is never shorter than 1% of the preceding one.", "quantifier": "every state, every desired value, every parameter set with min<=max", "why_tests_cant": "Bounds over a continuum of desired values and states.", "anchors": ["source/time_stepping.cc: next, set_desired_time_step"]}
{"id": "C05", "title": "Time derivative weights differentiate polynomials exactly", "statement": "Whenever the step size is not changed from outside, weight()*u(now)+weight_old()*u(previous)+weight_old_old()*u(the time level before) equals u'(now), up to the relative tolerance 1e-12 by which weight() is allowed to be stale, for every polynomial u of degree <= 2 with bdf_2 from the second step on (including the shortened last step) and of degree <= 1 for the one-step schemes and the first bdf_2 step. If the step is changed with set_desired_time_step(), old_step_size() reports the new desired step instead of the last increment. In a run with constant steps weight() is the exact weight of the step sizes in every step before the end.", "quantifier": "all polynomials, all step sizes and step numbers, all end times", "why_tests_cant": "Consistency is an identity over all step sizes and all polynomials; tests see a convergence rate on one mesh.", "anchors": ["source/time_stepping.cc: next (weights)", "include/adaflo/time_stepping.h: weight, weight_old, weight_old_old, old_step_size"]}
{"id": "C06", "title": "Extrapolation to the new time level", "statement": "extrapolate(u(t_{n-1}),u(t_{n-2})) always reproduces constants, equals u(t_{n-1}) in the first two steps, and from the third step on reproduces every function affine in time exactly when the step size has not been changed from outside.", "quantifier": "all affine functions, all reachable states", "why_tests_cant": "Identity over all values and step sizes.", "anchors": ["source/time_stepping.cc: next (factor_extrapol_old)", "include/adaflo/time_stepping.h: extrapolate"]}
{"id": "C07", "title": "restart() replays the original run", "statement": "For any history (including incomplete runs), after restart() the sequence of values of now(), step_size(), step_no(), old_step_size(), at_end() and the extrapolation factors produced by any further calls is identical to the one of a newly constructed object, if the time interval is not degenerate; the differentiation weights are replayed too (weight() up to the relative tolerance 1e-11 caused by its caching), except weight_old_old() in the first step of bdf_2, which keeps the value of the old run.", "quantifier": "every history before restart() and every continuation after it", "why_tests_cant": "Quantifies over pairs of unbounded call histories.", "anchors": ["source/time_stepping.cc: restart, next, constructors"]}
{"id": "C08", "title": "Output ticks are hit exactly once per interval for aligned steps", "statement": "at_tick(T) is true at the end of the run; with start time 0, constant step dt and T = n*dt it is true exactly at the steps whose number is a multiple of n (up to 1e10 steps); for arbitrary steps, when at_tick returns true before the end, now() is at most 0.95 of a step after a multiple of the tick, and when a multiple of the tick was passed during the step it can be reported false only if the multiple lies within the first 5% of the step.", "quantifier": "all step sizes, tick multiples, step numbers, all times and ticks >0", "why_tests_cant": "The truncation/rounding guard constants interact with every time value; tests sample few.", "anchors": ["source/time_stepping.cc: at_tick"]}
{"id": "C09", "title": "Boundary registration touches only the given boundary id and keeps the last value", "statement": "For any sequence of set_velocity_dirichlet_boundary / set_open_boundary / set_open_boundary_with_normal_flux / set_no_slip_boundary / set_symmetry_boundary / set_periodic_direction / fix_pressure_constant calls, the condition stored for an id is determined by the calls for this id alone, the last of the calls of a kind wins, and conditions of other ids are unaffected.", "quantifier": "all call sequences, all ids", "why_tests_cant": "All sequences of configuration calls.", "anchors": ["source/flow_base_algorithm.cc: set_* functions", "include/adaflo/flow_base_algorithm.h: BoundaryDescriptor"]}
{"id": "C10", "title": "Clearing boundary conditions returns to an empty description", "statement": "After clear_all_boundary_conditions() no velocity, pressure, symmetry or no-slip condition survives; (documented as deleting all stored boundary descriptions) fluid types and periodic directions should not survive either.", "quantifier": "all configuration histories", "why_tests_cant": "All histories; the surviving members are not visible in the tests shipped.", "anchors": ["source/flow_base_algorithm.cc: clear_all_boundary_conditions"]}
{"id": "C11", "title": "Setup rejects exactly the contradictory boundary ids", "statement": "initialize_data_structures() reports an error if and only if some boundary id used by a periodic pair, symmetry, Dirichlet, no-slip, or open condition is also used by another kind in one of the combinations that are documented as conflicting; a configuration in which every id has one kind is accepted.", "quantifier": "all boundary configurations", "why_tests_cant": "Exhaustive over all sets of ids per kind.", "anchors": ["source/navier_stokes.cc: initialize_data_structures"]}
{"id": "C12", "title": "Accepted parameter files yield consistent parameters", "statement": "Whenever parsing finishes without an exception: stokes flow has density 0 and density_diff 0, a positive two-phase entry overrides the single phase one, damping is the negated entry, the convection parameter beta is 1, 0 or 1/2 according to the form selected, tau_grad_div >= 0, epsilon and diffusion length are positive, printing level is at most 2, and a minimal step above the start step collapses min=max=start.", "quantifier": "all parameter entries", "why_tests_cant": "Input space of parameter files is unbounded.", "anchors": ["source/parameters.cc: parse_parameters"]}
{"id": "C13", "title": "Output file names never collide", "statement": "For a fixed base name, two output calls produce the same piece file name only if they have the same cycle number and the same rank, and the master record written by rank 0 lists exactly the base names of the piece files written by the ranks, each once.", "quantifier": "all cycle numbers, rank counts, base names and digit widths", "why_tests_cant": "Collisions could appear for cycle numbers beyond the padding width or for any number of ranks.", "anchors": ["source/flow_base_algorithm.cc: write_data_output"]}
{"id": "C14", "title": "Outputs at successive ticks get successive cycle numbers", "statement": "An output written at time k*frequency (k natural, up to a deviation below 0.49 periods) gets cycle number k, so outputs at different ticks never overwrite each other; an output forced by reaching the final time between two ticks may reuse the previous number.", "quantifier": "all frequencies > 0 and all k", "why_tests_cant": "All k and frequencies.", "anchors": ["source/flow_base_algorithm.cc: write_data_output"]}
{"id": "C15", "title": "Diagonal preconditioner is the guarded inverse of the diagonal", "statement": "After reinit(d), vmult multiplies entry i by 1/d_i if |d_i| exceeds 1e-10 times the largest magnitude, otherwise leaves it unchanged; it never divides by zero, is linear, keeps the sign of well-scaled entries and inverts componentwise multiplication with d on these entries.", "quantifier": "all diagonals and vectors of any length, scalar and block form", "why_tests_cant": "All vectors.", "anchors": ["source/diagonal_preconditioner.cc: reinit, vmult", "include/adaflo/diagonal_preconditioner.h"]}
{"id": "C16", "title": "Diagonal preconditioner mode follows the last reinit", "statement": "After reinit with a vector, block vmult applies the same scalar inverse to every block; after reinit with a block vector, each block is scaled with its own inverse; a previous mode never leaks through.", "quantifier": "all reinit histories", "why_tests_cant": "All histories of reinit calls.", "anchors": ["source/diagonal_preconditioner.cc: reinit, vmult"]}
{"id": "C17", "title": "Component-wise ILU applies the scalar operator per component independent of numbering", "statement": "ComponentILU multiply computes, for any one-to-one map between (scalar index, component) and vector index, the operator that acts on each component by the scalar inverse, writes every entry exactly once, and commutes with renumbering.", "quantifier": "all operators, sizes, components and numberings", "why_tests_cant": "All permutations.", "anchors": ["include/adaflo/block_matrix_extension.h: ComponentILUExtension::multiply", "source/navier_stokes_preconditioner.cc: initialize_matrices (scalar_dof_indices)"]}
{"id": "C18", "title": "Sub-element index tables are complete and in range", "statement": "For every polynomial degree and dimension 1,2,3 the quadrature table of the linear sub-elements is a bijection onto all iterated quadrature points, the dof table stays within the element's dofs, every dof is covered, neighbouring sub-elements share exactly their common corners, and dof (k,j,i) of sub-element (x,y,z) is lattice point (x+k,y+j,z+i).", "quantifier": "all degrees >= 1", "why_tests_cant": "Shipped tests use degrees up to 5; the index arithmetic must hold for all.", "anchors": ["source/navier_stokes_preconditioner.cc: get_indices_sub_elements, get_indices_sub_quad"]}
{"id": "C19", "title": "Pressure Poisson product leaves its input intact and treats pinned dofs diagonally", "statement": "PressurePoissonMatrix::vmult returns with the input vector unchanged; pinned dofs get diagonal times input, all other entries are the Poisson operator applied to the input with pinned entries replaced by zero.", "quantifier": "all vectors, operators, all duplicate-free pin lists", "why_tests_cant": "All vectors and pin lists.", "anchors": ["source/navier_stokes_preconditioner.cc: PressurePoissonMatrix::vmult"]}
{"id": "C20", "title": "Block preconditioner inverts the block-triangular matrix", "statement": "With exact inner solvers for velocity block A and pressure Schur complement S, one application of the Navier-Stokes preconditioner to (f,g) returns (u,p) with A u = f and B u - S p = g, i.e. is the inverse of the block-triangular matrix; on the time dependent path the Schur inverse is the sum of the mass and (if density>0) Poisson inverses.", "quantifier": "all linear operators and right-hand sides", "why_tests_cant": "Operator identity.", "anchors": ["source/navier_stokes_preconditioner.cc: NavierStokesPreconditioner::vmult, solve_pressure_mass"]}
{"id": "C21", "title": "Applying the velocity or pressure operators leaves the linearization data intact", "statement": "velocity_vmult, pressure_poisson_vmult and pressure_mass_vmult are observably const: the linearized velocities, densities, viscosities and damping fields used by vmult/residual are the same after as before, and the product uses the frozen fields if they exist.", "quantifier": "all buffer states and all sequences of products", "why_tests_cant": "All sequences of calls and buffer states; the violation needs a preconditioner type whose frozen copy is empty.", "anchors": ["source/navier_stokes_matrix.cc: velocity_vmult, pressure_poisson_vmult, pressure_mass_vmult, fix_linearization_point"]}
{"id": "C22", "title": "Cahn-Hilliard block preconditioner inverts its reference matrix", "statement": "With exact inner solves with M + c K, the two-solve block preconditioner is the exact inverse of [[M + 2cK, mK], [-fK, M]] where c = sqrt(m f) and factor = sqrt(m/f).", "quantifier": "all linear operators M, K with invertible M+cK, all right-hand sides", "why_tests_cant": "Operator identity over all spaces.", "anchors": ["source/phase_field.cc: BlockPreconditionerSimple::vmult, solve_cahn_hilliard"]}
{"id": "C23", "title": "Linear solver respects the iteration budget", "statement": "solve_system never spends more than max_lin_iteration outer iterations in total over the cheap and the strong attempt, uses the strong attempt only after the cheap one failed and only if budget is left, and reports the sum of both counts and the residual of the attempt that ran last.", "quantifier": "all budgets and all behaviours of the iterative solvers", "why_tests_cant": "All solver behaviours including failures at any iteration.", "anchors": ["source/navier_stokes.cc: solve_system"]}
{"id": "C24", "title": "Nonlinear iteration: normal return means converged", "statement": "If evaluation of a coupled implicit step returns normally for Newton/Picard, the residual at the returned solution is below the tolerance (or the loop ran a single iteration for linear variants); at most max_nl_iteration iterations are made; otherwise the no-convergence exception is raised.", "quantifier": "all residual histories, tolerances and iteration limits", "why_tests_cant": "All residual histories.", "anchors": ["source/navier_stokes.cc: solve_nonlinear_system, evaluate_time_step"]}
{"id": "C25", "title": "Preconditioner rebuild policy", "statement": "Within one time step the preconditioner is rebuilt before the first linear solve if scheduled, at most once more prematurely unless stationary, and it always exists when a linear solve starts.", "quantifier": "all residual histories, frequencies and step numbers", "why_tests_cant": "All schedules.", "anchors": ["source/navier_stokes.cc: solve_nonlinear_system"]}
{"id": "C26", "title": "Initial Stokes solve restores the flow parameters", "statement": "compute_initial_stokes_field leaves physical type, density and velocity preconditioner type as they were before the call.", "quantifier": "all parameter settings and all solver outcomes", "why_tests_cant": "Requires every outcome including exceptions.", "anchors": ["source/navier_stokes.cc: compute_initial_stokes_field"]}
{"id": "C27", "title": "Solution history holds the last accepted time levels", "statement": "After every advance, solution_old and solution_old_old of the flow (and of the phase indicator) hold the solutions accepted at the two previous time levels, for any results of the solves; the start value of the next solve is the extrapolation of these and exact for solutions affine in time.", "quantifier": "all sequences of steps and solver results", "why_tests_cant": "All execution histories.", "anchors": ["source/navier_stokes.cc: init_time_advance", "source/two_phase_base.cc: init_time_advance", "include/adaflo/sharp_interface.h: LevelSetSolver::solve"]}
{"id": "C28", "title": "Pressure average projection", "statement": "apply_pressure_average_projection yields a vector with zero weighted mean for the constant mode, is idempotent and linear, and changes the vector only by a multiple of the mode; it does nothing in the cases where the pressure level is fixed otherwise.", "quantifier": "all vectors, modes and weights with nonzero pairing", "why_tests_cant": "All vectors.", "anchors": ["source/navier_stokes_matrix.cc: apply_pressure_average_projection, apply_pressure_shift, initialize"]}
{"id": "C29", "title": "Newton linearization is the exact Jacobian", "statement": "At every quadrature point the operator used in vmult with Newton linearization equals the derivative of the residual: residual(u+d)-residual(u) = vmult(d) + the quadratic remainder rho*tau1*((d.grad)d + beta div(d) d), for all forms (convective, conservative, skew-symmetric), coefficients, time weights.", "quantifier": "all velocity/pressure values and gradients, coefficients, dimension", "why_tests_cant": "Identity over all states.", "anchors": ["source/navier_stokes_matrix.cc: local_operation"]}
{"id": "C30", "title": "Constrained degrees of freedom act as identity", "statement": "In all operator products the entries of constrained dofs are the input entries (with a minus sign for the pressure block of the coupled product), independent of the rest of the vector.", "quantifier": "all vectors and constraint sets", "why_tests_cant": "All vectors and index sets.", "anchors": ["source/navier_stokes_matrix.cc: vmult, velocity_vmult, pressure_*_vmult"]}
{"id": "C31", "title": "Material fields stay between the two phase values", "statement": "Density and viscosity handed to the flow solver lie between the values of the two phases for every level set / phase field value, in the level set solver, the phase field solver and the front tracking solver.", "quantifier": "all level-set values incl. over- and undershoots, all phase values", "why_tests_cant": "All nodal values.", "anchors": ["source/level_set_okz.cc: local_compute_force", "source/phase_field_local.cc: local_compute_force", "source/phase_field.cc: compute_density_on_faces", "include/adaflo/sharp_interface.h: update_phases"]}
{"id": "C32", "title": "Smoothed Heaviside function", "statement": "discrete_heaviside is 0 left of -2 and 1 right of 2, continuous, nondecreasing, in [0,1], satisfies H(-x)=1-H(x), and its derivative is discrete_delta.", "quantifier": "all reals", "why_tests_cant": "Continuity/monotonicity over the reals.", "anchors": ["include/adaflo/level_set_base.h: discrete_heaviside, discrete_delta"]}
{"id": "C33", "title": "Smoothed delta function", "statement": "discrete_delta is even, nonnegative, supported in [-2,2], its translates by integers sum to one (also over even/odd translates to one half) and the square roots never get negative arguments.", "quantifier": "all reals", "why_tests_cant": "All reals.", "anchors": ["include/adaflo/level_set_base.h: discrete_delta"]}
{"id": "C34", "title": "Cutoff function", "statement": "cutoff_function is 1 up to its inner radius, 0 beyond the outer radius, in [0,1], continuous and nonincreasing.", "quantifier": "all reals", "why_tests_cant": "All reals.", "anchors": ["include/adaflo/level_set_base.h: cutoff_function"]}
{"id": "C35", "title": "Heaviside reconstruction from the level set is monotone and order independent", "statement": "The nodal Heaviside value written by compute_heaviside depends only on the nodal level set value (not on which of the adjacent cells is visited last), is 0/1 far away from the interface and a nondecreasing function of the level set value.", "quantifier": "all level set values, cell visiting orders and parameters", "why_tests_cant": "All visiting orders and values.", "anchors": ["source/level_set_okz.cc: compute_heaviside"]}
{"id": "C36", "title": "Bubble area fractions", "statement": "The area fraction attributed to a sub-cell by the 2D bubble statistics lies in [0,1], is 0/1 for cells entirely on one side, equals the area of the cut polygon, and the fractions for phi and -phi add up to one, except in the saddle configuration.", "quantifier": "all four-corner level-set values", "why_tests_cant": "All real corner values.", "anchors": ["source/two_phase_base.cc: compute_bubble_statistics"]}
{"id": "C37", "title": "Sub-cell weights form a partition", "statement": "The weights distributing a cell's quadrature weights to its n x n sub-cells sum to the total cell weight for every n.", "quantifier": "all subdivisions n", "why_tests_cant": "All n.", "anchors": ["source/two_phase_base.cc: compute_bubble_statistics"]}
{"id": "C38", "title": "Interface points are gathered completely and in rank order", "statement": "After the parallel gather rank 0 holds exactly the concatenation of the interface segments of all ranks in rank order, decoded bit-identically, and the other ranks hold none.", "quantifier": "all numbers of ranks and all per-rank lists", "why_tests_cant": "All distributions over ranks.", "anchors": ["source/two_phase_base.cc: compute_bubble_statistics"]}
{"id": "C39", "title": "Refinement marking keeps levels within bounds", "statement": "Marking never sets both flags on a cell, never flags a cell at the maximal level for refinement nor one at the base level for coarsening, so that levels stay in [base, base+adaptive_refinements] in all adaptation histories; the returned flag is true on all ranks iff some rank flagged a cell.", "quantifier": "all indicator values, levels, ranks and adaptation histories", "why_tests_cant": "All histories.", "anchors": ["source/two_phase_base.cc: mark_cells_for_refinement", "source/level_set_base.cc: mark_cells_for_refinement", "source/phase_field.cc: mark_cells_for_refinement", "source/navier_stokes.cc: prepare_coarsening_and_refinement"]}
{"id": "C40", "title": "Level set and flow clocks stay synchronous", "statement": "After every time step the internal clock of the level set transport shows the same time and step size as the flow solver's clock, for any adaptive step sequence.", "quantifier": "all step-size sequences", "why_tests_cant": "All schedules.", "anchors": ["source/level_set_okz_advance_concentration.cc: advance_concentration", "source/level_set_okz.cc: constructor", "source/time_stepping.cc"]}
{"id": "C41", "title": "Reinitialization clock", "statement": "The clock driven by reinitialize() shows the same time as the flow solver's clock and is never advanced past the final time.", "quantifier": "all run lengths and numbers of initial/corrective reinitializations", "why_tests_cant": "All run lengths.", "anchors": ["source/level_set_okz_reinitialization.cc: reinitialize", "source/level_set_base.cc: advance_time_step"]}
{"id": "C42", "title": "Collected surface quadrature points are grouped without loss", "statement": "collect_integration_points / collect_evaluation_points return cell, pointer, weight and point arrays in which every located (point, weight) pair appears exactly once per containing cell, grouped by cell with strictly increasing cell ids and consistent pointers.", "quantifier": "all point sets and location results", "why_tests_cant": "All inputs.", "anchors": ["include/adaflo/sharp_interface_util.h: collect_integration_points, collect_evaluation_points"]}
{"id": "C43", "title": "Total surface force is conserved by the distribution to cells", "statement": "The sum of the weights assigned to background cells equals the sum of surface quadrature weights.", "quantifier": "all surface meshes", "why_tests_cant": "All point positions, including points on faces shared by cells and points outside of the mesh.", "anchors": ["include/adaflo/sharp_interface_util.h: collect_integration_points"]}
{"id": "C44", "title": "Surface tension force is proportional to the surface tension coefficient", "statement": "In each sharp interface variant scaling the surface tension coefficient by s scales the submitted force by s.", "quantifier": "all coefficients, curvatures, normals", "why_tests_cant": "All values.", "anchors": ["include/adaflo/sharp_interface_util.h: compute_force_vector_sharp_interface (3 overloads), compute_force_vector_regularized"]}
{"id": "C45", "title": "Cahn-Hilliard product is the exact Jacobian of the residual", "statement": "At each quadrature point (volume and contact-angle faces) residual(c+d, w+v)-residual(c,w) = vmult(d,v) + remainder of order d^2, with the remainder only in the double-well and contact terms.", "quantifier": "all states and coefficients", "why_tests_cant": "Identity.", "anchors": ["source/phase_field_local.cc: local_residual, local_vmult, apply_contact_bc"]}
{"id": "C46", "title": "Initial interface profiles are equilibria", "statement": "The profile set by the phase field solver's transform_distance_function has zero chemical potential, and the one of the level set solvers is a fixed point of the reinitialization equation, for a plane interface.", "quantifier": "all positions, interface widths, surface tensions", "why_tests_cant": "All reals.", "anchors": ["source/phase_field.cc: transform_distance_function", "source/phase_field_local.cc: local_residual", "source/level_set_okz.cc: transform_distance_function", "source/level_set_okz_reinitialization.cc: local_reinitialize_rhs"]}
{"id": "C47", "title": "Parallel cell size computation is partition independent", "statement": "compute_cell_diameters returns, on all ranks, the same smallest and largest (finest level) cell size for every distribution of the cells to ranks.", "quantifier": "all meshes and partitions", "why_tests_cant": "All partitions.", "anchors": ["include/adaflo/util.h: compute_cell_diameters"]}
{"id": "C48", "title": "Adaptive step formula", "statement": "With adaptive stepping the desired step is the minimum of the convective and capillary limits built from density and surface tension, and never leaves [min,max].", "quantifier": "all velocities and parameters", "why_tests_cant": "All values.", "anchors": ["source/two_phase_base.cc: set_adaptive_time_step"]}
{"id": "C49", "title": "Reinitialization step count", "statement": "reinitialize performs between 1 and diff_steps(+3)+stab_steps pseudo-time steps, computes the normal exactly once per call at the start of the stabilised phase, and stops early only if the update is below the tolerance.", "quantifier": "all update histories", "why_tests_cant": "All histories.", "anchors": ["source/level_set_okz_reinitialization.cc: reinitialize"]}
{"id": "C50", "title": "Curvature correction", "statement": "With curvature correction, a node at signed distance d from a sphere of radius R whose computed curvature is that of its own level set gets exactly the curvature of the zero level set; flat regions are unchanged.", "quantifier": "all radii and distances", "why_tests_cant": "All values.", "anchors": ["source/level_set_okz_compute_curvature.cc: compute_curvature"]}
{"id": "C51", "title": "Pressure pinning picks a free boundary dof, the same on all ranks", "statement": "When the pressure constant is fixed on a boundary, exactly one pressure dof is pinned in the Schur complement: the smallest unconstrained pressure dof on that boundary over all ranks, all ranks agree on it, and an error is raised if no boundary dof is available.", "quantifier": "every distribution of boundary dofs to ranks, every constraint set", "why_tests_cant": "Depends on the mesh partition and on which boundary dofs are hanging or constrained; a test sees a few partitions.", "anchors": ["source/navier_stokes_preconditioner.cc: initialize_matrices (fix_pressure_constant part)"]}
{"id": "C52", "title": "Cahn-Hilliard preconditioner belongs to the current time step weight", "statement": "Whenever the Cahn-Hilliard system is solved, the matrix behind its preconditioner was assembled with the time step weight of the step being solved, for every sequence of requested step sizes and mesh adaptations.", "quantifier": "all histories of time steps, requested step sizes and mesh changes", "why_tests_cant": "The reuse decision depends on the whole history of step sizes.", "anchors": ["source/phase_field.cc: advance_cahn_hilliard, create_cahn_hilliard_preconditioner, distribute_dofs"]}
{"id": "C53", "title": "Cahn-Hilliard step conserves the total concentration", "statement": "If the constant is among the test functions and the discrete convection term has zero integral, a solution of the discrete Cahn-Hilliard equations has the same total concentration as the old time levels (up to the relative tolerance below which a changed time weight is not recomputed).", "quantifier": "all discrete spaces, step-size histories and coefficients", "why_tests_cant": "All histories of step sizes and all solutions.", "anchors": ["source/phase_field_local.cc: local_residual", "source/time_stepping.cc: next"]}
{"id": "C54", "title": "Surface mesh is transported for the simulated time", "statement": "In the front-tracking and mixed solvers the surface mesh has at any time been moved for exactly the time shown by the flow clock: every surface node moves, in each step, by the velocity at its position times the time the flow solver advances, and in a uniform flow the surface is at every time where the flow has carried it.", "quantifier": "all admissible time parameters, step-size request histories, velocity fields, surface meshes", "why_tests_cant": "the relation of two accumulated quantities over all run lengths and request histories", "anchors": ["include/adaflo/sharp_interface.h: FrontTrackingSolver::advance_time_step, move_surface_mesh", "source/time_stepping.cc: next"]}
{"id": "C55", "title": "External force of a step holds nothing of earlier steps", "statement": "In the front tracking solver, after compute_force the user right hand side of the flow solver is gravity with the density of the current interface position plus the surface tension of the current surface, zero at constrained entries; neither forces nor material values of earlier steps enter. Without constraints its sum is the weight of the two fluids plus the sum of the surface forces.", "quantifier": "all numbers of steps, interface positions, meshes and surface quadrature points", "why_tests_cant": "The absence of left-overs is a statement about all histories.", "anchors": ["include/adaflo/sharp_interface.h: FrontTrackingSolver::update_phases, update_gravity_force, update_surface_tension", "include/adaflo/sharp_interface_util.h: compute_force_vector_sharp_interface"]}
{"id": "C56", "title": "Surface tension force is independent of the orientation", "statement": "Reversing the orientation of the surface mesh, or exchanging the two phases (sign of the level set), leaves the surface tension force unchanged.", "quantifier": "all normals, curvatures and surface tensions", "why_tests_cant": "All values.", "anchors": ["include/adaflo/sharp_interface_util.h: compute_force_vector_sharp_interface, compute_normal, compute_curvature"]}
{"id": "C57", "title": "Every surface node is moved exactly once per step", "statement": "Moving the surface mesh displaces every node by dt times the velocity at its old position, however many surface cells share it and in whichever order they are visited.", "quantifier": "all surface meshes, velocity fields and visiting orders", "why_tests_cant": "All meshes and orders.", "anchors": ["include/adaflo/sharp_interface_util.h: VectorTools::update_position_vector"]}
{"id": "C58", "title": "Reported cell sizes are bounded by the stretching of the cell", "statement": "The sizes reported by compute_cell_diameters lie between the smallest and the largest stretching factor of the mapping, and equal the cell extents for cells with locally aligned axes.", "quantifier": "all Jacobian matrices", "why_tests_cant": "All matrices.", "anchors": ["include/adaflo/util.h: compute_cell_diameters"]}
{"id": "C59", "title": "Steady flows are preserved by the time stepping", "statement": "If a velocity and pressure satisfy the stationary equations and both old time levels equal them, they satisfy the equations of every time step of implicit Euler and BDF-2, for all linearizations and step size histories.", "quantifier": "all states, coefficients, step-size histories and linearizations", "why_tests_cant": "All histories and fields.", "anchors": ["source/navier_stokes_matrix.cc: local_operation", "source/time_stepping.cc: TimeStepping, next"]}
{"id": "C60", "title": "Kinetic energy does not grow in a closed system", "statement": "With the skew-symmetric form, no forcing and no flow through the boundary, the kinetic energy does not grow in a step of implicit Euler, nor its two-level analogue in a BDF-2 step of unchanged size - for every step size, viscosity, mesh and non-negative damping parameter, also if the discrete velocity is not divergence-free. Over a whole run the kinetic energy never exceeds the initial one (implicit Euler), its two-level analogue never exceeds its value after the first step (BDF-2 with constant steps), and in a complete BDF-2 run including the cut last step the kinetic energy never exceeds ten times the initial one.", "quantifier": "all discrete spaces, fields, coefficients, reachable clock states", "why_tests_cant": "Unconditional stability is a statement about all step sizes and fields.", "anchors": ["source/navier_stokes_matrix.cc: local_operation", "source/time_stepping.cc: next", "source/parameters.cc: damping"]}
{"id": "C61", "title": "Velocity preconditioner matrix represents the linearized operator", "statement": "Every entry of the assembled velocity preconditioner matrix is a finite number and equals that of the component-diagonal velocity block of the linearized operator for the convective form without grad-div stabilization.", "quantifier": "all shape functions, coefficients, linearization points and accepted parameters", "why_tests_cant": "All coefficient values, including the boundary value zero.", "anchors": ["source/navier_stokes_preconditioner.cc: local_assemble_preconditioner", "source/parameters.cc: parse_parameters", "source/navier_stokes.cc: compute_initial_stokes_field"]}
{"id": "C62", "title": "Pressure preconditioner matrices are symmetric and definite", "statement": "The pressure Laplace matrix is symmetric positive semi-definite with exactly the constants (functions without gradient) in its kernel and represents 1/(density*weight) grad-grad; the mass matrix represents 1/(viscosity+grad-div).", "quantifier": "all meshes, shape functions and positive coefficients", "why_tests_cant": "All matrices.", "anchors": ["source/navier_stokes_preconditioner.cc: local_assemble_preconditioner"]}
{"id": "C63", "title": "Inner linear tolerances fit the nonlinear tolerance", "statement": "Each linear solve of a time step is asked for a tolerance that is the given absolute one, or, in relative mode, half the nonlinear tolerance for the linear variants and, for Newton and Picard, the given factor times the current nonlinear residual, limited from below by half the nonlinear tolerance and from above by the factor. Hence one solve of a linear variant ends below the nonlinear tolerance whenever the linear solver converges.", "quantifier": "all residual histories, tolerances, numbers of iterations and linear solver behaviours", "why_tests_cant": "All histories of residuals.", "anchors": ["source/navier_stokes.cc: solve_nonlinear_system"]}
{"id": "C64", "title": "A transport step of the level set solves the discrete transport equation", "statement": "After one advance of the level set with an exact linear solve, the new level set satisfies the discretized transport equation (time derivative with the weights of the clock, convection with the given velocity, artificial diffusion with boundary terms when stabilization is on) for every admissible test function, and equals the prescribed value at every Dirichlet unknown; the residual after any increment is the residual before minus the matrix-free product.", "quantifier": "every mesh, finite element, set of hanging node and Dirichlet constraints, velocity, viscosity, old levels, clock state, step request and start vector", "why_tests_cant": "A run checks one mesh, velocity and history; that residual and matrix-free product belong to the same equation, with constraints and boundary faces, is an identity over all of them.", "anchors": ["source/level_set_okz_advance_concentration.cc: advance_concentration, local_advance_concentration, local_advance_concentration_rhs, advance_concentration_vmult"]}
{"id": "C65", "title": "Level set transport conserves the content and keeps constants", "statement": "Each transport step satisfies a discrete balance of the integral of the level set; without artificial flux through the boundary (no stabilization, or only symmetry boundaries) and for a discretely divergence free velocity tangential at the boundary the content is conserved in each step up to 1e-11 relative and exactly in any number of steps with exact weights (constant steps), and a constant level set stays constant for every velocity and viscosity.", "quantifier": "all meshes with hanging nodes, velocities, viscosities, step requests, schemes and numbers of steps", "why_tests_cant": "Conservation over all step sequences and meshes is an invariant; tests see a drift only above a tolerance.", "anchors": ["source/level_set_okz_advance_concentration.cc: advance_concentration", "source/time_stepping.cc: next"]}
{"id": "C66", "title": "Artificial viscosity of the level set transport is bounded", "statement": "The entropy-type artificial viscosity of a cell is a number between zero and 0.03 |u_old+u_old_old|_max h (so at most 0.06 V h), vanishes where both old levels satisfy the transport equation, and is defined in every step.", "quantifier": "all velocities, level sets, time step sizes (also zero in the first step), cell sizes, SIMD and scalar arithmetic", "why_tests_cant": "Whether a quotient of maxima is finite and bounded for every field needs an argument over all fields, including those with zero velocity.", "anchors": ["source/level_set_okz_advance_concentration.cc: local_advance_concentration_rhs (artificial viscosity), get_maximal_velocity"]}
{"id": "C67", "title": "Reinitialization conserves the content of the level set", "statement": "With exact linear solves, any sequence of diffusive and compressive pseudo-time steps keeps the integral of the level set. Over a whole run of transport steps followed by reinitialization on a fixed mesh the integral of the level set stays the initial one.", "quantifier": "all meshes with hanging nodes, numbers and orders of steps, normals, diffusion coefficients and pseudo-time steps", "why_tests_cant": "Conservation for every sequence is an invariant; a test sees one sequence up to tolerance.", "anchors": ["source/level_set_okz_reinitialization.cc: reinitialize, local_reinitialize, local_reinitialize_rhs"]}
{"id": "C68", "title": "Reinitialization steps: weak form, symmetric positive matrix, decay and equilibrium", "statement": "Each step solves the stated compressive/diffusive weak form; its matrix is symmetric and positive; diffusive steps never increase the L2 norm; the target profile is left unchanged; stored normals are at most of length one; the pseudo-time step is positive and bounded by five time steps and by the mesh size.", "quantifier": "all meshes, level sets, normals, coefficients", "why_tests_cant": "Symmetry/positivity over all vectors (so that conjugate gradients may be used) and monotone decay are universal statements.", "anchors": ["source/level_set_okz_reinitialization.cc: local_reinitialize, local_reinitialize_rhs, reinitialization_vmult"]}
{"id": "C69", "title": "Projection of the normals is stable and exact for linear level sets", "statement": "The damped L2 projection computes the same product on free unknowns matrix-free and assembled if both use the same damping (which one they use is C113); its solution is bounded by the data in L2; constants, hence normals of level sets with constant gradient, are reproduced exactly, whatever the damping.", "quantifier": "all meshes with hanging nodes, level sets and damping coefficients", "why_tests_cant": "Equality of assembled and matrix-free operators for all meshes/constraints, and stability over all data, are universal.", "anchors": ["source/level_set_okz_compute_normal.cc: compute_normal, local_compute_normal, local_compute_normal_rhs", "source/level_set_okz_preconditioner.cc: initialize_projection_matrix"]}
{"id": "C70", "title": "Curvature from nodal unit normals", "statement": "Nodal normals have length one or zero; the curvature right hand side does not depend on the batching of cells (vectorization width); flat interfaces have zero curvature; the total curvature is minus the integral of the divergence of the unit normals; exchanging the phases reverses the sign.", "quantifier": "all meshes, gradients, groupings of cells into batches", "why_tests_cant": "Independence of the batching and exactness hold for every grouping and field or not at all.", "anchors": ["source/level_set_okz_compute_curvature.cc: compute_curvature, local_compute_curvature_rhs, compute_curvature_vmult"]}
{"id": "C71", "title": "A fluid at rest stays at rest: surface tension and gravity are balanced by the pressure", "statement": "With the force evaluated in the pressure space (grad pressure compatible), a constant curvature and a density whose weight is the gradient of a discrete pressure give exactly zero momentum residual for the fluid at rest; the pressure jumps by surface tension times curvature between the phases; the hydrostatic pressure balances gravity for equal densities. The values handed to the pressure element are those of the level set function at the pressure nodes (zero for the piecewise constant part of augmented elements), so on meshes without hanging nodes they belong to one pressure of the pressure space, which balances the forces; at hanging nodes with more subdivisions than pressure degrees this is lost.", "quantifier": "all meshes, Heaviside fields, curvatures, test functions, surface tension, gravity and density values", "why_tests_cant": "The balance is an exact identity of discrete spaces for every mesh and interface position; runs only show small spurious currents.", "anchors": ["source/level_set_okz.cc: LevelSetOKZSolver::local_compute_force, compute_force", "source/navier_stokes_matrix.cc: local_operation", "source/level_set_base.cc: LevelSetBaseAlgorithm::LevelSetBaseAlgorithm; source/phase_field.cc: PhaseFieldSolver::PhaseFieldSolver (interpolation_concentration_pressure)"]}
{"id": "C72", "title": "Transport step of the matrix-based level set solver solves the conservative transport equation", "statement": "A step of the matrix-based level set solver solves the BDF/implicit weak form of the conservative transport equation with the prescribed boundary values, hence conserves the content of the level set.", "quantifier": "all meshes with constraints, velocities, time step weights, old level sets", "why_tests_cant": "The equation holds for all test functions; conservation for all velocity fields.", "anchors": ["source/level_set_okz_matrix.cc: LevelSetOKZMatrixSolver::advance_concentration"]}
{"id": "C73", "title": "Prescribed fluid types are imposed at the boundary", "statement": "After every time step the level set has the value of the fluid registered for a boundary at all nodes of this boundary, whatever the transport and reinitialization compute.", "quantifier": "all registration histories, initial fields, meshes with hanging nodes, histories of steps and changes of the mesh, step sizes, results of the linear solvers", "why_tests_cant": "Depends on the order of construction, registration, setup and steps; a test fixes one order and the default tests have initial values equal to the prescribed ones.", "anchors": ["source/level_set_okz.cc: LevelSetOKZSolver::LevelSetOKZSolver", "source/level_set_okz_advance_concentration.cc: advance_concentration", "source/level_set_base.cc: initialize_data_structures", "source/level_set_okz_matrix.cc: advance_concentration", "include/adaflo/sharp_interface.h: LevelSetSolver"]}
{"id": "C74", "title": "Prescribed velocities and constraints hold after every time step", "statement": "After every time step and every initial Stokes solve, the velocity at all nodes on Dirichlet boundaries registered before the last setup or change of the mesh is exactly the user's function at the current time (zero on no-slip boundaries, which win), and the hanging node, periodicity, symmetry and normal-flux constraints hold exactly, even if the nonlinear iteration does not converge.", "quantifier": "all histories of registrations, setups, steps and changes of the mesh, meshes, hanging node constraints, initial and transferred fields, step sizes, results of the linear solvers, numbers of iterations", "why_tests_cant": "The invariant must hold for arbitrary solver results and arbitrary step sequences.", "anchors": ["source/navier_stokes.cc: initialize_data_structures, init_time_advance, apply_boundary_conditions, solve_system, solve_nonlinear_system, compute_initial_stokes_field"]}
{"id": "C75", "title": "The fixed pressure level", "statement": "If fix_pressure_constant was called before the last setup or change of the mesh, the pressure at the midpoint of a boundary face with such an id equals the prescribed value at the current time after every step; only one constant is added to the pressure; a step fails iff no boundary face has such an id. With the projection scheme the pressure has the prescribed values at open boundaries at the end of a step.", "quantifier": "all histories of registrations, setups, changes of the mesh and steps, meshes, distributions of cells to processes, transferred fields, solver results, step sizes", "why_tests_cant": "A test fixes one distribution of the cells and one sequence of steps.", "anchors": ["source/navier_stokes.cc: solve_nonlinear_system", "source/navier_stokes_matrix.cc: apply_pressure_shift, initialize"]}
{"id": "C76", "title": "Pressure history of the projection scheme", "statement": "With the projection scheme the pressure after n steps is the initial pressure plus the sum of all Poisson solutions and rotational parts (incremental rotational pressure correction), and the momentum equation of every step, which uses the intermediate velocities and a modified pressure, is that of the pressure-correction scheme with the projected velocities.", "quantifier": "all step sequences with arbitrary requested step sizes, all results of the linear solvers, all initial values, mass and gradient matrices", "why_tests_cant": "The algebraic equivalence must hold for all matrices and all step size histories; tests compare numbers of a few runs.", "anchors": ["source/navier_stokes.cc: init_time_advance, solve_nonlinear_system, solve_system", "source/navier_stokes_preconditioner.cc: solve_projection_system"]}
{"id": "C77", "title": "Linearization point of the velocity equation in projection steps", "statement": "In every time step of the projection scheme the velocity equation is linearized at the velocity extrapolated to the new time.", "quantifier": "all histories of steps, coefficients, rebuilds of the preconditioner, sequences of products of the linear solvers", "why_tests_cant": "Depends on the whole history of preconditioner rebuilds and products.", "anchors": ["source/navier_stokes_preconditioner.cc: solve_projection_system, VelocityMatrix::vmult, assemble_matrices", "source/navier_stokes_matrix.cc: velocity_vmult"]}
{"id": "C78", "title": "Preconditioner objects exist whenever a solver uses them", "statement": "After a setup, no sequence of refinements with new setups, time steps and initial Stokes solves dereferences a missing preconditioner object or assembles outside of a matrix pattern, exactly if the parameters avoid these combinations: projection scheme with component-wise ILU or zero density, stationary flow with zero density.", "quantifier": "all parameter combinations (velocity preconditioner, physical type, linearization, sign of density, augmented elements, mass preconditioner), all event sequences, all decisions of the rebuild policy and of the two-stage solver", "why_tests_cant": "Histories are unbounded and the parameter combinations are many; tests run a handful of them.", "anchors": ["source/navier_stokes_preconditioner.cc: vmult, solve_pressure_mass, solve_projection_system, compute, clear, initialize_matrices, assemble_matrices", "source/navier_stokes.cc: solve_system, compute_initial_stokes_field"]}
{"id": "C79", "title": "Outer Krylov solver fits the preconditioner", "statement": "A linear system of the coupled scheme is solved with flexible GMRES if and only if one application of the preconditioner contains an inner iterative solver; standard GMRES is used only with a fixed linear preconditioner.", "quantifier": "all parameter combinations, histories, policy decisions", "why_tests_cant": "Standard GMRES with a changing preconditioner often converges in tests but computes wrong residuals; the choice depends on the history of objects.", "anchors": ["source/navier_stokes.cc: solve_system", "source/navier_stokes_preconditioner.cc: is_variable, vmult, solve_pressure_mass"]}
{"id": "C80", "title": "Open boundaries exert exactly the prescribed pressure of the current time", "statement": "After every sequence of boundary-condition calls, setups, Stokes solves and time steps, the boundary part of the right-hand side of the solve just started, tested with any velocity that satisfies the constraints, equals the integral of p_b v.n over the boundary ids that were declared open by the last relevant call since the last clearing, with p_b the user's function at the new time (zero if none was given); nothing of earlier times or of ids no longer open remains. A fluid at rest whose pressure balances the body force and equals the prescribed pressure on the open boundary has zero residual and stays at rest.", "quantifier": "all dimensions, meshes with hanging-node/Dirichlet constraints, prescribed functions of space and time, histories of calls and steps with any step sizes, all test velocities", "why_tests_cant": "the term is accumulated over faces and scattered through constraints each step; a stale time, a missing reset or a wrong sign shows only for particular histories and functions", "anchors": ["source/navier_stokes.cc:apply_boundary_conditions (1259-1318), init_time_advance, compute_residual (784-785)", "source/navier_stokes_matrix.cc:residual (268-293)", "source/flow_base_algorithm.cc:set_open_boundary"]}
{"id": "C81", "title": "The pressure Poisson matrix for augmented Taylor-Hood elements is a symmetric interior penalty form", "statement": "With augmented Taylor-Hood elements the assembled pressure Poisson matrix, applied to two pressures, equals the symmetric interior penalty form: cell gradients with weight dt/rho, averaged fluxes against jumps of the constant part on every interior face (counted once, also where cells of different size meet), penalty on the jumps, Nitsche terms on open boundaries. Hence it is symmetric, maps constants of both parts to zero (only their difference if there is an open boundary), and is positive definite up to constants if the penalty satisfies the trace inequality. Every entry written exists in the sparsity pattern. All this holds whenever both sides of each face use the same face density, i.e. always on one process, with constant density or with the projection scheme; at process borders with hanging nodes and variable density the matrix is not symmetric and constants are not in its kernel. Time-dependent flow of one density: cells and faces use the same coefficient, so definiteness depends on cell shapes and degree only, not on density and time step. Stationary flow: the cells use coefficient one, the faces one over the density, so the trace constant has to be below the density; for small densities the matrix can be indefinite.", "quantifier": "all meshes with hanging nodes, dimensions, degrees, constraints, face-density tables, step weights, pressures", "why_tests_cant": "the form emerges from two half-assemblies of each face on different cells; a wrong sign, half-sum or unsymmetric penalty only degrades convergence of an iterative solver and stays unnoticed", "anchors": ["source/navier_stokes_preconditioner.cc:compute_ip_matrix_q_dg0 (1640-1684), compute_nitsche_matrix (1687-1714), local_assemble_preconditioner (2180-2345), initialize_matrices (1338-1387)", "include/adaflo/navier_stokes_preconditioner.h:get_face_average_density (262-278)"]}
{"id": "C82", "title": "Coupling of level set and flow within a time step", "statement": "In the level-set solvers, every flow solve receives the surface force, gravity, density/viscosity tables, face densities and residual that belong to the level set the step ends with, one solve per time step, after any sequence of steps, mesh adaptations and outputs. The corrective diffusion step is taken exactly when the step number exceeds 3, no correction happened in the three preceding steps, no mesh adaptation in the two preceding steps, and the initial residual is at least twice the residual of the previous step. Marking uses the normals of the current level set, and adapting twice after the same time step is the same as adapting once.", "quantifier": "all numerical kernels (advection, reinitialization, normal, curvature, force, residual, flow solve, mesh transfer), all parameters, all histories of advance_time_step / refine_grid / output_solution calls", "why_tests_cant": "A stale vector after one particular interleaving of refinement, correction and step would only show as slightly wrong physics; tests run a handful of histories.", "anchors": ["source/level_set_base.cc: LevelSetBaseAlgorithm::advance_time_step, mark_cells_for_refinement, compute_density_on_faces", "source/level_set_okz.cc: compute_force, compute_curvature", "source/level_set_okz_matrix.cc: compute_force", "source/two_phase_base.cc: refine_grid"]}
{"id": "C83", "title": "Coupling of phase field and flow within a time step", "statement": "In the phase-field solver, every flow solve receives force, material tables and face densities that belong to the current concentration.", "quantifier": "all numerical kernels, all parameters, all histories of steps and mesh adaptations of a phase-field solver", "why_tests_cant": "The face densities are only used by the preconditioner for one combination of parameters; no test combines them.", "anchors": ["source/phase_field.cc: advance_time_step, compute_density_on_faces", "source/phase_field_local.cc: compute_force", "include/adaflo/navier_stokes_preconditioner.h: set_face_average_density"]}
{"id": "C84", "title": "Operator results do not depend on the splitting of the cell loop", "statement": "The matrix-free operators give the same result, namely the sum of the cell contributions computed with each cell's own quadrature-point data (linearization, density, viscosity, damping), and leave the same stored linearization data, however the cell loop is split into ranges (number of threads, communication overlap, block sizes).", "quantifier": "all numbers of cell batches and quadrature points, all splittings into ranges in any order, all cell kernels, constant and variable coefficients", "why_tests_cant": "The splitting depends on the machine and the thread count; a test sees one splitting, and with one range or one cell per range a pointer error is invisible.", "anchors": ["source/navier_stokes_matrix.cc: local_operation, local_divergence, divergence_vmult_add", "include/adaflo/navier_stokes_matrix.h: begin_densities, begin_viscosities, begin_damping_coeff", "source/level_set_okz_advance_concentration.cc: local_advance_concentration", "source/level_set_okz_reinitialization.cc: local_reinitialize", "source/phase_field_local.cc: local_operation loops"]}
{"id": "C85", "title": "Kernel dispatch fits the elements and quadrature of the mesh", "statement": "For every velocity degree, number of level-set subdivisions and mesh type, each matrix-free operator either throws (exactly on unsupported degrees) or runs a kernel instance whose polynomial degrees and numbers of quadrature points are those of the elements and quadrature formulas stored at the indices it reads; it never silently skips the cell loop. Supported: flow degree 2..6; level-set force and phase field degree 2..5 with 1..4 subdivisions; level-set advection degree 1..5 with 1..4 subdivisions; all on simplices for level-set kernels.", "quantifier": "all velocity degrees and subdivisions (all natural numbers), hypercube and simplex meshes, all kernels of the flow, level-set, phase-field and sharp-interface solvers", "why_tests_cant": "deal.II checks template arguments in debug mode only and per executed instance; tests run three or four of the 30 instances.", "anchors": ["source/navier_stokes_matrix.cc: EXPAND_OPERATIONS, local_operation, local_divergence, local_pressure_poisson, local_pressure_mass, local_pressure_convdiff", "include/adaflo/level_set_okz_template_instantations.h: EXPAND_OPERATIONS", "source/level_set_okz_advance_concentration.cc, level_set_okz_compute_normal.cc, level_set_okz_compute_curvature.cc, level_set_okz_reinitialization.cc, level_set_okz_preconditioner.cc: EXPAND_OPERATIONS", "source/phase_field_local.cc: EXPAND_OPERATIONS, vmult, mass_vmult", "source/two_phase_base.cc: initialize_data_structures", "include/adaflo/sharp_interface.h: LevelSetSolver"]}
{"id": "C86", "title": "Bubble statistics are weighted means independent of the parallel partition", "statement": "For every mesh, level set and velocity field, the numbers returned by compute_bubble_statistics are the time, area (volume), perimeter (surface area), circularity (sphericity), mean velocity and centre of mass computed from the same weighted sample points: they do not depend on the number of processes or the distribution of cells; a constant velocity is reported exactly; mean velocity and centre lie within the range of values read and the area between zero and the mesh area; a translation of the mesh moves only the centre, by the same vector; the perimeter equals the total length of the interface segments returned to the caller; cells skipped by the cheap sign test contain no interface; a circle or ball has circularity/sphericity one.", "quantifier": "all lists of processes and cells, all degrees of freedom, quadrature weights, positions and velocities, all numbers of sub-refinements, two and three dimensions", "why_tests_cant": "Tests compare the printed output of two rising-bubble runs; the statements quantify over all partitions, shapes and fields.", "anchors": ["source/two_phase_base.cc: TwoPhaseBaseAlgorithm::compute_bubble_statistics", "include/adaflo/level_set_base.h: LevelSetBaseAlgorithm::evaluate_heaviside_function"]}
{"id": "C87", "title": "Matrix-free pressure operators are symmetric weak forms and agree with the assembled preconditioner matrices", "statement": "For every mesh, element, closed constraints, coefficient field and vector, pressure_poisson_vmult is the weak form (1/(w rho) grad p, grad v) (factor one for stationary flow, smaller density in the projection scheme) plus the identity on constrained entries: symmetric, positive semi-definite with the functions of zero gradient as kernel, constants mapped to zero; changing the time step weight scales the free rows only. pressure_mass_vmult is the weak form (1/(mu+tau) p, v), with zero weighted sum when the second pressure mode is removed. Both have the entries of the matrices assembled for the preconditioner if the quadratures are exact and the viscosity is constant on each cell. In the stationary preconditioner an exact Poisson solve followed by the convection-diffusion product scales the residual by the viscosity. In the projection scheme the corrected velocity is weakly divergence-free and the rotational pressure part is the projection of -mu div u.", "quantifier": "all spaces, quadratures, constraints, parameters, coefficient buffers and vectors", "why_tests_cant": "A test compares one mesh and one coefficient; symmetry, definiteness and agreement of two implementations are statements about all vectors and meshes.", "anchors": ["source/navier_stokes_matrix.cc: pressure_poisson_vmult, pressure_mass_vmult, pressure_convdiff_vmult, local_pressure_poisson, local_pressure_mass, local_pressure_convdiff, local_divergence", "source/navier_stokes_preconditioner.cc: vmult (stationary branch), solve_projection_system, assembly of the pressure matrices"]}
{"id": "C88", "title": "Reported level set range, maximal velocity and diameter are true extrema and reporting does not influence the computation", "statement": "For every mesh, field and distribution of cells to processes, get_maximal_velocity and get_concentration_range return bounds of all sampled values that are attained, independent of the partition and of processes without cells; the reported range is the exact range of the level set over the domain; the domain diameter used for the stabilisation is the largest distance of boundary vertices of the coarse mesh, independent of refinement, and bounds the distance of any two points of a convex domain; the output verbosity does not change the number of reinitialization steps, i.e. the computed solution.", "quantifier": "all lists of processes and cells, all nodal values, all dimensions and numbers of subdivisions, all coarse meshes, all sequences of statistics and reinitialization calls, all verbosities", "why_tests_cant": "Extrema over all fields and partitions, and independence of output settings over all call histories, cannot be settled by examples.", "anchors": ["source/two_phase_base.cc: get_maximal_velocity, get_concentration_range, compute_bubble_statistics", "source/level_set_okz_advance_concentration.cc: get_maximal_velocity, diameter_on_coarse_grid", "source/level_set_okz_reinitialization.cc: reinitialize (actual_diff_steps)"]}
{"id": "C89", "title": "Cahn-Hilliard steps dissipate the free energy and hand the matching material data and capillary force to the flow", "statement": "For every mesh with hanging nodes, every old concentration and velocity, the change of the Ginzburg-Landau energy (with wall energy for a contact angle) over an implicit Euler step of the phase-field solver is minus the diffusive dissipation, minus the numerical dissipation, minus the convective exchange with the flow, plus the contribution of remaining algebraic residuals; without flow and contact angle the energy does not increase for step sizes up to 8 eps^3/(3 sigma L^2), and over whole runs of any length with implicit Euler or BDF-2 and constant steps up to 2 eps^3/(sigma L^2) the energy never exceeds its initial value (1.99 eps^3/(sigma L^2) if the cut or stretched last step is included). Density, viscosity and capillary force handed to the flow solver are those of the concentration and chemical potential at the quadrature point; in equilibrium the capillary force is the gradient of a pressure function. The contact-angle term is evaluated with the traces of the phase field.", "quantifier": "all meshes, constraints, wall faces, coefficient vectors, velocities, time step weights and physical parameters", "why_tests_cant": "An energy law over all data is a theorem about the discrete equations; tests only show individual decaying runs.", "anchors": ["source/phase_field_local.cc: local_compute_force, local_residual, apply_contact_bc, compute_residual", "source/phase_field.cc: PhaseFieldSolver (face_matrix, interpolation_concentration_pressure), initialize_data_structures"]}
{"id": "C90", "title": "Sparsity patterns contain every entry that assembly writes", "statement": "For every mesh, numbering, set of constraints (hanging nodes, slip boundaries coupling components, prescribed values) and parameter choice, each non-zero entry that the assembly of a sparse matrix distributes - velocity preconditioner in all variants, pressure matrices in all configurations, level set projection matrix with its mask, matrix-based level set system, Cahn-Hilliard preconditioner - has a position in the sparsity pattern the matrix was created with.", "quantifier": "all cells, index tables, local matrices, constraints, mappings, dampings, numbers of subdivisions and configurations", "why_tests_cant": "A missing position shows only on particular meshes (hanging nodes, slip walls) and is silently dropped in optimized builds.", "anchors": ["source/navier_stokes_preconditioner.cc: initialize_matrices, local_assemble_preconditioner", "source/level_set_okz_preconditioner.cc: initialize_projection_matrix", "source/level_set_okz_matrix.cc: initialize_data_structures", "source/phase_field.cc: create_cahn_hilliard_preconditioner"]}
{"id": "C91", "title": "The pressure Poisson operator of the preconditioner is one operator, symmetric positive definite", "statement": "PressurePoissonMatrix returns the same product whether it multiplies with the assembled matrix or evaluates the operator matrix-free and treats the dofs that only the Schur complement constrains by hand; rows of constrained dofs are identity rows, rows of open-boundary or fixed dofs are diagonal with the magnitude of the assembled matrix; with at least one such dof that was not constrained before the operator is symmetric positive definite, and otherwise the constant pressure stays in its kernel.", "quantifier": "all meshes with hanging nodes and periodicity (closed constraints), all lists of open-boundary/fixed dofs, all cell matrices, all vectors; for definiteness all positive coefficients on connected meshes", "why_tests_cant": "a test checks one mesh and a few vectors; agreement of the two code paths (constraint resolution in assembly against save/zero/restore in the product) has to hold for every constraint pattern", "anchors": ["source/navier_stokes_preconditioner.cc:354-445 PressurePoissonMatrix", "source/navier_stokes_preconditioner.cc:1087-1186 initialize_matrices", "source/navier_stokes_preconditioner.cc:2425-2475 assemble_matrices", "source/navier_stokes_matrix.cc:386-417 pressure_poisson_vmult"]}
{"id": "C92", "title": "Normals of the matrix-based level set solver belong to the current level set", "statement": "With LevelSetOKZMatrixSolver, whenever the curvature is computed, the refinement is marked or a reinitialization step uses the normal field, that field was computed from the current level set or, in reinitialization, from the level set at most seven pseudo-time steps earlier in the same call.", "quantifier": "all histories of set-up, transport, reinitialization (any number of stabilised and diffusive steps, any early end), force computation and marking", "why_tests_cant": "the cached-normal flag is a piece of state carried across calls; a test runs one schedule of calls, staleness shows up only in others and only as a small loss of accuracy", "anchors": ["source/level_set_okz_matrix.cc:613-715 compute_normal", "source/level_set_okz_matrix.cc:911-1113 reinitialize", "source/level_set_okz_matrix.cc:373-606 advance_concentration", "source/level_set_base.cc:303 mark_cells_for_refinement"]}
{"id": "C93", "title": "Normals, curvature and force of the matrix-based level set solver", "statement": "LevelSetOKZMatrixSolver computes the same normals as the matrix-free solver, for every cell order and every re-use of cell matrices of translated cells; unit normals never exceed length one; the computed curvature is bounded by domain size and damping; the force at every quadrature point is surface tension times curvature times the gradient on the actual cell (independent of the shape of the first cell) plus the weight, equals the force of the matrix-free solver, is unchanged by the time weights for steady fields, and all material data are between those of the two fluids.", "quantifier": "all meshes (hanging nodes, arbitrary cell shapes and orders), all fields, all parameters; exact solutions of the linear systems", "why_tests_cant": "re-use of the cell matrix and of the gradient table of the first cell is only wrong on meshes with differently shaped cells in some order; settings of the time scheme and of the gradient interpolation multiply the cases", "anchors": ["source/level_set_okz_matrix.cc:95-311 compute_force", "source/level_set_okz_matrix.cc:613-715 compute_normal", "source/level_set_okz_matrix.cc:722-838 compute_curvature"]}
{"id": "C94", "title": "Mesh adaptation keeps the flow solution and its history", "statement": "However time steps, adaptations (refine_grid_pressure_based followed by initialize_data_structures and initialize_matrix_free), initial values and forces follow each other, no call fails and every field the next time step reads (velocity, old velocity, pressure, old pressure or the two pressure increments of the projection scheme) is the conforming interpolation of the field of the same name on the old mesh; degrees of freedom, constraints, matrix-free data, preconditioner and vectors all belong to the current mesh; the preconditioner is rebuilt; computing on a new mesh without re-initialization is refused; no cell becomes finer than the level limit or the finest initial cell.", "quantifier": "all histories of operations of any length, both the coupled and the projection scheme, all results of time steps, transfers and constraints; for the levels all estimator results, partitions and balancing refinements", "why_tests_cant": "a field that is left at zero or swapped with another after an adaptation shows only in the following one or two steps of some scheme, and level limits only after many cycles", "anchors": ["source/navier_stokes.cc:192-224 distribute_dofs", "source/navier_stokes.cc:229-361 initialize_data_structures", "source/navier_stokes.cc:398-506 initialize_matrix_free", "source/navier_stokes.cc:1324-1372 refine_grid_pressure_based", "source/navier_stokes.cc:1378-1408 prepare_coarsening_and_refinement", "applications/drivencavity.cc:376-413 run"]}
{"id": "C95", "title": "Phases of the front tracking solver", "statement": "At every quadrature point FrontTrackingSolver uses density and viscosity of one and the same fluid: the inner one exactly for the points enclosed by the interface. The result does not depend on the cell at which the surface mesh starts or on its orientation; points that a straight line separates from the interface always get the outer fluid, so the inner fluid never leaves a convex set containing the interface.", "quantifier": "all surface meshes (numbers, order and position of the quadrature points), all query points, all material parameters", "why_tests_cant": "membership must be right for every query point, including points level with a vertex or on the line of an edge, and for every numbering of the surface cells", "anchors": ["include/adaflo/sharp_interface_util.h:128-160 construct_polygon", "include/adaflo/sharp_interface_util.h:162-191 within", "include/adaflo/sharp_interface.h:630-671 FrontTrackingSolver::update_phases"]}
{"id": "C96", "title": "Normals and curvature of the surface mesh in front tracking", "statement": "After FrontTrackingSolver::update_surface_tension the normal stored at a node of the surface mesh is the normal of the mesh at that node, and the curvature stored there is the curvature (sum of the principal curvatures) of the mesh at that node: d/r on circles and spheres of radius r, zero on flat parts, unchanged under rigid motion, inverse under scaling, the textbook curvature for curves.", "quantifier": "all surface meshes of any dimension in any space dimension, degrees, positions, numbers and orders of the cells", "why_tests_cant": "the values must be right for every shape of the front and every numbering of the mesh; tests use one circle, on which the curvature is constant and misplaced values are invisible", "anchors": ["include/adaflo/sharp_interface_util.h:443-478 compute_normal", "include/adaflo/sharp_interface_util.h:485-533 compute_curvature", "include/adaflo/sharp_interface.h:503-537 FrontTrackingSolver", "include/adaflo/sharp_interface.h:673-700 FrontTrackingSolver::update_surface_tension"]}
{"id": "C97", "title": "Statistics log of the micro-particle application", "statement": "The statistics file written by micro_particle contains, at the end of the run, a header followed by exactly one row per time step from the start to the end time in order of time, whatever the adaptive step sizes, the output frequency and the previous content of the file; at any moment (crash point) the file holds a prefix of that history and the missing rows are the last ones, none at a tick; only rank 0 writes, and only this file. Runs with different refinements or maximal step sizes use different files. Every column holds the quantity named in the header.", "quantifier": "all parameters, step-size requests, statistics, output frequencies, numbers of processes, file contents and crash points between rounds", "why_tests_cant": "the history and the flush schedule depend on the adaptive step sizes of the whole run", "anchors": ["applications/micro_particle.cc:467-528 MicroFluidicProblem::run", "source/two_phase_base.cc:892-902 and 1079-1090 compute_bubble_statistics", "source/time_stepping.cc:228-238 at_tick"]}
{"id": "C98", "title": "Lid driven cavity: boundary velocity and centre-line output", "statement": "The statistics file of drivencavity lists, along the two centre lines of the cavity, pairs of a position and the velocity exactly at that point of the line; the positions are equidistant points in intervals that cover the whole line without gap or overlap, for every number of cells, history of adaptive refinement, order of traversal, number of processes and distribution of the cells. The boundary velocity is defined everywhere, acts only on the lid, lies between 0 and 1 and vanishes on the edges of the lid. This holds for all dimensions the program accepts.", "quantifier": "all mesh sizes, adaptive refinement histories, traversal orders, numbers of processes and partitions, velocity fields, sampling densities and boundary points", "why_tests_cant": "whether the selected cells tile the line depends on the whole refinement history, and the pairing after the exchange on the partition", "anchors": ["applications/drivencavity.cc:72-89 BoundaryVelocity", "applications/drivencavity.cc:144-262 output_results", "applications/drivencavity.cc:266-331 perform_data_exchange", "applications/drivencavity.cc:365-384 run"]}
{"id": "C99", "title": "Graphical output of the level set solvers shows every field under its own name", "statement": "In every output file of a level set two-phase run, at every node of every cell, the component with name velocity, pressure, heaviside, level_set, curvature, owner or normal_vector holds the value of exactly that field at that node (owner: the rank owning the node), independently of the partition of the mesh and of stale ghost values; velocity and normal_vector, and only those, are declared as vectors of dim consecutive components; the cell data Standard_refine is 1 exactly where the scaled level set gradient exceeds exp(-7); Biased_refine is the decision of the mesh adaptation; Biased_refine_direction is a number.", "quantifier": "all meshes, numberings, partitions into ranks, ghost contents, field values, dimensions; all probe values, time steps and interface widths for the cell indicators", "why_tests_cant": "tests compare output of a few runs on fixed meshes and one or two ranks; wrong component copies for other partitions and numberings and the NaN/mismatch of indicators are invisible to them", "anchors": ["source/level_set_base.cc: LevelSetBaseAlgorithm::output_solution", "source/two_phase_base.cc: TwoPhaseBaseAlgorithm::output_solution"]}
{"id": "C100", "title": "Periodic channel application: mesh, initial field, boundary conditions and driving force", "statement": "For every admissible number of cells the channel mesh fills [0,2pi]x[-1,1]x[0,2pi/3] without inverted cells and gets finer towards the walls; the initial velocity is zero on the walls, periodic with the box and directed downstream; every side of the box is either a no-slip wall or periodic with its opposite side, consistently in mesh and solver, and setup accepts it; the program runs in two and three dimensions; the constant force drives the flow in the direction of the initial flow.", "quantifier": "all refinement parameters, all vertices and cells, all points, all velocity spaces and velocities", "why_tests_cant": "the application is not part of the tests; monotonicity, periodicity and the sign of the work hold for all points and fields and cannot be sampled", "anchors": ["applications/periodic_channel.cc: InitialChannel, grid_transform, local_compute_force, run", "source/navier_stokes_matrix.cc: residual"]}
{"id": "C101", "title": "Micro-particle application: geometry, inflow and particle", "statement": "Every non-degenerate boundary face of the cross-shaped channel gets the boundary id and the manifold of the piece of the boundary it lies on, in 3D the end planes become walls; every such id has exactly one boundary condition and setup accepts them; the prescribed velocity is zero at time zero, grows continuously and monotonically to its full value at 0.01 and at every inlet is directed straight into the channel in two and three dimensions; the initial particle is a ball inside the channel and the level set at the inlets has the sign of the prescribed inflow fluid.", "quantifier": "all faces on the pieces of the boundary, all times, all points, both dimensions, both values of the parameter pressure constraint", "why_tests_cant": "the application is not tested; faces of arbitrary meshes and all times cannot be enumerated", "anchors": ["applications/micro_particle.cc: set_boundary_indicators, create_triangulation, set_all_boundary_conditions, BoundaryValuesVelocity, InitialValuesLS"]}
{"id": "C102", "title": "Mesh adaptation of the two-phase solvers: history and conformity", "statement": "After set-up and after any sequence of time steps and mesh adaptations, whatever the linear solvers return: no data of an old mesh is accessed; both fields and their previous time level are those moved from mesh to mesh, each to its own place; in every step, also the first one after an adaptation, the two older levels are the results of the last two steps and the first guess is their extrapolation; the initial profile after the adaptive passes is the initial function on the final mesh; all fields satisfy the hanging node constraints of the current mesh (no jumps across refined faces).", "quantifier": "all meshes with closed hanging node constraints, all transfers, initial functions, all sequences of steps (phase field or level set) and adaptations, all step sizes, all results of linear solvers, all hanging nodes", "why_tests_cant": "states depend on the whole history of adaptations and steps; tests run one fixed schedule", "anchors": ["source/two_phase_base.cc: setup_problem, distribute_dofs, initialize_data_structures, refine_grid, init_time_advance", "source/phase_field.cc: initialize_data_structures, advance_time_step", "source/level_set_okz_advance_concentration.cc: advance_concentration", "source/level_set_okz_compute_curvature.cc: compute_curvature"]}
{"id": "C103", "title": "Parallel runs: no outdated ghost values, same results as on one process", "statement": "On any number of processes and for every history of API calls, every entry of another process that a routine reads is the owner's current value and no deal.II assertion about ghost access fails; hence all owned entries, norms, iteration counts and outputs are those of the same history on one process, and after every call the public solution vectors have current copies on all processes.", "quantifier": "all numbers of processes, all partitions before and after mesh changes, all histories of calls (setup, time steps, Stokes solves, refinements, output, statistics), all parameters, all values computed by kernels, preconditioners and solvers, all outcomes of run time conditions and iteration counts", "why_tests_cant": "whether a copy is outdated depends on the whole history of calls, on parameters and on iteration counts of inner solvers; a test runs one schedule on one partition, and an outdated copy changes results only slightly", "anchors": ["source/navier_stokes.cc: setup_problem, init_time_advance, apply_boundary_conditions, solve_nonlinear_system, refine_grid_pressure_based, output_solution", "source/navier_stokes_matrix.cc: vmult, residual", "source/navier_stokes_preconditioner.cc: vmult, solve_projection_system", "source/two_phase_base.cc: setup_problem, init_time_advance, refine_grid", "source/phase_field.cc: solve_cahn_hilliard", "source/phase_field_local.cc: compute_residual, vmult, apply_contact_bc", "source/level_set_base.cc: advance_time_step, mark_cells_for_refinement, output_solution", "source/level_set_okz.cc: compute_heaviside, compute_force", "source/level_set_okz_advance_concentration.cc: advance_concentration, advance_concentration_vmult", "source/level_set_okz_reinitialization.cc: reinitialize", "source/level_set_okz_compute_normal.cc", "source/level_set_okz_compute_curvature.cc", "include/adaflo/sharp_interface.h: LevelSetSolver, MixedLevelSetSolver, FrontTrackingSolver", "source/diagonal_preconditioner.cc: vmult"]}
{"id": "C104", "title": "External force of the sharp interface solvers does not depend on the number of processes", "statement": "The right hand side that a sharp interface solver (front tracking, mixed level set, sharp level set) hands to the flow solver in a time step is the weight of the two fluids plus the surface tension of the current interface, every surface point counted once on every cell around it and every cut cell once, zero on constrained entries - for any number of MPI processes, any partition of background and surface mesh, and whatever earlier time steps left in the vector.", "quantifier": "all numbers of processes, partitions, ghost layers, surface meshes, point locations (also on faces between processes), orders chosen by std::sort, earlier steps", "why_tests_cant": "Lost or doubled contributions depend on where the partition cuts the interface; a test sees a few partitions and process counts, and a wrong force of the right order of magnitude is not noticed in a simulation without an exact solution.", "anchors": ["include/adaflo/sharp_interface_util.h: compute_force_vector_sharp_interface (three overloads), collect_integration_points", "include/adaflo/sharp_interface.h: FrontTrackingSolver, MixedLevelSetSolver: update_gravity_force, update_surface_tension, advance_time_step", "tests/sim_rising_bubble.cc", "tests/sim_spurious_currents.cc"]}
{"id": "C105", "title": "The clock works in floating point arithmetic", "statement": "With every arithmetic operation of TimeStepping rounded to the nearest double: after any history of next() (before the end), set_time_step, set_desired_time_step and restart calls, now() stays in [start, final] and at_end() implies now() == final() bit for bit. Every next() before the end advances the time strictly, step_size() equals the advance up to rounding, at_end() holds exactly at the final time, the loop 'while (!at_end()) next()' ends for every sequence of step requests, and the weights and extrapolation factors are those of the actual steps up to a few units in the last place and the documented 1e-12 reuse of weight(). at_tick() neither loses nor adds an output of a run with constant steps because of accumulated rounding.", "quantifier": "all roundings that are monotone with relative error u (in particular IEEE round to nearest of any precision), all parameter sets, all call histories, all sequences of step requests, all numbers of steps", "why_tests_cant": "Rounding errors depend on every digit of the times and steps; tests use round numbers and a few hundred steps, where accumulated errors are invisible.", "anchors": ["source/time_stepping.cc: TimeStepping::TimeStepping, restart, next, at_tick, set_time_step, set_desired_time_step", "include/adaflo/time_stepping.h: TimeStepping"]}
{"id": "C106", "title": "A parameter file means what it says", "statement": "Constructing FlowParameters from a file name: a missing file, and a file that cannot be read (name ending neither in .prm nor .json; in a .prm file sections not properly nested, an entry or a section that is not documented; in either format a text that does not match the pattern of its entry), raise the two documented exceptions. Otherwise every member is set from the entry documented for it, in the section documented for it: the last value assigned there, or the documented default. The result depends on nothing else in the file: neither order, repeated sections nor format. No entry read is undeclared, and no member selected by name stays uninitialised; the only other exceptions are the range checks. An empty file is accepted and gives the defaults, with adaptive step sizes switched off because the default of \"min step size\" exceeds that of \"step size\". In JSON files names that are not documented are silently ignored, so a typing error gives the default. The derived class of applications/micro_particle reads its own entry in the same way, but one of the methods it allows (\"phase field\") has no solver.", "quantifier": "every file system, file name, list of statements / JSON tree, conversion of texts to numbers that reads the default values as usual, debug and release mode", "why_tests_cant": "The set of files is infinite; tests read a few files that set few of the 57 entries, so an entry read in the wrong section or under another name, or a default that does not match its documentation, goes unnoticed.", "anchors": ["source/parameters.cc: FlowParameters::FlowParameters, check_for_file, declare_parameters, parse_parameters", "include/adaflo/parameters.h", "applications/micro_particle.cc: TwoPhaseParameters, MicroFluidicProblem"]}
{"id": "C107", "title": "Collecting data on process 0 works under every schedule of the processes", "statement": "Collecting the interface segments of the bubble statistics, or the line samples of the driven cavity and of the channel, on process 0: any number of collections in a row with different data, any number of processes, any interleaving of the processes, and sends that may or may not return before the message is received. No message arrives that does not fit the receive it is matched with; the processes never block each other, even without any buffering; after at most 4 n steps per call all have returned with no message left over; and each call returns on process 0 the data of exactly that call, of all processes, in the order of the processes. The bubble statistics empties the vectors of the other processes; the other two leave them as they are.", "quantifier": "every number of processes, number of calls, content of the vectors (positions and velocities of equal length), schedule, buffering behaviour of the sends", "why_tests_cant": "The schedules cannot be enumerated; tests run with one or a few processes, small messages (which MPI buffers) and one schedule per run, so a deadlock for large messages or a mix-up of messages of successive calls would not show.", "anchors": ["source/two_phase_base.cc: compute_bubble_statistics (MPI_Gather, MPI_Send, MPI_Recv)", "applications/drivencavity.cc: perform_data_exchange", "applications/periodic_channel.cc: perform_data_exchange"]}
{"id": "C108", "title": "The matrices behind the preconditioners are assembled from the cells independently", "statement": "With positive densities, the local matrices that the cell loop adds to the velocity, pressure Laplace and pressure mass matrices are, cell by cell, those of the cell assembled alone with new scratch data and the coefficients of its own quadrature points: they do not depend on which cells, components, sub-elements or faces were assembled before, on how the loop is split into ranges and distributed over threads, nor on uninitialized memory - also with rounding. In exact arithmetic their entries are the weak forms (within one velocity component, zero between components; one matrix for all components; linear sub-elements; Laplacian with face terms; mass), so the global matrices are the same for all schedules, and the velocity entries are those of the linearized operator summed over the quadrature points, up to the terms named in C61.", "quantifier": "every mesh, number of batches and filled lanes, dimension, element, coefficient field, linearization point (or none), face data, choice of velocity and pressure preconditioner, augmented or not, every list of ranges and threads, every content of the stack, every arithmetic (first part)", "why_tests_cant": "Leftovers in reused scratch matrices or a pointer that is advanced wrongly only show for particular sequences of cells, thread counts and options; a test covers one mesh and one schedule, and the result is only a somewhat worse preconditioner.", "anchors": ["source/navier_stokes_preconditioner.cc: local_assemble_preconditioner, ScratchData, set_local_ordering_u, assemble_matrices", "include/adaflo/navier_stokes_matrix.h: begin_densities, begin_viscosities, get_linearized"]}
{"id": "C109", "title": "The velocity preconditioner is the same operator with and without inner solves", "statement": "The operator by which the velocity residual is multiplied (first linear solver), or which preconditions the inner BiCGStab solver (second, strong linear solver), is one fixed operator of the input on all velocity unknowns, independent of what the output vector contained, in debug and release builds; for the component-wise ILU it is the scalar factorization on every component with the constrained unknowns copied. Operators on block vectors act on each of up to 15 blocks on its own.", "quantifier": "all velocity preconditioners, sizes, dimensions, numberings of the unknowns, constrained unknowns, input and output vectors, factorizations; debug and release", "why_tests_cant": "The inner solver runs only if the first solver fails, so the combination is hardly ever executed; the result of a wrong preconditioner is just a worse convergence.", "anchors": ["source/navier_stokes_preconditioner.cc: NavierStokesPreconditioner::vmult, Precondition_LinML::vmult", "include/adaflo/block_matrix_extension.h: BlockMatrixExtension, BlockILUExtension, ComponentILUExtension"]}
{"id": "C110", "title": "The solution fields determine the rest of a run", "statement": "The further course of a run (all later solution fields, norms, iteration counts and output) is determined by the solution fields and their old values, the clock, the mesh and the parameters; what the work vectors (increments, right hand sides, Krylov vectors, oldest level) contain from earlier calls does not matter. Hence these fields suffice to continue a run, also on another number of processes.", "quantifier": "all five solvers, all histories of calls before and after, all contents of the work vectors, parameters, partitions, numbers of processes and all results of the computations", "why_tests_cant": "The work vectors are shared by many routines and which left-overs they contain depends on the history; a test sees a handful of histories, and a left-over usually changes the result in the last digits only.", "anchors": ["source/navier_stokes.cc: init_time_advance, evaluate_time_step, solve_nonlinear_system, compute_initial_stokes_field, refine_grid_pressure_based", "source/two_phase_base.cc: init_time_advance, write_data_output", "source/level_set_okz.cc: advance_time_step", "source/phase_field.cc: advance_time_step", "include/adaflo/sharp_interface_util.h", "include/adaflo/sharp_interface.h"]}
{"id": "C111", "title": "All parts of a solver use the same parameters, and the initial Stokes field solves the Stokes equations", "statement": "At any time the flow solver, its matrix, its preconditioner and the two-phase solver around it work with the same flow parameters, those given at construction; in compute_initial_stokes_field they all work with the parameters of a Stokes problem, so that the computed field solves the Stokes equations for the given boundary values, without influence of density, time step and old velocities.", "quantifier": "all parameter values, all histories of time steps, initial Stokes solves (converging or not) and assignments of the caller to its parameter object, all fields and points", "why_tests_cant": "Which of two equal looking objects a reference is bound to does not show as long as both have the same values; the difference shows in one routine only, whose result looks plausible.", "anchors": ["source/navier_stokes.cc: NavierStokes::NavierStokes, compute_initial_stokes_field", "include/adaflo/navier_stokes.h: parameters, get_parameters", "include/adaflo/navier_stokes_matrix.h: parameters", "include/adaflo/navier_stokes_preconditioner.h: parameters", "source/navier_stokes_matrix.cc: initialize, local_operation", "source/navier_stokes_preconditioner.cc: local_assemble_preconditioner", "source/two_phase_base.cc: TwoPhaseBaseAlgorithm"]}
{"id": "C112", "title": "The operators of the level set solvers work on the right, current vectors", "statement": "The operators for normals, curvature, reinitialization, transport and the flow matrix are constructed once, before any vector has a size, with references to vectors, blocks of vectors, objects and shared pointers. At any later time each of them reads and writes exactly the vectors in which the solver currently keeps the corresponding field; these exist, are pairwise different objects, have the space the operator expects and belong to the current mesh, like the constraints, cell diameters, diagonal preconditioner and projection matrices; the index parameters select the matching spaces, constraints and quadrature.", "quantifier": "all dimensions, all histories of setups, mesh adaptations and time steps (assignments, swaps, writes in any order) after construction, all operators and all of their members; for the sharp-interface solver also all histories of the flow solver before it is constructed", "why_tests_cant": "All these vectors have the same type, so a permuted argument compiles and often still gives plausible results; a dangling reference or a vector of the previous mesh shows only after particular sequences of setup and adaptation.", "anchors": ["source/level_set_okz.cc: LevelSetOKZSolver::LevelSetOKZSolver, initialize_data_structures", "source/two_phase_base.cc: TwoPhaseBaseAlgorithm, distribute_dofs, initialize_data_structures, init_time_advance", "source/level_set_base.cc: initialize_data_structures", "source/navier_stokes.cc: NavierStokes::NavierStokes, initialize_matrix_free", "include/adaflo/sharp_interface.h: LevelSetSolver, MixedLevelSetSolver", "source/level_set_okz_compute_normal.cc, source/level_set_okz_compute_curvature.cc, source/level_set_okz_advance_concentration.cc, include/adaflo/level_set_okz_reinitialization.h: constructors"]}
{"id": "C113", "title": "Smoothing lengths of the level set operators do not depend on the kind of mesh", "statement": "On every cell the reinitialization smooths over the interface thickness, but not over less than the mesh resolves there (cell size divided by the degree), and the projections for normals and curvature use 4 times the square of the mesh size, again not less than the local resolution; matrix-free and assembled operators use the same coefficients, on meshes of hypercubes as well as of simplices.", "quantifier": "all degrees, cell sizes, thickness parameters, meshes with cells of several levels, distributions to processes, both kinds of meshes, all operators", "why_tests_cant": "A coefficient that is wrong only on coarse cells of simplex meshes changes results slightly; no test compares the coefficients of different kernels.", "anchors": ["source/level_set_okz_reinitialization.cc: local_reinitialize, local_reinitialize_rhs", "source/level_set_okz_compute_normal.cc: local_compute_normal", "source/level_set_okz_compute_curvature.cc: local_compute_curvature", "source/level_set_okz_preconditioner.cc: initialize_projection_matrix", "source/two_phase_base.cc: initialize_data_structures", "include/adaflo/util.h: compute_cell_diameters"]}
{"id": "C114", "title": "The projected linear system is the continuity equation", "statement": "Product and right hand side of the coupled system are projected (the mean of the pressure rows is removed). An update solves the projected pressure rows exactly if the new velocity is discretely free of divergence, up to an equal share of the net boundary flux for every pressure function if the pressure level is fixed (so not at all for balanced boundary data or open boundaries); a pressure residual of zero means the same. With augmented Taylor-Hood elements and balanced boundary data the new velocity has no net flux out of any cell.", "quantifier": "all meshes with hanging nodes, standard and augmented pressure elements, fixed and free pressure level, all velocities, updates and right hand sides", "why_tests_cant": "A projection that adds spurious solutions shows up only for data whose residual has a component in the removed modes; tests use compatible data.", "anchors": ["source/navier_stokes_matrix.cc: initialize, apply_pressure_average_projection, vmult, local_operation, local_pressure_mass_weight", "source/navier_stokes.cc: compute_residual"]}
{"id": "C115", "title": "Pseudo-time steps of the matrix-based reinitialization", "statement": "Each pseudo-time step of LevelSetOKZMatrixSolver::reinitialize solves the implicit Olsson-Kreiss-Zahedi step of length 0.3 min(epsilon_used/epsilon, time step) with diffusion max(epsilon_used, cell size) along unit normals, with full diffusion instead on cells that are a pure phase up to 1e-10 and in diffusive steps; it conserves the content, its matrix is symmetric positive definite, diffusive steps do not increase the L2 norm, the target profile is a fixed point, and the step is defined for every level set.", "quantifier": "all meshes with hanging nodes, all level sets and projected normals, all parameters and step sizes, compressive and diffusive steps, exact solutions of the linear systems", "why_tests_cant": "Normals vanish exactly only for special level sets; a test with an interface never meets them, and the cell-wise switch between compression and diffusion depends on the data.", "anchors": ["source/level_set_okz_matrix.cc: reinitialize (911-1113), compute_normal"]}
{"id": "C116", "title": "Material values and weight in the mixed level set solver", "statement": "After the phase update of MixedLevelSetSolver the flow solver uses, in every cell and at every velocity quadrature point, the density and viscosity of the mixture given by the level set function there, and after the gravity update the user right hand side is the weight of this mixture, independent of earlier contents; all table accesses stay in bounds.", "quantifier": "all meshes, cell numberings of the two MatrixFree objects, velocity degrees and dimensions, level sets, prescribed fluid types, densities and viscosities, histories", "why_tests_cant": "The defects depend on the position of the interface inside a cell, on the numbering chosen by deal.II and on boundary conditions; tests compare against stored output only.", "anchors": ["include/adaflo/sharp_interface.h: MixedLevelSetSolver::update_phases, update_gravity_force, LevelSetSolver (MatrixFree setup)", "include/adaflo/navier_stokes_matrix.h: begin_densities", "source/navier_stokes.cc: initialize_matrix_free"]}
{"id": "C117", "title": "Cahn-Hilliard nonlinear iteration", "statement": "After advance_cahn_hilliard concentration and chemical potential satisfy the discrete equations of the time step up to the nonlinear tolerance, or the failure is reported; at least one and at most max_nl_iteration linear systems are solved. Even without nonlinear convergence the (linear) concentration equation, and hence the balance of the total concentration, holds up to the tolerance of the last linear solve.", "quantifier": "all meshes with hanging nodes and wall faces, coefficients, velocities, old solutions, initial guesses, tolerances, iteration limits, and all linear solvers that report convergence correctly", "why_tests_cant": "Tests run with settings for which the iteration converges; neither the failure path nor the balance after an aborted iteration is observed.", "anchors": ["source/phase_field.cc: PhaseFieldSolver::advance_cahn_hilliard, solve_cahn_hilliard", "source/phase_field_local.cc: compute_residual, vmult, local_vmult, apply_contact_bc"]}
{"id": "C118", "title": "Interpolated pressure fields", "statement": "After interpolate_pressure_field(f, p) the pressure described by p takes the value of f at every node of the pressure space, for continuous and for augmented Taylor-Hood elements, on straight and curved cells, whatever p contained before; functions of the pressure space, in particular constants, are represented exactly (the cellwise constants of augmented elements add nothing).", "quantifier": "all meshes and numberings, mappings of the solver, hanging node constraints, functions, previous contents of the vector, pressure degrees, element kinds", "why_tests_cant": "The only test using it runs on straight cells of one size; curved cells and hanging nodes are an unbounded family.", "anchors": ["source/navier_stokes.cc: NavierStokes::interpolate_pressure_field, constructor (fe_p, mapping)"]}
{"id": "C119", "title": "Level set transport is stable in the mean square norm", "statement": "Without prescribed inflow values, without artificial flux through the boundary and for a velocity whose convective term does not feed the level set (no divergence, no inflow), the mean square norm of the level set does not grow in a transport step of a one-step scheme, and in a run of BDF-2 with arbitrary step size requests through to the (cut) last step it never exceeds ten times (squared) the initial one - for every mesh with hanging nodes, every step size, velocity and non-negative artificial viscosity.", "quantifier": "all discrete spaces, constraints, velocities, artificial viscosities, step requests and numbers of steps", "why_tests_cant": "Unconditional stability ranges over all step size sequences, fields and numbers of steps; a test sees single decaying runs.", "anchors": ["source/level_set_okz_advance_concentration.cc: advance_concentration, local_advance_concentration, local_advance_concentration_rhs", "source/time_stepping.cc: set_desired_time_step, next"]}
{"id": "C120", "title": "Timing sections are nested properly and closed after every call", "statement": "All solvers report to one TimerOutput. Whatever the inputs, a call of the flow solver or of a two-phase solver never enters a section that is already active and never leaves one that is not, and when the call returns - or ends with an exception - the active sections are the ones before the call, so that any history of calls can go on and times are attributed to the right sections.", "quantifier": "all inputs (every condition may take any value, loops run any number of times), all histories of calls, all places where an exception may be thrown, all sections of the caller", "why_tests_cant": "Ranges over all control flow paths, early returns, exceptions and histories; a test follows single paths, and the violation only shows in a debug build, on a rank other than 0, in the second adaptive cycle.", "anchors": ["source/navier_stokes.cc: solve_system, solve_nonlinear_system, evaluate_time_step, compute_initial_stokes_field", "source/two_phase_base.cc: setup_problem, refine_grid, output_solution", "source/level_set_base.cc: advance_time_step, mark_cells_for_refinement, output_solution", "source/phase_field.cc: advance_cahn_hilliard, solve_cahn_hilliard", "applications/drivencavity.cc: output_results, run", "applications/periodic_channel.cc: run"]}
{"id": "C121", "title": "Stationary problems are independent of the time stepping", "statement": "With physical type 'incompressible stationary', a call of advance_time_step solves the discrete stationary Navier-Stokes equations: the nonlinear residual is that of the stationary equations, and every iterate depends on the start value, the coefficients and the forces only - not on the time step sizes, the time stepping scheme, the step number, the fields of earlier steps or the contents of scratch memory.", "quantifier": "all meshes, spaces, coefficients, formulations of convection, forces, linear solvers, numbers of iterations, histories of the clock, old fields and memory contents", "why_tests_cant": "Ranges over all histories and memory contents; a test runs one step size and one scheme, with the parameter check of a debug build.", "anchors": ["source/navier_stokes_matrix.cc: residual, vmult, local_operation", "source/navier_stokes.cc: solve_nonlinear_system", "source/parameters.cc: FlowParameters::parse_parameters", "source/time_stepping.cc: TimeStepping"]}
{"id": "C122", "title": "Writing output does not influence the computation", "statement": "Two runs that differ only in calls of output_solution compute the same: the same solution fields, norms, iteration counts and later output, on any number of processes. For the flow, phase field and sharp-interface solvers no vector of the solver differs. For the level set solvers, whose output_solution casts its const away and computes normals and curvature before the first step, this holds for output after the first step, and for all output if the projections do not depend on their start vector.", "quantifier": "all histories of API calls, parameters, meshes, partitions, contents of the vectors, computations of the routines", "why_tests_cant": "A regression test runs with one output frequency; that any other frequency gives the same fields is a statement about pairs of runs of any length.", "anchors": ["source/navier_stokes.cc: output_solution", "source/two_phase_base.cc: output_solution", "source/level_set_base.cc: output_solution", "include/adaflo/sharp_interface.h: FrontTrackingSolver::output_solution, MixedLevelSetSolver::output_solution"]}
{"id": "C123", "title": "A solver object can be set up again for a second run", "statement": "Calling setup_problem on an object that has already run starts a new simulation: the second run uses the given initial data, takes the same time steps, and reacts to residuals in the same way as a newly constructed object would. (False of the code in several respects: the flow solver does not restart its clock and drops the initial velocity, the clocks inside the level set operators are not restarted, which is a failed assertion in debug mode and a first transport step with wrong weights in release mode, the mesh is refined again, and the step number of the last correction is carried over.)", "quantifier": "all parameters, all earlier runs (any number of steps, step size requests, mesh adaptations, corrections) and all histories of the second run", "why_tests_cant": "The state left by a run depends on its whole history; tests set up every object exactly once.", "anchors": ["source/navier_stokes.cc: NavierStokes::setup_problem", "source/two_phase_base.cc: TwoPhaseBaseAlgorithm::setup_problem", "source/level_set_base.cc: LevelSetBaseAlgorithm::setup_problem, advance_time_step", "source/time_stepping.cc: TimeStepping::restart, next"]}
{"id": "C124", "title": "Balance of the total momentum", "statement": "In a domain where a constant velocity is an admissible test function (periodic, or parallel to symmetry planes), the total momentum changes in a time step by the step size times the total force minus the momentum flux through the boundary; without force and flux it is the same after any number of steps. Viscosity, grad-div stabilization and pressure do not contribute. (False of the code for the convective and skew-symmetric formulations of the convective term, and for variable density.)", "quantifier": "all meshes and quadratures, states, coefficients, time integration schemes, step size requests, linearizations, formulations of the convective term and numbers of steps", "why_tests_cant": "A balance over arbitrary meshes, fields and step sequences; a test compares one simulation with a tolerance.", "anchors": ["source/navier_stokes_matrix.cc: NavierStokesMatrix::local_operation", "source/navier_stokes.cc: NavierStokes::compute_residual", "source/time_stepping.cc: TimeStepping::next"]}
{"id": "C125", "title": "A turned or mirrored problem has the turned or mirrored solution", "statement": "Turning or mirroring mesh, initial data, boundary data and forces turns or mirrors the solution: the flow residual and matrix entries, transport, artificial viscosity, reinitialization, curvature are the same numbers, velocities, normals and surface forces are the turned vectors. In the phase field solver the Cahn-Hilliard residual is the same and the capillary force is turned. Gravity always acts along the last coordinate, so with gravity this holds for rotations and reflections that keep the vertical axis.", "quantifier": "all rotations and reflections in one, two and three dimensions, all meshes with hanging nodes, states, histories, coefficients, physical types, linearizations, linear solvers, clocks and sequences of time steps", "why_tests_cant": "An error in one component (a wrong index pair of the symmetrization, a component loop that stops early) is invisible in a test whose flow is aligned with the axes; the claim ranges over all rotations.", "anchors": ["source/navier_stokes_matrix.cc: NavierStokesMatrix::local_operation", "source/level_set_okz_advance_concentration.cc: advance_concentration, local_advance_concentration, local_advance_concentration_rhs, advance_concentration_vmult", "source/level_set_okz_reinitialization.cc: local_reinitialize, local_reinitialize_rhs", "source/level_set_okz_compute_normal.cc: local_compute_normal_rhs", "source/level_set_okz_compute_curvature.cc: local_compute_curvature_rhs", "source/level_set_okz.cc: local_compute_force", "source/phase_field_local.cc: local_residual, apply_contact_bc, local_compute_force"]}
{"id": "C126", "title": "Results do not depend on the units of the input", "statement": "Converting all data to other units of mass, length and time converts the results: a sequence of calls on the time stepping with times in another unit reports the same times in that unit, takes the same decisions (last step, ticks, restarts) and gives weights divided by it; the flow residual of converted data is the converted residual, so converted solutions solve the converted problem, in all time steps; a transport step and a pseudo-time step of the reinitialization with converted coefficients give the same level set. The origin of the time axis is not free, and three coefficients of the level set depend on the units: nodes whose level set gradient is below the fixed number 0.01 get no normal in the curvature, the artificial viscosity depends on the unit of length, the pseudo-time step on the ratio of the units of length and time.", "quantifier": "all units, parameters and call sequences of the time stepping (including calls with bad arguments), meshes, states, histories, coefficients, physical types, linearizations and formulations", "why_tests_cant": "Tests fix one set of units; a tolerance of 1e-12 instead of a relative one, or a factor of density missing in one term, shows only in other units.", "anchors": ["source/time_stepping.cc: TimeStepping::next, set_desired_time_step, set_time_step, restart, at_tick", "source/navier_stokes_matrix.cc: NavierStokesMatrix::local_operation", "source/level_set_okz_advance_concentration.cc: advance_concentration, advance_concentration_vmult, local_advance_concentration_rhs", "source/level_set_okz_reinitialization.cc: local_reinitialize, local_reinitialize_rhs", "source/level_set_okz_compute_curvature.cc: local_compute_curvature_rhs"]}
{"id": "C127", "title": "A force that a pressure can balance changes only the pressure", "statement": "Adding the gradient of a discrete pressure to the force changes the pressure of the solution by that pressure and nothing else: velocities of all time steps, all residuals, all linear systems and increments of the nonlinear iteration stay the same, whatever pressures the old solutions contain.", "quantifier": "all meshes, discrete pressures (another one in every step), states, histories, coefficients, physical types, linearizations, formulations, sequences of time steps", "why_tests_cant": "A test can try one hydrostatic field; an error such as a pressure entering the convective term or the stored linearization, or a pressure missing from one diagonal entry, shows only for general pressures and states.", "anchors": ["source/navier_stokes_matrix.cc: NavierStokesMatrix::local_operation, residual, vmult"]}
{"id": "C128", "title": "Stokes flows superpose", "statement": "In Stokes problems solutions add and scale with the forces, reversed forces reverse the flow, and the history has no influence. With inertia this does not hold.", "quantifier": "all meshes, combinations, forces, states, histories, coefficients, formulations", "why_tests_cant": "The claim ranges over all pairs of problems and all factors; a test shows it for one pair.", "anchors": ["source/navier_stokes_matrix.cc: NavierStokesMatrix::local_operation, residual"]}
{"id": "C129", "title": "Exchanging the two fluids does not change the flow", "statement": "Describing the same two-phase problem with the fluids exchanged (level set, boundary values and normals with opposite sign, material data exchanged) gives the same flow: transport and reinitialization give the reversed level set, artificial viscosity is the same, normals and curvature are reversed, density, viscosity, surface tension and gravity are the same in every point. The same holds for the phase field solver (concentration, potential and contact angle reversed): residual reversed, density, viscosity, capillary force and gravity the same. With the curvature correction switched on this does not hold: only positive curvatures are corrected.", "quantifier": "all meshes with hanging nodes, level sets, velocities, clocks, step requests, material data, with and without stabilization and interpolation to the pressure space", "why_tests_cant": "A test compares two runs of one problem; a sign lost in one place (a normal used without its sign, a maximum without absolute value) shows only for some geometries.", "anchors": ["source/level_set_okz_advance_concentration.cc: advance_concentration", "source/level_set_okz_reinitialization.cc: local_reinitialize, local_reinitialize_rhs", "source/level_set_okz_compute_normal.cc: local_compute_normal_rhs", "source/level_set_okz_compute_curvature.cc: local_compute_curvature_rhs, compute_curvature", "source/level_set_okz.cc: local_compute_force", "source/phase_field_local.cc: local_residual, apply_contact_bc, compute_residual, local_compute_force"]}
{"id": "C130", "title": "The algebraic multigrid is told the right points and constant fields", "statement": "When the preconditioner is set up with algebraic multigrid (velocity block with u_amg/u_amg_linear, pressure Poisson), the coordinates handed over are, on every process, one row per space direction with exactly one entry per locally owned unknown, in the order of the owned unknowns, each being the support point of that unknown; with at least two components the handed near null space has one vector per component and contains every field that is constant in each component.", "quantifier": "every set of locally owned unknowns (contiguous or not), every list of active cells in any order with own and ghost cells and shared unknowns, every dimension, every assignment of unknowns to components, every constant vector", "why_tests_cant": "the index translation between global, local-on-cell and position-in-owned-set must be right for every partition and numbering; a wrong entry only degrades convergence, so no test fails", "anchors": ["source/navier_stokes_preconditioner.cc: Precondition_LinML::initialize, get_nodal_points, NavierStokesPreconditioner::compute, initialize_matrices"]}
