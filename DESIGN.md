# Formal model of adaflo in Lean 4 — design

## Scope and method

The C++ code in /repo is read as text; every Lean definition under `lean/Verif/` cites the file and
lines it models.  A component is split in up to three files: `Model` definitions (what the code
does, function by function), `Spec` definitions (small, independent vocabulary for stating the
property) and theorems.  Solver libraries (deal.II, Trilinos) are treated as *oracles*: the theorems
quantify over everything they may return.

## Trusted base

* Lean 4.33.0 kernel and Mathlib; axioms used by the theorems: at most `propext`,
  `Classical.choice`, `Quot.sound`.  No own axioms, no compiled-code proof methods.
* The reading of C++ as Lean definitions.  Main simplifications:
  * `double` is modelled by an arbitrary linear ordered field (or by the reals where sqrt, tanh,
    log, arcsin occur): IEEE rounding, overflow, NaN and infinities are not modelled.
  * `unsigned int`/`int` are modelled by `Nat`/`Int` without wrap-around unless a definition says so.
  * `Assert` (debug only) and `AssertThrow` (always) are distinguished where they matter.
  * MPI is modelled by the list of per-rank data and folds for reductions.
  * finite element evaluation/integration, meshes, linear solvers, AMG/ILU are oracles.
* `AXIOMS.md` (generated) lists the axioms of every claimed theorem; `MODELLED.md` (generated) lists per source file the
  lines that are cited by the model, everything else is not modelled.
* Not modelled: file/stream I/O, timers, memory statistics, mesh generation, FE assembly internals.

## Plan per property

* **C01 Simulated time never passes the final time** — Time.Stepping: record with all members of TimeStepping, next/set_desired_time_step as total functions over an arbitrary linear ordered field; induction over reachable states with invariant now<=final.
* **C02 Every step advances time and the reported step is the real increment** — same model; per-call theorem over reachable states.
* **C03 The time loop terminates and hits the final time exactly** — same model; strictly decreasing measure, bound via Nat.floor (Archimedean field).
* **C04 Step sizes respect the configured limits** — same model; case analysis with linear arithmetic.
* **C05 Time derivative weights differentiate polynomials exactly** — same model plus ghost list of visited times; polynomial identities by field_simp/ring; counterexample over Q for changed steps. Constant steps: C05_constant_steps_exact (induction over the steps from the constructor).
* **C06 Extrapolation to the new time level** — as C05.
* **C07 restart() replays the original run** — same model; simulation relation between restarted and fresh object (agreeing on all members except prev/weights), induction over any continuation.
* **C08 Output ticks are hit exactly once per interval for aligned steps** — at_tick over an Archimedean floor field; int() as truncation; arithmetic.
* **C09 Boundary registration touches only the given boundary id and keeps the last value** — Boundary: descriptor as finite maps (functions id -> Option), operations as state transformers, fold over call lists.
* **C10 Clearing boundary conditions returns to an empty description** — Boundary: theorem for cleared members; counterexample for fluid_type/periodic.
* **C11 Setup rejects exactly the contradictory boundary ids** — Boundary: setup check as boolean function over the descriptor following the loops; iff with declarative conflict predicate.
* **C12 Accepted parameter files yield consistent parameters** — Parameters: post-processing part of parse_parameters as function Except; per-field theorems.
* **C13 Output file names never collide** — Output: file names as strings (padding through Nat digits); injectivity proofs.
* **C14 Outputs at successive ticks get successive cycle numbers** — Output: floor arithmetic.
* **C15 Diagonal preconditioner is the guarded inverse of the diagonal** — DiagPrecond: lists/functions over ordered field.
* **C16 Diagonal preconditioner mode follows the last reinit** — DiagPrecond: state machine with both members.
* **C17 Component-wise ILU applies the scalar operator per component independent of numbering** — ComponentILU: gather/apply/scatter over index function; injectivity hypothesis.
* **C18 Sub-element index tables are complete and in range** — SubElements: Nat index arithmetic, bijection proofs.
* **C19 Pressure Poisson product leaves its input intact and treats pinned dofs diagonally** — PressurePoisson: imperative loops as folds over Function.update.
* **C20 Block preconditioner inverts the block-triangular matrix** — BlockPrecond: linear maps over modules.
* **C21 Applying the velocity or pressure operators leaves the linearization data intact** — Buffers: state machine with four swapped buffers; theorem for AMG kinds, counterexample for ILU kinds.
* **C22 Cahn-Hilliard block preconditioner inverts its reference matrix** — PhaseField: linear maps over a module.
* **C23 Linear solver respects the iteration budget** — LinearSolve: oracle model of SolverControl (any behaviour), arithmetic on budgets.
* **C24 Nonlinear iteration: normal return means converged** — Nonlinear: loop with oracle residuals; induction on fuel/iterations.
* **C25 Preconditioner rebuild policy** — Nonlinear: same loop with trace of rebuilds.
* **C26 Initial Stokes solve restores the flow parameters** — InitialStokes: state + exception monad, for the copy of the parameters in the flow solver (what matrix and preconditioner see is C111).
* **C27 Solution history holds the last accepted time levels** — History: shift registers with oracle results; induction over steps.
* **C28 Pressure average projection** — PressureMean: bilinear form on functions over Fin n / modules.
* **C29 Newton linearization is the exact Jacobian** — PointOperator: tensors as functions Fin d -> K and matrices; identity by ring/Finset lemmas.
* **C30 Constrained degrees of freedom act as identity** — Constrained: fold of assignments.
* **C31 Material fields stay between the two phase values** — Materials: clamp lemmas; counterexample for the unclamped indicator.
* **C32 Smoothed Heaviside function** — Heaviside over the reals.
* **C33 Smoothed delta function** — Delta over the reals.
* **C34 Cutoff function** — Cutoff over the reals.
* **C35 Heaviside reconstruction from the level set is monotone and order independent** — HeavisideField: cell loop as fold over visiting order; partial theorem under the parameter condition 3*eps>=subdivisions, counterexample otherwise.
* **C36 Bubble area fractions** — Marching: function of four corner values; counterexample for saddle.
* **C37 Sub-cell weights form a partition** — Marching: sums over Finset.
* **C38 Interface points are gathered completely and in rank order** — Gather: lists with encode/decode.
* **C39 Refinement marking keeps levels within bounds** — Refinement: flags function and abstract adaptation history.
* **C40 Level set and flow clocks stay synchronous** — Clocks: two TimeStepping objects driven in lock step; simulation.
* **C41 Reinitialization clock** — Clocks: counterexample and positive part (no extra reinitializations).
* **C42 Collected surface quadrature points are grouped without loss** — Collect: sort + CSR compression on lists.
* **C43 Total surface force is conserved by the distribution to cells** — Collect: sum theorem for the unique-cell variant, counterexample for the multi-cell variant.
* **C44 Surface tension force is proportional to the surface tension coefficient** — SurfaceForce: pointwise formulas; counterexample for the mixed variant.
* **C45 Cahn-Hilliard product is the exact Jacobian of the residual** — PhaseField pointwise algebra.
* **C46 Initial interface profiles are equilibria** — Profiles over the reals (tanh derivative).
* **C47 Parallel cell size computation is partition independent** — CellDiameter: reductions over partitions of lists.
* **C48 Adaptive step formula** — AdaptiveStep: formulas; counterexample for density/viscosity mix-up.
* **C49 Reinitialization step count** — Reinit: loop with oracle update norms.
* **C50 Curvature correction** — Curvature: field identity.
* **C51 Pressure pinning picks a free boundary dof, the same on all ranks** — Precond.Pressure: per-rank search and max-reduction on lists; partial theorem, counterexample for a constrained lowest dof.
* **C52 Cahn-Hilliard preconditioner belongs to the current time step weight** — PhaseField.Precond: state machine (clock, weight at assembly), induction over histories.
* **C53 Cahn-Hilliard step conserves the total concentration** — PhaseField.Jacobian: test the model residual with the constant; weights sum lemma from Time.Sums. `C53_total_conserved_run`: whole runs with the configured step size, any number of steps.
* **C54 Surface mesh is transported for the simulated time** — Time.Clocks: induction over runs; counterexample for a shortened last step. Sharp.SurfaceTime: the clock together with the surface motion of Sharp/Transport.lean in the order of the calls, positions of the nodes over a run.
* **C55 External force of a step holds nothing of earlier steps** — Sharp.Force: assembly as folds over cells and points; induction over step histories. The mixed level set solver is treated separately (C116).
* **C56 Surface tension force is independent of the orientation** — Sharp.Force: pointwise formulas, normal and curvature from nodal values.
* **C57 Every surface node is moved exactly once per step** — Sharp.Transport: fold over cells with a bookkeeping of visited nodes.
* **C58 Reported cell sizes are bounded by the stretching of the cell** — Mesh.CellDiameter: eigenvalues of real matrices over the complex numbers; counterexample for turned local axes.
* **C59 Steady flows are preserved by the time stepping** — Operator.Steady: point operation with the weights of the clock; counterexample for the other schemes in release mode.
* **C60 Kinetic energy does not grow in a closed system** — Operator.Energy: power balance at a point, summed over the quadrature points; energy identities of the schemes. Whole runs: C60_euler_energy_run, C60_bdf2_energy_run. `C60_bdf2_any_step` (energy identity with unequal steps) and `C60_bdf2_bounded_run` cover the last, cut step.
* **C61 Velocity preconditioner matrix represents the linearized operator** — Precond.Assembly: contribution of a quadrature point with division by zero as a distinct outcome; comparison with Operator.Point.
* **C62 Pressure preconditioner matrices are symmetric and definite** — Precond.Assembly over the reals (square roots of the weights).
* **C63 Inner linear tolerances fit the nonlinear tolerance** — `Nonlinear/Loop.lean`: invariant of the loop relating the recorded tolerances to the residual before each solve.
* **C64 A transport step of the level set solves the discrete transport equation** — Modelled in LevelSet/Advect.lean on the abstract finite element loops of FE/Space.lean (shape values and gradients at quadrature points, constraints as rows, read/distribute/scatter of MatrixFree). Residual and vmult are modelled separately from the two code paths; the theorem compares them with an independent weak form `Spec.transport`. Proof: bilinearity, pairing of the scatter with the resolved test function.
* **C65 Level set transport conserves the content and keeps constants** — LevelSet/Advect.lean: corollary of C64 with the test function one and the consistency of the weights (C05); induction over the run. The exact statements assume only that weight() is exact (not that it was reported as changed, which is false in most steps of a run with constant steps), C65_content_conserved also bounds the deviation otherwise.
* **C66 Artificial viscosity of the level set transport is bounded** — LevelSet/ArtificialViscosity.lean: arithmetic with NaN and infinity (`Fl`) for the divisions by the old step size and by the global scaling; bounds by induction over the quadrature points.
* **C67 Reinitialization conserves the content of the level set** — LevelSet/Reinit.lean: test function one in the scattered right hand side and product; induction over the steps. Whole run with transport: LevelSet/Content.lean, C67_content_conserved_whole_run and C67_content_conserved_constant_steps.
* **C68 Reinitialization steps: weak form, symmetric positive matrix, decay and equilibrium** — LevelSet/Reinit.lean: pairing lemma, energy argument with nlinarith.
* **C69 Projection of the normals is stable and exact for linear level sets** — LevelSet/NormalCurvature.lean: both code paths modelled separately, compared via the pairing lemma; energy estimate.
* **C70 Curvature from nodal unit normals** — LevelSet/NormalCurvature.lean: batches as an arbitrary partition of the cells, skip of batches with vanishing normals; the projection from C69.
* **C71 A fluid at rest stays at rest: surface tension and gravity are balanced by the pressure** — LevelSet/Balance.lean: force integral of level_set_okz.cc with both evaluation variants, residual from Operator.Point; integration by parts as property of the pair pressure/test function; counterexample without the interpolation. LevelSet/Interpolation.lean: the interpolation matrix as filled by the constructor (three kinds of elements, two numberings); nodal values, exactness on pressures, global pressure vector on conforming meshes by continuity, static droplet for a pressure of the pressure space; counterexample at a hanging node.
* **C72 Transport step of the matrix-based level set solver solves the conservative transport equation** — LevelSet/MatrixAdvect.lean: assembled entries and right hand side with distribute_local_to_global, pairing with resolved test functions; counterexample with convection stabilization. `C72_content_conserved_run`: whole runs with the configured step size, any velocities; `C72_constrained_unknowns`: the linear system at constrained unknowns.
* **C73 Prescribed fluid types are imposed at the boundary** — LevelSet/FluidType.lean: state machine over API events for the three solvers, fluid types as in Boundary.Model; induction over the steps; the increments of linear solves are arbitrary vectors passed through the constraints. Changes of the mesh: arbitrary new mesh and linear transfer of the fields, new constraints.
* **C74 Prescribed velocities and constraints hold after every time step** — module Boundary/Velocity.lean: history of calls, setup, Stokes solves and steps with arbitrary linear solver results; invariant by induction over updates. The specification of the prescribed condition reuses the 'last call since clearing' spec of C09, not the maps of the code. Counterexample C74_late_registration: conditions registered after the setup are not kept. Changes of the mesh: arbitrary new mesh, constraints and fields.
* **C75 The fixed pressure level** — module Boundary/Pressure.lean: search per process, minimal index, MPI maximum, shift by the constant mode and distribution of hanging nodes, embedded in a history of calls, setup and solves with arbitrary solver results (coupled schemes). Finding: which face is used depends on the distribution of the cells (C75_partition_dependence), so with a non-constant error the pressure level differs between numbers of processes. Changes of the mesh: arbitrary new mesh, permutation and transferred field.
* **C76 Pressure history of the projection scheme** — Projection/History.lean: state machine of the pressure vectors (swap, rotation of the increments) on top of Time.Model; induction over steps. Findings: the first step discards the initial pressure (C76_initial_pressure_lost); in steps 2 and 3 of BDF-2 and after every change of the step size the weights of the increments do not fit (C76_second_step_defect), the defect is given exactly by C76_defect.
* **C77 Linearization point of the velocity equation in projection steps** — Projection/Velocity.lean on the storage model Operator/Buffers.lean: histories of steps as lists of calls. The linearization point is that of the last rebuild of the preconditioner (C77_uses_last_rebuild), so the statement holds only for steps with a rebuild (counterexample C77_stale_linearization); with u_ilu the storage is lost after the first step (C77_ilu_second_step).
* **C78 Preconditioner objects exist whenever a solver uses them** — Precond/Objects.lean: presence of every pointer and pattern as state, events with arbitrary policy decisions, invariant Ready/Built, iff by induction. The two parameter objects (copy in the flow solver, object of the caller read by the preconditioner) are part of the model. Findings as theorems: C78_projection_component_ilu, C78_stokes_parameters_do_not_arrive.
* **C79 Outer Krylov solver fits the preconditioner** — Precond/Objects.lean: log of outer solves with the operations of vmult, invariant by induction.
* **C80 Open boundaries exert exactly the prescribed pressure of the current time** — Lean module Boundary/Open: OpenMesh.constRhs as a fold over boundary faces with the Map of C09 and Constr.scatter of FE.Space; OpenState history machine with the time stepper of C01. C80_open_boundary_term by the pairing scatter/distribute adjointness and C09; C80_rest_with_open_boundary with the point residual of C12; integration by parts (exact quadrature) is a hypothesis of the latter.
* **C81 The pressure Poisson matrix for augmented Taylor-Hood elements is a symmetric interior penalty form** — Lean module Precond/AugmentedPoisson: cell matrices as folds over face views, global entries, resolution of constraints (Constr.scatter in both arguments). Spec.sip is the interior penalty form over a list containing each interior face once; Spec.SameFace says when two views are of the same face. Proved by pairing (form_scatter), a per-view computation and a permutation of views into faces. C81_definite by Young's inequality under the trace inequality. Counterexample at process borders. Precond/AugmentedCoefficients: coefficients computed from the parameters (rho_weight, time_weight, face density); definiteness for all densities and steps under a purely geometric trace inequality; indefinite matrix for stationary flow of density 1/8.
* **C82 Coupling of level set and flow within a time step** — TwoPhase/Step.lean: state machine over abstract kernels with a ghost log of flow solves and adaptations; invariants by induction over the history.
* **C83 Coupling of phase field and flow within a time step** — TwoPhase/Step.lean: same technique as C82. The statement about face densities is false of the code: compute_density_on_faces has no caller; force and material tables are proved, the defect is proved as C83_phase_field_faces_unset.
* **C84 Operator results do not depend on the splitting of the cell loop** — Operator/CellLoop.lean: pointers as offsets into the arrays, loop over a range as a fold, cell loop as a fold over ranges; invariant: pointer = cell * n_q_points. The statement is false of local_divergence with variable viscosity, which never advances its pointer: C84_divergence_formula says what it computes and C84_divergence_depends_on_ranges gives two splittings with different results.
* **C85 Kernel dispatch fits the elements and quadrature of the mesh** — Operator/Dispatch.lean: macros as decision chains, MatrixFree setups as index tables, evaluators of all kernels as lists; proof by cases on the chain. False of PhaseFieldSolver::vmult, which has no AssertThrow (C85_phase_vmult_silent); C85_phase_step_guarded shows that the residual throws first.
* **C86 Bubble statistics are weighted means independent of the parallel partition** — Bubble/Statistics.lean: cells as records of the values read, the loops as folds over Marching.lean patches and Weights.lean weights, MPI sums over a list of ranks; proof by projecting the fold to each accumulator. Range, area and perimeter statements are false with saddle sub-cells (negative weight, four segments in the perimeter, one recorded): C86_saddle_counterexample. The printed centre of mass is zeroed by comparing the integral with the diameter (C86_printed_centre_depends_on_bubble_size).
* **C87 Matrix-free pressure operators are symmetric weak forms and agree with the assembled preconditioner matrices** — Operator/PressureOps.lean: the cell loops over FE.Space with constraints; every theorem from one pairing lemma (dst, v) = form(dist x, dist v) + constrained part, over ordered fields. Solvers enter as hypotheses (the linear system holds). FINDING: the mass operator uses the mid-point viscosity, the assembled matrix the local one: different matrices when the viscosity varies in a cell (C87_mass_is_not_the_assembled_one).
* **C88 Reported level set range, maximal velocity and diameter are true extrema and reporting does not influence the computation** — LevelSet/Ranges.lean: folds with max/min over cells and processes; FE_Q_iso_Q1 as recursive tensor product of hat functions, bounds by partition of unity; node k/m sampled iff m divides 2k. FINDINGS: for three or more subdivisions nodal overshoots are missed (C88_range_misses_overshoot); last_concentration_range, which steers the number of diffusion steps, is only updated when the statistics are printed (verbosity > 0), so output verbosity changes the solution (C88_verbosity_changes_computation).
* **C89 Cahn-Hilliard steps dissipate the free energy and hand the matching material data and capillary force to the flow** — PhaseField/Energy.lean: assembled residual blocks with two constraint objects and flat wall-face arrays; residuals tested with w and the increment give an exact energy identity; decay from Young and the semiconvexity of the double well. FINDINGS: local_compute_force reads concentration and potential with homogeneous constraints, so at boundaries with prescribed fluid the mean of both phases is used (C89_inflow_material, C89_inflow_density_wrong; level_set_okz.cc uses the plain variant); the contact-angle term uses polynomials of FE_Q on faces although the element is FE_Q_iso_Q1, so for two or more subdivisions it is not the trace (C89_trace_degree_two_wrong). Two-step runs (PhaseField/EnergyBdf2.lean): the first equations of all steps are summed to a discrete flux potential ψ of the increment (ψ_new = L²/w·w + oo/w·ψ_old), energy plus oo/(2L²)|∇ψ|² is a Lyapunov function; the clock weights are derived from TimeStepping::next by induction. `C89_complete_run` includes the last step.
* **C90 Sparsity patterns contain every entry that assembly writes** — Precond/Pattern.lean: local blocks with index maps, distribution with constraints as double scatter, patterns as sets of resolved pairs with masks; projection mask from products of FE_Q_iso_Q1 shape values (a function vanishing at an interior point of a subcell has zero gradient there). FINDING: phase_field.cc:255 builds the pattern without the constraints although the matrix is assembled with them, so couplings between masters of hanging nodes and cells that do not contain them are missing (C90_phase_field_missing).
* **C91 The pressure Poisson operator of the preconditioner is one operator, symmetric positive definite** — `Verif/Precond/Wrapper.lean`: constraints as closed rows, `add_line`/`close`, `pins` (C19), assembly with constraints (C90), matrix-free product (C87). Proof by the transpose property of scatter and dist, and the quadratic form of C87.
* **C92 Normals of the matrix-based level set solver belong to the current level set** — `Verif/LevelSet/MatrixNormals.lean`: state machine with numbered level sets and a ghost log of reads. Exact log of `reinitialize` by induction over the steps; invariant over call lists for the curvature; counterexample for every state after force + transport.
* **C93 Normals, curvature and force of the matrix-based level set solver** — `Verif/LevelSet/MatrixForce.lean`: cell loop with carried cell matrix, assembly with constraints (C90/C91 definitions), projection of C69, force of C71. Induction over the cells for the carried matrix; weak form and Young's inequality for the curvature; Jacobian algebra for the force.
* **C94 Mesh adaptation keeps the flow solution and its history** — `Verif/Mesh/FlowAdapt.lean`: state machine of the solver object with vectors tagged by mesh generation, exceptions as `none`; specification: a scheme that only knows fields and moves each of them. Simulation proof by induction over the history; levels by induction over the adaptations with the specification of execute_coarsening_and_refinement of C39.
* **C95 Phases of the front tracking solver** — `Verif/Sharp/Phases.lean`: polygon from the cells, boost::geometry::within as winding number (specified). Separation by crossing counts and telescoping, interior by monotony of the slope along the closed path, exterior of a convex polygon by an explicit separating line.  The field variant (GridTools::within for a background DoFHandler) is modelled as writes per cell, C95_indicator_field by induction over the writes.
* **C96 Normals and curvature of the surface mesh in front tracking** — `Verif/Sharp/SurfaceCurvature.lean`: cell loops with set_dof_values, surface gradient J (J^T J)^-1 of the FE field, numbering of FE_Q and QGaussLobatto as documented by deal.II. Sphere, flat and motion by matrix algebra, the formula for curves by differentiating the unit normal, the node order by a counterexample for every degree of at least two.
* **C97 Statistics log of the micro-particle application** — `Verif/App/ParticleLog.lean`: time loop with the TimeStepping model of C01-C05, buffer, first_output flag and file system. Invariant history = written ++ buffer, termination from C03, names by decoding the decimal digits.
* **C98 Lid driven cavity: boundary velocity and centre-line output** — `Verif/App/CavityLines.lean`: axis-parallel cells obtained by refinement, the two sampling loops, message packing. Invariants: every point in exactly one cell, every cell aligned with the centre planes (so the tolerance test is exact and no cell crosses the line); message slots are injective.
* **C99 Graphical output of the level set solvers shows every field under its own name** — Model: the copy loop over cells and joint shape functions on every rank with rank-local views of the vectors, the list of names and interpretations, and the indicator formulas with log 0 = -infinity and 0/0 = NaN. Proof: invariant of the two nested folds (a written joint dof holds the expected value; owned dofs get written), given deal.II's guarantee that joint dofs are pairs of base copy and base dof. Partial because Biased_refine looks ahead with factor 20 and marking with factor 4 (counterexample: a cell shown as refined is coarsened), and the direction is NaN where the normal vanishes.
* **C100 Periodic channel application: mesh, initial field, boundary conditions and driving force** — Model: mesh vertices as reals, initial field with undefined coordinates as none, boundary calls on the descriptor of C09-C11, force assembly by the cell loop and the sign convention of residual(). Proofs: tanh difference formula, hyperbolic addition theorems, kernel computation on the descriptor, exchange of sums. Partial: in 2D the program reads a third coordinate and throws, the initial field is not divergence free, and the force is directed against the initial flow (theorem for all spaces and velocities).
* **C101 Micro-particle application: geometry, inflow and particle** — Model: the id tests as real comparisons on face centers, the calls on the boundary descriptor of C09-C11, the boundary function with ramp. Proofs: linear arithmetic per piece, kernel computation on the descriptor, monotonicity of sine. Partial: in 3D the velocity at inlet 2 has a component along z of the same size (counterexample for all positive times); the parameter pressure constraint has no effect (theorem).
* **C102 Mesh adaptation of the two-phase solvers: history and conformity** — Model: the solver object with generation tags of dofs, constraints and vectors, block vectors of two blocks with AffineConstraints::distribute by global index, the order of the four transferred vectors; results of linear solves arbitrary. Specification: evolution of two fields with history (Spec.next). Proof: simulation by induction on the run; conformity by closedness of constraints and linearity of the defect. Partial: conformity holds for the concentration (if the initial mesh has no hanging nodes or adaptive refinement is on) and the curvature, but not for the chemical potential: distribute on the block vector with lines for the first block only leaves the second block alone, and the violation is extrapolated linearly in time for ever (theorems C102_potential_defect_linear, C102_potential_never_conforming); without adaptive refinement the initial function on a locally refined mesh is never made conforming (C102_initial_defect_persists).
* **C103 Parallel runs: no outdated ghost values, same results as on one process** — Model (Verif/Parallel): distributed vectors (owned entries, copies per process, ghosted flag) with the operations of deal.II as a small language; every routine transcribed as a program over 41 vectors; kernels uninterpreted (arbitrary functions of what the process reads), so that one outdated read anywhere falsifies the statement. Specification: the same program in one memory (`shared`), in which ghost operations do nothing; C103_one_process shows that a one-process run is that. Proof: a status analysis of programs proved sound once (Prog.sound), evaluated by the kernel for all parameter combinations, and induction over histories with invariants. Trusted semantics of deal.II: whole-vector arithmetic renews ghosts of a flagged result; operator= renews if either side is flagged, else clears; assignment of zero clears; cell_loop imports sources that are not flagged and resets them, and requires an unflagged destination; access to a foreign entry of an unflagged vector asserts; interpolate requires an unflagged vector; distribute leaves unspecified ghosts; DataOut copies its vectors (>= 9.3). Simplifications: cells that set a shared entry agree on its value (C35), one vector for the dim blocks of the normal, Krylov solvers with the vectors that matter for ghosts. Partial: false with convection stabilization (C103_stabilization_stale: BiCGStab on two processes gives another result), for output with the projection scheme and open boundaries (C103_open_projection_stale), for output or a second refinement right after a mesh change (C103_adapted_asserts); the phase field solver relies on distribute not leaving old ghosts (C103_distribute_matters).
* **C104 External force of the sharp interface solvers does not depend on the number of processes** — `Verif/Parallel/Surface.lean`: distributed vectors as one array per process, `compress(add)`, the three surface tension routines process by process on top of C42's arrays, gravity loop with zero_out, set_zero, several time steps. Theorems compare with a sum over the whole domain that mentions no process. True for marching cubes and for the mixed solver with a distributed surface mesh. Front tracking: true whenever the step runs through (`C104_front_partial`), but it fails as soon as a surface point lies in a ghost cell with an entry the vector does not store (`C104_front_fails`; tests/sim_spurious_currents.cc asserts a single process). Mixed solver with a serial surface mesh (as in tests/sim_rising_bubble.cc): the surface tension is `n` times too large on `n` processes (`C104_mixed_replicated_violated`).
* **C105 The clock works in floating point arithmetic** — `Verif/Time/Rounding.lean`: an abstract rounding (monotone projection with relative error u) and its instance round-to-nearest with p+1 bits and unbounded exponent. `Verif/Time/Float.lean`: the functions of `Verif/Time/Model.lean` with every operation rounded; with exact rounding they are the old model (`exact_next`, `exact_desired`, `exact_tick`). Induction over call histories. The range claim holds for all steps; progress, termination and accuracy need steps above 200 u max(|start|,|final|); `C105_stall_double` (the time never advances) and `C105_end_unnoticed_double` (final time shown but at_end() never true) show in double precision that they fail below. Ticks: up to 90000 steps in double precision. Overflow, underflow and the range of `int` in at_tick are not modelled.
* **C106 A parameter file means what it says** — Model (Parameters/File.lean): the ParameterHandler as a state (entries with patterns, sections, current section), the calls of declare_parameters as a list in the order of the code, the .prm reader, the JSON reader with skip_undefined, the choice of the reader by the ending, the get calls section by section with enter/leave, then Parameters.parse (C12). Specification (FileSpec.lean): table of entries, assignments of a file, last value, validity. Proof: invariant "entries = table with the last values" through declaring and both readers (induction over statements / trees), then the get calls one by one.
* **C107 Collecting data on process 0 works under every schedule of the processes** — Model (Parallel/Exchange.lean): each process a list of operations (the code of one call, repeated), one FIFO channel per sender for MPI_Gather and one for the tag, step relation with post / receive / rendezvous / local steps. Proof: invariant "what is under way plus what the sender still does = what process 0 still expects, message by message", preserved by every step; progress and a decreasing measure follow. This removes the simplification of C38 and C98 that sender and receiver work in step.
* **C108 The matrices behind the preconditioners are assembled from the cells independently** — Model (Precond/AssemblyLoop.lean): every assignment to the scratch matrices in the order of the code, products, calls of distribute_local_to_global with their unknowns, pointers advanced per batch, thread-local scratch data, stack arrays with arbitrary content. Proof: every entry that is read is covered by an assignment of the same cell, except the entries outside the diagonal blocks of the velocity matrix and one entry of the face matrix, which are zero by an invariant; induction over sub-elements, faces, lanes, batches, calls. Values (Precond/AssemblyValues.lean): closed form of every filled matrix, then of the products, against weak forms written with sums.
* **C109 The velocity preconditioner is the same operator with and without inner solves** — Model (Precond/VelocityApply.lean): both branches of vmult with the function that is really called - the solver calls vmult, which ComponentILUExtension inherits, not multiply - and views of Trilinos on the first entries of the vectors. Proof for all variants but the component-wise ILU; the component-wise ILU is proved without inner solves and refuted inside the inner solver; that case is shown to be reachable with the object model of C78.
* **C110 The solution fields determine the rest of a run** — Model: the programs of C103 (Parallel/Programs.lean) executed in one memory. Proof: a static analysis of which vectors of two executions agree (Parallel/Determined.lean) is proved sound by induction over programs, loops with any number of rounds included, and evaluated on the routines for all parameters; the theorems follow by induction over the history of calls (Parallel/DeterminedRuns.lean) and, with C103, for different numbers of processes. Cell-wise data and preconditioner matrices belong to the scalars.
* **C111 All parts of a solver use the same parameters, and the initial Stokes field solves the Stokes equations** — Model (Operator/StokesField.lean): the two parameter objects, the object every class is bound to, the arrays of variable coefficients, calls that change them with the state recorded at every nonlinear solve. Proof by induction over histories; the integrands are those of Operator/Point.lean and the entries of the preconditioner those of Precond/Assembly.lean.
* **C112 The operators of the level set solvers work on the right, current vectors** — Model (LevelSet/Wiring.lean): heap of vector objects with addresses, layouts (mesh, space) and values of any type; block vectors as lists of addresses that move when the number of blocks changes; constructor parameters, member initializers and arguments of every operator; setup and step operations. Proof: invariant over histories (addresses fixed since construction; everything belongs to the current mesh).
* **C113 Smoothing lengths of the level set operators do not depend on the kind of mesh** — Model (LevelSet/Lengths.lean): template argument selected by the dispatch macros (Operator/Dispatch.lean), coefficients of every kernel (Reinit.lean, NormalCurvature.lean), interface thickness from the cell sizes (Mesh/CellDiameter.lean). Proof by cases over the macros and order arithmetic.
* **C114 The projected linear system is the continuity equation** — Model (Operator/PressureSystem.lean): cell loops with constraints of FE/Space.lean, modes and projection of Operator/PressureMode.lean (C28), product and residual. Proof: the sum of the pressure rows of one kind is the net flux (partition of unity, hanging node weights), the projection changes rows by a combination of the modes, and its factors follow from zero means and the sums.  `C114_cellwise_mass`: with augmented elements the flux out of every cell is zero (up to the same share).
* **C115 Pseudo-time steps of the matrix-based reinitialization** — Model (LevelSet/MatrixReinit.lean): assembly with the cell-wise switch, condensation with constraints (FE/Space.lean), division by a vanishing norm is `none`. Proof: matrix and right hand side as forms by exchanging sums, pairing of constraints; counterexample from C93 (zero normals of a constant level set).
* **C116 Material values and weight in the mixed level set solver** — Sharp/MixedForce.lean: the two MatrixFree objects (batches, lists of quadratures), tables as flat arrays with the stride of the flow solver, level set values read with constraints resolved; proofs by induction over the loops and re-indexing lanes to cells; counterexamples for the second quadrature, other numberings, prescribed fluids.
* **C117 Cahn-Hilliard nonlinear iteration** — PhaseField/Newton.lean: residual and matrix on the finite element model of C45/C83 (stored linearization data, constraints, contact faces), GMRES as an oracle; induction over the loop; the residual after a step is computed exactly (linear in the concentration equation, second order remainder in the potential equation); counterexample for the silent failure. `C117_constrained_unknowns`: residual and matrix at constrained unknowns of both blocks.
* **C118 Interpolated pressure fields** — Operator/PressureField.lean: accumulation and averaging of VectorTools::interpolate over the cells under the default mapping, reset of the cellwise constants by extract_constant_modes, evaluation with constraints. Induction over the list of writes. Counterexample: VectorTools::interpolate gets no mapping, so nodes of curved cells (degree two or more) are evaluated at the place of the linear mapping; with simplices and augmented elements the call fails.
* **C119 Level set transport is stable in the mean square norm** — Transport step of `LevelSet.Advect` with the clock of `Time.Model`. `C119_balance` tests the discrete equation with the new level set; `C119_euler`, `C119_bdf2` (uniform weights, since a request makes the previous step count as one of the new size), `C119_bdf2_any_step` (last step) and `C119_run` by induction.
* **C120 Timing sections are nested properly and closed after every call** — `Output.Timing`: control flow of every function that enters or leaves a section (enter, leave, scope objects, early returns, exceptions, handlers, loops with unknown conditions) with an execution relation; a static analysis is proved sound for all executions (`eff_sound`) and evaluated by the kernel. `C120_call_partial`, `C120_history_partial`, `C120_exceptions_partial`, `C120_applications_partial`; false in the driven cavity on all ranks but the first (`C120_cavity`) and for exceptions through `enter_subsection` (`C120_setup_exception`).
* **C121 Stationary problems are independent of the time stepping** — `Operator.Stationary`: the point operation with the weights of the clock, the evaluators of the old fields (filled for time-dependent problems only), the assembled residual and product and the nonlinear iteration with an arbitrary linear solver. `C121_equations_partial`, `C121_independent_partial`, `C121_fixed_point`; false in release mode for Crank-Nicolson and explicit Euler (`C121_other_schemes`) and for the linearizations with extrapolation, which read values never computed (`C121_determined_iff`), both accepted by the reader (`C121_release_accepts`).
* **C122 Writing output does not influence the computation** — `Parallel.Observer`: the programs of C103 with operations for which writing a file leaves the scalars of the solver alone. `C122_flow`, `C122_phase_field`, `C122_sharp`: equal memories by induction on the history; `C122_level_set_partial`: relational invariant on the fields of C110; `C122_level_set_accurate_partial`: the same with projections independent of the start vector; `C122_flow_parallel`, `C122_level_set_parallel_partial` with C103. `C122_initial_output_matters`: output before the first step of the level set solver changes the velocity if projections stop early. Not modelled: refinement flags set on the mesh by the user between two calls, which output_solution of the level set solver clears.
* **C123 A solver object can be set up again for a second run** — Modules `Time/SecondRun.lean` and `TwoPhase/SecondRun.lean`. Model: `setup_problem` of the flow solver (mesh counter, clock, velocity) and of the two-phase solvers (flow clock restarted, clock of the level set transport kept), the application's time loop in debug and release mode, and `setup_problem` of a level set solver acting on an arbitrary state of the step model of C82. Proved: the flow clock of a two-phase solver replays the schedule of a new object after any number of earlier runs (via C07); the remembered residual is harmless (simulation between the kept and the reset value); corrections depend on the second run only if there was no earlier correction or adaptation (invariant of C82). False parts proved for all parameters: no step and zero velocity in the second run of the flow solver, failing assertion of the level set solver in debug mode, factor 4/3 of its first `bdf_2` step in release mode, no correction before step k+3.
* **C124 Balance of the total momentum** — Module `Operator/Momentum.lean`, on the point operator of `Operator.Point` and the discrete system of C76. Proved for all coefficients: the residual tested with a constant velocity gives the exact balance with the production term (1-β)∫ρ div(a) v_d. With the clock of C05: Newton's second law per step (one-step schemes) and conservation over any number of steps (all schemes, induction over the steps) for β = 1, constant density and exact `weight()`. Two theorems show that β = 0 and variable density produce momentum without force or boundary flux.
* **C125 A turned or mirrored problem has the turned or mirrored solution** — Modules `Operator/Frame.lean` and `LevelSet/Frame.lean`, on the existing models of the point operator and of the level set operators. Specification: orthogonal matrices, turned vectors, matrices, spaces, faces. Proved by algebra on orthonormal columns (scalar products, contractions, traces and convection of turned data), lifted through closed forms of residual, matrix product and stress to the assembled entries, to all steps of a run and to the steps of the nonlinear iteration; the level set results are equalities of the computed coefficients for every linear solver. `C125_gravity_direction` shows that the restriction with gravity is needed.  Phase field: `PhaseField/Frame.lean` (residual and force).
* **C126 Results do not depend on the units of the input** — Modules `Time/Units.lean`, `Operator/Units.lean`, `LevelSet/Units.lean` on the existing models. Specification: the converted parameters and calls, clocks that show the same, unit systems and converted fields. Clock by induction over the call sequence; residual by algebra of the point operator lifted to sums over quadrature points and to runs with the two clocks. Limits: `C126_origin_matters` (shifted time axis), `C126_normal_depends_on_unit_of_length_partial` (fixed threshold of the curvature).  Level set: converted spaces, faces, velocities and viscosities; transport for solvers that are homogeneous in the system, reinitialization as equality of the systems up to a factor; limits for artificial viscosity and pseudo-time step.
* **C127 A force that a pressure can balance changes only the pressure** — Module `Operator/GradientForce.lean` on the point operator. Specification: pressure fields, their weak gradient. Proved with the closed form of the stress contraction and the independence of submitted values and stored linearization from pressures; lifted to runs and to the systems of the nonlinear iteration.
* **C128 Stokes flows superpose** — Module `Operator/GradientForce.lean`: residual of a combination is the combination of the residuals, by linearity of stress contraction and trace; `C128_not_with_inertia` is the limit.
* **C129 Exchanging the two fluids does not change the flow** — Module `LevelSet/Exchange.lean` on the existing models. Specification: the exchanged problems, solvers that respect the sign, shape functions that sum to one. Proved by oddness of the operators and algebra; `C129_curvature_correction_partial` shows that the correction breaks the symmetry wherever it acts.  Phase field: `PhaseField/Exchange.lean`, oddness of the residual including contact angle terms, symmetry of the clamped indicator.
* **C130 The algebraic multigrid is told the right points and constant fields** — Model `Precond/Amg.lean`: the nested loops of get_nodal_points as folds that write into a table, IndexSet::index_within_set as number of smaller elements, the copying of the constant modes. Proved by invariants of the folds (entries once right stay right, each visit makes one right). The coordinates equal the sorted table of support points; null space by the entries. deal.II (owned unknowns are on owned cells, extract_constant_modes) and ML itself are not modelled.
