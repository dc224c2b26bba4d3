/-
# The routines of adaflo as programs on distributed vectors

Every routine is transcribed as the sequence of operations on distributed vectors it makes
(`Verif.Parallel.Ghost`): which vectors are written, how, which are read in loops over the
locally owned cells, and where ghost values are renewed or dropped.  What is computed is
left open (`Ops`).  Block vectors are listed block by block; the `dim` blocks of the normal
field count as one vector.  Conditions on parameters are Booleans of `Cfg`, conditions on
run time data are `ite`/`iter`.
-/
import Verif.Parallel.Ghost
import Mathlib.Tactic.DeriveFintype

namespace Verif.Parallel

/-- The distributed vectors.
Flow (navier_stokes.h): `u p` solution, `uo po` solution_old, `uoo poo` solution_old_old,
`du dp` solution_update, `su sp` system_rhs, `ku kp` const_rhs, `fu fp` user_rhs.
Two-phase (two_phase_base.h): `c w` solution, `co wo`, `coo woo`, `dc dw`, `rc rw` system_rhs.
Level set: `n` normal_vector_field, `nr` normal_vector_rhs, `h` heaviside (or the local
copy of the level set in compute_force_vector_regularized).
Temporaries: `e` error estimate or joint output vector, `uc` solution_u_copy,
`tp tq` temp_vector, temp_vector2 of the preconditioner,
Krylov vectors `kr kb kd kv ky kz kt` and second blocks `jv jz jt`. -/
inductive Vec where
  | u | p | uo | po | uoo | poo | du | dp | su | sp | ku | kp | fu | fp
  | c | w | co | wo | coo | woo | dc | dw | rc | rw
  | n | nr | h | e | uc | tp | tq
  | kr | kb | kd | kv | ky | kz | kt | jv | jz | jt
  deriving DecidableEq

def Vec.all : List Vec :=
  [.u, .p, .uo, .po, .uoo, .poo, .du, .dp, .su, .sp, .ku, .kp, .fu, .fp, .c, .w, .co, .wo, .coo, .woo, .dc, .dw, .rc, .rw, .n, .nr, 
   .h, .e, .uc, .tp, .tq, .kr, .kb, .kd, .kv, .ky, .kz, .kt, .jv, .jz, .jt]

instance : Fintype Vec :=
  ⟨⟨Vec.all, by decide⟩, by
    intro x; cases x <;> decide⟩

/-- Parameters that select parts of the programs: projection scheme, open boundaries,
pressure fixed on a boundary, time dependent (physical_type incompressible), fully implicit
(nonlinear iteration), inner solves in the preconditioner, stationary, surface mesh variant
and sharp force of the mixed level set solver, stabilization of the level set transport. -/
structure Cfg where
  projection : Bool
  openBoundary : Bool
  pressureFix : Bool
  timeDependent : Bool
  stationary : Bool
  implicit : Bool
  stabilization : Bool
  contactAngle : Bool
  curvatureCorrection : Bool
  surfaceMesh : Bool
  sharp : Bool
  variableParameters : Bool
  deriving DecidableEq

abbrev P := Prog Vec

def seqs : List P → P
  | [] => .skip
  | [p] => p
  | p :: q :: r => .seq p (seqs (q :: r))

def zero (x : Vec) : P := .cmd (.zero x)
def copy (x y : Vec) : P := .cmd (.copy x y)
def alg (l : String) (x : Vec) (ys : List Vec) : P := .cmd (.alg l x ys)
def put (l : String) (x : Vec) (ys : List Vec) : P := .cmd (.put l x ys)
def fill (l : String) (x : Vec) (rs : List Vec) : P := .cmd (.fill l x rs)
def interp (l : String) (x : Vec) : P := .cmd (.interp l x)
def distribute (l : String) (x : Vec) : P := .cmd (.distribute l x)
def refresh (x : Vec) : P := .cmd (.refresh x)
def dropGhosts (x : Vec) : P := .cmd (.drop x)
def swap (x y : Vec) : P := .cmd (.swap x y)
def loop (l : String) (x : Vec) (ss rs : List Vec) : P := .cmd (.loop l x ss rs)
def eval (l : String) (ys rs : List Vec) : P := .cmd (.eval l ys rs)
def remesh : P := .cmd (.remesh "mesh")
/-- `cell_loop` with `zero_out = true`: the entries are set to zero by the loop, which does not
change the ghost state. -/
def zeroOut (x : Vec) : P := .cmd (.zeroOut x)
def spill (l : String) (x : Vec) (ys : List Vec) : P := .cmd (.spill l x ys)
/-- A part that is present only for some parameters. -/
def opt (b : Bool) (p : P) : P := if b then p else .skip

/-! ## Krylov solvers (deal.II) with the operators and preconditioners of adaflo -/

/-- Matrix-free product `dst = A src`: `dst = 0`, `cell_loop`, constrained entries set
elementwise.  navier_stokes_matrix.cc:337-381 (velocity_vmult), 389-418, 426-456, 460-482,
level_set_okz_reinitialization.cc:198-231 and, without stabilization,
level_set_okz_advance_concentration.cc:401-487. -/
def mv (dst src : Vec) : P :=
  seqs [zero dst, loop "A" dst [src] [], put "constrained rows" dst [dst, src]]

/-- advance_concentration_vmult, level_set_okz_advance_concentration.cc:401-487: with
stabilization the ghosts of the source are renewed *after* the cell loop (line 434), for the
boundary terms, and stay. -/
def advectionMv (cfg : Cfg) (dst src : Vec) : P :=
  seqs [zero dst, loop "A" dst [src] [],
    opt cfg.stabilization (seqs [refresh src, loop "A boundary" dst [] [src]]),
    put "constrained rows" dst [dst, src]]

/-- Preconditioners write owned entries only: DiagonalPreconditioner::vmult,
diagonal_preconditioner.cc:88-103; the Trilinos preconditioners work on raw arrays. -/
def precond (dst src : Vec) : P := put "preconditioner" dst [src]

/-- `SolverBicgstab` with `exact_residual = false`; its vectors are `kr` (r), `kb` (rbar),
`kd` (p), `kv` (v), `ky` (y), `kz` (z), `kt` (t), taken from the memory pool without ghosts. -/
def bicgstab (A : Vec → Vec → P) (x b : Vec) : P :=
  seqs [zero .kr, zero .kb, zero .kd, zero .kv, zero .ky, zero .kz, zero .kt,
    A .kr x, alg "b - r" .kr [.kr, b], eval "norm" [.kr] [], copy .kb .kr,
    .iter "bicgstab"
      (seqs [eval "rho" [.kr, .kb] [],
        alg "direction" .kd [.kd, .kr, .kv],
        precond .ky .kd, A .kv .ky, eval "alpha" [.kb, .kv] [],
        alg "r - alpha v" .kr [.kr, .kv], eval "half norm" [.kr] [],
        .ite "half step converged" (alg "x + alpha y" x [x, .ky])
          (seqs [precond .kz .kr, A .kt .kz, eval "omega" [.kt, .kr] [],
            alg "x + alpha y + omega z" x [x, .ky, .kz],
            alg "r - omega t" .kr [.kr, .kt], eval "norm" [.kr] []])])]

/-- `SolverCG`. -/
def cg (A : Vec → Vec → P) (x b : Vec) : P :=
  seqs [zero .kr, zero .kd, zero .kv, zero .kz,
    A .kr x, alg "b - r" .kr [.kr, b], eval "norm" [.kr] [],
    .iter "cg"
      (seqs [precond .kz .kr, eval "beta" [.kr, .kz] [], alg "direction" .kd [.kd, .kz],
        A .kv .kd, eval "alpha" [.kd, .kv] [], alg "x + alpha d" x [x, .kd],
        alg "r - alpha v" .kr [.kr, .kv], eval "norm" [.kr] []])]

/-- `SolverGMRES`: `kv` the current, `kz` the next basis vector (`swap` moves on; owned
values of the basis are kept in the scalar data), `kt` the product. -/
def gmres (A : Vec → Vec → P) (x b : Vec) : P :=
  seqs [zero .kv, zero .kz, zero .kt,
    .iter "restart"
      (seqs [A .kt x, alg "b - Ax" .kt [.kt, b], precond .kv .kt, eval "norm" [.kv] [],
        alg "normalize" .kv [.kv],
        .iter "arnoldi"
          (seqs [A .kt .kv, precond .kz .kt, eval "basis" [.kv, .kz] [],
            alg "orthogonalize" .kz [.kz, .kv], eval "h" [.kz] [], alg "normalize" .kz [.kz],
            swap .kv .kz]),
        alg "x + sum" x [x, .kv]])]

/-! ## Flow solver -/

/-- NavierStokes::apply_boundary_conditions, navier_stokes.cc:1213-1318. -/
def applyBoundary (cfg : Cfg) : P :=
  seqs [put "dirichlet" .u [.u], distribute "hanging u" .u,
    refresh .u, refresh .p, refresh .uo, refresh .po, refresh .uoo, refresh .poo,
    zero .ku, zero .kp,
    opt cfg.openBoundary (loop "traction" .ku [] [])]

/-- NavierStokes::setup_problem, navier_stokes.cc:366-392. -/
def flowSetup : P :=
  seqs [remesh, interp "initial velocity" .u, distribute "hanging u" .u,
    refresh .u, refresh .p, refresh .uo, refresh .po]

/-- NavierStokes::init_time_advance, navier_stokes.cc:659-745. -/
def flowInit (cfg : Cfg) : P :=
  seqs [eval "next time" [] [],
    put "old old" .uoo [.uo], put "old" .uo [.u], put "extrapolate" .u [.uo, .uoo],
    if cfg.projection then
      .ite "step_no > 1"
        (seqs [put "keep p" .dp [.p], put "p star" .p [.p, .po, .poo], put "old old p" .poo [.po]])
        (seqs [zero .po, zero .poo])
    else seqs [put "old old p" .poo [.po], put "old p" .po [.p], put "extrapolate p" .p [.po, .poo]],
    applyBoundary cfg]

/-- NavierStokes::compute_residual, navier_stokes.cc:782-803, with
NavierStokesMatrix::residual, navier_stokes_matrix.cc:264-293, and local_operation,
navier_stokes_matrix.cc:668-686 (old velocities, read for time dependent problems). -/
def residual (cfg : Cfg) : P :=
  let old := if cfg.timeDependent then [Vec.uo, Vec.uoo] else []
  seqs [alg "equ" .su [.ku], alg "equ" .sp [.kp],
    loop "residual u" .su [.u, .p] old, loop "residual p" .sp [.u, .p] old,
    alg "user" .su [.su, .fu], alg "user" .sp [.sp, .fp],
    alg "average" .sp [.sp], eval "residual" [.su, .sp] []]

/-- NavierStokesMatrix::vmult, navier_stokes_matrix.cc:222-258. -/
def nsMv (du' dp' su' sp' : Vec) : P :=
  seqs [zero du', zero dp', loop "NS u" du' [su', sp'] [], loop "NS p" dp' [su', sp'] [],
    put "constrained rows" du' [du', su'], put "constrained rows" dp' [dp', sp'],
    alg "average" dp' [dp']]

/-- NavierStokesPreconditioner::vmult, navier_stokes_preconditioner.cc:594-741, from
`(kt, jt)` to `(kz, jz)`; the inner velocity solver BiCGStab is run on `kz` (its vectors are
taken from the pool, here those not used by the outer solver). -/
def nsPrecond (cfg : Cfg) : P :=
  seqs [.ite "inner solves" (bicgstabInner) (precond .kz .kt),
    alg "equ" .tp [.jt], loop "divergence" .tp [.kz] [],
    if cfg.stationary then
      seqs [zero .jz, cg mv .jz .tp, put "constrained" .jz [.jz], mv .tq .jz,
        put "constrained" .tq [.tq, .tp], mass]
    else
      seqs [mass, .ite "inner solves" (seqs [zero .tq, cg mv .tq .tp]) (precond .tq .tp),
        alg "+=" .jz [.jz, .tq]]]
where
  /-- solver.solve(uu_mat, dst.block(0), src.block(0), ...), lines 631-660, with the vectors
  `kr kb kd ky`. -/
  bicgstabInner : P :=
    seqs [zero .kr, zero .kb, zero .kd, zero .ky,
      mv .kr .kz, alg "b - r" .kr [.kr, .kt],
      .iter "inner bicgstab"
        (seqs [eval "rho" [.kr] [], alg "direction" .kd [.kd, .kr], precond .ky .kd, mv .kb .ky,
          alg "r" .kr [.kr, .kb], precond .ky .kr, mv .kb .ky, alg "x" .kz [.kz, .ky],
          alg "r" .kr [.kr, .kb], eval "norm" [.kr] []])]
  /-- solve_pressure_mass, lines 745-775. -/
  mass : P := .ite "pp_mass == 0" (seqs [zero .jz, cgMass]) (precond .jz .tp)
  cgMass : P :=
    seqs [zero .kr, zero .kd, zero .kb, zero .ky, mv .kr .jz, alg "b - r" .kr [.kr, .tp],
      .iter "cg mass" (seqs [precond .ky .kr, alg "direction" .kd [.kd, .ky], mv .kb .kd,
        eval "alpha" [.kd, .kb] [], alg "x" .jz [.jz, .kd], alg "r" .kr [.kr, .kb]])]

/-- NavierStokes::solve_system for the coupled schemes, navier_stokes.cc:567-655: (F)GMRES
with basis `(kv, jv)`. -/
def solveCoupled (cfg : Cfg) : P :=
  seqs [zero .du, zero .dp,
    zero .kv, zero .jv, zero .kz, zero .jz, zero .kt, zero .jt,
    .iter "restart"
      (seqs [nsMv .kt .jt .du .dp, alg "b - Ax" .kt [.kt, .su], alg "b - Ax" .jt [.jt, .sp],
        copy .kv .kt, copy .jv .jt, eval "norm" [.kv, .jv] [],
        .iter "arnoldi"
          (seqs [alg "normalize" .kv [.kv], alg "normalize" .jv [.jv],
            copy .kt .kv, copy .jt .jv, nsPrecond cfg,
            nsMv .kt .jt .kz .jz,
            alg "orthogonalize" .kt [.kt, .kv], alg "orthogonalize" .jt [.jt, .jv],
            eval "basis" [.kt, .jt, .kz, .jz] [], copy .kv .kt, copy .jv .jt]),
        alg "x + sum" .du [.du, .kz], alg "x + sum" .dp [.dp, .jz]]),
    distribute "constraints u" .du, distribute "constraints p" .dp]

/-- NavierStokesPreconditioner::solve_projection_system,
navier_stokes_preconditioner.cc:779-854. -/
def solveProjection : P :=
  seqs [zero .uc, copy .uc .u, zero .du, zero .dp, gmres mv .du .su,
    distribute "constraints u" .du, alg "+=" .uc [.uc, .du],
    zero .sp, loop "divergence" .sp [.uc] [],
    zero .po, cg mv .po .sp, distribute "constraints p" .po,
    zero .sp, loop "divergence viscosity" .sp [.uc] [],
    zero .dp, cg mv .dp .sp, distribute "constraints p" .dp, alg "+=" .dp [.dp, .po]]

/-- NavierStokes::solve_nonlinear_system, navier_stokes.cc:833-1160. -/
def solveNonlinear (cfg : Cfg) : P :=
  seqs [opt cfg.projection (swap .p .dp),
    .iter "nonlinear"
      (seqs [if cfg.projection then solveProjection else solveCoupled cfg,
        alg "+=" .u [.u, .du], alg "+=" .p [.p, .dp], eval "increment" [.du, .dp] [],
        opt (cfg.implicit && !cfg.projection) (residual cfg)]),
    refresh .u, refresh .p,
    opt cfg.pressureFix (seqs [eval "pressure at boundary" [] [.p], alg "shift" .p [.p],
      distribute "hanging p" .p, refresh .p]),
    opt (cfg.openBoundary && cfg.projection)
      (seqs [put "open pressure" .p [.p], distribute "hanging p" .p])]

/-- NavierStokes::evaluate_time_step, navier_stokes.cc:761-775. -/
def evaluateStep (cfg : Cfg) : P := seqs [residual cfg, solveNonlinear cfg]

/-- NavierStokes::advance_time_step, navier_stokes.cc:751-755. -/
def flowStep (cfg : Cfg) : P := seqs [flowInit cfg, evaluateStep cfg]

/-- NavierStokes::compute_initial_stokes_field, navier_stokes.cc:1164-1208.  The physical type is
set to stokes in the copy of the parameters only (C111): matrix and preconditioner do what they do
in a time step, and old velocities are read for time dependent problems. -/
def stokes (cfg : Cfg) : P :=
  seqs [applyBoundary cfg, eval "norm" [.u] [],
    .ite "nonzero velocity" (evaluateStep cfg) .skip]

/-- NavierStokes::prepare_coarsening_and_refinement, navier_stokes.cc:1378-1408. -/
def flowPrepare (cfg : Cfg) : P :=
  seqs [distribute "hanging u" .u, distribute "hanging u" .uo,
    distribute "hanging p" .p, distribute "hanging p" .po,
    refresh .u, refresh .p, refresh .uo, refresh .po,
    eval "transfer u" [] [.u, .uo],
    opt cfg.projection (seqs [distribute "hanging p" .poo, refresh .poo]),
    eval "transfer p" [] (if cfg.projection then [.p, .po, .poo] else [.p, .po])]

/-- End of NavierStokes::initialize_matrix_free, navier_stokes.cc:472-503. -/
def flowTransfer (cfg : Cfg) : P :=
  seqs [interp "transfer u" .u, interp "transfer uo" .uo,
    distribute "hanging u" .u, distribute "hanging u" .uo,
    interp "transfer p" .p, interp "transfer po" .po,
    opt cfg.projection (interp "transfer poo" .poo),
    distribute "hanging p" .p, refresh .u, refresh .p,
    distribute "hanging p" .po, refresh .uo, refresh .po,
    opt cfg.projection (seqs [distribute "hanging p" .poo, refresh .poo])]

/-- NavierStokes::refine_grid_pressure_based, navier_stokes.cc:1324-1372, with the set-up of
the new mesh. -/
def flowRefine (cfg : Cfg) : P :=
  seqs [zero .e, copy .e .p, refresh .e, eval "Kelly" [] [.e], flowPrepare cfg, remesh,
    flowTransfer cfg]

/-- NavierStokes::output_solution, navier_stokes.cc:1436-1462. -/
def flowOutput : P := seqs [refresh .u, refresh .p, eval "output" [] [.u, .p]]

/-! ## Two-phase solvers -/

/-- TwoPhaseBaseAlgorithm::init_time_advance, two_phase_base.cc:441-462. -/
def twoPhaseInit (cfg : Cfg) : P :=
  seqs [flowInit cfg, copy .dc .c, copy .dw .w,
    .ite "step_size_old > 0" (seqs [alg "sadd" .dc [.dc, .co], alg "sadd" .dw [.dw, .wo]]) .skip,
    copy .coo .co, copy .woo .wo, copy .co .c, copy .wo .w, copy .c .dc, copy .w .dw,
    refresh .c, refresh .w, refresh .co, refresh .wo, refresh .coo, refresh .woo]

/-- The part of TwoPhaseBaseAlgorithm::refine_grid after marking, two_phase_base.cc:401-435. -/
def adapt (cfg : Cfg) : P :=
  seqs [refresh .co, refresh .wo, refresh .c, refresh .w,
    flowPrepare cfg, eval "transfer" [] [.co, .c, .wo, .w], remesh, flowTransfer cfg,
    interp "transfer" .co, interp "transfer" .c, interp "transfer" .wo, interp "transfer" .w,
    distribute "hanging" .co, distribute "hanging" .wo,
    distribute "hanging" .c, distribute "hanging" .w,
    refresh .co, refresh .wo, refresh .c, refresh .w]

/-- TwoPhaseBaseAlgorithm::setup_problem, two_phase_base.cc:120-191, up to the mesh adaptation:
initial fields. -/
def twoPhaseStart : P :=
  seqs [remesh, interp "initial velocity" .u, refresh .u, refresh .p, refresh .uo, refresh .po,
    interp "initial distance" .c, put "profile" .c [.c],
    refresh .c, refresh .w, refresh .co, refresh .wo]

/-- One round of the initial mesh adaptation, two_phase_base.cc:160-187, with the marking of the
derived class. -/
def twoPhaseAdapt (cfg : Cfg) (mark : P) : P :=
  seqs [mark, .ite "marked" (adapt cfg) .skip,
    dropGhosts .u, interp "initial velocity" .u,
    refresh .u, refresh .p, refresh .uo, refresh .po,
    dropGhosts .c, interp "initial distance" .c, put "profile" .c [.c],
    distribute "hanging" .c, refresh .co, refresh .wo, refresh .c, refresh .w]

/-- TwoPhaseBaseAlgorithm::setup_problem, two_phase_base.cc:120-191. -/
def twoPhaseSetup (cfg : Cfg) (mark : P) : P :=
  seqs [twoPhaseStart, .iter "mesh_adaptation" (twoPhaseAdapt cfg mark),
    eval "norm" [.u] [], .ite "zero velocity" (stokes cfg) .skip]

/-- TwoPhaseBaseAlgorithm::output_solution, two_phase_base.cc:550-592: the vectors are given to
DataOut, which makes its own copies with ghosts from the owned entries (deal.II >= 9.3, the
version CMakeLists.txt:26 asks for). -/
def twoPhaseOutput : P := eval "output" [.u, .p, .c, .w] []

/-- compute_bubble_statistics, get_maximal_velocity, get_concentration_range
(two_phase_base.cc:482-545, 613-912). -/
def statistics : P := eval "statistics" [] [.c, .u]

/-! ### Phase field -/

/-- TwoPhaseBaseAlgorithm::mark_cells_for_refinement, two_phase_base.cc:323-390. -/
def markPhaseField : P :=
  seqs [zero .e, copy .e .c, put "1 - c^2" .e [.e], refresh .e, eval "indicator" [] [.e]]

/-- PhaseFieldSolver::apply_contact_bc, phase_field_local.cc:300-365: imports the ghosts if
they are not there and drops them afterwards, like the sources of a cell loop. -/
def contact (cfg : Cfg) (dst src : Vec) : P := opt cfg.contactAngle (loop "contact" dst [src] [])

/-- PhaseFieldSolver::compute_residual, phase_field_local.cc:444-468. -/
def chResidual (cfg : Cfg) : P :=
  seqs [zero .rc, zero .rw,
    loop "CH c" .rc [.c, .w] [.co, .coo, .u], loop "CH w" .rw [.c, .w] [.co, .coo, .u],
    contact cfg .rw .c, eval "residual" [.rc, .rw] []]

/-- PhaseFieldSolver::vmult, phase_field_local.cc:472-508. -/
def chMv (cfg : Cfg) (yc yw xc xw : Vec) : P :=
  seqs [zero yc, zero yw, loop "CH c" yc [xc, xw] [], loop "CH w" yw [xc, xw] [],
    contact cfg yw xc,
    put "constrained rows" yc [yc, xc], put "constrained rows" yw [yw, xw]]

/-- PhaseFieldSolver::solve_cahn_hilliard, phase_field.cc:405-459: GMRES with the
preconditioner of lines 381-397; the first guess is the content of solution_update, which is
not reset between the Newton iterations. -/
def chSolve (cfg : Cfg) : P :=
  seqs [zero .kv, zero .jv, zero .kz, zero .jz, zero .kt, zero .jt, zero .tp,
    chMv cfg .kt .jt .dc .dw, alg "b - Ax" .kt [.kt, .rc], alg "b - Ax" .jt [.jt, .rw],
    copy .kv .kt, copy .jv .jt,
    .iter "arnoldi"
      (seqs [alg "normalize" .kv [.kv], alg "normalize" .jv [.jv], pre,
        chMv cfg .kt .jt .kz .jz,
        alg "orthogonalize" .kt [.kt, .kv], alg "orthogonalize" .jt [.jt, .jv],
        eval "basis" [.kt, .jt, .kz, .jz] [], copy .kv .kt, copy .jv .jt]),
    alg "x + sum" .dc [.dc, .kz], alg "x + sum" .dw [.dw, .jz],
    distribute "constraints" .dc, distribute "constraints curvature" .dw,
    alg "-=" .c [.c, .dc], alg "-=" .w [.w, .dw], refresh .c, refresh .w]
where
  /-- BlockPreconditionerSimple::vmult, phase_field.cc:381-397. -/
  pre : P :=
    seqs [copy .tp .kv, alg "add" .tp [.tp, .jv], precond .jz .tp, zero .tp,
      loop "mass" .tp [.jz] [], put "constrained rows" .tp [.tp, .jz],
      alg "add" .tp [.tp, .jv], precond .kz .tp, alg "sadd" .jz [.jz, .kz]]

/-- PhaseFieldSolver::advance_cahn_hilliard, phase_field.cc:329-362. -/
def cahnHilliard (cfg : Cfg) : P :=
  .iter "newton" (seqs [chResidual cfg, .ite "converged" .skip (chSolve cfg)])

/-- PhaseFieldSolver::compute_force, phase_field_local.cc:421-440 (local_compute_force:
58-150), and compute_density_on_faces, phase_field.cc:200-234. -/
def phaseFieldForce : P :=
  seqs [eval "density on faces" [] [.c], zero .fu, zero .fp, loop "force" .fu [.c] [.w]]

/-- PhaseFieldSolver::advance_time_step, phase_field.cc:463-471. -/
def phaseFieldStep (cfg : Cfg) : P :=
  seqs [twoPhaseInit cfg, cahnHilliard cfg, phaseFieldForce, evaluateStep cfg]

/-! ### Level set (matrix-free, OKZ) -/

/-- LevelSetOKZSolverComputeNormal::compute_normal, level_set_okz_compute_normal.cc:209-279:
the system is solved with a Trilinos matrix (owned entries). -/
def computeNormal : P :=
  seqs [zero .nr, loop "normal rhs" .nr [.c] [], alg "cg" .n [.n, .nr],
    distribute "constraints normal" .n, refresh .n]

/-- LevelSetOKZSolverComputeCurvature::compute_curvature,
level_set_okz_compute_curvature.cc:326-393 (`approximate_projections` is rejected by
compute_normal before).  The right hand side `r` is the first block of system_rhs in
LevelSetOKZSolver (level_set_okz.cc:140) and a vector of its own, here `rw`, in LevelSetSolver
(sharp_interface.h:159). -/
def operatorCurvature (cfg : Cfg) (r : Vec) : P :=
  seqs [zero r, loop "curvature rhs" r [.c] [.n], alg "cg" .w [.w, r],
    opt cfg.curvatureCorrection (put "correction" .w [.w, .c]),
    distribute "constraints curvature" .w, refresh .w]

/-- LevelSetOKZSolver::compute_curvature, level_set_okz.cc:456-472. -/
def computeCurvature (cfg : Cfg) : P := seqs [computeNormal, operatorCurvature cfg .rc]

/-- LevelSetOKZSolver::compute_heaviside, level_set_okz.cc:479-540. -/
def computeHeaviside : P := seqs [fill "heaviside" .h [.c], refresh .h]

/-- One step of LevelSetOKZSolverReinitialization::reinitialize,
level_set_okz_reinitialization.cc:291-349. -/
def reinitStep (reads : List Vec) : P :=
  seqs [zero .rc, loop "reinit rhs" .rc [.c] reads, zero .dc, cg mv .dc .rc,
    distribute "constraints" .dc, alg "+=" .c [.c, .dc], refresh .c, eval "norm" [.dc] []]

/-- LevelSetOKZSolverReinitialization::reinitialize, level_set_okz_reinitialization.cc:257-362:
diffusion steps, then the normal, then the stabilization steps. -/
def reinitialize : P :=
  seqs [.iter "diffusion steps" (reinitStep []),
    .ite "stabilization steps left"
      (seqs [computeNormal, .iter "stabilization steps" (reinitStep [.n])]) .skip]

/-- LevelSetOKZSolverAdvanceConcentration::advance_concentration,
level_set_okz_advance_concentration.cc:512-652; `solver` the linear solver used. -/
def advanceConcentration (cfg : Cfg) (solver : (Vec → Vec → P) → Vec → Vec → P) : P :=
  seqs [put "boundary values" .c [.c], refresh .c, eval "maximal velocity" [] [.u],
    zero .rc, loop "transport rhs" .rc [.c] [.u, .uo, .uoo, .c, .co, .coo],
    opt cfg.stabilization (loop "boundary rhs" .rc [] [.c]),
    zero .dc, solver (advectionMv cfg) .dc .rc,
    distribute "constraints" .dc, alg "+=" .c [.c, .dc], refresh .c]

/-- The solver of the transport equation: BiCGStab and, if it does not converge, GMRES
(level_set_okz_advance_concentration.cc:620-642). -/
def transportSolver (A : Vec → Vec → P) (x b : Vec) : P :=
  seqs [bicgstab A x b, .ite "no convergence" (gmres A x b) .skip]

/-- LevelSetOKZSolver::compute_force, level_set_okz.cc:412-432 (local_compute_force: 318-409)
with compute_density_on_faces, level_set_base.cc:416-447. -/
def levelSetForce (cfg : Cfg) : P :=
  seqs [computeHeaviside, computeCurvature cfg,
    opt (cfg.variableParameters && !cfg.projection) (eval "density on faces" [] [.h]),
    zero .fu, zero .fp, loop "force" .fu [.c] [.h, .w]]

/-- LevelSetBaseAlgorithm::advance_time_step, level_set_base.cc:188-290. -/
def levelSetStep (cfg : Cfg) : P :=
  seqs [twoPhaseInit cfg, advanceConcentration cfg transportSolver, reinitialize,
    levelSetForce cfg, residual cfg,
    .ite "excessive residual" (seqs [reinitialize, levelSetForce cfg, residual cfg]) .skip,
    solveNonlinear cfg]

/-- LevelSetBaseAlgorithm::mark_cells_for_refinement, level_set_base.cc:294-412, in step 0
(the normal is computed) and later (it is taken from the last step). -/
def markLevelSet (initial : Bool) : P :=
  seqs [opt initial computeNormal, eval "indicator" [] [.n],
    .ite "needs refinement" (eval "flags" [] [.n, .c, .u]) .skip]

/-- LevelSetBaseAlgorithm::setup_problem, level_set_base.cc:143-152. -/
def levelSetSetup (cfg : Cfg) : P :=
  seqs [twoPhaseSetup cfg (markLevelSet true), reinitialize, computeHeaviside]

/-- LevelSetBaseAlgorithm::output_solution, level_set_base.cc:450-690. -/
def levelSetOutput (cfg : Cfg) (initial : Bool) : P :=
  seqs [opt initial (seqs [computeCurvature cfg, computeHeaviside]),
    zero .e, fill "joint" .e [.u, .p, .h, .c, .w, .n], refresh .e,
    eval "cell data" [] [.n, .c, .u], eval "output" [] [.e]]

/-! ### Sharp-interface solvers -/

/-- LevelSetSolver, constructor, sharp_interface.h:262-331, and reinitialize (413-431). -/
def sharpReinit (cfg : Cfg) : P := seqs [reinitialize, computeNormal, operatorCurvature cfg .rw]

def sharpLevelSetCtor (cfg : Cfg) : P :=
  seqs [zero .c, zero .co, zero .coo, zero .dc, zero .rc, zero .w, zero .rw, zero .n, zero .nr,
    interp "initial level set" .c, put "profile" .c [.c], sharpReinit cfg,
    copy .uo .u, copy .uoo .u]

/-- LevelSetSolver::solve and advance_concentration, sharp_interface.h:339-361, 401-410. -/
def sharpLevelSetSolve (cfg : Cfg) : P :=
  seqs [copy .dc .c,
    .ite "step_size_old > 0" (alg "sadd" .dc [.dc, .co]) .skip,
    copy .coo .co, copy .co .c, copy .c .dc, refresh .c, refresh .co, refresh .coo,
    refresh .u, refresh .uo, refresh .uoo,
    advanceConcentration cfg transportSolver,
    dropGhosts .u, dropGhosts .uo, dropGhosts .uoo,
    sharpReinit cfg]

/-- VectorTools::update_position_vector, sharp_interface_util.h:52-121 (the surface mesh and
its position vector are replicated or serial: part of the scalar data). -/
def moveSurface : P := seqs [refresh .u, eval "move surface" [] [.u]]

/-- MixedLevelSetSolver: update_phases (sharp_interface.h:941-978; a cell loop without
destination: the level set is imported if it is not ghosted, here `loop` into a temporary),
update_gravity_force (1025-1063, zeroes the destination), update_surface_tension (980-1022)
with compute_force_vector_sharp_interface and compute_force_vector_regularized
(sharp_interface_util.h:636-806, 820-982, 988-1046). -/
def mixedForces (cfg : Cfg) : P :=
  seqs [opt cfg.variableParameters (seqs [zero .e, loop "phases" .e [.c] []]),
    zeroOut .fu, loop "gravity" .fu [] [],
    if cfg.surfaceMesh then
      seqs [refresh .n, refresh .w, loop "surface tension" .fu [] [.n, .w],
        dropGhosts .n, dropGhosts .w]
    else if cfg.sharp then
      seqs [refresh .n, refresh .w, refresh .c, loop "surface tension" .fu [] [.n, .w, .c],
        dropGhosts .n, dropGhosts .w, dropGhosts .c]
    else
      seqs [zero .h, copy .h .c, alg "add" .h [.h], loop "surface tension" .fu [.h] [.w]]]

/-- MixedLevelSetSolver, constructors, sharp_interface.h:758-809. -/
def mixedCtor (cfg : Cfg) : P := seqs [sharpLevelSetCtor cfg, mixedForces cfg]

/-- MixedLevelSetSolver::advance_time_step, sharp_interface.h:812-826. -/
def mixedStep (cfg : Cfg) : P :=
  seqs [sharpLevelSetSolve cfg, opt cfg.surfaceMesh moveSurface, mixedForces cfg,
    put "set_zero" .fu [.fu], flowStep cfg]

/-- MixedLevelSetSolver::output_solution, sharp_interface.h:829-925. -/
def mixedOutput : P :=
  seqs [refresh .u, refresh .p, refresh .fu, refresh .fp, refresh .c, refresh .w, refresh .n,
    eval "output" [] [.u, .fu, .p, .c, .w, .n],
    dropGhosts .u, dropGhosts .p, dropGhosts .fu, dropGhosts .fp, dropGhosts .c, dropGhosts .w,
    dropGhosts .n]

/-- FrontTrackingSolver: update_phases, update_gravity_force, update_surface_tension,
sharp_interface.h:629-745; the surface vectors are replicated.  The surface force
(sharp_interface_util.h:336-436) is added for all cells a process knows, without compress. -/
def frontForces : P :=
  seqs [zeroOut .fu, loop "gravity" .fu [] [], spill "surface tension" .fu [.fu]]

/-- FrontTrackingSolver, constructor, sharp_interface.h:506-538. -/
def frontCtor : P := frontForces

/-- FrontTrackingSolver::advance_time_step, sharp_interface.h:540-550. -/
def frontStep (cfg : Cfg) : P :=
  seqs [moveSurface, frontForces, put "set_zero" .fu [.fu], flowStep cfg]

/-- FrontTrackingSolver::output_solution, sharp_interface.h:552-617: user_rhs is handed to
DataOut without ghosts; DataOut makes its own copies (deal.II >= 9.3). -/
def frontOutput : P :=
  seqs [refresh .u, refresh .p, eval "output" [.u, .fu, .p] []]

end Verif.Parallel
