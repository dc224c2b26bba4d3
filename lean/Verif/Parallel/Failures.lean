/-
# C103: where parallel runs differ from a run on one process

Concrete runs on two processes that show that the restrictions of the theorems in
`Verif.Parallel.Runs` are needed: convection stabilization, the pressure after a projection
step with open boundaries, output and refinement after a change of the mesh, ghosts after
`distribute` in the Newton iteration of the phase field solver.
-/
import Verif.Parallel.Runs
import Mathlib.Data.Rat.Defs
import Mathlib.Algebra.Field.Rat

namespace Verif.Parallel.Failures

set_option maxRecDepth 100000

/-! ## BiCGStab with the stabilized transport operator -/

/-- The scalars of BiCGStab. -/
structure Sc where
  rho : ℚ
  alpha : ℚ
  omega : ℚ
  beta : ℚ
  it : ℕ
  deriving DecidableEq

abbrev D := Fin 2

def dot (x y : D → ℚ) : ℚ := x 0 * y 0 + x 1 * y 1

/-- Two dofs, two cells: the matrix `[[3, 1], [2, 4]]` as the sum of the cell matrices
`[[2, 1], [0, 1]]` and `[[1, 0], [2, 3]]`. -/
def cellMatrix (c i j : D) : ℚ :=
  if c = 0 then (if i = 0 then (if j = 0 then 2 else 1) else (if j = 0 then 0 else 1))
  else (if i = 0 then (if j = 0 then 1 else 0) else (if j = 0 then 2 else 3))

/-- The formulas of deal.II's SolverBicgstab (no constraints, identity preconditioner, no
contribution of the boundary). -/
def bicg : Ops D D ℚ Sc where
  loc l a xs i := match l, xs with
    | "constrained rows", [y, _] => y i
    | "b - r", [r, b] => b i - r i
    | "direction", [p, r, v] => r i + a.beta * (p i - a.omega * v i)
    | "preconditioner", [x] => x i
    | "r - alpha v", [r, v] => r i - a.alpha * v i
    | "x + alpha y + omega z", [x, y, z] => x i + a.alpha * y i + a.omega * z i
    | "r - omega t", [r, t] => r i - a.omega * t i
    | _, _ => 0
  cell l _ c xs i := match l, xs with
    | "A", [x] => cellMatrix c i 0 * x 0 + cellMatrix c i 1 * x 1
    | _, _ => 0
  fil _ _ _ _ := 0
  ev l a xs _ := match l, xs with
    | "rho", [r, rb] =>
        { a with rho := dot r rb,
                 beta := if a.it = 0 then 0 else dot r rb / a.rho * (a.alpha / a.omega),
                 it := a.it + 1 }
    | "alpha", [rb, v] => { a with alpha := a.rho / dot rb v }
    | "omega", [t, r] => { a with omega := dot t r / dot t t }
    | _, _ => a
  cond l _ := l == "bicgstab"
  count _ _ := 2

/-- Ghosts after `distribute`: as before. -/
def keep (S K : Type) [Zero K] : Env D D D K S where
  distr _ _ x := (x.gh, x.flag)
  filled _ _ x := x.gh
  owner _ _ i := i
  rank _ _ c := c

/-- Two processes, one dof and one cell each; right hand side `(1, 0)`. -/
def start : State Vec D D D Sc ℚ where
  vec x := match x with
    | .rc => ⟨fun i => if i = 0 then 1 else 0, fun _ _ => 0, false⟩
    | _ => ⟨fun _ => 0, fun _ _ => 0, false⟩
  owner i := i
  rank c := c
  aux := ⟨0, 0, 0, 0, 0⟩

def noCfg : Cfg :=
  ⟨false, false, false, false, false, false, false, false, false, false, false, false⟩
def stab : Cfg := { noCfg with stabilization := true }

/-- The linear solver of the transport step on two processes. -/
def result (cfg : Cfg) : Option (List ℚ) :=
  ((bicgstab (advectionMv cfg) .dc .rc).exec bicg (keep Sc ℚ) start).map
    fun t => [(t.vec .dc).own 0, (t.vec .dc).own 1]
/-- The same in one memory. -/
def resultShared (cfg : Cfg) : List ℚ :=
  let m := (bicgstab (advectionMv cfg) .dc .rc).shared bicg start.mem
  [m.vec .dc 0, m.vec .dc 1]

/-- **With convection stabilization a parallel run differs from a serial one.**  Two processes,
two unknowns, matrix `[[3, 1], [2, 4]]`, right hand side `(1, 0)`: without stabilization two
iterations of BiCGStab give the solution `(2/5, -1/5)` on one and on two processes.  With
stabilization, the ghosts of the search direction that were imported for the boundary terms
(level_set_okz_advance_concentration.cc:434) stay flagged, the preconditioner overwrites the
owned entries only, and from the second iteration on the cell loop works with the old copies:
two processes get another result, although the boundary terms are zero here. -/
theorem C103_stabilization_stale :
    resultShared noCfg = [2 / 5, -1 / 5] ∧ resultShared stab = [2 / 5, -1 / 5] ∧
    result noCfg = some [2 / 5, -1 / 5] ∧
    ∃ x, result stab = some x ∧ x ≠ [2 / 5, -1 / 5] :=
  ⟨by decide +kernel, by decide +kernel, by decide +kernel,
    [79 / 221, -8905819168 / 44689547487], by decide +kernel, by decide +kernel⟩

/-! ## The pressure after a projection step with open boundaries -/

/-- Trivial computations except that the open boundary sets the pressure to one, and that
the output writes what the process of the *other* cell reads. -/
def trace : Ops D D ℚ Unit where
  loc l _ xs i := match l with
    | "open pressure" => 1
    | _ => match xs with
      | x :: _ => x i
      | [] => 0
  cell _ _ _ _ _ := 0
  fil l _ views i := match l with
    | "joint" => match views (1 - i) with
      | [_, p, _, _, _, _] => p i
      | _ => 0
    | _ => 0
  ev _ _ _ _ := ()
  cond _ _ := false
  count _ _ := 0

def blank : State Vec D D D Unit ℚ where
  vec _ := ⟨fun _ => 0, fun _ _ => 0, false⟩
  owner i := i
  rank c := c
  aux := ()

def openProj : Cfg := { noCfg with projection := true, openBoundary := true }

def outputRun (cfg : Cfg) : List P :=
  levelSetSetup cfg :: levelSetCalls cfg .initial [.step, .output]

/-- The pressure in the output file at the two dofs, on two processes and in one memory. -/
def written (cfg : Cfg) : Option (List ℚ) :=
  (run trace (keep Unit ℚ) (outputRun cfg) blank).map fun t => [(t.vec .e).own 0, (t.vec .e).own 1]
def writtenShared (cfg : Cfg) : List ℚ :=
  let m := sharedRun trace (outputRun cfg) blank.mem
  [m.vec .e 0, m.vec .e 1]

/-- **With the projection scheme and open boundaries the output of a parallel run is wrong**:
the pressure is changed after its ghosts were renewed (navier_stokes.cc:1046-1075), and
LevelSetBaseAlgorithm::output_solution reads the old copies.  Without open boundaries the two
agree. -/
theorem C103_open_projection_stale :
    writtenShared openProj = [1, 1] ∧ written openProj = some [0, 0] ∧
    writtenShared { openProj with openBoundary := false } = [0, 0] ∧
    written { openProj with openBoundary := false } = some [0, 0] :=
  ⟨by decide +kernel, by decide +kernel, by decide +kernel, by decide +kernel⟩

/-! ## Output and refinement after a change of the mesh -/

def lsRun (calls : List TwoCall) : Option (State Vec D D D Unit ℚ) :=
  run trace (keep Unit ℚ) (levelSetSetup noCfg :: levelSetCalls noCfg .initial calls) blank

/-- **After a change of the mesh the normals, curvature and Heaviside function have no ghosts
until the next step**: output_solution and a second refine_grid violate the assertion on
ghost access; before the change and after the next step they do not. -/
theorem C103_adapted_asserts :
    lsRun [.step, .refine true, .output] = none ∧
    lsRun [.step, .refine true, .refine false] = none ∧
    (lsRun [.step, .output, .refine true, .statistics, .step, .refine false, .output]).isSome
      = true := by
  refine ⟨Option.isNone_iff_eq_none.1 ?_, Option.isNone_iff_eq_none.1 ?_, ?_⟩ <;> decide +kernel

/-! ## Newton iteration of the phase field solver -/

/-- Two Newton iterations with one Krylov iteration each; the constraints change the update. -/
def newton : Ops D D ℚ Unit where
  loc l _ xs i := match l, xs with
    | "b - Ax", [y, b] => b i - y i
    | "x + sum", [x, z] => x i + z i
    | "constraints", [x] => x i + 1
    | "-=", [x, y] => x i - y i
    | "add", [x, y] => x i + y i
    | _, x :: _ => x i
    | _, [] => 0
  cell l _ _ xs _ := match l, xs with
    | "CH w", [x, _] => x 0 + x 1
    | _, _ => 0
  fil _ _ _ _ := 0
  ev _ _ _ _ := ()
  cond l _ := l == "newton" || l == "arnoldi"
  count l _ := if l == "newton" then 2 else 1

/-- `distribute` that renews the ghosts. -/
def tidy : Env D D D ℚ Unit where
  distr l a x := (fun _ => newton.loc l a [x.own], x.flag)
  filled _ _ x := x.gh
  owner _ _ i := i
  rank _ _ c := c

/-- All vectors zero with current ghosts. -/
def ready : State Vec D D D Unit ℚ where
  vec x := match x with
    | .rc => ⟨fun _ => 0, fun _ _ => 0, false⟩
    | _ => ⟨fun _ => 0, fun _ _ => 0, true⟩
  owner i := i
  rank c := c
  aux := ()

def chRun (e : Env D D D ℚ Unit) : Option (List ℚ) :=
  ((cahnHilliard noCfg).exec newton e ready).map fun t => [(t.vec .c).own 0, (t.vec .c).own 1]
def chShared : List ℚ :=
  let m := (cahnHilliard noCfg).shared newton ready.mem
  [m.vec .c 0, m.vec .c 1]

theorem tidy_tidy : tidy.Tidy newton := fun _ _ _ _ _ _ => rfl

/-- **The Newton iteration of the phase field solver relies on `distribute`**: the update is
not reset between the iterations (phase_field.cc:405-459) and carries the ghosted state it
got from the concentration; if `distribute` leaves old copies in a ghosted vector, the second
iteration uses them in a product and the result differs from the serial one. -/
theorem C103_distribute_matters :
    chShared = [1, 1] ∧ chRun tidy = some [1, 1] ∧ chRun (keep Unit ℚ) = some [-1, -1] :=
  ⟨by decide +kernel, by decide +kernel, by decide +kernel⟩

/-! ## The stabilized transport with GMRES -/

/-- After set-up and init_time_advance a transport step with GMRES as the only linear solver
is right also with stabilization: its vectors are normalized after the preconditioner, by
whole-vector arithmetic that renews the ghosts. -/
theorem C103_stabilization_gmres {R I C S K : Type} [DecidableEq R] [Fintype R] [Fintype I]
    [Fintype C] [AddCommMonoid K] (o : Ops I C K S) (e : Env R I C K S)
    (s : State Vec R I C S K) :
    ∃ t, run o e [levelSetSetup noCfg, twoPhaseInit noCfg, advanceConcentration stab gmres] s
        = some t ∧
      t.mem = sharedRun o
        [levelSetSetup noCfg, twoPhaseInit noCfg, advanceConcentration stab gmres] s.mem ∧
      (t.vec .c).Up := by
  have h1 : Triple o e (fun _ => .any) (levelSetSetup noCfg) (inv false .two) :=
    Triple.seq (twoPhaseSetup_ok noCfg _ (checks noCfg).2.2.2.2.2.2.2.2.2)
      (Triple.plain (two_checks false).2.2.2.2.2.2.2.1)
  have h3 : passes false started (advanceConcentration stab gmres) (mid .two) = true := by
    decide +kernel
  exact run_cons h1 (sat_any s) fun s1 hs1 =>
    run_cons (Triple.plain (checks noCfg).2.2.2.2.2.2.1) hs1 fun s2 hs2 =>
      run_cons (Triple.plain h3) hs2 fun s3 hs3 => run_nil (Sat.up hs3 rfl)

/-! ## The hypotheses are met -/

/-- A history with steps, output, refinements and statistics that is legal. -/
example : Stage.initial.Legal
    [.output, .refine true, .output, .step, .output, .refine true, .statistics, .step,
     .refine false, .output, .refine true, .step] := by decide +kernel

example : ¬ Stage.initial.Legal [.step, .refine true, .output] := by decide +kernel

/-- The histories run on two processes with a transport solver that really iterates. -/
example : (run bicg (keep Sc ℚ) (levelSetSetup noCfg :: levelSetCalls noCfg .initial
    [.step, .output, .refine true, .step]) start).isSome = true := by decide +kernel

end Verif.Parallel.Failures
