import Mathlib.Algebra.Order.Ring.Rat
import Mathlib.Algebra.Order.Field.Basic
import Mathlib.Order.WithBot
import Mathlib.Tactic.Linarith
import Mathlib.Tactic.NormNum

/-!
# C82, C83: one time step of the coupled two-phase solvers

* level set: `LevelSetBaseAlgorithm::advance_time_step`, `mark_cells_for_refinement` (source/level_set_base.cc:186-411),
  `compute_force` of both level-set solvers (source/level_set_okz.cc:411-432, source/level_set_okz_matrix.cc:95-168),
  `compute_density_on_faces` (source/level_set_base.cc:416-447), `refine_grid` (source/two_phase_base.cc:394-437);
* phase field: `PhaseFieldSolver::advance_time_step` (source/phase_field.cc:461-470), `compute_force`
  (source/phase_field_local.cc:421-441), `compute_density_on_faces` (source/phase_field.cc:199-233).

The numerical kernels (advection, reinitialization, normal, curvature, force, residual, flow solve, transfer between
meshes) are arbitrary functions; the model is about which of them is called when and on which data.
-/

namespace Verif.TwoPhase

/-- The numerical kernels. `M` meshes, `L` level-set vectors, `A` the two older vectors with level set and curvature, `N` normal vector
fields, `H` smoothed indicator fields, `C` curvature vectors, `F` right hand sides, `R` density and viscosity tables,
`D` tables of densities on faces, `U` flow vectors with their history, `K` residual norms.
Simplification: kernels that start an iterative solver get the old vector as an argument (initial guess); an exception
`ExcNavierStokesNoConvergence` of the flow solve is caught (level_set_base.cc:281-288, navier_stokes.cc:764-773), so that
a flow state is produced in any case; other exceptions end the program and are not modelled. -/
structure Ops (M L A N H C F R D U K : Type) where
  /-- `init_time_advance` for both blocks of `solution` (level set and curvature), two_phase_base.cc:441-458 -/
  startLs : ℕ → L → C → A → L × C × A
  /-- `init_time_advance` for the flow, navier_stokes.cc:658-728 -/
  startFl : ℕ → U → U
  /-- `advance_concentration`, level_set_okz.cc:436-443 -/
  advect : M → U → A → L → L
  /-- `reinitialize(n_reinit_steps, diff_steps)`, level_set_okz.cc:545-562; may update the normals -/
  reinit : M → ℕ → L → N → L × N
  /-- `compute_heaviside`, level_set_okz.cc:478-542 -/
  heaviside : M → L → H
  /-- `compute_normal(fast)`, level_set_okz.cc:447-454 -/
  normal : M → Bool → L → N → N
  /-- the second half of `compute_curvature`, level_set_okz.cc:469-472 -/
  curvature : M → L → N → C → C
  /-- density at the face centres, level_set_base.cc:424-446 -/
  faceDensity : M → H → D
  /-- densities and viscosities in the quadrature points, level_set_okz.cc:343-368 -/
  material : M → H → R
  /-- surface tension and gravity, level_set_okz.cc:370-409 -/
  force : M → L → H → C → R → F
  /-- `NavierStokes::compute_initial_residual`, navier_stokes.cc:779-829 -/
  residual : M → U → F → R → K
  /-- `NavierStokes::solve_nonlinear_system` -/
  solve : M → U → F → R → D → K → U
  /-- value of the logarithm of the scaled level-set gradient and level of each cell, level_set_base.cc:334-351;
  `⊥` is `log 0` -/
  indicator : M → N → List (ℤ × WithBot K)
  /-- flag the cells and execute the refinement, level_set_base.cc:369-409, two_phase_base.cc:414 -/
  newMesh : M → N → L → U → M
  /-- transfer to the new mesh, two_phase_base.cc:402-431 and navier_stokes.cc:469-499 -/
  moveLs : M → M → L → L
  moveA : M → M → A → A
  moveC : M → M → C → C
  moveFl : M → M → U → U
  /-- freshly allocated objects of the new mesh -/
  zeroN : M → N
  zeroH : M → H
  zeroF : M → F
  zeroR : M → R
  zeroD : M → D

/-- Run-time parameters that steer the step. -/
structure Cfg where
  augmentedTaylorHood : Bool
  densityDiffNonzero : Bool
  viscosityDiffNonzero : Bool
  projection : Bool
  adaptiveRefinements : ℕ
  /-- `refine_lower_level_limit` -/
  lower : ℤ

/-- The condition under which face densities are computed, level_set_base.cc:418-421, phase_field.cc:203-206. -/
def Cfg.faces (P : Cfg) : Bool := !(!P.augmentedTaylorHood || !P.densityDiffNonzero || P.projection)

/-- `use_variable_parameters`, level_set_okz.cc:338-339 -/
def Cfg.variable (P : Cfg) : Bool := P.densityDiffNonzero || P.viscosityDiffNonzero

/-- What one call of the flow solver is given (ghost record, not stored by the code). -/
structure Solve (M L F R D U K : Type) where
  stepNo : ℕ
  mesh : M
  /-- the level set at that moment -/
  ls : L
  start : U
  rhs : F
  mat : R
  face : D
  /-- residual before a possible correction -/
  firstRes : K
  /-- residual handed to the flow solver -/
  res : K
  smoothed : Bool

/-- Events in the life of a solver (ghost record). -/
inductive Event (M L F R D U K : Type)
  | solve (e : Solve M L F R D U K)
  | refined (stepNo : ℕ)

/-- State of a LevelSetBaseAlgorithm object, level_set_base.h:46-115, two_phase_base.h, navier_stokes.h.
`oldRes = none` is the initial value `numeric_limits<double>::max()` (level_set_base.cc:61). The log (newest event
first) is a ghost field. -/
structure St (M L A N H C F R D U K : Type) where
  mesh : M
  stepNo : ℕ
  ls : L
  hist : A
  nrm : N
  heav : H
  curv : C
  rhs : F
  mat : R
  face : D
  fl : U
  oldRes : Option K
  lastSmooth : ℕ
  lastRefine : ℕ
  log : List (Event M L F R D U K)

variable {M L A N H C F R D U K : Type}

section Model

variable (O : Ops M L A N H C F R D U K) (P : Cfg)

/-- `compute_force`, level_set_okz.cc:411-432 and level_set_okz_matrix.cc:95-168: `compute_heaviside`,
`compute_curvature` (which calls `compute_normal(false)` first), `compute_density_on_faces`, then the cell loop which
fills the material tables (if variable) and the right hand side. -/
def computeForce (s : St M L A N H C F R D U K) : St M L A N H C F R D U K :=
  let s := { s with heav := O.heaviside s.mesh s.ls }
  let s := { s with nrm := O.normal s.mesh false s.ls s.nrm }
  let s := { s with curv := O.curvature s.mesh s.ls s.nrm s.curv }
  let s := { s with face := if P.faces then O.faceDensity s.mesh s.heav else s.face }
  let s := { s with mat := if P.variable then O.material s.mesh s.heav else s.mat }
  { s with rhs := O.force s.mesh s.ls s.heav s.curv s.mat }

/-- `reinitialize(n_reinit_steps, diff)`, level_set_base.cc:253, 272 -/
def reinitialize (diff : ℕ) (s : St M L A N H C F R D U K) : St M L A N H C F R D U K :=
  { s with ls := (O.reinit s.mesh diff s.ls s.nrm).1, nrm := (O.reinit s.mesh diff s.ls s.nrm).2 }

/-- `init_time_advance` followed by `advance_concentration`, level_set_base.cc:191 and 252 -/
def beginStep (s : St M L A N H C F R D U K) : St M L A N H C F R D U K :=
  let x := O.startLs (s.stepNo + 1) s.ls s.curv s.hist
  let t := { s with stepNo := s.stepNo + 1, ls := x.1, curv := x.2.1, hist := x.2.2, fl := O.startFl (s.stepNo + 1) s.fl }
  { t with ls := O.advect t.mesh t.fl t.hist t.ls }

/-- `compute_initial_residual` in the current state -/
def St.residual (s : St M L A N H C F R D U K) : K := O.residual s.mesh s.fl s.rhs s.mat

/-- the test for an excessive residual, level_set_base.cc:267-269; with the initial `old_residual` the right hand side
of the comparison is infinite -/
def excessive [Mul K] [OfNat K 2] [LE K] [DecidableLE K] (s : St M L A N H C F R D U K) (res : K) : Bool :=
  decide (s.stepNo > 3 + s.lastSmooth) && decide (s.stepNo > 2 + s.lastRefine) &&
    match s.oldRes with
    | none => false
    | some r => decide (2 * r ≤ res)

/-- the correction, level_set_base.cc:271-276 -/
def correct (s : St M L A N H C F R D U K) : St M L A N H C F R D U K :=
  { computeForce O P (reinitialize O 10 s) with lastSmooth := s.stepNo }

/-- level_set_base.cc:278-291 -/
def finishStep (firstRes : K) (smoothed : Bool) (s : St M L A N H C F R D U K) : St M L A N H C F R D U K :=
  let res := s.residual O
  { s with
    oldRes := some res
    fl := O.solve s.mesh s.fl s.rhs s.mat s.face res
    log := .solve { stepNo := s.stepNo, mesh := s.mesh, ls := s.ls, start := s.fl, rhs := s.rhs, mat := s.mat,
                    face := s.face, firstRes := firstRes, res := res, smoothed := smoothed } :: s.log }

/-- `LevelSetBaseAlgorithm::advance_time_step` with `do_iteration = false`, level_set_base.cc:186-291
(with `do_iteration = true` it throws). -/
def advance [Mul K] [OfNat K 2] [LE K] [DecidableLE K] (s : St M L A N H C F R D U K) : St M L A N H C F R D U K :=
  let s := computeForce O P (reinitialize O 0 (beginStep O s))
  let r := s.residual O
  if excessive s r then finishStep O r true (correct O P s) else finishStep O r false s

/-- the loop that decides whether anything is done, level_set_base.cc:332-367. Thresholds are `-3.5` and `-8`. -/
def triggers [Field K] [LinearOrder K] (m : M) (stepNo : ℕ) (n : N) : Bool :=
  (O.indicator m n).any fun c =>
    (decide (c.1 < P.adaptiveRefinements + P.lower) && decide (((-(7 / 2) : K) : WithBot K) < c.2)) ||
    (decide (stepNo = 0) && decide (P.lower < c.1) && decide (c.2 < ((-8 : K) : WithBot K)))

/-- level_set_base.cc:302-303: at step 0 the marking computes the normals first. -/
def markNormals (s : St M L A N H C F R D U K) : St M L A N H C F R D U K :=
  { s with nrm := if s.stepNo = 0 then O.normal s.mesh true s.ls s.nrm else s.nrm }

/-- The adaptation itself, level_set_base.cc:369-410 and two_phase_base.cc:400-436. The objects of the new mesh: normals
and indicator are resized, hence zero (level_set_base.cc:177-183), force, material tables and face densities too
(navier_stokes.cc:466, navier_stokes_matrix.cc `initialize`, navier_stokes_preconditioner.cc:1419-1424). -/
def adapt (s : St M L A N H C F R D U K) : St M L A N H C F R D U K :=
  let m := O.newMesh s.mesh s.nrm s.ls s.fl
  { s with
    mesh := m, ls := O.moveLs s.mesh m s.ls, hist := O.moveA s.mesh m s.hist, curv := O.moveC s.mesh m s.curv
    fl := O.moveFl s.mesh m s.fl
    nrm := O.zeroN m, heav := O.zeroH m, rhs := O.zeroF m, mat := O.zeroR m, face := O.zeroD m
    lastRefine := s.stepNo
    log := .refined s.stepNo :: s.log }

/-- `refine_grid` with `LevelSetBaseAlgorithm::mark_cells_for_refinement`, two_phase_base.cc:394-437 and
level_set_base.cc:296-411. -/
def refineGrid [Field K] [LinearOrder K] (s : St M L A N H C F R D U K) : St M L A N H C F R D U K :=
  if P.adaptiveRefinements = 0 then s
  else if triggers O P (markNormals O s).mesh (markNormals O s).stepNo (markNormals O s).nrm = false then markNormals O s
  else adapt O (markNormals O s)

/-- `output_solution` when it writes, level_set_base.cc:465-469: at step 0 curvature and indicator are computed. -/
def output (s : St M L A N H C F R D U K) : St M L A N H C F R D U K :=
  if s.stepNo = 0 then
    let s := { s with nrm := O.normal s.mesh false s.ls s.nrm }
    let s := { s with curv := O.curvature s.mesh s.ls s.nrm s.curv }
    { s with heav := O.heaviside s.mesh s.ls }
  else s

/-- What an application calls. -/
inductive Call
  | advance
  | refine
  | output

/-- Effect of a call. -/
def exec [Field K] [LinearOrder K] (s : St M L A N H C F R D U K) : Call → St M L A N H C F R D U K
  | .advance => advance O P s
  | .refine => refineGrid O P s
  | .output => output O s

/-- A history of calls. -/
def run [Field K] [LinearOrder K] (s : St M L A N H C F R D U K) (calls : List Call) : St M L A N H C F R D U K :=
  calls.foldl (exec O P) s

end Model

/-- A solver object after `setup_problem` (level_set_base.cc:145-154): no step done, counters and `old_residual` as set
by the constructor (level_set_base.cc:61-63); the vectors are arbitrary. -/
structure St.Fresh (s : St M L A N H C F R D U K) : Prop where
  step : s.stepNo = 0
  old : s.oldRes = none
  smooth : s.lastSmooth = 0
  refine : s.lastRefine = 0
  log : s.log = []

/-! ## Specification -/

namespace Spec

/-- The flow solve described by `e` was given data that belong to the level set at that moment: right hand side,
material tables and (where they exist) face densities are those of `e.ls` on the mesh `e.mesh`, and the residual is the
one of these data. `n0`, `c0` are initial guesses of the linear solvers. -/
def Current (O : Ops M L A N H C F R D U K) (P : Cfg) (e : Solve M L F R D U K) : Prop :=
  ∃ n0 c0,
    e.rhs = O.force e.mesh e.ls (O.heaviside e.mesh e.ls)
      (O.curvature e.mesh e.ls (O.normal e.mesh false e.ls n0) c0) e.mat ∧
    ((P.densityDiffNonzero = true ∨ P.viscosityDiffNonzero = true) →
      e.mat = O.material e.mesh (O.heaviside e.mesh e.ls)) ∧
    (P.augmentedTaylorHood = true → P.densityDiffNonzero = true → P.projection = false →
      e.face = O.faceDensity e.mesh (O.heaviside e.mesh e.ls)) ∧
    e.res = O.residual e.mesh e.start e.rhs e.mat

/-- the newest flow solve in a list of events -/
def lastSolve : List (Event M L F R D U K) → Option (Solve M L F R D U K)
  | [] => none
  | .solve e :: _ => some e
  | .refined _ :: l => lastSolve l

/-- When the correction is due in a step with number `n` whose first residual is `res`, given the events before it. -/
def Due [Mul K] [OfNat K 2] [LE K] (past : List (Event M L F R D U K)) (n : ℕ) (res : K) : Prop :=
  3 < n ∧ (∀ p, .solve p ∈ past → p.smoothed = true → p.stepNo + 3 < n) ∧ (∀ k, .refined k ∈ past → k + 2 < n) ∧
  ∃ p, lastSolve past = some p ∧ 2 * p.res ≤ res

end Spec

/-! ## Proofs -/

section Proofs

variable [Field K] [LinearOrder K] (O : Ops M L A N H C F R D U K) (P : Cfg)

theorem faces_iff : P.faces = true ↔
    P.augmentedTaylorHood = true ∧ P.densityDiffNonzero = true ∧ P.projection = false := by
  unfold Cfg.faces
  cases P.augmentedTaylorHood <;> cases P.densityDiffNonzero <;> cases P.projection <;> simp

theorem run_snoc (s : St M L A N H C F R D U K) (calls : List Call) (c : Call) :
    run O P s (calls ++ [c]) = exec O P (run O P s calls) c := by
  simp [run, List.foldl_append]

/-- data of the state belong to its level set -/
def Ready (s : St M L A N H C F R D U K) : Prop :=
  ∃ n0 c0,
    s.rhs = O.force s.mesh s.ls (O.heaviside s.mesh s.ls)
      (O.curvature s.mesh s.ls (O.normal s.mesh false s.ls n0) c0) s.mat ∧
    (P.variable = true → s.mat = O.material s.mesh (O.heaviside s.mesh s.ls)) ∧
    (P.faces = true → s.face = O.faceDensity s.mesh (O.heaviside s.mesh s.ls))

omit [Field K] [LinearOrder K] in
theorem ready_computeForce (s : St M L A N H C F R D U K) : Ready O P (computeForce O P s) := by
  refine ⟨s.nrm, s.curv, rfl, ?_, ?_⟩
  · intro h; simp [computeForce, h]
  · intro h; simp [computeForce, h]

/-- the record written by a step -/
theorem advance_log (s : St M L A N H C F R D U K) : ∃ e : Solve M L F R D U K,
    (advance O P s).log = .solve e :: s.log ∧ e.stepNo = s.stepNo + 1 ∧ (advance O P s).stepNo = s.stepNo + 1 ∧
    e.ls = (advance O P s).ls ∧ e.mesh = s.mesh ∧ (advance O P s).mesh = s.mesh ∧
    Spec.Current O P e ∧ (advance O P s).oldRes = some e.res ∧
    (advance O P s).lastRefine = s.lastRefine ∧
    (advance O P s).lastSmooth = (if e.smoothed then s.stepNo + 1 else s.lastSmooth) ∧
    (e.smoothed = true ↔ s.stepNo + 1 > 3 + s.lastSmooth ∧ s.stepNo + 1 > 2 + s.lastRefine ∧
      ∃ r, s.oldRes = some r ∧ 2 * r ≤ e.firstRes) ∧
    e.start = O.startFl (s.stepNo + 1) s.fl ∧ (advance O P s).nrm = O.normal s.mesh false e.ls
      (O.reinit s.mesh (if e.smoothed then 10 else 0)
        (if e.smoothed then (O.reinit s.mesh 0 (beginStep O s).ls s.nrm).1 else (beginStep O s).ls)
        (if e.smoothed then O.normal s.mesh false (O.reinit s.mesh 0 (beginStep O s).ls s.nrm).1
          (O.reinit s.mesh 0 (beginStep O s).ls s.nrm).2 else s.nrm)).2 ∧
    (e.smoothed = false → e.firstRes = e.res) := by
  set s3 := computeForce O P (reinitialize O 0 (beginStep O s)) with h3
  set r := s3.residual O with hr
  have hstep : s3.stepNo = s.stepNo + 1 := rfl
  have hls : s3.lastSmooth = s.lastSmooth := rfl
  have hlr : s3.lastRefine = s.lastRefine := rfl
  have hor : s3.oldRes = s.oldRes := rfl
  have hex : excessive s3 r = true ↔ s.stepNo + 1 > 3 + s.lastSmooth ∧ s.stepNo + 1 > 2 + s.lastRefine ∧
      ∃ q, s.oldRes = some q ∧ 2 * q ≤ r := by
    unfold excessive
    rw [hstep, hls, hlr, hor]
    cases s.oldRes <;> simp [and_assoc]
  have hadv : advance O P s = if excessive s3 r then finishStep O r true (correct O P s3) else finishStep O r false s3 :=
    rfl
  have cur : ∀ (b : Bool) (t : St M L A N H C F R D U K), Ready O P t → Spec.Current O P
      { stepNo := t.stepNo, mesh := t.mesh, ls := t.ls, start := t.fl, rhs := t.rhs, mat := t.mat,
        face := t.face, firstRes := r, res := t.residual O, smoothed := b } := by
    rintro b t ⟨n0, c0, h1, h2, h3⟩
    refine ⟨n0, c0, h1, ?_, ?_, rfl⟩
    · intro h; exact h2 (by unfold Cfg.variable; simpa using h)
    · intro a d p; exact h3 ((faces_iff P).2 ⟨a, d, p⟩)
  by_cases h : excessive s3 r = true
  · rw [hadv, if_pos h]
    refine ⟨_, rfl, rfl, rfl, rfl, rfl, rfl, cur true (correct O P s3) ?_, rfl, rfl, rfl, ?_, rfl, rfl, ?_⟩
    · exact ready_computeForce O P _
    · exact ⟨fun _ => hex.1 h, fun _ => rfl⟩
    · intro h; cases h
  · rw [hadv, if_neg h]
    refine ⟨_, rfl, rfl, rfl, rfl, rfl, rfl, cur false s3 (ready_computeForce O P _), rfl, rfl, rfl, ?_, rfl, rfl, ?_⟩
    · exact ⟨fun h' => (by cases h'), fun h' => absurd (hex.2 h') h⟩
    · intro _; rfl

theorem refine_cases (s : St M L A N H C F R D U K) :
    ((refineGrid O P s).log = s.log ∧ (refineGrid O P s).lastRefine = s.lastRefine ∧
      (refineGrid O P s).ls = s.ls ∧ (refineGrid O P s).mesh = s.mesh ∧ (s.stepNo ≠ 0 → refineGrid O P s = s) ∨
      ((refineGrid O P s).log = .refined s.stepNo :: s.log ∧ (refineGrid O P s).lastRefine = s.stepNo ∧
        (refineGrid O P s).nrm = O.zeroN (refineGrid O P s).mesh)) ∧
    (refineGrid O P s).stepNo = s.stepNo ∧ (refineGrid O P s).oldRes = s.oldRes ∧
    (refineGrid O P s).lastSmooth = s.lastSmooth := by
  unfold refineGrid
  split
  · exact ⟨Or.inl ⟨rfl, rfl, rfl, rfl, fun _ => rfl⟩, rfl, rfl, rfl⟩
  · split
    · refine ⟨Or.inl ⟨rfl, rfl, rfl, rfl, fun h => ?_⟩, rfl, rfl, rfl⟩
      unfold markNormals
      rw [if_neg h]
    · exact ⟨Or.inr ⟨rfl, rfl, rfl⟩, rfl, rfl, rfl⟩

omit [Field K] [LinearOrder K] in
theorem output_same (s : St M L A N H C F R D U K) :
    (output O s).log = s.log ∧ (output O s).lastRefine = s.lastRefine ∧ (output O s).stepNo = s.stepNo ∧
    (output O s).oldRes = s.oldRes ∧ (output O s).lastSmooth = s.lastSmooth ∧ (output O s).ls = s.ls ∧
    (output O s).mesh = s.mesh ∧ (s.stepNo ≠ 0 → output O s = s) := by
  unfold output
  split
  · exact ⟨rfl, rfl, rfl, rfl, rfl, rfl, rfl, fun h => absurd ‹_› h⟩
  · exact ⟨rfl, rfl, rfl, rfl, rfl, rfl, rfl, fun _ => rfl⟩

/-- counters and log agree -/
structure Inv (s : St M L A N H C F R D U K) : Prop where
  cur : ∀ e, .solve e ∈ s.log → Spec.Current O P e
  old : s.oldRes = (Spec.lastSolve s.log).map (·.res)
  smoothLe : ∀ e, .solve e ∈ s.log → e.smoothed = true → e.stepNo ≤ s.lastSmooth
  smoothEx : s.lastSmooth = 0 ∨ ∃ e, .solve e ∈ s.log ∧ e.smoothed = true ∧ e.stepNo = s.lastSmooth
  refineLe : ∀ k, .refined k ∈ s.log → k ≤ s.lastRefine
  refineEx : s.lastRefine = 0 ∨ .refined s.lastRefine ∈ s.log
  boundS : s.lastSmooth ≤ s.stepNo
  boundR : s.lastRefine ≤ s.stepNo
  due : ∀ newer e older, s.log = newer ++ .solve e :: older →
    (e.smoothed = true ↔ Spec.Due older e.stepNo e.firstRes)

theorem inv_advance (s : St M L A N H C F R D U K) (h : Inv O P s) : Inv O P (advance O P s) := by
  obtain ⟨e, hlog, hst, hst', -, -, -, hcur, hold, hlr, hls, hsm, -, -, -⟩ := advance_log O P s
  have hsm' : e.smoothed = true ↔ Spec.Due s.log e.stepNo e.firstRes := by
    rw [hsm, hst, Spec.Due]
    constructor
    · rintro ⟨h1, h2, r, hr, hle⟩
      refine ⟨by omega, fun p hp hs => ?_, fun k hk => ?_, ?_⟩
      · have := h.smoothLe p hp hs; omega
      · have := h.refineLe k hk; omega
      · have ho := h.old
        rw [hr] at ho
        cases hl : Spec.lastSolve s.log with
        | none => rw [hl] at ho; cases ho
        | some p =>
          rw [hl] at ho
          simp only [Option.map_some, Option.some.injEq] at ho
          exact ⟨p, rfl, ho ▸ hle⟩
    · rintro ⟨h0, h1, h2, p, hp, hle⟩
      refine ⟨?_, ?_, p.res, ?_, hle⟩
      · rcases h.smoothEx with hz | ⟨q, hq, hqs, hqn⟩
        · omega
        · have := h1 q hq hqs; omega
      · rcases h.refineEx with hz | hq
        · omega
        · have := h2 _ hq; omega
      · rw [h.old, hp]; rfl
  constructor
  · intro e' he'
    rw [hlog] at he'
    rcases List.mem_cons.1 he' with h1 | h1
    · cases h1; exact hcur
    · exact h.cur e' h1
  · rw [hold, hlog]; rfl
  · intro e' he' hs
    rw [hlog] at he'
    rcases List.mem_cons.1 he' with h1 | h1
    · cases h1; rw [hls, hs, if_pos rfl, hst]
    · have := h.smoothLe e' h1 hs
      have := h.boundS
      rw [hls]
      split <;> omega
  · rw [hls, hlog]
    by_cases hs : e.smoothed = true
    · rw [if_pos hs]
      exact Or.inr ⟨e, List.mem_cons_self, hs, hst⟩
    · rw [if_neg hs]
      rcases h.smoothEx with hz | ⟨q, hq, hqs, hqn⟩
      · exact Or.inl hz
      · exact Or.inr ⟨q, List.mem_cons_of_mem _ hq, hqs, hqn⟩
  · intro k hk
    rw [hlog] at hk
    rcases List.mem_cons.1 hk with h1 | h1
    · cases h1
    · rw [hlr]; exact h.refineLe k h1
  · rw [hlr, hlog]
    rcases h.refineEx with hz | hq
    · exact Or.inl hz
    · exact Or.inr (List.mem_cons_of_mem _ hq)
  · have := h.boundS
    rw [hls, hst']
    split <;> omega
  · have := h.boundR
    rw [hlr, hst']; omega
  · intro newer e' older heq
    rw [hlog] at heq
    cases newer with
    | nil =>
      simp only [List.nil_append, List.cons.injEq, Event.solve.injEq] at heq
      obtain ⟨rfl, rfl⟩ := heq
      exact hsm'
    | cons x newer =>
      simp only [List.cons_append, List.cons.injEq] at heq
      exact h.due newer e' older heq.2

theorem inv_refine (s : St M L A N H C F R D U K) (h : Inv O P s) : Inv O P (refineGrid O P s) := by
  obtain ⟨hc, hst, hor, hls⟩ := refine_cases O P s
  rcases hc with ⟨hlog, hlr, -, -, -⟩ | ⟨hlog, hlr, -⟩
  · constructor
    · rw [hlog]; exact h.cur
    · rw [hlog, hor]; exact h.old
    · rw [hlog, hls]; exact h.smoothLe
    · rw [hlog, hls]; exact h.smoothEx
    · rw [hlog, hlr]; exact h.refineLe
    · rw [hlog, hlr]; exact h.refineEx
    · rw [hls, hst]; exact h.boundS
    · rw [hlr, hst]; exact h.boundR
    · rw [hlog]; exact h.due
  · constructor
    · intro e he
      rw [hlog] at he
      rcases List.mem_cons.1 he with h1 | h1
      · cases h1
      · exact h.cur e h1
    · rw [hlog, hor]; exact h.old
    · intro e he hs
      rw [hlog] at he
      rw [hls]
      rcases List.mem_cons.1 he with h1 | h1
      · cases h1
      · exact h.smoothLe e h1 hs
    · rw [hlog, hls]
      rcases h.smoothEx with hz | ⟨q, hq, hqs, hqn⟩
      · exact Or.inl hz
      · exact Or.inr ⟨q, List.mem_cons_of_mem _ hq, hqs, hqn⟩
    · intro k hk
      rw [hlog] at hk
      rw [hlr]
      rcases List.mem_cons.1 hk with h1 | h1
      · cases h1; exact le_refl _
      · exact (h.refineLe k h1).trans h.boundR
    · rw [hlr, hlog]; exact Or.inr List.mem_cons_self
    · rw [hls, hst]; exact h.boundS
    · rw [hlr, hst]
    · intro newer e' older heq
      rw [hlog] at heq
      cases newer with
      | nil => simp at heq
      | cons x newer =>
        simp only [List.cons_append, List.cons.injEq] at heq
        exact h.due newer e' older heq.2

theorem inv_output (s : St M L A N H C F R D U K) (h : Inv O P s) : Inv O P (output O s) := by
  obtain ⟨hlog, hlr, hst, hor, hls, -, -, -⟩ := output_same O s
  constructor
  · rw [hlog]; exact h.cur
  · rw [hlog, hor]; exact h.old
  · rw [hlog, hls]; exact h.smoothLe
  · rw [hlog, hls]; exact h.smoothEx
  · rw [hlog, hlr]; exact h.refineLe
  · rw [hlog, hlr]; exact h.refineEx
  · rw [hls, hst]; exact h.boundS
  · rw [hlr, hst]; exact h.boundR
  · rw [hlog]; exact h.due

theorem inv_run (s : St M L A N H C F R D U K) (hs : s.Fresh) (calls : List Call) : Inv O P (run O P s calls) := by
  have h0 : Inv O P s := by
    obtain ⟨h1, h2, h3, h4, h5⟩ := hs
    constructor <;> simp [h1, h2, h3, h4, h5, Spec.lastSolve]
  unfold run
  generalize s = t at h0
  induction calls generalizing t with
  | nil => exact h0
  | cons c calls ih =>
    refine ih _ ?_
    cases c
    · exact inv_advance O P t h0
    · exact inv_refine O P t h0
    · exact inv_output O P t h0

/-- **C82 (data of the flow solve).** For all numerical kernels, all parameters and every history of time steps, mesh
adaptations and outputs: every flow solve was given the surface force, gravity, material tables, face densities and
residual that belong to the level set of that moment. -/
theorem C82_solve_data_current (s : St M L A N H C F R D U K) (hs : s.Fresh) (calls : List Call)
    (e : Solve M L F R D U K) (he : .solve e ∈ (run O P s calls).log) : Spec.Current O P e :=
  (inv_run O P s hs calls).cur e he

/-- **C82 (one solve per step, with the final level set).** In every state a call of `advance_time_step` performs
exactly one flow solve; it has the number of the new step, starts from the extrapolated flow, and the level set it saw
is the one the step ends with. -/
theorem C82_one_solve_final_level_set (s : St M L A N H C F R D U K) : ∃ e : Solve M L F R D U K,
    (exec O P s .advance).log = .solve e :: s.log ∧ e.stepNo = s.stepNo + 1 ∧
    (exec O P s .advance).stepNo = s.stepNo + 1 ∧ e.ls = (exec O P s .advance).ls ∧
    e.mesh = (exec O P s .advance).mesh ∧ e.start = O.startFl (s.stepNo + 1) s.fl := by
  obtain ⟨e, h1, h2, h3, h4, h5, h6, -, -, -, -, -, h7, -, -⟩ := advance_log O P s
  exact ⟨e, h1, h2, h3, h4, h5.trans h6.symm, h7⟩

/-- **C82 (correction of an excessive residual).** In every history, a step applies the extra diffusion exactly when its
number exceeds 3, every earlier correction lies at least four steps back, every earlier mesh adaptation at least three
steps back, and the first residual is at least twice the residual of the preceding flow solve; a step without correction
solves with its first residual. -/
theorem C82_correction_iff (s : St M L A N H C F R D U K) (hs : s.Fresh) (calls : List Call)
    (newer older : List (Event M L F R D U K)) (e : Solve M L F R D U K)
    (he : (run O P s calls).log = newer ++ .solve e :: older) :
    e.smoothed = true ↔ Spec.Due older e.stepNo e.firstRes :=
  (inv_run O P s hs calls).due newer e older he

/-- Two corrections are at least four steps apart. -/
theorem C82_corrections_apart (s : St M L A N H C F R D U K) (hs : s.Fresh) (calls : List Call)
    (newer older : List (Event M L F R D U K)) (e p : Solve M L F R D U K)
    (he : (run O P s calls).log = newer ++ .solve e :: older) (hp : .solve p ∈ older) (h1 : e.smoothed = true)
    (h2 : p.smoothed = true) : p.stepNo + 4 ≤ e.stepNo :=
  (((inv_run O P s hs calls).due newer e older he).1 h1).2.1 p hp h2

/-- where the normals of a state come from -/
def NrmOk (s : St M L A N H C F R D U K) : Prop :=
  s.stepNo ≠ 0 → (∃ n0, s.nrm = O.normal s.mesh false s.ls n0) ∨
    (.refined s.stepNo ∈ s.log ∧ s.nrm = O.zeroN s.mesh)

/-- **C82 (normals seen by the marking).** In every history, when a mesh adaptation after the first time step looks at
the interface, the normal field is the one of the current level set, or the mesh has already been adapted in this very
step and the normal field is the zero field of the new mesh. -/
theorem C82_marking_normals (s : St M L A N H C F R D U K) (hs : s.Fresh) (calls : List Call)
    (h1 : (run O P s calls).stepNo ≠ 0) :
    (∃ n0, (run O P s calls).nrm = O.normal (run O P s calls).mesh false (run O P s calls).ls n0) ∨
    (.refined (run O P s calls).stepNo ∈ (run O P s calls).log ∧
      (run O P s calls).nrm = O.zeroN (run O P s calls).mesh) := by
  have key : NrmOk O (run O P s calls) := by
    have h0 : NrmOk O s := fun h => absurd hs.step h
    clear h1 hs
    unfold run
    generalize s = t at h0
    induction calls generalizing t with
    | nil => exact h0
    | cons c calls ih =>
      refine ih _ ?_
      cases c
      · intro _
        obtain ⟨e, -, -, -, h4, -, h6, -, -, -, -, -, -, h8, -⟩ := advance_log O P t
        left
        exact ⟨_, by change (advance O P t).nrm = _; rw [h8]; rw [← h6, h4]; rfl⟩
      · intro h
        obtain ⟨hc, hst, -, -⟩ := refine_cases O P t
        change (refineGrid O P t).stepNo ≠ 0 at h
        change (∃ n0, (refineGrid O P t).nrm = _) ∨ _
        rcases hc with ⟨-, -, -, -, hsame⟩ | ⟨hlog, -, hn⟩
        · have := hsame (by rw [hst] at h; exact h)
          have h0' := h0 (by rw [hst] at h; exact h)
          change (∃ n0, (refineGrid O P t).nrm = O.normal (refineGrid O P t).mesh false (refineGrid O P t).ls n0) ∨
            (.refined (refineGrid O P t).stepNo ∈ (refineGrid O P t).log ∧
              (refineGrid O P t).nrm = O.zeroN (refineGrid O P t).mesh)
          rw [this]; exact h0'
        · right
          refine ⟨?_, hn⟩
          change .refined (refineGrid O P t).stepNo ∈ (refineGrid O P t).log
          rw [hlog, hst]; exact List.mem_cons_self
      · intro h
        have ho := output_same O t
        change (output O t).stepNo ≠ 0 at h
        rw [ho.2.2.1] at h
        have := ho.2.2.2.2.2.2.2 h
        change (∃ n0, (output O t).nrm = O.normal (output O t).mesh false (output O t).ls n0) ∨
          (.refined (output O t).stepNo ∈ (output O t).log ∧ (output O t).nrm = O.zeroN (output O t).mesh)
        rw [this]; exact h0 h
  exact key h1

/-- **C82 (adapting twice).** If the indicator of a zero normal field is `log 0` on every cell (it is the logarithm of a
multiple of the norm), a second mesh adaptation after the same time step changes nothing. -/
theorem C82_second_refine_noop (hz : ∀ m, ∀ c ∈ O.indicator m (O.zeroN m), c.2 = ⊥)
    (s : St M L A N H C F R D U K) (h1 : s.stepNo ≠ 0) :
    exec O P (exec O P s .refine) .refine = exec O P s .refine := by
  change refineGrid O P (refineGrid O P s) = refineGrid O P s
  obtain ⟨hc, hst, -, -⟩ := refine_cases O P s
  rcases hc with ⟨-, -, -, -, h⟩ | ⟨-, -, hn⟩
  · rw [h h1, h h1]
  · generalize refineGrid O P s = t at *
    unfold refineGrid
    split
    · rfl
    · have hm : markNormals O t = t := by
        unfold markNormals
        rw [if_neg (by rw [hst]; exact h1)]
      rw [hm, if_pos]
      unfold triggers
      rw [hn, List.any_eq_false]
      intro c hcm
      rw [hz _ c hcm]
      simp [hst, h1]

end Proofs

/-! ## The phase-field solver -/

/-- Kernels of the phase-field step: `advance_cahn_hilliard` (phase_field.cc:400-460), the cell loop of `compute_force`
(phase_field_local.cc:50-160: material tables and capillary force from the concentration and the chemical potential),
flow start and solve, marking and transfer. `L` contains both blocks of `solution` and of the two older vectors;
`cahnHilliard` includes their extrapolation in `init_time_advance` (two_phase_base.cc:441-458). -/
structure PfOps (M L F R D U : Type) where
  startFl : ℕ → U → U
  cahnHilliard : M → ℕ → U → L → L
  material : M → L → R
  force : M → L → R → F
  /-- what `compute_density_on_faces` would write, phase_field.cc:208-232 -/
  faceDensity : M → L → D
  solve : M → U → F → R → D → U
  marked : M → ℕ → L → Bool
  newMesh : M → L → M
  moveLs : M → M → L → L
  moveFl : M → M → U → U
  zeroF : M → F
  zeroR : M → R
  zeroD : M → D

/-- State of a PhaseFieldSolver; `log` (ghost): level set, right hand side, material tables and face densities of each
flow solve, with the mesh. -/
structure PfSt (M L F R D U : Type) where
  mesh : M
  stepNo : ℕ
  ls : L
  rhs : F
  mat : R
  face : D
  fl : U
  log : List (M × L × F × R × D)

section PhaseField

variable (O : PfOps M L F R D U) (P : Cfg)

/-- `PhaseFieldSolver::compute_force`, phase_field_local.cc:421-441. It does not call `compute_density_on_faces`
(phase_field.cc:199), and nothing else in the program does for a PhaseFieldSolver. -/
def PfSt.computeForce (s : PfSt M L F R D U) : PfSt M L F R D U :=
  let s := { s with mat := if P.variable then O.material s.mesh s.ls else s.mat }
  { s with rhs := O.force s.mesh s.ls s.mat }

/-- `PhaseFieldSolver::advance_time_step`, phase_field.cc:461-470 -/
def PfSt.advance (s : PfSt M L F R D U) : PfSt M L F R D U :=
  let s := { s with stepNo := s.stepNo + 1, fl := O.startFl (s.stepNo + 1) s.fl }
  let s := { s with ls := O.cahnHilliard s.mesh s.stepNo s.fl s.ls }
  let s := s.computeForce O P
  { s with fl := O.solve s.mesh s.fl s.rhs s.mat s.face, log := (s.mesh, s.ls, s.rhs, s.mat, s.face) :: s.log }

/-- `refine_grid` of the phase-field solver, two_phase_base.cc:394-437 with phase_field.cc:475-524 -/
def PfSt.refine (s : PfSt M L F R D U) : PfSt M L F R D U :=
  if P.adaptiveRefinements = 0 ∨ s.stepNo % 5 ≠ 0 ∨ O.marked s.mesh s.stepNo s.ls = false then s
  else
    let m := O.newMesh s.mesh s.ls
    { s with mesh := m, ls := O.moveLs s.mesh m s.ls, fl := O.moveFl s.mesh m s.fl, rhs := O.zeroF m, mat := O.zeroR m,
             face := O.zeroD m }

/-- steps (`true`) and mesh adaptations (`false`) -/
def PfSt.run (s : PfSt M L F R D U) (calls : List Bool) : PfSt M L F R D U :=
  calls.foldl (fun s b => if b then s.advance O P else s.refine O P) s

/-- **C83 (proved part).** For all kernels and every history of a phase-field solver, every flow solve is
given the material tables and force of the concentration at that moment, but the face densities are always the ones the
mesh was set up with: zero. -/
theorem C83_phase_field_solve_data_partial (s : PfSt M L F R D U) (h0 : s.log = []) (hd : s.face = O.zeroD s.mesh)
    (calls : List Bool) : ∀ e ∈ (s.run O P calls).log,
      e.2.2.1 = O.force e.1 e.2.1 e.2.2.2.1 ∧
      ((P.densityDiffNonzero = true ∨ P.viscosityDiffNonzero = true) → e.2.2.2.1 = O.material e.1 e.2.1) ∧
      e.2.2.2.2 = O.zeroD e.1 := by
  have inv : (∀ e ∈ (s.run O P calls).log,
      e.2.2.1 = O.force e.1 e.2.1 e.2.2.2.1 ∧
      ((P.densityDiffNonzero = true ∨ P.viscosityDiffNonzero = true) → e.2.2.2.1 = O.material e.1 e.2.1) ∧
      e.2.2.2.2 = O.zeroD e.1) ∧ (s.run O P calls).face = O.zeroD (s.run O P calls).mesh := by
    have hs : (∀ e ∈ s.log, e.2.2.1 = O.force e.1 e.2.1 e.2.2.2.1 ∧
      ((P.densityDiffNonzero = true ∨ P.viscosityDiffNonzero = true) → e.2.2.2.1 = O.material e.1 e.2.1) ∧
      e.2.2.2.2 = O.zeroD e.1) ∧ s.face = O.zeroD s.mesh := ⟨by rw [h0]; simp, hd⟩
    unfold PfSt.run
    clear h0 hd
    induction calls generalizing s with
    | nil => exact hs
    | cons b calls ih =>
      refine ih _ ?_
      obtain ⟨h1, h2⟩ := hs
      cases b
      · simp only [Bool.false_eq_true, if_false]
        unfold PfSt.refine
        split
        · exact ⟨h1, h2⟩
        · exact ⟨h1, rfl⟩
      · simp only [if_true]
        refine ⟨?_, h2⟩
        intro e he
        rcases List.mem_cons.1 he with h | h
        · subst h
          refine ⟨rfl, ?_, h2⟩
          intro hv
          have : P.variable = true := by unfold Cfg.variable; simpa using hv
          simp [PfSt.computeForce, this]
        · exact h1 e h
  exact inv.1

/-- **C83 (missing part is false).** With variable density, the augmented Taylor-Hood element and a
linearization other than projection, the pressure preconditioner needs the densities on the faces
(navier_stokes_preconditioner.h:268-275 asserts that they have been set); a phase-field time step never sets them, so
whenever the right values differ from zero the flow solve is given wrong ones. -/
theorem C83_phase_field_faces_unset (s : PfSt M L F R D U) (h0 : s.log = []) (hd : s.face = O.zeroD s.mesh)
    (calls : List Bool) (hne : ∀ m c, O.faceDensity m c ≠ O.zeroD m) :
    ∀ e ∈ (s.run O P calls).log, e.2.2.2.2 ≠ O.faceDensity e.1 e.2.1 := by
  intro e he
  rw [(C83_phase_field_solve_data_partial O P s h0 hd calls e he).2.2]
  exact (hne _ _).symm

end PhaseField

/-! ## Examples -/

namespace Example

/-- A toy instance: all fields are rational numbers, the residual of step `n` is read from a list through the flow
state. -/
def ops : Ops Unit ℚ ℚ ℚ ℚ ℚ ℚ ℚ ℚ ℚ ℚ where
  startLs := fun n l c a => (2 * l - a + n, 2 * c, l)
  startFl := fun _ u => u + 1
  advect := fun _ u a l => l + u - a
  reinit := fun _ d l n => (l / 2 + d, n + 1)
  heaviside := fun _ l => l + 1
  normal := fun _ f l _ => if f then l else 2 * l
  curvature := fun _ l n _ => n + l
  faceDensity := fun _ h => 10 + h
  material := fun _ h => 3 * h
  force := fun _ l h c r => l + h + c + r
  residual := fun _ u _ _ => if u ≤ 3 then 1 else u
  solve := fun _ u _ _ _ _ => u
  indicator := fun _ n => [(0, if n = 0 then ⊥ else ((-1 : ℚ) : WithBot ℚ))]
  newMesh := fun _ _ _ _ => ()
  moveLs := fun _ _ l => l
  moveA := fun _ _ l => l
  moveC := fun _ _ l => l
  moveFl := fun _ _ l => l
  zeroN := fun _ => 0
  zeroH := fun _ => 0
  zeroF := fun _ => 0
  zeroR := fun _ => 0
  zeroD := fun _ => 0

def cfg : Cfg := ⟨true, true, true, false, 1, 0⟩

def init : St Unit ℚ ℚ ℚ ℚ ℚ ℚ ℚ ℚ ℚ ℚ :=
  { mesh := (), stepNo := 0, ls := 1, hist := 0, nrm := 0, heav := 0, curv := 0, rhs := 0, mat := 0, face := 0, fl := 0,
    oldRes := none, lastSmooth := 0, lastRefine := 0, log := [] }

example : init.Fresh := ⟨rfl, rfl, rfl, rfl, rfl⟩

/-- the residual jumps at step 4, where the correction takes place; a mesh adaptation after step 2 suppresses it -/
example : ((run ops cfg init [.output, .advance, .advance, .advance, .advance, .advance]).log.map fun
      | .solve e => (e.stepNo, e.smoothed, e.res)
      | .refined n => (n, false, 0)) =
    [(5, false, 5), (4, true, 4), (3, false, 1), (2, false, 1), (1, false, 1)] := by decide +kernel

example : ((run ops cfg init [.refine, .advance, .advance, .refine, .refine, .advance, .advance, .advance]).log.map fun
      | .solve e => (e.stepNo, e.smoothed, e.res)
      | .refined n => (n + 100, false, 0)) =
    [(5, false, 5), (4, false, 4), (3, false, 1), (102, false, 0), (2, false, 1), (1, false, 1), (100, false, 0)] := by
  decide +kernel

/-- the hypothesis of `C82_second_refine_noop` -/
example : ∀ m, ∀ c ∈ ops.indicator m (ops.zeroN m), c.2 = ⊥ := by
  intro m c hc
  simp only [ops, List.mem_singleton] at hc
  rw [hc]; rfl

/-- A phase-field toy instance; the face density is at least the density of the lighter fluid. -/
def pf : PfOps Unit ℚ ℚ ℚ ℚ ℚ where
  startFl := fun _ u => u + 1
  cahnHilliard := fun _ n u l => l + u + n
  material := fun _ l => 1 + l * l
  force := fun _ l r => l + r
  faceDensity := fun _ l => 1 + l * l
  solve := fun _ u f _ _ => u + f
  marked := fun _ _ l => decide (3 < l)
  newMesh := fun _ _ => ()
  moveLs := fun _ _ l => l
  moveFl := fun _ _ l => l
  zeroF := fun _ => 0
  zeroR := fun _ => 0
  zeroD := fun _ => 0

example : ∀ m c, pf.faceDensity m c ≠ pf.zeroD m := by
  intro m c
  have : (0 : ℚ) ≤ c * c := mul_self_nonneg c
  simp only [pf]
  intro h
  linarith

example : ((PfSt.run pf cfg ⟨(), 0, 0, 0, 0, 0, 0, []⟩ [true, true]).log.map fun e => (e.2.1, e.2.2.2.2)) =
    [(13, 0), (2, 0)] := by decide +kernel

end Example

end Verif.TwoPhase
