import Verif.Parameters.Model

/-!
# C78, C79: objects behind the preconditioner, and the choice of the outer linear solver
(source/navier_stokes_preconditioner.cc: vmult 591-739, solve_pressure_mass 743-773, solve_projection_system 777-850, compute
901-974, clear 994-1012, initialize_matrices 1190-1378, assemble_matrices 2370-2475, is_variable 2479-2484;
source/navier_stokes.cc: distribute_dofs 203, initialize_data_structures 355-358, build_preconditioner 523-556, solve_system
559-640, solve_nonlinear_system 872-889, compute_initial_stokes_field 1164-1212)

Pointers and matrices are modelled by what they point to being there or not; numbers are not modelled.

There are two parameter objects. `NavierStokes` has a copy of its own (navier_stokes.h:239), while the preconditioner has a
reference (navier_stokes_preconditioner.h:222) that is bound in navier_stokes.cc:118 to the argument of the constructor, i.e. to
the object of the caller: in the list of initializers the argument hides the member of the same name. `Pair` is the values of
both.
-/

namespace Verif.Precond.Objects

open Verif.Parameters

inductive Phys | incompressible | stationary | stokes
  deriving DecidableEq

/-- The parameters read by the functions below; `densPos` is `parameters.density > 0`, `massIlu` is
`precondition_pressure == p_mass_ilu`. -/
structure Prm where
  vel : PrecVelocity
  phys : Phys
  projection : Bool
  densPos : Bool
  augmented : Bool
  massIlu : Bool
  deriving DecidableEq

/-- Rows and couplings of `matrix_u`: all velocity unknowns with the couplings of whole cells or of the linear subelements, or
the unknowns of one component. -/
inductive Shape | cells | subelements | component
  deriving DecidableEq

/-- One application of an operator in the preconditioner: a fixed linear map, or an iterative solver (whose result is not linear
in the right hand side). -/
inductive POp | fixed | iterative
  deriving DecidableEq

/-- Members of `NavierStokesPreconditioner` (navier_stokes_preconditioner.h:147-176) and `update_preconditioner`. `log` records
for every outer linear solve whether it is the flexible variant and what one application of the preconditioner does. -/
structure Objs where
  matrixU : Option Shape
  matrixP : Bool
  massMatrixP : Bool
  uuIlu : Bool
  uuIluScalar : Bool
  uuAmgMat : Bool
  uuAmg : Bool
  ppPoissonMat : Bool
  ppPoisson : Bool
  ppMass : Bool
  diagonal : Bool
  inner : Bool
  update : Bool
  log : List (Bool × List POp)
  deriving DecidableEq

/-- After construction (lines 978-990; navier_stokes.cc:123). -/
def Objs.ctor : Objs := ⟨none, false, false, false, false, false, false, false, false, false, false, false, true, []⟩

/-- A null pointer is dereferenced, entries are written outside of the pattern of a matrix, a matrix was not initialized. -/
inductive Err | null | pattern | noMatrix
  deriving DecidableEq

/-- `clear`, lines 994-1012 (`pp_poisson_mat` is not reset). -/
def Objs.clear (s : Objs) : Objs :=
  { s with matrixU := none, matrixP := false, massMatrixP := false, uuIlu := false, uuIluScalar := false, uuAmgMat := false,
           uuAmg := false, ppPoisson := false, ppMass := false }

/-- Sparsity patterns in `initialize_matrices`, lines 1190-1293, 1296-1378. -/
def Objs.initializeMatrices (c : Prm) (s : Objs) : Objs :=
  { s with
    matrixU := some (if c.vel = .amg ∨ c.vel = .ilu then .cells else if c.vel = .iluScalar then .component else .subelements)
    matrixP := s.matrixP || c.densPos
    massMatrixP := s.massMatrixP || (c.massIlu || c.augmented) }

/-- `distribute_dofs` and `setup_problem`. -/
def Objs.setup (c : Prm) (s : Objs) : Objs := { s.clear.initializeMatrices c with update := true }

/-- Entries written into `matrix_u` in the assembly (lines 1846-2200, 2434-2457) lie in the pattern: unknowns of one component,
couplings of linear subelements, or couplings of whole cells. -/
def fits (v : PrecVelocity) (m : Shape) : Bool := match v, m with
  | .iluScalar, .component => true
  | .iluScalar, _ => false
  | _, .component => false
  | .amgLinear, _ => true
  | _, .cells => true
  | _, .subelements => false

/-- `assemble_matrices`, lines 2370-2475. -/
def Objs.assemble (c : Prm) (s : Objs) : Except Err Objs :=
  let s := { s with uuAmg := false, uuIlu := false, uuIluScalar := false, ppPoisson := false, ppMass := false }
  match s.matrixU with
  | none => .error .noMatrix
  | some m =>
    if !fits c.vel m then .error .pattern
    else if (c.densPos && !s.matrixP) || ((c.massIlu || c.augmented) && !s.massMatrixP) then .error .noMatrix
    else .ok s

/-- `compute`, lines 901-974: `if (condition) pointer = make_shared` makes the pointer valid, otherwise it is as before. -/
def Objs.compute (c : Prm) (s : Objs) : Objs :=
  { s with
    uuAmgMat := s.uuAmgMat || decide (c.vel ≠ .iluScalar)
    uuIlu := s.uuIlu || decide (c.vel = .ilu)
    uuIluScalar := s.uuIluScalar || decide (c.vel = .iluScalar)
    uuAmg := s.uuAmg || decide (c.vel = .amg ∨ c.vel = .amgLinear)
    ppPoissonMat := s.ppPoissonMat || c.densPos
    ppPoisson := s.ppPoisson || c.densPos
    ppMass := s.ppMass || (c.augmented || c.massIlu)
    diagonal := s.diagonal || !(c.augmented || c.massIlu) }

/-- The preconditioner of the velocity is there. -/
def Objs.velReady (c : Prm) (s : Objs) : Bool := match c.vel with
  | .ilu => s.uuIlu
  | .iluScalar => s.uuIluScalar
  | _ => s.uuAmg

/-- `solve_pressure_mass`, lines 743-773. -/
def Objs.mass (s : Objs) : Except Err (List POp) :=
  if !s.ppMass then (if s.diagonal then .ok [.iterative] else .error .noMatrix) else .ok [.fixed]

/-- `vmult`, lines 591-739: the operators applied, without the product with the divergence. -/
def Objs.vmult (c : Prm) (s : Objs) : Except Err (List POp) :=
  if !s.velReady c then .error .null
  else
    let vel := if s.inner then POp.iterative else .fixed
    if c.phys = .stationary then
      if !s.ppPoisson then .error .null
      else s.mass.map fun m => [vel, .iterative, .fixed] ++ m
    else match s.mass with
      | .error e => .error e
      | .ok m =>
        if c.densPos then
          if !s.ppPoisson then .error .null else .ok ([vel] ++ m ++ [if s.inner then .iterative else .fixed])
        else .ok ([vel] ++ m)

/-- `is_variable`, lines 2479-2484. -/
def Objs.isVariable (c : Prm) (s : Objs) : Bool := !s.ppMass || s.inner || decide (c.phys = .stationary)

/-- Objects dereferenced in `solve_projection_system`, lines 797-845. -/
def Objs.solveProjection (c : Prm) (s : Objs) : Except Err Objs :=
  if !s.uuAmgMat || !s.velReady c then .error .null
  else if !s.ppPoissonMat || !s.ppPoisson then .error .null
  else if !s.ppMass && !s.diagonal then .error .noMatrix
  else .ok s

/-- One outer linear solve: `do_inner_solves` is set, the variant is chosen and recorded. -/
def Objs.outer (c : Prm) (inner forceFlexible : Bool) (s : Objs) : Except Err Objs :=
  match Objs.vmult c { s with inner := inner } with
  | .error e => .error e
  | .ok ops => .ok { s with inner := inner, log := s.log ++ [(forceFlexible || Objs.isVariable c { s with inner := inner }, ops)] }

/-- `solve_system`, navier_stokes.cc:559-640; `strong`: the first solver does not converge and the second one is started. -/
def Objs.solveSystem (c : Prm) (strong : Bool) (s : Objs) : Except Err Objs :=
  if c.projection then s.solveProjection c
  else match s.outer c false false with
    | .error e => .error e
    | .ok s => if strong then s.outer c true true else .ok s

/-- One pass of the loop in `solve_nonlinear_system`, navier_stokes.cc:872-889. -/
def Objs.iteration (c : Prm) (rebuild strong : Bool) (s : Objs) : Except Err Objs :=
  if rebuild then
    match s.assemble c with
    | .error e => .error e
    | .ok s => (s.compute c).solveSystem c strong
  else s.solveSystem c strong

/-- The passes of the loop; in later passes the policy decides (arbitrary). -/
def Objs.iterations (c : Prm) : List (Bool × Bool) → Objs → Except Err Objs
  | [], s => .ok s
  | (r, b) :: l, s => match s.iteration c r b with
    | .error e => .error e
    | .ok s => Objs.iterations c l s

/-- What a nonlinear solve brings: whether the policy asks for a rebuild in the first pass although `update_preconditioner` is
not set, whether the strong solver is needed, the other passes, and `update_preconditioner` at the end (lines 941-971). -/
structure Solve where
  first : Bool × Bool
  others : List (Bool × Bool)
  update : Bool

def Objs.nonlinear (c : Prm) (i : Solve) (s : Objs) : Except Err Objs :=
  match s.iterations c ((s.update || i.first.1, i.first.2) :: i.others) with
  | .error e => .error e
  | .ok s => .ok { s with update := i.update }

/-- The two parameter objects: the copy in `NavierStokes`, and the object of the caller. -/
structure Pair where
  own : Prm
  ext : Prm

/-- Construction, navier_stokes.cc:85 and 118. -/
def Pair.ctor (c : Prm) : Pair := ⟨c, c⟩

/-- What the functions above read: `linearization` is read by `solve_system` in the copy (navier_stokes.cc:563), everything else
is read by the preconditioner in the object of the caller. -/
def Pair.read (p : Pair) : Prm := { p.ext with projection := p.own.projection }

/-- The parameters during the initial Stokes solve, navier_stokes.cc:1173-1179: the copy is changed. -/
def Pair.stokes (p : Pair) : Pair := { p with own := { p.own with vel := .amgLinear, phys := .stokes, densPos := false } }

inductive Ev
  /-- `distribute_dofs`, `setup_problem` (also after mesh refinement). -/
  | setup
  /-- A time step. -/
  | step (i : Solve)
  /-- `compute_initial_stokes_field`; `moving`: the velocity with boundary values is not zero. -/
  | stokes (moving : Bool) (i : Solve)

def Ev.exec (p : Pair) (s : Objs) : Ev → Except Err Objs
  | .setup => .ok (s.setup p.read)
  | .step i => s.nonlinear p.read i
  | .stokes moving i =>
    if moving then
      match { s with update := true }.nonlinear p.stokes.read i with
      | .error e => .error e
      | .ok s => .ok { s with update := true }
    else .ok s

def run (p : Pair) (s : Objs) : List Ev → Except Err Objs
  | [] => .ok s
  | e :: es => match e.exec p s with
    | .error r => .error r
    | .ok s => run p s es

/-! ### Specification -/

/-- The solves of the program can run with these parameters. -/
def Spec.solveOk (c : Prm) : Prop :=
  if c.projection then c.vel ≠ .iluScalar ∧ c.densPos = true else (c.phys = .stationary → c.densPos = true)

/-- Events with a nonlinear solve. -/
def Ev.isSolve : Ev → Bool
  | .setup => false
  | .step _ => true
  | .stokes moving _ => moving

/-! ### Proofs -/

/-- The matrices of a setup with the parameters `c` are there. -/
structure Ready (c : Prm) (s : Objs) : Prop where
  u : s.matrixU = some (if c.vel = .amg ∨ c.vel = .ilu then .cells else if c.vel = .iluScalar then .component else .subelements)
  p : c.densPos = true → s.matrixP = true
  mass : (c.massIlu || c.augmented) = true → s.massMatrixP = true
  log : ∀ x ∈ s.log, x.1 = true ↔ .iterative ∈ x.2
  /-- With `u_ilu_scalar` there is no matrix-free velocity matrix. -/
  noMat : c.vel = .iluScalar → s.uuAmgMat = false

/-- The objects of a build with the parameters `c` are there. -/
structure Built (c : Prm) (s : Objs) : Prop where
  vel : s.velReady c = true
  amgMat : c.vel ≠ .iluScalar → s.uuAmgMat = true
  poisson : s.ppPoisson = c.densPos
  poissonMat : c.densPos = true → s.ppPoissonMat = true
  mass : s.ppMass = (c.massIlu || c.augmented)
  diag : s.ppMass = false → s.diagonal = true

theorem build_ok (c : Prm) (s : Objs) (h : Ready c s) :
    ∃ s₁, s.assemble c = .ok s₁ ∧ Ready c (s₁.compute c) ∧ Built c (s₁.compute c) := by
  obtain ⟨hu, hp, hm, hl, hn⟩ := h
  have hfit : fits c.vel (if c.vel = .amg ∨ c.vel = .ilu then .cells else if c.vel = .iluScalar then .component
      else .subelements) = true := by
    cases hv : c.vel <;> simp [fits]
  have hmat : ((c.densPos && !s.matrixP) || ((c.massIlu || c.augmented) && !s.massMatrixP)) = false := by
    cases h1 : c.densPos <;> cases h2 : (c.massIlu || c.augmented) <;> simp_all
  refine ⟨{ s with uuAmg := false, uuIlu := false, uuIluScalar := false, ppPoisson := false, ppMass := false }, ?_, ?_, ?_⟩
  · unfold Objs.assemble
    dsimp only
    rw [hu]
    dsimp only
    rw [hfit, if_neg (by simp), hmat, if_neg (by simp)]
  · exact ⟨hu, hp, hm, hl, fun h => by simp [Objs.compute, hn h, h]⟩
  · refine ⟨?_, ?_, ?_, ?_, ?_, ?_⟩
    · unfold Objs.velReady Objs.compute
      cases c.vel <;> simp
    · intro h; simp [Objs.compute, h]
    · simp [Objs.compute]
    · intro h; simp [Objs.compute, h]
    · simp [Objs.compute, Bool.or_comm]
    · intro h
      simp only [Objs.compute, Bool.false_or] at h ⊢
      rw [h]; simp

theorem mass_ok (c : Prm) (s : Objs) (hb : Built c s) :
    s.mass = .ok [if s.ppMass then .fixed else .iterative] := by
  unfold Objs.mass
  cases h : s.ppMass
  · simp [hb.diag h]
  · simp

/-- One application of the preconditioner, after a build. -/
theorem vmult_ok (c : Prm) (s : Objs) (hb : Built c s) (h : c.phys = .stationary → c.densPos = true) :
    ∃ ops, s.vmult c = .ok ops ∧ (s.isVariable c = true ↔ .iterative ∈ ops) := by
  unfold Objs.vmult Objs.isVariable
  rw [hb.vel, mass_ok c s hb, hb.poisson]
  by_cases hs : c.phys = .stationary
  · rw [h hs]
    simp [hs, Except.map]
  · cases hd : c.densPos <;> cases hi : s.inner <;> cases hm : s.ppMass <;> simp [hs]

theorem vmult_fails (c : Prm) (s : Objs) (hb : Built c s) (h : c.phys = .stationary) (hd : c.densPos = false) :
    s.vmult c = .error .null := by
  unfold Objs.vmult
  rw [hb.vel, hb.poisson, h, hd]
  simp

theorem ready_congr {c : Prm} {s t : Objs} (h : Ready c s) (h1 : t.matrixU = s.matrixU) (h2 : t.matrixP = s.matrixP)
    (h3 : t.massMatrixP = s.massMatrixP) (h4 : ∀ x ∈ t.log, x.1 = true ↔ .iterative ∈ x.2) (h5 : t.uuAmgMat = s.uuAmgMat) :
    Ready c t :=
  ⟨h1.trans h.u, fun h' => h2.trans (h.p h'), fun h' => h3.trans (h.mass h'), h4, fun h' => h5.trans (h.noMat h')⟩

theorem outer_ok (c : Prm) (s : Objs) (h : Ready c s) (hb : Built c s) (hc : c.phys = .stationary → c.densPos = true)
    (inner force : Bool) (hf : force = true → inner = true) :
    ∃ s', s.outer c inner force = .ok s' ∧ Ready c s' ∧ Built c s' := by
  have hb1 : Built c { s with inner := inner } := ⟨hb.vel, hb.amgMat, hb.poisson, hb.poissonMat, hb.mass, hb.diag⟩
  obtain ⟨ops, ho, hv⟩ := vmult_ok c _ hb1 hc
  refine ⟨{ s with inner := inner, log := s.log ++ [(force || Objs.isVariable c { s with inner := inner }, ops)] }, ?_,
    ready_congr h rfl rfl rfl ?_ rfl, ⟨hb.vel, hb.amgMat, hb.poisson, hb.poissonMat, hb.mass, hb.diag⟩⟩
  · unfold Objs.outer
    rw [ho]
  · intro x hx
    rcases List.mem_append.1 hx with hx | hx
    · exact h.log x hx
    · rw [List.mem_singleton.1 hx]
      have : (force || Objs.isVariable c { s with inner := inner }) = Objs.isVariable c { s with inner := inner } := by
        cases hforce : force
        · rfl
        · simp [Objs.isVariable, hf hforce]
      rw [this]
      exact hv

theorem solve_ok (c : Prm) (s : Objs) (h : Ready c s) (hb : Built c s) (hc : Spec.solveOk c) (strong : Bool) :
    ∃ s', s.solveSystem c strong = .ok s' ∧ Ready c s' ∧ Built c s' := by
  unfold Spec.solveOk at hc
  cases hp : c.projection
  · rw [hp] at hc
    have hc : c.phys = .stationary → c.densPos = true := by simpa using hc
    obtain ⟨s1, h1, h2, h3⟩ := outer_ok c s h hb hc false false (by simp)
    cases strong
    · refine ⟨s1, ?_, h2, h3⟩
      unfold Objs.solveSystem
      rw [hp, h1]
      rfl
    · obtain ⟨s2, h4, h5, h6⟩ := outer_ok c s1 h2 h3 hc true true (by simp)
      refine ⟨s2, ?_, h5, h6⟩
      unfold Objs.solveSystem
      rw [hp, h1]
      exact h4
  · rw [hp] at hc
    have hc : c.vel ≠ .iluScalar ∧ c.densPos = true := by simpa using hc
    refine ⟨s, ?_, h, hb⟩
    unfold Objs.solveSystem Objs.solveProjection
    rw [hp, if_pos rfl, hb.amgMat hc.1, hb.vel, hb.poissonMat hc.2, hb.poisson, hc.2]
    cases hm : s.ppMass
    · simp [hb.diag hm]
    · simp

theorem solve_fails (c : Prm) (s : Objs) (h : Ready c s) (hb : Built c s)
    (hc : ¬Spec.solveOk c) (strong : Bool) : s.solveSystem c strong = .error .null := by
  unfold Spec.solveOk at hc
  cases hp : c.projection
  · rw [hp] at hc
    have hc : c.phys = .stationary ∧ c.densPos = false := by simpa using hc
    unfold Objs.solveSystem
    rw [hp, if_neg (by simp)]
    have : s.outer c false false = .error .null := by
      unfold Objs.outer
      rw [vmult_fails c { s with inner := false } ⟨hb.vel, hb.amgMat, hb.poisson, hb.poissonMat, hb.mass, hb.diag⟩ hc.1 hc.2]
    rw [this]
  · rw [hp] at hc
    have hc : c.vel = .iluScalar ∨ c.densPos = false := by
      by_cases h1 : c.vel = .iluScalar
      · exact Or.inl h1
      · right
        simpa [h1] using hc
    unfold Objs.solveSystem Objs.solveProjection
    rw [hp, if_pos rfl]
    rcases hc with h1 | h1
    · rw [h.noMat h1]; rfl
    · rw [hb.poisson, h1]
      cases (!s.uuAmgMat || !s.velReady c) <;> simp

/-- A pass of the loop, if a build is done now or was done. -/
theorem iteration_ok (c : Prm) (s : Objs) (h : Ready c s) (r strong : Bool)
    (hb : r = false → Built c s) (hc : Spec.solveOk c) :
    ∃ s', s.iteration c r strong = .ok s' ∧ Ready c s' ∧ Built c s' := by
  unfold Objs.iteration
  cases r
  · exact solve_ok c s h (hb rfl) hc strong
  · obtain ⟨s1, h1, h2, h3⟩ := build_ok c s h
    rw [h1]
    exact solve_ok c _ h2 h3 hc strong

theorem iteration_fails (c : Prm) (s : Objs) (h : Ready c s) (r strong : Bool)
    (hb : r = false → Built c s) (hc : ¬Spec.solveOk c) : s.iteration c r strong = .error .null := by
  unfold Objs.iteration
  cases r
  · exact solve_fails c s h (hb rfl) hc strong
  · obtain ⟨s1, h1, h2, h3⟩ := build_ok c s h
    rw [h1]
    exact solve_fails c _ h2 h3 hc strong

theorem iterations_ok (c : Prm) (hc : Spec.solveOk c) (l : List (Bool × Bool)) (s : Objs)
    (h : Ready c s) (hb : Built c s) : ∃ s', s.iterations c l = .ok s' ∧ Ready c s' ∧ Built c s' := by
  induction l generalizing s with
  | nil => exact ⟨s, rfl, h, hb⟩
  | cons x l ih =>
    obtain ⟨r, b⟩ := x
    obtain ⟨s1, h1, h2, h3⟩ := iteration_ok c s h r b (fun _ => hb) hc
    unfold Objs.iterations
    rw [h1]
    exact ih s1 h2 h3

theorem nonlinear_ok (c : Prm) (hc : Spec.solveOk c) (i : Solve) (s : Objs) (h : Ready c s)
    (hb : s.update = false → Built c s) :
    ∃ s', s.nonlinear c i = .ok s' ∧ Ready c s' ∧ Built c s' := by
  obtain ⟨s1, h1, h2, h3⟩ := iteration_ok c s h (s.update || i.first.1) i.first.2
    (fun h => hb (by cases hu : s.update <;> simp_all)) hc
  obtain ⟨s2, h4, h5, h6⟩ := iterations_ok c hc i.others s1 h2 h3
  refine ⟨{ s2 with update := i.update }, ?_, ready_congr h5 rfl rfl rfl h5.log rfl,
    ⟨h6.vel, h6.amgMat, h6.poisson, h6.poissonMat, h6.mass, h6.diag⟩⟩
  unfold Objs.nonlinear Objs.iterations
  rw [h1]
  dsimp only
  rw [h4]

theorem nonlinear_fails (c : Prm) (hc : ¬Spec.solveOk c) (i : Solve) (s : Objs) (h : Ready c s)
    (hb : s.update = false → Built c s) : s.nonlinear c i = .error .null := by
  have h1 := iteration_fails c s h (s.update || i.first.1) i.first.2
    (fun h => hb (by cases hu : s.update <;> simp_all)) hc
  unfold Objs.nonlinear Objs.iterations
  rw [h1]

/-- What an event may need. -/
def Ev.allowed (c : Prm) (e : Ev) : Prop := e.isSolve = true → Spec.solveOk c

theorem setup_ready (c : Prm) (s : Objs) (hl : ∀ x ∈ s.log, x.1 = true ↔ .iterative ∈ x.2) : Ready c (s.setup c) :=
  ⟨rfl, fun h => by simp [Objs.setup, Objs.initializeMatrices, h],
    fun h => by simp only [Objs.setup, Objs.initializeMatrices, h, Bool.or_true], hl, fun _ => rfl⟩

theorem exec_stokes (c : Prm) (i : Solve) (s : Objs) : (Ev.stokes true i).exec (.ctor c) s =
    match Objs.nonlinear c i { s with update := true } with
    | .error e => .error e
    | .ok s => .ok { s with update := true } := rfl

theorem exec_ok (c : Prm) (e : Ev) (s : Objs) (h : Ready c s) (hb : s.update = false → Built c s) (ha : e.allowed c) :
    ∃ s', e.exec (.ctor c) s = .ok s' ∧ Ready c s' ∧ (s'.update = false → Built c s') := by
  cases e with
  | setup => exact ⟨_, rfl, setup_ready c s h.log, fun h => absurd h (by simp [Objs.setup])⟩
  | step i =>
    obtain ⟨s', h1, h2, h3⟩ := nonlinear_ok c (ha rfl) i s h hb
    exact ⟨s', h1, h2, fun _ => h3⟩
  | stokes moving i =>
    cases moving
    · exact ⟨s, rfl, h, hb⟩
    · obtain ⟨s', h1, h2, -⟩ := nonlinear_ok c (ha rfl) i { s with update := true }
        (ready_congr h rfl rfl rfl h.log rfl) (by simp)
      refine ⟨{ s' with update := true }, ?_, ready_congr h2 rfl rfl rfl h2.log rfl, by simp⟩
      rw [exec_stokes, h1]

theorem exec_fails (c : Prm) (e : Ev) (s : Objs) (h : Ready c s) (hb : s.update = false → Built c s) (ha : ¬e.allowed c) :
    e.exec (.ctor c) s = .error .null := by
  cases e with
  | setup => exact absurd (by simp [Ev.allowed, Ev.isSolve]) ha
  | step i => exact nonlinear_fails c (fun hc => ha fun _ => hc) i s h hb
  | stokes moving i =>
    cases moving
    · exact absurd (by simp [Ev.allowed, Ev.isSolve]) ha
    · have hr : Ready c { s with update := true } := ready_congr h rfl rfl rfl h.log rfl
      rw [exec_stokes, nonlinear_fails c (fun hc => ha fun _ => hc) i _ hr (by simp)]

theorem run_iff (c : Prm) (es : List Ev) (s : Objs) (h : Ready c s) (hb : s.update = false → Built c s) :
    (∃ s', run (.ctor c) s es = .ok s') ↔ ∀ e ∈ es, e.allowed c := by
  induction es generalizing s with
  | nil => exact ⟨fun _ e he => absurd he (by simp), fun _ => ⟨s, rfl⟩⟩
  | cons e es ih =>
    unfold run
    by_cases ha : e.allowed c
    · obtain ⟨s', h1, h2, h3⟩ := exec_ok c e s h hb ha
      rw [h1]
      dsimp only
      rw [ih s' h2 h3]
      constructor
      · intro h x hx
        rcases List.mem_cons.1 hx with rfl | hx
        · exact ha
        · exact h x hx
      · exact fun h x hx => h x (List.mem_cons_of_mem _ hx)
    · rw [exec_fails c e s h hb ha]
      constructor
      · rintro ⟨s', hs⟩; exact absurd hs (by simp)
      · exact fun h => absurd (h e List.mem_cons_self) ha

theorem run_log (c : Prm) (es : List Ev) (s s' : Objs) (h : Ready c s) (hb : s.update = false → Built c s)
    (hr : run (.ctor c) s es = .ok s') : ∀ x ∈ s'.log, x.1 = true ↔ .iterative ∈ x.2 := by
  induction es generalizing s with
  | nil =>
    cases hr
    exact h.log
  | cons e es ih =>
    unfold run at hr
    by_cases ha : e.allowed c
    · obtain ⟨s1, h1, h2, h3⟩ := exec_ok c e s h hb ha
      rw [h1] at hr
      exact ih s1 h2 h3 hr
    · rw [exec_fails c e s h hb ha] at hr
      exact absurd hr (by simp)

/-- **C78 (objects exist when used).** After construction and a setup, a history of setups (refinements), time steps with any
rebuilds and any use of the strong solver, and initial Stokes solves never uses a missing object or writes outside of a matrix
pattern, if and only if: with time steps or Stokes solves of a moving fluid, the projection scheme is not combined with the
component-wise ILU or zero density, and a coupled stationary solve not with zero density. -/
theorem C78_no_missing_object (c : Prm) (es : List Ev) :
    (∃ s, run (.ctor c) .ctor (.setup :: es) = .ok s) ↔ ((∃ e ∈ es, e.isSolve = true) → Spec.solveOk c) := by
  have h : run (.ctor c) .ctor (.setup :: es) = run (.ctor c) (Objs.ctor.setup c) es := rfl
  rw [h, run_iff c es _ (setup_ready c _ (by simp [Objs.ctor])) (by simp [Objs.setup])]
  constructor
  · exact fun h ⟨e, he, hs⟩ => h e he hs
  · exact fun h e he hs => h ⟨e, he, hs⟩

/-- **C78 (usual settings).** Coupled scheme, time-dependent flow, any velocity preconditioner: all histories run, also with zero
density and with initial Stokes solves. -/
theorem C78_coupled_always_runs (c : Prm) (hp : c.projection = false) (ht : c.phys ≠ .stationary) (es : List Ev) :
    ∃ s, run (.ctor c) .ctor (.setup :: es) = .ok s :=
  (C78_no_missing_object c es).2 fun _ => by unfold Spec.solveOk; rw [hp]; simpa using fun h => absurd h ht

/-- **C78 (finding).** The projection scheme with the component-wise ILU uses a null pointer in the first step, whatever the
other parameters. -/
theorem C78_projection_component_ilu (c : Prm) (hv : c.vel = .iluScalar) (hp : c.projection = true) (i : Solve) :
    run (.ctor c) .ctor [.setup, .step i] = .error .null := by
  have h : run (.ctor c) .ctor [.setup, .step i] = run (.ctor c) (Objs.ctor.setup c) [.step i] := rfl
  rw [h]
  unfold run
  rw [exec_fails c (.step i) _ (setup_ready c _ (by simp [Objs.ctor])) (by simp [Objs.setup])
    (fun ha => by have := ha rfl; unfold Spec.solveOk at this; rw [hp] at this; exact (this : _ ∧ _).1 hv)]

/-- **C78 (the two parameter objects).** Were the copy in the solver the one the preconditioner reads (as
`compute_initial_stokes_field`, which sets and resets parameters of the copy, assumes), the initial Stokes solve would write
outside of the velocity matrix when the component-wise ILU was selected at setup: that solve is safe only since its parameters
do not arrive. -/
theorem C78_stokes_parameters_do_not_arrive (c : Prm) :
    (Pair.ctor c).stokes.read = c ∧
    (c.vel = .iluScalar → ∀ s, (Objs.setup c s).assemble (Pair.ctor c).stokes.own = .error .pattern) := by
  refine ⟨rfl, fun hv s => ?_⟩
  unfold Objs.assemble Objs.setup Objs.initializeMatrices
  dsimp only
  rw [hv]
  rfl

/-- **C79 (outer solver fits the preconditioner).** In every history that runs, the flexible variant of GMRES is used for a
linear system if and only if the application of the preconditioner contains an iterative solver. -/
theorem C79_flexible_iff_iterative (c : Prm) (es : List Ev) (s : Objs) (h : run (.ctor c) .ctor (.setup :: es) = .ok s) :
    ∀ x ∈ s.log, x.1 = true ↔ .iterative ∈ x.2 :=
  run_log c es (Objs.ctor.setup c) s (setup_ready c _ (by simp [Objs.ctor])) (by simp [Objs.setup]) h

/-- Concrete histories: a Stokes solve and two steps with a refinement in between; both variants of GMRES are used. -/
example :
    let c : Prm := ⟨.ilu, .incompressible, false, true, false, true⟩
    let i : Solve := ⟨(false, true), [(true, false)], false⟩
    (run (.ctor c) .ctor [.setup, .stokes true i, .step i, .setup, .step i]).map
        (fun s => (s.log.length, s.log.head?, s.log[1]?))
      = .ok (9, some (false, [.fixed, .fixed, .fixed]), some (true, [.iterative, .fixed, .iterative])) := by
  decide

example :
    let c : Prm := ⟨.amg, .incompressible, true, true, false, false⟩
    let i : Solve := ⟨(false, true), [(true, false)], false⟩
    (run (.ctor c) .ctor [.setup, .stokes true i, .step i, .setup, .step i]).map (fun s => s.log) = .ok [] := by
  decide

end Verif.Precond.Objects
