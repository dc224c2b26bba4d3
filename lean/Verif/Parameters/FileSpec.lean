import Verif.Parameters.File

/-! # Specification of parameter files (C106)

What a file says: the list of its assignments; an entry has the value of its last assignment, or its
default. -/

namespace Verif.Parameters.File.Spec

variable {K : Type}

/-- The documented entries: section and name, default value, pattern. -/
structure Row where
  key : Key
  default : String
  pattern : Pattern
  deriving DecidableEq, Repr

/-- The table of the documentation. -/
def table : List Row :=
  [
   ⟨(["Navier-Stokes"], "dimension"), "2", .integer⟩,
   ⟨(["Navier-Stokes"], "global refinements"), "1", .integer⟩,
   ⟨(["Navier-Stokes"], "anisotropic refinement"), "0", .integer⟩,
   ⟨(["Navier-Stokes"], "simplex mesh"), "0", .integer⟩,
   ⟨(["Navier-Stokes"], "adaptive refinements"), "0", .integer⟩,
   ⟨(["Navier-Stokes"], "velocity degree"), "2", .integer⟩,
   ⟨(["Navier-Stokes"], "augmented Taylor-Hood elements"), "0", .integer⟩,
   ⟨(["Navier-Stokes"], "viscosity"), "1.", .double⟩,
   ⟨(["Navier-Stokes"], "density"), "1.", .double⟩,
   ⟨(["Navier-Stokes"], "damping"), "0", .double⟩,
   ⟨(["Navier-Stokes"], "physical type"), "incompressible", (.selection ["incompressible",
     "incompressible stationary", "stokes"])⟩,
   ⟨(["Navier-Stokes"], "formulation convective term momentum balance"), "skew-symmetric",
     (.selection ["skew-symmetric", "convective", "conservative"])⟩,
   ⟨(["Navier-Stokes", "Solver"], "NL max iterations"), "10", .integer⟩,
   ⟨(["Navier-Stokes", "Solver"], "NL tolerance"), "1e-6", .double⟩,
   ⟨(["Navier-Stokes", "Solver"], "linearization scheme"), "coupled implicit Newton",
     (.selection ["coupled implicit Newton", "coupled implicit Picard",
       "coupled velocity semi-implicit", "coupled velocity explicit", "projection"])⟩,
   ⟨(["Navier-Stokes", "Solver"], "tau grad div"), "0.", .double⟩,
   ⟨(["Navier-Stokes", "Solver"], "lin max iterations"), "500", .integer⟩,
   ⟨(["Navier-Stokes", "Solver"], "lin tolerance"), "1.e-3", .double⟩,
   ⟨(["Navier-Stokes", "Solver"], "lin relative tolerance"), "1", .integer⟩,
   ⟨(["Navier-Stokes", "Solver"], "lin velocity preconditioner"), "amg linear", (.selection
     ["ilu", "ilu scalar", "amg linear", "amg"])⟩,
   ⟨(["Navier-Stokes", "Solver"], "lin pressure mass preconditioner"), "ilu", (.selection
     ["ilu", "diagonal"])⟩,
   ⟨(["Navier-Stokes", "Solver"], "lin its before inner solvers"), "50", .integer⟩,
   ⟨(["Output options"], "output filename"), "", .anything⟩,
   ⟨(["Output options"], "output verbosity"), "2", .integer⟩,
   ⟨(["Output options"], "output frequency"), "1", .double⟩,
   ⟨(["Output options"], "output vtk files"), "0", .integer⟩,
   ⟨(["Output options"], "output wall times"), "0", .integer⟩,
   ⟨(["Output options"], "output memory"), "0", .integer⟩,
   ⟨(["Two phase"], "density"), "-1.", .double⟩,
   ⟨(["Two phase"], "density difference"), "0.", .double⟩,
   ⟨(["Two phase"], "viscosity"), "-1.", .double⟩,
   ⟨(["Two phase"], "viscosity difference"), "0.", .double⟩,
   ⟨(["Two phase"], "surface tension"), "1.", .double⟩,
   ⟨(["Two phase"], "epsilon"), "1", .double⟩,
   ⟨(["Two phase"], "gravity"), "0", .double⟩,
   ⟨(["Two phase"], "diffusion length"), "0.1", .double⟩,
   ⟨(["Two phase"], "contact angle"), "0", .double⟩,
   ⟨(["Two phase"], "pressure constraint"), "1", .integer⟩,
   ⟨(["Two phase"], "concentration subdivisions"), "2", .integer⟩,
   ⟨(["Two phase"], "curvature correction"), "0", .integer⟩,
   ⟨(["Two phase"], "grad pressure compatible"), "0", .integer⟩,
   ⟨(["Two phase"], "localize surface tension"), "1", .integer⟩,
   ⟨(["Two phase"], "approximate projections"), "0", .integer⟩,
   ⟨(["Two phase"], "Cahn-Hilliard do Newton"), "1", .integer⟩,
   ⟨(["Two phase"], "full nonlinear iteration"), "0", .integer⟩,
   ⟨(["Two phase"], "number reinit steps"), "2", .integer⟩,
   ⟨(["Two phase"], "number initial reinit steps"), "0", .integer⟩,
   ⟨(["Two phase"], "convection stabilization"), "0", .integer⟩,
   ⟨(["Time stepping"], "start time"), "0.", .double⟩,
   ⟨(["Time stepping"], "end time"), "1.", .double⟩,
   ⟨(["Time stepping"], "step size"), "1.e-2", .double⟩,
   ⟨(["Time stepping"], "CFL number"), "0.8", .double⟩,
   ⟨(["Time stepping"], "CFL number capillary"), "10", .double⟩,
   ⟨(["Time stepping"], "tolerance"), "1.e-2", .double⟩,
   ⟨(["Time stepping"], "max step size"), "1.", .double⟩,
   ⟨(["Time stepping"], "min step size"), ".1", .double⟩,
   ⟨(["Time stepping"], "scheme"), "bdf_2", (.selection ["explicit_euler", "implicit_euler",
     "crank_nicolson", "bdf_2"])⟩]

/-- The entry of the application micro_particle. -/
def twoPhaseRow : Row :=
  ⟨(["Problem-specific"], "two-phase method"), "level set okz",
    .selection ["level set okz", "level set okz matrix", "phase field"]⟩

/-- The sections. -/
def sections : List Path :=
  [["Navier-Stokes"], ["Navier-Stokes", "Solver"], ["Output options"], ["Two phase"],
   ["Time stepping"]]

/-- The assignments of a `.prm` file that begins in section `p`. -/
def assignments : Path → List Line → List (Key × String)
  | _, [] => []
  | p, .subsection s :: ls => assignments (p ++ [s]) ls
  | p, .close :: ls => assignments p.dropLast ls
  | p, .assign n v :: ls => ((p, n), v) :: assignments p ls

/-- The sections opened in a `.prm` file that begins in section `p`. -/
def opened : Path → List Line → List Path
  | _, [] => []
  | p, .subsection s :: ls => (p ++ [s]) :: opened (p ++ [s]) ls
  | p, .close :: ls => opened p.dropLast ls
  | p, .assign _ _ :: ls => opened p ls

/-- Number of `subsection` statements. -/
def opens (ls : List Line) : Nat :=
  ls.countP (fun l => match l with | .subsection _ => true | _ => false)

/-- Number of `end` statements. -/
def closes (ls : List Line) : Nat := ls.countP (fun l => l = .close)

/-- Every section is closed, and none more often than opened. -/
def Balanced (ls : List Line) : Prop :=
  closes ls = opens ls ∧ ∀ n, closes (ls.take n) ≤ opens (ls.take n)

/-- The assignments of a JSON object that is section `p`. -/
def jsonAssignments : Path → Json → List (Key × String)
  | _, .nil => []
  | p, .value n v rest => ((p, n), v) :: jsonAssignments p rest
  | p, .object s body rest => jsonAssignments (p ++ [s]) body ++ jsonAssignments p rest

/-- The last value assigned to an entry, or its default. -/
def value (A : List (Key × String)) (k : Key) (default : String) : String :=
  (((A.filter (fun a => a.1 = k)).getLast?).map Prod.snd).getD default

/-- The file is nested properly, opens only documented sections, and every assignment is one to a
documented entry with a text of its pattern. -/
def Valid (c : Conv K) (rows : List Row) (secs : List Path) (ls : List Line) : Prop :=
  Balanced ls ∧ (∀ p ∈ opened [] ls, p ∈ secs) ∧
  ∀ a ∈ assignments [] ls, ∃ r ∈ rows, r.key = a.1 ∧ r.pattern.ok c a.2 = true

/-- Every assignment in the JSON file to a documented entry has a text of its pattern. -/
def JsonValid (c : Conv K) (rows : List Row) (j : Json) : Prop :=
  ∀ a ∈ jsonAssignments [] j, ∀ r ∈ rows, r.key = a.1 → r.pattern.ok c a.2 = true

/-- The numbers written as default values have their usual meaning. -/
structure Std [Field K] (c : Conv K) : Prop where
  i0 : c.int "0" = some 0
  i1 : c.int "1" = some 1
  i2 : c.int "2" = some 2
  i10 : c.int "10" = some 10
  i50 : c.int "50" = some 50
  i500 : c.int "500" = some 500
  d0 : c.dbl "0" = some 0
  d0dot : c.dbl "0." = some 0
  d1 : c.dbl "1" = some 1
  d1dot : c.dbl "1." = some 1
  dm1 : c.dbl "-1." = some (-1)
  d10 : c.dbl "10" = some 10
  dpt1 : c.dbl ".1" = some (1 / 10)
  d0pt1 : c.dbl "0.1" = some (1 / 10)
  d0pt8 : c.dbl "0.8" = some (8 / 10)
  d1em2 : c.dbl "1.e-2" = some (1 / 10 ^ 2)
  d1em3 : c.dbl "1.e-3" = some (1 / 10 ^ 3)
  d1em6 : c.dbl "1e-6" = some (1 / 10 ^ 6)

/-- The values of all entries are those of the file with assignments `A`. -/
structure Says (c : Conv K) (A : List (Key × String)) (e : Entries K) (x : More K) : Prop where
  dimension : c.int (value A (["Navier-Stokes"], "dimension") "2")
    = some e.dimension
  globalRefinements : c.int (value A (["Navier-Stokes"], "global refinements") "1")
    = some e.globalRefinements
  adaptiveRefinements : c.int (value A (["Navier-Stokes"], "adaptive refinements") "0")
    = some e.adaptiveRefinements
  anisotropic : c.int (value A (["Navier-Stokes"], "anisotropic refinement") "0")
    = some e.anisotropic
  simplex : c.int (value A (["Navier-Stokes"], "simplex mesh") "0")
    = some e.simplex
  velocityDegree : c.int (value A (["Navier-Stokes"], "velocity degree") "2")
    = some e.velocityDegree
  augmented : c.int (value A (["Navier-Stokes"], "augmented Taylor-Hood elements") "0")
    = some e.augmented
  viscosity : c.dbl (value A (["Navier-Stokes"], "viscosity") "1.")
    = some e.viscosity
  density : c.dbl (value A (["Navier-Stokes"], "density") "1.")
    = some e.density
  damping : c.dbl (value A (["Navier-Stokes"], "damping") "0")
    = some e.damping
  physicalType : e.physicalType =
    value A (["Navier-Stokes"], "physical type") "incompressible"
  formulation : e.formulation =
    value A (["Navier-Stokes"], "formulation convective term momentum balance") "skew-symmetric"
  nlMax : c.int (value A (["Navier-Stokes", "Solver"], "NL max iterations") "10")
    = some e.nlMax
  nlTol : c.dbl (value A (["Navier-Stokes", "Solver"], "NL tolerance") "1e-6")
    = some e.nlTol
  linearization : e.linearization =
    value A (["Navier-Stokes", "Solver"], "linearization scheme") "coupled implicit Newton"
  tauGradDiv : c.dbl (value A (["Navier-Stokes", "Solver"], "tau grad div") "0.")
    = some e.tauGradDiv
  linMax : c.int (value A (["Navier-Stokes", "Solver"], "lin max iterations") "500")
    = some e.linMax
  linTol : c.dbl (value A (["Navier-Stokes", "Solver"], "lin tolerance") "1.e-3")
    = some e.linTol
  linRel : c.int (value A (["Navier-Stokes", "Solver"], "lin relative tolerance") "1")
    = some e.linRel
  precVelocity : e.precVelocity =
    value A (["Navier-Stokes", "Solver"], "lin velocity preconditioner") "amg linear"
  precPressure : e.precPressure =
    value A (["Navier-Stokes", "Solver"], "lin pressure mass preconditioner") "ilu"
  itsBeforeInner : c.int (value A (["Navier-Stokes", "Solver"], "lin its before inner solvers") "50")
    = some e.itsBeforeInner
  outputFilename : x.outputFilename =
    value A (["Output options"], "output filename") ""
  verbosity : c.int (value A (["Output options"], "output verbosity") "2")
    = some e.verbosity
  outputFrequency : c.dbl (value A (["Output options"], "output frequency") "1")
    = some e.outputFrequency
  vtkFiles : c.int (value A (["Output options"], "output vtk files") "0")
    = some e.vtkFiles
  wallTimes : c.int (value A (["Output options"], "output wall times") "0")
    = some x.wallTimes
  memory : c.int (value A (["Output options"], "output memory") "0")
    = some x.memory
  tpDensity : c.dbl (value A (["Two phase"], "density") "-1.")
    = some e.tpDensity
  densityDiff : c.dbl (value A (["Two phase"], "density difference") "0.")
    = some e.densityDiff
  tpViscosity : c.dbl (value A (["Two phase"], "viscosity") "-1.")
    = some e.tpViscosity
  viscosityDiff : c.dbl (value A (["Two phase"], "viscosity difference") "0.")
    = some e.viscosityDiff
  surfaceTension : c.dbl (value A (["Two phase"], "surface tension") "1.")
    = some e.surfaceTension
  gravity : c.dbl (value A (["Two phase"], "gravity") "0")
    = some e.gravity
  epsilon : c.dbl (value A (["Two phase"], "epsilon") "1")
    = some e.epsilon
  diffusionLength : c.dbl (value A (["Two phase"], "diffusion length") "0.1")
    = some e.diffusionLength
  contactAngle : c.dbl (value A (["Two phase"], "contact angle") "0")
    = some e.contactAngle
  pressureConstraint : c.int (value A (["Two phase"], "pressure constraint") "1")
    = some e.pressureConstraint
  subdivisions : c.int (value A (["Two phase"], "concentration subdivisions") "2")
    = some e.subdivisions
  curvatureCorrection : c.int (value A (["Two phase"], "curvature correction") "0")
    = some e.curvatureCorrection
  interpolateGrad : c.int (value A (["Two phase"], "grad pressure compatible") "0")
    = some x.interpolateGrad
  localizeTension : c.int (value A (["Two phase"], "localize surface tension") "1")
    = some x.localizeTension
  approximateProjections : c.int (value A (["Two phase"], "approximate projections") "0")
    = some x.approximateProjections
  chNewton : c.int (value A (["Two phase"], "Cahn-Hilliard do Newton") "1")
    = some x.chNewton
  doIteration : c.int (value A (["Two phase"], "full nonlinear iteration") "0")
    = some x.doIteration
  nReinit : c.int (value A (["Two phase"], "number reinit steps") "2")
    = some e.nReinit
  nInitialReinit : c.int (value A (["Two phase"], "number initial reinit steps") "0")
    = some e.nInitialReinit
  convStabilization : c.int (value A (["Two phase"], "convection stabilization") "0")
    = some x.convStabilization
  startTime : c.dbl (value A (["Time stepping"], "start time") "0.")
    = some e.startTime
  endTime : c.dbl (value A (["Time stepping"], "end time") "1.")
    = some e.endTime
  stepSize : c.dbl (value A (["Time stepping"], "step size") "1.e-2")
    = some e.stepSize
  cfl : c.dbl (value A (["Time stepping"], "CFL number") "0.8")
    = some x.cfl
  cflCapillary : c.dbl (value A (["Time stepping"], "CFL number capillary") "10")
    = some x.cflCapillary
  tolerance : c.dbl (value A (["Time stepping"], "tolerance") "1.e-2")
    = some x.tolerance
  stepMax : c.dbl (value A (["Time stepping"], "max step size") "1.")
    = some e.stepMax
  stepMin : c.dbl (value A (["Time stepping"], "min step size") ".1")
    = some e.stepMin
  scheme : e.scheme =
    value A (["Time stepping"], "scheme") "bdf_2"

/-- The name ends in a dot and `e`, or is `e`. -/
def HasEnding (name e : List Char) : Prop := (∃ b, name = b ++ '.' :: e) ∨ name = e

/-- The file can be read and makes the assignments `A`. -/
def Reads (c : Conv K) (rows : List Row) (secs : List Path) (name : List Char) (file : Content)
    (A : List (Key × String)) : Prop :=
  (HasEnding name ['j', 's', 'o', 'n'] ∧
    ∃ j, file.json = some j ∧ JsonValid c rows j ∧ A = jsonAssignments [] j) ∨
  (HasEnding name ['p', 'r', 'm'] ∧
    ∃ ls, file.prm = some ls ∧ Valid c rows secs ls ∧ A = assignments [] ls)

/-- The members set from the remaining entries: texts and numbers unchanged, the two output flags on
for positive values, the other flags on for nonzero values. -/
structure Set (x : More K) (m : Members K) : Prop where
  outputFilename : m.outputFilename = x.outputFilename
  wallTimes : m.wallTimes = true ↔ 0 < x.wallTimes
  memory : m.memory = true ↔ 0 < x.memory
  interpolateGrad : m.interpolateGrad = true ↔ x.interpolateGrad ≠ 0
  localizeTension : m.localizeTension = true ↔ x.localizeTension ≠ 0
  approximateProjections : m.approximateProjections = true ↔ x.approximateProjections ≠ 0
  chNewton : m.chNewton = true ↔ x.chNewton ≠ 0
  doIteration : m.doIteration = true ↔ x.doIteration ≠ 0
  convStabilization : m.convStabilization = true ↔ x.convStabilization ≠ 0
  cfl : m.cfl = x.cfl
  cflCapillary : m.cflCapillary = x.cflCapillary
  tolerance : m.tolerance = x.tolerance

end Verif.Parameters.File.Spec
