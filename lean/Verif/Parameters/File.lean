import Verif.Parameters.Model
import Mathlib.Logic.Function.Basic

/-! # Model of reading a parameter file

`FlowParameters(filename)` (source/parameters.cc:32-38): declare all entries at a `ParameterHandler`,
check that the file exists, let the handler read it, and read back the entries section by section.
The `get` calls are modelled here; what is done with the values is `Verif.Parameters.parse`.  The
derived class of applications/micro_particle.cc:39-60, which adds an entry of its own, is included.

Of deal.II's `ParameterHandler` the interface used here is modelled: a tree of sections with entries
(text with a pattern), a current section, `declare_entry`, `set`, `get`, and the two readers.
Simplifications: the conversion of text to numbers is a parameter (`Conv`; `Patterns::Integer` and
`get_integer` accept the same texts, likewise `Double`); a `.prm` file is given as its list of
statements and a JSON file as its tree (or as not readable), `Patterns::Selection("a|b")` as the list
of names; aliases, `include`, the printing of the handler on failure are left out; an empty JSON
object is a section without entries. -/

namespace Verif.Parameters.File

/-- A section as the list of names from the outermost. -/
abbrev Path := List String

/-- An entry is found by its section and its name. -/
abbrev Key := Path × String

/-- The patterns used in source/parameters.cc. -/
inductive Pattern
  | integer | double | anything
  | selection (names : List String)
  deriving DecidableEq, Repr

/-- Text to number: `Utilities::string_to_int`, `Utilities::string_to_double`. -/
structure Conv (K : Type) where
  int : String → Option Int
  dbl : String → Option K

variable {K : Type}

/-- `Patterns::PatternBase::match`. -/
def Pattern.ok (c : Conv K) : Pattern → String → Bool
  | .integer, v => (c.int v).isSome
  | .double, v => (c.dbl v).isSome
  | .anything, _ => true
  | .selection names, v => decide (v ∈ names)

/-- Value and pattern stored for an entry. -/
structure Entry where
  value : String
  pattern : Pattern
  deriving DecidableEq, Repr

/-- `ParameterHandler`: the entries, the sections that exist, the current section. -/
structure Handler where
  entries : Key → Option Entry
  sections : Path → Bool
  path : Path

/-- A new `ParameterHandler` (source/parameters.cc:34). -/
def Handler.empty : Handler := ⟨fun _ => none, fun _ => false, []⟩

/-- The exceptions. -/
inductive Fail
  /-- the file does not exist (source/parameters.cc:58) -/
  | notFound
  /-- "Invalid input parameter file." (source/parameters.cc:444) -/
  | invalidFile
  /-- `leave_subsection` without section -/
  | topLevel
  /-- `get` of an entry that was not declared -/
  | undeclared
  /-- text does not match the pattern -/
  | mismatch
  /-- the current section at the end of a file differs from that at the beginning -/
  | unbalanced
  /-- file name without the ending `prm` or `json` (source/parameters.cc:438) -/
  | extension
  /-- the file cannot be split into statements -/
  | syntaxError
  /-- the checks of `parse_parameters(ParameterHandler &)` -/
  | check (e : Parameters.Err)
  /-- no solver for the selected method (applications/micro_particle.cc:220) -/
  | unknownSolver
  deriving DecidableEq, Repr

/-- A member function of `ParameterHandler`. -/
abbrev Action (α : Type) := StateT Handler (Except Fail) α

/-- `ParameterHandler::enter_subsection` as called in source/parameters.cc (the section is created if
needed). -/
def enter (s : String) : Action Unit := fun h =>
  .ok ((), { h with
    path := h.path ++ [s]
    sections := fun p => decide (p = h.path ++ [s]) || h.sections p })

/-- `ParameterHandler::leave_subsection`. -/
def leave : Action Unit := fun h =>
  if h.path = [] then .error .topLevel else .ok ((), { h with path := h.path.dropLast })

/-- `ParameterHandler::declare_entry`: the default value has to match the pattern. -/
def declareEntry (c : Conv K) (name default : String) (pattern : Pattern) : Action Unit := fun h =>
  if pattern.ok c default then
    .ok ((), { h with
      entries := Function.update h.entries (h.path, name) (some ⟨default, pattern⟩) })
  else .error .mismatch

/-- `ParameterHandler::set`. -/
def setEntry (c : Conv K) (name value : String) : Action Unit := fun h =>
  match h.entries (h.path, name) with
  | none => .error .undeclared
  | some e =>
    if e.pattern.ok c value then
      .ok ((), { h with
        entries := Function.update h.entries (h.path, name) (some ⟨value, e.pattern⟩) })
    else .error .mismatch

/-- `ParameterHandler::get`. -/
def getString (name : String) : Action String := fun h =>
  match h.entries (h.path, name) with
  | none => .error .undeclared
  | some e => .ok (e.value, h)

/-- `ParameterHandler::get_integer`. -/
def getInteger (c : Conv K) (name : String) : Action Int := fun h =>
  match h.entries (h.path, name) with
  | none => .error .undeclared
  | some e => match c.int e.value with
    | none => .error .mismatch
    | some i => .ok (i, h)

/-- `ParameterHandler::get_double`. -/
def getDouble (c : Conv K) (name : String) : Action K := fun h =>
  match h.entries (h.path, name) with
  | none => .error .undeclared
  | some e => match c.dbl e.value with
    | none => .error .mismatch
    | some i => .ok (i, h)

/-- The calls made by a declaring function. -/
inductive Decl
  | enter (s : String)
  | leave
  | entry (name default : String) (pattern : Pattern)
  deriving DecidableEq, Repr

/-- One call. -/
def Decl.run (c : Conv K) : Decl → Action Unit
  | .enter s => File.enter s
  | .leave => File.leave
  | .entry n d p => declareEntry c n d p

/-- A sequence of calls. -/
def runDecls (c : Conv K) : List Decl → Action Unit
  | [] => pure ()
  | d :: ds => do d.run c; runDecls c ds

/-- `FlowParameters::declare_parameters`, source/parameters.cc:62-419: its calls in order, with the
default values and patterns; the help texts are left out. -/
def declareParameters : List Decl :=
  [
   .enter "Navier-Stokes",
   .entry "dimension" "2" .integer,
   .entry "global refinements" "1" .integer,
   .entry "anisotropic refinement" "0" .integer,
   .entry "simplex mesh" "0" .integer,
   .entry "adaptive refinements" "0" .integer,
   .entry "velocity degree" "2" .integer,
   .entry "augmented Taylor-Hood elements" "0" .integer,
   .entry "viscosity" "1." .double,
   .entry "density" "1." .double,
   .entry "damping" "0" .double,
   .entry "physical type" "incompressible"
     (.selection ["incompressible", "incompressible stationary", "stokes"]),
   .entry "formulation convective term momentum balance" "skew-symmetric" (.selection
     ["skew-symmetric", "convective", "conservative"]),
   .enter "Solver",
   .entry "NL max iterations" "10" .integer,
   .entry "NL tolerance" "1e-6" .double,
   .entry "linearization scheme" "coupled implicit Newton"
     (.selection ["coupled implicit Newton", "coupled implicit Picard",
       "coupled velocity semi-implicit", "coupled velocity explicit", "projection"]),
   .entry "tau grad div" "0." .double,
   .entry "lin max iterations" "500" .integer,
   .entry "lin tolerance" "1.e-3" .double,
   .entry "lin relative tolerance" "1" .integer,
   .entry "lin velocity preconditioner" "amg linear"
     (.selection ["ilu", "ilu scalar", "amg linear", "amg"]),
   .entry "lin pressure mass preconditioner" "ilu" (.selection ["ilu", "diagonal"]),
   .entry "lin its before inner solvers" "50" .integer,
   .leave,
   .leave,
   .enter "Output options",
   .entry "output filename" "" .anything,
   .entry "output verbosity" "2" .integer,
   .entry "output frequency" "1" .double,
   .entry "output vtk files" "0" .integer,
   .entry "output wall times" "0" .integer,
   .entry "output memory" "0" .integer,
   .leave,
   .enter "Two phase",
   .entry "density" "-1." .double,
   .entry "density difference" "0." .double,
   .entry "viscosity" "-1." .double,
   .entry "viscosity difference" "0." .double,
   .entry "surface tension" "1." .double,
   .entry "epsilon" "1" .double,
   .entry "gravity" "0" .double,
   .entry "diffusion length" "0.1" .double,
   .entry "contact angle" "0" .double,
   .entry "pressure constraint" "1" .integer,
   .entry "concentration subdivisions" "2" .integer,
   .entry "curvature correction" "0" .integer,
   .entry "grad pressure compatible" "0" .integer,
   .entry "localize surface tension" "1" .integer,
   .entry "approximate projections" "0" .integer,
   .entry "Cahn-Hilliard do Newton" "1" .integer,
   .entry "full nonlinear iteration" "0" .integer,
   .entry "number reinit steps" "2" .integer,
   .entry "number initial reinit steps" "0" .integer,
   .entry "convection stabilization" "0" .integer,
   .leave,
   .enter "Time stepping",
   .entry "start time" "0." .double,
   .entry "end time" "1." .double,
   .entry "step size" "1.e-2" .double,
   .entry "CFL number" "0.8" .double,
   .entry "CFL number capillary" "10" .double,
   .entry "tolerance" "1.e-2" .double,
   .entry "max step size" "1." .double,
   .entry "min step size" ".1" .double,
   .entry "scheme" "bdf_2" (.selection ["explicit_euler", "implicit_euler", "crank_nicolson",
     "bdf_2"]),
   .leave]

/-- The additional calls of `TwoPhaseParameters` in applications/micro_particle.cc:45-51. -/
def declareTwoPhase : List Decl :=
  [.enter "Problem-specific",
   .entry "two-phase method" "level set okz"
     (.selection ["level set okz", "level set okz matrix", "phase field"]),
   .leave]

/-! ## Reading a file into the handler -/

/-- A statement of a `.prm` file. -/
inductive Line
  | subsection (s : String)
  | close
  | assign (name value : String)
  deriving DecidableEq, Repr

/-- `ParameterHandler::scan_line` without `skip_undefined`: sections and entries must be declared. -/
def scanLine (c : Conv K) : Line → Action Unit
  | .subsection s => fun h =>
    if h.sections (h.path ++ [s]) then .ok ((), { h with path := h.path ++ [s] })
    else .error .undeclared
  | .close => leave
  | .assign n v => setEntry c n v

/-- The loop over the lines in `ParameterHandler::parse_input`. -/
def scanLines (c : Conv K) : List Line → Action Unit
  | [] => pure ()
  | l :: ls => do scanLine c l; scanLines c ls

/-- `ParameterHandler::parse_input`: after the loop the current section must be the one before. -/
def parseInput (c : Conv K) (ls : List Line) : Action Unit := fun h =>
  match scanLines c ls h with
  | .error e => .error e
  | .ok (_, h') => if h'.path = h.path then .ok ((), h') else .error .unbalanced

/-- A JSON object as the list of its members: values and nested objects. -/
inductive Json
  | nil
  | value (name text : String) (rest : Json)
  | object (name : String) (body rest : Json)
  deriving DecidableEq, Repr

/-- `ParameterHandler::parse_input_from_json` with `skip_undefined = true`: entries and sections that
are not declared are ignored; a text that does not match is an error. -/
def parseJson (c : Conv K) : Json → Action Unit
  | .nil => pure ()
  | .value n v rest => fun h =>
    match setEntry c n v h with
    | .error .undeclared => parseJson c rest h
    | .error e => .error e
    | .ok (_, h') => parseJson c rest h'
  | .object s body rest => fun h =>
    if h.sections (h.path ++ [s]) then
      match parseJson c body { h with path := h.path ++ [s] } with
      | .error e => .error e
      | .ok (_, h') => parseJson c rest { h' with path := h.path }
    else parseJson c rest h

/-- What can be read from a file: its statements if it is a `.prm` file, its tree if it is JSON. -/
structure Content where
  prm : Option (List Line)
  json : Option Json
  deriving DecidableEq, Repr

/-- `parameter_file.substr(parameter_file.find_last_of(".") + 1)` (source/parameters.cc:430, 436), on
the list of characters; without a dot `npos + 1 = 0`, so the whole name. -/
def ending (name : List Char) : List Char := (name.reverse.takeWhile (· ≠ '.')).reverse

/-- The `try` block source/parameters.cc:428-439. -/
def readFile (c : Conv K) (name : List Char) (file : Content) : Action Unit :=
  if ending name = ['j', 's', 'o', 'n'] then
    match file.json with
    | none => fun _ => .error .syntaxError
    | some j => parseJson c j
  else if ending name = ['p', 'r', 'm'] then
    match file.prm with
    | none => fun _ => .error .syntaxError
    | some ls => parseInput c ls
  else fun _ => .error .extension

/-- `catch (...)` source/parameters.cc:440-445: every exception becomes "Invalid input parameter
file." -/
def catchAll (a : Action Unit) : Action Unit := fun h =>
  match a h with
  | .error _ => .error .invalidFile
  | .ok r => .ok r

/-! ## Reading the entries back -/

/-- The values read from section ["Navier-Stokes"]. -/
structure NavierStokesValues (K : Type) where
  dimension : Int
  globalRefinements : Int
  adaptiveRefinements : Int
  anisotropic : Int
  simplex : Int
  velocityDegree : Int
  augmented : Int
  viscosity : K
  density : K
  damping : K
  physicalType : String
  formulation : String

/-- source/parameters.cc:455-481, the `get` calls in the order of the code. -/
def readNavierStokes (c : Conv K) : Action (NavierStokesValues K) := do
  let dimension ← getInteger c "dimension"
  let globalRefinements ← getInteger c "global refinements"
  let adaptiveRefinements ← getInteger c "adaptive refinements"
  let anisotropic ← getInteger c "anisotropic refinement"
  let simplex ← getInteger c "simplex mesh"
  let velocityDegree ← getInteger c "velocity degree"
  let augmented ← getInteger c "augmented Taylor-Hood elements"
  let viscosity ← getDouble c "viscosity"
  let density ← getDouble c "density"
  let damping ← getDouble c "damping"
  let physicalType ← getString "physical type"
  let formulation ← getString "formulation convective term momentum balance"
  pure {
    dimension := dimension
    globalRefinements := globalRefinements
    adaptiveRefinements := adaptiveRefinements
    anisotropic := anisotropic
    simplex := simplex
    velocityDegree := velocityDegree
    augmented := augmented
    viscosity := viscosity
    density := density
    damping := damping
    physicalType := physicalType
    formulation := formulation }

/-- The values read from section ["Navier-Stokes", "Solver"]. -/
structure SolverValues (K : Type) where
  nlMax : Int
  nlTol : K
  linearization : String
  tauGradDiv : K
  linMax : Int
  linTol : K
  linRel : Int
  precVelocity : String
  precPressure : String
  itsBeforeInner : Int

/-- source/parameters.cc:484-529, the `get` calls in the order of the code. -/
def readSolver (c : Conv K) : Action (SolverValues K) := do
  let nlMax ← getInteger c "NL max iterations"
  let nlTol ← getDouble c "NL tolerance"
  let linearization ← getString "linearization scheme"
  let tauGradDiv ← getDouble c "tau grad div"
  let linMax ← getInteger c "lin max iterations"
  let linTol ← getDouble c "lin tolerance"
  let linRel ← getInteger c "lin relative tolerance"
  let precVelocity ← getString "lin velocity preconditioner"
  let precPressure ← getString "lin pressure mass preconditioner"
  let itsBeforeInner ← getInteger c "lin its before inner solvers"
  pure {
    nlMax := nlMax
    nlTol := nlTol
    linearization := linearization
    tauGradDiv := tauGradDiv
    linMax := linMax
    linTol := linTol
    linRel := linRel
    precVelocity := precVelocity
    precPressure := precPressure
    itsBeforeInner := itsBeforeInner }

/-- The values read from section ["Output options"]. -/
structure OutputValues (K : Type) where
  outputFilename : String
  verbosity : Int
  outputFrequency : K
  vtkFiles : Int
  wallTimes : Int
  memory : Int

/-- source/parameters.cc:536-544, the `get` calls in the order of the code. -/
def readOutput (c : Conv K) : Action (OutputValues K) := do
  let outputFilename ← getString "output filename"
  let verbosity ← getInteger c "output verbosity"
  let outputFrequency ← getDouble c "output frequency"
  let vtkFiles ← getInteger c "output vtk files"
  let wallTimes ← getInteger c "output wall times"
  let memory ← getInteger c "output memory"
  pure {
    outputFilename := outputFilename
    verbosity := verbosity
    outputFrequency := outputFrequency
    vtkFiles := vtkFiles
    wallTimes := wallTimes
    memory := memory }

/-- The values read from section ["Two phase"]. -/
structure TwoPhaseValues (K : Type) where
  tpDensity : K
  densityDiff : K
  tpViscosity : K
  viscosityDiff : K
  surfaceTension : K
  gravity : K
  epsilon : K
  diffusionLength : K
  contactAngle : K
  pressureConstraint : Int
  subdivisions : Int
  curvatureCorrection : Int
  interpolateGrad : Int
  localizeTension : Int
  approximateProjections : Int
  chNewton : Int
  doIteration : Int
  nReinit : Int
  nInitialReinit : Int
  convStabilization : Int

/-- source/parameters.cc:550-580, the `get` calls in the order of the code. -/
def readTwoPhase (c : Conv K) : Action (TwoPhaseValues K) := do
  let tpDensity ← getDouble c "density"
  let densityDiff ← getDouble c "density difference"
  let tpViscosity ← getDouble c "viscosity"
  let viscosityDiff ← getDouble c "viscosity difference"
  let surfaceTension ← getDouble c "surface tension"
  let gravity ← getDouble c "gravity"
  let epsilon ← getDouble c "epsilon"
  let diffusionLength ← getDouble c "diffusion length"
  let contactAngle ← getDouble c "contact angle"
  let pressureConstraint ← getInteger c "pressure constraint"
  let subdivisions ← getInteger c "concentration subdivisions"
  let curvatureCorrection ← getInteger c "curvature correction"
  let interpolateGrad ← getInteger c "grad pressure compatible"
  let localizeTension ← getInteger c "localize surface tension"
  let approximateProjections ← getInteger c "approximate projections"
  let chNewton ← getInteger c "Cahn-Hilliard do Newton"
  let doIteration ← getInteger c "full nonlinear iteration"
  let nReinit ← getInteger c "number reinit steps"
  let nInitialReinit ← getInteger c "number initial reinit steps"
  let convStabilization ← getInteger c "convection stabilization"
  pure {
    tpDensity := tpDensity
    densityDiff := densityDiff
    tpViscosity := tpViscosity
    viscosityDiff := viscosityDiff
    surfaceTension := surfaceTension
    gravity := gravity
    epsilon := epsilon
    diffusionLength := diffusionLength
    contactAngle := contactAngle
    pressureConstraint := pressureConstraint
    subdivisions := subdivisions
    curvatureCorrection := curvatureCorrection
    interpolateGrad := interpolateGrad
    localizeTension := localizeTension
    approximateProjections := approximateProjections
    chNewton := chNewton
    doIteration := doIteration
    nReinit := nReinit
    nInitialReinit := nInitialReinit
    convStabilization := convStabilization }

/-- The values read from section ["Time stepping"]. -/
structure TimeValues (K : Type) where
  startTime : K
  endTime : K
  stepSize : K
  cfl : K
  cflCapillary : K
  tolerance : K
  stepMax : K
  stepMin : K
  scheme : String

/-- source/parameters.cc:587-598, the `get` calls in the order of the code. -/
def readTime (c : Conv K) : Action (TimeValues K) := do
  let startTime ← getDouble c "start time"
  let endTime ← getDouble c "end time"
  let stepSize ← getDouble c "step size"
  let cfl ← getDouble c "CFL number"
  let cflCapillary ← getDouble c "CFL number capillary"
  let tolerance ← getDouble c "tolerance"
  let stepMax ← getDouble c "max step size"
  let stepMin ← getDouble c "min step size"
  let scheme ← getString "scheme"
  pure {
    startTime := startTime
    endTime := endTime
    stepSize := stepSize
    cfl := cfl
    cflCapillary := cflCapillary
    tolerance := tolerance
    stepMax := stepMax
    stepMin := stepMin
    scheme := scheme }

/-- The entries of the file that `Verif.Parameters.Entries` leaves out. -/
structure More (K : Type) where
  outputFilename : String
  wallTimes : Int
  memory : Int
  interpolateGrad : Int
  localizeTension : Int
  approximateProjections : Int
  chNewton : Int
  doIteration : Int
  convStabilization : Int
  cfl : K
  cflCapillary : K
  tolerance : K

/-- The `get` calls of source/parameters.cc:453-613 with the changes of section.  Simplification: the
checks in between are done afterwards by `Verif.Parameters.parse`; C106 shows that no `get` call fails,
so the order does not matter for the outcome. -/
def readEntries (c : Conv K) : Action (Entries K × More K) := do
  enter "Navier-Stokes"
  let n ← readNavierStokes c
  enter "Solver"
  let s ← readSolver c
  leave
  leave
  enter "Output options"
  let o ← readOutput c
  leave
  enter "Two phase"
  let t ← readTwoPhase c
  leave
  enter "Time stepping"
  let z ← readTime c
  leave
  pure ({
    dimension := n.dimension
    globalRefinements := n.globalRefinements
    adaptiveRefinements := n.adaptiveRefinements
    anisotropic := n.anisotropic
    simplex := n.simplex
    velocityDegree := n.velocityDegree
    augmented := n.augmented
    viscosity := n.viscosity
    density := n.density
    damping := n.damping
    physicalType := n.physicalType
    formulation := n.formulation
    nlMax := s.nlMax
    nlTol := s.nlTol
    linearization := s.linearization
    tauGradDiv := s.tauGradDiv
    linMax := s.linMax
    linTol := s.linTol
    linRel := s.linRel
    precVelocity := s.precVelocity
    precPressure := s.precPressure
    itsBeforeInner := s.itsBeforeInner
    verbosity := o.verbosity
    outputFrequency := o.outputFrequency
    vtkFiles := o.vtkFiles
    tpDensity := t.tpDensity
    densityDiff := t.densityDiff
    tpViscosity := t.tpViscosity
    viscosityDiff := t.viscosityDiff
    surfaceTension := t.surfaceTension
    gravity := t.gravity
    epsilon := t.epsilon
    diffusionLength := t.diffusionLength
    contactAngle := t.contactAngle
    pressureConstraint := t.pressureConstraint
    subdivisions := t.subdivisions
    curvatureCorrection := t.curvatureCorrection
    nReinit := t.nReinit
    nInitialReinit := t.nInitialReinit
    startTime := z.startTime
    endTime := z.endTime
    stepSize := z.stepSize
    stepMax := z.stepMax
    stepMin := z.stepMin
    scheme := z.scheme }, {
    outputFilename := o.outputFilename
    wallTimes := o.wallTimes
    memory := o.memory
    interpolateGrad := t.interpolateGrad
    localizeTension := t.localizeTension
    approximateProjections := t.approximateProjections
    chNewton := t.chNewton
    doIteration := t.doIteration
    convStabilization := t.convStabilization
    cfl := z.cfl
    cflCapillary := z.cflCapillary
    tolerance := z.tolerance })

/-- The members set from `More` (source/parameters.cc:536, 543-544, 572-580, 590-592). -/
structure Members (K : Type) where
  outputFilename : String
  wallTimes : Bool
  memory : Bool
  interpolateGrad : Bool
  localizeTension : Bool
  approximateProjections : Bool
  chNewton : Bool
  doIteration : Bool
  convStabilization : Bool
  cfl : K
  cflCapillary : K
  tolerance : K

/-- source/parameters.cc:536, 543-544 (`> 0`), 572-580 (conversion to `bool`), 590-592. -/
def More.members (x : More K) : Members K where
  outputFilename := x.outputFilename
  wallTimes := decide (0 < x.wallTimes)
  memory := decide (0 < x.memory)
  interpolateGrad := decide (x.interpolateGrad ≠ 0)
  localizeTension := decide (x.localizeTension ≠ 0)
  approximateProjections := decide (x.approximateProjections ≠ 0)
  chNewton := decide (x.chNewton ≠ 0)
  doIteration := decide (x.doIteration ≠ 0)
  convStabilization := decide (x.convStabilization ≠ 0)
  cfl := x.cfl
  cflCapillary := x.cflCapillary
  tolerance := x.tolerance

section
variable [Field K] [LinearOrder K]

/-- `parse_parameters(ParameterHandler &)`, source/parameters.cc:450-614. -/
def parseHandler (c : Conv K) (debug : Bool) : Action (Flow K × Members K) := do
  let (e, x) ← readEntries c
  match parse debug e with
  | .error err => fun _ => .error (.check err)
  | .ok f => pure (f, x.members)

/-- `check_for_file` (source/parameters.cc:42-58) followed by `parse_parameters(file, prm)`
(source/parameters.cc:423-448), on a given file system. -/
def checkAndParse (c : Conv K) (debug : Bool) (fs : List Char → Option Content)
    (name : List Char) : Action (Flow K × Members K) :=
  match fs name with
  | none => fun _ => .error .notFound
  | some file => do
    catchAll (readFile c name file)
    parseHandler c debug

/-- The constructor `FlowParameters(parameter_filename)`, source/parameters.cc:32-38. -/
def flowParameters (c : Conv K) (debug : Bool) (fs : List Char → Option Content)
    (name : List Char) : Except Fail (Flow K × Members K) :=
  match (do runDecls c declareParameters; checkAndParse c debug fs name : Action _)
      Handler.empty with
  | .error e => .error e
  | .ok (r, _) => .ok r

/-- The body of `TwoPhaseParameters(parameter_filename)` after the construction of the handler,
applications/micro_particle.cc:44-56. -/
def twoPhaseBody (c : Conv K) (debug : Bool) (fs : List Char → Option Content)
    (name : List Char) : Action ((Flow K × Members K) × String) := do
  runDecls c declareParameters
  runDecls c declareTwoPhase
  let r ← checkAndParse c debug fs name
  enter "Problem-specific"
  let method ← getString "two-phase method"
  leave
  pure (r, method)

/-- The constructor `TwoPhaseParameters(parameter_filename)`, applications/micro_particle.cc:41-57. -/
def twoPhaseParameters (c : Conv K) (debug : Bool) (fs : List Char → Option Content)
    (name : List Char) : Except Fail ((Flow K × Members K) × String) :=
  match twoPhaseBody c debug fs name Handler.empty with
  | .error e => .error e
  | .ok (r, _) => .ok r

end

/-- The solver classes. -/
inductive Solver
  | okz | okzMatrix
  deriving DecidableEq, Repr

/-- The constructor of the application, applications/micro_particle.cc:213-220. -/
def selectSolver (method : String) : Except Fail Solver :=
  if method = "level set okz" then .ok .okz
  else if method = "level set okz matrix" then .ok .okzMatrix
  else .error .unknownSolver

end Verif.Parameters.File
