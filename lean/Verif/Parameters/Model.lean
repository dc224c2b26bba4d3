import Verif.Time.Model

/-! # Model of `FlowParameters::parse_parameters` (source/parameters.cc:450-614)

The entries of the `ParameterHandler` (already pattern-checked text converted by `get_integer`,
`get_double`, `get`) are the input. -/

namespace Verif.Parameters

/-- Conversion `long int → unsigned int` done by the assignments to unsigned members. -/
def toUnsigned (i : Int) : Nat := (i % 2 ^ 32).toNat

/-- parameters.h `PhysicalType`. -/
inductive Physical
  | incompressible | incompressibleStationary | stokes
  deriving DecidableEq, Repr

/-- parameters.h `Linearization`. -/
inductive Linearization
  | coupledImplicitNewton | coupledImplicitPicard | coupledVelocitySemiImplicit
  | coupledVelocityExplicit | projection
  deriving DecidableEq, Repr

/-- parameters.h `PreconditionVelocity`. -/
inductive PrecVelocity
  | ilu | iluScalar | amgLinear | amg
  deriving DecidableEq, Repr

/-- parameters.h `PreconditionPressure`. -/
inductive PrecPressure
  | massDiag | massIlu
  deriving DecidableEq, Repr

/-- Raw entries read by `parse_parameters`. -/
structure Entries (K : Type) where
  dimension : Int
  globalRefinements : Int
  adaptiveRefinements : Int
  anisotropic : Int
  simplex : Int
  velocityDegree : Int
  augmented : Int
  viscosity : K
  density : K
  damping : K
  physicalType : String
  formulation : String
  nlMax : Int
  nlTol : K
  linearization : String
  tauGradDiv : K
  linMax : Int
  linTol : K
  linRel : Int
  precVelocity : String
  precPressure : String
  itsBeforeInner : Int
  verbosity : Int
  outputFrequency : K
  vtkFiles : Int
  tpDensity : K
  densityDiff : K
  tpViscosity : K
  viscosityDiff : K
  surfaceTension : K
  gravity : K
  epsilon : K
  diffusionLength : K
  contactAngle : K
  pressureConstraint : Int
  subdivisions : Int
  curvatureCorrection : Int
  nReinit : Int
  nInitialReinit : Int
  startTime : K
  endTime : K
  stepSize : K
  stepMax : K
  stepMin : K
  scheme : String

/-- The members of `FlowParameters` set from them. -/
structure Flow (K : Type) where
  dimension : Nat
  globalRefinements : Nat
  adaptiveRefinements : Nat
  anisotropic : Bool
  simplex : Bool
  velocityDegree : Nat
  augmented : Bool
  viscosity : K
  density : K
  damping : K
  physical : Physical
  beta : K
  nlMax : Nat
  nlTol : K
  linearization : Linearization
  tauGradDiv : K
  linMax : Nat
  linTol : K
  linRel : Bool
  precVelocity : PrecVelocity
  precPressure : PrecPressure
  itsBeforeInner : Nat
  verbosity : Nat
  outputFrequency : K
  vtkFiles : Nat
  densityDiff : K
  viscosityDiff : K
  surfaceTension : K
  gravity : K
  epsilon : K
  diffusionLength : K
  contactAngle : K
  pressureConstraint : Bool
  subdivisions : Nat
  curvatureCorrection : Nat
  nReinit : Nat
  nInitialReinit : Nat
  startTime : K
  endTime : K
  stepStart : K
  stepMax : K
  stepMin : K
  scheme : Time.Scheme

/-- How parsing can fail.  `uninitialised` stands for falling through to the debug-only
`Assert(false, ...)`, which leaves an enum member uninitialised in release mode; `debugAssert` for a
failing debug-only condition. -/
inductive Err
  | degree | uninitialised | debugAssert | tauGradDiv | precVelocity | diffusionLength | epsilon
  | scheme
  deriving DecidableEq, Repr

/-- `AssertThrow(c, e)`. -/
def assertThrow (c : Prop) [Decidable c] (e : Err) : Except Err Unit :=
  if c then .ok () else .error e

/-- source/parameters.cc:469-477. -/
def parsePhysical (s : String) : Except Err Physical :=
  if s = "stokes" then .ok .stokes
  else if s = "incompressible" then .ok .incompressible
  else if s = "incompressible stationary" then .ok .incompressibleStationary
  else .error .uninitialised

/-- `std::map::operator[]` on the table in parameters.h:65-70: a missing key yields 0. -/
def betaOf {K : Type} [Field K] (s : String) : K :=
  if s = "conservative" then 1 else if s = "convective" then 0
  else if s = "skew-symmetric" then 1 / 2 else 0

/-- source/parameters.cc:487-498. -/
def parseLinearization (s : String) : Except Err Linearization :=
  if s = "coupled implicit Newton" then .ok .coupledImplicitNewton
  else if s = "coupled implicit Picard" then .ok .coupledImplicitPicard
  else if s = "coupled velocity semi-implicit" then .ok .coupledVelocitySemiImplicit
  else if s = "coupled velocity explicit" then .ok .coupledVelocityExplicit
  else if s = "projection" then .ok .projection
  else .error .uninitialised

/-- source/parameters.cc:513-522. -/
def parsePrecVelocity (s : String) : Except Err PrecVelocity :=
  if s = "ilu" then .ok .ilu
  else if s = "ilu scalar" then .ok .iluScalar
  else if s = "amg linear" then .ok .amgLinear
  else if s = "amg" then .ok .amg
  else .error .precVelocity

/-- source/parameters.cc:598-611. -/
def parseScheme (s : String) : Except Err Time.Scheme :=
  if s = "implicit_euler" then .ok .implicitEuler
  else if s = "explicit_euler" then .ok .explicitEuler
  else if s = "crank_nicolson" then .ok .crankNicolson
  else if s = "bdf_2" then .ok .bdf2
  else .error .scheme

variable {K : Type} [Field K] [LinearOrder K]

/-- `parse_parameters`, source/parameters.cc:450-614, in program order.  `debug` enables the
debug-only `Assert`s. -/
def parse (debug : Bool) (e : Entries K) : Except Err (Flow K) := do
  let velocityDegree := toUnsigned e.velocityDegree
  assertThrow (velocityDegree > 1) .degree
  let physical ← parsePhysical e.physicalType
  -- line 478-479
  let density := if physical = .stokes then 0 else e.density
  let linearization ← parseLinearization e.linearization
  assertThrow (debug = true → physical = .incompressibleStationary →
    linearization = .coupledImplicitNewton) .debugAssert
  assertThrow (e.tauGradDiv ≥ 0) .tauGradDiv
  let precVelocity ← parsePrecVelocity e.precVelocity
  let precPressure := if e.precPressure = "ilu" then PrecPressure.massIlu else .massDiag
  assertThrow (debug = true → toUnsigned e.verbosity ≤ 3) .debugAssert
  let vtk := toUnsigned e.vtkFiles
  let vtk := if vtk > 2 then 1 else vtk
  -- lines 547-551
  let density := if 0 < e.tpDensity then e.tpDensity else density
  let density := if physical = .stokes then 0 else density
  let densityDiff := if physical = .stokes then 0 else e.densityDiff
  let viscosity := if 0 < e.tpViscosity then e.tpViscosity else e.viscosity
  assertThrow (0 < e.diffusionLength) .diffusionLength
  assertThrow (0 < e.epsilon) .epsilon
  -- lines 594-596
  let collapse := decide (e.stepSize < e.stepMin)
  let stepMax := if collapse then e.stepSize else e.stepMax
  let stepMin := if collapse then e.stepSize else e.stepMin
  let scheme ← parseScheme e.scheme
  pure {
    dimension := toUnsigned e.dimension
    globalRefinements := toUnsigned e.globalRefinements
    adaptiveRefinements := toUnsigned e.adaptiveRefinements
    anisotropic := decide (0 < e.anisotropic)
    simplex := decide (0 < e.simplex)
    velocityDegree
    augmented := decide (e.augmented ≠ 0)
    viscosity
    density
    damping := -e.damping
    physical
    beta := betaOf e.formulation
    nlMax := toUnsigned e.nlMax
    nlTol := e.nlTol
    linearization
    tauGradDiv := e.tauGradDiv
    linMax := toUnsigned e.linMax
    linTol := e.linTol
    linRel := decide (0 < e.linRel)
    precVelocity
    precPressure
    itsBeforeInner := toUnsigned e.itsBeforeInner
    verbosity := toUnsigned e.verbosity
    outputFrequency := e.outputFrequency
    vtkFiles := vtk
    densityDiff
    viscosityDiff := e.viscosityDiff
    surfaceTension := e.surfaceTension
    gravity := e.gravity
    epsilon := e.epsilon
    diffusionLength := e.diffusionLength
    contactAngle := e.contactAngle
    pressureConstraint := decide (e.pressureConstraint ≠ 0)
    subdivisions := toUnsigned e.subdivisions
    curvatureCorrection := toUnsigned e.curvatureCorrection
    nReinit := toUnsigned e.nReinit
    nInitialReinit := toUnsigned e.nInitialReinit
    startTime := e.startTime
    endTime := e.endTime
    stepStart := e.stepSize
    stepMax
    stepMin
    scheme }

/-- The parameters handed to `TimeStepping` (time_stepping.cc:24-62). -/
def Flow.time (f : Flow K) : Time.Params K where
  scheme := f.scheme
  startTime := f.startTime
  endTime := f.endTime
  stepStart := f.stepStart
  stepMax := f.stepMax
  stepMin := f.stepMin

end Verif.Parameters
