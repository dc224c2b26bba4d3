import Verif.Parameters.Model
import Verif.Time.Spec
import Mathlib.Tactic.Common
import Mathlib.Tactic.NormNum
import Mathlib.Algebra.Order.Ring.Rat

/-! # C12: accepted parameter files yield consistent parameters -/

set_option linter.unusedSectionVars false

namespace Verif.Parameters

variable {K : Type} [Field K] [LinearOrder K]

theorem assertThrow_ok (c : Prop) [Decidable c] (e : Err) (u : Unit) :
    assertThrow c e = .ok u ↔ c := by
  unfold assertThrow; split_ifs <;> simp_all

theorem bind_ok {α β : Type} (x : Except Err α) (f : α → Except Err β) (b : β) :
    (x >>= f) = .ok b ↔ ∃ a, x = .ok a ∧ f a = .ok b := by
  cases x <;> simp [bind, Except.bind]

theorem bind_error {α β : Type} (x : Except Err α) (f : α → Except Err β) (err : Err) :
    (x >>= f) = .error err ↔ x = .error err ∨ ∃ a, x = .ok a ∧ f a = .error err := by
  cases x <;> simp [bind, Except.bind]

theorem assertThrow_error (c : Prop) [Decidable c] (e err : Err) :
    assertThrow c e = .error err ↔ ¬ c ∧ err = e := by
  unfold assertThrow; split_ifs <;> simp_all [eq_comm]

/-- **C12.** Whenever parsing succeeds (in debug or release mode), the parameters are consistent. -/
theorem C12_accepted_consistent (debug : Bool) (e : Entries K) (f : Flow K)
    (h : parse debug e = .ok f) :
    -- Stokes flow has no density
    (e.physicalType = "stokes" → f.physical = .stokes ∧ f.density = 0 ∧ f.densityDiff = 0) ∧
    -- two-phase entries override the single-phase ones if positive
    (e.physicalType ≠ "stokes" → 0 < e.tpDensity → f.density = e.tpDensity) ∧
    (e.physicalType ≠ "stokes" → ¬ 0 < e.tpDensity → f.density = e.density) ∧
    (e.physicalType ≠ "stokes" → f.densityDiff = e.densityDiff) ∧
    (0 < e.tpViscosity → f.viscosity = e.tpViscosity) ∧
    (¬ 0 < e.tpViscosity → f.viscosity = e.viscosity) ∧
    f.damping = -e.damping ∧
    (e.formulation = "conservative" → f.beta = 1) ∧
    (e.formulation = "convective" → f.beta = 0) ∧
    (e.formulation = "skew-symmetric" → f.beta = 1 / 2) ∧
    0 ≤ f.tauGradDiv ∧ 0 < f.epsilon ∧ 0 < f.diffusionLength ∧
    f.vtkFiles ≤ 2 ∧ 1 < f.velocityDegree ∧
    -- step sizes
    f.stepStart = e.stepSize ∧
    (e.stepSize < e.stepMin → f.stepMin = e.stepSize ∧ f.stepMax = e.stepSize) ∧
    (¬ e.stepSize < e.stepMin → f.stepMin = e.stepMin ∧ f.stepMax = e.stepMax) ∧
    f.stepMin ≤ f.stepStart := by
  unfold parse at h
  simp only [bind_ok, assertThrow_ok] at h
  obtain ⟨_, hdeg, phys, hphys, lin, hlin, _, hst, _, htau, pv, hpv, _, hverb, _, hdl, _, heps,
    sch, hsch, hf⟩ := h
  simp only [pure, Except.pure, Except.ok.injEq] at hf
  have hstokes : phys = .stokes ↔ e.physicalType = "stokes" := by
    unfold parsePhysical at hphys
    split_ifs at hphys <;> simp_all
    all_goals (subst hphys; simp)
  subst hf
  dsimp only
  refine ⟨?_, ?_, ?_, ?_, ?_, ?_, rfl, ?_, ?_, ?_, htau, heps, hdl, ?_, hdeg, rfl, ?_, ?_, ?_⟩
  · intro h; have := hstokes.2 h; simp [this]
  · intro h h'; have := mt hstokes.1 h; simp [this, h']
  · intro h h'; have := mt hstokes.1 h; simp [this, h']
  · intro h; have := mt hstokes.1 h; simp [this]
  · intro h; simp [h]
  · intro h; simp [h]
  · intro h; simp [betaOf, h]
  · intro h; simp [betaOf, h]
  · intro h; simp [betaOf, h]
  · split_ifs <;> omega
  · intro h; simp [h]
  · intro h; simp [h]
  · by_cases h : e.stepSize < e.stepMin
    · simp [h]
    · simp [h]; exact not_lt.1 h

/-- **C12 (time stepping).** An accepted file with positive step size entries and a nonempty
interval yields parameters for which the time stepping theorems C01 - C08 apply. -/
theorem C12_time_parameters_good (debug : Bool) (e : Entries K) (f : Flow K)
    (h : parse debug e = .ok f) (h0 : 0 < e.stepSize) (h1 : 0 < e.stepMin) (h2 : 0 < e.stepMax)
    (h3 : e.startTime < e.endTime) : f.time.Good := by
  have c := C12_accepted_consistent debug e f h
  obtain ⟨-, -, -, -, -, -, -, -, -, -, -, -, -, -, -, hs, hc, hn, -⟩ := c
  have ht : f.startTime = e.startTime ∧ f.endTime = e.endTime := by
    unfold parse at h
    simp only [bind_ok, assertThrow_ok] at h
    obtain ⟨_, -, _, -, _, -, _, -, _, -, _, -, _, -, _, -, _, -, _, -, hf⟩ := h
    simp only [pure, Except.pure, Except.ok.injEq] at hf
    subst hf; exact ⟨rfl, rfl⟩
  refine ⟨?_, ?_, ?_, ?_⟩ <;> simp only [Flow.time]
  · rw [ht.1, ht.2]; exact h3
  · rw [hs]; exact h0
  · by_cases hlt : e.stepSize < e.stepMin
    · rw [(hc hlt).2]; exact h0
    · rw [(hn hlt).2]; exact h2
  · by_cases hlt : e.stepSize < e.stepMin
    · rw [(hc hlt).1]; exact h0
    · rw [(hn hlt).1]; exact h1

/-- **C12 (rejection).** Parsing fails for nonpositive epsilon or diffusion length, a negative
grad-div parameter and degrees 0 and 1. -/
theorem C12_rejects (debug : Bool) (e : Entries K)
    (h : e.epsilon ≤ 0 ∨ e.diffusionLength ≤ 0 ∨ e.tauGradDiv < 0 ∨ e.velocityDegree = 0 ∨
      e.velocityDegree = 1) : ∃ err, parse debug e = .error err := by
  cases hp : parse debug e with
  | error err => exact ⟨err, rfl⟩
  | ok f =>
    exfalso
    unfold parse at hp
    simp only [bind_ok, assertThrow_ok] at hp
    obtain ⟨_, hdeg, phys, hphys, lin, hlin, _, hst, _, htau, pv, hpv, _, hverb, _, hdl, _, heps,
      sch, hsch, hf⟩ := hp
    rcases h with h | h | h | h | h
    · exact absurd heps (not_lt.2 h)
    · exact absurd hdl (not_lt.2 h)
    · exact absurd htau (not_le.2 h)
    · simp [toUnsigned, h] at hdeg
    · simp [toUnsigned, h] at hdeg

/-- **C12 (values selected by name).** With the names allowed by the declared patterns, parsing never
leaves an enum member uninitialised. -/
theorem C12_never_uninitialised (debug : Bool) (e : Entries K)
    (h1 : e.physicalType ∈ ["incompressible", "incompressible stationary", "stokes"])
    (h2 : e.linearization ∈ ["coupled implicit Newton", "coupled implicit Picard",
      "coupled velocity semi-implicit", "coupled velocity explicit", "projection"])
    (h3 : e.precVelocity ∈ ["ilu", "ilu scalar", "amg linear", "amg"])
    (h4 : e.scheme ∈ ["explicit_euler", "implicit_euler", "crank_nicolson", "bdf_2"]) :
    ∀ err, parse debug e = .error err →
      err ∈ [Err.degree, .debugAssert, .tauGradDiv, .diffusionLength, .epsilon] := by
  have e1 : ∃ p, parsePhysical e.physicalType = .ok p := by
    simp only [List.mem_cons, List.not_mem_nil, or_false] at h1
    rcases h1 with h | h | h <;> rw [h] <;> exact ⟨_, rfl⟩
  have e2 : ∃ p, parseLinearization e.linearization = .ok p := by
    simp only [List.mem_cons, List.not_mem_nil, or_false] at h2
    rcases h2 with h | h | h | h | h <;> rw [h] <;> exact ⟨_, rfl⟩
  have e3 : ∃ p, parsePrecVelocity e.precVelocity = .ok p := by
    simp only [List.mem_cons, List.not_mem_nil, or_false] at h3
    rcases h3 with h | h | h | h <;> rw [h] <;> exact ⟨_, rfl⟩
  have e4 : ∃ p, parseScheme e.scheme = .ok p := by
    simp only [List.mem_cons, List.not_mem_nil, or_false] at h4
    rcases h4 with h | h | h | h <;> rw [h] <;> exact ⟨_, rfl⟩
  obtain ⟨p1, e1⟩ := e1
  obtain ⟨p2, e2⟩ := e2
  obtain ⟨p3, e3⟩ := e3
  obtain ⟨p4, e4⟩ := e4
  intro err h
  unfold parse at h
  simp only [e1, e2, e3, e4, bind_error, assertThrow_error, pure, Except.pure] at h
  simp only [List.mem_cons, List.not_mem_nil, or_false]
  rcases h with h | ⟨_, -, h⟩
  · exact .inl h.2
  rcases h with h | ⟨_, -, h⟩
  · cases h
  rcases h with h | ⟨_, -, h⟩
  · cases h
  rcases h with h | ⟨_, -, h⟩
  · exact .inr (.inl h.2)
  rcases h with h | ⟨_, -, h⟩
  · exact .inr (.inr (.inl h.2))
  rcases h with h | ⟨_, -, h⟩
  · cases h
  rcases h with h | ⟨_, -, h⟩
  · exact .inr (.inl h.2)
  rcases h with h | ⟨_, -, h⟩
  · exact .inr (.inr (.inr (.inl h.2)))
  rcases h with h | ⟨_, -, h⟩
  · exact .inr (.inr (.inr (.inr h.2)))
  rcases h with h | ⟨_, -, h⟩
  · cases h
  · cases h

/-- A parameter file close to the default values of source/parameters.cc:62-420. -/
def defaults : Entries ℚ where
  dimension := 2
  globalRefinements := 1
  adaptiveRefinements := 0
  anisotropic := 0
  simplex := 0
  velocityDegree := 2
  augmented := 0
  viscosity := 1
  density := 1
  damping := 0
  physicalType := "incompressible"
  formulation := "skew-symmetric"
  nlMax := 10
  nlTol := 1 / 10 ^ 6
  linearization := "coupled implicit Newton"
  tauGradDiv := 0
  linMax := 500
  linTol := 1 / 10 ^ 3
  linRel := 1
  precVelocity := "amg linear"
  precPressure := "ilu"
  itsBeforeInner := 50
  verbosity := 2
  outputFrequency := 1
  vtkFiles := 0
  tpDensity := -1
  densityDiff := 0
  tpViscosity := -1
  viscosityDiff := 0
  surfaceTension := 1
  gravity := 0
  epsilon := 1
  diffusionLength := 1 / 10
  contactAngle := 0
  pressureConstraint := 1
  subdivisions := 2
  curvatureCorrection := 0
  nReinit := 2
  nInitialReinit := 0
  startTime := 0
  endTime := 1
  stepSize := 1 / 10 ^ 2
  stepMax := 1
  stepMin := 1 / 10
  scheme := "bdf_2"

/-- Non-vacuity: the defaults are accepted. -/
example : (parse true defaults).isOk = true := by decide +kernel

/-- **C12 counterexample.** A negative velocity degree in the input file passes the check
`velocity_degree > 1` (it is converted to `unsigned int` first). -/
theorem C12_negative_degree_accepted :
    (parse true { defaults with velocityDegree := -1 }).toOption.map Flow.velocityDegree
      = some 4294967295 := by decide +kernel

/-- **C12.** Each accepted selection string selects exactly the option of that name, and any other
string is rejected (the table is the documentation of the parameter file). -/
theorem C12_selections (debug : Bool) (e : Entries K) (f : Flow K) (h : parse debug e = .ok f) :
    (e.physicalType, f.physical) ∈
      [("stokes", Physical.stokes), ("incompressible", .incompressible),
       ("incompressible stationary", .incompressibleStationary)] ∧
    (e.linearization, f.linearization) ∈
      [("coupled implicit Newton", Linearization.coupledImplicitNewton),
       ("coupled implicit Picard", .coupledImplicitPicard),
       ("coupled velocity semi-implicit", .coupledVelocitySemiImplicit),
       ("coupled velocity explicit", .coupledVelocityExplicit), ("projection", .projection)] ∧
    (e.precVelocity, f.precVelocity) ∈
      [("ilu", PrecVelocity.ilu), ("ilu scalar", .iluScalar), ("amg linear", .amgLinear),
       ("amg", .amg)] ∧
    (f.precPressure = .massIlu ↔ e.precPressure = "ilu") ∧
    (e.scheme, f.scheme) ∈
      [("implicit_euler", Time.Scheme.implicitEuler), ("explicit_euler", .explicitEuler),
       ("crank_nicolson", .crankNicolson), ("bdf_2", .bdf2)] := by
  unfold parse at h
  simp only [bind_ok, assertThrow_ok] at h
  obtain ⟨_, hdeg, phys, hphys, lin, hlin, _, hst, _, htau, pv, hpv, _, hverb, _, hdl, _, heps,
      sch, hsch, hf⟩ := h
  simp only [pure, Except.pure, Except.ok.injEq] at hf
  subst hf
  refine ⟨?_, ?_, ?_, ?_, ?_⟩
  · unfold parsePhysical at hphys
    split_ifs at hphys with a b c <;> simp_all [eq_comm]
  · unfold parseLinearization at hlin
    split_ifs at hlin with a b c d g <;> simp_all [eq_comm]
  · unfold parsePrecVelocity at hpv
    split_ifs at hpv with a b c d <;> simp_all [eq_comm]
  · dsimp only
    split_ifs with a <;> simp [a]
  · unfold parseScheme at hsch
    split_ifs at hsch with a b c d <;> simp_all [eq_comm]

/-- **C12.** Every other entry arrives unchanged in the member of the same name (a flag entry as the
truth value documented for it); integers pass through the conversion to `unsigned int`. -/
theorem C12_copied_values (debug : Bool) (e : Entries K) (f : Flow K)
    (h : parse debug e = .ok f) :
    [f.nlTol, f.tauGradDiv, f.linTol, f.outputFrequency, f.viscosityDiff, f.surfaceTension,
      f.gravity, f.epsilon, f.diffusionLength, f.contactAngle, f.startTime, f.endTime, f.stepStart]
    = [e.nlTol, e.tauGradDiv, e.linTol, e.outputFrequency, e.viscosityDiff, e.surfaceTension,
      e.gravity, e.epsilon, e.diffusionLength, e.contactAngle, e.startTime, e.endTime,
      e.stepSize] ∧
    [f.dimension, f.globalRefinements, f.adaptiveRefinements, f.velocityDegree, f.nlMax, f.linMax,
      f.itsBeforeInner, f.verbosity, f.subdivisions, f.curvatureCorrection, f.nReinit,
      f.nInitialReinit]
    = [e.dimension, e.globalRefinements, e.adaptiveRefinements, e.velocityDegree, e.nlMax,
      e.linMax, e.itsBeforeInner, e.verbosity, e.subdivisions, e.curvatureCorrection, e.nReinit,
      e.nInitialReinit].map toUnsigned ∧
    (f.anisotropic = true ↔ 0 < e.anisotropic) ∧
    (f.simplex = true ↔ 0 < e.simplex) ∧
    (f.linRel = true ↔ 0 < e.linRel) ∧
    (f.augmented = true ↔ e.augmented ≠ 0) ∧
    (f.pressureConstraint = true ↔ e.pressureConstraint ≠ 0) ∧
    (toUnsigned e.vtkFiles ≤ 2 → f.vtkFiles = toUnsigned e.vtkFiles) ∧
    (2 < toUnsigned e.vtkFiles → f.vtkFiles = 1) := by
  unfold parse at h
  simp only [bind_ok, assertThrow_ok] at h
  obtain ⟨_, hdeg, phys, hphys, lin, hlin, _, hst, _, htau, pv, hpv, _, hverb, _, hdl, _, heps,
      sch, hsch, hf⟩ := h
  simp only [pure, Except.pure, Except.ok.injEq] at hf
  subst hf
  refine ⟨rfl, rfl, ?_, ?_, ?_, ?_, ?_, fun h => if_neg (not_lt.2 h), fun h => if_pos h⟩ <;> simp

/-- Non-negative integer entries below `2^32` arrive as the same number. -/
theorem C12_unsigned_exact (i : Int) (h0 : 0 ≤ i) (h1 : i < 2 ^ 32) :
    ((toUnsigned i : Nat) : Int) = i := by
  unfold toUnsigned
  rw [Int.toNat_of_nonneg (Int.emod_nonneg _ (by norm_num)), Int.emod_eq_of_lt h0 h1]

end Verif.Parameters
