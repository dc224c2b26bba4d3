import Verif.Parameters.FileSpec
import Verif.Parameters.Theorems
import Mathlib.Tactic.Common
import Mathlib.Tactic.NormNum
import Mathlib.Algebra.Order.Ring.Rat

/-! # C106: lemmas about the handler and the reading of the entries -/

set_option linter.unusedSectionVars false

namespace Verif.Parameters.File

variable {K : Type}

/-! ## Values -/

theorem value_append_of_notMem {A B : List (Key × String)} {k : Key} {d : String}
    (hB : ∀ b ∈ B, b.1 ≠ k) : Spec.value (A ++ B) k d = Spec.value A k d := by
  unfold Spec.value
  rw [List.filter_append]
  have : B.filter (fun a => a.1 = k) = [] := by
    rw [List.filter_eq_nil_iff]
    intro b hb
    simpa using hB b hb
  rw [this, List.append_nil]

theorem value_snoc_ne {A : List (Key × String)} {k k' : Key} {v d : String} (hk : k' ≠ k) :
    Spec.value (A ++ [(k', v)]) k d = Spec.value A k d :=
  value_append_of_notMem (by simpa using hk)

theorem value_snoc_self {A : List (Key × String)} {k : Key} {v d : String} :
    Spec.value (A ++ [(k, v)]) k d = v := by
  unfold Spec.value
  rw [List.filter_append]
  simp

/-! ## The state of the handler -/

/-- The entries are the documented ones with the values given by the assignments `A`. -/
structure EntOk (c : Conv K) (rows : List Spec.Row) (A : List (Key × String))
    (E : Key → Option Entry) : Prop where
  entry : ∀ r ∈ rows, E r.key = some ⟨Spec.value A r.key r.default, r.pattern⟩
  ok : ∀ r ∈ rows, r.pattern.ok c (Spec.value A r.key r.default) = true
  other : ∀ k, (∀ r ∈ rows, r.key ≠ k) → E k = none

/-- The sections are the documented ones. -/
def SecOk (secs : List Path) (S : Path → Bool) : Prop := ∀ p, S p = true ↔ p ∈ secs

/-- The rows of a sequence of declarations. -/
def flat : Path → List Decl → List Spec.Row
  | _, [] => []
  | p, .enter s :: ds => flat (p ++ [s]) ds
  | p, .leave :: ds => flat p.dropLast ds
  | p, .entry n d t :: ds => ⟨(p, n), d, t⟩ :: flat p ds

/-- The sections entered by a sequence of declarations. -/
def entered : Path → List Decl → List Path
  | _, [] => []
  | p, .enter s :: ds => (p ++ [s]) :: entered (p ++ [s]) ds
  | p, .leave :: ds => entered p.dropLast ds
  | p, .entry _ _ _ :: ds => entered p ds

/-- The section after a sequence of declarations, if it does not leave the top level. -/
def after : Path → List Decl → Option Path
  | p, [] => some p
  | p, .enter s :: ds => after (p ++ [s]) ds
  | p, .leave :: ds => if p = [] then none else after p.dropLast ds
  | p, .entry _ _ _ :: ds => after p ds

/-- Storing rows one after the other. -/
def put (E : Key → Option Entry) : List Spec.Row → Key → Option Entry
  | [] => E
  | r :: rs => put (Function.update E r.key (some ⟨r.default, r.pattern⟩)) rs

theorem bind_run {α β : Type} {x : Action α} {f : α → Action β} {h h' : Handler} {a : α}
    (hx : x h = .ok (a, h')) : (x >>= f) h = f a h' := by
  change StateT.bind x f h = _
  simp only [StateT.bind, hx]
  rfl

theorem runDecls_ok (c : Conv K) : ∀ (ds : List Decl) (h : Handler) (q : Path),
    after h.path ds = some q → (∀ r ∈ flat h.path ds, r.pattern.ok c r.default = true) →
    ∃ h', runDecls c ds h = .ok ((), h') ∧ h'.path = q ∧
      h'.entries = put h.entries (flat h.path ds) ∧
      ∀ p, h'.sections p = true ↔ p ∈ entered h.path ds ∨ h.sections p = true := by
  intro ds
  induction ds with
  | nil =>
    intro h q hq _
    exact ⟨h, rfl, by simpa [after] using hq, rfl, by simp [entered]⟩
  | cons d ds ih =>
    intro h q hq hr
    cases d with
    | enter s =>
      obtain ⟨h', h1, h2, h3, h4⟩ := ih { h with
        path := h.path ++ [s]
        sections := fun p => decide (p = h.path ++ [s]) || h.sections p } q hq hr
      refine ⟨h', h1, h2, h3, ?_⟩
      intro p
      rw [h4]
      simp only [entered, List.mem_cons, Bool.or_eq_true, decide_eq_true_eq]
      tauto
    | leave =>
      by_cases hp : h.path = []
      · simp [after, hp] at hq
      · simp only [after, if_neg hp] at hq
        obtain ⟨h', h1, h2, h3, h4⟩ := ih { h with path := h.path.dropLast } q hq hr
        refine ⟨h', ?_, h2, h3, h4⟩
        rw [← h1]
        exact bind_run (a := ()) (by show File.leave h = _; simp [File.leave, hp])
    | entry n dv t =>
      have hok : t.ok c dv = true := hr ⟨(h.path, n), dv, t⟩ (by simp [flat])
      obtain ⟨h', h1, h2, h3, h4⟩ := ih { h with
        entries := Function.update h.entries (h.path, n) (some ⟨dv, t⟩) } q hq
        (fun r hm => hr r (by simp only [flat, List.mem_cons]; exact Or.inr hm))
      refine ⟨h', ?_, h2, h3, h4⟩
      rw [← h1]
      exact bind_run (a := ()) (by show declareEntry c n dv t h = _; simp [declareEntry, hok])

theorem put_other : ∀ (rs : List Spec.Row) (E : Key → Option Entry) (k : Key),
    (∀ r ∈ rs, r.key ≠ k) → put E rs k = E k := by
  intro rs
  induction rs with
  | nil => intro E k _; rfl
  | cons r rs ih =>
    intro E k hk
    simp only [put]
    rw [ih _ _ (fun r' hr' => hk r' (List.mem_cons_of_mem _ hr')),
      Function.update_of_ne (hk r List.mem_cons_self).symm]

theorem put_mem : ∀ (rs : List Spec.Row) (E : Key → Option Entry),
    (rs.map Spec.Row.key).Nodup → ∀ r ∈ rs, put E rs r.key = some ⟨r.default, r.pattern⟩ := by
  intro rs
  induction rs with
  | nil => intro E _ r hr; cases hr
  | cons r rs ih =>
    intro E hn r' hr'
    simp only [List.map_cons, List.nodup_cons] at hn
    simp only [put]
    rcases List.mem_cons.1 hr' with rfl | hm
    · rw [put_other _ _ _ ?_, Function.update_self]
      intro r hr he
      exact hn.1 (he ▸ List.mem_map_of_mem hr)
    · exact ih _ hn.2 r' hm

/-! ## Reading back -/

/-- Integer value of an entry. -/
def iv (c : Conv K) (A : List (Key × String)) (k : Key) (d : String) : Int :=
  (c.int (Spec.value A k d)).getD 0

/-- Number value of an entry. -/
def dv [Field K] (c : Conv K) (A : List (Key × String)) (k : Key) (d : String) : K :=
  (c.dbl (Spec.value A k d)).getD 0

variable [Field K] {c : Conv K} {rows : List Spec.Row} {A : List (Key × String)} {h : Handler}
  {E : Key → Option Entry}

theorem iv_row {k : Key} {d : String} (hE : EntOk c rows A E)
    (hr : (⟨k, d, .integer⟩ : Spec.Row) ∈ rows) :
    c.int (Spec.value A k d) = some (iv c A k d) := by
  have := hE.ok _ hr
  simp only [Pattern.ok] at this
  obtain ⟨i, hi⟩ := Option.isSome_iff_exists.1 this
  simp [iv, hi]

theorem dv_row {k : Key} {d : String} (hE : EntOk c rows A E)
    (hr : (⟨k, d, .double⟩ : Spec.Row) ∈ rows) :
    c.dbl (Spec.value A k d) = some (dv c A k d) := by
  have := hE.ok _ hr
  simp only [Pattern.ok] at this
  obtain ⟨i, hi⟩ := Option.isSome_iff_exists.1 this
  simp [dv, hi]

theorem getInteger_row {p : Path} {n d : String} (hE : EntOk c rows A h.entries)
    (hp : h.path = p) (hr : (⟨(p, n), d, .integer⟩ : Spec.Row) ∈ rows) :
    getInteger c n h = .ok (iv c A (p, n) d, h) := by
  have h1 := hE.entry _ hr
  have h2 := iv_row hE hr
  simp only at h1
  simp [getInteger, hp, h1, h2]

theorem getDouble_row {p : Path} {n d : String} (hE : EntOk c rows A h.entries)
    (hp : h.path = p) (hr : (⟨(p, n), d, .double⟩ : Spec.Row) ∈ rows) :
    getDouble c n h = .ok (dv c A (p, n) d, h) := by
  have h1 := hE.entry _ hr
  have h2 := dv_row hE hr
  simp only at h1
  simp [getDouble, hp, h1, h2]

theorem getString_row {p : Path} {n d : String} {t : Pattern} (hE : EntOk c rows A h.entries)
    (hp : h.path = p) (hr : (⟨(p, n), d, t⟩ : Spec.Row) ∈ rows) :
    getString n h = .ok (Spec.value A (p, n) d, h) := by
  have h1 := hE.entry _ hr
  simp only at h1
  simp [getString, hp, h1]

/-- Membership of a row in the table. -/
local macro "mem" : tactic => `(tactic| decide +kernel)

/-- The values the file gives to section ["Navier-Stokes"]. -/
def valsNavierStokes (c : Conv K) (A : List (Key × String)) : NavierStokesValues K where
  dimension := iv c A (["Navier-Stokes"], "dimension") "2"
  globalRefinements := iv c A (["Navier-Stokes"], "global refinements") "1"
  adaptiveRefinements := iv c A (["Navier-Stokes"], "adaptive refinements") "0"
  anisotropic := iv c A (["Navier-Stokes"], "anisotropic refinement") "0"
  simplex := iv c A (["Navier-Stokes"], "simplex mesh") "0"
  velocityDegree := iv c A (["Navier-Stokes"], "velocity degree") "2"
  augmented := iv c A (["Navier-Stokes"], "augmented Taylor-Hood elements") "0"
  viscosity := dv c A (["Navier-Stokes"], "viscosity") "1."
  density := dv c A (["Navier-Stokes"], "density") "1."
  damping := dv c A (["Navier-Stokes"], "damping") "0"
  physicalType := Spec.value A (["Navier-Stokes"], "physical type") "incompressible"
  formulation := Spec.value A (["Navier-Stokes"], "formulation convective term momentum balance") "skew-symmetric"

theorem readNavierStokes_eq (hE : EntOk c rows A h.entries) (hsub : ∀ r ∈ Spec.table, r ∈ rows)
    (hp : h.path = ["Navier-Stokes"]) : readNavierStokes c h = .ok (valsNavierStokes c A, h) := by
  unfold readNavierStokes
  refine (bind_run (getInteger_row (d := "2") hE hp
    (hsub _ (by mem)))).trans ?_
  refine (bind_run (getInteger_row (d := "1") hE hp
    (hsub _ (by mem)))).trans ?_
  refine (bind_run (getInteger_row (d := "0") hE hp
    (hsub _ (by mem)))).trans ?_
  refine (bind_run (getInteger_row (d := "0") hE hp
    (hsub _ (by mem)))).trans ?_
  refine (bind_run (getInteger_row (d := "0") hE hp
    (hsub _ (by mem)))).trans ?_
  refine (bind_run (getInteger_row (d := "2") hE hp
    (hsub _ (by mem)))).trans ?_
  refine (bind_run (getInteger_row (d := "0") hE hp
    (hsub _ (by mem)))).trans ?_
  refine (bind_run (getDouble_row (d := "1.") hE hp
    (hsub _ (by mem)))).trans ?_
  refine (bind_run (getDouble_row (d := "1.") hE hp
    (hsub _ (by mem)))).trans ?_
  refine (bind_run (getDouble_row (d := "0") hE hp
    (hsub _ (by mem)))).trans ?_
  refine (bind_run (getString_row (d := "incompressible") (t := (.selection ["incompressible", "incompressible stationary", "stokes"])) hE hp
    (hsub _ (by mem)))).trans ?_
  refine (bind_run (getString_row (d := "skew-symmetric") (t := (.selection ["skew-symmetric", "convective", "conservative"])) hE hp
    (hsub _ (by mem)))).trans ?_
  rfl

/-- The values the file gives to section ["Navier-Stokes", "Solver"]. -/
def valsSolver (c : Conv K) (A : List (Key × String)) : SolverValues K where
  nlMax := iv c A (["Navier-Stokes", "Solver"], "NL max iterations") "10"
  nlTol := dv c A (["Navier-Stokes", "Solver"], "NL tolerance") "1e-6"
  linearization := Spec.value A (["Navier-Stokes", "Solver"], "linearization scheme") "coupled implicit Newton"
  tauGradDiv := dv c A (["Navier-Stokes", "Solver"], "tau grad div") "0."
  linMax := iv c A (["Navier-Stokes", "Solver"], "lin max iterations") "500"
  linTol := dv c A (["Navier-Stokes", "Solver"], "lin tolerance") "1.e-3"
  linRel := iv c A (["Navier-Stokes", "Solver"], "lin relative tolerance") "1"
  precVelocity := Spec.value A (["Navier-Stokes", "Solver"], "lin velocity preconditioner") "amg linear"
  precPressure := Spec.value A (["Navier-Stokes", "Solver"], "lin pressure mass preconditioner") "ilu"
  itsBeforeInner := iv c A (["Navier-Stokes", "Solver"], "lin its before inner solvers") "50"

theorem readSolver_eq (hE : EntOk c rows A h.entries) (hsub : ∀ r ∈ Spec.table, r ∈ rows)
    (hp : h.path = ["Navier-Stokes", "Solver"]) : readSolver c h = .ok (valsSolver c A, h) := by
  unfold readSolver
  refine (bind_run (getInteger_row (d := "10") hE hp
    (hsub _ (by mem)))).trans ?_
  refine (bind_run (getDouble_row (d := "1e-6") hE hp
    (hsub _ (by mem)))).trans ?_
  refine (bind_run (getString_row (d := "coupled implicit Newton") (t := (.selection ["coupled implicit Newton", "coupled implicit Picard", "coupled velocity semi-implicit", "coupled velocity explicit", "projection"])) hE hp
    (hsub _ (by mem)))).trans ?_
  refine (bind_run (getDouble_row (d := "0.") hE hp
    (hsub _ (by mem)))).trans ?_
  refine (bind_run (getInteger_row (d := "500") hE hp
    (hsub _ (by mem)))).trans ?_
  refine (bind_run (getDouble_row (d := "1.e-3") hE hp
    (hsub _ (by mem)))).trans ?_
  refine (bind_run (getInteger_row (d := "1") hE hp
    (hsub _ (by mem)))).trans ?_
  refine (bind_run (getString_row (d := "amg linear") (t := (.selection ["ilu", "ilu scalar", "amg linear", "amg"])) hE hp
    (hsub _ (by mem)))).trans ?_
  refine (bind_run (getString_row (d := "ilu") (t := (.selection ["ilu", "diagonal"])) hE hp
    (hsub _ (by mem)))).trans ?_
  refine (bind_run (getInteger_row (d := "50") hE hp
    (hsub _ (by mem)))).trans ?_
  rfl

/-- The values the file gives to section ["Output options"]. -/
def valsOutput (c : Conv K) (A : List (Key × String)) : OutputValues K where
  outputFilename := Spec.value A (["Output options"], "output filename") ""
  verbosity := iv c A (["Output options"], "output verbosity") "2"
  outputFrequency := dv c A (["Output options"], "output frequency") "1"
  vtkFiles := iv c A (["Output options"], "output vtk files") "0"
  wallTimes := iv c A (["Output options"], "output wall times") "0"
  memory := iv c A (["Output options"], "output memory") "0"

theorem readOutput_eq (hE : EntOk c rows A h.entries) (hsub : ∀ r ∈ Spec.table, r ∈ rows)
    (hp : h.path = ["Output options"]) : readOutput c h = .ok (valsOutput c A, h) := by
  unfold readOutput
  refine (bind_run (getString_row (d := "") (t := .anything) hE hp
    (hsub _ (by mem)))).trans ?_
  refine (bind_run (getInteger_row (d := "2") hE hp
    (hsub _ (by mem)))).trans ?_
  refine (bind_run (getDouble_row (d := "1") hE hp
    (hsub _ (by mem)))).trans ?_
  refine (bind_run (getInteger_row (d := "0") hE hp
    (hsub _ (by mem)))).trans ?_
  refine (bind_run (getInteger_row (d := "0") hE hp
    (hsub _ (by mem)))).trans ?_
  refine (bind_run (getInteger_row (d := "0") hE hp
    (hsub _ (by mem)))).trans ?_
  rfl

/-- The values the file gives to section ["Two phase"]. -/
def valsTwoPhase (c : Conv K) (A : List (Key × String)) : TwoPhaseValues K where
  tpDensity := dv c A (["Two phase"], "density") "-1."
  densityDiff := dv c A (["Two phase"], "density difference") "0."
  tpViscosity := dv c A (["Two phase"], "viscosity") "-1."
  viscosityDiff := dv c A (["Two phase"], "viscosity difference") "0."
  surfaceTension := dv c A (["Two phase"], "surface tension") "1."
  gravity := dv c A (["Two phase"], "gravity") "0"
  epsilon := dv c A (["Two phase"], "epsilon") "1"
  diffusionLength := dv c A (["Two phase"], "diffusion length") "0.1"
  contactAngle := dv c A (["Two phase"], "contact angle") "0"
  pressureConstraint := iv c A (["Two phase"], "pressure constraint") "1"
  subdivisions := iv c A (["Two phase"], "concentration subdivisions") "2"
  curvatureCorrection := iv c A (["Two phase"], "curvature correction") "0"
  interpolateGrad := iv c A (["Two phase"], "grad pressure compatible") "0"
  localizeTension := iv c A (["Two phase"], "localize surface tension") "1"
  approximateProjections := iv c A (["Two phase"], "approximate projections") "0"
  chNewton := iv c A (["Two phase"], "Cahn-Hilliard do Newton") "1"
  doIteration := iv c A (["Two phase"], "full nonlinear iteration") "0"
  nReinit := iv c A (["Two phase"], "number reinit steps") "2"
  nInitialReinit := iv c A (["Two phase"], "number initial reinit steps") "0"
  convStabilization := iv c A (["Two phase"], "convection stabilization") "0"

theorem readTwoPhase_eq (hE : EntOk c rows A h.entries) (hsub : ∀ r ∈ Spec.table, r ∈ rows)
    (hp : h.path = ["Two phase"]) : readTwoPhase c h = .ok (valsTwoPhase c A, h) := by
  unfold readTwoPhase
  refine (bind_run (getDouble_row (d := "-1.") hE hp
    (hsub _ (by mem)))).trans ?_
  refine (bind_run (getDouble_row (d := "0.") hE hp
    (hsub _ (by mem)))).trans ?_
  refine (bind_run (getDouble_row (d := "-1.") hE hp
    (hsub _ (by mem)))).trans ?_
  refine (bind_run (getDouble_row (d := "0.") hE hp
    (hsub _ (by mem)))).trans ?_
  refine (bind_run (getDouble_row (d := "1.") hE hp
    (hsub _ (by mem)))).trans ?_
  refine (bind_run (getDouble_row (d := "0") hE hp
    (hsub _ (by mem)))).trans ?_
  refine (bind_run (getDouble_row (d := "1") hE hp
    (hsub _ (by mem)))).trans ?_
  refine (bind_run (getDouble_row (d := "0.1") hE hp
    (hsub _ (by mem)))).trans ?_
  refine (bind_run (getDouble_row (d := "0") hE hp
    (hsub _ (by mem)))).trans ?_
  refine (bind_run (getInteger_row (d := "1") hE hp
    (hsub _ (by mem)))).trans ?_
  refine (bind_run (getInteger_row (d := "2") hE hp
    (hsub _ (by mem)))).trans ?_
  refine (bind_run (getInteger_row (d := "0") hE hp
    (hsub _ (by mem)))).trans ?_
  refine (bind_run (getInteger_row (d := "0") hE hp
    (hsub _ (by mem)))).trans ?_
  refine (bind_run (getInteger_row (d := "1") hE hp
    (hsub _ (by mem)))).trans ?_
  refine (bind_run (getInteger_row (d := "0") hE hp
    (hsub _ (by mem)))).trans ?_
  refine (bind_run (getInteger_row (d := "1") hE hp
    (hsub _ (by mem)))).trans ?_
  refine (bind_run (getInteger_row (d := "0") hE hp
    (hsub _ (by mem)))).trans ?_
  refine (bind_run (getInteger_row (d := "2") hE hp
    (hsub _ (by mem)))).trans ?_
  refine (bind_run (getInteger_row (d := "0") hE hp
    (hsub _ (by mem)))).trans ?_
  refine (bind_run (getInteger_row (d := "0") hE hp
    (hsub _ (by mem)))).trans ?_
  rfl

/-- The values the file gives to section ["Time stepping"]. -/
def valsTime (c : Conv K) (A : List (Key × String)) : TimeValues K where
  startTime := dv c A (["Time stepping"], "start time") "0."
  endTime := dv c A (["Time stepping"], "end time") "1."
  stepSize := dv c A (["Time stepping"], "step size") "1.e-2"
  cfl := dv c A (["Time stepping"], "CFL number") "0.8"
  cflCapillary := dv c A (["Time stepping"], "CFL number capillary") "10"
  tolerance := dv c A (["Time stepping"], "tolerance") "1.e-2"
  stepMax := dv c A (["Time stepping"], "max step size") "1."
  stepMin := dv c A (["Time stepping"], "min step size") ".1"
  scheme := Spec.value A (["Time stepping"], "scheme") "bdf_2"

theorem readTime_eq (hE : EntOk c rows A h.entries) (hsub : ∀ r ∈ Spec.table, r ∈ rows)
    (hp : h.path = ["Time stepping"]) : readTime c h = .ok (valsTime c A, h) := by
  unfold readTime
  refine (bind_run (getDouble_row (d := "0.") hE hp
    (hsub _ (by mem)))).trans ?_
  refine (bind_run (getDouble_row (d := "1.") hE hp
    (hsub _ (by mem)))).trans ?_
  refine (bind_run (getDouble_row (d := "1.e-2") hE hp
    (hsub _ (by mem)))).trans ?_
  refine (bind_run (getDouble_row (d := "0.8") hE hp
    (hsub _ (by mem)))).trans ?_
  refine (bind_run (getDouble_row (d := "10") hE hp
    (hsub _ (by mem)))).trans ?_
  refine (bind_run (getDouble_row (d := "1.e-2") hE hp
    (hsub _ (by mem)))).trans ?_
  refine (bind_run (getDouble_row (d := "1.") hE hp
    (hsub _ (by mem)))).trans ?_
  refine (bind_run (getDouble_row (d := ".1") hE hp
    (hsub _ (by mem)))).trans ?_
  refine (bind_run (getString_row (d := "bdf_2") (t := (.selection ["explicit_euler", "implicit_euler", "crank_nicolson", "bdf_2"])) hE hp
    (hsub _ (by mem)))).trans ?_
  rfl

/-- The entries according to the file. -/
def valsEntries (c : Conv K) (A : List (Key × String)) : Entries K where
  dimension := iv c A (["Navier-Stokes"], "dimension") "2"
  globalRefinements := iv c A (["Navier-Stokes"], "global refinements") "1"
  adaptiveRefinements := iv c A (["Navier-Stokes"], "adaptive refinements") "0"
  anisotropic := iv c A (["Navier-Stokes"], "anisotropic refinement") "0"
  simplex := iv c A (["Navier-Stokes"], "simplex mesh") "0"
  velocityDegree := iv c A (["Navier-Stokes"], "velocity degree") "2"
  augmented := iv c A (["Navier-Stokes"], "augmented Taylor-Hood elements") "0"
  viscosity := dv c A (["Navier-Stokes"], "viscosity") "1."
  density := dv c A (["Navier-Stokes"], "density") "1."
  damping := dv c A (["Navier-Stokes"], "damping") "0"
  physicalType := Spec.value A (["Navier-Stokes"], "physical type") "incompressible"
  formulation := Spec.value A (["Navier-Stokes"], "formulation convective term momentum balance") "skew-symmetric"
  nlMax := iv c A (["Navier-Stokes", "Solver"], "NL max iterations") "10"
  nlTol := dv c A (["Navier-Stokes", "Solver"], "NL tolerance") "1e-6"
  linearization := Spec.value A (["Navier-Stokes", "Solver"], "linearization scheme") "coupled implicit Newton"
  tauGradDiv := dv c A (["Navier-Stokes", "Solver"], "tau grad div") "0."
  linMax := iv c A (["Navier-Stokes", "Solver"], "lin max iterations") "500"
  linTol := dv c A (["Navier-Stokes", "Solver"], "lin tolerance") "1.e-3"
  linRel := iv c A (["Navier-Stokes", "Solver"], "lin relative tolerance") "1"
  precVelocity := Spec.value A (["Navier-Stokes", "Solver"], "lin velocity preconditioner") "amg linear"
  precPressure := Spec.value A (["Navier-Stokes", "Solver"], "lin pressure mass preconditioner") "ilu"
  itsBeforeInner := iv c A (["Navier-Stokes", "Solver"], "lin its before inner solvers") "50"
  verbosity := iv c A (["Output options"], "output verbosity") "2"
  outputFrequency := dv c A (["Output options"], "output frequency") "1"
  vtkFiles := iv c A (["Output options"], "output vtk files") "0"
  tpDensity := dv c A (["Two phase"], "density") "-1."
  densityDiff := dv c A (["Two phase"], "density difference") "0."
  tpViscosity := dv c A (["Two phase"], "viscosity") "-1."
  viscosityDiff := dv c A (["Two phase"], "viscosity difference") "0."
  surfaceTension := dv c A (["Two phase"], "surface tension") "1."
  gravity := dv c A (["Two phase"], "gravity") "0"
  epsilon := dv c A (["Two phase"], "epsilon") "1"
  diffusionLength := dv c A (["Two phase"], "diffusion length") "0.1"
  contactAngle := dv c A (["Two phase"], "contact angle") "0"
  pressureConstraint := iv c A (["Two phase"], "pressure constraint") "1"
  subdivisions := iv c A (["Two phase"], "concentration subdivisions") "2"
  curvatureCorrection := iv c A (["Two phase"], "curvature correction") "0"
  nReinit := iv c A (["Two phase"], "number reinit steps") "2"
  nInitialReinit := iv c A (["Two phase"], "number initial reinit steps") "0"
  startTime := dv c A (["Time stepping"], "start time") "0."
  endTime := dv c A (["Time stepping"], "end time") "1."
  stepSize := dv c A (["Time stepping"], "step size") "1.e-2"
  stepMax := dv c A (["Time stepping"], "max step size") "1."
  stepMin := dv c A (["Time stepping"], "min step size") ".1"
  scheme := Spec.value A (["Time stepping"], "scheme") "bdf_2"

/-- The remaining entries according to the file. -/
def valsMore (c : Conv K) (A : List (Key × String)) : More K where
  outputFilename := Spec.value A (["Output options"], "output filename") ""
  wallTimes := iv c A (["Output options"], "output wall times") "0"
  memory := iv c A (["Output options"], "output memory") "0"
  interpolateGrad := iv c A (["Two phase"], "grad pressure compatible") "0"
  localizeTension := iv c A (["Two phase"], "localize surface tension") "1"
  approximateProjections := iv c A (["Two phase"], "approximate projections") "0"
  chNewton := iv c A (["Two phase"], "Cahn-Hilliard do Newton") "1"
  doIteration := iv c A (["Two phase"], "full nonlinear iteration") "0"
  convStabilization := iv c A (["Two phase"], "convection stabilization") "0"
  cfl := dv c A (["Time stepping"], "CFL number") "0.8"
  cflCapillary := dv c A (["Time stepping"], "CFL number capillary") "10"
  tolerance := dv c A (["Time stepping"], "tolerance") "1.e-2"

theorem says_vals (hE : EntOk c rows A E) (hsub : ∀ r ∈ Spec.table, r ∈ rows) :
    Spec.Says c A (valsEntries c A) (valsMore c A) where
  dimension := iv_row hE (hsub _ (by mem))
  globalRefinements := iv_row hE (hsub _ (by mem))
  adaptiveRefinements := iv_row hE (hsub _ (by mem))
  anisotropic := iv_row hE (hsub _ (by mem))
  simplex := iv_row hE (hsub _ (by mem))
  velocityDegree := iv_row hE (hsub _ (by mem))
  augmented := iv_row hE (hsub _ (by mem))
  viscosity := dv_row hE (hsub _ (by mem))
  density := dv_row hE (hsub _ (by mem))
  damping := dv_row hE (hsub _ (by mem))
  physicalType := rfl
  formulation := rfl
  nlMax := iv_row hE (hsub _ (by mem))
  nlTol := dv_row hE (hsub _ (by mem))
  linearization := rfl
  tauGradDiv := dv_row hE (hsub _ (by mem))
  linMax := iv_row hE (hsub _ (by mem))
  linTol := dv_row hE (hsub _ (by mem))
  linRel := iv_row hE (hsub _ (by mem))
  precVelocity := rfl
  precPressure := rfl
  itsBeforeInner := iv_row hE (hsub _ (by mem))
  outputFilename := rfl
  verbosity := iv_row hE (hsub _ (by mem))
  outputFrequency := dv_row hE (hsub _ (by mem))
  vtkFiles := iv_row hE (hsub _ (by mem))
  wallTimes := iv_row hE (hsub _ (by mem))
  memory := iv_row hE (hsub _ (by mem))
  tpDensity := dv_row hE (hsub _ (by mem))
  densityDiff := dv_row hE (hsub _ (by mem))
  tpViscosity := dv_row hE (hsub _ (by mem))
  viscosityDiff := dv_row hE (hsub _ (by mem))
  surfaceTension := dv_row hE (hsub _ (by mem))
  gravity := dv_row hE (hsub _ (by mem))
  epsilon := dv_row hE (hsub _ (by mem))
  diffusionLength := dv_row hE (hsub _ (by mem))
  contactAngle := dv_row hE (hsub _ (by mem))
  pressureConstraint := iv_row hE (hsub _ (by mem))
  subdivisions := iv_row hE (hsub _ (by mem))
  curvatureCorrection := iv_row hE (hsub _ (by mem))
  interpolateGrad := iv_row hE (hsub _ (by mem))
  localizeTension := iv_row hE (hsub _ (by mem))
  approximateProjections := iv_row hE (hsub _ (by mem))
  chNewton := iv_row hE (hsub _ (by mem))
  doIteration := iv_row hE (hsub _ (by mem))
  nReinit := iv_row hE (hsub _ (by mem))
  nInitialReinit := iv_row hE (hsub _ (by mem))
  convStabilization := iv_row hE (hsub _ (by mem))
  startTime := dv_row hE (hsub _ (by mem))
  endTime := dv_row hE (hsub _ (by mem))
  stepSize := dv_row hE (hsub _ (by mem))
  cfl := dv_row hE (hsub _ (by mem))
  cflCapillary := dv_row hE (hsub _ (by mem))
  tolerance := dv_row hE (hsub _ (by mem))
  stepMax := dv_row hE (hsub _ (by mem))
  stepMin := dv_row hE (hsub _ (by mem))
  scheme := rfl

/-- The file determines the entries. -/
theorem says_unique {e : Entries K} {x : More K} (hs : Spec.Says c A e x) :
    e = valsEntries c A ∧ x = valsMore c A := by
  obtain ⟨h0, h1, h2, h3, h4, h5, h6, h7, h8, h9, h10, h11, h12, h13, h14, h15, h16, h17, h18, h19, h20, h21, h22, h23, h24, h25, h26, h27, h28, h29, h30, h31, h32, h33, h34, h35, h36, h37, h38, h39, h40, h41, h42, h43, h44, h45, h46, h47, h48, h49, h50, h51, h52, h53, h54, h55, h56⟩ := hs
  obtain ⟨e0, e1, e2, e3, e4, e5, e6, e7, e8, e9, e10, e11, e12, e13, e14, e15, e16, e17, e18, e19, e20, e21, e22, e23, e24, e25, e26, e27, e28, e29, e30, e31, e32, e33, e34, e35, e36, e37, e38, e39, e40, e41, e42, e43, e44⟩ := e
  obtain ⟨x0, x1, x2, x3, x4, x5, x6, x7, x8, x9, x10, x11⟩ := x
  dsimp only at *
  constructor
  · unfold valsEntries iv dv
    congr 1 <;> simp_all
  · unfold valsMore iv dv
    congr 1 <;> simp_all

theorem readEntries_ok (hE : EntOk c rows A h.entries) (hsub : ∀ r ∈ Spec.table, r ∈ rows)
    (hp : h.path = []) :
    ∃ h', readEntries c h = .ok ((valsEntries c A, valsMore c A), h') ∧ h'.path = [] ∧
      h'.entries = h.entries := by
  obtain ⟨E, S, p⟩ := h
  simp only at hp hE
  subst hp
  unfold readEntries
  refine ⟨?w, ?a, ?b, ?c⟩
  case a =>
    refine (bind_run (a := ()) rfl).trans ?_
    refine (bind_run (readNavierStokes_eq hE hsub rfl)).trans ?_
    refine (bind_run (a := ()) rfl).trans ?_
    refine (bind_run (readSolver_eq hE hsub rfl)).trans ?_
    refine (bind_run (a := ()) rfl).trans ?_
    refine (bind_run (a := ()) rfl).trans ?_
    refine (bind_run (a := ()) rfl).trans ?_
    refine (bind_run (readOutput_eq hE hsub rfl)).trans ?_
    refine (bind_run (a := ()) rfl).trans ?_
    refine (bind_run (a := ()) rfl).trans ?_
    refine (bind_run (readTwoPhase_eq hE hsub rfl)).trans ?_
    refine (bind_run (a := ()) rfl).trans ?_
    refine (bind_run (a := ()) rfl).trans ?_
    refine (bind_run (readTime_eq hE hsub rfl)).trans ?_
    refine (bind_run (a := ()) rfl).trans ?_
    rfl
  case b => rfl
  case c => rfl

theorem says_congr {A B : List (Key × String)} {e : Entries K} {x : More K}
    (hv : ∀ k d t, (⟨k, d, t⟩ : Spec.Row) ∈ Spec.table → Spec.value A k d = Spec.value B k d)
    (hs : Spec.Says c A e x) : Spec.Says c B e x where
  dimension := by rw [← hv _ _ .integer (by mem)]; exact hs.dimension
  globalRefinements := by rw [← hv _ _ .integer (by mem)]; exact hs.globalRefinements
  adaptiveRefinements := by rw [← hv _ _ .integer (by mem)]; exact hs.adaptiveRefinements
  anisotropic := by rw [← hv _ _ .integer (by mem)]; exact hs.anisotropic
  simplex := by rw [← hv _ _ .integer (by mem)]; exact hs.simplex
  velocityDegree := by rw [← hv _ _ .integer (by mem)]; exact hs.velocityDegree
  augmented := by rw [← hv _ _ .integer (by mem)]; exact hs.augmented
  viscosity := by rw [← hv _ _ .double (by mem)]; exact hs.viscosity
  density := by rw [← hv _ _ .double (by mem)]; exact hs.density
  damping := by rw [← hv _ _ .double (by mem)]; exact hs.damping
  physicalType := hs.physicalType.trans (hv _ _ (.selection ["incompressible", "incompressible stationary", "stokes"]) (by mem))
  formulation := hs.formulation.trans (hv _ _ (.selection ["skew-symmetric", "convective", "conservative"]) (by mem))
  nlMax := by rw [← hv _ _ .integer (by mem)]; exact hs.nlMax
  nlTol := by rw [← hv _ _ .double (by mem)]; exact hs.nlTol
  linearization := hs.linearization.trans (hv _ _ (.selection ["coupled implicit Newton", "coupled implicit Picard", "coupled velocity semi-implicit", "coupled velocity explicit", "projection"]) (by mem))
  tauGradDiv := by rw [← hv _ _ .double (by mem)]; exact hs.tauGradDiv
  linMax := by rw [← hv _ _ .integer (by mem)]; exact hs.linMax
  linTol := by rw [← hv _ _ .double (by mem)]; exact hs.linTol
  linRel := by rw [← hv _ _ .integer (by mem)]; exact hs.linRel
  precVelocity := hs.precVelocity.trans (hv _ _ (.selection ["ilu", "ilu scalar", "amg linear", "amg"]) (by mem))
  precPressure := hs.precPressure.trans (hv _ _ (.selection ["ilu", "diagonal"]) (by mem))
  itsBeforeInner := by rw [← hv _ _ .integer (by mem)]; exact hs.itsBeforeInner
  outputFilename := hs.outputFilename.trans (hv _ _ .anything (by mem))
  verbosity := by rw [← hv _ _ .integer (by mem)]; exact hs.verbosity
  outputFrequency := by rw [← hv _ _ .double (by mem)]; exact hs.outputFrequency
  vtkFiles := by rw [← hv _ _ .integer (by mem)]; exact hs.vtkFiles
  wallTimes := by rw [← hv _ _ .integer (by mem)]; exact hs.wallTimes
  memory := by rw [← hv _ _ .integer (by mem)]; exact hs.memory
  tpDensity := by rw [← hv _ _ .double (by mem)]; exact hs.tpDensity
  densityDiff := by rw [← hv _ _ .double (by mem)]; exact hs.densityDiff
  tpViscosity := by rw [← hv _ _ .double (by mem)]; exact hs.tpViscosity
  viscosityDiff := by rw [← hv _ _ .double (by mem)]; exact hs.viscosityDiff
  surfaceTension := by rw [← hv _ _ .double (by mem)]; exact hs.surfaceTension
  gravity := by rw [← hv _ _ .double (by mem)]; exact hs.gravity
  epsilon := by rw [← hv _ _ .double (by mem)]; exact hs.epsilon
  diffusionLength := by rw [← hv _ _ .double (by mem)]; exact hs.diffusionLength
  contactAngle := by rw [← hv _ _ .double (by mem)]; exact hs.contactAngle
  pressureConstraint := by rw [← hv _ _ .integer (by mem)]; exact hs.pressureConstraint
  subdivisions := by rw [← hv _ _ .integer (by mem)]; exact hs.subdivisions
  curvatureCorrection := by rw [← hv _ _ .integer (by mem)]; exact hs.curvatureCorrection
  interpolateGrad := by rw [← hv _ _ .integer (by mem)]; exact hs.interpolateGrad
  localizeTension := by rw [← hv _ _ .integer (by mem)]; exact hs.localizeTension
  approximateProjections := by rw [← hv _ _ .integer (by mem)]; exact hs.approximateProjections
  chNewton := by rw [← hv _ _ .integer (by mem)]; exact hs.chNewton
  doIteration := by rw [← hv _ _ .integer (by mem)]; exact hs.doIteration
  nReinit := by rw [← hv _ _ .integer (by mem)]; exact hs.nReinit
  nInitialReinit := by rw [← hv _ _ .integer (by mem)]; exact hs.nInitialReinit
  convStabilization := by rw [← hv _ _ .integer (by mem)]; exact hs.convStabilization
  startTime := by rw [← hv _ _ .double (by mem)]; exact hs.startTime
  endTime := by rw [← hv _ _ .double (by mem)]; exact hs.endTime
  stepSize := by rw [← hv _ _ .double (by mem)]; exact hs.stepSize
  cfl := by rw [← hv _ _ .double (by mem)]; exact hs.cfl
  cflCapillary := by rw [← hv _ _ .double (by mem)]; exact hs.cflCapillary
  tolerance := by rw [← hv _ _ .double (by mem)]; exact hs.tolerance
  stepMax := by rw [← hv _ _ .double (by mem)]; exact hs.stepMax
  stepMin := by rw [← hv _ _ .double (by mem)]; exact hs.stepMin
  scheme := hs.scheme.trans (hv _ _ (.selection ["explicit_euler", "implicit_euler", "crank_nicolson", "bdf_2"]) (by mem))

end Verif.Parameters.File
