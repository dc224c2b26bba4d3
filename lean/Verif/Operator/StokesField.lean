import Verif.Precond.Assembly

/-!
# C111: which parameters the parts of a solver read, and what the initial Stokes solve solves

`NavierStokes` stores a copy of its parameters (include/adaflo/navier_stokes.h:239). Its matrix and its preconditioner store
references (navier_stokes_matrix.h:255, navier_stokes_preconditioner.h:222) that are initialized with the name `parameters` in
the list of initializers (source/navier_stokes.cc:109, 118), where the argument of the constructor hides the member: they refer to
the object of the caller. The two-phase solvers refer to the copy (source/two_phase_base.cc:93, source/phase_field.cc:56).
`compute_initial_stokes_field` (navier_stokes.cc:1164-1212) changes the copy, and the arrays of variable coefficients.

Not modelled: the parameters of the time stepping, which are copied at construction.
-/

set_option linter.unusedSectionVars false

namespace Verif.Operator.StokesField

open Verif.Parameters Verif.Operator Verif.Precond
open Finset

variable {K : Type} [Field K] [DecidableEq K]

/-- The values of a `FlowParameters` object that matter here. -/
structure Values (K : Type) where
  phys : Physical
  vel : PrecVelocity
  lin : Linearization
  density : K
  densityDiff : K
  viscosity : K
  viscosityDiff : K
  damping : K
  tauGradDiv : K
  beta : K
  deriving DecidableEq

/-- The two objects. -/
inductive Obj | caller | copy
  deriving DecidableEq

/-- The classes that read flow parameters. -/
inductive Reader | flow | matrix | preconditioner | twoPhase | phaseField
  deriving DecidableEq

/-- The object a reader refers to: navier_stokes.cc:85, 109, 118, two_phase_base.cc:93, phase_field.cc:56. -/
def Reader.bound : Reader → Obj
  | .flow => .copy
  | .matrix => .caller
  | .preconditioner => .caller
  | .twoPhase => .copy
  | .phaseField => .copy

/-- Density, viscosity, damping at a quadrature point. -/
structure Coeffs (K : Type) where
  rho : K
  mu : K
  damping : K
  deriving DecidableEq

/-- The parameter objects, and the arrays of variable coefficients (absent for constant coefficients; point numbers stand for
the positions in the arrays). -/
structure State (K : Type) where
  mem : Obj → Values K
  arrays : Option (ℕ → Coeffs K)

def State.read (s : State K) (r : Reader) : Values K := s.mem r.bound

/-- Construction (navier_stokes.cc:85) and set-up of the matrix (navier_stokes_matrix.cc:97-106). -/
def construct (v : Values K) : State K :=
  ⟨fun _ => v, if v.densityDiff ≠ 0 ∨ v.viscosityDiff ≠ 0 then some (fun _ => ⟨v.density, v.viscosity, 0⟩) else none⟩

/-- Change of one object. -/
def State.set (s : State K) (o : Obj) (v : Values K) : State K := { s with mem := Function.update s.mem o v }

/-- The changes at the start of `compute_initial_stokes_field`, navier_stokes.cc:1169-1197. -/
def State.stokesBegin (s : State K) : State K :=
  let own := s.read .flow
  let s1 := s.set .copy { own with vel := .amgLinear, phys := .stokes, density := 0 }
  { s1 with arrays := s.arrays.map fun _ _ => ⟨0, own.viscosity, 0⟩ }

/-- The reset at the end, lines 1206-1209. -/
def State.stokesEnd (before s : State K) : State K :=
  let own := s.read .flow
  let old := before.read .flow
  s.set .copy { own with phys := old.phys, density := old.density, vel := old.vel }

/-- Calls. `step a`: a time step, where the two-phase solver fills the arrays (if there are any) with `a`. `stokes moving throws`:
`compute_initial_stokes_field`, with a solve if `moving`, left by an exception if `throws`. `edit v`: the caller assigns to its
object. -/
inductive Ev (K : Type)
  | step (a : ℕ → Coeffs K)
  | stokes (moving throws : Bool)
  | edit (v : Values K)

/-- Kind of a nonlinear solve. -/
inductive Kind | step | stokes
  deriving DecidableEq

/-- A call; the state during each nonlinear solve is recorded. -/
def Ev.exec (e : Ev K) (s : State K × List (Kind × State K)) : State K × List (Kind × State K) :=
  match e with
  | .step a =>
    let s1 := { s.1 with arrays := s.1.arrays.map fun _ => a }
    (s1, s.2 ++ [(.step, s1)])
  | .stokes moving throws =>
    if moving then
      let s1 := s.1.stokesBegin
      (if throws then s1 else State.stokesEnd s.1 s1, s.2 ++ [(.stokes, s1)])
    else s
  | .edit v => (s.1.set .caller v, s.2)

/-- A history of calls. -/
def run (v : Values K) (es : List (Ev K)) : State K × List (Kind × State K) :=
  es.foldl (fun s e => e.exec s) (construct v, [])

/-- What `local_operation` reads at a quadrature point (navier_stokes_matrix.cc:621-657, 711-713, 832-834, 841-843). -/
def State.point (s : State K) (dim : ℕ) (w wOld wOldOld tau1 : K) (ext : K → K → K) (q : ℕ) : PointParams K :=
  let v := s.read .matrix
  { dim, phys := v.phys, lin := v.lin, beta := v.beta, w, wOld, wOldOld, tau1, tauGradDiv := v.tauGradDiv
    rho := match s.arrays with
      | some a => (a q).rho
      | none => v.density
    mu := match s.arrays with
      | some a => (a q).mu
      | none => v.viscosity
    damping := match s.arrays with
      | some a => (a q).damping
      | none => v.damping
    ext }

/-! ### Specification -/

/-- All readers read these values. -/
def Spec.agree (s : State K) (v : Values K) : Prop := ∀ r, s.read r = v

/-- Integrands of the Stokes equations with viscosity `mu`: nothing is tested by the velocity itself. -/
def Spec.stokesPoint (dim : ℕ) (mu tau1 tauGradDiv : K) (x : PointIn K) : PointOut K :=
  ⟨fun _ => 0,
   fun i j => mu * tau1 * (x.gradU i j + x.gradU j i) +
     if i = j then tauGradDiv * ∑ d ∈ range dim, x.gradU d d - x.p else 0,
   -∑ d ∈ range dim, x.gradU d d⟩

/-- Two results agree in the entries that exist. -/
def Spec.same (dim : ℕ) (a b : PointOut K) : Prop :=
  (∀ d < dim, a.value d = b.value d) ∧ (∀ i < dim, ∀ j < dim, a.grad i j = b.grad i j) ∧ a.pres = b.pres

/-- The caller does not assign to its object, and no Stokes solve is left by an exception. -/
def Ev.quiet : Ev K → Bool
  | .step _ => true
  | .stokes moving throws => !(moving && throws)
  | .edit _ => false

/-! ### Proofs -/

/-- Parameters of a Stokes solve. -/
def Values.stokes (v : Values K) : Values K := { v with vel := .amgLinear, phys := .stokes, density := 0 }

theorem begin_mem (s : State K) (v : Values K) (h : s.mem = fun _ => v) :
    s.stokesBegin.mem = Function.update (fun _ => v) .copy v.stokes := by
  unfold State.stokesBegin State.set State.read
  dsimp only
  rw [h]
  rfl

theorem end_mem (s : State K) (v : Values K) (h : s.mem = fun _ => v) :
    (State.stokesEnd s s.stokesBegin).mem = fun _ => v := by
  unfold State.stokesEnd State.set State.read
  dsimp only
  rw [begin_mem s v h, h]
  funext o
  cases o <;> rfl

/-- What is known of a recorded solve. -/
def Good (v : Values K) (x : Kind × State K) : Prop :=
  match x.1 with
  | .step => x.2.mem = fun _ => v
  | .stokes => x.2.mem = Function.update (fun _ => v) .copy v.stokes

theorem run_inv (v : Values K) (es : List (Ev K)) (hq : ∀ e ∈ es, e.quiet = true) :
    (run v es).1.mem = (fun _ => v) ∧ ∀ x ∈ (run v es).2, Good v x := by
  unfold run
  have key : ∀ (es : List (Ev K)) (s : State K × List (Kind × State K)), (∀ e ∈ es, e.quiet = true) →
      s.1.mem = (fun _ => v) → (∀ x ∈ s.2, Good v x) →
      (es.foldl (fun s e => e.exec s) s).1.mem = (fun _ => v) ∧ ∀ x ∈ (es.foldl (fun s e => e.exec s) s).2, Good v x := by
    intro es
    induction es with
    | nil => intro s _ h1 h2; exact ⟨h1, h2⟩
    | cons e es ih =>
      intro s hq h1 h2
      rw [List.foldl_cons]
      have he := hq e List.mem_cons_self
      refine ih _ (fun x hx => hq x (List.mem_cons_of_mem _ hx)) ?_ ?_
      · cases e with
        | step a => exact h1
        | edit v => cases he
        | stokes moving throws =>
          cases moving
          · exact h1
          · cases throws
            · exact end_mem s.1 v h1
            · cases he
      · intro x hx
        cases e with
        | step a =>
          rcases List.mem_append.1 hx with hx | hx
          · exact h2 x hx
          · rw [List.mem_singleton.1 hx]; exact h1
        | edit v => cases he
        | stokes moving throws =>
          cases moving
          · exact h2 x hx
          · rcases List.mem_append.1 hx with hx | hx
            · exact h2 x hx
            · rw [List.mem_singleton.1 hx]; exact begin_mem s.1 v h1
  exact key es _ hq rfl (by simp)

/-- **C111 (partial: same parameters).** In every history of time steps and initial Stokes solves (that do not throw) in which the
caller leaves its object alone, all parts of the solver read the same values - those of construction - during every time step and
between the calls. Missing: the initial Stokes solve and changes by the caller, see the next two theorems. -/
theorem C111_same_parameters_partial (v : Values K) (es : List (Ev K)) (hq : ∀ e ∈ es, e.quiet = true) :
    Spec.agree (run v es).1 v ∧ ∀ s, (Kind.step, s) ∈ (run v es).2 → Spec.agree s v := by
  obtain ⟨h1, h2⟩ := run_inv v es hq
  refine ⟨fun r => ?_, fun s hs r => ?_⟩
  · unfold State.read; rw [h1]
  · have : s.mem = fun _ => v := h2 _ hs
    unfold State.read; rw [this]

/-- **C111 (counterexample).** During the initial Stokes solve matrix and preconditioner read the parameters of construction, while
the flow solver and the two-phase solvers read those of a Stokes problem: they never agree, unless the user selected these very
values. -/
theorem C111_stokes_solve_disagrees (v : Values K) (es : List (Ev K)) (hq : ∀ e ∈ es, e.quiet = true) (s : State K)
    (hs : (Kind.stokes, s) ∈ (run v es).2) :
    s.read .matrix = v ∧ s.read .preconditioner = v ∧ s.read .flow = v.stokes ∧ s.read .twoPhase = v.stokes ∧
      s.read .phaseField = v.stokes ∧
    ((∃ x, Spec.agree s x) ↔ v.phys = .stokes ∧ v.vel = .amgLinear ∧ v.density = 0) := by
  have h : s.mem = Function.update (fun _ => v) .copy v.stokes := (run_inv v es hq).2 _ hs
  have e1 : s.mem .caller = v := by rw [h]; rfl
  have e2 : s.mem .copy = v.stokes := by rw [h]; rfl
  refine ⟨e1, e1, e2, e2, e2, ?_⟩
  constructor
  · rintro ⟨x, hx⟩
    have h1 : v = v.stokes := by
      rw [← e1, ← e2] at *
      exact (hx .matrix).trans (hx .flow).symm
    rw [h1]
    exact ⟨rfl, rfl, rfl⟩
  · rintro ⟨h1, h2, h3⟩
    have : v.stokes = v := by
      obtain ⟨_, _, _, _, _, _, _, _, _, _⟩ := v
      simp only at h1 h2 h3
      subst h1 h2 h3
      rfl
    refine ⟨v, fun r => ?_⟩
    cases r
    · exact e2.trans this
    · exact e1
    · exact e1
    · exact e2.trans this
    · exact e2.trans this

/-- **C111 (counterexample).** An assignment by the caller to its object after construction changes what the matrix and the
preconditioner read, and nothing else. -/
theorem C111_caller_change_splits (v v' : Values K) (es : List (Ev K)) (hq : ∀ e ∈ es, e.quiet = true) :
    let s := (run v (es ++ [.edit v'])).1
    s.read .matrix = v' ∧ s.read .preconditioner = v' ∧ s.read .flow = v ∧ s.read .twoPhase = v ∧ s.read .phaseField = v := by
  intro s
  have h : s = (run v es).1.set .caller v' := by
    simp only [s, run, List.foldl_append, List.foldl_cons, List.foldl_nil]
    rfl
  have hm := (run_inv v es hq).1
  have e1 : s.mem .caller = v' := by rw [h]; rfl
  have e2 : s.mem .copy = v := by
    rw [h]
    show Function.update (run v es).1.mem .caller v' .copy = v
    rw [hm]; rfl
  exact ⟨e1, e1, e2, e2, e2⟩

/-- The arrays exist in a history exactly for variable coefficients. -/
theorem run_arrays (v : Values K) (es : List (Ev K)) :
    let var := decide (v.densityDiff ≠ 0 ∨ v.viscosityDiff ≠ 0)
    (run v es).1.arrays.isSome = var ∧
    ∀ x ∈ (run v es).2, x.2.arrays.isSome = var ∧ (x.1 = .stokes → ∀ a, x.2.arrays = some a → ∃ mu, a = fun _ => ⟨0, mu, 0⟩) := by
  intro var
  unfold run
  have key : ∀ (es : List (Ev K)) (s : State K × List (Kind × State K)), s.1.arrays.isSome = var →
      (∀ x ∈ s.2, x.2.arrays.isSome = var ∧ (x.1 = .stokes → ∀ a, x.2.arrays = some a → ∃ mu, a = fun _ => ⟨0, mu, 0⟩)) →
      (es.foldl (fun s e => e.exec s) s).1.arrays.isSome = var ∧
      ∀ x ∈ (es.foldl (fun s e => e.exec s) s).2, x.2.arrays.isSome = var ∧
        (x.1 = .stokes → ∀ a, x.2.arrays = some a → ∃ mu, a = fun _ => ⟨0, mu, 0⟩) := by
    intro es
    induction es with
    | nil => intro s h1 h2; exact ⟨h1, h2⟩
    | cons e es ih =>
      intro s h1 h2
      rw [List.foldl_cons]
      have hb : s.1.stokesBegin.arrays = s.1.arrays.map fun _ _ => ⟨0, (s.1.read .flow).viscosity, 0⟩ := rfl
      refine ih _ ?_ ?_
      · cases e with
        | step a => simp only [Ev.exec, Option.isSome_map]; exact h1
        | edit v => exact h1
        | stokes moving throws =>
          cases moving
          · exact h1
          · cases throws <;> simp only [Ev.exec, if_true, if_false, Bool.false_eq_true, State.stokesEnd, State.set, hb,
              Option.isSome_map] <;> exact h1
      · intro x hx
        cases e with
        | step a =>
          rcases List.mem_append.1 hx with hx | hx
          · exact h2 x hx
          · rw [List.mem_singleton.1 hx]
            refine ⟨by simp only [Option.isSome_map]; exact h1, fun h => by cases h⟩
        | edit v => exact h2 x hx
        | stokes moving throws =>
          cases moving
          · exact h2 x hx
          · rcases List.mem_append.1 hx with hx | hx
            · exact h2 x hx
            · rw [List.mem_singleton.1 hx]
              refine ⟨by rw [hb, Option.isSome_map]; exact h1, fun _ a ha => ?_⟩
              rw [hb] at ha
              cases hs : s.1.arrays with
              | none => rw [hs] at ha; cases ha
              | some b =>
                rw [hs] at ha
                exact ⟨_, (Option.some.inj ha).symm⟩
  refine key es _ ?_ (by simp)
  simp only [construct, var]
  split <;> rename_i h
  · simp only [Option.isSome_some]; exact (decide_eq_true h).symm
  · simp only [Option.isSome_none]; exact (decide_eq_false h).symm

/-- **C111 (variable coefficients: a Stokes solve).** In the initial Stokes solves of a solver with variable coefficients - whatever
calls came before, also with exceptions and changes by the caller -, residual and matrix are those of the Stokes equations with
one viscosity everywhere; the old velocities, the stored linearization and the time step do not enter. (For the projection scheme
the continuity equation is not part of the residual, so it is left out here.) -/
theorem C111_variable_coefficients_stokes (v : Values K) (hv : v.densityDiff ≠ 0 ∨ v.viscosityDiff ≠ 0) (es : List (Ev K))
    (s : State K) (hs : (Kind.stokes, s) ∈ (run v es).2) (hl : (s.read .matrix).lin ≠ .projection) :
    ∃ mu, ∀ (dim : ℕ), (dim = 1 ∨ dim = 2 ∨ dim = 3) →
      ∀ (w wOld wOldOld tau1 : K) (ext : K → K → K) (q : ℕ) (old oldOld x : PointIn K) (st : Stored K),
      Spec.same dim (residualPoint (s.point dim w wOld wOldOld tau1 ext q) old oldOld x)
        (Spec.stokesPoint dim mu tau1 (s.read .matrix).tauGradDiv x) ∧
      Spec.same dim (vmultPoint (s.point dim w wOld wOldOld tau1 ext q) st x)
        (Spec.stokesPoint dim mu tau1 (s.read .matrix).tauGradDiv x) := by
  obtain ⟨h1, h2⟩ := (run_arrays v es).2 _ hs
  rw [decide_eq_true hv] at h1
  obtain ⟨a, ha⟩ := Option.isSome_iff_exists.1 h1
  obtain ⟨mu, rfl⟩ := h2 rfl a ha
  refine ⟨mu, fun dim hdim w wOld wOldOld tau1 ext q old oldOld x st => ?_⟩
  have hr : (s.point dim w wOld wOldOld tau1 ext q).rho = 0 := by unfold State.point; rw [ha]
  have hm : (s.point dim w wOld wOldOld tau1 ext q).mu = mu := by unfold State.point; rw [ha]
  have hd : (s.point dim w wOld wOldOld tau1 ext q).damping = 0 := by unfold State.point; rw [ha]
  have hlin : (s.point dim w wOld wOldOld tau1 ext q).lin ≠ .projection := hl
  have hg : ∀ i < dim, ∀ j < dim, stress (s.point dim w wOld wOldOld tau1 ext q) true x.gradU x.p i j =
      (Spec.stokesPoint dim mu tau1 (s.read .matrix).tauGradDiv x).grad i j := by
    intro i hi j hj
    rw [stress_eq _ hdim true x.gradU x.p i j hi hj, hm]
    rfl
  refine ⟨⟨fun d _ => ?_, hg, ?_⟩, fun d _ => ?_, hg, ?_⟩
  · show residualValue _ old oldOld x d = 0
    unfold residualValue
    split
    · rfl
    · simp only [hr, hd]; ring
  · show (if _ then _ else _) = _
    rw [if_neg hlin]
    rfl
  · show productValue _ st x d = 0
    unfold productValue
    split
    · rfl
    · simp only [hr, hd]; ring
  · show (if _ then _ else _) = _
    rw [if_neg hlin]
    rfl

/-- **C111 (counterexample: constant coefficients).** In the initial Stokes solve of a solver with constant coefficients the matrix
sees the parameters of the flow problem: its parameters at every point are those of a time step. -/
theorem C111_constant_coefficients_time_step (v : Values K) (hv : v.densityDiff = 0 ∧ v.viscosityDiff = 0) (es : List (Ev K))
    (hq : ∀ e ∈ es, e.quiet = true) (s : State K) (hs : (Kind.stokes, s) ∈ (run v es).2) (dim : ℕ)
    (w wOld wOldOld tau1 : K) (ext : K → K → K) (q : ℕ) :
    s.point dim w wOld wOldOld tau1 ext q =
      ⟨dim, v.phys, v.lin, v.beta, w, wOld, wOldOld, tau1, v.tauGradDiv, v.density, v.viscosity, v.damping, ext⟩ := by
  obtain ⟨h1, -⟩ := (run_arrays v es).2 _ hs
  rw [decide_eq_false (by rintro (h | h); exacts [h hv.1, h hv.2])] at h1
  have ha : s.arrays = none := by
    cases h : s.arrays with
    | none => rfl
    | some a => rw [h] at h1; cases h1
  have hr := (C111_stokes_solve_disagrees v es hq s hs).1
  unfold State.point
  rw [hr, ha]

/-- **C111 (counterexample: constant coefficients).** Hence the residual of that solve contains inertia: for time-dependent flow with
density `ρ` a uniform velocity `u` (with zero old velocities), which solves the Stokes equations, has the residual
`(ρ w - damping) u`, where `w` is the weight of the new time level. -/
theorem C111_constant_coefficients_inertia (v : Values K) (hv : v.densityDiff = 0 ∧ v.viscosityDiff = 0)
    (hp : v.phys = .incompressible) (es : List (Ev K)) (hq : ∀ e ∈ es, e.quiet = true) (s : State K)
    (hs : (Kind.stokes, s) ∈ (run v es).2) (dim : ℕ) (w wOld wOldOld tau1 : K) (ext : K → K → K)
    (hext : ext 0 0 = 0) (q : ℕ) (u : ℕ → K) (d : ℕ) :
    (residualPoint (s.point dim w wOld wOldOld tau1 ext q) ⟨fun _ => 0, fun _ _ => 0, 0⟩ ⟨fun _ => 0, fun _ _ => 0, 0⟩
        ⟨u, fun _ _ => 0, 0⟩).value d = (v.density * w - v.damping) * u d ∧
    (Spec.stokesPoint dim v.viscosity tau1 v.tauGradDiv ⟨u, fun _ _ => 0, 0⟩).value d = 0 := by
  refine ⟨?_, rfl⟩
  rw [C111_constant_coefficients_time_step v hv es hq s hs]
  show residualValue _ _ _ _ d = _
  unfold residualValue
  simp only [hp, PointParams.weight, extrapolated, convImplicit, hext]
  cases v.lin <;> simp [needExtrapolated, trace] <;> ring

/-! ### The preconditioner in that solve -/

/-- **C111 (preconditioner, velocity).** In an initial Stokes solve with variable coefficients every entry of the velocity matrix
behind the preconditioner is the undefined `0/0`: source/navier_stokes_preconditioner.cc:1863, 2006. -/
theorem C111_velocity_preconditioner_undefined (v : Values K) (hv : v.densityDiff ≠ 0 ∨ v.viscosityDiff ≠ 0) (es : List (Ev K))
    (s : State K) (hs : (Kind.stokes, s) ∈ (run v es).2) (dim : ℕ) (w wOld wOldOld tau1 : K) (ext : K → K → K) (q : ℕ)
    (JxW : K) (lin : Option (Stored K)) (jac : ℕ → ℕ → K) (phii phij : K) (gi gj : ℕ → K) (e : ℕ) :
    let c := s.point dim w wOld wOldOld tau1 ext q
    entryClassical c JxW lin phii gi phij gj e = none ∧ entryScalar c JxW lin phii gi phij gj = none ∧
    entryLinear c JxW lin jac phii gi phij gj e = none := by
  intro c
  obtain ⟨h1, h2⟩ := (run_arrays v es).2 _ hs
  rw [decide_eq_true hv] at h1
  obtain ⟨a, ha⟩ := Option.isSome_iff_exists.1 h1
  obtain ⟨mu, rfl⟩ := h2 rfl a ha
  have hr : c.rho = 0 := by simp only [c, State.point]; rw [ha]
  simp [entryClassical, entryScalar, entryLinear, phiAndGrad, fdiv, hr]

/-- Lines 2213-2224 of source/navier_stokes_preconditioner.cc: the rows of `pressure_laplace_part_matrix` of the quadrature point
`q` are written only if `rho_weight > 0`; `sqrt` is the square root of line 2213 and `grad i` the gradient of the shape function. -/
def laplacePart [LinearOrder K] (sqrt : K → K) (rhoWeight JxW : K) (grad : ℕ → ℕ → K) (q : ℕ) (buf : ℕ → ℕ → ℕ → K) :
    ℕ → ℕ → ℕ → K :=
  if 0 < rhoWeight then Function.update buf q (fun d i => grad i d * sqrt (JxW / rhoWeight)) else buf

/-- Pressure matrices of a range of cells, lines 2180-2241: `rhoWeight` is `densities[q] * time_stepping.weight()` (lines 2196-2203,
coupled schemes, not stationary); the buffer is filled at all points of a cell and multiplied with itself (`Tmmult`); it is used
again for the next cell. One cell is given by the data of its points, which are numbered from 0. -/
def pressureCells [LinearOrder K] (sqrt : K → K) (dim : ℕ) :
    List (List (K × K × (ℕ → ℕ → K))) → (ℕ → ℕ → ℕ → K) → List (ℕ → ℕ → K)
  | [], _ => []
  | cell :: cells, buf =>
    let buf := cell.zipIdx.foldl (fun b x => laplacePart sqrt x.1.1 x.1.2.1 x.1.2.2 x.2 b) buf
    (fun i j => ∑ q ∈ range cell.length, ∑ d ∈ range dim, buf q d i * buf q d j) :: pressureCells sqrt dim cells buf

/-- **C111 (preconditioner, pressure).** With the zero densities of the initial Stokes solve nothing is written into the buffer for
the pressure Laplace matrix (zero in the beginning, lines 1560-1561), while the matrix is assembled from it since the density
of the caller's object is positive: all cell matrices vanish. -/
theorem C111_pressure_preconditioner_zero [LinearOrder K] (sqrt : K → K) (dim : ℕ)
    (cells : List (List (K × K × (ℕ → ℕ → K)))) (hz : ∀ c ∈ cells, ∀ x ∈ c, x.1 = 0) :
    ∀ m ∈ pressureCells sqrt dim cells (fun _ _ _ => 0), ∀ i j, m i j = 0 := by
  induction cells with
  | nil => intro m hm; simp [pressureCells] at hm
  | cons c cs ih =>
    have hb : ∀ (l : List ((K × K × (ℕ → ℕ → K)) × ℕ)) (b : ℕ → ℕ → ℕ → K), (∀ x ∈ l, x.1.1 = 0) →
        l.foldl (fun b x => laplacePart sqrt x.1.1 x.1.2.1 x.1.2.2 x.2 b) b = b := by
      intro l
      induction l with
      | nil => intro b _; rfl
      | cons x l ihl =>
        intro b hl
        rw [List.foldl_cons, ihl _ fun y hy => hl y (List.mem_cons_of_mem _ hy)]
        unfold laplacePart
        rw [hl x List.mem_cons_self, if_neg (lt_irrefl _)]
    have hc := hb c.zipIdx (fun _ _ _ => 0) fun x hx =>
      hz c List.mem_cons_self x.1 (by
        obtain ⟨y, k⟩ := x
        exact (List.mem_zipIdx hx).2.2 ▸ List.getElem_mem _)
    intro m hm i j
    unfold pressureCells at hm
    dsimp only at hm
    rw [hc] at hm
    rcases List.mem_cons.1 hm with rfl | hm
    · simp
    · exact ih (fun c hc => hz c (List.mem_cons_of_mem _ hc)) m hm i j

/-- The densities of that solve are zero: the premise of the last theorem is met. -/
theorem stokes_density (v : Values K) (hv : v.densityDiff ≠ 0 ∨ v.viscosityDiff ≠ 0) (es : List (Ev K))
    (s : State K) (hs : (Kind.stokes, s) ∈ (run v es).2) : ∃ a, s.arrays = some a ∧ ∀ q, (a q).rho = 0 := by
  obtain ⟨h1, h2⟩ := (run_arrays v es).2 _ hs
  rw [decide_eq_true hv] at h1
  obtain ⟨a, ha⟩ := Option.isSome_iff_exists.1 h1
  obtain ⟨mu, rfl⟩ := h2 rfl a ha
  exact ⟨_, ha, fun _ => rfl⟩

/-- Non-vacuity: a history with a Stokes solve and a time step, for both kinds of coefficients. -/
example :
    let v : Values ℚ := ⟨.incompressible, .ilu, .coupledImplicitNewton, 1, 0, 2, 0, 0, 0, 0⟩
    let es : List (Ev ℚ) := [.stokes true false, .step fun _ => ⟨1, 2, 0⟩]
    (∀ e ∈ es, e.quiet = true) ∧ (run v es).2.map (fun x => (x.1, x.2.read .matrix == v, x.2.read .flow == v)) =
      [(.stokes, true, false), (.step, true, true)] := by
  decide +kernel

example :
    let v : Values ℚ := ⟨.incompressible, .ilu, .coupledImplicitNewton, 1, -1/2, 2, 0, 0, 0, 0⟩
    let es : List (Ev ℚ) := [.step fun _ => ⟨1, 2, 0⟩, .stokes true true, .stokes true false, .step fun _ => ⟨3, 2, 0⟩]
    (run v es).2.map (fun x => (x.1, (x.2.arrays.map fun a => (a 5).rho))) =
      [(.step, some 1), (.stokes, some 0), (.stokes, some 0), (.step, some 3)] := by
  decide +kernel

/-- Non-vacuity: with positive densities the buffer is written. -/
example : (pressureCells (K := ℚ) id 1 [[(1, 1, fun _ _ => 1)], [(0, 1, fun _ _ => 2)]] (fun _ _ _ => 0)).map (fun m => m 0 0) =
    [1, 1] := by decide +kernel

end Verif.Operator.StokesField
