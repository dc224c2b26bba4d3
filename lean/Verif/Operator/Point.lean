import Verif.Parameters.Model
import Mathlib.Algebra.BigOperators.Ring.Finset
import Mathlib.Algebra.BigOperators.Field
import Mathlib.Algebra.Field.Rat
import Mathlib.Tactic.Ring
import Mathlib.Tactic.LinearCombination
import Mathlib.Tactic.IntervalCases
import Mathlib.Tactic.Linarith

/-!
# The quadrature point operation of `NavierStokesMatrix::local_operation`
(source/navier_stokes_matrix.cc:601-905)

Vectors are functions `ℕ → K` and matrices `ℕ → ℕ → K` of which the entries below `dim` matter.
-/

namespace Verif.Operator

open Verif.Parameters
open Finset

variable {K : Type*} [Field K]

/-- Parameters read by `local_operation` (lines 621-657): `w`, `wOld`, `wOldOld`, `tau1` are the
values returned by the time stepping object, `rho`, `mu`, `damping` the coefficients at this
quadrature point (variable or constant, lines 707-709, 814-817, 824-826), `ext` is
`time_stepping->extrapolate`. -/
structure PointParams (K : Type*) where
  dim : ℕ
  phys : Physical
  lin : Linearization
  beta : K
  w : K
  wOld : K
  wOldOld : K
  tau1 : K
  tauGradDiv : K
  rho : K
  mu : K
  damping : K
  ext : K → K → K

/-- Values of the finite element functions at the quadrature point. -/
structure PointIn (K : Type*) where
  u : ℕ → K
  gradU : ℕ → ℕ → K
  p : K

/-- What is submitted: `value` tested by the velocity test function, `grad` by its gradient, `pres`
by the pressure test function. -/
structure PointOut (K : Type*) where
  value : ℕ → K
  grad : ℕ → ℕ → K
  pres : K

/-- `velocity_stored`: linearized velocity and gradient (or divergence in entry `[0][0]`). -/
structure Stored (K : Type*) where
  first : ℕ → K
  second : ℕ → ℕ → K

/-- `trace` of a `Tensor<2,dim>`. -/
def trace (n : ℕ) (g : ℕ → ℕ → K) : K := ∑ d ∈ range n, g d d

/-- `need_extrapolated_velocity`, lines 646-649. -/
def needExtrapolated (l : Linearization) : Bool :=
  l == .projection || l == .coupledVelocitySemiImplicit || l == .coupledVelocityExplicit

/-- `time_step_weight`, lines 621-624. -/
def PointParams.weight (c : PointParams K) : K := if c.phys = .incompressible then c.w else 0

/-- One symmetrization step of lines 849-862: `sym = tmu*(g[i][j]+g[j][i])` written to both entries. -/
def symStep (tmu : K) (g : ℕ → ℕ → K) (ij : ℕ × ℕ) : ℕ → ℕ → K :=
  let sym := tmu * (g ij.1 ij.2 + g ij.2 ij.1)
  let g := Function.update g ij.1 (Function.update (g ij.1) ij.2 sym)
  Function.update g ij.2 (Function.update (g ij.2) ij.1 sym)

/-- The index pairs visited by the `switch (dim)` with fall-through, lines 844-868. -/
def symPairs : ℕ → List (ℕ × ℕ)
  | 3 => [(0, 2), (1, 2), (0, 1)]
  | 2 => [(0, 1)]
  | _ => []

/-- The stress part, lines 822-881: symmetrization, then the loop over the diagonal. `withPressure`
is `LocalOps == vmult || LocalOps == residual`. -/
def stress (c : PointParams K) (withPressure : Bool) (g : ℕ → ℕ → K) (pres : K) : ℕ → ℕ → K :=
  let divergence := trace c.dim g
  let tmu := c.mu * c.tau1
  let g := (symPairs c.dim).foldl (symStep tmu) g
  (List.range c.dim).foldl
    (fun g d => Function.update g d (Function.update (g d) d
      (2 * tmu * g d d + c.tauGradDiv * divergence - if withPressure then pres else 0))) g

/-- Convective term of the residual without extrapolation, lines 783-790. -/
def convImplicit (c : PointParams K) (x : PointIn K) (d : ℕ) : K :=
  c.tau1 * (c.beta * trace c.dim x.gradU * x.u d + ∑ e ∈ range c.dim, x.u e * x.gradU d e)

/-- Extrapolated velocity and gradient, lines 740-756. -/
def extrapolated (c : PointParams K) (old oldOld : PointIn K) : PointIn K :=
  ⟨fun d => c.ext (old.u d) (oldOld.u d), fun d e => c.ext (old.gradU d e) (oldOld.gradU d e), 0⟩

/-- Lines 705-833 for `LocalOps == residual`: the value submitted to the velocity test function.  In
the Stokes case nothing is submitted, modelled by zero. -/
def residualValue (c : PointParams K) (old oldOld x : PointIn K) (d : ℕ) : K :=
  if c.phys = .stokes then 0 else
    let conv := x.u d * c.weight
    let conv := if c.phys ≠ .incompressibleStationary
      then conv + (old.u d * c.wOld + oldOld.u d * c.wOldOld) else conv
    let e := extrapolated c old oldOld
    let conv :=
      if needExtrapolated c.lin then
        if c.lin = .coupledVelocityExplicit then
          conv + c.tau1 * (c.beta * trace c.dim e.gradU * e.u d
            + ∑ k ∈ range c.dim, e.u k * e.gradU d k)
        else
          conv + c.tau1 * (c.beta * trace c.dim e.gradU * x.u d
            + ∑ k ∈ range c.dim, e.u k * x.gradU d k)
      else conv + convImplicit c x d
    conv * c.rho - c.damping * x.u d

/-- The linearization point stored by the residual, lines 757-803 (`s` is the previous content). -/
def residualStore (c : PointParams K) (old oldOld x : PointIn K) (s : Stored K) : Stored K :=
  if c.phys = .stokes then s else
    let e := extrapolated c old oldOld
    let put00 (v : K) : ℕ → ℕ → K := Function.update s.second 0 (Function.update (s.second 0) 0 v)
    if needExtrapolated c.lin then
      if c.lin = .coupledVelocityExplicit then s
      else ⟨e.u, put00 (trace c.dim e.gradU)⟩
    else if c.lin = .coupledImplicitNewton then ⟨x.u, x.gradU⟩
    else ⟨x.u, put00 (trace c.dim x.gradU)⟩

/-- Lines 705-833 for the matrix-vector products. -/
def productValue (c : PointParams K) (s : Stored K) (x : PointIn K) (d : ℕ) : K :=
  if c.phys = .stokes then 0 else
    let conv := x.u d * c.weight
    let conv :=
      if c.lin = .coupledImplicitNewton then
        let factor1 := c.beta * trace c.dim x.gradU
        let factor2 := c.beta * trace c.dim s.second
        conv + c.tau1 * (factor1 * s.first d + factor2 * x.u d +
          ∑ e ∈ range c.dim, (s.first e * x.gradU d e + x.u e * s.second d e))
      else if c.lin ≠ .coupledVelocityExplicit then
        conv + c.tau1 * (c.beta * s.second 0 0 * x.u d
          + ∑ e ∈ range c.dim, s.first e * x.gradU d e)
      else conv
    conv * c.rho - c.damping * x.u d

/-- `local_operation` at one quadrature point for `LocalOps == residual`.  For the projection scheme
the pressure part is not integrated (lines 890-895), modelled by a zero contribution. -/
def residualPoint (c : PointParams K) (old oldOld x : PointIn K) : PointOut K :=
  ⟨residualValue c old oldOld x, stress c true x.gradU x.p,
    if c.lin = .projection then 0 else -trace c.dim x.gradU⟩

/-- `local_operation` at one quadrature point for `LocalOps == vmult`. -/
def vmultPoint (c : PointParams K) (s : Stored K) (x : PointIn K) : PointOut K :=
  ⟨productValue c s x, stress c true x.gradU x.p,
    if c.lin = .projection then 0 else -trace c.dim x.gradU⟩

/-- `local_operation` at one quadrature point for `LocalOps == vmult_velocity`: no pressure. -/
def velocityPoint (c : PointParams K) (s : Stored K) (x : PointIn K) : PointOut K :=
  ⟨productValue c s x, stress c false x.gradU x.p, 0⟩

/-- Componentwise sum of two fields at the quadrature point. -/
def PointIn.add (x y : PointIn K) : PointIn K :=
  ⟨fun d => x.u d + y.u d, fun d e => x.gradU d e + y.gradU d e, x.p + y.p⟩

/-! ## Closed form of the stress -/

theorem symStep_apply (tmu : K) (g : ℕ → ℕ → K) (i j a b : ℕ) (hij : i ≠ j) :
    symStep tmu g (i, j) a b =
      if (a = i ∧ b = j) ∨ (a = j ∧ b = i) then tmu * (g i j + g j i) else g a b := by
  unfold symStep
  by_cases h1 : a = j
  · subst h1
    have : ¬ a = i := fun h => hij h.symm
    by_cases h2 : b = i
    · subst h2; simp
    · simp [h2, this]
  · by_cases h3 : a = i
    · subst h3
      by_cases h4 : b = j
      · subst h4; simp [h1]
      · simp [h1, h4]
    · simp [h1, h3]

omit [Field K] in
theorem diag_fold (f : ℕ → K → K) (n : ℕ) (g : ℕ → ℕ → K) (a b : ℕ) :
    (List.range n).foldl (fun g d => Function.update g d (Function.update (g d) d (f d (g d d)))) g a b
      = if a = b ∧ a < n then f a (g a a) else g a b := by
  induction n generalizing a b with
  | zero => simp
  | succ n ih =>
    rw [List.range_succ, List.foldl_append, List.foldl_cons, List.foldl_nil]
    by_cases h : a = n
    · subst h
      rw [Function.update_self]
      by_cases h2 : b = a
      · subst h2
        rw [Function.update_self, ih]; simp
      · rw [Function.update_of_ne h2, ih]
        have h3 : ¬ a = b := fun h => h2 h.symm
        simp [h3]
    · rw [Function.update_of_ne h, ih]
      by_cases h2 : a = b
      · have : a < n ↔ a < n + 1 := by omega
        simp [this]
      · simp [h2]

/-- The stress submitted is `mu tau1 (∇u + ∇uᵀ) + (tau_grad_div div u - p) I` for dimensions 1, 2, 3. -/
theorem stress_eq (c : PointParams K) (hdim : c.dim = 1 ∨ c.dim = 2 ∨ c.dim = 3) (wp : Bool)
    (g : ℕ → ℕ → K) (p : K) (i j : ℕ) (hi : i < c.dim) (hj : j < c.dim) :
    stress c wp g p i j = c.mu * c.tau1 * (g i j + g j i)
      + if i = j then c.tauGradDiv * trace c.dim g - (if wp then p else 0) else 0 := by
  unfold stress
  have := diag_fold (fun _ x => 2 * (c.mu * c.tau1) * x + c.tauGradDiv * trace c.dim g
    - if wp then p else 0) c.dim ((symPairs c.dim).foldl (symStep (c.mu * c.tau1)) g) i j
  rw [this]
  have key : ∀ a b, a < c.dim → b < c.dim →
      (symPairs c.dim).foldl (symStep (c.mu * c.tau1)) g a b
        = if a = b then g a b else c.mu * c.tau1 * (g a b + g b a) := by
    intro a b ha hb
    rcases hdim with h | h | h <;> rw [h] at ha hb ⊢
    · simp [symPairs, show a = b by omega]
    · simp only [symPairs, List.foldl_cons, List.foldl_nil, symStep_apply _ _ 0 1 _ _ (by decide)]
      interval_cases a <;> interval_cases b <;> simp [add_comm]
    · simp only [symPairs, List.foldl_cons, List.foldl_nil, symStep_apply _ _ 0 1 _ _ (by decide),
        symStep_apply _ _ 0 2 _ _ (by decide), symStep_apply _ _ 1 2 _ _ (by decide)]
      interval_cases a <;> interval_cases b <;> simp [add_comm]
  by_cases h : i = j
  · subst h
    rw [key i i hi hi]
    simp only [hi, and_self, if_true]
    ring
  · simp only [h, false_and, if_false, key i j hi hj, add_zero]

theorem trace_add (n : ℕ) (g h : ℕ → ℕ → K) :
    trace n (fun d e => g d e + h d e) = trace n g + trace n h := by
  simp [trace, sum_add_distrib]

theorem trace_smul (n : ℕ) (a : K) (h : ℕ → ℕ → K) :
    trace n (fun d e => a * h d e) = a * trace n h := by
  simp [trace, mul_sum]

end Verif.Operator
