import Verif.Operator.Jacobian
import Verif.Parameters.Theorems
import Mathlib.Algebra.Order.BigOperators.Ring.Finset
import Mathlib.Analysis.SpecialFunctions.Pow.Real

/-!
# C61, C62: entries of the matrices behind the velocity and pressure preconditioners

`NavierStokesPreconditioner::local_assemble_preconditioner`, source/navier_stokes_preconditioner.cc:1720-2367.
The contribution of one quadrature point is modelled; assembly adds them up.  `none` is "not a number": a division by zero
there is `0/0` or `x/0`, whose product with the factor `weight_rho = 0` that follows is not a number either.
-/

set_option linter.unusedSectionVars false

namespace Verif.Precond

open Verif.Operator Verif.Parameters
open Finset

variable {K : Type*} [Field K]

/-- C++ division where a zero divisor is kept as a distinct outcome. -/
def fdiv [DecidableEq K] (a b : K) : Option K := if b = 0 then none else some (a / b)

section Velocity

variable [DecidableEq K]

/-- `phi_and_grad` in lines 1853-1874 and 1998-2018, up to the term with the stored gradient: `w` is
`time_stepping.weight()`, `tau` is `tau1`, `lin` the linearized velocity (absent if `linearized == 0`). -/
def phiAndGrad (c : PointParams K) (JxW : K) (lin : Option (Stored K)) (phi : K) (g : ℕ → K) : Option K :=
  (fdiv (JxW * c.damping) (JxW * c.rho)).map fun q =>
    (if c.phys = .incompressibleStationary then 0 else phi * c.w) - q * phi +
      match lin with
      | none => 0
      | some s => ∑ d ∈ range c.dim, c.tau1 * g d * s.first d

/-- The additional term of lines 1873-1877 / 2015-2017 for component `e`. -/
def storedTerm (c : PointParams K) (lin : Option (Stored K)) (phi : K) (e : ℕ) : K :=
  match lin with
  | none => 0
  | some s => s.second e e * phi * c.tau1

/-- Contribution to the entry of test function `i` and ansatz function `j` (values `φ`, gradients `g`) of component `e`,
lines 1829-1889 and the product `AᵀB` in line 1899, for all velocity preconditioners but `u_amg_linear`, `u_ilu_scalar`. -/
def entryClassical (c : PointParams K) (JxW : K) (lin : Option (Stored K)) (phii : K) (gi : ℕ → K) (phij : K) (gj : ℕ → K)
    (e : ℕ) : Option K :=
  (phiAndGrad c JxW lin phij gj).map fun v =>
    ∑ d ∈ range c.dim, (gi d * (JxW * (c.tauGradDiv + c.mu * c.tau1))) * (gj d + if d = e then gj d else 0) +
      (phii * (JxW * c.rho)) * (v + storedTerm c lin phij e)

/-- The same for `u_ilu_scalar` (one matrix for all components): neither the symmetric part of the gradient nor the stored
gradient enter, lines 1839-1841, 1883-1885. -/
def entryScalar (c : PointParams K) (JxW : K) (lin : Option (Stored K)) (phii : K) (gi : ℕ → K) (phij : K) (gj : ℕ → K) :
    Option K :=
  (phiAndGrad c JxW lin phij gj).map fun v =>
    ∑ d ∈ range c.dim, (gi d * (JxW * (c.tauGradDiv + c.mu * c.tau1))) * gj d + (phii * (JxW * c.rho)) * v

/-- Real space gradient of a unit cell gradient, lines 1989-1995: `jac` is the transposed inverse Jacobian of the
sub-element. -/
def realGrad (n : ℕ) (jac : ℕ → ℕ → K) (ghat : ℕ → K) (e : ℕ) : K := ∑ f ∈ range n, jac e f * ghat f

/-- `data_for_grad[j][q][e]`, lines 2021-2033. -/
def dataForGrad (c : PointParams K) (JxW : K) (jac : ℕ → ℕ → K) (gj : ℕ → K) (comp : ℕ) (e : ℕ) : K :=
  ∑ f ∈ range c.dim, jac f e * (gj f * (JxW * c.mu * c.tau1) +
    if f = comp then gj f * (JxW * c.mu * c.tau1) + gj f * (JxW * c.tauGradDiv) else 0)

/-- Contribution of one point of a linear sub-element for `u_amg_linear`, lines 1984-2051.  `c` holds the coefficients of
the first quadrature point of the cell, as in lines 1945-1958. -/
def entryLinear (c : PointParams K) (JxW : K) (lin : Option (Stored K)) (jac : ℕ → ℕ → K) (phii : K) (ghati : ℕ → K)
    (phij : K) (ghatj : ℕ → K) (comp : ℕ) : Option K :=
  (phiAndGrad c JxW lin phij (realGrad c.dim jac ghatj)).map fun v =>
    phii * (JxW * c.rho * (v + storedTerm c lin phij comp)) +
      ∑ e ∈ range c.dim, ghati e * dataForGrad c JxW jac (realGrad c.dim jac ghatj) comp e

/-- Specification: a vector-valued shape function with the given value and gradient in component `e`. -/
def Spec.component (phi : K) (g : ℕ → K) (e : ℕ) : PointIn K :=
  ⟨fun d => if d = e then phi else 0, fun d k => if d = e then g k else 0, 0⟩

/-- Specification: the entry of the velocity block of the linearized operator (`velocity_vmult`) for shape functions `i`
and `j` in the same component `e`. -/
def Spec.operatorEntry (c : PointParams K) (JxW : K) (s : Stored K) (phii : K) (gi : ℕ → K) (phij : K) (gj : ℕ → K)
    (e : ℕ) : K :=
  JxW * tested c.dim (velocityPoint c s (Spec.component phij gj e)) (Spec.component phii gi e)

theorem trace_component (n : ℕ) (phi : K) (g : ℕ → K) (e : ℕ) (he : e < n) :
    trace n (Spec.component phi g e).gradU = g e := by
  unfold trace Spec.component
  rw [sum_eq_single e]
  · simp
  · intro d _ hd; simp [hd]
  · intro h; exact absurd (mem_range.2 he) h

/-- The velocity block in terms of the shape functions. -/
theorem operatorEntry_eq (c : PointParams K) (hdim : c.dim = 1 ∨ c.dim = 2 ∨ c.dim = 3) (hphys : c.phys ≠ .stokes)
    (hlin : c.lin = .coupledImplicitNewton) (JxW : K) (s : Stored K) (phii : K) (gi : ℕ → K) (phij : K) (gj : ℕ → K)
    (e : ℕ) (he : e < c.dim) :
    Spec.operatorEntry c JxW s phii gi phij gj e = JxW * (
      ((phij * c.weight + c.tau1 * (c.beta * gj e * s.first e + c.beta * trace c.dim s.second * phij +
        (∑ d ∈ range c.dim, s.first d * gj d + phij * s.second e e))) * c.rho - c.damping * phij) * phii +
      (c.mu * c.tau1 * (∑ d ∈ range c.dim, gi d * gj d + gi e * gj e) + c.tauGradDiv * (gi e * gj e))) := by
  unfold Spec.operatorEntry tested
  have h1 : ∑ i ∈ range c.dim, (velocityPoint c s (Spec.component phij gj e)).value i * (Spec.component phii gi e).u i =
      productValue c s (Spec.component phij gj e) e * phii := by
    rw [sum_eq_single e]
    · simp [velocityPoint, Spec.component]
    · intro d _ hd; simp [Spec.component, hd]
    · intro h; exact absurd (mem_range.2 he) h
  have h2 : ∑ i ∈ range c.dim, ∑ j ∈ range c.dim,
      (velocityPoint c s (Spec.component phij gj e)).grad i j * (Spec.component phii gi e).gradU i j =
      ∑ j ∈ range c.dim, (velocityPoint c s (Spec.component phij gj e)).grad e j * gi j := by
    rw [sum_eq_single e]
    · simp [Spec.component]
    · intro d _ hd; simp [Spec.component, hd]
    · intro h; exact absurd (mem_range.2 he) h
  have h3 : ∑ j ∈ range c.dim, (velocityPoint c s (Spec.component phij gj e)).grad e j * gi j =
      c.mu * c.tau1 * (∑ d ∈ range c.dim, gi d * gj d + gi e * gj e) + c.tauGradDiv * (gi e * gj e) := by
    have : ∀ j ∈ range c.dim, (velocityPoint c s (Spec.component phij gj e)).grad e j * gi j =
        c.mu * c.tau1 * (gi j * gj j) + if e = j then c.mu * c.tau1 * (gi e * gj e) + c.tauGradDiv * (gi e * gj e) else 0 := by
      intro j hj
      show stress c false _ _ e j * gi j = _
      rw [stress_eq c hdim _ _ _ _ _ he (mem_range.1 hj), trace_component _ _ _ _ he]
      by_cases h : e = j
      · subst h; simp [Spec.component]; ring
      · have h' : ¬ j = e := fun hh => h hh.symm
        simp [Spec.component, h, h']; ring
    rw [sum_congr rfl this, sum_add_distrib, ← mul_sum, sum_ite_eq, if_pos (mem_range.2 he)]
    ring
  have h4 : productValue c s (Spec.component phij gj e) e =
      (phij * c.weight + c.tau1 * (c.beta * gj e * s.first e + c.beta * trace c.dim s.second * phij +
        (∑ d ∈ range c.dim, s.first d * gj d + phij * s.second e e))) * c.rho - c.damping * phij := by
    unfold productValue
    rw [if_neg hphys]
    dsimp only
    rw [if_pos hlin, trace_component _ _ _ _ he]
    have : ∑ d ∈ range c.dim, (s.first d * (Spec.component phij gj e).gradU e d +
        (Spec.component phij gj e).u d * s.second e d) = ∑ d ∈ range c.dim, s.first d * gj d + phij * s.second e e := by
      rw [sum_add_distrib]
      congr 1
      · exact sum_congr rfl fun d _ => by simp [Spec.component]
      · rw [sum_eq_single e]
        · simp [Spec.component]
        · intro d _ hd; simp [Spec.component, hd]
        · intro h; exact absurd (mem_range.2 he) h
    rw [this]
    simp [Spec.component]
  rw [h1, h2, h3, h4]
  simp [velocityPoint]

theorem phiAndGrad_some (c : PointParams K) (JxW : K) (hJ : JxW ≠ 0) (hrho : c.rho ≠ 0) (hphys : c.phys ≠ .stokes)
    (s : Stored K) (phi : K) (g : ℕ → K) :
    phiAndGrad c JxW (some s) phi g =
      some (phi * c.weight - c.damping / c.rho * phi + ∑ d ∈ range c.dim, c.tau1 * g d * s.first d) := by
  unfold phiAndGrad fdiv
  rw [if_neg (mul_ne_zero hJ hrho), Option.map_some, mul_div_mul_left _ _ hJ]
  congr 3
  unfold PointParams.weight
  cases h : c.phys <;> simp_all

/-- **C61 (positive density).** The entries of the assembled velocity matrix are numbers; they are those of the velocity
block of the linearized operator of Newton's method, restricted to one component, except that the skew-symmetric part of the
convection (`β`) is left out and - for the variant with the original elements - grad-div stabilization acts on all
derivatives. In particular both variants agree with the operator for the convective form without grad-div. -/
theorem C61_velocity_entries_partial (c : PointParams K) (hdim : c.dim = 1 ∨ c.dim = 2 ∨ c.dim = 3) (hphys : c.phys ≠ .stokes)
    (hlin : c.lin = .coupledImplicitNewton) (JxW : K) (hJ : JxW ≠ 0) (hrho : c.rho ≠ 0) (s : Stored K) (phii phij : K)
    (gi gj : ℕ → K) (jac : ℕ → ℕ → K) (ghati ghatj : ℕ → K) (e : ℕ) (he : e < c.dim) :
    entryClassical c JxW (some s) phii gi phij gj e = some (Spec.operatorEntry c JxW s phii gi phij gj e
      - JxW * c.rho * c.tau1 * c.beta * (gj e * s.first e + trace c.dim s.second * phij) * phii
      + JxW * c.tauGradDiv * ∑ d ∈ range c.dim, gi d * gj d) ∧
    entryLinear c JxW (some s) jac phii ghati phij ghatj e =
      some (Spec.operatorEntry c JxW s phii (realGrad c.dim jac ghati) phij (realGrad c.dim jac ghatj) e
        - JxW * c.rho * c.tau1 * c.beta * (realGrad c.dim jac ghatj e * s.first e + trace c.dim s.second * phij) * phii) := by
  have hconv : ∀ g : ℕ → K, ∑ d ∈ range c.dim, c.tau1 * g d * s.first d = c.tau1 * ∑ d ∈ range c.dim, s.first d * g d := by
    intro g; rw [mul_sum]; exact sum_congr rfl fun d _ => by ring
  have hdc : ∀ x : K, c.rho * (c.damping / c.rho * x) = c.damping * x := by intro x; field_simp
  constructor
  · unfold entryClassical
    rw [phiAndGrad_some c JxW hJ hrho hphys, Option.map_some, operatorEntry_eq c hdim hphys hlin _ _ _ _ _ _ _ he, hconv]
    congr 1
    have h1 : ∑ d ∈ range c.dim, (gi d * (JxW * (c.tauGradDiv + c.mu * c.tau1))) * (gj d + if d = e then gj d else 0) =
        JxW * (c.tauGradDiv + c.mu * c.tau1) * (∑ d ∈ range c.dim, gi d * gj d + gi e * gj e) := by
      have : ∀ d ∈ range c.dim, (gi d * (JxW * (c.tauGradDiv + c.mu * c.tau1))) * (gj d + if d = e then gj d else 0) =
          JxW * (c.tauGradDiv + c.mu * c.tau1) * (gi d * gj d) +
            if d = e then JxW * (c.tauGradDiv + c.mu * c.tau1) * (gi d * gj d) else 0 := by
        intro d _; split_ifs <;> ring
      rw [sum_congr rfl this, sum_add_distrib, ← mul_sum, sum_ite_eq', if_pos (mem_range.2 he)]
      ring
    rw [h1]
    simp only [storedTerm]
    have := hdc phij
    linear_combination (-phii * JxW) * this
  · unfold entryLinear
    rw [phiAndGrad_some c JxW hJ hrho hphys, Option.map_some, operatorEntry_eq c hdim hphys hlin _ _ _ _ _ _ _ he, hconv]
    congr 1
    set gj' := realGrad c.dim jac ghatj
    set gi' := realGrad c.dim jac ghati with hgi
    have h1 : ∑ k ∈ range c.dim, ghati k * dataForGrad c JxW jac gj' e k =
        JxW * c.mu * c.tau1 * (∑ d ∈ range c.dim, gi' d * gj' d + gi' e * gj' e) + JxW * c.tauGradDiv * (gi' e * gj' e) := by
      have a : ∑ k ∈ range c.dim, ghati k * dataForGrad c JxW jac gj' e k =
          ∑ f ∈ range c.dim, gi' f * (gj' f * (JxW * c.mu * c.tau1) +
            if f = e then gj' f * (JxW * c.mu * c.tau1) + gj' f * (JxW * c.tauGradDiv) else 0) := by
        simp only [dataForGrad, mul_sum, hgi, realGrad, sum_mul]
        rw [sum_comm]
        exact sum_congr rfl fun f _ => sum_congr rfl fun k _ => by ring
      rw [a]
      have : ∀ f ∈ range c.dim, gi' f * (gj' f * (JxW * c.mu * c.tau1) +
            if f = e then gj' f * (JxW * c.mu * c.tau1) + gj' f * (JxW * c.tauGradDiv) else 0) =
          JxW * c.mu * c.tau1 * (gi' f * gj' f) +
            if f = e then JxW * c.mu * c.tau1 * (gi' f * gj' f) + JxW * c.tauGradDiv * (gi' f * gj' f) else 0 := by
        intro f _; split_ifs <;> ring
      rw [sum_congr rfl this, sum_add_distrib, ← mul_sum, sum_ite_eq', if_pos (mem_range.2 he)]
      ring
    rw [h1]
    simp only [storedTerm]
    have := hdc phij
    linear_combination (-phii * JxW) * this

/-- **C61 (one matrix for all components).** With the `ilu scalar` option the entry - shared by all components - is the
convection-diffusion-reaction form with the Laplacian `μ τ₁ + τ_gd` in place of the symmetric gradient and without the
derivative of the linearization point. -/
theorem C61_scalar_entries (c : PointParams K) (hphys : c.phys ≠ .stokes) (JxW : K) (hJ : JxW ≠ 0) (hrho : c.rho ≠ 0)
    (s : Stored K) (phii phij : K) (gi gj : ℕ → K) :
    entryScalar c JxW (some s) phii gi phij gj = some (JxW * (
      (c.mu * c.tau1 + c.tauGradDiv) * ∑ d ∈ range c.dim, gi d * gj d +
      c.rho * ((if c.phys = .incompressible then c.w else 0) * phij +
        c.tau1 * ∑ d ∈ range c.dim, s.first d * gj d) * phii - c.damping * phij * phii)) := by
  unfold entryScalar
  rw [phiAndGrad_some c JxW hJ hrho hphys, Option.map_some]
  have h1 : ∑ d ∈ range c.dim, (gi d * (JxW * (c.tauGradDiv + c.mu * c.tau1))) * gj d =
      JxW * (c.tauGradDiv + c.mu * c.tau1) * ∑ d ∈ range c.dim, gi d * gj d := by
    rw [mul_sum]; exact sum_congr rfl fun d _ => by ring
  have h2 : ∑ d ∈ range c.dim, c.tau1 * gj d * s.first d = c.tau1 * ∑ d ∈ range c.dim, s.first d * gj d := by
    rw [mul_sum]; exact sum_congr rfl fun d _ => by ring
  have h3 : c.rho * (c.damping / c.rho * phij) = c.damping * phij := by field_simp
  rw [h1, h2]
  congr 1
  simp only [PointParams.weight]
  linear_combination (-phii * JxW) * h3

/-- **C61 is false for Stokes flow.** With the density 0 that the parameter reader sets for Stokes flow (and that
`compute_initial_stokes_field` writes into the arrays of variable coefficients, source/navier_stokes.cc:1180-1197) the division of lines 1863 and
2006 makes every entry of the velocity matrix undefined, in all three variants - also with damping switched off, and for
every pair of shape functions. -/
theorem C61_stokes_undefined {F : Type} [Field F] [LinearOrder F] [IsStrictOrderedRing F] (debug : Bool) (en : Entries F)
    (f : Flow F) (hf : parse debug en = .ok f) (hst : en.physicalType = "stokes")
    (c : PointParams F) (hc : c.rho = f.density) (JxW : F) (lin : Option (Stored F)) (jac : ℕ → ℕ → F) (phii phij : F)
    (gi gj : ℕ → F) (e : ℕ) :
    entryClassical c JxW lin phii gi phij gj e = none ∧ entryScalar c JxW lin phii gi phij gj = none ∧
    entryLinear c JxW lin jac phii gi phij gj e = none := by
  have h0 : c.rho = 0 := by rw [hc]; exact ((C12_accepted_consistent debug en f hf).1 hst).2.1
  simp [entryClassical, entryScalar, entryLinear, phiAndGrad, fdiv, h0]

/-- Non-vacuity: two-dimensional Newton linearization with convective form; the entries are numbers different from zero. -/
example : let c : PointParams ℚ := ⟨2, .incompressible, .coupledImplicitNewton, 0, 3, -4, 1, 1, 0, 2, 5, -1, fun a b => 2 * a - b⟩
    let s : Stored ℚ := ⟨fun d => d + 1, fun d e => d - e⟩
    entryClassical c 1 (some s) 1 (fun d => d + 1) 2 (fun d => 2 * d) 1 =
      some (Spec.operatorEntry c 1 s 1 (fun d => d + 1) 2 (fun d => 2 * d) 1) ∧
    Spec.operatorEntry c 1 s 1 (fun d => d + 1) 2 (fun d => 2 * d) 1 = 62 := by
  decide +kernel

/-- Non-vacuity: Stokes flow is accepted by the parameter reader. -/
example : (parse true { defaults with physicalType := "stokes" }).isOk = true := by decide +kernel

end Velocity

/-! ## Pressure matrices -/

noncomputable section Pressure

/-- Coefficients of the pressure matrices at a quadrature point, lines 2076-2098 and 2199-2218. `density` is the local one
(variable coefficients and no projection) or the minimum of both phases. -/
structure PressurePoint where
  density : ℝ
  viscosity : ℝ
  tauGradDiv : ℝ
  w : ℝ
  stationary : Bool
  projection : Bool

/-- `rho_weight`, lines 2079-2087 / 2202-2210. -/
def PressurePoint.rhoWeight (c : PressurePoint) : ℝ := if c.stationary then 1 else c.density * c.w

/-- `actual_nu`, lines 2088-2096 / 2211-2218. -/
def PressurePoint.nu (c : PressurePoint) : ℝ :=
  if c.stationary || c.projection then 1 else c.viscosity + c.tauGradDiv

/-- Contribution of a quadrature point to the pressure Laplace matrix with the original elements, lines 2220-2231, 2247:
`AᵀA` with `A = sqrt(JxW/rho_weight) ∇φ`. -/
def laplaceEntry (n : ℕ) (c : PressurePoint) (JxW : ℝ) (gi gj : ℕ → ℝ) : ℝ :=
  ∑ d ∈ range n, (gi d * √(JxW / c.rhoWeight)) * (gj d * √(JxW / c.rhoWeight))

/-- Contribution to the mass matrix, lines 2233-2237, 2356. -/
def massEntry (c : PressurePoint) (JxW : ℝ) (phii phij : ℝ) : ℝ :=
  (√(JxW / c.nu) * phii) * (√(JxW / c.nu) * phij)

/-- Contribution of a point of a linear sub-element, lines 2103-2155. -/
def laplaceEntryLinear (n : ℕ) (c : PressurePoint) (JxW : ℝ) (jac : ℕ → ℕ → ℝ) (ghati ghatj : ℕ → ℝ) : ℝ :=
  ∑ e ∈ range n, ghati e * ∑ f ∈ range n, jac f e * (realGrad n jac ghatj f * (JxW / c.rhoWeight))

/-- Contribution to the linear mass matrix, lines 2113-2114, 2160-2170. -/
def massEntryLinear (c : PressurePoint) (JxW : ℝ) (phii phij : ℝ) : ℝ := phii * (JxW / c.nu * phij)

/-- All four entries in terms of the two weights. -/
theorem pressure_entries (n : ℕ) (c : PressurePoint) (JxW : ℝ) (hJ : 0 ≤ JxW) (hr : 0 < c.rhoWeight) (hn : 0 < c.nu)
    (gi gj : ℕ → ℝ) (phii phij : ℝ) (jac : ℕ → ℕ → ℝ) (ghati ghatj : ℕ → ℝ) :
    laplaceEntry n c JxW gi gj = JxW / c.rhoWeight * ∑ d ∈ range n, gi d * gj d ∧
    massEntry c JxW phii phij = JxW / c.nu * (phii * phij) ∧
    laplaceEntryLinear n c JxW jac ghati ghatj =
      JxW / c.rhoWeight * ∑ d ∈ range n, realGrad n jac ghati d * realGrad n jac ghatj d ∧
    massEntryLinear c JxW phii phij = JxW / c.nu * (phii * phij) := by
  have h1 := Real.mul_self_sqrt (div_nonneg hJ hr.le)
  have h2 := Real.mul_self_sqrt (div_nonneg hJ hn.le)
  refine ⟨?_, ?_, ?_, ?_⟩
  · unfold laplaceEntry
    rw [mul_sum]
    refine sum_congr rfl fun d _ => ?_
    calc _ = (√(JxW / c.rhoWeight) * √(JxW / c.rhoWeight)) * (gi d * gj d) := by ring
      _ = _ := by rw [h1]
  · unfold massEntry
    calc _ = (√(JxW / c.nu) * √(JxW / c.nu)) * (phii * phij) := by ring
      _ = _ := by rw [h2]
  · unfold laplaceEntryLinear
    simp only [mul_sum, realGrad, sum_mul]
    rw [sum_comm]
    refine sum_congr rfl fun f _ => ?_
    rw [sum_comm]
    refine sum_congr rfl fun k _ => sum_congr rfl fun l _ => ?_
    ring
  · unfold massEntryLinear; ring

/-- **C62 (entries).** With positive density, weight and viscosity all four matrices have the entries of
`(1/(ρ w) ∇φ_i, ∇φ_j)` and `(1/(μ+τ) φ_i, φ_j)`; for stationary flow both factors, and for the projection scheme the second
one, are replaced by one. -/
theorem C62_pressure_entries (n : ℕ) (c : PressurePoint) (JxW : ℝ) (hJ : 0 ≤ JxW) (hr : 0 < c.density) (hw : 0 < c.w)
    (hm : 0 < c.viscosity) (ht : 0 ≤ c.tauGradDiv)
    (gi gj : ℕ → ℝ) (phii phij : ℝ) (jac : ℕ → ℕ → ℝ) (ghati ghatj : ℕ → ℝ) :
    (c.stationary = false →
      laplaceEntry n c JxW gi gj = JxW / (c.density * c.w) * ∑ d ∈ range n, gi d * gj d ∧
      laplaceEntryLinear n c JxW jac ghati ghatj =
        JxW / (c.density * c.w) * ∑ d ∈ range n, realGrad n jac ghati d * realGrad n jac ghatj d) ∧
    (c.stationary = true →
      laplaceEntry n c JxW gi gj = JxW * ∑ d ∈ range n, gi d * gj d ∧
      laplaceEntryLinear n c JxW jac ghati ghatj =
        JxW * ∑ d ∈ range n, realGrad n jac ghati d * realGrad n jac ghatj d) ∧
    (c.stationary = false → c.projection = false →
      massEntry c JxW phii phij = JxW / (c.viscosity + c.tauGradDiv) * (phii * phij) ∧
      massEntryLinear c JxW phii phij = JxW / (c.viscosity + c.tauGradDiv) * (phii * phij)) ∧
    (c.stationary = true ∨ c.projection = true →
      massEntry c JxW phii phij = JxW * (phii * phij) ∧ massEntryLinear c JxW phii phij = JxW * (phii * phij)) := by
  have a1 : 0 < c.rhoWeight := by unfold PressurePoint.rhoWeight; split_ifs <;> positivity
  have a2 : 0 < c.nu := by unfold PressurePoint.nu; split_ifs <;> positivity
  obtain ⟨e1, e2, e3, e4⟩ := pressure_entries n c JxW hJ a1 a2 gi gj phii phij jac ghati ghatj
  rw [e1, e2, e3, e4]
  refine ⟨fun h => ?_, fun h => ?_, fun h h' => ?_, fun h => ?_⟩
  · simp [PressurePoint.rhoWeight, h]
  · simp [PressurePoint.rhoWeight, h]
  · simp [PressurePoint.nu, h, h']
  · rcases h with h | h <;> simp [PressurePoint.nu, h]

/-- **C62 (definiteness).** Summed over all quadrature points, the pressure Laplace matrix is symmetric and positive
semi-definite, its quadratic form being `Σ JxW/(ρ w) |∇p|²`, and it annihilates constants if the shape functions sum up to
one (their gradients to zero): with positive weights the kernel consists exactly of the functions with vanishing gradient. -/
theorem C62_laplace_definite {ι Q : Type*} [Fintype ι] (n : ℕ) (pts : Finset Q) (c : Q → PressurePoint) (JxW : Q → ℝ)
    (hJ : ∀ q ∈ pts, 0 < JxW q) (hr : ∀ q ∈ pts, 0 < (c q).rhoWeight) (grad : ι → Q → ℕ → ℝ) :
    let A : ι → ι → ℝ := fun i j => ∑ q ∈ pts, laplaceEntry n (c q) (JxW q) (grad i q) (grad j q)
    (∀ i j, A i j = A j i) ∧
    (∀ p : ι → ℝ, ∑ i, ∑ j, p i * A i j * p j =
      ∑ q ∈ pts, JxW q / (c q).rhoWeight * ∑ d ∈ range n, (∑ i, p i * grad i q d) ^ 2) ∧
    (∀ p : ι → ℝ, 0 ≤ ∑ i, ∑ j, p i * A i j * p j) ∧
    (∀ p : ι → ℝ, ∑ i, ∑ j, p i * A i j * p j = 0 ↔ ∀ q ∈ pts, ∀ d < n, ∑ i, p i * grad i q d = 0) ∧
    ((∀ q ∈ pts, ∀ d < n, ∑ i, grad i q d = 0) → ∀ i, ∑ j, A i j = 0) := by
  intro A
  have hA : ∀ i j, A i j = ∑ q ∈ pts, JxW q / (c q).rhoWeight * ∑ d ∈ range n, grad i q d * grad j q d := by
    intro i j
    refine sum_congr rfl fun q hq => ?_
    have h1 := Real.mul_self_sqrt (div_nonneg (hJ q hq).le (hr q hq).le)
    unfold laplaceEntry
    rw [mul_sum]
    refine sum_congr rfl fun d _ => ?_
    calc _ = (√(JxW q / (c q).rhoWeight) * √(JxW q / (c q).rhoWeight)) * (grad i q d * grad j q d) := by ring
      _ = _ := by rw [h1]
  have hquad : ∀ p : ι → ℝ, ∑ i, ∑ j, p i * A i j * p j =
      ∑ q ∈ pts, JxW q / (c q).rhoWeight * ∑ d ∈ range n, (∑ i, p i * grad i q d) ^ 2 := by
    intro p
    have e1 : ∀ q d, (∑ i, p i * grad i q d) ^ 2 = ∑ i, ∑ j, p i * (grad i q d * grad j q d) * p j := by
      intro q d
      rw [sq, sum_mul_sum]
      exact sum_congr rfl fun i _ => sum_congr rfl fun j _ => by ring
    simp only [hA, e1, mul_sum, sum_mul]
    rw [sum_congr rfl fun i _ => sum_comm, sum_comm]
    refine sum_congr rfl fun q _ => ?_
    rw [sum_congr rfl fun i _ => sum_comm, sum_comm]
    refine sum_congr rfl fun d _ => sum_congr rfl fun i _ => sum_congr rfl fun j _ => by ring
  have hpos : ∀ q ∈ pts, 0 < JxW q / (c q).rhoWeight := fun q hq => div_pos (hJ q hq) (hr q hq)
  refine ⟨fun i j => ?_, hquad, fun p => ?_, fun p => ?_, fun hz i => ?_⟩
  · rw [hA, hA]
    exact sum_congr rfl fun q _ => by congr 1; exact sum_congr rfl fun d _ => mul_comm _ _
  · rw [hquad]
    exact sum_nonneg fun q hq => mul_nonneg (hpos q hq).le (sum_nonneg fun d _ => sq_nonneg _)
  · rw [hquad, sum_eq_zero_iff_of_nonneg (fun q hq =>
      mul_nonneg (hpos q hq).le (sum_nonneg fun d _ => sq_nonneg _))]
    constructor
    · intro h q hq d hd
      have := (mul_eq_zero.1 (h q hq)).resolve_left (hpos q hq).ne'
      rw [sum_eq_zero_iff_of_nonneg (fun d _ => sq_nonneg _)] at this
      exact pow_eq_zero_iff (two_ne_zero) |>.1 (this d (mem_range.2 hd))
    · intro h q hq
      rw [sum_eq_zero fun d hd => by rw [h q hq d (mem_range.1 hd)]; ring, mul_zero]
  · simp only [hA]
    rw [sum_comm]
    refine sum_eq_zero fun q hq => ?_
    rw [← mul_sum, sum_comm, sum_eq_zero, mul_zero]
    intro d hd
    rw [← mul_sum, hz q hq d (mem_range.1 hd), mul_zero]

/-- Non-vacuity: weights of an instationary step are positive. -/
example : 0 < (⟨2, 1, 0, 3, false, false⟩ : PressurePoint).rhoWeight ∧
    0 < (⟨2, 1, 0, 3, false, false⟩ : PressurePoint).nu := by
  constructor <;> norm_num [PressurePoint.rhoWeight, PressurePoint.nu]

end Pressure

end Verif.Precond
