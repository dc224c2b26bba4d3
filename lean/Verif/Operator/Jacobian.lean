import Verif.Operator.Point
import Mathlib.Tactic.NormNum

/-! # C29: the operator of `vmult` is the derivative of the residual -/

namespace Verif.Operator

open Verif.Parameters
open Finset

variable {K : Type*} [Field K]

/-- Remainder of the Newton linearization: `rho tau1 ((d·∇)d + beta (div d) d)`. -/
def newtonRemainder (c : PointParams K) (d : PointIn K) (i : ℕ) : K :=
  c.rho * c.tau1 * (∑ e ∈ range c.dim, d.u e * d.gradU i e + c.beta * trace c.dim d.gradU * d.u i)

theorem stress_add (c : PointParams K) (hdim : c.dim = 1 ∨ c.dim = 2 ∨ c.dim = 3) (wp : Bool)
    (x d : PointIn K) (i j : ℕ) (hi : i < c.dim) (hj : j < c.dim) :
    stress c wp (x.add d).gradU (x.add d).p i j
      = stress c wp x.gradU x.p i j + stress c wp d.gradU d.p i j := by
  rw [stress_eq c hdim _ _ _ _ _ hi hj, stress_eq c hdim _ _ _ _ _ hi hj,
    stress_eq c hdim _ _ _ _ _ hi hj]
  simp only [PointIn.add, trace_add]
  by_cases h : i = j
  · cases wp <;> simp [h] <;> ring
  · simp [h]; ring

/-- **C29 (Newton).** At every quadrature point, for every physical type, form of the convective term,
coefficients and time weights, the residual at `x + d` minus the residual at `x` is the product with
`d`, linearized at `x`, plus the quadratic remainder (absent for Stokes flow) in the value part, and
exactly the product in the stress and pressure parts. -/
theorem C29_newton_is_jacobian (c : PointParams K) (hdim : c.dim = 1 ∨ c.dim = 2 ∨ c.dim = 3)
    (hlin : c.lin = .coupledImplicitNewton) (old oldOld x d : PointIn K) (s : Stored K) :
    let J := vmultPoint c (residualStore c old oldOld x s) d
    let R := residualPoint c old oldOld
    (∀ i, (R (x.add d)).value i - (R x).value i
      = J.value i + if c.phys = .stokes then 0 else newtonRemainder c d i) ∧
    (∀ i j, i < c.dim → j < c.dim → (R (x.add d)).grad i j - (R x).grad i j = J.grad i j) ∧
    (R (x.add d)).pres - (R x).pres = J.pres := by
  refine ⟨?_, ?_, ?_⟩
  · intro i
    simp only [residualPoint, vmultPoint, residualValue, productValue, residualStore, hlin,
      needExtrapolated, convImplicit, newtonRemainder]
    by_cases hs : c.phys = .stokes
    · simp [hs]
    · have e : ∑ e ∈ range c.dim, (x.add d).u e * (x.add d).gradU i e
          = ∑ e ∈ range c.dim, x.u e * x.gradU i e
            + ∑ e ∈ range c.dim, (x.u e * d.gradU i e + d.u e * x.gradU i e)
            + ∑ e ∈ range c.dim, d.u e * d.gradU i e := by
        rw [← sum_add_distrib, ← sum_add_distrib]
        apply sum_congr rfl; intro k _; simp only [PointIn.add]; ring
      have t : trace c.dim (x.add d).gradU = trace c.dim x.gradU + trace c.dim d.gradU :=
        trace_add _ _ _
      have hu : (x.add d).u i = x.u i + d.u i := rfl
      by_cases hst : c.phys = .incompressibleStationary
      · simp [hst, e, t, hu]; ring
      · simp [hs, hst, e, t, hu]; ring
  · intro i j hi hj
    simp only [residualPoint, vmultPoint]
    rw [stress_add c hdim true x d i j hi hj]; ring
  · simp only [residualPoint, vmultPoint, PointIn.add, trace_add, hlin]
    simp

/-- **C29 (linear variants).** For the semi-implicit, explicit and projection schemes the residual is
affine: the residual at `x + d` is the residual at `x` plus the product with `d`, with no remainder,
so that one linear solve suffices. -/
theorem C29_linear_variants_exact (c : PointParams K) (hdim : c.dim = 1 ∨ c.dim = 2 ∨ c.dim = 3)
    (hlin : c.lin ≠ .coupledImplicitNewton ∧ c.lin ≠ .coupledImplicitPicard)
    (old oldOld x d : PointIn K) (s : Stored K) :
    let J := vmultPoint c (residualStore c old oldOld x s) d
    let R := residualPoint c old oldOld
    (∀ i, (R (x.add d)).value i - (R x).value i = J.value i) ∧
    (∀ i j, i < c.dim → j < c.dim → (R (x.add d)).grad i j - (R x).grad i j = J.grad i j) ∧
    (R (x.add d)).pres - (R x).pres = J.pres := by
  have e : ∀ (f : ℕ → K) i, ∑ k ∈ range c.dim, f k * (x.add d).gradU i k
      = ∑ k ∈ range c.dim, f k * x.gradU i k + ∑ k ∈ range c.dim, f k * d.gradU i k := by
    intro f i
    rw [← sum_add_distrib]
    apply sum_congr rfl; intro k _; simp only [PointIn.add]; ring
  have hu : ∀ i, (x.add d).u i = x.u i + d.u i := fun _ => rfl
  refine ⟨?_, ?_, ?_⟩
  · intro i
    simp only [residualPoint, vmultPoint, residualValue, productValue, residualStore,
      needExtrapolated]
    by_cases hs : c.phys = .stokes
    · simp [hs]
    · by_cases hst : c.phys = .incompressibleStationary <;>
      cases hl : c.lin <;> simp [hl] at hlin <;> simp [hs, hst, e, hu] <;> ring
  · intro i j hi hj
    simp only [residualPoint, vmultPoint]
    rw [stress_add c hdim true x d i j hi hj]; ring
  · simp only [residualPoint, vmultPoint, PointIn.add, trace_add]
    split <;> ring

/-- **C29 (Picard).** With the fixed point iteration the residual at `x` is the product with `x`,
linearized at `x`, plus the contribution of the old time levels, which does not depend on `x`; in the stress
and pressure parts it is exactly the product. -/
theorem C29_picard_consistent (c : PointParams K) (hlin : c.lin = .coupledImplicitPicard)
    (old oldOld x : PointIn K) (s : Stored K) :
    (∀ i, (residualPoint c old oldOld x).value i
      = (vmultPoint c (residualStore c old oldOld x s) x).value i
        + if c.phys = .incompressible
          then c.rho * (old.u i * c.wOld + oldOld.u i * c.wOldOld) else 0) ∧
    (residualPoint c old oldOld x).grad = (vmultPoint c (residualStore c old oldOld x s) x).grad ∧
    (residualPoint c old oldOld x).pres = (vmultPoint c (residualStore c old oldOld x s) x).pres := by
  refine ⟨fun i => ?_, rfl, rfl⟩
  simp only [residualPoint, vmultPoint, residualValue, productValue, residualStore, hlin,
    needExtrapolated, convImplicit]
  cases hp : c.phys <;> simp <;> ring

/-- **C29 (linearity).** The product is additive and homogeneous in the input at every quadrature
point, whatever is stored. -/
theorem C29_product_linear (c : PointParams K) (hdim : c.dim = 1 ∨ c.dim = 2 ∨ c.dim = 3)
    (s : Stored K) (a : K) (x y : PointIn K) :
    let z : PointIn K := ⟨fun d => a * x.u d + y.u d, fun d e => a * x.gradU d e + y.gradU d e,
      a * x.p + y.p⟩
    (∀ i, (vmultPoint c s z).value i = a * (vmultPoint c s x).value i + (vmultPoint c s y).value i) ∧
    (∀ i j, i < c.dim → j < c.dim →
      (vmultPoint c s z).grad i j = a * (vmultPoint c s x).grad i j + (vmultPoint c s y).grad i j) ∧
    (vmultPoint c s z).pres = a * (vmultPoint c s x).pres + (vmultPoint c s y).pres := by
  have t : trace c.dim (fun d e => a * x.gradU d e + y.gradU d e)
      = a * trace c.dim x.gradU + trace c.dim y.gradU := by
    rw [trace_add, trace_smul]
  refine ⟨?_, ?_, ?_⟩
  · intro i
    have e1 : ∀ f : ℕ → K, ∑ k ∈ range c.dim, f k * (a * x.gradU i k + y.gradU i k)
        = a * ∑ k ∈ range c.dim, f k * x.gradU i k + ∑ k ∈ range c.dim, f k * y.gradU i k := by
      intro f
      rw [mul_sum, ← sum_add_distrib]; apply sum_congr rfl; intro k _; ring
    have e2 : ∀ f : ℕ → K, ∑ k ∈ range c.dim, (a * x.u k + y.u k) * f k
        = a * ∑ k ∈ range c.dim, x.u k * f k + ∑ k ∈ range c.dim, y.u k * f k := by
      intro f
      rw [mul_sum, ← sum_add_distrib]; apply sum_congr rfl; intro k _; ring
    simp only [vmultPoint, productValue, sum_add_distrib, t, e1, e2]
    split
    · ring
    · split
      · ring
      · split <;> ring
  · intro i j hi hj
    simp only [vmultPoint]
    rw [stress_eq c hdim _ _ _ _ _ hi hj, stress_eq c hdim _ _ _ _ _ hi hj,
      stress_eq c hdim _ _ _ _ _ hi hj, t]
    by_cases h : i = j
    · simp [h]; ring
    · simp [h]; ring
  · simp only [vmultPoint, t]
    split <;> ring

/-- **C29 (velocity block).** The velocity product is the velocity part of the coupled product applied
to a vector with zero pressure. -/
theorem C29_velocity_block (c : PointParams K) (hdim : c.dim = 1 ∨ c.dim = 2 ∨ c.dim = 3)
    (s : Stored K) (x : PointIn K) :
    (∀ i, (velocityPoint c s x).value i = (vmultPoint c s { x with p := 0 }).value i) ∧
    (∀ i j, i < c.dim → j < c.dim →
      (velocityPoint c s x).grad i j = (vmultPoint c s { x with p := 0 }).grad i j) := by
  refine ⟨fun i => rfl, fun i j hi hj => ?_⟩
  simp only [velocityPoint, vmultPoint]
  rw [stress_eq c hdim _ _ _ _ _ hi hj, stress_eq c hdim _ _ _ _ _ hi hj]
  simp

/-! ## Assembled operators -/

/-- Testing with a test function with values `v`, gradients `gv` and pressure part `q` at the
quadrature point (`integrate`, scaled with the quadrature weight). -/
def tested (n : ℕ) (o : PointOut K) (t : PointIn K) : K :=
  ∑ i ∈ range n, o.value i * t.u i + ∑ i ∈ range n, ∑ j ∈ range n, o.grad i j * t.gradU i j
    + o.pres * t.p

/-- The discrete functions: `X` is the space of coefficient vectors, `Q` the finite set of all
quadrature points of all cells, `at_ x q` the evaluation (`read_dof_values`/`evaluate`), which is
additive. -/
structure Discretization (K X Q : Type*) [Field K] [AddCommGroup X] where
  pts : Finset Q
  jxw : Q → K
  at_ : X → Q → PointIn K
  at_add : ∀ x y q, at_ (x + y) q = (at_ x q).add (at_ y q)

variable {X Q : Type*} [AddCommGroup X] (D : Discretization K X Q)

/-- Entry of `system_rhs` for test function `t` after `residual(system_rhs, x, user_rhs)`,
lines 262-289: `user_rhs - (const_rhs + assembled terms)`; `par q` holds the coefficients at point
`q`, `rhs t` is `user_rhs - const_rhs`. -/
def systemRhs (par : Q → PointParams K) (old oldOld : X) (rhs : X → K) (x t : X) : K :=
  rhs t - ∑ q ∈ D.pts, D.jxw q *
    tested (par q).dim (residualPoint (par q) (D.at_ old q) (D.at_ oldOld q) (D.at_ x q)) (D.at_ t q)

/-- Entry of the coupled product with the linearization point stored by the residual at `x`. -/
def coupledProduct (par : Q → PointParams K) (old oldOld : X) (s : Q → Stored K) (x d t : X) : K :=
  ∑ q ∈ D.pts, D.jxw q * tested (par q).dim
    (vmultPoint (par q) (residualStore (par q) (D.at_ old q) (D.at_ oldOld q) (D.at_ x q) (s q))
      (D.at_ d q)) (D.at_ t q)

/-- The assembled quadratic remainder. -/
def assembledRemainder (par : Q → PointParams K) (d t : X) : K :=
  ∑ q ∈ D.pts, D.jxw q * ∑ i ∈ range (par q).dim,
    (if (par q).phys = .stokes then 0 else newtonRemainder (par q) (D.at_ d q) i) * (D.at_ t q).u i

/-- **C29 (assembled Newton step).** If the linear system of the Newton step at `x` is solved exactly
by `d`, the right hand side at `x + d` is minus the quadratic remainder of `d`, for every mesh,
space, coefficients and history. -/
theorem C29_newton_step (par : Q → PointParams K)
    (hdim : ∀ q, (par q).dim = 1 ∨ (par q).dim = 2 ∨ (par q).dim = 3)
    (hlin : ∀ q, (par q).lin = .coupledImplicitNewton)
    (old oldOld : X) (s : Q → Stored K) (rhs : X → K) (x d t : X)
    (hsolve : coupledProduct D par old oldOld s x d t = systemRhs D par old oldOld rhs x t) :
    systemRhs D par old oldOld rhs (x + d) t = - assembledRemainder D par d t := by
  have key : ∀ q ∈ D.pts,
      D.jxw q * tested (par q).dim (residualPoint (par q) (D.at_ old q) (D.at_ oldOld q)
        (D.at_ (x + d) q)) (D.at_ t q) =
      D.jxw q * tested (par q).dim (residualPoint (par q) (D.at_ old q) (D.at_ oldOld q)
        (D.at_ x q)) (D.at_ t q)
      + D.jxw q * tested (par q).dim (vmultPoint (par q) (residualStore (par q) (D.at_ old q)
          (D.at_ oldOld q) (D.at_ x q) (s q)) (D.at_ d q)) (D.at_ t q)
      + D.jxw q * ∑ i ∈ range (par q).dim, (if (par q).phys = .stokes then 0 else
          newtonRemainder (par q) (D.at_ d q) i) * (D.at_ t q).u i := by
    intro q _
    obtain ⟨h1, h2, h3⟩ := C29_newton_is_jacobian (par q) (hdim q) (hlin q) (D.at_ old q)
      (D.at_ oldOld q) (D.at_ x q) (D.at_ d q) (s q)
    rw [D.at_add]
    have a1 : ∀ i, (residualPoint (par q) (D.at_ old q) (D.at_ oldOld q)
        ((D.at_ x q).add (D.at_ d q))).value i * (D.at_ t q).u i = _ :=
      fun i => congrArg (· * (D.at_ t q).u i) (eq_add_of_sub_eq (h1 i))
    have a2 : ∑ i ∈ range (par q).dim, ∑ j ∈ range (par q).dim,
        (residualPoint (par q) (D.at_ old q) (D.at_ oldOld q)
          ((D.at_ x q).add (D.at_ d q))).grad i j * (D.at_ t q).gradU i j
        = ∑ i ∈ range (par q).dim, ∑ j ∈ range (par q).dim,
        ((vmultPoint (par q) (residualStore (par q) (D.at_ old q)
          (D.at_ oldOld q) (D.at_ x q) (s q)) (D.at_ d q)).grad i j + (residualPoint (par q) (D.at_ old q) (D.at_ oldOld q)
          (D.at_ x q)).grad i j) * (D.at_ t q).gradU i j := by
      apply sum_congr rfl; intro i hi
      apply sum_congr rfl; intro j hj
      rw [eq_add_of_sub_eq (h2 i j (mem_range.1 hi) (mem_range.1 hj))]
    simp only [tested]
    rw [a2, eq_add_of_sub_eq h3]
    simp only [a1, add_mul, sum_add_distrib]
    ring
  have hsum := sum_congr rfl key
  rw [sum_add_distrib, sum_add_distrib] at hsum
  unfold systemRhs
  rw [hsum]
  unfold coupledProduct systemRhs at hsolve
  unfold assembledRemainder
  rw [hsolve]
  ring

/-- **C29 (assembled linear variants).** For the linear schemes an exact linear solve makes the right
hand side vanish. -/
theorem C29_linear_step (par : Q → PointParams K)
    (hdim : ∀ q, (par q).dim = 1 ∨ (par q).dim = 2 ∨ (par q).dim = 3)
    (hlin : ∀ q, (par q).lin ≠ .coupledImplicitNewton ∧ (par q).lin ≠ .coupledImplicitPicard)
    (old oldOld : X) (s : Q → Stored K) (rhs : X → K) (x d t : X)
    (hsolve : coupledProduct D par old oldOld s x d t = systemRhs D par old oldOld rhs x t) :
    systemRhs D par old oldOld rhs (x + d) t = 0 := by
  have key : ∀ q ∈ D.pts,
      D.jxw q * tested (par q).dim (residualPoint (par q) (D.at_ old q) (D.at_ oldOld q)
        (D.at_ (x + d) q)) (D.at_ t q) =
      D.jxw q * tested (par q).dim (residualPoint (par q) (D.at_ old q) (D.at_ oldOld q)
        (D.at_ x q)) (D.at_ t q)
      + D.jxw q * tested (par q).dim (vmultPoint (par q) (residualStore (par q) (D.at_ old q)
          (D.at_ oldOld q) (D.at_ x q) (s q)) (D.at_ d q)) (D.at_ t q) := by
    intro q _
    obtain ⟨h1, h2, h3⟩ := C29_linear_variants_exact (par q) (hdim q) (hlin q) (D.at_ old q)
      (D.at_ oldOld q) (D.at_ x q) (D.at_ d q) (s q)
    rw [D.at_add]
    have a1 : ∀ i, (residualPoint (par q) (D.at_ old q) (D.at_ oldOld q)
        ((D.at_ x q).add (D.at_ d q))).value i * (D.at_ t q).u i = _ :=
      fun i => congrArg (· * (D.at_ t q).u i) (eq_add_of_sub_eq (h1 i))
    have a2 : ∑ i ∈ range (par q).dim, ∑ j ∈ range (par q).dim,
        (residualPoint (par q) (D.at_ old q) (D.at_ oldOld q)
          ((D.at_ x q).add (D.at_ d q))).grad i j * (D.at_ t q).gradU i j
        = ∑ i ∈ range (par q).dim, ∑ j ∈ range (par q).dim,
        ((vmultPoint (par q) (residualStore (par q) (D.at_ old q)
          (D.at_ oldOld q) (D.at_ x q) (s q)) (D.at_ d q)).grad i j + (residualPoint (par q) (D.at_ old q) (D.at_ oldOld q)
          (D.at_ x q)).grad i j) * (D.at_ t q).gradU i j := by
      apply sum_congr rfl; intro i hi
      apply sum_congr rfl; intro j hj
      rw [eq_add_of_sub_eq (h2 i j (mem_range.1 hi) (mem_range.1 hj))]
    simp only [tested]
    rw [a2, eq_add_of_sub_eq h3]
    simp only [a1, add_mul, sum_add_distrib]
    ring
  have hsum := sum_congr rfl key
  rw [sum_add_distrib] at hsum
  unfold systemRhs
  rw [hsum]
  unfold coupledProduct systemRhs at hsolve
  rw [hsolve]
  ring

/-- The terms of the old time levels tested with `t`. -/
def oldTerms (par : Q → PointParams K) (old oldOld t : X) : K :=
  ∑ q ∈ D.pts, D.jxw q * ∑ i ∈ range (par q).dim,
    (if (par q).phys = .incompressible
      then (par q).rho * ((D.at_ old q).u i * (par q).wOld + (D.at_ oldOld q).u i * (par q).wOldOld) else 0) * (D.at_ t q).u i

/-- **C29 (assembled Picard step).** If the linear system of the fixed point iteration at `x` is solved exactly by `d`, then `x + d`
solves the Oseen problem with the convection velocity of `x`: the product linearized at `x` applied to `x + d` is the right hand side
without the terms of the old time levels, for every mesh, space, coefficients and history. -/
theorem C29_picard_step (par : Q → PointParams K)
    (hdim : ∀ q, (par q).dim = 1 ∨ (par q).dim = 2 ∨ (par q).dim = 3)
    (hlin : ∀ q, (par q).lin = .coupledImplicitPicard)
    (old oldOld : X) (s : Q → Stored K) (rhs : X → K) (x d t : X)
    (hsolve : coupledProduct D par old oldOld s x d t = systemRhs D par old oldOld rhs x t) :
    coupledProduct D par old oldOld s x (x + d) t = rhs t - oldTerms D par old oldOld t := by
  have hadd : coupledProduct D par old oldOld s x (x + d) t =
      coupledProduct D par old oldOld s x x t + coupledProduct D par old oldOld s x d t := by
    unfold coupledProduct
    rw [← sum_add_distrib]
    refine sum_congr rfl fun q _ => ?_
    rw [D.at_add, ← mul_add]
    congr 1
    have h := C29_product_linear (par q) (hdim q)
      (residualStore (par q) (D.at_ old q) (D.at_ oldOld q) (D.at_ x q) (s q)) 1 (D.at_ x q) (D.at_ d q)
    simp only [one_mul] at h
    obtain ⟨h1, h2, h3⟩ := h
    unfold tested PointIn.add
    rw [h3]
    simp only [h1]
    rw [sum_congr rfl fun i hi => sum_congr rfl fun j hj => by rw [h2 i j (mem_range.1 hi) (mem_range.1 hj)]]
    simp only [add_mul, sum_add_distrib]
    ring
  have hres : systemRhs D par old oldOld rhs x t =
      rhs t - coupledProduct D par old oldOld s x x t - oldTerms D par old oldOld t := by
    unfold systemRhs coupledProduct oldTerms
    rw [sub_sub, ← sum_add_distrib]
    congr 1
    refine sum_congr rfl fun q _ => ?_
    rw [← mul_add]
    congr 1
    obtain ⟨h1, h2, h3⟩ := C29_picard_consistent (par q) (hlin q) (D.at_ old q) (D.at_ oldOld q) (D.at_ x q) (s q)
    unfold tested
    rw [h2, h3]
    simp only [h1, add_mul, sum_add_distrib]
    ring
  rw [hadd, hsolve, hres]
  ring

/-- Non-vacuity: a two-dimensional quadrature point with non-zero remainder and product. -/
def exPar : PointParams ℚ :=
  ⟨2, .incompressible, .coupledImplicitNewton, 1/2, 3, -4, 1, 1, 1/10, 2, 5, -1, fun a b => 2 * a - b⟩

example : newtonRemainder exPar ⟨fun i => i + 1, fun i j => i + 2 * j, 7⟩ 1 = 20 ∧
    (vmultPoint exPar (residualStore exPar ⟨fun _ => 1, fun _ _ => 0, 0⟩ ⟨fun _ => 2, fun _ _ => 0, 0⟩
      ⟨fun i => i, fun i j => i - j, 3⟩ ⟨fun _ => 0, fun _ _ => 0⟩)
      ⟨fun i => i + 1, fun i j => i + 2 * j, 7⟩).value 1 ≠ 0 ∧
    (vmultPoint exPar ⟨fun _ => 0, fun _ _ => 0⟩
      ⟨fun i => i + 1, fun i j => i + 2 * j, 7⟩).grad 0 1 = 15 := by
  decide +kernel

/-- Non-vacuity of the step theorems: one point, one-dimensional Newton step from 1 with increment
solving the linear system. -/
example : ∃ (D : Discretization ℚ ℚ Unit) (par : Unit → PointParams ℚ) (s : Unit → Stored ℚ),
    (par ()).lin = .coupledImplicitNewton ∧ (par ()).dim = 1 ∧
    coupledProduct D par 0 0 s 1 (1/2) 1 = systemRhs D par 0 0 (fun _ => 5) 1 1 ∧
    assembledRemainder D par (1/2) 1 ≠ 0 := by
  refine ⟨⟨{()}, fun _ => 1, fun x _ => ⟨fun _ => x, fun _ _ => x, 0⟩, ?_⟩,
    fun _ => ⟨1, .incompressible, .coupledImplicitNewton, 0, 1, 0, 0, 1, 0, 1, 1/2, 0, fun a _ => a⟩,
    fun _ => ⟨fun _ => 0, fun _ _ => 0⟩, rfl, rfl, ?_, ?_⟩
  · intro x y q; simp [PointIn.add]
  · decide +kernel
  · decide +kernel

/-- Non-vacuity of `C29_picard_step`: one fixed point step from 1 with increment 1/5; the old terms do not vanish. -/
example : ∃ (D : Discretization ℚ ℚ Unit) (par : Unit → PointParams ℚ) (s : Unit → Stored ℚ),
    (par ()).lin = .coupledImplicitPicard ∧ (par ()).dim = 1 ∧
    coupledProduct D par 3 0 s 1 (1/5) 1 = systemRhs D par 3 0 (fun _ => 0) 1 1 ∧ oldTerms D par 3 0 1 = -6 := by
  refine ⟨⟨{()}, fun _ => 1, fun x _ => ⟨fun _ => x, fun _ _ => x, 0⟩, ?_⟩,
    fun _ => ⟨1, .incompressible, .coupledImplicitPicard, 0, 2, -2, 0, 1, 0, 1, 1, 0, fun a _ => a⟩,
    fun _ => ⟨fun _ => 0, fun _ _ => 0⟩, rfl, rfl, ?_, ?_⟩
  · intro x y q; simp [PointIn.add]
  · decide +kernel
  · decide +kernel

end Verif.Operator
