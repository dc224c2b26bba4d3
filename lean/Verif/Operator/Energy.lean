import Mathlib.Tactic.IntervalCases
import Verif.Operator.Jacobian
import Verif.Time.Consistency

/-!
# C60: kinetic energy balance of the discrete momentum equation

Uses the point operation of `NavierStokesMatrix::local_operation` (source/navier_stokes_matrix.cc:601-905, model in
`Operator.Point`) with the weights handed out by the clock (`TimeStepping`, model in `Time.Model`).
-/

set_option linter.unusedSectionVars false

namespace Verif.Operator

open Verif.Parameters Verif.Time
open Finset

variable {K : Type*} [Field K] [LinearOrder K] [IsStrictOrderedRing K]

/-- The values `local_operation` reads from the clock, source/navier_stokes_matrix.cc:621-629 and 748-757. -/
def PointParams.withClock (c : PointParams K) (t : TS K) : PointParams K :=
  { c with w := t.w, wOld := t.wOld, wOldOld := t.wOldOld, tau1 := t.tau1, ext := t.extrapolate }

namespace Spec

/-- Euclidean product of the first `n` components. -/
def dot (n : ℕ) (u v : ℕ → K) : K := ∑ i ∈ range n, u i * v i

/-- Divergence of the energy flux `½ |u|² a` by the product rule, for a transport velocity `a`. -/
def energyFlux (n : ℕ) (a : PointIn K) (x : PointIn K) : K :=
  1 / 2 * (trace n a.gradU * dot n x.u x.u + ∑ e ∈ range n, a.u e * ∑ d ∈ range n, 2 * (x.u d * x.gradU d e))

/-- Viscous and grad-div dissipation: `μ/2 |∇u + ∇uᵀ|² + τ (div u)²`. -/
def dissipation (n : ℕ) (mu tauGD : K) (x : PointIn K) : K :=
  mu / 2 * ∑ i ∈ range n, ∑ j ∈ range n, (x.gradU i j + x.gradU j i) ^ 2 + tauGD * trace n x.gradU ^ 2

/-- The solution itself as test function; the sign of the pressure part is turned around. -/
def selfTest (x : PointIn K) : PointIn K := ⟨x.u, x.gradU, -x.p⟩

end Spec

open Spec

theorem stress_self (c : PointParams K) (hdim : c.dim = 1 ∨ c.dim = 2 ∨ c.dim = 3) (x : PointIn K) :
    ∑ i ∈ range c.dim, ∑ j ∈ range c.dim, stress c true x.gradU x.p i j * x.gradU i j =
      dissipation c.dim (c.mu * c.tau1) c.tauGradDiv x - x.p * trace c.dim x.gradU := by
  have h1 : ∑ i ∈ range c.dim, ∑ j ∈ range c.dim, stress c true x.gradU x.p i j * x.gradU i j =
      ∑ i ∈ range c.dim, ∑ j ∈ range c.dim, (c.mu * c.tau1 * (x.gradU i j + x.gradU j i)
        + if i = j then c.tauGradDiv * trace c.dim x.gradU - x.p else 0) * x.gradU i j := by
    refine sum_congr rfl fun i hi => sum_congr rfl fun j hj => ?_
    rw [stress_eq c hdim _ _ _ _ _ (mem_range.1 hi) (mem_range.1 hj)]; simp
  rw [h1]
  have h2 : ∑ i ∈ range c.dim, ∑ j ∈ range c.dim, (x.gradU i j + x.gradU j i) * x.gradU j i =
      ∑ i ∈ range c.dim, ∑ j ∈ range c.dim, (x.gradU i j + x.gradU j i) * x.gradU i j := by
    rw [sum_comm]
    refine sum_congr rfl fun i _ => sum_congr rfl fun j _ => ?_
    ring
  have h3 : ∑ i ∈ range c.dim, ∑ j ∈ range c.dim, (x.gradU i j + x.gradU j i) ^ 2 =
      2 * ∑ i ∈ range c.dim, ∑ j ∈ range c.dim, (x.gradU i j + x.gradU j i) * x.gradU i j := by
    have : ∀ i j, (x.gradU i j + x.gradU j i) ^ 2 =
        (x.gradU i j + x.gradU j i) * x.gradU i j + (x.gradU i j + x.gradU j i) * x.gradU j i := by intro i j; ring
    simp only [this, sum_add_distrib]
    rw [h2]; ring
  have h4 : ∑ i ∈ range c.dim, ∑ j ∈ range c.dim,
      (if i = j then c.tauGradDiv * trace c.dim x.gradU - x.p else 0) * x.gradU i j =
      (c.tauGradDiv * trace c.dim x.gradU - x.p) * trace c.dim x.gradU := by
    generalize c.tauGradDiv * trace c.dim x.gradU - x.p = z
    rw [trace, mul_sum]
    refine sum_congr rfl fun i hi => ?_
    rw [sum_eq_single i]
    · simp
    · intro j _ hj; simp [Ne.symm hj]
    · intro h; exact absurd hi h
  simp only [add_mul, sum_add_distrib, h4]
  unfold dissipation
  rw [h3]
  simp only [mul_assoc, ← mul_sum, add_mul, sum_add_distrib]
  ring

/-- Skew-symmetric convection does work only through the boundary. -/
theorem convection_work (n : ℕ) (a x : PointIn K) :
    ∑ d ∈ range n, (1 / 2 * trace n a.gradU * x.u d + ∑ e ∈ range n, a.u e * x.gradU d e) * x.u d =
      energyFlux n a x := by
  unfold energyFlux dot
  simp only [add_mul, sum_add_distrib]
  have h : ∑ d ∈ range n, (∑ e ∈ range n, a.u e * x.gradU d e) * x.u d =
      ∑ e ∈ range n, a.u e * ∑ d ∈ range n, x.u d * x.gradU d e := by
    simp only [sum_mul, mul_sum]
    rw [sum_comm]
    refine sum_congr rfl fun e _ => sum_congr rfl fun d _ => ?_
    ring
  rw [h]
  simp only [← mul_sum, mul_add]
  rw [mul_sum]
  congr 1
  · rw [mul_sum]
    refine sum_congr rfl fun d _ => ?_
    ring
  · rw [mul_sum]
    refine sum_congr rfl fun e _ => ?_
    ring

/-- The transport velocity of the convective term: the solution or its extrapolation. -/
def transport (c : PointParams K) (old oldOld x : PointIn K) : PointIn K :=
  if needExtrapolated c.lin then extrapolated c old oldOld else x

/-- **C60 (power balance at a point).** In the skew-symmetric form (`β = 1/2`) of all linearizations but the explicit one
and the projection scheme, the residual tested with the solution itself is the work of the discrete time derivative, the
divergence of the energy flux, the dissipation and the damping; the pressure does no work - also if the velocity is not
divergence-free. -/
theorem C60_power_balance (c : PointParams K) (hdim : c.dim = 1 ∨ c.dim = 2 ∨ c.dim = 3) (hphys : c.phys = .incompressible)
    (hlin : c.lin ≠ .coupledVelocityExplicit ∧ c.lin ≠ .projection) (hbeta : c.beta = 1 / 2) (old oldOld x : PointIn K) :
    tested c.dim (residualPoint c old oldOld x) (selfTest x) =
      c.rho * (c.w * dot c.dim x.u x.u + c.wOld * dot c.dim old.u x.u + c.wOldOld * dot c.dim oldOld.u x.u)
      + c.rho * c.tau1 * energyFlux c.dim (transport c old oldOld x) x
      - c.damping * dot c.dim x.u x.u + dissipation c.dim (c.mu * c.tau1) c.tauGradDiv x := by
  have hv : ∀ d, residualValue c old oldOld x d =
      c.rho * (c.w * x.u d + c.wOld * old.u d + c.wOldOld * oldOld.u d) + c.rho * c.tau1 *
        (1 / 2 * trace c.dim (transport c old oldOld x).gradU * x.u d +
          ∑ e ∈ range c.dim, (transport c old oldOld x).u e * x.gradU d e) - c.damping * x.u d := by
    intro d
    unfold residualValue transport
    have h1 : ¬ c.phys = .stokes := by rw [hphys]; decide
    have h2 : c.phys ≠ .incompressibleStationary := by rw [hphys]; decide
    rw [if_neg h1]
    dsimp only
    rw [if_pos h2]
    simp only [PointParams.weight, hphys, if_true]
    by_cases he : needExtrapolated c.lin = true
    · simp only [he, if_true, hlin.1, if_false, hbeta]
      ring
    · have he' : needExtrapolated c.lin = false := by simpa using he
      simp only [he', Bool.false_eq_true, if_false, convImplicit, hbeta]
      ring
  have hp : (residualPoint c old oldOld x).pres = -trace c.dim x.gradU := by
    simp [residualPoint, hlin.2]
  unfold tested
  rw [hp]
  have hs : ∑ i ∈ range c.dim, ∑ j ∈ range c.dim, (residualPoint c old oldOld x).grad i j * (selfTest x).gradU i j = _ :=
    stress_self c hdim x
  rw [hs]
  have hval : ∑ i ∈ range c.dim, (residualPoint c old oldOld x).value i * (selfTest x).u i =
      c.rho * (c.w * dot c.dim x.u x.u + c.wOld * dot c.dim old.u x.u + c.wOldOld * dot c.dim oldOld.u x.u)
      + c.rho * c.tau1 * energyFlux c.dim (transport c old oldOld x) x - c.damping * dot c.dim x.u x.u := by
    rw [← convection_work]
    unfold dot
    rw [mul_sum, mul_sum, mul_sum, mul_sum, mul_sum, ← sum_add_distrib, ← sum_add_distrib, mul_sum, ← sum_add_distrib,
      ← sum_sub_distrib]
    refine sum_congr rfl fun i _ => ?_
    show residualValue c old oldOld x i * x.u i = _
    rw [hv]
    ring
  rw [hval]
  show _ + _ * (-x.p) = _
  ring

/-! ## Energy estimates of a time step -/

section Global

variable {X Q : Type*} [AddCommGroup X] (D : Discretization K X Q)

/-- Weighted sum over all quadrature points. -/
def Spec.integral (f : Q → K) : K := ∑ q ∈ D.pts, D.jxw q * f q

/-- Kinetic energy of a discrete velocity. -/
def Spec.kinetic (par : Q → PointParams K) (x : X) : K :=
  Spec.integral D fun q => (par q).rho / 2 * dot (par q).dim (D.at_ x q).u (D.at_ x q).u

/-- `G`-norm of two successive time levels (the energy of the two-step scheme). -/
def Spec.kineticG (par : Q → PointParams K) (x y : X) : K :=
  Spec.integral D fun q => (par q).rho / 4 * (dot (par q).dim (D.at_ x q).u (D.at_ x q).u +
    dot (par q).dim (fun i => 2 * (D.at_ x q).u i - (D.at_ y q).u i) (fun i => 2 * (D.at_ x q).u i - (D.at_ y q).u i))

/-- A closed system without forcing at one time step: no-slip walls, constant in time coefficients of the right sign, the
discrete equations hold for the test function `(u, -p)` given by the solution `x` itself, and the quadrature sees that the
energy flux through the walls vanishes. -/
structure Spec.Closed (par : Q → PointParams K) (old oldOld x t : X) : Prop where
  jxw : ∀ q ∈ D.pts, 0 ≤ D.jxw q
  dim : ∀ q, (par q).dim = 1 ∨ (par q).dim = 2 ∨ (par q).dim = 3
  phys : ∀ q, (par q).phys = .incompressible
  lin : ∀ q, (par q).lin ≠ .coupledVelocityExplicit ∧ (par q).lin ≠ .projection
  beta : ∀ q, (par q).beta = 1 / 2
  rho : ∀ q, 0 ≤ (par q).rho
  mu : ∀ q, 0 ≤ (par q).mu
  tauGD : ∀ q, 0 ≤ (par q).tauGradDiv
  /-- the internal coefficient is minus the one of the parameter file (parameters.cc:466-467) -/
  damping : ∀ q, (par q).damping ≤ 0
  test : ∀ q ∈ D.pts, D.at_ t q = selfTest (D.at_ x q)
  solves : systemRhs D par old oldOld (fun _ => 0) x t = 0
  flux : Spec.integral D (fun q => (par q).rho * (par q).tau1 * energyFlux (par q).dim
    (transport (par q) (D.at_ old q) (D.at_ oldOld q) (D.at_ x q)) (D.at_ x q)) = 0

theorem dot_self_nonneg (n : ℕ) (u : ℕ → K) : 0 ≤ dot n u u := sum_nonneg fun _ _ => mul_self_nonneg _

theorem dissipation_nonneg (n : ℕ) (mu tau : K) (hmu : 0 ≤ mu) (htau : 0 ≤ tau) (x : PointIn K) :
    0 ≤ dissipation n mu tau x := by
  unfold dissipation
  have h : 0 ≤ ∑ i ∈ range n, ∑ j ∈ range n, (x.gradU i j + x.gradU j i) ^ 2 :=
    sum_nonneg fun _ _ => sum_nonneg fun _ _ => sq_nonneg _
  have : 0 ≤ trace n x.gradU ^ 2 := sq_nonneg _
  positivity

theorem integral_nonneg {D : Discretization K X Q} (hj : ∀ q ∈ D.pts, 0 ≤ D.jxw q) {f : Q → K}
    (h : ∀ q ∈ D.pts, 0 ≤ f q) : 0 ≤ Spec.integral D f :=
  sum_nonneg fun q hq => mul_nonneg (hj q hq) (h q hq)

/-- In a closed system the discrete time derivative does no positive work. -/
theorem closed_work (par : Q → PointParams K) (old oldOld x t : X) (h : Spec.Closed D par old oldOld x t)
    (htau : ∀ q, 0 ≤ (par q).tau1) :
    Spec.integral D (fun q => (par q).rho * ((par q).w * dot (par q).dim (D.at_ x q).u (D.at_ x q).u
      + (par q).wOld * dot (par q).dim (D.at_ old q).u (D.at_ x q).u
      + (par q).wOldOld * dot (par q).dim (D.at_ oldOld q).u (D.at_ x q).u)) ≤ 0 := by
  have hs := h.solves
  unfold systemRhs at hs
  rw [zero_sub, neg_eq_zero] at hs
  have e : ∀ q ∈ D.pts, D.jxw q * tested (par q).dim
      (residualPoint (par q) (D.at_ old q) (D.at_ oldOld q) (D.at_ x q)) (D.at_ t q) =
      D.jxw q * ((par q).rho * ((par q).w * dot (par q).dim (D.at_ x q).u (D.at_ x q).u
        + (par q).wOld * dot (par q).dim (D.at_ old q).u (D.at_ x q).u
        + (par q).wOldOld * dot (par q).dim (D.at_ oldOld q).u (D.at_ x q).u)) +
      D.jxw q * ((par q).rho * (par q).tau1 * energyFlux (par q).dim
        (transport (par q) (D.at_ old q) (D.at_ oldOld q) (D.at_ x q)) (D.at_ x q)) +
      D.jxw q * (- (par q).damping * dot (par q).dim (D.at_ x q).u (D.at_ x q).u +
        dissipation (par q).dim ((par q).mu * (par q).tau1) (par q).tauGradDiv (D.at_ x q)) := by
    intro q hq
    rw [h.test q hq, C60_power_balance (par q) (h.dim q) (h.phys q) (h.lin q) (h.beta q)]
    ring
  rw [sum_congr rfl e, sum_add_distrib, sum_add_distrib] at hs
  have hf := h.flux
  unfold Spec.integral at hf ⊢
  rw [hf] at hs
  have hd : 0 ≤ ∑ q ∈ D.pts, D.jxw q * (- (par q).damping * dot (par q).dim (D.at_ x q).u (D.at_ x q).u +
        dissipation (par q).dim ((par q).mu * (par q).tau1) (par q).tauGradDiv (D.at_ x q)) := by
    refine integral_nonneg (D := D) h.jxw fun q _ => add_nonneg (mul_nonneg ?_ (dot_self_nonneg _ _)) ?_
    · have := h.damping q; linarith
    · exact dissipation_nonneg _ _ _ (mul_nonneg (h.mu q) (htau q)) (h.tauGD q) _
  linarith

theorem dot_sub_self (n : ℕ) (u v : ℕ → K) :
    dot n (fun i => u i - v i) (fun i => u i - v i) = dot n u u - 2 * dot n v u + dot n v v := by
  unfold dot
  rw [mul_sum, ← sum_sub_distrib, ← sum_add_distrib]
  exact sum_congr rfl fun _ _ => by ring

theorem integral_mono {D : Discretization K X Q} (hj : ∀ q ∈ D.pts, 0 ≤ D.jxw q) {f g : Q → K}
    (h : ∀ q ∈ D.pts, f q ≤ g q) : Spec.integral D f ≤ Spec.integral D g :=
  sum_le_sum fun q hq => mul_le_mul_of_nonneg_left (h q hq) (hj q hq)

theorem integral_smul (D : Discretization K X Q) (a : K) (f : Q → K) :
    Spec.integral D (fun q => a * f q) = a * Spec.integral D f := by
  unfold Spec.integral
  rw [mul_sum]
  exact sum_congr rfl fun _ _ => by ring

theorem integral_sub (D : Discretization K X Q) (f g : Q → K) :
    Spec.integral D (fun q => f q - g q) = Spec.integral D f - Spec.integral D g := by
  unfold Spec.integral
  rw [← sum_sub_distrib]
  exact sum_congr rfl fun _ _ => by ring

theorem tau1_one {p : Params K} {t : TS K} (h : Reachable p t) (hs : p.scheme = .implicitEuler ∨ p.scheme = .bdf2) :
    t.next.tau1 = 1 := by
  obtain ⟨-, h1, h2, -⟩ := C05_theta_weights p t h
  have : t.tau2 = 0 := h2.2 hs
  rw [this, add_zero] at h1
  exact h1

/-- **C60 (implicit Euler).** In a closed system without forcing the kinetic energy does not grow in a time step of
implicit Euler (or the first step of BDF-2), whatever the step size, mesh, viscosity and linearization (implicit or
semi-implicit): exactly if `weight()` is the exact weight of the step sizes
(`C05_constant_steps_exact`), else up to the relative staleness `2e-12` of the weight. -/
theorem C60_euler_energy (p : Params K) (hp : p.Good) (t : TS K) (hr : ReachableFresh p t) (he : t.atEnd = false)
    (hs : p.scheme = .implicitEuler ∨ (p.scheme = .bdf2 ∧ t.now = t.start)) (par0 : Q → PointParams K)
    (old oldOld x test : X) (hc : Spec.Closed D (fun q => (par0 q).withClock t.next) old oldOld x test) :
    (1 - 2 / 10 ^ 12) * Spec.kinetic D par0 x ≤ Spec.kinetic D par0 old ∧
    (t.next.w = t.exactWeight → Spec.kinetic D par0 x ≤ Spec.kinetic D par0 old) := by
  have htau := tau1_one (t := t) hr.reachable (hs.imp id And.left)
  obtain ⟨hsum, hpos, hclose, -⟩ := C05_three_weights_sum_zero p hp t (Or.inl hr) he
  have hsch : t.scheme = p.scheme := (C05_theta_weights p t hr.reachable).1
  have hcond : ¬ (t.scheme = .bdf2 ∧ t.now ≠ t.start) := by
    rintro ⟨h1, h2⟩
    rcases hs with h | h
    · rw [hsch, h] at h1; cases h1
    · exact h2 h.2
  have hOld : t.next.wOld = -t.exactWeight := by
    have : t.next.wOld = -1 / t.next.cur := by
      simp only [TS.next, hcond, decide_false, Bool.false_eq_true, if_false]
    rw [this]; unfold TS.exactWeight; rw [if_neg hcond]; ring
  have hOO : t.next.wOldOld = 0 := by rw [hOld] at hsum; linarith
  have hw := closed_work D _ old oldOld x test hc (fun q => by
    show 0 ≤ t.next.tau1
    rw [htau]; exact zero_le_one)
  have hrho : ∀ q, 0 ≤ (par0 q).rho := hc.rho
  set e := t.exactWeight with hedef
  have main : ∀ w δ : K, w = t.next.w → (1 - δ) * e ≤ w → 0 ≤ δ →
      (1 - 2 * δ) * Spec.kinetic D par0 x ≤ Spec.kinetic D par0 old := by
    intro w δ hwe hlow _
    have hle : Spec.integral D (fun q => e * ((1 - 2 * δ) * ((par0 q).rho / 2 * dot (par0 q).dim (D.at_ x q).u (D.at_ x q).u)
        - (par0 q).rho / 2 * dot (par0 q).dim (D.at_ old q).u (D.at_ old q).u)) ≤ 0 := by
      refine le_trans (integral_mono hc.jxw fun q _ => ?_) hw
      have hd := dot_self_nonneg (par0 q).dim (fun i => (D.at_ x q).u i - (D.at_ old q).u i)
      rw [dot_sub_self] at hd
      have hxx := dot_self_nonneg (par0 q).dim (D.at_ x q).u
      show _ ≤ (par0 q).rho * (t.next.w * dot (par0 q).dim (D.at_ x q).u (D.at_ x q).u
        + t.next.wOld * dot (par0 q).dim (D.at_ old q).u (D.at_ x q).u
        + t.next.wOldOld * dot (par0 q).dim (D.at_ oldOld q).u (D.at_ x q).u)
      rw [hOld, hOO, ← hwe]
      have h1 := mul_nonneg (mul_nonneg (hrho q) hpos.le) hd
      have h2 := mul_nonneg (mul_nonneg (hrho q) (sub_nonneg.2 hlow)) hxx
      nlinarith
    rw [integral_smul, integral_sub, integral_smul] at hle
    have := nonpos_of_mul_nonpos_right hle hpos
    unfold Spec.kinetic
    linarith
  constructor
  · have := main t.next.w (1 / 10 ^ 12) rfl (by have := (abs_le.1 hclose).1; linarith) (by positivity)
    have h2 : (2 : K) * (1 / 10 ^ 12) = 2 / 10 ^ 12 := by ring
    rwa [h2] at this
  · intro hcg
    have := main t.next.w 0 rfl (by rw [hcg]; linarith) le_rfl
    simpa using this

/-- `G`-stability identity of BDF-2. -/
theorem bdf2_identity (n : ℕ) (u o oo : ℕ → K) :
    3 / 2 * dot n u u - 2 * dot n o u + 1 / 2 * dot n oo u =
      1 / 4 * (dot n u u + dot n (fun i => 2 * u i - o i) (fun i => 2 * u i - o i))
      - 1 / 4 * (dot n o o + dot n (fun i => 2 * o i - oo i) (fun i => 2 * o i - oo i))
      + 1 / 4 * dot n (fun i => u i - 2 * o i + oo i) (fun i => u i - 2 * o i + oo i) := by
  unfold dot
  simp only [mul_sum, ← sum_add_distrib, ← sum_sub_distrib]
  exact sum_congr rfl fun _ _ => by ring

/-- **C60 (BDF-2).** In a closed system without forcing the energy of the two-step scheme
`ρ/4 (|u|² + |2u - u_old|²)` does not grow in a BDF-2 step that has the same size as the one before. -/
theorem C60_bdf2_energy (p : Params K) (hp : p.Good) (t : TS K) (hr : ReachableFresh p t) (he : t.atEnd = false)
    (hs : p.scheme = .bdf2) (hn : t.now ≠ t.start) (heq : t.next.cur = t.cur) (par0 : Q → PointParams K)
    (old oldOld x test : X) (hc : Spec.Closed D (fun q => (par0 q).withClock t.next) old oldOld x test) :
    (1 - 6 / 10 ^ 12) * Spec.kineticG D par0 x old ≤ Spec.kineticG D par0 old oldOld ∧
    (t.next.w = t.exactWeight → Spec.kineticG D par0 x old ≤ Spec.kineticG D par0 old oldOld) := by
  have htau := tau1_one (t := t) hr.reachable (Or.inr hs)
  obtain ⟨hsum, hpos, hclose, -⟩ := C05_three_weights_sum_zero p hp t (Or.inl hr) he
  have hsch : t.scheme = .bdf2 := by rw [(C05_theta_weights p t hr.reachable).1, hs]
  have hL := (reachable_inv hp hr.reachable).cur_pos
  have hl : t.newLast = t.cur := by simp [TS.newLast, hn]
  have hE : t.exactWeight = 3 / 2 * (1 / t.cur) := by
    unfold TS.exactWeight
    rw [if_pos ⟨hsch, hn⟩, hl, heq]; field_simp; ring
  have hOld : t.next.wOld = -2 * (1 / t.cur) := by
    have : t.next.wOld = -((t.next.cur + t.newLast) / (t.next.cur * t.newLast)) := by simp [TS.next, hsch, hn]
    rw [this, hl, heq]; field_simp; ring
  have hOO : t.next.wOldOld = 1 / 2 * (1 / t.cur) := by rw [hOld, hE] at hsum; linarith
  have hw := closed_work D _ old oldOld x test hc (fun q => by
    show 0 ≤ t.next.tau1
    rw [htau]; exact zero_le_one)
  have hrho : ∀ q, 0 ≤ (par0 q).rho := hc.rho
  set k := 1 / t.cur with hk
  have hkpos : 0 < k := by rw [hk]; positivity
  have main : ∀ δ : K, (1 - δ) * (3 / 2 * k) ≤ t.next.w → 0 ≤ δ →
      (1 - 6 * δ) * Spec.kineticG D par0 x old ≤ Spec.kineticG D par0 old oldOld := by
    intro δ hlow hδ
    have hle : Spec.integral D (fun q => k * ((1 - 6 * δ) * ((par0 q).rho / 4 *
          (dot (par0 q).dim (D.at_ x q).u (D.at_ x q).u +
            dot (par0 q).dim (fun i => 2 * (D.at_ x q).u i - (D.at_ old q).u i)
              (fun i => 2 * (D.at_ x q).u i - (D.at_ old q).u i)))
        - (par0 q).rho / 4 * (dot (par0 q).dim (D.at_ old q).u (D.at_ old q).u +
            dot (par0 q).dim (fun i => 2 * (D.at_ old q).u i - (D.at_ oldOld q).u i)
              (fun i => 2 * (D.at_ old q).u i - (D.at_ oldOld q).u i)))) ≤ 0 := by
      refine le_trans (integral_mono hc.jxw fun q _ => ?_) hw
      show _ ≤ (par0 q).rho * (t.next.w * dot (par0 q).dim (D.at_ x q).u (D.at_ x q).u
        + t.next.wOld * dot (par0 q).dim (D.at_ old q).u (D.at_ x q).u
        + t.next.wOldOld * dot (par0 q).dim (D.at_ oldOld q).u (D.at_ x q).u)
      rw [hOld, hOO]
      have hid := bdf2_identity (par0 q).dim (D.at_ x q).u (D.at_ old q).u (D.at_ oldOld q).u
      have hd := dot_self_nonneg (par0 q).dim
        (fun i => (D.at_ x q).u i - 2 * (D.at_ old q).u i + (D.at_ oldOld q).u i)
      have hxx := dot_self_nonneg (par0 q).dim (D.at_ x q).u
      have hyy := dot_self_nonneg (par0 q).dim (fun i => 2 * (D.at_ x q).u i - (D.at_ old q).u i)
      generalize dot (par0 q).dim (fun i => (D.at_ x q).u i - 2 * (D.at_ old q).u i + (D.at_ oldOld q).u i)
        (fun i => (D.at_ x q).u i - 2 * (D.at_ old q).u i + (D.at_ oldOld q).u i) = a at *
      generalize dot (par0 q).dim (fun i => 2 * (D.at_ x q).u i - (D.at_ old q).u i)
        (fun i => 2 * (D.at_ x q).u i - (D.at_ old q).u i) = b at *
      generalize dot (par0 q).dim (fun i => 2 * (D.at_ old q).u i - (D.at_ oldOld q).u i)
        (fun i => 2 * (D.at_ old q).u i - (D.at_ oldOld q).u i) = c at *
      generalize dot (par0 q).dim (D.at_ x q).u (D.at_ x q).u = xx at *
      generalize dot (par0 q).dim (D.at_ old q).u (D.at_ x q).u = ox at *
      generalize dot (par0 q).dim (D.at_ oldOld q).u (D.at_ x q).u = oox at *
      generalize dot (par0 q).dim (D.at_ old q).u (D.at_ old q).u = o2 at *
      have h1 := mul_nonneg (mul_nonneg (hrho q) hkpos.le) hd
      have h2 := mul_nonneg (mul_nonneg (hrho q) (sub_nonneg.2 hlow)) hxx
      have h3 := mul_nonneg (mul_nonneg (mul_nonneg (hrho q) hkpos.le) hδ) hyy
      have hox : ox = 1 / 2 * (3 / 2 * xx + 1 / 2 * oox - (1 / 4 * (xx + b) - 1 / 4 * (o2 + c) + 1 / 4 * a)) := by linarith
      rw [hox]
      nlinarith
    rw [integral_smul, integral_sub, integral_smul] at hle
    have := nonpos_of_mul_nonpos_right hle hkpos
    unfold Spec.kineticG
    linarith
  rw [hE] at hclose
  constructor
  · have := main (1 / 10 ^ 12) (by have := (abs_le.1 hclose).1; linarith) (by positivity)
    have h2 : (6 : K) * (1 / 10 ^ 12) = 6 / 10 ^ 12 := by ring
    rwa [h2] at this
  · intro hcg
    have := main 0 (by rw [hcg]; linarith) le_rfl
    simpa using this

/-- Energy identity of a BDF-2 step with unequal step sizes; `e` and `d` are the parts of the weights that belong to the first
and to the second difference. -/
theorem bdf2_variable_identity (n : ℕ) (e d : K) (u o oo : ℕ → K) :
    2 * ((e + d) * dot n u u - (e + 2 * d) * dot n o u + d * dot n oo u) =
      (e + d) * dot n u u - e * dot n o o - d * dot n (fun i => 2 * o i - oo i) (fun i => 2 * o i - oo i)
      + d * dot n (fun i => u i - 2 * o i + oo i) (fun i => u i - 2 * o i + oo i)
      + e * dot n (fun i => u i - o i) (fun i => u i - o i) := by
  unfold dot
  simp only [mul_sum, ← sum_add_distrib, ← sum_sub_distrib]
  exact sum_congr rfl fun i _ => by ring

/-- **C60 (BDF-2, any step).** After a BDF-2 step of at most twice the size of the one before - in particular the last step of a
run, which is shortened or stretched to meet the end time - of a closed system without forcing, the kinetic energy is at most
twice the energy of the two-step scheme before the step. -/
theorem C60_bdf2_any_step (p : Params K) (hp : p.Good) (t : TS K) (hr : ReachableFresh p t) (he : t.atEnd = false)
    (hs : p.scheme = .bdf2) (hn : t.now ≠ t.start) (hle2 : t.next.cur ≤ 2 * t.cur) (par0 : Q → PointParams K)
    (old oldOld x test : X) (hc : Spec.Closed D (fun q => (par0 q).withClock t.next) old oldOld x test) :
    (1 - 2 / 10 ^ 12) * Spec.kinetic D par0 x ≤ 2 * Spec.kineticG D par0 old oldOld ∧
    (t.next.w = t.exactWeight → Spec.kinetic D par0 x ≤ 2 * Spec.kineticG D par0 old oldOld) := by
  have htau := tau1_one (t := t) hr.reachable (Or.inr hs)
  obtain ⟨hsum, hpos, hclose, -⟩ := C05_three_weights_sum_zero p hp t (Or.inl hr) he
  have hsch : t.scheme = .bdf2 := by rw [(C05_theta_weights p t hr.reachable).1, hs]
  have hL := (reachable_inv hp hr.reachable).cur_pos
  have hC : 0 < t.next.cur := (inv_next hp (reachable_inv hp hr.reachable) he).cur_pos
  have hl : t.newLast = t.cur := by simp [TS.newLast, hn]
  have hE : t.exactWeight = (2 * t.next.cur + t.cur) / (t.next.cur * (t.next.cur + t.cur)) := by
    unfold TS.exactWeight
    rw [if_pos ⟨hsch, hn⟩, hl]
  have hOld : t.next.wOld = -((t.next.cur + t.cur) / (t.next.cur * t.cur)) := by
    have : t.next.wOld = -((t.next.cur + t.newLast) / (t.next.cur * t.newLast)) := by simp [TS.next, hsch, hn]
    rw [this, hl]
  have hw := closed_work D _ old oldOld x test hc (fun q => by
    show 0 ≤ t.next.tau1
    rw [htau]; exact zero_le_one)
  have hrho : ∀ q, 0 ≤ (par0 q).rho := hc.rho
  obtain ⟨C, hCdef⟩ : ∃ C, C = t.next.cur := ⟨_, rfl⟩
  obtain ⟨L, hLdef⟩ : ∃ L, L = t.cur := ⟨_, rfl⟩
  rw [← hCdef, ← hLdef] at hE hOld
  rw [← hCdef] at hC hle2
  rw [← hLdef] at hL hle2
  -- the parts of the weights
  obtain ⟨d, hd⟩ : ∃ d, d = C / (L * (C + L)) := ⟨_, rfl⟩
  obtain ⟨e, hed⟩ : ∃ e, e = (L ^ 2 + 2 * C * L - C ^ 2) / (C * L * (C + L)) := ⟨_, rfl⟩
  have hdpos : 0 < d := by rw [hd]; positivity
  have hepos : 0 < e := by
    rw [hed]
    refine div_pos ?_ (by positivity)
    nlinarith [mul_nonneg hC.le (sub_nonneg.2 hle2), mul_pos hL hL]
  have hA : t.exactWeight = e + d := by rw [hE, hd, hed]; field_simp; ring
  have hB : t.next.wOld = -(e + 2 * d) := by rw [hOld, hd, hed]; field_simp; ring
  have hOO : t.next.wOldOld = d := by rw [hA, hB] at hsum; linarith
  have main : ∀ δ : K, (1 - δ) * (e + d) ≤ t.next.w → 0 ≤ δ →
      (1 - 2 * δ) * Spec.kinetic D par0 x ≤ 2 * Spec.kineticG D par0 old oldOld := by
    intro δ hlow hδ
    have hle : Spec.integral D (fun q => (e + d) * ((1 - 2 * δ) * ((par0 q).rho / 2 * dot (par0 q).dim (D.at_ x q).u (D.at_ x q).u)
        - 2 * ((par0 q).rho / 4 * (dot (par0 q).dim (D.at_ old q).u (D.at_ old q).u +
            dot (par0 q).dim (fun i => 2 * (D.at_ old q).u i - (D.at_ oldOld q).u i)
              (fun i => 2 * (D.at_ old q).u i - (D.at_ oldOld q).u i))))) ≤ 0 := by
      refine le_trans (integral_mono hc.jxw fun q _ => ?_) hw
      show _ ≤ (par0 q).rho * (t.next.w * dot (par0 q).dim (D.at_ x q).u (D.at_ x q).u
        + t.next.wOld * dot (par0 q).dim (D.at_ old q).u (D.at_ x q).u
        + t.next.wOldOld * dot (par0 q).dim (D.at_ oldOld q).u (D.at_ x q).u)
      rw [hB, hOO]
      have hid := bdf2_variable_identity (par0 q).dim e d (D.at_ x q).u (D.at_ old q).u (D.at_ oldOld q).u
      have ha := dot_self_nonneg (par0 q).dim
        (fun i => (D.at_ x q).u i - 2 * (D.at_ old q).u i + (D.at_ oldOld q).u i)
      have hb := dot_self_nonneg (par0 q).dim (fun i => (D.at_ x q).u i - (D.at_ old q).u i)
      have hxx := dot_self_nonneg (par0 q).dim (D.at_ x q).u
      have hoo := dot_self_nonneg (par0 q).dim (D.at_ old q).u
      have hcc := dot_self_nonneg (par0 q).dim (fun i => 2 * (D.at_ old q).u i - (D.at_ oldOld q).u i)
      generalize dot (par0 q).dim (fun i => (D.at_ x q).u i - 2 * (D.at_ old q).u i + (D.at_ oldOld q).u i)
        (fun i => (D.at_ x q).u i - 2 * (D.at_ old q).u i + (D.at_ oldOld q).u i) = a at *
      generalize dot (par0 q).dim (fun i => (D.at_ x q).u i - (D.at_ old q).u i)
        (fun i => (D.at_ x q).u i - (D.at_ old q).u i) = b at *
      generalize dot (par0 q).dim (fun i => 2 * (D.at_ old q).u i - (D.at_ oldOld q).u i)
        (fun i => 2 * (D.at_ old q).u i - (D.at_ oldOld q).u i) = c at *
      generalize dot (par0 q).dim (D.at_ x q).u (D.at_ x q).u = xx at *
      generalize dot (par0 q).dim (D.at_ old q).u (D.at_ x q).u = ox at *
      generalize dot (par0 q).dim (D.at_ oldOld q).u (D.at_ x q).u = oox at *
      generalize dot (par0 q).dim (D.at_ old q).u (D.at_ old q).u = o2 at *
      have h1 := mul_nonneg (mul_nonneg (hrho q) hdpos.le) ha
      have h2 := mul_nonneg (mul_nonneg (hrho q) hepos.le) hb
      have h3 := mul_nonneg (mul_nonneg (hrho q) hdpos.le) hoo
      have h4 := mul_nonneg (mul_nonneg (hrho q) hepos.le) hcc
      have h5 := mul_nonneg (mul_nonneg (hrho q) (sub_nonneg.2 hlow)) hxx
      have hid2 := congrArg (fun z => (par0 q).rho * z) hid
      linarith
    rw [integral_smul, integral_sub, integral_smul, integral_smul] at hle
    have := nonpos_of_mul_nonpos_right hle (add_pos hepos hdpos)
    unfold Spec.kinetic Spec.kineticG
    linarith
  rw [hA] at hclose
  constructor
  · have := main (1 / 10 ^ 12) (by have := (abs_le.1 hclose).1; linarith) (by positivity)
    have h2 : (2 : K) * (1 / 10 ^ 12) = 2 / 10 ^ 12 := by ring
    rwa [h2] at this
  · intro hcg
    have := main 0 (by rw [hcg, hA]; linarith) le_rfl
    simpa using this

/-- **C60 (whole run, implicit Euler).** For any number of steps of any requested sizes of a closed system without forcing, the
kinetic energy never exceeds the initial one: exactly if `weight()` is exact in all steps (`C05_constant_steps_exact`), else up
to a factor `1 + 2e-12` per step. -/
theorem C60_euler_energy_run (p : Params K) (hp : p.Good) (hs : p.scheme = .implicitEuler) (N : ℕ) (t : ℕ → TS K)
    (hr : ∀ n < N, ReachableFresh p (t n) ∧ (t n).atEnd = false) (par0 : Q → PointParams K) (y oldOld test : ℕ → X)
    (hc : ∀ n < N, Spec.Closed D (fun q => (par0 q).withClock (t n).next) (y n) (oldOld n) (y (n + 1)) (test n)) :
    ∀ n ≤ N, (1 - 2 / 10 ^ 12) ^ n * Spec.kinetic D par0 (y n) ≤ Spec.kinetic D par0 (y 0) ∧
      ((∀ k < n, (t k).next.w = (t k).exactWeight) → Spec.kinetic D par0 (y n) ≤ Spec.kinetic D par0 (y 0)) := by
  intro n
  induction n with
  | zero => intro _; simp
  | succ n ih =>
    intro hn
    obtain ⟨h1, h2⟩ := ih (by omega)
    obtain ⟨hr1, hr2⟩ := hr n (by omega)
    obtain ⟨h3, h4⟩ := C60_euler_energy D p hp (t n) hr1 hr2 (.inl hs) par0 _ _ _ _ (hc n (by omega))
    constructor
    · have hpos : (0 : K) ≤ (1 - 2 / 10 ^ 12) ^ n := pow_nonneg (by norm_num) n
      have := mul_le_mul_of_nonneg_left h3 hpos
      calc (1 - 2 / 10 ^ 12) ^ (n + 1) * Spec.kinetic D par0 (y (n + 1))
          = (1 - 2 / 10 ^ 12) ^ n * ((1 - 2 / 10 ^ 12) * Spec.kinetic D par0 (y (n + 1))) := by ring
        _ ≤ _ := this
        _ ≤ _ := h1
    · intro hw
      exact le_trans (h4 (hw n (by omega))) (h2 fun k hk => hw k (by omega))

theorem nexts_fresh (p : Params K) (n : ℕ) (he : (nexts (TS.ctor p) n).atEnd = false) :
    ReachableFresh p (nexts (TS.ctor p) n) := by
  refine ⟨List.replicate n .advance, ?_, ?_, ?_⟩
  · intro c hc; rw [List.eq_of_mem_replicate hc]; trivial
  · intro hc
    exact absurd (List.eq_of_mem_replicate hc) (by simp)
  · have : ∀ n (t : TS K), (nexts t n).atEnd = false → runCmds t (List.replicate n .advance) = some (nexts t n) := by
      intro n
      induction n with
      | zero => intro t _; rfl
      | succ n ih =>
        intro t he
        have e : nexts t (n + 1) = nexts t.next n := rfl
        have h0 : t.atEnd = false := by
          have hmono : ∀ k (t : TS K), (nexts t k).atEnd = false → t.atEnd = false := by
            intro k
            induction k with
            | zero => intro t h; exact h
            | succ k ih => intro t h; exact (next_of_not_snaps (ih t.next h)).1
          exact hmono _ _ he
        rw [e] at he ⊢
        rw [List.replicate_succ]
        simp only [runCmds, Cmd.exec, TS.nextChecked, h0]
        exact ih t.next he
    exact this n _ he

/-- **C60 (whole run, BDF-2).** In a run of BDF-2 with the configured step size, before the end: the first step does not increase
the kinetic energy, and from then on the energy of the two-step scheme never exceeds its value after the first step, whatever
the number of steps. -/
theorem C60_bdf2_energy_run (p : Params K) (hp : p.Good) (hmin : p.stepMin ≤ p.stepStart) (hmax : p.stepStart ≤ p.stepMax)
    (hs : p.scheme = .bdf2) (N : ℕ) (hend : (nexts (TS.ctor p) N).atEnd = false) (par0 : Q → PointParams K)
    (y oldOld test : ℕ → X) (hoo : ∀ n, oldOld (n + 1) = y n)
    (hc : ∀ n < N, Spec.Closed D (fun q => (par0 q).withClock (nexts (TS.ctor p) (n + 1))) (y n) (oldOld n) (y (n + 1))
      (test n)) :
    (1 ≤ N → Spec.kinetic D par0 (y 1) ≤ Spec.kinetic D par0 (y 0)) ∧
    ∀ n, n + 1 ≤ N → Spec.kineticG D par0 (y (n + 1)) (y n) ≤ Spec.kineticG D par0 (y 1) (y 0) := by
  have hn : ∀ n, nexts (TS.ctor p) (n + 1) = (nexts (TS.ctor p) n).next := fun n => Function.iterate_succ_apply' _ _ _
  have hback : ∀ k, k ≤ N → (nexts (TS.ctor p) (N - k)).atEnd = false := by
    intro k
    induction k with
    | zero => intro _; exact hend
    | succ k ih =>
      intro hk
      have := ih (by omega)
      rw [show N - k = (N - (k + 1)) + 1 by omega, hn] at this
      exact (next_of_not_snaps this).1
  have hall : ∀ n ≤ N, (nexts (TS.ctor p) n).atEnd = false := fun n h => by
    have := hback (N - n) (by omega)
    rwa [show N - (N - n) = n by omega] at this
  constructor
  · intro h1
    have hc0 := hc 0 h1
    rw [hn] at hc0
    exact (C60_euler_energy D p hp (nexts (TS.ctor p) 0) (nexts_fresh p 0 (hall 0 (by omega))) (hall 0 (by omega))
      (.inr ⟨hs, rfl⟩) par0 _ _ _ _ hc0).2 (by
        rw [← hn]; exact (C05_constant_steps_exact p hp hmin hmax 0 (hall 1 h1)).1)
  · intro n
    induction n with
    | zero => intro _; exact le_rfl
    | succ n ih =>
      intro hle
      refine le_trans ?_ (ih (by omega))
      have hcn := hc (n + 1) (by omega)
      rw [hn, hoo] at hcn
      have hfr := nexts_fresh p (n + 1) (hall _ (by omega))
      refine (C60_bdf2_energy D p hp _ hfr (hall _ (by omega)) hs ?_ ?_ par0 _ _ _ _ hcn).2 ?_
      · intro hh
        have := (stepNo_zero_iff hp hfr.reachable).2 hh
        rw [hn] at this
        exact absurd this (Nat.succ_ne_zero _)
      · rw [← hn, (C05_constant_steps_exact p hp hmin hmax (n + 1) (hall _ (by omega))).2.1,
          (C05_constant_steps_exact p hp hmin hmax n (hall _ (by omega))).2.1]
      · rw [← hn]
        exact (C05_constant_steps_exact p hp hmin hmax (n + 1) (hall _ (by omega))).1

/-- the two-step energy after the first step is bounded by the kinetic energies of the two levels -/
theorem kineticG_le (D : Discretization K X Q) (hj : ∀ q ∈ D.pts, 0 ≤ D.jxw q) (par0 : Q → PointParams K)
    (hrho : ∀ q, 0 ≤ (par0 q).rho) (x y : X) :
    Spec.kineticG D par0 x y ≤ 7 / 2 * Spec.kinetic D par0 x + 3 / 2 * Spec.kinetic D par0 y := by
  have h : Spec.kineticG D par0 x y ≤ Spec.integral D (fun q => 7 / 2 * ((par0 q).rho / 2 * dot (par0 q).dim (D.at_ x q).u (D.at_ x q).u)
      - (-(3 / 2)) * ((par0 q).rho / 2 * dot (par0 q).dim (D.at_ y q).u (D.at_ y q).u)) := by
    refine integral_mono hj fun q _ => ?_
    have hid : dot (par0 q).dim (fun i => 2 * (D.at_ x q).u i - (D.at_ y q).u i) (fun i => 2 * (D.at_ x q).u i - (D.at_ y q).u i)
        + 2 * dot (par0 q).dim (fun i => (D.at_ x q).u i - (-1) * (D.at_ y q).u i) (fun i => (D.at_ x q).u i - (-1) * (D.at_ y q).u i)
        = 6 * dot (par0 q).dim (D.at_ x q).u (D.at_ x q).u + 3 * dot (par0 q).dim (D.at_ y q).u (D.at_ y q).u := by
      unfold dot
      simp only [mul_sum, ← sum_add_distrib]
      exact sum_congr rfl fun i _ => by ring
    have hs := dot_self_nonneg (par0 q).dim (fun i => (D.at_ x q).u i - (-1) * (D.at_ y q).u i)
    have h1 := mul_nonneg (hrho q) hs
    have h2 := congrArg (fun z => (par0 q).rho * z) hid
    linarith
  rw [integral_sub, integral_smul, integral_smul] at h
  unfold Spec.kinetic
  linarith

theorem kinetic_le_kineticG (D : Discretization K X Q) (hj : ∀ q ∈ D.pts, 0 ≤ D.jxw q) (par0 : Q → PointParams K)
    (hrho : ∀ q, 0 ≤ (par0 q).rho) (x y : X) : Spec.kinetic D par0 x ≤ 2 * Spec.kineticG D par0 x y := by
  unfold Spec.kinetic Spec.kineticG
  rw [← integral_smul]
  refine integral_mono hj fun q _ => ?_
  have := mul_nonneg (hrho q) (dot_self_nonneg (par0 q).dim (fun i => 2 * (D.at_ x q).u i - (D.at_ y q).u i))
  linarith

theorem kinetic_nonneg (D : Discretization K X Q) (hj : ∀ q ∈ D.pts, 0 ≤ D.jxw q) (par0 : Q → PointParams K)
    (hrho : ∀ q, 0 ≤ (par0 q).rho) (x : X) : 0 ≤ Spec.kinetic D par0 x :=
  integral_nonneg hj fun q _ => mul_nonneg (by have := hrho q; linarith) (dot_self_nonneg _ _)

/-- **C60 (complete run, BDF-2).** In a run of BDF-2 with the configured step size over the whole time interval - any number of
steps, including the last one, which is cut to meet the end time - of a closed system without forcing, the kinetic energy
never exceeds ten times the initial one (up to the relative staleness `2e-12` of the weight). -/
theorem C60_bdf2_bounded_run (p : Params K) (hp : p.Good) (hmin : p.stepMin ≤ p.stepStart) (hmax : p.stepStart ≤ p.stepMax)
    (hs : p.scheme = .bdf2) (N : ℕ) (hend : (nexts (TS.ctor p) N).atEnd = false) (par0 : Q → PointParams K)
    (y oldOld test : ℕ → X) (hoo : ∀ n, oldOld (n + 1) = y n)
    (hc : ∀ n ≤ N, Spec.Closed D (fun q => (par0 q).withClock (nexts (TS.ctor p) (n + 1))) (y n) (oldOld n) (y (n + 1))
      (test n)) :
    ∀ n ≤ N + 1, (1 - 2 / 10 ^ 12) * Spec.kinetic D par0 (y n) ≤ 10 * Spec.kinetic D par0 (y 0) := by
  have hj : ∀ q ∈ D.pts, 0 ≤ D.jxw q := (hc 0 (Nat.zero_le _)).jxw
  have hrho : ∀ q, 0 ≤ (par0 q).rho := (hc 0 (Nat.zero_le _)).rho
  have hK := kinetic_nonneg D hj par0 hrho
  have hδ : (0 : K) ≤ 2 / 10 ^ 12 := by positivity
  have hN : nexts (TS.ctor p) (N + 1) = (nexts (TS.ctor p) N).next := Function.iterate_succ_apply' _ _ _
  have hfr := nexts_fresh p N hend
  obtain ⟨h1, hG⟩ := C60_bdf2_energy_run D p hp hmin hmax hs N hend par0 y oldOld test hoo (fun n h => hc n h.le)
  -- the two-step energy of all levels before the last step
  have hGall : ∀ n, n + 1 ≤ N → 2 * Spec.kineticG D par0 (y (n + 1)) (y n) ≤ 10 * Spec.kinetic D par0 (y 0) := by
    intro n hn
    have a := hG n hn
    have b := kineticG_le D hj par0 hrho (y 1) (y 0)
    have c := h1 (by omega)
    linarith
  intro n hn
  rcases Nat.eq_zero_or_pos n with rfl | hpos
  · have := mul_nonneg hδ (hK (y 0))
    have := hK (y 0)
    linarith
  obtain ⟨m, rfl⟩ : ∃ m, n = m + 1 := ⟨n - 1, by omega⟩
  by_cases hm : m + 1 ≤ N
  · have a := kinetic_le_kineticG D hj par0 hrho (y (m + 1)) (y m)
    have b := hGall m hm
    have := mul_nonneg hδ (hK (y (m + 1)))
    linarith
  · obtain rfl : m = N := by omega
    have hcm := hc m le_rfl
    rw [hN] at hcm
    rcases Nat.eq_zero_or_pos m with rfl | hmpos
    · have := (C60_euler_energy D p hp (nexts (TS.ctor p) 0) hfr hend (.inr ⟨hs, rfl⟩) par0 _ _ _ _ hcm).1
      have h0 := hK (y 0)
      have : (1 - 2 / 10 ^ 12) * Spec.kinetic D par0 (y 1) ≤ Spec.kinetic D par0 (y 0) := this
      show (1 - 2 / 10 ^ 12) * Spec.kinetic D par0 (y 1) ≤ _
      linarith
    · obtain ⟨k, rfl⟩ : ∃ k, m = k + 1 := ⟨m - 1, by omega⟩
      have hstep := C05_constant_steps_exact p hp hmin hmax k hend
      have hk : nexts (TS.ctor p) (k + 1) = (nexts (TS.ctor p) k).next := Function.iterate_succ_apply' _ _ _
      rw [hoo] at hcm
      have hns : (nexts (TS.ctor p) (k + 1)).now ≠ (nexts (TS.ctor p) (k + 1)).start := by
        intro hh
        have := (stepNo_zero_iff hp hfr.reachable).2 hh
        rw [hk] at this
        exact absurd this (Nat.succ_ne_zero _)
      have hlast : (nexts (TS.ctor p) (k + 1)).next.cur ≤ 2 * (nexts (TS.ctor p) (k + 1)).cur := by
        have hLpos := (reachable_inv hp hfr.reachable).cur_pos
        have e1 := congrArg TS.step hstep.2.2
        have e2 := congrArg TS.cur hstep.2.2
        have e3 : (nexts (TS.ctor p) (k + 1)).step = (nexts (TS.ctor p) (k + 1)).cur := e1.symm.trans e2
        generalize nexts (TS.ctor p) (k + 1) = u at *
        have htr : u.trial ≤ u.cur := by
          unfold TS.trial
          simp only [e3, ite_self]
          by_cases hx : u.maxStep < u.cur
          · simp only [if_pos hx]
            by_cases hy : u.now ≠ u.start
            · rw [if_pos hy]; exact hx.le
            · rw [if_neg hy]
          · simp only [if_neg hx, ite_self, le_refl]
        have hcur : u.next.cur = if u.snaps then u.final - u.now else u.trial := rfl
        rw [hcur]
        split
        · rename_i hsn
          simp only [TS.snaps, Bool.and_eq_true, decide_eq_true_eq] at hsn
          linarith [hsn.2]
        · linarith
      exact le_trans (C60_bdf2_any_step D p hp _ hfr hend hs hns hlast par0 _ _ _ _ hcm).1 (hGall k le_rfl)

end Global

/-- Non-vacuity: two quadrature points, a velocity whose gradient changes sign, viscosity 1/2; one step of implicit Euler
takes the amplitude from 2 to 1. -/
example : ∃ (D : Discretization ℚ ℚ Bool) (par0 : Bool → PointParams ℚ),
    let t := TS.ctor (exParams .implicitEuler)
    ReachableFresh (exParams .implicitEuler) t ∧ t.atEnd = false ∧
    Spec.Closed D (fun q => (par0 q).withClock t.next) 2 0 1 1 ∧ Spec.kinetic D par0 1 = 1 ∧ Spec.kinetic D par0 2 = 4 := by
  refine ⟨⟨{true, false}, fun _ => 1, fun x q => ⟨fun _ => x, fun _ _ => if q then x else -x, 0⟩, ?_⟩,
    fun _ => ⟨1, .incompressible, .coupledImplicitNewton, 1/2, 0, 0, 0, 0, 0, 1, 1/2, 0, fun a _ => a⟩,
    ⟨[], by simp, by simp [NoRestart], rfl⟩, rfl, ?_, ?_, ?_⟩
  · intro x y q; cases q <;> simp [PointIn.add] <;> funext i j <;> ring
  · refine ⟨by simp, by simp [PointParams.withClock], by simp [PointParams.withClock], by simp [PointParams.withClock],
      by simp [PointParams.withClock], by simp [PointParams.withClock], by simp [PointParams.withClock],
      by simp [PointParams.withClock], by simp [PointParams.withClock], ?_, ?_, ?_⟩
    · intro q _; simp [Spec.selfTest]
    · decide +kernel
    · decide +kernel
  · decide +kernel
  · decide +kernel

/-- Non-vacuity: a complete run of BDF-2 on `[0, 5/2]` with step 1; the third step has half the size. -/
example : ∃ (p : Params ℚ) (D : Discretization ℚ ℚ Bool) (par0 : Bool → PointParams ℚ) (y oldOld : ℕ → ℚ),
    p.Good ∧ p.stepMin ≤ p.stepStart ∧ p.stepStart ≤ p.stepMax ∧ p.scheme = .bdf2 ∧
    (nexts (TS.ctor p) 2).atEnd = false ∧ (nexts (TS.ctor p) 3).atEnd = true ∧ (nexts (TS.ctor p) 3).cur = 1 / 2 ∧
    (∀ n, oldOld (n + 1) = y n) ∧
    (∀ n ≤ 2, Spec.Closed D (fun q => (par0 q).withClock (nexts (TS.ctor p) (n + 1))) (y n) (oldOld n) (y (n + 1)) (y (n + 1))) ∧
    y 0 = 2 ∧ y 3 = 13 / 55 := by
  let y : ℕ → ℚ := fun n => match n with | 0 => 2 | 1 => 1 | 2 => 2 / 5 | _ => 13 / 55
  refine ⟨{ exParams .bdf2 with endTime := 5 / 2 },
    ⟨{true, false}, fun _ => 1, fun x q => ⟨fun _ => x, fun _ _ => if q then x else -x, 0⟩, ?_⟩,
    fun _ => ⟨1, .incompressible, .coupledImplicitNewton, 1/2, 0, 0, 0, 0, 0, 1, 1/2, 0, fun a _ => a⟩,
    y, fun n => match n with | 0 => 0 | n + 1 => y n, ?_⟩
  · intro x y q; cases q <;> simp [PointIn.add] <;> funext i j <;> ring
  refine ⟨⟨?_, ?_, ?_, ?_⟩, ?_, ?_, rfl, ?_, ?_, ?_, fun n => rfl, ?_, rfl, rfl⟩
  on_goal 10 =>
    intro n hn
    refine ⟨by simp, by simp [PointParams.withClock], by simp [PointParams.withClock], by simp [PointParams.withClock],
      by simp [PointParams.withClock], by simp [PointParams.withClock], by simp [PointParams.withClock],
      by simp [PointParams.withClock], by simp [PointParams.withClock], ?_, ?_, ?_⟩
    · intro q _; simp [Spec.selfTest]
    · interval_cases n <;> decide +kernel
    · interval_cases n <;> decide +kernel
  all_goals decide +kernel

end Verif.Operator
