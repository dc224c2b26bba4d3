import Verif.Operator.Energy

/-!
# C124: balance of the total momentum

The discrete momentum equation (`NavierStokesMatrix::local_operation`, source/navier_stokes_matrix.cc:601-905, model in
`Operator.Point`) tested with a constant vector field, which is an admissible test function where no velocity is
prescribed: in periodic domains, and between symmetry planes for the directions parallel to them.
-/
set_option linter.unusedSectionVars false

namespace Verif.Operator

open Verif.Parameters Verif.Time
open Finset

variable {K : Type*} [Field K] [LinearOrder K] [IsStrictOrderedRing K]

/-! ## Specification -/

namespace Spec

/-- The constant velocity in direction `d`, without pressure. -/
def unit (d : ℕ) : PointIn K := ⟨fun i => if i = d then 1 else 0, fun _ _ => 0, 0⟩

/-- Divergence of the flux of the velocity component `v_d` with the transport velocity `a`, by the product rule. -/
def momentumFlux (n : ℕ) (a v : PointIn K) (d : ℕ) : K :=
  trace n a.gradU * v.u d + ∑ e ∈ range n, a.u e * v.gradU d e

/-- Total momentum in direction `d`. -/
def momentum {X Q : Type*} [AddCommGroup X] (D : Discretization K X Q) (par : Q → PointParams K) (d : ℕ) (x : X) : K :=
  Spec.integral D fun q => (par q).rho * (D.at_ x q).u d

end Spec

/-- The velocity that is transported: the solution, in the explicit scheme its extrapolation
(navier_stokes_matrix.cc:764-782). -/
def transported (c : PointParams K) (old oldOld x : PointIn K) : PointIn K :=
  if c.lin = .coupledVelocityExplicit then extrapolated c old oldOld else x

open Spec

/-! ## Proofs -/

/-- the residual tested with a constant velocity: no viscosity, no grad-div term, no pressure -/
theorem tested_unit (c : PointParams K) (hphys : c.phys = .incompressible) (d : ℕ) (hd : d < c.dim)
    (old oldOld x : PointIn K) :
    tested c.dim (residualPoint c old oldOld x) (unit d) =
      c.rho * (c.w * x.u d + c.wOld * old.u d + c.wOldOld * oldOld.u d)
      + c.rho * c.tau1 * (momentumFlux c.dim (transport c old oldOld x) (transported c old oldOld x) d
          - (1 - c.beta) * (trace c.dim (transport c old oldOld x).gradU * (transported c old oldOld x).u d))
      - c.damping * x.u d := by
  have h1 : tested c.dim (residualPoint c old oldOld x) (unit d) = residualValue c old oldOld x d := by
    unfold tested unit residualPoint
    simp only [mul_zero, sum_const_zero, add_zero, mul_ite, mul_one]
    rw [Finset.sum_ite_eq' (range c.dim) d, if_pos (mem_range.2 hd)]
  rw [h1]
  unfold residualValue
  rw [if_neg (by rw [hphys]; decide)]
  have hst : Physical.incompressible ≠ Physical.incompressibleStationary := by decide
  simp only [PointParams.weight, hphys, hst, ne_eq, not_false_eq_true, if_true]
  unfold transport transported momentumFlux
  by_cases hx : needExtrapolated c.lin = true
  · simp only [hx, if_true]
    by_cases he : c.lin = .coupledVelocityExplicit
    · simp only [he, if_true]
      ring
    · simp only [he, if_false]
      ring
  · have he : c.lin ≠ .coupledVelocityExplicit := by
      intro h
      apply hx
      rw [h]
      rfl
    simp only [hx, he, if_false, convImplicit]
    simp only [Bool.false_eq_true, if_false]
    ring

section Global
variable {X Q : Type*} [AddCommGroup X] (D : Discretization K X Q)

/-- **C124 (balance of the total momentum).** For every mesh, all coefficients (also varying density and viscosity), all
linearizations, formulations of the convective term and states: whenever the discrete equations hold for the constant
test velocity in direction `d`, the discrete time derivative of the total momentum is the total force (external force
and damping), minus the flux of momentum through the boundary, plus a production term `(1 - β) ∫ ρ div a v_d` of the
formulations that are not conservative. Viscosity, grad-div stabilization and pressure have no influence. -/
theorem C124_momentum_balance (par : Q → PointParams K) (hphys : ∀ q, (par q).phys = .incompressible) (d : ℕ)
    (hd : ∀ q, d < (par q).dim) (rhs : X → K) (old oldOld x t : X) (ht : ∀ q ∈ D.pts, D.at_ t q = unit d)
    (hsolve : systemRhs D par old oldOld rhs x t = 0) :
    Spec.integral D (fun q => (par q).rho * ((par q).w * (D.at_ x q).u d + (par q).wOld * (D.at_ old q).u d
        + (par q).wOldOld * (D.at_ oldOld q).u d)) =
      rhs t + Spec.integral D (fun q => (par q).damping * (D.at_ x q).u d)
      - Spec.integral D (fun q => (par q).rho * (par q).tau1 * momentumFlux (par q).dim
          (transport (par q) (D.at_ old q) (D.at_ oldOld q) (D.at_ x q))
          (transported (par q) (D.at_ old q) (D.at_ oldOld q) (D.at_ x q)) d)
      + Spec.integral D (fun q => (1 - (par q).beta) * (par q).rho * (par q).tau1 *
          (trace (par q).dim (transport (par q) (D.at_ old q) (D.at_ oldOld q) (D.at_ x q)).gradU *
            (transported (par q) (D.at_ old q) (D.at_ oldOld q) (D.at_ x q)).u d)) := by
  unfold systemRhs at hsolve
  have h : ∑ q ∈ D.pts, D.jxw q *
      tested (par q).dim (residualPoint (par q) (D.at_ old q) (D.at_ oldOld q) (D.at_ x q)) (D.at_ t q) = rhs t := by
    linarith
  rw [← h]
  unfold Spec.integral
  rw [← sum_add_distrib, ← sum_sub_distrib, ← sum_add_distrib]
  refine sum_congr rfl fun q hq => ?_
  rw [ht q hq, tested_unit (par q) (hphys q) d (hd q)]
  ring

/-- A flow in a domain without momentum flux through the boundary (e.g. periodic), with the
formulation `β` of the convective term (1: conservative) and no damping; the test velocity is constant, the equations hold for it, and `force` is the
total external force in that direction. -/
structure Spec.FreeFlow (par : Q → PointParams K) (β : K) (d : ℕ) (force : K) (old oldOld x t : X) : Prop where
  phys : ∀ q, (par q).phys = .incompressible
  dim : ∀ q, d < (par q).dim
  beta : ∀ q, (par q).beta = β
  damping : ∀ q, (par q).damping = 0
  test : ∀ q ∈ D.pts, D.at_ t q = unit d
  solves : ∃ rhs : X → K, rhs t = force ∧ systemRhs D par old oldOld rhs x t = 0
  flux : Spec.integral D (fun q => momentumFlux (par q).dim
    (transport (par q) (D.at_ old q) (D.at_ oldOld q) (D.at_ x q))
    (transported (par q) (D.at_ old q) (D.at_ oldOld q) (D.at_ x q)) d) = 0

theorem integral_add' (f g : Q → K) :
    Spec.integral D (fun q => f q + g q) = Spec.integral D f + Spec.integral D g := by
  unfold Spec.integral
  rw [← sum_add_distrib]
  exact sum_congr rfl fun _ _ => by ring

/-- Newton's second law for the discrete flow. -/
theorem free_flow_balance (t : TS K) (par0 : Q → PointParams K) (hrho : ∀ q q', (par0 q).rho = (par0 q').rho) (d : ℕ)
    (force : K) (old oldOld x test : X)
    (hc : Spec.FreeFlow D (fun q => (par0 q).withClock t.next) 1 d force old oldOld x test) :
    t.next.w * Spec.momentum D par0 d x + t.next.wOld * Spec.momentum D par0 d old
      + t.next.wOldOld * Spec.momentum D par0 d oldOld = force := by
  obtain ⟨rhs, hrhs, hsol⟩ := hc.solves
  have hb := C124_momentum_balance D _ hc.phys d hc.dim rhs old oldOld x test hc.test hsol
  have hz : ∀ g : Q → K, Spec.integral D (fun q => (1 - ((par0 q).withClock t.next).beta)
      * ((par0 q).withClock t.next).rho * ((par0 q).withClock t.next).tau1 * g q) = 0 := by
    intro g
    unfold Spec.integral
    refine sum_eq_zero fun q _ => ?_
    have h1 : ((par0 q).withClock t.next).beta = 1 := hc.beta q
    dsimp only
    rw [h1]
    ring
  have hdm : Spec.integral D (fun q => ((par0 q).withClock t.next).damping * (D.at_ x q).u d) = 0 := by
    unfold Spec.integral
    refine sum_eq_zero fun q _ => ?_
    have h1 : ((par0 q).withClock t.next).damping = 0 := hc.damping q
    dsimp only
    rw [h1]
    ring
  have hfl : Spec.integral D (fun q => ((par0 q).withClock t.next).rho * ((par0 q).withClock t.next).tau1 *
      momentumFlux ((par0 q).withClock t.next).dim
        (transport ((par0 q).withClock t.next) (D.at_ old q) (D.at_ oldOld q) (D.at_ x q))
        (transported ((par0 q).withClock t.next) (D.at_ old q) (D.at_ oldOld q) (D.at_ x q)) d) = 0 := by
    by_cases hq : Nonempty Q
    · obtain ⟨q0⟩ := hq
      have hcg : ∀ q, ((par0 q).withClock t.next).rho * ((par0 q).withClock t.next).tau1 = (par0 q0).rho * t.next.tau1 := by
        intro q
        change (par0 q).rho * t.next.tau1 = _
        rw [hrho q q0]
      simp only [hcg]
      rw [integral_smul, hc.flux, mul_zero]
    · unfold Spec.integral
      exact sum_eq_zero fun q _ => absurd ⟨q⟩ hq
  rw [hz, hdm, hfl, hrhs] at hb
  have hl : Spec.integral D (fun q => ((par0 q).withClock t.next).rho * (((par0 q).withClock t.next).w * (D.at_ x q).u d
      + ((par0 q).withClock t.next).wOld * (D.at_ old q).u d
      + ((par0 q).withClock t.next).wOldOld * (D.at_ oldOld q).u d)) =
      t.next.w * Spec.momentum D par0 d x + t.next.wOld * Spec.momentum D par0 d old
      + t.next.wOldOld * Spec.momentum D par0 d oldOld := by
    unfold Spec.momentum
    rw [← integral_smul, ← integral_smul, ← integral_smul, ← integral_add', ← integral_add']
    congr 1
    funext q
    change (par0 q).rho * (t.next.w * _ + t.next.wOld * _ + t.next.wOldOld * _) = _
    ring
  rw [hl] at hb
  rw [hb]
  ring

/-- **C124 (one step, one-step schemes).** With the conservative formulation and constant density, a time step of the
one-step weights changes the total momentum by exactly step size times total force (Newton's second law), if
`weight()` is the exact weight of the step size (`C05_constant_steps_exact`). -/
theorem C124_newtons_law_partial (p : Params K) (hp : p.Good) (t : TS K) (hr : ReachableFresh p t) (he : t.atEnd = false)
    (hs : p.scheme ≠ .bdf2 ∨ t.now = t.start) (hw : t.next.w = t.exactWeight) (par0 : Q → PointParams K)
    (hrho : ∀ q q', (par0 q).rho = (par0 q').rho) (d : ℕ) (force : K) (old oldOld x test : X)
    (hc : Spec.FreeFlow D (fun q => (par0 q).withClock t.next) 1 d force old oldOld x test) :
    Spec.momentum D par0 d x - Spec.momentum D par0 d old = (t.next.now - t.now) * force := by
  have hb := free_flow_balance D t par0 hrho d force old oldOld x test hc
  obtain ⟨hsum, hpos, -, -⟩ := C05_three_weights_sum_zero p hp t (Or.inl hr) he
  have hsch : t.scheme = p.scheme := (C05_theta_weights p t hr.reachable).1
  have hcond : ¬ (t.scheme = .bdf2 ∧ t.now ≠ t.start) := by
    rintro ⟨h1, h2⟩
    rcases hs with h | h
    · exact h (hsch ▸ h1)
    · exact h2 h
  have hex : t.exactWeight = 1 / t.next.cur := by unfold TS.exactWeight; rw [if_neg hcond]
  have hOld : t.next.wOld = -t.exactWeight := by
    have : t.next.wOld = -1 / t.next.cur := by
      simp only [TS.next, hcond, decide_false, Bool.false_eq_true, if_false]
    rw [this, hex]; ring
  have hOO : t.next.wOldOld = 0 := by rw [hOld] at hsum; linarith
  obtain ⟨-, hadv, hprev, -, hcur⟩ := C02_next_advances p hp t hr.reachable he
  have hC : t.next.now - t.now = t.next.cur := by rw [hcur, hprev]
  have hCpos : 0 < t.next.cur := by rw [← hC]; linarith
  rw [hw, hOld, hOO, hex] at hb
  rw [hC]
  field_simp at hb
  linarith

/-- **C124 (conservation over a run).** With the conservative formulation, constant density, no external force and no flux
through the boundary, the total momentum is the same after any number of steps, for all schemes, linearizations, step
size requests and meshes, if `weight()` is the exact weight of the step sizes in every step.
Missing: the other formulations and varying density, for which it is false of the code, see
`C124_convective_form_produces` and `C124_density_produces`. -/
theorem C124_momentum_conserved_partial (p : Params K) (hp : p.Good) (N : ℕ) (t : ℕ → TS K)
    (h0 : (t 0).now = (t 0).start) (hr : ∀ n < N, ReachableFresh p (t n) ∧ (t n).atEnd = false)
    (hw : ∀ n < N, (t n).next.w = (t n).exactWeight) (par0 : Q → PointParams K)
    (hrho : ∀ q q', (par0 q).rho = (par0 q').rho) (d : ℕ) (y oldOld test : ℕ → X)
    (hoo : ∀ n, oldOld (n + 1) = y n)
    (hc : ∀ n < N, Spec.FreeFlow D (fun q => (par0 q).withClock (t n).next) 1 d 0 (y n) (oldOld n) (y (n + 1)) (test n)) :
    ∀ n ≤ N, Spec.momentum D par0 d (y n) = Spec.momentum D par0 d (y 0) := by
  intro n
  induction n using Nat.strong_induction_on with
  | _ n ih =>
    intro hn
    cases n with
    | zero => rfl
    | succ n =>
      have hn' : n < N := by omega
      have hb := free_flow_balance D (t n) par0 hrho d 0 _ _ _ _ (hc n hn')
      obtain ⟨hsum, hpos, -, -⟩ := C05_three_weights_sum_zero p hp (t n) (Or.inl (hr n hn').1) (hr n hn').2
      rw [hw n hn', ih n (by omega) (by omega)] at hb
      set P := Spec.momentum D par0 d (y 0) with hP
      have hold : (t n).next.wOldOld * Spec.momentum D par0 d (oldOld n) = (t n).next.wOldOld * P := by
        cases n with
        | zero =>
          have hcond : ¬ ((t 0).scheme = .bdf2 ∧ (t 0).now ≠ (t 0).start) := fun h => h.2 h0
          have hOld : (t 0).next.wOld = -(t 0).exactWeight := by
            have : (t 0).next.wOld = -1 / (t 0).next.cur := by
              simp only [TS.next, hcond, decide_false, Bool.false_eq_true, if_false]
            rw [this]; unfold TS.exactWeight; rw [if_neg hcond]; ring
          have hOO : (t 0).next.wOldOld = 0 := by rw [hOld] at hsum; linarith
          rw [hOO, zero_mul, zero_mul]
        | succ m => rw [hoo m, ih m (by omega) (by omega)]
      rw [hold] at hb
      have : (t n).exactWeight * (Spec.momentum D par0 d (y (n + 1)) - P) = 0 := by
        linear_combination hb - P * hsum
      rcases mul_eq_zero.1 this with h | h
      · exact absurd h hpos.ne'
      · linarith

end Global

/-! ## Where it fails, and non-vacuity -/

/-- Two quadrature points of a two-dimensional velocity `(a + b, b)`, `(a - b, -b)` for the coefficients `(a, b)`, with
derivatives that sum to zero, as in a periodic domain. -/
def momD : Discretization ℚ (ℚ × ℚ) Bool where
  pts := {false, true}
  jxw := fun _ => 1
  at_ := fun x q =>
    ⟨fun i => (if i = 0 then x.1 else 0) + (if q then -x.2 else x.2),
     fun i j => if j = 1 then (if i = 0 then (if q then x.2 else -x.2) else (if q then -x.2 else x.2)) else 0, 0⟩
  at_add := by
    rintro ⟨a, b⟩ ⟨a', b'⟩ q
    unfold PointIn.add
    refine PointIn.mk.injEq .. |>.mpr ⟨?_, ?_, by simp⟩
    · funext i
      cases q <;> simp <;> split_ifs <;> ring
    · funext i j
      cases q <;> simp <;> split_ifs <;> ring

/-- Parameters of the example: form `β`, densities `r false`, `r true`. -/
def momPar (beta : ℚ) (r : Bool → ℚ) (q : Bool) : PointParams ℚ :=
  { dim := 2, phys := .incompressible, lin := .coupledImplicitNewton, beta, w := 1, wOld := -1, wOldOld := 0, tau1 := 1,
    tauGradDiv := 1, rho := r q, mu := 3, damping := 0, ext := fun a _ => a }

/-- the clock of the examples -/
abbrev momT : TS ℚ := TS.ctor (exParams .implicitEuler)

theorem momFlow (beta : ℚ) (r : Bool → ℚ) (f : ℚ) (x o : ℚ × ℚ)
    (h : systemRhs momD (fun q => (momPar beta r q).withClock momT.next) o 0 (fun _ => f) x (1, 0) = 0)
    (hf : Spec.integral momD (fun q => momentumFlux 2 (momD.at_ x q) (momD.at_ x q) 0) = 0) :
    Spec.FreeFlow momD (fun q => (momPar beta r q).withClock momT.next) beta 0 f o 0 x (1, 0) where
  phys := fun _ => rfl
  dim := fun _ => Nat.zero_lt_two
  beta := fun _ => rfl
  damping := fun _ => rfl
  test := by
    intro q _
    unfold unit momD
    refine PointIn.mk.injEq .. |>.mpr ⟨?_, ?_, rfl⟩
    · funext i
      cases q <;> simp
    · funext i j
      cases q <;> simp
  solves := ⟨fun _ => f, rfl, h⟩
  flux := hf

/-- **C124, convective formulation (the property is false).** Constant density, no force, no flux through the boundary, but the
total momentum grows from 0 to 2 in one step with `β = 0`: the velocity is not divergence-free in every point. -/
theorem C124_convective_form_produces :
    Spec.FreeFlow momD (fun q => (momPar 0 (fun _ => 1) q).withClock momT.next) 0 0 0 (0, 0) 0 (1, 1) (1, 0) ∧
    Spec.momentum momD (momPar 0 fun _ => 1) 0 (0, 0) = 0 ∧ Spec.momentum momD (momPar 0 fun _ => 1) 0 (1, 1) = 2 :=
  ⟨momFlow 0 _ 0 _ _ (by decide +kernel) (by decide +kernel), by decide +kernel, by decide +kernel⟩

/-- **C124, varying density (the property is false).** With densities 1 and 2 the conservative formulation (`β = 1`) changes the
total momentum from 1 to 2 without force or flux through the boundary. -/
theorem C124_density_produces :
    Spec.FreeFlow momD (fun q => (momPar 1 (fun q => if q then 2 else 1) q).withClock momT.next) 1 0 0 (0, -1) 0 (1, 1) (1, 0) ∧
    Spec.momentum momD (momPar 1 fun q => if q then 2 else 1) 0 (0, -1) = 1 ∧
    Spec.momentum momD (momPar 1 fun q => if q then 2 else 1) 0 (1, 1) = 2 :=
  ⟨momFlow 1 _ 0 _ _ (by decide +kernel) (by decide +kernel), by decide +kernel, by decide +kernel⟩

/-- Non-vacuity: conservative formulation, constant density, total force 4, step size 1: the momentum grows from 2 to 6. -/
example : Spec.FreeFlow momD (fun q => (momPar 1 (fun _ => 1) q).withClock momT.next) 1 0 4 (1, 2) 0 (3, 1) (1, 0) ∧
    ReachableFresh (exParams .implicitEuler) momT ∧ momT.atEnd = false ∧ momT.next.w = momT.exactWeight ∧
    Spec.momentum momD (momPar 1 fun _ => 1) 0 (1, 2) = 2 ∧ Spec.momentum momD (momPar 1 fun _ => 1) 0 (3, 1) = 6 :=
  ⟨momFlow 1 _ 4 _ _ (by decide +kernel) (by decide +kernel), ⟨[], by simp, by simp [NoRestart], rfl⟩, rfl, by decide +kernel,
    by decide +kernel, by decide +kernel⟩

/-- Non-vacuity of the conservation: no force, the velocity changes, the total momentum does not. -/
example : Spec.FreeFlow momD (fun q => (momPar 1 (fun _ => 1) q).withClock momT.next) 1 0 0 (1, 2) 0 (1, 1) (1, 0) ∧
    momT.now = momT.start ∧ (∀ q q', (momPar 1 (fun _ => 1) q).rho = (momPar 1 (fun _ => 1) q').rho) ∧
    Spec.momentum momD (momPar 1 fun _ => 1) 0 (1, 1) = 2 :=
  ⟨momFlow 1 _ 0 _ _ (by decide +kernel) (by decide +kernel), rfl, fun _ _ => rfl, by decide +kernel⟩

end Verif.Operator
