import Verif.Operator.Jacobian
import Verif.Operator.Energy
import Verif.Operator.Frame
import Verif.Time.Units

/-!
# C126: the flow equations do not depend on the units of mass, length and time

`NavierStokesMatrix::local_operation`, source/navier_stokes_matrix.cc:601-905 (model `Operator.Point`).
-/
set_option linter.unusedSectionVars false

namespace Verif.Operator

open Verif.Parameters Verif.Time
open Finset

variable {K : Type*} [Field K]

/-! ## Specification -/

namespace Spec

/-- UnitSystem: one old unit of mass, length and time is `M`, `L`, `T` new units. -/
structure UnitSystem (K : Type*) [Field K] where
  M : K
  L : K
  T : K
  hM : M ≠ 0
  hL : L ≠ 0
  hT : T ≠ 0

/-- Material parameters in the new units: density `M/L³`, viscosity and grad-div parameter `M/(L T)`, damping `M/(L³ T)`. -/
def UnitSystem.material (U : UnitSystem K) (c : PointParams K) : PointParams K :=
  { c with
    rho := U.M / U.L ^ 3 * c.rho
    mu := U.M / (U.L * U.T) * c.mu
    tauGradDiv := U.M / (U.L * U.T) * c.tauGradDiv
    damping := U.M / (U.L ^ 3 * U.T) * c.damping }

/-- All parameters: the weights of the time derivative are divided by the unit of time. -/
def UnitSystem.par (U : UnitSystem K) (c : PointParams K) : PointParams K :=
  { U.material c with w := c.w / U.T, wOld := c.wOld / U.T, wOldOld := c.wOldOld / U.T }

/-- Velocity `L/T`, its gradient `1/T`, pressure `M/(L T²)`. -/
def UnitSystem.point (U : UnitSystem K) (x : PointIn K) : PointIn K :=
  ⟨fun d => U.L / U.T * x.u d, fun d e => 1 / U.T * x.gradU d e, U.M / (U.L * U.T ^ 2) * x.p⟩

/-- Test functions have no unit, their gradient `1/L`. -/
def UnitSystem.test (U : UnitSystem K) (t : PointIn K) : PointIn K := ⟨t.u, fun d e => 1 / U.L * t.gradU d e, t.p⟩

/-- `D'` is the same problem on the mesh in the new units: quadrature weights are multiplied by the unit of volume `V`, `R` converts
unknowns and `Rt` test functions. -/
structure UnitSystem.Same (U : UnitSystem K) {X X' Q : Type*} [AddCommGroup X] [AddCommGroup X'] (V : K) (D : Discretization K X Q)
    (D' : Discretization K X' Q) (R Rt : X → X') : Prop where
  volume : V ≠ 0
  pts : D'.pts = D.pts
  jxw : ∀ q ∈ D.pts, D'.jxw q = V * D.jxw q
  unknown : ∀ x, ∀ q ∈ D.pts, D'.at_ (R x) q = U.point (D.at_ x q)
  test : ∀ t, ∀ q ∈ D.pts, D'.at_ (Rt t) q = U.test (D.at_ t q)

/-- A velocity test function. -/
def VelocityTest {X Q : Type*} [AddCommGroup X] (D : Discretization K X Q) (t : X) : Prop := ∀ q ∈ D.pts, (D.at_ t q).p = 0

/-- A pressure test function. -/
def PressureTest {X Q : Type*} [AddCommGroup X] (D : Discretization K X Q) (t : X) : Prop :=
  ∀ q ∈ D.pts, (∀ d, (D.at_ t q).u d = 0) ∧ ∀ d e, (D.at_ t q).gradU d e = 0

end Spec

open Spec

/-! ## Proofs -/

theorem trace_units (U : UnitSystem K) (n : ℕ) (g : ℕ → ℕ → K) : trace n (fun d e => 1 / U.T * g d e) = 1 / U.T * trace n g :=
  trace_smul n _ g

theorem convected_units (U : UnitSystem K) (c : PointParams K) (div : K) (a v : ℕ → K) (G : ℕ → ℕ → K) (d : ℕ) :
    convected (U.par c) (1 / U.T * div) (fun d => U.L / U.T * a d) (fun d => U.L / U.T * v d) (fun d e => 1 / U.T * G d e) d =
      U.L / U.T ^ 2 * convected c div a v G d := by
  unfold convected
  rw [mul_add, mul_sum]
  have hT := U.hT
  congr 1
  · change c.beta * _ * _ = _
    field_simp
  · refine sum_congr rfl fun e _ => ?_
    field_simp

theorem residualValue_units (U : UnitSystem K) (c : PointParams K) (α β : K) (hext : ∀ a b, c.ext a b = α * a + β * b)
    (old oldOld x : PointIn K) (d : ℕ) :
    residualValue (U.par c) (U.point old) (U.point oldOld) (U.point x) d =
      U.M / (U.L ^ 2 * U.T ^ 2) * residualValue c old oldOld x d := by
  have hT := U.hT
  have hL := U.hL
  have heu : (extrapolated (U.par c) (U.point old) (U.point oldOld)).u = fun d => U.L / U.T * (extrapolated c old oldOld).u d := by
    funext i
    change c.ext _ _ = _ * c.ext _ _
    rw [hext, hext]
    simp only [UnitSystem.point]
    ring
  have heg : (extrapolated (U.par c) (U.point old) (U.point oldOld)).gradU =
      fun d e => 1 / U.T * (extrapolated c old oldOld).gradU d e := by
    funext i j
    change c.ext _ _ = _ * c.ext _ _
    rw [hext, hext]
    simp only [UnitSystem.point]
    ring
  by_cases hst : c.phys = .stokes
  · unfold residualValue
    rw [if_pos hst, if_pos (show (U.par c).phys = .stokes from hst), mul_zero]
  · have hform : ∀ (c : PointParams K), ¬ c.phys = .stokes → ∀ (o oo y : PointIn K) (d : ℕ), residualValue c o oo y d =
        c.rho * (c.weight * y.u d) - c.damping * y.u d +
        (if c.phys ≠ .incompressibleStationary then c.rho * (c.wOld * o.u d + c.wOldOld * oo.u d) else 0) +
        c.rho * (c.tau1 * (if needExtrapolated c.lin then
          if c.lin = .coupledVelocityExplicit then
            convected c (trace c.dim (extrapolated c o oo).gradU) (extrapolated c o oo).u (extrapolated c o oo).u
              (extrapolated c o oo).gradU d
          else convected c (trace c.dim (extrapolated c o oo).gradU) (extrapolated c o oo).u y.u y.gradU d
          else convected c (trace c.dim y.gradU) y.u y.u y.gradU d)) := by
      intro c hst o oo y d
      unfold residualValue convImplicit convected
      rw [if_neg hst]
      dsimp only
      split_ifs <;> ring
    rw [hform _ hst, hform (U.par c) hst, heu, heg]
    have hw : (U.par c).weight = c.weight / U.T := by
      unfold PointParams.weight
      change (if c.phys = .incompressible then c.w / U.T else 0) = _
      split_ifs <;> simp
    have hd : (U.par c).dim = c.dim := rfl
    have hl : (U.par c).lin = c.lin := rfl
    have hp : (U.par c).phys = c.phys := rfl
    simp only [hw, hd, hl, hp, UnitSystem.point, trace_units, convected_units]
    simp only [UnitSystem.par, UnitSystem.material]
    have e1 : ∀ a b r : K, U.M / U.L ^ 3 * r * (a / U.T * (U.L / U.T * b)) = U.M / (U.L ^ 2 * U.T ^ 2) * (r * (a * b)) := by
      intro a b r; field_simp
    have e2 : ∀ a b : K, U.M / (U.L ^ 3 * U.T) * a * (U.L / U.T * b) = U.M / (U.L ^ 2 * U.T ^ 2) * (a * b) := by
      intro a b; field_simp
    have e3 : ∀ a b t r : K, U.M / U.L ^ 3 * r * (t * (U.L / U.T ^ 2 * b)) = U.M / (U.L ^ 2 * U.T ^ 2) * (r * (t * b)) := by
      intro a b t r; field_simp
    rw [e1, e2, mul_add (U.M / (U.L ^ 2 * U.T ^ 2)), mul_add (U.M / (U.L ^ 2 * U.T ^ 2)), mul_sub]
    congr 1
    · congr 1
      split_ifs
      · rw [mul_add (U.M / U.L ^ 3 * c.rho), e1, e1]
        ring
      · rw [mul_zero]
    · split_ifs <;> exact e3 0 _ _ _

/-- velocity rows -/
theorem tested_units_velocity (U : UnitSystem K) (c : PointParams K) (hdim : c.dim = 1 ∨ c.dim = 2 ∨ c.dim = 3) (α β : K)
    (hext : ∀ a b, c.ext a b = α * a + β * b) (old oldOld x t : PointIn K) (ht : t.p = 0) :
    tested c.dim (residualPoint (U.par c) (U.point old) (U.point oldOld) (U.point x)) (U.test t) =
      U.M / (U.L ^ 2 * U.T ^ 2) * tested c.dim (residualPoint c old oldOld x) t := by
  have hT := U.hT
  have hL := U.hL
  unfold tested residualPoint
  dsimp only
  have h1 : (U.test t).p = 0 := ht
  rw [h1, ht, mul_zero, mul_zero, add_zero, add_zero, mul_add]
  congr 1
  · rw [mul_sum]
    refine sum_congr rfl fun i _ => ?_
    rw [residualValue_units U c α β hext]
    change _ * t.u i = _
    ring
  · have h2 := stress_contract (U.par c) hdim true (U.point x).gradU (U.test t).gradU (U.point x).p
    change ∑ i ∈ range c.dim, ∑ j ∈ range c.dim, _ = _ at h2
    rw [h2, stress_contract c hdim]
    have s1 : ∀ g H : ℕ → ℕ → K, ∑ i ∈ range c.dim, ∑ j ∈ range c.dim, (1 / U.T * g i j) * (1 / U.L * H i j) =
        1 / (U.T * U.L) * ∑ i ∈ range c.dim, ∑ j ∈ range c.dim, g i j * H i j := by
      intro g H
      simp only [mul_sum]
      refine sum_congr rfl fun i _ => sum_congr rfl fun j _ => ?_
      field_simp
    have hd : (U.par c).dim = c.dim := rfl
    have s2 := s1 x.gradU t.gradU
    have s3 := s1 (fun a b => x.gradU b a) t.gradU
    have t1 : trace c.dim (U.point x).gradU = 1 / U.T * trace c.dim x.gradU := trace_units U _ _
    have t2 : trace c.dim (U.test t).gradU = 1 / U.L * trace c.dim t.gradU := trace_smul _ _ _
    rw [hd, t1, t2]
    simp only [UnitSystem.point, UnitSystem.test, UnitSystem.par, UnitSystem.material] at s2 s3 ⊢
    rw [s2, s3]
    simp only [if_true]
    field_simp

/-- pressure rows -/
theorem tested_units_pressure (U : UnitSystem K) (c : PointParams K) (old oldOld x t : PointIn K)
    (ht : (∀ d, t.u d = 0) ∧ ∀ d e, t.gradU d e = 0) :
    tested c.dim (residualPoint (U.par c) (U.point old) (U.point oldOld) (U.point x)) (U.test t) =
      1 / U.T * tested c.dim (residualPoint c old oldOld x) t := by
  unfold tested residualPoint UnitSystem.test
  simp only [ht.1, ht.2, mul_zero, sum_const_zero, zero_add]
  change (if c.lin = .projection then 0 else -trace c.dim (fun d e => 1 / U.T * x.gradU d e)) * t.p = _
  rw [trace_units]
  split_ifs <;> ring

/-! ## C126 -/

section Global
variable {X X' Q : Type*} [AddCommGroup X] [AddCommGroup X'] {D : Discretization K X Q} {D' : Discretization K X' Q}

/-- **C126 (residual).** With all data in other units of mass, length and time the entries of the residual are the same up to their unit:
a force for velocity test functions, a volume flux for pressure test functions - for all meshes, states, coefficients, physical
types, linearizations and formulations. -/
theorem C126_residual_units (U : UnitSystem K) (V : K) (R Rt : X → X') (hS : U.Same V D D' R Rt) (par : Q → PointParams K)
    (hdim : ∀ q, (par q).dim = 1 ∨ (par q).dim = 2 ∨ (par q).dim = 3) (α β : K) (hext : ∀ q a b, (par q).ext a b = α * a + β * b)
    (rhs : X → K) (rhs' : X' → K) (old oldOld x t : X) :
    (VelocityTest D t → rhs' (Rt t) = V * (U.M / (U.L ^ 2 * U.T ^ 2)) * rhs t →
      systemRhs D' (fun q => U.par (par q)) (R old) (R oldOld) rhs' (R x) (Rt t) =
        V * (U.M / (U.L ^ 2 * U.T ^ 2)) * systemRhs D par old oldOld rhs x t) ∧
    (PressureTest D t → rhs' (Rt t) = V * (1 / U.T) * rhs t →
      systemRhs D' (fun q => U.par (par q)) (R old) (R oldOld) rhs' (R x) (Rt t) =
        V * (1 / U.T) * systemRhs D par old oldOld rhs x t) := by
  constructor
  · intro ht hr
    unfold systemRhs
    rw [hr, hS.pts, mul_sub, mul_sum]
    congr 1
    refine sum_congr rfl fun q hq => ?_
    rw [hS.jxw q hq, hS.unknown _ q hq, hS.unknown _ q hq, hS.unknown _ q hq, hS.test _ q hq]
    have := tested_units_velocity U (par q) (hdim q) α β (hext q) (D.at_ old q) (D.at_ oldOld q) (D.at_ x q) (D.at_ t q) (ht q hq)
    change V * D.jxw q * tested (par q).dim _ _ = _
    rw [this]
    ring
  · intro ht hr
    unfold systemRhs
    rw [hr, hS.pts, mul_sub, mul_sum]
    congr 1
    refine sum_congr rfl fun q hq => ?_
    rw [hS.jxw q hq, hS.unknown _ q hq, hS.unknown _ q hq, hS.unknown _ q hq, hS.test _ q hq]
    have := tested_units_pressure U (par q) (D.at_ old q) (D.at_ oldOld q) (D.at_ x q) (D.at_ t q) (ht q hq)
    change V * D.jxw q * tested (par q).dim _ _ = _
    rw [this]
    ring

/-- **C126 (run).** Whole runs: two clocks that show the same in both units (as by `C126_clock_units` all call sequences produce), material
parameters, mesh and forces converted. Fields solve the discrete equations of all steps exactly if the converted fields solve the
equations of all steps in the other units. -/
theorem C126_run_units {K : Type*} [Field K] [LinearOrder K] [IsStrictOrderedRing K] {D : Discretization K X Q}
    {D' : Discretization K X' Q} (U : UnitSystem K) (V : K) (R Rt : X → X') (hS : U.Same V D D' R Rt)
    (clock clock' : ℕ → TS K) (hclock : ∀ m, Time.Spec.SameClock U.T (clock m) (clock' m) ∧ (clock m).stepNo ≠ 0)
    (par0 : ℕ → Q → PointParams K) (hdim : ∀ m q, (par0 m q).dim = 1 ∨ (par0 m q).dim = 2 ∨ (par0 m q).dim = 3)
    (rhs : ℕ → X → K) (rhs' : ℕ → X' → K) (Tv Tp : X → Prop) (hv : ∀ t, Tv t → VelocityTest D t) (hp : ∀ t, Tp t → PressureTest D t)
    (hrv : ∀ m t, Tv t → rhs' m (Rt t) = V * (U.M / (U.L ^ 2 * U.T ^ 2)) * rhs m t)
    (hrp : ∀ m t, Tp t → rhs' m (Rt t) = V * (1 / U.T) * rhs m t) (y : ℕ → X) :
    (∀ m, ∀ t, Tv t ∨ Tp t → systemRhs D (fun q => (par0 m q).withClock (clock m)) (y (m + 1)) (y m) (rhs m) (y (m + 2)) t = 0) ↔
    ∀ m, ∀ t, Tv t ∨ Tp t → systemRhs D' (fun q => (U.material (par0 m q)).withClock (clock' m)) (R (y (m + 1))) (R (y m)) (rhs' m)
      (R (y (m + 2))) (Rt t) = 0 := by
  refine forall_congr' fun m => forall_congr' fun t => imp_congr_right fun ht => ?_
  obtain ⟨hc, hs⟩ := hclock m
  have hpar : (fun q => (U.material (par0 m q)).withClock (clock' m)) = fun q => U.par ((par0 m q).withClock (clock m)) := by
    funext q
    have hext : (clock' m).extrapolate = (clock m).extrapolate := by
      funext a b
      unfold TS.extrapolate
      rw [hc.fOld, hc.fOldOld]
    unfold PointParams.withClock UnitSystem.par
    rw [hc.w, hc.wOld hs, hc.wOldOld, hc.tau1, hext]
    rfl
  rw [hpar]
  have key := C126_residual_units U V R Rt hS (fun q => (par0 m q).withClock (clock m)) (hdim m) (clock m).fOld (clock m).fOldOld
    (fun q a b => by
      change a * (clock m).fOld + b * (clock m).fOldOld = _
      ring) (rhs m) (rhs' m) (y (m + 1)) (y m) (y (m + 2)) t
  rcases ht with ht | ht
  · rw [key.1 (hv t ht) (hrv m t ht), mul_eq_zero]
    have : V * (U.M / (U.L ^ 2 * U.T ^ 2)) ≠ 0 :=
      mul_ne_zero hS.volume (div_ne_zero U.hM (mul_ne_zero (pow_ne_zero _ U.hL) (pow_ne_zero _ U.hT)))
    exact ⟨fun h => .inr h, fun h => h.resolve_left this⟩
  · rw [key.2 (hp t ht) (hrp m t ht), mul_eq_zero]
    have : V * (1 / U.T) ≠ 0 := mul_ne_zero hS.volume (one_div_ne_zero U.hT)
    exact ⟨fun h => .inr h, fun h => h.resolve_left this⟩

end Global

/-! ## Non-vacuity -/

/-- Kilogram, metre, second to gram, centimetre, millisecond. -/
def exUnits : UnitSystem ℚ := ⟨1000, 100, 1000, by norm_num, by norm_num, by norm_num⟩

/-- The example of `Operator.Frame` in the new units. -/
def exUnitsDisc : Discretization ℚ ((Fin 7 → ℚ) × (Fin 7 → ℚ)) Unit where
  pts := {()}
  jxw := fun _ => 10000
  at_ := fun x q => (exUnits.point (exFrame.at_ x.1 q)).add (exUnits.test (exFrame.at_ x.2 q))
  at_add := by
    intro x y q
    rw [Prod.fst_add, Prod.snd_add, exFrame.at_add, exFrame.at_add]
    unfold PointIn.add UnitSystem.point UnitSystem.test
    refine PointIn.mk.injEq .. |>.mpr ⟨?_, ?_, ?_⟩
    · funext i; ring
    · funext i j; ring
    · ring

/-- The hypotheses can be met (area unit 10000 in two dimensions), for a test function of the velocity and with a nonzero residual. -/
example : exUnits.Same 10000 exFrame exUnitsDisc (fun x => (x, 0)) (fun t => (0, t)) ∧
    VelocityTest exFrame (fun i => if i = 6 then 0 else 1) ∧
    systemRhs exFrame (fun _ => exFramePar) 0 0 (fun _ => 0) (fun i => i) (fun i => if i = 6 then 0 else 1) ≠ 0 := by
  refine ⟨⟨by norm_num, rfl, ?_, ?_, ?_⟩, ?_, by decide +kernel⟩
  · intro q _
    change (10000 : ℚ) = 10000 * 1
    norm_num
  · intro x q _
    unfold exUnitsDisc PointIn.add UnitSystem.point UnitSystem.test exFrame
    refine PointIn.mk.injEq .. |>.mpr ⟨?_, ?_, ?_⟩
    · funext i; simp
    · funext i j; simp
    · simp
  · intro x q _
    unfold exUnitsDisc PointIn.add UnitSystem.point UnitSystem.test exFrame
    refine PointIn.mk.injEq .. |>.mpr ⟨?_, ?_, ?_⟩
    · funext i; simp
    · funext i j; simp
    · simp
  · intro q _
    rfl

end Verif.Operator
