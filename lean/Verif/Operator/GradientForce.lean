import Verif.Operator.Frame

/-!
# C127, C128: forces balanced by a pressure, and superposition of Stokes flows

Statements about the residual and the coupled product of source/navier_stokes_matrix.cc:660-860 (model `Operator.Point`, assembled in
`Operator.Jacobian`).
-/
set_option linter.unusedSectionVars false

namespace Verif.Operator
open Finset

variable {K : Type*} [Field K] {X Q : Type*} [AddCommGroup X]

/-! ## Specification -/

namespace Spec

/-- A field with zero velocity: a pressure. -/
def PressureField (D : Discretization K X Q) (π : X) : Prop :=
  ∀ q ∈ D.pts, (∀ d, (D.at_ π q).u d = 0) ∧ ∀ d e, (D.at_ π q).gradU d e = 0

/-- The force `∇π` in weak form, `-∫ π div v`. -/
def gradForce (D : Discretization K X Q) (dim : ℕ) (π t : X) : K :=
  -∑ q ∈ D.pts, D.jxw q * ((D.at_ π q).p * ∑ d ∈ range dim, (D.at_ t q).gradU d d)

/-- The field `z` is `a x + b y`. -/
def Combination (D : Discretization K X Q) (a b : K) (x y z : X) : Prop :=
  ∀ q ∈ D.pts, (∀ d, (D.at_ z q).u d = a * (D.at_ x q).u d + b * (D.at_ y q).u d) ∧
    (∀ d e, (D.at_ z q).gradU d e = a * (D.at_ x q).gradU d e + b * (D.at_ y q).gradU d e) ∧
    (D.at_ z q).p = a * (D.at_ x q).p + b * (D.at_ y q).p

end Spec

open Spec

/-! ## Proofs -/

variable {D : Discretization K X Q}

/-- Adding a pressure changes only the pressure at a point. -/
theorem at_add_pressure {π : X} (hπ : PressureField D π) (x : X) {q : Q} (hq : q ∈ D.pts) :
    D.at_ (x + π) q = ⟨(D.at_ x q).u, (D.at_ x q).gradU, (D.at_ x q).p + (D.at_ π q).p⟩ := by
  rw [D.at_add]
  unfold PointIn.add
  obtain ⟨h1, h2⟩ := hπ q hq
  refine PointIn.mk.injEq .. |>.mpr ⟨?_, ?_, rfl⟩
  · funext d; rw [h1, add_zero]
  · funext d e; rw [h2, add_zero]

/-- The value submitted for a velocity test function and the stored linearization do not depend on any pressure. -/
theorem residualValue_pressure (c : PointParams K) (o oo x : PointIn K) (p1 p2 p3 : K) :
    residualValue c ⟨o.u, o.gradU, p1⟩ ⟨oo.u, oo.gradU, p2⟩ ⟨x.u, x.gradU, p3⟩ = residualValue c o oo x := rfl

theorem residualStore_pressure (c : PointParams K) (o oo x : PointIn K) (p1 p2 p3 : K) (s : Stored K) :
    residualStore c ⟨o.u, o.gradU, p1⟩ ⟨oo.u, oo.gradU, p2⟩ ⟨x.u, x.gradU, p3⟩ s = residualStore c o oo x s := rfl

theorem tested_pressure (c : PointParams K) (hdim : c.dim = 1 ∨ c.dim = 2 ∨ c.dim = 3) (o oo x t : PointIn K) (p1 p2 p : K) :
    tested c.dim (residualPoint c ⟨o.u, o.gradU, p1⟩ ⟨oo.u, oo.gradU, p2⟩ ⟨x.u, x.gradU, x.p + p⟩) t =
      tested c.dim (residualPoint c o oo x) t - p * ∑ d ∈ range c.dim, t.gradU d d := by
  unfold tested residualPoint
  dsimp only
  rw [residualValue_pressure, stress_contract c hdim, stress_contract c hdim]
  simp only [if_true]
  change _ = _ - p * trace c.dim t.gradU
  ring

/-! ## C127 -/

/-- **C127 (residual).** Adding the gradient of a discrete pressure to the force and that pressure to the solution leaves every entry of
the residual unchanged, whatever pressures the old solutions contain - for all meshes, states, coefficients, physical types,
linearizations and formulations. -/
theorem C127_gradient_force (dim : ℕ) (hdim : dim = 1 ∨ dim = 2 ∨ dim = 3) (par : Q → PointParams K) (hpar : ∀ q, (par q).dim = dim)
    (π πOld πOldOld : X) (hπ : PressureField D π) (hπ1 : PressureField D πOld) (hπ2 : PressureField D πOldOld) (rhs : X → K)
    (old oldOld x t : X) :
    systemRhs D par (old + πOld) (oldOld + πOldOld) (fun t => rhs t + gradForce D dim π t) (x + π) t =
      systemRhs D par old oldOld rhs x t := by
  unfold systemRhs gradForce
  have e : ∀ q ∈ D.pts, D.jxw q * tested (par q).dim (residualPoint (par q) (D.at_ (old + πOld) q) (D.at_ (oldOld + πOldOld) q)
      (D.at_ (x + π) q)) (D.at_ t q) = D.jxw q * tested (par q).dim (residualPoint (par q) (D.at_ old q) (D.at_ oldOld q) (D.at_ x q))
        (D.at_ t q) - D.jxw q * ((D.at_ π q).p * ∑ d ∈ range dim, (D.at_ t q).gradU d d) := by
    intro q hq
    rw [at_add_pressure hπ x hq, at_add_pressure hπ1 old hq, at_add_pressure hπ2 oldOld hq,
      tested_pressure (par q) (by rw [hpar]; exact hdim), mul_sub, hpar]
  rw [sum_congr rfl e, sum_sub_distrib]
  ring

/-- **C127 (run).** Fields solve the equations of all time steps exactly if, with the gradients of any discrete pressures added to the
forces of the steps, the fields with these pressures added solve them: velocities do not change. -/
theorem C127_run (dim : ℕ) (hdim : dim = 1 ∨ dim = 2 ∨ dim = 3) (par : ℕ → Q → PointParams K) (hpar : ∀ m q, (par m q).dim = dim)
    (π : ℕ → X) (hπ : ∀ m, PressureField D (π m)) (rhs : ℕ → X → K) (T : X → Prop) (y : ℕ → X) :
    (∀ m, ∀ t, T t → systemRhs D (par m) (y (m + 1)) (y m) (rhs m) (y (m + 2)) t = 0) ↔
    ∀ m, ∀ t, T t → systemRhs D (par m) (y (m + 1) + π (m + 1)) (y m + π m) (fun t => rhs m t + gradForce D dim (π (m + 2)) t)
      (y (m + 2) + π (m + 2)) t = 0 := by
  refine forall_congr' fun m => forall_congr' fun t => imp_congr_right fun _ => ?_
  rw [C127_gradient_force dim hdim (par m) (hpar m) _ _ _ (hπ _) (hπ _) (hπ _)]

/-- **C127 (iteration).** The linear systems of the nonlinear iteration are the same: an increment solves the system at the iterate `x`
exactly if it solves the system with force and iterate changed. So the iterates have the same velocities, and the same convergence. -/
theorem C127_iteration (dim : ℕ) (hdim : dim = 1 ∨ dim = 2 ∨ dim = 3) (par : Q → PointParams K) (hpar : ∀ q, (par q).dim = dim)
    (π πOld πOldOld : X) (hπ : PressureField D π) (hπ1 : PressureField D πOld) (hπ2 : PressureField D πOldOld) (rhs : X → K)
    (s : Q → Stored K) (old oldOld x d t : X) :
    coupledProduct D par (old + πOld) (oldOld + πOldOld) s (x + π) d t = coupledProduct D par old oldOld s x d t ∧
    (coupledProduct D par (old + πOld) (oldOld + πOldOld) s (x + π) d t =
      systemRhs D par (old + πOld) (oldOld + πOldOld) (fun t => rhs t + gradForce D dim π t) (x + π) t ↔
      coupledProduct D par old oldOld s x d t = systemRhs D par old oldOld rhs x t) := by
  have e : coupledProduct D par (old + πOld) (oldOld + πOldOld) s (x + π) d t = coupledProduct D par old oldOld s x d t := by
    unfold coupledProduct
    refine sum_congr rfl fun q hq => ?_
    rw [at_add_pressure hπ x hq, at_add_pressure hπ1 old hq, at_add_pressure hπ2 oldOld hq, residualStore_pressure]
  exact ⟨e, by rw [e, C127_gradient_force dim hdim par hpar _ _ _ hπ hπ1 hπ2]⟩

/-! ## C128 -/

/-- **C128 (superposition).** Stokes flows add and scale: the residual of `a x + b y` with the force `a f + b g` is `a` times the residual
of `x` with `f` plus `b` times that of `y` with `g`, whatever the old solutions are - in particular solutions of two problems combine to a
solution, and reversed forces reverse the flow. -/
theorem C128_superposition (par : Q → PointParams K) (hdim : ∀ q, (par q).dim = 1 ∨ (par q).dim = 2 ∨ (par q).dim = 3)
    (hst : ∀ q, (par q).phys = .stokes) (a b : K) (x y z : X) (hz : Combination D a b x y z) (f g : X → K)
    (old1 oldOld1 old2 oldOld2 old3 oldOld3 t : X) :
    systemRhs D par old3 oldOld3 (fun t => a * f t + b * g t) z t =
      a * systemRhs D par old1 oldOld1 f x t + b * systemRhs D par old2 oldOld2 g y t := by
  have key : ∀ q ∈ D.pts, ∀ o oo o1 oo1 o2 oo2 : PointIn K, tested (par q).dim (residualPoint (par q) o oo (D.at_ z q)) (D.at_ t q) =
      a * tested (par q).dim (residualPoint (par q) o1 oo1 (D.at_ x q)) (D.at_ t q) +
      b * tested (par q).dim (residualPoint (par q) o2 oo2 (D.at_ y q)) (D.at_ t q) := by
    intro q hq o oo o1 oo1 o2 oo2
    obtain ⟨_, h2, h3⟩ := hz q hq
    have hg : (D.at_ z q).gradU = fun d e => a * (D.at_ x q).gradU d e + b * (D.at_ y q).gradU d e := by
      funext d e; exact h2 d e
    have hv : ∀ o oo x : PointIn K, ∀ i, residualValue (par q) o oo x i = 0 := by
      intro o oo x i; unfold residualValue; rw [if_pos (hst q)]
    unfold tested residualPoint
    dsimp only
    simp only [hv, zero_mul, sum_const_zero, zero_add]
    rw [stress_contract _ (hdim q), stress_contract _ (hdim q), stress_contract _ (hdim q), hg, h3]
    have htr : trace (par q).dim (fun d e => a * (D.at_ x q).gradU d e + b * (D.at_ y q).gradU d e) =
        a * trace (par q).dim (D.at_ x q).gradU + b * trace (par q).dim (D.at_ y q).gradU := by
      unfold trace
      rw [sum_add_distrib, mul_sum, mul_sum]
    rw [htr]
    simp only [add_mul, sum_add_distrib, mul_assoc, ← mul_sum, if_true]
    split_ifs <;> ring
  unfold systemRhs
  have e : ∑ q ∈ D.pts, D.jxw q * tested (par q).dim (residualPoint (par q) (D.at_ old3 q) (D.at_ oldOld3 q) (D.at_ z q)) (D.at_ t q) =
      a * (∑ q ∈ D.pts, D.jxw q * tested (par q).dim (residualPoint (par q) (D.at_ old1 q) (D.at_ oldOld1 q) (D.at_ x q)) (D.at_ t q)) +
      b * ∑ q ∈ D.pts, D.jxw q * tested (par q).dim (residualPoint (par q) (D.at_ old2 q) (D.at_ oldOld2 q) (D.at_ y q)) (D.at_ t q) := by
    rw [mul_sum, mul_sum, ← sum_add_distrib]
    refine sum_congr rfl fun q hq => ?_
    rw [key q hq (D.at_ old3 q) (D.at_ oldOld3 q) (D.at_ old1 q) (D.at_ oldOld1 q) (D.at_ old2 q) (D.at_ oldOld2 q)]
    ring
  rw [e]
  ring

/-- **C128 (solutions).** Two Stokes solutions combine. -/
theorem C128_solutions (par : Q → PointParams K) (hdim : ∀ q, (par q).dim = 1 ∨ (par q).dim = 2 ∨ (par q).dim = 3)
    (hst : ∀ q, (par q).phys = .stokes) (a b : K) (x y z : X) (hz : Combination D a b x y z) (f g : X → K) (old oldOld : X) (T : X → Prop)
    (hx : ∀ t, T t → systemRhs D par old oldOld f x t = 0) (hy : ∀ t, T t → systemRhs D par old oldOld g y t = 0) :
    ∀ old oldOld t, T t → systemRhs D par old oldOld (fun t => a * f t + b * g t) z t = 0 := by
  intro o oo t ht
  rw [C128_superposition par hdim hst a b x y z hz f g old oldOld old oldOld o oo t, hx t ht, hy t ht, mul_zero, mul_zero, add_zero]

/-! ## Limit and non-vacuity -/

/-- A pressure field of the example of `Operator.Frame` whose force is not zero, and a residual that is not zero. -/
example : PressureField exFrame (fun i => if i = 6 then 3 else 0) ∧
    gradForce exFrame 2 (fun i => if i = 6 then 3 else 0) (fun i => if i = 6 then 0 else i) ≠ 0 ∧ exFramePar.dim = 2 ∧
    systemRhs exFrame (fun _ => exFramePar) 0 0 (fun _ => 0) (fun i => i) (fun i => if i = 6 then 0 else 1) ≠ 0 := by
  refine ⟨?_, by decide +kernel, rfl, by decide +kernel⟩
  intro q _
  constructor
  · intro d
    unfold exFrame
    rcases d with _ | _ | d <;> simp
  · intro d e
    unfold exFrame
    rcases d with _ | _ | d <;> rcases e with _ | _ | e <;> simp

/-- Parameters of a stationary problem, Newton iteration. -/
def exInertia : PointParams ℚ := ⟨2, .incompressibleStationary, .coupledImplicitNewton, 0, 0, 0, 0, 1, 0, 2, 3, 0, fun a _ => a⟩

/-- **C128, limit.** With inertia flows do not add: doubling force and solution of a stationary problem leaves a residual. -/
theorem C128_not_with_inertia : exInertia.phys = .incompressibleStationary ∧
    Combination exFrame 2 0 (fun i => i) 0 (fun i => 2 * i) ∧
    ∃ (f : (Fin 7 → ℚ) → ℚ) (t : Fin 7 → ℚ), systemRhs exFrame (fun _ => exInertia) 0 0 f (fun i => i) t = 0 ∧
      systemRhs exFrame (fun _ => exInertia) 0 0 (fun t => 2 * f t) (fun i => 2 * i) t ≠ 0 := by
  refine ⟨rfl, ?_, fun _ => 6, fun i => if i = 0 then 1 else 0, ?_, ?_⟩
  · intro q _
    unfold exFrame
    refine ⟨fun d => ?_, fun d e => ?_, ?_⟩
    · dsimp only; split_ifs <;> simp
    · dsimp only; split_ifs <;> simp
    · simp
  · decide +kernel
  · decide +kernel

end Verif.Operator
