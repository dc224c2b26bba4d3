import Verif.Operator.Energy

/-!
# C59: steady states are preserved by the time discretization

Point operation of source/navier_stokes_matrix.cc:601-905 with the weights of the clock (`PointParams.withClock`).
-/

set_option linter.unusedSectionVars false

namespace Verif.Operator

open Verif.Parameters Verif.Time
open Finset

variable {K : Type*} [Field K] [LinearOrder K] [IsStrictOrderedRing K]

/-- The same coefficients for the stationary Navier-Stokes equations with implicit treatment of the convection. -/
def Spec.stationary (c : PointParams K) : PointParams K :=
  { c with phys := .incompressibleStationary, lin := .coupledImplicitNewton, tau1 := 1 }

/-- **C59.** With implicit Euler or BDF-2, in every step of every run without restart, whatever step sizes are requested and
for every linearization: if both old time levels equal the current field, the residual of the time-dependent equations is
the one of the stationary equations - exactly if `weight()` is the exact weight of the
step sizes (`C05_constant_steps_exact`), else up to its staleness. Hence a
solution of the stationary equations is a solution of the time step. (The projection scheme does not integrate the
divergence equation, its pressure part is compared only for the others.) -/
theorem C59_steady_state (p : Params K) (hp : p.Good) (t : TS K) (hr : ReachableFresh p t) (he : t.atEnd = false)
    (hs : p.scheme = .implicitEuler ∨ p.scheme = .bdf2) (c : PointParams K)
    (hdim : c.dim = 1 ∨ c.dim = 2 ∨ c.dim = 3) (hphys : c.phys = .incompressible) (x : PointIn K) :
    let r := residualPoint (c.withClock t.next) x x x
    let s := residualPoint (Spec.stationary c) x x x
    (∀ i, |r.value i - s.value i| ≤ 1 / 10 ^ 12 * t.exactWeight * |x.u i * c.rho| ∧
      (t.next.w = t.exactWeight → r.value i = s.value i)) ∧
    (∀ i < c.dim, ∀ j < c.dim, r.grad i j = s.grad i j) ∧ (c.lin ≠ .projection → r.pres = s.pres) := by
  intro r s
  have hone := tau1_one (t := t) hr.reachable hs
  obtain ⟨hsum, hpos, hclose, -⟩ := C05_three_weights_sum_zero p hp t (Or.inl hr) he
  have hext : ∀ v, t.next.extrapolate v v = v := fun v => by
    refine C06_extrapolate_constant p hp t hr.reachable ?_ v
    by_cases hn : t.now = t.start
    · right; have := (stepNo_zero_iff hp hr.reachable).2 hn; omega
    · left; exact hn
  have hv : ∀ i, r.value i = s.value i + (t.next.w - t.exactWeight) * (x.u i * c.rho) := by
    intro i
    show residualValue (c.withClock t.next) x x x i = residualValue (Spec.stationary c) x x x i + _
    have e : extrapolated (c.withClock t.next) x x = ⟨x.u, x.gradU, 0⟩ := by
      unfold extrapolated PointParams.withClock
      simp only [hext]
    have h1 : ¬ (c.withClock t.next).phys = .stokes := by
      show ¬ c.phys = _
      rw [hphys]; decide
    have h2 : (c.withClock t.next).phys ≠ .incompressibleStationary := by
      show c.phys ≠ _
      rw [hphys]; decide
    have hw : (c.withClock t.next).weight = t.next.w := by
      unfold PointParams.weight
      rw [if_pos (show (c.withClock t.next).phys = .incompressible from hphys)]; rfl
    have h3 : ¬ (Spec.stationary c).phys = .stokes := by simp [Spec.stationary]
    have hw' : (Spec.stationary c).weight = 0 := by simp [PointParams.weight, Spec.stationary]
    have hrhs : residualValue (Spec.stationary c) x x x i =
        (c.beta * trace c.dim x.gradU * x.u i + ∑ e ∈ range c.dim, x.u e * x.gradU i e) * c.rho - c.damping * x.u i := by
      unfold residualValue
      rw [if_neg h3]
      dsimp only
      rw [hw']
      simp [Spec.stationary, needExtrapolated, convImplicit]
    have hlhs : residualValue (c.withClock t.next) x x x i =
        (x.u i * t.next.w + (x.u i * t.next.wOld + x.u i * t.next.wOldOld) +
          (c.beta * trace c.dim x.gradU * x.u i + ∑ e ∈ range c.dim, x.u e * x.gradU i e)) * c.rho - c.damping * x.u i := by
      unfold residualValue
      rw [if_neg h1]
      dsimp only
      rw [if_pos h2, hw, e]
      have ht : (c.withClock t.next).tau1 = 1 := hone
      simp only [convImplicit, ht, one_mul]
      split_ifs <;> rfl
    rw [hlhs, hrhs]
    have : t.next.wOldOld = -t.exactWeight - t.next.wOld := by linarith
    rw [this]; ring
  refine ⟨fun i => ⟨?_, fun hc => ?_⟩, ?_, ?_⟩
  · rw [hv i, add_sub_cancel_left, abs_mul]
    exact mul_le_mul_of_nonneg_right hclose (abs_nonneg _)
  · rw [hv i, hc, sub_self, zero_mul, add_zero]
  · intro i hi j hj
    show stress (c.withClock t.next) true x.gradU x.p i j = stress (Spec.stationary c) true x.gradU x.p i j
    rw [stress_eq (c.withClock t.next) hdim _ _ _ _ _ hi hj, stress_eq (Spec.stationary c) hdim _ _ _ _ _ hi hj]
    have ht : (c.withClock t.next).tau1 = 1 := hone
    simp only [ht]
    rfl
  · intro hl
    have hl' : ¬ (c.withClock t.next).lin = .projection := hl
    have hl2 : ¬ (Spec.stationary c).lin = .projection := by simp [Spec.stationary]
    show (residualPoint (c.withClock t.next) x x x).pres = (residualPoint (Spec.stationary c) x x x).pres
    simp only [residualPoint, hl', hl2, if_false]
    rfl

/-- **C59 fails for the other schemes in release mode.** `local_operation` only asserts `tau2() == 0` in debug mode (line
629); otherwise with Crank-Nicolson (accepted by the parameter reader) the viscous stress and the convection enter with the
factor 1/2 and with explicit Euler they are lost, without a compensating term of the old level, so steady flows with
non-zero strain are not preserved. -/
theorem C59_other_schemes_inconsistent (p : Params K) (t : TS K) (hr : Reachable p t) (c : PointParams K)
    (hdim : c.dim = 1 ∨ c.dim = 2 ∨ c.dim = 3) (x : PointIn K) (i j : ℕ) (hi : i < c.dim) (hj : j < c.dim)
    (hne : c.mu * (x.gradU i j + x.gradU j i) ≠ 0)
    (hs : p.scheme = .crankNicolson ∨ p.scheme = .explicitEuler) :
    (residualPoint (c.withClock t.next) x x x).grad i j ≠ (residualPoint (Spec.stationary c) x x x).grad i j := by
  intro h
  have h' : stress (c.withClock t.next) true x.gradU x.p i j = stress (Spec.stationary c) true x.gradU x.p i j := h
  rw [stress_eq (c.withClock t.next) hdim _ _ _ _ _ hi hj, stress_eq (Spec.stationary c) hdim _ _ _ _ _ hi hj] at h'
  simp only [PointParams.withClock, Spec.stationary, add_left_inj, mul_one] at h'
  have htau : t.next.tau1 = t.tau1 := rfl
  rw [htau] at h'
  obtain ⟨-, h1, h2, h3, h4⟩ := C05_theta_weights p t hr
  have : (t.tau1 - 1) * (c.mu * (x.gradU i j + x.gradU j i)) = 0 := by linear_combination h'
  rcases mul_eq_zero.1 this with h0 | h0
  · rcases hs with hs | hs
    · have := h4.2 hs
      have h1' : t.tau1 + t.tau1 = 1 := by rw [← this] at h1; exact h1
      linarith
    · have := h3.2 hs
      linarith
  · exact hne h0

/-- Non-vacuity: a shear flow in two dimensions satisfies the hypotheses of the inconsistency. -/
example : let t := TS.ctor (exParams .crankNicolson)
    Reachable (exParams .crankNicolson) t ∧
    (1 : ℚ) * ((fun i j => if i = 0 ∧ j = 1 then (1 : ℚ) else 0) 0 1 + (fun i j : ℕ => if i = 0 ∧ j = 1 then (1 : ℚ) else 0) 1 0) ≠ 0 :=
  ⟨⟨[], by simp, rfl⟩, by decide +kernel⟩

end Verif.Operator
