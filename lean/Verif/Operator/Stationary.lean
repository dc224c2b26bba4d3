import Verif.Operator.Steady
import Verif.Operator.Jacobian
import Verif.Parameters.Theorems

/-!
# C121: stationary flow problems
(source/navier_stokes_matrix.cc:222-293, 601-905, source/navier_stokes.cc:846-935, source/parameters.cc:500-503,
source/time_stepping.cc:40-62)

With `physical type = incompressible stationary` one call of `advance_time_step` is meant to solve the stationary Navier-Stokes
equations: the result must not depend on the clock (time step sizes, multistep weights, step number) or on the fields of
earlier steps.
-/

set_option linter.unusedSectionVars false

namespace Verif.Operator.Stationary

open Verif.Parameters Verif.Time Verif.Operator
open Finset

variable {K : Type} [Field K] [LinearOrder K] [IsStrictOrderedRing K]

/-! ### Model -/

/-- What the evaluators `old`, `old_old` hold at a quadrature point when `local_operation` reads them: `reinit`,
`read_dof_values_plain` and `evaluate` are called for the time-dependent equations only (lines 672-686), otherwise they hold
whatever their scratch memory contains. (For the time-dependent equations with a linearization without extrapolation the
gradients are not evaluated either, but not read.) -/
def evaluator (c : PointParams K) (leftover field : PointIn K) : PointIn K :=
  if c.phys = .incompressible then field else leftover

/-- Everything the operation depends on besides the current field: the clock, the two old fields and the memory contents. -/
structure Context (K X Q : Type) where
  clock : TS K
  old : X
  oldOld : X
  left : Q → PointIn K
  leftOld : Q → PointIn K
  stored : Q → Stored K

variable {X Q : Type} [AddCommGroup X] (D : Discretization K X Q)

/-- The two old fields at a point as read. -/
def Context.oldAt (e : Context K X Q) (c : PointParams K) (q : Q) : PointIn K := evaluator c (e.left q) (D.at_ e.old q)
def Context.oldOldAt (e : Context K X Q) (c : PointParams K) (q : Q) : PointIn K := evaluator c (e.leftOld q) (D.at_ e.oldOld q)

/-- `residual`, lines 222-293: entry of `system_rhs` for the test function `t`. -/
def rhsEntry (par : Q → PointParams K) (e : Context K X Q) (rhs : X → K) (x t : X) : K :=
  rhs t - ∑ q ∈ D.pts, D.jxw q * tested (par q).dim
    (residualPoint ((par q).withClock e.clock) (e.oldAt D (par q) q) (e.oldOldAt D (par q) q) (D.at_ x q)) (D.at_ t q)

/-- `vmult`: entry for the test function `t` of the product with `d`, linearized by the residual at `x`. -/
def productEntry (par : Q → PointParams K) (e : Context K X Q) (x d t : X) : K :=
  ∑ q ∈ D.pts, D.jxw q * tested (par q).dim
    (vmultPoint ((par q).withClock e.clock)
      (residualStore ((par q).withClock e.clock) (e.oldAt D (par q) q) (e.oldOldAt D (par q) q) (D.at_ x q) (e.stored q))
      (D.at_ d q)) (D.at_ t q)

/-- `n` passes of the nonlinear iteration (navier_stokes.cc:850-935) from the start value `x`. `solve` stands for the linear
solver: any function of right hand side and operator (it may stop early; simplification: it gives the same result for the same
system, the number of passes is given). -/
def iterate (par : Q → PointParams K) (e : Context K X Q) (rhs : X → K) (solve : (X → K) → (X → X → K) → X) : ℕ → X → X
  | 0, x => x
  | n + 1, x => iterate par e rhs solve n (x + solve (rhsEntry D par e rhs x) (productEntry D par e x))

/-! ### Specification: the stationary equations -/

/-- Weak form of `ρ (u·∇u + β (div u) u) - σ u - div (μ (∇u + ∇uᵀ) + τ div u - p) = f`, `div u = 0` at a point, tested with
velocity `t.u` and pressure `t.p`. -/
def Spec.balance (c : PointParams K) (x t : PointIn K) : K :=
  ∑ i ∈ range c.dim, (c.rho * (∑ e ∈ range c.dim, x.u e * x.gradU i e + c.beta * (∑ e ∈ range c.dim, x.gradU e e) * x.u i)
      - c.damping * x.u i) * t.u i
  + ∑ i ∈ range c.dim, ∑ j ∈ range c.dim, c.mu * (x.gradU i j + x.gradU j i) * t.gradU i j
  + (c.tauGradDiv * (∑ e ∈ range c.dim, x.gradU e e) - x.p) * ∑ i ∈ range c.dim, t.gradU i i
  - (∑ e ∈ range c.dim, x.gradU e e) * t.p

/-- A stationary problem with one of the two fully implicit linearizations in one, two or three dimensions. -/
structure Spec.Problem (par : Q → PointParams K) : Prop where
  phys : ∀ q, (par q).phys = .incompressibleStationary
  lin : ∀ q, (par q).lin = .coupledImplicitNewton ∨ (par q).lin = .coupledImplicitPicard
  dim : ∀ q, (par q).dim = 1 ∨ (par q).dim = 2 ∨ (par q).dim = 3

/-- The clock has just been advanced, in any history of step size requests, with implicit Euler or BDF-2. -/
def Spec.ImplicitClock (t : TS K) : Prop :=
  ∃ p t₀, Reachable p t₀ ∧ (p.scheme = .implicitEuler ∨ p.scheme = .bdf2) ∧ t = t₀.next

/-! ### Theorems -/

theorem value_eq {c : PointParams K} (hphys : c.phys = .incompressibleStationary)
    (hlin : c.lin = .coupledImplicitNewton ∨ c.lin = .coupledImplicitPicard) (t : TS K) (ht : t.tau1 = 1)
    (old oldOld x : PointIn K) (i : ℕ) :
    (residualPoint (c.withClock t) old oldOld x).value i =
      (c.beta * trace c.dim x.gradU * x.u i + ∑ e ∈ range c.dim, x.u e * x.gradU i e) * c.rho - c.damping * x.u i := by
  show residualValue (c.withClock t) old oldOld x i = _
  have h1 : ¬ (c.withClock t).phys = .stokes := by show ¬ c.phys = _; rw [hphys]; decide
  have h2 : ¬ ((c.withClock t).phys ≠ .incompressibleStationary) := by
    show ¬ (c.phys ≠ _); rw [hphys]; decide
  have hw : (c.withClock t).weight = 0 := by
    unfold PointParams.weight
    rw [if_neg]
    show ¬ c.phys = _; rw [hphys]; decide
  have hn : needExtrapolated (c.withClock t).lin = false := by
    show needExtrapolated c.lin = false
    rcases hlin with h | h <;> rw [h] <;> rfl
  unfold residualValue
  rw [if_neg h1]
  dsimp only
  rw [if_neg h2, hw, hn]
  have ht' : (c.withClock t).tau1 = 1 := ht
  simp only [Bool.false_eq_true, if_false, convImplicit, ht', one_mul, mul_zero, zero_add]
  rfl

theorem sum_diag (n : ℕ) (f g : ℕ → ℕ → K) (a : K) :
    ∑ i ∈ range n, ∑ j ∈ range n, (f i j + if i = j then a else 0) * g i j =
      ∑ i ∈ range n, ∑ j ∈ range n, f i j * g i j + a * ∑ i ∈ range n, g i i := by
  rw [mul_sum, ← sum_add_distrib]
  refine sum_congr rfl fun i hi => ?_
  simp only [add_mul, sum_add_distrib, ite_mul, zero_mul]
  rw [sum_ite_eq, if_pos hi]

theorem tested_eq {c : PointParams K} (hphys : c.phys = .incompressibleStationary)
    (hlin : c.lin = .coupledImplicitNewton ∨ c.lin = .coupledImplicitPicard) (hdim : c.dim = 1 ∨ c.dim = 2 ∨ c.dim = 3)
    (t : TS K) (ht : t.tau1 = 1) (old oldOld x y : PointIn K) :
    tested c.dim (residualPoint (c.withClock t) old oldOld x) y = Spec.balance c x y := by
  unfold tested Spec.balance
  have hp : (residualPoint (c.withClock t) old oldOld x).pres = -trace c.dim x.gradU := by
    have : ¬ (c.withClock t).lin = .projection := by
      show ¬ c.lin = _
      rcases hlin with h | h <;> rw [h] <;> decide
    show (if (c.withClock t).lin = .projection then (0 : K) else _) = _
    rw [if_neg this]; rfl
  have hg : ∑ i ∈ range c.dim, ∑ j ∈ range c.dim,
      (residualPoint (c.withClock t) old oldOld x).grad i j * y.gradU i j =
      ∑ i ∈ range c.dim, ∑ j ∈ range c.dim, (c.mu * (x.gradU i j + x.gradU j i) +
        if i = j then c.tauGradDiv * trace c.dim x.gradU - x.p else 0) * y.gradU i j := by
    refine sum_congr rfl fun i hi => sum_congr rfl fun j hj => ?_
    congr 1
    show stress (c.withClock t) true x.gradU x.p i j = _
    rw [stress_eq (c.withClock t) hdim _ _ _ _ _ (mem_range.1 hi) (mem_range.1 hj)]
    have ht' : (c.withClock t).tau1 = 1 := ht
    rw [ht', mul_one]
    rfl
  rw [hg, sum_diag, hp]
  have hv : ∑ i ∈ range c.dim, (residualPoint (c.withClock t) old oldOld x).value i * y.u i =
      ∑ i ∈ range c.dim, (c.rho * (∑ e ∈ range c.dim, x.u e * x.gradU i e +
        c.beta * (∑ e ∈ range c.dim, x.gradU e e) * x.u i) - c.damping * x.u i) * y.u i := by
    refine sum_congr rfl fun i _ => ?_
    rw [value_eq hphys hlin t ht]
    unfold trace
    ring
  rw [hv]
  unfold trace
  ring

theorem clock_tau1 {t : TS K} (h : Spec.ImplicitClock t) : t.tau1 = 1 := by
  obtain ⟨p, t₀, hr, hs, rfl⟩ := h
  exact tau1_one hr hs

/-- **C121 (equations, partial).** With implicit Euler or BDF-2 as time stepping scheme and the Newton or Picard linearization,
the residual of a stationary problem is the residual of the stationary Navier-Stokes equations, for every mesh, space,
coefficients, step number and history of step sizes, whatever the fields of earlier steps and the scratch memory contain.
Missing: the other schemes and linearizations, for which the claim is false (`C121_other_schemes`, `C121_determined_iff`). -/
theorem C121_equations_partial (par : Q → PointParams K) (hp : Spec.Problem par) (e : Context K X Q)
    (hc : Spec.ImplicitClock e.clock) (rhs : X → K) (x t : X) :
    rhsEntry D par e rhs x t = rhs t - ∑ q ∈ D.pts, D.jxw q * Spec.balance (par q) (D.at_ x q) (D.at_ t q) := by
  unfold rhsEntry
  congr 1
  refine sum_congr rfl fun q _ => ?_
  rw [tested_eq (hp.phys q) (hp.lin q) (hp.dim q) _ (clock_tau1 hc)]

theorem product_eq {c : PointParams K} (hphys : c.phys = .incompressibleStationary)
    (hlin : c.lin = .coupledImplicitNewton ∨ c.lin = .coupledImplicitPicard)
    (t t' : TS K) (ht : t.tau1 = 1) (ht' : t'.tau1 = 1) (o o' oo oo' x d : PointIn K) (s s' : Stored K) :
    vmultPoint (c.withClock t) (residualStore (c.withClock t) o oo x s) d =
      vmultPoint (c.withClock t') (residualStore (c.withClock t') o' oo' x s') d := by
  have hs : ∀ u : TS K, ¬ (c.withClock u).phys = .stokes := fun u => by show ¬ c.phys = _; rw [hphys]; decide
  have hw : ∀ u : TS K, (c.withClock u).weight = 0 := fun u => by
    unfold PointParams.weight
    rw [if_neg]
    show ¬ c.phys = _; rw [hphys]; decide
  have hst : stress (c.withClock t) true d.gradU d.p = stress (c.withClock t') true d.gradU d.p := by
    unfold stress PointParams.withClock
    dsimp only
    rw [ht, ht']
  unfold vmultPoint
  have hv : productValue (c.withClock t) (residualStore (c.withClock t) o oo x s) d =
      productValue (c.withClock t') (residualStore (c.withClock t') o' oo' x s') d := by
    funext i
    unfold productValue residualStore
    rw [if_neg (hs t), if_neg (hs t'), if_neg (hs t), if_neg (hs t')]
    dsimp only
    rw [hw, hw]
    have e1 : (c.withClock t).tau1 = 1 := ht
    have e2 : (c.withClock t').tau1 = 1 := ht'
    have l1 : ∀ u : TS K, (c.withClock u).lin = c.lin := fun _ => rfl
    have d1 : ∀ u : TS K, (c.withClock u).dim = c.dim := fun _ => rfl
    have b1 : ∀ u : TS K, (c.withClock u).beta = c.beta := fun _ => rfl
    have r1 : ∀ u : TS K, (c.withClock u).rho = c.rho := fun _ => rfl
    have m1 : ∀ u : TS K, (c.withClock u).damping = c.damping := fun _ => rfl
    simp only [e1, e2, l1, d1, b1, r1, m1]
    rcases hlin with h | h
    · simp [h, needExtrapolated]
    · simp [h, needExtrapolated]
  rw [hv, hst]
  rfl

/-- **C121 (independence, partial).** Under the same conditions every iterate of the nonlinear iteration depends on the start
value, the coefficients and the forces only: two runs with different step sizes, time stepping schemes (implicit Euler or BDF-2),
step numbers, old fields and memory contents compute the same iterates, for every linear solver.
Missing: see `C121_equations_partial`. -/
theorem C121_independent_partial (par : Q → PointParams K) (hp : Spec.Problem par) (e e' : Context K X Q)
    (hc : Spec.ImplicitClock e.clock) (hc' : Spec.ImplicitClock e'.clock) (rhs : X → K)
    (solve : (X → K) → (X → X → K) → X) (n : ℕ) (x : X) :
    iterate D par e rhs solve n x = iterate D par e' rhs solve n x := by
  induction n generalizing x with
  | zero => rfl
  | succ n ih =>
    have h1 : rhsEntry D par e rhs x = rhsEntry D par e' rhs x := by
      funext t
      rw [C121_equations_partial D par hp e hc, C121_equations_partial D par hp e' hc']
    have h2 : productEntry D par e x = productEntry D par e' x := by
      funext d t
      unfold productEntry
      refine sum_congr rfl fun q _ => ?_
      rw [product_eq (hp.phys q) (hp.lin q) _ _ (clock_tau1 hc) (clock_tau1 hc')]
    show iterate D par e rhs solve n _ = iterate D par e' rhs solve n _
    rw [h1, h2]
    exact ih _

/-- **C121 (the result).** If the iteration stops because the residual vanishes, the stationary equations hold; conversely a
solution of the stationary equations is a fixed point of every linear solver that answers zero to a zero right hand side. -/
theorem C121_fixed_point (par : Q → PointParams K) (hp : Spec.Problem par) (e : Context K X Q)
    (hc : Spec.ImplicitClock e.clock) (rhs : X → K) (x : X) :
    ((∀ t, rhsEntry D par e rhs x t = 0) ↔
      ∀ t, ∑ q ∈ D.pts, D.jxw q * Spec.balance (par q) (D.at_ x q) (D.at_ t q) = rhs t) ∧
    ∀ solve : (X → K) → (X → X → K) → X, (∀ A, solve (fun _ => 0) A = 0) →
      (∀ t, ∑ q ∈ D.pts, D.jxw q * Spec.balance (par q) (D.at_ x q) (D.at_ t q) = rhs t) →
      ∀ n, iterate D par e rhs solve n x = x := by
  have key : (∀ t, rhsEntry D par e rhs x t = 0) ↔
      ∀ t, ∑ q ∈ D.pts, D.jxw q * Spec.balance (par q) (D.at_ x q) (D.at_ t q) = rhs t := by
    refine forall_congr' fun t => ?_
    rw [C121_equations_partial D par hp e hc, sub_eq_zero]
    exact eq_comm
  refine ⟨key, fun solve hs h n => ?_⟩
  have h0 : rhsEntry D par e rhs x = fun _ => 0 := funext (key.2 h)
  induction n with
  | zero => rfl
  | succ n ih =>
    show iterate D par e rhs solve n _ = x
    rw [h0, hs, add_zero]
    exact ih

/-- **C121 (other schemes).** In release mode nothing prevents a stationary problem with Crank-Nicolson or explicit Euler
(`Assert(time_stepping->tau2() == 0.)` in line 629 is compiled out): the stress submitted is not that of the equations wherever the
viscous stress is not zero. -/
theorem C121_other_schemes (p : Params K) (t : TS K) (hr : Reachable p t) (hs : p.scheme = .crankNicolson ∨ p.scheme = .explicitEuler)
    (c : PointParams K) (hdim : c.dim = 1 ∨ c.dim = 2 ∨ c.dim = 3)
    (old oldOld x : PointIn K) (i j : ℕ) (hi : i < c.dim) (hj : j < c.dim) (hne : c.mu * (x.gradU i j + x.gradU j i) ≠ 0) :
    (residualPoint (c.withClock t.next) old oldOld x).grad i j ≠
      c.mu * (x.gradU i j + x.gradU j i) + if i = j then c.tauGradDiv * trace c.dim x.gradU - x.p else 0 := by
  intro h
  refine C59_other_schemes_inconsistent p t hr c hdim x i j hi hj hne hs ?_
  have h1 : (residualPoint (c.withClock t.next) x x x).grad i j = (residualPoint (c.withClock t.next) old oldOld x).grad i j := rfl
  rw [h1, h]
  show _ = stress (Spec.stationary c) true x.gradU x.p i j
  rw [stress_eq (Spec.stationary c) hdim _ _ _ _ _ hi hj]
  simp [Spec.stationary]

/-- **C121 (linearizations).** For a stationary problem the residual is determined by the current field - for any contents of the
evaluators that are not filled - exactly for the Newton and Picard linearizations; with the other three the residual consists of
values never computed. (The parameter reader rejects them in debug mode only, `C121_release_accepts`.) -/
theorem C121_determined_iff (c : PointParams K) (hphys : c.phys = .incompressibleStationary) (hd : 0 < c.dim) (hrho : c.rho ≠ 0)
    (hbeta : 0 ≤ c.beta) (t : TS K) (ht : t.tau1 ≠ 0) (hext : ∀ v, t.extrapolate v v = v) (old oldOld : PointIn K) :
    (∀ (l l' m m' x : PointIn K),
      residualPoint (c.withClock t) (evaluator c l old) (evaluator c m oldOld) x =
        residualPoint (c.withClock t) (evaluator c l' old) (evaluator c m' oldOld) x) ↔
    c.lin = .coupledImplicitNewton ∨ c.lin = .coupledImplicitPicard := by
  have he : ∀ l f : PointIn K, evaluator c l f = l := fun l f => by
    unfold evaluator
    rw [if_neg]
    rw [hphys]; decide
  simp only [he]
  have h1 : ¬ (c.withClock t).phys = .stokes := by show ¬ c.phys = _; rw [hphys]; decide
  have h2 : ¬ ((c.withClock t).phys ≠ .incompressibleStationary) := by
    show ¬ (c.phys ≠ _); rw [hphys]; decide
  have hw : (c.withClock t).weight = 0 := by
    unfold PointParams.weight
    rw [if_neg]
    show ¬ c.phys = _; rw [hphys]; decide
  constructor
  · intro h
    by_contra hl
    push Not at hl
    -- the memory holds a unit velocity and gradient in the first direction, or zero
    let one : PointIn K := ⟨fun i => if i = 0 then 1 else 0, fun i j => if i = 0 ∧ j = 0 then 1 else 0, 0⟩
    let zero : PointIn K := ⟨fun _ => 0, fun _ _ => 0, 0⟩
    let x : PointIn K := ⟨fun _ => 0, fun i j => if i = 0 ∧ j = 0 then 1 else 0, 0⟩
    have hv := congrArg (fun o => o.value 0) (h one zero one zero x)
    change residualValue (c.withClock t) one one x 0 = residualValue (c.withClock t) zero zero x 0 at hv
    have hn : needExtrapolated (c.withClock t).lin = true := by
      show needExtrapolated c.lin = true
      revert hl
      cases c.lin <;> simp [needExtrapolated]
    have hx1 : extrapolated (c.withClock t) one one = ⟨one.u, one.gradU, 0⟩ := by
      show (⟨fun d => t.extrapolate (one.u d) (one.u d), fun d e => t.extrapolate (one.gradU d e) (one.gradU d e), 0⟩ :
        PointIn K) = _
      simp only [hext]
    have hx0 : extrapolated (c.withClock t) zero zero = ⟨zero.u, zero.gradU, 0⟩ := by
      show (⟨fun d => t.extrapolate (zero.u d) (zero.u d), fun d e => t.extrapolate (zero.gradU d e) (zero.gradU d e), 0⟩ :
        PointIn K) = _
      simp only [hext]
    have hm : (0 : ℕ) ∈ range c.dim := mem_range.2 hd
    have s2 : ∑ d ∈ range c.dim, (if d = 0 ∧ d = 0 then (1 : K) else 0) = 1 := by
      rw [sum_eq_single 0]
      · simp
      · intro b _ hb; simp [hb]
      · exact fun h => absurd hm h
    unfold residualValue at hv
    rw [if_neg h1, if_neg h1] at hv
    dsimp only at hv
    rw [if_neg h2, if_neg h2, hw, hn, hx1, hx0] at hv
    have l1 : (c.withClock t).lin = c.lin := rfl
    have d1 : (c.withClock t).dim = c.dim := rfl
    have b1 : (c.withClock t).beta = c.beta := rfl
    have r1 : (c.withClock t).rho = c.rho := rfl
    have m1 : (c.withClock t).damping = c.damping := rfl
    have t1 : (c.withClock t).tau1 = t.tau1 := rfl
    simp only [l1, d1, b1, r1, m1, t1, if_true, one, zero, x, trace, s2] at hv
    simp only [mul_zero, zero_mul, sum_const_zero, add_zero, zero_add, mul_one, sub_zero, ite_self] at hv
    split_ifs at hv with hex
    · have : t.tau1 * (c.beta + 1) * c.rho = 0 := by simpa [hd] using hv
      have hb : c.beta + 1 ≠ 0 := by linarith
      exact (mul_ne_zero (mul_ne_zero ht hb) hrho) this
    · have : t.tau1 * c.rho = 0 := by simpa [hd] using hv
      exact (mul_ne_zero ht hrho) this
  · intro hl l l' m m' x
    have hn : needExtrapolated (c.withClock t).lin = false := by
      show needExtrapolated c.lin = false
      rcases hl with h | h <;> rw [h] <;> rfl
    have hv : residualValue (c.withClock t) l m x = residualValue (c.withClock t) l' m' x := by
      funext i
      unfold residualValue
      rw [if_neg h1, if_neg h1]
      dsimp only
      rw [if_neg h2, if_neg h2, hn]
      rfl
    unfold residualPoint
    rw [hv]

/-- **C121 (release mode).** A file that asks for a stationary problem with a semi-implicit linearization or with Crank-Nicolson is
accepted in release mode; the first is rejected in debug mode, the second is not. -/
theorem C121_release_accepts :
    (((parse false { defaults with physicalType := "incompressible stationary", linearization := "coupled velocity semi-implicit" }).toOption.map
      fun f => (f.physical, f.linearization)) = some (.incompressibleStationary, .coupledVelocitySemiImplicit)) ∧
    (parse true { defaults with physicalType := "incompressible stationary", linearization := "coupled velocity semi-implicit" }).toOption.isNone ∧
    ((parse true { defaults with physicalType := "incompressible stationary", scheme := "crank_nicolson" }).toOption.map
      fun f => (f.physical, f.time.scheme)) = some (.incompressibleStationary, .crankNicolson) := by
  refine ⟨by decide +kernel, by decide +kernel, by decide +kernel⟩

/-! ### Concrete case: two quadrature points, first step -/

/-- Fields are numbers `x`: velocity `(x, x)` with gradient `± x` in the two points, pressure `x`. -/
def exD : Discretization ℚ ℚ Bool where
  pts := {true, false}
  jxw := fun _ => 1
  at_ := fun x q => ⟨fun _ => x, fun _ _ => if q then x else -x, x⟩
  at_add := by
    intro x y q
    cases q <;> simp [PointIn.add]; ring_nf

def exPar : Bool → PointParams ℚ := fun _ =>
  ⟨2, .incompressibleStationary, .coupledImplicitNewton, 1 / 2, 0, 0, 0, 0, 1, 3, 1 / 2, 0, fun a _ => a⟩

def exClock (s : Scheme) : TS ℚ := (TS.ctor ⟨s, 0, 1, 1 / 10, 1, 1 / 100⟩).next

def exContext (s : Scheme) (a : ℚ) : Context ℚ ℚ Bool :=
  ⟨exClock s, a, 2 * a, fun _ => ⟨fun _ => a, fun _ _ => a, 0⟩, fun _ => ⟨fun _ => 7, fun _ _ => a, 0⟩,
    fun _ => ⟨fun _ => a, fun _ _ => 5⟩⟩

/-- The hypotheses are met. -/
example : Spec.Problem exPar ∧ Spec.ImplicitClock (exContext .bdf2 4).clock ∧ Spec.ImplicitClock (exContext .implicitEuler 9).clock :=
  ⟨⟨fun _ => rfl, fun _ => Or.inl rfl, fun _ => Or.inr (Or.inl rfl)⟩,
    ⟨_, _, ⟨[], by simp, rfl⟩, Or.inr rfl, rfl⟩, ⟨_, _, ⟨[], by simp, rfl⟩, Or.inl rfl, rfl⟩⟩

/-- The residual and the iterates of a Newton iteration are not trivial, and the same in both contexts. -/
example : let solve : (ℚ → ℚ) → (ℚ → ℚ → ℚ) → ℚ := fun r A => r 1 / A 1 1
    rhsEntry exD exPar (exContext .bdf2 4) (fun t => 20 * t) 1 1 = rhsEntry exD exPar (exContext .implicitEuler 9) (fun t => 20 * t) 1 1 ∧
    rhsEntry exD exPar (exContext .bdf2 4) (fun t => 20 * t) 1 1 ≠ 0 ∧
    iterate exD exPar (exContext .bdf2 4) (fun t => 20 * t) solve 2 1 ≠ 1 ∧
    iterate exD exPar (exContext .bdf2 4) (fun t => 20 * t) solve 2 1 =
      iterate exD exPar (exContext .implicitEuler 9) (fun t => 20 * t) solve 2 1 := by
  decide +kernel

/-- The conditions of `C121_determined_iff` on the clock hold in the first step. -/
example : (exClock .bdf2).tau1 ≠ 0 ∧ (∀ v, (exClock .bdf2).extrapolate v v = v) ∧ (exPar true).rho ≠ 0 ∧ 0 ≤ (exPar true).beta := by
  refine ⟨by decide +kernel, fun v => C06_extrapolate_constant ⟨.bdf2, 0, 1, 1 / 10, 1, 1 / 100⟩ ?_ _ ⟨[], by simp, rfl⟩ ?_ v, by decide +kernel, by decide +kernel⟩
  · constructor <;> norm_num
  · right; decide +kernel

end Verif.Operator.Stationary
