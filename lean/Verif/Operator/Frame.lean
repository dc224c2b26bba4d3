import Verif.Operator.Jacobian
import Verif.Operator.Energy

/-!
# C125: a turned or mirrored problem has the turned or mirrored solution (flow)

The point operation of `NavierStokesMatrix::local_operation` (source/navier_stokes_matrix.cc:601-905, model in
`Operator.Point`) works on components: symmetrization by index pairs, storage of the divergence in entry `[0][0]`. The results must
nevertheless not depend on the choice of the coordinate axes.
-/
set_option linter.unusedSectionVars false

namespace Verif.Operator

open Verif.Parameters Verif.Time
open Finset

variable {K : Type*} [Field K]

/-! ## Specification -/

namespace Spec

/-- The columns of `O` are orthonormal: a rotation or reflection of `n`-dimensional space. -/
def Orthogonal (n : ℕ) (O : ℕ → ℕ → K) : Prop :=
  ∀ j < n, ∀ k < n, ∑ i ∈ range n, O i j * O i k = if j = k then 1 else 0

/-- The vector `v` in the turned frame: `O v`. -/
def turn (n : ℕ) (O : ℕ → ℕ → K) (v : ℕ → K) (i : ℕ) : K := ∑ j ∈ range n, O i j * v j

/-- A matrix in the turned frame: `O G Oᵀ`. -/
def turn2 (n : ℕ) (O : ℕ → ℕ → K) (G : ℕ → ℕ → K) (i k : ℕ) : K :=
  ∑ j ∈ range n, O i j * ∑ l ∈ range n, O k l * G j l

/-- Velocity, velocity gradient and pressure in the turned frame. -/
def turnPoint (n : ℕ) (O : ℕ → ℕ → K) (x : PointIn K) : PointIn K := ⟨turn n O x.u, turn2 n O x.gradU, x.p⟩

/-- `D'` is the turned problem: the same points and weights, and the function with coefficients `R x` there is the turned function
with coefficients `x`. -/
structure Turned {X X' Q : Type*} [AddCommGroup X] [AddCommGroup X'] (n : ℕ) (O : ℕ → ℕ → K) (D : Discretization K X Q)
    (D' : Discretization K X' Q) (R : X → X') : Prop where
  pts : D'.pts = D.pts
  jxw : ∀ q ∈ D.pts, D'.jxw q = D.jxw q
  at_ : ∀ x, ∀ q ∈ D.pts, D'.at_ (R x) q = turnPoint n O (D.at_ x q)
  add : ∀ x y, R (x + y) = R x + R y

end Spec

open Spec

/-! ## Proofs: algebra -/

theorem turn_dot {n : ℕ} {O : ℕ → ℕ → K} (hO : Orthogonal n O) (a b : ℕ → K) :
    ∑ i ∈ range n, turn n O a i * turn n O b i = ∑ j ∈ range n, a j * b j := by
  unfold turn
  have h1 : ∀ i, (∑ j ∈ range n, O i j * a j) * (∑ k ∈ range n, O i k * b k) =
      ∑ j ∈ range n, ∑ k ∈ range n, a j * b k * (O i j * O i k) := by
    intro i
    rw [Finset.sum_mul_sum]
    exact sum_congr rfl fun j _ => sum_congr rfl fun k _ => by ring
  simp only [h1]
  rw [sum_comm]
  refine sum_congr rfl fun j hj => ?_
  rw [sum_comm]
  have h2 : ∀ k ∈ range n, ∑ i ∈ range n, a j * b k * (O i j * O i k) = if j = k then a j * b k else 0 := by
    intro k hk
    rw [← mul_sum, hO j (mem_range.1 hj) k (mem_range.1 hk)]
    split_ifs <;> simp
  rw [sum_congr rfl h2, Finset.sum_ite_eq, if_pos hj]

theorem turn_add (n : ℕ) (O : ℕ → ℕ → K) (a b : ℕ → K) (i : ℕ) :
    turn n O (fun j => a j + b j) i = turn n O a i + turn n O b i := by
  unfold turn
  rw [← sum_add_distrib]
  exact sum_congr rfl fun _ _ => by ring

theorem turn_smul (n : ℕ) (O : ℕ → ℕ → K) (c : K) (a : ℕ → K) (i : ℕ) :
    turn n O (fun j => c * a j) i = c * turn n O a i := by
  unfold turn
  rw [mul_sum]
  exact sum_congr rfl fun _ _ => by ring

theorem turn_congr (n : ℕ) (O : ℕ → ℕ → K) (a b : ℕ → K) (h : ∀ j < n, a j = b j) (i : ℕ) :
    turn n O a i = turn n O b i :=
  sum_congr rfl fun j hj => by rw [h j (mem_range.1 hj)]

theorem turn_zero (n : ℕ) (O : ℕ → ℕ → K) (i : ℕ) : turn n O (fun _ => 0) i = 0 := by
  unfold turn
  simp

theorem turn2_eq (n : ℕ) (O : ℕ → ℕ → K) (G : ℕ → ℕ → K) (i k : ℕ) :
    turn2 n O G i k = turn n O (fun j => turn n O (G j) k) i := rfl

theorem turn2_contract {n : ℕ} {O : ℕ → ℕ → K} (hO : Orthogonal n O) (G H : ℕ → ℕ → K) :
    ∑ i ∈ range n, ∑ k ∈ range n, turn2 n O G i k * turn2 n O H i k =
      ∑ i ∈ range n, ∑ k ∈ range n, G i k * H i k := by
  rw [sum_comm]
  simp only [turn2_eq]
  have h : ∀ k ∈ range n, ∑ i ∈ range n, turn n O (fun j => turn n O (G j) k) i * turn n O (fun j => turn n O (H j) k) i =
      ∑ j ∈ range n, turn n O (G j) k * turn n O (H j) k := fun k _ => turn_dot hO _ _
  rw [sum_congr rfl h, sum_comm]
  exact sum_congr rfl fun j _ => turn_dot hO _ _

theorem turn2_transpose (n : ℕ) (O : ℕ → ℕ → K) (G : ℕ → ℕ → K) (i k : ℕ) :
    turn2 n O (fun a b => G b a) i k = turn2 n O G k i := by
  unfold turn2
  simp only [mul_sum]
  rw [sum_comm]
  exact sum_congr rfl fun _ _ => sum_congr rfl fun _ _ => by ring

theorem turn2_trace {n : ℕ} {O : ℕ → ℕ → K} (hO : Orthogonal n O) (G : ℕ → ℕ → K) :
    trace n (turn2 n O G) = trace n G := by
  unfold trace turn2
  simp only [mul_sum]
  rw [sum_comm]
  refine sum_congr rfl fun j hj => ?_
  rw [sum_comm]
  have h2 : ∀ l ∈ range n, ∑ i ∈ range n, O i j * (O i l * G j l) = if j = l then G j l else 0 := by
    intro l hl
    have : ∀ i, O i j * (O i l * G j l) = G j l * (O i j * O i l) := fun i => by ring
    simp only [this]
    rw [← mul_sum, hO j (mem_range.1 hj) l (mem_range.1 hl)]
    split_ifs <;> simp
  rw [sum_congr rfl h2, Finset.sum_ite_eq, if_pos hj]

theorem turn_advect {n : ℕ} {O : ℕ → ℕ → K} (hO : Orthogonal n O) (a : ℕ → K) (G : ℕ → ℕ → K) (i : ℕ) :
    ∑ k ∈ range n, turn n O a k * turn2 n O G i k = turn n O (fun j => ∑ l ∈ range n, a l * G j l) i := by
  have h : ∀ k, turn n O a k * turn2 n O G i k = ∑ j ∈ range n, O i j * (turn n O a k * turn n O (G j) k) := by
    intro k
    unfold turn2
    rw [mul_sum]
    exact sum_congr rfl fun j _ => by unfold turn; ring
  simp only [h]
  rw [sum_comm]
  conv_rhs => unfold turn
  refine sum_congr rfl fun j _ => ?_
  rw [← mul_sum, turn_dot hO]

/-! ## Proofs: the quadrature point -/

/-- The convective term, as a function of transport velocity, its divergence and the transported velocity. -/
def convected (c : PointParams K) (div : K) (a v : ℕ → K) (G : ℕ → ℕ → K) (d : ℕ) : K :=
  c.beta * div * v d + ∑ e ∈ range c.dim, a e * G d e

theorem convected_turn (c : PointParams K) {O : ℕ → ℕ → K} (hO : Orthogonal c.dim O) (div : K) (a v : ℕ → K) (G : ℕ → ℕ → K)
    (i : ℕ) :
    convected c div (turn c.dim O a) (turn c.dim O v) (turn2 c.dim O G) i = turn c.dim O (convected c div a v G) i := by
  unfold convected
  rw [turn_advect hO, turn_add, turn_smul]

theorem extrapolated_turn (c : PointParams K) (O : ℕ → ℕ → K) (α β : K) (hext : ∀ a b, c.ext a b = α * a + β * b)
    (old oldOld : PointIn K) :
    (extrapolated c (turnPoint c.dim O old) (turnPoint c.dim O oldOld)).u = turn c.dim O (extrapolated c old oldOld).u ∧
    (extrapolated c (turnPoint c.dim O old) (turnPoint c.dim O oldOld)).gradU = turn2 c.dim O (extrapolated c old oldOld).gradU := by
  constructor
  · funext i
    simp only [extrapolated, turnPoint, hext]
    rw [turn_add, turn_smul, turn_smul]
  · funext i k
    simp only [extrapolated, turnPoint, hext, turn2_eq, turn_add, turn_smul]

/-- the residual value as a combination of turned vectors -/
theorem residualValue_turn (c : PointParams K) {O : ℕ → ℕ → K} (hO : Orthogonal c.dim O) (α β : K)
    (hext : ∀ a b, c.ext a b = α * a + β * b) (old oldOld x : PointIn K) (i : ℕ) :
    residualValue c (turnPoint c.dim O old) (turnPoint c.dim O oldOld) (turnPoint c.dim O x) i =
      turn c.dim O (residualValue c old oldOld x) i := by
  obtain ⟨heu, heg⟩ := extrapolated_turn c O α β hext old oldOld
  by_cases hst : c.phys = .stokes
  · have : ∀ o oo y, residualValue c o oo y = fun _ => 0 := by
      intro o oo y
      funext d
      unfold residualValue
      rw [if_pos hst]
    rw [this, this, turn_zero]
  · -- closed form
    have hform : ∀ (o oo y : PointIn K), residualValue c o oo y = fun d =>
        (c.weight * c.rho - c.damping) * y.u d +
        ((if c.phys ≠ .incompressibleStationary then c.wOld * c.rho else 0) * o.u d +
        ((if c.phys ≠ .incompressibleStationary then c.wOldOld * c.rho else 0) * oo.u d +
        (c.tau1 * c.rho) * (if needExtrapolated c.lin then
          if c.lin = .coupledVelocityExplicit then
            convected c (trace c.dim (extrapolated c o oo).gradU) (extrapolated c o oo).u (extrapolated c o oo).u
              (extrapolated c o oo).gradU d
          else convected c (trace c.dim (extrapolated c o oo).gradU) (extrapolated c o oo).u y.u y.gradU d
          else convected c (trace c.dim y.gradU) y.u y.u y.gradU d))) := by
      intro o oo y
      funext d
      unfold residualValue convImplicit convected
      rw [if_neg hst]
      dsimp only
      split_ifs <;> ring
    rw [hform, hform, turn_add, turn_add, turn_add, turn_smul, turn_smul, turn_smul, turn_smul]
    rw [heu, heg]
    simp only [turnPoint]
    rw [turn2_trace hO, turn2_trace hO]
    congr 4
    split_ifs
    · exact convected_turn c hO _ _ _ _ _
    · exact convected_turn c hO _ _ _ _ _
    · exact convected_turn c hO _ _ _ _ _

/-- the tested stress in closed form -/
theorem stress_contract (c : PointParams K) (hdim : c.dim = 1 ∨ c.dim = 2 ∨ c.dim = 3) (wp : Bool) (g H : ℕ → ℕ → K) (p : K) :
    ∑ i ∈ range c.dim, ∑ j ∈ range c.dim, stress c wp g p i j * H i j =
      c.mu * c.tau1 * (∑ i ∈ range c.dim, ∑ j ∈ range c.dim, g i j * H i j)
      + c.mu * c.tau1 * (∑ i ∈ range c.dim, ∑ j ∈ range c.dim, (fun a b => g b a) i j * H i j)
      + (c.tauGradDiv * trace c.dim g - (if wp then p else 0)) * trace c.dim H := by
  have h : ∀ i ∈ range c.dim, ∑ j ∈ range c.dim, stress c wp g p i j * H i j =
      c.mu * c.tau1 * (∑ j ∈ range c.dim, g i j * H i j) + c.mu * c.tau1 * (∑ j ∈ range c.dim, g j i * H i j)
      + (c.tauGradDiv * trace c.dim g - (if wp then p else 0)) * H i i := by
    intro i hi
    have h2 : ∀ j ∈ range c.dim, stress c wp g p i j * H i j =
        c.mu * c.tau1 * (g i j * H i j) + c.mu * c.tau1 * (g j i * H i j)
        + if i = j then (c.tauGradDiv * trace c.dim g - (if wp then p else 0)) * H i j else 0 := by
      intro j hj
      rw [stress_eq c hdim _ _ _ _ _ (mem_range.1 hi) (mem_range.1 hj)]
      by_cases hij : i = j
      · rw [if_pos hij, if_pos hij]; ring
      · rw [if_neg hij, if_neg hij]; ring
    rw [sum_congr rfl h2, sum_add_distrib, sum_add_distrib, ← mul_sum, ← mul_sum, Finset.sum_ite_eq, if_pos hi]
  rw [sum_congr rfl h, sum_add_distrib, sum_add_distrib, ← mul_sum, ← mul_sum, ← mul_sum]
  rfl

theorem stress_turn (c : PointParams K) (hdim : c.dim = 1 ∨ c.dim = 2 ∨ c.dim = 3) {O : ℕ → ℕ → K} (hO : Orthogonal c.dim O)
    (wp : Bool) (g H : ℕ → ℕ → K) (p : K) :
    ∑ i ∈ range c.dim, ∑ j ∈ range c.dim, stress c wp (turn2 c.dim O g) p i j * turn2 c.dim O H i j =
    ∑ i ∈ range c.dim, ∑ j ∈ range c.dim, stress c wp g p i j * H i j := by
  rw [stress_contract c hdim, stress_contract c hdim, turn2_trace hO, turn2_trace hO, turn2_contract hO]
  congr 3
  have : (fun a b => turn2 c.dim O g b a) = turn2 c.dim O (fun a b => g b a) := by
    funext a b
    rw [turn2_transpose]
  rw [this, turn2_contract hO]

/-- testing turned data -/
theorem tested_turn (c : PointParams K) (hdim : c.dim = 1 ∨ c.dim = 2 ∨ c.dim = 3) {O : ℕ → ℕ → K} (hO : Orthogonal c.dim O)
    (wp : Bool) (v v' : ℕ → K) (hv : ∀ i, v' i = turn c.dim O v i) (g : ℕ → ℕ → K) (p r : K) (t : PointIn K) :
    tested c.dim ⟨v', stress c wp (turn2 c.dim O g) p, r⟩ (turnPoint c.dim O t) =
      tested c.dim ⟨v, stress c wp g p, r⟩ t := by
  unfold tested turnPoint
  dsimp only
  rw [stress_turn c hdim hO]
  simp only [hv]
  rw [turn_dot hO]

theorem residual_turn (c : PointParams K) (hdim : c.dim = 1 ∨ c.dim = 2 ∨ c.dim = 3) {O : ℕ → ℕ → K}
    (hO : Orthogonal c.dim O) (α β : K) (hext : ∀ a b, c.ext a b = α * a + β * b) (old oldOld x t : PointIn K) :
    tested c.dim (residualPoint c (turnPoint c.dim O old) (turnPoint c.dim O oldOld) (turnPoint c.dim O x))
      (turnPoint c.dim O t) = tested c.dim (residualPoint c old oldOld x) t := by
  unfold residualPoint
  have h : trace c.dim (turnPoint c.dim O x).gradU = trace c.dim x.gradU := turn2_trace hO _
  rw [h]
  exact tested_turn c hdim hO true _ _ (residualValue_turn c hO α β hext old oldOld x) _ _ _ _

theorem productValue_turn (c : PointParams K) {O : ℕ → ℕ → K} (hO : Orthogonal c.dim O) (α β : K)
    (hext : ∀ a b, c.ext a b = α * a + β * b) (old oldOld x d : PointIn K) (s s' : Stored K) (i : ℕ) :
    productValue c (residualStore c (turnPoint c.dim O old) (turnPoint c.dim O oldOld) (turnPoint c.dim O x) s')
      (turnPoint c.dim O d) i =
      turn c.dim O (productValue c (residualStore c old oldOld x s) d) i := by
  obtain ⟨heu, heg⟩ := extrapolated_turn c O α β hext old oldOld
  by_cases hst : c.phys = .stokes
  · have : ∀ r y, productValue c r y = fun _ => 0 := by
      intro r y
      funext d
      unfold productValue
      rw [if_pos hst]
    rw [this, this, turn_zero]
  · have hN : c.lin = .coupledImplicitNewton → needExtrapolated c.lin = false := by intro h; rw [h]; rfl
    have hform : ∀ (o oo y z : PointIn K) (r : Stored K), productValue c (residualStore c o oo y r) z = fun d =>
        (c.weight * c.rho - c.damping) * z.u d +
        (c.tau1 * c.rho) * (if c.lin = .coupledImplicitNewton then
            convected c (trace c.dim z.gradU) z.u y.u y.gradU d + convected c (trace c.dim y.gradU) y.u z.u z.gradU d
          else if c.lin = .coupledVelocityExplicit then 0
          else if needExtrapolated c.lin then
            convected c (trace c.dim (extrapolated c o oo).gradU) (extrapolated c o oo).u z.u z.gradU d
          else convected c (trace c.dim y.gradU) y.u z.u z.gradU d) := by
      intro o oo y z r
      funext d
      unfold productValue residualStore convected
      rw [if_neg hst, if_neg hst]
      by_cases h1 : c.lin = .coupledImplicitNewton
      · have h2 := hN h1
        simp only [h2, Bool.false_eq_true, if_false]
        rw [if_pos h1, if_pos h1, if_pos h1]
        rw [sum_add_distrib]
        ring
      · simp only [h1, if_false]
        by_cases h2 : c.lin = .coupledVelocityExplicit
        · simp only [h2, ne_eq, not_true_eq_false, if_false, if_true]
          ring
        · simp only [h2, ne_eq, not_false_eq_true, if_true, if_false]
          split_ifs
          · simp only [Function.update_self]
            ring
          · simp only [Function.update_self]
            ring
    rw [hform, hform, turn_add, turn_smul, turn_smul, heu, heg]
    simp only [turnPoint]
    rw [turn2_trace hO, turn2_trace hO, turn2_trace hO]
    congr 2
    split_ifs
    · rw [turn_add, ← convected_turn c hO, ← convected_turn c hO]
    · rw [turn_zero]
    · exact convected_turn c hO _ _ _ _ _
    · exact convected_turn c hO _ _ _ _ _

theorem product_turn (c : PointParams K) (hdim : c.dim = 1 ∨ c.dim = 2 ∨ c.dim = 3) {O : ℕ → ℕ → K}
    (hO : Orthogonal c.dim O) (α β : K) (hext : ∀ a b, c.ext a b = α * a + β * b) (old oldOld x d t : PointIn K)
    (s s' : Stored K) :
    tested c.dim (vmultPoint c (residualStore c (turnPoint c.dim O old) (turnPoint c.dim O oldOld) (turnPoint c.dim O x) s')
      (turnPoint c.dim O d)) (turnPoint c.dim O t) =
    tested c.dim (vmultPoint c (residualStore c old oldOld x s) d) t := by
  unfold vmultPoint
  have h : trace c.dim (turnPoint c.dim O d).gradU = trace c.dim d.gradU := turn2_trace hO _
  rw [h]
  exact tested_turn c hdim hO true _ _ (productValue_turn c hO α β hext old oldOld x d s s') _ _ _ _

/-! ## C125 -/

section Global
variable {X X' Q : Type*} [AddCommGroup X] [AddCommGroup X'] {D : Discretization K X Q} {D' : Discretization K X' Q}

/-- **C125 (residual).** Turning or mirroring mesh, fields, history, external force and test function does not change any entry of the
residual, for all meshes, states, coefficients (also varying ones), physical types, linearizations and formulations. -/
theorem C125_residual (n : ℕ) (hdim : n = 1 ∨ n = 2 ∨ n = 3) (O : ℕ → ℕ → K) (hO : Orthogonal n O) (R : X → X')
    (hR : Turned n O D D' R) (par : Q → PointParams K) (hn : ∀ q, (par q).dim = n) (α β : K)
    (hext : ∀ q a b, (par q).ext a b = α * a + β * b) (rhs : X → K) (rhs' : X' → K) (hrhs : ∀ t, rhs' (R t) = rhs t)
    (old oldOld x t : X) :
    systemRhs D' par (R old) (R oldOld) rhs' (R x) (R t) = systemRhs D par old oldOld rhs x t := by
  unfold systemRhs
  rw [hrhs, hR.pts]
  congr 1
  refine sum_congr rfl fun q hq => ?_
  rw [hR.jxw q hq, hR.at_ _ q hq, hR.at_ _ q hq, hR.at_ _ q hq, hR.at_ _ q hq]
  congr 1
  have := hn q
  subst this
  exact residual_turn (par q) hdim hO α β (hext q) _ _ _ _

/-- **C125 (matrix).** The same for every entry of the matrix, whatever the buffer of the linearization point held before. -/
theorem C125_matrix (n : ℕ) (hdim : n = 1 ∨ n = 2 ∨ n = 3) (O : ℕ → ℕ → K) (hO : Orthogonal n O) (R : X → X')
    (hR : Turned n O D D' R) (par : Q → PointParams K) (hn : ∀ q, (par q).dim = n) (α β : K)
    (hext : ∀ q a b, (par q).ext a b = α * a + β * b) (s s' : Q → Stored K) (old oldOld x d t : X) :
    coupledProduct D' par (R old) (R oldOld) s' (R x) (R d) (R t) = coupledProduct D par old oldOld s x d t := by
  unfold coupledProduct
  rw [hR.pts]
  refine sum_congr rfl fun q hq => ?_
  rw [hR.jxw q hq, hR.at_ _ q hq, hR.at_ _ q hq, hR.at_ _ q hq, hR.at_ _ q hq, hR.at_ _ q hq]
  congr 1
  have := hn q
  subst this
  exact product_turn (par q) hdim hO α β (hext q) _ _ _ _ _ _ _

/-- **C125 (run).** For every clock and sequence of time steps: fields that solve the discrete equations of all steps (tested with the
admissible functions `T`) solve, turned or mirrored, the equations of all steps of the turned or mirrored problem, and vice versa. -/
theorem C125_run {K : Type*} [Field K] [LinearOrder K] [IsStrictOrderedRing K] {D : Discretization K X Q}
    {D' : Discretization K X' Q} (n : ℕ) (hdim : n = 1 ∨ n = 2 ∨ n = 3) (O : ℕ → ℕ → K)
    (hO : Orthogonal n O) (R : X → X') (hR : Turned n O D D' R) (clock : ℕ → TS K) (par0 : ℕ → Q → PointParams K)
    (hn : ∀ m q, (par0 m q).dim = n) (rhs : ℕ → X → K) (rhs' : ℕ → X' → K) (hrhs : ∀ m t, rhs' m (R t) = rhs m t)
    (T : X → Prop) (y : ℕ → X) :
    (∀ m, ∀ t, T t → systemRhs D (fun q => (par0 m q).withClock (clock m)) (y (m + 1)) (y m) (rhs m) (y (m + 2)) t = 0) ↔
    ∀ m, ∀ t, T t → systemRhs D' (fun q => (par0 m q).withClock (clock m)) (R (y (m + 1))) (R (y m)) (rhs' m)
      (R (y (m + 2))) (R t) = 0 := by
  refine forall_congr' fun m => forall_congr' fun t => imp_congr_right fun _ => ?_
  rw [C125_residual n hdim O hO R hR (fun q => (par0 m q).withClock (clock m)) (hn m) (clock m).fOld (clock m).fOldOld
    (fun q a b => by
      change a * (clock m).fOld + b * (clock m).fOldOld = _
      ring) (rhs m) (rhs' m) (hrhs m)]

/-- **C125 (nonlinear iteration).** One exact step of the nonlinear iteration of the turned problem is the turned step: if `d` solves
the linear system at `x`, `R d` solves the linear system at `R x`, and the next iterate is the turned one. -/
theorem C125_iteration (n : ℕ) (hdim : n = 1 ∨ n = 2 ∨ n = 3) (O : ℕ → ℕ → K) (hO : Orthogonal n O) (R : X → X')
    (hR : Turned n O D D' R) (par : Q → PointParams K) (hn : ∀ q, (par q).dim = n) (α β : K)
    (hext : ∀ q a b, (par q).ext a b = α * a + β * b) (rhs : X → K) (rhs' : X' → K) (hrhs : ∀ t, rhs' (R t) = rhs t)
    (s s' : Q → Stored K) (T : X → Prop) (old oldOld x d : X)
    (hsolve : ∀ t, T t → coupledProduct D par old oldOld s x d t = systemRhs D par old oldOld rhs x t) :
    (∀ t, T t → coupledProduct D' par (R old) (R oldOld) s' (R x) (R d) (R t) =
      systemRhs D' par (R old) (R oldOld) rhs' (R x) (R t)) ∧ R (x + d) = R x + R d := by
  refine ⟨fun t ht => ?_, hR.add x d⟩
  rw [C125_matrix n hdim O hO R hR par hn α β hext s s', C125_residual n hdim O hO R hR par hn α β hext rhs rhs' hrhs]
  exact hsolve t ht

end Global

/-! ## Non-vacuity -/

/-- Rotation by the angle with cosine 3/5. -/
def exO (i j : ℕ) : ℚ := if i = 0 then (if j = 0 then 3 / 5 else -4 / 5) else (if j = 0 then 4 / 5 else 3 / 5)

/-- One point; the coefficients are velocity, gradient and pressure. -/
def exFrame : Discretization ℚ (Fin 7 → ℚ) Unit where
  pts := {()}
  jxw := fun _ => 1
  at_ := fun x _ => ⟨fun i => if i = 0 then x 0 else if i = 1 then x 1 else 0,
    fun i j => if i = 0 then (if j = 0 then x 2 else if j = 1 then x 3 else 0) else
      if i = 1 then (if j = 0 then x 4 else if j = 1 then x 5 else 0) else 0, x 6⟩
  at_add := by
    intro x y q
    unfold PointIn.add
    refine PointIn.mk.injEq .. |>.mpr ⟨?_, ?_, by simp⟩
    · funext i
      simp only [Pi.add_apply]
      split_ifs <;> simp
    · funext i j
      simp only [Pi.add_apply]
      split_ifs <;> simp

/-- The turned problem: turned evaluation of the same coefficients. -/
def exFrame' : Discretization ℚ (Fin 7 → ℚ) Unit where
  pts := {()}
  jxw := fun _ => 1
  at_ := fun x q => turnPoint 2 exO (exFrame.at_ x q)
  at_add := by
    intro x y q
    rw [exFrame.at_add]
    unfold PointIn.add turnPoint
    refine PointIn.mk.injEq .. |>.mpr ⟨?_, ?_, rfl⟩
    · funext i
      exact turn_add 2 exO _ _ i
    · funext i j
      simp only [turn2_eq, turn_add]

/-- Parameters of the example. -/
def exFramePar : PointParams ℚ where
  dim := 2
  phys := .incompressible
  lin := .coupledVelocitySemiImplicit
  beta := 1 / 2
  w := 3
  wOld := -4
  wOldOld := 1
  tau1 := 1
  tauGradDiv := 1
  rho := 2
  mu := 3
  damping := 1
  ext := fun a b => 2 * a - b

/-- The hypotheses of the theorems can be met by a genuine rotation, and the common value of both residuals is not trivial. -/
example : Orthogonal 2 exO ∧ Turned 2 exO exFrame exFrame' id ∧
    (let x : Fin 7 → ℚ := fun i => i
    systemRhs exFrame (fun _ => exFramePar) x (x + x) (fun _ => 0) x x = systemRhs exFrame' (fun _ => exFramePar) x (x + x) (fun _ => 0) x x ∧
    systemRhs exFrame (fun _ => exFramePar) x (x + x) (fun _ => 0) x x ≠ 0) := by
  refine ⟨by unfold Orthogonal; decide +kernel, ⟨rfl, fun _ _ => rfl, fun _ _ _ => rfl, fun _ _ => rfl⟩, ?_⟩
  decide +kernel

end Verif.Operator
