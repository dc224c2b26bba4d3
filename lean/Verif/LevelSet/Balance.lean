import Verif.Operator.Jacobian
import Mathlib.Algebra.BigOperators.Ring.Finset
import Mathlib.Algebra.BigOperators.Group.Finset.Sigma
import Mathlib.Algebra.Field.Rat
import Mathlib.Tactic.LinearCombination
import Mathlib.Tactic.NormNum

/-!
# C71: balance of surface tension, gravity and pressure for a fluid at rest
(source/level_set_okz.cc:316-408 and the residual of source/navier_stokes_matrix.cc)

The cell data are local: shape functions of the level set and the pressure element at the quadrature points of each cell.
The momentum residual is `Verif.Operator.systemRhs`.
-/

set_option linter.unusedSectionVars false

namespace Verif.LevelSet

open Finset Verif.Operator

variable {K : Type*} [Field K] [DecidableEq K]

/-- Parameters used in `local_compute_force` (level_set_okz.cc:338-339, 355-362, 388-403). -/
structure ForceParams (K : Type*) where
  dim : ℕ
  surfaceTension : K
  gravity : K
  density : K
  densityDiff : K
  viscosity : K
  viscosityDiff : K
  /-- `interpolate_grad_onto_pressure` ("grad pressure compatible") -/
  interpolate : Bool

/-- Shape functions on the cells: `nLs` functions of the level set and curvature elements, `nP` of the pressure element,
and `interpolation_concentration_pressure` (level_set_base.cc:66-131; the values of the level set functions at the
support points of the pressure element, not modelled further). -/
structure ForceCells (K : Type*) where
  nLs : ℕ
  nP : ℕ
  interp : ℕ → ℕ → K
  lsVal : ℕ → ℕ → ℕ → K
  lsGrad : ℕ → ℕ → ℕ → ℕ → K
  pVal : ℕ → ℕ → ℕ → K
  pGrad : ℕ → ℕ → ℕ → ℕ → K

variable (F : ForceParams K) (S : ForceCells K)

/-- `use_variable_parameters`, level_set_okz.cc:338-339. -/
def ForceParams.variableParameters : Bool := F.densityDiff ≠ 0 || F.viscosityDiff ≠ 0

/-- `ls_values.get_value(q)` from the values `H` of `read_dof_values_plain(heaviside)` on cell `c` (local index `i`);
argument order `shape i cell q`. -/
def ForceCells.lsValue (H : ℕ → ℕ → K) (c q : ℕ) : K := ∑ i ∈ range S.nLs, H c i * S.lsVal i c q

/-- Density at a quadrature point: lines 349-361 and 394-398. -/
def ForceParams.densityAt (H : ℕ → ℕ → K) (c q : ℕ) : K :=
  if F.variableParameters then F.density + F.densityDiff * S.lsValue H c q else F.density

/-- `projected_value` submitted as pressure degree of freedom `j`: lines 367-375. -/
def ForceCells.projected (H : ℕ → ℕ → K) (c j : ℕ) : K := ∑ i ∈ range S.nLs, S.interp j i * H c i

/-- `pre_values.get_gradient(q)`, lines 376 and 391. -/
def ForceCells.pressureGradient (P : ℕ → ℕ → K) (c q d : ℕ) : K := ∑ j ∈ range S.nP, P c j * S.pGrad j c q d

/-- `ls_values.get_gradient(q)`, lines 378-379 and 392. -/
def ForceCells.lsGradient (H : ℕ → ℕ → K) (c q d : ℕ) : K := ∑ i ∈ range S.nLs, H c i * S.lsGrad i c q d

/-- The force submitted at a quadrature point: lines 385-402; `κ` are the curvature values on the cell (element with the
same shape functions as the level set). -/
def force (H κ : ℕ → ℕ → K) (c q d : ℕ) : K :=
  let f := F.surfaceTension * S.lsValue κ c q *
    (if F.interpolate then S.pressureGradient (S.projected H) c q d else S.lsGradient H c q d)
  if d + 1 = F.dim then f - F.gravity * F.densityAt S H c q else f

variable {X : Type*} [AddCommGroup X] (D : Discretization K X (ℕ × ℕ))

/-- `user_rhs` tested with the velocity of `t`: `submit_value(force)`, lines 404-408. -/
def forceRhs (H κ : ℕ → ℕ → K) (t : X) : K :=
  ∑ q ∈ D.pts, D.jxw q * ∑ d ∈ range F.dim, force F S H κ q.1 q.2 d * (D.at_ t q).u d

/-! ### Specification -/

/-- `x` is a fluid at rest with the pressure of the cell-wise values `P`. -/
structure Spec.AtRest (x : X) (P : ℕ → ℕ → K) : Prop where
  u : ∀ q ∈ D.pts, ∀ d, (D.at_ x q).u d = 0
  gradU : ∀ q ∈ D.pts, ∀ d e, (D.at_ x q).gradU d e = 0
  p : ∀ q ∈ D.pts, (D.at_ x q).p = ∑ j ∈ range S.nP, P q.1 j * S.pVal j q.1 q.2

/-- Integration by parts holds for the pressure `P` and the velocity of `t` without a boundary term:
`∫ ∇p·v + p div v = 0` (exact quadrature, continuous pressure, no flow through the boundary). -/
def Spec.ByParts (dim : ℕ) (P : ℕ → ℕ → K) (t : X) : Prop :=
  ∑ q ∈ D.pts, D.jxw q * (∑ d ∈ range dim, S.pressureGradient P q.1 q.2 d * (D.at_ t q).u d +
    (∑ j ∈ range S.nP, P q.1 j * S.pVal j q.1 q.2) * ∑ d ∈ range dim, (D.at_ t q).gradU d d) = 0

/-! ### Proofs -/

/-- Without motion the residual at a quadrature point is only the pressure. -/
theorem tested_rest (c : PointParams K) (hdim : c.dim = 1 ∨ c.dim = 2 ∨ c.dim = 3) (hext : c.ext 0 0 = 0)
    (o oo x t : PointIn K) (ho : (∀ d, o.u d = 0) ∧ ∀ d e, o.gradU d e = 0) (hoo : (∀ d, oo.u d = 0) ∧ ∀ d e, oo.gradU d e = 0)
    (hx : (∀ d, x.u d = 0) ∧ ∀ d e, x.gradU d e = 0) :
    tested c.dim (residualPoint c o oo x) t = -(x.p * ∑ d ∈ range c.dim, t.gradU d d) := by
  have hv : ∀ d, residualValue c o oo x d = 0 := by
    intro d
    unfold residualValue convImplicit extrapolated
    simp only [hx.1, hx.2, ho.1, hoo.1, ho.2, hoo.2, hext]
    split_ifs <;> simp
  have htr : trace c.dim x.gradU = 0 := by
    unfold trace; exact sum_eq_zero fun d _ => hx.2 d d
  unfold tested residualPoint
  dsimp only
  have h1 : ∑ i ∈ range c.dim, residualValue c o oo x i * t.u i = 0 := sum_eq_zero fun i _ => by rw [hv, zero_mul]
  have h2 : ∑ i ∈ range c.dim, ∑ j ∈ range c.dim, stress c true x.gradU x.p i j * t.gradU i j =
      ∑ i ∈ range c.dim, -(x.p * t.gradU i i) := by
    refine sum_congr rfl fun i hi => ?_
    rw [sum_eq_single i]
    · rw [stress_eq c hdim true _ _ i i (mem_range.1 hi) (mem_range.1 hi), hx.2, htr]
      simp
    · intro j hj hji
      rw [stress_eq c hdim true _ _ i j (mem_range.1 hi) (mem_range.1 hj), hx.2, hx.2, if_neg (fun h => hji h.symm)]
      simp
    · intro h; exact absurd hi h
  rw [h1, h2, htr]
  rw [sum_neg_distrib, ← mul_sum]
  split_ifs <;> ring

/-- **C71 (balance).** For every mesh, level set, curvature and force parameters: if at all quadrature points the force is the
gradient of a pressure in the pressure space, the fluid at rest with this pressure makes the momentum residual vanish - also
with variable coefficients, every time stepping scheme (all old velocities zero), and every linearization. -/
theorem C71_gradient_force (par : ℕ × ℕ → PointParams K) (hdim : F.dim = 1 ∨ F.dim = 2 ∨ F.dim = 3)
    (hpar : ∀ q, (par q).dim = F.dim ∧ (par q).ext 0 0 = 0) (H κ P : ℕ → ℕ → K) (old oldOld x t : X) (P1 P2 : ℕ → ℕ → K)
    (ho : Spec.AtRest S D old P1) (hoo : Spec.AtRest S D oldOld P2) (hx : Spec.AtRest S D x P)
    (hparts : Spec.ByParts S D F.dim P t)
    (hf : ∀ q ∈ D.pts, ∀ d < F.dim, force F S H κ q.1 q.2 d = S.pressureGradient P q.1 q.2 d) :
    systemRhs D par old oldOld (forceRhs F S D H κ) x t = 0 := by
  unfold systemRhs forceRhs
  rw [← hparts, ← sum_sub_distrib]
  refine sum_congr rfl fun q hq => ?_
  rw [tested_rest (par q) (by rw [(hpar q).1]; exact hdim) (hpar q).2 _ _ _ _ ⟨ho.u q hq, ho.gradU q hq⟩
    ⟨hoo.u q hq, hoo.gradU q hq⟩ ⟨hx.u q hq, hx.gradU q hq⟩, (hpar q).1, hx.p q hq]
  have : ∑ d ∈ range F.dim, force F S H κ q.1 q.2 d * (D.at_ t q).u d =
      ∑ d ∈ range F.dim, S.pressureGradient P q.1 q.2 d * (D.at_ t q).u d :=
    sum_congr rfl fun d hd => by rw [hf q hq d (mem_range.1 hd)]
  rw [this]; ring

theorem pressureGradient_combine (a : K) (P Q : ℕ → ℕ → K) (c q d : ℕ) :
    S.pressureGradient (fun c j => a * P c j + Q c j) c q d = a * S.pressureGradient P c q d + S.pressureGradient Q c q d := by
  unfold ForceCells.pressureGradient
  rw [mul_sum, ← sum_add_distrib]
  exact sum_congr rfl fun j _ => by ring

/-- The density used for the weight is `ρ + Δρ H` in all cases (without variable coefficients `Δρ = 0`). -/
theorem densityAt_eq (H : ℕ → ℕ → K) (c q : ℕ) : F.densityAt S H c q = F.density + F.densityDiff * S.lsValue H c q := by
  unfold ForceParams.densityAt
  by_cases h : F.variableParameters = true
  · rw [if_pos h]
  · rw [if_neg h]
    have : F.densityDiff = 0 := by
      by_contra h0
      exact h (by simp [ForceParams.variableParameters, h0])
    rw [this]; ring

/-- **C71 (static droplet).** With the gradient interpolated onto the pressure, constant curvature `κ0` and a part `G` of the
pressure that balances gravity (`∇G = -g ρ e`; zero without gravity), the pressure `σ κ0 I(H) + G`, where `I(H)` is the
interpolation of the Heaviside function, balances all forces exactly: the fluid stays at rest. -/
theorem C71_static_droplet (par : ℕ × ℕ → PointParams K) (hdim : F.dim = 1 ∨ F.dim = 2 ∨ F.dim = 3)
    (hpar : ∀ q, (par q).dim = F.dim ∧ (par q).ext 0 0 = 0) (hint : F.interpolate = true)
    (H κ G : ℕ → ℕ → K) (κ0 : K) (hκ : ∀ q ∈ D.pts, ∀ i < S.nLs, κ q.1 i = κ0)
    (hone : ∀ q ∈ D.pts, ∑ i ∈ range S.nLs, S.lsVal i q.1 q.2 = 1)
    (hG : ∀ q ∈ D.pts, ∀ d < F.dim, S.pressureGradient G q.1 q.2 d =
      if d + 1 = F.dim then -(F.gravity * (F.density + F.densityDiff * S.lsValue H q.1 q.2)) else 0)
    (old oldOld x t : X) (P1 P2 : ℕ → ℕ → K) (ho : Spec.AtRest S D old P1) (hoo : Spec.AtRest S D oldOld P2)
    (hx : Spec.AtRest S D x fun c j => F.surfaceTension * κ0 * (∑ i ∈ range S.nLs, S.interp j i * H c i) + G c j)
    (hparts : Spec.ByParts S D F.dim (fun c j => F.surfaceTension * κ0 * (∑ i ∈ range S.nLs, S.interp j i * H c i) + G c j) t) :
    systemRhs D par old oldOld (forceRhs F S D H κ) x t = 0 := by
  refine C71_gradient_force F S D par hdim hpar H κ _ old oldOld x t P1 P2 ho hoo hx hparts fun q hq d hd => ?_
  rw [pressureGradient_combine S (F.surfaceTension * κ0) (fun c j => ∑ i ∈ range S.nLs, S.interp j i * H c i) G, hG q hq d hd]
  unfold force
  dsimp only
  have hc : S.lsValue κ q.1 q.2 = κ0 := by
    unfold ForceCells.lsValue
    rw [← mul_one κ0, ← hone q hq, mul_sum]
    exact sum_congr rfl fun i hi => by rw [hκ q hq i (mem_range.1 hi)]
  rw [hc, if_pos hint]
  have : S.pressureGradient (S.projected H) q.1 q.2 d =
    S.pressureGradient (fun c j => ∑ i ∈ range S.nLs, S.interp j i * H c i) q.1 q.2 d := rfl
  rw [this, densityAt_eq]
  split_ifs <;> ring

/-- **C71 (Laplace jump).** The pressure of the static droplet is `σ κ0` on every cell inside (`H = 1`) and zero outside
(`H = 0`), if the interpolation reproduces constants. -/
theorem C71_pressure_jump (H : ℕ → ℕ → K) (κ0 : K) (c j : ℕ) (hrow : ∑ i ∈ range S.nLs, S.interp j i = 1) :
    ((∀ i < S.nLs, H c i = 1) → F.surfaceTension * κ0 * (∑ i ∈ range S.nLs, S.interp j i * H c i) = F.surfaceTension * κ0) ∧
    ((∀ i < S.nLs, H c i = 0) → F.surfaceTension * κ0 * (∑ i ∈ range S.nLs, S.interp j i * H c i) = 0) := by
  constructor <;> intro h
  · rw [sum_congr rfl fun i hi => by rw [h i (mem_range.1 hi), mul_one], hrow, mul_one]
  · rw [sum_eq_zero fun i hi => by rw [h i (mem_range.1 hi), mul_zero], mul_zero]

/-- **C71 (hydrostatic pressure).** For fluids of equal density and viscosity and any flat or absent interface (`σ κ = 0` at
the quadrature points), the pressure `-ρ g y` balances gravity, if the pressure space contains the height `y`. -/
theorem C71_hydrostatic (par : ℕ × ℕ → PointParams K) (hdim : F.dim = 1 ∨ F.dim = 2 ∨ F.dim = 3)
    (hpar : ∀ q, (par q).dim = F.dim ∧ (par q).ext 0 0 = 0) (hrho : F.densityDiff = 0) (H κ Y : ℕ → ℕ → K)
    (hκ : ∀ q ∈ D.pts, F.surfaceTension * S.lsValue κ q.1 q.2 = 0)
    (hY : ∀ q ∈ D.pts, ∀ d < F.dim, S.pressureGradient Y q.1 q.2 d = if d + 1 = F.dim then 1 else 0)
    (old oldOld x t : X) (P1 P2 : ℕ → ℕ → K) (ho : Spec.AtRest S D old P1) (hoo : Spec.AtRest S D oldOld P2)
    (hx : Spec.AtRest S D x fun c j => -(F.density * F.gravity) * Y c j)
    (hparts : Spec.ByParts S D F.dim (fun c j => -(F.density * F.gravity) * Y c j) t) :
    systemRhs D par old oldOld (forceRhs F S D H κ) x t = 0 := by
  refine C71_gradient_force F S D par hdim hpar H κ _ old oldOld x t P1 P2 ho hoo hx hparts fun q hq d hd => ?_
  have e : S.pressureGradient (fun c j => -(F.density * F.gravity) * Y c j) q.1 q.2 d =
      -(F.density * F.gravity) * S.pressureGradient Y q.1 q.2 d := by
    unfold ForceCells.pressureGradient
    rw [mul_sum]; exact sum_congr rfl fun j _ => by ring
  rw [e, hY q hq d hd]
  unfold force
  dsimp only
  rw [hκ q hq, zero_mul]
  have hr : F.densityAt S H q.1 q.2 = F.density := by
    unfold ForceParams.densityAt
    rw [hrho]; split_ifs <;> ring
  rw [hr]
  split_ifs <;> ring

/-! ### Concrete case and the limit without interpolation

Two cells of length one on `(0,2)`, pressure linear on each cell and continuous, Heaviside function piecewise linear on half
cells, exact quadrature (Simpson's rule on half cells). The only test function is the quadratic function that vanishes at the
ends, is one in the middle and has mean zero on both cells. -/

def exX (q : ℕ) : ℚ := if q = 0 then 0 else if q = 1 then 1 / 4 else if q = 2 then 1 / 2 else if q = 3 then 1 / 2 else
  if q = 4 then 3 / 4 else 1

def exW (q : ℕ) : ℚ := if q = 1 ∨ q = 4 then 1 / 3 else 1 / 12

/-- Distance from the outer end of the cell. -/
def exS (c q : ℕ) : ℚ := if c = 0 then exX q else 1 - exX q

def exCells : ForceCells ℚ where
  nLs := 3
  nP := 2
  interp := fun j i => if (j = 0 ∧ i = 0) ∨ (j = 1 ∧ i = 2) then 1 else 0
  lsVal := fun i _ q =>
    if i = 0 then (if q < 3 then 1 - 2 * exX q else 0) else
    if i = 1 then (if q < 3 then 2 * exX q else 2 - 2 * exX q) else (if q < 3 then 0 else 2 * exX q - 1)
  lsGrad := fun i _ q _ =>
    if i = 0 then (if q < 3 then -2 else 0) else if i = 1 then (if q < 3 then 2 else -2) else (if q < 3 then 0 else 2)
  pVal := fun j _ q => if j = 0 then 1 - exX q else exX q
  pGrad := fun j _ _ _ => if j = 0 then -1 else 1

/-- Coefficient 0: the velocity; coefficients 1, 2, 3: the nodal pressures. -/
def exDisc : Discretization ℚ (ℕ → ℚ) (ℕ × ℕ) where
  pts := range 2 ×ˢ range 6
  jxw := fun q => exW q.2
  at_ := fun x q => ⟨fun _ => x 0 * (3 * exS q.1 q.2 ^ 2 - 2 * exS q.1 q.2),
    fun _ _ => x 0 * ((if q.1 = 0 then 1 else -1) * (6 * exS q.1 q.2 - 2)),
    x (1 + q.1) * (1 - exX q.2) + x (2 + q.1) * exX q.2⟩
  at_add := by
    intro x y q
    simp only [PointIn.add, Pi.add_apply, PointIn.mk.injEq]
    refine ⟨?_, ?_, by ring⟩
    · funext d; ring
    · funext d e; ring

def exForce (interpolate : Bool) : ForceParams ℚ := ⟨1, 3, 0, 1, 0, 1, 0, interpolate⟩

def exHeaviside (c i : ℕ) : ℚ := if c = 0 ∧ i < 2 then 0 else 1

theorem exDisc_sum (f : ℕ × ℕ → ℚ) : ∑ q ∈ exDisc.pts, f q = f (0, 0) + f (0, 1) + f (0, 2) + f (0, 3) + f (0, 4) + f (0, 5) +
    (f (1, 0) + f (1, 1) + f (1, 2) + f (1, 3) + f (1, 4) + f (1, 5)) := by
  show ∑ q ∈ range 2 ×ˢ range 6, f q = _
  rw [sum_product]
  simp [sum_range_succ]

/-- Hypotheses of `C71_static_droplet` for curvature 2: integration by parts holds for every continuous pressure, ... -/
example (x t : ℕ → ℚ) : Spec.ByParts exCells exDisc 1 (fun c j => x (1 + c + j)) t := by
  unfold Spec.ByParts ForceCells.pressureGradient
  rw [exDisc_sum]
  simp only [exCells, exDisc, exS, exX, exW, sum_range_succ, range_zero, sum_empty]
  norm_num
  ring

/-- ... in particular for the pressure `σ κ0 I(H)`, zero on the left end and 6 elsewhere. -/
example (t : ℕ → ℚ) : Spec.ByParts exCells exDisc 1
    (fun c j => 3 * 2 * (∑ i ∈ range exCells.nLs, exCells.interp j i * exHeaviside c i) + 0) t := by
  unfold Spec.ByParts ForceCells.pressureGradient
  rw [exDisc_sum]
  simp only [exCells, exDisc, exS, exX, exW, exHeaviside, sum_range_succ, range_zero, sum_empty]
  norm_num
  ring

example : (∀ q ∈ exDisc.pts, ∑ i ∈ range exCells.nLs, exCells.lsVal i q.1 q.2 = 1) ∧
    ∑ i ∈ range exCells.nLs, exCells.interp 0 i = 1 ∧
    Spec.AtRest exCells exDisc (fun i => if i = 2 ∨ i = 3 then 6 else 0) fun c j =>
      3 * 2 * (∑ i ∈ range exCells.nLs, exCells.interp j i * exHeaviside c i) + 0 := by
  refine ⟨?_, by decide +kernel, ⟨?_, ?_, ?_⟩⟩
  · show ∀ q ∈ range 2 ×ˢ range 6, _
    decide +kernel
  · intro q _ d; simp [exDisc]
  · intro q _ d e; simp [exDisc]
  · show ∀ q ∈ range 2 ×ˢ range 6, _
    decide +kernel

/-- **C71 (limit).** Without the interpolation of the gradient onto the pressure the balance is lost: here the curvature is
constant and integration by parts is exact, but for every pressure the residual is not zero - the fluid is set in motion
(spurious currents). -/
theorem C71_uninterpolated_unbalanced :
    ∃ (F : ForceParams ℚ) (S : ForceCells ℚ) (D : Discretization ℚ (ℕ → ℚ) (ℕ × ℕ)) (H κ : ℕ → ℕ → ℚ) (t : ℕ → ℚ),
      F.interpolate = false ∧ (∀ c i, κ c i = 2) ∧ (∀ x : ℕ → ℚ, Spec.ByParts S D 1 (fun c j => x (1 + c + j)) t) ∧
      ∀ (par : ℕ × ℕ → PointParams ℚ), (∀ q, (par q).dim = F.dim ∧ (par q).ext 0 0 = 0) → ∀ x : ℕ → ℚ,
        Spec.AtRest S D x (fun c j => x (1 + c + j)) → systemRhs D par 0 0 (forceRhs F S D H κ) x t ≠ 0 := by
  refine ⟨exForce false, exCells, exDisc, exHeaviside, fun _ _ => 2, fun i => if i = 0 then 1 else 0, rfl, fun _ _ => rfl, ?_, ?_⟩
  · intro x
    unfold Spec.ByParts ForceCells.pressureGradient
    rw [exDisc_sum]
    simp only [exCells, exDisc, exS, exX, exW, sum_range_succ, range_zero, sum_empty]
    norm_num
    ring
  · intro par hpar x hx
    have hz : (∀ q d, (exDisc.at_ 0 q).u d = 0) ∧ ∀ q d e, (exDisc.at_ 0 q).gradU d e = 0 := by
      constructor <;> intros <;> simp [exDisc]
    have : systemRhs exDisc par 0 0 (forceRhs (exForce false) exCells exDisc exHeaviside fun _ _ => 2) x
        (fun i => if i = 0 then 1 else 0) = 3 / 2 := by
      unfold systemRhs
      have hs : ∀ q ∈ exDisc.pts, exDisc.jxw q * tested (par q).dim (residualPoint (par q) (exDisc.at_ 0 q) (exDisc.at_ 0 q)
          (exDisc.at_ x q)) (exDisc.at_ (fun i => if i = 0 then 1 else 0) q) =
          exDisc.jxw q * -((exDisc.at_ x q).p * ∑ d ∈ range 1, (exDisc.at_ (fun i => if i = 0 then 1 else 0) q).gradU d d) := by
        intro q hq
        rw [tested_rest (par q) (by rw [(hpar q).1]; exact .inl rfl) (hpar q).2 _ _ _ _ ⟨hz.1 q, hz.2 q⟩ ⟨hz.1 q, hz.2 q⟩
          ⟨hx.u q hq, hx.gradU q hq⟩, (hpar q).1]
        rfl
      rw [sum_congr rfl hs]
      unfold forceRhs force
      rw [exDisc_sum, exDisc_sum]
      simp only [exForce, exHeaviside, ForceCells.lsValue, ForceCells.lsGradient, exCells, exDisc, exS, exX, exW, sum_range_succ,
        range_zero, sum_empty]
      norm_num
      ring
    rw [this]; norm_num

end Verif.LevelSet
