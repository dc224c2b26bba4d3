import Verif.PhaseField.Jacobian
import Mathlib.Analysis.SpecialFunctions.Trigonometric.DerivHyp
import Mathlib.Analysis.SpecialFunctions.Artanh
import Mathlib.Analysis.Calculus.Deriv.Inv
import Mathlib.Tactic.NormNum
import Mathlib.Tactic.Linarith
import Mathlib.Tactic.Positivity
import Mathlib.Tactic.FieldSimp

/-!
# C46: the initial profiles are equilibria of a plane interface
(source/phase_field.cc:104-111, source/level_set_okz.cc:201-210, source/phase_field_local.cc:140-215,
 source/level_set_okz_reinitialization.cc:115-185, source/level_set_okz_matrix.cc:930-1060, source/two_phase_base.cc:280-291)

Vectors are functions `ℕ → ℝ` of which the first `dim` entries are used (as in `Verif.PhaseField`).
-/

namespace Verif.LevelSet
open Real Finset Verif.PhaseField

/-! ## Model -/

/-- `PhaseFieldSolver::transform_distance_function`, phase_field.cc:104-111 -/
noncomputable def phaseProfile (eps d : ℝ) : ℝ := -tanh (d / eps)

/-- `LevelSetOKZSolver::transform_distance_function`, level_set_okz.cc:201-210, and the matrix-based one,
level_set_okz_matrix.cc:59-67 -/
noncomputable def levelSetProfile (eps d : ℝ) : ℝ := -tanh (d / (2 * eps))

/-- diffusion coefficient of the reinitialization, level_set_okz_reinitialization.cc:143-146 -/
noncomputable def reinitDiffusion (eps cellDiameter degree : ℝ) : ℝ := max eps (cellDiameter / degree)

/-- diffusion coefficient of the matrix-based reinitialization, level_set_okz_matrix.cc:977-978 -/
noncomputable def reinitDiffusionMatrix (eps cellDiameter : ℝ) : ℝ := max eps cellDiameter

/-- normalisation of the normal at a quadrature point, level_set_okz_reinitialization.cc:154-159 -/
noncomputable def unitNormal (dim : ℕ) (v : ℕ → ℝ) : ℕ → ℝ := fun i => v i / max (1 / 10000) (√(sprod dim v v))

/-- the flux tested with the gradient of the test functions on the right hand side of a stabilised step,
level_set_okz_reinitialization.cc:160-167 (and level_set_okz_matrix.cc:1036-1040) -/
noncomputable def reinitFlux (dim : ℕ) (diffusion : ℝ) (normal grad : ℕ → ℝ) (phi : ℝ) : ℕ → ℝ := fun i =>
  normal i * ((1 / 2) * (1 - phi * phi) - sprod dim normal grad * diffusion)

/-! ## Specification -/

/-- signed distance from the plane with unit normal `n` and offset `a` -/
noncomputable def Spec.planeDistance (dim : ℕ) (n : ℕ → ℝ) (a : ℝ) (x : ℕ → ℝ) : ℝ := sprod dim n x - a

/-- `g` is the gradient of `f` -/
def Spec.IsGradient (dim : ℕ) (f : (ℕ → ℝ) → ℝ) (g : (ℕ → ℝ) → ℕ → ℝ) : Prop :=
  ∀ x, ∀ i < dim, HasDerivAt (fun t => f (Function.update x i t)) (g x i) (x i)

/-- `D` is the divergence of the vector field `F` at `x` -/
def Spec.IsDivergence (dim : ℕ) (F : (ℕ → ℝ) → ℕ → ℝ) (x : ℕ → ℝ) (D : ℝ) : Prop :=
  ∃ d : ℕ → ℝ, (∀ i < dim, HasDerivAt (fun t => F (Function.update x i t) i) (d i) (x i)) ∧ D = ∑ i ∈ range dim, d i

/-! ## Calculus -/

theorem hasDerivAt_tanh (x : ℝ) : HasDerivAt tanh (1 - tanh x ^ 2) x := by
  have hc : cosh x ≠ 0 := (cosh_pos x).ne'
  have h := (hasDerivAt_sinh x).div (hasDerivAt_cosh x) hc
  have e : (fun y => sinh y / cosh y) = tanh := by funext y; rw [tanh_eq_sinh_div_cosh]
  have h' : HasDerivAt tanh ((cosh x * cosh x - sinh x * sinh x) / cosh x ^ 2) x := by rw [← e]; exact h
  refine HasDerivAt.congr_deriv h' ?_
  rw [tanh_eq_sinh_div_cosh]; field_simp

theorem planeDistance_update (dim : ℕ) (n : ℕ → ℝ) (a : ℝ) (x : ℕ → ℝ) (i : ℕ) (hi : i < dim) (t : ℝ) :
    Spec.planeDistance dim n a (Function.update x i t) = Spec.planeDistance dim n a x + n i * (t - x i) := by
  unfold Spec.planeDistance sprod
  rw [← Finset.add_sum_erase _ _ (mem_range.2 hi),
    ← Finset.add_sum_erase (range dim) (fun j => n j * x j) (mem_range.2 hi)]
  have : ∑ j ∈ (range dim).erase i, n j * Function.update x i t j = ∑ j ∈ (range dim).erase i, n j * x j :=
    Finset.sum_congr rfl fun j hj => by rw [Function.update_of_ne (Finset.ne_of_mem_erase hj)]
  rw [this, Function.update_self]; ring

/-- derivative along a coordinate of a function of the plane distance -/
theorem hasDerivAt_plane (dim : ℕ) (n : ℕ → ℝ) (a : ℝ) (f : ℝ → ℝ) (f' : ℝ) (x : ℕ → ℝ) (i : ℕ) (hi : i < dim)
    (h : HasDerivAt f f' (Spec.planeDistance dim n a x)) :
    HasDerivAt (fun t => f (Spec.planeDistance dim n a (Function.update x i t))) (f' * n i) (x i) := by
  have h1 : HasDerivAt (fun t => Spec.planeDistance dim n a x + n i * (t - x i)) (n i) (x i) := by
    have := (((hasDerivAt_id (x i)).sub_const (x i)).const_mul (n i)).const_add (Spec.planeDistance dim n a x)
    simpa using this
  have h2 : (fun t => f (Spec.planeDistance dim n a (Function.update x i t))) =
      f ∘ fun t => Spec.planeDistance dim n a x + n i * (t - x i) := by
    funext t; simp only [Function.comp, planeDistance_update dim n a x i hi]
  rw [h2]
  refine HasDerivAt.comp (x i) ?_ h1
  simpa using h

theorem hasDerivAt_profile (L : ℝ) (hL : L ≠ 0) (d : ℝ) :
    HasDerivAt (fun d => -tanh (d / L)) (-(1 - tanh (d / L) ^ 2) / L) d := by
  have h := ((hasDerivAt_tanh (d / L)).comp d ((hasDerivAt_id d).div_const L)).neg
  refine HasDerivAt.congr_deriv h ?_
  field_simp

theorem hasDerivAt_profile' (L : ℝ) (hL : L ≠ 0) (d : ℝ) :
    HasDerivAt (fun d => -(1 - tanh (d / L) ^ 2) / L) (2 * tanh (d / L) * (1 - tanh (d / L) ^ 2) / L ^ 2) d := by
  have h0 := (hasDerivAt_tanh (d / L)).comp d ((hasDerivAt_id d).div_const L)
  have h := (((h0.pow 2).const_sub 1).neg).div_const L
  refine HasDerivAt.congr_deriv h ?_
  simp only [Function.comp_def, id_eq]
  field_simp
  norm_num; ring

/-- gradient of a plane `tanh` profile -/
noncomputable def profileGrad (dim : ℕ) (L : ℝ) (n : ℕ → ℝ) (a : ℝ) (x : ℕ → ℝ) (i : ℕ) : ℝ :=
  -(1 - tanh (Spec.planeDistance dim n a x / L) ^ 2) / L * n i

theorem profileGrad_isGradient (dim : ℕ) (L : ℝ) (hL : L ≠ 0) (n : ℕ → ℝ) (a : ℝ) :
    Spec.IsGradient dim (fun x => -tanh (Spec.planeDistance dim n a x / L)) (profileGrad dim L n a) := by
  intro x i hi
  exact hasDerivAt_plane dim n a (fun d => -tanh (d / L)) _ x i hi (hasDerivAt_profile L hL _)

/-! ## C46 -/

theorem gradient_unique {dim : ℕ} {f : (ℕ → ℝ) → ℝ} {g g' : (ℕ → ℝ) → ℕ → ℝ} (h : Spec.IsGradient dim f g)
    (h' : Spec.IsGradient dim f g') (x : ℕ → ℝ) (i : ℕ) (hi : i < dim) : g x i = g' x i :=
  (h x i hi).unique (h' x i hi)

/-- **C46 (phase field).** For a plane interface in a fluid at rest the initial concentration together with chemical
potential zero solves the Cahn-Hilliard equations assembled by the code, pointwise in strong form: the value submitted for
the second equation equals the divergence of the submitted gradient and both terms of the first equation vanish (with the
concentration of the old time levels equal to the current one and time weights that sum to zero, C05). -/
theorem C46_phase_field (p : CHCoef ℝ) (heps : p.epsilon ≠ 0) (hw : p.weight ≠ 0)
    (hsum : p.weight + p.weightOld + (if p.twoStep then p.weightOldOld else 0) = 0)
    (n : ℕ → ℝ) (hn : sprod p.dim n n = 1) (a : ℝ) (gradC : (ℕ → ℝ) → ℕ → ℝ)
    (hg : Spec.IsGradient p.dim (fun x => phaseProfile p.epsilon (Spec.planeDistance p.dim n a x)) gradC) (x : ℕ → ℝ) :
    let c := fun y => phaseProfile p.epsilon (Spec.planeDistance p.dim n a y)
    let R := fun y => chResidual p (c y) (c y) (fun _ => 0) ⟨c y, gradC y, 0, fun _ => 0⟩
    Spec.IsDivergence p.dim (fun y => (R y).wGrad) x (R x).wVal ∧ (R x).cVal = 0 ∧ ∀ i, (R x).cGrad i = 0 := by
  intro c R
  have hgrad : ∀ y, ∀ i < p.dim, gradC y i = profileGrad p.dim p.epsilon n a y i := fun y i hi =>
    gradient_unique hg (profileGrad_isGradient p.dim p.epsilon heps n a) y i hi
  refine ⟨?_, ?_, ?_⟩
  · set T := tanh (Spec.planeDistance p.dim n a x / p.epsilon) with hT
    refine ⟨fun i => -p.factor4 * (2 * T * (1 - T ^ 2) / p.epsilon ^ 2 * n i * n i), ?_, ?_⟩
    · intro i hi
      have h1 := hasDerivAt_plane p.dim n a (fun d => -(1 - tanh (d / p.epsilon) ^ 2) / p.epsilon) _ x i hi
        (hasDerivAt_profile' p.epsilon heps _)
      have h2 := (h1.mul_const (n i)).const_mul (-p.factor4)
      have e : (fun t => (R (Function.update x i t)).wGrad i) = fun t => -p.factor4 *
          (-(1 - tanh (Spec.planeDistance p.dim n a (Function.update x i t) / p.epsilon) ^ 2) / p.epsilon * n i) := by
        funext t
        simp only [R, chResidual, hgrad _ i hi, profileGrad]
      rw [e]
      refine HasDerivAt.congr_deriv h2 ?_
      rw [hT]
    · have hs : ∑ i ∈ range p.dim, -p.factor4 * (2 * T * (1 - T ^ 2) / p.epsilon ^ 2 * n i * n i) =
          -p.factor4 * (2 * T * (1 - T ^ 2) / p.epsilon ^ 2) * sprod p.dim n n := by
        unfold sprod; rw [Finset.mul_sum]; exact Finset.sum_congr rfl fun i _ => by ring
      rw [hs, hn]
      simp only [R, c, chResidual, phaseProfile, ← hT, CHCoef.factor2, CHCoef.factor4]
      field_simp
      ring
  · simp only [R, c, chResidual, CHCoef.inv, sprod, mul_zero, Finset.sum_const_zero]
    cases ht : p.twoStep
    · simp only [ht] at hsum
      have : p.weightOld = -p.weight := by simp at hsum; linarith
      simp [this]; field_simp; ring
    · simp only [ht, if_true] at hsum ⊢
      have : p.weightOldOld = -p.weight - p.weightOld := by linarith
      simp [this]; field_simp; ring
  · intro i; simp [R, chResidual]

/-- value of the reinitialization flux for a plane profile, with any diffusion coefficient -/
theorem reinitFlux_plane (dim : ℕ) (eps diff : ℝ) (heps : 0 < eps) (n : ℕ → ℝ) (hn : sprod dim n n = 1) (a : ℝ)
    (x v grad : ℕ → ℝ) (hgrad : ∀ i < dim, grad i = profileGrad dim (2 * eps) n a x i)
    (s : ℝ) (hs : 0 < s) (hv : ∀ i < dim, v i = s * grad i) (hlen : 1 / 10000 ≤ √(sprod dim v v)) (i : ℕ) (hi : i < dim) :
    reinitFlux dim diff (unitNormal dim v) grad (levelSetProfile eps (Spec.planeDistance dim n a x)) i =
      -n i * ((1 / 2) * (1 - levelSetProfile eps (Spec.planeDistance dim n a x) ^ 2) * (1 - diff / eps)) := by
  set T := tanh (Spec.planeDistance dim n a x / (2 * eps)) with hT
  set g := (1 - T ^ 2) / (2 * eps) with hg
  have hT1 : 0 < 1 - T ^ 2 := by have := tanh_sq_lt_one (Spec.planeDistance dim n a x / (2 * eps)); rw [← hT] at this; linarith
  have hgpos : 0 < g := by rw [hg]; positivity
  have hgr : ∀ i < dim, grad i = -g * n i := fun i hi => by
    rw [hgrad i hi, profileGrad, ← hT, hg]; ring
  have hvv : sprod dim v v = (s * g) ^ 2 := by
    have : sprod dim v v = (s * g) ^ 2 * sprod dim n n := by
      unfold sprod; rw [Finset.mul_sum]
      exact Finset.sum_congr rfl fun i hi => by
        have hi := mem_range.1 hi; rw [hv i hi, hgr i hi]; ring
    rw [this, hn, mul_one]
  have hnorm : √(sprod dim v v) = s * g := by rw [hvv]; exact Real.sqrt_sq (by positivity)
  have hnu : ∀ i < dim, unitNormal dim v i = -n i := fun i hi => by
    unfold unitNormal
    rw [max_eq_right hlen, hnorm, hv i hi, hgr i hi]
    field_simp
  have hdot : sprod dim (unitNormal dim v) grad = g := by
    have : sprod dim (unitNormal dim v) grad = g * sprod dim n n := by
      unfold sprod; rw [Finset.mul_sum]
      exact Finset.sum_congr rfl fun i hi => by
        have hi := mem_range.1 hi; rw [hnu i hi, hgr i hi]; ring
    rw [this, hn, mul_one]
  unfold reinitFlux
  rw [hnu i hi, hdot]
  have hp : levelSetProfile eps (Spec.planeDistance dim n a x) = -T := rfl
  rw [hp, hg]
  field_simp

/-- **C46 (level set).** On a mesh that resolves the interface width (`cell diameter / degree ≤ ε`), with a normal field in
direction of the gradient that is not shorter than the cutoff `1e-4`, the right hand side of every stabilised
reinitialization step vanishes for the initial profile of a plane interface: it is a fixed point. -/
theorem C46_level_set_partial (dim : ℕ) (eps h degree : ℝ) (heps : 0 < eps) (hres : h / degree ≤ eps) (n : ℕ → ℝ)
    (hn : sprod dim n n = 1) (a : ℝ) (grad : (ℕ → ℝ) → ℕ → ℝ)
    (hg : Spec.IsGradient dim (fun x => levelSetProfile eps (Spec.planeDistance dim n a x)) grad) (x v : ℕ → ℝ)
    (s : ℝ) (hs : 0 < s) (hv : ∀ i < dim, v i = s * grad x i) (hlen : 1 / 10000 ≤ √(sprod dim v v)) :
    ∀ i < dim, reinitFlux dim (reinitDiffusion eps h degree) (unitNormal dim v) (grad x)
      (levelSetProfile eps (Spec.planeDistance dim n a x)) i = 0 := by
  intro i hi
  rw [reinitFlux_plane dim eps _ heps n hn a x v (grad x) (fun i hi =>
    gradient_unique hg (profileGrad_isGradient dim (2 * eps) (by positivity) n a) x i hi) s hs hv hlen i hi]
  rw [reinitDiffusion, max_eq_left hres, div_self heps.ne']
  ring

/-- **C46 needs the resolution, and fails for the matrix-based solver.** On cells with `cell diameter / degree > ε` the
profile is not a fixed point. The matrix-based solver does not divide by the degree: with `ε = p_ε / subdivisions * h`
(two_phase_base.cc:290) its profile is no fixed point whenever `p_ε < subdivisions`, even on a uniform mesh. -/
theorem C46_not_fixed_point (dim : ℕ) (eps h degree : ℝ) (heps : 0 < eps) (n : ℕ → ℝ) (hn : sprod dim n n = 1) (a : ℝ)
    (grad : (ℕ → ℝ) → ℕ → ℝ)
    (hg : Spec.IsGradient dim (fun x => levelSetProfile eps (Spec.planeDistance dim n a x)) grad) (x v : ℕ → ℝ)
    (s : ℝ) (hs : 0 < s) (hv : ∀ i < dim, v i = s * grad x i) (hlen : 1 / 10000 ≤ √(sprod dim v v)) (i : ℕ) (hi : i < dim)
    (hni : n i ≠ 0) :
    (eps < h / degree → reinitFlux dim (reinitDiffusion eps h degree) (unitNormal dim v) (grad x)
      (levelSetProfile eps (Spec.planeDistance dim n a x)) i ≠ 0) ∧
    (∀ pEps sub : ℝ, 0 < sub → 0 < h → eps = pEps / sub * h → pEps < sub →
      reinitFlux dim (reinitDiffusionMatrix eps h) (unitNormal dim v) (grad x)
        (levelSetProfile eps (Spec.planeDistance dim n a x)) i ≠ 0) := by
  have hgr := fun j hj => gradient_unique hg (profileGrad_isGradient dim (2 * eps) (by positivity) n a) x j hj
  have hT1 : 0 < 1 - levelSetProfile eps (Spec.planeDistance dim n a x) ^ 2 := by
    have := tanh_sq_lt_one (Spec.planeDistance dim n a x / (2 * eps))
    unfold levelSetProfile; rw [neg_sq]; linarith
  have key : ∀ diff, eps < diff → reinitFlux dim diff (unitNormal dim v) (grad x)
      (levelSetProfile eps (Spec.planeDistance dim n a x)) i ≠ 0 := by
    intro diff hd
    rw [reinitFlux_plane dim eps diff heps n hn a x v (grad x) hgr s hs hv hlen i hi]
    have h1 : 1 - diff / eps < 0 := by
      have : 1 < diff / eps := by rw [lt_div_iff₀ heps]; linarith
      linarith
    refine mul_ne_zero (neg_ne_zero.2 hni) (mul_ne_zero (by positivity) h1.ne)
  refine ⟨fun hlt => key _ (lt_max_of_lt_right hlt), fun pEps sub hsub hh he hlt => key _ (lt_max_of_lt_right ?_)⟩
  rw [he, div_mul_eq_mul_div, div_lt_iff₀ hsub]
  nlinarith

/-! ## Non-vacuity -/

/-- a diagonal unit normal in two dimensions -/
noncomputable def exN : ℕ → ℝ := fun i => if i = 0 then 3 / 5 else 4 / 5

example : sprod 2 exN exN = 1 := by simp [sprod, exN, Finset.sum_range_succ]; norm_num

example : ∃ p : CHCoef ℝ, p.epsilon ≠ 0 ∧ p.weight ≠ 0 ∧
    p.weight + p.weightOld + (if p.twoStep then p.weightOldOld else 0) = 0 ∧ p.dim = 2 :=
  ⟨⟨2, 3 / 2, -2, 1 / 2, true, 1, 1, 1 / 10, 0⟩, by norm_num, by norm_num, by norm_num, rfl⟩

example : Spec.IsGradient 2 (fun x => levelSetProfile (1 / 2) (Spec.planeDistance 2 exN 0 x)) (profileGrad 2 (2 * (1 / 2)) exN 0) :=
  profileGrad_isGradient 2 (2 * (1 / 2)) (by norm_num) exN 0

/-- at the interface the normal field `∇φ` satisfies the hypotheses -/
example : (1 : ℝ) / 10000 ≤ √(sprod 2 (profileGrad 2 1 exN 0 fun _ => 0) (profileGrad 2 1 exN 0 fun _ => 0)) := by
  apply Real.le_sqrt_of_sq_le
  simp [sprod, profileGrad, Spec.planeDistance, exN, Finset.sum_range_succ]; norm_num

end Verif.LevelSet
