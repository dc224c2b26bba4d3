import Verif.Time.Stepping
import Mathlib.Analysis.SpecialFunctions.Pow.Real
import Mathlib.Analysis.Real.Sqrt
import Mathlib.Tactic.Positivity
import Mathlib.Tactic.FieldSimp

/-!
# C48: adaptive time step of the two-phase solvers (source/two_phase_base.cc:594-619)

Real numbers; the corner cases in which IEEE arithmetic produces infinities (zero velocity, zero surface tension) agree with
`x / 0 = 0` in the formula below except if both occur together, which the theorems exclude.
-/

namespace Verif.Time
open Real

/-! ## Model -/

/-- parameters read by `set_adaptive_time_step` (and the densities, which are not read) -/
structure StepParams where
  cfl : ℝ
  coef2 : ℝ
  surface_tension : ℝ
  viscosity : ℝ
  viscosity_diff : ℝ
  density : ℝ
  density_diff : ℝ

/-- convective limit, two_phase_base.cc:609 -/
noncomputable def convLimit (p : StepParams) (h u : ℝ) : ℝ := p.cfl * h / u

/-- second limit with the coefficient `rho` below the root, two_phase_base.cc:610 -/
noncomputable def capLimit (p : StepParams) (rho h : ℝ) : ℝ := p.coef2 * √(rho / p.surface_tension) * h ^ (3 / 2 : ℝ)

/-- `new_time_step`, two_phase_base.cc:600-610; `rho_2` is computed from the viscosities (line 601). -/
noncomputable def newTimeStep (p : StepParams) (h u : ℝ) : ℝ :=
  let rho_2 := p.viscosity_diff + p.viscosity
  1 / (1 / convLimit p h u + 1 / capLimit p rho_2 h)

/-- `set_adaptive_time_step`, two_phase_base.cc:594-619 -/
noncomputable def setAdaptive (p : StepParams) (h u : ℝ) (t : TS ℝ) : TS ℝ := t.setDesired (newTimeStep p h u)

/-! ## Theorems -/

theorem harmonic_bounds {a b : ℝ} (ha : 0 < a) (hb : 0 < b) :
    0 < 1 / (1 / a + 1 / b) ∧ 1 / (1 / a + 1 / b) < min a b ∧ min a b / 2 ≤ 1 / (1 / a + 1 / b) := by
  have e : 1 / (1 / a + 1 / b) = a * b / (a + b) := by field_simp; ring
  rw [e]
  refine ⟨by positivity, ?_, ?_⟩
  · rw [lt_min_iff]
    constructor
    · rw [div_lt_iff₀ (by positivity)]; nlinarith
    · rw [div_lt_iff₀ (by positivity)]; nlinarith
  · rw [le_div_iff₀ (by positivity)]
    rcases le_total a b with h | h
    · rw [min_eq_left h]; nlinarith
    · rw [min_eq_right h]; nlinarith

/-- admissible data: everything positive -/
structure StepParams.Good (p : StepParams) (h : ℝ) : Prop where
  cfl : 0 < p.cfl
  coef2 : 0 < p.coef2
  sigma : 0 < p.surface_tension
  visc : 0 < p.viscosity_diff + p.viscosity
  h : 0 < h

theorem capLimit_pos {p : StepParams} {h : ℝ} (hp : p.Good h) {rho : ℝ} (hr : 0 < rho) : 0 < capLimit p rho h := by
  unfold capLimit
  have := hp.sigma; have := hp.coef2; have := hp.h
  positivity

/-- **C48 (what holds).** The requested step is positive and smaller than the convective limit and than the second limit,
and at least half of the smaller one; without flow it is the second limit. Missing from the full statement: it is not the
minimum, and the second limit is built from the viscosity instead of the density (see below). -/
theorem C48_below_limits_partial (p : StepParams) (h : ℝ) (hp : p.Good h) :
    (∀ u, 0 < u → 0 < newTimeStep p h u ∧
      newTimeStep p h u < min (convLimit p h u) (capLimit p (p.viscosity_diff + p.viscosity) h) ∧
      min (convLimit p h u) (capLimit p (p.viscosity_diff + p.viscosity) h) / 2 ≤ newTimeStep p h u) ∧
    newTimeStep p h 0 = capLimit p (p.viscosity_diff + p.viscosity) h := by
  constructor
  · intro u hu
    have ha : 0 < convLimit p h u := by unfold convLimit; have := hp.cfl; have := hp.h; positivity
    exact harmonic_bounds ha (capLimit_pos hp hp.visc)
  · simp [newTimeStep, convLimit]

/-- **C48 (formula).** The requested step is the harmonic combination of `CFL * h / |u|` and `c₂ sqrt((μ₁ + μ_diff) h³ / σ)`. -/
theorem C48_formula (p : StepParams) (h u : ℝ) (hp : p.Good h) (hu : 0 < u) :
    1 / newTimeStep p h u =
      u / (p.cfl * h) + 1 / (p.coef2 * √((p.viscosity + p.viscosity_diff) * h ^ 3 / p.surface_tension)) := by
  have e : √((p.viscosity + p.viscosity_diff) * h ^ 3 / p.surface_tension) =
      √((p.viscosity_diff + p.viscosity) / p.surface_tension) * h ^ (3 / 2 : ℝ) := by
    rw [show (p.viscosity + p.viscosity_diff) * h ^ 3 / p.surface_tension =
      (p.viscosity_diff + p.viscosity) / p.surface_tension * h ^ 3 by ring,
      Real.sqrt_mul' _ (pow_nonneg hp.h.le 3)]
    congr 1
    rw [Real.sqrt_eq_rpow, ← Real.rpow_natCast, ← Real.rpow_mul hp.h.le]
    norm_num
  unfold newTimeStep convLimit capLimit
  simp only
  rw [e, one_div_one_div, one_div_div, mul_assoc]

/-- **C48 (limits).** Whatever the formula yields, the step size of the clock stays in `[min, max]`, and changes by at most
a factor of two if the previous one was within the limits. -/
theorem C48_in_bounds (p : StepParams) (h u : ℝ) (t : TS ℝ) (hmm : t.minStep ≤ t.maxStep) :
    (t.minStep ≤ (setAdaptive p h u t).cur ∧ (setAdaptive p h u t).cur ≤ t.maxStep) ∧
    (t.now ≠ 0 → t.minStep ≤ t.cur → t.cur ≤ t.maxStep → 0 < t.cur →
      t.cur / 2 ≤ (setAdaptive p h u t).cur ∧ (setAdaptive p h u t).cur ≤ 2 * t.cur) :=
  ⟨C04_desired_in_range t _ hmm, fun h0 h1 h2 h3 => C04_desired_factor_two t _ h0 h3 h1 h2⟩

/-- **C48 (monotonicity).** A faster flow never increases the requested step. -/
theorem C48_antitone (p : StepParams) (h : ℝ) (hp : p.Good h) (u u' : ℝ) (hu : 0 < u) (huu : u ≤ u') :
    newTimeStep p h u' ≤ newTimeStep p h u := by
  have hc := capLimit_pos hp hp.visc
  have ha : 0 < convLimit p h u := by unfold convLimit; have := hp.cfl; have := hp.h; positivity
  have ha' : 0 < convLimit p h u' := by unfold convLimit; have := hp.cfl; have := hp.h; have : 0 < u' := by linarith
                                        positivity
  have hle : convLimit p h u' ≤ convLimit p h u := by
    unfold convLimit
    have := hp.cfl; have := hp.h
    gcongr
  unfold newTimeStep
  simp only
  apply one_div_le_one_div_of_le (by positivity)
  have := one_div_le_one_div_of_le ha' hle
  linarith

/-- **C48 is false of the code (density):** the densities do not enter the requested step at all, and for equal densities
and surface tension a different viscosity changes the limit. -/
theorem C48_density_ignored (p : StepParams) (h u : ℝ) :
    (∀ d d', newTimeStep { p with density := d, density_diff := d' } h u = newTimeStep p h u) ∧
    (p.Good h → 0 < u → ∀ s, 1 < s →
      newTimeStep p h u < newTimeStep { p with viscosity := s * p.viscosity, viscosity_diff := s * p.viscosity_diff } h u) := by
  refine ⟨fun d d' => rfl, fun hp hu s hs => ?_⟩
  have hc := capLimit_pos hp hp.visc
  have ha : 0 < convLimit p h u := by unfold convLimit; have := hp.cfl; have := hp.h; positivity
  have hlt : capLimit p (p.viscosity_diff + p.viscosity) h < capLimit p (s * p.viscosity_diff + s * p.viscosity) h := by
    unfold capLimit
    have := hp.sigma; have := hp.coef2; have := hp.h; have hv := hp.visc
    have h1 : √((p.viscosity_diff + p.viscosity) / p.surface_tension) <
        √((s * p.viscosity_diff + s * p.viscosity) / p.surface_tension) := by
      apply Real.sqrt_lt_sqrt (by positivity)
      rw [div_lt_div_iff_of_pos_right (by positivity), ← mul_add]
      nlinarith
    have h2 : 0 < h ^ (3 / 2 : ℝ) := by positivity
    gcongr
  have hc' := hc.trans hlt
  unfold newTimeStep
  simp only
  change 1 / (1 / convLimit p h u + 1 / capLimit p (p.viscosity_diff + p.viscosity) h) <
    1 / (1 / convLimit p h u + 1 / capLimit p (s * p.viscosity_diff + s * p.viscosity) h)
  apply one_div_lt_one_div_of_lt (by positivity)
  have := one_div_lt_one_div_of_lt hc hlt
  linarith

/-! Non-vacuity: parameters of a rising bubble computation -/
example : (StepParams.Good ⟨4 / 5, 10, 49 / 2, 1, 9, 100, 900⟩ (1 / 64)) :=
  ⟨by norm_num, by norm_num, by norm_num, by norm_num, by norm_num⟩

end Verif.Time
