import Mathlib.Analysis.SpecialFunctions.Artanh
import Mathlib.Analysis.Complex.ExponentialBounds
import Mathlib.Tactic.NormNum
import Mathlib.Tactic.Linarith
import Mathlib.Tactic.Positivity
import Mathlib.Tactic.FieldSimp

/-!
# C50: curvature correction away from the interface
(source/level_set_okz_compute_curvature.cc:358-378, source/level_set_okz_matrix.cc:820-836)
-/

namespace Verif.LevelSet
open Real

/-! ## Model -/

/-- distance reconstructed from the nodal level set value, level_set_okz_compute_curvature.cc:367-371 -/
noncomputable def nodalDistance (eps c : ℝ) : ℝ := if 1 - c * c > 1 / 100 then eps * log ((1 + c) / (1 - c)) else 0

/-- corrected nodal curvature, level_set_okz_compute_curvature.cc:362-377 (level_set_okz_matrix.cc:822-834); `none`: a division by
zero (`dim == 1`, or vanishing sum), whose result is infinite or no number. -/
noncomputable def correctCurvature (eps : ℝ) (dim : ℕ) (c kappa : ℝ) : Option ℝ :=
  if kappa > 1 / 10000 then
    if dim = 1 ∨ 1 / kappa + nodalDistance eps c / (dim - 1 : ℕ) = 0 then none
    else some (1 / (1 / kappa + nodalDistance eps c / (dim - 1 : ℕ)))
  else some kappa

/-! ## Specification -/

/-- curvature of a sphere of radius `r` in `dim` dimensions -/
noncomputable def Spec.sphereCurvature (dim : ℕ) (r : ℝ) : ℝ := (dim - 1 : ℕ) / r

/-- level set value at signed distance `d` (positive outside): equilibrium profile, one inside, cf. C46 -/
noncomputable def Spec.profile (eps d : ℝ) : ℝ := -tanh (d / (2 * eps))

/-! ## C50 -/

theorem nodalDistance_profile (eps d : ℝ) (heps : 0 < eps) (hnear : 1 - Spec.profile eps d ^ 2 > 1 / 100) :
    nodalDistance eps (Spec.profile eps d) = -d := by
  unfold nodalDistance
  rw [if_pos (by rw [← sq]; exact hnear)]
  have h1 : -1 < Spec.profile eps d := by
    unfold Spec.profile; have := tanh_lt_one (d / (2 * eps)); linarith
  have h2 : Spec.profile eps d < 1 := by
    unfold Spec.profile
    have := abs_lt.1 (abs_tanh_lt_one (d / (2 * eps)))
    linarith [this.1]
  have h := artanh_eq_half_log ⟨h1.le, h2.le⟩
  have h3 : artanh (Spec.profile eps d) = -(d / (2 * eps)) := by
    have : Spec.profile eps d = tanh (-(d / (2 * eps))) := by unfold Spec.profile; rw [tanh_neg]
    rw [this, artanh_tanh]
  rw [h3] at h
  have : log ((1 + Spec.profile eps d) / (1 - Spec.profile eps d)) = 2 * -(d / (2 * eps)) := by linarith
  rw [this]; field_simp

theorem dm1_pos {dim : ℕ} (h : 2 ≤ dim) : 0 < ((dim - 1 : ℕ) : ℝ) := by
  exact_mod_cast (by omega : 0 < dim - 1)

/-- **C50 (sphere).** In two and three dimensions, a node on the sphere of radius `r = R + d` around the centre of a droplet of
radius `R` (level set positive inside) whose computed curvature is that of its own level set gets exactly the curvature of the
interface, if the level set value is not within one percent of a constant and the curvature exceeds the threshold. -/
theorem C50_sphere_corrected_partial (eps : ℝ) (dim : ℕ) (R d : ℝ) (heps : 0 < eps) (hdim : 2 ≤ dim) (hR : 0 < R) (hr : 0 < R + d)
    (hnear : 1 - Spec.profile eps d ^ 2 > 1 / 100) (hk : Spec.sphereCurvature dim (R + d) > 1 / 10000) :
    correctCurvature eps dim (Spec.profile eps d) (Spec.sphereCurvature dim (R + d)) = some (Spec.sphereCurvature dim R) := by
  have hdm := dm1_pos hdim
  unfold correctCurvature
  rw [if_pos hk, nodalDistance_profile eps d heps hnear]
  unfold Spec.sphereCurvature
  generalize ((dim - 1 : ℕ) : ℝ) = dm1 at *
  have : 1 / (dm1 / (R + d)) + -d / dm1 = R / dm1 := by field_simp; ring
  rw [this, if_neg (by rintro (h | h); · omega
                       · exact (by positivity : R / dm1 ≠ 0) h)]
  congr 1; field_simp

/-- **C50 (unchanged values).** In two and three dimensions, flat or negatively curved regions, nodes on the interface and nodes
with a nearly constant level set keep their value. -/
theorem C50_unchanged (eps : ℝ) (dim : ℕ) (hdim : 2 ≤ dim) (c kappa : ℝ) :
    (kappa ≤ 1 / 10000 → correctCurvature eps dim c kappa = some kappa) ∧
    (correctCurvature eps dim 0 kappa = some kappa) ∧
    (1 - c * c ≤ 1 / 100 → correctCurvature eps dim c kappa = some kappa) := by
  have key : ∀ c, nodalDistance eps c = 0 → correctCurvature eps dim c kappa = some kappa := by
    intro c h
    unfold correctCurvature
    split_ifs with h1 h2
    · rw [h] at h2
      rcases h2 with h2 | h2
      · omega
      · exact absurd h2 (by simp; intro h0; norm_num [h0] at h1)
    · rw [h]; simp
    · rfl
  refine ⟨fun h => ?_, key 0 (by simp [nodalDistance]), fun h => key c ?_⟩
  · unfold correctCurvature; rw [if_neg (not_lt.2 h)]
  · unfold nodalDistance; rw [if_neg (not_lt.2 h)]

/-- The reconstructed distance is less than `6 eps`. -/
theorem nodalDistance_bound (eps c : ℝ) (heps : 0 < eps) (hc : |c| < 1) : |nodalDistance eps c| < 6 * eps := by
  have hc' := abs_lt.1 hc
  unfold nodalDistance
  split_ifs with h
  · have h400 : log 400 < 6 := by
      rw [log_lt_iff_lt_exp (by norm_num)]
      have h1 : exp 6 = exp 1 ^ 6 := by rw [← exp_nat_mul]; norm_num
      have h2 : (2.7182818283 : ℝ) ^ 6 ≤ exp 1 ^ 6 := pow_le_pow_left₀ (by norm_num) exp_one_gt_d9.le 6
      have h3 : (400 : ℝ) < 2.7182818283 ^ 6 := by norm_num
      rw [h1]; linarith
    have hp : 0 < 1 + c := by linarith
    have hm : 0 < 1 - c := by linarith
    have hu : log ((1 + c) / (1 - c)) < 6 := by
      refine lt_of_le_of_lt (log_le_log (by positivity) ?_) h400
      rw [div_le_iff₀ hm]
      nlinarith
    have hl : -6 < log ((1 + c) / (1 - c)) := by
      have : log ((1 + c) / (1 - c)) = -log ((1 - c) / (1 + c)) := by
        rw [← log_inv, inv_div]
      rw [this, neg_lt_neg_iff]
      refine lt_of_le_of_lt (log_le_log (by positivity) ?_) h400
      rw [div_le_iff₀ hp]
      nlinarith
    rw [abs_lt]; constructor <;> nlinarith
  · simpa using heps

/-- **C50 (resolved interfaces).** If the interface is resolved - the computed radius of curvature `(dim-1)/κ` is at least `6 eps` -
every corrected value is a positive number; the correction increases the curvature outside (level set negative) and decreases it
inside, and it changes the radius of curvature by less than `6 eps`. -/
theorem C50_resolved (eps : ℝ) (dim : ℕ) (c kappa : ℝ) (heps : 0 < eps) (hdim : 2 ≤ dim) (hc : |c| < 1) (hk : 1 / 10000 < kappa)
    (hres : kappa * (6 * eps) ≤ (dim - 1 : ℕ)) :
    ∃ k, correctCurvature eps dim c kappa = some k ∧ 0 < k ∧ (0 ≤ c → k ≤ kappa) ∧ (c ≤ 0 → kappa ≤ k) ∧
      |(dim - 1 : ℕ) / k - (dim - 1 : ℕ) / kappa| < 6 * eps := by
  have hdm := dm1_pos hdim
  have hkp : 0 < kappa := by linarith
  have hc' := abs_lt.1 hc
  have hb := nodalDistance_bound eps c heps hc
  have hb' := abs_lt.1 hb
  have hden : 0 < 1 / kappa + nodalDistance eps c / (dim - 1 : ℕ) := by
    have : 1 / kappa + nodalDistance eps c / (dim - 1 : ℕ) =
        ((dim - 1 : ℕ) + kappa * nodalDistance eps c) / (kappa * (dim - 1 : ℕ)) := by field_simp
    rw [this]
    apply div_pos _ (by positivity)
    nlinarith [hb'.1]
  refine ⟨_, by unfold correctCurvature; rw [if_pos hk, if_neg (by rintro (h | h); · omega
                                                                   · exact hden.ne' h)], by positivity, ?_, ?_, ?_⟩
  · intro h0
    have hd : 0 ≤ nodalDistance eps c := by
      unfold nodalDistance
      split_ifs
      · exact mul_nonneg heps.le (log_nonneg (by rw [le_div_iff₀ (by linarith)]; linarith))
      · exact le_rfl
    rw [one_div_le (by linarith) hkp]
    have : 0 ≤ nodalDistance eps c / (dim - 1 : ℕ) := by positivity
    linarith
  · intro h0
    have hd : nodalDistance eps c ≤ 0 := by
      unfold nodalDistance
      split_ifs
      · exact mul_nonpos_of_nonneg_of_nonpos heps.le (log_nonpos (by apply div_nonneg <;> linarith)
          (by rw [div_le_iff₀ (by linarith)]; linarith))
      · exact le_rfl
    rw [le_one_div hkp hden]
    have : nodalDistance eps c / (dim - 1 : ℕ) ≤ 0 := div_nonpos_of_nonpos_of_nonneg hd hdm.le
    linarith
  · have : ((dim - 1 : ℕ) : ℝ) / (1 / (1 / kappa + nodalDistance eps c / (dim - 1 : ℕ))) - (dim - 1 : ℕ) / kappa =
        nodalDistance eps c := by
      field_simp; ring
    rw [this]; exact hb

/-- **C50 (unresolved interfaces).** If the computed radius of curvature is less than `4 eps`, there are level set values outside of
the droplet for which the correction turns the positive curvature into a negative one. -/
theorem C50_sign_flip (eps : ℝ) (dim : ℕ) (kappa : ℝ) (heps : 0 < eps) (hdim : 2 ≤ dim) (hk : 1 / 10000 < kappa)
    (hres : ((dim - 1 : ℕ) : ℝ) < kappa * (4 * eps)) :
    ∃ c, |c| < 1 ∧ ∃ k < 0, correctCurvature eps dim c kappa = some k := by
  have hdm := dm1_pos hdim
  have hkp : 0 < kappa := by linarith
  have hd : nodalDistance eps (-49 / 50) < -(4 * eps) := by
    unfold nodalDistance
    rw [if_pos (by norm_num)]
    have h1 : log ((1 + -49 / 50) / (1 - -49 / 50)) = -log 99 := by
      rw [← log_inv]; norm_num
    have h2 : 4 < log 99 := by
      rw [lt_log_iff_exp_lt (by norm_num)]
      have h1 : exp 4 = exp 1 ^ 4 := by rw [← exp_nat_mul]; norm_num
      have h2 : exp 1 ^ 4 ≤ (2.7182818286 : ℝ) ^ 4 := pow_le_pow_left₀ (exp_pos 1).le exp_one_lt_d9.le 4
      have h3 : (2.7182818286 : ℝ) ^ 4 < 99 := by norm_num
      rw [h1]; linarith
    rw [h1]; nlinarith
  have hden : 1 / kappa + nodalDistance eps (-49 / 50) / (dim - 1 : ℕ) < 0 := by
    have : 1 / kappa + nodalDistance eps (-49 / 50) / (dim - 1 : ℕ) =
        ((dim - 1 : ℕ) + kappa * nodalDistance eps (-49 / 50)) / (kappa * (dim - 1 : ℕ)) := by field_simp
    rw [this]
    apply div_neg_of_neg_of_pos _ (by positivity)
    nlinarith
  refine ⟨-49 / 50, by norm_num [abs_lt], _, one_div_neg.2 hden, ?_⟩
  unfold correctCurvature
  rw [if_pos hk, if_neg (by rintro (h | h); · omega
                            · exact hden.ne h)]

/-- **C50 (one dimension).** In one dimension every curvature above the threshold leads to a division by zero. -/
theorem C50_one_dimension (eps c kappa : ℝ) : correctCurvature eps 1 c kappa = none ↔ 1 / 10000 < kappa := by
  unfold correctCurvature; split_ifs with h <;> simp_all

/-- **C50 is false of the other phase:** if the level set is negative inside the droplet (the same geometry with the two
fluids exchanged) level set and curvature change sign and no correction takes place. -/
theorem C50_not_symmetric (eps : ℝ) (dim : ℕ) (R d : ℝ) (hdim : 2 ≤ dim) (hR : 0 < R) (hr : 0 < R + d) (hd : d ≠ 0) :
    correctCurvature eps dim (-Spec.profile eps d) (-Spec.sphereCurvature dim (R + d)) ≠ some (-Spec.sphereCurvature dim R) := by
  have hdm := dm1_pos hdim
  have h : 0 < Spec.sphereCurvature dim (R + d) := by unfold Spec.sphereCurvature; positivity
  rw [(C50_unchanged eps dim hdim _ _).1 (by linarith)]
  unfold Spec.sphereCurvature
  generalize ((dim - 1 : ℕ) : ℝ) = dm1 at *
  intro he
  have he := Option.some.inj he
  have : dm1 / (R + d) = dm1 / R := by linarith
  rw [div_eq_div_iff hr.ne' hR.ne'] at this
  have : dm1 * d = 0 := by linarith
  rcases mul_eq_zero.1 this with h | h
  · exact hdm.ne' h
  · exact hd h

/-- the hypotheses of `C50_sphere_corrected_partial` hold for a two-dimensional drop with a node at level set value `-1/2` -/
example : ∃ eps R d : ℝ, 0 < eps ∧ 0 < R ∧ 0 < R + d ∧ d ≠ 0 ∧ 1 - Spec.profile eps d ^ 2 > 1 / 100 ∧
    Spec.sphereCurvature 2 (R + d) > 1 / 10000 := by
  have h1 : artanh (1 / 2 : ℝ) = 1 / 2 * log 3 := by
    rw [artanh_eq_half_log ⟨by norm_num, by norm_num⟩]; norm_num
  have h2 : 0 < log 3 := log_pos (by norm_num)
  have h3 : log 3 ≤ 2 := by have := log_le_sub_one_of_pos (show (0 : ℝ) < 3 by norm_num); linarith
  have hp : 0 < artanh (1 / 2 : ℝ) := by rw [h1]; positivity
  have hl : artanh (1 / 2 : ℝ) ≤ 1 := by rw [h1]; linarith
  refine ⟨1 / 10, 1 / 2, 2 * (1 / 10) * artanh (1 / 2), by norm_num, by norm_num, by positivity,
    by positivity, ?_, ?_⟩
  · unfold Spec.profile
    rw [mul_div_cancel_left₀ _ (by norm_num), tanh_artanh ⟨by norm_num, by norm_num⟩]
    norm_num
  · unfold Spec.sphereCurvature
    rw [gt_iff_lt, lt_div_iff₀ (by positivity)]
    norm_num
    linarith

/-- a resolved interface (radius 10 eps) and an unresolved one (radius 2 eps) in two dimensions -/
example : (10 : ℝ) * (6 * (1 / 100)) ≤ (2 - 1 : ℕ) ∧ ((2 - 1 : ℕ) : ℝ) < 50 * (4 * (1 / 100)) := by norm_num

end Verif.LevelSet
