import Verif.LevelSet.Delta
import Mathlib.Analysis.SpecialFunctions.Trigonometric.InverseDeriv
import Mathlib.Analysis.SpecialFunctions.Sqrt
import Mathlib.Analysis.Calculus.Deriv.MeanValue
import Mathlib.Tactic.FieldSimp

/-!
# C32: the smoothed Heaviside function (include/adaflo/level_set_base.h:118-142), over the reals
-/

namespace Verif.LevelSet

open Real Set Filter Topology

/-- Second branch, level_set_base.h:127-132. -/
noncomputable def hvLeft (x : ℝ) : ℝ :=
  1 / 8 * (5 * x + x * x) + 1 / 32 * (-3 - 2 * x) * √(-7 - 12 * x - 4 * x * x)
    - 1 / 16 * arcsin (√2 * (x + 3 / 2)) + 23 / 32 - π / 64

/-- Third branch, level_set_base.h:134-140. -/
noncomputable def hvRight (x : ℝ) : ℝ :=
  1 / 8 * (3 * x + x * x) - 1 / 32 * (-1 - 2 * x) * √(1 - 4 * x - 4 * x * x)
    + 1 / 16 * arcsin (√2 * (x + 1 / 2)) + 15 / 32 - π / 64

/-- `discrete_heaviside` for arguments `≤ 0`. -/
noncomputable def hvNeg (x : ℝ) : ℝ :=
  if x < -2 then 0 else if x < -1 then hvLeft x else hvRight x

/-- `discrete_heaviside`, level_set_base.h:118-142; the recursive call has a negative argument. -/
noncomputable def heaviside (x : ℝ) : ℝ := if 0 < x then 1 - hvNeg (-x) else hvNeg x

theorem arcsin_half_sqrt_two : arcsin (√2 * (1 / 2)) = π / 4 := by
  apply arcsin_eq_of_sin_eq
  · rw [sin_pi_div_four]; ring
  · constructor <;> linarith [pi_pos]

theorem arcsin_neg_half_sqrt_two : arcsin (√2 * (-1 / 2)) = -(π / 4) := by
  rw [show √2 * (-1 / 2) = -(√2 * (1 / 2)) by ring, arcsin_neg, arcsin_half_sqrt_two]

theorem hvLeft_neg_two : hvLeft (-2) = 0 := by
  unfold hvLeft
  rw [show (-7 - 12 * (-2) - 4 * (-2) * (-2) : ℝ) = 1 by norm_num, sqrt_one,
    show ((-2 : ℝ) + 3 / 2) = -1 / 2 by norm_num, arcsin_neg_half_sqrt_two]
  ring

theorem hv_neg_one : hvLeft (-1) = hvRight (-1) := by
  unfold hvLeft hvRight
  rw [show (-7 - 12 * (-1) - 4 * (-1) * (-1) : ℝ) = 1 by norm_num,
    show (1 - 4 * (-1) - 4 * (-1) * (-1) : ℝ) = 1 by norm_num, sqrt_one,
    show ((-1 : ℝ) + 3 / 2) = 1 / 2 by norm_num, show ((-1 : ℝ) + 1 / 2) = -1 / 2 by norm_num,
    arcsin_neg_half_sqrt_two, arcsin_half_sqrt_two]
  ring

theorem hvRight_zero : hvRight 0 = 1 / 2 := by
  unfold hvRight
  rw [show (1 - 4 * 0 - 4 * 0 * 0 : ℝ) = 1 by norm_num, sqrt_one,
    show ((0 : ℝ) + 1 / 2) = 1 / 2 by norm_num, arcsin_half_sqrt_two]
  ring

/-- Common derivative computation: for `u = 2x + c` with `u² < 2`, both branches contain
`u √(2-u²)/32 + arcsin(u/√2)/16`, whose derivative is `√(2-u²)/8`. -/
theorem hasDerivAt_core (c x : ℝ) (h : (2 * x + c) ^ 2 < 2) :
    HasDerivAt (fun x => 1 / 32 * (2 * x + c) * √(2 - (2 * x + c) ^ 2) + 1 / 16 * arcsin (√2 * (x + c / 2)))
      (1 / 8 * √(2 - (2 * x + c) ^ 2)) x := by
  set S := √(2 - (2 * x + c) ^ 2) with hS
  have hpos : 0 < 2 - (2 * x + c) ^ 2 := by linarith
  have hSpos : 0 < S := sqrt_pos.2 hpos
  have hS2 : S ^ 2 = 2 - (2 * x + c) ^ 2 := sq_sqrt hpos.le
  have d1 : HasDerivAt (fun x : ℝ => 2 * x + c) 2 x := by
    simpa using ((hasDerivAt_id x).const_mul 2).add_const c
  have d2 : HasDerivAt (fun x : ℝ => 2 - (2 * x + c) ^ 2) (-(4 * (2 * x + c))) x := by
    refine ((d1.pow 2).const_sub 2).congr_deriv ?_
    push_cast; ring
  have d3 := d2.sqrt hpos.ne'
  have hr2 : (√2 : ℝ) ^ 2 = 2 := sq_sqrt (by norm_num)
  have hr2pos : 0 < √(2 : ℝ) := sqrt_pos.2 (by norm_num)
  have harg : (√2 * (x + c / 2)) ^ 2 < 1 := by
    rw [mul_pow, hr2]; nlinarith
  have hne1 : √2 * (x + c / 2) ≠ -1 := fun e => by rw [e] at harg; norm_num at harg
  have hne2 : √2 * (x + c / 2) ≠ 1 := fun e => by rw [e] at harg; norm_num at harg
  have d4 : HasDerivAt (fun x : ℝ => √2 * (x + c / 2)) (√2) x := by
    simpa using ((hasDerivAt_id x).add_const (c / 2)).const_mul √2
  have d5 := (hasDerivAt_arcsin hne1 hne2).comp x d4
  have d6 := ((d1.const_mul (1 / 32)).mul d3).add (d5.const_mul (1 / 16))
  have hq : √(1 - (√2 * (x + c / 2)) ^ 2) = S / √2 := by
    rw [eq_div_iff hr2pos.ne', hS, ← sqrt_mul (by linarith)]
    congr 1
    rw [mul_pow, hr2]; ring
  refine HasDerivAt.congr_deriv d6 ?_
  rw [hq, ← hS]
  field_simp
  rw [hr2]
  nlinarith [hS2]

theorem hasDerivAt_hvLeft {x : ℝ} (h : (2 * x + 3) ^ 2 < 2) :
    HasDerivAt hvLeft (1 / 8 * (5 + 2 * x - √(2 - (2 * x + 3) ^ 2))) x := by
  have e : hvLeft = fun x => 1 / 8 * (5 * x + x * x) + 23 / 32 - π / 64 -
      (1 / 32 * (2 * x + 3) * √(2 - (2 * x + 3) ^ 2) + 1 / 16 * arcsin (√2 * (x + 3 / 2))) := by
    funext y; unfold hvLeft; rw [radicand1]; ring
  rw [e]
  have d : HasDerivAt (fun x : ℝ => 1 / 8 * (5 * x + x * x) + 23 / 32 - π / 64) (1 / 8 * (5 + 2 * x)) x := by
    have h1 := (((hasDerivAt_id x).const_mul 5).add ((hasDerivAt_id x).mul (hasDerivAt_id x))).const_mul (1 / 8 : ℝ)
    have h2 := (h1.add_const (23 / 32 : ℝ)).sub_const (π / 64)
    refine HasDerivAt.congr_deriv h2 ?_
    simp only [id]; ring
  refine HasDerivAt.congr_deriv (d.sub (hasDerivAt_core 3 x h)) ?_
  ring

theorem hasDerivAt_hvRight {x : ℝ} (h : (2 * x + 1) ^ 2 < 2) :
    HasDerivAt hvRight (1 / 8 * (3 + 2 * x + √(2 - (2 * x + 1) ^ 2))) x := by
  have e : hvRight = fun x => 1 / 8 * (3 * x + x * x) + 15 / 32 - π / 64 +
      (1 / 32 * (2 * x + 1) * √(2 - (2 * x + 1) ^ 2) + 1 / 16 * arcsin (√2 * (x + 1 / 2))) := by
    funext y; unfold hvRight; rw [radicand2]; ring
  rw [e]
  have d : HasDerivAt (fun x : ℝ => 1 / 8 * (3 * x + x * x) + 15 / 32 - π / 64) (1 / 8 * (3 + 2 * x)) x := by
    have h1 := (((hasDerivAt_id x).const_mul 3).add ((hasDerivAt_id x).mul (hasDerivAt_id x))).const_mul (1 / 8 : ℝ)
    have h2 := (h1.add_const (15 / 32 : ℝ)).sub_const (π / 64)
    refine HasDerivAt.congr_deriv h2 ?_
    simp only [id]; ring
  refine HasDerivAt.congr_deriv (d.add (hasDerivAt_core 1 x h)) ?_
  ring

/-- Gluing two differentiable functions with matching value and derivative. -/
theorem hasDerivAt_glue {f g h : ℝ → ℝ} {a d : ℝ} (hg : HasDerivAt g d a) (hh : HasDerivAt h d a)
    (el : ∀ᶠ x in 𝓝[≤] a, f x = g x) (er : ∀ᶠ x in 𝓝[≥] a, f x = h x) : HasDerivAt f d a := by
  have hl : f a = g a := el.self_of_nhdsWithin (mem_Iic.2 le_rfl)
  have hr : f a = h a := er.self_of_nhdsWithin (mem_Ici.2 le_rfl)
  have d1 : HasDerivWithinAt f d (Iic a) a := hg.hasDerivWithinAt.congr_of_eventuallyEq el hl
  have d2 : HasDerivWithinAt f d (Ici a) a := hh.hasDerivWithinAt.congr_of_eventuallyEq er hr
  have := d1.union d2
  rwa [Iic_union_Ici, hasDerivWithinAt_univ] at this

theorem hvNeg_le {x : ℝ} (h : x ≤ -2) : hvNeg x = 0 := by
  unfold hvNeg
  rcases lt_or_eq_of_le h with h | h
  · rw [if_pos h]
  · rw [if_neg (by linarith), if_pos (by linarith), h, hvLeft_neg_two]

theorem hvNeg_left {x : ℝ} (h1 : -2 ≤ x) (h2 : x ≤ -1) : hvNeg x = hvLeft x := by
  unfold hvNeg
  rw [if_neg (by linarith)]
  rcases lt_or_eq_of_le h2 with h | h
  · rw [if_pos h]
  · rw [if_neg (by linarith), h, hv_neg_one]

theorem hvNeg_right {x : ℝ} (h1 : -1 ≤ x) : hvNeg x = hvRight x := by
  unfold hvNeg
  rw [if_neg (by linarith), if_neg (by linarith)]

/-- One-sided neighbourhoods. -/
theorem evLe {a b : ℝ} (h : a < b) {P : ℝ → Prop} (hp : ∀ x, a < x → x ≤ b → P x) : ∀ᶠ x in 𝓝[≤] b, P x := by
  filter_upwards [Ioc_mem_nhdsLE h] with x hx using hp x hx.1 hx.2

theorem evGe {a b : ℝ} (h : a < b) {P : ℝ → Prop} (hp : ∀ x, a ≤ x → x < b → P x) : ∀ᶠ x in 𝓝[≥] a, P x := by
  filter_upwards [Ico_mem_nhdsGE h] with x hx using hp x hx.1 hx.2

theorem hasDerivAt_hvNeg {x : ℝ} (hx : x < 0) : HasDerivAt hvNeg (deltaNeg x) x := by
  rcases lt_trichotomy x (-2) with h | h | h
  · rw [deltaNeg_outside h.le]
    exact (hasDerivAt_const x (0 : ℝ)).congr_of_eventuallyEq (by
      filter_upwards [Iio_mem_nhds h] with y hy using hvNeg_le hy.le)
  · subst h
    have dl := hasDerivAt_hvLeft (x := -2) (by norm_num)
    rw [← deltaNeg_left le_rfl (by norm_num)] at dl
    have dc := hasDerivAt_const (-2 : ℝ) (0 : ℝ)
    rw [← deltaNeg_outside (le_refl (-2 : ℝ))] at dc
    rw [deltaNeg_outside (le_refl (-2 : ℝ))] at dl dc ⊢
    exact hasDerivAt_glue (g := fun _ => 0) (by simpa using dc) dl
      (evLe (a := -3) (by norm_num) fun y _ hy => hvNeg_le hy)
      (evGe (b := -1) (by norm_num) fun y h1 h2 => hvNeg_left h1 h2.le)
  · rcases lt_trichotomy x (-1) with h' | h' | h'
    · rw [deltaNeg_left h.le h'.le]
      refine (hasDerivAt_hvLeft (by nlinarith)).congr_of_eventuallyEq ?_
      filter_upwards [Ioo_mem_nhds h h'] with y hy using hvNeg_left hy.1.le hy.2.le
    · subst h'
      have dl := hasDerivAt_hvLeft (x := -1) (by norm_num)
      rw [← deltaNeg_left (by norm_num) le_rfl] at dl
      have dr := hasDerivAt_hvRight (x := -1) (by norm_num)
      rw [← deltaNeg_right le_rfl] at dr
      exact hasDerivAt_glue dl dr
        (evLe (a := -2) (by norm_num) fun y h1 h2 => hvNeg_left h1.le h2)
        (evGe (b := 0) (by norm_num) fun y h1 _ => hvNeg_right h1)
    · rw [deltaNeg_right h'.le]
      refine (hasDerivAt_hvRight (by nlinarith)).congr_of_eventuallyEq ?_
      filter_upwards [Ioi_mem_nhds h'] with y hy using hvNeg_right (le_of_lt hy)

/-- **C32 (derivative).** At every real number `discrete_heaviside` is differentiable and its derivative is
`discrete_delta`; in particular it is continuous. -/
theorem C32_derivative_is_delta (x : ℝ) : HasDerivAt heaviside (delta x) x := by
  rcases lt_trichotomy x 0 with h | h | h
  · rw [delta, if_neg (by linarith)]
    refine (hasDerivAt_hvNeg h).congr_of_eventuallyEq ?_
    filter_upwards [Iio_mem_nhds h] with y hy
    rw [heaviside, if_neg (not_lt.2 (le_of_lt hy))]
  · subst h
    have d0 := hasDerivAt_hvRight (x := 0) (by norm_num)
    rw [← deltaNeg_right (by norm_num)] at d0
    have dneg : HasDerivAt (fun x => 1 - hvRight (-x)) (deltaNeg 0) 0 := by
      have d0' : HasDerivAt hvRight (deltaNeg 0) (-(0 : ℝ)) := by rwa [neg_zero]
      have h1 := (d0'.comp (0 : ℝ) (hasDerivAt_neg (0 : ℝ))).const_sub 1
      refine HasDerivAt.congr_deriv h1 ?_
      ring
    rw [delta, if_neg (lt_irrefl 0)]
    refine hasDerivAt_glue d0 dneg (evLe (a := -1) (by norm_num) fun y h1 h2 => ?_)
      (evGe (b := 1) (by norm_num) fun y h1 h2 => ?_)
    · rw [heaviside, if_neg (not_lt.2 h2), hvNeg_right h1.le]
    · rcases lt_or_eq_of_le h1 with h | h
      · rw [heaviside, if_pos h, hvNeg_right (by linarith)]
      · rw [← h, heaviside, if_neg (lt_irrefl 0), hvNeg_right (by norm_num), neg_zero, hvRight_zero]; norm_num
  · rw [delta, if_pos h]
    have d := hasDerivAt_hvNeg (x := -x) (by linarith)
    have h1 := (d.comp x (hasDerivAt_neg x)).const_sub 1
    have h2 : HasDerivAt (fun x => 1 - hvNeg (-x)) (deltaNeg (-x)) x := by
      refine HasDerivAt.congr_deriv h1 ?_
      ring
    refine h2.congr_of_eventuallyEq ?_
    filter_upwards [Ioi_mem_nhds h] with y hy
    rw [heaviside, if_pos (mem_Ioi.1 hy)]

/-- **C32 (continuity).** -/
theorem C32_continuous : Continuous heaviside :=
  continuous_iff_continuousAt.2 fun x => (C32_derivative_is_delta x).continuousAt

/-- **C32 (monotone).** -/
theorem C32_monotone : Monotone heaviside :=
  monotone_of_deriv_nonneg (fun x => (C32_derivative_is_delta x).differentiableAt)
    fun x => by rw [(C32_derivative_is_delta x).deriv]; exact C33_nonneg x

/-- **C32 (plateaus).** Zero left of -2, one right of 2. -/
theorem C32_plateaus (x : ℝ) : (x ≤ -2 → heaviside x = 0) ∧ (2 ≤ x → heaviside x = 1) := by
  constructor
  · intro h
    rw [heaviside, if_neg (by linarith), hvNeg_le h]
  · intro h
    rw [heaviside, if_pos (by linarith), hvNeg_le (by linarith), sub_zero]

/-- **C32 (range).** -/
theorem C32_range (x : ℝ) : 0 ≤ heaviside x ∧ heaviside x ≤ 1 := by
  constructor
  · rw [← (C32_plateaus (min x (-2))).1 (min_le_right _ _)]
    exact C32_monotone (min_le_left _ _)
  · rw [← (C32_plateaus (max x 2)).2 (le_max_right _ _)]
    exact C32_monotone (le_max_left _ _)

/-- **C32 (point symmetry).** -/
theorem C32_symmetry (x : ℝ) : heaviside (-x) = 1 - heaviside x := by
  rcases lt_trichotomy x 0 with h | h | h
  · rw [heaviside, if_pos (by linarith), neg_neg, heaviside, if_neg (by linarith)]
  · subst h
    rw [neg_zero, heaviside, if_neg (lt_irrefl 0), hvNeg_right (by norm_num), hvRight_zero]; norm_num
  · rw [heaviside, if_neg (by linarith), heaviside, if_pos h]; ring

/-- Non-vacuity: an intermediate value. -/
example : heaviside 0 = 1 / 2 ∧ heaviside (-1) = 6 / 32 - π / 32 := by
  constructor
  · rw [heaviside, if_neg (lt_irrefl 0), hvNeg_right (by norm_num), hvRight_zero]
  · rw [heaviside, if_neg (by norm_num), hvNeg_right le_rfl]
    unfold hvRight
    rw [show (1 - 4 * (-1) - 4 * (-1) * (-1) : ℝ) = 1 by norm_num, sqrt_one,
      show ((-1 : ℝ) + 1 / 2) = -1 / 2 by norm_num, arcsin_neg_half_sqrt_two]
    ring

end Verif.LevelSet
