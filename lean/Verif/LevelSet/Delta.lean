import Mathlib.Analysis.Real.Sqrt
import Mathlib.Algebra.BigOperators.Finprod
import Mathlib.Algebra.Order.Round
import Mathlib.Tactic.Linarith
import Mathlib.Tactic.LinearCombination
import Mathlib.Tactic.Positivity
import Mathlib.Tactic.NormNum.NatSqrt

/-!
# C33, C34: Peskin's discrete delta function and the cutoff function
(include/adaflo/level_set_base.h:118-175), over the reals
-/

namespace Verif.LevelSet

open Real

/-- `discrete_delta` for arguments `≤ 0`, level_set_base.h:150-155 (branches 2-4). -/
noncomputable def deltaNeg (x : ℝ) : ℝ :=
  if x < -2 then 0
  else if x < -1 then 1 / 8 * (5 + 2 * x - √(-7 - 12 * x - 4 * x * x))
  else 1 / 8 * (3 + 2 * x + √(1 - 4 * x - 4 * x * x))

/-- `discrete_delta`, level_set_base.h:145-156; the recursive call for `x > 0` has a negative argument. -/
noncomputable def delta (x : ℝ) : ℝ := if 0 < x then deltaNeg (-x) else deltaNeg x

/-- `cutoff_function`, level_set_base.h:160-173, with `beta = 5`, `gamma = 7`. -/
noncomputable def cutoff (x : ℝ) : ℝ :=
  let beta : ℝ := 5
  let gamma : ℝ := 7
  let abx := |x|
  if abx < beta then 1
  else if abx < gamma then
    (abx - gamma) * (abx - gamma) * (2 * abx + gamma - 3 * beta) /
      ((gamma - beta) * (gamma - beta) * (gamma - beta))
  else 0

/-! ## Delta -/

/-- The radicands: `2 - (2x+3)²` and `2 - (2x+1)²`. -/
theorem radicand1 (x : ℝ) : -7 - 12 * x - 4 * x * x = 2 - (2 * x + 3) ^ 2 := by ring
theorem radicand2 (x : ℝ) : 1 - 4 * x - 4 * x * x = 2 - (2 * x + 1) ^ 2 := by ring

/-- **C33 (square roots).** Wherever `discrete_delta` evaluates a square root its argument is at least one. -/
theorem C33_radicands_positive (x : ℝ) :
    (-2 ≤ x → x < -1 → 1 ≤ -7 - 12 * x - 4 * x * x) ∧ (-1 ≤ x → x ≤ 0 → 1 ≤ 1 - 4 * x - 4 * x * x) := by
  constructor
  · intro h1 h2; nlinarith
  · intro h1 h2; nlinarith

/-- **C33 (even).** -/
theorem C33_even (x : ℝ) : delta (-x) = delta x := by
  unfold delta
  rcases lt_trichotomy x 0 with h | h | h
  · rw [if_pos (by linarith), if_neg (by linarith), neg_neg]
  · rw [h]; simp
  · rw [if_neg (by linarith), if_pos h]

theorem deltaNeg_outside {x : ℝ} (h : x ≤ -2) : deltaNeg x = 0 := by
  unfold deltaNeg
  rcases lt_or_eq_of_le h with h | h
  · rw [if_pos h]
  · rw [if_neg (by linarith), if_pos (by linarith), h]
    have : (-7 - 12 * (-2) - 4 * (-2) * (-2) : ℝ) = 1 := by norm_num
    rw [this, sqrt_one]; norm_num

theorem deltaNeg_left {x : ℝ} (h1 : -2 ≤ x) (h2 : x ≤ -1) :
    deltaNeg x = 1 / 8 * (5 + 2 * x - √(2 - (2 * x + 3) ^ 2)) := by
  unfold deltaNeg
  rw [if_neg (by linarith)]
  rcases lt_or_eq_of_le h2 with h | h
  · rw [if_pos h, radicand1]
  · rw [if_neg (by linarith), h]
    have e1 : (1 - 4 * (-1) - 4 * (-1) * (-1) : ℝ) = 1 := by norm_num
    have e2 : (2 - (2 * (-1) + 3) ^ 2 : ℝ) = 1 := by norm_num
    rw [e1, e2, sqrt_one]; norm_num

theorem deltaNeg_right {x : ℝ} (h1 : -1 ≤ x) :
    deltaNeg x = 1 / 8 * (3 + 2 * x + √(2 - (2 * x + 1) ^ 2)) := by
  unfold deltaNeg
  rw [if_neg (by linarith), if_neg (by linarith), radicand2]

/-- **C33 (support).** `discrete_delta` vanishes outside of `(-2, 2)`. -/
theorem C33_support (x : ℝ) (h : 2 ≤ |x|) : delta x = 0 := by
  unfold delta
  split
  · rename_i hx
    rw [abs_of_pos hx] at h
    exact deltaNeg_outside (by linarith)
  · rename_i hx
    rw [abs_of_nonpos (by linarith)] at h
    exact deltaNeg_outside (by linarith)

theorem deltaNeg_nonneg {x : ℝ} (hx : x ≤ 0) : 0 ≤ deltaNeg x := by
  rcases le_or_gt x (-2) with h | h
  · rw [deltaNeg_outside h]
  · rcases le_or_gt x (-1) with h' | h'
    · rw [deltaNeg_left h.le h']
      have : √(2 - (2 * x + 3) ^ 2) ≤ 5 + 2 * x := by
        rw [sqrt_le_left (by linarith)]
        nlinarith [sq_nonneg (x + 2)]
      linarith
    · rw [deltaNeg_right h'.le]
      have := sqrt_nonneg (2 - (2 * x + 1) ^ 2)
      linarith

/-- **C33 (nonnegative).** -/
theorem C33_nonneg (x : ℝ) : 0 ≤ delta x := by
  unfold delta
  split
  · exact deltaNeg_nonneg (by linarith)
  · exact deltaNeg_nonneg (by linarith)

/-- The four translates that can be nonzero, for `x ∈ [-1, 0]`. -/
theorem delta_translates {x : ℝ} (h1 : -1 ≤ x) (h2 : x ≤ 0) :
    let s := √(2 - (2 * x + 1) ^ 2)
    delta (x - 1) = 1 / 8 * (3 + 2 * x - s) ∧ delta x = 1 / 8 * (3 + 2 * x + s) ∧
    delta (x + 1) = 1 / 8 * (1 - 2 * x + s) ∧ delta (x + 2) = 1 / 8 * (1 - 2 * x - s) := by
  intro s
  refine ⟨?_, ?_, ?_, ?_⟩
  · rw [delta, if_neg (by linarith), deltaNeg_left (by linarith) (by linarith)]
    have : (2 * (x - 1) + 3) = 2 * x + 1 := by ring
    rw [this]; simp only [s]; ring
  · rw [delta, if_neg (by linarith), deltaNeg_right h1]
  · rw [← C33_even, delta, if_neg (by linarith), deltaNeg_right (by linarith)]
    have : (2 * -(x + 1) + 1) ^ 2 = (2 * x + 1) ^ 2 := by ring
    rw [this]; simp only [s]; ring
  · rw [← C33_even, delta, if_neg (by linarith), deltaNeg_left (by linarith) (by linarith)]
    have : (2 * -(x + 2) + 3) ^ 2 = (2 * x + 1) ^ 2 := by ring
    rw [this]; simp only [s]; ring

/-- A finitely supported sum over all integer translates, reduced to four terms. -/
theorem finsum_translates (x : ℝ) (F : ℝ → ℝ) (hF : ∀ y, 2 ≤ |y| → F y = 0) :
    ∃ y : ℝ, -1 ≤ y ∧ y ≤ 0 ∧ ∑ᶠ k : ℤ, F (x + k) = F (y - 1) + F y + F (y + 1) + F (y + 2) := by
  refine ⟨x - ⌈x⌉, by linarith [Int.ceil_lt_add_one x], by linarith [Int.le_ceil x], ?_⟩
  set n := ⌈x⌉ with hn
  have h1 : (n : ℝ) < x + 1 := Int.ceil_lt_add_one x
  have h2 : x ≤ n := Int.le_ceil x
  have hsub : Function.support (fun k : ℤ => F (x + k)) ⊆
      ↑({-n - 1, -n, -n + 1, -n + 2} : Finset ℤ) := by
    intro k hk
    by_contra hc
    apply hk
    simp only [Finset.coe_insert, Finset.coe_singleton, Set.mem_insert_iff, Set.mem_singleton_iff, not_or] at hc
    apply hF
    have hcase : k ≤ -n - 2 ∨ -n + 3 ≤ k := by omega
    rcases hcase with h | h
    · have : (k : ℝ) ≤ -n - 2 := by exact_mod_cast h
      rw [abs_of_nonpos (by linarith)]; linarith
    · have : (-n + 3 : ℝ) ≤ k := by exact_mod_cast h
      rw [abs_of_nonneg (by linarith)]; linarith
  rw [finsum_eq_sum_of_support_subset _ hsub]
  rw [Finset.sum_insert (by simp only [Finset.mem_insert, Finset.mem_singleton]; omega),
    Finset.sum_insert (by simp only [Finset.mem_insert, Finset.mem_singleton]; omega),
    Finset.sum_insert (by simp only [Finset.mem_singleton]; omega), Finset.sum_singleton]
  push_cast
  have e1 : x + (-(n : ℝ) - 1) = x - n - 1 := by ring
  have e2 : x + (-(n : ℝ)) = x - n := by ring
  have e3 : x + (-(n : ℝ) + 1) = x - n + 1 := by ring
  have e4 : x + (-(n : ℝ) + 2) = x - n + 2 := by ring
  rw [e1, e2, e3, e4]; ring

/-- **C33 (partition of unity).** For every position the values at all grid points sum to one. -/
theorem C33_sum_one (x : ℝ) : ∑ᶠ k : ℤ, delta (x + k) = 1 := by
  obtain ⟨y, h1, h2, h⟩ := finsum_translates x delta C33_support
  obtain ⟨a, b, c, d⟩ := delta_translates h1 h2
  rw [h, a, b, c, d]; ring

/-- **C33 (first moment).** The discrete first moment vanishes. -/
theorem C33_first_moment (x : ℝ) : ∑ᶠ k : ℤ, (x + k) * delta (x + k) = 0 := by
  obtain ⟨y, h1, h2, h⟩ := finsum_translates x (fun y => y * delta y) fun y hy => by
    rw [C33_support y hy, mul_zero]
  obtain ⟨a, b, c, d⟩ := delta_translates h1 h2
  rw [h, a, b, c, d]; ring

/-- **C33 (sum of squares).** The sum of squares is 3/8 for every position. -/
theorem C33_sum_squares (x : ℝ) : ∑ᶠ k : ℤ, delta (x + k) ^ 2 = 3 / 8 := by
  obtain ⟨y, h1, h2, h⟩ := finsum_translates x (fun y => delta y ^ 2) fun y hy => by
    rw [C33_support y hy]; norm_num
  obtain ⟨a, b, c, d⟩ := delta_translates h1 h2
  have hs : √(2 - (2 * y + 1) ^ 2) ^ 2 = 2 - (2 * y + 1) ^ 2 := sq_sqrt (by nlinarith)
  rw [h, a, b, c, d]
  linear_combination (4 / 64) * hs

/-- **C33 (even and odd points).** The values at every second grid point sum to one half. -/
theorem C33_even_odd_half (x : ℝ) : ∑ᶠ k : ℤ, delta (x + 2 * k) = 1 / 2 := by
  -- choose the representative in [-1, 1)
  set n := ⌈(x - 1) / 2⌉ with hn
  have h1 : (n : ℝ) < (x - 1) / 2 + 1 := Int.ceil_lt_add_one _
  have h2 : (x - 1) / 2 ≤ n := Int.le_ceil _
  set y := x - 2 * n with hy
  have hy1 : -1 ≤ y := by linarith
  have hy2 : y ≤ 1 := by linarith
  have hsub : Function.support (fun k : ℤ => delta (x + 2 * k)) ⊆
      ↑({-n - 1, -n, -n + 1} : Finset ℤ) := by
    intro k hk
    by_contra hc
    apply hk
    simp only [Finset.coe_insert, Finset.coe_singleton, Set.mem_insert_iff, Set.mem_singleton_iff, not_or] at hc
    apply C33_support
    have hcase : k ≤ -n - 2 ∨ -n + 2 ≤ k := by omega
    rcases hcase with h | h
    · have : (k : ℝ) ≤ -n - 2 := by exact_mod_cast h
      rw [abs_of_nonpos (by linarith)]; linarith
    · have : (-n + 2 : ℝ) ≤ k := by exact_mod_cast h
      rw [abs_of_nonneg (by linarith)]; linarith
  rw [finsum_eq_sum_of_support_subset _ hsub,
    Finset.sum_insert (by simp only [Finset.mem_insert, Finset.mem_singleton]; omega),
    Finset.sum_insert (by simp only [Finset.mem_singleton]; omega), Finset.sum_singleton]
  push_cast
  have e1 : x + 2 * (-(n : ℝ) - 1) = y - 2 := by rw [hy]; ring
  have e2 : x + 2 * (-(n : ℝ)) = y := by rw [hy]; ring
  have e3 : x + 2 * (-(n : ℝ) + 1) = y + 2 := by rw [hy]; ring
  rw [e1, e2, e3]
  rcases le_total y 0 with h | h
  · obtain ⟨a, b, c, d⟩ := delta_translates hy1 h
    have : delta (y - 2) = 0 := C33_support _ (by rw [abs_of_nonpos (by linarith)]; linarith)
    rw [this, b, d]; ring
  · obtain ⟨a, b, c, d⟩ := delta_translates (x := y - 1) (by linarith) (by linarith)
    have : delta (y + 2) = 0 := C33_support _ (by rw [abs_of_nonneg (by linarith)]; linarith)
    have e : y - 1 - 1 = y - 2 := by ring
    have e' : y - 1 + 1 = y := by ring
    rw [e] at a; rw [e'] at c
    rw [this, a, c]; ring

/-- Non-vacuity: values at -1, 0. -/
example : delta 0 = 1 / 2 ∧ delta (-1) = 1 / 4 ∧ delta 1 = 1 / 4 := by
  have h0 := (delta_translates (x := 0) (by norm_num) le_rfl)
  simp only at h0
  have e : √(2 - (2 * 0 + 1) ^ 2 : ℝ) = 1 := by
    rw [show (2 - (2 * 0 + 1) ^ 2 : ℝ) = 1 by norm_num, sqrt_one]
  rw [e] at h0
  obtain ⟨a, b, c, -⟩ := h0
  have e1 : (0 : ℝ) - 1 = -1 := by norm_num
  rw [e1] at a
  rw [zero_add] at c
  exact ⟨by rw [b]; norm_num, by rw [a]; norm_num, by rw [c]; norm_num⟩

/-! ## Cutoff -/

theorem cutoff_abs (x : ℝ) : cutoff x = cutoff |x| := by unfold cutoff; rw [abs_abs]

/-- **C34 (plateaus).** One up to the inner radius 5, zero from the outer radius 7 on; even. -/
theorem C34_plateaus (x : ℝ) : (|x| ≤ 5 → cutoff x = 1) ∧ (7 ≤ |x| → cutoff x = 0) ∧ cutoff (-x) = cutoff x := by
  refine ⟨?_, ?_, ?_⟩
  · intro h
    simp only [cutoff]
    rcases lt_or_eq_of_le h with h | h
    · rw [if_pos h]
    · rw [h]; norm_num
  · intro h
    simp only [cutoff]
    rw [if_neg (by linarith), if_neg (by linarith)]
  · unfold cutoff; rw [abs_neg]

theorem cutoff_mid {x : ℝ} (h1 : 5 ≤ |x|) (h2 : |x| ≤ 7) :
    cutoff x = (|x| - 7) ^ 2 * (2 * |x| - 8) / 8 := by
  simp only [cutoff]
  rw [if_neg (by linarith)]
  rcases lt_or_eq_of_le h2 with h | h
  · rw [if_pos h]; ring
  · rw [if_neg (by linarith), h]; ring

/-- **C34 (nonincreasing).** In the distance from the origin. -/
theorem C34_antitone (x y : ℝ) (h : |x| ≤ |y|) : cutoff y ≤ cutoff x := by
  have mono : ∀ a b : ℝ, 5 ≤ a → a ≤ b → b ≤ 7 → (b - 7) ^ 2 * (2 * b - 8) ≤ (a - 7) ^ 2 * (2 * a - 8) := by
    intro a b h5 hab h7
    -- with u = 7-a ≥ v = 7-b: v²(6-2v) ≤ u²(6-2u) on [0,2]
    have hfac : (a - 7) ^ 2 * (2 * a - 8) - (b - 7) ^ 2 * (2 * b - 8)
        = 2 * ((7 - a) - (7 - b)) * (3 * ((7 - a) + (7 - b)) - ((7 - a) ^ 2 + (7 - a) * (7 - b) + (7 - b) ^ 2)) := by
      ring
    have hpos : 0 ≤ 3 * ((7 - a) + (7 - b)) - ((7 - a) ^ 2 + (7 - a) * (7 - b) + (7 - b) ^ 2) := by
      have hu : 0 ≤ 7 - a := by linarith
      have hv : 0 ≤ 7 - b := by linarith
      nlinarith [mul_nonneg hu (by linarith : (0:ℝ) ≤ a - 5), mul_nonneg hv (by linarith : (0:ℝ) ≤ b - 5),
        mul_nonneg hu hv, mul_nonneg hu (by linarith : (0:ℝ) ≤ b - 5), mul_nonneg hv (by linarith : (0:ℝ) ≤ a - 5)]
    have := mul_nonneg (mul_nonneg (by norm_num : (0:ℝ) ≤ 2) (by linarith : 0 ≤ (7 - a) - (7 - b))) hpos
    linarith
  rcases le_total 7 |y| with hy | hy
  · rw [(C34_plateaus y).2.1 hy]
    rcases le_total 7 |x| with hx | hx
    · rw [(C34_plateaus x).2.1 hx]
    · rcases le_total |x| 5 with h5 | h5
      · rw [(C34_plateaus x).1 h5]; norm_num
      · rw [cutoff_mid h5 hx]
        have : 0 ≤ 2 * |x| - 8 := by linarith
        positivity
  · rcases le_total |y| 5 with h5 | h5
    · rw [(C34_plateaus y).1 h5, (C34_plateaus x).1 (by linarith)]
    · rw [cutoff_mid h5 hy]
      rcases le_total |x| 5 with hx | hx
      · rw [(C34_plateaus x).1 hx]
        have := mono 5 |y| le_rfl h5 hy
        norm_num at this
        linarith
      · rw [cutoff_mid hx (by linarith)]
        have := mono |x| |y| hx h hy
        linarith

/-- **C34 (range).** -/
theorem C34_range (x : ℝ) : 0 ≤ cutoff x ∧ cutoff x ≤ 1 := by
  constructor
  · rcases le_total |x| 7 with h | h
    · have h7 : cutoff 7 = 0 := (C34_plateaus 7).2.1 (by rw [abs_of_pos (by norm_num)])
      rw [← h7]; exact C34_antitone x 7 (by rw [abs_of_pos (show (0:ℝ) < 7 by norm_num)]; exact h)
    · rw [(C34_plateaus x).2.1 h]
  · have h0 : cutoff 0 = 1 := (C34_plateaus 0).1 (by norm_num)
    rw [← h0]; exact C34_antitone 0 x (by simp)

/-- **C34 (continuous).** -/
theorem C34_continuous : Continuous cutoff := by
  have e : cutoff = fun x => if |x| ≤ 5 then (1 : ℝ) else if |x| ≤ 7 then (|x| - 7) ^ 2 * (2 * |x| - 8) / 8 else 0 := by
    funext x
    split
    · exact (C34_plateaus x).1 ‹_›
    · split
      · exact cutoff_mid (by linarith) ‹_›
      · exact (C34_plateaus x).2.1 (by linarith)
  rw [e]
  refine continuous_const.if_le ?_ (by fun_prop) continuous_const ?_
  · refine Continuous.if_le (by fun_prop) continuous_const (by fun_prop) continuous_const ?_
    intro x h; rw [h]; norm_num
  · intro x h; rw [h]; norm_num

/-- Non-vacuity: a value strictly between. -/
example : cutoff 6 = 1 / 2 := by
  rw [cutoff_mid (by rw [abs_of_pos] <;> norm_num) (by rw [abs_of_pos] <;> norm_num), abs_of_pos (by norm_num)]
  norm_num

end Verif.LevelSet
