import Verif.LevelSet.Heaviside
import Mathlib.Analysis.Real.Pi.Bounds
import Mathlib.Analysis.SpecialFunctions.Trigonometric.DerivHyp
import Mathlib.Analysis.SpecialFunctions.Artanh
import Mathlib.Algebra.BigOperators.Ring.Finset
import Mathlib.Algebra.Order.BigOperators.Ring.Finset

/-!
# C35: nodal Heaviside values (`compute_heaviside`, source/level_set_okz.cc:477-540, identical in
source/level_set_okz_matrix.cc:844-906), C31: material fields
-/

namespace Verif.LevelSet

open Real

/-- The cutoff of source/level_set_okz.cc:484. -/
noncomputable def tanh2 : ℝ := tanh 2

/-- Lines 509-516: signed distance attributed to a level set value (in units of the interface width). -/
noncomputable def dist (c : ℝ) : ℝ :=
  if c < -tanh2 then -3 else if tanh2 < c then 3 else log ((1 + c) / (1 - c))

/-- Lines 508-526: nodal value in a cell that is considered; `eps`, `sub` are the parameters `epsilon` and
`concentration_subdivisions`. -/
noncomputable def nodal (eps sub c : ℝ) : ℝ := heaviside (dist c * (eps * 2 / sub))

/-- A cell is its list of dof indices (line 496). -/
abbrev Cell := List ℕ

open Classical in
/-- Lines 493-537: processing one cell with level set values `c`. -/
noncomputable def processCell (eps sub : ℝ) (c : ℕ → ℝ) (h : ℕ → ℝ) (cell : Cell) : ℕ → ℝ :=
  if ∃ i ∈ cell, |c i| < tanh2 then
    cell.foldl (fun h i => Function.update h i (nodal eps sub (c i))) h
  else
    match cell with
    | [] => h
    | i0 :: _ => cell.foldl (fun h i => Function.update h i (if c i0 < 0 then 0 else 1)) h

/-- The loop over the locally owned cells, lines 490-538. -/
noncomputable def computeHeaviside (eps sub : ℝ) (c : ℕ → ℝ) (cells : List Cell) (h : ℕ → ℝ) : ℕ → ℝ :=
  cells.foldl (processCell eps sub c) h

/-- The parameters resolve the cutoff: `3 epsilon ≥ concentration_subdivisions`. -/
def WideEnough (eps sub : ℝ) : Prop := 0 < sub ∧ sub ≤ 3 * eps

/-- Cells away from the interface have values of one sign. -/
def NoJump (c : ℕ → ℝ) (cells : List Cell) : Prop :=
  ∀ cell ∈ cells, (∀ i ∈ cell, tanh2 ≤ |c i|) → ∀ i ∈ cell, ∀ j ∈ cell, (c i < 0 ↔ c j < 0)

theorem tanh2_pos : 0 < tanh2 := by
  have := tanh_injective.ne (show (2 : ℝ) ≠ 0 by norm_num)
  have h : tanh 2 = sinh 2 / cosh 2 := tanh_eq_sinh_div_cosh 2
  unfold tanh2
  rw [h]
  exact div_pos (Real.sinh_pos_iff.2 (by norm_num)) (cosh_pos 2)

theorem tanh2_lt_one : tanh2 < 1 := (tanh_bijOn.mapsTo (Set.mem_univ 2)).2

theorem log_eq_artanh {c : ℝ} (h1 : -tanh2 ≤ c) (h2 : c ≤ tanh2) :
    log ((1 + c) / (1 - c)) = 2 * artanh c := by
  rw [artanh_eq_half_log ⟨by linarith [tanh2_lt_one], by linarith [tanh2_lt_one]⟩]; ring

theorem artanh_tanh2 : artanh tanh2 = 2 := artanh_tanh 2

theorem artanh_neg_tanh2 : artanh (-tanh2) = -2 := by
  have : -tanh2 = tanh (-2) := by unfold tanh2; rw [tanh_neg]
  rw [this, artanh_tanh]

theorem nodal_far_pos {eps sub c : ℝ} (hw : WideEnough eps sub) (hc : tanh2 ≤ c) : nodal eps sub c = 1 := by
  obtain ⟨h0, h1⟩ := hw
  have hf : 2 / 3 ≤ eps * 2 / sub := by rw [le_div_iff₀ h0]; linarith
  apply (C32_plateaus _).2
  unfold dist
  rw [if_neg (by linarith [tanh2_pos])]
  split
  · linarith
  · rw [log_eq_artanh (by linarith [tanh2_pos]) (by linarith)]
    have : c = tanh2 := by linarith
    rw [this, artanh_tanh2]; linarith

theorem nodal_far_neg {eps sub c : ℝ} (hw : WideEnough eps sub) (hc : c ≤ -tanh2) : nodal eps sub c = 0 := by
  obtain ⟨h0, h1⟩ := hw
  have hf : 2 / 3 ≤ eps * 2 / sub := by rw [le_div_iff₀ h0]; linarith
  apply (C32_plateaus _).1
  unfold dist
  split
  · linarith
  · rw [if_neg (by linarith [tanh2_pos]), log_eq_artanh (by linarith) (by linarith [tanh2_pos])]
    have : c = -tanh2 := by linarith
    rw [this, artanh_neg_tanh2]; linarith

/-- **C35 (monotone, partial).** With `3 epsilon ≥ concentration_subdivisions` the nodal Heaviside value is a
nondecreasing function of the level set value, 0 below `-tanh 2`, 1 above `tanh 2`, and in `[0,1]`.  Missing:
smaller `epsilon`, where the claim is false (`C35_not_monotone`). -/
theorem C35_monotone_partial (eps sub : ℝ) (hw : WideEnough eps sub) :
    Monotone (nodal eps sub) ∧ (∀ c, tanh2 ≤ c → nodal eps sub c = 1) ∧
    (∀ c, c ≤ -tanh2 → nodal eps sub c = 0) ∧ ∀ c, 0 ≤ nodal eps sub c ∧ nodal eps sub c ≤ 1 := by
  refine ⟨?_, fun c => nodal_far_pos hw, fun c => nodal_far_neg hw, fun c => C32_range _⟩
  intro a b hab
  rcases le_total b (-tanh2) with hb | hb
  · rw [nodal_far_neg hw hb, nodal_far_neg hw (hab.trans hb)]
  rcases le_total tanh2 a with ha | ha
  · rw [nodal_far_pos hw ha, nodal_far_pos hw (ha.trans hab)]
  rcases le_total a (-tanh2) with ha' | ha'
  · rw [nodal_far_neg hw ha']; exact (C32_range _).1
  rcases le_total tanh2 b with hb' | hb'
  · rw [nodal_far_pos hw hb']; exact (C32_range _).2
  unfold nodal
  apply C32_monotone
  have hpos : 0 ≤ eps * 2 / sub := div_nonneg (by linarith [hw.1, hw.2]) hw.1.le
  apply mul_le_mul_of_nonneg_right _ hpos
  unfold dist
  rw [if_neg (by linarith), if_neg (by linarith), if_neg (by linarith), if_neg (by linarith),
    log_eq_artanh ha' ha, log_eq_artanh hb hb']
  have := artanh_le_artanh (by linarith [tanh2_lt_one] : -1 < a) (by linarith [tanh2_lt_one] : b < 1) hab
  linarith

theorem foldl_update (f : ℕ → ℝ) (cell : List ℕ) (h : ℕ → ℝ) (j : ℕ) :
    cell.foldl (fun h i => Function.update h i (f i)) h j = if j ∈ cell then f j else h j := by
  induction cell generalizing h with
  | nil => simp
  | cons i cell ih =>
    rw [List.foldl_cons, ih]
    by_cases hj : j ∈ cell
    · simp [hj]
    · by_cases hij : j = i
      · subst hij; simp [hj]
      · simp [hj, hij]

theorem processCell_value (eps sub : ℝ) (hw : WideEnough eps sub) (c : ℕ → ℝ) (h : ℕ → ℝ) (cell : Cell)
    (hn : NoJump c [cell]) (j : ℕ) :
    processCell eps sub c h cell j = if j ∈ cell then nodal eps sub (c j) else h j := by
  unfold processCell
  split
  · exact foldl_update (fun i => nodal eps sub (c i)) cell h j
  · rename_i hne
    push Not at hne
    cases cell with
    | nil => simp
    | cons i0 rest =>
      simp only
      rw [foldl_update (fun _ => if c i0 < 0 then 0 else 1)]
      by_cases hj : j ∈ i0 :: rest
      · rw [if_pos hj, if_pos hj]
        have hs := hn _ (by simp) hne i0 (by simp) j hj
        have ha := hne j hj
        by_cases h0 : c i0 < 0
        · rw [if_pos h0, nodal_far_neg hw]
          have := hs.1 h0
          rw [abs_of_neg this] at ha; linarith
        · rw [if_neg h0, nodal_far_pos hw]
          have : 0 ≤ c j := not_lt.1 (fun h => h0 (hs.2 h))
          rwa [abs_of_nonneg this] at ha
      · rw [if_neg hj, if_neg hj]

/-- **C35 (order independence, partial).** With `3 epsilon ≥ concentration_subdivisions` and no sign jump
within a cell away from the interface, the value at each dof is the same function of the level set value at
this dof, for every list of cells in any order and multiplicity.  Missing: see the counterexamples. -/
theorem C35_order_independent_partial (eps sub : ℝ) (hw : WideEnough eps sub) (c : ℕ → ℝ)
    (cells : List Cell) (hn : NoJump c cells) (h : ℕ → ℝ) (j : ℕ) (hj : ∃ cell ∈ cells, j ∈ cell) :
    computeHeaviside eps sub c cells h j = nodal eps sub (c j) := by
  have key : ∀ (cells : List Cell) (h : ℕ → ℝ), NoJump c cells →
      computeHeaviside eps sub c cells h j =
        if ∃ cell ∈ cells, j ∈ cell then nodal eps sub (c j) else h j := by
    intro cells
    induction cells with
    | nil => intro h _; simp [computeHeaviside]
    | cons cell cells ih =>
      intro h hn
      have h1 := ih (processCell eps sub c h cell) fun cl hcl => hn cl (by simp [hcl])
      have h2 := processCell_value eps sub hw c h cell (fun cl hcl => by
        rw [List.mem_singleton] at hcl; subst hcl; exact hn cl (by simp)) j
      rw [show computeHeaviside eps sub c (cell :: cells) h =
        computeHeaviside eps sub c cells (processCell eps sub c h cell) from rfl, h1, h2]
      by_cases ha : ∃ cell ∈ cells, j ∈ cell
      · rw [if_pos ha, if_pos (by obtain ⟨x, hx, hjx⟩ := ha; exact ⟨x, by simp [hx], hjx⟩)]
      · rw [if_neg ha]
        by_cases hb : j ∈ cell
        · rw [if_pos hb, if_pos ⟨cell, by simp, hb⟩]
        · rw [if_neg hb, if_neg]
          rintro ⟨x, hx, hjx⟩
          rcases List.mem_cons.1 hx with rfl | hx
          · exact hb hjx
          · exact ha ⟨x, hx, hjx⟩
  rw [key cells h hn, if_pos hj]

theorem heaviside_three_halves : heaviside (3 / 2) < 1 := by
  have : heaviside (-(3 / 2)) = 1 / 16 - π / 64 := by
    rw [heaviside, if_neg (by norm_num), hvNeg_left (by norm_num) (by norm_num)]
    unfold hvLeft
    rw [show (-(3 / 2) + 3 / 2 : ℝ) = 0 by norm_num, mul_zero, arcsin_zero,
      show (-3 - 2 * (-(3 / 2)) : ℝ) = 0 by norm_num]
    ring
  rw [C32_symmetry] at this
  have := pi_lt_d2
  linarith

theorem nodal_one_small : nodal 1 4 1 < 1 := by
  unfold nodal dist
  rw [if_neg (by linarith [tanh2_pos]), if_pos tanh2_lt_one]
  have : (3 * (1 * 2 / 4) : ℝ) = 3 / 2 := by norm_num
  rw [this]
  exact heaviside_three_halves

/-- **C35 (counterexample: monotonicity).** For `epsilon = 1`, `concentration_subdivisions = 4` the value at the
cutoff exceeds the value far inside the phase. -/
theorem C35_not_monotone : ∃ c c' : ℝ, c < c' ∧ nodal 1 4 c' < nodal 1 4 c := by
  refine ⟨tanh2, 1, tanh2_lt_one, ?_⟩
  have h : nodal 1 4 tanh2 = 1 := by
    unfold nodal dist
    rw [if_neg (by linarith [tanh2_pos]), if_neg (lt_irrefl _),
      log_eq_artanh (by linarith [tanh2_pos]) le_rfl, artanh_tanh2]
    exact (C32_plateaus _).2 (by norm_num)
  rw [h]
  exact nodal_one_small

/-- **C35 (counterexample: visiting order).** For the same parameters the value at a dof shared by a cell at
the interface and a cell away from it depends on which one is visited last. -/
theorem C35_order_matters :
    ∃ (c : ℕ → ℝ) (A B : Cell) (h : ℕ → ℝ), NoJump c [A, B] ∧
      computeHeaviside 1 4 c [A, B] h 1 ≠ computeHeaviside 1 4 c [B, A] h 1 := by
  have hc : ∃ i ∈ [0, 1], |(fun i : ℕ => if i = 0 then (0 : ℝ) else 1) i| < tanh2 := ⟨0, by simp, by simpa using tanh2_pos⟩
  have hc' : ¬ ∃ i ∈ [1, 2], |(fun i : ℕ => if i = 0 then (0 : ℝ) else 1) i| < tanh2 := by
    rintro ⟨i, hi, h⟩
    have : i ≠ 0 := by rintro rfl; simp at hi
    simp only [this, if_false, abs_one] at h
    linarith [tanh2_lt_one]
  refine ⟨fun i => if i = 0 then 0 else 1, [0, 1], [1, 2], fun _ => 0, ?_, ?_⟩
  · intro cell hcell _ i _ j _
    constructor <;> intro h <;> simp only at h <;> split at h <;> norm_num at h
  · simp only [computeHeaviside, List.foldl_cons, List.foldl_nil]
    have p1 : ∀ h : ℕ → ℝ, processCell 1 4 (fun i => if i = 0 then 0 else 1) h [0, 1] 1 = nodal 1 4 1 := by
      intro h
      unfold processCell
      rw [if_pos hc, foldl_update (fun i => nodal 1 4 (if i = 0 then 0 else 1))]
      simp
    have p2 : ∀ h : ℕ → ℝ, processCell 1 4 (fun i => if i = 0 then 0 else 1) h [1, 2] 1 = 1 := by
      intro h
      unfold processCell
      rw [if_neg hc']
      simp
    rw [p1, p2]
    exact nodal_one_small.ne'

/-- **C35 (counterexample: sign jump).** In a cell away from the interface only the first value decides, so a
value of -1 after a value of 1 is given Heaviside value 1. -/
theorem C35_jump_uses_first_value (eps sub : ℝ) :
    computeHeaviside eps sub (fun i => if i = 0 then 1 else -1) [[0, 1]] (fun _ => 0) 1 = 1 := by
  simp only [computeHeaviside, List.foldl_cons, List.foldl_nil]
  unfold processCell
  rw [if_neg]
  · simp
  · rintro ⟨i, hi, h⟩
    by_cases h0 : i = 0
    · simp [h0] at h; linarith [tanh2_lt_one]
    · simp [h0] at h; linarith [tanh2_lt_one]

/-- Non-vacuity: parameters of the test suite (`epsilon = 1.5`, three subdivisions) and an interface cell next to
a far cell. -/
example : WideEnough (3 / 2) 3 ∧ NoJump (fun i => if i = 0 then 0 else 1) [[0, 1], [1, 2]] := by
  refine ⟨⟨by norm_num, by norm_num⟩, ?_⟩
  intro cell hcell _ i _ j _
  constructor <;> intro h <;> simp only at h <;> split at h <;> norm_num at h

/-! ## C31: material fields -/

/-- Mixture rule: `density + density_diff * h` (and the same for viscosity). -/
def mix (a d h : ℝ) : ℝ := a + d * h

/-- Lies between the values `a` and `a + d` of the two phases. -/
def Between (a d v : ℝ) : Prop := min a (a + d) ≤ v ∧ v ≤ max a (a + d)

theorem mix_between (a d h : ℝ) (h0 : 0 ≤ h) (h1 : h ≤ 1) : Between a d (mix a d h) := by
  unfold Between mix
  rcases le_total 0 d with hd | hd
  · rw [min_eq_left (by linarith), max_eq_right (by linarith)]
    exact ⟨by nlinarith, by nlinarith⟩
  · rw [min_eq_right (by linarith), max_eq_left (by linarith)]
    exact ⟨by nlinarith, by nlinarith⟩

/-- Level set solver: the nodal Heaviside values are interpolated to a quadrature point with the shape function
values of `FE_Q_iso_Q1` (source/level_set_okz.cc:348-363; faces: source/level_set_base.cc:436-446). -/
noncomputable def levelSetMaterial {ι : Type*} (s : Finset ι) (shape : ι → ℝ) (a d : ℝ) (H : ι → ℝ) : ℝ :=
  mix a d (∑ i ∈ s, shape i * H i)

/-- Phase field solver, source/phase_field_local.cc:86-94 and source/phase_field.cc:226-231. -/
noncomputable def phaseFieldMaterial (a d c : ℝ) : ℝ := mix a d (min 1 (max 0 (1 / 2 * (c + 1))))

/-- Front tracking, include/adaflo/sharp_interface.h:641-648: the indicator is the truth value of `within`. -/
noncomputable def frontTrackingMaterial (a d : ℝ) (inside : Bool) : ℝ := mix a d (if inside then 1 else 0)

/-- Mixed level set solver, include/adaflo/sharp_interface.h:967-973, and the matrix-based level set solver without
`surface_tension_from_heaviside`, source/level_set_okz_matrix.cc:272-279: no clamping. -/
noncomputable def mixedMaterial (a d c : ℝ) : ℝ := mix a d ((c + 1) / 2)

/-- **C31 (level set).** Density and viscosity of the level set solver lie between the phase values for all level
set values at the nodes, for nonnegative shape functions that sum to one. -/
theorem C31_level_set_partial {ι : Type*} (s : Finset ι) (shape : ι → ℝ) (hs : ∀ i ∈ s, 0 ≤ shape i)
    (h1 : ∑ i ∈ s, shape i = 1) (a d eps sub : ℝ) (dof : ι → ℕ) (c : ℕ → ℝ) (cells : List Cell) (h : ℕ → ℝ)
    (hh : ∀ i, 0 ≤ h i ∧ h i ≤ 1) :
    Between a d (levelSetMaterial s shape a d fun i => computeHeaviside eps sub c cells h (dof i)) := by
  have hr : ∀ j, 0 ≤ computeHeaviside eps sub c cells h j ∧ computeHeaviside eps sub c cells h j ≤ 1 := by
    clear hs h1
    induction cells generalizing h with
    | nil => exact hh
    | cons cell cells ih =>
      apply ih
      intro j
      unfold processCell
      split
      · rw [foldl_update (fun i => nodal eps sub (c i))]
        split
        · exact C32_range _
        · exact hh j
      · cases cell with
        | nil => exact hh j
        | cons i0 rest =>
          simp only
          rw [foldl_update (fun _ => if c i0 < 0 then 0 else 1)]
          split
          · split <;> norm_num
          · exact hh j
  apply mix_between
  · exact Finset.sum_nonneg fun i hi => mul_nonneg (hs i hi) (hr _).1
  · rw [← h1]
    exact Finset.sum_le_sum fun i hi => mul_le_of_le_one_right (hs i hi) (hr _).2

/-- **C31 (phase field).** For every concentration including over- and undershoots. -/
theorem C31_phase_field (a d c : ℝ) : Between a d (phaseFieldMaterial a d c) :=
  mix_between _ _ _ (le_min zero_le_one (le_max_left _ _)) (min_le_left _ _)

/-- **C31 (front tracking).** The field takes only the two phase values. -/
theorem C31_front_tracking (a d : ℝ) (inside : Bool) :
    Between a d (frontTrackingMaterial a d inside) ∧
      (frontTrackingMaterial a d inside = a ∨ frontTrackingMaterial a d inside = a + d) := by
  constructor
  · apply mix_between <;> split <;> norm_num
  · cases inside <;> simp [frontTrackingMaterial, mix]

/-- **C31 (pure phases).** Every solver assigns the first value to the negative phase (outside) and the first value plus the
difference to the positive phase (inside): where the indicator is saturated the field equals a phase value exactly, and in
between it interpolates linearly. -/
theorem C31_pure_phases (a d : ℝ) :
    (∀ {ι : Type} (s : Finset ι) (shape H : ι → ℝ), ∑ i ∈ s, shape i = 1 →
      ((∀ i ∈ s, H i = 0) → levelSetMaterial s shape a d H = a) ∧
      ((∀ i ∈ s, H i = 1) → levelSetMaterial s shape a d H = a + d)) ∧
    (∀ c, c ≤ -1 → phaseFieldMaterial a d c = a) ∧ (∀ c, 1 ≤ c → phaseFieldMaterial a d c = a + d) ∧
    (∀ c, -1 ≤ c → c ≤ 1 → phaseFieldMaterial a d c = (1 - c) / 2 * a + (1 + c) / 2 * (a + d)) ∧
    frontTrackingMaterial a d false = a ∧ frontTrackingMaterial a d true = a + d ∧
    (∀ c, mixedMaterial a d c = (1 - c) / 2 * a + (1 + c) / 2 * (a + d)) := by
  refine ⟨?_, ?_, ?_, ?_, ?_, ?_, ?_⟩
  · intro ι s shape H h1
    constructor
    · intro h
      unfold levelSetMaterial mix
      rw [Finset.sum_eq_zero fun i hi => by rw [h i hi, mul_zero]]; ring
    · intro h
      unfold levelSetMaterial mix
      rw [Finset.sum_congr rfl fun i hi => by rw [h i hi, mul_one], h1]; ring
  · intro c hc
    unfold phaseFieldMaterial mix
    rw [max_eq_left (by linarith), min_eq_right zero_le_one]; ring
  · intro c hc
    unfold phaseFieldMaterial mix
    rw [max_eq_right (by linarith), min_eq_left (by linarith)]; ring
  · intro c h1 h2
    unfold phaseFieldMaterial mix
    rw [max_eq_right (by linarith), min_eq_right (by linarith)]; ring
  · simp [frontTrackingMaterial, mix]
  · simp [frontTrackingMaterial, mix]
  · intro c; unfold mixedMaterial mix; ring

/-- **C31 (counterexample).** The unclamped variants leave the interval for over- or undershoots and can
produce negative densities. -/
theorem C31_unclamped_leaves_range :
    ∃ a d c : ℝ, 0 < a ∧ 0 < a + d ∧ ¬ Between a d (mixedMaterial a d c) ∧ mixedMaterial a d c < 0 := by
  refine ⟨1, 999, -101 / 100, by norm_num, by norm_num, ?_, ?_⟩
  · unfold Between mixedMaterial mix; norm_num
  · unfold mixedMaterial mix; norm_num

/-- Non-vacuity: linear shape functions at the midpoint. -/
example : (∀ i ∈ (Finset.univ : Finset (Fin 2)), (0 : ℝ) ≤ (fun _ => 1 / 2) i) ∧
    ∑ i ∈ (Finset.univ : Finset (Fin 2)), (fun _ => (1 : ℝ) / 2) i = 1 := by
  refine ⟨fun i _ => by norm_num, by simp⟩

end Verif.LevelSet
