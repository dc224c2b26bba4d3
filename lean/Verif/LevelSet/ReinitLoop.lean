import Mathlib.Data.Real.Basic
import Mathlib.Data.List.Basic
import Mathlib.Tactic.NormNum
import Mathlib.Tactic.Linarith

/-!
# C49: pseudo-time loop of the reinitialization
(source/level_set_okz_reinitialization.cc:255-362, source/level_set_okz_matrix.cc:907-1110)

The linear solves are an oracle: `upd tau` is the norm of the increment computed in pseudo-time step `tau`.
-/

namespace Verif.LevelSet

/-! ## Model -/

/-- What happens in one pseudo-time step: number of the step, whether it is diffusive only, whether the normal is computed
before the step, and the call of `reinitialize` in which the normal used by the step was evaluated. -/
structure RStep where
  tau : ℕ
  diffuseOnly : Bool
  computesNormal : Bool
  normalFrom : ℕ
  deriving DecidableEq

/-- Loop of level_set_okz_reinitialization.cc:291-355. `call` identifies the call, `stored` the call in which
`evaluated_normal` was filled last (it is refilled in the right hand side if `first_reinit_step`, lines 150-158). The second
argument is the number of remaining iterations, `D` is `actual_diff_steps`. -/
noncomputable def reinitLoop (call D : ℕ) (upd : ℕ → ℝ) : ℕ → ℕ → ℕ → List RStep × ℕ
  | 0, _, stored => ([], stored)
  | k + 1, tau, stored =>
    let first := decide (tau = D)
    let stored := if first then call else stored
    let s : RStep := ⟨tau, decide (tau < D), first, stored⟩
    if upd tau < 1 / 1000000 then ([s], stored)
    else
      let r := reinitLoop call D upd k (tau + 1) stored
      (s :: r.1, r.2)

/-- `actual_diff_steps`, lines 283-286 -/
noncomputable def actualDiffSteps (diffSteps : ℕ) (range : ℝ × ℝ) : ℕ :=
  if range.1 < -(102 / 100) ∨ range.2 > 102 / 100 then diffSteps + 3 else diffSteps

/-- `reinitialize`, lines 255-362: steps and the new state of `evaluated_normal` -/
noncomputable def reinitialize (call stabSteps diffSteps : ℕ) (range : ℝ × ℝ) (upd : ℕ → ℝ) (stored : ℕ) :
    List RStep × ℕ :=
  reinitLoop call (actualDiffSteps diffSteps range) upd (actualDiffSteps diffSteps range + stabSteps) 0 stored

/-- Matrix-based solver, level_set_okz_matrix.cc:934-1108: whether each step is diffusive only. The flag `diffuse_only` is a
variable declared before the loop (line 929) that is set (line 939-940) but never reset. -/
noncomputable def matrixLoop (D : ℕ) (upd : ℕ → ℝ) : ℕ → ℕ → Bool → List Bool
  | 0, _, _ => []
  | k + 1, tau, diffuseOnly =>
    let diffuseOnly := if tau < D then true else diffuseOnly
    if upd tau < 1 / 1000000 then [diffuseOnly] else diffuseOnly :: matrixLoop D upd k (tau + 1) diffuseOnly

noncomputable def matrixReinitialize (stabSteps diffSteps : ℕ) (upd : ℕ → ℝ) : List Bool :=
  matrixLoop diffSteps upd (diffSteps + stabSteps) 0 false

/-! ## C49 -/

theorem loop_length (call D : ℕ) (upd : ℕ → ℝ) (n tau stored : ℕ) :
    let r := (reinitLoop call D upd n tau stored).1
    r.length ≤ n ∧ (0 < n → 0 < r.length) ∧
    (r.length < n → 0 < r.length ∧ upd (tau + r.length - 1) < 1 / 1000000) ∧
    (∀ j, j + 1 < r.length → 1 / 1000000 ≤ upd (tau + j)) := by
  induction n generalizing tau stored with
  | zero => simp [reinitLoop]
  | succ k ih =>
    simp only [reinitLoop]
    by_cases hu : upd tau < 1 / 1000000
    · simp only [if_pos hu]
      refine ⟨by simp, by simp, fun _ => ⟨by simp, by simpa using hu⟩, fun j hj => by simp at hj⟩
    · simp only [if_neg hu]
      have h := ih (tau + 1) (if decide (tau = D) then call else stored)
      simp only at h
      obtain ⟨h1, h2, h3, h4⟩ := h
      refine ⟨by simpa using h1, by simp, ?_, ?_⟩
      · intro hlt
        simp only [List.length_cons, Nat.add_lt_add_iff_right] at hlt ⊢
        obtain ⟨ha, hb⟩ := h3 hlt
        refine ⟨by omega, ?_⟩
        have e : tau + ((reinitLoop call D upd k (tau + 1) (if decide (tau = D) then call else stored)).1.length + 1) - 1 =
            tau + 1 + (reinitLoop call D upd k (tau + 1) (if decide (tau = D) then call else stored)).1.length - 1 := by omega
        rw [e]; exact hb
      · intro j hj
        rcases j with _ | j
        · simpa using hu
        · have := h4 j (by simpa using hj)
          have e : tau + (j + 1) = tau + 1 + j := by omega
          rw [e]; exact this

theorem loop_getElem (call D : ℕ) (upd : ℕ → ℝ) (n tau stored : ℕ) (hst : D < tau → stored = call) :
    let r := reinitLoop call D upd n tau stored
    (∀ j (hj : j < r.1.length), r.1[j].tau = tau + j ∧ r.1[j].diffuseOnly = decide (tau + j < D) ∧
      r.1[j].computesNormal = decide (tau + j = D) ∧ (D ≤ tau + j → r.1[j].normalFrom = call)) ∧
    r.2 = if D < tau + r.1.length then call else stored := by
  induction n generalizing tau stored with
  | zero =>
    simp only [reinitLoop, List.length_nil, add_zero]
    refine ⟨fun j hj => absurd hj (Nat.not_lt_zero j), ?_⟩
    by_cases h : D < tau
    · simp [h, hst h]
    · simp [h]
  | succ k ih =>
    simp only [reinitLoop]
    have hst' : D < tau + 1 → (if decide (tau = D) then call else stored) = call := by
      intro h
      by_cases he : tau = D
      · simp [he]
      · simp [he]; exact hst (by omega)
    have hnf : D ≤ tau → (if decide (tau = D) then call else stored) = call := fun h => hst' (by omega)
    by_cases hu : upd tau < 1 / 1000000
    · simp only [if_pos hu]
      refine ⟨?_, ?_⟩
      · intro j hj
        have : j = 0 := by simpa using hj
        subst this
        exact ⟨rfl, rfl, rfl, hnf⟩
      · simp only [List.length_singleton]
        by_cases h : D < tau + 1
        · rw [if_pos h, hst' h]
        · rw [if_neg h]; simp [show tau ≠ D by omega]
    · simp only [if_neg hu]
      obtain ⟨h1, h2⟩ := ih (tau + 1) (if decide (tau = D) then call else stored) hst'
      refine ⟨?_, ?_⟩
      · intro j hj
        rcases j with _ | j
        · exact ⟨rfl, rfl, rfl, hnf⟩
        · have := h1 j (by simpa using hj)
          have e : tau + (j + 1) = tau + 1 + j := by omega
          rw [e]; exact this
      · rw [h2, List.length_cons]
        have e : tau + 1 + (reinitLoop call D upd k (tau + 1) (if decide (tau = D) then call else stored)).1.length =
          tau + ((reinitLoop call D upd k (tau + 1) (if decide (tau = D) then call else stored)).1.length + 1) := by omega
        rw [e]
        by_cases hA : D < tau + ((reinitLoop call D upd k (tau + 1) (if decide (tau = D) then call else stored)).1.length + 1)
        · rw [if_pos hA, if_pos hA]
        · rw [if_neg hA, if_neg hA]
          have hne : tau ≠ D := by omega
          simp [hne]

/-- **C49 (steps).** `reinitialize` performs at most `diff_steps (+3) + stab_steps` steps, at least one unless there is none
to do; it stops early only after a step whose update is below the tolerance, and never continues after such a step.  The
first `actual_diff_steps` steps are diffusive, all others are stabilised. The normal is computed exactly once, just before
the first stabilised step, if that one is reached - otherwise not at all -, and every stabilised step uses the normal of
this call, never a stale one. Missing from the full statement: the normal is not computed in every call (see below). -/
theorem C49_steps_partial (call stabSteps diffSteps : ℕ) (range : ℝ × ℝ) (upd : ℕ → ℝ) (stored : ℕ) :
    let D := actualDiffSteps diffSteps range
    let r := reinitialize call stabSteps diffSteps range upd stored
    r.1.length ≤ D + stabSteps ∧ (0 < D + stabSteps → 0 < r.1.length) ∧
    (r.1.length < D + stabSteps → upd (r.1.length - 1) < 1 / 1000000) ∧
    (∀ j, j + 1 < r.1.length → 1 / 1000000 ≤ upd j) ∧
    (∀ j (hj : j < r.1.length), r.1[j].tau = j ∧ (r.1[j].diffuseOnly = true ↔ j < D) ∧
      (r.1[j].computesNormal = true ↔ j = D) ∧ (r.1[j].diffuseOnly = false → r.1[j].normalFrom = call)) ∧
    r.2 = if D < r.1.length then call else stored := by
  intro D r
  have hr : r = reinitLoop call D upd (D + stabSteps) 0 stored := rfl
  clear_value r
  subst hr
  obtain ⟨h1, h2, h3, h4⟩ := loop_length call D upd (D + stabSteps) 0 stored
  obtain ⟨g1, g2⟩ := loop_getElem call D upd (D + stabSteps) 0 stored (fun h => absurd h (by omega))
  refine ⟨h1, h2, ?_, ?_, ?_, ?_⟩
  · intro h; have := (h3 h).2; simpa using this
  · intro j hj; have := h4 j hj; simpa using this
  · intro j hj
    obtain ⟨a, b, c, d⟩ := g1 j hj
    simp only [Nat.zero_add] at a b c d
    refine ⟨a, ?_, ?_, ?_⟩
    · rw [b]; simp
    · rw [c]; simp
    · intro hf
      rw [b] at hf
      exact d (by simpa using hf)
  · simpa using g2

/-- number of added steps -/
theorem C49_extra_steps (diffSteps : ℕ) (range : ℝ × ℝ) :
    (actualDiffSteps diffSteps range = diffSteps + 3 ↔ range.1 < -(102 / 100) ∨ 102 / 100 < range.2) ∧
    (actualDiffSteps diffSteps range = diffSteps ↔ -(102 / 100) ≤ range.1 ∧ range.2 ≤ 102 / 100) := by
  unfold actualDiffSteps
  constructor
  · constructor
    · intro h; by_contra hc; rw [if_neg hc] at h; omega
    · intro h; exact if_pos h
  · constructor
    · intro h
      by_contra hc
      rw [if_pos] at h
      · omega
      · by_cases h1 : range.1 < -(102 / 100)
        · exact .inl h1
        · right; by_contra h2; exact hc ⟨not_lt.1 h1, not_lt.1 h2⟩
    · rintro ⟨h1, h2⟩
      rw [if_neg]
      rintro (h | h) <;> linarith

/-- **C49 is false in this form:** if the first diffusive step has a small update the call ends without any stabilised step
and without computing the normal; with `n_reinit_steps = 0` nothing is done. -/
theorem C49_normal_skipped :
    (reinitialize 7 5 10 (-1, 1) (fun _ => 0) 3) = ([⟨0, true, false, 3⟩], 3) ∧
    (∀ upd, reinitialize 7 0 0 (-1, 1) upd 3 = ([], 3)) := by
  constructor
  · norm_num [reinitialize, actualDiffSteps, reinitLoop]
  · intro upd; norm_num [reinitialize, actualDiffSteps, reinitLoop]

theorem matrixLoop_true (D : ℕ) (upd : ℕ → ℝ) (n tau : ℕ) : ∀ b ∈ matrixLoop D upd n tau true, b = true := by
  induction n generalizing tau with
  | zero => simp [matrixLoop]
  | succ k ih =>
    intro b hb
    simp only [matrixLoop, ite_self] at hb
    by_cases hu : upd tau < 1 / 1000000
    · simp only [if_pos hu, List.mem_singleton] at hb; exact hb
    · simp only [if_neg hu, List.mem_cons] at hb
      rcases hb with h | h
      · exact h
      · exact ih _ b h

/-- **C49 is false of the matrix-based solver:** as soon as diffusive steps are requested (`reinitialize(n, 10)` after an
excessive residual, level_set_base.cc:273) no stabilised step is performed at all; without diffusive steps all are
stabilised. -/
theorem C49_matrix_never_sharpens (stabSteps diffSteps : ℕ) (upd : ℕ → ℝ) :
    (0 < diffSteps → ∀ b ∈ matrixReinitialize stabSteps diffSteps upd, b = true) ∧
    (diffSteps = 0 → ∀ b ∈ matrixReinitialize stabSteps diffSteps upd, b = false) := by
  constructor
  · intro hd b hb
    obtain ⟨k, hk⟩ : ∃ k, diffSteps + stabSteps = k + 1 := ⟨diffSteps + stabSteps - 1, by omega⟩
    unfold matrixReinitialize at hb
    rw [hk] at hb
    simp only [matrixLoop, if_pos hd] at hb
    by_cases hu : upd 0 < 1 / 1000000
    · simp only [if_pos hu, List.mem_singleton] at hb; exact hb
    · simp only [if_neg hu, List.mem_cons] at hb
      rcases hb with h | h
      · exact h
      · exact matrixLoop_true _ _ _ _ b h
  · rintro rfl
    unfold matrixReinitialize
    generalize 0 + stabSteps = n
    have : ∀ tau, ∀ b ∈ matrixLoop 0 upd n tau false, b = false := by
      induction n with
      | zero => simp [matrixLoop]
      | succ k ih =>
        intro tau b hb
        simp only [matrixLoop, Nat.not_lt_zero, if_false] at hb
        by_cases hu : upd tau < 1 / 1000000
        · simp only [if_pos hu, List.mem_singleton] at hb; exact hb
        · simp only [if_neg hu, List.mem_cons] at hb
          rcases hb with h | h
          · exact h
          · exact ih _ b h
    exact this 0

/-- a call with overshoots: three diffusive and two stabilised steps, normal computed before the fourth -/
example : reinitialize 7 2 0 (-1, 2) (fun _ => 1) 3 =
    ([⟨0, true, false, 3⟩, ⟨1, true, false, 3⟩, ⟨2, true, false, 3⟩, ⟨3, false, true, 7⟩, ⟨4, false, false, 7⟩], 7) := by
  norm_num [reinitialize, actualDiffSteps, reinitLoop]
/-- steps that the matrix-based solver performs for `reinitialize(2, 1)` -/
example : matrixReinitialize 2 1 (fun _ => 1) = [true, true, true] := by
  norm_num [matrixReinitialize, matrixLoop]

end Verif.LevelSet
