import Mathlib.Algebra.Order.Field.Basic
import Mathlib.Data.Rat.Defs
import Mathlib.Algebra.Order.Ring.Rat
import Mathlib.Algebra.Field.Rat
import Mathlib.Tactic.Linarith

/-!
# C23: the two-stage linear solver (`NavierStokes::solve_system`, source/navier_stokes.cc:559-655)

The iterative methods are oracles: the residual norm sequence they show to `SolverControl` is
arbitrary, and may contain not-a-number values (`none`).
-/

namespace Verif.Nonlinear

variable {K : Type*} [LinearOrder K]

/-- What an attempt leaves in its `SolverControl` (`last_step()`, `last_value()`) and whether
`NoConvergence` was thrown.  `value = none` stands for not-a-number. -/
structure Attempt (K : Type*) where
  lastStep : ℕ
  value : Option K
  converged : Bool

/-- deal.II `SolverControl::check(step, value)` as called by GMRES/FGMRES with consecutive step numbers
(not part of /repo, modelled from its documentation): success if `value <= tol`, failure if
`step >= maxsteps` or the value is NaN, otherwise go on.  `fuel = maxsteps - step`. -/
def control (tol : K) (norms : ℕ → Option K) : (fuel : ℕ) → (step : ℕ) → Attempt K
  | fuel, step =>
    match norms step with
    | none => ⟨step, none, false⟩
    | some r =>
      if r ≤ tol then ⟨step, some r, true⟩
      else match fuel with
        | 0 => ⟨step, some r, false⟩
        | fuel + 1 => control tol norms fuel (step + 1)

/-- An attempt with a budget of `maxSteps` iterations. -/
def attempt (tol : K) (norms : ℕ → Option K) (maxSteps : ℕ) : Attempt K :=
  control tol norms maxSteps 0

/-- Result of `solve_system`: the returned pair and the attempts that ran. -/
structure SolveResult (K : Type*) where
  iterations : ℕ
  residual : Option K
  simple : Attempt K
  strong : Option (Attempt K)

/-- source/navier_stokes.cc:559-655 for the coupled schemes (the projection scheme returns in lines
562-564, before).  `before` = `iterations_before_inner_solvers`, `maxLin` = `max_lin_iteration`; the
`(int)` casts in lines 574-576 are exact for values below 2^31.  `cheap`, `strong` are the residual norms
seen by the two solvers; the vectors are left out. -/
def solveSystem (before maxLin : ℕ) (tol : K) (cheap strong : ℕ → Option K) : SolveResult K :=
  -- lines 570-577
  let budgetSimple := min before maxLin
  let budgetStrong : ℤ := max ((maxLin : ℤ) - (before : ℤ)) 0
  -- lines 586-611
  let a := attempt tol cheap budgetSimple
  if a.converged then ⟨a.lastStep + 0, a.value, a, none⟩
  else if before < maxLin then
    -- lines 613-638
    let b := attempt tol strong budgetStrong.toNat
    ⟨a.lastStep + b.lastStep, b.value, a, some b⟩
  else ⟨a.lastStep + 0, a.value, a, none⟩

theorem control_lastStep (tol : K) (norms : ℕ → Option K) (fuel step : ℕ) :
    (control tol norms fuel step).lastStep ≤ step + fuel := by
  induction fuel generalizing step with
  | zero =>
    unfold control
    split
    · simp
    · split <;> simp
  | succ n ih =>
    unfold control
    split
    · simp
    · split
      · simp
      · have := ih (step + 1); simp only; omega

theorem control_value (tol : K) (norms : ℕ → Option K) (fuel step : ℕ) :
    (control tol norms fuel step).value = norms (control tol norms fuel step).lastStep ∧
    ((control tol norms fuel step).converged = true ↔
      ∃ r, (control tol norms fuel step).value = some r ∧ r ≤ tol) := by
  induction fuel generalizing step with
  | zero =>
    unfold control
    split
    · rename_i h; simp [h]
    · rename_i r h
      split
      · simp [h, *]
      · simp [h, *]
  | succ n ih =>
    unfold control
    split
    · rename_i h; simp [h]
    · rename_i r h
      split
      · simp [h, *]
      · exact ih (step + 1)

/-- Case distinction used by the proofs below. -/
theorem solveSystem_cases (before maxLin : ℕ) (tol : K) (cheap strong : ℕ → Option K) :
    let a := control tol cheap (min before maxLin) 0
    let b := control tol strong (max ((maxLin : ℤ) - (before : ℤ)) 0).toNat 0
    (a.converged = true ∧
      solveSystem before maxLin tol cheap strong = ⟨a.lastStep, a.value, a, none⟩) ∨
    (a.converged = false ∧ before < maxLin ∧
      solveSystem before maxLin tol cheap strong = ⟨a.lastStep + b.lastStep, b.value, a, some b⟩) ∨
    (a.converged = false ∧ ¬ before < maxLin ∧
      solveSystem before maxLin tol cheap strong = ⟨a.lastStep, a.value, a, none⟩) := by
  intro a b
  by_cases h : a.converged = true
  · exact Or.inl ⟨h, by simp only [solveSystem, attempt]; exact if_pos h⟩
  · by_cases h2 : before < maxLin
    · exact Or.inr (Or.inl ⟨by simpa using h, h2, by
        simp only [solveSystem, attempt]; exact (if_neg h).trans (if_pos h2)⟩)
    · exact Or.inr (Or.inr ⟨by simpa using h, h2, by
        simp only [solveSystem, attempt]; exact (if_neg h).trans (if_neg h2)⟩)

/-- **C23 (budget).** For all budgets, tolerances and behaviours of the two solvers at most
`max_lin_iteration` iterations are made in total, and the strong solver is started only with what the
cheap one has left. -/
theorem C23_budget (before maxLin : ℕ) (tol : K) (cheap strong : ℕ → Option K) :
    (solveSystem before maxLin tol cheap strong).iterations ≤ maxLin ∧
    (solveSystem before maxLin tol cheap strong).simple.lastStep ≤ before := by
  have ha := control_lastStep tol cheap (min before maxLin) 0
  have hb := control_lastStep tol strong (max ((maxLin : ℤ) - (before : ℤ)) 0).toNat 0
  rcases solveSystem_cases before maxLin tol cheap strong with ⟨h, e⟩ | ⟨h, h2, e⟩ | ⟨h, h2, e⟩
  all_goals rw [e]; simp only; omega

/-- **C23 (escalation).** The strong solver runs exactly if the cheap one failed and the number of cheap
iterations is configured below the maximum. -/
theorem C23_escalation (before maxLin : ℕ) (tol : K) (cheap strong : ℕ → Option K) :
    (solveSystem before maxLin tol cheap strong).strong.isSome = true ↔
      (∀ r, (solveSystem before maxLin tol cheap strong).simple.value = some r → tol < r) ∧
        before < maxLin := by
  have hv := (control_value tol cheap (min before maxLin) 0).2
  have key : ∀ a : Attempt K, (a.converged = true ↔ ∃ r, a.value = some r ∧ r ≤ tol) →
      (a.converged = false ↔ ∀ r, a.value = some r → tol < r) := by
    intro a h
    rw [← Bool.not_eq_true, h]
    push Not
    rfl
  have hk := key _ hv
  rcases solveSystem_cases before maxLin tol cheap strong with ⟨h, e⟩ | ⟨h, h2, e⟩ | ⟨h, h2, e⟩
  · rw [e]
    simp only [Option.isSome_none, Bool.false_eq_true, false_iff, not_and]
    intro h'
    rw [hk.2 h'] at h; cases h
  · rw [e]; simp only [Option.isSome_some, true_iff]; exact ⟨hk.1 h, h2⟩
  · rw [e]; simp [h2]

/-- **C23 (report).** The returned pair is the sum of the iteration counts and the residual of the
attempt that ran last; each residual is the norm shown at the last iteration. -/
theorem C23_report (before maxLin : ℕ) (tol : K) (cheap strong : ℕ → Option K) :
    let r := solveSystem before maxLin tol cheap strong
    r.iterations = r.simple.lastStep + (r.strong.map (·.lastStep)).getD 0 ∧
    r.residual = ((r.strong.map (·.value)).getD r.simple.value) ∧
    r.simple.value = cheap r.simple.lastStep ∧
    ∀ b, r.strong = some b → b.value = strong b.lastStep := by
  have hv := (control_value tol cheap (min before maxLin) 0).1
  have hs := (control_value tol strong (max ((maxLin : ℤ) - (before : ℤ)) 0).toNat 0).1
  intro r
  rcases solveSystem_cases before maxLin tol cheap strong with ⟨h, e⟩ | ⟨h, h2, e⟩ | ⟨h, h2, e⟩
  · rw [show r = _ from e]; exact ⟨rfl, rfl, hv, by simp⟩
  · rw [show r = _ from e]
    refine ⟨rfl, rfl, hv, ?_⟩
    simp only [Option.some.injEq]
    rintro b rfl
    exact hs
  · rw [show r = _ from e]; exact ⟨rfl, rfl, hv, by simp⟩

/-- **C23 (failure is visible).** The returned residual exceeds the tolerance (or is NaN) exactly if no
attempt converged. -/
theorem C23_residual_tells_success (before maxLin : ℕ) (tol : K) (cheap strong : ℕ → Option K) :
    let r := solveSystem before maxLin tol cheap strong
    (∃ v, r.residual = some v ∧ v ≤ tol) ↔
      r.simple.converged = true ∨ ∃ b, r.strong = some b ∧ b.converged = true := by
  have hv := (control_value tol cheap (min before maxLin) 0).2
  have hs := (control_value tol strong (max ((maxLin : ℤ) - (before : ℤ)) 0).toNat 0).2
  intro r
  rcases solveSystem_cases before maxLin tol cheap strong with ⟨h, e⟩ | ⟨h, h2, e⟩ | ⟨h, h2, e⟩
  · rw [show r = _ from e]; simp [h, hv.1 h]
  · rw [show r = _ from e]; simp [h, hs]
  · rw [show r = _ from e]
    simp only [reduceCtorEq, false_and, exists_false, or_false]
    exact hv.symm

/-- Non-vacuity: the cheap solver fails after 2 iterations, the strong one converges after 1. -/
example :
    let r := solveSystem (K := ℚ) 2 5 (1/10) (fun _ => some 1) (fun n => some (if n = 0 then 1 else 0))
    r.iterations = 3 ∧ r.residual = some 0 ∧ r.strong.isSome = true := by decide +kernel

end Verif.Nonlinear
