import Verif.Nonlinear.Linear
import Mathlib.Algebra.BigOperators.Group.List.Basic
import Mathlib.Tactic.Ring

/-!
# C24, C25, C26: nonlinear iteration of `NavierStokes`
(source/navier_stokes.cc: evaluate_time_step 760-778, solve_nonlinear_system 833-1160,
compute_initial_stokes_field 1164-1212)

Linear solves and residual evaluations are oracles.
-/

namespace Verif.Nonlinear

/-- The entries of `FlowParameters` read by the nonlinear iteration. `implicit`: the linearization is
`coupled_implicit_newton` or `coupled_implicit_picard`; `stationary`: the physical type is
`incompressible_stationary`. -/
structure NLParams (K : Type*) where
  maxNl : ℕ
  tolNl : K
  tolLin : K
  relLin : Bool
  implicit : Bool
  stationary : Bool

/-- The data members of `NavierStokes` that steer the preconditioner (include/adaflo/navier_stokes.h:294-297). -/
structure Policy where
  nLast : ℕ
  lastStep : ℕ
  update : Bool
  freq : ℕ
  deriving DecidableEq

/-- Observable actions of the iteration. -/
inductive Ev (K X : Type*)
  | build
  | solve (tol : K) (iters : ℕ) (upd : X)

/-- Local variables of the loop. -/
structure It (K X : Type*) where
  step : ℕ
  nTot : ℕ
  premature : Bool
  x : X
  res : K
  trace : List (Ev K X)
  broke : Bool

section Model

variable {K X : Type*} [Field K] [LinearOrder K] [AddCommGroup X]

/-- Lines 855-870: tolerance of the linear solve. -/
def linearTolerance (P : NLParams K) (res : K) : K :=
  if P.relLin then
    if res * P.tolLin < 1 / 2 * P.tolNl ∨ P.implicit = false then 1 / 2 * P.tolNl
    else min (P.tolLin * res) P.tolLin
  else P.tolLin

/-- Lines 874-883: does the second branch rebuild (prematurely)? `n > 1.5*m` on unsigned ints is `2n > 3m`. -/
def wantsPremature (P : NLParams K) (pol : Policy) (stepNo : ℕ) (s : It K X) : Bool :=
  (!s.premature && decide (1 < stepNo) && decide (3 * pol.nLast < 2 * s.nTot)) ||
    (P.stationary && decide (s.step % 6 = 1))

/-- Lines 850-933: one pass through the loop body. `solver step x tol` returns the update and the number
of linear iterations (`solve_system`), `residual` is `compute_residual` as a function of the solution.
Timers and screen output are left out. -/
def body (P : NLParams K) (pol : Policy) (stepNo : ℕ) (solver : ℕ → X → K → X × ℕ) (residual : X → K)
    (s : It K X) : It K X :=
  let tol := linearTolerance P s.res
  let first := decide (s.step = 0) && pol.update
  let second := !first && wantsPremature P pol stepNo s
  let builds : List (Ev K X) := if first || second then [.build] else []
  let r := solver s.step s.x tol
  let x := s.x + r.1
  let s' : It K X :=
    { s with
      premature := s.premature || second
      x := x
      nTot := s.nTot + r.2
      trace := s.trace ++ builds ++ [.solve tol r.2 r.1] }
  if P.implicit then
    { s' with res := residual x, broke := decide (residual x < P.tolNl) }
  else { s' with broke := true }

/-- Lines 850-933: `for (; step < max; ++step) body`, with `n = max - step` rounds left. -/
def loop (P : NLParams K) (pol : Policy) (stepNo : ℕ) (solver : ℕ → X → K → X × ℕ) (residual : X → K) :
    ℕ → It K X → It K X
  | 0, s => s
  | n + 1, s =>
    let s' := body P pol stepNo solver residual s
    if s'.broke then s'
    else loop P pol stepNo solver residual n { s' with step := s'.step + 1 }

/-- Lines 942-975: decisions about the next rebuild. `n > 1.2*m` is `5n > 6m` (exact arithmetic). -/
def Policy.after (pol : Policy) (stepNo nTot : ℕ) (premature : Bool) : Policy :=
  let freq := if 0 < pol.freq ∧ stepNo % (50 * pol.freq) = 0 then 0 else pol.freq
  let p1 : Policy :=
    if pol.update then ⟨nTot, stepNo, false, freq⟩ else { pol with freq := freq }
  let p2 : Policy :=
    if 6 * p1.nLast < 5 * nTot then
      { p1 with
        freq := if premature || decide (2 * p1.nLast < nTot) then stepNo - p1.lastStep else p1.freq
        update := true }
    else p1
  let p3 : Policy :=
    if (p2.lastStep < 3 ∧ 14 < stepNo) ∨ stepNo < 2 then { p2 with update := true } else p2
  if p3.update = false ∧ premature = false ∧ 0 < p3.freq ∧ p3.freq ≤ stepNo + 1 - p3.lastStep then
    { p3 with update := true }
  else p3

/-- What `solve_nonlinear_system` leaves behind; `result = none` is `ExcNavierStokesNoConvergence`. -/
structure NLResult (K X : Type*) where
  result : Option (ℕ × ℕ)
  unshifted : X
  solution : X
  policy : Policy
  trace : List (Ev K X)

/-- Lines 835-1160. `post` stands for the final modification of the pressure (shift to the boundary value,
lines 986-1070); it runs on the solution also when the exception is thrown (line 1155). -/
def solveNonlinear (P : NLParams K) (pol : Policy) (stepNo : ℕ) (solver : ℕ → X → K → X × ℕ)
    (residual : X → K) (post : X → X) (x0 : X) (initialRes : K) : NLResult K X :=
  let s := loop P pol stepNo solver residual P.maxNl ⟨0, 0, false, x0, initialRes, [], false⟩
  { result := if s.step < P.maxNl then some (s.step + 1, s.nTot) else none
    unshifted := s.x
    solution := post s.x
    policy := pol.after stepNo s.nTot s.premature
    trace := s.trace }

/-- evaluate_time_step, lines 760-778: the exception is turned into a warning and the pair `{0,0}`. -/
def evaluateTimeStep (P : NLParams K) (pol : Policy) (stepNo : ℕ) (solver : ℕ → X → K → X × ℕ)
    (residual : X → K) (post : X → X) (x0 : X) : (ℕ × ℕ) × NLResult K X :=
  let r := solveNonlinear P pol stepNo solver residual post x0 (residual x0)
  (r.result.getD (0, 0), r)

end Model

/-! ## Specification vocabulary -/

section Spec

variable {K X : Type*}

/-- The updates of a trace in order. -/
def updates (t : List (Ev K X)) : List X :=
  t.filterMap fun e => match e with | .solve _ _ u => some u | .build => none

/-- The linear iteration counts of a trace. -/
def linIters (t : List (Ev K X)) : List ℕ :=
  t.filterMap fun e => match e with | .solve _ n _ => some n | .build => none

/-- The linear tolerances of a trace. -/
def linTols (t : List (Ev K X)) : List K :=
  t.filterMap fun e => match e with | .solve tol _ _ => some tol | .build => none

/-- Number of preconditioner rebuilds. -/
def builds (t : List (Ev K X)) : ℕ :=
  (t.filter fun e => match e with | .build => true | .solve .. => false).length

@[simp] theorem updates_append (a b : List (Ev K X)) : updates (a ++ b) = updates a ++ updates b := by
  simp [updates]
@[simp] theorem linIters_append (a b : List (Ev K X)) : linIters (a ++ b) = linIters a ++ linIters b := by
  simp [linIters]
@[simp] theorem linTols_append (a b : List (Ev K X)) : linTols (a ++ b) = linTols a ++ linTols b := by
  simp [linTols]
@[simp] theorem builds_append (a b : List (Ev K X)) : builds (a ++ b) = builds a + builds b := by
  simp [builds]
@[simp] theorem updates_solve (a : K) (n : ℕ) (u : X) : updates [Ev.solve a n u] = [u] := rfl
@[simp] theorem linIters_solve (a : K) (n : ℕ) (u : X) : linIters [Ev.solve a n u] = [n] := rfl
@[simp] theorem linTols_solve (a : K) (n : ℕ) (u : X) : linTols [Ev.solve a n u] = [a] := rfl
@[simp] theorem builds_solve (a : K) (n : ℕ) (u : X) : builds [Ev.solve a n u] = 0 := rfl
@[simp] theorem updates_ite (c : Prop) [Decidable c] :
    updates (if c then [Ev.build] else [] : List (Ev K X)) = [] := by split <;> rfl
@[simp] theorem linIters_ite (c : Prop) [Decidable c] :
    linIters (if c then [Ev.build] else [] : List (Ev K X)) = [] := by split <;> rfl
@[simp] theorem linTols_ite (c : Prop) [Decidable c] :
    linTols (if c then [Ev.build] else [] : List (Ev K X)) = [] := by split <;> rfl
@[simp] theorem builds_ite (c : Prop) [Decidable c] :
    builds (if c then [Ev.build] else [] : List (Ev K X)) = if c then 1 else 0 := by split <;> rfl

end Spec

section Proofs

theorem sum_le_len (l : List ℕ) (m : ℕ) (h : ∀ i ∈ l, i ≤ m) : l.sum ≤ l.length * m := by
  induction l with
  | nil => simp
  | cons a l ih =>
    have h1 := h a (by simp)
    have h2 := ih fun i hi => h i (by simp [hi])
    simp only [List.sum_cons, List.length_cons, Nat.add_mul, Nat.one_mul]
    omega

variable {K X : Type*} [Field K] [LinearOrder K] [AddCommGroup X]
variable (P : NLParams K) (pol : Policy) (stepNo : ℕ) (solver : ℕ → X → K → X × ℕ) (residual : X → K)

/-- The solution after the first `j` updates. -/
def partialSol (x0 : X) (us : List X) (j : ℕ) : X := x0 + (us.take j).sum

/-- Loop invariant relative to the initial solution. -/
structure Inv (x0 : X) (s : It K X) : Prop where
  len : (updates s.trace).length = s.step
  sol : s.x = x0 + (updates s.trace).sum
  iters : s.nTot = (linIters s.trace).sum
  lenI : (linIters s.trace).length = s.step
  unconv : ∀ j, 1 ≤ j → j ≤ s.step → P.implicit = true ∧ P.tolNl ≤ residual (partialSol x0 (updates s.trace) j)

/-- Post condition of the loop. -/
structure Post (x0 : X) (r : It K X) : Prop where
  sol : r.x = x0 + (updates r.trace).sum
  iters : r.nTot = (linIters r.trace).sum
  step : if r.broke then r.step < P.maxNl ∧ (updates r.trace).length = r.step + 1
    else r.step = P.maxNl ∧ (updates r.trace).length = r.step
  lenI : (linIters r.trace).length = (updates r.trace).length
  unconv : ∀ j, 1 ≤ j → j ≤ r.step → P.implicit = true ∧ P.tolNl ≤ residual (partialSol x0 (updates r.trace) j)
  conv : r.broke = true → P.implicit = true → residual r.x < P.tolNl

theorem body_facts (s : It K X) :
    let s' := body P pol stepNo solver residual s
    let u := (solver s.step s.x (linearTolerance P s.res))
    updates s'.trace = updates s.trace ++ [u.1] ∧ linIters s'.trace = linIters s.trace ++ [u.2] ∧
    linTols s'.trace = linTols s.trace ++ [linearTolerance P s.res] ∧
    s'.x = s.x + u.1 ∧ s'.nTot = s.nTot + u.2 ∧ s'.step = s.step ∧
    s'.broke = (!P.implicit || decide (residual (s.x + u.1) < P.tolNl)) := by
  intro s' u
  simp only [s', body, u]
  cases h : P.implicit <;> simp [List.append_assoc]

theorem loop_post (x0 : X) (n : ℕ) (s : It K X) (hs : Inv P residual x0 s) (hn : s.step + n = P.maxNl)
    (hb : s.broke = false) :
    Post P residual x0 (loop P pol stepNo solver residual n s) := by
  induction n generalizing s with
  | zero =>
    unfold loop
    refine ⟨hs.sol, hs.iters, ?_, by rw [hs.lenI, hs.len], hs.unconv, by simp [hb]⟩
    rw [hb]
    exact ⟨by simpa using hn, hs.len⟩
  | succ n ih =>
    obtain ⟨hu, hi, -, hx, hN, hst, hbr⟩ := body_facts P pol stepNo solver residual s
    unfold loop
    simp only
    generalize hs' : body P pol stepNo solver residual s = s' at hu hi hx hN hst hbr ⊢
    have sol : s'.x = x0 + (updates s'.trace).sum := by
      rw [hx, hu, hs.sol, List.sum_append, List.sum_singleton, add_assoc]
    have iters : s'.nTot = (linIters s'.trace).sum := by
      rw [hN, hi, hs.iters]; simp
    have len : (updates s'.trace).length = s.step + 1 := by rw [hu]; simp [hs.len]
    have lenI : (linIters s'.trace).length = s.step + 1 := by rw [hi]; simp [hs.lenI]
    have old : ∀ j, 1 ≤ j → j ≤ s.step →
        P.implicit = true ∧ P.tolNl ≤ residual (partialSol x0 (updates s'.trace) j) := by
      intro j h1 h2
      have := hs.unconv j h1 h2
      rw [hu, partialSol, List.take_append_of_le_length (by rw [hs.len]; exact h2)]
      exact this
    split
    · rename_i hbk
      refine ⟨sol, iters, ?_, by rw [len, lenI], by rw [hst]; exact old, ?_⟩
      · rw [hbk]; exact ⟨by omega, by rw [len, hst]⟩
      · intro _ himp
        rw [hbk, himp] at hbr
        rw [hx]
        simpa using hbr
    · rename_i hbk
      have hbk' : s'.broke = false := by simpa using hbk
      refine ih _ ⟨by simp [len, hst], sol, iters, by simp [lenI, hst], ?_⟩ (by simp only; omega) hbk'
      intro j h1 h2
      simp only [hst] at h2
      rcases Nat.lt_or_ge j (s.step + 1) with h | h
      · exact old j h1 (by omega)
      · have : j = s.step + 1 := by omega
        subst this
        rw [hbk'] at hbr
        have hh : P.implicit = true ∧ ¬ residual (s.x + (solver s.step s.x (linearTolerance P s.res)).1) < P.tolNl := by
          simpa using hbr.symm
        refine ⟨hh.1, ?_⟩
        rw [partialSol, List.take_of_length_le (by rw [len]), ← sol, hx]
        exact not_lt.1 hh.2

theorem solveNonlinear_post (post : X → X) (x0 : X) (res0 : K) :
    Post P residual x0
      (loop P pol stepNo solver residual P.maxNl ⟨0, 0, false, x0, res0, [], false⟩) :=
  loop_post P pol stepNo solver residual x0 _ _
    ⟨rfl, by simp [updates], by simp [linIters], rfl, by intro j h1 h2; simp at h2; omega⟩ (by simp) rfl

/-- **C24 (normal return).** For every sequence of linear solver results: if the iteration returns
normally with `(k, n)`, then `k` linear solves were made with `1 ≤ k ≤ max_nl_iteration` and `n` linear
iterations in total, the solution (before the final pressure shift) is the start value plus the `k` updates,
Newton/Picard iterations stopped at the first iterate with residual below the tolerance, the linear variants
after one solve. -/
theorem C24_normal_return (post : X → X) (x0 : X) (res0 : K) (k n : ℕ)
    (h : (solveNonlinear P pol stepNo solver residual post x0 res0).result = some (k, n)) :
    let r := solveNonlinear P pol stepNo solver residual post x0 res0
    let us := updates r.trace
    us.length = k ∧ (linIters r.trace).length = k ∧ n = (linIters r.trace).sum ∧ 1 ≤ k ∧ k ≤ P.maxNl ∧
    r.unshifted = x0 + us.sum ∧ r.solution = post r.unshifted ∧
    (P.implicit = true → residual r.unshifted < P.tolNl ∧
      ∀ j, 1 ≤ j → j < k → P.tolNl ≤ residual (x0 + (us.take j).sum)) ∧
    (P.implicit = false → k = 1) := by
  intro r us
  have hp := solveNonlinear_post P pol stepNo solver residual post x0 res0
  simp only [solveNonlinear] at h
  split at h
  · rename_i hlt
    simp only [Option.some.injEq, Prod.mk.injEq] at h
    obtain ⟨hk, hn⟩ := h
    simp only [r, us, solveNonlinear]
    generalize loop P pol stepNo solver residual P.maxNl ⟨0, 0, false, x0, res0, [], false⟩ = s at *
    have hst := hp.step
    have hb : s.broke = true := by
      by_contra hb
      rw [if_neg hb] at hst; omega
    rw [if_pos hb] at hst
    refine ⟨by omega, by rw [hp.lenI]; omega, by rw [← hn, hp.iters], by omega, by omega, hp.sol, trivial, ?_, ?_⟩
    · intro hi
      exact ⟨hp.conv hb hi, fun j h1 h2 => (hp.unconv j h1 (by omega)).2⟩
    · intro hi
      by_contra hne
      have := (hp.unconv 1 le_rfl (by omega)).1
      rw [hi] at this; cases this
  · cases h

/-- **C24 (exception).** The no-convergence exception is raised exactly if `max_nl_iteration = 0` or a
Newton/Picard iteration made `max_nl_iteration` solves, none of which brought the residual below the
tolerance. -/
theorem C24_exception (post : X → X) (x0 : X) (res0 : K) :
    let r := solveNonlinear P pol stepNo solver residual post x0 res0
    let us := updates r.trace
    r.result = none ↔
      us.length = P.maxNl ∧ (P.maxNl = 0 ∨ P.implicit = true) ∧
        ∀ j, 1 ≤ j → j ≤ P.maxNl → P.tolNl ≤ residual (x0 + (us.take j).sum) := by
  intro r us
  have hp := solveNonlinear_post P pol stepNo solver residual post x0 res0
  simp only [r, us, solveNonlinear]
  generalize loop P pol stepNo solver residual P.maxNl ⟨0, 0, false, x0, res0, [], false⟩ = s at *
  have hst := hp.step
  by_cases hb : s.broke = true
  · rw [if_pos hb] at hst
    rw [if_pos hst.1]
    simp only [reduceCtorEq, false_iff, not_and, not_forall]
    intro hl hi
    have hi' : P.implicit = true := hi.resolve_left (by omega)
    refine ⟨s.step + 1, by omega, by omega, ?_⟩
    rw [List.take_of_length_le (by omega), ← hp.sol]
    exact not_le.2 (hp.conv hb hi')
  · rw [if_neg hb] at hst
    rw [if_neg (by omega)]
    simp only [true_iff]
    refine ⟨by omega, ?_, fun j h1 h2 => (hp.unconv j h1 (by omega)).2⟩
    rcases Nat.eq_zero_or_pos P.maxNl with h0 | h0
    · exact Or.inl h0
    · exact Or.inr (hp.unconv 1 le_rfl (by omega)).1

/-- **C24 (evaluate_time_step).** The pair returned to the user has a zero first component exactly if the
step did not converge; otherwise it counts the nonlinear iterations. -/
theorem C24_evaluate_reports_failure (post : X → X) (x0 : X) :
    let e := evaluateTimeStep P pol stepNo solver residual post x0
    (e.1.1 = 0 ↔ e.2.result = none) ∧ (e.1.1 ≠ 0 → e.1.1 = (updates e.2.trace).length) ∧
    (e.1.1 ≠ 0 → P.implicit = true → residual e.2.unshifted < P.tolNl) := by
  intro e
  cases hr : (solveNonlinear P pol stepNo solver residual post x0 (residual x0)).result with
  | none => simp [e, evaluateTimeStep, hr]
  | some kn =>
    obtain ⟨k, n⟩ := kn
    obtain ⟨h1, -, -, h2, -, -, -, h3, -⟩ := C24_normal_return P pol stepNo solver residual post x0 _ k n hr
    simp only [e, evaluateTimeStep, hr, Option.getD_some, reduceCtorEq, iff_false]
    exact ⟨by omega, fun _ => h1.symm, fun _ hi => (h3 hi).1⟩

/-- **C24 (linear work).** With the two-stage linear solver of C23 the whole nonlinear iteration spends at
most `max_nl_iteration * max_lin_iteration` linear iterations. -/
theorem C24_total_linear_iterations (before maxLin : ℕ) (upd : ℕ → X → K → X)
    (cheap strong : ℕ → X → ℕ → Option K) (post : X → X) (x0 : X) (res0 : K) (k n : ℕ)
    (h : (solveNonlinear P pol stepNo
      (fun i x tol => (upd i x tol, (solveSystem before maxLin tol (cheap i x) (strong i x)).iterations))
      residual post x0 res0).result = some (k, n)) :
    n ≤ k * maxLin ∧ k ≤ P.maxNl := by
  obtain ⟨-, hl, hn, -, hk, -⟩ := C24_normal_return P pol stepNo _ residual post x0 res0 k n h
  refine ⟨?_, hk⟩
  have key : ∀ m (s : It K X), (∀ i ∈ linIters s.trace, i ≤ maxLin) →
      ∀ i ∈ linIters (loop P pol stepNo (fun i x tol => (upd i x tol,
        (solveSystem before maxLin tol (cheap i x) (strong i x)).iterations)) residual m s).trace,
        i ≤ maxLin := by
    intro m
    induction m with
    | zero => intro s hs; exact hs
    | succ m ih =>
      intro s hs
      obtain ⟨-, hi, -⟩ := body_facts P pol stepNo (fun i x tol => (upd i x tol,
        (solveSystem before maxLin tol (cheap i x) (strong i x)).iterations)) residual s
      unfold loop
      simp only
      generalize body P pol stepNo _ residual s = s' at hi ⊢
      have hs' : ∀ i ∈ linIters s'.trace, i ≤ maxLin := by
        rw [hi]
        intro i hi'
        rcases List.mem_append.1 hi' with h | h
        · exact hs i h
        · rw [List.mem_singleton] at h
          rw [h]
          exact (C23_budget before maxLin _ _ _).1
      split
      · exact hs'
      · exact ih _ hs'
  have hall := key P.maxNl ⟨0, 0, false, x0, res0, [], false⟩ (by simp [linIters])
  rw [hn, ← hl]
  exact sum_le_len _ _ hall

/-- Residual known when linear solve number `j` starts: the one handed over by the caller, then the ones of the iterates. -/
def residualBefore (residual : X → K) (x0 : X) (res0 : K) (us : List X) (j : ℕ) : K :=
  if j = 0 then res0 else residual (x0 + (us.take j).sum)

theorem residualBefore_append (x0 : X) (res0 : K) (us vs : List X) (j : ℕ) (hj : j ≤ us.length) :
    residualBefore residual x0 res0 (us ++ vs) j = residualBefore residual x0 res0 us j := by
  unfold residualBefore
  rw [List.take_append_of_le_length hj]

/-- Invariant of the loop on the tolerances used. -/
def TolInv (x0 : X) (res0 : K) (s : It K X) (k : ℕ) : Prop :=
  (updates s.trace).length = k ∧
    linTols s.trace = (List.range k).map fun j => linearTolerance P (residualBefore residual x0 res0 (updates s.trace) j)

theorem loop_tols (x0 : X) (res0 : K) (n : ℕ) (s : It K X) (h : TolInv P residual x0 res0 s s.step)
    (hx : s.x = x0 + (updates s.trace).sum)
    (hr : s.res = residualBefore residual x0 res0 (updates s.trace) s.step) (hb : s.broke = false) :
    ∃ k, TolInv P residual x0 res0 (loop P pol stepNo solver residual n s) k := by
  induction n generalizing s with
  | zero => exact ⟨_, h⟩
  | succ n ih =>
    obtain ⟨hu, hi, ht, hx', hN, hst, hbr⟩ := body_facts P pol stepNo solver residual s
    have hres : (body P pol stepNo solver residual s).broke = false →
        (body P pol stepNo solver residual s).res = residual (body P pol stepNo solver residual s).x := by
      unfold body
      cases hP : P.implicit <;> simp
    unfold loop
    simp only
    generalize hs' : body P pol stepNo solver residual s = s' at hu hi ht hx' hN hst hbr hres ⊢
    have hlen : (updates s'.trace).length = s.step + 1 := by rw [hu]; simp [h.1]
    have hinv : TolInv P residual x0 res0 s' (s.step + 1) := by
      refine ⟨hlen, ?_⟩
      rw [ht, h.2, List.range_succ, List.map_append, hu, hr]
      congr 1
      · refine List.map_congr_left fun j hj => ?_
        rw [residualBefore_append]
        rw [h.1]; exact (List.mem_range.1 hj).le
      · simp only [List.map_cons, List.map_nil]
        rw [residualBefore_append]
        rw [h.1]
    split
    · exact ⟨_, hinv⟩
    · rename_i hbk
      have hbk' : s'.broke = false := by simpa using hbk
      have hsum : s'.x = x0 + (updates s'.trace).sum := by
        rw [hx', hu, hx, List.sum_append, List.sum_singleton, add_assoc]
      refine ih _ ?_ ?_ ?_ hbk'
      · simp only [hst]; exact hinv
      · exact hsum
      · simp only
        rw [hres hbk', residualBefore, if_neg (by omega), List.take_of_length_le (by rw [hlen, hst]), hsum]

/-- **C63.** The tolerance handed to linear solve number `j` (counted from zero): with an absolute linear tolerance it is the
given number; with a relative one the linear variants always solve to half the nonlinear tolerance (so that a single solve is
accurate enough), and Newton/Picard solve relative to the current nonlinear residual, but never below half the nonlinear
tolerance and never above the given factor. -/
theorem C63_linear_tolerance (post : X → X) (x0 : X) (res0 : K) (j : ℕ) (t : K) :
    let r := solveNonlinear P pol stepNo solver residual post x0 res0
    let us := updates r.trace
    let before := if j = 0 then res0 else residual (x0 + (us.take j).sum)
    (linTols r.trace).length = us.length ∧
    ((linTols r.trace)[j]? = some t →
      (P.relLin = false → t = P.tolLin) ∧
      (P.relLin = true → P.implicit = false → t = P.tolNl / 2) ∧
      (P.relLin = true → P.implicit = true → P.tolNl / 2 ≤ P.tolLin →
        t = min (max (P.tolLin * before) (P.tolNl / 2)) P.tolLin)) := by
  intro r us before
  obtain ⟨k, hk⟩ := loop_tols P pol stepNo solver residual x0 res0 P.maxNl ⟨0, 0, false, x0, res0, [], false⟩
    ⟨rfl, rfl⟩ (by simp [updates]) rfl rfl
  have hr : r.trace = (loop P pol stepNo solver residual P.maxNl ⟨0, 0, false, x0, res0, [], false⟩).trace := rfl
  obtain ⟨h1, h2⟩ := hk
  rw [← hr] at h1 h2
  refine ⟨by rw [h2]; simp [us, h1], fun ht => ?_⟩
  rw [h2, List.getElem?_map] at ht
  have hj : j < k := by
    by_contra hc
    rw [List.getElem?_eq_none (by simpa using hc)] at ht
    cases ht
  rw [List.getElem?_range hj, Option.map_some, Option.some_inj] at ht
  have hbef : residualBefore residual x0 res0 (updates r.trace) j = before := rfl
  rw [hbef] at ht
  subst ht
  unfold linearTolerance
  refine ⟨fun h => by simp [h], fun h h' => by simp [h, h']; ring, fun h h' hle => ?_⟩
  rw [if_pos h]
  split_ifs with hc
  · have hc' : before * P.tolLin < 1 / 2 * P.tolNl := by
      rcases hc with hc | hc
      · exact hc
      · rw [h'] at hc; cases hc
    have e : (1 : K) / 2 * P.tolNl = P.tolNl / 2 := by ring
    rw [e] at hc' ⊢
    rw [max_eq_right (by rw [mul_comm]; exact hc'.le), min_eq_left hle]
  · have hc' : ¬ before * P.tolLin < 1 / 2 * P.tolNl := fun hh => hc (Or.inl hh)
    have e : (1 : K) / 2 * P.tolNl = P.tolNl / 2 := by ring
    rw [e, not_lt, mul_comm] at hc'
    rw [max_eq_left hc']

/-- **C63 (linear variants).** If the linear solver meets the tolerance it is given and the residual of a linear variant is the
linear residual, the single solve with relative tolerance ends below the nonlinear tolerance. -/
theorem C63_one_solve_suffices [IsStrictOrderedRing K] (post : X → X) (x0 : X) (res0 : K) (k n : ℕ) (hi : P.implicit = false) (hrel : P.relLin = true)
    (htol : 0 < P.tolNl) (hsolver : ∀ i x tol, residual (x + (solver i x tol).1) ≤ tol)
    (h : (solveNonlinear P pol stepNo solver residual post x0 res0).result = some (k, n)) :
    residual (solveNonlinear P pol stepNo solver residual post x0 res0).unshifted < P.tolNl := by
  have hpos : 0 < P.maxNl := by
    have := C24_normal_return P pol stepNo solver residual post x0 res0 k n h
    omega
  obtain ⟨m, hm⟩ := Nat.exists_eq_succ_of_ne_zero hpos.ne'
  have : (solveNonlinear P pol stepNo solver residual post x0 res0).unshifted =
      x0 + (solver 0 x0 (linearTolerance P res0)).1 := by
    simp only [solveNonlinear, hm]
    obtain ⟨-, -, -, hx, -, -, hbr⟩ := body_facts P pol stepNo solver residual ⟨0, 0, false, x0, res0, [], false⟩
    unfold loop
    simp only
    rw [hbr, hi]
    simpa using hx
  rw [this]
  refine (hsolver _ _ _).trans_lt ?_
  unfold linearTolerance
  rw [if_pos hrel, if_pos (Or.inr hi)]
  linarith

end Proofs

section NonVacuity

/-- Newton iteration: first update leaves the residual at 1, the second brings it to 0. -/
def exP : NLParams ℚ := ⟨5, 1/100, 1/10, true, true, false⟩

/-- Non-vacuity: normal return after two iterations. -/
example : (solveNonlinear (X := ℚ) exP ⟨0, 0, true, 0⟩ 3 (fun i _ _ => (if i = 0 then 1 else 2, 7)) (fun x => |x - 3|)
    id 0 3).result = some (2, 14) := by decide +kernel

/-- Non-vacuity (C63): a run with residuals 3, 1/10, 0 uses the tolerances `min(0.1·3, 0.1)` and `0.1·0.1`. -/
example : linTols (solveNonlinear (X := ℚ) exP ⟨0, 0, true, 0⟩ 3 (fun i _ _ => (if i = 0 then 29/10 else 1/10, 7))
    (fun x => |x - 3|) id 0 3).trace = [1/10, 1/100] := by decide +kernel

/-- Non-vacuity: the exception, and its conversion to `{0,0}`. -/
example : (evaluateTimeStep (X := ℚ) exP ⟨0, 0, true, 0⟩ 3 (fun _ _ _ => (0, 7)) (fun x => |x - 3|) id 0).1 = (0, 0) := by
  decide +kernel

/-- Non-vacuity: a linear variant stops after one solve whatever the residual. -/
example : (solveNonlinear (X := ℚ) { exP with implicit := false } ⟨0, 0, true, 0⟩ 3 (fun _ _ _ => (0, 7)) (fun x => |x - 3|)
    id 0 3).result = some (1, 7) := by decide +kernel

end NonVacuity

end Verif.Nonlinear
