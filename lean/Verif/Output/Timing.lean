import Mathlib.Data.List.Basic
import Mathlib.Tactic.Tauto
/-!
# C120: timing sections
Every solver reports to one `TimerOutput` (shared by the two-phase solver, its flow solver and the application). deal.II does not allow
to enter a section that is active, nor to leave one if none is active (`Assert` in `enter_subsection`, `leave_subsection`).
Modelled: where sections are entered and left, early returns, exceptions and `try` blocks. All other computations are dropped and every
condition may take any value, so the theorems hold for all inputs; loops run any number of times.
-/
namespace Verif.Timing

abbrev Name := String

/-! ## Model -/

/-- The timer: the active sections, oldest first (`active_sections`), and whether an assertion of `TimerOutput` was violated. -/
structure Timer where
  active : List Name := []
  bad : Bool := false
  deriving DecidableEq

/-- `TimerOutput::enter_subsection` of deal.II: the section must not be active; it is appended. -/
def Timer.enter (n : Name) (t : Timer) : Timer := ⟨t.active ++ [n], t.bad || decide (n ∈ t.active)⟩

/-- `TimerOutput::leave_subsection()` without name: the last section; there must be one. The first entry of that name is erased. -/
def Timer.leave (t : Timer) : Timer :=
  match t.active.getLast? with
  | none => ⟨[], true⟩
  | some n => ⟨t.active.erase n, t.bad⟩

/-- `leave_subsection(name)`, called by the destructor of `TimerOutput::Scope`: the section must be active. -/
def Timer.leaveName (n : Name) (t : Timer) : Timer := ⟨t.active.erase n, t.bad || decide (n ∉ t.active)⟩

/-- Control flow of a C++ function: what matters for the timer. -/
inductive Prog
  | skip
  | enter (n : Name)
  | leave
  | ret
  | brk
  | throw
  | seq (p q : Prog)
  /-- a condition of unknown value -/
  | alt (p q : Prog)
  /-- a loop that may end before every pass -/
  | loop (p : Prog)
  /-- a block with a `TimerOutput::Scope` object -/
  | scope (n : Name) (p : Prog)
  /-- a function call: `return` ends the function only -/
  | call (p : Prog)
  /-- `try p catch h`, for the exceptions thrown by `p` -/
  | tryCatch (p h : Prog)

/-- How a piece of code ends. -/
inductive Out
  | normal | ret | brk | thrown
  deriving DecidableEq

/-- Executions. -/
inductive Run : Prog → Timer → Out → Timer → Prop
  | skip (t) : Run .skip t .normal t
  | enter (n t) : Run (.enter n) t .normal (t.enter n)
  | leave (t) : Run .leave t .normal t.leave
  | ret (t) : Run .ret t .ret t
  | brk (t) : Run .brk t .brk t
  | throw (t) : Run .throw t .thrown t
  | seq {p q t t' o t''} : Run p t .normal t' → Run q t' o t'' → Run (.seq p q) t o t''
  | seqStop {p q t o t'} : Run p t o t' → o ≠ .normal → Run (.seq p q) t o t'
  | altL {p q t o t'} : Run p t o t' → Run (.alt p q) t o t'
  | altR {p q t o t'} : Run q t o t' → Run (.alt p q) t o t'
  | loopEnd (p t) : Run (.loop p) t .normal t
  | loopNext {p t t' o t''} : Run p t .normal t' → Run (.loop p) t' o t'' → Run (.loop p) t o t''
  | loopBrk {p t t'} : Run p t .brk t' → Run (.loop p) t .normal t'
  | loopStop {p t o t'} : Run p t o t' → o = .ret ∨ o = .thrown → Run (.loop p) t o t'
  | scope {n p t o t'} : Run p (t.enter n) o t' → Run (.scope n p) t o (t'.leaveName n)
  | call {p t o t'} : Run p t o t' → o = .normal ∨ o = .ret → Run (.call p) t .normal t'
  | callThrow {p t t'} : Run p t .thrown t' → Run (.call p) t .thrown t'
  | tryOk {p h t o t'} : Run p t o t' → o ≠ .thrown → Run (.tryCatch p h) t o t'
  | tryCaught {p h t t' o t''} : Run p t .thrown t' → Run h t' o t'' → Run (.tryCatch p h) t o t''

infixr:67 " ;; " => Prog.seq

/-- `if (condition) p` -/
def opt (p : Prog) : Prog := .alt p .skip
/-- a function of the user or of a library that may throw -/
def mayThrow : Prog := opt .throw

/-! ### Flow solver -/

/-- `NavierStokes::distribute_dofs`, navier_stokes.cc:190-224 -/
def nsDistributeDofs : Prog := .call (.enter "NS distribute DoFs." ;; .leave)

/-- `NavierStokes::initialize_data_structures`, navier_stokes.cc:228-361; the checks of the boundary conditions (249-351) may throw -/
def nsInitData : Prog := .call (opt .ret ;; .enter "NS setup matrix and vectors." ;; mayThrow ;; .leave)

/-- `assemble_preconditioner`, navier_stokes.cc:506-517 -/
def assemblePrec : Prog := .call (.enter "NS assemble preconditioner." ;; .leave)

/-- `build_preconditioner`, navier_stokes.cc:523-556 -/
def buildPrec : Prog := .call (assemblePrec ;; .enter "NS build preconditioner." ;; .leave)

/-- `solve_projection_system`, navier_stokes_preconditioner.cc:777-854; the linear solvers may throw -/
def solveProjection : Prog := .call (.scope "NS solve velocity" mayThrow ;; .scope "NS solve pressure" mayThrow ;; .ret)

/-- `solve_system`, navier_stokes.cc:559-652; both linear solvers are in `try` blocks -/
def solveSystem : Prog :=
  .call (opt (solveProjection ;; .ret) ;; .enter "NS solve system." ;;
    .tryCatch mayThrow (opt (.tryCatch mayThrow .skip)) ;; .leave ;; .ret)

/-- `init_time_advance`, navier_stokes.cc:655-745; boundary functions of the user may throw -/
def initTimeAdvance : Prog := .call (.enter "NS apply boundary conditions." ;; mayThrow ;; .leave)

/-- `compute_residual`, navier_stokes.cc:778-800 -/
def computeResidual : Prog := .call (.scope "NS assemble nonlinear residual." .skip ;; .ret)

/-- The first part of the loop body of `solve_nonlinear_system`, navier_stokes.cc:855-955 -/
def nonlinearBody : Prog :=
  opt buildPrec ;; solveSystem ;; opt .brk ;; computeResidual ;; opt .brk

/-- `solve_nonlinear_system`, navier_stokes.cc:833-1159: the loop, the shift of the pressure (line 986 constructs a temporary `Scope`
that is destroyed at once; user function and check in 1034 may throw), the final check (1156) -/
def solveNonlinear : Prog :=
  .call (.loop nonlinearBody ;; opt (.scope "NS apply boundary conditions." .skip ;; mayThrow) ;; mayThrow ;; .ret)

/-- `evaluate_time_step`, navier_stokes.cc:760-775. The handler takes the exception of line 1156; others pass it. -/
def evaluateTimeStep : Prog := .call (computeResidual ;; .tryCatch solveNonlinear mayThrow ;; .ret)

/-- `NavierStokes::advance_time_step`, navier_stokes.cc:751-755 -/
def nsAdvance : Prog := .call (initTimeAdvance ;; evaluateTimeStep ;; .ret)

/-- `compute_initial_stokes_field`, navier_stokes.cc:1164-1212; no `try` block around the solve -/
def stokesField : Prog := .call (mayThrow ;; opt (computeResidual ;; solveNonlinear))

/-- `refine_grid_pressure_based`, navier_stokes.cc:1322-1372 -/
def refinePressureBased : Prog := .call nsDistributeDofs

/-! ### Two-phase solvers -/

/-- Functions that the two-phase solvers implement differently. -/
structure Solver where
  normal : Prog
  heaviside : Prog
  curvature : Prog
  advect : Prog
  reinit : Prog
  force : Prog
  /-- level set solvers: `LevelSetBaseAlgorithm`; otherwise `PhaseFieldSolver` -/
  levelSet : Bool

/-- `TwoPhaseBaseAlgorithm::initialize_data_structures` (and the versions of the solvers), two_phase_base.cc:230-305,
after `distribute_dofs`, 199-226 -/
def tpInit : Prog := nsDistributeDofs ;; nsInitData

/-- `mark_cells_for_refinement`: level_set_base.cc:296-412 and phase_field.cc:475-524 (like two_phase_base.cc:326-391) -/
def mark (S : Solver) : Prog :=
  if S.levelSet then .call (opt .ret ;; opt S.normal ;; .scope "Probe grid refinement." (opt .ret ;; .ret))
  else .call (opt .ret ;; .enter "Probe grid refinement." ;; .leave ;; .ret)

/-- `refine_grid`, two_phase_base.cc:394-437 -/
def refineGrid (S : Solver) : Prog := .call (mark S ;; opt .ret ;; .enter "Refine grid." ;; tpInit ;; .leave)

/-- `TwoPhaseBaseAlgorithm::setup_problem`, two_phase_base.cc:120-197 -/
def tpSetup (S : Solver) : Prog :=
  .call (.enter "TP setup problem." ;; tpInit ;; mayThrow ;; .loop (refineGrid S ;; mayThrow) ;; opt stokesField ;; .leave)

/-- `setup_problem` of the solvers, level_set_base.cc:146-154 -/
def setupProblem (S : Solver) : Prog :=
  if S.levelSet then .call (tpSetup S ;; S.reinit ;; S.heaviside) else tpSetup S

/-- `LevelSetBaseAlgorithm::advance_time_step`, level_set_base.cc:186-291, and `PhaseFieldSolver::advance_time_step`,
phase_field.cc:464-471 -/
def advance (S : Solver) : Prog :=
  if S.levelSet then
    .call (initTimeAdvance ;; opt .throw ;; S.advect ;; S.reinit ;; S.force ;; computeResidual ;;
      opt (S.reinit ;; S.force ;; computeResidual) ;; .tryCatch solveNonlinear mayThrow ;; .ret)
  else .call (initTimeAdvance ;; S.advect ;; S.force ;; evaluateTimeStep ;; .ret)

/-- `output_solution`, level_set_base.cc:450-694 and two_phase_base.cc:550-592 -/
def output (S : Solver) : Prog :=
  if S.levelSet then
    .call (opt .ret ;; opt .ret ;; .scope "Create output" (opt (S.curvature ;; S.heaviside) ;; mayThrow))
  else .call (opt .ret ;; opt .ret ;; mayThrow ;; .enter "TP create output." ;; mayThrow ;; .leave)

/-- matrix-free level set solver, level_set_okz.cc:411-562 -/
def okz : Solver :=
  let normal : Prog := .call (.scope "LS compute normal." mayThrow)
  let heaviside : Prog := .call (.scope "LS compute Heaviside." .skip)
  let curvature : Prog := .call (normal ;; .scope "LS compute curvature." mayThrow)
  { normal := normal, heaviside := heaviside, curvature := curvature
    advect := .call (.scope "LS advance concentration." mayThrow)
    reinit := .call (.scope "LS reinitialization step." (.loop (opt normal ;; mayThrow)))
    force := .call (heaviside ;; curvature ;; .scope "LS compute force." .skip)
    levelSet := true }

/-- matrix-based level set solver, level_set_okz_matrix.cc:95-168, 372-375, 613-624, 722-727, 844-848, 911-937 -/
def okzMatrix : Solver :=
  let normal : Prog := .call (opt .ret ;; .scope "Compute normal." mayThrow)
  let heaviside : Prog := .call (.scope "Compute Heaviside." .skip)
  let curvature : Prog := .call (normal ;; .scope "Compute curvature." mayThrow)
  { normal := normal, heaviside := heaviside, curvature := curvature
    advect := .call (.scope "Advance concentration." mayThrow)
    reinit := .call (.scope "Reinitialization." (.loop (opt normal ;; mayThrow)))
    force := .call (heaviside ;; curvature ;; .scope "Compute force." .skip)
    levelSet := true }

/-- phase field solver: preconditioner phase_field.cc:239-311, residual phase_field_local.cc:443-466, linear solve phase_field.cc:413-459,
Newton iteration 330-365 (without `ch_do_newton` it throws), force phase_field_local.cc:421-440 -/
def phaseField : Solver :=
  let prec : Prog := .call (.enter "Cahn-Hilliard preconditioner." ;; .leave)
  let residual : Prog := .call (.enter "Cahn-Hilliard residual." ;; .leave ;; .ret)
  let solve : Prog := .call (.enter "Cahn-Hilliard solve." ;; .tryCatch mayThrow .skip ;; .leave)
  { normal := .skip, heaviside := .skip, curvature := .skip, reinit := .skip
    advect := .call (opt prec ;; .alt (.loop (residual ;; .alt .brk solve)) .throw)
    force := .call (.enter "Compute force." ;; .leave)
    levelSet := false }

/-! ### Applications -/

/-- `output_results` of the driven cavity on rank 0 and on the others, drivencavity.cc:135-262 -/
def cavityOutput (rank : ℕ) : Prog :=
  .call (.enter "Output solution." ;; (if rank > 0 then .ret else .skip) ;; .leave)

/-- `run` of the driven cavity up to the loop, drivencavity.cc:345-392 -/
def cavitySetup : Prog := .call (.enter "Setup grid and initial condition." ;; mayThrow ;; nsDistributeDofs ;; .leave)

/-- one pass of the loop over the meshes, drivencavity.cc:393-418 -/
def cavityRound (rank : ℕ) : Prog := .call (nsInitData ;; nsAdvance ;; cavityOutput rank ;; refinePressureBased)

/-- `output_results` of the channel, periodic_channel.cc:141-172 -/
def channelOutput : Prog := .call (opt .ret ;; .enter "Output solution." ;; .leave)

/-- `run` of the channel, periodic_channel.cc:306-400 -/
def channelRun : Prog :=
  .call (.enter "Setup grid and initial condition." ;; mayThrow ;; nsDistributeDofs ;; .leave ;; nsInitData ;; channelOutput ;;
    .loop (initTimeAdvance ;; evaluateTimeStep ;; channelOutput))

/-! ## Specification -/
namespace Spec

/-- All sections of the library. -/
def sections : List Name :=
  ["NS distribute DoFs.", "NS setup matrix and vectors.", "NS assemble preconditioner.", "NS build preconditioner.", "NS solve velocity",
   "NS solve pressure", "NS solve system.", "NS apply boundary conditions.", "NS assemble nonlinear residual.",
   "Probe grid refinement.", "Refine grid.", "TP setup problem.", "Create output", "TP create output.",
   "LS compute normal.", "LS compute Heaviside.", "LS compute curvature.", "LS advance concentration.", "LS reinitialization step.",
   "LS compute force.", "Compute normal.", "Compute Heaviside.", "Compute curvature.", "Advance concentration.", "Reinitialization.",
   "Compute force.", "Cahn-Hilliard preconditioner.", "Cahn-Hilliard residual.", "Cahn-Hilliard solve."]

/-- Functions of the flow solver that a user calls. -/
inductive FlowCall
  | distributeDofs | initializeDataStructures | assemblePreconditioner | buildPreconditioner | solveSystem | initTimeAdvance
  | computeInitialResidual | solveNonlinearSystem | evaluateTimeStep | advanceTimeStep | computeInitialStokesField
  | refineGridPressureBased
  deriving DecidableEq

/-- Functions of the two-phase solvers that a user calls. -/
inductive TwoPhaseCall
  | setupProblem | advanceTimeStep | refineGrid | outputSolution
  deriving DecidableEq

end Spec
open Spec

/-- the code of a call -/
def FlowCall.prog : FlowCall → Prog
  | .distributeDofs => nsDistributeDofs
  | .initializeDataStructures => nsInitData
  | .assemblePreconditioner => assemblePrec
  | .buildPreconditioner => buildPrec
  | .solveSystem => solveSystem
  | .initTimeAdvance => initTimeAdvance
  | .computeInitialResidual => computeResidual
  | .solveNonlinearSystem => solveNonlinear
  | .evaluateTimeStep => evaluateTimeStep
  | .advanceTimeStep => nsAdvance
  | .computeInitialStokesField => stokesField
  | .refineGridPressureBased => refinePressureBased

def TwoPhaseCall.prog (S : Solver) : TwoPhaseCall → Prog
  | .setupProblem => setupProblem S
  | .advanceTimeStep => advance S
  | .refineGrid => refineGrid S
  | .outputSolution => output S

/-- A history of calls; every one ends as given. -/
inductive History : List (Prog × Out) → Timer → Timer → Prop
  | nil (t) : History [] t t
  | cons {p o l t t' t''} : Run p t o t' → History l t' t'' → History ((p, o) :: l) t t''

/-! ## Proofs: analysis of the control flow -/

/-- names of a program -/
def Prog.names : Prog → List Name
  | .enter n => [n]
  | .seq p q | .alt p q | .tryCatch p q => p.names ++ q.names
  | .loop p | .call p => p.names
  | .scope n p => n :: p.names
  | _ => []

/-- possible outcomes with the sections active relative to the start; `none` if an assertion may fail -/
def Prog.eff : Prog → List Name → Option (List (Out × List Name))
  | .skip, r => some [(.normal, r)]
  | .enter n, r => if n ∈ r then none else some [(.normal, r ++ [n])]
  | .leave, r => match r.getLast? with
    | none => none
    | some n => some [(.normal, r.erase n)]
  | .ret, r => some [(.ret, r)]
  | .brk, r => some [(.brk, r)]
  | .throw, r => some [(.thrown, r)]
  | .seq p q, r => (p.eff r).bind fun l =>
      l.foldr (fun x acc => acc.bind fun a =>
        if x.1 = .normal then (q.eff x.2).map (· ++ a) else some (x :: a)) (some [])
  | .alt p q, r => (p.eff r).bind fun a => (q.eff r).map (a ++ ·)
  | .loop p, r => (p.eff r).bind fun l =>
      if l.all (fun x => decide (x.1 = .normal ∨ x.1 = .brk → x.2 = r)) then
        some ((.normal, r) :: l.filter fun x => decide (x.1 = .ret ∨ x.1 = .thrown)) else none
  | .scope n p, r => if n ∈ r then none else (p.eff (r ++ [n])).bind fun l =>
      if l.all (fun x => decide (n ∈ x.2)) then some (l.map fun x => (x.1, x.2.erase n)) else none
  | .call p, r => (p.eff r).bind fun l =>
      some ((l.filter fun x => decide (x.1 ≠ .brk)).map fun x => (if x.1 = .ret then .normal else x.1, x.2))
  | .tryCatch p h, r => (p.eff r).bind fun l =>
      l.foldr (fun x acc => acc.bind fun a =>
        if x.1 = .thrown then (h.eff x.2).map (· ++ a) else some (x :: a)) (some [])

/-- members of the fold used for sequences and handlers -/
theorem fold_mem (c : Out) (f : List Name → Option (List (Out × List Name))) (l : List (Out × List Name)) :
    ∀ res, l.foldr (fun x acc => acc.bind fun a =>
        if x.1 = c then (f x.2).map (· ++ a) else some (x :: a)) (some []) = some res →
      ∀ x ∈ l, (x.1 ≠ c → x ∈ res) ∧ (x.1 = c → ∃ m, f x.2 = some m ∧ ∀ y ∈ m, y ∈ res) := by
  induction l with
  | nil => intro res _ x hx; cases hx
  | cons y l ih =>
    intro res h x hx
    simp only [List.foldr_cons] at h
    rw [Option.bind_eq_some_iff] at h
    obtain ⟨a, ha, h⟩ := h
    by_cases hy : y.1 = c
    · rw [if_pos hy, Option.map_eq_some_iff] at h
      obtain ⟨m, hm, rfl⟩ := h
      rcases List.mem_cons.1 hx with rfl | hx
      · exact ⟨fun h => absurd hy h, fun _ => ⟨m, hm, fun y hy => List.mem_append_left _ hy⟩⟩
      · obtain ⟨h1, h2⟩ := ih a ha x hx
        exact ⟨fun h => List.mem_append_right _ (h1 h), fun h => by
          obtain ⟨m', e, hm'⟩ := h2 h
          exact ⟨m', e, fun y hy => List.mem_append_right _ (hm' y hy)⟩⟩
    · rw [if_neg hy] at h
      cases h
      rcases List.mem_cons.1 hx with rfl | hx
      · exact ⟨fun _ => List.mem_cons_self, fun h => absurd h hy⟩
      · obtain ⟨h1, h2⟩ := ih a ha x hx
        exact ⟨fun h => List.mem_cons_of_mem _ (h1 h), fun h => by
          obtain ⟨m', e, hm'⟩ := h2 h
          exact ⟨m', e, fun y hy => List.mem_cons_of_mem _ (hm' y hy)⟩⟩

theorem erase_append' {base r : List Name} {n : Name} (h : n ∉ base) : (base ++ r).erase n = base ++ r.erase n :=
  List.erase_append_right _ h

/-- **soundness**: the analysis covers every execution -/
theorem eff_sound {p : Prog} {t : Timer} {o : Out} {t' : Timer} (h : Run p t o t') :
    ∀ (base r : List Name) (res : List (Out × List Name)), t = ⟨base ++ r, false⟩ → p.eff r = some res →
      (∀ n ∈ base, n ∉ r ∧ n ∉ p.names) →
      ∃ r', (o, r') ∈ res ∧ t' = ⟨base ++ r', false⟩ ∧ ∀ n ∈ base, n ∉ r' := by
  induction h with
  | skip t => intro base r res ht he hb; cases he; exact ⟨r, by simp, ht, fun n hn => (hb n hn).1⟩
  | enter n t =>
    intro base r res ht he hb
    simp only [Prog.eff] at he
    split_ifs at he with hn
    cases he
    subst ht
    refine ⟨r ++ [n], by simp, ?_, ?_⟩
    · have : n ∉ base := fun hm => (hb n hm).2 (by simp [Prog.names])
      simp [Timer.enter, hn, this]
    · intro m hm
      have := hb m hm
      simp only [Prog.names, List.mem_singleton] at this
      simp [this.1, this.2]
  | leave t =>
    intro base r res ht he hb
    simp only [Prog.eff] at he
    cases hr : r.getLast? with
    | none => rw [hr] at he; cases he
    | some n =>
      rw [hr] at he
      cases he
      subst ht
      have hmem : n ∈ r := List.mem_of_getLast? hr
      have hnb : n ∉ base := fun hm => (hb n hm).1 hmem
      refine ⟨r.erase n, by simp, ?_, fun m hm hc => (hb m hm).1 (List.mem_of_mem_erase hc)⟩
      have : (base ++ r).getLast? = some n := by rw [List.getLast?_append, hr]; rfl
      simp only [Timer.leave, this]
      rw [erase_append' hnb]
  | ret t => intro base r res ht he hb; cases he; exact ⟨r, by simp, ht, fun n hn => (hb n hn).1⟩
  | brk t => intro base r res ht he hb; cases he; exact ⟨r, by simp, ht, fun n hn => (hb n hn).1⟩
  | throw t => intro base r res ht he hb; cases he; exact ⟨r, by simp, ht, fun n hn => (hb n hn).1⟩
  | @seq p q t t' o t'' _ _ ih1 ih2 =>
    intro base r res ht he hb
    simp only [Prog.eff] at he
    rw [Option.bind_eq_some_iff] at he
    obtain ⟨l, hl, he⟩ := he
    obtain ⟨r1, hr1, ht1, hb1⟩ := ih1 base r l ht hl fun n hn => ⟨(hb n hn).1, fun h => (hb n hn).2 (List.mem_append_left _ h)⟩
    obtain ⟨m, hm, hsub⟩ := (fold_mem _ _ l res he _ hr1).2 rfl
    obtain ⟨r2, hr2, ht2, hb2⟩ := ih2 base r1 m ht1 hm fun n hn => ⟨hb1 n hn, fun h => (hb n hn).2 (List.mem_append_right _ h)⟩
    exact ⟨r2, hsub _ hr2, ht2, hb2⟩
  | @seqStop p q t o t' _ ho ih1 =>
    intro base r res ht he hb
    simp only [Prog.eff] at he
    rw [Option.bind_eq_some_iff] at he
    obtain ⟨l, hl, he⟩ := he
    obtain ⟨r1, hr1, ht1, hb1⟩ := ih1 base r l ht hl fun n hn => ⟨(hb n hn).1, fun h => (hb n hn).2 (List.mem_append_left _ h)⟩
    exact ⟨r1, (fold_mem _ _ l res he _ hr1).1 ho, ht1, hb1⟩
  | @altL p q t o t' _ ih =>
    intro base r res ht he hb
    simp only [Prog.eff] at he
    rw [Option.bind_eq_some_iff] at he
    obtain ⟨a, ha, he⟩ := he
    rw [Option.map_eq_some_iff] at he
    obtain ⟨b, hb', rfl⟩ := he
    obtain ⟨r1, hr1, ht1, hb1⟩ := ih base r a ht ha fun n hn => ⟨(hb n hn).1, fun h => (hb n hn).2 (List.mem_append_left _ h)⟩
    exact ⟨r1, List.mem_append_left _ hr1, ht1, hb1⟩
  | @altR p q t o t' _ ih =>
    intro base r res ht he hb
    simp only [Prog.eff] at he
    rw [Option.bind_eq_some_iff] at he
    obtain ⟨a, ha, he⟩ := he
    rw [Option.map_eq_some_iff] at he
    obtain ⟨b, hb', rfl⟩ := he
    obtain ⟨r1, hr1, ht1, hb1⟩ := ih base r b ht hb' fun n hn => ⟨(hb n hn).1, fun h => (hb n hn).2 (List.mem_append_right _ h)⟩
    exact ⟨r1, List.mem_append_right _ hr1, ht1, hb1⟩
  | loopEnd p t =>
    intro base r res ht he hb
    simp only [Prog.eff] at he
    rw [Option.bind_eq_some_iff] at he
    obtain ⟨l, hl, he⟩ := he
    split_ifs at he with hall
    cases he
    exact ⟨r, List.mem_cons_self, ht, fun n hn => (hb n hn).1⟩
  | @loopNext p t t' o t'' _ _ ih1 ih2 =>
    intro base r res ht he hb
    have he' := he
    simp only [Prog.eff] at he
    rw [Option.bind_eq_some_iff] at he
    obtain ⟨l, hl, he⟩ := he
    split_ifs at he with hall
    obtain ⟨r1, hr1, ht1, hb1⟩ := ih1 base r l ht hl hb
    rw [List.all_eq_true] at hall
    have e : r1 = r := of_decide_eq_true (hall _ hr1) (Or.inl rfl)
    subst e
    exact ih2 base r1 res ht1 he' hb
  | @loopBrk p t t' _ ih1 =>
    intro base r res ht he hb
    simp only [Prog.eff] at he
    rw [Option.bind_eq_some_iff] at he
    obtain ⟨l, hl, he⟩ := he
    split_ifs at he with hall
    obtain ⟨r1, hr1, ht1, hb1⟩ := ih1 base r l ht hl hb
    rw [List.all_eq_true] at hall
    have e : r1 = r := of_decide_eq_true (hall _ hr1) (Or.inr rfl)
    subst e
    cases he
    exact ⟨r1, List.mem_cons_self, ht1, hb1⟩
  | @loopStop p t o t' _ ho ih1 =>
    intro base r res ht he hb
    simp only [Prog.eff] at he
    rw [Option.bind_eq_some_iff] at he
    obtain ⟨l, hl, he⟩ := he
    split_ifs at he with hall
    obtain ⟨r1, hr1, ht1, hb1⟩ := ih1 base r l ht hl hb
    cases he
    exact ⟨r1, List.mem_cons_of_mem _ (List.mem_filter.2 ⟨hr1, by simpa using ho⟩), ht1, hb1⟩
  | @scope n p t o t' _ ih =>
    intro base r res ht he hb
    simp only [Prog.eff] at he
    split_ifs at he with hn
    rw [Option.bind_eq_some_iff] at he
    obtain ⟨l, hl, he⟩ := he
    split_ifs at he with hall
    cases he
    have hnb : n ∉ base := fun hm => (hb n hm).2 (by simp [Prog.names])
    obtain ⟨r1, hr1, ht1, hb1⟩ := ih base (r ++ [n]) l (by subst ht; simp [Timer.enter, hn, hnb]) hl fun m hm => by
      have := hb m hm
      simp only [Prog.names, List.mem_cons, not_or] at this
      exact ⟨by simp [this.1, this.2.1], this.2.2⟩
    rw [List.all_eq_true] at hall
    have hmem : n ∈ r1 := of_decide_eq_true (hall _ hr1)
    refine ⟨r1.erase n, List.mem_map.2 ⟨_, hr1, rfl⟩, ?_, fun m hm hc => hb1 m hm (List.mem_of_mem_erase hc)⟩
    subst ht1
    simp [Timer.leaveName, hmem, erase_append' hnb]
  | @call p t o t' _ ho ih =>
    intro base r res ht he hb
    simp only [Prog.eff] at he
    rw [Option.bind_eq_some_iff] at he
    obtain ⟨l, hl, he⟩ := he
    cases he
    obtain ⟨r1, hr1, ht1, hb1⟩ := ih base r l ht hl hb
    refine ⟨r1, List.mem_map.2 ⟨_, List.mem_filter.2 ⟨hr1, ?_⟩, ?_⟩, ht1, hb1⟩
    · rcases ho with rfl | rfl <;> simp
    · rcases ho with rfl | rfl <;> simp
  | @callThrow p t t' _ ih =>
    intro base r res ht he hb
    simp only [Prog.eff] at he
    rw [Option.bind_eq_some_iff] at he
    obtain ⟨l, hl, he⟩ := he
    cases he
    obtain ⟨r1, hr1, ht1, hb1⟩ := ih base r l ht hl hb
    exact ⟨r1, List.mem_map.2 ⟨_, List.mem_filter.2 ⟨hr1, by simp⟩, by simp⟩, ht1, hb1⟩
  | @tryOk p q t o t' _ ho ih1 =>
    intro base r res ht he hb
    simp only [Prog.eff] at he
    rw [Option.bind_eq_some_iff] at he
    obtain ⟨l, hl, he⟩ := he
    obtain ⟨r1, hr1, ht1, hb1⟩ := ih1 base r l ht hl fun n hn => ⟨(hb n hn).1, fun h => (hb n hn).2 (List.mem_append_left _ h)⟩
    exact ⟨r1, (fold_mem _ _ l res he _ hr1).1 ho, ht1, hb1⟩
  | @tryCaught p q t t' o t'' _ _ ih1 ih2 =>
    intro base r res ht he hb
    simp only [Prog.eff] at he
    rw [Option.bind_eq_some_iff] at he
    obtain ⟨l, hl, he⟩ := he
    obtain ⟨r1, hr1, ht1, hb1⟩ := ih1 base r l ht hl fun n hn => ⟨(hb n hn).1, fun h => (hb n hn).2 (List.mem_append_left _ h)⟩
    obtain ⟨m, hm, hsub⟩ := (fold_mem _ _ l res he _ hr1).2 rfl
    obtain ⟨r2, hr2, ht2, hb2⟩ := ih2 base r1 m ht1 hm fun n hn => ⟨hb1 n hn, fun h => (hb n hn).2 (List.mem_append_right _ h)⟩
    exact ⟨r2, hsub _ hr2, ht2, hb2⟩

/-- check of a program: analysis succeeds, ends normally or by an exception, and with nothing active in the former case (`clean`: in
both cases) -/
def Prog.ok (clean : Bool) (p : Prog) : Bool :=
  match p.eff [] with
  | none => false
  | some l => l.all fun x => decide ((x.1 = .normal ∨ x.1 = .thrown) ∧ ((x.1 = .normal ∨ clean = true) → x.2 = []))

theorem ok_sound {clean : Bool} {p : Prog} (h : p.ok clean = true) {t t' : Timer} {o : Out} (hr : Run p t o t') (hbad : t.bad = false)
    (hfree : ∀ n ∈ t.active, n ∉ p.names) :
    t'.bad = false ∧ (o = .normal ∨ o = .thrown) ∧ (o = .normal ∨ clean = true → t' = t) ∧ t.active <+: t'.active := by
  obtain ⟨a, b⟩ := t
  simp only at hbad hfree
  subst hbad
  unfold Prog.ok at h
  cases he : p.eff [] with
  | none => rw [he] at h; cases h
  | some l =>
    rw [he] at h
    simp only [List.all_eq_true] at h
    obtain ⟨r', hr', ht', _⟩ := eff_sound hr a [] l (by simp) he fun n hn => ⟨by simp, hfree n hn⟩
    have := of_decide_eq_true (h _ hr')
    subst ht'
    refine ⟨rfl, this.1, fun hc => ?_, List.prefix_append _ _⟩
    have e : r' = [] := this.2 hc
    rw [e, List.append_nil]

/-! ## Theorems -/

/-- code that a user can run: functions of the flow solver, or of one of the three two-phase solvers -/
inductive Api : Prog → Prop
  | flow (c : FlowCall) : Api (FlowCall.prog c)
  | okz (c : TwoPhaseCall) : Api (TwoPhaseCall.prog okz c)
  | okzMatrix (c : TwoPhaseCall) : Api (TwoPhaseCall.prog okzMatrix c)
  | phaseField (c : TwoPhaseCall) : Api (TwoPhaseCall.prog phaseField c)

theorem flow_ok (c : FlowCall) : (FlowCall.prog c).ok false = true ∧ ∀ n ∈ (FlowCall.prog c).names, n ∈ Spec.sections := by
  cases c <;> exact ⟨by decide +kernel, by decide +kernel⟩

theorem okz_ok (c : TwoPhaseCall) : (TwoPhaseCall.prog okz c).ok false = true ∧
    ∀ n ∈ (TwoPhaseCall.prog okz c).names, n ∈ Spec.sections := by
  cases c <;> exact ⟨by decide +kernel, by decide +kernel⟩

theorem okzMatrix_ok (c : TwoPhaseCall) : (TwoPhaseCall.prog okzMatrix c).ok false = true ∧
    ∀ n ∈ (TwoPhaseCall.prog okzMatrix c).names, n ∈ Spec.sections := by
  cases c <;> exact ⟨by decide +kernel, by decide +kernel⟩

theorem phaseField_ok (c : TwoPhaseCall) : (TwoPhaseCall.prog phaseField c).ok false = true ∧
    ∀ n ∈ (TwoPhaseCall.prog phaseField c).names, n ∈ Spec.sections := by
  cases c <;> exact ⟨by decide +kernel, by decide +kernel⟩

theorem api_ok {p : Prog} (h : Api p) : p.ok false = true ∧ ∀ n ∈ p.names, n ∈ Spec.sections := by
  cases h with
  | flow c => exact flow_ok c
  | okz c => exact okz_ok c
  | okzMatrix c => exact okzMatrix_ok c
  | phaseField c => exact phaseField_ok c

/-- **C120 (one call).** For all inputs: a function of a solver, called with none of the library's sections active (any sections of the
user may be), never violates an assertion of the timer; it returns or throws, and if it returns the active sections are the same as
before. If it throws, sections may only have been added. -/
theorem C120_call_partial {p : Prog} (hp : Api p) {t t' : Timer} {o : Out} (hr : Run p t o t') (hbad : t.bad = false)
    (hfree : ∀ n ∈ t.active, n ∉ Spec.sections) :
    t'.bad = false ∧ (o = .normal ∨ o = .thrown) ∧ (o = .normal → t'.active = t.active) ∧ t.active <+: t'.active := by
  obtain ⟨hok, hn⟩ := api_ok hp
  obtain ⟨h1, h2, h3, h4⟩ := ok_sound hok hr hbad fun n hn' hc => hfree n hn' (hn n hc)
  exact ⟨h1, h2, fun h => by rw [h3 (Or.inl h)], h4⟩

/-- **C120 (histories).** Every history of calls of the flow solver and of the two-phase solvers, in any order, in which no exception
leaves a call, never violates an assertion of the timer and ends with the sections that were active at the start. -/
theorem C120_history_partial (l : List (Prog × Out)) (hl : ∀ x ∈ l, Api x.1 ∧ x.2 ≠ .thrown) {t t' : Timer} (h : History l t t')
    (hbad : t.bad = false) (hfree : ∀ n ∈ t.active, n ∉ Spec.sections) : t' = t := by
  induction h with
  | nil t => rfl
  | @cons p o l t t1 t2 hr _ ih =>
    obtain ⟨hp, ho⟩ := hl _ List.mem_cons_self
    obtain ⟨h1, h2, h3, _⟩ := C120_call_partial hp hr hbad hfree
    have e : t1 = t := by
      have := h3 (h2.resolve_right ho)
      cases t1; cases t; simp_all
    subst e
    exact ih (fun x hx => hl x (List.mem_cons_of_mem _ hx)) hbad hfree

/-- **C120 (exceptions).** Nothing stays active either when one of these functions is left by an exception, such as a nonlinear
iteration that did not converge: they can be called again. -/
theorem C120_exceptions_partial {p : Prog} (hp : p ∈ [FlowCall.prog .distributeDofs, FlowCall.prog .assemblePreconditioner,
      FlowCall.prog .buildPreconditioner, FlowCall.prog .solveSystem, FlowCall.prog .computeInitialResidual,
      FlowCall.prog .solveNonlinearSystem, FlowCall.prog .evaluateTimeStep, FlowCall.prog .computeInitialStokesField,
      FlowCall.prog .refineGridPressureBased, TwoPhaseCall.prog okz .outputSolution, TwoPhaseCall.prog okzMatrix .outputSolution])
    {t t' : Timer} {o : Out} (hr : Run p t o t') (hbad : t.bad = false)
    (hfree : ∀ n ∈ t.active, n ∉ Spec.sections) : t' = t := by
  have key : ∀ p ∈ [FlowCall.prog .distributeDofs, FlowCall.prog .assemblePreconditioner,
      FlowCall.prog .buildPreconditioner, FlowCall.prog .solveSystem, FlowCall.prog .computeInitialResidual,
      FlowCall.prog .solveNonlinearSystem, FlowCall.prog .evaluateTimeStep, FlowCall.prog .computeInitialStokesField,
      FlowCall.prog .refineGridPressureBased, TwoPhaseCall.prog okz .outputSolution, TwoPhaseCall.prog okzMatrix .outputSolution],
      p.ok true = true ∧ ∀ n ∈ p.names, n ∈ Spec.sections := by decide +kernel
  obtain ⟨hok, hn⟩ := key p hp
  exact (ok_sound hok hr hbad fun n hn' hc => hfree n hn' (hn n hc)).2.2.1 (Or.inr rfl)

/-- **C120 (applications).** A complete run of the channel, and on rank 0 the set-up and every pass of the driven cavity, leave the
timer as it was if no exception is thrown. -/
theorem C120_applications_partial {p : Prog} (hp : p ∈ [channelRun, cavitySetup, cavityRound 0]) {t t' : Timer} {o : Out}
    (hr : Run p t o t') (ho : o ≠ .thrown) (hbad : t.bad = false)
    (hfree : ∀ n ∈ t.active, n ∉ Spec.sections ∧ n ≠ "Output solution." ∧ n ≠ "Setup grid and initial condition.") : t' = t := by
  have key : ∀ p ∈ [channelRun, cavitySetup, cavityRound 0], p.ok false = true ∧
      ∀ n ∈ p.names, n ∈ "Output solution." :: "Setup grid and initial condition." :: Spec.sections := by decide +kernel
  obtain ⟨hok, hn⟩ := key p hp
  obtain ⟨_, h2, h3, _⟩ := ok_sound hok hr hbad fun n hn' hc => by
    have := hn n hc
    have hf := hfree n hn'
    simp only [List.mem_cons] at this
    tauto
  exact h3 (Or.inl (h2.resolve_right ho))

/-! ### Counterexamples -/

theorem bad_mono {p : Prog} {t t' : Timer} {o : Out} (h : Run p t o t') : t.bad = true → t'.bad = true := by
  induction h with
  | enter n t => intro h; simp [Timer.enter, h]
  | leave t => intro h; unfold Timer.leave; split <;> simp_all
  | seq _ _ i j => exact fun h => j (i h)
  | loopNext _ _ i j => exact fun h => j (i h)
  | tryCaught _ _ i j => exact fun h => j (i h)
  | scope _ i => intro h; have := i (by simp [Timer.enter, h]); simp [Timer.leaveName, this]
  | seqStop _ _ i => exact i
  | altL _ i => exact i
  | altR _ i => exact i
  | loopBrk _ i => exact i
  | loopStop _ _ i => exact i
  | call _ _ i => exact i
  | callThrow _ i => exact i
  | tryOk _ _ i => exact i
  | _ => exact id

theorem run_call_normal {p : Prog} {t t' : Timer} (h : Run (.call p) t .normal t') : ∃ o, (o = .normal ∨ o = .ret) ∧ Run p t o t' := by
  cases h with
  | call h ho => exact ⟨_, ho, h⟩

/-- **C120 (driven cavity).** On every rank but the first, a pass of the driven cavity that does not throw leaves the section "Output
solution." active, for all inputs; the next pass enters it again, which violates the assertion of the timer (a debug build of deal.II
aborts on this rank). -/
theorem C120_cavity (rank : ℕ) (hrank : 0 < rank) {t t1 t2 : Timer} (h1 : Run (cavityRound rank) t .normal t1)
    (h2 : Run (cavityRound rank) t1 .normal t2) (ht : t = ⟨[], false⟩) : t1 = ⟨["Output solution."], false⟩ ∧ t2.bad = true := by
  have hc : cavityRound rank = cavityRound 1 := by unfold cavityRound cavityOutput; simp [hrank]
  rw [hc] at h1 h2
  have heff : ((cavityRound 1).eff []).map (fun l => l.all fun x => decide (x.1 = .normal → x.2 = ["Output solution."])) =
      some true := by decide +kernel
  rw [Option.map_eq_some_iff] at heff
  obtain ⟨l, hl, hall⟩ := heff
  obtain ⟨r, hr, e, _⟩ := eff_sound h1 [] [] l (by rw [ht]; rfl) hl (by simp)
  rw [List.all_eq_true] at hall
  have hr' := of_decide_eq_true (hall _ hr) rfl
  simp only at hr'
  subst hr'
  have e1 : t1 = ⟨["Output solution."], false⟩ := by rw [e]; rfl
  refine ⟨e1, ?_⟩
  -- the second pass
  obtain ⟨o, ho, h2⟩ := run_call_normal h2
  have step : ∀ {p q : Prog} {t t' : Timer} {o : Out}, Run (.seq p q) t o t' → (o = .normal ∨ o = .ret) →
      (∃ t1, Run p t .normal t1 ∧ Run q t1 o t') ∨ Run p t .ret t' := by
    intro p q t t' o h ho
    cases h with
    | seq a b => exact Or.inl ⟨_, a, b⟩
    | seqStop a b => exact Or.inr (by rcases ho with rfl | rfl; exact absurd rfl b; exact a)
  have noret : ∀ {p : Prog} {t t' : Timer}, ¬ Run (.call p) t .ret t' := by intro p t t' h; cases h
  have keep : ∀ {p : Prog}, p.ok false = true → (∀ n ∈ p.names, n ∈ Spec.sections) → ∀ {t'}, Run p t1 .normal t' → t' = t1 := by
    intro p hok hn t' h
    refine (ok_sound hok h (by rw [e1]) ?_).2.2.1 (Or.inl rfl)
    rw [e1]
    intro n hn' hc
    simp only [List.mem_singleton] at hn'
    subst hn'
    exact absurd (hn _ hc) (by decide +kernel)
  rcases step h2 ho with ⟨a, ha, h3⟩ | h3
  · rw [keep (p := nsInitData) (by decide +kernel) (by decide +kernel) ha] at h3
    rcases step h3 ho with ⟨b, hb, h4⟩ | h4
    · rw [keep (p := nsAdvance) (by decide +kernel) (by decide +kernel) hb] at h4
      rcases step h4 ho with ⟨c, hc, h5⟩ | h5
      · refine bad_mono h5 ?_
        obtain ⟨o', _, hc⟩ := run_call_normal hc
        cases hc with
        | seq g1 g2 =>
          refine bad_mono g2 ?_
          cases g1
          rw [e1]
          decide
        | seqStop g1 g2 => cases g1; exact absurd rfl g2
      · exact absurd h5 noret
    · exact absurd h4 noret
  · exact absurd h3 noret

/-- **C120 (exceptions, counterexample).** A set-up of a two-phase solver left by the exception of the initial Stokes problem keeps its
section active; if the caller goes on and sets up again, the assertion of the timer is violated. -/
theorem C120_setup_exception : ∃ t1 t2, Run (TwoPhaseCall.prog phaseField .setupProblem) ⟨[], false⟩ .thrown t1 ∧
    t1.active = ["TP setup problem."] ∧ Run (TwoPhaseCall.prog phaseField .setupProblem) t1 .normal t2 ∧ t2.bad = true := by
  have hdist : ∀ t, Run nsDistributeDofs t .normal (t.enter "NS distribute DoFs.").leave := fun t =>
    .call (.seq (.enter _ _) (.leave _)) (Or.inl rfl)
  have hinit : ∀ t, Run nsInitData t .normal (t.enter "NS setup matrix and vectors.").leave := fun t =>
    .call (.seq (.altR (.skip _)) (.seq (.enter _ _) (.seq (.altR (.skip _)) (.leave _)))) (Or.inl rfl)
  have htp : ∀ t, Run tpInit t .normal (((t.enter "NS distribute DoFs.").leave).enter "NS setup matrix and vectors.").leave := fun t =>
    .seq (hdist t) (hinit _)
  have hstokes : ∀ t, Run stokesField t .thrown
      ((t.enter "NS assemble nonlinear residual.").leaveName "NS assemble nonlinear residual.") := fun t =>
    .callThrow (.seq (.altR (.skip _)) (.altL (.seq (.call (.seq (.scope (.skip _)) (.ret _)) (Or.inr rfl))
      (.callThrow (.seq (.loopEnd _ _) (.seq (.altR (.skip _)) (.seqStop (.altL (.throw _)) (by decide))))))))
  refine ⟨_, _, .callThrow (.seq (.enter _ _) (.seq (htp _) (.seq (.altR (.skip _)) (.seq (.loopEnd _ _)
    (.seqStop (.altL (hstokes _)) (by decide)))))), ?_, .call (.seq (.enter _ _) (.seq (htp _) (.seq (.altR (.skip _))
    (.seq (.loopEnd _ _) (.seq (.altR (.skip _)) (.leave _)))))) (Or.inl rfl), ?_⟩
  · decide +kernel
  · decide +kernel

/-! ### Non-vacuity -/

/-- a time step of the flow solver with two nonlinear iterations that does not converge, inside a section of the user -/
example : ∃ t', Run nsAdvance ⟨["my section"], false⟩ .normal t' := by
  have hasm : ∀ t, Run assemblePrec t .normal (t.enter "NS assemble preconditioner.").leave := fun t =>
    .call (.seq (.enter _ _) (.leave _)) (Or.inl rfl)
  have hb : ∀ t, ∃ t', Run buildPrec t .normal t' := fun t =>
    ⟨_, .call (.seq (hasm t) (.seq (.enter _ _) (.leave _))) (Or.inl rfl)⟩
  have hs : ∀ t, ∃ t', Run solveSystem t .normal t' := fun t =>
    ⟨_, .call (.seq (.altR (.skip _)) (.seq (.enter _ _) (.seq (.tryCaught (.altL (.throw _)) (.altL
      (.tryCaught (.altL (.throw _)) (.skip _)))) (.seq (.leave _) (.ret _))))) (Or.inr rfl)⟩
  have hr : ∀ t, ∃ t', Run computeResidual t .normal t' := fun t =>
    ⟨_, .call (.seq (.scope (.skip _)) (.ret _)) (Or.inr rfl)⟩
  have hbody : ∀ t, ∃ t', Run nonlinearBody t .normal t' := fun t => by
    obtain ⟨t1, h1⟩ := hb t
    obtain ⟨t2, h2⟩ := hs t1
    obtain ⟨t3, h3⟩ := hr t2
    exact ⟨_, .seq (.altL h1) (.seq h2 (.seq (.altR (.skip _)) (.seq h3 (.altR (.skip _)))))⟩
  have hi : ∀ t, ∃ t', Run initTimeAdvance t .normal t' := fun t =>
    ⟨_, .call (.seq (.enter _ _) (.seq (.altR (.skip _)) (.leave _))) (Or.inl rfl)⟩
  obtain ⟨t1, h1⟩ := hi ⟨["my section"], false⟩
  obtain ⟨t2, h2⟩ := hr t1
  obtain ⟨t3, h3⟩ := hbody t2
  obtain ⟨t4, h4⟩ := hbody t3
  have hsolve : Run solveNonlinear t2 .thrown t4 := .callThrow (.seq (.loopNext h3 (.loopNext h4 (.loopEnd _ _)))
    (.seq (.altR (.skip _)) (.seqStop (.altL (.throw _)) (by decide))))
  exact ⟨_, .call (.seq h1 (.seq (.call (.seq h2 (.seq (.tryCaught hsolve (.altR (.skip _))) (.ret _))) (Or.inr rfl)) (.ret _)))
    (Or.inr rfl)⟩

example : ∀ n ∈ (⟨["my section"], false⟩ : Timer).active, n ∉ Spec.sections := by decide +kernel

/-- two passes of the driven cavity on rank 1 that do not throw exist -/
example : ∃ t1 t2, Run (cavityRound 1) ⟨[], false⟩ .normal t1 ∧ Run (cavityRound 1) t1 .normal t2 := by
  have hr : ∀ t, ∃ t', Run computeResidual t .normal t' := fun t =>
    ⟨_, .call (.seq (.scope (.skip _)) (.ret _)) (Or.inr rfl)⟩
  have hn : ∀ t, ∃ t', Run solveNonlinear t .normal t' := fun t =>
    ⟨_, .call (.seq (.loopEnd _ _) (.seq (.altR (.skip _)) (.seq (.altR (.skip _)) (.ret _)))) (Or.inr rfl)⟩
  have hround : ∀ t, ∃ t', Run (cavityRound 1) t .normal t' := fun t => by
    have h0 : ∃ t', Run nsInitData t .normal t' :=
      ⟨_, .call (.seq (.altR (.skip _)) (.seq (.enter _ _) (.seq (.altR (.skip _)) (.leave _)))) (Or.inl rfl)⟩
    obtain ⟨t0, h0⟩ := h0
    have h1 : ∃ t', Run initTimeAdvance t0 .normal t' :=
      ⟨_, .call (.seq (.enter _ _) (.seq (.altR (.skip _)) (.leave _))) (Or.inl rfl)⟩
    obtain ⟨t1, h1⟩ := h1
    obtain ⟨t2, h2⟩ := hr t1
    obtain ⟨t3, h3⟩ := hn t2
    have ha : Run nsAdvance t0 .normal t3 := .call (.seq h1 (.seq (.call (.seq h2 (.seq (.tryOk h3 (by decide)) (.ret _)))
      (Or.inr rfl)) (.ret _))) (Or.inr rfl)
    exact ⟨_, .call (.seq h0 (.seq ha (.seq (.call (.seq (.enter _ _) (.seqStop (.ret _) (by decide))) (Or.inr rfl))
      (.call (.call (.seq (.enter _ _) (.leave _)) (Or.inl rfl)) (Or.inl rfl))))) (Or.inl rfl)⟩
  obtain ⟨t1, h1⟩ := hround ⟨[], false⟩
  obtain ⟨t2, h2⟩ := hround t1
  exact ⟨t1, t2, h1, h2⟩

end Verif.Timing
