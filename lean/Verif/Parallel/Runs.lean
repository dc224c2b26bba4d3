/-
# C103: parallel runs compute what a run on one process computes

For every history of API calls of the flow solver, the phase field solver, the level set
solver and the two sharp-interface solvers: no deal.II assertion about ghost values fails and
the owned entries of all vectors and all scalars (norms, iteration counts, output) are those
of the same history executed in one memory, hence those of a one-process run.  What the
routines compute is arbitrary (`Ops`): a single outdated copy that is read anywhere makes the
statement false for some `Ops`.
-/
import Verif.Parallel.Programs

namespace Verif.Parallel

set_option maxRecDepth 100000
set_option linter.unusedSectionVars false

/-! ## Histories -/

section Run
variable {R I C S K : Type} [DecidableEq R] [Fintype R] [Fintype I] [Fintype C] [AddCommMonoid K]

/-- A history of calls on several processes; `none`: an assertion fails. -/
def run (o : Ops I C K S) (e : Env R I C K S) :
    List P → State Vec R I C S K → Option (State Vec R I C S K)
  | [], s => some s
  | p :: ps, s => (p.exec o e s).bind (run o e ps)

/-- The same history in one memory. -/
def sharedRun (o : Ops I C K S) : List P → Mem Vec I S K → Mem Vec I S K
  | [], m => m
  | p :: ps, m => sharedRun o ps (p.shared o m)

/-- All processes have flagged and current copies of the vector. -/
def PVec.Up (x : PVec R I K) : Prop := x.flag = true ∧ ∀ r i, x.gh r i = x.own i

end Run

/-! ## Triples -/

section Triples
variable {R I C S K : Type} [DecidableEq R] [Fintype R] [Fintype I] [Fintype C] [AddCommMonoid K]

/-- From every state with statuses `a` the program runs, with the results of the execution in
one memory, to statuses `b`. -/
def Triple (o : Ops I C K S) (e : Env R I C K S) (a : Abs Vec) (p : P) (b : Abs Vec) : Prop :=
  ∀ s : State Vec R I C S K, s.Sat a → Good (p.exec o e s) (p.shared o s.mem) b

/-- The static check succeeds with statuses at least `b`. -/
def passes (d : Bool) (a : Abs Vec) (p : P) (b : Abs Vec) : Bool :=
  match p.check d a with
  | none => false
  | some c => c.le b

variable {o : Ops I C K S} {e : Env R I C K S}

theorem Triple.of {d : Bool} (he : d = true → e.Tidy o) {a b : Abs Vec} {p : P}
    (h : passes d a p b = true) : Triple o e a p b := by
  intro s hs
  unfold passes at h
  cases hc : p.check d a with
  | none => rw [hc] at h; cases h
  | some c =>
    rw [hc] at h
    obtain ⟨t, h1, h2, h3⟩ := Prog.sound o e he p s a c hs hc
    exact ⟨t, h1, h2.mono h, h3⟩

theorem Triple.seq {a b c : Abs Vec} {p q : P} (h : Triple o e a p b) (k : Triple o e b q c) :
    Triple o e a (.seq p q) c := by
  intro s hs
  obtain ⟨s1, h1, h2, h3⟩ := h s hs
  obtain ⟨s2, k1, k2, k3⟩ := k s1 h2
  refine ⟨s2, ?_, k2, ?_⟩
  · simp only [Prog.exec]; rw [h1, Option.bind_some, k1]
  · simp only [Prog.shared]; rw [← h3, k3]

theorem Triple.ite {a b : Abs Vec} {p q : P} {l : String} (h : Triple o e a p b)
    (k : Triple o e a q b) : Triple o e a (.ite l p q) b := by
  intro s hs
  have e1 : s.mem.aux = s.aux := rfl
  simp only [Prog.exec, Prog.shared, e1]
  split_ifs
  · exact h s hs
  · exact k s hs

theorem Triple.iter {a : Abs Vec} {p : P} {l : String} (h : Triple o e a p a) :
    Triple o e a (.iter l p) a := fun s hs =>
  iter_sound (f := p.exec o e) (g := p.shared o) (fun t ht => h t ht) (o.cond l)
    (o.count l s.aux) s hs

theorem Triple.pre {a a' b : Abs Vec} {p : P} (h : Triple o e a p b) (ha : a'.le a = true) :
    Triple o e a' p b := fun s hs => h s (hs.mono ha)

theorem Triple.skip {a : Abs Vec} : Triple o e a .skip a := fun s hs => ⟨s, rfl, hs, rfl⟩

/-- A history of calls. -/
theorem run_cons {Q : State Vec R I C S K → Prop} {a b : Abs Vec} {p : P} {ps : List P} {s : State Vec R I C S K}
    (h : Triple o e a p b) (hs : s.Sat a)
    (k : ∀ s1 : State Vec R I C S K, s1.Sat b →
      ∃ t, run o e ps s1 = some t ∧ t.mem = sharedRun o ps s1.mem ∧ Q t) :
    ∃ t, run o e (p :: ps) s = some t ∧ t.mem = sharedRun o (p :: ps) s.mem ∧ Q t := by
  obtain ⟨s1, h1, h2, h3⟩ := h s hs
  obtain ⟨t, k1, k2, k3⟩ := k s1 h2
  refine ⟨t, ?_, ?_, k3⟩
  · simp only [run]; rw [h1, Option.bind_some, k1]
  · simp only [sharedRun]; rw [← h3, k2]

end Triples

/-! ## Statuses between calls and their preservation -/

/-- Which solver. -/
inductive Kind where
  | base | flow | two | level
  deriving DecidableEq

def Kind.isFlow : Kind → Bool
  | .base => false
  | _ => true
def Kind.isTwo : Kind → Bool
  | .two => true
  | .level => true
  | _ => false
def Kind.isLevel : Kind → Bool
  | .level => true
  | _ => false

/-- Statuses between calls: temporaries without ghosts, solution fields current.  `q`: the
pressure is not renewed at the end of a step (projection scheme with open boundary). -/
def inv (q : Bool) (k : Kind) : Abs Vec := fun v => match v with
  | .u => if k.isFlow then .fresh else .any
  | .uo => if k.isFlow then .fresh else .any
  | .p => if k.isFlow && !q then .fresh else .any
  | .c => if k.isTwo then .fresh else .any
  | .w => if k.isTwo then .fresh else .any
  | .co => if k.isTwo then .fresh else .any
  | .wo => if k.isTwo then .fresh else .any
  | .n => if k.isLevel then .fresh else .any
  | .h => if k.isLevel then .fresh else .any
  | .su => .off
  | .sp => .off
  | .fu => .un
  | .fp => .off
  | .tp => .off
  | .tq => .off
  | _ => .any

/-- Statuses in the middle of a step. -/
def mid (k : Kind) : Abs Vec := fun v => match v with
  | .p => .fresh
  | .uoo => .fresh
  | v => inv false k v

/-- Statuses after init_time_advance of the two-phase solvers. -/
def started : Abs Vec := fun v => match v with
  | .coo => .fresh
  | .woo => .fresh
  | .dc => .ok
  | .dw => .ok
  | v => mid .two v

/-- Parameters of the flow solver. -/
def flowCfg (a b c d e f : Bool) : Cfg :=
  ⟨a, b, c, d, e, f, false, false, false, false, false, false⟩

theorem evaluate_flow : ∀ a b c d e f : Bool,
    passes false (mid .flow) (evaluateStep (flowCfg a b c d e f)) (inv (a && b) .flow)
      = true := by decide +kernel
theorem evaluate_two : ∀ a b c d e f : Bool,
    passes false (mid .two) (evaluateStep (flowCfg a b c d e f)) (inv (a && b) .two)
      = true := by decide +kernel
theorem residual_level : ∀ a b c d e f : Bool,
    passes false (mid .level) (residual (flowCfg a b c d e f)) (mid .level)
      = true := by decide +kernel
theorem nonlinear_level : ∀ a b c d e f : Bool,
    passes false (mid .level) (solveNonlinear (flowCfg a b c d e f)) (inv (a && b) .level)
      = true := by decide +kernel

theorem flow_checks : ∀ a b c d e f : Bool,
    let cfg := flowCfg a b c d e f
    let q := a && b
    passes false (fun _ => .any) flowSetup (inv q .flow) = true ∧
    passes false (inv q .flow) (flowInit cfg) (mid .flow) = true ∧
    passes false (inv q .flow) (applyBoundary cfg) (mid .flow) = true ∧
    passes false (inv q .flow) (flowRefine cfg) (inv q .flow) = true ∧
    passes false (inv q .flow) flowOutput (inv q .flow) = true ∧
    passes false (inv q .two) (applyBoundary cfg) (mid .two) = true ∧
    passes false (inv q .two) (twoPhaseInit cfg) started = true ∧
    passes false (inv q .two) (adapt cfg) (inv q .two) = true ∧
    passes false (inv q .two) (twoPhaseAdapt cfg markPhaseField) (inv q .two) = true ∧
    passes false (inv q .two) (twoPhaseAdapt cfg (markLevelSet true)) (inv q .two) = true := by
  decide +kernel

theorem two_checks : ∀ q : Bool,
    passes false (fun _ => .any) twoPhaseStart (inv q .two) = true ∧
    passes false (inv q .two) markPhaseField (inv q .two) = true ∧
    passes false (inv q .two) twoPhaseOutput (inv q .two) = true ∧
    passes false (inv q .two) statistics (inv q .two) = true ∧
    passes false (inv q .two) (markLevelSet true) (inv q .two) = true ∧
    passes false (inv q .level) (markLevelSet false) (inv q .level) = true ∧
    passes false (inv q .level) statistics (inv q .level) = true ∧
    passes false (inv q .two) (seqs [reinitialize, computeHeaviside]) (inv q .two) = true ∧
    passes false (mid .two) reinitialize (mid .two) = true ∧
    passes false (mid .two) phaseFieldForce (mid .two) = true := by decide +kernel

theorem cahnHilliard_checks : ∀ g : Bool,
    passes true started
      (cahnHilliard ⟨false, false, false, false, false, false, false, g, false, false, false, false⟩)
      (mid .two) = true := by decide +kernel

theorem level_checks : ∀ a g v : Bool,
    let cfg : Cfg := ⟨a, false, false, false, false, false, false, false, g, false, false, v⟩
    passes false started (advanceConcentration cfg transportSolver) (mid .two) = true ∧
    passes false (mid .two) (levelSetForce cfg) (mid .level) = true ∧
    passes false (inv false .two) (levelSetOutput cfg true) (inv false .two) = true ∧
    passes false (inv false .level) (levelSetOutput cfg false) (inv false .level) = true := by
  decide +kernel

theorem mixed_checks : ∀ q g a b v : Bool,
    let cfg : Cfg := ⟨false, false, false, false, false, false, false, false, g, a, b, v⟩
    passes false (inv q .flow) (mixedCtor cfg) (inv true .base) = true ∧
    passes false (inv true .base)
      (seqs [sharpLevelSetSolve cfg, opt cfg.surfaceMesh moveSurface, mixedForces cfg,
        put "set_zero" .fu [.fu]]) (inv true .base) = true := by
  decide +kernel

/-! ### Routines for all parameters -/

section Routines
variable {R I C S K : Type} [DecidableEq R] [Fintype R] [Fintype I] [Fintype C] [AddCommMonoid K]
  {o : Ops I C K S} {e : Env R I C K S}

/-- Checks that do not depend on how `distribute` treats ghosts. -/
theorem Triple.plain {a b : Abs Vec} {p : P} (h : passes false a p b = true) :
    Triple o e a p b := Triple.of (d := false) (fun h => by cases h) h

/-- Projection scheme with open boundary: the pressure is not renewed after its last change. -/
def Cfg.openProjection (cfg : Cfg) : Bool := cfg.projection && cfg.openBoundary

/-- The checks for the parameters of `cfg`. -/
theorem checks (cfg : Cfg) :
    let q := cfg.openProjection
    passes false (fun _ => .any) flowSetup (inv q .flow) = true ∧
    passes false (inv q .flow) (flowInit cfg) (mid .flow) = true ∧
    passes false (inv q .flow) (applyBoundary cfg) (mid .flow) = true ∧
    passes false (inv q .flow) (flowRefine cfg) (inv q .flow) = true ∧
    passes false (inv q .flow) flowOutput (inv q .flow) = true ∧
    passes false (inv q .two) (applyBoundary cfg) (mid .two) = true ∧
    passes false (inv q .two) (twoPhaseInit cfg) started = true ∧
    passes false (inv q .two) (adapt cfg) (inv q .two) = true ∧
    passes false (inv q .two) (twoPhaseAdapt cfg markPhaseField) (inv q .two) = true ∧
    passes false (inv q .two) (twoPhaseAdapt cfg (markLevelSet true)) (inv q .two) = true :=
  flow_checks cfg.projection cfg.openBoundary cfg.pressureFix cfg.timeDependent cfg.stationary
    cfg.implicit

theorem evaluateFlow (cfg : Cfg) :
    Triple o e (mid .flow) (evaluateStep cfg) (inv cfg.openProjection .flow) :=
  Triple.plain (evaluate_flow cfg.projection cfg.openBoundary cfg.pressureFix cfg.timeDependent
    cfg.stationary cfg.implicit)

theorem evaluateTwo (cfg : Cfg) :
    Triple o e (mid .two) (evaluateStep cfg) (inv cfg.openProjection .two) :=
  Triple.plain (evaluate_two cfg.projection cfg.openBoundary cfg.pressureFix cfg.timeDependent
    cfg.stationary cfg.implicit)

theorem flowStep_ok (cfg : Cfg) :
    Triple o e (inv cfg.openProjection .flow) (flowStep cfg) (inv cfg.openProjection .flow) :=
  Triple.seq (Triple.plain (checks cfg).2.1) (evaluateFlow cfg)

theorem stokesFlow_ok (cfg : Cfg) :
    Triple o e (inv cfg.openProjection .flow) (stokes cfg) (inv cfg.openProjection .flow) :=
  Triple.seq (Triple.plain (checks cfg).2.2.1)
    (Triple.seq (a := mid .flow) (b := mid .flow) (Triple.plain (by decide +kernel))
      (Triple.ite (evaluateFlow cfg)
        (Triple.pre Triple.skip (by
          unfold Cfg.openProjection
          cases cfg.projection <;> cases cfg.openBoundary <;> decide +kernel))))

theorem stokesTwo_ok (cfg : Cfg) :
    Triple o e (inv cfg.openProjection .two) (stokes cfg) (inv cfg.openProjection .two) :=
  Triple.seq (Triple.plain (checks cfg).2.2.2.2.2.1)
    (Triple.seq (a := mid .two) (b := mid .two) (Triple.plain (by decide +kernel))
      (Triple.ite (evaluateTwo cfg)
        (Triple.pre Triple.skip (by
          unfold Cfg.openProjection
          cases cfg.projection <;> cases cfg.openBoundary <;> decide +kernel))))

theorem twoPhaseSetup_ok (cfg : Cfg) (mark : P)
    (h : passes false (inv cfg.openProjection .two) (twoPhaseAdapt cfg mark)
      (inv cfg.openProjection .two) = true) :
    Triple o e (fun _ => .any) (twoPhaseSetup cfg mark) (inv cfg.openProjection .two) :=
  Triple.seq (Triple.plain (two_checks _).1)
    (Triple.seq (Triple.iter (Triple.plain h))
      (Triple.seq (b := inv cfg.openProjection .two)
        (Triple.plain (by
          unfold Cfg.openProjection
          cases cfg.projection <;> cases cfg.openBoundary <;> decide +kernel))
        (Triple.ite (stokesTwo_ok cfg) Triple.skip)))

theorem phaseFieldStep_ok (he : e.Tidy o) (cfg : Cfg) :
    Triple o e (inv cfg.openProjection .two) (phaseFieldStep cfg)
      (inv cfg.openProjection .two) :=
  Triple.seq (Triple.plain (checks cfg).2.2.2.2.2.2.1)
    (Triple.seq (Triple.of (d := true) (fun _ => he) (cahnHilliard_checks cfg.contactAngle))
      (Triple.seq (Triple.plain (two_checks cfg.openProjection).2.2.2.2.2.2.2.2.2)
        (evaluateTwo cfg)))

theorem levelSetStep_ok (cfg : Cfg) (hst : cfg.stabilization = false) :
    Triple o e (inv cfg.openProjection .two) (levelSetStep cfg)
      (inv cfg.openProjection .level) := by
  have hl := level_checks cfg.projection cfg.curvatureCorrection cfg.variableParameters
  have hadv : Triple o e started (advanceConcentration cfg transportSolver) (mid .two) := by
    obtain ⟨a, b, c, d, f, g, _, k, l, m, n, q⟩ := cfg
    cases hst
    exact Triple.plain (level_checks a l q).1
  have hforce : Triple o e (mid .two) (levelSetForce cfg) (mid .level) := Triple.plain hl.2.1
  have hre : Triple o e (mid .two) reinitialize (mid .two) :=
    Triple.plain (two_checks cfg.openProjection).2.2.2.2.2.2.2.2.1
  have hres : Triple o e (mid .level) (residual cfg) (mid .level) :=
    Triple.plain (residual_level cfg.projection cfg.openBoundary cfg.pressureFix
      cfg.timeDependent cfg.stationary cfg.implicit)
  have hle : (mid .level).le (mid .two) = true := by decide +kernel
  exact Triple.seq (Triple.plain (checks cfg).2.2.2.2.2.2.1)
    (Triple.seq hadv (Triple.seq hre (Triple.seq hforce (Triple.seq hres
      (Triple.seq (b := mid .level)
        (Triple.ite (Triple.seq (Triple.pre hre hle) (Triple.seq hforce hres)) Triple.skip)
        (Triple.plain (nonlinear_level cfg.projection cfg.openBoundary cfg.pressureFix
          cfg.timeDependent cfg.stationary cfg.implicit)))))))

end Routines

/-! ## API calls and histories -/

/-- Calls of NavierStokes after setup_problem: advance_time_step,
compute_initial_stokes_field, refine_grid_pressure_based, output_solution. -/
inductive FlowCall where
  | step | stokes | refine | output
  deriving DecidableEq

def FlowCall.prog (cfg : Cfg) : FlowCall → P
  | .step => flowStep cfg
  | .stokes => Parallel.stokes cfg
  | .refine => flowRefine cfg
  | .output => flowOutput

/-- Calls of the two-phase solvers after setup_problem: advance_time_step, output_solution,
refine_grid (with its outcome: mesh changed or not) and the statistics. -/
inductive TwoCall where
  | step | output | refine (changed : Bool) | statistics
  deriving DecidableEq

def TwoCall.phaseField (cfg : Cfg) : TwoCall → P
  | .step => phaseFieldStep cfg
  | .output => twoPhaseOutput
  | .refine b => seqs [markPhaseField, opt b (adapt cfg)]
  | .statistics => Parallel.statistics

/-- Where a run of the level set solver stands: before the first step, after a step, after a
change of the mesh since the last step (normals, curvature and Heaviside function are lost
until the next step). -/
inductive Stage where
  | initial | stepped | adapted
  deriving DecidableEq

def Stage.next : Stage → TwoCall → Stage
  | _, .step => .stepped
  | .stepped, .refine true => .adapted
  | g, _ => g

/-- Output and marking use the normals of the last step. -/
def Stage.allows : Stage → TwoCall → Bool
  | .adapted, .output => false
  | .adapted, .refine _ => false
  | _, _ => true

/-- Histories without output or refinement between a change of the mesh and the next step. -/
def Stage.Legal : Stage → List TwoCall → Prop
  | _, [] => True
  | g, c :: cs => g.allows c = true ∧ (g.next c).Legal cs

instance Stage.decLegal : ∀ (g : Stage) (cs : List TwoCall), Decidable (g.Legal cs)
  | _, [] => .isTrue trivial
  | g, c :: cs => @instDecidableAnd _ _ _ (Stage.decLegal (g.next c) cs)

def TwoCall.levelSet (cfg : Cfg) (g : Stage) : TwoCall → P
  | .step => levelSetStep cfg
  | .output => levelSetOutput cfg (g == .initial)
  | .refine b => seqs [markLevelSet (g == .initial), opt b (adapt cfg)]
  | .statistics => Parallel.statistics

def levelSetCalls (cfg : Cfg) : Stage → List TwoCall → List P
  | _, [] => []
  | g, c :: cs => c.levelSet cfg g :: levelSetCalls cfg (g.next c) cs

/-- Calls of the sharp-interface solvers. -/
inductive SharpCall where
  | step | output
  deriving DecidableEq

def SharpCall.mixed (cfg : Cfg) : SharpCall → P
  | .step => mixedStep cfg
  | .output => mixedOutput

def SharpCall.front (cfg : Cfg) : SharpCall → P
  | .step => frontStep cfg
  | .output => frontOutput

section Theorems
variable {R I C S K : Type} [DecidableEq R] [Fintype R] [Fintype I] [Fintype C] [AddCommMonoid K]

theorem run_nil {Q : State Vec R I C S K → Prop} {o : Ops I C K S} {e : Env R I C K S}
    {s : State Vec R I C S K} (hq : Q s) :
    ∃ t, run o e [] s = some t ∧ t.mem = sharedRun o [] s.mem ∧ Q t := ⟨s, rfl, rfl, hq⟩

theorem run_inv {α : Type} {Q : State Vec R I C S K → Prop} {o : Ops I C K S}
    {e : Env R I C K S} {J : Abs Vec} (f : α → P) (hQ : ∀ s, State.Sat s J → Q s) :
    ∀ (cs : List α) (_ : ∀ c ∈ cs, Triple o e J (f c) J) (s : State Vec R I C S K), s.Sat J →
      ∃ t, run o e (cs.map f) s = some t ∧ t.mem = sharedRun o (cs.map f) s.mem ∧ Q t
  | [], _, s, hs => run_nil (hQ s hs)
  | c :: cs, h, s, hs =>
    run_cons (h c List.mem_cons_self) hs
      (run_inv f hQ cs fun d hd => h d (List.mem_cons_of_mem c hd))

theorem sat_any (s : State Vec R I C S K) : s.Sat (fun _ => .any) := fun _ => trivial

theorem Sat.up {s : State Vec R I C S K} {a : Abs Vec} (h : s.Sat a) {v : Vec}
    (hv : a v = .fresh) : (s.vec v).Up := by
  have := h v
  rw [hv] at this
  exact this

/-- **C103, flow solver.**  On any number of processes, for any partition and any computations,
every history of calls runs without failed ghost assertion, has the owned values and scalars
of the execution in one memory, and leaves current copies of the velocity and (except for the
projection scheme with open boundaries) of the pressure on all processes. -/
theorem C103_flow_partial (o : Ops I C K S) (e : Env R I C K S) (cfg : Cfg) (calls : List FlowCall)
    (s : State Vec R I C S K) :
    ∃ t, run o e (flowSetup :: calls.map (·.prog cfg)) s = some t ∧
      t.mem = sharedRun o (flowSetup :: calls.map (·.prog cfg)) s.mem ∧
      (t.vec .u).Up ∧ (¬ (cfg.projection = true ∧ cfg.openBoundary = true) → (t.vec .p).Up) := by
  refine run_cons (Triple.plain (checks cfg).1) (sat_any s) (run_inv _ ?_ calls ?_)
  · intro t ht
    refine ⟨Sat.up ht rfl, fun hq => Sat.up ht ?_⟩
    have : cfg.openProjection = false := by
      unfold Cfg.openProjection
      cases h1 : cfg.projection <;> cases h2 : cfg.openBoundary <;> simp_all
    rw [this]; rfl
  · intro c _
    cases c with
    | step => exact flowStep_ok cfg
    | stokes => exact stokesFlow_ok cfg
    | refine => exact Triple.plain (checks cfg).2.2.2.1
    | output => exact Triple.plain (checks cfg).2.2.2.2.1

/-- **C103, phase field solver.**  As above, provided that `AffineConstraints::distribute`
leaves a vector in the ghosted state only with current copies. -/
theorem C103_phase_field_partial (o : Ops I C K S) (e : Env R I C K S) (he : e.Tidy o) (cfg : Cfg)
    (calls : List TwoCall) (s : State Vec R I C S K) :
    ∃ t, run o e (twoPhaseSetup cfg markPhaseField :: calls.map (·.phaseField cfg)) s = some t ∧
      t.mem = sharedRun o (twoPhaseSetup cfg markPhaseField :: calls.map (·.phaseField cfg))
        s.mem ∧
      (t.vec .u).Up ∧ (t.vec .c).Up ∧ (t.vec .w).Up := by
  refine run_cons (twoPhaseSetup_ok cfg _ (checks cfg).2.2.2.2.2.2.2.2.1) (sat_any s)
    (run_inv _ ?_ calls ?_)
  · intro t ht
    exact ⟨Sat.up ht rfl, Sat.up ht rfl, Sat.up ht rfl⟩
  · intro c _
    cases c with
    | step => exact phaseFieldStep_ok he cfg
    | output => exact Triple.plain (two_checks cfg.openProjection).2.2.1
    | refine b =>
      have hm := Triple.plain (o := o) (e := e) (two_checks cfg.openProjection).2.1
      cases b with
      | false => exact Triple.seq hm Triple.skip
      | true => exact Triple.seq hm (Triple.plain (checks cfg).2.2.2.2.2.2.2.1)
    | statistics => exact Triple.plain (two_checks cfg.openProjection).2.2.2.1

def Stage.inv (q : Bool) : Stage → Abs Vec
  | .stepped => Parallel.inv q .level
  | _ => Parallel.inv q .two

theorem Stage.inv_le (q : Bool) (g : Stage) : (g.inv q).le (Parallel.inv q .two) = true := by
  cases g <;> cases q <;> decide +kernel

/-- Where a run stands after a history. -/
def Stage.after : Stage → List TwoCall → Stage
  | g, [] => g
  | g, c :: cs => (g.next c).after cs

theorem levelSetCalls_sat (o : Ops I C K S) (e : Env R I C K S) (cfg : Cfg)
    (hst : cfg.stabilization = false) :
    ∀ (cs : List TwoCall) (g : Stage) (s : State Vec R I C S K), g.Legal cs →
      (cfg.projection = true → cfg.openBoundary = true → TwoCall.output ∉ cs) →
      s.Sat (g.inv cfg.openProjection) →
      ∃ t, run o e (levelSetCalls cfg g cs) s = some t ∧
        t.mem = sharedRun o (levelSetCalls cfg g cs) s.mem ∧
        t.Sat ((g.after cs).inv cfg.openProjection)
  | [], g, s, _, _, hs => run_nil hs
  | c :: cs, g, s, hl, ho, hs => by
    refine run_cons (b := (g.next c).inv cfg.openProjection) ?_ hs
      (fun s1 h1 => levelSetCalls_sat o e cfg hst cs (g.next c) s1 hl.2
        (fun h2 h3 h4 => ho h2 h3 (List.mem_cons_of_mem c h4)) h1)
    have hq : c = .output → cfg.openProjection = false := by
      intro hc
      unfold Cfg.openProjection
      cases h2 : cfg.projection
      · rfl
      · cases h3 : cfg.openBoundary
        · rfl
        · exact absurd (hc ▸ List.mem_cons_self) (ho h2 h3)
    have hl1 := hl.1
    have hlc := level_checks cfg.projection cfg.curvatureCorrection cfg.variableParameters
    have htc := two_checks cfg.openProjection
    cases c with
    | step => exact Triple.pre (levelSetStep_ok cfg hst) (Stage.inv_le _ g)
    | output =>
      have hq := hq rfl
      rw [hq]
      cases g with
      | initial => exact Triple.plain hlc.2.2.1
      | stepped => exact Triple.plain hlc.2.2.2
      | adapted => cases hl1
    | refine b =>
      cases g with
      | initial =>
        have hm := Triple.plain (o := o) (e := e) htc.2.2.2.2.1
        cases b with
        | false => exact Triple.seq hm Triple.skip
        | true => exact Triple.seq hm (Triple.plain (checks cfg).2.2.2.2.2.2.2.1)
      | stepped =>
        have hm := Triple.plain (o := o) (e := e) htc.2.2.2.2.2.1
        cases b with
        | false => exact Triple.seq hm Triple.skip
        | true =>
          exact Triple.seq hm (Triple.pre (Triple.plain (checks cfg).2.2.2.2.2.2.2.1)
            (Stage.inv_le _ .stepped))
      | adapted => cases hl1
    | statistics =>
      cases g with
      | initial => exact Triple.plain htc.2.2.2.1
      | stepped => exact Triple.plain htc.2.2.2.2.2.2.1
      | adapted => exact Triple.plain htc.2.2.2.1

theorem levelSetCalls_ok (o : Ops I C K S) (e : Env R I C K S) (cfg : Cfg)
    (hst : cfg.stabilization = false) (cs : List TwoCall) (g : Stage) (s : State Vec R I C S K)
    (hl : g.Legal cs)
    (ho : cfg.projection = true → cfg.openBoundary = true → TwoCall.output ∉ cs)
    (hs : s.Sat (g.inv cfg.openProjection)) :
    ∃ t, run o e (levelSetCalls cfg g cs) s = some t ∧
      t.mem = sharedRun o (levelSetCalls cfg g cs) s.mem ∧
      (t.vec .u).Up ∧ (t.vec .c).Up ∧ (t.vec .w).Up := by
  obtain ⟨t, h1, h2, h3⟩ := levelSetCalls_sat o e cfg hst cs g s hl ho hs
  have h := h3.mono (Stage.inv_le _ _)
  exact ⟨t, h1, h2, Sat.up h rfl, Sat.up h rfl, Sat.up h rfl⟩

/-- **C103, level set solver.**  As above, without convection stabilization, for histories
without output or refinement between a change of the mesh and the next step, and without
output for the projection scheme with open boundaries. -/
theorem C103_level_set_partial (o : Ops I C K S) (e : Env R I C K S) (cfg : Cfg)
    (hst : cfg.stabilization = false) (calls : List TwoCall) (hl : Stage.initial.Legal calls)
    (ho : cfg.projection = true → cfg.openBoundary = true → TwoCall.output ∉ calls)
    (s : State Vec R I C S K) :
    ∃ t, run o e (levelSetSetup cfg :: levelSetCalls cfg .initial calls) s = some t ∧
      t.mem = sharedRun o (levelSetSetup cfg :: levelSetCalls cfg .initial calls) s.mem ∧
      (t.vec .u).Up ∧ (t.vec .c).Up ∧ (t.vec .w).Up := by
  refine run_cons (b := inv cfg.openProjection .two) ?_ (sat_any s)
    (fun s1 h1 => levelSetCalls_ok o e cfg hst calls .initial s1 hl ho h1)
  exact Triple.seq (twoPhaseSetup_ok cfg _ (checks cfg).2.2.2.2.2.2.2.2.2)
    (Triple.plain (two_checks cfg.openProjection).2.2.2.2.2.2.2.1)

/-- **C103, mixed level set solver** (all three variants of the surface tension), without
convection stabilization. -/
theorem C103_mixed_partial (o : Ops I C K S) (e : Env R I C K S) (cfg : Cfg)
    (hst : cfg.stabilization = false) (calls : List SharpCall) (s : State Vec R I C S K) :
    ∃ t, run o e (flowSetup :: mixedCtor cfg :: calls.map (·.mixed cfg)) s = some t ∧
      t.mem = sharedRun o (flowSetup :: mixedCtor cfg :: calls.map (·.mixed cfg)) s.mem := by
  have main : ∃ t, run o e (flowSetup :: mixedCtor cfg :: calls.map (·.mixed cfg)) s = some t ∧
      t.mem = sharedRun o (flowSetup :: mixedCtor cfg :: calls.map (·.mixed cfg)) s.mem ∧
      True := by
    have hm : passes false (inv cfg.openProjection .flow) (mixedCtor cfg) (inv true .base) = true ∧
        passes false (inv true .base)
          (seqs [sharpLevelSetSolve cfg, opt cfg.surfaceMesh moveSurface, mixedForces cfg,
            put "set_zero" .fu [.fu]]) (inv true .base) = true := by
      obtain ⟨a, b, c, d, f, g, _, k, l, m, n, q⟩ := cfg
      cases hst
      exact mixed_checks (a && b) l m n q
    refine run_cons (Triple.plain (checks cfg).1) (sat_any s) ?_
    intro s1 h1
    refine run_cons (b := inv true .base) (Triple.plain hm.1) h1 (run_inv _ (fun _ _ => trivial)
      calls ?_)
    intro c _
    cases c with
    | step =>
      intro s hs
      obtain ⟨s2, k1, k2, k3⟩ := Triple.plain (o := o) (e := e) hm.2 s hs
      have hf : Triple o e (inv true .base) (flowStep cfg) (inv true .base) := by
        refine Triple.seq (b := mid .flow) ?_ ?_
        · have : ∀ a b c d e f : Bool, passes false (inv true .base)
              (flowInit (flowCfg a b c d e f)) (mid .flow) = true := by decide +kernel
          exact Triple.plain (this cfg.projection cfg.openBoundary cfg.pressureFix
            cfg.timeDependent cfg.stationary cfg.implicit)
        · intro s hs
          obtain ⟨t, t1, t2, t3⟩ := evaluateFlow (o := o) (e := e) cfg s hs
          refine ⟨t, t1, t2.mono ?_, t3⟩
          unfold Cfg.openProjection
          cases cfg.projection <;> cases cfg.openBoundary <;> decide +kernel
      obtain ⟨s3, l1, l2, l3⟩ := hf s2 k2
      refine ⟨s3, ?_, l2, ?_⟩
      · rw [← l1]
        have h4 : (SharpCall.step.mixed cfg).exec o e s = ((seqs [sharpLevelSetSolve cfg,
          opt cfg.surfaceMesh moveSurface, mixedForces cfg, put "set_zero" .fu [.fu]]).exec
          o e s).bind ((flowStep cfg).exec o e) := by
          simp only [SharpCall.mixed, mixedStep, seqs, Prog.exec, Option.bind_assoc]
        rw [h4, k1, Option.bind_some]
      · rw [l3, k3]; rfl
    | output =>
      have : passes false (inv true .base) mixedOutput (inv true .base) = true := by
        decide +kernel
      exact Triple.plain this
  obtain ⟨t, h1, h2, _⟩ := main
  exact ⟨t, h1, h2⟩

/-- **C103, front tracking solver.** The vectors are taken to store the entries of all known cells; see `C104_front_fails` for
the entries of ghost cells that the vectors of the code do not store. -/
theorem C103_front_partial (o : Ops I C K S) (e : Env R I C K S) (cfg : Cfg)
    (calls : List SharpCall) (s : State Vec R I C S K) :
    ∃ t, run o e (flowSetup :: frontCtor :: calls.map (·.front cfg)) s = some t ∧
      t.mem = sharedRun o (flowSetup :: frontCtor :: calls.map (·.front cfg)) s.mem ∧
      (t.vec .u).Up := by
  have hc : ∀ q, passes false (inv q .flow) frontCtor (inv q .flow) = true ∧
      passes false (inv q .flow) moveSurface (inv q .flow) = true ∧
      passes false (inv q .flow) (put "set_zero" .fu [.fu]) (inv q .flow) = true ∧
      passes false (inv q .flow) frontOutput (inv q .flow) = true := by decide +kernel
  refine run_cons (Triple.plain (checks cfg).1) (sat_any s) (fun s1 h1 =>
    run_cons (Triple.plain (hc _).1) h1 (run_inv _ (fun t ht => Sat.up ht rfl) calls ?_))
  intro c _
  cases c with
  | step =>
    exact Triple.seq (Triple.plain (hc _).2.1) (Triple.seq (Triple.plain (hc _).1)
      (Triple.seq (Triple.plain (hc _).2.2.1) (flowStep_ok cfg)))
  | output => exact Triple.plain (hc _).2.2.2

/-- A run on one process that passes the assertions computes what the execution in one memory
computes, for every sequence of routines. -/
theorem C103_one_process [Subsingleton R] (o : Ops I C K S) (e : Env R I C K S) :
    ∀ (ps : List P) (s t : State Vec R I C S K), run o e ps s = some t →
      t.mem = sharedRun o ps s.mem
  | [], s, t, h => by cases h; rfl
  | p :: ps, s, t, h => by
    simp only [run] at h
    cases hp : p.exec o e s with
    | none => rw [hp] at h; cases h
    | some s1 =>
      rw [hp, Option.bind_some] at h
      rw [C103_one_process o e ps s1 t h, Prog.serial o e p s s1 hp]; rfl

/-- **C103**, comparison with a run on one process: every history of the level set solver ends
with the same owned values and scalars on one process and on any number of processes, started
with the same scalars. -/
theorem C103_serial_level_set_partial {R' : Type} [DecidableEq R'] [Fintype R'] [Subsingleton R']
    (o : Ops I C K S) (e : Env R I C K S) (e' : Env R' I C K S) (cfg : Cfg)
    (hst : cfg.stabilization = false) (calls : List TwoCall) (hl : Stage.initial.Legal calls)
    (ho : cfg.projection = true → cfg.openBoundary = true → TwoCall.output ∉ calls)
    (s t : State Vec R I C S K) (s' t' : State Vec R' I C S K) (hs : s.mem = s'.mem)
    (h : run o e (levelSetSetup cfg :: levelSetCalls cfg .initial calls) s = some t)
    (h' : run o e' (levelSetSetup cfg :: levelSetCalls cfg .initial calls) s' = some t') :
    (∀ x i, (t.vec x).own i = (t'.vec x).own i) ∧ t.aux = t'.aux := by
  obtain ⟨t1, k1, k2, -⟩ := C103_level_set_partial o e cfg hst calls hl ho s
  rw [h] at k1
  cases k1
  have k3 := C103_one_process o e' _ s' t' h'
  rw [hs, ← k3] at k2
  exact ⟨fun x i => congrFun (congrFun (congrArg Mem.vec k2) x) i, congrArg Mem.aux k2⟩

/-- The same for the flow solver. -/
theorem C103_serial_flow_partial {R' : Type} [DecidableEq R'] [Fintype R'] [Subsingleton R']
    (o : Ops I C K S) (e : Env R I C K S) (e' : Env R' I C K S) (cfg : Cfg)
    (calls : List FlowCall) (s t : State Vec R I C S K) (s' t' : State Vec R' I C S K)
    (hs : s.mem = s'.mem)
    (h : run o e (flowSetup :: calls.map (·.prog cfg)) s = some t)
    (h' : run o e' (flowSetup :: calls.map (·.prog cfg)) s' = some t') :
    (∀ x i, (t.vec x).own i = (t'.vec x).own i) ∧ t.aux = t'.aux := by
  obtain ⟨t1, k1, k2, -⟩ := C103_flow_partial o e cfg calls s
  rw [h] at k1
  cases k1
  have k3 := C103_one_process o e' _ s' t' h'
  rw [hs, ← k3] at k2
  exact ⟨fun x i => congrFun (congrFun (congrArg Mem.vec k2) x) i, congrArg Mem.aux k2⟩

end Theorems

end Verif.Parallel
