/-
# C110: the theorems

Which fields determine the rest of a run, for every history of calls; and, with C103, the
continuation of a run on another number of processes.
-/
import Verif.Parallel.Determined

namespace Verif.Parallel

set_option maxRecDepth 100000
set_option linter.unusedSectionVars false

/-! ## Routines for all parameters -/

section Routines
variable {I C S K : Type} [AddCommMonoid K] [Fintype C] (o : Ops I C K S) (cfg : Cfg)

private abbrev det_evalc := det_eval cfg.projection cfg.openBoundary cfg.pressureFix
  cfg.timeDependent cfg.stationary cfg.implicit
private abbrev det_flowc := det_flow cfg.projection cfg.openBoundary cfg.pressureFix
private abbrev det_levelc := det_level cfg.projection cfg.stabilization cfg.curvatureCorrection
  cfg.variableParameters
private abbrev det_corec := det_core_level cfg.projection cfg.stabilization
  cfg.curvatureCorrection cfg.variableParameters

theorem keeps_residual : Keeps o (flowMid cfg.projection) (residual cfg)
    (.su :: .sp :: flowMid cfg.projection) := Keeps.plain (det_evalc cfg).1

theorem keeps_nonlinear : Keeps o (.su :: .sp :: flowMid cfg.projection) (solveNonlinear cfg)
    (.uoo :: flowFields cfg.projection) := Keeps.plain (det_evalc cfg).2.1

theorem keeps_evaluate : Keeps o (flowMid cfg.projection) (evaluateStep cfg)
    (.uoo :: flowFields cfg.projection) := (keeps_residual o cfg).seq (keeps_nonlinear o cfg)

/-- Fields of the two-phase solvers that the flow solver leaves alone. -/
private abbrev others : List Vec := [.c, .w, .co, .wo, .coo, .woo, .dc, .dw, .n, .h]

theorem frame_sub {p : P} (h : others.all (fun v => !p.writes v) = true) {X : List Vec}
    (hX : X.all others.contains = true) : X.all (fun v => !p.writes v) = true := by
  rw [List.all_eq_true] at *
  intro v hv
  have h1 := hX v hv
  exact h v (by simpa using h1)

theorem keeps_residual_frame {X : List Vec} (hX : X.all others.contains = true) :
    Keeps o (flowMid cfg.projection ++ X) (residual cfg)
      (.su :: .sp :: flowMid cfg.projection ++ X) :=
  (keeps_residual o cfg).frame X (frame_sub (det_evalc cfg).2.2.1 hX)

theorem keeps_nonlinear_frame {X : List Vec} (hX : X.all others.contains = true) :
    Keeps o (.su :: .sp :: flowMid cfg.projection ++ X) (solveNonlinear cfg)
      (.uoo :: flowFields cfg.projection ++ X) :=
  (keeps_nonlinear o cfg).frame X (frame_sub (det_evalc cfg).2.2.2 hX)

theorem keeps_flowStep : Keeps o (flowFields cfg.projection) (flowStep cfg)
    (.uoo :: flowFields cfg.projection) :=
  (Keeps.plain (det_flowc cfg).1).seq (keeps_evaluate o cfg)

theorem keeps_flowStep' : Keeps o (flowFields cfg.projection) (flowStep cfg)
    (flowFields cfg.projection) :=
  (keeps_flowStep o cfg).mono (by cases cfg.projection <;> decide)
    (by cases cfg.projection <;> decide)

theorem keeps_stokes : Keeps o (.uoo :: flowFields cfg.projection) (stokes cfg)
    (.uoo :: flowFields cfg.projection) :=
  (Keeps.plain (det_flowc cfg).2.1).seq ((Keeps.plain (det_flowc cfg).2.2.1).seq
    (Keeps.ite (keeps_evaluate o cfg) (Keeps.skip (by
      intro v hv
      revert v
      unfold flowMid flowFields
      cases cfg.projection <;> decide))))

theorem keeps_flowCall (st : Bool) (c : FlowCall) (hst : c = .stokes → st = true) :
    Keeps o (flowFieldsFor st cfg.projection) (c.prog cfg) (flowFieldsFor st cfg.projection) := by
  cases c with
  | step =>
    cases st
    · exact keeps_flowStep' o cfg
    · exact (keeps_flowStep o cfg).mono (by cases cfg.projection <;> decide)
        (by cases cfg.projection <;> decide)
  | stokes =>
    rw [hst rfl]
    exact keeps_stokes o cfg
  | refine =>
    cases st
    · exact Keeps.plain (det_flowc cfg).2.2.2.1
    · exact Keeps.plain (det_older cfg.projection cfg.openBoundary cfg.pressureFix).1
  | output =>
    cases st
    · exact Keeps.plain (det_flowc cfg).2.2.2.2.1
    · exact Keeps.plain (det_older cfg.projection cfg.openBoundary cfg.pressureFix).2

theorem keeps_phaseFieldStep : Keeps o (phaseFieldFields cfg.projection) (phaseFieldStep cfg)
    (phaseFieldFields cfg.projection) := by
  have h1 : Keeps o (phaseFieldFields cfg.projection) (twoPhaseInit cfg)
      (startedFields cfg.projection) := Keeps.plain (det_flowc cfg).2.2.2.2.2.1
  have h2 : Keeps o (startedFields cfg.projection) (cahnHilliard cfg)
      (startedFields cfg.projection) :=
    Keeps.plain (det_cahnHilliard cfg.projection cfg.contactAngle)
  have h3 : Keeps o (startedFields cfg.projection) phaseFieldForce
      (forcedFields cfg.projection) := Keeps.plain (det_two cfg.projection).2.2.2.1
  have h4 := keeps_residual_frame o cfg (X := [.c, .w, .co, .wo]) (by decide)
  have h5 := keeps_nonlinear_frame o cfg (X := [.c, .w, .co, .wo]) (by decide)
  have h6 := h1.seq (h2.seq (h3.seq (h4.seq h5)))
  exact h6.mono (F' := phaseFieldFields cfg.projection) (G' := phaseFieldFields cfg.projection)
    (by cases cfg.projection <;> decide) (by cases cfg.projection <;> decide)

theorem keeps_phaseFieldCall (c : TwoCall) : Keeps o (phaseFieldFields cfg.projection)
    (c.phaseField cfg) (phaseFieldFields cfg.projection) := by
  cases c with
  | step => exact keeps_phaseFieldStep o cfg
  | output => exact Keeps.plain (det_two cfg.projection).2.1
  | refine b =>
    have hm : Keeps o (phaseFieldFields cfg.projection) markPhaseField
        (phaseFieldFields cfg.projection) := Keeps.plain (det_two cfg.projection).1
    cases b with
    | false => exact hm.seq (Keeps.skip fun _ h => h)
    | true => exact hm.seq (Keeps.plain (det_flowc cfg).2.2.2.2.2.2.2.1)
  | statistics => exact Keeps.plain (det_two cfg.projection).2.2.1

theorem keeps_levelSetStep : Keeps o (levelSetFields cfg.projection) (levelSetStep cfg)
    (levelSetFields cfg.projection) := by
  have h1 : Keeps o (levelSetFields cfg.projection) (twoPhaseInit cfg)
      (startedFields cfg.projection ++ [.n]) := Keeps.plain (det_flowc cfg).2.2.2.2.2.2.1
  have h2 : Keeps o (startedFields cfg.projection ++ [.n])
      (advanceConcentration cfg transportSolver) (startedFields cfg.projection ++ [.n]) :=
    Keeps.plain (det_levelc cfg).1
  have h3 : Keeps o (startedFields cfg.projection ++ [.n]) reinitialize
      (startedFields cfg.projection ++ [.n]) := Keeps.plain (det_levelc cfg).2.1
  have h4 : Keeps o (startedFields cfg.projection ++ [.n]) (levelSetForce cfg)
      (flowMid cfg.projection ++ [.c, .w, .co, .wo, .n, .h, .coo, .woo, .dc, .dw]) :=
    Keeps.plain (det_levelc cfg).2.2.1
  have h5 := keeps_residual_frame o cfg (X := [.c, .w, .co, .wo, .n, .h, .coo, .woo, .dc, .dw])
    (by decide)
  have h6 : Keeps o (.su :: .sp :: flowMid cfg.projection ++
      [.c, .w, .co, .wo, .n, .h, .coo, .woo, .dc, .dw]) reinitialize
      (startedFields cfg.projection ++ [.n]) :=
    h3.mono (by cases cfg.projection <;> decide) (by cases cfg.projection <;> decide)
  have h7 := keeps_nonlinear_frame o cfg (X := [.c, .w, .co, .wo, .n, .h, .coo, .woo, .dc, .dw])
    (by decide)
  have h8 := h1.seq (h2.seq (h3.seq (h4.seq (h5.seq
    ((Keeps.ite (l := "excessive residual") (h6.seq (h4.seq h5)) (Keeps.skip fun _ h => h)).seq
      h7)))))
  exact h8.mono (F' := levelSetFields cfg.projection) (G' := levelSetFields cfg.projection)
    (by cases cfg.projection <;> decide) (by cases cfg.projection <;> decide)

theorem keeps_levelSetCall (c : TwoCall) (g : Stage) : Keeps o (levelSetFields cfg.projection)
    (c.levelSet cfg g) (levelSetFields cfg.projection) := by
  cases c with
  | step => exact keeps_levelSetStep o cfg
  | output =>
    cases g with
    | initial => exact Keeps.plain (det_levelc cfg).2.2.2.1
    | stepped => exact Keeps.plain (det_levelc cfg).2.2.2.2
    | adapted => exact Keeps.plain (det_levelc cfg).2.2.2.2
  | refine b =>
    have hm : Keeps o (levelSetFields cfg.projection) (markLevelSet (g == .initial))
        (levelSetFields cfg.projection) := by
      cases g with
      | initial => exact Keeps.plain (det_two cfg.projection).2.2.2.2.1
      | stepped => exact Keeps.plain (det_two cfg.projection).2.2.2.2.2.1
      | adapted => exact Keeps.plain (det_two cfg.projection).2.2.2.2.2.1
    cases b with
    | false => exact hm.seq (Keeps.skip fun _ h => h)
    | true => exact hm.seq (Keeps.plain (det_flowc cfg).2.2.2.2.2.2.2.2.1)
  | statistics => exact Keeps.plain (det_two cfg.projection).2.2.2.2.2.2

theorem keeps_levelSetCalls : ∀ (cs : List TwoCall) (g : Stage) (m m' : Mem Vec I S K),
    SameFields (levelSetFields cfg.projection) m m' →
      SameFields (levelSetFields cfg.projection) (sharedRun o (levelSetCalls cfg g cs) m)
        (sharedRun o (levelSetCalls cfg g cs) m')
  | [], _, _, _, h => h
  | c :: cs, g, m, m', h =>
    keeps_levelSetCalls cs (g.next c) _ _ (keeps_levelSetCall o cfg c g m m' h)

theorem keeps_core (ho : o.StartFree) : Keeps o (levelSetCore cfg.projection) (levelSetStep cfg)
    ([.u, .p, .uo, .po, .c, .co, .w, .n, .h, .fu, .fp] ++ projectionFields cfg.projection) := by
  have hx : true = true → o.StartFree := fun _ => ho
  have h1 : Keeps o (levelSetCore cfg.projection) (twoPhaseInit cfg)
      (coreStarted cfg.projection) :=
    Keeps.of hx (det_core cfg.projection cfg.openBoundary cfg.pressureFix)
  have h2 : Keeps o (coreStarted cfg.projection) (advanceConcentration cfg transportSolver)
      (coreStarted cfg.projection) := Keeps.of hx (det_corec cfg).1
  have h3 : Keeps o (coreStarted cfg.projection) reinitialize (coreStarted cfg.projection) :=
    Keeps.of hx (det_corec cfg).2.1
  have h4 : Keeps o (coreStarted cfg.projection) (levelSetForce cfg)
      (flowMid cfg.projection ++ [.c, .w, .co, .n, .h, .coo, .dc]) :=
    Keeps.of hx (det_corec cfg).2.2
  have h5 := keeps_residual_frame o cfg (X := [.c, .w, .co, .n, .h, .coo, .dc]) (by decide)
  have h6 : Keeps o (.su :: .sp :: flowMid cfg.projection ++ [.c, .w, .co, .n, .h, .coo, .dc])
      reinitialize (coreStarted cfg.projection) :=
    h3.mono (by cases cfg.projection <;> decide) (by cases cfg.projection <;> decide)
  have h7 := keeps_nonlinear_frame o cfg (X := [.c, .w, .co, .n, .h, .coo, .dc]) (by decide)
  have h8 := h1.seq (h2.seq (h3.seq (h4.seq (h5.seq
    ((Keeps.ite (l := "excessive residual") (h6.seq (h4.seq h5)) (Keeps.skip fun _ h => h)).seq
      h7)))))
  exact h8.mono (by cases cfg.projection <;> decide) (by cases cfg.projection <;> decide)

theorem keeps_mixedCall (c : SharpCall) : Keeps o (mixedFields cfg.projection) (c.mixed cfg)
    (mixedFields cfg.projection) := by
  cases c with
  | step =>
    have h1 := Keeps.plain (o := o) (det_mixed cfg.projection cfg.stabilization
      cfg.curvatureCorrection cfg.surfaceMesh cfg.sharp cfg.variableParameters)
    have h0 := (Keeps.plain (o := o) (det_flowc cfg).1).frame [.c, .co, .w, .n]
      (det_flowc cfg).2.2.2.2.2.2.2.2.2
    have h2 := (h0.seq ((keeps_residual_frame o cfg (X := [.c, .co, .w, .n]) (by decide)).seq
      (keeps_nonlinear_frame o cfg (X := [.c, .co, .w, .n]) (by decide)))).mono
      (F' := mixedFields cfg.projection) (G' := mixedFields cfg.projection)
      (by cases cfg.projection <;> decide) (by cases cfg.projection <;> decide)
    intro m m' hm
    exact h2 _ _ (h1 m m' hm)
  | output => exact Keeps.plain (det_sharp cfg.projection).1

theorem keeps_frontCall (c : SharpCall) : Keeps o (flowFields cfg.projection) (c.front cfg)
    (flowFields cfg.projection) := by
  cases c with
  | step =>
    exact (Keeps.plain (det_sharp cfg.projection).2.1).seq
      ((Keeps.plain (det_sharp cfg.projection).2.2.1).seq
        ((Keeps.plain (det_sharp cfg.projection).2.2.2.1).seq (keeps_flowStep' o cfg)))
  | output => exact Keeps.plain (det_sharp cfg.projection).2.2.2.2

end Routines

/-! ## C110 -/

section Theorems
variable {I C S K : Type} [AddCommMonoid K] [Fintype C]

/-- **C110, flow solver.**  Two solver objects with the same clock, mesh and parameters, the same
velocity and pressure, old velocity and pressure and user force (projection scheme: and the
extra pressure vectors) have the same ones after every history of calls, and compute the same
scalars (norms, iteration counts, output), whatever their other vectors contain.  If there is an
initial Stokes solve in the history (`st`), the older velocity must agree too. -/
theorem C110_flow_partial (o : Ops I C K S) (cfg : Cfg) (st : Bool) (calls : List FlowCall)
    (hst : .stokes ∈ calls → st = true)
    (m m' : Mem Vec I S K) (h : SameFields (flowFieldsFor st cfg.projection) m m') :
    SameFields (flowFieldsFor st cfg.projection) (sharedRun o (calls.map (·.prog cfg)) m)
      (sharedRun o (calls.map (·.prog cfg)) m') :=
  Keeps.run _ calls (fun c hc => keeps_flowCall o cfg st c fun h => hst (h ▸ hc)) m m' h

/-- **C110, phase field solver.** -/
theorem C110_phase_field_partial (o : Ops I C K S) (cfg : Cfg) (calls : List TwoCall)
    (m m' : Mem Vec I S K) (h : SameFields (phaseFieldFields cfg.projection) m m') :
    SameFields (phaseFieldFields cfg.projection) (sharedRun o (calls.map (·.phaseField cfg)) m)
      (sharedRun o (calls.map (·.phaseField cfg)) m') :=
  Keeps.run _ calls (fun c _ => keeps_phaseFieldCall o cfg c) m m' h

/-- **C110, level set solver**, at any stage of a run. -/
theorem C110_level_set_partial (o : Ops I C K S) (cfg : Cfg) (g : Stage) (calls : List TwoCall)
    (m m' : Mem Vec I S K) (h : SameFields (levelSetFields cfg.projection) m m') :
    SameFields (levelSetFields cfg.projection) (sharedRun o (levelSetCalls cfg g calls) m)
      (sharedRun o (levelSetCalls cfg g calls) m') :=
  keeps_levelSetCalls o cfg calls g m m' h

/-- **C110, level set solver, accurate projections.**  If the computation of normals and
curvature does not depend on its start vector (a converged iteration), a time step is determined
by velocity, pressure, level set and their old values alone: the old normals and curvatures do
not matter, and new normals, curvature, Heaviside function and force agree as well. -/
theorem C110_level_set_step_partial (o : Ops I C K S) (ho : o.StartFree) (cfg : Cfg)
    (m m' : Mem Vec I S K) (h : SameFields (levelSetCore cfg.projection) m m') :
    SameFields ([.u, .p, .uo, .po, .c, .co, .w, .n, .h, .fu, .fp] ++
        projectionFields cfg.projection)
      ((levelSetStep cfg).shared o m) ((levelSetStep cfg).shared o m') :=
  keeps_core o cfg ho m m' h

/-- **C110, mixed level set solver** (all variants of the surface tension). -/
theorem C110_mixed_partial (o : Ops I C K S) (cfg : Cfg) (calls : List SharpCall)
    (m m' : Mem Vec I S K) (h : SameFields (mixedFields cfg.projection) m m') :
    SameFields (mixedFields cfg.projection) (sharedRun o (calls.map (·.mixed cfg)) m)
      (sharedRun o (calls.map (·.mixed cfg)) m') :=
  Keeps.run _ calls (fun c _ => keeps_mixedCall o cfg c) m m' h

/-- **C110, front tracking solver.** -/
theorem C110_front_partial (o : Ops I C K S) (cfg : Cfg) (calls : List SharpCall)
    (m m' : Mem Vec I S K) (h : SameFields (flowFields cfg.projection) m m') :
    SameFields (flowFields cfg.projection) (sharedRun o (calls.map (·.front cfg)) m)
      (sharedRun o (calls.map (·.front cfg)) m') :=
  Keeps.run _ calls (fun c _ => keeps_frontCall o cfg c) m m' h

end Theorems

/-! ## Continuation on another number of processes -/

section Restart
variable {R R' I C S K : Type} [DecidableEq R] [Fintype R] [DecidableEq R'] [Fintype R']
  [Fintype I] [Fintype C] [AddCommMonoid K]

/-- States of the flow solver between calls. -/
theorem flow_reached {o : Ops I C K S} {e : Env R I C K S} {cfg : Cfg} {calls : List FlowCall}
    {s0 s : State Vec R I C S K}
    (h : run o e (flowSetup :: calls.map (·.prog cfg)) s0 = some s) :
    s.Sat (inv cfg.openProjection .flow) := by
  obtain ⟨t, h1, -, h3⟩ := run_cons (Triple.plain (o := o) (e := e) (checks cfg).1) (sat_any s0)
    (run_inv (Q := fun t => t.Sat (inv cfg.openProjection .flow)) (fun c => c.prog cfg)
      (fun _ h => h) calls (fun c _ => by
        cases c with
        | step => exact flowStep_ok cfg
        | stokes => exact stokesFlow_ok cfg
        | refine => exact Triple.plain (checks cfg).2.2.2.1
        | output => exact Triple.plain (checks cfg).2.2.2.2.1))
  rw [h] at h1
  cases h1
  exact h3

/-- **C110**: a run of the flow solver can be continued on another number of processes from the
fields alone.  `s` and `s'` are reached by any two histories, on the processes `R` and `R'` with any
partitions; if the owned values of the fields (with the older velocity, if there is a Stokes solve to
come) and the scalars are the same, every further history
runs on both and ends with the same owned values of the fields and the same scalars. -/
theorem C110_flow_restart_partial (o : Ops I C K S) (e : Env R I C K S) (e' : Env R' I C K S)
    (cfg : Cfg) (st : Bool) (before before' calls : List FlowCall)
    (hst : .stokes ∈ calls → st = true) (s0 s : State Vec R I C S K)
    (s0' s' : State Vec R' I C S K)
    (h : run o e (flowSetup :: before.map (·.prog cfg)) s0 = some s)
    (h' : run o e' (flowSetup :: before'.map (·.prog cfg)) s0' = some s')
    (haux : s.aux = s'.aux)
    (hF : ∀ v ∈ flowFieldsFor st cfg.projection, (s.vec v).own = (s'.vec v).own) :
    ∃ t t', run o e (calls.map (·.prog cfg)) s = some t ∧
      run o e' (calls.map (·.prog cfg)) s' = some t' ∧ t.aux = t'.aux ∧
      ∀ v ∈ flowFieldsFor st cfg.projection, (t.vec v).own = (t'.vec v).own := by
  have hc : ∀ {R : Type} [DecidableEq R] [Fintype R] (e : Env R I C K S), ∀ c ∈ calls,
      Triple o e (inv cfg.openProjection .flow) (FlowCall.prog cfg c)
        (inv cfg.openProjection .flow) := by
    intro R _ _ e c _
    cases c with
    | step => exact flowStep_ok cfg
    | stokes => exact stokesFlow_ok cfg
    | refine => exact Triple.plain (checks cfg).2.2.2.1
    | output => exact Triple.plain (checks cfg).2.2.2.2.1
  obtain ⟨t, k1, k2, -⟩ := run_inv (Q := fun _ => True) (fun c => FlowCall.prog cfg c)
    (fun _ _ => trivial) calls (hc e) s (flow_reached h)
  obtain ⟨t', l1, l2, -⟩ := run_inv (Q := fun _ => True) (fun c => FlowCall.prog cfg c)
    (fun _ _ => trivial) calls (hc e') s' (flow_reached h')
  have hm := C110_flow_partial o cfg st calls hst s.mem s'.mem ⟨haux, hF⟩
  rw [← k2, ← l2] at hm
  exact ⟨t, t', k1, l1, hm.1, hm.2⟩

/-- **C110**: the same for the level set solver (the parameters and histories of C103). -/
theorem C110_level_set_restart_partial (o : Ops I C K S) (e : Env R I C K S)
    (e' : Env R' I C K S) (cfg : Cfg) (hst : cfg.stabilization = false)
    (before before' calls : List TwoCall)
    (hl : Stage.initial.Legal before) (hl' : Stage.initial.Legal before')
    (hg : Stage.initial.after before = Stage.initial.after before')
    (hlc : (Stage.initial.after before).Legal calls)
    (ho : cfg.projection = true → cfg.openBoundary = true →
      TwoCall.output ∉ before ∧ TwoCall.output ∉ before' ∧ TwoCall.output ∉ calls)
    (s0 s : State Vec R I C S K) (s0' s' : State Vec R' I C S K)
    (h : run o e (levelSetSetup cfg :: levelSetCalls cfg .initial before) s0 = some s)
    (h' : run o e' (levelSetSetup cfg :: levelSetCalls cfg .initial before') s0' = some s')
    (haux : s.aux = s'.aux)
    (hF : ∀ v ∈ levelSetFields cfg.projection, (s.vec v).own = (s'.vec v).own) :
    ∃ t t', run o e (levelSetCalls cfg (Stage.initial.after before) calls) s = some t ∧
      run o e' (levelSetCalls cfg (Stage.initial.after before) calls) s' = some t' ∧
      t.aux = t'.aux ∧
      ∀ v ∈ levelSetFields cfg.projection, (t.vec v).own = (t'.vec v).own := by
  have hr : ∀ {R : Type} [DecidableEq R] [Fintype R] (e : Env R I C K S) (bs : List TwoCall)
      (_ : Stage.initial.Legal bs)
      (_ : cfg.projection = true → cfg.openBoundary = true → TwoCall.output ∉ bs)
      (s0 s : State Vec R I C S K)
      (_ : run o e (levelSetSetup cfg :: levelSetCalls cfg .initial bs) s0 = some s),
      s.Sat ((Stage.initial.after bs).inv cfg.openProjection) := by
    intro R _ _ e bs hl ho s0 s h
    obtain ⟨t, h1, -, h3⟩ := run_cons (b := inv cfg.openProjection .two)
      (p := levelSetSetup cfg) (o := o) (e := e)
      (Triple.seq (twoPhaseSetup_ok cfg _ (checks cfg).2.2.2.2.2.2.2.2.2)
        (Triple.plain (two_checks cfg.openProjection).2.2.2.2.2.2.2.1)) (sat_any s0)
      (fun s1 h1 => levelSetCalls_sat o e cfg hst bs .initial s1 hl ho h1)
    rw [h] at h1
    cases h1
    exact h3
  have k := hr e before hl (fun a b => (ho a b).1) s0 s h
  have k' := hr e' before' hl' (fun a b => (ho a b).2.1) s0' s' h'
  rw [← hg] at k'
  obtain ⟨t, k1, k2, -⟩ := levelSetCalls_sat o e cfg hst calls _ s hlc
    (fun a b => (ho a b).2.2) k
  obtain ⟨t', l1, l2, -⟩ := levelSetCalls_sat o e' cfg hst calls _ s' hlc
    (fun a b => (ho a b).2.2) k'
  have hm := C110_level_set_partial o cfg (Stage.initial.after before) calls s.mem s'.mem
    ⟨haux, hF⟩
  rw [← k2, ← l2] at hm
  exact ⟨t, t', k1, l1, hm.1, hm.2⟩

end Restart

/-! ## Where left-overs matter -/

/-- Computations that add up what they read, one round per loop; the first time step. -/
def sumOps : Ops Unit Unit ℕ Unit where
  loc l _ xs := fun i => if l = "preconditioner" then 1 else (xs.map (fun x => x i)).sum
  cell _ _ _ _ := fun _ => 0
  fil _ _ xs := fun i => ((xs ()).map (fun x => x i)).sum
  ev _ _ _ _ := ()
  cond l _ := l ≠ "step_no > 1"
  count _ _ := 1

/-- Computations that add up what they read, also in the loops over the cells. -/
def oldOps : Ops Unit Unit ℕ Unit where
  loc _ _ xs := fun i => (xs.map (fun x => x i)).sum
  cell _ _ _ xs := fun i => (xs.map (fun x => x i)).sum
  fil _ _ xs := fun i => ((xs ()).map (fun x => x i)).sum
  ev _ _ _ _ := ()
  cond _ _ := true
  count _ _ := 1

/-- Memories that differ in one vector at most. -/
def oneOff (x : Vec) (k : ℕ) : Mem Vec Unit Unit ℕ :=
  ⟨fun v => if v = x then fun _ => k else 0, ()⟩

def projectionCfg : Cfg :=
  ⟨true, false, false, true, false, false, false, false, false, false, false, false⟩
def coupledCfg : Cfg :=
  ⟨false, false, false, true, false, true, false, false, false, false, false, true⟩

/-- **C110 fails for the projection scheme without the pressure block of solution_update**: in
the first step the pressure is exchanged with what this work vector happens to contain
(navier_stokes.cc:841-842), although it has not been set (700-719). -/
theorem C110_projection_leftover :
    SameFields [.u, .p, .uo, .po, .poo, .fu, .fp] (oneOff .dp 0) (oneOff .dp 5) ∧
    ((flowStep projectionCfg).shared sumOps (oneOff .dp 0)).vec .p ≠
      ((flowStep projectionCfg).shared sumOps (oneOff .dp 5)).vec .p := by
  refine ⟨⟨rfl, by decide⟩, fun h => ?_⟩
  have := congrFun h ()
  revert this
  decide +kernel

/-- **The initial Stokes solve depends on the older velocity** of time dependent problems. -/
theorem C110_stokes_leftover :
    SameFields (flowFields false) (oneOff .uoo 0) (oneOff .uoo 5) ∧
    ((stokes coupledCfg).shared oldOps (oneOff .uoo 0)).vec .u ≠
      ((stokes coupledCfg).shared oldOps (oneOff .uoo 5)).vec .u := by
  refine ⟨⟨rfl, by decide⟩, fun h => ?_⟩
  have := congrFun h ()
  revert this
  decide +kernel

/-- **The normals of the last step matter** for the next one if the projection stops before
convergence: they are its start vector (level_set_okz_compute_normal.cc:262-265). -/
theorem C110_normals_leftover :
    SameFields [.u, .p, .uo, .po, .c, .w, .co, .wo, .h] (oneOff .n 0) (oneOff .n 5) ∧
    ((levelSetStep coupledCfg).shared sumOps (oneOff .n 0)).vec .n ≠
      ((levelSetStep coupledCfg).shared sumOps (oneOff .n 5)).vec .n := by
  refine ⟨⟨rfl, by decide⟩, fun h => ?_⟩
  have := congrFun h ()
  revert this
  decide +kernel

/-! ## The hypotheses can be met -/

/-- Two objects that differ in the right hand sides only. -/
example : SameFields (flowFields true) (oneOff .su 0) (oneOff .su 5) ∧
    SameFields (phaseFieldFields true) (oneOff .rc 0) (oneOff .rc 5) ∧
    SameFields (levelSetFields true) (oneOff .nr 0) (oneOff .nr 5) ∧
    SameFields (mixedFields true) (oneOff .h 0) (oneOff .h 5) ∧
    SameFields (levelSetCore false) (oneOff .n 0) (oneOff .n 5) :=
  ⟨⟨rfl, by decide⟩, ⟨rfl, by decide⟩, ⟨rfl, by decide⟩, ⟨rfl, by decide⟩, ⟨rfl, by decide⟩⟩

example : (oneOff .su 0).vec .su ≠ (oneOff .su 5).vec .su := fun h => by
  have := congrFun h (); revert this; decide

/-- Projections that do not depend on the start vector, while other computations do. -/
def exactOps : Ops Unit Unit ℕ Unit where
  loc l _ xs := fun i => ((if l = "cg" then xs.tail else xs).map (fun x => x i)).sum
  cell _ _ _ _ := fun _ => 0
  fil _ _ xs := fun i => ((xs ()).map (fun x => x i)).sum
  ev _ _ _ _ := ()
  cond _ _ := true
  count _ _ := 1

example : exactOps.StartFree := fun _ _ _ _ => rfl

/-- A velocity that is there before the step makes a difference, a normal does not. -/
example : ((levelSetStep coupledCfg).shared exactOps (oneOff .n 0)).vec .n =
      ((levelSetStep coupledCfg).shared exactOps (oneOff .n 5)).vec .n ∧
    ((levelSetStep coupledCfg).shared exactOps (oneOff .u 0)).vec .u ≠
      ((levelSetStep coupledCfg).shared exactOps (oneOff .u 5)).vec .u := by
  have h0 : SameFields (levelSetCore false) (oneOff .n 0) (oneOff .n 5) := ⟨rfl, by decide⟩
  have h1 := C110_level_set_step_partial exactOps (fun _ _ _ _ => rfl) coupledCfg _ _ h0
  refine ⟨h1.2 .n (by decide), fun h => ?_⟩
  have := congrFun h ()
  revert this
  decide +kernel

/-- Objects on two and on three processes with different contents of a work vector. -/
def startOn (R : Type) (r : R) (k : ℕ) : State Vec R Unit Unit Unit ℕ :=
  ⟨fun v => ⟨fun _ => if v = .su then k else 0, fun _ _ => 0, false⟩, fun _ => r, fun _ => r, ()⟩

def envOn (R : Type) (r : R) : Env R Unit Unit ℕ Unit :=
  ⟨fun _ _ x => (x.gh, false), fun _ _ x => x.gh, fun _ _ _ => r, fun _ _ _ => r⟩

/-- The hypotheses of the restart theorem: after the setup and a time step. -/
example : ∃ (s : State Vec (Fin 2) Unit Unit Unit ℕ) (s' : State Vec (Fin 3) Unit Unit Unit ℕ),
    run sumOps (envOn (Fin 2) 0) (flowSetup :: [FlowCall.step].map (·.prog coupledCfg))
      (startOn (Fin 2) 1 0) = some s ∧
    run sumOps (envOn (Fin 3) 0) (flowSetup :: [FlowCall.step].map (·.prog coupledCfg))
      (startOn (Fin 3) 2 5) = some s' ∧
    s.aux = s'.aux ∧
    ∀ v ∈ flowFields coupledCfg.projection, (s.vec v).own = (s'.vec v).own := by
  obtain ⟨t, h1, h2, -⟩ := C103_flow_partial sumOps (envOn (Fin 2) 0) coupledCfg [FlowCall.step]
    (startOn (Fin 2) 1 0)
  obtain ⟨t', k1, k2, -⟩ := C103_flow_partial sumOps (envOn (Fin 3) 0) coupledCfg
    [FlowCall.step] (startOn (Fin 3) 2 5)
  refine ⟨t, t', h1, k1, rfl, fun v hv => ?_⟩
  change t.mem.vec v = t'.mem.vec v
  rw [h2, k2]
  funext i
  revert v i
  decide +kernel

end Verif.Parallel
