import Verif.Time.Clocks
import Verif.Time.Restart
import Mathlib.Tactic.LinearCombination

/-!
# C123: setting up a solver object again for a second run (clocks and initial data)

`setup_problem` is the entry point of a simulation (include/adaflo/flow_base_algorithm.h:114). Nothing in the interface
forbids calling it again on the same object after a run, e.g. with other initial data.

* `NavierStokes::setup_problem` (source/navier_stokes.cc:363-392) refines the mesh again, allocates new (zero) vectors
  and interpolates the initial velocity only if the clock is not at its end; the clock is not touched.
* `TwoPhaseBaseAlgorithm::setup_problem` (source/two_phase_base.cc:118-190) additionally restarts the clock of the flow
  solver (line 134), but not the clocks owned by the operators of the level set solver
  (level_set_okz_advance_concentration.h:168, level_set_okz_reinitialization.h:165).
-/
set_option linter.unusedSectionVars false

namespace Verif.Time

variable {K : Type*} [Field K] [LinearOrder K] [IsStrictOrderedRing K]

/-! ## Model -/

/-- The part of a `NavierStokes` object that matters: its clock, the number of global refinements done so far and the
velocity (block 0 of `solution`). -/
structure FlowObj (K V : Type*) where
  clock : TS K
  refined : ℕ
  vel : V

/-- `NavierStokes::setup_problem`, source/navier_stokes.cc:363-392. `zero` is the freshly allocated vector,
`interp r f` the interpolation of the function `f` on the mesh after `r` refinements. Simplification: hanging nodes
are part of `interp`; there is no adaptive refinement in this model. -/
def FlowObj.setup {V F : Type*} (g : ℕ) (zero : ℕ → V) (interp : ℕ → F → V) (f : F) (s : FlowObj K V) : FlowObj K V :=
  let r := if g < 15 then s.refined + g else s.refined
  { clock := s.clock
    refined := r
    vel := if s.clock.atEnd then zero r else interp r f }

/-- The time loop of an application: `while (!at_end()) { [request;] advance_time_step(); }`, at most as many rounds as
there are requests. `adv` is the numerical work of a step, which may depend on the clock. -/
def FlowObj.loop {V : Type*} (adv : TS K → V → V) : List (Option K) → FlowObj K V → FlowObj K V
  | [], s => s
  | d :: ds, s =>
    if s.clock.atEnd then s
    else FlowObj.loop adv ds { s with clock := (s.clock.request d).next, vel := adv (s.clock.request d).next s.vel }

/-- `TwoPhaseBaseAlgorithm::setup_problem` of a level set solver as seen by the flow clock and the clock of the level
set transport, source/two_phase_base.cc:134. -/
def setupClocks (s : TS K × TS K) : TS K × TS K := (s.1.restart, s.2)

/-- `stepOKZ` without the debug assertions (release mode). -/
def stepOKZRelease (d : Option K) (s : TS K × TS K) : TS K × TS K :=
  ((s.1.request d).next, (s.2.setDesired (s.1.request d).next.cur).next)

/-- The loop of an application in release mode. -/
def runRelease : List (Option K) → TS K × TS K → TS K × TS K
  | [], s => s
  | d :: ds, s => if s.1.atEnd then s else runRelease ds (stepOKZRelease d s)

/-- Value the transport equation gives in a point where nothing moves, from the old values there
(level_set_okz_advance_concentration.cc:376-386 with zero velocity): the solution `x` of
`weight x + weight_old old [+ weight_old_old old_old] = 0`; the bracket only for `bdf_2` and `step_no() > 1`. -/
def restingValue (l : TS K) (old oldOld : K) : K :=
  -(l.wOld * old + (if l.scheme = .bdf2 ∧ 1 < l.stepNo then l.wOldOld * oldOld else 0)) / l.w

/-! ## Proofs -/

theorem FlowObj.loop_atEnd {V : Type*} (adv : TS K → V → V) (ds : List (Option K)) (s : FlowObj K V)
    (h : s.clock.atEnd = true) : FlowObj.loop adv ds s = s := by
  cases ds with
  | nil => rfl
  | cons d ds => rw [FlowObj.loop, if_pos h]

theorem FlowObj.loop_refined {V : Type*} (adv : TS K → V → V) (ds : List (Option K)) :
    ∀ s : FlowObj K V, (FlowObj.loop adv ds s).refined = s.refined := by
  induction ds with
  | nil => intro s; rfl
  | cons d ds ih =>
    intro s
    rw [FlowObj.loop]
    split
    · rfl
    · rw [ih]

/-- **C123, the flow solver (the property is false).** For all parameters, mesh sizes, numerical kernels, initial
functions, step size requests and every object `s` whose clock has reached the end of a run: `setup_problem` with new initial data `f'` leaves the velocity
zero instead of `f'`, and the time loop of the second run performs no step at all, while a new object starts from
`f'`. -/
theorem C123_flow_second_run_does_nothing {V F : Type*} (p : Params K) (g : ℕ) (zero : ℕ → V) (interp : ℕ → F → V)
    (adv : TS K → V → V) (f' : F) (v : V) (ds' : List (Option K)) (s s' : FlowObj K V) (he : s.clock.atEnd = true)
    (hs' : s' = FlowObj.setup g zero interp f' s) :
    s'.vel = zero s'.refined ∧ FlowObj.loop adv ds' s' = s' ∧
    (FlowObj.setup g zero interp f' ⟨TS.ctor p, 0, v⟩).vel =
      interp (FlowObj.setup g zero interp f' ⟨TS.ctor p, 0, v⟩).refined f' := by
  refine ⟨?_, ?_, ?_⟩
  · subst hs'
    simp only [FlowObj.setup, he, if_true]
  · refine FlowObj.loop_atEnd _ _ _ ?_
    rw [hs']
    exact he
  · simp [FlowObj.setup, TS.ctor]

/-- **C123, the mesh.** Every call of `setup_problem` refines the mesh again: with `1 ≤ global_refinements < 15` the
second run uses a mesh refined twice as often as the first one, whatever happens in between. -/
theorem C123_mesh_refined_again {V F : Type*} (c : TS K) (g : ℕ) (hg : g < 15) (zero : ℕ → V) (interp : ℕ → F → V)
    (adv : TS K → V → V) (f f' : F) (v : V) (ds : List (Option K)) :
    (FlowObj.setup g zero interp f ⟨c, 0, v⟩).refined = g ∧
    (FlowObj.setup g zero interp f' (FlowObj.loop adv ds (FlowObj.setup g zero interp f ⟨c, 0, v⟩))).refined =
      2 * g := by
  constructor
  · simp [FlowObj.setup, hg]
  · have h : (FlowObj.loop adv ds (FlowObj.setup g zero interp f ⟨c, 0, v⟩)).refined = g := by
      rw [FlowObj.loop_refined]
      simp [FlowObj.setup, hg]
    have h2 : ∀ s : FlowObj K V, (FlowObj.setup g zero interp f' s).refined = s.refined + g := by
      intro s
      simp [FlowObj.setup, hg]
    rw [h2, h]
    omega

theorem SameSchedule.request {a b : TS K} (h : SameSchedule a b) (d : Option K) :
    SameSchedule (a.request d) (b.request d) := by
  cases d with
  | none => exact h
  | some d => exact h.setDesired d

theorem sameSchedule_loop {V : Type*} (adv : TS K → V → V) (ds : List (Option K)) :
    ∀ (a b : TS K) (n m : ℕ) (u v : V), SameSchedule a b →
      SameSchedule (FlowObj.loop adv ds ⟨a, n, u⟩).clock (FlowObj.loop adv ds ⟨b, m, v⟩).clock := by
  induction ds with
  | nil => intro a b n m u v h; exact h
  | cons d ds ih =>
    intro a b n m u v h
    simp only [FlowObj.loop]
    rw [h.atEnd]
    split
    · exact h
    · exact ih _ _ _ _ _ _ (h.request d).next.toSameSchedule

theorem reachable_request {p : Params K} {t : TS K} (h : Reachable p t) (d : Option K) : Reachable p (t.request d) := by
  cases d with
  | none => exact h
  | some d =>
    obtain ⟨cs, hok, hr⟩ := h
    refine ⟨cs ++ [.desired d], ?_, ?_⟩
    · intro c hc
      rcases List.mem_append.1 hc with hc | hc
      · exact hok c hc
      · rw [List.mem_singleton.1 hc]; trivial
    · have : ∀ (cs : List (Cmd K)) (a : TS K), runCmds a cs = some t →
          runCmds a (cs ++ [.desired d]) = some (t.setDesired d) := by
        intro cs
        induction cs with
        | nil =>
          intro a ha
          simp only [runCmds, Option.some.injEq] at ha
          subst ha
          rfl
        | cons c cs ih =>
          intro a ha
          simp only [runCmds, List.cons_append] at ha ⊢
          cases hc : c.exec a with
          | none => rw [hc] at ha; simp at ha
          | some a' => rw [hc] at ha; exact ih a' ha
      exact this cs _ hr

theorem reachable_next {p : Params K} {t : TS K} (h : Reachable p t) (he : t.atEnd = false) : Reachable p t.next := by
  obtain ⟨cs, hok, hr⟩ := h
  refine ⟨cs ++ [.advance], ?_, ?_⟩
  · intro c hc
    rcases List.mem_append.1 hc with hc | hc
    · exact hok c hc
    · rw [List.mem_singleton.1 hc]; trivial
  · have : ∀ (cs : List (Cmd K)) (a : TS K), runCmds a cs = some t →
        runCmds a (cs ++ [.advance]) = some t.next := by
      intro cs
      induction cs with
      | nil =>
        intro a ha
        simp only [runCmds, Option.some.injEq] at ha
        subst ha
        simp [runCmds, Cmd.exec, TS.nextChecked, he]
      | cons c cs ih =>
        intro a ha
        simp only [runCmds, List.cons_append] at ha ⊢
        cases hc : c.exec a with
        | none => rw [hc] at ha; simp at ha
        | some a' => rw [hc] at ha; exact ih a' ha
    exact this cs _ hr

theorem request_atEnd (t : TS K) (d : Option K) : (t.request d).atEnd = t.atEnd := by cases d <;> rfl

theorem reachable_loop {V : Type*} {p : Params K} (adv : TS K → V → V) (ds : List (Option K)) :
    ∀ (s : FlowObj K V), Reachable p s.clock → Reachable p (FlowObj.loop adv ds s).clock := by
  induction ds with
  | nil => intro s h; exact h
  | cons d ds ih =>
    intro s h
    rw [FlowObj.loop]
    by_cases he : s.clock.atEnd = true
    · rw [if_pos he]; exact h
    · rw [if_neg he]
      refine ih _ (reachable_next (reachable_request h d) ?_)
      rw [request_atEnd]
      simpa using he

/-- Any number of earlier runs of a two-phase solver object, each begun by `setup_problem` (which restarts the clock of
the flow solver), seen by that clock. -/
def earlierRuns {V : Type*} (adv : TS K → V → V) : List (List (Option K)) → FlowObj K V → FlowObj K V
  | [], s => s
  | ds :: rs, s => earlierRuns adv rs (FlowObj.loop adv ds { s with clock := s.clock.restart })

theorem reachable_restart {p : Params K} (hn : p.NonDegenerate) {t : TS K} (h : Reachable p t) :
    Reachable p t.restart := by
  obtain ⟨cs, hok, hr⟩ := h
  refine ⟨cs ++ [.restart], ?_, ?_⟩
  · intro c hc
    rcases List.mem_append.1 hc with hc | hc
    · exact hok c hc
    · rw [List.mem_singleton.1 hc]; exact hn
  · have : ∀ (cs : List (Cmd K)) (a : TS K), runCmds a cs = some t →
        runCmds a (cs ++ [.restart]) = some t.restart := by
      intro cs
      induction cs with
      | nil =>
        intro a ha
        simp only [runCmds, Option.some.injEq] at ha
        subst ha
        rfl
      | cons c cs ih =>
        intro a ha
        simp only [runCmds, List.cons_append] at ha ⊢
        cases hc : c.exec a with
        | none => rw [hc] at ha; simp at ha
        | some a' => rw [hc] at ha; exact ih a' ha
    exact this cs _ hr

theorem reachable_earlier {V : Type*} {p : Params K} (hn : p.NonDegenerate) (adv : TS K → V → V)
    (rs : List (List (Option K))) : ∀ (s : FlowObj K V), Reachable p s.clock →
      Reachable p (earlierRuns adv rs s).clock := by
  induction rs with
  | nil => intro s h; exact h
  | cons ds rs ih =>
    intro s h
    rw [earlierRuns]
    exact ih _ (reachable_loop adv ds _ (reachable_restart hn h))

/-- **C123, the flow clock of two-phase solvers (proved part).** For all parameters, any number of earlier runs with any
step size requests (completed or stopped early): after `setup_problem` the flow clock takes, request by request, the
same steps as the one of a new object (same times, step sizes, step numbers and end).
Missing: everything else the object carries over, see the other C123 theorems. -/
theorem C123_two_phase_schedule_partial {V : Type*} (p : Params K) (hp : p.Good) (hn : p.NonDegenerate)
    (adv : TS K → V → V) (rs : List (List (Option K))) (ds : List (Option K)) (v : V) (s : FlowObj K V)
    (hs : s = earlierRuns adv rs ⟨TS.ctor p, 0, v⟩) :
    SameSchedule (FlowObj.loop adv ds { s with clock := s.clock.restart }).clock
      (FlowObj.loop adv ds ⟨TS.ctor p, 0, v⟩).clock := by
  have hr : Reachable p s.clock := by
    rw [hs]
    exact reachable_earlier hn adv rs _ ⟨[], by simp, rfl⟩
  exact sameSchedule_loop adv ds _ _ _ _ _ _ (restart_sameSchedule hp hn hr)

theorem nextChecked_some {t : TS K} (h : t.atEnd = false) : t.nextChecked = some t.next := by
  simp [TS.nextChecked, h]

theorem runClocks_release (ds : List (Option K)) :
    ∀ s s' : TS K × TS K, runClocks stepOKZ ds s = some s' → runRelease ds s = s' := by
  induction ds with
  | nil => intro s s' h; simpa [runClocks, runRelease] using h
  | cons d ds ih =>
    intro s s' h
    rw [runClocks] at h
    rw [runRelease]
    by_cases he : s.1.atEnd = true
    · rw [if_pos he] at h ⊢
      simpa using h
    · rw [if_neg he] at h ⊢
      cases hst : stepOKZ d s with
      | none => rw [hst] at h; simp at h
      | some q =>
        rw [hst] at h
        have hq : stepOKZRelease d s = q := by
          have he' : (s.1.request d).atEnd = false := by rw [request_atEnd]; simpa using he
          rw [stepOKZ, nextChecked_some he'] at hst
          simp only [Option.bind_some, advectClock, TS.nextChecked] at hst
          by_cases hl : (s.2.setDesired (s.1.request d).next.cur).atEnd = true
          · rw [if_pos hl] at hst; simp at hst
          · rw [if_neg hl] at hst
            simpa [stepOKZRelease] using hst
        rw [hq]
        exact ih q s' h

/-- what is known about the clocks after a completed first run -/
theorem after_run {p : Params K} (hp : p.Good) (hr : p.StartInRange) (ds : List (Option K)) {f l : TS K}
    (hrun : runClocks stepOKZ ds (TS.ctor p, TS.ctor p) = some (f, l)) (he : f.atEnd = true) :
    Fixed p l ∧ l.atEnd = true ∧ Synchronous f l := by
  have h0 : RunInv p (TS.ctor p, TS.ctor p) :=
    ⟨⟨rfl, rfl, rfl, rfl⟩, fixed_ctor p, fun _ => going_ctor hp hr⟩
  obtain ⟨s', hs', hi⟩ := run_inv hp hr (Or.inl rfl) ds h0
  rw [hrun] at hs'
  cases hs'
  exact ⟨hi.2.1, by rw [hi.1.atEnd]; exact he, hi.1⟩

/-- **C123, level set solver in debug mode (the property is false).** For all admissible parameters and every completed
first run with any step size requests: after a second `setup_problem` the first time step fails, because the clock of
the level set transport still stands at the final time. -/
theorem C123_level_set_second_run_asserts (p : Params K) (hp : p.Good) (hr : p.StartInRange) (ds : List (Option K))
    (f l : TS K) (hrun : runClocks stepOKZ ds (TS.ctor p, TS.ctor p) = some (f, l)) (he : f.atEnd = true)
    (d : Option K) : stepOKZ d (setupClocks (f, l)) = none := by
  obtain ⟨-, hl, -⟩ := after_run hp hr ds hrun he
  rw [stepOKZ, setupClocks]
  have : ∀ dt, advectClock l dt = none := by
    intro dt
    rw [advectClock, TS.nextChecked, if_pos]
    exact hl
  cases h : (f.restart.request d).nextChecked with
  | none => rfl
  | some q => simp [this]

theorem loop_now {p : Params K} (hp : p.Good) {t : TS K} (h : Reachable p t) (he : t.atEnd = true) :
    t.now = p.endTime := by
  obtain ⟨cs, hok, hr⟩ := h
  have hi := inv_run hp cs _ _ (inv_ctor hp) hok hr
  rw [hi.end_iff.1 he, hi.hfinal]

theorem flow_reachable {p : Params K} (ds : List (Option K)) :
    ∀ s s' : TS K × TS K, Reachable p s.1 → runClocks stepOKZ ds s = some s' → Reachable p s'.1 := by
  induction ds with
  | nil =>
    intro s s' h hr
    simp only [runClocks, Option.some.injEq] at hr
    rw [← hr]; exact h
  | cons d ds ih =>
    intro s s' h hr
    rw [runClocks] at hr
    by_cases he : s.1.atEnd = true
    · rw [if_pos he] at hr
      simp only [Option.some.injEq] at hr
      rw [← hr]; exact h
    · rw [if_neg he] at hr
      cases hst : stepOKZ d s with
      | none => rw [hst] at hr; simp at hr
      | some q =>
        rw [hst] at hr
        refine ih q s' ?_ hr
        have he' : (s.1.request d).atEnd = false := by rw [request_atEnd]; simpa using he
        rw [stepOKZ, nextChecked_some he'] at hst
        simp only [Option.bind_some, Option.map_eq_some_iff] at hst
        obtain ⟨x, -, hx⟩ := hst
        rw [← hx]
        exact reachable_next (reachable_request h d) he'

/-- relative staleness of `weight()` -/
theorem weight_near {t : TS K} {W : K} (hW : 0 < W)
    (h : t.next.w = if 1 / 10 ^ 12 < |W - t.w| / W then W else t.w) : |t.next.w - W| ≤ 1 / 10 ^ 12 * W := by
  by_cases hc : 1 / 10 ^ 12 < |W - t.w| / W
  · rw [if_pos hc] at h
    rw [h, sub_self, abs_zero]
    positivity
  · rw [if_neg hc] at h
    rw [h, abs_sub_comm]
    have := not_lt.1 hc
    rw [div_le_iff₀ hW] at this
    exact this

/-- **C123, level set solver in release mode (the property is false).** For all admissible `bdf_2` parameters and every
completed first run with any step size requests: in the first time step after a second `setup_problem` the level set
transport works with two-step weights although there is only one old value; the value it assigns where nothing moves is
`4/3` of the initial value `φ` (the older vector is freshly allocated, hence zero), up to the tolerance of the weight. A
new object keeps the value `φ`. -/
theorem C123_level_set_first_value_wrong (p : Params K) (hp : p.Good) (hr : p.StartInRange) (hb : p.scheme = .bdf2)
    (ds : List (Option K)) (s q : TS K × TS K) (hs : s = runRelease ds (TS.ctor p, TS.ctor p))
    (he : s.1.atEnd = true) (d : Option K) (hq : q = stepOKZRelease d (setupClocks s)) (φ : K) :
    |restingValue q.2 φ 0 - 4 / 3 * φ| ≤ 1 / 10 ^ 11 * |φ| ∧
    |restingValue (stepOKZRelease d (TS.ctor p, TS.ctor p)).2 φ 0 - φ| ≤ 1 / 10 ^ 11 * |φ| := by
  obtain ⟨⟨f, l⟩, hrun, hinv⟩ := run_inv hp hr (Or.inl rfl) ds
    (⟨⟨rfl, rfl, rfl, rfl⟩, fixed_ctor p, fun _ => going_ctor hp hr⟩ : RunInv p (TS.ctor p, TS.ctor p))
  have hrel := runClocks_release ds _ _ hrun
  rw [hrel] at hs
  subst hs
  have hl : l.atEnd = true := by rw [hinv.1.atEnd]; exact he
  have hfix : Fixed p l := hinv.2.1
  have hnow : l.now = p.endTime := by
    rw [hinv.1.now]
    exact loop_now hp (flow_reachable ds _ _ ⟨[], by simp, rfl⟩ hrun) he
  have hmm : p.stepMin ≤ p.stepMax := hr.1.trans hr.2
  constructor
  · set dt := (f.restart.request d).next.cur with hdt
    have hq2 : q.2 = (l.setDesired dt).next := by rw [hq]; rfl
    set t := l.setDesired dt with ht
    have hc := desired_clip l dt (by rw [hfix.hmin, hfix.hmax]; exact hmm)
    set c := l.desiredValue dt with hcd
    have hcpos : 0 < c := lt_of_lt_of_le (by rw [hfix.hmin]; exact hp.min) hc.1
    have hne : t.now ≠ t.start := by
      change l.now ≠ l.start
      rw [hnow, hfix.hstart]
      exact hp.interval.ne'
    have hsch : t.scheme = .bdf2 := by
      change l.scheme = _
      rw [hfix.hscheme, hb]
    have htr : t.trial = c := by rw [ht, trial_setDesired']
    have hsn : t.snaps = false := by
      have : t.atEnd = true := hl
      simp [TS.snaps, this]
    have hnl : t.newLast = c := by
      rw [TS.newLast, if_pos hne]
      rfl
    have hno : 1 < t.next.stepNo := by
      rw [next_stepNo]
      change 1 < l.stepNo + 1
      have hln : l.stepNo = f.stepNo := hinv.1.stepNo
      have : f.stepNo ≠ 0 := by
        intro h0
        -- a run that has ended has made a step
        cases ds with
        | nil =>
          simp only [runClocks, Option.some.injEq] at hrun
          have h1 : f = TS.ctor p := (congrArg Prod.fst hrun).symm
          have h2 : f.atEnd = true := he
          rw [h1] at h2
          simp [TS.ctor] at h2
        | cons d' ds =>
          have : ∀ (ds : List (Option K)) (a b : TS K × TS K), runClocks stepOKZ ds a = some b →
              a.1.stepNo ≤ b.1.stepNo := by
            intro ds
            induction ds with
            | nil =>
              intro a b hab
              simp only [runClocks, Option.some.injEq] at hab
              rw [hab]
            | cons x xs ih =>
              intro a b hab
              rw [runClocks] at hab
              by_cases hae : a.1.atEnd = true
              · rw [if_pos hae] at hab
                simp only [Option.some.injEq] at hab
                rw [hab]
              · rw [if_neg hae] at hab
                cases hst : stepOKZ x a with
                | none => rw [hst] at hab; simp at hab
                | some y =>
                  rw [hst] at hab
                  refine le_trans ?_ (ih y b hab)
                  have he' : (a.1.request x).atEnd = false := by rw [request_atEnd]; simpa using hae
                  rw [stepOKZ, nextChecked_some he'] at hst
                  simp only [Option.bind_some, Option.map_eq_some_iff] at hst
                  obtain ⟨z, -, hz⟩ := hst
                  rw [← hz]
                  dsimp only
                  rw [next_stepNo]
                  have : (a.1.request x).stepNo = a.1.stepNo := by cases x <;> rfl
                  omega
          rw [runClocks, if_neg (by simp [TS.ctor])] at hrun
          cases hst : stepOKZ d' (TS.ctor p, TS.ctor p) with
          | none => rw [hst] at hrun; simp at hrun
          | some y =>
            rw [hst] at hrun
            have hy := this ds y (f, l) hrun
            have he' : ((TS.ctor p).request d').atEnd = false := by rw [request_atEnd]; rfl
            rw [stepOKZ, nextChecked_some he'] at hst
            simp only [Option.bind_some, Option.map_eq_some_iff] at hst
            obtain ⟨z, -, hz⟩ := hst
            rw [← hz] at hy
            dsimp only at hy
            rw [next_stepNo, h0] at hy
            omega
      omega
    have htwo : decide (t.scheme = .bdf2 ∧ t.now ≠ t.start) = true := by simp [hsch, hne]
    have hwo : t.next.wOld = -((c + c) / (c * c)) := by
      simp only [TS.next, htwo, hsn, hnl, htr]
      simp
    have hw : t.next.w = if 1 / 10 ^ 12 < |(2 * c + c) / (c * (c + c)) - t.w| / ((2 * c + c) / (c * (c + c)))
        then (2 * c + c) / (c * (c + c)) else t.w := by
      simp only [TS.next, htwo, hsn, hnl, htr]
      simp
    have hW : (0 : K) < (2 * c + c) / (c * (c + c)) := by positivity
    have hnear := weight_near hW hw
    have hWv : (2 * c + c) / (c * (c + c)) = 3 / (2 * c) := by field_simp; ring
    rw [hWv] at hnear hW
    rw [hq2, restingValue, hwo]
    have hsch2 : t.next.scheme = .bdf2 := hsch
    rw [if_pos ⟨hsch2, hno⟩]
    generalize t.next.w = w at hnear
    have hwpos : 0 < w := by
      have := (abs_le.1 hnear).1
      have h1 : (1 : K) / 10 ^ 12 * (3 / (2 * c)) < 3 / (2 * c) := by
        have : (1 : K) / 10 ^ 12 < 1 := by norm_num
        exact mul_lt_of_lt_one_left hW this
      linarith
    have heq : -(-((c + c) / (c * c)) * φ + t.next.wOldOld * 0) / w - 4 / 3 * φ =
        4 / 3 * φ * ((3 / (2 * c) - w) / w) := by
      field_simp
      ring
    have h43 : |(4 / 3 : K)| = 4 / 3 := abs_of_pos (by norm_num)
    rw [heq, abs_mul, abs_mul, h43, abs_div, abs_of_pos hwpos, abs_sub_comm]
    have hratio : |w - 3 / (2 * c)| / w ≤ 1 / 10 ^ 12 * 2 := by
      rw [div_le_iff₀ hwpos]
      refine hnear.trans ?_
      have := (abs_le.1 hnear).1
      have h2 : 3 / (2 * c) ≤ 2 * w := by
        have h1 : (1 : K) / 10 ^ 12 * (3 / (2 * c)) ≤ 1 / 2 * (3 / (2 * c)) :=
          mul_le_mul_of_nonneg_right (by norm_num) hW.le
        linarith
      calc (1 : K) / 10 ^ 12 * (3 / (2 * c)) ≤ 1 / 10 ^ 12 * (2 * w) := mul_le_mul_of_nonneg_left h2 (by norm_num)
        _ = _ := by ring
    have hφ := abs_nonneg φ
    calc 4 / 3 * |φ| * (|w - 3 / (2 * c)| / w) ≤ 4 / 3 * |φ| * (1 / 10 ^ 12 * 2) :=
          mul_le_mul_of_nonneg_left hratio (by positivity)
      _ ≤ 1 / 10 ^ 11 * |φ| := by nlinarith
  · -- a new object: one-step weights
    set dt := ((TS.ctor p).request d).next.cur with hdt
    change |restingValue ((TS.ctor p).setDesired dt).next φ 0 - φ| ≤ _
    set t := (TS.ctor p).setDesired dt with ht
    have hc := desired_clip (TS.ctor p) dt hmm
    have htr : t.trial = (TS.ctor p).desiredValue dt := by rw [ht, trial_setDesired']
    set c := (TS.ctor p).desiredValue dt with hcd
    have hcpos : 0 < c := lt_of_lt_of_le hp.min hc.1
    have hnow0 : t.now = t.start := rfl
    have htwo : decide (t.scheme = .bdf2 ∧ t.now ≠ t.start) = false := by simp [hnow0]
    have hno : t.next.stepNo = 1 := by rw [next_stepNo]; rfl
    set e := if t.snaps then t.final - t.now else t.trial with hed
    have hepos : 0 < e := by
      rw [hed]
      split
      · change 0 < p.endTime - p.startTime
        linarith [hp.interval]
      · rw [htr]; exact hcpos
    have hwo : t.next.wOld = -1 / e := by
      simp only [TS.next, htwo]
      simp [hed]
    have hw : t.next.w = if 1 / 10 ^ 12 < |1 / e - t.w| / (1 / e) then 1 / e else t.w := by
      simp only [TS.next, htwo, ← hed]
      simp
    have hW : (0 : K) < 1 / e := by positivity
    have hnear := weight_near hW hw
    rw [restingValue, hwo, if_neg (by rw [hno]; omega)]
    generalize t.next.w = w at hnear
    have hwpos : 0 < w := by
      have := (abs_le.1 hnear).1
      have h1 : (1 : K) / 10 ^ 12 * (1 / e) < 1 / e := mul_lt_of_lt_one_left hW (by norm_num)
      linarith
    have heq : -(-1 / e * φ + 0) / w - φ = φ * ((1 / e - w) / w) := by
      field_simp
      ring
    rw [heq, abs_mul, abs_div, abs_of_pos hwpos, abs_sub_comm]
    have hratio : |w - 1 / e| / w ≤ 1 / 10 ^ 12 * 2 := by
      rw [div_le_iff₀ hwpos]
      refine hnear.trans ?_
      have := (abs_le.1 hnear).1
      have h2 : 1 / e ≤ 2 * w := by
        have h1 : (1 : K) / 10 ^ 12 * (1 / e) ≤ 1 / 2 * (1 / e) := mul_le_mul_of_nonneg_right (by norm_num) hW.le
        linarith
      calc (1 : K) / 10 ^ 12 * (1 / e) ≤ 1 / 10 ^ 12 * (2 * w) := mul_le_mul_of_nonneg_left h2 (by norm_num)
        _ = _ := by ring
    have hφ := abs_nonneg φ
    calc |φ| * (|w - 1 / e| / w) ≤ |φ| * (1 / 10 ^ 12 * 2) := mul_le_mul_of_nonneg_left hratio hφ
      _ ≤ 1 / 10 ^ 11 * |φ| := by nlinarith

/-- **C123, level set solver in release mode, step sizes.** With any scheme the transport of the second run may use
another step size than the flow: after a first run whose last step was shortened to `1/10`, the flow makes a first step
of `3/10` and the level set one of `1/5`. -/
theorem C123_level_set_step_differs :
    let p : Params ℚ := ⟨.implicitEuler, 0, 1, 3 / 10, 1, 1 / 100⟩
    let s := runRelease [none, none, none, none] (TS.ctor p, TS.ctor p)
    let q := stepOKZRelease none (setupClocks s)
    s.1.atEnd = true ∧ q.1.cur = 3 / 10 ∧ q.2.cur = 1 / 5 ∧ q.1.now = 3 / 10 ∧ q.2.now = 6 / 5 := by
  decide +kernel

/-! ## Non-vacuity -/

/-- a completed first run, and what the second one computes -/
example : exP.Good ∧ exP.StartInRange ∧ exP.NonDegenerate ∧ exP.scheme = .bdf2 ∧
    (runRelease [none, some (1 / 5), none, none, none, none] (TS.ctor exP, TS.ctor exP)).1.atEnd = true ∧
    restingValue (stepOKZRelease none
      (setupClocks (runRelease [none, some (1 / 5), none, none, none, none] (TS.ctor exP, TS.ctor exP)))).2 3 0 = 4 := by
  refine ⟨exP_good, exP_range, ?_, rfl, by decide +kernel, by decide +kernel⟩
  unfold Params.NonDegenerate exP; norm_num

example : (FlowObj.loop (fun _ v => v + 1) [none, none, none, none]
      (FlowObj.setup 2 (fun _ => (0 : ℤ)) (fun r f => f + r) 7 ⟨TS.ctor exP, 0, 0⟩)).clock.atEnd = true ∧
    (FlowObj.loop (fun _ v => v + 1) [none, none, none, none]
      (FlowObj.setup 2 (fun _ => (0 : ℤ)) (fun r f => f + r) 7 ⟨TS.ctor exP, 0, 0⟩)).vel = 12 := by
  decide +kernel

/-- two earlier runs, the second one stopped early -/
example : (earlierRuns (fun _ (v : ℤ) => v) [[none, none, none], [none, some (1 / 5)]] ⟨TS.ctor exP, 0, 0⟩).clock.now ≠
    exP.startTime := by
  decide +kernel

end Verif.Time
