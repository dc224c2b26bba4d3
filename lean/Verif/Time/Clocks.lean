import Verif.Time.Basic
import Mathlib.Algebra.Order.Ring.Rat

/-!
# C40, C41, C54: the clocks of the coupled level set / flow solvers

`LevelSetOKZSolverAdvanceConcentration` and `LevelSetOKZSolverReinitialization` own a `TimeStepping` object each, built
from the same parameters as the one of the flow solver (source/level_set_okz.cc:90-105, 160-177;
include/adaflo/sharp_interface.h:114-124, 182-192).
-/

set_option linter.unusedSectionVars false

namespace Verif.Time

variable {K : Type*} [Field K] [LinearOrder K] [IsStrictOrderedRing K]

/-! ## Model -/

/-- optional call of `set_desired_time_step` on the flow clock between two steps (from `compute_bubble_statistics`,
two_phase_base.cc:616) -/
def TS.request (t : TS K) : Option K → TS K
  | none => t
  | some d => t.setDesired d

/-- `advance_concentration(dt)` as seen by its clock: source/level_set_okz_advance_concentration.cc:508-509.
`none`: failing debug assertion in `next()`. -/
def advectClock (l : TS K) (dt : K) : Option (TS K) := (l.setDesired dt).nextChecked

/-- `reinitialize(dt, ...)` as seen by its clock: source/level_set_okz_reinitialization.cc:264 and :362. -/
def reinitClock (r : TS K) (dt : K) : Option (TS K) := (r.setDesired dt).nextChecked

/-- One step of `LevelSetBaseAlgorithm::advance_time_step` (source/level_set_base.cc:216-258) as seen by the flow clock
and the advection clock: first `init_time_advance` steps the flow clock, then
`advance_concentration(time_stepping.step_size())` (level_set_okz.cc:442). -/
def stepOKZ (d : Option K) (s : TS K × TS K) : Option (TS K × TS K) :=
  (s.1.request d).nextChecked.bind fun f => (advectClock s.2 f.cur).map fun l => (f, l)

/-- One step of `MixedLevelSetSolver::advance_time_step` (include/adaflo/sharp_interface.h:820-833): the level set is
advanced first, with the step size the flow clock shows *before* it is stepped. -/
def stepMixed (d : Option K) (s : TS K × TS K) : Option (TS K × TS K) :=
  let f := s.1.request d
  (advectClock s.2 f.cur).bind fun l => f.nextChecked.map fun f' => (f', l)

/-- A whole run: the requests between the steps; the application stops stepping when `at_end()`. -/
def runClocks (step : Option K → TS K × TS K → Option (TS K × TS K)) : List (Option K) → TS K × TS K →
    Option (TS K × TS K)
  | [], s => some s
  | d :: ds, s => if s.1.atEnd then some s else (step d s).bind (runClocks step ds)

/-! ## Specification -/

/-- the two clocks show the same time, step size, step number and end-of-run flag -/
structure Synchronous (f l : TS K) : Prop where
  now : l.now = f.now
  cur : l.cur = f.cur
  stepNo : l.stepNo = f.stepNo
  atEnd : l.atEnd = f.atEnd

/-- the start step respects the bounds given in the same parameter file -/
def Params.StartInRange (p : Params K) : Prop := p.stepMin ≤ p.stepStart ∧ p.stepStart ≤ p.stepMax

/-! ## Proof -/

/-- data of a clock that never change -/
structure Fixed (p : Params K) (t : TS K) : Prop where
  hstart : t.start = p.startTime
  hfinal : t.final = p.endTime
  hscheme : t.scheme = p.scheme
  hmax : t.maxStep = p.stepMax
  hmin : t.minStep = p.stepMin

/-- invariant of the flow clock while the run goes on -/
structure Going (p : Params K) (t : TS K) : Prop where
  fixed : Fixed p t
  stepcur : t.step = t.cur
  lo : p.stepMin ≤ t.cur
  hi : t.cur ≤ p.stepMax
  before : t.now < p.endTime

theorem desired_clip (t : TS K) (d : K) (h : t.minStep ≤ t.maxStep) :
    t.minStep ≤ t.desiredValue d ∧ t.desiredValue d ≤ t.maxStep := by
  unfold TS.desiredValue; dsimp only
  exact ⟨le_min h (le_max_left _ _), min_le_left _ _⟩

/-- a request within the bounds and within a factor two of the current step is granted -/
theorem desired_granted' (t : TS K) {d : K} (h1 : t.minStep ≤ d) (h2 : d ≤ t.maxStep) (hd : 0 < d)
    (h3 : t.now = 0 ∨ (t.cur / 2 ≤ d ∧ d ≤ 2 * t.cur)) : t.desiredValue d = d := by
  have hc : ∀ q : K, q / 2 ≤ d → d ≤ 2 * q → min t.maxStep (max t.minStep (min (2 * q) (max d (1 / 2 * q)))) = d := by
    intro q hq1 hq2
    rw [max_eq_left (show 1 / 2 * q ≤ d by linarith), min_eq_right hq2, max_eq_right h1, min_eq_right h2]
  unfold TS.desiredValue; dsimp only
  split_ifs with h
  · exact hc d (by linarith) (by linarith)
  · rcases h3 with h3 | h3
    · exact absurd h3 h
    · exact hc _ h3.1 h3.2

/-- what `set_desired_time_step` grants is within a factor two of the previous step -/
theorem desired_factor (t : TS K) (d : K) (h1 : t.minStep ≤ t.cur) (h2 : t.cur ≤ t.maxStep) (hp : 0 < t.cur) :
    t.now = 0 ∨ (t.cur / 2 ≤ t.desiredValue d ∧ t.desiredValue d ≤ 2 * t.cur) := by
  by_cases h : t.now = 0
  · exact .inl h
  right
  unfold TS.desiredValue; dsimp only; rw [if_neg h]
  constructor
  · refine le_min (by linarith) (le_trans ?_ (le_max_right _ _))
    exact le_min (by linarith) (le_trans (by linarith) (le_max_right _ _))
  · refine le_trans (min_le_right _ _) (max_le (by linarith) (min_le_left _ _))

theorem trial_eq_cur {t : TS K} (hs : t.step = t.cur) (hi : t.cur ≤ t.maxStep) : t.trial = t.cur := by
  unfold TS.trial; dsimp only
  split_ifs with h1 h2 h3 h4
  · rw [hs] at h3; exact absurd hi (not_le.2 h3)
  · exact hs
  · exact absurd hi (not_le.2 h4)
  · rfl
  · rfl

theorem next_now (t : TS K) : t.next.now = if t.snaps then t.final else t.now + t.trial := rfl
theorem next_cur (t : TS K) : t.next.cur = if t.snaps then t.final - t.now else t.trial := rfl
theorem next_step (t : TS K) : t.next.step = t.step := rfl
theorem next_atEnd (t : TS K) : t.next.atEnd = (t.atEnd || t.snaps) := rfl
theorem next_stepNo (t : TS K) : t.next.stepNo = t.stepNo + 1 := rfl

theorem fixed_next {p : Params K} {t : TS K} (h : Fixed p t) : Fixed p t.next := ⟨h.1, h.2, h.3, h.4, h.5⟩
theorem fixed_desired {p : Params K} {t : TS K} (h : Fixed p t) (d : K) : Fixed p (t.setDesired d) :=
  ⟨h.1, h.2, h.3, h.4, h.5⟩
theorem fixed_ctor (p : Params K) : Fixed p (TS.ctor p) := ⟨rfl, rfl, rfl, rfl, rfl⟩

theorem going_ctor {p : Params K} (hp : p.Good) (hr : p.StartInRange) : Going p (TS.ctor p) :=
  ⟨fixed_ctor p, rfl, hr.1, hr.2, hp.interval⟩

theorem going_request {p : Params K} (hr : p.StartInRange) {t : TS K} (h : Going p t) (d : Option K) :
    Going p (t.request d) := by
  cases d with
  | none => exact h
  | some d =>
    have hb := desired_clip t d (by rw [h.fixed.hmin, h.fixed.hmax]; exact hr.1.trans hr.2)
    rw [h.fixed.hmin, h.fixed.hmax] at hb
    exact ⟨fixed_desired h.fixed d, rfl, hb.1, hb.2, h.before⟩

/-- a step of a going clock: either it goes on, with the same step, or it ends at the final time -/
theorem going_next {p : Params K} (hp : p.Good) {t : TS K} (h : Going p t) (he : t.atEnd = false) :
    (t.snaps = false ∧ Going p t.next ∧ t.next.cur = t.cur ∧ t.next.now = t.now + t.cur ∧ t.next.atEnd = false) ∨
    (t.snaps = true ∧ t.next.now = p.endTime ∧ t.next.cur = p.endTime - t.now ∧ t.next.atEnd = true ∧
      p.endTime - t.now < t.cur + 1 / 100 * t.cur) := by
  have htr : t.trial = t.cur := trial_eq_cur h.stepcur (by rw [h.fixed.hmax]; exact h.hi)
  have hpos : 0 < t.cur := lt_of_lt_of_le hp.min h.lo
  by_cases hs : t.snaps = true
  · right
    refine ⟨hs, by rw [next_now, if_pos hs, h.fixed.hfinal], by rw [next_cur, if_pos hs, h.fixed.hfinal], by
      rw [next_atEnd, hs, Bool.or_true], ?_⟩
    have := (snaps_true.1 hs).2
    rw [htr, h.fixed.hfinal] at this
    linarith
  · left
    have hf : t.snaps = false := by simpa using hs
    have hle := (snaps_false he).1 hf
    rw [htr, h.fixed.hfinal] at hle
    have hcur : t.next.cur = t.cur := by rw [next_cur, if_neg hs, htr]
    have hnow : t.next.now = t.now + t.cur := by rw [next_now, if_neg hs, htr]
    refine ⟨hf, ⟨fixed_next h.fixed, by rw [next_step, hcur, h.stepcur], by rw [hcur]; exact h.lo, by
      rw [hcur]; exact h.hi, by rw [hnow]; linarith⟩, hcur, hnow, by rw [next_atEnd, he, hf]; rfl⟩

theorem trial_setDesired' (t : TS K) (d : K) : (t.setDesired d).trial = t.desiredValue d := by
  unfold TS.trial TS.setDesired TS.desiredValue; dsimp only
  split_ifs <;> first | rfl | (rename_i h; exact absurd h (not_lt.2 (min_le_left _ _)))

/-- The level set clock, synchronous with the flow clock before the step, given the new step size of the flow clock. -/
theorem advect_follows {p : Params K} (hp : p.Good) (hr : p.StartInRange) {f l : TS K} (hf : Going p f)
    (hl : Fixed p l) (hs : Synchronous f l) (he : f.atEnd = false) (d : Option K) (dt : K)
    (hdt : dt = (f.request d).next.cur ∨ dt = (f.request d).cur) :
    ∃ l', advectClock l dt = some l' ∧ Fixed p l' ∧ Synchronous (f.request d).next l' := by
  set g := f.request d with hg
  have hgo : Going p g := going_request hr hf d
  have hge : g.atEnd = false := by rw [hg]; cases d <;> exact he
  have hgn : g.now = f.now := by rw [hg]; cases d <;> rfl
  have hgs : g.stepNo = f.stepNo := by rw [hg]; cases d <;> rfl
  have hle : l.atEnd = false := by rw [hs.atEnd]; exact he
  have hcp : 0 < g.cur := lt_of_lt_of_le hp.min hgo.lo
  have hfp : 0 < f.cur := lt_of_lt_of_le hp.min hf.lo
  have hfac : f.now = 0 ∨ (f.cur / 2 ≤ g.cur ∧ g.cur ≤ 2 * f.cur) := by
    rw [hg]
    cases d with
    | none => right; constructor <;> (show _ ≤ _; simp only [TS.request]; linarith)
    | some d =>
      exact desired_factor f d (by rw [hf.fixed.hmin]; exact hf.lo) (by rw [hf.fixed.hmax]; exact hf.hi) hfp
  -- value granted to a request of `g.cur`
  have hgr : l.desiredValue g.cur = g.cur := by
    apply desired_granted' l (by rw [hl.hmin]; exact hgo.lo) (by rw [hl.hmax]; exact hgo.hi) hcp
    rw [hs.now, hs.cur]; exact hfac
  refine ⟨(l.setDesired dt).next, ?_, fixed_next (fixed_desired hl dt), ?_⟩
  · have : (l.setDesired dt).atEnd = false := hle
    simp [advectClock, TS.nextChecked, this]
  have hlend : (l.setDesired dt).atEnd = false := hle
  have hlfin : (l.setDesired dt).final = p.endTime := hl.hfinal
  have hlnow : (l.setDesired dt).now = g.now := by rw [hgn]; exact hs.now
  have hln : (l.setDesired dt).stepNo = g.stepNo := by rw [hgs]; exact hs.stepNo
  -- the decisive fact: the level set clock ends exactly if the flow clock does
  rcases going_next hp hgo hge with ⟨h1, h2, h3, h4, h5⟩ | ⟨h1, h2, h3, h4, h5⟩
  · have hdc : dt = g.cur := by rcases hdt with h | h; · rw [h, h3]
                                · exact h
    have htr : (l.setDesired dt).trial = g.cur := by rw [trial_setDesired', hdc, hgr]
    have hns : (l.setDesired dt).snaps = false := by
      rw [snaps_false hlend, htr, hlfin, hlnow]
      have := (snaps_false hge).1 h1
      rw [trial_eq_cur hgo.stepcur (by rw [hgo.fixed.hmax]; exact hgo.hi), hgo.fixed.hfinal] at this
      exact this
    constructor
    · rw [next_now, hns, htr, hlnow, h4]; rfl
    · rw [next_cur, hns, htr, h3]; rfl
    · rw [next_stepNo, next_stepNo, hln]
    · rw [next_atEnd, hns, hlend, h5]; rfl
  · -- flow clock snaps; remaining time `r`
    have hr0 : 0 < p.endTime - g.now := by linarith [hgo.before]
    have hv : p.endTime - g.now < l.desiredValue dt + 1 / 100 * l.desiredValue dt := by
      rcases hdt with h | h
      · rw [h3] at h
        -- value granted to a request of the remaining time
        have hge' : min g.cur dt ≤ l.desiredValue dt := by
          unfold TS.desiredValue; dsimp only
          rw [hl.hmax, hl.hmin, hs.now, hs.cur]
          have hd0 : 0 < dt := by rw [h]; exact hr0
          refine le_min (le_trans (min_le_left _ _) hgo.hi) (le_trans ?_ (le_max_right _ _))
          refine le_min ?_ (le_trans (min_le_right _ _) (le_max_left _ _))
          split_ifs with h0
          · exact le_trans (min_le_right _ _) (by linarith)
          · rcases hfac with h0' | h0'
            · exact absurd h0' h0
            · exact le_trans (min_le_left _ _) h0'.2
        rcases le_total g.cur dt with hm | hm
        · rw [min_eq_left hm] at hge'; linarith
        · rw [min_eq_right hm, h] at hge'
          have : 0 < l.desiredValue dt := lt_of_lt_of_le hr0 (by rw [h]; exact hge')
          rw [h] at this ⊢; linarith
      · rw [h, hgr]; exact h5
    have hsn : (l.setDesired dt).snaps = true := by
      rw [snaps_true, trial_setDesired', hlfin, hlnow]
      exact ⟨hlend, by linarith⟩
    constructor
    · rw [next_now, if_pos hsn, hlfin, h2]
    · rw [next_cur, if_pos hsn, hlfin, hlnow, h3]
    · rw [next_stepNo, next_stepNo, hln]
    · rw [next_atEnd, hsn, Bool.or_true, h4]

/-- state of a run: synchronous, and going as long as the end is not reached -/
def RunInv (p : Params K) (s : TS K × TS K) : Prop :=
  Synchronous s.1 s.2 ∧ Fixed p s.2 ∧ (s.1.atEnd = false → Going p s.1)

theorem step_inv {p : Params K} (hp : p.Good) (hr : p.StartInRange) {step : Option K → TS K × TS K → Option (TS K × TS K)}
    (hstep : step = stepOKZ ∨ step = stepMixed) {s : TS K × TS K} (h : RunInv p s) (he : s.1.atEnd = false)
    (d : Option K) : ∃ s', step d s = some s' ∧ RunInv p s' ∧ s'.1 = (s.1.request d).next := by
  obtain ⟨hs, hl, hgo⟩ := h
  have hge : (s.1.request d).atEnd = false := by cases d <;> exact he
  have hgoing : (s.1.request d).next.atEnd = false → Going p (s.1.request d).next := by
    intro hne
    rcases going_next hp (going_request hr (hgo he) d) hge with ⟨_, h2, _⟩ | ⟨_, _, _, h4, _⟩
    · exact h2
    · rw [h4] at hne; simp at hne
  rcases hstep with rfl | rfl
  · obtain ⟨l', h1, h2, h3⟩ := advect_follows hp hr (hgo he) hl hs he d _ (.inl rfl)
    refine ⟨((s.1.request d).next, l'), ?_, ⟨h3, h2, hgoing⟩, rfl⟩
    simp [stepOKZ, TS.nextChecked, hge, h1]
  · obtain ⟨l', h1, h2, h3⟩ := advect_follows hp hr (hgo he) hl hs he d _ (.inr rfl)
    refine ⟨((s.1.request d).next, l'), ?_, ⟨h3, h2, hgoing⟩, rfl⟩
    simp [stepMixed, TS.nextChecked, hge, h1]

theorem run_inv {p : Params K} (hp : p.Good) (hr : p.StartInRange) {step : Option K → TS K × TS K → Option (TS K × TS K)}
    (hstep : step = stepOKZ ∨ step = stepMixed) (ds : List (Option K)) {s : TS K × TS K} (h : RunInv p s) :
    ∃ s', runClocks step ds s = some s' ∧ RunInv p s' := by
  induction ds generalizing s with
  | nil => exact ⟨s, rfl, h⟩
  | cons d ds ih =>
    unfold runClocks
    by_cases he : s.1.atEnd = true
    · exact ⟨s, by simp [he], h⟩
    · obtain ⟨s', h1, h2, _⟩ := step_inv hp hr hstep h (by simpa using he) d
      obtain ⟨s'', h3, h4⟩ := ih h2
      exact ⟨s'', by simp [he, h1, h3], h4⟩

/-- **C40.** For all admissible parameters whose start step respects the bounds on the step size, in both coupled drivers
(level set solver and mixed sharp-interface solver), for every history of step size requests: no assertion fails, and
after every step the clock of the level set transport shows the same time, step size, step number and end flag as the
flow solver's clock. -/
theorem C40_clocks_synchronous (p : Params K) (hp : p.Good) (hr : p.StartInRange)
    {step : Option K → TS K × TS K → Option (TS K × TS K)} (hstep : step = stepOKZ ∨ step = stepMixed)
    (ds : List (Option K)) :
    ∃ f l, runClocks step ds (TS.ctor p, TS.ctor p) = some (f, l) ∧ Synchronous f l := by
  obtain ⟨⟨f, l⟩, h1, h2⟩ := run_inv hp hr hstep ds (s := (TS.ctor p, TS.ctor p))
    ⟨⟨rfl, rfl, rfl, rfl⟩, fixed_ctor p, fun _ => going_ctor hp hr⟩
  exact ⟨f, l, h1, h2.1⟩

/-- the same after `restart()` of the flow clock only, as in `setup_problem` (two_phase_base.cc:134) -/
theorem C40_restart_harmless (p : Params K) (hp : p.Good) (hn : p.NonDegenerate) :
    (TS.ctor p).restart = TS.ctor p := by
  have : ¬ (p.endTime - p.startTime) / p.stepStart < 1 / 10 ^ 14 := not_lt.2 hn
  simp only [TS.restart, TS.ctor, TS.mk.injEq, true_and, and_true]
  exact decide_eq_false this

/-! ### Limits of C40 -/

def exP : Params ℚ := ⟨.bdf2, 0, 1, 2 / 5, 1, 1 / 100⟩

/-- The *weights* need not agree: a shortened last step is stored as the "previous" step of the level set clock as well,
so that its BDF-2 weights in the last step differ from those of the flow clock (which are those of the steps taken). -/
theorem C40_last_step_weights_differ :
    ∃ f l, runClocks stepOKZ [none, none, none] (TS.ctor exP, TS.ctor exP) = some (f, l) ∧ f.now = l.now ∧
      f.cur = 1 / 5 ∧ f.last = 2 / 5 ∧ l.last = 1 / 5 ∧ f.w ≠ l.w := by
  have h : ((runClocks stepOKZ [none, none, none] (TS.ctor exP, TS.ctor exP)).map fun s =>
      decide (s.1.now = s.2.now ∧ s.1.cur = 1 / 5 ∧ s.1.last = 2 / 5 ∧ s.2.last = 1 / 5 ∧ s.1.w ≠ s.2.w)) = some true := by
    decide +kernel
  rw [Option.map_eq_some_iff] at h
  obtain ⟨⟨f, l⟩, h1, h2⟩ := h
  exact ⟨f, l, h1, of_decide_eq_true h2⟩

/-- `time_step_size_start` larger than `time_step_size_max`: the flow clock takes the start step, the level set clock the
maximal one; from then on they show different times. -/
theorem C40_start_step_out_of_range :
    ∃ f l, runClocks stepOKZ [none] (TS.ctor { exP with stepMax := 1 / 5 }, TS.ctor { exP with stepMax := 1 / 5 }) =
      some (f, l) ∧ f.now = 2 / 5 ∧ l.now = 1 / 5 := by
  have h : ((runClocks stepOKZ [none] (TS.ctor { exP with stepMax := 1 / 5 }, TS.ctor { exP with stepMax := 1 / 5 })).map
      fun s => decide (s.1.now = 2 / 5 ∧ s.2.now = 1 / 5)) = some true := by
    decide +kernel
  rw [Option.map_eq_some_iff] at h
  obtain ⟨⟨f, l⟩, h1, h2⟩ := h
  exact ⟨f, l, h1, of_decide_eq_true h2⟩

/-! ## C41: the clock of the reinitialization -/

/-- Run of `LevelSetOKZSolver` without step size requests, as seen by the flow clock and the clock of the
reinitialization: `setup_problem` calls `reinitialize(n_initial_reinit_steps)` once (level_set_base.cc:144) with the
start step, then every time step steps the flow clock and calls `reinitialize(step_size)` `k ≥ 1` times: once, and a
second time if the initial residual is excessive (level_set_base.cc:259, 273). -/
def runReinit : List ℕ → TS K × TS K → Option (TS K × TS K)
  | [], s => some s
  | extra :: es, s =>
    if s.1.atEnd then some s else
      s.1.nextChecked.bind fun f =>
        ((List.replicate (extra + 1) f.cur).foldlM reinitClock s.2).bind fun r => runReinit es (f, r)

/-- including the call in `setup_problem` -/
def runReinitSetup (es : List ℕ) (p : Params K) : Option (TS K × TS K) :=
  (reinitClock (TS.ctor p) (TS.ctor p).cur).bind fun r => runReinit es (TS.ctor p, r)

/-- **C41, positive part.** Without the call in `setup_problem` and without corrective calls, the clock of the
reinitialization is synchronous with the flow clock in every run without step size requests.
Missing: the two excluded calls, for which the statement is false of the code, see below. -/
theorem C41_reinit_clock_partial (p : Params K) (hp : p.Good) (hr : p.StartInRange) (n : ℕ) :
    ∃ f r, runReinit (List.replicate n 0) (TS.ctor p, TS.ctor p) = some (f, r) ∧ Synchronous f r := by
  have hrun : ∀ n (s : TS K × TS K), runReinit (List.replicate n 0) s = runClocks stepOKZ (List.replicate n none) s := by
    intro n
    induction n with
    | zero => intro s; rfl
    | succ n ih =>
      intro s
      simp only [List.replicate_succ, runReinit, runClocks, stepOKZ, TS.request]
      split_ifs with he
      · rfl
      · cases h : s.1.nextChecked with
        | none => rfl
        | some f =>
          simp only [Option.bind_some, List.replicate_zero, List.foldlM_cons, List.foldlM_nil]
          cases h2 : advectClock s.2 f.cur with
          | none => simp [reinitClock, advectClock] at *; simp [h2]
          | some l =>
            have : reinitClock s.2 f.cur = some l := h2
            simp [this, ih]
  rw [hrun]
  exact C40_clocks_synchronous p hp hr (.inl rfl) _

theorem reinit_one_ahead {p : Params K} (hp : p.Good) (hr : p.StartInRange) {f r : TS K} (hgo : Going p f)
    (he : f.atEnd = false) (hl : Fixed p r) (hs : Synchronous f.next r) (hne : f.next.atEnd = false) :
    ∃ r', reinitClock r f.next.cur = some r' ∧ Fixed p r' ∧ Synchronous f.next.next r' := by
  rcases going_next hp hgo he with ⟨_, h2, _⟩ | ⟨_, _, _, h4, _⟩
  · exact advect_follows hp hr h2 hl hs hne none f.next.cur (.inr rfl)
  · rw [h4] at hne; simp at hne

/-- **C41 is false of the code.** In every run without step size requests (all parameters, all run lengths) the
reinitialization clock is one step ahead of the flow clock because of the call in `setup_problem`, and is asked to
advance past the final time in the last step: the assertion in `next()` fails, in debug mode, before the run is
complete. -/
theorem C41_assertion_fails_in_last_step (p : Params K) (hp : p.Good) (hr : p.StartInRange) (n : ℕ)
    (hend : (nexts (TS.ctor p) n).atEnd = true) : runReinitSetup (List.replicate n 0) p = none := by
  obtain ⟨r0, h1, h2, h3⟩ := advect_follows hp hr (going_ctor hp hr) (fixed_ctor p) (l := TS.ctor p)
    ⟨rfl, rfl, rfl, rfl⟩ rfl none (TS.ctor p).cur (.inr rfl)
  have key : ∀ n (f r : TS K), Going p f → f.atEnd = false → Fixed p r → Synchronous f.next r →
      (nexts f n).atEnd = true → runReinit (List.replicate n 0) (f, r) = none := by
    intro n
    induction n with
    | zero => intro f r _ he _ _ h; simp [nexts, he] at h
    | succ n ih =>
      intro f r hgo he hl hs h
      simp only [List.replicate_succ, runReinit, he, Bool.false_eq_true, if_false, TS.nextChecked, Option.bind_some,
        List.replicate_zero, List.foldlM_cons, List.foldlM_nil]
      by_cases hne : f.next.atEnd = true
      · have : reinitClock r f.next.cur = none := by
          have hre : (r.setDesired f.next.cur).atEnd = true := by
            show r.atEnd = true
            rw [hs.atEnd]; exact hne
          simp [reinitClock, TS.nextChecked, hre]
        simp [this]
      · have hne' : f.next.atEnd = false := by simpa using hne
        obtain ⟨r', g1, g2, g3⟩ := reinit_one_ahead hp hr hgo he hl hs hne'
        have hg : Going p f.next := by
          rcases going_next hp hgo he with ⟨_, h2, _⟩ | ⟨_, _, _, h4, _⟩
          · exact h2
          · rw [h4] at hne'; simp at hne'
        have h' : (nexts f.next n).atEnd = true := h
        simp [g1, ih f.next r' hg hne' g2 g3 h']
  unfold runReinitSetup
  have h1' : reinitClock (TS.ctor p) (TS.ctor p).cur = some r0 := h1
  rw [h1']
  exact key n _ _ (going_ctor hp hr) rfl h2 h3 hend

/-- Even before the end the two clocks disagree: after the first step of a three step run. -/
theorem C41_one_step_ahead :
    ∃ f r, runReinitSetup [0] exP = some (f, r) ∧ f.now = 2 / 5 ∧ r.now = 4 / 5 := by
  have h : ((runReinitSetup [0] exP).map fun s => decide (s.1.now = 2 / 5 ∧ s.2.now = 4 / 5)) = some true := by
    decide +kernel
  rw [Option.map_eq_some_iff] at h
  obtain ⟨⟨f, l⟩, h1, h2⟩ := h
  exact ⟨f, l, h1, of_decide_eq_true h2⟩

/-! ## C54: time by which the surface mesh is transported -/

/-- Step of `FrontTrackingSolver` / `MixedLevelSetSolver` with surface mesh (include/adaflo/sharp_interface.h:540-550,
620-630, 820-833): the mesh is moved with the velocity times `time_stepping.step_size()`, then the flow clock is stepped.
The second component accumulates the transport time of the mesh. -/
def stepFront (d : Option K) (s : TS K × K) : Option (TS K × K) :=
  let f := s.1.request d
  f.nextChecked.map fun f' => (f', s.2 + f.cur)

def runFront : List (Option K) → TS K × K → Option (TS K × K)
  | [], s => some s
  | d :: ds, s => if s.1.atEnd then some s else (stepFront d s).bind (runFront ds)

/-- **C54, partial.** As long as the final time is not reached, the mesh has been transported for exactly the time the
flow clock shows. Missing: the last step, see `C54_last_step_overshoots`. -/
theorem C54_transport_time_partial (p : Params K) (hp : p.Good) (hr : p.StartInRange) (ds : List (Option K)) :
    ∃ f a, runFront ds (TS.ctor p, 0) = some (f, a) ∧ (f.atEnd = false → a = f.now - p.startTime) := by
  have key : ∀ ds (s : TS K × K), (s.1.atEnd = false → Going p s.1 ∧ s.2 = s.1.now - p.startTime) →
      ∃ f a, runFront ds s = some (f, a) ∧ (f.atEnd = false → a = f.now - p.startTime) := by
    intro ds
    induction ds with
    | nil => intro s h; exact ⟨s.1, s.2, rfl, fun he => (h he).2⟩
    | cons d ds ih =>
      intro s h
      unfold runFront
      by_cases he : s.1.atEnd = true
      · exact ⟨s.1, s.2, by simp [he], fun h' => by rw [he] at h'; simp at h'⟩
      · have he' : s.1.atEnd = false := by simpa using he
        have hge : (s.1.request d).atEnd = false := by cases d <;> exact he'
        have hgn : (s.1.request d).now = s.1.now := by cases d <;> rfl
        obtain ⟨f, a, h1, h2⟩ := ih ((s.1.request d).next, s.2 + (s.1.request d).cur) (by
          intro hne
          rcases going_next hp (going_request hr (h he').1 d) hge with ⟨_, g2, _, g4, _⟩ | ⟨_, _, _, g4, _⟩
          · refine ⟨g2, ?_⟩
            dsimp only
            rw [g4, (h he').2, hgn]; ring
          · rw [g4] at hne; simp at hne)
        exact ⟨f, a, by simp [he, stepFront, TS.nextChecked, hge, h1], h2⟩
  exact key ds _ fun _ => ⟨going_ctor hp hr, by simp [TS.ctor]⟩

/-- **C54 is false of the code in the last step:** a shortened last step of the flow moves the surface mesh by the full
step: simulated time 1, transport time 6/5. -/
theorem C54_last_step_overshoots :
    ∃ f a, runFront [none, none, none] (TS.ctor exP, 0) = some (f, a) ∧ f.atEnd = true ∧ f.now = 1 ∧ a = 6 / 5 := by
  have h : ((runFront [none, none, none] (TS.ctor exP, 0)).map
      fun s => decide (s.1.atEnd = true ∧ s.1.now = 1 ∧ s.2 = 6 / 5)) = some true := by
    decide +kernel
  rw [Option.map_eq_some_iff] at h
  obtain ⟨⟨f, l⟩, h1, h2⟩ := h
  exact ⟨f, l, h1, of_decide_eq_true h2⟩

/-! ## Non-vacuity -/

theorem exP_good : exP.Good := ⟨by decide +kernel, by decide +kernel, by decide +kernel, by decide +kernel⟩
theorem exP_range : exP.StartInRange := ⟨by decide +kernel, by decide +kernel⟩
example : exP.NonDegenerate := by unfold Params.NonDegenerate; decide +kernel
/-- an adaptive run of five steps with requests, during which the step size changes, reaches the end -/
example : ((runClocks stepOKZ [none, some (1 / 10), some (1 / 5), some (7 / 20), none] (TS.ctor exP, TS.ctor exP)).map
    fun s => decide (s.2.now = 1 ∧ s.2.cur ≠ 2 / 5 ∧ s.1.atEnd = true)) = some true := by decide +kernel
example : (nexts (TS.ctor exP) 3).atEnd = true := by decide +kernel

end Verif.Time
