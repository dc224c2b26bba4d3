import Verif.Time.Weights

/-! # C07: `restart()` replays the original run -/

set_option linter.unusedSectionVars false

namespace Verif.Time

variable {K : Type*} [Field K] [LinearOrder K] [IsStrictOrderedRing K]

/-- What a driver sees of the schedule: configuration, time, step sizes, step number, end flag. -/
structure SameSchedule (a b : TS K) : Prop where
  start : a.start = b.start
  final : a.final = b.final
  scheme : a.scheme = b.scheme
  startStep : a.startStep = b.startStep
  maxStep : a.maxStep = b.maxStep
  minStep : a.minStep = b.minStep
  cur : a.cur = b.cur
  last : a.last = b.last
  step : a.step = b.step
  stepNo : a.stepNo = b.stepNo
  atEnd : a.atEnd = b.atEnd
  now : a.now = b.now
  tau1 : a.tau1 = b.tau1
  tau2 : a.tau2 = b.tau2

/-- What additionally coincides right after a `next()`. -/
structure SameAfterNext (a b : TS K) : Prop extends SameSchedule a b where
  prev : a.prev = b.prev
  wOld : a.wOld = b.wOld
  fOld : a.fOld = b.fOld
  fOldOld : a.fOldOld = b.fOldOld

theorem SameSchedule.trial {a b : TS K} (h : SameSchedule a b) : a.trial = b.trial := by
  unfold TS.trial
  rw [h.now, h.start, h.scheme, h.stepNo, h.step, h.cur, h.maxStep]

theorem SameSchedule.newLast {a b : TS K} (h : SameSchedule a b) : a.newLast = b.newLast := by
  unfold TS.newLast
  rw [h.now, h.start, h.last, h.cur]

theorem SameSchedule.snaps {a b : TS K} (h : SameSchedule a b) : a.snaps = b.snaps := by
  unfold TS.snaps
  rw [h.trial, h.atEnd, h.final, h.now]

theorem SameSchedule.next {a b : TS K} (h : SameSchedule a b) : SameAfterNext a.next b.next := by
  have h1 := h.trial
  have h2 := h.newLast
  have h3 := h.snaps
  refine ⟨⟨h.start, h.final, h.scheme, h.startStep, h.maxStep, h.minStep, ?_, ?_, h.step, ?_, ?_,
    ?_, h.tau1, h.tau2⟩, ?_, ?_, ?_, ?_⟩ <;>
  simp only [TS.next, h1, h2, h3, h.final, h.now, h.atEnd, h.stepNo, h.scheme, h.start]

theorem SameSchedule.setDesired {a b : TS K} (h : SameSchedule a b) (d : K) :
    SameSchedule (a.setDesired d) (b.setDesired d) := by
  have : a.desiredValue d = b.desiredValue d := by
    unfold TS.desiredValue
    rw [h.now, h.cur, h.maxStep, h.minStep]
  exact ⟨h.start, h.final, h.scheme, h.startStep, h.maxStep, h.minStep, this, h.last, this,
    h.stepNo, h.atEnd, h.now, h.tau1, h.tau2⟩

theorem SameSchedule.restart {a b : TS K} (h : SameSchedule a b) :
    SameSchedule a.restart b.restart := by
  refine ⟨h.start, h.final, h.scheme, h.startStep, h.maxStep, h.minStep, h.startStep, rfl,
    h.startStep, rfl, ?_, h.start, h.tau1, h.tau2⟩
  simp only [TS.restart, h.final, h.start, h.startStep]

theorem SameSchedule.run (cs : List (Cmd K)) : ∀ {a b : TS K}, SameSchedule a b →
    Option.Rel SameSchedule (runCmds a cs) (runCmds b cs) := by
  induction cs with
  | nil => intro a b h; exact Option.Rel.some h
  | cons c cs ih =>
    intro a b h
    cases c with
    | advance =>
      simp only [runCmds, Cmd.exec, TS.nextChecked, h.atEnd]
      rcases b.atEnd with _ | _
      · simpa using ih h.next.toSameSchedule
      · simp
    | desired d => simpa [runCmds, Cmd.exec] using ih (h.setDesired d)
    | setStep v =>
      have : SameSchedule (a.setTimeStep v) (b.setTimeStep v) :=
        ⟨h.start, h.final, h.scheme, h.startStep, h.maxStep, h.minStep, rfl, h.last, rfl,
          h.stepNo, h.atEnd, h.now, h.tau1, h.tau2⟩
      simpa [runCmds, Cmd.exec] using ih this
    | restart => simpa [runCmds, Cmd.exec] using ih h.restart

/-- Members never modified after construction. -/
structure SameConfig (p : Params K) (t : TS K) : Prop where
  tau1 : t.tau1 = (TS.ctor p).tau1
  tau2 : t.tau2 = (TS.ctor p).tau2

theorem sameConfig_run {p : Params K} : ∀ (cs : List (Cmd K)) (t t' : TS K), SameConfig p t →
    runCmds t cs = some t' → SameConfig p t' := by
  intro cs
  induction cs with
  | nil => intro t t' h hr; simp [runCmds] at hr; exact hr ▸ h
  | cons c cs ih =>
    intro t t' h hr
    simp only [runCmds, Option.bind_eq_some_iff] at hr
    obtain ⟨t1, h1, h2⟩ := hr
    refine ih t1 t' ?_ h2
    cases c with
    | advance =>
      simp only [Cmd.exec, TS.nextChecked] at h1
      split_ifs at h1 with he
      simp only [Option.some.injEq] at h1
      exact h1 ▸ ⟨h.tau1, h.tau2⟩
    | desired d => simp only [Cmd.exec, Option.some.injEq] at h1; exact h1 ▸ ⟨h.tau1, h.tau2⟩
    | setStep v => simp only [Cmd.exec, Option.some.injEq] at h1; exact h1 ▸ ⟨h.tau1, h.tau2⟩
    | restart => simp only [Cmd.exec, Option.some.injEq] at h1; exact h1 ▸ ⟨h.tau1, h.tau2⟩

theorem restart_sameSchedule {p : Params K} (hp : p.Good) (hn : p.NonDegenerate) {t : TS K}
    (h : Reachable p t) : SameSchedule t.restart (TS.ctor p) := by
  have i := reachable_inv hp h
  obtain ⟨cs, -, hr⟩ := h
  have c := sameConfig_run cs _ _ ⟨rfl, rfl⟩ hr
  refine ⟨i.hstart, i.hfinal, i.hscheme, i.hstartStep, i.hmax, i.hmin, i.hstartStep, rfl,
    i.hstartStep, rfl, ?_, i.hstart, c.tau1, c.tau2⟩
  have h2 : ¬ (p.endTime - p.startTime) / p.stepStart < 1 / 10 ^ 14 := not_lt.2 hn
  simp only [TS.restart, i.hstart, i.hfinal, i.hstartStep, TS.ctor, h2, decide_false]

/-- **C07 (schedule).** Restarting in any reachable state and then issuing any calls produces, call
by call, the same schedule as a newly constructed object (and the same assertion failures). -/
theorem C07_restart_replays (p : Params K) (hp : p.Good) (hn : p.NonDegenerate) (t : TS K)
    (h : Reachable p t) (cs : List (Cmd K)) :
    Option.Rel SameSchedule (runCmds t.restart cs) (runCmds (TS.ctor p) cs) :=
  SameSchedule.run cs (restart_sameSchedule hp hn h)

/-- **C07 (weights).** Right after any `next()` of the continuation, also `previous()`, the
extrapolation factors and `weight_old()` coincide; `weight()` coincides up to its staleness
tolerance; and from the second step on `weight_old_old()` of `bdf_2` coincides as well. -/
theorem C07_restart_weights (p : Params K) (hp : p.Good) (hn : p.NonDegenerate) (t : TS K)
    (h : Reachable p t) (cs : List (Cmd K)) (hok : ∀ c ∈ cs, c.Ok p) (a b : TS K)
    (ha : runCmds t.restart cs = some a) (hb : runCmds (TS.ctor p) cs = some b)
    (he : b.atEnd = false) :
    SameAfterNext a.next b.next ∧ |a.next.w - b.next.w| ≤ 1 / 10 ^ 11 * b.next.w ∧
      (p.scheme = .bdf2 → b.now ≠ b.start → a.next.wOldOld = b.next.wOldOld) := by
  have hs : SameSchedule a b := by
    have := C07_restart_replays p hp hn t h cs
    rw [ha, hb] at this
    cases this with
    | some h => exact h
  have ib : Inv p b := inv_run hp cs _ _ (inv_ctor hp) hok hb
  have hrb : Reachable p b := ⟨cs, hok, hb⟩
  have hexeq : a.exactWeight = b.exactWeight := by
    unfold TS.exactWeight
    rw [hs.newLast, hs.next.cur, hs.scheme, hs.now, hs.start]
  have hCpos : 0 < b.next.cur := (inv_next hp ib he).cur_pos
  have hexpos : 0 < b.exactWeight := by
    unfold TS.exactWeight
    dsimp only
    split_ifs with hc
    · have hl : b.newLast = b.cur := by simp [TS.newLast, hc.2]
      rw [hl]
      have := ib.cur_pos
      positivity
    · positivity
  refine ⟨hs.next, ?_, ?_⟩
  · have h1 := (next_w_close a (hexeq ▸ hexpos)).2
    have h2 := (next_w_close b hexpos).2
    rw [hexeq] at h1
    rw [abs_le] at h1 h2 ⊢
    norm_num at h1 h2 ⊢
    constructor <;> linarith [h1.1, h1.2, h2.1, h2.2]
  · intro hsc hne
    have hsb : b.scheme = .bdf2 := ib.hscheme.trans hsc
    have hne' : a.now ≠ a.start := by rw [hs.now, hs.start]; exact hne
    have hoo : ∀ c : TS K, c.scheme = .bdf2 → c.now ≠ c.start →
        c.next.wOldOld = c.next.cur / (c.newLast * (c.next.cur + c.newLast)) := by
      intro c h1 h2
      simp [TS.next, h1, h2]
    rw [hoo a (hs.scheme.trans hsb) hne', hoo b hsb hne, hs.next.cur, hs.newLast]

/-- **C07 counterexample (stale weight).** After two `bdf_2` steps and `restart()`, the first step
of the second run has a nonzero `weight_old_old()`, whereas a new object has zero; the three weights
then do not annihilate constants. -/
theorem C07_restart_stale_weight :
    ∃ t : TS ℚ, Reachable (exParams .bdf2) t ∧ t.restart.next.wOldOld ≠ 0 ∧
      (TS.ctor (exParams .bdf2)).next.wOldOld = 0 ∧
      t.restart.next.w + t.restart.next.wOld + t.restart.next.wOldOld ≠ 0 :=
  ⟨nexts (TS.ctor (exParams .bdf2)) 2, nexts_reachable 2 (by decide +kernel), by decide +kernel,
    by decide +kernel, by decide +kernel⟩

/-- Non-vacuity: restart after three steps, then five more calls. -/
example : Reachable (exParams .bdf2) (nexts (TS.ctor (exParams .bdf2)) 3) ∧
    ∃ a b, runCmds (nexts (TS.ctor (exParams .bdf2)) 3).restart
      [.advance, .desired 2, .advance, .advance] = some a ∧
    runCmds (TS.ctor (exParams .bdf2)) [.advance, .desired 2, .advance, .advance] = some b ∧
    b.atEnd = false ∧ b.now ≠ b.start :=
  ⟨nexts_reachable 3 (by decide +kernel),
   ((nexts (TS.ctor (exParams .bdf2)) 3).restart.next.setDesired 2).next.next,
   ((TS.ctor (exParams .bdf2)).next.setDesired 2).next.next,
   by decide +kernel, by decide +kernel, by decide +kernel, by decide +kernel⟩

end Verif.Time
