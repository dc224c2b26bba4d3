import Verif.Time.Rounding
import Verif.Time.Stepping
import Mathlib.Tactic.LinearCombination
import Mathlib.Data.Rat.Floor

/-!
# C105: the clock in floating point arithmetic (source/time_stepping.cc)

The functions of Verif/Time/Model.lean with every operation rounded (`Rounding`). Multiplication by `-1` and absolute values
are exact. Not covered: overflow, underflow, not-a-number, and the range of `int` in `at_tick`.
-/

set_option linter.unusedSectionVars false

namespace Verif.Time

variable {K : Type*} [Field K] [LinearOrder K] [IsStrictOrderedRing K]

/-! ## Model -/

section Model
variable (R : Rounding K)

/-- The constructors, source/time_stepping.cc:24-62 and 64-102. The only arithmetic is `1. / start_step_val` (line 34, 74). -/
def TS.ctorR (p : Params K) : TS K := { TS.ctor p with w := R.rd (1 / p.stepStart) }

/-- `restart()`, source/time_stepping.cc:104-120 -/
def TS.restartR (t : TS K) : TS K :=
  { t with
    stepNo := 0
    now := t.start
    step := t.startStep
    cur := t.startStep
    last := 0
    atEnd := decide (R.rd (R.rd (t.final - t.start) / t.startStep) < R.rd (1 / 10 ^ 14))
    weightChanged := true }

/-- the literal `.01` -/
def hundredth : K := R.rd (1 / 100)

/-- source/time_stepping.cc:145-153: `h = now_val + s`, `s1 = .01 * s`, `h > final_val - s1`; `s` is `TS.trial` (lines
128-141: comparisons and assignments only) -/
def TS.snapsR (t : TS K) : Bool :=
  !t.atEnd && decide (R.rd (t.final - R.rd (hundredth R * t.trial)) < R.rd (t.now + t.trial))

/-- step size after line 158 -/
def TS.newCurR (t : TS K) : K := if t.snapsR R then R.rd (t.final - t.now) else t.trial

/-- `new_weight`, lines 162-173 -/
def TS.newWR (t : TS K) : K :=
  let c := t.newCurR R
  let l := t.newLast
  if t.scheme = .bdf2 ∧ t.now ≠ t.start then R.rd (R.rd (R.rd (2 * c) + l) / R.rd (c * R.rd (c + l))) else R.rd (1 / c)

/-- condition of line 175 -/
def TS.changedR (t : TS K) : Bool :=
  decide (R.rd (1 / 10 ^ 12) < R.rd (|R.rd (t.newWR R - t.w)| / t.newWR R))

/-- `next()`, source/time_stepping.cc:124-199 -/
def TS.nextR (t : TS K) : TS K :=
  let l := t.newLast
  let c := t.newCurR R
  let two := decide (t.scheme = .bdf2 ∧ t.now ≠ t.start)
  { t with
    last := l
    cur := c
    atEnd := t.atEnd || t.snapsR R
    w := if t.changedR R then t.newWR R else t.w
    wOld := if two then -R.rd (R.rd (c + l) / R.rd (c * l)) else R.rd (-1 / c)
    wOldOld := if two then R.rd (c / R.rd (l * R.rd (c + l))) else t.wOldOld
    weightChanged := t.changedR R
    fOld := if 1 < t.stepNo then R.rd (R.rd (c + l) / l) else 1
    fOldOld := if 1 < t.stepNo then R.rd (-c / l) else 0
    prev := t.now
    now := if t.snapsR R then t.final else R.rd (t.now + t.trial)
    stepNo := t.stepNo + 1 }

/-- `set_desired_time_step`, source/time_stepping.cc:251-269 -/
def TS.desiredValueR (t : TS K) (d : K) : K :=
  let p := if t.now = 0 then d else t.cur
  min t.maxStep (max t.minStep (min (R.rd (2 * p)) (max d (R.rd (1 / 2 * p)))))

/-- `set_desired_time_step`, source/time_stepping.cc:251-269 -/
def TS.setDesiredR (t : TS K) (d : K) : TS K := { t with cur := t.desiredValueR R d, step := t.desiredValueR R d }

/-- `at_tick`, source/time_stepping.cc:228-238 -/
def TS.atTickR [FloorRing K] (t : TS K) (tick : K) : Bool :=
  let position := truncInt (R.rd (R.rd (t.now * R.rd (1 + 1 / 10 ^ 10)) / tick))
  let slot := R.rd ((position : K) * tick)
  !(decide (R.rd (t.cur * R.rd (95 / 100)) < R.rd (t.now - slot)) && !t.atEnd)

/-- one call; `none`: the assertion of `next()` fails -/
def Cmd.execR (t : TS K) : Cmd K → Option (TS K)
  | .advance => if t.atEnd then none else some (t.nextR R)
  | .desired d => some (t.setDesiredR R d)
  | .setStep v => some (t.setTimeStep v)
  | .restart => some (t.restartR R)

/-- a history of calls -/
def runCmdsR (t : TS K) : List (Cmd K) → Option (TS K)
  | [] => some t
  | c :: cs => (c.execR R t).bind fun t' => runCmdsR t' cs

/-- the driver loop `while (!at_end()) { [set_desired_time_step(d_i);] next(); }` after at most `n` rounds -/
def driverLoopR (t : TS K) (d : ℕ → Option K) : ℕ → TS K
  | 0 => t
  | n + 1 =>
    let s := driverLoopR t d n
    if s.atEnd then s
    else (match d n with
      | none => s
      | some x => s.setDesiredR R x).nextR R

/-- `n` plain calls of `next()` -/
def nextsR (t : TS K) (n : ℕ) : TS K := (TS.nextR R)^[n] t

end Model

/-! ## Specification -/

/-- The parameters are floating point numbers. -/
structure Params.Rep (R : Rounding K) (p : Params K) : Prop where
  start : R.Rep p.startTime
  final : R.Rep p.endTime
  stepStart : R.Rep p.stepStart
  stepMax : R.Rep p.stepMax
  stepMin : R.Rep p.stepMin

/-- The interval is not considered empty by `restart()` (line 112). -/
def Params.NonDegenerateR (R : Rounding K) (p : Params K) : Prop :=
  R.rd (1 / 10 ^ 14) ≤ R.rd (R.rd (p.endTime - p.startTime) / p.stepStart)

/-- Admissible calls: explicitly set steps are at least `m`; `restart()` on nonempty intervals. -/
def Cmd.OkR (R : Rounding K) (p : Params K) (m : K) : Cmd K → Prop
  | .setStep v => m ≤ v
  | .restart => p.NonDegenerateR R
  | _ => True

/-- reachable by admissible calls, `next()` only being called before the end -/
def ReachableR (R : Rounding K) (p : Params K) (m : K) (t : TS K) : Prop :=
  ∃ cs : List (Cmd K), (∀ c ∈ cs, c.OkR R p m) ∧ runCmdsR R (TS.ctorR R p) cs = some t

/-- All configured steps are at least `m`, and `m` is not below the resolution of the times: `200 u max(|start|, |end|)`
(for `double` and times up to `1000`: steps above `2.3e-11`). -/
structure Params.Resolved (R : Rounding K) (p : Params K) (m : K) : Prop where
  u_small : R.u ≤ 1 / 10
  above : 200 * R.u * max |p.startTime| |p.endTime| < m
  start : m ≤ p.stepStart
  max : m ≤ p.stepMax
  min : m ≤ p.stepMin

/-- `x` approximates `y` with `k` rounding errors -/
def Near (R : Rounding K) (k : ℕ) (x y : K) : Prop := (1 - R.u) ^ k * y ≤ x ∧ (1 - R.u) ^ k * x ≤ y

/-! ## The model without rounding is the one of C01-C08 -/

theorem exact_next (t : TS K) : t.nextR Rounding.exact = t.next := by
  simp only [TS.nextR, TS.next, TS.newCurR, TS.newWR, TS.changedR, decide_eq_true_eq, Rounding.exact, id, one_div]
  congr 1

theorem exact_desired (t : TS K) (d : K) : t.setDesiredR Rounding.exact d = t.setDesired d := by
  simp [TS.setDesiredR, TS.desiredValueR, TS.setDesired, TS.desiredValue, Rounding.exact]

theorem exact_tick [FloorRing K] (t : TS K) (tick : K) : t.atTickR Rounding.exact tick = t.atTick tick := by
  simp [TS.atTickR, TS.atTick, Rounding.exact]

/-! ## End time -/

variable {R : Rounding K}

/-- Inductive invariant that holds for steps of any size. -/
structure InvR (R : Rounding K) (p : Params K) (t : TS K) : Prop where
  hstart : t.start = p.startTime
  hfinal : t.final = p.endTime
  hstartStep : t.startStep = p.stepStart
  hmax : t.maxStep = p.stepMax
  hmin : t.minStep = p.stepMin
  rep_now : R.Rep t.now
  cur_nn : 0 ≤ t.cur
  step_nn : 0 ≤ t.step
  start_le : t.start ≤ t.now
  le_final : t.now ≤ t.final
  end_imp : t.atEnd = true → t.now = t.final

theorem trial_nonneg {t : TS K} (hc : 0 ≤ t.cur) (hs : 0 ≤ t.step) (hm : 0 ≤ t.maxStep) : 0 ≤ t.trial := by
  unfold TS.trial
  dsimp only
  split_ifs <;> assumption

theorem hundredth_nonneg : 0 ≤ hundredth R := R.nonneg (by norm_num)

theorem snapsR_false {t : TS K} (he : t.atEnd = false) : t.snapsR R = false ↔
    R.rd (t.now + t.trial) ≤ R.rd (t.final - R.rd (hundredth R * t.trial)) := by
  simp [TS.snapsR, he]

theorem invR_ctor {p : Params K} (hp : p.Good) (hr : p.Rep R) : InvR R p (TS.ctorR R p) where
  hstart := rfl
  hfinal := rfl
  hstartStep := rfl
  hmax := rfl
  hmin := rfl
  rep_now := hr.start
  cur_nn := hp.start.le
  step_nn := hp.start.le
  start_le := le_refl _
  le_final := hp.interval.le
  end_imp := by simp [TS.ctorR, TS.ctor]

theorem invR_next {p : Params K} (hp : p.Good) (hr : p.Rep R) {t : TS K} (h : InvR R p t) (he : t.atEnd = false) :
    InvR R p (t.nextR R) := by
  have ht : 0 ≤ t.trial := trial_nonneg h.cur_nn h.step_nn (by rw [h.hmax]; exact hp.max.le)
  have hs1 : 0 ≤ R.rd (hundredth R * t.trial) := R.nonneg (mul_nonneg hundredth_nonneg ht)
  have hrf : R.rd t.final = t.final := by rw [h.hfinal]; exact hr.final
  have hge : t.now ≤ R.rd (t.now + t.trial) := by
    have := R.mono t.now (t.now + t.trial) (by linarith)
    rwa [show R.rd t.now = t.now from h.rep_now] at this
  have hsl := h.start_le
  have hlf := h.le_final
  rcases hsn : t.snapsR R with _ | _
  · have hle := (snapsR_false he).1 hsn
    have hle2 : R.rd (t.now + t.trial) ≤ t.final := by
      have := R.mono (t.final - R.rd (hundredth R * t.trial)) t.final (by linarith)
      rw [hrf] at this; exact hle.trans this
    refine ⟨h.hstart, h.hfinal, h.hstartStep, h.hmax, h.hmin, ?_, ?_, h.step_nn, ?_, ?_, ?_⟩
    · simp only [TS.nextR, hsn]; exact R.rep_rd _
    · simp only [TS.nextR, TS.newCurR, hsn]; exact ht
    · simp only [TS.nextR, hsn]; exact hsl.trans hge
    · simp only [TS.nextR, hsn]; exact hle2
    · simp [TS.nextR, hsn, he]
  · refine ⟨h.hstart, h.hfinal, h.hstartStep, h.hmax, h.hmin, ?_, ?_, h.step_nn, ?_, ?_, ?_⟩
    · simp only [TS.nextR, hsn]; exact hrf
    · simp only [TS.nextR, TS.newCurR, hsn]; exact R.nonneg (by linarith)
    · simp only [TS.nextR, hsn]; exact hsl.trans hlf
    · simp only [TS.nextR, hsn]; exact le_refl _
    · simp [TS.nextR, hsn]

theorem desiredR_ge {t : TS K} {m d : K} (h2 : m ≤ t.maxStep) (h3 : m ≤ t.minStep) : m ≤ t.desiredValueR R d := by
  unfold TS.desiredValueR
  exact le_min h2 (le_max_of_le_left h3)

theorem invR_desired {p : Params K} (hp : p.Good) {t : TS K} (h : InvR R p t) (d : K) : InvR R p (t.setDesiredR R d) :=
  have hd : 0 ≤ t.desiredValueR R d :=
    desiredR_ge (by rw [h.hmax]; exact hp.max.le) (by rw [h.hmin]; exact hp.min.le)
  { h with cur_nn := hd, step_nn := hd }

theorem invR_setStep {p : Params K} {t : TS K} (h : InvR R p t) {v : K} (hv : 0 ≤ v) : InvR R p (t.setTimeStep v) :=
  { h with cur_nn := hv, step_nn := hv }

theorem invR_restart {p : Params K} (hp : p.Good) (hr : p.Rep R) (hn : p.NonDegenerateR R) {t : TS K} (h : InvR R p t) :
    InvR R p (t.restartR R) where
  hstart := h.hstart
  hfinal := h.hfinal
  hstartStep := h.hstartStep
  hmax := h.hmax
  hmin := h.hmin
  rep_now := by simp only [TS.restartR]; rw [h.hstart]; exact hr.start
  cur_nn := by simp only [TS.restartR]; rw [h.hstartStep]; exact hp.start.le
  step_nn := by simp only [TS.restartR]; rw [h.hstartStep]; exact hp.start.le
  start_le := le_refl _
  le_final := by simp only [TS.restartR]; rw [h.hstart, h.hfinal]; exact hp.interval.le
  end_imp := by
    intro hh
    simp only [TS.restartR, h.hstart, h.hfinal, h.hstartStep, decide_eq_true_eq] at hh
    exact absurd hh (not_lt.2 hn)

/-- induction over histories of calls -/
theorem run_induction {p : Params K} {m : K} (I : TS K → Prop)
    (hadv : ∀ t, I t → t.atEnd = false → I (t.nextR R)) (hdes : ∀ t d, I t → I (t.setDesiredR R d))
    (hset : ∀ t v, I t → m ≤ v → I (t.setTimeStep v)) (hres : ∀ t, I t → p.NonDegenerateR R → I (t.restartR R)) :
    ∀ (cs : List (Cmd K)) (t t' : TS K), I t → (∀ c ∈ cs, c.OkR R p m) → runCmdsR R t cs = some t' → I t' := by
  intro cs
  induction cs with
  | nil => intro t t' h _ hr; simp [runCmdsR] at hr; exact hr ▸ h
  | cons c cs ih =>
    intro t t' h hok hr
    have hok' : ∀ c ∈ cs, c.OkR R p m := fun c hc => hok c (List.mem_cons_of_mem _ hc)
    simp only [runCmdsR, Option.bind_eq_some_iff] at hr
    obtain ⟨t1, h1, h2⟩ := hr
    refine ih t1 t' ?_ hok' h2
    cases c with
    | advance =>
      simp only [Cmd.execR] at h1
      split_ifs at h1 with he
      simp only [Option.some.injEq] at h1
      exact h1 ▸ hadv t h (by simpa using he)
    | desired d => simp only [Cmd.execR, Option.some.injEq] at h1; exact h1 ▸ hdes t d h
    | setStep v => simp only [Cmd.execR, Option.some.injEq] at h1; exact h1 ▸ hset t v h (hok (.setStep v) (by simp))
    | restart => simp only [Cmd.execR, Option.some.injEq] at h1; exact h1 ▸ hres t h (hok .restart (by simp))

/-- **C105 (end time).** In floating point arithmetic, for every rounding, step sizes of any magnitude and every history of
calls: the time never leaves the interval, is always a floating point number, and `at_end()` means that the end time is
reached exactly. -/
theorem C105_never_passes_end (p : Params K) (hp : p.Good) (hr : p.Rep R) (t : TS K) (h : ReachableR R p 0 t) :
    p.startTime ≤ t.now ∧ t.now ≤ p.endTime ∧ R.Rep t.now ∧ (t.atEnd = true → t.now = p.endTime) := by
  obtain ⟨cs, hok, hrun⟩ := h
  have i : InvR R p t := run_induction (InvR R p) (fun t h he => invR_next hp hr h he) (fun t d h => invR_desired hp h d)
    (fun t v h hv => invR_setStep h hv) (fun t h hn => invR_restart hp hr hn h) cs _ t (invR_ctor hp hr) hok hrun
  exact ⟨i.hstart ▸ i.start_le, i.hfinal ▸ i.le_final, i.rep_now, fun he => i.hfinal ▸ i.end_imp he⟩

/-! ## Progress and termination, for resolved steps -/

/-- Invariant for steps above the resolution. -/
structure InvS (R : Rounding K) (p : Params K) (m : K) (t : TS K) : Prop extends InvR R p t where
  cur_ge : t.atEnd = false → m ≤ t.cur
  cur_pos : 0 < t.cur
  step_ge : m ≤ t.step
  end_of : t.now = t.final → t.atEnd = true

section Resolved
variable {p : Params K} {m : K}

theorem m_pos (hs : p.Resolved R m) : 0 < m := by
  have h := hs.above
  have : 0 ≤ 200 * R.u * max |p.startTime| |p.endTime| :=
    mul_nonneg (mul_nonneg (by norm_num) R.u_nonneg) (le_max_of_le_left (abs_nonneg _))
  linarith

theorem abs_now_le {t : TS K} (h : InvR R p t) : |t.now| ≤ max |p.startTime| |p.endTime| := by
  have h1 := h.hstart ▸ h.start_le
  have h2 := h.hfinal ▸ h.le_final
  rw [abs_le]
  constructor
  · have := neg_abs_le p.startTime
    have := le_max_left |p.startTime| |p.endTime|
    linarith
  · have := le_abs_self p.endTime
    have := le_max_right |p.startTime| |p.endTime|
    linarith

/-- the step that does not reach the end: rounding errors of time and step -/
theorem step_bounds (hs : p.Resolved R m) {t : TS K} (h : InvR R p t) (he : t.atEnd = false) (hm : m ≤ t.trial)
    (hsn : t.snapsR R = false) :
    |R.rd (t.now + t.trial) - (t.now + t.trial)| ≤ 2 * R.u * max |p.startTime| |p.endTime| ∧
    R.rd (t.now + t.trial) + t.trial / 500 ≤ t.final := by
  set M := max |p.startTime| |p.endTime| with hM
  have hu0 := R.u_nonneg
  have hu := hs.u_small
  have hab := hs.above
  have hmp := m_pos hs
  have hM0 : 0 ≤ M := le_max_of_le_left (abs_nonneg _)
  have hle := (snapsR_false he).1 hsn
  have hfin : t.final ≤ M ∧ -M ≤ t.final := by
    rw [h.hfinal]
    exact ⟨(le_abs_self _).trans (le_max_right _ _), by
      have := neg_abs_le p.endTime
      have := le_max_right |p.startTime| |p.endTime|
      linarith⟩
  have hnow := abs_le.1 (abs_now_le h)
  rw [← hM] at hnow
  have htp : 0 < t.trial := lt_of_lt_of_le hmp hm
  have huM : 200 * (R.u * M) < t.trial := by nlinarith
  have huM0 : 0 ≤ R.u * M := mul_nonneg hu0 hM0
  -- `s1`
  have hc := (R.bounds (x := (1 / 100 : K)) (by norm_num)).1
  have hc0 : (0 : K) ≤ hundredth R := hundredth_nonneg
  have hcl : (9 / 1000 : K) ≤ hundredth R := by unfold hundredth; nlinarith
  have hs1 := (R.bounds (mul_nonneg hc0 htp.le)).1
  set s1 := R.rd (hundredth R * t.trial) with hs1d
  have hs1l : 81 / 10000 * t.trial ≤ s1 := by
    have h1 : 9 / 1000 * t.trial ≤ hundredth R * t.trial := mul_le_mul_of_nonneg_right hcl htp.le
    have h2 : (9 / 10 : K) ≤ 1 - R.u := by linarith
    have h3 : 9 / 10 * (9 / 1000 * t.trial) ≤ (1 - R.u) * (hundredth R * t.trial) :=
      mul_le_mul h2 h1 (by positivity) (by linarith)
    linarith
  have hs1p : 0 < s1 := by nlinarith
  -- the bound by the end time
  have habs : |t.final - s1| ≤ M + s1 := by
    rw [abs_le]; constructor <;> linarith [hfin.1, hfin.2]
  have herr := (abs_le.1 (R.err (t.final - s1))).2
  have hb : R.u * |t.final - s1| ≤ R.u * (M + s1) := mul_le_mul_of_nonneg_left habs hu0
  have hus1 : R.u * s1 ≤ 1 / 10 * s1 := mul_le_mul_of_nonneg_right hu hs1p.le
  have hend : R.rd (t.now + t.trial) + t.trial / 500 ≤ t.final := by
    have : R.rd (t.final - s1) ≤ t.final - s1 + R.u * (M + s1) := by linarith
    nlinarith
  refine ⟨?_, hend⟩
  -- the sum is bounded
  have hsum : |t.now + t.trial| ≤ 2 * M := by
    rw [abs_le]
    constructor
    · linarith [hnow.1]
    · by_cases hpos : 0 ≤ t.now + t.trial
      · have h1 := (R.bounds hpos).1
        have h2 : 9 / 10 * (t.now + t.trial) ≤ (1 - R.u) * (t.now + t.trial) :=
          mul_le_mul_of_nonneg_right (by linarith) hpos
        linarith [hfin.1]
      · linarith
  calc _ ≤ R.u * |t.now + t.trial| := R.err _
    _ ≤ R.u * (2 * M) := mul_le_mul_of_nonneg_left hsum hu0
    _ = _ := by ring

theorem trialR_ge (hs : p.Resolved R m) {t : TS K} (h : InvS R p m t) (he : t.atEnd = false) : m ≤ t.trial := by
  have := h.cur_ge he
  have := h.step_ge
  have := h.hmax ▸ hs.max
  unfold TS.trial
  dsimp only
  split_ifs <;> assumption

theorem invS_ctor (hp : p.Good) (hr : p.Rep R) (hs : p.Resolved R m) : InvS R p m (TS.ctorR R p) :=
  { invR_ctor hp hr with
    cur_ge := fun _ => hs.start
    cur_pos := hp.start
    step_ge := hs.start
    end_of := fun h => absurd h hp.interval.ne }

theorem invS_next (hp : p.Good) (hr : p.Rep R) (hs : p.Resolved R m) {t : TS K} (h : InvS R p m t) (he : t.atEnd = false) :
    InvS R p m (t.nextR R) ∧ t.now < (t.nextR R).now ∧
      ((t.nextR R).atEnd = true ∨ t.now + 99 / 100 * m ≤ (t.nextR R).now) ∧
      |(t.nextR R).cur - ((t.nextR R).now - t.now)| ≤ 2 * R.u * max |p.startTime| |p.endTime| := by
  have hm := trialR_ge hs h he
  have hmp := m_pos hs
  have i := invR_next hp hr h.toInvR he
  have hu0 := R.u_nonneg
  have hM0 : 0 ≤ max |p.startTime| |p.endTime| := le_max_of_le_left (abs_nonneg _)
  have hlt : t.now < t.final := lt_of_le_of_ne h.le_final (fun hh => by
    have := h.end_of hh; simp [he] at this)
  rcases hsn : t.snapsR R with _ | _
  · obtain ⟨hb, hend⟩ := step_bounds hs h.toInvR he hm hsn
    have hab := hs.above
    have hb' := abs_le.1 hb
    have hadv : t.now + 99 / 100 * m ≤ R.rd (t.now + t.trial) := by nlinarith [hb'.1]
    refine ⟨{ i with cur_ge := fun _ => ?_, cur_pos := ?_, step_ge := h.step_ge, end_of := fun hh => ?_ }, ?_, .inr ?_, ?_⟩
    · simp only [TS.nextR, TS.newCurR, hsn]; exact hm
    · simp only [TS.nextR, TS.newCurR, hsn]; exact lt_of_lt_of_le hmp hm
    · simp only [TS.nextR, hsn, Bool.false_eq_true, if_false] at hh
      exfalso; linarith
    · simp only [TS.nextR, hsn, Bool.false_eq_true, if_false]; linarith
    · simp only [TS.nextR, hsn, Bool.false_eq_true, if_false]; exact hadv
    · simp only [TS.nextR, TS.newCurR, hsn, Bool.false_eq_true, if_false]
      rw [show t.trial - (R.rd (t.now + t.trial) - t.now) = -(R.rd (t.now + t.trial) - (t.now + t.trial)) by ring, abs_neg]
      exact hb
  · have hpos : 0 < R.rd (t.final - t.now) := R.pos (by linarith)
    refine ⟨{ i with cur_ge := fun hh => ?_, cur_pos := ?_, step_ge := h.step_ge, end_of := fun _ => ?_ }, ?_, .inl ?_, ?_⟩
    · simp [TS.nextR, hsn] at hh
    · simp only [TS.nextR, TS.newCurR, hsn]; exact hpos
    · simp [TS.nextR, hsn]
    · simp only [TS.nextR, hsn]; exact hlt
    · simp [TS.nextR, hsn]
    · simp only [TS.nextR, TS.newCurR, hsn, if_true]
      refine (R.err _).trans ?_
      have hn := abs_le.1 (abs_now_le h.toInvR)
      have hf : |t.final - t.now| ≤ 2 * max |p.startTime| |p.endTime| := by
        rw [abs_of_pos (by linarith)]
        have : t.final ≤ max |p.startTime| |p.endTime| := by
          rw [h.hfinal]; exact (le_abs_self _).trans (le_max_right _ _)
        linarith [hn.1]
      calc _ ≤ R.u * (2 * max |p.startTime| |p.endTime|) := mul_le_mul_of_nonneg_left hf hu0
        _ = _ := by ring

theorem invS_desired (hp : p.Good) (hs : p.Resolved R m) {t : TS K} (h : InvS R p m t) (d : K) :
    InvS R p m (t.setDesiredR R d) :=
  have hd : m ≤ t.desiredValueR R d := desiredR_ge (by rw [h.hmax]; exact hs.max) (by rw [h.hmin]; exact hs.min)
  { invR_desired hp h.toInvR d with
    cur_ge := fun _ => hd
    cur_pos := lt_of_lt_of_le (m_pos hs) hd
    step_ge := hd
    end_of := h.end_of }

theorem invS_setStep (hs : p.Resolved R m) {t : TS K} (h : InvS R p m t) {v : K} (hv : m ≤ v) :
    InvS R p m (t.setTimeStep v) :=
  { invR_setStep h.toInvR ((m_pos hs).le.trans hv) with
    cur_ge := fun _ => hv
    cur_pos := lt_of_lt_of_le (m_pos hs) hv
    step_ge := hv
    end_of := h.end_of }

theorem invS_restart (hp : p.Good) (hr : p.Rep R) (hs : p.Resolved R m) (hn : p.NonDegenerateR R) {t : TS K}
    (h : InvS R p m t) : InvS R p m (t.restartR R) :=
  { invR_restart hp hr hn h.toInvR with
    cur_ge := fun _ => by simp only [TS.restartR]; rw [h.hstartStep]; exact hs.start
    cur_pos := by simp only [TS.restartR]; rw [h.hstartStep]; exact hp.start
    step_ge := by simp only [TS.restartR]; rw [h.hstartStep]; exact hs.start
    end_of := fun hh => by
      simp only [TS.restartR, h.hstart, h.hfinal] at hh
      exact absurd hh hp.interval.ne }

theorem reachable_invS (hp : p.Good) (hr : p.Rep R) (hs : p.Resolved R m) {t : TS K} (h : ReachableR R p m t) :
    InvS R p m t := by
  obtain ⟨cs, hok, hrun⟩ := h
  exact run_induction (InvS R p m) (fun t h he => (invS_next hp hr hs h he).1) (fun t d h => invS_desired hp hs h d)
    (fun t v h hv => invS_setStep hs h hv) (fun t h hn => invS_restart hp hr hs hn h) cs _ t (invS_ctor hp hr hs) hok hrun

/-- **C105 (progress).** If all steps are above the resolution of the times, every `next()` before the end advances the time
strictly, `step_size()` is the advance up to rounding, and `at_end()` holds exactly if the end time is reached. -/
theorem C105_next_advances_partial (hp : p.Good) (hr : p.Rep R) (hs : p.Resolved R m) (t : TS K) (h : ReachableR R p m t)
    (he : t.atEnd = false) :
    Cmd.execR R t .advance = some (t.nextR R) ∧
    t.now < (t.nextR R).now ∧ (t.nextR R).prev = t.now ∧ (t.nextR R).stepNo = t.stepNo + 1 ∧
    |(t.nextR R).cur - ((t.nextR R).now - (t.nextR R).prev)| ≤ 2 * R.u * max |p.startTime| |p.endTime| ∧
    0 < (t.nextR R).cur ∧ ((t.nextR R).atEnd = true ↔ (t.nextR R).now = p.endTime) := by
  have i := reachable_invS hp hr hs h
  obtain ⟨a, b, -, c⟩ := invS_next hp hr hs i he
  refine ⟨by simp [Cmd.execR, he], b, rfl, rfl, c, a.cur_pos, ?_⟩
  have hf := a.hfinal
  exact ⟨fun hh => hf ▸ a.end_imp hh, fun hh => a.end_of (hf ▸ hh)⟩

theorem driverLoopR_inv (hp : p.Good) (hr : p.Rep R) (hs : p.Resolved R m) (d : ℕ → Option K) :
    ∀ n, InvS R p m (driverLoopR R (TS.ctorR R p) d n) ∧
      ((driverLoopR R (TS.ctorR R p) d n).atEnd = true ∨
        p.startTime + n * (99 / 100 * m) ≤ (driverLoopR R (TS.ctorR R p) d n).now) := by
  intro n
  induction n with
  | zero => exact ⟨invS_ctor hp hr hs, Or.inr (by simp [driverLoopR, TS.ctorR, TS.ctor])⟩
  | succ n ih =>
    obtain ⟨i, hn⟩ := ih
    simp only [driverLoopR]
    rcases he : (driverLoopR R (TS.ctorR R p) d n).atEnd with _ | _
    · simp only [Bool.false_eq_true, if_false]
      have hn' := hn.resolve_left (by simp [he])
      rcases hd : d n with _ | x
      · obtain ⟨a, -, b, -⟩ := invS_next hp hr hs i he
        refine ⟨a, b.imp id fun hb => ?_⟩
        push_cast; linarith
      · obtain ⟨a, -, b, -⟩ := invS_next hp hr hs (invS_desired hp hs i x) he
        refine ⟨a, b.imp id fun hb => ?_⟩
        have : ((driverLoopR R (TS.ctorR R p) d n).setDesiredR R x).now = (driverLoopR R (TS.ctorR R p) d n).now := rfl
        rw [this] at hb
        push_cast; linarith
    · simp only [if_true]
      exact ⟨i, Or.inl he⟩

/-- **C105 (termination).** If all configured steps are above the resolution of the times, then for every sequence of step
requests the driver loop ends after at most `⌊(end - start) / (0.99 m)⌋ + 1` steps, exactly at the end time. -/
theorem C105_driver_loop_terminates_partial [FloorSemiring K] (hp : p.Good) (hr : p.Rep R) (hs : p.Resolved R m)
    (d : ℕ → Option K) :
    ∃ N, N ≤ ⌊(p.endTime - p.startTime) / (99 / 100 * m)⌋₊ + 1 ∧
      (driverLoopR R (TS.ctorR R p) d N).atEnd = true ∧ (driverLoopR R (TS.ctorR R p) d N).now = p.endTime := by
  have hmp : 0 < 99 / 100 * m := mul_pos (by norm_num) (m_pos hs)
  set N := ⌊(p.endTime - p.startTime) / (99 / 100 * m)⌋₊ + 1
  obtain ⟨i, h⟩ := driverLoopR_inv hp hr hs d N
  have hend : (driverLoopR R (TS.ctorR R p) d N).atEnd = true := by
    rcases h with h | h
    · exact h
    · exfalso
      have h1 := i.hfinal ▸ i.le_final
      have h2 : (p.endTime - p.startTime) / (99 / 100 * m) < N := by
        have := Nat.lt_floor_add_one ((p.endTime - p.startTime) / (99 / 100 * m))
        exact_mod_cast this
      rw [div_lt_iff₀ hmp] at h2
      linarith
  exact ⟨N, le_refl _, hend, by have := i.end_imp hend; rw [this, i.hfinal]⟩

end Resolved

/-! ## Accuracy of the weights -/

section Near

theorem q_nonneg (R : Rounding K) : 0 ≤ 1 - R.u := by linarith [R.u_lt]

theorem q_le_one (R : Rounding K) : 1 - R.u ≤ 1 := by linarith [R.u_nonneg]

theorem near_refl (x : K) : Near R 0 x x := by simp [Near]

theorem near_mono {k j : ℕ} (h : k ≤ j) {x y : K} (hx : 0 ≤ x) (hy : 0 ≤ y) (hn : Near R k x y) : Near R j x y := by
  have hq : (1 - R.u) ^ j ≤ (1 - R.u) ^ k := pow_le_pow_of_le_one (q_nonneg R) (q_le_one R) h
  exact ⟨(mul_le_mul_of_nonneg_right hq hy).trans hn.1, (mul_le_mul_of_nonneg_right hq hx).trans hn.2⟩

theorem near_rd {x : K} (hx : 0 ≤ x) : Near R 1 (R.rd x) x := by
  have h := R.bounds hx
  have hu := R.u_nonneg
  refine ⟨by simpa using h.1, ?_⟩
  rw [pow_one]
  have h1 : (1 - R.u) * R.rd x ≤ (1 - R.u) * ((1 + R.u) * x) := mul_le_mul_of_nonneg_left h.2 (q_nonneg R)
  have h2 : (1 - R.u) * ((1 + R.u) * x) = x - R.u * R.u * x := by ring
  have h3 : 0 ≤ R.u * R.u * x := by positivity
  linarith

theorem near_trans {k j : ℕ} {x y z : K} (h1 : Near R k x y) (h2 : Near R j y z) : Near R (k + j) x z := by
  have hk : 0 ≤ (1 - R.u) ^ k := pow_nonneg (q_nonneg R) k
  have hj : 0 ≤ (1 - R.u) ^ j := pow_nonneg (q_nonneg R) j
  constructor
  · rw [pow_add, mul_assoc]; exact (mul_le_mul_of_nonneg_left h2.1 hk).trans h1.1
  · rw [pow_add, mul_comm ((1 - R.u) ^ k), mul_assoc]; exact (mul_le_mul_of_nonneg_left h1.2 hj).trans h2.2

theorem near_rd_of {k : ℕ} {x y : K} (hx : 0 ≤ x) (h : Near R k x y) : Near R (k + 1) (R.rd x) y := by
  rw [add_comm]; exact near_trans (near_rd hx) h

theorem near_add {k : ℕ} {x y x' y' : K} (h : Near R k x y) (h' : Near R k x' y') : Near R k (x + x') (y + y') := by
  constructor
  · rw [mul_add]; exact add_le_add h.1 h'.1
  · rw [mul_add]; exact add_le_add h.2 h'.2

theorem near_mul {k j : ℕ} {x y x' y' : K} (hx : 0 ≤ x) (hy : 0 ≤ y) (hx' : 0 ≤ x') (hy' : 0 ≤ y') (h : Near R k x y)
    (h' : Near R j x' y') : Near R (k + j) (x * x') (y * y') := by
  have hk : 0 ≤ (1 - R.u) ^ k := pow_nonneg (q_nonneg R) k
  have hj : 0 ≤ (1 - R.u) ^ j := pow_nonneg (q_nonneg R) j
  constructor
  · rw [pow_add, mul_mul_mul_comm]; exact mul_le_mul h.1 h'.1 (mul_nonneg hj hy') hx
  · rw [pow_add, mul_mul_mul_comm]; exact mul_le_mul h.2 h'.2 (mul_nonneg hj hx') hy

theorem near_div {k j : ℕ} {x y x' y' : K} (hx : 0 ≤ x) (hy : 0 ≤ y) (hx' : 0 < x') (hy' : 0 < y') (h : Near R k x y)
    (h' : Near R j x' y') : Near R (k + j) (x / x') (y / y') := by
  have hk : 0 ≤ (1 - R.u) ^ k := pow_nonneg (q_nonneg R) k
  have hj : 0 ≤ (1 - R.u) ^ j := pow_nonneg (q_nonneg R) j
  constructor
  · rw [pow_add, mul_div_assoc', div_le_div_iff₀ hy' hx']
    calc _ = ((1 - R.u) ^ k * y) * ((1 - R.u) ^ j * x') := by ring
      _ ≤ x * y' := mul_le_mul h.1 h'.2 (mul_nonneg hj hx'.le) hx
  · rw [pow_add, mul_div_assoc', div_le_div_iff₀ hx' hy']
    calc _ = ((1 - R.u) ^ k * x) * ((1 - R.u) ^ j * y') := by ring
      _ ≤ y * x' := mul_le_mul h.2 h'.1 (mul_nonneg hj hy'.le) hy

theorem near_pos {k : ℕ} {x y : K} (hy : 0 < y) (h : Near R k x y) : 0 < x :=
  lt_of_lt_of_le (mul_pos (pow_pos (by linarith [R.u_lt]) k) hy) h.1

theorem q_pow_ge (k : ℕ) : 1 - k * R.u ≤ (1 - R.u) ^ k := by
  have hu := R.u_nonneg
  have hu1 := R.u_lt
  induction k with
  | zero => simp
  | succ k ih =>
    rw [pow_succ]
    have h1 := mul_le_mul_of_nonneg_right ih (q_nonneg R)
    have h2 : 0 ≤ (k : K) * (R.u * R.u) := by positivity
    push_cast
    linarith

theorem near_abs {k : ℕ} {x y : K} (hx : 0 ≤ x) (hy : 0 ≤ y) (hk : k * R.u ≤ 1 / 2) (h : Near R k x y) :
    |x - y| ≤ 2 * k * R.u * y := by
  have hu := R.u_nonneg
  have hku : 0 ≤ (k : K) * R.u := mul_nonneg (Nat.cast_nonneg k) hu
  have hq := q_pow_ge (R := R) k
  have h1 : (1 - k * R.u) * y ≤ x := (mul_le_mul_of_nonneg_right hq hy).trans h.1
  have h2 : (1 - k * R.u) * x ≤ y := (mul_le_mul_of_nonneg_right hq hx).trans h.2
  have hx2 : x ≤ 2 * y := by nlinarith
  rw [abs_le]
  constructor
  · nlinarith
  · nlinarith

end Near

section Weights
variable {p : Params K} {m : K}

/-- the stored weight is the newly computed one up to the tolerance `1e-12` of line 175 -/
theorem w_close {t : TS K} (hu : R.u ≤ 1 / 10) (hw : 0 < t.newWR R) :
    |(t.nextR R).w - t.newWR R| ≤ 14 / 10 ^ 13 * t.newWR R := by
  by_cases hc : t.changedR R = true
  · have : (t.nextR R).w = t.newWR R := by simp [TS.nextR, hc]
    rw [this, sub_self, abs_zero]; positivity
  · have he : (t.nextR R).w = t.w := by simp [TS.nextR, hc]
    rw [he, abs_sub_comm]
    simp only [TS.changedR, decide_eq_true_eq, not_lt] at hc
    set W := t.newWR R
    have hu0 := R.u_nonneg
    have h1 := (R.bounds (x := |R.rd (W - t.w)| / W) (by positivity)).1
    have h2 := (R.bounds (x := (1 / 10 ^ 12 : K)) (by positivity)).2
    have h3 : (1 - R.u) * |W - t.w| ≤ |R.rd (W - t.w)| := by
      have := R.err (W - t.w)
      have h4 := abs_sub_abs_le_abs_sub (W - t.w) (R.rd (W - t.w))
      rw [abs_sub_comm (W - t.w) (R.rd (W - t.w))] at h4
      nlinarith
    have h5 : (1 - R.u) * (|R.rd (W - t.w)| / W) ≤ (1 + R.u) * (1 / 10 ^ 12) := by linarith
    have h6 : (1 - R.u) * |R.rd (W - t.w)| ≤ (1 + R.u) * (1 / 10 ^ 12) * W := by
      rw [← mul_div_assoc, div_le_iff₀ hw] at h5; exact h5
    have h7 : (9 / 10 : K) ≤ 1 - R.u := by linarith
    have h8 : 81 / 100 * |W - t.w| ≤ (1 - R.u) * |R.rd (W - t.w)| := by
      have ha := abs_nonneg (W - t.w)
      calc 81 / 100 * |W - t.w| = 9 / 10 * (9 / 10 * |W - t.w|) := by ring
        _ ≤ (1 - R.u) * ((1 - R.u) * |W - t.w|) := by
          apply mul_le_mul h7 (mul_le_mul_of_nonneg_right h7 ha) (by positivity) (by linarith)
        _ ≤ _ := mul_le_mul_of_nonneg_left h3 (by linarith)
    have h9 : (1 + R.u) * (1 / 10 ^ 12) * W ≤ 11 / 10 * (1 / 10 ^ 12) * W := by
      apply mul_le_mul_of_nonneg_right _ hw.le
      apply mul_le_mul_of_nonneg_right _ (by positivity)
      linarith
    norm_num at h8 h9 h6 ⊢
    linarith

/-- **C105 (weights of bdf_2).** After every `next()` but the first, with `c` and `l` the current and the last step size, the
weights are those of the two step formula for the steps `c`, `l`, up to a few rounding errors and the tolerance for the
reuse of `weight()`; so the defect for constants is small compared to the weights. -/
theorem C105_bdf2_weights (hp : p.Good) (hr : p.Rep R) (hs : p.Resolved R m) (t : TS K) (h : ReachableR R p m t)
    (he : t.atEnd = false) (hb : t.scheme = .bdf2) (hn : t.now ≠ t.start) (c l : K) (hc : c = (t.nextR R).cur)
    (hl : l = (t.nextR R).last) :
    0 < c ∧ 0 < l ∧
    |(t.nextR R).w - (2 * c + l) / (c * (c + l))| ≤ (3 / 10 ^ 12 + 10 * R.u) * ((2 * c + l) / (c * (c + l))) ∧
    |(t.nextR R).wOld - -((c + l) / (c * l))| ≤ 6 * R.u * ((c + l) / (c * l)) ∧
    |(t.nextR R).wOldOld - c / (l * (c + l))| ≤ 6 * R.u * (c / (l * (c + l))) ∧
    |(t.nextR R).w + (t.nextR R).wOld + (t.nextR R).wOldOld| ≤ (3 / 10 ^ 12 + 22 * R.u) * ((c + l) / (c * l)) := by
  have i := reachable_invS hp hr hs h
  obtain ⟨a, -, -, -⟩ := invS_next hp hr hs i he
  have hcp : 0 < c := hc ▸ a.cur_pos
  have hl' : l = t.cur := by rw [hl]; simp [TS.nextR, TS.newLast, hn]
  have hlp : 0 < l := hl' ▸ i.cur_pos
  have hcur : t.newCurR R = c := hc.symm
  have hlast : t.newLast = l := hl.symm
  have hu := hs.u_small
  have hu0 := R.u_nonneg
  have h2 : t.scheme = .bdf2 ∧ t.now ≠ t.start := ⟨hb, hn⟩
  -- sums and products
  have nsum : Near R 1 (R.rd (c + l)) (c + l) := near_rd (by positivity)
  have psum : 0 < R.rd (c + l) := R.pos (by positivity)
  set W := (2 * c + l) / (c * (c + l)) with hW
  have hWp : 0 < W := by positivity
  set W1 := (c + l) / (c * l) with hW1
  have hW1p : 0 < W1 := by positivity
  set W2 := c / (l * (c + l)) with hW2
  have hW2p : 0 < W2 := by positivity
  have hadd : W + W2 = W1 := by rw [hW, hW1, hW2]; field_simp; ring
  -- weight
  have nw : Near R 5 (t.newWR R) W := by
    unfold TS.newWR
    rw [if_pos h2, hcur, hlast]
    have n1 : Near R 1 (R.rd (2 * c)) (2 * c) := near_rd (by positivity)
    have p1 : 0 ≤ R.rd (2 * c) := R.nonneg (by positivity)
    have n2 : Near R 1 (R.rd (2 * c) + l) (2 * c + l) :=
      near_add n1 (near_mono (Nat.zero_le 1) hlp.le hlp.le (near_refl l))
    have n3 : Near R 2 (R.rd (R.rd (2 * c) + l)) (2 * c + l) := near_rd_of (by positivity) n2
    have n4 : Near R 1 (c * R.rd (c + l)) (c * (c + l)) := by
      have := near_mul hcp.le hcp.le psum.le (by positivity) (near_refl (R := R) c) nsum
      simpa using this
    have n5 : Near R 2 (R.rd (c * R.rd (c + l))) (c * (c + l)) := near_rd_of (by positivity) n4
    have p5 : 0 < R.rd (c * R.rd (c + l)) := R.pos (by positivity)
    have p3 : 0 ≤ R.rd (R.rd (2 * c) + l) := R.nonneg (by positivity)
    have n6 := near_div p3 (by positivity) p5 (by positivity) n3 n5
    exact near_rd_of (div_nonneg p3 p5.le) n6
  have pw : 0 < t.newWR R := near_pos hWp nw
  have ew := near_abs pw.le hWp.le (by norm_num; linarith) nw
  have cw := w_close (t := t) hu pw
  have bw : |(t.nextR R).w - W| ≤ (3 / 10 ^ 12 + 10 * R.u) * W := by
    have h3 := abs_sub_le (t.nextR R).w (t.newWR R) W
    have h4 : t.newWR R ≤ 2 * W := by
      have := (abs_le.1 ew).2
      norm_num at this
      nlinarith
    norm_num at ew cw ⊢
    nlinarith
  -- old weights
  have n1 : Near R 3 (R.rd (R.rd (c + l) / R.rd (c * l))) W1 := by
    have n4 : Near R 1 (R.rd (c * l)) (c * l) := near_rd (by positivity)
    have p4 : 0 < R.rd (c * l) := R.pos (by positivity)
    have := near_div psum.le (by positivity) p4 (by positivity) nsum n4
    exact near_rd_of (div_nonneg psum.le p4.le) this
  have p1 : 0 < R.rd (R.rd (c + l) / R.rd (c * l)) := near_pos hW1p n1
  have e1 := near_abs p1.le hW1p.le (by norm_num; linarith) n1
  have hwo : (t.nextR R).wOld = -R.rd (R.rd (c + l) / R.rd (c * l)) := by
    simp only [TS.nextR, hcur, hlast]
    rw [if_pos (by simpa using h2)]
  have b1 : |(t.nextR R).wOld - -W1| ≤ 6 * R.u * W1 := by
    rw [hwo, neg_sub_neg, abs_sub_comm]
    refine e1.trans (le_of_eq ?_); push_cast; ring
  have n2 : Near R 3 (R.rd (c / R.rd (l * R.rd (c + l)))) W2 := by
    have n4 : Near R 1 (l * R.rd (c + l)) (l * (c + l)) := by
      have := near_mul hlp.le hlp.le psum.le (by positivity) (near_refl (R := R) l) nsum
      simpa using this
    have n5 : Near R 2 (R.rd (l * R.rd (c + l))) (l * (c + l)) := near_rd_of (by positivity) n4
    have p5 : 0 < R.rd (l * R.rd (c + l)) := R.pos (by positivity)
    have := near_div hcp.le hcp.le p5 (by positivity) (near_refl (R := R) c) n5
    rw [zero_add] at this
    exact near_rd_of (div_nonneg hcp.le p5.le) this
  have p2 : 0 < R.rd (c / R.rd (l * R.rd (c + l))) := near_pos hW2p n2
  have e2 := near_abs p2.le hW2p.le (by norm_num; linarith) n2
  have hwoo : (t.nextR R).wOldOld = R.rd (c / R.rd (l * R.rd (c + l))) := by
    simp only [TS.nextR, hcur, hlast]
    rw [if_pos (by simpa using h2)]
  have b2 : |(t.nextR R).wOldOld - W2| ≤ 6 * R.u * W2 := by
    rw [hwoo]
    refine e2.trans (le_of_eq ?_); push_cast; ring
  refine ⟨hcp, hlp, bw, b1, b2, ?_⟩
  have hsum : (t.nextR R).w + (t.nextR R).wOld + (t.nextR R).wOldOld =
      ((t.nextR R).w - W) + ((t.nextR R).wOld - -W1) + ((t.nextR R).wOldOld - W2) := by
    linear_combination hadd
  rw [hsum]
  have t1 := abs_add_three ((t.nextR R).w - W) ((t.nextR R).wOld - -W1) ((t.nextR R).wOldOld - W2)
  have hWle : W ≤ W1 := by linarith
  have hW2le : W2 ≤ W1 := by linarith
  have g1 : (3 / 10 ^ 12 + 10 * R.u) * W ≤ (3 / 10 ^ 12 + 10 * R.u) * W1 := mul_le_mul_of_nonneg_left hWle (by positivity)
  have g2 : 6 * R.u * W2 ≤ 6 * R.u * W1 := mul_le_mul_of_nonneg_left hW2le (by positivity)
  nlinarith

/-- **C105 (weights of the one step formula).** In the first step, and always for the schemes other than `bdf_2`, the weights are
`1/c` and `-1/c` for the current step size `c`, up to rounding and the tolerance for the reuse of `weight()`. -/
theorem C105_one_step_weights (hp : p.Good) (hr : p.Rep R) (hs : p.Resolved R m) (t : TS K) (h : ReachableR R p m t)
    (he : t.atEnd = false) (hb : ¬ (t.scheme = .bdf2 ∧ t.now ≠ t.start)) (c : K) (hc : c = (t.nextR R).cur) :
    0 < c ∧ |(t.nextR R).w - 1 / c| ≤ (3 / 10 ^ 12 + 2 * R.u) * (1 / c) ∧ |(t.nextR R).wOld - -1 / c| ≤ R.u * (1 / c) := by
  have i := reachable_invS hp hr hs h
  obtain ⟨a, -, -, -⟩ := invS_next hp hr hs i he
  have hcp : 0 < c := hc ▸ a.cur_pos
  have hcur : t.newCurR R = c := hc.symm
  have hu := hs.u_small
  have hu0 := R.u_nonneg
  have hcc : 0 < 1 / c := by positivity
  have hnw : t.newWR R = R.rd (1 / c) := by unfold TS.newWR; rw [if_neg hb, hcur]
  have pw : 0 < t.newWR R := by rw [hnw]; exact R.pos hcc
  have cw := w_close (t := t) hu pw
  have ew : |t.newWR R - 1 / c| ≤ R.u * (1 / c) := by
    rw [hnw]; have := R.err (1 / c); rwa [abs_of_pos hcc] at this
  refine ⟨hcp, ?_, ?_⟩
  · have h3 := abs_sub_le (t.nextR R).w (t.newWR R) (1 / c)
    have h4 : t.newWR R ≤ 2 * (1 / c) := by
      have := (abs_le.1 ew).2
      nlinarith
    generalize 1 / c = g at *
    norm_num at cw ⊢
    nlinarith
  · have : (t.nextR R).wOld = R.rd (-1 / c) := by
      simp only [TS.nextR, hcur]
      rw [if_neg (by simpa using hb)]
    rw [this]
    have := R.err (-1 / c)
    rwa [neg_div, abs_neg, abs_of_pos hcc, ← neg_div] at this

/-- **C105 (extrapolation).** From the third step on the extrapolation factors are those of the line through the last two values,
up to rounding; before, they are exactly `1` and `0`. -/
theorem C105_extrapolation (hp : p.Good) (hr : p.Rep R) (hs : p.Resolved R m) (t : TS K) (h : ReachableR R p m t)
    (he : t.atEnd = false) (hn : t.now ≠ t.start) (c l : K) (hc : c = (t.nextR R).cur) (hl : l = (t.nextR R).last) :
    (1 < t.stepNo → 0 < l ∧ |(t.nextR R).fOld - (c + l) / l| ≤ 4 * R.u * ((c + l) / l) ∧
      |(t.nextR R).fOldOld - -(c / l)| ≤ R.u * (c / l) ∧
      |(t.nextR R).fOld + (t.nextR R).fOldOld - 1| ≤ 5 * R.u * ((c + l) / l)) ∧
    (t.stepNo ≤ 1 → (t.nextR R).fOld = 1 ∧ (t.nextR R).fOldOld = 0) := by
  have i := reachable_invS hp hr hs h
  obtain ⟨a, -, -, -⟩ := invS_next hp hr hs i he
  have hcp : 0 < c := hc ▸ a.cur_pos
  have hl' : l = t.cur := by rw [hl]; simp [TS.nextR, TS.newLast, hn]
  have hlp : 0 < l := hl' ▸ i.cur_pos
  have hcur : t.newCurR R = c := hc.symm
  have hlast : t.newLast = l := hl.symm
  have hu := hs.u_small
  have hu0 := R.u_nonneg
  constructor
  · intro hst
    have h1 : (t.nextR R).fOld = R.rd (R.rd (c + l) / l) := by simp [TS.nextR, hst, hcur, hlast]
    have h2 : (t.nextR R).fOldOld = R.rd (-c / l) := by simp [TS.nextR, hst, hcur, hlast]
    have nsum : Near R 1 (R.rd (c + l)) (c + l) := near_rd (by positivity)
    have psum : 0 < R.rd (c + l) := R.pos (by positivity)
    have n1 := near_rd_of (div_nonneg psum.le hlp.le)
      (near_div psum.le (by positivity) hlp hlp nsum (near_refl (R := R) l))
    have e1 := near_abs (R.nonneg (div_nonneg psum.le hlp.le)) (by positivity) (by norm_num; linarith) n1
    have b1 : |(t.nextR R).fOld - (c + l) / l| ≤ 4 * R.u * ((c + l) / l) := by
      rw [h1]; refine e1.trans (le_of_eq ?_); push_cast; ring
    have hcl : 0 < c / l := by positivity
    have b2 : |(t.nextR R).fOldOld - -(c / l)| ≤ R.u * (c / l) := by
      rw [h2, neg_div]
      have := R.err (-(c / l))
      rwa [abs_neg, abs_of_pos hcl] at this
    refine ⟨hlp, b1, b2, ?_⟩
    have hd : (c + l) / l = c / l + 1 := by field_simp
    rw [show (t.nextR R).fOld + (t.nextR R).fOldOld - 1 =
      ((t.nextR R).fOld - (c + l) / l) + ((t.nextR R).fOldOld - -(c / l)) by rw [hd]; ring]
    refine (abs_add_le _ _).trans ?_
    rw [hd] at b1 ⊢
    nlinarith
  · intro hst
    have : ¬ 1 < t.stepNo := by omega
    simp [TS.nextR, this]

end Weights

/-! ## Output ticks -/

section Tick
variable {p : Params K}

theorem nextsR_succ (t : TS K) (k : ℕ) : nextsR R t (k + 1) = (nextsR R t k).nextR R := by
  unfold nextsR; rw [Function.iterate_succ_apply']

/-- a run with constant step that has not reached the end -/
theorem uniform_runR (h0 : p.startTime = 0) (hd : 0 < p.stepStart) (hm : p.stepStart ≤ p.stepMax) :
    ∀ k, (nextsR R (TS.ctorR R p) k).atEnd = false →
      (nextsR R (TS.ctorR R p) k).cur = p.stepStart ∧ (nextsR R (TS.ctorR R p) k).step = p.stepStart ∧
      (nextsR R (TS.ctorR R p) k).maxStep = p.stepMax ∧ 0 ≤ (nextsR R (TS.ctorR R p) k).now ∧
      Near R k (nextsR R (TS.ctorR R p) k).now (k * p.stepStart) := by
  intro k
  induction k with
  | zero =>
    intro _
    refine ⟨rfl, rfl, rfl, ?_, ?_⟩
    · show 0 ≤ p.startTime; rw [h0]
    · show Near R 0 p.startTime _; rw [h0]; simp [Near]
  | succ k ih =>
    rw [nextsR_succ]
    generalize nextsR R (TS.ctorR R p) k = t at ih
    intro he
    have he' : t.atEnd = false ∧ t.snapsR R = false := by
      simpa [TS.nextR] using he
    obtain ⟨hc, hst, hmx, hnn, hne⟩ := ih he'.1
    have htr : t.trial = p.stepStart := by
      unfold TS.trial
      dsimp only
      rw [hc, hst, hmx, ite_self, if_neg (not_lt.2 hm), ite_self]
    refine ⟨?_, hst, hmx, ?_, ?_⟩
    · simp only [TS.nextR, TS.newCurR, he'.2, htr]; rfl
    · simp only [TS.nextR, he'.2, htr]; exact R.nonneg (by linarith)
    · simp only [TS.nextR, he'.2, htr]
      have h1 : Near R k p.stepStart p.stepStart := near_mono (Nat.zero_le k) hd.le hd.le (near_refl _)
      have h2 := near_add hne h1
      rw [show ((k + 1 : ℕ) : K) * p.stepStart = k * p.stepStart + p.stepStart by push_cast; ring]
      exact near_rd_of (by linarith) h2

set_option maxHeartbeats 800000 in
/-- **C105 (ticks).** A run from time zero with constant step `dt` and a tick that is `n dt` up to rounding: as long as the number
`k` of steps satisfies `k < 10^9` and `(k + 5) u ≤ 1e-11` (for `double`: `k ≤ 90000`), `at_tick` holds before the end exactly
at every `n`-th step: the accumulated rounding errors of the time neither lose nor add an output. -/
theorem C105_tick_partial [FloorRing K] (h0 : p.startTime = 0) (hd : 0 < p.stepStart) (hm : p.stepStart ≤ p.stepMax)
    (tick : K) (n : ℕ) (hn : 0 < n) (ht : Near R 2 tick (n * p.stepStart)) (k : ℕ) (hk : k < 10 ^ 9)
    (hku : (k + 5 : ℕ) * R.u ≤ 1 / 10 ^ 11) (he : (nextsR R (TS.ctorR R p) k).atEnd = false) :
    (nextsR R (TS.ctorR R p) k).atTickR R tick = true ↔ n ∣ k := by
  obtain ⟨hc, -, -, hnn, hne⟩ := uniform_runR (R := R) h0 hd hm k he
  generalize nextsR R (TS.ctorR R p) k = t at *
  set dt := p.stepStart with hdt
  have hu0 := R.u_nonneg
  have hnK : (0 : K) < n := by exact_mod_cast hn
  have hk0 : (0 : K) ≤ k := Nat.cast_nonneg k
  have hkK : (k : K) ≤ 10 ^ 9 := by exact_mod_cast hk.le
  have htp : 0 < tick := near_pos (by positivity) ht
  push_cast at hku
  have hku0 : 0 ≤ (k : K) * R.u := mul_nonneg hk0 hu0
  have hku1 : (k : K) * R.u ≤ 1 / 10 ^ 11 := by linarith
  have hu5 : R.u ≤ 1 / 10 ^ 11 := by linarith
  -- position
  have c1 : (0 : K) < 1 + 1 / 10 ^ 10 := by positivity
  have nc : Near R 1 (R.rd (1 + 1 / 10 ^ 10)) (1 + 1 / 10 ^ 10 : K) := near_rd c1.le
  have pc := R.pos c1
  have n1 : Near R (k + 1) (t.now * R.rd (1 + 1 / 10 ^ 10)) (k * dt * (1 + 1 / 10 ^ 10)) :=
    near_mul hnn (by positivity) pc.le c1.le hne nc
  have n2 := near_rd_of (by positivity) n1
  have p2 : 0 ≤ R.rd (t.now * R.rd (1 + 1 / 10 ^ 10)) := R.nonneg (by positivity)
  have n3 := near_rd_of (by positivity) (near_div p2 (by positivity) htp (by positivity) n2 ht)
  have p3 : 0 ≤ R.rd (R.rd (t.now * R.rd (1 + 1 / 10 ^ 10)) / tick) := R.nonneg (by positivity)
  have e3 : k * dt * (1 + 1 / 10 ^ 10) / (n * dt) = k / n * (1 + 1 / 10 ^ 10) := by field_simp
  rw [e3] at n3
  set pos := R.rd (R.rd (t.now * R.rd (1 + 1 / 10 ^ 10)) / tick) with hpos
  have a3 := near_abs p3 (by positivity) (by push_cast; norm_num at hku ⊢; linarith) n3
  push_cast at a3
  -- quotient and remainder
  obtain ⟨a, b, hb, hab⟩ : ∃ a b : ℕ, b < n ∧ k = n * a + b :=
    ⟨k / n, k % n, Nat.mod_lt _ hn, (Nat.div_add_mod k n).symm⟩
  have habK : (k : K) = n * a + b := by exact_mod_cast hab
  have hbK : (b : K) + 1 ≤ n := by exact_mod_cast hb
  have hb0 : (0 : K) ≤ b := Nat.cast_nonneg b
  have ha0 : (0 : K) ≤ a := Nat.cast_nonneg a
  have hq0 : (0 : K) ≤ k / n := by positivity
  have hqn : (k : K) / n * n = k := by field_simp
  have hdev : |pos - k / n * (1 + 1 / 10 ^ 10)| ≤ 3 / 10 ^ 11 * ((k : K) / n) := by
    refine a3.trans ?_
    generalize (k : K) / n = q at *
    have h1 : 2 * ((k : K) + 1 + 1 + 2 + 1) * R.u ≤ 2 / 10 ^ 11 := by linarith
    have h2 : (0 : K) ≤ q * (1 + 1 / 10 ^ 10) := by positivity
    have h3 := mul_le_mul_of_nonneg_right h1 h2
    refine h3.trans ?_
    have h4 : (2 : K) / 10 ^ 11 * (1 + 1 / 10 ^ 10) ≤ 3 / 10 ^ 11 := by norm_num
    calc (2 : K) / 10 ^ 11 * (q * (1 + 1 / 10 ^ 10)) = 2 / 10 ^ 11 * (1 + 1 / 10 ^ 10) * q := by ring
      _ ≤ _ := mul_le_mul_of_nonneg_right h4 hq0
  have hfl : truncInt pos = a := by
    unfold truncInt
    rw [if_pos p3, Int.floor_eq_iff]
    push_cast
    have hd' := abs_le.1 hdev
    constructor
    · have : (a : K) ≤ k / n := by rw [le_div_iff₀ hnK]; linarith
      have h5 : (0 : K) ≤ (1 / 10 ^ 10 - 3 / 10 ^ 11) * (k / n) := mul_nonneg (by norm_num) hq0
      linarith [hd'.1]
    · have h6 : pos ≤ (1 + 13 / 10 ^ 11) * (k / n) := by
        have : (1 + 13 / 10 ^ 11 : K) * (k / n) = k / n * (1 + 1 / 10 ^ 10) + 3 / 10 ^ 11 * (k / n) := by
          norm_num; ring
        rw [this]; linarith [hd'.2]
      refine lt_of_le_of_lt h6 ?_
      rw [← mul_div_assoc, div_lt_iff₀ hnK]
      have h7 : (13 / 10 ^ 11 : K) * k ≤ 13 / 10 ^ 11 * 10 ^ 9 := mul_le_mul_of_nonneg_left hkK (by norm_num)
      have h8 : (n : K) * a + n = (a + 1) * n := by ring
      norm_num at h7 ⊢
      linarith
  -- slot
  have hslot : Near R 3 (R.rd ((a : K) * tick)) (n * a * dt) := by
    have := near_mul ha0 ha0 htp.le (by positivity) (near_refl (R := R) (a : K)) ht
    have := near_rd_of (by positivity) this
    rw [show (n : K) * a * dt = a * (n * dt) by ring]
    simpa using this
  have hsl0 : 0 ≤ R.rd ((a : K) * tick) := R.nonneg (by positivity)
  have aslot := near_abs hsl0 (by positivity) (by push_cast; linarith) hslot
  have anow := near_abs hnn (by positivity) (by linarith) hne
  push_cast at aslot
  have hna : (n : K) * a ≤ k := by linarith
  have kk : (k : K) * (k * R.u) ≤ 10 ^ 9 * (1 / 10 ^ 11) := mul_le_mul hkK hku1 (by positivity) (by positivity)
  have bnow : |t.now - k * dt| ≤ 2 / 100 * dt := by
    refine anow.trans ?_
    calc 2 * (k : K) * R.u * (k * dt) = 2 * (k * (k * R.u)) * dt := by ring
      _ ≤ 2 / 100 * dt := mul_le_mul_of_nonneg_right (by norm_num at kk ⊢; linarith) hd.le
  have bslot : |R.rd ((a : K) * tick) - n * a * dt| ≤ 1 / 1000 * dt := by
    refine aslot.trans ?_
    calc 2 * 3 * R.u * ((n : K) * a * dt) = 6 * R.u * (n * a) * dt := by ring
      _ ≤ 6 * R.u * k * dt := by
        apply mul_le_mul_of_nonneg_right _ hd.le
        exact mul_le_mul_of_nonneg_left hna (by positivity)
      _ ≤ 1 / 1000 * dt := by
        apply mul_le_mul_of_nonneg_right _ hd.le
        norm_num at hku1 ⊢
        linarith
  have bn := abs_le.1 bnow
  have bs := abs_le.1 bslot
  have hdiff : t.now - R.rd ((a : K) * tick) - b * dt ≤ 3 / 100 * dt ∧
      -(3 / 100 * dt) ≤ t.now - R.rd ((a : K) * tick) - b * dt := by
    have hex : (k : K) * dt = n * a * dt + b * dt := by rw [habK]; ring
    rw [hex] at bn
    constructor <;> linarith [bn.1, bn.2, bs.1, bs.2]
  -- the two sides of the comparison
  have h95 := R.bounds (x := (95 / 100 : K)) (by norm_num)
  have hl95 : (94 / 100 : K) ≤ R.rd (95 / 100) := by norm_num at hu5 h95 ⊢; linarith [h95.1, h95.2]
  have hu95 : R.rd (95 / 100) ≤ (951 / 1000 : K) := by norm_num at hu5 h95 ⊢; linarith [h95.1, h95.2]
  have hrhs := R.bounds (x := dt * R.rd (95 / 100)) (mul_nonneg hd.le (by linarith))
  have hl : 9 / 10 * dt ≤ R.rd (dt * R.rd (95 / 100)) := by
    have h1 : dt * (94 / 100) ≤ dt * R.rd (95 / 100) := mul_le_mul_of_nonneg_left hl95 hd.le
    have h2 : (99 / 100 : K) ≤ 1 - R.u := by norm_num at hu5 ⊢; linarith
    have h3 : 99 / 100 * (dt * (94 / 100)) ≤ (1 - R.u) * (dt * R.rd (95 / 100)) :=
      mul_le_mul h2 h1 (by positivity) (by linarith)
    linarith [hrhs.1]
  have hr : R.rd (dt * R.rd (95 / 100)) ≤ 953 / 1000 * dt := by
    have h1 : dt * R.rd (95 / 100) ≤ dt * (951 / 1000) := mul_le_mul_of_nonneg_left hu95 hd.le
    have h2 : 1 + R.u ≤ (1001 / 1000 : K) := by norm_num at hu5 ⊢; linarith
    have h3 : (1 + R.u) * (dt * R.rd (95 / 100)) ≤ 1001 / 1000 * (dt * (951 / 1000)) :=
      mul_le_mul h2 h1 (mul_nonneg hd.le (by linarith)) (by norm_num)
    linarith [hrhs.2]
  have key : t.atTickR R tick = true ↔ R.rd (t.now - R.rd ((a : K) * tick)) ≤ R.rd (dt * R.rd (95 / 100)) := by
    unfold TS.atTickR
    dsimp only
    rw [← hpos, hfl, hc, he]
    push_cast
    simp
  rw [key]
  constructor
  · intro hle
    by_contra hnd
    have hb1 : (1 : K) ≤ b := by
      have : b ≠ 0 := by rintro rfl; exact hnd ⟨a, by simpa using hab⟩
      exact_mod_cast Nat.one_le_iff_ne_zero.2 this
    have hbd : dt ≤ b * dt := le_mul_of_one_le_left hd.le hb1
    have h1 : 97 / 100 * dt ≤ t.now - R.rd ((a : K) * tick) := by linarith [hdiff.2]
    have h2 := (R.bounds (x := t.now - R.rd ((a : K) * tick)) (by linarith)).1
    have h3 : (99 / 100 : K) ≤ 1 - R.u := by norm_num at hu5 ⊢; linarith
    have h4 : 99 / 100 * (97 / 100 * dt) ≤ (1 - R.u) * (t.now - R.rd ((a : K) * tick)) :=
      mul_le_mul h3 h1 (by positivity) (by linarith)
    linarith
  · rintro ⟨c, hcc⟩
    have hb00 : b = 0 := by
      have : n ∣ b := (Nat.dvd_add_right ⟨a, rfl⟩).1 ⟨c, hab ▸ hcc⟩
      exact Nat.eq_zero_of_dvd_of_lt this hb
    have h1 : t.now - R.rd ((a : K) * tick) ≤ 3 / 100 * dt := by
      have := hdiff.1; rw [hb00] at this; simp at this ⊢; linarith
    have h2 := R.mono _ _ h1
    have h3 := (R.bounds (x := 3 / 100 * dt) (by positivity)).2
    have h4 : R.u * (3 / 100 * dt) ≤ 1 * (3 / 100 * dt) :=
      mul_le_mul_of_nonneg_right (by linarith [R.u_lt]) (by positivity)
    linarith

end Tick

/-! ## Steps below the resolution of the times -/

section Stall

/-- If the first step is lost in the rounding of the time, the clock stays at the start time for any number of steps. -/
theorem C105_stall (p : Params K) (hr : p.Rep R) (h1 : R.rd (p.startTime + p.stepStart) = p.startTime)
    (h2 : p.startTime ≤ p.endTime - R.rd (hundredth R * p.stepStart)) (n : ℕ) :
    (nextsR R (TS.ctorR R p) n).now = p.startTime ∧ (nextsR R (TS.ctorR R p) n).atEnd = false ∧
      (nextsR R (TS.ctorR R p) n).stepNo = n := by
  suffices H : (nextsR R (TS.ctorR R p) n).now = p.startTime ∧ (nextsR R (TS.ctorR R p) n).atEnd = false ∧
      (nextsR R (TS.ctorR R p) n).stepNo = n ∧ (nextsR R (TS.ctorR R p) n).start = p.startTime ∧
      (nextsR R (TS.ctorR R p) n).cur = p.stepStart ∧ (nextsR R (TS.ctorR R p) n).final = p.endTime from
    ⟨H.1, H.2.1, H.2.2.1⟩
  induction n with
  | zero => exact ⟨rfl, rfl, rfl, rfl, rfl, rfl⟩
  | succ n ih =>
    rw [nextsR_succ]
    generalize nextsR R (TS.ctorR R p) n = t at ih
    obtain ⟨a, b, c, d, e, f⟩ := ih
    have ht : t.trial = p.stepStart := by unfold TS.trial; rw [if_neg (by rw [a, d]; simp), e]
    have hs : t.snapsR R = false := by
      rw [snapsR_false b, ht, a, f, h1]
      have := R.mono _ _ h2
      rwa [show R.rd p.startTime = p.startTime from hr.start] at this
    refine ⟨?_, ?_, ?_, d, ?_, f⟩
    · simp only [TS.nextR, hs, ht, a]; simpa using h1
    · simp [TS.nextR, hs, b]
    · simp [TS.nextR, c]
    · simp [TS.nextR, TS.newCurR, hs, ht]

/-- One step from `start` rounds to the end time itself, but the test `h > final_val - s1` does not notice: the clock shows the end
time and `at_end()` is false, for any number of further steps. -/
theorem C105_end_unnoticed (p : Params K) (hm : p.stepStart ≤ p.stepMax)
    (h1 : R.rd (p.startTime + p.stepStart) = p.endTime) (h2 : R.rd (p.endTime + p.stepStart) = p.endTime)
    (h3 : R.rd (p.endTime - R.rd (hundredth R * p.stepStart)) = p.endTime) (n : ℕ) :
    (nextsR R (TS.ctorR R p) (n + 1)).now = p.endTime ∧ (nextsR R (TS.ctorR R p) (n + 1)).atEnd = false := by
  suffices H : ∀ n, (nextsR R (TS.ctorR R p) n).now = (if n = 0 then p.startTime else p.endTime) ∧
      (nextsR R (TS.ctorR R p) n).atEnd = false ∧
      (nextsR R (TS.ctorR R p) n).cur = p.stepStart ∧ (nextsR R (TS.ctorR R p) n).step = p.stepStart ∧
      (nextsR R (TS.ctorR R p) n).maxStep = p.stepMax ∧ (nextsR R (TS.ctorR R p) n).final = p.endTime from
    ⟨by simpa using (H (n + 1)).1, (H (n + 1)).2.1⟩
  intro n
  induction n with
  | zero => exact ⟨rfl, rfl, rfl, rfl, rfl, rfl⟩
  | succ n ih =>
    rw [nextsR_succ]
    generalize nextsR R (TS.ctorR R p) n = t at ih
    obtain ⟨a, b, c, d, e, f⟩ := ih
    have ht : t.trial = p.stepStart := by
      unfold TS.trial
      dsimp only
      rw [c, d, e, ite_self, if_neg (not_lt.2 hm), ite_self]
    have hn : R.rd (t.now + t.trial) = p.endTime := by
      rw [ht, a]; split_ifs
      · exact h1
      · exact h2
    have hs : t.snapsR R = false := by rw [snapsR_false b, hn, f, ht, h3]
    refine ⟨?_, ?_, ?_, d, e, f⟩
    · simp only [TS.nextR, hs, hn]; simp
    · simp [TS.nextR, hs, b]
    · simp [TS.nextR, TS.newCurR, hs, ht]

/-- the hypotheses of `C105_stall` in double precision: times around `2^60`, step one -/
def stallParams : Params ℚ := ⟨.bdf2, 2 ^ 60, 2 ^ 61, 1, 1, 1⟩

theorem rep_one : (nearest 52 : Rounding ℚ).Rep 1 :=
  nearest_rep 52 1 (by norm_num) (2 ^ 52) 0 (by norm_num) (by norm_num) (by norm_num)

theorem rd_hundredth_le (s : ℚ) (h0 : 0 ≤ s) : (nearest 52 : Rounding ℚ).rd (hundredth (nearest 52) * s) ≤ 4 / 100 * s := by
  have hu : (nearest 52 : Rounding ℚ).u ≤ 1 := by simp only [nearest]; norm_num
  have h1 := ((nearest 52 : Rounding ℚ).bounds (x := 1 / 100) (by norm_num)).2
  have hp : 0 ≤ hundredth (nearest 52 : Rounding ℚ) := hundredth_nonneg
  have h2 := ((nearest 52 : Rounding ℚ).bounds (x := hundredth (nearest 52) * s) (mul_nonneg hp h0)).2
  have h3 : hundredth (nearest 52 : Rounding ℚ) ≤ 2 / 100 := by unfold hundredth; linarith
  have h4 : hundredth (nearest 52 : Rounding ℚ) * s ≤ 2 / 100 * s := mul_le_mul_of_nonneg_right h3 h0
  have h5 : 0 ≤ hundredth (nearest 52 : Rounding ℚ) * s := mul_nonneg hp h0
  nlinarith

/-- **C105 (counterexample).** In double precision, from `2^60` with step one, `next()` never advances the time. -/
theorem C105_stall_double (n : ℕ) :
    stallParams.Good ∧ stallParams.Rep (nearest 52) ∧
    (nextsR (nearest 52) (TS.ctorR (nearest 52) stallParams) n).now = stallParams.startTime ∧
    (nextsR (nearest 52) (TS.ctorR (nearest 52) stallParams) n).atEnd = false := by
  have hr : stallParams.Rep (nearest 52) := by
    refine ⟨?_, ?_, rep_one, rep_one, rep_one⟩
    · exact nearest_rep 52 _ (by norm_num [stallParams]) (2 ^ 52) 60 (by norm_num) (by norm_num) (by norm_num [stallParams])
    · exact nearest_rep 52 _ (by norm_num [stallParams]) (2 ^ 52) 61 (by norm_num) (by norm_num) (by norm_num [stallParams])
  have h := C105_stall (R := nearest 52) stallParams hr
    (by
      rw [nearest_eq 52 _ 60 (2 ^ 52) (by norm_num [stallParams]) (by norm_num [stallParams]) (by norm_num [stallParams])
        (by norm_num [stallParams])]
      norm_num [stallParams])
    (by
      have := rd_hundredth_le stallParams.stepStart (by norm_num [stallParams])
      norm_num [stallParams] at this ⊢
      linarith) n
  exact ⟨⟨by norm_num [stallParams], by norm_num [stallParams], by norm_num [stallParams], by norm_num [stallParams]⟩, hr,
    h.1, h.2.1⟩

/-- the hypotheses of `C105_end_unnoticed` in double precision -/
def missParams : Params ℚ := ⟨.bdf2, 2 ^ 61 - 256, 2 ^ 61, 200, 200, 200⟩

/-- **C105 (counterexample).** In double precision, from `2^61 - 256` with step `200` to `2^61`, every `next()` yields the end time,
and `at_end()` is never true. -/
theorem C105_end_unnoticed_double (n : ℕ) :
    missParams.Good ∧ missParams.Rep (nearest 52) ∧
    (nextsR (nearest 52) (TS.ctorR (nearest 52) missParams) (n + 1)).now = missParams.endTime ∧
    (nextsR (nearest 52) (TS.ctorR (nearest 52) missParams) (n + 1)).atEnd = false := by
  have r200 : (nearest 52 : Rounding ℚ).Rep 200 :=
    nearest_rep 52 200 (by norm_num) (200 * 2 ^ 45) 7 (by norm_num) (by norm_num) (by norm_num)
  have r61 : (nearest 52 : Rounding ℚ).rd (2 ^ 61) = 2 ^ 61 :=
    nearest_rep 52 _ (by norm_num) (2 ^ 52) 61 (by norm_num) (by norm_num) (by norm_num)
  have hr : missParams.Rep (nearest 52) := by
    refine ⟨?_, r61, r200, r200, r200⟩
    exact nearest_rep 52 _ (by norm_num [missParams]) (2 ^ 53 - 1) 60 (by norm_num) (by norm_num) (by norm_num [missParams])
  have h := C105_end_unnoticed (R := nearest 52) missParams (le_refl _)
    (by
      rw [nearest_eq 52 _ 60 (2 ^ 53) (by norm_num [missParams]) (by norm_num [missParams]) (by norm_num [missParams])
        (by norm_num [missParams])]
      norm_num [missParams])
    (by
      rw [nearest_eq 52 _ 61 (2 ^ 52) (by norm_num [missParams]) (by norm_num [missParams]) (by norm_num [missParams])
        (by norm_num [missParams])]
      norm_num [missParams])
    (by
      have h1 := rd_hundredth_le missParams.stepStart (by norm_num [missParams])
      have h0 : 0 < (nearest 52 : Rounding ℚ).rd (hundredth (nearest 52) * missParams.stepStart) :=
        Rounding.pos _ (mul_pos (Rounding.pos _ (by norm_num)) (by norm_num [missParams]))
      generalize (nearest 52 : Rounding ℚ).rd (hundredth (nearest 52) * missParams.stepStart) = s at *
      norm_num [missParams] at h1
      rw [nearest_eq 52 _ 60 (2 ^ 53) (by norm_num [missParams]; linarith) (by norm_num [missParams]; linarith)
        (by norm_num [missParams]; linarith) (by norm_num [missParams]; linarith)]
      norm_num [missParams]) n
  exact ⟨⟨by norm_num [missParams], by norm_num [missParams], by norm_num [missParams], by norm_num [missParams]⟩, hr,
    h.1, h.2⟩

end Stall

/-! ## The hypotheses can be met -/

section Examples

/-- `[0, 8]` with first step `1/8` in double precision -/
def exR : Params ℚ := ⟨.bdf2, 0, 8, 1 / 8, 1, 1 / 1024⟩

theorem exR_good : exR.Good := ⟨by norm_num [exR], by norm_num [exR], by norm_num [exR], by norm_num [exR]⟩

theorem exR_rep : exR.Rep (nearest 52) where
  start := Rounding.zero _
  final := nearest_rep 52 _ (by norm_num [exR]) (2 ^ 52) 3 (by norm_num) (by norm_num) (by norm_num [exR])
  stepStart := nearest_rep 52 _ (by norm_num [exR]) (2 ^ 52) (-3) (by norm_num) (by norm_num) (by norm_num [exR, zpow_neg])
  stepMax := rep_one
  stepMin := nearest_rep 52 _ (by norm_num [exR]) (2 ^ 52) (-10) (by norm_num) (by norm_num) (by norm_num [exR, zpow_neg])

theorem exR_resolved : exR.Resolved (nearest 52) (1 / 1024) where
  u_small := by simp only [nearest]; norm_num
  above := by simp only [nearest]; norm_num [exR]
  start := by norm_num [exR]
  max := by norm_num [exR]
  min := by norm_num [exR]

/-- a state after one step, before the end: the hypotheses of `C105_next_advances_partial` and `C105_bdf2_weights` hold -/
example : ∃ t, ReachableR (nearest 52) exR (1 / 1024) t ∧ t.atEnd = false ∧ t.scheme = .bdf2 ∧ t.now ≠ t.start := by
  refine ⟨(TS.ctorR (nearest 52) exR).nextR (nearest 52), ⟨[.advance], by simp [Cmd.OkR], rfl⟩, ?_, rfl, ?_⟩
  · show (false || TS.snapsR (nearest 52) (TS.ctorR (nearest 52) exR)) = false
    rw [Bool.false_or, snapsR_false rfl]
    have ht : (TS.ctorR (nearest 52) exR).trial = 1 / 8 := by simp [TS.trial, TS.ctorR, TS.ctor, exR]
    rw [ht]
    have h1 := rd_hundredth_le (1 / 8) (by norm_num)
    apply Rounding.mono
    show (0 : ℚ) + 1 / 8 ≤ 8 - _
    linarith
  · have := (C105_next_advances_partial exR_good exR_rep exR_resolved (TS.ctorR (nearest 52) exR)
      ⟨[], by simp, rfl⟩ rfl).2.1
    exact ne_of_gt this

/-- the hypotheses of `C105_tick_partial`: `dt` and tick are the doubles nearest to `0.01` and `0.1` -/
example (R : Rounding ℚ) : Near R 2 (R.rd (1 / 10)) (10 * R.rd (1 / 100)) := by
  have h1 : Near R 1 (R.rd (1 / 10)) (1 / 10) := near_rd (by norm_num)
  have h2 : Near R 1 (R.rd (1 / 100)) (1 / 100) := near_rd (by norm_num)
  have h3 : Near R 1 (1 / 10) (10 * R.rd (1 / 100)) := by
    constructor <;> [have := h2.2; have := h2.1] <;> linarith
  exact near_trans h1 h3

example : ((90000 + 5 : ℕ) : ℚ) * (nearest 52 : Rounding ℚ).u ≤ 1 / 10 ^ 11 := by simp only [nearest]; norm_num

/-- Restart of a nonempty interval is admissible. -/
example : exR.NonDegenerateR (nearest 52) := by
  unfold Params.NonDegenerateR
  apply Rounding.mono
  have h8 : (nearest 52 : Rounding ℚ).rd (exR.endTime - exR.startTime) = 8 := by
    have := exR_rep.final
    simp only [exR, sub_zero] at this ⊢
    exact this
  rw [h8]
  norm_num [exR]

end Examples

end Verif.Time
