import Verif.Time.Spec
import Mathlib.Algebra.Order.Floor.Ring
import Mathlib.Tactic.Ring
import Mathlib.Tactic.Linarith
import Mathlib.Tactic.FieldSimp
import Mathlib.Algebra.Order.Field.Basic
import Mathlib.Data.Rat.Floor

/-!
# C126: the clock does not depend on the unit of time

All decisions of source/time_stepping.cc:24-269 (model `Time.Model`) compare quantities of the same unit, or ratios: with all times of the
parameters and all requested step sizes multiplied by `T`, all reported times are multiplied by `T` and all weights divided by `T`.
The origin of the time axis does matter.
-/
set_option linter.unusedSectionVars false

namespace Verif.Time

variable {K : Type*} [Field K] [LinearOrder K] [IsStrictOrderedRing K]

/-! ## Specification -/

namespace Spec

/-- The parameters with times in another unit. -/
def unitParams (T : K) (p : Params K) : Params K :=
  ⟨p.scheme, T * p.startTime, T * p.endTime, T * p.stepStart, T * p.stepMax, T * p.stepMin⟩

/-- A call with its argument in the other unit. -/
def unitCmd (T : K) : Cmd K → Cmd K
  | .advance => .advance
  | .desired d => .desired (T * d)
  | .setStep v => .setStep (T * v)
  | .restart => .restart

/-- Two clocks show the same in both units: times are multiplied by `T`, the weights of the time derivative divided by `T` (the weight of
the old value once a step has been made), all other values agree. -/
structure SameClock (T : K) (t t' : TS K) : Prop where
  start : t'.start = T * t.start
  final : t'.final = T * t.final
  scheme : t'.scheme = t.scheme
  startStep : t'.startStep = T * t.startStep
  maxStep : t'.maxStep = T * t.maxStep
  minStep : t'.minStep = T * t.minStep
  cur : t'.cur = T * t.cur
  last : t'.last = T * t.last
  step : t'.step = T * t.step
  w : t'.w = t.w / T
  wOld : t.stepNo ≠ 0 → t'.wOld = t.wOld / T
  wOldOld : t'.wOldOld = t.wOldOld / T
  fOld : t'.fOld = t.fOld
  fOldOld : t'.fOldOld = t.fOldOld
  stepNo : t'.stepNo = t.stepNo
  atEnd : t'.atEnd = t.atEnd
  weightChanged : t'.weightChanged = t.weightChanged
  now : t'.now = T * t.now
  prev : t'.prev = T * t.prev
  tau1 : t'.tau1 = t.tau1
  tau2 : t'.tau2 = t.tau2

end Spec

open Spec

/-! ## Proofs -/

theorem ctor_units (T : K) (p : Params K) : SameClock T (TS.ctor p) (TS.ctor (unitParams T p)) where
  start := rfl
  final := rfl
  scheme := rfl
  startStep := rfl
  maxStep := rfl
  minStep := rfl
  cur := rfl
  last := (mul_zero T).symm
  step := rfl
  w := by
    change 1 / (T * p.stepStart) = 1 / p.stepStart / T
    rw [div_div, mul_comm]
  wOld := fun h => absurd rfl h
  wOldOld := (zero_div T).symm
  fOld := rfl
  fOldOld := rfl
  stepNo := rfl
  atEnd := rfl
  weightChanged := rfl
  now := rfl
  prev := rfl
  tau1 := rfl
  tau2 := rfl

theorem trial_units {T : K} (hT : 0 < T) {t t' : TS K} (h : SameClock T t t') : t'.trial = T * t.trial := by
  have hn : (t'.now ≠ t'.start) ↔ (t.now ≠ t.start) := by
    rw [h.now, h.start, ne_eq, ne_eq, mul_right_inj' hT.ne']
  unfold TS.trial
  by_cases h1 : t.now ≠ t.start
  · rw [if_pos h1, if_pos (hn.2 h1)]
    have hs : (if t'.scheme = .bdf2 ∧ t'.stepNo = 1 then t'.step else t'.cur) =
        T * (if t.scheme = .bdf2 ∧ t.stepNo = 1 then t.step else t.cur) := by
      rw [h.scheme, h.stepNo]
      split_ifs
      · exact h.step
      · exact h.cur
    dsimp only
    rw [hs, h.maxStep]
    by_cases h2 : t.maxStep < (if t.scheme = .bdf2 ∧ t.stepNo = 1 then t.step else t.cur)
    · rw [if_pos h2, if_pos (by exact mul_lt_mul_of_pos_left h2 hT)]
    · rw [if_neg h2, if_neg (fun h3 => h2 (lt_of_mul_lt_mul_left h3 hT.le))]
  · rw [if_neg h1, if_neg (fun h2 => h1 (hn.1 h2)), h.cur]

theorem newLast_units {T : K} (hT : 0 < T) {t t' : TS K} (h : SameClock T t t') : t'.newLast = T * t.newLast := by
  have hn : (t'.now ≠ t'.start) ↔ (t.now ≠ t.start) := by
    rw [h.now, h.start, ne_eq, ne_eq, mul_right_inj' hT.ne']
  unfold TS.newLast
  by_cases h1 : t.now ≠ t.start
  · rw [if_pos h1, if_pos (hn.2 h1), h.cur]
  · rw [if_neg h1, if_neg (fun h2 => h1 (hn.1 h2)), h.last]

theorem snaps_units {T : K} (hT : 0 < T) {t t' : TS K} (h : SameClock T t t') : t'.snaps = t.snaps := by
  unfold TS.snaps
  rw [trial_units hT h, h.atEnd, h.final, h.now]
  congr 1
  rw [decide_eq_decide]
  rw [show T * t.final - 1 / 100 * (T * t.trial) = T * (t.final - 1 / 100 * t.trial) by ring, ← mul_add,
    mul_lt_mul_iff_right₀ hT]

theorem next_units {T : K} (hT : 0 < T) {t t' : TS K} (h : SameClock T t t') : SameClock T t.next t'.next := by
  have hT' := hT.ne'
  have hl := newLast_units hT h
  have hc : (if t'.snaps then t'.final - t'.now else t'.trial) = T * (if t.snaps then t.final - t.now else t.trial) := by
    rw [snaps_units hT h, trial_units hT h, h.final, h.now]
    split_ifs <;> ring
  have hh : (if t'.snaps then t'.final else t'.now + t'.trial) = T * (if t.snaps then t.final else t.now + t.trial) := by
    rw [snaps_units hT h, trial_units hT h, h.final, h.now]
    split_ifs <;> ring
  have hn : (t'.scheme = .bdf2 ∧ t'.now ≠ t'.start) ↔ (t.scheme = .bdf2 ∧ t.now ≠ t.start) := by
    rw [h.scheme, h.now, h.start, ne_eq, ne_eq, mul_right_inj' hT']
  have htwo : decide (t'.scheme = .bdf2 ∧ t'.now ≠ t'.start) = decide (t.scheme = .bdf2 ∧ t.now ≠ t.start) := by
    rw [decide_eq_decide]
    exact hn
  -- the new weight
  have hW : ∀ (b : Bool) (c l : K), (if b then (2 * (T * c) + T * l) / (T * c * (T * c + T * l)) else 1 / (T * c)) =
      (if b then (2 * c + l) / (c * (c + l)) else 1 / c) / T := by
    intro b c l
    cases b
    · simp only [Bool.false_eq_true, if_false]
      rw [div_div, mul_comm]
    · simp only [if_true]
      rw [div_div, show 2 * (T * c) + T * l = T * (2 * c + l) by ring,
        show T * c * (T * c + T * l) = T * (c * (c + l) * T) by ring, mul_div_mul_left _ _ hT']
  have hchg : ∀ N : K, (|N / T - t'.w| / (N / T)) = |N - t.w| / N := by
    intro N
    rw [h.w, ← sub_div, abs_div, abs_of_pos hT, div_div_div_cancel_right₀ hT']
  constructor
  case start => exact h.start
  case final => exact h.final
  case scheme => exact h.scheme
  case startStep => exact h.startStep
  case maxStep => exact h.maxStep
  case minStep => exact h.minStep
  case tau1 => exact h.tau1
  case tau2 => exact h.tau2
  case step => exact h.step
  case prev => exact h.now
  case cur => exact hc
  case last => exact hl
  case now => exact hh
  case stepNo =>
    change t'.stepNo + 1 = t.stepNo + 1
    rw [h.stepNo]
  case atEnd =>
    change (t'.atEnd || t'.snaps) = (t.atEnd || t.snaps)
    rw [h.atEnd, snaps_units hT h]
  case weightChanged =>
    simp only [TS.next, hl, hc, htwo, hW, hchg]
  case w =>
    simp only [TS.next, hl, hc, htwo, hW, hchg]
    rw [h.w]
    split_ifs <;> rfl
  case wOld =>
    intro _
    simp only [TS.next, hl, hc, htwo]
    rw [apply_ite (· / T)]
    congr 1
    · rw [← mul_add, show ∀ c l : K, T * c * (T * l) = T * (c * l * T) from fun c l => by ring, mul_div_mul_left _ _ hT', neg_div,
        div_div]
    · rw [div_div, mul_comm]
  case wOldOld =>
    simp only [TS.next, hl, hc, htwo]
    rw [apply_ite (· / T), h.wOldOld]
    congr 1
    rw [← mul_add, show ∀ c l : K, T * l * (T * c) = T * (l * c * T) from fun c l => by ring, mul_div_mul_left _ _ hT', div_div]
  case fOld =>
    simp only [TS.next, hl, hc, h.stepNo]
    rw [← mul_add, mul_div_mul_left _ _ hT']
  case fOldOld =>
    simp only [TS.next, hl, hc, h.stepNo]
    rw [← mul_neg, mul_div_mul_left _ _ hT']

theorem desired_units {T : K} (hT : 0 < T) {t t' : TS K} (h : SameClock T t t') (d : K) :
    t'.desiredValue (T * d) = T * t.desiredValue d := by
  unfold TS.desiredValue
  have hp : (if t'.now = 0 then T * d else t'.cur) = T * (if t.now = 0 then d else t.cur) := by
    rw [h.now, h.cur]
    by_cases h0 : t.now = 0
    · rw [if_pos h0, if_pos (by rw [h0, mul_zero])]
    · rw [if_neg h0, if_neg (fun h1 => h0 ((mul_eq_zero.1 h1).resolve_left hT.ne'))]
  dsimp only
  rw [hp, h.maxStep, h.minStep]
  rw [mul_min_of_nonneg _ _ hT.le, mul_max_of_nonneg _ _ hT.le, mul_min_of_nonneg _ _ hT.le, mul_max_of_nonneg _ _ hT.le]
  simp only [mul_left_comm]

theorem exec_units {T : K} (hT : 0 < T) {t t' : TS K} (h : SameClock T t t') (c : Cmd K) :
    (c.exec t = none ∧ (unitCmd T c).exec t' = none) ∨
    ∃ s s', c.exec t = some s ∧ (unitCmd T c).exec t' = some s' ∧ SameClock T s s' := by
  cases c with
  | advance =>
    simp only [unitCmd, Cmd.exec, TS.nextChecked, h.atEnd]
    by_cases he : t.atEnd = true
    · rw [if_pos he, if_pos he]
      exact .inl ⟨rfl, rfl⟩
    · rw [if_neg he, if_neg he]
      exact .inr ⟨_, _, rfl, rfl, next_units hT h⟩
  | desired d =>
    exact .inr ⟨_, _, rfl, rfl, { h with cur := desired_units hT h d, step := desired_units hT h d }⟩
  | setStep v => exact .inr ⟨_, _, rfl, rfl, { h with cur := rfl, step := rfl }⟩
  | restart =>
    refine .inr ⟨_, _, rfl, rfl, { h with stepNo := rfl, now := h.start, step := h.startStep, cur := h.startStep, last := (mul_zero T).symm, atEnd := ?_, weightChanged := rfl, wOld := fun hh => absurd rfl hh }⟩
    change decide ((t'.final - t'.start) / t'.startStep < 1 / 10 ^ 14) = decide ((t.final - t.start) / t.startStep < 1 / 10 ^ 14)
    rw [h.final, h.start, h.startStep, ← mul_sub, mul_div_mul_left _ _ hT.ne']

theorem run_units {T : K} (hT : 0 < T) (cs : List (Cmd K)) : ∀ {t t' : TS K}, SameClock T t t' →
    (runCmds t cs = none ∧ runCmds t' (cs.map (unitCmd T)) = none) ∨
    ∃ s s', runCmds t cs = some s ∧ runCmds t' (cs.map (unitCmd T)) = some s' ∧ SameClock T s s' := by
  induction cs with
  | nil => exact fun h => .inr ⟨_, _, rfl, rfl, h⟩
  | cons c cs ih =>
    intro t t' h
    rw [List.map_cons]
    unfold runCmds
    rcases exec_units hT h c with ⟨h1, h2⟩ | ⟨s, s', h1, h2, h3⟩
    · rw [h1, h2]
      exact .inl ⟨rfl, rfl⟩
    · rw [h1, h2]
      exact ih h3

/-- **C126 (unit of time, clock).** For all parameters, units `T > 0` and call sequences (steps, requested and prescribed step sizes,
restarts): with all times given in the other unit, either both clocks fail the debug assertion or both show the same - times multiplied by
`T`, derivative weights divided by `T`, extrapolation factors, step numbers and flags equal - and output ticks are hit in the same
steps. -/
theorem C126_clock_units [FloorRing K] (T : K) (hT : 0 < T) (p : Params K) (cs : List (Cmd K)) :
    (runCmds (TS.ctor p) cs = none ∧ runCmds (TS.ctor (unitParams T p)) (cs.map (unitCmd T)) = none) ∨
    ∃ t t', runCmds (TS.ctor p) cs = some t ∧ runCmds (TS.ctor (unitParams T p)) (cs.map (unitCmd T)) = some t' ∧
      SameClock T t t' ∧ ∀ tick, t'.atTick (T * tick) = t.atTick tick := by
  rcases run_units hT cs (ctor_units T p) with h | ⟨t, t', h1, h2, h3⟩
  · exact .inl h
  · refine .inr ⟨t, t', h1, h2, h3, fun tick => ?_⟩
    unfold TS.atTick
    have hpos : t'.now * (1 + 1 / 10 ^ 10) / (T * tick) = t.now * (1 + 1 / 10 ^ 10) / tick := by
      rw [h3.now, mul_assoc, mul_div_mul_left _ _ hT.ne']
    dsimp only
    rw [hpos, h3.cur, h3.now, h3.atEnd]
    congr 2
    rw [decide_eq_decide]
    generalize (truncInt (t.now * (1 + 1 / 10 ^ 10) / tick) : K) = s
    rw [show T * t.cur * (95 / 100) = T * (t.cur * (95 / 100)) by ring, show T * t.now - s * (T * tick) = T * (t.now - s * tick) by ring,
      mul_lt_mul_iff_right₀ hT]

/-- **C126, limit (origin of time).** The clock does depend on the origin of the time axis: at time zero the first requested step size is
not compared with the configured one. The same problem started at time 1 instead of 0 makes a first step of 1/5 instead of 1. -/
theorem C126_origin_matters :
    let p : K → Params K := fun s => ⟨.implicitEuler, s, s + 10, 1 / 10, 10, 1 / 100⟩
    ((TS.ctor (p 0)).setDesired 1).cur = 1 ∧ ((TS.ctor (p 1)).setDesired 1).cur = 1 / 5 := by
  constructor
  · simp only [TS.setDesired, TS.desiredValue, TS.ctor]
    norm_num
  · simp only [TS.setDesired, TS.desiredValue, TS.ctor]
    norm_num

/-- Non-vacuity: a run of a `bdf_2` clock with a requested step size in seconds and milliseconds. -/
example : let p : Params ℚ := ⟨.bdf2, 0, 10, 1, 2, 1 / 100⟩
    let cs : List (Cmd ℚ) := [.advance, .desired (3 / 2), .advance, .advance]
    (runCmds (TS.ctor p) cs).map (fun t => (t.now, t.cur, t.fOldOld)) = some (4, 3 / 2, -1) ∧
    (runCmds (TS.ctor (unitParams 1000 p)) (cs.map (unitCmd 1000))).map (fun t => (t.now, t.cur, t.fOldOld)) =
      some (4000, 1500, -1) := by
  decide +kernel

end Verif.Time
