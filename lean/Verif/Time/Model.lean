import Mathlib.Algebra.Order.Field.Basic
import Mathlib.Algebra.Order.Floor.Defs

/-!
# Model of `TimeStepping` (source/time_stepping.cc, include/adaflo/time_stepping.h)

`double` is an arbitrary linear ordered field `K` (exact arithmetic).
-/

namespace Verif.Time

/-- include/adaflo/time_stepping.h:36-42 (`TimeSteppingParameters::Scheme`). -/
inductive Scheme
  | implicitEuler | explicitEuler | crankNicolson | bdf2
  deriving DecidableEq, Repr

/-- The entries of `TimeSteppingParameters` (time_stepping.h:31-52) / `FlowParameters`
(parameters.h) that the constructors read. -/
structure Params (K : Type*) where
  scheme : Scheme
  startTime : K
  endTime : K
  stepStart : K
  stepMax : K
  stepMin : K

/-- All data members of `TimeStepping` (time_stepping.h:133-191). -/
structure TS (K : Type*) where
  start : K
  final : K
  scheme : Scheme
  startStep : K
  maxStep : K
  minStep : K
  cur : K
  last : K
  step : K
  w : K
  wOld : K
  wOldOld : K
  fOld : K
  fOldOld : K
  stepNo : ℕ
  atEnd : Bool
  weightChanged : Bool
  now : K
  prev : K
  tau1 : K
  tau2 : K
  deriving DecidableEq

variable {K : Type*} [Field K] [LinearOrder K]

/-- The constructors, source/time_stepping.cc:24-62 and 64-102 (identical logic for
`FlowParameters` and `TimeSteppingParameters`). -/
def TS.ctor (p : Params K) : TS K where
  start := p.startTime
  final := p.endTime
  scheme := p.scheme
  startStep := p.stepStart
  maxStep := p.stepMax
  minStep := p.stepMin
  cur := p.stepStart
  last := 0
  step := p.stepStart
  w := 1 / p.stepStart
  wOld := -1
  wOldOld := 0
  fOld := 0
  fOldOld := 0
  stepNo := 0
  atEnd := false
  weightChanged := true
  now := p.startTime
  prev := p.startTime
  tau1 := match p.scheme with
    | .implicitEuler => 1
    | .explicitEuler => 0
    | .crankNicolson => 1 / 2
    | .bdf2 => 1
  tau2 := match p.scheme with
    | .implicitEuler => 0
    | .explicitEuler => 1
    | .crankNicolson => 1 / 2
    | .bdf2 => 0

/-- `restart()`, source/time_stepping.cc:104-120.  Note that neither `prev_val` nor any of the
weights is reset. -/
def TS.restart (t : TS K) : TS K :=
  { t with
    stepNo := 0
    now := t.start
    step := t.startStep
    cur := t.startStep
    last := 0
    atEnd := decide ((t.final - t.start) / t.startStep < 1 / 10 ^ 14)
    weightChanged := true }

/-- The step chosen in `next()` before looking at the final time, source/time_stepping.cc:128-141:
the local variable `s`. -/
def TS.trial (t : TS K) : K :=
  if t.now ≠ t.start then
    let s := if t.scheme = .bdf2 ∧ t.stepNo = 1 then t.step else t.cur
    if t.maxStep < s then t.maxStep else s
  else t.cur

/-- `last_step_val` after source/time_stepping.cc:132-134. -/
def TS.newLast (t : TS K) : K :=
  if t.now ≠ t.start then t.cur else t.last

/-- The branch condition of source/time_stepping.cc:152-153:
`!at_end_val && h > final_val - s1` with `s1 = .01*s`, `h = now_val + s`. -/
def TS.snaps (t : TS K) : Bool :=
  !t.atEnd && decide (t.final - 1 / 100 * t.trial < t.now + t.trial)

/-- `next()`, source/time_stepping.cc:124-199, as executed in release mode (the `Assert` in line 127
is checked in `TS.nextChecked`). -/
def TS.next (t : TS K) : TS K :=
  let l := t.newLast
  let c := if t.snaps then t.final - t.now else t.trial
  let h := if t.snaps then t.final else t.now + t.trial
  let two := decide (t.scheme = .bdf2 ∧ t.now ≠ t.start)
  -- lines 161-174
  let newW := if two then (2 * c + l) / (c * (c + l)) else 1 / c
  let wOld := if two then -((c + l) / (c * l)) else -1 / c
  let wOldOld := if two then c / (l * (c + l)) else t.wOldOld
  -- lines 175-181
  let changed := decide (1 / 10 ^ 12 < |newW - t.w| / newW)
  { t with
    last := l
    cur := c
    atEnd := t.atEnd || t.snaps
    w := if changed then newW else t.w
    wOld := wOld
    wOldOld := wOldOld
    weightChanged := changed
    -- lines 183-194
    fOld := if 1 < t.stepNo then (c + l) / l else 1
    fOldOld := if 1 < t.stepNo then -c / l else 0
    -- lines 195-198
    prev := t.now
    now := h
    stepNo := t.stepNo + 1 }

/-- `next()` including the debug-mode `Assert(at_end_val == false)` of line 127: `none` is the
failing assertion. -/
def TS.nextChecked (t : TS K) : Option (TS K) :=
  if t.atEnd then none else some t.next

/-- `set_time_step`, source/time_stepping.cc:242-247. -/
def TS.setTimeStep (t : TS K) (v : K) : TS K := { t with cur := v, step := v }

/-- The value computed by `set_desired_time_step`, source/time_stepping.cc:251-267. -/
def TS.desiredValue (t : TS K) (d : K) : K :=
  let p := if t.now = 0 then d else t.cur
  let c := min (2 * p) (max d (1 / 2 * p))
  min t.maxStep (max t.minStep c)

/-- `set_desired_time_step`, source/time_stepping.cc:251-269. -/
def TS.setDesired (t : TS K) (d : K) : TS K :=
  { t with cur := t.desiredValue d, step := t.desiredValue d }

/-- `set_start_time` / `set_final_time`, time_stepping.h:292-303. -/
def TS.setStartTime (t : TS K) (v : K) : TS K := { t with start := v }
/-- time_stepping.h:299-303. -/
def TS.setFinalTime (t : TS K) (v : K) : TS K := { t with final := v }

/-- `extrapolate`, time_stepping.h:284-288, for scalar values. -/
def TS.extrapolate (t : TS K) (old oldOld : K) : K := old * t.fOld + oldOld * t.fOldOld

/-- `max_weight_uniform`, time_stepping.h:256-262. -/
def TS.maxWeightUniform (t : TS K) : K :=
  if t.scheme = .bdf2 then (3 / 2) / t.cur else 1 / t.cur

/-- C++ conversion `int(x)`: truncation towards zero (range overflow not modelled). -/
def truncInt [FloorRing K] (x : K) : ℤ := if 0 ≤ x then ⌊x⌋ else ⌈x⌉

/-- `at_tick`, source/time_stepping.cc:228-238. -/
def TS.atTick [FloorRing K] (t : TS K) (tick : K) : Bool :=
  let position := truncInt (t.now * (1 + 1 / 10 ^ 10) / tick)
  let slot := (position : K) * tick
  !(decide (t.cur * (95 / 100) < t.now - slot) && !t.atEnd)

/-- `name()`, source/time_stepping.cc:203-216. -/
def TS.name (t : TS K) : String :=
  match t.scheme with
  | .implicitEuler => "ImplEuler"
  | .explicitEuler => "ExplEuler"
  | .crankNicolson => "CrankNicolson"
  | .bdf2 => "BDF-2"

/-- The public mutating calls of `TimeStepping` that adaflo's own drivers use. -/
inductive Cmd (K : Type*)
  | advance
  | desired (d : K)
  | setStep (v : K)
  | restart

/-- Effect of one call; `none` = failing debug assertion of `next()`. -/
def Cmd.exec (t : TS K) : Cmd K → Option (TS K)
  | .advance => t.nextChecked
  | .desired d => some (t.setDesired d)
  | .setStep v => some (t.setTimeStep v)
  | .restart => some t.restart

/-- Effect of a call history. -/
def runCmds (t : TS K) : List (Cmd K) → Option (TS K)
  | [] => some t
  | c :: cs => (c.exec t).bind fun t' => runCmds t' cs

end Verif.Time
