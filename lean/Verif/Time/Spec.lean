import Verif.Time.Model

/-!
# Specification vocabulary for time stepping

Independent of the stepping algorithm: admissible parameters, admissible calls, the driver loop and
polynomials.
-/

namespace Verif.Time

variable {K : Type*} [Field K] [LinearOrder K]

/-- Parameter sets for which stepping makes sense: nonempty interval, positive step sizes. -/
structure Params.Good (p : Params K) : Prop where
  interval : p.startTime < p.endTime
  start : 0 < p.stepStart
  max : 0 < p.stepMax
  min : 0 < p.stepMin

/-- The interval is long enough (relative to the start step) for `restart()` not to consider it
empty (source/time_stepping.cc:113). -/
def Params.NonDegenerate (p : Params K) : Prop :=
  (1 : K) / 10 ^ 14 ≤ (p.endTime - p.startTime) / p.stepStart

/-- Calls a well-behaved driver issues: explicitly set steps are positive, and `restart()` is only
used on non-degenerate intervals. -/
def Cmd.Ok (p : Params K) : Cmd K → Prop
  | .setStep v => 0 < v
  | .restart => p.NonDegenerate
  | _ => True

/-- `t` can be reached from the constructor by admissible calls, `next()` only being called while
`at_end()` is false. -/
def Reachable (p : Params K) (t : TS K) : Prop :=
  ∃ cs : List (Cmd K), (∀ c ∈ cs, c.Ok p) ∧ runCmds (TS.ctor p) cs = some t

/-- The driver loop `while (!at_end()) { [set_desired_time_step(d_i);] next(); }` of the
applications (e.g. applications/navier_stokes.cc), after at most `n` rounds.  `d i = none` means no
step request in round `i`. -/
def driverLoop (t : TS K) (d : ℕ → Option K) : ℕ → TS K
  | 0 => t
  | n + 1 =>
    let s := driverLoop t d n
    if s.atEnd then s
    else (match d n with
      | none => s
      | some x => s.setDesired x).next

/-- `n` plain calls of `next()`. -/
def nexts (t : TS K) (n : ℕ) : TS K := TS.next^[n] t

/-- The quadratic polynomial `a + b τ + c τ²`, and its derivative. -/
def quad (a b c τ : K) : K := a + b * τ + c * τ ^ 2
/-- Derivative of `quad a b c`. -/
def quadDeriv (b c τ : K) : K := b + 2 * c * τ

end Verif.Time
