import Verif.Time.Weights
import Mathlib.Algebra.Module.Basic
import Mathlib.Tactic.Module
import Mathlib.Tactic.FieldSimp
import Mathlib.Tactic.LinearCombination

/-!
# C27: history of accepted solutions

* flow: `NavierStokes::init_time_advance` (source/navier_stokes.cc:660-690), transfer to a new mesh
  (source/navier_stokes.cc:345-360 and 470-500);
* phase indicator: `TwoPhaseBaseAlgorithm::init_time_advance` (source/two_phase_base.cc:443-460), `refine_grid`
  (source/two_phase_base.cc:395-437); `LevelSetSolver::solve` (include/adaflo/sharp_interface.h:338-361).

A vector on the mesh is an element of an arbitrary `K`-module; solves and mesh transfers are arbitrary.  The
pressure block of the projection scheme, which stores increments, is not covered.
-/

namespace Verif.Time

variable {K : Type*} [Field K] [LinearOrder K] [IsStrictOrderedRing K]
variable {X : Type*} [AddCommGroup X] [Module K X]

/-- `solution`, `solution_old`, `solution_old_old` and the clock. -/
structure Hist (K X : Type*) where
  cur : X
  old : X
  oldOld : X
  clock : TS K

/-- Which solver object owns the history. -/
inductive Owner | flow | twoPhase

/-- Extrapolated start value. Flow: `time_stepping.extrapolate(cur, old)` (navier_stokes.cc:684, after
`time_stepping.next()` of line 663). Two-phase: two_phase_base.cc:447-454. `t` is the clock after `next()`. -/
def startValue (o : Owner) (t : TS K) (cur old : X) : X :=
  match o with
  | .flow => t.fOld • cur + t.fOldOld • old
  | .twoPhase =>
    if 0 < t.last then ((t.cur + t.last) / t.last) • cur + (-t.cur / t.last) • old else cur

/-- `init_time_advance`: navier_stokes.cc:663-690, two_phase_base.cc:445-458. -/
def Hist.init (o : Owner) (h : Hist K X) : Hist K X :=
  let t := h.clock.next
  { clock := t, cur := startValue o t h.cur h.old, old := h.cur, oldOld := h.old }

/-- What happens to a solver object between outputs. -/
inductive HOp (K X : Type*)
  /-- a time step whose solve ends with the given solution (converged or not) -/
  | advance (result : X)
  /-- mesh adaptation with the given transfer operator: `solution` and `solution_old` are transferred,
  `solution_old_old` is reinitialized to zero (navier_stokes.cc:352-354, two_phase_base.cc:299-302). -/
  | refine (transfer : X → X)
  /-- `set_desired_time_step` by the application between steps -/
  | request (d : K)

/-- Effect of the operations. -/
def HOp.exec (o : Owner) (h : Hist K X) : HOp K X → Hist K X
  | .advance r => { h.init o with cur := r }
  | .refine T => { h with cur := T h.cur, old := T h.old, oldOld := 0 }
  | .request d => { h with clock := h.clock.setDesired d }

/-- Specification: effect of an operation on the list of accepted solutions, newest first, expressed on the
current mesh. -/
def acceptStep (l : List X) (op : HOp K X) : List X :=
  match op with
  | .advance r => r :: l
  | .refine T => l.map T
  | .request _ => l

/-- Specification: the accepted solutions after a history that started with `a0`. -/
def accepted (a0 : X) (ops : List (HOp K X)) : List X := ops.foldl acceptStep [a0]

/-- Run of a history of operations. -/
def Hist.run (o : Owner) (h : Hist K X) (ops : List (HOp K X)) : Hist K X := ops.foldl (HOp.exec o) h

theorem accepted_eq (a0 : X) (ops : List (HOp K X)) : accepted a0 ops = ops.foldl acceptStep [a0] := by
  rfl

/-- History and list of accepted solutions agree. -/
def Agrees (h : Hist K X) (l : List X) : Prop :=
  l[0]? = some h.cur ∧ ∀ v, l[1]? = some v → h.old = v

theorem agrees_step (o : Owner) (h : Hist K X) (l : List X) (ha : Agrees h l) (op : HOp K X) :
    Agrees (op.exec o h) (acceptStep l op) := by
  obtain ⟨h0, h1⟩ := ha
  cases op with
  | advance r =>
    refine ⟨rfl, ?_⟩
    intro v hv
    simp only [acceptStep, List.getElem?_cons_succ] at hv
    rw [h0] at hv
    simpa [HOp.exec, Hist.init] using hv
  | refine T =>
    refine ⟨by simp [acceptStep, h0, HOp.exec], ?_⟩
    intro v hv
    simp only [acceptStep, List.getElem?_map, Option.map_eq_some_iff] at hv
    obtain ⟨w, hw, rfl⟩ := hv
    simp [HOp.exec, h1 w hw]
  | request d => exact ⟨h0, h1⟩

theorem agrees_run (o : Owner) (h : Hist K X) (a0 : X) (hc : h.cur = a0) (ops : List (HOp K X)) :
    Agrees (h.run o ops) (accepted a0 ops) := by
  rw [accepted_eq, Hist.run]
  have h0 : Agrees h [a0] := ⟨by simp [hc], by simp⟩
  generalize [a0] = l at h0
  clear hc
  induction ops generalizing h l with
  | nil => exact h0
  | cons op ops ih => exact ih _ _ (agrees_step o h l h0 op)

/-- **C27 (history).** For every sequence of time steps, mesh adaptations and step size requests, and any
results of the solves: the current vector is the last accepted solution, and during the next time step the
two old vectors are the last two accepted solutions, on the current mesh. -/
theorem C27_old_levels (o : Owner) (h : Hist K X) (a0 : X) (hc : h.cur = a0) (ops : List (HOp K X)) :
    let s := h.run o ops
    let l := accepted a0 ops
    l[0]? = some s.cur ∧ (s.init o).old = s.cur ∧ (∀ v, l[1]? = some v → (s.init o).oldOld = v) ∧
    ∀ r, let s' := (HOp.advance r).exec o s
      s'.cur = r ∧ s'.old = (s.init o).old ∧ s'.oldOld = (s.init o).oldOld := by
  obtain ⟨h0, h1⟩ := agrees_run o h a0 hc ops
  exact ⟨h0, rfl, h1, fun r => ⟨rfl, rfl, rfl⟩⟩

/-- Number of time steps in a history. -/
def advances : List (HOp K X) → ℕ
  | [] => 0
  | .advance _ :: ops => advances ops + 1
  | _ :: ops => advances ops

/-- **C27 (length).** The list of accepted solutions contains the initial one and one per time step, so
both old levels are defined from the second step on. -/
theorem C27_accepted_length (a0 : X) (ops : List (HOp K X)) :
    (accepted a0 ops).length = advances ops + 1 := by
  rw [accepted_eq]
  have : ∀ (l : List X), (ops.foldl acceptStep l).length = l.length + advances ops := by
    induction ops with
    | nil => intro l; rfl
    | cons op ops ih =>
      intro l
      rw [List.foldl_cons, ih]
      cases op <;> simp [acceptStep, advances] <;> omega
  rw [this]; simp; omega

/-- **C27 (start value, flow).** If the last two accepted solutions are values of a function affine in time at
the last two time levels, the third and later flow solves start from its exact value at the new time. -/
theorem C27_flow_start_affine (p : Params K) (hp : p.Good) (s : Hist K X) (hr : Reachable p s.clock)
    (h1 : 1 < s.clock.stepNo) (hn : s.clock.now ≠ s.clock.start) (hu : Untouched s.clock) (A B : X)
    (hcur : s.cur = A + s.clock.now • B) (hold : s.old = A + s.clock.prev • B) :
    (s.init .flow).cur = A + (s.init .flow).clock.now • B := by
  have c1 := C06_extrapolate_affine p hp s.clock hr h1 hn hu 1 0
  have c2 := C06_extrapolate_affine p hp s.clock hr h1 hn hu 0 1
  have hprev : s.clock.next.prev = s.clock.now := rfl
  simp only [TS.extrapolate, quad, hprev] at c1 c2
  simp only [Hist.init, startValue, hcur, hold]
  have e : s.clock.next.fOld • (A + s.clock.now • B) + s.clock.next.fOldOld • (A + s.clock.prev • B)
      = (s.clock.next.fOld + s.clock.next.fOldOld) • A
        + (s.clock.now * s.clock.next.fOld + s.clock.prev * s.clock.next.fOldOld) • B := by module
  rw [e]
  have e1 : s.clock.next.fOld + s.clock.next.fOldOld = 1 := by linear_combination c1
  have e2 : s.clock.now * s.clock.next.fOld + s.clock.prev * s.clock.next.fOldOld = s.clock.next.now := by
    linear_combination c2
  rw [e1, e2, one_smul]

/-- **C27 (start value, first steps).** In the first two steps the flow solve starts from the last
accepted solution. -/
theorem C27_flow_start_first (s : Hist K X) (h1 : s.clock.stepNo ≤ 1) :
    (s.init .flow).cur = s.cur := by
  simp [Hist.init, startValue, TS.next, show ¬ 1 < s.clock.stepNo by omega]

/-- **C27 (start value, two-phase).** The phase indicator is extrapolated exactly for affine functions from
the second step on. -/
theorem C27_two_phase_start_affine (p : Params K) (hp : p.Good) (s : Hist K X)
    (hr : Reachable p s.clock) (hn : s.clock.now ≠ s.clock.start) (hu : Untouched s.clock) (A B : X)
    (hcur : s.cur = A + s.clock.now • B) (hold : s.old = A + s.clock.prev • B) :
    (s.init .twoPhase).cur = A + (s.init .twoPhase).clock.now • B := by
  have i := reachable_inv hp hr
  have hl : s.clock.next.last = s.clock.cur := by
    show s.clock.newLast = _
    simp [TS.newLast, hn]
  have hc : s.clock.next.cur = s.clock.next.now - s.clock.now := next_untouched s.clock
  have hu' : s.clock.cur = s.clock.now - s.clock.prev := hu
  simp only [Hist.init, startValue, hl, if_pos i.cur_pos, hcur, hold]
  have hne := i.cur_pos.ne'
  have e : ((s.clock.next.cur + s.clock.cur) / s.clock.cur) • (A + s.clock.now • B)
        + (-s.clock.next.cur / s.clock.cur) • (A + s.clock.prev • B)
      = ((s.clock.next.cur + s.clock.cur) / s.clock.cur + -s.clock.next.cur / s.clock.cur) • A
        + (s.clock.now * ((s.clock.next.cur + s.clock.cur) / s.clock.cur)
          + s.clock.prev * (-s.clock.next.cur / s.clock.cur)) • B := by module
  rw [e]
  have e1 : (s.clock.next.cur + s.clock.cur) / s.clock.cur + -s.clock.next.cur / s.clock.cur = 1 := by
    field_simp; ring
  have e2 : s.clock.now * ((s.clock.next.cur + s.clock.cur) / s.clock.cur)
      + s.clock.prev * (-s.clock.next.cur / s.clock.cur) = s.clock.next.now := by
    have : s.clock.prev = s.clock.now - s.clock.cur := by rw [hu']; ring
    rw [this]
    field_simp
    rw [hc]; ring
  rw [e1, e2, one_smul]

/-- **C27 (first step, two-phase).** In the first step of a run the phase indicator is not extrapolated. -/
theorem C27_two_phase_start_first (p : Params K) (s : Hist K X) (hs : s.clock = TS.ctor p) :
    (s.init .twoPhase).cur = s.cur := by
  simp [Hist.init, startValue, hs, TS.next, TS.newLast, TS.ctor]

/-- `LevelSetSolver::solve` (sharp_interface.h:338-361) is called *before* the flow solver advances the clock
(sharp_interface.h:823-837), so it extrapolates with the step sizes of the previous step. -/
def Hist.initLagged (h : Hist K X) : Hist K X :=
  { clock := h.clock.next, cur := startValue .twoPhase h.clock h.cur h.old, old := h.cur, oldOld := h.old }

/-- **C27 (counterexample for the sharp-interface driver).** With the mixed level set solver the start
value is not exact for affine functions when the step size changes, here in the shortened last step. -/
theorem C27_mixed_solver_start_lags :
    ∃ (p : Params ℚ) (s : Hist ℚ ℚ), p.Good ∧ Reachable p s.clock ∧ Untouched s.clock ∧
      s.cur = s.clock.now ∧ s.old = s.clock.prev ∧ s.clock.atEnd = false ∧
      s.initLagged.cur ≠ s.initLagged.clock.now := by
  refine ⟨⟨.bdf2, 0, 5/2, 1, 1, 1⟩, ⟨2, 1, 0, (TS.ctor (⟨.bdf2, 0, 5/2, 1, 1, 1⟩ : Params ℚ)).next.next⟩,
    ⟨by norm_num, by norm_num, by norm_num, by norm_num⟩,
    ⟨[.advance, .advance], by simp [Cmd.Ok], by decide +kernel⟩, ?_, ?_, ?_, ?_, ?_⟩
  · unfold Untouched; decide +kernel
  all_goals decide +kernel

/-- Non-vacuity: three steps with a mesh transfer in between (values 5, 6, 7; transfer doubles). -/
example :
    let s := Hist.run (K := ℚ) (X := ℚ) .flow ⟨1, 0, 0, TS.ctor ⟨.bdf2, 0, 10, 1, 1, 1⟩⟩
      [.advance 5, .advance 6, .refine (2 * ·)]
    (s.init .flow).old = 12 ∧ (s.init .flow).oldOld = 10 ∧ (s.init .flow).cur = 14 := by decide +kernel

/-- Non-vacuity of the hypotheses of the affine theorems (third step). -/
example : ∃ (p : Params ℚ) (s : Hist ℚ ℚ), p.Good ∧ Reachable p s.clock ∧ 1 < s.clock.stepNo ∧
    s.clock.now ≠ s.clock.start ∧ Untouched s.clock ∧ s.cur = 3 + s.clock.now • (2 : ℚ) ∧
    s.old = 3 + s.clock.prev • (2 : ℚ) := by
  refine ⟨⟨.bdf2, 0, 5, 1, 1, 1⟩, ⟨7, 5, 0, (TS.ctor (⟨.bdf2, 0, 5, 1, 1, 1⟩ : Params ℚ)).next.next⟩,
    ⟨by norm_num, by norm_num, by norm_num, by norm_num⟩,
    ⟨[.advance, .advance], by simp [Cmd.Ok], by decide +kernel⟩, ?_, ?_, ?_, ?_, ?_⟩
  · decide +kernel
  · decide +kernel
  · unfold Untouched; decide +kernel
  · decide +kernel
  · decide +kernel

end Verif.Time
