import Verif.Time.Basic
import Mathlib.Algebra.Order.Floor.Semiring

/-! # C01–C04: final time, progress, termination, step-size limits -/

set_option linter.unusedSectionVars false

namespace Verif.Time

variable {K : Type*} [Field K] [LinearOrder K] [IsStrictOrderedRing K]

theorem reachable_inv {p : Params K} (hp : p.Good) {t : TS K} (h : Reachable p t) : Inv p t := by
  obtain ⟨cs, hok, hr⟩ := h
  exact inv_run hp cs _ _ (inv_ctor hp) hok hr

/-- **C01.** Whatever the history of admissible calls, the time never exceeds the end time, and
`at_end()` holds exactly if the end time is reached. -/
theorem C01_time_never_passes_final (p : Params K) (hp : p.Good) (t : TS K) (h : Reachable p t) :
    p.startTime ≤ t.now ∧ t.now ≤ p.endTime ∧ t.final = p.endTime ∧
      (t.atEnd = true ↔ t.now = p.endTime) := by
  have i := reachable_inv hp h
  refine ⟨i.hstart ▸ i.start_le, i.hfinal ▸ i.le_final, i.hfinal, ?_⟩
  rw [← i.hfinal]; exact i.end_iff

/-- **C02.** Each `next()` before the end advances the time strictly; `previous()`, `step_no()` and
`step_size()` describe exactly this advance. -/
theorem C02_next_advances (p : Params K) (hp : p.Good) (t : TS K) (h : Reachable p t)
    (he : t.atEnd = false) :
    t.nextChecked = some t.next ∧
    t.now < t.next.now ∧ t.next.prev = t.now ∧ t.next.stepNo = t.stepNo + 1 ∧
      t.next.cur = t.next.now - t.next.prev := by
  have i := reachable_inv hp h
  have ht : 0 < t.trial := trial_pos i.cur_pos i.step_pos (by rw [i.hmax]; exact hp.max)
  have hlt : t.now < t.final := lt_of_le_of_ne i.le_final (fun hh => by
    have := i.end_iff.2 hh; simp [he] at this)
  refine ⟨by simp [TS.nextChecked, he], ?_, rfl, rfl, ?_⟩
  · rcases hs : t.snaps with _ | _
    · simp [TS.next, hs, ht]
    · simp [TS.next, hs, hlt]
  · rcases hs : t.snaps with _ | _ <;> simp [TS.next, hs]

/-- Reachability is preserved by `next()` before the end. -/
theorem Reachable.next {p : Params K} {t : TS K} (h : Reachable p t) (he : t.atEnd = false) :
    Reachable p t.next := by
  obtain ⟨cs, hok, hr⟩ := h
  refine ⟨cs ++ [.advance], ?_, ?_⟩
  · intro c hc
    rcases List.mem_append.1 hc with hc | hc
    · exact hok c hc
    · simp at hc; subst hc; trivial
  · have : ∀ (cs : List (Cmd K)) (t0 t : TS K), runCmds t0 cs = some t → t.atEnd = false →
        runCmds t0 (cs ++ [.advance]) = some t.next := by
      intro cs
      induction cs with
      | nil =>
        intro t0 t h he
        simp [runCmds] at h
        subst h
        simp [runCmds, Cmd.exec, TS.nextChecked, he]
      | cons c cs ih =>
        intro t0 t h he
        simp only [runCmds, Option.bind_eq_some_iff, List.cons_append] at h ⊢
        obtain ⟨a, h1, h2⟩ := h
        exact ⟨a, h1, ih a t h2 he⟩
    exact this cs _ _ hr he

/-! ### C03 -/

/-- Strengthened invariant: all step sizes stay above `m`. -/
structure InvM (p : Params K) (m : K) (t : TS K) : Prop extends Inv p t where
  cur_ge : t.atEnd = false → m ≤ t.cur
  step_ge : m ≤ t.step

theorem invM_ctor {p : Params K} (hp : p.Good) {m : K} (h1 : m ≤ p.stepStart) :
    InvM p m (TS.ctor p) :=
  { inv_ctor hp with cur_ge := fun _ => h1, step_ge := h1 }

theorem desired_ge {t : TS K} {m d : K} (h2 : m ≤ t.maxStep) (h3 : m ≤ t.minStep) :
    m ≤ t.desiredValue d := by
  unfold TS.desiredValue
  exact le_min h2 (le_max_of_le_left h3)

theorem invM_desired {p : Params K} (hp : p.Good) {m : K} {t : TS K} (h : InvM p m t)
    (h2 : m ≤ p.stepMax) (h3 : m ≤ p.stepMin) (d : K) : InvM p m (t.setDesired d) :=
  { inv_desired hp h.toInv d with
    cur_ge := fun _ => desired_ge (by rw [h.hmax]; exact h2) (by rw [h.hmin]; exact h3)
    step_ge := desired_ge (by rw [h.hmax]; exact h2) (by rw [h.hmin]; exact h3) }

theorem trial_ge {p : Params K} {m : K} {t : TS K} (h : InvM p m t) (he : t.atEnd = false)
    (h2 : m ≤ p.stepMax) : m ≤ t.trial := by
  have := h.cur_ge he
  have := h.step_ge
  have := h.hmax ▸ h2
  unfold TS.trial
  dsimp only
  split_ifs <;> assumption

theorem invM_next {p : Params K} (hp : p.Good) {m : K} {t : TS K} (h : InvM p m t)
    (he : t.atEnd = false) (h2 : m ≤ p.stepMax) :
    InvM p m t.next ∧ (t.next.atEnd = true ∨ t.now + m ≤ t.next.now) := by
  have ht := trial_ge h he h2
  have i := inv_next hp h.toInv he
  rcases hs : t.snaps with _ | _
  · exact ⟨{ i with cur_ge := fun _ => by simpa [TS.next, hs] using ht, step_ge := h.step_ge },
      Or.inr (by simp [TS.next, hs, ht])⟩
  · exact ⟨{ i with cur_ge := fun hh => by simp [TS.next, hs] at hh, step_ge := h.step_ge },
      Or.inl (by simp [TS.next, hs])⟩

theorem driverLoop_inv {p : Params K} (hp : p.Good) (d : ℕ → Option K) {m : K}
    (h1 : m ≤ p.stepStart) (h2 : m ≤ p.stepMax) (h3 : m ≤ p.stepMin) :
    ∀ n, InvM p m (driverLoop (TS.ctor p) d n) ∧
      ((driverLoop (TS.ctor p) d n).atEnd = true ∨
        p.startTime + n * m ≤ (driverLoop (TS.ctor p) d n).now) := by
  intro n
  induction n with
  | zero => exact ⟨invM_ctor hp h1, Or.inr (by simp [driverLoop, TS.ctor])⟩
  | succ n ih =>
    obtain ⟨i, hn⟩ := ih
    simp only [driverLoop]
    rcases he : (driverLoop (TS.ctor p) d n).atEnd with _ | _
    · simp only [Bool.false_eq_true, if_false]
      have hn' := hn.resolve_left (by simp [he])
      rcases hd : d n with _ | x
      · obtain ⟨a, b⟩ := invM_next hp i he h2
        refine ⟨a, b.imp id fun hb => ?_⟩
        push_cast; linarith
      · obtain ⟨a, b⟩ := invM_next hp (invM_desired hp i h2 h3 x) he h2
        refine ⟨a, b.imp id fun hb => ?_⟩
        have : ((driverLoop (TS.ctor p) d n).setDesired x).now = (driverLoop (TS.ctor p) d n).now :=
          rfl
        rw [this] at hb
        push_cast; linarith
    · simp only [if_true]
      exact ⟨i, Or.inl he⟩

/-- **C03.** For every sequence of step requests, the driver loop ends after at most
`⌊(end-start)/m⌋+1` calls of `next()`, where `m` is the smallest of the three configured step
sizes, and it ends exactly at the end time. -/
theorem C03_driver_loop_terminates [FloorSemiring K] (p : Params K) (hp : p.Good)
    (d : ℕ → Option K) (m : K) (hm : m = min p.stepStart (min p.stepMax p.stepMin)) :
    ∃ N, N ≤ ⌊(p.endTime - p.startTime) / m⌋₊ + 1 ∧
      (driverLoop (TS.ctor p) d N).atEnd = true ∧
      (driverLoop (TS.ctor p) d N).now = p.endTime := by
  have hmp : 0 < m := by rw [hm]; exact lt_min hp.start (lt_min hp.max hp.min)
  have h1 : m ≤ p.stepStart := by rw [hm]; exact min_le_left _ _
  have h2 : m ≤ p.stepMax := by rw [hm]; exact (min_le_right _ _).trans (min_le_left _ _)
  have h3 : m ≤ p.stepMin := by rw [hm]; exact (min_le_right _ _).trans (min_le_right _ _)
  set N := ⌊(p.endTime - p.startTime) / m⌋₊ + 1 with hN
  obtain ⟨i, hcase⟩ := driverLoop_inv hp d h1 h2 h3 N
  refine ⟨N, le_refl _, ?_⟩
  have hend : (driverLoop (TS.ctor p) d N).atEnd = true := by
    rcases hcase with h | h
    · exact h
    · exfalso
      have hlt : (p.endTime - p.startTime) / m < N := by
        rw [hN]; push_cast; exact Nat.lt_floor_add_one _
      rw [div_lt_iff₀ hmp] at hlt
      have := i.le_final
      rw [i.hfinal] at this
      linarith
  exact ⟨hend, by rw [← i.hfinal]; exact i.end_iff.1 hend⟩

/-! ### C04 -/

/-- **C04 (a).** A requested step is forced into `[min,max]`. -/
theorem C04_desired_in_range (t : TS K) (d : K) (h : t.minStep ≤ t.maxStep) :
    t.minStep ≤ (t.setDesired d).cur ∧ (t.setDesired d).cur ≤ t.maxStep := by
  constructor
  · exact le_min h (le_max_left _ _)
  · exact min_le_left _ _

/-- **C04 (b).** If the current step is itself within the limits, a request changes it by at most a
factor of two in either direction (after the first step, i.e. `now() ≠ 0`). -/
theorem C04_desired_factor_two (t : TS K) (d : K) (hnow : t.now ≠ 0) (hpos : 0 < t.cur)
    (h1 : t.minStep ≤ t.cur) (h2 : t.cur ≤ t.maxStep) :
    t.cur / 2 ≤ (t.setDesired d).cur ∧ (t.setDesired d).cur ≤ 2 * t.cur := by
  simp only [TS.setDesired, TS.desiredValue, hnow, if_false]
  constructor
  · refine le_min (by linarith) (le_max_of_le_right (le_min (by linarith) (le_max_of_le_right ?_)))
    linarith
  · refine (min_le_right _ _).trans (max_le (by linarith) (min_le_left _ _))

/-- **C04 (c).** A request that satisfies all limits is granted exactly (in the state `now() = 0`,
every positive request within `[min,max]` is). -/
theorem C04_desired_granted (t : TS K) (d : K) (h1 : t.minStep ≤ d) (h2 : d ≤ t.maxStep)
    (h : (t.now = 0 ∧ 0 ≤ d) ∨ (t.cur / 2 ≤ d ∧ d ≤ 2 * t.cur)) : (t.setDesired d).cur = d := by
  have key : ∀ q : K, q / 2 ≤ d → d ≤ 2 * q →
      min t.maxStep (max t.minStep (min (2 * q) (max d (1 / 2 * q)))) = d := by
    intro q ha hb
    have e1 : max d (1 / 2 * q) = d := max_eq_left (by linarith)
    rw [e1, min_eq_right hb, max_eq_right h1, min_eq_right h2]
  simp only [TS.setDesired, TS.desiredValue]
  by_cases hn : t.now = 0
  · rw [if_pos hn]
    have hd : 0 ≤ d := by
      rcases h with ⟨_, hd⟩ | ⟨ha, hb⟩
      · exact hd
      · linarith
    exact key d (by linarith) (by linarith)
  · rw [if_neg hn]
    rcases h with ⟨h0, _⟩ | ⟨ha, hb⟩
    · exact absurd h0 hn
    · exact key _ ha hb

theorem trial_setDesired (t : TS K) (d : K) : (t.setDesired d).trial = t.desiredValue d := by
  have hle : t.desiredValue d ≤ t.maxStep := min_le_left _ _
  unfold TS.trial TS.setDesired
  dsimp only
  rw [ite_self, if_neg (not_lt.2 hle), ite_self]

/-- **C04 (d).** The step taken by `next()` right after a request: it is the granted step, except
that the last step is adjusted to hit the end time, by at most 1% upwards. -/
theorem C04_step_taken (p : Params K) (hp : p.Good) (t : TS K) (h : Reachable p t)
    (he : t.atEnd = false) (d : K) :
    (t.setDesired d).next.cur ≤ 101 / 100 * (t.setDesired d).cur ∧
    ((t.setDesired d).next.atEnd = false → (t.setDesired d).next.cur = (t.setDesired d).cur) := by
  have i := inv_desired hp (reachable_inv hp h) d
  have he' : (t.setDesired d).atEnd = false := he
  have ht := trial_setDesired t d
  have hc : (t.setDesired d).cur = t.desiredValue d := rfl
  have hpos := i.cur_pos
  rcases hs : (t.setDesired d).snaps with _ | _
  · have e1 : (t.setDesired d).next.cur = t.desiredValue d := by
      simp only [TS.next, hs]; simpa using ht
    have e2 : (t.setDesired d).next.atEnd = false := by simp [TS.next, hs, he']
    rw [e1, hc]
    rw [hc] at hpos
    exact ⟨by linarith, fun _ => rfl⟩
  · have e1 : (t.setDesired d).next.cur = (t.setDesired d).final - (t.setDesired d).now := by
      simp [TS.next, hs]
    have e2 : (t.setDesired d).next.atEnd = true := by simp [TS.next, hs]
    have := (snaps_true.1 hs).2
    rw [ht] at this
    rw [e1, e2, hc]
    exact ⟨by linarith, fun hh => by simp at hh⟩

/-- **C04 (e).** Every step but the first is at most 1.01 times the maximal step. -/
theorem C04_step_le_max (p : Params K) (hp : p.Good) (t : TS K) (h : Reachable p t)
    (hn : t.now ≠ t.start) : t.next.cur ≤ 101 / 100 * p.stepMax := by
  have i := reachable_inv hp h
  have hm : t.trial ≤ t.maxStep := by
    unfold TS.trial
    simp only [hn, ne_eq, not_false_eq_true, if_true]
    split_ifs <;> first | exact le_refl _ | exact not_lt.1 ‹_›
  have hmp := hp.max
  rw [i.hmax] at hm
  rcases hs : t.snaps with _ | _
  · simp only [TS.next, hs]; simp; linarith
  · have := (snaps_true.1 hs).2
    simp only [TS.next, hs]; simp; linarith

/-- **C04 (f).** The end-of-interval adjustment never produces a tiny last step: if a step from `t`
does not reach the end, then whatever step size is requested next, a final step is at least 1% of
the step before it. -/
theorem C04_last_step_not_tiny (p : Params K) (hp : p.Good) (t : TS K) (h : Reachable p t)
    (he : t.atEnd = false) (hne : t.next.atEnd = false) (a b : K)
    (hlast : ({ t.next with cur := a, step := b } : TS K).next.atEnd = true) :
    t.next.cur / 100 ≤ ({ t.next with cur := a, step := b } : TS K).next.cur := by
  have i := reachable_inv hp h
  rcases hs : t.snaps with _ | _
  · have hb := (snaps_false he).1 hs
    have e1 : t.next.cur = t.trial := by simp [TS.next, hs]
    have e2 : t.next.now = t.now + t.trial := by simp [TS.next, hs]
    have e3 : t.next.final = t.final := rfl
    set t2 : TS K := { t.next with cur := a, step := b } with ht2
    rcases hs2 : t2.snaps with _ | _
    · exfalso
      have : t2.next.atEnd = false := by
        have : t2.atEnd = false := hne
        simp [TS.next, hs2, this]
      rw [this] at hlast; simp at hlast
    · have e4 : t2.next.cur = t.final - (t.now + t.trial) := by
        have : t2.next.cur = t2.final - t2.now := by simp [TS.next, hs2]
        rw [this]; show t.next.final - t.next.now = _; rw [e2, e3]
      rw [e4, e1]; linarith
  · exfalso; simp [TS.next, hs] at hne

end Verif.Time
