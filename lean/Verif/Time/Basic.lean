import Verif.Time.Spec
import Mathlib.Tactic.Linarith
import Mathlib.Tactic.Positivity
import Mathlib.Tactic.FieldSimp
import Mathlib.Tactic.Ring
import Mathlib.Tactic.NormNum

/-! # Auxiliary lemmas about the `TimeStepping` model -/

set_option linter.unusedSectionVars false

namespace Verif.Time

variable {K : Type*} [Field K] [LinearOrder K] [IsStrictOrderedRing K]

/-- Inductive invariant of reachable states. -/
structure Inv (p : Params K) (t : TS K) : Prop where
  hstart : t.start = p.startTime
  hfinal : t.final = p.endTime
  hscheme : t.scheme = p.scheme
  hstartStep : t.startStep = p.stepStart
  hmax : t.maxStep = p.stepMax
  hmin : t.minStep = p.stepMin
  cur_pos : 0 < t.cur
  step_pos : 0 < t.step
  start_le : t.start ≤ t.now
  le_final : t.now ≤ t.final
  end_iff : t.atEnd = true ↔ t.now = t.final

theorem trial_pos {t : TS K} (hc : 0 < t.cur) (hs : 0 < t.step) (hm : 0 < t.maxStep) :
    0 < t.trial := by
  unfold TS.trial
  dsimp only
  split_ifs <;> assumption

theorem inv_ctor {p : Params K} (h : p.Good) : Inv p (TS.ctor p) where
  hstart := rfl
  hfinal := rfl
  hscheme := rfl
  hstartStep := rfl
  hmax := rfl
  hmin := rfl
  cur_pos := h.start
  step_pos := h.start
  start_le := le_refl _
  le_final := h.interval.le
  end_iff := by simp [TS.ctor, h.interval.ne]

theorem desired_pos {t : TS K} (hm : 0 < t.maxStep) (hn : 0 < t.minStep) (d : K) :
    0 < t.desiredValue d := by
  unfold TS.desiredValue
  exact lt_min hm (lt_max_of_lt_left hn)

theorem snaps_true {t : TS K} : t.snaps = true ↔
    t.atEnd = false ∧ t.final - 1 / 100 * t.trial < t.now + t.trial := by
  simp [TS.snaps]

theorem snaps_false {t : TS K} (he : t.atEnd = false) : t.snaps = false ↔
    t.now + t.trial ≤ t.final - 1 / 100 * t.trial := by
  simp [TS.snaps, he]

theorem inv_next {p : Params K} (hp : p.Good) {t : TS K} (h : Inv p t) (he : t.atEnd = false) :
    Inv p t.next := by
  have hlt : t.now < t.final := lt_of_le_of_ne h.le_final (fun hh => by
    have := h.end_iff.2 hh; simp [he] at this)
  have ht : 0 < t.trial := trial_pos h.cur_pos h.step_pos (by rw [h.hmax]; exact hp.max)
  have hsl := h.start_le
  rcases hsn : t.snaps with _ | _
  · have hb := (snaps_false he).1 hsn
    refine ⟨h.hstart, h.hfinal, h.hscheme, h.hstartStep, h.hmax, h.hmin, ?_, h.step_pos, ?_, ?_, ?_⟩
    · simpa [TS.next, hsn] using ht
    · simp only [TS.next, hsn]; simp; linarith
    · simp only [TS.next, hsn]; simp; linarith
    · simp only [TS.next, hsn, he]; simp; intro hh; linarith
  · refine ⟨h.hstart, h.hfinal, h.hscheme, h.hstartStep, h.hmax, h.hmin, ?_, h.step_pos, ?_, ?_, ?_⟩
    · simp [TS.next, hsn]; exact hlt
    · simp only [TS.next, hsn]; simp; linarith
    · simp [TS.next, hsn]
    · simp [TS.next, hsn]

theorem inv_desired {p : Params K} (hp : p.Good) {t : TS K} (h : Inv p t) (d : K) :
    Inv p (t.setDesired d) where
  hstart := h.hstart
  hfinal := h.hfinal
  hscheme := h.hscheme
  hstartStep := h.hstartStep
  hmax := h.hmax
  hmin := h.hmin
  cur_pos := desired_pos (by rw [h.hmax]; exact hp.max) (by rw [h.hmin]; exact hp.min) d
  step_pos := desired_pos (by rw [h.hmax]; exact hp.max) (by rw [h.hmin]; exact hp.min) d
  start_le := h.start_le
  le_final := h.le_final
  end_iff := h.end_iff

theorem inv_setStep {p : Params K} {t : TS K} (h : Inv p t) {v : K} (hv : 0 < v) :
    Inv p (t.setTimeStep v) where
  hstart := h.hstart
  hfinal := h.hfinal
  hscheme := h.hscheme
  hstartStep := h.hstartStep
  hmax := h.hmax
  hmin := h.hmin
  cur_pos := hv
  step_pos := hv
  start_le := h.start_le
  le_final := h.le_final
  end_iff := h.end_iff

theorem inv_restart {p : Params K} (hp : p.Good) (hn : p.NonDegenerate) {t : TS K} (h : Inv p t) :
    Inv p t.restart where
  hstart := h.hstart
  hfinal := h.hfinal
  hscheme := h.hscheme
  hstartStep := h.hstartStep
  hmax := h.hmax
  hmin := h.hmin
  cur_pos := by simp only [TS.restart]; rw [h.hstartStep]; exact hp.start
  step_pos := by simp only [TS.restart]; rw [h.hstartStep]; exact hp.start
  start_le := le_refl _
  le_final := by simp only [TS.restart]; rw [h.hstart, h.hfinal]; exact hp.interval.le
  end_iff := by
    have h1 := hp.interval.ne
    have h2 : ¬ (p.endTime - p.startTime) / p.stepStart < 1 / 10 ^ 14 := not_lt.2 hn
    simp only [TS.restart, h.hstart, h.hfinal, h.hstartStep, decide_eq_true_eq]
    constructor
    · intro hh; exact absurd hh h2
    · intro hh; exact absurd hh h1

theorem inv_run {p : Params K} (hp : p.Good) :
    ∀ (cs : List (Cmd K)) (t t' : TS K), Inv p t → (∀ c ∈ cs, c.Ok p) →
      runCmds t cs = some t' → Inv p t' := by
  intro cs
  induction cs with
  | nil => intro t t' h _ hr; simp [runCmds] at hr; exact hr ▸ h
  | cons c cs ih =>
    intro t t' h hok hr
    have hok' : ∀ c ∈ cs, c.Ok p := fun c hc => hok c (List.mem_cons_of_mem _ hc)
    simp only [runCmds, Option.bind_eq_some_iff] at hr
    obtain ⟨t1, h1, h2⟩ := hr
    refine ih t1 t' ?_ hok' h2
    cases c with
    | advance =>
      simp only [Cmd.exec, TS.nextChecked] at h1
      split_ifs at h1 with he
      simp only [Option.some.injEq] at h1
      exact h1 ▸ inv_next hp h (by simpa using he)
    | desired d => simp only [Cmd.exec, Option.some.injEq] at h1; exact h1 ▸ inv_desired hp h d
    | setStep v =>
      simp only [Cmd.exec, Option.some.injEq] at h1
      exact h1 ▸ inv_setStep h (hok (.setStep v) (by simp))
    | restart => simp only [Cmd.exec, Option.some.injEq] at h1; exact h1 ▸ inv_restart hp (hok .restart (by simp)) h

end Verif.Time
