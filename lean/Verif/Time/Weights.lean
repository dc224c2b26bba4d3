import Verif.Time.Stepping

/-! # C05, C06: differentiation and extrapolation weights -/

set_option linter.unusedSectionVars false

namespace Verif.Time

variable {K : Type*} [Field K] [LinearOrder K] [IsStrictOrderedRing K]

/-- The exact weight computed in `next()` (local `new_weight`). -/
def TS.exactWeight (t : TS K) : K :=
  let l := t.newLast
  let c := t.next.cur
  if t.scheme = .bdf2 ∧ t.now ≠ t.start then (2 * c + l) / (c * (c + l)) else 1 / c

theorem next_w (t : TS K) : t.next.w =
    if t.next.weightChanged then t.exactWeight else t.w := by
  simp only [TS.next, TS.exactWeight, decide_eq_true_eq]

theorem next_changed (t : TS K) : t.next.weightChanged =
    decide (1 / 10 ^ 12 < |t.exactWeight - t.w| / t.exactWeight) := by
  simp only [TS.next, TS.exactWeight, decide_eq_true_eq]

/-- The stored weight is exact if reported as changed and otherwise within `1e-12` relative of the
exact one. -/
theorem next_w_close (t : TS K) (hpos : 0 < t.exactWeight) :
    (t.next.weightChanged = true → t.next.w = t.exactWeight) ∧
    |t.next.w - t.exactWeight| ≤ 1 / 10 ^ 12 * t.exactWeight := by
  have h1 := next_w t
  have h2 := next_changed t
  rcases hc : t.next.weightChanged with _ | _
  · rw [hc] at h1 h2
    refine ⟨fun h => by simp at h, ?_⟩
    have h3 : ¬ (1 / 10 ^ 12 < |t.exactWeight - t.w| / t.exactWeight) := by
      intro h; exact absurd (decide_eq_true h) (by rw [← h2]; simp)
    rw [not_lt, div_le_iff₀ hpos] at h3
    have h4 : t.next.w = t.w := by simpa using h1
    rw [h4, abs_sub_comm]
    exact h3
  · rw [hc] at h1
    have h4 : t.next.w = t.exactWeight := by simpa using h1
    refine ⟨fun _ => h4, ?_⟩
    rw [h4, sub_self, abs_zero]
    positivity

/-- From closeness to the exact weight to closeness of the difference quotient, measured with the
weight the caller sees. -/
theorem close_transfer {w e u r : K} (he : 0 < e) (h : |w - e| ≤ 1 / 10 ^ 12 * e) :
    |(w * u + r) - (e * u + r)| ≤ 1 / 10 ^ 11 * w * |u| := by
  have h1 : (w * u + r) - (e * u + r) = (w - e) * u := by ring
  rw [h1, abs_mul]
  refine mul_le_mul_of_nonneg_right ?_ (abs_nonneg u)
  have h2 := (abs_le.1 h).1
  norm_num at h h2 ⊢
  linarith

/-- The step size has not been changed from outside since the last `next()`. -/
def Untouched (t : TS K) : Prop := t.cur = t.now - t.prev

theorem next_untouched (t : TS K) : Untouched t.next := by
  unfold Untouched
  rcases hs : t.snaps with _ | _ <;> simp [TS.next, hs]

/-- **C05 (two-step weights).** If the step was not changed from outside since the last `next()`,
then in every `bdf_2` step but the first the three weights differentiate every quadratic polynomial
at the new time, using its values at the new time and the two previous ones — exactly if
`weight_has_changed()`, else up to the documented staleness tolerance of `weight()`. -/
theorem C05_bdf2_exact (p : Params K) (hp : p.Good) (t : TS K) (h : Reachable p t)
    (he : t.atEnd = false) (hs : t.scheme = .bdf2) (hn : t.now ≠ t.start) (hu : Untouched t)
    (a b c : K) :
    |(t.next.w * quad a b c t.next.now + t.next.wOld * quad a b c t.next.prev
        + t.next.wOldOld * quad a b c t.prev) - quadDeriv b c t.next.now|
      ≤ 1 / 10 ^ 11 * t.next.w * |quad a b c t.next.now| ∧
    (t.next.weightChanged = true →
      t.next.w * quad a b c t.next.now + t.next.wOld * quad a b c t.next.prev
        + t.next.wOldOld * quad a b c t.prev = quadDeriv b c t.next.now) := by
  obtain ⟨-, hadv, hprev, -, hcur⟩ := C02_next_advances p hp t h he
  have i := reachable_inv hp h
  have hl : t.newLast = t.cur := by simp [TS.newLast, hn]
  set C := t.next.cur with hC
  have hCpos : 0 < C := by rw [hcur, hprev]; linarith
  have hLpos : 0 < t.cur := i.cur_pos
  have hex : t.exactWeight = (2 * C + t.cur) / (C * (C + t.cur)) := by
    simp [TS.exactWeight, hs, hn, hl, hC]
  have hexpos : 0 < t.exactWeight := by rw [hex]; positivity
  have ho : t.next.wOld = -((C + t.cur) / (C * t.cur)) := by
    rw [hC]; simp [TS.next, hs, hn, hl]
  have hoo : t.next.wOldOld = C / (t.cur * (C + t.cur)) := by
    rw [hC]; simp [TS.next, hs, hn, hl]
  have e1 : t.next.now = t.prev + t.cur + C := by
    rw [hcur, hprev, hu]; ring
  have e2 : t.next.prev = t.prev + t.cur := by rw [hprev, hu]; ring
  have hid : t.exactWeight * quad a b c t.next.now + t.next.wOld * quad a b c t.next.prev
        + t.next.wOldOld * quad a b c t.prev = quadDeriv b c t.next.now := by
    rw [hex, ho, hoo, e1, e2]
    have h1 := hCpos.ne'
    have h2 := hLpos.ne'
    have h3 : C + t.cur ≠ 0 := by positivity
    simp only [quad, quadDeriv]
    field_simp
    ring
  obtain ⟨hch, hcl⟩ := next_w_close t hexpos
  constructor
  · rw [← hid]
    have := close_transfer (u := quad a b c t.next.now)
      (r := t.next.wOld * quad a b c t.next.prev + t.next.wOldOld * quad a b c t.prev) hexpos hcl
    simpa [add_assoc] using this
  · intro hc; rw [hch hc]; exact hid

/-- **C05 (one-step weights).** In every step of the one-step schemes, and in the first `bdf_2`
step, `weight()` and `weight_old()` differentiate every affine function (no condition on how the
step size was set). -/
theorem C05_one_step_exact (p : Params K) (hp : p.Good) (t : TS K) (h : Reachable p t)
    (he : t.atEnd = false) (hs : t.scheme ≠ .bdf2 ∨ t.now = t.start) (a b : K) :
    |(t.next.w * quad a b 0 t.next.now + t.next.wOld * quad a b 0 t.next.prev) - b|
      ≤ 1 / 10 ^ 11 * t.next.w * |quad a b 0 t.next.now| ∧
    (t.next.weightChanged = true →
      t.next.w * quad a b 0 t.next.now + t.next.wOld * quad a b 0 t.next.prev = b) := by
  obtain ⟨-, hadv, hprev, -, hcur⟩ := C02_next_advances p hp t h he
  set C := t.next.cur with hC
  have hCpos : 0 < C := by rw [hcur, hprev]; linarith
  have hcond : ¬ (t.scheme = .bdf2 ∧ t.now ≠ t.start) := by
    rintro ⟨h1, h2⟩; rcases hs with hs | hs
    · exact hs h1
    · exact h2 hs
  have hex : t.exactWeight = 1 / C := by
    unfold TS.exactWeight; simp only [hcond, if_false, hC]
  have hexpos : 0 < t.exactWeight := by rw [hex]; positivity
  have ho : t.next.wOld = -1 / C := by
    rw [hC]; simp only [TS.next, hcond, decide_false]; simp
  have e1 : t.next.now = t.next.prev + C := by rw [hcur]; ring
  have hid : t.exactWeight * quad a b 0 t.next.now + t.next.wOld * quad a b 0 t.next.prev = b := by
    rw [hex, ho, e1]
    simp only [quad]
    field_simp
    ring
  obtain ⟨hch, hcl⟩ := next_w_close t hexpos
  constructor
  · have := close_transfer (u := quad a b 0 t.next.now)
      (r := t.next.wOld * quad a b 0 t.next.prev) hexpos hcl
    rwa [hid] at this
  · intro hc; rw [hch hc]; exact hid

/-- The driver loop without step requests only visits states whose step was not touched. -/
theorem nexts_untouched (t : TS K) (n : ℕ) (hn : 0 < n) : Untouched (nexts t n) := by
  obtain ⟨m, rfl⟩ : ∃ m, n = m + 1 := ⟨n - 1, by omega⟩
  unfold nexts
  rw [Function.iterate_succ_apply']
  exact next_untouched _

theorem nexts_succ (t : TS K) (n : ℕ) : nexts t (n + 1) = (nexts t n).next := by
  unfold nexts; rw [Function.iterate_succ_apply']

theorem nexts_reachable {p : Params K} (n : ℕ)
    (he : ∀ k < n, (nexts (TS.ctor p) k).atEnd = false) :
    Reachable p (nexts (TS.ctor p) n) := by
  induction n with
  | zero => exact ⟨[], by simp, rfl⟩
  | succ n ih =>
    rw [nexts_succ]
    exact (ih fun k hk => he k (by omega)).next (he n (by omega))

theorem nexts_scheme {p : Params K} (n : ℕ) : (nexts (TS.ctor p) n).scheme = p.scheme := by
  induction n with
  | zero => rfl
  | succ n ih => rw [nexts_succ]; exact ih

theorem nexts_start {p : Params K} (n : ℕ) : (nexts (TS.ctor p) n).start = p.startTime := by
  induction n with
  | zero => rfl
  | succ n ih => rw [nexts_succ]; exact ih

theorem nexts_stepNo {p : Params K} (n : ℕ) : (nexts (TS.ctor p) n).stepNo = n := by
  induction n with
  | zero => rfl
  | succ n ih => rw [nexts_succ]; show _ + 1 = _; rw [ih]

theorem nexts_now_gt {p : Params K} (hp : p.Good) (n : ℕ) (hn : 0 < n)
    (he : ∀ k < n, (nexts (TS.ctor p) k).atEnd = false) :
    p.startTime < (nexts (TS.ctor p) n).now := by
  obtain ⟨m, rfl⟩ : ∃ m, n = m + 1 := ⟨n - 1, by omega⟩
  have hr := nexts_reachable (p := p) m (fun k hk => he k (by omega))
  have h1 := C02_next_advances p hp _ hr (he m (by omega))
  have h2 := (C01_time_never_passes_final p hp _ hr).1
  rw [nexts_succ]
  linarith [h1.2.1]

/-- **C05 (whole run).** In a run driven by `next()` alone with `bdf_2`, at every step from the
second on (also the adjusted last one) the weights differentiate quadratics through the last three
visited times. -/
theorem C05_bdf2_run (p : Params K) (hp : p.Good) (hs : p.scheme = .bdf2) (n : ℕ)
    (he : ∀ k < n + 2, (nexts (TS.ctor p) k).atEnd = false) (a b c : K) :
    let t := nexts (TS.ctor p)
    |((t (n + 2)).w * quad a b c (t (n + 2)).now + (t (n + 2)).wOld * quad a b c (t (n + 1)).now
        + (t (n + 2)).wOldOld * quad a b c (t n).now) - quadDeriv b c (t (n + 2)).now|
      ≤ 1 / 10 ^ 11 * (t (n + 2)).w * |quad a b c (t (n + 2)).now| := by
  intro t
  have hr := nexts_reachable (p := p) (n + 1) (fun k hk => he k (by omega))
  have hgt := nexts_now_gt hp (n + 1) (by omega) (fun k hk => he k (by omega))
  have key := (C05_bdf2_exact p hp _ hr (he (n + 1) (by omega)) ((nexts_scheme _).trans hs)
    (by rw [nexts_start]; exact hgt.ne') (nexts_untouched _ _ (by omega)) a b c).1
  have e2 : (nexts (TS.ctor p) (n + 1)).prev = (nexts (TS.ctor p) n).now := by
    rw [nexts_succ]; rfl
  have e1 : (nexts (TS.ctor p) (n + 1)).next = nexts (TS.ctor p) (n + 2) := (nexts_succ _ _).symm
  have e3 : (nexts (TS.ctor p) (n + 2)).prev = (nexts (TS.ctor p) (n + 1)).now := by
    rw [nexts_succ]; rfl
  rw [e2, e1, e3] at key
  exact key

/-! ### C06 -/

/-- **C06 (constants).** After any `next()` on a reachable state before the end, `extrapolate`
reproduces constants. -/
theorem C06_extrapolate_constant (p : Params K) (hp : p.Good) (t : TS K) (h : Reachable p t)
    (hn : t.now ≠ t.start ∨ t.stepNo ≤ 1) (v : K) : t.next.extrapolate v v = v := by
  have i := reachable_inv hp h
  have hL := i.cur_pos.ne'
  simp only [TS.extrapolate, TS.next]
  by_cases h1 : 1 < t.stepNo
  · simp only [h1, if_true]
    have hl : t.newLast = t.cur := by
      unfold TS.newLast; rw [if_pos (hn.resolve_right (by omega))]
    rw [hl]
    field_simp
    ring
  · simp only [h1, if_false]; ring

/-- **C06 (first two steps).** In the first two steps `extrapolate` returns the old value. -/
theorem C06_extrapolate_first_steps (t : TS K) (h1 : t.stepNo ≤ 1) (v v' : K) :
    t.next.extrapolate v v' = v := by
  simp [TS.extrapolate, TS.next, show ¬ 1 < t.stepNo by omega]

/-- **C06 (affine).** From the third step on, if the step was not changed from outside since the
last `next()`, `extrapolate` is exact for functions affine in time. -/
theorem C06_extrapolate_affine (p : Params K) (hp : p.Good) (t : TS K) (h : Reachable p t)
    (h1 : 1 < t.stepNo) (hn : t.now ≠ t.start) (hu : Untouched t) (a b : K) :
    t.next.extrapolate (quad a b 0 t.next.prev) (quad a b 0 t.prev) = quad a b 0 t.next.now := by
  have i := reachable_inv hp h
  have hL := i.cur_pos.ne'
  have hl : t.newLast = t.cur := by simp [TS.newLast, hn]
  have hcur : t.next.cur = t.next.now - t.next.prev := next_untouched t
  have hp' : t.next.prev = t.now := rfl
  have e1 : t.next.now = t.prev + t.cur + t.next.cur := by rw [hcur, hp', hu]; ring
  have e2 : t.next.prev = t.prev + t.cur := by rw [hp', hu]; ring
  have f1 : t.next.fOld = (t.next.cur + t.cur) / t.cur := by simp [TS.next, h1, hl]
  have f2 : t.next.fOldOld = -t.next.cur / t.cur := by simp [TS.next, h1, hl]
  rw [e1, e2]
  simp only [TS.extrapolate, f1, f2, quad]
  field_simp
  ring

/-! ### The step changed from outside: `old_step_size()` is wrong

The documentation of `last_step_val` (time_stepping.h:160-162) says it is the previous time
increment. -/

/-- Parameters used in examples: interval [0,10], start step 1, steps between 1/100 and 100. -/
def exParams (s : Scheme) : Params ℚ where
  scheme := s
  startTime := 0
  endTime := 10
  stepStart := 1
  stepMax := 100
  stepMin := 1 / 100

theorem exParams_good (s : Scheme) : (exParams s).Good := by
  constructor <;> simp [exParams]

/-- **C05/C06 counterexample.** After one step of size 1, requesting a step of size 2 and advancing
makes `old_step_size()` report 2 although the previous increment was 1, and the weights of `bdf_2`
then do not even differentiate affine functions: applied to `u(τ)=τ` they give `5/4 ≠ 1`. -/
theorem C05_changed_step_breaks_weights :
    ∃ cs : List (Cmd ℚ), ∃ t : TS ℚ, (∀ c ∈ cs, c.Ok (exParams .bdf2)) ∧
      runCmds (TS.ctor (exParams .bdf2)) cs = some t ∧
      t.prev - (exParams .bdf2).startTime = 1 ∧ t.last = 2 ∧
      t.weightChanged = true ∧
      t.w * quad 0 1 0 t.now + t.wOld * quad 0 1 0 t.prev
        + t.wOldOld * quad 0 1 0 (exParams .bdf2).startTime ≠ quadDeriv 1 0 t.now := by
  refine ⟨[.advance, .desired 2, .advance], ((TS.ctor (exParams .bdf2)).next.setDesired 2).next,
    ?_, ?_, ?_, ?_, ?_, ?_⟩
  · intro c hc; simp at hc; rcases hc with rfl | rfl | rfl <;> trivial
  all_goals decide +kernel

/-- **C01, release mode.** Without the debug assertion `next()` called at the end
runs past the final time. -/
theorem C01_release_mode_overrun :
    ∃ t : TS ℚ, Reachable (exParams .bdf2) t ∧ t.nextChecked = none ∧ t.final < t.next.now := by
  refine ⟨nexts (TS.ctor (exParams .bdf2)) 10, nexts_reachable 10 ?_, ?_, ?_⟩
  · decide +kernel
  · have : (nexts (TS.ctor (exParams .bdf2)) 10).atEnd = true := by decide +kernel
    simp [TS.nextChecked, this]
  · decide +kernel

/-! ### Non-vacuity -/

/-- Hypotheses of `C01`–`C06` are met, e.g. by the state after three steps of [0,10]. -/
example : (exParams .bdf2).Good ∧ (exParams .bdf2).NonDegenerate ∧
    Reachable (exParams .bdf2) (nexts (TS.ctor (exParams .bdf2)) 3) ∧
    (nexts (TS.ctor (exParams .bdf2)) 3).atEnd = false ∧
    (nexts (TS.ctor (exParams .bdf2)) 3).now ≠ (nexts (TS.ctor (exParams .bdf2)) 3).start ∧
    1 < (nexts (TS.ctor (exParams .bdf2)) 3).stepNo ∧
    (nexts (TS.ctor (exParams .bdf2)) 3).next.atEnd = false := by
  refine ⟨exParams_good _, ?_, nexts_reachable 3 (by decide +kernel), by decide +kernel,
    by decide +kernel, by decide +kernel, by decide +kernel⟩
  unfold Params.NonDegenerate exParams; norm_num

/-- A history with requests: steps 1, 2, 1 and the snapped last one. -/
example : ∃ t, runCmds (TS.ctor (exParams .bdf2))
    [.advance, .desired 2, .advance, .setStep 7, .advance] = some t ∧ t.atEnd = true ∧ t.now = 10 :=
  ⟨(((TS.ctor (exParams .bdf2)).next.setDesired 2).next.setTimeStep 7).next,
    by decide +kernel, by decide +kernel, by decide +kernel⟩

/-- C04 (f): the situation with a last step after a non-final one, 1% bound nearly attained. -/
example : let t := nexts (TS.ctor (exParams .implicitEuler)) 8
    t.next.atEnd = false ∧ ({ t.next with cur := 5, step := 5 } : TS ℚ).next.atEnd = true := by
  decide +kernel

end Verif.Time
