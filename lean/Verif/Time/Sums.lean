import Verif.Time.Weights

/-! # The derivative weights annihilate constants, for every history -/

set_option linter.unusedSectionVars false

namespace Verif.Time

variable {K : Type*} [Field K] [LinearOrder K] [IsStrictOrderedRing K]

theorem stepNo_run {p : Params K} (hp : p.Good) :
    ∀ (cs : List (Cmd K)) (t t' : TS K), Inv p t → (t.stepNo = 0 ↔ t.now = t.start) →
      (∀ c ∈ cs, c.Ok p) → runCmds t cs = some t' → (t'.stepNo = 0 ↔ t'.now = t'.start) := by
  intro cs
  induction cs with
  | nil => intro t t' _ h _ hr; simp [runCmds] at hr; exact hr ▸ h
  | cons c cs ih =>
    intro t t' hi h hok hr
    have hok' : ∀ c ∈ cs, c.Ok p := fun c hc => hok c (List.mem_cons_of_mem _ hc)
    simp only [runCmds, Option.bind_eq_some_iff] at hr
    obtain ⟨t1, h1, h2⟩ := hr
    have hi1 : Inv p t1 := inv_run hp [c] t t1 hi
      (fun d hd => by rw [List.mem_singleton.1 hd]; exact hok c (by simp))
      (by simp [runCmds, h1])
    refine ih t1 t' hi1 ?_ hok' h2
    cases c with
    | advance =>
      simp only [Cmd.exec, TS.nextChecked] at h1
      split_ifs at h1 with he
      simp only [Option.some.injEq] at h1
      have he' : t.atEnd = false := by simpa using he
      have hlt : t.now < t.final := lt_of_le_of_ne hi.le_final (fun hh => by
        have := hi.end_iff.2 hh; simp [he'] at this)
      have ht : 0 < t.trial := trial_pos hi.cur_pos hi.step_pos (by rw [hi.hmax]; exact hp.max)
      have hsl := hi.start_le
      subst h1
      constructor
      · intro hh; simp [TS.next] at hh
      · intro hh
        exfalso
        rcases hs : t.snaps with _ | _ <;> simp [TS.next, hs] at hh <;> linarith
    | desired d => simp only [Cmd.exec, Option.some.injEq] at h1; exact h1 ▸ h
    | setStep v => simp only [Cmd.exec, Option.some.injEq] at h1; exact h1 ▸ h
    | restart =>
      simp only [Cmd.exec, Option.some.injEq] at h1
      subst h1; simp [TS.restart]

/-- In every reachable state the step number is zero exactly at the start time. -/
theorem stepNo_zero_iff {p : Params K} (hp : p.Good) {t : TS K} (h : Reachable p t) :
    t.stepNo = 0 ↔ t.now = t.start := by
  obtain ⟨cs, hok, hr⟩ := h
  exact stepNo_run hp cs _ _ (inv_ctor hp) (by simp [TS.ctor]) hok hr

theorem exactWeight_pos {p : Params K} (hp : p.Good) {t : TS K} (h : Reachable p t)
    (he : t.atEnd = false) : 0 < t.exactWeight := by
  obtain ⟨-, hadv, hprev, -, hcur⟩ := C02_next_advances p hp t h he
  have hC : 0 < t.next.cur := by rw [hcur, hprev]; linarith
  have i := reachable_inv hp h
  unfold TS.exactWeight
  dsimp only
  split_ifs with hc
  · have : t.newLast = t.cur := by simp [TS.newLast, hc.2]
    rw [this]
    have := i.cur_pos
    positivity
  · positivity

/-- **C05 (constants).** In every reachable state and after every history of step size changes
(including those for which the weights do not differentiate affine functions), the exact weights of
the next step sum to zero; `weight()` itself deviates from the exact weight by at most the relative
staleness tolerance `1e-12`. -/
theorem C05_weights_sum_zero (p : Params K) (hp : p.Good) (t : TS K) (h : Reachable p t)
    (he : t.atEnd = false) :
    t.exactWeight + t.next.wOld
      + (if t.scheme = .bdf2 ∧ 1 < t.next.stepNo then t.next.wOldOld else 0) = 0 ∧
    0 < t.exactWeight ∧ |t.next.w - t.exactWeight| ≤ 1 / 10 ^ 12 * t.exactWeight ∧
    (t.next.weightChanged = true → t.next.w = t.exactWeight) := by
  have hpos := exactWeight_pos hp h he
  obtain ⟨hc1, hc2⟩ := next_w_close t hpos
  refine ⟨?_, hpos, hc2, hc1⟩
  obtain ⟨-, hadv, hprev, hno, hcur⟩ := C02_next_advances p hp t h he
  have hC : 0 < t.next.cur := by rw [hcur, hprev]; linarith
  have i := reachable_inv hp h
  have hiff : (t.scheme = .bdf2 ∧ 1 < t.next.stepNo) ↔ (t.scheme = .bdf2 ∧ t.now ≠ t.start) := by
    rw [hno]
    have := stepNo_zero_iff hp h
    constructor
    · rintro ⟨h1, h2⟩; exact ⟨h1, fun hh => by have := this.2 hh; omega⟩
    · rintro ⟨h1, h2⟩
      refine ⟨h1, ?_⟩
      have : t.stepNo ≠ 0 := fun hh => h2 (this.1 hh)
      omega
  simp only [hiff]
  by_cases hc : t.scheme = .bdf2 ∧ t.now ≠ t.start
  · have hl : t.newLast = t.cur := by simp [TS.newLast, hc.2]
    have e1 : t.next.wOld = -((t.next.cur + t.newLast) / (t.next.cur * t.newLast)) := by
      simp [TS.next, hc.1, hc.2]
    have e2 : t.next.wOldOld = t.next.cur / (t.newLast * (t.next.cur + t.newLast)) := by
      simp [TS.next, hc.1, hc.2]
    unfold TS.exactWeight
    rw [if_pos hc, if_pos hc, e1, e2, hl]
    have h1 := i.cur_pos
    have h2 : 0 < t.next.cur + t.cur := by linarith
    field_simp
    ring
  · have e1 : t.next.wOld = -1 / t.next.cur := by
      have hd : decide (t.scheme = Scheme.bdf2 ∧ t.now ≠ t.start) = false := decide_eq_false hc
      simp only [TS.next, hd]; simp
    unfold TS.exactWeight
    rw [if_neg hc, if_neg hc, e1]
    ring

end Verif.Time
