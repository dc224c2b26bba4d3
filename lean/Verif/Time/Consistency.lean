import Verif.Time.Sums

/-! # C02, C05: a newly constructed clock; weights of the scheme in every run -/

set_option linter.unusedSectionVars false

namespace Verif.Time

variable {K : Type*} [Field K] [LinearOrder K] [IsStrictOrderedRing K]

/-- **C02 (new object).** A new clock stands at the start time, has taken no step and announces the start step; the weight
is the one of a backward Euler step of that size. -/
theorem C02_initial (p : Params K) (hp : p.Good) :
    let t := TS.ctor p
    t.now = p.startTime ∧ t.prev = p.startTime ∧ t.stepNo = 0 ∧ t.cur = p.stepStart ∧ t.atEnd = false ∧
      t.w * p.stepStart = 1 ∧ t.weightChanged = true := by
  refine ⟨rfl, rfl, rfl, rfl, rfl, ?_, rfl⟩
  exact one_div_mul_cancel hp.start.ne'

/-- No `restart()` among the calls. -/
def NoRestart (cs : List (Cmd K)) : Prop := Cmd.restart ∉ cs

theorem run_const : ∀ (cs : List (Cmd K)) (t t' : TS K), runCmds t cs = some t' →
    t'.scheme = t.scheme ∧ t'.tau1 = t.tau1 ∧ t'.tau2 = t.tau2 ∧
    (t.scheme ≠ .bdf2 → t.wOldOld = 0 → t'.wOldOld = 0) ∧
    (NoRestart cs → (t.stepNo = 0 → t.wOldOld = 0) → (t'.stepNo = 0 → t'.wOldOld = 0)) := by
  intro cs
  induction cs with
  | nil =>
    intro t t' h
    simp only [runCmds, Option.some.injEq] at h
    subst h
    exact ⟨rfl, rfl, rfl, fun _ h => h, fun _ h => h⟩
  | cons c cs ih =>
    intro t t' h
    simp only [runCmds, Option.bind_eq_some_iff] at h
    obtain ⟨t1, h1, h2⟩ := h
    obtain ⟨a1, a2, a3, a4, a5⟩ := ih t1 t' h2
    have hno : NoRestart (c :: cs) → NoRestart cs ∧ c ≠ .restart := by
      intro hn
      exact ⟨fun hm => hn (List.mem_cons_of_mem _ hm), fun hm => hn (by simp [hm])⟩
    cases c with
    | advance =>
      simp only [Cmd.exec, TS.nextChecked] at h1
      split_ifs at h1
      simp only [Option.some.injEq] at h1
      subst h1
      refine ⟨a1, a2, a3, fun hs hw => a4 (by simpa [TS.next] using hs) ?_, fun hn _ => a5 (hno hn).1 ?_⟩
      · simp [TS.next, hs, hw]
      · intro h0; simp [TS.next] at h0
    | desired d =>
      simp only [Cmd.exec, Option.some.injEq] at h1; subst h1
      exact ⟨a1, a2, a3, a4, fun hn => a5 (hno hn).1⟩
    | setStep v =>
      simp only [Cmd.exec, Option.some.injEq] at h1; subst h1
      exact ⟨a1, a2, a3, a4, fun hn => a5 (hno hn).1⟩
    | restart =>
      simp only [Cmd.exec, Option.some.injEq] at h1; subst h1
      exact ⟨a1, a2, a3, a4, fun hn => absurd rfl (hno hn).2⟩

/-- Reachable without `restart()`. -/
def ReachableFresh (p : Params K) (t : TS K) : Prop :=
  ∃ cs : List (Cmd K), (∀ c ∈ cs, c.Ok p) ∧ NoRestart cs ∧ runCmds (TS.ctor p) cs = some t

theorem ReachableFresh.reachable {p : Params K} {t : TS K} (h : ReachableFresh p t) : Reachable p t := by
  obtain ⟨cs, h1, -, h2⟩ := h; exact ⟨cs, h1, h2⟩

/-- **C05 (theta weights).** The integration weights belong to the configured scheme in every reachable state and sum up to
one: fully implicit for implicit Euler and BDF-2, explicit for explicit Euler, averaged for Crank-Nicolson. -/
theorem C05_theta_weights (p : Params K) (t : TS K) (h : Reachable p t) :
    t.scheme = p.scheme ∧ t.tau1 + t.tau2 = 1 ∧
    (t.tau2 = 0 ↔ p.scheme = .implicitEuler ∨ p.scheme = .bdf2) ∧ (t.tau1 = 0 ↔ p.scheme = .explicitEuler) ∧
    (t.tau1 = t.tau2 ↔ p.scheme = .crankNicolson) := by
  obtain ⟨cs, -, hr⟩ := h
  obtain ⟨h1, h2, h3, -⟩ := run_const cs _ _ hr
  rw [h1, h2, h3]
  cases hp : p.scheme <;> simp [TS.ctor, hp]
  norm_num

/-- All three weights as used by the flow solver (which multiplies the third one with the oldest level in every step): they
annihilate constants up to the staleness of `weight()`, in every run without `restart()`; with the one-step schemes also
after a restart. -/
theorem C05_three_weights_sum_zero (p : Params K) (hp : p.Good) (t : TS K)
    (h : ReachableFresh p t ∨ (Reachable p t ∧ p.scheme ≠ .bdf2)) (he : t.atEnd = false) :
    t.exactWeight + t.next.wOld + t.next.wOldOld = 0 ∧ 0 < t.exactWeight ∧
      |t.next.w - t.exactWeight| ≤ 1 / 10 ^ 12 * t.exactWeight ∧ (t.next.weightChanged = true → t.next.w = t.exactWeight) := by
  have hr : Reachable p t := h.elim ReachableFresh.reachable And.left
  obtain ⟨h1, h2, h3, h4⟩ := C05_weights_sum_zero p hp t hr he
  refine ⟨?_, h2, h3, h4⟩
  by_cases hc : t.scheme = .bdf2 ∧ 1 < t.next.stepNo
  · simpa [hc] using h1
  · rw [if_neg hc, add_zero] at h1
    rw [h1, zero_add]
    have hno : t.next.stepNo = t.stepNo + 1 := (C02_next_advances p hp t hr he).2.2.2.1
    have key : t.wOldOld = 0 := by
      rcases h with ⟨cs, hok, hn, hrun⟩ | ⟨⟨cs, hok, hrun⟩, hb⟩
      · obtain ⟨a1, -, -, a4, a5⟩ := run_const cs _ _ hrun
        by_cases hs : t.scheme = .bdf2
        · exact a5 hn (fun _ => rfl) (by
            have : ¬ 1 < t.next.stepNo := fun hh => hc ⟨hs, hh⟩
            omega)
        · exact a4 (by rw [← a1]; exact hs) rfl
      · exact (run_const cs _ _ hrun).2.2.2.1 hb rfl
    have hst : ¬ (t.scheme = .bdf2 ∧ t.now ≠ t.start) := by
      rintro ⟨hs, hn⟩
      apply hc
      refine ⟨hs, ?_⟩
      have := stepNo_zero_iff hp hr
      have : t.stepNo ≠ 0 := fun h0 => hn (this.1 h0)
      omega
    simp only [TS.next, hst, decide_false, Bool.false_eq_true, if_false, key]

/-- **C05 (uniform steps).** `max_weight_uniform()` is the weight of a step of the current size that follows one of the same
size; in the two-step scheme it bounds the weight whenever the step size does not increase. -/
theorem C05_uniform_weight (p : Params K) (hp : p.Good) (t : TS K) (h : Reachable p t) (he : t.atEnd = false)
    (hn : t.now ≠ t.start) :
    (t.next.cur = t.cur → t.exactWeight = t.next.maxWeightUniform) ∧
    (t.next.cur ≤ t.cur → t.exactWeight ≤ t.next.maxWeightUniform) := by
  have i := reachable_inv hp h
  obtain ⟨-, hadv, hprev, -, hcur⟩ := C02_next_advances p hp t h he
  have hC : 0 < t.next.cur := by rw [hcur, hprev]; linarith
  have hl : t.newLast = t.cur := by simp [TS.newLast, hn]
  have hL := i.cur_pos
  have hsch : t.next.scheme = t.scheme := rfl
  unfold TS.maxWeightUniform TS.exactWeight
  rw [hsch, hl]
  generalize hcc : t.next.cur = C at *
  by_cases hs : t.scheme = .bdf2
  · simp only [hs, hn, ne_eq, not_false_eq_true, and_self, if_true]
    constructor
    · rintro rfl; field_simp; ring
    · intro hle
      rw [div_le_div_iff₀ (by positivity) hC]
      nlinarith [mul_pos hC hC, mul_pos hC hL]
  · simp [hs]

/-- Non-vacuity: step 2 of the run on [0,10] with step 1. -/
example : ReachableFresh (exParams .bdf2) (nexts (TS.ctor (exParams .bdf2)) 2) ∧
    (nexts (TS.ctor (exParams .bdf2)) 2).atEnd = false ∧
    (nexts (TS.ctor (exParams .bdf2)) 2).now ≠ (nexts (TS.ctor (exParams .bdf2)) 2).start ∧
    (nexts (TS.ctor (exParams .bdf2)) 2).exactWeight = 3 / 2 := by
  refine ⟨⟨[.advance, .advance], by simp [Cmd.Ok], by simp [NoRestart], ?_⟩, ?_, ?_, ?_⟩ <;> decide +kernel

/-- `weight()` after a step is the exact weight of the step sizes if it was reported as changed or was exact already. -/
theorem weight_exact_iff (t : TS K) :
    t.next.w = t.exactWeight ↔ t.next.weightChanged = true ∨ t.w = t.exactWeight := by
  rw [next_w t]
  rcases t.next.weightChanged with _ | _ <;> simp

theorem next_of_not_snaps {t : TS K} (h : t.next.atEnd = false) :
    t.atEnd = false ∧ t.next.cur = t.trial ∧ t.next.now = t.now + t.trial := by
  have h' : (t.atEnd || t.snaps) = false := h
  rw [Bool.or_eq_false_iff] at h'
  refine ⟨h'.1, ?_, ?_⟩ <;> simp [TS.next, h'.2]

/-- **C05 (constant steps).** In a run with the configured start step (not above the maximal one), as long as the end is not
reached, every step has the configured size and `weight()` is the exact weight of the step sizes, although it is not reported
as changed in most of the steps. Requesting the same step again before a step changes nothing. -/
theorem C05_constant_steps_exact (p : Params K) (hp : p.Good) (hmin : p.stepMin ≤ p.stepStart)
    (hmax : p.stepStart ≤ p.stepMax) (n : ℕ) (he : (nexts (TS.ctor p) (n + 1)).atEnd = false) :
    (nexts (TS.ctor p) (n + 1)).w = (nexts (TS.ctor p) n).exactWeight ∧
    (nexts (TS.ctor p) (n + 1)).cur = p.stepStart ∧
    (nexts (TS.ctor p) (n + 1)).setDesired p.stepStart = nexts (TS.ctor p) (n + 1) := by
  have hs := hp.start
  have key : ∀ n, (nexts (TS.ctor p) n).atEnd = false →
      let t := nexts (TS.ctor p) n
      t.cur = p.stepStart ∧ t.step = p.stepStart ∧ t.maxStep = p.stepMax ∧ t.minStep = p.stepMin ∧ t.scheme = p.scheme ∧
      t.start = p.startTime ∧ t.now = p.startTime + n * p.stepStart ∧ t.stepNo = n ∧
      t.w = (if p.scheme = .bdf2 ∧ 1 < n then 3 / (2 * p.stepStart) else 1 / p.stepStart) ∧
      (0 < n → t.w = (nexts (TS.ctor p) (n - 1)).exactWeight) := by
    intro n
    induction n with
    | zero => intro _; simp [nexts, TS.ctor]
    | succ n ih =>
      intro he
      have hn : nexts (TS.ctor p) (n + 1) = (nexts (TS.ctor p) n).next := Function.iterate_succ_apply' _ _ _
      rw [hn] at he ⊢
      obtain ⟨h0, hc, hnow⟩ := next_of_not_snaps he
      obtain ⟨i1, i2, i3, i4, i5, i6, i7, i8, i9, -⟩ := ih h0
      rw [show n + 1 - 1 = n from rfl]
      generalize nexts (TS.ctor p) n = t at *
      have hst : t.now ≠ t.start ↔ n ≠ 0 := by
        rw [i7, i6]
        constructor
        · rintro h rfl; exact h (by simp)
        · intro h hh
          have : (0 : K) < n * p.stepStart := mul_pos (Nat.cast_pos.2 (Nat.pos_of_ne_zero h)) hs
          linarith
      have htr : t.trial = p.stepStart := by
        unfold TS.trial
        simp only [i1, i2, i3, ite_self, if_neg (not_lt.2 hmax)]
      have hl : n ≠ 0 → t.newLast = p.stepStart := fun h => by
        unfold TS.newLast; rw [if_pos (hst.2 h), i1]
      rw [htr] at hc hnow
      have hex : t.exactWeight = if p.scheme = .bdf2 ∧ 1 < n + 1 then 3 / (2 * p.stepStart) else 1 / p.stepStart := by
        unfold TS.exactWeight
        have : (t.scheme = .bdf2 ∧ t.now ≠ t.start) ↔ (p.scheme = .bdf2 ∧ 1 < n + 1) := by
          rw [i5, hst]; constructor <;> rintro ⟨a, b⟩ <;> exact ⟨a, by omega⟩
        by_cases hb : p.scheme = .bdf2 ∧ 1 < n + 1
        · simp only [if_pos hb, if_pos (this.2 hb), hc, hl (by omega)]
          field_simp; ring
        · simp only [if_neg hb, if_neg (fun h => hb (this.1 h)), hc]
      have hw : t.next.w = t.exactWeight := by
        rw [weight_exact_iff, next_changed, decide_eq_true_eq, hex, i9]
        by_cases hb : p.scheme = .bdf2
        · rcases Nat.lt_trichotomy n 1 with h | h | h
          · right; simp [show n = 0 by omega]
          · left
            subst h
            simp only [hb, true_and, lt_irrefl, if_false]
            rw [if_pos (by norm_num)]
            have : (3 : K) / (2 * p.stepStart) - 1 / p.stepStart = 1 / (2 * p.stepStart) := by field_simp; ring
            rw [this, abs_of_pos (by positivity)]
            rw [show (1 : K) / (2 * p.stepStart) / (3 / (2 * p.stepStart)) = 1 / 3 by field_simp]
            norm_num
          · right; simp [hb, h, show 0 < n by omega]
        · right; simp [hb]
      refine ⟨hc, i2, i3, i4, i5, i6, ?_, ?_, ?_, fun _ => hw⟩
      · rw [hnow, i7]; push_cast; ring
      · show t.stepNo + 1 = n + 1
        rw [i8]
      · rw [hw, hex]
  obtain ⟨i1, i2, i3, i4, -, -, -, -, -, i9⟩ := key (n + 1) he
  refine ⟨i9 n.succ_pos, i1, ?_⟩
  generalize nexts (TS.ctor p) (n + 1) = t at *
  have hd : t.desiredValue p.stepStart = p.stepStart := by
    unfold TS.desiredValue
    simp only [i1, ite_self, i3, i4]
    rw [max_eq_left (by linarith : 1 / 2 * p.stepStart ≤ p.stepStart), min_eq_right (by linarith : p.stepStart ≤ 2 * p.stepStart),
      max_eq_right hmin,
      min_eq_right hmax]
  have e1 : t.cur = p.stepStart := i1
  have e2 : t.step = p.stepStart := i2
  unfold TS.setDesired
  rw [hd]
  rcases t with ⟨⟩
  simp only at e1 e2
  subst e1 e2
  rfl

/-- Non-vacuity: five steps of the run on [0,10] with step 1 (BDF-2); the weight is not reported as changed in the fifth. -/
example : (exParams .bdf2).Good ∧ (exParams .bdf2).stepMin ≤ (exParams .bdf2).stepStart ∧
    (exParams .bdf2).stepStart ≤ (exParams .bdf2).stepMax ∧ (nexts (TS.ctor (exParams .bdf2)) 5).atEnd = false ∧
    (nexts (TS.ctor (exParams .bdf2)) 5).weightChanged = false := by
  refine ⟨⟨?_, ?_, ?_, ?_⟩, ?_, ?_, ?_, ?_⟩ <;> decide +kernel

/-- facts on all steps of a run with the configured step size before the end -/
theorem constant_run (p : Params K) (hp : p.Good) (hmin : p.stepMin ≤ p.stepStart) (hmax : p.stepStart ≤ p.stepMax)
    (N : ℕ) (hend : (nexts (TS.ctor p) N).atEnd = false) (n : ℕ) (hlt : n < N) :
    nexts (TS.ctor p) (n + 1) = (nexts (TS.ctor p) n).next ∧ Reachable p (nexts (TS.ctor p) n) ∧
    (nexts (TS.ctor p) n).atEnd = false ∧ (nexts (TS.ctor p) n).stepNo = n ∧
    (nexts (TS.ctor p) n).next.w = (nexts (TS.ctor p) n).exactWeight := by
  have hn : ∀ n, nexts (TS.ctor p) (n + 1) = (nexts (TS.ctor p) n).next := fun n => Function.iterate_succ_apply' _ _ _
  have hback : ∀ k, k ≤ N → (nexts (TS.ctor p) (N - k)).atEnd = false := by
    intro k
    induction k with
    | zero => intro _; exact hend
    | succ k ih =>
      intro hk
      have := ih (by omega)
      rw [show N - k = (N - (k + 1)) + 1 by omega, hn] at this
      exact (next_of_not_snaps this).1
  have hall : ∀ n ≤ N, (nexts (TS.ctor p) n).atEnd = false := fun n h => by
    have := hback (N - n) (by omega)
    rwa [show N - (N - n) = n by omega] at this
  have hreach : ∀ n ≤ N, Reachable p (nexts (TS.ctor p) n) := by
    intro n
    induction n with
    | zero => intro _; exact ⟨[], by simp, rfl⟩
    | succ n ih => intro hle; rw [hn]; exact Reachable.next (ih (by omega)) (hall n (by omega))
  have hno : ∀ n, (nexts (TS.ctor p) n).stepNo = n := by
    intro n
    induction n with
    | zero => rfl
    | succ n ih =>
      rw [hn]
      show (nexts (TS.ctor p) n).stepNo + 1 = _
      rw [ih]
  refine ⟨hn n, hreach n hlt.le, hall n hlt.le, hno n, ?_⟩
  rw [← hn]
  exact (C05_constant_steps_exact p hp hmin hmax n (hall _ hlt)).1

end Verif.Time
