import Verif.Nonlinear.Loop

/-!
# C25: preconditioner rebuild policy, C26: initial Stokes solve
-/

namespace Verif.Nonlinear

variable {K X : Type*} [Field K] [LinearOrder K] [AddCommGroup X]

section Within

variable (P : NLParams K) (pol : Policy) (stepNo : ℕ) (solver : ℕ → X → K → X × ℕ) (residual : X → K)

/-- The actions in one pass of the loop. -/
theorem body_trace (s : It K X) :
    ∃ (bs : List (Ev K X)) (e : Ev K X), (∃ a b c, e = .solve a b c) ∧
      (body P pol stepNo solver residual s).trace = s.trace ++ bs ++ [e] ∧
      (bs = [] ∨ bs = [.build]) ∧
      (s.step = 0 → s.nTot = 0 → (bs = [.build] ↔ pol.update = true)) := by
  refine ⟨if (decide (s.step = 0) && pol.update) ||
      (!(decide (s.step = 0) && pol.update) && wantsPremature P pol stepNo s) then [.build] else [],
    .solve (linearTolerance P s.res) (solver s.step s.x (linearTolerance P s.res)).2
      (solver s.step s.x (linearTolerance P s.res)).1, ⟨_, _, _, rfl⟩, ?_, ?_, ?_⟩
  · simp only [body]; split <;> rfl
  · split <;> simp
  · intro h0 hn
    have hw : wantsPremature P pol stepNo s = false := by simp [wantsPremature, h0, hn]
    simp [h0, hw]

/-- The loop only appends to the trace. -/
theorem loop_prefix (n : ℕ) (s : It K X) :
    ∃ t, (loop P pol stepNo solver residual n s).trace = s.trace ++ t := by
  induction n generalizing s with
  | zero => exact ⟨[], by simp [loop]⟩
  | succ n ih =>
    obtain ⟨bs, e, -, ht, -⟩ := body_trace P pol stepNo solver residual s
    unfold loop
    simp only
    generalize body P pol stepNo solver residual s = s' at ht ⊢
    split
    · exact ⟨bs ++ [e], by rw [ht, List.append_assoc]⟩
    · obtain ⟨t, h⟩ := ih { s' with step := s'.step + 1 }
      exact ⟨bs ++ [e] ++ t, by rw [h, ht]; simp⟩

/-- **C25 (scheduled rebuild).** If at least one iteration is allowed, the preconditioner is rebuilt before
the first linear solve exactly if a rebuild was scheduled. -/
theorem C25_scheduled_before_first_solve (post : X → X) (x0 : X) (res0 : K) (hmax : 0 < P.maxNl) :
    let t := (solveNonlinear P pol stepNo solver residual post x0 res0).trace
    ∃ a b c rest, t = (if pol.update then [Ev.build] else []) ++ Ev.solve a b c :: rest := by
  intro t
  obtain ⟨m, hm⟩ : ∃ m, P.maxNl = m + 1 := ⟨P.maxNl - 1, by omega⟩
  obtain ⟨bs, e, ⟨a, b, c, he⟩, ht, hbs, hfirst⟩ := body_trace P pol stepNo solver residual
    (⟨0, 0, false, x0, res0, [], false⟩ : It K X)
  have hbs' : bs = if pol.update then [Ev.build] else [] := by
    by_cases hu : pol.update = true
    · rw [if_pos hu]; exact (hfirst rfl rfl).2 hu
    · rw [if_neg hu]
      exact hbs.resolve_right fun h => hu ((hfirst rfl rfl).1 h)
  have hpre : ∃ rest, t = bs ++ [e] ++ rest := by
    simp only [t, solveNonlinear, hm]
    unfold loop
    simp only
    generalize body P pol stepNo solver residual _ = s' at ht ⊢
    split
    · exact ⟨[], by rw [ht]; simp⟩
    · obtain ⟨r, h⟩ := loop_prefix P pol stepNo solver residual m { s' with step := s'.step + 1 }
      exact ⟨r, by rw [h, ht]; simp⟩
  obtain ⟨rest, hr⟩ := hpre
  exact ⟨a, b, c, rest, by rw [hr, hbs', he]; simp⟩

/-- Rebuilds forced by the stationary rule among the first `k` iterations. -/
def stationaryRounds (k : ℕ) : ℕ := ((List.range k).filter (· % 6 = 1)).length

theorem stationaryRounds_succ (k : ℕ) :
    stationaryRounds (k + 1) = stationaryRounds k + if k % 6 = 1 then 1 else 0 := by
  simp only [stationaryRounds, List.range_succ, List.filter_append, List.length_append]
  congr 1
  by_cases h : k % 6 = 1 <;> simp [h]

/-- Truth value as a number. -/
def b2n (b : Bool) : ℕ := cond b 1 0

theorem body_builds (s : It K X) :
    let s' := body P pol stepNo solver residual s
    builds s'.trace + b2n (!s'.premature) ≤
      builds s.trace + b2n (!s.premature)
        + b2n (decide (s.step = 0) && pol.update)
        + b2n (P.stationary && decide (s.step % 6 = 1)) := by
  intro s'
  have hp : s'.premature = (s.premature || (!(decide (s.step = 0) && pol.update) && wantsPremature P pol stepNo s)) := by
    simp only [s', body]; split <;> rfl
  have ht : builds s'.trace = builds s.trace + b2n ((decide (s.step = 0) && pol.update) ||
      (!(decide (s.step = 0) && pol.update) && wantsPremature P pol stepNo s)) := by
    have : ∀ b : Bool, b2n b = if b = true then 1 else 0 := by intro b; cases b <;> rfl
    rw [this]
    simp only [s', body]; split <;> simp
  rw [hp, ht]
  have hw : wantsPremature P pol stepNo s = true → s.premature = false ∨
      (P.stationary && decide (s.step % 6 = 1)) = true := by
    intro hw
    simp only [wantsPremature, Bool.or_eq_true] at hw
    rcases hw with h | h
    · left; simp only [Bool.and_eq_true, Bool.not_eq_true'] at h; exact h.1.1
    · exact Or.inr h
  generalize (decide (s.step = 0) && pol.update) = a
  generalize (P.stationary && decide (s.step % 6 = 1)) = c at *
  generalize wantsPremature P pol stepNo s = w at *
  generalize s.premature = q at *
  cases a <;> cases c <;> cases w <;> cases q <;> simp_all [b2n]

theorem loop_builds (n : ℕ) (s : It K X) (hn : s.step + n = P.maxNl) :
    let r := loop P pol stepNo solver residual n s
    builds r.trace + b2n (!r.premature) + b2n P.stationary * stationaryRounds s.step ≤
      builds s.trace + b2n (!s.premature)
        + b2n (decide (s.step = 0) && pol.update)
        + b2n P.stationary * stationaryRounds P.maxNl := by
  have hmono : ∀ a b, a ≤ b → stationaryRounds a ≤ stationaryRounds b := by
    intro a b hab
    induction hab with
    | refl => exact le_rfl
    | step _ ih => rw [stationaryRounds_succ]; omega
  induction n generalizing s with
  | zero =>
    simp only [loop]
    have : s.step = P.maxNl := by omega
    rw [this]
    omega
  | succ n ih =>
    have hb := body_builds P pol stepNo solver residual s
    have hst := (body_facts P pol stepNo solver residual s).2.2.2.2.2.1
    have h3 := Nat.mul_le_mul_left (b2n P.stationary) (hmono (s.step + 1) P.maxNl (by omega))
    have h2 : b2n P.stationary * stationaryRounds (s.step + 1) =
        b2n P.stationary * stationaryRounds s.step + b2n (P.stationary && decide (s.step % 6 = 1)) := by
      rw [stationaryRounds_succ, Nat.mul_add]
      congr 1
      cases P.stationary
      · simp [b2n]
      · by_cases h : s.step % 6 = 1 <;> simp [b2n, h]
    unfold loop
    simp only at hb hst ⊢
    generalize body P pol stepNo solver residual s = s' at hb hst ⊢
    split
    · omega
    · have h4 := ih { s' with step := s'.step + 1 } (by simp only; omega)
      simp only [hst] at h4 ⊢
      have h5 : b2n (decide (s.step + 1 = 0) && pol.update) = 0 := by simp [b2n]
      rw [h5] at h4
      omega

/-- **C25 (number of rebuilds).** In one nonlinear solve the preconditioner is rebuilt at most once as
scheduled and at most once prematurely, plus every sixth iteration for stationary problems. -/
theorem C25_rebuild_bound (post : X → X) (x0 : X) (res0 : K) :
    builds (solveNonlinear P pol stepNo solver residual post x0 res0).trace ≤
      (if pol.update then 1 else 0) + 1 + (if P.stationary then stationaryRounds P.maxNl else 0) := by
  have := loop_builds P pol stepNo solver residual P.maxNl ⟨0, 0, false, x0, res0, [], false⟩ (by simp)
  simp only [solveNonlinear]
  generalize loop P pol stepNo solver residual P.maxNl ⟨0, 0, false, x0, res0, [], false⟩ = s at *
  have h0 : stationaryRounds 0 = 0 := rfl
  have h1 : builds ([] : List (Ev K X)) = 0 := rfl
  rw [h0, h1] at this
  have h2 : ∀ b : Bool, (if b = true then 1 else 0) = b2n b := by intro b; cases b <;> rfl
  have h3 : (if P.stationary = true then stationaryRounds P.maxNl else 0) =
      b2n P.stationary * stationaryRounds P.maxNl := by cases P.stationary <;> simp [b2n]
  rw [h2, h3]
  simp only [decide_true, Bool.true_and, Bool.not_false, Nat.mul_zero] at this
  have h4 : b2n true = 1 := rfl
  rw [h4] at this
  omega

end Within

/-! ### Across time steps -/

/-- Calls of the user that concern the preconditioner. -/
inductive Op (K X : Type*)
  /-- `initialize_data_structures` after `distribute_dofs`/refinement (source/navier_stokes.cc:190-222, 228-360):
  clears the preconditioner, schedules a rebuild. -/
  | setup
  /-- a nonlinear solve in time step `stepNo` with the given solver behaviour. -/
  | solve (stepNo : ℕ) (solver : ℕ → X → K → X × ℕ) (residual : X → K) (x0 : X) (res0 : K)

/-- Log of all actions. -/
inductive LogEv
  | clear | build | solve
  deriving DecidableEq

/-- Forget the data of an action. -/
def Ev.log : Ev K X → LogEv
  | .build => .build
  | .solve .. => .solve

/-- Effect of the calls on the policy members and the log. Constructor values: navier_stokes.cc:121-124. -/
def Op.exec (P : NLParams K) (s : Policy × List LogEv) : Op K X → Policy × List LogEv
  | .setup => ({ s.1 with update := true }, s.2 ++ [.clear])
  | .solve stepNo solver residual x0 res0 =>
    let r := solveNonlinear P s.1 stepNo solver residual id x0 res0
    (r.policy, s.2 ++ r.trace.map Ev.log)

/-- The object after construction (navier_stokes.cc:121-124) and a history of calls. -/
def runOps (P : NLParams K) (ops : List (Op K X)) : Policy × List LogEv :=
  ops.foldl (Op.exec P) (⟨0, 0, true, 0⟩, [.clear])

/-- Every linear solve has a preconditioner built after the last clear. -/
def SolvesHavePreconditioner (log : List LogEv) : Prop :=
  ∀ a b, log = a ++ LogEv.solve :: b → ∃ a1 a2, a = a1 ++ LogEv.build :: a2 ∧ LogEv.clear ∉ a2

/-- A preconditioner exists at the end of the log. -/
def HasPrec (log : List LogEv) : Prop := ∃ a1 a2, log = a1 ++ LogEv.build :: a2 ∧ LogEv.clear ∉ a2

theorem HasPrec.append {l m : List LogEv} (h : HasPrec l) (hm : LogEv.clear ∉ m) : HasPrec (l ++ m) := by
  obtain ⟨a1, a2, rfl, h2⟩ := h
  exact ⟨a1, a2 ++ m, by simp, by simp [h2, hm]⟩

theorem log_noClear (t : List (Ev K X)) : LogEv.clear ∉ t.map Ev.log := by
  intro h
  obtain ⟨e, -, he⟩ := List.mem_map.1 h
  cases e <;> cases he

theorem SolvesHavePreconditioner.append {l m : List LogEv} (hl : SolvesHavePreconditioner l)
    (hm : ∀ a b, m = a ++ LogEv.solve :: b → HasPrec (l ++ a)) : SolvesHavePreconditioner (l ++ m) := by
  intro a b h
  rcases List.append_eq_append_iff.1 h with ⟨c, hc, h2⟩ | ⟨c, hc, h2⟩
  · rw [hc]; exact hm c b h2
  · cases c with
    | nil =>
      simp only [List.nil_append] at h2
      simp only [List.append_nil] at hc
      rw [← hc]
      have := hm [] b (by simpa using h2.symm)
      rwa [List.append_nil] at this
    | cons e c =>
      simp only [List.cons_append, List.cons.injEq] at h2
      exact hl a c (by rw [hc, ← h2.1])

/-- **C25 (existence).** In every history of set-ups and nonlinear solves (any solver behaviour, any step
numbers), each linear solve is preceded by a rebuild of the preconditioner since the last time it was
cleared. -/
theorem C25_preconditioner_exists (P : NLParams K) (ops : List (Op K X)) :
    SolvesHavePreconditioner (runOps P ops).2 := by
  have key : ∀ (ops : List (Op K X)) (s : Policy × List LogEv), SolvesHavePreconditioner s.2 →
      (s.1.update = true ∨ HasPrec s.2 ∨ P.maxNl = 0) →
      SolvesHavePreconditioner (ops.foldl (Op.exec P) s).2 := by
    intro ops
    induction ops with
    | nil => intro s hs _; exact hs
    | cons o os ih =>
      intro s hs hex
      rw [List.foldl_cons]
      cases o with
      | setup =>
        apply ih
        · simp only [Op.exec]
          apply hs.append
          intro a b h
          rcases a with _ | ⟨e, a⟩
          · simp at h
          · simp at h
        · exact Or.inl rfl
      | solve stepNo solver residual x0 res0 =>
        rcases Nat.eq_zero_or_pos P.maxNl with h0 | hpos
        · apply ih
          · simp only [Op.exec, solveNonlinear, h0, loop, List.map_nil, List.append_nil]; exact hs
          · exact Or.inr (Or.inr h0)
        · obtain ⟨a, b, c, rest, ht⟩ :=
            C25_scheduled_before_first_solve P s.1 stepNo solver residual id x0 res0 hpos
          have hex' := hex.imp_right fun h => h.resolve_right (by omega)
          have hlast : HasPrec (s.2 ++ (if s.1.update then [LogEv.build] else [])) := by
            by_cases hu : s.1.update = true
            · rw [if_pos hu]; exact ⟨s.2, [], rfl, by simp⟩
            · rw [if_neg hu, List.append_nil]; exact hex'.resolve_left hu
          have hmap : (solveNonlinear P s.1 stepNo solver residual id x0 res0).trace.map Ev.log =
              (if s.1.update then [LogEv.build] else []) ++ LogEv.solve :: rest.map Ev.log := by
            rw [ht]; by_cases hu : s.1.update = true <;> simp [hu, Ev.log]
          apply ih
          · simp only [Op.exec]
            apply hs.append
            intro p q h
            rw [hmap] at h
            -- every position of a solve is after the optional leading build
            rcases List.append_eq_append_iff.1 h with ⟨d, hd, h2⟩ | ⟨d, hd, h2⟩
            · rw [hd, ← List.append_assoc]
              apply hlast.append
              intro hc
              have hsub : LogEv.clear ∈ LogEv.solve :: rest.map Ev.log := by
                rw [h2]; exact List.mem_append_left _ hc
              rcases List.mem_cons.1 hsub with h | h
              · cases h
              · exact log_noClear rest h
            · cases d with
              | nil =>
                rw [List.append_nil] at hd
                rw [← hd]
                exact hlast
              | cons e d =>
                simp only [List.cons_append, List.cons.injEq] at h2
                by_cases hu : s.1.update = true
                · rw [if_pos hu] at hd
                  rcases p with _ | ⟨e', p⟩
                  · simp only [List.nil_append, List.cons.injEq] at hd
                    rw [← h2.1] at hd; cases hd.1
                  · simp at hd
                · rw [if_neg hu] at hd; simp at hd
          · refine Or.inr (Or.inl ?_)
            simp only [Op.exec]
            rw [hmap, ← List.append_assoc]
            apply hlast.append
            intro hc
            rcases List.mem_cons.1 hc with h | h
            · cases h
            · exact log_noClear rest h
  apply key
  · intro a b h
    rcases a with _ | ⟨e, a⟩ <;> simp at h
  · exact Or.inl rfl

/-- **C25 (no unsigned wrap-around).** As long as step numbers do not decrease, the difference
`step_no - time_step_last_prec_update` formed in the policy is not negative. -/
theorem C25_last_update_not_in_future (pol : Policy) (stepNo nTot : ℕ) (premature : Bool)
    (h : pol.lastStep ≤ stepNo) : (pol.after stepNo nTot premature).lastStep ≤ stepNo := by
  simp only [Policy.after]
  split_ifs <;> simp_all

/-- **C25 (early and late refresh).** In the first two time steps, or if the preconditioner is from
before step 3 and step 15 is reached, a rebuild is scheduled. -/
theorem C25_refresh_scheduled (pol : Policy) (stepNo nTot : ℕ) (premature : Bool)
    (h : stepNo < 2 ∨ (14 < stepNo ∧ pol.update = false ∧ pol.lastStep < 3)) :
    (pol.after stepNo nTot premature).update = true := by
  simp only [Policy.after]
  rcases h with h | ⟨h1, h2, h3⟩
  · have : ∀ p : Policy, ((p.lastStep < 3 ∧ 14 < stepNo) ∨ stepNo < 2) := fun _ => Or.inr h
    simp only [this, if_true]
    split <;> rfl
  · split_ifs <;> simp_all

/-- **C25 (deterioration).** If no rebuild was scheduled and the linear iterations exceed those after the
last rebuild by more than 20%, a rebuild is scheduled for the next step. -/
theorem C25_deterioration_scheduled (pol : Policy) (stepNo nTot : ℕ) (premature : Bool)
    (hu : pol.update = false) (h : 6 * pol.nLast < 5 * nTot) :
    (pol.after stepNo nTot premature).update = true := by
  simp only [Policy.after, hu]
  split_ifs <;> simp_all

/-- **C25 (learned interval).** Let the preconditioner not be due in this step, the linear solver not be slow
(`nTot ≤ 1.2 * nLast`), no premature rebuild have happened and the startup phase be over. Then, with a learned interval of
`f > 0` steps that is not forgotten in this step (every `50 f`-th), the rebuild is scheduled for the next step exactly if that
one is at least `f` steps after the last rebuild; in a forgetting step it is not scheduled and the interval is erased. -/
theorem C25_interval (pol : Policy) (stepNo nTot : ℕ)
    (hu : pol.update = false) (h : 5 * nTot ≤ 6 * pol.nLast) (h3 : 3 ≤ pol.lastStep) (hs : 2 ≤ stepNo) (hf : 0 < pol.freq) :
    (stepNo % (50 * pol.freq) ≠ 0 →
      ((pol.after stepNo nTot false).update = true ↔ pol.lastStep + pol.freq ≤ stepNo + 1) ∧
      (pol.after stepNo nTot false).freq = pol.freq) ∧
    (stepNo % (50 * pol.freq) = 0 →
      (pol.after stepNo nTot false).update = false ∧ (pol.after stepNo nTot false).freq = 0) ∧
    (pol.after stepNo nTot false).lastStep = pol.lastStep ∧ (pol.after stepNo nTot false).nLast = pol.nLast := by
  unfold Policy.after
  have h5 : ¬ 6 * pol.nLast < 5 * nTot := by omega
  by_cases hm : stepNo % (50 * pol.freq) = 0
  · simp [hu, h5, hm, hf, show ¬ pol.lastStep < 3 by omega, show ¬ stepNo < 2 by omega]
  · by_cases hd : pol.freq ≤ stepNo + 1 - pol.lastStep
    · simp [hu, h5, hm, hf, hd, show ¬ pol.lastStep < 3 by omega, show ¬ stepNo < 2 by omega]
      omega
    · simp [hu, h5, hm, hf, hd, show ¬ pol.lastStep < 3 by omega, show ¬ stepNo < 2 by omega]
      omega

/-- **C25 (learning the interval).** A slow linear solver (more than 1.2 times the iterations of the last rebuild) always
schedules a rebuild; if it was more than twice as slow, or the rebuild already happened within the step, the interval is set to
the number of steps since the last scheduled rebuild. A step that started with a scheduled rebuild records its step number and
iterations. -/
theorem C25_learning (pol : Policy) (stepNo nTot : ℕ) (premature : Bool) :
    (pol.update = false → 6 * pol.nLast < 5 * nTot →
      (pol.after stepNo nTot premature).update = true ∧ (pol.after stepNo nTot premature).lastStep = pol.lastStep ∧
      (premature = true ∨ 2 * pol.nLast < nTot →
        (pol.after stepNo nTot premature).freq = stepNo - pol.lastStep)) ∧
    (pol.update = true → (pol.after stepNo nTot premature).lastStep = stepNo ∧
      (pol.after stepNo nTot premature).nLast = nTot) := by
  have fin : ∀ p2 : Policy,
      let p3 : Policy := if (p2.lastStep < 3 ∧ 14 < stepNo) ∨ stepNo < 2 then { p2 with update := true } else p2
      let r : Policy := if p3.update = false ∧ premature = false ∧ 0 < p3.freq ∧ p3.freq ≤ stepNo + 1 - p3.lastStep then
        { p3 with update := true } else p3
      r.freq = p2.freq ∧ r.lastStep = p2.lastStep ∧ r.nLast = p2.nLast ∧ (p2.update = true → r.update = true) := by
    intro p2 p3 r
    have h3 : p3.freq = p2.freq ∧ p3.lastStep = p2.lastStep ∧ p3.nLast = p2.nLast ∧ (p2.update = true → p3.update = true) := by
      simp only [p3]; split <;> simp
    have hr : r.freq = p3.freq ∧ r.lastStep = p3.lastStep ∧ r.nLast = p3.nLast ∧ (p3.update = true → r.update = true) := by
      simp only [r]; split <;> simp
    exact ⟨hr.1.trans h3.1, hr.2.1.trans h3.2.1, hr.2.2.1.trans h3.2.2.1, fun h => hr.2.2.2 (h3.2.2.2 h)⟩
  unfold Policy.after
  dsimp only at fin ⊢
  generalize hq : (if 0 < pol.freq ∧ stepNo % (50 * pol.freq) = 0 then 0 else pol.freq) = q
  constructor
  · intro hu h5
    simp only [hu, Bool.false_eq_true, if_false, h5, if_true]
    obtain ⟨f1, f2, f3, f4⟩ := fin { pol with
      freq := if premature || decide (2 * pol.nLast < nTot) then stepNo - pol.lastStep else q, update := true }
    refine ⟨f4 rfl, f2, fun hp => ?_⟩
    rw [f1]
    have : (premature || decide (2 * pol.nLast < nTot)) = true := by simpa using hp
    simp [this]
  · intro hu
    simp only [hu, if_true]
    split
    · obtain ⟨f1, f2, f3, f4⟩ := fin ⟨nTot, stepNo, true,
        if premature || decide (2 * nTot < nTot) then stepNo - stepNo else q⟩
      exact ⟨f2, f3⟩
    · obtain ⟨f1, f2, f3, f4⟩ := fin ⟨nTot, stepNo, false, q⟩
      exact ⟨f2, f3⟩

/-- **C25 (no needless rebuild).** Conversely, from step 15 on with a preconditioner built in step 3 or later,
at most 20% growth of the iterations and no learned frequency, no rebuild is scheduled. -/
theorem C25_not_scheduled_without_reason (pol : Policy) (stepNo nTot : ℕ) (premature : Bool)
    (hu : pol.update = false) (h : 5 * nTot ≤ 6 * pol.nLast) (h3 : 3 ≤ pol.lastStep) (hs : 2 ≤ stepNo)
    (hf : pol.freq = 0) : (pol.after stepNo nTot premature).update = false := by
  have h1 : ¬ (6 * pol.nLast < 5 * nTot) := by omega
  have h2 : ¬ ((pol.lastStep < 3 ∧ 14 < stepNo) ∨ stepNo < 2) := by omega
  simp [Policy.after, hu, hf, h1, h2]

/-- Non-vacuity: a premature rebuild in the second iteration of step 3. -/
example : (solveNonlinear (X := ℚ) exP ⟨10, 1, false, 0⟩ 3 (fun i _ _ => (if i = 0 then 1 else 2, 16))
    (fun x => |x - 3|) id 0 3).trace.map Ev.log = [.solve, .build, .solve] := by decide +kernel

/-- Non-vacuity: a history with a set-up in between. -/
example : (runOps exP [.solve (X := ℚ) 1 (fun _ _ _ => (3, 4)) (fun x => |x - 3|) 0 3, .setup,
    .solve 2 (fun _ _ _ => (3, 4)) (fun x => |x - 3|) 0 3]).2 =
      [.clear, .build, .solve, .clear, .build, .solve] := by decide +kernel

/-! ## C26: compute_initial_stokes_field -/

/-- Physical types and velocity preconditioners of `FlowParameters` (include/adaflo/parameters.h). -/
inductive PhysicalType | incompressible | incompressibleStationary | stokes
  deriving DecidableEq
/-- `FlowParameters::PreconditionVelocity`. -/
inductive PrecVelocity | uIlu | uIluScalar | uAmgLinear | uAmg
  deriving DecidableEq

/-- The parameters touched or read by `compute_initial_stokes_field`, in the copy that `NavierStokes` holds
(include/adaflo/navier_stokes.h:239). The matrix and the preconditioner refer to the object of the caller, which the routine does
not change: see C111 for what that means for the equations that are solved. -/
structure FlowPrm (K : Type*) where
  physicalType : PhysicalType
  density : K
  precVelocity : PrecVelocity
  nl : NLParams K

/-- Outcome of a call: parameters afterwards, policy, whether an exception left the function. -/
structure StokesResult (K X : Type*) where
  prm : FlowPrm K
  policy : Policy
  threw : Bool
  /-- parameters in the copy during the solve, if one was made -/
  used : Option (FlowPrm K)

/-- source/navier_stokes.cc:1164-1212.  `velocityNonzero`: `solution.block(0).l2_norm() > 0` after applying
boundary conditions.  The loop reads `physical_type` to decide `stationary`, so that flag is false during
the Stokes solve. The variable coefficient arrays are not modelled. -/
def initialStokes (prm : FlowPrm K) (pol : Policy) (stepNo : ℕ) (velocityNonzero : Bool)
    (solver : ℕ → X → K → X × ℕ) (residual : X → K) (post : X → X) (x0 : X) : StokesResult K X :=
  if velocityNonzero then
    let prm' : FlowPrm K :=
      ⟨.stokes, 0, .uAmgLinear, { prm.nl with stationary := false }⟩
    let r := solveNonlinear prm'.nl { pol with update := true } stepNo solver residual post x0 (residual x0)
    match r.result with
    | none => ⟨prm', r.policy, true, some prm'⟩
    | some _ => ⟨prm, { r.policy with update := true }, false, some prm'⟩
  else ⟨prm, pol, false, none⟩

/-- **C26 (partial).** Whenever `compute_initial_stokes_field` returns normally, all flow parameters are as
before and a rebuild of the preconditioner is scheduled; the copy of the parameters in the flow solver was set to a
Stokes problem during the solve. Missing: the exceptional exit, see `C26_exception_leaves_stokes`. -/
theorem C26_restores_partial (prm : FlowPrm K) (pol : Policy) (stepNo : ℕ) (nz : Bool)
    (solver : ℕ → X → K → X × ℕ) (residual : X → K) (post : X → X) (x0 : X) :
    let r := initialStokes prm pol stepNo nz solver residual post x0
    (r.threw = false → r.prm = prm ∧ (nz = true → r.policy.update = true)) ∧
    (nz = true → ∃ q, r.used = some q ∧ q.physicalType = .stokes ∧ q.density = 0 ∧
      q.precVelocity = .uAmgLinear ∧ q.nl.implicit = prm.nl.implicit ∧ q.nl.maxNl = prm.nl.maxNl) := by
  intro r
  simp only [r, initialStokes]
  cases nz
  · simp
  · simp only [if_true]
    split <;> simp

/-- **C26 (linear variants).** For the linear variants with at least one allowed iteration the function
always returns normally, so the parameters are restored for every solver behaviour. -/
theorem C26_linear_variants_restore (prm : FlowPrm K) (pol : Policy) (stepNo : ℕ) (nz : Bool)
    (solver : ℕ → X → K → X × ℕ) (residual : X → K) (post : X → X) (x0 : X)
    (hl : prm.nl.implicit = false) (hm : 0 < prm.nl.maxNl) :
    (initialStokes prm pol stepNo nz solver residual post x0).threw = false ∧
    (initialStokes prm pol stepNo nz solver residual post x0).prm = prm := by
  have : (initialStokes prm pol stepNo nz solver residual post x0).threw = false := by
    cases nz
    · rfl
    · simp only [initialStokes, if_true]
      split
      · rename_i h
        have := (C24_exception { prm.nl with stationary := false } { pol with update := true } stepNo solver
          residual post x0 (residual x0)).1 h
        rcases this.2.1 with h | h
        · simp only at h; omega
        · rw [hl] at h; cases h
      · rfl
  exact ⟨this, ((C26_restores_partial prm pol stepNo nz solver residual post x0).1 this).1⟩

/-- **C26 (counterexample to the full claim).** If the Newton iteration of the Stokes solve does not
converge, the exception leaves physical type, density and preconditioner type at the Stokes values. -/
theorem C26_exception_leaves_stokes :
    ∃ (prm : FlowPrm ℚ) (solver : ℕ → ℚ → ℚ → ℚ × ℕ) (residual : ℚ → ℚ),
      let r := initialStokes prm ⟨0, 0, true, 0⟩ 0 true solver residual id 0
      r.threw = true ∧ r.prm.physicalType ≠ prm.physicalType ∧ r.prm.density ≠ prm.density ∧
        r.prm.precVelocity ≠ prm.precVelocity := by
  refine ⟨⟨.incompressible, 1, .uIlu, exP⟩, fun _ _ _ => (0, 1), fun _ => 1, ?_⟩
  decide +kernel

/-- Non-vacuity: a converging initial solve. -/
example : (initialStokes (X := ℚ) ⟨.incompressible, 1, .uIlu, exP⟩ ⟨0, 0, true, 0⟩ 0 true (fun _ _ _ => (3, 1))
    (fun x => |x - 3|) id 0).threw = false := by decide +kernel

end Verif.Nonlinear
