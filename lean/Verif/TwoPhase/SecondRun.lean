import Verif.TwoPhase.Step

/-!
# C123: setting up a level set solver again for a second run (corrections of excessive residuals)

`LevelSetBaseAlgorithm::setup_problem` (source/level_set_base.cc:144-154) and the function it calls
(source/two_phase_base.cc:118-190) renew the mesh, the vectors and the clock of the flow solver, but not the members
`old_residual`, `last_smoothing_step` and `last_refine_step`, which are only initialized by the constructor
(level_set_base.cc:61-63).
-/

namespace Verif.TwoPhase

variable {M L A N H C F R D U K : Type}

/-- Initial data of a run on a given mesh: freshly allocated vectors and the interpolated initial functions. -/
structure Initial (M L A C U : Type) where
  /-- `refine_global(global_refinements)`, two_phase_base.cc:131-132 -/
  refineGlobal : M → M
  /-- interpolated and transformed distance function, two_phase_base.cc:150-155, 175-181 -/
  ls : M → L
  /-- freshly allocated older vectors and curvature, zero -/
  hist : M → A
  curv : M → C
  /-- interpolated initial velocity, two_phase_base.cc:141-147 -/
  fl : M → U
  /-- `compute_initial_stokes_field` if the velocity is zero, two_phase_base.cc:189-190 -/
  stokes : M → U → U
  /-- `n_initial_reinit_steps`: the reinitialization in level_set_base.cc:152 -/
  reinit : M → L → N → L × N

variable (O : Ops M L A N H C F R D U K) (P : Cfg)

/-- One round of the loop in two_phase_base.cc:160-185: adapt the mesh, interpolate the initial functions again. -/
def setupRound [Field K] [LinearOrder K] (I : Initial (N := N) M L A C U) (s : St M L A N H C F R D U K) :
    St M L A N H C F R D U K :=
  let t := refineGrid O P s
  { t with fl := I.fl t.mesh, ls := I.ls t.mesh }

/-- `setup_problem` of a level set solver on an object in an arbitrary state, level_set_base.cc:144-154 and
two_phase_base.cc:118-190. The log is the ghost record of the new run. Simplification: `refine_lower_level_limit` is part of the configuration `P` of the new run. -/
def setupAgain [Field K] [LinearOrder K] (I : Initial (N := N) M L A C U) (s : St M L A N H C F R D U K) :
    St M L A N H C F R D U K :=
  let m := I.refineGlobal s.mesh
  let t := { s with
    mesh := m, stepNo := 0, ls := I.ls m, hist := I.hist m, curv := I.curv m, fl := I.fl m
    nrm := O.zeroN m, heav := O.zeroH m, rhs := O.zeroF m, mat := O.zeroR m, face := O.zeroD m
    log := [] }
  let t := (setupRound O P I)^[if P.adaptiveRefinements > 0 then P.adaptiveRefinements + 1 else 0] t
  let t := { t with fl := I.stokes t.mesh t.fl }
  let t := { t with ls := (I.reinit t.mesh t.ls t.nrm).1, nrm := (I.reinit t.mesh t.ls t.nrm).2 }
  { t with heav := O.heaviside t.mesh t.ls }

/-! ## Proofs -/

section Proofs
variable [Field K] [LinearOrder K]

/-- what a setup does to the counters -/
structure Kept (s t : St M L A N H C F R D U K) : Prop where
  step : t.stepNo = 0
  old : t.oldRes = s.oldRes
  smooth : t.lastSmooth = s.lastSmooth
  refine : t.lastRefine = s.lastRefine ∨ t.lastRefine = 0
  log : ∀ e, e ∈ t.log → e = .refined 0
  logR : t.lastRefine = 0 ∨ t.log = []

theorem kept_round (I : Initial (N := N) M L A C U) (s t : St M L A N H C F R D U K) (h : Kept s t) :
    Kept s (setupRound O P I t) := by
  obtain ⟨hc, h1, h2, h3⟩ := refine_cases O P t
  refine ⟨?_, ?_, ?_, ?_, ?_, ?_⟩
  · change (refineGrid O P t).stepNo = 0
    rw [h1, h.step]
  · change (refineGrid O P t).oldRes = _
    rw [h2, h.old]
  · change (refineGrid O P t).lastSmooth = _
    rw [h3, h.smooth]
  · change (refineGrid O P t).lastRefine = _ ∨ (refineGrid O P t).lastRefine = 0
    rcases hc with hc | hc
    · rw [hc.2.1]; exact h.refine
    · rw [hc.2.1]; exact Or.inr h.step
  · change ∀ e, e ∈ (refineGrid O P t).log → _
    rcases hc with hc | hc
    · rw [hc.1]; exact h.log
    · rw [hc.1, h.step]
      intro e he
      rcases List.mem_cons.1 he with he | he
      · exact he
      · exact h.log e he
  · change (refineGrid O P t).lastRefine = 0 ∨ (refineGrid O P t).log = []
    rcases hc with hc | hc
    · rw [hc.1, hc.2.1]; exact h.logR
    · rw [hc.2.1]; exact Or.inl h.step

theorem kept_setup (I : Initial (N := N) M L A C U) (s : St M L A N H C F R D U K) : Kept s (setupAgain O P I s) := by
  have h0 : ∀ (n : ℕ) (t : St M L A N H C F R D U K), Kept s t → Kept s ((setupRound O P I)^[n] t) := by
    intro n
    induction n with
    | zero => intro t h; exact h
    | succ n ih =>
      intro t h
      rw [Function.iterate_succ_apply]
      exact ih _ (kept_round O P I s t h)
  unfold setupAgain
  dsimp only
  generalize hT : (setupRound O P I)^[if P.adaptiveRefinements > 0 then P.adaptiveRefinements + 1 else 0] _ = T
  have hk : Kept s T := by
    rw [← hT]
    exact h0 _ _ ⟨rfl, rfl, rfl, Or.inl rfl, by simp, Or.inr rfl⟩
  exact ⟨hk.step, hk.old, hk.smooth, hk.refine, hk.log, hk.logR⟩

/-- equal up to `old_residual`, which differs at most before the first step -/
def SameButOld (s t : St M L A N H C F R D U K) : Prop :=
  t = { s with oldRes := t.oldRes } ∧ (s.oldRes = t.oldRes ∨ s.stepNo = 0)

theorem excessive_zero (s : St M L A N H C F R D U K) (r : K) (h : s.stepNo ≤ 3) : excessive s r = false := by
  have : ¬ s.stepNo > 3 + s.lastSmooth := by omega
  simp [excessive, this]

omit [Field K] [LinearOrder K] in
theorem computeForce_old (s : St M L A N H C F R D U K) (o : Option K) :
    computeForce O P { s with oldRes := o } = { computeForce O P s with oldRes := o } := rfl

omit [Field K] [LinearOrder K] in
theorem finishStep_old (r : K) (b : Bool) (s : St M L A N H C F R D U K) (o : Option K) :
    finishStep O r b { s with oldRes := o } = finishStep O r b s := rfl

theorem same_advance (s : St M L A N H C F R D U K) (o : Option K) (h : s.oldRes = o ∨ s.stepNo = 0) :
    advance O P { s with oldRes := o } = advance O P s := by
  rcases h with h | h
  · subst h; rfl
  · have hb : reinitialize O 0 (beginStep O { s with oldRes := o }) =
        { reinitialize O 0 (beginStep O s) with oldRes := o } := rfl
    have hn : (reinitialize O 0 (beginStep O s)).stepNo = 1 := by
      change s.stepNo + 1 = 1
      omega
    unfold advance
    rw [hb]
    generalize reinitialize O 0 (beginStep O s) = t at hn
    rw [computeForce_old]
    have hc : (computeForce O P t).stepNo = 1 := hn
    generalize computeForce O P t = u at hc
    dsimp only
    rw [excessive_zero { u with oldRes := o } _ (by change u.stepNo ≤ 3; omega), excessive_zero u _ (by omega)]
    rw [if_neg (by simp), if_neg (by simp), finishStep_old]
    rfl

theorem same_exec (s t : St M L A N H C F R D U K) (h : SameButOld s t) (c : Call) :
    SameButOld (exec O P s c) (exec O P t c) := by
  obtain ⟨h1, h2⟩ := h
  generalize ho : t.oldRes = o at h1 h2
  rw [h1]
  cases c with
  | advance =>
    change SameButOld (advance O P s) (advance O P { s with oldRes := o })
    rw [same_advance O P s o h2]
    exact ⟨rfl, Or.inl rfl⟩
  | refine =>
    change SameButOld (refineGrid O P s) (refineGrid O P { s with oldRes := o })
    have hr : refineGrid O P { s with oldRes := o } = { refineGrid O P s with oldRes := o } := by
      unfold refineGrid
      change (if P.adaptiveRefinements = 0 then { s with oldRes := o }
        else if triggers O P (markNormals O s).mesh (markNormals O s).stepNo (markNormals O s).nrm = false then
          { markNormals O s with oldRes := o } else { adapt O (markNormals O s) with oldRes := o }) = _
      by_cases ha : P.adaptiveRefinements = 0
      · rw [if_pos ha, if_pos ha]
      · rw [if_neg ha, if_neg ha]
        by_cases hb : triggers O P (markNormals O s).mesh (markNormals O s).stepNo (markNormals O s).nrm = false
        · rw [if_pos hb, if_pos hb]
        · rw [if_neg hb, if_neg hb]
    rw [hr]
    obtain ⟨-, q1, q2, -⟩ := refine_cases O P s
    refine ⟨rfl, ?_⟩
    rw [q1, q2]
    exact h2
  | output =>
    change SameButOld (output O s) (output O { s with oldRes := o })
    have hr : output O { s with oldRes := o } = { output O s with oldRes := o } := by
      unfold output
      dsimp only
      by_cases ha : s.stepNo = 0
      · rw [if_pos ha, if_pos ha]
      · rw [if_neg ha, if_neg ha]
    rw [hr]
    obtain ⟨-, -, q1, q2, -⟩ := output_same O s
    refine ⟨rfl, ?_⟩
    rw [q1, q2]
    exact h2

theorem same_run (calls : List Call) : ∀ s t : St M L A N H C F R D U K, SameButOld s t →
    SameButOld (run O P s calls) (run O P t calls) := by
  induction calls with
  | nil => intro s t h; exact h
  | cons c cs ih => intro s t h; exact ih _ _ (same_exec O P s t h c)

/-- **C123 (`old_residual` of the previous run).** For all kernels, parameters, states of the object, initial data and
histories of the second run: the residual remembered from the previous run has no influence; everything except the
remembered value itself is as if it had been reset, and from the first step on that value, too. -/
theorem C123_old_residual_harmless (I : Initial (N := N) M L A C U) (s : St M L A N H C F R D U K)
    (calls : List Call) (x y : St M L A N H C F R D U K) (hx : x = run O P (setupAgain O P I s) calls)
    (hy : y = run O P { setupAgain O P I s with oldRes := none } calls) :
    y = { x with oldRes := y.oldRes } ∧ (x.stepNo ≠ 0 → y = x) := by
  have h : SameButOld x y := by
    rw [hx, hy]
    exact same_run O P calls _ _ ⟨rfl, Or.inr (kept_setup O P I s).step⟩
  refine ⟨h.1, fun hn => ?_⟩
  rcases h.2 with h2 | h2
  · rw [h.1, ← h2]
  · exact absurd h2 hn

theorem inv_kept (s : St M L A N H C F R D U K) (h0 : s.stepNo = 0) (h1 : s.lastSmooth = 0) (h2 : s.lastRefine = 0)
    (hl : ∀ e, e ∈ s.log → e = .refined 0) : Inv O P { s with oldRes := none } := by
  have hno : ∀ e, (.solve e : Event M L F R D U K) ∉ s.log := by
    intro e he
    have := hl _ he
    simp at this
  have hlast : ∀ l : List (Event M L F R D U K), (∀ e, e ∈ l → e = .refined 0) → Spec.lastSolve l = none := by
    intro l
    induction l with
    | nil => intro _; rfl
    | cons a l ih =>
      intro h
      rw [h a (by simp)]
      exact ih fun e he => h e (by simp [he])
  refine ⟨?_, ?_, ?_, Or.inl h1, ?_, Or.inl h2, ?_, ?_, ?_⟩
  · intro e he; exact absurd he (hno e)
  · change none = (Spec.lastSolve s.log).map _
    rw [hlast _ hl]
    rfl
  · intro e he; exact absurd he (hno e)
  · intro k hk
    have := hl _ hk
    simp only [Event.refined.injEq] at this
    rw [this]
    exact Nat.zero_le _
  · change s.lastSmooth ≤ s.stepNo
    omega
  · change s.lastRefine ≤ s.stepNo
    omega
  · intro newer e older he
    exfalso
    refine hno e ?_
    change s.log = _ at he
    rw [he]
    simp

theorem inv_calls (calls : List Call) : ∀ s : St M L A N H C F R D U K, Inv O P s → Inv O P (run O P s calls) := by
  induction calls with
  | nil => intro s h; exact h
  | cons c cs ih =>
    intro s h
    refine ih _ ?_
    cases c with
    | advance => exact inv_advance O P s h
    | refine => exact inv_refine O P s h
    | output => exact inv_output O P s h

/-- **C123 (corrections, proved part).** If the object has never applied a correction before, and has either not adapted
its mesh after a time step or adapts it while it is set up again, then in every history of the second run a
step applies the extra diffusion exactly when the events of the second run alone call for it.
Missing: objects with earlier corrections or adaptations, for which it is false, see
`C123_corrections_suppressed`. -/
theorem C123_corrections_partial (I : Initial (N := N) M L A C U) (s : St M L A N H C F R D U K)
    (h1 : s.lastSmooth = 0) (h2 : s.lastRefine = 0 ∨ (setupAgain O P I s).log ≠ [])
    (calls : List Call) (newer older : List (Event M L F R D U K)) (e : Solve M L F R D U K)
    (he : (run O P (setupAgain O P I s) calls).log = newer ++ .solve e :: older) :
    (e.smoothed = true ↔ Spec.Due older e.stepNo e.firstRes) ∧ Spec.Current O P e := by
  have hk := kept_setup O P I s
  have hr : (setupAgain O P I s).lastRefine = 0 := by
    rcases h2 with h2 | h2
    · rcases hk.refine with h | h
      · rw [h, h2]
      · exact h
    · rcases hk.logR with h | h
      · exact h
      · exact absurd h h2
  have hi := inv_calls O P calls _ (inv_kept O P _ hk.step (hk.smooth.trans h1) hr hk.log)
  have hlog : (run O P { setupAgain O P I s with oldRes := none } calls).log =
      (run O P (setupAgain O P I s) calls).log := by
    have := (C123_old_residual_harmless O P I s calls _ _ rfl rfl).1
    rw [this]
  rw [← hlog] at he
  exact ⟨hi.due newer e older he, hi.cur e (by rw [he]; simp)⟩

/-- counters never decrease below what they were until a correction of the new run -/
theorem suppressed_run (k : ℕ) (calls : List Call) : ∀ s : St M L A N H C F R D U K,
    (k ≤ s.lastSmooth ∨ 3 + k < s.stepNo) → (∀ e, .solve e ∈ s.log → e.stepNo ≤ 3 + k → e.smoothed = false) →
    ∀ e, .solve e ∈ (run O P s calls).log → e.stepNo ≤ 3 + k → e.smoothed = false := by
  induction calls with
  | nil => intro s _ h; exact h
  | cons c cs ih =>
    intro s h1 h2
    refine ih (exec O P s c) ?_ ?_
    · cases c with
      | advance =>
        obtain ⟨e, -, -, q2, -, -, -, -, -, -, q3, q4, -⟩ := advance_log O P s
        change k ≤ (advance O P s).lastSmooth ∨ 3 + k < (advance O P s).stepNo
        rw [q2, q3]
        rcases h1 with h1 | h1
        · by_cases hs : e.smoothed = true
          · rw [if_pos hs]
            have := (q4.1 hs).1
            left; omega
          · rw [if_neg hs]; exact Or.inl h1
        · right; omega
      | refine =>
        obtain ⟨-, q1, -, q3⟩ := refine_cases O P s
        change k ≤ (refineGrid O P s).lastSmooth ∨ 3 + k < (refineGrid O P s).stepNo
        rw [q1, q3]; exact h1
      | output =>
        obtain ⟨-, -, q1, -, q3, -⟩ := output_same O s
        change k ≤ (output O s).lastSmooth ∨ 3 + k < (output O s).stepNo
        rw [q1, q3]; exact h1
    · cases c with
      | advance =>
        obtain ⟨e, q0, q1, q2, -, -, -, -, -, -, q3, q4, -⟩ := advance_log O P s
        change ∀ e, .solve e ∈ (advance O P s).log → _
        rw [q0]
        intro e' he' hk
        rcases List.mem_cons.1 he' with he' | he'
        · simp only [Event.solve.injEq] at he'
          subst he'
          by_contra hs
          rw [Bool.not_eq_false] at hs
          have := (q4.1 hs).1
          rcases h1 with h1 | h1 <;> omega
        · exact h2 e' he' hk
      | refine =>
        obtain ⟨q0, -⟩ := refine_cases O P s
        change ∀ e, .solve e ∈ (refineGrid O P s).log → _
        rcases q0 with q0 | q0
        · rw [q0.1]; exact h2
        · rw [q0.1]
          intro e he
          rcases List.mem_cons.1 he with he | he
          · simp at he
          · exact h2 e he
      | output =>
        obtain ⟨q0, -⟩ := output_same O s
        change ∀ e, .solve e ∈ (output O s).log → _
        rw [q0]; exact h2

/-- **C123 (corrections suppressed; the property is false).** For all kernels, states of the object, initial data and
histories of the second run: if the last correction of the previous runs was in step `k`, no step of the second run up
to number `k + 3` is ever corrected, whatever its residual. -/
theorem C123_corrections_suppressed (I : Initial (N := N) M L A C U) (s : St M L A N H C F R D U K)
    (calls : List Call) (e : Solve M L F R D U K) (he : .solve e ∈ (run O P (setupAgain O P I s) calls).log)
    (hk : e.stepNo ≤ s.lastSmooth + 3) : e.smoothed = false := by
  have hkept := kept_setup O P I s
  refine suppressed_run O P s.lastSmooth calls _ (Or.inl hkept.smooth.ge) ?_ e he (by omega)
  intro e' he'
  have := hkept.log _ he'
  simp at this

end Proofs

/-! ## Examples -/

namespace Example

def initial : Initial (N := ℚ) Unit ℚ ℚ ℚ ℚ where
  refineGlobal := fun _ => ()
  ls := fun _ => 1
  hist := fun _ => 0
  curv := fun _ => 0
  fl := fun _ => 0
  stokes := fun _ u => u
  reinit := fun _ l n => (l, n)

/-- no adaptive refinement -/
def cfg0 : Cfg := { cfg with adaptiveRefinements := 0 }

/-- first run of five steps, corrected in step 4; the second run is the same run, but step 4 is not corrected although
it is due -/
example : ((run ops cfg0 (setupAgain ops cfg0 initial (run ops cfg0 (setupAgain ops cfg0 initial init)
      [.advance, .advance, .advance, .advance, .advance])) [.advance, .advance, .advance, .advance]).log.map fun
      | .solve e => (e.stepNo, e.smoothed, e.firstRes)
      | .refined n => (n + 100, false, 0)) =
    [(4, false, 4), (3, false, 1), (2, false, 1), (1, false, 1)] ∧
    ((run ops cfg0 (setupAgain ops cfg0 initial init) [.advance, .advance, .advance, .advance]).log.map fun
      | .solve e => (e.stepNo, e.smoothed, e.firstRes)
      | .refined n => (n + 100, false, 0)) =
    [(4, true, 4), (3, false, 1), (2, false, 1), (1, false, 1)] := by
  constructor <;> decide +kernel

/-- second run of an object that made three steps before, without correction: the correction in step 4 takes place -/
example : ((run ops cfg0 (setupAgain ops cfg0 initial (run ops cfg0 (setupAgain ops cfg0 initial init)
      [.advance, .advance, .advance])) [.advance, .advance, .advance, .advance]).log.map fun
      | .solve e => (e.stepNo, e.smoothed)
      | .refined n => (n + 100, false)) = [(4, true), (3, false), (2, false), (1, false)] ∧
    (run ops cfg0 (setupAgain ops cfg0 initial init) [.advance, .advance, .advance]).lastSmooth = 0 := by
  constructor <;> decide +kernel

/-- with adaptive refinement the mesh is adapted while the object is set up -/
example : (setupAgain ops cfg initial (run ops cfg (setupAgain ops cfg initial init)
    [.advance, .advance, .refine])).log.length = 2 ∧
    (run ops cfg (setupAgain ops cfg initial init) [.advance, .advance, .refine]).lastRefine = 2 := by
  constructor <;> decide +kernel

end Example

end Verif.TwoPhase
