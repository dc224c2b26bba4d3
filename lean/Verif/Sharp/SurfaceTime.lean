import Verif.Sharp.Transport
import Verif.Time.Clocks

/-!
# C54: the time over which the surface mesh is moved
(include/adaflo/sharp_interface.h:537-550 (`FrontTrackingSolver::advance_time_step`), 619-629, 819-833 and 926-938
(`MixedLevelSetSolver` with an auxiliary surface mesh); source/navier_stokes.cc: `advance_time_step` steps the clock)

`move_surface_mesh` is called before the flow solver has stepped its clock and uses the step size the clock shows then.
Exact arithmetic; the velocity field of each step is arbitrary.
-/

set_option linter.unusedSectionVars false

namespace Verif.Sharp

open Verif.Time

variable {K : Type} [Field K] [LinearOrder K] [IsStrictOrderedRing K]
variable {ν E : Type} [DecidableEq ν] [AddCommGroup E] [Module K E]

/-- One call of `advance_time_step`, as seen by the clock of the flow solver and the positions of the surface nodes; `d` is an
optional `set_desired_time_step` of the user before the call, `u` the velocity field the flow solver holds. `none`: failing
assertion in `TimeStepping::next`. sharp_interface.h:537-550, 619-629. -/
def stepFront (cells : List (List ν)) (d : Option K) (u : E → E) (s : TS K × (ν → E)) : Option (TS K × (ν → E)) :=
  let f := s.1.request d
  let x := updatePositions f.cur u cells s.2
  f.nextChecked.map fun f' => (f', x)

/-- A run: the loop of the application ends when the clock is at the end. -/
def runFront (cells : List (List ν)) : List (Option K × (E → E)) → TS K × (ν → E) → Option (TS K × (ν → E))
  | [], s => some s
  | e :: es, s => if s.1.atEnd then some s else (stepFront cells e.1 e.2 s).bind (runFront cells es)

/-! ### Proofs -/

/-- invariant of the clock during a run -/
def FrontInv (p : Params K) (f : TS K) : Prop := f.atEnd = false → Going p f

/-- One step: the clock takes no failing assertion, and the surface is moved by the requested step. -/
theorem front_step {p : Params K} (hp : p.Good) (hr : p.StartInRange) (cells : List (List ν)) (d : Option K) (u : E → E)
    (s : TS K × (ν → E)) (h : Going p s.1) (he : s.1.atEnd = false) :
    ∃ s' dt, stepFront cells d u s = some s' ∧ FrontInv p s'.1 ∧ s'.2 = updatePositions dt u cells s.2 ∧ 0 < dt ∧
      dt ≤ p.stepMax ∧ (s'.1.atEnd = false → s'.1.now = s.1.now + dt) ∧
      (s'.1.atEnd = true → s'.1.now = p.endTime ∧ s.1.now < p.endTime ∧ p.endTime - s.1.now < dt + 1 / 100 * dt) := by
  have hg := going_request hr h d
  have hnow : (s.1.request d).now = s.1.now := by cases d <;> rfl
  have hend : (s.1.request d).atEnd = false := by cases d <;> exact he
  obtain ⟨f', hf'⟩ : ∃ f', (s.1.request d).nextChecked = some f' ∧ f' = (s.1.request d).next := by
    unfold TS.nextChecked
    simp [hend]
  refine ⟨(f', updatePositions (s.1.request d).cur u cells s.2), (s.1.request d).cur, ?_, ?_, rfl,
    lt_of_lt_of_le hp.min hg.lo, hg.hi, ?_, ?_⟩
  · unfold stepFront; dsimp only; rw [hf'.1]; rfl
  · intro ha
    rw [hf'.2] at ha ⊢
    rcases going_next hp hg hend with ⟨_, h2, _⟩ | ⟨_, _, _, h4, _⟩
    · exact h2
    · rw [h4] at ha; cases ha
  · intro ha
    dsimp only at ha ⊢
    rw [hf'.2] at ha ⊢
    rcases going_next hp hg hend with ⟨_, _, _, h4, _⟩ | ⟨_, _, _, h4, _⟩
    · rw [h4, hnow]
    · rw [h4] at ha; cases ha
  · intro ha
    dsimp only at ha ⊢
    rw [hf'.2] at ha ⊢
    rcases going_next hp hg hend with ⟨_, _, _, _, h5⟩ | ⟨_, h2, _, _, h5⟩
    · rw [h5] at ha; cases ha
    · rw [hnow] at h5
      exact ⟨h2, h.before, h5⟩

/-- **C54 (explicit Euler step, partial).** For admissible parameters and every history of requests and velocity fields no
assertion fails, and in every step but the last one all surface nodes move by the velocity at their position times the time the
flow solver advances in this step.
Missing: the last step, see `C54_position_last_step`. -/
theorem C54_step_partial {p : Params K} (hp : p.Good) (hr : p.StartInRange) (cells : List (List ν)) (x0 : ν → E)
    (es : List (Option K × (E → E))) (d : Option K) (u : E → E) (s : TS K × (ν → E))
    (hs : runFront cells es (TS.ctor p, x0) = some s) (he : s.1.atEnd = false) :
    ∃ s', stepFront cells d u s = some s' ∧ (s'.1.atEnd = false → ∀ n, (∃ c ∈ cells, n ∈ c) →
      s'.2 n = s.2 n + (s'.1.now - s.1.now) • u (s.2 n)) := by
  have inv : ∀ (es : List (Option K × (E → E))) (s0 s : TS K × (ν → E)), FrontInv p s0.1 → runFront cells es s0 = some s →
      FrontInv p s.1 := by
    intro es
    induction es with
    | nil => intro s0 s h0 h; cases h; exact h0
    | cons e es ih =>
      intro s0 s h0 h
      unfold runFront at h
      by_cases ha : s0.1.atEnd = true
      · rw [if_pos ha] at h; cases h; exact h0
      · rw [if_neg ha] at h
        obtain ⟨s1, dt, h1, h2, -⟩ := front_step hp hr cells e.1 e.2 s0 (h0 (by simpa using ha)) (by simpa using ha)
        rw [h1] at h
        exact ih s1 s h2 h
  have hgo := inv es _ s (fun _ => going_ctor hp hr) hs he
  obtain ⟨s', dt, h1, -, h3, -, -, h6, -⟩ := front_step hp hr cells d u s hgo he
  refine ⟨s', h1, fun ha n hn => ?_⟩
  rw [h3, C57_nodes_move_once, if_pos hn, h6 ha, add_sub_cancel_left]

/-- **C54 (position, partial).** In a uniform flow `U` the surface is, at all times before the end of the run, where the flow
has carried it: displaced by the time passed times `U`. At the end of the run it is displaced by some other time `τ`, which is off
by less than the maximal step size, and is too short by at most a hundredth of it.
Missing: the exact position at the end (`C54_position_last_step`). -/
theorem C54_uniform_partial {p : Params K} (hp : p.Good) (hr : p.StartInRange) (cells : List (List ν)) (x0 : ν → E) (U : E)
    (ds : List (Option K)) :
    ∃ f x τ, runFront cells (ds.map fun d => (d, fun _ => U)) (TS.ctor p, x0) = some (f, x) ∧
      (∀ n, (∃ c ∈ cells, n ∈ c) → x n = x0 n + τ • U) ∧
      (f.atEnd = false → τ = f.now - p.startTime) ∧
      (f.atEnd = true → f.now = p.endTime ∧ f.now - p.startTime - 1 / 100 * p.stepMax < τ ∧
        τ < f.now - p.startTime + p.stepMax) := by
  have key : ∀ (ds : List (Option K)) (f : TS K) (x : ν → E) (τ : K), Going p f → f.atEnd = false →
      (∀ n, (∃ c ∈ cells, n ∈ c) → x n = x0 n + τ • U) → τ = f.now - p.startTime →
      ∃ f' x' τ', runFront cells (ds.map fun d => (d, fun _ => U)) (f, x) = some (f', x') ∧
        (∀ n, (∃ c ∈ cells, n ∈ c) → x' n = x0 n + τ' • U) ∧
        (f'.atEnd = false → τ' = f'.now - p.startTime) ∧
        (f'.atEnd = true → f'.now = p.endTime ∧ f'.now - p.startTime - 1 / 100 * p.stepMax < τ' ∧
          τ' < f'.now - p.startTime + p.stepMax) := by
    intro ds
    induction ds with
    | nil =>
      intro f x τ hg he hx ht
      exact ⟨f, x, τ, rfl, hx, fun _ => ht, fun h => by rw [he] at h; cases h⟩
    | cons d ds ih =>
      intro f x τ hg he hx ht
      obtain ⟨s', dt, h1, h2, h3, h4, h4', h5, h6⟩ := front_step hp hr cells d (fun _ => U) (f, x) hg he
      have hrun : runFront cells ((d :: ds).map fun d => (d, fun _ : E => U)) (f, x) =
          runFront cells (ds.map fun d => (d, fun _ => U)) s' := by
        rw [List.map_cons, runFront, if_neg (by simp [he]), h1]; rfl
      have hx' : ∀ n, (∃ c ∈ cells, n ∈ c) → s'.2 n = x0 n + (τ + dt) • U := by
        intro n hn
        rw [h3, C57_nodes_move_once, if_pos hn]; dsimp only; rw [hx n hn, add_smul, add_assoc]
      rw [hrun]
      cases ha : s'.1.atEnd with
      | false =>
        have hnow := h5 ha
        exact ih s'.1 s'.2 (τ + dt) (h2 ha) ha hx' (by dsimp only at hnow; rw [hnow, ht]; ring)
      | true =>
        obtain ⟨e1, e2, e3⟩ := h6 ha
        dsimp only at e2 e3
        refine ⟨s'.1, s'.2, τ + dt, ?_, hx', fun h => absurd (ha.symm.trans h) (by decide), fun _ => ⟨e1, ?_, ?_⟩⟩
        · cases ds with
          | nil => rfl
          | cons d ds => rw [List.map_cons, runFront, if_pos ha]
        · rw [e1, ht]; linarith
        · rw [e1, ht]; linarith
  exact key ds (TS.ctor p) x0 0 (going_ctor hp hr) rfl (fun n _ => by rw [zero_smul, add_zero])
    (by change (0 : K) = p.startTime - p.startTime; rw [sub_self])

/-- **C54 (violation, last step).** The last step of the flow solver is shortened to end at the final time, the motion of the
surface is not: with steps of `2/5` until time `1` and velocity one, the surface has moved by `6/5`. -/
theorem C54_position_last_step :
    (runFront (ν := ℕ) (E := ℚ) [[0, 1]] (List.replicate 3 (Option.none, fun _ => 1)) (TS.ctor Time.exP, fun n => n)).map
      (fun s => (s.1.now, s.1.atEnd, s.2 0, s.2 1)) = some (1, true, 6 / 5, 11 / 5) := by
  decide +kernel

/-! ### Non-vacuity -/

example : Time.exP.Good ∧ Time.exP.StartInRange := by
  refine ⟨⟨?_, ?_, ?_, ?_⟩, ?_, ?_⟩ <;> decide +kernel

/-- a run with a request, not yet at the end -/
example : (runFront (ν := ℕ) (E := ℚ) [[0, 1]] [(Option.none, fun _ => 1), (some (3 / 10), fun _ => 1)]
      (TS.ctor Time.exP, fun n => n)).map (fun s => (s.1.now, s.1.atEnd, s.2 0)) = some (7 / 10, false, 7 / 10) := by
  decide +kernel

end Verif.Sharp
