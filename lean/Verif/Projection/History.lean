import Verif.Time.Model
import Mathlib.Algebra.BigOperators.Ring.Finset
import Mathlib.Algebra.Field.Rat
import Mathlib.Algebra.Order.Ring.Rat
import Mathlib.Data.Rat.Cast.Order
import Mathlib.Tactic.Ring
import Mathlib.Tactic.FieldSimp
import Mathlib.Tactic.Linarith
import Mathlib.Tactic.LinearCombination
import Mathlib.Tactic.NormNum

/-!
# C76: pressure history of the projection scheme
(source/navier_stokes.cc: init_time_advance 658-741, solve_nonlinear_system 840-842, 889-890, solve_system 561-564;
source/navier_stokes_preconditioner.cc: solve_projection_system 779-850)

Vectors are functions of the index. The results of the linear solvers are arbitrary.
-/

set_option linter.unusedSectionVars false

namespace Verif.Projection

open Finset Verif.Time

variable {K : Type} [Field K] [LinearOrder K] [IsStrictOrderedRing K]

abbrev Vec (K : Type) := ℕ → K

/-- Vectors of the flow solver with the projection scheme: `solution` (`u`, `p`), `solution_old` (`uOld`, `phi`),
`solution_old_old` (`uOldOld`, `phiOld`), `solution_update.block(1)` (`upd`). `start` and `used` record the vectors for which
`evaluate_time_step` computes the residual of the momentum equation (lines 763, 783-785). -/
structure ProjState (K : Type) where
  t : TS K
  u : Vec K
  uOld : Vec K
  uOldOld : Vec K
  p : Vec K
  upd : Vec K
  phi : Vec K
  phiOld : Vec K
  start : Vec K
  used : Vec K

/-- What a step brings from outside: a requested step size, the boundary values (lines 736-738), the velocity increment, the
solution of the pressure Poisson problem, the rotational part, and the modification of the pressure at the end of
`solve_nonlinear_system` (lines 982-1076). -/
structure ProjInput (K : Type) where
  dt : Option K
  bc : Vec K → Vec K
  du : Vec K
  phi : Vec K
  rot : Vec K
  post : Vec K → Vec K

/-- After `initialize_matrix_free` all vectors are zero (navier_stokes.cc:458-468); the user then writes initial values into
`solution` (as tests/beltrami.cc:436-440 does). -/
def ProjState.setup (par : Params K) (u0 p0 : Vec K) : ProjState K :=
  ⟨TS.ctor par, u0, fun _ => 0, fun _ => 0, p0, fun _ => 0, fun _ => 0, fun _ => 0, fun _ => 0, fun _ => 0⟩

/-- `init_time_advance` for projection, lines 663-741. -/
def ProjState.init (s : ProjState K) (e : ProjInput K) : ProjState K :=
  let t := match e.dt with | some d => (s.t.setDesired d).next | none => s.t.next
  let s := { s with t := t, uOldOld := s.uOld, uOld := s.u, u := e.bc fun i => t.extrapolate (s.u i) (s.uOld i) }
  if t.stepNo > 1 then
    { s with
      p := fun i => s.p i - t.wOld / t.w * s.phi i - t.wOldOld / t.w * s.phiOld i
      phiOld := s.phi
      upd := s.p }
  else if t.stepNo = 1 then { s with phi := fun _ => 0, phiOld := fun _ => 0 }
  else s

/-- `evaluate_time_step`: the residual is computed, the pressures are swapped, one linear solve (lines 763-768, 840-842,
889-890; preconditioner 796, 806-850). -/
def ProjState.evaluate (s : ProjState K) (e : ProjInput K) : ProjState K :=
  let s := { s with start := s.u, used := s.p }
  let s := { s with p := s.upd, upd := s.p }
  let s := { s with phi := e.phi, upd := fun i => e.rot i + e.phi i }
  { s with u := fun i => s.u i + e.du i, p := e.post fun i => s.p i + s.upd i }

/-- `advance_time_step`, lines 749-754. -/
def ProjState.advance (s : ProjState K) (e : ProjInput K) : ProjState K := (s.init e).evaluate e

def ProjState.run (s : ProjState K) (es : List (ProjInput K)) : ProjState K := es.foldl ProjState.advance s

/-! ### Specification: the incremental pressure-correction scheme -/

/-- The pressures of the scheme: every step adds the solution of the Poisson problem and the rotational part. -/
def Spec.pressure (p0 : Vec K) (es : List (ProjInput K)) : Vec K :=
  es.foldl (fun p e => e.post fun i => p i + (e.rot i + e.phi i)) p0

/-- `φ` of the last step, zero before the first step. -/
def Spec.lastPhi (es : List (ProjInput K)) : Vec K := match es.getLast? with
  | some e => e.phi
  | none => fun _ => 0

/-! ### Proofs -/

theorem ProjState.run_snoc (s : ProjState K) (es : List (ProjInput K)) (e : ProjInput K) :
    s.run (es ++ [e]) = (s.run es).advance e := by
  unfold ProjState.run
  rw [List.foldl_append, List.foldl_cons, List.foldl_nil]

theorem clock_stepNo (s : ProjState K) (e : ProjInput K) : (s.advance e).t.stepNo = s.t.stepNo + 1 := by
  have h : (s.advance e).t = (s.init e).t := rfl
  rw [h]
  unfold ProjState.init
  cases e.dt with
  | none =>
    dsimp only
    split_ifs <;> rfl
  | some d =>
    dsimp only
    split_ifs <;> rfl

theorem run_stepNo (par : Params K) (u0 p0 : Vec K) (es : List (ProjInput K)) :
    ((ProjState.setup par u0 p0).run es).t.stepNo = es.length := by
  induction es using List.reverseRecOn with
  | nil => rfl
  | append_singleton es e ih => rw [ProjState.run_snoc, clock_stepNo, ih, List.length_append]; rfl

theorem init_t (s : ProjState K) (e : ProjInput K) :
    (s.init e).t = (match e.dt with | some d => (s.t.setDesired d).next | none => s.t.next) := by
  unfold ProjState.init
  dsimp only
  split_ifs <;> rfl

theorem init_later (s : ProjState K) (e : ProjInput K) (h : 0 < s.t.stepNo) :
    (s.init e).upd = s.p ∧ (s.init e).phiOld = s.phi ∧
    (s.init e).p = (fun i => s.p i - (s.init e).t.wOld / (s.init e).t.w * s.phi i
      - (s.init e).t.wOldOld / (s.init e).t.w * s.phiOld i) := by
  have hs := clock_stepNo s e
  rw [show (s.advance e).t = (s.init e).t from rfl, init_t] at hs
  unfold ProjState.init
  dsimp only
  rw [if_pos (by rw [hs]; omega)]
  exact ⟨rfl, rfl, rfl⟩

theorem init_first (s : ProjState K) (e : ProjInput K) (h : s.t.stepNo = 0) :
    (s.init e).upd = s.upd ∧ (s.init e).phi = (fun _ => 0) ∧ (s.init e).phiOld = (fun _ => 0) ∧ (s.init e).p = s.p := by
  have hs := clock_stepNo s e
  rw [show (s.advance e).t = (s.init e).t from rfl, init_t, h] at hs
  unfold ProjState.init
  dsimp only
  rw [if_neg (by rw [hs]; omega), if_pos (by rw [hs])]
  exact ⟨rfl, rfl, rfl, rfl⟩

theorem init_vel (s : ProjState K) (e : ProjInput K) : (s.init e).uOld = s.u ∧ (s.init e).uOldOld = s.uOld ∧
    (s.init e).u = e.bc fun i => (s.init e).t.extrapolate (s.u i) (s.uOld i) := by
  rw [init_t]
  unfold ProjState.init
  dsimp only
  split_ifs <;> exact ⟨rfl, rfl, rfl⟩

theorem snoc_cases {α : Type} (es : List α) : es = [] ∨ ∃ l e, es = l ++ [e] := by
  rcases List.eq_nil_or_concat es with h | ⟨l, e, h⟩
  · exact Or.inl h
  · exact Or.inr ⟨l, e, by rw [h, List.concat_eq_append]⟩

/-- The pressure after the steps does not depend on the initial pressure at all. -/
theorem run_pressure (par : Params K) (u0 p0 : Vec K) (es : List (ProjInput K)) (hne : es ≠ []) :
    ((ProjState.setup par u0 p0).run es).p = Spec.pressure (fun _ => 0) es := by
  induction es using List.reverseRecOn with
  | nil => exact absurd rfl hne
  | append_singleton es e ih =>
    rw [ProjState.run_snoc]
    unfold Spec.pressure
    rw [List.foldl_append, List.foldl_cons, List.foldl_nil]
    have hp : (((ProjState.setup par u0 p0).run es).advance e).p =
        e.post fun i => (((ProjState.setup par u0 p0).run es).init e).upd i + (e.rot i + e.phi i) := rfl
    rw [hp]
    rcases eq_or_ne es [] with rfl | h
    · rw [(init_first _ e (by rw [run_stepNo]; rfl)).1]
      rfl
    · rw [(init_later _ e (by rw [run_stepNo]; exact List.length_pos_iff.2 h)).1, ih h]
      rfl

theorem run_phi (s : ProjState K) (es : List (ProjInput K)) (hs : s.phi = fun _ => 0) :
    (s.run es).phi = Spec.lastPhi es := by
  induction es using List.reverseRecOn with
  | nil => exact hs
  | append_singleton es e ih =>
    rw [ProjState.run_snoc]
    unfold Spec.lastPhi
    rw [List.getLast?_append]
    rfl

theorem run_phiOld (par : Params K) (u0 p0 : Vec K) (es : List (ProjInput K)) :
    ((ProjState.setup par u0 p0).run es).phiOld = Spec.lastPhi es.dropLast := by
  rcases snoc_cases es with rfl | ⟨l, e, rfl⟩
  · rfl
  · rw [ProjState.run_snoc, List.dropLast_concat]
    change (((ProjState.setup par u0 p0).run l).init e).phiOld = _
    rcases eq_or_ne l [] with rfl | h
    · rw [(init_first _ e (by rw [run_stepNo]; rfl)).2.2.1]; rfl
    · rw [(init_later _ e (by rw [run_stepNo]; exact List.length_pos_iff.2 h)).2.1]
      exact run_phi _ _ rfl

/-- **C76 (pressure update).** If the simulation starts with zero pressure (as `setup_problem` provides), the pressure after
any sequence of steps is that of the incremental pressure-correction scheme: each step adds the solution of the Poisson
problem and the rotational part to the pressure of the previous step. Missing: a non-zero initial pressure,
see `C76_initial_pressure_lost`. -/
theorem C76_pressure_update_partial (par : Params K) (u0 : Vec K) (es : List (ProjInput K)) :
    ((ProjState.setup par u0 fun _ => 0).run es).p = Spec.pressure (fun _ => 0) es := by
  rcases eq_or_ne es [] with rfl | h
  · rfl
  · exact run_pressure par u0 _ es h

/-- **C76 (finding).** Initial values of the pressure do not enter the pressure update: the first step replaces them by zero.
For every initial pressure the result is the same, so that the scheme's pressure is wrong whenever it should depend on the
initial one. -/
theorem C76_initial_pressure_lost :
    (∀ (par : Params K) (u0 p0 : Vec K) (es : List (ProjInput K)), es ≠ [] →
      ((ProjState.setup par u0 p0).run es).p = ((ProjState.setup par u0 fun _ => 0).run es).p) ∧
    ∃ (par : Params ℚ) (u0 p0 : Vec ℚ) (es : List (ProjInput ℚ)),
      ((ProjState.setup par u0 p0).run es).p ≠ Spec.pressure p0 es := by
  constructor
  · intro par u0 p0 es h
    rw [run_pressure par u0 p0 es h, run_pressure par u0 _ es h]
  · refine ⟨⟨.bdf2, 0, 1, 1 / 10, 1, 1 / 100⟩, fun _ => 0, fun _ => 5,
      [⟨none, id, fun _ => 0, fun _ => 0, fun _ => 0, id⟩], fun h => ?_⟩
    have := congrFun h 0
    revert this
    decide +kernel

/-- **C76 (pressure in the momentum equation).** The residual of the momentum equation of a step is evaluated with the pressure
`p^n - (w_old/w) φ^n - (w_oldold/w) φ^{n-1}`, in the first step with the initial pressure, and with the previous two
velocities as history. -/
theorem C76_pressure_used (par : Params K) (u0 p0 : Vec K) (es : List (ProjInput K)) (e : ProjInput K) :
    let s := (ProjState.setup par u0 p0).run es
    let s' := (ProjState.setup par u0 p0).run (es ++ [e])
    (es = [] → s'.used = p0) ∧
    (es ≠ [] → s'.used = fun i => s.p i - s'.t.wOld / s'.t.w * Spec.lastPhi es i
      - s'.t.wOldOld / s'.t.w * Spec.lastPhi es.dropLast i) ∧
    s'.uOld = s.u ∧ s'.uOldOld = s.uOld ∧
    s'.start = e.bc (fun i => s'.t.extrapolate (s.u i) (s.uOld i)) := by
  dsimp only
  rw [ProjState.run_snoc]
  have hu : (((ProjState.setup par u0 p0).run es).advance e).used = (((ProjState.setup par u0 p0).run es).init e).p := rfl
  refine ⟨?_, ?_, ?_⟩
  · rintro rfl
    rw [hu, (init_first _ e (by rw [run_stepNo]; rfl)).2.2.2]
    rfl
  · intro h
    rw [hu, (init_later _ e (by rw [run_stepNo]; exact List.length_pos_iff.2 h)).2.2, run_phiOld, run_phi _ _ rfl]
    rfl
  · exact init_vel _ e

/-- **C76 (coefficients).** With BDF-2 and two equal steps the coefficients are 4/3 and -1/3. -/
theorem C76_uniform_coefficients (t : TS K) (c : K) (hc : 0 < c) (hs : t.scheme = .bdf2) (hn : t.now ≠ t.start)
    (hl : t.cur = c) (hcur : t.next.cur = c) (hw : t.w = 1 / c ∨ t.w = 3 / (2 * c)) :
    -(t.next.wOld / t.next.w) = 4 / 3 ∧ -(t.next.wOldOld / t.next.w) = -(1 / 3) := by
  have hnl : t.newLast = c := by unfold TS.newLast; rw [if_pos hn, hl]
  have hcc : (if t.snaps then t.final - t.now else t.trial) = c := hcur
  have hwo : t.next.wOld = -((c + c) / (c * c)) := by
    unfold TS.next
    dsimp only
    rw [hnl, hcc, if_pos (by simp [hs, hn])]
  have hwoo : t.next.wOldOld = c / (c * (c + c)) := by
    unfold TS.next
    dsimp only
    rw [hnl, hcc, if_pos (by simp [hs, hn])]
  have hnew : (2 * c + c) / (c * (c + c)) = 3 / (2 * c) := by field_simp; ring
  have hww : t.next.w = 3 / (2 * c) := by
    unfold TS.next
    dsimp only
    have htwo : decide (t.scheme = .bdf2 ∧ t.now ≠ t.start) = true := by simp [hs, hn]
    rw [hnl, hcc, htwo]
    simp only [if_true]
    rw [hnew]
    rcases hw with h | h
    · rw [if_pos]
      rw [decide_eq_true_eq, h]
      have : 3 / (2 * c) - 1 / c = 1 / (2 * c) := by field_simp; ring
      rw [this, abs_of_pos (by positivity)]
      have : 1 / (2 * c) / (3 / (2 * c)) = 1 / 3 := by field_simp
      rw [this]
      norm_num
    · rw [h]; split_ifs <;> rfl
  rw [hwo, hwoo, hww]
  constructor
  · field_simp; ring
  · field_simp; norm_num

/-- Product with a matrix with `n` columns. -/
def mulVec (A : ℕ → ℕ → K) (n : ℕ) (x : Vec K) (i : ℕ) : K := ∑ k ∈ range n, A i k * x k

theorem mulVec_add3 (A : ℕ → ℕ → K) (n : ℕ) (a b c : K) (x y z : Vec K) (i : ℕ) :
    mulVec A n (fun k => a * x k + b * y k + c * z k) i = a * mulVec A n x i + b * mulVec A n y i + c * mulVec A n z i := by
  unfold mulVec
  rw [mul_sum, mul_sum, mul_sum, ← sum_add_distrib, ← sum_add_distrib]
  exact sum_congr rfl fun k _ => by ring

theorem mulVec_sub3 (A : ℕ → ℕ → K) (n : ℕ) (b c : K) (x y z : Vec K) (i : ℕ) :
    mulVec A n (fun k => x k - b * y k - c * z k) i = mulVec A n x i - b * mulVec A n y i - c * mulVec A n z i := by
  unfold mulVec
  rw [mul_sum, mul_sum, ← sum_sub_distrib, ← sum_sub_distrib]
  exact sum_congr rfl fun k _ => by ring

/-- **C76 (projected velocities).** "A means to avoid updating the velocity": let `ũ` be the computed velocities, and let `û` be
the projected ones, `A û^m = A ũ^m - (1/w_m) G φ^m` with the mass matrix `A`, the gradient `G` and the weight `w_m` of the step
`m`. Then the time derivative and pressure terms the code uses, `A (w v + w_old ũ^n + w_oldold ũ^{n-1}) + G p*`, equal those of
the pressure-correction scheme, `A (w v + w_old û^n + w_oldold û^{n-1}) + G p^n`, up to the given defect, for every velocity
`v`. -/
theorem C76_defect (par : Params K) (u0 p0 : Vec K) (es : List (ProjInput K)) (hne : es ≠ []) (e : ProjInput K)
    (A G : ℕ → ℕ → K) (nu np : ℕ) (uhat uhatOld v : Vec K) (i : ℕ) :
    let s := (ProjState.setup par u0 p0).run es
    let s' := (ProjState.setup par u0 p0).run (es ++ [e])
    let w₁ := s.t.w
    let w₂ := ((ProjState.setup par u0 p0).run es.dropLast).t.w
    mulVec A nu uhat i = mulVec A nu s.u i - 1 / w₁ * mulVec G np (Spec.lastPhi es) i →
    mulVec A nu uhatOld i = mulVec A nu s.uOld i - 1 / w₂ * mulVec G np (Spec.lastPhi es.dropLast) i →
    mulVec A nu (fun k => s'.t.w * v k + s'.t.wOld * s'.uOld k + s'.t.wOldOld * s'.uOldOld k) i + mulVec G np s'.used i =
      mulVec A nu (fun k => s'.t.w * v k + s'.t.wOld * uhat k + s'.t.wOldOld * uhatOld k) i + mulVec G np s.p i
      + s'.t.wOld * (1 / w₁ - 1 / s'.t.w) * mulVec G np (Spec.lastPhi es) i
      + s'.t.wOldOld * (1 / w₂ - 1 / s'.t.w) * mulVec G np (Spec.lastPhi es.dropLast) i := by
  dsimp only
  intro h1 h2
  obtain ⟨-, hu, ho, hoo, -⟩ := C76_pressure_used par u0 p0 es e
  rw [hu hne, ho, hoo, mulVec_add3, mulVec_add3, mulVec_sub3, h1, h2]
  ring

/-- **C76 (equivalence for constant weights).** If the leading weight of the time derivative is the same in three consecutive
steps (BDF-2 with constant step size from the fourth step on, implicit Euler with constant step size), the code solves the
pressure-correction scheme with projected velocities exactly. Missing: steps with changed weights, see
`C76_second_step_defect`. -/
theorem C76_projected_velocity_partial (par : Params K) (u0 p0 : Vec K) (es : List (ProjInput K)) (hne : es ≠ [])
    (e : ProjInput K) (A G : ℕ → ℕ → K) (nu np : ℕ) (uhat uhatOld v : Vec K) :
    let s := (ProjState.setup par u0 p0).run es
    let s' := (ProjState.setup par u0 p0).run (es ++ [e])
    let w₁ := s.t.w
    let w₂ := ((ProjState.setup par u0 p0).run es.dropLast).t.w
    w₁ = s'.t.w → w₂ = s'.t.w →
    (∀ i, mulVec A nu uhat i = mulVec A nu s.u i - 1 / w₁ * mulVec G np (Spec.lastPhi es) i) →
    (∀ i, mulVec A nu uhatOld i = mulVec A nu s.uOld i - 1 / w₂ * mulVec G np (Spec.lastPhi es.dropLast) i) →
    ∀ i, mulVec A nu (fun k => s'.t.w * v k + s'.t.wOld * s'.uOld k + s'.t.wOldOld * s'.uOldOld k) i + mulVec G np s'.used i =
      mulVec A nu (fun k => s'.t.w * v k + s'.t.wOld * uhat k + s'.t.wOldOld * uhatOld k) i + mulVec G np s.p i := by
  intro s s' w₁ w₂ hw1 hw2 h1 h2 i
  have h := C76_defect par u0 p0 es hne e A G nu np uhat uhatOld v i (h1 i) (h2 i)
  rw [h]
  change _ + s'.t.wOld * (1 / w₁ - 1 / s'.t.w) * _ + s'.t.wOldOld * (1 / w₂ - 1 / s'.t.w) * _ = _
  rw [hw1, hw2]
  ring

def exPar : Params ℚ := ⟨.bdf2, 0, 1, 1 / 10, 1, 1 / 100⟩
def exIn (a : ℚ) : ProjInput ℚ := ⟨none, id, fun _ => a, fun _ => a, fun _ => 0, id⟩

/-- **C76 (finding).** In the second step of BDF-2 with constant step size (the first step is an Euler step with another
weight) the momentum equation is not that of the pressure-correction scheme: the defect is not zero. The same holds after
every change of the step size. -/
theorem C76_second_step_defect :
    ∃ (es : List (ProjInput ℚ)) (e : ProjInput ℚ), es ≠ [] ∧
      let s := (ProjState.setup exPar (fun _ => 0) fun _ => 0).run es
      let s' := (ProjState.setup exPar (fun _ => 0) fun _ => 0).run (es ++ [e])
      s.t.cur = s'.t.cur ∧ s'.t.wOld * (1 / s.t.w - 1 / s'.t.w) * Spec.lastPhi es 0 ≠ 0 :=
  ⟨[exIn 1], exIn 1, by simp, by decide +kernel⟩

/-- The hypotheses of `C76_uniform_coefficients` hold after the first and after the second step. -/
example :
    let t := fun n => ((ProjState.setup exPar (fun _ => 0) fun _ => 0).run ((List.range n).map fun k => exIn k)).t
    (t 1).scheme = .bdf2 ∧ (t 1).now ≠ (t 1).start ∧ (t 1).cur = 1 / 10 ∧ (t 1).next.cur = 1 / 10 ∧
      (t 1).w = 1 / (1 / 10) ∧ (t 2).w = 3 / (2 * (1 / 10)) := by
  decide +kernel

/-- In steps 4, 5, ... with constant step size the hypotheses on the weights hold. -/
example :
    let s := fun n => (ProjState.setup exPar (fun _ => 0) fun _ => 0).run ((List.range n).map fun k => exIn k)
    (s 3).t.w = (s 4).t.w ∧ (s 2).t.w = (s 4).t.w ∧ (s 4).t.w = 15 ∧ (s 4).used 0 = 3 + 4 / 3 * 2 - 1 / 3 * 1 ∧
      (s 4).p 0 = 6 := by
  decide +kernel

end Verif.Projection
