import Verif.LevelSet.Advect
import Verif.LevelSet.Reinit

/-!
# C65, C67: the content of the level set over a whole run

`LevelSetOKZSolver::advance_time_step` (source/level_set_okz.cc:477-542): a transport step (`advance_concentration`) and, later
in the same step, reinitialization of the new level set, on a fixed mesh. The old levels of the next step are the reinitialized
ones (two_phase_base.cc `init_time_advance`).
-/

set_option linter.unusedSectionVars false

namespace Verif.LevelSet

open Finset Verif.FE Verif.Time

variable {K : Type*} [Field K] [LinearOrder K] [IsStrictOrderedRing K]

/-- `z` results from `x` by exact pseudo-time steps of `reinitialize` (any number, diffusive or compressive, with any normals,
diffusion and positive pseudo-time steps). -/
inductive Reinitialized (S : Space K) (C : Constr K) (x : ℕ → K) : (ℕ → K) → Prop
  | same : Reinitialized S C x x
  | step (R : Reinit K) (diffuseOnly : Bool) (z inc : ℕ → K) : Reinitialized S C x z → R.S = S → R.C = C → 0 < R.dtauInv →
      R.Solved diffuseOnly z inc → Reinitialized S C x (R.update z inc)

theorem Reinitialized.content {S : Space K} {C : Constr K} (hC : C.Closed) (hP : S.Partition) (hone : C.KeepsOne S.nDof)
    {x z : ℕ → K} (h : Reinitialized S C x z) : Spec.content S z = Spec.content S x := by
  induction h with
  | same => rfl
  | step R b z inc _ hS hRC hd hs ih =>
    rw [← ih]
    have := C67_reinitialization_conserves S C hC hP hone [(R, b, inc)] (fun j => if j = 0 then z else R.update z inc)
      (by
        intro j hj
        obtain rfl : j = 0 := by simpa using hj
        exact ⟨hS, hRC, hd, hs, rfl⟩)
    exact this

/-- **C67 (whole run).** A run of the level set solver on a fixed mesh, from the construction of its clock: in each of the `N`
steps an exact transport step (no artificial flux through the boundary, discretely divergence free velocity), then any number
of exact reinitialization steps; the old levels of a step are the reinitialized level sets of the two steps before (the second
one is arbitrary in the first step). If `weight()` is the exact weight of the step sizes in all steps (which holds for constant
steps, `C05_constant_steps_exact`), the level sets of all steps have the content of the initial one. -/
theorem C67_content_conserved_whole_run (D : Advect K) (hC : D.C.Closed) (hs : D.NoFlux) (hP : D.S.Partition)
    (hone : D.C.KeepsOne D.S.nDof) (hdiag : ∀ i < D.S.nDof, (D.C.row i).isSome → D.diag i ≠ 0)
    (p : Params K) (hp : p.Good) (N : ℕ) (t : ℕ → TS K) (dt : ℕ → K)
    (solve : ℕ → ((ℕ → K) → ℕ → K) → (ℕ → K) → ℕ → K)
    (u : ℕ → ℕ → ℕ → ℕ → K) (ν x : ℕ → ℕ → K) (y oldOld : ℕ → ℕ → K)
    (h0 : t 0 = TS.ctor p) (hoo : ∀ n, oldOld (n + 1) = y n)
    (hstep : ∀ n < N, ((t n).setDesired (dt n)).atEnd = false ∧
      t (n + 1) = (D.advance (t n) (dt n) (solve n) (u n) (ν n) (y n) (oldOld n) (x n)).1 ∧
      ((t n).setDesired (dt n)).next.w = ((t n).setDesired (dt n)).exactWeight ∧
      (∀ z, D.S.integral (fun c q => ∑ d ∈ range D.S.dim, u n c q d * D.S.gradient z c q d) = 0) ∧
      D.Solved (t n) (dt n) (solve n) (u n) (ν n) (y n) (oldOld n) (x n) ∧
      Reinitialized D.S D.C (D.advance (t n) (dt n) (solve n) (u n) (ν n) (y n) (oldOld n) (x n)).2 (y (n + 1))) :
    ∀ n ≤ N, Spec.content D.S (y n) = Spec.content D.S (y 0) := by
  refine C65_content_conserved_run D hC hs hP hone hdiag p hp N t dt solve u ν x y oldOld h0 hoo fun n hn => ?_
  obtain ⟨h1, h2, h3, h4, h5, h6⟩ := hstep n hn
  exact ⟨h1, h2, h3, h4, h5, h6.content hC hP hone⟩

/-- **C67 (constant steps).** With the configured start step requested in every step, the same holds without any condition on
the weights, as long as the end is not reached. -/
theorem C67_content_conserved_constant_steps (D : Advect K) (hC : D.C.Closed) (hs : D.NoFlux) (hP : D.S.Partition)
    (hone : D.C.KeepsOne D.S.nDof) (hdiag : ∀ i < D.S.nDof, (D.C.row i).isSome → D.diag i ≠ 0)
    (p : Params K) (hp : p.Good) (hmin : p.stepMin ≤ p.stepStart) (hmax : p.stepStart ≤ p.stepMax)
    (N : ℕ) (hend : (nexts (TS.ctor p) N).atEnd = false)
    (solve : ℕ → ((ℕ → K) → ℕ → K) → (ℕ → K) → ℕ → K)
    (u : ℕ → ℕ → ℕ → ℕ → K) (ν x : ℕ → ℕ → K) (y oldOld : ℕ → ℕ → K) (hoo : ∀ n, oldOld (n + 1) = y n)
    (hstep : ∀ n < N,
      (∀ z, D.S.integral (fun c q => ∑ d ∈ range D.S.dim, u n c q d * D.S.gradient z c q d) = 0) ∧
      D.Solved (nexts (TS.ctor p) n) p.stepStart (solve n) (u n) (ν n) (y n) (oldOld n) (x n) ∧
      Reinitialized D.S D.C
        (D.advance (nexts (TS.ctor p) n) p.stepStart (solve n) (u n) (ν n) (y n) (oldOld n) (x n)).2 (y (n + 1))) :
    ∀ n ≤ N, Spec.content D.S (y n) = Spec.content D.S (y 0) := by
  have hn : ∀ n, nexts (TS.ctor p) (n + 1) = (nexts (TS.ctor p) n).next := fun n => Function.iterate_succ_apply' _ _ _
  have hback : ∀ k, k ≤ N → (nexts (TS.ctor p) (N - k)).atEnd = false := by
    intro k
    induction k with
    | zero => intro _; exact hend
    | succ k ih =>
      intro hk
      have := ih (by omega)
      rw [show N - k = (N - (k + 1)) + 1 by omega, hn] at this
      exact (next_of_not_snaps this).1
  have hall : ∀ n ≤ N, (nexts (TS.ctor p) n).atEnd = false := fun n h => by
    have := hback (N - n) (by omega)
    rwa [show N - (N - n) = n by omega] at this
  have hset : ∀ n ≤ N, (nexts (TS.ctor p) n).setDesired p.stepStart = nexts (TS.ctor p) n := by
    intro n hle
    match n with
    | 0 =>
      have hs := hp.start
      have : (TS.ctor p).desiredValue p.stepStart = p.stepStart := by
        have e : (TS.ctor p).cur = p.stepStart := rfl
        have e1 : (TS.ctor p).maxStep = p.stepMax := rfl
        have e2 : (TS.ctor p).minStep = p.stepMin := rfl
        unfold TS.desiredValue
        simp only [e, e1, e2, ite_self]
        rw [max_eq_left (by linarith : 1 / 2 * p.stepStart ≤ p.stepStart),
          min_eq_right (by linarith : p.stepStart ≤ 2 * p.stepStart), max_eq_right hmin, min_eq_right hmax]
      show (TS.ctor p).setDesired p.stepStart = TS.ctor p
      unfold TS.setDesired
      rw [this]
      rfl
    | n + 1 => exact (C05_constant_steps_exact p hp hmin hmax n (hall _ hle)).2.2
  refine C67_content_conserved_whole_run D hC hs hP hone hdiag p hp N (nexts (TS.ctor p)) (fun _ => p.stepStart) solve u ν x y
    oldOld rfl hoo fun n hlt => ?_
  obtain ⟨h1, h2, h3⟩ := hstep n hlt
  refine ⟨?_, ?_, ?_, h1, h2, h3⟩
  · rw [hset n hlt.le]; exact hall n hlt.le
  · show _ = ((nexts (TS.ctor p) n).setDesired p.stepStart).next
    rw [hset n hlt.le, hn]
  · rw [hset n hlt.le, ← hn]
    exact (C05_constant_steps_exact p hp hmin hmax n (hall _ hlt)).1

/-! ### A concrete case -/

/-- Periodic mesh of three linear elements of length 1, quadrature in the nodes. -/
def exRing : Space ℚ where
  dim := 1
  nDof := 3
  nCell := 3
  nQ := 2
  val := fun i c q => if i = (c + q) % 3 then 1 else 0
  grad := fun i c _ _ => if i = c then -1 else if i = (c + 1) % 3 then 1 else 0
  jxw := fun _ _ => 1 / 2

def exRingAdvect : Advect ℚ := ⟨exRing, ⟨fun _ => none⟩, fun _ => 1, true, fun _ => false, fun _ => none, [], []⟩

def exRingReinit : Reinit ℚ := ⟨exRing, ⟨fun _ => none⟩, fun _ => 1, 1, fun _ => 1, fun _ _ _ => 1⟩

/-- level sets before and after the transport step with unit velocity, and after a diffusive pseudo-time step -/
def exBefore (i : ℕ) : ℚ := if i = 0 then 1 else 0
def exMoved (i : ℕ) : ℚ := if i = 0 then 5 / 7 else if i = 1 then 3 / 7 else if i = 2 then -1 / 7 else 0
def exInc (i : ℕ) : ℚ := if i = 0 then -2 / 7 else if i = 1 then -1 / 14 else if i = 2 then 5 / 14 else 0
def exClock1 : Params ℚ := ⟨.implicitEuler, 0, 10, 1, 2, 1 / 100⟩

/-- The hypotheses are met by a step with stabilization on a closed domain that moves the level set, followed by a
reinitialization step that changes it again. -/
example : exRingAdvect.C.Closed ∧ exRingAdvect.NoFlux ∧ exRing.Partition ∧ exRingAdvect.C.KeepsOne 3 ∧ exClock1.Good ∧
    (nexts (TS.ctor exClock1) 1).atEnd = false ∧
    (∀ z, exRing.integral (fun c q => ∑ d ∈ range 1, (1 : ℚ) * exRing.gradient z c q d) = 0) ∧
    exRingAdvect.Solved (nexts (TS.ctor exClock1) 0) 1 (fun _ _ i => exMoved i - exBefore i) (fun _ _ _ => 1) (fun _ => 0)
      exBefore (fun _ => 7) exBefore ∧
    exRingReinit.Solved true exMoved exInc ∧
    Spec.content exRing (exRingReinit.update exMoved exInc) = 1 := by
  refine ⟨?_, ?_, ?_, ?_, ⟨?_, ?_, ?_, ?_⟩, ?_, ?_, ?_, ?_, ?_⟩
  · intro i c h; cases h
  · refine .inr ⟨.inr ⟨rfl, fun f hf => by cases hf⟩, fun f hf => by cases hf⟩
  · constructor
    · show ∀ c < 3, ∀ q < 2, _
      decide +kernel
    · show ∀ c < 3, ∀ q < 2, ∀ d < 1, _
      decide +kernel
  · intro i c h; cases h
  · decide +kernel
  · decide +kernel
  · decide +kernel
  · decide +kernel
  · decide +kernel
  · intro z
    simp [Space.integral, Space.gradient, exRing, sum_range_succ]
    ring
  · show ∀ k < 3, _
    decide +kernel
  · show ∀ k < 3, _
    decide +kernel
  · decide +kernel

end Verif.LevelSet
