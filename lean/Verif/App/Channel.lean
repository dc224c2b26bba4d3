import Verif.Boundary.Model
import Mathlib.Analysis.SpecialFunctions.Trigonometric.DerivHyp
import Mathlib.Analysis.SpecialFunctions.Trigonometric.Basic
import Mathlib.Analysis.SpecialFunctions.Trigonometric.Deriv
import Mathlib.Analysis.Calculus.Deriv.Pow
import Mathlib.Analysis.Calculus.Deriv.Add
import Mathlib.Algebra.BigOperators.Group.Finset.Sigma
import Mathlib.Algebra.BigOperators.Ring.Finset
import Mathlib.Algebra.Order.BigOperators.Ring.Finset
import Mathlib.Tactic.Linarith
import Mathlib.Tactic.NormNum
import Mathlib.Tactic.FieldSimp
import Mathlib.Tactic.Positivity
import Mathlib.Tactic.Ring
import Mathlib.Tactic.LinearCombination
import Mathlib.Tactic.IntervalCases

/-!
# C100: the periodic channel application
(applications/periodic_channel.cc)
-/

namespace Verif.App.Channel

open Finset Verif.Boundary

/-! ## Model -/

/-- A point of `Point<dim>`; reading a coordinate `≥ dim` is not defined (`none`). -/
def coord {dim : ℕ} (p : Fin dim → ℝ) (k : ℕ) : Option ℝ := if h : k < dim then some (p ⟨k, h⟩) else none

/-- `InitialChannel::vector_value`, periodic_channel.cc:64-79: the values written, `none` if an undefined coordinate is
read. -/
noncomputable def initialVelocity {dim : ℕ} (p : Fin dim → ℝ) : Option (List ℝ) := do
  let y ← coord p 1
  let z ← coord p 2
  let v := [(1 - y * y * y * y) * (5 / 4), 2 / 10 * (1 - y * y * y * y) * Real.cos (z * 3)]
  return if dim = 3 then v ++ [2 / 10 * (1 - y * y * y * y) * Real.sin (z * 3)] else v

/-- `grid_transform`, periodic_channel.cc:240-248, in the coordinate it changes -/
noncomputable def gridTransform (y : ℝ) : ℝ := Real.tanh (1 * (2 * y - 1)) / Real.tanh 1

/-- Extents of the box before the transformation, `coordinates` in periodic_channel.cc:319-323 -/
noncomputable def boxEnd (d : ℕ) : ℝ := if d = 0 then 2 * Real.pi else if d = 1 then 1 else 2 / 3 * Real.pi

/-- Number of cells per direction: `global_refinements / 4` coarse cells (periodic_channel.cc:324-328, the parameter must
be divisible by 4) refined twice (353), each refinement halving the cells -/
def cellsPerDirection (globalRefinements : ℕ) : Option ℕ :=
  if globalRefinements % 4 = 0 then some (globalRefinements / 4 * 2 * 2) else none

/-- the `j`-th of the equidistant vertices in direction `d` before the transformation
(`subdivided_hyper_rectangle` from the origin, 329-332, and `refine_global`, 353) -/
noncomputable def plainVertex (N d j : ℕ) : ℝ := j * (boxEnd d / N)

/-- the vertices in direction `d` of the final mesh, periodic_channel.cc:355 -/
noncomputable def vertex (N d j : ℕ) : ℝ := if d = 1 then gridTransform (plainVertex N d j) else plainVertex N d j

/-- `face_to_indicator_list`, periodic_channel.cc:334-339; face 2 d + s of a cell is the one with lower (s = 0) or upper
(s = 1) end in direction d -/
def indicator : List ℕ := [1, 3, 0, 0, 2, 4]

/-- `collect_periodic_faces(triangulation, id1, id2, direction)`, periodic_channel.cc:349-350 -/
def collected : List (ℕ × ℕ × ℕ) := [(1, 3, 0), (2, 4, 2)]

/-- The boundary conditions registered in `run()`, periodic_channel.cc:358-363 -/
def calls (dim : ℕ) : List Call :=
  [.dirichlet 0 (some ⟨0, dim⟩) 0, .fixP 0 (some ⟨1, 1⟩), .periodic 0 1 3, .periodic 2 2 4]

/-- The mesh and velocity space as `FEEvaluation` sees them: `JxW`, shape functions in the quadrature points -/
structure Space where
  nDof : ℕ
  nCells : ℕ
  nQ : ℕ
  dim : ℕ
  JxW : ℕ → ℕ → ℝ
  shape : ℕ → ℕ → ℕ → ℕ → ℝ

/-- `force` in periodic_channel.cc:265-266: only the first component is set -/
noncomputable def force (d : ℕ) : ℝ := if d = 0 then -(337204 / 100000000) else 0

/-- `compute_force`: user_rhs = 0 and the cell loop, periodic_channel.cc:252-302 -/
noncomputable def userRhs (S : Space) (i : ℕ) : ℝ :=
  (List.range S.nCells).foldl (fun r c => r + ∑ q ∈ range S.nQ, S.JxW c q * ∑ d ∈ range S.dim, force d * S.shape i c q d) 0

/-- `system_rhs.sadd(-1., 1., user_rhs)`, navier_stokes_matrix.cc:292; `res` is what the cell loop assembled -/
noncomputable def systemRhs (S : Space) (res : ℕ → ℝ) (i : ℕ) : ℝ := -1 * res i + 1 * userRhs S i

/-! ## Specification -/

namespace Spec

/-- velocity field of the coefficients `u` -/
noncomputable def field (S : Space) (u : ℕ → ℝ) (c q d : ℕ) : ℝ := ∑ i ∈ range S.nDof, u i * S.shape i c q d

/-- volume integral of the streamwise velocity (flow rate times length of the channel) -/
noncomputable def flowRate (S : Space) (u : ℕ → ℝ) : ℝ := ∑ c ∈ range S.nCells, ∑ q ∈ range S.nQ, S.JxW c q * field S u c q 0

/-- The work per time done by the driving force: what the momentum equation, tested with the velocity, contains on its
right hand side -/
noncomputable def power (S : Space) (res u : ℕ → ℝ) : ℝ := ∑ i ∈ range S.nDof, res i * u i

/-- the full claim: the force drives the flow in the direction of the initial field -/
def Drives (S : Space) (res : ℕ → ℝ) : Prop := ∀ u, 0 < flowRate S u → 0 < power S res u

/-- The treatment of the faces in direction `d`: no-slip or periodic with the opposite side -/
inductive Treatment
  | wall
  | periodic
  deriving DecidableEq

/-- walls in the second direction, periodicity in the others -/
def treatment (d : ℕ) : Treatment := if d = 1 then .wall else .periodic

end Spec

/-! ## Proofs -/

theorem tanh_sub (a b : ℝ) : Real.tanh b - Real.tanh a = Real.sinh (b - a) / (Real.cosh a * Real.cosh b) := by
  rw [Real.tanh_eq_sinh_div_cosh, Real.tanh_eq_sinh_div_cosh, Real.sinh_sub]
  have := (Real.cosh_pos a).ne'
  have := (Real.cosh_pos b).ne'
  field_simp

theorem tanh_one_pos : 0 < Real.tanh 1 := by
  have h := tanh_sub 0 1
  rw [Real.tanh_zero, sub_zero, sub_zero] at h
  rw [h]
  exact div_pos (Real.sinh_pos_iff.2 one_pos) (mul_pos (Real.cosh_pos _) (Real.cosh_pos _))

theorem gridTransform_sub (a b : ℝ) : gridTransform b - gridTransform a =
    Real.sinh (2 * (b - a)) / (Real.cosh (2 * a - 1) * Real.cosh (2 * b - 1)) / Real.tanh 1 := by
  unfold gridTransform
  rw [one_mul, one_mul, ← sub_div, tanh_sub, show 2 * b - 1 - (2 * a - 1) = 2 * (b - a) by ring]

/-- **C100 (mesh).** The stretched mesh of `N` cells fills [0,2π]x[-1,1]x[0,2π/3]: in every direction the vertices
increase strictly from one end to the other, so no cell is inverted. -/
theorem C100_mesh (N : ℕ) (hN : 0 < N) :
    (vertex N 0 0 = 0 ∧ vertex N 0 N = 2 * Real.pi) ∧ (vertex N 1 0 = -1 ∧ vertex N 1 N = 1) ∧
    (vertex N 2 0 = 0 ∧ vertex N 2 N = 2 * Real.pi / 3) ∧
    ∀ d, ∀ i j : ℕ, i < j → vertex N d i < vertex N d j := by
  have hN' : (N : ℝ) ≠ 0 := by positivity
  have hpos : ∀ d, 0 < boxEnd d := by
    intro d; unfold boxEnd
    have := Real.pi_pos
    split_ifs <;> positivity
  have hplain : ∀ d, ∀ i j : ℕ, i < j → plainVertex N d i < plainVertex N d j := by
    intro d i j hij
    unfold plainVertex
    have : (i : ℝ) < j := by exact_mod_cast hij
    have h2 : 0 < boxEnd d / N := div_pos (hpos d) (by positivity)
    exact mul_lt_mul_of_pos_right this h2
  have hend : ∀ d, plainVertex N d N = boxEnd d := by intro d; unfold plainVertex; field_simp
  have hzero : ∀ d, plainVertex N d 0 = 0 := by intro d; simp [plainVertex]
  refine ⟨⟨?_, ?_⟩, ⟨?_, ?_⟩, ⟨?_, ?_⟩, ?_⟩
  · simp [vertex, hzero]
  · simp [vertex, hend, boxEnd]
  · have h1 : Real.tanh 1 ≠ 0 := tanh_one_pos.ne'
    simp only [vertex, if_true, hzero, gridTransform]
    rw [show (1 : ℝ) * (2 * 0 - 1) = -1 by norm_num, Real.tanh_neg, neg_div, div_self h1]
  · have h1 : Real.tanh 1 ≠ 0 := tanh_one_pos.ne'
    simp only [vertex, if_true, hend, gridTransform]
    rw [show boxEnd 1 = 1 by simp [boxEnd], show (1 : ℝ) * (2 * 1 - 1) = 1 by norm_num, div_self h1]
  · simp [vertex, hzero]
  · simp [vertex, hend, boxEnd]; ring
  · intro d i j hij
    unfold vertex
    by_cases hd : d = 1
    · rw [if_pos hd, if_pos hd, ← sub_pos, gridTransform_sub]
      refine div_pos (div_pos ?_ (mul_pos (Real.cosh_pos _) (Real.cosh_pos _))) tanh_one_pos
      rw [Real.sinh_pos_iff]
      have := hplain d i j hij
      linarith
    · rw [if_neg hd, if_neg hd]
      exact hplain d i j hij

/-- **C100 (grading).** In wall-normal direction the cells get strictly smaller towards the walls: of two cells, the
one whose (index) distance from the centre plane is larger is the thinner one. -/
theorem C100_finer_towards_walls (N i j : ℕ) (hN : 0 < N)
    (h : |(2 * i + 1 : ℝ) - N| < |(2 * j + 1 : ℝ) - N|) :
    vertex N 1 (j + 1) - vertex N 1 j < vertex N 1 (i + 1) - vertex N 1 i := by
  have hN' : (N : ℝ) ≠ 0 := by positivity
  have hNp : (0 : ℝ) < N := by positivity
  have hb : boxEnd 1 = 1 := by simp [boxEnd]
  have hcosh : ∀ k : ℕ, Real.cosh (2 * plainVertex N 1 k - 1) * Real.cosh (2 * plainVertex N 1 (k + 1) - 1) =
      (Real.cosh (2 * ((2 * k + 1 : ℝ) - N) / N) + Real.cosh (2 / N)) / 2 := by
    intro k
    have e1 : (2 * ((2 * k + 1 : ℝ) - N) / N) = (2 * plainVertex N 1 (k + 1) - 1) + (2 * plainVertex N 1 k - 1) := by
      unfold plainVertex; rw [hb]; push_cast; field_simp; ring
    have e2 : (2 / N : ℝ) = (2 * plainVertex N 1 (k + 1) - 1) - (2 * plainVertex N 1 k - 1) := by
      unfold plainVertex; rw [hb]; push_cast; field_simp; ring
    rw [e1, e2]
    generalize 2 * plainVertex N 1 (k + 1) - 1 = b
    generalize 2 * plainVertex N 1 k - 1 = a
    rw [Real.cosh_add, Real.cosh_sub]; ring
  have hdiff : ∀ k : ℕ, vertex N 1 (k + 1) - vertex N 1 k = Real.sinh (2 / N) /
      ((Real.cosh (2 * ((2 * k + 1 : ℝ) - N) / N) + Real.cosh (2 / N)) / 2) / Real.tanh 1 := by
    intro k
    simp only [vertex, if_true]
    rw [gridTransform_sub, hcosh]
    congr 2
    have : 2 * (plainVertex N 1 (k + 1) - plainVertex N 1 k) = 2 / (N : ℝ) := by
      unfold plainVertex; rw [hb]; push_cast; field_simp; ring
    rw [this]
  rw [hdiff, hdiff]
  have hs : 0 < Real.sinh (2 / N : ℝ) := by rw [Real.sinh_pos_iff]; positivity
  have hlt : Real.cosh (2 * ((2 * i + 1 : ℝ) - N) / N) < Real.cosh (2 * ((2 * j + 1 : ℝ) - N) / N) := by
    rw [Real.cosh_lt_cosh, abs_div, abs_div, abs_mul, abs_mul]
    have h2 : (0 : ℝ) < |(2 : ℝ)| := by norm_num
    have hNa : (0 : ℝ) < |(N : ℝ)| := abs_pos.2 hN'
    exact div_lt_div_of_pos_right (mul_lt_mul_of_pos_left h h2) hNa
  have hp := Real.cosh_pos (2 * ((2 * i + 1 : ℝ) - N) / N)
  have hq := Real.cosh_pos (2 / N : ℝ)
  refine div_lt_div_of_pos_right (div_lt_div_of_pos_left hs (by positivity) ?_) tanh_one_pos
  linarith

/-- **C100 (number of cells).** An accepted parameter is the number of cells per direction. -/
theorem C100_cells (r : ℕ) : cellsPerDirection r = some r ↔ r % 4 = 0 := by
  unfold cellsPerDirection
  constructor
  · intro h
    by_contra hr
    rw [if_neg hr] at h
    exact absurd h (by simp)
  · intro h
    rw [if_pos h]
    congr 1
    omega

/-- **C100 (initial field).** In three dimensions the initial velocity is defined everywhere, vanishes on the walls, is
periodic with the extents of the box, and flows in positive streamwise direction between the walls. -/
theorem C100_initial_velocity (x y z : ℝ) :
    ∃ u v w : ℝ, initialVelocity ![x, y, z] = some [u, v, w] ∧
      (y ^ 2 = 1 → u = 0 ∧ v = 0 ∧ w = 0) ∧ (y ^ 2 < 1 → 0 < u) ∧
      initialVelocity ![x + 2 * Real.pi, y, z] = some [u, v, w] ∧
      initialVelocity ![x, y, z + 2 * Real.pi / 3] = some [u, v, w] := by
  have h0 : ∀ x y z : ℝ, initialVelocity ![x, y, z] = some [(1 - y * y * y * y) * (5 / 4),
      2 / 10 * (1 - y * y * y * y) * Real.cos (z * 3), 2 / 10 * (1 - y * y * y * y) * Real.sin (z * 3)] := by
    intro x y z
    simp [initialVelocity, coord]
  refine ⟨_, _, _, h0 x y z, ?_, ?_, h0 _ _ _, ?_⟩
  · intro hy
    have : 1 - y * y * y * y = 0 := by linear_combination (-(y ^ 2) - 1) * hy
    simp [this]
  · intro hy
    have h1 : 0 ≤ y ^ 2 := sq_nonneg y
    have : y ^ 2 * y ^ 2 < 1 := by nlinarith
    nlinarith
  · rw [h0]
    have e : (z + 2 * Real.pi / 3) * 3 = z * 3 + 2 * Real.pi := by ring
    rw [e, Real.cos_add_two_pi, Real.sin_add_two_pi]

/-- **C100 (counterexample).** In two dimensions the initial velocity reads a third coordinate, at every point. -/
theorem C100_2d_reads_third_coordinate (p : Fin 2 → ℝ) : initialVelocity p = none := by
  simp [initialVelocity, coord]

/-- **C100 (counterexample).** The initial velocity is not divergence-free: in the origin its divergence is 0.6. -/
theorem C100_initial_divergence :
    ∃ u v w : ℝ → ℝ → ℝ → ℝ, (∀ x y z, initialVelocity ![x, y, z] = some [u x y z, v x y z, w x y z]) ∧
      HasDerivAt (fun x => u x 0 0) 0 0 ∧ HasDerivAt (fun y => v 0 y 0) 0 0 ∧
      HasDerivAt (fun z => w 0 0 z) (6 / 10) 0 := by
  refine ⟨fun _ y _ => (1 - y * y * y * y) * (5 / 4), fun _ y z => 2 / 10 * (1 - y * y * y * y) * Real.cos (z * 3),
    fun _ y z => 2 / 10 * (1 - y * y * y * y) * Real.sin (z * 3), ?_, hasDerivAt_const _ _, ?_, ?_⟩
  · intro x y z; simp [initialVelocity, coord]
  · have h : HasDerivAt (fun y : ℝ => 1 - y ^ 4) (0 - 4 * (0 : ℝ) ^ 3) 0 := by
      have h1 := (hasDerivAt_pow 4 (0 : ℝ))
      have h2 : HasDerivAt (fun y : ℝ => y ^ 4) (4 * (0 : ℝ) ^ 3) 0 := by simpa using h1
      exact (hasDerivAt_const _ _).sub h2
    have h3 := (h.const_mul (2 / 10)).mul_const (Real.cos (0 * 3))
    have e : (fun y : ℝ => 2 / 10 * (1 - y * y * y * y) * Real.cos (0 * 3)) =
        fun y : ℝ => 2 / 10 * (1 - y ^ 4) * Real.cos (0 * 3) := by funext y; ring
    rw [e]
    exact h3.congr_deriv (by norm_num)
  · have h1 : HasDerivAt (fun z : ℝ => z * 3) 3 0 := by simpa using (hasDerivAt_id (0 : ℝ)).mul_const 3
    have h2 := (HasDerivAt.sin h1).const_mul (2 / 10 * (1 - (0 : ℝ) * 0 * 0 * 0))
    exact h2.congr_deriv (by norm_num)

/-- the calls in three dimensions, executed one after the other -/
def desc : Desc := Desc.run 3 Desc.empty (calls 3)

/-- **C100 (boundary conditions).** In three dimensions no registration call throws, setup accepts the description, and
every side of the box is either a wall with prescribed velocity or periodic with the opposite side, in mesh and solver
alike. -/
theorem C100_boundary_partial :
    (∀ k < 4, ((Desc.run 3 Desc.empty ((calls 3).take k)).exec 3 ((calls 3).getD k .clear)).2 = false) ∧
    desc.setup 3 = .ok () ∧
    ∀ d < 3, match Spec.treatment d with
      | .wall => indicator[2 * d]? = some 0 ∧ indicator[2 * d + 1]? = some 0 ∧ desc.dirichlet.has 0 = true ∧
          desc.openP.has 0 = false ∧ desc.periodic d = (invalidId, invalidId)
      | .periodic => ∃ a b, indicator[2 * d]? = some a ∧ indicator[2 * d + 1]? = some b ∧ a ≠ b ∧
          (a, b, d) ∈ collected ∧ desc.periodic d = (a, b) ∧ desc.dirichlet.has a = false ∧
          desc.dirichlet.has b = false ∧ desc.openP.has a = false ∧ desc.openP.has b = false := by
  refine ⟨by decide, by rfl, ?_⟩
  intro d hd
  interval_cases d
  · exact ⟨1, 3, by decide⟩
  · show indicator[2 * 1]? = some 0 ∧ indicator[2 * 1 + 1]? = some 0 ∧ desc.dirichlet.has 0 = true ∧
      desc.openP.has 0 = false ∧ desc.periodic 1 = (invalidId, invalidId)
    decide
  · exact ⟨2, 4, by decide⟩

/-- **C100 (counterexample).** In two dimensions the program always stops with an exception: the last registration call
asks for periodicity in the third direction. -/
theorem C100_2d_throws (d : Desc) : ∃ c ∈ calls 2, (d.exec 2 c).2 = true :=
  ⟨.periodic 2 2 4, by decide, by simp [Desc.exec]⟩

theorem foldl_add_sum (n : ℕ) (f : ℕ → ℝ) : (List.range n).foldl (fun r c => r + f c) 0 = ∑ c ∈ range n, f c := by
  induction n with
  | zero => simp
  | succ n ih => rw [List.range_succ, List.foldl_append, ih, sum_range_succ]; simp

/-- **C100 (force).** The force vector is the weak form of a constant force in streamwise direction: tested with any
velocity it is the force density times the flow rate. -/
theorem C100_force_power (S : Space) (hd : 0 < S.dim) (u : ℕ → ℝ) :
    ∑ i ∈ range S.nDof, userRhs S i * u i = -(337204 / 100000000) * Spec.flowRate S u := by
  have h1 : ∀ i, userRhs S i = ∑ c ∈ range S.nCells, ∑ q ∈ range S.nQ, S.JxW c q * (force 0 * S.shape i c q 0) := by
    intro i
    unfold userRhs
    rw [foldl_add_sum]
    refine sum_congr rfl fun c _ => sum_congr rfl fun q _ => ?_
    congr 1
    rw [sum_eq_single 0]
    · intro b _ hb; simp [force, hb]
    · intro h; exact absurd (mem_range.2 hd) h
  simp only [h1, Spec.flowRate, Spec.field, mul_sum, sum_mul]
  rw [sum_comm]
  refine sum_congr rfl fun c _ => ?_
  rw [sum_comm]
  refine sum_congr rfl fun q _ => sum_congr rfl fun i _ => ?_
  simp only [force, if_true]
  ring

/-- **C100 (counterexample).** In every converged step (no remaining right hand side) the force brakes the flow: it
takes energy out of every velocity with positive flow rate, so it does not drive the flow in the direction of the
initial field. -/
theorem C100_force_brakes (S : Space) (hd : 0 < S.dim) (res : ℕ → ℝ) (hc : ∀ i < S.nDof, systemRhs S res i = 0) (u : ℕ → ℝ)
    (hu : 0 < Spec.flowRate S u) : Spec.power S res u < 0 ∧ ¬ Spec.Drives S res := by
  have hp : Spec.power S res u < 0 := by
    have h : Spec.power S res u = ∑ i ∈ range S.nDof, userRhs S i * u i := by
      refine sum_congr rfl fun i hi => ?_
      have h := hc i (mem_range.1 hi)
      unfold systemRhs at h
      rw [show res i = userRhs S i by linarith]
    rw [h, C100_force_power S hd]
    nlinarith
  exact ⟨hp, fun h => absurd (h u hu) (by linarith)⟩

/-! ### Non-vacuity -/

namespace Example

/-- one cell, one point, three velocity components -/
noncomputable def S : Space where
  nDof := 3
  nCells := 1
  nQ := 1
  dim := 3
  JxW := fun _ _ => 1
  shape := fun i _ _ d => if i = d then 1 else 0

noncomputable def u (i : ℕ) : ℝ := if i = 0 then 2 else 0

example : 0 < Spec.flowRate S u := by
  simp [Spec.flowRate, Spec.field, S, u]

/-- residual that balances the force -/
noncomputable def res (i : ℕ) : ℝ := userRhs S i

example : ∀ i < S.nDof, systemRhs S res i = 0 := by
  intro i _; simp [systemRhs, res]

example : Spec.power S res u = -(674408 / 100000000) := by
  have h := C100_force_power S (by simp [S]) u
  unfold Spec.power res
  rw [h]
  simp [Spec.flowRate, Spec.field, S, u]
  norm_num

/-- the file's 32 cells per direction: the wall cell is thinner than the one in the middle -/
example : vertex 32 1 1 - vertex 32 1 0 < vertex 32 1 17 - vertex 32 1 16 :=
  C100_finer_towards_walls 32 16 0 (by norm_num) (by norm_num [abs_of_neg, abs_of_pos])

example : cellsPerDirection 32 = some 32 := by decide

example : ∃ u v w : ℝ, initialVelocity ![1, 0, 0] = some [u, v, w] ∧ 0 < u := by
  obtain ⟨u, v, w, h, -, h2, -, -⟩ := C100_initial_velocity 1 0 0
  exact ⟨u, v, w, h, h2 (by norm_num)⟩

end Example

end Verif.App.Channel
