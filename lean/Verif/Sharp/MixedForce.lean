import Verif.LevelSet.FluidType
import Mathlib.Algebra.Order.BigOperators.Group.Finset
import Mathlib.Algebra.BigOperators.Group.Finset.Piecewise
import Mathlib.Data.Fintype.BigOperators
import Mathlib.Tactic.NormNum
import Mathlib.Tactic.Linarith

/-!
# C116: material values and weight in the mixed level set solver
(include/adaflo/sharp_interface.h:213-265 (MatrixFree object of the level set solver), 941-978 (`update_phases`), 1023-1062
(`update_gravity_force`); source/navier_stokes.cc:420-450 and include/adaflo/navier_stokes.h:112-117 (MatrixFree object of the
flow solver); include/adaflo/navier_stokes_matrix.h:292-340 (`begin_densities`), source/navier_stokes_matrix.cc:92-106)

`MixedLevelSetSolver` owns a level set solver with a MatrixFree object of its own and writes density and viscosity into the
tables of the flow solver, which belong to another MatrixFree object: a different numbering of the cell batches and a different
list of quadratures. The front tracking solver, which uses one object only, is modelled in Sharp/Force.lean.

Simplifications: exact arithmetic; one process; quadrilateral and hexahedral meshes (`QGauss` does not exist on simplices).
-/

set_option linter.unusedSectionVars false

namespace Verif.Sharp.Mixed

open Finset Verif.FE

variable {K : Type} [Field K] {L : ℕ}

/-- One-dimensional numbers of points of the quadratures of the flow solver's MatrixFree: `QGauss(k + 1)` at `quad_index_u = 0`,
`QGauss(k)` at `quad_index_p = 1`; navier_stokes.cc:437-449 with the default indices of navier_stokes.h:112-117. -/
def flowQuadratures (k : ℕ) : List ℕ := [k + 1, k]

/-- The same for the level set solver's MatrixFree: `QIterated(QGauss(2), subdivisions)` and `QGauss(k + 1)`;
sharp_interface.h:239-240, 261. -/
def levelSetQuadratures (k subdivisions : ℕ) : List ℕ := [2 * subdivisions, k + 1]

/-- `LevelSetSolver::quad_index_vel`, sharp_interface.h:61 -/
def quadIndexVel : ℕ := 1

/-- `quad_index_u` of the flow solver, navier_stokes.h:116 -/
def quadIndexU : ℕ := 0

/-- `MatrixFree::get_n_q_points(index)` / `FEEvaluation::n_q_points` of tensor product quadratures. -/
def nPoints (quads : List ℕ) (index dim : ℕ) : ℕ := (quads.getD index 0) ^ dim

/-- Cell batches of a MatrixFree object: their number and the cell in each lane (`none`: lane not filled). -/
structure Batches (L : ℕ) where
  n : ℕ
  cell : ℕ → Fin L → Option ℕ

/-- Density and viscosity of the two fluids and gravity, sharp_interface.h:944-947, 1026-1029 -/
structure Phases (K : Type) where
  density : K
  density_diff : K
  viscosity : K
  viscosity_diff : K
  gravity : K

/-- `variable_densities`, `variable_viscosities` of the flow operator: arrays of vectorized numbers. -/
structure Tables (K : Type) (L : ℕ) where
  dens : ℕ → Fin L → K
  visc : ℕ → Fin L → K

/-- Position in the arrays of `begin_densities(batch)[q]`: `variable_densities[n_q_points(quad_index_u) * batch + q]`,
navier_stokes_matrix.h:292-340. -/
def position (k dim batch q : ℕ) : ℕ := nPoints (flowQuadratures k) quadIndexU dim * batch + q

/-- The two solvers: polynomial degree of the velocity, dimension, subdivisions of the level set element; batches of the two
MatrixFree objects; level set shape functions `S` at the points of `quad_index_vel` of the level set solver, and constraints of
the level set; shape functions `V` of the velocity (last component) at the points of quadrature 1 of the flow solver, with the
weights of that quadrature, and constraints of the velocity. `junk` is what a lane without a cell computes. -/
structure Solvers (K : Type) (L : ℕ) where
  k : ℕ
  dim : ℕ
  subdivisions : ℕ
  ls : Batches L
  ns : Batches L
  S : Space K
  C : Constr K
  V : Space K
  Cu : Constr K
  junk : ℕ → ℕ → Fin L → K

variable (A : Solvers K L) (p : Phases K)

/-- `phi.reinit(cell); phi.gather_evaluate(src, values); phi.get_value(q)`, sharp_interface.h:961-968: constraints are resolved
when the values are read. -/
def Solvers.levelSetValue (x : ℕ → K) (b q : ℕ) (l : Fin L) : K :=
  match A.ls.cell b l with
  | some c => A.S.value (A.C.dist A.S.nDof x) c q
  | none => A.junk b q l

/-- Body of the innermost loop of `update_phases`, sharp_interface.h:967-974. -/
def Solvers.writePoint (x : ℕ → K) (b : ℕ) (t : Tables K L) (q : ℕ) : Tables K L where
  dens := Function.update t.dens (position A.k A.dim b q)
    fun l => p.density + p.density_diff * ((A.levelSetValue x b q l + 1) / 2)
  visc := Function.update t.visc (position A.k A.dim b q)
    fun l => p.viscosity + p.viscosity_diff * ((A.levelSetValue x b q l + 1) / 2)

/-- `update_phases`, sharp_interface.h:941-978. `order` is the order in which `cell_loop` of the level set solver's MatrixFree
visits its batches. -/
def Solvers.updatePhases [DecidableEq K] (x : ℕ → K) (order : List ℕ) (t : Tables K L) : Tables K L :=
  if p.density_diff = 0 ∧ p.viscosity_diff = 0 then t
  else order.foldl (fun t b => (List.range (nPoints (levelSetQuadratures A.k A.subdivisions) quadIndexVel A.dim)).foldl
    (A.writePoint p x b) t) t

/-- Local contributions of one lane of one batch, sharp_interface.h:1041-1055: test function `j`. -/
def Solvers.laneWeight [DecidableEq K] (t : Tables K L) (j b : ℕ) (l : Fin L) : K :=
  match A.ns.cell b l with
  | none => 0
  | some c => ∑ q ∈ range (nPoints (flowQuadratures A.k) quadIndexVel A.dim),
      -(p.gravity * (if p.density_diff = 0 then p.density else t.dens (position A.k A.dim b q) l)) * A.V.val j c q * A.V.jxw c q

/-- `update_gravity_force` with `zero_out = true`, sharp_interface.h:1023-1062: new content of `user_rhs.block(0)`. -/
def Solvers.updateGravity [DecidableEq K] (order : List ℕ) (t : Tables K L) (_old : ℕ → K) : ℕ → K :=
  A.Cu.scatter A.V.nDof fun j => (order.map fun b => ∑ l, A.laneWeight p t j b l).sum

/-! ### Specification -/

/-- All cells `0, …, n-1` of the mesh are in exactly one lane of one batch. -/
def Spec.Covers (B : Batches L) (nCell : ℕ) : Prop :=
  (∀ b < B.n, ∀ l c, B.cell b l = some c → c < nCell) ∧
  ∀ c < nCell, ∃ s : ℕ × Fin L, (s.1 < B.n ∧ B.cell s.1 s.2 = some c) ∧ ∀ s', s'.1 < B.n ∧ B.cell s'.1 s'.2 = some c → s' = s

/-- Density of the mixture where the level set function has the value `φ`. -/
def Spec.density (p : Phases K) (φ : K) : K := p.density + p.density_diff * ((φ + 1) / 2)

/-- Viscosity of the mixture where the level set function has the value `φ`. -/
def Spec.viscosity (p : Phases K) (φ : K) : K := p.viscosity + p.viscosity_diff * ((φ + 1) / 2)

/-- Weight of a fluid with density `ρ` at the points of the velocity quadrature, tested with all velocity functions; the last
axis points upwards. -/
def Spec.weight (V : Space K) (Cu : Constr K) (gravity : K) (ρ : ℕ → ℕ → K) : ℕ → K :=
  Cu.scatter V.nDof fun j => ∑ c ∈ range V.nCell, ∑ q ∈ range V.nQ, -(gravity * ρ c q) * V.val j c q * V.jxw c q

/-! ### Tables -/

theorem nPoints_flow_u (k dim : ℕ) : nPoints (flowQuadratures k) quadIndexU dim = (k + 1) ^ dim := rfl
theorem nPoints_flow_1 (k dim : ℕ) : nPoints (flowQuadratures k) quadIndexVel dim = k ^ dim := rfl
theorem nPoints_ls_1 (k s dim : ℕ) : nPoints (levelSetQuadratures k s) quadIndexVel dim = (k + 1) ^ dim := rfl

theorem position_inj {k dim b b' q q' : ℕ} (hq : q < (k + 1) ^ dim) (hq' : q' < (k + 1) ^ dim)
    (h : position k dim b q = position k dim b' q') : b = b' ∧ q = q' := by
  unfold position at h
  rw [nPoints_flow_u] at h
  generalize (k + 1) ^ dim = n at h hq hq'
  have h1 : (n * b + q) / n = (n * b' + q') / n := by rw [h]
  have h2 : (n * b + q) % n = (n * b' + q') % n := by rw [h]
  rw [Nat.mul_add_div (by omega), Nat.mul_add_div (by omega), Nat.div_eq_of_lt hq, Nat.div_eq_of_lt hq'] at h1
  rw [Nat.mul_add_mod, Nat.mul_add_mod, Nat.mod_eq_of_lt hq, Nat.mod_eq_of_lt hq'] at h2
  exact ⟨by omega, h2⟩

/-- **C116 (memory).** All positions written by `update_phases` for batch `b` lie inside the tables, of
`n_cell_batches * n_q_points` entries, if the flow solver has a batch `b`; all positions read by `update_gravity_force` do. -/
theorem C116_memory (k dim s nBatches : ℕ) (b q : ℕ) (hb : b < nBatches) :
    (q < nPoints (levelSetQuadratures k s) quadIndexVel dim →
      position k dim b q < nBatches * nPoints (flowQuadratures k) quadIndexU dim) ∧
    (q < nPoints (flowQuadratures k) quadIndexVel dim →
      position k dim b q < nBatches * nPoints (flowQuadratures k) quadIndexU dim) := by
  have key : q < (k + 1) ^ dim → position k dim b q < nBatches * (k + 1) ^ dim := by
    intro h
    unfold position
    rw [nPoints_flow_u]
    calc (k + 1) ^ dim * b + q < (k + 1) ^ dim * b + (k + 1) ^ dim := by omega
      _ = (b + 1) * (k + 1) ^ dim := by ring
      _ ≤ nBatches * (k + 1) ^ dim := Nat.mul_le_mul_right _ hb
  refine ⟨key, fun h => key (lt_of_lt_of_le h ?_)⟩
  rw [nPoints_flow_1]
  exact Nat.pow_le_pow_left (Nat.le_succ k) dim

theorem writeBatch (x : ℕ → K) (b : ℕ) (t : Tables K L) (m : ℕ) (hm : m ≤ (A.k + 1) ^ A.dim) (b' q : ℕ)
    (hq : q < (A.k + 1) ^ A.dim) (l : Fin L) :
    ((List.range m).foldl (A.writePoint p x b) t).dens (position A.k A.dim b' q) l =
        (if b' = b ∧ q < m then p.density + p.density_diff * ((A.levelSetValue x b q l + 1) / 2)
          else t.dens (position A.k A.dim b' q) l) ∧
      ((List.range m).foldl (A.writePoint p x b) t).visc (position A.k A.dim b' q) l =
        (if b' = b ∧ q < m then p.viscosity + p.viscosity_diff * ((A.levelSetValue x b q l + 1) / 2)
          else t.visc (position A.k A.dim b' q) l) := by
  induction m with
  | zero => simp
  | succ m ih =>
    have ih := ih (by omega)
    rw [List.range_succ, List.foldl_append, List.foldl_cons, List.foldl_nil]
    by_cases hpos : position A.k A.dim b' q = position A.k A.dim b m
    · obtain ⟨rfl, rfl⟩ := position_inj hq (by omega) hpos
      simp [Solvers.writePoint]
    · have hne : ¬(b' = b ∧ q = m) := fun ⟨h1, h2⟩ => hpos (by rw [h1, h2])
      have hiff : (b' = b ∧ q < m + 1) ↔ (b' = b ∧ q < m) := by
        constructor
        · rintro ⟨h1, h2⟩
          exact ⟨h1, by have := fun h => hne ⟨h1, h⟩; omega⟩
        · rintro ⟨h1, h2⟩; exact ⟨h1, by omega⟩
      constructor
      · rw [show (A.writePoint p x b _ m).dens (position A.k A.dim b' q) = _ from Function.update_of_ne hpos _ _, ih.1]
        exact if_congr hiff.symm rfl rfl
      · rw [show (A.writePoint p x b _ m).visc (position A.k A.dim b' q) = _ from Function.update_of_ne hpos _ _, ih.2]
        exact if_congr hiff.symm rfl rfl

variable [DecidableEq K]

/-- What the tables hold after `update_phases`: each visited batch holds the values its lanes have in the *level set* numbering.
The old contents do not matter. -/
theorem stored_eq (x : ℕ → K) (order : List ℕ) (t : Tables K L) (hp : ¬(p.density_diff = 0 ∧ p.viscosity_diff = 0)) (b q : ℕ)
    (hb : b ∈ order) (hq : q < (A.k + 1) ^ A.dim) (l : Fin L) :
    (A.updatePhases p x order t).dens (position A.k A.dim b q) l = Spec.density p (A.levelSetValue x b q l) ∧
      (A.updatePhases p x order t).visc (position A.k A.dim b q) l = Spec.viscosity p (A.levelSetValue x b q l) := by
  unfold Solvers.updatePhases Spec.density Spec.viscosity
  rw [if_neg hp, nPoints_ls_1]
  induction order using List.reverseRecOn with
  | nil => simp at hb
  | append_singleton o a ih =>
    rw [List.foldl_append, List.foldl_cons, List.foldl_nil]
    have hw := writeBatch A p x a (o.foldl (fun t b => (List.range ((A.k + 1) ^ A.dim)).foldl (A.writePoint p x b) t) t)
      _ le_rfl b q hq l
    rw [hw.1, hw.2]
    by_cases hba : b = a
    · subst hba; simp [hq]
    · have hb' : b ∈ o := by simpa [hba] using hb
      simpa [hba] using ih hb'

/-- **C116 (material values, partial).** If the two MatrixFree objects number the cells in the same way and no fluid type is
prescribed at a boundary (no constraints on the level set), then after `update_phases` the tables of the flow solver hold, for
every cell and every velocity quadrature point, density and viscosity belonging to the level set function at that point - whatever
they held before, provided the two phases differ.
Missing: other numberings (`C116_other_numbering`), prescribed fluid types (`C116_open_boundary`). -/
theorem C116_material_values_partial (x : ℕ → K) (order : List ℕ) (t : Tables K L)
    (hp : ¬(p.density_diff = 0 ∧ p.viscosity_diff = 0)) (hC : ∀ i, A.C.row i = none)
    (hnum : ∀ b ∈ order, ∀ l, A.ls.cell b l = A.ns.cell b l) (b q c : ℕ) (l : Fin L)
    (hb : b ∈ order) (hq : q < (A.k + 1) ^ A.dim) (hc : A.ns.cell b l = some c) :
    (A.updatePhases p x order t).dens (position A.k A.dim b q) l = Spec.density p (A.S.value x c q) ∧
      (A.updatePhases p x order t).visc (position A.k A.dim b q) l = Spec.viscosity p (A.S.value x c q) := by
  have hx : A.C.dist A.S.nDof x = x := by
    funext i; unfold Constr.dist; rw [hC i]
  have hv : A.levelSetValue x b q l = A.S.value x c q := by
    unfold Solvers.levelSetValue; rw [hnum b hb l, hc, hx]
  have := stored_eq A p x order t hp b q hb hq l
  rwa [hv] at this

/-- **C116 (equal phases).** If the two phases are equal the tables are left alone; they are not used then. -/
theorem C116_equal_phases (x : ℕ → K) (order : List ℕ) (t : Tables K L) (h1 : p.density_diff = 0) (h2 : p.viscosity_diff = 0) :
    A.updatePhases p x order t = t := if_pos ⟨h1, h2⟩

/-- **C116 (violation, numbering).** The flow solver's slot of cell `c` receives the density of the cell `c'` that the level set
solver has in this slot: it is right exactly if the two level set values agree (for a nonzero density difference). -/
theorem C116_other_numbering [CharZero K] (x : ℕ → K) (order : List ℕ) (t : Tables K L) (hd : p.density_diff ≠ 0)
    (hC : ∀ i, A.C.row i = none) (b q c c' : ℕ) (l : Fin L) (hb : b ∈ order) (hq : q < (A.k + 1) ^ A.dim)
    (_hc : A.ns.cell b l = some c) (hc' : A.ls.cell b l = some c') :
    (A.updatePhases p x order t).dens (position A.k A.dim b q) l = Spec.density p (A.S.value x c q) ↔
      A.S.value x c' q = A.S.value x c q := by
  have hx : A.C.dist A.S.nDof x = x := by
    funext i; unfold Constr.dist; rw [hC i]
  have hv : A.levelSetValue x b q l = A.S.value x c' q := by
    unfold Solvers.levelSetValue; rw [hc', hx]
  rw [(stored_eq A p x order t (fun h => hd h.1) b q hb hq l).1, hv]
  unfold Spec.density
  constructor
  · intro h
    have h2 := mul_left_cancel₀ hd (add_left_cancel h)
    rw [div_left_inj' (by norm_num)] at h2
    exact add_right_cancel h2
  · intro h; rw [h]

/-! ### Boundaries with a prescribed fluid -/

/-- Share of the prescribed nodes in the partition of unity at a point. -/
def Spec.boundaryShare (S : Space K) (prescribed : ℕ → Bool) (c q : ℕ) : K :=
  ∑ i ∈ range S.nDof, if prescribed i then S.val i c q else 0

/-- **C116 (violation, prescribed fluid).** Let fluid types be registered for some boundaries (constraints of the level set
as built by the solver, C73). In a cell that is filled by one fluid, `φ = g` at all nodes, the density stored for a point is that
of the level set value `g (1 - W)`, where `W` is the share of the boundary nodes at this point: wrong as soon as `W ≠ 0`, because
the constrained nodes are read as zero, the middle between the fluids. -/
theorem C116_open_boundary [LinearOrder K] [IsStrictOrderedRing K] (M : Verif.LevelSet.LsMesh K) (m : Verif.Boundary.Map Int)
    (hC : A.C = M.constraints m false)
    (x : ℕ → K) (g : K) (order : List ℕ) (t : Tables K L) (hd : p.density_diff ≠ 0) (b q c : ℕ) (l : Fin L)
    (hb : b ∈ order) (hq : q < (A.k + 1) ^ A.dim) (hc : A.ls.cell b l = some c)
    (hone : ∑ i ∈ range A.S.nDof, A.S.val i c q = 1) (hx : ∀ i < A.S.nDof, A.S.val i c q ≠ 0 → x i = g) :
    (A.updatePhases p x order t).dens (position A.k A.dim b q) l =
        Spec.density p (g * (1 - Spec.boundaryShare A.S (fun i => (M.boundaryValues m i).isSome) c q)) ∧
      A.S.value x c q = g ∧
      (g ≠ 0 → Spec.boundaryShare A.S (fun i => (M.boundaryValues m i).isSome) c q ≠ 0 →
        (A.updatePhases p x order t).dens (position A.k A.dim b q) l ≠ Spec.density p (A.S.value x c q)) := by
  have hval : A.S.value x c q = g := by
    unfold Space.value
    calc _ = ∑ i ∈ range A.S.nDof, g * A.S.val i c q := by
          refine sum_congr rfl fun i hi => ?_
          by_cases h0 : A.S.val i c q = 0
          · rw [h0, mul_zero, mul_zero]
          · rw [hx i (mem_range.1 hi) h0]
      _ = g := by rw [← mul_sum, hone, mul_one]
  have hdist : ∀ i, A.C.dist A.S.nDof x i = if (M.boundaryValues m i).isSome then 0 else x i := by
    intro i
    rw [hC]
    unfold Constr.dist Verif.LevelSet.LsMesh.constraints
    dsimp only
    by_cases h : (M.boundaryValues m i).isSome = true
    · simp [h]
    · simp [h]
  have hls : A.levelSetValue x b q l =
      g * (1 - Spec.boundaryShare A.S (fun i => (M.boundaryValues m i).isSome) c q) := by
    unfold Solvers.levelSetValue
    rw [hc]
    dsimp only
    unfold Space.value Spec.boundaryShare
    rw [← hone, ← sum_sub_distrib, mul_sum]
    refine sum_congr rfl fun i hi => ?_
    rw [hdist]
    by_cases h : (M.boundaryValues m i).isSome = true
    · rw [if_pos h, if_pos h]; ring
    · rw [if_neg h, if_neg h, sub_zero]
      by_cases h0 : A.S.val i c q = 0
      · rw [h0, mul_zero, mul_zero]
      · rw [hx i (mem_range.1 hi) h0]
  have hst := (stored_eq A p x order t (fun h => hd h.1) b q hb hq l).1
  rw [hls] at hst
  refine ⟨hst, hval, fun hg hW => ?_⟩
  rw [hst, hval]
  unfold Spec.density
  intro h
  have h2 := mul_left_cancel₀ hd (add_left_cancel h)
  rw [div_left_inj' two_ne_zero] at h2
  have h3 : g * (1 - Spec.boundaryShare A.S (fun i => (M.boundaryValues m i).isSome) c q) = g * 1 := by
    rw [mul_one]; exact add_right_cancel h2
  have h4 := mul_left_cancel₀ hg h3
  exact hW (by linarith)

/-! ### Gravity -/

theorem Spec.Covers.sum {B : Batches L} {nCell : ℕ} (h : Spec.Covers B nCell) (f : ℕ → K) :
    ∑ b ∈ range B.n, ∑ l, (match B.cell b l with | none => 0 | some c => f c) = ∑ c ∈ range nCell, f c := by
  have h1 : ∀ b ∈ range B.n, ∀ l : Fin L, (match B.cell b l with | none => (0 : K) | some c => f c) =
      ∑ c ∈ range nCell, if B.cell b l = some c then f c else 0 := by
    intro b hb l
    cases hc : B.cell b l with
    | none => simp
    | some c =>
      have := h.1 b (mem_range.1 hb) l c hc
      simp [this]
  rw [sum_congr rfl fun b hb => sum_congr rfl fun l _ => h1 b hb l]
  rw [sum_congr rfl fun b _ => sum_comm, sum_comm]
  refine sum_congr rfl fun c hc => ?_
  obtain ⟨s, hs, hu⟩ := h.2 c (mem_range.1 hc)
  rw [← sum_product' (range B.n) univ (fun b l => if B.cell b l = some c then f c else 0)]
  rw [sum_eq_single s]
  · rw [if_pos hs.2]
  · intro s' hs' hne
    rw [if_neg fun hc' => hne (hu s' ⟨mem_range.1 (mem_product.1 hs').1, hc'⟩)]
  · intro hn
    exact absurd (mem_product.2 ⟨mem_range.2 hs.1, mem_univ _⟩) hn

theorem scatter_congr' (C : Constr K) (n : ℕ) {f g : ℕ → K} (h : ∀ j, f j = g j) : C.scatter n f = C.scatter n g := by
  rw [show f = g from funext h]

theorem list_sum_perm {n : ℕ} {order : List ℕ} (h : order.Perm (List.range n)) (f : ℕ → K) :
    (order.map f).sum = ∑ b ∈ range n, f b := by
  rw [(h.map f).sum_eq]
  clear h
  induction n with
  | zero => rfl
  | succ n ih => rw [List.range_succ, List.map_append, List.sum_append, sum_range_succ, ih]; simp

/-- **C116 (gravity, partial).** For equal numberings the new right hand side is a weight: at point `q` of the quadrature with
`k^dim` points it uses the density belonging to the level set value at point `q` of the *other* quadrature, with `(k+1)^dim`
points. Nothing of the old content remains, and the order of the batches does not matter.
Missing: the density at the point itself (`C116_gravity_layered`, `C116_gravity_top_layer`); see `C116_gravity_uniform` and
`C116_gravity_equal_densities` for the cases in which this makes no difference. -/
theorem C116_gravity_partial (x old : ℕ → K) (o1 o2 : List ℕ) (t : Tables K L) (hd : p.density_diff ≠ 0)
    (hC : ∀ i, A.C.row i = none) (ho1 : o1.Perm (List.range A.ls.n)) (ho2 : o2.Perm (List.range A.ns.n))
    (hn : A.ls.n = A.ns.n) (hnum : ∀ b < A.ns.n, ∀ l, A.ls.cell b l = A.ns.cell b l)
    (hcov : Spec.Covers A.ns A.V.nCell) (hV : A.V.nQ = A.k ^ A.dim) :
    A.updateGravity p o2 (A.updatePhases p x o1 t) old =
      Spec.weight A.V A.Cu p.gravity fun c q => Spec.density p (A.S.value x c q) := by
  unfold Solvers.updateGravity Spec.weight
  refine scatter_congr' _ _ fun j => ?_
  rw [list_sum_perm ho2, ← hcov.sum fun c => ∑ q ∈ range A.V.nQ,
    -(p.gravity * Spec.density p (A.S.value x c q)) * A.V.val j c q * A.V.jxw c q]
  refine sum_congr rfl fun b hb => sum_congr rfl fun l _ => ?_
  have hbn := mem_range.1 hb
  unfold Solvers.laneWeight
  cases hc : A.ns.cell b l with
  | none => rfl
  | some c =>
    dsimp only
    rw [nPoints_flow_1, hV]
    refine sum_congr rfl fun q hq => ?_
    have hq' : q < (A.k + 1) ^ A.dim :=
      lt_of_lt_of_le (mem_range.1 hq) (Nat.pow_le_pow_left (Nat.le_succ _) _)
    have hb1 : b ∈ o1 := ho1.mem_iff.2 (List.mem_range.2 (hn ▸ hbn))
    rw [if_neg hd, (C116_material_values_partial A p x o1 t (fun h => hd h.1) hC
      (fun b hb l => hnum b (hn ▸ List.mem_range.1 (ho1.mem_iff.1 hb)) l) b q c l hb1 hq' hc).1]

/-- **C116 (gravity, equal densities).** If the densities are equal the right hand side is the weight of this fluid, for all
numberings and whatever the tables hold. -/
theorem C116_gravity_equal_densities (old : ℕ → K) (o2 : List ℕ) (t : Tables K L) (hd : p.density_diff = 0)
    (ho2 : o2.Perm (List.range A.ns.n)) (hcov : Spec.Covers A.ns A.V.nCell) (hV : A.V.nQ = A.k ^ A.dim) :
    A.updateGravity p o2 t old = Spec.weight A.V A.Cu p.gravity fun _ _ => p.density := by
  unfold Solvers.updateGravity Spec.weight
  refine scatter_congr' _ _ fun j => ?_
  rw [list_sum_perm ho2, ← hcov.sum fun c => ∑ q ∈ range A.V.nQ,
    -(p.gravity * p.density) * A.V.val j c q * A.V.jxw c q]
  refine sum_congr rfl fun b _ => sum_congr rfl fun l _ => ?_
  unfold Solvers.laneWeight
  cases hc : A.ns.cell b l with
  | none => rfl
  | some c =>
    dsimp only
    rw [nPoints_flow_1, hV]
    exact sum_congr rfl fun q _ => by rw [if_pos hd]

/-- **C116 (gravity, cells without interface).** If the level set function is constant, `φ c`, in every cell, the right hand side
is the weight of the fluids. -/
theorem C116_gravity_uniform (x old : ℕ → K) (o1 o2 : List ℕ) (t : Tables K L) (hd : p.density_diff ≠ 0)
    (hC : ∀ i, A.C.row i = none) (ho1 : o1.Perm (List.range A.ls.n)) (ho2 : o2.Perm (List.range A.ns.n))
    (hn : A.ls.n = A.ns.n) (hnum : ∀ b < A.ns.n, ∀ l, A.ls.cell b l = A.ns.cell b l)
    (hcov : Spec.Covers A.ns A.V.nCell) (hV : A.V.nQ = A.k ^ A.dim) (φ : ℕ → K)
    (hφ : ∀ c < A.V.nCell, ∀ q < (A.k + 1) ^ A.dim, A.S.value x c q = φ c) :
    A.updateGravity p o2 (A.updatePhases p x o1 t) old =
      Spec.weight A.V A.Cu p.gravity fun c _ => Spec.density p (φ c) := by
  rw [C116_gravity_partial A p x old o1 o2 t hd hC ho1 ho2 hn hnum hcov hV]
  unfold Spec.weight
  refine scatter_congr' _ _ fun j => sum_congr rfl fun c hc => sum_congr rfl fun q hq => ?_
  dsimp only
  rw [hφ c (mem_range.1 hc) q (lt_of_lt_of_le (hV ▸ mem_range.1 hq) (Nat.pow_le_pow_left (Nat.le_succ _) _))]

/-- **C116 (violation, top layer of points).** Points are numbered with the last coordinate running slowest, so the layer of
point `q` of the velocity quadrature in direction of gravity is `q / (k+1)^(dim-1)`. Gravity does not depend on the level set in
the highest layer of points of any cell: two interface positions that differ only there have the same weight. -/
theorem C116_gravity_top_layer (x y old old' : ℕ → K) (o1 o2 : List ℕ) (t t' : Tables K L) (hd : p.density_diff ≠ 0)
    (hC : ∀ i, A.C.row i = none) (ho1 : o1.Perm (List.range A.ls.n)) (ho2 : o2.Perm (List.range A.ns.n))
    (hn : A.ls.n = A.ns.n) (hnum : ∀ b < A.ns.n, ∀ l, A.ls.cell b l = A.ns.cell b l)
    (hcov : Spec.Covers A.ns A.V.nCell) (hV : A.V.nQ = A.k ^ A.dim) (hdim : 0 < A.dim)
    (hxy : ∀ c < A.V.nCell, ∀ q, q / (A.k + 1) ^ (A.dim - 1) < A.k → A.S.value x c q = A.S.value y c q) :
    A.updateGravity p o2 (A.updatePhases p x o1 t) old = A.updateGravity p o2 (A.updatePhases p y o1 t') old' := by
  rw [C116_gravity_partial A p x old o1 o2 t hd hC ho1 ho2 hn hnum hcov hV,
    C116_gravity_partial A p y old' o1 o2 t' hd hC ho1 ho2 hn hnum hcov hV]
  unfold Spec.weight
  refine scatter_congr' _ _ fun j => sum_congr rfl fun c hc => sum_congr rfl fun q hq => ?_
  dsimp only
  rw [hxy c (mem_range.1 hc) q]
  have hq := mem_range.1 hq
  rw [hV] at hq
  obtain ⟨d, hd'⟩ : ∃ d, A.dim = d + 1 := ⟨A.dim - 1, by omega⟩
  rw [hd'] at hq ⊢
  rw [Nat.div_lt_iff_lt_mul (Nat.pow_pos (Nat.succ_pos _))]
  calc q < A.k ^ (d + 1) := hq
    _ = A.k * A.k ^ d := by rw [Nat.pow_succ, Nat.mul_comm]
    _ ≤ A.k * (A.k + 1) ^ (d + 1 - 1) := Nat.mul_le_mul_left _ (Nat.pow_le_pow_left (Nat.le_succ _) _)

/-- **C116 (violation, layered fluid).** Velocity degree 2 in two dimensions, one cell `[0,1]²`, equal weights `1/4` of the
four-point rule, level set `φ = 2y - 1` (indicator `y`), velocity function `1` without constraints; `a, 1/2, 1 - a` are the
coordinates of the three-point rule. The weight of the layered fluid should be `-g (ρ + Δρ / 2)`; the code computes
`-g (ρ + Δρ (6a + 1) / 8)`, which is something else for every rule with `a ≠ 1/2` (for the Gauss rule with `a ≈ 0.11` less than
half of the weight due to `Δρ`). -/
theorem C116_gravity_layered [CharZero K] (x old : ℕ → K) (o1 o2 : List ℕ) (t : Tables K L) (a : K) (hd : p.density_diff ≠ 0)
    (hC : ∀ i, A.C.row i = none) (ho1 : o1.Perm (List.range A.ls.n)) (ho2 : o2.Perm (List.range A.ns.n))
    (hn : A.ls.n = A.ns.n) (hnum : ∀ b < A.ns.n, ∀ l, A.ls.cell b l = A.ns.cell b l)
    (hk : A.k = 2) (hdim : A.dim = 2) (h1 : A.V.nCell = 1) (hcov : Spec.Covers A.ns A.V.nCell) (hV : A.V.nQ = 4)
    (hCu : ∀ i, A.Cu.row i = none) (hjxw : ∀ q, A.V.jxw 0 q = 1 / 4) (hval : ∀ q, A.V.val 0 0 q = 1)
    (hφ : ∀ q, A.S.value x 0 q = 2 * (if q / 3 = 0 then a else if q / 3 = 1 then 1 / 2 else 1 - a) - 1) :
    A.updateGravity p o2 (A.updatePhases p x o1 t) old 0 =
        -(p.gravity * (p.density + p.density_diff * ((6 * a + 1) / 8))) ∧
      (a ≠ 1 / 2 → p.gravity ≠ 0 → A.updateGravity p o2 (A.updatePhases p x o1 t) old 0 ≠
        -(p.gravity * (p.density + p.density_diff * (1 / 2)))) := by
  have hval' : A.updateGravity p o2 (A.updatePhases p x o1 t) old 0 =
        -(p.gravity * (p.density + p.density_diff * ((6 * a + 1) / 8))) := by
    rw [C116_gravity_partial A p x old o1 o2 t hd hC ho1 ho2 hn hnum hcov (by rw [hV, hk, hdim]; rfl)]
    unfold Spec.weight Constr.scatter
    simp only [hCu, Option.isSome_none, Bool.false_eq_true, if_false, sum_const_zero, add_zero, h1, hV, range_one,
      sum_singleton, hjxw, hval, hφ, Spec.density]
    simp only [sum_range_succ, sum_range_zero]
    norm_num
    ring
  refine ⟨hval', fun ha hg h => ?_⟩
  rw [hval'] at h
  have h2 := mul_left_cancel₀ hg (neg_injective h)
  have h3 := mul_left_cancel₀ hd (add_left_cancel h2)
  apply ha
  have h8 : (8 : K) ≠ 0 := by norm_num
  rw [div_eq_iff h8] at h3
  have h6 : (6 : K) ≠ 0 := by norm_num
  apply mul_left_cancel₀ h6
  linear_combination h3

/-! ### Non-vacuity -/

/-- One cell, two lanes, degree 2 in two dimensions; the level set is `φ = 2y - 1` on a bilinear cell at the points of a rule
with coordinates `1/10, 1/2, 9/10`. -/
def exSolvers : Solvers ℚ 2 where
  k := 2
  dim := 2
  subdivisions := 1
  ls := ⟨1, fun _ l => if l = 0 then some 0 else none⟩
  ns := ⟨1, fun _ l => if l = 0 then some 0 else none⟩
  S := { dim := 2, nDof := 2, nCell := 1, nQ := 9
         val := fun i _ q => let y := if q / 3 = 0 then 1 / 10 else if q / 3 = 1 then 1 / 2 else 1 - 1 / 10
                             if i = 0 then 1 - y else y
         grad := fun _ _ _ _ => 0, jxw := fun _ _ => 1 / 9 }
  C := ⟨fun _ => none⟩
  V := { dim := 2, nDof := 1, nCell := 1, nQ := 4, val := fun _ _ _ => 1, grad := fun _ _ _ _ => 0, jxw := fun _ _ => 1 / 4 }
  Cu := ⟨fun _ => none⟩
  junk := fun _ _ _ => 7

def exPhases : Phases ℚ := ⟨1, 1000, 1, 0, 10⟩

/-- level set `-1` at the bottom, `1` at the top -/
def exLevelSet : ℕ → ℚ := fun i => if i = 0 then -1 else 1

example : (exSolvers.updateGravity exPhases [0] (exSolvers.updatePhases exPhases exLevelSet [0] ⟨fun _ _ => 5, fun _ _ => 5⟩)
    fun _ => 3) 0 = -2010 ∧ -(exPhases.gravity * (exPhases.density + exPhases.density_diff * (1 / 2))) = -5010 := by
  decide +kernel

example : Spec.Covers exSolvers.ns exSolvers.V.nCell := by
  constructor
  · intro b hb l c h
    have : c = 0 := by
      by_cases hl : l = 0
      · simp [exSolvers, hl] at h; exact h.symm
      · simp [exSolvers, hl] at h
    rw [this]; decide
  · intro c hc
    have : c = 0 := by simpa [exSolvers] using hc
    subst this
    refine ⟨(0, 0), ⟨by decide, by decide⟩, ?_⟩
    rintro ⟨b, l⟩ ⟨hb, hl⟩
    have hb0 : b = 0 := by simpa [exSolvers] using hb
    have hl0 : l = 0 := by
      by_contra hne
      simp [exSolvers, hne] at hl
    rw [hb0, hl0]

/-- the hypotheses of `C116_gravity_layered` hold for the example -/
example : (∀ q, exSolvers.S.value exLevelSet 0 q =
      2 * (if q / 3 = 0 then 1 / 10 else if q / 3 = 1 then 1 / 2 else 1 - 1 / 10) - 1) ∧
    (∀ i, exSolvers.C.row i = none) ∧ ([0] : List ℕ).Perm (List.range exSolvers.ns.n) ∧
    (∀ b < exSolvers.ns.n, ∀ l, exSolvers.ls.cell b l = exSolvers.ns.cell b l) ∧ exSolvers.V.nQ = 4 := by
  refine ⟨fun q => ?_, fun _ => rfl, by decide, fun _ _ _ => rfl, rfl⟩
  by_cases h0 : q / 3 = 0
  · simp only [Space.value, exSolvers, exLevelSet, sum_range_succ, sum_range_zero, h0]; norm_num
  · by_cases h1 : q / 3 = 1
    · simp only [Space.value, exSolvers, exLevelSet, sum_range_succ, sum_range_zero, h1]; norm_num
    · simp only [Space.value, exSolvers, exLevelSet, sum_range_succ, sum_range_zero, h0, h1]; norm_num

/-- a cell at a boundary with prescribed fluid: node 0 of the cell lies on the boundary 3 with fluid `1` -/
def exMesh : Verif.LevelSet.LsMesh ℚ := ⟨2, [(3, [0])], fun _ => none⟩

/-- pure fluid `φ = 1`; the stored density at the lowest point is that of `φ = 1/10` instead of `1` -/
example :
    let A : Solvers ℚ 2 := { exSolvers with C := exMesh.constraints [(3, 1)] false }
    (exMesh.boundaryValues [(3, 1)] 0).isSome = true ∧
    Spec.boundaryShare A.S (fun i => (exMesh.boundaryValues [(3, 1)] i).isSome) 0 0 = 9 / 10 ∧
    (A.updatePhases exPhases (fun _ => 1) [0] ⟨fun _ _ => 5, fun _ _ => 5⟩).dens 0 0 = 551 ∧
    Spec.density exPhases (A.S.value (fun _ => 1) 0 0) = 1001 := by
  decide +kernel

end Verif.Sharp.Mixed
