import Verif.LevelSet.NormalCurvature
import Verif.LevelSet.Balance
import Verif.Precond.Wrapper
import Mathlib.Algebra.Order.Ring.Abs
import Mathlib.Tactic.Linarith
import Mathlib.Tactic.FieldSimp
import Mathlib.Tactic.Positivity
import Mathlib.Tactic.IntervalCases

/-!
# C93: normals, curvature and force of the matrix-based level set solver
(source/level_set_okz_matrix.cc: compute_force 95-311, compute_normal 624-714, compute_curvature 727-818)

Finite element loops as in `Verif.FE.Space`; the loops over the cells with the re-used cell matrix and the distribution to the
global matrix are explicit. Solutions of the linear systems are exact. One process.
-/

set_option linter.unusedSectionVars false

namespace Verif.LevelSet.MatrixForce

open Finset Verif.FE Verif.LevelSet
open Verif.Precond.Pattern (Block raw conDiag assembled)
open Verif.Precond.Wrapper (matVmult matVmult_assembled)

variable {K : Type*} [Field K] [LinearOrder K] [IsStrictOrderedRing K]

/-! ## Model: projection matrix -/

/-- Damping of the normals, lines 646-649 (`base` 4, anisotropic 16), and of the curvature, lines 750-753 (1/2 and 4). -/
def damping (curvature aniso : Bool) (epsilonUsed epsilon : K) : K :=
  (if curvature then (if aniso then 4 else 1 / 2) else (if aniso then 16 else 4)) * ((epsilonUsed / epsilon) * (epsilonUsed / epsilon))

/-- Contribution of quadrature point `q`, lines 672-680 (the same in 786-794). -/
def pointEntry (S : Space K) (δ : K) (dof : ℕ → ℕ → ℕ) (c q i j : ℕ) : K :=
  (S.val (dof c i) c q * S.val (dof c j) c q +
    (∑ d ∈ range S.dim, S.grad (dof c i) c q d * S.grad (dof c j) c q d) * δ) * S.jxw c q

/-- `cell_matrix` after cell `c`, given its value before: lines 663-664 (set to zero) and 671-680 (accumulation), both only if the
cell is no translation of the previous one. -/
def cellMatrix (S : Space K) (δ : K) (dof : ℕ → ℕ → ℕ) (sim : Bool) (c : ℕ) (M : ℕ → ℕ → K) : ℕ → ℕ → K :=
  let M := if sim = false then fun _ _ => 0 else M
  (List.range S.nQ).foldl (fun M q => if sim = false then fun i j => M i j + pointEntry S δ dof c q i j else M) M

/-- The loop over the cells, lines 655-699: `cell_matrix` is kept between the cells; local matrices with their indices.
`sim c` is `get_cell_similarity() == translation` when cell `c` is visited. `distribute_local_to_global` puts the absolute value of
the local diagonal on constrained rows. -/
def cellLoop (S : Space K) (δ : K) (dpc : ℕ) (dof : ℕ → ℕ → ℕ) (sim : ℕ → Bool) : List ℕ → (ℕ → ℕ → K) → List (Block K)
  | [], _ => []
  | c :: cs, M =>
    let M := cellMatrix S δ dof (sim c) c M
    ⟨dpc, dof c, M, fun i => |M i i|⟩ :: cellLoop S δ dpc dof sim cs M

/-- Sum of the vectors distributed by the loop over the cells, before the constraints are resolved. -/
def rawVec (dpc : ℕ) (dof : ℕ → ℕ → ℕ) (L : ℕ → ℕ → K) (cells : List ℕ) (I : ℕ) : K :=
  (cells.map fun c => ∑ i ∈ range dpc, if dof c i = I then L c i else 0).sum

/-- Right hand side for component `e` of the normals, lines 657-699; `get_function_gradients` reads the level set values of the
cell. -/
def normalRhs (S : Space K) (C : Constr K) (dpc : ℕ) (dof : ℕ → ℕ → ℕ) (cells : List ℕ) (φ : ℕ → K) (e k : ℕ) : K :=
  C.scatter S.nDof (rawVec dpc dof (fun c i => ∑ q ∈ range S.nQ,
    S.val (dof c i) c q * (∑ j ∈ range dpc, φ (dof c j) * S.grad (dof c j) c q e) * S.jxw c q) cells) k

/-- `normals[q][d]`, lines 764-774. -/
def pointNormal (S : Space K) (dpc : ℕ) (dof : ℕ → ℕ → ℕ) (n : ℕ → ℕ → K) (c q d : ℕ) : K :=
  ∑ i ∈ range dpc, S.val (dof c i) c q * n d (dof c i)

/-- Normalization at a quadrature point, lines 779-783. -/
def normalizePoint (nrm : (ℕ → K) → K) (v : ℕ → K) (d : ℕ) : K :=
  if 1 / 10 ^ 8 < nrm v then v d / nrm v else v d * 10 ^ 8

/-- Right hand side of the curvature, lines 776-806; `n d` is block `d` of the normal field. -/
def curvatureRhs (S : Space K) (C : Constr K) (dpc : ℕ) (dof : ℕ → ℕ → ℕ) (cells : List ℕ) (nrm : (ℕ → K) → K) (n : ℕ → ℕ → K)
    (k : ℕ) : K :=
  C.scatter S.nDof (rawVec dpc dof (fun c i => ∑ q ∈ range S.nQ,
    (∑ d ∈ range S.dim, S.grad (dof c i) c q d * normalizePoint nrm (pointNormal S dpc dof n c q) d) * S.jxw c q) cells) k

/-! ## Model: force -/

/-- Geometry: `jac0 q d l`, `pGrad0 j q d` are Jacobian and pressure gradients on the first active cell with the default mapping
(lines 133-144); `inv c q l d` is `inverse_jacobian` on cell `c` with the mapping of the solver. -/
structure Geometry (K : Type*) where
  jac0 : ℕ → ℕ → ℕ → K
  pGrad0 : ℕ → ℕ → ℕ → K
  inv : ℕ → ℕ → ℕ → ℕ → K

/-- Parameters; `heaviside` is `surface_tension_from_heaviside`, `tau1` and `tau2` are those of the time stepping. -/
structure Params (K : Type*) where
  F : ForceParams K
  heaviside : Bool
  tau1 : K
  tau2 : K
  stepNo : ℕ

/-- Local values on the cells: level set, its Heaviside function, curvature, and the old level set and curvature. -/
structure Fields (K : Type*) where
  c : ℕ → ℕ → K
  H : ℕ → ℕ → K
  w : ℕ → ℕ → K
  cOld : ℕ → ℕ → K
  wOld : ℕ → ℕ → K

section Force

variable (p : Params K) (S : ForceCells K) (G : Geometry K) (f : Fields K)

/-- `gradients_c(j, q)`, lines 138-143. -/
def gradTable (j q l : ℕ) : K := ∑ d ∈ range p.F.dim, G.jac0 q d l * G.pGrad0 j q d

/-- Accesses to `gradients_c` (rows, columns) in lines 138-143; the table has `fe->dofs_per_cell` rows (line 123). -/
def tableAccesses (nP nQ : ℕ) : List (ℕ × ℕ) := (List.range nP).flatMap fun i => (List.range nQ).map fun q => (i, q)

/-- `tau1`, `tau2` of the force, lines 160-161. -/
def Params.t1 : K := if p.stepNo > 1 then p.tau1 else 1
def Params.t2 : K := if p.stepNo > 1 then p.tau2 else 0

/-- Condition in line 232. -/
def Params.useOld : Bool := decide (1 / 10 ^ 14 < p.tau2) && decide (p.stepNo > 1)

/-- The field the force is computed from, lines 199-202, 205-206, 211-213. -/
def source : ℕ → ℕ → K := if p.heaviside then f.H else f.c

/-- `c_gradients[q]`, lines 203-223. -/
def cGradient (c q l : ℕ) : K :=
  if p.F.interpolate = false then S.lsGradient (source p f) c q l
  else ∑ j ∈ range S.nP, (∑ i ∈ range S.nLs, source p f c i * S.interp j i) * gradTable p G j q l

/-- `c_gradients_old[q]`, lines 232-252; the first pressure function is treated separately. Never set (zero, line 154) otherwise. -/
def cGradientOld (c q l : ℕ) : K :=
  if p.useOld then
    if p.F.interpolate = false then S.lsGradient f.cOld c q l
    else (∑ i ∈ range S.nLs, f.cOld c i * S.interp 0 i) * gradTable p G 0 q l +
      ∑ j ∈ Ico 1 S.nP, (∑ i ∈ range S.nLs, f.cOld c i * S.interp j i) * gradTable p G j q l
  else 0

/-- `w_values_old[q]`, line 253: only set if the gradient is interpolated. -/
def wOldValue (c q : ℕ) : K := if p.useOld && p.F.interpolate then S.lsValue f.wOld c q else 0

/-- `actual_rho`, lines 261-283. -/
def density (c q : ℕ) : K :=
  if p.F.variableParameters then
    (if p.heaviside then p.F.density + p.F.densityDiff * S.lsValue (source p f) c q
      else p.F.density + p.F.densityDiff * (1 / 2) * (S.lsValue (source p f) c q + 1))
  else p.F.density

/-- `viscosities[q][vec]`, lines 269-282. -/
def viscosity (c q : ℕ) : K :=
  if p.heaviside then p.F.viscosity + p.F.viscosityDiff * S.lsValue (source p f) c q
  else p.F.viscosity + p.F.viscosityDiff * (1 / 2) * (S.lsValue (source p f) c q + 1)

/-- `grad_c * curvature * surface_tension`, lines 286-292. -/
def tension (c q l : ℕ) : K :=
  (if p.heaviside then 1 else 1 / 2) * (p.t1 * cGradient p S G f c q l + p.t2 * cGradientOld p S G f c q l) *
    (p.t1 * S.lsValue f.w c q + p.t2 * wOldValue p S f c q) * p.F.surfaceTension

/-- `force`, lines 291-297. -/
def matForce (c q d : ℕ) : K :=
  let t := if p.F.interpolate then ∑ l ∈ range p.F.dim, G.inv c q l d * tension p S G f c q l else tension p S G f c q d
  if d + 1 = p.F.dim then t - p.F.gravity * density p S f c q else t

/-! ## Specification -/

/-- Cells `a` and `b` have the same shape: equal shape functions and weights in local numbering. -/
def Spec.SameShape (S : Space K) (dpc : ℕ) (dof : ℕ → ℕ → ℕ) (a b : ℕ) : Prop :=
  ∀ q < S.nQ, S.jxw a q = S.jxw b q ∧ ∀ i < dpc, S.val (dof a i) a q = S.val (dof b i) b q ∧
    ∀ d < S.dim, S.grad (dof a i) a q d = S.grad (dof b i) b q d

/-- `get_cell_similarity` tells the truth: no translation for the first cell, and a reported translation of the previously visited
cell has its shape. -/
def Spec.Truthful (S : Space K) (dpc : ℕ) (dof : ℕ → ℕ → ℕ) (sim : ℕ → Bool) (cells : List ℕ) : Prop :=
  (∀ c ∈ cells.head?, sim c = false) ∧ cells.IsChain fun a b => sim b = true → Spec.SameShape S dpc dof a b

/-- The dofs of a cell are different, and functions of other dofs vanish on the cell. -/
def Spec.CellDofs (S : Space K) (dpc : ℕ) (dof : ℕ → ℕ → ℕ) : Prop :=
  ∀ c < S.nCell, (∀ i < dpc, dof c i < S.nDof) ∧ (∀ i < dpc, ∀ j < dpc, dof c i = dof c j → i = j) ∧
    ∀ I, (∀ i < dpc, dof c i ≠ I) → ∀ q, S.val I c q = 0 ∧ ∀ d, S.grad I c q d = 0

/-- Jacobians: `inv0` is the inverse of `jac0`; pressure gradients on all cells come from the same reference gradients `ref`. -/
def Spec.Mapped (dim : ℕ) (S : ForceCells K) (G : Geometry K) (inv0 ref : ℕ → ℕ → ℕ → K) : Prop :=
  (∀ q, ∀ l < dim, ∀ m < dim, ∑ d ∈ range dim, inv0 q l d * G.jac0 q d m = if l = m then 1 else 0) ∧
  (∀ j < S.nP, ∀ q, ∀ d < dim, G.pGrad0 j q d = ∑ l ∈ range dim, inv0 q l d * ref j q l) ∧
  ∀ j < S.nP, ∀ c q, ∀ d < dim, S.pGrad j c q d = ∑ l ∈ range dim, G.inv c q l d * ref j q l

/-- Weight in the last component. -/
def Spec.weight (g ρ : K) (dim d : ℕ) : K := if d + 1 = dim then -(g * ρ) else 0

/-! ## Proofs: projection matrix -/

theorem foldl_add (l : List ℕ) (g : ℕ → ℕ → ℕ → K) (M : ℕ → ℕ → K) (i j : ℕ) :
    l.foldl (fun M q => fun i j => M i j + g q i j) M i j = M i j + (l.map fun q => g q i j).sum := by
  induction l generalizing M with
  | nil => simp
  | cons q l ih => rw [List.foldl_cons, ih]; simp [add_assoc]

theorem listSum (n : ℕ) (g : ℕ → K) : ((List.range n).map g).sum = ∑ i ∈ range n, g i := by
  induction n with
  | zero => simp
  | succ n ih => simp [List.range_succ, sum_range_succ, ih]

theorem cellMatrix_fresh (S : Space K) (δ : K) (dof : ℕ → ℕ → ℕ) (c : ℕ) (M : ℕ → ℕ → K) (i j : ℕ) :
    cellMatrix S δ dof false c M i j = ∑ q ∈ range S.nQ, pointEntry S δ dof c q i j := by
  unfold cellMatrix
  simp only [if_true]
  rw [foldl_add, zero_add, listSum]

theorem cellMatrix_kept (S : Space K) (δ : K) (dof : ℕ → ℕ → ℕ) (c : ℕ) (M : ℕ → ℕ → K) :
    cellMatrix S δ dof true c M = M := by
  unfold cellMatrix
  simp only [Bool.true_eq_false, if_false]
  generalize List.range S.nQ = l
  induction l with
  | nil => rfl
  | cons q l ih => exact ih

theorem pointEntry_shape {S : Space K} {dpc : ℕ} {dof : ℕ → ℕ → ℕ} {a b : ℕ} (h : Spec.SameShape S dpc dof a b) (δ : K)
    {q i j : ℕ} (hq : q < S.nQ) (hi : i < dpc) (hj : j < dpc) : pointEntry S δ dof a q i j = pointEntry S δ dof b q i j := by
  obtain ⟨h1, h2⟩ := h q hq
  unfold pointEntry
  rw [h1, (h2 i hi).1, (h2 j hj).1]
  congr 3
  refine sum_congr rfl fun d hd => ?_
  rw [(h2 i hi).2 d (mem_range.1 hd), (h2 j hj).2 d (mem_range.1 hd)]

/-- All cells get their own matrix. -/
theorem raw_loop (S : Space K) (δ : K) (dpc : ℕ) (dof : ℕ → ℕ → ℕ) (sim : ℕ → Bool) (I J : ℕ) (cells : List ℕ)
    (M : ℕ → ℕ → K) (hch : cells.IsChain fun a b => sim b = true → Spec.SameShape S dpc dof a b)
    (hM : ∀ c ∈ cells.head?, sim c = true → ∀ i < dpc, ∀ j < dpc, M i j = ∑ q ∈ range S.nQ, pointEntry S δ dof c q i j) :
    raw (cellLoop S δ dpc dof sim cells M) I J = (cells.map fun c => ∑ i ∈ range dpc, ∑ j ∈ range dpc,
      if dof c i = I ∧ dof c j = J then ∑ q ∈ range S.nQ, pointEntry S δ dof c q i j else 0).sum := by
  induction cells generalizing M with
  | nil => rfl
  | cons c cs ih =>
    have hown : ∀ i < dpc, ∀ j < dpc, cellMatrix S δ dof (sim c) c M i j = ∑ q ∈ range S.nQ, pointEntry S δ dof c q i j := by
      intro i hi j hj
      cases hs : sim c
      · exact cellMatrix_fresh S δ dof c M i j
      · rw [cellMatrix_kept]; exact hM c rfl hs i hi j hj
    have ih' := ih (cellMatrix S δ dof (sim c) c M) hch.tail (by
      intro c' hc' hs i hi j hj
      rw [hown i hi j hj]
      cases cs with
      | nil => cases hc'
      | cons d ds =>
        cases hc'
        exact sum_congr rfl fun q hq => pointEntry_shape (hch.rel_head hs) δ (mem_range.1 hq) hi hj)
    unfold raw at ih' ⊢
    simp only [cellLoop, List.map_cons, List.sum_cons]
    rw [ih']
    congr 1
    refine sum_congr rfl fun i hi => sum_congr rfl fun j hj => ?_
    rw [hown i (mem_range.1 hi) j (mem_range.1 hj)]

theorem pick {dpc : ℕ} {g : ℕ → ℕ} (hinj : ∀ i < dpc, ∀ j < dpc, g i = g j → i = j) (h : ℕ → K) (I : ℕ)
    (hz : (∀ i < dpc, g i ≠ I) → h I = 0) : (∑ i ∈ range dpc, if g i = I then h (g i) else 0) = h I := by
  by_cases hI : ∃ i < dpc, g i = I
  · obtain ⟨i, hi, rfl⟩ := hI
    rw [sum_eq_single_of_mem i (mem_range.2 hi)]
    · simp
    · intro i' hi' hne
      rw [if_neg fun h => hne (hinj i' (mem_range.1 hi') i hi h)]
  · push Not at hI
    rw [hz hI]
    exact sum_eq_zero fun i hi => by rw [if_neg (hI i (mem_range.1 hi))]

theorem perm_sum (S : Space K) {cells : List ℕ} (hp : cells.Perm (List.range S.nCell)) (g : ℕ → K) :
    (cells.map g).sum = ∑ c ∈ range S.nCell, g c := by
  rw [(hp.map g).sum_eq, listSum]

theorem raw_global (S : Space K) (δ : K) (dpc : ℕ) (dof : ℕ → ℕ → ℕ) (hd : Spec.CellDofs S dpc dof) (sim : ℕ → Bool)
    (cells : List ℕ) (hp : cells.Perm (List.range S.nCell)) (ht : Spec.Truthful S dpc dof sim cells) (M : ℕ → ℕ → K) (I J : ℕ) :
    raw (cellLoop S δ dpc dof sim cells M) I J = S.integral fun c q => S.val I c q * S.val J c q +
      (∑ d ∈ range S.dim, S.grad I c q d * S.grad J c q d) * δ := by
  rw [raw_loop S δ dpc dof sim I J cells M ht.2 (fun c hc hs => by rw [ht.1 c hc] at hs; cases hs), perm_sum S hp]
  unfold Space.integral
  refine sum_congr rfl fun c hc => ?_
  obtain ⟨-, hinj, hsupp⟩ := hd c (mem_range.1 hc)
  set E : ℕ → ℕ → K := fun I J => ∑ q ∈ range S.nQ, (S.val I c q * S.val J c q +
    (∑ d ∈ range S.dim, S.grad I c q d * S.grad J c q d) * δ) * S.jxw c q with hE
  change _ = E I J
  have e1 : ∀ i ∈ range dpc, (∑ j ∈ range dpc, if dof c i = I ∧ dof c j = J then ∑ q ∈ range S.nQ, pointEntry S δ dof c q i j
      else 0) = if dof c i = I then E (dof c i) J else 0 := by
    intro i _
    by_cases hi : dof c i = I
    · simp only [hi, true_and, if_true]
      rw [← hi]
      refine pick hinj (fun J => E (dof c i) J) J fun hn => ?_
      refine sum_eq_zero fun q _ => ?_
      rw [(hsupp J hn q).1, sum_eq_zero fun d _ => by rw [(hsupp J hn q).2 d, mul_zero]]
      ring
    · simp [hi]
  rw [sum_congr rfl e1]
  refine pick hinj (fun I => E I J) I fun hn => ?_
  refine sum_eq_zero fun q _ => ?_
  rw [(hsupp I hn q).1, sum_eq_zero fun d _ => by rw [(hsupp I hn q).2 d, zero_mul]]
  ring

/-- **C93 (projection matrix).** For every order of the cells and every (truthful) pattern of re-used cell matrices, with hanging
nodes: the matrix is the damped projection of C69; constrained rows are diagonal. -/
theorem C93_projection_matrix (P : Projection K) (hC : P.C.Closed) (δ : K) (hδ : ∀ c, P.damping c = δ) (dpc : ℕ)
    (dof : ℕ → ℕ → ℕ) (hd : Spec.CellDofs P.S dpc dof) (sim : ℕ → Bool) (cells : List ℕ)
    (hp : cells.Perm (List.range P.S.nCell)) (ht : Spec.Truthful P.S dpc dof sim cells) (M : ℕ → ℕ → K) (x : ℕ → K) (k : ℕ)
    (hk : k < P.S.nDof) :
    matVmult P.S.nDof (assembled P.C P.S.nDof (cellLoop P.S δ dpc dof sim cells M)) x k =
      if (P.C.row k).isSome then conDiag (cellLoop P.S δ dpc dof sim cells M) k * x k else P.vmult x k := by
  rw [matVmult_assembled P.C hC _ _ x hk]
  by_cases hc : (P.C.row k).isSome
  · rw [if_pos hc, if_pos hc, P.C.scatter_con _ _ hc, add_zero]
  · rw [if_neg hc, if_neg hc, zero_add, ← C69_assembled_is_matrix_free P P rfl rfl (fun _ _ => rfl) x k hk (by simpa using hc)]
    unfold Projection.assembled
    rw [if_neg hc]
    refine P.C.scatter_congr _ hk fun I _ => sum_congr rfl fun J _ => ?_
    rw [raw_global P.S δ dpc dof hd sim cells hp ht]
    congr 1
    unfold Projection.entry Space.test
    refine P.S.integral_congr fun c _ q _ => ?_
    rw [sum_mul]
    congr 1
    · ring
    · exact sum_congr rfl fun d _ => by dsimp only; rw [hδ c]; ring

theorem rawVec_global (S : Space K) (dpc : ℕ) (dof : ℕ → ℕ → ℕ) (hd : Spec.CellDofs S dpc dof)
    (cells : List ℕ) (hp : cells.Perm (List.range S.nCell)) (s : ℕ → ℕ → K) (g : ℕ → ℕ → ℕ → K) (I : ℕ) :
    rawVec dpc dof (fun c i => ∑ q ∈ range S.nQ,
      (s c q * S.val (dof c i) c q + ∑ d ∈ range S.dim, g c q d * S.grad (dof c i) c q d) * S.jxw c q) cells I = S.test s g I := by
  unfold rawVec Space.test Space.integral
  rw [perm_sum S hp]
  refine sum_congr rfl fun c hc => ?_
  obtain ⟨-, hinj, hsupp⟩ := hd c (mem_range.1 hc)
  refine pick hinj (fun I => ∑ q ∈ range S.nQ,
      (s c q * S.val I c q + ∑ d ∈ range S.dim, g c q d * S.grad I c q d) * S.jxw c q) I fun hn => ?_
  refine sum_eq_zero fun q _ => ?_
  rw [(hsupp I hn q).1, sum_eq_zero fun d _ => by rw [(hsupp I hn q).2 d, mul_zero]]
  ring

/-- Summation over the dofs of a cell. -/
theorem sum_cell (S : Space K) (dpc : ℕ) (dof : ℕ → ℕ → ℕ) (hd : Spec.CellDofs S dpc dof) {c : ℕ} (hc : c < S.nCell) (x g : ℕ → K)
    (hg : ∀ I, (∀ i < dpc, dof c i ≠ I) → g I = 0) :
    ∑ j ∈ range dpc, x (dof c j) * g (dof c j) = ∑ I ∈ range S.nDof, x I * g I := by
  obtain ⟨hlt, hinj, -⟩ := hd c hc
  have h : ∀ I ∈ range S.nDof, x I * g I = ∑ j ∈ range dpc, if dof c j = I then x (dof c j) * g (dof c j) else 0 := by
    intro I _
    rw [pick hinj (fun I => x I * g I) I fun hn => by rw [hg I hn, mul_zero]]
  rw [sum_congr rfl h, sum_comm]
  refine sum_congr rfl fun j hj => ?_
  rw [sum_ite_eq, if_pos (mem_range.2 (hlt j (mem_range.1 hj)))]

/-- **C93 (normals).** The right hand side of the normals is the same as in the matrix-free solver. -/
theorem C93_normal_rhs (P : Projection K) (dpc : ℕ) (dof : ℕ → ℕ → ℕ) (hd : Spec.CellDofs P.S dpc dof) (cells : List ℕ)
    (hp : cells.Perm (List.range P.S.nCell)) (φ : ℕ → K) (e k : ℕ) (hk : k < P.S.nDof) :
    normalRhs P.S P.C dpc dof cells φ e k = P.normalRhs φ e k := by
  unfold normalRhs Projection.normalRhs
  refine P.C.scatter_congr _ hk fun I _ => ?_
  rw [← rawVec_global P.S dpc dof hd cells hp]
  unfold rawVec
  congr 1
  refine List.map_congr_left fun c hc => ?_
  have hc' : c < P.S.nCell := List.mem_range.1 (hp.mem_iff.1 hc)
  refine sum_congr rfl fun i _ => ?_
  congr 1
  refine sum_congr rfl fun q _ => ?_
  rw [sum_cell P.S dpc dof hd hc' φ (fun I => P.S.grad I c q e) fun I hn => ((hd c hc').2.2 I hn q).2 e]
  unfold Space.gradient
  simp only [zero_mul, sum_const_zero, add_zero]
  ring

/-- **C93 (normals of a linear level set).** If the level set has constant gradient `a`, component `e` of the computed normals is
`a e` at every quadrature point, for every mesh, damping and pattern of re-used cell matrices. -/
theorem C93_normal_of_linear (P : Projection K) (hC : P.C.Closed) (hP : P.S.Partition) (hone : P.C.KeepsOne P.S.nDof)
    (hj : ∀ c < P.S.nCell, ∀ q < P.S.nQ, 0 < P.S.jxw c q) (aniso : Bool) (eu ep : K)
    (hδ : ∀ c, P.damping c = damping false aniso eu ep) (dpc : ℕ) (dof : ℕ → ℕ → ℕ) (hd : Spec.CellDofs P.S dpc dof)
    (sim : ℕ → Bool) (cells : List ℕ) (hp : cells.Perm (List.range P.S.nCell)) (ht : Spec.Truthful P.S dpc dof sim cells)
    (φ : ℕ → K) (a : ℕ → K) (e : ℕ) (hφ : ∀ c < P.S.nCell, ∀ q < P.S.nQ, P.S.gradient φ c q e = a e) (n : ℕ → K)
    (hs : ∀ k < P.S.nDof, matVmult P.S.nDof (assembled P.C P.S.nDof
      (cellLoop P.S (damping false aniso eu ep) dpc dof sim cells fun _ _ => 0)) n k = normalRhs P.S P.C dpc dof cells φ e k) :
    Spec.Is P.S (P.field n) fun _ _ => a e := by
  have hdn : ∀ c < P.S.nCell, 0 ≤ P.damping c := by
    intro c _
    rw [hδ c]
    unfold damping
    have := mul_self_nonneg (eu / ep)
    split_ifs <;> linarith
  refine C69_reproduces_constants P hC hP hone hj hdn (fun c q => P.S.gradient φ c q e) (a e) hφ n ?_
  intro k hk hf
  have h := hs k hk
  rw [C93_projection_matrix P hC _ hδ dpc dof hd sim cells hp ht _ n k hk, if_neg (by rw [hf]; simp),
    C93_normal_rhs P dpc dof hd cells hp φ e k hk] at h
  exact h

/-! ## Proofs: curvature -/

/-- **C93 (length of the normals).** The normals used for the curvature have length `min 1 (10^8 |n|)`: unit vectors except where
the computed normal nearly vanishes, and never longer than one. -/
theorem C93_normal_length (dim : ℕ) (nrm : (ℕ → K) → K) (hn : Spec.IsNorm dim nrm) (v : ℕ → K) :
    nrm (normalizePoint nrm v) = min 1 (10 ^ 8 * nrm v) ∧
    ∃ s, 0 < s ∧ ∀ d, normalizePoint nrm v d = s * v d := by
  have hscale : ∀ s : K, 0 ≤ s → nrm (fun d => s * v d) = s * nrm v := by
    intro s hs
    have h1 := hn fun d => s * v d
    have h2 := hn v
    have h3 : nrm (fun d => s * v d) ^ 2 = (s * nrm v) ^ 2 := by
      rw [h1.2, mul_pow, h2.2, mul_sum]
      exact sum_congr rfl fun d _ => by ring
    exact (pow_left_inj₀ h1.1 (mul_nonneg hs h2.1) (by norm_num)).1 h3
  by_cases h : 1 / 10 ^ 8 < nrm v
  · have hpos : 0 < nrm v := lt_trans (by positivity) h
    have he : normalizePoint nrm v = fun d => (nrm v)⁻¹ * v d := by
      funext d; unfold normalizePoint; rw [if_pos h, div_eq_inv_mul]
    have h8 : (1 : K) ≤ 10 ^ 8 * nrm v := by
      rw [div_lt_iff₀ (by positivity)] at h; linarith
    refine ⟨?_, (nrm v)⁻¹, inv_pos.2 hpos, fun d => by rw [he]⟩
    rw [he, hscale _ (inv_pos.2 hpos).le, inv_mul_cancel₀ hpos.ne', min_eq_left h8]
  · have he : normalizePoint nrm v = fun d => 10 ^ 8 * v d := by
      funext d; unfold normalizePoint; rw [if_neg h, mul_comm]
    have h8 : 10 ^ 8 * nrm v ≤ (1 : K) := by
      rw [not_lt, le_div_iff₀ (by positivity)] at h; linarith
    refine ⟨?_, 10 ^ 8, by positivity, fun d => by rw [he]⟩
    rw [he, hscale _ (by positivity), min_eq_right h8]

/-- The right hand side of the curvature in terms of the finite element functions. -/
theorem curvatureRhs_eq (P : Projection K) (dpc : ℕ) (dof : ℕ → ℕ → ℕ) (hd : Spec.CellDofs P.S dpc dof) (cells : List ℕ)
    (hp : cells.Perm (List.range P.S.nCell)) (nrm : (ℕ → K) → K) (n : ℕ → ℕ → K) (k : ℕ) (hk : k < P.S.nDof) :
    curvatureRhs P.S P.C dpc dof cells nrm n k = P.C.scatter P.S.nDof (P.S.test (fun _ _ => 0)
      fun c q d => normalizePoint nrm (fun d => P.S.value (n d) c q) d) k := by
  unfold curvatureRhs
  refine P.C.scatter_congr _ hk fun I _ => ?_
  rw [← rawVec_global P.S dpc dof hd cells hp]
  unfold rawVec
  congr 1
  refine List.map_congr_left fun c hc => ?_
  have hc' : c < P.S.nCell := List.mem_range.1 (hp.mem_iff.1 hc)
  refine sum_congr rfl fun i _ => ?_
  congr 1
  refine sum_congr rfl fun q _ => ?_
  have hpn : pointNormal P.S dpc dof n c q = fun d => P.S.value (n d) c q := by
    funext d
    unfold pointNormal Space.value
    rw [← sum_cell P.S dpc dof hd hc' (n d) (fun I => P.S.val I c q) fun I hn => ((hd c hc').2.2 I hn q).1]
    exact sum_congr rfl fun j _ => mul_comm _ _
  rw [hpn]
  congr 1
  rw [zero_mul, zero_add]
  exact sum_congr rfl fun d _ => mul_comm _ _

/-- The exact solution of the curvature system satisfies the weak form for every test function. -/
theorem curvature_weak (P : Projection K) (hC : P.C.Closed) (δ : K) (hδ : ∀ c, P.damping c = δ) (dpc : ℕ)
    (dof : ℕ → ℕ → ℕ) (hd : Spec.CellDofs P.S dpc dof) (sim : ℕ → Bool) (cells : List ℕ)
    (hp : cells.Perm (List.range P.S.nCell)) (ht : Spec.Truthful P.S dpc dof sim cells) (nrm : (ℕ → K) → K) (n : ℕ → ℕ → K)
    (κ : ℕ → K) (hs : ∀ k < P.S.nDof, matVmult P.S.nDof (assembled P.C P.S.nDof
      (cellLoop P.S δ dpc dof sim cells fun _ _ => 0)) κ k = curvatureRhs P.S P.C dpc dof cells nrm n k) (v : ℕ → K) :
    (P.S.integral fun c q => P.S.value (P.field κ) c q * P.S.value (P.field v) c q +
        δ * ∑ d ∈ range P.S.dim, P.S.gradient (P.field κ) c q d * P.S.gradient (P.field v) c q d) =
      P.S.integral fun c q => ∑ d ∈ range P.S.dim,
        normalizePoint nrm (fun d => P.S.value (n d) c q) d * P.S.gradient (P.field v) c q d := by
  have h1 := proj_pair P hC κ v
  have h2 := P.S.assembled_pair P.C hC (fun _ _ => 0)
    (fun c q d => normalizePoint nrm (fun d => P.S.value (n d) c q) d) v
  simp only [hδ] at h1
  rw [← h1]
  simp only [zero_mul, zero_add] at h2
  rw [show P.field v = P.C.dist P.S.nDof v from rfl, ← h2]
  refine sum_congr rfl fun k hk => ?_
  have hk' := mem_range.1 hk
  split_ifs with hc
  · rw [P.C.scatter_con _ _ hc, mul_zero]
  · have h := hs k hk'
    rw [C93_projection_matrix P hC δ hδ dpc dof hd sim cells hp ht _ κ k hk', if_neg hc,
      curvatureRhs_eq P dpc dof hd cells hp nrm n k hk'] at h
    rw [h]

/-- **C93 (total curvature).** For every mesh and every normal field the integral of the computed curvature vanishes (in contrast to
C70, where it is the integral of the divergence of the normals: the boundary is treated as if the normals were tangential). -/
theorem C93_total_curvature (P : Projection K) (hC : P.C.Closed) (hP : P.S.Partition) (hone : P.C.KeepsOne P.S.nDof) (δ : K)
    (hδ : ∀ c, P.damping c = δ) (dpc : ℕ) (dof : ℕ → ℕ → ℕ) (hd : Spec.CellDofs P.S dpc dof) (sim : ℕ → Bool) (cells : List ℕ)
    (hp : cells.Perm (List.range P.S.nCell)) (ht : Spec.Truthful P.S dpc dof sim cells) (nrm : (ℕ → K) → K) (n : ℕ → ℕ → K)
    (κ : ℕ → K) (hs : ∀ k < P.S.nDof, matVmult P.S.nDof (assembled P.C P.S.nDof
      (cellLoop P.S δ dpc dof sim cells fun _ _ => 0)) κ k = curvatureRhs P.S P.C dpc dof cells nrm n k) :
    Spec.total P.S (P.field κ) = 0 := by
  have h := curvature_weak P hC δ hδ dpc dof hd sim cells hp ht nrm n κ hs (fun _ => 1)
  have hca : P.field (fun _ => (1 : K)) = fun _ => 1 := by
    funext i; exact P.C.dist_const _ hone 1 i
  rw [hca] at h
  have e1 : (P.S.integral fun c q => P.S.value (P.field κ) c q * P.S.value (fun _ => 1) c q +
      δ * ∑ d ∈ range P.S.dim, P.S.gradient (P.field κ) c q d * P.S.gradient (fun _ => 1) c q d) =
      Spec.total P.S (P.field κ) := by
    refine P.S.integral_congr fun c hc q hq => ?_
    rw [P.S.value_const hP 1 hc hq, mul_one, sum_eq_zero, mul_zero, add_zero]
    intro d hd
    rw [P.S.gradient_const hP 1 hc hq (mem_range.1 hd), mul_zero]
  rw [← e1, h]
  unfold Space.integral
  refine sum_eq_zero fun c hc => sum_eq_zero fun q hq => ?_
  dsimp only
  rw [sum_eq_zero, zero_mul]
  intro d hd
  rw [P.S.gradient_const hP 1 (mem_range.1 hc) (mem_range.1 hq) (mem_range.1 hd), mul_zero]

/-- **C93 (bounded curvature).** For every normal field, the computed curvature is bounded in `L2` by the damping:
`∫ κ² ≤ |Ω| / (4 δ)`. -/
theorem C93_curvature_bounded (P : Projection K) (hC : P.C.Closed) (hj : ∀ c < P.S.nCell, ∀ q < P.S.nQ, 0 ≤ P.S.jxw c q) (δ : K)
    (hpos : 0 < δ) (hδ : ∀ c, P.damping c = δ) (dpc : ℕ) (dof : ℕ → ℕ → ℕ) (hd : Spec.CellDofs P.S dpc dof) (sim : ℕ → Bool)
    (cells : List ℕ) (hp : cells.Perm (List.range P.S.nCell)) (ht : Spec.Truthful P.S dpc dof sim cells) (nrm : (ℕ → K) → K)
    (hn : Spec.IsNorm P.S.dim nrm) (n : ℕ → ℕ → K) (κ : ℕ → K) (hs : ∀ k < P.S.nDof, matVmult P.S.nDof (assembled P.C P.S.nDof
      (cellLoop P.S δ dpc dof sim cells fun _ _ => 0)) κ k = curvatureRhs P.S P.C dpc dof cells nrm n k) :
    4 * δ * (P.S.integral fun c q => P.S.value (P.field κ) c q ^ 2) ≤ P.S.integral fun _ _ => 1 := by
  have h := curvature_weak P hC δ hδ dpc dof hd sim cells hp ht nrm n κ hs κ
  have key : ∀ c < P.S.nCell, ∀ q < P.S.nQ,
      4 * δ * (∑ d ∈ range P.S.dim, normalizePoint nrm (fun d => P.S.value (n d) c q) d * P.S.gradient (P.field κ) c q d) ≤
      1 + 4 * δ * (δ * ∑ d ∈ range P.S.dim, P.S.gradient (P.field κ) c q d * P.S.gradient (P.field κ) c q d) := by
    intro c _ q _
    set m := normalizePoint nrm (fun d => P.S.value (n d) c q) with hm
    have hl : ∑ d ∈ range P.S.dim, m d ^ 2 ≤ 1 := by
      rw [← (hn m).2, hm, (C93_normal_length P.S.dim nrm hn _).1]
      have h0 : 0 ≤ min 1 (10 ^ 8 * nrm fun d => P.S.value (n d) c q) :=
        le_min zero_le_one (mul_nonneg (by positivity) (hn _).1)
      exact pow_le_one₀ h0 (min_le_left _ _)
    have h2 : ∑ d ∈ range P.S.dim, 4 * δ * (m d * P.S.gradient (P.field κ) c q d) ≤
        ∑ d ∈ range P.S.dim, (m d ^ 2 + 4 * δ * (δ * (P.S.gradient (P.field κ) c q d * P.S.gradient (P.field κ) c q d))) := by
      refine sum_le_sum fun d _ => ?_
      have := sq_nonneg (m d - 2 * δ * P.S.gradient (P.field κ) c q d)
      linarith [this]
    rw [sum_add_distrib, ← mul_sum, ← mul_sum, ← mul_sum] at h2
    linarith
  have hint : 4 * δ * (P.S.integral fun c q => ∑ d ∈ range P.S.dim,
      normalizePoint nrm (fun d => P.S.value (n d) c q) d * P.S.gradient (P.field κ) c q d) ≤
      (P.S.integral fun _ _ => 1) + 4 * δ * P.S.integral fun c q =>
        δ * ∑ d ∈ range P.S.dim, P.S.gradient (P.field κ) c q d * P.S.gradient (P.field κ) c q d := by
    rw [← P.S.integral_smul, ← P.S.integral_smul, ← P.S.integral_add]
    unfold Space.integral
    exact sum_le_sum fun c hc => sum_le_sum fun q hq =>
      mul_le_mul_of_nonneg_right (key c (mem_range.1 hc) q (mem_range.1 hq)) (hj c (mem_range.1 hc) q (mem_range.1 hq))
  rw [← h, P.S.integral_add, mul_add] at hint
  have e : (P.S.integral fun c q => P.S.value (P.field κ) c q * P.S.value (P.field κ) c q) =
      P.S.integral fun c q => P.S.value (P.field κ) c q ^ 2 := P.S.integral_congr fun c _ q _ => by ring
  rw [e] at hint
  linarith

/-- **C93 (bounded curvature, parameters).** With the interface thickness `epsilon_used` and the parameter `epsilon`:
`∫ κ² ≤ |Ω| ε² / (2 ε_used²)`, and an eighth of that with anisotropic refinement. -/
theorem C93_curvature_bound_parameters (P : Projection K) (hC : P.C.Closed)
    (hj : ∀ c < P.S.nCell, ∀ q < P.S.nQ, 0 ≤ P.S.jxw c q) (aniso : Bool) (eu ep : K) (heu : 0 < eu) (hep : 0 < ep)
    (hδ : ∀ c, P.damping c = damping true aniso eu ep) (dpc : ℕ) (dof : ℕ → ℕ → ℕ) (hd : Spec.CellDofs P.S dpc dof)
    (sim : ℕ → Bool) (cells : List ℕ) (hp : cells.Perm (List.range P.S.nCell)) (ht : Spec.Truthful P.S dpc dof sim cells)
    (nrm : (ℕ → K) → K) (hn : Spec.IsNorm P.S.dim nrm) (n : ℕ → ℕ → K) (κ : ℕ → K)
    (hs : ∀ k < P.S.nDof, matVmult P.S.nDof (assembled P.C P.S.nDof
      (cellLoop P.S (damping true aniso eu ep) dpc dof sim cells fun _ _ => 0)) κ k = curvatureRhs P.S P.C dpc dof cells nrm n k) :
    (if aniso then 16 else 2) * eu ^ 2 * (P.S.integral fun c q => P.S.value (P.field κ) c q ^ 2) ≤
      ep ^ 2 * P.S.integral fun _ _ => 1 := by
  have hpos : 0 < damping true aniso eu ep := by
    unfold damping
    have : 0 < eu / ep * (eu / ep) := by positivity
    refine mul_pos ?_ this
    cases aniso <;> simp
  have h := C93_curvature_bounded P hC hj _ hpos hδ dpc dof hd sim cells hp ht nrm hn n κ hs
  have h2 := mul_le_mul_of_nonneg_left h (sq_nonneg ep)
  have e : ep ^ 2 * (4 * damping true aniso eu ep) = (if aniso then 16 else 2) * eu ^ 2 := by
    unfold damping
    cases aniso <;> simp <;> field_simp <;> norm_num
  rw [← mul_assoc, e] at h2
  exact h2

/-- **C93 (flat interface, interior).** If the normals are constant, the right hand side vanishes for all functions without flux over
the boundary. -/
theorem C93_flat_interior (P : Projection K) (hP : P.S.Partition) (dpc : ℕ) (dof : ℕ → ℕ → ℕ) (hd : Spec.CellDofs P.S dpc dof)
    (cells : List ℕ) (hp : cells.Perm (List.range P.S.nCell)) (nrm : (ℕ → K) → K) (v : ℕ → K) (k : ℕ) (hk : k < P.S.nDof)
    (hflux : ∀ d < P.S.dim, P.C.scatter P.S.nDof (fun I => P.S.integral fun c q => P.S.grad I c q d) k = 0) :
    curvatureRhs P.S P.C dpc dof cells nrm (fun d _ => v d) k = 0 := by
  rw [curvatureRhs_eq P dpc dof hd cells hp nrm _ k hk]
  have h1 : P.C.scatter P.S.nDof (P.S.test (fun _ _ => 0)
      fun c q d => normalizePoint nrm (fun d => P.S.value (fun _ => v d) c q) d) k =
      P.C.scatter P.S.nDof (fun I => ∑ d ∈ range P.S.dim, (P.S.integral fun c q => P.S.grad I c q d) * normalizePoint nrm v d) k := by
    refine P.C.scatter_congr _ hk fun I _ => ?_
    have e : ∀ d, (P.S.integral fun c q => P.S.grad I c q d) * normalizePoint nrm v d =
        P.S.integral fun c q => normalizePoint nrm v d * P.S.grad I c q d := by
      intro d; rw [P.S.integral_smul, mul_comm]
    simp only [e]
    rw [← P.S.integral_sum]
    unfold Space.test
    refine P.S.integral_congr fun c hc q hq => ?_
    have hv : (fun d => P.S.value (fun _ => v d) c q) = v := by
      funext d; exact P.S.value_const hP (v d) hc hq
    dsimp only
    rw [hv, zero_mul, zero_add]
  rw [h1, ← Verif.Precond.Wrapper.scatter_sum]
  exact sum_eq_zero fun d hd' => by rw [hflux d (mem_range.1 hd'), zero_mul]

/-! ## Proofs: force -/

/-- The table holds the reference gradients, whatever the first cell looks like. -/
theorem gradTable_ref (inv0 ref : ℕ → ℕ → ℕ → K) (hm : Spec.Mapped p.F.dim S G inv0 ref) {j q l : ℕ} (hj : j < S.nP)
    (hl : l < p.F.dim) : gradTable p G j q l = ref j q l := by
  unfold gradTable
  have h1 : ∀ d ∈ range p.F.dim, G.jac0 q d l * G.pGrad0 j q d =
      ∑ m ∈ range p.F.dim, ref j q m * (inv0 q m d * G.jac0 q d l) := by
    intro d hd
    rw [hm.2.1 j hj q d (mem_range.1 hd), mul_sum]
    exact sum_congr rfl fun m _ => by ring
  rw [sum_congr rfl h1, sum_comm]
  have h2 : ∀ m ∈ range p.F.dim, ∑ d ∈ range p.F.dim, ref j q m * (inv0 q m d * G.jac0 q d l) =
      if m = l then ref j q m else 0 := by
    intro m hm'
    rw [← mul_sum, hm.1 q m (mem_range.1 hm') l hl]
    split_ifs <;> ring
  rw [sum_congr rfl h2, sum_ite_eq', if_pos (mem_range.2 hl)]

/-- Transformation of the interpolated gradient to the real cell. -/
theorem transformed (inv0 ref : ℕ → ℕ → ℕ → K) (hm : Spec.Mapped p.F.dim S G inv0 ref) (a : ℕ → K) {c q d : ℕ}
    (hd : d < p.F.dim) :
    ∑ l ∈ range p.F.dim, G.inv c q l d * ∑ j ∈ range S.nP, a j * gradTable p G j q l = ∑ j ∈ range S.nP, a j * S.pGrad j c q d := by
  have h : ∀ j ∈ range S.nP, a j * S.pGrad j c q d = ∑ l ∈ range p.F.dim, G.inv c q l d * (a j * gradTable p G j q l) := by
    intro j hj
    rw [hm.2.2 j (mem_range.1 hj) c q d hd, mul_sum]
    refine sum_congr rfl fun l hl => ?_
    rw [gradTable_ref p S G inv0 ref hm (mem_range.1 hj) (mem_range.1 hl)]
    ring
  rw [sum_congr rfl h, sum_comm]
  exact sum_congr rfl fun l _ => mul_sum _ _ _

/-- Gradient of the field `x` the force is based on: of its interpolation onto the pressure space, or of the field itself. -/
def Spec.grad (S : ForceCells K) (interpolate : Bool) (x : ℕ → ℕ → K) (c q d : ℕ) : K :=
  if interpolate then ∑ j ∈ range S.nP, (∑ i ∈ range S.nLs, S.interp j i * x c i) * S.pGrad j c q d
  else ∑ i ∈ range S.nLs, x c i * S.lsGrad i c q d

/-- Value of a field of the level set element at a quadrature point. -/
def Spec.val (S : ForceCells K) (x : ℕ → ℕ → K) (c q : ℕ) : K := ∑ i ∈ range S.nLs, x c i * S.lsVal i c q

/-- **C93 (force, general form).** For every mesh - in particular every shape of the first cell -, every parameters and fields: the
force at a quadrature point is surface tension times the combination of curvatures times the gradient on the real cell of the
combination of the (interpolated) fields, plus the weight. -/
theorem C93_force (inv0 ref : ℕ → ℕ → ℕ → K) (hm : Spec.Mapped p.F.dim S G inv0 ref) (hP : 0 < S.nP) (c q d : ℕ)
    (hd : d < p.F.dim) :
    matForce p S G f c q d =
      p.F.surfaceTension * (p.t1 * Spec.val S f.w c q + if p.useOld && p.F.interpolate then p.t2 * Spec.val S f.wOld c q else 0) *
        ((if p.heaviside then 1 else 1 / 2) * (p.t1 * Spec.grad S p.F.interpolate (if p.heaviside then f.H else f.c) c q d +
          if p.useOld then p.t2 * Spec.grad S p.F.interpolate f.cOld c q d else 0)) +
      Spec.weight p.F.gravity (density p S f c q) p.F.dim d := by
  have hmain : (if p.F.interpolate then ∑ l ∈ range p.F.dim, G.inv c q l d * tension p S G f c q l else tension p S G f c q d) =
      p.F.surfaceTension * (p.t1 * Spec.val S f.w c q + if p.useOld && p.F.interpolate then p.t2 * Spec.val S f.wOld c q else 0) *
        ((if p.heaviside then 1 else 1 / 2) * (p.t1 * Spec.grad S p.F.interpolate (if p.heaviside then f.H else f.c) c q d +
          if p.useOld then p.t2 * Spec.grad S p.F.interpolate f.cOld c q d else 0)) := by
    have hw : p.t1 * S.lsValue f.w c q + p.t2 * wOldValue p S f c q =
        p.t1 * Spec.val S f.w c q + if p.useOld && p.F.interpolate then p.t2 * Spec.val S f.wOld c q else 0 := by
      unfold wOldValue ForceCells.lsValue Spec.val
      split_ifs <;> ring
    cases hi : p.F.interpolate
    · simp only [Bool.false_eq_true, if_false]
      rw [hi] at hw
      unfold tension
      rw [hw]
      unfold cGradient cGradientOld Spec.grad source ForceCells.lsGradient
      simp only [hi, Bool.false_eq_true, if_false, if_true]
      split_ifs <;> ring
    · simp only [if_true]
      rw [hi] at hw
      have hold : ∀ l, cGradientOld p S G f c q l = if p.useOld then
          ∑ j ∈ range S.nP, (∑ i ∈ range S.nLs, f.cOld c i * S.interp j i) * gradTable p G j q l else 0 := by
        intro l
        unfold cGradientOld
        simp only [hi, Bool.true_eq_false, if_false]
        by_cases hu : p.useOld = true
        · rw [if_pos hu, if_pos hu, range_eq_Ico (a := S.nP), sum_eq_sum_Ico_succ_bot hP]
        · rw [if_neg hu, if_neg hu]
      have hcur : ∀ l, cGradient p S G f c q l =
          ∑ j ∈ range S.nP, (∑ i ∈ range S.nLs, source p f c i * S.interp j i) * gradTable p G j q l := by
        intro l; unfold cGradient; simp only [hi, Bool.true_eq_false, if_false]
      set A := p.F.surfaceTension * (p.t1 * S.lsValue f.w c q + p.t2 * wOldValue p S f c q) *
        (if p.heaviside then 1 else 1 / 2) with hA
      have ht : ∀ l ∈ range p.F.dim, G.inv c q l d * tension p S G f c q l =
          A * p.t1 * (G.inv c q l d * ∑ j ∈ range S.nP, (∑ i ∈ range S.nLs, source p f c i * S.interp j i) * gradTable p G j q l) +
          A * p.t2 * (G.inv c q l d * if p.useOld then
            ∑ j ∈ range S.nP, (∑ i ∈ range S.nLs, f.cOld c i * S.interp j i) * gradTable p G j q l else 0) := by
        intro l _
        unfold tension
        rw [hold, hcur, hA]
        ring
      rw [sum_congr rfl ht, sum_add_distrib, ← mul_sum, ← mul_sum,
        transformed p S G inv0 ref hm (fun j => ∑ i ∈ range S.nLs, source p f c i * S.interp j i) hd]
      have h2 : (∑ l ∈ range p.F.dim, G.inv c q l d * if p.useOld then
            ∑ j ∈ range S.nP, (∑ i ∈ range S.nLs, f.cOld c i * S.interp j i) * gradTable p G j q l else 0) =
          if p.useOld then ∑ j ∈ range S.nP, (∑ i ∈ range S.nLs, f.cOld c i * S.interp j i) * S.pGrad j c q d else 0 := by
        by_cases hu : p.useOld = true
        · simp only [hu, if_true]
          exact transformed p S G inv0 ref hm (fun j => ∑ i ∈ range S.nLs, f.cOld c i * S.interp j i) hd
        · simp [hu]
      rw [h2, hA, hw]
      unfold Spec.grad source
      simp only [if_true, mul_comm (S.interp _ _)]
      split_ifs <;> ring
  unfold matForce
  dsimp only
  rw [hmain]
  unfold Spec.weight
  split_ifs <;> ring

/-- **C93 (same force as the matrix-free solver).** With the Heaviside function and a scheme that uses no old values (`tau2 = 0`:
implicit Euler, BDF-2; or the first step), the force at every quadrature point is that of the matrix-free solver (C71). -/
theorem C93_same_force (inv0 ref : ℕ → ℕ → ℕ → K) (hm : Spec.Mapped p.F.dim S G inv0 ref) (hP : 0 < S.nP)
    (hH : p.heaviside = true) (ht : p.stepNo ≤ 1 ∨ p.tau1 = 1 ∧ p.tau2 = 0) (c q d : ℕ) (hd : d < p.F.dim) :
    matForce p S G f c q d = force p.F S f.H f.w c q d := by
  have hu : p.useOld = false := by
    unfold Params.useOld
    rcases ht with h | h
    · simp; intro _; exact h
    · rw [h.2]; simp
  have h1 : p.t1 = 1 := by
    unfold Params.t1
    rcases ht with h | h
    · rw [if_neg (by omega)]
    · rw [h.1]; simp
  rw [C93_force p S G f inv0 ref hm hP c q d hd, hu, h1]
  have hrho : density p S f c q = p.F.densityAt S f.H c q := by
    unfold density ForceParams.densityAt source
    simp [hH]
  rw [hrho]
  unfold force Spec.weight Spec.grad Spec.val ForceCells.lsValue ForceCells.pressureGradient ForceCells.lsGradient
    ForceCells.projected
  simp only [hH, if_true, Bool.false_and, Bool.false_eq_true, if_false, add_zero, one_mul]
  split_ifs <;> ring

/-- **C93 (force from the level set).** Without the Heaviside function the force is the one of `H = (c+1)/2`: the same formulas, for
level set functions with values in `[-1, 1]` instead of `[0, 1]`. -/
theorem C93_force_from_level_set (inv0 ref : ℕ → ℕ → ℕ → K) (hm : Spec.Mapped p.F.dim S G inv0 ref) (hP : 0 < S.nP)
    (hH : p.heaviside = false) (ht : p.stepNo ≤ 1 ∨ p.tau1 = 1 ∧ p.tau2 = 0) (c q d : ℕ) (hd : d < p.F.dim)
    (hval : ∑ i ∈ range S.nLs, S.lsVal i c q = 1) (hgrad : ∑ i ∈ range S.nLs, S.lsGrad i c q d = 0)
    (hint : ∀ j < S.nP, ∑ i ∈ range S.nLs, S.interp j i = 1) (hpg : ∑ j ∈ range S.nP, S.pGrad j c q d = 0) :
    matForce p S G f c q d = force p.F S (fun c i => (f.c c i + 1) / 2) f.w c q d := by
  have hu : p.useOld = false := by
    unfold Params.useOld
    rcases ht with h | h
    · simp; intro _; exact h
    · rw [h.2]; simp
  have h1 : p.t1 = 1 := by
    unfold Params.t1
    rcases ht with h | h
    · rw [if_neg (by omega)]
    · rw [h.1]; simp
  have hv : S.lsValue (fun c i => (f.c c i + 1) / 2) c q = (S.lsValue f.c c q + 1) / 2 := by
    have e : (S.lsValue f.c c q + 1) / 2 = (S.lsValue f.c c q + ∑ i ∈ range S.nLs, S.lsVal i c q) / 2 := by rw [hval]
    rw [e]
    unfold ForceCells.lsValue
    rw [← sum_add_distrib, Finset.sum_div]
    exact sum_congr rfl fun i _ => by ring
  have hrho : density p S f c q = p.F.densityAt S (fun c i => (f.c c i + 1) / 2) c q := by
    unfold density ForceParams.densityAt source
    rw [hv]
    simp only [hH, Bool.false_eq_true, if_false]
    split_ifs <;> ring
  have hg1 : S.lsGradient (fun c i => (f.c c i + 1) / 2) c q d = 1 / 2 * S.lsGradient f.c c q d := by
    have : 1 / 2 * S.lsGradient f.c c q d = 1 / 2 * S.lsGradient f.c c q d + 1 / 2 * ∑ i ∈ range S.nLs, S.lsGrad i c q d := by
      rw [hgrad]; ring
    rw [this]
    unfold ForceCells.lsGradient
    rw [mul_sum, mul_sum, ← sum_add_distrib]
    exact sum_congr rfl fun i _ => by ring
  have hg2 : S.pressureGradient (S.projected fun c i => (f.c c i + 1) / 2) c q d =
      1 / 2 * ∑ j ∈ range S.nP, (∑ i ∈ range S.nLs, S.interp j i * f.c c i) * S.pGrad j c q d := by
    have : 1 / 2 * ∑ j ∈ range S.nP, (∑ i ∈ range S.nLs, S.interp j i * f.c c i) * S.pGrad j c q d =
        1 / 2 * (∑ j ∈ range S.nP, (∑ i ∈ range S.nLs, S.interp j i * f.c c i) * S.pGrad j c q d) +
          1 / 2 * ∑ j ∈ range S.nP, S.pGrad j c q d := by rw [hpg]; ring
    rw [this]
    unfold ForceCells.pressureGradient ForceCells.projected
    rw [mul_sum, mul_sum, ← sum_add_distrib]
    refine sum_congr rfl fun j hj => ?_
    have hrow := hint j (mem_range.1 hj)
    have : ∑ i ∈ range S.nLs, S.interp j i * ((f.c c i + 1) / 2) =
        (∑ i ∈ range S.nLs, S.interp j i * f.c c i) / 2 + (∑ i ∈ range S.nLs, S.interp j i) / 2 := by
      rw [Finset.sum_div, Finset.sum_div, ← sum_add_distrib]
      exact sum_congr rfl fun i _ => by ring
    rw [this, hrow]; ring
  rw [C93_force p S G f inv0 ref hm hP c q d hd, hu, h1, hrho]
  unfold force Spec.weight Spec.grad Spec.val
  rw [hg1, hg2]
  unfold ForceCells.lsValue ForceCells.lsGradient
  simp only [hH, Bool.false_and, Bool.false_eq_true, if_false, add_zero, one_mul]
  split_ifs <;> ring

/-- **C93 (material data).** At points where the level set is between `-1` and `1` (or the Heaviside function between 0 and 1),
density and viscosity are between the values of the two fluids. -/
theorem C93_material_between (c q : ℕ)
    (hr : if p.heaviside then 0 ≤ Spec.val S f.H c q ∧ Spec.val S f.H c q ≤ 1 else -1 ≤ Spec.val S f.c c q ∧ Spec.val S f.c c q ≤ 1) :
    (min p.F.density (p.F.density + p.F.densityDiff) ≤ density p S f c q ∧
      density p S f c q ≤ max p.F.density (p.F.density + p.F.densityDiff)) ∧
    min p.F.viscosity (p.F.viscosity + p.F.viscosityDiff) ≤ viscosity p S f c q ∧
      viscosity p S f c q ≤ max p.F.viscosity (p.F.viscosity + p.F.viscosityDiff) := by
  have key : ∀ a b t : K, 0 ≤ t → t ≤ 1 → min a (a + b) ≤ a + b * t ∧ a + b * t ≤ max a (a + b) := by
    intro a b t h0 h1
    rcases le_total 0 b with hb | hb
    · have e1 := mul_nonneg hb h0
      have e2 := mul_le_of_le_one_right hb h1
      exact ⟨le_trans (min_le_left _ _) (by linarith), le_trans (by linarith) (le_max_right _ _)⟩
    · have e1 := mul_nonpos_of_nonpos_of_nonneg hb h0
      have e2 : b ≤ b * t := by nlinarith
      exact ⟨le_trans (min_le_right _ _) (by linarith), le_trans (by linarith) (le_max_left _ _)⟩
  have hrho : ∃ t, 0 ≤ t ∧ t ≤ 1 ∧ density p S f c q = (if p.F.variableParameters then p.F.density + p.F.densityDiff * t
      else p.F.density) ∧ viscosity p S f c q = p.F.viscosity + p.F.viscosityDiff * t := by
    cases hH : p.heaviside
    · rw [hH] at hr
      simp only [Bool.false_eq_true, if_false] at hr
      refine ⟨(Spec.val S f.c c q + 1) / 2, by linarith, by linarith, ?_, ?_⟩
      · unfold density source ForceCells.lsValue Spec.val
        simp only [hH, Bool.false_eq_true, if_false]
        split_ifs <;> ring
      · unfold viscosity source ForceCells.lsValue Spec.val
        simp only [hH, Bool.false_eq_true, if_false]
        ring
    · rw [hH] at hr
      simp only [if_true] at hr
      refine ⟨Spec.val S f.H c q, hr.1, hr.2, ?_, ?_⟩
      · unfold density source ForceCells.lsValue Spec.val
        simp only [hH, if_true]
      · unfold viscosity source ForceCells.lsValue Spec.val
        simp only [hH, if_true]
  obtain ⟨t, h0, h1, h2, h3⟩ := hrho
  refine ⟨?_, h3 ▸ key _ _ t h0 h1⟩
  rw [h2]
  split_ifs
  · exact key _ _ t h0 h1
  · exact ⟨min_le_left _ _, le_max_left _ _⟩

/-- Surface tension part of the force of one time level. -/
def Spec.oneLevel (p : Params K) (S : ForceCells K) (x w : ℕ → ℕ → K) (c q d : ℕ) : K :=
  p.F.surfaceTension * Spec.val S w c q * Spec.grad S p.F.interpolate x c q d

/-- **C93 (theta scheme, partial).** With steady fields and weights that sum to one, the force from the level set with the gradient
interpolated onto the pressure is the one-level force. Missing: the other settings, where this is false, see
`C93_theta_curvature_lost` and `C93_theta_heaviside_mixed`. -/
theorem C93_theta_steady_partial (inv0 ref : ℕ → ℕ → ℕ → K) (hm : Spec.Mapped p.F.dim S G inv0 ref) (hP : 0 < S.nP)
    (hH : p.heaviside = false) (hi : p.F.interpolate = true) (h1 : p.stepNo > 1) (h2 : 1 / 10 ^ 14 < p.tau2)
    (hsum : p.tau1 + p.tau2 = 1) (hc : f.cOld = f.c) (hw : f.wOld = f.w) (c q d : ℕ) (hd : d < p.F.dim) :
    matForce p S G f c q d = 1 / 2 * Spec.oneLevel p S f.c f.w c q d + Spec.weight p.F.gravity (density p S f c q) p.F.dim d := by
  have hu : p.useOld = true := by unfold Params.useOld; simp only [h2, h1, decide_true, Bool.and_self]
  have ht1 : p.t1 = p.tau1 := if_pos h1
  have ht2 : p.t2 = p.tau2 := if_pos h1
  rw [C93_force p S G f inv0 ref hm hP c q d hd, hu, ht1, ht2, hH, hi, hc, hw]
  unfold Spec.oneLevel
  rw [hi]
  simp only [Bool.and_self, if_true, Bool.false_eq_true, if_false]
  rw [show p.tau2 = 1 - p.tau1 by linear_combination hsum]
  ring

/-- **C93 (lost curvature).** With the theta scheme and without interpolation of the gradient the old curvature is never
evaluated: for steady fields the surface tension force is only `tau1` times the correct one - half of it with the trapezoidal
rule. -/
theorem C93_theta_curvature_lost (inv0 ref : ℕ → ℕ → ℕ → K) (hm : Spec.Mapped p.F.dim S G inv0 ref) (hP : 0 < S.nP)
    (hH : p.heaviside = false) (hi : p.F.interpolate = false) (h1 : p.stepNo > 1) (h2 : 1 / 10 ^ 14 < p.tau2)
    (hsum : p.tau1 + p.tau2 = 1) (hc : f.cOld = f.c) (c q d : ℕ) (hd : d < p.F.dim) :
    matForce p S G f c q d =
      p.tau1 * (1 / 2 * Spec.oneLevel p S f.c f.w c q d) + Spec.weight p.F.gravity (density p S f c q) p.F.dim d := by
  have hu : p.useOld = true := by unfold Params.useOld; simp only [h2, h1, decide_true, Bool.and_self]
  have ht1 : p.t1 = p.tau1 := if_pos h1
  have ht2 : p.t2 = p.tau2 := if_pos h1
  rw [C93_force p S G f inv0 ref hm hP c q d hd, hu, ht1, ht2, hH, hi, hc]
  unfold Spec.oneLevel
  rw [hi]
  simp only [Bool.and_false, if_true, Bool.false_eq_true, if_false, add_zero]
  rw [show p.tau2 = 1 - p.tau1 by linear_combination hsum]
  ring

/-- **C93 (mixed fields).** With the theta scheme and the Heaviside function, the old gradient is that of the level set: for a steady
state with `H = (c+1)/2` on all cells the surface tension force is `tau1 + 2 tau2` times the correct one. -/
theorem C93_theta_heaviside_mixed (inv0 ref : ℕ → ℕ → ℕ → K) (hm : Spec.Mapped p.F.dim S G inv0 ref) (hP : 0 < S.nP)
    (hH : p.heaviside = true) (hi : p.F.interpolate = true) (h1 : p.stepNo > 1) (h2 : 1 / 10 ^ 14 < p.tau2)
    (hsum : p.tau1 + p.tau2 = 1) (hc : f.cOld = fun c i => 2 * f.H c i - 1) (hw : f.wOld = f.w) (c q d : ℕ) (hd : d < p.F.dim)
    (hint : ∀ j < S.nP, ∑ i ∈ range S.nLs, S.interp j i = 1) (hpg : ∑ j ∈ range S.nP, S.pGrad j c q d = 0) :
    matForce p S G f c q d = (p.tau1 + 2 * p.tau2) * Spec.oneLevel p S f.H f.w c q d +
      Spec.weight p.F.gravity (density p S f c q) p.F.dim d := by
  have hu : p.useOld = true := by unfold Params.useOld; simp only [h2, h1, decide_true, Bool.and_self]
  have ht1 : p.t1 = p.tau1 := if_pos h1
  have ht2 : p.t2 = p.tau2 := if_pos h1
  have hg : Spec.grad S true f.cOld c q d = 2 * Spec.grad S true f.H c q d := by
    have : 2 * Spec.grad S true f.H c q d = 2 * Spec.grad S true f.H c q d - ∑ j ∈ range S.nP, S.pGrad j c q d := by
      rw [hpg]; ring
    rw [this, hc]
    unfold Spec.grad
    simp only [if_true]
    rw [mul_sum, ← sum_sub_distrib]
    refine sum_congr rfl fun j hj => ?_
    have e : ∑ i ∈ range S.nLs, S.interp j i * (2 * f.H c i - 1) =
        2 * (∑ i ∈ range S.nLs, S.interp j i * f.H c i) - ∑ i ∈ range S.nLs, S.interp j i := by
      rw [mul_sum, ← sum_sub_distrib]
      exact sum_congr rfl fun i _ => by ring
    rw [e, hint j (mem_range.1 hj)]; ring
  rw [C93_force p S G f inv0 ref hm hP c q d hd, hu, ht1, ht2, hH, hi, hw, hg]
  unfold Spec.oneLevel
  rw [hi]
  simp only [Bool.and_self, if_true]
  rw [show p.tau2 = 1 - p.tau1 by linear_combination hsum]
  ring

/-- **C93 (table size).** All accesses to the gradient table are inside it exactly if the pressure element has no more functions
than the level set element; for `Q_k` pressure and `s` subdivisions of the level set element: exactly if `k ≤ s`. -/
theorem C93_table_bounds (dim s k nQ : ℕ) (hdim : 0 < dim) (hq : 0 < nQ) :
    (∀ a ∈ tableAccesses ((k + 1) ^ dim) nQ, a.1 < (s + 1) ^ dim ∧ a.2 < nQ) ↔ k ≤ s := by
  have h1 : (∀ a ∈ tableAccesses ((k + 1) ^ dim) nQ, a.1 < (s + 1) ^ dim ∧ a.2 < nQ) ↔ (k + 1) ^ dim ≤ (s + 1) ^ dim := by
    unfold tableAccesses
    constructor
    · intro h
      by_contra hlt
      rw [not_le] at hlt
      have := h ((s + 1) ^ dim, 0) (by
        simp only [List.mem_flatMap, List.mem_range, List.mem_map]
        exact ⟨_, hlt, 0, hq, rfl⟩)
      exact lt_irrefl _ this.1
    · intro h a ha
      simp only [List.mem_flatMap, List.mem_range, List.mem_map] at ha
      obtain ⟨i, hi, q, hq', rfl⟩ := ha
      exact ⟨lt_of_lt_of_le hi h, hq'⟩
  rw [h1, Nat.pow_le_pow_iff_left hdim.ne']
  omega

end Force

/-! ## Examples -/

namespace Example

/-- Two cells of length one with linear elements, midpoint rule. -/
def S : Space ℚ where
  dim := 1
  nDof := 3
  nCell := 2
  nQ := 1
  val i c _ := if i = c ∨ i = c + 1 then 1 / 2 else 0
  grad i c _ _ := if i = c then -1 else if i = c + 1 then 1 else 0
  jxw _ _ := 1

def dof (c i : ℕ) : ℕ := c + i

def sim (c : ℕ) : Bool := c == 1

def P : Projection ℚ := ⟨S, ⟨fun _ => none⟩, fun _ => 1, fun _ => 1⟩

/-- The second cell is a translation of the first: hypotheses of the theorems on the matrix. -/
theorem truthful : Spec.Truthful S 2 dof sim [0, 1] := by
  refine ⟨by intro c hc; cases hc; rfl, ?_⟩
  rw [List.isChain_cons_cons]
  refine ⟨fun _ q hq => ⟨rfl, fun i hi => ?_⟩, by simp⟩
  interval_cases i <;> exact ⟨by norm_num [S, dof], fun d _ => by norm_num [S, dof]⟩

theorem cellDofs : Spec.CellDofs S 2 dof := by
  intro c hc
  change c < 2 at hc
  refine ⟨fun i hi => by unfold dof; change c + i < 3; omega, fun i _ j _ h => by unfold dof at h; omega, fun I hI q => ?_⟩
  have h0 := hI 0 (by omega)
  have h1 := hI 1 (by omega)
  unfold dof at h0 h1
  constructor
  · change (if I = c ∨ I = c + 1 then (1 / 2 : ℚ) else 0) = 0
    rw [if_neg (by omega)]
  · intro d
    change (if I = c then (-1 : ℚ) else if I = c + 1 then 1 else 0) = 0
    rw [if_neg (by omega), if_neg (by omega)]

/-- The computed matrix with the re-used cell matrix (damping 1). -/
example : (List.range 3).map (fun i => (List.range 3).map fun j => assembled P.C 3 (cellLoop S 1 2 dof sim [0, 1] fun _ _ => 0) i j) =
    [[5 / 4, -3 / 4, 0], [-3 / 4, 5 / 2, -3 / 4], [0, -3 / 4, 5 / 4]] := by decide +kernel

/-- **C93 (flat interface at the boundary).** In one dimension, for the constant normal field 1 (every interface is flat), the
computed curvature is not zero: it is `(-4/5, 0, 4/5)` in the three nodes. The matrix-free solver computes zero (C70). -/
theorem C93_flat_not_zero : ∃ κ : ℕ → ℚ, (∀ k < 3, matVmult 3 (assembled P.C 3 (cellLoop S 1 2 dof sim [0, 1] fun _ _ => 0)) κ k =
    curvatureRhs S P.C 2 dof [0, 1] (fun v => |v 0|) (fun _ _ => 1) k) ∧ κ 0 = -4 / 5 ∧ κ 1 = 0 ∧ κ 2 = 4 / 5 := by
  refine ⟨fun i => if i = 0 then -4 / 5 else if i = 2 then 4 / 5 else 0, ?_, by decide +kernel, by decide +kernel, by decide +kernel⟩
  decide +kernel

/-- Force: two level set functions and two pressure functions in one dimension, a first cell of length 1/2 and cells of length 2. -/
def FS : ForceCells ℚ where
  nLs := 2
  nP := 2
  interp j i := if i = j then 1 else 0
  lsVal _ _ _ := 1 / 2
  lsGrad i _ _ _ := if i = 0 then -1 / 2 else 1 / 2
  pVal _ _ _ := 1 / 2
  pGrad j _ _ _ := if j = 0 then -1 / 2 else 1 / 2

def G : Geometry ℚ where
  jac0 _ _ _ := 1 / 2
  pGrad0 j _ _ := if j = 0 then -2 else 2
  inv _ _ _ _ := 1 / 2

theorem mapped : Spec.Mapped 1 FS G (fun _ _ _ => 2) (fun j _ _ => if j = 0 then -1 else 1) := by
  refine ⟨fun q l hl m hm => ?_, fun j hj q d hd => ?_, fun j hj c q d hd => ?_⟩
  · have h1 : l = 0 := by omega
    have h2 : m = 0 := by omega
    subst h1 h2
    norm_num [G]
  · rw [sum_range_one]; unfold G; dsimp only; split_ifs <;> norm_num
  · rw [sum_range_one]; unfold G FS; dsimp only; split_ifs <;> norm_num

def par (interpolate heaviside : Bool) : Params ℚ := ⟨⟨1, 3, 10, 1, 1, 1, 0, interpolate⟩, heaviside, 1 / 2, 1 / 2, 2⟩

/-- Steady fields with `c = (-1, 1)`, `H = (0, 1)`, curvature 4. -/
def fields : Fields ℚ := ⟨fun _ i => if i = 0 then -1 else 1, fun _ i => if i = 0 then 0 else 1, fun _ _ => 4,
  fun _ i => if i = 0 then -1 else 1, fun _ _ => 4⟩

/-- Trapezoidal rule in step two: correct force `3·4/2 - 10·3/2`, half of the surface tension without interpolation, 1.5 times
with the Heaviside function. -/
example : matForce (par true false) FS G fields 0 0 0 = 6 - 15 ∧ matForce (par false false) FS G fields 0 0 0 = 3 - 15 ∧
    matForce (par true true) FS G fields 0 0 0 = 9 - 15 := by decide +kernel

/-- Level set with one subdivision and cubic velocity, quadratic pressure: access behind the end of the table. -/
example : (8, 0) ∈ tableAccesses ((2 + 1) ^ 2) 9 ∧ ¬ 8 < (1 + 1) ^ 2 := by decide

end Example

end Verif.LevelSet.MatrixForce
