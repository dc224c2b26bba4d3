import Verif.LevelSet.Reinit
import Mathlib.Analysis.Real.Sqrt

/-!
# C69, C70: normals and curvature of the level set
(source/level_set_okz_compute_normal.cc, source/level_set_okz_compute_curvature.cc,
source/level_set_okz_preconditioner.cc)

Finite element loops as in `Verif.FE.Space`. The constraints of normals and curvature are those of the hanging nodes; both use
the same finite element as the level set.
-/

set_option linter.unusedSectionVars false

namespace Verif.LevelSet

open Finset Verif.FE

variable {K : Type*} [Field K] [LinearOrder K] [IsStrictOrderedRing K]

/-- Damping of a cell: level_set_okz_preconditioner.cc:139-143 (factor 4, degree of the element) and
level_set_okz_compute_normal.cc:107-110 (`damping_scale_factor`, default 4, level_set_okz_compute_normal.h:66; the degree is a
template argument, -1 on simplices, see `Verif.LevelSet.Lengths`). -/
def projDamping (factor epsilonUsed epsilon cellDiameter : K) (degree : ℤ) : K :=
  factor * (max (epsilonUsed / epsilon) (cellDiameter / degree)) ^ 2

/-- Data of the projections: `damping` as above on each cell, diagonal entries of the constrained rows. -/
structure Projection (K : Type*) where
  S : Space K
  C : Constr K
  diag : ℕ → K
  damping : ℕ → K

variable (P : Projection K)

/-- Column `i` of the local matrices, summed over the cells: level_set_okz_preconditioner.cc:145-161, the unit vector is
evaluated and value and damped gradient are tested with all functions `j`. -/
def Projection.entry (j i : ℕ) : K :=
  P.S.test (fun c q => P.S.val i c q) (fun c q d => P.S.grad i c q d * P.damping c) j

/-- Product with `projection_matrix`: assembled with `constraints_normals.distribute_local_to_global(matrix)`
(level_set_okz_preconditioner.cc:163-172): entry `(k,l)` of free unknowns is `∑_ij P_ik L_ij P_jl` with the resolution `P` of
the constraints, constrained rows have only a diagonal entry. -/
def Projection.assembled (x : ℕ → K) (k : ℕ) : K :=
  if (P.C.row k).isSome then P.diag k * x k
  else P.C.scatter P.S.nDof (fun j => ∑ i ∈ range P.S.nDof, P.entry j i * P.C.dist P.S.nDof x i) k

/-- `compute_normal_vmult`, level_set_okz_compute_normal.cc:157-181, for one component, with `local_compute_normal`, lines
80-118. -/
def Projection.vmult (x : ℕ → K) (k : ℕ) : K :=
  if (P.C.row k).isSome then P.diag k * x k
  else P.C.scatter P.S.nDof (P.S.test (fun c q => P.S.value (P.C.dist P.S.nDof x) c q)
    (fun c q d => P.S.gradient (P.C.dist P.S.nDof x) c q d * P.damping c)) k

/-- Right hand side of component `e` for the normals, lines 124-151. -/
def Projection.normalRhs (φ : ℕ → K) (e : ℕ) (k : ℕ) : K :=
  P.C.scatter P.S.nDof (P.S.test (fun c q => P.S.gradient φ c q e) (fun _ _ _ => 0)) k

/-- The solution of a projection system after `constraints_normals.distribute`, lines 266-276. -/
def Projection.field (n : ℕ → K) : ℕ → K := P.C.dist P.S.nDof n

/-- Nodal normalization, level_set_okz_compute_curvature.cc:150-169; `nrm` is the norm. -/
def normalizeNode (nrm : (ℕ → K) → K) (n : ℕ → K) (d : ℕ) : K :=
  if 1 / 100 < nrm n then n d / nrm n else 0

/-- `get_divergence`, lines 171-205: zero in one dimension (`get_divergence` of the specialization). -/
def Projection.divergence (n : ℕ → ℕ → K) (c q : ℕ) : K :=
  if P.S.dim = 1 then 0 else ∑ i ∈ range P.S.nDof, ∑ d ∈ range P.S.dim, n i d * P.S.grad i c q d

/-- Local contributions of `local_compute_curvature_rhs`, lines 214-262, of one batch of cells; `on i c` tells whether
unknown `i` belongs to cell `c`. The batch is skipped if the normals of all its unknowns were set to zero. -/
def Projection.batchRhs (nrm : (ℕ → K) → K) (on : ℕ → ℕ → Bool) (n : ℕ → ℕ → K) (batch : List ℕ) (i : ℕ) : K :=
  if batch.all fun c => (List.range P.S.nDof).all fun j => !on j c || !decide (1 / 100 < nrm (n j)) then 0
  else (batch.map fun c => ∑ q ∈ range P.S.nQ,
    -P.divergence (fun j => normalizeNode nrm (n j)) c q * P.S.val i c q * P.S.jxw c q).sum

/-- Right hand side of the curvature system. -/
def Projection.curvatureRhs (nrm : (ℕ → K) → K) (on : ℕ → ℕ → Bool) (batches : List (List ℕ)) (n : ℕ → ℕ → K) (k : ℕ) : K :=
  P.C.scatter P.S.nDof (fun i => (batches.map fun b => P.batchRhs nrm on n b i).sum) k

/-! ### Specification -/

/-- Euclidean norm of the first `dim` components. -/
def Spec.IsNorm (dim : ℕ) (nrm : (ℕ → K) → K) : Prop := ∀ v, 0 ≤ nrm v ∧ nrm v ^ 2 = ∑ d ∈ range dim, v d ^ 2

/-- The finite element function of `f` is `g` at all quadrature points. -/
def Spec.Is (S : Space K) (f : ℕ → K) (g : ℕ → ℕ → K) : Prop := ∀ c < S.nCell, ∀ q < S.nQ, S.value f c q = g c q

/-! ### Proofs -/

/-- **C69 (two implementations).** On free unknowns the assembled projection matrix and the matrix-free product agree if both
use the same damping on every cell (which damping they use is C113); the diagonal of constrained rows may differ. -/
theorem C69_assembled_is_matrix_free (P Q : Projection K) (hS : Q.S = P.S) (hQ : Q.C = P.C)
    (hd : ∀ c < P.S.nCell, Q.damping c = P.damping c) (x : ℕ → K) (k : ℕ) (hk : k < P.S.nDof)
    (hfree : (P.C.row k).isSome = false) : P.assembled x k = Q.vmult x k := by
  unfold Projection.assembled Projection.vmult
  rw [hQ, hS, if_neg (by rw [hfree]; simp), if_neg (by rw [hfree]; simp)]
  · refine P.C.scatter_congr _ hk fun j _ => ?_
    have : ∀ i, P.entry j i * P.C.dist P.S.nDof x i = P.S.integral fun c q => P.C.dist P.S.nDof x i *
        (P.S.val i c q * P.S.val j c q + ∑ d ∈ range P.S.dim, P.S.grad i c q d * P.damping c * P.S.grad j c q d) := by
      intro i
      rw [P.S.integral_smul, mul_comm]; rfl
    simp only [this]
    rw [← P.S.integral_sum]
    unfold Space.test
    refine P.S.integral_congr fun c hc q _ => ?_
    dsimp only
    rw [hd c hc]
    unfold Space.value Space.gradient
    simp only [mul_add, sum_add_distrib, sum_mul, mul_sum]
    congr 1
    · exact sum_congr rfl fun i _ => by ring
    · rw [sum_comm]
      exact sum_congr rfl fun d _ => sum_congr rfl fun i _ => by ring

theorem proj_pair (hC : P.C.Closed) (x v : ℕ → K) :
    ∑ k ∈ range P.S.nDof, (if (P.C.row k).isSome then 0 else v k * P.vmult x k) =
      P.S.integral fun c q => P.S.value (P.field x) c q * P.S.value (P.field v) c q +
        P.damping c * ∑ d ∈ range P.S.dim, P.S.gradient (P.field x) c q d * P.S.gradient (P.field v) c q d := by
  have h := P.S.assembled_pair P.C hC (fun c q => P.S.value (P.C.dist P.S.nDof x) c q)
    (fun c q d => P.S.gradient (P.C.dist P.S.nDof x) c q d * P.damping c) v
  have e : ∑ k ∈ range P.S.nDof, (if (P.C.row k).isSome then 0 else v k * P.vmult x k) =
      ∑ k ∈ range P.S.nDof, v k * P.C.scatter P.S.nDof (P.S.test (fun c q => P.S.value (P.C.dist P.S.nDof x) c q)
        (fun c q d => P.S.gradient (P.C.dist P.S.nDof x) c q d * P.damping c)) k := by
    refine sum_congr rfl fun k _ => ?_
    unfold Projection.vmult
    split_ifs with hk
    · rw [P.C.scatter_con _ _ hk, mul_zero]
    · rfl
  rw [e, h]
  refine P.S.integral_congr fun c _ q _ => ?_
  unfold Projection.field
  congr 1
  rw [mul_sum]
  exact sum_congr rfl fun d _ => by ring

/-- An exact solution of a projection system with a right hand side given by point values `r` satisfies the damped projection
equations for every test function. -/
theorem proj_solution (hC : P.C.Closed) (r : ℕ → ℕ → K) (n : ℕ → K)
    (hs : ∀ k < P.S.nDof, (P.C.row k).isSome = false → P.vmult n k = P.C.scatter P.S.nDof (P.S.test r fun _ _ _ => 0) k)
    (v : ℕ → K) :
    (P.S.integral fun c q => P.S.value (P.field n) c q * P.S.value (P.field v) c q +
        P.damping c * ∑ d ∈ range P.S.dim, P.S.gradient (P.field n) c q d * P.S.gradient (P.field v) c q d) =
      P.S.integral fun c q => r c q * P.S.value (P.field v) c q := by
  rw [← proj_pair P hC]
  have h := P.S.assembled_pair P.C hC r (fun _ _ _ => 0) v
  simp only [zero_mul, sum_const_zero, add_zero] at h
  rw [show P.field v = P.C.dist P.S.nDof v from rfl, ← h]
  refine sum_congr rfl fun k hk => ?_
  split_ifs with hc
  · rw [P.C.scatter_con _ _ hc, mul_zero]
  · rw [hs k (mem_range.1 hk) (by simpa using hc)]

theorem integral_eq_zero {S : Space K} (hj : ∀ c < S.nCell, ∀ q < S.nQ, 0 < S.jxw c q) {f : ℕ → ℕ → K}
    (h : ∀ c < S.nCell, ∀ q < S.nQ, 0 ≤ f c q) (h0 : S.integral f ≤ 0) : ∀ c < S.nCell, ∀ q < S.nQ, f c q = 0 := by
  intro c hc q hq
  have hz : S.integral f = 0 := le_antisymm h0 (integral_nonneg S (fun c hc q hq => (hj c hc q hq).le) h)
  unfold Space.integral at hz
  have h1 := (sum_eq_zero_iff_of_nonneg (fun c hc => sum_nonneg fun q hq =>
    mul_nonneg (h c (mem_range.1 hc) q (mem_range.1 hq)) (hj c (mem_range.1 hc) q (mem_range.1 hq)).le)).1 hz c (mem_range.2 hc)
  have h2 := (sum_eq_zero_iff_of_nonneg (fun q hq =>
    mul_nonneg (h c hc q (mem_range.1 hq)) (hj c hc q (mem_range.1 hq)).le)).1 h1 q (mem_range.2 hq)
  exact (mul_eq_zero.1 h2).resolve_right (hj c hc q hq).ne'

/-- **C69 (stability).** The projected field is never larger than the data in `L2`, for every damping. -/
theorem C69_stable (hC : P.C.Closed) (hj : ∀ c < P.S.nCell, ∀ q < P.S.nQ, 0 ≤ P.S.jxw c q)
    (hd : ∀ c < P.S.nCell, 0 ≤ P.damping c) (r : ℕ → ℕ → K) (n : ℕ → K)
    (hs : ∀ k < P.S.nDof, (P.C.row k).isSome = false → P.vmult n k = P.C.scatter P.S.nDof (P.S.test r fun _ _ _ => 0) k) :
    (P.S.integral fun c q => P.S.value (P.field n) c q ^ 2) ≤ P.S.integral fun c q => r c q ^ 2 := by
  have h := proj_solution P hC r n hs n
  have h2 : 0 ≤ P.S.integral fun c q => (P.S.value (P.field n) c q - r c q) ^ 2 +
      2 * (P.damping c * ∑ d ∈ range P.S.dim, P.S.gradient (P.field n) c q d * P.S.gradient (P.field n) c q d) := by
    refine integral_nonneg P.S hj fun c hc q _ => ?_
    have := hd c hc
    have h3 : 0 ≤ ∑ d ∈ range P.S.dim, P.S.gradient (P.field n) c q d * P.S.gradient (P.field n) c q d :=
      sum_nonneg fun d _ => mul_self_nonneg _
    positivity
  have e : (P.S.integral fun c q => (P.S.value (P.field n) c q - r c q) ^ 2 +
      2 * (P.damping c * ∑ d ∈ range P.S.dim, P.S.gradient (P.field n) c q d * P.S.gradient (P.field n) c q d)) =
      2 * (P.S.integral fun c q => P.S.value (P.field n) c q * P.S.value (P.field n) c q +
        P.damping c * ∑ d ∈ range P.S.dim, P.S.gradient (P.field n) c q d * P.S.gradient (P.field n) c q d)
      + -2 * (P.S.integral fun c q => r c q * P.S.value (P.field n) c q)
      + (-1 * (P.S.integral fun c q => P.S.value (P.field n) c q ^ 2) + P.S.integral fun c q => r c q ^ 2) := by
    simp only [← P.S.integral_smul, ← P.S.integral_add]
    exact P.S.integral_congr fun c _ q _ => by ring
  rw [e, h] at h2
  linarith

theorem field_sub (x y : ℕ → K) : P.field (fun k => x k + -1 * y k) = fun i => P.field x i + -1 * P.field y i := by
  funext i
  unfold Projection.field
  rw [P.C.dist_add]
  congr 1
  unfold Constr.dist
  cases P.C.row i with
  | none => rfl
  | some c => simp [sum_neg_distrib]

/-- **C69 (constants).** If the data are the same constant `a` at all quadrature points, the projection is exactly that
constant at all quadrature points, however strong the damping. -/
theorem C69_reproduces_constants (hC : P.C.Closed) (hP : P.S.Partition) (hone : P.C.KeepsOne P.S.nDof)
    (hj : ∀ c < P.S.nCell, ∀ q < P.S.nQ, 0 < P.S.jxw c q) (hd : ∀ c < P.S.nCell, 0 ≤ P.damping c) (r : ℕ → ℕ → K) (a : K)
    (hr : ∀ c < P.S.nCell, ∀ q < P.S.nQ, r c q = a) (n : ℕ → K)
    (hs : ∀ k < P.S.nDof, (P.C.row k).isSome = false → P.vmult n k = P.C.scatter P.S.nDof (P.S.test r fun _ _ _ => 0) k) :
    Spec.Is P.S (P.field n) fun _ _ => a := by
  have hca : P.field (fun _ => a) = fun _ => a := by
    funext i; exact P.C.dist_const _ hone a i
  have h := proj_solution P hC r n hs (fun k => n k + -1 * a)
  have hf : P.field (fun k => n k + -1 * a) = fun i => P.field n i + -1 * a := by
    rw [field_sub P n (fun _ => a), hca]
  rw [hf] at h
  have hv : ∀ c < P.S.nCell, ∀ q < P.S.nQ, P.S.value (fun i => P.field n i + -1 * a) c q = P.S.value (P.field n) c q - a := by
    intro c hc q hq
    rw [P.S.value_add (P.field n) (fun _ => -1 * a), P.S.value_const hP _ hc hq]; ring
  have hg : ∀ c < P.S.nCell, ∀ q < P.S.nQ, ∀ d < P.S.dim,
      P.S.gradient (fun i => P.field n i + -1 * a) c q d = P.S.gradient (P.field n) c q d := by
    intro c hc q hq d hd
    rw [P.S.gradient_add (P.field n) (fun _ => -1 * a), P.S.gradient_const hP _ hc hq hd, add_zero]
  have hz : (P.S.integral fun c q => (P.S.value (P.field n) c q - a) ^ 2 +
      P.damping c * ∑ d ∈ range P.S.dim, P.S.gradient (P.field n) c q d ^ 2) = 0 := by
    have e : (P.S.integral fun c q => (P.S.value (P.field n) c q - a) ^ 2 +
        P.damping c * ∑ d ∈ range P.S.dim, P.S.gradient (P.field n) c q d ^ 2) =
        (P.S.integral fun c q => P.S.value (P.field n) c q * P.S.value (fun i => P.field n i + -1 * a) c q +
          P.damping c * ∑ d ∈ range P.S.dim, P.S.gradient (P.field n) c q d *
            P.S.gradient (fun i => P.field n i + -1 * a) c q d) +
        -1 * P.S.integral fun c q => r c q * P.S.value (fun i => P.field n i + -1 * a) c q := by
      rw [← P.S.integral_smul, ← P.S.integral_add]
      refine P.S.integral_congr fun c hc q hq => ?_
      rw [hv c hc q hq, hr c hc q hq]
      have hg' : ∑ d ∈ range P.S.dim, P.S.gradient (P.field n) c q d * P.S.gradient (fun i => P.field n i + -1 * a) c q d =
          ∑ d ∈ range P.S.dim, P.S.gradient (P.field n) c q d * P.S.gradient (P.field n) c q d :=
        sum_congr rfl fun d hd => by rw [hg c hc q hq d (mem_range.1 hd)]
      rw [hg']
      have : ∑ d ∈ range P.S.dim, P.S.gradient (P.field n) c q d ^ 2 =
          ∑ d ∈ range P.S.dim, P.S.gradient (P.field n) c q d * P.S.gradient (P.field n) c q d :=
        sum_congr rfl fun d _ => by ring
      rw [this]; ring
    rw [e, h]; ring
  have hzero := integral_eq_zero hj (fun c hc q _ => by
    have := hd c hc
    have h3 : 0 ≤ ∑ d ∈ range P.S.dim, P.S.gradient (P.field n) c q d ^ 2 := sum_nonneg fun d _ => sq_nonneg _
    positivity) hz.le
  intro c hc q hq
  have h1 := hzero c hc q hq
  have h2 : 0 ≤ P.damping c * ∑ d ∈ range P.S.dim, P.S.gradient (P.field n) c q d ^ 2 :=
    mul_nonneg (hd c hc) (sum_nonneg fun d _ => sq_nonneg _)
  have h3 : (P.S.value (P.field n) c q - a) ^ 2 = 0 := le_antisymm (by linarith) (sq_nonneg _)
  have := pow_eq_zero_iff (two_ne_zero) |>.1 h3
  linarith

/-- **C69 (linear level sets).** For a level set with constant gradient `g` the computed normal field is exactly `g`, in all
components and at all quadrature points. -/
theorem C69_normal_of_linear (hC : P.C.Closed) (hP : P.S.Partition) (hone : P.C.KeepsOne P.S.nDof)
    (hj : ∀ c < P.S.nCell, ∀ q < P.S.nQ, 0 < P.S.jxw c q) (hd : ∀ c < P.S.nCell, 0 ≤ P.damping c) (φ : ℕ → K) (g : ℕ → K)
    (hφ : ∀ c < P.S.nCell, ∀ q < P.S.nQ, ∀ e < P.S.dim, P.S.gradient φ c q e = g e) (n : ℕ → ℕ → K)
    (hs : ∀ e < P.S.dim, ∀ k < P.S.nDof, (P.C.row k).isSome = false → P.vmult (n e) k = P.normalRhs φ e k) :
    ∀ e < P.S.dim, Spec.Is P.S (P.field (n e)) fun _ _ => g e :=
  fun e he => C69_reproduces_constants P hC hP hone hj hd (fun c q => P.S.gradient φ c q e) (g e)
    (fun c hc q hq => hφ c hc q hq e he) (n e) (hs e he)

/-- **C69 (damping).** The damping is nonnegative, quadratic in the larger of `ε_used/ε` and `h/degree`. -/
theorem C69_damping_nonneg (f e1 e2 h : K) (deg : ℤ) (hf : 0 ≤ f) : 0 ≤ projDamping f e1 e2 h deg ∧
    (0 ≤ h / deg → f * (h / deg) ^ 2 ≤ projDamping f e1 e2 h deg) ∧
    (0 ≤ e1 / e2 → f * (e1 / e2) ^ 2 ≤ projDamping f e1 e2 h deg) ∧
    (projDamping f e1 e2 h deg = f * (h / deg) ^ 2 ∨ projDamping f e1 e2 h deg = f * (e1 / e2) ^ 2) := by
  unfold projDamping
  refine ⟨mul_nonneg hf (sq_nonneg _), fun hh => mul_le_mul_of_nonneg_left (pow_le_pow_left₀ hh (le_max_right _ _) 2) hf,
    fun hh => mul_le_mul_of_nonneg_left (pow_le_pow_left₀ hh (le_max_left _ _) 2) hf, ?_⟩
  rcases le_total (e1 / e2) (h / deg) with hm | hm
  · rw [max_eq_right hm]; exact .inl rfl
  · rw [max_eq_left hm]; exact .inr rfl

/-! ### C70: curvature -/

theorem list_range_sum (f : ℕ → K) (n : ℕ) : ((List.range n).map f).sum = ∑ c ∈ range n, f c := by
  induction n with
  | zero => simp
  | succ n ih => rw [List.range_succ, List.map_append, List.sum_append, ih, sum_range_succ]; simp

theorem norm_smul {dim : ℕ} {nrm : (ℕ → K) → K} (hn : Spec.IsNorm dim nrm) (s : K) (v : ℕ → K) :
    nrm (fun d => s * v d) = |s| * nrm v := by
  have h1 := hn fun d => s * v d
  have h2 := hn v
  have : nrm (fun d => s * v d) ^ 2 = (|s| * nrm v) ^ 2 := by
    rw [h1.2, mul_pow, sq_abs, h2.2, mul_sum]
    exact sum_congr rfl fun d _ => by ring
  exact (pow_left_inj₀ h1.1 (mul_nonneg (abs_nonneg _) h2.1) two_ne_zero).1 this

/-- **C70 (nodal normals).** The normal used at a node has length one or zero; it is zero exactly for short gradients. -/
theorem C70_node_length (dim : ℕ) (nrm : (ℕ → K) → K) (hn : Spec.IsNorm dim nrm) (v : ℕ → K) :
    (1 / 100 < nrm v → ∑ d ∈ range dim, normalizeNode nrm v d ^ 2 = 1 ∧ ∀ d, nrm v * normalizeNode nrm v d = v d) ∧
    (nrm v ≤ 1 / 100 → ∀ d, normalizeNode nrm v d = 0) := by
  refine ⟨fun h => ?_, fun h d => by unfold normalizeNode; rw [if_neg (not_lt.2 h)]⟩
  have hp : 0 < nrm v := lt_trans (by norm_num) h
  constructor
  · have : ∀ d, normalizeNode nrm v d ^ 2 = v d ^ 2 / nrm v ^ 2 := by
      intro d; unfold normalizeNode; rw [if_pos h, div_pow]
    simp only [this]
    rw [← sum_div, ← (hn v).2, div_self]
    positivity
  · intro d
    unfold normalizeNode
    rw [if_pos h]; field_simp

/-- **C70 (scaling).** Rescaling the level set gradient at a node by a positive factor does not change its normal, as long as
both lengths are above the threshold; reversing it reverses the normal. -/
theorem C70_node_scaling (dim : ℕ) (nrm : (ℕ → K) → K) (hn : Spec.IsNorm dim nrm) (v : ℕ → K) (s : K) (hs : 0 < s)
    (h1 : 1 / 100 < nrm v) (h2 : 1 / 100 < s * nrm v) (d : ℕ) :
    normalizeNode nrm (fun e => s * v e) d = normalizeNode nrm v d ∧
    normalizeNode nrm (fun e => -1 * v e) d = -normalizeNode nrm v d := by
  have hp : 0 < nrm v := lt_trans (by norm_num) h1
  constructor
  · unfold normalizeNode
    rw [norm_smul hn, abs_of_pos hs, if_pos h2, if_pos h1]
    field_simp
  · unfold normalizeNode
    rw [norm_smul hn, abs_neg, abs_one, one_mul, if_pos h1, if_pos h1]
    ring

/-- **C70 (batches).** The right hand side does not depend on how the cells are grouped into batches (hence not on the
vectorization width): skipping a batch with vanishing normals loses nothing. -/
theorem C70_batch_independent (nrm : (ℕ → K) → K) (on : ℕ → ℕ → Bool)
    (hon : ∀ i c, on i c = false → ∀ q d, P.S.grad i c q d = 0) (batches : List (List ℕ))
    (hb : batches.flatten.Perm (List.range P.S.nCell)) (n : ℕ → ℕ → K) (k : ℕ) (hk : k < P.S.nDof) :
    P.curvatureRhs nrm on batches n k =
      P.C.scatter P.S.nDof (P.S.test (fun c q => -P.divergence (fun j => normalizeNode nrm (n j)) c q) fun _ _ _ => 0) k := by
  unfold Projection.curvatureRhs
  refine P.C.scatter_congr _ hk fun i _ => ?_
  have hbatch : ∀ b, P.batchRhs nrm on n b i = (b.map fun c => ∑ q ∈ range P.S.nQ,
      -P.divergence (fun j => normalizeNode nrm (n j)) c q * P.S.val i c q * P.S.jxw c q).sum := by
    intro b
    unfold Projection.batchRhs
    split_ifs with hz
    · symm
      apply List.sum_eq_zero
      intro z hzm
      rw [List.mem_map] at hzm
      obtain ⟨c, hc, rfl⟩ := hzm
      rw [List.all_eq_true] at hz
      have hzc := hz c hc
      rw [List.all_eq_true] at hzc
      refine sum_eq_zero fun q _ => ?_
      have hdiv : P.divergence (fun j => normalizeNode nrm (n j)) c q = 0 := by
        unfold Projection.divergence
        split_ifs
        · rfl
        · refine sum_eq_zero fun j hj => sum_eq_zero fun d _ => ?_
          have := hzc j (List.mem_range.2 (mem_range.1 hj))
          rw [Bool.or_eq_true, Bool.not_eq_true', Bool.not_eq_true', decide_eq_false_iff_not] at this
          rcases this with h | h
          · rw [hon j c h, mul_zero]
          · unfold normalizeNode; dsimp only; rw [if_neg h, zero_mul]
      rw [hdiv]; ring
    · rfl
  simp only [hbatch]
  have hflat : (batches.map fun b => (b.map fun c => ∑ q ∈ range P.S.nQ,
      -P.divergence (fun j => normalizeNode nrm (n j)) c q * P.S.val i c q * P.S.jxw c q).sum).sum =
      (batches.flatten.map fun c => ∑ q ∈ range P.S.nQ,
      -P.divergence (fun j => normalizeNode nrm (n j)) c q * P.S.val i c q * P.S.jxw c q).sum := by
    rw [List.map_flatten, List.sum_flatten, List.map_map]; rfl
  rw [hflat, (hb.map _).sum_eq]
  unfold Space.test Space.integral
  rw [list_range_sum]
  refine sum_congr rfl fun c _ => sum_congr rfl fun q _ => ?_
  simp

/-- **C70 (flat interface).** If all nodal gradients are the same vector, the curvature is zero at every quadrature point. -/
theorem C70_flat_interface (hC : P.C.Closed) (hP : P.S.Partition) (hone : P.C.KeepsOne P.S.nDof)
    (hj : ∀ c < P.S.nCell, ∀ q < P.S.nQ, 0 < P.S.jxw c q) (hd : ∀ c < P.S.nCell, 0 ≤ P.damping c)
    (nrm : (ℕ → K) → K) (on : ℕ → ℕ → Bool) (hon : ∀ i c, on i c = false → ∀ q d, P.S.grad i c q d = 0)
    (batches : List (List ℕ)) (hb : batches.flatten.Perm (List.range P.S.nCell)) (v : ℕ → K) (κ : ℕ → K)
    (hs : ∀ k < P.S.nDof, (P.C.row k).isSome = false → P.vmult κ k = P.curvatureRhs nrm on batches (fun _ => v) k) :
    Spec.Is P.S (P.field κ) fun _ _ => 0 := by
  refine C69_reproduces_constants P hC hP hone hj hd
    (fun c q => -P.divergence (fun _ => normalizeNode nrm v) c q) 0 ?_ κ ?_
  · intro c hc q hq
    rw [neg_eq_zero]
    unfold Projection.divergence
    split_ifs
    · rfl
    · rw [sum_comm]
      refine sum_eq_zero fun d hd => ?_
      rw [← mul_sum, hP.2 c hc q hq d (mem_range.1 hd), mul_zero]
  · intro k hk hf
    rw [hs k hk hf, C70_batch_independent P nrm on hon batches hb _ k hk]

/-- **C70 (total curvature).** The damped projection keeps the total: the integral of the curvature field is minus the
integral of the divergence of the nodal unit normals. -/
theorem C70_total_curvature (hC : P.C.Closed) (hP : P.S.Partition) (hone : P.C.KeepsOne P.S.nDof)
    (nrm : (ℕ → K) → K) (on : ℕ → ℕ → Bool) (hon : ∀ i c, on i c = false → ∀ q d, P.S.grad i c q d = 0)
    (batches : List (List ℕ)) (hb : batches.flatten.Perm (List.range P.S.nCell)) (n : ℕ → ℕ → K) (κ : ℕ → K)
    (hs : ∀ k < P.S.nDof, (P.C.row k).isSome = false → P.vmult κ k = P.curvatureRhs nrm on batches n k) :
    Spec.total P.S (P.field κ) =
      -P.S.integral fun c q => if P.S.dim = 1 then 0 else
        ∑ i ∈ range P.S.nDof, ∑ d ∈ range P.S.dim, normalizeNode nrm (n i) d * P.S.grad i c q d := by
  have h := proj_solution P hC (fun c q => -P.divergence (fun j => normalizeNode nrm (n j)) c q) κ (by
    intro k hk hf
    rw [hs k hk hf, C70_batch_independent P nrm on hon batches hb _ k hk]) (fun _ => 1)
  have hca : P.field (fun _ => (1 : K)) = fun _ => 1 := by
    funext i; exact P.C.dist_const _ hone 1 i
  rw [hca] at h
  rw [← P.S.integral_neg]
  unfold Spec.total
  have e1 : (P.S.integral fun c q => P.S.value (P.field κ) c q * P.S.value (fun _ => 1) c q +
      P.damping c * ∑ d ∈ range P.S.dim, P.S.gradient (P.field κ) c q d * P.S.gradient (fun _ => 1) c q d) =
      P.S.integral fun c q => P.S.value (P.field κ) c q := by
    refine P.S.integral_congr fun c hc q hq => ?_
    rw [P.S.value_const hP 1 hc hq, mul_one, sum_eq_zero, mul_zero, add_zero]
    intro d hd
    rw [P.S.gradient_const hP 1 hc hq (mem_range.1 hd), mul_zero]
  rw [← e1, h]
  refine P.S.integral_congr fun c hc q hq => ?_
  rw [P.S.value_const hP 1 hc hq, mul_one]
  rfl

/-- **C70 (orientation).** Exchanging the two phases (reversing all gradients) reverses the right hand side of the curvature. -/
theorem C70_orientation (nrm : (ℕ → K) → K) (hn : Spec.IsNorm P.S.dim nrm) (on : ℕ → ℕ → Bool)
    (hon : ∀ i c, on i c = false → ∀ q d, P.S.grad i c q d = 0)
    (batches : List (List ℕ)) (hb : batches.flatten.Perm (List.range P.S.nCell)) (n : ℕ → ℕ → K) (k : ℕ) (hk : k < P.S.nDof) :
    P.curvatureRhs nrm on batches (fun i d => -1 * n i d) k = -P.curvatureRhs nrm on batches n k := by
  rw [C70_batch_independent P nrm on hon batches hb _ k hk, C70_batch_independent P nrm on hon batches hb _ k hk,
    ← P.C.scatter_neg]
  refine P.C.scatter_congr _ hk fun i _ => ?_
  rw [← P.S.test_neg]
  refine P.S.test_congr (fun c q => ?_) (fun c q d _ => by ring) i
  congr 1
  unfold Projection.divergence
  split_ifs
  · ring
  · rw [← sum_neg_distrib]
    refine sum_congr rfl fun j _ => ?_
    rw [← sum_neg_distrib]
    refine sum_congr rfl fun d _ => ?_
    have : normalizeNode nrm (fun e => -1 * n j e) d = -normalizeNode nrm (n j) d := by
      unfold normalizeNode
      rw [norm_smul hn, abs_neg, abs_one, one_mul]
      split_ifs <;> ring
    dsimp only
    rw [this]; ring

/-! ### Approximate projections -/

/-- `compute_curvature_vmult`, level_set_okz_compute_curvature.cc:267-306: the third argument is a `bool`, so that the value 2
passed in line 389 means `true` and selects `diffusion_setting = 1`: values and damped gradients. -/
def Projection.curvatureVmult (applyDiffusion : Bool) (x : ℕ → K) (k : ℕ) : K :=
  if (P.C.row k).isSome then P.diag k * x k
  else P.C.scatter P.S.nDof (P.S.test (fun c q => P.S.value (P.C.dist P.S.nDof x) c q)
    (fun c q d => if applyDiffusion then P.S.gradient (P.C.dist P.S.nDof x) c q d * P.damping c else 0)) k

/-- One round of the damping loop, lines 386-393 (`2` converted to `true`); `prec` is the diagonal preconditioner. -/
def Projection.dampOnce (prec : ℕ → K) (x : ℕ → K) : ℕ → K :=
  P.C.dist P.S.nDof fun k => x k + -(5 / 100) * (prec k * P.curvatureVmult true x k)

/-- **C70 (limit).** With approximate projections the smoothing loop, meant to diffuse only, shrinks a constant curvature: if
the preconditioner is the inverse of the lumped mass matrix, `m` rounds multiply it with `0.95^m` (the code runs eight). Only
`compute_curvature` used on its own gets here: with this parameter `compute_normal` throws (level_set_okz_compute_normal.cc:226). -/
theorem C70_approximate_projection_shrinks (hP : P.S.Partition) (hcon : ∀ k, P.C.row k = none) (prec : ℕ → K)
    (hprec : ∀ k < P.S.nDof, prec k * P.S.test (fun _ _ => 1) (fun _ _ _ => 0) k = 1) (a : K) (m : ℕ) :
    ∀ k < P.S.nDof, (P.dampOnce prec)^[m] (fun _ => a) k = (95 / 100) ^ m * a := by
  have hdist : ∀ x, P.C.dist P.S.nDof x = x := by
    intro x; funext k; unfold Constr.dist; rw [hcon]
  have hloc : ∀ x b, (∀ k < P.S.nDof, x k = b) → ∀ k < P.S.nDof, P.dampOnce prec x k = 95 / 100 * b := by
    intro x b hx k hk
    unfold Projection.dampOnce Projection.curvatureVmult
    rw [hdist]
    rw [if_neg (by rw [hcon]; simp), hdist]
    have hsc : ∀ L, P.C.scatter P.S.nDof L k = L k := by
      intro L
      unfold Constr.scatter
      rw [if_neg (by rw [hcon]; simp), sum_eq_zero, add_zero]
      intro i _; rw [hcon]
    rw [hsc]
    have hv : ∀ c q, P.S.value x c q = P.S.value (fun _ => b) c q := fun c q =>
      sum_congr rfl fun i hi => by rw [hx i (mem_range.1 hi)]
    have hg : ∀ c q d, P.S.gradient x c q d = P.S.gradient (fun _ => b) c q d := fun c q d =>
      sum_congr rfl fun i hi => by rw [hx i (mem_range.1 hi)]
    have ht : P.S.test (fun c q => P.S.value x c q) (fun c q d => if true then P.S.gradient x c q d * P.damping c else 0) k =
        b * P.S.test (fun _ _ => 1) (fun _ _ _ => 0) k := by
      unfold Space.test
      rw [← P.S.integral_smul]
      refine P.S.integral_congr fun c hc q hq => ?_
      dsimp only
      rw [hv, P.S.value_const hP b hc hq, sum_eq_zero, sum_eq_zero]
      · ring
      · intro d _; ring
      · intro d hd
        rw [hg, P.S.gradient_const hP b hc hq (mem_range.1 hd)]; simp
    rw [ht, hx k hk]
    have := hprec k hk
    linear_combination (-(5 / 100) * b) * this
  induction m with
  | zero => intro k _; simp
  | succ m ih =>
    intro k hk
    rw [Function.iterate_succ_apply', hloc _ _ ih k hk, pow_succ]; ring

/-! ### Concrete cases -/

/-- The Euclidean norm of the reals satisfies the description of the norm, in every dimension. -/
example (dim : ℕ) : Spec.IsNorm (K := ℝ) dim fun v => Real.sqrt (∑ d ∈ range dim, v d ^ 2) := fun v =>
  ⟨Real.sqrt_nonneg _, Real.sq_sqrt (sum_nonneg fun d _ => sq_nonneg _)⟩

/-- One bilinear cell would do; here two unknowns in two space dimensions with one quadrature point. -/
def exProj : Projection ℚ where
  S := ⟨2, 2, 1, 2, fun i _ q => if i = q then 1 else 0, fun i _ _ d => if d = 0 then (if i = 0 then -1 else 1) else 0,
    fun _ _ => 1 / 2⟩
  C := ⟨fun _ => none⟩
  diag := fun _ => 1
  damping := fun _ => 4

/-- Hypotheses of C69/C70 for the level set `x`: its normal is `(1,0)`. -/
example : exProj.C.Closed ∧ exProj.S.Partition ∧ exProj.C.KeepsOne 2 ∧
    (∀ c < 1, ∀ q < 2, ∀ e < 2, exProj.S.gradient (fun i => (i : ℚ)) c q e = if e = 0 then 1 else 0) ∧
    (∀ e < 2, ∀ k < 2, exProj.vmult (fun _ => if e = 0 then 1 else 0) k = exProj.normalRhs (fun i => (i : ℚ)) e k) := by
  refine ⟨fun i c h => by simp [exProj] at h, ⟨?_, ?_⟩, fun i c h => by simp [exProj] at h, ?_, ?_⟩
  · show ∀ c < 1, ∀ q < 2, _
    decide +kernel
  · show ∀ c < 1, ∀ q < 2, ∀ d < 2, _
    decide +kernel
  · decide +kernel
  · decide +kernel

example : ∀ k < 2, (4 / 4 : ℚ) * 2 * exProj.S.test (fun _ _ => 1) (fun _ _ _ => 0) k = 1 := by decide +kernel

end Verif.LevelSet
