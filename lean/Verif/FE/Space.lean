import Mathlib.Algebra.BigOperators.Ring.Finset
import Mathlib.Algebra.BigOperators.Field
import Mathlib.Algebra.BigOperators.Group.Finset.Sigma
import Mathlib.Algebra.Field.Rat
import Mathlib.Tactic.Ring
import Mathlib.Tactic.LinearCombination

/-!
# Finite element cell loops with affine constraints

The operations of `FEEvaluation` inside `MatrixFree::cell_loop` and of `AffineConstraints` that the level set operators of
adaflo are written in (deal.II itself is outside /repo; this is the meaning the calls in
source/level_set_okz_advance_concentration.cc, level_set_okz_reinitialization.cc, level_set_okz_compute_normal.cc and
level_set_okz_compute_curvature.cc are given).

Simplifications: basis functions are numbered globally and are given by arbitrary values and gradients at the quadrature
points of every cell (zero on the cells where a function does not live), so that the sum over the cells of the local
contributions is a sum over all functions; vectorization and the partition over processes are not represented, except where
stated. Arithmetic is exact.
-/

namespace Verif.FE

open Finset

variable {K : Type*} [Field K]

/-- Scalar basis functions at the quadrature points, with the quadrature weights `JxW`. -/
structure Space (K : Type*) where
  dim : ℕ
  nDof : ℕ
  nCell : ℕ
  nQ : ℕ
  val : ℕ → ℕ → ℕ → K
  grad : ℕ → ℕ → ℕ → ℕ → K
  jxw : ℕ → ℕ → K

/-- `AffineConstraints`: `some c` is the homogeneous constraint `x_i = ∑ c_k x_k` (hanging node; Dirichlet if `c = 0`). -/
structure Constr (K : Type*) where
  row : ℕ → Option (ℕ → K)

/-- Constraints are closed: masters are not constrained themselves (`AffineConstraints::close`). -/
def Constr.Closed (C : Constr K) : Prop :=
  ∀ i c, C.row i = some c → ∀ k, (C.row k).isSome → c k = 0

/-- `AffineConstraints::distribute(x)` on `n` degrees of freedom; also what `read_dof_values`/`gather_evaluate` see. -/
def Constr.dist (C : Constr K) (n : ℕ) (x : ℕ → K) (i : ℕ) : K :=
  match C.row i with
  | none => x i
  | some c => ∑ k ∈ range n, c k * x k

/-- Sum of all `distribute_local_to_global` calls when the local contributions add up to `L`. -/
def Constr.scatter (C : Constr K) (n : ℕ) (L : ℕ → K) (k : ℕ) : K :=
  if (C.row k).isSome then 0
  else L k + ∑ i ∈ range n, match C.row i with
    | none => 0
    | some c => c k * L i

/-- `evaluate(values)` after `read_dof_values_plain`. -/
def Space.value (S : Space K) (x : ℕ → K) (c q : ℕ) : K := ∑ i ∈ range S.nDof, x i * S.val i c q

/-- `evaluate(gradients)` after `read_dof_values_plain`. -/
def Space.gradient (S : Space K) (x : ℕ → K) (c q d : ℕ) : K := ∑ i ∈ range S.nDof, x i * S.grad i c q d

/-- `∑_cells ∑_q` of a quantity times `JxW`. -/
def Space.integral (S : Space K) (f : ℕ → ℕ → K) : K :=
  ∑ c ∈ range S.nCell, ∑ q ∈ range S.nQ, f c q * S.jxw c q

/-- Local contributions of `submit_value(s)`, `submit_gradient(g)` and `integrate` over all cells. -/
def Space.test (S : Space K) (s : ℕ → ℕ → K) (g : ℕ → ℕ → ℕ → K) (i : ℕ) : K :=
  S.integral fun c q => s c q * S.val i c q + ∑ d ∈ range S.dim, g c q d * S.grad i c q d

theorem Space.integral_sum (S : Space K) {n : ℕ} (f : ℕ → ℕ → ℕ → K) :
    S.integral (fun c q => ∑ i ∈ range n, f i c q) = ∑ i ∈ range n, S.integral (f i) := by
  unfold Space.integral
  simp only [sum_mul]
  calc _ = ∑ c ∈ range S.nCell, ∑ i ∈ range n, ∑ q ∈ range S.nQ, f i c q * S.jxw c q :=
        sum_congr rfl fun c _ => sum_comm
    _ = _ := sum_comm

theorem Space.integral_add (S : Space K) (f g : ℕ → ℕ → K) :
    S.integral (fun c q => f c q + g c q) = S.integral f + S.integral g := by
  unfold Space.integral
  simp only [add_mul, sum_add_distrib]

theorem Space.integral_smul (S : Space K) (a : K) (f : ℕ → ℕ → K) :
    S.integral (fun c q => a * f c q) = a * S.integral f := by
  unfold Space.integral
  simp only [mul_sum, mul_assoc]

theorem Space.integral_neg (S : Space K) (f : ℕ → ℕ → K) :
    S.integral (fun c q => -f c q) = -S.integral f := by
  unfold Space.integral
  simp only [neg_mul, sum_neg_distrib]

theorem Space.integral_congr (S : Space K) {f g : ℕ → ℕ → K}
    (h : ∀ c < S.nCell, ∀ q < S.nQ, f c q = g c q) : S.integral f = S.integral g := by
  unfold Space.integral
  exact sum_congr rfl fun c hc => sum_congr rfl fun q hq => by rw [h c (mem_range.1 hc) q (mem_range.1 hq)]

theorem Space.value_add (S : Space K) (x y : ℕ → K) (c q : ℕ) :
    S.value (fun i => x i + y i) c q = S.value x c q + S.value y c q := by
  unfold Space.value; simp only [add_mul, sum_add_distrib]

theorem Space.gradient_add (S : Space K) (x y : ℕ → K) (c q d : ℕ) :
    S.gradient (fun i => x i + y i) c q d = S.gradient x c q d + S.gradient y c q d := by
  unfold Space.gradient; simp only [add_mul, sum_add_distrib]

theorem Space.value_smul (S : Space K) (a : K) (x : ℕ → K) (c q : ℕ) :
    S.value (fun i => a * x i) c q = a * S.value x c q := by
  unfold Space.value; simp only [mul_sum, mul_assoc]

theorem Space.gradient_smul (S : Space K) (a : K) (x : ℕ → K) (c q d : ℕ) :
    S.gradient (fun i => a * x i) c q d = a * S.gradient x c q d := by
  unfold Space.gradient; simp only [mul_sum, mul_assoc]

theorem Constr.dist_free (C : Constr K) (n : ℕ) (x : ℕ → K) {i : ℕ} (h : (C.row i).isSome = false) :
    C.dist n x i = x i := by
  unfold Constr.dist
  rw [Option.isSome_eq_false_iff, Option.isNone_iff_eq_none] at h
  rw [h]

theorem Constr.scatter_con (C : Constr K) (n : ℕ) (L : ℕ → K) {k : ℕ} (h : (C.row k).isSome) :
    C.scatter n L k = 0 := by
  unfold Constr.scatter; rw [if_pos h]

theorem Constr.scatter_add (C : Constr K) (n : ℕ) (L M : ℕ → K) (k : ℕ) :
    C.scatter n (fun i => L i + M i) k = C.scatter n L k + C.scatter n M k := by
  unfold Constr.scatter
  split_ifs
  · ring
  · have : ∀ i, (match C.row i with | none => (0 : K) | some c => c k * (L i + M i)) =
        (match C.row i with | none => 0 | some c => c k * L i) + (match C.row i with | none => 0 | some c => c k * M i) := by
      intro i
      cases C.row i <;> simp [mul_add]
    simp only [this, sum_add_distrib]; ring

theorem Constr.scatter_neg (C : Constr K) (n : ℕ) (L : ℕ → K) (k : ℕ) :
    C.scatter n (fun i => -L i) k = -C.scatter n L k := by
  unfold Constr.scatter
  split_ifs
  · ring
  · have : ∀ i, (match C.row i with | none => (0 : K) | some c => c k * (-L i)) =
        -(match C.row i with | none => 0 | some c => c k * L i) := by
      intro i
      cases C.row i <;> simp
    simp only [this, sum_neg_distrib]; ring

theorem Constr.scatter_congr (C : Constr K) (n : ℕ) {L M : ℕ → K} {k : ℕ} (hk : k < n) (h : ∀ i < n, L i = M i) :
    C.scatter n L k = C.scatter n M k := by
  unfold Constr.scatter
  split_ifs
  · rfl
  · rw [h k hk]
    congr 1
    refine sum_congr rfl fun i hi => ?_
    rw [h i (mem_range.1 hi)]

/-- Distribution of local contributions is the transpose of the resolution of the constraints. -/
theorem Constr.pairing (C : Constr K) (hC : C.Closed) (n : ℕ) (v L : ℕ → K) :
    ∑ k ∈ range n, v k * C.scatter n L k = ∑ i ∈ range n, C.dist n v i * L i := by
  have h1 : ∀ k, v k * C.scatter n L k =
      (if (C.row k).isSome then 0 else v k * L k) +
      ∑ i ∈ range n, match C.row i with | none => 0 | some c => c k * v k * L i := by
    intro k
    unfold Constr.scatter
    by_cases hk : (C.row k).isSome = true
    · rw [if_pos hk, if_pos hk, mul_zero, zero_add]
      symm
      apply sum_eq_zero
      intro i _
      cases hi : C.row i with
      | none => rfl
      | some c => simp [hC i c hi k hk]
    · rw [if_neg hk, if_neg hk, mul_add, mul_sum]
      congr 1
      refine sum_congr rfl fun i _ => ?_
      cases C.row i with
      | none => simp
      | some c => simp only []; ring
  have h2 : ∀ i, C.dist n v i * L i =
      (if (C.row i).isSome then 0 else v i * L i) +
      ∑ k ∈ range n, match C.row i with | none => 0 | some c => c k * v k * L i := by
    intro i
    unfold Constr.dist
    cases C.row i with
    | none => simp
    | some c => simp [sum_mul]
  simp only [h1, h2, sum_add_distrib]
  congr 1
  exact sum_comm

theorem Constr.dist_add (C : Constr K) (n : ℕ) (x y : ℕ → K) (i : ℕ) :
    C.dist n (fun k => x k + y k) i = C.dist n x i + C.dist n y i := by
  unfold Constr.dist
  cases C.row i with
  | none => rfl
  | some c => simp [mul_add, sum_add_distrib]

/-- Contributions tested with a coefficient vector are integrals against the finite element function. -/
theorem Space.test_pair (S : Space K) (s : ℕ → ℕ → K) (g : ℕ → ℕ → ℕ → K) (v : ℕ → K) :
    ∑ i ∈ range S.nDof, v i * S.test s g i =
      S.integral fun c q => s c q * S.value v c q + ∑ d ∈ range S.dim, g c q d * S.gradient v c q d := by
  unfold Space.test
  simp only [← S.integral_smul]
  rw [← S.integral_sum]
  refine S.integral_congr fun c _ q _ => ?_
  unfold Space.value Space.gradient
  simp only [mul_add, sum_add_distrib, mul_sum]
  congr 1
  · exact sum_congr rfl fun i _ => by ring
  · rw [sum_comm]
    exact sum_congr rfl fun d _ => sum_congr rfl fun i _ => by ring

/-- Assembled contributions tested with `v`: integrals against the function of `v` with the constraints resolved. -/
theorem Space.assembled_pair (S : Space K) (C : Constr K) (hC : C.Closed) (s : ℕ → ℕ → K) (g : ℕ → ℕ → ℕ → K)
    (v : ℕ → K) :
    ∑ k ∈ range S.nDof, v k * C.scatter S.nDof (S.test s g) k =
      S.integral fun c q => s c q * S.value (C.dist S.nDof v) c q +
        ∑ d ∈ range S.dim, g c q d * S.gradient (C.dist S.nDof v) c q d := by
  rw [C.pairing hC, S.test_pair]

theorem Space.test_add (S : Space K) (s s' : ℕ → ℕ → K) (g g' : ℕ → ℕ → ℕ → K) (i : ℕ) :
    S.test (fun c q => s c q + s' c q) (fun c q d => g c q d + g' c q d) i = S.test s g i + S.test s' g' i := by
  unfold Space.test
  rw [← S.integral_add]
  refine S.integral_congr fun c _ q _ => ?_
  simp only [add_mul, sum_add_distrib]; ring

theorem Space.test_neg (S : Space K) (s : ℕ → ℕ → K) (g : ℕ → ℕ → ℕ → K) (i : ℕ) :
    S.test (fun c q => -s c q) (fun c q d => -g c q d) i = -S.test s g i := by
  unfold Space.test
  rw [← S.integral_neg]
  refine S.integral_congr fun c _ q _ => ?_
  simp only [neg_mul, sum_neg_distrib]; ring

theorem Space.test_congr (S : Space K) {s s' : ℕ → ℕ → K} {g g' : ℕ → ℕ → ℕ → K}
    (hs : ∀ c q, s c q = s' c q) (hg : ∀ c q, ∀ d < S.dim, g c q d = g' c q d) (i : ℕ) :
    S.test s g i = S.test s' g' i := by
  unfold Space.test
  refine S.integral_congr fun c _ q _ => ?_
  rw [hs]
  congr 1
  exact sum_congr rfl fun d hd => by rw [hg c q d (mem_range.1 hd)]

/-- The function one is represented: basis functions sum to one and their gradients to zero. -/
def Space.Partition (S : Space K) : Prop :=
  (∀ c < S.nCell, ∀ q < S.nQ, ∑ i ∈ range S.nDof, S.val i c q = 1) ∧
  (∀ c < S.nCell, ∀ q < S.nQ, ∀ d < S.dim, ∑ i ∈ range S.nDof, S.grad i c q d = 0)

/-- Constraints keep constants (hanging nodes: the weights sum to one; no Dirichlet condition). -/
def Constr.KeepsOne (C : Constr K) (n : ℕ) : Prop := ∀ i c, C.row i = some c → ∑ k ∈ range n, c k = 1

theorem Constr.dist_const (C : Constr K) (n : ℕ) (h : C.KeepsOne n) (a : K) (i : ℕ) :
    C.dist n (fun _ => a) i = a := by
  unfold Constr.dist
  cases hi : C.row i with
  | none => rfl
  | some c =>
    simp only []
    rw [← sum_mul, h i c hi, one_mul]

theorem Space.value_const (S : Space K) (h : S.Partition) (a : K) {c q : ℕ} (hc : c < S.nCell) (hq : q < S.nQ) :
    S.value (fun _ => a) c q = a := by
  unfold Space.value
  rw [← mul_sum, h.1 c hc q hq, mul_one]

theorem Space.gradient_const (S : Space K) (h : S.Partition) (a : K) {c q d : ℕ} (hc : c < S.nCell) (hq : q < S.nQ)
    (hd : d < S.dim) : S.gradient (fun _ => a) c q d = 0 := by
  unfold Space.gradient
  rw [← mul_sum, h.2 c hc q hq d hd, mul_zero]

end Verif.FE
