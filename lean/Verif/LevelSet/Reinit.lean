import Verif.FE.Space
import Mathlib.Algebra.Order.BigOperators.Ring.Finset
import Mathlib.Algebra.Order.Field.Basic
import Mathlib.Algebra.Order.Ring.Rat
import Mathlib.Tactic.Linarith
import Mathlib.Tactic.Positivity
import Mathlib.Tactic.FieldSimp

/-!
# C67, C68: pseudo-time steps of the reinitialization
(source/level_set_okz_reinitialization.cc)

Finite element loops as in `Verif.FE.Space`.
-/

set_option linter.unusedSectionVars false

namespace Verif.LevelSet

open Finset Verif.FE

variable {K : Type*} [Field K] [LinearOrder K] [IsStrictOrderedRing K]

/-- `dtau_inv` of `local_reinitialize`, lines 65-67. -/
def dtauInv (dim subdivisions : ℕ) (minimalEdge stepSize : K) : K :=
  max (95 / 100 / (1 / ((dim : K) * dim) * minimalEdge / subdivisions)) (1 / (5 * stepSize))

/-- `diffusion` of lines 83-85 and 159-161; the degree is a template argument, -1 on simplices (see
`Verif.LevelSet.Lengths`). -/
def diffusion (epsilonUsed cellDiameter : K) (degree : ℤ) : K := max epsilonUsed (cellDiameter / degree)

/-- The normal stored in the first non-diffusive step, lines 167-170; `nrm` is its norm. -/
def storedNormal (nrm : K) (n : ℕ → K) (d : ℕ) : K := n d / max (1 / 10000) nrm

/-- Data of one pseudo-time step: space and constraints of the level set, `preconditioner.get_vector()`, `dtau_inv`, the
diffusion on each cell and the stored normals. -/
structure Reinit (K : Type*) where
  S : Space K
  C : Constr K
  diag : ℕ → K
  dtauInv : K
  diffusion : ℕ → K
  normal : ℕ → ℕ → ℕ → K

variable (R : Reinit K)

/-- Scalar product `normal * gradient` at a quadrature point. -/
def Reinit.along (g : ℕ → ℕ → ℕ → K) (c q : ℕ) : K := ∑ d ∈ range R.S.dim, R.normal c q d * g c q d

/-- Submitted gradient of `local_reinitialize`, lines 88-101. -/
def Reinit.productFlux (diffuseOnly : Bool) (x : ℕ → K) (c q d : ℕ) : K :=
  if !diffuseOnly then R.diffusion c * R.along (R.S.gradient x) c q * R.normal c q d
  else R.S.gradient x c q d * R.diffusion c

/-- `reinitialization_vmult`, lines 198-232, with `local_reinitialize`, lines 52-106. -/
def Reinit.vmult (diffuseOnly : Bool) (src : ℕ → K) (k : ℕ) : K :=
  let x := R.C.dist R.S.nDof src
  if (R.C.row k).isSome then R.diag k * src k
  else R.C.scatter R.S.nDof (R.S.test (fun c q => R.dtauInv * R.S.value x c q) (R.productFlux diffuseOnly x)) k

/-- Submitted gradient of `local_reinitialize_rhs`, lines 162-184. -/
def Reinit.rhsFlux (diffuseOnly : Bool) (x : ℕ → K) (c q d : ℕ) : K :=
  if !diffuseOnly then
    R.normal c q d * (1 / 2 * (1 - R.S.value x c q * R.S.value x c q) - R.along (R.S.gradient x) c q * R.diffusion c)
  else -R.diffusion c * R.S.gradient x c q d

/-- Right hand side, lines 130-191 (`read_dof_values_plain`; only gradients are integrated). -/
def Reinit.rhs (diffuseOnly : Bool) (x : ℕ → K) (k : ℕ) : K :=
  R.C.scatter R.S.nDof (R.S.test (fun _ _ => 0) (R.rhsFlux diffuseOnly x)) k

/-- The update of lines 335-348 with the increment `inc` returned by the linear solver. -/
def Reinit.update (x inc : ℕ → K) (i : ℕ) : K := x i + R.C.dist R.S.nDof inc i

/-! ### Specification -/

/-- Total content. -/
def Spec.total (S : Space K) (y : ℕ → K) : K := S.integral fun c q => S.value y c q

/-- Squared `L2` norm. -/
def Spec.normSq (S : Space K) (y : ℕ → K) : K := S.integral fun c q => S.value y c q * S.value y c q

/-- The linear system of a step is solved exactly. -/
def Reinit.Solved (diffuseOnly : Bool) (x inc : ℕ → K) : Prop :=
  ∀ k < R.S.nDof, R.vmult diffuseOnly inc k = R.rhs diffuseOnly x k

/-! ### Proofs -/

theorem rhs_con (b : Bool) (x : ℕ → K) {k : ℕ} (h : (R.C.row k).isSome) : R.rhs b x k = 0 := by
  unfold Reinit.rhs; rw [R.C.scatter_con _ _ h]

/-- sum over the free rows of the product, tested with `v` -/
theorem vmult_pair (hC : R.C.Closed) (b : Bool) (src v : ℕ → K) :
    ∑ k ∈ range R.S.nDof, (if (R.C.row k).isSome then 0 else v k * R.vmult b src k) =
      R.S.integral fun c q => R.dtauInv * R.S.value (R.C.dist R.S.nDof src) c q * R.S.value (R.C.dist R.S.nDof v) c q +
        ∑ d ∈ range R.S.dim, R.productFlux b (R.C.dist R.S.nDof src) c q d * R.S.gradient (R.C.dist R.S.nDof v) c q d := by
  rw [← R.S.assembled_pair R.C hC]
  refine sum_congr rfl fun k _ => ?_
  by_cases hk : (R.C.row k).isSome = true
  · rw [if_pos hk, R.C.scatter_con _ _ hk, mul_zero]
  · rw [if_neg hk]
    unfold Reinit.vmult
    dsimp only
    rw [if_neg hk]

theorem rhs_pair (hC : R.C.Closed) (b : Bool) (x v : ℕ → K) :
    ∑ k ∈ range R.S.nDof, v k * R.rhs b x k =
      R.S.integral fun c q => ∑ d ∈ range R.S.dim, R.rhsFlux b x c q d * R.S.gradient (R.C.dist R.S.nDof v) c q d := by
  unfold Reinit.rhs
  rw [R.S.assembled_pair R.C hC]
  exact R.S.integral_congr fun c _ q _ => by ring

/-- **C67 (content).** If constants are admissible (hanging node constraints only), the change of the content in a pseudo-time
step is exactly what the linear solver left over: it is the sum of the entries of the linear residual divided by `dtau_inv`,
in the diffusive and in the compressive steps. -/
theorem C67_content_change (hC : R.C.Closed) (hP : R.S.Partition) (hone : R.C.KeepsOne R.S.nDof) (b : Bool)
    (x inc : ℕ → K) :
    R.dtauInv * (Spec.total R.S (R.update x inc) - Spec.total R.S x) =
      -∑ k ∈ range R.S.nDof, (if (R.C.row k).isSome then 0 else R.rhs b x k - R.vmult b inc k) := by
  have hd : R.C.dist R.S.nDof (fun _ => (1 : K)) = fun _ => 1 := by
    funext i; exact R.C.dist_const _ hone 1 i
  have h1 := vmult_pair R hC b inc fun _ => 1
  have h2 := rhs_pair R hC b x fun _ => 1
  rw [hd] at h1 h2
  have e2 : (R.S.integral fun c q => ∑ d ∈ range R.S.dim, R.rhsFlux b x c q d * R.S.gradient (fun _ => 1) c q d) = 0 := by
    rw [R.S.integral_congr (g := fun _ _ => 0)]
    · simp [Space.integral]
    · intro c hc q hq
      exact sum_eq_zero fun d hd => by rw [R.S.gradient_const hP 1 hc hq (mem_range.1 hd), mul_zero]
  have e1 : (R.S.integral fun c q => R.dtauInv * R.S.value (R.C.dist R.S.nDof inc) c q * R.S.value (fun _ => 1) c q +
      ∑ d ∈ range R.S.dim, R.productFlux b (R.C.dist R.S.nDof inc) c q d * R.S.gradient (fun _ => 1) c q d) =
      R.dtauInv * Spec.total R.S (R.C.dist R.S.nDof inc) := by
    unfold Spec.total
    rw [← R.S.integral_smul]
    refine R.S.integral_congr fun c hc q hq => ?_
    rw [R.S.value_const hP 1 hc hq, mul_one, sum_eq_zero, add_zero]
    intro d hd
    rw [R.S.gradient_const hP 1 hc hq (mem_range.1 hd), mul_zero]
  rw [e1] at h1
  rw [e2] at h2
  have hsum : ∑ k ∈ range R.S.nDof, (if (R.C.row k).isSome then 0 else R.rhs b x k - R.vmult b inc k) =
      ∑ k ∈ range R.S.nDof, 1 * R.rhs b x k -
      ∑ k ∈ range R.S.nDof, (if (R.C.row k).isSome then 0 else 1 * R.vmult b inc k) := by
    rw [← sum_sub_distrib]
    refine sum_congr rfl fun k _ => ?_
    split_ifs with hk
    · rw [rhs_con R b x hk]; ring
    · ring
  rw [hsum, h1, h2]
  have : Spec.total R.S (R.update x inc) = Spec.total R.S x + Spec.total R.S (R.C.dist R.S.nDof inc) := by
    unfold Spec.total Reinit.update
    rw [← R.S.integral_add]
    exact R.S.integral_congr fun c _ q _ => R.S.value_add _ _ c q
  rw [this]; ring

/-- **C67.** Reinitialization with exact linear solves conserves the content, for any number and order of diffusive and
compressive steps, whatever normals, diffusion and pseudo-time steps are used in them. -/
theorem C67_reinitialization_conserves (S : Space K) (C : Constr K) (hC : C.Closed) (hP : S.Partition)
    (hone : C.KeepsOne S.nDof) (steps : List (Reinit K × Bool × (ℕ → K))) (x : ℕ → ℕ → K)
    (hsteps : ∀ j (hj : j < steps.length), (steps[j]).1.S = S ∧ (steps[j]).1.C = C ∧ 0 < (steps[j]).1.dtauInv ∧
      (steps[j]).1.Solved (steps[j]).2.1 (x j) (steps[j]).2.2 ∧
      x (j + 1) = (steps[j]).1.update (x j) (steps[j]).2.2) :
    Spec.total S (x steps.length) = Spec.total S (x 0) := by
  have : ∀ j, j ≤ steps.length → Spec.total S (x j) = Spec.total S (x 0) := by
    intro j
    induction j with
    | zero => intro _; rfl
    | succ j ih =>
      intro hj
      obtain ⟨h1, h2, h3, h4, h5⟩ := hsteps j (by omega)
      rw [h5, ← ih (by omega)]
      generalize steps[j] = s at h1 h2 h3 h4 h5
      obtain ⟨R, b, inc⟩ := s
      dsimp only at h1 h2 h3 h4 h5 ⊢
      subst h1 h2
      have h := C67_content_change R hC hP hone b (x j) inc
      rw [sum_eq_zero (s := range R.S.nDof) (f := fun k => if (R.C.row k).isSome then 0 else R.rhs b (x j) k - R.vmult b inc k)
        (fun k hk => by rw [h4 k (mem_range.1 hk), sub_self, ite_self]), neg_zero] at h
      have := (mul_eq_zero.1 h).resolve_left h3.ne'
      linarith
  exact this _ le_rfl

/-! ### C68 -/

/-- **C68 (weak form).** An exact compressive step `x → y` satisfies, for every test function `V`,
`dtau_inv (y - x, V) + (ε n·∇y - (1 - x²)/2, n·∇V) = 0`; an exact diffusive step
`dtau_inv (y - x, V) + (ε ∇y, ∇V) = 0`. -/
theorem C68_weak_form (hC : R.C.Closed) (b : Bool) (x inc v : ℕ → K) (hs : R.Solved b x inc) :
    let y := R.update x inc
    let V := R.C.dist R.S.nDof v
    R.S.integral (fun c q => R.dtauInv * (R.S.value y c q - R.S.value x c q) * R.S.value V c q +
      if b then R.diffusion c * ∑ d ∈ range R.S.dim, R.S.gradient y c q d * R.S.gradient V c q d
      else (R.diffusion c * R.along (R.S.gradient y) c q - (1 - R.S.value x c q ^ 2) / 2) * R.along (R.S.gradient V) c q) = 0 := by
  intro y V
  have h1 := vmult_pair R hC b inc v
  have h2 := rhs_pair R hC b x v
  have h3 : ∑ k ∈ range R.S.nDof, (if (R.C.row k).isSome then 0 else v k * R.vmult b inc k) =
      ∑ k ∈ range R.S.nDof, v k * R.rhs b x k := by
    refine sum_congr rfl fun k hk => ?_
    split_ifs with hc
    · rw [rhs_con R b x hc, mul_zero]
    · rw [hs k (mem_range.1 hk)]
  rw [h1, h2] at h3
  rw [← sub_eq_zero, sub_eq_add_neg, ← R.S.integral_neg, ← R.S.integral_add] at h3
  rw [← h3]
  refine R.S.integral_congr fun c _ q _ => ?_
  have hv : R.S.value y c q = R.S.value x c q + R.S.value (R.C.dist R.S.nDof inc) c q := R.S.value_add _ _ c q
  have hg : ∀ d, R.S.gradient y c q d = R.S.gradient x c q d + R.S.gradient (R.C.dist R.S.nDof inc) c q d :=
    fun d => R.S.gradient_add _ _ c q d
  have ha : R.along (R.S.gradient y) c q =
      R.along (R.S.gradient x) c q + R.along (R.S.gradient (R.C.dist R.S.nDof inc)) c q := by
    unfold Reinit.along
    rw [← sum_add_distrib]; exact sum_congr rfl fun d _ => by rw [hg]; ring
  rw [hv]
  cases b
  · simp only [Bool.false_eq_true, if_false, Reinit.productFlux, Reinit.rhsFlux, Bool.not_false, if_true]
    have e1 : ∑ d ∈ range R.S.dim, R.diffusion c * R.along (R.S.gradient (R.C.dist R.S.nDof inc)) c q * R.normal c q d *
        R.S.gradient (R.C.dist R.S.nDof v) c q d =
        R.diffusion c * R.along (R.S.gradient (R.C.dist R.S.nDof inc)) c q * R.along (R.S.gradient V) c q := by
      rw [show R.along (R.S.gradient V) c q = ∑ d ∈ range R.S.dim, R.normal c q d * R.S.gradient V c q d from rfl, mul_sum]
      exact sum_congr rfl fun d _ => by ring
    have e2 : ∑ d ∈ range R.S.dim, R.normal c q d * (1 / 2 * (1 - R.S.value x c q * R.S.value x c q) -
        R.along (R.S.gradient x) c q * R.diffusion c) * R.S.gradient (R.C.dist R.S.nDof v) c q d =
        (1 / 2 * (1 - R.S.value x c q * R.S.value x c q) - R.along (R.S.gradient x) c q * R.diffusion c) *
          R.along (R.S.gradient V) c q := by
      rw [show R.along (R.S.gradient V) c q = ∑ d ∈ range R.S.dim, R.normal c q d * R.S.gradient V c q d from rfl, mul_sum]
      exact sum_congr rfl fun d _ => by ring
    rw [e1, e2, ha]; ring
  · simp only [if_true, Reinit.productFlux, Reinit.rhsFlux, Bool.not_true, Bool.false_eq_true, if_false]
    have e : R.diffusion c * ∑ d ∈ range R.S.dim, R.S.gradient y c q d * R.S.gradient V c q d =
        ∑ d ∈ range R.S.dim, R.S.gradient (R.C.dist R.S.nDof inc) c q d * R.diffusion c * R.S.gradient V c q d -
        ∑ d ∈ range R.S.dim, -R.diffusion c * R.S.gradient x c q d * R.S.gradient V c q d := by
      rw [mul_sum, ← sum_sub_distrib]; exact sum_congr rfl fun d _ => by rw [hg]; ring
    rw [e]; ring

theorem integral_nonneg (S : Space K) (hj : ∀ c < S.nCell, ∀ q < S.nQ, 0 ≤ S.jxw c q) {f : ℕ → ℕ → K}
    (h : ∀ c < S.nCell, ∀ q < S.nQ, 0 ≤ f c q) : 0 ≤ S.integral f := by
  unfold Space.integral
  exact sum_nonneg fun c hc => sum_nonneg fun q hq =>
    mul_nonneg (h c (mem_range.1 hc) q (mem_range.1 hq)) (hj c (mem_range.1 hc) q (mem_range.1 hq))

/-- **C68 (system matrix).** The matrix of every step is symmetric, and positive in the sense
`vᵀ A v >= dtau_inv |V|² + ∑ diag_k v_k²` (sum over the constrained unknowns), so that the conjugate gradient method
applies. -/
theorem C68_symmetric_positive (hC : R.C.Closed) (b : Bool) (v w : ℕ → K) :
    ∑ k ∈ range R.S.nDof, v k * R.vmult b w k = ∑ k ∈ range R.S.nDof, w k * R.vmult b v k ∧
    ((∀ c < R.S.nCell, ∀ q < R.S.nQ, 0 ≤ R.S.jxw c q) → (∀ c < R.S.nCell, 0 ≤ R.diffusion c) →
      R.dtauInv * Spec.normSq R.S (R.C.dist R.S.nDof v) +
        ∑ k ∈ range R.S.nDof, (if (R.C.row k).isSome then R.diag k * v k ^ 2 else 0) ≤
      ∑ k ∈ range R.S.nDof, v k * R.vmult b v k) := by
  have split : ∀ v w : ℕ → K, ∑ k ∈ range R.S.nDof, v k * R.vmult b w k =
      (R.S.integral fun c q => R.dtauInv * R.S.value (R.C.dist R.S.nDof w) c q * R.S.value (R.C.dist R.S.nDof v) c q +
        ∑ d ∈ range R.S.dim, R.productFlux b (R.C.dist R.S.nDof w) c q d * R.S.gradient (R.C.dist R.S.nDof v) c q d) +
      ∑ k ∈ range R.S.nDof, (if (R.C.row k).isSome then R.diag k * w k * v k else 0) := by
    intro v w
    rw [← vmult_pair R hC, ← sum_add_distrib]
    refine sum_congr rfl fun k _ => ?_
    split_ifs with hk
    · rw [show R.vmult b w k = R.diag k * w k from if_pos hk]; ring
    · ring
  have flux : ∀ v w : ℕ → K, ∀ c q, ∑ d ∈ range R.S.dim, R.productFlux b w c q d * R.S.gradient v c q d =
      R.diffusion c * (if b then ∑ d ∈ range R.S.dim, R.S.gradient w c q d * R.S.gradient v c q d
        else R.along (R.S.gradient w) c q * R.along (R.S.gradient v) c q) := by
    intro v w c q
    cases b
    · simp only [Reinit.productFlux, Bool.not_false, if_true, Bool.false_eq_true, if_false]
      rw [show R.along (R.S.gradient v) c q = ∑ d ∈ range R.S.dim, R.normal c q d * R.S.gradient v c q d from rfl, mul_sum, mul_sum]
      exact sum_congr rfl fun d _ => by ring
    · simp only [Reinit.productFlux, Bool.not_true, Bool.false_eq_true, if_false, if_true]
      rw [mul_sum]; exact sum_congr rfl fun d _ => by ring
  constructor
  · rw [split v w, split w v]
    congr 1
    · refine R.S.integral_congr fun c _ q _ => ?_
      rw [flux, flux]
      congr 1
      · ring
      · congr 1
        split_ifs
        · exact sum_congr rfl fun d _ => by ring
        · ring
    · refine sum_congr rfl fun k _ => ?_
      split_ifs <;> ring
  · intro hj hdiff
    rw [split v v]
    have e : ∑ k ∈ range R.S.nDof, (if (R.C.row k).isSome then R.diag k * v k ^ 2 else 0) =
        ∑ k ∈ range R.S.nDof, (if (R.C.row k).isSome then R.diag k * v k * v k else 0) :=
      sum_congr rfl fun k _ => by split_ifs <;> ring
    rw [e]
    have e2 : (R.S.integral fun c q => R.dtauInv * R.S.value (R.C.dist R.S.nDof v) c q * R.S.value (R.C.dist R.S.nDof v) c q +
        ∑ d ∈ range R.S.dim, R.productFlux b (R.C.dist R.S.nDof v) c q d * R.S.gradient (R.C.dist R.S.nDof v) c q d) =
        R.dtauInv * Spec.normSq R.S (R.C.dist R.S.nDof v) + R.S.integral fun c q =>
          ∑ d ∈ range R.S.dim, R.productFlux b (R.C.dist R.S.nDof v) c q d * R.S.gradient (R.C.dist R.S.nDof v) c q d := by
      unfold Spec.normSq
      rw [← R.S.integral_smul, ← R.S.integral_add]
      exact R.S.integral_congr fun c _ q _ => by ring
    rw [e2]
    have := integral_nonneg R.S hj (f := fun c q => ∑ d ∈ range R.S.dim,
      R.productFlux b (R.C.dist R.S.nDof v) c q d * R.S.gradient (R.C.dist R.S.nDof v) c q d) (by
        intro c hc q _
        rw [flux]
        refine mul_nonneg (hdiff c hc) ?_
        split_ifs
        · exact sum_nonneg fun d _ => mul_self_nonneg _
        · exact mul_self_nonneg _)
    linarith

/-- **C68 (diffusive steps).** An exact diffusive step never increases the `L2` norm of a level set that satisfies the
constraints. -/
theorem C68_diffusion_decays (hC : R.C.Closed) (hj : ∀ c < R.S.nCell, ∀ q < R.S.nQ, 0 ≤ R.S.jxw c q)
    (hdiff : ∀ c < R.S.nCell, 0 ≤ R.diffusion c) (hτ : 0 < R.dtauInv) (x inc : ℕ → K)
    (hx : ∀ i, R.C.dist R.S.nDof x i = x i) (hs : R.Solved true x inc) :
    Spec.normSq R.S (R.update x inc) ≤ Spec.normSq R.S x := by
  have h := C68_weak_form R hC true x inc (fun i => x i + inc i) hs
  have hV : R.C.dist R.S.nDof (fun i => x i + inc i) = R.update x inc := by
    funext i; rw [R.C.dist_add, hx]; rfl
  simp only [hV, if_true] at h
  set y := R.update x inc
  have key : R.dtauInv * (Spec.normSq R.S x - Spec.normSq R.S y) =
      R.S.integral fun c q => R.dtauInv * (R.S.value y c q - R.S.value x c q) ^ 2 +
        2 * (R.diffusion c * ∑ d ∈ range R.S.dim, R.S.gradient y c q d * R.S.gradient y c q d) := by
    have e : R.dtauInv * (Spec.normSq R.S x - Spec.normSq R.S y) + 2 * 0 =
      R.S.integral fun c q => R.dtauInv * (R.S.value y c q - R.S.value x c q) ^ 2 +
        2 * (R.diffusion c * ∑ d ∈ range R.S.dim, R.S.gradient y c q d * R.S.gradient y c q d) := by
      rw [← h]
      unfold Spec.normSq
      rw [sub_eq_add_neg, ← R.S.integral_neg, ← R.S.integral_add, ← R.S.integral_smul, ← R.S.integral_smul, ← R.S.integral_add]
      exact R.S.integral_congr fun c _ q _ => by ring
    rw [← e]; ring
  have hn : 0 ≤ R.dtauInv * (Spec.normSq R.S x - Spec.normSq R.S y) := by
    rw [key]
    refine integral_nonneg R.S hj fun c hc q _ => ?_
    have := hdiff c hc
    have h2 : 0 ≤ ∑ d ∈ range R.S.dim, R.S.gradient y c q d * R.S.gradient y c q d := sum_nonneg fun d _ => mul_self_nonneg _
    positivity
  have := nonneg_of_mul_nonneg_right hn hτ
  linarith

/-- **C68 (equilibrium).** A level set with `ε n·∇φ = (1 - φ²)/2` at all quadrature points - the profile the
reinitialization aims at, in particular a pure phase `φ = ±1` - gives a zero right hand side in the compressive steps. -/
theorem C68_equilibrium (x : ℕ → K)
    (heq : ∀ c < R.S.nCell, ∀ q < R.S.nQ, R.diffusion c * R.along (R.S.gradient x) c q = (1 - R.S.value x c q ^ 2) / 2)
    (k : ℕ) (hk : k < R.S.nDof) : R.rhs false x k = 0 := by
  unfold Reinit.rhs
  have : R.C.scatter R.S.nDof (R.S.test (fun _ _ => 0) (R.rhsFlux false x)) k = R.C.scatter R.S.nDof (fun _ => 0) k := by
    refine R.C.scatter_congr _ hk fun i _ => ?_
    unfold Space.test
    rw [R.S.integral_congr (g := fun _ _ => 0)]
    · simp [Space.integral]
    · intro c hc q hq
      rw [zero_mul, zero_add]
      refine sum_eq_zero fun d _ => ?_
      have h := heq c hc q hq
      simp only [Reinit.rhsFlux, Bool.not_false, if_true]
      linear_combination (-R.normal c q d * R.S.grad i c q d) * h
  rw [this]
  have h0 := R.C.scatter_neg R.S.nDof (fun _ => (0 : K)) k
  simp only [neg_zero] at h0
  linarith

/-- **C68 (stored normal).** The stored normal is never longer than one, and is the unit vector in direction of the computed
normal if that one is at least `1e-4` long. -/
theorem C68_stored_normal (dim : ℕ) (nrm : K) (n : ℕ → K) (h0 : 0 ≤ nrm) (hn : nrm ^ 2 = ∑ d ∈ range dim, n d ^ 2) :
    ∑ d ∈ range dim, storedNormal nrm n d ^ 2 ≤ 1 ∧
    (1 / 10000 ≤ nrm → ∑ d ∈ range dim, storedNormal nrm n d ^ 2 = 1 ∧ ∀ d, nrm * storedNormal nrm n d = n d) := by
  have hm : 0 < max (1 / 10000) nrm := lt_of_lt_of_le (by norm_num) (le_max_left _ _)
  have e : ∑ d ∈ range dim, storedNormal nrm n d ^ 2 = nrm ^ 2 / max (1 / 10000) nrm ^ 2 := by
    rw [hn, sum_div]
    exact sum_congr rfl fun d _ => by unfold storedNormal; rw [div_pow]
  refine ⟨?_, fun h => ⟨?_, fun d => ?_⟩⟩
  · rw [e, div_le_one (by positivity)]
    exact pow_le_pow_left₀ h0 (le_max_right _ _) 2
  · rw [e, max_eq_right h, div_self]
    have : 0 < nrm := lt_of_lt_of_le (by norm_num) h
    positivity
  · have : 0 < nrm := lt_of_lt_of_le (by norm_num) h
    unfold storedNormal
    rw [max_eq_right h]; field_simp

/-- **C68 (pseudo-time step).** The pseudo-time step `1/dtau_inv` is positive, at most five time steps and at most
`h_min/(0.95 dim² subdivisions)`; the diffusion is at least `ε` and positive. -/
theorem C68_pseudo_step (dim sub : ℕ) (hmin dt : K) (hd : 0 < dim) (hs : 0 < sub) (hh : 0 < hmin) (hdt : 0 < dt) :
    0 < dtauInv dim sub hmin dt ∧ 1 / dtauInv dim sub hmin dt ≤ 5 * dt ∧
    1 / dtauInv dim sub hmin dt ≤ hmin / (95 / 100 * (dim : K) ^ 2 * sub) := by
  have hD : (0 : K) < dim := by exact_mod_cast hd
  have hS : (0 : K) < sub := by exact_mod_cast hs
  have h1 : 0 < 1 / (5 * dt) := by positivity
  have h2 : 0 < 95 / 100 / (1 / ((dim : K) * dim) * hmin / sub) := by positivity
  have hp : 0 < dtauInv dim sub hmin dt := lt_of_lt_of_le h1 (le_max_right _ _)
  refine ⟨hp, ?_, ?_⟩
  · rw [div_le_iff₀ hp]
    have : 1 / (5 * dt) ≤ dtauInv dim sub hmin dt := le_max_right _ _
    rw [div_le_iff₀ (by positivity)] at this
    linarith
  · have : 95 / 100 / (1 / ((dim : K) * dim) * hmin / sub) ≤ dtauInv dim sub hmin dt := le_max_left _ _
    calc 1 / dtauInv dim sub hmin dt ≤ 1 / (95 / 100 / (1 / ((dim : K) * dim) * hmin / sub)) :=
          one_div_le_one_div_of_le h2 this
      _ = _ := by field_simp

theorem C68_diffusion_bounds (eps h : K) (deg : ℤ) (he : 0 < eps) :
    eps ≤ diffusion eps h deg ∧ 0 < diffusion eps h deg ∧ h / deg ≤ diffusion eps h deg :=
  ⟨le_max_left _ _, lt_of_lt_of_le he (le_max_left _ _), le_max_right _ _⟩

/-! ### Concrete cases -/

/-- One linear element on `(0,1)`, quadrature in the end points. -/
def exSpace1 : Space ℚ where
  dim := 1
  nDof := 2
  nCell := 1
  nQ := 2
  val := fun i _ q => if i = q then 1 else 0
  grad := fun i _ _ _ => if i = 0 then -1 else 1
  jxw := fun _ _ => 1 / 2

def exReinit : Reinit ℚ := ⟨exSpace1, ⟨fun _ => none⟩, fun _ => 1, 2, fun _ => 1, fun _ _ _ => 1⟩

/-- A nontrivial exact diffusive step, and an exact compressive step. -/
example : exReinit.Solved true (fun i => if i = 0 then 0 else 1) (fun i => if i = 0 then 1 / 3 else -1 / 3) ∧
    exReinit.Solved false (fun _ => 0) (fun i => if i = 0 then -1 / 6 else 1 / 6) := by
  constructor
  · show ∀ k < 2, _
    decide +kernel
  · show ∀ k < 2, _
    decide +kernel

example : exReinit.C.Closed ∧ exReinit.S.Partition ∧ exReinit.C.KeepsOne 2 := by
  refine ⟨fun i c h => by simp [exReinit] at h, ⟨?_, ?_⟩, fun i c h => by simp [exReinit] at h⟩
  · show ∀ c < 1, ∀ q < 2, _
    decide +kernel
  · show ∀ c < 1, ∀ q < 2, ∀ d < 1, _
    decide +kernel

end Verif.LevelSet
