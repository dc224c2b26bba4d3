import Verif.LevelSet.Reinit
import Verif.LevelSet.MatrixForce

/-!
# C115: pseudo-time steps of the matrix-based reinitialization
(source/level_set_okz_matrix.cc:931-1100)

Finite element loops as in `Verif.FE.Space`. A division by a vanishing norm (NaN entries in matrix and right hand side) is
represented by `none`; apart from this the arithmetic is exact.
-/

set_option linter.unusedSectionVars false

namespace Verif.LevelSet

open Finset Verif.FE

variable {K : Type*} [Field K] [LinearOrder K] [IsStrictOrderedRing K]

/-! ## Model -/

/-- Data of a call: space, constraints, diagonal entries of constrained rows, `epsilon_used`, `parameters.epsilon`,
`time_stepping.step_size()`, `cell->diameter() / std::sqrt(dim)` (line 969), the blocks of `normal_vector_field`, and the norm of a
vector. -/
structure MatReinit (K : Type*) where
  S : Space K
  C : Constr K
  diag : ℕ → K
  epsilonUsed : K
  epsilon : K
  stepSize : K
  diameter : ℕ → K
  normalField : ℕ → ℕ → K
  nrm : (ℕ → K) → K

variable (R : MatReinit K)

/-- `dtau`, lines 931-932. -/
def MatReinit.dtau : K := 3 / 10 * min (R.epsilonUsed / R.epsilon) R.stepSize

/-- `diffusion`, lines 969-970. -/
def MatReinit.diffusion (c : ℕ) : K := max R.epsilonUsed (R.diameter c)

/-- `disable_convection`, lines 979-999, given `!diffuse_only`. -/
def MatReinit.disabled (x : ℕ → K) (c : ℕ) : Bool :=
  decide (∑ q ∈ range R.S.nQ, |R.S.value x c q * R.S.value x c q - 1| < 1 / 10 ^ 10)

/-- Condition of line 1024: the compressive flux is used on the cell. -/
def MatReinit.compressive (diffuseOnly : Bool) (x : ℕ → K) (c : ℕ) : Bool := !diffuseOnly && !R.disabled x c

/-- `normal_values[q]`, lines 982-992. -/
def MatReinit.pointNormal (c q d : ℕ) : K := R.S.value (R.normalField d) c q

/-- `normal /= normal.norm()`, lines 1009-1012: without a lower bound for the norm. -/
def MatReinit.unit (c q d : ℕ) : K := R.pointNormal c q d / R.nrm (R.pointNormal c q)

/-- The division of line 1012 is by zero somewhere. -/
def MatReinit.divByZero (diffuseOnly : Bool) (x : ℕ → K) : Bool :=
  decide (∃ c ∈ range R.S.nCell, R.compressive diffuseOnly x c = true ∧ ∃ q ∈ range R.S.nQ, R.nrm (R.pointNormal c q) = 0)

/-- `normal * shape_grad(i, q)`, line 1026. -/
def MatReinit.alongShape (i c q : ℕ) : K := ∑ d ∈ range R.S.dim, R.unit c q d * R.S.grad i c q d

/-- `cell_matrix(i,j)` summed over the cells, lines 1028-1033 and 1045-1050. -/
def MatReinit.entry (b : Bool) (x : ℕ → K) (i j : ℕ) : K :=
  R.S.integral fun c q =>
    if R.compressive b x c then
      R.S.val i c q / R.dtau * R.S.val j c q + R.alongShape i c q * R.diffusion c * R.alongShape j c q
    else R.S.val i c q / R.dtau * R.S.val j c q +
      ∑ d ∈ range R.S.dim, R.diffusion c * R.S.grad i c q d * R.S.grad j c q d

/-- `cell_rhs(i)` summed over the cells, lines 1035-1039 and 1052-1054; `diff_val` of line 1014. -/
def MatReinit.localRhs (b : Bool) (x : ℕ → K) (i : ℕ) : K :=
  R.S.integral fun c q =>
    if R.compressive b x c then
      R.alongShape i c q * (1 / 2 * (1 - R.S.value x c q * R.S.value x c q) -
        ∑ d ∈ range R.S.dim, R.diffusion c * R.unit c q d * R.S.gradient x c q d)
    else -((∑ d ∈ range R.S.dim, R.S.grad i c q d * R.S.gradient x c q d) * R.diffusion c)

/-- Product with `system_matrix`, condensed by `constraints.distribute_local_to_global`, lines 1059-1062. -/
def MatReinit.product (b : Bool) (x src : ℕ → K) (k : ℕ) : K :=
  if (R.C.row k).isSome then R.diag k * src k
  else R.C.scatter R.S.nDof (fun i => ∑ j ∈ range R.S.nDof, R.entry b x i j * R.C.dist R.S.nDof src j) k

/-- `rhs`, lines 1063-1065. -/
def MatReinit.rhs (b : Bool) (x : ℕ → K) (k : ℕ) : K := R.C.scatter R.S.nDof (R.localRhs b x) k

/-- Matrix (as the product with it) and right hand side of the step, `none` if NaNs were assembled. -/
def MatReinit.system (b : Bool) (x : ℕ → K) : Option (((ℕ → K) → ℕ → K) × (ℕ → K)) :=
  if R.divByZero b x then none else some (R.product b x, R.rhs b x)

/-- `constraints.distribute(increment)` and the update, lines 1085 and 1094, with the result `inc` of the conjugate gradients. -/
def MatReinit.update (x inc : ℕ → K) (i : ℕ) : K := x i + R.C.dist R.S.nDof inc i

/-- The step from `x` has a linear system, and `inc` solves it. -/
def MatReinit.Solved (b : Bool) (x inc : ℕ → K) : Prop :=
  ∃ A f, R.system b x = some (A, f) ∧ ∀ k < R.S.nDof, A inc k = f k

/-! ## Specification -/

/-- On cell `c` the level set is a pure phase up to the tolerance: `∑_q |φ² - 1| < 1e-10`. -/
def Spec.PurePhase (S : Space K) (x : ℕ → K) (c : ℕ) : Prop :=
  ∑ q ∈ range S.nQ, |S.value x c q * S.value x c q - 1| < 1 / 10 ^ 10

instance (S : Space K) (x : ℕ → K) (c : ℕ) : Decidable (Spec.PurePhase S x c) := by unfold Spec.PurePhase; infer_instance

/-- `n` is the unit normal field: parallel to the projected normals (in the same direction) and of length one, on all cells that are
no pure phase. -/
def Spec.UnitNormal (S : Space K) (N : ℕ → ℕ → K) (x : ℕ → K) (n : ℕ → ℕ → ℕ → K) : Prop :=
  ∀ c < S.nCell, ¬ Spec.PurePhase S x c → ∀ q < S.nQ,
    ∑ d ∈ range S.dim, n c q d ^ 2 = 1 ∧ ∃ s, 0 < s ∧ ∀ d < S.dim, S.value (N d) c q = s * n c q d

/-- Weak form of an implicit pseudo-time step of length `τ` from `x` to `y`, tested with `V`: on cells where `comp` holds, diffusion
`ε` along `n` and compression `(1 - x²)/2` along `n`; on the other cells full diffusion. -/
def Spec.stepResidual (S : Space K) (τ : K) (ε : ℕ → K) (n : ℕ → ℕ → ℕ → K) (comp : ℕ → Bool) (x y V : ℕ → K) : K :=
  S.integral fun c q => (S.value y c q - S.value x c q) / τ * S.value V c q +
    if comp c then
      (ε c * (∑ d ∈ range S.dim, n c q d * S.gradient y c q d) - (1 - S.value x c q ^ 2) / 2) *
        ∑ d ∈ range S.dim, n c q d * S.gradient V c q d
    else ε c * ∑ d ∈ range S.dim, S.gradient y c q d * S.gradient V c q d

/-! ## Proofs -/

theorem MatReinit.disabled_iff (x : ℕ → K) (c : ℕ) : R.disabled x c = true ↔ Spec.PurePhase R.S x c := by
  unfold MatReinit.disabled Spec.PurePhase
  exact decide_eq_true_iff

theorem MatReinit.compressive_eq (b : Bool) (x : ℕ → K) (c : ℕ) :
    R.compressive b x c = (!b && decide (¬ Spec.PurePhase R.S x c)) := by
  unfold MatReinit.compressive
  have h := R.disabled_iff x c
  by_cases hp : Spec.PurePhase R.S x c
  · rw [h.2 hp]; simp [hp]
  · have : R.disabled x c = false := by
      cases hd : R.disabled x c
      · rfl
      · exact absurd (h.1 hd) hp
    rw [this]; simp [hp]

theorem MatReinit.alongShape_sum (v : ℕ → K) (c q : ℕ) :
    ∑ i ∈ range R.S.nDof, v i * R.alongShape i c q = ∑ d ∈ range R.S.dim, R.unit c q d * R.S.gradient v c q d := by
  unfold MatReinit.alongShape Space.gradient
  simp only [mul_sum]
  rw [sum_comm]
  exact sum_congr rfl fun d _ => sum_congr rfl fun i _ => by ring

/-- the matrix as a bilinear form -/
theorem MatReinit.entry_form (b : Bool) (x V y : ℕ → K) :
    ∑ i ∈ range R.S.nDof, V i * ∑ j ∈ range R.S.nDof, R.entry b x i j * y j =
      R.S.integral fun c q => R.S.value y c q / R.dtau * R.S.value V c q +
        if R.compressive b x c then R.diffusion c * (∑ d ∈ range R.S.dim, R.unit c q d * R.S.gradient y c q d) *
          ∑ d ∈ range R.S.dim, R.unit c q d * R.S.gradient V c q d
        else R.diffusion c * ∑ d ∈ range R.S.dim, R.S.gradient y c q d * R.S.gradient V c q d := by
  have key : ∀ f : ℕ → ℕ → ℕ → ℕ → K, ∑ i ∈ range R.S.nDof, V i * ∑ j ∈ range R.S.nDof, R.S.integral (f i j) * y j =
      R.S.integral fun c q => ∑ i ∈ range R.S.nDof, ∑ j ∈ range R.S.nDof, V i * (y j * f i j c q) := by
    intro f
    rw [R.S.integral_sum]
    refine sum_congr rfl fun i _ => ?_
    rw [R.S.integral_sum, mul_sum]
    refine sum_congr rfl fun j _ => ?_
    rw [mul_comm (R.S.integral _), ← R.S.integral_smul, ← R.S.integral_smul]
  unfold MatReinit.entry
  rw [key]
  refine R.S.integral_congr fun c _ q _ => ?_
  by_cases hc : R.compressive b x c = true
  · simp only [hc, if_true]
    rw [← R.alongShape_sum V, ← R.alongShape_sum y]
    have e : ∀ i j, V i * (y j * (R.S.val i c q / R.dtau * R.S.val j c q + R.alongShape i c q * R.diffusion c *
        R.alongShape j c q)) = (y j * R.S.val j c q) / R.dtau * (V i * R.S.val i c q) +
        R.diffusion c * (y j * R.alongShape j c q) * (V i * R.alongShape i c q) := by intro i j; ring
    simp only [e, sum_add_distrib, ← mul_sum, ← sum_mul, ← sum_div]
    unfold Space.value
    ring
  · simp only [hc, Bool.false_eq_true, if_false]
    have e : ∀ i j, V i * (y j * (R.S.val i c q / R.dtau * R.S.val j c q +
        ∑ d ∈ range R.S.dim, R.diffusion c * R.S.grad i c q d * R.S.grad j c q d)) =
        (y j * R.S.val j c q) / R.dtau * (V i * R.S.val i c q) +
        R.diffusion c * ∑ d ∈ range R.S.dim, (y j * R.S.grad j c q d) * (V i * R.S.grad i c q d) := by
      intro i j
      simp only [mul_add, mul_sum]
      congr 1
      · ring
      · exact sum_congr rfl fun d _ => by ring
    simp only [e, sum_add_distrib, ← mul_sum, ← sum_mul, ← sum_div]
    congr 1
    congr 1
    have : ∀ i, ∑ j ∈ range R.S.nDof, ∑ d ∈ range R.S.dim, (y j * R.S.grad j c q d) * (V i * R.S.grad i c q d) =
        ∑ d ∈ range R.S.dim, R.S.gradient y c q d * (V i * R.S.grad i c q d) := by
      intro i
      rw [sum_comm]
      exact sum_congr rfl fun d _ => by rw [← sum_mul]; rfl
    simp only [this]
    rw [sum_comm]
    exact sum_congr rfl fun d _ => by rw [← mul_sum]; rfl

theorem MatReinit.rhs_form (b : Bool) (x V : ℕ → K) :
    ∑ i ∈ range R.S.nDof, V i * R.localRhs b x i =
      R.S.integral fun c q => if R.compressive b x c then
          ((1 - R.S.value x c q ^ 2) / 2 - R.diffusion c * ∑ d ∈ range R.S.dim, R.unit c q d * R.S.gradient x c q d) *
            ∑ d ∈ range R.S.dim, R.unit c q d * R.S.gradient V c q d
        else -(R.diffusion c * ∑ d ∈ range R.S.dim, R.S.gradient x c q d * R.S.gradient V c q d) := by
  unfold MatReinit.localRhs
  simp only [← R.S.integral_smul]
  rw [← R.S.integral_sum]
  refine R.S.integral_congr fun c _ q _ => ?_
  by_cases hc : R.compressive b x c = true
  · simp only [hc, if_true]
    rw [← R.alongShape_sum V, mul_sum]
    refine sum_congr rfl fun i _ => ?_
    have : ∑ d ∈ range R.S.dim, R.diffusion c * R.unit c q d * R.S.gradient x c q d =
        R.diffusion c * ∑ d ∈ range R.S.dim, R.unit c q d * R.S.gradient x c q d := by
      rw [mul_sum]; exact sum_congr rfl fun d _ => by ring
    rw [this]
    ring
  · simp only [hc, Bool.false_eq_true, if_false]
    have e : ∀ i, V i * -((∑ d ∈ range R.S.dim, R.S.grad i c q d * R.S.gradient x c q d) * R.diffusion c) =
        -(R.diffusion c * ∑ d ∈ range R.S.dim, R.S.gradient x c q d * (V i * R.S.grad i c q d)) := by
      intro i
      rw [mul_neg, mul_comm (V i), mul_comm _ (R.diffusion c), mul_assoc, sum_mul]
      congr 2
      exact sum_congr rfl fun d _ => by ring
    simp only [e, sum_neg_distrib, ← mul_sum]
    congr 2
    rw [sum_comm]
    exact sum_congr rfl fun d _ => by rw [← mul_sum]; rfl

/-- sum over the rows of the product, tested with `v` -/
theorem MatReinit.product_pair (hC : R.C.Closed) (b : Bool) (x src v : ℕ → K) :
    ∑ k ∈ range R.S.nDof, (if (R.C.row k).isSome then 0 else v k * R.product b x src k) =
      ∑ i ∈ range R.S.nDof, R.C.dist R.S.nDof v i * ∑ j ∈ range R.S.nDof, R.entry b x i j * R.C.dist R.S.nDof src j := by
  rw [← R.C.pairing hC]
  refine sum_congr rfl fun k _ => ?_
  by_cases hc : (R.C.row k).isSome = true
  · rw [if_pos hc, R.C.scatter_con _ _ hc, mul_zero]
  · unfold MatReinit.product
    rw [if_neg hc, if_neg hc]

theorem MatReinit.solved_iff (b : Bool) (x inc : ℕ → K) :
    R.Solved b x inc ↔ R.divByZero b x = false ∧ ∀ k < R.S.nDof, R.product b x inc k = R.rhs b x k := by
  unfold MatReinit.Solved MatReinit.system
  by_cases h : R.divByZero b x = true
  · simp [h]
  · have h' : R.divByZero b x = false := by simpa using h
    constructor
    · rintro ⟨A, f, he, hs⟩
      rw [if_neg h] at he
      cases he
      exact ⟨h', hs⟩
    · rintro ⟨-, hs⟩
      exact ⟨_, _, by rw [if_neg h], hs⟩

theorem MatReinit.solved_weak (hC : R.C.Closed) (b : Bool) (x inc v : ℕ → K)
    (hs : ∀ k < R.S.nDof, R.product b x inc k = R.rhs b x k) :
    ∑ i ∈ range R.S.nDof, R.C.dist R.S.nDof v i * ∑ j ∈ range R.S.nDof, R.entry b x i j * R.C.dist R.S.nDof inc j =
      ∑ i ∈ range R.S.nDof, R.C.dist R.S.nDof v i * R.localRhs b x i := by
  rw [← R.product_pair hC, ← R.C.pairing hC]
  refine sum_congr rfl fun k hk => ?_
  by_cases hc : (R.C.row k).isSome = true
  · rw [if_pos hc, R.C.scatter_con _ _ hc, mul_zero]
  · rw [if_neg hc, hs k (mem_range.1 hk)]
    rfl

theorem MatReinit.weak (hC : R.C.Closed) (b : Bool) (x inc v : ℕ → K)
    (hs : ∀ k < R.S.nDof, R.product b x inc k = R.rhs b x k) :
    Spec.stepResidual R.S R.dtau R.diffusion R.unit (R.compressive b x) x (R.update x inc) (R.C.dist R.S.nDof v) = 0 := by
  have h := R.solved_weak hC b x inc v hs
  rw [R.entry_form, R.rhs_form] at h
  have h2 := sub_eq_zero.2 h
  rw [sub_eq_add_neg, ← R.S.integral_neg, ← R.S.integral_add] at h2
  refine Eq.trans ?_ h2
  unfold Spec.stepResidual
  refine R.S.integral_congr fun c _ q _ => ?_
  have hv : R.S.value (R.update x inc) c q = R.S.value x c q + R.S.value (R.C.dist R.S.nDof inc) c q := R.S.value_add _ _ c q
  have hg : ∀ d, R.S.gradient (R.update x inc) c q d = R.S.gradient x c q d + R.S.gradient (R.C.dist R.S.nDof inc) c q d :=
    fun d => R.S.gradient_add _ _ c q d
  rw [hv]
  simp only [hg, mul_add, add_mul, sum_add_distrib]
  by_cases hc : R.compressive b x c = true
  · simp only [hc, if_true]; ring
  · simp only [hc, Bool.false_eq_true, if_false]; ring

theorem MatReinit.unit_length (hn : Spec.IsNorm R.S.dim R.nrm) {c q : ℕ} (h : R.nrm (R.pointNormal c q) ≠ 0) :
    ∑ d ∈ range R.S.dim, R.unit c q d ^ 2 = 1 := by
  unfold MatReinit.unit
  simp only [div_pow]
  rw [← sum_div, ← (hn _).2]
  exact div_self (pow_ne_zero _ h)

/-- the system exists exactly if no compressive cell has a vanishing normal -/
theorem MatReinit.divByZero_false (hn : Spec.IsNorm R.S.dim R.nrm) (b : Bool) (x : ℕ → K) :
    R.divByZero b x = false ↔ (b = false → ∀ c < R.S.nCell, ¬ Spec.PurePhase R.S x c → ∀ q < R.S.nQ,
      ∃ d < R.S.dim, R.S.value (R.normalField d) c q ≠ 0) := by
  have hz : ∀ c q, R.nrm (R.pointNormal c q) = 0 ↔ ∀ d < R.S.dim, R.S.value (R.normalField d) c q = 0 := by
    intro c q
    have h := (hn (R.pointNormal c q)).2
    constructor
    · intro h0 d hd
      rw [h0, zero_pow two_ne_zero] at h
      have := (sum_eq_zero_iff_of_nonneg fun d _ => sq_nonneg _).1 h.symm d (mem_range.2 hd)
      exact pow_eq_zero_iff two_ne_zero |>.1 this
    · intro h0
      rw [sum_eq_zero fun d hd => by
        rw [show R.pointNormal c q d = 0 from h0 d (mem_range.1 hd), zero_pow two_ne_zero]] at h
      exact pow_eq_zero_iff two_ne_zero |>.1 h
  unfold MatReinit.divByZero
  rw [decide_eq_false_iff_not]
  constructor
  · intro h hb c hc hp q hq
    by_contra hne
    push Not at hne
    refine h ⟨c, mem_range.2 hc, ?_, q, mem_range.2 hq, (hz c q).2 hne⟩
    rw [R.compressive_eq, hb]
    simpa using hp
  · rintro h ⟨c, hc, hcomp, q, hq, h0⟩
    rw [R.compressive_eq] at hcomp
    simp only [Bool.and_eq_true, Bool.not_eq_true', decide_eq_true_eq] at hcomp
    obtain ⟨d, hd, hne⟩ := h hcomp.1 c (mem_range.1 hc) hcomp.2 q (mem_range.1 hq)
    exact hne ((hz c q).1 h0 d hd)

/-- **C115 (weak form, partial).** For every mesh, hanging nodes, level set and projected normals: if the linear system of a step
exists and is solved exactly, the new level set `y` satisfies, for every admissible test function `V`, the implicit step of length
`dtau = 0.3 min(ε_used/ε, Δt)`: on cells that are no pure phase, diffusion along the *unit* normal and compression; on pure-phase
cells, and everywhere in diffusive steps, isotropic diffusion. Missing: existence of the system, which fails where the projected
normal vanishes, see `C115_zero_normal`. -/
theorem C115_weak_form_partial (hC : R.C.Closed) (hn : Spec.IsNorm R.S.dim R.nrm) (b : Bool) (x inc : ℕ → K)
    (hs : R.Solved b x inc) :
    ∃ n, (b = false → Spec.UnitNormal R.S R.normalField x n) ∧
      ∀ v, Spec.stepResidual R.S (3 / 10 * min (R.epsilonUsed / R.epsilon) R.stepSize)
        (fun c => max R.epsilonUsed (R.diameter c)) n (fun c => !b && decide (¬ Spec.PurePhase R.S x c))
        x (R.update x inc) (R.C.dist R.S.nDof v) = 0 := by
  obtain ⟨h0, hs⟩ := (R.solved_iff b x inc).1 hs
  refine ⟨R.unit, ?_, ?_⟩
  · intro hb c hc hp q hq
    have hne : R.nrm (R.pointNormal c q) ≠ 0 := by
      intro hz
      unfold MatReinit.divByZero at h0
      rw [decide_eq_false_iff_not] at h0
      refine h0 ⟨c, mem_range.2 hc, ?_, q, mem_range.2 hq, hz⟩
      rw [R.compressive_eq, hb]
      simpa using hp
    refine ⟨R.unit_length hn hne, R.nrm (R.pointNormal c q), lt_of_le_of_ne (hn _).1 (Ne.symm hne), fun d _ => ?_⟩
    unfold MatReinit.unit
    rw [mul_div_cancel₀ _ hne]
    rfl
  · intro v
    have h := R.weak hC b x inc v hs
    have e : R.compressive b x = fun c => !b && decide (¬ Spec.PurePhase R.S x c) := funext fun c => R.compressive_eq b x c
    rw [e] at h
    exact h

/-- **C115 (existence of the system).** The linear system of a step exists exactly if the projected normal vanishes at no quadrature
point of a cell that is no pure phase (compressive steps); always in diffusive steps. -/
theorem C115_system_exists (hn : Spec.IsNorm R.S.dim R.nrm) (b : Bool) (x : ℕ → K) :
    (R.system b x).isSome = true ↔ (b = false → ∀ c < R.S.nCell, ¬ Spec.PurePhase R.S x c → ∀ q < R.S.nQ,
      ∃ d < R.S.dim, R.S.value (R.normalField d) c q ≠ 0) := by
  rw [← R.divByZero_false hn]
  unfold MatReinit.system
  by_cases h : R.divByZero b x = true <;> simp [h]

/-- **C115 (violation: vanishing normals).** For a constant level set that is no pure phase, on every mesh with hanging nodes, with
the exact normals of that level set (C93): no compressive step has a linear system - NaNs are assembled -, although nothing has to be
changed. The matrix-free solver bounds the norm from below (C68). -/
theorem C115_zero_normal (P : Projection K) (hS : R.S = P.S) (hn : Spec.IsNorm R.S.dim R.nrm)
    (hC : P.C.Closed) (hP : P.S.Partition)
    (hone : P.C.KeepsOne P.S.nDof) (hj : ∀ c < P.S.nCell, ∀ q < P.S.nQ, 0 < P.S.jxw c q) (aniso : Bool)
    (hδ : ∀ c, P.damping c = MatrixForce.damping false aniso R.epsilonUsed R.epsilon) (dpc : ℕ) (dof : ℕ → ℕ → ℕ)
    (hd : MatrixForce.Spec.CellDofs P.S dpc dof) (sim : ℕ → Bool) (cells : List ℕ) (hp : cells.Perm (List.range P.S.nCell))
    (ht : MatrixForce.Spec.Truthful P.S dpc dof sim cells) (hcell : 0 < P.S.nCell) (hq : 0 < P.S.nQ)
    (a : K) (ha : 1 / 10 ^ 10 ≤ |a * a - 1|) (raw : ℕ → ℕ → K)
    (hraw : ∀ e < P.S.dim, ∀ k < P.S.nDof, Verif.Precond.Wrapper.matVmult P.S.nDof (Verif.Precond.Pattern.assembled P.C P.S.nDof
      (MatrixForce.cellLoop P.S (MatrixForce.damping false aniso R.epsilonUsed R.epsilon) dpc dof sim cells fun _ _ => 0))
        (raw e) k = MatrixForce.normalRhs P.S P.C dpc dof cells (fun _ => a) e k)
    (hfield : ∀ e, R.normalField e = P.C.dist P.S.nDof (raw e)) :
    R.system false (fun _ => a) = none ∧ ∀ inc, ¬ R.Solved false (fun _ => a) inc := by
  have hex : (R.system false fun _ => a).isSome = false := by
    cases hx : (R.system false fun _ => a).isSome
    · rfl
    · exfalso
      have h := (C115_system_exists R hn false fun _ => a).1 hx rfl 0 (by rw [hS]; exact hcell) ?_ 0 (by rw [hS]; exact hq)
      · obtain ⟨e, he, hne⟩ := h
        rw [hS] at he hne
        have hzero := MatrixForce.C93_normal_of_linear P hC hP hone hj aniso R.epsilonUsed R.epsilon hδ dpc dof hd sim cells hp ht
          (fun _ => a) (fun _ => 0) e (fun c hc q hq => P.S.gradient_const hP a hc hq he) (raw e) (hraw e he)
        apply hne
        rw [hfield]
        exact hzero 0 hcell 0 hq
      · unfold Spec.PurePhase
        rw [hS, not_lt]
        have : ∀ q ∈ range P.S.nQ, |P.S.value (fun _ => a) 0 q * P.S.value (fun _ => a) 0 q - 1| = |a * a - 1| := by
          intro q hq
          rw [P.S.value_const hP a hcell (mem_range.1 hq)]
        rw [sum_congr rfl this, sum_const, card_range, nsmul_eq_mul]
        have h1 : (1 : K) ≤ P.S.nQ := by exact_mod_cast hq
        have h2 : (0 : K) ≤ |a * a - 1| := abs_nonneg _
        nlinarith
  have hnone : R.system false (fun _ => a) = none := by
    cases hx : R.system false (fun _ => a)
    · rfl
    · rw [hx] at hex; cases hex
  refine ⟨hnone, ?_⟩
  rintro inc ⟨A, f, h, -⟩
  rw [hnone] at h
  cases h

/-- **C115 (pseudo-time step and diffusion).** With positive parameters the pseudo-time step is positive, at most `0.3 Δt` and at most
`0.3 ε_used/ε`; the diffusion is at least `ε_used`, at least the cell size, and positive. -/
theorem C115_pseudo_step (he : 0 < R.epsilonUsed) (hp : 0 < R.epsilon) (ht : 0 < R.stepSize) :
    0 < R.dtau ∧ R.dtau ≤ 3 / 10 * R.stepSize ∧ R.dtau * R.epsilon ≤ 3 / 10 * R.epsilonUsed ∧
    ∀ c, R.epsilonUsed ≤ R.diffusion c ∧ R.diameter c ≤ R.diffusion c ∧ 0 < R.diffusion c := by
  unfold MatReinit.dtau MatReinit.diffusion
  have h1 : 0 < min (R.epsilonUsed / R.epsilon) R.stepSize := lt_min (div_pos he hp) ht
  have h2 := min_le_left (R.epsilonUsed / R.epsilon) R.stepSize
  have h3 := min_le_right (R.epsilonUsed / R.epsilon) R.stepSize
  refine ⟨by positivity, by linarith, ?_, fun c => ⟨le_max_left _ _, le_max_right _ _, lt_max_of_lt_left he⟩⟩
  have h4 : min (R.epsilonUsed / R.epsilon) R.stepSize * R.epsilon ≤ R.epsilonUsed := by
    calc _ ≤ R.epsilonUsed / R.epsilon * R.epsilon := mul_le_mul_of_nonneg_right h2 hp.le
      _ = R.epsilonUsed := div_mul_cancel₀ _ hp.ne'
  linarith

/-- **C115 (content).** If constants are admissible, an exact step of any kind from any level set conserves the content. -/
theorem C115_content_conserved (hC : R.C.Closed) (hP : R.S.Partition) (hone : R.C.KeepsOne R.S.nDof)
    (he : 0 < R.epsilonUsed) (hp : 0 < R.epsilon) (ht : 0 < R.stepSize) (b : Bool) (x inc : ℕ → K) (hs : R.Solved b x inc) :
    Spec.total R.S (R.update x inc) = Spec.total R.S x := by
  have hτ := (C115_pseudo_step R he hp ht).1
  have h := R.weak hC b x inc (fun _ => 1) ((R.solved_iff b x inc).1 hs).2
  rw [show R.C.dist R.S.nDof (fun _ => (1 : K)) = fun _ => 1 from funext fun i => R.C.dist_const _ hone 1 i] at h
  have e : Spec.stepResidual R.S R.dtau R.diffusion R.unit (R.compressive b x) x (R.update x inc) (fun _ => 1) =
      1 / R.dtau * (Spec.total R.S (R.update x inc) - Spec.total R.S x) := by
    unfold Spec.stepResidual Spec.total
    rw [sub_eq_add_neg, ← R.S.integral_neg, ← R.S.integral_add, ← R.S.integral_smul]
    refine R.S.integral_congr fun c hc q hq => ?_
    have hg : ∀ f : ℕ → K, ∑ d ∈ range R.S.dim, f d * R.S.gradient (fun _ => 1) c q d = 0 := fun f =>
      sum_eq_zero fun d hd => by rw [R.S.gradient_const hP 1 hc hq (mem_range.1 hd), mul_zero]
    rw [R.S.value_const hP 1 hc hq, hg, hg]
    split_ifs <;> ring
  rw [e] at h
  have := (mul_eq_zero.1 h).resolve_left (by positivity)
  linarith

/-- **C115 (system matrix).** The matrix of every step is symmetric and positive:
`vᵀ A v >= |V|²/dtau + ∑ diag_k v_k²` (sum over the constrained unknowns); the conjugate gradient method applies. -/
theorem C115_symmetric_positive (hC : R.C.Closed) (b : Bool) (x : ℕ → K) (A : (ℕ → K) → ℕ → K) (f : ℕ → K)
    (hA : R.system b x = some (A, f)) (v w : ℕ → K) :
    ∑ k ∈ range R.S.nDof, v k * A w k = ∑ k ∈ range R.S.nDof, w k * A v k ∧
    ((∀ c < R.S.nCell, ∀ q < R.S.nQ, 0 ≤ R.S.jxw c q) → 0 < R.epsilonUsed →
      1 / R.dtau * Spec.normSq R.S (R.C.dist R.S.nDof v) +
        ∑ k ∈ range R.S.nDof, (if (R.C.row k).isSome then R.diag k * v k ^ 2 else 0) ≤
      ∑ k ∈ range R.S.nDof, v k * A v k) := by
  have hA' : A = R.product b x := by
    unfold MatReinit.system at hA
    split_ifs at hA
    injection hA with hA
    exact (congrArg Prod.fst hA).symm
  have split : ∀ v w : ℕ → K, ∑ k ∈ range R.S.nDof, v k * R.product b x w k =
      ∑ k ∈ range R.S.nDof, (if (R.C.row k).isSome then 0 else v k * R.product b x w k) +
      ∑ k ∈ range R.S.nDof, (if (R.C.row k).isSome then R.diag k * (v k * w k) else 0) := by
    intro v w
    rw [← sum_add_distrib]
    refine sum_congr rfl fun k _ => ?_
    by_cases hc : (R.C.row k).isSome = true
    · rw [if_pos hc, if_pos hc, zero_add]
      unfold MatReinit.product
      rw [if_pos hc]; ring
    · rw [if_neg hc, if_neg hc, add_zero]
  rw [hA']
  refine ⟨?_, ?_⟩
  · rw [split v w, split w v, R.product_pair hC, R.product_pair hC, R.entry_form, R.entry_form]
    congr 1
    · refine R.S.integral_congr fun c _ q _ => ?_
      have : ∑ d ∈ range R.S.dim, R.S.gradient (R.C.dist R.S.nDof w) c q d * R.S.gradient (R.C.dist R.S.nDof v) c q d =
          ∑ d ∈ range R.S.dim, R.S.gradient (R.C.dist R.S.nDof v) c q d * R.S.gradient (R.C.dist R.S.nDof w) c q d :=
        sum_congr rfl fun d _ => mul_comm _ _
      rw [this]
      split_ifs <;> ring
    · exact sum_congr rfl fun k _ => by split_ifs <;> ring
  · intro hj he
    rw [split v v, R.product_pair hC, R.entry_form]
    refine add_le_add ?_ (le_of_eq (sum_congr rfl fun k _ => by split_ifs <;> ring))
    have hd : ∀ c, 0 ≤ R.diffusion c := fun c => le_trans he.le (le_max_left _ _)
    have hsplit := R.S.integral_add (fun c q => R.S.value (R.C.dist R.S.nDof v) c q / R.dtau * R.S.value (R.C.dist R.S.nDof v) c q)
      fun c q => if R.compressive b x c then R.diffusion c *
          (∑ d ∈ range R.S.dim, R.unit c q d * R.S.gradient (R.C.dist R.S.nDof v) c q d) *
          ∑ d ∈ range R.S.dim, R.unit c q d * R.S.gradient (R.C.dist R.S.nDof v) c q d
        else R.diffusion c * ∑ d ∈ range R.S.dim, R.S.gradient (R.C.dist R.S.nDof v) c q d * R.S.gradient (R.C.dist R.S.nDof v) c q d
    rw [hsplit]
    have h1 : (R.S.integral fun c q => R.S.value (R.C.dist R.S.nDof v) c q / R.dtau * R.S.value (R.C.dist R.S.nDof v) c q) =
        1 / R.dtau * Spec.normSq R.S (R.C.dist R.S.nDof v) := by
      unfold Spec.normSq
      rw [← R.S.integral_smul]
      exact R.S.integral_congr fun c _ q _ => by ring
    rw [h1]
    refine le_add_of_nonneg_right (integral_nonneg R.S hj fun c _ q _ => ?_)
    split_ifs
    · rw [mul_assoc]
      exact mul_nonneg (hd c) (mul_self_nonneg _)
    · exact mul_nonneg (hd c) (sum_nonneg fun d _ => mul_self_nonneg _)

/-- **C115 (diffusive steps).** An exact diffusive step never increases the `L2` norm of a level set that satisfies the
constraints. -/
theorem C115_diffusion_decays (hC : R.C.Closed) (hj : ∀ c < R.S.nCell, ∀ q < R.S.nQ, 0 ≤ R.S.jxw c q)
    (he : 0 < R.epsilonUsed) (hp : 0 < R.epsilon) (ht : 0 < R.stepSize) (x inc : ℕ → K)
    (hx : ∀ i, R.C.dist R.S.nDof x i = x i) (hs : R.Solved true x inc) :
    Spec.normSq R.S (R.update x inc) ≤ Spec.normSq R.S x := by
  have hτ := (C115_pseudo_step R he hp ht).1
  have h := R.weak hC true x inc (fun i => x i + inc i) ((R.solved_iff true x inc).1 hs).2
  have hV : R.C.dist R.S.nDof (fun i => x i + inc i) = R.update x inc := by
    funext i; rw [R.C.dist_add, hx]; rfl
  rw [hV] at h
  set y := R.update x inc
  have key : 1 / R.dtau * (Spec.normSq R.S x - Spec.normSq R.S y) =
      R.S.integral fun c q => 1 / R.dtau * (R.S.value y c q - R.S.value x c q) ^ 2 +
        2 * (R.diffusion c * ∑ d ∈ range R.S.dim, R.S.gradient y c q d * R.S.gradient y c q d) := by
    have e : 1 / R.dtau * (Spec.normSq R.S x - Spec.normSq R.S y) +
        2 * Spec.stepResidual R.S R.dtau R.diffusion R.unit (R.compressive true x) x y y =
      R.S.integral fun c q => 1 / R.dtau * (R.S.value y c q - R.S.value x c q) ^ 2 +
        2 * (R.diffusion c * ∑ d ∈ range R.S.dim, R.S.gradient y c q d * R.S.gradient y c q d) := by
      unfold Spec.normSq Spec.stepResidual
      rw [sub_eq_add_neg, ← R.S.integral_neg, ← R.S.integral_add, ← R.S.integral_smul, ← R.S.integral_smul, ← R.S.integral_add]
      refine R.S.integral_congr fun c _ q _ => ?_
      rw [show R.compressive true x c = false from rfl]
      simp only [Bool.false_eq_true, if_false]
      ring
    rw [← e, h]; ring
  have hn : 0 ≤ 1 / R.dtau * (Spec.normSq R.S x - Spec.normSq R.S y) := by
    rw [key]
    refine integral_nonneg R.S hj fun c _ q _ => ?_
    have hd : 0 ≤ R.diffusion c := le_trans he.le (le_max_left _ _)
    have h2 : 0 ≤ ∑ d ∈ range R.S.dim, R.S.gradient y c q d * R.S.gradient y c q d := sum_nonneg fun d _ => mul_self_nonneg _
    positivity
  have := nonneg_of_mul_nonneg_right hn (by positivity : 0 < 1 / R.dtau)
  linarith

/-- **C115 (equilibrium).** If the system exists and the level set satisfies `ε n·∇φ = (1 - φ²)/2` for the unit normal on all cells
that are no pure phase, and has no gradient on the pure-phase cells, the right hand side of a compressive step vanishes. -/
theorem C115_equilibrium (x : ℕ → K) (A : (ℕ → K) → ℕ → K) (f : ℕ → K) (hA : R.system false x = some (A, f))
    (n : ℕ → ℕ → ℕ → K) (hn : Spec.IsNorm R.S.dim R.nrm) (hu : Spec.UnitNormal R.S R.normalField x n)
    (heq : ∀ c < R.S.nCell, ¬ Spec.PurePhase R.S x c → ∀ q < R.S.nQ,
      max R.epsilonUsed (R.diameter c) * (∑ d ∈ range R.S.dim, n c q d * R.S.gradient x c q d) = (1 - R.S.value x c q ^ 2) / 2)
    (hpure : ∀ c < R.S.nCell, Spec.PurePhase R.S x c → ∀ q < R.S.nQ, ∀ d < R.S.dim, R.S.gradient x c q d = 0)
    (k : ℕ) (hk : k < R.S.nDof) : f k = 0 := by
  have hf : f = R.rhs false x := by
    unfold MatReinit.system at hA
    split_ifs at hA
    injection hA with hA
    exact (congrArg Prod.snd hA).symm
  rw [hf]
  unfold MatReinit.rhs
  have : R.C.scatter R.S.nDof (R.localRhs false x) k = R.C.scatter R.S.nDof (fun _ => 0) k := by
    refine R.C.scatter_congr _ hk fun i _ => ?_
    unfold MatReinit.localRhs
    rw [R.S.integral_congr (g := fun _ _ => 0)]
    · simp [Space.integral]
    · intro c hc q hq
      by_cases hp : Spec.PurePhase R.S x c
      · rw [R.compressive_eq]
        simp only [hp, not_true_eq_false, decide_false, Bool.and_false, Bool.false_eq_true, if_false]
        rw [sum_eq_zero fun d hd => by rw [hpure c hc hp q hq d (mem_range.1 hd), mul_zero]]
        ring
      · rw [R.compressive_eq]
        simp only [hp, not_false_eq_true, decide_true, Bool.and_true, Bool.not_false, if_true]
        have hun : ∀ d < R.S.dim, R.unit c q d = n c q d := by
          obtain ⟨h1, s, hs, hv⟩ := hu c hc hp q hq
          have hnr := hn (R.pointNormal c q)
          have hsq : R.nrm (R.pointNormal c q) ^ 2 = s ^ 2 := by
            rw [hnr.2, ← mul_one (s ^ 2), ← h1, mul_sum]
            refine sum_congr rfl fun d hd => ?_
            rw [← mul_pow, ← hv d (mem_range.1 hd)]
            rfl
          have hnrm : R.nrm (R.pointNormal c q) = s := (pow_left_inj₀ hnr.1 hs.le (by norm_num)).1 hsq
          intro d hd
          unfold MatReinit.unit
          rw [hnrm, div_eq_iff hs.ne', mul_comm]
          exact hv d hd
        have hsum : ∑ d ∈ range R.S.dim, R.diffusion c * R.unit c q d * R.S.gradient x c q d =
            max R.epsilonUsed (R.diameter c) * ∑ d ∈ range R.S.dim, n c q d * R.S.gradient x c q d := by
          rw [mul_sum]
          refine sum_congr rfl fun d hd => ?_
          rw [hun d (mem_range.1 hd)]
          unfold MatReinit.diffusion
          ring
        rw [hsum, heq c hc hp q hq]
        ring
  rw [this]
  unfold Constr.scatter
  split_ifs
  · rfl
  · rw [zero_add]
    refine sum_eq_zero fun i _ => ?_
    split <;> simp

/-! ## Concrete cases -/

/-- One linear element on `(0,1)`: `ε_used = 1`, `ε = 1`, time step 10/3, so that `dtau = 3/10`; normals 2. -/
def exMatReinit (n : ℚ) : MatReinit ℚ :=
  ⟨exSpace1, ⟨fun _ => none⟩, fun _ => 1, 1, 1, 10 / 3, fun _ => 1 / 2, fun _ _ => n, fun v => |v 0|⟩

/-- An exact diffusive step from `(0, 1)` and an exact compressive step from `(0, 0)`; the former has no increasing norm. -/
example : (exMatReinit 2).Solved true (fun i => if i = 0 then 0 else 1) (fun i => if i = 0 then 3 / 11 else -3 / 11) ∧
    (exMatReinit 2).Solved false (fun _ => 0) (fun i => if i = 0 then -3 / 22 else 3 / 22) := by
  refine ⟨(MatReinit.solved_iff _ _ _ _).2 ⟨by decide +kernel, ?_⟩, (MatReinit.solved_iff _ _ _ _).2 ⟨by decide +kernel, ?_⟩⟩
  · show ∀ k < 2, _
    decide +kernel
  · show ∀ k < 2, _
    decide +kernel

/-- Without gradient and with vanishing normals the compressive step has no system, in the pure phase it has one. -/
example : (exMatReinit 0).system false (fun _ => 1 / 2) = none ∧ ((exMatReinit 0).system false fun _ => 1).isSome = true := by
  refine ⟨?_, ?_⟩
  · unfold MatReinit.system
    rw [if_pos (by decide +kernel)]
  · unfold MatReinit.system
    rw [if_neg (by decide +kernel)]; rfl

example : Spec.IsNorm (exMatReinit 2).S.dim (exMatReinit 2).nrm := by
  intro v
  refine ⟨abs_nonneg _, ?_⟩
  show |v 0| ^ 2 = ∑ d ∈ range 1, v d ^ 2
  rw [sum_range_one, sq_abs]

/-- The hypotheses of `C115_zero_normal` on the two-cell mesh of C93. -/
example : ∃ raw : ℕ → ℕ → ℚ, ∀ e < MatrixForce.Example.S.dim, ∀ k < 3,
    Verif.Precond.Wrapper.matVmult 3 (Verif.Precond.Pattern.assembled MatrixForce.Example.P.C 3
      (MatrixForce.cellLoop MatrixForce.Example.S 4 2 MatrixForce.Example.dof MatrixForce.Example.sim [0, 1] fun _ _ => 0)) (raw e) k =
    MatrixForce.normalRhs MatrixForce.Example.S MatrixForce.Example.P.C 2 MatrixForce.Example.dof [0, 1] (fun _ => 1 / 2) e k := by
  refine ⟨fun _ _ => 0, ?_⟩
  show ∀ e < 1, ∀ k < 3, _
  decide +kernel

end Verif.LevelSet
