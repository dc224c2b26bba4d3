import Verif.FE.Space
import Verif.Precond.Assembly
import Mathlib.Algebra.Order.BigOperators.Group.Finset
import Mathlib.Algebra.Order.Field.Basic
import Mathlib.Tactic.FieldSimp
import Mathlib.Tactic.Positivity
import Mathlib.Tactic.Linarith
import Mathlib.Tactic.NormNum

/-!
# C87: the matrix-free pressure operators
(source/navier_stokes_matrix.cc: pressure_poisson_vmult 386-417, pressure_mass_vmult 421-456, pressure_convdiff_vmult 460-484,
local_divergence 920-962, local_pressure_poisson 965-1032, local_pressure_mass 1036-1071, local_pressure_convdiff 1099-1140;
source/navier_stokes_preconditioner.cc: stationary branch of vmult 683-706, solve_projection_system 813-847)

Cell loops and constraints are those of `Verif.FE.Space`. The exchange of the live and the frozen coefficients around the
loops is C21; the pinned degrees of freedom of the wrapper class are C19.
-/

namespace Verif.Operator.PressureOps

open Finset Verif.FE

variable {K : Type*} [Field K] [LinearOrder K] [IsStrictOrderedRing K]

/-! ## Model -/

/-- The parameters and buffers the kernels read. `rho`/`mu` are `variable_densities`/`variable_viscosities` (cell, point of
the velocity quadrature), `none` if the vectors are empty. `weight` is `time_stepping->weight()`. -/
structure Conf (K : Type*) where
  projection : Bool
  stationary : Bool
  density : K
  densityDiff : K
  viscosity : K
  tauGradDiv : K
  weight : K
  rho : Option (ℕ → ℕ → K)
  mu : Option (ℕ → ℕ → K)

/-- `std::min(parameters.density, parameters.density + parameters.density_diff)`, navier_stokes_matrix.cc:1017-1018 -/
def Conf.minDensity (f : Conf K) : K := min f.density (f.density + f.densityDiff)

/-- `local_pressure_poisson`, navier_stokes_matrix.cc:965-1032, over all cells: local contributions, tested with basis
function `i`. `Su`/`Sp`: pressure shape functions in the points of `quad_index_u`/`quad_index_p`; `x` are the values after
`read_dof_values`. `nQ0` is `data.get_n_q_points(0)`. -/
def localPoisson (f : Conf K) (nQ0 : ℕ) (Su Sp : Space K) (x : ℕ → K) : ℕ → K :=
  -- `use_variable_coefficients`, :975-977
  match (if f.projection then none else f.rho) with
  | some rho =>
    if f.stationary = false then
      Su.test (fun _ _ => 0) (fun c q d => Su.gradient x c q d * (1 / (f.weight * rho c q)))
    else
      Sp.test (fun _ _ => 0) (fun c q d =>
        let rhoValue := rho c (nQ0 / 2)
        let coefficient := if f.stationary then 1 else 1 / (f.weight * rhoValue)
        Sp.gradient x c q d * coefficient)
  | none =>
    Sp.test (fun _ _ => 0) (fun c q d =>
      let coefficient := if f.stationary then 1 else 1 / (f.weight * f.minDensity)
      Sp.gradient x c q d * coefficient)

/-- constrained degrees of freedom after the loop: `dst(i) = src(i)`, navier_stokes_matrix.cc:412-416 -/
def finish (C : Constr K) (src dst : ℕ → K) (k : ℕ) : K := if (C.row k).isSome then src k else dst k

/-- `pressure_poisson_vmult`, navier_stokes_matrix.cc:386-417 -/
def poissonVmult (f : Conf K) (nQ0 : ℕ) (Su Sp : Space K) (C : Constr K) (src : ℕ → K) : ℕ → K :=
  finish C src (C.scatter Sp.nDof (localPoisson f nQ0 Su Sp (C.dist Sp.nDof src)))

/-- `local_pressure_mass`, navier_stokes_matrix.cc:1036-1071 -/
def localMass (f : Conf K) (nQ0 : ℕ) (Sp : Space K) (x : ℕ → K) : ℕ → K :=
  Sp.test (fun c q =>
    let muValue := match f.mu with
      | some mu => mu c (nQ0 / 2)
      | none => f.viscosity
    let coefficient := if f.projection ∨ f.stationary then 1 else 1 / (muValue + f.tauGradDiv)
    Sp.value x c q * coefficient) (fun _ _ _ => 0)

/-- The second constant pressure mode of augmented Taylor-Hood elements with its weights, `pressure_constant_modes[1]`,
`pressure_constant_mode_weights[1]`, `inverse_pressure_average_weights[1]`. -/
structure Mode1 (K : Type*) where
  mode : ℕ → K
  weights : ℕ → K
  inverse : K

/-- `pressure_mass_vmult`, navier_stokes_matrix.cc:421-456 -/
def massVmult (f : Conf K) (nQ0 : ℕ) (Sp : Space K) (C : Constr K) (m : Option (Mode1 K)) (src : ℕ → K) : ℕ → K :=
  let dst := finish C src (C.scatter Sp.nDof (localMass f nQ0 Sp (C.dist Sp.nDof src)))
  match m with
  | some m =>
    if f.projection then dst
    else
      let weight := ∑ k ∈ range Sp.nDof, m.weights k * dst k
      fun k => dst k + -weight * m.inverse * m.mode k
  | none => dst

/-- `local_pressure_convdiff`, navier_stokes_matrix.cc:1099-1140 (the convective part is commented out) -/
def localConvdiff (f : Conf K) (Su : Space K) (x : ℕ → K) : ℕ → K :=
  Su.test (fun _ _ => 0) (fun c q d =>
    let muValue := match f.mu with
      | some mu => mu c (Su.nQ / 2)
      | none => f.viscosity
    Su.gradient x c q d * muValue)

/-- `pressure_convdiff_vmult`, navier_stokes_matrix.cc:460-484 -/
def convdiffVmult (f : Conf K) (Su : Space K) (C : Constr K) (src : ℕ → K) : ℕ → K :=
  finish C src (C.scatter Su.nDof (localConvdiff f Su (C.dist Su.nDof src)))

/-- `local_divergence` for constant viscosity, navier_stokes_matrix.cc:920-962: `div` is the divergence of the velocity in the
points of the velocity quadrature. (With variable viscosity see C84.) -/
def divergence (f : Conf K) (weightByViscosity : Bool) (Su : Space K) (C : Constr K) (div : ℕ → ℕ → K) : ℕ → K :=
  C.scatter Su.nDof (Su.test (fun c q =>
    let weight := if weightByViscosity then -f.viscosity else -1
    weight * div c q) (fun _ _ _ => 0))

/-- The convection-diffusion step of the stationary preconditioner, navier_stokes_preconditioner.cc:695-702: `t` is the
residual (`temp_vector`), `phi` the result of the pressure Poisson solve; returns `temp_vector2`, the right hand side of the
mass solve. `pins` are `constraints_schur_complement_only`. -/
def stationaryStep (f : Conf K) (Su : Space K) (C : Constr K) (pins : List ℕ) (phi t : ℕ → K) : ℕ → K :=
  let phi := pins.foldl (fun v i => Function.update v i 0) phi
  let r := convdiffVmult f Su C phi
  pins.foldl (fun v i => Function.update v i (t i)) r

/-! ## Specification -/

namespace Spec

/-- the smaller of the densities of the two fluids -/
def smallDensity (f : Conf K) : K := if f.densityDiff < 0 then f.density + f.densityDiff else f.density

/-- The factor of the pressure Poisson operator: `1/(w ρ)` with the local density if it varies, the smaller of the two
densities otherwise and in the projection scheme; one in stationary problems. -/
def poissonFactor (f : Conf K) (c q : ℕ) : K :=
  if f.stationary then 1
  else if f.projection then 1 / (f.weight * smallDensity f)
  else match f.rho with
    | some rho => 1 / (f.weight * rho c q)
    | none => 1 / (f.weight * smallDensity f)

/-- the quadrature the Poisson operator is integrated with: that of the velocity if the density varies in space -/
def poissonSpace (f : Conf K) (Su Sp : Space K) : Space K :=
  if f.stationary = false ∧ f.projection = false ∧ f.rho.isSome then Su else Sp

/-- `∑_cells ∑_q a(c,q) ∇x·∇v JxW` -/
def gradForm (S : Space K) (a : ℕ → ℕ → K) (x v : ℕ → K) : K :=
  S.integral fun c q => a c q * ∑ d ∈ range S.dim, S.gradient x c q d * S.gradient v c q d

/-- `∑_cells ∑_q a(c,q) x v JxW` -/
def valForm (S : Space K) (a : ℕ → ℕ → K) (x v : ℕ → K) : K :=
  S.integral fun c q => a c q * (S.value x c q * S.value v c q)

/-- inner product over the constrained degrees of freedom -/
def conDot (C : Constr K) (n : ℕ) (x v : ℕ → K) : K := ∑ k ∈ range n, if (C.row k).isSome then v k * x k else 0

def dot (n : ℕ) (x v : ℕ → K) : K := ∑ k ∈ range n, v k * x k

/-- the two quadratures describe the same mesh and element -/
def SameMesh (Su Sp : Space K) : Prop := Su.nDof = Sp.nDof ∧ Su.nCell = Sp.nCell ∧ Su.dim = Sp.dim

/-- both quadratures are exact for products of gradients (resp. values) of pressure functions, e.g. on affine cells -/
def GradExact (Su Sp : Space K) : Prop := ∀ x v, gradForm Su (fun _ _ => 1) x v = gradForm Sp (fun _ _ => 1) x v
def ValExact (Su Sp : Space K) : Prop := ∀ x v, valForm Su (fun _ _ => 1) x v = valForm Sp (fun _ _ => 1) x v

/-- the factor of the pressure mass operator: `1/(μ + τ)` with the viscosity in the middle point of the cell, one in the
projection scheme and in stationary problems -/
def massFactor (f : Conf K) (nQ0 c : ℕ) : K :=
  if f.projection ∨ f.stationary then 1
  else match f.mu with
    | some mu => 1 / (mu c (nQ0 / 2) + f.tauGradDiv)
    | none => 1 / (f.viscosity + f.tauGradDiv)

end Spec

/-! ## Lemmas -/

section lemmas

omit [LinearOrder K] [IsStrictOrderedRing K]

theorem finish_pair (C : Constr K) (n : ℕ) (src L v : ℕ → K) :
    Spec.dot n (finish C src (C.scatter n L)) v = ∑ k ∈ range n, v k * C.scatter n L k + Spec.conDot C n src v := by
  unfold Spec.dot Spec.conDot
  rw [← sum_add_distrib]
  refine sum_congr rfl fun k _ => ?_
  unfold finish
  by_cases h : (C.row k).isSome
  · simp [h, C.scatter_con n L h]
  · simp [h]

theorem grad_pair (S : Space K) (C : Constr K) (hC : C.Closed) (a : ℕ → ℕ → K) (x v : ℕ → K) :
    ∑ k ∈ range S.nDof, v k * C.scatter S.nDof (S.test (fun _ _ => 0) fun c q d => S.gradient x c q d * a c q) k =
      Spec.gradForm S a x (C.dist S.nDof v) := by
  rw [S.assembled_pair C hC]
  unfold Spec.gradForm
  refine S.integral_congr fun c _ q _ => ?_
  rw [zero_mul, zero_add, mul_sum]
  exact sum_congr rfl fun d _ => by ring

theorem val_pair (S : Space K) (C : Constr K) (hC : C.Closed) (a : ℕ → ℕ → K) (x v : ℕ → K) :
    ∑ k ∈ range S.nDof, v k * C.scatter S.nDof (S.test (fun c q => S.value x c q * a c q) fun _ _ _ => 0) k =
      Spec.valForm S a x (C.dist S.nDof v) := by
  rw [S.assembled_pair C hC]
  unfold Spec.valForm
  refine S.integral_congr fun c _ q _ => ?_
  simp only [zero_mul, sum_const_zero, add_zero]
  ring

theorem gradForm_symm (S : Space K) (a : ℕ → ℕ → K) (x v : ℕ → K) : Spec.gradForm S a x v = Spec.gradForm S a v x := by
  unfold Spec.gradForm
  refine S.integral_congr fun c _ q _ => ?_
  congr 1
  exact sum_congr rfl fun d _ => mul_comm _ _

theorem valForm_symm (S : Space K) (a : ℕ → ℕ → K) (x v : ℕ → K) : Spec.valForm S a x v = Spec.valForm S a v x := by
  unfold Spec.valForm
  refine S.integral_congr fun c _ q _ => ?_
  rw [mul_comm (S.value x c q)]

theorem conDot_symm (C : Constr K) (n : ℕ) (x v : ℕ → K) : Spec.conDot C n x v = Spec.conDot C n v x := by
  unfold Spec.conDot
  exact sum_congr rfl fun k _ => by split_ifs <;> ring

theorem gradForm_smul (S : Space K) (b : K) (a : ℕ → ℕ → K) (x v : ℕ → K) :
    Spec.gradForm S (fun c q => b * a c q) x v = b * Spec.gradForm S a x v := by
  unfold Spec.gradForm
  rw [← S.integral_smul]
  exact S.integral_congr fun c _ q _ => by ring

theorem valForm_smul (S : Space K) (b : K) (a : ℕ → ℕ → K) (x v : ℕ → K) :
    Spec.valForm S (fun c q => b * a c q) x v = b * Spec.valForm S a x v := by
  unfold Spec.valForm
  rw [← S.integral_smul]
  exact S.integral_congr fun c _ q _ => by ring

end lemmas

theorem integral_nonneg {S : Space K} (hJ : ∀ c < S.nCell, ∀ q < S.nQ, 0 ≤ S.jxw c q) {g : ℕ → ℕ → K}
    (hg : ∀ c < S.nCell, ∀ q < S.nQ, 0 ≤ g c q) : 0 ≤ S.integral g := by
  unfold Space.integral
  exact sum_nonneg fun c hc => sum_nonneg fun q hq =>
    mul_nonneg (hg c (mem_range.1 hc) q (mem_range.1 hq)) (hJ c (mem_range.1 hc) q (mem_range.1 hq))

theorem integral_eq_zero {S : Space K} (hJ : ∀ c < S.nCell, ∀ q < S.nQ, 0 < S.jxw c q) {g : ℕ → ℕ → K}
    (hg : ∀ c < S.nCell, ∀ q < S.nQ, 0 ≤ g c q) : S.integral g = 0 ↔ ∀ c < S.nCell, ∀ q < S.nQ, g c q = 0 := by
  unfold Space.integral
  have h1 : ∀ c ∈ range S.nCell, ∀ q ∈ range S.nQ, 0 ≤ g c q * S.jxw c q := fun c hc q hq =>
    mul_nonneg (hg c (mem_range.1 hc) q (mem_range.1 hq)) (hJ c (mem_range.1 hc) q (mem_range.1 hq)).le
  rw [sum_eq_zero_iff_of_nonneg fun c hc => sum_nonneg (h1 c hc)]
  constructor
  · intro h c hc q hq
    have := (sum_eq_zero_iff_of_nonneg (h1 c (mem_range.2 hc))).1 (h c (mem_range.2 hc)) q (mem_range.2 hq)
    rcases mul_eq_zero.1 this with h0 | h0
    · exact h0
    · exact absurd h0 (hJ c hc q hq).ne'
  · intro h c hc
    exact sum_eq_zero fun q hq => by rw [h c (mem_range.1 hc) q (mem_range.1 hq), zero_mul]

/-! ## C87 -/

theorem minDensity_eq (f : Conf K) : f.minDensity = Spec.smallDensity f := by
  unfold Conf.minDensity Spec.smallDensity
  split_ifs with h
  · exact min_eq_right (by linarith)
  · exact min_eq_left (by linarith)

theorem localPoisson_eq (f : Conf K) (nQ0 : ℕ) (Su Sp : Space K) (x : ℕ → K) :
    localPoisson f nQ0 Su Sp x =
      (Spec.poissonSpace f Su Sp).test (fun _ _ => 0)
        fun c q d => (Spec.poissonSpace f Su Sp).gradient x c q d * Spec.poissonFactor f c q := by
  obtain ⟨pr, st, rho0, drho, mu0, tau, w, rho, mu⟩ := f
  cases pr <;> cases st <;> cases rho <;>
    simp [localPoisson, Spec.poissonSpace, Spec.poissonFactor, minDensity_eq]

/-- **C87 (Poisson operator).** For every configuration, every pair of vectors and closed constraints, the product with the
pressure Poisson operator is the weak form with the documented factor on the functions with the constraints resolved, plus
the identity on the constrained degrees of freedom. -/
theorem C87_poisson_form (f : Conf K) (nQ0 : ℕ) {Su Sp : Space K} (hm : Spec.SameMesh Su Sp) (C : Constr K) (hC : C.Closed)
    (x v : ℕ → K) :
    Spec.dot Sp.nDof (poissonVmult f nQ0 Su Sp C x) v =
      Spec.gradForm (Spec.poissonSpace f Su Sp) (Spec.poissonFactor f) (C.dist Sp.nDof x) (C.dist Sp.nDof v) +
      Spec.conDot C Sp.nDof x v := by
  have hn : (Spec.poissonSpace f Su Sp).nDof = Sp.nDof := by
    unfold Spec.poissonSpace; split_ifs
    · exact hm.1
    · rfl
  rw [poissonVmult, finish_pair, localPoisson_eq, ← hn, grad_pair _ C hC]

/-- **C87 (symmetric, semi-definite).** With positive factors the operator is symmetric and positive semi-definite, and the
quadratic form only vanishes if the constrained entries are zero and the gradient of the function is zero in all points:
conjugate gradients is applicable. -/
theorem C87_poisson_symmetric_semidefinite (f : Conf K) (nQ0 : ℕ) {Su Sp : Space K} (hm : Spec.SameMesh Su Sp) (C : Constr K)
    (hC : C.Closed) :
    (∀ x v, Spec.dot Sp.nDof (poissonVmult f nQ0 Su Sp C x) v = Spec.dot Sp.nDof (poissonVmult f nQ0 Su Sp C v) x) ∧
    (let S := Spec.poissonSpace f Su Sp
     (∀ c < S.nCell, ∀ q < S.nQ, 0 < S.jxw c q) → 0 < f.weight → 0 < Spec.smallDensity f →
     (∀ rho, f.rho = some rho → ∀ c q, 0 < rho c q) → ∀ x,
      0 ≤ Spec.dot Sp.nDof (poissonVmult f nQ0 Su Sp C x) x ∧
      (Spec.dot Sp.nDof (poissonVmult f nQ0 Su Sp C x) x = 0 →
        (∀ k < Sp.nDof, (C.row k).isSome → x k = 0) ∧
        ∀ c < S.nCell, ∀ q < S.nQ, ∀ d < S.dim, S.gradient (C.dist Sp.nDof x) c q d = 0)) := by
  refine ⟨fun x v => ?_, ?_⟩
  · rw [C87_poisson_form f nQ0 hm C hC, C87_poisson_form f nQ0 hm C hC, gradForm_symm, conDot_symm]
  · intro S hJ hw hr hrho x
    have hfac : ∀ c q, 0 < Spec.poissonFactor f c q := by
      intro c q
      unfold Spec.poissonFactor
      split_ifs
      · exact one_pos
      · positivity
      · cases hrr : f.rho with
        | none => simp only []; positivity
        | some rho => simp only []; have := hrho rho hrr c q; positivity
    have hg : ∀ c < S.nCell, ∀ q < S.nQ, 0 ≤ Spec.poissonFactor f c q *
        ∑ d ∈ range S.dim, S.gradient (C.dist Sp.nDof x) c q d * S.gradient (C.dist Sp.nDof x) c q d := fun c _ q _ =>
      mul_nonneg (hfac c q).le (sum_nonneg fun d _ => mul_self_nonneg _)
    have h1 : 0 ≤ Spec.gradForm S (Spec.poissonFactor f) (C.dist Sp.nDof x) (C.dist Sp.nDof x) :=
      integral_nonneg (fun c hc q hq => (hJ c hc q hq).le) hg
    have h2 : ∀ k ∈ range Sp.nDof, 0 ≤ (if (C.row k).isSome then x k * x k else 0) := fun k _ => by
      split_ifs
      · exact mul_self_nonneg _
      · exact le_rfl
    have h3 : 0 ≤ Spec.conDot C Sp.nDof x x := sum_nonneg h2
    rw [C87_poisson_form f nQ0 hm C hC]
    refine ⟨add_nonneg h1 h3, fun h0 => ⟨fun k hk hc => ?_, fun c hc q hq d hd => ?_⟩⟩
    · have : Spec.conDot C Sp.nDof x x = 0 := by linarith
      have := (sum_eq_zero_iff_of_nonneg h2).1 this k (mem_range.2 hk)
      rw [if_pos hc] at this
      exact mul_self_eq_zero.1 this
    · have : Spec.gradForm S (Spec.poissonFactor f) (C.dist Sp.nDof x) (C.dist Sp.nDof x) = 0 := by linarith
      have := (integral_eq_zero hJ hg).1 this c hc q hq
      rcases mul_eq_zero.1 this with h | h
      · exact absurd h (hfac c q).ne'
      · exact mul_self_eq_zero.1 ((sum_eq_zero_iff_of_nonneg fun d _ => mul_self_nonneg _).1 h d (mem_range.2 hd))

/-- unit vector -/
def Spec.unit (j k : ℕ) : K := if k = j then 1 else 0

omit [LinearOrder K] [IsStrictOrderedRing K] in
theorem dot_unit (n : ℕ) (x : ℕ → K) {k : ℕ} (hk : k < n) : Spec.dot n x (Spec.unit k) = x k := by
  unfold Spec.dot Spec.unit
  simp [hk]

/-- Constants are in the kernel: if the shape functions sum to one and the constraints keep constants, the product with a
constant vector is zero in all free entries. -/
theorem C87_poisson_kernel (f : Conf K) (nQ0 : ℕ) {Su Sp : Space K} (hm : Spec.SameMesh Su Sp) (C : Constr K) (hC : C.Closed)
    (hu : Su.Partition) (hp : Sp.Partition) (h1 : C.KeepsOne Sp.nDof) (a : K) {k : ℕ} (hk : k < Sp.nDof)
    (hf : (C.row k).isSome = false) :
    poissonVmult f nQ0 Su Sp C (fun _ => a) k = 0 := by
  rw [← dot_unit Sp.nDof (poissonVmult f nQ0 Su Sp C fun _ => a) hk, C87_poisson_form f nQ0 hm C hC]
  have hS : (Spec.poissonSpace f Su Sp).Partition := by
    unfold Spec.poissonSpace; split_ifs <;> assumption
  have e1 : Spec.gradForm (Spec.poissonSpace f Su Sp) (Spec.poissonFactor f) (C.dist Sp.nDof fun _ => a)
      (C.dist Sp.nDof (Spec.unit k)) = 0 := by
    have hd : C.dist Sp.nDof (fun _ => a) = fun _ => a := funext fun i => C.dist_const _ h1 a i
    rw [hd]
    unfold Spec.gradForm Space.integral
    refine sum_eq_zero fun c hc => sum_eq_zero fun q hq => ?_
    have : ∑ d ∈ range (Spec.poissonSpace f Su Sp).dim, (Spec.poissonSpace f Su Sp).gradient (fun _ => a) c q d *
        (Spec.poissonSpace f Su Sp).gradient (C.dist Sp.nDof (Spec.unit k)) c q d = 0 := sum_eq_zero fun d hd => by
      rw [Space.gradient_const _ hS a (mem_range.1 hc) (mem_range.1 hq) (mem_range.1 hd), zero_mul]
    change _ * _ * _ = (0 : K)
    rw [this, mul_zero, zero_mul]
  have e2 : Spec.conDot C Sp.nDof (fun _ => a) (Spec.unit k) = 0 := by
    unfold Spec.conDot Spec.unit
    refine sum_eq_zero fun i _ => ?_
    by_cases hi : i = k
    · subst hi; simp [hf]
    · simp [hi]
  rw [e1, e2, add_zero]

/-- **C87 (time step weight).** The matrix-free operator always uses the current time step weight, the assembled matrix the
one of its assembly. The two differ by a factor only: with weight `w'` instead of `w` the free rows are multiplied by `w/w'`
(and do not change in stationary problems). -/
theorem C87_weight_is_a_factor (f : Conf K) (nQ0 : ℕ) {Su Sp : Space K} (hm : Spec.SameMesh Su Sp) (C : Constr K)
    (hC : C.Closed) (w' : K) (hw : f.weight ≠ 0) (x : ℕ → K) {k : ℕ} (hk : k < Sp.nDof) (hf : (C.row k).isSome = false) :
    poissonVmult { f with weight := w' } nQ0 Su Sp C x k =
      (if f.stationary then 1 else f.weight / w') * poissonVmult f nQ0 Su Sp C x k := by
  rw [← dot_unit Sp.nDof (poissonVmult f nQ0 Su Sp C x) hk, ← dot_unit Sp.nDof (poissonVmult _ nQ0 Su Sp C x) hk,
    C87_poisson_form _ nQ0 hm C hC, C87_poisson_form _ nQ0 hm C hC]
  have e2 : Spec.conDot C Sp.nDof x (Spec.unit k) = 0 := by
    unfold Spec.conDot Spec.unit
    refine sum_eq_zero fun i _ => ?_
    by_cases hi : i = k
    · subst hi; simp [hf]
    · simp [hi]
  have e3 : Spec.poissonFactor { f with weight := w' } =
      fun c q => (if f.stationary then 1 else f.weight / w') * Spec.poissonFactor f c q := by
    funext c q
    obtain ⟨pr, st, rho0, drho, mu0, tau, w, rho, mu⟩ := f
    have hw' : w ≠ 0 := hw
    have key : ∀ r : K, 1 / (w' * r) = w / w' * (1 / (w * r)) := by
      intro r
      rw [div_mul_div_comm, mul_one, ← mul_assoc, mul_comm w' w, mul_assoc, ← div_div w w, div_self hw']
    cases st
    · cases pr
      · cases rho
        · exact key _
        · exact key _
      · exact key _
    · exact (one_mul _).symm
  have e4 : Spec.poissonSpace { f with weight := w' } Su Sp = Spec.poissonSpace f Su Sp := rfl
  rw [e2, add_zero, add_zero, e3, e4, gradForm_smul]

/-- **C87 (mass operator).** Without the second pressure mode the product with the pressure mass operator is
`∑ factor p v JxW` plus the identity on constrained degrees of freedom; it is symmetric and, for positive factors, positive
semi-definite. -/
theorem C87_mass_form (f : Conf K) (nQ0 : ℕ) (Sp : Space K) (C : Constr K) (hC : C.Closed) (x v : ℕ → K) :
    Spec.dot Sp.nDof (massVmult f nQ0 Sp C none x) v =
      Spec.valForm Sp (fun c _ => Spec.massFactor f nQ0 c) (C.dist Sp.nDof x) (C.dist Sp.nDof v) +
        Spec.conDot C Sp.nDof x v ∧
    Spec.dot Sp.nDof (massVmult f nQ0 Sp C none x) v = Spec.dot Sp.nDof (massVmult f nQ0 Sp C none v) x := by
  have key : ∀ x v, Spec.dot Sp.nDof (massVmult f nQ0 Sp C none x) v =
      Spec.valForm Sp (fun c _ => Spec.massFactor f nQ0 c) (C.dist Sp.nDof x) (C.dist Sp.nDof v) +
        Spec.conDot C Sp.nDof x v := by
    intro x v
    have e : localMass f nQ0 Sp (C.dist Sp.nDof x) =
        Sp.test (fun c q => Sp.value (C.dist Sp.nDof x) c q * Spec.massFactor f nQ0 c) fun _ _ _ => 0 := by
      unfold localMass Spec.massFactor
      cases f.mu <;> simp
    unfold massVmult
    dsimp only
    rw [finish_pair, e, val_pair _ C hC]
  refine ⟨key x v, ?_⟩
  rw [key, key, valForm_symm, conDot_symm]

/-- **C87 (mass operator, second mode).** With the second pressure mode of augmented Taylor-Hood elements the result of the
product has zero weighted sum (`inverse` being the inverse of the weighted sum of the mode), except in the projection
scheme. -/
theorem C87_mass_second_mode (f : Conf K) (nQ0 : ℕ) (Sp : Space K) (C : Constr K) (m : Mode1 K)
    (hm : (∑ k ∈ range Sp.nDof, m.weights k * m.mode k) * m.inverse = 1) (x : ℕ → K) :
    (f.projection = false → ∑ k ∈ range Sp.nDof, m.weights k * massVmult f nQ0 Sp C (some m) x k = 0) ∧
    (f.projection = true → massVmult f nQ0 Sp C (some m) x = massVmult f nQ0 Sp C none x) := by
  refine ⟨fun h => ?_, fun h => ?_⟩
  · unfold massVmult
    dsimp only
    rw [h]
    simp only [Bool.false_eq_true, if_false, mul_add, sum_add_distrib]
    set W := ∑ k ∈ range Sp.nDof, m.weights k *
      finish C x (C.scatter Sp.nDof (localMass f nQ0 Sp (C.dist Sp.nDof x))) k
    have : ∑ k ∈ range Sp.nDof, m.weights k * (-W * m.inverse * m.mode k) =
        -W * ((∑ k ∈ range Sp.nDof, m.weights k * m.mode k) * m.inverse) := by
      rw [sum_mul, mul_sum]
      exact sum_congr rfl fun k _ => by ring
    rw [this, hm]; ring
  · unfold massVmult
    simp [h]

omit [LinearOrder K] [IsStrictOrderedRing K] in
theorem foldl_update (l : List ℕ) (g : ℕ → K) (v : ℕ → K) (k : ℕ) :
    (l.foldl (fun v i => Function.update v i (g i)) v) k = if k ∈ l then g k else v k := by
  induction l generalizing v with
  | nil => simp
  | cons a l ih =>
    rw [List.foldl_cons, ih]
    by_cases h : k ∈ l
    · simp [h]
    · by_cases h2 : k = a
      · subst h2; simp [h]
      · simp [h, h2]

/-- **C87 (stationary preconditioner).** In stationary problems with constant viscosity `μ`, if the pressure Poisson problem
with the pinned degrees of freedom is solved exactly and both quadratures integrate the products of gradients exactly, the
right hand side handed to the mass solve is `μ` times the residual in all entries that are neither constrained nor pinned:
the Schur complement is approximated by the pressure mass matrix scaled with the viscosity. Pinned entries are passed on
unscaled. -/
theorem C87_stationary_scaling (f : Conf K) (nQ0 : ℕ) {Su Sp : Space K} (hm : Spec.SameMesh Su Sp) (C : Constr K)
    (hC : C.Closed) (hst : f.stationary = true) (hmu : f.mu = none) (hq : Spec.GradExact Su Sp) (pins : List ℕ)
    (phi t : ℕ → K) (hphi : ∀ i ∈ pins, phi i = 0)
    (hsolve : ∀ k < Sp.nDof, k ∉ pins → (C.row k).isSome = false → poissonVmult f nQ0 Su Sp C phi k = t k) :
    (∀ k < Sp.nDof, k ∉ pins → (C.row k).isSome = false → stationaryStep f Su C pins phi t k = f.viscosity * t k) ∧
    ∀ k ∈ pins, stationaryStep f Su C pins phi t k = t k := by
  have hz : pins.foldl (fun v i => Function.update v i 0) phi = phi := by
    funext k
    have := foldl_update pins (fun _ => 0) phi k
    rw [this]
    split_ifs with h
    · exact (hphi k h).symm
    · rfl
  refine ⟨fun k hk hp hf => ?_, fun k hp => ?_⟩
  · have e2 : Spec.conDot C Sp.nDof phi (Spec.unit k) = 0 := by
      unfold Spec.conDot Spec.unit
      refine sum_eq_zero fun i _ => ?_
      by_cases hi : i = k
      · subst hi; simp [hf]
      · simp [hi]
    unfold stationaryStep
    rw [foldl_update, if_neg hp, hz, ← hsolve k hk hp hf, ← dot_unit Sp.nDof (poissonVmult _ _ _ _ _ _) hk,
      C87_poisson_form f nQ0 hm C hC, e2, add_zero]
    have hfac : Spec.poissonFactor f = fun _ _ => 1 := by
      funext c q; unfold Spec.poissonFactor; rw [if_pos hst]
    have hsp : Spec.poissonSpace f Su Sp = Sp := by
      unfold Spec.poissonSpace; rw [if_neg]; rw [hst]; simp
    rw [hfac, hsp, ← hq, ← dot_unit Sp.nDof (convdiffVmult _ _ _ _) hk, ← hm.1]
    unfold convdiffVmult
    rw [finish_pair]
    have e : localConvdiff f Su (C.dist Su.nDof phi) = Su.test (fun _ _ => 0)
        fun c q d => Su.gradient (C.dist Su.nDof phi) c q d * (f.viscosity * 1) := by
      unfold localConvdiff
      simp [hmu]
    rw [e, grad_pair _ C hC, gradForm_smul Su f.viscosity (fun _ _ => 1)]
    rw [hm.1] at *
    rw [e2, add_zero]
  · unfold stationaryStep
    rw [foldl_update, if_pos hp]

/-- **C87 (projection step, velocity).** If `φ` solves the pressure Poisson problem of the projection scheme for the velocity
`u` (velocity values `u c q d`, divergence `div c q`), then the velocity `u - ∇φ/(w ρ)` is weakly divergence-free: it is
orthogonal to the gradients of all pressure functions satisfying the constraints, provided that integration by parts holds
for `u` against these functions (no flow through the boundary where they do not vanish) and the pressure quadrature is exact. -/
theorem C87_projected_velocity_divergence_free (f : Conf K) (nQ0 : ℕ) {Su Sp : Space K} (hm : Spec.SameMesh Su Sp)
    (C : Constr K) (hC : C.Closed) (hpr : f.projection = true) (hst : f.stationary = false) (hq : Spec.GradExact Su Sp)
    (u : ℕ → ℕ → ℕ → K) (div : ℕ → ℕ → K)
    (hgreen : ∀ v, Su.integral (fun c q => div c q * Su.value (C.dist Sp.nDof v) c q) =
      -Su.integral (fun c q => ∑ d ∈ range Su.dim, u c q d * Su.gradient (C.dist Sp.nDof v) c q d))
    (phi : ℕ → K)
    (hsolve : ∀ k < Sp.nDof, poissonVmult f nQ0 Su Sp C phi k = divergence f false Su C div k) (v : ℕ → K) :
    Su.integral (fun c q => ∑ d ∈ range Su.dim,
      (u c q d - 1 / (f.weight * Spec.smallDensity f) * Su.gradient (C.dist Sp.nDof phi) c q d) *
        Su.gradient (C.dist Sp.nDof v) c q d) = 0 := by
  have hfac : Spec.poissonFactor f = fun _ _ => 1 / (f.weight * Spec.smallDensity f) * 1 := by
    funext c q; unfold Spec.poissonFactor; rw [if_neg (by simp [hst]), if_pos hpr, mul_one]
  have hsp : Spec.poissonSpace f Su Sp = Sp := by
    unfold Spec.poissonSpace; rw [if_neg]; rw [hpr]; simp
  have hcon : Spec.conDot C Sp.nDof phi v = 0 := by
    unfold Spec.conDot
    refine sum_eq_zero fun k hk => ?_
    split_ifs with h
    · have := hsolve k (mem_range.1 hk)
      unfold poissonVmult finish divergence at this
      rw [if_pos h, C.scatter_con _ _ h] at this
      rw [this, mul_zero]
    · rfl
  have h1 := C87_poisson_form f nQ0 hm C hC phi v
  rw [hfac, hsp, gradForm_smul, ← hq, hcon, add_zero] at h1
  have h2 : Spec.dot Sp.nDof (poissonVmult f nQ0 Su Sp C phi) v =
      -Su.integral (fun c q => div c q * Su.value (C.dist Sp.nDof v) c q) := by
    have : Spec.dot Sp.nDof (poissonVmult f nQ0 Su Sp C phi) v = Spec.dot Sp.nDof (divergence f false Su C div) v := by
      unfold Spec.dot
      exact sum_congr rfl fun k hk => by rw [hsolve k (mem_range.1 hk)]
    rw [this]
    unfold Spec.dot divergence
    rw [← hm.1, Su.assembled_pair C hC, ← Su.integral_neg]
    refine Su.integral_congr fun c _ q _ => ?_
    simp
  rw [h1, hgreen, neg_neg] at h2
  have h3 : (fun c q => ∑ d ∈ range Su.dim,
      (u c q d - 1 / (f.weight * Spec.smallDensity f) * Su.gradient (C.dist Sp.nDof phi) c q d) *
        Su.gradient (C.dist Sp.nDof v) c q d) = fun c q =>
      (∑ d ∈ range Su.dim, u c q d * Su.gradient (C.dist Sp.nDof v) c q d) +
        -(1 / (f.weight * Spec.smallDensity f) *
          (1 * ∑ d ∈ range Su.dim, Su.gradient (C.dist Sp.nDof phi) c q d * Su.gradient (C.dist Sp.nDof v) c q d)) := by
    funext c q
    rw [one_mul, mul_sum, ← sum_neg_distrib, ← sum_add_distrib]
    exact sum_congr rfl fun d _ => by ring
  rw [h3, Su.integral_add, Su.integral_neg, Su.integral_smul, ← h2]
  unfold Spec.gradForm
  ring

/-- **C87 (projection step, rotational part).** In the projection scheme with constant viscosity the second part `ψ` of the
pressure update is the L2 projection of `-μ div u`: it has the same integrals against all pressure functions satisfying the
constraints. -/
theorem C87_rotational_update (f : Conf K) (nQ0 : ℕ) {Su Sp : Space K} (hm : Spec.SameMesh Su Sp) (C : Constr K)
    (hC : C.Closed) (hpr : f.projection = true) (hq : Spec.ValExact Su Sp) (m : Option (Mode1 K)) (div : ℕ → ℕ → K)
    (psi : ℕ → K) (hsolve : ∀ k < Sp.nDof, massVmult f nQ0 Sp C m psi k = divergence f true Su C div k) (v : ℕ → K) :
    Su.integral (fun c q => Su.value (C.dist Sp.nDof psi) c q * Su.value (C.dist Sp.nDof v) c q) =
      -f.viscosity * Su.integral (fun c q => div c q * Su.value (C.dist Sp.nDof v) c q) := by
  have hmode : massVmult f nQ0 Sp C m psi = massVmult f nQ0 Sp C none psi := by
    unfold massVmult; cases m <;> simp [hpr]
  rw [hmode] at hsolve
  have hfac : (fun c (_ : ℕ) => Spec.massFactor f nQ0 c) = fun _ _ => (1 : K) := by
    funext c q; unfold Spec.massFactor; rw [if_pos (Or.inl hpr)]
  have hcon : Spec.conDot C Sp.nDof psi v = 0 := by
    unfold Spec.conDot
    refine sum_eq_zero fun k hk => ?_
    split_ifs with h
    · have := hsolve k (mem_range.1 hk)
      unfold massVmult finish divergence at this
      dsimp only at this
      rw [if_pos h, C.scatter_con _ _ h] at this
      rw [this, mul_zero]
    · rfl
  have h1 := (C87_mass_form f nQ0 Sp C hC psi v).1
  rw [hfac, ← hq, hcon, add_zero] at h1
  have h2 : Spec.dot Sp.nDof (massVmult f nQ0 Sp C none psi) v =
      -f.viscosity * Su.integral (fun c q => div c q * Su.value (C.dist Sp.nDof v) c q) := by
    have : Spec.dot Sp.nDof (massVmult f nQ0 Sp C none psi) v = Spec.dot Sp.nDof (divergence f true Su C div) v := by
      unfold Spec.dot
      exact sum_congr rfl fun k hk => by rw [hsolve k (mem_range.1 hk)]
    rw [this]
    unfold Spec.dot divergence
    rw [← hm.1, Su.assembled_pair C hC, ← Su.integral_smul]
    refine Su.integral_congr fun c _ q _ => ?_
    simp only [zero_mul, sum_const_zero, add_zero, if_true]
    ring
  rw [← h2, h1]
  unfold Spec.valForm
  refine Su.integral_congr fun c _ q _ => ?_
  rw [one_mul]

/-! ### Comparison with the assembled matrices of the preconditioner -/

/-- no constraints -/
def noConstr : Constr K := ⟨fun _ => none⟩

/-- The coefficients the assembly of the preconditioner uses in a quadrature point of the velocity quadrature
(navier_stokes_preconditioner.cc:2194-2217); `use_variable_parameters` is true iff both vectors are filled. -/
noncomputable def assemblyPoint (f : Conf ℝ) (c q : ℕ) : Verif.Precond.PressurePoint where
  density := match (if f.projection then none else f.rho) with
    | some rho => rho c q
    | none => f.minDensity
  viscosity := match f.mu with
    | some mu => mu c q
    | none => f.viscosity
  tauGradDiv := f.tauGradDiv
  w := f.weight
  stationary := f.stationary
  projection := f.projection

section noconstr

omit [LinearOrder K] [IsStrictOrderedRing K]

theorem noConstr_closed : (noConstr : Constr K).Closed := by
  intro i c h; cases h

theorem noConstr_dist (n : ℕ) (x : ℕ → K) : (noConstr : Constr K).dist n x = x := rfl

theorem noConstr_con (n : ℕ) (x v : ℕ → K) : Spec.conDot noConstr n x v = 0 := by
  unfold Spec.conDot noConstr
  simp

theorem gradient_unit (S : Space K) {j : ℕ} (hj : j < S.nDof) (c q d : ℕ) :
    S.gradient (Spec.unit j) c q d = S.grad j c q d := by
  unfold Space.gradient Spec.unit
  simp [hj]

theorem value_unit (S : Space K) {j : ℕ} (hj : j < S.nDof) (c q : ℕ) : S.value (Spec.unit j) c q = S.val j c q := by
  unfold Space.value Spec.unit
  simp [hj]

end noconstr

/-- **C87 (same matrix, Poisson).** Without constraints the entries of the matrix-free Poisson operator are those of the matrix
assembled for the preconditioner with the same weight: without further assumptions if the density varies, and if both
quadratures are exact otherwise. -/
theorem C87_poisson_agrees_with_assembly (f : Conf ℝ) (nQ0 : ℕ) {Su Sp : Space ℝ} (hm : Spec.SameMesh Su Sp)
    (hJ : ∀ c < Su.nCell, ∀ q < Su.nQ, 0 ≤ Su.jxw c q) (hw : 0 < f.weight) (hr : 0 < Spec.smallDensity f)
    (hrho : ∀ rho, f.rho = some rho → ∀ c q, 0 < rho c q)
    (hex : (f.stationary = false ∧ f.projection = false ∧ f.rho.isSome) ∨ Spec.GradExact Su Sp)
    {i j : ℕ} (hi : i < Sp.nDof) (hj : j < Sp.nDof) :
    poissonVmult f nQ0 Su Sp noConstr (Spec.unit j) i =
      ∑ c ∈ range Su.nCell, ∑ q ∈ range Su.nQ, Verif.Precond.laplaceEntry Su.dim (assemblyPoint f c q) (Su.jxw c q)
        (fun d => Su.grad i c q d) (fun d => Su.grad j c q d) := by
  rw [← dot_unit Sp.nDof (poissonVmult _ _ _ _ _ _) hi, C87_poisson_form f nQ0 hm _ noConstr_closed, noConstr_con, add_zero,
    noConstr_dist, noConstr_dist]
  have hpos : ∀ c q, 0 < (assemblyPoint f c q).rhoWeight := by
    intro c q
    unfold Verif.Precond.PressurePoint.rhoWeight
    split_ifs with h
    · exact one_pos
    · refine mul_pos ?_ hw
      unfold assemblyPoint
      cases hp : f.projection <;> simp only [Bool.false_eq_true, if_false, if_true]
      · cases hrr : f.rho with
        | none => exact (minDensity_eq f).symm ▸ hr
        | some rho => exact hrho rho hrr c q
      · exact (minDensity_eq f).symm ▸ hr
  have hfac : ∀ c q, Spec.poissonFactor f c q = 1 / (assemblyPoint f c q).rhoWeight := by
    intro c q
    obtain ⟨pr, st, rho0, drho, mu0, tau, w, rho, mu⟩ := f
    cases pr <;> cases st <;> cases rho <;>
      simp [Spec.poissonFactor, assemblyPoint, Verif.Precond.PressurePoint.rhoWeight, minDensity_eq, mul_comm]
  have hrhs : (∑ c ∈ range Su.nCell, ∑ q ∈ range Su.nQ,
      Verif.Precond.laplaceEntry Su.dim (assemblyPoint f c q) (Su.jxw c q)
        (fun d => Su.grad i c q d) (fun d => Su.grad j c q d)) =
      Spec.gradForm Su (Spec.poissonFactor f) (Spec.unit j) (Spec.unit i) := by
    unfold Spec.gradForm Space.integral
    refine sum_congr rfl fun c hc => sum_congr rfl fun q hq => ?_
    have h1 := Real.mul_self_sqrt (div_nonneg (hJ c (mem_range.1 hc) q (mem_range.1 hq)) (hpos c q).le)
    unfold Verif.Precond.laplaceEntry
    dsimp only
    rw [hfac, mul_sum, sum_mul]
    refine sum_congr rfl fun d _ => ?_
    rw [gradient_unit Su (hm.1 ▸ hj), gradient_unit Su (hm.1 ▸ hi)]
    calc _ = (√(Su.jxw c q / (assemblyPoint f c q).rhoWeight) * √(Su.jxw c q / (assemblyPoint f c q).rhoWeight)) *
          (Su.grad i c q d * Su.grad j c q d) := by ring
      _ = _ := by rw [h1]; ring
  rw [hrhs]
  by_cases hv : f.stationary = false ∧ f.projection = false ∧ f.rho.isSome
  · rw [Spec.poissonSpace, if_pos hv]
  · rcases hex with h | h
    · exact absurd h hv
    · rw [Spec.poissonSpace, if_neg hv]
      -- the factor is constant
      obtain ⟨b, hb⟩ : ∃ b : ℝ, Spec.poissonFactor f = fun _ _ => b * 1 := by
        obtain ⟨pr, st, rho0, drho, mu0, tau, w, rho, mu⟩ := f
        cases st
        · cases pr
          · cases rho
            · exact ⟨_, funext fun _ => funext fun _ => (mul_one _).symm⟩
            · simp at hv
          · exact ⟨_, funext fun _ => funext fun _ => (mul_one _).symm⟩
        · exact ⟨1, funext fun _ => funext fun _ => (mul_one _).symm⟩
      rw [hb, gradForm_smul, gradForm_smul, h]

/-- **C87 (same matrix, mass).** The same for the pressure mass matrix, if the viscosity is constant on each cell and the
quadratures are exact on each cell. -/
theorem C87_mass_agrees_with_assembly (f : Conf ℝ) (nQ0 : ℕ) {Su Sp : Space ℝ} (hm : Spec.SameMesh Su Sp)
    (hJ : ∀ c < Su.nCell, ∀ q < Su.nQ, 0 ≤ Su.jxw c q) (hmu0 : 0 < f.viscosity) (ht : 0 ≤ f.tauGradDiv)
    (hmu : ∀ mu, f.mu = some mu → ∀ c q, 0 < mu c q ∧ mu c q = mu c (nQ0 / 2))
    (hex : ∀ (a : ℕ → ℝ) x v, Spec.valForm Su (fun c _ => a c) x v = Spec.valForm Sp (fun c _ => a c) x v)
    {i j : ℕ} (hi : i < Sp.nDof) (hj : j < Sp.nDof) :
    massVmult f nQ0 Sp noConstr none (Spec.unit j) i =
      ∑ c ∈ range Su.nCell, ∑ q ∈ range Su.nQ, Verif.Precond.massEntry (assemblyPoint f c q) (Su.jxw c q)
        (Su.val i c q) (Su.val j c q) := by
  rw [← dot_unit Sp.nDof (massVmult _ _ _ _ _ _) hi, (C87_mass_form f nQ0 Sp _ noConstr_closed _ _).1, noConstr_con, add_zero,
    noConstr_dist, noConstr_dist, ← hex]
  have hpos : ∀ c q, 0 < (assemblyPoint f c q).nu := by
    intro c q
    unfold Verif.Precond.PressurePoint.nu
    split_ifs with h
    · exact one_pos
    · refine add_pos_of_pos_of_nonneg ?_ ht
      unfold assemblyPoint
      cases hmm : f.mu with
      | none => exact hmu0
      | some mu => exact (hmu mu hmm c q).1
  have hfac : ∀ c q, Spec.massFactor f nQ0 c = 1 / (assemblyPoint f c q).nu := by
    intro c q
    obtain ⟨pr, st, rho0, drho, mu0, tau, w, rho, mu⟩ := f
    cases mu with
    | none =>
      cases pr <;> cases st <;> simp [Spec.massFactor, assemblyPoint, Verif.Precond.PressurePoint.nu]
    | some mu =>
      have := (hmu mu rfl c q).2
      cases pr <;> cases st <;> simp [Spec.massFactor, assemblyPoint, Verif.Precond.PressurePoint.nu, this]
  unfold Spec.valForm Space.integral
  refine sum_congr rfl fun c hc => sum_congr rfl fun q hq => ?_
  have h1 := Real.mul_self_sqrt (div_nonneg (hJ c (mem_range.1 hc) q (mem_range.1 hq)) (hpos c q).le)
  unfold Verif.Precond.massEntry
  dsimp only
  rw [value_unit Su (hm.1 ▸ hj), value_unit Su (hm.1 ▸ hi), hfac c q]
  calc _ = Su.jxw c q / (assemblyPoint f c q).nu * (Su.val i c q * Su.val j c q) := by ring
    _ = (√(Su.jxw c q / (assemblyPoint f c q).nu) * √(Su.jxw c q / (assemblyPoint f c q).nu)) *
        (Su.val i c q * Su.val j c q) := by rw [h1]
    _ = _ := by ring

/-! ### Concrete cases -/

namespace Example

/-- Two linear elements on `[0,2]`, three nodes; with `nQ` the two-point rule with points at `1/4`, `3/4` (not exact for the
mass matrix but for the products of gradients) or the mid point rule. -/
def S (two : Bool) : Space ℚ where
  dim := 1
  nDof := 3
  nCell := 2
  nQ := if two then 2 else 1
  val := fun i c q => if i = c then 1 - (if two then (if q = 0 then 1 / 4 else 3 / 4) else 1 / 2)
    else if i = c + 1 then (if two then (if q = 0 then 1 / 4 else 3 / 4) else 1 / 2) else 0
  grad := fun i c _ _ => if i = c then -1 else if i = c + 1 then 1 else 0
  jxw := fun _ _ => if two then 1 / 2 else 1

/-- last node fixed (homogeneous Dirichlet) -/
def C : Constr ℚ := ⟨fun i => if i = 2 then some fun _ => 0 else none⟩

/-- two-phase flow, density `2` in the first and `4` in the second cell, viscosity varying in each cell -/
def f : Conf ℚ where
  projection := false
  stationary := false
  density := 2
  densityDiff := 2
  viscosity := 1
  tauGradDiv := 0
  weight := 10
  rho := some fun c _ => if c = 0 then 2 else 4
  mu := some fun _ q => if q = 0 then 1 else 3

theorem same : Spec.SameMesh (S true) (S false) := ⟨rfl, rfl, rfl⟩

theorem closed : C.Closed := by
  intro i c h k _
  unfold C at h
  dsimp only at h
  split_ifs at h
  cases h
  rfl

theorem partition_ (b : Bool) : (S b).Partition := by
  refine ⟨?_, ?_⟩ <;> (cases b <;> (unfold S; simp only [] ; decide +kernel))

/-- the free rows of the product with `(1, 3, 7)`: `-(3-1)/20`, `(3-1)/20 + 3/40` (node 2 counts as zero), and the constrained
entry is kept -/
example : (poissonVmult f 2 (S true) (S false) C (fun k => [1, 3, 7].getD k 0) 0,
    poissonVmult f 2 (S true) (S false) C (fun k => [1, 3, 7].getD k 0) 1,
    poissonVmult f 2 (S true) (S false) C (fun k => [1, 3, 7].getD k 0) 2) = (-1 / 10, 7 / 40, 7) := by decide +kernel

/-- FINDING: the matrix-free mass operator takes the viscosity in the middle point of the velocity quadrature for the whole
cell, the assembled mass matrix in every point: with a viscosity varying in the cell they are different matrices, even with
the same quadrature. -/
theorem C87_mass_is_not_the_assembled_one :
    massVmult f 2 (S true) noConstr none (Spec.unit 0) 0 ≠
      Spec.valForm (S true) (fun _ q => 1 / ((if q = 0 then 1 else 3) + 0)) (Spec.unit 0) (Spec.unit 0) := by decide +kernel

/-- both rules integrate the products of the (piecewise constant) gradients exactly -/
theorem gradExact : Spec.GradExact (S true) (S false) := by
  intro x v
  simp [Spec.gradForm, Space.integral, Space.gradient, S, sum_range_succ]
  ring

/-- constants without constraints -/
example : poissonVmult f 2 (S true) (S false) noConstr (fun _ => 5) 1 = 0 :=
  C87_poisson_kernel f 2 same noConstr noConstr_closed (partition_ true) (partition_ false) (by intro i c h; cases h) 5
    (by decide) rfl

/-- the energy of `(1, 3, 7)` -/
example : 0 < Spec.dot 3 (poissonVmult f 2 (S true) (S false) C fun k => [1, 3, 7].getD k 0)
    (fun k => [1, 3, 7].getD k 0) := by decide +kernel

/-- doubling the weight halves the free rows -/
example : poissonVmult { f with weight := 20 } 2 (S true) (S false) C (fun k => [1, 3, 7].getD k 0) 0 =
    1 / 2 * poissonVmult f 2 (S true) (S false) C (fun k => [1, 3, 7].getD k 0) 0 := by
  rw [C87_weight_is_a_factor f 2 same C closed 20 (by decide +kernel) _ (by decide) rfl]
  norm_num [f]

/-- stationary flow with viscosity `5`, node 0 pinned -/
def fs : Conf ℚ := { f with stationary := true, rho := none, mu := none, viscosity := 5 }

/-- the hypotheses of the stationary theorem are met with the residual `t = (9, 2, 0)`: `φ = (0, 1, ·)` -/
example : stationaryStep fs (S true) C [0] (fun k => [0, 1, 0].getD k 0) (fun k => [9, 2, 0].getD k 0) 1 = 5 * 2 ∧
    stationaryStep fs (S true) C [0] (fun k => [0, 1, 0].getD k 0) (fun k => [9, 2, 0].getD k 0) 0 = 9 := by
  have h := C87_stationary_scaling fs 2 same C closed rfl rfl gradExact [0] (fun k => [0, 1, 0].getD k 0)
    (fun k => [9, 2, 0].getD k 0) (by decide +kernel)
    (by
      intro k hk hp hc
      have : k = 0 ∨ k = 1 ∨ k = 2 := by change k < 3 at hk; omega
      rcases this with h | h | h <;> subst h
      · simp at hp
      · decide +kernel
      · cases hc)
  exact ⟨h.1 1 (by decide) (by decide) rfl, h.2 0 (by decide)⟩

/-- projection scheme -/
def fp : Conf ℚ := { f with projection := true, rho := none, mu := none, viscosity := 5 }

/-- The velocity `u(x) = x` (divergence one, no flow through `x = 0`; test functions vanish in `x = 2`) satisfies the discrete
Green's formula, and `φ = (-40, -30, 0)` solves the Poisson problem: the hypotheses of the projection theorem are met. -/
example : (S true).integral (fun c q => ∑ d ∈ range (S true).dim,
      (((c : ℚ) + if q = 0 then 1 / 4 else 3 / 4) - 1 / (fp.weight * Spec.smallDensity fp) *
        (S true).gradient (C.dist 3 fun k => [-40, -30, 0].getD k 0) c q d) *
        (S true).gradient (C.dist 3 (fun k => [1, 3, 7].getD k 0)) c q d) = 0 := by
  refine C87_projected_velocity_divergence_free fp 2 same C closed rfl rfl gradExact
    (fun c q _ => (c : ℚ) + if q = 0 then 1 / 4 else 3 / 4) (fun _ _ => 1) ?_ (fun k => [-40, -30, 0].getD k 0) ?_ _
  · intro v
    simp [Space.integral, Space.gradient, Space.value, S, sum_range_succ, Constr.dist, C]
    ring
  · intro k hk
    have : k = 0 ∨ k = 1 ∨ k = 2 := by change k < 3 at hk; omega
    rcases this with h | h | h <;> subst h <;> decide +kernel

/-- and `ψ = (-160/41, -280/41, 0)` solves the mass problem of the rotational part -/
example : (S true).integral (fun c q => (S true).value (C.dist 3 fun k => [-160 / 41, -280 / 41, 0].getD k 0) c q *
      (S true).value (C.dist 3 (fun k => [1, 3, 7].getD k 0)) c q) =
    -5 * (S true).integral (fun c q => 1 * (S true).value (C.dist 3 (fun k => [1, 3, 7].getD k 0)) c q) := by
  refine C87_rotational_update fp 2 (Su := S true) (Sp := S true) ⟨rfl, rfl, rfl⟩ C closed rfl (fun _ _ => rfl) none
    (fun _ _ => 1) (fun k => [-160 / 41, -280 / 41, 0].getD k 0) ?_ _
  intro k hk
  have : k = 0 ∨ k = 1 ∨ k = 2 := by change k < 3 at hk; omega
  rcases this with h | h | h <;> subst h <;> decide +kernel

/-- the second mode: weights with sum one against the mode `(1, 1, 1)` -/
def m1 : Mode1 ℚ := ⟨fun _ => 1, fun k => if k = 1 then 1 / 2 else 1 / 4, 1⟩

example : (∑ k ∈ range 3, m1.weights k * massVmult f 2 (S true) C (some m1) (fun k => [1, 3, 7].getD k 0) k = 0) ∧
    massVmult f 2 (S true) C (some m1) (fun k => [1, 3, 7].getD k 0) 0 ≠
      massVmult f 2 (S true) C none (fun k => [1, 3, 7].getD k 0) 0 :=
  ⟨(C87_mass_second_mode f 2 (S true) C m1 (by decide +kernel) _).1 rfl, by decide +kernel⟩

end Example

end Verif.Operator.PressureOps
