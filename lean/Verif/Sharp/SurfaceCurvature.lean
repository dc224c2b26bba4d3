import Mathlib.Algebra.BigOperators.Fin
import Mathlib.Algebra.Order.Field.Basic
import Mathlib.Algebra.Order.Ring.Rat
import Mathlib.LinearAlgebra.Matrix.NonsingularInverse
import Mathlib.LinearAlgebra.Matrix.Trace
import Mathlib.Analysis.Calculus.Deriv.Add
import Mathlib.Analysis.Calculus.Deriv.Mul
import Mathlib.Analysis.Calculus.Deriv.Inv
import Mathlib.Analysis.SpecialFunctions.Sqrt
import Mathlib.Algebra.BigOperators.Field
import Mathlib.Tactic.IntervalCases
import Mathlib.Tactic.Ring
import Mathlib.Tactic.Linarith
import Mathlib.Tactic.FieldSimp
import Mathlib.Tactic.FinCases
import Mathlib.Tactic.NormNum

/-!
# C96: normals and curvature of the surface mesh in the front tracking solver
(include/adaflo/sharp_interface_util.h: compute_normal 443-478, compute_curvature 485-533;
include/adaflo/sharp_interface.h: FrontTrackingSolver 503-537, update_surface_tension 673-700)

A surface cell of dimension `d` in a space of dimension `s`; `n` nodes per cell, reference points of any type `R`. Exact
arithmetic. `FEValues` and the numbering of `FE_Q` and `QGaussLobatto` are those documented by deal.II.
-/

set_option linter.unusedSectionVars false

namespace Verif.Sharp

open Finset Matrix

variable {K : Type*} [Field K] {ι R C : Type*} [DecidableEq ι] {d s n : ℕ}

/-! ### Model -/

/-- Finite element space on the surface mesh: global node numbers of a cell (`get_dof_indices`; the `s` components share
them), derivatives of the shape functions on the reference cell. -/
structure SurfFE (K ι R C : Type*) (d n : ℕ) where
  dof : C → Fin n → ι
  dψ : R → Fin n → Fin d → K

/-- Jacobian of the mapping given by nodal positions `X` (`MappingFEField`, sharp_interface.h:528-529). -/
def SurfFE.jac (S : SurfFE K ι R C d n) (X : ι → Fin s → K) (c : C) (q : R) : Matrix (Fin s) (Fin d) K :=
  fun e j => ∑ i, X (S.dof c i) e * S.dψ q i j

/-- `get_function_gradients` of the vector field with nodal values `N` on a surface (sharp_interface_util.h:517): row `c` is
`J (Jᵀ J)⁻¹ ∇̂ n_c`. -/
noncomputable def SurfFE.gradient (S : SurfFE K ι R C d n) (X N : ι → Fin s → K) (c : C) (q : R) : Matrix (Fin s) (Fin s) K :=
  fun comp e => ∑ i, ∑ j, S.jac X c q e i * ((S.jac X c q)ᵀ * S.jac X c q)⁻¹ i j * S.jac N c q comp j

/-- Sum of the diagonal of the gradients, lines 521-524. -/
noncomputable def SurfFE.curvatureAt (S : SurfFE K ι R C d n) (X N : ι → Fin s → K) (c : C) (q : R) : K :=
  ∑ e, S.gradient X N c q e e

/-- `cell->set_dof_values(temp, vector)` (lines 476, 531): writes the `n` local values, entry by entry. -/
def SurfFE.setDofValues {V : Type*} (S : SurfFE K ι R C d n) (c : C) (temp : Fin n → V) (v : ι → V) : ι → V :=
  (List.finRange n).foldl (fun v i => Function.update v (S.dof c i) (temp i)) v

/-- `compute_normal`, lines 456-477: at the support points `supp`; `normal` is `fe_eval_dim.normal_vector`. -/
def SurfFE.computeNormal {V : Type*} (S : SurfFE K ι R C d n) (supp : Fin n → R) (normal : C → R → V) (cells : List C)
    (v : ι → V) : ι → V :=
  cells.foldl (fun v c => S.setDofValues c (fun i => normal c (supp i)) v) v

/-- `compute_curvature`, lines 503-532: at the points of the quadrature formula `quad`. -/
noncomputable def SurfFE.computeCurvature (S : SurfFE K ι R C d n) (quad : Fin n → R) (X N : ι → Fin s → K) (cells : List C)
    (v : ι → K) : ι → K :=
  cells.foldl (fun v c => S.setDofValues c (fun i => S.curvatureAt X N c (quad i)) v) v

/-- Support points of `FE_Q<1>(k)`: first the two vertices, then the interior points, taken from the `k+1` Gauss–Lobatto points
`lob` in ascending order. -/
def feqSupport (k : ℕ) (lob : ℕ → R) (i : ℕ) : R := if i = 0 then lob 0 else if i = 1 then lob k else lob (i - 1)

/-- Points of `QGaussLobatto<1>(k+1)` (sharp_interface.h:685): in ascending order. -/
def lobattoPoint (lob : ℕ → R) (i : ℕ) : R := lob i

/-! ### Specification -/

namespace Spec

/-- Curvature of a plane curve with velocity `(a, b)` and acceleration `(a', b')`: rate of turning per length. -/
noncomputable def curvature (a b a' b' : ℝ) : ℝ := (a * b' - b * a') / Real.sqrt (a ^ 2 + b ^ 2) ^ 3

/-- A basis of degree `k` on the unit interval differentiates the polynomials `1`, `ξ`, `ξ²` exactly from their values in the
support points. -/
structure Differentiates (n : ℕ) (node : Fin n → K) (D : K → Fin n → K) : Prop where
  one : ∀ ξ, ∑ i, D ξ i = 0
  lin : ∀ ξ, ∑ i, node i * D ξ i = 1
  quad : ∀ ξ, ∑ i, node i ^ 2 * D ξ i = 2 * ξ

end Spec

/-! ### Proofs -/

theorem setDofValues_foldl {V : Type*} (S : SurfFE K ι R C d n) (c : C) (temp : Fin n → V) (l : List (Fin n)) (v : ι → V) (x : ι) :
    (∃ i ∈ l, S.dof c i = x ∧ l.foldl (fun v i => Function.update v (S.dof c i) (temp i)) v x = temp i) ∨
    ((∀ i ∈ l, S.dof c i ≠ x) ∧ l.foldl (fun v i => Function.update v (S.dof c i) (temp i)) v x = v x) := by
  induction l using List.reverseRecOn with
  | nil => right; exact ⟨fun i hi => (by cases hi), rfl⟩
  | append_singleton l a ih =>
    rw [List.foldl_append, List.foldl_cons, List.foldl_nil]
    by_cases hx : x = S.dof c a
    · left
      exact ⟨a, List.mem_append_right _ (List.mem_singleton.2 rfl), hx.symm, by rw [hx, Function.update_self]⟩
    · rw [Function.update_of_ne hx]
      rcases ih with ⟨i, hi, h1, h2⟩ | ⟨h1, h2⟩
      · left; exact ⟨i, List.mem_append_left _ hi, h1, h2⟩
      · right
        refine ⟨fun i hi => ?_, h2⟩
        rcases List.mem_append.1 hi with hi | hi
        · exact h1 i hi
        · rw [List.mem_singleton.1 hi]; exact fun h => hx h.symm

theorem setDofValues_cases {V : Type*} (S : SurfFE K ι R C d n) (c : C) (temp : Fin n → V) (v : ι → V) (x : ι) :
    (∃ i, S.dof c i = x ∧ S.setDofValues c temp v x = temp i) ∨
    ((∀ i, S.dof c i ≠ x) ∧ S.setDofValues c temp v x = v x) := by
  rcases setDofValues_foldl S c temp (List.finRange n) v x with ⟨i, _, h1, h2⟩ | ⟨h1, h2⟩
  · exact .inl ⟨i, h1, h2⟩
  · exact .inr ⟨fun i => h1 i (List.mem_finRange i), h2⟩

theorem loop_cases {V : Type*} (S : SurfFE K ι R C d n) (temp : C → Fin n → V) (cells : List C) (v : ι → V) (x : ι) :
    (∃ c ∈ cells, ∃ i, S.dof c i = x ∧ cells.foldl (fun v c => S.setDofValues c (temp c) v) v x = temp c i) ∨
    ((∀ c ∈ cells, ∀ i, S.dof c i ≠ x) ∧ cells.foldl (fun v c => S.setDofValues c (temp c) v) v x = v x) := by
  induction cells using List.reverseRecOn with
  | nil => right; exact ⟨fun c hc => (by cases hc), rfl⟩
  | append_singleton l c ih =>
    rw [List.foldl_append, List.foldl_cons, List.foldl_nil]
    rcases setDofValues_cases S c (temp c) (l.foldl (fun v c => S.setDofValues c (temp c) v) v) x with ⟨i, h1, h2⟩ | ⟨h1, h2⟩
    · left
      exact ⟨c, List.mem_append_right _ (List.mem_singleton.2 rfl), i, h1, h2⟩
    · rw [h2]
      rcases ih with ⟨c', hc', i, h3, h4⟩ | ⟨h3, h4⟩
      · left; exact ⟨c', List.mem_append_left _ hc', i, h3, h4⟩
      · right
        refine ⟨fun c' hc' => ?_, h4⟩
        rcases List.mem_append.1 hc' with hc' | hc'
        · exact h3 c' hc'
        · rw [List.mem_singleton.1 hc']; exact h1

/-- values written at a node agree: the result is that value -/
theorem loop_value {V : Type*} (S : SurfFE K ι R C d n) (temp : C → Fin n → V) (cells : List C) (v : ι → V) (x : ι) (y : V)
    (hex : ∃ c ∈ cells, ∃ i, S.dof c i = x) (hall : ∀ c ∈ cells, ∀ i, S.dof c i = x → temp c i = y) :
    cells.foldl (fun v c => S.setDofValues c (temp c) v) v x = y := by
  rcases loop_cases S temp cells v x with ⟨c, hc, i, h1, h2⟩ | ⟨h1, _⟩
  · rw [h2]; exact hall c hc i h1
  · obtain ⟨c, hc, i, h⟩ := hex
    exact absurd h (h1 c hc i)

theorem curvatureAt_eq (S : SurfFE K ι R C d n) (X N : ι → Fin s → K) (c : C) (q : R) :
    S.curvatureAt X N c q = (((S.jac X c q)ᵀ * S.jac X c q)⁻¹ * ((S.jac N c q)ᵀ * S.jac X c q)).trace := by
  unfold SurfFE.curvatureAt SurfFE.gradient
  simp only [Matrix.trace, Matrix.diag, Matrix.mul_apply, Matrix.transpose_apply]
  rw [sum_comm]
  refine sum_congr rfl fun i _ => ?_
  rw [sum_comm]
  refine sum_congr rfl fun j _ => ?_
  rw [mul_sum]
  refine sum_congr rfl fun e _ => ?_
  ring

/-- **C96 (normals).** At every node the stored normal is the normal of one of the cells at that node, at the support point of
that node; where all cells at the node agree it is their common normal, whatever the order of the cells. -/
theorem C96_nodal_normals {V : Type*} (S : SurfFE K ι R C d n) (supp : Fin n → R) (normal : C → R → V) (cells : List C)
    (v : ι → V) (x : ι) (hex : ∃ c ∈ cells, ∃ i, S.dof c i = x) :
    (∃ c ∈ cells, ∃ i, S.dof c i = x ∧ S.computeNormal supp normal cells v x = normal c (supp i)) ∧
    (∀ y, (∀ c ∈ cells, ∀ i, S.dof c i = x → normal c (supp i) = y) → S.computeNormal supp normal cells v x = y) := by
  constructor
  · rcases loop_cases S (fun c i => normal c (supp i)) cells v x with h | ⟨h1, _⟩
    · exact h
    · obtain ⟨c, hc, i, h⟩ := hex
      exact absurd h (h1 c hc i)
  · intro y hy
    exact loop_value S (fun c i => normal c (supp i)) cells v x y hex hy

theorem jac_apply (S : SurfFE K ι R C d n) (X : ι → Fin s → K) (c : C) (q : R) (e : Fin s) (j : Fin d) :
    S.jac X c q e j = ∑ i, X (S.dof c i) e * S.dψ q i j := rfl

theorem jac_affine (S : SurfFE K ι R C d n) (X : ι → Fin s → K) (a : K) (b : Fin s → K) (c : C) (q : R)
    (hsum : ∀ j, ∑ i, S.dψ q i j = 0) :
    S.jac (fun x e => a * (X x e - b e)) c q = a • S.jac X c q := by
  ext e j
  rw [Matrix.smul_apply, smul_eq_mul, jac_apply, jac_apply, mul_sum]
  have h1 : ∀ i, a * (X (S.dof c i) e - b e) * S.dψ q i j = a * (X (S.dof c i) e * S.dψ q i j) - a * b e * S.dψ q i j := by
    intro i; ring
  simp only [h1]
  rw [sum_sub_distrib, ← mul_sum, ← mul_sum, hsum j, mul_zero, sub_zero, mul_sum]

/-- The derivatives of the shape functions sum up to zero (they represent constants). -/
def Spec.ConstantsExact (S : SurfFE K ι R C d n) : Prop := ∀ q j, ∑ i, S.dψ q i j = 0

/-- **C96 (sphere).** If the nodal normals are the directions `(x - x₀) / r` from a centre, every node of the mesh gets the
curvature `d / r` exactly: for all degrees, all positions and shapes of the cells (also distorted ones), all quadrature points
and orders of cells. `d` is the dimension of the surface: `1 / r` for circles, `2 / r` for spheres. -/
theorem C96_sphere (S : SurfFE K ι R C d n) (hS : Spec.ConstantsExact S) (quad : Fin n → R) (X N : ι → Fin s → K) (r : K)
    (x0 : Fin s → K) (hN : ∀ x e, N x e = (X x e - x0 e) / r) (cells : List C)
    (hreg : ∀ c ∈ cells, ∀ i, ((S.jac X c (quad i))ᵀ * S.jac X c (quad i)).det ≠ 0) (v : ι → K) (x : ι)
    (hex : ∃ c ∈ cells, ∃ i, S.dof c i = x) : S.computeCurvature quad X N cells v x = d / r := by
  refine loop_value S (fun c i => S.curvatureAt X N c (quad i)) cells v x _ hex fun c hc i _ => ?_
  rw [curvatureAt_eq]
  have hNj : S.jac N c (quad i) = (1 / r) • S.jac X c (quad i) := by
    have : N = fun x e => (1 / r) * (X x e - x0 e) := by
      funext x e; rw [hN]; ring
    rw [this]
    exact jac_affine S X (1 / r) x0 c (quad i) (hS (quad i))
  rw [hNj, Matrix.transpose_smul, Matrix.smul_mul, Matrix.mul_smul, Matrix.nonsing_inv_mul _ (isUnit_iff_ne_zero.2 (hreg c hc i)),
    Matrix.trace_smul, Matrix.trace_one, Fintype.card_fin, smul_eq_mul]
  ring

/-- **C96 (flat).** Where all nodal normals are the same vector, the curvature is zero at all nodes, hence there is no surface
tension. -/
theorem C96_flat (S : SurfFE K ι R C d n) (hS : Spec.ConstantsExact S) (quad : Fin n → R) (X N : ι → Fin s → K) (n0 : Fin s → K)
    (hN : ∀ x, N x = n0) (cells : List C) (v : ι → K) (x : ι) (hex : ∃ c ∈ cells, ∃ i, S.dof c i = x) :
    S.computeCurvature quad X N cells v x = 0 := by
  refine loop_value S (fun c i => S.curvatureAt X N c (quad i)) cells v x _ hex fun c _ i _ => ?_
  rw [curvatureAt_eq]
  have hNj : S.jac N c (quad i) = 0 := by
    ext e j
    unfold SurfFE.jac
    simp only [hN]
    rw [← mul_sum, hS, mul_zero]; rfl
  rw [hNj, Matrix.transpose_zero, Matrix.zero_mul, Matrix.mul_zero, Matrix.trace_zero]

theorem computeCurvature_congr (S : SurfFE K ι R C d n) (quad : Fin n → R) (X N X' N' : ι → Fin s → K) (f : K → K)
    (h : ∀ c q, S.curvatureAt X' N' c q = f (S.curvatureAt X N c q)) (cells : List C) (v : ι → K) (x : ι)
    (hex : ∃ c ∈ cells, ∃ i, S.dof c i = x) :
    S.computeCurvature quad X' N' cells v x = f (S.computeCurvature quad X N cells v x) := by
  unfold SurfFE.computeCurvature
  induction cells using List.reverseRecOn with
  | nil => obtain ⟨c, hc, _⟩ := hex; cases hc
  | append_singleton l c ih =>
    rw [List.foldl_append, List.foldl_append, List.foldl_cons, List.foldl_nil, List.foldl_cons, List.foldl_nil]
    have hgen : ∀ (w w' : ι → K), (w' x = f (w x) ∨ ∃ i, S.dof c i = x) →
        S.setDofValues c (fun i => S.curvatureAt X' N' c (quad i)) w' x
          = f (S.setDofValues c (fun i => S.curvatureAt X N c (quad i)) w x) := by
      intro w w' hw
      unfold SurfFE.setDofValues
      have key : ∀ m : List (Fin n), (w' x = f (w x) ∨ ∃ i ∈ m, S.dof c i = x) →
          m.foldl (fun v i => Function.update v (S.dof c i) (S.curvatureAt X' N' c (quad i))) w' x
            = f (m.foldl (fun v i => Function.update v (S.dof c i) (S.curvatureAt X N c (quad i))) w x) := by
        intro m
        induction m using List.reverseRecOn with
        | nil =>
          rintro (hm | ⟨i, hi, _⟩)
          · exact hm
          · cases hi
        | append_singleton m a ihm =>
          intro hm
          rw [List.foldl_append, List.foldl_append, List.foldl_cons, List.foldl_nil, List.foldl_cons, List.foldl_nil]
          by_cases hx : x = S.dof c a
          · rw [hx, Function.update_self, Function.update_self]; exact h c (quad a)
          · rw [Function.update_of_ne hx, Function.update_of_ne hx]
            apply ihm
            rcases hm with hm | ⟨i, hi, hdx⟩
            · exact .inl hm
            · rcases List.mem_append.1 hi with hi | hi
              · exact .inr ⟨i, hi, hdx⟩
              · rw [List.mem_singleton.1 hi] at hdx; exact absurd hdx.symm hx
      apply key
      rcases hw with hw | ⟨i, hi⟩
      · exact .inl hw
      · exact .inr ⟨i, List.mem_finRange i, hi⟩
    apply hgen
    by_cases hc : ∃ i, S.dof c i = x
    · exact .inr hc
    · left
      apply ih
      obtain ⟨c', hc', i, hi⟩ := hex
      rcases List.mem_append.1 hc' with hc' | hc'
      · exact ⟨c', hc', i, hi⟩
      · rw [List.mem_singleton.1 hc'] at hi; exact absurd ⟨i, hi⟩ hc

/-- **C96 (motion).** Moving the interface rigidly (rotation or reflection `Q` and translation `b` of the nodes, the normals
turning along) does not change the computed curvature; reversing the normals reverses its sign; enlarging the interface by a
factor `a` divides it by `a`. -/
theorem C96_motion (S : SurfFE K ι R C d n) (hS : Spec.ConstantsExact S) (quad : Fin n → R) (X N : ι → Fin s → K)
    (Q : Matrix (Fin s) (Fin s) K) (hQ : Qᵀ * Q = 1) (b : Fin s → K) (a : K) (ha : a ≠ 0) (cells : List C) (v : ι → K) (x : ι)
    (hex : ∃ c ∈ cells, ∃ i, S.dof c i = x) :
    S.computeCurvature quad (fun y e => (Q.mulVec (X y)) e - b e) (fun y => Q.mulVec (N y)) cells v x
      = S.computeCurvature quad X N cells v x ∧
    S.computeCurvature quad X (fun y e => - N y e) cells v x = - S.computeCurvature quad X N cells v x ∧
    S.computeCurvature quad (fun y e => a * X y e) N cells v x = (S.computeCurvature quad X N cells v x) / a := by
  have hrot : ∀ (Y : ι → Fin s → K) c q, S.jac (fun y => Q.mulVec (Y y)) c q = Q * S.jac Y c q := by
    intro Y c q
    ext e j
    rw [jac_apply, Matrix.mul_apply]
    simp only [jac_apply, Matrix.mulVec, dotProduct, sum_mul, mul_sum]
    rw [sum_comm]
    refine sum_congr rfl fun i _ => sum_congr rfl fun k _ => ?_
    ring
  have htrans : ∀ c q, S.jac (fun y e => (Q.mulVec (X y)) e - b e) c q = Q * S.jac X c q := by
    intro c q
    rw [← hrot X c q]
    have h1 := jac_affine S (fun y => Q.mulVec (X y)) 1 b c q (hS q)
    rw [one_smul] at h1
    rw [← h1]
    congr 1
    funext y e
    rw [one_mul]
  refine ⟨?_, ?_, ?_⟩
  · refine computeCurvature_congr S quad X N _ _ id ?_ cells v x hex
    intro c q
    rw [curvatureAt_eq, curvatureAt_eq, htrans, hrot N c q, Matrix.transpose_mul, Matrix.transpose_mul]
    have h2 : ∀ A B : Matrix (Fin s) (Fin d) K, Aᵀ * Qᵀ * (Q * B) = Aᵀ * B := by
      intro A B
      rw [Matrix.mul_assoc, ← Matrix.mul_assoc Qᵀ, hQ, Matrix.one_mul]
    rw [h2, h2]; rfl
  · refine computeCurvature_congr S quad X N _ _ (fun t => -t) ?_ cells v x hex
    intro c q
    rw [curvatureAt_eq, curvatureAt_eq]
    have h1 : S.jac (fun y e => - N y e) c q = - S.jac N c q := by
      ext e j
      unfold SurfFE.jac
      simp only [neg_mul, sum_neg_distrib]; rfl
    rw [h1, Matrix.transpose_neg, Matrix.neg_mul, Matrix.mul_neg, Matrix.trace_neg]
  · refine computeCurvature_congr S quad X N _ _ (fun t => t / a) ?_ cells v x hex
    intro c q
    rw [curvatureAt_eq, curvatureAt_eq]
    have h1 : S.jac (fun y e => a * X y e) c q = a • S.jac X c q := by
      ext e j
      rw [Matrix.smul_apply, smul_eq_mul, jac_apply, jac_apply, mul_sum]
      refine sum_congr rfl fun i _ => ?_
      ring
    rw [h1]
    have h2 : ((a • S.jac X c q)ᵀ * (a • S.jac X c q))⁻¹ = (1 / (a * a)) • ((S.jac X c q)ᵀ * S.jac X c q)⁻¹ := by
      rw [Matrix.transpose_smul, Matrix.smul_mul, Matrix.mul_smul, smul_smul]
      generalize (S.jac X c q)ᵀ * S.jac X c q = A
      have haa : a * a ≠ 0 := mul_ne_zero ha ha
      by_cases hA : IsUnit A.det
      · let _ := invertibleOfNonzero haa
        rw [Matrix.inv_smul (A := A) (a * a) hA, invOf_eq_inv, one_div]
      · rw [Matrix.nonsing_inv_apply_not_isUnit A hA, smul_zero, Matrix.nonsing_inv_apply_not_isUnit]
        rw [Matrix.det_smul, isUnit_iff_ne_zero]
        rw [isUnit_iff_ne_zero] at hA
        intro h
        exact hA (right_ne_zero_of_mul h)
    rw [h2, Matrix.mul_smul, Matrix.smul_mul, Matrix.mul_smul, Matrix.trace_smul, Matrix.trace_smul, smul_eq_mul, smul_eq_mul]
    field_simp

/-! ### The formula for curves -/

/-- **C96 (formula).** For a plane curve with velocity `(a, b)` and its exact unit normal `(b, -a) / |(a, b)|` along the parameter,
the surface divergence `n' · t / (t · t)` that the code evaluates is the curvature of the curve: rate of turning of the tangent
per length. -/
theorem C96_formula_is_curvature (a b : ℝ → ℝ) (a' b' ξ : ℝ) (ha : HasDerivAt a a' ξ) (hb : HasDerivAt b b' ξ)
    (hreg : 0 < a ξ ^ 2 + b ξ ^ 2) :
    ∃ n1' n2' : ℝ, HasDerivAt (fun t => b t / Real.sqrt (a t ^ 2 + b t ^ 2)) n1' ξ ∧
      HasDerivAt (fun t => - a t / Real.sqrt (a t ^ 2 + b t ^ 2)) n2' ξ ∧
      (n1' * a ξ + n2' * b ξ) / (a ξ * a ξ + b ξ * b ξ) = Spec.curvature (a ξ) (b ξ) a' b' := by
  have hr : HasDerivAt (fun t => a t ^ 2 + b t ^ 2) (2 * a ξ * a' + 2 * b ξ * b') ξ := by
    have h1 : HasDerivAt (fun t => a t ^ 2 + b t ^ 2) _ ξ := HasDerivAt.add (HasDerivAt.fun_pow ha 2) (HasDerivAt.fun_pow hb 2)
    refine HasDerivAt.congr_deriv h1 ?_
    push_cast
    ring
  have hsq := hr.sqrt hreg.ne'
  have hpos : 0 < Real.sqrt (a ξ ^ 2 + b ξ ^ 2) := Real.sqrt_pos.2 hreg
  have hna : HasDerivAt (fun t => - a t) (-a') ξ := HasDerivAt.neg ha
  refine ⟨_, _, HasDerivAt.fun_div hb hsq hpos.ne', HasDerivAt.fun_div hna hsq hpos.ne', ?_⟩
  have hss : Real.sqrt (a ξ ^ 2 + b ξ ^ 2) ^ 2 = a ξ ^ 2 + b ξ ^ 2 := Real.sq_sqrt hreg.le
  have hz : a ξ * a ξ + b ξ * b ξ = Real.sqrt (a ξ ^ 2 + b ξ ^ 2) ^ 2 := by rw [hss]; ring
  unfold Spec.curvature
  rw [hz]
  generalize Real.sqrt (a ξ ^ 2 + b ξ ^ 2) = r at *
  have hr0 : r ≠ 0 := hpos.ne'
  field_simp
  ring

/-- One-dimensional cells in the plane: the code's formula is `n' · t / (t · t)`. -/
theorem C96_line_formula (S : SurfFE K ι R C 1 n) (X N : ι → Fin 2 → K) (c : C) (q : R) :
    S.curvatureAt X N c q = (S.jac N c q 0 0 * S.jac X c q 0 0 + S.jac N c q 1 0 * S.jac X c q 1 0) /
      (S.jac X c q 0 0 * S.jac X c q 0 0 + S.jac X c q 1 0 * S.jac X c q 1 0) := by
  rw [curvatureAt_eq]
  have hinv : ∀ A : Matrix (Fin 1) (Fin 1) K, A⁻¹ 0 0 = (A 0 0)⁻¹ := by
    intro A
    rw [Matrix.inv_def, Matrix.det_fin_one]
    simp
  simp only [Matrix.trace, Matrix.diag, Matrix.mul_apply, Matrix.transpose_apply, Fin.sum_univ_one, hinv, Fin.sum_univ_two]
  rw [div_eq_mul_inv]
  ring

/-! ### Order of nodes and quadrature points -/

/-- **C96 (stored node).** The curvature stored for local node `i` is the one at the `i`-th quadrature point. If quadrature and
support points are numbered alike and the cells agree at shared nodes, the stored value is the curvature at the node. -/
theorem C96_stored_at_nodes_partial (S : SurfFE K ι R C d n) (quad supp : Fin n → R) (hsame : ∀ i, quad i = supp i)
    (X N : ι → Fin s → K) (cells : List C) (v : ι → K) (x : ι) (hex : ∃ c ∈ cells, ∃ i, S.dof c i = x) :
    (∃ c ∈ cells, ∃ i, S.dof c i = x ∧ S.computeCurvature quad X N cells v x = S.curvatureAt X N c (supp i)) ∧
    (∀ y, (∀ c ∈ cells, ∀ i, S.dof c i = x → S.curvatureAt X N c (supp i) = y) →
      S.computeCurvature quad X N cells v x = y) := by
  have hq : quad = supp := funext hsame
  rw [hq]
  constructor
  · rcases loop_cases S (fun c i => S.curvatureAt X N c (supp i)) cells v x with h | ⟨h1, _⟩
    · exact h
    · obtain ⟨c, hc, i, h⟩ := hex
      exact absurd h (h1 c hc i)
  · intro y hy
    exact loop_value S (fun c i => S.curvatureAt X N c (supp i)) cells v x y hex hy

/-- **C96 (numbering).** The Gauss–Lobatto points in ascending order are the support points in the order of the element only for
degree one (distinct points). The front tracking solver uses degree three (sharp_interface.h:511). -/
theorem C96_numbering_iff (k : ℕ) (hk : 1 ≤ k) (lob : ℕ → R) (hinj : ∀ i ≤ k, ∀ j ≤ k, lob i = lob j → i = j) :
    (∀ i ≤ k, lobattoPoint lob i = feqSupport k lob i) ↔ k = 1 := by
  constructor
  · intro h
    have h1 := h 1 hk
    unfold lobattoPoint feqSupport at h1
    simp only [one_ne_zero, if_false, if_true] at h1
    exact (hinj 1 hk k le_rfl h1).symm
  · rintro rfl i hi
    interval_cases i <;> rfl

/-- A single straight cell `x(ξ) = (ξ, 0)` with degree-`k` nodes. -/
def lineFE (k : ℕ) (D : K → Fin (k + 1) → K) : SurfFE K (Fin (k + 1)) K Unit 1 (k + 1) := ⟨fun _ i => i, fun ξ i _ => D ξ i⟩

/-- **C96 (counterexample).** For every degree of at least two: on a straight cell with nodal values `(ξ²/2, 0)` the divergence at
`ξ` is `ξ`, and the second vertex of the cell gets the value of the first interior point. So the curvature of a front whose
curvature varies is assigned to the wrong nodes. -/
theorem C96_wrong_node (k : ℕ) (hk : 2 ≤ k) [CharZero K] (lob : ℕ → K) (hlob : lob 1 ≠ lob k) (D : K → Fin (k + 1) → K)
    (hD : Spec.Differentiates (k + 1) (fun i => feqSupport k lob i) D) (v : Fin (k + 1) → K) :
    let X : Fin (k + 1) → Fin 2 → K := fun i e => if e = 0 then feqSupport k lob i else 0
    let N : Fin (k + 1) → Fin 2 → K := fun i e => if e = 0 then feqSupport k lob i ^ 2 / 2 else 0
    (∀ ξ, (lineFE k D).curvatureAt X N () ξ = ξ) ∧
    (lineFE k D).computeCurvature (fun i => lobattoPoint lob i) X N [()] v 1 = lob 1 ∧
    (lineFE k D).curvatureAt X N () (feqSupport k lob 1) = lob k ∧
    (lineFE k D).computeCurvature (fun i => lobattoPoint lob i) X N [()] v 1 ≠
      (lineFE k D).curvatureAt X N () (feqSupport k lob 1) := by
  intro X N
  have hcurv : ∀ ξ, (lineFE k D).curvatureAt X N () ξ = ξ := by
    intro ξ
    rw [C96_line_formula]
    have hX0 : (lineFE k D).jac X () ξ 0 0 = 1 := by
      rw [jac_apply]; exact hD.lin ξ
    have hX1 : (lineFE k D).jac X () ξ 1 0 = 0 := by
      rw [jac_apply]
      refine sum_eq_zero fun i _ => ?_
      simp [X]
    have hN0 : (lineFE k D).jac N () ξ 0 0 = ξ := by
      rw [jac_apply]
      have h := hD.quad ξ
      have h2 : ∑ i, N ((lineFE k D).dof () i) 0 * (lineFE k D).dψ ξ i 0
          = (∑ i : Fin (k + 1), feqSupport k lob i ^ 2 * D ξ i) / 2 := by
        rw [sum_div]
        refine sum_congr rfl fun i _ => ?_
        simp only [N, lineFE, if_true]
        ring
      rw [h2, h]
      field_simp
    rw [hX0, hX1, hN0]; simp
  have hsup : feqSupport k lob 1 = lob k := by
    unfold feqSupport; simp
  have hstore : (lineFE k D).computeCurvature (fun i => lobattoPoint lob i) X N [()] v 1 = lob 1 := by
    refine loop_value (lineFE k D) (fun c i => (lineFE k D).curvatureAt X N c (lobattoPoint lob i)) [()] v 1 _
      ⟨(), List.mem_singleton.2 rfl, 1, rfl⟩ ?_
    rintro ⟨⟩ _ i hi
    have hi1 : i = 1 := hi
    rw [hi1, hcurv]
    unfold lobattoPoint
    congr 1
    rw [Fin.val_one']
    exact Nat.mod_eq_of_lt (by omega)
  refine ⟨hcurv, hstore, by rw [hcurv, hsup], ?_⟩
  rw [hstore, hcurv, hsup]
  exact hlob

/-! ### Non-vacuity -/

/-- Derivatives of the quadratic shape functions with nodes 0, 1, 1/2. -/
def exD (ξ : ℚ) : Fin 3 → ℚ := ![4 * ξ - 3, 4 * ξ - 1, 4 - 8 * ξ]

def exLob : ℕ → ℚ := fun i => i / 2

example : Spec.Differentiates 3 (fun i => feqSupport 2 exLob i) exD := by
  constructor <;> intro ξ <;> simp [Fin.sum_univ_three, exD, feqSupport, exLob] <;> ring

/-- Two linear cells forming a corner; unit speed. -/
def exFE : SurfFE ℚ (Fin 3) ℚ (Fin 2) 1 2 := ⟨fun c i => ⟨c.val + i.val, by omega⟩, fun _ i _ => if i = 0 then -1 else 1⟩

example : Spec.ConstantsExact exFE := by
  intro q j; simp [exFE, Fin.sum_univ_two]

def exX : Fin 3 → Fin 2 → ℚ := ![![1, 0], ![3 / 5, 4 / 5], ![0, 1]]

/-- hypotheses of the sphere theorem hold for three points on the unit circle -/
example : (∀ c ∈ [(0 : Fin 2), 1], ∀ i : Fin 2, ((exFE.jac exX c ((fun _ => 0 : Fin 2 → ℚ) i))ᵀ *
    exFE.jac exX c ((fun _ => 0 : Fin 2 → ℚ) i)).det ≠ 0) ∧ (∃ c ∈ [(0 : Fin 2), 1], ∃ i, exFE.dof c i = 1) := by
  constructor
  · intro c hc i
    rw [Matrix.det_fin_one, Matrix.mul_apply, Fin.sum_univ_two]
    simp only [Matrix.transpose_apply, jac_apply, Fin.sum_univ_two]
    fin_cases c <;> simp [exFE, exX] <;> norm_num
  · exact ⟨0, by simp, 1, rfl⟩

example : ((1 : Matrix (Fin 2) (Fin 2) ℚ))ᵀ * 1 = 1 := by simp

example : !![(3 / 5 : ℚ), -4 / 5; 4 / 5, 3 / 5]ᵀ * !![(3 / 5 : ℚ), -4 / 5; 4 / 5, 3 / 5] = 1 := by
  ext i j; fin_cases i <;> fin_cases j <;> simp [Matrix.mul_apply, Fin.sum_univ_two] <;> norm_num

end Verif.Sharp
