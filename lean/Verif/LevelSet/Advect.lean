import Verif.FE.Space
import Verif.Time.Consistency

/-!
# C64, C65: one transport step of the level set
(source/level_set_okz_advance_concentration.cc)

Finite element loops as in `Verif.FE.Space`. The velocity is given by its values at the quadrature points.
-/

set_option linter.unusedSectionVars false

namespace Verif.LevelSet

open Finset Verif.FE Verif.Time

variable {K : Type*} [Field K] [LinearOrder K] [IsStrictOrderedRing K]

/-- A face at the boundary, as seen through `FEFaceValues`: cell, boundary id, shape values and gradients, normals, `JxW`. -/
structure BFace (K : Type*) where
  cell : ℕ
  bid : ℕ
  nQ : ℕ
  val : ℕ → ℕ → K
  grad : ℕ → ℕ → ℕ → K
  normal : ℕ → ℕ → K
  jxw : ℕ → K

/-- Data members of `LevelSetOKZSolverAdvanceConcentration` (level_set_okz_advance_concentration.h) that stay fixed during a
step: space, constraints of the level set, `preconditioner.get_vector()`, `parameters.convection_stabilization`,
`boundary.symmetry`, interpolated boundary values (`interpolate_boundary_values`, lines 531-546). `faces` are the boundary
faces under the mapping of the problem (used in lines 575-579), `facesDefault` the same faces under the default mapping (the
`FEFaceValues` of lines 427-430 gets no mapping). -/
structure Advect (K : Type*) where
  S : Space K
  C : Constr K
  diag : ℕ → K
  stab : Bool
  symmetry : ℕ → Bool
  dirichlet : ℕ → Option K
  faces : List (BFace K)
  facesDefault : List (BFace K)

variable (D : Advect K)

/-- Gradient of `x` on a face: `get_function_gradients`, which reads the vector entries as they are. -/
def BFace.gradient (f : BFace K) (n : ℕ) (x : ℕ → K) (q d : ℕ) : K := ∑ i ∈ range n, x i * f.grad i q d

/-- Face loops of lines 437-470 (product) and 586-619 (right hand side) up to the sign: local contributions
`shape_value * normal * artificial_viscosity * gradient * JxW`, symmetry boundaries are skipped. -/
def Advect.faceTerm (fs : List (BFace K)) (ν : ℕ → K) (x : ℕ → K) (i : ℕ) : K :=
  (fs.map fun f => if D.symmetry f.bid then 0 else
    ∑ q ∈ range f.nQ, (∑ d ∈ range D.S.dim, f.val i q * f.normal q d * ν f.cell * f.gradient D.S.nDof x q d) * f.jxw q).sum

/-- `local_advance_concentration`, lines 220-262, with the stored velocities `evaluated_convection` and
`artificial_viscosities`; `gather_evaluate` resolves the constraints. -/
def Advect.cellProduct (t : TS K) (u : ℕ → ℕ → ℕ → K) (ν : ℕ → K) (src : ℕ → K) : ℕ → K :=
  let x := D.C.dist D.S.nDof src
  D.S.test (fun c q => D.S.value x c q * t.w + ∑ d ∈ range D.S.dim, D.S.gradient x c q d * u c q d)
    (fun c q d => if D.stab then ν c * D.S.gradient x c q d else 0)

/-- `advance_concentration_vmult`, lines 403-480. -/
def Advect.vmult (t : TS K) (u : ℕ → ℕ → ℕ → K) (ν : ℕ → K) (src : ℕ → K) (k : ℕ) : K :=
  if (D.C.row k).isSome then D.diag k * src k
  else D.C.scatter D.S.nDof (D.cellProduct t u ν src) k +
    if D.stab then D.C.scatter D.S.nDof (fun i => -D.faceTerm D.facesDefault ν src i) k else 0

/-- `old_value` of `local_advance_concentration_rhs`, lines 371-375. -/
def Advect.oldValue (t : TS K) (old oldOld : ℕ → K) (c q : ℕ) : K :=
  let v := t.wOld * D.S.value old c q
  if t.scheme = .bdf2 ∧ 1 < t.stepNo then v + t.wOldOld * D.S.value oldOld c q else v

/-- Cell part of the right hand side, `local_advance_concentration_rhs`, lines 368-386 (`read_dof_values_plain`). -/
def Advect.cellRhs (t : TS K) (u : ℕ → ℕ → ℕ → K) (ν : ℕ → K) (old oldOld x : ℕ → K) : ℕ → K :=
  D.S.test
    (fun c q => -(D.S.value x c q * t.w + ∑ d ∈ range D.S.dim, u c q d * D.S.gradient x c q d + D.oldValue t old oldOld c q))
    (fun c q d => if D.stab then -ν c * D.S.gradient x c q d else 0)

/-- The right hand side of lines 553-621. -/
def Advect.rhs (t : TS K) (u : ℕ → ℕ → ℕ → K) (ν : ℕ → K) (old oldOld x : ℕ → K) (k : ℕ) : K :=
  D.C.scatter D.S.nDof (D.cellRhs t u ν old oldOld x) k +
    if D.stab then D.C.scatter D.S.nDof (D.faceTerm D.faces ν x) k else 0

/-- The boundary values are written into the solution, lines 541-545. -/
def Advect.withBoundary (x : ℕ → K) (i : ℕ) : K := (D.dirichlet i).getD (x i)

/-- `advance_concentration(dt)`, lines 506-652, for given stored artificial viscosities: the clock moves first (lines
508-509), the right hand side is computed from the solution with boundary values, the linear solver (`solve`, an arbitrary
function of the matrix and the right hand side) gives the increment, which is added after `constraints.distribute`. -/
def Advect.advance (t : TS K) (dt : K) (solve : ((ℕ → K) → ℕ → K) → (ℕ → K) → ℕ → K) (u : ℕ → ℕ → ℕ → K) (ν : ℕ → K)
    (old oldOld x : ℕ → K) : TS K × (ℕ → K) :=
  let t' := (t.setDesired dt).next
  let x0 := D.withBoundary x
  let d := solve (D.vmult t' u ν) (D.rhs t' u ν old oldOld x0)
  (t', fun i => x0 i + D.C.dist D.S.nDof d i)

/-! ### Specification -/

/-- Weak form of `w φ + u·∇φ - div(ν ∇φ) + (old levels) = 0`, tested with the function `V`: natural boundary term on all
boundaries except symmetry boundaries. -/
def Spec.transport (D : Advect K) (w wOld wOldOld : K) (u : ℕ → ℕ → ℕ → K) (ν : ℕ → K) (old oldOld y V : ℕ → K) : K :=
  let S := D.S
  S.integral (fun c q => (w * S.value y c q + wOld * S.value old c q + wOldOld * S.value oldOld c q
      + ∑ d ∈ range S.dim, u c q d * S.gradient y c q d) * S.value V c q)
  + if D.stab then
      S.integral (fun c q => ν c * ∑ d ∈ range S.dim, S.gradient y c q d * S.gradient V c q d)
      - (D.faces.map fun f => if D.symmetry f.bid then 0 else
          ∑ q ∈ range f.nQ, ν f.cell * (∑ d ∈ range S.dim, f.normal q d * f.gradient S.nDof y q d)
            * (∑ i ∈ range S.nDof, V i * f.val i q) * f.jxw q).sum
    else 0

/-- No stabilization, or: default mapping and problem mapping agree on the boundary faces, and hanging nodes do not influence
the gradient on boundary faces. -/
def Advect.FaceExact (D : Advect K) : Prop :=
  D.stab = false ∨ (D.facesDefault = D.faces ∧ ∀ f ∈ D.faces, ∀ i < D.S.nDof, ∀ c, D.C.row i = some c →
    (∀ k < D.S.nDof, c k = 0) ∨ ∀ q d, f.grad i q d = 0)

/-- The linear solver solved the system of this step exactly. -/
def Advect.Solved (D : Advect K) (t : TS K) (dt : K) (solve : ((ℕ → K) → ℕ → K) → (ℕ → K) → ℕ → K) (u : ℕ → ℕ → ℕ → K)
    (ν : ℕ → K) (old oldOld x : ℕ → K) : Prop :=
  let t' := (t.setDesired dt).next
  let b := D.rhs t' u ν old oldOld (D.withBoundary x)
  ∀ k < D.S.nDof, D.vmult t' u ν (solve (D.vmult t' u ν) b) k = b k

/-! ### Proofs -/

theorem faceTerm_congr (fs : List (BFace K)) (ν : ℕ → K) {x y : ℕ → K}
    (h : ∀ f ∈ fs, ∀ q d, f.gradient D.S.nDof x q d = f.gradient D.S.nDof y q d) (i : ℕ) :
    D.faceTerm fs ν x i = D.faceTerm fs ν y i := by
  unfold Advect.faceTerm
  congr 1
  refine List.map_congr_left fun f hf => ?_
  simp only [h f hf]

theorem faceTerm_add (fs : List (BFace K)) (ν : ℕ → K) (x y : ℕ → K) (i : ℕ) :
    D.faceTerm fs ν (fun k => x k + y k) i = D.faceTerm fs ν x i + D.faceTerm fs ν y i := by
  unfold Advect.faceTerm
  rw [← List.sum_map_add]
  congr 1
  refine List.map_congr_left fun f _ => ?_
  split_ifs
  · ring
  · rw [← sum_add_distrib]
    refine sum_congr rfl fun q _ => ?_
    rw [← add_mul, ← sum_add_distrib]
    congr 1
    refine sum_congr rfl fun d _ => ?_
    have : f.gradient D.S.nDof (fun k => x k + y k) q d = f.gradient D.S.nDof x q d + f.gradient D.S.nDof y q d := by
      unfold BFace.gradient; simp only [add_mul, sum_add_distrib]
    rw [this]; ring

theorem cellRhs_add (t : TS K) (u : ℕ → ℕ → ℕ → K) (ν : ℕ → K) (old oldOld x d : ℕ → K) (i : ℕ) :
    D.cellRhs t u ν old oldOld (fun k => x k + D.C.dist D.S.nDof d k) i =
      D.cellRhs t u ν old oldOld x i + -D.cellProduct t u ν d i := by
  unfold Advect.cellRhs Advect.cellProduct
  rw [← D.S.test_neg, ← D.S.test_add]
  refine D.S.test_congr (fun c q => ?_) (fun c q e _ => ?_) i
  · rw [D.S.value_add]
    simp only [D.S.gradient_add]
    have : ∑ e ∈ range D.S.dim, u c q e * (D.S.gradient x c q e + D.S.gradient (D.C.dist D.S.nDof d) c q e) =
        ∑ e ∈ range D.S.dim, u c q e * D.S.gradient x c q e +
        ∑ e ∈ range D.S.dim, D.S.gradient (D.C.dist D.S.nDof d) c q e * u c q e := by
      rw [← sum_add_distrib]; exact sum_congr rfl fun e _ => by ring
    rw [this]; ring
  · rw [D.S.gradient_add]
    split_ifs <;> ring

theorem scatter_sub (n : ℕ) (C : Constr K) (A B : ℕ → K) (k : ℕ) :
    C.scatter n (fun i => A i + -B i) k = C.scatter n A k - C.scatter n B k := by
  rw [C.scatter_add n A fun i => -B i, C.scatter_neg]; ring

/-- **C64 (what the linear solve leaves).** For an increment vanishing on constrained unknowns, the residual of the discrete
transport equation at the updated level set is, on every free unknown, the residual of the linear system. -/
theorem C64_residual_after_update (hf : D.FaceExact) (t : TS K) (u : ℕ → ℕ → ℕ → K) (ν : ℕ → K)
    (old oldOld x d : ℕ → K) (hd : ∀ i < D.S.nDof, (D.C.row i).isSome → d i = 0) (k : ℕ) (hk : k < D.S.nDof)
    (hfree : (D.C.row k).isSome = false) :
    D.rhs t u ν old oldOld (fun i => x i + D.C.dist D.S.nDof d i) k =
      D.rhs t u ν old oldOld x k - D.vmult t u ν d k := by
  unfold Advect.rhs Advect.vmult
  rw [if_neg (c := (D.C.row k).isSome = true) (by rw [hfree]; simp)]
  have hc : D.C.scatter D.S.nDof (D.cellRhs t u ν old oldOld fun i => x i + D.C.dist D.S.nDof d i) k =
      D.C.scatter D.S.nDof (D.cellRhs t u ν old oldOld x) k - D.C.scatter D.S.nDof (D.cellProduct t u ν d) k := by
    rw [← scatter_sub]
    exact D.C.scatter_congr _ hk fun i _ => cellRhs_add D t u ν old oldOld x d i
  rw [hc]
  rcases hf with hs | ⟨hdef, hg⟩
  · rw [hs]; simp
  · split_ifs
    · have hgrad : ∀ f ∈ D.faces, ∀ q e, f.gradient D.S.nDof (D.C.dist D.S.nDof d) q e = f.gradient D.S.nDof d q e := by
        intro f hf q e
        unfold BFace.gradient
        refine sum_congr rfl fun i hi => ?_
        have hi := mem_range.1 hi
        cases hr : D.C.row i with
        | none => rw [D.C.dist_free _ _ (by rw [hr]; rfl)]
        | some c =>
          rcases hg f hf i hi c hr with h0 | h0
          · have : D.C.dist D.S.nDof d i = 0 := by
              unfold Constr.dist
              rw [hr]
              exact sum_eq_zero fun k hk => by rw [h0 k (mem_range.1 hk), zero_mul]
            rw [this, hd i hi (by rw [hr]; rfl)]
          · rw [h0 q e, mul_zero, mul_zero]
      have hface : D.C.scatter D.S.nDof (D.faceTerm D.faces ν fun i => x i + D.C.dist D.S.nDof d i) k =
          D.C.scatter D.S.nDof (D.faceTerm D.faces ν x) k + D.C.scatter D.S.nDof (D.faceTerm D.faces ν d) k := by
        rw [← D.C.scatter_add]
        refine D.C.scatter_congr _ hk fun i _ => ?_
        rw [faceTerm_add, faceTerm_congr D D.faces ν hgrad]
      rw [hface, hdef, D.C.scatter_neg]; ring
    · ring

theorem face_pair (ν : ℕ → K) (y V : ℕ → K) (fs : List (BFace K)) :
    ∑ i ∈ range D.S.nDof, V i * D.faceTerm fs ν y i =
      (fs.map fun f => if D.symmetry f.bid then 0 else
          ∑ q ∈ range f.nQ, ν f.cell * (∑ d ∈ range D.S.dim, f.normal q d * f.gradient D.S.nDof y q d)
            * (∑ i ∈ range D.S.nDof, V i * f.val i q) * f.jxw q).sum := by
  induction fs with
  | nil => simp [Advect.faceTerm]
  | cons f fs ih =>
    have hc : ∀ i, D.faceTerm (f :: fs) ν y i = (if D.symmetry f.bid then 0 else
        ∑ q ∈ range f.nQ, (∑ d ∈ range D.S.dim, f.val i q * f.normal q d * ν f.cell * f.gradient D.S.nDof y q d) * f.jxw q) +
        D.faceTerm fs ν y i := by
      intro i; simp [Advect.faceTerm]
    simp only [hc, mul_add, sum_add_distrib, ih, List.map_cons, List.sum_cons]
    congr 1
    split_ifs
    · simp
    · simp only [mul_sum]
      rw [sum_comm]
      refine sum_congr rfl fun q _ => ?_
      rw [sum_mul]
      refine sum_congr rfl fun i _ => ?_
      simp only [sum_mul, mul_sum]
      exact sum_congr rfl fun d _ => by ring

/-- **C64 (weak form).** The right hand side computed for a level set `y`, tested with any coefficient vector, is minus the
weak form of the transport equation for the test function with resolved constraints. -/
theorem C64_weak_form (hC : D.C.Closed) (t : TS K) (u : ℕ → ℕ → ℕ → K) (ν : ℕ → K) (old oldOld y v : ℕ → K) :
    ∑ k ∈ range D.S.nDof, v k * D.rhs t u ν old oldOld y k =
      -Spec.transport D t.w t.wOld (if t.scheme = .bdf2 ∧ 1 < t.stepNo then t.wOldOld else 0) u ν old oldOld y
        (D.C.dist D.S.nDof v) := by
  unfold Advect.rhs Spec.transport
  simp only [mul_add, sum_add_distrib]
  rw [show D.cellRhs t u ν old oldOld y = D.S.test _ _ from rfl, D.S.assembled_pair _ hC]
  rw [neg_add, ← D.S.integral_neg]
  by_cases hs : D.stab = true
  · simp only [hs, if_true]
    rw [D.C.pairing hC, face_pair, neg_sub, sub_eq_add_neg, ← D.S.integral_neg]
    have : ∀ a b c d e : K, a = b + c → a + d = b + (d + c) := by intro a b c d e h; rw [h]; ring
    refine this _ _ _ _ 0 ?_
    rw [← D.S.integral_add]
    refine D.S.integral_congr fun c _ q _ => ?_
    have e1 : ∑ d ∈ range D.S.dim, -ν c * D.S.gradient y c q d * D.S.gradient (D.C.dist D.S.nDof v) c q d =
        -(ν c * ∑ d ∈ range D.S.dim, D.S.gradient y c q d * D.S.gradient (D.C.dist D.S.nDof v) c q d) := by
      rw [mul_sum, ← sum_neg_distrib]; exact sum_congr rfl fun d _ => by ring
    rw [e1]
    unfold Advect.oldValue
    split_ifs <;> ring
  · simp only [hs]
    simp only [Bool.false_eq_true, if_false, mul_zero, sum_const_zero, add_zero, neg_zero, zero_mul]
    refine D.S.integral_congr fun c _ q _ => ?_
    unfold Advect.oldValue
    split_ifs <;> ring

/-- **C64.** Whatever the mesh, hanging nodes, velocity, artificial viscosity and step request: if the linear system is solved
exactly, the new level set satisfies the discrete transport equation of the new time step for every test function, with the
weights of the clock after the step, and takes the prescribed values at the Dirichlet unknowns. -/
theorem C64_step_solves_transport (hC : D.C.Closed) (hf : D.FaceExact)
    (hdiag : ∀ i < D.S.nDof, (D.C.row i).isSome → D.diag i ≠ 0)
    (t : TS K) (dt : K) (solve : ((ℕ → K) → ℕ → K) → (ℕ → K) → ℕ → K)
    (u : ℕ → ℕ → ℕ → K) (ν : ℕ → K) (old oldOld x : ℕ → K) (hsolve : D.Solved t dt solve u ν old oldOld x) :
    let r := D.advance t dt solve u ν old oldOld x
    (∀ v, Spec.transport D r.1.w r.1.wOld (if r.1.scheme = .bdf2 ∧ 1 < r.1.stepNo then r.1.wOldOld else 0) u ν old oldOld r.2
      (D.C.dist D.S.nDof v) = 0) ∧
    (∀ i c g, D.C.row i = some c → (∀ k < D.S.nDof, c k = 0) → D.dirichlet i = some g → r.2 i = g) := by
  intro r
  constructor
  · intro v
    have hw := C64_weak_form D hC r.1 u ν old oldOld r.2 v
    rw [eq_comm, neg_eq_iff_eq_neg] at hw
    rw [hw, neg_eq_zero]
    refine sum_eq_zero fun k hk => ?_
    have hk := mem_range.1 hk
    by_cases hcon : (D.C.row k).isSome = true
    · have : D.rhs r.1 u ν old oldOld r.2 k = 0 := by
        unfold Advect.rhs
        rw [D.C.scatter_con _ _ hcon, D.C.scatter_con _ _ hcon]; simp
      rw [this, mul_zero]
    · have hcon : (D.C.row k).isSome = false := by simpa using hcon
      have hs : ∀ k < D.S.nDof, D.vmult r.1 u ν (solve (D.vmult r.1 u ν) (D.rhs r.1 u ν old oldOld (D.withBoundary x))) k =
          D.rhs r.1 u ν old oldOld (D.withBoundary x) k := hsolve
      have hd : ∀ i < D.S.nDof, (D.C.row i).isSome →
          solve (D.vmult r.1 u ν) (D.rhs r.1 u ν old oldOld (D.withBoundary x)) i = 0 := by
        intro i hi hci
        have := hs i hi
        rw [show D.vmult r.1 u ν _ i = D.diag i * _ from if_pos hci] at this
        have h0 : D.rhs r.1 u ν old oldOld (D.withBoundary x) i = 0 := by
          unfold Advect.rhs
          rw [D.C.scatter_con _ _ hci, D.C.scatter_con _ _ hci]; simp
        rw [h0] at this
        exact (mul_eq_zero.1 this).resolve_left (hdiag i hi hci)
      have := C64_residual_after_update D hf r.1 u ν old oldOld (D.withBoundary x) _ hd k hk hcon
      rw [hs k hk, sub_self] at this
      rw [show r.2 = _ from rfl]
      exact mul_eq_zero_of_right _ this
  · intro i c g hr h0 hg
    show D.withBoundary x i + D.C.dist D.S.nDof _ i = g
    have : ∀ d, D.C.dist D.S.nDof d i = 0 := by
      intro d
      unfold Constr.dist
      rw [hr]
      exact sum_eq_zero fun k hk => by rw [h0 k (mem_range.1 hk), zero_mul]
    rw [this, add_zero]
    simp [Advect.withBoundary, hg]

/-! ### C65 -/

/-- Total content of a level set. -/
def Spec.content (S : Space K) (y : ℕ → K) : K := S.integral fun c q => S.value y c q

/-- **C65 (balance).** If constants are admissible test functions (hanging nodes only), the exact step satisfies the balance:
discrete time derivative of the content plus the convective term equals the artificial flux through the non-symmetry
boundary. -/
theorem C65_content_balance (hC : D.C.Closed) (hf : D.FaceExact) (hP : D.S.Partition) (hone : D.C.KeepsOne D.S.nDof)
    (hdiag : ∀ i < D.S.nDof, (D.C.row i).isSome → D.diag i ≠ 0)
    (t : TS K) (dt : K) (solve : ((ℕ → K) → ℕ → K) → (ℕ → K) → ℕ → K)
    (u : ℕ → ℕ → ℕ → K) (ν : ℕ → K) (old oldOld x : ℕ → K) (hsolve : D.Solved t dt solve u ν old oldOld x) :
    let r := D.advance t dt solve u ν old oldOld x
    r.1.w * Spec.content D.S r.2 + r.1.wOld * Spec.content D.S old
      + (if r.1.scheme = .bdf2 ∧ 1 < r.1.stepNo then r.1.wOldOld else 0) * Spec.content D.S oldOld
      + D.S.integral (fun c q => ∑ d ∈ range D.S.dim, u c q d * D.S.gradient r.2 c q d)
      = if D.stab then (D.faces.map fun f => if D.symmetry f.bid then 0 else
          ∑ q ∈ range f.nQ, ν f.cell * (∑ d ∈ range D.S.dim, f.normal q d * f.gradient D.S.nDof r.2 q d)
            * (∑ i ∈ range D.S.nDof, f.val i q) * f.jxw q).sum else 0 := by
  intro r
  have h := (C64_step_solves_transport D hC hf hdiag t dt solve u ν old oldOld x hsolve).1 (fun _ => 1)
  have hd : D.C.dist D.S.nDof (fun _ => (1 : K)) = fun _ => 1 := by
    funext i; exact D.C.dist_const _ hone 1 i
  rw [hd] at h
  unfold Spec.transport at h
  have e1 : D.S.integral (fun c q => (r.1.w * D.S.value r.2 c q + r.1.wOld * D.S.value old c q +
      (if r.1.scheme = .bdf2 ∧ 1 < r.1.stepNo then r.1.wOldOld else 0) * D.S.value oldOld c q +
      ∑ d ∈ range D.S.dim, u c q d * D.S.gradient r.2 c q d) * D.S.value (fun _ => 1) c q) =
      r.1.w * Spec.content D.S r.2 + r.1.wOld * Spec.content D.S old
      + (if r.1.scheme = .bdf2 ∧ 1 < r.1.stepNo then r.1.wOldOld else 0) * Spec.content D.S oldOld
      + D.S.integral (fun c q => ∑ d ∈ range D.S.dim, u c q d * D.S.gradient r.2 c q d) := by
    unfold Spec.content
    rw [← D.S.integral_smul, ← D.S.integral_smul, ← D.S.integral_smul, ← D.S.integral_add, ← D.S.integral_add,
      ← D.S.integral_add]
    refine D.S.integral_congr fun c hc q hq => ?_
    rw [D.S.value_const hP 1 hc hq, mul_one]
  have e2 : D.S.integral (fun c q => ν c * ∑ d ∈ range D.S.dim, D.S.gradient r.2 c q d * D.S.gradient (fun _ => 1) c q d) = 0 := by
    rw [D.S.integral_congr (g := fun _ _ => 0)]
    · simp [Space.integral]
    · intro c hc q hq
      rw [sum_eq_zero, mul_zero]
      intro d hd
      rw [D.S.gradient_const hP 1 hc hq (mem_range.1 hd), mul_zero]
  dsimp only at h
  rw [e1, e2] at h
  simp only [one_mul] at h
  split_ifs at h ⊢ <;> linear_combination h

/-- No artificial flux through the boundary: no stabilization, or only symmetry boundaries (default mapping and problem mapping
agreeing there, `FaceExact`). -/
def Advect.NoFlux (D : Advect K) : Prop :=
  D.stab = false ∨ (D.FaceExact ∧ ∀ f ∈ D.faces, D.symmetry f.bid = true)

/-- **C65 (conservation).** Without artificial flux through the boundary and with a velocity that is discretely divergence
free and tangential (`∫ u·∇ψ = 0` for every function of the space), the content does not change in a step, for every run of
the clock and every step request: if the old levels in use have content `m`, the new level has content `m` if `weight()` is
the exact weight of the step sizes, and deviates by at most `1e-11 |m|` otherwise. -/
theorem C65_content_conserved (hC : D.C.Closed) (hs : D.NoFlux) (hP : D.S.Partition) (hone : D.C.KeepsOne D.S.nDof)
    (hdiag : ∀ i < D.S.nDof, (D.C.row i).isSome → D.diag i ≠ 0)
    (p : Params K) (hp : p.Good) (t : TS K) (dt : K) (hr : Reachable p (t.setDesired dt))
    (he : (t.setDesired dt).atEnd = false)
    (solve : ((ℕ → K) → ℕ → K) → (ℕ → K) → ℕ → K)
    (u : ℕ → ℕ → ℕ → K)
    (hu : ∀ y, D.S.integral (fun c q => ∑ d ∈ range D.S.dim, u c q d * D.S.gradient y c q d) = 0)
    (ν : ℕ → K) (old oldOld x : ℕ → K) (hsolve : D.Solved t dt solve u ν old oldOld x) (m : K)
    (ho : Spec.content D.S old = m)
    (hoo : t.scheme = .bdf2 → 0 < t.stepNo → Spec.content D.S oldOld = m) :
    |Spec.content D.S (D.advance t dt solve u ν old oldOld x).2 - m| ≤ 1 / 10 ^ 11 * |m| ∧
    ((t.setDesired dt).next.w = (t.setDesired dt).exactWeight →
      Spec.content D.S (D.advance t dt solve u ν old oldOld x).2 = m) := by
  have h := C65_content_balance D hC (hs.elim .inl And.left) hP hone hdiag t dt solve u ν old oldOld x hsolve
  obtain ⟨h1, h2, h3, -⟩ := C05_weights_sum_zero p hp (t.setDesired dt) hr he
  dsimp only at h
  have hflux : (if D.stab then (D.faces.map fun f => if D.symmetry f.bid then 0 else
          ∑ q ∈ range f.nQ, ν f.cell * (∑ d ∈ range D.S.dim, f.normal q d * f.gradient D.S.nDof
            (D.advance t dt solve u ν old oldOld x).2 q d)
            * (∑ i ∈ range D.S.nDof, f.val i q) * f.jxw q).sum else 0) = 0 := by
    rcases hs with hs | ⟨-, hs⟩
    · rw [hs]; rfl
    · split_ifs
      · apply List.sum_eq_zero
        intro z hz
        rw [List.mem_map] at hz
        obtain ⟨f, hf, rfl⟩ := hz
        rw [if_pos (hs f hf)]
      · rfl
  rw [hu, hflux, ho, add_zero] at h
  have hw : (D.advance t dt solve u ν old oldOld x).1 = (t.setDesired dt).next := rfl
  rw [hw] at h
  have hsch : (t.setDesired dt).next.scheme = (t.setDesired dt).scheme := rfl
  rw [hsch] at h
  have hold : (if (t.setDesired dt).scheme = .bdf2 ∧ 1 < (t.setDesired dt).next.stepNo then (t.setDesired dt).next.wOldOld
      else 0) * Spec.content D.S oldOld =
      (if (t.setDesired dt).scheme = .bdf2 ∧ 1 < (t.setDesired dt).next.stepNo then (t.setDesired dt).next.wOldOld
      else 0) * m := by
    split_ifs with hc
    · have : 1 < t.stepNo + 1 := hc.2
      rw [hoo hc.1 (by omega)]
    · rw [zero_mul, zero_mul]
  rw [hold] at h
  generalize Spec.content D.S (D.advance t dt solve u ν old oldOld x).2 = M at *
  generalize (t.setDesired dt).next.w = w at *
  generalize (t.setDesired dt).exactWeight = e at *
  have hM : w * M = e * m := by linear_combination h - m * h1
  constructor
  · have hlow := (abs_le.1 h3).1
    have hwpos : 9 / 10 * e ≤ w := by norm_num at hlow ⊢; linarith
    have hw0 : 0 < w := by linarith
    have hd : w * (M - m) = (e - w) * m := by linear_combination hM
    have ha : w * |M - m| = |e - w| * |m| := by
      rw [← abs_of_pos hw0, ← abs_mul, hd, abs_mul, abs_of_pos hw0]
    rw [abs_sub_comm] at h3
    have hb : |e - w| ≤ 1 / 10 ^ 11 * w := by norm_num at h3 ⊢; linarith
    have hc : w * |M - m| ≤ w * (1 / 10 ^ 11 * |m|) := by
      rw [ha]
      have := mul_le_mul_of_nonneg_right hb (abs_nonneg m)
      linarith
    exact le_of_mul_le_mul_left hc hw0
  · intro hex
    rw [hex] at hM
    exact mul_left_cancel₀ h2.ne' hM

/-- **C65 (constants).** A level set that is the constant `a` at all three time levels gives a zero right hand side if
`weight()` is the exact weight of the step sizes, so that it is not changed: neither by the velocity nor by the stabilization, for every
velocity, viscosity and boundary. -/
theorem C65_constant_unchanged (hP : D.S.Partition)
    (hPf : ∀ f ∈ D.faces, ∀ q < f.nQ, ∀ d < D.S.dim, ∑ i ∈ range D.S.nDof, f.grad i q d = 0)
    (p : Params K) (hp : p.Good) (t : TS K) (hr : Reachable p t) (he : t.atEnd = false)
    (hch : t.next.w = t.exactWeight) (u : ℕ → ℕ → ℕ → K) (ν : ℕ → K) (a : K) (k : ℕ) (hk : k < D.S.nDof) :
    D.rhs t.next u ν (fun _ => a) (fun _ => a) (fun _ => a) k = 0 := by
  obtain ⟨h1, -, -, -⟩ := C05_weights_sum_zero p hp t hr he
  rw [← hch] at h1
  unfold Advect.rhs
  have hcell : D.C.scatter D.S.nDof (D.cellRhs t.next u ν (fun _ => a) (fun _ => a) fun _ => a) k =
      D.C.scatter D.S.nDof (fun _ => 0) k := by
    refine D.C.scatter_congr _ hk fun i _ => ?_
    unfold Advect.cellRhs Space.test
    rw [D.S.integral_congr (g := fun _ _ => 0)]
    · simp [Space.integral]
    · intro c hc q hq
      have hg : ∀ d < D.S.dim, D.S.gradient (fun _ => a) c q d = 0 := fun d hd => D.S.gradient_const hP a hc hq hd
      dsimp only
      rw [sum_eq_zero (s := range D.S.dim) (f := fun d => (if D.stab then -ν c * D.S.gradient (fun _ => a) c q d else 0) *
        D.S.grad i c q d) fun d hd => by simp only [hg d (mem_range.1 hd), mul_zero, ite_self, zero_mul]]
      rw [sum_eq_zero (s := range D.S.dim) (f := fun d => u c q d * D.S.gradient (fun _ => a) c q d) fun d hd => by
        simp only [hg d (mem_range.1 hd), mul_zero]]
      unfold Advect.oldValue
      rw [D.S.value_const hP a hc hq]
      have hsch : t.next.scheme = t.scheme := rfl
      rw [hsch]
      split_ifs at h1 ⊢ <;> linear_combination (-a * D.S.val i c q) * h1
  have hzero : D.C.scatter D.S.nDof (fun _ => (0 : K)) k = 0 := by
    have := D.C.scatter_neg D.S.nDof (fun _ => (0 : K)) k
    simp only [neg_zero] at this
    linarith
  rw [hcell, hzero]
  split_ifs
  · have : D.C.scatter D.S.nDof (D.faceTerm D.faces ν fun _ => a) k = D.C.scatter D.S.nDof (fun _ => 0) k := by
      refine D.C.scatter_congr _ hk fun i _ => ?_
      unfold Advect.faceTerm
      apply List.sum_eq_zero
      intro z hz
      rw [List.mem_map] at hz
      obtain ⟨f, hf, rfl⟩ := hz
      split_ifs
      · rfl
      · refine sum_eq_zero fun q hq => ?_
        rw [sum_eq_zero, zero_mul]
        intro d hd
        have : f.gradient D.S.nDof (fun _ => a) q d = 0 := by
          unfold BFace.gradient
          rw [← mul_sum, hPf f hf q (mem_range.1 hq) d (mem_range.1 hd), mul_zero]
        rw [this, mul_zero]
    rw [this, hzero, add_zero]
  · rw [add_zero]

/-- **C65 (whole run).** A run of the level set solver from the construction of the clock: exact transport
steps without artificial flux through the boundary and with discretely divergence free velocity, with the two previous level
sets as old levels (the second one is arbitrary in the first step), each followed by any change of the level set that keeps
the content (nothing, or reinitialization, see `C67_content_conserved_whole_run`). If `weight()` is the exact weight of the step sizes in all steps (constant steps:
`C05_constant_steps_exact`), the content of every level set is the initial one, for any number of steps. -/
theorem C65_content_conserved_run (hC : D.C.Closed) (hs : D.NoFlux) (hP : D.S.Partition)
    (hone : D.C.KeepsOne D.S.nDof) (hdiag : ∀ i < D.S.nDof, (D.C.row i).isSome → D.diag i ≠ 0)
    (p : Params K) (hp : p.Good) (N : ℕ) (t : ℕ → TS K) (dt : ℕ → K)
    (solve : ℕ → ((ℕ → K) → ℕ → K) → (ℕ → K) → ℕ → K)
    (u : ℕ → ℕ → ℕ → ℕ → K) (ν x : ℕ → ℕ → K) (y oldOld : ℕ → ℕ → K)
    (h0 : t 0 = TS.ctor p) (hoo : ∀ n, oldOld (n + 1) = y n)
    (hstep : ∀ n < N, ((t n).setDesired (dt n)).atEnd = false ∧
      t (n + 1) = (D.advance (t n) (dt n) (solve n) (u n) (ν n) (y n) (oldOld n) (x n)).1 ∧
      ((t n).setDesired (dt n)).next.w = ((t n).setDesired (dt n)).exactWeight ∧
      (∀ z, D.S.integral (fun c q => ∑ d ∈ range D.S.dim, u n c q d * D.S.gradient z c q d) = 0) ∧
      D.Solved (t n) (dt n) (solve n) (u n) (ν n) (y n) (oldOld n) (x n) ∧
      Spec.content D.S (y (n + 1)) =
        Spec.content D.S (D.advance (t n) (dt n) (solve n) (u n) (ν n) (y n) (oldOld n) (x n)).2) :
    ∀ n ≤ N, Spec.content D.S (y n) = Spec.content D.S (y 0) := by
  have hdes : ∀ (t : TS K) d, Reachable p t → Reachable p (t.setDesired d) := by
    rintro t d ⟨cs, hok, hr⟩
    refine ⟨cs ++ [.desired d], ?_, ?_⟩
    · intro c hc
      rcases List.mem_append.1 hc with hc | hc
      · exact hok c hc
      · rw [List.mem_singleton.1 hc]; trivial
    · have : ∀ (cs : List (Cmd K)) (t0 t : TS K), runCmds t0 cs = some t →
          runCmds t0 (cs ++ [.desired d]) = some (t.setDesired d) := by
        intro cs
        induction cs with
        | nil => intro t0 t h; simp [runCmds] at h; subst h; rfl
        | cons c cs ih =>
          intro t0 t h
          simp only [runCmds, Option.bind_eq_some_iff, List.cons_append] at h ⊢
          obtain ⟨t1, h1, h2⟩ := h
          exact ⟨t1, h1, ih t1 t h2⟩
      exact this cs _ _ hr
  have hreach : ∀ n ≤ N, Reachable p (t n) := by
    intro n
    induction n with
    | zero => intro _; rw [h0]; exact ⟨[], by simp, rfl⟩
    | succ n ih =>
      intro hn
      obtain ⟨h1, h2, -⟩ := hstep n (by omega)
      rw [h2]
      exact Reachable.next (hdes _ _ (ih (by omega))) h1
  have hno : ∀ n ≤ N, (t n).stepNo = n := by
    intro n
    induction n with
    | zero => intro _; rw [h0]; rfl
    | succ n ih =>
      intro hn
      rw [(hstep n (by omega)).2.1]
      show (t n).stepNo + 1 = _
      rw [ih (by omega)]
  intro n
  induction n using Nat.strong_induction_on with
  | _ n ih =>
    intro hn
    match n with
    | 0 => rfl
    | n + 1 =>
      obtain ⟨h1, -, h3, h4, h5, h6⟩ := hstep n (by omega)
      rw [h6]
      refine (C65_content_conserved D hC hs hP hone hdiag p hp (t n) (dt n) (hdes _ _ (hreach n (by omega))) h1 (solve n) (u n)
        h4 (ν n) _ _ _ h5 _ (ih n (by omega) (by omega)) ?_).2 h3
      intro _ hpos
      rw [hno n (by omega)] at hpos
      obtain ⟨k, rfl⟩ : ∃ k, n = k + 1 := ⟨n - 1, by omega⟩
      rw [hoo]
      exact ih k (by omega) (by omega)

/-! ### Concrete cases -/

/-- One linear element on `(0,1)`, quadrature in the end points. -/
def exSpace : Space ℚ where
  dim := 1
  nDof := 2
  nCell := 1
  nQ := 2
  val := fun i _ q => if i = q then 1 else 0
  grad := fun i _ _ _ => if i = 0 then -1 else 1
  jxw := fun _ _ => 1 / 2

/-- Its right boundary face. -/
def exFace : BFace ℚ := ⟨0, 7, 1, fun i _ => if i = 1 then 1 else 0, fun i _ _ => if i = 0 then -1 else 1, fun _ _ => 1, fun _ => 1⟩

def exAdvect (stab : Bool) : Advect ℚ := ⟨exSpace, ⟨fun _ => none⟩, fun _ => 1, stab, fun _ => false, fun _ => none, [exFace], [exFace]⟩

def exClock : Params ℚ := ⟨.bdf2, 0, 10, 1, 2, 1 / 100⟩

/-- The hypotheses of C64 and C65 hold for unit velocity with stabilization, and the level set moves. -/
example : (exAdvect true).C.Closed ∧ (exAdvect true).FaceExact ∧ (exAdvect true).S.Partition ∧
    (exAdvect true).C.KeepsOne 2 := by
  refine ⟨fun i c h => by simp [exAdvect] at h, .inr ⟨rfl, fun f _ i _ c h => by simp [exAdvect] at h⟩, ⟨?_, ?_⟩,
    fun i c h => by simp [exAdvect] at h⟩
  · show ∀ c < 1, ∀ q < 2, _
    decide +kernel
  · show ∀ c < 1, ∀ q < 2, ∀ d < 1, _
    decide +kernel

example : (exAdvect false).Solved (TS.ctor exClock) 1 (fun _ _ _ => 1) (fun _ _ _ => 1) (fun _ => 0)
    (fun i => if i = 0 then 1 else 0) (fun i => if i = 0 then 1 else 0) (fun i => if i = 0 then 1 else 0) := by
  show ∀ k < 2, _
  decide +kernel

/-- A divergence free (zero) velocity, first step of a BDF-2 run: hypotheses of the conservation theorem. -/
example : ((TS.ctor exClock).setDesired 2).atEnd = false ∧ ((TS.ctor exClock).setDesired 2).next.weightChanged = true ∧
    (∀ y, exSpace.integral (fun c q => ∑ d ∈ range 1, (0 : ℚ) * exSpace.gradient y c q d) = 0) := by
  refine ⟨by decide +kernel, by decide +kernel, fun y => by simp [Space.integral]⟩

/-- Three unknowns, the last one hanging between the others, and a boundary face of a cell that contains it. -/
def exHanging : Advect ℚ where
  S := ⟨1, 3, 0, 0, fun _ _ _ => 0, fun _ _ _ _ => 0, fun _ _ => 0⟩
  C := ⟨fun i => if i = 2 then some fun k => if k < 2 then 1 / 2 else 0 else none⟩
  diag := fun _ => 1
  stab := true
  symmetry := fun _ => false
  dirichlet := fun _ => none
  faces := [⟨0, 7, 1, fun i _ => if i = 0 then 1 else 0, fun i _ _ => if i = 0 then -1 else if i = 2 then 1 else 0,
    fun _ _ => 1, fun _ => 1⟩]
  facesDefault := [⟨0, 7, 1, fun i _ => if i = 0 then 1 else 0, fun i _ _ => if i = 0 then -1 else if i = 2 then 1 else 0,
    fun _ _ => 1, fun _ => 1⟩]

/-- **C64 (limit).** The condition on hanging nodes cannot be dropped: the product reads the gradient on boundary faces from
the source vector without resolving the constraints, the right hand side from a solution with resolved ones. Here the product
is not the change of the residual although the increment vanishes at the hanging node. -/
theorem C64_hanging_node_mismatch :
    ∃ (D : Advect ℚ) (t : TS ℚ) (d : ℕ → ℚ) (k : ℕ), D.C.Closed ∧ D.facesDefault = D.faces ∧
      (∀ i < D.S.nDof, (D.C.row i).isSome → d i = 0) ∧ k < D.S.nDof ∧ (D.C.row k).isSome = false ∧
      D.rhs t (fun _ _ _ => 0) (fun _ => 1) (fun _ => 0) (fun _ => 0) (fun i => 0 + D.C.dist D.S.nDof d i) k ≠
        D.rhs t (fun _ _ _ => 0) (fun _ => 1) (fun _ => 0) (fun _ => 0) (fun _ => 0) k -
          D.vmult t (fun _ _ _ => 0) (fun _ => 1) d k := by
  refine ⟨exHanging, TS.ctor exClock, fun i => if i = 1 then 1 else 0, 0, ?_, rfl, ?_, by decide, by decide, by decide +kernel⟩
  · intro i c h k hk
    simp only [exHanging] at h hk
    split_ifs at h hk with h1 h2
    · simp only [Option.some.injEq] at h
      rw [← h, h2]; simp
    · simp at hk
  · show ∀ i < 3, _
    decide +kernel

end Verif.LevelSet
