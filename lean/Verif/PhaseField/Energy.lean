import Verif.FE.Space
import Verif.PhaseField.Jacobian
import Mathlib.Algebra.Order.BigOperators.Group.Finset
import Mathlib.Tactic.Linarith
import Mathlib.Data.List.GetD
import Mathlib.Tactic.Positivity
import Mathlib.Tactic.FieldSimp
import Mathlib.Analysis.Real.Sqrt

/-!
# C89: Cahn-Hilliard steps and the free energy; data handed to the flow solver
(source/phase_field_local.cc:50-215, 300-365, 443-468; source/phase_field.cc:79-90, 113-177)

Concentration and chemical potential are coefficient vectors over the same finite element space, with the constraints
`constraints` (test space of the first equation) and `constraints_curvature` (second equation).
-/

namespace Verif.PhaseField.Energy

open Finset Verif.FE Verif.PhaseField

/-! ## Model -/

section Model

variable {K : Type*} [Field K] [LinearOrder K]

/-- A face with prescribed velocity: its degrees of freedom and `fe_face_values.JxW`. -/
structure WallFace (K : Type*) where
  dofs : List ℕ
  jxw : List K

/-- `face_JxW`, `face_indices` as filled by `initialize_data_structures`, phase_field.cc:138-175: over the boundary faces with
Dirichlet or no-slip velocity, in the order of the cell loop, all quadrature weights and all indices are appended. -/
def faceJxw (faces : List (WallFace K)) : List K := faces.flatMap WallFace.jxw
def faceIndices (faces : List (WallFace K)) : List ℕ := faces.flatMap WallFace.dofs

/-- Data of `PhaseFieldSolver`: cells of quadrature 2, the two constraint objects, the flat face arrays and `face_matrix`
(`nFaceDof` x `nFaceQ`). -/
structure Mesh (K : Type*) where
  S : Space K
  C : Constr K
  Cw : Constr K
  nFaceDof : ℕ
  nFaceQ : ℕ
  faces : List (WallFace K)
  faceMatrix : ℕ → ℕ → K

variable (p : CHCoef K) (M : Mesh K)

/-- `n_faces` of `apply_contact_bc`, phase_field_local.cc:313. -/
def Mesh.nFaces : ℕ := (faceIndices M.faces).length / M.nFaceDof

/-- `indices[i]` after `f` increments of the pointer, lines 317, 357. -/
def Mesh.faceIdx (f i : ℕ) : ℕ := (faceIndices M.faces).getD (f * M.nFaceDof + i) 0

/-- `n_face_q_points`, line 322. -/
def Mesh.nFaceQUsed : ℕ := (faceJxw M.faces).length / M.nFaces

/-- `JxW[q]` after `f` increments of the pointer, lines 318, 359. -/
def Mesh.faceW (f q : ℕ) : K := (faceJxw M.faces).getD (f * M.nFaceQUsed + q) 0

/-- `sum` in lines 330-332: the concentration at a face quadrature point; `get_dof_values` (324-327) resolves the
constraints. -/
def Mesh.faceRead (x : ℕ → K) (f q : ℕ) : K :=
  ∑ i ∈ range M.nFaceDof, M.C.dist M.S.nDof x (M.faceIdx f i) * M.faceMatrix i q

/-- Local vector of all faces (lines 345-351) accumulated over the faces, before the constraints of the second equation are
applied in `distribute_local_to_global` (353-356); `ev f q` is `evaluated[q]`. -/
def Mesh.faceLocal (ev : ℕ → ℕ → K) (j : ℕ) : K :=
  ∑ f ∈ range M.nFaces, ∑ i ∈ range M.nFaceDof,
    if M.faceIdx f i = j then ∑ q ∈ range M.nFaceQUsed, M.faceMatrix i q * ev f q else 0

/-- `apply_contact_bc<1>`, lines 302-365, with the early return. -/
def contactVector (c : ℕ → K) : ℕ → K :=
  if p.contactAngle = 0 then fun _ => 0
  else M.Cw.scatter M.S.nDof (M.faceLocal fun f q => contactResidual p (M.faceRead c f q) * M.faceW f q)

/-- Input of the quadrature loop of `local_residual`, lines 174-190: values and gradients of the vectors as they are
(`read_dof_values_plain`). -/
def Mesh.point (c w : ℕ → K) (e q : ℕ) : CHIn K :=
  ⟨M.S.value c e q, M.S.gradient c e q, M.S.value w e q, M.S.gradient w e q⟩

/-- Submitted values at a point of a cell, lines 190-218. -/
def Mesh.submitted (old oldOld : ℕ → K) (vel : ℕ → ℕ → ℕ → K) (c w : ℕ → K) (e q : ℕ) : CHOut K :=
  chResidual p (M.S.value old e q) (M.S.value oldOld e q) (vel e q) (M.point c w e q)

/-- `system_rhs.block(0)` after `compute_residual`, lines 443-468. -/
def residual0 (old oldOld : ℕ → K) (vel : ℕ → ℕ → ℕ → K) (c w : ℕ → K) : ℕ → K :=
  M.C.scatter M.S.nDof (M.S.test (fun e q => (M.submitted p old oldOld vel c w e q).cVal)
    (fun e q => (M.submitted p old oldOld vel c w e q).cGrad))

/-- `system_rhs.block(1)`. -/
def residual1 (old oldOld : ℕ → K) (vel : ℕ → ℕ → ℕ → K) (c w : ℕ → K) (k : ℕ) : K :=
  M.Cw.scatter M.S.nDof (M.S.test (fun e q => (M.submitted p old oldOld vel c w e q).wVal)
    (fun e q => (M.submitted p old oldOld vel c w e q).wGrad)) k + contactVector p M c k

end Model

/-! ## Specification -/

namespace Spec

variable {K : Type*} [Field K]

/-- Integral over the domain by the quadrature of the equations. -/
def bulk (S : Space K) (f : ℕ → ℕ → K) : K := ∑ e ∈ range S.nCell, ∑ q ∈ range S.nQ, f e q * S.jxw e q

/-- Value and squared gradient of a finite element function. -/
def val (S : Space K) (x : ℕ → K) (e q : ℕ) : K := ∑ i ∈ range S.nDof, x i * S.val i e q
def dx (S : Space K) (x : ℕ → K) (e q d : ℕ) : K := ∑ i ∈ range S.nDof, x i * S.grad i e q d
def dot (n : ℕ) (a b : ℕ → K) : K := ∑ d ∈ range n, a d * b d

/-- Value on a wall face in the face basis, from the degrees of freedom of the face. -/
def wallVal (n : ℕ) (B : ℕ → ℕ → K) (x : ℕ → K) (F : WallFace K) (q : ℕ) : K :=
  ∑ i ∈ range n, x (F.dofs.getD i 0) * B i q

/-- Sum over the wall faces, weighted with their own quadrature weights. -/
def wall (nq : ℕ) (faces : List (WallFace K)) (f : WallFace K → ℕ → K) : K :=
  (faces.map fun F => ∑ q ∈ range nq, f F q * F.jxw.getD q 0).sum

/-- Ginzburg-Landau energy with wall energy: `∫ 3σ/(2ε) (c²-1)²/4 + 3σε/8 |∇c|² - ∫_wall 3/4 α σ (c³/3 - c)`. -/
def energy (p : CHCoef K) (M : Mesh K) (c : ℕ → K) : K :=
  bulk M.S (fun e q => 3 * p.surfaceTension / (2 * p.epsilon) * ((val M.S c e q) ^ 2 - 1) ^ 2 / 4
    + 3 * p.surfaceTension * p.epsilon / 8 * dot M.S.dim (dx M.S c e q) (dx M.S c e q))
  - wall M.nFaceQ M.faces (fun F q => 3 / 4 * p.contactAngle * p.surfaceTension *
      ((wallVal M.nFaceDof M.faceMatrix c F q) ^ 3 / 3 - wallVal M.nFaceDof M.faceMatrix c F q))

/-- The mesh data fit together: closed constraints, faces of equal size, indices in range. -/
structure Fits (M : Mesh K) : Prop where
  closed : M.C.Closed
  closedW : M.Cw.Closed
  faceDofs : ∀ F ∈ M.faces, F.dofs.length = M.nFaceDof
  faceQs : ∀ F ∈ M.faces, F.jxw.length = M.nFaceQ
  pos : 0 < M.nFaceDof
  inRange : ∀ F ∈ M.faces, ∀ j ∈ F.dofs, j < M.S.nDof

/-- A vector satisfies homogeneous constraints. -/
def Satisfies (C : Constr K) (n : ℕ) (x : ℕ → K) : Prop := ∀ i < n, C.dist n x i = x i

end Spec

/-! ## Flat face arrays -/

section Flat

theorem length_flatMap_const {α β : Type*} (l : List α) (f : α → List β) (n : ℕ) (h : ∀ a ∈ l, (f a).length = n) :
    (l.flatMap f).length = l.length * n := by
  induction l with
  | nil => simp
  | cons a l ih =>
    rw [List.flatMap_cons, List.length_append, ih fun b hb => h b (List.mem_cons_of_mem _ hb),
      h a List.mem_cons_self, List.length_cons]
    ring

theorem getD_flatMap_const {α β : Type*} [Inhabited α] (l : List α) (f : α → List β) (n : ℕ) (d : β)
    (h : ∀ a ∈ l, (f a).length = n) (k i : ℕ) (hk : k < l.length) (hi : i < n) :
    (l.flatMap f).getD (k * n + i) d = (f (l[k])).getD i d := by
  induction l generalizing k with
  | nil => simp at hk
  | cons a l ih =>
    have ha := h a List.mem_cons_self
    rw [List.flatMap_cons]
    cases k with
    | zero => rw [zero_mul, zero_add, List.getD_append _ _ _ _ (by rw [ha]; exact hi)]; rfl
    | succ k =>
      rw [List.getD_append_right _ _ _ _ (by rw [ha]; nlinarith), ha]
      have e : (k + 1) * n + i - n = k * n + i := by
        rw [Nat.succ_mul]; omega
      rw [e, ih (fun b hb => h b (List.mem_cons_of_mem _ hb)) k (by simpa using hk)]
      rfl

variable {K : Type*} [Field K] [LinearOrder K]

instance : Inhabited (WallFace K) := ⟨⟨[], []⟩⟩

theorem nFaces_eq (M : Mesh K) (h : Spec.Fits M) : M.nFaces = M.faces.length := by
  unfold Mesh.nFaces faceIndices
  rw [length_flatMap_const _ _ _ h.faceDofs, Nat.mul_div_cancel _ h.pos]

theorem nFaceQUsed_eq (M : Mesh K) (h : Spec.Fits M) (hne : 0 < M.faces.length) : M.nFaceQUsed = M.nFaceQ := by
  unfold Mesh.nFaceQUsed faceJxw
  rw [nFaces_eq M h, length_flatMap_const _ _ _ h.faceQs, Nat.mul_div_cancel_left _ hne]

theorem faceIdx_eq (M : Mesh K) (h : Spec.Fits M) (f i : ℕ) (hf : f < M.faces.length) (hi : i < M.nFaceDof) :
    M.faceIdx f i = (M.faces[f]).dofs.getD i 0 := by
  unfold Mesh.faceIdx faceIndices
  exact getD_flatMap_const _ _ _ _ h.faceDofs f i hf hi

theorem faceW_eq (M : Mesh K) (h : Spec.Fits M) (f q : ℕ) (hf : f < M.faces.length) (hq : q < M.nFaceQ) :
    M.faceW f q = (M.faces[f]).jxw.getD q 0 := by
  unfold Mesh.faceW
  rw [nFaceQUsed_eq M h (by omega)]
  unfold faceJxw
  exact getD_flatMap_const _ _ _ _ h.faceQs f q hf hq

theorem faceIdx_lt (M : Mesh K) (h : Spec.Fits M) (f i : ℕ) (hf : f < M.faces.length) (hi : i < M.nFaceDof) :
    M.faceIdx f i < M.S.nDof := by
  rw [faceIdx_eq M h f i hf hi]
  have hl := h.faceDofs _ (List.getElem_mem hf)
  have hi' : i < (M.faces[f]).dofs.length := by rw [hl]; exact hi
  rw [List.getD_eq_getElem _ _ hi']
  exact h.inRange _ (List.getElem_mem hf) _ (List.getElem_mem hi')

theorem sum_faces (M : Mesh K) (g : WallFace K → K) :
    ∑ f ∈ range M.faces.length, (if hf : f < M.faces.length then g (M.faces[f]) else 0) = (M.faces.map g).sum := by
  generalize M.faces = l
  induction l with
  | nil => simp
  | cons a l ih =>
    change ∑ f ∈ range (l.length + 1), (if hf : f < l.length + 1 then g ((a :: l)[f]) else 0) = _
    rw [sum_range_succ', List.map_cons, List.sum_cons, ← ih, add_comm]
    congr 1
    refine sum_congr rfl fun f hf => ?_
    have : f < l.length := mem_range.1 hf
    simp [this]

/-- Face contributions tested with a vector. -/
theorem faceLocal_pair (M : Mesh K) (h : Spec.Fits M) (ev : ℕ → ℕ → K) (v : ℕ → K) :
    ∑ j ∈ range M.S.nDof, v j * M.faceLocal ev j =
      ∑ f ∈ range M.nFaces, ∑ q ∈ range M.nFaceQUsed,
        (∑ i ∈ range M.nFaceDof, v (M.faceIdx f i) * M.faceMatrix i q) * ev f q := by
  unfold Mesh.faceLocal
  simp only [mul_sum]
  rw [sum_comm]
  refine sum_congr rfl fun f hf => ?_
  rw [sum_comm]
  have hf' : f < M.faces.length := by rw [← nFaces_eq M h]; exact mem_range.1 hf
  calc _ = ∑ i ∈ range M.nFaceDof, v (M.faceIdx f i) * ∑ q ∈ range M.nFaceQUsed, M.faceMatrix i q * ev f q := by
        refine sum_congr rfl fun i hi => ?_
        rw [sum_eq_single (M.faceIdx f i)]
        · rw [if_pos rfl]
        · intro j _ hj
          rw [if_neg (Ne.symm hj), mul_zero]
        · intro hn
          exact absurd (mem_range.2 (faceIdx_lt M h f i hf' (mem_range.1 hi))) hn
    _ = _ := by
        simp only [mul_sum, sum_mul]
        rw [sum_comm]
        exact sum_congr rfl fun q _ => sum_congr rfl fun i _ => by ring

end Flat

/-! ## Energy balance -/

section Balance

variable {K : Type*} [Field K] [LinearOrder K] [IsStrictOrderedRing K]
variable (p : CHCoef K) (M : Mesh K)

theorem value_sub (S : Space K) (x y : ℕ → K) (e q : ℕ) :
    S.value (fun i => x i - y i) e q = S.value x e q - S.value y e q := by
  unfold Space.value; simp only [sub_mul, sum_sub_distrib]

theorem gradient_sub (S : Space K) (x y : ℕ → K) (e q d : ℕ) :
    S.gradient (fun i => x i - y i) e q d = S.gradient x e q d - S.gradient y e q d := by
  unfold Space.gradient; simp only [sub_mul, sum_sub_distrib]

theorem value_congr (S : Space K) {x y : ℕ → K} (h : ∀ i < S.nDof, x i = y i) (e q : ℕ) :
    S.value x e q = S.value y e q := sum_congr rfl fun i hi => by rw [h i (mem_range.1 hi)]

theorem gradient_congr (S : Space K) {x y : ℕ → K} (h : ∀ i < S.nDof, x i = y i) (e q d : ℕ) :
    S.gradient x e q d = S.gradient y e q d := sum_congr rfl fun i hi => by rw [h i (mem_range.1 hi)]

theorem integral_sub (S : Space K) (f g : ℕ → ℕ → K) :
    S.integral (fun c q => f c q - g c q) = S.integral f - S.integral g := by
  unfold Space.integral
  simp only [sub_mul, sum_sub_distrib]

/-- First block of the residual tested with a vector of the test space. -/
theorem residual0_pair (h : Spec.Fits M) (old oldOld : ℕ → K) (vel : ℕ → ℕ → ℕ → K) (c w v : ℕ → K)
    (hv : Spec.Satisfies M.C M.S.nDof v) :
    ∑ k ∈ range M.S.nDof, v k * residual0 p M old oldOld vel c w k =
      M.S.integral fun e q => (M.submitted p old oldOld vel c w e q).cVal * M.S.value v e q
        + ∑ d ∈ range M.S.dim, (M.submitted p old oldOld vel c w e q).cGrad d * M.S.gradient v e q d := by
  unfold residual0
  rw [M.S.assembled_pair M.C h.closed]
  refine M.S.integral_congr fun e _ q _ => ?_
  rw [value_congr M.S hv]
  congr 1
  exact sum_congr rfl fun d _ => by rw [gradient_congr M.S hv]

/-- The contact term tested with a vector of the second test space is the wall integral of the contact residual. -/
theorem contact_pair (h : Spec.Fits M) (c v : ℕ → K) (hv : Spec.Satisfies M.Cw M.S.nDof v)
    (hc : ∀ F ∈ M.faces, ∀ j ∈ F.dofs, M.C.dist M.S.nDof c j = c j) :
    ∑ k ∈ range M.S.nDof, v k * contactVector p M c k =
      Spec.wall M.nFaceQ M.faces fun F q => 3 / 4 * p.contactAngle * p.surfaceTension *
        ((Spec.wallVal M.nFaceDof M.faceMatrix c F q) ^ 2 - 1) * Spec.wallVal M.nFaceDof M.faceMatrix v F q := by
  by_cases hz : p.contactAngle = 0
  · unfold contactVector
    rw [if_pos hz]
    simp [hz, Spec.wall]
  · unfold contactVector
    rw [if_neg hz, M.Cw.pairing h.closedW]
    have e1 : ∑ i ∈ range M.S.nDof, M.Cw.dist M.S.nDof v i *
          M.faceLocal (fun f q => contactResidual p (M.faceRead c f q) * M.faceW f q) i =
        ∑ i ∈ range M.S.nDof, v i *
          M.faceLocal (fun f q => contactResidual p (M.faceRead c f q) * M.faceW f q) i :=
      sum_congr rfl fun i hi => by rw [hv i (mem_range.1 hi)]
    rw [e1, faceLocal_pair M h]
    unfold Spec.wall
    rw [← sum_faces M, nFaces_eq M h]
    refine sum_congr rfl fun f hf => ?_
    have hf' := mem_range.1 hf
    rw [dif_pos hf', nFaceQUsed_eq M h (by omega)]
    refine sum_congr rfl fun q hq => ?_
    have hw := faceW_eq M h f q hf' (mem_range.1 hq)
    have hval : ∀ x : ℕ → K, ∑ i ∈ range M.nFaceDof, x (M.faceIdx f i) * M.faceMatrix i q =
        Spec.wallVal M.nFaceDof M.faceMatrix x M.faces[f] q := by
      intro x
      unfold Spec.wallVal
      exact sum_congr rfl fun i hi => by rw [faceIdx_eq M h f i hf' (mem_range.1 hi)]
    have hread : M.faceRead c f q = Spec.wallVal M.nFaceDof M.faceMatrix c M.faces[f] q := by
      unfold Mesh.faceRead Spec.wallVal
      refine sum_congr rfl fun i hi => ?_
      have hi' := mem_range.1 hi
      have hl : i < (M.faces[f]).dofs.length := by
        rw [h.faceDofs _ (List.getElem_mem hf')]; exact hi'
      rw [faceIdx_eq M h f i hf' hi', List.getD_eq_getElem _ _ hl,
        hc _ (List.getElem_mem hf') _ (List.getElem_mem hl)]
    rw [hval, hread, hw]
    unfold contactResidual
    ring

/-- Second block of the residual tested with a vector of its test space. -/
theorem residual1_pair (h : Spec.Fits M) (old oldOld : ℕ → K) (vel : ℕ → ℕ → ℕ → K) (c w v : ℕ → K)
    (hv : Spec.Satisfies M.Cw M.S.nDof v)
    (hc : ∀ F ∈ M.faces, ∀ j ∈ F.dofs, M.C.dist M.S.nDof c j = c j) :
    ∑ k ∈ range M.S.nDof, v k * residual1 p M old oldOld vel c w k =
      (M.S.integral fun e q => (M.submitted p old oldOld vel c w e q).wVal * M.S.value v e q
        + ∑ d ∈ range M.S.dim, (M.submitted p old oldOld vel c w e q).wGrad d * M.S.gradient v e q d)
      + Spec.wall M.nFaceQ M.faces (fun F q => 3 / 4 * p.contactAngle * p.surfaceTension *
        ((Spec.wallVal M.nFaceDof M.faceMatrix c F q) ^ 2 - 1) * Spec.wallVal M.nFaceDof M.faceMatrix v F q) := by
  unfold residual1
  simp only [mul_add, sum_add_distrib]
  rw [contact_pair p M h c v hv hc, M.S.assembled_pair M.Cw h.closedW]
  congr 1
  refine M.S.integral_congr fun e _ q _ => ?_
  rw [value_congr M.S hv]
  congr 1
  exact sum_congr rfl fun d _ => by rw [gradient_congr M.S hv]

theorem wall_add (n : ℕ) (faces : List (WallFace K)) (f g : WallFace K → ℕ → K) :
    Spec.wall n faces (fun F q => f F q + g F q) = Spec.wall n faces f + Spec.wall n faces g := by
  unfold Spec.wall
  rw [← List.sum_map_add]
  simp only [add_mul, sum_add_distrib]

theorem wall_sub (n : ℕ) (faces : List (WallFace K)) (f g : WallFace K → ℕ → K) :
    Spec.wall n faces (fun F q => f F q - g F q) = Spec.wall n faces f - Spec.wall n faces g := by
  have := wall_add n faces (fun F q => f F q - g F q) g
  simp only [sub_add_cancel] at this
  rw [this]; ring

theorem wallVal_sub (n : ℕ) (B : ℕ → ℕ → K) (x y : ℕ → K) (F : WallFace K) (q : ℕ) :
    Spec.wallVal n B (fun i => x i - y i) F q = Spec.wallVal n B x F q - Spec.wallVal n B y F q := by
  unfold Spec.wallVal; simp only [sub_mul, sum_sub_distrib]

/-- **C89 (energy balance).** For every implicit Euler step (`weight_old = -weight`, no second old level), every velocity
field, all vectors `old`, `c`, `w` whose increment `c - old` and chemical potential satisfy the homogeneous constraints (wall
values of `c` as well), the change of the free energy including the wall energy is: minus the dissipation
`L²/weight ∫|∇w|²`, minus the numerical dissipation of implicit Euler, minus the convective exchange `1/weight ∫ (u·∇c) w`,
plus the effect of the algebraic residuals that are left. -/
theorem C89_energy_balance (h : Spec.Fits M) (hdim : p.dim = M.S.dim) (hwt : p.weight ≠ 0) (hold : p.weightOld = -p.weight)
    (h1 : p.twoStep = false) (old oldOld : ℕ → K) (vel : ℕ → ℕ → ℕ → K) (c w : ℕ → K)
    (hd : Spec.Satisfies M.Cw M.S.nDof fun i => c i - old i) (hw : Spec.Satisfies M.C M.S.nDof w)
    (hc : ∀ F ∈ M.faces, ∀ j ∈ F.dofs, M.C.dist M.S.nDof c j = c j) :
    let d := fun i => c i - old i
    let n := M.S.dim
    Spec.energy p M c - Spec.energy p M old =
      - p.diffusionLength ^ 2 / p.weight * Spec.bulk M.S (fun e q => Spec.dot n (Spec.dx M.S w e q) (Spec.dx M.S w e q))
      - 3 * p.surfaceTension * p.epsilon / 8 * Spec.bulk M.S (fun e q => Spec.dot n (Spec.dx M.S d e q) (Spec.dx M.S d e q))
      - 3 * p.surfaceTension / (2 * p.epsilon) * Spec.bulk M.S (fun e q => (Spec.val M.S d e q) ^ 2 *
          ((3 * (Spec.val M.S c e q) ^ 2 - 1) / 2 - Spec.val M.S c e q * Spec.val M.S d e q + (Spec.val M.S d e q) ^ 2 / 4))
      - 1 / p.weight * Spec.bulk M.S (fun e q => Spec.dot n (vel e q) (Spec.dx M.S c e q) * Spec.val M.S w e q)
      + Spec.wall M.nFaceQ M.faces (fun F q => 3 / 4 * p.contactAngle * p.surfaceTension *
          (Spec.wallVal M.nFaceDof M.faceMatrix c F q * (Spec.wallVal M.nFaceDof M.faceMatrix d F q) ^ 2
            - (Spec.wallVal M.nFaceDof M.faceMatrix d F q) ^ 3 / 3))
      + ∑ k ∈ range M.S.nDof, (w k * residual0 p M old oldOld vel c w k - d k * residual1 p M old oldOld vel c w k) := by
  intro d n
  have r0 := residual0_pair p M h old oldOld vel c w w hw
  have r1 := residual1_pair p M h old oldOld vel c w d hd hc
  rw [sum_sub_distrib, r0, r1]
  have hinv : p.weightOld * p.inv = -1 := by unfold CHCoef.inv; rw [hold]; field_simp
  have hval : ∀ x e q, Spec.val M.S x e q = M.S.value x e q := fun _ _ _ => rfl
  have hdx : ∀ x e q, Spec.dx M.S x e q = M.S.gradient x e q := fun _ _ _ => rfl
  have hbulk : ∀ f, Spec.bulk M.S f = M.S.integral f := fun _ => rfl
  simp only [hval, hdx, hbulk, Spec.energy]
  have hwall : Spec.wall M.nFaceQ M.faces (fun F q => 3 / 4 * p.contactAngle * p.surfaceTension *
        ((Spec.wallVal M.nFaceDof M.faceMatrix c F q) ^ 3 / 3 - Spec.wallVal M.nFaceDof M.faceMatrix c F q)) =
      Spec.wall M.nFaceQ M.faces (fun F q => 3 / 4 * p.contactAngle * p.surfaceTension *
        ((Spec.wallVal M.nFaceDof M.faceMatrix old F q) ^ 3 / 3 - Spec.wallVal M.nFaceDof M.faceMatrix old F q))
      + (Spec.wall M.nFaceQ M.faces (fun F q => 3 / 4 * p.contactAngle * p.surfaceTension *
        ((Spec.wallVal M.nFaceDof M.faceMatrix c F q) ^ 2 - 1) * Spec.wallVal M.nFaceDof M.faceMatrix d F q)
      - Spec.wall M.nFaceQ M.faces (fun F q => 3 / 4 * p.contactAngle * p.surfaceTension *
          (Spec.wallVal M.nFaceDof M.faceMatrix c F q * (Spec.wallVal M.nFaceDof M.faceMatrix d F q) ^ 2
            - (Spec.wallVal M.nFaceDof M.faceMatrix d F q) ^ 3 / 3))) := by
    rw [← wall_sub, ← wall_add]
    congr 1
    funext F q
    rw [wallVal_sub]
    ring
  have hint : M.S.integral (fun e q => 3 * p.surfaceTension / (2 * p.epsilon) * ((M.S.value c e q) ^ 2 - 1) ^ 2 / 4
        + 3 * p.surfaceTension * p.epsilon / 8 * Spec.dot M.S.dim (M.S.gradient c e q) (M.S.gradient c e q)) =
      M.S.integral (fun e q => 3 * p.surfaceTension / (2 * p.epsilon) * ((M.S.value old e q) ^ 2 - 1) ^ 2 / 4
        + 3 * p.surfaceTension * p.epsilon / 8 * Spec.dot M.S.dim (M.S.gradient old e q) (M.S.gradient old e q))
      + (- p.diffusionLength ^ 2 / p.weight *
          M.S.integral (fun e q => Spec.dot M.S.dim (M.S.gradient w e q) (M.S.gradient w e q))
      - 3 * p.surfaceTension * p.epsilon / 8 *
          M.S.integral (fun e q => Spec.dot M.S.dim (M.S.gradient d e q) (M.S.gradient d e q))
      - 3 * p.surfaceTension / (2 * p.epsilon) * M.S.integral (fun e q => (M.S.value d e q) ^ 2 *
          ((3 * (M.S.value c e q) ^ 2 - 1) / 2 - M.S.value c e q * M.S.value d e q + (M.S.value d e q) ^ 2 / 4))
      - 1 / p.weight * M.S.integral (fun e q => Spec.dot M.S.dim (vel e q) (M.S.gradient c e q) * M.S.value w e q)
      + (M.S.integral (fun e q => (M.submitted p old oldOld vel c w e q).cVal * M.S.value w e q
        + ∑ k ∈ range M.S.dim, (M.submitted p old oldOld vel c w e q).cGrad k * M.S.gradient w e q k)
      - M.S.integral (fun e q => (M.submitted p old oldOld vel c w e q).wVal * M.S.value d e q
        + ∑ k ∈ range M.S.dim, (M.submitted p old oldOld vel c w e q).wGrad k * M.S.gradient d e q k))) := by
    simp only [← Space.integral_smul, ← integral_sub, ← Space.integral_add]
    refine M.S.integral_congr fun e _ q _ => ?_
    have g1 : ∑ k ∈ range M.S.dim, (M.submitted p old oldOld vel c w e q).cGrad k * M.S.gradient w e q k =
        p.mobility * Spec.dot M.S.dim (M.S.gradient w e q) (M.S.gradient w e q) := by
      unfold Spec.dot
      rw [mul_sum]
      exact sum_congr rfl fun k _ => by simp only [Mesh.submitted, chResidual, Mesh.point]; ring
    have g2 : ∑ k ∈ range M.S.dim, (M.submitted p old oldOld vel c w e q).wGrad k * M.S.gradient d e q k =
        -p.factor4 * Spec.dot M.S.dim (M.S.gradient c e q) (M.S.gradient d e q) := by
      unfold Spec.dot
      rw [mul_sum]
      exact sum_congr rfl fun k _ => by simp only [Mesh.submitted, chResidual, Mesh.point]; ring
    have g3 : Spec.dot M.S.dim (M.S.gradient c e q) (M.S.gradient d e q) =
        (Spec.dot M.S.dim (M.S.gradient c e q) (M.S.gradient c e q)
          + Spec.dot M.S.dim (M.S.gradient d e q) (M.S.gradient d e q)
          - Spec.dot M.S.dim (M.S.gradient old e q) (M.S.gradient old e q)) / 2 := by
      unfold Spec.dot
      rw [← sum_add_distrib, ← sum_sub_distrib, sum_div]
      refine sum_congr rfl fun k _ => ?_
      rw [show M.S.gradient d e q k = M.S.gradient c e q k - M.S.gradient old e q k from gradient_sub _ _ _ _ _ _]
      ring
    have g4 : sprod p.dim (M.S.gradient c e q) (vel e q) = Spec.dot M.S.dim (vel e q) (M.S.gradient c e q) := by
      unfold sprod Spec.dot
      rw [hdim]
      exact sum_congr rfl fun k _ => by ring
    have g5 : (M.submitted p old oldOld vel c w e q).cVal =
        M.S.value d e q + 1 / p.weight * Spec.dot M.S.dim (vel e q) (M.S.gradient c e q) := by
      rw [show M.S.value d e q = M.S.value c e q - M.S.value old e q from value_sub _ _ _ _ _]
      simp only [Mesh.submitted, chResidual, Mesh.point, h1, hinv, g4, Bool.false_eq_true, if_false]
      unfold CHCoef.inv
      ring
    have g6 : (M.submitted p old oldOld vel c w e q).wVal =
        M.S.value w e q - 3 * p.surfaceTension / (2 * p.epsilon) * ((M.S.value c e q) ^ 3 - M.S.value c e q) := by
      simp only [Mesh.submitted, chResidual, Mesh.point, CHCoef.factor2]
      ring
    have g7 : p.mobility = p.diffusionLength ^ 2 / p.weight := by unfold CHCoef.mobility CHCoef.inv; ring
    have g8 : p.factor4 = 3 * p.surfaceTension * p.epsilon / 4 := by unfold CHCoef.factor4; ring
    rw [g1, g2, g3, g5, g6, g7, g8]
    rw [show M.S.value d e q = M.S.value c e q - M.S.value old e q from value_sub _ _ _ _ _]
    ring
  rw [hint, hwall]
  ring

theorem integral_nonneg (S : Space K) (hj : ∀ e < S.nCell, ∀ q < S.nQ, 0 ≤ S.jxw e q) (f : ℕ → ℕ → K)
    (hf : ∀ e q, 0 ≤ f e q) : 0 ≤ S.integral f :=
  sum_nonneg fun e he => sum_nonneg fun q hq => mul_nonneg (hf e q) (hj e (mem_range.1 he) q (mem_range.1 hq))

theorem dot_self_nonneg (n : ℕ) (a : ℕ → K) : 0 ≤ Spec.dot n a a := sum_nonneg fun _ _ => mul_self_nonneg _

/-- **C89 (energy decay).** Without flow and contact angle, every solution of an implicit Euler step (all residual entries
zero) has at most the free energy of the old concentration if `L²/weight · σ ≤ (8/3) ε³`, i.e. for step sizes up to
`8 ε³ / (3 σ L²)`. -/
theorem C89_energy_decays (h : Spec.Fits M) (hdim : p.dim = M.S.dim) (hwt : 0 < p.weight) (hold : p.weightOld = -p.weight)
    (h1 : p.twoStep = false) (hs : 0 ≤ p.surfaceTension) (he : 0 < p.epsilon) (ha : p.contactAngle = 0)
    (hj : ∀ e < M.S.nCell, ∀ q < M.S.nQ, 0 ≤ M.S.jxw e q)
    (hstep : p.diffusionLength ^ 2 / p.weight * p.surfaceTension ≤ 8 / 3 * p.epsilon ^ 3)
    (old oldOld : ℕ → K) (c w : ℕ → K)
    (hd : Spec.Satisfies M.Cw M.S.nDof fun i => c i - old i) (hd' : Spec.Satisfies M.C M.S.nDof fun i => c i - old i)
    (hw : Spec.Satisfies M.C M.S.nDof w)
    (hc : ∀ F ∈ M.faces, ∀ j ∈ F.dofs, M.C.dist M.S.nDof c j = c j)
    (hr0 : ∀ k < M.S.nDof, residual0 p M old oldOld (fun _ _ _ => 0) c w k = 0)
    (hr1 : ∀ k < M.S.nDof, residual1 p M old oldOld (fun _ _ _ => 0) c w k = 0) :
    Spec.energy p M c ≤ Spec.energy p M old := by
  have hb := C89_energy_balance p M h hdim hwt.ne' hold h1 old oldOld (fun _ _ _ => 0) c w hd hw hc
  dsimp only at hb
  have z1 : ∑ k ∈ range M.S.nDof, (w k * residual0 p M old oldOld (fun _ _ _ => 0) c w k
      - (c k - old k) * residual1 p M old oldOld (fun _ _ _ => 0) c w k) = 0 :=
    sum_eq_zero fun k hk => by rw [hr0 k (mem_range.1 hk), hr1 k (mem_range.1 hk)]; ring
  have z2 : Spec.wall M.nFaceQ M.faces (fun F q => 3 / 4 * p.contactAngle * p.surfaceTension *
          (Spec.wallVal M.nFaceDof M.faceMatrix c F q *
            (Spec.wallVal M.nFaceDof M.faceMatrix (fun i => c i - old i) F q) ^ 2
            - (Spec.wallVal M.nFaceDof M.faceMatrix (fun i => c i - old i) F q) ^ 3 / 3)) = 0 := by
    simp [Spec.wall, ha]
  have z3 : Spec.bulk M.S (fun e q => Spec.dot M.S.dim (fun _ => 0) (Spec.dx M.S c e q) * Spec.val M.S w e q) = 0 := by
    simp [Spec.bulk, Spec.dot]
  rw [z1, z2, z3] at hb
  have hbulk : ∀ f, Spec.bulk M.S f = M.S.integral f := fun _ => rfl
  have hval : ∀ x e q, Spec.val M.S x e q = M.S.value x e q := fun _ _ _ => rfl
  have hdx : ∀ x e q, Spec.dx M.S x e q = M.S.gradient x e q := fun _ _ _ => rfl
  simp only [hbulk, hval, hdx] at hb
  -- first equation tested with the increment
  have r0 := residual0_pair p M h old oldOld (fun _ _ _ => 0) c w (fun i => c i - old i) hd'
  rw [sum_eq_zero fun k hk => by rw [hr0 k (mem_range.1 hk)]; ring] at r0
  have hinv : p.weightOld * p.inv = -1 := by
    unfold CHCoef.inv; rw [hold]; field_simp
  set m := p.diffusionLength ^ 2 / p.weight with hm
  have hm0 : 0 ≤ m := by positivity
  have r0' : M.S.integral (fun e q => (M.S.value (fun i => c i - old i) e q) ^ 2) +
      m * M.S.integral (fun e q => Spec.dot M.S.dim (M.S.gradient w e q) (M.S.gradient (fun i => c i - old i) e q)) = 0 := by
    rw [r0, ← Space.integral_smul, ← Space.integral_add]
    refine M.S.integral_congr fun e _ q _ => ?_
    have g1 : ∑ k ∈ range M.S.dim, (M.submitted p old oldOld (fun _ _ _ => 0) c w e q).cGrad k *
        M.S.gradient (fun i => c i - old i) e q k =
        m * Spec.dot M.S.dim (M.S.gradient w e q) (M.S.gradient (fun i => c i - old i) e q) := by
      unfold Spec.dot
      rw [mul_sum]
      refine sum_congr rfl fun k _ => ?_
      simp only [Mesh.submitted, chResidual, Mesh.point, CHCoef.mobility, CHCoef.inv, hm]; ring
    rw [g1, value_sub]
    simp only [Mesh.submitted, chResidual, Mesh.point, h1, hinv, Bool.false_eq_true, if_false, sprod, mul_zero,
      sum_const_zero, zero_mul]
    ring
  -- Young inequality
  set f2 := 3 * p.surfaceTension / (2 * p.epsilon) with hf2
  have hf20 : 0 ≤ f2 := by positivity
  have young : 0 ≤ M.S.integral (fun e q => Spec.dot M.S.dim (M.S.gradient w e q) (M.S.gradient w e q)
      + f2 / 2 * Spec.dot M.S.dim (M.S.gradient w e q) (M.S.gradient (fun i => c i - old i) e q)
      + f2 ^ 2 / 16 * Spec.dot M.S.dim (M.S.gradient (fun i => c i - old i) e q)
          (M.S.gradient (fun i => c i - old i) e q)) := by
    refine integral_nonneg M.S hj _ fun e q => ?_
    have : Spec.dot M.S.dim (M.S.gradient w e q) (M.S.gradient w e q)
      + f2 / 2 * Spec.dot M.S.dim (M.S.gradient w e q) (M.S.gradient (fun i => c i - old i) e q)
      + f2 ^ 2 / 16 * Spec.dot M.S.dim (M.S.gradient (fun i => c i - old i) e q)
          (M.S.gradient (fun i => c i - old i) e q) =
        ∑ k ∈ range M.S.dim, (M.S.gradient w e q k + f2 / 4 * M.S.gradient (fun i => c i - old i) e q k) ^ 2 := by
      unfold Spec.dot
      rw [mul_sum, mul_sum, ← sum_add_distrib, ← sum_add_distrib]
      exact sum_congr rfl fun k _ => by ring
    rw [this]
    exact sum_nonneg fun _ _ => sq_nonneg _
  simp only [Space.integral_add, Space.integral_smul] at young
  -- lower bound of the double well
  have well : 0 ≤ M.S.integral (fun e q => (M.S.value (fun i => c i - old i) e q) ^ 2 *
          ((3 * (M.S.value c e q) ^ 2 - 1) / 2 - M.S.value c e q * M.S.value (fun i => c i - old i) e q
            + (M.S.value (fun i => c i - old i) e q) ^ 2 / 4)
        + 1 / 2 * (M.S.value (fun i => c i - old i) e q) ^ 2) := by
    refine integral_nonneg M.S hj _ fun e q => ?_
    generalize M.S.value c e q = b
    generalize M.S.value (fun i => c i - old i) e q = d
    have : d ^ 2 * ((3 * b ^ 2 - 1) / 2 - b * d + d ^ 2 / 4) + 1 / 2 * d ^ 2 =
        d ^ 2 * ((d / 2 - b) ^ 2 + b ^ 2 / 2) := by ring
    rw [this]
    positivity
  rw [Space.integral_add, Space.integral_smul] at well
  have gd : 0 ≤ M.S.integral (fun e q => Spec.dot M.S.dim (M.S.gradient (fun i => c i - old i) e q)
      (M.S.gradient (fun i => c i - old i) e q)) :=
    integral_nonneg M.S hj _ fun e q => dot_self_nonneg _ _
  have hcond : m * f2 ^ 2 / 16 ≤ 3 * p.surfaceTension * p.epsilon / 8 := by
    have e1 : m * f2 ^ 2 / 16 = m * p.surfaceTension * (9 * p.surfaceTension / (64 * p.epsilon ^ 2)) := by
      rw [hf2]; field_simp; ring
    have e2 : 3 * p.surfaceTension * p.epsilon / 8 =
        8 / 3 * p.epsilon ^ 3 * (9 * p.surfaceTension / (64 * p.epsilon ^ 2)) := by field_simp; ring
    rw [e1, e2]
    exact mul_le_mul_of_nonneg_right hstep (by positivity)
  have hneg : - p.diffusionLength ^ 2 / p.weight = -m := by rw [hm]; ring
  rw [hneg] at hb
  revert hb young well gd r0'
  generalize M.S.integral (fun e q => Spec.dot M.S.dim (M.S.gradient w e q) (M.S.gradient w e q)) = A
  generalize M.S.integral (fun e q => Spec.dot M.S.dim (M.S.gradient (fun i => c i - old i) e q)
      (M.S.gradient (fun i => c i - old i) e q)) = B
  generalize M.S.integral (fun e q => Spec.dot M.S.dim (M.S.gradient w e q)
      (M.S.gradient (fun i => c i - old i) e q)) = X
  generalize M.S.integral (fun e q => (M.S.value (fun i => c i - old i) e q) ^ 2) = D
  generalize M.S.integral (fun e q => (M.S.value (fun i => c i - old i) e q) ^ 2 *
          ((3 * (M.S.value c e q) ^ 2 - 1) / 2 - M.S.value c e q * M.S.value (fun i => c i - old i) e q
            + (M.S.value (fun i => c i - old i) e q) ^ 2 / 4)) = W
  intro hb r0' young well gd
  have hmY := mul_nonneg hm0 young
  have hfW := mul_nonneg hf20 well
  have hB := mul_nonneg (sub_nonneg.2 hcond) gd
  have hX : f2 / 2 * (m * X) = -(f2 / 2 * D) := by
    have : m * X = -D := by linarith
    rw [this]; ring
  nlinarith

end Balance

/-! Non-vacuity: a mesh of one linear element with a wall face at the right end, one exact implicit Euler step from the
concentration `(1/4, 3/4)`; the energy decreases strictly. -/

def exMesh : Mesh ℚ where
  S := { dim := 1, nDof := 2, nCell := 1, nQ := 1, val := fun _ _ _ => 1 / 2,
         grad := fun i _ _ _ => if i = 0 then -1 else 1, jxw := fun _ _ => 1 }
  C := ⟨fun _ => none⟩
  Cw := ⟨fun _ => none⟩
  nFaceDof := 1
  nFaceQ := 1
  faces := [⟨[1], [1]⟩]
  faceMatrix := fun _ _ => 1

def exCoef : CHCoef ℚ := ⟨1, 1, -1, 0, false, 1, 1, 1, 0⟩

theorem exMesh_fits : Spec.Fits exMesh where
  closed := by intro i c hi; cases hi
  closedW := by intro i c hi; cases hi
  faceDofs := by decide
  faceQs := by intro F hF; rw [List.mem_singleton.1 hF]; rfl
  pos := by decide
  inRange := by decide

def exOld (i : ℕ) : ℚ := if i = 0 then 1 / 4 else 3 / 4

example : Spec.energy exCoef exMesh (fun _ => 1 / 2) < Spec.energy exCoef exMesh exOld ∧
    Spec.energy exCoef exMesh (fun _ => 1 / 2) ≤ Spec.energy exCoef exMesh exOld := by
  constructor
  · decide +kernel
  · exact C89_energy_decays exCoef exMesh exMesh_fits rfl (by decide +kernel) (by decide +kernel) rfl (by decide +kernel)
      (by decide +kernel) rfl (by decide +kernel) (by decide +kernel) exOld (fun _ => 0) (fun _ => 1 / 2) (fun _ => -9 / 16)
      (fun _ _ => rfl) (fun _ _ => rfl) (fun _ _ => rfl) (fun _ _ _ _ => rfl) (by decide +kernel) (by decide +kernel)

/-- With a contact angle and velocity the balance has all its terms. -/
example : let p : CHCoef ℚ := { exCoef with contactAngle := 1 / 3 }
    Spec.wall exMesh.nFaceQ exMesh.faces (fun F q => 3 / 4 * p.contactAngle * p.surfaceTension *
        ((Spec.wallVal exMesh.nFaceDof exMesh.faceMatrix exOld F q) ^ 2 - 1)) ≠ 0 ∧
    Spec.energy p exMesh exOld ≠ Spec.energy exCoef exMesh exOld := by
  decide +kernel

/-! ## Material values and force for the flow solver -/

section Force

variable {K : Type*} [Field K] [LinearOrder K]

/-- Parameters of `local_compute_force` and the interpolation matrix `interpolation_concentration_pressure`
(phase_field.cc:60-77; `interp i j`: value of the `j`-th concentration function of a cell at the `i`-th pressure node). -/
structure FlowData (K : Type*) where
  rho : K
  rhoDiff : K
  mu : K
  muDiff : K
  gravity : K
  nPre : ℕ
  nLs : ℕ
  interp : ℕ → ℕ → K
  preGrad : ℕ → ℕ → ℕ → ℕ → K
  cellDof : ℕ → ℕ → ℕ

variable (g : FlowData K) (S : Space K) (C : Constr K)

/-- `heaviside_val`, phase_field_local.cc:74, 79, 85-88. `read_dof_values` resolves the constraints of degree-of-freedom
index 2 (`constraints`), which are homogeneous. `S` is the concentration space on the quadrature points of the velocity. -/
def heavisideVal (c : ℕ → K) (e q : ℕ) : K := min 1 (max 0 (1 / 2 * (S.value (C.dist S.nDof c) e q + 1)))

/-- `densities[q]`, `viscosities[q]`, lines 89-92. -/
def densityAt (c : ℕ → K) (e q : ℕ) : K := g.rho + g.rhoDiff * heavisideVal S C c e q
def viscosityAt (c : ℕ → K) (e q : ℕ) : K := g.mu + g.muDiff * heavisideVal S C c e q

/-- `projected_value`, lines 97-104. -/
def preValue (c : ℕ → K) (e i : ℕ) : K := ∑ j ∈ range g.nLs, g.interp i j * C.dist S.nDof c (g.cellDof e j)

/-- Component `d` of `force`, lines 106-127: surface tension from the chemical potential (`read_dof_values`, again with index 2)
and the gradient of the interpolated concentration, gravity in the last component with the density of the point. -/
def forceAt (c w : ℕ → K) (e q d : ℕ) : K :=
  let tension := S.value (C.dist S.nDof w) e q * ∑ i ∈ range g.nPre, preValue g S C c e i * g.preGrad i e q d
  let rho := if g.rhoDiff ≠ 0 ∨ g.muDiff ≠ 0 then densityAt g S C c e q else g.rho
  if d = S.dim - 1 then tension - g.gravity * rho else tension

/-- Specification: fraction of the second fluid for a concentration value. -/
def Spec.fraction (c : K) : K := if c ≤ -1 then 0 else if 1 ≤ c then 1 else (c + 1) / 2

/-- Specification: the capillary force `w ∇c` and gravity. -/
def Spec.force (gravity tension rho : K) (dim d : ℕ) : K := if d + 1 = dim then tension - gravity * rho else tension

variable [IsStrictOrderedRing K]

theorem clamp_eq (c : K) : min 1 (max 0 (1 / 2 * (c + 1))) = Spec.fraction c := by
  unfold Spec.fraction
  split_ifs with h1 h2
  · rw [max_eq_left (by linarith), min_eq_right (by norm_num)]
  · rw [max_eq_right (by linarith), min_eq_left (by linarith)]
  · rw [max_eq_right (by linarith), min_eq_right (by linarith)]; ring

/-- **C89 (material, partial).** If the concentration satisfies the homogeneous constraints (no boundary with prescribed fluid),
density and viscosity of every quadrature point are those of the concentration there. Missing: prescribed fluids. -/
theorem C89_material_partial (c : ℕ → K) (hc : Spec.Satisfies C S.nDof c) (e q : ℕ) :
    densityAt g S C c e q = g.rho + g.rhoDiff * Spec.fraction (Spec.val S c e q) ∧
    viscosityAt g S C c e q = g.mu + g.muDiff * Spec.fraction (Spec.val S c e q) := by
  have : heavisideVal S C c e q = Spec.fraction (Spec.val S c e q) := by
    unfold heavisideVal
    rw [clamp_eq, value_congr S hc]
    rfl
  unfold densityAt viscosityAt
  rw [this]
  exact ⟨rfl, rfl⟩

/-- **C89 (prescribed fluid is ignored).** Where only degrees of freedom on boundaries with prescribed fluid contribute, the
concentration, whatever it is, is seen as zero: the mean of the two densities and viscosities is used. -/
theorem C89_inflow_material (c : ℕ → K) (e q : ℕ)
    (hD : ∀ i < S.nDof, S.val i e q ≠ 0 → ∃ r, C.row i = some r ∧ ∀ k < S.nDof, r k = 0) :
    densityAt g S C c e q = g.rho + g.rhoDiff / 2 ∧ viscosityAt g S C c e q = g.mu + g.muDiff / 2 := by
  have hv : S.value (C.dist S.nDof c) e q = 0 := by
    unfold Space.value
    refine sum_eq_zero fun i hi => ?_
    by_cases hz : S.val i e q = 0
    · rw [hz, mul_zero]
    · obtain ⟨r, hr, h0⟩ := hD i (mem_range.1 hi) hz
      have : C.dist S.nDof c i = 0 := by
        unfold Constr.dist
        rw [hr]
        exact sum_eq_zero fun k hk => by rw [h0 k (mem_range.1 hk), zero_mul]
      rw [this, zero_mul]
  have : heavisideVal S C c e q = 1 / 2 := by
    unfold heavisideVal
    rw [hv, clamp_eq]
    unfold Spec.fraction
    rw [if_neg (by linarith [zero_lt_one (α := K)]), if_neg (by linarith [zero_lt_one (α := K)])]
    norm_num
  unfold densityAt viscosityAt
  rw [this]
  constructor <;> ring

/-- **C89 (inflow of the heavy fluid).** On such a cell with concentration one prescribed, the density differs from that of the
prescribed fluid. -/
theorem C89_inflow_density_wrong (c : ℕ → K) (e q : ℕ) (h0 : g.rhoDiff ≠ 0)
    (hD : ∀ i < S.nDof, S.val i e q ≠ 0 → ∃ r, C.row i = some r ∧ ∀ k < S.nDof, r k = 0)
    (h1 : Spec.val S c e q = 1) :
    densityAt g S C c e q ≠ g.rho + g.rhoDiff * Spec.fraction (Spec.val S c e q) := by
  rw [(C89_inflow_material g S C c e q hD).1, h1]
  unfold Spec.fraction
  rw [if_neg (by linarith [zero_lt_one (α := K)]), if_pos le_rfl]
  intro h
  apply h0
  linarith

/-- Non-vacuity: a cell with all nodes on the boundary with prescribed fluid. -/
example : ∃ (S : Space ℚ) (C : Constr ℚ) (c : ℕ → ℚ) (g : FlowData ℚ),
    (∀ i < S.nDof, S.val i 0 0 ≠ 0 → ∃ r, C.row i = some r ∧ ∀ k < S.nDof, r k = 0) ∧ Spec.val S c 0 0 = 1 ∧
    densityAt g S C c 0 0 = 500 ∧ g.rho + g.rhoDiff * Spec.fraction (Spec.val S c 0 0) = 1000 := by
  refine ⟨exMesh.S, ⟨fun _ => some fun _ => 0⟩, fun _ => 1,
    ⟨0, 1000, 1, 0, 0, 0, 0, fun _ _ => 0, fun _ _ _ _ => 0, fun _ _ => 0⟩, ?_, ?_, ?_, ?_⟩
  · exact fun _ _ _ => ⟨_, rfl, fun _ _ => rfl⟩
  all_goals decide +kernel

/-- **C89 (force, partial).** If concentration and chemical potential satisfy the homogeneous constraints, the force at every
point is the chemical potential times the gradient of the interpolation of the concentration to the pressure space, minus
gravity times the density of the point in the last direction. -/
theorem C89_force_partial (hdim : 0 < S.dim) (hl : ∀ e, ∀ j < g.nLs, g.cellDof e j < S.nDof) (c w : ℕ → K)
    (hc : Spec.Satisfies C S.nDof c) (hw : Spec.Satisfies C S.nDof w)
    (e q d : ℕ) :
    forceAt g S C c w e q d = Spec.force g.gravity
      (Spec.val S w e q * ∑ i ∈ range g.nPre, (∑ j ∈ range g.nLs, c (g.cellDof e j) * g.interp i j) * g.preGrad i e q d)
      (g.rho + g.rhoDiff * Spec.fraction (Spec.val S c e q)) S.dim d := by
  have ht : S.value (C.dist S.nDof w) e q * ∑ i ∈ range g.nPre, preValue g S C c e i * g.preGrad i e q d =
      Spec.val S w e q * ∑ i ∈ range g.nPre, (∑ j ∈ range g.nLs, c (g.cellDof e j) * g.interp i j) * g.preGrad i e q d := by
    rw [value_congr S hw]
    change Spec.val S w e q * _ = _
    congr 1
    refine sum_congr rfl fun i _ => ?_
    congr 1
    unfold preValue
    refine sum_congr rfl fun j hj => ?_
    rw [hc _ (hl e j (mem_range.1 hj))]
    ring
  have hd : (d = S.dim - 1) = (d + 1 = S.dim) := by
    apply propext; omega
  have hr : (if g.rhoDiff ≠ 0 ∨ g.muDiff ≠ 0 then densityAt g S C c e q else g.rho) =
      g.rho + g.rhoDiff * Spec.fraction (Spec.val S c e q) := by
    split_ifs with hv
    · rw [(C89_material_partial g S C c hc e q).1]
    · rw [not_or, not_not, not_not] at hv
      rw [hv.1]; ring
  unfold forceAt Spec.force
  simp only [ht, hd, hr]

/-- **C89 (balance of forces).** In equilibrium (constant chemical potential `μ`, represented exactly) and without gravity the
force is the gradient of a pressure function, the one with nodal values `μ c`: no spurious currents are driven. -/
theorem C89_force_is_pressure_gradient (c w : ℕ → K) (m : K) (hw : Spec.Satisfies C S.nDof w) (hg : g.gravity = 0)
    (hc : Spec.Satisfies C S.nDof c) (hl : ∀ e, ∀ j < g.nLs, g.cellDof e j < S.nDof)
    (hm : ∀ i < S.nDof, w i = m) (e q d : ℕ) (hp : ∑ i ∈ range S.nDof, S.val i e q = 1) :
    forceAt g S C c w e q d =
      ∑ i ∈ range g.nPre, (m * ∑ j ∈ range g.nLs, g.interp i j * c (g.cellDof e j)) * g.preGrad i e q d := by
  have hv : S.value (C.dist S.nDof w) e q = m := by
    rw [value_congr S hw, value_congr S hm]
    unfold Space.value
    rw [← mul_sum, hp, mul_one]
  have hpre : ∀ i, preValue g S C c e i = ∑ j ∈ range g.nLs, g.interp i j * c (g.cellDof e j) := by
    intro i
    exact sum_congr rfl fun j hj => by rw [hc _ (hl e j (mem_range.1 hj))]
  unfold forceAt
  simp only [hv, hg, zero_mul, sub_zero, ite_self, mul_sum, hpre]
  exact sum_congr rfl fun i _ => by rw [sum_mul, sum_mul, mul_sum]; exact sum_congr rfl fun j _ => by ring

end Force

/-! ## Trace on the wall -/

section Trace

/-- Shape functions of `FE_Q<1>(degree)` at a point of the unit interval for degree 1 and 2 (nodes: vertices, then midpoint),
from which `face_matrix` is built in two dimensions, phase_field.cc:84-90. -/
noncomputable def faceShape (degree i : ℕ) (x : ℝ) : ℝ :=
  if degree = 1 then (if i = 0 then 1 - x else x)
  else if i = 0 then (1 - x) * (1 - 2 * x) else if i = 1 then x * (2 * x - 1) else 4 * x * (1 - x)

/-- Points of `QIterated<1>(QGauss<1>(2), degree)`, phase_field.cc:80: the two Gauss points in each of `degree` intervals. -/
noncomputable def facePoint (degree q : ℕ) : ℝ :=
  ((q / 2 : ℕ) + (1 + (if q % 2 = 0 then -1 else 1) / Real.sqrt 3) / 2) / degree

/-- Specification: trace of `FE_Q_iso_Q1(degree)` (the element of the phase field, phase_field.cc:53): the piecewise linear hat
function of the `i`-th node; nodes in the order vertices, then midpoint. -/
noncomputable def Spec.hat (degree i : ℕ) (x : ℝ) : ℝ :=
  let node : ℝ := if i = 0 then 0 else if i = 1 then 1 else 1 / 2
  max 0 (1 - degree * |x - node|)

theorem sqrt3_bounds : 1 < Real.sqrt 3 ∧ Real.sqrt 3 < 2 := by
  constructor
  · rw [show (1 : ℝ) = Real.sqrt 1 by simp]; exact Real.sqrt_lt_sqrt (by norm_num) (by norm_num)
  · rw [show (2 : ℝ) = Real.sqrt 4 by rw [show (4 : ℝ) = 2 ^ 2 by norm_num]; simp]
    exact Real.sqrt_lt_sqrt (by norm_num) (by norm_num)

theorem inv_sqrt3 : 0 < 1 / Real.sqrt 3 ∧ 1 / Real.sqrt 3 < 1 := by
  obtain ⟨h1, h2⟩ := sqrt3_bounds
  refine ⟨by positivity, ?_⟩
  rw [div_lt_one (by linarith)]
  exact h1

theorem facePoint_mem (degree q : ℕ) (hd : 0 < degree) (hq : q < 2 * degree) :
    0 < facePoint degree q ∧ facePoint degree q < 1 := by
  obtain ⟨h1, h2⟩ := inv_sqrt3
  have hd' : (0 : ℝ) < degree := by exact_mod_cast hd
  have hs : -(1 : ℝ) < (if q % 2 = 0 then (-1 : ℝ) else 1) / Real.sqrt 3 ∧
      (if q % 2 = 0 then (-1 : ℝ) else 1) / Real.sqrt 3 < 1 := by
    split_ifs
    · rw [neg_div]; constructor <;> linarith
    · constructor <;> linarith
  have hk : q / 2 + 1 ≤ degree := by omega
  have hk' : ((q / 2 : ℕ) : ℝ) + 1 ≤ degree := by exact_mod_cast hk
  have hk0 : (0 : ℝ) ≤ ((q / 2 : ℕ) : ℝ) := Nat.cast_nonneg _
  unfold facePoint
  refine ⟨div_pos (by linarith) hd', ?_⟩
  rw [div_lt_one hd']
  linarith

/-- **C89 (trace, partial).** With one subdivision the face matrix holds the traces of the basis functions of the phase field.
Missing: more subdivisions, for which it does not. -/
theorem C89_trace_degree_one_partial (i q : ℕ) (hi : i < 2) (hq : q < 2) :
    faceShape 1 i (facePoint 1 q) = Spec.hat 1 i (facePoint 1 q) := by
  obtain ⟨h1, h2⟩ := facePoint_mem 1 q (by norm_num) (by omega)
  generalize facePoint 1 q = x at h1 h2 ⊢
  unfold faceShape Spec.hat
  rcases (by omega : i = 0 ∨ i = 1) with rfl | rfl
  · simp only [if_true, Nat.cast_one, one_mul, sub_zero]
    rw [abs_of_pos h1, max_eq_right (by linarith)]
  · simp only [if_true, Nat.cast_one, one_mul, one_ne_zero, if_false]
    rw [abs_of_neg (by linarith), max_eq_right (by linarith)]; ring

theorem facePoint_ne_half (q : ℕ) (hq : q < 4) : facePoint 2 q < 1 / 2 ∨ 1 / 2 < facePoint 2 q := by
  obtain ⟨h1, h2⟩ := inv_sqrt3
  have hq4 : q = 0 ∨ q = 1 ∨ q = 2 ∨ q = 3 := by omega
  unfold facePoint
  rcases hq4 with rfl | rfl | rfl | rfl
  · left; norm_num; rw [neg_div]; linarith
  · left; norm_num; simp only [one_div] at h2; linarith
  · right; norm_num; rw [neg_div]; linarith
  · right; norm_num; simp only [one_div] at h1; linarith

/-- **C89 (trace of refined elements).** With two subdivisions the middle basis function is evaluated as a parabola at every
quadrature point of the face, which is not the trace of the piecewise linear function the equations are posed for. -/
theorem C89_trace_degree_two_wrong (q : ℕ) (hq : q < 4) :
    faceShape 2 2 (facePoint 2 q) ≠ Spec.hat 2 2 (facePoint 2 q) := by
  obtain ⟨h1, h2⟩ := facePoint_mem 2 q (by norm_num) (by omega)
  have h3 := facePoint_ne_half q hq
  generalize facePoint 2 q = x at h1 h2 h3 ⊢
  unfold faceShape Spec.hat
  simp only [OfNat.ofNat_ne_one, OfNat.ofNat_ne_zero, if_false]
  rcases h3 with h3 | h3
  · rw [abs_of_neg (by linarith), max_eq_right (by push_cast; linarith)]
    push_cast
    intro h
    nlinarith
  · rw [abs_of_pos (by linarith), max_eq_right (by push_cast; linarith)]
    push_cast
    intro h
    nlinarith

/-- **C89 (constants on the wall).** For one and two subdivisions the face functions sum to one, so constant concentrations are
evaluated correctly. -/
theorem C89_trace_constants (x : ℝ) :
    faceShape 1 0 x + faceShape 1 1 x = 1 ∧ faceShape 2 0 x + faceShape 2 1 x + faceShape 2 2 x = 1 := by
  unfold faceShape
  norm_num
  ring

end Trace

end Verif.PhaseField.Energy
