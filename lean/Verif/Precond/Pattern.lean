import Verif.FE.Space
import Mathlib.Algebra.Order.Ring.Rat
import Mathlib.Algebra.Order.BigOperators.Group.Finset
import Mathlib.Algebra.Order.BigOperators.Ring.Finset
import Mathlib.Algebra.BigOperators.Group.List.Basic
import Mathlib.Tactic.Linarith
import Mathlib.Tactic.FieldSimp
import Mathlib.Tactic.Positivity
import Mathlib.Tactic.NormNum

/-!
# C90: sparsity patterns contain every entry that assembly writes
(source/navier_stokes_preconditioner.cc:1190-1334, 1397-1404 and assembly 1898-2172, 2342-2355;
source/level_set_okz_matrix.cc:71-92; source/level_set_okz_preconditioner.cc:60-180; source/phase_field.cc:241-305)

The pattern of the augmented pressure matrix (faces) is C81. The meaning given to deal.II: `distribute_local_to_global` adds
every local entry to all pairs of positions its row and column resolve to, and something to the diagonal of constrained rows;
zero results are not written. `add_entries_local_to_global` adds the pairs of positions of all local pairs allowed by the mask
and the diagonal of constrained rows. `make_sparsity_pattern` calls it for all cells.
-/

namespace Verif.Precond.Pattern

open Finset Verif.FE

variable {K : Type*} [Field K]

/-! ## Model -/

/-- A local matrix with the indices it is distributed to; `diag i` is what is added to the diagonal if row `i` is
constrained. -/
structure Block (K : Type*) where
  n : ℕ
  idx : ℕ → ℕ
  a : ℕ → ℕ → K
  diag : ℕ → K

/-- Local index set with a mask, as given to `add_entries_local_to_global`. -/
structure Entries where
  n : ℕ
  idx : ℕ → ℕ
  mask : ℕ → ℕ → Bool

/-- All entries of the local matrices before the constraints are resolved. -/
def raw (bs : List (Block K)) (I J : ℕ) : K :=
  (bs.map fun b => ∑ i ∈ range b.n, ∑ j ∈ range b.n, if b.idx i = I ∧ b.idx j = J then b.a i j else 0).sum

/-- Values on the diagonal of constrained rows. -/
def conDiag (bs : List (Block K)) (I : ℕ) : K :=
  (bs.map fun b => ∑ i ∈ range b.n, if b.idx i = I then b.diag i else 0).sum

/-- `AffineConstraints::distribute_local_to_global` for all local matrices, on `N` degrees of freedom. -/
def assembled (C : Constr K) (N : ℕ) (bs : List (Block K)) (I J : ℕ) : K :=
  (if I = J ∧ (C.row I).isSome = true then conDiag bs I else 0)
    + C.scatter N (fun I' => C.scatter N (fun J' => raw bs I' J') J) I

/-- Local degree of freedom `i` is resolved to position `I`. -/
def reaches (C : Constr K) (i I : ℕ) : Prop :=
  match C.row i with
  | none => i = I
  | some c => c I ≠ 0

/-- Positions in the pattern after `add_entries_local_to_global(indices, csp, false, mask)` for all index sets. -/
def patternWith (C : Constr K) (es : List Entries) (I J : ℕ) : Prop :=
  ∃ e ∈ es, (∃ i < e.n, ∃ j < e.n, e.mask i j = true ∧ reaches C (e.idx i) I ∧ reaches C (e.idx j) J) ∨
    (I = J ∧ (C.row I).isSome = true ∧ ∃ i < e.n, e.idx i = I)

/-- `DoFTools::make_sparsity_pattern(dof_handler, csp)`: no constraints given. -/
def patternPlain (es : List Entries) (I J : ℕ) : Prop :=
  ∃ e ∈ es, ∃ i < e.n, ∃ j < e.n, e.mask i j = true ∧ e.idx i = I ∧ e.idx j = J

/-- A cell of the velocity: `dim * ns` unknowns, unknown `i` has component `comp i` and scalar index `base i`
(`system_to_component_index`, inverse of `local_ordering_u`), with the permuted local matrix. -/
structure VCell (K : Type*) where
  dof : ℕ → ℕ
  perm : ℕ → ℕ → K
  diag : ℕ → K

/-- Element data: numbers, local orderings and the linear subcells of `IntegrationHelper` (`dof_to_lin_u`, `dof_to_lin_p`). -/
structure Elem where
  dim : ℕ
  ns : ℕ
  comp : ℕ → ℕ
  base : ℕ → ℕ
  ord : ℕ → ℕ → ℕ
  nSub : ℕ
  nVert : ℕ
  lin : ℕ → ℕ → ℕ

/-- Local velocity matrices for `u_amg`, `u_ilu`, navier_stokes_preconditioner.cc:1898-1915: only couplings within one
component are copied into the local matrix. -/
def velocityBlocks (E : Elem) (cells : List (VCell K)) : List (Block K) :=
  cells.map fun c => ⟨E.dim * E.ns, c.dof,
    fun i j => if E.comp i = E.comp j then c.perm (E.base i) (E.base j * E.dim + E.comp i) else 0, c.diag⟩

/-- Pattern for `u_amg`, `u_ilu`, lines 1199-1212: `coupling[c][d] = always` iff `c == d`. -/
def velocityEntries (E : Elem) (dofs : List (ℕ → ℕ)) : List Entries :=
  dofs.map fun d => ⟨E.dim * E.ns, d, fun i j => decide (E.comp i = E.comp j)⟩

/-- Local matrices for `u_ilu_scalar`, lines 1916-1928 (indices of `dof_handler_u_scalar`), and all other full cell matrices. -/
def fullBlocks (n : ℕ) (cells : List (VCell K)) : List (Block K) := cells.map fun c => ⟨n, c.dof, c.perm, c.diag⟩

/-- Pattern for `u_ilu_scalar` (lines 1214-1223), for full pressure matrices (1305-1309) and for the matrix of
`LevelSetOKZMatrixSolver` (level_set_okz_matrix.cc:86; there constrained rows are kept as well, which only adds positions). -/
def fullEntries (n : ℕ) (dofs : List (ℕ → ℕ)) : List Entries := dofs.map fun d => ⟨n, d, fun _ _ => true⟩

/-- Local matrices of the linear subelements (`u_amg_linear`), lines 1944-2054; `mat sub d` is `linear_matrix`. -/
def linearBlocks (E : Elem) (cells : List ((ℕ → ℕ) × (ℕ → ℕ → ℕ → ℕ → K) × (ℕ → K))) : List (Block K) :=
  cells.flatMap fun c => (List.range E.nSub).flatMap fun sub => (List.range E.dim).map fun d =>
    ⟨E.nVert, fun k => c.1 (E.ord d (E.lin sub k)), c.2.1 sub d, c.2.2⟩

/-- Pattern of the linear subelements, lines 1276-1290. -/
def linearEntries (E : Elem) (dofs : List (ℕ → ℕ)) : List Entries :=
  dofs.flatMap fun c => (List.range E.nSub).flatMap fun i => (List.range E.dim).map fun d =>
    ⟨E.nVert, fun k => c (E.ord d (E.lin i k)), fun _ _ => true⟩

/-- Switches for the pressure matrices. -/
structure PConf where
  amgLinear : Bool
  augmented : Bool
  densityPos : Bool
  massIlu : Bool

/-- A pressure cell: indices, cell matrix, subcell matrices, values on constrained diagonals. -/
structure PCell (K : Type*) where
  dof : ℕ → ℕ
  full : ℕ → ℕ → K
  sub : ℕ → ℕ → ℕ → K
  diag : ℕ → K

/-- Local pressure matrices distributed into `matrix_p` or `mass_matrix_p`, lines 2058-2172 and 2175-2355 (without the face terms
of augmented elements, see C81): subcells for `u_amg_linear` unless augmented, full cells otherwise. -/
def pressureBlocks (f : PConf) (n : ℕ) (E : Elem) (cells : List (PCell K)) : List (Block K) :=
  (if f.amgLinear = true then
      if f.augmented = false then
        cells.flatMap fun c => (List.range E.nSub).map fun s => ⟨E.nVert, fun k => c.dof (E.lin s k), c.sub s, c.diag⟩
      else []
    else []) ++
  (if f.amgLinear = false ∨ f.augmented = true then cells.map fun c => ⟨n, c.dof, c.full, c.diag⟩ else [])

/-- The pattern `csp` of the pressure, lines 1298-1334. -/
def pressureEntries (f : PConf) (n : ℕ) (E : Elem) (dofs : List (ℕ → ℕ)) : List Entries :=
  if f.amgLinear = false ∨ f.augmented = true then dofs.map fun d => ⟨n, d, fun _ _ => true⟩
  else dofs.flatMap fun d => (List.range E.nSub).map fun s => ⟨E.nVert, fun k => d (E.lin s k), fun _ _ => true⟩

/-! ### Projection matrix of the level set (level_set_okz_preconditioner.cc:60-180) -/

/-- Reference functions as products of one-dimensional functions: `N i k` belongs to the `k`-th coordinate of function `i`;
values and derivatives at the coordinates of the quadrature points. -/
structure Tensor1 (K : Type*) where
  dim : ℕ
  nDof : ℕ
  nQ : ℕ
  N : ℕ → ℕ → ℕ → K
  dN : ℕ → ℕ → ℕ → K

/-- `shape_value(i,q)`. -/
def Tensor1.shape (T : Tensor1 K) (i q : ℕ) : K := ∏ k ∈ range T.dim, T.N i k q

/-- Derivative of the shape function in direction `l` of the unit cell. -/
def Tensor1.dshape (T : Tensor1 K) (i l q : ℕ) : K := T.dN i l q * ∏ k ∈ (range T.dim).erase l, T.N i k q

/-- `dof_mask`, lines 83-96: without quadrature weights, computed once. -/
def Tensor1.mask [DecidableEq K] (T : Tensor1 K) (i j : ℕ) : Bool :=
  decide (∑ q ∈ range T.nQ, T.shape i q * T.shape j q ≠ 0)

/-- Geometry of a cell: inverse Jacobians, weights, `damping`. -/
structure Geo (K : Type*) where
  dof : ℕ → ℕ
  jinv : ℕ → ℕ → ℕ → K
  jxw : ℕ → K
  damping : K
  diag : ℕ → K

/-- Gradient in real coordinates. -/
def Geo.grad (g : Geo K) (T : Tensor1 K) (i q e : ℕ) : K := ∑ l ∈ range T.dim, g.jinv q l e * T.dshape i l q

/-- Local projection matrices, lines 146-162: mass plus damping times stiffness. -/
def projectionBlocks (T : Tensor1 K) (cells : List (Geo K)) : List (Block K) :=
  cells.map fun g => ⟨T.nDof, g.dof, fun j i => ∑ q ∈ range T.nQ,
    (T.shape i q * T.shape j q + ∑ e ∈ range T.dim, g.grad T i q e * g.damping * g.grad T j q e) * g.jxw q, g.diag⟩

/-- Its pattern, lines 98-117. -/
def projectionEntries [DecidableEq K] (T : Tensor1 K) (dofs : List (ℕ → ℕ)) : List Entries :=
  dofs.map fun d => ⟨T.nDof, d, T.mask⟩

/-- Local matrices of `create_cahn_hilliard_preconditioner`, phase_field.cc:275-303: `mass + coefficient * stiffness`. -/
def phaseFieldBlocks (n : ℕ) (coefficient : K) (cells : List ((ℕ → ℕ) × (ℕ → ℕ → K) × (ℕ → ℕ → K))) : List (Block K) :=
  cells.map fun c => ⟨n, c.1, fun i j => c.2.1 i j + coefficient * c.2.2 i j,
    fun i => c.2.1 i i + coefficient * c.2.2 i i⟩

/-! ## Specification -/

/-- Every position that assembly writes is in the pattern. -/
def Spec.Covers (P : ℕ → ℕ → Prop) (A : ℕ → ℕ → K) : Prop := ∀ I J, A I J ≠ 0 → P I J

/-! ## Proofs -/

theorem scatter_ne (C : Constr K) (n : ℕ) (L : ℕ → K) (k : ℕ) (h : C.scatter n L k ≠ 0) :
    ∃ i, L i ≠ 0 ∧ reaches C i k := by
  unfold Constr.scatter at h
  split_ifs at h with hk
  · exact absurd rfl h
  · by_cases hL : L k = 0
    · rw [hL, zero_add] at h
      obtain ⟨i, _, hi⟩ := exists_ne_zero_of_sum_ne_zero h
      cases hr : C.row i with
      | none => rw [hr] at hi; exact absurd rfl hi
      | some c =>
        rw [hr] at hi
        refine ⟨i, right_ne_zero_of_mul hi, ?_⟩
        unfold reaches; rw [hr]; exact left_ne_zero_of_mul hi
    · refine ⟨k, hL, ?_⟩
      have : C.row k = none := by
        cases hr : C.row k with
        | none => rfl
        | some c => rw [hr] at hk; exact absurd rfl hk
      unfold reaches; rw [this]

theorem list_ne {ι : Type*} (l : List ι) (f : ι → K) (h : (l.map f).sum ≠ 0) : ∃ i ∈ l, f i ≠ 0 := by
  by_contra hn
  apply h
  apply List.sum_eq_zero
  intro x hx
  obtain ⟨i, hi, rfl⟩ := List.mem_map.1 hx
  by_contra h0
  exact hn ⟨i, hi, h0⟩

/-- Where a written entry comes from. -/
theorem assembled_ne (C : Constr K) (N : ℕ) (bs : List (Block K)) (I J : ℕ) (h : assembled C N bs I J ≠ 0) :
    ∃ b ∈ bs, (∃ i < b.n, ∃ j < b.n, b.a i j ≠ 0 ∧ reaches C (b.idx i) I ∧ reaches C (b.idx j) J) ∨
      (I = J ∧ (C.row I).isSome = true ∧ ∃ i < b.n, b.idx i = I) := by
  unfold assembled at h
  by_cases h1 : C.scatter N (fun I' => C.scatter N (fun J' => raw bs I' J') J) I = 0
  · rw [h1, add_zero] at h
    split_ifs at h with hd
    · obtain ⟨b, hb, h2⟩ := list_ne _ _ h
      obtain ⟨i, hi, h3⟩ := exists_ne_zero_of_sum_ne_zero h2
      refine ⟨b, hb, .inr ⟨hd.1, hd.2, i, mem_range.1 hi, ?_⟩⟩
      by_contra hne
      rw [if_neg hne] at h3
      exact h3 rfl
    · exact absurd rfl h
  · obtain ⟨I', h2, hI⟩ := scatter_ne _ _ _ _ h1
    obtain ⟨J', h3, hJ⟩ := scatter_ne _ _ _ _ h2
    obtain ⟨b, hb, h4⟩ := list_ne _ _ h3
    obtain ⟨i, hi, h5⟩ := exists_ne_zero_of_sum_ne_zero h4
    obtain ⟨j, hj, h6⟩ := exists_ne_zero_of_sum_ne_zero h5
    split_ifs at h6 with hc
    · obtain ⟨hc1, hc2⟩ := hc
      refine ⟨b, hb, .inl ⟨i, mem_range.1 hi, j, mem_range.1 hj, h6, ?_, ?_⟩⟩
      · rw [hc1]; exact hI
      · rw [hc2]; exact hJ
    · exact absurd rfl h6

/-- Patterns built with the constraints cover, if every local matrix has an index set with the same indices whose mask allows
its non-zero entries. -/
theorem covers (C : Constr K) (N : ℕ) (bs : List (Block K)) (es : List Entries)
    (h : ∀ b ∈ bs, ∃ e ∈ es, e.n = b.n ∧ (∀ i < b.n, e.idx i = b.idx i) ∧
      ∀ i < b.n, ∀ j < b.n, b.a i j ≠ 0 → e.mask i j = true) :
    Spec.Covers (patternWith C es) (assembled C N bs) := by
  intro I J hA
  obtain ⟨b, hb, hcase⟩ := assembled_ne C N bs I J hA
  obtain ⟨e, he, hn, hidx, hmask⟩ := h b hb
  refine ⟨e, he, ?_⟩
  rcases hcase with ⟨i, hi, j, hj, ha, hI, hJ⟩ | ⟨hIJ, hcon, i, hi, hidI⟩
  · refine .inl ⟨i, hn ▸ hi, j, hn ▸ hj, hmask i hi j hj ha, ?_, ?_⟩
    · rw [hidx i hi]; exact hI
    · rw [hidx j hj]; exact hJ
  · exact .inr ⟨hIJ, hcon, i, hn ▸ hi, by rw [hidx i hi, hidI]⟩

variable (C : Constr K) (N : ℕ)

/-- **C90 (velocity, `u_amg` and `u_ilu`).** For all meshes and constraints, also those that couple components (slip
boundaries). -/
theorem C90_velocity_components (E : Elem) (cells : List (VCell K)) :
    Spec.Covers (patternWith C (velocityEntries E (cells.map VCell.dof))) (assembled C N (velocityBlocks E cells)) := by
  apply covers
  intro b hb
  obtain ⟨c, hc, rfl⟩ := List.mem_map.1 hb
  refine ⟨_, List.mem_map.2 ⟨c.dof, List.mem_map.2 ⟨c, hc, rfl⟩, rfl⟩, rfl, fun _ _ => rfl, ?_⟩
  intro i _ j _ h
  dsimp only at h ⊢
  by_contra hne
  rw [decide_eq_true_iff] at hne
  rw [if_neg hne] at h
  exact h rfl

/-- **C90 (full cell matrices).** Velocity with `u_ilu_scalar`; matrix-based level set. -/
theorem C90_full_cells (n : ℕ) (cells : List (VCell K)) :
    Spec.Covers (patternWith C (fullEntries n (cells.map VCell.dof))) (assembled C N (fullBlocks n cells)) := by
  apply covers
  intro b hb
  obtain ⟨c, hc, rfl⟩ := List.mem_map.1 hb
  exact ⟨_, List.mem_map.2 ⟨c.dof, List.mem_map.2 ⟨c, hc, rfl⟩, rfl⟩, rfl, fun _ _ => rfl, fun _ _ _ _ _ => rfl⟩

/-- **C90 (velocity, `u_amg_linear`).** The pattern of the linear subelements covers their matrices. -/
theorem C90_velocity_linear (E : Elem) (cells : List ((ℕ → ℕ) × (ℕ → ℕ → ℕ → ℕ → K) × (ℕ → K))) :
    Spec.Covers (patternWith C (linearEntries E (cells.map Prod.fst))) (assembled C N (linearBlocks E cells)) := by
  apply covers
  intro b hb
  obtain ⟨c, hc, hb⟩ := List.mem_flatMap.1 hb
  obtain ⟨s, hs, hb⟩ := List.mem_flatMap.1 hb
  obtain ⟨d, hd, rfl⟩ := List.mem_map.1 hb
  refine ⟨_, List.mem_flatMap.2 ⟨c.1, List.mem_map.2 ⟨c, hc, rfl⟩, List.mem_flatMap.2 ⟨s, hs, List.mem_map.2 ⟨d, hd, rfl⟩⟩⟩,
    rfl, fun _ _ => rfl, fun _ _ _ _ _ => rfl⟩

/-- **C90 (pressure matrices).** In every configuration the pattern covers the cell terms of the pressure Poisson and mass
matrices. -/
theorem C90_pressure (f : PConf) (n : ℕ) (E : Elem) (cells : List (PCell K)) :
    Spec.Covers (patternWith C (pressureEntries f n E (cells.map PCell.dof)))
      (assembled C N (pressureBlocks f n E cells)) := by
  apply covers
  intro b hb
  unfold pressureEntries
  rcases List.mem_append.1 hb with hb | hb
  · split_ifs at hb with h1 h2
    · obtain ⟨c, hc, hb⟩ := List.mem_flatMap.1 hb
      obtain ⟨s, hs, rfl⟩ := List.mem_map.1 hb
      rw [if_neg (by simp [h1, h2])]
      exact ⟨_, List.mem_flatMap.2 ⟨c.dof, List.mem_map.2 ⟨c, hc, rfl⟩, List.mem_map.2 ⟨s, hs, rfl⟩⟩, rfl, fun _ _ => rfl,
        fun _ _ _ _ _ => rfl⟩
    · simp at hb
    · simp at hb
  · split_ifs at hb with h1
    · obtain ⟨c, hc, rfl⟩ := List.mem_map.1 hb
      rw [if_pos h1]
      exact ⟨_, List.mem_map.2 ⟨c.dof, List.mem_map.2 ⟨c, hc, rfl⟩, rfl⟩, rfl, fun _ _ => rfl, fun _ _ _ _ _ => rfl⟩
    · simp at hb

section Projection

variable {K : Type*} [Field K] [LinearOrder K] [IsStrictOrderedRing K]

/-- One-dimensional functions of `FE_Q_iso_Q1(m)` in subinterval `s` at local coordinate `t`: hat function of node `j` and its
derivative. -/
def isoVal (j s : ℕ) (t : K) : K := if j = s then 1 - t else if j = s + 1 then t else 0
def isoDer (m j s : ℕ) : K := if j = s then -(m : K) else if j = s + 1 then m else 0

/-- `FE_Q_iso_Q1<dim>(m)`: function `i` has node `node i k` in direction `k`; quadrature point `q` of
`QIterated(QGauss<1>(2), m)` lies in subinterval `sub q k` at local coordinate `loc q k`. -/
def isoQ1 (dim m nDof nQ : ℕ) (node sub : ℕ → ℕ → ℕ) (loc : ℕ → ℕ → K) : Tensor1 K :=
  ⟨dim, nDof, nQ, fun i k q => isoVal (node i k) (sub q k) (loc q k), fun i k q => isoDer m (node i k) (sub q k)⟩

/-- Shape functions that vanish at a point also have no gradient there. -/
theorem dshape_zero (T : Tensor1 K) (i q : ℕ) (hz : ∀ k, T.N i k q = 0 → T.dN i k q = 0) (h : T.shape i q = 0) (l : ℕ)
    (hl : l < T.dim) : T.dshape i l q = 0 := by
  unfold Tensor1.shape at h
  obtain ⟨k, hk, h0⟩ := prod_eq_zero_iff.1 h
  unfold Tensor1.dshape
  by_cases hkl : k = l
  · subst hkl; rw [hz k h0, zero_mul]
  · rw [prod_eq_zero (mem_erase.2 ⟨hkl, hk⟩) h0, mul_zero]

/-- **C90 (projection matrix of the level set).** The mask computed from the unweighted products of shape values on one cell
covers mass and damping terms of all cells: for all meshes, mappings, dampings and numbers of subdivisions, if the points lie
inside the subintervals. -/
theorem C90_projection (C : Constr K) (N dim m nDof nQ : ℕ) (node sub : ℕ → ℕ → ℕ) (loc : ℕ → ℕ → K)
    (hloc : ∀ q k, 0 < loc q k ∧ loc q k < 1) (cells : List (Geo K)) :
    Spec.Covers (patternWith C (projectionEntries (isoQ1 dim m nDof nQ node sub loc) (cells.map Geo.dof)))
      (assembled C N (projectionBlocks (isoQ1 dim m nDof nQ node sub loc) cells)) := by
  set T := isoQ1 dim m nDof nQ node sub loc with hT
  have hnn : ∀ i k q, 0 ≤ T.N i k q := by
    intro i k q
    obtain ⟨h1, h2⟩ := hloc q k
    change 0 ≤ isoVal (node i k) (sub q k) (loc q k)
    unfold isoVal
    split_ifs <;> linarith
  have hz : ∀ i k q, T.N i k q = 0 → T.dN i k q = 0 := by
    intro i k q
    obtain ⟨h1, h2⟩ := hloc q k
    change isoVal (node i k) (sub q k) (loc q k) = 0 → isoDer m (node i k) (sub q k) = 0
    unfold isoVal isoDer
    split_ifs
    · intro h; linarith
    · intro h; linarith
    · intro _; rfl
  have hs : ∀ i q, 0 ≤ T.shape i q := fun i q => prod_nonneg fun k _ => hnn i k q
  apply covers
  intro b hb
  obtain ⟨g, hg, rfl⟩ := List.mem_map.1 hb
  refine ⟨_, List.mem_map.2 ⟨g.dof, List.mem_map.2 ⟨g, hg, rfl⟩, rfl⟩, rfl, fun _ _ => rfl, ?_⟩
  intro j _ i _ h
  dsimp only at h ⊢
  unfold Tensor1.mask
  rw [decide_eq_true_iff]
  intro hsum
  apply h
  refine sum_eq_zero fun q hq => ?_
  have h0 : T.shape j q * T.shape i q = 0 :=
    (sum_eq_zero_iff_of_nonneg fun q _ => mul_nonneg (hs j q) (hs i q)).1 hsum q hq
  have hgr : ∑ e ∈ range T.dim, g.grad T i q e * g.damping * g.grad T j q e = 0 := by
    refine sum_eq_zero fun e _ => ?_
    rcases mul_eq_zero.1 h0 with h0 | h0
    · have : g.grad T j q e = 0 := by
        unfold Geo.grad
        exact sum_eq_zero fun l hl => by rw [dshape_zero T j q (fun k => hz j k q) h0 l (mem_range.1 hl), mul_zero]
      rw [this, mul_zero]
    · have : g.grad T i q e = 0 := by
        unfold Geo.grad
        exact sum_eq_zero fun l hl => by rw [dshape_zero T i q (fun k => hz i k q) h0 l (mem_range.1 hl), mul_zero]
      rw [this, zero_mul, zero_mul]
  rw [hgr, mul_comm (T.shape i q), h0, add_zero, zero_mul]

/-- The mask is a proper restriction: for two subintervals in one dimension the end functions are not coupled, neighbours
are; and the entries are not all zero. -/
example : let T : Tensor1 ℚ := isoQ1 1 2 3 4 (fun i _ => i) (fun q _ => q / 2) (fun q _ => if q % 2 = 0 then 1 / 5 else 4 / 5)
    T.mask 0 2 = false ∧ T.mask 0 1 = true ∧
    assembled (⟨fun _ => none⟩ : Constr ℚ) 3
      (projectionBlocks T [⟨id, fun _ _ _ => 1, fun _ => 1 / 4, 1 / 10, fun _ => 1⟩]) 0 1 ≠ 0 := by
  decide +kernel

end Projection

/-! ## Phase field -/

/-- **C90 (phase field, partial).** The pattern of the Cahn-Hilliard preconditioner is built without constraints; it covers the
matrix if constraints have no masters (prescribed fluids only). Missing: hanging nodes. -/
theorem C90_phase_field_partial (n : ℕ) (coefficient : K)
    (cells : List ((ℕ → ℕ) × (ℕ → ℕ → K) × (ℕ → ℕ → K)))
    (hC : ∀ i c, C.row i = some c → ∀ k, c k = 0) :
    Spec.Covers (patternPlain (fullEntries n (cells.map Prod.fst)))
      (assembled C N (phaseFieldBlocks n coefficient cells)) := by
  intro I J hA
  obtain ⟨b, hb, hcase⟩ := assembled_ne C N _ I J hA
  obtain ⟨c, hc, rfl⟩ := List.mem_map.1 hb
  have hr : ∀ i I, reaches C i I → i = I := by
    intro i I h
    unfold reaches at h
    cases hi : C.row i with
    | none => rw [hi] at h; exact h
    | some r => rw [hi] at h; exact absurd (hC i r hi I) h
  refine ⟨_, List.mem_map.2 ⟨c.1, List.mem_map.2 ⟨c, hc, rfl⟩, rfl⟩, ?_⟩
  rcases hcase with ⟨i, hi, j, hj, -, hI, hJ⟩ | ⟨hIJ, -, i, hi, hidI⟩
  · exact ⟨i, hi, j, hj, rfl, hr _ _ hI, hr _ _ hJ⟩
  · exact ⟨i, hi, i, hi, rfl, hidI, hIJ ▸ hidI⟩

/-- Bilinear square with side `h`: vertices `(0,0), (1,0), (0,1), (1,1)`; number of differing coordinates of two vertices. -/
def hamming (i j : ℕ) : ℕ := (if i % 2 = j % 2 then 0 else 1) + if i / 2 = j / 2 then 0 else 1

/-- Mass matrix of a bilinear square of area `A`, `A/9, A/18, A/36`, and stiffness matrix `2/3, -1/6, -1/3`: what the Gauss
formula with two points per direction gives. -/
def q1Mass (A : ℚ) (i j : ℕ) : ℚ := A / (9 * 2 ^ hamming i j)
def q1Stiff (i j : ℕ) : ℚ := if hamming i j = 0 then 2 / 3 else if hamming i j = 1 then -1 / 6 else -1 / 3

/-- A square of side two on the left and two of side one on the right of the line `x = 0`. Degrees of freedom: `1`, `3` lower and
upper end of the line, `4` its midpoint, which is a hanging node; `0`, `2` left; `5`, `6`, `7` right, from below. -/
def hangCells : List ((ℕ → ℕ) × (ℕ → ℕ → ℚ) × (ℕ → ℕ → ℚ)) :=
  [(fun k => [0, 1, 2, 3].getD k 0, q1Mass 4, q1Stiff),
   (fun k => [1, 5, 4, 6].getD k 0, q1Mass 1, q1Stiff),
   (fun k => [4, 6, 3, 7].getD k 0, q1Mass 1, q1Stiff)]

def hangConstr : Constr ℚ := ⟨fun i => if i = 4 then some fun k => if k = 1 ∨ k = 3 then 1 / 2 else 0 else none⟩

theorem hang_raw (c : ℚ) : raw (phaseFieldBlocks 4 c hangCells) 4 5 = 1 / 36 - c / 3 ∧
    raw (phaseFieldBlocks 4 c hangCells) 3 5 = 0 := by
  constructor
  · simp [raw, phaseFieldBlocks, hangCells, sum_range_succ, q1Mass, q1Stiff, hamming]
    ring
  · simp [raw, phaseFieldBlocks, hangCells, sum_range_succ]

/-- **C90 (phase field with hanging nodes).** On this mesh the assembled matrix couples degrees of freedom `3` and `5`, a master
of the hanging node and a vertex of the lower fine cell, except for one value of the coefficient, but they share no cell and the
pattern has no such entry. -/
theorem C90_phase_field_missing (c : ℚ) :
    assembled hangConstr 8 (phaseFieldBlocks 4 c hangCells) 3 5 = (1 / 36 - c / 3) / 2 ∧
    ¬ patternPlain (fullEntries 4 (hangCells.map Prod.fst)) 3 5 := by
  obtain ⟨h1, h2⟩ := hang_raw c
  constructor
  · simp only [assembled, Constr.scatter, hangConstr]
    simp [sum_range_succ, h1, h2]
    ring
  · rintro ⟨e, he, i, hi, j, hj, -, h3, h5⟩
    simp only [fullEntries, hangCells, List.map_cons, List.map_nil, List.mem_cons, List.not_mem_nil, or_false] at he
    rcases he with rfl | rfl | rfl
    all_goals
      dsimp only at hi hj h3 h5
      have hi4 : i = 0 ∨ i = 1 ∨ i = 2 ∨ i = 3 := by omega
      have hj4 : j = 0 ∨ j = 1 ∨ j = 2 ∨ j = 3 := by omega
      rcases hi4 with rfl | rfl | rfl | rfl <;> rcases hj4 with rfl | rfl | rfl | rfl <;> simp at h3 h5

/-- The constraints of the example are closed, and the pattern with the constraints has the entry. -/
example : hangConstr.Closed ∧ patternWith hangConstr (fullEntries 4 (hangCells.map Prod.fst)) 3 5 := by
  constructor
  · intro i c hi k hk
    have hk4 : k = 4 := by
      by_contra h
      simp [hangConstr, h] at hk
    have hi4 : i = 4 := by
      by_contra h
      simp [hangConstr, h] at hi
    subst hk4; subst hi4
    simp only [hangConstr, if_true, Option.some.injEq] at hi
    rw [← hi]
    norm_num
  · refine ⟨⟨4, fun k => [1, 5, 4, 6].getD k 0, fun _ _ => true⟩, ?_, .inl ⟨2, by norm_num, 1, by norm_num, rfl, ?_, ?_⟩⟩
    · simp [fullEntries, hangCells]
    · simp [reaches, hangConstr]
    · simp [reaches, hangConstr]

/-- Slip boundaries couple velocity components: entry `(1, 2)` across components exists in the pattern. -/
example : let E : Elem := ⟨2, 2, fun i => i % 2, fun i => i / 2, fun d i => 2 * i + d, 0, 0, fun _ _ => 0⟩
    let C : Constr ℚ := ⟨fun i => if i = 0 then some fun k => if k = 1 then -1 else 0 else none⟩
    assembled C 4 (velocityBlocks E [⟨id, fun _ _ => 1, fun _ => 1⟩]) 1 2 ≠ 0 := by
  decide +kernel

end Verif.Precond.Pattern
