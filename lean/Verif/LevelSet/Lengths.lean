import Verif.LevelSet.Reinit
import Verif.LevelSet.NormalCurvature
import Verif.Operator.Dispatch
import Verif.Mesh.CellDiameter

/-!
# C113: smoothing lengths of the level set operators
(source/level_set_okz_reinitialization.cc:83-85, 159-161, level_set_okz_compute_normal.cc:97-110,
level_set_okz_compute_curvature.cc:101-120, level_set_okz_preconditioner.cc:135-143, two_phase_base.cc:281-289,
include/adaflo/sharp_interface.h:286-293)

The matrix-free kernels take the degree of the level set from their template argument. On simplex meshes the macros select the
instance with the argument -1 (degree known at run time only), and the kernels divide the cell diameter by it.
-/

set_option linter.unusedSectionVars false

namespace Verif.LevelSet

open Finset Verif.FE Verif.Operator.Dispatch Verif.Mesh

variable {K : Type*} [Field K] [LinearOrder K] [IsStrictOrderedRing K]

/-! ## Model -/

/-- First template argument of the kernels selected by `EXPAND_OPERATIONS`, if one runs. -/
def kernelDegree (c : Conf) : Option ℤ :=
  match lsMacro c with
  | .runs a _ => some a
  | _ => none

/-- `epsilon_used`: two_phase_base.cc:281-289 (sharp_interface.h:286-293), `largest` from `compute_cell_diameters`. -/
def epsilonUsed (epsilon : K) (subdivisions : ℕ) (largest : K) : K := epsilon / subdivisions * largest

/-- Places where a smoothing length enters: matrix and right hand side of the reinitialization, the matrix-free products for
normals (with `damping_scale_factor`) and curvature, and the assembled projection matrix with which `compute_normal` and
`compute_curvature` solve. -/
inductive Place (K : Type*)
  | reinitMatrix
  | reinitRhs
  | normalProduct (factor : K)
  | curvatureProduct
  | projectionMatrix

/-- The coefficient of the gradient term on a cell of diameter `h`; `none`: no kernel runs. The assembly takes
`fe.tensor_degree()`, which is `concentration_subdivisions` for `FE_Q_iso_Q1` and `FE_SimplexP` (level_set_base.cc:55-60). -/
def coefficient (c : Conf) (epsUsed eps h : K) : Place K → Option K
  | .reinitMatrix => (kernelDegree c).map (diffusion epsUsed h)
  | .reinitRhs => (kernelDegree c).map (diffusion epsUsed h)
  | .normalProduct f => (kernelDegree c).map (projDamping f epsUsed eps h)
  | .curvatureProduct => (kernelDegree c).map (projDamping 1 epsUsed eps h)
  | .projectionMatrix => (kernelDegree c).map fun _ => projDamping 4 epsUsed eps h c.ls

/-! ## Specification -/

/-- The length the mesh can resolve on a cell. -/
def Spec.resolution (c : Conf) (h : K) : K := h / c.ls

/-- Documented coefficients: the interface thickness in the reinitialization, and `factor` times the square of the mesh size in
the projections, but on no cell less than the mesh resolves. -/
def Spec.coefficient (c : Conf) (epsUsed eps h : K) : Place K → K
  | .reinitMatrix | .reinitRhs => max epsUsed (Spec.resolution c h)
  | .normalProduct f => f * max (epsUsed / eps) (Spec.resolution c h) ^ 2
  | .curvatureProduct => max (epsUsed / eps) (Spec.resolution c h) ^ 2
  | .projectionMatrix => 4 * max (epsUsed / eps) (Spec.resolution c h) ^ 2

/-! ## C113 -/

theorem kernelDegree_eq (c : Conf) : kernelDegree c =
    if c.simplex then some (-1) else if 1 ≤ c.ls ∧ c.ls ≤ 4 then some (c.ls : ℤ) else none := by
  unfold kernelDegree lsMacro
  by_cases hs : c.simplex = true
  · rw [if_pos hs, if_pos hs]
  · rw [if_neg hs, if_neg hs]
    by_cases h : 1 ≤ c.ls ∧ c.ls ≤ 4
    · rw [if_neg (not_not.2 h), if_pos h]
      obtain ⟨h1, h2⟩ := h
      generalize c.ls = n at *
      have : n = 1 ∨ n = 2 ∨ n = 3 ∨ n = 4 := by omega
      rcases this with rfl | rfl | rfl | rfl <;> rfl
    · rw [if_pos h, if_neg h]

/-- **C113 (hypercubes).** On meshes of lines, quadrilaterals and hexahedra all operators use the documented coefficients, on
every cell, for all degrees for which they run. -/
theorem C113_hypercube_partial (c : Conf) (hs : c.simplex = false) (epsUsed eps h : K) (p : Place K) (a : K)
    (ha : coefficient c epsUsed eps h p = some a) : a = Spec.coefficient c epsUsed eps h p := by
  have hk := kernelDegree_eq c
  rw [if_neg (by rw [hs]; simp)] at hk
  split_ifs at hk with h1
  · cases p <;> simp only [coefficient, hk, Option.map_some, Option.some.injEq] at ha <;> subst ha <;>
      simp [Spec.coefficient, Spec.resolution, diffusion, projDamping]
  · cases p <;> simp [coefficient, hk] at ha

/-- **C113 (the solved systems).** The matrix with which normals and curvature are computed has the documented coefficient on
every kind of mesh. -/
theorem C113_projection_matrix (c : Conf) (epsUsed eps h : K) (a : K)
    (ha : coefficient c epsUsed eps h .projectionMatrix = some a) :
    a = Spec.coefficient c epsUsed eps h .projectionMatrix := by
  simp only [coefficient, Option.map_eq_some_iff] at ha
  obtain ⟨_, _, rfl⟩ := ha
  simp [Spec.coefficient, Spec.resolution, projDamping]

/-- **C113 (simplices).** On simplex meshes the matrix-free kernels ignore size and degree of the cell: the reinitialization
uses `epsilon_used` alone, the products `epsilon_used / epsilon` alone. -/
theorem C113_simplex (c : Conf) (hs : c.simplex = true) (epsUsed eps h : K) (he : 0 < epsUsed) (heps : 0 < eps)
    (hh : 0 ≤ h) (f : K) :
    coefficient c epsUsed eps h .reinitMatrix = some epsUsed ∧ coefficient c epsUsed eps h .reinitRhs = some epsUsed ∧
    coefficient c epsUsed eps h (.normalProduct f) = some (f * (epsUsed / eps) ^ 2) ∧
    coefficient c epsUsed eps h .curvatureProduct = some ((epsUsed / eps) ^ 2) := by
  have hk := kernelDegree_eq c
  rw [if_pos hs] at hk
  have h1 : max epsUsed (h / ((-1 : ℤ) : K)) = epsUsed := max_eq_left (by push_cast; rw [div_neg, div_one]; linarith)
  have h2 : max (epsUsed / eps) (h / ((-1 : ℤ) : K)) = epsUsed / eps :=
    max_eq_left (by push_cast; rw [div_neg, div_one]; linarith [div_pos he heps])
  simp only [coefficient, hk, Option.map_some, diffusion, projDamping, h1, h2, one_mul, and_self]

/-- **C113 (violation).** On a simplex mesh the reinitialization smooths over less than the mesh resolves on exactly those cells
for which the documented rule would use more than `epsilon_used`. -/
theorem C113_simplex_below_resolution (c : Conf) (hs : c.simplex = true) (epsUsed eps h : K) (he : 0 < epsUsed)
    (heps : 0 < eps) (hh : 0 ≤ h) (p : Place K) (hp : p = .reinitMatrix ∨ p = .reinitRhs) :
    ∃ a, coefficient c epsUsed eps h p = some a ∧
      (a < Spec.resolution c h ↔ a ≠ Spec.coefficient c epsUsed eps h p) ∧
      (a < Spec.resolution c h ↔ epsUsed < Spec.resolution c h) := by
  obtain ⟨h1, h2, -⟩ := C113_simplex c hs epsUsed eps h he heps hh 1
  refine ⟨epsUsed, by rcases hp with rfl | rfl <;> assumption, ?_, Iff.rfl⟩
  have : Spec.coefficient c epsUsed eps h p = max epsUsed (Spec.resolution c h) := by rcases hp with rfl | rfl <;> rfl
  rw [this]
  constructor
  · intro hlt; rw [max_eq_right hlt.le]; exact hlt.ne
  · intro hne
    by_contra hle
    exact hne (max_eq_left (not_lt.1 hle)).symm

/-- The largest cell size handed to the level set solver bounds the diameters on the finest level. -/
theorem diameter_le_largest (top : K) (levels : ℕ) (rank0 : List (SizedCell K)) (ranks : List (List (SizedCell K)))
    (x : SizedCell K) (hx : x ∈ (rank0 :: ranks).flatten) (hl : 1 + x.level = levels) :
    x.diameter ≤ (globalSizes top levels rank0 ranks).2 :=
  (((globalSizes_char top levels rank0 ranks).2 _).1 le_rfl).2 x hx hl

/-- **C113 (meshes of one level).** If all cells belong to the finest level (always the case for simplex meshes read from a
file and not refined locally) and `epsilon ≥ 1`, the coefficients of the reinitialization are the documented ones for every kind
of mesh and every distribution to processes; so are those of all other operators, for every `epsilon > 0`. -/
theorem C113_single_level_partial (c : Conf) (hls : 0 < c.ls) (top eps : K) (heps : 0 < eps) (levels : ℕ)
    (rank0 : List (SizedCell K)) (ranks : List (List (SizedCell K)))
    (hone : ∀ x ∈ (rank0 :: ranks).flatten, 1 + x.level = levels)
    (x : SizedCell K) (hx : x ∈ (rank0 :: ranks).flatten) (hpos : 0 < x.diameter) (p : Place K)
    (hp : 1 ≤ eps ∨ (p ≠ .reinitMatrix ∧ p ≠ .reinitRhs)) (a : K)
    (ha : coefficient c (epsilonUsed eps c.ls (globalSizes top levels rank0 ranks).2) eps x.diameter p = some a) :
    a = Spec.coefficient c (epsilonUsed eps c.ls (globalSizes top levels rank0 ranks).2) eps x.diameter p := by
  by_cases hs : c.simplex = true
  swap
  · exact C113_hypercube_partial c (by simpa using hs) _ _ _ p a ha
  have hL := diameter_le_largest top levels rank0 ranks x hx (hone x hx)
  generalize (globalSizes top levels rank0 ranks).2 = L at *
  have hlsK : (0 : K) < c.ls := by exact_mod_cast hls
  have hLpos : 0 < L := lt_of_lt_of_le hpos hL
  have hu : 0 < epsilonUsed eps c.ls L := mul_pos (div_pos heps hlsK) hLpos
  have hres : Spec.resolution c x.diameter ≤ L / c.ls := div_le_div_of_nonneg_right hL hlsK.le
  have hue : epsilonUsed eps c.ls L / eps = L / c.ls := by
    unfold epsilonUsed; field_simp
  have m2 : max (epsilonUsed eps c.ls L / eps) (Spec.resolution c x.diameter) = epsilonUsed eps c.ls L / eps :=
    max_eq_left (by rw [hue]; exact hres)
  have key : ∀ f : K, _ := fun f => C113_simplex c hs (epsilonUsed eps c.ls L) eps x.diameter hu heps hpos.le f
  have m1 : 1 ≤ eps → max (epsilonUsed eps c.ls L) (Spec.resolution c x.diameter) = epsilonUsed eps c.ls L := by
    intro h1
    refine max_eq_left (hres.trans ?_)
    have : epsilonUsed eps c.ls L = eps * (L / c.ls) := by unfold epsilonUsed; ring
    rw [this]
    exact le_mul_of_one_le_left (div_pos hLpos hlsK).le h1
  cases p with
  | reinitMatrix =>
    rcases hp with h1 | ⟨h1, _⟩
    · rw [(key 1).1] at ha
      cases ha; exact (m1 h1).symm
    · exact absurd rfl h1
  | reinitRhs =>
    rcases hp with h1 | ⟨_, h1⟩
    · rw [(key 1).2.1] at ha
      cases ha; exact (m1 h1).symm
    · exact absurd rfl h1
  | normalProduct f =>
    rw [(key f).2.2.1] at ha
    cases ha
    change _ = f * max _ _ ^ 2
    rw [m2]
  | curvatureProduct =>
    rw [(key 1).2.2.2] at ha
    cases ha
    change _ = max _ _ ^ 2
    rw [m2]
  | projectionMatrix => exact C113_projection_matrix c _ _ _ a ha

/-- **C113 (two implementations of the normals).** On hypercubes with the default factor 4 the matrix-free product for the
normals is the product with the assembled matrix, on all free unknowns. -/
theorem C113_normal_product (c : Conf) (hs : c.simplex = false) (epsUsed eps : K) (h : ℕ → K) (P Q : Projection K)
    (hS : Q.S = P.S) (hQ : Q.C = P.C)
    (hP : ∀ i < P.S.nCell, coefficient c epsUsed eps (h i) .projectionMatrix = some (P.damping i))
    (hF : ∀ i < P.S.nCell, coefficient c epsUsed eps (h i) (.normalProduct 4) = some (Q.damping i))
    (x : ℕ → K) (k : ℕ) (hk : k < P.S.nDof) (hfree : (P.C.row k).isSome = false) : P.assembled x k = Q.vmult x k :=
  C69_assembled_is_matrix_free P Q hS hQ (fun i hi => by
    rw [C113_hypercube_partial c hs _ _ _ _ _ (hF i hi), C113_hypercube_partial c hs _ _ _ _ _ (hP i hi)]
    rfl) x k hk hfree

/-- Two cells of sizes 8 and 1, unrefined degree 1, `epsilon = 1`: linear functions on `(0, 8)` and `(8, 9)`. -/
def exCoarseFine (d : ℕ → ℚ) : Projection ℚ where
  S := ⟨1, 3, 2, 1, fun i c _ => if i = c ∨ i = c + 1 then 1 / 2 else 0,
    fun i c _ _ => if i = c then (if c = 0 then -1 / 8 else -1) else if i = c + 1 then (if c = 0 then 1 / 8 else 1) else 0,
    fun c _ => if c = 0 then 8 else 1⟩
  C := ⟨fun _ => none⟩
  diag := fun _ => 1
  damping := d

/-- **C113 (violation, products).** On a simplex mesh with cells of different levels the matrix-free products and the assembled
matrix differ, also with the default factor 4. -/
theorem C113_simplex_products_differ :
    let c : Conf := ⟨true, 2, 1⟩
    let h : ℕ → ℚ := fun i => if i = 0 then 8 else 1
    let P := exCoarseFine fun i => if i = 0 then 256 else 4
    let Q := exCoarseFine fun _ => 4
    (∀ i < 2, coefficient c 1 1 (h i) .projectionMatrix = some (P.damping i)) ∧
    (∀ i < 2, coefficient c 1 1 (h i) (.normalProduct 4) = some (Q.damping i)) ∧
    P.assembled (fun i => if i = 0 then 1 else 0) 0 ≠ Q.vmult (fun i => if i = 0 then 1 else 0) 0 := by
  decide +kernel

/-- **C113 (unused factor).** `damping_scale_factor` and the curvature product without factor 4 do not describe the systems that
are solved: on every cell of a hypercube mesh of positive size the coefficient of the curvature product is a quarter of that of
the matrix, and that of the normals equals it only for the factor 4. -/
theorem C113_factors (c : Conf) (hs : c.simplex = false) (epsUsed eps h : K) (he : 0 < epsUsed) (heps : 0 < eps) (f : K)
    (aN aC aM : K) (hN : coefficient c epsUsed eps h (.normalProduct f) = some aN)
    (hC : coefficient c epsUsed eps h .curvatureProduct = some aC)
    (hM : coefficient c epsUsed eps h .projectionMatrix = some aM) :
    4 * aC = aM ∧ (aN = aM ↔ f = 4) := by
  rw [C113_hypercube_partial c hs _ _ _ _ _ hN, C113_hypercube_partial c hs _ _ _ _ _ hC,
    C113_hypercube_partial c hs _ _ _ _ _ hM]
  refine ⟨rfl, ?_⟩
  have : 0 < max (epsUsed / eps) (Spec.resolution c h) ^ 2 := pow_pos (lt_of_lt_of_le (div_pos he heps) (le_max_left _ _)) 2
  change f * _ = 4 * _ ↔ _
  exact ⟨fun h => mul_right_cancel₀ this.ne' h, fun h => by rw [h]⟩

/-! ### Concrete cases -/

/-- Quadrilaterals of two sizes, degree 2, `epsilon = 3/2`: the coarse cell is smoothed over its own resolution. -/
example : let c : Conf := ⟨false, 2, 2⟩
    let e : ℚ := epsilonUsed (3 / 2) 2 (globalSizes 1000 2 [⟨0, [8]⟩] [[⟨1, [1]⟩]]).2
    e = 3 / 4 ∧ coefficient c e (3 / 2) 8 .reinitRhs = some 4 ∧ coefficient c e (3 / 2) 1 .reinitRhs = some (3 / 4) ∧
    coefficient c e (3 / 2) 8 .projectionMatrix = some 64 := by decide +kernel

/-- The same with triangles. -/
example : let c : Conf := ⟨true, 2, 2⟩
    let e : ℚ := epsilonUsed (3 / 2) 2 (globalSizes 1000 2 [⟨0, [8]⟩] [[⟨1, [1]⟩]]).2
    coefficient c e (3 / 2) 8 .reinitRhs = some (3 / 4) ∧ Spec.resolution c (8 : ℚ) = 4 ∧
    coefficient c e (3 / 2) 8 .projectionMatrix = some 64 := by decide +kernel

/-- One level: the hypotheses of `C113_single_level_partial`. -/
example : ∀ x ∈ ([⟨0, [2, 3]⟩] :: [[⟨0, [1, 2]⟩]] : List (List (SizedCell ℚ))).flatten, 1 + x.level = 1 ∧ 0 < x.diameter := by
  decide +kernel

end Verif.LevelSet
