import Verif.Precond.AssemblyLoop
import Mathlib.Algebra.BigOperators.Ring.Finset
import Mathlib.Algebra.BigOperators.Group.Finset.Sigma
import Mathlib.Algebra.Order.Field.Basic
import Mathlib.Algebra.Order.Ring.Rat
import Mathlib.Analysis.Real.Sqrt
import Mathlib.Tactic.Ring
import Mathlib.Tactic.NormNum
import Mathlib.Tactic.FieldSimp
import Mathlib.Tactic.Positivity
import Mathlib.Tactic.Linarith

/-!
# C108: the matrices the loop adds to, in exact arithmetic

The weak form of every contribution, written down without scratch matrices, pointers and intermediate products,
and the proof that the loop of `AssemblyLoop.lean` emits it.
-/

set_option linter.unusedSectionVars false

namespace Verif.Precond.Loop
open Verif.Operator Finset

/-! ## Specification -/

namespace Spec
variable {K : Type*} [Field K] [LinearOrder K]

/-- A coefficient at quadrature point `q` of the cell in lane `v` of batch `m`. -/
def coefficient (P : Asm K) (table : ℕ → ℕ → K) (constant : K) (m v q : ℕ) : K :=
  if P.variable_ then table (P.nq * m + q) v else constant

def density (P : Asm K) : ℕ → ℕ → ℕ → K := coefficient P P.densities P.density
def viscosity (P : Asm K) : ℕ → ℕ → ℕ → K := coefficient P P.viscosities P.viscosity
def damping (P : Asm K) : ℕ → ℕ → ℕ → K := coefficient P P.damping P.dampingPar

/-- Linearization point: velocity and diagonal of its gradient; zero if there is none. -/
def velocityAt (P : Asm K) (m v q d : ℕ) : K :=
  match P.linearized with
  | none => 0
  | some l => (l (P.nq * m + q) v).first d
def derivativeAt (P : Asm K) (m v q d : ℕ) : K :=
  match P.linearized with
  | none => 0
  | some l => (l (P.nq * m + q) v).second d d

/-- `(ρ (w φⱼ + τ (u·∇φⱼ + φⱼ a)) - σ φⱼ) φᵢ`: time derivative, convection, damping; `a` is the derivative of the
linearization point. -/
def inertia (P : Asm K) (m v q : ℕ) (a phii phij : K) (gj : ℕ → K) : K :=
  (density P m v q * ((if P.stationary then 0 else P.w) * phij +
      P.tau * ((∑ d ∈ range P.dim, velocityAt P m v q d * gj d) + a * phij)) - damping P m v q * phij) * phii

/-- `∇φᵢ·∇φⱼ`. -/
def dot (n : ℕ) (gi gj : ℕ → K) : K := ∑ d ∈ range n, gi d * gj d

/-- Velocity, component `e`: original elements. -/
def classicalEntry (P : Asm K) (m v e i j : ℕ) : K :=
  let c := P.cellOf m v
  ∑ q ∈ range P.nq, P.jxw c q *
    (inertia P m v q (derivativeAt P m v q e) (P.valU c i q) (P.valU c j q) (P.gradU c j q) +
      (P.tauGradDiv + viscosity P m v q * P.tau) *
        (dot P.dim (P.gradU c i q) (P.gradU c j q) + P.gradU c i q e * P.gradU c j q e))

/-- Velocity, one matrix for all components. -/
def scalarEntry (P : Asm K) (m v i j : ℕ) : K :=
  let c := P.cellOf m v
  ∑ q ∈ range P.nq, P.jxw c q *
    (inertia P m v q 0 (P.valU c i q) (P.valU c j q) (P.gradU c j q) +
      (P.tauGradDiv + viscosity P m v q * P.tau) * dot P.dim (P.gradU c i q) (P.gradU c j q))

/-- Gradient of a shape function of a linear sub-element. -/
def subGrad (P : Asm K) (jac : ℕ → ℕ → K) (i q e : ℕ) : K := ∑ f ∈ range P.dim, jac e f * P.unitGrad i q f

/-- Velocity, linear sub-element `sub`, component `e`; coefficients of the first quadrature point of the cell. -/
def linearEntry (P : Asm K) (m v sub e i j : ℕ) : K :=
  let c := P.cellOf m v
  ∑ q ∈ range P.nv,
    let gi := subGrad P (P.jacLinU c sub q) i q
    let gj := subGrad P (P.jacLinU c sub q) j q
    P.jxwLinU c sub q *
      (inertia P m v 0 (derivativeAt P m v 0 e) (P.unitVal i q) (P.unitVal j q) gj +
        viscosity P m v 0 * P.tau * (dot P.dim gi gj + gi e * gj e) + P.tauGradDiv * (gi e * gj e))

/-- The factors `1/(ρ w)` and `1/(μ + τ)`. -/
def inverseDensity (P : Asm K) (m v q : ℕ) : K :=
  if P.stationary then 1
  else 1 / ((if P.variable_ && !P.projection then P.densities (P.nq * m + q) v
    else min P.density (P.density + P.densityDiff)) * P.w)
def inverseViscosity (P : Asm K) (m v q : ℕ) : K :=
  if P.stationary || P.projection then 1 else 1 / (viscosity P m v q + P.tauGradDiv)

/-- Pressure Laplace and mass matrices, original elements (without faces). -/
def laplaceEntry (P : Asm K) (m v i j : ℕ) : K :=
  let c := P.cellOf m v
  ∑ q ∈ range P.nq, P.jxw c q * inverseDensity P m v q * dot P.dim (P.gradP c i q) (P.gradP c j q)
def massEntry (P : Asm K) (m v i j : ℕ) : K :=
  let c := P.cellOf m v
  ∑ q ∈ range P.nq, P.jxw c q * inverseViscosity P m v q * (P.valP c i q * P.valP c j q)

/-- The same on the linear sub-element `sub`. -/
def laplaceLinear (P : Asm K) (m v sub i j : ℕ) : K :=
  let c := P.cellOf m v
  ∑ q ∈ range P.nv, P.jxwLinP c sub q * inverseDensity P m v 0 *
    dot P.dim (subGrad P (P.jacLinP c sub q) i q) (subGrad P (P.jacLinP c sub q) j q)
def massLinear (P : Asm K) (m v sub i j : ℕ) : K :=
  let c := P.cellOf m v
  ∑ q ∈ range P.nv, P.jxwLinP c sub q * inverseViscosity P m v 0 * (P.unitVal i q * P.unitVal j q)

/-- Row and column of an inner face: the integrals against the discontinuous function, penalty for its own entry
in the row only. -/
def faceRow (P : Asm K) (val : ℕ → K) (last : K) (j : ℕ) : K := if j = P.np - 1 then last else val j
def faceCol (P : Asm K) (val : ℕ → K) (i : ℕ) : K := if i = P.np - 1 then 0 else val i

/-- What a face adds to the matrix of the cell, and the coupling to its neighbour. -/
def faceEntry (P : Asm K) (i j : ℕ) : Face K → K
  | .inner val last _ => -(if i = P.np - 1 then faceRow P val last j else 0) -
      (if j = P.np - 1 then faceCol P val i else 0)
  | .nitsche b => b i j
  | .other => 0
def faceCoupling (P : Asm K) (c : ℕ) : Face K → List (Contribution K)
  | .inner val last neigh =>
    [emit .pressure 1 P.np (fun _ => neigh) (P.dofP c) fun _ j => faceRow P val last j,
      emit .pressure P.np 1 (P.dofP c) (fun _ => neigh) fun i _ => faceCol P val i]
  | _ => []

/-- Pressure matrices of a cell with the original elements. -/
def pressureCell (P : Asm K) (m v : ℕ) : List (Contribution K) :=
  let c := P.cellOf m v
  let faces := if P.augmented then P.faces c else []
  faces.flatMap (faceCoupling P c) ++
  [emit .pressure P.np P.np (P.dofP c) (P.dofP c) fun i j =>
    laplaceEntry P m v i j + (faces.map (faceEntry P i j)).sum] ++
  if P.pMassIlu || P.augmented then
    [emit .pressureMass P.np P.np (P.dofP c) (P.dofP c) (massEntry P m v)] else []

/-- All contributions of the cell in lane `v` of batch `m`.  `comp` and `base` give the component and the scalar
function of an unknown of the velocity element (`system_to_component_index`). -/
def cell (P : Asm K) (comp base : ℕ → ℕ) (m v : ℕ) : List (Contribution K) :=
  let c := P.cellOf m v
  if P.amgLinear then
    ((List.range P.nSubU).flatMap fun sub => (List.range P.dim).map fun e =>
      let dof := fun k => P.dofU c (P.order e (P.dofToLinU sub k))
      emit .velocity P.nv P.nv dof dof (linearEntry P m v sub e)) ++
    if P.augmented then pressureCell P m v
    else (List.range P.nSubP).flatMap fun sub =>
      let dof := fun k => P.dofP c (P.dofToLinP sub k)
      emit .pressure P.nv P.nv dof dof (laplaceLinear P m v sub) ::
        if P.pMassIlu then [emit .pressureMass P.nv P.nv dof dof (massLinear P m v sub)] else []
  else
    (if P.scalarIlu then emit .velocityScalar P.nu P.nu (P.dofUScalar c) (P.dofUScalar c) (scalarEntry P m v)
    else emit .velocity (P.nu * P.dim) (P.nu * P.dim) (P.dofU c) (P.dofU c) fun r s =>
      if comp r = comp s then classicalEntry P m v (comp r) (base r) (base s) else 0) :: pressureCell P m v

/-- `order` numbers the pairs of component and scalar function. -/
structure Numbering (P : Asm K) (comp base : ℕ → ℕ) : Prop where
  comp_lt : ∀ r < P.nu * P.dim, comp r < P.dim
  base_lt : ∀ r < P.nu * P.dim, base r < P.nu
  order_eq : ∀ r < P.nu * P.dim, P.order (comp r) (base r) = r
  comp_eq : ∀ d < P.dim, ∀ i < P.nu, comp (P.order d i) = d
  base_eq : ∀ d < P.dim, ∀ i < P.nu, base (P.order d i) = i

/-- Positive quadrature weights, densities, viscosities and time step weight. -/
structure Regular (P : Asm K) : Prop where
  dim : 0 < P.dim
  nq : 0 < P.nq
  sqrt : ∀ x, 0 ≤ x → P.sqrt x * P.sqrt x = x
  jxw : ∀ c q, 0 < P.jxw c q
  jxwLinU : ∀ c sub q, 0 < P.jxwLinU c sub q
  w : P.stationary = false → 0 < P.w
  tauGradDiv : 0 ≤ P.tauGradDiv
  density : 0 < P.density
  lighter : 0 < P.density + P.densityDiff
  viscosity : 0 < P.viscosity
  densities : P.variable_ = true → ∀ m v q, v < P.nActive m → q < P.nq → 0 < P.densities (P.nq * m + q) v
  viscosities : P.variable_ = true → ∀ m v q, v < P.nActive m → q < P.nq → 0 < P.viscosities (P.nq * m + q) v

end Spec

/-! ## Proof -/

section
variable {F : Type*} [Add F] [Sub F]

theorem run_flatMap_at {f : ℕ → List (Write F)} {n k r c : ℕ} (hk : k < n) (hcov : Covers (f k) r c)
    (hoth : ∀ k' < n, k' ≠ k → ∀ w ∈ f k', w.pos ≠ (r, c)) (A B : Mat F) :
    run ((List.range n).flatMap f) A r c = run (f k) B r c := by
  induction n with
  | zero => omega
  | succ n ih =>
    rw [List.range_succ, List.flatMap_append, run_append, List.flatMap_singleton]
    rcases Nat.lt_or_eq_of_le (Nat.lt_succ_iff.1 hk) with h | rfl
    · rw [run_other _ (hoth n (Nat.lt_succ_self n) (by omega))]
      exact ih h fun k' hk' => hoth k' (by omega)
    · exact hcov.run _ _

theorem run_map_at {f : ℕ → Write F} {n k r c : ℕ} {x : F} (hk : k < n) (hf : f k = Write.set r c x)
    (hoth : ∀ k' < n, k' ≠ k → (f k').pos ≠ (r, c)) (A : Mat F) :
    run ((List.range n).map f) A r c = x := by
  have h := run_flatMap_at (f := fun k => [f k]) hk (r := r) (c := c) ⟨x, List.mem_singleton.2 hf.symm⟩
    (fun k' hk' hne w hw => by rw [List.mem_singleton.1 hw]; exact hoth k' hk' hne) A A
  have e : (List.range n).map f = (List.range n).flatMap fun k => [f k] := by
    rw [← List.flatMap_singleton' ((List.range n).map f), List.flatMap_map]
  rw [e, h, hf]
  simp [run, Write.apply]

theorem run_map_set {r c : ℕ → ℕ} {x : ℕ → F} {n k : ℕ} (hk : k < n)
    (h : ∀ k' < n, k' ≠ k → ¬ (r k' = r k ∧ c k' = c k)) (A : Mat F) :
    run ((List.range n).map fun k => Write.set (r k) (c k) (x k)) A (r k) (c k) = x k :=
  run_map_at (f := fun k => Write.set (r k) (c k) (x k)) hk rfl
    (fun k' hk' hne he => h k' hk' hne (by simpa [Write.pos] using he)) A

theorem run_append_left {a b : List (Write F)} {r c : ℕ} (h : ∀ w ∈ b, w.pos ≠ (r, c)) (A : Mat F) :
    run (a ++ b) A r c = run a A r c := by
  rw [run_append, run_other _ h]

theorem run_append_right {a b : List (Write F)} {r c : ℕ} (h : Covers b r c) (A B : Mat F) :
    run (a ++ b) A r c = run b B r c := by
  rw [run_append]
  exact h.run _ _

theorem run_single (r c : ℕ) (x : F) (A : Mat F) : run [Write.set r c x] A r c = x := by
  simp [run, Write.apply]

theorem run_square (n : ℕ) (f : ℕ → ℕ → F) {i j : ℕ} (hi : i < n) (hj : j < n) (A : Mat F) :
    run ((List.range n).flatMap fun i => (List.range n).map fun j => Write.set i j (f i j)) A i j = f i j := by
  rw [run_flatMap_at hi (covers_map_set hj rfl rfl) ?_ A A]
  · exact run_map_set (r := fun _ => i) (c := fun j => j) hj (fun k' _ hne h => hne h.2) A
  · intro k' _ hne w hw
    simp only [List.mem_map] at hw
    obtain ⟨j', _, rfl⟩ := hw
    simp only [Write.pos, ne_eq, Prod.mk.injEq, not_and]
    omega

theorem run_square' (n : ℕ) (f : ℕ → ℕ → F) {i q : ℕ} (hi : i < n) (hq : q < n) (A : Mat F) :
    run ((List.range n).flatMap fun q => (List.range n).map fun i => Write.set i q (f q i)) A i q = f q i := by
  rw [run_flatMap_at hq (covers_map_set hi rfl rfl) ?_ A A]
  · exact run_map_set (r := fun i => i) (c := fun _ => q) hi (fun k' _ hne h => hne h.1) A
  · intro k' _ hne w hw
    simp only [List.mem_map] at hw
    obtain ⟨j', _, rfl⟩ := hw
    simp only [Write.pos, ne_eq, Prod.mk.injEq, not_and]
    omega

end

section
variable {K : Type*} [Field K] [LinearOrder K] [IsStrictOrderedRing K] {P : Asm K}

theorem foldl_add {n : ℕ} (f : ℕ → K) (a : K) :
    (List.range n).foldl (fun s k => s + f k) a = a + ∑ k ∈ range n, f k := by
  induction n with
  | zero => simp
  | succ n ih => rw [List.range_succ, List.foldl_append, ih, Finset.sum_range_succ]; simp [add_assoc]

theorem sumTo_eq (n : ℕ) (f : ℕ → K) : sumTo n f = ∑ k ∈ range n, f k := by
  rw [sumTo, foldl_add, zero_add]

theorem sum_rows (n k : ℕ) (f : ℕ → K) :
    ∑ r ∈ range (n * k), f r = ∑ q ∈ range k, ∑ d ∈ range n, f (n * q + d) := by
  induction k with
  | zero => simp
  | succ k ih => rw [Nat.mul_succ, Finset.sum_range_add, ih, Finset.sum_range_succ]

theorem row_inj {n q q' d d' : ℕ} (hd : d < n) (hd' : d' < n) (h : n * q + d = n * q' + d') : q = q' ∧ d = d' := by
  have h1 : (n * q + d) / n = (n * q' + d') / n := by rw [h]
  rw [Nat.mul_add_div (by omega), Nat.mul_add_div (by omega), Nat.div_eq_of_lt hd, Nat.div_eq_of_lt hd'] at h1
  have : q = q' := by omega
  subst this
  exact ⟨rfl, by omega⟩

/-! ### Filled matrices -/

/-- A matrix filled in a loop over quadrature points and shape functions: `n` rows for every point, the columns
are shared out among the shape functions by `own`. -/
theorem run_qi {n nq ni : ℕ} {blk : ℕ → ℕ → List (Write K)} {own : ℕ → ℕ}
    (hpos : ∀ q i w, w ∈ blk q i → ∃ d < n, w.pos.1 = n * q + d ∧ own w.pos.2 = i) {q d col : ℕ}
    (hq : q < nq) (hd : d < n) (hi : own col < ni) (hcov : Covers (blk q (own col)) (n * q + d) col) (A : Mat K) :
    run ((List.range nq).flatMap fun q => (List.range ni).flatMap fun i => blk q i) A (n * q + d) col =
      run (blk q (own col)) A (n * q + d) col := by
  rw [run_flatMap_at hq (covers_flatMap hi hcov) ?_ A A, run_flatMap_at hi hcov ?_ A A]
  · intro i' _ hne w hw he
    obtain ⟨d', hd', _, hp⟩ := hpos _ _ w hw
    rw [he] at hp
    exact hne hp.symm
  · intro q' _ hne w hw he
    obtain ⟨i', _, hw⟩ := List.mem_flatMap.1 hw
    obtain ⟨d', hd', hp, _⟩ := hpos _ _ w hw
    rw [he] at hp
    exact hne (row_inj hd' hd hp.symm).1

/-- The block of a scalar shape function: gradient rows and a last row. -/
def scalarBlock (P : Asm K) (g : ℕ → ℕ → ℕ → K) (l : ℕ → ℕ → K) (q i : ℕ) : List (Write K) :=
  ((List.range P.dim).map fun d => Write.set ((P.dim + 1) * q + d) i (g q i d)) ++
    [Write.set ((P.dim + 1) * q + P.dim) i (l q i)]

theorem mem_scalarBlock {g : ℕ → ℕ → ℕ → K} {l : ℕ → ℕ → K} {q i : ℕ} {w : Write K} (h : w ∈ scalarBlock P g l q i) :
    ∃ d < P.dim + 1, w.pos.1 = (P.dim + 1) * q + d ∧ w.pos.2 = i := by
  rcases List.mem_append.1 h with h | h
  · obtain ⟨d, hd, rfl⟩ := List.mem_map.1 h
    exact ⟨d, by have := List.mem_range.1 hd; omega, rfl, rfl⟩
  · rw [List.mem_singleton.1 h]
    exact ⟨P.dim, by omega, rfl, rfl⟩

theorem scalarBlock_value {g : ℕ → ℕ → ℕ → K} {l : ℕ → ℕ → K} {q i : ℕ} (hq : q < P.nq) (hi : i < P.nu) (A : Mat K) :
    (∀ d < P.dim, run ((List.range P.nq).flatMap fun q => (List.range P.nu).flatMap fun i => scalarBlock P g l q i) A
      ((P.dim + 1) * q + d) i = g q i d) ∧
    run ((List.range P.nq).flatMap fun q => (List.range P.nu).flatMap fun i => scalarBlock P g l q i) A
      ((P.dim + 1) * q + P.dim) i = l q i := by
  refine ⟨fun d hd => ?_, ?_⟩
  · rw [run_qi (own := id) (fun q i w hw => mem_scalarBlock hw) hq (by omega) hi
      (covers_left (covers_map_set hd rfl rfl)) A]
    unfold scalarBlock
    rw [run_append_left]
    · exact run_map_set (r := fun d => (P.dim + 1) * q + d) (c := fun _ => i) (x := g q i) hd (fun k' _ hne h => hne (by omega)) A
    · intro w hw
      rw [List.mem_singleton.1 hw]
      simp only [Write.pos, ne_eq, Prod.mk.injEq, not_and]
      omega
  · rw [run_qi (own := id) (fun q i w hw => mem_scalarBlock hw) hq (by omega) hi
      (covers_right (covers_single _ _ _ _ _ rfl rfl)) A]
    exact (run_append_right (covers_single _ _ _ _ _ rfl rfl) A A).trans (run_single _ _ _ _)

/-- The block of a shape function of all components. -/
def vectorBlock (P : Asm K) (g : ℕ → ℕ → ℕ → K) (l : ℕ → ℕ → ℕ → K) (q i : ℕ) : List (Write K) :=
  ((List.range P.dim).flatMap fun d =>
    ((List.range P.dim).map fun e => Write.set ((P.dim + 1) * q + d) (i * P.dim + e) (g q i d)) ++
    [Write.add ((P.dim + 1) * q + d) (i * P.dim + d) (g q i d)]) ++
  (List.range P.dim).map fun d => Write.set ((P.dim + 1) * q + P.dim) (i * P.dim + d) (l q i d)

theorem own_col {n i e : ℕ} (he : e < n) : (i * n + e) / n = i := by
  rw [Nat.mul_comm, Nat.mul_add_div (by omega), Nat.div_eq_of_lt he, Nat.add_zero]

theorem mem_vectorBlock {g l : ℕ → ℕ → ℕ → K} {q i : ℕ} {w : Write K} (h : w ∈ vectorBlock P g l q i) :
    ∃ d < P.dim + 1, w.pos.1 = (P.dim + 1) * q + d ∧ w.pos.2 / P.dim = i := by
  rcases List.mem_append.1 h with h | h
  · obtain ⟨d, hd, h⟩ := List.mem_flatMap.1 h
    have hd := List.mem_range.1 hd
    rcases List.mem_append.1 h with h | h
    · obtain ⟨e, he, rfl⟩ := List.mem_map.1 h
      exact ⟨d, by omega, rfl, own_col (List.mem_range.1 he)⟩
    · rw [List.mem_singleton.1 h]
      exact ⟨d, by omega, rfl, own_col hd⟩
  · obtain ⟨e, he, rfl⟩ := List.mem_map.1 h
    exact ⟨P.dim, by omega, rfl, own_col (List.mem_range.1 he)⟩

theorem vectorBlock_value {g l : ℕ → ℕ → ℕ → K} {q i e : ℕ} (hq : q < P.nq) (hi : i < P.nu) (he : e < P.dim)
    (A : Mat K) :
    (∀ d < P.dim, run ((List.range P.nq).flatMap fun q => (List.range P.nu).flatMap fun i => vectorBlock P g l q i) A
      ((P.dim + 1) * q + d) (i * P.dim + e) = g q i d + if d = e then g q i d else 0) ∧
    run ((List.range P.nq).flatMap fun q => (List.range P.nu).flatMap fun i => vectorBlock P g l q i) A
      ((P.dim + 1) * q + P.dim) (i * P.dim + e) = l q i e := by
  have ho : (i * P.dim + e) / P.dim = i := own_col he
  refine ⟨fun d hd => ?_, ?_⟩
  · have hcov : Covers (((List.range P.dim).map fun e => Write.set ((P.dim + 1) * q + d) (i * P.dim + e) (g q i d)) ++
        [Write.add ((P.dim + 1) * q + d) (i * P.dim + d) (g q i d)]) ((P.dim + 1) * q + d) (i * P.dim + e) :=
      covers_left (covers_map_set he rfl rfl)
    rw [run_qi (own := fun col => col / P.dim) (fun q i w hw => mem_vectorBlock hw) hq (by omega) (by rw [ho]; exact hi)
      (by rw [ho]; exact covers_left (covers_flatMap hd hcov)) A]
    rw [ho]
    unfold vectorBlock
    rw [run_append_left]
    · rw [run_flatMap_at hd hcov ?_ A A]
      · rw [run_append]
        have hset := run_map_set (r := fun _ => (P.dim + 1) * q + d) (c := fun e => i * P.dim + e)
          (x := fun _ => g q i d) he (fun k' _ hne h => hne (by omega)) A
        simp only [run, List.foldl_cons, List.foldl_nil, Write.apply] at hset ⊢
        rw [hset]
        by_cases hde : d = e
        · simp [hde]
        · rw [if_neg (by omega), if_neg hde, add_zero]
      · intro d' _ hne w hw hp
        rcases List.mem_append.1 hw with hw | hw
        · obtain ⟨e', _, rfl⟩ := List.mem_map.1 hw
          simp only [Write.pos, Prod.mk.injEq] at hp
          omega
        · rw [List.mem_singleton.1 hw] at hp
          simp only [Write.pos, Prod.mk.injEq] at hp
          omega
    · intro w hw hp
      obtain ⟨e', _, rfl⟩ := List.mem_map.1 hw
      simp only [Write.pos, Prod.mk.injEq] at hp
      omega
  · have hcov : Covers ((List.range P.dim).map fun d => Write.set ((P.dim + 1) * q + P.dim) (i * P.dim + d) (l q i d))
        ((P.dim + 1) * q + P.dim) (i * P.dim + e) := covers_map_set he rfl rfl
    rw [run_qi (own := fun col => col / P.dim) (fun q i w hw => mem_vectorBlock hw) hq (by omega) (by rw [ho]; exact hi)
      (by rw [ho]; exact covers_right hcov) A]
    rw [ho]
    unfold vectorBlock
    rw [run_append_right hcov A A]
    exact run_map_set (r := fun _ => (P.dim + 1) * q + P.dim) (c := fun e => i * P.dim + e)
      (x := fun e => l q i e) he (fun k' _ hne h => hne (by omega)) A

/-! ### Velocity -/

theorem phiGradValue_eq (m v q : ℕ) (JxW val : K) (grad : ℕ → K) :
    P.phiGradValue (P.nq * m) v q JxW val grad q = (if P.stationary then 0 else P.w) * val -
      JxW * Spec.damping P m v q / (JxW * Spec.density P m v q) * val +
      P.tau * ∑ d ∈ range P.dim, Spec.velocityAt P m v q d * grad d := by
  unfold Asm.phiGradValue Spec.velocityAt
  dsimp only
  have hs : (if P.stationary = true then 0 else val * P.w) = (if P.stationary = true then 0 else P.w) * val := by
    split <;> ring
  rw [hs]
  cases P.linearized with
  | none => simp only [zero_mul, Finset.sum_const_zero, mul_zero, add_zero]; rfl
  | some l =>
    dsimp only
    rw [foldl_add, Finset.mul_sum]
    congr 1
    exact Finset.sum_congr rfl fun d _ => by ring

theorem inertia_eq (m v q : ℕ) {JxW : K} (hJ : JxW ≠ 0) (hr : Spec.density P m v q ≠ 0) (a phii phij : K) (gj : ℕ → K) :
    phii * (JxW * Spec.density P m v q) * (P.phiGradValue (P.nq * m) v q JxW phij gj q + a * phij * P.tau) =
      JxW * Spec.inertia P m v q a phii phij gj := by
  rw [phiGradValue_eq, Spec.inertia]
  field_simp
  ring

theorem lastRow_eq (c m v q i d : ℕ) : P.lastRow c (P.nq * m) v q i d =
    P.phiGradValue (P.nq * m) v q (P.jxw c q) (P.valU c i q) (P.gradU c i q) q +
      Spec.derivativeAt P m v q d * P.valU c i q * P.tau := by
  unfold Asm.lastRow Spec.derivativeAt
  cases P.linearized with
  | none => simp
  | some l => rfl

theorem density_ne (hreg : Spec.Regular P) {m v q : ℕ} (hv : v < P.nActive m) (hq : q < P.nq) :
    Spec.density P m v q ≠ 0 := by
  unfold Spec.density Spec.coefficient
  split
  · rename_i h
    exact (hreg.densities h m v q hv hq).ne'
  · exact hreg.density.ne'

theorem rho1_eq (m v q : ℕ) : P.rho1 (P.nq * m) v q = Spec.density P m v q := rfl
theorem nu1_eq (m v q : ℕ) : P.nu1 (P.nq * m) v q = Spec.viscosity P m v q := rfl
theorem damp1_eq (m v q : ℕ) : P.damp1 (P.nq * m) v q = Spec.damping P m v q := rfl

theorem phiWrites_eq (c off lane : ℕ) : P.phiWrites c off lane =
    (List.range P.nq).flatMap fun q => (List.range P.nu).flatMap fun i => scalarBlock P
      (fun q i d => P.gradU c i q d * (P.jxw c q * (P.tauGradDiv + P.nu1 off lane q * P.tau)))
      (fun q i => P.valU c i q * (P.jxw c q * P.rho1 off lane q)) q i := rfl

theorem phiGradScalarWrites_eq (c off lane : ℕ) : P.phiGradScalarWrites c off lane =
    (List.range P.nq).flatMap fun q => (List.range P.nu).flatMap fun i => scalarBlock P
      (fun q i d => P.gradU c i q d)
      (fun q i => P.phiGradValue off lane q (P.jxw c q) (P.valU c i q) (P.gradU c i q) q) q i := rfl

theorem phiGradWrites_eq (c off lane : ℕ) : P.phiGradWrites c off lane =
    (List.range P.nq).flatMap fun q => (List.range P.nu).flatMap fun i => vectorBlock P
      (fun q i d => P.gradU c i q d) (fun q i d => P.lastRow c off lane q i d) q i := rfl

theorem scalar_value (hreg : Spec.Regular P) {m v : ℕ} (hv : v < P.nActive m) {i j : ℕ} (hi : i < P.nu) (hj : j < P.nu)
    (A B D : Mat K) :
    tmmult ((P.dim + 1) * P.nq) P.nu P.nu (run (P.phiWrites (P.cellOf m v) (P.nq * m) v) A)
      (run (P.phiGradScalarWrites (P.cellOf m v) (P.nq * m) v) B) D i j = Spec.scalarEntry P m v i j := by
  simp only [tmmult, hi, hj, and_self, if_true]
  rw [sumTo_eq, sum_rows, Spec.scalarEntry]
  refine Finset.sum_congr rfl fun q hq => ?_
  rw [Finset.mem_range] at hq
  rw [Finset.sum_range_succ, phiWrites_eq, phiGradScalarWrites_eq]
  have h1 := scalarBlock_value (P := P) (g := fun q i d => P.gradU (P.cellOf m v) i q d *
    (P.jxw (P.cellOf m v) q * (P.tauGradDiv + P.nu1 (P.nq * m) v q * P.tau)))
    (l := fun q i => P.valU (P.cellOf m v) i q * (P.jxw (P.cellOf m v) q * P.rho1 (P.nq * m) v q)) hq hi A
  have h2 := scalarBlock_value (P := P) (g := fun q i d => P.gradU (P.cellOf m v) i q d)
    (l := fun q i => P.phiGradValue (P.nq * m) v q (P.jxw (P.cellOf m v) q) (P.valU (P.cellOf m v) i q)
      (P.gradU (P.cellOf m v) i q) q) hq hj B
  rw [h1.2, h2.2]
  have h3 := inertia_eq (P := P) m v q (hreg.jxw (P.cellOf m v) q).ne' (density_ne hreg hv hq) 0
    (P.valU (P.cellOf m v) i q) (P.valU (P.cellOf m v) j q) (P.gradU (P.cellOf m v) j q)
  rw [zero_mul, zero_mul, add_zero] at h3
  rw [rho1_eq, h3, mul_add, add_comm]
  congr 1
  rw [Spec.dot, Finset.mul_sum, Finset.mul_sum]
  refine Finset.sum_congr rfl fun d hd => ?_
  rw [h1.1 d (Finset.mem_range.1 hd), h2.1 d (Finset.mem_range.1 hd), nu1_eq]
  ring

theorem classical_value (hreg : Spec.Regular P) {m v : ℕ} (hv : v < P.nActive m) {i j e : ℕ} (hi : i < P.nu) (hj : j < P.nu)
    (he : e < P.dim) (A B D : Mat K) :
    tmmult ((P.dim + 1) * P.nq) P.nu (P.nu * P.dim) (run (P.phiWrites (P.cellOf m v) (P.nq * m) v) A)
      (run (P.phiGradWrites (P.cellOf m v) (P.nq * m) v) B) D i (j * P.dim + e) =
      Spec.classicalEntry P m v e i j := by
  have hcol : j * P.dim + e < P.nu * P.dim :=
    calc j * P.dim + e < j * P.dim + P.dim := by omega
      _ = (j + 1) * P.dim := by ring
      _ ≤ P.nu * P.dim := Nat.mul_le_mul_right _ hj
  simp only [tmmult, hi, hcol, and_self, if_true]
  rw [sumTo_eq, sum_rows, Spec.classicalEntry]
  refine Finset.sum_congr rfl fun q hq => ?_
  rw [Finset.mem_range] at hq
  rw [Finset.sum_range_succ, phiWrites_eq, phiGradWrites_eq]
  have h1 := scalarBlock_value (P := P) (g := fun q i d => P.gradU (P.cellOf m v) i q d *
    (P.jxw (P.cellOf m v) q * (P.tauGradDiv + P.nu1 (P.nq * m) v q * P.tau)))
    (l := fun q i => P.valU (P.cellOf m v) i q * (P.jxw (P.cellOf m v) q * P.rho1 (P.nq * m) v q)) hq hi A
  have h2 := vectorBlock_value (P := P) (g := fun q i d => P.gradU (P.cellOf m v) i q d)
    (l := fun q i d => P.lastRow (P.cellOf m v) (P.nq * m) v q i d) hq hj he B
  rw [h1.2, h2.2]
  have h3 := inertia_eq (P := P) m v q (hreg.jxw (P.cellOf m v) q).ne' (density_ne hreg hv hq)
    (Spec.derivativeAt P m v q e)
    (P.valU (P.cellOf m v) i q) (P.valU (P.cellOf m v) j q) (P.gradU (P.cellOf m v) j q)
  rw [rho1_eq, lastRow_eq, h3, mul_add, add_comm]
  congr 1
  have hsum : P.gradU (P.cellOf m v) i q e * P.gradU (P.cellOf m v) j q e = ∑ d ∈ range P.dim,
      if d = e then P.gradU (P.cellOf m v) i q d * P.gradU (P.cellOf m v) j q d else 0 := by
    rw [Finset.sum_ite_eq' (range P.dim) e, if_pos (Finset.mem_range.2 he)]
  rw [hsum, Spec.dot, ← Finset.sum_add_distrib, Finset.mul_sum, Finset.mul_sum]
  refine Finset.sum_congr rfl fun d hd => ?_
  rw [h1.1 d (Finset.mem_range.1 hd), h2.1 d (Finset.mem_range.1 hd), nu1_eq]
  split <;> ring

theorem velocityClassical_value (hreg : Spec.Regular P) {comp base : ℕ → ℕ} (hnum : Spec.Numbering P comp base) {m v : ℕ}
    (hv : v < P.nActive m) :
    (P.velocityClassical (P.cellOf m v) (P.nq * m) v fresh).2 =
      [if P.scalarIlu then emit .velocityScalar P.nu P.nu (P.dofUScalar (P.cellOf m v)) (P.dofUScalar (P.cellOf m v))
          (Spec.scalarEntry P m v)
        else emit .velocity (P.nu * P.dim) (P.nu * P.dim) (P.dofU (P.cellOf m v)) (P.dofU (P.cellOf m v)) fun r s =>
          if comp r = comp s then Spec.classicalEntry P m v (comp r) (base r) (base s) else 0] := by
  unfold Asm.velocityClassical
  dsimp only
  by_cases hsc : P.scalarIlu = true
  · simp only [if_pos hsc]
    congr 1
    apply emit_congr
    intro i hi j hj
    exact scalar_value hreg hv hi hj _ _ _
  · simp only [if_neg hsc]
    congr 1
    apply emit_congr
    intro r hr s hs
    by_cases hc : comp r = comp s
    · rw [if_pos hc]
      have hi := hnum.base_lt r hr
      have hj := hnum.base_lt s hs
      have hd := hnum.comp_lt r hr
      have er := hnum.order_eq r hr
      have es := hnum.order_eq s hs
      rw [← hc] at es
      rw [← classical_value hreg hv hi hj hd (fresh : Scratch K).phi (fresh : Scratch K).phiAndGrad
        (fresh : Scratch K).permuted]
      generalize tmmult ((P.dim + 1) * P.nq) P.nu (P.nu * P.dim) (run (P.phiWrites (P.cellOf m v) (P.nq * m) v) (fresh : Scratch K).phi)
        (run (P.phiGradWrites (P.cellOf m v) (P.nq * m) v) (fresh : Scratch K).phiAndGrad) (fresh : Scratch K).permuted = M
      have hinner : ∀ (i j : ℕ), Covers ((List.range P.dim).map fun d =>
          Write.set (P.order d i) (P.order d j) (M i (j * P.dim + d))) (P.order (comp r) i) (P.order (comp r) j) :=
        fun i j => covers_map_set hd rfl rfl
      have hfin : run (P.copyWrites M) (fresh : Scratch K).velocity (P.order (comp r) (base r)) (P.order (comp r) (base s)) =
          M (base r) (base s * P.dim + comp r) := by
        unfold Asm.copyWrites
        rw [run_flatMap_at hi (covers_flatMap hj (hinner _ _)) ?_ _ (fun _ _ => 0),
          run_flatMap_at hj (hinner _ _) ?_ _ (fun _ _ => 0)]
        · refine run_map_set (r := fun d => P.order d (base r)) (c := fun d => P.order d (base s))
            (x := fun d => M (base r) (base s * P.dim + d)) hd ?_ _
          intro d hd' hne h
          have := hnum.comp_eq d hd' _ hi
          rw [h.1, hnum.comp_eq _ hd _ hi] at this
          exact hne this.symm
        · intro j' hj' hne w hw hp
          obtain ⟨d, hd', rfl⟩ := List.mem_map.1 hw
          simp only [Write.pos, Prod.mk.injEq] at hp
          have := hnum.base_eq d (List.mem_range.1 hd') j' hj'
          rw [hp.2, hnum.base_eq _ hd _ hj] at this
          exact hne this.symm
        · intro i' hi' hne w hw hp
          obtain ⟨j', hj', hw⟩ := List.mem_flatMap.1 hw
          obtain ⟨d, hd', rfl⟩ := List.mem_map.1 hw
          simp only [Write.pos, Prod.mk.injEq] at hp
          have := hnum.base_eq d (List.mem_range.1 hd') i' hi'
          rw [hp.1, hnum.base_eq _ hd _ hi] at this
          exact hne this.symm
      rw [er, es] at hfin
      exact hfin
    · rw [if_neg hc, run_other]
      · rfl
      · apply copy_other
        rintro ⟨d, hd, i, hi, j, hj, rfl, rfl⟩
        exact hc (by rw [hnum.comp_eq d hd i hi, hnum.comp_eq d hd j hj])

/-! ### Linear sub-elements -/

theorem pullBack_eq (hdim : 0 < P.dim) (jac : ℕ → ℕ → K) (g : ℕ → K) (e : ℕ) :
    P.pullBack jac g e = ∑ f ∈ range P.dim, jac f e * g f := by
  obtain ⟨n, hn⟩ : ∃ n, P.dim = n + 1 := ⟨P.dim - 1, by omega⟩
  unfold Asm.pullBack
  rw [hn, Nat.add_sub_cancel, Finset.sum_range_succ', add_comm]
  have : ∀ (k : ℕ) (a : K), (List.range' 1 k).foldl (fun s f => s + jac f e * g f) a =
      a + ∑ f ∈ range k, jac (f + 1) e * g (f + 1) := by
    intro k a
    induction k with
    | zero => simp
    | succ k ih =>
      rw [List.range'_concat, List.foldl_append, ih, Finset.sum_range_succ]
      simp only [List.foldl_cons, List.foldl_nil, Nat.mul_one, Nat.add_comm 1 k, one_mul]
      ring
  exact this n _

theorem linGrad_eq (jac : ℕ → ℕ → K) (i q : ℕ) : P.linGrad jac i q = Spec.subGrad P jac i q := by
  funext e
  rw [Asm.linGrad, sumTo_eq, Spec.subGrad]

/-- `∇φ̂ᵢ · (Jᵀ x) = (J ∇φ̂ᵢ) · x`. -/
theorem transfer (jac : ℕ → ℕ → K) (i q : ℕ) (x : ℕ → K) :
    ∑ e ∈ range P.dim, P.unitGrad i q e * ∑ f ∈ range P.dim, jac f e * x f =
      ∑ f ∈ range P.dim, Spec.subGrad P jac i q f * x f := by
  simp only [Spec.subGrad, Finset.mul_sum, Finset.sum_mul]
  rw [Finset.sum_comm]
  exact Finset.sum_congr rfl fun f _ => Finset.sum_congr rfl fun e _ => by ring

theorem foldl_foldl {n k : ℕ} (f : ℕ → K) (g : ℕ → ℕ → K) (a : K) :
    (List.range n).foldl (fun r q => (List.range k).foldl (fun r e => r + g q e) (r + f q)) a =
      a + ∑ q ∈ range n, (f q + ∑ e ∈ range k, g q e) := by
  have : (fun (r : K) (q : ℕ) => (List.range k).foldl (fun r e => r + g q e) (r + f q)) =
      fun r q => r + (f q + ∑ e ∈ range k, g q e) := by
    funext r q
    rw [foldl_add, add_assoc]
  rw [this, foldl_add]

theorem linear_value (hreg : Spec.Regular P) {m v : ℕ} (hv : v < P.nActive m) (sub : ℕ) {e i j : ℕ} (he : e < P.dim)
    (hi : i < P.nv) (hj : j < P.nv) (A B : Mat K) (G : Mat (ℕ → K)) :
    run (P.linMatrixU (run (P.linValWritesU (P.cellOf m v) (P.nq * m) v sub e) A)
      (run (P.linGradWritesU (P.cellOf m v) (P.nq * m) v sub e) G)) B i j = Spec.linearEntry P m v sub e i j := by
  unfold Asm.linMatrixU
  rw [run_square _ _ hi hj, foldl_foldl, zero_add, Spec.linearEntry]
  refine Finset.sum_congr rfl fun q hq => ?_
  rw [Finset.mem_range] at hq
  have h1 : run (P.linValWritesU (P.cellOf m v) (P.nq * m) v sub e) A j q =
      P.linValU (P.cellOf m v) (P.nq * m) v sub e q j := run_square' P.nv _ hj hq A
  have h2 : run (P.linGradWritesU (P.cellOf m v) (P.nq * m) v sub e) G j q =
      P.pullBack (P.jacLinU (P.cellOf m v) sub q) (P.linTestU (P.cellOf m v) (P.nq * m) v sub e q j) :=
    run_square' P.nv _ hj hq G
  rw [h1, h2]
  simp only [pullBack_eq hreg.dim]
  rw [transfer]
  have hval : P.unitVal i q * P.linValU (P.cellOf m v) (P.nq * m) v sub e q j = P.jxwLinU (P.cellOf m v) sub q *
      Spec.inertia P m v 0 (Spec.derivativeAt P m v 0 e) (P.unitVal i q) (P.unitVal j q)
        (Spec.subGrad P (P.jacLinU (P.cellOf m v) sub q) j q) := by
    rw [← inertia_eq m v 0 (hreg.jxwLinU (P.cellOf m v) sub q).ne' (density_ne hreg hv hreg.nq)]
    unfold Asm.linValU
    dsimp only
    rw [linGrad_eq, rho1_eq]
    generalize P.phiGradValue (P.nq * m) v 0 (P.jxwLinU (P.cellOf m v) sub q) (P.unitVal j q)
      (Spec.subGrad P (P.jacLinU (P.cellOf m v) sub q) j q) 0 = V
    unfold Spec.derivativeAt
    cases P.linearized with
    | none => simp only [zero_mul, add_zero]; ring
    | some l => dsimp only [Nat.add_zero]; ring
  rw [hval, mul_add, mul_add, add_assoc]
  congr 1
  have htest : ∀ f, P.linTestU (P.cellOf m v) (P.nq * m) v sub e q j f =
      Spec.subGrad P (P.jacLinU (P.cellOf m v) sub q) j q f *
        (P.jxwLinU (P.cellOf m v) sub q * Spec.viscosity P m v 0 * P.tau) +
      if f = e then Spec.subGrad P (P.jacLinU (P.cellOf m v) sub q) j q e *
        (P.jxwLinU (P.cellOf m v) sub q * Spec.viscosity P m v 0 * P.tau + P.jxwLinU (P.cellOf m v) sub q * P.tauGradDiv)
        else 0 := by
    intro f
    unfold Asm.linTestU
    dsimp only
    rw [linGrad_eq, nu1_eq]
    split
    · rename_i h
      subst h
      ring
    · ring
  have hsum : ∑ f ∈ range P.dim, Spec.subGrad P (P.jacLinU (P.cellOf m v) sub q) i q f *
        P.linTestU (P.cellOf m v) (P.nq * m) v sub e q j f =
      Spec.dot P.dim (Spec.subGrad P (P.jacLinU (P.cellOf m v) sub q) i q)
        (Spec.subGrad P (P.jacLinU (P.cellOf m v) sub q) j q) *
        (P.jxwLinU (P.cellOf m v) sub q * Spec.viscosity P m v 0 * P.tau) +
      Spec.subGrad P (P.jacLinU (P.cellOf m v) sub q) i q e * (Spec.subGrad P (P.jacLinU (P.cellOf m v) sub q) j q e *
        (P.jxwLinU (P.cellOf m v) sub q * Spec.viscosity P m v 0 * P.tau + P.jxwLinU (P.cellOf m v) sub q * P.tauGradDiv)) := by
    simp only [htest, mul_add, Finset.sum_add_distrib]
    congr 1
    · rw [Spec.dot, Finset.sum_mul]
      exact Finset.sum_congr rfl fun f _ => by ring
    · simp only [mul_ite, mul_zero]
      rw [Finset.sum_ite_eq' (range P.dim) e, if_pos (Finset.mem_range.2 he)]
      ring
  rw [hsum]
  ring

theorem velocityLinear_value (hreg : Spec.Regular P) {m v : ℕ} (hv : v < P.nActive m) :
    (P.velocityLinear (P.cellOf m v) (P.nq * m) v fresh).2 =
      (List.range P.nSubU).flatMap fun sub => (List.range P.dim).map fun e =>
        emit .velocity P.nv P.nv (fun k => P.dofU (P.cellOf m v) (P.order e (P.dofToLinU sub k)))
          (fun k => P.dofU (P.cellOf m v) (P.order e (P.dofToLinU sub k))) (Spec.linearEntry P m v sub e) := by
  have h : P.velocityLinear (P.cellOf m v) (P.nq * m) v fresh =
      (List.range P.nSubU).foldl (fun (st : Scratch K × List (Contribution K)) sub =>
        (((fun s => (List.range P.dim).foldl (fun (st : Scratch K × List (Contribution K)) d =>
            ((linStep P (P.cellOf m v) (P.nq * m) v sub d st.1).1,
              st.2 ++ (linStep P (P.cellOf m v) (P.nq * m) v sub d st.1).2)) (s, [])) st.1).1,
          st.2 ++ ((fun s => (List.range P.dim).foldl (fun (st : Scratch K × List (Contribution K)) d =>
            ((linStep P (P.cellOf m v) (P.nq * m) v sub d st.1).1,
              st.2 ++ (linStep P (P.cellOf m v) (P.nq * m) v sub d st.1).2)) (s, [])) st.1).2))
        (fresh, []) := by
    unfold Asm.velocityLinear
    congr 1
    funext st sub
    exact foldl_out (fun d => linStep P (P.cellOf m v) (P.nq * m) v sub d) (List.range P.dim) st.1 st.2
  rw [h]
  have h2 := foldl_clean (P := P) (fun sub s => (List.range P.dim).foldl
      (fun (st : Scratch K × List (Contribution K)) d => ((linStep P (P.cellOf m v) (P.nq * m) v sub d st.1).1,
        st.2 ++ (linStep P (P.cellOf m v) (P.nq * m) v sub d st.1).2)) (s, [])) (List.range P.nSubU)
    (fun sub _ => clean_foldl _ _ fun d _ => clean_linStep (P.cellOf m v) (P.nq * m) v sub d) fresh inv_fresh []
  rw [h2.2, List.nil_append]
  refine List.flatMap_congr fun sub _ => ?_
  have h3 := foldl_clean (P := P) (fun d => linStep P (P.cellOf m v) (P.nq * m) v sub d) (List.range P.dim)
    (fun d _ => clean_linStep (P.cellOf m v) (P.nq * m) v sub d) fresh inv_fresh []
  rw [h3.2, List.nil_append]
  rw [← List.flatMap_singleton' ((List.range P.dim).map _), List.flatMap_map]
  refine List.flatMap_congr fun e he => ?_
  unfold linStep
  dsimp only
  congr 1
  apply emit_congr
  intro i hi j hj
  exact linear_value hreg hv sub (List.mem_range.1 he) hi hj _ _ _

/-! ### Pressure -/

theorem rhoWeight_pos (hreg : Spec.Regular P) {m v q : ℕ} (hv : v < P.nActive m) (hq : q < P.nq) :
    0 < P.rhoWeight (P.nq * m) v q := by
  unfold Asm.rhoWeight
  split
  · exact one_pos
  · rename_i hst
    have hw := hreg.w (by simpa using hst)
    refine mul_pos ?_ hw
    split
    · rename_i h
      exact hreg.densities (by simp at h; exact h.1) m v q hv hq
    · split
      · exact hreg.lighter
      · exact hreg.density

theorem inverseDensity_eq (m v q : ℕ) (x : K) : x / P.rhoWeight (P.nq * m) v q = x * Spec.inverseDensity P m v q := by
  unfold Asm.rhoWeight Spec.inverseDensity
  split
  · rw [div_one, mul_one]
  · have hmin : (if P.density + P.densityDiff < P.density then P.density + P.densityDiff else P.density) =
        min P.density (P.density + P.densityDiff) := by
      split
      · rename_i h; exact (min_eq_right h.le).symm
      · rename_i h; exact (min_eq_left (not_lt.1 h)).symm
    rw [hmin, mul_one_div]

theorem pressureNu_pos (hreg : Spec.Regular P) {m v q : ℕ} (hv : v < P.nActive m) (hq : q < P.nq) :
    0 < P.pressureNu (P.nq * m) v q := by
  unfold Asm.pressureNu Asm.nu1
  split
  · exact one_pos
  · refine add_pos_of_pos_of_nonneg ?_ hreg.tauGradDiv
    split
    · rename_i h
      exact hreg.viscosities h m v q hv hq
    · exact hreg.viscosity

theorem inverseViscosity_eq (m v q : ℕ) (x : K) :
    x / P.pressureNu (P.nq * m) v q = x * Spec.inverseViscosity P m v q := by
  unfold Asm.pressureNu Spec.inverseViscosity
  split
  · rw [div_one, mul_one]
  · rw [nu1_eq, mul_one_div]

theorem laplaceLinear_value (hreg : Spec.Regular P) {m v : ℕ} (hv : v < P.nActive m) (sub : ℕ) {i j : ℕ}
    (hi : i < P.nv) (hj : j < P.nv) (B : Mat K) (G : Mat (ℕ → K)) :
    run (P.linLaplaceP (run (P.linGradWritesP (P.cellOf m v) (P.nq * m) v sub) G)) B i j =
      Spec.laplaceLinear P m v sub i j := by
  unfold Asm.linLaplaceP
  have hfold : ∀ (g : ℕ → ℕ → K), (List.range P.nv).foldl (fun r q => (List.range P.dim).foldl
      (fun r e => r + g q e) r) 0 = ∑ q ∈ range P.nv, ∑ e ∈ range P.dim, g q e := by
    intro g
    have := foldl_foldl (n := P.nv) (k := P.dim) (fun _ => (0 : K)) g 0
    simpa using this
  rw [run_square _ _ hi hj, hfold, Spec.laplaceLinear]
  refine Finset.sum_congr rfl fun q hq => ?_
  rw [Finset.mem_range] at hq
  have h2 : run (P.linGradWritesP (P.cellOf m v) (P.nq * m) v sub) G j q =
      P.pullBack (P.jacLinP (P.cellOf m v) sub q) fun e =>
        P.linGrad (P.jacLinP (P.cellOf m v) sub q) j q e *
          (P.jxwLinP (P.cellOf m v) sub q / P.rhoWeight (P.nq * m) v 0) := by
    have hw : P.linGradWritesP (P.cellOf m v) (P.nq * m) v sub = (List.range P.nv).flatMap fun q =>
        (List.range P.nv).map fun i => Write.set i q (P.pullBack (P.jacLinP (P.cellOf m v) sub q) fun e =>
        P.linGrad (P.jacLinP (P.cellOf m v) sub q) i q e *
          (P.jxwLinP (P.cellOf m v) sub q / P.rhoWeight (P.nq * m) v 0)) := by
      unfold Asm.linGradWritesP
      refine List.flatMap_congr fun q _ => ?_
      rw [← List.flatMap_singleton' ((List.range P.nv).map _), List.flatMap_map]
      exact List.flatMap_congr fun i _ => if_pos (rhoWeight_pos hreg hv hreg.nq)
    rw [hw]
    exact run_square' P.nv _ hj hq G
  rw [h2]
  simp only [pullBack_eq hreg.dim]
  rw [transfer, inverseDensity_eq, linGrad_eq, Spec.dot, Finset.mul_sum]
  exact Finset.sum_congr rfl fun f _ => by ring

theorem massLinear_value {m v : ℕ} (sub : ℕ) {i j : ℕ}
    (hi : i < P.nv) (hj : j < P.nv) (A B : Mat K) :
    run (P.linMassP (run (P.linValWritesP (P.cellOf m v) (P.nq * m) v sub) A)) B i j =
      Spec.massLinear P m v sub i j := by
  unfold Asm.linMassP
  rw [run_square _ _ hi hj, sumTo_eq, Spec.massLinear]
  refine Finset.sum_congr rfl fun q hq => ?_
  rw [Finset.mem_range] at hq
  have h2 : run (P.linValWritesP (P.cellOf m v) (P.nq * m) v sub) A j q =
      P.jxwLinP (P.cellOf m v) sub q / P.pressureNu (P.nq * m) v 0 * P.unitVal j q :=
    run_square' P.nv _ hj hq A
  rw [h2, inverseViscosity_eq]
  ring

theorem pressureLinear_value (hreg : Spec.Regular P) {m v : ℕ} (hv : v < P.nActive m) :
    (P.pressureLinear (P.cellOf m v) (P.nq * m) v fresh).2 =
      (List.range P.nSubP).flatMap fun sub =>
        emit .pressure P.nv P.nv (fun k => P.dofP (P.cellOf m v) (P.dofToLinP sub k))
          (fun k => P.dofP (P.cellOf m v) (P.dofToLinP sub k)) (Spec.laplaceLinear P m v sub) ::
        if P.pMassIlu then [emit .pressureMass P.nv P.nv (fun k => P.dofP (P.cellOf m v) (P.dofToLinP sub k))
          (fun k => P.dofP (P.cellOf m v) (P.dofToLinP sub k)) (Spec.massLinear P m v sub)] else [] := by
  have h := foldl_clean (P := P) (fun sub => P.pressureLinearSub (P.cellOf m v) (P.nq * m) v sub) (List.range P.nSubP)
    (fun sub _ => clean_pressureLinearSub (P.cellOf m v) (P.nq * m) v sub
      fun _ => rhoWeight_pos hreg hv hreg.nq) fresh inv_fresh []
  unfold Asm.pressureLinear
  rw [h.2, List.nil_append]
  refine List.flatMap_congr fun sub _ => ?_
  unfold Asm.pressureLinearSub
  dsimp only
  simp only [if_pos hreg.density]
  have h1 : ∀ (t : Target) (f : ℕ → ℕ) (B : Mat K) (G : Mat (ℕ → K)), emit t P.nv P.nv f f
      (run (P.linLaplaceP (run (P.linGradWritesP (P.cellOf m v) (P.nq * m) v sub) G)) B) =
      emit t P.nv P.nv f f (Spec.laplaceLinear P m v sub) :=
    fun t f B G => emit_congr fun i hi j hj => laplaceLinear_value hreg hv sub hi hj B G
  have h2 : ∀ (t : Target) (f : ℕ → ℕ) (A B : Mat K), emit t P.nv P.nv f f
      (run (P.linMassP (run (P.linValWritesP (P.cellOf m v) (P.nq * m) v sub) A)) B) =
      emit t P.nv P.nv f f (Spec.massLinear P m v sub) :=
    fun t f A B => emit_congr fun i hi j hj => massLinear_value sub hi hj A B
  split
  · dsimp only
    rw [h1, h2]
    rfl
  · dsimp only
    rw [h1]

theorem laplace_value (hreg : Spec.Regular P) {m v : ℕ} (hv : v < P.nActive m) {i j : ℕ} (hi : i < P.np) (hj : j < P.np)
    (A D : Mat K) :
    tmmult (P.dim * P.nq) P.np P.np (run (P.laplaceWrites (P.cellOf m v) (P.nq * m) v) A)
      (run (P.laplaceWrites (P.cellOf m v) (P.nq * m) v) A) D i j = Spec.laplaceEntry P m v i j := by
  simp only [tmmult, hi, hj, and_self, if_true]
  rw [sumTo_eq, sum_rows, Spec.laplaceEntry]
  have hw : P.laplaceWrites (P.cellOf m v) (P.nq * m) v = (List.range P.nq).flatMap fun q => (List.range P.np).flatMap
      fun i => (List.range P.dim).map fun d => Write.set (P.dim * q + d) i
        (P.gradP (P.cellOf m v) i q d * P.sqrt (P.jxw (P.cellOf m v) q / P.rhoWeight (P.nq * m) v q)) := by
    unfold Asm.laplaceWrites
    refine List.flatMap_congr fun q hq => List.flatMap_congr fun i _ => ?_
    rw [if_pos (rhoWeight_pos hreg hv (List.mem_range.1 hq))]
  have hval : ∀ q < P.nq, ∀ i < P.np, ∀ d < P.dim,
      run (P.laplaceWrites (P.cellOf m v) (P.nq * m) v) A (P.dim * q + d) i =
      P.gradP (P.cellOf m v) i q d * P.sqrt (P.jxw (P.cellOf m v) q / P.rhoWeight (P.nq * m) v q) := by
    intro q hq i hi d hd
    rw [hw, run_qi (own := id) ?_ hq hd hi (covers_map_set hd rfl rfl) A]
    · exact run_map_set (r := fun d => P.dim * q + d) (c := fun _ => i)
        (x := fun d => P.gradP (P.cellOf m v) i q d * P.sqrt (P.jxw (P.cellOf m v) q / P.rhoWeight (P.nq * m) v q))
        hd (fun k' _ hne h => hne (by omega)) A
    · intro q i w hw
      obtain ⟨d, hd, rfl⟩ := List.mem_map.1 hw
      exact ⟨d, List.mem_range.1 hd, rfl, rfl⟩
  refine Finset.sum_congr rfl fun q hq => ?_
  rw [Finset.mem_range] at hq
  have hs := hreg.sqrt (P.jxw (P.cellOf m v) q / P.rhoWeight (P.nq * m) v q)
    (div_nonneg (hreg.jxw _ _).le (rhoWeight_pos hreg hv hq).le)
  rw [← inverseDensity_eq, ← hs, Spec.dot, Finset.mul_sum]
  refine Finset.sum_congr rfl fun d hd => ?_
  rw [Finset.mem_range] at hd
  rw [hval q hq i hi d hd, hval q hq j hj d hd]
  ring

theorem mass_value (hreg : Spec.Regular P) {m v : ℕ} (hv : v < P.nActive m) {i j : ℕ} (hi : i < P.np) (hj : j < P.np)
    (A D : Mat K) :
    tmmult P.nq P.np P.np (run (P.massWrites (P.cellOf m v) (P.nq * m) v) A)
      (run (P.massWrites (P.cellOf m v) (P.nq * m) v) A) D i j = Spec.massEntry P m v i j := by
  simp only [tmmult, hi, hj, and_self, if_true]
  rw [sumTo_eq, Spec.massEntry]
  have hval : ∀ q < P.nq, ∀ i < P.np, run (P.massWrites (P.cellOf m v) (P.nq * m) v) A q i =
      P.sqrt (P.jxw (P.cellOf m v) q / P.pressureNu (P.nq * m) v q) * P.valP (P.cellOf m v) i q := by
    intro q hq i hi
    unfold Asm.massWrites
    rw [run_flatMap_at hq (covers_map_set hi rfl rfl) ?_ A A]
    · exact run_map_set (r := fun _ => q) (c := fun i => i) (x := fun i =>
        P.sqrt (P.jxw (P.cellOf m v) q / P.pressureNu (P.nq * m) v q) * P.valP (P.cellOf m v) i q) hi
        (fun k' _ hne h => hne h.2) A
    · intro q' _ hne w hw hp
      obtain ⟨i', _, rfl⟩ := List.mem_map.1 hw
      simp only [Write.pos, Prod.mk.injEq] at hp
      exact hne hp.1
  refine Finset.sum_congr rfl fun q hq => ?_
  rw [Finset.mem_range] at hq
  have hs := hreg.sqrt (P.jxw (P.cellOf m v) q / P.pressureNu (P.nq * m) v q)
    (div_nonneg (hreg.jxw _ _).le (pressureNu_pos hreg hv hq).le)
  rw [← inverseViscosity_eq, ← hs, hval q hq i hi, hval q hq j hj]
  ring

theorem run_sub_row (n R : ℕ) (x : ℕ → K) (A : Mat K) (i j : ℕ) :
    run ((List.range n).map fun k => Write.sub R k (x k)) A i j = A i j - if i = R ∧ j < n then x j else 0 := by
  induction n with
  | zero => simp [run]
  | succ n ih =>
    rw [List.range_succ, List.map_append, run_append]
    simp only [List.map_cons, List.map_nil, run, List.foldl_cons, List.foldl_nil, Write.apply] at ih ⊢
    rw [ih]
    by_cases hi : i = R
    · by_cases hj : j = n
      · subst hj; simp [hi]
      · have : j < n + 1 ↔ j < n := by omega
        simp [hi, hj, this]
    · simp [hi]

theorem run_sub_col (n R : ℕ) (x : ℕ → K) (A : Mat K) (i j : ℕ) :
    run ((List.range n).map fun k => Write.sub k R (x k)) A i j = A i j - if j = R ∧ i < n then x i else 0 := by
  induction n with
  | zero => simp [run]
  | succ n ih =>
    rw [List.range_succ, List.map_append, run_append]
    simp only [List.map_cons, List.map_nil, run, List.foldl_cons, List.foldl_nil, Write.apply] at ih ⊢
    rw [ih]
    by_cases hi : j = R
    · by_cases hj : i = n
      · subst hj; simp [hi]
      · have : i < n + 1 ↔ i < n := by omega
        simp [hi, hj, this]
    · simp [hi]

theorem run_add_row (n R : ℕ) (x : ℕ → K) (A : Mat K) (i j : ℕ) :
    run ((List.range n).map fun k => Write.add R k (x k)) A i j = A i j + if i = R ∧ j < n then x j else 0 := by
  induction n with
  | zero => simp [run]
  | succ n ih =>
    rw [List.range_succ, List.map_append, run_append]
    simp only [List.map_cons, List.map_nil, run, List.foldl_cons, List.foldl_nil, Write.apply] at ih ⊢
    rw [ih]
    by_cases hi : i = R
    · by_cases hj : j = n
      · subst hj; simp [hi]
      · have : j < n + 1 ↔ j < n := by omega
        simp [hi, hj, this]
    · simp [hi]

theorem run_add_square (k n : ℕ) (x : ℕ → ℕ → K) (A : Mat K) (i j : ℕ) :
    run ((List.range k).flatMap fun i => (List.range n).map fun j => Write.add i j (x i j)) A i j =
      A i j + if i < k ∧ j < n then x i j else 0 := by
  induction k with
  | zero => simp [run]
  | succ k ih =>
    rw [List.range_succ, List.flatMap_append, run_append, List.flatMap_singleton, run_add_row, ih]
    by_cases hi : i = k
    · subst hi; simp
    · have : i < k + 1 ↔ i < k := by omega
      simp [hi, this]

theorem ip1_value (val : ℕ → K) (last : K) {j : ℕ} (hj : j < P.np) (A : Mat K) :
    run (P.ip1Writes val last) A 0 j = Spec.faceRow P val last j := by
  unfold Asm.ip1Writes Spec.faceRow
  by_cases h : j = P.np - 1
  · rw [if_pos h, run_append_right (covers_single _ _ _ _ _ rfl h.symm) A A, h, run_single]
  · rw [if_neg h, run_append_left ?_]
    · exact run_map_set (r := fun _ => 0) (c := fun i => i) (x := val) (by omega) (fun k' _ hne h => hne h.2) A
    · intro w hw hp
      rw [List.mem_singleton.1 hw] at hp
      simp only [Write.pos, Prod.mk.injEq] at hp
      exact h hp.2.symm

theorem ip2_value (val : ℕ → K) {i : ℕ} (hi : i < P.np) (A : Mat K) (h0 : A (P.np - 1) 0 = 0) :
    run (P.ip2Writes val) A i 0 = Spec.faceCol P val i := by
  unfold Asm.ip2Writes Spec.faceCol
  by_cases h : i = P.np - 1
  · rw [if_pos h, run_other, h, h0]
    intro w hw hp
    obtain ⟨i', hi', rfl⟩ := List.mem_map.1 hw
    have := List.mem_range.1 hi'
    simp only [Write.pos, Prod.mk.injEq] at hp
    omega
  · rw [if_neg h]
    exact run_map_set (r := fun i => i) (c := fun _ => 0) (x := val) (by omega) (fun k' _ hne h => hne h.1) A

theorem faces_value (c : ℕ) (l : List (Face K)) (s : Scratch K) (hs : Inv P s) (out : List (Contribution K)) :
    let r := l.foldl (P.faceStep c) (s, out)
    r.2 = out ++ l.flatMap (Spec.faceCoupling P c) ∧
    ∀ i < P.np, ∀ j < P.np, r.1.pressure i j = s.pressure i j + (l.map (Spec.faceEntry P i j)).sum := by
  induction l generalizing s out with
  | nil => simp
  | cons f l ih =>
    cases f with
    | other =>
      have := ih s hs out
      simpa [Asm.faceStep, Spec.faceEntry, Spec.faceCoupling] using this
    | nitsche b =>
      have h := ih { s with pressure := run (P.nitscheAdd b) s.pressure } ⟨hs.velocity, hs.ip2⟩ out
      refine ⟨?_, fun i hi j hj => ?_⟩
      · simpa [Asm.faceStep, Spec.faceCoupling] using h.1
      · have h2 := h.2 i hi j hj
        dsimp only at h2
        simp only [List.foldl_cons, Asm.faceStep, List.map_cons, List.sum_cons, Spec.faceEntry]
        rw [h2, Asm.nitscheAdd, run_add_square, if_pos ⟨hi, hj⟩, add_assoc]
    | inner val last neigh =>
      have hinv := faceRel_step (P := P) c (.inner val last neigh) (a := (s, out)) (b := (s, out)) ⟨hs, hs, fun _ _ _ _ => rfl, rfl⟩
      have h := ih (P.faceStep c (s, out) (.inner val last neigh)).1 hinv.inv
        (P.faceStep c (s, out) (.inner val last neigh)).2
      have e1 : emit .pressure 1 P.np (fun _ => neigh) (P.dofP c) (run (P.ip1Writes val last) s.ip1) =
          emit .pressure 1 P.np (fun _ => neigh) (P.dofP c) fun _ j => Spec.faceRow P val last j := by
        apply emit_congr
        intro i hi j hj
        obtain rfl : i = 0 := by omega
        exact ip1_value val last hj _
      have e2 : emit .pressure P.np 1 (P.dofP c) (fun _ => neigh) (run (P.ip2Writes val) s.ip2) =
          emit .pressure P.np 1 (P.dofP c) (fun _ => neigh) fun i _ => Spec.faceCol P val i := by
        apply emit_congr
        intro i hi j hj
        obtain rfl : j = 0 := by omega
        exact ip2_value val hi _ hs.ip2
      refine ⟨?_, fun i hi j hj => ?_⟩
      · rw [List.foldl_cons]
        refine h.1.trans ?_
        simp only [Asm.faceStep, List.flatMap_cons, Spec.faceCoupling]
        rw [e1, e2, List.append_assoc]
      · rw [List.foldl_cons]
        refine (h.2 i hi j hj).trans ?_
        simp only [Asm.faceStep, List.map_cons, List.sum_cons, Spec.faceEntry]
        rw [Asm.ipSub, run_append, run_sub_col, run_sub_row]
        simp only [hi, hj, and_true]
        rw [ip1_value val last hj, ip2_value val hi _ hs.ip2]
        ring

theorem pressureClassical_value (hreg : Spec.Regular P) {m v : ℕ} (hv : v < P.nActive m) :
    (P.pressureClassical (P.cellOf m v) (P.nq * m) v fresh).2 = Spec.pressureCell P m v := by
  have hL : ∀ s : Scratch K, Inv P s →
      s.laplacePart = run (P.laplaceWrites (P.cellOf m v) (P.nq * m) v) (fresh : Scratch K).laplacePart →
      (P.laplaceProduct (P.cellOf m v) s).2 =
        ((if P.augmented then P.faces (P.cellOf m v) else []).flatMap (Spec.faceCoupling P (P.cellOf m v))) ++
        [emit .pressure P.np P.np (P.dofP (P.cellOf m v)) (P.dofP (P.cellOf m v)) fun i j =>
          Spec.laplaceEntry P m v i j +
            ((if P.augmented then P.faces (P.cellOf m v) else []).map (Spec.faceEntry P i j)).sum] := by
    intro s hs hlp
    unfold Asm.laplaceProduct
    dsimp only
    have h := faces_value (P.cellOf m v) (P.faces (P.cellOf m v))
      { s with pressure := tmmult (P.dim * P.nq) P.np P.np s.laplacePart s.laplacePart s.pressure }
      ⟨hs.velocity, hs.ip2⟩ []
    by_cases ha : P.augmented = true
    · simp only [if_pos ha]
      rw [h.1, List.nil_append]
      congr 2
      apply emit_congr
      intro i hi j hj
      rw [h.2 i hi j hj]
      dsimp only
      rw [hlp, laplace_value hreg hv hi hj]
    · simp only [if_neg ha, List.flatMap_nil, List.map_nil, List.sum_nil, add_zero]
      congr 2
      apply emit_congr
      intro i hi j hj
      rw [hlp, laplace_value hreg hv hi hj]
  unfold Asm.pressureClassical Spec.pressureCell
  dsimp only
  simp only [if_pos hreg.density]
  by_cases hM : (P.pMassIlu || P.augmented) = true
  · simp only [if_pos hM]
    rw [hL _ ⟨fun _ _ _ => rfl, rfl⟩ rfl]
    congr 1
    unfold Asm.massProduct
    dsimp only
    congr 1
    apply emit_congr
    intro i hi j hj
    rw [massPart_laplace]
    exact mass_value hreg hv hi hj _ _
  · simp only [if_neg hM, List.append_nil]
    exact hL _ ⟨fun _ _ _ => rfl, rfl⟩ rfl

/-- A cell on its own. -/
theorem alone_eq (hreg : Spec.Regular P) {comp base : ℕ → ℕ} (hnum : Spec.Numbering P comp base) {m v : ℕ}
    (hv : v < P.nActive m) : Spec.alone P m v = Spec.cell P comp base m v := by
  have hρ : 0 < P.density → ∀ q < P.nq, 0 < P.rhoWeight (P.nq * m) v q := fun _ q hq => rhoWeight_pos hreg hv hq
  have h1 := velocityClassical_value hreg hnum hv
  have h2 := velocityLinear_value hreg hv
  have h3 := pressureLinear_value hreg hv
  have h4 := pressureClassical_value hreg hv
  have c1 := clean_velocityClassical (P := P) (P.cellOf m v) (P.nq * m) v fresh fresh inv_fresh inv_fresh
  have c2 := clean_velocityLinear (P := P) (P.cellOf m v) (P.nq * m) v fresh fresh inv_fresh inv_fresh
  have c3 := clean_pressureLinear (P := P) (P.cellOf m v) (P.nq * m) v (fun h => hρ h 0 hreg.nq)
  have c4 := clean_pressureClassical (P := P) (P.cellOf m v) (P.nq * m) v hρ
  unfold Spec.alone Asm.assembleCell Spec.cell
  dsimp only
  cases hA : P.amgLinear <;> cases hB : P.augmented <;>
    simp only [Bool.not_true, Bool.not_false, Bool.or_true, Bool.or_false, if_true, if_false, Bool.false_eq_true]
  · rw [h1, (c4 _ fresh c1.1 inv_fresh).2, h4]; rfl
  · rw [h1, (c4 _ fresh c1.1 inv_fresh).2, h4]; rfl
  · rw [h2, (c3 _ fresh c2.1 inv_fresh).2, h3]
  · rw [h2, (c4 _ fresh c2.1 inv_fresh).2, h4]

end

/-! ## Theorems -/

namespace Spec
variable {F : Type*}

/-- Batches of cells in the order in which a list of calls works on them. -/
def batches (calls : List (Asm.Call F)) : List ℕ :=
  calls.flatMap fun c => List.range' c.first (c.last - c.first)

/-- Entry `(r, s)` of a global matrix: the sum of all local entries handed over for it. -/
def assembled [AddCommMonoid F] (t : Target) (cs : List (Contribution F)) (r s : ℕ) : F :=
  (cs.map fun c => if c.target = t then
    ((c.rows.zip c.entries).map fun re => if re.1 = r then
      ((c.cols.zip re.2).map fun ce => if ce.1 = s then ce.2 else 0).sum else 0).sum else 0).sum

end Spec

section
variable {F : Type*} [Zero F] [One F] [Add F] [Sub F] [Mul F] [Div F] [LT F] [DecidableLT F]

/-- **C108 (cells are independent).** For any arithmetic - in particular with rounding - and positive densities: whatever
ranges of batches the threads work on, in whatever order and with whatever on their stacks, the local matrices and
unknowns handed over are, cell by cell, those of the cell assembled alone with new scratch data and the coefficients
of its own quadrature points. -/
theorem C108_cells_independent (P : Asm F) (hpos : Spec.PositiveDensity P) (calls : List (Asm.Call F)) :
    (P.assembleAll calls fun _ => fresh).2 =
      (Spec.batches calls).flatMap fun m => (List.range (P.nActive m)).flatMap fun v => Spec.alone P m v := by
  have h := all_eq hpos calls (fun _ => fresh) (fun _ => inv_fresh) []
  rw [List.nil_append] at h
  rw [Spec.batches, List.flatMap_assoc]
  exact h

/-- **C108 (schedules).** Two schedules that work on the same batches - in different chunks, orders and threads - hand over
the same local matrices up to their order. -/
theorem C108_schedules (P : Asm F) (hpos : Spec.PositiveDensity P) (calls calls' : List (Asm.Call F))
    (hperm : (Spec.batches calls).Perm (Spec.batches calls')) :
    (P.assembleAll calls fun _ => fresh).2.Perm (P.assembleAll calls' fun _ => fresh).2 := by
  rw [C108_cells_independent P hpos, C108_cells_independent P hpos]
  exact hperm.flatMap_right _

end

/-- **C108 (global matrices).** In exact arithmetic the assembled matrices are the same for all schedules. -/
theorem C108_global {K : Type*} [Field K] [LinearOrder K] (P : Asm K) (hpos : Spec.PositiveDensity P)
    (calls calls' : List (Asm.Call K)) (hperm : (Spec.batches calls).Perm (Spec.batches calls')) (t : Target) (r s : ℕ) :
    Spec.assembled t (P.assembleAll calls fun _ => fresh).2 r s =
      Spec.assembled t (P.assembleAll calls' fun _ => fresh).2 r s :=
  ((C108_schedules P hpos calls calls' hperm).map _).sum_eq

/-- **C108 (values).** In exact arithmetic, with positive weights and coefficients, the local matrices are those of the
weak forms: velocity within each component (zero between components), in one matrix for all components, or on the linear
sub-elements with the coefficients of the first quadrature point; pressure Laplacian with the face terms, and mass matrix.
No leftovers of other cells, components, sub-elements or faces are contained. -/
theorem C108_values {K : Type*} [Field K] [LinearOrder K] [IsStrictOrderedRing K] (P : Asm K) (hreg : Spec.Regular P)
    (comp base : ℕ → ℕ) (hnum : Spec.Numbering P comp base) (calls : List (Asm.Call K)) :
    (P.assembleAll calls fun _ => fresh).2 =
      (Spec.batches calls).flatMap fun m => (List.range (P.nActive m)).flatMap fun v =>
        Spec.cell P comp base m v := by
  rw [C108_cells_independent P ⟨hreg.nq, fun _ m v q hv hq => rhoWeight_pos hreg hv hq⟩]
  refine List.flatMap_congr fun m _ => List.flatMap_congr fun v hv => ?_
  exact alone_eq hreg hnum (List.mem_range.1 hv)

/-- **C108 (relation to the operator).** For Newton's linearization the assembled velocity entries are those of the velocity
block of the linearized operator (C61), summed over the quadrature points of the cell and with the coefficients and the
linearization point stored there, up to the skew-symmetric part of the convection and the other derivatives in grad-div. -/
theorem C108_operator {K : Type*} [Field K] [LinearOrder K] [IsStrictOrderedRing K] (P : Asm K) (m v : ℕ)
    (l : ℕ → ℕ → Stored K) (hl : P.linearized = some l) (hdim : P.dim = 1 ∨ P.dim = 2 ∨ P.dim = 3)
    (c : ℕ → PointParams K)
    (hc : ∀ q, (c q).dim = P.dim ∧ (c q).phys = (if P.stationary then .incompressibleStationary else .incompressible) ∧
      (c q).lin = .coupledImplicitNewton ∧ (c q).w = P.w ∧ (c q).tau1 = P.tau ∧ (c q).tauGradDiv = P.tauGradDiv ∧
      (c q).rho = Spec.density P m v q ∧ (c q).mu = Spec.viscosity P m v q ∧ (c q).damping = Spec.damping P m v q)
    (e i j : ℕ) (he : e < P.dim) :
    Spec.classicalEntry P m v e i j = ∑ q ∈ range P.nq,
      let x := P.cellOf m v
      let s := l (P.nq * m + q) v
      (Verif.Precond.Spec.operatorEntry (c q) (P.jxw x q) s (P.valU x i q) (P.gradU x i q) (P.valU x j q) (P.gradU x j q) e
        - P.jxw x q * (c q).rho * (c q).tau1 * (c q).beta *
          (P.gradU x j q e * s.first e + trace (c q).dim s.second * P.valU x j q) * P.valU x i q
        + P.jxw x q * (c q).tauGradDiv * ∑ d ∈ range (c q).dim, P.gradU x i q d * P.gradU x j q d) := by
  unfold Spec.classicalEntry
  refine Finset.sum_congr rfl fun q _ => ?_
  obtain ⟨h1, h2, h3, h4, h5, h6, h7, h8, h9⟩ := hc q
  dsimp only
  rw [operatorEntry_eq (c q) (by rw [h1]; exact hdim) (by rw [h2]; split <;> decide) h3 _ _ _ _ _ _ e (by rw [h1]; exact he)]
  unfold Spec.inertia Spec.dot PointParams.weight
  have hu : ∀ d, Spec.velocityAt P m v q d = (l (P.nq * m + q) v).first d := by
    intro d; unfold Spec.velocityAt; rw [hl]
  have hg : Spec.derivativeAt P m v q e = (l (P.nq * m + q) v).second e e := by
    unfold Spec.derivativeAt; rw [hl]
  have hw : (if (c q).phys = .incompressible then (c q).w else 0) = if P.stationary then 0 else P.w := by
    rw [h2, h4]
    cases P.stationary <;> simp
  rw [hw, hg]
  simp only [hu]
  rw [h1, h5, h6, h7, h8, h9]
  ring

/-- `set_local_ordering_u`, lines 2496-2507: the table of size `dim × nu` is filled from `system_to_component_index`
(`comp`, `base`), starting from zeros. -/
def setLocalOrdering (n : ℕ) (comp base : ℕ → ℕ) : ℕ → ℕ → ℕ :=
  run ((List.range n).map fun i => Write.set (comp i) (base i) i) fun _ _ => 0

/-- **C108 (numbering).** If `comp`, `base` number the pairs of component and scalar function, the table is the inverse
numbering required by `C108_values`. -/
theorem C108_numbering {K : Type*} [Field K] [LinearOrder K] (P : Asm K) (comp base : ℕ → ℕ)
    (hc : ∀ r < P.nu * P.dim, comp r < P.dim) (hb : ∀ r < P.nu * P.dim, base r < P.nu)
    (hinj : ∀ r < P.nu * P.dim, ∀ s < P.nu * P.dim, comp r = comp s → base r = base s → r = s)
    (hsurj : ∀ d < P.dim, ∀ i < P.nu, ∃ r < P.nu * P.dim, comp r = d ∧ base r = i)
    (hP : P.order = setLocalOrdering (P.nu * P.dim) comp base) : Spec.Numbering P comp base := by
  have key : ∀ r < P.nu * P.dim, P.order (comp r) (base r) = r := by
    intro r hr
    rw [hP]
    exact run_map_set (r := comp) (c := base) (x := fun i => i) hr
      (fun k' hk' hne h => hne (hinj k' hk' r hr h.1 h.2)) _
  refine ⟨hc, hb, key, ?_, ?_⟩
  · intro d hd i hi
    obtain ⟨r, hr, rfl, rfl⟩ := hsurj d hd i hi
    rw [key r hr]
  · intro d hd i hi
    obtain ⟨r, hr, rfl, rfl⟩ := hsurj d hd i hi
    rw [key r hr]

/-! ## Examples and the limit -/

/-- A one-dimensional example with two quadrature points, two lanes, variable coefficients and an inner face. -/
def exampleQ (rho : ℕ → ℕ → ℚ) : Asm ℚ where
  dim := 1
  nq := 2
  nu := 2
  np := 2
  nv := 2
  amgLinear := false
  scalarIlu := false
  pMassIlu := true
  augmented := true
  variable_ := true
  stationary := false
  projection := false
  density := 1
  densityDiff := 1
  viscosity := 1
  dampingPar := 0
  tauGradDiv := 0
  w := 2
  tau := 1
  sqrt := fun x => x
  densities := rho
  viscosities := fun k v => 1 + k + v
  damping := fun _ _ => 0
  linearized := some fun k v => ⟨fun _ => k, fun _ _ => v⟩
  nActive := fun m => if m = 0 then 2 else 1
  cellOf := fun m v => 2 * m + v
  order := fun _ i => i
  jxw := fun _ _ => 1
  valU := fun c i q => c + i + q
  gradU := fun c i q _ => 1 + c + i * q
  valP := fun c i q => c + i + q
  gradP := fun c i q _ => 1 + c + i + q
  dofU := fun c k => c + k
  dofUScalar := fun c k => c + k
  dofP := fun c k => c + k
  faces := fun c => [.inner (fun i => 3 + i) 7 (c + 1), .nitsche fun i j => i + j, .other]
  nSubU := 0
  nSubP := 0
  dofToLinU := fun _ k => k
  dofToLinP := fun _ k => k
  jxwLinU := fun _ _ _ => 1
  jxwLinP := fun _ _ _ => 1
  jacLinU := fun _ _ _ _ _ => 1
  jacLinP := fun _ _ _ _ _ => 1
  unitVal := fun _ _ => 1
  unitGrad := fun _ _ _ => 1

def exampleCalls (k : ℕ) : List (Asm.Call ℚ) :=
  if k = 0 then [⟨0, 0, 2, fun _ _ => 5, fun _ _ _ => 5⟩]
  else [⟨1, 1, 2, fun _ _ => 9, fun _ _ _ => 9⟩, ⟨0, 0, 1, fun _ _ => 5, fun _ _ _ => 5⟩]

/-- Non-vacuity: the hypotheses hold for two different schedules, and the matrices are not zero. -/
example : Spec.PositiveDensity (exampleQ fun k v => 1 + k + v) := by
  refine ⟨by decide, fun _ m v q _ _ => ?_⟩
  simp only [exampleQ, Asm.rhoWeight]
  simp only [Bool.false_eq_true, if_false, Bool.not_false, Bool.and_true, if_true]
  positivity

example : (Spec.batches (exampleCalls 0)).Perm (Spec.batches (exampleCalls 1)) := by
  decide

example : (((exampleQ fun k v => 1 + k + v).assembleAll (exampleCalls 0) fun _ => fresh).2.map (·.entries)).take 4 =
    [[[12, 22], [22, 44]], [[3, 7]], [[3], [0]], [[1/2, -9/8], [-9/8, -55/16]]] := by
  decide +kernel

/-- Non-vacuity of `C108_values` and `C108_operator`: real numbers, two dimensions, an augmented pressure and variable coefficients. -/
noncomputable def exampleR : Asm ℝ where
  dim := 2
  nq := 3
  nu := 4
  np := 5
  nv := 4
  amgLinear := false
  scalarIlu := false
  pMassIlu := true
  augmented := true
  variable_ := true
  stationary := false
  projection := false
  density := 1
  densityDiff := 9
  viscosity := 1
  dampingPar := 0
  tauGradDiv := 1
  w := 100
  tau := 1
  sqrt := Real.sqrt
  densities := fun k v => 1 + k + v
  viscosities := fun k v => 2 + k + v
  damping := fun _ _ => 0
  linearized := some fun k v => ⟨fun d => k + d, fun _ _ => v⟩
  nActive := fun _ => 4
  cellOf := fun m v => 4 * m + v
  order := fun d i => 2 * i + d
  jxw := fun _ q => 1 + q
  valU := fun c i q => c + i + q
  gradU := fun c i q d => 1 + c + i * q - d
  valP := fun c i q => c + i + q
  gradP := fun c i q d => 1 + c + i + q - d
  dofU := fun c k => c + k
  dofUScalar := fun c k => c + k
  dofP := fun c k => c + k
  faces := fun c => [.inner (fun i => 3 + i) 7 (c + 1), .nitsche fun i j => i + j, .other]
  nSubU := 1
  nSubP := 1
  dofToLinU := fun _ k => k
  dofToLinP := fun _ k => k
  jxwLinU := fun _ _ _ => 1
  jxwLinP := fun _ _ _ => 1
  jacLinU := fun _ _ _ d e => if d = e then 1 else 0
  jacLinP := fun _ _ _ d e => if d = e then 1 else 0
  unitVal := fun i q => if i = q then 1 else 0
  unitGrad := fun i q d => i + q - d

example : Spec.Regular exampleR where
  dim := by norm_num [exampleR]
  nq := by norm_num [exampleR]
  sqrt := fun x hx => Real.mul_self_sqrt hx
  jxw := fun c q => by simp only [exampleR]; positivity
  jxwLinU := fun c sub q => by norm_num [exampleR]
  w := fun _ => by norm_num [exampleR]
  tauGradDiv := by norm_num [exampleR]
  density := by norm_num [exampleR]
  lighter := by norm_num [exampleR]
  viscosity := by norm_num [exampleR]
  densities := fun _ m v q _ _ => by simp only [exampleR]; positivity
  viscosities := fun _ m v q _ _ => by simp only [exampleR]; positivity

example : Spec.Numbering exampleR (fun r => r % 2) (fun r => r / 2) where
  comp_lt := fun r hr => by simp only [exampleR] at hr ⊢; omega
  base_lt := fun r hr => by simp only [exampleR] at hr ⊢; omega
  order_eq := fun r hr => by simp only [exampleR] at hr ⊢; omega
  comp_eq := fun d hd i hi => by simp only [exampleR] at hd hi ⊢; omega
  base_eq := fun d hd i hi => by simp only [exampleR] at hd hi ⊢; omega

/-- Non-vacuity of `C108_numbering`: components numbered fastest. -/
example : ∀ r < 8, setLocalOrdering 8 (fun r => r % 2) (fun r => r / 2) (r % 2) (r / 2) = r := by decide

/-- **C108 needs positive densities.** At a quadrature point with density zero - which the assertion "Density must be
non-negative" allows - the rows of the scratch matrix are skipped, so that the pressure Laplace matrix of the cell contains
the gradients of a cell assembled before. -/
theorem C108_stale_rows : ∃ (P : Asm ℚ) (calls : List (Asm.Call ℚ)), (∀ k v, 0 ≤ P.densities k v) ∧
    (P.assembleAll calls fun _ => fresh).2 ≠
      (Spec.batches calls).flatMap fun m => (List.range (P.nActive m)).flatMap fun v => Spec.alone P m v := by
  refine ⟨exampleQ fun k _ => if k < 2 then 1 else 0, exampleCalls 0, fun k v => ?_, fun h => ?_⟩
  · simp only [exampleQ]
    split <;> norm_num
  · have h2 := congrArg (List.map (·.entries)) h
    revert h2
    decide +kernel

end Verif.Precond.Loop
