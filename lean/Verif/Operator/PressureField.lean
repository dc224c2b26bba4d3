import Verif.FE.Space
import Mathlib.Algebra.CharZero.Defs
import Mathlib.Algebra.Order.Field.Rat
import Mathlib.Tactic.FieldSimp
import Mathlib.Tactic.IntervalCases
import Mathlib.Tactic.NormNum
import Mathlib.Tactic.Linarith

/-!
# C118: `NavierStokes::interpolate_pressure_field`

source/navier_stokes.cc:1412-1430: the pressure field is set to a given function by `VectorTools::interpolate`; for augmented
Taylor-Hood elements (continuous functions and one constant per cell, navier_stokes.cc:97-106) the coefficients of the cellwise
constants are set to zero afterwards. `VectorTools::interpolate` is called without a mapping, so the points are those of the
linear default mapping, although the solver works with a mapping of its own (navier_stokes.cc:60-78).

Not represented: the distribution to processes (the loop over the cells is a loop over all cells, the loop over the owned
entries one over all entries), rounding.
-/
set_option linter.unusedSectionVars false

namespace Verif.Operator.PressureField

open Verif.FE
open Finset

variable {K : Type*} [Field K] {U R : Type*}

/-! ## Model -/

/-- The pressure space, navier_stokes.cc:97-106. Continuous functions are numbered `dof c i`, `i < nLoc`, on cell `c`, with
shape functions `shape i` on the unit cell and support points `support i`; `cst c` is the number of the constant of cell `c` of
augmented Taylor-Hood elements. `lin` is the linear default mapping of deal.II, `map` the mapping of the solver (members
`mapping`, MappingQ(3) if the user does not choose, navier_stokes.cc:60-68); `C` are the constraints with which the solver
reads pressure vectors. -/
structure PField (K U R : Type*) where
  nCell : ℕ
  nDof : ℕ
  nLoc : ℕ
  simplex : Bool
  aug : Bool
  dof : ℕ → ℕ → ℕ
  cst : ℕ → ℕ
  support : ℕ → U
  shape : ℕ → U → K
  lin : ℕ → U → R
  map : ℕ → U → R
  C : Constr K

/-- The element has cellwise constants, navier_stokes.cc:97-104: with simplices `FE_SimplexP` is used whatever
`augmented_taylor_hood` says. -/
def PField.hasCst (P : PField K U R) : Bool := !P.simplex && P.aug

/-- The unknowns of a cell with the values `convert_generalized_support_point_values_to_dof_values` assigns to them for the
function `f`; `g c` is what the element assigns to the constant (zero in current versions of deal.II, the value in the middle of
the cell for an element that treats it as a nodal value). -/
def PField.cellValues (P : PField K U R) (f : R → K) (g : ℕ → K) (c : ℕ) : List (ℕ × K) :=
  (List.range P.nLoc).map (fun i => (P.dof c i, f (P.lin c (P.support i)))) ++
    if P.hasCst then [(P.cst c, g c)] else []

/-- Sums and counts in `VectorTools::interpolate`: `interpolation(dof) += value`, `weights(dof) += 1`. -/
def accumulate (s : (ℕ → K) × (ℕ → K)) (e : ℕ × K) : (ℕ → K) × (ℕ → K) :=
  (fun k => if k = e.1 then s.1 k + e.2 else s.1 k, fun k => if k = e.1 then s.2 k + 1 else s.2 k)

/-- `VectorTools::interpolate(dof_handler_p, pressure_function, pressure_vector)`, navier_stokes.cc:1418: over all cells, then
`vec = interpolation / weights` where something was added. -/
def PField.interpolate [DecidableEq K] (P : PField K U R) (f : R → K) (g : ℕ → K) (vec : ℕ → K) : ℕ → K :=
  let s := ((List.range P.nCell).flatMap (P.cellValues f g)).foldl accumulate (fun _ => 0, fun _ => 0)
  fun k => if k < P.nDof ∧ s.2 k ≠ 0 then s.1 k / s.2 k else vec k

/-- `DoFTools::extract_constant_modes`, navier_stokes.cc:1422-1424: one mode per kind of functions. -/
def PField.constantModes (P : PField K U R) : List (ℕ → Bool) :=
  if P.hasCst then
    [fun k => !(List.range P.nCell).any fun c => P.cst c == k, fun k => (List.range P.nCell).any fun c => P.cst c == k]
  else [fun _ => true]

/-- `interpolate_pressure_field`, navier_stokes.cc:1412-1430. `none`: `AssertDimension(constant_modes.size(), 2)` fails (line
1425), in release mode the access to `constant_modes[1]` is out of bounds. -/
def PField.interpolatePressure [DecidableEq K] (P : PField K U R) (f : R → K) (g : ℕ → K) (vec : ℕ → K) : Option (ℕ → K) :=
  let v := P.interpolate f g vec
  if P.aug then
    match P.constantModes with
    | [_, m] => some fun k => if k < P.nDof ∧ m k = true then 0 else v k
    | _ => none
  else some v

/-- The pressure the solver sees at the unit point `ξ` of cell `c` (`FEEvaluation::read_dof_values` and `evaluate`). -/
def PField.value (P : PField K U R) (v : ℕ → K) (c : ℕ) (ξ : U) : K :=
  (∑ i ∈ range P.nLoc, P.C.dist P.nDof v (P.dof c i) * P.shape i ξ) +
    if P.hasCst then P.C.dist P.nDof v (P.cst c) else 0

/-! ## Specification -/

namespace Spec

/-- A nodal element on a conforming numbering: shape functions are one at their own support point and zero at the others;
unknowns shared by cells have their support point at the same place; constants of cells are unknowns of their own that are not
constrained. -/
structure Valid (P : PField K U R) : Prop where
  nodal : ∀ i < P.nLoc, ∀ j < P.nLoc, P.shape i (P.support j) = if i = j then 1 else 0
  dof_lt : ∀ c < P.nCell, ∀ i < P.nLoc, P.dof c i < P.nDof
  cst_lt : ∀ c < P.nCell, P.cst c < P.nDof
  shared : ∀ c < P.nCell, ∀ i < P.nLoc, ∀ c' < P.nCell, ∀ j < P.nLoc, P.dof c i = P.dof c' j →
    P.lin c (P.support i) = P.lin c' (P.support j)
  own : ∀ c < P.nCell, ∀ c' < P.nCell, ∀ i < P.nLoc, P.cst c ≠ P.dof c' i
  free : ∀ c < P.nCell, P.C.row (P.cst c) = none

/-- Augmented elements exist on hypercube meshes only. -/
def Available (P : PField K U R) : Prop := P.aug = true → P.simplex = false

end Spec

/-! ## Proofs -/

section
variable [CharZero K] [DecidableEq K]

theorem foldl_snd (l : List (ℕ × K)) : ∀ (s : (ℕ → K) × (ℕ → K)) (k : ℕ),
    (l.foldl accumulate s).2 k = s.2 k + ((l.map Prod.fst).count k : ℕ) := by
  induction l with
  | nil => intro s k; simp
  | cons e l ih =>
    intro s k
    rw [List.foldl_cons, ih, List.map_cons, List.count_cons]
    simp only [accumulate]
    by_cases h : k = e.1
    · rw [if_pos h, if_pos (by simp [h])]; push_cast; ring
    · rw [if_neg h, if_neg (by simpa using fun h' => h h'.symm)]; push_cast; ring

theorem foldl_fst (l : List (ℕ × K)) (k : ℕ) (y : K) (hy : ∀ e ∈ l, e.1 = k → e.2 = y) : ∀ (s : (ℕ → K) × (ℕ → K)),
    (l.foldl accumulate s).1 k = s.1 k + ((l.map Prod.fst).count k : ℕ) * y := by
  induction l with
  | nil => intro s; simp
  | cons e l ih =>
    intro s
    rw [List.foldl_cons, ih (fun e' he' => hy e' (List.mem_cons_of_mem _ he')), List.map_cons, List.count_cons]
    simp only [accumulate]
    by_cases h : k = e.1
    · rw [if_pos h, if_pos (by simp [h]), hy e List.mem_cons_self h.symm]; push_cast; ring
    · rw [if_neg h, if_neg (by simpa using fun h' => h h'.symm)]; push_cast; ring

/-- Entries that are written with one value only get this value. -/
theorem interpolate_eq (P : PField K U R) (f : R → K) (g : ℕ → K) (vec : ℕ → K) (k : ℕ) (y : K) (hk : k < P.nDof)
    (hmem : ∃ c < P.nCell, ∃ e ∈ P.cellValues f g c, e.1 = k)
    (hy : ∀ c < P.nCell, ∀ e ∈ P.cellValues f g c, e.1 = k → e.2 = y) : P.interpolate f g vec k = y := by
  have hpos : 0 < ((((List.range P.nCell).flatMap (P.cellValues f g)).map Prod.fst).count k) := by
    obtain ⟨c, hc, e, he, hek⟩ := hmem
    refine List.count_pos_iff.2 (List.mem_map.2 ⟨e, List.mem_flatMap.2 ⟨c, List.mem_range.2 hc, he⟩, hek⟩)
  have hne : (((((List.range P.nCell).flatMap (P.cellValues f g)).map Prod.fst).count k : ℕ) : K) ≠ 0 :=
    Nat.cast_ne_zero.2 hpos.ne'
  have h2 := foldl_snd ((List.range P.nCell).flatMap (P.cellValues f g)) (fun _ => 0, fun _ => 0) k
  have h1 := foldl_fst ((List.range P.nCell).flatMap (P.cellValues f g)) k y (by
    intro e he hek
    obtain ⟨c, hc, hec⟩ := List.mem_flatMap.1 he
    exact hy c (List.mem_range.1 hc) e hec hek) (fun _ => 0, fun _ => 0)
  unfold PField.interpolate
  rw [h1, h2]
  simp only [zero_add]
  rw [if_pos ⟨hk, hne⟩]
  field_simp

/-- The coefficients after the call: values of the function at the points of the default mapping, constants zero. -/
theorem coefficients (P : PField K U R) (hv : Spec.Valid P) (ha : Spec.Available P) (f : R → K) (g vec : ℕ → K) :
    ∃ w, P.interpolatePressure f g vec = some w ∧
      (∀ c < P.nCell, ∀ i < P.nLoc, w (P.dof c i) = f (P.lin c (P.support i))) ∧
      (P.hasCst = true → ∀ c < P.nCell, w (P.cst c) = 0) := by
  have hnode : ∀ c < P.nCell, ∀ i < P.nLoc, P.interpolate f g vec (P.dof c i) = f (P.lin c (P.support i)) := by
    intro c hc i hi
    apply interpolate_eq P f g vec _ _ (hv.dof_lt c hc i hi)
    · exact ⟨c, hc, (P.dof c i, f (P.lin c (P.support i))), by
        unfold PField.cellValues
        exact List.mem_append_left _ (List.mem_map.2 ⟨i, List.mem_range.2 hi, rfl⟩), rfl⟩
    · intro c' hc' e he hek
      unfold PField.cellValues at he
      rcases List.mem_append.1 he with h | h
      · obtain ⟨j, hj, rfl⟩ := List.mem_map.1 h
        rw [hv.shared c' hc' j (List.mem_range.1 hj) c hc i hi hek]
      · by_cases hb : P.hasCst = true
        · rw [if_pos hb] at h
          have := List.mem_singleton.1 h
          subst this
          exact absurd hek (hv.own c' hc' c hc i hi)
        · rw [if_neg hb] at h; cases h
  unfold PField.interpolatePressure
  by_cases hb : P.aug = true
  · have hc : P.hasCst = true := by simp [PField.hasCst, hb, ha hb]
    rw [if_pos hb]
    unfold PField.constantModes
    rw [if_pos hc]
    refine ⟨_, rfl, fun c hc i hi => ?_, fun _ c hc => ?_⟩
    · rw [if_neg, hnode c hc i hi]
      rintro ⟨_, h⟩
      obtain ⟨c', hc', h'⟩ := List.any_eq_true.1 h
      exact hv.own c' (List.mem_range.1 hc') c hc i hi (by simpa using h')
    · rw [if_pos]
      exact ⟨hv.cst_lt c hc, List.any_eq_true.2 ⟨c, List.mem_range.2 hc, by simp⟩⟩
  · rw [if_neg hb]
    refine ⟨_, rfl, hnode, fun h => ?_⟩
    simp only [PField.hasCst, Bool.and_eq_true] at h
    exact absurd h.2 hb

theorem value_eq (P : PField K U R) (hv : Spec.Valid P) (w : ℕ → K)
    (h0 : P.hasCst = true → ∀ c < P.nCell, w (P.cst c) = 0) (c : ℕ) (hc : c < P.nCell) (ξ : U) :
    P.value w c ξ = ∑ i ∈ range P.nLoc, P.C.dist P.nDof w (P.dof c i) * P.shape i ξ := by
  unfold PField.value
  by_cases hb : P.hasCst = true
  · rw [if_pos hb]
    have : P.C.dist P.nDof w (P.cst c) = 0 := by
      unfold Constr.dist; rw [hv.free c hc]; exact h0 hb c hc
    rw [this, add_zero]
  · rw [if_neg hb, add_zero]

theorem value_node (P : PField K U R) (hv : Spec.Valid P) (w : ℕ → K)
    (h0 : P.hasCst = true → ∀ c < P.nCell, w (P.cst c) = 0) (c : ℕ) (hc : c < P.nCell) (i : ℕ) (hi : i < P.nLoc) :
    P.value w c (P.support i) = P.C.dist P.nDof w (P.dof c i) := by
  rw [value_eq P hv w h0 c hc]
  rw [Finset.sum_eq_single i]
  · rw [hv.nodal i hi i hi, if_pos rfl, mul_one]
  · intro j hj hji
    rw [hv.nodal j (mem_range.1 hj) i hi, if_neg hji, mul_zero]
  · intro h; exact absurd (mem_range.2 hi) h

/-- **C118 (nodes, partial).** For continuous and augmented pressure elements, whatever the vector contained and whatever the
element assigns to the cellwise constants: at every node that is not constrained, the pressure the solver sees is the value of the
function at the place where the solver has this node - if and only if the function does not distinguish this place from the one
under the linear default mapping. Missing: nodes for which the two places differ, see `C118_curved`, and hanging nodes, see
`C118_hanging_node`. -/
theorem C118_nodes_partial (P : PField K U R) (hv : Spec.Valid P) (ha : Spec.Available P) (f : R → K) (g vec : ℕ → K) :
    ∃ w, P.interpolatePressure f g vec = some w ∧ ∀ c < P.nCell, ∀ i < P.nLoc, P.C.row (P.dof c i) = none →
      (P.value w c (P.support i) = f (P.map c (P.support i)) ↔
        f (P.lin c (P.support i)) = f (P.map c (P.support i))) := by
  obtain ⟨w, hw, hn, h0⟩ := coefficients P hv ha f g vec
  refine ⟨w, hw, fun c hc i hi hr => ?_⟩
  rw [value_node P hv w h0 c hc i hi]
  unfold Constr.dist
  rw [hr]
  simp only []
  rw [hn c hc i hi]

/-- **C118 (vertices).** If all nodes are vertices of their cell (pressure degree one) and both mappings put the vertices where the
mesh has them, `vertex c i`, all unconstrained nodes are right, on curved cells, too. -/
theorem C118_vertices (P : PField K U R) (hv : Spec.Valid P) (ha : Spec.Available P) (f : R → K) (g vec : ℕ → K)
    (vertex : ℕ → ℕ → R) (hl : ∀ c < P.nCell, ∀ i < P.nLoc, P.lin c (P.support i) = vertex c i)
    (hm : ∀ c < P.nCell, ∀ i < P.nLoc, P.map c (P.support i) = vertex c i) :
    ∃ w, P.interpolatePressure f g vec = some w ∧ ∀ c < P.nCell, ∀ i < P.nLoc, P.C.row (P.dof c i) = none →
      P.value w c (P.support i) = f (vertex c i) := by
  obtain ⟨w, hw, h⟩ := C118_nodes_partial P hv ha f g vec
  refine ⟨w, hw, fun c hc i hi hr => ?_⟩
  rw [← hm c hc i hi]
  exact (h c hc i hi hr).2 (by rw [hl c hc i hi, hm c hc i hi])

/-- **C118 (exactness).** On a cell without constrained nodes that the solver's mapping leaves straight, every function that the
continuous functions can represent there is represented exactly, at all points of the cell: nothing is added by the cellwise
constants. -/
theorem C118_exact (P : PField K U R) (hv : Spec.Valid P) (ha : Spec.Available P) (f : R → K) (g vec : ℕ → K)
    (c : ℕ) (hc : c < P.nCell) (hr : ∀ i < P.nLoc, P.C.row (P.dof c i) = none) (hs : ∀ ξ, P.map c ξ = P.lin c ξ) (a : ℕ → K)
    (hf : ∀ ξ, f (P.map c ξ) = ∑ i ∈ range P.nLoc, a i * P.shape i ξ) :
    ∃ w, P.interpolatePressure f g vec = some w ∧ ∀ ξ, P.value w c ξ = f (P.map c ξ) := by
  obtain ⟨w, hw, hn, h0⟩ := coefficients P hv ha f g vec
  refine ⟨w, hw, fun ξ => ?_⟩
  rw [value_eq P hv w h0 c hc, hf]
  refine sum_congr rfl fun i hi => ?_
  have hi' := mem_range.1 hi
  unfold Constr.dist
  rw [hr i hi']
  simp only []
  rw [hn c hc i hi', ← hs, hf, Finset.sum_eq_single i]
  · rw [hv.nodal i hi' i hi', if_pos rfl, mul_one]
  · intro j hj hji
    rw [hv.nodal j (mem_range.1 hj) i hi', if_neg hji, mul_zero]
  · intro h; exact absurd hi h

/-- **C118 (constants).** On every mesh, with hanging nodes (constraints with weights of continuous functions that sum to one) and
curved cells, a constant function is the constant pressure at every point. -/
theorem C118_constants (P : PField K U R) (hv : Spec.Valid P) (ha : Spec.Available P) (a : K) (g vec : ℕ → K)
    (hC : ∀ i r, P.C.row i = some r → ∑ k ∈ range P.nDof, r k = 1 ∧
      ∀ k < P.nDof, r k ≠ 0 → ∃ c < P.nCell, ∃ j < P.nLoc, P.dof c j = k) :
    ∃ w, P.interpolatePressure (fun _ : R => a) g vec = some w ∧ ∀ c < P.nCell, ∀ ξ,
      ∑ i ∈ range P.nLoc, P.shape i ξ = 1 → P.value w c ξ = a := by
  obtain ⟨w, hw, hn, h0⟩ := coefficients P hv ha (fun _ : R => a) g vec
  refine ⟨w, hw, fun c hc ξ h1 => ?_⟩
  rw [value_eq P hv w h0 c hc]
  have : ∀ i ∈ range P.nLoc, P.C.dist P.nDof w (P.dof c i) * P.shape i ξ = a * P.shape i ξ := by
    intro i hi
    congr 1
    unfold Constr.dist
    cases hr : P.C.row (P.dof c i) with
    | none => exact hn c hc i (mem_range.1 hi)
    | some r =>
      obtain ⟨hsum, hk⟩ := hC _ _ hr
      simp only []
      calc ∑ k ∈ range P.nDof, r k * w k = ∑ k ∈ range P.nDof, r k * a := by
            refine sum_congr rfl fun k hk' => ?_
            by_cases hz : r k = 0
            · rw [hz, zero_mul, zero_mul]
            · obtain ⟨c', hc', j, hj, rfl⟩ := hk k (mem_range.1 hk') hz
              rw [hn c' hc' j hj]
        _ = a := by rw [← Finset.sum_mul, hsum, one_mul]
  rw [sum_congr rfl this, ← mul_sum, h1, mul_one]

/-- **C118 (hanging nodes).** At a hanging node the solver sees the interpolation of the function between the nodes the
hanging node is constrained to (`place k` is the place of node `k`), not the value of the function; the value the call has
written for the hanging node itself is ignored. -/
theorem C118_hanging_node (P : PField K U R) (hv : Spec.Valid P) (ha : Spec.Available P) (f : R → K) (g vec : ℕ → K)
    (place : ℕ → R) (hp : ∀ c < P.nCell, ∀ i < P.nLoc, P.lin c (P.support i) = place (P.dof c i)) :
    ∃ w, P.interpolatePressure f g vec = some w ∧ ∀ c < P.nCell, ∀ i < P.nLoc, ∀ r, P.C.row (P.dof c i) = some r →
      (∀ k < P.nDof, r k ≠ 0 → ∃ c < P.nCell, ∃ j < P.nLoc, P.dof c j = k) →
      P.value w c (P.support i) = ∑ k ∈ range P.nDof, r k * f (place k) := by
  obtain ⟨w, hw, hn, h0⟩ := coefficients P hv ha f g vec
  refine ⟨w, hw, fun c hc i hi r hr hk => ?_⟩
  rw [value_node P hv w h0 c hc i hi]
  unfold Constr.dist
  rw [hr]
  simp only []
  refine sum_congr rfl fun k hk' => ?_
  by_cases hz : r k = 0
  · rw [hz, zero_mul, zero_mul]
  · obtain ⟨c', hc', j, hj, rfl⟩ := hk k (mem_range.1 hk') hz
    rw [hn c' hc' j hj, hp c' hc' j hj]

/-- **C118 (simplices).** On simplex meshes the element has no cellwise constants, but the parameter for augmented elements is
still obeyed: with it the call fails. -/
theorem C118_simplex_augmented (P : PField K U R) (hs : P.simplex = true) (ha : P.aug = true) (f : R → K) (g vec : ℕ → K) :
    P.interpolatePressure f g vec = none := by
  unfold PField.interpolatePressure PField.constantModes
  simp [PField.hasCst, hs, ha]

end

/-! ## Examples -/

/-- Augmented quadratic elements on the two lines `[0,2]` and `[2,4]` (nodes at both ends and in the middle), with or without a
mapping that moves the middle of the second cell; functions on the unit line `[0,1]`. -/
def exField (bend : ℚ) : PField ℚ ℚ ℚ where
  nCell := 2
  nDof := 7
  nLoc := 3
  simplex := false
  aug := true
  dof c i := if c = 0 then i else if i = 0 then 1 else i + 2
  cst c := c + 5
  support i := if i = 0 then 0 else if i = 1 then 1 else 1 / 2
  shape i x := if i = 0 then (1 - x) * (1 - 2 * x) else if i = 1 then x * (2 * x - 1) else 4 * x * (1 - x)
  lin c x := 2 * c + 2 * x
  map c x := 2 * c + 2 * x + if c = 1 then bend * 4 * x * (1 - x) else 0
  C := ⟨fun _ => none⟩

theorem exField_valid (b : ℚ) : Spec.Valid (exField b) where
  nodal := by
    intro i hi j hj
    have hi : i < 3 := hi
    have hj : j < 3 := hj
    interval_cases i <;> interval_cases j <;> norm_num [exField]
  dof_lt := by
    intro c hc i hi
    have hc : c < 2 := hc
    have hi : i < 3 := hi
    interval_cases c <;> interval_cases i <;> norm_num [exField]
  cst_lt := by
    intro c hc
    have hc : c < 2 := hc
    interval_cases c <;> norm_num [exField]
  shared := by
    intro c hc i hi c' hc' j hj
    have hc : c < 2 := hc
    have hi : i < 3 := hi
    have hc' : c' < 2 := hc'
    have hj : j < 3 := hj
    interval_cases c <;> interval_cases i <;> interval_cases c' <;> interval_cases j <;> norm_num [exField]
  own := by
    intro c hc c' hc' i hi
    have hc : c < 2 := hc
    have hi : i < 3 := hi
    have hc' : c' < 2 := hc'
    interval_cases c <;> interval_cases i <;> interval_cases c' <;> norm_num [exField]
  free := fun _ _ => rfl

/-- The hypotheses of the theorems are met, with a vector and cellwise constants that are not zero: the field `x²` on two cells. -/
example : ∃ w, (exField 0).interpolatePressure (fun x => x ^ 2) (fun _ => 7) (fun _ => 5) = some w ∧
    ∀ ξ, (exField 0).value w 1 ξ = ((exField 0).map 1 ξ) ^ 2 :=
  C118_exact (exField 0) (exField_valid 0) (fun _ => rfl) _ _ _ 1 (by decide) (fun _ _ => rfl)
    (fun ξ => by simp [exField]) (fun i => if i = 0 then 4 else if i = 1 then 16 else 9)
    (fun ξ => by simp [exField, Finset.sum_range_succ]; ring)

/-- The same with the middle node of the second cell constrained to its two ends. -/
def exHanging : PField ℚ ℚ ℚ :=
  { exField 0 with
    C := ⟨fun k => if k = 4 then some (fun j => if j = 1 ∨ j = 3 then 1 / 2 else 0) else none⟩ }

theorem exHanging_valid : Spec.Valid exHanging where
  nodal := (exField_valid 0).nodal
  dof_lt := (exField_valid 0).dof_lt
  cst_lt := (exField_valid 0).cst_lt
  shared := (exField_valid 0).shared
  own := (exField_valid 0).own
  free := by
    intro c hc
    have hc : c < 2 := hc
    interval_cases c <;> rfl

/-- At the hanging node the solver sees `(4 + 16) / 2` for the function `x²`, which is `9` there. -/
example : ∃ w, exHanging.interpolatePressure (fun x => x ^ 2) (fun _ => 7) (fun _ => 5) = some w ∧
    exHanging.value w 1 (1 / 2) = 10 ∧ (exHanging.map 1 (1 / 2)) ^ 2 = 9 := by
  obtain ⟨w, hw, h⟩ := C118_hanging_node exHanging exHanging_valid (fun _ => rfl) (fun x => x ^ 2) (fun _ => 7) (fun _ => 5)
    (fun k => if k = 0 then 0 else if k = 1 then 2 else if k = 2 then 1 else if k = 3 then 4 else 3) (by
      intro c hc i hi
      have hc : c < 2 := hc
      have hi : i < 3 := hi
      interval_cases c <;> interval_cases i <;> norm_num [exHanging, exField])
  refine ⟨w, hw, ?_, by norm_num [exHanging, exField]⟩
  have := h 1 (show 1 < 2 by decide) 2 (show 2 < 3 by decide) _ rfl (by
    intro k hk hz
    by_cases h1 : k = 1
    · exact ⟨0, show 0 < 2 by decide, 1, show 1 < 3 by decide, h1.symm⟩
    · by_cases h3 : k = 3
      · exact ⟨1, show 1 < 2 by decide, 1, show 1 < 3 by decide, h3.symm⟩
      · simp [h1, h3] at hz)
  have e : exHanging.support 2 = 1 / 2 := rfl
  rw [e] at this
  rw [this]
  norm_num [exHanging, exField, Finset.sum_range_succ]

/-- Constants survive the hanging node and the cellwise constants. -/
example : ∃ w, exHanging.interpolatePressure (fun _ => 3) (fun _ => 7) (fun _ => 5) = some w ∧
    ∀ c < 2, ∀ ξ, ∑ i ∈ range 3, exHanging.shape i ξ = 1 → exHanging.value w c ξ = 3 :=
  C118_constants exHanging exHanging_valid (fun _ => rfl) 3 _ _ (by
    intro i r hr
    by_cases hi : i = 4
    · simp only [exHanging, if_pos hi, Option.some.injEq] at hr
      subst hr
      refine ⟨by norm_num [exHanging, exField, Finset.sum_range_succ], fun k _ hz => ?_⟩
      by_cases h1 : k = 1
      · exact ⟨0, show 0 < 2 by decide, 1, show 1 < 3 by decide, h1.symm⟩
      · by_cases h3 : k = 3
        · exact ⟨1, show 1 < 2 by decide, 1, show 1 < 3 by decide, h3.symm⟩
        · simp [h1, h3] at hz
    · simp [exHanging, if_neg hi] at hr)

/-- **C118 (violation: curved cells).** With a mapping that bends a cell, as the default mapping of the solver does next to curved
boundaries, the pressure at a node of an element of degree two is not the value of the function there - for any bend and the
function `x`, on augmented elements. -/
theorem C118_curved (bend : ℚ) (hb : bend ≠ 0) (g vec : ℕ → ℚ) :
    ∃ w, (exField bend).interpolatePressure (fun x => x) g vec = some w ∧
      (exField bend).value w 1 ((exField bend).support 2) ≠ (exField bend).map 1 ((exField bend).support 2) := by
  obtain ⟨w, hw, h⟩ := C118_nodes_partial (exField bend) (exField_valid bend) (fun _ => rfl) (fun x => x) g vec
  refine ⟨w, hw, fun he => hb ?_⟩
  have := (h 1 (show 1 < 2 by decide) 2 (show 2 < 3 by decide) rfl).1 he
  simp [exField] at this
  rcases this with h | h
  · exact h
  · norm_num at h

end Verif.Operator.PressureField
