import Verif.LevelSet.Balance
import Mathlib.Tactic.Linarith

/-!
# C71: interpolation of the level set onto the pressure
(source/level_set_base.cc:66-136, the same code in source/phase_field.cc:60-77; used in source/level_set_okz.cc:364-377 and
source/phase_field_local.cc:96-104)

`Balance.lean` takes the matrix `interpolation_concentration_pressure` as given. Here it is filled as in the constructor, and the
balance of forces is derived for the pressure space, i.e. for a global pressure vector.
-/

set_option linter.unusedSectionVars false

namespace Verif.LevelSet

open Finset Verif.Operator

variable {K : Type*} [Field K] [DecidableEq K] {Pt : Type}

/-- A finite element on the reference cell in its own (hierarchic) numbering: `shape_value`, `get_unit_support_points` and
`get_poly_space_numbering_inverse` (from lexicographic to hierarchic numbers). -/
structure RefElement (K : Type*) (Pt : Type) where
  n : ℕ
  shape : ℕ → Pt → K
  point : ℕ → Pt
  numberingInverse : ℕ → ℕ

/-- Kinds of pressure elements the constructor distinguishes, level_set_base.cc:69, 107-108, 121-122 and none of them. -/
inductive PressureElement
  | simplex
  | q
  | qDg0
  | other

/-- The matrix after the constructor; `reinit` sets everything to zero (line 67). Lines 82-101 simplex with the identity as
numbering, 109-118 `FE_Q`, 123-134 `FE_Q_DG0` without the last function. -/
def interpolationMatrix (kind : PressureElement) (ls p : RefElement K Pt) (j i : ℕ) : K :=
  match kind with
  | .simplex => if j < p.n ∧ i < ls.n then ls.shape i (p.point j) else 0
  | .q => if j < p.n ∧ i < ls.n then ls.shape (ls.numberingInverse i) (p.point (p.numberingInverse j)) else 0
  | .qDg0 => if j < p.n - 1 ∧ i < ls.n then ls.shape (ls.numberingInverse i) (p.point (p.numberingInverse j)) else 0
  | .other => 0

/-! ### Specification -/

/-- Local numbering of `FEEvaluation`: lexicographic for tensor product elements, the one of the element on simplices. -/
def Spec.localNumber (kind : PressureElement) (e : RefElement K Pt) (i : ℕ) : ℕ :=
  match kind with
  | .simplex => i
  | _ => e.numberingInverse i

/-- Number of pressure functions on a cell that are not the piecewise constant one. -/
def Spec.nContinuous (kind : PressureElement) (p : RefElement K Pt) : ℕ :=
  match kind with
  | .qDg0 => p.n - 1
  | _ => p.n

/-- Value at the point `x` of the function with the local values `h`. -/
def Spec.functionAt (kind : PressureElement) (e : RefElement K Pt) (h : ℕ → K) (x : Pt) : K :=
  ∑ i ∈ range e.n, h i * e.shape (Spec.localNumber kind e i) x

/-- Support point of the `j`-th local pressure function. -/
def Spec.node (kind : PressureElement) (p : RefElement K Pt) (j : ℕ) : Pt := p.point (Spec.localNumber kind p j)

variable (kind : PressureElement) (ls p : RefElement K Pt)

/-- **C71 (interpolation).** The values submitted for the continuous pressure functions of a cell are the values of the level set
function at their nodes, whatever numberings the two elements have; the piecewise constant function gets zero. -/
theorem C71_interpolation (hk : kind ≠ .other) (S : ForceCells K) (hS : S.nLs = ls.n ∧ S.interp = interpolationMatrix kind ls p)
    (H : ℕ → ℕ → K) (c j : ℕ) :
    (j < Spec.nContinuous kind p → S.projected H c j = Spec.functionAt kind ls (H c) (Spec.node kind p j)) ∧
    (Spec.nContinuous kind p ≤ j → S.projected H c j = 0) := by
  unfold ForceCells.projected Spec.functionAt Spec.node Spec.nContinuous
  rw [hS.1, hS.2]
  cases kind with
  | simplex =>
    refine ⟨fun h => sum_congr rfl fun i hi => ?_, fun h => sum_eq_zero fun i hi => ?_⟩
    · unfold interpolationMatrix Spec.localNumber
      dsimp only
      rw [if_pos ⟨h, mem_range.1 hi⟩, mul_comm]
    · unfold interpolationMatrix
      dsimp only at h ⊢
      rw [if_neg (by omega), zero_mul]
  | q =>
    refine ⟨fun h => sum_congr rfl fun i hi => ?_, fun h => sum_eq_zero fun i hi => ?_⟩
    · unfold interpolationMatrix Spec.localNumber
      dsimp only
      rw [if_pos ⟨h, mem_range.1 hi⟩, mul_comm]
    · unfold interpolationMatrix
      dsimp only at h ⊢
      rw [if_neg (by omega), zero_mul]
  | qDg0 =>
    refine ⟨fun h => sum_congr rfl fun i hi => ?_, fun h => sum_eq_zero fun i hi => ?_⟩
    · unfold interpolationMatrix Spec.localNumber
      dsimp only
      rw [if_pos ⟨h, mem_range.1 hi⟩, mul_comm]
    · unfold interpolationMatrix
      dsimp only at h ⊢
      rw [if_neg (by omega), zero_mul]
  | other => exact absurd rfl hk

/-- **C71 (interpolation is exact for pressures).** If the level set function of a cell is a pressure (values `v` at the continuous
functions), its values are recovered, so the gradient used in the force is the gradient of the level set itself. -/
theorem C71_interpolation_exact (hk : kind ≠ .other) (S : ForceCells K)
    (hS : S.nLs = ls.n ∧ S.interp = interpolationMatrix kind ls p) (H : ℕ → ℕ → K) (c : ℕ) (v : ℕ → K)
    (hnodal : ∀ j < Spec.nContinuous kind p, ∀ k < Spec.nContinuous kind p,
      p.shape (Spec.localNumber kind p k) (Spec.node kind p j) = if k = j then 1 else 0)
    (inside : Pt → Prop) (hin : ∀ j < Spec.nContinuous kind p, inside (Spec.node kind p j))
    (hv : ∀ x, inside x → Spec.functionAt kind ls (H c) x =
      ∑ k ∈ range (Spec.nContinuous kind p), v k * p.shape (Spec.localNumber kind p k) x)
    (j : ℕ) (hj : j < Spec.nContinuous kind p) : S.projected H c j = v j := by
  rw [(C71_interpolation kind ls p hk S hS H c j).1 hj, hv _ (hin j hj)]
  rw [sum_eq_single j]
  · rw [hnodal j hj j hj, if_pos rfl, mul_one]
  · intro k hk' hne
    rw [hnodal j hj k (mem_range.1 hk'), if_neg hne, mul_zero]
  · intro h
    exact absurd (mem_range.2 hj) h

/-! ### The pressure space -/

/-- Mesh: cells with their maps from the reference cell, the points of the reference cell and the global numbers of the local
pressure functions (`localNumber` order, the one of `FEEvaluation`). -/
structure CellMesh (Pt Ph : Type) where
  nCell : ℕ
  map : ℕ → Pt → Ph
  inside : Pt → Prop
  pdof : ℕ → ℕ → ℕ

variable {Ph : Type} (T : CellMesh Pt Ph)

/-- The cell-wise functions with values `H` form a continuous function. -/
def Spec.Continuous (H : ℕ → ℕ → K) : Prop :=
  ∀ c < T.nCell, ∀ c' < T.nCell, ∀ x x', T.inside x → T.inside x' → T.map c x = T.map c' x' →
    Spec.functionAt kind ls (H c) x = Spec.functionAt kind ls (H c') x'

/-- Pressure functions are shared exactly between cells that have the node in common; the piecewise constant ones are not shared
with continuous ones. -/
structure Spec.PressureNumbers : Prop where
  inside : ∀ j < Spec.nContinuous kind p, T.inside (Spec.node kind p j)
  shared : ∀ c < T.nCell, ∀ c' < T.nCell, ∀ j < Spec.nContinuous kind p, ∀ j' < Spec.nContinuous kind p,
    T.pdof c j = T.pdof c' j' → T.map c (Spec.node kind p j) = T.map c' (Spec.node kind p j')
  separate : ∀ c < T.nCell, ∀ c' < T.nCell, ∀ j < Spec.nContinuous kind p, ∀ j' < p.n, Spec.nContinuous kind p ≤ j' →
    T.pdof c j ≠ T.pdof c' j'

/-- **C71 (the interpolated level set is a pressure).** If the level set function is continuous, the values submitted on the cells
are those of one global pressure vector. -/
theorem C71_interpolated_pressure (hk : kind ≠ .other) (S : ForceCells K)
    (hS : S.nLs = ls.n ∧ S.interp = interpolationMatrix kind ls p) (H : ℕ → ℕ → K) (hN : Spec.PressureNumbers kind p T)
    (hH : Spec.Continuous kind ls T H) :
    ∃ P : ℕ → K, ∀ c < T.nCell, ∀ j < p.n, S.projected H c j = P (T.pdof c j) := by
  classical
  refine ⟨fun k => if h : ∃ c j, c < T.nCell ∧ j < Spec.nContinuous kind p ∧ T.pdof c j = k then
      S.projected H h.choose h.choose_spec.choose else 0, fun c hc j hjn => ?_⟩
  dsimp only
  by_cases hj : j < Spec.nContinuous kind p
  · have hex : ∃ c' j', c' < T.nCell ∧ j' < Spec.nContinuous kind p ∧ T.pdof c' j' = T.pdof c j := ⟨c, j, hc, hj, rfl⟩
    rw [dif_pos hex]
    obtain ⟨hc', hj', he⟩ := hex.choose_spec.choose_spec
    rw [(C71_interpolation kind ls p hk S hS H c j).1 hj, (C71_interpolation kind ls p hk S hS H _ _).1 hj']
    exact hH c hc _ hc' _ _ (hN.inside j hj) (hN.inside _ hj') (hN.shared c hc _ hc' j hj _ hj' he.symm)
  · rw [dif_neg, (C71_interpolation kind ls p hk S hS H c j).2 (not_lt.1 hj)]
    rintro ⟨c', j', hc', hj', he⟩
    exact hN.separate c' hc' c hc j' hj' j hjn (not_lt.1 hj) he

variable {X : Type*} [AddCommGroup X] (F : ForceParams K) (D : Discretization K X (ℕ × ℕ))

/-- **C71 (static droplet in the pressure space).** On every mesh without hanging nodes, for every continuous Heaviside function and
constant curvature: if integration by parts holds for the pressures of the pressure space, one of them balances surface tension
and gravity exactly (`Gv` balances gravity), so that the fluid at rest solves the momentum equation. -/
theorem C71_static_droplet_conforming (hk : kind ≠ .other) (S : ForceCells K)
    (hS : S.nLs = ls.n ∧ S.interp = interpolationMatrix kind ls p) (hnP : S.nP = p.n) (hN : Spec.PressureNumbers kind p T)
    (par : ℕ × ℕ → PointParams K) (hdim : F.dim = 1 ∨ F.dim = 2 ∨ F.dim = 3)
    (hpar : ∀ q, (par q).dim = F.dim ∧ (par q).ext 0 0 = 0) (hint : F.interpolate = true) (hcells : ∀ q ∈ D.pts, q.1 < T.nCell)
    (H κ : ℕ → ℕ → K) (hH : Spec.Continuous kind ls T H) (κ0 : K) (hκ : ∀ q ∈ D.pts, ∀ i < S.nLs, κ q.1 i = κ0)
    (hone : ∀ q ∈ D.pts, ∑ i ∈ range S.nLs, S.lsVal i q.1 q.2 = 1) (Gv : ℕ → K)
    (hG : ∀ q ∈ D.pts, ∀ d < F.dim, S.pressureGradient (fun c j => Gv (T.pdof c j)) q.1 q.2 d =
      if d + 1 = F.dim then -(F.gravity * (F.density + F.densityDiff * S.lsValue H q.1 q.2)) else 0)
    (hparts : ∀ (P : ℕ → K) (t : X), Spec.ByParts S D F.dim (fun c j => P (T.pdof c j)) t)
    (old oldOld : X) (P1 P2 : ℕ → ℕ → K) (ho : Spec.AtRest S D old P1) (hoo : Spec.AtRest S D oldOld P2) :
    ∃ P : ℕ → K, ∀ x, Spec.AtRest S D x (fun c j => P (T.pdof c j)) →
      ∀ t, systemRhs D par old oldOld (forceRhs F S D H κ) x t = 0 := by
  obtain ⟨P, hP⟩ := C71_interpolated_pressure kind ls p T hk S hS H hN hH
  refine ⟨fun k => F.surfaceTension * κ0 * P k + Gv k, fun x hx t => ?_⟩
  refine C71_gradient_force F S D par hdim hpar H κ (fun c j => F.surfaceTension * κ0 * P (T.pdof c j) + Gv (T.pdof c j)) old oldOld x t
    P1 P2 ho hoo hx (hparts (fun k => F.surfaceTension * κ0 * P k + Gv k) t) ?_
  intro q hq d hd
  rw [pressureGradient_combine S (F.surfaceTension * κ0) (fun c j => P (T.pdof c j)) (fun c j => Gv (T.pdof c j)), hG q hq d hd]
  have hval : S.lsValue κ q.1 q.2 = κ0 := by
    unfold ForceCells.lsValue
    rw [show (∑ i ∈ range S.nLs, κ q.1 i * S.lsVal i q.1 q.2) = ∑ i ∈ range S.nLs, κ0 * S.lsVal i q.1 q.2 from
      sum_congr rfl fun i hi => by rw [hκ q hq i (mem_range.1 hi)], ← mul_sum, hone q hq, mul_one]
  have hgr : S.pressureGradient (S.projected H) q.1 q.2 d = S.pressureGradient (fun c j => P (T.pdof c j)) q.1 q.2 d := by
    unfold ForceCells.pressureGradient
    exact sum_congr rfl fun j hj => by rw [hP q.1 (hcells q hq) j (hnP ▸ mem_range.1 hj)]
  unfold force
  dsimp only
  rw [hint, if_pos rfl, hval, hgr, densityAt_eq]
  by_cases h : d + 1 = F.dim
  · rw [if_pos h, if_pos h]; ring
  · rw [if_neg h, if_neg h]; ring

/-! ### Example: two cells in a row, pressure linear, level set with two subdivisions -/

/-- Hat functions of two subdivisions of `[0,1]`. -/
def hat2 (i : ℕ) (x : ℚ) : ℚ :=
  if i = 0 then (if x ≤ 1 / 2 then 1 - 2 * x else 0) else
  if i = 1 then (if x ≤ 1 / 2 then 2 * x else 2 - 2 * x) else (if x ≤ 1 / 2 then 0 else 2 * x - 1)

/-- Vertices first, then the midpoint, as in `FE_Q_iso_Q1<1>(2)`. -/
def exLs1 : RefElement ℚ ℚ where
  n := 3
  shape := fun k x => hat2 ([0, 2, 1].getD k 0) x
  point := fun k => [0, 1, 1 / 2].getD k 0
  numberingInverse := fun i => [0, 2, 1].getD i 0

def exP1 : RefElement ℚ ℚ where
  n := 2
  shape := fun k x => if k = 0 then 1 - x else x
  point := fun k => if k = 0 then 0 else 1
  numberingInverse := id

def exMesh1 : CellMesh ℚ ℚ := ⟨2, fun c x => c + x, fun x => 0 ≤ x ∧ x ≤ 1, fun c j => c + j⟩

/-- The matrix of `exCells` of `Balance.lean` is the one of the code. -/
theorem exCells_interp : exCells.nLs = exLs1.n ∧ ∀ j < 2, ∀ i < 3, exCells.interp j i = interpolationMatrix .q exLs1 exP1 j i := by
  refine ⟨rfl, ?_⟩
  decide +kernel

def exCells1 : ForceCells ℚ := { exCells with interp := interpolationMatrix .q exLs1 exP1 }

theorem exMesh1_numbers : Spec.PressureNumbers .q exP1 exMesh1 where
  inside := by
    intro j hj
    change 0 ≤ (if j = 0 then (0 : ℚ) else 1) ∧ (if j = 0 then (0 : ℚ) else 1) ≤ 1
    by_cases h : j = 0
    · rw [if_pos h]; norm_num
    · rw [if_neg h]; norm_num
  shared := by
    intro c hc c' hc' j hj j' hj' h
    have e1 : ∀ j < 2, Spec.node PressureElement.q exP1 j = (j : ℚ) := by decide +kernel
    have hj2 : j < 2 := hj
    have hj2' : j' < 2 := hj'
    have h' : c + j = c' + j' := h
    rw [e1 j hj2, e1 j' hj2']
    change (c : ℚ) + j = c' + j'
    exact_mod_cast h'
  separate := by
    intro c hc c' hc' j hj j' hj' h
    exact absurd h (not_le.2 hj')

theorem hat2_cases (x : ℚ) : hat2 0 x = (if x ≤ 1 / 2 then 1 - 2 * x else 0) ∧
    hat2 1 x = (if x ≤ 1 / 2 then 2 * x else 2 - 2 * x) ∧ hat2 2 x = (if x ≤ 1 / 2 then 0 else 2 * x - 1) := ⟨rfl, rfl, rfl⟩

theorem hat2_sum (x : ℚ) : hat2 0 x + hat2 1 x + hat2 2 x = 1 := by
  rw [(hat2_cases x).1, (hat2_cases x).2.1, (hat2_cases x).2.2]
  by_cases h : x ≤ 1 / 2
  · rw [if_pos h, if_pos h, if_pos h]; ring
  · rw [if_neg h, if_neg h, if_neg h]; ring

theorem exLs1_at (h : ℕ → ℚ) (x : ℚ) :
    Spec.functionAt PressureElement.q exLs1 h x = h 0 * hat2 0 x + h 1 * hat2 1 x + h 2 * hat2 2 x := by
  unfold Spec.functionAt
  change ∑ i ∈ range 3, _ = _
  rw [sum_range_succ, sum_range_succ, sum_range_one]
  rfl

/-- `exHeaviside` of `Balance.lean` (zero up to the middle of the first cell, one in the second) is continuous. -/
theorem exHeaviside_continuous : Spec.Continuous .q exLs1 exMesh1 exHeaviside := by
  have key : ∀ c < 2, ∀ x : ℚ, 0 ≤ x → x ≤ 1 → Spec.functionAt PressureElement.q exLs1 (exHeaviside c) x =
      if (c : ℚ) + x ≤ 1 / 2 then 0 else if (c : ℚ) + x ≤ 1 then 2 * (c + x) - 1 else 1 := by
    intro c hc x h0 h1
    rw [exLs1_at]
    rcases (by omega : c = 0 ∨ c = 1) with rfl | rfl
    · have e : exHeaviside 0 0 = 0 ∧ exHeaviside 0 1 = 0 ∧ exHeaviside 0 2 = 1 := by decide +kernel
      rw [e.1, e.2.1, e.2.2, (hat2_cases x).2.2, Nat.cast_zero, zero_add]
      by_cases h : x ≤ 1 / 2
      · rw [if_pos h, if_pos h]; ring
      · rw [if_neg h, if_neg h, if_pos h1]; ring
    · have e : exHeaviside 1 0 = 1 ∧ exHeaviside 1 1 = 1 ∧ exHeaviside 1 2 = 1 := by decide +kernel
      rw [e.1, e.2.1, e.2.2, one_mul, one_mul, one_mul, hat2_sum]
      have h2 : ¬(((1 : ℕ) : ℚ) + x ≤ 1 / 2) := by push_cast; linarith
      rw [if_neg h2]
      by_cases h3 : ((1 : ℕ) : ℚ) + x ≤ 1
      · rw [if_pos h3]
        push_cast at h3 ⊢
        linarith
      · rw [if_neg h3]
  intro c hc c' hc' x x' hx hx' he
  have he' : (c : ℚ) + x = c' + x' := he
  rw [key c hc x hx.1 hx.2, key c' hc' x' hx'.1 hx'.2, he']

/-- The hypotheses of `C71_interpolation_exact`: the level set `3 x` on a cell has the pressure values 0 and 3. -/
example : exCells1.projected (fun _ i => [0, 3 / 2, 3].getD i 0) 0 1 = 3 :=
  C71_interpolation_exact .q exLs1 exP1 (by simp) exCells1 ⟨rfl, rfl⟩ (fun _ i => [0, 3 / 2, 3].getD i 0) 0 (fun k => 3 * k)
    (by decide +kernel) exMesh1.inside exMesh1_numbers.inside (by
      intro x _
      have e : ∑ k ∈ range (Spec.nContinuous PressureElement.q exP1), 3 * (k : ℚ) * exP1.shape (Spec.localNumber PressureElement.q exP1 k) x =
          3 * x := by
        change ∑ k ∈ range 2, 3 * (k : ℚ) * (if k = 0 then 1 - x else x) = 3 * x
        rw [sum_range_succ, sum_range_one]
        norm_num
      rw [exLs1_at, e, (hat2_cases x).2.1, (hat2_cases x).2.2]
      by_cases h : x ≤ 1 / 2
      · rw [if_pos h, if_pos h]; norm_num; ring
      · rw [if_neg h, if_neg h]; norm_num; ring) 1 (by decide) |>.trans (by norm_num)

theorem exCells1_parts (P t : ℕ → ℚ) : Spec.ByParts exCells1 exDisc 1 (fun c j => P (exMesh1.pdof c j)) t := by
  unfold Spec.ByParts ForceCells.pressureGradient
  rw [exDisc_sum]
  simp only [exCells1, exMesh1, exCells, exDisc, exS, exX, exW, sum_range_succ, range_zero, sum_empty]
  norm_num
  ring

/-- The hypotheses of `C71_static_droplet_conforming` for `exForce` of `Balance.lean` and curvature 2: there is a pressure that
keeps the fluid at rest, for all flow parameters. -/
example (par : ℕ × ℕ → PointParams ℚ) (hpar : ∀ q, (par q).dim = 1 ∧ (par q).ext 0 0 = 0) :
    ∃ P : ℕ → ℚ, ∀ x, Spec.AtRest exCells1 exDisc x (fun c j => P (exMesh1.pdof c j)) →
    ∀ t, systemRhs exDisc par 0 0 (forceRhs (exForce true) exCells1 exDisc exHeaviside fun _ _ => 2) x t = 0 := by
  have hrest : Spec.AtRest exCells1 exDisc 0 fun _ _ => 0 :=
    ⟨fun q _ d => by simp [exDisc], fun q _ d e => by simp [exDisc], fun q _ => by simp [exDisc]⟩
  refine C71_static_droplet_conforming .q exLs1 exP1 exMesh1 (exForce true) exDisc (by simp) exCells1 ⟨rfl, rfl⟩ rfl exMesh1_numbers
    par (.inl rfl) hpar rfl ?_ exHeaviside (fun _ _ => 2) exHeaviside_continuous 2 (fun _ _ _ _ => rfl) ?_ (fun _ => 0) ?_
    exCells1_parts 0 0 _ _ hrest hrest
  · show ∀ q ∈ range 2 ×ˢ range 6, q.1 < 2
    decide +kernel
  · show ∀ q ∈ range 2 ×ˢ range 6, ∑ i ∈ range 3, exCells.lsVal i q.1 q.2 = 1
    decide +kernel
  · intro q _ d _
    have h1 : (exForce true).gravity = 0 := rfl
    rw [h1, zero_mul, neg_zero, ite_self]
    unfold ForceCells.pressureGradient
    exact sum_eq_zero fun j _ => zero_mul _

/-! ### Hanging nodes -/

/-- Two subdivisions in two dimensions, lexicographic numbering. -/
def exLs2 : RefElement ℚ (ℚ × ℚ) where
  n := 9
  shape := fun k x => hat2 (k % 3) x.1 * hat2 (k / 3) x.2
  point := fun k => ((k % 3 : ℕ) / 2, (k / 3 : ℕ) / 2)
  numberingInverse := id

/-- Bilinear pressure. -/
def exP2 : RefElement ℚ (ℚ × ℚ) where
  n := 4
  shape := fun k x => (if k % 2 = 0 then 1 - x.1 else x.1) * if k / 2 = 0 then 1 - x.2 else x.2
  point := fun k => ((k % 2 : ℕ), (k / 2 : ℕ))
  numberingInverse := id

/-- The square `[0,1]²`, right of it two squares of half the size. Pressure node 1 is at `(1,0)`, 3 at `(1,1)`, the hanging node 5
at `(1,1/2)`. -/
def exMesh2 : CellMesh (ℚ × ℚ) (ℚ × ℚ) where
  nCell := 3
  map := fun c x => if c = 0 then x else (1 + x.1 / 2, ((if c = 1 then 0 else 1) + x.2) / 2)
  inside := fun x => 0 ≤ x.1 ∧ x.1 ≤ 1 ∧ 0 ≤ x.2 ∧ x.2 ≤ 1
  pdof := fun c j => if c = 0 then j else if c = 1 then [1, 4, 5, 6].getD j 0 else [5, 6, 3, 7].getD j 0

/-- Nodal values of a ridge along the line `y = 1/2`. -/
def exRidge (c i : ℕ) : ℚ :=
  if c = 0 then [0, 1, 0].getD (i / 3) 0 else if c = 1 then [0, 1 / 2, 1].getD (i / 3) 0 else [1, 1 / 2, 0].getD (i / 3) 0

theorem exLs2_at (a b d : ℚ) (h : ℕ → ℚ) (hh : ∀ i < 9, h i = [a, b, d].getD (i / 3) 0) (x : ℚ × ℚ) :
    Spec.functionAt PressureElement.q exLs2 h x = a * hat2 0 x.2 + b * hat2 1 x.2 + d * hat2 2 x.2 := by
  unfold Spec.functionAt
  have e : ∑ i ∈ range 9, h i * exLs2.shape (Spec.localNumber PressureElement.q exLs2 i) x =
      ∑ i ∈ range 9, [a, b, d].getD (i / 3) 0 * (hat2 (i % 3) x.1 * hat2 (i / 3) x.2) :=
    sum_congr rfl fun i hi => by rw [hh i (mem_range.1 hi)]; rfl
  have e2 : (range exLs2.n) = range 9 := rfl
  rw [e2, e]
  simp only [sum_range_succ, range_zero, sum_empty]
  have hs := hat2_sum x.1
  norm_num
  linear_combination (a * hat2 0 x.2 + b * hat2 1 x.2 + d * hat2 2 x.2) * hs

theorem exRidge_continuous : Spec.Continuous .q exLs2 exMesh2 exRidge := by
  have key : ∀ c < 3, ∀ x : ℚ × ℚ, exMesh2.inside x → Spec.functionAt PressureElement.q exLs2 (exRidge c) x =
      if (exMesh2.map c x).2 ≤ 1 / 2 then 2 * (exMesh2.map c x).2 else 2 - 2 * (exMesh2.map c x).2 := by
    intro c hc x hx
    obtain ⟨_, _, h0, h1⟩ := hx
    rcases (by omega : c = 0 ∨ c = 1 ∨ c = 2) with rfl | rfl | rfl
    · rw [exLs2_at 0 1 0 (exRidge 0) (by decide +kernel), (hat2_cases x.2).2.1]
      change _ = if x.2 ≤ 1 / 2 then 2 * x.2 else 2 - 2 * x.2
      by_cases h : x.2 ≤ 1 / 2
      · rw [if_pos h]; ring
      · rw [if_neg h]; ring
    · rw [exLs2_at 0 (1 / 2) 1 (exRidge 1) (by decide +kernel), (hat2_cases x.2).2.1, (hat2_cases x.2).2.2]
      change _ = if (0 + x.2) / 2 ≤ 1 / 2 then 2 * ((0 + x.2) / 2) else 2 - 2 * ((0 + x.2) / 2)
      rw [if_pos (by linarith : (0 + x.2) / 2 ≤ 1 / 2)]
      by_cases h : x.2 ≤ 1 / 2
      · rw [if_pos h, if_pos h]; ring
      · rw [if_neg h, if_neg h]; ring
    · rw [exLs2_at 1 (1 / 2) 0 (exRidge 2) (by decide +kernel), (hat2_cases x.2).1, (hat2_cases x.2).2.1]
      change _ = if (1 + x.2) / 2 ≤ 1 / 2 then 2 * ((1 + x.2) / 2) else 2 - 2 * ((1 + x.2) / 2)
      by_cases h : x.2 ≤ 1 / 2
      · rw [if_pos h, if_pos h]
        by_cases h3 : (1 + x.2) / 2 ≤ 1 / 2
        · rw [if_pos h3]; linarith
        · rw [if_neg h3]; ring
      · rw [if_neg h, if_neg h, if_neg (by push Not at h ⊢; linarith)]; ring
  intro c hc c' hc' x x' hx hx' he
  rw [key c hc x hx, key c' hc' x' hx', he]

/-- **C71 (hanging nodes).** At hanging nodes the interpolated level set is in general no pressure: this level set with two
subdivisions (the default) is continuous, but no vector with the values submitted on the cells satisfies the hanging node constraint
of the linear pressure. So `C71_static_droplet_conforming` does not extend to interfaces that cross hanging nodes. -/
theorem C71_hanging_node_not_pressure : Spec.Continuous .q exLs2 exMesh2 exRidge ∧
    ∀ S : ForceCells ℚ, S.nLs = exLs2.n → S.interp = interpolationMatrix .q exLs2 exP2 →
      ∀ P : ℕ → ℚ, (∀ c < 3, ∀ j < 4, S.projected exRidge c j = P (exMesh2.pdof c j)) → P 5 ≠ (P 1 + P 3) / 2 := by
  refine ⟨exRidge_continuous, fun S h1 h2 P hP => ?_⟩
  have e : ∀ c j, S.projected exRidge c j = ∑ i ∈ range 9, interpolationMatrix .q exLs2 exP2 j i * exRidge c i := by
    intro c j
    unfold ForceCells.projected
    rw [h1, h2]
    rfl
  have h5 : P 5 = 1 := by
    rw [← show exMesh2.pdof 1 2 = 5 from rfl, ← hP 1 (by norm_num) 2 (by norm_num), e]; decide +kernel
  have hp1 : P 1 = 0 := by
    rw [← show exMesh2.pdof 0 1 = 1 from rfl, ← hP 0 (by norm_num) 1 (by norm_num), e]; decide +kernel
  have hp3 : P 3 = 0 := by
    rw [← show exMesh2.pdof 0 3 = 3 from rfl, ← hP 0 (by norm_num) 3 (by norm_num), e]; decide +kernel
  rw [h5, hp1, hp3]
  norm_num

/-- Such vectors exist: the values on the cells agree. -/
example : ∀ c < 3, ∀ j < 4, ∑ i ∈ range 9, interpolationMatrix .q exLs2 exP2 j i * exRidge c i =
    if exMesh2.pdof c j = 5 ∨ exMesh2.pdof c j = 6 then 1 else 0 := by decide +kernel

end Verif.LevelSet
