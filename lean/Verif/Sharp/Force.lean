import Verif.Sharp.Collect
import Mathlib.Analysis.Normed.Module.Basic
import Mathlib.Algebra.BigOperators.Group.Finset.Basic
import Mathlib.Algebra.BigOperators.GroupWithZero.Action
import Mathlib.Algebra.Module.BigOperators
import Mathlib.Analysis.Real.Sqrt
import Mathlib.Tactic.Ring
import Mathlib.Tactic.Linarith
import Mathlib.Tactic.FieldSimp
import Mathlib.Tactic.LinearCombination
import Mathlib.Algebra.BigOperators.Fin
import Mathlib.Algebra.BigOperators.Ring.Finset
import Mathlib.Algebra.BigOperators.Pi
import Mathlib.Tactic.Module
import Mathlib.MeasureTheory.Integral.IntervalIntegral.FundThmCalculus

/-!
# C44, C55, C56: surface tension and gravity in the sharp interface solvers
(include/adaflo/sharp_interface_util.h:327-436, 640-800, 808-985, 988-1050; include/adaflo/sharp_interface.h:537-550,
 630-740, 812-835, 940-1062)

Simplifications: exact real arithmetic; the velocity space is described by its scalar shape functions `N k p j` (value of
shape function `j` on cell `k` at reference point `p`, `0` if `j` does not belong to the cell) with one `E`-valued
coefficient per scalar shape function (`E` the space of vectors of length `dim`). The force routines use empty constraints
(sharp_interface_util.h:395, 694, 822), so that `distribute_local_to_global` is plain addition.
-/

namespace Verif.Sharp

open Finset

section Model
variable {C P ι E : Type*} [LinearOrder C] [NormedAddCommGroup E] [NormedSpace ℝ E]

/-- data at a quadrature point of the interface: value of the normal field (of any length), curvature, surface element -/
structure SurfPoint (E : Type*) where
  normal : E
  curvature : ℝ
  JxW : ℝ

/-- front tracking: sharp_interface_util.h:380-384 -/
noncomputable def forceFrontTracking (σ : ℝ) (q : SurfPoint E) : E := (-q.curvature * q.JxW * σ) • q.normal

/-- mixed level set: sharp_interface_util.h:770-778 (the coefficient is multiplied twice in the code) -/
noncomputable def forceMixed (σ : ℝ) (q : SurfPoint E) : E :=
  (σ * σ * q.curvature * q.JxW) • ((‖q.normal‖)⁻¹ • q.normal)

/-- marching cubes: sharp_interface_util.h:952-960 -/
noncomputable def forceMarching (σ : ℝ) (q : SurfPoint E) : E := (σ * q.curvature * q.JxW) • ((‖q.normal‖)⁻¹ • q.normal)

/-- regularized: sharp_interface_util.h:1000-1002 (Heaviside `(φ+1)/2`) and :1030-1036. `gradLs` is the gradient of the
level set at the point; the shift by one does not contribute to the gradient. -/
noncomputable def forceRegularized (σ : ℝ) (gradLs : E) (κ : ℝ) : E := (σ * κ) • ((1 / 2 : ℝ) • gradLs)

/-- One cell of the final loop in sharp_interface_util.h:403-435: `integrate` tests the values of the slice belonging to
the cell with the shape functions, `distribute_local_to_global` adds. -/
noncomputable def cellForce (N : C → P → ι → ℝ) (a : Csr C E P) (i : ℕ) : ι → E := fun j =>
  match a.cells[i]?, a.ptrs[i]?, a.ptrs[i + 1]? with
  | some k, some b, some e =>
    ((((a.points.drop b).take (e - b)).zip ((a.weights.drop b).take (e - b))).map fun pw => N k pw.1 j • pw.2).sum
  | _, _, _ => 0

/-- the loop over the collected cells, sharp_interface_util.h:403-435 -/
noncomputable def assemble (N : C → P → ι → ℝ) (a : Csr C E P) (v : ι → E) : ι → E :=
  (List.range a.cells.length).foldl (fun v i => v + cellForce N a i) v

/-- marching cubes, sharp_interface_util.h:835-975: loop over all cells with the points found on each of them -/
noncomputable def assembleCells (N : C → P → ι → ℝ) (f : SurfPoint E → E) (cells : List (C × List (P × SurfPoint E)))
    (v : ι → E) : ι → E :=
  cells.foldl (fun v c => v + fun j => (c.2.map fun pq => N c.1 pq.1 j • f pq.2).sum) v

end Model

/-! ## Specification -/

/-- Virtual work of point forces `f` applied at located points: coefficient of test function `j`. -/
noncomputable def Spec.pointForces {C P ι E : Type*} [AddCommMonoid E] [Module ℝ E] (N : C → P → ι → ℝ)
    (info : List (Entry C E P)) : ι → E := fun j => (info.map fun e => N e.cell e.point j • e.weight).sum

/-! ## Assembly -/

section
variable {C P ι E : Type*} [LinearOrder C] [NormedAddCommGroup E] [NormedSpace ℝ E]

theorem foldl_add_range (f : ℕ → ι → E) (n : ℕ) (v : ι → E) :
    (List.range n).foldl (fun v i => v + f i) v = v + ∑ i ∈ range n, f i := by
  induction n with
  | zero => simp
  | succ n ih => rw [List.range_succ, List.foldl_append, ih, sum_range_succ]; simp [add_assoc]

/-- summing group-wise over distinct cells that cover all entries -/
theorem sum_groups (f : Entry C E P → E) (cells : List C) (hn : cells.Nodup) (info : List (Entry C E P))
    (hc : ∀ e ∈ info, e.cell ∈ cells) :
    (cells.map fun k => ((info.filter fun e => e.cell = k).map f).sum).sum = (info.map f).sum := by
  induction info with
  | nil => simp
  | cons e l ih =>
    have hl := ih fun x hx => hc x (by simp [hx])
    have he := hc e (by simp)
    have hsplit : ∀ k, (((e :: l).filter fun x => x.cell = k).map f).sum =
        (if e.cell = k then f e else 0) + ((l.filter fun x => x.cell = k).map f).sum := by
      intro k
      by_cases hk : e.cell = k <;> simp [hk]
    simp only [hsplit]
    rw [List.sum_map_add, hl, List.map_cons, List.sum_cons]
    congr 1
    clear ih hl hc hsplit
    induction cells with
    | nil => simp at he
    | cons c cs ihc =>
      rw [List.map_cons, List.sum_cons]
      have hn' := List.nodup_cons.1 hn
      by_cases hec : e.cell = c
      · rw [if_pos hec]
        have : (cs.map fun k => if e.cell = k then f e else 0).sum = 0 := by
          apply List.sum_eq_zero
          intro x hx
          obtain ⟨k, hk, rfl⟩ := List.mem_map.1 hx
          rw [if_neg]
          rintro rfl; exact hn'.1 (hec ▸ hk)
        rw [this, add_zero]
      · rw [if_neg hec, zero_add]
        exact ihc hn'.2 (by simpa [hec] using he)

/-- **Assembly.** The loop over the compressed arrays adds exactly the virtual work of the located point forces. -/
theorem assemble_eq (N : C → P → ι → ℝ) (out : Csr C E P) (info0 : List (Entry C E P))
    (h : Spec.Represents out info0) (v : ι → E) : assemble N out v = v + Spec.pointForces N info0 := by
  unfold assemble
  rw [foldl_add_range]
  congr 1
  funext j
  unfold Spec.pointForces
  have hnd : out.cells.Nodup := h.increasing.imp (fun {a b} hab => ne_of_lt hab)
  rw [← sum_groups (fun e => N e.cell e.point j • e.weight) out.cells hnd info0
    (fun e he => (h.mem_cells _).2 ⟨e, he, rfl⟩)]
  have key : ∀ i (hi : i < out.cells.length), cellForce N out i j =
      ((info0.filter fun e => e.cell = out.cells[i]).map fun e => N e.cell e.point j • e.weight).sum := by
    intro i hi
    have hb : i < out.ptrs.length := by rw [h.n_ptrs]; omega
    have he : i + 1 < out.ptrs.length := by rw [h.n_ptrs]; omega
    have hs := (h.slices i out.cells[i] out.ptrs[i] out.ptrs[i + 1] (List.getElem?_eq_getElem hi)
      (List.getElem?_eq_getElem hb) (List.getElem?_eq_getElem he)).2
    unfold cellForce
    simp only [List.getElem?_eq_getElem hi, List.getElem?_eq_getElem hb, List.getElem?_eq_getElem he]
    rw [(hs.map fun pw => N out.cells[i] pw.1 j • pw.2).sum_eq, List.map_map]
    congr 1
    apply List.map_congr_left
    intro e hef
    have : e.cell = out.cells[i] := by simpa using (List.mem_filter.1 hef).2
    simp [this]
  rw [Finset.sum_apply, ← Fin.sum_univ_eq_sum_range (fun i => cellForce N out i j) out.cells.length, ← List.sum_ofFn]
  congr 1
  apply List.ext_getElem
  · simp
  · intro i h1 h2
    simp only [List.getElem_ofFn, List.getElem_map]
    exact key i (by simpa using h2)

theorem assembleCells_eq (N : C → P → ι → ℝ) (f : SurfPoint E → E) (cells : List (C × List (P × SurfPoint E)))
    (v : ι → E) : assembleCells N f cells v =
      v + Spec.pointForces N (cells.flatMap fun c => c.2.map fun pq => ⟨pq.1, f pq.2, c.1⟩) := by
  unfold assembleCells
  induction cells generalizing v with
  | nil => funext j; simp [Spec.pointForces]
  | cons c cs ih =>
    rw [List.foldl_cons, ih, add_assoc]
    congr 1
    funext j
    simp [Spec.pointForces, List.flatMap_cons, List.map_map, Function.comp_def]

end

/-! ## C44 -/

section
variable {C P ι Q E : Type*} [LinearOrder C] [NormedAddCommGroup E] [NormedSpace ℝ E]

/-- front tracking: from surface points to the increment of the force vector (sharp_interface_util.h:345-435). `info` is
the order chosen by `std::sort`. -/
noncomputable def frontTrackingForce (N : C → P → ι → ℝ) (dummy : C) (info : List (Entry C E P)) (v : ι → E) : ι → E :=
  assemble N (compress dummy info) v

/-- the weighted points handed to `collect_integration_points`, sharp_interface_util.h:376-388 -/
noncomputable def surfaceForces (σ : ℝ) (pts : List (Q × SurfPoint E)) : List (Q × E) :=
  pts.map fun q => (q.1, forceFrontTracking σ q.2)

theorem infoAll_scale (locate : Q → Option (List (C × P))) (s σ : ℝ) (pts : List (Q × SurfPoint E)) :
    infoAll locate (surfaceForces (s * σ) pts) =
      (infoAll locate (surfaceForces σ pts)).map fun e => (⟨e.point, s • e.weight, e.cell⟩ : Entry C E P) := by
  unfold infoAll surfaceForces
  induction pts with
  | nil => rfl
  | cons q l ih =>
    simp only [List.map_cons, List.flatMap_cons, List.map_append, ih]
    congr 1
    cases locate q.1 with
    | none => rfl
    | some c =>
      simp only [List.map_map]
      apply List.map_congr_left
      intro x _
      simp only [Function.comp_def, forceFrontTracking, smul_smul]
      congr 2; ring

theorem pointForces_scale (N : C → P → ι → ℝ) (s : ℝ) (info : List (Entry C E P)) :
    Spec.pointForces N (info.map fun e => (⟨e.point, s • e.weight, e.cell⟩ : Entry C E P)) =
      s • Spec.pointForces N info := by
  funext j
  simp only [Spec.pointForces, List.map_map, Pi.smul_apply, List.smul_sum]
  congr 1
  apply List.map_congr_left
  intro e _
  simp only [Function.comp_def]
  rw [smul_comm]

/-- **C44 (front tracking).** Scaling the coefficient by `s` scales the force added to the right hand side by `s`, even if
`std::sort` orders the points differently in the two calls. -/
theorem C44_front_tracking_partial (N : C → P → ι → ℝ) (dummy : C) (locate : Q → Option (List (C × P)))
    (pts : List (Q × SurfPoint E)) (σ s : ℝ) (info info' : List (Entry C E P))
    (h : SortedFrom (infoAll locate (surfaceForces σ pts)) info)
    (h' : SortedFrom (infoAll locate (surfaceForces (s * σ) pts)) info')
    (hd : ∀ e ∈ infoAll locate (surfaceForces σ pts), e.cell ≠ dummy) (v : ι → E) :
    frontTrackingForce N dummy info' v - v = s • (frontTrackingForce N dummy info v - v) := by
  have hd' : ∀ e ∈ infoAll locate (surfaceForces (s * σ) pts), e.cell ≠ dummy := by
    rw [infoAll_scale]
    intro e he
    obtain ⟨x, hx, rfl⟩ := List.mem_map.1 he
    exact hd x hx
  unfold frontTrackingForce
  rw [assemble_eq N _ _ (C42_compress_represents dummy _ info h hd) v,
    assemble_eq N _ _ (C42_compress_represents dummy _ info' h' hd') v, infoAll_scale, pointForces_scale]
  simp

/-- **C44 (marching cubes).** -/
theorem C44_marching_cubes_partial (N : C → P → ι → ℝ) (cells : List (C × List (P × SurfPoint E))) (σ s : ℝ) (v : ι → E) :
    assembleCells N (forceMarching (s * σ)) cells v - v = s • (assembleCells N (forceMarching σ) cells v - v) := by
  rw [assembleCells_eq, assembleCells_eq, add_sub_cancel_left, add_sub_cancel_left, ← pointForces_scale]
  congr 1
  rw [List.map_flatMap]
  congr 1; funext c
  rw [List.map_map]
  apply List.map_congr_left
  intro x _
  simp only [Function.comp_def, forceMarching, smul_smul]
  congr 2; ring

/-- **C44 (regularized force).** -/
theorem C44_regularized_partial (σ s : ℝ) (g : E) (κ : ℝ) : forceRegularized (s * σ) g κ = s • forceRegularized σ g κ := by
  simp only [forceRegularized, smul_smul]; congr 1; ring

/-- **C44 (regularized force, strength).** Integrated along the normal `n` through the interface, from level set value `-1` to
`1`, the regularized force per volume gives the force per area `σ κ n` of a sharp interface - for every profile. -/
theorem C44_regularized_jump [CompleteSpace E] (σ κ : ℝ) (n : E) (φ φ' : ℝ → ℝ) (a b : ℝ)
    (hφ : ∀ t, HasDerivAt φ (φ' t) t) (hc : Continuous φ') (ha : φ a = -1) (hb : φ b = 1) :
    ∫ t in a..b, forceRegularized σ (φ' t • n) κ = (σ * κ) • n := by
  have e : ∀ t, forceRegularized σ (φ' t • n) κ = (φ' t) • ((σ * κ * (1 / 2)) • n) := by
    intro t; simp only [forceRegularized, smul_smul]; congr 1; ring
  simp only [e]
  rw [intervalIntegral.integral_smul_const,
    intervalIntegral.integral_eq_sub_of_hasDerivAt (fun t _ => hφ t) (hc.intervalIntegrable _ _), ha, hb, smul_smul]
  congr 1; ring

/-- **C44 is false of the mixed level set solver:** the force is the correct one multiplied with the coefficient once
more, so it scales quadratically; it agrees with the one of the marching cubes variant only if the coefficient is 0 or 1
(or the force vanishes). -/
theorem C44_mixed_violated :
    (∀ (q : SurfPoint E) (σ s : ℝ), forceMixed (s * σ) q = s ^ 2 • forceMixed σ q) ∧
    (∀ (q : SurfPoint E) (σ : ℝ), forceMixed σ q = σ • forceMarching σ q) ∧
    (∀ (q : SurfPoint E) (σ : ℝ), q.curvature * q.JxW ≠ 0 → q.normal ≠ 0 →
      (forceMixed σ q = forceMarching σ q ↔ σ = 0 ∨ σ = 1)) := by
  refine ⟨fun q σ s => ?_, fun q σ => ?_, fun q σ hk hn => ?_⟩
  · simp only [forceMixed, smul_smul]; congr 1; ring
  · simp only [forceMixed, forceMarching, smul_smul]; congr 1; ring
  · simp only [forceMixed, forceMarching, smul_smul]
    rw [smul_left_injective ℝ hn |>.eq_iff]
    have hnn : ‖q.normal‖⁻¹ ≠ 0 := inv_ne_zero (norm_ne_zero_iff.2 hn)
    constructor
    · intro h
      by_cases h0 : σ = 0
      · exact .inl h0
      · right
        have : σ * (q.curvature * q.JxW * ‖q.normal‖⁻¹ * σ) = 1 * (q.curvature * q.JxW * ‖q.normal‖⁻¹ * σ) := by
          linear_combination h
        exact mul_right_cancel₀ (mul_ne_zero (mul_ne_zero hk hnn) h0) this
    · rintro (h | h) <;> rw [h] <;> ring

/-- Length of the normal field does not matter for the level set variants, but it does for front tracking. -/
theorem C44_normal_length (q : SurfPoint E) (σ c : ℝ) (hc : 0 < c) :
    forceMarching σ { q with normal := c • q.normal } = forceMarching σ q ∧
    forceFrontTracking σ { q with normal := c • q.normal } = c • forceFrontTracking σ q := by
  constructor
  · simp only [forceMarching, norm_smul, Real.norm_eq_abs, abs_of_pos hc, mul_inv, smul_smul]
    congr 1; field_simp
  · simp only [forceFrontTracking, smul_smul]; congr 1; ring

end

/-! ## C56: orientation -/

section
variable {ν : Type*} [Fintype ν] {d : ℕ}

/-- `compute_curvature` of the front tracking solver, sharp_interface_util.h:505-545: nodal curvature is the divergence of
the interpolated normal field. `G m n c` is component `c` of the (surface) gradient of shape function `n` at node `m`. -/
def nodalCurvature (G : ν → ν → Fin d → ℝ) (normal : ν → Fin d → ℝ) (m : ν) : ℝ := ∑ c, ∑ n, G m n c * normal n c

/-- value of the interpolated fields at a quadrature point, sharp_interface_util.h:371-386; `S n` is the value of shape
function `n` at the point -/
def surfPointOf (G : ν → ν → Fin d → ℝ) (normal : ν → Fin d → ℝ) (S : ν → ℝ) (JxW : ℝ) : SurfPoint (Fin d → ℝ) where
  normal := fun c => ∑ n, S n * normal n c
  curvature := ∑ m, S m * nodalCurvature G normal m
  JxW := JxW

/-- **C56 (orientation).** Reversing the orientation of the surface mesh turns all nodal normals around; the force of every
surface quadrature point is unchanged. -/
theorem C56_orientation (G : ν → ν → Fin d → ℝ) (normal : ν → Fin d → ℝ) (S : ν → ℝ) (JxW σ : ℝ) :
    forceFrontTracking σ (surfPointOf G (fun n c => -normal n c) S JxW) =
      forceFrontTracking σ (surfPointOf G normal S JxW) := by
  have hk : (surfPointOf G (fun n c => -normal n c) S JxW).curvature = -(surfPointOf G normal S JxW).curvature := by
    simp [surfPointOf, nodalCurvature]
  have hn : (surfPointOf G (fun n c => -normal n c) S JxW).normal = -(surfPointOf G normal S JxW).normal := by
    funext c; simp [surfPointOf]
  have hj : (surfPointOf G (fun n c => -normal n c) S JxW).JxW = (surfPointOf G normal S JxW).JxW := rfl
  simp only [forceFrontTracking, hk, hn, hj]
  module

/-- The mixed and marching cube variants take normal and curvature from the level set; exchanging the two fluids
(`φ ↦ -φ`) reverses both, the force is unchanged as well. -/
theorem C56_phase_exchange {E : Type*} [NormedAddCommGroup E] [NormedSpace ℝ E] (σ : ℝ) (q : SurfPoint E) (g : E) (κ : ℝ) :
    forceMarching σ ⟨-q.normal, -q.curvature, q.JxW⟩ = forceMarching σ q ∧
    forceMixed σ ⟨-q.normal, -q.curvature, q.JxW⟩ = forceMixed σ q ∧
    forceRegularized σ (-g) (-κ) = forceRegularized σ g κ := by
  refine ⟨?_, ?_, ?_⟩
  · simp [forceMarching]
  · simp [forceMixed]
  · simp [forceRegularized]

end

/-! ## C55: the external force of one time step -/

section
variable {C P ι E : Type*} [LinearOrder C] [NormedAddCommGroup E] [NormedSpace ℝ E]

/-- phase parameters read by the routines, sharp_interface.h:635-640, 704-707 -/
structure PhaseParams where
  density : ℝ
  density_diff : ℝ
  viscosity : ℝ
  viscosity_diff : ℝ
  gravity : ℝ

/-- `update_phases` of the front tracking solver for one quadrature point, sharp_interface.h:632-672: (density, viscosity)
stored for the point, from the stored values and the indicator. (The mixed level set solver writes through another MatrixFree
object, see Sharp/MixedForce.lean.) -/
noncomputable def updatePhases (p : PhaseParams) (indicator : ℝ) (stored : ℝ × ℝ) : ℝ × ℝ :=
  if p.density_diff = 0 ∧ p.viscosity_diff = 0 then stored
  else (p.density + p.density_diff * indicator, p.viscosity + p.viscosity_diff * indicator)

/-- density used for gravity, sharp_interface.h:722-727 -/
noncomputable def gravityDensity (p : PhaseParams) (stored : ℝ × ℝ) : ℝ :=
  if p.density_diff = 0 then p.density else stored.1

/-- quadrature point of the background mesh: shape function values, `JxW`, indicator of the current interface, stored
density and viscosity -/
structure VolPoint (ι : Type*) where
  N : ι → ℝ
  JxW : ℝ
  indicator : ℝ
  stored : ℝ × ℝ

/-- `update_gravity_force` of the front tracking solver with `zero_out = true`: the old content is discarded,
sharp_interface.h:700-740. The quadrature is the one the stored values belong to (index 0); the routine of the mixed level set
solver uses another one, see Sharp/MixedForce.lean. `up` is the last unit vector. -/
noncomputable def updateGravity (p : PhaseParams) (up : E) (pts : List (VolPoint ι)) (_old : ι → E) : ι → E := fun j =>
  (pts.map fun q => (q.N j * q.JxW) • (-(p.gravity * gravityDensity p (updatePhases p q.indicator q.stored))) • up).sum

/-- `advance_time_step` of the front tracking solver up to the flow solve: phases, gravity, surface tension (adds), zero on
constrained entries, sharp_interface.h:537-550. `surface` is the map `v ↦ v + ...` of the surface tension routine. -/
noncomputable def externalForce (p : PhaseParams) (up : E) (pts : List (VolPoint ι)) (surface : (ι → E) → ι → E)
    (constrained : ι → Prop) [DecidablePred constrained] (old : ι → E) : ι → E := fun j =>
  if constrained j then 0 else surface (updateGravity p up pts old) j

/-- Several time steps: the flow solver does not modify the vector, each step starts from the previous content. -/
noncomputable def forceHistory (p : PhaseParams) (up : E) (steps : List (List (VolPoint ι) × ((ι → E) → ι → E)))
    (constrained : ι → Prop) [DecidablePred constrained] (v0 : ι → E) : ι → E :=
  steps.foldl (fun v s => externalForce p up s.1 s.2 constrained v) v0

/-- **C55 (material values).** If the flow solver was set up with the values of the first phase (C21), then after every
`update_phases` density and viscosity at a point are those of the current interface position, whatever values earlier
interface positions left there - also when the update is skipped because both phases are equal. -/
theorem C55_material_values (p : PhaseParams) (history : List ℝ) (indicator : ℝ) :
    updatePhases p indicator (history.foldl (fun st i => updatePhases p i st) (p.density, p.viscosity)) =
      (p.density + p.density_diff * indicator, p.viscosity + p.viscosity_diff * indicator) := by
  by_cases h : p.density_diff = 0 ∧ p.viscosity_diff = 0
  · have : ∀ l : List ℝ, ∀ st, l.foldl (fun st i => updatePhases p i st) st = st := by
      intro l
      induction l with
      | nil => intro st; rfl
      | cons a l ih => intro st; rw [List.foldl_cons, ih, updatePhases, if_pos h]
    rw [this, updatePhases, if_pos h]
    simp [h.1, h.2]
  · rw [updatePhases, if_neg h]

/-- **C55 (no leftovers).** After any number of time steps the external force is gravity, with the density of the current
interface position, plus the surface tension of the last step, at all unconstrained entries, and zero at the constrained
ones. Neither the force of earlier steps nor earlier stored material values enter. -/
theorem C55_external_force (p : PhaseParams) (up : E) (steps : List (List (VolPoint ι) × ((ι → E) → ι → E)))
    (pts : List (VolPoint ι)) (f : ι → E) (constrained : ι → Prop) [DecidablePred constrained] (v0 : ι → E) (j : ι) :
    forceHistory p up (steps ++ [(pts, fun v => v + f)]) constrained v0 j =
      if constrained j then 0 else
        (pts.map fun q => -(p.gravity * (p.density + p.density_diff * q.indicator) * q.N j * q.JxW)).sum • up + f j := by
  unfold forceHistory
  rw [List.foldl_append]
  simp only [List.foldl_cons, List.foldl_nil, externalForce]
  by_cases hc : constrained j
  · simp [hc]
  · simp only [if_neg hc, Pi.add_apply]
    congr 1
    unfold updateGravity
    rw [List.sum_smul, List.map_map]
    congr 1
    apply List.map_congr_left
    intro q _
    simp only [Function.comp_def, smul_smul]
    congr 1
    unfold gravityDensity updatePhases
    by_cases hd : p.density_diff = 0
    · simp [hd]; ring
    · simp [hd]; ring

/-- sum of the coefficients of the external force -/
theorem pointForces_total [Fintype ι] (N : C → P → ι → ℝ) (info : List (Entry C E P))
    (hN : ∀ e ∈ info, ∑ j, N e.cell e.point j = 1) :
    ∑ j, Spec.pointForces N info j = (info.map (·.weight)).sum := by
  induction info with
  | nil => simp [Spec.pointForces]
  | cons e l ih =>
    have hl := ih fun x hx => hN x (by simp [hx])
    simp only [Spec.pointForces, List.map_cons, List.sum_cons] at hl ⊢
    rw [Finset.sum_add_distrib, hl, ← Finset.sum_smul, hN e (by simp), one_smul]

/-- **C55 (total force).** Without constraints, for a partition of unity, the external force of a front tracking step sums
up to the weight of the two fluids plus the sum of the surface forces handed to the cells - whatever cells the surface
points are located in. -/
theorem C55_total_force [Fintype ι] (p : PhaseParams) (up : E) (pts : List (VolPoint ι)) (N : C → P → ι → ℝ) (dummy : C)
    (info0 info : List (Entry C E P)) (h : SortedFrom info0 info) (hd : ∀ e ∈ info0, e.cell ≠ dummy)
    (hN : ∀ e ∈ info0, ∑ j, N e.cell e.point j = 1) (hV : ∀ q ∈ pts, ∑ j, q.N j = 1) (v : ι → E) :
    ∑ j, externalForce p up pts (frontTrackingForce N dummy info) (fun _ => False) v j =
      -(p.gravity * (pts.map fun q => (p.density + p.density_diff * q.indicator) * q.JxW).sum) • up +
        (info0.map (·.weight)).sum := by
  have hassemble : ∀ w : ι → E, frontTrackingForce N dummy info w = w + Spec.pointForces N info0 := fun w => by
    unfold frontTrackingForce; exact assemble_eq N _ _ (C42_compress_represents dummy _ info h hd) w
  have h1 : ∀ j, externalForce p up pts (frontTrackingForce N dummy info) (fun _ => False) v j =
      (pts.map fun q => -(p.gravity * (p.density + p.density_diff * q.indicator) * q.N j * q.JxW)).sum • up +
        Spec.pointForces N info0 j := by
    intro j
    have := C55_external_force p up [] pts (Spec.pointForces N info0) (fun _ => False) v j
    simp only [forceHistory, List.nil_append, List.foldl_cons, List.foldl_nil, if_neg not_false] at this
    rw [← this]
    simp only [externalForce, if_neg not_false, hassemble]
  simp only [h1]
  rw [Finset.sum_add_distrib, pointForces_total N info0 hN, ← Finset.sum_smul]
  congr 2
  clear h1 hassemble
  induction pts with
  | nil => simp
  | cons q l ih =>
    have hl := ih fun x hx => hV x (by simp [hx])
    simp only [List.map_cons, List.sum_cons, Finset.sum_add_distrib, hl]
    have : ∑ j, -(p.gravity * (p.density + p.density_diff * q.indicator) * q.N j * q.JxW) =
        -(p.gravity * (p.density + p.density_diff * q.indicator) * q.JxW) * ∑ j, q.N j := by
      rw [Finset.mul_sum]; exact Finset.sum_congr rfl fun j _ => by ring
    rw [this, hV q (by simp)]; ring

end

/-! ## Non-vacuity -/

/-- two surface points, one of them on a face; shape functions of a partition of unity -/
example : ∃ info : List (Entry (ℤ ×ₗ ℤ) ℝ ℕ),
    SortedFrom (infoAll exLocate (surfaceForces (Q := ℕ) 2 [(0, ⟨1, 3, 1⟩), (1, ⟨1, 5, 1⟩), (2, ⟨1, 5, 1⟩)])) info ∧
    (∀ e ∈ infoAll exLocate (surfaceForces (Q := ℕ) (E := ℝ) 2 [(0, ⟨1, 3, 1⟩), (1, ⟨1, 5, 1⟩), (2, ⟨1, 5, 1⟩)]),
      e.cell ≠ toLex (-1, -1)) := by
  refine ⟨[⟨8, -6, toLex (0, 0)⟩, ⟨7, -6, toLex (0, 1)⟩, ⟨9, -10, toLex (0, 1)⟩], ⟨?_, ?_⟩, ?_⟩
  · have e : infoAll exLocate (surfaceForces (Q := ℕ) (E := ℝ) 2 [(0, ⟨1, 3, 1⟩), (1, ⟨1, 5, 1⟩), (2, ⟨1, 5, 1⟩)]) =
        [⟨7, -6, toLex (0, 1)⟩, ⟨8, -6, toLex (0, 0)⟩, ⟨9, -10, toLex (0, 1)⟩] := by
      simp [infoAll, surfaceForces, exLocate, forceFrontTracking]; norm_num
    rw [e]
    exact List.Perm.swap _ _ _
  · simp only [List.pairwise_cons, List.mem_cons, List.not_mem_nil, or_false, forall_eq_or_imp, forall_eq]
    refine ⟨⟨?_, ?_⟩, ?_, ?_⟩ <;> first | decide +kernel | simp
  · simp [infoAll, surfaceForces, exLocate]

/-- a point at which the mixed variant is wrong -/
example : ∃ (q : SurfPoint ℝ) (σ : ℝ), q.curvature * q.JxW ≠ 0 ∧ q.normal ≠ 0 ∧ forceMixed σ q ≠ forceMarching σ q := by
  refine ⟨⟨1, 1, 1⟩, 2, by norm_num, by norm_num, ?_⟩
  have := (C44_mixed_violated (E := ℝ)).2.2 ⟨1, 1, 1⟩ 2 (by norm_num) (by norm_num)
  rw [Ne, this]; norm_num

/-- the hypotheses of `C55_total_force` hold for two linear shape functions -/
example : ∀ q ∈ ([⟨fun j => if j = 0 then 1 / 4 else 3 / 4, 1, 1, (0, 0)⟩] : List (VolPoint (Fin 2))), ∑ j, q.N j = 1 := by
  simp; norm_num

end Verif.Sharp
