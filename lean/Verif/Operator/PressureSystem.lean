import Verif.Operator.PressureMode
import Verif.FE.Space
import Mathlib.Algebra.CharZero.Defs
import Mathlib.Algebra.BigOperators.Group.Finset.Piecewise

/-!
# C114: the projected pressure equations and the continuity equation

Both the product of the coupled matrix (source/navier_stokes_matrix.cc:222-263) and the right hand side
(source/navier_stokes.cc:781-787) are passed through `apply_pressure_average_projection`, which removes a weighted mean of the
pressure rows. The linear solver therefore solves `P A x = P b` rather than `A x = b`. Which continuity equation does the
updated velocity fulfill?

The velocity only enters through its divergence at the quadrature points. Pressure functions, constraints and cell loops are
those of `Verif.FE.Space`.
-/
set_option linter.unusedSectionVars false

namespace Verif.Operator.PressureSystem

open Verif.Parameters Verif.Operator Verif.FE
open Finset

variable {K : Type*} [Field K]

/-! ## Model -/

/-- Data of a pressure discretization. `Su`/`Sp`: pressure functions in the points of `quad_index_u`/`quad_index_p`; `C`:
constraints of the pressure; `mask k`: `constant_modes[k]` (navier_stokes_matrix.cc:127-129): for `k = 0` the continuous
functions, for `k = 1` the cellwise constants of augmented Taylor-Hood elements; `fix`: `pressure_average_fix`; `aug`:
`augmented_taylor_hood`; `div`: divergence of the velocity with given coefficients in the points of `quad_index_u`. -/
structure Disc (K : Type*) where
  lin : Linearization
  phys : Physical
  fix : Bool
  aug : Bool
  Su : Space K
  Sp : Space K
  C : Constr K
  mask : ℕ → ℕ → Bool
  div : (ℕ → K) → ℕ → ℕ → K

/-- The constrained pressure degrees of freedom, `matrix_free->get_constrained_dofs(dof_index_p)`. -/
def Disc.constrained (D : Disc K) : List ℕ := (List.range D.Su.nDof).filter fun k => (D.C.row k).isSome

/-- `pres_mass`, navier_stokes_matrix.cc:113-125, 1074-1095: `submit_value(1)`. -/
def Disc.presMass (D : Disc K) : ℕ → K := D.C.scatter D.Sp.nDof (D.Sp.test (fun _ _ => 1) fun _ _ _ => 0)

/-- The modes set up by `initialize`, navier_stokes_matrix.cc:111-165. -/
def Disc.modes (D : Disc K) : Option (Mode K) × Option (Mode K) :=
  buildModes D.Su.nDof D.fix D.aug D.mask D.presMass D.constrained

/-- Pressure rows of the cell loop: `pressure.submit_value(-divergence, q)`, navier_stokes_matrix.cc:845, 890-895. -/
def Disc.rows (D : Disc K) (u : ℕ → K) : ℕ → K :=
  D.C.scatter D.Su.nDof (D.Su.test (fun c q => -D.div u c q) fun _ _ _ => 0)

/-- Pressure block of `NavierStokesMatrix::vmult`, navier_stokes_matrix.cc:222-263; `velocityRows` is an oracle for the velocity
block. -/
def Disc.product (D : Disc K) (velocityRows : (ℕ → K) × (ℕ → K) → ℕ → K) (cu : List ℕ) (x : (ℕ → K) × (ℕ → K)) : ℕ → K :=
  (coupledVmult D.lin D.phys D.Su.nDof D.modes (fun s => (velocityRows s, D.rows s.1)) cu D.constrained x).2

/-- Pressure block of `compute_residual`, source/navier_stokes.cc:781-787: `system_rhs = const_rhs`, the cell loop adds,
`sadd(-1, 1, user_rhs)` (navier_stokes_matrix.cc:292), projection. -/
def Disc.rhs (D : Disc K) (constRhs userRhs : ℕ → K) (u : ℕ → K) : ℕ → K :=
  let s := fun k => constRhs k + D.rows u k
  let s := fun k => -1 * s k + 1 * userRhs k
  projectAverage D.lin D.phys D.Su.nDof D.modes s

/-! ## Specification -/

namespace Spec

/-- The integral of the divergence: by the divergence theorem, the net flux of the velocity out of the domain. -/
def netFlux (D : Disc K) (u : ℕ → K) : K := D.Su.integral (D.div u)

/-- The divergence of `u`, tested with pressure test function `k` (with hanging nodes resolved). -/
def tested (D : Disc K) (u : ℕ → K) (k : ℕ) : K := D.C.scatter D.Su.nDof (D.Su.test (D.div u) fun _ _ _ => 0) k

/-- Test function `k` exists and is not constrained. -/
def Free (D : Disc K) (k : ℕ) : Prop := k < D.Su.nDof ∧ D.C.row k = none

instance (D : Disc K) (k : ℕ) : Decidable (Free D k) :=
  decidable_of_iff (k < D.Su.nDof ∧ (D.C.row k).isNone) (by simp [Free])

/-- Number of unconstrained functions of a kind. -/
def count (D : Disc K) (m : ℕ) : ℕ := ((range D.Su.nDof).filter fun k => Free D k ∧ D.mask m k = true).card

/-- The functions of one kind sum to one in all points of a formula. -/
def SumsToOne (S : Space K) (mask : ℕ → Bool) : Prop :=
  ∀ c < S.nCell, ∀ q < S.nQ, (∑ i ∈ range S.nDof, if mask i then S.val i c q else 0) = 1

/-- Hanging nodes interpolate from functions of the same kind with weights that sum to one. -/
def Interpolates (C : Constr K) (n : ℕ) (mask : ℕ → Bool) : Prop :=
  ∀ i c, C.row i = some c → (∑ k ∈ range n, if mask k then c k else 0) = if mask i then 1 else 0

/-- What deal.II provides: both formulas belong to the same functions, every function belongs to one kind at most, functions of
each kind in use sum to one, constraints are hanging nodes, and the divergence is linear. -/
structure Valid (D : Disc K) : Prop where
  same : D.Sp.nDof = D.Su.nDof
  closed : D.C.Closed
  disjoint : ∀ i, ¬ (D.mask 0 i = true ∧ D.mask 1 i = true)
  one0 : SumsToOne D.Su (D.mask 0) ∧ SumsToOne D.Sp (D.mask 0)
  one1 : D.aug = true → SumsToOne D.Su (D.mask 1) ∧ SumsToOne D.Sp (D.mask 1)
  hang0 : Interpolates D.C D.Su.nDof (D.mask 0)
  hang1 : D.aug = true → Interpolates D.C D.Su.nDof (D.mask 1)
  volume : D.Sp.integral (fun _ _ => 1) ≠ 0
  some0 : count D 0 ≠ 0
  some1 : D.aug = true → count D 1 ≠ 0
  linear : ∀ u v c q, D.div (fun i => u i + v i) c q = D.div u c q + D.div v c q

end Spec

/-! ## Proofs -/

theorem test_masked (S : Space K) (mask : ℕ → Bool) (h : Spec.SumsToOne S mask) (s : ℕ → ℕ → K) :
    (∑ i ∈ range S.nDof, if mask i then S.test s (fun _ _ _ => 0) i else 0) = S.integral s := by
  have h1 := S.test_pair s (fun _ _ _ => 0) (fun i => if mask i then 1 else 0)
  have h2 : ∀ i, (if mask i then (1 : K) else 0) * S.test s (fun _ _ _ => 0) i =
      if mask i then S.test s (fun _ _ _ => 0) i else 0 := by
    intro i
    split <;> simp
  rw [sum_congr rfl fun i _ => (h2 i).symm, h1]
  apply S.integral_congr
  intro c hc q hq
  have h3 : S.value (fun i => if mask i then 1 else 0) c q = 1 := by
    refine Eq.trans (sum_congr rfl ?_) (h c hc q hq)
    intro i _
    by_cases hm : mask i <;> simp [hm]
  rw [h3]
  simp

theorem scatter_masked (C : Constr K) (hC : C.Closed) (n : ℕ) (mask : ℕ → Bool) (h : Spec.Interpolates C n mask)
    (L : ℕ → K) :
    (∑ k ∈ range n, if mask k then C.scatter n L k else 0) = ∑ i ∈ range n, if mask i then L i else 0 := by
  have h1 := C.pairing hC n (fun i => if mask i then 1 else 0) L
  have e : ∀ (f : ℕ → K) (i : ℕ), (if mask i then f i else 0) = (if mask i then (1 : K) else 0) * f i := by
    intro f i
    split <;> simp
  rw [sum_congr rfl fun k _ => e (C.scatter n L) k, h1]
  apply sum_congr rfl
  intro i _
  rw [e L i]
  congr 1
  unfold Constr.dist
  split
  · rfl
  · rename_i c hc
    refine Eq.trans (sum_congr rfl ?_) (h i c hc)
    intro k _
    by_cases hm : mask k <;> simp [hm]

/-- Sum of the assembled rows of one kind. -/
theorem assembled_masked (S : Space K) (C : Constr K) (hC : C.Closed) (mask : ℕ → Bool) (h1 : Spec.SumsToOne S mask)
    (h2 : Spec.Interpolates C S.nDof mask) (s : ℕ → ℕ → K) :
    (∑ k ∈ range S.nDof, if mask k then C.scatter S.nDof (S.test s fun _ _ _ => 0) k else 0) = S.integral s := by
  rw [scatter_masked C hC _ _ h2, test_masked S mask h1]

theorem mem_constrained (D : Disc K) (k : ℕ) : k ∈ D.constrained ↔ k < D.Su.nDof ∧ (D.C.row k).isSome := by
  simp [Disc.constrained]

theorem modeMass_eq (D : Disc K) (hs : D.Sp.nDof = D.Su.nDof) (hC : D.C.Closed) (mask : ℕ → Bool)
    (h1 : Spec.SumsToOne D.Sp mask) (h2 : Spec.Interpolates D.C D.Su.nDof mask) :
    modeMass D.Su.nDof mask D.presMass D.constrained = D.Sp.integral fun _ _ => 1 := by
  have h2' : Spec.Interpolates D.C D.Sp.nDof mask := by rw [hs]; exact h2
  rw [← assembled_masked D.Sp D.C hC mask h1 h2' (fun _ _ => 1), hs]
  unfold modeMass Disc.presMass
  apply sum_congr rfl
  intro k hk
  rw [hs]
  by_cases hc : k ∈ D.constrained
  · rw [if_neg (by tauto), D.C.scatter_con _ _ ((mem_constrained D k).1 hc).2]
    simp
  · simp [hc]

theorem rows_eq (D : Disc K) (u : ℕ → K) (k : ℕ) : D.rows u k = -Spec.tested D u k := by
  unfold Disc.rows Spec.tested
  rw [← Constr.scatter_neg]
  congr 1
  funext i
  have := D.Su.test_neg (D.div u) (fun _ _ _ => 0) i
  simpa using this

theorem tested_add (D : Disc K) (hl : ∀ u v c q, D.div (fun i => u i + v i) c q = D.div u c q + D.div v c q)
    (u v : ℕ → K) (k : ℕ) :
    Spec.tested D (fun i => u i + v i) k = Spec.tested D u k + Spec.tested D v k := by
  unfold Spec.tested
  rw [← Constr.scatter_add]
  congr 1
  funext i
  rw [← Space.test_add]
  apply Space.test_congr
  · exact fun c q => hl u v c q
  · simp

/-- the indicator of the free functions of a kind -/
def ind (D : Disc K) (m k : ℕ) : K := if k ∉ D.constrained ∧ D.mask m k then 1 else 0

theorem ind_sum (D : Disc K) (m : ℕ) : ∑ k ∈ range D.Su.nDof, (if D.mask m k then ind D m k else 0) = (Spec.count D m : K) := by
  unfold Spec.count
  rw [card_filter]
  push_cast
  apply sum_congr rfl
  intro k hk
  have : Spec.Free D k ↔ k ∉ D.constrained := by
    rw [mem_constrained]
    unfold Spec.Free
    simp only [mem_range] at hk
    cases h : D.C.row k <;> simp [hk]
  unfold ind
  simp only [this]
  by_cases h1 : D.mask m k <;> by_cases h2 : k ∈ D.constrained <;> simp [h1, h2]

theorem ind_other (D : Disc K) (hd : ∀ i, ¬ (D.mask 0 i = true ∧ D.mask 1 i = true)) :
    (∑ k ∈ range D.Su.nDof, (if D.mask 0 k then ind D 1 k else 0) = 0) ∧
    (∑ k ∈ range D.Su.nDof, (if D.mask 1 k then ind D 0 k else 0) = 0) := by
  constructor <;> apply sum_eq_zero <;> intro k _ <;> unfold ind <;> have := hd k <;>
    by_cases h0 : D.mask 0 k <;> by_cases h1 : D.mask 1 k <;> simp_all

theorem tested_sum (D : Disc K) (hC : D.C.Closed) (m : ℕ) (h1 : Spec.SumsToOne D.Su (D.mask m))
    (h2 : Spec.Interpolates D.C D.Su.nDof (D.mask m)) (u : ℕ → K) :
    (∑ k ∈ range D.Su.nDof, if D.mask m k then Spec.tested D u k else 0) = Spec.netFlux D u :=
  assembled_masked D.Su D.C hC (D.mask m) h1 h2 (D.div u)

theorem tested_con (D : Disc K) (u : ℕ → K) {k : ℕ} (h : (D.C.row k).isSome) : Spec.tested D u k = 0 :=
  D.C.scatter_con _ _ h

theorem ind_con (D : Disc K) (m : ℕ) {k : ℕ} (h : k ∈ D.constrained) : ind D m k = 0 := by
  unfold ind
  rw [if_neg (by tauto)]

theorem weightedSum_ind (D : Disc K) (m : ℕ) :
    weightedSum D.Su.nDof (D.mask m) D.presMass (ind D m) = modeMass D.Su.nDof (D.mask m) D.presMass D.constrained := by
  unfold weightedSum modeMass ind
  apply sum_congr rfl
  intro k _
  by_cases h1 : D.mask m k <;> by_cases h2 : k ∈ D.constrained <;> simp [h1, h2]

theorem weightedSum_ind_other (D : Disc K) (hd : ∀ i, ¬ (D.mask 0 i = true ∧ D.mask 1 i = true)) :
    weightedSum D.Su.nDof (D.mask 0) D.presMass (ind D 1) = 0 ∧
    weightedSum D.Su.nDof (D.mask 1) D.presMass (ind D 0) = 0 := by
  constructor <;> apply sum_eq_zero <;> intro k _ <;> unfold ind <;> have := hd k <;>
    by_cases h0 : D.mask 0 k <;> by_cases h1 : D.mask 1 k <;> simp_all

theorem weightedSum_comb (n : ℕ) (mask : ℕ → Bool) (mass f g r : ℕ → K) (a b : K)
    (h : ∀ k < n, r k = a * f k + b * g k) :
    weightedSum n mask mass r = a * weightedSum n mask mass f + b * weightedSum n mask mass g := by
  unfold weightedSum
  rw [mul_sum, mul_sum, ← sum_add_distrib]
  apply sum_congr rfl
  intro k hk
  rw [h k (mem_range.1 hk)]
  split <;> ring

theorem masked_comb (n : ℕ) (mask : ℕ → Bool) (f g r : ℕ → K) (a b : K)
    (h : ∀ k < n, r k = a * f k + b * g k) :
    (∑ k ∈ range n, if mask k then r k else 0) =
      a * (∑ k ∈ range n, if mask k then f k else 0) + b * ∑ k ∈ range n, if mask k then g k else 0 := by
  rw [mul_sum, mul_sum, ← sum_add_distrib]
  apply sum_congr rfl
  intro k hk
  rw [h k (mem_range.1 hk)]
  split <;> ring

/-- The difference of both sides of the pressure equations before the projection. -/
def defect (D : Disc K) (dp du U : ℕ → K) : ℕ → K :=
  fun k => -1 * (-1 * (0 + D.rows U k) + 1 * 0) + setConstrained (-1) D.constrained dp (D.rows du) k

theorem equations_iff (D : Disc K) (vr : (ℕ → K) × (ℕ → K) → ℕ → K) (cu : List ℕ) (U du dp : ℕ → K) (k : ℕ) :
    D.product vr cu (du, dp) k = D.rhs (fun _ => 0) (fun _ => 0) U k ↔
      projectAverage D.lin D.phys D.Su.nDof D.modes (defect D dp du U) k = 0 := by
  have h := congrFun (C28_linear D.lin D.phys D.Su.nDof D.modes (-1) (fun k => -1 * (0 + D.rows U k) + 1 * 0)
    (setConstrained (-1) D.constrained dp (D.rows du))) k
  have h' : projectAverage D.lin D.phys D.Su.nDof D.modes (defect D dp du U) k =
      -1 * D.rhs (fun _ => 0) (fun _ => 0) U k + D.product vr cu (du, dp) k := h
  rw [h']
  constructor
  · intro e; rw [e]; ring
  · intro e; linear_combination e

theorem defect_con (D : Disc K) (dp du U : ℕ → K) {k : ℕ} (h : k ∈ D.constrained) : defect D dp du U k = -dp k := by
  unfold defect
  rw [setConstrained_mem _ _ _ _ _ h, rows_eq, tested_con D U ((mem_constrained D k).1 h).2]
  ring

theorem defect_free (D : Disc K) (hl : ∀ u v c q, D.div (fun i => u i + v i) c q = D.div u c q + D.div v c q)
    (dp du U : ℕ → K) {k : ℕ} (h : k ∉ D.constrained) :
    defect D dp du U k = -Spec.tested D (fun i => U i + du i) k := by
  unfold defect
  rw [setConstrained_not _ _ _ _ _ h, rows_eq, rows_eq, tested_add D hl]
  ring

theorem free_iff (D : Disc K) (k : ℕ) (hk : k < D.Su.nDof) : Spec.Free D k ↔ k ∉ D.constrained := by
  rw [mem_constrained]
  unfold Spec.Free
  cases h : D.C.row k <;> simp [hk]

/-- The defect is a combination of the modes, with known factors. -/
theorem defect_modes [CharZero K] (D : Disc K) (hv : Spec.Valid D)
    (hact : D.lin ≠ .projection ∧ D.phys ≠ .incompressibleStationary)
    (U du dp : ℕ → K) (hdu : D.fix = true → Spec.netFlux D du = 0) :
    (∀ k < D.Su.nDof, projectAverage D.lin D.phys D.Su.nDof D.modes (defect D dp du U) k = 0) ↔
      ∀ k < D.Su.nDof, defect D dp du U k =
        (if D.fix then -(Spec.netFlux D U / Spec.count D 0) else 0) * ind D 0 k +
        (if D.fix ∧ D.aug then -(Spec.netFlux D U / Spec.count D 1) else 0) * ind D 1 k := by
  obtain ⟨⟨a, b, ha, hb, -, hr⟩, -⟩ := C28_changes_only_modes D.lin D.phys D.Su.nDof D.fix D.aug D.mask D.presMass
    D.constrained (defect D dp du U)
  have hr' : ∀ k, projectAverage D.lin D.phys D.Su.nDof D.modes (defect D dp du U) k =
      defect D dp du U k - a * ind D 0 k - b * ind D 1 k := hr
  have m0 : modeMass D.Su.nDof (D.mask 0) D.presMass D.constrained ≠ 0 := by
    rw [modeMass_eq D hv.same hv.closed _ hv.one0.2 hv.hang0]; exact hv.volume
  have m1 : D.aug = true → modeMass D.Su.nDof (D.mask 1) D.presMass D.constrained ≠ 0 := by
    intro h
    rw [modeMass_eq D hv.same hv.closed _ (hv.one1 h).2 (hv.hang1 h)]; exact hv.volume
  obtain ⟨z0, z1⟩ := C28_zero_mean D.lin D.phys D.Su.nDof D.fix D.aug D.mask D.presMass D.constrained (defect D dp du U) hact
    (fun _ => m0) m1 (fun _ _ => hv.disjoint)
  have n0 : (Spec.count D 0 : K) ≠ 0 := Nat.cast_ne_zero.2 hv.some0
  constructor
  · intro h k hk
    have e : ∀ k < D.Su.nDof, defect D dp du U k = a * ind D 0 k + b * ind D 1 k := by
      intro k hk
      have := hr' k
      rw [h k hk] at this
      linear_combination -this
    -- sums over the functions of one kind
    have t : ∀ k < D.Su.nDof, defect D dp du U k = -1 * Spec.tested D (fun i => U i + du i) k + 0 * 0 := by
      intro k hk
      by_cases hc : k ∈ D.constrained
      · rw [e k hk, ind_con D 0 hc, ind_con D 1 hc, tested_con D _ ((mem_constrained D k).1 hc).2]; ring
      · rw [defect_free D hv.linear dp du U hc]; ring
    have fl : Spec.netFlux D (fun i => U i + du i) = Spec.netFlux D U + Spec.netFlux D du := by
      unfold Spec.netFlux
      rw [← Space.integral_add]
      exact D.Su.integral_congr fun c _ q _ => hv.linear U du c q
    have s0 : -1 * Spec.netFlux D (fun i => U i + du i) = a * Spec.count D 0 := by
      have h1 := masked_comb D.Su.nDof (D.mask 0) _ _ _ a b e
      have h2 := masked_comb D.Su.nDof (D.mask 0) (Spec.tested D fun i => U i + du i) (fun _ => 0) (defect D dp du U) (-1) 0 t
      rw [h2, tested_sum D hv.closed 0 hv.one0.1 hv.hang0, ind_sum, (ind_other D hv.disjoint).1] at h1
      linear_combination h1
    have s1 : D.aug = true → -1 * Spec.netFlux D (fun i => U i + du i) = b * Spec.count D 1 := by
      intro hg
      have h1 := masked_comb D.Su.nDof (D.mask 1) _ _ _ a b e
      have h2 := masked_comb D.Su.nDof (D.mask 1) (Spec.tested D fun i => U i + du i) (fun _ => 0) (defect D dp du U) (-1) 0 t
      rw [h2, tested_sum D hv.closed 1 (hv.one1 hg).1 (hv.hang1 hg), ind_sum, (ind_other D hv.disjoint).2] at h1
      linear_combination h1
    rw [e k hk]
    congr 2
    · cases hf : D.fix
      · simpa using ha hf
      · rw [fl, hdu hf] at s0
        rw [if_pos rfl, ← neg_div, eq_div_iff n0]
        linear_combination -s0
    · cases hg : D.aug
      · rw [if_neg (by simp)]
        exact hb hg
      · have n1 : (Spec.count D 1 : K) ≠ 0 := Nat.cast_ne_zero.2 (hv.some1 hg)
        have := s1 hg
        cases hf : D.fix
        · rw [if_neg (by simp)]
          rw [s0, ha hf, zero_mul] at this
          exact (mul_eq_zero.1 this.symm).resolve_right n1
        · rw [fl, hdu hf] at this
          rw [if_pos ⟨rfl, rfl⟩, ← neg_div, eq_div_iff n1]
          linear_combination -this
  · intro h k hk
    rw [hr', h k hk]
    have r : ∀ k < D.Su.nDof, projectAverage D.lin D.phys D.Su.nDof D.modes (defect D dp du U) k =
        ((if D.fix then -(Spec.netFlux D U / Spec.count D 0) else 0) - a) * ind D 0 k +
        ((if D.fix ∧ D.aug then -(Spec.netFlux D U / Spec.count D 1) else 0) - b) * ind D 1 k := by
      intro k hk
      rw [hr', h k hk]; ring
    have w0 := weightedSum_comb D.Su.nDof (D.mask 0) D.presMass _ _ _ _ _ r
    have w1 := weightedSum_comb D.Su.nDof (D.mask 1) D.presMass _ _ _ _ _ r
    rw [weightedSum_ind, (weightedSum_ind_other D hv.disjoint).1, mul_zero, add_zero] at w0
    rw [weightedSum_ind, (weightedSum_ind_other D hv.disjoint).2, mul_zero, zero_add] at w1
    have ea : (if D.fix then -(Spec.netFlux D U / Spec.count D 0) else 0) - a = 0 := by
      by_cases hf : D.fix = true
      · have := z0 hf
        change weightedSum D.Su.nDof (D.mask 0) D.presMass
          (projectAverage D.lin D.phys D.Su.nDof D.modes (defect D dp du U)) = 0 at this
        rw [w0] at this
        exact (mul_eq_zero.1 this).resolve_right m0
      · have hf' := Bool.eq_false_iff.2 hf
        simp [hf', ha hf']
    have eb : (if D.fix ∧ D.aug then -(Spec.netFlux D U / Spec.count D 1) else 0) - b = 0 := by
      by_cases hf : D.aug = true
      · have := z1 hf
        change weightedSum D.Su.nDof (D.mask 1) D.presMass
          (projectAverage D.lin D.phys D.Su.nDof D.modes (defect D dp du U)) = 0 at this
        rw [w1] at this
        exact (mul_eq_zero.1 this).resolve_right (m1 hf)
      · have hf' := Bool.eq_false_iff.2 hf
        simp [hf', hb hf']
    linear_combination ind D 0 k * ea + ind D 1 k * eb

/-! ## C114 -/

/-- **C114 (what the projected equations say).** For every velocity `U` and every update `(du, dp)` - whose velocity has no net flux
through the boundary if the pressure level is fixed - the pressure rows of the linear system the solver works on hold if and only
if the update of constrained pressures is zero and the divergence of the new velocity, tested with any unconstrained pressure
function, is zero up to an equal share of the net flux of `U` for every continuous function (and every cellwise constant) if the
pressure level is fixed. -/
theorem C114_projected_equations [CharZero K] (D : Disc K) (hv : Spec.Valid D)
    (hact : D.lin ≠ .projection ∧ D.phys ≠ .incompressibleStationary)
    (velocityRows : (ℕ → K) × (ℕ → K) → ℕ → K) (cu : List ℕ) (U du dp : ℕ → K)
    (hdu : D.fix = true → Spec.netFlux D du = 0) :
    (∀ k < D.Su.nDof, D.product velocityRows cu (du, dp) k = D.rhs (fun _ => 0) (fun _ => 0) U k) ↔
      (∀ k < D.Su.nDof, (D.C.row k).isSome → dp k = 0) ∧
      ∀ k, Spec.Free D k → Spec.tested D (fun i => U i + du i) k =
        (if D.fix = true ∧ D.mask 0 k = true then Spec.netFlux D U / Spec.count D 0 else 0) +
        (if D.fix = true ∧ D.aug = true ∧ D.mask 1 k = true then Spec.netFlux D U / Spec.count D 1 else 0) := by
  rw [forall_congr' fun k => forall_congr' fun _ => equations_iff D velocityRows cu U du dp k,
    defect_modes D hv hact U du dp hdu]
  have hi : ∀ m k, Spec.Free D k → ind D m k = if D.mask m k then 1 else 0 := by
    intro m k hk
    unfold ind
    have := (free_iff D k hk.1).1 hk
    simp [this]
  have hs : ∀ k, Spec.Free D k →
      (if D.fix = true ∧ D.mask 0 k = true then Spec.netFlux D U / Spec.count D 0 else 0) +
        (if D.fix = true ∧ D.aug = true ∧ D.mask 1 k = true then Spec.netFlux D U / Spec.count D 1 else 0) =
      -((if D.fix then -(Spec.netFlux D U / Spec.count D 0) else 0) * ind D 0 k +
        (if D.fix ∧ D.aug then -(Spec.netFlux D U / Spec.count D 1) else 0) * ind D 1 k) := by
    intro k hk
    rw [hi 0 k hk, hi 1 k hk]
    cases D.fix <;> cases D.aug <;> cases D.mask 0 k <;> cases D.mask 1 k <;> simp [add_comm]
  constructor
  · intro h
    constructor
    · intro k hk hc
      have hm := (mem_constrained D k).2 ⟨hk, hc⟩
      have := h k hk
      rw [defect_con D dp du U hm, ind_con D 0 hm, ind_con D 1 hm] at this
      linear_combination -this
    · intro k hk
      rw [hs k hk, ← h k hk.1, defect_free D hv.linear dp du U ((free_iff D k hk.1).1 hk)]
      ring
  · rintro ⟨h1, h2⟩ k hk
    by_cases hc : k ∈ D.constrained
    · rw [defect_con D dp du U hc, ind_con D 0 hc, ind_con D 1 hc, h1 k hk ((mem_constrained D k).1 hc).2]
      ring
    · have hf := (free_iff D k hk).2 hc
      rw [defect_free D hv.linear dp du U hc, h2 k hf, hs k hf]
      ring

/-- **C114 (compatible data).** If the pressure level is not fixed, or the boundary data have no net flux, the projected equations
hold if and only if the new velocity is discretely free of divergence (and constrained pressures are not updated): the
projection neither adds nor removes solutions. -/
theorem C114_same_solutions [CharZero K] (D : Disc K) (hv : Spec.Valid D)
    (hact : D.lin ≠ .projection ∧ D.phys ≠ .incompressibleStationary)
    (velocityRows : (ℕ → K) × (ℕ → K) → ℕ → K) (cu : List ℕ) (U du dp : ℕ → K)
    (hdu : D.fix = true → Spec.netFlux D du = 0 ∧ Spec.netFlux D U = 0) :
    (∀ k < D.Su.nDof, D.product velocityRows cu (du, dp) k = D.rhs (fun _ => 0) (fun _ => 0) U k) ↔
      (∀ k < D.Su.nDof, (D.C.row k).isSome → dp k = 0) ∧
      ∀ k, Spec.Free D k → Spec.tested D (fun i => U i + du i) k = 0 := by
  rw [C114_projected_equations D hv hact velocityRows cu U du dp fun h => (hdu h).1]
  have : ∀ k, (if D.fix = true ∧ D.mask 0 k = true then Spec.netFlux D U / Spec.count D 0 else 0) +
        (if D.fix = true ∧ D.aug = true ∧ D.mask 1 k = true then Spec.netFlux D U / Spec.count D 1 else 0) = (0 : K) := by
    intro k
    cases hf : D.fix
    · simp
    · rw [(hdu hf).2]; simp
  simp only [this]

theorem product_zero (D : Disc K) (hl : ∀ u v c q, D.div (fun i => u i + v i) c q = D.div u c q + D.div v c q)
    (vr : (ℕ → K) × (ℕ → K) → ℕ → K) (cu : List ℕ) (k : ℕ) : D.product vr cu (fun _ => 0, fun _ => 0) k = 0 := by
  have t0 : ∀ k, D.rows (fun _ => 0) k = 0 := by
    intro k
    have := tested_add D hl (fun _ => 0) (fun _ => 0) k
    simp only [add_zero] at this
    rw [rows_eq]
    linear_combination this
  have e : setConstrained (-1) D.constrained (fun _ => (0 : K)) (D.rows fun _ => 0) = fun _ => -1 * 0 + 0 := by
    funext i
    by_cases h : i ∈ D.constrained
    · rw [setConstrained_mem _ _ _ _ _ h]; ring
    · rw [setConstrained_not _ _ _ _ _ h, t0]; ring
  change projectAverage D.lin D.phys D.Su.nDof D.modes (setConstrained (-1) D.constrained _ _) k = 0
  rw [e, C28_linear]
  ring

/-- **C114 (residual zero).** The pressure part of the residual the solver reports for a velocity `U` is zero exactly if its divergence,
tested with any unconstrained pressure function, is zero up to an equal share of its net flux: the convergence test does not see
a net flux if the pressure level is fixed, and sees everything otherwise. -/
theorem C114_zero_residual [CharZero K] (D : Disc K) (hv : Spec.Valid D)
    (hact : D.lin ≠ .projection ∧ D.phys ≠ .incompressibleStationary) (U : ℕ → K) :
    (∀ k < D.Su.nDof, D.rhs (fun _ => 0) (fun _ => 0) U k = 0) ↔
      ∀ k, Spec.Free D k → Spec.tested D U k =
        (if D.fix = true ∧ D.mask 0 k = true then Spec.netFlux D U / Spec.count D 0 else 0) +
        (if D.fix = true ∧ D.aug = true ∧ D.mask 1 k = true then Spec.netFlux D U / Spec.count D 1 else 0) := by
  have z : Spec.netFlux D (fun _ => 0) = 0 := by
    have := D.Su.integral_add (D.div fun _ => 0) (D.div fun _ => 0)
    have h2 : (fun c q => D.div (fun _ => 0) c q + D.div (fun _ => 0) c q) = D.div fun _ => 0 := by
      funext c q
      have := hv.linear (fun _ => 0) (fun _ => 0) c q
      simp only [add_zero] at this
      exact this.symm
    rw [h2] at this
    unfold Spec.netFlux
    linear_combination -this
  have h := C114_projected_equations D hv hact (fun _ _ => 0) [] U (fun _ => 0) (fun _ => 0) fun _ => z
  simp only [product_zero D hv.linear, add_zero, implies_true, true_and] at h
  rw [← h]
  constructor <;> intro h k hk <;> exact (h k hk).symm

/-- **C114 (incompatible data).** A discretely divergence-free velocity has no net flux: with boundary data of nonzero net flux (that
updates do not change) the continuity equation has no solution at all, in all formulations - while the projected equations may
hold, see the example. -/
theorem C114_no_solution_without_balance (D : Disc K) (hv : Spec.Valid D) (u : ℕ → K)
    (h : ∀ k, Spec.Free D k → Spec.tested D u k = 0) : Spec.netFlux D u = 0 := by
  rw [← tested_sum D hv.closed 0 hv.one0.1 hv.hang0]
  apply sum_eq_zero
  intro k hk
  split
  · by_cases hc : k ∈ D.constrained
    · exact tested_con D u ((mem_constrained D k).1 hc).2
    · exact h k ((free_iff D k (mem_range.1 hk)).2 hc)
  · rfl

/-- Flux of the velocity out of cell `c` (by the divergence theorem): the integral of the divergence over the cell. -/
def Spec.cellFlux (D : Disc K) (u : ℕ → K) (c : ℕ) : K := ∑ q ∈ range D.Su.nQ, D.div u c q * D.Su.jxw c q

/-- Function `k` is the constant of cell `c`: one there, zero in all other cells, and no hanging node depends on it. -/
structure Spec.CellConstant (D : Disc K) (k c : ℕ) : Prop where
  free : Spec.Free D k
  kind : D.mask 1 k = true
  cell : c < D.Su.nCell
  val : ∀ c' q, D.Su.val k c' q = if c' = c then 1 else 0
  alone : ∀ i r, D.C.row i = some r → r k = 0

theorem tested_cell (D : Disc K) (k c : ℕ) (h : Spec.CellConstant D k c) (u : ℕ → K) :
    Spec.tested D u k = Spec.cellFlux D u c := by
  unfold Spec.tested Constr.scatter
  rw [if_neg (by rw [h.free.2]; simp)]
  rw [sum_eq_zero (fun i _ => ?_), add_zero]
  swap
  · cases hr : D.C.row i with
    | none => rfl
    | some r => simp only [h.alone i r hr, zero_mul]
  unfold Space.test Space.integral Spec.cellFlux
  rw [Finset.sum_eq_single c]
  · refine sum_congr rfl fun q _ => ?_
    dsimp only
    rw [h.val, if_pos rfl]
    simp
  · intro c' _ hc
    refine sum_eq_zero fun q _ => ?_
    dsimp only
    rw [h.val, if_neg hc]
    simp
  · intro hc
    exact absurd (mem_range.2 h.cell) hc

/-- **C114 (mass is conserved in every cell).** With augmented Taylor-Hood elements, the velocity after an update that solves the
projected equations has no net flux out of any cell that owns a constant pressure function - up to an equal share of the net
flux of the boundary data if the pressure level is fixed, so exactly if the boundary data are balanced. -/
theorem C114_cellwise_mass [CharZero K] (D : Disc K) (hv : Spec.Valid D)
    (hact : D.lin ≠ .projection ∧ D.phys ≠ .incompressibleStationary)
    (velocityRows : (ℕ → K) × (ℕ → K) → ℕ → K) (cu : List ℕ) (U du dp : ℕ → K) (haug : D.aug = true)
    (hdu : D.fix = true → Spec.netFlux D du = 0)
    (hsolve : ∀ k < D.Su.nDof, D.product velocityRows cu (du, dp) k = D.rhs (fun _ => 0) (fun _ => 0) U k)
    (k c : ℕ) (hk : Spec.CellConstant D k c) :
    Spec.cellFlux D (fun i => U i + du i) c = if D.fix = true then Spec.netFlux D U / Spec.count D 1 else 0 := by
  have h := ((C114_projected_equations D hv hact velocityRows cu U du dp hdu).1 hsolve).2 k hk.free
  rw [tested_cell D k c hk] at h
  have h0 : ¬ D.mask 0 k = true := fun h0 => hv.disjoint k ⟨h0, hk.kind⟩
  rw [if_neg (fun hh => h0 hh.2), zero_add] at h
  rw [h]
  by_cases hf : D.fix = true
  · rw [if_pos ⟨hf, haug, hk.kind⟩, if_pos hf]
  · rw [if_neg (fun hh => hf hh.1), if_neg hf]

/-! ## Example -/

/-- Two cells with one point each; three continuous functions and a hanging node between the first and the last one, two cellwise
constants. The coefficients of the velocity are its divergences. -/
def exSpace : Space ℚ :=
  { dim := 1, nDof := 6, nCell := 2, nQ := 1
    val := fun i c _ => match i, c with
      | 0, 0 => 1 / 3 | 1, _ => 1 / 3 | 2, 1 => 1 / 3 | 3, _ => 1 / 3 | 4, 0 => 1 | 5, 1 => 1 | _, _ => 0
    grad := fun _ _ _ _ => 0
    jxw := fun _ _ => 1 }

/-- Constraint of the example. -/
def exConstr : Constr ℚ := ⟨fun i => if i = 3 then some fun k => if k = 0 ∨ k = 2 then 1 / 2 else 0 else none⟩

/-- The example. -/
def exDisc (fix : Bool) : Disc ℚ :=
  { lin := .coupledImplicitNewton, phys := .incompressible, fix, aug := true, Su := exSpace, Sp := exSpace, C := exConstr
    mask := fun m i => if m = 0 then i < 4 else 4 ≤ i ∧ i < 6
    div := fun u c _ => u c }

theorem exOne (m : ℕ) (hm : m = 0 ∨ m = 1) : Spec.SumsToOne exSpace ((exDisc true).mask m) := by
  intro c hc q _
  change c < 2 at hc
  have : c = 0 ∨ c = 1 := by omega
  rcases hm with rfl | rfl <;> rcases this with rfl | rfl <;>
    norm_num [exSpace, exDisc, sum_range_succ]

theorem exHang (m : ℕ) (hm : m = 0 ∨ m = 1) : Spec.Interpolates exConstr 6 ((exDisc true).mask m) := by
  intro i c h
  unfold exConstr at h
  simp only at h
  split at h
  · rename_i hi
    subst hi
    cases h
    rcases hm with rfl | rfl <;> norm_num [exDisc, sum_range_succ]
  · cases h

/-- The hypotheses of the theorems can be met, with and without a fixed pressure level. -/
theorem exValid (fix : Bool) : Spec.Valid (exDisc fix) where
  same := rfl
  closed := by
    intro i c h k hk
    change (exConstr.row k).isSome at hk
    change exConstr.row i = some c at h
    unfold exConstr at h hk
    simp only at h hk
    split at h
    · cases h
      split at hk
      · rename_i h3; subst h3; simp
      · simp at hk
    · cases h
  disjoint := by
    rintro i ⟨h0, h1⟩
    simp [exDisc] at h0 h1
    omega
  one0 := ⟨exOne 0 (by simp), exOne 0 (by simp)⟩
  one1 := fun _ => ⟨exOne 1 (by simp), exOne 1 (by simp)⟩
  hang0 := exHang 0 (by simp)
  hang1 := fun _ => exHang 1 (by simp)
  volume := by norm_num [exDisc, exSpace, Space.integral, sum_range_succ]
  some0 := by cases fix <;> decide +kernel
  some1 := fun _ => by cases fix <;> decide +kernel
  linear := fun _ _ _ _ => rfl

/-- Incompatible data: divergence one in both cells, hence net flux two. With a fixed pressure level the residual is zero - the
nonlinear iteration reports convergence - while without it the equations do not hold and the velocity is not divergence-free. -/
example : Spec.netFlux (exDisc true) (fun _ => 1) = 2 ∧ Spec.tested (exDisc true) (fun _ => 1) 1 = 2 / 3 ∧
    (∀ k < 6, (exDisc true).rhs (fun _ => 0) (fun _ => 0) (fun _ => 1) k = 0) ∧
    (exDisc false).rhs (fun _ => 0) (fun _ => 0) (fun _ => 1) 1 = 2 / 3 := by
  decide +kernel

/-- Compatible data: `U` has divergence 1 and -1, and the update that removes it solves the projected equations. -/
example : let U : ℕ → ℚ := fun i => if i = 0 then 1 else -1
    let du : ℕ → ℚ := fun i => if i = 0 then -1 else 1
    Spec.netFlux (exDisc true) U = 0 ∧ Spec.netFlux (exDisc true) du = 0 ∧
    (exDisc true).rhs (fun _ => 0) (fun _ => 0) U 0 ≠ 0 ∧
    ∀ k < 6, (exDisc true).product (fun _ _ => 0) [] (du, fun _ => 0) k = (exDisc true).rhs (fun _ => 0) (fun _ => 0) U k := by
  decide +kernel

/-- Functions 4 and 5 of the example are the constants of the two cells. -/
theorem exCell (fix : Bool) (c : ℕ) (hc : c < 2) : Spec.CellConstant (exDisc fix) (4 + c) c where
  free := by
    constructor
    · change 4 + c < 6
      omega
    · have : 4 + c ≠ 3 := by omega
      simp [exDisc, exConstr, this]
  kind := by
    have : 4 ≤ 4 + c ∧ 4 + c < 6 := by omega
    simp [exDisc, this]
  cell := hc
  val := by
    intro c' q
    have : c = 0 ∨ c = 1 := by omega
    rcases this with rfl | rfl
    · rcases c' with _ | _ <;> rfl
    · rcases c' with _ | _ | _ <;> rfl
  alone := by
    intro i r hr
    change exConstr.row i = some r at hr
    unfold exConstr at hr
    simp only at hr
    split_ifs at hr
    injection hr with hr
    subst hr
    have h0 : ¬ (4 + c = 0 ∨ 4 + c = 2) := by omega
    exact if_neg h0

end Verif.Operator.PressureSystem
