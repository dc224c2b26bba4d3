import Verif.Parameters.Model
import Verif.Precond.ComponentIlu
import Mathlib.Algebra.BigOperators.Field
import Mathlib.Algebra.Field.Rat
import Mathlib.Algebra.Order.BigOperators.Group.Finset
import Mathlib.Algebra.Order.BigOperators.Ring.Finset
import Mathlib.Algebra.Order.Ring.Rat
import Mathlib.Tactic.Ring
import Mathlib.Tactic.Linarith
import Mathlib.Tactic.FieldSimp

/-!
# C28, C30: pressure average projection and constrained degrees of freedom
(source/navier_stokes_matrix.cc)

Vectors of length `n` are functions `ℕ → K` of which the entries below `n` matter.
-/

namespace Verif.Operator

open Verif.Parameters Verif.Precond
open Finset

variable {K : Type*} [Field K]

/-- `Vector::operator*`: the dot product. -/
def dot (n : ℕ) (a b : ℕ → K) : K := ∑ i ∈ range n, a i * b i

/-- `pressure_constant_modes[mode]`, `pressure_constant_mode_weights[mode]` and
`inverse_pressure_average_weights[mode]`. -/
structure Mode (K : Type*) where
  mode : ℕ → K
  weights : ℕ → K
  inv : K

/-- One pass of the loop in `NavierStokesMatrix::initialize`, source/navier_stokes_matrix.cc:135-163:
`mask` is `constant_modes[mode]`, `mass` is `pres_mass`, `constrained` the list of constrained
pressure dofs. -/
def buildMode (n : ℕ) (mask : ℕ → Bool) (mass : ℕ → K) (constrained : List ℕ) : Mode K :=
  let m : ℕ → K := fun i => if mask i then 1 else 0
  let w : ℕ → K := fun i => if mask i then mass i else 0
  let m := constrained.foldl (fun m i => Function.update m i 0) m
  ⟨m, w, 1 / dot n m w⟩

/-- `NavierStokesMatrix::initialize`, source/navier_stokes_matrix.cc:110-163: mode 0 exists if `pressure_average_fix`, mode 1 if
`augmented_taylor_hood`; `none` stands for vectors of size zero. -/
def buildModes (n : ℕ) (fix aug : Bool) (mask : ℕ → ℕ → Bool) (mass : ℕ → K) (constrained : List ℕ) :
    Option (Mode K) × Option (Mode K) :=
  (if fix then some (buildMode n (mask 0) mass constrained) else none,
   if aug then some (buildMode n (mask 1) mass constrained) else none)

/-- Body of the loop in `apply_pressure_average_projection`, source/navier_stokes_matrix.cc:199-205. -/
def projectMode (n : ℕ) (m : Option (Mode K)) (v : ℕ → K) : ℕ → K :=
  match m with
  | none => v
  | some m => fun i => v i + -(dot n m.weights v) * m.inv * m.mode i

/-- `apply_pressure_average_projection`, source/navier_stokes_matrix.cc:190-206. -/
def projectAverage (lin : Linearization) (phys : Physical) (n : ℕ)
    (ms : Option (Mode K) × Option (Mode K)) (v : ℕ → K) : ℕ → K :=
  if lin ≠ .projection ∧ phys ≠ .incompressibleStationary
  then projectMode n ms.2 (projectMode n ms.1 v) else v

/-- `apply_pressure_shift`, source/navier_stokes_matrix.cc:210-218. -/
def pressureShift (m : Mode K) (shift : K) (p : ℕ → K) : ℕ → K := fun i => p i + shift * m.mode i

/-! ## Specification of the modes -/

theorem buildMode_mode (n : ℕ) (mask : ℕ → Bool) (mass : ℕ → K) (constrained : List ℕ) (i : ℕ) :
    (buildMode n mask mass constrained).mode i
      = if i ∈ constrained then 0 else if mask i then 1 else 0 := by
  simp only [buildMode]
  by_cases h : i ∈ constrained
  · rw [if_pos h]
    exact foldl_update_mem constrained (fun i => i) (fun _ => 0) _ i h (fun _ _ _ => rfl)
  · rw [if_neg h]
    exact foldl_update_not constrained (fun i => i) (fun _ => 0) _ i (by rintro a ha rfl; exact h ha)

/-- The normalization: the pressure mass of the unconstrained dofs of the mode. -/
def modeMass (n : ℕ) (mask : ℕ → Bool) (mass : ℕ → K) (constrained : List ℕ) : K :=
  ∑ i ∈ range n, if i ∉ constrained ∧ mask i then mass i else 0

theorem dot_mode_weights (n : ℕ) (mask : ℕ → Bool) (mass : ℕ → K) (constrained : List ℕ) :
    dot n (buildMode n mask mass constrained).mode (buildMode n mask mass constrained).weights
      = modeMass n mask mass constrained := by
  unfold dot modeMass
  apply sum_congr rfl
  intro i _
  rw [buildMode_mode]
  by_cases h : i ∈ constrained <;> by_cases h2 : mask i <;> simp [h, h2, buildMode]

theorem buildMode_inv (n : ℕ) (mask : ℕ → Bool) (mass : ℕ → K) (constrained : List ℕ) :
    (buildMode n mask mass constrained).inv = 1 / modeMass n mask mass constrained := by
  rw [← dot_mode_weights]; rfl

theorem dot_add_smul (n : ℕ) (w v m : ℕ → K) (a : K) :
    dot n w (fun i => v i + a * m i) = dot n w v + a * dot n m w := by
  unfold dot
  rw [mul_sum, ← sum_add_distrib]
  apply sum_congr rfl; intro i _; ring

/-- Weighted mean of `v` over the dofs of a mode as the user understands it: sum of
`pressure mass * value` over the dofs of the mode. -/
def weightedSum (n : ℕ) (mask : ℕ → Bool) (mass v : ℕ → K) : K :=
  ∑ i ∈ range n, if mask i then mass i * v i else 0

theorem dot_weights (n : ℕ) (mask : ℕ → Bool) (mass : ℕ → K) (constrained : List ℕ) (v : ℕ → K) :
    dot n (buildMode n mask mass constrained).weights v = weightedSum n mask mass v := by
  unfold dot weightedSum
  apply sum_congr rfl; intro i _; simp only [buildMode]; split <;> simp

theorem projectMode_eq (n : ℕ) (mask : ℕ → Bool) (mass : ℕ → K) (constrained : List ℕ) (v : ℕ → K)
    (i : ℕ) :
    projectMode n (some (buildMode n mask mass constrained)) v i
      = v i - weightedSum n mask mass v / modeMass n mask mass constrained
          * (if i ∉ constrained ∧ mask i then 1 else 0) := by
  simp only [projectMode, dot_weights, buildMode_inv, buildMode_mode]
  by_cases h : i ∈ constrained <;> by_cases h2 : mask i <;> simp [h, h2]
  ring

theorem weightedSum_sub (n : ℕ) (mask mask' : ℕ → Bool) (mass v : ℕ → K) (constrained : List ℕ) (a : K) :
    weightedSum n mask mass (fun i => v i - a * (if i ∉ constrained ∧ mask' i then 1 else 0))
      = weightedSum n mask mass v
        - a * modeMass n (fun i => mask i && mask' i) mass constrained := by
  unfold weightedSum modeMass
  rw [mul_sum, ← sum_sub_distrib]
  apply sum_congr rfl; intro i _
  by_cases h : i ∈ constrained <;> by_cases h2 : mask i <;> by_cases h3 : mask' i <;> simp [h, h2, h3]
  ring

/-- **C28 (zero mean).** Whenever the projection is active, its result has zero weighted sum for each
existing mode, provided the mode has non-zero mass on unconstrained dofs and, if both modes exist,
their dof sets are disjoint. -/
theorem C28_zero_mean (lin : Linearization) (phys : Physical) (n : ℕ) (fix aug : Bool)
    (mask : ℕ → ℕ → Bool) (mass : ℕ → K) (constrained : List ℕ) (v : ℕ → K)
    (hact : lin ≠ .projection ∧ phys ≠ .incompressibleStationary)
    (hm0 : fix = true → modeMass n (mask 0) mass constrained ≠ 0)
    (hm1 : aug = true → modeMass n (mask 1) mass constrained ≠ 0)
    (hdisj : fix = true → aug = true → ∀ i, ¬ (mask 0 i = true ∧ mask 1 i = true)) :
    let r := projectAverage lin phys n (buildModes n fix aug mask mass constrained) v
    (fix = true → weightedSum n (mask 0) mass r = 0) ∧
    (aug = true → weightedSum n (mask 1) mass r = 0) := by
  have hz : fix = true → aug = true → modeMass n (fun i => mask 0 i && mask 1 i) mass constrained = 0 := by
    intro hf ha
    unfold modeMass
    apply sum_eq_zero
    intro i _
    have : ¬ ((mask 0 i && mask 1 i) = true) := by simpa using hdisj hf ha i
    rw [if_neg]
    exact fun hh => this hh.2
  have hself : ∀ (k : ℕ) (v : ℕ → K), modeMass n (mask k) mass constrained ≠ 0 → weightedSum n (mask k) mass
      (projectMode n (some (buildMode n (mask k) mass constrained)) v) = 0 := by
    intro k v hm
    have : projectMode n (some (buildMode n (mask k) mass constrained)) v = _ :=
      funext (projectMode_eq n (mask k) mass constrained v)
    rw [this, weightedSum_sub]
    simp only [Bool.and_self]
    rw [div_mul_cancel₀ _ hm, sub_self]
  have hother : fix = true → aug = true → ∀ v : ℕ → K, weightedSum n (mask 0) mass
      (projectMode n (some (buildMode n (mask 1) mass constrained)) v) = weightedSum n (mask 0) mass v := by
    intro hf ha v
    have : projectMode n (some (buildMode n (mask 1) mass constrained)) v = _ :=
      funext (projectMode_eq n (mask 1) mass constrained v)
    rw [this, weightedSum_sub, hz hf ha, mul_zero, sub_zero]
  dsimp only
  rw [projectAverage, if_pos hact]
  cases fix <;> cases aug
  · simp
  · simp only [buildModes, if_true, Bool.false_eq_true, if_false, false_implies, true_implies, true_and]
    exact hself 1 _ (hm1 rfl)
  · simp only [buildModes, if_true, Bool.false_eq_true, if_false, false_implies, true_implies, and_true]
    exact hself 0 _ (hm0 rfl)
  · simp only [buildModes, if_true, true_implies]
    exact ⟨by rw [hother rfl rfl]; exact hself 0 v (hm0 rfl), hself 1 _ (hm1 rfl)⟩

theorem projectMode_fixed (n : ℕ) (mask : ℕ → Bool) (mass : ℕ → K) (constrained : List ℕ) (v : ℕ → K)
    (h : weightedSum n mask mass v = 0) :
    projectMode n (some (buildMode n mask mass constrained)) v = v := by
  funext i; rw [projectMode_eq, h]; simp

/-- **C28 (idempotent).** Under the same conditions projecting twice is projecting once. -/
theorem C28_idempotent (lin : Linearization) (phys : Physical) (n : ℕ) (fix aug : Bool)
    (mask : ℕ → ℕ → Bool) (mass : ℕ → K) (constrained : List ℕ) (v : ℕ → K)
    (hm0 : fix = true → modeMass n (mask 0) mass constrained ≠ 0)
    (hm1 : aug = true → modeMass n (mask 1) mass constrained ≠ 0)
    (hdisj : fix = true → aug = true → ∀ i, ¬ (mask 0 i = true ∧ mask 1 i = true)) :
    let P := projectAverage lin phys n (buildModes n fix aug mask mass constrained)
    P (P v) = P v := by
  intro P
  by_cases hact : lin ≠ .projection ∧ phys ≠ .incompressibleStationary
  · obtain ⟨h0, h1⟩ := C28_zero_mean lin phys n fix aug mask mass constrained v hact hm0 hm1 hdisj
    change (fix = true → weightedSum n (mask 0) mass (P v) = 0) at h0
    change (aug = true → weightedSum n (mask 1) mass (P v) = 0) at h1
    generalize P v = r at h0 h1
    simp only [P, projectAverage, if_pos hact, buildModes]
    cases fix <;> cases aug
    · simp [projectMode]
    · simpa [projectMode] using projectMode_fixed n (mask 1) mass constrained r (h1 rfl)
    · simpa [projectMode] using projectMode_fixed n (mask 0) mass constrained r (h0 rfl)
    · simp only [if_true]
      rw [projectMode_fixed n (mask 0) mass constrained r (h0 rfl),
        projectMode_fixed n (mask 1) mass constrained r (h1 rfl)]
  · simp [P, projectAverage, if_neg hact]

theorem projectMode_linear (n : ℕ) (m : Option (Mode K)) (a : K) (v w : ℕ → K) :
    projectMode n m (fun i => a * v i + w i) = fun i => a * projectMode n m v i + projectMode n m w i := by
  cases m with
  | none => rfl
  | some m =>
    funext i
    have : dot n m.weights (fun i => a * v i + w i) = a * dot n m.weights v + dot n m.weights w := by
      unfold dot; rw [mul_sum, ← sum_add_distrib]; apply sum_congr rfl; intro i _; ring
    simp only [projectMode, this]; ring

/-- **C28 (linear).** -/
theorem C28_linear (lin : Linearization) (phys : Physical) (n : ℕ)
    (ms : Option (Mode K) × Option (Mode K)) (a : K) (v w : ℕ → K) :
    projectAverage lin phys n ms (fun i => a * v i + w i)
      = fun i => a * projectAverage lin phys n ms v i + projectAverage lin phys n ms w i := by
  unfold projectAverage
  split
  · rw [projectMode_linear, projectMode_linear]
  · rfl

/-- **C28 (only the mode changes).** The result differs from the input by a combination of the
constant modes: dofs outside the modes and constrained dofs are untouched, and all unconstrained dofs
of one mode are shifted by the same amount.  In the cases where the level is fixed otherwise nothing
changes. -/
theorem C28_changes_only_modes (lin : Linearization) (phys : Physical) (n : ℕ) (fix aug : Bool)
    (mask : ℕ → ℕ → Bool) (mass : ℕ → K) (constrained : List ℕ) (v : ℕ → K) :
    let r := projectAverage lin phys n (buildModes n fix aug mask mass constrained) v
    (∃ a b : K, (fix = false → a = 0) ∧ (aug = false → b = 0) ∧
      ((lin = .projection ∨ phys = .incompressibleStationary) → a = 0 ∧ b = 0) ∧
      ∀ i, r i = v i - a * (if i ∉ constrained ∧ mask 0 i then 1 else 0)
                     - b * (if i ∉ constrained ∧ mask 1 i then 1 else 0)) ∧
    (∀ i ∈ constrained, r i = v i) := by
  have main : ∃ a b : K, (fix = false → a = 0) ∧ (aug = false → b = 0) ∧
      ((lin = .projection ∨ phys = .incompressibleStationary) → a = 0 ∧ b = 0) ∧
      ∀ i, projectAverage lin phys n (buildModes n fix aug mask mass constrained) v i
        = v i - a * (if i ∉ constrained ∧ mask 0 i then 1 else 0)
                     - b * (if i ∉ constrained ∧ mask 1 i then 1 else 0) := by
    by_cases hact : lin ≠ .projection ∧ phys ≠ .incompressibleStationary
    · have hn : ¬ (lin = .projection ∨ phys = .incompressibleStationary) := by
        rintro (h | h)
        · exact hact.1 h
        · exact hact.2 h
      simp only [projectAverage, if_pos hact]
      cases fix <;> cases aug
      · exact ⟨0, 0, by simp, by simp, by simp, fun i => by simp [buildModes, projectMode]⟩
      · exact ⟨0, _, by simp, by simp, fun h => absurd h hn, fun i => by
          simp only [buildModes, Bool.false_eq_true, if_false, if_true, projectMode_eq, zero_mul, sub_zero]
          rfl⟩
      · exact ⟨_, 0, by simp, by simp, fun h => absurd h hn, fun i => by
          simp only [buildModes, Bool.false_eq_true, if_false, if_true, zero_mul, sub_zero]
          exact projectMode_eq n (mask 0) mass constrained v i⟩
      · exact ⟨_, _, by simp, by simp, fun h => absurd h hn, fun i => by
          simp only [buildModes, if_true]
          rw [projectMode_eq n (mask 1), projectMode_eq n (mask 0)]⟩
    · refine ⟨0, 0, by simp, by simp, by simp, fun i => ?_⟩
      simp [projectAverage, if_neg hact]
  refine ⟨main, ?_⟩
  obtain ⟨a, b, -, -, -, h⟩ := main
  intro i hi
  rw [h i]; simp [hi]

/-- **C28 (shift).** Shifting the pressure adds the shift to all unconstrained dofs of the constant
mode and changes nothing else. -/
theorem C28_shift (n : ℕ) (mask : ℕ → Bool) (mass : ℕ → K) (constrained : List ℕ) (shift : K)
    (p : ℕ → K) (i : ℕ) :
    pressureShift (buildMode n mask mass constrained) shift p i
      = if i ∉ constrained ∧ mask i then p i + shift else p i := by
  simp only [pressureShift, buildMode_mode]
  by_cases h : i ∈ constrained <;> by_cases h2 : mask i <;> simp [h, h2]

/-- Disjointness is needed: with overlapping modes the mean of mode 0 is destroyed again. -/
theorem C28_overlap_breaks_mean :
    weightedSum (K := ℚ) 2 (fun _ => true) (fun _ => 1)
      (projectAverage .coupledImplicitNewton .incompressible 2
        (buildModes 2 true true (fun k i => k == 0 || i == 0) (fun _ => 1) []) (fun i => i)) ≠ 0 := by
  decide +kernel

/-- Non-vacuity of the hypotheses, and a non-trivial result. -/
example : (∀ k, modeMass (K := ℚ) 4 (fun i => i % 2 == k % 2) (fun i => i + 1) [0] ≠ 0) ∧
    (List.range 4).map (projectAverage (K := ℚ) .coupledImplicitNewton .incompressible 4
        (buildModes 4 true true (fun k i => i % 2 == k % 2) (fun i => i + 1) [0]) (fun i => i * i))
      = [0, 1 - 38/6, 0, 9 - 38/6] := by
  constructor
  · intro k
    have : k % 2 = 0 ∨ k % 2 = 1 := by omega
    rcases this with h | h <;> rw [h] <;> decide +kernel
  · decide +kernel

/-! ## C30 -/

/-- The loops copying the input at constrained dofs, e.g. source/navier_stokes_matrix.cc:249-256: `sign * src`. -/
def setConstrained (sign : K) (constrained : List ℕ) (src dst : ℕ → K) : ℕ → K :=
  constrained.foldl (fun d i => Function.update d i (sign * src i)) dst

/-- `NavierStokesMatrix::vmult`, source/navier_stokes_matrix.cc:222-263: cell loop (oracle `op`), constrained entries with sign
`-1` in the pressure block, projection of the pressure block. -/
def coupledVmult (lin : Linearization) (phys : Physical) (n : ℕ) (ms : Option (Mode K) × Option (Mode K))
    (op : (ℕ → K) × (ℕ → K) → (ℕ → K) × (ℕ → K)) (cu cp : List ℕ) (src : (ℕ → K) × (ℕ → K)) :
    (ℕ → K) × (ℕ → K) :=
  let d := op src
  (setConstrained 1 cu src.1 d.1, projectAverage lin phys n ms (setConstrained (-1) cp src.2 d.2))

/-- `velocity_vmult` (lines 376-382), `pressure_poisson_vmult` (412-418), `pressure_convdiff_vmult`
(476-480): cell loop, then constrained entries. -/
def simpleVmult (op : (ℕ → K) → ℕ → K) (c : List ℕ) (src : ℕ → K) : ℕ → K :=
  setConstrained 1 c src (op src)

/-- `pressure_mass_vmult`, source/navier_stokes_matrix.cc:441-456: additionally subtracts the second constant mode. -/
def massProduct (lin : Linearization) (n : ℕ) (m1 : Option (Mode K)) (op : (ℕ → K) → ℕ → K)
    (c : List ℕ) (src : ℕ → K) : ℕ → K :=
  let dst := setConstrained 1 c src (op src)
  if lin ≠ .projection then projectMode n m1 dst else dst

theorem setConstrained_mem (sign : K) (c : List ℕ) (src dst : ℕ → K) (i : ℕ) (h : i ∈ c) :
    setConstrained sign c src dst i = sign * src i :=
  foldl_update_mem c (fun i => i) (fun i => sign * src i) dst i h (fun c _ h => by simp [h])

theorem setConstrained_not (sign : K) (c : List ℕ) (src dst : ℕ → K) (i : ℕ) (h : i ∉ c) :
    setConstrained sign c src dst i = dst i :=
  foldl_update_not c (fun i => i) (fun i => sign * src i) dst i (by rintro a ha rfl; exact h ha)

/-- **C30.** Constrained entries of every product are the input entries (negated in the pressure block
of the coupled product), whatever the assembled part, the other entries and the constant modes are. -/
theorem C30_constrained_identity (lin : Linearization) (phys : Physical) (n : ℕ) (fix aug : Bool)
    (mask : ℕ → ℕ → Bool) (mass : ℕ → K) (cu cp : List ℕ)
    (op : (ℕ → K) × (ℕ → K) → (ℕ → K) × (ℕ → K)) (op1 : (ℕ → K) → ℕ → K) (src : (ℕ → K) × (ℕ → K)) :
    let ms := buildModes n fix aug mask mass cp
    (∀ i ∈ cu, (coupledVmult lin phys n ms op cu cp src).1 i = src.1 i) ∧
    (∀ i ∈ cp, (coupledVmult lin phys n ms op cu cp src).2 i = -src.2 i) ∧
    (∀ i ∈ cu, simpleVmult op1 cu src.1 i = src.1 i) ∧
    (∀ i ∈ cp, simpleVmult op1 cp src.2 i = src.2 i) ∧
    (∀ i ∈ cp, massProduct lin n ms.2 op1 cp src.2 i = src.2 i) := by
  refine ⟨?_, ?_, ?_, ?_, ?_⟩
  · intro i hi; simp only [coupledVmult]; rw [setConstrained_mem _ _ _ _ _ hi, one_mul]
  · intro i hi
    simp only [coupledVmult]
    have := (C28_changes_only_modes lin phys n fix aug mask mass cp
      (setConstrained (-1) cp src.2 (op src).2)).2 i hi
    rw [this, setConstrained_mem _ _ _ _ _ hi, neg_one_mul]
  · intro i hi; simp only [simpleVmult]; rw [setConstrained_mem _ _ _ _ _ hi, one_mul]
  · intro i hi; simp only [simpleVmult]; rw [setConstrained_mem _ _ _ _ _ hi, one_mul]
  · intro i hi
    simp only [massProduct]
    have h : projectMode n (buildModes n fix aug mask mass cp).2 (setConstrained 1 cp src.2 (op1 src.2)) i
        = setConstrained 1 cp src.2 (op1 src.2) i := by
      cases aug
      · rfl
      · simp only [buildModes, if_true, projectMode_eq]; simp [hi]
    split
    · rw [h, setConstrained_mem _ _ _ _ _ hi, one_mul]
    · rw [setConstrained_mem _ _ _ _ _ hi, one_mul]

/-- **C30 (rows of free dofs).** Unconstrained entries are the assembled ones. -/
theorem C30_free_rows (lin : Linearization) (phys : Physical) (n : ℕ) (ms : Option (Mode K) × Option (Mode K))
    (cu cp : List ℕ) (op : (ℕ → K) × (ℕ → K) → (ℕ → K) × (ℕ → K)) (op1 : (ℕ → K) → ℕ → K)
    (src : (ℕ → K) × (ℕ → K)) :
    (∀ i, i ∉ cu → (coupledVmult lin phys n ms op cu cp src).1 i = (op src).1 i) ∧
    (∀ i, i ∉ cp → simpleVmult op1 cp src.2 i = op1 src.2 i) :=
  ⟨fun _ hi => setConstrained_not _ _ _ _ _ hi, fun _ hi => setConstrained_not _ _ _ _ _ hi⟩

/-- **C30 (symmetric rows and columns).** If the assembled operator ignores constrained input entries
(as `read_dof_values` does), constrained dofs are completely decoupled: changing the input there
changes no other entry of the simple products. -/
theorem C30_decoupled (op : (ℕ → K) → ℕ → K) (c : List ℕ)
    (hop : ∀ v w : ℕ → K, (∀ i, i ∉ c → v i = w i) → op v = op w) (v w : ℕ → K)
    (hvw : ∀ i, i ∉ c → v i = w i) (i : ℕ) (hi : i ∉ c) :
    simpleVmult op c v i = simpleVmult op c w i := by
  simp only [simpleVmult]
  rw [setConstrained_not _ _ _ _ _ hi, setConstrained_not _ _ _ _ _ hi, hop v w hvw]

/-- Non-vacuity: two velocity and four pressure dofs with constraints in both. -/
example :
    let r := coupledVmult (K := ℚ) .coupledImplicitNewton .incompressible 4
      (buildModes 4 true false (fun _ _ => true) (fun _ => 1) [3])
      (fun s => (fun i => s.1 i + s.2 i, fun i => s.1 i)) [1] [3] (fun i => i + 5, fun i => 2 * i);
    r.1 0 = 5 ∧ r.1 1 = 6 ∧ r.2 0 = 1 ∧ r.2 3 = -6 := by decide +kernel

end Verif.Operator
