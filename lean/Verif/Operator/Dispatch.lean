import Mathlib.Data.Finset.Attr
import Mathlib.Tactic.Linarith
import Mathlib.Tactic.IntervalCases

/-!
# C85: every matrix-free kernel runs with the polynomial degrees and quadrature formula of the mesh it runs on

The cell kernels are templates in the polynomial degrees; macros `EXPAND_OPERATIONS` choose the instance at run time. An
evaluator `FEEvaluation<dim, degree, n_q_points_1d>` reads the element and the quadrature formula stored in the `MatrixFree`
object at given indices; deal.II checks that they fit the template arguments in debug mode only, in release mode a mismatch
reads outside of the arrays. Below: the macros, the setups of the three `MatrixFree` objects, and the list of evaluators of
all kernels.
-/

namespace Verif.Operator.Dispatch

/-! ## Model -/

/-- `use_simplex_mesh`, `velocity_degree`, `concentration_subdivisions` of the parameters (parameters.h). The reference cell
of the mesh is assumed to be the one announced by `use_simplex_mesh`. -/
structure Conf where
  simplex : Bool
  vel : ℕ
  ls : ℕ

/-- Outcome of a dispatch macro: an exception (`AssertThrow`), a kernel instance with its template arguments, or no call. -/
inductive Outcome where
  | throws
  | runs (a b : ℤ)
  | nothing
  deriving DecidableEq

/-- The chain `if (degree == d₁) OPERATION(d₁) else if …` over a list of degrees. -/
def chain (l : List ℕ) (deg : ℕ) (op : ℤ → Outcome) (other : Outcome) : Outcome :=
  match l with
  | [] => other
  | d :: l => if deg = d then op d else chain l deg op other

/-- `EXPAND_OPERATIONS` of navier_stokes_matrix.cc:64-83. `degree_p` is `velocity_degree - 1` (navier_stokes.cc:98-106). -/
def nsMacro (c : Conf) : Outcome :=
  let degP := c.vel - 1
  if ¬ (1 ≤ degP ∧ degP ≤ 5) then .throws
  else if c.simplex then .runs (-1) 0
  else chain [1, 2, 3, 4, 5] degP (fun d => .runs d 0) .throws

/-- level_set_okz_template_instantations.h:20-78. -/
def okzMacro (c : Conf) : Outcome :=
  if c.simplex then .runs (-1) (-1)
  else if ¬ (2 ≤ c.vel ∧ c.vel ≤ 5) then .throws
  else if ¬ (1 ≤ c.ls ∧ c.ls ≤ 4) then .throws
  else chain [1, 2, 3, 4] c.ls (fun l => chain [2, 3, 4, 5] c.vel (fun u => .runs l u) .nothing) .nothing

/-- level_set_okz_advance_concentration.cc:103-174. -/
def advanceMacro (c : Conf) : Outcome :=
  if c.simplex then .runs (-1) (-1)
  else if ¬ (1 ≤ c.vel ∧ c.vel ≤ 5) then .throws
  else if ¬ (1 ≤ c.ls ∧ c.ls ≤ 4) then .throws
  else chain [1, 2, 3, 4] c.ls (fun l => chain [1, 2, 3, 4, 5] c.vel (fun u => .runs l u) .nothing) .nothing

/-- level_set_okz_compute_normal.cc:25-47, level_set_okz_compute_curvature.cc:26-48, level_set_okz_reinitialization.cc:25-47
and level_set_okz_preconditioner.cc:30-55 (its second argument is -1 on simplices; it is not used). -/
def lsMacro (c : Conf) : Outcome :=
  if c.simplex then .runs (-1) 0
  else if ¬ (1 ≤ c.ls ∧ c.ls ≤ 4) then .throws
  else chain [1, 2, 3, 4] c.ls (fun l => .runs l 0) .nothing

/-- phase_field_local.cc:368-416: there is no simplex branch. -/
def phaseMacro (c : Conf) : Outcome :=
  if ¬ (2 ≤ c.vel ∧ c.vel ≤ 5) then .throws
  else if ¬ (1 ≤ c.ls ∧ c.ls ≤ 4) then .throws
  else chain [1, 2, 3, 4] c.ls (fun l => chain [2, 3, 4, 5] c.vel (fun u => .runs l u) .nothing) .nothing

/-- `PhaseFieldSolver::mass_vmult`, phase_field_local.cc:511-538. -/
def phaseMass (c : Conf) : Outcome :=
  if ¬ (1 ≤ c.ls ∧ c.ls ≤ 4) then .throws
  else chain [1, 2, 3, 4] c.ls (fun l => .runs l 0) .nothing

/-- `PhaseFieldSolver::vmult`, phase_field_local.cc:473-495: without `AssertThrow`. -/
def phaseVmult (c : Conf) : Outcome := chain [1, 2, 3, 4] c.ls (fun l => .runs l 0) .nothing

/-- `PhaseFieldSolver::PhaseFieldSolver`, phase_field.cc:60-61: the pressure element must be of type `FE_Q`. It is
`FE_SimplexP` on simplices and `FE_Q_DG0` with augmented Taylor-Hood elements (navier_stokes.cc:98-106). -/
def phaseCtorThrows (c : Conf) (augmented : Bool) : Bool := c.simplex || augmented

/-- A `MatrixFree` object with tensor-product elements: degree by `DoFHandler` index, one-dimensional number of points by
quadrature index. -/
structure Mf where
  dof : ℕ → Option ℕ
  quad : ℕ → Option ℕ

/-- Flow solver alone, navier_stokes.cc:433-450; `FE_Q(QGaussLobatto(velocity_degree+1))` has degree `velocity_degree`
(lines 92-106). -/
def mfFlow (c : Conf) : Mf where
  dof := fun i => [c.vel, c.vel - 1][i]?
  quad := fun i => [c.vel + 1, c.vel][i]?

/-- Two-phase solvers on hypercubes, two_phase_base.cc:240-273 with the element `FE_Q_iso_Q1` of level_set_base.cc:58 and
phase_field.cc:53: `QIterated(QGauss<1>(2), degree)` has `2 * degree` points per direction. -/
def mfTwoPhase (c : Conf) : Mf where
  dof := fun i => [c.vel, c.vel - 1, c.ls, c.ls, c.ls][i]?
  quad := fun i => [c.vel + 1, c.vel, 2 * c.ls][i]?

/-- `LevelSetSolver` of the sharp-interface solvers, sharp_interface.h:236-265. -/
def mfSharp (c : Conf) : Mf where
  dof := fun i => [c.vel, c.ls, c.ls, c.ls][i]?
  quad := fun i => [2 * c.ls, c.vel + 1][i]?

/-- `FEEvaluation<dim, deg, nq> (data, dof, quad)`. -/
structure Eval where
  deg : ℤ
  nq : ℤ
  dof : ℕ
  quad : ℕ

/-- Flow kernels as functions of `degree_p`; `dof_index_u = 0`, `dof_index_p = 1`, `quad_index_u = 0`, `quad_index_p = 1`
(navier_stokes.h:114-117). Lines of navier_stokes_matrix.cc: `local_operation` 611-618, `local_divergence` 929-931,
`local_pressure_poisson` 982-984 and 1004-1006, `local_pressure_mass` 1046, `local_pressure_mass_weight` 1084,
`local_pressure_convdiff` 1109. -/
def nsKernels (p : ℤ) : List Eval :=
  let u := if p = -1 then -1 else p + 1
  [⟨u, p + 2, 0, 0⟩, ⟨p, p + 2, 1, 0⟩, ⟨u, p + 2, 0, 0⟩, ⟨u, p + 2, 0, 0⟩,     -- local_operation
   ⟨u, p + 2, 0, 0⟩, ⟨p, p + 2, 1, 0⟩,                                           -- local_divergence
   ⟨p, p + 2, 1, 0⟩, ⟨p, p + 1, 1, 1⟩,                                           -- local_pressure_poisson
   ⟨p, p + 1, 1, 1⟩,                                                             -- local_pressure_mass
   ⟨p, p + 1, 1, 1⟩,                                                             -- local_pressure_mass_weight
   ⟨p, p + 2, 1, 0⟩]                                                             -- local_pressure_convdiff

/-- `LevelSetOKZSolver::local_compute_force`, level_set_okz.cc:329-335. -/
def okzForceKernel (l u : ℤ) : List Eval :=
  let nq := if l = -1 then 0 else u + 1
  [⟨l, nq, 2, 0⟩, ⟨l, nq, 3, 0⟩, ⟨if l = -1 then -1 else u, nq, 0, 0⟩, ⟨if l = -1 then -1 else u - 1, nq, 1, 0⟩]

/-- Index parameters of the level-set operators (`params.dof_index_ls`, …). -/
structure Idx where
  ls : ℕ
  curv : ℕ
  normal : ℕ
  vel : ℕ
  quad : ℕ

/-- level_set_okz.cc:65-67, 89-91, 126-129, 154-156. -/
def okzIdx : Idx := ⟨2, 3, 4, 0, 2⟩

/-- sharp_interface.h:56-60. -/
def sharpIdx : Idx := ⟨1, 3, 2, 0, 0⟩

/-- `local_advance_concentration` and `local_advance_concentration_rhs`,
level_set_okz_advance_concentration.cc:228-232, 300-317. -/
def advanceKernels (i : Idx) (l u : ℤ) : List Eval :=
  let nq := if l = -1 then 0 else 2 * l
  [⟨l, nq, i.ls, i.quad⟩, ⟨l, nq, i.ls, i.quad⟩, ⟨l, nq, i.ls, i.quad⟩, ⟨l, nq, i.ls, i.quad⟩,
   ⟨u, nq, i.vel, i.quad⟩, ⟨u, nq, i.vel, i.quad⟩, ⟨u, nq, i.vel, i.quad⟩]

/-- Normal (level_set_okz_compute_normal.cc:93-96, 134-140), curvature (level_set_okz_compute_curvature.cc:97-100, 223-229),
reinitialization (level_set_okz_reinitialization.cc:71-74, 139-146) and projection matrix
(level_set_okz_preconditioner.cc:131-132 with the index of the level set, level_set_okz.cc:226-234 and
sharp_interface.h:308-316). -/
def lsKernels (i : Idx) (l : ℤ) : List Eval :=
  let nq := if l = -1 then 0 else 2 * l
  [⟨l, nq, i.normal, i.quad⟩, ⟨l, nq, i.normal, i.quad⟩, ⟨l, nq, i.ls, i.quad⟩,   -- normal
   ⟨l, nq, i.curv, i.quad⟩, ⟨l, nq, i.normal, i.quad⟩, ⟨l, nq, i.curv, i.quad⟩,   -- curvature
   ⟨l, nq, i.ls, i.quad⟩, ⟨l, nq, i.ls, i.quad⟩, ⟨l, nq, i.normal, i.quad⟩,       -- reinitialization
   ⟨l, nq, i.ls, i.quad⟩]                                                          -- projection matrix

/-- Phase field: force (phase_field_local.cc:58-61) and residual (144-148). -/
def phaseKernels (l u : ℤ) : List Eval :=
  [⟨l, u + 1, 2, 0⟩, ⟨l, u + 1, 2, 0⟩, ⟨u, u + 1, 0, 0⟩, ⟨u - 1, u + 1, 1, 0⟩,
   ⟨l, 2 * l, 2, 2⟩, ⟨l, 2 * l, 3, 2⟩, ⟨u, 2 * l, 0, 2⟩, ⟨l, 2 * l, 2, 2⟩, ⟨l, 2 * l, 2, 2⟩]

/-- Phase field: `local_vmult` (phase_field_local.cc:227-228) and `local_mass` (286). -/
def phaseLsKernels (l : ℤ) : List Eval := [⟨l, 2 * l, 2, 2⟩, ⟨l, 2 * l, 3, 2⟩, ⟨l, 2 * l, 2, 2⟩]

/-! ## Specification -/

namespace Spec

/-- The evaluator fits the mesh: on simplices it takes degree and quadrature from the run-time data (degree -1); on
hypercubes its template arguments are the degree of the element and the number of points of the quadrature formula. -/
def Fits (simplex : Bool) (mf : Mf) (e : Eval) : Prop :=
  if simplex then e.deg = -1
  else ∃ d q : ℕ, mf.dof e.dof = some d ∧ mf.quad e.quad = some q ∧ e.deg = d ∧ e.nq = q

/-- A dispatch is correct for a set of supported configurations: it throws exactly on the others, and otherwise runs a kernel
whose evaluators all fit. In particular it never does nothing. -/
def Correct (supported : Prop) (out : Outcome) (simplex : Bool) (mf : Mf) (kernels : ℤ → ℤ → List Eval) : Prop :=
  (¬ supported → out = .throws) ∧ (supported → ∃ a b, out = .runs a b ∧ ∀ e ∈ kernels a b, Fits simplex mf e)

end Spec

/-! ## Proofs -/

theorem chain_mem (l : List ℕ) (deg : ℕ) (op : ℤ → Outcome) (other : Outcome) (h : deg ∈ l) :
    chain l deg op other = op deg := by
  induction l with
  | nil => simp at h
  | cons d l ih =>
    unfold chain
    by_cases hd : deg = d
    · rw [if_pos hd, hd]
    · rw [if_neg hd]
      exact ih (by simpa [hd] using h)

theorem fits_hyper (c : Conf) (hs : c.simplex = false) (mf : Mf) (e : Eval) (d q : ℕ) (h1 : mf.dof e.dof = some d)
    (h2 : mf.quad e.quad = some q) (h3 : e.deg = d) (h4 : e.nq = q) : Spec.Fits c.simplex mf e := by
  unfold Spec.Fits
  rw [hs]
  exact ⟨d, q, h1, h2, h3, h4⟩

/-- **C85 (flow kernels).** All flow operators throw exactly unless the velocity degree is between 2 and 6, and otherwise
run the instance whose elements and quadratures are those of the flow solver's own or of a two-phase solver's data. -/
theorem C85_flow (c : Conf) (mf : Mf) (hmf : mf = mfFlow c ∨ mf = mfTwoPhase c) :
    Spec.Correct (2 ≤ c.vel ∧ c.vel ≤ 6) (nsMacro c) c.simplex mf (fun p _ => nsKernels p) := by
  constructor
  · intro h
    unfold nsMacro
    rw [if_pos (by omega)]
  · rintro ⟨h1, h2⟩
    unfold nsMacro
    rw [if_neg (by omega)]
    cases hs : c.simplex with
    | true =>
      refine ⟨-1, 0, by simp, ?_⟩
      intro e he
      unfold nsKernels at he
      simp only [if_true, List.mem_cons, List.not_mem_nil, or_false] at he
      rcases he with h | h | h | h | h | h | h | h | h | h | h <;> subst h <;> rfl
    | false =>
      obtain ⟨p, hp⟩ : ∃ p, c.vel = p + 1 := ⟨c.vel - 1, by omega⟩
      have hm : c.vel - 1 ∈ [1, 2, 3, 4, 5] := by simp; omega
      refine ⟨(p : ℤ), 0, ?_, ?_⟩
      · simp only [Bool.false_eq_true, if_false]
        rw [chain_mem _ _ _ _ hm]
        congr 1
        omega
      · intro e he
        have hu : (if (p : ℤ) = -1 then (-1 : ℤ) else p + 1) = ((p + 1 : ℕ) : ℤ) := by
          rw [if_neg (by omega)]; push_cast; rfl
        simp only [nsKernels, hu] at he
        have hd0 : mf.dof 0 = some (p + 1) := by rcases hmf with rfl | rfl <;> simp [mfFlow, mfTwoPhase, hp]
        have hd1 : mf.dof 1 = some p := by rcases hmf with rfl | rfl <;> simp [mfFlow, mfTwoPhase, hp]
        have hq0 : mf.quad 0 = some (p + 2) := by rcases hmf with rfl | rfl <;> simp [mfFlow, mfTwoPhase, hp]
        have hq1 : mf.quad 1 = some (p + 1) := by rcases hmf with rfl | rfl <;> simp [mfFlow, mfTwoPhase, hp]
        simp only [List.mem_cons, List.not_mem_nil, or_false] at he
        rw [← hs]
        rcases he with h | h | h | h | h | h | h | h | h | h | h <;> subst h <;>
          first
          | exact fits_hyper c hs mf _ _ _ hd0 hq0 rfl (by push_cast; rfl)
          | exact fits_hyper c hs mf _ _ _ hd1 hq0 rfl (by push_cast; rfl)
          | exact fits_hyper c hs mf _ _ _ hd1 hq1 rfl (by push_cast; rfl)

/-- **C85 (level-set force).** Runs on all simplex meshes and, on hypercubes, for velocity degree 2 to 5 and 1 to 4
subdivisions; throws otherwise; elements and quadratures fit. -/
theorem C85_level_set_force (c : Conf) :
    Spec.Correct (c.simplex = true ∨ (2 ≤ c.vel ∧ c.vel ≤ 5 ∧ 1 ≤ c.ls ∧ c.ls ≤ 4)) (okzMacro c) c.simplex (mfTwoPhase c)
      okzForceKernel := by
  constructor
  · intro h
    unfold okzMacro
    cases hs : c.simplex with
    | true => exact absurd (Or.inl hs) h
    | false =>
      simp only [Bool.false_eq_true, if_false]
      by_cases h1 : 2 ≤ c.vel ∧ c.vel ≤ 5
      · rw [if_neg (not_not.2 h1), if_pos]
        intro h2; exact h (Or.inr ⟨h1.1, h1.2, h2.1, h2.2⟩)
      · rw [if_pos h1]
  · intro h
    unfold okzMacro
    cases hs : c.simplex with
    | true =>
      refine ⟨-1, -1, by simp, ?_⟩
      intro e he
      simp only [okzForceKernel, if_true, List.mem_cons, List.not_mem_nil, or_false] at he
      rcases he with h | h | h | h <;> subst h <;> rfl
    | false =>
      rw [hs] at h
      obtain ⟨h1, h2, h3, h4⟩ : 2 ≤ c.vel ∧ c.vel ≤ 5 ∧ 1 ≤ c.ls ∧ c.ls ≤ 4 := by simpa using h
      refine ⟨(c.ls : ℤ), (c.vel : ℤ), ?_, ?_⟩
      · simp only [Bool.false_eq_true, if_false]
        rw [if_neg (by omega), if_neg (by omega), chain_mem _ _ _ _ (by simp; omega), chain_mem _ _ _ _ (by simp; omega)]
      · intro e he
        have hl : ¬ ((c.ls : ℤ) = -1) := by omega
        simp only [okzForceKernel, if_neg hl, List.mem_cons, List.not_mem_nil, or_false] at he
        rw [← hs]
        rcases he with h | h | h | h <;> subst h
        · exact fits_hyper c hs _ _ c.ls (c.vel + 1) rfl rfl rfl (by push_cast; rfl)
        · exact fits_hyper c hs _ _ c.ls (c.vel + 1) rfl rfl rfl (by push_cast; rfl)
        · exact fits_hyper c hs _ _ c.vel (c.vel + 1) rfl rfl rfl (by push_cast; rfl)
        · exact fits_hyper c hs _ _ (c.vel - 1) (c.vel + 1) rfl rfl (by push_cast [Nat.cast_sub (show 1 ≤ c.vel by omega)]; rfl)
            (by push_cast; rfl)

/-- **C85 (advection of the level set)**, in the two-phase solver and in the sharp-interface `LevelSetSolver`. -/
theorem C85_advection (c : Conf) (mf : Mf) (i : Idx)
    (hmf : (mf = mfTwoPhase c ∧ i = okzIdx) ∨ (mf = mfSharp c ∧ i = sharpIdx)) :
    Spec.Correct (c.simplex = true ∨ (1 ≤ c.vel ∧ c.vel ≤ 5 ∧ 1 ≤ c.ls ∧ c.ls ≤ 4)) (advanceMacro c) c.simplex mf
      (advanceKernels i) := by
  constructor
  · intro h
    unfold advanceMacro
    cases hs : c.simplex with
    | true => exact absurd (Or.inl hs) h
    | false =>
      simp only [Bool.false_eq_true, if_false]
      by_cases h1 : 1 ≤ c.vel ∧ c.vel ≤ 5
      · rw [if_neg (not_not.2 h1), if_pos]
        intro h2; exact h (Or.inr ⟨h1.1, h1.2, h2.1, h2.2⟩)
      · rw [if_pos h1]
  · intro h
    unfold advanceMacro
    cases hs : c.simplex with
    | true =>
      refine ⟨-1, -1, by simp, ?_⟩
      intro e he
      simp only [advanceKernels, if_true, List.mem_cons, List.not_mem_nil, or_false] at he
      rcases he with h | h | h | h | h | h | h <;> subst h <;> rfl
    | false =>
      rw [hs] at h
      obtain ⟨h1, h2, h3, h4⟩ : 1 ≤ c.vel ∧ c.vel ≤ 5 ∧ 1 ≤ c.ls ∧ c.ls ≤ 4 := by simpa using h
      refine ⟨(c.ls : ℤ), (c.vel : ℤ), ?_, ?_⟩
      · simp only [Bool.false_eq_true, if_false]
        rw [if_neg (by omega), if_neg (by omega), chain_mem _ _ _ _ (by simp; omega), chain_mem _ _ _ _ (by simp; omega)]
      · intro e he
        have hl : ¬ ((c.ls : ℤ) = -1) := by omega
        have hd : mf.dof i.ls = some c.ls := by rcases hmf with ⟨rfl, rfl⟩ | ⟨rfl, rfl⟩ <;> rfl
        have hv : mf.dof i.vel = some c.vel := by rcases hmf with ⟨rfl, rfl⟩ | ⟨rfl, rfl⟩ <;> rfl
        have hq : mf.quad i.quad = some (2 * c.ls) := by rcases hmf with ⟨rfl, rfl⟩ | ⟨rfl, rfl⟩ <;> rfl
        simp only [advanceKernels, if_neg hl, List.mem_cons, List.not_mem_nil, or_false] at he
        rw [← hs]
        rcases he with h | h | h | h | h | h | h <;> subst h <;>
          first
          | exact fits_hyper c hs mf _ _ _ hd hq rfl (by push_cast; rfl)
          | exact fits_hyper c hs mf _ _ _ hv hq rfl (by push_cast; rfl)

/-- **C85 (normal, curvature, reinitialization, projection matrix)**, in the two-phase solver and in the sharp-interface
`LevelSetSolver`. -/
theorem C85_level_set_kernels (c : Conf) (mf : Mf) (i : Idx)
    (hmf : (mf = mfTwoPhase c ∧ i = okzIdx) ∨ (mf = mfSharp c ∧ i = sharpIdx)) :
    Spec.Correct (c.simplex = true ∨ (1 ≤ c.ls ∧ c.ls ≤ 4)) (lsMacro c) c.simplex mf (fun l _ => lsKernels i l) := by
  constructor
  · intro h
    unfold lsMacro
    cases hs : c.simplex with
    | true => exact absurd (Or.inl hs) h
    | false =>
      simp only [Bool.false_eq_true, if_false]
      rw [if_pos]
      intro h2; exact h (Or.inr h2)
  · intro h
    unfold lsMacro
    cases hs : c.simplex with
    | true =>
      refine ⟨-1, 0, by simp, ?_⟩
      intro e he
      simp only [lsKernels, if_true, List.mem_cons, List.not_mem_nil, or_false] at he
      rcases he with h | h | h | h | h | h | h | h | h | h <;> subst h <;> rfl
    | false =>
      rw [hs] at h
      obtain ⟨h3, h4⟩ : 1 ≤ c.ls ∧ c.ls ≤ 4 := by simpa using h
      refine ⟨(c.ls : ℤ), 0, ?_, ?_⟩
      · simp only [Bool.false_eq_true, if_false]
        rw [if_neg (by omega), chain_mem _ _ _ _ (by simp; omega)]
      · intro e he
        have hl : ¬ ((c.ls : ℤ) = -1) := by omega
        have hd : mf.dof i.ls = some c.ls := by rcases hmf with ⟨rfl, rfl⟩ | ⟨rfl, rfl⟩ <;> rfl
        have hn : mf.dof i.normal = some c.ls := by rcases hmf with ⟨rfl, rfl⟩ | ⟨rfl, rfl⟩ <;> rfl
        have hc : mf.dof i.curv = some c.ls := by rcases hmf with ⟨rfl, rfl⟩ | ⟨rfl, rfl⟩ <;> rfl
        have hq : mf.quad i.quad = some (2 * c.ls) := by rcases hmf with ⟨rfl, rfl⟩ | ⟨rfl, rfl⟩ <;> rfl
        simp only [lsKernels, if_neg hl, List.mem_cons, List.not_mem_nil, or_false] at he
        rw [← hs]
        rcases he with h | h | h | h | h | h | h | h | h | h <;> subst h <;>
          first
          | exact fits_hyper c hs mf _ _ _ hd hq rfl (by push_cast; rfl)
          | exact fits_hyper c hs mf _ _ _ hn hq rfl (by push_cast; rfl)
          | exact fits_hyper c hs mf _ _ _ hc hq rfl (by push_cast; rfl)

/-- **C85 (phase field).** For a phase-field solver that could be constructed: force and residual throw unless the velocity
degree is 2 to 5 and there are 1 to 4 subdivisions, and otherwise run the fitting instance; the same for the mass operator
with respect to the subdivisions; the Cahn-Hilliard product runs the fitting instance with 1 to 4 subdivisions. -/
theorem C85_phase_field_partial (c : Conf) (augmented : Bool) (h : phaseCtorThrows c augmented = false) :
    Spec.Correct (2 ≤ c.vel ∧ c.vel ≤ 5 ∧ 1 ≤ c.ls ∧ c.ls ≤ 4) (phaseMacro c) c.simplex (mfTwoPhase c) phaseKernels ∧
    Spec.Correct (1 ≤ c.ls ∧ c.ls ≤ 4) (phaseMass c) c.simplex (mfTwoPhase c) (fun l _ => phaseLsKernels l) ∧
    (1 ≤ c.ls ∧ c.ls ≤ 4 → ∃ a b, phaseVmult c = .runs a b ∧
      ∀ e ∈ phaseLsKernels a, Spec.Fits c.simplex (mfTwoPhase c) e) := by
  have hs : c.simplex = false := by
    unfold phaseCtorThrows at h
    cases hs : c.simplex with
    | true => rw [hs] at h; cases h
    | false => rfl
  have hfit : ∀ e ∈ phaseLsKernels (c.ls : ℤ), Spec.Fits c.simplex (mfTwoPhase c) e := by
    intro e he
    simp only [phaseLsKernels, List.mem_cons, List.not_mem_nil, or_false] at he
    rcases he with h | h | h <;> subst h
    · exact fits_hyper c hs _ _ c.ls (2 * c.ls) rfl rfl rfl (by push_cast; rfl)
    · exact fits_hyper c hs _ _ c.ls (2 * c.ls) rfl rfl rfl (by push_cast; rfl)
    · exact fits_hyper c hs _ _ c.ls (2 * c.ls) rfl rfl rfl (by push_cast; rfl)
  refine ⟨⟨?_, ?_⟩, ⟨?_, ?_⟩, ?_⟩
  · intro hn
    unfold phaseMacro
    by_cases h1 : 2 ≤ c.vel ∧ c.vel ≤ 5
    · rw [if_neg (not_not.2 h1), if_pos]
      intro h2; exact hn ⟨h1.1, h1.2, h2.1, h2.2⟩
    · rw [if_pos h1]
  · rintro ⟨h1, h2, h3, h4⟩
    refine ⟨(c.ls : ℤ), (c.vel : ℤ), ?_, ?_⟩
    · unfold phaseMacro
      rw [if_neg (by omega), if_neg (by omega), chain_mem _ _ _ _ (by simp; omega), chain_mem _ _ _ _ (by simp; omega)]
    · intro e he
      simp only [phaseKernels, List.mem_cons, List.not_mem_nil, or_false] at he
      rcases he with h | h | h | h | h | h | h | h | h <;> subst h
      · exact fits_hyper c hs _ _ c.ls (c.vel + 1) rfl rfl rfl (by push_cast; rfl)
      · exact fits_hyper c hs _ _ c.ls (c.vel + 1) rfl rfl rfl (by push_cast; rfl)
      · exact fits_hyper c hs _ _ c.vel (c.vel + 1) rfl rfl rfl (by push_cast; rfl)
      · exact fits_hyper c hs _ _ (c.vel - 1) (c.vel + 1) rfl rfl
          (by push_cast [Nat.cast_sub (show 1 ≤ c.vel by omega)]; rfl) (by push_cast; rfl)
      · exact fits_hyper c hs _ _ c.ls (2 * c.ls) rfl rfl rfl (by push_cast; rfl)
      · exact fits_hyper c hs _ _ c.ls (2 * c.ls) rfl rfl rfl (by push_cast; rfl)
      · exact fits_hyper c hs _ _ c.vel (2 * c.ls) rfl rfl rfl (by push_cast; rfl)
      · exact fits_hyper c hs _ _ c.ls (2 * c.ls) rfl rfl rfl (by push_cast; rfl)
      · exact fits_hyper c hs _ _ c.ls (2 * c.ls) rfl rfl rfl (by push_cast; rfl)
  · intro hn
    unfold phaseMass
    rw [if_pos hn]
  · rintro ⟨h3, h4⟩
    refine ⟨(c.ls : ℤ), 0, ?_, hfit⟩
    unfold phaseMass
    rw [if_neg (by omega), chain_mem _ _ _ _ (by simp; omega)]
  · rintro ⟨h3, h4⟩
    refine ⟨(c.ls : ℤ), 0, ?_, hfit⟩
    unfold phaseVmult
    rw [chain_mem _ _ _ _ (by simp; omega)]

/-- **C85 (what is missing).** The Cahn-Hilliard matrix-vector product silently does nothing (returns the zero vector on
unconstrained entries) with zero or more than 4 subdivisions, where it should throw. -/
theorem C85_phase_vmult_silent (c : Conf) (h : c.ls = 0 ∨ 5 ≤ c.ls) : phaseVmult c = .nothing := by
  unfold phaseVmult chain
  rw [if_neg (by omega)]
  unfold chain
  rw [if_neg (by omega)]
  unfold chain
  rw [if_neg (by omega)]
  unfold chain
  rw [if_neg (by omega)]
  rfl

/-- The residual is computed before the product is used (phase_field.cc, `advance_time_step`), and it throws in all those
cases, so that no time step of the phase-field solver runs with the empty product. -/
theorem C85_phase_step_guarded (c : Conf) (h : phaseVmult c = .nothing) : phaseMacro c = .throws := by
  by_cases hls : 1 ≤ c.ls ∧ c.ls ≤ 4
  · unfold phaseVmult at h
    rw [chain_mem _ _ _ _ (by simp; omega)] at h
    cases h
  · unfold phaseMacro
    by_cases h1 : 2 ≤ c.vel ∧ c.vel ≤ 5
    · rw [if_neg (not_not.2 h1), if_pos hls]
    · rw [if_pos h1]

/-- **C85 (velocity degree 6).** The flow operators accept velocity degree 6 on hypercubes, so that such a two-phase
simulation is set up, and the level-set and phase-field operators of its first time step throw. -/
theorem C85_velocity_degree_six (ls : ℕ) (h : 1 ≤ ls ∧ ls ≤ 4) :
    let c : Conf := ⟨false, 6, ls⟩
    nsMacro c ≠ .throws ∧ lsMacro c ≠ .throws ∧ advanceMacro c = .throws ∧ okzMacro c = .throws ∧ phaseMacro c = .throws := by
  intro c
  refine ⟨(by intro h; cases h), ?_, by simp [advanceMacro, c], by simp [okzMacro, c], by simp [phaseMacro, c]⟩
  obtain ⟨a, b, hr, -⟩ := (C85_level_set_kernels c (mfTwoPhase c) okzIdx (Or.inl ⟨rfl, rfl⟩)).2 (Or.inr h)
  rw [hr]; intro h; cases h

/-! ## Examples -/

example : nsMacro ⟨false, 2, 4⟩ = .runs 1 0 ∧ okzMacro ⟨false, 2, 4⟩ = .runs 4 2 ∧ advanceMacro ⟨false, 3, 2⟩ = .runs 2 3 ∧
    nsMacro ⟨false, 1, 1⟩ = .throws ∧ nsMacro ⟨true, 8, 1⟩ = .throws ∧ okzMacro ⟨true, 8, 1⟩ = .runs (-1) (-1) := by decide

example : phaseCtorThrows ⟨false, 2, 4⟩ false = false := rfl

end Verif.Operator.Dispatch
