import Verif.Time.Spec
import Mathlib.Analysis.Real.Sqrt
import Mathlib.Algebra.Order.Ring.Rat
import Mathlib.Algebra.Module.LinearMap.Defs
import Mathlib.Tactic.Module
import Mathlib.Tactic.Positivity
import Mathlib.Tactic.FieldSimp
import Mathlib.Tactic.Abel

/-!
# C22, C52: block preconditioner of the Cahn-Hilliard solver (source/phase_field.cc)
-/

namespace Verif.PhaseField

variable {V : Type*} [AddCommGroup V] [Module ℝ V]

/-- `BlockPreconditionerSimple::vmult`, source/phase_field.cc:385-401; `prec` is
`preconditioner.vmult`, `mass` is `mass_matrix.vmult`. -/
noncomputable def blockPrecondition (prec mass : V → V) (factor : ℝ) (src : V × V) : V × V :=
  let temp := src.1 + factor • src.2
  let d1 := prec temp
  let temp := mass d1
  let temp := temp + (-factor) • src.2
  let d0 := prec temp
  (d0, (1 / factor) • d1 + (-(1 / factor)) • d0)

/-- Physical constants entering the solve. -/
structure CHParams where
  surfaceTension : ℝ
  epsilon : ℝ
  diffusionLength : ℝ
  weight : ℝ

/-- `factor_4`, source/phase_field.cc:419. -/
noncomputable def CHParams.factor4 (p : CHParams) : ℝ := 0.75 * p.surfaceTension * p.epsilon
/-- `factor_mobility`, lines 420-422. -/
noncomputable def CHParams.mobility (p : CHParams) : ℝ := p.diffusionLength * p.diffusionLength / p.weight
/-- `delta_eps`, line 423. -/
noncomputable def CHParams.deltaEps (p : CHParams) : ℝ := Real.sqrt (p.mobility / p.factor4)
/-- `coefficient` of the stiffness part of the preconditioner matrix, lines 271-274. -/
noncomputable def CHParams.coefficient (p : CHParams) : ℝ :=
  Real.sqrt (0.75 * p.surfaceTension * p.epsilon * p.diffusionLength * p.diffusionLength / p.weight)

/-- The matrix assembled in `create_cahn_hilliard_preconditioner`, lines 278-300: mass plus
coefficient times stiffness. -/
noncomputable def precMatrix (p : CHParams) (M S : V →ₗ[ℝ] V) (x : V) : V := M x + p.coefficient • S x

/-- Specification: the reference block matrix
`[[M + 2 sqrt(m f) S, m S], [-f S, M]]` with `m` the mobility factor and `f` the gradient factor. -/
noncomputable def referenceMatrix (p : CHParams) (M S : V →ₗ[ℝ] V) (x : V × V) : V × V :=
  (M x.1 + (2 * Real.sqrt (p.mobility * p.factor4)) • S x.1 + p.mobility • S x.2,
   M x.2 - p.factor4 • S x.1)

/-- Positive physical constants. -/
structure CHParams.Good (p : CHParams) : Prop where
  st : 0 < p.surfaceTension
  eps : 0 < p.epsilon
  dl : 0 < p.diffusionLength
  w : 0 < p.weight

theorem CHParams.Good.pos {p : CHParams} (h : p.Good) : 0 < p.mobility ∧ 0 < p.factor4 := by
  obtain ⟨h1, h2, h3, h4⟩ := h
  exact ⟨by unfold CHParams.mobility; positivity, by unfold CHParams.factor4; positivity⟩

theorem coefficient_eq (p : CHParams) : p.coefficient = Real.sqrt (p.mobility * p.factor4) := by
  unfold CHParams.coefficient CHParams.mobility CHParams.factor4
  congr 1; ring

theorem factor_identities {p : CHParams} (h : p.Good) :
    0 < p.deltaEps ∧ p.coefficient * p.deltaEps = p.mobility ∧
    p.deltaEps * p.factor4 = p.coefficient := by
  obtain ⟨hm, hf⟩ := h.pos
  have hd : 0 < p.deltaEps := Real.sqrt_pos.2 (div_pos hm hf)
  refine ⟨hd, ?_, ?_⟩
  · rw [coefficient_eq, CHParams.deltaEps, ← Real.sqrt_mul (by positivity)]
    rw [show p.mobility * p.factor4 * (p.mobility / p.factor4) = p.mobility * p.mobility by
      field_simp]
    exact Real.sqrt_mul_self hm.le
  · rw [coefficient_eq, CHParams.deltaEps]
    have : p.factor4 = Real.sqrt (p.factor4 * p.factor4) := (Real.sqrt_mul_self hf.le).symm
    rw (occs := .pos [2]) [this]
    rw [← Real.sqrt_mul (by positivity)]
    congr 1; field_simp

/-- **C22 (right inverse).** With an exact inner solver, the preconditioner's result solves the system
with the reference matrix. -/
theorem C22_solves_reference (p : CHParams) (hp : p.Good) (M S : V →ₗ[ℝ] V) (prec : V → V)
    (hprec : ∀ r, precMatrix p M S (prec r) = r) (src : V × V) :
    referenceMatrix p M S (blockPrecondition prec M p.deltaEps src) = src := by
  obtain ⟨hd, hca, haf⟩ := factor_identities hp
  obtain ⟨r0, r1⟩ := src
  have h1 := hprec (r0 + p.deltaEps • r1)
  have h2 := hprec (M (prec (r0 + p.deltaEps • r1)) + (-p.deltaEps) • r1)
  simp only [blockPrecondition, referenceMatrix, ← coefficient_eq]
  generalize prec (r0 + p.deltaEps • r1) = y at h1 h2 ⊢
  generalize prec (M y + (-p.deltaEps) • r1) = x0 at h2 ⊢
  simp only [precMatrix] at h1 h2
  have hc : p.coefficient = p.deltaEps * p.factor4 := haf.symm
  have hm : p.mobility = p.deltaEps * p.factor4 * p.deltaEps := by rw [← hc, hca]
  generalize p.deltaEps = a at *
  generalize p.factor4 = f at *
  rw [hc] at h1 h2 ⊢
  rw [hm]
  have ha : a ≠ 0 := hd.ne'
  -- second equation solved for `M x1`
  have e2 : M ((1 / a) • y + (-(1 / a)) • x0) - f • S x0 = r1 := by
    have : M y = M x0 + (a * f) • S x0 + a • r1 := by rw [h2]; module
    rw [map_add, map_smul, map_smul, this]
    have h3 : (1 / a) • (M x0 + (a * f) • S x0 + a • r1) + (-(1 / a)) • M x0 - f • S x0
        = ((1 / a) * (a * f) - f) • S x0 + ((1 / a) * a) • r1 := by module
    rw [h3, one_div, inv_mul_cancel_left₀ ha, inv_mul_cancel₀ ha]; module
  refine Prod.ext ?_ e2
  have e3 : r0 = M y + (a * f) • S y - a • r1 := by rw [h1]; module
  have e4 : M y = M x0 + (a * f) • S x0 + a • r1 := by rw [h2]; module
  simp only [map_add, map_smul]
  rw [e3, e4]
  have : (a * f * a) • ((1 / a) • S y + (-(1 / a)) • S x0) = (a * f) • S y - (a * f) • S x0 := by
    have h3 : (a * f * a) • ((1 / a) • S y + (-(1 / a)) • S x0)
        = (f * a * (a * (1 / a))) • S y - (f * a * (a * (1 / a))) • S x0 := by module
    rw [h3, mul_one_div_cancel ha]; module
  rw [this]
  module

/-- **C22 (left inverse).** If the inner solver also recovers vectors from their image, the
preconditioner recovers `(c, w)` from the reference product: it is the exact inverse. -/
theorem C22_inverts_reference (p : CHParams) (hp : p.Good) (M S : V →ₗ[ℝ] V) (prec : V → V)
    (hprec : ∀ x, prec (precMatrix p M S x) = x) (x : V × V) :
    blockPrecondition prec M p.deltaEps (referenceMatrix p M S x) = x := by
  obtain ⟨hd, hca, haf⟩ := factor_identities hp
  obtain ⟨x0, x1⟩ := x
  simp only [blockPrecondition, referenceMatrix, ← coefficient_eq]
  have hc : p.coefficient = p.deltaEps * p.factor4 := haf.symm
  have hm : p.mobility = p.deltaEps * p.factor4 * p.deltaEps := by rw [← hc, hca]
  simp only [precMatrix] at hprec
  generalize p.deltaEps = a at *
  generalize p.factor4 = f at *
  rw [hc] at hprec ⊢
  rw [hm]
  have ha : a ≠ 0 := hd.ne'
  have t1 : M x0 + (2 * (a * f)) • S x0 + (a * f * a) • S x1 + a • (M x1 - f • S x0)
      = M (x0 + a • x1) + (a * f) • S (x0 + a • x1) := by
    simp only [map_add, map_smul]; module
  rw [t1, hprec]
  have t2 : M (x0 + a • x1) + (-a) • (M x1 - f • S x0) = M x0 + (a * f) • S x0 := by
    simp only [map_add, map_smul]; module
  rw [t2, hprec]
  refine Prod.ext rfl ?_
  have : (1 / a) • (x0 + a • x1) + (-(1 / a)) • x0 = ((1 / a) * a) • x1 := by module
  rw [this, one_div, inv_mul_cancel₀ ha, one_smul]

/-- Non-vacuity: scalar mass 2 and stiffness 3 with unit constants have an exact inner solver. -/
example : ∃ p : CHParams, p.Good ∧ ∃ prec : ℝ → ℝ, ∀ r,
    precMatrix p ((2 : ℝ) • LinearMap.id : ℝ →ₗ[ℝ] ℝ) ((3 : ℝ) • LinearMap.id) (prec r) = r := by
  refine ⟨⟨1, 1, 1, 1⟩, ⟨by norm_num, by norm_num, by norm_num, by norm_num⟩, ?_⟩
  refine ⟨fun r => r / (2 + 3 * CHParams.coefficient ⟨1, 1, 1, 1⟩), fun r => ?_⟩
  have : 0 ≤ CHParams.coefficient ⟨1, 1, 1, 1⟩ := Real.sqrt_nonneg _
  simp only [precMatrix, LinearMap.smul_apply, LinearMap.id_apply, smul_eq_mul]
  field_simp

/-! ## C52: the preconditioner belongs to the current time step weight -/

open Verif.Time

variable {K : Type*} [Field K] [LinearOrder K]

/-- What matters of the solver state: the clock, the weight with which the preconditioner matrix was
last assembled (`none` after `distribute_dofs()` cleared it, source/phase_field.cc:96). -/
structure CHState (K : Type*) where
  clock : TS K
  builtWith : Option K

/-- Steps of the program. -/
inductive CHCall (K : Type*)
  /-- `init_time_advance()` (calls `next()`) and then `advance_cahn_hilliard()`; optional request for
  a new step size before. -/
  | step (desired : Option K)
  /-- `distribute_dofs()` after mesh adaptation. -/
  | distribute

/-- First lines of `advance_cahn_hilliard`, source/phase_field.cc:341-343. -/
def rebuildIfNeeded (s : CHState K) : CHState K :=
  if s.clock.weightChanged = true ∨ s.builtWith = none then { s with builtWith := some s.clock.w } else s

/-- Optional `set_desired_time_step`. -/
def request (t : TS K) : Option K → TS K
  | none => t
  | some x => t.setDesired x

/-- One program step. -/
def CHCall.run : CHCall K → CHState K → CHState K
  | .step d, s => rebuildIfNeeded { s with clock := (request s.clock d).next }
  | .distribute, s => { s with builtWith := none }

theorem next_weight_unchanged (t : TS K) (h : t.next.weightChanged ≠ true) : t.next.w = t.w := by
  simp only [TS.next] at h ⊢
  rw [if_neg h]

theorem request_w (t : TS K) (d : Option K) : (request t d).w = t.w := by cases d <;> rfl

theorem step_inv (d : Option K) (s : CHState K)
    (h : s.builtWith = none ∨ s.builtWith = some s.clock.w) :
    ((CHCall.step d).run s).builtWith = some ((CHCall.step d).run s).clock.w := by
  simp only [CHCall.run, rebuildIfNeeded]
  by_cases hc : (request s.clock d).next.weightChanged = true ∨ s.builtWith = none
  · rw [if_pos hc]
  · rw [if_neg hc]
    rw [not_or] at hc
    rcases h with h | h
    · exact absurd h hc.2
    · dsimp only
      rw [h, next_weight_unchanged _ hc.1, request_w]

/-- **C52.** In every history, when the Cahn-Hilliard system is solved (after a step), the
preconditioner matrix was assembled with exactly the weight that is current. -/
theorem C52_preconditioner_matches_weight (clock : TS K) (l : List (CHCall K)) (d : Option K) :
    let s := (CHCall.step d).run (l.foldl (fun s c => c.run s) ⟨clock, none⟩)
    s.builtWith = some s.clock.w := by
  have inv : ∀ (l : List (CHCall K)) (s : CHState K), (s.builtWith = none ∨ s.builtWith = some s.clock.w) →
      ((l.foldl (fun s c => c.run s) s).builtWith = none ∨
       (l.foldl (fun s c => c.run s) s).builtWith = some (l.foldl (fun s c => c.run s) s).clock.w) := by
    intro l
    induction l with
    | nil => intro s h; exact h
    | cons c l ih =>
      intro s h
      refine ih _ ?_
      cases c with
      | distribute => exact Or.inl rfl
      | step d => exact Or.inr (step_inv d s h)
  exact step_inv d _ (inv l ⟨clock, none⟩ (Or.inl rfl))

/-- Non-vacuity: after two implicit Euler steps, the second with a halved step, the matrix has been
rebuilt with the new weight. -/
example :
    let s := [CHCall.step none, .step (some (1/4 : ℚ))].foldl (fun s c => c.run s)
      (⟨TS.ctor ⟨.implicitEuler, 0, 10, 1/2, 1, 1/100⟩, none⟩ : CHState ℚ)
    s.builtWith = some 4 ∧ s.clock.w = 4 := by decide +kernel

end Verif.PhaseField
