import Verif.Parameters.Model
import Mathlib.Tactic.Common

/-!
# C21: the swapped coefficient buffers of `NavierStokesMatrix`
(source/navier_stokes_matrix.cc, source/navier_stokes_preconditioner.cc)
-/

namespace Verif.Operator

open Verif.Parameters (PrecVelocity)

/-- One set of the per-quadrature-point fields of `NavierStokesMatrix`
(include/adaflo/navier_stokes_matrix.h:263-275): `linearized_velocities`, `variable_densities`,
`variable_viscosities`, `variable_damping_coefficients`. -/
structure Fields (α : Type*) where
  lin : List α
  rho : List α
  mu : List α
  damp : List α
  deriving DecidableEq

/-- The mutable data: the live fields and the `..._preconditioner` copies. -/
structure Buffers (α : Type*) where
  live : Fields α
  frozen : Fields α
  deriving DecidableEq

variable {α β : Type*}

/-- `AlignedVector::resize(n, v)`: keeps existing entries. -/
def resizeList (l : List α) (n : ℕ) (v : α) : List α := l.take n ++ List.replicate (n - l.length) v

/-- `NavierStokesMatrix::initialize`, source/navier_stokes_matrix.cc:97-108, storage part.
`varCoef` is `density_diff != 0 || viscosity_diff != 0`, `explicitLin` is
`linearization == coupled_velocity_explicit`. -/
def initStorage (varCoef explicitLin : Bool) (n : ℕ) (rho0 mu0 zero : α) (s : Buffers α) : Buffers α :=
  let l := s.live
  let l := if varCoef then { l with rho := resizeList l.rho n rho0, mu := resizeList l.mu n mu0,
                                    damp := resizeList l.damp n zero } else l
  let l := if explicitLin then l else { l with lin := resizeList l.lin n zero }
  { s with live := l }

/-- `NavierStokesMatrix::clear`, lines 172-187. -/
def clear (_ : Buffers α) : Buffers α := ⟨⟨[], [], [], []⟩, ⟨[], [], [], []⟩⟩

/-- `NavierStokesMatrix::fix_linearization_point`, lines 1144-1152. -/
def fixPoint (s : Buffers α) : Buffers α := { s with frozen := s.live }

/-- Storage effect of `NavierStokesPreconditioner::assemble_matrices`,
source/navier_stokes_preconditioner.cc:2393-2399. -/
def assemble (p : PrecVelocity) (s : Buffers α) : Buffers α :=
  if p = .amg ∨ p = .amgLinear then fixPoint s else s

/-- The user (the two-phase solver) writes new coefficients through `begin_densities`,
`begin_viscosities`, `begin_damping_coeff` (include/adaflo/navier_stokes_matrix.h:290-370): entries
change, sizes do not. -/
def setCoefficients (rho mu damp : α → α) (s : Buffers α) : Buffers α :=
  { s with live := { s.live with rho := s.live.rho.map rho, mu := s.live.mu.map mu,
                                 damp := s.live.damp.map damp } }

/-- `residual` stores the linearization point (lines 757-803): overwrites every entry of the live
`linearized_velocities`. -/
def residual (new : ℕ → α) (s : Buffers α) : Buffers α :=
  { s with live := { s.live with lin := s.live.lin.mapIdx fun i _ => new i } }

/-- Exchange of all four buffers, lines 351-354 and 371-374. -/
def swapAll (s : Buffers α) : Buffers α := ⟨s.frozen, s.live⟩

/-- Exchange of the densities, lines 399 and 410. -/
def swapRho (s : Buffers α) : Buffers α :=
  ⟨{ s.live with rho := s.frozen.rho }, { s.frozen with rho := s.live.rho }⟩

/-- Exchange of the viscosities, lines 430 and 441. -/
def swapMu (s : Buffers α) : Buffers α :=
  ⟨{ s.live with mu := s.frozen.mu }, { s.frozen with mu := s.live.mu }⟩

/-- `velocity_vmult`, lines 339-382 (without the constrained entries, see C30).  The cell loop is the
oracle `kernel`, which sees the live fields.  Note the two different guards. -/
def velocityVmult (kernel : Fields α → β) (s : Buffers α) : β × Buffers α :=
  let s := if s.frozen.lin.length > 0 then swapAll s else s
  let r := kernel s.live
  let s := if s.live.lin.length > 0 then swapAll s else s
  (r, s)

/-- `pressure_poisson_vmult`, lines 386-418. -/
def poissonVmult (kernel : Fields α → β) (s : Buffers α) : β × Buffers α :=
  let s := if s.frozen.rho.length > 0 then swapRho s else s
  let r := kernel s.live
  let s := if s.frozen.rho.length > 0 then swapRho s else s
  (r, s)

/-- `pressure_mass_vmult`, lines 422-457.  Note the two different guards. -/
def massVmult (kernel : Fields α → β) (s : Buffers α) : β × Buffers α :=
  let s := if s.frozen.mu.length > 0 then swapMu s else s
  let r := kernel s.live
  let s := if s.live.mu.length > 0 then swapMu s else s
  (r, s)

/-- What the program does with a matrix object between two calls of `initialize`. -/
inductive Call (α : Type*)
  | setCoefficients (rho mu damp : α → α)
  | residual (new : ℕ → α)
  | assemble (p : PrecVelocity)
  | velocity
  | poisson
  | mass

/-- Effect of one call on the storage. -/
def Call.run : Call α → Buffers α → Buffers α
  | .setCoefficients a b c, s => Operator.setCoefficients a b c s
  | .residual f, s => Operator.residual f s
  | .assemble p, s => Operator.assemble p s
  | .velocity, s => (velocityVmult (fun _ => ()) s).2
  | .poisson, s => (poissonVmult (fun _ => ()) s).2
  | .mass, s => (massVmult (fun _ => ()) s).2

/-- Is it one of the products? -/
def Call.isProduct : Call α → Bool
  | .velocity | .poisson | .mass => true
  | _ => false

/-- Is it an assembly with an ILU velocity preconditioner? -/
def Call.isIlu : Call α → Bool
  | .assemble p => !(p == .amg || p == .amgLinear)
  | _ => false

/-- A sequence of calls. -/
def runAll (l : List (Call α)) (s : Buffers α) : Buffers α := l.foldl (fun s c => c.run s) s

/-- State of the storage after `clear(); initialize(...)`. -/
def fresh (varCoef explicitLin : Bool) (n : ℕ) (rho0 mu0 zero : α) : Buffers α :=
  initStorage varCoef explicitLin n rho0 mu0 zero (clear ⟨⟨[], [], [], []⟩, ⟨[], [], [], []⟩⟩)

/-! ## Theorems -/

/-- Live and frozen fields have the same lengths. -/
def SameSizes (s : Buffers α) : Prop :=
  s.live.lin.length = s.frozen.lin.length ∧ s.live.rho.length = s.frozen.rho.length ∧
  s.live.mu.length = s.frozen.mu.length ∧ s.live.damp.length = s.frozen.damp.length

theorem velocity_id {kernel : Fields α → β} {s : Buffers α} (h : SameSizes s) :
    (velocityVmult kernel s).2 = s := by
  obtain ⟨h1, -⟩ := h
  unfold velocityVmult swapAll
  by_cases hc : s.frozen.lin.length > 0
  · have : s.live.lin.length > 0 := by omega
    simp [hc]
  · have : ¬ s.live.lin.length > 0 := by omega
    simp only [if_neg hc, if_neg this]

theorem poisson_id {kernel : Fields α → β} {s : Buffers α} (h : SameSizes s) :
    (poissonVmult kernel s).2 = s := by
  obtain ⟨-, h1, -⟩ := h
  unfold poissonVmult swapRho
  by_cases hc : s.frozen.rho.length > 0
  · have : s.live.rho.length > 0 := by omega
    simp [hc, this]
  · simp only [if_neg hc]

theorem mass_id {kernel : Fields α → β} {s : Buffers α} (h : SameSizes s) :
    (massVmult kernel s).2 = s := by
  obtain ⟨-, -, h1, -⟩ := h
  unfold massVmult swapMu
  by_cases hc : s.frozen.mu.length > 0
  · simp [hc]
  · have : ¬ s.live.mu.length > 0 := by omega
    simp only [if_neg hc, if_neg this]

theorem run_sameSizes {c : Call α} (hc : c.isIlu = false) {s : Buffers α} (h : SameSizes s) :
    SameSizes (c.run s) := by
  cases c with
  | setCoefficients a b c => simpa [Call.run, setCoefficients, SameSizes] using h
  | residual f => simpa [Call.run, residual, SameSizes] using h
  | assemble p =>
    simp only [Call.run, assemble]
    split
    · simp [fixPoint, SameSizes]
    · exact h
  | velocity => simp only [Call.run]; rwa [velocity_id h]
  | poisson => simp only [Call.run]; rwa [poisson_id h]
  | mass => simp only [Call.run]; rwa [mass_id h]

theorem runAll_sameSizes {l : List (Call α)} (hl : ∀ c ∈ l, c.isIlu = false) {s : Buffers α}
    (h : SameSizes s) : SameSizes (runAll l s) := by
  induction l generalizing s with
  | nil => exact h
  | cons c l ih =>
    exact ih (fun c hc => hl c (List.mem_cons_of_mem _ hc)) (run_sameSizes (hl c (by simp)) h)

/-- The call history of a solver that uses an AMG velocity preconditioner: after `initialize`, no
product before the first assembly, every assembly with AMG. -/
def AmgHistory (l : List (Call α)) : Prop :=
  ∃ pre p post, l = pre ++ .assemble p :: post ∧ (p = .amg ∨ p = .amgLinear) ∧
    (∀ c ∈ post, c.isIlu = false)

/-- **C21 (partial: AMG velocity preconditioners).** After every history of an AMG solver, each of the
three products leaves all live and frozen fields as they were. -/
theorem C21_products_const_partial (s₀ : Buffers α) (l : List (Call α)) (hl : AmgHistory l)
    (kernel : Fields α → β) :
    (velocityVmult kernel (runAll l s₀)).2 = runAll l s₀ ∧
    (poissonVmult kernel (runAll l s₀)).2 = runAll l s₀ ∧
    (massVmult kernel (runAll l s₀)).2 = runAll l s₀ := by
  obtain ⟨pre, p, post, rfl, hp, hpost⟩ := hl
  have : SameSizes (runAll (pre ++ .assemble p :: post) s₀) := by
    have e : runAll (pre ++ .assemble p :: post) s₀ = runAll post (fixPoint (runAll pre s₀)) := by
      simp [runAll, Call.run, assemble, hp]
    rw [e]
    exact runAll_sameSizes hpost (by simp [SameSizes, fixPoint])
  exact ⟨velocity_id this, poisson_id this, mass_id this⟩

/-- Products can therefore be inserted or dropped anywhere without affecting the storage. -/
theorem C21_products_unobservable_partial (s₀ : Buffers α) (pre post : List (Call α)) (p : PrecVelocity)
    (hp : p = .amg ∨ p = .amgLinear) (hpost : ∀ c ∈ post, c.isIlu = false) :
    runAll (pre ++ .assemble p :: post) s₀ =
      runAll (pre ++ .assemble p :: post.filter fun c => !c.isProduct) s₀ := by
  have e : ∀ q : List (Call α), runAll (pre ++ .assemble p :: q) s₀
      = runAll q (fixPoint (runAll pre s₀)) := by
    intro q; simp [runAll, Call.run, assemble, hp]
  rw [e, e]
  have hs : SameSizes (fixPoint (runAll pre s₀)) := by simp [SameSizes, fixPoint]
  generalize fixPoint (runAll pre s₀) = s at hs
  clear e
  induction post generalizing s with
  | nil => rfl
  | cons c l ih =>
    have hc := hpost c (by simp)
    have hl : ∀ c ∈ l, c.isIlu = false := fun c hc => hpost c (List.mem_cons_of_mem _ hc)
    have h1 : runAll (c :: l) s = runAll l (c.run s) := rfl
    rw [h1, ih hl _ (run_sameSizes hc hs)]
    cases c with
    | velocity => simp only [Call.run, velocity_id hs, List.filter_cons, Call.isProduct,
        Bool.not_true, Bool.false_eq_true, if_false]
    | poisson => simp only [Call.run, poisson_id hs, List.filter_cons, Call.isProduct,
        Bool.not_true, Bool.false_eq_true, if_false]
    | mass => simp only [Call.run, mass_id hs, List.filter_cons, Call.isProduct,
        Bool.not_true, Bool.false_eq_true, if_false]
    | setCoefficients a b d => simp [List.filter_cons, Call.isProduct, runAll]
    | residual f => simp [List.filter_cons, Call.isProduct, runAll]
    | assemble p => simp [List.filter_cons, Call.isProduct, runAll]

/-- **C21 (frozen fields are used).** If frozen fields exist, the products read them: all four fields
for the velocity product, densities for the Poisson product, viscosities for the mass product. -/
theorem C21_uses_frozen (kernel : Fields α → β) (s : Buffers α) :
    (s.frozen.lin ≠ [] → (velocityVmult kernel s).1 = kernel s.frozen) ∧
    (s.frozen.rho ≠ [] → (poissonVmult kernel s).1 = kernel { s.live with rho := s.frozen.rho }) ∧
    (s.frozen.mu ≠ [] → (massVmult kernel s).1 = kernel { s.live with mu := s.frozen.mu }) := by
  refine ⟨fun h => ?_, fun h => ?_, fun h => ?_⟩ <;>
    have := List.length_pos_iff.2 h
  · simp [velocityVmult, swapAll, this]
  · simp [poissonVmult, swapRho, this]
  · simp [massVmult, swapMu, this]

/-- The fields of the last assembly stay frozen: after any history whose last assembly is AMG, the
frozen fields are the live fields at that moment. -/
theorem C21_frozen_from_last_assembly (s₀ : Buffers α) (pre post : List (Call α)) (p : PrecVelocity)
    (hp : p = .amg ∨ p = .amgLinear) (hpost : ∀ c ∈ post, ∀ q, c ≠ .assemble q) :
    (runAll (pre ++ .assemble p :: post) s₀).frozen = (runAll pre s₀).live := by
  have e : runAll (pre ++ .assemble p :: post) s₀ = runAll post (fixPoint (runAll pre s₀)) := by
    simp [runAll, Call.run, assemble, hp]
  rw [e]
  have hf : (fixPoint (runAll pre s₀)).frozen = (runAll pre s₀).live := rfl
  have hs : SameSizes (fixPoint (runAll pre s₀)) := by simp [SameSizes, fixPoint]
  rw [← hf]
  generalize fixPoint (runAll pre s₀) = s at hs
  clear hf e
  induction post generalizing s with
  | nil => rfl
  | cons c l ih =>
    have hc : c.isIlu = false := by
      cases c with
      | assemble q => exact absurd rfl (hpost _ (by simp) q)
      | _ => rfl
    have h1 : runAll (c :: l) s = runAll l (c.run s) := rfl
    rw [h1, ih (fun c hc => hpost c (List.mem_cons_of_mem _ hc)) _ (run_sameSizes hc hs)]
    cases c with
    | assemble q => exact absurd rfl (hpost _ (by simp) q)
    | velocity => simp only [Call.run, velocity_id hs]
    | poisson => simp only [Call.run, poisson_id hs]
    | mass => simp only [Call.run, mass_id hs]
    | setCoefficients a b d => rfl
    | residual f => rfl

/-- **C21 (full statement fails): ILU velocity preconditioner.** With `u_ilu` nothing is frozen; every
velocity product moves the linearization point and coefficients out of the live fields: for every
state with non-empty linearization data, afterwards the live fields are the (empty) frozen ones. -/
theorem C21_ilu_velocity_product_loses_data (kernel : Fields α → β) (s : Buffers α)
    (hf : s.frozen.lin = []) (hl : s.live.lin ≠ []) :
    (velocityVmult kernel s).2 = ⟨s.frozen, s.live⟩ ∧ (velocityVmult kernel s).2.live.lin = [] := by
  have := List.length_pos_iff.2 hl
  simp [velocityVmult, hf, this, swapAll]

/-- **C21 (full statement fails): diagonal pressure mass matrix.** With `u_ilu` and variable
coefficients, `compute()` for a diagonal pressure mass preconditioner calls the mass product,
which removes all viscosities; a second product does not bring them back. -/
theorem C21_ilu_mass_product_loses_viscosity (kernel : Fields α → β) (s : Buffers α)
    (hf : s.frozen.mu = []) (hl : s.live.mu ≠ []) :
    (massVmult kernel s).2.live.mu = [] ∧
    (massVmult kernel (massVmult kernel s).2).2.live.mu = [] := by
  have := List.length_pos_iff.2 hl
  simp [massVmult, hf, this, swapMu]

/-- The hypotheses of the two counterexamples hold in the program: fresh matrix, one residual, ILU
assembly. -/
example : let s := runAll [.residual (fun i => i), .assemble .ilu] (fresh true false 3 (1 : ℕ) 2 0)
    s.frozen.lin = [] ∧ s.frozen.mu = [] ∧ s.live.lin = [0, 1, 2] ∧ s.live.mu = [2, 2, 2] := by decide +kernel

/-- Non-vacuity of the AMG theorems. -/
example : AmgHistory [Call.residual (fun i => i), .assemble .amg, .velocity, .mass,
      .setCoefficients (· + 1) (· + 2) id, .residual (fun i => 10 * i), .poisson] ∧
    runAll [Call.residual (fun i => i), .assemble .amg, .velocity, .mass,
      .setCoefficients (· + 1) (· + 2) id, .residual (fun i => 10 * i), .poisson]
      (fresh true false 3 (1 : ℕ) 2 0)
      = ⟨⟨[0, 10, 20], [2, 2, 2], [4, 4, 4], [0, 0, 0]⟩, ⟨[0, 1, 2], [1, 1, 1], [2, 2, 2], [0, 0, 0]⟩⟩ := by
  refine ⟨⟨[_], .amg, _, rfl, Or.inl rfl, ?_⟩, by decide +kernel⟩
  simp [Call.isIlu]

/-- **C21 (initial storage).** After setup the variable coefficients hold the constant values of the parameter file at every
point (and nothing is stored for constant coefficients), a linearization point is stored exactly if the scheme needs one, and
nothing is frozen yet - irrespective of what was stored for the previous mesh. -/
theorem C21_initial_storage {α : Type*} (varCoef explicitLin : Bool) (n : ℕ) (rho0 mu0 zero : α) (s : Buffers α) :
    let r := initStorage varCoef explicitLin n rho0 mu0 zero (clear s)
    (varCoef = true → r.live.rho = List.replicate n rho0 ∧ r.live.mu = List.replicate n mu0 ∧
      r.live.damp = List.replicate n zero) ∧
    (varCoef = false → r.live.rho = [] ∧ r.live.mu = [] ∧ r.live.damp = []) ∧
    (explicitLin = false → r.live.lin = List.replicate n zero) ∧ (explicitLin = true → r.live.lin = []) ∧
    r.frozen = ⟨[], [], [], []⟩ ∧ r = fresh varCoef explicitLin n rho0 mu0 zero := by
  cases varCoef <;> cases explicitLin <;> simp [initStorage, clear, resizeList, fresh]

end Verif.Operator
