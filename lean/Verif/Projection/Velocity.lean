import Verif.Operator.Buffers

/-!
# C77: the matrix of the velocity step of the projection scheme
(source/navier_stokes_preconditioner.cc: solve_projection_system 787-811, compute 903-904, assemble_matrices 2393-2399,
VelocityMatrix::vmult 325-330; source/navier_stokes_matrix.cc: velocity_vmult 338-382, local_operation 757-803;
source/navier_stokes.cc: evaluate_time_step 760-776, solve_nonlinear_system 868-889)

The velocity equation of a projection step is solved by GMRES with `*uu_amg_mat`, whose product is
`NavierStokesMatrix::velocity_vmult`; the storage of that class is modelled in Operator/Buffers.lean.
-/

namespace Verif.Projection

open Verif.Operator Verif.Parameters

variable {α : Type*}

/-- One time step as seen by the storage: new coefficients (two-phase flow), the velocities `lin q` extrapolated to the new
time at the quadrature points, whether the preconditioner is rebuilt (`build_preconditioner`, lines 877-887), and the products
of the linear solvers in their order. -/
structure VStep (α : Type*) where
  coef : Option ((α → α) × (α → α) × (α → α))
  lin : ℕ → α
  rebuild : Bool
  products : List (Call α)

/-- New coefficients, then `compute_initial_residual`. -/
def VStep.start (e : VStep α) : List (Call α) :=
  (match e.coef with | some (a, b, c) => [Call.setCoefficients a b c] | none => []) ++ [Call.residual e.lin]

/-- Part of the step before the linear solve: residual and `build_preconditioner`. -/
def VStep.before (p : PrecVelocity) (e : VStep α) : List (Call α) :=
  e.start ++ (if e.rebuild then [Call.assemble p] else [])

def VStep.calls (p : PrecVelocity) (e : VStep α) : List (Call α) := e.before p ++ e.products

/-- The fields in the products of the velocity solver in the step `e` after the steps `es`. -/
def usedFields (p : PrecVelocity) (s₀ : Buffers α) (es : List (VStep α)) (e : VStep α) : Fields α :=
  (velocityVmult id (runAll (es.flatMap (VStep.calls p) ++ e.before p) s₀)).1

/-- Specification: the velocities extrapolated for the step, at all quadrature points. -/
def Spec.velocities (n : ℕ) (e : VStep α) : List α := (List.range n).map e.lin

/-- The live fields have `n` entries of the linearization point. -/
theorem lin_length (n : ℕ) (p : PrecVelocity) (hp : p = .amg ∨ p = .amgLinear) (cs : List (Call α))
    (hc : ∀ c ∈ cs, c.isIlu = false) (s : Buffers α) (h : SameSizes s) (hn : s.live.lin.length = n) :
    (runAll cs s).live.lin.length = n := by
  induction cs generalizing s with
  | nil => exact hn
  | cons c cs ih =>
    have hc0 := hc c List.mem_cons_self
    refine ih (fun c h => hc c (List.mem_cons_of_mem _ h)) (c.run s) (run_sameSizes hc0 h) ?_
    cases c with
    | setCoefficients a b c => simpa [Call.run, setCoefficients] using hn
    | residual f => simpa [Call.run, residual] using hn
    | assemble q =>
      simp only [Call.run, assemble]
      split_ifs <;> simpa [fixPoint] using hn
    | velocity => simp only [Call.run]; rwa [velocity_id h]
    | poisson => simp only [Call.run]; rwa [poisson_id h]
    | mass => simp only [Call.run]; rwa [mass_id h]

theorem mapIdx_const (l : List α) (f : ℕ → α) : l.mapIdx (fun i _ => f i) = (List.range l.length).map f := by
  apply List.ext_getElem
  · simp
  · intro i h1 h2; simp

/-- A history of steps: products are products, and the first step rebuilds the preconditioner (`update_preconditioner` is set by
`initialize_data_structures`, navier_stokes.cc:358). -/
structure History (es : List (VStep α)) : Prop where
  products : ∀ e ∈ es, ∀ c ∈ e.products, c.isProduct = true
  first : ∀ e, es.head? = some e → e.rebuild = true

theorem calls_noIlu (p : PrecVelocity) (hp : p = .amg ∨ p = .amgLinear) (e : VStep α)
    (h : ∀ c ∈ e.products, c.isProduct = true) : ∀ c ∈ e.calls p, c.isIlu = false := by
  intro c hc
  unfold VStep.calls VStep.before VStep.start at hc
  rcases List.mem_append.1 hc with hc | hc
  · rcases List.mem_append.1 hc with hc | hc
    · rcases List.mem_append.1 hc with hc | hc
      · cases he : e.coef with
        | none => rw [he] at hc; simp at hc
        | some x => rw [he] at hc; simp at hc; subst hc; rfl
      · simp at hc; subst hc; rfl
    · split_ifs at hc
      · simp at hc; subst hc
        rcases hp with rfl | rfl <;> rfl
      · simp at hc
  · cases c with
    | assemble q => exact absurd (h _ hc) (by simp [Call.isProduct])
    | _ => rfl

theorem noAssemble_of_not_rebuild (p : PrecVelocity) (e : VStep α) (hr : e.rebuild = false) :
    ∀ c ∈ e.before p, ∀ q, c ≠ .assemble q := by
  intro c hc q
  unfold VStep.before VStep.start at hc
  rw [hr] at hc
  cases he : e.coef with
  | none => rw [he] at hc; simp at hc; subst hc; simp
  | some x =>
    rw [he] at hc; simp at hc
    rcases hc with rfl | rfl <;> simp

theorem noAssemble_products (e : VStep α) (h : ∀ c ∈ e.products, c.isProduct = true) :
    ∀ c ∈ e.products, ∀ q, c ≠ .assemble q := by
  intro c hc q hq
  subst hq
  exact absurd (h _ hc) (by simp [Call.isProduct])

theorem runAll_append (a b : List (Call α)) (s : Buffers α) : runAll (a ++ b) s = runAll b (runAll a s) := by
  unfold runAll; rw [List.foldl_append]

/-- Before the first rebuild of a fresh object nothing but the coefficients and the linearization point changes (no products are
taken), so the number of entries stays. -/
theorem lin_length_before (n : ℕ) (e : VStep α) (s : Buffers α) (hn : s.live.lin.length = n) :
    (runAll e.start s).live.lin =
      Spec.velocities n e := by
  unfold VStep.start
  rw [runAll_append]
  cases he : e.coef with
  | none =>
    simp only [runAll, List.foldl_nil, List.foldl_cons, Call.run, residual]
    rw [mapIdx_const, hn]; rfl
  | some x =>
    simp only [runAll, List.foldl_nil, List.foldl_cons, Call.run, residual, setCoefficients]
    rw [mapIdx_const, hn]; rfl

theorem fresh_length (n : ℕ) (varCoef : Bool) (rho0 mu0 zero : α) : (fresh varCoef false n rho0 mu0 zero).live.lin.length = n := by
  cases varCoef <;> simp [fresh, initStorage, clear, resizeList]

/-- The number of entries of the linearization point after a history. -/
theorem history_length (n : ℕ) (varCoef : Bool) (rho0 mu0 zero : α) (p : PrecVelocity) (hp : p = .amg ∨ p = .amgLinear)
    (es : List (VStep α)) (h : History es) :
    (runAll (es.flatMap (VStep.calls p)) (fresh varCoef false n rho0 mu0 zero)).live.lin.length = n := by
  cases es with
  | nil => exact fresh_length n varCoef rho0 mu0 zero
  | cons f es =>
    rw [List.flatMap_cons]
    have hb : f.calls p ++ es.flatMap (VStep.calls p) =
        f.start ++ ([Call.assemble p] ++ (f.products ++ es.flatMap (VStep.calls p))) := by
      unfold VStep.calls VStep.before
      rw [h.first f rfl, if_pos rfl]
      simp only [List.append_assoc]
    rw [hb, runAll_append, runAll_append]
    have hfix : ∀ s : Buffers α, runAll [Call.assemble p] s = fixPoint s := by
      intro s; simp [runAll, Call.run, assemble, hp]
    rw [hfix]
    refine lin_length n p hp _ ?_ _ (by simp [SameSizes, fixPoint]) ?_
    · intro c hc
      rcases List.mem_append.1 hc with hc | hc
      · have := h.products f List.mem_cons_self c hc
        cases c with
        | assemble q => exact absurd this (by simp [Call.isProduct])
        | _ => rfl
      · obtain ⟨x, hx, hc⟩ := List.mem_flatMap.1 hc
        exact calls_noIlu p hp x (h.products x (List.mem_cons_of_mem _ hx)) c hc
    · change (runAll f.start _).live.lin.length = n
      rw [lin_length_before n f _ (fresh_length n varCoef rho0 mu0 zero)]
      simp [Spec.velocities]

/-- **C77 (which velocities are used).** With an AMG preconditioner the matrix of the velocity step is linearized at the
velocities extrapolated in the step `r` in which the preconditioner was rebuilt last, for every history of steps after the
setup; `post` are the steps after `r` up to the current one, all without a rebuild. -/
theorem C77_uses_last_rebuild (n : ℕ) (hn : 0 < n) (varCoef : Bool) (rho0 mu0 zero : α) (p : PrecVelocity)
    (hp : p = .amg ∨ p = .amgLinear) (pre post : List (VStep α)) (r e : VStep α) (h : History (pre ++ r :: post))
    (hr : r.rebuild = true) (hnr : ∀ x ∈ post, x.rebuild = false) (her : e.rebuild = false) :
    (usedFields p (fresh varCoef false n rho0 mu0 zero) (pre ++ r :: post) e).lin = Spec.velocities n r := by
  have hpre : History pre := by
    refine ⟨fun e he => h.products e (List.mem_append_left _ he), fun e he => h.first e ?_⟩
    rw [List.head?_append, he]; rfl
  have hlen := history_length n varCoef rho0 mu0 zero p hp pre hpre
  have hlist : (pre ++ r :: post).flatMap (VStep.calls p) ++ e.before p =
      (pre.flatMap (VStep.calls p) ++ r.start) ++
      .assemble p :: (r.products ++ post.flatMap (VStep.calls p) ++ e.before p) := by
    rw [List.flatMap_append, List.flatMap_cons]
    have hb : r.calls p = r.start ++ [Call.assemble p] ++ r.products := by
      unfold VStep.calls VStep.before
      rw [hr, if_pos rfl]
    rw [hb]
    simp only [List.append_assoc]
    rfl
  have hfroz := C21_frozen_from_last_assembly (fresh varCoef false n rho0 mu0 zero) (pre.flatMap (VStep.calls p) ++ r.start)
    (r.products ++ post.flatMap (VStep.calls p) ++ e.before p) p hp (by
      intro c hc
      rcases List.mem_append.1 hc with hc | hc
      · rcases List.mem_append.1 hc with hc | hc
        · exact noAssemble_products r (h.products r (by simp)) c hc
        · obtain ⟨x, hx, hc⟩ := List.mem_flatMap.1 hc
          unfold VStep.calls at hc
          rcases List.mem_append.1 hc with hc | hc
          · exact noAssemble_of_not_rebuild p x (hnr x hx) c hc
          · exact noAssemble_products x (h.products x (by simp [hx])) c hc
      · exact noAssemble_of_not_rebuild p e her c hc)
  have hv : (runAll (pre.flatMap (VStep.calls p) ++ r.start) (fresh varCoef false n rho0 mu0 zero)).live.lin
      = Spec.velocities n r := by
    rw [runAll_append]
    exact lin_length_before n r _ hlen
  unfold usedFields
  rw [hlist]
  have hne : (runAll ((pre.flatMap (VStep.calls p) ++ r.start) ++
      .assemble p :: (r.products ++ post.flatMap (VStep.calls p) ++ e.before p))
        (fresh varCoef false n rho0 mu0 zero)).frozen.lin ≠ [] := by
    rw [hfroz, hv]
    unfold Spec.velocities
    intro h
    have := congrArg List.length h
    simp at this
    omega
  rw [(C21_uses_frozen id _).1 hne, hfroz]
  exact hv

/-- **C77 (steps with a rebuild).** In a step that rebuilds the preconditioner the matrix is linearized at the velocities
extrapolated to the new time. Missing: steps without a rebuild, see `C77_stale_linearization`. -/
theorem C77_current_velocity_partial (n : ℕ) (hn : 0 < n) (varCoef : Bool) (rho0 mu0 zero : α) (p : PrecVelocity)
    (hp : p = .amg ∨ p = .amgLinear) (pre : List (VStep α)) (e : VStep α) (h : History pre) (hr : e.rebuild = true) :
    (usedFields p (fresh varCoef false n rho0 mu0 zero) pre e).lin = Spec.velocities n e := by
  have hlen := history_length n varCoef rho0 mu0 zero p hp pre h
  unfold usedFields
  have hb : pre.flatMap (VStep.calls p) ++ e.before p = (pre.flatMap (VStep.calls p) ++ e.start) ++ .assemble p :: [] := by
    unfold VStep.before
    rw [hr, if_pos rfl, List.append_assoc]
  have hfroz := C21_frozen_from_last_assembly (fresh varCoef false n rho0 mu0 zero)
    (pre.flatMap (VStep.calls p) ++ e.start) [] p hp (by intro c hc; cases hc)
  have hv : (runAll (pre.flatMap (VStep.calls p) ++ e.start) (fresh varCoef false n rho0 mu0 zero)).live.lin
      = Spec.velocities n e := by
    rw [runAll_append]
    exact lin_length_before n e _ hlen
  rw [hb]
  have hne : (runAll ((pre.flatMap (VStep.calls p) ++ e.start) ++ .assemble p :: [])
      (fresh varCoef false n rho0 mu0 zero)).frozen.lin ≠ [] := by
    rw [hfroz, hv]
    unfold Spec.velocities
    intro h
    have := congrArg List.length h
    simp at this
    omega
  rw [(C21_uses_frozen id _).1 hne, hfroz]
  exact hv

/-- **C77 (finding).** The velocity equation of a projection step is in general linearized at the velocities of an earlier
step: two steps, the second without a rebuild. -/
theorem C77_stale_linearization :
    ∃ (r e : VStep ℕ), History [r] ∧ r.rebuild = true ∧ e.rebuild = false ∧
      (usedFields .amg (fresh false false 2 1 1 0) [r] e).lin = Spec.velocities 2 r ∧
      (usedFields .amg (fresh false false 2 1 1 0) [r] e).lin ≠ Spec.velocities 2 e :=
  ⟨⟨none, fun q => q, true, [.velocity, .mass]⟩, ⟨none, fun q => q + 5, false, []⟩,
    ⟨by simp [Call.isProduct], by simp⟩, rfl, rfl, by decide, by decide⟩

theorem replicate_velocity (s : Buffers α) (_h : s.live.lin = []) (k : ℕ) (hf : s.frozen.lin ≠ []) :
    runAll (List.replicate k .velocity) s = s := by
  induction k with
  | zero => rfl
  | succ k ih =>
    rw [List.replicate_succ]
    change runAll (List.replicate k .velocity) (velocityVmult (fun _ => ()) s).2 = _
    have hl := List.length_pos_iff.2 hf
    have : (velocityVmult (fun _ => ()) s).2 = s := by
      unfold velocityVmult swapAll
      simp [hl]
    rw [this, ih]

/-- **C77 (finding, ILU).** With an ILU preconditioner for the velocity the projection scheme has no storage for the
linearization point from the second step on (in the program `linearized` is then a null pointer that is written to): for every
first step with at least one product of the velocity solver. -/
theorem C77_ilu_second_step (n : ℕ) (hn : 0 < n) (varCoef : Bool) (rho0 mu0 zero : α) (e : VStep α) (k : ℕ)
    (he : e.products = .velocity :: List.replicate k .velocity) :
    (runAll (e.calls .ilu) (fresh varCoef false n rho0 mu0 zero)).live.lin = [] := by
  unfold VStep.calls
  rw [runAll_append, he]
  have hs : (runAll (e.before .ilu) (fresh varCoef false n rho0 mu0 zero)).live.lin ≠ [] ∧
      (runAll (e.before .ilu) (fresh varCoef false n rho0 mu0 zero)).frozen.lin = [] := by
    unfold VStep.before
    rw [runAll_append]
    have h1 := lin_length_before n e _ (fresh_length n varCoef rho0 mu0 zero)
    have h2 : (runAll e.start (fresh varCoef false n rho0 mu0 zero)).frozen.lin = [] := by
      unfold VStep.start
      cases e.coef <;> cases varCoef <;>
        simp [runAll, Call.run, residual, setCoefficients, fresh, initStorage, clear]
    have h3 : ∀ s : Buffers α, runAll (if e.rebuild = true then [Call.assemble .ilu] else []) s = s := by
      intro s
      split_ifs <;> simp [runAll, Call.run, assemble]
    rw [h3]
    refine ⟨?_, h2⟩
    rw [h1]
    unfold Spec.velocities
    intro h
    have := congrArg List.length h
    simp at this
    omega
  obtain ⟨h1, h2⟩ := hs
  generalize runAll (e.before .ilu) (fresh varCoef false n rho0 mu0 zero) = s at h1 h2
  have hfirst : runAll (Call.velocity :: List.replicate k .velocity) s = runAll (List.replicate k .velocity) ⟨s.frozen, s.live⟩ := by
    change runAll (List.replicate k .velocity) (velocityVmult (fun _ => ()) s).2 = _
    rw [(C21_ilu_velocity_product_loses_data (fun _ => ()) s h2 h1).1]
  rw [hfirst, replicate_velocity _ h2 k h1]
  exact h2

/-- Concrete history: rebuild in steps 1 and 2, none in steps 3 and 4. -/
example : (usedFields .amgLinear (fresh true false 3 (1 : ℕ) 2 0)
    [⟨none, fun q => q, true, [.velocity]⟩, ⟨some (id, id, id), fun q => q + 10, true, [.velocity, .poisson, .mass]⟩,
      ⟨none, fun q => q + 20, false, [.velocity]⟩] ⟨none, fun q => q + 30, false, []⟩).lin = [10, 11, 12] := by
  decide

end Verif.Projection
