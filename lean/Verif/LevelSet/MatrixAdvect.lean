import Verif.LevelSet.Advect
import Verif.LevelSet.NormalCurvature

/-!
# C72: one transport step of the matrix-based level set solver
(source/level_set_okz_matrix.cc:368-586)

Finite element loops as in `Verif.FE.Space`; the clock is the one of the flow solver, already advanced. The velocity and the
parameter `cell_tau_stab` (lines 481-491) are given at the quadrature points.
-/

set_option linter.unusedSectionVars false

namespace Verif.LevelSet

open Finset Verif.FE Verif.Time

variable {K : Type*} [Field K] [LinearOrder K] [IsStrictOrderedRing K]

/-- Data fixed during a step: space, constraints, diagonal entries of constrained rows,
`parameters.convection_stabilization`, and the values of the registered fluid types at boundary unknowns. -/
structure MatAdvect (K : Type*) where
  S : Space K
  C : Constr K
  diag : ℕ → K
  stab : Bool
  dirichlet : ℕ → Option K

variable (D : MatAdvect K)

/-- `u_nabla_eta`, lines 496 and 529. -/
def MatAdvect.along (u : ℕ → ℕ → ℕ → K) (i c q : ℕ) : K := ∑ d ∈ range D.S.dim, u c q d * D.S.grad i c q d

/-- `cell_matrix(i,j)` summed over the cells, lines 498-511 and 531-540; `viscosity` as in lines 451-463: the computed one
(`ν`) if the stabilization is on, otherwise zero. -/
def MatAdvect.entry (t : TS K) (u : ℕ → ℕ → ℕ → K) (τ : ℕ → ℕ → K) (ν : ℕ → K) (i j : ℕ) : K :=
  let viscosity := fun c => if D.stab then ν c else 0
  if D.stab then
    D.S.integral fun c q => D.S.val i c q * t.w * D.S.val j c q - D.along u i c q * D.S.val j c q +
      D.along u i c q * τ c q * (D.along u j c q + D.S.val j c q * t.w)
  else
    D.S.integral fun c q => D.S.val i c q * t.w * D.S.val j c q - D.along u i c q * D.S.val j c q +
      ∑ d ∈ range D.S.dim, viscosity c * D.S.grad i c q d * D.S.grad j c q d

/-- `old_value`, lines 469-472. -/
def MatAdvect.oldValue (t : TS K) (old oldOld : ℕ → K) (c q : ℕ) : K :=
  let v := -t.wOld * D.S.value old c q
  if t.scheme = .bdf2 ∧ 1 < t.stepNo then v - t.wOldOld * D.S.value oldOld c q else v

/-- `cell_rhs(i)` summed over the cells, lines 514-518 and 542-552. -/
def MatAdvect.localRhs (t : TS K) (u : ℕ → ℕ → ℕ → K) (τ : ℕ → ℕ → K) (old oldOld x : ℕ → K) (i : ℕ) : K :=
  if D.stab then
    D.S.integral fun c q => (D.S.val i c q + D.along u i c q * τ c q) * D.oldValue t old oldOld c q
  else
    D.S.integral fun c q => D.S.val i c q * (D.oldValue t old oldOld c q - t.w * D.S.value x c q) +
      D.along u i c q * D.S.value x c q

/-- Product with `system_matrix`, condensed by `constraints.distribute_local_to_global`, lines 556-559. -/
def MatAdvect.product (t : TS K) (u : ℕ → ℕ → ℕ → K) (τ : ℕ → ℕ → K) (ν : ℕ → K) (x : ℕ → K) (k : ℕ) : K :=
  if (D.C.row k).isSome then D.diag k * x k
  else D.C.scatter D.S.nDof (fun i => ∑ j ∈ range D.S.nDof, D.entry t u τ ν i j * D.C.dist D.S.nDof x j) k

/-- `rhs`, line 560. -/
def MatAdvect.rhs (t : TS K) (u : ℕ → ℕ → ℕ → K) (τ : ℕ → ℕ → K) (old oldOld x : ℕ → K) (k : ℕ) : K :=
  D.C.scatter D.S.nDof (D.localRhs t u τ old oldOld x) k

/-- Boundary values written into the solution, lines 377-396. -/
def MatAdvect.withBoundary (x : ℕ → K) (i : ℕ) : K := (D.dirichlet i).getD (x i)

/-- `advance_concentration`: boundary values, assembly, solve (`inc` is the result of BiCGStab, lines 566-580), then
`constraints.distribute(increment)` and `solution += increment`, lines 583-585. -/
def MatAdvect.update (x inc : ℕ → K) (i : ℕ) : K := D.withBoundary x i + D.C.dist D.S.nDof inc i

/-- The linear system of the step from `x` is solved exactly by `inc`. -/
def MatAdvect.Solved (t : TS K) (u : ℕ → ℕ → ℕ → K) (τ : ℕ → ℕ → K) (ν : ℕ → K) (old oldOld x inc : ℕ → K) : Prop :=
  ∀ k < D.S.nDof, (D.C.row k).isSome = false →
    D.product t u τ ν inc k = D.rhs t u τ old oldOld (D.withBoundary x) k

/-! ### Specification -/

/-- Conservative weak form of the transport equation, without flux through the boundary:
`∫ (w y + wOld old + wOldOld oldOld) V - y u·∇V`. -/
def Spec.conservative (S : Space K) (w wOld wOldOld : K) (u : ℕ → ℕ → ℕ → K) (old oldOld y V : ℕ → K) : K :=
  S.integral fun c q => (w * S.value y c q + wOld * S.value old c q + wOldOld * S.value oldOld c q) * S.value V c q
    - S.value y c q * ∑ d ∈ range S.dim, u c q d * S.gradient V c q d

/-- Weight of the second old level in the scheme of the code. -/
def Spec.secondWeight (t : TS K) : K := if t.scheme = .bdf2 ∧ 1 < t.stepNo then t.wOldOld else 0

/-! ### Proofs -/

theorem along_sum (u : ℕ → ℕ → ℕ → K) (v : ℕ → K) (c q : ℕ) :
    ∑ i ∈ range D.S.nDof, v i * D.along u i c q = ∑ d ∈ range D.S.dim, u c q d * D.S.gradient v c q d := by
  unfold MatAdvect.along Space.gradient
  simp only [mul_sum]
  rw [sum_comm]
  exact sum_congr rfl fun d _ => sum_congr rfl fun i _ => by ring

theorem oldValue_eq (t : TS K) (old oldOld : ℕ → K) (c q : ℕ) :
    D.oldValue t old oldOld c q = -(t.wOld * D.S.value old c q + Spec.secondWeight t * D.S.value oldOld c q) := by
  unfold MatAdvect.oldValue Spec.secondWeight
  split_ifs <;> ring

/-- the matrix as a bilinear form -/
theorem entry_form (t : TS K) (u : ℕ → ℕ → ℕ → K) (τ : ℕ → ℕ → K) (ν : ℕ → K) (V y : ℕ → K) :
    ∑ i ∈ range D.S.nDof, V i * ∑ j ∈ range D.S.nDof, D.entry t u τ ν i j * y j =
      D.S.integral fun c q => t.w * D.S.value y c q * D.S.value V c q
        - D.S.value y c q * (∑ d ∈ range D.S.dim, u c q d * D.S.gradient V c q d)
        + if D.stab then (∑ d ∈ range D.S.dim, u c q d * D.S.gradient V c q d) * τ c q *
            ((∑ d ∈ range D.S.dim, u c q d * D.S.gradient y c q d) + D.S.value y c q * t.w) else 0 := by
  have key : ∀ f : ℕ → ℕ → ℕ → ℕ → K, ∑ i ∈ range D.S.nDof, V i * ∑ j ∈ range D.S.nDof, D.S.integral (f i j) * y j =
      D.S.integral fun c q => ∑ i ∈ range D.S.nDof, ∑ j ∈ range D.S.nDof, V i * (y j * f i j c q) := by
    intro f
    rw [D.S.integral_sum]
    refine sum_congr rfl fun i _ => ?_
    rw [D.S.integral_sum, mul_sum]
    refine sum_congr rfl fun j _ => ?_
    rw [mul_comm (D.S.integral _), ← D.S.integral_smul, ← D.S.integral_smul]
  unfold MatAdvect.entry
  dsimp only
  by_cases hs : D.stab = true
  · simp only [hs, if_true]
    rw [key]
    refine D.S.integral_congr fun c _ q _ => ?_
    rw [← along_sum D u V, ← along_sum D u y]
    have e : ∀ i j, V i * (y j * (D.S.val i c q * t.w * D.S.val j c q - D.along u i c q * D.S.val j c q +
        D.along u i c q * τ c q * (D.along u j c q + D.S.val j c q * t.w))) =
        t.w * (y j * D.S.val j c q) * (V i * D.S.val i c q) + -((y j * D.S.val j c q) * (V i * D.along u i c q)) +
        ((V i * D.along u i c q) * τ c q * (y j * D.along u j c q) + (V i * D.along u i c q) * τ c q *
          ((y j * D.S.val j c q) * t.w)) := by intro i j; ring
    simp only [e, sum_add_distrib, ← mul_sum, ← sum_mul, sum_neg_distrib]
    unfold Space.value
    ring
  · simp only [hs, Bool.false_eq_true, if_false]
    rw [key]
    refine D.S.integral_congr fun c _ q _ => ?_
    rw [← along_sum D u V]
    have e : ∀ i j, V i * (y j * (D.S.val i c q * t.w * D.S.val j c q - D.along u i c q * D.S.val j c q +
        ∑ d ∈ range D.S.dim, 0 * D.S.grad i c q d * D.S.grad j c q d)) =
        t.w * (y j * D.S.val j c q) * (V i * D.S.val i c q) + -((y j * D.S.val j c q) * (V i * D.along u i c q)) := by
      intro i j; simp only [zero_mul, sum_const_zero]; ring
    simp only [e, sum_add_distrib, ← mul_sum, ← sum_mul, sum_neg_distrib]
    unfold Space.value
    ring

theorem rhs_form (t : TS K) (u : ℕ → ℕ → ℕ → K) (τ : ℕ → ℕ → K) (old oldOld x V : ℕ → K) :
    ∑ i ∈ range D.S.nDof, V i * D.localRhs t u τ old oldOld x i =
      D.S.integral fun c q => if D.stab then
        (D.S.value V c q + (∑ d ∈ range D.S.dim, u c q d * D.S.gradient V c q d) * τ c q) * D.oldValue t old oldOld c q
      else D.S.value V c q * (D.oldValue t old oldOld c q - t.w * D.S.value x c q) +
        (∑ d ∈ range D.S.dim, u c q d * D.S.gradient V c q d) * D.S.value x c q := by
  unfold MatAdvect.localRhs
  by_cases hs : D.stab = true
  · simp only [hs, if_true, ← D.S.integral_smul]
    rw [← D.S.integral_sum]
    refine D.S.integral_congr fun c _ q _ => ?_
    rw [← along_sum D u V]
    unfold Space.value
    rw [sum_mul, ← sum_add_distrib, sum_mul]
    exact sum_congr rfl fun i _ => by ring
  · simp only [hs, Bool.false_eq_true, if_false, ← D.S.integral_smul]
    rw [← D.S.integral_sum]
    refine D.S.integral_congr fun c _ q _ => ?_
    rw [← along_sum D u V]
    rw [show D.S.value V c q = ∑ i ∈ range D.S.nDof, V i * D.S.val i c q from rfl, sum_mul, sum_mul, ← sum_add_distrib]
    exact sum_congr rfl fun i _ => by ring

/-- exact solves in weak form -/
theorem solved_weak (hC : D.C.Closed) (t : TS K) (u : ℕ → ℕ → ℕ → K) (τ : ℕ → ℕ → K) (ν : ℕ → K) (old oldOld x inc : ℕ → K)
    (hs : D.Solved t u τ ν old oldOld x inc) (v : ℕ → K) :
    ∑ i ∈ range D.S.nDof, D.C.dist D.S.nDof v i * ∑ j ∈ range D.S.nDof, D.entry t u τ ν i j * D.C.dist D.S.nDof inc j =
      ∑ i ∈ range D.S.nDof, D.C.dist D.S.nDof v i * D.localRhs t u τ old oldOld (D.withBoundary x) i := by
  rw [← D.C.pairing hC, ← D.C.pairing hC]
  refine sum_congr rfl fun k hk => ?_
  by_cases hc : (D.C.row k).isSome = true
  · rw [D.C.scatter_con _ _ hc, D.C.scatter_con _ _ hc]
  · have h := hs k (mem_range.1 hk) (by simpa using hc)
    unfold MatAdvect.product MatAdvect.rhs at h
    rw [if_neg hc] at h
    rw [h]

/-- **C72 (weak form).** Without stabilization an exact step solves the conservative weak form of the transport equation, for
every test function, mesh, hanging nodes, velocity and state of the clock; boundary unknowns keep the value of their fluid
type. -/
theorem C72_weak_form_partial (hC : D.C.Closed) (hst : D.stab = false) (t : TS K) (u : ℕ → ℕ → ℕ → K) (τ : ℕ → ℕ → K) (ν : ℕ → K)
    (old oldOld x inc : ℕ → K) (hs : D.Solved t u τ ν old oldOld x inc) :
    (∀ v, Spec.conservative D.S t.w t.wOld (if t.scheme = .bdf2 ∧ 1 < t.stepNo then t.wOldOld else 0) u old oldOld
      (D.update x inc) (D.C.dist D.S.nDof v) = 0) ∧
    (∀ i c g, D.C.row i = some c → (∀ k < D.S.nDof, c k = 0) → D.dirichlet i = some g → D.update x inc i = g) := by
  constructor
  · intro v
    have h := solved_weak D hC t u τ ν old oldOld x inc hs v
    rw [entry_form, rhs_form] at h
    simp only [hst, Bool.false_eq_true, if_false, add_zero, oldValue_eq] at h
    have h2 := sub_eq_zero.2 h
    rw [sub_eq_add_neg, ← D.S.integral_neg, ← D.S.integral_add] at h2
    refine Eq.trans ?_ h2
    unfold Spec.conservative
    refine D.S.integral_congr fun c _ q _ => ?_
    have : D.S.value (D.update x inc) c q = D.S.value (D.withBoundary x) c q + D.S.value (D.C.dist D.S.nDof inc) c q :=
      D.S.value_add _ _ c q
    rw [this]
    unfold Spec.secondWeight
    ring
  · intro i c g hr h0 hg
    unfold MatAdvect.update Constr.dist
    rw [hr]
    dsimp only
    rw [sum_eq_zero fun k hk => by rw [h0 k (mem_range.1 hk), zero_mul]]
    simp [MatAdvect.withBoundary, hg]

/-- **C72 (content).** Without stabilization and with hanging node constraints only, the content is conserved for *every*
velocity field, in every step of every run in which `weight()` is the exact weight of the step sizes (all steps of constant
size: `C05_constant_steps_exact`). -/
theorem C72_content_conserved (hC : D.C.Closed) (hst : D.stab = false) (hP : D.S.Partition) (hone : D.C.KeepsOne D.S.nDof)
    (p : Params K) (hp : p.Good) (t : TS K) (hr : Reachable p t) (he : t.atEnd = false) (hch : t.next.w = t.exactWeight)
    (u : ℕ → ℕ → ℕ → K) (τ : ℕ → ℕ → K) (ν : ℕ → K) (old oldOld x inc : ℕ → K)
    (hs : D.Solved t.next u τ ν old oldOld x inc) (m : K) (ho : Spec.content D.S old = m)
    (hoo : t.scheme = .bdf2 → 0 < t.stepNo → Spec.content D.S oldOld = m) :
    Spec.content D.S (D.update x inc) = m := by
  have h := (C72_weak_form_partial D hC hst t.next u τ ν old oldOld x inc hs).1 fun _ => 1
  rw [show D.C.dist D.S.nDof (fun _ => (1 : K)) = fun _ => 1 from funext fun i => D.C.dist_const _ hone 1 i] at h
  obtain ⟨h1, h2, -, -⟩ := C05_weights_sum_zero p hp t hr he
  rw [← hch] at h1 h2
  unfold Spec.conservative at h
  have e : (D.S.integral fun c q => (t.next.w * D.S.value (D.update x inc) c q + t.next.wOld * D.S.value old c q +
      (if t.next.scheme = .bdf2 ∧ 1 < t.next.stepNo then t.next.wOldOld else 0) * D.S.value oldOld c q) *
        D.S.value (fun _ => 1) c q - D.S.value (D.update x inc) c q *
        ∑ d ∈ range D.S.dim, u c q d * D.S.gradient (fun _ => 1) c q d) =
      t.next.w * Spec.content D.S (D.update x inc) + t.next.wOld * Spec.content D.S old +
      (if t.next.scheme = .bdf2 ∧ 1 < t.next.stepNo then t.next.wOldOld else 0) * Spec.content D.S oldOld := by
    unfold Spec.content
    simp only [← D.S.integral_smul, ← D.S.integral_add]
    refine D.S.integral_congr fun c hc q hq => ?_
    rw [D.S.value_const hP 1 hc hq, sum_eq_zero fun d hd => by rw [D.S.gradient_const hP 1 hc hq (mem_range.1 hd), mul_zero]]
    ring
  have hsch : t.next.scheme = t.scheme := rfl
  have hold : (if t.scheme = .bdf2 ∧ 1 < t.next.stepNo then t.next.wOldOld else 0) * Spec.content D.S oldOld =
      (if t.scheme = .bdf2 ∧ 1 < t.next.stepNo then t.next.wOldOld else 0) * m := by
    split_ifs with hc
    · have : 1 < t.stepNo + 1 := hc.2
      rw [hoo hc.1 (by omega)]
    · rw [zero_mul, zero_mul]
  rw [e, ho, hsch, hold] at h
  exact mul_left_cancel₀ h2.ne' (by linear_combination h - m * h1)

/-- **C72 (content, whole run).** A run with the configured step size, before the end: exact steps without stabilization for
any velocities, each followed by any change of the level set that keeps the content (nothing, or reinitialization). The second
old level is arbitrary in the first step. The level sets of all steps have the content of the initial one, whatever the number
of steps. -/
theorem C72_content_conserved_run (hC : D.C.Closed) (hst : D.stab = false) (hP : D.S.Partition)
    (hone : D.C.KeepsOne D.S.nDof) (p : Params K) (hp : p.Good) (hmin : p.stepMin ≤ p.stepStart)
    (hmax : p.stepStart ≤ p.stepMax) (N : ℕ) (hend : (nexts (TS.ctor p) N).atEnd = false)
    (u : ℕ → ℕ → ℕ → ℕ → K) (τ : ℕ → ℕ → ℕ → K) (ν x inc : ℕ → ℕ → K) (y oldOld : ℕ → ℕ → K)
    (hoo : ∀ n, oldOld (n + 1) = y n)
    (hstep : ∀ n < N, D.Solved (nexts (TS.ctor p) (n + 1)) (u n) (τ n) (ν n) (y n) (oldOld n) (x n) (inc n) ∧
      Spec.content D.S (y (n + 1)) = Spec.content D.S (D.update (x n) (inc n))) :
    ∀ n ≤ N, Spec.content D.S (y n) = Spec.content D.S (y 0) := by
  have hrun := constant_run p hp hmin hmax N hend
  intro n
  induction n using Nat.strong_induction_on with
  | _ n ih =>
    intro hle
    match n with
    | 0 => rfl
    | n + 1 =>
      obtain ⟨h1, h2⟩ := hstep n (by omega)
      obtain ⟨e1, e2, e3, e4, e5⟩ := hrun n (by omega)
      rw [h2]
      rw [e1] at h1
      refine C72_content_conserved D hC hst hP hone p hp _ e2 e3 e5 (u n) (τ n) (ν n)
        _ _ _ _ h1 _ (ih n (by omega) (by omega)) fun _ h => ?_
      · rw [e4] at h
        obtain ⟨k, rfl⟩ : ∃ k, n = k + 1 := ⟨n - 1, by omega⟩
        rw [hoo]
        exact ih k (by omega) (by omega)

/-- **C72 (constrained unknowns).** The right hand side has no entries at constrained unknowns and the matrix only a diagonal
one: if that is not zero, the solution of the linear system vanishes there. -/
theorem C72_constrained_unknowns (t : TS K) (u : ℕ → ℕ → ℕ → K) (τ : ℕ → ℕ → K) (ν : ℕ → K) (old oldOld x inc : ℕ → K) (k : ℕ)
    (hk : (D.C.row k).isSome = true) (hd : D.diag k ≠ 0)
    (hs : D.product t u τ ν inc k = D.rhs t u τ old oldOld x k) : inc k = 0 := by
  unfold MatAdvect.product MatAdvect.rhs at hs
  rw [if_pos hk, D.C.scatter_con _ _ hk] at hs
  exact (mul_eq_zero.1 hs).resolve_left hd

/-- **C72 (artificial viscosity).** The entropy viscosity has no effect: it is computed only with stabilization and used only
without it. -/
theorem C72_viscosity_unused (t : TS K) (u : ℕ → ℕ → ℕ → K) (τ : ℕ → ℕ → K) (ν ν' : ℕ → K) (old oldOld x inc : ℕ → K) :
    D.Solved t u τ ν old oldOld x inc ↔ D.Solved t u τ ν' old oldOld x inc := by
  have : ∀ i j, D.entry t u τ ν i j = D.entry t u τ ν' i j := by
    intro i j
    unfold MatAdvect.entry
    split_ifs <;> rfl
  unfold MatAdvect.Solved MatAdvect.product
  simp only [this]

/-- **C72 (violation with stabilization).** With stabilization the right hand side is not a residual, but the solution is
added to the level set nevertheless: in a fluid at rest with a stationary level set (all levels equal, no constraints) every
exact step doubles the level set. -/
theorem C72_stabilized_doubles (hcon : ∀ k, D.C.row k = none) (hst : D.stab = true) (hdir : ∀ i, D.dirichlet i = none)
    (hj : ∀ c < D.S.nCell, ∀ q < D.S.nQ, 0 < D.S.jxw c q)
    (p : Params K) (hp : p.Good) (t : TS K) (hr : Reachable p t) (he : t.atEnd = false) (hch : t.next.w = t.exactWeight)
    (τ : ℕ → ℕ → K) (ν : ℕ → K) (x inc : ℕ → K) (hs : D.Solved t.next (fun _ _ _ => 0) τ ν x x x inc) :
    ∀ c < D.S.nCell, ∀ q < D.S.nQ, D.S.value (D.update x inc) c q = 2 * D.S.value x c q := by
  have hC : D.C.Closed := fun i c h => by rw [hcon] at h; cases h
  have hdist : ∀ v, D.C.dist D.S.nDof v = v := by
    intro v; funext k; unfold Constr.dist; rw [hcon]
  obtain ⟨h1, h2, -, -⟩ := C05_weights_sum_zero p hp t hr he
  rw [← hch] at h1 h2
  have h := solved_weak D hC t.next (fun _ _ _ => 0) τ ν x x x inc hs fun i => inc i + -1 * x i
  rw [hdist, hdist, entry_form, rhs_form] at h
  simp only [hst, if_true, zero_mul, sum_const_zero, mul_zero, sub_zero, add_zero, oldValue_eq] at h
  have e : D.S.integral (fun c q => t.next.w * (D.S.value inc c q - D.S.value x c q) ^ 2) = 0 := by
    have h3 := sub_eq_zero.2 h
    rw [sub_eq_add_neg, ← D.S.integral_neg, ← D.S.integral_add] at h3
    rw [← h3]
    refine D.S.integral_congr fun c _ q _ => ?_
    rw [D.S.value_add inc fun i => -1 * x i, D.S.value_smul]
    have hw : t.next.wOld + Spec.secondWeight t.next = -t.next.w := by
      unfold Spec.secondWeight
      have hsch : t.next.scheme = t.scheme := rfl
      rw [hsch]; linear_combination h1
    linear_combination (-(D.S.value inc c q + -1 * D.S.value x c q) * D.S.value x c q) * hw
  intro c hc q hq
  have hz := integral_eq_zero hj (fun c _ q _ => mul_nonneg h2.le (sq_nonneg _)) e.le c hc q hq
  have hz2 : D.S.value inc c q - D.S.value x c q = 0 :=
    pow_eq_zero_iff two_ne_zero |>.1 ((mul_eq_zero.1 hz).resolve_left h2.ne')
  have hu : D.S.value (D.update x inc) c q = D.S.value (D.withBoundary x) c q + D.S.value (D.C.dist D.S.nDof inc) c q :=
    D.S.value_add _ _ c q
  have hb : D.withBoundary x = x := by funext i; unfold MatAdvect.withBoundary; rw [hdir]; rfl
  rw [hu, hb, hdist]
  linear_combination hz2

/-! ### Concrete cases -/

def exMat (stab : Bool) : MatAdvect ℚ := ⟨exSpace, ⟨fun _ => none⟩, fun _ => 1, stab, fun _ => none⟩

/-- First step of a BDF-2 run with stabilization at rest: the solve returns the old level set. -/
example : (exMat true).Solved (TS.ctor exClock).next (fun _ _ _ => 0) (fun _ _ => 1 / 2) (fun _ => 7)
    (fun i => i + 1) (fun i => i + 1) (fun i => i + 1) (fun i => i + 1) := by
  show ∀ k < 2, _
  decide +kernel

/-- Without stabilization and with unit velocity *out of* the domain at the right end: an exact step that moves the level
set, while the content is conserved although fluid leaves. -/
example : (exMat false).Solved (TS.ctor exClock).next (fun _ _ _ => 1) (fun _ _ => 0) (fun _ => 7)
    (fun i => i + 1) (fun i => i + 1) (fun i => i + 1) (fun i => if i = 0 then -3 else 3) ∧
    Spec.content exSpace ((exMat false).update (fun i => i + 1) fun i => if i = 0 then -3 else 3) =
      Spec.content exSpace (fun i => (i : ℚ) + 1) := by
  refine ⟨?_, by decide +kernel⟩
  show ∀ k < 2, _
  decide +kernel

end Verif.LevelSet
