import Verif.PhaseField.Energy
import Mathlib.Analysis.Real.Sqrt
import Mathlib.Algebra.Order.BigOperators.Ring.Finset

/-!
# C117: the nonlinear iteration of the Cahn-Hilliard step
(source/phase_field.cc:329-362 `advance_cahn_hilliard`, 405-459 `solve_cahn_hilliard`;
source/phase_field_local.cc:227-275 `local_vmult`, 300-365 `apply_contact_bc<0>`, 443-468 `compute_residual`, 472-508 `vmult`)

Residual, constraints, wall faces as in `PhaseField.Energy`. GMRES is an oracle: it gets the matrix, the right hand side, the first
guess (the update of the last iteration, which is not reset) and the tolerance, and returns a vector and whether it converged.
Exact arithmetic, one process.
-/

set_option linter.unusedSectionVars false

namespace Verif.PhaseField.Newton

open Finset Verif.FE Verif.PhaseField Verif.PhaseField.Energy

/-! ## Model -/

/-- A block vector: concentration and chemical potential. -/
abbrev Pair := (ℕ → ℝ) × (ℕ → ℝ)

/-- What `compute_residual` leaves for `vmult`: `evaluated_convection`, `evaluated_phi` by cell and point, `face_evaluated_c` by face
and point. -/
structure Stored where
  cell : ℕ → ℕ → (ℕ → ℝ) × ℝ
  face : ℕ → ℕ → ℝ

variable (p : CHCoef ℝ) (M : Mesh ℝ) (old oldOld : ℕ → ℝ) (vel : ℕ → ℕ → ℕ → ℝ)

/-- The stored data after `compute_residual`, phase_field_local.cc:201-202, 341; the face data are only written with a contact
angle. -/
noncomputable def store (x : Pair) (s : Stored) : Stored :=
  { cell := fun e q => chStore (vel e q) (M.point x.1 x.2 e q)
    face := if p.contactAngle = 0 then s.face else fun f q => M.faceRead x.1 f q }

/-- `system_rhs` after `compute_residual`, lines 443-468. -/
noncomputable def rhs (x : Pair) : Pair := (residual0 p M old oldOld vel x.1 x.2, residual1 p M old oldOld vel x.1 x.2)

/-- Submitted values of `local_vmult`, lines 237-268: `read_dof_values` resolves the constraints of the two blocks. -/
noncomputable def product (s : Stored) (d : Pair) (e q : ℕ) : CHOut ℝ :=
  chProduct p (s.cell e q) (M.point (M.C.dist M.S.nDof d.1) (M.Cw.dist M.S.nDof d.2) e q)

/-- `apply_contact_bc<0>`, lines 302-365. -/
noncomputable def contactPart (s : Stored) (d : ℕ → ℝ) : ℕ → ℝ :=
  if p.contactAngle = 0 then fun _ => 0
  else M.Cw.scatter M.S.nDof (M.faceLocal fun f q => contactProduct p (s.face f q) (M.faceRead d f q) * M.faceW f q)

/-- `vmult`, lines 472-508: cell loop, contact faces, then the constrained entries are copied. -/
noncomputable def vmult (s : Stored) (d : Pair) : Pair :=
  (fun k => if (M.C.row k).isSome then d.1 k else
      M.C.scatter M.S.nDof (M.S.test (fun e q => (product p M s d e q).cVal) fun e q => (product p M s d e q).cGrad) k,
   fun k => if (M.Cw.row k).isSome then d.2 k else
      M.Cw.scatter M.S.nDof (M.S.test (fun e q => (product p M s d e q).wVal) fun e q => (product p M s d e q).wGrad) k
        + contactPart p M s d.1 k)

/-- `l2_norm` of a block vector with `n` entries per block. -/
noncomputable def norm (n : ℕ) (x : Pair) : ℝ := √(∑ k ∈ range n, x.1 k ^ 2 + ∑ k ∈ range n, x.2 k ^ 2)

/-- Parameters of the iteration. -/
structure Control where
  maxNl : ℕ
  tolNl : ℝ
  tolLin : ℝ

/-- GMRES: number of the call, matrix, right hand side, first guess, tolerance; result and convergence. -/
def Solver := ℕ → (Pair → Pair) → Pair → Pair → ℝ → Pair × Bool

/-- The vectors and data of the solver. -/
structure State where
  x : Pair
  update : Pair
  stored : Stored

/-- `tolerance`, phase_field.cc:422-427 (with `ch_do_newton`). -/
noncomputable def tolerance (ctl : Control) (r : ℝ) : ℝ := max (1 / 1000 * ctl.tolNl) (1 / 10 * ctl.tolLin * r)

/-- `solve_cahn_hilliard`, phase_field.cc:405-459, after `compute_residual` at the present solution; an exception `NoConvergence` is
caught and has no effect. The second component tells whether it was thrown. -/
noncomputable def solve (ctl : Control) (gmres : Solver) (i : ℕ) (s : State) : State × Bool :=
  let b := rhs p M old oldOld vel s.x
  let g := gmres i (vmult p M s.stored) b s.update (tolerance ctl (norm M.S.nDof b))
  let u : Pair := (M.C.dist M.S.nDof g.1.1, M.Cw.dist M.S.nDof g.1.2)
  ({ s with x := (fun k => s.x.1 k - u.1 k, fun k => s.x.2 k - u.2 k), update := u }, g.2)

/-- What happened in `advance_cahn_hilliard`: whether "conv." was reached, and for every linear solve the state before it (after
`compute_residual`) and the convergence of GMRES. -/
structure Log where
  conv : Bool
  solves : List (State × Bool)

/-- The loop of `advance_cahn_hilliard`, phase_field.cc:344-361: `n` iterations are left, `i` is the counter. -/
noncomputable def loop (ctl : Control) (gmres : Solver) : ℕ → ℕ → State → Log → State × Log
  | 0, _, s, l => (s, l)
  | n + 1, i, s, l =>
    let s := { s with stored := store p M vel s.x s.stored }
    if i > 0 ∧ norm M.S.nDof (rhs p M old oldOld vel s.x) < 1 / 1000 * ctl.tolNl then (s, { l with conv := true })
    else
      let r := solve p M old oldOld vel ctl gmres i s
      loop ctl gmres n (i + 1) r.1 { l with solves := l.solves ++ [(s, r.2)] }

/-- `advance_cahn_hilliard`, phase_field.cc:329-362 (output is left out); the function returns nothing. -/
noncomputable def advance (ctl : Control) (gmres : Solver) (s : State) : State × Log :=
  loop p M old oldOld vel ctl gmres ctl.maxNl 0 s ⟨false, []⟩

/-! ## Specification -/

/-- GMRES with right preconditioning: if it claims convergence, the residual of the linear system is within the tolerance. -/
def Spec.Honest (n : ℕ) (gmres : Solver) : Prop :=
  ∀ i A b g tol, (gmres i A b g tol).2 = true →
    norm n (fun k => b.1 k - (A (gmres i A b g tol).1).1 k, fun k => b.2 k - (A (gmres i A b g tol).1).2 k) ≤ tol

/-- Euclidean length of the residual of the concentration equation at `x`. -/
noncomputable def Spec.massResidual (x : Pair) : ℝ :=
  √(∑ k ∈ range M.S.nDof, residual0 p M old oldOld vel x.1 x.2 k ^ 2)

/-- Total of a concentration. -/
noncomputable def Spec.total (x : ℕ → ℝ) : ℝ := Energy.Spec.bulk M.S (Energy.Spec.val M.S x)

/-! ## Proofs: one Newton step -/

theorem dist_neg' (C : Constr ℝ) (n : ℕ) (x : ℕ → ℝ) (i : ℕ) : C.dist n (fun k => -x k) i = -C.dist n x i := by
  unfold Constr.dist
  cases C.row i with
  | none => rfl
  | some c => simp

theorem dist_sub' (C : Constr ℝ) (n : ℕ) (x y : ℕ → ℝ) (i : ℕ) :
    C.dist n (fun k => x k - y k) i = C.dist n x i - C.dist n y i := by
  have := C.dist_add n x (fun k => -y k) i
  simp only [← sub_eq_add_neg, dist_neg'] at this
  exact this

theorem dist_idem (C : Constr ℝ) (hC : C.Closed) (n : ℕ) (x : ℕ → ℝ) (i : ℕ) : C.dist n (C.dist n x) i = C.dist n x i := by
  conv_lhs => unfold Constr.dist
  cases hi : C.row i with
  | none => simp [Constr.dist, hi]
  | some c =>
    simp only []
    have : C.dist n x i = ∑ k ∈ range n, c k * x k := by unfold Constr.dist; rw [hi]
    rw [this]
    refine sum_congr rfl fun k _ => ?_
    cases hk : C.row k with
    | none => rfl
    | some c' => rw [hC i c hi k (by rw [hk]; rfl)]; simp

theorem test_sub' (S : Space ℝ) (s s' : ℕ → ℕ → ℝ) (g g' : ℕ → ℕ → ℕ → ℝ) (i : ℕ) :
    S.test (fun c q => s c q - s' c q) (fun c q d => g c q d - g' c q d) i = S.test s g i - S.test s' g' i := by
  have := S.test_add s (fun c q => -s' c q) g (fun c q d => -g' c q d) i
  rw [S.test_neg] at this
  simpa only [← sub_eq_add_neg] using this

theorem scatter_sub' (C : Constr ℝ) (n : ℕ) (L L' : ℕ → ℝ) (k : ℕ) :
    C.scatter n (fun i => L i - L' i) k = C.scatter n L k - C.scatter n L' k := by
  have := C.scatter_add n L (fun i => -L' i) k
  rw [C.scatter_neg] at this
  simpa only [← sub_eq_add_neg] using this

theorem scatter_zero (C : Constr ℝ) (n k : ℕ) : C.scatter n (fun _ => 0) k = 0 := by
  have := scatter_sub' C n (fun _ => 0) (fun _ => 0) k
  simpa only [sub_self] using this

/-- The new iterate. -/
noncomputable def step (x d : Pair) : Pair :=
  (fun k => x.1 k - M.C.dist M.S.nDof d.1 k, fun k => x.2 k - M.Cw.dist M.S.nDof d.2 k)

/-- The concentration equation is linear: its residual after the step is the residual of the linear system. -/
theorem residual0_step (x d : Pair) (s : Stored) (k : ℕ) :
    residual0 p M old oldOld vel (step M x d).1 (step M x d).2 k =
      if (M.C.row k).isSome then 0
      else residual0 p M old oldOld vel x.1 x.2 k - (vmult p M (store p M vel x s) d).1 k := by
  by_cases hk : (M.C.row k).isSome = true
  · rw [if_pos hk]
    unfold residual0
    exact M.C.scatter_con _ _ hk
  · rw [if_neg hk]
    unfold vmult
    dsimp only
    rw [if_neg hk]
    unfold residual0
    rw [← scatter_sub']
    congr 1
    funext i
    rw [← test_sub']
    refine M.S.test_congr (fun e q => ?_) (fun e q d' _ => ?_) i
    · unfold Mesh.submitted product store chResidual chProduct chStore Mesh.point step
      dsimp only
      rw [Energy.value_sub]
      have hg : sprod p.dim (M.S.gradient (fun k => x.1 k - M.C.dist M.S.nDof d.1 k) e q) (vel e q) =
          sprod p.dim (M.S.gradient x.1 e q) (vel e q) - sprod p.dim (M.S.gradient (M.C.dist M.S.nDof d.1) e q) (vel e q) := by
        unfold sprod
        rw [← sum_sub_distrib]
        exact sum_congr rfl fun j _ => by rw [Energy.gradient_sub]; ring
      rw [hg]
      split_ifs <;> ring
    · unfold Mesh.submitted product store chResidual chProduct chStore Mesh.point step
      dsimp only
      rw [Energy.gradient_sub]
      ring

/-- The potential equation: after the step the residual is that of the linear system, minus a second order term of the double well,
plus one of the contact faces. -/
theorem residual1_step (h : Energy.Spec.Fits M) (x d : Pair) (s : Stored) (k : ℕ) :
    residual1 p M old oldOld vel (step M x d).1 (step M x d).2 k =
      if (M.Cw.row k).isSome then 0
      else residual1 p M old oldOld vel x.1 x.2 k - (vmult p M (store p M vel x s) d).2 k
        - M.Cw.scatter M.S.nDof (M.S.test (fun e q => p.factor2 *
            (3 * M.S.value x.1 e q - M.S.value (M.C.dist M.S.nDof d.1) e q) * M.S.value (M.C.dist M.S.nDof d.1) e q ^ 2)
            (fun _ _ _ => 0)) k
        + M.Cw.scatter M.S.nDof (M.faceLocal fun f q =>
            3 / 4 * p.contactAngle * p.surfaceTension * M.faceRead d.1 f q ^ 2 * M.faceW f q) k := by
  by_cases hk : (M.Cw.row k).isSome = true
  · rw [if_pos hk]
    unfold residual1 contactVector
    rw [M.Cw.scatter_con _ _ hk]
    split_ifs
    · simp
    · rw [M.Cw.scatter_con _ _ hk]; simp
  · rw [if_neg hk]
    unfold vmult
    dsimp only
    rw [if_neg hk]
    unfold residual1
    have hvol : M.Cw.scatter M.S.nDof (M.S.test
          (fun e q => (M.submitted p old oldOld vel (step M x d).1 (step M x d).2 e q).wVal)
          (fun e q => (M.submitted p old oldOld vel (step M x d).1 (step M x d).2 e q).wGrad)) k =
        M.Cw.scatter M.S.nDof (M.S.test (fun e q => (M.submitted p old oldOld vel x.1 x.2 e q).wVal)
          (fun e q => (M.submitted p old oldOld vel x.1 x.2 e q).wGrad)) k
        - M.Cw.scatter M.S.nDof (M.S.test (fun e q => (product p M (store p M vel x s) d e q).wVal)
          (fun e q => (product p M (store p M vel x s) d e q).wGrad)) k
        - M.Cw.scatter M.S.nDof (M.S.test (fun e q => p.factor2 *
            (3 * M.S.value x.1 e q - M.S.value (M.C.dist M.S.nDof d.1) e q) * M.S.value (M.C.dist M.S.nDof d.1) e q ^ 2)
            (fun _ _ _ => 0)) k := by
      rw [← scatter_sub', ← scatter_sub']
      congr 1
      funext i
      rw [← test_sub', ← test_sub']
      refine M.S.test_congr (fun e q => ?_) (fun e q d' _ => ?_) i
      · unfold Mesh.submitted product store chResidual chProduct chStore Mesh.point step
        dsimp only
        rw [Energy.value_sub, Energy.value_sub]
        ring
      · unfold Mesh.submitted product store chResidual chProduct chStore Mesh.point step
        dsimp only
        rw [Energy.gradient_sub]
        ring
    have hcon : contactVector p M (step M x d).1 k = contactVector p M x.1 k - contactPart p M (store p M vel x s) d.1 k
        + M.Cw.scatter M.S.nDof (M.faceLocal fun f q =>
            3 / 4 * p.contactAngle * p.surfaceTension * M.faceRead d.1 f q ^ 2 * M.faceW f q) k := by
      unfold contactVector contactPart
      by_cases ha : p.contactAngle = 0
      · rw [if_pos ha, if_pos ha, if_pos ha]
        have : (M.faceLocal fun f q => 3 / 4 * p.contactAngle * p.surfaceTension * M.faceRead d.1 f q ^ 2 * M.faceW f q) =
            fun _ => 0 := by
          funext j; unfold Mesh.faceLocal; simp [ha]
        rw [this, scatter_zero]
        ring
      · rw [if_neg ha, if_neg ha, if_neg ha, ← scatter_sub', ← M.Cw.scatter_add]
        congr 1
        funext j
        unfold Mesh.faceLocal
        rw [← sum_sub_distrib, ← sum_add_distrib]
        refine sum_congr rfl fun f _ => ?_
        rw [← sum_sub_distrib, ← sum_add_distrib]
        refine sum_congr rfl fun i _ => ?_
        split_ifs
        · rw [← sum_sub_distrib, ← sum_add_distrib]
          refine sum_congr rfl fun q _ => ?_
          have hr : M.faceRead (step M x d).1 f q = M.faceRead x.1 f q - M.faceRead d.1 f q := by
            unfold Mesh.faceRead step
            dsimp only
            rw [← sum_sub_distrib]
            refine sum_congr rfl fun j _ => ?_
            rw [dist_sub' M.C M.S.nDof x.1 (M.C.dist M.S.nDof d.1), dist_idem M.C h.closed]
            ring
          dsimp only
          rw [hr]
          unfold store contactResidual contactProduct
          dsimp only
          rw [if_neg ha]
          ring
        · ring
    rw [hvol, hcon]
    ring

/-- After a linear solve within the tolerance the concentration equation holds within the tolerance. -/
theorem massResidual_step (x d : Pair) (s : Stored) (tol : ℝ)
    (hd : norm M.S.nDof (fun k => (rhs p M old oldOld vel x).1 k - (vmult p M (store p M vel x s) d).1 k,
      fun k => (rhs p M old oldOld vel x).2 k - (vmult p M (store p M vel x s) d).2 k) ≤ tol) :
    Spec.massResidual p M old oldOld vel (step M x d) ≤ tol := by
  refine le_trans ?_ hd
  unfold Spec.massResidual norm
  apply Real.sqrt_le_sqrt
  refine le_trans ?_ (le_add_of_nonneg_right (sum_nonneg fun k _ => sq_nonneg _))
  refine sum_le_sum fun k _ => ?_
  rw [residual0_step p M old oldOld vel x d s k]
  split_ifs
  · simpa using sq_nonneg _
  · exact le_of_eq rfl

/-- **C117 (constrained unknowns).** The residual has no entries at the constrained unknowns of either block and the matrix is
the identity there: a solution of the linear system vanishes there, so that the update satisfies the constraints and keeps the
prescribed values, and a right preconditioned solver cannot trade them against the equations. -/
theorem C117_constrained_unknowns (x d : Pair) (s : Stored) (k : ℕ) :
    ((M.C.row k).isSome = true → residual0 p M old oldOld vel x.1 x.2 k = 0 ∧ (vmult p M s d).1 k = d.1 k) ∧
    ((M.Cw.row k).isSome = true → residual1 p M old oldOld vel x.1 x.2 k = 0 ∧ (vmult p M s d).2 k = d.2 k) := by
  refine ⟨fun h => ⟨M.C.scatter_con _ _ h, ?_⟩, fun h => ⟨?_, ?_⟩⟩
  · show (if _ then _ else _) = _
    rw [if_pos h]
  · unfold residual1 contactVector
    rw [M.Cw.scatter_con _ _ h]
    split_ifs
    · exact add_zero _
    · rw [M.Cw.scatter_con _ _ h, add_zero]
  · show (if _ then _ else _) = _
    rw [if_pos h]

/-! ## Proofs: the loop -/

/-- What is known about a run of the loop: the linear solves that were done, the last one, and the reason of the end. -/
theorem loop_spec (ctl : Control) (gmres : Solver) (n : ℕ) : ∀ (i : ℕ) (s : State) (l : Log), l.conv = false →
    let r := loop p M old oldOld vel ctl gmres n i s l
    l.solves.length ≤ r.2.solves.length ∧ r.2.solves.length ≤ l.solves.length + n ∧
    (r.2.conv = true → norm M.S.nDof (rhs p M old oldOld vel r.1.x) < 1 / 1000 * ctl.tolNl) ∧
    (r.2.conv = false → r.2.solves.length = l.solves.length + n) ∧
    (i = 0 → 0 < n → l.solves.length < r.2.solves.length) ∧
    (r.2.solves.length = l.solves.length ∧ r.1.x = s.x ∧ r.2.solves = l.solves ∨
      ∃ e b j, r.2.solves.getLast? = some (e, b) ∧ (∃ st, e.stored = store p M vel e.x st) ∧
        r.1.x = (solve p M old oldOld vel ctl gmres j e).1.x ∧ b = (solve p M old oldOld vel ctl gmres j e).2) := by
  induction n with
  | zero =>
    intro i s l hl
    refine ⟨le_rfl, le_rfl, fun h => ?_, fun _ => rfl, fun _ h => absurd h (by omega), Or.inl ⟨rfl, rfl, rfl⟩⟩
    change l.conv = true at h
    rw [hl] at h; cases h
  | succ n ih =>
    intro i s l hl
    unfold loop
    dsimp only
    split_ifs with hc
    · refine ⟨le_rfl, Nat.le_add_right _ _, fun _ => hc.2, fun h => absurd h (by simp), fun h => absurd hc.1 (by omega),
        Or.inl ⟨rfl, rfl, rfl⟩⟩
    · have := ih (i + 1) (solve p M old oldOld vel ctl gmres i { s with stored := store p M vel s.x s.stored }).1
        { l with solves := l.solves ++ [({ s with stored := store p M vel s.x s.stored },
          (solve p M old oldOld vel ctl gmres i { s with stored := store p M vel s.x s.stored }).2)] } hl
      obtain ⟨h1, h2, h3, h4, -, h6⟩ := this
      simp only [List.length_append, List.length_singleton] at h1 h2 h4 h6
      refine ⟨by omega, by omega, h3, fun h => by rw [h4 h]; omega, fun _ _ => by omega, Or.inr ?_⟩
      rcases h6 with ⟨ha, hb, hc'⟩ | h6
      · refine ⟨{ s with stored := store p M vel s.x s.stored }, _, i, ?_, ⟨s.stored, rfl⟩, hb, rfl⟩
        rw [hc']; simp
      · exact h6

/-- **C117 (end of the iteration, partial).** For every linear solver the iteration does at least one and at most
`max_nl_iteration` linear solves; it ends with a residual below a thousandth of the nonlinear tolerance, or after exactly
`max_nl_iteration` solves. Missing: in the second case nothing is known about the residual, see `C117_silent_failure`. -/
theorem C117_iteration_partial (ctl : Control) (hn : 0 < ctl.maxNl) (gmres : Solver) (s : State) :
    let r := advance p M old oldOld vel ctl gmres s
    1 ≤ r.2.solves.length ∧ r.2.solves.length ≤ ctl.maxNl ∧
    (norm M.S.nDof (rhs p M old oldOld vel r.1.x) < 1 / 1000 * ctl.tolNl ∨ r.2.solves.length = ctl.maxNl) := by
  obtain ⟨-, h2, h3, h4, h5, -⟩ := loop_spec p M old oldOld vel ctl gmres ctl.maxNl 0 s ⟨false, []⟩ rfl
  simp only [List.length_nil, Nat.zero_add] at h2 h4 h5
  refine ⟨h5 trivial hn, h2, ?_⟩
  cases hc : (advance p M old oldOld vel ctl gmres s).2.conv with
  | true => exact Or.inl (h3 hc)
  | false => exact Or.inr (h4 hc)

/-- **C117 (concentration equation).** For every honest linear solver, whether or not the nonlinear iteration converged: if the
*last* linear solve converged, the concentration equation - which is linear - is satisfied up to the tolerance of that solve. -/
theorem C117_concentration_equation (ctl : Control) (hn : 0 < ctl.maxNl) (gmres : Solver) (hg : Spec.Honest M.S.nDof gmres)
    (s : State) :
    let r := advance p M old oldOld vel ctl gmres s
    ∃ e b, r.2.solves.getLast? = some (e, b) ∧ (b = true →
      Spec.massResidual p M old oldOld vel r.1.x ≤
        max (1 / 1000 * ctl.tolNl) (1 / 10 * ctl.tolLin * norm M.S.nDof (rhs p M old oldOld vel e.x))) := by
  obtain ⟨-, -, -, -, h5, h6⟩ := loop_spec p M old oldOld vel ctl gmres ctl.maxNl 0 s ⟨false, []⟩ rfl
  rcases h6 with ⟨h, -, -⟩ | ⟨e, b, j, hl, ⟨st, hst⟩, hx, hb⟩
  · exact absurd (h5 rfl hn) (by rw [h]; simp)
  · refine ⟨e, b, hl, fun hbt => ?_⟩
    change Spec.massResidual p M old oldOld vel (loop p M old oldOld vel ctl gmres ctl.maxNl 0 s ⟨false, []⟩).1.x ≤ _
    rw [hx]
    rw [hb] at hbt
    have hh := hg j (vmult p M e.stored) (rhs p M old oldOld vel e.x) e.update
      (tolerance ctl (norm M.S.nDof (rhs p M old oldOld vel e.x))) hbt
    rw [hst] at hh
    have := massResidual_step p M old oldOld vel e.x _ st _ hh
    rw [← hst] at this
    exact this

/-- **C117 (potential equation).** One linear solve changes the residual of the potential equation, tested with any function `v` of
its test space, to the residual of the linear system, minus the second order term of the double well, plus that of the contact
faces: Newton's method, for every mesh with hanging nodes and walls. -/
theorem C117_potential_equation (h : Energy.Spec.Fits M) (x d : Pair) (s : Stored) (v : ℕ → ℝ)
    (hv : Energy.Spec.Satisfies M.Cw M.S.nDof v) :
    ∑ k ∈ range M.S.nDof, v k * residual1 p M old oldOld vel (step M x d).1 (step M x d).2 k =
      ∑ k ∈ range M.S.nDof, (if (M.Cw.row k).isSome then 0 else
        v k * (residual1 p M old oldOld vel x.1 x.2 k - (vmult p M (store p M vel x s) d).2 k))
      - Energy.Spec.bulk M.S (fun e q =>
          3 * p.surfaceTension / (2 * p.epsilon) * (3 * Energy.Spec.val M.S x.1 e q - Energy.Spec.val M.S (M.C.dist M.S.nDof d.1) e q) *
            Energy.Spec.val M.S (M.C.dist M.S.nDof d.1) e q ^ 2 * Energy.Spec.val M.S v e q)
      + Energy.Spec.wall M.nFaceQ M.faces (fun F q => 3 / 4 * p.contactAngle * p.surfaceTension *
          Energy.Spec.wallVal M.nFaceDof M.faceMatrix (M.C.dist M.S.nDof d.1) F q ^ 2 *
          Energy.Spec.wallVal M.nFaceDof M.faceMatrix v F q) := by
  have hsplit : ∀ k, v k * residual1 p M old oldOld vel (step M x d).1 (step M x d).2 k =
      (if (M.Cw.row k).isSome then 0 else
        v k * (residual1 p M old oldOld vel x.1 x.2 k - (vmult p M (store p M vel x s) d).2 k))
      - v k * M.Cw.scatter M.S.nDof (M.S.test (fun e q => p.factor2 *
            (3 * M.S.value x.1 e q - M.S.value (M.C.dist M.S.nDof d.1) e q) * M.S.value (M.C.dist M.S.nDof d.1) e q ^ 2)
            (fun _ _ _ => 0)) k
      + v k * M.Cw.scatter M.S.nDof (M.faceLocal fun f q =>
            3 / 4 * p.contactAngle * p.surfaceTension * M.faceRead d.1 f q ^ 2 * M.faceW f q) k := by
    intro k
    rw [residual1_step p M old oldOld vel h x d s k]
    by_cases hk : (M.Cw.row k).isSome = true
    · rw [if_pos hk, if_pos hk, M.Cw.scatter_con _ _ hk, M.Cw.scatter_con _ _ hk]; ring
    · rw [if_neg hk, if_neg hk]; ring
  simp only [hsplit, sum_add_distrib, sum_sub_distrib]
  congr 1
  · congr 1
    rw [M.S.assembled_pair M.Cw h.closedW]
    refine M.S.integral_congr fun e _ q _ => ?_
    rw [Energy.value_congr M.S hv]
    simp only [zero_mul, sum_const_zero, add_zero]
    change _ = 3 * p.surfaceTension / (2 * p.epsilon) * (3 * M.S.value x.1 e q - M.S.value (M.C.dist M.S.nDof d.1) e q) *
            M.S.value (M.C.dist M.S.nDof d.1) e q ^ 2 * M.S.value v e q
    unfold CHCoef.factor2
    ring
  · rw [M.Cw.pairing h.closedW]
    have e1 : ∀ L : ℕ → ℝ, ∑ i ∈ range M.S.nDof, M.Cw.dist M.S.nDof v i * L i = ∑ i ∈ range M.S.nDof, v i * L i :=
      fun L => sum_congr rfl fun i hi => by rw [hv i (mem_range.1 hi)]
    rw [e1, Energy.faceLocal_pair M h]
    unfold Energy.Spec.wall
    rw [← Energy.sum_faces M, Energy.nFaces_eq M h]
    refine sum_congr rfl fun f hf => ?_
    have hf' := mem_range.1 hf
    rw [dif_pos hf', Energy.nFaceQUsed_eq M h (by omega)]
    refine sum_congr rfl fun q hq => ?_
    have hw := Energy.faceW_eq M h f q hf' (mem_range.1 hq)
    have hval : ∀ y : ℕ → ℝ, ∑ i ∈ range M.nFaceDof, y (M.faceIdx f i) * M.faceMatrix i q =
        Energy.Spec.wallVal M.nFaceDof M.faceMatrix y M.faces[f] q := by
      intro y
      unfold Energy.Spec.wallVal
      exact sum_congr rfl fun i hi => by rw [Energy.faceIdx_eq M h f i hf' (mem_range.1 hi)]
    have hread : M.faceRead d.1 f q = Energy.Spec.wallVal M.nFaceDof M.faceMatrix (M.C.dist M.S.nDof d.1) M.faces[f] q := by
      rw [← hval]; rfl
    rw [hval, hread, hw]
    ring

/-- The residual of the concentration equation tested with one. -/
theorem sum_residual0 (h : Energy.Spec.Fits M) (hP : M.S.Partition) (hone : M.C.KeepsOne M.S.nDof) (hw : p.weight ≠ 0)
    (x : Pair) :
    p.weight * ∑ k ∈ range M.S.nDof, residual0 p M old oldOld vel x.1 x.2 k =
      p.weight * Spec.total M x.1 + p.weightOld * Spec.total M old + (if p.twoStep then p.weightOldOld * Spec.total M oldOld else 0)
      + Energy.Spec.bulk M.S (fun e q => ∑ i ∈ range p.dim, vel e q i * Energy.Spec.dx M.S x.1 e q i) := by
  have h1 : ∑ k ∈ range M.S.nDof, residual0 p M old oldOld vel x.1 x.2 k =
      M.S.integral fun e q => (M.submitted p old oldOld vel x.1 x.2 e q).cVal := by
    have := M.S.assembled_pair M.C h.closed (fun e q => (M.submitted p old oldOld vel x.1 x.2 e q).cVal)
      (fun e q => (M.submitted p old oldOld vel x.1 x.2 e q).cGrad) (fun _ => 1)
    simp only [one_mul] at this
    unfold residual0
    rw [this]
    refine M.S.integral_congr fun e he q hq => ?_
    have hd : M.C.dist M.S.nDof (fun _ => (1 : ℝ)) = fun _ => 1 := by
      funext i; exact M.C.dist_const _ hone 1 i
    rw [hd, M.S.value_const hP 1 he hq]
    rw [sum_eq_zero fun d hd => by rw [M.S.gradient_const hP 1 he hq (mem_range.1 hd), mul_zero]]
    ring
  have hb : ∀ f, Energy.Spec.bulk M.S f = M.S.integral f := fun _ => rfl
  have hval : ∀ y e q, Energy.Spec.val M.S y e q = M.S.value y e q := fun _ _ _ => rfl
  have hdx : ∀ y e q i, Energy.Spec.dx M.S y e q i = M.S.gradient y e q i := fun _ _ _ _ => rfl
  rw [h1]
  unfold Spec.total
  simp only [hb, hval, hdx]
  have e2 : (if p.twoStep = true then p.weightOldOld * M.S.integral (fun e q => M.S.value oldOld e q) else 0) =
      (if p.twoStep = true then p.weightOldOld else 0) * M.S.integral (fun e q => M.S.value oldOld e q) := by
    split_ifs <;> simp
  rw [show (fun e q => M.S.value oldOld e q) = M.S.value oldOld from rfl] at e2
  have e2' : (if p.twoStep = true then p.weightOldOld * M.S.integral (Energy.Spec.val M.S oldOld) else 0) =
      (if p.twoStep = true then p.weightOldOld else 0) * M.S.integral (M.S.value oldOld) := by
    split_ifs
    · rfl
    · simp
  rw [e2']
  rw [← M.S.integral_smul]
  change _ = p.weight * M.S.integral (M.S.value x.1) + p.weightOld * M.S.integral (M.S.value old) + _ + _
  rw [← M.S.integral_smul, ← M.S.integral_smul, ← M.S.integral_smul, ← M.S.integral_add, ← M.S.integral_add, ← M.S.integral_add]
  refine M.S.integral_congr fun e _ q _ => ?_
  unfold Mesh.submitted chResidual CHCoef.inv Mesh.point sprod
  dsimp only
  have : ∑ i ∈ range p.dim, M.S.gradient x.1 e q i * vel e q i = ∑ i ∈ range p.dim, vel e q i * M.S.gradient x.1 e q i :=
    sum_congr rfl fun i _ => mul_comm _ _
  rw [this]
  split_ifs <;> field_simp <;> ring

/-- **C117 (total concentration).** If the constant is among the test functions (no boundary with prescribed fluid) and the last
linear solve converged, the weighted totals of the three time levels and the convection add up to zero up to the weight times
`√n_dofs` times the tolerance of the linear solve, whether or not the nonlinear iteration converged. -/
theorem C117_total_balance (h : Energy.Spec.Fits M) (hP : M.S.Partition) (hone : M.C.KeepsOne M.S.nDof) (hw : 0 < p.weight)
    (ctl : Control) (hn : 0 < ctl.maxNl) (gmres : Solver) (hg : Spec.Honest M.S.nDof gmres) (s : State) :
    let r := advance p M old oldOld vel ctl gmres s
    ∃ e b, r.2.solves.getLast? = some (e, b) ∧ (b = true →
      |p.weight * Spec.total M r.1.x.1 + p.weightOld * Spec.total M old
          + (if p.twoStep then p.weightOldOld * Spec.total M oldOld else 0)
          + Energy.Spec.bulk M.S (fun e q => ∑ i ∈ range p.dim, vel e q i * Energy.Spec.dx M.S r.1.x.1 e q i)| ≤
        p.weight * (√M.S.nDof *
          max (1 / 1000 * ctl.tolNl) (1 / 10 * ctl.tolLin * norm M.S.nDof (rhs p M old oldOld vel e.x)))) := by
  obtain ⟨e, b, hl, hb⟩ := C117_concentration_equation p M old oldOld vel ctl hn gmres hg s
  refine ⟨e, b, hl, fun hbt => ?_⟩
  have hb := hb hbt
  rw [← sum_residual0 p M old oldOld vel h hP hone hw.ne', abs_mul, abs_of_pos hw]
  refine mul_le_mul_of_nonneg_left ?_ hw.le
  refine le_trans ?_ (mul_le_mul_of_nonneg_left hb (Real.sqrt_nonneg _))
  unfold Spec.massResidual
  rw [← Real.sqrt_mul (Nat.cast_nonneg _)]
  apply Real.abs_le_sqrt
  have := sum_mul_sq_le_sq_mul_sq (range M.S.nDof) (fun _ => (1 : ℝ))
    (fun k => residual0 p M old oldOld vel (advance p M old oldOld vel ctl gmres s).1.x.1
      (advance p M old oldOld vel ctl gmres s).1.x.2 k)
  simpa using this

/-! ## Silent failure -/

/-- One cell, one point, one function. -/
def exMesh : Mesh ℝ where
  S := { dim := 1, nDof := 1, nCell := 1, nQ := 1, val := fun _ _ _ => 1, grad := fun _ _ _ _ => 0, jxw := fun _ _ => 1 }
  C := ⟨fun _ => none⟩
  Cw := ⟨fun _ => none⟩
  nFaceDof := 1
  nFaceQ := 1
  faces := []
  faceMatrix := fun _ _ => 1

/-- Implicit Euler with unit constants (`factor_2 = 3/2`). -/
noncomputable def exPar : CHCoef ℝ := ⟨1, 1, -1, 0, false, 1, 1, 1, 0⟩

noncomputable def exRhs (x : Pair) : Pair := rhs exPar exMesh (fun _ => 2) (fun _ => 0) (fun _ _ _ => 0) x

theorem exRhs_val (x : Pair) : (exRhs x).1 0 = x.1 0 - 2 ∧ (exRhs x).2 0 = x.2 0 - 3 / 2 * x.1 0 * (x.1 0 * x.1 0 - 1) := by
  unfold exRhs rhs residual0 residual1 contactVector Constr.scatter Space.test Space.integral Mesh.submitted Mesh.point
    Space.value chResidual exPar exMesh CHCoef.inv CHCoef.factor2 sprod Space.gradient
  constructor <;> norm_num <;> ring

theorem exNorm (x : Pair) : norm 1 (exRhs x) = √((x.1 0 - 2) ^ 2 + (x.2 0 - 3 / 2 * x.1 0 * (x.1 0 * x.1 0 - 1)) ^ 2) := by
  unfold norm
  simp only [sum_range_one]
  rw [(exRhs_val x).1, (exRhs_val x).2]

/-- GMRES that never converges and returns zero. -/
def failing : Solver := fun _ _ _ _ _ => ((fun _ => 0, fun _ => 0), false)

theorem failing_honest (n : ℕ) : Spec.Honest n failing := by intro i A b g tol h; cases h

theorem failing_loop (ctl : Control) (htol : ctl.tolNl ≤ 1000) (n : ℕ) : ∀ (i : ℕ) (s : State) (l : Log), s.x.1 0 = 1 →
    s.x.2 0 = 0 → l.conv = false →
    let r := loop exPar exMesh (fun _ => 2) (fun _ => 0) (fun _ _ _ => 0) ctl failing n i s l
    r.1.x.1 0 = 1 ∧ r.1.x.2 0 = 0 ∧ r.2.solves.length = l.solves.length + n := by
  induction n with
  | zero => intro i s l h1 h2 _; exact ⟨h1, h2, rfl⟩
  | succ n ih =>
    intro i s l h1 h2 hl
    have hnorm : norm 1 (exRhs s.x) = 1 := by
      rw [exNorm, h1, h2]; norm_num
    unfold loop
    dsimp only
    rw [if_neg (by
      rintro ⟨-, h⟩
      change norm 1 (exRhs s.x) < _ at h
      rw [hnorm] at h
      linarith)]
    have := ih (i + 1)
      (solve exPar exMesh (fun _ => 2) (fun _ => 0) (fun _ _ _ => 0) ctl failing i
        { s with stored := store exPar exMesh (fun _ _ _ => 0) s.x s.stored }).1
      { l with solves := l.solves ++ [({ s with stored := store exPar exMesh (fun _ _ _ => 0) s.x s.stored },
        (solve exPar exMesh (fun _ => 2) (fun _ => 0) (fun _ _ _ => 0) ctl failing i
          { s with stored := store exPar exMesh (fun _ _ _ => 0) s.x s.stored }).2)] }
      (by simp [solve, failing, exMesh, Constr.dist, h1]) (by simp [solve, failing, exMesh, Constr.dist, h2]) hl
    simp only [List.length_append, List.length_singleton] at this
    exact ⟨this.1, this.2.1, by rw [this.2.2]; omega⟩

/-- **C117 (counterexample: failure is not reported).** For every limit of iterations there is a linear solver that never converges
(an exception that is caught): the function returns normally after the maximal number of solves, and concentration and potential are
those of before; the residual is one, whatever (tolerances up to 1000). -/
theorem C117_silent_failure (ctl : Control) (htol : ctl.tolNl ≤ 1000) :
    Spec.Honest 1 failing ∧
    let r := advance exPar exMesh (fun _ => 2) (fun _ => 0) (fun _ _ _ => 0) ctl failing
      ⟨(fun _ => 1, fun _ => 0), (fun _ => 0, fun _ => 0), ⟨fun _ _ => (fun _ => 0, 0), fun _ _ => 0⟩⟩
    r.2.solves.length = ctl.maxNl ∧ norm 1 (exRhs r.1.x) = 1 := by
  refine ⟨failing_honest 1, ?_⟩
  have := failing_loop ctl htol ctl.maxNl 0
    ⟨(fun _ => 1, fun _ => 0), (fun _ => 0, fun _ => 0), ⟨fun _ _ => (fun _ => 0, 0), fun _ _ => 0⟩⟩ ⟨false, []⟩ rfl rfl rfl
  refine ⟨by unfold advance; simpa using this.2.2, ?_⟩
  rw [exNorm]
  unfold advance
  rw [this.1, this.2.1]
  norm_num

/-! ## Non-vacuity -/

/-- An exact solver for the example. -/
noncomputable def exactSolver : Solver := fun _ A b _ _ =>
  ((fun _ => b.1 0, fun _ => b.2 0 - (A (fun _ => b.1 0, fun _ => 0)).2 0), true)

theorem exMesh_fits : Energy.Spec.Fits exMesh where
  closed := by intro i c hi; cases hi
  closedW := by intro i c hi; cases hi
  faceDofs := by intro F hF; cases hF
  faceQs := by intro F hF; cases hF
  pos := by decide
  inRange := by intro F hF; cases hF

/-- the matrix of the example -/
theorem exVmult (s : Stored) (d : Pair) : (vmult exPar exMesh s d).1 0 = d.1 0 ∧
    (vmult exPar exMesh s d).2 0 = d.2 0 - 3 / 2 * d.1 0 * (3 * (s.cell 0 0).2 * (s.cell 0 0).2 - 1) := by
  unfold vmult product contactPart Constr.scatter Space.test Space.integral Mesh.point Constr.dist
    Space.value chProduct exPar exMesh CHCoef.inv CHCoef.factor2 sprod Space.gradient
  constructor <;> norm_num

/-- With one exact Newton step from `(1, 0)` the concentration equation is satisfied exactly, the potential equation is not. -/
example :
    let r := advance exPar exMesh (fun _ => 2) (fun _ => 0) (fun _ _ _ => 0) ⟨1, 1 / 100, 1 / 100⟩ exactSolver
      ⟨(fun _ => 1, fun _ => 0), (fun _ => 0, fun _ => 0), ⟨fun _ _ => (fun _ => 0, 0), fun _ _ => 0⟩⟩
    r.1.x.1 0 = 2 ∧ r.2.solves.map (·.2) = [true] ∧ (exRhs r.1.x).1 0 = 0 ∧ (exRhs r.1.x).2 0 ≠ 0 := by
  have key : (advance exPar exMesh (fun _ => 2) (fun _ => 0) (fun _ _ _ => 0) ⟨1, 1 / 100, 1 / 100⟩ exactSolver
      ⟨(fun _ => 1, fun _ => 0), (fun _ => 0, fun _ => 0), ⟨fun _ _ => (fun _ => 0, 0), fun _ _ => 0⟩⟩).1.x.1 0 = 2 ∧
    (advance exPar exMesh (fun _ => 2) (fun _ => 0) (fun _ _ _ => 0) ⟨1, 1 / 100, 1 / 100⟩ exactSolver
      ⟨(fun _ => 1, fun _ => 0), (fun _ => 0, fun _ => 0), ⟨fun _ _ => (fun _ => 0, 0), fun _ _ => 0⟩⟩).1.x.2 0 = 3 := by
    have e1 := (exRhs_val (fun _ => 1, fun _ => 0)).1
    have e2 := (exRhs_val (fun _ => 1, fun _ => 0)).2
    unfold exRhs at e1 e2
    unfold advance loop
    dsimp only
    rw [if_neg (by simp)]
    unfold loop solve exactSolver
    dsimp only
    rw [(exVmult _ _).2]
    simp only [exMesh, Constr.dist]
    simp only [exMesh] at e1 e2
    rw [e1, e2]
    simp only [store, chStore, Mesh.point, Space.value]
    norm_num
  refine ⟨key.1, ?_, ?_, ?_⟩
  · unfold advance loop
    dsimp only
    rw [if_neg (by simp)]
    rfl
  · rw [(exRhs_val _).1, key.1]; norm_num
  · rw [(exRhs_val _).2, key.1, key.2]; norm_num

example : exMesh.S.Partition ∧ exMesh.C.KeepsOne 1 ∧ 0 < exPar.weight := by
  refine ⟨⟨fun c _ q _ => by simp [exMesh], fun c _ q _ d _ => by simp [exMesh]⟩, (fun i c hi => by cases hi), (by norm_num [exPar])⟩

end Verif.PhaseField.Newton
