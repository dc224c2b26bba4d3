import Verif.FE.Space
import Verif.Mesh.FlowAdapt
import Mathlib.Tactic.Linarith
import Mathlib.Tactic.FieldSimp
import Mathlib.Tactic.LinearCombination
import Mathlib.Algebra.Order.Ring.Rat

/-!
# C102: mesh adaptation of the two-phase solvers
(source/two_phase_base.cc: setup_problem 122-197, distribute_dofs 201-226, initialize_data_structures 230-305,
refine_grid 394-437, init_time_advance 441-462; constraints: source/phase_field.cc:113-130; updates: phase_field.cc:451-456,
level_set_okz_advance_concentration.cc:649-650, level_set_okz_reinitialization.cc:337-349)

`solution`, `solution_old`, `solution_old_old` have two blocks: concentration and curvature (level set) or chemical potential
(phase field). A generation is the number of adaptations of the mesh. Transfers between meshes, initial functions and everything
the linear solvers return are arbitrary. `none` stands for an exception or an access to data of another mesh.
-/

set_option linter.unusedSectionVars false

namespace Verif.TwoPhase.Adapt

open Finset Verif.FE Verif.Mesh

variable {K : Type} [Field K] [LinearOrder K]

/-! ## Model -/

/-- A block vector of two blocks and the mesh generation it is sized for. -/
structure BVec (K : Type) where
  size : Option ℕ
  c : ℕ → K
  w : ℕ → K

/-- `AffineConstraints::distribute` of a block vector with two blocks of `n` entries: the lines of the constraints carry global
indices of the block vector, i.e. `i` means entry `i` of the first block if `i < n` and entry `i - n` of the second block
otherwise. -/
def distributeBlocks (C : Constr K) (n : ℕ) (b : BVec K) : BVec K :=
  let x : ℕ → K := fun g => if g < n then b.c g else b.w (g - n)
  { b with
    c := fun i => if i < n then C.dist (2 * n) x i else b.c i
    w := fun i => if i < n then C.dist (2 * n) x (n + i) else b.w i }

/-- Data of the meshes: number of degrees of freedom, hanging node constraints, degrees of freedom on boundaries with prescribed
fluid, transfer to the next mesh, initial function at the nodes (after `transform_distance_function`). -/
structure Env (K : Type) where
  n : ℕ → ℕ
  hang : ℕ → Constr K
  dir : ℕ → ℕ → Bool
  trans : ℕ → (ℕ → K) → (ℕ → K)
  init : ℕ → ℕ → K

/-- `constraints`, `constraints_curvature`: the hanging node constraints are merged (two_phase_base.cc:222-225), then boundary
degrees of freedom that are not constrained yet get homogeneous Dirichlet values (phase_field.cc:119-130), then the
constraints are closed (two_phase_base.cc:234-237), which replaces constrained masters. -/
def Env.con (e : Env K) (g : ℕ) : Constr K where
  row i := match (e.hang g).row i with
    | some c => some fun k => if ((e.hang g).row k).isSome = false ∧ e.dir g k = true then 0 else c k
    | none => if e.dir g i = true then some fun _ => 0 else none

/-- The solver object. `dofs`, `closed`: generations for which degrees of freedom were numbered and constraints closed. -/
structure Solver (K : Type) where
  gen : ℕ
  stepNo : ℕ
  dofs : Option ℕ
  closed : Option ℕ
  sol : BVec K
  old : BVec K
  oldOld : BVec K
  upd : BVec K

/-- `distribute_dofs`, two_phase_base.cc:201-226. -/
def Solver.distributeDofs (s : Solver K) : Solver K := { s with dofs := some s.gen, closed := none }

/-- `initialize_data_structures`, lines 230-305: closed constraints, zero vectors of the current size. -/
def Solver.initDS (s : Solver K) : Option (Solver K) :=
  if s.dofs = some s.gen then
    let z : BVec K := ⟨s.dofs, fun _ => 0, fun _ => 0⟩
    some { s with closed := s.dofs, upd := z, sol := z, old := z, oldOld := z }
  else none

/-- Vectors and constraints belong to the current mesh. -/
def Solver.ready (s : Solver K) : Bool :=
  s.dofs == some s.gen && s.closed == some s.gen && s.sol.size == some s.gen && s.old.size == some s.gen &&
  s.oldOld.size == some s.gen && s.upd.size == some s.gen

/-- Constructor, lines 65-97. -/
def Solver.ctor : Solver K :=
  let v : BVec K := ⟨none, fun _ => 0, fun _ => 0⟩
  ⟨0, 0, none, none, v, v, v, v⟩

/-- End of `refine_grid`, lines 421-434: four vectors in the order in which they were stored, then `distribute` of both block
vectors. -/
def Solver.finish (e : Env K) (s : Solver K) : List (ℕ → K) → Option (Solver K)
  | [a, b, c, d] =>
    let s := { s with old := { s.old with c := a, w := c }, sol := { s.sol with c := b, w := d } }
    some { s with old := distributeBlocks (e.hang s.gen) (e.n s.gen) s.old,
                  sol := distributeBlocks (e.hang s.gen) (e.n s.gen) s.sol }
  | _ => none

/-- `refine_grid`, lines 394-437; `marked` is the result of `mark_cells_for_refinement`. -/
def Solver.refineGrid (e : Env K) (marked : Bool) (s : Solver K) : Option (Solver K) :=
  if marked = false then some s
  else if s.ready = false then none
  else
    let t : Transfer (ℕ → K) := ⟨s.gen, [s.old.c, s.sol.c, s.old.w, s.sol.w]⟩
    let s := Solver.distributeDofs { s with gen := s.gen + 1 }
    s.initDS.bind fun s => (interpolate e.trans s.gen t 4).bind fun l => s.finish e l

/-- One pass of the loop in lines 164-187. -/
def Solver.setupPass (e : Env K) (marked : Bool) (s : Solver K) : Option (Solver K) :=
  (s.refineGrid e marked).map fun s =>
    { s with sol := { s.sol with c := (e.hang s.gen).dist (e.n s.gen) (e.init s.gen) } }

def Solver.setupLoop (e : Env K) : List Bool → Solver K → Option (Solver K)
  | [], s => some s
  | m :: ms, s => (s.setupPass e m).bind fun s => s.setupLoop e ms

/-- `setup_problem`, lines 137-187, on a mesh that the user may have refined locally; `marks` are the results of
`mark_cells_for_refinement` in the `adaptive_refinements + 1` passes, empty for `adaptive_refinements = 0`. -/
def Solver.setup (e : Env K) (marks : List Bool) : Option (Solver K) :=
  (Solver.ctor (K := K)).distributeDofs.initDS.bind fun s =>
    Solver.setupLoop e marks { s with sol := { s.sol with c := e.init s.gen } }

/-- `init_time_advance`, lines 447-458, with `step_size()`, `old_step_size()`. -/
def Solver.initTime (dt dtOld : K) (s : Solver K) : Solver K :=
  let s := { s with stepNo := s.stepNo + 1, upd := s.sol }
  let s := if 0 < dtOld then
      { s with upd := { s.upd with
          c := fun i => (dt + dtOld) / dtOld * s.upd.c i + -dt / dtOld * s.old.c i
          w := fun i => (dt + dtOld) / dtOld * s.upd.w i + -dt / dtOld * s.old.w i } }
    else s
  { s with oldOld := s.old, old := s.sol, sol := s.upd }

/-- One Newton update of the phase field, phase_field.cc:451-456: `r` is what the linear solver returned. -/
def newtonUpdate (C : Constr K) (n : ℕ) (x : BVec K) (r : (ℕ → K) × (ℕ → K)) : BVec K :=
  { x with c := fun i => x.c i - C.dist n r.1 i, w := fun i => x.w i - C.dist n r.2 i }

/-- One increment of the level set (transport or reinitialization), level_set_okz_advance_concentration.cc:649-650,
level_set_okz_reinitialization.cc:337-349. -/
def lsUpdate (C : Constr K) (n : ℕ) (x : BVec K) (r : ℕ → K) : BVec K :=
  { x with c := fun i => x.c i + C.dist n r i }

/-- Time step of the phase field solver with arbitrary results of the linear solves. -/
def Solver.stepPF (e : Env K) (dt dtOld : K) (rs : List ((ℕ → K) × (ℕ → K))) (s : Solver K) : Option (Solver K) :=
  if s.ready = true then
    let s := s.initTime dt dtOld
    some { s with sol := rs.foldl (newtonUpdate (e.con s.gen) (e.n s.gen)) s.sol }
  else none

/-- Time step of the level set solver with arbitrary results of the linear solves; the curvature is computed anew and distributed
(level_set_okz_compute_curvature.cc:379). Boundaries with prescribed fluid, where values are overwritten (C73), are not
covered here. -/
def Solver.stepLS (e : Env K) (dt dtOld : K) (rs : List (ℕ → K)) (κ : ℕ → K) (s : Solver K) : Option (Solver K) :=
  if s.ready = true then
    let s := s.initTime dt dtOld
    let x := rs.foldl (lsUpdate (e.con s.gen) (e.n s.gen)) s.sol
    some { s with sol := { x with w := (e.con s.gen).dist (e.n s.gen) κ } }
  else none

/-- What a driver does after the set-up (tests/rising_bubble.cc:160-170): time steps and adaptations in any order. -/
inductive Op (K : Type)
  | pf (dt dtOld : K) (rs : List ((ℕ → K) × (ℕ → K)))
  | ls (dt dtOld : K) (rs : List (ℕ → K)) (κ : ℕ → K)
  | refine (marked : Bool)

def Solver.op (e : Env K) (s : Solver K) : Op K → Option (Solver K)
  | .pf dt dtOld rs => s.stepPF e dt dtOld rs
  | .ls dt dtOld rs κ => s.stepLS e dt dtOld rs κ
  | .refine m => s.refineGrid e m

def Solver.run (e : Env K) : List (Op K) → Solver K → Option (Solver K)
  | [], s => some s
  | o :: os, s => (s.op e o).bind fun s => Solver.run e os s

/-! ## Specification -/

namespace Spec

/-- Two fields and their previous time level on a mesh. -/
structure Fields (K : Type) where
  gen : ℕ
  c : ℕ → K
  cOld : ℕ → K
  w : ℕ → K
  wOld : ℕ → K

/-- A vector satisfies the constraint `x_i = ∑ c_k x_k` of every hanging node. -/
def Conforming (H : Constr K) (n : ℕ) (x : ℕ → K) : Prop :=
  ∀ i < n, ∀ c, H.row i = some c → x i = ∑ k ∈ range n, c k * x k

/-- By how much the constraint at `i` is violated. -/
def defect (H : Constr K) (n : ℕ) (x : ℕ → K) (i : ℕ) : K :=
  match H.row i with
  | none => 0
  | some c => x i - ∑ k ∈ range n, c k * x k

/-- Meshes as deal.II produces them: hanging nodes depend on regular nodes of the same mesh. -/
structure Meshes (e : Env K) : Prop where
  closed : ∀ g, (e.hang g).Closed
  inRange : ∀ g i c, (e.hang g).row i = some c → i < e.n g ∧ ∀ k, e.n g ≤ k → c k = 0

/-- First guess in a step: the line through the last two levels, a constant in the first step. -/
def predict (dt dtOld : K) (x xOld : ℕ → K) (i : ℕ) : K :=
  if 0 < dtOld then x i + dt / dtOld * (x i - xOld i) else x i

/-- The sum of the distributed results of the linear solves. -/
def total (C : Constr K) (n : ℕ) (rs : List (ℕ → K)) (i : ℕ) : K := (rs.map fun r => C.dist n r i).sum

/-- Evolution of the fields: steps add increments to the prediction, adaptations move every field with its history; the
concentration is made conforming. -/
def next (e : Env K) (s : Fields K) : Op K → Fields K
  | .pf dt dtOld rs => { s with
      c := fun i => predict dt dtOld s.c s.cOld i - total (e.con s.gen) (e.n s.gen) (rs.map Prod.fst) i
      cOld := s.c
      w := fun i => predict dt dtOld s.w s.wOld i - total (e.con s.gen) (e.n s.gen) (rs.map Prod.snd) i
      wOld := s.w }
  | .ls dt dtOld rs κ => { s with
      c := fun i => predict dt dtOld s.c s.cOld i + total (e.con s.gen) (e.n s.gen) rs i
      cOld := s.c
      w := (e.con s.gen).dist (e.n s.gen) κ
      wOld := s.w }
  | .refine false => s
  | .refine true =>
    { gen := s.gen + 1
      c := (e.hang (s.gen + 1)).dist (e.n (s.gen + 1)) (e.trans s.gen s.c)
      cOld := (e.hang (s.gen + 1)).dist (e.n (s.gen + 1)) (e.trans s.gen s.cOld)
      w := e.trans s.gen s.w
      wOld := e.trans s.gen s.wOld }

end Spec

/-! ## Proof -/

section Basic

variable [IsStrictOrderedRing K]

/-- Only the first block is touched. -/
theorem distributeBlocks_eq (e : Env K) (h : Spec.Meshes e) (g : ℕ) (b : BVec K) :
    distributeBlocks (e.hang g) (e.n g) b = { b with c := (e.hang g).dist (e.n g) b.c } := by
  unfold distributeBlocks
  have hc : (fun i => if i < e.n g then (e.hang g).dist (2 * e.n g)
      (fun k => if k < e.n g then b.c k else b.w (k - e.n g)) i else b.c i) = (e.hang g).dist (e.n g) b.c := by
    funext i
    unfold Constr.dist
    cases hr : (e.hang g).row i with
    | none => simp only []; split_ifs <;> rfl
    | some c =>
      obtain ⟨hi, hk⟩ := h.inRange g i c hr
      simp only []
      rw [if_pos hi]
      symm
      calc ∑ k ∈ range (e.n g), c k * b.c k =
          ∑ k ∈ range (e.n g), c k * (if k < e.n g then b.c k else b.w (k - e.n g)) :=
            sum_congr rfl fun k hk => by rw [if_pos (mem_range.1 hk)]
        _ = _ := by
          refine sum_subset (range_subset_range.2 (by omega)) fun k _ hk' => ?_
          rw [hk k (by simpa using hk'), zero_mul]
  have hw : (fun i => if i < e.n g then (e.hang g).dist (2 * e.n g)
      (fun k => if k < e.n g then b.c k else b.w (k - e.n g)) (e.n g + i) else b.w i) = b.w := by
    funext i
    by_cases hi : i < e.n g
    · rw [if_pos hi]
      unfold Constr.dist
      cases hr : (e.hang g).row (e.n g + i) with
      | none => simp
      | some c => exact absurd (h.inRange g _ c hr).1 (by omega)
    · rw [if_neg hi]
  dsimp only
  rw [hc, hw]

theorem con_closed (e : Env K) (h : Spec.Meshes e) (g : ℕ) : (e.con g).Closed := by
  intro i c hi k hk
  have hdk : (((e.hang g).row k).isSome = false ∧ e.dir g k = true) ∨ ((e.hang g).row k).isSome = true := by
    unfold Env.con at hk
    dsimp only at hk
    cases hr : (e.hang g).row k with
    | some c => right; rfl
    | none =>
      rw [hr] at hk
      by_cases hd : e.dir g k = true
      · exact .inl ⟨rfl, hd⟩
      · simp [hd] at hk
  unfold Env.con at hi
  dsimp only at hi
  cases hr : (e.hang g).row i with
  | some c' =>
    rw [hr] at hi
    simp only [Option.some.injEq] at hi
    rw [← hi]
    dsimp only
    rcases hdk with hd | hd
    · rw [if_pos hd]
    · rw [if_neg (fun hh => by rw [hh.1] at hd; cases hd)]
      exact h.closed g i c' hr k hd
  | none =>
    rw [hr] at hi
    by_cases hd : e.dir g i = true
    · simp only [hd, if_true, Option.some.injEq] at hi
      rw [← hi]
    · simp [hd] at hi

/-- Results of the constrained linear systems are conforming. -/
theorem con_conforming (e : Env K) (h : Spec.Meshes e) (g : ℕ) (r : ℕ → K) :
    Spec.Conforming (e.hang g) (e.n g) ((e.con g).dist (e.n g) r) := by
  intro i _ c hc
  have hval : (e.con g).dist (e.n g) r i =
      ∑ k ∈ range (e.n g), (if ((e.hang g).row k).isSome = false ∧ e.dir g k = true then 0 else c k) * r k := by
    unfold Constr.dist Env.con
    dsimp only
    rw [hc]
  rw [hval]
  refine sum_congr rfl fun k _ => ?_
  by_cases hk : ((e.hang g).row k).isSome = true
  · rw [h.closed g i c hc k hk]
    simp
  · have hk' : ((e.hang g).row k).isSome = false := by simpa using hk
    have hn : (e.hang g).row k = none := by simpa using hk'
    by_cases hd : e.dir g k = true
    · rw [if_pos ⟨hk', hd⟩]
      have : (e.con g).dist (e.n g) r k = 0 := by
        unfold Constr.dist Env.con
        dsimp only
        rw [hn, if_pos hd]
        simp
      rw [this]; ring
    · rw [if_neg (fun hh => hd hh.2)]
      have : (e.con g).dist (e.n g) r k = r k := by
        unfold Constr.dist Env.con
        dsimp only
        rw [hn, if_neg hd]
      rw [this]

theorem hang_conforming (e : Env K) (h : Spec.Meshes e) (g : ℕ) (x : ℕ → K) :
    Spec.Conforming (e.hang g) (e.n g) ((e.hang g).dist (e.n g) x) := by
  intro i _ c hc
  have hval : (e.hang g).dist (e.n g) x i = ∑ k ∈ range (e.n g), c k * x k := by
    unfold Constr.dist; rw [hc]
  rw [hval]
  refine sum_congr rfl fun k _ => ?_
  by_cases hk : ((e.hang g).row k).isSome = true
  · rw [h.closed g i c hc k hk]; ring
  · rw [Constr.dist_free _ _ _ (by simpa using hk)]

theorem conforming_iff (H : Constr K) (n : ℕ) (hr : ∀ i c, H.row i = some c → i < n) (x : ℕ → K) :
    Spec.Conforming H n x ↔ ∀ i, Spec.defect H n x i = 0 := by
  unfold Spec.Conforming Spec.defect
  constructor
  · intro h i
    cases hi : H.row i with
    | none => rfl
    | some c => simp only []; rw [h i (hr i c hi) c hi, sub_self]
  · intro h i _ c hc
    have := h i
    rw [hc] at this
    exact sub_eq_zero.1 this

theorem defect_lin (H : Constr K) (n : ℕ) (a b : K) (x y : ℕ → K) (i : ℕ) :
    Spec.defect H n (fun k => a * x k + b * y k) i = a * Spec.defect H n x i + b * Spec.defect H n y i := by
  unfold Spec.defect
  cases H.row i with
  | none => simp
  | some c =>
    have : ∑ k ∈ range n, c k * (a * x k + b * y k) = a * ∑ k ∈ range n, c k * x k + b * ∑ k ∈ range n, c k * y k := by
      rw [mul_sum, mul_sum, ← sum_add_distrib]
      exact sum_congr rfl fun k _ => by ring
    simp only []
    rw [this]; ring

theorem defect_total (e : Env K) (h : Spec.Meshes e) (g : ℕ) (rs : List (ℕ → K)) (i : ℕ) :
    Spec.defect (e.hang g) (e.n g) (Spec.total (e.con g) (e.n g) rs) i = 0 := by
  have hr : ∀ i c, (e.hang g).row i = some c → i < e.n g := fun i c hc => (h.inRange g i c hc).1
  induction rs with
  | nil =>
    unfold Spec.defect Spec.total
    cases (e.hang g).row i <;> simp
  | cons r rs ih =>
    have e1 : Spec.total (e.con g) (e.n g) (r :: rs) =
        fun k => 1 * (e.con g).dist (e.n g) r k + 1 * Spec.total (e.con g) (e.n g) rs k := by
      funext k; unfold Spec.total; simp
    rw [e1, defect_lin, ih, (conforming_iff _ _ hr _).1 (con_conforming e h g r) i]
    ring

theorem defect_predict (H : Constr K) (n : ℕ) (dt dtOld : K) (x y : ℕ → K) (i : ℕ) :
    Spec.defect H n (Spec.predict dt dtOld x y) i =
      if 0 < dtOld then Spec.defect H n x i + dt / dtOld * (Spec.defect H n x i - Spec.defect H n y i)
      else Spec.defect H n x i := by
  by_cases hd : 0 < dtOld
  · have : Spec.predict dt dtOld x y = fun k => (1 + dt / dtOld) * x k + (-(dt / dtOld)) * y k := by
      funext k; unfold Spec.predict; rw [if_pos hd]; ring
    rw [this, defect_lin, if_pos hd]; ring
  · have : Spec.predict dt dtOld x y = x := by funext k; unfold Spec.predict; rw [if_neg hd]
    rw [this, if_neg hd]

end Basic

section Simulation

variable [IsStrictOrderedRing K]

/-- The fields of a solver object. -/
def fieldsOf (s : Solver K) : Spec.Fields K := ⟨s.gen, s.sol.c, s.old.c, s.sol.w, s.old.w⟩

theorem ready_iff (s : Solver K) : s.ready = true ↔ s.dofs = some s.gen ∧ s.closed = some s.gen ∧ s.sol.size = some s.gen ∧
    s.old.size = some s.gen ∧ s.oldOld.size = some s.gen ∧ s.upd.size = some s.gen := by
  unfold Solver.ready
  simp only [Bool.and_eq_true, beq_iff_eq, and_assoc]

theorem refine_sim (e : Env K) (h : Spec.Meshes e) (m : Bool) (s : Solver K) (hs : s.ready = true) :
    ∃ s', s.refineGrid e m = some s' ∧ s'.ready = true ∧ fieldsOf s' = Spec.next e (fieldsOf s) (.refine m) ∧
      s'.gen = s.gen + (if m then 1 else 0) ∧ s'.stepNo = s.stepNo := by
  cases m with
  | false => exact ⟨s, rfl, hs, rfl, rfl, rfl⟩
  | true =>
    unfold Solver.refineGrid
    rw [if_neg (by simp), if_neg (by rw [hs]; simp)]
    simp only [Solver.distributeDofs, Solver.initDS, if_true, Option.bind_some, interpolate, List.length_cons,
      List.length_nil, and_self, List.map_cons, List.map_nil, Solver.finish]
    refine ⟨_, rfl, ?_, ?_, ?_, ?_⟩
    · rw [ready_iff]
      exact ⟨rfl, rfl, rfl, rfl, rfl, rfl⟩
    · unfold fieldsOf Spec.next
      dsimp only
      rw [distributeBlocks_eq e h, distributeBlocks_eq e h]
    · simp
    · rfl

theorem predict_eq (dt dtOld : K) (hd : 0 < dtOld) (x y : ℕ → K) (i : ℕ) :
    (dt + dtOld) / dtOld * x i + -dt / dtOld * y i = Spec.predict dt dtOld x y i := by
  unfold Spec.predict
  rw [if_pos hd]
  field_simp
  ring

theorem initTime_sol (dt dtOld : K) (s : Solver K) : (s.initTime dt dtOld).sol.c = Spec.predict dt dtOld s.sol.c s.old.c ∧
    (s.initTime dt dtOld).sol.w = Spec.predict dt dtOld s.sol.w s.old.w ∧ (s.initTime dt dtOld).old = s.sol ∧
    (s.initTime dt dtOld).oldOld = s.old ∧ (s.initTime dt dtOld).gen = s.gen ∧
    (s.initTime dt dtOld).dofs = s.dofs ∧ (s.initTime dt dtOld).closed = s.closed ∧
    (s.initTime dt dtOld).sol.size = s.sol.size ∧ (s.initTime dt dtOld).upd.size = s.sol.size := by
  by_cases hd : 0 < dtOld
  · have h : s.initTime dt dtOld = { s with
        stepNo := s.stepNo + 1, oldOld := s.old, old := s.sol,
        upd := ⟨s.sol.size, Spec.predict dt dtOld s.sol.c s.old.c, Spec.predict dt dtOld s.sol.w s.old.w⟩
        sol := ⟨s.sol.size, Spec.predict dt dtOld s.sol.c s.old.c, Spec.predict dt dtOld s.sol.w s.old.w⟩ } := by
      unfold Solver.initTime
      simp only [hd, if_true, predict_eq dt dtOld hd]
    rw [h]
    exact ⟨rfl, rfl, rfl, rfl, rfl, rfl, rfl, rfl, rfl⟩
  · have hp : ∀ x y : ℕ → K, Spec.predict dt dtOld x y = x := by
      intro x y; funext k; unfold Spec.predict; rw [if_neg hd]
    rw [hp, hp]
    have h : s.initTime dt dtOld = { s with
        stepNo := s.stepNo + 1, oldOld := s.old, old := s.sol, upd := s.sol, sol := s.sol } := by
      unfold Solver.initTime
      simp only [hd, if_false]
    rw [h]
    exact ⟨rfl, rfl, rfl, rfl, rfl, rfl, rfl, rfl, rfl⟩

theorem newton_fold (C : Constr K) (n : ℕ) (rs : List ((ℕ → K) × (ℕ → K))) (x : BVec K) :
    (rs.foldl (newtonUpdate C n) x).c = (fun i => x.c i - Spec.total C n (rs.map Prod.fst) i) ∧
    (rs.foldl (newtonUpdate C n) x).w = (fun i => x.w i - Spec.total C n (rs.map Prod.snd) i) ∧
    (rs.foldl (newtonUpdate C n) x).size = x.size := by
  induction rs generalizing x with
  | nil => simp [Spec.total]
  | cons r rs ih =>
    obtain ⟨h1, h2, h3⟩ := ih (newtonUpdate C n x r)
    rw [List.foldl_cons]
    refine ⟨?_, ?_, h3⟩
    · rw [h1]; funext i; simp only [newtonUpdate, Spec.total, List.map_cons, List.sum_cons]; ring
    · rw [h2]; funext i; simp only [newtonUpdate, Spec.total, List.map_cons, List.sum_cons]; ring

theorem ls_fold (C : Constr K) (n : ℕ) (rs : List (ℕ → K)) (x : BVec K) :
    (rs.foldl (lsUpdate C n) x).c = (fun i => x.c i + Spec.total C n rs i) ∧
    (rs.foldl (lsUpdate C n) x).size = x.size := by
  induction rs generalizing x with
  | nil => simp [Spec.total]
  | cons r rs ih =>
    obtain ⟨h1, h3⟩ := ih (lsUpdate C n x r)
    rw [List.foldl_cons]
    refine ⟨?_, h3⟩
    rw [h1]; funext i; simp only [lsUpdate, Spec.total, List.map_cons, List.sum_cons]; ring

theorem op_sim (e : Env K) (h : Spec.Meshes e) (o : Op K) (s : Solver K) (hs : s.ready = true) :
    ∃ s', s.op e o = some s' ∧ s'.ready = true ∧ fieldsOf s' = Spec.next e (fieldsOf s) o := by
  have hr := (ready_iff s).1 hs
  cases o with
  | refine m =>
    obtain ⟨s', h1, h2, h3, -⟩ := refine_sim e h m s hs
    exact ⟨s', h1, h2, h3⟩
  | pf dt dtOld rs =>
    obtain ⟨i1, i2, i3, i4, i5, i6, i7, i8, i9⟩ := initTime_sol dt dtOld s
    unfold Solver.op Solver.stepPF
    dsimp only
    rw [if_pos hs]
    refine ⟨_, rfl, ?_, ?_⟩
    · rw [ready_iff]
      dsimp only
      rw [(newton_fold _ _ _ _).2.2, i3, i4, i5, i6, i7, i8, i9]
      exact ⟨hr.1, hr.2.1, hr.2.2.1, hr.2.2.1, hr.2.2.2.1, hr.2.2.1⟩
    · unfold fieldsOf Spec.next
      dsimp only
      rw [(newton_fold _ _ _ _).1, (newton_fold _ _ _ _).2.1, i1, i2, i3, i5]
  | ls dt dtOld rs κ =>
    obtain ⟨i1, i2, i3, i4, i5, i6, i7, i8, i9⟩ := initTime_sol dt dtOld s
    unfold Solver.op Solver.stepLS
    dsimp only
    rw [if_pos hs]
    refine ⟨_, rfl, ?_, ?_⟩
    · rw [ready_iff]
      dsimp only
      rw [(ls_fold _ _ _ _).2, i3, i4, i5, i6, i7, i8, i9]
      exact ⟨hr.1, hr.2.1, hr.2.2.1, hr.2.2.1, hr.2.2.2.1, hr.2.2.1⟩
    · unfold fieldsOf Spec.next
      dsimp only
      rw [(ls_fold _ _ _ _).1, i1, i3, i5]

/-- Set-up: generation, initial function and readiness. -/
theorem setupLoop_spec (e : Env K) (h : Spec.Meshes e) (marks : List Bool) (s : Solver K) (hs : s.ready = true)
    (hc : Spec.Conforming (e.hang s.gen) (e.n s.gen) s.old.c) :
    ∃ s', s.setupLoop e marks = some s' ∧ s'.ready = true ∧ s'.gen = s.gen + marks.count true ∧ s'.stepNo = s.stepNo ∧
      Spec.Conforming (e.hang s'.gen) (e.n s'.gen) s'.old.c ∧
      s'.sol.c = if marks = [] then s.sol.c else (e.hang s'.gen).dist (e.n s'.gen) (e.init s'.gen) := by
  induction marks generalizing s with
  | nil => exact ⟨s, rfl, hs, rfl, rfl, hc, rfl⟩
  | cons m ms ih =>
    obtain ⟨s1, h1, h2, h3, h4, h5⟩ := refine_sim e h m s hs
    have hp : s.setupPass e m = some { s1 with
        sol := { s1.sol with c := (e.hang s1.gen).dist (e.n s1.gen) (e.init s1.gen) } } := by
      unfold Solver.setupPass; rw [h1]; rfl
    have hr1 : ({ s1 with sol := { s1.sol with c := (e.hang s1.gen).dist (e.n s1.gen) (e.init s1.gen) } } : Solver K).ready
        = true := by
      rw [ready_iff] at h2 ⊢
      exact h2
    have hc1 : Spec.Conforming (e.hang s1.gen) (e.n s1.gen) s1.old.c := by
      have e1 : s1.gen = (Spec.next e (fieldsOf s) (.refine m)).gen := congrArg Spec.Fields.gen h3
      have e2 : s1.old.c = (Spec.next e (fieldsOf s) (.refine m)).cOld := congrArg Spec.Fields.cOld h3
      rw [e1, e2]
      cases m with
      | false => exact hc
      | true => exact hang_conforming e h _ _
    obtain ⟨s', g1, g2, g3, g4, g6, g5⟩ := ih _ hr1 hc1
    refine ⟨s', ?_, g2, ?_, ?_, g6, ?_⟩
    · unfold Solver.setupLoop
      rw [hp, Option.bind_some, g1]
    · rw [g3]
      dsimp only
      rw [h4]
      cases m
      · simp
      · simp; omega
    · rw [g4]; exact h5
    · rw [g5, if_neg (List.cons_ne_nil m ms)]
      by_cases hm : ms = []
      · rw [if_pos hm]
        subst hm
        have : s'.gen = s1.gen := by rw [g3]; simp
        rw [this]
      · rw [if_neg hm]

theorem setup_spec (e : Env K) (h : Spec.Meshes e) (marks : List Bool) :
    ∃ s, Solver.setup e marks = some s ∧ s.ready = true ∧ s.gen = marks.count true ∧ s.stepNo = 0 ∧
      Spec.Conforming (e.hang s.gen) (e.n s.gen) s.old.c ∧
      s.sol.c = if marks = [] then e.init 0 else (e.hang s.gen).dist (e.n s.gen) (e.init s.gen) := by
  unfold Solver.setup
  simp only [Solver.distributeDofs, Solver.initDS, if_true, Option.bind_some]
  obtain ⟨s', h1, h2, h3, h4, h6, h5⟩ := setupLoop_spec e h marks
    ({ (Solver.ctor (K := K)) with
        dofs := some (Solver.ctor (K := K)).gen
        closed := some (Solver.ctor (K := K)).gen
        sol := ⟨some (Solver.ctor (K := K)).gen, e.init (Solver.ctor (K := K)).gen, fun _ => 0⟩
        old := ⟨some (Solver.ctor (K := K)).gen, fun _ => 0, fun _ => 0⟩
        oldOld := ⟨some (Solver.ctor (K := K)).gen, fun _ => 0, fun _ => 0⟩
        upd := ⟨some (Solver.ctor (K := K)).gen, fun _ => 0, fun _ => 0⟩ }) (by rw [ready_iff]; exact ⟨rfl, rfl, rfl, rfl, rfl, rfl⟩)
    (by intro i _ c _; simp)
  refine ⟨s', h1, h2, ?_, h4, h6, h5⟩
  rw [h3]
  change 0 + _ = _
  omega

theorem run_sim (e : Env K) (h : Spec.Meshes e) (ops : List (Op K)) (s : Solver K) (hs : s.ready = true) :
    ∃ s', Solver.run e ops s = some s' ∧ s'.ready = true ∧ fieldsOf s' = ops.foldl (Spec.next e) (fieldsOf s) := by
  induction ops generalizing s with
  | nil => exact ⟨s, rfl, hs, rfl⟩
  | cons o os ih =>
    obtain ⟨s1, h1, h2, h3⟩ := op_sim e h o s hs
    obtain ⟨s', g1, g2, g3⟩ := ih s1 h2
    refine ⟨s', ?_, g2, ?_⟩
    · unfold Solver.run
      rw [h1, Option.bind_some, g1]
    · rw [g3, List.foldl_cons, h3]

/-- **C102 (history).** After set-up, for every sequence of time steps and adaptations and all results of the linear solvers: no
access to data of another mesh, all vectors belong to the current mesh, and both fields with their previous level are those
of a scheme that moves every field from mesh to mesh and makes the concentration conforming. -/
theorem C102_adaptive_run (e : Env K) (h : Spec.Meshes e) (marks : List Bool) (ops : List (Op K)) :
    ∃ s0 s, Solver.setup e marks = some s0 ∧ Solver.run e ops s0 = some s ∧ s.ready = true ∧
      fieldsOf s = ops.foldl (Spec.next e) (fieldsOf s0) := by
  obtain ⟨s0, h1, h2, -⟩ := setup_spec e h marks
  obtain ⟨s, g1, g2, g3⟩ := run_sim e h ops s0 h2
  exact ⟨s0, s, h1, g1, g2, g3⟩

theorem run_append (e : Env K) (a b : List (Op K)) (x y : Solver K) (h : Solver.run e a x = some y) :
    Solver.run e (a ++ b) x = Solver.run e b y := by
  induction a generalizing x with
  | nil => cases h; rfl
  | cons o a ih =>
    change (Solver.op e x o).bind (fun s => Solver.run e a s) = some y at h
    change (Solver.op e x o).bind (fun s => Solver.run e (a ++ b) s) = _
    cases ho : Solver.op e x o with
    | none => rw [ho] at h; cases h
    | some z =>
      rw [ho, Option.bind_some] at h
      rw [Option.bind_some]
      exact ih z h

/-- **C102 (second level).** The level before the previous one is not moved by adaptations (it is zero afterwards), but no time
step sees that: during every step, also the first one after an adaptation, the two older levels are the last two results. -/
theorem C102_second_level (e : Env K) (h : Spec.Meshes e) (marks : List Bool) (ops : List (Op K)) (o : Op K)
    (ho : ∀ m, o ≠ .refine m) :
    ∃ s0 s1 s, Solver.setup e marks = some s0 ∧ Solver.run e ops s0 = some s1 ∧ Solver.run e (ops ++ [o]) s0 = some s ∧
      s.old.c = s1.sol.c ∧ s.old.w = s1.sol.w ∧ s.oldOld.c = s1.old.c ∧ s.oldOld.w = s1.old.w := by
  obtain ⟨s0, h1, h2, -⟩ := setup_spec e h marks
  obtain ⟨s1, g1, g2, -⟩ := run_sim e h ops s0 h2
  cases o with
  | refine m => exact absurd rfl (ho m)
  | pf dt dtOld rs =>
    obtain ⟨-, -, i3, i4, -⟩ := initTime_sol dt dtOld s1
    have hs : ∃ s, Solver.op e s1 (.pf dt dtOld rs) = some s ∧ s.old = s1.sol ∧ s.oldOld = s1.old := by
      unfold Solver.op Solver.stepPF
      dsimp only
      rw [if_pos g2]
      exact ⟨_, rfl, i3, i4⟩
    obtain ⟨s, k1, k2, k3⟩ := hs
    refine ⟨s0, s1, s, h1, g1, ?_, by rw [k2], by rw [k2], by rw [k3], by rw [k3]⟩
    rw [run_append e ops _ s0 s1 g1]
    unfold Solver.run
    rw [k1]
    rfl
  | ls dt dtOld rs κ =>
    obtain ⟨-, -, i3, i4, -⟩ := initTime_sol dt dtOld s1
    have hs : ∃ s, Solver.op e s1 (.ls dt dtOld rs κ) = some s ∧ s.old = s1.sol ∧ s.oldOld = s1.old := by
      unfold Solver.op Solver.stepLS
      dsimp only
      rw [if_pos g2]
      exact ⟨_, rfl, i3, i4⟩
    obtain ⟨s, k1, k2, k3⟩ := hs
    refine ⟨s0, s1, s, h1, g1, ?_, by rw [k2], by rw [k2], by rw [k3], by rw [k3]⟩
    rw [run_append e ops _ s0 s1 g1]
    unfold Solver.run
    rw [k1]
    rfl

/-- **C102 (initial condition).** After set-up with adaptive refinement the concentration is the interpolation of the initial
function on the final mesh, conforming, however often the mesh was adapted; nothing of the transfers is left. -/
theorem C102_initial_profile (e : Env K) (h : Spec.Meshes e) (marks : List Bool) (hm : marks ≠ []) :
    ∃ s, Solver.setup e marks = some s ∧ s.gen = marks.count true ∧
      Spec.Conforming (e.hang s.gen) (e.n s.gen) s.sol.c ∧
      ∀ i, ((e.hang s.gen).row i).isSome = false → s.sol.c i = e.init s.gen i := by
  obtain ⟨s, h1, -, h3, -, -, h5⟩ := setup_spec e h marks
  rw [if_neg hm] at h5
  refine ⟨s, h1, h3, ?_, ?_⟩
  · rw [h5]; exact hang_conforming e h s.gen _
  · intro i hi
    rw [h5, Constr.dist_free _ _ _ hi]

/-! ### Conformity -/

/-- Concentration and previous level are conforming; so are they after every operation. -/
theorem next_conforming (e : Env K) (h : Spec.Meshes e) (o : Op K) (f : Spec.Fields K)
    (hc : Spec.Conforming (e.hang f.gen) (e.n f.gen) f.c) (ho : Spec.Conforming (e.hang f.gen) (e.n f.gen) f.cOld) :
    Spec.Conforming (e.hang (Spec.next e f o).gen) (e.n (Spec.next e f o).gen) (Spec.next e f o).c ∧
    Spec.Conforming (e.hang (Spec.next e f o).gen) (e.n (Spec.next e f o).gen) (Spec.next e f o).cOld := by
  have hr : ∀ g i c, (e.hang g).row i = some c → i < e.n g := fun g i c hc => (h.inRange g i c hc).1
  have key : ∀ (dt dtOld a : K) (rs : List (ℕ → K)), Spec.Conforming (e.hang f.gen) (e.n f.gen)
      (fun i => Spec.predict dt dtOld f.c f.cOld i + a * Spec.total (e.con f.gen) (e.n f.gen) rs i) := by
    intro dt dtOld a rs
    rw [conforming_iff _ _ (hr f.gen)] at hc ho ⊢
    intro i
    have e1 : (fun i => Spec.predict dt dtOld f.c f.cOld i + a * Spec.total (e.con f.gen) (e.n f.gen) rs i) =
        fun i => 1 * Spec.predict dt dtOld f.c f.cOld i + a * Spec.total (e.con f.gen) (e.n f.gen) rs i := by
      funext i; ring
    rw [e1, defect_lin, defect_total e h, defect_predict, hc, ho]
    simp
  cases o with
  | pf dt dtOld rs =>
    refine ⟨?_, hc⟩
    have := key dt dtOld (-1) (rs.map Prod.fst)
    simpa only [Spec.next, sub_eq_add_neg, neg_one_mul] using this
  | ls dt dtOld rs κ =>
    refine ⟨?_, hc⟩
    have := key dt dtOld 1 rs
    simpa only [Spec.next, one_mul] using this
  | refine m =>
    cases m with
    | false => exact ⟨hc, ho⟩
    | true => exact ⟨hang_conforming e h _ _, hang_conforming e h _ _⟩

theorem foldl_conforming (e : Env K) (h : Spec.Meshes e) (ops : List (Op K)) (f : Spec.Fields K)
    (hc : Spec.Conforming (e.hang f.gen) (e.n f.gen) f.c) (ho : Spec.Conforming (e.hang f.gen) (e.n f.gen) f.cOld) :
    Spec.Conforming (e.hang (ops.foldl (Spec.next e) f).gen) (e.n (ops.foldl (Spec.next e) f).gen)
      (ops.foldl (Spec.next e) f).c := by
  induction ops generalizing f with
  | nil => exact hc
  | cons o os ih =>
    obtain ⟨h1, h2⟩ := next_conforming e h o f hc ho
    exact ih _ h1 h2

/-- **C102 (conforming concentration).** If the set-up refines adaptively or the initial mesh has no hanging nodes, the
concentration satisfies the hanging node constraints of the current mesh after every sequence of steps and adaptations. -/
theorem C102_concentration_conforming_partial (e : Env K) (h : Spec.Meshes e) (marks : List Bool)
    (h0 : marks ≠ [] ∨ ∀ i, (e.hang 0).row i = none) (ops : List (Op K)) :
    ∃ s0 s, Solver.setup e marks = some s0 ∧ Solver.run e ops s0 = some s ∧
      Spec.Conforming (e.hang s.gen) (e.n s.gen) s.sol.c := by
  obtain ⟨s0, h1, h2, h3, -, h6, h5⟩ := setup_spec e h marks
  obtain ⟨s, g1, g2, g3⟩ := run_sim e h ops s0 h2
  refine ⟨s0, s, h1, g1, ?_⟩
  have hc : Spec.Conforming (e.hang s0.gen) (e.n s0.gen) s0.sol.c := by
    by_cases hm : marks = []
    · have hno := h0.resolve_left (fun hh => hh hm)
      have hg : s0.gen = 0 := by rw [h3, hm]; rfl
      intro i _ c hi
      rw [hg, hno i] at hi
      cases hi
    · rw [if_neg hm] at h5
      rw [h5]
      exact hang_conforming e h _ _
  have := foldl_conforming e h ops (fieldsOf s0) hc h6
  rw [← g3] at this
  exact this

/-- The curvature of the level set is conforming after every time step. -/
theorem C102_curvature_conforming (e : Env K) (h : Spec.Meshes e) (marks : List Bool) (ops : List (Op K)) (dt dtOld : K)
    (rs : List (ℕ → K)) (κ : ℕ → K) :
    ∃ s0 s, Solver.setup e marks = some s0 ∧ Solver.run e (ops ++ [.ls dt dtOld rs κ]) s0 = some s ∧
      Spec.Conforming (e.hang s.gen) (e.n s.gen) s.sol.w := by
  obtain ⟨s0, h1, h2, -⟩ := setup_spec e h marks
  obtain ⟨s, g1, g2, g3⟩ := run_sim e h (ops ++ [.ls dt dtOld rs κ]) s0 h2
  refine ⟨s0, s, h1, g1, ?_⟩
  rw [List.foldl_append] at g3
  have e1 := congrArg Spec.Fields.w g3
  have e2 := congrArg Spec.Fields.gen g3
  change s.sol.w = _ at e1
  change s.gen = _ at e2
  rw [e1, e2]
  exact con_conforming e h _ κ

/-! ### What is not repaired -/

/-- Phase field steps with the given sizes and results of the linear solves; the old step size of each step is the size of the
step before. -/
def pfOps (d0 : K) : List (K × List ((ℕ → K) × (ℕ → K))) → List (Op K)
  | [] => []
  | (dt, rs) :: l => .pf dt d0 rs :: pfOps dt l

theorem pf_gen (e : Env K) (d0 : K) (l : List (K × List ((ℕ → K) × (ℕ → K)))) (f : Spec.Fields K) :
    ((pfOps d0 l).foldl (Spec.next e) f).gen = f.gen := by
  induction l generalizing d0 f with
  | nil => rfl
  | cons x l ih => obtain ⟨dt, rs⟩ := x; exact ih dt _

theorem pf_defect (e : Env K) (h : Spec.Meshes e) (l : List (K × List ((ℕ → K) × (ℕ → K)))) (d0 : K) (hd : 0 < d0)
    (hl : ∀ x ∈ l, 0 < x.1) (f : Spec.Fields K) (i : ℕ) :
    Spec.defect (e.hang f.gen) (e.n f.gen) ((pfOps d0 l).foldl (Spec.next e) f).w i =
      Spec.defect (e.hang f.gen) (e.n f.gen) f.w i + (l.map Prod.fst).sum / d0 *
        (Spec.defect (e.hang f.gen) (e.n f.gen) f.w i - Spec.defect (e.hang f.gen) (e.n f.gen) f.wOld i) := by
  induction l generalizing d0 f with
  | nil => simp [pfOps]
  | cons x l ih =>
    obtain ⟨dt, rs⟩ := x
    have hdt : 0 < dt := hl (dt, rs) List.mem_cons_self
    have hw : Spec.defect (e.hang f.gen) (e.n f.gen) (Spec.next e f (.pf dt d0 rs)).w i =
        Spec.defect (e.hang f.gen) (e.n f.gen) f.w i + dt / d0 *
        (Spec.defect (e.hang f.gen) (e.n f.gen) f.w i - Spec.defect (e.hang f.gen) (e.n f.gen) f.wOld i) := by
      have e1 : (Spec.next e f (.pf dt d0 rs)).w = fun k => 1 * Spec.predict dt d0 f.w f.wOld k
          + (-1) * Spec.total (e.con f.gen) (e.n f.gen) (rs.map Prod.snd) k := by
        funext k; simp only [Spec.next]; ring
      rw [e1, defect_lin, defect_total e h, defect_predict, if_pos hd]; ring
    have := ih dt hdt (fun y hy => hl y (List.mem_cons_of_mem _ hy)) (Spec.next e f (.pf dt d0 rs))
    change Spec.defect (e.hang f.gen) (e.n f.gen) ((pfOps dt l).foldl (Spec.next e) (Spec.next e f (.pf dt d0 rs))).w i = _
      at this
    change Spec.defect (e.hang f.gen) (e.n f.gen) ((pfOps dt l).foldl (Spec.next e) (Spec.next e f (.pf dt d0 rs))).w i = _
    rw [this]
    change Spec.defect (e.hang f.gen) (e.n f.gen) (Spec.next e f (.pf dt d0 rs)).w i + (l.map Prod.fst).sum / dt *
      (Spec.defect (e.hang f.gen) (e.n f.gen) (Spec.next e f (.pf dt d0 rs)).w i
        - Spec.defect (e.hang f.gen) (e.n f.gen) f.w i) = _
    rw [hw, List.map_cons, List.sum_cons]
    field_simp
    ring

/-- **C102 (potential).** Phase field: the violation of the hanging node constraints by the chemical potential at every node,
e.g. after an adaptation, is continued linearly in time by all following steps, whatever their number and sizes and whatever
the linear solver returns; no step repairs it. -/
theorem C102_potential_defect_linear (e : Env K) (h : Spec.Meshes e) (s : Solver K) (hs : s.ready = true)
    (l : List (K × List ((ℕ → K) × (ℕ → K)))) (d0 : K) (hd : 0 < d0) (hl : ∀ x ∈ l, 0 < x.1) :
    ∃ s', Solver.run e (pfOps d0 l) s = some s' ∧ s'.gen = s.gen ∧
      ∀ i, Spec.defect (e.hang s.gen) (e.n s.gen) s'.sol.w i =
        Spec.defect (e.hang s.gen) (e.n s.gen) s.sol.w i + (l.map Prod.fst).sum / d0 *
          (Spec.defect (e.hang s.gen) (e.n s.gen) s.sol.w i - Spec.defect (e.hang s.gen) (e.n s.gen) s.old.w i) := by
  obtain ⟨s', g1, -, g3⟩ := run_sim e h (pfOps d0 l) s hs
  refine ⟨s', g1, ?_, fun i => ?_⟩
  · have := congrArg Spec.Fields.gen g3
    rw [pf_gen] at this
    exact this
  · have e1 := congrArg Spec.Fields.w g3
    change s'.sol.w = _ at e1
    rw [e1]
    exact pf_defect e h l d0 hd hl (fieldsOf s) i

/-- The same for the concentration: on a mesh that the user refined locally and without adaptive refinement the interpolated
initial function is not made conforming. -/
theorem C102_initial_defect_persists (e : Env K) (h : Spec.Meshes e) (dt : K) (rs : List ((ℕ → K) × (ℕ → K)))
    (l : List (K × List ((ℕ → K) × (ℕ → K)))) :
    ∃ s0 s, Solver.setup e [] = some s0 ∧ Solver.run e (.pf dt 0 rs :: pfOps dt l) s0 = some s ∧ s.gen = 0 ∧
      ∀ i, Spec.defect (e.hang 0) (e.n 0) s.sol.c i = Spec.defect (e.hang 0) (e.n 0) (e.init 0) i := by
  obtain ⟨s0, h1, h2, h3, -, h6, h5⟩ := setup_spec e h []
  obtain ⟨s, g1, g2, g3⟩ := run_sim e h (.pf dt 0 rs :: pfOps dt l) s0 h2
  have hg0 : s0.gen = 0 := h3
  rw [if_pos rfl] at h5
  rw [List.foldl_cons] at g3
  have step : ∀ (f : Spec.Fields K) (d1 d2 : K) (rs : List ((ℕ → K) × (ℕ → K))) (i : ℕ),
      Spec.defect (e.hang f.gen) (e.n f.gen) (Spec.next e f (.pf d1 d2 rs)).c i =
      Spec.defect (e.hang f.gen) (e.n f.gen) (Spec.predict d1 d2 f.c f.cOld) i := by
    intro f d1 d2 rs i
    have e1 : (Spec.next e f (.pf d1 d2 rs)).c = fun k => 1 * Spec.predict d1 d2 f.c f.cOld k
        + (-1) * Spec.total (e.con f.gen) (e.n f.gen) (rs.map Prod.fst) k := by
      funext k; simp only [Spec.next]; ring
    rw [e1, defect_lin, defect_total e h]; ring
  have loop : ∀ (l : List (K × List ((ℕ → K) × (ℕ → K)))) (d0 : K) (f : Spec.Fields K) (δ : ℕ → K),
      (∀ i, Spec.defect (e.hang f.gen) (e.n f.gen) f.c i = δ i) → (∀ i, Spec.defect (e.hang f.gen) (e.n f.gen) f.cOld i = δ i) →
      ∀ i, Spec.defect (e.hang f.gen) (e.n f.gen) ((pfOps d0 l).foldl (Spec.next e) f).c i = δ i := by
    intro l
    induction l with
    | nil => intro _ f δ hc _ i; exact hc i
    | cons x l ih =>
      intro d0 f δ hc ho i
      obtain ⟨d, r⟩ := x
      refine ih d (Spec.next e f (.pf d d0 r)) δ ?_ hc i
      intro j
      have := step f d d0 r j
      rw [defect_predict, hc, ho] at this
      rw [show Spec.defect (e.hang (Spec.next e f (.pf d d0 r)).gen) (e.n (Spec.next e f (.pf d d0 r)).gen)
        (Spec.next e f (.pf d d0 r)).c j = _ from this]
      simp
  refine ⟨s0, s, h1, g1, ?_, fun i => ?_⟩
  · have := congrArg Spec.Fields.gen g3
    rw [pf_gen] at this
    exact this.trans hg0
  · have e1 := congrArg Spec.Fields.c g3
    change s.sol.c = _ at e1
    rw [e1]
    have := loop l dt (Spec.next e (fieldsOf s0) (.pf dt 0 rs)) (Spec.defect (e.hang 0) (e.n 0) (e.init 0)) ?_ ?_ i
    · change Spec.defect (e.hang s0.gen) (e.n s0.gen) _ i = _ at this
      rw [hg0] at this
      exact this
    · intro j
      have := step (fieldsOf s0) dt 0 rs j
      rw [defect_predict, if_neg (lt_irrefl _)] at this
      change Spec.defect (e.hang s0.gen) (e.n s0.gen) _ j = Spec.defect (e.hang s0.gen) (e.n s0.gen) s0.sol.c j at this
      rw [h5, hg0] at this
      change Spec.defect (e.hang s0.gen) (e.n s0.gen) _ j = _
      rw [hg0]
      exact this
    · intro j
      change Spec.defect (e.hang s0.gen) (e.n s0.gen) s0.sol.c j = _
      rw [h5, hg0]

end Simulation

/-! ### A run with a violated constraint -/

/-- Three nodes; after the adaptation node 2 hangs between the nodes 0 and 1 because the neighbour was coarsened. Nodal values
are kept by the transfer. -/
def exEnv : Env ℚ where
  n _ := 3
  hang g := ⟨fun i => if g = 0 then none else if i = 2 then some fun k => if k < 2 then 1 / 2 else 0 else none⟩
  dir _ _ := false
  trans _ x := x
  init _ i := i

theorem exEnv_meshes : Spec.Meshes exEnv where
  closed := by
    intro g i c hi k hk
    simp only [exEnv] at hi hk
    split_ifs at hi hk with h1 h2 h3
    · simp only [Option.some.injEq] at hi
      rw [← hi, h3]; rfl
    · cases hk
  inRange := by
    intro g i c hi
    simp only [exEnv] at hi ⊢
    split_ifs at hi with h1 h2
    simp only [Option.some.injEq] at hi
    refine ⟨by omega, fun k hk => ?_⟩
    rw [← hi]
    simp only []
    rw [if_neg (by omega)]

/-- **C102 (potential never conforming).** A run of the phase field solver, from set-up through two steps and one adaptation, after
which the potential violates the constraint of the hanging node by one, in all following steps, for all step sizes and all
results of the linear solver. -/
theorem C102_potential_never_conforming : ∃ (e : Env ℚ) (before : List (Op ℚ)), Spec.Meshes e ∧
    ∀ l : List (ℚ × List ((ℕ → ℚ) × (ℕ → ℚ))), (∀ x ∈ l, 0 < x.1) →
    ∃ s0 s, Solver.setup e [] = some s0 ∧ Solver.run e (before ++ pfOps 1 l) s0 = some s ∧ s.gen = 1 ∧
      ¬ Spec.Conforming (e.hang s.gen) (e.n s.gen) s.sol.w := by
  set before : List (Op ℚ) := [.pf 1 0 [(fun _ => 0, fun i => if i = 2 then -1 else 0)],
    .pf 1 1 [(fun _ => 0, fun i => if i = 2 then 1 else 0)], .refine true] with hb
  refine ⟨exEnv, before, exEnv_meshes, fun l hl => ?_⟩
  obtain ⟨s0, h1, h2, -⟩ := setup_spec exEnv exEnv_meshes []
  obtain ⟨s1, g1, g2, g3⟩ := run_sim exEnv exEnv_meshes before s0 h2
  obtain ⟨s, k1, k2, k3⟩ := C102_potential_defect_linear exEnv exEnv_meshes s1 g2 l 1 one_pos hl
  have hs1 : s1.gen = 1 ∧ Spec.defect (exEnv.hang 1) (exEnv.n 1) s1.sol.w 2 = 1 ∧
      Spec.defect (exEnv.hang 1) (exEnv.n 1) s1.old.w 2 = 1 := by
    have hset : Solver.setup exEnv [] = some s0 := h1
    have hs0 : s0 = (⟨0, 0, some 0, some 0, ⟨some 0, exEnv.init 0, fun _ => 0⟩, ⟨some 0, fun _ => 0, fun _ => 0⟩,
        ⟨some 0, fun _ => 0, fun _ => 0⟩, ⟨some 0, fun _ => 0, fun _ => 0⟩⟩ : Solver ℚ) := by
      have : Solver.setup exEnv [] = some (⟨0, 0, some 0, some 0, ⟨some 0, exEnv.init 0, fun _ => 0⟩, ⟨some 0, fun _ => 0, fun _ => 0⟩,
        ⟨some 0, fun _ => 0, fun _ => 0⟩, ⟨some 0, fun _ => 0, fun _ => 0⟩⟩ : Solver ℚ) := rfl
      rw [this] at hset
      exact (Option.some.inj hset).symm
    have e1 := congrArg Spec.Fields.gen g3
    have e2 := congrArg Spec.Fields.w g3
    have e3 := congrArg Spec.Fields.wOld g3
    change s1.gen = _ at e1
    change s1.sol.w = _ at e2
    change s1.old.w = _ at e3
    rw [e1, e2, e3, hs0]
    decide +kernel
  refine ⟨s0, s, h1, ?_, k2.trans hs1.1, ?_⟩
  · rw [run_append exEnv before _ s0 s1 g1, k1]
  · intro hc
    have hz := (conforming_iff (exEnv.hang s.gen) (exEnv.n s.gen) (fun i c hi => (exEnv_meshes.inRange _ i c hi).1) _).1 hc 2
    rw [k2] at hz
    have := k3 2
    rw [hz, hs1.1, hs1.2.1, hs1.2.2] at this
    simp at this

/-- Non-vacuity of the positive theorems: on these meshes, set-up with two adaptive passes, level set steps and an adaptation. -/
example : ∃ s0 s, Solver.setup exEnv [true, false] = some s0 ∧
    Solver.run exEnv [.ls 1 0 [fun i => if i = 0 then 5 else 0] (fun _ => 7), .refine true] s0 = some s ∧
    Spec.Conforming (exEnv.hang s.gen) (exEnv.n s.gen) s.sol.c ∧ s0.sol.c 2 = 1 / 2 ∧ s.sol.c 0 = 5 ∧ s.sol.c 2 = 3 := by
  obtain ⟨s0, s, h1, h2, h3⟩ := C102_concentration_conforming_partial exEnv exEnv_meshes [true, false] (Or.inl (by simp))
    [.ls 1 0 [fun i => if i = 0 then 5 else 0] (fun _ => 7), .refine true]
  refine ⟨s0, s, h1, h2, h3, ?_⟩
  have key : ((Solver.setup exEnv [true, false]).map fun s => s.sol.c 2) = some (1 / 2) ∧
      (((Solver.setup exEnv [true, false]).bind fun s0 => Solver.run exEnv
        [.ls 1 0 [fun i => if i = 0 then 5 else 0] (fun _ => 7), .refine true] s0).map fun s => (s.sol.c 0, s.sol.c 2)) =
        some (5, 3) := by decide +kernel
  rw [h1] at key
  simp only [Option.map_some, Option.bind_some, h2, Option.some.injEq, Prod.mk.injEq] at key
  exact ⟨key.1, key.2.1, key.2.2⟩

/-- Two nodes and a hanging one already on the mesh of the user. -/
def exUser : Env ℚ := { exEnv with hang := fun _ => exEnv.hang 1 }

theorem exUser_meshes : Spec.Meshes exUser where
  closed := fun _ => exEnv_meshes.closed 1
  inRange := fun _ => exEnv_meshes.inRange 1

/-- Without adaptive refinement the violation of the initial function, here 3/2, is found in every later solution. -/
example (l : List (ℚ × List ((ℕ → ℚ) × (ℕ → ℚ)))) :
    ∃ s0 s, Solver.setup exUser [] = some s0 ∧ Solver.run exUser (.pf 1 0 [] :: pfOps 1 l) s0 = some s ∧
      Spec.defect (exUser.hang s.gen) (exUser.n s.gen) s.sol.c 2 = 3 / 2 := by
  obtain ⟨s0, s, h1, h2, h3, h4⟩ := C102_initial_defect_persists exUser exUser_meshes 1 [] l
  refine ⟨s0, s, h1, h2, ?_⟩
  rw [h3, h4 2]
  decide +kernel

end Verif.TwoPhase.Adapt
