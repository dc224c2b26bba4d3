import Verif.FE.Space
import Verif.Time.Model
import Verif.Boundary.Theorems

/-!
# C74: prescribed velocities and constraints hold after every time step
(source/navier_stokes.cc: initialize_data_structures 284-345, init_time_advance 660-690, 736-741, solve_system 559-650,
solve_nonlinear_system 850-935, compute_initial_stokes_field 1164-1212, apply_boundary_conditions 1213-1260,
refine_grid_pressure_based 1322-1372; source/two_phase_base.cc:395-438)

The results of linear solvers are arbitrary vectors, the number of nonlinear iterations is arbitrary (also when the iteration
does not converge).
-/

set_option linter.unusedSectionVars false

namespace Verif.Boundary

open Finset Verif.FE Verif.Time

variable {K : Type} [Field K] [LinearOrder K] [IsStrictOrderedRing K]

/-- Velocity degrees of freedom: their number, the boundary faces (id and degrees of freedom) in the order of the cell loop of
`interpolate_boundary_values`, the closed `hanging_node_constraints_u` (hanging nodes, periodicity, vanishing normal or
tangential components at symmetry and normal-flux boundaries; lines 237-296), and the nodal values of the user's functions
(degree of freedom, time). -/
structure VelMesh (K : Type) where
  nDof : ℕ
  faces : List (ℕ × List ℕ)
  hanging : Constr K
  nodal : Fn → K → ℕ → K

variable (M : VelMesh K)

/-- `dirichlet_u` / `homogeneous_dirichlet` as lookup: entries of `dirichlet_conditions_u` are inserted first, those of
`no_slip` (zero function, `none`) afterwards, replacing the former (lines 1224-1240 and 299-331). -/
def Desc.dirichletAt (d : Desc) (b : ℕ) : Option (Option Fn) :=
  if d.noSlip.has b then some none else (d.dirichlet.find b).map some

/-- `interpolate_boundary_values` (lines 1242-1246): the last face with a condition decides. -/
def VelMesh.boundaryCond (d : Desc) (i : ℕ) : Option (Option Fn) :=
  M.faces.foldl (fun v f => match d.dirichletAt f.1 with
    | some g => if f.2.contains i then some g else v
    | none => v) none

/-- Value of a condition: zero for no-slip. -/
def VelMesh.condValue (time : K) (i : ℕ) : Option Fn → K
  | none => 0
  | some f => M.nodal f time i

/-- `constraints_u`: the hanging node constraints, then homogeneous Dirichlet conditions for the remaining degrees of freedom,
closed (lines 296-342). -/
def VelMesh.constraints (d : Desc) : Constr K where
  row := fun i => match M.hanging.row i with
    | some c => some fun k => if (M.boundaryCond d k).isSome then 0 else c k
    | none => if (M.boundaryCond d i).isSome then some fun _ => 0 else none

/-- `apply_boundary_conditions`, velocity part, lines 1217-1254. -/
def VelMesh.applyBC (d : Desc) (time : K) (x : ℕ → K) : ℕ → K :=
  M.hanging.dist M.nDof fun i => match M.boundaryCond d i with
    | some g => M.condValue time i g
    | none => x i

/-- `solution += solution_update` after `constraints_u.distribute(solution_update.block(0))`, once for every pass of the
nonlinear iteration (lines 643, 890; for the projection scheme navier_stokes_preconditioner.cc:805). -/
def VelMesh.iterate (C : Constr K) (x : ℕ → K) (upds : List (ℕ → K)) : ℕ → K :=
  upds.foldl (fun x u => fun i => x i + C.dist M.nDof u i) x

/-- State of the flow solver, velocity part. -/
structure VelState (K : Type) where
  mesh : VelMesh K
  desc : Desc
  C : Constr K
  t : TS K
  x : ℕ → K
  old : ℕ → K

inductive VelEvent (K : Type)
  | call (c : Call)
  | setup (M : VelMesh K) (u0 : ℕ → K)
  | adapt (M : VelMesh K) (x old : ℕ → K)
  | stokes (upds : List (ℕ → K))
  | step (dt : Option K) (upds : List (ℕ → K))

/-- One event: a registration; `setup_problem` (345-372; `distribute_dofs` resets `system_is_setup`) with the mesh after global
refinement; a change of the mesh with any values of the fields on the new mesh (the constraints are built anew from the
conditions registered at that moment: in the two-phase solvers within `refine_grid`, in the flow solver when the caller of
`refine_grid_pressure_based` calls `initialize_data_structures`, lines 228-361);
`compute_initial_stokes_field` (the test of the norm in line 1168 is replaced by an arbitrary number of updates, possibly
none); a time step with `init_time_advance` (extrapolation lines 676-687). -/
def VelState.exec (dim : ℕ) (s : VelState K) : VelEvent K → VelState K
  | .call c => { s with desc := (s.desc.exec dim c).1 }
  | .setup M u0 => { s with mesh := M, C := M.constraints s.desc, x := M.hanging.dist M.nDof u0, old := fun _ => 0 }
  | .adapt M x old => { s with mesh := M, C := M.constraints s.desc, x := x, old := old }
  | .stokes upds => { s with x := s.mesh.iterate s.C (s.mesh.applyBC s.desc s.t.now s.x) upds }
  | .step dt upds =>
    let t := match dt with | some d => (s.t.setDesired d).next | none => s.t.next
    let x0 := fun i => t.extrapolate (s.x i) (s.old i)
    { s with t := t, old := s.x, x := s.mesh.iterate s.C (s.mesh.applyBC s.desc t.now x0) upds }

def VelState.run (dim : ℕ) (s : VelState K) (es : List (VelEvent K)) : VelState K := es.foldl (fun s e => s.exec dim e) s

/-- Constructor (flow_base_algorithm.cc:24-29, navier_stokes.cc:60-124). -/
def VelState.construct (p : Params K) : VelState K :=
  ⟨⟨0, [], ⟨fun _ => none⟩, fun _ _ _ => 0⟩, Desc.empty, ⟨fun _ => none⟩, TS.ctor p, fun _ => 0, fun _ => 0⟩

/-- An event that computes a velocity. -/
def VelEvent.solves : VelEvent K → Bool
  | .stokes _ => true
  | .step _ _ => true
  | _ => false

/-! ### Specification, in terms of the calls made -/

/-- The registrations of a history. -/
def Spec.registrations (es : List (VelEvent K)) : List Call :=
  es.filterMap fun e => match e with | .call c => some c | _ => none

/-- A setup or a change of the mesh to the mesh `M`. -/
def Spec.Builds (M : VelMesh K) : VelEvent K → Prop
  | .setup M' _ => M' = M
  | .adapt M' _ _ => M' = M
  | _ => False

/-- The condition the calls ask for at boundary `b`: no-slip (`some none`) if asked for since the last clearing, otherwise the
function of the last velocity condition. -/
def Spec.velocityCond (dim : ℕ) (cs : List Call) (b : ℕ) : Option (Option Fn) :=
  if lastOf (wantsNoSlip b) (sinceClear cs) = some () then some none
  else (lastOf (wantsDirichlet dim b) (sinceClear cs)).map some

/-- Condition `g` is prescribed at the degree of freedom `i`, and all faces it lies on agree. -/
def Spec.PrescribedU (dim : ℕ) (cs : List Call) (i : ℕ) (g : Option Fn) : Prop :=
  (∃ f ∈ M.faces, i ∈ f.2 ∧ Spec.velocityCond dim cs f.1 = some g) ∧
  ∀ f ∈ M.faces, i ∈ f.2 → ∀ g', Spec.velocityCond dim cs f.1 = some g' → g' = g

/-! ### Proofs -/

theorem dirichletAt_run (dim : ℕ) (cs : List Call) (b : ℕ) :
    (Desc.empty.run dim cs).dirichletAt b = Spec.velocityCond dim cs b := by
  obtain ⟨h1, -, -, -, -, h6⟩ := C09_last_call_decides dim cs b
  unfold Desc.dirichletAt Spec.velocityCond Map.has
  rw [h1, h6]
  cases h : lastOf (wantsNoSlip b) (sinceClear cs) with
  | none => simp
  | some u => simp

theorem boundaryCond_spec (d : Desc) (i : ℕ) : (∀ g, M.boundaryCond d i = some g →
      ∃ f ∈ M.faces, i ∈ f.2 ∧ d.dirichletAt f.1 = some g) ∧
    ((∃ f ∈ M.faces, i ∈ f.2 ∧ (d.dirichletAt f.1).isSome) → (M.boundaryCond d i).isSome) := by
  unfold VelMesh.boundaryCond
  induction M.faces using List.reverseRecOn with
  | nil => simp
  | append_singleton l f ih =>
    rw [List.foldl_append, List.foldl_cons, List.foldl_nil]
    constructor
    · intro g
      cases hm : d.dirichletAt f.1 with
      | none =>
        intro h
        obtain ⟨e, he, h2⟩ := ih.1 g h
        exact ⟨e, List.mem_append_left _ he, h2⟩
      | some g' =>
        dsimp only
        by_cases hc : f.2.contains i = true
        · rw [if_pos hc]
          intro h
          exact ⟨f, by simp, by simpa using hc, by rw [hm]; exact h⟩
        · rw [if_neg hc]
          intro h
          obtain ⟨e, he, h2⟩ := ih.1 g h
          exact ⟨e, List.mem_append_left _ he, h2⟩
    · rintro ⟨e, he, hi, hs⟩
      cases hm : d.dirichletAt f.1 with
      | none =>
        refine ih.2 ⟨e, ?_, hi, hs⟩
        rcases List.mem_append.1 he with h | h
        · exact h
        · rw [List.mem_singleton] at h; subst h; rw [hm] at hs; cases hs
      | some g' =>
        dsimp only
        by_cases hc : f.2.contains i = true
        · rw [if_pos hc]; rfl
        · rw [if_neg hc]
          refine ih.2 ⟨e, ?_, hi, hs⟩
          rcases List.mem_append.1 he with h | h
          · exact h
          · rw [List.mem_singleton] at h; subst h; exact absurd (by simpa using hi) hc

theorem boundaryCond_prescribed (dim : ℕ) (cs : List Call) (i : ℕ) (g : Option Fn) (h : Spec.PrescribedU M dim cs i g) :
    M.boundaryCond (Desc.empty.run dim cs) i = some g := by
  obtain ⟨⟨f, hf, hi, hg⟩, hu⟩ := h
  have hs : (M.boundaryCond (Desc.empty.run dim cs) i).isSome :=
    (boundaryCond_spec M _ i).2 ⟨f, hf, hi, by rw [dirichletAt_run, hg]; rfl⟩
  obtain ⟨g', hg'⟩ := Option.isSome_iff_exists.1 hs
  obtain ⟨e, he, hie, hge⟩ := (boundaryCond_spec M _ i).1 g' hg'
  rw [dirichletAt_run] at hge
  rw [hg', hu e he hie g' hge]

theorem iterate_fixed (C : Constr K) (i : ℕ) (h : ∀ u, C.dist M.nDof u i = 0) (x : ℕ → K) (upds : List (ℕ → K)) :
    M.iterate C x upds i = x i := by
  unfold VelMesh.iterate
  induction upds using List.reverseRecOn with
  | nil => rfl
  | append_singleton l d ih => rw [List.foldl_append, List.foldl_cons, List.foldl_nil, h, add_zero, ih]

/-- Updates vanish at Dirichlet nodes. -/
theorem dist_dirichlet (d : Desc) (i : ℕ) (hi : M.hanging.row i = none) (hb : (M.boundaryCond d i).isSome) (u : ℕ → K) :
    (M.constraints d).dist M.nDof u i = 0 := by
  unfold Constr.dist VelMesh.constraints
  dsimp only
  rw [hi]
  dsimp only
  rw [if_pos hb]
  exact sum_eq_zero fun k _ => zero_mul _

/-- Updates satisfy the hanging node constraints. -/
theorem dist_hanging (d : Desc) (hH : M.hanging.Closed) (i : ℕ) (c : ℕ → K) (hi : M.hanging.row i = some c) (u : ℕ → K) :
    (M.constraints d).dist M.nDof u i = ∑ k ∈ range M.nDof, c k * (M.constraints d).dist M.nDof u k := by
  have h1 : (M.constraints d).dist M.nDof u i =
      ∑ k ∈ range M.nDof, (if (M.boundaryCond d k).isSome then 0 else c k) * u k := by
    unfold Constr.dist VelMesh.constraints
    dsimp only
    rw [hi]
  rw [h1]
  refine sum_congr rfl fun k _ => ?_
  by_cases hk : c k = 0
  · rw [hk]; split_ifs <;> simp
  · have hrow : M.hanging.row k = none := by
      by_contra h
      exact hk (hH i c hi k (Option.isSome_iff_ne_none.2 h))
    by_cases hb : (M.boundaryCond d k).isSome
    · rw [if_pos hb, dist_dirichlet M d k hrow hb]; ring
    · rw [if_neg hb]
      congr 1
      unfold Constr.dist VelMesh.constraints
      dsimp only
      rw [hrow]
      dsimp only
      rw [if_neg hb]

theorem dist_satisfies (C : Constr K) (n : ℕ) (hC : C.Closed) (i : ℕ) (c : ℕ → K) (hi : C.row i = some c) (x : ℕ → K) :
    C.dist n x i = ∑ k ∈ range n, c k * C.dist n x k := by
  rw [show C.dist n x i = ∑ k ∈ range n, c k * x k from by unfold Constr.dist; rw [hi]]
  refine sum_congr rfl fun k _ => ?_
  by_cases hk : c k = 0
  · rw [hk]; simp
  · congr 1
    refine (C.dist_free n x ?_).symm
    by_contra h
    exact hk (hC i c hi k (by rw [Option.isSome_iff_ne_none]; simpa using h))

theorem iterate_hanging (d : Desc) (hH : M.hanging.Closed) (i : ℕ) (c : ℕ → K) (hi : M.hanging.row i = some c) (x : ℕ → K)
    (hx : x i = ∑ k ∈ range M.nDof, c k * x k) (upds : List (ℕ → K)) :
    M.iterate (M.constraints d) x upds i = ∑ k ∈ range M.nDof, c k * M.iterate (M.constraints d) x upds k := by
  unfold VelMesh.iterate
  induction upds using List.reverseRecOn with
  | nil => exact hx
  | append_singleton l u ih =>
    simp only [List.foldl_append, List.foldl_cons, List.foldl_nil]
    rw [ih, dist_hanging M d hH i c hi u, ← sum_add_distrib]
    exact sum_congr rfl fun k _ => by ring

theorem vel_run_desc (dim : ℕ) (s : VelState K) (es : List (VelEvent K)) :
    (s.run dim es).desc = s.desc.run dim (Spec.registrations es) := by
  induction es generalizing s with
  | nil => rfl
  | cons e es ih =>
    have h : s.run dim (e :: es) = (s.exec dim e).run dim es := rfl
    rw [h, ih]
    cases e <;> rfl

theorem run_kept (dim : ℕ) (s : VelState K) (es : List (VelEvent K)) (he : ∀ e ∈ es, e.solves = true) :
    (s.run dim es).desc = s.desc ∧ (s.run dim es).C = s.C ∧ (s.run dim es).mesh = s.mesh := by
  induction es generalizing s with
  | nil => exact ⟨rfl, rfl, rfl⟩
  | cons e es ih =>
    have h := ih (s.exec dim e) fun e h => he e (List.mem_cons_of_mem _ h)
    have he' := he e List.mem_cons_self
    cases e with
    | call c => cases he'
    | setup M u => cases he'
    | adapt M x o => cases he'
    | stokes u => exact h
    | step dt u => exact h

theorem run_append_vel (dim : ℕ) (s : VelState K) (a b : List (VelEvent K)) :
    s.run dim (a ++ b) = (s.run dim a).run dim b := by
  unfold VelState.run; exact List.foldl_append ..

/-- Form of the velocity after the last solving event of a run. -/
theorem run_form (dim : ℕ) (p : Params K) (hist : List (VelEvent K)) (b : VelEvent K) (hb : Spec.Builds M b)
    (es : List (VelEvent K)) (hne : es ≠ []) (he : ∀ e ∈ es, e.solves = true) :
    let s := (VelState.construct p).run dim (hist ++ b :: es)
    ∃ (y : ℕ → K) (upds : List (ℕ → K)),
      s.x = M.iterate (M.constraints (Desc.empty.run dim (Spec.registrations hist)))
        (M.applyBC (Desc.empty.run dim (Spec.registrations hist)) s.t.now y) upds := by
  obtain ⟨l, e, rfl⟩ := List.eq_nil_or_concat es |>.resolve_left hne
  rw [List.concat_eq_append] at he ⊢
  dsimp only
  have hd := vel_run_desc dim (VelState.construct p) hist
  have h0 : (VelState.construct p).run dim (hist ++ b :: (l ++ [e])) =
      VelState.exec dim (VelState.run dim (((VelState.construct p).run dim hist).exec dim b) l) e := by
    rw [run_append_vel]
    unfold VelState.run
    rw [List.foldl_cons, List.foldl_append, List.foldl_cons, List.foldl_nil]
  rw [h0]
  generalize VelState.run dim (VelState.construct p) hist = s0 at hd ⊢
  have hB : (s0.exec dim b).desc = s0.desc ∧ (s0.exec dim b).C = M.constraints s0.desc ∧ (s0.exec dim b).mesh = M := by
    cases b with
    | setup M' u => cases hb; exact ⟨rfl, rfl, rfl⟩
    | adapt M' x o => cases hb; exact ⟨rfl, rfl, rfl⟩
    | call c => exact absurd hb id
    | stokes u => exact absurd hb id
    | step dt u => exact absurd hb id
  have hk := run_kept dim (s0.exec dim b) l fun e h => he e (List.mem_append_left _ h)
  rw [hB.1, hB.2.1, hB.2.2, hd] at hk
  revert hk
  generalize VelState.run dim (s0.exec dim b) l = s
  rintro ⟨h1, h2, h3⟩
  have h1' : s.desc = Desc.empty.run dim (Spec.registrations hist) := h1
  have h2' : s.C = M.constraints (Desc.empty.run dim (Spec.registrations hist)) := h2
  have hes := he e (List.mem_append_right _ (by simp))
  cases e with
  | call c => cases hes
  | setup M u => cases hes
  | adapt M x o => cases hes
  | stokes upds =>
    refine ⟨s.x, upds, ?_⟩
    unfold VelState.exec
    dsimp only
    rw [h1', h2', h3]
  | step dt upds =>
    cases dt with
    | none =>
      refine ⟨fun i => TS.extrapolate s.t.next (s.x i) (s.old i), upds, ?_⟩
      unfold VelState.exec
      dsimp only
      rw [h1', h2', h3]
    | some d =>
      refine ⟨fun i => TS.extrapolate (s.t.setDesired d).next (s.x i) (s.old i), upds, ?_⟩
      unfold VelState.exec
      dsimp only
      rw [h1', h2', h3]

/-- **C74 (prescribed velocities).** After any history, a setup or change of the mesh and any number of time steps or initial
Stokes solves - whatever the linear solvers and the transfer returned and whether or not the nonlinear iteration converged - the
velocity at every node of the current mesh with a velocity prescribed by the registrations before the last setup or change of
the mesh has exactly the prescribed value at the current time; zero at no-slip boundaries, which win over velocity conditions
for the same id. (Nodes that are also tied by hanging node, periodicity, symmetry or normal-flux constraints: see
`C74_constraints`.) -/
theorem C74_prescribed_velocity (dim : ℕ) (p : Params K) (hist : List (VelEvent K)) (b : VelEvent K) (hb : Spec.Builds M b)
    (es : List (VelEvent K)) (hne : es ≠ []) (he : ∀ e ∈ es, e.solves = true) (i : ℕ) (hi : M.hanging.row i = none)
    (g : Option Fn) (hg : Spec.PrescribedU M dim (Spec.registrations hist) i g) :
    let s := (VelState.construct p).run dim (hist ++ b :: es)
    s.x i = match g with | none => 0 | some f => M.nodal f s.t.now i := by
  obtain ⟨y, upds, h⟩ := run_form M dim p hist b hb es hne he
  have hb := boundaryCond_prescribed M dim (Spec.registrations hist) i g hg
  dsimp only
  rw [h, iterate_fixed M _ i (dist_dirichlet M _ i hi (by rw [hb]; rfl))]
  unfold VelMesh.applyBC
  rw [Constr.dist_free _ _ _ (by rw [hi]; rfl), hb]
  cases g <;> rfl

/-- **C74 (constraints).** In the same situation the hanging node, periodicity, symmetry and normal-flux constraints hold
exactly - also at nodes that in addition lie on a boundary with a prescribed velocity. -/
theorem C74_constraints (dim : ℕ) (p : Params K) (hist : List (VelEvent K)) (b : VelEvent K) (hb : Spec.Builds M b)
    (es : List (VelEvent K)) (hne : es ≠ []) (he : ∀ e ∈ es, e.solves = true) (hH : M.hanging.Closed) (i : ℕ) (c : ℕ → K)
    (hi : M.hanging.row i = some c) :
    let s := (VelState.construct p).run dim (hist ++ b :: es)
    s.x i = ∑ k ∈ range M.nDof, c k * s.x k := by
  obtain ⟨y, upds, h⟩ := run_form M dim p hist b hb es hne he
  dsimp only
  rw [h]
  refine iterate_hanging M _ hH i c hi _ ?_ upds
  unfold VelMesh.applyBC
  exact dist_satisfies M.hanging M.nDof hH i c hi _

/-- **C74 (late registration).** The conditions are imposed for the calls before the last setup or change of the mesh: a no-slip
condition registered after it is written into the start value of the steps but not kept by the iterations. -/
theorem C74_late_registration :
    ∃ (M : VelMesh ℚ) (p : Params ℚ) (cs : List Call) (es : List (VelEvent ℚ)), p.stepStart = 1 / 10 ∧
      Spec.velocityCond 2 cs 7 = some none ∧
      ((VelState.construct p).run 2 (.setup M (fun _ => 0) :: cs.map .call ++ es)).x 0 ≠ 0 ∧
      ((VelState.construct p).run 2 (cs.map .call ++ .setup M (fun _ => 0) :: es)).x 0 = 0 ∧
      ((VelState.construct p).run 2 (.setup M (fun _ => 0) :: cs.map .call ++ .adapt M (fun _ => 0) (fun _ => 0) :: es)).x 0 = 0 :=
  ⟨⟨2, [(7, [0])], ⟨fun _ => none⟩, fun _ _ _ => 0⟩, ⟨.bdf2, 0, 1, 1 / 10, 1, 1 / 100⟩, [.noSlip 7],
    [.step none [fun _ => 1]], rfl, by decide, by decide +kernel, by decide +kernel, by decide +kernel⟩

/-! ### Concrete case: inflow at id 7 (node 0), symmetry constraint on node 2 -/

def exVel : VelMesh ℚ where
  nDof := 4
  faces := [(7, [0, 2]), (8, [3])]
  hanging := ⟨fun i => if i = 2 then some fun k => if k = 1 then 1 else 0 else none⟩
  nodal := fun f t i => f.ident + t + i

def exVelCalls : List Call := [.noSlip 8, .dirichlet 7 (some ⟨5, 2⟩) 0]

example : exVel.hanging.Closed := by
  intro i c h k hk
  unfold exVel at h hk
  dsimp only at h hk
  split_ifs at h hk with h1 h2
  · have := Option.some.inj h; subst this; rw [h2]; simp
  · cases hk

example : Spec.PrescribedU exVel 2 exVelCalls 0 (some ⟨5, 2⟩) := by
  refine ⟨⟨(7, [0, 2]), by simp [exVel], by simp, by decide⟩, ?_⟩
  intro f hf h0 g' hg
  simp only [exVel, List.mem_cons, List.not_mem_nil, or_false] at hf
  rcases hf with rfl | rfl
  · have : Spec.velocityCond 2 exVelCalls 7 = some (some ⟨5, 2⟩) := by decide
    rw [this] at hg; exact (Option.some.inj hg).symm
  · simp at h0

/-- A refined mesh with one more node, which is a hanging node. -/
def exVel' : VelMesh ℚ where
  nDof := 5
  faces := [(7, [0, 2]), (8, [3])]
  hanging := ⟨fun i => if i = 2 then some fun k => if k = 1 then 1 else 0
    else if i = 4 then some fun k => if k = 1 ∨ k = 3 then 1 / 2 else 0 else none⟩
  nodal := fun f t i => f.ident + t + i

/-- A history with a change of the mesh. -/
def exHist : List (VelEvent ℚ) :=
  exVelCalls.map .call ++ .setup exVel (fun _ => 3) :: [.stokes [fun _ => 2], .step none [fun _ => 1, fun i => i]]

example : Spec.registrations exHist = exVelCalls ∧ Spec.Builds exVel' (.adapt exVel' (fun i => i) (fun _ => 1)) := ⟨rfl, rfl⟩

example :
    let s := (VelState.construct (K := ℚ) ⟨.bdf2, 0, 1, 1 / 10, 1, 1 / 100⟩).run 2
      (exHist ++ .adapt exVel' (fun i => i) (fun _ => 1) :: [.step none [fun i => i]])
    s.x 0 = 26 / 5 ∧ s.x 2 = s.x 1 ∧ s.x 3 = 0 ∧ s.x 4 = (s.x 1 + s.x 3) / 2 ∧ s.x 1 ≠ 0 ∧ s.t.now = 1 / 5 := by
  decide +kernel

end Verif.Boundary
