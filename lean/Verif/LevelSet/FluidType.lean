import Verif.FE.Space
import Verif.Time.Model
import Verif.Boundary.Theorems
import Mathlib.Data.Rat.Cast.Order
import Mathlib.Tactic.FieldSimp
import Mathlib.Tactic.Ring

/-!
# C73: fluid types prescribed at the boundary
(source/level_set_okz.cc:163-164, source/level_set_okz_advance_concentration.cc:528-546, 646-648,
source/level_set_base.cc:158-175, source/level_set_okz_matrix.cc:375-396, include/adaflo/sharp_interface.h:63-331,
source/two_phase_base.cc:395-438, 443-470)

The three level set solvers of adaflo share the boundary description of `Verif.Boundary`. What a transport step and a
reinitialization step add to the level set is an arbitrary vector, passed through `constraints.distribute`.
-/

set_option linter.unusedSectionVars false

namespace Verif.LevelSet

open Finset Verif.FE Verif.Time Verif.Boundary

variable {K : Type} [Field K] [LinearOrder K] [IsStrictOrderedRing K]

/-- Degrees of freedom of the level set: their number, the boundary faces (boundary id and the degrees of freedom on the face)
in the order of the cell loop of `VectorTools::interpolate_boundary_values`, and the hanging node constraints of
`DoFTools::make_hanging_node_constraints` (two_phase_base.cc:219-220). -/
structure LsMesh (K : Type) where
  nDof : ℕ
  faces : List (ℕ × List ℕ)
  hanging : ℕ → Option (ℕ → K)

/-- `VectorTools::interpolate_boundary_values(.., dirichlet, boundary_values)` for constant functions: every face with an id in
the map writes its degrees of freedom, later faces overwrite (deal.II; called in level_set_okz_advance_concentration.cc:535-539,
level_set_okz_matrix.cc:383-386). -/
def LsMesh.boundaryValues (M : LsMesh K) (m : Map Int) (i : ℕ) : Option Int :=
  M.faces.foldl (fun v f => match m.find f.1 with
    | some g => if f.2.contains i then some g else v
    | none => v) none

/-- `constraints` after `merge(hanging_node_constraints)` (two_phase_base.cc:220), `interpolate_boundary_values` with zero
functions (level_set_base.cc:163-171; sharp_interface.h:242-247 without hanging nodes) and `close()`: a degree of freedom
that is already constrained is not constrained again, and constrained masters are eliminated. -/
def LsMesh.constraints (M : LsMesh K) (m : Map Int) (withHanging : Bool) : Constr K where
  row := fun i =>
    match (if withHanging then M.hanging i else none) with
    | some c => some fun k => if (M.boundaryValues m k).isSome then 0 else c k
    | none => if (M.boundaryValues m i).isSome then some fun _ => 0 else none

/-- The three solvers: `LevelSetOKZSolver`, `LevelSetOKZMatrixSolver`, `LevelSetSolver` of sharp_interface.h. -/
inductive Kind
  | okz | matrixBased | standalone
  deriving DecidableEq, Repr

/-- State: the current mesh, `*boundary` (shared with the flow solver), the copy made in a constructor, constraints, clock, level sets. -/
structure LsState (K : Type) where
  kind : Kind
  mesh : LsMesh K
  desc : Desc
  captured : Desc
  C : Constr K
  t : TS K
  x : ℕ → K
  old : ℕ → K

/-- Constructor of `LevelSetOKZSolver` / `LevelSetOKZMatrixSolver`: the base class constructor creates an empty description
(two_phase_base.cc:66-73, flow_base_algorithm.cc:24-29); `LevelSetOKZSolver` copies the two containers right away
(level_set_okz.cc:163-164, level_set_okz_advance_concentration.h:175). For the stand-alone solver this is the state before its
construction: the flow solver with an empty description. -/
def LsState.construct (kind : Kind) (p : Params K) : LsState K where
  kind := kind
  mesh := ⟨0, [], fun _ => none⟩
  desc := Desc.empty
  captured := Desc.empty
  C := ⟨fun _ => none⟩
  t := TS.ctor p
  x := fun _ => 0
  old := fun _ => 0

variable (M : LsMesh K) (dim : ℕ)

/-- `constraints.distribute(increment); solution += increment` for a transport step and the reinitialization steps
(level_set_okz_advance_concentration.cc:646-647, level_set_okz_reinitialization.cc). -/
def addIncrements (C : Constr K) (x : ℕ → K) (incs : List (ℕ → K)) : ℕ → K :=
  incs.foldl (fun x d => fun i => x i + C.dist M.nDof d i) x

/-- The boundary values are written into the solution (level_set_okz_advance_concentration.cc:541-543,
level_set_okz_matrix.cc:388-393). -/
def LsMesh.withBoundary (m : Map Int) (x : ℕ → K) (i : ℕ) : K :=
  match M.boundaryValues m i with
  | some g => (g : K)
  | none => x i

/-- What the user does: registration calls; `setup_problem` with the mesh after the initial refinements, the initial level set
`φ` (values after `transform_distance_function`) and the increments of the initial reinitialization; time steps with an optional
proposal for the step size; `refine_grid` with a change of the mesh, with the new mesh and the matrix of the transfer
(`SolutionTransfer::interpolate` followed by `hanging_node_constraints.distribute`, both linear). -/
inductive Event (K : Type)
  | call (c : Call)
  | setup (M : LsMesh K) (φ : ℕ → K) (reinit : List (ℕ → K))
  | adapt (M : LsMesh K) (transfer : ℕ → ℕ → K)
  | step (dt : Option K) (transport : ℕ → K) (reinit : List (ℕ → K))

/-- Extrapolation and shift of the history: two_phase_base.cc:447-458, sharp_interface.h:342-353. -/
def extrapolatedLs (t : TS K) (x old : ℕ → K) (i : ℕ) : K :=
  if 0 < t.last then (t.cur + t.last) / t.last * x i + -t.cur / t.last * old i else x i

/-- Values on a new mesh from the `n` values on the old one. -/
def transferred (n : ℕ) (T : ℕ → ℕ → K) (x : ℕ → K) (i : ℕ) : K := ∑ k ∈ range n, T i k * x k

/-- One event. The stand-alone solver has no `refine_grid`; its histories are those without `adapt`. -/
def LsState.exec (s : LsState K) : Event K → LsState K
  -- flow_base_algorithm.cc:54-228
  | .call c => { s with desc := (s.desc.exec dim c).1 }
  -- setup_problem: two_phase_base.cc:120-193, level_set_base.cc:143-175; the stand-alone solver does this in its constructor
  -- with the containers of the flow solver (sharp_interface.h:71-72, 197-198, 242-247, 319-328, 772-773)
  | .setup M φ reinit =>
    let C := M.constraints s.desc.fluidType (s.kind ≠ .standalone)
    { s with
      mesh := M
      captured := if s.kind = .standalone then s.desc else s.captured
      C := C
      t := if s.kind = .standalone then s.t else s.t.restart
      x := addIncrements M C φ reinit
      old := fun _ => 0 }
  -- refine_grid: two_phase_base.cc:395-438 with the constraints of level_set_base.cc:158-175
  | .adapt M T =>
    { s with
      mesh := M
      C := M.constraints s.desc.fluidType (s.kind ≠ .standalone)
      x := transferred s.mesh.nDof T s.x
      old := transferred s.mesh.nDof T s.old }
  -- advance_time_step: two_phase_base.cc:441-458, level_set_base.cc:247-250
  | .step dt transport reinit =>
    let t := match dt with | some d => (s.t.setDesired d).next | none => s.t.next
    let m := if s.kind = .matrixBased then s.desc.fluidType else s.captured.fluidType
    let x0 := s.mesh.withBoundary m (extrapolatedLs t s.x s.old)
    { s with t := t, old := s.x, x := addIncrements s.mesh s.C x0 (transport :: reinit) }

def LsState.run (s : LsState K) (es : List (Event K)) : LsState K := es.foldl (fun s e => s.exec dim e) s

/-! ### Specification -/

/-- Events after the setup: steps and changes of the mesh. -/
def Spec.Later : Event K → Prop
  | .step _ _ _ => True
  | .adapt _ _ => True
  | _ => False

/-- The mesh after the events `es`, starting from `M`. -/
def Spec.meshAfter (M : LsMesh K) (es : List (Event K)) : LsMesh K :=
  es.foldl (fun M e => match e with | .adapt M' _ => M' | _ => M) M

/-- According to the calls made, fluid `g` is prescribed at the degree of freedom `i`: it lies on a face whose last
registration with a fluid type asked for `g`, and on no face with another fluid. -/
def Spec.Prescribed (cs : List Call) (i : ℕ) (g : Int) : Prop :=
  (∃ f ∈ M.faces, i ∈ f.2 ∧ lastOf (wantsFluid dim f.1) cs = some g) ∧
  ∀ f ∈ M.faces, i ∈ f.2 → ∀ g', lastOf (wantsFluid dim f.1) cs = some g' → g' = g

/-- Hanging nodes on a boundary hang on nodes of this boundary: the masters of `i` have a prescribed fluid if `i` has. -/
def Spec.HangingInside (cs : List Call) : Prop :=
  ∀ i c, M.hanging i = some c → (∃ g, Spec.Prescribed M dim cs i g) →
    ∀ k, c k ≠ 0 → ∃ f ∈ M.faces, k ∈ f.2 ∧ ∃ g, lastOf (wantsFluid dim f.1) cs = some g

/-! ### Proofs -/

theorem boundaryValues_spec (m : Map Int) (i : ℕ) : (∀ g, M.boundaryValues m i = some g →
      ∃ f ∈ M.faces, i ∈ f.2 ∧ m.find f.1 = some g) ∧
    ((∃ f ∈ M.faces, i ∈ f.2 ∧ (m.find f.1).isSome) → (M.boundaryValues m i).isSome) := by
  unfold LsMesh.boundaryValues
  induction M.faces using List.reverseRecOn with
  | nil => simp
  | append_singleton l f ih =>
    rw [List.foldl_append, List.foldl_cons, List.foldl_nil]
    constructor
    · intro g
      cases hm : m.find f.1 with
      | none =>
        intro h
        obtain ⟨e, he, h2⟩ := ih.1 g h
        exact ⟨e, List.mem_append_left _ he, h2⟩
      | some g' =>
        dsimp only
        by_cases hc : f.2.contains i = true
        · rw [if_pos hc]
          intro h
          exact ⟨f, by simp, by simpa using hc, by rw [hm]; exact h⟩
        · rw [if_neg hc]
          intro h
          obtain ⟨e, he, h2⟩ := ih.1 g h
          exact ⟨e, List.mem_append_left _ he, h2⟩
    · rintro ⟨e, he, hi, hs⟩
      cases hm : m.find f.1 with
      | none =>
        refine ih.2 ⟨e, ?_, hi, hs⟩
        rcases List.mem_append.1 he with h | h
        · exact h
        · rw [List.mem_singleton] at h; subst h; rw [hm] at hs; cases hs
      | some g' =>
        dsimp only
        by_cases hc : f.2.contains i = true
        · rw [if_pos hc]; rfl
        · rw [if_neg hc]
          refine ih.2 ⟨e, ?_, hi, hs⟩
          rcases List.mem_append.1 he with h | h
          · exact h
          · rw [List.mem_singleton] at h; subst h; exact absurd (by simpa using hi) hc

theorem boundaryValues_prescribed (cs : List Call) (i : ℕ) (g : Int) (h : Spec.Prescribed M dim cs i g) :
    M.boundaryValues (Desc.empty.run dim cs).fluidType i = some g := by
  obtain ⟨⟨f, hf, hi, hg⟩, hu⟩ := h
  have hfind := fun b => (C09_fluid_and_periodic dim cs b 0).1
  have hs : (M.boundaryValues (Desc.empty.run dim cs).fluidType i).isSome :=
    (boundaryValues_spec M _ i).2 ⟨f, hf, hi, by rw [hfind, hg]; rfl⟩
  obtain ⟨g', hg'⟩ := Option.isSome_iff_exists.1 hs
  obtain ⟨e, he, hie, hge⟩ := (boundaryValues_spec M _ i).1 g' hg'
  rw [hfind] at hge
  rw [hg', hu e he hie g' hge]

/-- Increments vanish where a fluid is prescribed. -/
theorem dist_prescribed (cs : List Call) (hh : Spec.HangingInside M dim cs) (b : Bool) (i : ℕ) (g : Int)
    (h : Spec.Prescribed M dim cs i g) (d : ℕ → K) :
    (M.constraints (Desc.empty.run dim cs).fluidType b).dist M.nDof d i = 0 := by
  have hb := boundaryValues_prescribed M dim cs i g h
  unfold Constr.dist LsMesh.constraints
  dsimp only
  cases hc : (if b = true then M.hanging i else none) with
  | none =>
    dsimp only
    rw [hb, if_pos (show (some g).isSome = true from rfl)]
    dsimp only
    exact sum_eq_zero fun k _ => zero_mul _
  | some c =>
    dsimp only
    refine sum_eq_zero fun k _ => ?_
    by_cases hk : c k = 0
    · rw [hk]; split_ifs <;> exact zero_mul _
    · have hi : M.hanging i = some c := by
        cases b
        · simp at hc
        · simpa using hc
      obtain ⟨f, hf, hkf, g', hg'⟩ := hh i c hi ⟨g, h⟩ k hk
      have : (M.boundaryValues (Desc.empty.run dim cs).fluidType k).isSome :=
        (boundaryValues_spec M _ k).2 ⟨f, hf, hkf, by rw [(C09_fluid_and_periodic dim cs f.1 0).1, hg']; rfl⟩
      rw [if_pos this, zero_mul]

theorem addIncrements_prescribed (C : Constr K) (i : ℕ) (h : ∀ d, C.dist M.nDof d i = 0) (x : ℕ → K) (incs : List (ℕ → K)) :
    addIncrements M C x incs i = x i := by
  unfold addIncrements
  induction incs using List.reverseRecOn with
  | nil => rfl
  | append_singleton l d ih => rw [List.foldl_append, List.foldl_cons, List.foldl_nil, h, add_zero, ih]

theorem run_calls (s : LsState K) (cs : List Call) :
    s.run dim (cs.map .call) = { s with desc := s.desc.run dim cs } := by
  induction cs generalizing s with
  | nil => rfl
  | cons c cs ih =>
    rw [List.map_cons, LsState.run, List.foldl_cons, ← LsState.run, ih]
    rfl

/-- State after the registrations `cs` and the setup. -/
def afterSetup (kind : Kind) (p : Params K) (cs : List Call) (M : LsMesh K) (φ : ℕ → K) (r : List (ℕ → K)) : LsState K where
  kind := kind
  mesh := M
  desc := Desc.empty.run dim cs
  captured := if kind = .standalone then Desc.empty.run dim cs else Desc.empty
  C := M.constraints (Desc.empty.run dim cs).fluidType (kind ≠ .standalone)
  t := if kind = .standalone then TS.ctor p else (TS.ctor p).restart
  x := addIncrements M (M.constraints (Desc.empty.run dim cs).fluidType (kind ≠ .standalone)) φ r
  old := fun _ => 0

theorem run_setup (kind : Kind) (p : Params K) (cs : List Call) (φ : ℕ → K) (r : List (ℕ → K)) (es : List (Event K)) :
    (LsState.construct kind p).run dim (cs.map .call ++ .setup M φ r :: es) =
      LsState.run dim (afterSetup dim kind p cs M φ r) es := by
  have := run_calls dim (LsState.construct kind p) cs
  unfold LsState.run at this ⊢
  rw [List.foldl_append, this]
  rfl

theorem later_kept (cs : List Call) (es : List (Event K)) : ∀ (M : LsMesh K) (s : LsState K), (∀ e ∈ es, Spec.Later e) →
    s.desc = Desc.empty.run dim cs → s.mesh = M →
    s.C = M.constraints (Desc.empty.run dim cs).fluidType (s.kind ≠ .standalone) →
    let s' := s.run dim es
    s'.kind = s.kind ∧ s'.desc = s.desc ∧ s'.captured = s.captured ∧ s'.mesh = Spec.meshAfter M es ∧
      s'.C = (Spec.meshAfter M es).constraints (Desc.empty.run dim cs).fluidType (s.kind ≠ .standalone) := by
  induction es with
  | nil => intro M s _ _ hm hC; exact ⟨rfl, rfl, rfl, hm, hC⟩
  | cons e es ih =>
    intro M s he hd hm hC
    have h1 := he e List.mem_cons_self
    have h2 : ∀ e ∈ es, Spec.Later e := fun e' h' => he e' (List.mem_cons_of_mem _ h')
    cases e with
    | call c => exact absurd h1 id
    | setup M' φ r => exact absurd h1 id
    | step dt a r => exact ih M (s.exec dim (.step dt a r)) h2 hd hm hC
    | adapt M' T =>
      exact ih M' (s.exec dim (.adapt M' T)) h2 hd rfl (by
        show M'.constraints s.desc.fluidType _ = _
        rw [hd]; rfl)

theorem run_append_events (s : LsState K) (a b : List (Event K)) :
    s.run dim (a ++ b) = (s.run dim a).run dim b := by
  unfold LsState.run; exact List.foldl_append ..

/-- **C73 (prescribed fluid, partial).** For the matrix-based solver and the stand-alone level set solver: whatever was
registered before the setup, after every time step of every history of steps and changes of the mesh - whatever the transport,
the reinitialization and the transfer to new meshes computed - the level set has the value of the prescribed fluid at the nodes
of this boundary.
Missing: `LevelSetOKZSolver`, for which the claim is false (`C73_okz_frozen`). -/
theorem C73_imposed_partial (kind : Kind) (hk : kind ≠ .okz) (p : Params K) (cs : List Call) (M₀ : LsMesh K)
    (φ : ℕ → K) (r : List (ℕ → K)) (es : List (Event K)) (hes : ∀ e ∈ es, Spec.Later e) (M : LsMesh K)
    (hM : M = Spec.meshAfter M₀ es) (hh : Spec.HangingInside M dim cs)
    (dt : Option K) (transport : ℕ → K) (reinit : List (ℕ → K)) (i : ℕ) (g : Int) (h : Spec.Prescribed M dim cs i g) :
    ((LsState.construct kind p).run dim
      (cs.map .call ++ .setup M₀ φ r :: (es ++ [.step dt transport reinit]))).x i = (g : K) := by
  rw [run_setup, run_append_events]
  have hkept := later_kept dim cs es M₀ (afterSetup dim kind p cs M₀ φ r) hes rfl rfl rfl
  revert hkept
  rw [← hM]
  generalize (LsState.run dim _ es : LsState K) = s
  rintro ⟨h1, h2, h3, h4, h5⟩
  unfold LsState.run
  rw [List.foldl_cons, List.foldl_nil]
  unfold LsState.exec
  dsimp only
  rw [h4]
  rw [addIncrements_prescribed M s.C i (fun d => by rw [h5]; exact dist_prescribed M dim cs hh _ i g h d)]
  have hm : (if s.kind = .matrixBased then s.desc.fluidType else s.captured.fluidType) =
      (Desc.empty.run dim cs).fluidType := by
    rw [h1, h2, h3]
    cases kind with
    | okz => exact absurd rfl hk
    | matrixBased => rfl
    | standalone => rfl
  unfold LsMesh.withBoundary
  rw [hm, boundaryValues_prescribed M dim cs i g h]

theorem boundaryValues_empty (i : ℕ) : M.boundaryValues Desc.empty.fluidType i = none := by
  unfold LsMesh.boundaryValues
  induction M.faces using List.reverseRecOn with
  | nil => rfl
  | append_singleton l f ih => rw [List.foldl_append, List.foldl_cons, List.foldl_nil, ih]; rfl

theorem next_last_start (t : TS K) (h : t.now = t.start) : t.next.last = t.last := by
  simp [TS.next, TS.newLast, h]

/-- The initial level set carried to the mesh after the events `es`, without any of the steps. -/
def Spec.carried (M : LsMesh K) (φ : ℕ → K) : List (Event K) → ℕ → K
  | [] => φ
  | .adapt M' T :: es => Spec.carried M' (transferred M.nDof T φ) es
  | _ :: es => Spec.carried M φ es

/-- All meshes have hanging nodes and transfers that, at nodes with a prescribed fluid, use nodes with a prescribed fluid only. -/
def Spec.Compatible (cs : List Call) (M : LsMesh K) : List (Event K) → Prop
  | [] => Spec.HangingInside M dim cs
  | .adapt M' T :: es => Spec.HangingInside M dim cs ∧
      (∀ i g, Spec.Prescribed M' dim cs i g → ∀ k < M.nDof, T i k ≠ 0 → ∃ g', Spec.Prescribed M dim cs k g') ∧
      Spec.Compatible cs M' es
  | _ :: es => Spec.Compatible cs M es

theorem compatible_hanging (cs : List Call) (es : List (Event K)) : ∀ M : LsMesh K, Spec.Compatible dim cs M es →
    Spec.HangingInside M dim cs := by
  induction es with
  | nil => intro M h; exact h
  | cons e es ih =>
    intro M h
    cases e with
    | adapt M' T => exact h.1
    | call c => exact ih M h
    | setup M' φ r => exact ih M h
    | step dt a r => exact ih M h

/-- **C73 (violation).** `LevelSetOKZSolver` copies the registered fluid types when it is constructed, before anything can have
been registered, but constrains the nodes with the types registered later: for every history of registrations, every initial
field, all steps and changes of the mesh, the level set keeps its *initial* value (carried to the current mesh) at the nodes
where a fluid is prescribed - the prescribed fluid never enters. -/
theorem C73_okz_frozen (p : Params K) (cs : List Call) (M₀ : LsMesh K) (φ : ℕ → K) (r : List (ℕ → K))
    (es : List (Event K)) (hes : ∀ e ∈ es, Spec.Later e) (hh : Spec.Compatible dim cs M₀ es) (i : ℕ) (g : Int)
    (h : Spec.Prescribed (Spec.meshAfter M₀ es) dim cs i g) :
    ((LsState.construct .okz p).run dim (cs.map .call ++ .setup M₀ φ r :: es)).x i = Spec.carried M₀ φ es i := by
  rw [run_setup]
  have hd := fun (M : LsMesh K) (hh : Spec.HangingInside M dim cs) (i : ℕ) (g : Int) (h : Spec.Prescribed M dim cs i g) =>
    dist_prescribed M dim cs hh (decide (Kind.okz ≠ .standalone)) i g h
  suffices key : ∀ (es : List (Event K)) (M : LsMesh K) (φ : ℕ → K) (s : LsState K), (∀ e ∈ es, Spec.Later e) →
      Spec.Compatible dim cs M es → s.kind = .okz → s.captured = Desc.empty → s.desc = Desc.empty.run dim cs → s.mesh = M →
      s.C = M.constraints (Desc.empty.run dim cs).fluidType (decide (Kind.okz ≠ .standalone)) →
      (∀ i g, Spec.Prescribed M dim cs i g → s.x i = φ i) →
      ((∀ i g, Spec.Prescribed M dim cs i g → s.old i = φ i) ∨ (s.t.now = s.t.start ∧ s.t.last = 0)) →
      ∀ i g, Spec.Prescribed (Spec.meshAfter M es) dim cs i g → (s.run dim es).x i = Spec.carried M φ es i by
    refine key es M₀ φ _ hes hh rfl rfl rfl rfl rfl ?_ (Or.inr ⟨rfl, rfl⟩) i g h
    intro i g h
    exact addIncrements_prescribed M₀ _ i (hd M₀ (compatible_hanging dim cs es M₀ hh) i g h) φ r
  intro es
  induction es with
  | nil => intro M φ s _ _ _ _ _ _ _ hx _; exact hx
  | cons e es ih =>
    intro M φ s hes hh hk hc hdesc hM hC hx ho
    have h1 := hes e List.mem_cons_self
    have h2 : ∀ e ∈ es, Spec.Later e := fun e' h' => hes e' (List.mem_cons_of_mem _ h')
    cases e with
    | call c => exact absurd h1 id
    | setup M' φ r => exact absurd h1 id
    | adapt M' T =>
      have htr : ∀ y : ℕ → K, (∀ i g, Spec.Prescribed M dim cs i g → y i = φ i) →
          ∀ i g, Spec.Prescribed M' dim cs i g → transferred s.mesh.nDof T y i = transferred M.nDof T φ i := by
        intro y hy i g hi
        rw [hM]
        refine sum_congr rfl fun k hk' => ?_
        by_cases hz : T i k = 0
        · rw [hz, zero_mul, zero_mul]
        · obtain ⟨g', hg'⟩ := hh.2.1 i g hi k (mem_range.1 hk') hz
          rw [hy k g' hg']
      refine ih M' (transferred M.nDof T φ) (s.exec dim (.adapt M' T)) h2 hh.2.2 hk hc hdesc rfl ?_ (htr s.x hx) ?_
      · show M'.constraints s.desc.fluidType _ = _
        rw [hdesc, hk]
      · rcases ho with ho | ho
        · exact Or.inl (htr s.old ho)
        · exact Or.inr ho
    | step dt a r =>
      refine ih M φ (s.exec dim (.step dt a r)) h2 hh hk hc hdesc hM hC ?_ (Or.inl hx)
      intro i g hi
      unfold LsState.exec
      dsimp only
      rw [hM, addIncrements_prescribed M s.C i
        (fun d => by rw [hC]; exact hd M (compatible_hanging dim cs es M hh) i g hi d), if_neg (by rw [hk]; decide), hc]
      unfold LsMesh.withBoundary
      rw [boundaryValues_empty]
      dsimp only
      unfold extrapolatedLs
      generalize ht : (match dt with | some d => (s.t.setDesired d).next | none => s.t.next) = t
      by_cases hl : 0 < t.last
      · rw [if_pos hl]
        rcases ho with ho | ⟨k1, k2⟩
        · rw [ho i g hi, hx i g hi]; field_simp; ring
        · exfalso
          have : t.last = 0 := by
            rw [← ht]
            cases dt with
            | none => exact (next_last_start _ k1).trans k2
            | some d => exact (next_last_start (s.t.setDesired d) k1).trans k2
          rw [this] at hl; exact lt_irrefl _ hl
      · rw [if_neg hl, hx i g hi]

/-- **C73 (symmetry).** For the same reason the set of symmetry boundaries known to the transport operator of
`LevelSetOKZSolver` is empty in every reachable state, whatever was registered (the stand-alone solver knows those registered
before its construction). -/
theorem C73_okz_symmetry_unknown (p : Params K) (es : List (Event K)) (b : ℕ) :
    ((LsState.construct .okz p).run dim es).captured.symmetry.find b = none := by
  suffices h : ∀ (es : List (Event K)) (s : LsState K), s.kind = .okz → s.captured = Desc.empty →
      (s.run dim es).captured = Desc.empty by rw [h es _ rfl rfl]; rfl
  intro es
  induction es with
  | nil => intro s _ h; exact h
  | cons e es ih =>
    intro s hk hc
    have : s.run dim (e :: es) = (s.exec dim e).run dim es := rfl
    rw [this]
    refine ih _ ?_ ?_
    · cases e <;> exact hk
    · cases e with
      | call c => exact hc
      | setup M φ r => unfold LsState.exec; dsimp only; rw [if_neg (by rw [hk]; decide)]; exact hc
      | step dt a r => exact hc
      | adapt M T => exact hc

/-! ### Concrete case: a channel with inflow of the second fluid at the left end -/

def exLs : LsMesh ℚ := ⟨3, [(7, [0]), (8, [2])], fun _ => none⟩

def exCalls : List Call := [.dirichlet 7 (some ⟨0, 2⟩) 1, .openB 8 none 0, .symmetry 9]

example : Spec.Prescribed exLs 2 exCalls 0 1 := by
  refine ⟨⟨(7, [0]), by simp [exLs], by simp, by decide⟩, ?_⟩
  intro f hf h0 g' hg
  simp only [exLs, List.mem_cons, List.not_mem_nil, or_false] at hf
  rcases hf with rfl | rfl
  · have : lastOf (wantsFluid 2 7) exCalls = some 1 := by decide
    rw [this] at hg; exact (Option.some.inj hg).symm
  · simp at h0

example : Spec.HangingInside exLs 2 exCalls := by
  intro i c h; simp [exLs] at h

/-- The mesh after refinement of the left cell, with the node 3 in its middle. -/
def exLs' : LsMesh ℚ := ⟨4, [(7, [0]), (8, [2])], fun _ => none⟩

def exTransfer (i k : ℕ) : ℚ := if i = 3 then (if k ≤ 1 then 1 / 2 else 0) else if i = k then 1 else 0

def exEvents : List (Event ℚ) := [.step none (fun _ => 1 / 5) [], .adapt exLs' exTransfer, .step none (fun _ => 1 / 7) [fun _ => 1]]

theorem exPrescribed (M : LsMesh ℚ) (hM : M.faces = exLs.faces) (i : ℕ) (g : Int) :
    Spec.Prescribed M 2 exCalls i g ↔ i = 0 ∧ g = 1 := by
  have h7 : lastOf (wantsFluid 2 7) exCalls = some 1 := by decide
  have h8 : lastOf (wantsFluid 2 8) exCalls = none := by decide
  unfold Spec.Prescribed
  rw [hM]
  simp [exLs, h7, h8]
  constructor
  · rintro ⟨⟨h, hg⟩, _⟩; exact ⟨h, hg.symm⟩
  · rintro ⟨h, hg⟩; exact ⟨⟨h, hg.symm⟩, fun _ => hg.symm⟩

/-- The hypotheses are met by a history with a change of the mesh. -/
example : (∀ e ∈ exEvents, Spec.Later e) ∧ Spec.Compatible 2 exCalls exLs exEvents ∧
    Spec.meshAfter exLs exEvents = exLs' ∧ Spec.HangingInside exLs' 2 exCalls ∧ Spec.Prescribed exLs' 2 exCalls 0 1 := by
  refine ⟨?_, ?_, rfl, fun i c h => by simp [exLs'] at h, ?_⟩
  · intro e he
    simp only [exEvents, List.mem_cons, List.not_mem_nil, or_false] at he
    rcases he with rfl | rfl | rfl <;> exact trivial
  · refine ⟨fun i c h => by simp [exLs] at h, ?_, fun i c h => by simp [exLs'] at h⟩
    intro i g hi k _ hT
    obtain ⟨rfl, rfl⟩ := (exPrescribed exLs' rfl i g).1 hi
    refine ⟨1, (exPrescribed exLs rfl k 1).2 ⟨?_, rfl⟩⟩
    by_contra hk
    exact hT (by simp [exTransfer, Ne.symm hk])
  · exact (exPrescribed exLs' rfl 0 1).2 ⟨rfl, rfl⟩

/-- The inflow is fluid `+1`; the domain is filled with fluid `-1`. After a step, a refinement and another step the
matrix-based solver has `+1` at the inflow, the other solver still has `-1`; the level set at the new node has moved. -/
example : let es : List (Event ℚ) := exCalls.map .call ++ .setup exLs (fun _ => -1) [] :: exEvents
    let p : Params ℚ := ⟨.bdf2, 0, 1, 1 / 10, 1, 1 / 100⟩
    ((LsState.construct .matrixBased p).run 2 es).x 0 = 1 ∧ ((LsState.construct .okz p).run 2 es).x 0 = -1 ∧
    ((LsState.construct .matrixBased p).run 2 es).x 3 = 82 / 35 := by
  decide +kernel

end Verif.LevelSet
