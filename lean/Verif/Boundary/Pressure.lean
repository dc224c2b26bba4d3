import Verif.Boundary.Velocity
import Verif.Operator.PressureMode

/-!
# C75: the fixed pressure level
(source/navier_stokes.cc: solve_nonlinear_system 982-1076, init_time_advance 676-687, initialize_matrix_free 453-455;
navier_stokes_matrix.cc: initialize 110-163, apply_pressure_shift 210-218)
-/

set_option linter.unusedSectionVars false

namespace Verif.Boundary

open Finset Verif.FE Verif.Time Verif.Operator

variable {K : Type} [Field K] [LinearOrder K] [IsStrictOrderedRing K]

/-- A boundary face of a locally owned cell: boundary id, `dof_indices.back()` of the cell, the pressure shape functions at the
point of the one-point quadrature on the face, and the name of this point. -/
structure FixFace (K : Type) where
  id : ℕ
  lastDof : ℕ
  shape : ℕ → K
  point : ℕ

/-- Pressure degrees of freedom: their number, for every process the boundary faces of its cells in loop order, the closed
`hanging_node_constraints_p` (= `constraints_p`, lines 242, 271, 347-350), the mask of the constant mode of the `FE_Q` part
(`extract_constant_modes`), the pressure mass, the boundary faces with their degrees of freedom, and the values of the user's
functions (time, point or degree of freedom). -/
structure PresMesh (K : Type) where
  nDof : ℕ
  ranks : List (List (FixFace K))
  hanging : Constr K
  mask : ℕ → Bool
  mass : ℕ → K
  faces : List (ℕ × List ℕ)
  value : Fn → K → ℕ → K
  nodal : Fn → K → ℕ → K

variable (M : PresMesh K)

/-- `get_function_values` at the point of a face. -/
def PresMesh.at (p : ℕ → K) (f : FixFace K) : K := ∑ i ∈ range M.nDof, p i * f.shape i

/-- The prescribed value at the point of a face (lines 1015-1023). -/
def PresMesh.prescribed (time : K) (f : FixFace K) : Option Fn → K
  | some g => M.value g time f.point
  | none => 0

/-- The loop over the cells of one process up to `goto end_loop`, lines 999-1028: `none` is `max long int`. -/
def PresMesh.localDistance (d : Desc) (time : K) (p : ℕ → K) : List (FixFace K) → Option (ℕ × K)
  | [] => none
  | f :: fs => match d.pressureFix.find f.id with
    | some g => some (f.lastDof, M.prescribed time f g - M.at p f)
    | none => PresMesh.localDistance d time p fs

/-- `MPI::max` of two values, where `none` stands for `-max double` (the values are assumed to be larger). -/
def optMax (a b : Option K) : Option K := match a, b with
  | none, b => b
  | a, none => a
  | some x, some y => some (max x y)

/-- `-MPI::max(-i)` of two indices, `none` stands for `max long int`. -/
def optMin (a b : Option ℕ) : Option ℕ := match a, b with
  | none, b => b
  | a, none => a
  | some x, some y => some (min x y)

/-- `min_index`, lines 1031-1034. -/
def minIndex (ds : List (Option (ℕ × K))) : Option ℕ := ds.foldl (fun m d => optMin m (d.map Prod.fst)) none

/-- `local_value`, lines 1035-1037. -/
def localValue (m : ℕ) : Option (ℕ × K) → Option K
  | some (i, v) => if i = m then some v else none
  | none => none

/-- `shift`, lines 1038-1039. -/
def commonShift (ds : List (Option (ℕ × K))) (m : ℕ) : Option K :=
  ds.foldl (fun s d => optMax s (localValue m d)) none

inductive PresErr
  | noPoint
  | noMode
  deriving DecidableEq

/-- `pressure_constant_modes[0]`: built at the setup if a pressure was to be fixed then (initialize_matrix_free 453-455). -/
def PresMesh.mode (fixAtSetup : Bool) : Option (Mode K) :=
  (buildModes M.nDof fixAtSetup false (fun _ => M.mask) M.mass
    ((List.range M.nDof).filter fun i => (M.hanging.row i).isSome)).1

/-- Lines 982-1044. A missing mode fails an assertion in debug mode (`noMode`). -/
def PresMesh.fix (fixAtSetup : Bool) (d : Desc) (time : K) (p : ℕ → K) : Except PresErr (ℕ → K) :=
  if d.pressureFix.isEmpty then .ok p
  else
    let ds := M.ranks.map (M.localDistance d time p)
    match minIndex ds with
    | none => .error .noPoint
    | some m => match M.mode fixAtSetup, commonShift ds m with
      | some mode, some s => .ok (M.hanging.dist M.nDof (pressureShift mode s p))
      | _, _ => .error .noMode

/-- `interpolate_boundary_values` for the open boundaries, lines 1052-1067: the last face with a condition decides. -/
def PresMesh.openCond (d : Desc) (i : ℕ) : Option PFn :=
  M.faces.foldl (fun v f => match d.openP.find f.1 with
    | some g => if f.2.contains i then some g else v
    | none => v) none

def PresMesh.openValue (time : K) (i : ℕ) : PFn → K
  | .zero => 0
  | .user f => M.nodal f time i

/-- Lines 1046-1076. -/
def PresMesh.setOpen (projection : Bool) (d : Desc) (time : K) (p : ℕ → K) : ℕ → K :=
  if !d.openP.isEmpty && projection then
    M.hanging.dist M.nDof fun i => match M.openCond d i with
      | some g => M.openValue time i g
      | none => p i
  else p

/-- The end of `solve_nonlinear_system`, lines 982-1076. -/
def PresMesh.finish (projection fixAtSetup : Bool) (d : Desc) (time : K) (p : ℕ → K) : Except PresErr (ℕ → K) :=
  (M.fix fixAtSetup d time p).map (M.setOpen projection d time)

/-- State of the flow solver, pressure part, for the schemes other than projection. -/
structure PresState (K : Type) where
  mesh : PresMesh K
  desc : Desc
  fixAtSetup : Bool
  t : TS K
  p : ℕ → K
  old : ℕ → K

inductive PresEvent (K : Type)
  | call (c : Call)
  | setup (M : PresMesh K)
  | adapt (M : PresMesh K) (p old : ℕ → K)
  | stokes (upds : List (ℕ → K))
  | step (dt : Option K) (upds : List (ℕ → K))

/-- Updates of the nonlinear iteration (`constraints_p.distribute(solution_update.block(1))`, lines 644, 890). -/
def PresMesh.iterate (p : ℕ → K) (upds : List (ℕ → K)) : ℕ → K :=
  upds.foldl (fun p u => fun i => p i + M.hanging.dist M.nDof u i) p

/-- One event, for the coupled schemes; the results of the linear solvers are arbitrary. `setup` with the mesh after global
refinement; `adapt`: a change of the mesh with any transferred values, on which `initialize_matrix_free` (lines 398-517)
imposes the constraints, and which builds the constant mode anew. -/
def PresState.exec (dim : ℕ) (s : PresState K) : PresEvent K → Except PresErr (PresState K)
  | .call c => .ok { s with desc := (s.desc.exec dim c).1 }
  | .setup M => .ok { s with mesh := M, fixAtSetup := !s.desc.pressureFix.isEmpty, p := fun _ => 0, old := fun _ => 0 }
  | .adapt M p old => .ok { s with
      mesh := M
      fixAtSetup := !s.desc.pressureFix.isEmpty
      p := M.hanging.dist M.nDof p
      old := M.hanging.dist M.nDof old }
  | .stokes upds => (s.mesh.finish false s.fixAtSetup s.desc s.t.now (s.mesh.iterate s.p upds)).map fun p => { s with p := p }
  | .step dt upds =>
    let t := match dt with | some d => (s.t.setDesired d).next | none => s.t.next
    let p0 := fun i => t.extrapolate (s.p i) (s.old i)
    (s.mesh.finish false s.fixAtSetup s.desc t.now (s.mesh.iterate p0 upds)).map fun p => { s with t := t, old := s.p, p := p }

def PresState.run (dim : ℕ) : PresState K → List (PresEvent K) → Except PresErr (PresState K)
  | s, [] => .ok s
  | s, e :: es => match s.exec dim e with
    | .ok s' => PresState.run dim s' es
    | .error e => .error e

/-- Constructor: no mesh yet. -/
def PresState.construct (p : Params K) : PresState K :=
  ⟨⟨0, [], ⟨fun _ => none⟩, fun _ => false, fun _ => 0, [], fun _ _ _ => 0, fun _ _ _ => 0⟩, Desc.empty, false, TS.ctor p,
    fun _ => 0, fun _ => 0⟩

def PresEvent.solves : PresEvent K → Bool
  | .stokes _ => true
  | .step _ _ => true
  | _ => false

/-! ### Specification -/

/-- The registrations of a history. -/
def Spec.presRegistrations (es : List (PresEvent K)) : List Call :=
  es.filterMap fun e => match e with | .call c => some c | _ => none

/-- A setup or a change of the mesh to the mesh `M`. -/
def Spec.BuildsP (M : PresMesh K) : PresEvent K → Prop
  | .setup M' => M' = M
  | .adapt M' _ _ => M' = M
  | _ => False

/-- The value asked for at the id of a face: the last `fix_pressure_constant` for this id since the last clearing, zero if it
came without a function. -/
def Spec.fixValue (cs : List Call) (time : K) (f : FixFace K) : Option K :=
  (lastOf (wantsFix f.id) (sinceClear cs)).map fun g => match g with
    | some g => M.value g time f.point
    | none => 0

/-- Some call since the last clearing asks for a fixed pressure. -/
def Spec.wantsSomeFix (cs : List Call) : Prop := ∃ b, (lastOf (wantsFix b) (sinceClear cs)).isSome

/-- The mesh is what deal.II provides: constraints closed and satisfied by the constant mode, which adds up to one at the face
points. -/
structure PresMesh.Valid : Prop where
  closed : M.hanging.Closed
  constant : ∀ i c, M.hanging.row i = some c →
    ∑ k ∈ range M.nDof, c k * (if M.mask k then 1 else 0) = if M.mask i then 1 else 0
  unity : ∀ r ∈ M.ranks, ∀ f ∈ r, ∑ i ∈ range M.nDof, (if M.mask i then 1 else 0) * f.shape i = 1

/-- The pressure satisfies the hanging node and periodicity constraints. -/
def PresMesh.Conforms (p : ℕ → K) : Prop :=
  ∀ i c, M.hanging.row i = some c → p i = ∑ k ∈ range M.nDof, c k * p k

/-! ### Proofs -/

theorem find_isSome_of_ne {α : Type} (m : Map α) (h : m.isEmpty = false) : ∃ b, (m.find b).isSome := by
  cases m with
  | nil => cases h
  | cons e m => exact ⟨e.1, by unfold Map.find; rw [if_pos rfl]; rfl⟩

theorem isEmpty_of_find {α : Type} (m : Map α) (b : ℕ) (h : (m.find b).isSome) : m.isEmpty = false := by
  cases m with
  | nil => cases h
  | cons e m => rfl

theorem wantsSomeFix_iff (dim : ℕ) (cs : List Call) :
    Spec.wantsSomeFix cs ↔ (Desc.empty.run dim cs).pressureFix.isEmpty = false := by
  constructor
  · rintro ⟨b, hb⟩
    obtain ⟨-, -, -, h, -, -⟩ := C09_last_call_decides dim cs b
    exact isEmpty_of_find _ b (by rw [h]; exact hb)
  · intro h
    obtain ⟨b, hb⟩ := find_isSome_of_ne _ h
    obtain ⟨-, -, -, h4, -, -⟩ := C09_last_call_decides dim cs b
    exact ⟨b, by rw [← h4]; exact hb⟩

theorem localDistance_spec (d : Desc) (time : K) (p : ℕ → K) (r : List (FixFace K)) :
    (∀ i v, M.localDistance d time p r = some (i, v) → ∃ f ∈ r, ∃ g, d.pressureFix.find f.id = some g ∧
      f.lastDof = i ∧ v = M.prescribed time f g - M.at p f) ∧
    (M.localDistance d time p r = none ↔ ∀ f ∈ r, d.pressureFix.find f.id = none) := by
  induction r with
  | nil => exact ⟨fun _ _ h => (Option.some_ne_none _ h.symm).elim, by simp [PresMesh.localDistance]⟩
  | cons f r ih =>
    unfold PresMesh.localDistance
    cases h : d.pressureFix.find f.id with
    | none =>
      dsimp only
      refine ⟨fun i v hv => ?_, ?_⟩
      · obtain ⟨e, he, h2⟩ := ih.1 i v hv
        exact ⟨e, List.mem_cons_of_mem _ he, h2⟩
      · rw [ih.2]
        constructor
        · intro h2 e he
          rcases List.mem_cons.1 he with rfl | he
          · exact h
          · exact h2 e he
        · exact fun h2 e he => h2 e (List.mem_cons_of_mem _ he)
    | some g =>
      dsimp only
      refine ⟨fun i v hv => ?_, ?_⟩
      · have h2 := Option.some.inj hv
        rw [Prod.mk.injEq] at h2
        exact ⟨f, List.mem_cons_self, g, h, h2.1, h2.2.symm⟩
      · constructor
        · intro h2; cases h2
        · intro h2; rw [h2 f List.mem_cons_self] at h; cases h

theorem minIndex_spec (ds : List (Option (ℕ × K))) :
    (minIndex ds = none ↔ ∀ d ∈ ds, d = none) ∧
    (∀ m, minIndex ds = some m → (∃ v, some (m, v) ∈ ds) ∧ ∀ i v, some (i, v) ∈ ds → m ≤ i) := by
  unfold minIndex
  induction ds using List.reverseRecOn with
  | nil => simp
  | append_singleton ds d ih =>
    rw [List.foldl_append, List.foldl_cons, List.foldl_nil]
    obtain ⟨h1, h2⟩ := ih
    revert h1 h2
    generalize List.foldl (fun m d => optMin m (Option.map Prod.fst d)) none ds = m0
    intro h1 h2
    cases d with
    | none =>
      have : optMin m0 (Option.map Prod.fst (none : Option (ℕ × K))) = m0 := by cases m0 <;> rfl
      rw [this]
      refine ⟨?_, fun m hm => ?_⟩
      · rw [h1]
        constructor
        · intro h d hd
          rcases List.mem_append.1 hd with hd | hd
          · exact h d hd
          · exact List.mem_singleton.1 hd
        · exact fun h d hd => h d (List.mem_append_left _ hd)
      · obtain ⟨⟨v, hv⟩, h4⟩ := h2 m hm
        refine ⟨⟨v, List.mem_append_left _ hv⟩, fun i w hw => ?_⟩
        rcases List.mem_append.1 hw with h | h
        · exact h4 i w h
        · simp at h
    | some e =>
      obtain ⟨i, v⟩ := e
      cases m0 with
      | none =>
        refine ⟨⟨fun h => (Option.some_ne_none _ h).elim, fun h => ?_⟩, fun m hm => ?_⟩
        · exact absurd (h _ (List.mem_append_right _ (List.mem_singleton.2 rfl))) (by simp)
        · have hm : i = m := Option.some.inj hm
          subst hm
          refine ⟨⟨v, List.mem_append_right _ (List.mem_singleton.2 rfl)⟩, fun j w hw => ?_⟩
          rcases List.mem_append.1 hw with h | h
          · exact absurd (h1.1 rfl _ h) (by simp)
          · simp only [List.mem_singleton, Option.some.injEq, Prod.mk.injEq] at h
            exact h.1 ▸ le_refl _
      | some m0 =>
        refine ⟨⟨fun h => (Option.some_ne_none _ h).elim, fun h => ?_⟩, fun m hm => ?_⟩
        · exact absurd (h _ (List.mem_append_right _ (List.mem_singleton.2 rfl))) (by simp)
        · have hm : min m0 i = m := Option.some.inj hm
          subst hm
          obtain ⟨⟨v0, hv0⟩, h4⟩ := h2 m0 rfl
          constructor
          · rcases le_total m0 i with h | h
            · rw [min_eq_left h]; exact ⟨v0, List.mem_append_left _ hv0⟩
            · rw [min_eq_right h]; exact ⟨v, List.mem_append_right _ (List.mem_singleton.2 rfl)⟩
          · intro j w hw
            rcases List.mem_append.1 hw with h | h
            · exact (min_le_left _ _).trans (h4 j w h)
            · simp only [List.mem_singleton, Option.some.injEq, Prod.mk.injEq] at h
              exact h.1 ▸ min_le_right _ _

theorem commonShift_spec (ds : List (Option (ℕ × K))) (m : ℕ) :
    (∀ s, commonShift ds m = some s → some (m, s) ∈ ds ∧ ∀ v, some (m, v) ∈ ds → v ≤ s) ∧
    ((∃ v, some (m, v) ∈ ds) → (commonShift ds m).isSome) := by
  unfold commonShift
  induction ds using List.reverseRecOn with
  | nil => simp
  | append_singleton ds d ih =>
    rw [List.foldl_append, List.foldl_cons, List.foldl_nil]
    obtain ⟨h1, h2⟩ := ih
    revert h1 h2
    generalize List.foldl _ none ds = s0
    intro h1 h2
    by_cases hd : ∃ v, d = some (m, v)
    · obtain ⟨v, rfl⟩ := hd
      have hl : localValue m (some (m, v)) = some v := if_pos rfl
      rw [hl]
      cases s0 with
      | none =>
        refine ⟨fun s hs => ?_, fun _ => rfl⟩
        have hs : v = s := Option.some.inj hs
        subst hs
        refine ⟨List.mem_append_right _ (List.mem_singleton.2 rfl), fun w hw => ?_⟩
        rcases List.mem_append.1 hw with h | h
        · exact absurd (h2 ⟨w, h⟩) (by simp)
        · simp only [List.mem_singleton, Option.some.injEq, Prod.mk.injEq, true_and] at h
          exact h ▸ le_refl _
      | some s0 =>
        refine ⟨fun s hs => ?_, fun _ => rfl⟩
        have hs : max s0 v = s := Option.some.inj hs
        subst hs
        obtain ⟨h3, h4⟩ := h1 s0 rfl
        constructor
        · rcases le_total s0 v with h | h
          · rw [max_eq_right h]; exact List.mem_append_right _ (List.mem_singleton.2 rfl)
          · rw [max_eq_left h]; exact List.mem_append_left _ h3
        · intro w hw
          rcases List.mem_append.1 hw with h | h
          · exact (h4 w h).trans (le_max_left _ _)
          · simp only [List.mem_singleton, Option.some.injEq, Prod.mk.injEq, true_and] at h
            exact h ▸ le_max_right _ _
    · have hn : localValue m d = none := by
        cases d with
        | none => rfl
        | some e =>
          obtain ⟨i, v⟩ := e
          refine if_neg ?_
          rintro rfl
          exact hd ⟨v, rfl⟩
      have hm : ∀ v, some (m, v) ∈ ds ++ [d] ↔ some (m, v) ∈ ds := by
        intro v
        rw [List.mem_append, List.mem_singleton]
        exact ⟨fun h => h.resolve_right fun h => hd ⟨v, h.symm⟩, Or.inl⟩
      rw [hn]
      have : optMax s0 none = s0 := by cases s0 <;> rfl
      rw [this]
      simp only [hm]
      exact ⟨h1, h2⟩

/-- Shifting by the constant mode and distributing adds the shift to the degrees of freedom of the mode. -/
theorem shift_dist (hV : M.Valid) (p : ℕ → K) (hp : M.Conforms p) (mode : Mode K) (hm : M.mode true = some mode) (s : K) (i : ℕ)
    (hi : i < M.nDof) :
    M.hanging.dist M.nDof (pressureShift mode s p) i = p i + s * (if M.mask i then 1 else 0) := by
  have hmode : ∀ k < M.nDof, pressureShift mode s p k =
      if (M.hanging.row k).isSome then p k else p k + s * (if M.mask k then 1 else 0) := by
    intro k hk
    have h : mode = buildMode M.nDof M.mask M.mass ((List.range M.nDof).filter fun i => (M.hanging.row i).isSome) :=
      (Option.some.inj hm).symm
    rw [h, C28_shift]
    by_cases h1 : (M.hanging.row k).isSome
    · rw [if_pos h1, if_neg]
      rintro ⟨h2, -⟩
      exact h2 (List.mem_filter.2 ⟨List.mem_range.2 hk, h1⟩)
    · rw [if_neg h1]
      by_cases h2 : M.mask k
      · rw [if_pos ⟨fun h3 => h1 (List.mem_filter.1 h3).2, h2⟩, if_pos h2]; ring
      · rw [if_neg (fun h3 => h2 h3.2), if_neg h2]; ring
  cases hr : M.hanging.row i with
  | none =>
    rw [Constr.dist_free _ _ _ (by rw [hr]; rfl), hmode i hi, if_neg (by rw [hr]; simp)]
  | some c =>
    rw [show M.hanging.dist M.nDof (pressureShift mode s p) i = ∑ k ∈ range M.nDof, c k * pressureShift mode s p k from by
      unfold Constr.dist; rw [hr]]
    rw [hp i c hr, ← hV.constant i c hr, mul_sum, ← sum_add_distrib]
    refine sum_congr rfl fun k hk => ?_
    rw [hmode k (mem_range.1 hk)]
    by_cases h1 : (M.hanging.row k).isSome
    · rw [if_pos h1, hV.closed i c hr k h1]; ring
    · rw [if_neg h1]; ring

theorem at_shift (p q : ℕ → K) (s : K) (h : ∀ i < M.nDof, q i = p i + s * (if M.mask i then 1 else 0)) (f : FixFace K) :
    M.at q f = M.at p f + s * ∑ i ∈ range M.nDof, (if M.mask i then 1 else 0) * f.shape i := by
  unfold PresMesh.at
  rw [mul_sum, ← sum_add_distrib]
  exact sum_congr rfl fun i hi => by rw [h i (mem_range.1 hi)]; ring

/-- All that `fix` does: it fails exactly if no process has a face with a registered id, and otherwise adds one number to the
constant mode such that the value is right at one face. -/
theorem fix_spec (hV : M.Valid) (d : Desc) (time : K) (p : ℕ → K) (hp : M.Conforms p) (he : d.pressureFix.isEmpty = false) :
    ((∀ r ∈ M.ranks, ∀ f ∈ r, d.pressureFix.find f.id = none) ∧ M.fix true d time p = .error .noPoint) ∨
    ∃ s q, M.fix true d time p = .ok q ∧ (∀ i < M.nDof, q i = p i + s * (if M.mask i then 1 else 0)) ∧
      ∃ r ∈ M.ranks, ∃ f ∈ r, ∃ g, d.pressureFix.find f.id = some g ∧ M.at q f = M.prescribed time f g := by
  unfold PresMesh.fix
  rw [he]
  obtain ⟨h1, h2⟩ := minIndex_spec (M.ranks.map (M.localDistance d time p))
  simp only [Bool.false_eq_true, if_false]
  cases hm : minIndex (M.ranks.map (M.localDistance d time p)) with
  | none =>
    left
    refine ⟨fun r hr => ?_, rfl⟩
    exact (localDistance_spec M d time p r).2.1 (h1.1 hm _ (List.mem_map_of_mem hr))
  | some m =>
    right
    obtain ⟨hex, -⟩ := h2 m hm
    obtain ⟨h3, h4⟩ := commonShift_spec (M.ranks.map (M.localDistance d time p)) m
    obtain ⟨s, hs⟩ := Option.isSome_iff_exists.1 (h4 hex)
    obtain ⟨hmem, -⟩ := h3 s hs
    obtain ⟨mode, hmode⟩ : ∃ mode, M.mode true = some mode := ⟨_, rfl⟩
    dsimp only
    rw [hs, hmode]
    dsimp only
    have hq := shift_dist M hV p hp mode hmode s
    refine ⟨s, _, rfl, hq, ?_⟩
    obtain ⟨r, hr, hd⟩ := List.mem_map.1 hmem
    obtain ⟨f, hf, g, hg, -, hv⟩ := (localDistance_spec M d time p r).1 m s hd
    refine ⟨r, hr, f, hf, g, hg, ?_⟩
    rw [at_shift M p _ s hq f, hV.unity r hr f hf, hv]
    ring

theorem conforms_dist (hC : M.hanging.Closed) (x : ℕ → K) : M.Conforms (M.hanging.dist M.nDof x) :=
  fun i c h => dist_satisfies M.hanging M.nDof hC i c h x

theorem conforms_iterate (hC : M.hanging.Closed) (p : ℕ → K) (hp : M.Conforms p) (upds : List (ℕ → K)) :
    M.Conforms (M.iterate p upds) := by
  unfold PresMesh.iterate
  induction upds using List.reverseRecOn with
  | nil => exact hp
  | append_singleton l u ih =>
    rw [List.foldl_append, List.foldl_cons, List.foldl_nil]
    intro i c h
    dsimp only
    rw [ih i c h, conforms_dist M hC u i c h, ← sum_add_distrib]
    exact sum_congr rfl fun k _ => by ring

theorem conforms_extrapolate (t : TS K) (p q : ℕ → K) (hp : M.Conforms p) (hq : M.Conforms q) :
    M.Conforms fun i => t.extrapolate (p i) (q i) := by
  intro i c h
  unfold TS.extrapolate
  dsimp only
  rw [hp i c h, hq i c h, sum_mul, sum_mul, ← sum_add_distrib]
  exact sum_congr rfl fun k _ => by ring

theorem conforms_fix (hC : M.hanging.Closed) (b : Bool) (d : Desc) (time : K) (p q : ℕ → K) (hp : M.Conforms p)
    (h : M.fix b d time p = .ok q) : M.Conforms q := by
  unfold PresMesh.fix at h
  by_cases he : d.pressureFix.isEmpty
  · rw [if_pos he] at h
    cases h; exact hp
  · rw [if_neg he] at h
    dsimp only at h
    cases hm : minIndex (M.ranks.map (M.localDistance d time p)) with
    | none => rw [hm] at h; cases h
    | some m =>
      rw [hm] at h
      dsimp only at h
      split at h
      · cases h; exact conforms_dist M hC _
      · cases h

theorem finish_false (b : Bool) (d : Desc) (time : K) (p : ℕ → K) :
    M.finish false b d time p = M.fix b d time p := by
  unfold PresMesh.finish PresMesh.setOpen
  cases M.fix b d time p with
  | error e => rfl
  | ok q => simp [Except.map]

structure PresInv (s : PresState K) (d : Desc) : Prop where
  mesh : s.mesh = M
  desc : s.desc = d
  fix : s.fixAtSetup = !d.pressureFix.isEmpty
  p : M.Conforms s.p
  old : M.Conforms s.old

theorem exec_solve (hC : M.hanging.Closed) (dim : ℕ) (s : PresState K) (d : Desc) (hs : PresInv M s d) (e : PresEvent K)
    (he : e.solves = true) : ∃ (p : ℕ → K) (t : TS K) (old : ℕ → K), M.Conforms p ∧ M.Conforms old ∧
      s.exec dim e = (M.fix (!d.pressureFix.isEmpty) d t.now p).map
        fun q => { s with t := t, old := old, p := q } := by
  obtain ⟨h0, h1, h2, h3, h4⟩ := hs
  subst h0
  cases e with
  | call c => cases he
  | setup => cases he
  | adapt => cases he
  | stokes upds =>
    refine ⟨s.mesh.iterate s.p upds, s.t, s.old, conforms_iterate _ hC _ h3 upds, h4, ?_⟩
    unfold PresState.exec
    dsimp only
    rw [finish_false, h1, h2]
  | step dt upds =>
    cases dt with
    | none =>
      refine ⟨_, s.t.next, s.p, conforms_iterate _ hC _ (conforms_extrapolate _ s.t.next _ _ h3 h4) upds, h3, ?_⟩
      unfold PresState.exec
      dsimp only
      rw [finish_false, h1, h2]
    | some dt =>
      refine ⟨_, (s.t.setDesired dt).next, s.p,
        conforms_iterate _ hC _ (conforms_extrapolate _ (s.t.setDesired dt).next _ _ h3 h4) upds, h3, ?_⟩
      unfold PresState.exec
      dsimp only
      rw [finish_false, h1, h2]

theorem exec_inv (hC : M.hanging.Closed) (dim : ℕ) (s s' : PresState K) (d : Desc) (hs : PresInv M s d) (e : PresEvent K)
    (he : e.solves = true) (h : s.exec dim e = .ok s') : PresInv M s' d := by
  obtain ⟨p, t, old, hp, ho, heq⟩ := exec_solve M hC dim s d hs e he
  rw [heq] at h
  cases hf : M.fix (!d.pressureFix.isEmpty) d t.now p with
  | error e => rw [hf] at h; cases h
  | ok q =>
    rw [hf] at h
    cases h
    exact ⟨hs.mesh, hs.desc, hs.fix, conforms_fix M hC _ _ _ _ _ hp hf, ho⟩

theorem run_cons_pres (dim : ℕ) (s : PresState K) (e : PresEvent K) (es : List (PresEvent K)) :
    s.run dim (e :: es) = match s.exec dim e with | .ok s' => s'.run dim es | .error e => .error e := rfl

theorem run_append_pres (dim : ℕ) (s : PresState K) (l₁ l₂ : List (PresEvent K)) :
    s.run dim (l₁ ++ l₂) = match s.run dim l₁ with | .ok s' => s'.run dim l₂ | .error e => .error e := by
  induction l₁ generalizing s with
  | nil => rfl
  | cons e l₁ ih =>
    rw [List.cons_append, run_cons_pres, run_cons_pres]
    cases s.exec dim e with
    | ok s' => exact ih s'
    | error e => rfl

theorem pres_run_desc (dim : ℕ) (es : List (PresEvent K)) : ∀ (s s' : PresState K), s.run dim es = .ok s' →
    s'.desc = s.desc.run dim (Spec.presRegistrations es) := by
  induction es with
  | nil => intro s s' h; cases h; rfl
  | cons e es ih =>
    intro s s' h
    rw [run_cons_pres] at h
    cases hx : s.exec dim e with
    | error e => rw [hx] at h; cases h
    | ok s1 =>
      rw [hx] at h
      have h1 := ih s1 s' h
      cases e with
      | call c => cases hx; exact h1
      | setup M => cases hx; exact h1
      | adapt M p old => cases hx; exact h1
      | stokes upds =>
        have : s1.desc = s.desc := by
          unfold PresState.exec at hx
          dsimp only at hx
          cases hf : s.mesh.finish false s.fixAtSetup s.desc s.t.now (s.mesh.iterate s.p upds) with
          | error e => rw [hf] at hx; cases hx
          | ok q => rw [hf] at hx; cases hx; rfl
        rw [h1, this]; rfl
      | step dt upds =>
        have : s1.desc = s.desc := by
          unfold PresState.exec at hx
          dsimp only at hx
          revert hx
          generalize (match dt with | some d => (s.t.setDesired d).next | none => s.t.next) = t
          intro hx
          cases hf : s.mesh.finish false s.fixAtSetup s.desc t.now
              (s.mesh.iterate (fun i => t.extrapolate (s.p i) (s.old i)) upds) with
          | error e => rw [hf] at hx; cases hx
          | ok q => rw [hf] at hx; cases hx; rfl
        rw [h1, this]; rfl

/-- State after a history and a setup or change of the mesh. -/
theorem run_builds (hC : M.hanging.Closed) (dim : ℕ) (p : Params K) (hist : List (PresEvent K)) (b : PresEvent K)
    (hb : Spec.BuildsP M b) (s₁ : PresState K) (h : (PresState.construct p).run dim hist = .ok s₁) (es : List (PresEvent K)) :
    ∃ s, PresInv M s (Desc.empty.run dim (Spec.presRegistrations hist)) ∧
      s₁.run dim (b :: es) = s.run dim es := by
  have hd := pres_run_desc dim hist _ _ h
  cases b with
  | call => exact hb.elim
  | stokes => exact hb.elim
  | step => exact hb.elim
  | setup M' =>
    obtain rfl : M' = M := hb
    refine ⟨{ s₁ with mesh := M', fixAtSetup := !s₁.desc.pressureFix.isEmpty, p := fun _ => 0, old := fun _ => 0 },
      ⟨rfl, hd, ?_, ?_, ?_⟩, rfl⟩
    · dsimp only; rw [hd]; rfl
    · intro i c _; simp
    · intro i c _; simp
  | adapt M' q old =>
    obtain rfl : M' = M := hb
    refine ⟨{ s₁ with
        mesh := M'
        fixAtSetup := !s₁.desc.pressureFix.isEmpty
        p := M'.hanging.dist M'.nDof q
        old := M'.hanging.dist M'.nDof old }, ⟨rfl, hd, ?_, conforms_dist _ hC _, conforms_dist _ hC _⟩, rfl⟩
    dsimp only; rw [hd]; rfl

theorem run_inv (hC : M.hanging.Closed) (dim : ℕ) (d : Desc) (es : List (PresEvent K)) (he : ∀ e ∈ es, e.solves = true)
    (s s' : PresState K) (hs : PresInv M s d) (h : s.run dim es = .ok s') : PresInv M s' d := by
  induction es generalizing s with
  | nil => cases h; exact hs
  | cons e es ih =>
    unfold PresState.run at h
    cases hx : s.exec dim e with
    | error e => rw [hx] at h; cases h
    | ok s1 =>
      rw [hx] at h
      exact ih (fun e h => he e (List.mem_cons_of_mem _ h)) s1
        (exec_inv M hC dim s s1 d hs e (he e List.mem_cons_self) hx) h

/-- **C75 (the pressure is fixed).** If a fixed pressure was asked for before the last setup or change of the mesh, then after
every later time step and every initial Stokes solve - whatever happened before, whatever the linear solvers and the transfer
returned, for any distribution of the cells to processes - the pressure at the midpoint of some boundary face of the current mesh
with such an id is exactly the prescribed value at the current time. -/
theorem C75_fixed_value (hV : M.Valid) (dim : ℕ) (p : Params K) (hist : List (PresEvent K))
    (hcs : Spec.wantsSomeFix (Spec.presRegistrations hist)) (b : PresEvent K) (hb : Spec.BuildsP M b)
    (es : List (PresEvent K)) (hne : es ≠ []) (he : ∀ e ∈ es, e.solves = true) (s : PresState K)
    (h : (PresState.construct p).run dim (hist ++ b :: es) = .ok s) :
    ∃ r ∈ M.ranks, ∃ f ∈ r, Spec.fixValue M (Spec.presRegistrations hist) s.t.now f = some (M.at s.p f) := by
  rw [run_append_pres] at h
  cases hh : (PresState.construct p).run dim hist with
  | error e => rw [hh] at h; cases h
  | ok s₁ =>
  rw [hh] at h
  dsimp only at h
  obtain ⟨s0, hi, hr⟩ := run_builds M hV.closed dim p hist b hb s₁ hh es
  rw [hr] at h
  clear hr
  generalize Spec.presRegistrations hist = cs at *
  obtain ⟨l, e, rfl⟩ := List.eq_nil_or_concat es |>.resolve_left hne
  rw [List.concat_eq_append] at he h
  rw [run_append_pres] at h
  cases hl : s0.run dim l with
  | error e => rw [hl] at h; cases h
  | ok s1 =>
    rw [hl] at h
    have hi1 := run_inv M hV.closed dim _ l (fun e h => he e (List.mem_append_left _ h)) s0 s1 hi hl
    obtain ⟨q, t, old, hq, -, heq⟩ := exec_solve M hV.closed dim s1 _ hi1 e (he e (List.mem_append_right _ (by simp)))
    dsimp only at h
    unfold PresState.run at h
    have hemp := (wantsSomeFix_iff dim cs).1 hcs
    rw [heq, hemp] at h
    rcases fix_spec M hV (Desc.empty.run dim cs) t.now q hq hemp with ⟨-, h2⟩ | ⟨sh, q', h2, -, r, hrr, f, hf, g, hg, hv⟩
    · rw [show (!false) = true from rfl, h2] at h; cases h
    · rw [show (!false) = true from rfl, h2] at h
      cases h
      refine ⟨r, hrr, f, hf, ?_⟩
      unfold Spec.fixValue
      obtain ⟨-, -, -, h4, -, -⟩ := C09_last_call_decides dim cs f.id
      rw [← h4, hg]
      dsimp only [Option.map_some]
      rw [hv]
      cases g <;> rfl

/-- **C75 (when it fails).** After any history that went well and a setup or change of the mesh, steps succeed for all results
of the linear solvers iff no pressure is to be fixed or the mesh has a boundary face with the id of a fixed pressure; otherwise the
first step stops with the error about the missing point. -/
theorem C75_error_iff (hV : M.Valid) (dim : ℕ) (p : Params K) (hist : List (PresEvent K)) (s₁ : PresState K)
    (hh : (PresState.construct p).run dim hist = .ok s₁) (b : PresEvent K) (hb : Spec.BuildsP M b) (es : List (PresEvent K))
    (hne : es ≠ []) (he : ∀ e ∈ es, e.solves = true) :
    ((∃ s, (PresState.construct p).run dim (hist ++ b :: es) = .ok s) ↔
      (Spec.wantsSomeFix (Spec.presRegistrations hist) →
        ∃ r ∈ M.ranks, ∃ f ∈ r, (Spec.fixValue M (Spec.presRegistrations hist) 0 f).isSome)) ∧
    (∀ err, (PresState.construct p).run dim (hist ++ b :: es) = .error err → err = .noPoint) := by
  rw [run_append_pres, hh]
  dsimp only
  obtain ⟨s0, hi, hr⟩ := run_builds M hV.closed dim p hist b hb s₁ hh es
  rw [hr]
  clear hr hh
  generalize Spec.presRegistrations hist = cs at *
  have hfind : ∀ f : FixFace K, (Spec.fixValue M cs 0 f).isSome ↔ ((Desc.empty.run dim cs).pressureFix.find f.id).isSome := by
    intro f
    obtain ⟨-, -, -, h4, -, -⟩ := C09_last_call_decides dim cs f.id
    unfold Spec.fixValue
    rw [h4, Option.isSome_map]
  simp only [hfind]
  by_cases hw : Spec.wantsSomeFix cs
  · have hemp := (wantsSomeFix_iff dim cs).1 hw
    by_cases hex : ∃ r ∈ M.ranks, ∃ f ∈ r, ((Desc.empty.run dim cs).pressureFix.find f.id).isSome
    · have : ∃ s, s0.run dim es = .ok s := by
        clear hne
        induction es generalizing s0 with
        | nil => exact ⟨s0, rfl⟩
        | cons e es ih =>
          obtain ⟨q, t, old, hq, -, heq⟩ := exec_solve M hV.closed dim s0 _ hi e (he e List.mem_cons_self)
          rcases fix_spec M hV (Desc.empty.run dim cs) t.now q hq hemp with ⟨h1, -⟩ | ⟨sh, q', h2, -⟩
          · obtain ⟨r, hr, f, hf, h⟩ := hex
            rw [h1 r hr f hf] at h; cases h
          · have hx : s0.exec dim e = .ok { s0 with t := t, old := old, p := q' } := by
              rw [heq, hemp, show (!false) = true from rfl, h2]; rfl
            unfold PresState.run
            rw [hx]
            exact ih (fun e h => he e (List.mem_cons_of_mem _ h)) _
              (exec_inv M hV.closed dim s0 _ _ hi e (he e List.mem_cons_self) hx)
      obtain ⟨s, hs⟩ := this
      exact ⟨⟨fun _ _ => hex, fun _ => ⟨s, hs⟩⟩, fun err h => by rw [hs] at h; cases h⟩
    · have : s0.run dim es = .error .noPoint := by
        obtain ⟨e, es, rfl⟩ := List.exists_cons_of_ne_nil hne
        obtain ⟨q, t, old, hq, -, heq⟩ := exec_solve M hV.closed dim s0 _ hi e (he e List.mem_cons_self)
        rcases fix_spec M hV (Desc.empty.run dim cs) t.now q hq hemp with ⟨-, h2⟩ | ⟨sh, q', -, -, r, hr, f, hf, g, hg, -⟩
        · unfold PresState.run
          rw [heq, hemp, show (!false) = true from rfl, h2]
          rfl
        · exact absurd ⟨r, hr, f, hf, by rw [hg]; rfl⟩ hex
      rw [this]
      refine ⟨⟨fun ⟨s, h⟩ => (nomatch h), fun h => absurd (h hw) hex⟩, fun err h => ?_⟩
      cases h; rfl
  · have hemp : (Desc.empty.run dim cs).pressureFix.isEmpty = true := by
      by_contra h
      exact hw ((wantsSomeFix_iff dim cs).2 (by simpa using h))
    have : ∃ s, s0.run dim es = .ok s := by
      clear hne
      induction es generalizing s0 with
      | nil => exact ⟨s0, rfl⟩
      | cons e es ih =>
        obtain ⟨q, t, old, hq, -, heq⟩ := exec_solve M hV.closed dim s0 _ hi e (he e List.mem_cons_self)
        have hx : s0.exec dim e = .ok { s0 with t := t, old := old, p := q } := by
          rw [heq]
          unfold PresMesh.fix
          rw [if_pos hemp]; rfl
        unfold PresState.run
        rw [hx]
        exact ih (fun e h => he e (List.mem_cons_of_mem _ h)) _
          (exec_inv M hV.closed dim s0 _ _ hi e (he e List.mem_cons_self) hx)
    obtain ⟨s, hs⟩ := this
    exact ⟨⟨fun _ h => absurd h hw, fun _ => ⟨s, hs⟩⟩, fun err h => by rw [hs] at h; cases h⟩

/-- **C75 (only the level changes).** Fixing the pressure adds one number to all values of the constant mode: pressure
differences computed by the solver are untouched at any two points. -/
theorem C75_only_level (hV : M.Valid) (d : Desc) (time : K) (p q : ℕ → K) (hp : M.Conforms p)
    (h : M.fix true d time p = .ok q) (f₁ f₂ : FixFace K)
    (h₁ : ∑ i ∈ range M.nDof, (if M.mask i then 1 else 0) * f₁.shape i = 1)
    (h₂ : ∑ i ∈ range M.nDof, (if M.mask i then 1 else 0) * f₂.shape i = 1) :
    M.at q f₁ - M.at q f₂ = M.at p f₁ - M.at p f₂ := by
  by_cases he : d.pressureFix.isEmpty
  · unfold PresMesh.fix at h
    rw [if_pos he] at h
    cases h; rfl
  · rcases fix_spec M hV d time p hp (by simpa using he) with ⟨-, h2⟩ | ⟨s, q', h2, hq, -⟩
    · rw [h2] at h; cases h
    · rw [h2] at h
      have hqq := Except.ok.inj h
      subst hqq
      rw [at_shift M p q' s hq f₁, at_shift M p q' s hq f₂, h₁, h₂]
      ring

/-- **C75 (open boundaries with projection).** With the projection scheme the pressure at a node on open boundaries is exactly
the prescribed value at the end of a step, and the constraints of the pressure hold. -/
theorem C75_open_projection (dim : ℕ) (cs : List Call) (b : Bool) (time : K) (p q : ℕ → K)
    (hq : M.finish true b (Desc.empty.run dim cs) time p = .ok q) (hC : M.hanging.Closed) :
    ((∃ b, (lastOf (wantsOpen b) (sinceClear cs)).isSome) → M.Conforms q) ∧
    ∀ i g, M.hanging.row i = none → (∃ f ∈ M.faces, i ∈ f.2 ∧ lastOf (wantsOpen f.1) (sinceClear cs) = some g) →
      (∀ f ∈ M.faces, i ∈ f.2 → ∀ g', lastOf (wantsOpen f.1) (sinceClear cs) = some g' → g' = g) →
      q i = match g with | .zero => 0 | .user f => M.nodal f time i := by
  have hopen : ∀ b, (Desc.empty.run dim cs).openP.find b = lastOf (wantsOpen b) (sinceClear cs) :=
    fun b => (C09_last_call_decides dim cs b).2.1
  unfold PresMesh.finish at hq
  cases hf : M.fix b (Desc.empty.run dim cs) time p with
  | error e => rw [hf] at hq; cases hq
  | ok p' =>
    rw [hf] at hq
    cases hq
    unfold PresMesh.setOpen
    have hcond : ∀ b, (lastOf (wantsOpen b) (sinceClear cs)).isSome →
        (!(Desc.empty.run dim cs).openP.isEmpty && true) = true := by
      intro b hb
      rw [isEmpty_of_find _ b (by rw [hopen]; exact hb)]; rfl
    constructor
    · rintro ⟨b, hb⟩
      rw [if_pos (hcond b hb)]
      exact conforms_dist M hC _
    · rintro i g hi ⟨f, hf, hif, hg⟩ hu
      rw [if_pos (hcond f.1 (by rw [hg]; rfl)), Constr.dist_free _ _ _ (by rw [hi]; rfl)]
      have hc : M.openCond (Desc.empty.run dim cs) i = some g := by
        unfold PresMesh.openCond
        have key : ∀ l : List (ℕ × List ℕ), (∀ f ∈ l, i ∈ f.2 → ∀ g', lastOf (wantsOpen f.1) (sinceClear cs) = some g' → g' = g) →
            ∀ r, r = (l.foldl (fun v f => match (Desc.empty.run dim cs).openP.find f.1 with
              | some g => if f.2.contains i then some g else v
              | none => v) none) →
            (r = none ∨ r = some g) ∧ ((∃ f ∈ l, i ∈ f.2 ∧ lastOf (wantsOpen f.1) (sinceClear cs) = some g) → r = some g) := by
          intro l
          induction l using List.reverseRecOn with
          | nil => rintro - r rfl; simp
          | append_singleton l e ih =>
            rintro hl r rfl
            rw [List.foldl_append, List.foldl_cons, List.foldl_nil, hopen]
            obtain ⟨h1, h2⟩ := ih (fun f hf => hl f (List.mem_append_left _ hf)) _ rfl
            have hle := hl e (List.mem_append_right _ (List.mem_singleton.2 rfl))
            cases hw : lastOf (wantsOpen e.1) (sinceClear cs) with
            | none =>
              refine ⟨h1, ?_⟩
              rintro ⟨f, hf, hif, hg⟩
              rcases List.mem_append.1 hf with h | h
              · exact h2 ⟨f, h, hif, hg⟩
              · rw [List.mem_singleton] at h; subst h; rw [hw] at hg; cases hg
            | some g' =>
              dsimp only
              by_cases hc : e.2.contains i = true
              · rw [if_pos hc, hle (by simpa using hc) g' hw]
                exact ⟨Or.inr rfl, fun _ => rfl⟩
              · rw [if_neg hc]
                refine ⟨h1, ?_⟩
                rintro ⟨f, hf, hif, hg⟩
                rcases List.mem_append.1 hf with h | h
                · exact h2 ⟨f, h, hif, hg⟩
                · rw [List.mem_singleton] at h; subst h; exact absurd (by simpa using hif) hc
        exact (key M.faces hu _ rfl).2 ⟨f, hf, hif, hg⟩
      rw [hc]
      cases g <;> rfl

/-! ### Concrete case: linear pressure on an interval with three nodes and a hanging one, two processes -/

def exPres : PresMesh ℚ where
  nDof := 4
  ranks := [[⟨7, 3, fun i => if i = 0 ∨ i = 1 then 1 / 2 else 0, 0⟩], [⟨5, 1, fun _ => 1 / 4, 2⟩, ⟨7, 2, fun i => if i = 1 then 1 else 0, 1⟩]]
  hanging := ⟨fun i => if i = 3 then some fun k => if k = 0 ∨ k = 1 then 1 / 2 else 0 else none⟩
  mask := fun _ => true
  mass := fun _ => 1
  faces := [(6, [2])]
  value := fun g t x => g.ident + t + x
  nodal := fun g t i => g.ident + t - i

def exPresCalls : List Call := [.noSlip 6, .fixP 7 (some ⟨4, 1⟩)]

theorem exPres_valid : exPres.Valid where
  closed := by
    intro i c h k hk
    unfold exPres at h hk
    dsimp only at h hk
    split_ifs at h hk with h1 h2
    · have := Option.some.inj h; subst this; rw [h2]; simp
    · cases hk
  constant := by
    intro i c h
    unfold exPres at h ⊢
    dsimp only at h ⊢
    split_ifs at h with h1
    have := Option.some.inj h; subst this
    simp [sum_range_succ]
    norm_num
  unity := by
    have h : ∀ r ∈ exPres.ranks, ∀ f ∈ r, ∑ i ∈ range exPres.nDof, (if exPres.mask i then 1 else 0) * f.shape i = 1 := by
      unfold exPres
      simp [sum_range_succ]
      norm_num
    exact h

example : Spec.wantsSomeFix exPresCalls := ⟨7, by decide⟩

/-- The face of the second process with the smaller index is chosen: the pressure is `4 + t + 1` in node 1. -/
example : ((PresState.construct (K := ℚ) ⟨.bdf2, 0, 1, 1 / 10, 1, 1 / 100⟩).run 2
      (exPresCalls.map .call ++ .setup exPres :: [.stokes [fun i => i], .step none [fun i => i * i, fun _ => 2]])).toOption.map
        (fun s => (s.p 0, s.p 1, s.p 3)) = some (31 / 10, 51 / 10, 41 / 10) := by
  decide +kernel

/-- A finer mesh on one process, with one more node. -/
def exPres' : PresMesh ℚ where
  nDof := 5
  ranks := [[⟨5, 1, fun i => if i = 4 then 1 else 0, 2⟩, ⟨7, 2, fun i => if i = 1 then 1 else 0, 1⟩]]
  hanging := exPres.hanging
  mask := fun _ => true
  mass := fun _ => 1
  faces := [(6, [2])]
  value := exPres.value
  nodal := exPres.nodal

theorem exPres'_valid : exPres'.Valid where
  closed := exPres_valid.closed
  constant := by
    intro i c h
    have := exPres_valid.constant i c h
    unfold exPres' exPres at *
    dsimp only at *
    split_ifs at h with h1
    have := Option.some.inj h; subst this
    simp [sum_range_succ]
    norm_num
  unity := by
    have h : ∀ r ∈ exPres'.ranks, ∀ f ∈ r, ∑ i ∈ range exPres'.nDof, (if exPres'.mask i then 1 else 0) * f.shape i = 1 := by
      unfold exPres'
      simp [sum_range_succ]
    exact h

/-- A history with steps, another registration and a change of the mesh: the pressure is fixed on the new mesh, with the new
function. -/
def exPresHist : List (PresEvent ℚ) :=
  exPresCalls.map .call ++ .setup exPres :: [.step none [fun i => i], .call (.fixP 7 (some ⟨9, 1⟩))]

example : Spec.wantsSomeFix (Spec.presRegistrations exPresHist) ∧ Spec.BuildsP exPres' (.adapt exPres' (fun i => i) fun _ => 1) :=
  ⟨⟨7, by decide⟩, rfl⟩

example : ((PresState.construct (K := ℚ) ⟨.bdf2, 0, 1, 1 / 10, 1, 1 / 100⟩).run 2
      (exPresHist ++ .adapt exPres' (fun i => i * i) (fun _ => 1) :: [.step none [fun i => 2 * i]])).toOption.map
        (fun s => (s.p 0, s.p 1, s.p 3, s.p 4, s.t.now)) = some (36 / 5, 51 / 5, 87 / 10, 156 / 5, 1 / 5) := by
  decide +kernel

/-- **C75 (the point depends on the partition).** Which face is taken depends on the distribution of the cells: with one process
the first face is used, with two processes the face with the smaller index. -/
theorem C75_partition_dependence :
    ∃ (M₁ M₂ : PresMesh ℚ) (d : Desc) (p : ℕ → ℚ), M₁.Valid ∧ M₂.Valid ∧ M₁.ranks.flatten = M₂.ranks.flatten ∧
      M₁ = { M₂ with ranks := M₁.ranks } ∧
      ((M₁.fix true d 0 p).toOption.map fun q => q 0) ≠ ((M₂.fix true d 0 p).toOption.map fun q => q 0) := by
  refine ⟨exPres, { exPres with ranks := [exPres.ranks.flatten] }, Desc.empty.run 2 exPresCalls, fun i => i, exPres_valid,
    ⟨exPres_valid.closed, exPres_valid.constant, ?_⟩, by simp, rfl, by decide +kernel⟩
  intro r hr f hf
  have hr : r = exPres.ranks.flatten := by simpa using hr
  subst hr
  obtain ⟨l, hl, hf⟩ := List.mem_flatten.1 hf
  exact exPres_valid.unity l hl f hf

end Verif.Boundary
