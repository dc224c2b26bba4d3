import Verif.Sharp.Force
import Mathlib.Data.Fintype.Basic
import Mathlib.Algebra.BigOperators.Group.List.Lemmas
import Mathlib.Data.Fin.VecNotation
import Mathlib.Data.Fintype.BigOperators

/-!
# C104: the external force of the sharp interface solvers on several processes
(include/adaflo/sharp_interface.h:537-550, 690-740, 819-835, 1023-1062;
 include/adaflo/sharp_interface_util.h:242-436, 636-806, 808-985)

A distributed vector is one array per process: the entries owned by the process and copies (`ghosts`) of some entries of other
processes. `distribute_local_to_global` adds into the array of the calling process, owned entry or ghost; only
`compress(add)` sends the ghost contributions to the owners.

Simplifications: exact real arithmetic; the processes are `Fin n`; the order `(level, index)` of cells is the same on all
processes; entries not stored on a process are kept at zero in its array.
-/

set_option linter.unusedSectionVars false

namespace Verif.Parallel.Surface

open Verif.Sharp Finset

section Model
variable {n : ℕ} {C P ι Q E : Type*} [LinearOrder C] [NormedAddCommGroup E] [NormedSpace ℝ E]

/-- distributed vector: the local array of every process -/
abbrev DVec (n : ℕ) (ι E : Type*) := Fin n → ι → E

/-- The partition of the background mesh: which process owns an entry and a cell, which cells a process knows (its own and
the ghost cells around them), which entries its arrays can store, and which entries belong to a cell. The velocity vectors
are made by `MatrixFree::initialize_dof_vector` (navier_stokes.cc:457-467), which stores the entries of the cells a process
owns. -/
structure Partition (n : ℕ) (C ι : Type*) where
  owner : ι → Fin n
  cellOwner : C → Fin n
  visible : Fin n → C → Bool
  stored : Fin n → ι → Bool
  dofs : C → List ι

/-- what a user sees of a distributed vector: the entries at their owners -/
def owned (T : Partition n C ι) (v : DVec n ι E) : ι → E := fun i => v (T.owner i) i

/-- `compress(VectorOperation::add)`: all contributions to an entry are summed at the owner, ghosts are set to zero. -/
noncomputable def compressAdd (T : Partition n C ι) (v : DVec n ι E) : DVec n ι E := fun r i =>
  if r = T.owner i then ∑ s, v s i else 0

/-- `AffineConstraints::set_zero` on a distributed vector: zero on the owned constrained entries, then
`zero_out_ghost_values`; sharp_interface.h:547-548 and 830-831 -/
def setZero (T : Partition n C ι) (constrained : ι → Bool) (v : DVec n ι E) : DVec n ι E := fun r i =>
  if r = T.owner i then (if constrained i then 0 else v r i) else 0

/-- a cell of the background mesh with its quadrature points -/
abbrev VolCell (C ι : Type*) := C × List (VolPoint ι)

/-- `update_gravity_force`: `cell_loop` with `zero_out = true` over the cells of each process, then `compress(add)`;
sharp_interface.h:700-740 (front tracking; the quadrature mix-up of the mixed solver, 1023-1062, is the subject of
Sharp/MixedForce.lean and not repeated here). The loop body is `updateGravity`. -/
noncomputable def gravity (T : Partition n C ι) (p : PhaseParams) (up : E) (cells : List (VolCell C ι)) (v : DVec n ι E) :
    DVec n ι E :=
  compressAdd T fun r =>
    updateGravity p up ((cells.filter fun c => T.cellOwner c.1 = r).flatMap fun c => c.2) (v r)

/-! ### front tracking -/

/-- The search for the cells around a point on process `r`, sharp_interface_util.h:271-286: only cells known to the process
are found; if there is none, deal.II throws and the point is skipped. `around` are all cells of the mesh around the point. -/
def findCells (T : Partition n C ι) (around : Q → List (C × P)) (r : Fin n) (q : Q) : Option (List (C × P)) :=
  if ((around q).filter fun c => T.visible r c.1).isEmpty then none else some ((around q).filter fun c => T.visible r c.1)

/-- Every process has the whole surface mesh and loops over all its cells, sharp_interface_util.h:358-388: the entries
collected on process `r`. -/
noncomputable def frontInfo (T : Partition n C ι) (around : Q → List (C × P)) (σ : ℝ) (pts : List (Q × SurfPoint E))
    (r : Fin n) : List (Entry C E P) :=
  infoAll (findCells T around r) (surfaceForces σ pts)

/-- `compute_force_vector_sharp_interface` (front tracking), sharp_interface_util.h:333-436: every process adds to its own
array, there is no `compress`. Writing to an entry that the array of the process does not store is an error (an assertion in
debug mode, an access outside of the array otherwise): `none`. `info r` is the order chosen by `std::sort`. -/
noncomputable def frontTension (T : Partition n C ι) (N : C → P → ι → ℝ) (dummy : C) (info : Fin n → List (Entry C E P))
    (v : DVec n ι E) : Option (DVec n ι E) :=
  if (List.finRange n).all fun r => (info r).all fun e => (T.dofs e.cell).all fun i => T.stored r i then
    some fun r => frontTrackingForce N dummy (info r) (v r)
  else none

/-! ### mixed level set with a surface mesh -/

/-- The points handed over by one process, sharp_interface_util.h:650-692: position and surface element of every quadrature
point of the surface cells with `is_locally_owned()`. -/
def submitted {S : Type*} (ownedBy : Fin n → S → Bool) (surface : List (S × List (Q × ℝ))) (r : Fin n) : List (Q × ℝ) :=
  (surface.filter fun s => ownedBy r s.1).flatMap fun s => s.2

/-- `RemotePointEvaluation` and the integration function on process `r`, sharp_interface_util.h:670-671, 694-788, 795-797:
the points of all processes arrive at the owners of all the cells around them; normal and curvature are evaluated there. -/
noncomputable def rpeInfo (T : Partition n C ι) (around : Q → List (C × P)) (σ : ℝ) (normal : C → P → E) (κ : C → P → ℝ)
    (sub : Fin n → List (Q × ℝ)) (r : Fin n) : List (Entry C E P) :=
  ((List.finRange n).flatMap sub).flatMap fun q =>
    ((around q.1).filter fun c => T.cellOwner c.1 = r).map fun c =>
      ⟨c.2, forceMixed σ ⟨normal c.1 c.2, κ c.1 c.2, q.2⟩, c.1⟩

/-- One pass over the received entries, cell by cell: `groups` are the cells with the points and values received; the
values are tested with the shape functions and added (sharp_interface_util.h:709-787). -/
noncomputable def addGroups (N : C → P → ι → ℝ) (groups : List (C × List (P × E))) (v : ι → E) : ι → E :=
  groups.foldl (fun v g => v + fun j => (g.2.map fun pw => N g.1 pw.1 j • pw.2).sum) v

/-- mixed level set: all processes add, then `compress(add)`, sharp_interface_util.h:790-805 -/
noncomputable def mixedTension (T : Partition n C ι) (N : C → P → ι → ℝ) (groups : Fin n → List (C × List (P × E)))
    (v : DVec n ι E) : DVec n ι E :=
  compressAdd T fun r => addGroups N (groups r) (v r)

/-- marching cubes: every process loops over the cells it owns, then `compress(add)`, sharp_interface_util.h:846-984 -/
noncomputable def marchingTension (T : Partition n C ι) (N : C → P → ι → ℝ) (σ : ℝ)
    (cells : List (C × List (P × SurfPoint E))) (v : DVec n ι E) : DVec n ι E :=
  compressAdd T fun r => assembleCells N (forceMarching σ) (cells.filter fun c => T.cellOwner c.1 = r) (v r)

/-! ### time steps -/

/-- the force part of `advance_time_step`, sharp_interface.h:540-548 and 823-831 -/
noncomputable def forceStep (T : Partition n C ι) (p : PhaseParams) (up : E) (constrained : ι → Bool)
    (s : List (VolCell C ι) × (DVec n ι E → Option (DVec n ι E))) (v : DVec n ι E) : Option (DVec n ι E) :=
  (s.2 (gravity T p up s.1 v)).map (setZero T constrained)

/-- several time steps; the vector is kept from step to step -/
noncomputable def forceRun (T : Partition n C ι) (p : PhaseParams) (up : E) (constrained : ι → Bool) :
    List (List (VolCell C ι) × (DVec n ι E → Option (DVec n ι E))) → DVec n ι E → Option (DVec n ι E)
  | [], v => some v
  | s :: l, v => (forceStep T p up constrained s v).bind (forceRun T p up constrained l)

end Model

/-! ## Specification: the force of the whole domain, without any processes -/

section Spec
variable {C P ι Q E : Type*} [AddCommGroup E] [Module ℝ E]

/-- weight of the two fluids, tested with shape function `j` -/
noncomputable def Spec.weight (p : PhaseParams) (up : E) (cells : List (C × List (VolPoint ι))) (j : ι) : E :=
  ((cells.flatMap fun c => c.2).map fun q =>
    -(p.gravity * (p.density + p.density_diff * q.indicator) * q.N j * q.JxW)).sum • up

/-- forces `f` at surface points, tested with shape function `j` on all cells around each point -/
noncomputable def Spec.surface (N : C → P → ι → ℝ) (around : Q → List (C × P)) (f : C → P → Q → E) (pts : List Q) (j : ι) : E :=
  (pts.map fun q => ((around q).map fun c => N c.1 c.2 j • f c.1 c.2 q).sum).sum

/-- the external force: zero at constrained entries -/
noncomputable def Spec.external (constrained : ι → Bool) (w s : ι → E) (j : ι) : E := if constrained j then 0 else w j + s j

end Spec

/-! ## Proofs -/

section Proofs
variable {n : ℕ} {C P ι Q E : Type*} [LinearOrder C] [NormedAddCommGroup E] [NormedSpace ℝ E]

theorem owned_compress (T : Partition n C ι) (v : DVec n ι E) (i : ι) : owned T (compressAdd T v) i = ∑ s, v s i := by
  simp [owned, compressAdd]

/-- a vector without ghost contributions -/
def Clean (T : Partition n C ι) (v : DVec n ι E) : Prop := ∀ r i, r ≠ T.owner i → v r i = 0

theorem clean_compress (T : Partition n C ι) (v : DVec n ι E) : Clean T (compressAdd T v) := by
  intro r i h; simp [compressAdd, h]

theorem clean_sum (T : Partition n C ι) (v : DVec n ι E) (h : Clean T v) (i : ι) : ∑ s, v s i = owned T v i := by
  unfold owned
  rw [Finset.sum_eq_single (T.owner i)]
  · intro b _ hb; exact h b i hb
  · intro h'; exact absurd (mem_univ _) h'

/-- Splitting a list among the processes does not change a sum over it. -/
theorem sum_split {A : Type*} (own : A → Fin n) (f : A → E) (l : List A) :
    ∑ r, ((l.filter fun a => own a = r).map f).sum = (l.map f).sum := by
  induction l with
  | nil => simp
  | cons a l ih =>
    rw [List.map_cons, List.sum_cons, ← ih]
    have h : ∀ r, (((a :: l).filter fun a => own a = r).map f).sum =
        (if r = own a then f a else 0) + ((l.filter fun a => own a = r).map f).sum := by
      intro r
      by_cases hr : own a = r
      · subst hr; simp
      · rw [List.filter_cons_of_neg (by simpa using hr), if_neg (fun h => hr h.symm), zero_add]
    simp only [h]
    rw [Finset.sum_add_distrib]
    congr 1
    simp

theorem sum_flatMap {A B : Type*} (l : List A) (g : A → List B) (f : B → E) :
    ((l.flatMap g).map f).sum = (l.map fun a => ((g a).map f).sum).sum := by
  induction l with
  | nil => simp
  | cons a l ih => simp [List.flatMap_cons, ih]

theorem gravity_owned (T : Partition n C ι) (p : PhaseParams) (up : E) (cells : List (VolCell C ι)) (v : DVec n ι E) (j : ι) :
    owned T (gravity T p up cells v) j = Spec.weight p up cells j := by
  unfold gravity
  rw [owned_compress]
  have hw : Spec.weight p up cells j = ((cells.flatMap fun c => c.2).map ((fun r : ℝ => r • up) ∘ fun q : VolPoint ι =>
      -(p.gravity * (p.density + p.density_diff * q.indicator) * q.N j * q.JxW))).sum := by
    unfold Spec.weight; rw [List.sum_smul, List.map_map]
  unfold updateGravity
  rw [hw]
  simp only [sum_flatMap]
  rw [sum_split (fun c : VolCell C ι => T.cellOwner c.1), ← sum_flatMap, ← sum_flatMap]
  congr 1
  apply List.map_congr_left
  intro q _
  simp only [Function.comp_def, smul_smul]
  congr 1
  unfold gravityDensity updatePhases
  by_cases hd : p.density_diff = 0
  · simp [hd]; ring
  · simp [hd]; ring

theorem step_owned (T : Partition n C ι) (p : PhaseParams) (up : E) (constrained : ι → Bool) (F : ι → E)
    (cells : List (VolCell C ι)) (surf : DVec n ι E → Option (DVec n ι E))
    (hs : ∀ u w, Clean T u → surf u = some w → ∀ j, owned T w j = owned T u j + F j)
    (v w : DVec n ι E) (h : forceStep T p up constrained (cells, surf) v = some w) (j : ι) :
    owned T w j = Spec.external constrained (Spec.weight p up cells) F j := by
  unfold forceStep at h
  rw [Option.map_eq_some_iff] at h
  obtain ⟨u, hu, rfl⟩ := h
  have hc : Clean T (gravity T p up cells v) := clean_compress T _
  have := hs _ u hc hu j
  rw [gravity_owned] at this
  simp only [owned, setZero, if_true, Spec.external]
  by_cases hcj : constrained j = true
  · simp [hcj]
  · simp only [hcj, Bool.false_eq_true, if_false]
    exact this

theorem run_append (T : Partition n C ι) (p : PhaseParams) (up : E) (constrained : ι → Bool)
    (l : List (List (VolCell C ι) × (DVec n ι E → Option (DVec n ι E)))) (s) (v w : DVec n ι E)
    (h : forceRun T p up constrained (l ++ [s]) v = some w) : ∃ u, forceStep T p up constrained s u = some w := by
  induction l generalizing v with
  | nil =>
    simp only [List.nil_append, forceRun] at h
    obtain ⟨u, hu, hw⟩ := Option.bind_eq_some_iff.1 h
    cases hw
    exact ⟨v, hu⟩
  | cons a l ih =>
    simp only [List.cons_append, forceRun] at h
    obtain ⟨u, _, hw⟩ := Option.bind_eq_some_iff.1 h
    exact ih u hw

/-! ### front tracking -/

theorem pointForces_infoAll (N : C → P → ι → ℝ) (T : Partition n C ι) (around : Q → List (C × P)) (r : Fin n)
    (pts : List (Q × E)) (j : ι) : Spec.pointForces N (infoAll (findCells T around r) pts) j =
      (pts.map fun q => (((around q.1).filter fun c => T.visible r c.1).map fun c => N c.1 c.2 j • q.2).sum).sum := by
  unfold Spec.pointForces infoAll
  rw [sum_flatMap]
  congr 1
  apply List.map_congr_left
  intro q _
  unfold findCells
  by_cases he : ((around q.1).filter fun c => T.visible r c.1).isEmpty
  · rw [if_pos he]
    rw [List.isEmpty_iff] at he
    rw [he]; rfl
  · rw [if_neg he]
    simp [List.map_map, Function.comp_def]

theorem filter_sum (T : Partition n C ι) (N : C → P → ι → ℝ) (j : ι) (l : List (C × P)) (e : E) (r : Fin n)
    (h : ∀ c ∈ l, T.visible r c.1 = false → N c.1 c.2 j = 0) :
    ((l.filter fun c => T.visible r c.1).map fun c => N c.1 c.2 j • e).sum = (l.map fun c => N c.1 c.2 j • e).sum := by
  induction l with
  | nil => rfl
  | cons c l ih =>
    have := ih fun x hx => h x (by simp [hx])
    by_cases hv : T.visible r c.1 = true
    · rw [List.filter_cons_of_pos (by simpa using hv)]; simp [this]
    · rw [List.filter_cons_of_neg (by simpa using hv)]
      simp only [Bool.not_eq_true] at hv
      simp [this, h c (by simp) hv]

/-- Every process knows all cells around the entries it owns: one layer of ghost cells. -/
def Spec.GhostLayer (T : Partition n C ι) : Prop := ∀ c i, i ∈ T.dofs c → T.visible (T.owner i) c = true

/-- shape functions vanish on the cells they do not belong to -/
def Spec.Local (T : Partition n C ι) (N : C → P → ι → ℝ) : Prop := ∀ c p i, i ∉ T.dofs c → N c p i = 0

theorem front_owned (T : Partition n C ι) (hg : Spec.GhostLayer T) (N : C → P → ι → ℝ) (hN : Spec.Local T N)
    (around : Q → List (C × P)) (dummy : C) (hd : ∀ q, ∀ c ∈ around q, c.1 ≠ dummy) (σ : ℝ) (pts : List (Q × SurfPoint E))
    (info : Fin n → List (Entry C E P)) (hi : ∀ r, SortedFrom (frontInfo T around σ pts r) (info r))
    (u w : DVec n ι E) (h : frontTension T N dummy info u = some w) (j : ι) :
    owned T w j = owned T u j +
      Spec.surface N (fun q : Q × SurfPoint E => around q.1) (fun _ _ q => forceFrontTracking σ q.2) pts j := by
  unfold frontTension at h
  split at h
  · cases h
    have hd' : ∀ r, ∀ e ∈ frontInfo T around σ pts r, e.cell ≠ dummy := by
      intro r e he
      unfold frontInfo at he
      obtain ⟨q, _, l, hl, hm, _⟩ := ((C42_entries (C := C) (P := P) (surfaceForces σ pts)).1 _ e).1 he
      unfold findCells at hl
      split at hl
      · cases hl
      · cases hl
        exact hd q.1 (e.cell, e.point) (List.mem_filter.1 hm).1
    have key : ∀ r, frontTrackingForce N dummy (info r) (u r) = u r + Spec.pointForces N (frontInfo T around σ pts r) := by
      intro r
      unfold frontTrackingForce
      exact assemble_eq N _ _ (C42_compress_represents dummy _ (info r) (hi r) (hd' r)) (u r)
    unfold owned
    simp only [key, Pi.add_apply]
    congr 1
    unfold frontInfo
    rw [pointForces_infoAll]
    unfold Spec.surface surfaceForces
    rw [List.map_map]
    congr 1
    apply List.map_congr_left
    intro q _
    simp only [Function.comp_def]
    apply filter_sum
    intro c _ hv
    apply hN
    intro hm
    rw [hg _ _ hm] at hv
    exact absurd hv (by simp)
  · cases h

/-- **C104 (front tracking), partial.** On any number of processes, with one layer of ghost cells, whatever order `std::sort`
chooses on each process, and after any earlier time steps (with other interfaces): if the step runs through, the external
force is the weight of the two fluids plus the surface tension of the current interface, every surface point counted
exactly once per cell around it - the force of a run on one process. No contribution is lost although the vector is never
compressed, and none that an earlier step left in ghost entries is added.

Partial: the step may fail instead, see `C104_front_fails`. -/
theorem C104_front_partial (T : Partition n C ι) (hg : Spec.GhostLayer T) (N : C → P → ι → ℝ) (hN : Spec.Local T N)
    (around : Q → List (C × P)) (dummy : C) (hd : ∀ q, ∀ c ∈ around q, c.1 ≠ dummy)
    (p : PhaseParams) (up : E) (constrained : ι → Bool) (σ : ℝ)
    (earlier : List (List (VolCell C ι) × (DVec n ι E → Option (DVec n ι E)))) (cells : List (VolCell C ι))
    (pts : List (Q × SurfPoint E)) (info : Fin n → List (Entry C E P))
    (hi : ∀ r, SortedFrom (frontInfo T around σ pts r) (info r)) (v w : DVec n ι E)
    (h : forceRun T p up constrained (earlier ++ [(cells, frontTension T N dummy info)]) v = some w) (j : ι) :
    owned T w j = Spec.external constrained (Spec.weight p up cells)
      (Spec.surface N (fun q : Q × SurfPoint E => around q.1) (fun _ _ q => forceFrontTracking σ q.2) pts) j := by
  obtain ⟨u, hu⟩ := run_append T p up constrained earlier _ v w h
  exact step_owned T p up constrained _ cells _
    (fun a b _ hab => front_owned T hg N hN around dummy hd σ pts info hi a b hab) u w hu j

/-- **C104 (front tracking), the failure.** A run fails as soon as a surface point lies in a ghost cell with an entry that
the process does not store: the point search returns ghost cells, but the vector only stores the entries of the owned ones. -/
theorem C104_front_fails (T : Partition n C ι) (N : C → P → ι → ℝ) (around : Q → List (C × P)) (dummy : C)
    (p : PhaseParams) (up : E) (constrained : ι → Bool) (σ : ℝ) (cells : List (VolCell C ι))
    (pts : List (Q × SurfPoint E)) (info : Fin n → List (Entry C E P))
    (hi : ∀ r, SortedFrom (frontInfo T around σ pts r) (info r)) (v : DVec n ι E)
    (q : Q × SurfPoint E) (hq : q ∈ pts) (c : C × P) (hc : c ∈ around q.1) (r : Fin n) (hv : T.visible r c.1 = true)
    (i : ι) (hm : i ∈ T.dofs c.1) (hs : T.stored r i = false) :
    forceRun T p up constrained [(cells, frontTension T N dummy info)] v = none := by
  have hmem : (⟨c.2, forceFrontTracking σ q.2, c.1⟩ : Entry C E P) ∈ frontInfo T around σ pts r := by
    unfold frontInfo
    rw [(C42_entries (C := C) (P := P) (surfaceForces σ pts)).1]
    have hf : c ∈ (around q.1).filter fun c => T.visible r c.1 := List.mem_filter.2 ⟨hc, by simpa using hv⟩
    refine ⟨(q.1, forceFrontTracking σ q.2), List.mem_map.2 ⟨q, hq, rfl⟩, _, ?_, hf, rfl⟩
    unfold findCells
    rw [if_neg]
    intro he
    rw [List.isEmpty_iff] at he
    rw [he] at hf
    cases hf
  have hnot : ¬ ((List.finRange n).all fun r => (info r).all fun e => (T.dofs e.cell).all fun i => T.stored r i) = true := by
    intro hall
    have h1 := (List.all_eq_true.1 hall) r (List.mem_finRange r)
    have h2 := (List.all_eq_true.1 h1) _ ((hi r).perm.mem_iff.2 hmem)
    have h3 := (List.all_eq_true.1 h2) i hm
    rw [hs] at h3; cases h3
  simp only [forceRun, forceStep, frontTension, if_neg hnot, Option.map_none, Option.bind_none]

/-- **C104 (front tracking), one process.** A single process knows all cells and stores all entries; the step always runs
through and the external force is the prescribed one. -/
theorem C104_front_one_process (T : Partition 1 C ι) (hv : ∀ c, T.visible 0 c = true) (hs : ∀ i, T.stored 0 i = true)
    (N : C → P → ι → ℝ) (hN : Spec.Local T N) (around : Q → List (C × P)) (dummy : C) (hd : ∀ q, ∀ c ∈ around q, c.1 ≠ dummy)
    (p : PhaseParams) (up : E) (constrained : ι → Bool) (σ : ℝ) (cells : List (VolCell C ι)) (pts : List (Q × SurfPoint E))
    (info : Fin 1 → List (Entry C E P)) (hi : ∀ r, SortedFrom (frontInfo T around σ pts r) (info r)) (v : DVec 1 ι E) :
    ∃ w, forceRun T p up constrained [(cells, frontTension T N dummy info)] v = some w ∧
      ∀ j, owned T w j = Spec.external constrained (Spec.weight p up cells)
        (Spec.surface N (fun q : Q × SurfPoint E => around q.1) (fun _ _ q => forceFrontTracking σ q.2) pts) j := by
  have hall : ((List.finRange 1).all fun r => (info r).all fun e => (T.dofs e.cell).all fun i => T.stored r i) = true := by
    simp only [List.all_eq_true]
    intro r _ e _ i _
    rw [Subsingleton.elim r 0]; exact hs i
  have hg : Spec.GhostLayer T := fun c i _ => by rw [Subsingleton.elim (T.owner i) 0]; exact hv c
  have hrun : forceRun T p up constrained [(cells, frontTension T N dummy info)] v =
      some (setZero T constrained fun r => frontTrackingForce N dummy (info r) (gravity T p up cells v r)) := by
    simp only [forceRun, forceStep, frontTension, if_pos hall, Option.map_some, Option.bind_some]
  exact ⟨_, hrun, fun j => C104_front_partial T hg N hN around dummy hd p up constrained σ [] cells pts info hi v _
    (by rw [List.nil_append]; exact hrun) j⟩

/-! ### mixed level set -/

theorem addGroups_eq (N : C → P → ι → ℝ) (groups : List (C × List (P × E))) (v : ι → E) (j : ι) :
    addGroups N groups v j = v j + Spec.pointForces N (groups.flatMap fun g => g.2.map fun pw => ⟨pw.1, pw.2, g.1⟩) j := by
  unfold addGroups Spec.pointForces
  induction groups generalizing v with
  | nil => simp
  | cons g l ih =>
    rw [List.foldl_cons, ih, List.flatMap_cons, List.map_append, List.sum_append, Pi.add_apply, add_assoc, List.map_map]
    rfl

theorem pointForces_perm (N : C → P → ι → ℝ) {l l' : List (Entry C E P)} (h : l.Perm l') (j : ι) :
    Spec.pointForces N l j = Spec.pointForces N l' j := by
  unfold Spec.pointForces; exact (h.map _).sum_eq

/-- what `RemotePointEvaluation` delivers to a process: the entries of `rpeInfo`, grouped by cells in any order -/
def Delivered (info : List (Entry C E P)) (groups : List (C × List (P × E))) : Prop :=
  (groups.flatMap fun g => g.2.map fun pw => (⟨pw.1, pw.2, g.1⟩ : Entry C E P)).Perm info

theorem rpe_total (T : Partition n C ι) (N : C → P → ι → ℝ) (around : Q → List (C × P)) (σ : ℝ) (normal : C → P → E)
    (κ : C → P → ℝ) (sub : Fin n → List (Q × ℝ)) (j : ι) :
    ∑ r, Spec.pointForces N (rpeInfo T around σ normal κ sub r) j =
      Spec.surface N (fun q : Q × ℝ => around q.1) (fun c x q => forceMixed σ ⟨normal c x, κ c x, q.2⟩)
        ((List.finRange n).flatMap sub) j := by
  unfold Spec.pointForces rpeInfo Spec.surface
  generalize (List.finRange n).flatMap sub = l
  induction l with
  | nil => simp
  | cons q l ih =>
    simp only [List.flatMap_cons, List.map_append, List.sum_append, List.map_cons, List.sum_cons]
    rw [Finset.sum_add_distrib, ih]
    congr 1
    simp only [List.map_map, Function.comp_def]
    exact sum_split (fun c : C × P => T.cellOwner c.1)
      (fun c => N c.1 c.2 j • forceMixed σ ⟨normal c.1 c.2, κ c.1 c.2, q.2⟩) (around q.1)

theorem mixed_owned (T : Partition n C ι) (N : C → P → ι → ℝ) (around : Q → List (C × P)) (σ : ℝ) (normal : C → P → E)
    (κ : C → P → ℝ) (sub : Fin n → List (Q × ℝ)) (groups : Fin n → List (C × List (P × E)))
    (hg : ∀ r, Delivered (rpeInfo T around σ normal κ sub r) (groups r)) (u : DVec n ι E) (hu : Clean T u) (j : ι) :
    owned T (mixedTension T N groups u) j = owned T u j +
      Spec.surface N (fun q : Q × ℝ => around q.1) (fun c x q => forceMixed σ ⟨normal c x, κ c x, q.2⟩)
        ((List.finRange n).flatMap sub) j := by
  unfold mixedTension
  rw [owned_compress]
  simp only [addGroups_eq]
  rw [Finset.sum_add_distrib, clean_sum T u hu, ← rpe_total T]
  congr 1
  exact Finset.sum_congr rfl fun r _ => pointForces_perm N (hg r) j

/-- **C104 (mixed level set).** On any number of processes and after any earlier time steps, the external force is
the weight of the fluids plus the forces of all the surface points *submitted by any process*, each counted once per cell
around it, whatever process owns these cells. -/
theorem C104_mixed_submitted (T : Partition n C ι) (N : C → P → ι → ℝ) (around : Q → List (C × P))
    (p : PhaseParams) (up : E) (constrained : ι → Bool) (σ : ℝ) (normal : C → P → E) (κ : C → P → ℝ)
    (earlier : List (List (VolCell C ι) × (DVec n ι E → Option (DVec n ι E)))) (cells : List (VolCell C ι))
    (sub : Fin n → List (Q × ℝ)) (groups : Fin n → List (C × List (P × E)))
    (hg : ∀ r, Delivered (rpeInfo T around σ normal κ sub r) (groups r)) (v w : DVec n ι E)
    (h : forceRun T p up constrained (earlier ++ [(cells, fun u => some (mixedTension T N groups u))]) v = some w) (j : ι) :
    owned T w j = Spec.external constrained (Spec.weight p up cells)
      (Spec.surface N (fun q : Q × ℝ => around q.1) (fun c x q => forceMixed σ ⟨normal c x, κ c x, q.2⟩)
        ((List.finRange n).flatMap sub)) j := by
  obtain ⟨u, hu⟩ := run_append T p up constrained earlier _ v w h
  refine step_owned T p up constrained _ cells _ (fun a b ha hab => ?_) u w hu j
  cases hab
  exact mixed_owned T N around σ normal κ sub groups hg a ha

theorem surface_perm (N : C → P → ι → ℝ) (around : Q → List (C × P)) (f : C → P → Q → E) {l l' : List Q} (h : l.Perm l')
    (j : ι) : Spec.surface N around f l j = Spec.surface N around f l' j := by
  unfold Spec.surface; exact (h.map _).sum_eq

/-- points submitted by all processes if every surface cell has one owner -/
theorem submitted_partition {S : Type*} (surfOwner : S → Fin n) (surface : List (S × List (Q × ℝ))) (f : Q × ℝ → E) :
    (((List.finRange n).flatMap (submitted (fun r s => surfOwner s = r) surface)).map f).sum =
      ((surface.flatMap fun s => s.2).map f).sum := by
  rw [sum_flatMap, sum_flatMap]
  unfold submitted
  simp only [sum_flatMap]
  rw [← sum_split (fun s : S × List (Q × ℝ) => surfOwner s.1) (fun a => (a.2.map f).sum) surface, ← List.sum_ofFn,
    List.ofFn_eq_map]

/-- points submitted by all processes if every process owns all surface cells -/
theorem submitted_replicated {S : Type*} (surface : List (S × List (Q × ℝ))) (f : Q × ℝ → E) :
    (((List.finRange n).flatMap (submitted (fun _ _ => true) surface)).map f).sum =
      n • ((surface.flatMap fun s => s.2).map f).sum := by
  rw [sum_flatMap]
  unfold submitted
  simp

/-- **C104 (mixed level set, distributed surface mesh).** If every cell of the surface mesh is owned by exactly one process
(`parallel::shared::Triangulation`, tests/sim_spurious_currents.cc:245), the external force does not depend on the number of processes,
nor on the partitions of the two meshes: it is the one of the whole surface. -/
theorem C104_mixed_distributed {S : Type*} (T : Partition n C ι) (N : C → P → ι → ℝ) (around : Q → List (C × P))
    (p : PhaseParams) (up : E) (constrained : ι → Bool) (σ : ℝ) (normal : C → P → E) (κ : C → P → ℝ)
    (earlier : List (List (VolCell C ι) × (DVec n ι E → Option (DVec n ι E)))) (cells : List (VolCell C ι))
    (surfOwner : S → Fin n) (surface : List (S × List (Q × ℝ))) (groups : Fin n → List (C × List (P × E)))
    (hg : ∀ r, Delivered (rpeInfo T around σ normal κ (submitted (fun r s => surfOwner s = r) surface) r) (groups r))
    (v w : DVec n ι E)
    (h : forceRun T p up constrained (earlier ++ [(cells, fun u => some (mixedTension T N groups u))]) v = some w) (j : ι) :
    owned T w j = Spec.external constrained (Spec.weight p up cells)
      (Spec.surface N (fun q : Q × ℝ => around q.1) (fun c x q => forceMixed σ ⟨normal c x, κ c x, q.2⟩)
        (surface.flatMap fun s => s.2)) j := by
  rw [C104_mixed_submitted T N around p up constrained σ normal κ earlier cells _ groups hg v w h j]
  unfold Spec.external Spec.surface
  rw [submitted_partition]

/-- **C104 is false for the mixed level set solver with a serial surface mesh** (`Triangulation<dim - 1, dim>`, on which every
process owns all cells; tests/sim_rising_bubble.cc:151): on `n` processes the surface tension is `n` times too large. -/
theorem C104_mixed_replicated_violated {S : Type*} (T : Partition n C ι) (N : C → P → ι → ℝ) (around : Q → List (C × P))
    (p : PhaseParams) (up : E) (constrained : ι → Bool) (σ : ℝ) (normal : C → P → E) (κ : C → P → ℝ)
    (earlier : List (List (VolCell C ι) × (DVec n ι E → Option (DVec n ι E)))) (cells : List (VolCell C ι))
    (surface : List (S × List (Q × ℝ))) (groups : Fin n → List (C × List (P × E)))
    (hg : ∀ r, Delivered (rpeInfo T around σ normal κ (submitted (fun _ _ => true) surface) r) (groups r))
    (v w : DVec n ι E)
    (h : forceRun T p up constrained (earlier ++ [(cells, fun u => some (mixedTension T N groups u))]) v = some w) (j : ι) :
    owned T w j = Spec.external constrained (Spec.weight p up cells)
      (fun j => n • Spec.surface N (fun q : Q × ℝ => around q.1) (fun c x q => forceMixed σ ⟨normal c x, κ c x, q.2⟩)
        (surface.flatMap fun s => s.2) j) j := by
  rw [C104_mixed_submitted T N around p up constrained σ normal κ earlier cells _ groups hg v w h j]
  unfold Spec.external Spec.surface
  rw [submitted_replicated]

/-! ### marching cubes -/

theorem marching_owned (T : Partition n C ι) (N : C → P → ι → ℝ) (σ : ℝ) (cells : List (C × List (P × SurfPoint E)))
    (u : DVec n ι E) (hu : Clean T u) (j : ι) :
    owned T (marchingTension T N σ cells u) j = owned T u j +
      Spec.surface N (fun q : C × P × SurfPoint E => [(q.1, q.2.1)]) (fun _ _ q => forceMarching σ q.2.2)
        (cells.flatMap fun c => c.2.map fun x => (c.1, x)) j := by
  unfold marchingTension
  rw [owned_compress]
  simp only [assembleCells_eq, Pi.add_apply]
  rw [Finset.sum_add_distrib, clean_sum T u hu]
  congr 1
  unfold Spec.pointForces Spec.surface
  simp only [sum_flatMap]
  rw [sum_split (fun c : C × List (P × SurfPoint E) => T.cellOwner c.1)]
  congr 1
  apply List.map_congr_left
  intro c _
  simp [List.map_map, Function.comp_def]

/-- **C104 (marching cubes).** On any number of processes, for every partition of the mesh and after any earlier time steps,
the external force is the weight of the fluids plus the surface tension of the interface in all cells of the mesh, each cell
counted once. -/
theorem C104_marching (T : Partition n C ι) (N : C → P → ι → ℝ) (p : PhaseParams) (up : E) (constrained : ι → Bool) (σ : ℝ)
    (earlier : List (List (VolCell C ι) × (DVec n ι E → Option (DVec n ι E)))) (cells : List (VolCell C ι))
    (cut : List (C × List (P × SurfPoint E))) (v w : DVec n ι E)
    (h : forceRun T p up constrained (earlier ++ [(cells, fun u => some (marchingTension T N σ cut u))]) v = some w) (j : ι) :
    owned T w j = Spec.external constrained (Spec.weight p up cells)
      (Spec.surface N (fun q : C × P × SurfPoint E => [(q.1, q.2.1)]) (fun _ _ q => forceMarching σ q.2.2)
        (cut.flatMap fun c => c.2.map fun x => (c.1, x))) j := by
  obtain ⟨u, hu⟩ := run_append T p up constrained earlier _ v w h
  refine step_owned T p up constrained _ cells _ (fun a b ha hab => ?_) u w hu j
  cases hab
  exact marching_owned T N σ cut a ha

end Proofs

/-! ## Non-vacuity -/

/-- Three cells in a row with the entries `0,1`, `1,2`, `2,3`; process 0 owns the first cell, process 1 the others. Each
process knows one layer of ghost cells and stores the entries of its own cells. -/
def exT : Partition 2 ℕ (Fin 4) where
  owner := fun i => if i ≤ 1 then 0 else 1
  cellOwner := fun c => if c = 0 then 0 else 1
  visible := fun r c => r = 1 || c ≤ 1
  stored := fun r i => if r = 0 then i ≤ 1 else 1 ≤ i
  dofs := fun c => if c = 0 then [0, 1] else if c = 1 then [1, 2] else if c = 2 then [2, 3] else []

/-- the same with vectors that also store the entries of ghost cells -/
def exT' : Partition 2 ℕ (Fin 4) := { exT with stored := fun _ _ => true }

/-- constant shape functions on the cells -/
noncomputable def exN (c : ℕ) (_ : Unit) (i : Fin 4) : ℝ := if i ∈ exT.dofs c then 1 / 2 else 0

example : Spec.GhostLayer exT := by
  intro c i h
  simp only [exT] at h ⊢
  split_ifs at h with h0 h1 h2 <;> simp only [List.mem_cons, List.not_mem_nil, or_false] at h
  · subst h0; rcases h with rfl | rfl <;> decide
  · subst h1; rcases h with rfl | rfl <;> decide
  · subst h2; rcases h with rfl | rfl <;> decide

example : Spec.Local exT exN := by
  intro c p i h; simp [exN, h]

/-- A surface point in the last cell: process 0 does not find it, process 1 does, and the step runs through (for the vectors
of the code). -/
example (v : DVec 2 (Fin 4) ℝ) : ∃ info : Fin 2 → List (Entry ℕ ℝ Unit),
    (∀ r, SortedFrom (frontInfo exT (fun _ : Unit => [(2, ())]) 3 [((), (⟨1, 2, 1⟩ : SurfPoint ℝ))] r) (info r)) ∧
    (forceRun exT ⟨1, 0, 1, 0, 9⟩ (1 : ℝ) (fun i => i = 0) [([], frontTension exT exN 7 info)] v).isSome := by
  refine ⟨![[], [⟨(), forceFrontTracking 3 ⟨1, 2, 1⟩, 2⟩]], ?_, ?_⟩
  · intro r
    fin_cases r
    · exact ⟨by simp [frontInfo, findCells, infoAll, surfaceForces, exT], by simp⟩
    · exact ⟨by simp [frontInfo, findCells, infoAll, surfaceForces, exT], by simp⟩
  · simp [forceRun, forceStep, frontTension, exT, List.finRange_succ]

/-- A surface point in the first cell: process 1 finds it in a ghost cell, and the step fails by `C104_front_fails`. -/
example (v : DVec 2 (Fin 4) ℝ) (info : Fin 2 → List (Entry ℕ ℝ Unit))
    (hi : ∀ r, SortedFrom (frontInfo exT (fun _ : Unit => [(0, ())]) 3 [((), (⟨1, 2, 1⟩ : SurfPoint ℝ))] r) (info r)) :
    forceRun exT ⟨1, 0, 1, 0, 9⟩ (1 : ℝ) (fun i => i = 0) [([], frontTension exT exN 7 info)] v = none :=
  C104_front_fails exT exN _ 7 _ _ _ 3 [] _ info hi v ((), ⟨1, 2, 1⟩) (by simp) (0, ()) (by simp) 1 (by decide) 0
    (by decide) (by decide)

/-- A surface point on the face between the processes, in cells 0 and 1, with vectors that store the ghost cells: both
processes find both cells, the step runs through, and entry 1 - owned by process 0 - receives both contributions once. -/
example (v : DVec 2 (Fin 4) ℝ) : ∃ (info : Fin 2 → List (Entry ℕ ℝ Unit)) (w : DVec 2 (Fin 4) ℝ),
    (∀ r, SortedFrom (frontInfo exT' (fun _ : Unit => [(0, ()), (1, ())]) 3 [((), (⟨1, 2, 1⟩ : SurfPoint ℝ))] r) (info r)) ∧
    forceRun exT' ⟨1, 0, 1, 0, 9⟩ (1 : ℝ) (fun i => i = 0) [([], frontTension exT' exN 7 info)] v = some w ∧
    owned exT' w 1 = -6 ∧ owned exT' w 0 = 0 ∧ owned exT' w 2 = -3 := by
  let info : Fin 2 → List (Entry ℕ ℝ Unit) := fun _ =>
    [⟨(), forceFrontTracking 3 ⟨1, 2, 1⟩, 0⟩, ⟨(), forceFrontTracking 3 ⟨1, 2, 1⟩, 1⟩]
  have hi : ∀ r, SortedFrom (frontInfo exT' (fun _ : Unit => [(0, ()), (1, ())]) 3 [((), (⟨1, 2, 1⟩ : SurfPoint ℝ))] r)
      (info r) := by
    intro r
    fin_cases r <;>
      exact ⟨by simp [info, frontInfo, findCells, infoAll, surfaceForces, exT', exT], by simp [info]⟩
  have hsome : (forceRun exT' ⟨1, 0, 1, 0, 9⟩ (1 : ℝ) (fun i => i = 0) [([], frontTension exT' exN 7 info)] v).isSome := by
    simp [forceRun, forceStep, frontTension, exT', info]
  obtain ⟨w, hw⟩ := Option.isSome_iff_exists.1 hsome
  have hg : Spec.GhostLayer exT' := by
    intro c i h
    simp only [exT', exT] at h ⊢
    split_ifs at h with h0 h1 h2 <;> simp only [List.mem_cons, List.not_mem_nil, or_false] at h
    · subst h0; rcases h with rfl | rfl <;> decide
    · subst h1; rcases h with rfl | rfl <;> decide
    · subst h2; rcases h with rfl | rfl <;> decide
  have key := C104_front_partial exT' hg exN (fun c p i h => by simp only [exN]; exact if_neg h)
    (fun _ : Unit => [(0, ()), (1, ())]) 7 (by simp) ⟨1, 0, 1, 0, 9⟩ (1 : ℝ) (fun i => i = 0) 3 [] []
    [((), (⟨1, 2, 1⟩ : SurfPoint ℝ))] info hi v w hw
  refine ⟨info, w, hi, hw, ?_, ?_, ?_⟩ <;> rw [key] <;>
    simp [Spec.external, Spec.weight, Spec.surface, forceFrontTracking, exN, exT] ; norm_num

/-- Mixed level set on two processes, a surface of two cells with one point each, both in the first cell of the background
mesh: with the distributed surface mesh entry 1 receives the force `1` (two points with surface element `1`, shape function
`1/2`), with the serial surface mesh `2`. -/
example (v w w' : DVec 2 (Fin 4) ℝ) (groups groups' : Fin 2 → List (ℕ × List (Unit × ℝ)))
    (hg : ∀ r, Delivered (rpeInfo exT (fun _ : ℕ => [(0, ())]) 1 (fun _ _ => (1 : ℝ)) (fun _ _ => 1)
      (submitted (fun r (s : ℕ) => (if s = 0 then 0 else 1 : Fin 2) = r) [(0, [(0, 1)]), (1, [(1, 1)])]) r) (groups r))
    (hg' : ∀ r, Delivered (rpeInfo exT (fun _ : ℕ => [(0, ())]) 1 (fun _ _ => (1 : ℝ)) (fun _ _ => 1)
      (submitted (fun _ (_ : ℕ) => true) [(0, [(0, 1)]), (1, [(1, 1)])]) r) (groups' r))
    (h : forceRun exT ⟨1, 0, 1, 0, 9⟩ (1 : ℝ) (fun _ => false) [([], fun u => some (mixedTension exT exN groups u))] v = some w)
    (h' : forceRun exT ⟨1, 0, 1, 0, 9⟩ (1 : ℝ) (fun _ => false) [([], fun u => some (mixedTension exT exN groups' u))] v =
      some w') : owned exT w 1 = 1 ∧ owned exT w' 1 = 2 := by
  constructor
  · rw [C104_mixed_distributed exT exN _ _ _ _ 1 _ _ [] [] _ _ groups hg v w h]
    simp [Spec.external, Spec.weight, Spec.surface, forceMixed, exN, exT]; norm_num
  · rw [C104_mixed_replicated_violated exT exN _ _ _ _ 1 _ _ [] [] _ groups' hg' v w' h']
    simp [Spec.external, Spec.weight, Spec.surface, forceMixed, exN, exT]; norm_num

/-- deliveries exist: one group per entry -/
example (info : List (Entry ℕ ℝ Unit)) : ∃ groups, Delivered info groups :=
  ⟨info.map fun e => (e.cell, [(e.point, e.weight)]), by
    unfold Delivered
    rw [List.flatMap_map]
    simp⟩

end Verif.Parallel.Surface
