import Mathlib.Data.Finset.Sort
import Mathlib.Algebra.BigOperators.Group.Finset.Basic
import Mathlib.Algebra.BigOperators.Group.Finset.Piecewise
import Mathlib.Algebra.Ring.Basic
import Mathlib.Algebra.Order.Ring.Rat
import Mathlib.Data.List.Basic
import Mathlib.Tactic.Linarith

/-!
# C130: what the algebraic multigrid is told about the unknowns
(source/navier_stokes_preconditioner.cc: `Precondition_LinML::initialize` 471-534, `get_nodal_points` 863-896, the calls in
`compute` 921-928 and 940-946, the constant modes 1397-1404)

ML gets two tables, both with one entry per locally owned unknown: coordinates (to repartition coarse levels) and the vectors of
the near null space. Both are indexed by the position of the unknown in the set of locally owned unknowns.
-/

namespace Verif.Precond.Amg

variable {K : Type*}

/-! ## Model -/

/-- A cell as seen by `get_nodal_points`, lines 878-885: `is_locally_owned()`, the `dofs_per_cell` unknowns of
`get_dof_indices`, and `fe_values.quadrature_point(i)[d]`, the image of the `i`-th support point of the element. -/
structure Cell (K : Type*) where
  here : Bool
  n : ℕ
  dof : ℕ → ℕ
  point : ℕ → ℕ → K

/-- `IndexSet::index_within_set` (deal.II): number of smaller elements. -/
def indexWithin (owned : Finset ℕ) (g : ℕ) : ℕ := (owned.filter (· < g)).card

/-- `coordinates[d][index] = v`, line 892. -/
def write (X : List (List K)) (d k : ℕ) (v : K) : List (List K) := X.modify d (·.set k v)

/-- The body of the loop over the unknowns of a cell, lines 886-893. -/
def unknown (owned : Finset ℕ) (dim : ℕ) (c : Cell K) (X : List (List K)) (i : ℕ) : List (List K) :=
  if c.dof i ∈ owned then
    let index := indexWithin owned (c.dof i)
    (List.range dim).foldl (fun X d => write X d index (c.point i d)) X
  else X

/-- The body of the loop over all active cells, lines 880-894. -/
def cell (owned : Finset ℕ) (dim : ℕ) (X : List (List K)) (c : Cell K) : List (List K) :=
  if c.here then (List.range c.n).foldl (unknown owned dim c) X else X

/-- `get_nodal_points`, lines 863-896. -/
def nodalPoints [Zero K] (owned : Finset ℕ) (dim : ℕ) (cells : List (Cell K)) : List (List K) :=
  cells.foldl (cell owned dim) (List.replicate dim (List.replicate owned.card 0))

/-- `Precondition_LinML::initialize`, lines 488 and 506-532: the vectors of the near null space given to ML, from the constant
modes (one list of flags per mode); `none`: nothing is given (ML then uses the vector of ones). `mySize` is
`domain_map.NumMyElements()`, `distributed_constant_modes` starts with zeros (Epetra). On a process without unknowns a dummy
pointer is given, which is the same as vectors without entries. -/
def nullSpace [Zero K] [One K] (mySize : ℕ) (modes : List (List Bool)) : Option (List (List K)) :=
  let dim := modes.length
  if 1 < dim then
    some ((List.range dim).foldl (fun N d =>
      (List.range mySize).foldl (fun N row => write N d row (if (modes[d]?.bind (·[row]?)).getD false then 1 else 0)) N)
      (List.replicate dim (List.replicate mySize 0)))
  else none

/-- `DoFTools::extract_constant_modes` (deal.II) for lines 1397-1404: for every component (the `dim` velocities, or one mode
for the pressure and two for the augmented pressure: continuous and discontinuous functions) the flags of the locally owned
unknowns of that component, in the order of the index set. -/
def constantModes (owned : Finset ℕ) (comps : ℕ) (comp : ℕ → ℕ) : List (List Bool) :=
  (List.range comps).map fun d => (owned.sort (· ≤ ·)).map fun g => decide (comp g = d)

/-! ## Specification -/

namespace Spec

/-- The table that lists, for every coordinate direction, the coordinates of the locally owned unknowns in ascending order. -/
def pointTable (owned : Finset ℕ) (dim : ℕ) (P : ℕ → ℕ → K) : List (List K) :=
  (List.range dim).map fun d => (owned.sort (· ≤ ·)).map fun g => P g d

/-- `P g` is the support point of unknown `g`, whatever cell it is looked up from (the mapping is continuous). -/
def SupportPoints (owned : Finset ℕ) (dim : ℕ) (cells : List (Cell K)) (P : ℕ → ℕ → K) : Prop :=
  ∀ c ∈ cells, c.here = true → ∀ i < c.n, c.dof i ∈ owned → ∀ d < dim, c.point i d = P (c.dof i) d

/-- Every locally owned unknown is on a locally owned cell (deal.II). -/
def Covered (owned : Finset ℕ) (cells : List (Cell K)) : Prop :=
  ∀ g ∈ owned, ∃ c ∈ cells, c.here = true ∧ ∃ i < c.n, c.dof i = g

end Spec

/-! ## Proofs -/

theorem foldl_inv {α β : Type*} (f : β → α → β) (I : β → Prop) (l : List α) (h : ∀ a ∈ l, ∀ b, I b → I (f b a)) (b : β)
    (hb : I b) : I (l.foldl f b) := by
  induction l generalizing b with
  | nil => exact hb
  | cons a l ih =>
    exact ih (fun x hx => h x (List.mem_cons_of_mem _ hx)) _ (h a List.mem_cons_self b hb)

/-- `I` is kept by all, `O` is kept by all under `I`, and some item establishes `O`. -/
theorem foldl_est {α β : Type*} (f : β → α → β) (I O : β → Prop) (l : List α) (hI : ∀ a ∈ l, ∀ b, I b → I (f b a))
    (hO : ∀ a ∈ l, ∀ b, I b → O b → O (f b a)) (a : α) (ha : a ∈ l) (he : ∀ b, I b → O (f b a)) (b : β) (hb : I b) :
    O (l.foldl f b) := by
  induction l generalizing b with
  | nil => cases ha
  | cons x l ih =>
    have h1 : ∀ y ∈ l, ∀ b, I b → I (f b y) := fun y hy => hI y (List.mem_cons_of_mem _ hy)
    have h2 : ∀ y ∈ l, ∀ b, I b → O b → O (f b y) := fun y hy => hO y (List.mem_cons_of_mem _ hy)
    rcases List.mem_cons.1 ha with rfl | hl
    · exact (foldl_inv f (fun b => I b ∧ O b) l (fun y hy b hb => ⟨h1 y hy b hb.1, h2 y hy b hb.1 hb.2⟩) _
        ⟨hI a List.mem_cons_self b hb, he b hb⟩).2
    · exact ih h1 h2 hl _ (hI x List.mem_cons_self b hb)

/-- Entry of a table. -/
def entry (X : List (List K)) (d k : ℕ) : Option K := X[d]?.bind (·[k]?)

/-- A table of `m` rows of length `n`. -/
def Shape (m n : ℕ) (X : List (List K)) : Prop := X.length = m ∧ ∀ (d : ℕ) (r : List K), X[d]? = some r → r.length = n

theorem write_shape {m n : ℕ} {X : List (List K)} (h : Shape m n X) (d k : ℕ) (v : K) : Shape m n (write X d k v) := by
  refine ⟨by simp [write, h.1], fun d' r hr => ?_⟩
  unfold write at hr
  rw [List.getElem?_modify] at hr
  rcases hx : X[d']? with _ | r0
  · rw [hx] at hr; simp at hr
  · rw [hx] at hr
    have := h.2 d' r0 hx
    by_cases hd : d = d'
    · simp [hd] at hr; rw [← hr]; simpa using this
    · simp [hd] at hr; rw [← hr]; exact this

theorem entry_write {m n : ℕ} {X : List (List K)} (h : Shape m n X) {d k : ℕ} (hd : d < m) (hk : k < n) (v : K) (d' k' : ℕ) :
    entry (write X d k v) d' k' = if d = d' ∧ k = k' then some v else entry X d' k' := by
  unfold entry write
  rw [List.getElem?_modify]
  by_cases e : d = d'
  · subst e
    have hl : d < X.length := by rw [h.1]; exact hd
    have hx : X[d]? = some X[d] := List.getElem?_eq_getElem hl
    have hn := h.2 d _ hx
    rw [hx]
    by_cases e2 : k = k'
    · subst e2
      simp [hn, hk]
    · simp [e2]
  · simp [e]

theorem indexWithin_lt {owned : Finset ℕ} {g : ℕ} (h : g ∈ owned) : indexWithin owned g < owned.card :=
  Finset.card_lt_card ⟨Finset.filter_subset _ _, fun hs => by have := hs h; simp at this⟩

theorem indexWithin_strict {owned : Finset ℕ} {g g' : ℕ} (h : g ∈ owned) (hl : g < g') :
    indexWithin owned g < indexWithin owned g' := by
  apply Finset.card_lt_card
  refine ⟨fun x hx => ?_, fun hs => ?_⟩
  · rw [Finset.mem_filter] at hx ⊢; exact ⟨hx.1, lt_trans hx.2 hl⟩
  · have := hs (Finset.mem_filter.2 ⟨h, hl⟩)
    simp at this

theorem indexWithin_inj {owned : Finset ℕ} {g g' : ℕ} (h : g ∈ owned) (h' : g' ∈ owned)
    (e : indexWithin owned g = indexWithin owned g') : g = g' := by
  rcases lt_trichotomy g g' with l | l | l
  · exact absurd e (ne_of_lt (indexWithin_strict h l))
  · exact l
  · exact absurd e.symm (ne_of_lt (indexWithin_strict h' l))

/-- The `k`-th smallest element has `k` smaller ones. -/
theorem indexWithin_sort {owned : Finset ℕ} {k : ℕ} (hk : k < (owned.sort (· ≤ ·)).length) :
    indexWithin owned (owned.sort (· ≤ ·))[k] = k := by
  have hs : (owned.sort (· ≤ ·)).Pairwise (· < ·) := by
    exact Finset.sortedLT_sort owned |>.pairwise
  have hmem : ∀ i (hi : i < (owned.sort (· ≤ ·)).length), (owned.sort (· ≤ ·))[i] ∈ owned := fun i hi =>
    (Finset.mem_sort (· ≤ ·)).1 (List.getElem_mem hi)
  have key : ∀ i (hi : i < (owned.sort (· ≤ ·)).length), i ≤ indexWithin owned (owned.sort (· ≤ ·))[i] := by
    intro i
    induction i with
    | zero => intro hi; exact Nat.zero_le _
    | succ i ih =>
      intro hi
      have h1 := ih (by omega)
      have h2 : (owned.sort (· ≤ ·))[i] < (owned.sort (· ≤ ·))[i+1] :=
        List.pairwise_iff_getElem.1 hs i (i+1) (by omega) hi (by omega)
      have := indexWithin_strict (hmem i (by omega)) h2
      omega
  have key2 : ∀ j i (hi : i < (owned.sort (· ≤ ·)).length), i + j + 1 = (owned.sort (· ≤ ·)).length →
      indexWithin owned (owned.sort (· ≤ ·))[i] ≤ i := by
    intro j
    induction j with
    | zero =>
      intro i hi e
      have := indexWithin_lt (hmem i hi)
      rw [Finset.length_sort] at e
      omega
    | succ j ih =>
      intro i hi e
      have h1 := ih (i+1) (by omega) (by omega)
      have h2 : (owned.sort (· ≤ ·))[i] < (owned.sort (· ≤ ·))[i+1] :=
        List.pairwise_iff_getElem.1 hs i (i+1) (by omega) (by omega) (by omega)
      have := indexWithin_strict (hmem i (by omega)) h2
      omega
  exact le_antisymm (key2 ((owned.sort (· ≤ ·)).length - 1 - k) k hk (by omega)) (key k hk)

theorem shape_replicate (m n : ℕ) (v : K) : Shape m n (List.replicate m (List.replicate n v)) := by
  refine ⟨by simp, fun d r hr => ?_⟩
  rw [List.getElem?_replicate] at hr
  split_ifs at hr
  · cases hr; simp

/-- A table is determined by its shape and entries. -/
theorem table_eq {m n : ℕ} {X Y : List (List K)} (hX : Shape m n X) (hY : Shape m n Y)
    (h : ∀ d < m, ∀ k < n, entry X d k = entry Y d k) : X = Y := by
  apply List.ext_getElem (by rw [hX.1, hY.1])
  intro d h1 h2
  have e1 : X[d]? = some X[d] := List.getElem?_eq_getElem h1
  have e2 : Y[d]? = some Y[d] := List.getElem?_eq_getElem h2
  have l1 := hX.2 d _ e1
  have l2 := hY.2 d _ e2
  apply List.ext_getElem (by rw [l1, l2])
  intro k k1 k2
  have := h d (by rw [← hX.1]; exact h1) k (by rw [← l1]; exact k1)
  unfold entry at this
  rw [e1, e2] at this
  simpa [List.getElem?_eq_getElem k1, List.getElem?_eq_getElem k2] using this

theorem unknown_shape {owned : Finset ℕ} {dim : ℕ} (c : Cell K) (i : ℕ) {X : List (List K)} (h : Shape dim owned.card X) :
    Shape dim owned.card (unknown owned dim c X i) := by
  unfold unknown
  split_ifs
  · exact foldl_inv _ (Shape dim owned.card) _ (fun d _ X h => write_shape h _ _ _) _ h
  · exact h

theorem cell_shape {owned : Finset ℕ} {dim : ℕ} (c : Cell K) {X : List (List K)} (h : Shape dim owned.card X) :
    Shape dim owned.card (cell owned dim X c) := by
  unfold cell
  split_ifs
  · exact foldl_inv _ (Shape dim owned.card) _ (fun i _ X h => unknown_shape c i h) _ h
  · exact h

theorem unknown_keeps {owned : Finset ℕ} {dim : ℕ} {P : ℕ → ℕ → K} {c : Cell K} {i : ℕ}
    (hp : c.dof i ∈ owned → ∀ d < dim, c.point i d = P (c.dof i) d) {g d : ℕ} (hg : g ∈ owned)
    {X : List (List K)} (h : Shape dim owned.card X) (ho : entry X d (indexWithin owned g) = some (P g d)) :
    entry (unknown owned dim c X i) d (indexWithin owned g) = some (P g d) := by
  unfold unknown
  split_ifs with hm
  · refine (foldl_inv _ (fun X => Shape dim owned.card X ∧ entry X d (indexWithin owned g) = some (P g d)) _ ?_ _ ⟨h, ho⟩).2
    rintro d' hd' X ⟨h, ho⟩
    have hd' := List.mem_range.1 hd'
    refine ⟨write_shape h _ _ _, ?_⟩
    rw [entry_write h hd' (indexWithin_lt hm)]
    split_ifs with e
    · obtain ⟨e1, e2⟩ := e
      rw [hp hm d' hd', indexWithin_inj hm hg e2, e1]
    · exact ho
  · exact ho

theorem unknown_sets {owned : Finset ℕ} {dim : ℕ} {P : ℕ → ℕ → K} {c : Cell K} {i : ℕ} (hm : c.dof i ∈ owned)
    (hp : ∀ d < dim, c.point i d = P (c.dof i) d) {d : ℕ} (hd : d < dim)
    {X : List (List K)} (h : Shape dim owned.card X) :
    entry (unknown owned dim c X i) d (indexWithin owned (c.dof i)) = some (P (c.dof i) d) := by
  unfold unknown
  rw [if_pos hm]
  refine foldl_est _ (Shape dim owned.card) (fun X => entry X d (indexWithin owned (c.dof i)) = some (P (c.dof i) d)) _
    (fun d _ X h => write_shape h _ _ _) ?_ d (List.mem_range.2 hd) ?_ _ h
  · intro d' hd' X h ho
    have hd' := List.mem_range.1 hd'
    rw [entry_write h hd' (indexWithin_lt hm)]
    split_ifs with e
    · rw [hp d' hd', e.1]
    · exact ho
  · intro X h
    rw [entry_write h hd (indexWithin_lt hm), if_pos ⟨rfl, rfl⟩, hp d hd]

theorem pointTable_shape (owned : Finset ℕ) (dim : ℕ) (P : ℕ → ℕ → K) :
    Shape dim owned.card (Spec.pointTable owned dim P) := by
  refine ⟨by simp [Spec.pointTable], fun d r hr => ?_⟩
  unfold Spec.pointTable at hr
  rw [List.getElem?_map] at hr
  rcases h : (List.range dim)[d]? with _ | x
  · rw [h] at hr; simp at hr
  · rw [h] at hr; simp at hr; rw [← hr]; simp

theorem pointTable_entry (owned : Finset ℕ) (dim : ℕ) (P : ℕ → ℕ → K) {d k : ℕ} (hd : d < dim)
    (hk : k < (owned.sort (· ≤ ·)).length) :
    entry (Spec.pointTable owned dim P) d k = some (P (owned.sort (· ≤ ·))[k] d) := by
  unfold entry Spec.pointTable
  simp [List.getElem?_range hd, List.getElem?_eq_getElem hk]

/-- **C130 (coordinates).** For every set of locally owned unknowns, every list of cells in any order, owned or not, with
unknowns shared between cells, the multigrid gets exactly the coordinates of the support points of its unknowns: one row per
direction, one entry per locally owned unknown, in ascending order of the unknowns. -/
theorem C130_coordinates [Zero K] (owned : Finset ℕ) (dim : ℕ) (cells : List (Cell K)) (P : ℕ → ℕ → K)
    (hP : Spec.SupportPoints owned dim cells P) (hc : Spec.Covered owned cells) :
    nodalPoints owned dim cells = Spec.pointTable owned dim P := by
  have h0 := shape_replicate dim owned.card (0 : K)
  have hsh : Shape dim owned.card (nodalPoints owned dim cells) :=
    foldl_inv _ (Shape dim owned.card) _ (fun c _ X h => cell_shape c h) _ h0
  refine table_eq hsh (pointTable_shape owned dim P) fun d hd k hk => ?_
  have hk' : k < (owned.sort (· ≤ ·)).length := by rw [Finset.length_sort]; exact hk
  rw [pointTable_entry owned dim P hd hk']
  have hg : (owned.sort (· ≤ ·))[k] ∈ owned := (Finset.mem_sort (· ≤ ·)).1 (List.getElem_mem hk')
  have hi := indexWithin_sort hk'
  generalize (owned.sort (· ≤ ·))[k] = g at hg hi
  rw [← hi]
  obtain ⟨c, hcm, hh, i, hi', hgi⟩ := hc g hg
  subst hgi
  refine foldl_est (cell owned dim) (Shape dim owned.card)
    (fun X => entry X d (indexWithin owned (c.dof i)) = some (P (c.dof i) d)) cells (fun c _ X h => cell_shape c h) ?_ c hcm ?_ _ h0
  · intro c' hc' X h ho
    unfold cell
    split_ifs with hh'
    · refine (foldl_inv _ (fun X => Shape dim owned.card X ∧ entry X d (indexWithin owned (c.dof i)) = some (P (c.dof i) d)) _
        ?_ _ ⟨h, ho⟩).2
      rintro j hj X ⟨h, ho⟩
      exact ⟨unknown_shape c' j h, unknown_keeps (fun hm => hP c' hc' hh' j (List.mem_range.1 hj) hm) hg h ho⟩
    · exact ho
  · intro X h
    unfold cell
    rw [if_pos hh]
    refine foldl_est (unknown owned dim c) (Shape dim owned.card)
      (fun X => entry X d (indexWithin owned (c.dof i)) = some (P (c.dof i) d)) _ (fun j _ X h => unknown_shape c j h) ?_ i
      (List.mem_range.2 hi') ?_ _ h
    · intro j hj X h ho
      exact unknown_keeps (fun hm => hP c hcm hh j (List.mem_range.1 hj) hm) hg h ho
    · intro X h
      exact unknown_sets hg (hP c hcm hh i hi' hg) hd h

theorem nullSpace_shape [Zero K] [One K] {mySize : ℕ} {modes : List (List Bool)} {N : List (List K)}
    (h : nullSpace mySize modes = some N) : Shape modes.length mySize N := by
  unfold nullSpace at h
  dsimp only at h
  split_ifs at h
  cases h
  exact foldl_inv _ (Shape modes.length mySize) _ (fun d _ N h =>
    foldl_inv _ (Shape modes.length mySize) _ (fun row _ N h => write_shape h _ _ _) _ h) _ (shape_replicate _ _ _)

theorem nullSpace_entry [Zero K] [One K] {mySize : ℕ} {modes : List (List Bool)} {N : List (List K)}
    (h : nullSpace mySize modes = some N) {d k : ℕ} (hd : d < modes.length) (hk : k < mySize) :
    entry N d k = some (if (modes[d]?.bind (·[k]?)).getD false then 1 else 0) := by
  unfold nullSpace at h
  dsimp only at h
  split_ifs at h
  cases h
  have hin : ∀ (d' : ℕ) (N : List (List K)), Shape modes.length mySize N → Shape modes.length mySize
      ((List.range mySize).foldl (fun N row => write N d' row (if (modes[d']?.bind (·[row]?)).getD false then 1 else 0)) N) :=
    fun d' N h => foldl_inv _ (Shape modes.length mySize) _ (fun row _ N h => write_shape h _ _ _) _ h
  refine foldl_est _ (Shape modes.length mySize)
    (fun N => entry N d k = some (if (modes[d]?.bind (·[k]?)).getD false then 1 else 0)) _ (fun d' _ N h => hin d' N h) ?_ d
    (List.mem_range.2 hd) ?_ _ (shape_replicate _ _ _)
  · intro d' hd' N h ho
    refine (foldl_inv _ (fun N => Shape modes.length mySize N ∧
      entry N d k = some (if (modes[d]?.bind (·[k]?)).getD false then 1 else 0)) _ ?_ _ ⟨h, ho⟩).2
    rintro row hr N ⟨h, ho⟩
    refine ⟨write_shape h _ _ _, ?_⟩
    rw [entry_write h (List.mem_range.1 hd') (List.mem_range.1 hr)]
    by_cases e : d' = d ∧ row = k
    · rw [if_pos e, e.1, e.2]
    · rw [if_neg e]; exact ho
  · intro N h
    refine foldl_est _ (Shape modes.length mySize)
      (fun N => entry N d k = some (if (modes[d]?.bind (·[k]?)).getD false then 1 else 0)) _
      (fun row _ N h => write_shape h _ _ _) ?_ k (List.mem_range.2 hk) ?_ _ h
    · intro row hr N h ho
      rw [entry_write h hd (List.mem_range.1 hr)]
      by_cases e : d = d ∧ row = k
      · rw [if_pos e, e.2]
      · rw [if_neg e]; exact ho
    · intro N h
      rw [entry_write h hd hk, if_pos ⟨rfl, rfl⟩]

theorem constantModes_entry (owned : Finset ℕ) (comps : ℕ) (comp : ℕ → ℕ) {d k : ℕ} (hd : d < comps)
    (hk : k < (owned.sort (· ≤ ·)).length) :
    ((constantModes owned comps comp)[d]?.bind (·[k]?)).getD false = decide (comp (owned.sort (· ≤ ·))[k] = d) := by
  unfold constantModes
  simp [List.getElem?_range hd, List.getElem?_eq_getElem hk]

open Finset in
/-- **C130 (near null space).** If there are at least two components (velocity in two or three dimensions, augmented pressure),
the multigrid gets one vector per component, and every field that is constant in each component — value `a d` in component
`d` — is the combination `∑_d a_d n_d` of these vectors, on every process. -/
theorem C130_null_space [CommRing K] (owned : Finset ℕ) (comps : ℕ) (comp : ℕ → ℕ) (h2 : 1 < comps)
    (hcomp : ∀ g ∈ owned, comp g < comps) :
    ∃ N : List (List K), nullSpace owned.card (constantModes owned comps comp) = some N ∧ Shape comps owned.card N ∧
      ∀ a : ℕ → K, ∀ g ∈ owned, ∑ d ∈ range comps, a d * (entry N d (indexWithin owned g)).getD 0 = a (comp g) := by
  have hl : (constantModes owned comps comp).length = comps := by simp [constantModes]
  obtain ⟨N, hN⟩ : ∃ N, nullSpace (K := K) owned.card (constantModes owned comps comp) = some N := by
    unfold nullSpace
    dsimp only
    rw [hl, if_pos h2]
    exact ⟨_, rfl⟩
  refine ⟨N, hN, by have := nullSpace_shape hN; rwa [hl] at this, fun a g hg => ?_⟩
  have hgs : g ∈ owned.sort (· ≤ ·) := (Finset.mem_sort (· ≤ ·)).2 hg
  obtain ⟨k, hk, hkg⟩ := List.mem_iff_getElem.1 hgs
  have hi := indexWithin_sort hk
  rw [hkg] at hi
  rw [hi]
  have : ∀ d ∈ range comps, a d * (entry N d k).getD 0 = if comp g = d then a d else 0 := by
    intro d hd
    have hd := mem_range.1 hd
    rw [nullSpace_entry hN (by rw [hl]; exact hd) (by rw [← Finset.length_sort (· ≤ ·)]; exact hk),
      constantModes_entry owned comps comp hd hk, hkg]
    by_cases e : comp g = d <;> simp [e]
  rw [sum_congr rfl this, sum_ite_eq, if_pos (mem_range.2 (hcomp g hg))]

/-- **C130 (scalar unknowns).** With one constant mode (pressure of Taylor-Hood elements) nothing is given: ML uses the vector
of ones, which is the constant pressure. -/
theorem C130_null_space_scalar [Zero K] [One K] (owned : Finset ℕ) (comp : ℕ → ℕ) (n : ℕ) :
    nullSpace (K := K) n (constantModes owned 1 comp) = none := by
  unfold nullSpace constantModes
  simp

/-! ## Examples -/

/-- Two owned cells on the line share unknown 4 (of the owned 3, 4, 7); the ghost cell has unknown 9 and 7. -/
def exCells : List (Cell ℚ) :=
  [⟨false, 2, fun i => [9, 7][i]!, fun i _ => [5, 3][i]!⟩,
   ⟨true, 2, fun i => [7, 4][i]!, fun i _ => [3, 2][i]!⟩,
   ⟨true, 2, fun i => [4, 3][i]!, fun i _ => [2, 1][i]!⟩]

example : Spec.Covered ({3, 4, 7} : Finset ℕ) exCells := by
  intro g hg
  simp only [Finset.mem_insert, Finset.mem_singleton] at hg
  rcases hg with rfl | rfl | rfl
  · exact ⟨_, List.mem_of_getElem? (i := 2) rfl, rfl, 1, by decide, rfl⟩
  · exact ⟨_, List.mem_of_getElem? (i := 2) rfl, rfl, 0, by decide, rfl⟩
  · exact ⟨_, List.mem_of_getElem? (i := 1) rfl, rfl, 0, by decide, rfl⟩

example : Spec.SupportPoints ({3, 4, 7} : Finset ℕ) 1 exCells (fun g _ => if g = 3 then 1 else if g = 4 then 2 else 3) := by
  intro c hc hh i hi _ d _
  simp only [exCells, List.mem_cons, List.not_mem_nil, or_false] at hc
  rcases hc with rfl | rfl | rfl
  · simp at hh
  · have : i = 0 ∨ i = 1 := by have : i < 2 := hi; omega
    rcases this with rfl | rfl <;> simp
  · have : i = 0 ∨ i = 1 := by have : i < 2 := hi; omega
    rcases this with rfl | rfl <;> simp

example : nodalPoints ({3, 4, 7} : Finset ℕ) 1 exCells = [[1, 2, 3]] := by decide +kernel

/-- Unknowns 3 and 7 are the first velocity component, 4 the second. -/
example : nullSpace (K := ℚ) 3 [[true, false, true], [false, true, false]] = some [[1, 0, 1], [0, 1, 0]] := by decide +kernel

end Verif.Precond.Amg
