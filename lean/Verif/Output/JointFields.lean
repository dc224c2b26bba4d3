import Mathlib.Analysis.SpecialFunctions.Log.Basic
import Mathlib.Analysis.Real.Sqrt
import Mathlib.Algebra.BigOperators.Fin
import Mathlib.Algebra.Order.Monoid.Unbundled.WithTop
import Mathlib.Data.List.GetD
import Mathlib.Tactic.Linarith
import Mathlib.Tactic.NormNum
import Mathlib.Tactic.FieldSimp
import Mathlib.Tactic.Ring

/-!
# C99: the fields in the graphical output of the two-phase solvers
(source/level_set_base.cc:452-694, source/two_phase_base.cc:550-592)

`LevelSetBaseAlgorithm::output_solution` copies velocity, pressure and the level set fields into one vector on a joint
finite element space and hands it to `DataOut` with a list of names.
-/

namespace Verif.Output.Joint

/-! ## Model -/

/-- `joint_fe.system_to_base_index(i)` = ((base, mult), idx): base element, copy of the base element, number of the shape
function within the base element (level_set_base.cc:527-529) -/
structure Loc where
  base : ℕ
  mult : ℕ
  idx : ℕ
  deriving DecidableEq

/-- The joint element `FESystem(fe_u, 1, fe_p, 1, fe, 4, fe, dim)` (level_set_base.cc:471-478) with its number of shape
functions, the table `system_to_base_index` and the sizes of the local index vectors of the three solvers
(level_set_base.cc:499-505). -/
structure JointFE where
  dim : ℕ
  n : ℕ
  loc : ℕ → Loc
  nVel : ℕ
  nPre : ℕ
  nLs : ℕ

/-- One active cell: `subdomain_id()` and the four results of `get_dof_indices` (level_set_base.cc:516-524) -/
structure Cell where
  owner : ℕ
  joint : ℕ → ℕ
  vel : ℕ → ℕ
  pre : ℕ → ℕ
  ls : ℕ → ℕ

/-- The vectors that are read: `navier_stokes.solution.block(0)`, `.block(1)`, `heaviside`, `solution.block(0)`,
`solution.block(1)`, `normal_vector_field` -/
structure Fields (V : Type*) where
  u : ℕ → V
  p : ℕ → V
  heaviside : ℕ → V
  phi : ℕ → V
  kappa : ℕ → V
  normal : ℕ → ℕ → V

set_option linter.unusedSectionVars false

variable {V : Type*} [Zero V] [NatCast V]

/-- body of the loop over the shape functions, level_set_base.cc:526-582. `view` are the vectors as seen by this rank,
`owned` is `joint_dof_handler.locally_owned_dofs().is_element` -/
def writeDof (fe : JointFE) (view : Fields V) (owned : ℕ → Bool) (c : Cell) (x : ℕ → V) (i : ℕ) : ℕ → V :=
  if owned (c.joint i) = false then x
  else
    let index := (fe.loc i).idx
    if (fe.loc i).base = 0 then
      if (fe.loc i).mult = 0 then Function.update x (c.joint i) (view.u (c.vel index)) else x
    else if (fe.loc i).base = 1 then Function.update x (c.joint i) (view.p (c.pre index))
    else if (fe.loc i).base = 2 then
      let cur := index % fe.nLs
      if (fe.loc i).mult = 0 then Function.update x (c.joint i) (view.heaviside (c.ls cur))
      else if (fe.loc i).mult = 1 then Function.update x (c.joint i) (view.phi (c.ls cur))
      else if (fe.loc i).mult = 2 then Function.update x (c.joint i) (view.kappa (c.ls cur))
      else if (fe.loc i).mult = 3 then Function.update x (c.joint i) (c.owner : V)
      else x
    else if (fe.loc i).base = 3 then
      let cur := index % fe.nLs
      Function.update x (c.joint i) (view.normal (fe.loc i).mult (c.ls cur))
    else x

/-- loop over the shape functions of one cell, level_set_base.cc:526-582 -/
def writeCell (fe : JointFE) (view : Fields V) (owned : ℕ → Bool) (x : ℕ → V) (c : Cell) : ℕ → V :=
  (List.range fe.n).foldl (writeDof fe view owned c) x

/-- loop over the active cells on one rank, `joint_solution` starts at zero, level_set_base.cc:488-584 -/
def rankVector (fe : JointFE) (view : Fields V) (owned : ℕ → Bool) (cells : List Cell) (rank : ℕ) : ℕ → V :=
  cells.foldl (fun x c => if c.owner = rank then writeCell fe view owned x c else x) (fun _ => 0)

/-- The distributed vector after `update_ghost_values` (level_set_base.cc:586): the value of a degree of freedom is the
one stored on the rank that owns it. -/
def jointSolution (fe : JointFE) (view : ℕ → Fields V) (ownerJ : ℕ → ℕ) (cells : List Cell) : ℕ → V :=
  fun d => rankVector fe (view (ownerJ d)) (fun e => decide (ownerJ e = ownerJ d)) cells (ownerJ d) d

/-- `joint_solution_names`, level_set_base.cc:588-600; `curvature_name` is set in level_set_base.cc:139 -/
def names (dim : ℕ) : List String :=
  ((((List.replicate dim "velocity" ++ ["pressure"]) ++ ["heaviside"]) ++ ["level_set"]) ++ ["curvature"]) ++ ["owner"]
    ++ (List.range dim).map fun _ => "normal_vector"

/-- `data_component_interpretation`, level_set_base.cc:664-672; true = component_is_part_of_vector -/
def interpretation (dim : ℕ) : List Bool :=
  let v := List.replicate (dim + 5 + dim) false
  let v := (List.range dim).foldl (fun v i => v.set i true) v
  (List.range' (dim + 5) dim).foldl (fun v i => v.set i true) v

/-- The vector component of the joint element a shape function belongs to, in the order of the base elements and their
copies (deal.II's `FESystem::system_to_component_index`); `velComp` is the component within the velocity element. -/
def component (fe : JointFE) (velComp : ℕ → ℕ) (l : Loc) : ℕ :=
  match l.base with
  | 0 => velComp l.idx
  | 1 => fe.dim
  | 2 => fe.dim + 1 + l.mult
  | _ => fe.dim + 5 + l.mult

/-- `n_patches`, level_set_base.cc:683-686 and two_phase_base.cc:579-582 -/
def nPatches (velocityDegree subdivisions nSubdivisions : ℕ) : ℕ :=
  if nSubdivisions = 0 then min velocityDegree subdivisions else nSubdivisions

/-! ### Refinement indicators in the output -/

/-- `std::log` of a nonnegative number, with `log 0 = -infinity` -/
noncomputable def logB (x : ℝ) : WithBot ℝ := if x ≤ 0 then ⊥ else (Real.log x : ℝ)

/-- `Tensor<1,dim>::norm` -/
noncomputable def norm {dim : ℕ} (g : Fin dim → ℝ) : ℝ := Real.sqrt (∑ d, g d * g d)

/-- What the indicators use of a cell: the normal vector field (= level set gradient) in the points of the
quadrature formula, the level set and the velocity in the first point -/
structure Probe (dim : ℕ) where
  grads : List (Fin dim → ℝ)
  ls0 : ℝ
  u0 : Fin dim → ℝ

/-- `distance` after the loop and the logarithm, level_set_base.cc:639-648 (the same in 383-392) -/
noncomputable def distance {dim : ℕ} (eps : ℝ) (c : Probe dim) : WithBot ℝ :=
  logB (c.grads.foldl (fun m g => max m (norm g)) 0 * eps)

/-- `ls_gradient` after the loop: the one of the last point -/
def lastGrad {dim : ℕ} (c : Probe dim) : Fin dim → ℝ := c.grads.getLastD 0

/-- `direction`, level_set_base.cc:650-653 with `factor` = 20 (395-397 with `factor` = 4). `none` is NaN, the result of
0/0 -/
noncomputable def direction {dim : ℕ} (factor dt eps : ℝ) (c : Probe dim) : Option ℝ :=
  if norm (lastGrad c) = 0 then none
  else some (factor * dt * (∑ d, lastGrad c d * c.u0 d) / norm (lastGrad c) / eps)

/-- `mod_distance`, level_set_base.cc:654 (398) -/
noncomputable def modDistance {dim : ℕ} (factor dt eps : ℝ) (c : Probe dim) : Option (WithBot ℝ) :=
  (direction factor dt eps c).map fun dir => distance eps c + ((dir * c.ls0 : ℝ) : WithBot ℝ)

/-- the comparison `x > a`; false for NaN -/
noncomputable def gt (x : Option (WithBot ℝ)) (a : ℝ) : Prop := ∃ y, x = some y ∧ (a : WithBot ℝ) < y

/-- the comparison `x < a`; false for NaN -/
noncomputable def lt (x : Option (WithBot ℝ)) (a : ℝ) : Prop := ∃ y, x = some y ∧ y < (a : WithBot ℝ)

open Classical in
/-- `Standard_refine`, level_set_base.cc:656 -/
noncomputable def standardRefine {dim : ℕ} (eps : ℝ) (c : Probe dim) : ℝ :=
  if gt (some (distance eps c)) (-7) then 1 else 0

open Classical in
/-- `Biased_refine`, level_set_base.cc:657 -/
noncomputable def biasedRefine {dim : ℕ} (dt eps : ℝ) (c : Probe dim) : ℝ :=
  if gt (modDistance 20 dt eps c) (-7) ∨ gt (some (distance eps c)) (-4) then 1 else 0

/-- `Biased_refine_direction`, level_set_base.cc:658 -/
noncomputable def biasedDirection {dim : ℕ} (dt eps : ℝ) (c : Probe dim) : Option ℝ := direction 20 dt eps c

/-- `refine_cell` of `mark_cells_for_refinement`, level_set_base.cc:394-401 -/
noncomputable def markRefine {dim : ℕ} (dt eps : ℝ) (level upper : ℤ) (c : Probe dim) : Prop :=
  level < upper ∧ (gt (modDistance 4 dt eps c) (-7) ∨ gt (some (distance eps c)) (-4))

/-- `set_coarsen_flag` of `mark_cells_for_refinement`, level_set_base.cc:403-407 -/
noncomputable def markCoarsen {dim : ℕ} (dt eps : ℝ) (level upper lower : ℤ) (c : Probe dim) : Prop :=
  ¬ markRefine dt eps level upper c ∧ level > lower ∧
    (lt (modDistance 4 dt eps c) (-8) ∨ lt (some (distance eps c)) (-5))

/-! ## Specification -/

namespace Spec

/-- the degree of freedom of the solver's own numbering that a shape function of the joint element stands for -/
def baseDof (c : Cell) (l : Loc) : ℕ :=
  match l.base with
  | 0 => c.vel l.idx
  | 1 => c.pre l.idx
  | _ => c.ls l.idx

/-- the solver a base element belongs to: 0 velocity, 1 pressure, 2 level set -/
def kind (base : ℕ) : ℕ := min base 2

/-- What deal.II guarantees of the joint element and its numbering on a (distributed) mesh: the table has valid entries;
a joint degree of freedom is one pair of a copy of a base element and a degree of freedom of the solver for that base
element; ownership on the ranks is decided in the same way in all numberings; and an owned degree of freedom sits
on some owned cell. -/
structure Conforming (fe : JointFE) (cells : List Cell) (ownerJ : ℕ → ℕ) (ownerB : ℕ → ℕ → ℕ)
    (num : ℕ → ℕ → ℕ → ℕ) : Prop where
  valid : ∀ i < fe.n, ((fe.loc i).base = 0 ∧ (fe.loc i).mult = 0 ∧ (fe.loc i).idx < fe.nVel) ∨
    ((fe.loc i).base = 1 ∧ (fe.loc i).mult = 0 ∧ (fe.loc i).idx < fe.nPre) ∨
    ((fe.loc i).base = 2 ∧ (fe.loc i).mult < 4 ∧ (fe.loc i).idx < fe.nLs) ∨
    ((fe.loc i).base = 3 ∧ (fe.loc i).mult < fe.dim ∧ (fe.loc i).idx < fe.nLs)
  injective : ∀ b m d b' m' d', num b m d = num b' m' d' → b = b' ∧ m = m' ∧ d = d'
  joint : ∀ c ∈ cells, ∀ i < fe.n, c.joint i = num (fe.loc i).base (fe.loc i).mult (baseDof c (fe.loc i))
  sameOwner : ∀ b m d, ownerJ (num b m d) = ownerB (kind b) d
  ownedCell : ∀ c ∈ cells, ∀ i < fe.n, ∃ c' ∈ cells, c'.owner = ownerJ (c.joint i) ∧
    ∃ j < fe.n, c'.joint j = c.joint i

/-- Every rank holds the correct values of the entries it owns; nothing is assumed about ghost entries. -/
structure OwnedCorrect (view : ℕ → Fields V) (glob : Fields V) (ownerB : ℕ → ℕ → ℕ) : Prop where
  u : ∀ r d, ownerB 0 d = r → (view r).u d = glob.u d
  p : ∀ r d, ownerB 1 d = r → (view r).p d = glob.p d
  heaviside : ∀ r d, ownerB 2 d = r → (view r).heaviside d = glob.heaviside d
  phi : ∀ r d, ownerB 2 d = r → (view r).phi d = glob.phi d
  kappa : ∀ r d, ownerB 2 d = r → (view r).kappa d = glob.kappa d
  normal : ∀ r k d, ownerB 2 d = r → (view r).normal k d = glob.normal k d

/-- The value `v` shown at the node of shape function `l` on cell `c`, in component `k` of the file with name `name`, is
the value of the field of that name at this node. `owner` is the rank that owns the node. -/
def Shows (glob : Fields V) (dim : ℕ) (c : Cell) (l : Loc) (owner : ℕ) (k : ℕ) (name : String) (v : V) : Prop :=
  (name = "velocity" ∧ k < dim ∧ v = glob.u (c.vel l.idx)) ∨
  (name = "pressure" ∧ k = dim ∧ v = glob.p (c.pre l.idx)) ∨
  (name = "heaviside" ∧ k = dim + 1 ∧ v = glob.heaviside (c.ls l.idx)) ∨
  (name = "level_set" ∧ k = dim + 2 ∧ v = glob.phi (c.ls l.idx)) ∨
  (name = "curvature" ∧ k = dim + 3 ∧ v = glob.kappa (c.ls l.idx)) ∨
  (name = "owner" ∧ k = dim + 4 ∧ v = (owner : V)) ∨
  (name = "normal_vector" ∧ ∃ d < dim, k = dim + 5 + d ∧ v = glob.normal d (c.ls l.idx))

/-- the names whose components form a vector -/
def IsVectorName (s : String) : Prop := s = "velocity" ∨ s = "normal_vector"

end Spec

/-! ## Proofs -/

section Fields

variable {fe : JointFE} {cells : List Cell} {ownerJ : ℕ → ℕ} {ownerB : ℕ → ℕ → ℕ} {num : ℕ → ℕ → ℕ → ℕ}

/-- the value the specification expects for a shape function -/
def expected (glob : Fields V) (rank : ℕ) (b m d : ℕ) : V :=
  match b, m with
  | 0, _ => glob.u d
  | 1, _ => glob.p d
  | 2, 0 => glob.heaviside d
  | 2, 1 => glob.phi d
  | 2, 2 => glob.kappa d
  | 2, _ => (rank : V)
  | _, m => glob.normal m d

/-- a write puts the expected value at an owned degree of freedom and touches nothing else -/
theorem writeDof_eq (h : Spec.Conforming fe cells ownerJ ownerB num) {view : ℕ → Fields V} {glob : Fields V}
    (hv : Spec.OwnedCorrect view glob ownerB) {c : Cell} (hc : c ∈ cells) {r : ℕ} (hr : c.owner = r) {i : ℕ}
    (hi : i < fe.n) (x : ℕ → V) :
    writeDof fe (view r) (fun e => decide (ownerJ e = r)) c x i =
      if ownerJ (c.joint i) = r then Function.update x (c.joint i)
        (expected glob r (fe.loc i).base (fe.loc i).mult (Spec.baseDof c (fe.loc i))) else x := by
  unfold writeDof
  by_cases ho : ownerJ (c.joint i) = r
  · rw [if_neg (by simp [ho]), if_pos ho]
    have hown : ownerB (Spec.kind (fe.loc i).base) (Spec.baseDof c (fe.loc i)) = r := by
      rw [← h.sameOwner (fe.loc i).base (fe.loc i).mult, ← h.joint c hc i hi, ho]
    have hval := h.valid i hi
    generalize fe.loc i = l at *
    obtain ⟨b, m, k⟩ := l
    rcases hval with ⟨hb, hm, hk⟩ | ⟨hb, hm, hk⟩ | ⟨hb, hm, hk⟩ | ⟨hb, hm, hk⟩ <;> dsimp only at hb hm hk <;> subst hb
    · subst hm
      simp only [Spec.kind, Spec.baseDof, expected] at hown ⊢
      simp only [if_true]
      rw [hv.u r _ hown]
    · simp only [Spec.kind, Spec.baseDof, expected] at hown ⊢
      simp only [if_true, one_ne_zero, if_false]
      rw [hv.p r _ hown]
    · simp only [Spec.kind, Spec.baseDof] at hown ⊢
      have hmod : k % fe.nLs = k := Nat.mod_eq_of_lt hk
      have h4 : m = 0 ∨ m = 1 ∨ m = 2 ∨ m = 3 := by omega
      rcases h4 with rfl | rfl | rfl | rfl <;>
        simp [expected, hmod, hv.heaviside r _ hown, hv.phi r _ hown, hv.kappa r _ hown, hr]
    · simp only [Spec.kind, Spec.baseDof, expected] at hown ⊢
      have hmod : k % fe.nLs = k := Nat.mod_eq_of_lt hk
      simp [hmod, hv.normal r _ _ hown]
  · rw [if_pos (by simp [ho]), if_neg ho]

/-- values at a joint dof that are as expected -/
def Good (glob : Fields V) (r : ℕ) (num : ℕ → ℕ → ℕ → ℕ) (e : ℕ) (v : V) : Prop :=
  ∀ b m d, e = num b m d → v = expected glob r b m d

theorem writeDof_good (h : Spec.Conforming fe cells ownerJ ownerB num) {view : ℕ → Fields V} {glob : Fields V}
    (hv : Spec.OwnedCorrect view glob ownerB) {c : Cell} (hc : c ∈ cells) {r : ℕ} (hr : c.owner = r) {i : ℕ}
    (hi : i < fe.n) (x : ℕ → V) (e : ℕ) :
    (Good glob r num e (x e) → Good glob r num e (writeDof fe (view r) (fun e => decide (ownerJ e = r)) c x i e)) ∧
    (ownerJ e = r → c.joint i = e →
      Good glob r num e (writeDof fe (view r) (fun e => decide (ownerJ e = r)) c x i e)) := by
  rw [writeDof_eq h hv hc hr hi]
  have key : Good glob r num (c.joint i)
      (expected glob r (fe.loc i).base (fe.loc i).mult (Spec.baseDof c (fe.loc i))) := by
    intro b m d he
    rw [h.joint c hc i hi] at he
    obtain ⟨h1, h2, h3⟩ := h.injective _ _ _ _ _ _ he
    rw [h1, h2, h3]
  by_cases ho : ownerJ (c.joint i) = r
  · rw [if_pos ho]
    by_cases he : e = c.joint i
    · subst he
      rw [Function.update_self]
      exact ⟨fun _ => key, fun _ _ => key⟩
    · rw [Function.update_of_ne he]
      exact ⟨id, fun _ hh => absurd hh.symm he⟩
  · rw [if_neg ho]
    refine ⟨id, fun h1 h2 => absurd ?_ ho⟩
    rw [h2, h1]

theorem writeList_good (h : Spec.Conforming fe cells ownerJ ownerB num) {view : ℕ → Fields V} {glob : Fields V}
    (hv : Spec.OwnedCorrect view glob ownerB) {c : Cell} (hc : c ∈ cells) {r : ℕ} (hr : c.owner = r) (e : ℕ)
    (l : List ℕ) (hl : ∀ i ∈ l, i < fe.n) (x : ℕ → V) :
    (Good glob r num e (x e) →
      Good glob r num e (l.foldl (writeDof fe (view r) (fun e => decide (ownerJ e = r)) c) x e)) ∧
    (ownerJ e = r → (∃ i ∈ l, c.joint i = e) →
      Good glob r num e (l.foldl (writeDof fe (view r) (fun e => decide (ownerJ e = r)) c) x e)) := by
  induction l generalizing x with
  | nil => simp
  | cons a l ih =>
    have hw := writeDof_good h hv hc hr (hl a (by simp)) x e
    have ih' := ih (fun i hi => hl i (by simp [hi])) (writeDof fe (view r) (fun e => decide (ownerJ e = r)) c x a)
    rw [List.foldl_cons]
    refine ⟨fun hg => ih'.1 (hw.1 hg), ?_⟩
    rintro ho ⟨i, hi, hie⟩
    rcases List.mem_cons.1 hi with rfl | hi
    · exact ih'.1 (hw.2 ho hie)
    · exact ih'.2 ho ⟨i, hi, hie⟩

theorem rank_good (h : Spec.Conforming fe cells ownerJ ownerB num) {view : ℕ → Fields V} {glob : Fields V}
    (hv : Spec.OwnedCorrect view glob ownerB) (r e : ℕ) (l : List Cell) (hl : ∀ c ∈ l, c ∈ cells) (x : ℕ → V) :
    (Good glob r num e (x e) →
      Good glob r num e (l.foldl (fun x c => if c.owner = r then
        writeCell fe (view r) (fun e => decide (ownerJ e = r)) x c else x) x e)) ∧
    (ownerJ e = r → (∃ c ∈ l, c.owner = r ∧ ∃ i < fe.n, c.joint i = e) →
      Good glob r num e (l.foldl (fun x c => if c.owner = r then
        writeCell fe (view r) (fun e => decide (ownerJ e = r)) x c else x) x e)) := by
  induction l generalizing x with
  | nil => simp
  | cons a l ih =>
    rw [List.foldl_cons]
    have ih' := ih (fun i hi => hl i (by simp [hi]))
      (if a.owner = r then writeCell fe (view r) (fun e => decide (ownerJ e = r)) x a else x)
    by_cases ha : a.owner = r
    · have hw := writeList_good h hv (hl a (by simp)) ha e (List.range fe.n) (fun i hi => List.mem_range.1 hi) x
      have e1 : (if a.owner = r then writeCell fe (view r) (fun e => decide (ownerJ e = r)) x a else x) =
        (List.range fe.n).foldl (writeDof fe (view r) (fun e => decide (ownerJ e = r)) a) x := by
        rw [if_pos ha]; rfl
      rw [e1] at ih' ⊢
      refine ⟨fun hg => ih'.1 (hw.1 hg), ?_⟩
      rintro ho ⟨c, hc, hco, i, hi, hie⟩
      rcases List.mem_cons.1 hc with rfl | hc
      · exact ih'.1 (hw.2 ho ⟨i, List.mem_range.2 hi, hie⟩)
      · exact ih'.2 ho ⟨c, hc, hco, i, hi, hie⟩
    · rw [if_neg ha] at ih' ⊢
      refine ⟨ih'.1, ?_⟩
      rintro ho ⟨c, hc, hco, i, hi, hie⟩
      rcases List.mem_cons.1 hc with rfl | hc
      · exact absurd hco ha
      · exact ih'.2 ho ⟨c, hc, hco, i, hi, hie⟩

theorem names_length (dim : ℕ) : (names dim).length = dim + 5 + dim := by simp [names]; omega

theorem names_get (dim k : ℕ) : (names dim)[k]? =
    if k < dim then some "velocity" else if k = dim then some "pressure" else if k = dim + 1 then some "heaviside"
    else if k = dim + 2 then some "level_set" else if k = dim + 3 then some "curvature"
    else if k = dim + 4 then some "owner" else if k < dim + 5 + dim then some "normal_vector" else none := by
  have hs : names dim = List.replicate dim "velocity" ++ (["pressure", "heaviside", "level_set", "curvature", "owner"]
      ++ List.replicate dim "normal_vector") := by simp [names, List.map_const']
  rw [hs, List.getElem?_append]
  by_cases h0 : k < dim
  · simp [h0]
  · obtain ⟨j, rfl⟩ := Nat.exists_eq_add_of_le (Nat.le_of_not_lt h0)
    simp only [List.length_replicate, h0, if_false, Nat.add_sub_cancel_left]
    match j with
    | 0 => simp
    | 1 => simp
    | 2 => simp
    | 3 => simp
    | 4 => simp
    | j + 5 =>
      have e1 : (["pressure", "heaviside", "level_set", "curvature", "owner"] ++
          List.replicate dim "normal_vector")[j + 5]? = (List.replicate dim "normal_vector")[j]? := by
        rw [List.getElem?_append_right (by simp)]; simp
      rw [e1, List.getElem?_replicate]
      have : (dim + (j + 5) < dim + 5 + dim) = (j < dim) := by simp only [eq_iff_iff]; omega
      simp [this]

/-- **C99 (fields).** On every mesh and for every distribution of the cells to ranks, at every node of every cell the
file shows under each name the value of the field with that name at that node, whatever the ghost entries contain. -/
theorem C99_every_name_shows_its_field (h : Spec.Conforming fe cells ownerJ ownerB num) {view : ℕ → Fields V}
    {glob : Fields V} (hv : Spec.OwnedCorrect view glob ownerB) (velComp : ℕ → ℕ)
    (hvc : ∀ k < fe.nVel, velComp k < fe.dim) {c : Cell} (hc : c ∈ cells) {i : ℕ} (hi : i < fe.n) :
    ∃ name, (names fe.dim)[component fe velComp (fe.loc i)]? = some name ∧
      Spec.Shows glob fe.dim c (fe.loc i) (ownerJ (c.joint i)) (component fe velComp (fe.loc i)) name
        (jointSolution fe view ownerJ cells (c.joint i)) := by
  have hg : Good glob (ownerJ (c.joint i)) num (c.joint i) (jointSolution fe view ownerJ cells (c.joint i)) :=
    (rank_good h hv (ownerJ (c.joint i)) (c.joint i) cells (fun _ hh => hh) (fun _ => 0)).2 rfl (h.ownedCell c hc i hi)
  have hval := hg _ _ _ (h.joint c hc i hi)
  rw [hval, names_get]
  have hval := h.valid i hi
  generalize fe.loc i = l at *
  obtain ⟨b, m, k⟩ := l
  rcases hval with ⟨hb, hm, hk⟩ | ⟨hb, hm, hk⟩ | ⟨hb, hm, hk⟩ | ⟨hb, hm, hk⟩ <;> dsimp only at hb hm hk <;> subst hb
  · have := hvc k hk
    refine ⟨"velocity", by simp [component, this], Or.inl ⟨rfl, by simpa [component] using this, rfl⟩⟩
  · exact ⟨"pressure", by simp [component], Or.inr (Or.inl ⟨rfl, rfl, rfl⟩)⟩
  · have h4 : m = 0 ∨ m = 1 ∨ m = 2 ∨ m = 3 := by omega
    rcases h4 with rfl | rfl | rfl | rfl
    · exact ⟨"heaviside", by simp [component], Or.inr (Or.inr (Or.inl ⟨rfl, rfl, rfl⟩))⟩
    · exact ⟨"level_set", by simp [component, Nat.add_assoc], Or.inr (Or.inr (Or.inr (Or.inl ⟨rfl, rfl, rfl⟩)))⟩
    · exact ⟨"curvature", by simp [component, Nat.add_assoc], Or.inr (Or.inr (Or.inr (Or.inr (Or.inl ⟨rfl, rfl, rfl⟩))))⟩
    · exact ⟨"owner", by simp [component, Nat.add_assoc], Or.inr (Or.inr (Or.inr (Or.inr (Or.inr (Or.inl ⟨rfl, rfl, rfl⟩)))))⟩
  · refine ⟨"normal_vector", ?_, Or.inr (Or.inr (Or.inr (Or.inr (Or.inr (Or.inr ⟨rfl, m, hm, rfl, rfl⟩)))))⟩
    have e1 : ¬ fe.dim + 5 + m < fe.dim := by omega
    have e2 : ¬ fe.dim + 5 + m = fe.dim := by omega
    have e3 : ¬ fe.dim + 5 + m = fe.dim + 1 := by omega
    have e4 : ¬ fe.dim + 5 + m = fe.dim + 2 := by omega
    have e5 : ¬ fe.dim + 5 + m = fe.dim + 3 := by omega
    have e6 : ¬ fe.dim + 5 + m = fe.dim + 4 := by omega
    simp [component, e1, e2, e3, e4, e5, e6, hm]

end Fields

theorem foldl_set_get (l : List ℕ) (v : List Bool) (k : ℕ) :
    (l.foldl (fun v i => v.set i true) v)[k]? = if k < v.length then (if k ∈ l then some true else v[k]?) else none := by
  induction l generalizing v with
  | nil => by_cases h : k < v.length <;> simp [h]
  | cons a l ih =>
    rw [List.foldl_cons, ih]
    by_cases h : k < v.length
    · by_cases ha : k = a
      · subst ha; simp [h]
      · have : ¬ a = k := fun hh => ha hh.symm
        simp [h, ha, this]
    · simp [h]

/-- **C99 (vectors).** There is one name and one interpretation per component of the joint element; exactly the
components named velocity and normal_vector are parts of a vector, and each of the two vectors has dim consecutive
components. -/
theorem C99_vectors (dim k : ℕ) :
    (names dim).length = dim + 1 + 4 + dim ∧ (interpretation dim).length = (names dim).length ∧
    (∀ name, (names dim)[k]? = some name → ((interpretation dim)[k]? = some true ↔ Spec.IsVectorName name)) ∧
    ((names dim)[k]? = some "velocity" ↔ k < dim) ∧
    ((names dim)[k]? = some "normal_vector" ↔ dim + 5 ≤ k ∧ k < dim + 5 + dim) := by
  have hlen : ∀ (l : List ℕ) (v : List Bool), (l.foldl (fun v i => v.set i true) v).length = v.length := by
    intro l; induction l with
    | nil => simp
    | cons a l ih => intro v; rw [List.foldl_cons, ih, List.length_set]
  have hget : (interpretation dim)[k]? = if k < dim + 5 + dim then
      some (decide (k < dim ∨ (dim + 5 ≤ k ∧ k < dim + 5 + dim))) else none := by
    unfold interpretation
    rw [foldl_set_get, hlen, foldl_set_get]
    simp only [List.length_replicate, List.mem_range, List.mem_range'_1]
    by_cases h : k < dim + 5 + dim
    · by_cases h1 : k < dim
      · simp [h, h1]
      · by_cases h2 : dim + 5 ≤ k <;> simp [h, h1, h2]
    · simp [h]
  refine ⟨by rw [names_length], by unfold interpretation; rw [hlen, hlen, names_length]; simp, ?_, ?_, ?_⟩
  · intro name hn
    rw [names_get] at hn
    rw [hget]
    unfold Spec.IsVectorName
    split_ifs at hn with h1 h2 h3 h4 h5 h6 h7
    all_goals (obtain rfl := (Option.some.injEq _ _ ▸ hn : _ = name))
    · have : k < dim + 5 + dim := by omega
      simp [h1, this]
    · have : k < dim + 5 + dim := by omega
      have e : ¬ (k < dim ∨ (dim + 5 ≤ k ∧ k < dim + 5 + dim)) := by omega
      rw [if_pos this, decide_eq_false e]; decide
    · have : k < dim + 5 + dim := by omega
      have e : ¬ (k < dim ∨ (dim + 5 ≤ k ∧ k < dim + 5 + dim)) := by omega
      rw [if_pos this, decide_eq_false e]; decide
    · have : k < dim + 5 + dim := by omega
      have e : ¬ (k < dim ∨ (dim + 5 ≤ k ∧ k < dim + 5 + dim)) := by omega
      rw [if_pos this, decide_eq_false e]; decide
    · have : k < dim + 5 + dim := by omega
      have e : ¬ (k < dim ∨ (dim + 5 ≤ k ∧ k < dim + 5 + dim)) := by omega
      rw [if_pos this, decide_eq_false e]; decide
    · have : k < dim + 5 + dim := by omega
      have e : ¬ (k < dim ∨ (dim + 5 ≤ k ∧ k < dim + 5 + dim)) := by omega
      rw [if_pos this, decide_eq_false e]; decide
    · have e : (k < dim ∨ (dim + 5 ≤ k ∧ k < dim + 5 + dim)) := by omega
      rw [if_pos h7, decide_eq_true e]; simp
  · rw [names_get]
    split_ifs <;> simp <;> omega
  · rw [names_get]
    split_ifs <;> simp <;> omega

/-- **C99 (patches).** The number of subdivisions is the requested one, else the smaller one of the two degrees; it is
positive. -/
theorem C99_patches (k s n : ℕ) (hk : 1 ≤ k) (hs : 1 ≤ s) :
    1 ≤ nPatches k s n ∧ (n ≠ 0 → nPatches k s n = n) ∧ (n = 0 → nPatches k s n ≤ k ∧ nPatches k s n ≤ s) := by
  unfold nPatches
  by_cases h : n = 0
  · simp [h]; omega
  · simp [h]; omega

/-! ### indicators -/

theorem norm_nonneg {dim : ℕ} (g : Fin dim → ℝ) : 0 ≤ norm g := Real.sqrt_nonneg _

theorem foldl_max {dim : ℕ} (l : List (Fin dim → ℝ)) (a b : ℝ) (ha : 0 ≤ a) :
    (b < l.foldl (fun m g => max m (norm g)) a ↔ b < a ∨ ∃ g ∈ l, b < norm g) := by
  induction l generalizing a with
  | nil => simp
  | cons g l ih =>
    rw [List.foldl_cons, ih _ (le_trans ha (le_max_left _ _)), lt_max_iff]
    simp [or_assoc]

theorem lt_logB (a x : ℝ) : (a : WithBot ℝ) < logB x ↔ Real.exp a < x := by
  unfold logB
  by_cases h : x ≤ 0
  · rw [if_pos h]
    simp only [not_lt_bot, false_iff, not_lt]
    exact le_trans h (Real.exp_pos a).le
  · rw [if_neg h, WithBot.coe_lt_coe, Real.lt_log_iff_exp_lt (not_le.1 h)]

/-- **C99 (standard indicator).** `Standard_refine` is one exactly for the cells in which the normal vector field,
scaled with the interface width, exceeds exp(-7) in some of the probed points, and zero otherwise. -/
theorem C99_standard_refine {dim : ℕ} (eps : ℝ) (he : 0 < eps) (c : Probe dim) :
    (standardRefine eps c = 1 ↔ ∃ g ∈ c.grads, Real.exp (-7) < eps * Real.sqrt (∑ d, g d ^ 2)) ∧
    (standardRefine eps c = 1 ∨ standardRefine eps c = 0) := by
  have hgt : gt (some (distance eps c)) (-7) ↔ ∃ g ∈ c.grads, Real.exp (-7) < eps * Real.sqrt (∑ d, g d ^ 2) := by
    unfold gt distance
    simp only [Option.some.injEq, exists_eq_left']
    have h0 : ¬ Real.exp (-7) / eps < 0 := not_lt.2 (div_pos (Real.exp_pos _) he).le
    rw [lt_logB, ← div_lt_iff₀ he, foldl_max _ _ _ le_rfl]
    simp only [h0, false_or]
    refine exists_congr fun g => and_congr_right fun _ => ?_
    rw [div_lt_iff₀ he, mul_comm]
    simp only [norm, pow_two]
  unfold standardRefine
  constructor
  · rw [← hgt]
    by_cases h : gt (some (distance eps c)) (-7) <;> simp [h]
  · by_cases h : gt (some (distance eps c)) (-7) <;> simp [h]

/-- the full claim about the biased indicator: in a cell that may be refined, `Biased_refine` is one exactly if marking
refines the cell -/
def BiasedIsMarking {dim : ℕ} (dt eps : ℝ) (level upper : ℤ) (c : Probe dim) : Prop :=
  level < upper → (biasedRefine dt eps c = 1 ↔ markRefine dt eps level upper c)

/-- **C99 (biased indicator, partial).** `Biased_refine` shows the decision of the mesh refinement if the flow does not
cross the interface in the probed point. Missing: it does not in moving flows (counterexample below), since the two
functions look ahead by different factors. -/
theorem C99_biased_refine_partial {dim : ℕ} (dt eps : ℝ) (level upper : ℤ) (c : Probe dim)
    (hu : ∑ d, lastGrad c d * c.u0 d = 0) : BiasedIsMarking dt eps level upper c := by
  intro hl
  have hm : modDistance 20 dt eps c = modDistance 4 dt eps c := by
    unfold modDistance direction
    simp [hu]
  unfold biasedRefine markRefine
  rw [hm]
  by_cases h : gt (modDistance 4 dt eps c) (-7) ∨ gt (some (distance eps c)) (-4) <;> simp [h, hl]

/-- a cell away from the interface towards which the interface moves -/
noncomputable def exProbe : Probe 2 where
  grads := List.replicate 4 ![Real.exp (-9), 0]
  ls0 := 1
  u0 := ![1, 0]

theorem exProbe_norm : norm (![Real.exp (-9), 0] : Fin 2 → ℝ) = Real.exp (-9) := by
  unfold norm
  rw [Fin.sum_univ_two]
  simp [Real.sqrt_mul_self (Real.exp_pos (-9)).le]

theorem exProbe_distance : distance 1 exProbe = ((-9 : ℝ) : WithBot ℝ) := by
  have h : exProbe.grads.foldl (fun m g => max m (norm g)) 0 = Real.exp (-9) := by
    simp [exProbe, List.replicate, exProbe_norm, (Real.exp_pos (-9)).le]
  unfold distance logB
  rw [h, mul_one, if_neg (not_le.2 (Real.exp_pos _)), Real.log_exp]

theorem exProbe_mod (factor : ℝ) :
    modDistance factor (1 / 8) 1 exProbe = some ((-9 + factor / 8 : ℝ) : WithBot ℝ) := by
  have hlast : lastGrad exProbe = ![Real.exp (-9), 0] := by simp [lastGrad, exProbe, List.replicate]
  have hne : Real.exp (-9) ≠ 0 := (Real.exp_pos _).ne'
  unfold modDistance direction
  rw [hlast, exProbe_norm, if_neg hne, exProbe_distance, Option.map_some, ← WithBot.coe_add]
  congr 2
  rw [Fin.sum_univ_two]
  simp [exProbe]
  field_simp

/-- **C99 (counterexample).** A cell that is shown as refined in `Biased_refine` is coarsened by the mesh adaptation
called with the same data. -/
theorem C99_biased_refine_not_marking :
    biasedRefine (1 / 8) 1 exProbe = 1 ∧ ¬ markRefine (1 / 8) 1 2 3 exProbe ∧
    markCoarsen (1 / 8) 1 2 3 1 exProbe ∧ ¬ BiasedIsMarking (1 / 8) 1 2 3 exProbe := by
  have hb : biasedRefine (1 / 8) 1 exProbe = 1 := by
    unfold biasedRefine
    rw [if_pos]
    refine Or.inl ⟨_, exProbe_mod 20, ?_⟩
    rw [WithBot.coe_lt_coe]; norm_num
  have hm : ¬ markRefine (1 / 8) 1 2 3 exProbe := by
    unfold markRefine
    rintro ⟨-, h | h⟩
    · obtain ⟨y, hy, hlt⟩ := h
      rw [exProbe_mod, Option.some.injEq] at hy
      rw [← hy, WithBot.coe_lt_coe] at hlt
      norm_num at hlt
    · obtain ⟨y, hy, hlt⟩ := h
      rw [exProbe_distance, Option.some.injEq] at hy
      rw [← hy, WithBot.coe_lt_coe] at hlt
      norm_num at hlt
  refine ⟨hb, hm, ⟨hm, by norm_num, Or.inl ⟨_, exProbe_mod 4, ?_⟩⟩, fun h => hm ((h (by norm_num)).1 hb)⟩
  rw [WithBot.coe_lt_coe]; norm_num

/-- **C99 (counterexample).** In a cell in which the normal vector vanishes, `Biased_refine_direction` is not a number,
whatever the velocity. -/
theorem C99_direction_not_a_number (dt eps : ℝ) (ls0 : ℝ) (u0 : Fin 2 → ℝ) :
    biasedDirection dt eps (⟨List.replicate 4 0, ls0, u0⟩ : Probe 2) = none := by
  unfold biasedDirection direction
  rw [if_pos]
  simp [norm, lastGrad, List.replicate]

/-! ### Non-vacuity: two cells of a one-dimensional chain on two ranks (one velocity component) sharing a node -/

namespace Example

/-- linear elements: velocity, pressure, heaviside, level set, curvature, owner, normal, two shape functions each -/
def fe : JointFE where
  dim := 1
  n := 14
  loc := fun i => [⟨0, 0, i % 2⟩, ⟨1, 0, i % 2⟩, ⟨2, 0, i % 2⟩, ⟨2, 1, i % 2⟩, ⟨2, 2, i % 2⟩, ⟨2, 3, i % 2⟩,
    ⟨3, 0, i % 2⟩].getD (i / 2) ⟨3, 0, i % 2⟩
  nVel := 2
  nPre := 2
  nLs := 2

/-- numbering by a pairing function -/
def num (b m d : ℕ) : ℕ := Nat.pair (Nat.pair b m) d

def cell (k : ℕ) : Cell where
  owner := k
  joint := fun i => num (fe.loc i).base (fe.loc i).mult (k + (fe.loc i).idx)
  vel := fun i => k + i
  pre := fun i => k + i
  ls := fun i => k + i

def cells : List Cell := [cell 0, cell 1]

/-- nodes 0 and 1 belong to rank 0, node 2 to rank 1 -/
def ownerB (_ d : ℕ) : ℕ := if d ≤ 1 then 0 else 1

def ownerJ (e : ℕ) : ℕ := ownerB 0 (Nat.unpair e).2

theorem conforming : Spec.Conforming fe cells ownerJ ownerB num where
  valid := by decide +kernel
  injective := by
    intro b m d b' m' d' h
    have h1 := Nat.pair_eq_pair.1 h
    have h2 := Nat.pair_eq_pair.1 h1.1
    exact ⟨h2.1, h2.2, h1.2⟩
  joint := by
    intro c hc i _
    simp only [cells, List.mem_cons, List.not_mem_nil, or_false] at hc
    rcases hc with rfl | rfl
    · unfold Spec.baseDof; split <;> rfl
    · unfold Spec.baseDof; split <;> rfl
  sameOwner := by intro b m d; simp [ownerJ, num, ownerB]
  ownedCell := by decide +kernel

/-- fields with different values everywhere -/
def glob : Fields ℚ where
  u := fun d => 10 + d
  p := fun d => 20 + d
  heaviside := fun d => 30 + d
  phi := fun d => 40 + d
  kappa := fun d => 50 + d
  normal := fun k d => 60 + 10 * k + d

/-- views with garbage in the ghost entries -/
def view (r : ℕ) : Fields ℚ where
  u := fun d => if ownerB 0 d = r then glob.u d else -1
  p := fun d => if ownerB 1 d = r then glob.p d else -1
  heaviside := fun d => if ownerB 2 d = r then glob.heaviside d else -1
  phi := fun d => if ownerB 2 d = r then glob.phi d else -1
  kappa := fun d => if ownerB 2 d = r then glob.kappa d else -1
  normal := fun k d => if ownerB 2 d = r then glob.normal k d else -1

theorem viewCorrect : Spec.OwnedCorrect view glob ownerB where
  u := fun r d h => by simp [view, h]
  p := fun r d h => by simp [view, h]
  heaviside := fun r d h => by simp [view, h]
  phi := fun r d h => by simp [view, h]
  kappa := fun r d h => by simp [view, h]
  normal := fun r k d h => by simp [view, h]

example : ∃ name, (names 1)[component fe (fun _ => 0) (fe.loc 7)]? = some name ∧
    Spec.Shows glob 1 (cell 1) (fe.loc 7) (ownerJ ((cell 1).joint 7)) (component fe (fun _ => 0) (fe.loc 7)) name
      (jointSolution fe view ownerJ cells ((cell 1).joint 7)) :=
  C99_every_name_shows_its_field conforming viewCorrect (fun _ => 0) (by decide) (by simp [cells]) (by decide)

/-- the shared node shows the level set value 41 from both cells, and its owner is rank 0 -/
example : jointSolution fe view ownerJ cells ((cell 0).joint 7) = 41 ∧
    jointSolution fe view ownerJ cells ((cell 1).joint 6) = 41 ∧
    jointSolution fe view ownerJ cells ((cell 1).joint 10) = 0 ∧
    jointSolution fe view ownerJ cells ((cell 1).joint 11) = 1 ∧
    jointSolution fe view ownerJ cells ((cell 1).joint 13) = 62 := by decide +kernel

example : names 2 = ["velocity", "velocity", "pressure", "heaviside", "level_set", "curvature", "owner",
    "normal_vector", "normal_vector"] := by decide

example : interpretation 2 = [true, true, false, false, false, false, false, true, true] := by decide

/-- in the example cell the indicators are not trivially zero -/
example : standardRefine 1 (⟨[![1, 0]], 0, ![0, 0]⟩ : Probe 2) = 1 := by
  rw [(C99_standard_refine 1 one_pos _).1]
  refine ⟨_, List.mem_cons_self, ?_⟩
  rw [Fin.sum_univ_two]
  simp

example : standardRefine 1 exProbe = 0 := by
  have h := (C99_standard_refine 1 one_pos exProbe)
  refine h.2.resolve_left fun h1 => ?_
  obtain ⟨g, hg, hlt⟩ := h.1.1 h1
  have : g = ![Real.exp (-9), 0] := List.eq_of_mem_replicate hg
  rw [this, Fin.sum_univ_two] at hlt
  simp [Real.sqrt_sq (Real.exp_pos (-9)).le] at hlt
  linarith

example : ∑ d, lastGrad (⟨[![1, 0]], 1, ![0, 3]⟩ : Probe 2) d * (![0, 3] : Fin 2 → ℝ) d = 0 := by
  rw [Fin.sum_univ_two]; simp [lastGrad]

end Example

end Verif.Output.Joint
