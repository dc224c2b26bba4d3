import Mathlib.Data.List.Basic
import Mathlib.Algebra.Module.Basic
import Mathlib.Algebra.Order.Field.Rat
import Mathlib.Algebra.BigOperators.Group.List.Basic
import Mathlib.Tactic.Ring
import Mathlib.Tactic.Abel
import Mathlib.Tactic.NormNum

/-!
# C57: motion of the surface mesh
(include/adaflo/sharp_interface_util.h:52-121, called from include/adaflo/sharp_interface.h:620-630, 926-938)

The surface mesh is a list of cells, each the list of its nodes (support points); nodes at cell ends are shared. All
components of a node are moved together (`component_to_system_index`), so a node has a value in `E`. The velocity
evaluation (`VectorTools::point_values`) is a function `u` of the point. Nodal interpolation: the mapping evaluated at a
support point is the nodal position.
-/

namespace Verif.Sharp

variable {ν K E : Type*} [DecidableEq ν] [Ring K] [AddCommGroup E] [Module K E]

/-- first pass, sharp_interface_util.h:74-84: positions of all support points, cell by cell -/
def evaluationPoints (x : ν → E) (cells : List (List ν)) : List E := cells.flatMap fun c => c.map x

/-- body of the inner loop of the second pass, sharp_interface_util.h:107-117. The state is the running `counter` and the
copy `euler_coordinates_vector_temp`; the mapping refers to the unmodified vector `x`. -/
def moveNode (dt : K) (x : ν → E) (vals : List E) (st : ℕ × (ν → E)) (n : ν) : ℕ × (ν → E) :=
  (st.1 + 1, Function.update st.2 n (x n + dt • vals.getD st.1 0))

/-- `update_position_vector`, sharp_interface_util.h:52-121 -/
def updatePositions (dt : K) (u : E → E) (cells : List (List ν)) (x : ν → E) : ν → E :=
  let vals := (evaluationPoints x cells).map u
  (cells.foldl (fun st c => c.foldl (moveNode dt x vals) st) (0, x)).2

theorem foldl_flatten {α β : Type*} (f : β → α → β) (l : List (List α)) (b : β) :
    l.foldl (fun st c => c.foldl f st) b = l.flatten.foldl f b := by
  induction l generalizing b with
  | nil => rfl
  | cons c l ih => simp [ih]

/-- **C57 (explicit Euler step of every node).** Every node of the surface mesh moves by `dt` times the velocity at its old
position - exactly once, independently of the number of surface cells that share it and of the order of the cells; other
entries are unchanged. -/
theorem C57_nodes_move_once (dt : K) (u : E → E) (cells : List (List ν)) (x : ν → E) (n : ν) :
    updatePositions dt u cells x n = if ∃ c ∈ cells, n ∈ c then x n + dt • u (x n) else x n := by
  unfold updatePositions evaluationPoints
  rw [foldl_flatten, List.flatMap_def, ← List.map_flatten]
  have hmem : (∃ c ∈ cells, n ∈ c) ↔ n ∈ cells.flatten := by simp
  simp only [hmem]
  generalize cells.flatten = l
  rw [List.map_map]
  -- invariant: after a prefix, counter is its length and exactly its nodes have moved
  have inv : ∀ (pre post : List ν), l = pre ++ post → ∀ t : ν → E,
      t = (fun m => if m ∈ pre then x m + dt • u (x m) else x m) →
      (post.foldl (moveNode dt x (l.map (u ∘ x))) (pre.length, t)).2 n =
        if n ∈ l then x n + dt • u (x n) else x n := by
    intro pre post
    induction post generalizing pre with
    | nil => intro hl t ht; simp [hl, ht]
    | cons m post ih =>
      intro hl t ht
      rw [List.foldl_cons]
      have hval : (l.map (u ∘ x)).getD pre.length 0 = u (x m) := by
        rw [hl]; simp
      have := ih (pre ++ [m]) (by rw [hl]; simp) (Function.update t m (x m + dt • u (x m))) (by
        funext k
        by_cases hk : k = m
        · subst hk; simp
        · rw [Function.update_of_ne hk, ht]; simp [hk])
      rw [List.length_append] at this
      simp only [moveNode, hval]
      exact this
  exact inv [] l rfl x (by simp)

/-- **C57 (rigid translation).** In a uniform flow all distances between surface nodes are preserved and every node is
displaced by `dt • U`. -/
theorem C57_uniform_flow (dt : K) (U : E) (cells : List (List ν)) (x : ν → E) (n m : ν) (hn : ∃ c ∈ cells, n ∈ c)
    (hm : ∃ c ∈ cells, m ∈ c) :
    updatePositions dt (fun _ => U) cells x n = x n + dt • U ∧
    updatePositions dt (fun _ => U) cells x n - updatePositions dt (fun _ => U) cells x m = x n - x m := by
  rw [C57_nodes_move_once, C57_nodes_move_once, if_pos hn, if_pos hm]
  exact ⟨rfl, by abel⟩

/-- **C57 (cell order).** The result does not depend on the order in which the surface cells are visited. -/
theorem C57_order_independent (dt : K) (u : E → E) (cells cells' : List (List ν)) (h : cells.Perm cells') (x : ν → E) :
    updatePositions dt u cells x = updatePositions dt u cells' x := by
  funext n
  rw [C57_nodes_move_once, C57_nodes_move_once]
  simp only [h.mem_iff]

/-- a closed polygon of three edges: every node is shared by two cells; node 3 is not part of the mesh -/
example : (List.range 4).map (updatePositions (ν := ℕ) (1 / 2 : ℚ) (fun y => y * y) [[0, 1], [1, 2], [2, 0]] (fun n => (n : ℚ))) =
    [0, 3 / 2, 4, 3] := by decide +kernel
example : ∃ c ∈ ([[0, 1], [1, 2], [2, 0]] : List (List ℕ)), 1 ∈ c := by decide +kernel

end Verif.Sharp
