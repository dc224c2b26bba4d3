import Mathlib.Algebra.Order.Field.Basic
import Mathlib.Algebra.Order.Ring.Rat
import Mathlib.Algebra.BigOperators.Group.List.Basic
import Mathlib.Algebra.Order.BigOperators.Group.List
import Mathlib.Data.List.Rotate
import Mathlib.Tactic.Linarith
import Mathlib.Tactic.LinearCombination
import Mathlib.Tactic.Ring
import Mathlib.Tactic.FieldSimp
import Mathlib.Tactic.NormNum

/-!
# C95: phases in the front tracking solver
(include/adaflo/sharp_interface_util.h: construct_polygon 128-160, within 162-239;
include/adaflo/sharp_interface.h: FrontTrackingSolver::update_phases 630-671)

Points are pairs over an ordered field. `boost::geometry::within` is described by the winding number (counted on the horizontal
line through the point), which is what its default strategy computes: inside iff the point is on no edge and the winding number
is not zero.
-/

set_option linter.unusedSectionVars false

namespace Verif.Sharp

variable {K : Type*} [Field K] [LinearOrder K] [IsStrictOrderedRing K]

/-! ### Model -/

/-- Sign of the side of the line `a → b` on which `p` lies: positive left, negative right. -/
def side (a b p : K × K) : K := (b.1 - a.1) * (p.2 - a.2) - (b.2 - a.2) * (p.1 - a.1)

/-- `construct_polygon`, sharp_interface_util.h:139-159: the quadrature points of the active cells of the surface mesh, in the
order of the cells and of the points in the cell; the first point is repeated at the end (line 157). -/
def constructPolygon (cells : List (List (K × K))) : List (K × K) :=
  let points := cells.flatten
  points ++ points.take 1

/-- Edges of a polygon given by its closed sequence of points. -/
def edges (l : List (K × K)) : List ((K × K) × (K × K)) := l.zip l.tail

/-- Contribution of an edge to the winding number about `p`: edges crossing the ray to the right, upwards or downwards. -/
def turn (p : K × K) (e : (K × K) × (K × K)) : ℤ :=
  if e.1.2 ≤ p.2 ∧ p.2 < e.2.2 ∧ 0 < side e.1 e.2 p then 1
  else if e.2.2 ≤ p.2 ∧ p.2 < e.1.2 ∧ side e.1 e.2 p < 0 then -1
  else 0

/-- `p` lies on the edge. -/
def onEdge (p : K × K) (e : (K × K) × (K × K)) : Prop :=
  side e.1 e.2 p = 0 ∧ (p.1 - e.1.1) * (p.1 - e.2.1) + (p.2 - e.1.2) * (p.2 - e.2.2) ≤ 0

instance (p : K × K) (e : (K × K) × (K × K)) : Decidable (onEdge p e) := by unfold onEdge; infer_instance

/-- `boost::geometry::within(p, polygon)` (sharp_interface_util.h:172, 187). -/
def within (polygon : List (K × K)) (p : K × K) : Bool :=
  decide ((∀ e ∈ edges polygon, ¬ onEdge p e) ∧ ((edges polygon).map (turn p)).sum ≠ 0)

/-- `update_phases`, sharp_interface.h:645-671: density and viscosity at a quadrature point with coordinates `x`, `y`, `zs`
(only the first two coordinates are used, sharp_interface_util.h:186). With equal fluids the tables keep the value of the first
fluid (sharp_interface.h:638-640). -/
def phase (density densityDiff viscosity viscosityDiff : K) (cells : List (List (K × K))) (x y : K) (_zs : List K) : K × K :=
  if densityDiff = 0 ∧ viscosityDiff = 0 then (density, viscosity)
  else
    let indicator : K := if within (constructPolygon cells) (x, y) then 1 else 0
    (density + densityDiff * indicator, viscosity + viscosityDiff * indicator)

/-- `within` for a field on the background mesh, sharp_interface_util.h:192-239: for every active cell the indicator at the
support points of its unknowns, written by `cell->set_dof_values` (later cells overwrite). `bg`: the cells with the numbers and
support points (first two coordinates, line 171) of their unknowns. Written for a mesh on one process. -/
def withinField (cells : List (List (K × K))) (bg : List (List (ℕ × (K × K)))) (v : ℕ → K) : ℕ → K :=
  let polygon := constructPolygon cells
  bg.foldl (fun v cell => cell.foldl (fun v e => Function.update v e.1 (if within polygon e.2 then 1 else 0)) v) v

/-! ### Specification -/

namespace Spec

/-- The straight lines from point to point, back to the first one. -/
def Side (pts : List (K × K)) (a b : K × K) : Prop :=
  ∃ i, ∃ (h : i < pts.length), a = pts[i] ∧ b = pts[(i + 1) % pts.length]'(Nat.mod_lt _ (by omega))

/-- The points are the corners of a strictly convex polygon in counter-clockwise order: seen along each side, all points but the
two ends of the side are strictly on the left, and the ends differ. -/
def Convex (pts : List (K × K)) : Prop :=
  ∀ a b, Side pts a b → a ≠ b ∧ ∀ v ∈ pts, v = a ∨ v = b ∨ 0 < (b.1 - a.1) * (v.2 - a.2) - (b.2 - a.2) * (v.1 - a.1)

/-- Open interior of a convex polygon: strictly left of all sides. -/
def Interior (pts : List (K × K)) (p : K × K) : Prop :=
  ∀ a b, Side pts a b → 0 < (b.1 - a.1) * (p.2 - a.2) - (b.2 - a.2) * (p.1 - a.1)

end Spec

/-! ### Proofs -/

theorem side_swap (a b p : K × K) : side b a p = - side a b p := by unfold side; ring

theorem side_origin (a b p : K × K) :
    side a b p = (a.1 - p.1) * (b.2 - p.2) - (a.2 - p.2) * (b.1 - p.1) := by unfold side; ring

theorem turn_swap (p a b : K × K) : turn p (b, a) = - turn p (a, b) := by
  unfold turn
  dsimp only
  rw [side_swap a b p]
  by_cases h1 : b.2 ≤ p.2 ∧ p.2 < a.2 ∧ 0 < -side a b p
  · have h2 : ¬ (a.2 ≤ p.2 ∧ p.2 < b.2 ∧ 0 < side a b p) := fun h => by linarith [h.1, h1.2.1]
    have h3 : b.2 ≤ p.2 ∧ p.2 < a.2 ∧ side a b p < 0 := ⟨h1.1, h1.2.1, by linarith [h1.2.2]⟩
    rw [if_pos h1, if_neg h2, if_pos h3]; rfl
  · have h3 : ¬ (b.2 ≤ p.2 ∧ p.2 < a.2 ∧ side a b p < 0) := fun h => h1 ⟨h.1, h.2.1, by linarith [h.2.2]⟩
    rw [if_neg h1]
    by_cases h4 : a.2 ≤ p.2 ∧ p.2 < b.2 ∧ 0 < side a b p
    · have h5 : a.2 ≤ p.2 ∧ p.2 < b.2 ∧ -side a b p < 0 := ⟨h4.1, h4.2.1, by linarith [h4.2.2]⟩
      rw [if_pos h5, if_pos h4]
    · have h5 : ¬ (a.2 ≤ p.2 ∧ p.2 < b.2 ∧ -side a b p < 0) := fun h => h4 ⟨h.1, h.2.1, by linarith [h.2.2]⟩
      rw [if_neg h5, if_neg h4, if_neg h3]; rfl

theorem onEdge_swap (p a b : K × K) : onEdge p (b, a) ↔ onEdge p (a, b) := by
  unfold onEdge
  dsimp only
  rw [side_swap a b p]
  constructor <;> rintro ⟨h1, h2⟩ <;> exact ⟨by linarith, by linarith⟩

theorem edges_cons_cons (a b : K × K) (l : List (K × K)) : edges (a :: b :: l) = (a, b) :: edges (b :: l) := rfl

theorem edges_append (l : List (K × K)) (a b : K × K) : edges (l ++ [a, b]) = edges (l ++ [a]) ++ [(a, b)] := by
  induction l with
  | nil => rfl
  | cons x l ih =>
    cases l with
    | nil => rfl
    | cons y l =>
      have h1 : x :: y :: l ++ [a, b] = x :: y :: (l ++ [a, b]) := rfl
      have h2 : x :: y :: l ++ [a] = x :: y :: (l ++ [a]) := rfl
      rw [h1, h2, edges_cons_cons, edges_cons_cons]
      have ih' : edges (y :: (l ++ [a, b])) = edges (y :: (l ++ [a])) ++ [(a, b)] := ih
      rw [ih']; rfl

/-- closed sequence of points -/
def closed (l : List (K × K)) : List (K × K) := l ++ l.take 1

theorem closed_rotate_one (l : List (K × K)) : (edges (closed (l.rotate 1))).Perm (edges (closed l)) := by
  cases l with
  | nil => exact List.Perm.refl _
  | cons a l =>
    rw [List.rotate_cons_succ, List.rotate_zero]
    cases l with
    | nil => exact List.Perm.refl _
    | cons b l =>
      have h1 : closed (b :: l ++ [a]) = (b :: l) ++ [a, b] := by
        unfold closed
        rw [List.append_assoc]; rfl
      have h2 : closed (a :: b :: l) = a :: b :: (l ++ [a]) := rfl
      rw [h1, h2, edges_append, edges_cons_cons]
      exact List.perm_append_comm (l₁ := edges (b :: (l ++ [a]))) (l₂ := [(a, b)])

theorem closed_rotate (l : List (K × K)) (n : ℕ) : (edges (closed (l.rotate n))).Perm (edges (closed l)) := by
  induction n with
  | zero => rw [List.rotate_zero]
  | succ n ih =>
    rw [← List.rotate_rotate]
    exact (closed_rotate_one _).trans ih

theorem within_perm {l m : List (K × K)} (h : (edges l).Perm (edges m)) (p : K × K) : within l p = within m p := by
  unfold within
  rw [decide_eq_decide, (h.map (turn p)).sum_eq]
  constructor <;> rintro ⟨h1, h2⟩ <;> refine ⟨fun e he => h1 e ?_, h2⟩
  · exact h.mem_iff.2 he
  · exact h.mem_iff.1 he

theorem edges_reverse (l : List (K × K)) : edges l.reverse = (edges l).reverse.map Prod.swap := by
  induction l with
  | nil => rfl
  | cons a l ih =>
    cases l with
    | nil => rfl
    | cons b l =>
      rw [edges_cons_cons, List.reverse_cons, List.reverse_cons, List.append_assoc]
      have h1 : l.reverse ++ ([b] ++ [a]) = l.reverse ++ [b, a] := rfl
      rw [h1, edges_append, ← List.reverse_cons, ih, List.reverse_cons, List.map_append]
      rfl

theorem sum_turn_swap (p : K × K) (l : List ((K × K) × (K × K))) :
    ((l.map Prod.swap).map (turn p)).sum = - (l.map (turn p)).sum := by
  induction l with
  | nil => rfl
  | cons e l ih =>
    rw [List.map_cons, List.map_cons, List.map_cons, List.sum_cons, List.sum_cons, ih,
      show turn p e.swap = - turn p e from turn_swap p e.1 e.2]
    ring

theorem within_reverse (l : List (K × K)) (p : K × K) : within l.reverse p = within l p := by
  unfold within
  rw [decide_eq_decide, edges_reverse, sum_turn_swap, List.map_reverse (f := turn p), List.sum_reverse, neg_ne_zero]
  refine and_congr_left fun _ => ?_
  constructor
  · intro h e he hon
    refine h e.swap (List.mem_map_of_mem (List.mem_reverse.2 he)) ?_
    exact (onEdge_swap p e.1 e.2).2 hon
  · intro h e he hon
    obtain ⟨e', he', rfl⟩ := List.mem_map.1 he
    exact h e' (List.mem_reverse.1 he') ((onEdge_swap p e'.1 e'.2).1 hon)

theorem constructPolygon_eq (cells : List (List (K × K))) : constructPolygon cells = closed cells.flatten := rfl

/-- **C95 (first cell).** The phase does not depend on which cell of the surface mesh comes first. -/
theorem C95_first_cell_irrelevant (ρ Δρ μ Δμ : K) (cells : List (List (K × K))) (n : ℕ) (x y : K) (z : List K) :
    phase ρ Δρ μ Δμ (cells.rotate n) x y z = phase ρ Δρ μ Δμ cells x y z := by
  have hone : ∀ cs : List (List (K × K)), within (constructPolygon (cs.rotate 1)) (x, y) = within (constructPolygon cs) (x, y) := by
    intro cs
    cases cs with
    | nil => rfl
    | cons c cs =>
      rw [List.rotate_cons_succ, List.rotate_zero, constructPolygon_eq, constructPolygon_eq]
      have h : (cs ++ [c]).flatten = ((c :: cs).flatten).rotate c.length := by
        rw [List.flatten_append, List.flatten_cons, List.flatten_nil, List.append_nil, List.flatten_cons,
          List.rotate_append_length_eq]
      rw [h]
      exact within_perm (closed_rotate _ _) _
  have hall : within (constructPolygon (cells.rotate n)) (x, y) = within (constructPolygon cells) (x, y) := by
    induction n with
    | zero => rw [List.rotate_zero]
    | succ n ih => rw [← List.rotate_rotate, hone, ih]
  unfold phase
  rw [hall]

/-- **C95 (orientation).** The phase does not depend on the sense in which the surface mesh runs around the bubble. -/
theorem C95_orientation_irrelevant (ρ Δρ μ Δμ : K) (cells : List (List (K × K))) (x y : K) (z : List K) :
    phase ρ Δρ μ Δμ (cells.map List.reverse).reverse x y z = phase ρ Δρ μ Δμ cells x y z := by
  have h : within (constructPolygon (cells.map List.reverse).reverse) (x, y) = within (constructPolygon cells) (x, y) := by
    rw [constructPolygon_eq, constructPolygon_eq, List.flatten_reverse, List.map_map]
    have h0 : (List.map (List.reverse ∘ List.reverse) cells) = cells := by
      conv_rhs => rw [← List.map_id cells]
      apply List.map_congr_left
      intro c _
      exact List.reverse_reverse c
    rw [h0]
    generalize cells.flatten = l
    cases l with
    | nil => rfl
    | cons a l =>
      have h1 : (a :: l).reverse = (a :: l.reverse).rotate 1 := by
        rw [List.rotate_cons_succ, List.rotate_zero, List.reverse_cons]
      have h2 : closed (a :: l.reverse) = (closed (a :: l)).reverse := by
        unfold closed
        simp
      rw [h1, within_perm (closed_rotate_one _), h2, within_reverse]
  unfold phase
  rw [h]

/-- **C95 (two phases).** At every point density and viscosity are both those of the first or both those of the second fluid. -/
theorem C95_two_phases (ρ Δρ μ Δμ : K) (cells : List (List (K × K))) (x y : K) (z : List K) :
    phase ρ Δρ μ Δμ cells x y z = (ρ, μ) ∨ phase ρ Δρ μ Δμ cells x y z = (ρ + Δρ, μ + Δμ) := by
  unfold phase
  split_ifs with h1 h2
  · exact .inl rfl
  · right; simp
  · left; simp

theorem telescope (h : K × K → ℤ) (l : List (K × K)) (a : K × K) :
    ((edges (a :: l)).map fun e => h e.2 - h e.1).sum = h ((a :: l).getLast (List.cons_ne_nil _ _)) - h a := by
  induction l generalizing a with
  | nil => simp [edges]
  | cons b l ih =>
    rw [edges_cons_cons, List.map_cons, List.sum_cons, ih b, List.getLast_cons (List.cons_ne_nil _ _)]
    ring

theorem telescope_closed (h : K × K → ℤ) (l : List (K × K)) :
    ((edges (closed l)).map fun e => h e.2 - h e.1).sum = 0 := by
  cases l with
  | nil => rfl
  | cons a l =>
    have : closed (a :: l) = a :: (l ++ [a]) := rfl
    rw [this, telescope]
    rw [List.getLast_cons (by simp), List.getLast_append_singleton]
    ring

theorem mem_of_mem_edges {l : List (K × K)} {e : (K × K) × (K × K)} (h : e ∈ edges (closed l)) : e.1 ∈ l ∧ e.2 ∈ l := by
  have h1 := List.of_mem_zip h
  have hc : ∀ v ∈ closed l, v ∈ l := by
    intro v hv
    rcases List.mem_append.1 hv with hv | hv
    · exact hv
    · exact List.mem_of_mem_take hv
  exact ⟨hc _ h1.1, hc _ (List.mem_of_mem_tail h1.2)⟩

theorem within_separated (pts : List (K × K)) (p : K × K) (α β : K)
    (h : ∀ v ∈ pts, α * p.1 + β * p.2 < α * v.1 + β * v.2) : within (closed pts) p = false := by
  unfold within
  rw [decide_eq_false_iff_not]
  rintro ⟨-, hne⟩
  apply hne
  have key : ∀ e ∈ edges (closed pts), (e.1.2 ≤ p.2 → p.2 < e.2.2 → 0 < α * side e.1 e.2 p) ∧
      (e.2.2 ≤ p.2 → p.2 < e.1.2 → α * side e.1 e.2 p < 0) := by
    intro e he
    obtain ⟨ha, hb⟩ := mem_of_mem_edges he
    have h1 : 0 < α * (e.1.1 - p.1) + β * (e.1.2 - p.2) := by linarith [h _ ha]
    have h2 : 0 < α * (e.2.1 - p.1) + β * (e.2.2 - p.2) := by linarith [h _ hb]
    rw [side_origin]
    generalize e.1.1 - p.1 = ax at *
    generalize e.2.1 - p.1 = bx at *
    constructor
    · intro h3 h4
      have h5 : 0 ≤ -(e.1.2 - p.2) := by linarith
      have h6 : 0 < e.2.2 - p.2 := by linarith
      generalize e.1.2 - p.2 = ay at *
      generalize e.2.2 - p.2 = bY at *
      have h7 := mul_pos h1 h6
      have h8 := mul_nonneg h2.le h5
      linarith [h7, h8]
    · intro h3 h4
      have h5 : 0 ≤ -(e.2.2 - p.2) := by linarith
      have h6 : 0 < e.1.2 - p.2 := by linarith
      generalize e.1.2 - p.2 = ay at *
      generalize e.2.2 - p.2 = bY at *
      have h7 := mul_pos h2 h6
      have h8 := mul_nonneg h1.le h5
      linarith [h7, h8]
  by_cases hα : 0 < α
  · rw [← telescope_closed (fun v => if p.2 < v.2 then 1 else 0) pts]
    congr 1
    apply List.map_congr_left
    intro e he
    obtain ⟨k1, k2⟩ := key e he
    unfold turn
    by_cases ha : p.2 < e.1.2
    · by_cases hb : p.2 < e.2.2
      · rw [if_neg (fun hh => absurd hh.1 (not_le.2 ha)), if_neg (fun hh => absurd hh.1 (not_le.2 hb)), if_pos ha, if_pos hb]; rfl
      · have := k2 (not_lt.1 hb) ha
        rw [if_neg (fun hh => absurd hh.1 (not_le.2 ha)), if_pos ⟨not_lt.1 hb, ha, by nlinarith⟩, if_pos ha, if_neg hb]; rfl
    · by_cases hb : p.2 < e.2.2
      · have := k1 (not_lt.1 ha) hb
        rw [if_pos ⟨not_lt.1 ha, hb, by nlinarith⟩, if_neg ha, if_pos hb]; rfl
      · rw [if_neg (fun hh => hb hh.2.1), if_neg (fun hh => ha hh.2.1), if_neg ha, if_neg hb]; rfl
  · have hz : ∀ e ∈ edges (closed pts), turn p e = 0 := by
      intro e he
      obtain ⟨k1, k2⟩ := key e he
      unfold turn
      rw [if_neg, if_neg]
      · rintro ⟨h1, h2, h3⟩
        have := k2 h1 h2
        nlinarith
      · rintro ⟨h1, h2, h3⟩
        have := k1 h1 h2
        nlinarith
    rw [List.map_congr_left hz]
    simp

/-- **C95 (outside).** For every surface mesh, however its cells are ordered, a point that a straight line separates from all its
quadrature points gets the properties of the outer fluid. -/
theorem C95_outside (ρ Δρ μ Δμ : K) (cells : List (List (K × K))) (x y : K) (z : List K) (α β : K)
    (h : ∀ c ∈ cells, ∀ v ∈ c, α * x + β * y < α * v.1 + β * v.2) : phase ρ Δρ μ Δμ cells x y z = (ρ, μ) := by
  have hw : within (constructPolygon cells) (x, y) = false := by
    rw [constructPolygon_eq]
    refine within_separated _ _ α β fun v hv => ?_
    obtain ⟨c, hc, hv⟩ := List.mem_flatten.1 hv
    exact h c hc v hv
  unfold phase
  rw [hw]
  by_cases hd : Δρ = 0 ∧ Δμ = 0
  · rw [if_pos hd]
  · rw [if_neg hd]; simp

/-- **C95 (no overshoot).** If the quadrature points lie in a half plane, so do all points marked as inner fluid (with two
different fluids). Hence the inner fluid never leaves a convex set that contains the interface. -/
theorem C95_no_overshoot (ρ Δρ μ Δμ : K) (cells : List (List (K × K))) (x y : K) (z : List K) (α β γ : K)
    (h : ∀ c ∈ cells, ∀ v ∈ c, γ ≤ α * v.1 + β * v.2) (hin : phase ρ Δρ μ Δμ cells x y z ≠ (ρ, μ)) :
    γ ≤ α * x + β * y := by
  by_contra hlt
  exact hin (C95_outside ρ Δρ μ Δμ cells x y z α β fun c hc v hv => lt_of_lt_of_le (not_le.1 hlt) (h c hc v hv))

/-! #### Convex interfaces -/

theorem edges_iff_side (pts : List (K × K)) (a b : K × K) : (a, b) ∈ edges (closed pts) ↔ Spec.Side pts a b := by
  have hlen : (closed pts).length = pts.length + min 1 pts.length := by
    unfold closed; rw [List.length_append, List.length_take]
  have hget : ∀ i (hi : i < pts.length) (hi' : i < (closed pts).length), (closed pts)[i] = pts[i] := by
    intro i hi hi'
    exact List.getElem_append_left (bs := pts.take 1) hi
  have hget' : ∀ i (hi : i < pts.length) (hi' : i + 1 < (closed pts).length),
      (closed pts)[i + 1] = pts[(i + 1) % pts.length]'(Nat.mod_lt _ (by omega)) := by
    intro i hi hi'
    by_cases h : i + 1 < pts.length
    · rw [hget _ h]
      congr 1
      exact (Nat.mod_eq_of_lt h).symm
    · have h' : i + 1 = pts.length := by omega
      refine (List.getElem_append_right (as := pts) (bs := pts.take 1) (by omega)).trans ?_
      rw [List.getElem_take]
      congr 1
      rw [h', Nat.mod_self]; omega
  unfold edges Spec.Side
  rw [List.mem_iff_getElem]
  constructor
  · rintro ⟨i, hi, he⟩
    rw [List.getElem_zip] at he
    rw [List.length_zip, List.length_tail, hlen] at hi
    have hi1 : i < pts.length := by omega
    refine ⟨i, hi1, ?_, ?_⟩
    · rw [← hget i hi1 (by rw [hlen]; omega)]; exact (congrArg Prod.fst he).symm
    · rw [← hget' i hi1 (by rw [hlen]; omega)]
      have := (congrArg Prod.snd he).symm
      simpa [List.getElem_tail] using this
  · rintro ⟨i, hi, rfl, rfl⟩
    refine ⟨i, ?_, ?_⟩
    · rw [List.length_zip, List.length_tail, hlen]; omega
    · rw [List.getElem_zip]
      refine Prod.ext ?_ ?_
      · exact hget i hi _
      · dsimp only
        rw [List.getElem_tail]
        exact hget' i hi _

/-- A closed path that always turns left about `p` crosses the horizontal line through `p` upwards. -/
theorem exists_up (n : ℕ) (hn : 0 < n) (w : ℕ → K × K) (hper : ∀ i, w (i + n) = w i) (p : K × K)
    (hl : ∀ i, 0 < side (w i) (w (i + 1)) p) : ∃ i, (w i).2 ≤ p.2 ∧ p.2 < (w (i + 1)).2 := by
  by_contra hno
  have hstep : ∀ i, (w i).2 ≤ p.2 → (w (i + 1)).2 ≤ p.2 := by
    intro i hi
    by_contra hc
    exact hno ⟨i, hi, not_le.1 hc⟩
  have hmul : ∀ k i, w (i + k * n) = w i := by
    intro k
    induction k with
    | zero => intro i; rw [Nat.zero_mul, Nat.add_zero]
    | succ k ih => intro i; rw [Nat.succ_mul, ← Nat.add_assoc, hper, ih]
  have hcross : ∀ i, 0 < ((w i).1 - p.1) * ((w (i + 1)).2 - p.2) - ((w i).2 - p.2) * ((w (i + 1)).1 - p.1) := by
    intro i; rw [← side_origin]; exact hl i
  have hsame : (∀ i, (w i).2 - p.2 < 0) ∨ (∀ i, 0 < (w i).2 - p.2) := by
    by_cases hex : ∃ i, (w i).2 ≤ p.2
    · left
      obtain ⟨i0, hi0⟩ := hex
      have hge : ∀ j, (w (i0 + j)).2 ≤ p.2 := by
        intro j
        induction j with
        | zero => exact hi0
        | succ j ih => exact hstep _ ih
      have hall : ∀ k, (w k).2 ≤ p.2 := by
        intro k
        have hle : i0 ≤ k + i0 * n := by nlinarith
        obtain ⟨j, hj⟩ := Nat.exists_eq_add_of_le hle
        rw [← hmul i0 k, hj]
        exact hge j
      intro i
      rcases lt_or_eq_of_le (hall i) with h | h
      · linarith
      · exfalso
        have h1 := hcross i
        have h2 := hcross (i + n - 1)
        have h3 : i + n - 1 + 1 = i + n := by omega
        rw [h3, hper] at h2
        have h4 := hall (i + 1)
        have h5 := hall (i + n - 1)
        rw [h, sub_self] at h1 h2
        have h6 : (w i).1 - p.1 < 0 := by
          by_contra hc
          have : ((w i).1 - p.1) * ((w (i + 1)).2 - p.2) ≤ 0 := mul_nonpos_of_nonneg_of_nonpos (not_lt.1 hc) (by linarith)
          linarith
        have : 0 ≤ ((w (i + n - 1)).2 - p.2) * ((w i).1 - p.1) := mul_nonneg_of_nonpos_of_nonpos (by linarith) h6.le
        linarith
    · right
      intro i
      have : ¬ (w i).2 ≤ p.2 := fun h => hex ⟨i, h⟩
      linarith [not_le.1 this]
  have hdec : ∀ i, ((w (i + 1)).1 - p.1) / ((w (i + 1)).2 - p.2) < ((w i).1 - p.1) / ((w i).2 - p.2) := by
    intro i
    have hc := hcross i
    have hp : 0 < ((w i).2 - p.2) * ((w (i + 1)).2 - p.2) := by
      rcases hsame with h | h
      · exact mul_pos_of_neg_of_neg (h i) (h (i + 1))
      · exact mul_pos (h i) (h (i + 1))
    have hz1 : (w i).2 - p.2 ≠ 0 := left_ne_zero_of_mul hp.ne'
    have hz2 : (w (i + 1)).2 - p.2 ≠ 0 := right_ne_zero_of_mul hp.ne'
    rw [← sub_pos, div_sub_div _ _ hz1 hz2]
    exact div_pos hc hp
  have hanti : ∀ k, 0 < k → ((w k).1 - p.1) / ((w k).2 - p.2) < ((w 0).1 - p.1) / ((w 0).2 - p.2) := by
    intro k hk
    induction k with
    | zero => omega
    | succ k ih =>
      rcases Nat.eq_zero_or_pos k with rfl | hk'
      · exact hdec 0
      · exact lt_trans (hdec k) (ih hk')
  have := hanti n hn
  rw [show w n = w 0 by have := hper 0; rwa [Nat.zero_add] at this] at this
  exact lt_irrefl _ this

theorem within_of_interior (pts : List (K × K)) (hne : pts ≠ []) (p : K × K) (h : Spec.Interior pts p) :
    within (closed pts) p = true := by
  have hside : ∀ e ∈ edges (closed pts), 0 < side e.1 e.2 p := by
    intro e he
    exact h e.1 e.2 ((edges_iff_side pts e.1 e.2).1 he)
  have hnn : ∀ e ∈ edges (closed pts), 0 ≤ turn p e := by
    intro e he
    unfold turn
    split_ifs with h1 h2
    · exact zero_le_one
    · exact absurd h2.2.2 (not_lt.2 (hside e he).le)
    · exact le_rfl
  have hlen : 0 < pts.length := List.length_pos_iff.2 hne
  obtain ⟨i, hi1, hi2⟩ := exists_up pts.length hlen (fun i => pts[i % pts.length]'(Nat.mod_lt _ hlen))
    (fun i => by congr 1; exact Nat.add_mod_right _ _) p (by
      intro i
      have hS : Spec.Side pts (pts[i % pts.length]'(Nat.mod_lt _ hlen)) (pts[(i + 1) % pts.length]'(Nat.mod_lt _ hlen)) := by
        refine ⟨i % pts.length, Nat.mod_lt _ hlen, rfl, ?_⟩
        congr 1
        rw [Nat.mod_add_mod]
      exact h _ _ hS)
  set a := pts[i % pts.length]'(Nat.mod_lt _ hlen) with ha
  set b := pts[(i + 1) % pts.length]'(Nat.mod_lt _ hlen) with hb
  have hmem : (a, b) ∈ edges (closed pts) := by
    rw [edges_iff_side]
    refine ⟨i % pts.length, Nat.mod_lt _ hlen, rfl, ?_⟩
    rw [hb]
    congr 1
    rw [Nat.mod_add_mod]
  unfold within
  rw [decide_eq_true_eq]
  constructor
  · intro e he hon
    exact absurd hon.1 (hside e he).ne'
  · have hturn : turn p (a, b) = 1 := if_pos ⟨hi1, hi2, hside _ hmem⟩
    have hle : turn p (a, b) ≤ ((edges (closed pts)).map (turn p)).sum := by
      refine List.single_le_sum ?_ _ (List.mem_map_of_mem hmem)
      intro t ht
      obtain ⟨e, he, rfl⟩ := List.mem_map.1 ht
      exact hnn e he
    rw [hturn] at hle
    omega

theorem exists_eps (f g : K × K → K) (l : List (K × K)) (h : ∀ v ∈ l, 0 < f v ∨ (f v = 0 ∧ 0 < g v)) :
    ∃ ε : K, 0 < ε ∧ ∀ ε', 0 < ε' → ε' ≤ ε → ∀ v ∈ l, 0 < f v + ε' * g v := by
  induction l with
  | nil => exact ⟨1, one_pos, fun _ _ _ v hv => by cases hv⟩
  | cons a l ih =>
    obtain ⟨ε, hε, hl⟩ := ih fun v hv => h v (List.mem_cons_of_mem _ hv)
    have ha : ∃ δ : K, 0 < δ ∧ ∀ ε', 0 < ε' → ε' ≤ δ → 0 < f a + ε' * g a := by
      rcases h a List.mem_cons_self with hf | ⟨hf, hg⟩
      · refine ⟨f a / (1 + |g a|), div_pos hf (by positivity), ?_⟩
        intro ε' h0 h1
        have hpos : 0 < 1 + |g a| := by positivity
        have h2 : ε' * (1 + |g a|) ≤ f a := (le_div_iff₀ hpos).1 h1
        have h3 : -|g a| ≤ g a := neg_abs_le _
        nlinarith
      · exact ⟨1, one_pos, fun ε' h0 _ => by rw [hf, zero_add]; exact mul_pos h0 hg⟩
    obtain ⟨δ, hδ, ha⟩ := ha
    refine ⟨min ε δ, lt_min hε hδ, ?_⟩
    intro ε' h0 h1 v hv
    rcases List.mem_cons.1 hv with rfl | hv
    · exact ha ε' h0 (le_trans h1 (min_le_right _ _))
    · exact hl ε' h0 (le_trans h1 (min_le_left _ _)) v hv

theorem not_within_of_exterior (pts : List (K × K)) (hc : Spec.Convex pts) (p : K × K) (h : ¬ Spec.Interior pts p) :
    within (closed pts) p = false := by
  unfold Spec.Interior at h
  push Not at h
  obtain ⟨a, b, hS, hle⟩ := h
  obtain ⟨hab, hleft⟩ := hc a b hS
  have hle' : side a b p ≤ 0 := hle
  rcases lt_or_eq_of_le hle' with hlt | heq
  · refine within_separated pts p (-(b.2 - a.2)) (b.1 - a.1) fun v hv => ?_
    have hv0 : 0 ≤ side a b v := by
      rcases hleft v hv with rfl | rfl | h
      · unfold side; rw [sub_self, sub_self]; simp
      · unfold side; linarith [mul_comm (v.1 - a.1) (v.2 - a.2)]
      · exact h.le
    unfold side at hlt hv0
    linarith
  · by_cases hon : onEdge p (a, b)
    · unfold within
      rw [decide_eq_false_iff_not]
      rintro ⟨h1, -⟩
      exact h1 _ ((edges_iff_side pts a b).2 hS) hon
    · have hdot : 0 < (p.1 - a.1) * (p.1 - b.1) + (p.2 - a.2) * (p.2 - b.2) := by
        by_contra hcn
        exact hon ⟨heq, not_lt.1 hcn⟩
      have hd : 0 < (b.1 - a.1) ^ 2 + (b.2 - a.2) ^ 2 := by
        by_contra hcn
        have h1 : (b.1 - a.1) = 0 := by nlinarith [sq_nonneg (b.1 - a.1), sq_nonneg (b.2 - a.2)]
        have h2 : (b.2 - a.2) = 0 := by nlinarith [sq_nonneg (b.1 - a.1), sq_nonneg (b.2 - a.2)]
        exact hab (Prod.ext (by linarith) (by linarith))
      have hprod : 0 < ((p.1 - a.1) * (b.1 - a.1) + (p.2 - a.2) * (b.2 - a.2)) *
          ((p.1 - b.1) * (b.1 - a.1) + (p.2 - b.2) * (b.2 - a.2)) := by
        have hid : ((p.1 - a.1) * (b.1 - a.1) + (p.2 - a.2) * (b.2 - a.2)) *
            ((p.1 - b.1) * (b.1 - a.1) + (p.2 - b.2) * (b.2 - a.2))
            = ((p.1 - a.1) * (p.1 - b.1) + (p.2 - a.2) * (p.2 - b.2)) * ((b.1 - a.1) ^ 2 + (b.2 - a.2) ^ 2)
              - side a b p * side a b p := by unfold side; ring
        rw [hid, heq]
        have := mul_pos hdot hd
        linarith
      -- direction away from the side
      obtain ⟨σ, hσ, hga, hgb⟩ : ∃ σ : K, σ ^ 2 = 1 ∧
          0 < σ * ((a.1 - p.1) * (b.1 - a.1) + (a.2 - p.2) * (b.2 - a.2)) ∧
          0 < σ * ((b.1 - p.1) * (b.1 - a.1) + (b.2 - p.2) * (b.2 - a.2)) := by
        rcases pos_and_pos_or_neg_and_neg_of_mul_pos hprod with ⟨h1, h2⟩ | ⟨h1, h2⟩
        · exact ⟨-1, by norm_num, by linarith, by linarith⟩
        · exact ⟨1, by norm_num, by linarith, by linarith⟩
      obtain ⟨ε, hε, hall⟩ := exists_eps (fun v => side a b v)
        (fun v => σ * ((v.1 - p.1) * (b.1 - a.1) + (v.2 - p.2) * (b.2 - a.2))) pts (by
          intro v hv
          rcases hleft v hv with rfl | rfl | h
          · right; exact ⟨by unfold side; ring, hga⟩
          · right; exact ⟨by unfold side; ring, hgb⟩
          · left; exact h)
      refine within_separated pts p (-(b.2 - a.2) + ε * σ * (b.1 - a.1)) ((b.1 - a.1) + ε * σ * (b.2 - a.2)) fun v hv => ?_
      have h1 := hall ε hε le_rfl v hv
      unfold side at h1 heq
      linarith

/-- **C95 (convex interface).** If the quadrature points, in the order of the cells, run once counter-clockwise around a strictly
convex polygon, exactly the points in its interior get the properties of the inner fluid. -/
theorem C95_convex_partial (ρ Δρ μ Δμ : K) (hdiff : ¬ (Δρ = 0 ∧ Δμ = 0)) (cells : List (List (K × K)))
    (hne : cells.flatten ≠ []) (hc : Spec.Convex cells.flatten) (x y : K) (z : List K) :
    (Spec.Interior cells.flatten (x, y) → phase ρ Δρ μ Δμ cells x y z = (ρ + Δρ, μ + Δμ)) ∧
    (¬ Spec.Interior cells.flatten (x, y) → phase ρ Δρ μ Δμ cells x y z = (ρ, μ)) := by
  unfold phase
  rw [if_neg hdiff, constructPolygon_eq]
  constructor
  · intro h
    rw [within_of_interior _ hne _ h]; simp
  · intro h
    rw [not_within_of_exterior _ hc _ h]; simp

theorem withinField_flatten (cells : List (List (K × K))) (bg : List (List (ℕ × (K × K)))) : ∀ (v : ℕ → K),
    withinField cells bg v =
      bg.flatten.foldl (fun v e => Function.update v e.1 (if within (constructPolygon cells) e.2 then 1 else 0)) v := by
  unfold withinField
  induction bg with
  | nil => intro v; rfl
  | cons b bg ih => intro v; rw [List.foldl_cons, List.flatten_cons, List.foldl_append]; exact ih _

theorem foldl_update (g : K × K → K) (k : ℕ) (y : K) (l : List (ℕ × (K × K))) (hy : ∀ e ∈ l, e.1 = k → g e.2 = y) :
    ∀ (v : ℕ → K), ((∃ e ∈ l, e.1 = k) ∨ v k = y) → l.foldl (fun v e => Function.update v e.1 (g e.2)) v k = y := by
  induction l with
  | nil => intro v h; rcases h with ⟨e, he, _⟩ | h
           · cases he
           · exact h
  | cons a l ih =>
    intro v h
    rw [List.foldl_cons]
    refine ih (fun e he => hy e (List.mem_cons_of_mem _ he)) _ ?_
    by_cases ha : a.1 = k
    · right; subst ha; rw [Function.update_self]; exact hy a List.mem_cons_self rfl
    · rcases h with ⟨e, he, hek⟩ | h
      · rcases List.mem_cons.1 he with rfl | he
        · exact absurd hek ha
        · exact Or.inl ⟨e, he, hek⟩
      · right; rw [Function.update_of_ne (Ne.symm ha)]; exact h

/-- **C95 (indicator field).** The field variant, for a strictly convex interface: if cells that share an unknown agree on its
support point, every unknown of the background mesh is set to one if its support point is inside the interface and to zero
otherwise, in every order of the cells and whatever the vector contained; entries that belong to no cell are left alone. -/
theorem C95_indicator_field (cells : List (List (K × K))) (hne : cells.flatten ≠ []) (hc : Spec.Convex cells.flatten)
    (bg : List (List (ℕ × (K × K)))) (hs : ∀ e ∈ bg.flatten, ∀ e' ∈ bg.flatten, e.1 = e'.1 → e.2 = e'.2) (v : ℕ → K) :
    (∀ c ∈ bg, ∀ e ∈ c, (Spec.Interior cells.flatten e.2 → withinField cells bg v e.1 = 1) ∧
      (¬ Spec.Interior cells.flatten e.2 → withinField cells bg v e.1 = 0)) ∧
    ∀ k, (∀ c ∈ bg, ∀ e ∈ c, e.1 ≠ k) → withinField cells bg v k = v k := by
  refine ⟨fun c hcm e he => ?_, fun k hk => ?_⟩
  · have hmem : e ∈ bg.flatten := List.mem_flatten.2 ⟨c, hcm, he⟩
    have h := foldl_update (fun p => if within (constructPolygon cells) p then (1 : K) else 0) e.1 _ bg.flatten
      (fun e' he' h' => by rw [hs e' he' e hmem h']) v (Or.inl ⟨e, hmem, rfl⟩)
    rw [withinField_flatten]
    rw [constructPolygon_eq] at h ⊢
    refine ⟨fun hi => ?_, fun hi => ?_⟩
    · rw [h, within_of_interior _ hne _ hi, if_pos rfl]
    · rw [h, not_within_of_exterior _ hc _ hi, if_neg (by simp)]
  · rw [withinField_flatten]
    exact foldl_update (fun p => if within (constructPolygon cells) p then (1 : K) else 0) k (v k) _ (fun e he hek => by
      obtain ⟨c, hcm, hec⟩ := List.mem_flatten.1 he
      exact absurd hek (hk c hcm e hec)) v (Or.inr rfl)

/-! ### What is false of the code -/

/-- An octagon as the quadrature points of four cells: bottom, right, top, left. -/
def exCells : List (List (ℚ × ℚ)) :=
  [[(-1 / 2, -1), (1 / 2, -1)], [(1, -1 / 2), (1, 1 / 2)], [(1 / 2, 1), (-1 / 2, 1)], [(-1, 1 / 2), (-1, -1 / 2)]]

/-- The same cells in another order: bottom, left, right, top (each still oriented counter-clockwise). -/
def exShuffled : List (List (ℚ × ℚ)) :=
  [[(-1 / 2, -1), (1 / 2, -1)], [(-1, 1 / 2), (-1, -1 / 2)], [(1, -1 / 2), (1, 1 / 2)], [(1 / 2, 1), (-1 / 2, 1)]]

/-- **C95 (order of the cells, counterexample).** A mesh need not number its cells along the curve. The same convex interface with
its cells in another order: a point well inside is treated as outer fluid. -/
theorem C95_cell_order_matters : exShuffled.Perm exCells ∧
    phase (1 : ℚ) 9 1 0 exCells (-8 / 10) (1 / 2) [] = (10, 1) ∧ phase (1 : ℚ) 9 1 0 exShuffled (-8 / 10) (1 / 2) [] = (1, 1) := by
  refine ⟨by decide +kernel, by decide +kernel, by decide +kernel⟩

/-- **C95 (three dimensions, counterexample).** The third coordinate is ignored (the polygon is made of the first two coordinates of
the surface points and so is the query): a point above all surface points, far away from them, is treated as inner fluid if it
projects into the polygon. -/
theorem C95_third_coordinate_ignored : ∀ height : ℚ, phase (1 : ℚ) 9 1 0 exCells 0 0 [height] = (10, 1) := by
  intro height
  have h : phase (1 : ℚ) 9 1 0 exCells 0 0 [height] = phase (1 : ℚ) 9 1 0 exCells 0 0 [0] := rfl
  rw [h]
  decide +kernel

/-! ### Non-vacuity -/

def checkConvex (pts : List (ℚ × ℚ)) : Bool :=
  (edges (closed pts)).all fun e => decide (e.1 ≠ e.2) && pts.all fun v =>
    decide (v = e.1) || decide (v = e.2) || decide (0 < (e.2.1 - e.1.1) * (v.2 - e.1.2) - (e.2.2 - e.1.2) * (v.1 - e.1.1))

theorem convex_of_check (pts : List (ℚ × ℚ)) (h : checkConvex pts = true) : Spec.Convex pts := by
  intro a b hS
  have he := (edges_iff_side pts a b).2 hS
  unfold checkConvex at h
  have h1 := List.all_eq_true.1 h _ he
  simp only [Bool.and_eq_true, decide_eq_true_eq, List.all_eq_true, Bool.or_eq_true] at h1
  refine ⟨h1.1, fun v hv => ?_⟩
  rcases h1.2 v hv with (h | h) | h
  · exact .inl h
  · exact .inr (.inl h)
  · exact .inr (.inr h)

example : Spec.Convex exCells.flatten := convex_of_check _ (by decide +kernel)

/-- Two background cells that share the unknowns 1 and 3, one of them inside the octagon. -/
example : (List.range 6).map (withinField exCells
    [[(0, ((-2 : ℚ), (0 : ℚ))), (1, (0, 0)), (2, (-2, 2)), (3, (0, 2))], [(1, (0, 0)), (4, (2, 0)), (3, (0, 2))]] fun _ => 7) =
    [0, 1, 0, 0, 0, 7] := by decide +kernel

example : Spec.Interior exCells.flatten ((-8 / 10 : ℚ), (1 / 2 : ℚ)) := by
  intro a b hS
  have he := (edges_iff_side _ a b).2 hS
  have : ∀ e ∈ edges (closed exCells.flatten),
      0 < (e.2.1 - e.1.1) * ((1 / 2 : ℚ) - e.1.2) - (e.2.2 - e.1.2) * (-8 / 10 - e.1.1) := by decide +kernel
  exact this _ he

example : ∀ c ∈ exCells, ∀ v ∈ c, (1 : ℚ) * (-2) + 0 * 0 < 1 * v.1 + 0 * v.2 := by decide +kernel

end Verif.Sharp
