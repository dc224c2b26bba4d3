import Verif.Boundary.Model
import Mathlib.Analysis.SpecialFunctions.Trigonometric.Basic
import Mathlib.Analysis.SpecialFunctions.Trigonometric.Deriv
import Mathlib.Analysis.Real.Sqrt
import Mathlib.Algebra.BigOperators.Fin
import Mathlib.Algebra.Order.BigOperators.Ring.Finset
import Mathlib.Topology.Order.Basic
import Mathlib.Tactic.Linarith
import Mathlib.Tactic.NormNum
import Mathlib.Tactic.FieldSimp
import Mathlib.Tactic.Positivity
import Mathlib.Tactic.Ring
import Mathlib.Tactic.IntervalCases

/-!
# C101: geometry and boundary conditions of the micro-particle application
(applications/micro_particle.cc)
-/

namespace Verif.App.Particle

open Verif.Boundary

/-! ## Model -/

/-- the `switch` of `BoundaryValuesVelocity::value`, micro_particle.cc:113-135; `none`: "Unknown boundary type" -/
noncomputable def fullValue (ind comp : ℕ) : Option ℝ :=
  if ind = 1 then some (if comp = 0 then 1 / 2 else 0)
  else if ind = 2 then some (if comp = 0 then 0 else 1)
  else if ind = 3 then some (if comp = 0 then -10 else 0)
  else none

/-- ramp in time, micro_particle.cc:136-139 -/
noncomputable def ramp (t v : ℝ) : ℝ :=
  if t ≤ 0 then 0 else if t < 1 / 100 then v * Real.sin (Real.pi * t / (2 / 100)) else v

/-- `BoundaryValuesVelocity::value`, micro_particle.cc:105-141; `vector_value` (143-150) calls it for every component -/
noncomputable def bcValue (ind comp : ℕ) (t : ℝ) : Option ℝ := (fullValue ind comp).map (ramp t)

/-- boundary id and manifold id of a face -/
structure Ids where
  bid : ℕ
  man : ℕ
  deriving DecidableEq

open Classical in
/-- the part of `set_boundary_indicators` that looks at x and y, for a face at the boundary, micro_particle.cc:238-275 -/
noncomputable def setIdsXY (x y : ℝ) (f : Ids) : Ids :=
  let f := if |x + 2| < 1 / 10 ^ 14 then { f with bid := 1 } else f
  let f := if |x - 3| < 1 / 10 ^ 14 then { f with bid := 3 } else f
  let f := if |y + 1 / 2| < 1 / 10 ^ 14 then { f with bid := 2 } else f
  let f := if |y - 8| < 1 / 10 ^ 14 then { f with bid := 4 } else f
  let f := if (y ≤ 3 / 2 ∧ y ≥ 1 / 2) ∧ (x ≤ 0 ∧ x ≥ -1) then { f with man := 12 } else f
  let f := if (y ≤ 3 / 2 ∧ y ≥ 1 / 2) ∧ (x ≤ 2 ∧ x ≥ 1) then { f with man := 23 } else f
  let f := if (y ≤ 9 / 2 ∧ y ≥ 7 / 2) ∧ (x ≤ 2 ∧ x ≥ 1) then { f with man := 34 } else f
  if (y ≤ 9 / 2 ∧ y ≥ 7 / 2) ∧ (x ≤ 0 ∧ x ≥ -1) then { f with man := 41 } else f

open Classical in
/-- body of `set_boundary_indicators` for a face at the boundary with center (x, y, z), micro_particle.cc:238-287;
`is3d` is `dim == 3`. Faces in the interior are not touched. -/
noncomputable def setIds (is3d : Bool) (x y z : ℝ) (f : Ids) : Ids :=
  let f := setIdsXY x y f
  let f := if is3d ∧ |z| < 1 / 10 ^ 14 then { f with bid := 0 } else f
  if is3d ∧ |z - 1| < 1 / 10 ^ 14 then { f with bid := 0 } else f

/-- center of the polar manifold with the given id, micro_particle.cc:304-315 (cylinder axes in 3D: 328-343) -/
noncomputable def manifoldCenter (man : ℕ) : ℝ × ℝ :=
  if man = 12 then (-1, 1 / 2) else if man = 23 then (2, 1 / 2) else if man = 34 then (2, 9 / 2) else (-1, 9 / 2)

/-- `set_all_boundary_conditions`, micro_particle.cc:351-392 -/
def calls (dim : ℕ) (pressureConstraint : Bool) : List Call :=
  [.dirichlet 1 (some ⟨1, dim⟩) (-1), .dirichlet 2 (some ⟨2, dim⟩) (-1), .dirichlet 3 (some ⟨3, dim⟩) (-1),
   .noSlip 0, .noSlip 12, .noSlip 23, .noSlip 34, .noSlip 41] ++
  (if pressureConstraint then [.noSlip 0, .noSlip 12, .noSlip 23, .noSlip 34, .noSlip 41] else []) ++
  [.openFlux 4 (some ⟨4, 1⟩) 0]

/-- `InitialValuesLS::value`, micro_particle.cc:74-81 -/
noncomputable def initialDistance {dim : ℕ} (p : Fin dim → ℝ) : ℝ :=
  Real.sqrt (∑ d, (p d - 1 / 2) * (p d - 1 / 2)) - 1 / 4

/-! ## Specification -/

namespace Spec

/-- The pieces of the boundary of the cross-shaped channel -/
inductive Piece
  | left | right | bottom | top
  | wallBottomL | wallBottomR | wallRightLow | wallRightHigh | wallTopR | wallTopL | wallLeftHigh | wallLeftLow
  | arc12 | arc23 | arc34 | arc41
  deriving DecidableEq

/-- the points of a piece -/
def On : Piece → ℝ → ℝ → Prop
  | .left, x, y => x = -2 ∧ 3 / 2 ≤ y ∧ y ≤ 7 / 2
  | .right, x, y => x = 3 ∧ 3 / 2 ≤ y ∧ y ≤ 7 / 2
  | .bottom, x, y => y = -1 / 2 ∧ 0 ≤ x ∧ x ≤ 1
  | .top, x, y => y = 8 ∧ 0 ≤ x ∧ x ≤ 1
  | .wallBottomL, x, y => x = 0 ∧ -1 / 2 ≤ y ∧ y ≤ 1 / 2
  | .wallBottomR, x, y => x = 1 ∧ -1 / 2 ≤ y ∧ y ≤ 1 / 2
  | .wallRightLow, x, y => y = 3 / 2 ∧ 2 ≤ x ∧ x ≤ 3
  | .wallRightHigh, x, y => y = 7 / 2 ∧ 2 ≤ x ∧ x ≤ 3
  | .wallTopR, x, y => x = 1 ∧ 9 / 2 ≤ y ∧ y ≤ 8
  | .wallTopL, x, y => x = 0 ∧ 9 / 2 ≤ y ∧ y ≤ 8
  | .wallLeftHigh, x, y => y = 7 / 2 ∧ -2 ≤ x ∧ x ≤ -1
  | .wallLeftLow, x, y => y = 3 / 2 ∧ -2 ≤ x ∧ x ≤ -1
  | .arc12, x, y => (x + 1) ^ 2 + (y - 1 / 2) ^ 2 = 1 ∧ -1 ≤ x ∧ 1 / 2 ≤ y
  | .arc23, x, y => (x - 2) ^ 2 + (y - 1 / 2) ^ 2 = 1 ∧ x ≤ 2 ∧ 1 / 2 ≤ y
  | .arc34, x, y => (x - 2) ^ 2 + (y - 9 / 2) ^ 2 = 1 ∧ x ≤ 2 ∧ y ≤ 9 / 2
  | .arc41, x, y => (x + 1) ^ 2 + (y - 9 / 2) ^ 2 = 1 ∧ -1 ≤ x ∧ y ≤ 9 / 2

/-- boundary id and manifold id (0: straight) the pieces are meant to have -/
def intended : Piece → Ids
  | .left => ⟨1, 0⟩
  | .right => ⟨3, 0⟩
  | .bottom => ⟨2, 0⟩
  | .top => ⟨4, 0⟩
  | .arc12 => ⟨0, 12⟩
  | .arc23 => ⟨0, 23⟩
  | .arc34 => ⟨0, 34⟩
  | .arc41 => ⟨0, 41⟩
  | _ => ⟨0, 0⟩

/-- unit normal into the channel at an inlet with the given boundary id -/
noncomputable def inward (ind comp : ℕ) : ℝ :=
  match ind, comp with
  | 1, 0 => 1
  | 2, 1 => 1
  | 3, 0 => -1
  | _, _ => 0

/-- The velocity `v` (given by components) at an inlet is directed straight into the channel with positive speed -/
def StraightIn (dim ind : ℕ) (v : ℕ → ℝ) : Prop := ∃ s > 0, ∀ comp < dim, v comp = s * inward ind comp

end Spec

/-! ## Proofs -/

theorem arc_box {a b : ℝ} (h : a ^ 2 + b ^ 2 = 1) : a ≤ 1 ∧ -1 ≤ a ∧ b ≤ 1 ∧ -1 ≤ b := by
  refine ⟨?_, ?_, ?_, ?_⟩ <;> nlinarith [sq_nonneg a, sq_nonneg b]

set_option maxHeartbeats 1000000 in
/-- **C101 (boundary ids).** In two dimensions every boundary face whose end points lie on one piece of the boundary and
that is not degenerate (longer than 10^-13 in some direction) gets the ids that piece is meant to have. -/
theorem C101_ids_2d (p : Spec.Piece) (x₁ y₁ x₂ y₂ : ℝ) (h1 : Spec.On p x₁ y₁) (h2 : Spec.On p x₂ y₂)
    (hl : 1 / 10 ^ 13 < |x₂ - x₁| ∨ 1 / 10 ^ 13 < |y₂ - y₁|) (z : ℝ) :
    setIds false ((x₁ + x₂) / 2) ((y₁ + y₂) / 2) z ⟨0, 0⟩ = Spec.intended p := by
  have key : ∀ (x y : ℝ) (b m : ℕ),
      (|x + 2| < 1 / 10 ^ 14 ↔ b = 1) → (|x - 3| < 1 / 10 ^ 14 ↔ b = 3) → (|y + 1 / 2| < 1 / 10 ^ 14 ↔ b = 2) →
      (|y - 8| < 1 / 10 ^ 14 ↔ b = 4) → b < 5 →
      ((y ≤ 3 / 2 ∧ y ≥ 1 / 2) ∧ (x ≤ 0 ∧ x ≥ -1) ↔ m = 12) → ((y ≤ 3 / 2 ∧ y ≥ 1 / 2) ∧ (x ≤ 2 ∧ x ≥ 1) ↔ m = 23) →
      ((y ≤ 9 / 2 ∧ y ≥ 7 / 2) ∧ (x ≤ 2 ∧ x ≥ 1) ↔ m = 34) → ((y ≤ 9 / 2 ∧ y ≥ 7 / 2) ∧ (x ≤ 0 ∧ x ≥ -1) ↔ m = 41) →
      (m = 0 ∨ m = 12 ∨ m = 23 ∨ m = 34 ∨ m = 41) → setIds false x y z ⟨0, 0⟩ = ⟨b, m⟩ := by
    intro x y b m k1 k2 k3 k4 hb k5 k6 k7 k8 hm
    unfold setIds setIdsXY
    simp only [k1, k2, k3, k4, k5, k6, k7, k8]
    interval_cases b <;> rcases hm with rfl | rfl | rfl | rfl | rfl <;> simp
  have far : ∀ (u : ℝ), (1 / 10 ^ 14 ≤ u ∨ u ≤ -(1 / 10 ^ 14)) → ¬ |u| < 1 / 10 ^ 14 := by
    intro u hu h
    rw [abs_lt] at h
    rcases hu with hu | hu <;> linarith [h.1, h.2]
  have tiny : (1 : ℝ) / 10 ^ 13 = 10 * (1 / 10 ^ 14) := by norm_num
  have tpos : (0 : ℝ) < 1 / 10 ^ 14 := by positivity
  have tsmall : (1 : ℝ) / 10 ^ 14 < 1 / 1000 := by norm_num
  rw [tiny] at hl
  generalize (1 : ℝ) / 10 ^ 14 = τ at *
  have hl' : 10 * τ < x₂ - x₁ ∨ 10 * τ < x₁ - x₂ ∨ 10 * τ < y₂ - y₁ ∨ 10 * τ < y₁ - y₂ := by
    rcases hl with h | h
    · rcases lt_abs.1 h with h | h
      · exact Or.inl h
      · exact Or.inr (Or.inl (by linarith))
    · rcases lt_abs.1 h with h | h
      · exact Or.inr (Or.inr (Or.inl h))
      · exact Or.inr (Or.inr (Or.inr (by linarith)))
  have no : ∀ {P : Prop} {m k : ℕ}, ¬ P → m ≠ k → (P ↔ m = k) := fun h1 h2 => ⟨fun h => absurd h h1, fun h => absurd h h2⟩
  have yes : ∀ {P : Prop} {m : ℕ}, P → (P ↔ m = m) := fun h1 => ⟨fun _ => rfl, fun _ => h1⟩
  obtain ⟨bx, by'⟩ : (∀ {u v : ℝ}, u ^ 2 + v ^ 2 = 1 → -1 ≤ u ∧ u ≤ 1) ∧ (∀ {u v : ℝ}, u ^ 2 + v ^ 2 = 1 → -1 ≤ v ∧ v ≤ 1) :=
    ⟨fun h => ⟨(arc_box h).2.1, (arc_box h).1⟩, fun h => ⟨(arc_box h).2.2.2, (arc_box h).2.2.1⟩⟩
  have hb1 : ∀ {u : ℝ}, u = 0 → |u| < τ := fun h => by rw [h, abs_zero]; exact tpos
  cases p <;> simp only [Spec.On] at h1 h2 <;> simp only [Spec.intended] <;> obtain ⟨e1, a1, b1⟩ := h1 <;>
    obtain ⟨e2, a2, b2⟩ := h2
  all_goals first
    | (have c1 := bx e1; have c2 := bx e2; have c3 := by' e1; have c4 := by' e2
       apply key <;> first
        | decide
        | exact no (far _ (Or.inl (by linarith [c1.1, c1.2, c2.1, c2.2, c3.1, c3.2, c4.1, c4.2]))) (by decide)
        | exact no (far _ (Or.inr (by linarith [c1.1, c1.2, c2.1, c2.2, c3.1, c3.2, c4.1, c4.2]))) (by decide)
        | exact no (fun h => by linarith [h.1.1, h.1.2, h.2.1, h.2.2, c1.1, c1.2, c2.1, c2.2, c3.1, c3.2, c4.1, c4.2]) (by decide)
        | exact yes ⟨⟨by linarith [c3.2, c4.2], by linarith [c3.1, c4.1]⟩, by linarith [c1.2, c2.2], by linarith [c1.1, c2.1]⟩)
    | (apply key <;> first
        | decide
        | exact yes (hb1 (by linarith))
        | (refine no (far _ ?_) (by decide)
           first
            | (left; linarith)
            | (right; linarith)
            | (left; rcases hl' with h | h | h | h <;> linarith)
            | (right; rcases hl' with h | h | h | h <;> linarith))
        | exact no (fun h => by linarith [h.1.1, h.1.2, h.2.1, h.2.2]) (by decide)
        | exact no (fun h => by rcases hl' with g | g | g | g <;> linarith [h.1.1, h.1.2, h.2.1, h.2.2]) (by decide))

/-- **C101 (boundary ids in 3D).** Faces between the two end planes are treated like the edges they were extruded from;
faces in the end planes become walls whatever id they had. -/
theorem C101_ids_3d (x y z : ℝ) (f : Ids) :
    (1 / 16 ≤ z → z ≤ 15 / 16 → setIds true x y z f = setIds false x y z f) ∧
    (z = 0 ∨ z = 1 → (setIds true x y z f).bid = 0) := by
  have ht : (1 : ℝ) / 10 ^ 14 < 1 / 16 := by norm_num
  have tpos : (0 : ℝ) < 1 / 10 ^ 14 := by positivity
  unfold setIds
  generalize setIdsXY x y f = g
  generalize (1 : ℝ) / 10 ^ 14 = τ at *
  constructor
  · intro h0 h1
    have n0 : ¬ |z| < τ := by rw [abs_of_nonneg (by linarith)]; linarith
    have n1 : ¬ |z - 1| < τ := by rw [abs_of_nonpos (by linarith)]; linarith
    simp [n0, n1]
  · rintro (rfl | rfl)
    · have n0 : |(0 : ℝ)| < τ := by rw [abs_zero]; exact tpos
      simp only [n0, and_self, if_true]
      split_ifs <;> rfl
    · have n1 : |(1 : ℝ) - 1| < τ := by rw [sub_self, abs_zero]; exact tpos
      simp only [n1, and_self, if_true]

/-- **C101 (manifolds).** The points of an arc have distance one from the center of the manifold of the arc. -/
theorem C101_manifolds (p : Spec.Piece) (hp : (Spec.intended p).man ≠ 0) (x y : ℝ) (h : Spec.On p x y) :
    (x - (manifoldCenter (Spec.intended p).man).1) ^ 2 + (y - (manifoldCenter (Spec.intended p).man).2) ^ 2 = 1 := by
  cases p <;> simp only [Spec.intended, Spec.On, ne_eq, not_true_eq_false] at hp h <;>
    simp only [Spec.intended, manifoldCenter] <;> norm_num <;> norm_num at h <;> exact h.1

/-- the descriptor after all calls -/
def desc (dim : ℕ) (pc : Bool) : Desc := Desc.run dim Desc.empty (calls dim pc)

/-- **C101 (boundary conditions).** In both dimensions, whatever the parameter "pressure constraint" says: no call throws,
setup accepts the description, the inlets 1, 2, 3 have a prescribed velocity and the outer fluid, the walls 0 are no-slip,
the outlet 4 is open with normal flow, and none of these ids has a second treatment. -/
theorem C101_boundary (dim : ℕ) (hd : dim = 2 ∨ dim = 3) (pc : Bool) :
    (∀ k < (calls dim pc).length, ((Desc.run dim Desc.empty ((calls dim pc).take k)).exec dim
      ((calls dim pc).getD k .clear)).2 = false) ∧
    (desc dim pc).setup dim = .ok () ∧
    (∀ b < 5, ((desc dim pc).dirichlet.has b = decide (b = 1 ∨ b = 2 ∨ b = 3)) ∧
      ((desc dim pc).noSlip.has b = decide (b = 0)) ∧ ((desc dim pc).openP.has b = decide (b = 4)) ∧
      ((desc dim pc).normalFlux.has b = decide (b = 4)) ∧ (desc dim pc).symmetry.has b = false ∧
      (desc dim pc).fluidType.find b = if b = 1 ∨ b = 2 ∨ b = 3 then some (-1) else none) ∧
    ∀ d, (desc dim pc).periodic d = (invalidId, invalidId) := by
  rcases hd with rfl | rfl <;> cases pc <;>
    exact ⟨by decide, by rfl, by decide, fun d => rfl⟩

/-- **C101 (pressure constraint).** The parameter "pressure constraint" has no effect on the boundary conditions. -/
theorem C101_pressure_constraint_no_effect (dim : ℕ) (hd : dim = 2 ∨ dim = 3) : desc dim true = desc dim false := by
  rcases hd with rfl | rfl <;> rfl

theorem sin_ramp {t : ℝ} (h0 : 0 ≤ t) (h1 : t ≤ 1 / 100) :
    0 ≤ Real.pi * t / (2 / 100) ∧ Real.pi * t / (2 / 100) ≤ Real.pi / 2 := by
  have := Real.pi_pos
  constructor
  · positivity
  · rw [div_le_div_iff₀ (by norm_num) (by norm_num)]; nlinarith

theorem ramp_factor (t v : ℝ) : ramp t v = ramp t 1 * v := by
  unfold ramp
  split_ifs
  · rw [zero_mul]
  · ring
  · ring

/-- **C101 (ramp).** The prescribed velocity is zero until time zero, the full value from 0.01 on, and in between it is a
fraction of the full value that grows continuously and monotonically from 0 to 1. -/
theorem C101_ramp : (∀ t ≤ 0, ∀ v, ramp t v = 0) ∧ (∀ t ≥ 1 / 100, ∀ v, ramp t v = v) ∧ Monotone (fun t => ramp t 1) ∧
    (∀ v, Continuous fun t => ramp t v) ∧ ∀ t > 0, 0 < ramp t 1 ∧ ramp t 1 ≤ 1 := by
  have hpi := Real.pi_pos
  have e0 : ∀ t ≤ 0, ∀ v, ramp t v = 0 := fun t ht v => by unfold ramp; rw [if_pos ht]
  have e1 : ∀ t ≥ 1 / 100, ∀ v, ramp t v = v := fun t ht v => by
    unfold ramp; rw [if_neg (by linarith), if_neg (by linarith)]
  have e2 : ∀ t, 0 ≤ t → t ≤ 1 / 100 → ramp t 1 = Real.sin (Real.pi * t / (2 / 100)) := by
    intro t h0 h1
    unfold ramp
    by_cases ht : t ≤ 0
    · have : t = 0 := le_antisymm ht h0
      rw [if_pos ht, this]; simp
    · rw [if_neg ht]
      by_cases ht1 : t < 1 / 100
      · rw [if_pos ht1, one_mul]
      · have : t = 1 / 100 := le_antisymm h1 (not_lt.1 ht1)
        rw [if_neg ht1, this, show Real.pi * (1 / 100) / (2 / 100) = Real.pi / 2 by ring, Real.sin_pi_div_two]
  have hclamp : ∀ t, ramp t 1 = Real.sin (Real.pi * (max 0 (min t (1 / 100))) / (2 / 100)) := by
    intro t
    rw [← e2 _ (le_max_left _ _) (max_le (by norm_num) (min_le_right _ _))]
    rcases le_total t 0 with h | h
    · have : max 0 (min t (1 / 100 : ℝ)) = 0 := max_eq_left (le_trans (min_le_left _ _) h)
      rw [this, e0 t h, e0 0 le_rfl]
    · rcases le_total t (1 / 100) with h' | h'
      · rw [min_eq_left h', max_eq_right h]
      · rw [min_eq_right h', max_eq_right (by norm_num), e1 t h', e1 _ le_rfl]
  have hmono : Monotone (fun t => ramp t 1) := by
    intro a b hab
    show ramp a 1 ≤ ramp b 1
    rw [hclamp, hclamp]
    have hm : max 0 (min a (1 / 100 : ℝ)) ≤ max 0 (min b (1 / 100 : ℝ)) := max_le_max le_rfl (min_le_min hab le_rfl)
    have ha := sin_ramp (le_max_left 0 (min a (1 / 100 : ℝ))) (max_le (by norm_num) (min_le_right _ _))
    have hb := sin_ramp (le_max_left 0 (min b (1 / 100 : ℝ))) (max_le (by norm_num) (min_le_right _ _))
    refine Real.sin_le_sin_of_le_of_le_pi_div_two (by linarith [ha.1]) hb.2 ?_
    gcongr
  refine ⟨e0, e1, hmono, ?_, ?_⟩
  · intro v
    have : (fun t => ramp t v) = fun t => Real.sin (Real.pi * (max 0 (min t (1 / 100))) / (2 / 100)) * v := by
      funext t; rw [ramp_factor, hclamp]
    rw [this]
    fun_prop
  · intro t ht
    constructor
    · rcases le_total t (1 / 100) with h | h
      · rw [e2 t ht.le h]
        refine Real.sin_pos_of_pos_of_lt_pi (by positivity) ?_
        have := (sin_ramp ht.le h).2
        linarith
      · rw [e1 t h]; norm_num
    · rw [hclamp]; exact Real.sin_le_one _

/-- **C101 (inflow in 2D).** At every positive time the velocity at the three inlets is defined and directed straight into
the channel. -/
theorem C101_inflow_2d (ind : ℕ) (hi : ind = 1 ∨ ind = 2 ∨ ind = 3) (t : ℝ) (ht : 0 < t) :
    ∃ v : ℕ → ℝ, (∀ comp < 2, bcValue ind comp t = some (v comp)) ∧ Spec.StraightIn 2 ind v := by
  have hr := (C101_ramp.2.2.2.2 t ht).1
  have hval : ∀ (comp : ℕ), bcValue ind comp t = some (ramp t ((fullValue ind comp).getD 0)) := by
    intro comp
    rcases hi with rfl | rfl | rfl <;> simp [bcValue, fullValue]
  refine ⟨fun comp => ramp t ((fullValue ind comp).getD 0), fun comp _ => hval comp, ?_⟩
  rcases hi with rfl | rfl | rfl
  · refine ⟨ramp t 1 * (1 / 2), by positivity, fun comp hc => ?_⟩
    show ramp t _ = _
    rw [ramp_factor]
    interval_cases comp <;> simp [fullValue, Spec.inward]
  · refine ⟨ramp t 1, hr, fun comp hc => ?_⟩
    show ramp t _ = _
    rw [ramp_factor]
    interval_cases comp <;> simp [fullValue, Spec.inward]
  · refine ⟨ramp t 1 * 10, by positivity, fun comp hc => ?_⟩
    show ramp t _ = _
    rw [ramp_factor]
    interval_cases comp <;> simp [fullValue, Spec.inward]

/-- **C101 (inflow in 3D, partial).** In three dimensions the inlets 1 and 3 have the same property. Missing: the inlet 2
(counterexample below). -/
theorem C101_inflow_3d_partial (ind : ℕ) (hi : ind = 1 ∨ ind = 3) (t : ℝ) (ht : 0 < t) :
    ∃ v : ℕ → ℝ, (∀ comp < 3, bcValue ind comp t = some (v comp)) ∧ Spec.StraightIn 3 ind v := by
  have hr := (C101_ramp.2.2.2.2 t ht).1
  have hval : ∀ (comp : ℕ), bcValue ind comp t = some (ramp t ((fullValue ind comp).getD 0)) := by
    intro comp
    rcases hi with rfl | rfl <;> simp [bcValue, fullValue]
  refine ⟨fun comp => ramp t ((fullValue ind comp).getD 0), fun comp _ => hval comp, ?_⟩
  rcases hi with rfl | rfl
  · refine ⟨ramp t 1 * (1 / 2), by positivity, fun comp hc => ?_⟩
    show ramp t _ = _
    rw [ramp_factor]
    interval_cases comp <;> simp [fullValue, Spec.inward]
  · refine ⟨ramp t 1 * 10, by positivity, fun comp hc => ?_⟩
    show ramp t _ = _
    rw [ramp_factor]
    interval_cases comp <;> simp [fullValue, Spec.inward]

/-- **C101 (counterexample).** In three dimensions the velocity at inlet 2 is not directed into the channel at any
positive time: it has a component towards the wall at z = 1 of the same size. -/
theorem C101_inlet2_3d (t : ℝ) (ht : 0 < t) (v : ℕ → ℝ) (hv : ∀ comp < 3, bcValue 2 comp t = some (v comp)) :
    v 2 = v 1 ∧ 0 < v 2 ∧ ¬ Spec.StraightIn 3 2 v := by
  have hr := (C101_ramp.2.2.2.2 t ht).1
  have h1 := hv 1 (by norm_num)
  have h2 := hv 2 (by norm_num)
  simp only [bcValue, fullValue] at h1 h2
  norm_num at h1 h2
  refine ⟨by rw [← h1, ← h2], by rw [← h2]; exact hr, ?_⟩
  rintro ⟨s, _, h⟩
  have h3 := h 2 (by norm_num)
  simp only [Spec.inward, mul_zero] at h3
  rw [← h2] at h3
  linarith

/-- **C101 (unknown inlets).** For other ids than those of the inlets the function reports an error. -/
theorem C101_unknown (ind comp : ℕ) (t : ℝ) : bcValue ind comp t = none ↔ ¬ (ind = 1 ∨ ind = 2 ∨ ind = 3) := by
  unfold bcValue fullValue
  by_cases h1 : ind = 1
  · simp [h1]
  · by_cases h2 : ind = 2
    · simp [h2]
    · by_cases h3 : ind = 3 <;> simp [h1, h2, h3]

theorem abs_le_dist {dim : ℕ} (p : Fin dim → ℝ) (d : Fin dim) :
    |p d - 1 / 2| ≤ Real.sqrt (∑ k, (p k - 1 / 2) * (p k - 1 / 2)) := by
  rw [← Real.sqrt_sq_eq_abs]
  refine Real.sqrt_le_sqrt ?_
  have h : ∀ k : Fin dim, 0 ≤ (p k - 1 / 2) * (p k - 1 / 2) := fun k => mul_self_nonneg _
  have := Finset.single_le_sum (f := fun k => (p k - 1 / 2) * (p k - 1 / 2)) (fun k _ => h k) (Finset.mem_univ d)
  calc (p d - 1 / 2) ^ 2 = (p d - 1 / 2) * (p d - 1 / 2) := by ring
    _ ≤ _ := this

/-- **C101 (initial particle).** Initially the particle is the ball of radius 1/4 around the point with all coordinates
1/2; it keeps a distance of at least 1/4 from the walls of the lower channel and 3/4 from the inlets, where the level set
therefore has the sign of the prescribed inflow fluid. -/
theorem C101_particle {dim : ℕ} (hd : 2 ≤ dim) (p : Fin dim → ℝ) :
    (initialDistance p ≤ 0 ↔ Real.sqrt (∑ d, (p d - 1 / 2) ^ 2) ≤ 1 / 4) ∧
    (initialDistance p ≤ 0 → ∀ d, 1 / 4 ≤ p d ∧ p d ≤ 3 / 4) ∧
    (p ⟨0, by omega⟩ = -2 ∨ p ⟨0, by omega⟩ = 3 ∨ p ⟨1, by omega⟩ = -1 / 2 → 3 / 4 ≤ initialDistance p) := by
  refine ⟨?_, ?_, ?_⟩
  · unfold initialDistance
    simp only [pow_two]
    constructor <;> intro h <;> linarith
  · intro h d
    unfold initialDistance at h
    have := abs_le.1 ((abs_le_dist p d).trans (by linarith : _ ≤ (1 / 4 : ℝ)))
    constructor <;> linarith [this.1, this.2]
  · intro h
    unfold initialDistance
    rcases h with h | h | h
    · have := abs_le_dist p ⟨0, by omega⟩
      rw [h, show |(-2 : ℝ) - 1 / 2| = 5 / 2 by norm_num [abs_of_neg]] at this
      linarith
    · have := abs_le_dist p ⟨0, by omega⟩
      rw [h, show |(3 : ℝ) - 1 / 2| = 5 / 2 by norm_num [abs_of_pos]] at this
      linarith
    · have := abs_le_dist p ⟨1, by omega⟩
      rw [h, show |(-1 / 2 : ℝ) - 1 / 2| = 1 by norm_num] at this
      linarith

/-! ### Non-vacuity -/

namespace Example

/-- a face of the left inlet -/
example : setIds false ((-2 + -2) / 2) ((2 + 3) / 2) 0 ⟨0, 0⟩ = ⟨1, 0⟩ :=
  C101_ids_2d .left (-2) 2 (-2) 3 (by norm_num [Spec.On]) (by norm_num [Spec.On]) (Or.inr (by norm_num)) 0

/-- a face of the arc 12, from (0, 1/2) to (-2/5, 13/10) -/
example : setIds false ((0 + -2 / 5) / 2) ((1 / 2 + 13 / 10) / 2) 0 ⟨0, 0⟩ = ⟨0, 12⟩ :=
  C101_ids_2d .arc12 0 (1 / 2) (-2 / 5) (13 / 10) (by norm_num [Spec.On]) (by norm_num [Spec.On])
    (Or.inr (by norm_num)) 0

example : (setIds true (1 / 2) (1 / 2) 1 ⟨7, 0⟩).bid = 0 := (C101_ids_3d _ _ _ _).2 (Or.inr rfl)

example : bcValue 3 0 1 = some (-10) ∧ bcValue 2 1 0 = some 0 := by
  constructor
  · simp [bcValue, fullValue, C101_ramp.2.1 1 (by norm_num)]
  · simp [bcValue, fullValue, C101_ramp.1 0 le_rfl]

example : initialDistance ![1 / 2, 1 / 2] ≤ 0 := by
  rw [(C101_particle le_rfl _).1]
  rw [Fin.sum_univ_two]
  norm_num

end Example

end Verif.App.Particle
