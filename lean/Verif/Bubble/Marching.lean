import Mathlib.Algebra.Order.Field.Basic
import Mathlib.Algebra.Order.Ring.Rat
import Mathlib.Tactic.Linarith
import Mathlib.Tactic.LinearCombination
import Mathlib.Tactic.FieldSimp
import Mathlib.Tactic.Ring
import Mathlib.Tactic.NormNum

/-!
# C36: area fractions of the sub-cells in the 2D bubble statistics
(source/two_phase_base.cc:733-842), over an arbitrary linearly ordered field

Corner numbering of a patch: `0 = (0,0)`, `1 = (1,0)`, `2 = (0,1)`, `3 = (1,1)`.
-/

namespace Verif.Bubble

variable {K : Type*} [Field K] [LinearOrder K] [IsStrictOrderedRing K]

/-! ## Model -/

/-- Crossing parameter on an edge: `c_values[a] / (c_values[a] - c_values[b])` if the product of the two values
is not positive, the initial value `-1` otherwise (two_phase_base.cc:734 and the four `if`s at :742-761). -/
def edgeCut (a b : K) : K := if a * b ≤ 0 then a / (a - b) else -1

/-- One recorded interface segment, in the unit coordinates of the patch (`interface_p[0]`, `interface_p[1]`).
Simplification: the code maps the points with the affine combination `quad[a] + (quad[b]-quad[a])*r`; we record the
unit square coordinates `r` instead. -/
structure Seg (K : Type*) where
  p : K × K
  q : K × K
  deriving DecidableEq

/-- What the seven `if` blocks of two_phase_base.cc:764-834 accumulate. -/
structure Acc (K : Type*) where
  /-- `local_area` -/
  area : K
  /-- segments whose length is added to `perimeter`, in order -/
  segs : List (Seg K)

/-- one block: `local_area -= (corner < 0) ? my_area : 1 - my_area; perimeter += ...; interface_p = ...` -/
def block (fire : Bool) (corner myArea : K) (s : Seg K) (a : Acc K) : Acc K :=
  if fire then ⟨a.area - (if corner < 0 then myArea else 1 - myArea), a.segs ++ [s]⟩ else a

/-- The patch computation, two_phase_base.cc:732-834, on the perturbed corner values. -/
def marchAcc (c0 c1 c2 c3 : K) : Acc K :=
  let rx0 := edgeCut c0 c1
  let rx1 := edgeCut c2 c3
  let ry0 := edgeCut c0 c2
  let ry1 := edgeCut c1 c3
  let px0 : K × K := (rx0, 0)
  let px1 : K × K := (rx1, 1)
  let py0 : K × K := (0, ry0)
  let py1 : K × K := (1, ry1)
  let a : Acc K := ⟨1, []⟩
  -- `if (int_rx0 > 0)`, :764-796
  let a := block (0 < rx0 ∧ 0 < ry0) c0 (1 / 2 * rx0 * ry0) ⟨px0, py0⟩ a
  let a := block (0 < rx0 ∧ 0 < ry1) c1 (1 / 2 * (1 - rx0) * ry1) ⟨px0, py1⟩ a
  let a := block (0 < rx0 ∧ 0 < rx1 ∧ ry0 < 0 ∧ ry1 < 0) c0 (1 / 2 * (rx0 + rx1)) ⟨px0, px1⟩ a
  -- `if (int_rx1 > 0)`, :797-818
  let a := block (0 < rx1 ∧ 0 < ry0) c2 (1 / 2 * rx1 * (1 - ry0)) ⟨px1, py0⟩ a
  let a := block (0 < rx1 ∧ 0 < ry1) c3 (1 / 2 * (1 - rx1) * (1 - ry1)) ⟨px1, py1⟩ a
  -- :819-828
  let a := block (0 < ry0 ∧ 0 < ry1 ∧ rx0 < 0 ∧ rx1 < 0) c0 (1 / 2 * (ry0 + ry1)) ⟨py0, py1⟩ a
  -- :829-831
  if rx0 ≤ 0 ∧ rx1 ≤ 0 ∧ ry0 ≤ 0 ∧ ry1 ≤ 0 ∧ c0 ≤ 0 then { a with area := 0 } else a

/-- `local_area` of a patch as a function of the four level set values; `eps` is the perturbation `1e-22` added to
each of them (two_phase_base.cc:737-739). -/
def areaFraction (eps c0 c1 c2 c3 : K) : K := (marchAcc (c0 + eps) (c1 + eps) (c2 + eps) (c3 + eps)).area

/-- The segments accounted for in `perimeter`. -/
def segments (eps c0 c1 c2 c3 : K) : List (Seg K) :=
  (marchAcc (c0 + eps) (c1 + eps) (c2 + eps) (c3 + eps)).segs

/-! ## Specification: clip the unit square along the boundary, shoelace formula -/

namespace Spec

/-- zero of the linear function with value `a` at `p` and `b` at `q` on the segment `pq` -/
def zeroOn (p q : K × K) (a b : K) : K × K :=
  ((b * p.1 - a * q.1) / (b - a), (b * p.2 - a * q.2) / (b - a))

/-- vertices contributed by the boundary edge from `p` (value `a`) to `q` (value `b`) to the polygon on which the
level set function is positive: the start vertex if positive, the zero in case of a sign change -/
def clipEdge (p q : K × K) (a b : K) : List (K × K) :=
  (if 0 < a then [p] else []) ++ (if (0 < a ∧ b < 0) ∨ (a < 0 ∧ 0 < b) then [zeroOn p q a b] else [])

/-- counter-clockwise polygon of the positive part of the unit square with corner values `c0 .. c3` -/
def clip (c0 c1 c2 c3 : K) : List (K × K) :=
  clipEdge (0, 0) (1, 0) c0 c1 ++ clipEdge (1, 0) (1, 1) c1 c3 ++ clipEdge (1, 1) (0, 1) c3 c2 ++
    clipEdge (0, 1) (0, 0) c2 c0

/-- twice the signed area between the path through the points and the origin -/
def shoelacePath : List (K × K) → K
  | p :: q :: l => (p.1 * q.2 - q.1 * p.2) + shoelacePath (q :: l)
  | _ => 0

/-- shoelace formula for a closed polygon -/
def polygonArea : List (K × K) → K
  | [] => 0
  | p :: l => shoelacePath (p :: l ++ [p]) / 2

/-- the two diagonals have opposite strict signs -/
def Saddle (c0 c1 c2 c3 : K) : Prop :=
  (0 < c0 ∧ c1 < 0 ∧ c2 < 0 ∧ 0 < c3) ∨ (c0 < 0 ∧ 0 < c1 ∧ 0 < c2 ∧ c3 < 0)

end Spec

/-! ## Lemmas -/

theorem edgeCut_same_pos {a b : K} (ha : 0 < a) (hb : 0 < b) : edgeCut a b = -1 := by
  unfold edgeCut; rw [if_neg]; have := mul_pos ha hb; linarith
theorem edgeCut_same_neg {a b : K} (ha : a < 0) (hb : b < 0) : edgeCut a b = -1 := by
  unfold edgeCut; rw [if_neg]; have := mul_pos_of_neg_of_neg ha hb; linarith
theorem edgeCut_pn {a b : K} (ha : 0 < a) (hb : b < 0) : edgeCut a b = a / (a - b) := by
  unfold edgeCut; rw [if_pos]; have := mul_neg_of_pos_of_neg ha hb; linarith
theorem edgeCut_np {a b : K} (ha : a < 0) (hb : 0 < b) : edgeCut a b = a / (a - b) := by
  unfold edgeCut; rw [if_pos]; have := mul_neg_of_neg_of_pos ha hb; linarith

theorem cut_pn_bounds {a b : K} (ha : 0 < a) (hb : b < 0) : 0 < a / (a - b) ∧ a / (a - b) < 1 := by
  have h : 0 < a - b := by linarith
  exact ⟨div_pos ha h, by rw [div_lt_one h]; linarith⟩
theorem cut_np_bounds {a b : K} (ha : a < 0) (hb : 0 < b) : 0 < a / (a - b) ∧ a / (a - b) < 1 := by
  have h : a - b < 0 := by linarith
  refine ⟨div_pos_of_neg_of_neg ha h, ?_⟩
  rw [div_lt_one_of_neg h]; linarith

theorem cut_bounds {a b : K} (ha : a ≠ 0) (hb : b ≠ 0) :
    (edgeCut a b = -1 ∧ (0 < a ↔ 0 < b)) ∨
    (edgeCut a b = a / (a - b) ∧ 0 < a / (a - b) ∧ a / (a - b) < 1 ∧ (0 < a ↔ b < 0)) := by
  rcases lt_or_gt_of_ne ha with h | h <;> rcases lt_or_gt_of_ne hb with h' | h'
  · left; exact ⟨edgeCut_same_neg h h', by constructor <;> intro <;> linarith⟩
  · right; exact ⟨edgeCut_np h h', (cut_np_bounds h h').1, (cut_np_bounds h h').2, by constructor <;> intro <;> linarith⟩
  · right; exact ⟨edgeCut_pn h h', (cut_pn_bounds h h').1, (cut_pn_bounds h h').2, by constructor <;> intro <;> linarith⟩
  · left; exact ⟨edgeCut_same_pos h h', by constructor <;> intro <;> linarith⟩


theorem pos_pn {a b : K} (ha : 0 < a) (hb : b < 0) : 0 < a / (a - b) := (cut_pn_bounds ha hb).1
theorem pos_np {a b : K} (ha : a < 0) (hb : 0 < b) : 0 < a / (a - b) := (cut_np_bounds ha hb).1
theorem nneg_pn {a b : K} (ha : 0 < a) (hb : b < 0) : ¬ a / (a - b) < 0 := not_lt.2 (pos_pn ha hb).le
theorem nneg_np {a b : K} (ha : a < 0) (hb : 0 < b) : ¬ a / (a - b) < 0 := not_lt.2 (pos_np ha hb).le
theorem nle_pn {a b : K} (ha : 0 < a) (hb : b < 0) : ¬ a / (a - b) ≤ 0 := not_le.2 (pos_pn ha hb)
theorem nle_np {a b : K} (ha : a < 0) (hb : 0 < b) : ¬ a / (a - b) ≤ 0 := not_le.2 (pos_np ha hb)
theorem m1a : ¬ (0 : K) < -1 := by norm_num
theorem m1b : (-1 : K) < 0 := by norm_num
theorem m1c : (-1 : K) ≤ 0 := by norm_num

/-! Evaluation of the patch computation for the sign patterns -/

theorem march_pppp {c0 c1 c2 c3 : K} (h0 : 0 < c0) (h1 : 0 < c1) (h2 : 0 < c2) (h3 : 0 < c3) :
    marchAcc c0 c1 c2 c3 = ⟨1, []⟩ := by
  simp only [marchAcc, block, edgeCut_same_pos, edgeCut_same_neg, edgeCut_pn, edgeCut_np, pos_pn, pos_np, nneg_pn,
    nneg_np, nle_pn, nle_np, m1a, m1b, m1c, h0, h1, h2, h3, h0.not_gt, h1.not_gt, h2.not_gt, h3.not_gt, h0.le, h0.not_ge,
    true_and, and_true, false_and, and_false, if_true, if_false, decide_true, decide_false, List.nil_append]
  simp

theorem march_pppn {c0 c1 c2 c3 : K} (h0 : 0 < c0) (h1 : 0 < c1) (h2 : 0 < c2) (h3 : c3 < 0) :
    marchAcc c0 c1 c2 c3 = ⟨1 - (1 / 2 * (1 - (c2 / (c2 - c3))) * (1 - (c1 / (c1 - c3)))), [⟨((c2 / (c2 - c3)), 1), (1, (c1 / (c1 - c3)))⟩]⟩ := by
  simp only [marchAcc, block, edgeCut_same_pos, edgeCut_same_neg, edgeCut_pn, edgeCut_np, pos_pn, pos_np, nneg_pn,
    nneg_np, nle_pn, nle_np, m1a, m1b, m1c, h0, h1, h2, h3, h0.not_gt, h1.not_gt, h2.not_gt, h3.not_gt, h0.le, h0.not_ge,
    true_and, and_true, false_and, and_false, if_true, if_false, decide_true, decide_false, List.nil_append]
  simp

theorem march_ppnp {c0 c1 c2 c3 : K} (h0 : 0 < c0) (h1 : 0 < c1) (h2 : c2 < 0) (h3 : 0 < c3) :
    marchAcc c0 c1 c2 c3 = ⟨1 - (1 / 2 * (c2 / (c2 - c3)) * (1 - (c0 / (c0 - c2)))), [⟨((c2 / (c2 - c3)), 1), (0, (c0 / (c0 - c2)))⟩]⟩ := by
  simp only [marchAcc, block, edgeCut_same_pos, edgeCut_same_neg, edgeCut_pn, edgeCut_np, pos_pn, pos_np, nneg_pn,
    nneg_np, nle_pn, nle_np, m1a, m1b, m1c, h0, h1, h2, h3, h0.not_gt, h1.not_gt, h2.not_gt, h3.not_gt, h0.le, h0.not_ge,
    true_and, and_true, false_and, and_false, if_true, if_false, decide_true, decide_false, List.nil_append]
  simp

theorem march_ppnn {c0 c1 c2 c3 : K} (h0 : 0 < c0) (h1 : 0 < c1) (h2 : c2 < 0) (h3 : c3 < 0) :
    marchAcc c0 c1 c2 c3 = ⟨1 - (1 - 1 / 2 * ((c0 / (c0 - c2)) + (c1 / (c1 - c3)))), [⟨(0, (c0 / (c0 - c2))), (1, (c1 / (c1 - c3)))⟩]⟩ := by
  simp only [marchAcc, block, edgeCut_same_pos, edgeCut_same_neg, edgeCut_pn, edgeCut_np, pos_pn, pos_np, nneg_pn,
    nneg_np, nle_pn, nle_np, m1a, m1b, m1c, h0, h1, h2, h3, h0.not_gt, h1.not_gt, h2.not_gt, h3.not_gt, h0.le, h0.not_ge,
    true_and, and_true, false_and, and_false, if_true, if_false, decide_true, decide_false, List.nil_append]
  simp

theorem march_pnpp {c0 c1 c2 c3 : K} (h0 : 0 < c0) (h1 : c1 < 0) (h2 : 0 < c2) (h3 : 0 < c3) :
    marchAcc c0 c1 c2 c3 = ⟨1 - (1 / 2 * (1 - (c0 / (c0 - c1))) * (c1 / (c1 - c3))), [⟨((c0 / (c0 - c1)), 0), (1, (c1 / (c1 - c3)))⟩]⟩ := by
  simp only [marchAcc, block, edgeCut_same_pos, edgeCut_same_neg, edgeCut_pn, edgeCut_np, pos_pn, pos_np, nneg_pn,
    nneg_np, nle_pn, nle_np, m1a, m1b, m1c, h0, h1, h2, h3, h0.not_gt, h1.not_gt, h2.not_gt, h3.not_gt, h0.le, h0.not_ge,
    true_and, and_true, false_and, and_false, if_true, if_false, decide_true, decide_false, List.nil_append]
  simp

theorem march_pnpn {c0 c1 c2 c3 : K} (h0 : 0 < c0) (h1 : c1 < 0) (h2 : 0 < c2) (h3 : c3 < 0) :
    marchAcc c0 c1 c2 c3 = ⟨1 - (1 - 1 / 2 * ((c0 / (c0 - c1)) + (c2 / (c2 - c3)))), [⟨((c0 / (c0 - c1)), 0), ((c2 / (c2 - c3)), 1)⟩]⟩ := by
  simp only [marchAcc, block, edgeCut_same_pos, edgeCut_same_neg, edgeCut_pn, edgeCut_np, pos_pn, pos_np, nneg_pn,
    nneg_np, nle_pn, nle_np, m1a, m1b, m1c, h0, h1, h2, h3, h0.not_gt, h1.not_gt, h2.not_gt, h3.not_gt, h0.le, h0.not_ge,
    true_and, and_true, false_and, and_false, if_true, if_false, decide_true, decide_false, List.nil_append]
  simp

theorem march_pnnp {c0 c1 c2 c3 : K} (h0 : 0 < c0) (h1 : c1 < 0) (h2 : c2 < 0) (h3 : 0 < c3) :
    marchAcc c0 c1 c2 c3 = ⟨1 - (1 - 1 / 2 * (c0 / (c0 - c1)) * (c0 / (c0 - c2))) - (1 / 2 * (1 - (c0 / (c0 - c1))) * (c1 / (c1 - c3))) - (1 / 2 * (c2 / (c2 - c3)) * (1 - (c0 / (c0 - c2)))) - (1 - 1 / 2 * (1 - (c2 / (c2 - c3))) * (1 - (c1 / (c1 - c3)))), [⟨((c0 / (c0 - c1)), 0), (0, (c0 / (c0 - c2)))⟩, ⟨((c0 / (c0 - c1)), 0), (1, (c1 / (c1 - c3)))⟩, ⟨((c2 / (c2 - c3)), 1), (0, (c0 / (c0 - c2)))⟩, ⟨((c2 / (c2 - c3)), 1), (1, (c1 / (c1 - c3)))⟩]⟩ := by
  simp only [marchAcc, block, edgeCut_same_pos, edgeCut_same_neg, edgeCut_pn, edgeCut_np, pos_pn, pos_np, nneg_pn,
    nneg_np, nle_pn, nle_np, m1a, m1b, m1c, h0, h1, h2, h3, h0.not_gt, h1.not_gt, h2.not_gt, h3.not_gt, h0.le, h0.not_ge,
    true_and, and_true, false_and, and_false, if_true, if_false, decide_true, decide_false, List.nil_append]
  simp

theorem march_pnnn {c0 c1 c2 c3 : K} (h0 : 0 < c0) (h1 : c1 < 0) (h2 : c2 < 0) (h3 : c3 < 0) :
    marchAcc c0 c1 c2 c3 = ⟨1 - (1 - 1 / 2 * (c0 / (c0 - c1)) * (c0 / (c0 - c2))), [⟨((c0 / (c0 - c1)), 0), (0, (c0 / (c0 - c2)))⟩]⟩ := by
  simp only [marchAcc, block, edgeCut_same_pos, edgeCut_same_neg, edgeCut_pn, edgeCut_np, pos_pn, pos_np, nneg_pn,
    nneg_np, nle_pn, nle_np, m1a, m1b, m1c, h0, h1, h2, h3, h0.not_gt, h1.not_gt, h2.not_gt, h3.not_gt, h0.le, h0.not_ge,
    true_and, and_true, false_and, and_false, if_true, if_false, decide_true, decide_false, List.nil_append]
  simp

theorem march_nppp {c0 c1 c2 c3 : K} (h0 : c0 < 0) (h1 : 0 < c1) (h2 : 0 < c2) (h3 : 0 < c3) :
    marchAcc c0 c1 c2 c3 = ⟨1 - (1 / 2 * (c0 / (c0 - c1)) * (c0 / (c0 - c2))), [⟨((c0 / (c0 - c1)), 0), (0, (c0 / (c0 - c2)))⟩]⟩ := by
  simp only [marchAcc, block, edgeCut_same_pos, edgeCut_same_neg, edgeCut_pn, edgeCut_np, pos_pn, pos_np, nneg_pn,
    nneg_np, nle_pn, nle_np, m1a, m1b, m1c, h0, h1, h2, h3, h0.not_gt, h1.not_gt, h2.not_gt, h3.not_gt, h0.le, h0.not_ge,
    true_and, and_true, false_and, and_false, if_true, if_false, decide_true, decide_false, List.nil_append]
  simp

theorem march_nppn {c0 c1 c2 c3 : K} (h0 : c0 < 0) (h1 : 0 < c1) (h2 : 0 < c2) (h3 : c3 < 0) :
    marchAcc c0 c1 c2 c3 = ⟨1 - (1 / 2 * (c0 / (c0 - c1)) * (c0 / (c0 - c2))) - (1 - 1 / 2 * (1 - (c0 / (c0 - c1))) * (c1 / (c1 - c3))) - (1 - 1 / 2 * (c2 / (c2 - c3)) * (1 - (c0 / (c0 - c2)))) - (1 / 2 * (1 - (c2 / (c2 - c3))) * (1 - (c1 / (c1 - c3)))), [⟨((c0 / (c0 - c1)), 0), (0, (c0 / (c0 - c2)))⟩, ⟨((c0 / (c0 - c1)), 0), (1, (c1 / (c1 - c3)))⟩, ⟨((c2 / (c2 - c3)), 1), (0, (c0 / (c0 - c2)))⟩, ⟨((c2 / (c2 - c3)), 1), (1, (c1 / (c1 - c3)))⟩]⟩ := by
  simp only [marchAcc, block, edgeCut_same_pos, edgeCut_same_neg, edgeCut_pn, edgeCut_np, pos_pn, pos_np, nneg_pn,
    nneg_np, nle_pn, nle_np, m1a, m1b, m1c, h0, h1, h2, h3, h0.not_gt, h1.not_gt, h2.not_gt, h3.not_gt, h0.le, h0.not_ge,
    true_and, and_true, false_and, and_false, if_true, if_false, decide_true, decide_false, List.nil_append]
  simp

theorem march_npnp {c0 c1 c2 c3 : K} (h0 : c0 < 0) (h1 : 0 < c1) (h2 : c2 < 0) (h3 : 0 < c3) :
    marchAcc c0 c1 c2 c3 = ⟨1 - (1 / 2 * ((c0 / (c0 - c1)) + (c2 / (c2 - c3)))), [⟨((c0 / (c0 - c1)), 0), ((c2 / (c2 - c3)), 1)⟩]⟩ := by
  simp only [marchAcc, block, edgeCut_same_pos, edgeCut_same_neg, edgeCut_pn, edgeCut_np, pos_pn, pos_np, nneg_pn,
    nneg_np, nle_pn, nle_np, m1a, m1b, m1c, h0, h1, h2, h3, h0.not_gt, h1.not_gt, h2.not_gt, h3.not_gt, h0.le, h0.not_ge,
    true_and, and_true, false_and, and_false, if_true, if_false, decide_true, decide_false, List.nil_append]
  simp

theorem march_npnn {c0 c1 c2 c3 : K} (h0 : c0 < 0) (h1 : 0 < c1) (h2 : c2 < 0) (h3 : c3 < 0) :
    marchAcc c0 c1 c2 c3 = ⟨1 - (1 - 1 / 2 * (1 - (c0 / (c0 - c1))) * (c1 / (c1 - c3))), [⟨((c0 / (c0 - c1)), 0), (1, (c1 / (c1 - c3)))⟩]⟩ := by
  simp only [marchAcc, block, edgeCut_same_pos, edgeCut_same_neg, edgeCut_pn, edgeCut_np, pos_pn, pos_np, nneg_pn,
    nneg_np, nle_pn, nle_np, m1a, m1b, m1c, h0, h1, h2, h3, h0.not_gt, h1.not_gt, h2.not_gt, h3.not_gt, h0.le, h0.not_ge,
    true_and, and_true, false_and, and_false, if_true, if_false, decide_true, decide_false, List.nil_append]
  simp

theorem march_nnpp {c0 c1 c2 c3 : K} (h0 : c0 < 0) (h1 : c1 < 0) (h2 : 0 < c2) (h3 : 0 < c3) :
    marchAcc c0 c1 c2 c3 = ⟨1 - (1 / 2 * ((c0 / (c0 - c2)) + (c1 / (c1 - c3)))), [⟨(0, (c0 / (c0 - c2))), (1, (c1 / (c1 - c3)))⟩]⟩ := by
  simp only [marchAcc, block, edgeCut_same_pos, edgeCut_same_neg, edgeCut_pn, edgeCut_np, pos_pn, pos_np, nneg_pn,
    nneg_np, nle_pn, nle_np, m1a, m1b, m1c, h0, h1, h2, h3, h0.not_gt, h1.not_gt, h2.not_gt, h3.not_gt, h0.le, h0.not_ge,
    true_and, and_true, false_and, and_false, if_true, if_false, decide_true, decide_false, List.nil_append]
  simp

theorem march_nnpn {c0 c1 c2 c3 : K} (h0 : c0 < 0) (h1 : c1 < 0) (h2 : 0 < c2) (h3 : c3 < 0) :
    marchAcc c0 c1 c2 c3 = ⟨1 - (1 - 1 / 2 * (c2 / (c2 - c3)) * (1 - (c0 / (c0 - c2)))), [⟨((c2 / (c2 - c3)), 1), (0, (c0 / (c0 - c2)))⟩]⟩ := by
  simp only [marchAcc, block, edgeCut_same_pos, edgeCut_same_neg, edgeCut_pn, edgeCut_np, pos_pn, pos_np, nneg_pn,
    nneg_np, nle_pn, nle_np, m1a, m1b, m1c, h0, h1, h2, h3, h0.not_gt, h1.not_gt, h2.not_gt, h3.not_gt, h0.le, h0.not_ge,
    true_and, and_true, false_and, and_false, if_true, if_false, decide_true, decide_false, List.nil_append]
  simp

theorem march_nnnp {c0 c1 c2 c3 : K} (h0 : c0 < 0) (h1 : c1 < 0) (h2 : c2 < 0) (h3 : 0 < c3) :
    marchAcc c0 c1 c2 c3 = ⟨1 - (1 - 1 / 2 * (1 - (c2 / (c2 - c3))) * (1 - (c1 / (c1 - c3)))), [⟨((c2 / (c2 - c3)), 1), (1, (c1 / (c1 - c3)))⟩]⟩ := by
  simp only [marchAcc, block, edgeCut_same_pos, edgeCut_same_neg, edgeCut_pn, edgeCut_np, pos_pn, pos_np, nneg_pn,
    nneg_np, nle_pn, nle_np, m1a, m1b, m1c, h0, h1, h2, h3, h0.not_gt, h1.not_gt, h2.not_gt, h3.not_gt, h0.le, h0.not_ge,
    true_and, and_true, false_and, and_false, if_true, if_false, decide_true, decide_false, List.nil_append]
  simp

theorem march_nnnn {c0 c1 c2 c3 : K} (h0 : c0 < 0) (h1 : c1 < 0) (h2 : c2 < 0) (h3 : c3 < 0) :
    marchAcc c0 c1 c2 c3 = ⟨0, []⟩ := by
  simp only [marchAcc, block, edgeCut_same_pos, edgeCut_same_neg, edgeCut_pn, edgeCut_np, pos_pn, pos_np, nneg_pn,
    nneg_np, nle_pn, nle_np, m1a, m1b, m1c, h0, h1, h2, h3, h0.not_gt, h1.not_gt, h2.not_gt, h3.not_gt, h0.le, h0.not_ge,
    true_and, and_true, false_and, and_false, if_true, if_false, decide_true, decide_false, List.nil_append]
  simp


/-- simp set evaluating the specification polygon for known signs -/
local macro "clip_simp" h0:ident h1:ident h2:ident h3:ident : tactic => `(tactic|
  simp only [Spec.clip, Spec.clipEdge, Spec.polygonArea, Spec.shoelacePath, Spec.zeroOn, $h0:ident, $h1:ident, $h2:ident,
    $h3:ident, ($h0:ident).not_gt, ($h1:ident).not_gt, ($h2:ident).not_gt, ($h3:ident).not_gt, true_and, and_true, false_and, and_false, or_true,
    true_or, or_false, false_or, if_true, if_false, List.nil_append, List.cons_append, List.append_nil])

theorem area_eq_polygon {c0 c1 c2 c3 : K} (n0 : c0 ≠ 0) (n1 : c1 ≠ 0) (n2 : c2 ≠ 0) (n3 : c3 ≠ 0)
    (hs : ¬ Spec.Saddle c0 c1 c2 c3) :
    (marchAcc c0 c1 c2 c3).area = Spec.polygonArea (Spec.clip c0 c1 c2 c3) := by
  rcases lt_or_gt_of_ne n0 with h0 | h0 <;> rcases lt_or_gt_of_ne n1 with h1 | h1 <;>
    rcases lt_or_gt_of_ne n2 with h2 | h2 <;> rcases lt_or_gt_of_ne n3 with h3 | h3
  · rw [march_nnnn h0 h1 h2 h3]; clip_simp h0 h1 h2 h3
  · rw [march_nnnp h0 h1 h2 h3]; clip_simp h0 h1 h2 h3
    have e23 : c2 - c3 ≠ 0 := fun h => by linarith
    have e32 : c3 - c2 ≠ 0 := fun h => by linarith
    have e13 : c1 - c3 ≠ 0 := fun h => by linarith
    have e31 : c3 - c1 ≠ 0 := fun h => by linarith
    field_simp
    ring
  · rw [march_nnpn h0 h1 h2 h3]; clip_simp h0 h1 h2 h3
    have e23 : c2 - c3 ≠ 0 := fun h => by linarith
    have e32 : c3 - c2 ≠ 0 := fun h => by linarith
    have e02 : c0 - c2 ≠ 0 := fun h => by linarith
    have e20 : c2 - c0 ≠ 0 := fun h => by linarith
    field_simp
    ring
  · rw [march_nnpp h0 h1 h2 h3]; clip_simp h0 h1 h2 h3
    have e02 : c0 - c2 ≠ 0 := fun h => by linarith
    have e20 : c2 - c0 ≠ 0 := fun h => by linarith
    have e13 : c1 - c3 ≠ 0 := fun h => by linarith
    have e31 : c3 - c1 ≠ 0 := fun h => by linarith
    field_simp
    ring
  · rw [march_npnn h0 h1 h2 h3]; clip_simp h0 h1 h2 h3
    have e01 : c0 - c1 ≠ 0 := fun h => by linarith
    have e10 : c1 - c0 ≠ 0 := fun h => by linarith
    have e13 : c1 - c3 ≠ 0 := fun h => by linarith
    have e31 : c3 - c1 ≠ 0 := fun h => by linarith
    field_simp
    ring
  · rw [march_npnp h0 h1 h2 h3]; clip_simp h0 h1 h2 h3
    have e01 : c0 - c1 ≠ 0 := fun h => by linarith
    have e10 : c1 - c0 ≠ 0 := fun h => by linarith
    have e23 : c2 - c3 ≠ 0 := fun h => by linarith
    have e32 : c3 - c2 ≠ 0 := fun h => by linarith
    field_simp
    ring
  · exact absurd (by unfold Spec.Saddle; tauto) hs
  · rw [march_nppp h0 h1 h2 h3]; clip_simp h0 h1 h2 h3
    have e01 : c0 - c1 ≠ 0 := fun h => by linarith
    have e10 : c1 - c0 ≠ 0 := fun h => by linarith
    have e02 : c0 - c2 ≠ 0 := fun h => by linarith
    have e20 : c2 - c0 ≠ 0 := fun h => by linarith
    field_simp
    ring
  · rw [march_pnnn h0 h1 h2 h3]; clip_simp h0 h1 h2 h3
    have e01 : c0 - c1 ≠ 0 := fun h => by linarith
    have e10 : c1 - c0 ≠ 0 := fun h => by linarith
    have e02 : c0 - c2 ≠ 0 := fun h => by linarith
    have e20 : c2 - c0 ≠ 0 := fun h => by linarith
    field_simp
    ring
  · exact absurd (by unfold Spec.Saddle; tauto) hs
  · rw [march_pnpn h0 h1 h2 h3]; clip_simp h0 h1 h2 h3
    have e01 : c0 - c1 ≠ 0 := fun h => by linarith
    have e10 : c1 - c0 ≠ 0 := fun h => by linarith
    have e23 : c2 - c3 ≠ 0 := fun h => by linarith
    have e32 : c3 - c2 ≠ 0 := fun h => by linarith
    field_simp
    ring
  · rw [march_pnpp h0 h1 h2 h3]; clip_simp h0 h1 h2 h3
    have e01 : c0 - c1 ≠ 0 := fun h => by linarith
    have e10 : c1 - c0 ≠ 0 := fun h => by linarith
    have e13 : c1 - c3 ≠ 0 := fun h => by linarith
    have e31 : c3 - c1 ≠ 0 := fun h => by linarith
    field_simp
    ring
  · rw [march_ppnn h0 h1 h2 h3]; clip_simp h0 h1 h2 h3
    have e02 : c0 - c2 ≠ 0 := fun h => by linarith
    have e20 : c2 - c0 ≠ 0 := fun h => by linarith
    have e13 : c1 - c3 ≠ 0 := fun h => by linarith
    have e31 : c3 - c1 ≠ 0 := fun h => by linarith
    field_simp
    ring
  · rw [march_ppnp h0 h1 h2 h3]; clip_simp h0 h1 h2 h3
    have e23 : c2 - c3 ≠ 0 := fun h => by linarith
    have e32 : c3 - c2 ≠ 0 := fun h => by linarith
    have e02 : c0 - c2 ≠ 0 := fun h => by linarith
    have e20 : c2 - c0 ≠ 0 := fun h => by linarith
    field_simp
    ring
  · rw [march_pppn h0 h1 h2 h3]; clip_simp h0 h1 h2 h3
    have e23 : c2 - c3 ≠ 0 := fun h => by linarith
    have e32 : c3 - c2 ≠ 0 := fun h => by linarith
    have e13 : c1 - c3 ≠ 0 := fun h => by linarith
    have e31 : c3 - c1 ≠ 0 := fun h => by linarith
    field_simp
    ring
  · rw [march_pppp h0 h1 h2 h3]; clip_simp h0 h1 h2 h3; norm_num


theorem mul_half_bounds {a b : K} (ha : 0 < a ∧ a < 1) (hb : 0 < b ∧ b < 1) : 0 < a * b ∧ a * b < 1 :=
  ⟨mul_pos ha.1 hb.1, by nlinarith [ha.1, ha.2, hb.1, hb.2]⟩

theorem area_bounds {c0 c1 c2 c3 : K} (n0 : c0 ≠ 0) (n1 : c1 ≠ 0) (n2 : c2 ≠ 0) (n3 : c3 ≠ 0)
    (hs : ¬ Spec.Saddle c0 c1 c2 c3) :
    0 ≤ (marchAcc c0 c1 c2 c3).area ∧ (marchAcc c0 c1 c2 c3).area ≤ 1 := by
  rcases lt_or_gt_of_ne n0 with h0 | h0 <;> rcases lt_or_gt_of_ne n1 with h1 | h1 <;>
    rcases lt_or_gt_of_ne n2 with h2 | h2 <;> rcases lt_or_gt_of_ne n3 with h3 | h3
  · rw [march_nnnn h0 h1 h2 h3]; dsimp only
    norm_num
  · rw [march_nnnp h0 h1 h2 h3]; dsimp only
    have bx1 := cut_np_bounds h2 h3
    generalize c2 / (c2 - c3) = x1 at *
    have by1 := cut_np_bounds h1 h3
    generalize c1 / (c1 - c3) = y1 at *
    have hm := mul_half_bounds (⟨by linarith [bx1.2], by linarith [bx1.1]⟩ : 0 < 1 - x1 ∧ 1 - x1 < 1) (⟨by linarith [by1.2], by linarith [by1.1]⟩ : 0 < 1 - y1 ∧ 1 - y1 < 1)
    constructor <;> linarith [hm.1, hm.2]
  · rw [march_nnpn h0 h1 h2 h3]; dsimp only
    have bx1 := cut_pn_bounds h2 h3
    generalize c2 / (c2 - c3) = x1 at *
    have by0 := cut_np_bounds h0 h2
    generalize c0 / (c0 - c2) = y0 at *
    have hm := mul_half_bounds bx1 (⟨by linarith [by0.2], by linarith [by0.1]⟩ : 0 < 1 - y0 ∧ 1 - y0 < 1)
    constructor <;> linarith [hm.1, hm.2]
  · rw [march_nnpp h0 h1 h2 h3]; dsimp only
    have by0 := cut_np_bounds h0 h2
    generalize c0 / (c0 - c2) = y0 at *
    have by1 := cut_np_bounds h1 h3
    generalize c1 / (c1 - c3) = y1 at *
    constructor <;> linarith [by0.1, by0.2, by1.1, by1.2]
  · rw [march_npnn h0 h1 h2 h3]; dsimp only
    have bx0 := cut_np_bounds h0 h1
    generalize c0 / (c0 - c1) = x0 at *
    have by1 := cut_pn_bounds h1 h3
    generalize c1 / (c1 - c3) = y1 at *
    have hm := mul_half_bounds (⟨by linarith [bx0.2], by linarith [bx0.1]⟩ : 0 < 1 - x0 ∧ 1 - x0 < 1) by1
    constructor <;> linarith [hm.1, hm.2]
  · rw [march_npnp h0 h1 h2 h3]; dsimp only
    have bx0 := cut_np_bounds h0 h1
    generalize c0 / (c0 - c1) = x0 at *
    have bx1 := cut_np_bounds h2 h3
    generalize c2 / (c2 - c3) = x1 at *
    constructor <;> linarith [bx0.1, bx0.2, bx1.1, bx1.2]
  · exact absurd (by unfold Spec.Saddle; tauto) hs
  · rw [march_nppp h0 h1 h2 h3]; dsimp only
    have bx0 := cut_np_bounds h0 h1
    generalize c0 / (c0 - c1) = x0 at *
    have by0 := cut_np_bounds h0 h2
    generalize c0 / (c0 - c2) = y0 at *
    have hm := mul_half_bounds bx0 by0
    constructor <;> linarith [hm.1, hm.2]
  · rw [march_pnnn h0 h1 h2 h3]; dsimp only
    have bx0 := cut_pn_bounds h0 h1
    generalize c0 / (c0 - c1) = x0 at *
    have by0 := cut_pn_bounds h0 h2
    generalize c0 / (c0 - c2) = y0 at *
    have hm := mul_half_bounds bx0 by0
    constructor <;> linarith [hm.1, hm.2]
  · exact absurd (by unfold Spec.Saddle; tauto) hs
  · rw [march_pnpn h0 h1 h2 h3]; dsimp only
    have bx0 := cut_pn_bounds h0 h1
    generalize c0 / (c0 - c1) = x0 at *
    have bx1 := cut_pn_bounds h2 h3
    generalize c2 / (c2 - c3) = x1 at *
    constructor <;> linarith [bx0.1, bx0.2, bx1.1, bx1.2]
  · rw [march_pnpp h0 h1 h2 h3]; dsimp only
    have bx0 := cut_pn_bounds h0 h1
    generalize c0 / (c0 - c1) = x0 at *
    have by1 := cut_np_bounds h1 h3
    generalize c1 / (c1 - c3) = y1 at *
    have hm := mul_half_bounds (⟨by linarith [bx0.2], by linarith [bx0.1]⟩ : 0 < 1 - x0 ∧ 1 - x0 < 1) by1
    constructor <;> linarith [hm.1, hm.2]
  · rw [march_ppnn h0 h1 h2 h3]; dsimp only
    have by0 := cut_pn_bounds h0 h2
    generalize c0 / (c0 - c2) = y0 at *
    have by1 := cut_pn_bounds h1 h3
    generalize c1 / (c1 - c3) = y1 at *
    constructor <;> linarith [by0.1, by0.2, by1.1, by1.2]
  · rw [march_ppnp h0 h1 h2 h3]; dsimp only
    have bx1 := cut_np_bounds h2 h3
    generalize c2 / (c2 - c3) = x1 at *
    have by0 := cut_pn_bounds h0 h2
    generalize c0 / (c0 - c2) = y0 at *
    have hm := mul_half_bounds bx1 (⟨by linarith [by0.2], by linarith [by0.1]⟩ : 0 < 1 - y0 ∧ 1 - y0 < 1)
    constructor <;> linarith [hm.1, hm.2]
  · rw [march_pppn h0 h1 h2 h3]; dsimp only
    have bx1 := cut_pn_bounds h2 h3
    generalize c2 / (c2 - c3) = x1 at *
    have by1 := cut_pn_bounds h1 h3
    generalize c1 / (c1 - c3) = y1 at *
    have hm := mul_half_bounds (⟨by linarith [bx1.2], by linarith [bx1.1]⟩ : 0 < 1 - x1 ∧ 1 - x1 < 1) (⟨by linarith [by1.2], by linarith [by1.1]⟩ : 0 < 1 - y1 ∧ 1 - y1 < 1)
    constructor <;> linarith [hm.1, hm.2]
  · rw [march_pppp h0 h1 h2 h3]; dsimp only
    norm_num

theorem neg_cut (a b : K) : -a / (-a - -b) = a / (a - b) := by
  rw [show -a - -b = -(a - b) by ring, neg_div_neg_eq]

theorem area_neg {c0 c1 c2 c3 : K} (n0 : c0 ≠ 0) (n1 : c1 ≠ 0) (n2 : c2 ≠ 0) (n3 : c3 ≠ 0)
    (hs : ¬ Spec.Saddle c0 c1 c2 c3) :
    (marchAcc (-c0) (-c1) (-c2) (-c3)).area = 1 - (marchAcc c0 c1 c2 c3).area := by
  rcases lt_or_gt_of_ne n0 with h0 | h0 <;> rcases lt_or_gt_of_ne n1 with h1 | h1 <;>
    rcases lt_or_gt_of_ne n2 with h2 | h2 <;> rcases lt_or_gt_of_ne n3 with h3 | h3
  · rw [march_nnnn h0 h1 h2 h3, march_pppp (neg_pos.2 h0) (neg_pos.2 h1) (neg_pos.2 h2) (neg_pos.2 h3)]; dsimp only
    norm_num
  · rw [march_nnnp h0 h1 h2 h3, march_pppn (neg_pos.2 h0) (neg_pos.2 h1) (neg_pos.2 h2) (neg_lt_zero.2 h3)]; dsimp only
    simp only [neg_cut] <;> ring
  · rw [march_nnpn h0 h1 h2 h3, march_ppnp (neg_pos.2 h0) (neg_pos.2 h1) (neg_lt_zero.2 h2) (neg_pos.2 h3)]; dsimp only
    simp only [neg_cut] <;> ring
  · rw [march_nnpp h0 h1 h2 h3, march_ppnn (neg_pos.2 h0) (neg_pos.2 h1) (neg_lt_zero.2 h2) (neg_lt_zero.2 h3)]; dsimp only
    simp only [neg_cut] <;> ring
  · rw [march_npnn h0 h1 h2 h3, march_pnpp (neg_pos.2 h0) (neg_lt_zero.2 h1) (neg_pos.2 h2) (neg_pos.2 h3)]; dsimp only
    simp only [neg_cut] <;> ring
  · rw [march_npnp h0 h1 h2 h3, march_pnpn (neg_pos.2 h0) (neg_lt_zero.2 h1) (neg_pos.2 h2) (neg_lt_zero.2 h3)]; dsimp only
    simp only [neg_cut] <;> ring
  · exact absurd (by unfold Spec.Saddle; tauto) hs
  · rw [march_nppp h0 h1 h2 h3, march_pnnn (neg_pos.2 h0) (neg_lt_zero.2 h1) (neg_lt_zero.2 h2) (neg_lt_zero.2 h3)]; dsimp only
    simp only [neg_cut] <;> ring
  · rw [march_pnnn h0 h1 h2 h3, march_nppp (neg_lt_zero.2 h0) (neg_pos.2 h1) (neg_pos.2 h2) (neg_pos.2 h3)]; dsimp only
    simp only [neg_cut] <;> ring
  · exact absurd (by unfold Spec.Saddle; tauto) hs
  · rw [march_pnpn h0 h1 h2 h3, march_npnp (neg_lt_zero.2 h0) (neg_pos.2 h1) (neg_lt_zero.2 h2) (neg_pos.2 h3)]; dsimp only
    simp only [neg_cut] <;> ring
  · rw [march_pnpp h0 h1 h2 h3, march_npnn (neg_lt_zero.2 h0) (neg_pos.2 h1) (neg_lt_zero.2 h2) (neg_lt_zero.2 h3)]; dsimp only
    simp only [neg_cut] <;> ring
  · rw [march_ppnn h0 h1 h2 h3, march_nnpp (neg_lt_zero.2 h0) (neg_lt_zero.2 h1) (neg_pos.2 h2) (neg_pos.2 h3)]; dsimp only
    simp only [neg_cut] <;> ring
  · rw [march_ppnp h0 h1 h2 h3, march_nnpn (neg_lt_zero.2 h0) (neg_lt_zero.2 h1) (neg_pos.2 h2) (neg_lt_zero.2 h3)]; dsimp only
    simp only [neg_cut] <;> ring
  · rw [march_pppn h0 h1 h2 h3, march_nnnp (neg_lt_zero.2 h0) (neg_lt_zero.2 h1) (neg_lt_zero.2 h2) (neg_pos.2 h3)]; dsimp only
    simp only [neg_cut] <;> ring
  · rw [march_pppp h0 h1 h2 h3, march_nnnn (neg_lt_zero.2 h0) (neg_lt_zero.2 h1) (neg_lt_zero.2 h2) (neg_lt_zero.2 h3)]; dsimp only
    norm_num

/-- value at `(x, y)` of the bilinear function with the corner values `c0 .. c3` -/
def Spec.bilinear (c0 c1 c2 c3 : K) (p : K × K) : K :=
  c0 * (1 - p.1) * (1 - p.2) + c1 * p.1 * (1 - p.2) + c2 * (1 - p.1) * p.2 + c3 * p.1 * p.2

/-- on the boundary of the unit square -/
def Spec.OnBoundary (p : K × K) : Prop :=
  0 ≤ p.1 ∧ p.1 ≤ 1 ∧ 0 ≤ p.2 ∧ p.2 ≤ 1 ∧ (p.1 = 0 ∨ p.1 = 1 ∨ p.2 = 0 ∨ p.2 = 1)

omit [LinearOrder K] [IsStrictOrderedRing K] in
theorem bil_x0 {a b : K} (h : a - b ≠ 0) (c d : K) : Spec.bilinear a b c d (a / (a - b), 0) = 0 := by
  unfold Spec.bilinear; field_simp; ring
omit [LinearOrder K] [IsStrictOrderedRing K] in
theorem bil_x1 {a b : K} (h : a - b ≠ 0) (c d : K) : Spec.bilinear c d a b (a / (a - b), 1) = 0 := by
  unfold Spec.bilinear; field_simp; ring
omit [LinearOrder K] [IsStrictOrderedRing K] in
theorem bil_y0 {a b : K} (h : a - b ≠ 0) (c d : K) : Spec.bilinear a c b d (0, a / (a - b)) = 0 := by
  unfold Spec.bilinear; field_simp; ring
omit [LinearOrder K] [IsStrictOrderedRing K] in
theorem bil_y1 {a b : K} (h : a - b ≠ 0) (c d : K) : Spec.bilinear c a d b (1, a / (a - b)) = 0 := by
  unfold Spec.bilinear; field_simp; ring

theorem ob_x0 {r : K} (h : 0 < r ∧ r < 1) : Spec.OnBoundary (r, (0 : K)) :=
  ⟨h.1.le, h.2.le, le_rfl, zero_le_one, .inr (.inr (.inl rfl))⟩
theorem ob_x1 {r : K} (h : 0 < r ∧ r < 1) : Spec.OnBoundary (r, (1 : K)) :=
  ⟨h.1.le, h.2.le, zero_le_one, le_rfl, .inr (.inr (.inr rfl))⟩
theorem ob_y0 {r : K} (h : 0 < r ∧ r < 1) : Spec.OnBoundary ((0 : K), r) :=
  ⟨le_rfl, zero_le_one, h.1.le, h.2.le, .inl rfl⟩
theorem ob_y1 {r : K} (h : 0 < r ∧ r < 1) : Spec.OnBoundary ((1 : K), r) :=
  ⟨zero_le_one, le_rfl, h.1.le, h.2.le, .inr (.inl rfl)⟩

theorem seg_endpoints {c0 c1 c2 c3 : K} (n0 : c0 ≠ 0) (n1 : c1 ≠ 0) (n2 : c2 ≠ 0) (n3 : c3 ≠ 0) :
    ∀ s ∈ (marchAcc c0 c1 c2 c3).segs, s.p ≠ s.q ∧ Spec.OnBoundary s.p ∧ Spec.OnBoundary s.q ∧
      Spec.bilinear c0 c1 c2 c3 s.p = 0 ∧ Spec.bilinear c0 c1 c2 c3 s.q = 0 := by
  rcases lt_or_gt_of_ne n0 with h0 | h0 <;> rcases lt_or_gt_of_ne n1 with h1 | h1 <;>
    rcases lt_or_gt_of_ne n2 with h2 | h2 <;> rcases lt_or_gt_of_ne n3 with h3 | h3
  · rw [march_nnnn h0 h1 h2 h3]
    intro s hs
    simp at hs
  · rw [march_nnnp h0 h1 h2 h3]
    intro s hs
    have bx1 := cut_np_bounds h2 h3
    have zx1 := ob_x1 bx1
    have ux1 := bil_x1 (a := c2) (b := c3) (fun h => by linarith) c0 c1
    have by1 := cut_np_bounds h1 h3
    have zy1 := ob_y1 by1
    have uy1 := bil_y1 (a := c1) (b := c3) (fun h => by linarith) c0 c2
    simp only [List.mem_cons, List.not_mem_nil, or_false] at hs
    subst hs
    exact ⟨fun h => by simp only [Prod.mk.injEq] at h; linarith [bx1.1, bx1.2, by1.1, by1.2, h.1, h.2], zx1, zy1, ux1, uy1⟩
  · rw [march_nnpn h0 h1 h2 h3]
    intro s hs
    have bx1 := cut_pn_bounds h2 h3
    have zx1 := ob_x1 bx1
    have ux1 := bil_x1 (a := c2) (b := c3) (fun h => by linarith) c0 c1
    have by0 := cut_np_bounds h0 h2
    have zy0 := ob_y0 by0
    have uy0 := bil_y0 (a := c0) (b := c2) (fun h => by linarith) c1 c3
    simp only [List.mem_cons, List.not_mem_nil, or_false] at hs
    subst hs
    exact ⟨fun h => by simp only [Prod.mk.injEq] at h; linarith [bx1.1, bx1.2, by0.1, by0.2, h.1, h.2], zx1, zy0, ux1, uy0⟩
  · rw [march_nnpp h0 h1 h2 h3]
    intro s hs
    have by0 := cut_np_bounds h0 h2
    have zy0 := ob_y0 by0
    have uy0 := bil_y0 (a := c0) (b := c2) (fun h => by linarith) c1 c3
    have by1 := cut_np_bounds h1 h3
    have zy1 := ob_y1 by1
    have uy1 := bil_y1 (a := c1) (b := c3) (fun h => by linarith) c0 c2
    simp only [List.mem_cons, List.not_mem_nil, or_false] at hs
    subst hs
    exact ⟨fun h => by simp only [Prod.mk.injEq] at h; linarith [by0.1, by0.2, by1.1, by1.2, h.1, h.2], zy0, zy1, uy0, uy1⟩
  · rw [march_npnn h0 h1 h2 h3]
    intro s hs
    have bx0 := cut_np_bounds h0 h1
    have zx0 := ob_x0 bx0
    have ux0 := bil_x0 (a := c0) (b := c1) (fun h => by linarith) c2 c3
    have by1 := cut_pn_bounds h1 h3
    have zy1 := ob_y1 by1
    have uy1 := bil_y1 (a := c1) (b := c3) (fun h => by linarith) c0 c2
    simp only [List.mem_cons, List.not_mem_nil, or_false] at hs
    subst hs
    exact ⟨fun h => by simp only [Prod.mk.injEq] at h; linarith [bx0.1, bx0.2, by1.1, by1.2, h.1, h.2], zx0, zy1, ux0, uy1⟩
  · rw [march_npnp h0 h1 h2 h3]
    intro s hs
    have bx0 := cut_np_bounds h0 h1
    have zx0 := ob_x0 bx0
    have ux0 := bil_x0 (a := c0) (b := c1) (fun h => by linarith) c2 c3
    have bx1 := cut_np_bounds h2 h3
    have zx1 := ob_x1 bx1
    have ux1 := bil_x1 (a := c2) (b := c3) (fun h => by linarith) c0 c1
    simp only [List.mem_cons, List.not_mem_nil, or_false] at hs
    subst hs
    exact ⟨fun h => by simp only [Prod.mk.injEq] at h; linarith [bx0.1, bx0.2, bx1.1, bx1.2, h.1, h.2], zx0, zx1, ux0, ux1⟩
  · rw [march_nppn h0 h1 h2 h3]
    intro s hs
    have bx0 := cut_np_bounds h0 h1
    have zx0 := ob_x0 bx0
    have ux0 := bil_x0 (a := c0) (b := c1) (fun h => by linarith) c2 c3
    have bx1 := cut_pn_bounds h2 h3
    have zx1 := ob_x1 bx1
    have ux1 := bil_x1 (a := c2) (b := c3) (fun h => by linarith) c0 c1
    have by0 := cut_np_bounds h0 h2
    have zy0 := ob_y0 by0
    have uy0 := bil_y0 (a := c0) (b := c2) (fun h => by linarith) c1 c3
    have by1 := cut_pn_bounds h1 h3
    have zy1 := ob_y1 by1
    have uy1 := bil_y1 (a := c1) (b := c3) (fun h => by linarith) c0 c2
    simp only [List.mem_cons, List.not_mem_nil, or_false] at hs
    rcases hs with rfl | rfl | rfl | rfl
    · exact ⟨fun h => by simp only [Prod.mk.injEq] at h; linarith [bx0.1, bx0.2, by0.1, by0.2, h.1, h.2], zx0, zy0, ux0, uy0⟩
    · exact ⟨fun h => by simp only [Prod.mk.injEq] at h; linarith [bx0.1, bx0.2, by1.1, by1.2, h.1, h.2], zx0, zy1, ux0, uy1⟩
    · exact ⟨fun h => by simp only [Prod.mk.injEq] at h; linarith [bx1.1, bx1.2, by0.1, by0.2, h.1, h.2], zx1, zy0, ux1, uy0⟩
    · exact ⟨fun h => by simp only [Prod.mk.injEq] at h; linarith [bx1.1, bx1.2, by1.1, by1.2, h.1, h.2], zx1, zy1, ux1, uy1⟩
  · rw [march_nppp h0 h1 h2 h3]
    intro s hs
    have bx0 := cut_np_bounds h0 h1
    have zx0 := ob_x0 bx0
    have ux0 := bil_x0 (a := c0) (b := c1) (fun h => by linarith) c2 c3
    have by0 := cut_np_bounds h0 h2
    have zy0 := ob_y0 by0
    have uy0 := bil_y0 (a := c0) (b := c2) (fun h => by linarith) c1 c3
    simp only [List.mem_cons, List.not_mem_nil, or_false] at hs
    subst hs
    exact ⟨fun h => by simp only [Prod.mk.injEq] at h; linarith [bx0.1, bx0.2, by0.1, by0.2, h.1, h.2], zx0, zy0, ux0, uy0⟩
  · rw [march_pnnn h0 h1 h2 h3]
    intro s hs
    have bx0 := cut_pn_bounds h0 h1
    have zx0 := ob_x0 bx0
    have ux0 := bil_x0 (a := c0) (b := c1) (fun h => by linarith) c2 c3
    have by0 := cut_pn_bounds h0 h2
    have zy0 := ob_y0 by0
    have uy0 := bil_y0 (a := c0) (b := c2) (fun h => by linarith) c1 c3
    simp only [List.mem_cons, List.not_mem_nil, or_false] at hs
    subst hs
    exact ⟨fun h => by simp only [Prod.mk.injEq] at h; linarith [bx0.1, bx0.2, by0.1, by0.2, h.1, h.2], zx0, zy0, ux0, uy0⟩
  · rw [march_pnnp h0 h1 h2 h3]
    intro s hs
    have bx0 := cut_pn_bounds h0 h1
    have zx0 := ob_x0 bx0
    have ux0 := bil_x0 (a := c0) (b := c1) (fun h => by linarith) c2 c3
    have bx1 := cut_np_bounds h2 h3
    have zx1 := ob_x1 bx1
    have ux1 := bil_x1 (a := c2) (b := c3) (fun h => by linarith) c0 c1
    have by0 := cut_pn_bounds h0 h2
    have zy0 := ob_y0 by0
    have uy0 := bil_y0 (a := c0) (b := c2) (fun h => by linarith) c1 c3
    have by1 := cut_np_bounds h1 h3
    have zy1 := ob_y1 by1
    have uy1 := bil_y1 (a := c1) (b := c3) (fun h => by linarith) c0 c2
    simp only [List.mem_cons, List.not_mem_nil, or_false] at hs
    rcases hs with rfl | rfl | rfl | rfl
    · exact ⟨fun h => by simp only [Prod.mk.injEq] at h; linarith [bx0.1, bx0.2, by0.1, by0.2, h.1, h.2], zx0, zy0, ux0, uy0⟩
    · exact ⟨fun h => by simp only [Prod.mk.injEq] at h; linarith [bx0.1, bx0.2, by1.1, by1.2, h.1, h.2], zx0, zy1, ux0, uy1⟩
    · exact ⟨fun h => by simp only [Prod.mk.injEq] at h; linarith [bx1.1, bx1.2, by0.1, by0.2, h.1, h.2], zx1, zy0, ux1, uy0⟩
    · exact ⟨fun h => by simp only [Prod.mk.injEq] at h; linarith [bx1.1, bx1.2, by1.1, by1.2, h.1, h.2], zx1, zy1, ux1, uy1⟩
  · rw [march_pnpn h0 h1 h2 h3]
    intro s hs
    have bx0 := cut_pn_bounds h0 h1
    have zx0 := ob_x0 bx0
    have ux0 := bil_x0 (a := c0) (b := c1) (fun h => by linarith) c2 c3
    have bx1 := cut_pn_bounds h2 h3
    have zx1 := ob_x1 bx1
    have ux1 := bil_x1 (a := c2) (b := c3) (fun h => by linarith) c0 c1
    simp only [List.mem_cons, List.not_mem_nil, or_false] at hs
    subst hs
    exact ⟨fun h => by simp only [Prod.mk.injEq] at h; linarith [bx0.1, bx0.2, bx1.1, bx1.2, h.1, h.2], zx0, zx1, ux0, ux1⟩
  · rw [march_pnpp h0 h1 h2 h3]
    intro s hs
    have bx0 := cut_pn_bounds h0 h1
    have zx0 := ob_x0 bx0
    have ux0 := bil_x0 (a := c0) (b := c1) (fun h => by linarith) c2 c3
    have by1 := cut_np_bounds h1 h3
    have zy1 := ob_y1 by1
    have uy1 := bil_y1 (a := c1) (b := c3) (fun h => by linarith) c0 c2
    simp only [List.mem_cons, List.not_mem_nil, or_false] at hs
    subst hs
    exact ⟨fun h => by simp only [Prod.mk.injEq] at h; linarith [bx0.1, bx0.2, by1.1, by1.2, h.1, h.2], zx0, zy1, ux0, uy1⟩
  · rw [march_ppnn h0 h1 h2 h3]
    intro s hs
    have by0 := cut_pn_bounds h0 h2
    have zy0 := ob_y0 by0
    have uy0 := bil_y0 (a := c0) (b := c2) (fun h => by linarith) c1 c3
    have by1 := cut_pn_bounds h1 h3
    have zy1 := ob_y1 by1
    have uy1 := bil_y1 (a := c1) (b := c3) (fun h => by linarith) c0 c2
    simp only [List.mem_cons, List.not_mem_nil, or_false] at hs
    subst hs
    exact ⟨fun h => by simp only [Prod.mk.injEq] at h; linarith [by0.1, by0.2, by1.1, by1.2, h.1, h.2], zy0, zy1, uy0, uy1⟩
  · rw [march_ppnp h0 h1 h2 h3]
    intro s hs
    have bx1 := cut_np_bounds h2 h3
    have zx1 := ob_x1 bx1
    have ux1 := bil_x1 (a := c2) (b := c3) (fun h => by linarith) c0 c1
    have by0 := cut_pn_bounds h0 h2
    have zy0 := ob_y0 by0
    have uy0 := bil_y0 (a := c0) (b := c2) (fun h => by linarith) c1 c3
    simp only [List.mem_cons, List.not_mem_nil, or_false] at hs
    subst hs
    exact ⟨fun h => by simp only [Prod.mk.injEq] at h; linarith [bx1.1, bx1.2, by0.1, by0.2, h.1, h.2], zx1, zy0, ux1, uy0⟩
  · rw [march_pppn h0 h1 h2 h3]
    intro s hs
    have bx1 := cut_pn_bounds h2 h3
    have zx1 := ob_x1 bx1
    have ux1 := bil_x1 (a := c2) (b := c3) (fun h => by linarith) c0 c1
    have by1 := cut_pn_bounds h1 h3
    have zy1 := ob_y1 by1
    have uy1 := bil_y1 (a := c1) (b := c3) (fun h => by linarith) c0 c2
    simp only [List.mem_cons, List.not_mem_nil, or_false] at hs
    subst hs
    exact ⟨fun h => by simp only [Prod.mk.injEq] at h; linarith [bx1.1, bx1.2, by1.1, by1.2, h.1, h.2], zx1, zy1, ux1, uy1⟩
  · rw [march_pppp h0 h1 h2 h3]
    intro s hs
    simp at hs


theorem seg_count {c0 c1 c2 c3 : K} (n0 : c0 ≠ 0) (n1 : c1 ≠ 0) (n2 : c2 ≠ 0) (n3 : c3 ≠ 0)
    (hs : ¬ Spec.Saddle c0 c1 c2 c3) :
    (marchAcc c0 c1 c2 c3).segs.length =
      if (0 < c0 ∧ 0 < c1 ∧ 0 < c2 ∧ 0 < c3) ∨ (c0 < 0 ∧ c1 < 0 ∧ c2 < 0 ∧ c3 < 0) then 0 else 1 := by
  rcases lt_or_gt_of_ne n0 with h0 | h0 <;> rcases lt_or_gt_of_ne n1 with h1 | h1 <;>
    rcases lt_or_gt_of_ne n2 with h2 | h2 <;> rcases lt_or_gt_of_ne n3 with h3 | h3
  · rw [march_nnnn h0 h1 h2 h3]; simp [h0, h1, h2, h3, h0.not_gt, h1.not_gt, h2.not_gt, h3.not_gt]
  · rw [march_nnnp h0 h1 h2 h3]; simp [h0, h1, h2, h3, h0.not_gt, h1.not_gt, h2.not_gt, h3.not_gt]
  · rw [march_nnpn h0 h1 h2 h3]; simp [h0, h1, h2, h3, h0.not_gt, h1.not_gt, h2.not_gt, h3.not_gt]
  · rw [march_nnpp h0 h1 h2 h3]; simp [h0, h1, h2, h3, h0.not_gt, h1.not_gt, h2.not_gt, h3.not_gt]
  · rw [march_npnn h0 h1 h2 h3]; simp [h0, h1, h2, h3, h0.not_gt, h1.not_gt, h2.not_gt, h3.not_gt]
  · rw [march_npnp h0 h1 h2 h3]; simp [h0, h1, h2, h3, h0.not_gt, h1.not_gt, h2.not_gt, h3.not_gt]
  · exact absurd (by unfold Spec.Saddle; tauto) hs
  · rw [march_nppp h0 h1 h2 h3]; simp [h0, h1, h2, h3, h0.not_gt, h1.not_gt, h2.not_gt, h3.not_gt]
  · rw [march_pnnn h0 h1 h2 h3]; simp [h0, h1, h2, h3, h0.not_gt, h1.not_gt, h2.not_gt, h3.not_gt]
  · exact absurd (by unfold Spec.Saddle; tauto) hs
  · rw [march_pnpn h0 h1 h2 h3]; simp [h0, h1, h2, h3, h0.not_gt, h1.not_gt, h2.not_gt, h3.not_gt]
  · rw [march_pnpp h0 h1 h2 h3]; simp [h0, h1, h2, h3, h0.not_gt, h1.not_gt, h2.not_gt, h3.not_gt]
  · rw [march_ppnn h0 h1 h2 h3]; simp [h0, h1, h2, h3, h0.not_gt, h1.not_gt, h2.not_gt, h3.not_gt]
  · rw [march_ppnp h0 h1 h2 h3]; simp [h0, h1, h2, h3, h0.not_gt, h1.not_gt, h2.not_gt, h3.not_gt]
  · rw [march_pppn h0 h1 h2 h3]; simp [h0, h1, h2, h3, h0.not_gt, h1.not_gt, h2.not_gt, h3.not_gt]
  · rw [march_pppp h0 h1 h2 h3]; simp [h0, h1, h2, h3, h0.not_gt, h1.not_gt, h2.not_gt, h3.not_gt]

theorem area_saddle {c0 c1 c2 c3 : K} (hs : Spec.Saddle c0 c1 c2 c3) : (marchAcc c0 c1 c2 c3).area < 0 := by
  rcases hs with ⟨h0, h1, h2, h3⟩ | ⟨h0, h1, h2, h3⟩
  · rw [march_pnnp h0 h1 h2 h3]; dsimp only
    have bx0 := cut_pn_bounds h0 h1
    have bx1 := cut_np_bounds h2 h3
    have by0 := cut_pn_bounds h0 h2
    have by1 := cut_np_bounds h1 h3
    generalize c0 / (c0 - c1) = x0 at *
    generalize c2 / (c2 - c3) = x1 at *
    generalize c0 / (c0 - c2) = y0 at *
    generalize c1 / (c1 - c3) = y1 at *
    have m0 := mul_half_bounds bx0 by0
    have m1 := mul_half_bounds (⟨by linarith [bx0.2], by linarith [bx0.1]⟩ : 0 < 1 - x0 ∧ 1 - x0 < 1) by1
    have m2 := mul_half_bounds bx1 (⟨by linarith [by0.2], by linarith [by0.1]⟩ : 0 < 1 - y0 ∧ 1 - y0 < 1)
    have m3 := mul_half_bounds (⟨by linarith [bx1.2], by linarith [bx1.1]⟩ : 0 < 1 - x1 ∧ 1 - x1 < 1)
      (⟨by linarith [by1.2], by linarith [by1.1]⟩ : 0 < 1 - y1 ∧ 1 - y1 < 1)
    linarith [m0.2, m1.1, m2.1, m3.2]
  · rw [march_nppn h0 h1 h2 h3]; dsimp only
    have bx0 := cut_np_bounds h0 h1
    have bx1 := cut_pn_bounds h2 h3
    have by0 := cut_np_bounds h0 h2
    have by1 := cut_pn_bounds h1 h3
    generalize c0 / (c0 - c1) = x0 at *
    generalize c2 / (c2 - c3) = x1 at *
    generalize c0 / (c0 - c2) = y0 at *
    generalize c1 / (c1 - c3) = y1 at *
    have m0 := mul_half_bounds bx0 by0
    have m1 := mul_half_bounds (⟨by linarith [bx0.2], by linarith [bx0.1]⟩ : 0 < 1 - x0 ∧ 1 - x0 < 1) by1
    have m2 := mul_half_bounds bx1 (⟨by linarith [by0.2], by linarith [by0.1]⟩ : 0 < 1 - y0 ∧ 1 - y0 < 1)
    have m3 := mul_half_bounds (⟨by linarith [bx1.2], by linarith [bx1.1]⟩ : 0 < 1 - x1 ∧ 1 - x1 < 1)
      (⟨by linarith [by1.2], by linarith [by1.1]⟩ : 0 < 1 - y1 ∧ 1 - y1 < 1)
    linarith [m0.1, m1.2, m2.2, m3.1]

/-! ## C36 -/

/-- the perturbed values are nonzero and not in the saddle configuration -/
def Regular (eps c0 c1 c2 c3 : K) : Prop :=
  c0 + eps ≠ 0 ∧ c1 + eps ≠ 0 ∧ c2 + eps ≠ 0 ∧ c3 + eps ≠ 0 ∧ ¬ Spec.Saddle (c0 + eps) (c1 + eps) (c2 + eps) (c3 + eps)

/-- **C36 (polygon).** Outside of saddles, the area fraction attributed to a sub-cell is the area of the polygon on
which the (perturbed) level set function is positive. -/
theorem C36_fraction_is_polygon_area {eps c0 c1 c2 c3 : K} (h : Regular eps c0 c1 c2 c3) :
    areaFraction eps c0 c1 c2 c3 = Spec.polygonArea (Spec.clip (c0 + eps) (c1 + eps) (c2 + eps) (c3 + eps)) :=
  area_eq_polygon h.1 h.2.1 h.2.2.1 h.2.2.2.1 h.2.2.2.2

/-- **C36 (range).** -/
theorem C36_fraction_in_unit_interval {eps c0 c1 c2 c3 : K} (h : Regular eps c0 c1 c2 c3) :
    0 ≤ areaFraction eps c0 c1 c2 c3 ∧ areaFraction eps c0 c1 c2 c3 ≤ 1 :=
  area_bounds h.1 h.2.1 h.2.2.1 h.2.2.2.1 h.2.2.2.2

/-- **C36 (one side).** Sub-cells whose corner values all have one sign get fraction one or zero and no segment. -/
theorem C36_one_sided {eps c0 c1 c2 c3 : K} :
    (0 < c0 + eps → 0 < c1 + eps → 0 < c2 + eps → 0 < c3 + eps →
      areaFraction eps c0 c1 c2 c3 = 1 ∧ segments eps c0 c1 c2 c3 = []) ∧
    (c0 + eps < 0 → c1 + eps < 0 → c2 + eps < 0 → c3 + eps < 0 →
      areaFraction eps c0 c1 c2 c3 = 0 ∧ segments eps c0 c1 c2 c3 = []) := by
  constructor
  · intro h0 h1 h2 h3; simp [areaFraction, segments, march_pppp h0 h1 h2 h3]
  · intro h0 h1 h2 h3; simp [areaFraction, segments, march_nnnn h0 h1 h2 h3]

/-- **C36 (complement).** The fractions of `φ` and `-φ` add up to one (stated for values on which the perturbation has
no effect). -/
theorem C36_complement {c0 c1 c2 c3 : K} (h : Regular 0 c0 c1 c2 c3) :
    areaFraction 0 c0 c1 c2 c3 + areaFraction 0 (-c0) (-c1) (-c2) (-c3) = 1 := by
  obtain ⟨n0, n1, n2, n3, hs⟩ := h
  simp only [areaFraction, add_zero] at *
  rw [area_neg n0 n1 n2 n3 hs]; ring

/-- **C36 (interface segments).** Outside of saddles, a sub-cell contributes exactly one segment to the interface if
its values have both signs, none otherwise; its end points are two different zeros of the bilinear interpolant on the
sub-cell boundary. -/
theorem C36_segments {eps c0 c1 c2 c3 : K} (h : Regular eps c0 c1 c2 c3) :
    ((segments eps c0 c1 c2 c3).length =
      if (0 < c0 + eps ∧ 0 < c1 + eps ∧ 0 < c2 + eps ∧ 0 < c3 + eps) ∨
         (c0 + eps < 0 ∧ c1 + eps < 0 ∧ c2 + eps < 0 ∧ c3 + eps < 0) then 0 else 1) ∧
    ∀ s ∈ segments eps c0 c1 c2 c3, s.p ≠ s.q ∧ Spec.OnBoundary s.p ∧ Spec.OnBoundary s.q ∧
      Spec.bilinear (c0 + eps) (c1 + eps) (c2 + eps) (c3 + eps) s.p = 0 ∧
      Spec.bilinear (c0 + eps) (c1 + eps) (c2 + eps) (c3 + eps) s.q = 0 :=
  ⟨seg_count h.1 h.2.1 h.2.2.1 h.2.2.2.1 h.2.2.2.2, seg_endpoints h.1 h.2.1 h.2.2.1 h.2.2.2.1⟩

/-- **C36, the excepted case.** In *every* saddle configuration the area fraction is negative: the assertion at
two_phase_base.cc:838 fails in debug mode, and in release mode the sub-cell reduces the reported bubble area. -/
theorem C36_saddle_negative {eps c0 c1 c2 c3 : K} (h : Spec.Saddle (c0 + eps) (c1 + eps) (c2 + eps) (c3 + eps)) :
    areaFraction eps c0 c1 c2 c3 < 0 := area_saddle h

/-! Hypotheses are met by non-trivial values -/

example : Regular (1 / 10 ^ 22 : ℚ) 3 (-1) 2 (-1) := by unfold Regular Spec.Saddle; decide +kernel
example : areaFraction (0 : ℚ) 3 (-1) 2 (-1) = 17 / 24 := by decide +kernel
example : (segments (0 : ℚ) 3 (-1) 2 (-1)).length = 1 := by decide +kernel
example : areaFraction (1 / 10 ^ 22 : ℚ) 0 1 1 1 = 1 := by decide +kernel
example : Spec.Saddle (1 : ℚ) (-1) (-1) 1 ∧ areaFraction (0 : ℚ) 1 (-1) (-1) 1 = -1 := by
  unfold Spec.Saddle; decide +kernel

end Verif.Bubble
