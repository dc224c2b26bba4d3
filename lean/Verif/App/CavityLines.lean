import Mathlib.Algebra.Order.Field.Basic
import Mathlib.Algebra.Order.Floor.Ring
import Mathlib.Algebra.Order.Ring.Rat
import Mathlib.Data.List.Basic
import Mathlib.Data.List.Flatten
import Mathlib.Data.List.Perm.Basic
import Mathlib.Data.List.FinRange
import Mathlib.Tactic.Linarith
import Mathlib.Tactic.Ring
import Mathlib.Tactic.LinearCombination
import Mathlib.Tactic.Tauto
import Mathlib.Tactic.FieldSimp
import Mathlib.Tactic.NormNum
import Mathlib.Tactic.Positivity
import Mathlib.Analysis.SpecialFunctions.Trigonometric.Basic

/-!
# C98: boundary velocity and velocity along the centre lines in the lid driven cavity
(applications/drivencavity.cc: BoundaryVelocity 72-89, output_results 166-262, perform_data_exchange 266-331, mesh 365-384, 416)

Axis-parallel cells with exact coordinates; a cell is a triple of intervals. The velocity is an arbitrary function `u` of the point
(a continuous finite element function has one value on a face). `FEFaceValues` follows deal.II's documented face coordinates.
-/

set_option linter.unusedSectionVars false

namespace Verif.App

variable {K : Type*} [Field K] [LinearOrder K] {V : Type*}

/-! ### Model: mesh -/

abbrev Ivl (K : Type*) := K × K
/-- A cell. `vertex(0)` is the corner with the lower coordinates. -/
abbrev Box (K : Type*) := Ivl K × Ivl K × Ivl K

/-- `subdivided_hyper_rectangle` in one direction, drivencavity.cc:374-379: `m` intervals on `[0, L]`. -/
def subdivide (L : K) (m : ℕ) : List (Ivl K) := (List.range m).map fun i : ℕ => (L * i / m, L * (i + 1) / m)

def halves (I : Ivl K) : List (Ivl K) := [(I.1, (I.1 + I.2) / 2), ((I.1 + I.2) / 2, I.2)]

def product (X Y Z : List (Ivl K)) : List (Box K) := X.flatMap fun x => Y.flatMap fun y => Z.map fun z => (x, y, z)

/-- Isotropic refinement of a cell. -/
def children (c : Box K) : List (Box K) := product (halves c.1) (halves c.2.1) (halves c.2.2)

/-- The initial mesh, drivencavity.cc:365-381: unit square with depth `depth` (`cavity_depth = 3`, line 117) and `m` cells per
direction (`global_refinements / 4`), refined globally twice. -/
def initialMesh (depth : K) (m : ℕ) : List (Box K) :=
  ((product (subdivide 1 m) (subdivide 1 m) (subdivide depth m)).flatMap children).flatMap children

/-- Active cells after adaptive refinement (line 416): any cells may be refined, the order of traversal may change. No coarsening
(the third argument of `refine_grid_pressure_based` is zero). -/
inductive Mesh (depth : K) (m : ℕ) : List (Box K) → Prop
  | initial : Mesh depth m (initialMesh depth m)
  | refine (l l' : List (Box K)) (c : Box K) : Mesh depth m (l ++ c :: l') → Mesh depth m (l ++ children c ++ l')
  | reorder (l l' : List (Box K)) : Mesh depth m l → l.Perm l' → Mesh depth m l'

/-! ### Model: sampling -/

/-- `evaluate_points`, drivencavity.cc:171-174: `i / (n-1)` in the first face coordinate, zero in the second. -/
def evaluatePoints (n : ℕ) : List (K × K) := (List.range n).map fun i : ℕ => ((i : K) / ((n : K) - 1), 0)

/-- Unit cell point of a face point: faces 0/1 have coordinates (y, z), faces 2/3 (z, x), faces 4/5 (x, y). -/
def facePoint (face : ℕ) (p : K × K) : K × K × K :=
  match face with
  | 0 => (0, p.1, p.2)
  | 1 => (1, p.1, p.2)
  | 2 => (p.2, 0, p.1)
  | 3 => (p.2, 1, p.1)
  | 4 => (p.1, p.2, 0)
  | _ => (p.1, p.2, 1)

def along (I : Ivl K) (t : K) : K := I.1 + t * (I.2 - I.1)

/-- Mapping of an axis-parallel cell. -/
def realPoint (c : Box K) (p : K × K × K) : K × K × K := (along c.1 p.1, along c.2.1 p.2.1, along c.2.2 p.2.2)

/-- `quadrature_point(q)` and `velocities[q]` on a face. -/
def faceSamples (u : K × K × K → V) (n face : ℕ) (c : Box K) : List ((K × K × K) × V) :=
  (evaluatePoints n).map fun p => (realPoint c (facePoint face p), u (realPoint c (facePoint face p)))

def tol : K := 1 / 10 ^ 12

/-- lines 192-209: `positions_along_y`, `velocities_along_y` of a process owning the cells `l`. -/
def alongY (u : K × K × K → V) (depth : K) (n : ℕ) (l : List (Box K)) : List K × List V :=
  l.foldl (fun a c =>
    if |c.1.1 - 1 / 2| < tol ∧ |c.2.2.1 - depth * (1 / 2)| < tol then
      (a.1 ++ (faceSamples u n 0 c).map fun s => s.1.2.1, a.2 ++ (faceSamples u n 0 c).map fun s => s.2)
    else a) ([], [])

/-- lines 210-221: `positions_along_x`, `velocities_along_x`. -/
def alongX (u : K × K × K → V) (depth : K) (n : ℕ) (l : List (Box K)) : List K × List V :=
  l.foldl (fun a c =>
    if |c.2.1.1 - 1 / 2| < tol ∧ |c.2.2.1 - depth * (1 / 2)| < tol then
      (a.1 ++ (faceSamples u n 4 c).map fun s => s.1.1, a.2 ++ (faceSamples u n 4 c).map fun s => s.2)
    else a) ([], [])

/-! ### Model: exchange -/

section Exchange
variable {α : Type*} [Inhabited α] {dim : ℕ}

/-- The assignments filling `send_data`, drivencavity.cc:293-299, in program order: index and value. -/
def sendWrites (positions : List α) (velocities : List (Fin dim → α)) : List (ℕ × α) :=
  (List.range velocities.length).flatMap fun j =>
    (List.finRange dim).map (fun d => (j * (dim + 1) + d.val, (velocities[j]?.getD fun _ => default) d)) ++
      [(j * (dim + 1) + dim, positions[j]?.getD default)]

def sendData' (positions : List α) (velocities : List (Fin dim → α)) : ℕ → α :=
  (sendWrites positions velocities).foldl (fun buf w => Function.update buf w.1 w.2) (fun _ => default)

/-- One turn of the loop over the ranks, lines 285-330: rank `i` sends, rank 0 receives `receive_count[i]` samples and appends them.
Messages are delivered unchanged (MPI's guarantee). -/
def exchangeTurn (st : ℕ → List α × List (Fin dim → α)) (a : List α × List (Fin dim → α)) (i : ℕ) : List α × List (Fin dim → α) :=
  let receiveData := sendData' (st i).1 (st i).2
  (List.range (st i).2.length).foldl (fun a j =>
    (a.1 ++ [receiveData (j * (dim + 1) + dim)], a.2 ++ [fun d => receiveData (j * (dim + 1) + d.val)])) a

/-- `perform_data_exchange`, lines 266-331: vectors of rank 0 afterwards; `st i` are the vectors of rank `i` before. -/
def exchange (nProcs : ℕ) (st : ℕ → List α × List (Fin dim → α)) : List α × List (Fin dim → α) :=
  ((List.range (nProcs - 1)).map (· + 1)).foldl (exchangeTurn st) (st 0)

end Exchange

/-! ### Specification -/

namespace Spec

/-- The intervals cover `[0, L)` without overlap. -/
def Tiles (L : K) (l : List (Ivl K)) : Prop :=
  ∀ y, l.countP (fun I => decide (I.1 ≤ y ∧ y < I.2)) = if 0 ≤ y ∧ y < L then 1 else 0

/-- `n` equidistant points of an interval including both ends. -/
def equidistant (n : ℕ) (I : Ivl K) : List K := (List.range n).map fun i : ℕ => I.1 + (i : K) / ((n : K) - 1) * (I.2 - I.1)

end Spec

/-! ### Proofs: mesh -/

variable [IsStrictOrderedRing K]

def inI (x : K) (I : Ivl K) : Bool := decide (I.1 ≤ x ∧ x < I.2)

def inBox (p : K × K × K) (c : Box K) : Bool := inI p.1 c.1 && (inI p.2.1 c.2.1 && inI p.2.2 c.2.2)

theorem countP_flatMap' {α β : Type*} (q : β → Bool) (g : α → List β) (f : α → Bool) (N : ℕ)
    (h : ∀ a, (g a).countP q = if f a then N else 0) (l : List α) : (l.flatMap g).countP q = l.countP f * N := by
  induction l with
  | nil => simp
  | cons a l ih =>
    rw [List.flatMap_cons, List.countP_append, ih, h, List.countP_cons]
    split <;> ring

theorem countP_product (p : K × K × K) (X Y Z : List (Ivl K)) :
    (product X Y Z).countP (inBox p) = X.countP (inI p.1) * (Y.countP (inI p.2.1) * Z.countP (inI p.2.2)) := by
  unfold product
  refine countP_flatMap' _ _ _ _ (fun x => ?_) X
  cases hx : inI p.1 x
  · simp only [Bool.false_eq_true, if_false, List.countP_eq_zero, List.mem_flatMap, List.mem_map]
    rintro a ⟨y, _, z, _, rfl⟩
    simp [inBox, hx]
  · simp only [if_true]
    refine countP_flatMap' _ _ _ _ (fun y => ?_) Y
    rw [List.countP_map]
    cases hy : inI p.2.1 y
    · simp only [Bool.false_eq_true, if_false, List.countP_eq_zero]
      intro z _
      simp [inBox, hx, hy]
    · simp only [if_true]
      congr 1
      funext z
      simp [inBox, hx, hy]

/-- proper interval, aligned with `c`: its lower end is a whole number of widths away -/
def Aligned (c : K) (I : Ivl K) : Prop := I.1 < I.2 ∧ ∃ k : ℤ, I.1 - c = k * (I.2 - I.1)

theorem halves_aligned {c : K} {I J : Ivl K} (h : Aligned c I) (hJ : J ∈ halves I) : Aligned c J := by
  obtain ⟨h1, k, hk⟩ := h
  unfold halves at hJ
  rcases List.mem_cons.1 hJ with rfl | hJ
  · refine ⟨by dsimp only; linarith, 2 * k, ?_⟩
    push_cast; linear_combination hk
  · rw [List.mem_singleton] at hJ
    subst hJ
    refine ⟨by dsimp only; linarith, 2 * k + 1, ?_⟩
    push_cast; linear_combination hk

theorem countP_halves (x : K) (I : Ivl K) (h : I.1 < I.2) : (halves I).countP (inI x) = if inI x I then 1 else 0 := by
  unfold halves inI
  simp only [List.countP_cons, List.countP_nil, decide_eq_true_eq]
  by_cases h1 : I.1 ≤ x <;> by_cases h2 : x < I.2 <;> by_cases h3 : x < (I.1 + I.2) / 2
  · simp [h1, h2, h3, not_le.2 h3]
  · simp [h1, h2, h3, not_lt.1 h3]
  · exact absurd (h3.trans (by linarith)) h2
  · simp [h1, h2, h3]
  · have : ¬ (I.1 + I.2) / 2 ≤ x := not_le.2 h3
    simp [h1, h3, this]
  · exact absurd (by linarith : I.1 ≤ x) h1
  · exact absurd (h3.trans (by linarith)) h2
  · simp [h1, h2]

/-- property of all cells that we need -/
structure GoodBox (depth : K) (c : Box K) : Prop where
  x : Aligned (1 / 2) c.1
  y : Aligned (1 / 2) c.2.1
  z : Aligned (depth * (1 / 2)) c.2.2

/-- proper cell -/
def Proper (c : Box K) : Prop := c.1.1 < c.1.2 ∧ c.2.1.1 < c.2.1.2 ∧ c.2.2.1 < c.2.2.2

theorem countP_children (p : K × K × K) (c : Box K) (h : Proper c) :
    (children c).countP (inBox p) = if inBox p c then 1 else 0 := by
  unfold children
  rw [countP_product, countP_halves _ _ h.1, countP_halves _ _ h.2.1, countP_halves _ _ h.2.2]
  unfold inBox
  cases inI p.1 c.1 <;> cases inI p.2.1 c.2.1 <;> cases inI p.2.2 c.2.2 <;> rfl

theorem mem_product {X Y Z : List (Ivl K)} {c : Box K} (h : c ∈ product X Y Z) : c.1 ∈ X ∧ c.2.1 ∈ Y ∧ c.2.2 ∈ Z := by
  unfold product at h
  simp only [List.mem_flatMap, List.mem_map] at h
  obtain ⟨x, hx, y, hy, z, hz, rfl⟩ := h
  exact ⟨hx, hy, hz⟩

theorem halves_proper {I J : Ivl K} (h : I.1 < I.2) (hJ : J ∈ halves I) : J.1 < J.2 := by
  unfold halves at hJ
  rcases List.mem_cons.1 hJ with rfl | hJ
  · dsimp only; linarith
  · rw [List.mem_singleton] at hJ
    subst hJ; dsimp only; linarith

theorem children_proper {c b : Box K} (h : Proper c) (hb : b ∈ children c) : Proper b := by
  obtain ⟨h1, h2, h3⟩ := mem_product hb
  exact ⟨halves_proper h.1 h1, halves_proper h.2.1 h2, halves_proper h.2.2 h3⟩

theorem children_good {depth : K} {c b : Box K} (h : GoodBox depth c) (hb : b ∈ children c) : GoodBox depth b := by
  obtain ⟨h1, h2, h3⟩ := mem_product hb
  exact ⟨halves_aligned h.x h1, halves_aligned h.y h2, halves_aligned h.z h3⟩

theorem subdivide_proper {L : K} (hL : 0 < L) {m : ℕ} {I : Ivl K} (hI : I ∈ subdivide L m) : I.1 < I.2 := by
  unfold subdivide at hI
  obtain ⟨i, hi, rfl⟩ := List.mem_map.1 hI
  have hm : (0 : K) < m := by
    have := List.mem_range.1 hi
    exact_mod_cast (by omega : 0 < m)
  dsimp only
  rw [div_lt_div_iff_of_pos_right hm]
  nlinarith

theorem countP_subdivide (L : K) (hL : 0 < L) (m : ℕ) (hm : 0 < m) (x : K) :
    (subdivide L m).countP (inI x) = if 0 ≤ x ∧ x < L then 1 else 0 := by
  have hmK : (0 : K) < m := by exact_mod_cast hm
  have key : ∀ k : ℕ, ((List.range k).map fun i : ℕ => ((L * i / m, L * (i + 1) / m) : Ivl K)).countP (inI x)
      = if 0 ≤ x ∧ x < L * k / m then 1 else 0 := by
    intro k
    induction k with
    | zero =>
      have : ¬ (0 ≤ x ∧ x < L * (0 : ℕ) / m) := by
        rintro ⟨h1, h2⟩
        simp at h2
        linarith
      simp
    | succ k ih =>
      rw [List.range_succ, List.map_append, List.countP_append, ih, List.map_singleton, List.countP_singleton]
      have hk0 : 0 ≤ L * (k : K) / m := by positivity
      have hk1 : L * (k : K) / m < L * (k + 1) / m := by
        rw [div_lt_div_iff_of_pos_right hmK]; nlinarith
      unfold inI
      push_cast
      simp only [decide_eq_true_eq]
      by_cases h1 : 0 ≤ x <;> by_cases h2 : x < L * k / m <;> by_cases h3 : x < L * (k + 1) / m
      · simp [h1, h2, h3, not_le.2 h2]
      · exact absurd (h2.trans hk1) h3
      · simp [h1, h2, h3, not_lt.1 h2]
      · simp [h2, h3]
      · simp [h1, not_le.2 h2]
      · exact absurd (h2.trans hk1) h3
      · exact absurd (hk0.trans (not_lt.1 h2)) h1
      · simp [h1, h3]
  unfold subdivide
  rw [key m, mul_div_assoc, div_self hmK.ne', mul_one]

theorem subdivide_halves_aligned {L : K} (hL : 0 < L) {m : ℕ} {I J : Ivl K} (hI : I ∈ subdivide L m) (hJ : J ∈ halves I) :
    Aligned (L * (1 / 2)) J := by
  have hp := halves_proper (subdivide_proper hL hI) hJ
  unfold subdivide at hI
  obtain ⟨i, hi, rfl⟩ := List.mem_map.1 hI
  have hm : (m : K) ≠ 0 := by
    have := List.mem_range.1 hi
    exact_mod_cast (by omega : m ≠ 0)
  refine ⟨hp, ?_⟩
  unfold halves at hJ
  rcases List.mem_cons.1 hJ with rfl | hJ
  · refine ⟨2 * i - m, ?_⟩
    push_cast; field_simp; ring
  · rw [List.mem_singleton] at hJ
    subst hJ
    refine ⟨2 * i + 1 - m, ?_⟩
    push_cast; field_simp; ring

/-- mesh invariant -/
structure MeshInv (depth : K) (l : List (Box K)) : Prop where
  good : ∀ c ∈ l, GoodBox depth c
  count : ∀ p : K × K × K, l.countP (inBox p) =
    if (0 ≤ p.1 ∧ p.1 < 1) ∧ (0 ≤ p.2.1 ∧ p.2.1 < 1) ∧ (0 ≤ p.2.2 ∧ p.2.2 < depth) then 1 else 0

theorem GoodBox.proper {depth : K} {c : Box K} (h : GoodBox depth c) : Proper c := ⟨h.x.1, h.y.1, h.z.1⟩

theorem countP_flatMap_children (p : K × K × K) (l : List (Box K)) (h : ∀ c ∈ l, Proper c) :
    (l.flatMap children).countP (inBox p) = l.countP (inBox p) := by
  induction l with
  | nil => rfl
  | cons c l ih =>
    rw [List.flatMap_cons, List.countP_append, countP_children p c (h c List.mem_cons_self),
      ih fun b hb => h b (List.mem_cons_of_mem _ hb), List.countP_cons]
    exact Nat.add_comm _ _

theorem meshInv_initial {depth : K} (hd : 0 < depth) {m : ℕ} (hm : 0 < m) : MeshInv depth (initialMesh depth m) := by
  have hprop : ∀ c ∈ product (subdivide (1 : K) m) (subdivide 1 m) (subdivide depth m), Proper c := by
    intro c hc
    obtain ⟨h1, h2, h3⟩ := mem_product hc
    exact ⟨subdivide_proper one_pos h1, subdivide_proper one_pos h2, subdivide_proper hd h3⟩
  have hgood : ∀ c ∈ (product (subdivide (1 : K) m) (subdivide 1 m) (subdivide depth m)).flatMap children, GoodBox depth c := by
    intro c hc
    obtain ⟨b, hb, hcb⟩ := List.mem_flatMap.1 hc
    obtain ⟨h1, h2, h3⟩ := mem_product hb
    obtain ⟨h4, h5, h6⟩ := mem_product hcb
    have a1 := subdivide_halves_aligned one_pos h1 h4
    have a2 := subdivide_halves_aligned one_pos h2 h5
    rw [one_mul] at a1 a2
    exact ⟨a1, a2, subdivide_halves_aligned hd h3 h6⟩
  constructor
  · intro c hc
    obtain ⟨b, hb, hcb⟩ := List.mem_flatMap.1 hc
    exact children_good (hgood b hb) hcb
  · intro p
    unfold initialMesh
    rw [countP_flatMap_children p _ fun c hc => (hgood c hc).proper, countP_flatMap_children p _ hprop, countP_product,
      countP_subdivide 1 one_pos m hm, countP_subdivide 1 one_pos m hm, countP_subdivide depth hd m hm]
    by_cases h1 : 0 ≤ p.1 ∧ p.1 < 1 <;> by_cases h2 : 0 ≤ p.2.1 ∧ p.2.1 < 1 <;> by_cases h3 : 0 ≤ p.2.2 ∧ p.2.2 < depth <;>
      simp [h1, h2, h3]

theorem meshInv {depth : K} (hd : 0 < depth) {m : ℕ} (hm : 0 < m) {l : List (Box K)} (h : Mesh depth m l) : MeshInv depth l := by
  induction h with
  | initial => exact meshInv_initial hd hm
  | refine l l' c _ ih =>
    have hc : GoodBox depth c := ih.good c (List.mem_append_right _ List.mem_cons_self)
    constructor
    · intro b hb
      rcases List.mem_append.1 hb with hb | hb
      · rcases List.mem_append.1 hb with hb | hb
        · exact ih.good b (List.mem_append_left _ hb)
        · exact children_good hc hb
      · exact ih.good b (List.mem_append_right _ (List.mem_cons_of_mem _ hb))
    · intro p
      rw [← ih.count p, List.countP_append, List.countP_append, List.countP_append, countP_children p c hc.proper, List.countP_cons]
      omega
  | reorder l l' _ hp ih =>
    constructor
    · intro b hb; exact ih.good b (hp.mem_iff.2 hb)
    · intro p; rw [← ih.count p, hp.countP_eq]

/-! ### Proofs: sampling -/

/-- the tolerance selects exactly the cells touching the plane from above -/
theorem aligned_tol {c : K} {I : Ivl K} (h : Aligned c I) (hw : tol ≤ I.2 - I.1) : |I.1 - c| < tol ↔ I.1 = c := by
  constructor
  · intro ht
    obtain ⟨h1, k, hk⟩ := h
    rw [hk, abs_mul, abs_of_pos (sub_pos.2 h1)] at ht
    have hk0 : k = 0 := by
      by_contra hne
      have h2 : (1 : K) ≤ |(k : K)| := by
        have := Int.one_le_abs hne
        exact_mod_cast this
      nlinarith
    rw [hk0] at hk
    push_cast at hk
    linarith
  · intro h2
    rw [h2, sub_self, abs_zero]
    unfold tol; positivity

theorem aligned_contains {c : K} {I : Ivl K} (h : Aligned c I) : inI c I = decide (I.1 = c) := by
  obtain ⟨h1, k, hk⟩ := h
  unfold inI
  congr 1
  apply propext
  constructor
  · rintro ⟨h2, h3⟩
    have hk0 : k = 0 := by
      have a1 : -1 < k := by
        by_contra hh
        have : (k : K) ≤ -1 := by exact_mod_cast not_lt.1 hh
        nlinarith
      have a2 : k < 1 := by
        by_contra hh
        have : (1 : K) ≤ k := by exact_mod_cast not_lt.1 hh
        nlinarith
      omega
    rw [hk0] at hk
    push_cast at hk
    linarith
  · intro h2
    rw [h2] at h1 ⊢
    exact ⟨le_rfl, h1⟩

/-- general form of the two loops -/
def lineLoop (sel : Box K → Bool) (smp : Box K → List (K × V)) (l : List (Box K)) : List K × List V :=
  l.foldl (fun a c => if sel c then (a.1 ++ (smp c).map Prod.fst, a.2 ++ (smp c).map Prod.snd) else a) ([], [])

theorem lineLoop_eq (sel : Box K → Bool) (smp : Box K → List (K × V)) (l : List (Box K)) (a : List K × List V) :
    l.foldl (fun a c => if sel c then (a.1 ++ (smp c).map Prod.fst, a.2 ++ (smp c).map Prod.snd) else a) a
      = (a.1 ++ ((l.filter sel).flatMap smp).map Prod.fst, a.2 ++ ((l.filter sel).flatMap smp).map Prod.snd) := by
  induction l generalizing a with
  | nil => simp
  | cons c l ih =>
    rw [List.foldl_cons, ih]
    cases hs : sel c
    · simp [hs]
    · simp [hs, List.append_assoc]

/-- samples of a cell on the line in y direction, with the true value -/
def pairsY (u : K × K × K → V) (depth : K) (n : ℕ) (c : Box K) : List (K × V) :=
  (Spec.equidistant n c.2.1).map fun y => (y, u (1 / 2, y, depth * (1 / 2)))

def pairsX (u : K × K × K → V) (depth : K) (n : ℕ) (c : Box K) : List (K × V) :=
  (Spec.equidistant n c.1).map fun x => (x, u (x, 1 / 2, depth * (1 / 2)))

theorem foldl_congr' {α β : Type*} (f g : α → β → α) (l : List β) (h : ∀ a, ∀ b ∈ l, f a b = g a b) (a : α) :
    l.foldl f a = l.foldl g a := by
  induction l generalizing a with
  | nil => rfl
  | cons b l ih =>
    rw [List.foldl_cons, List.foldl_cons, h a b List.mem_cons_self]
    exact ih (fun a c hc => h a c (List.mem_cons_of_mem _ hc)) _

def selY (depth : K) (c : Box K) : Bool := decide (c.1.1 = 1 / 2) && decide (c.2.2.1 = depth * (1 / 2))
def selX (depth : K) (c : Box K) : Bool := decide (c.2.1.1 = 1 / 2) && decide (c.2.2.1 = depth * (1 / 2))

/-- all edges at least as long as the tolerance -/
def Spec.Resolved (l : List (Box K)) : Prop :=
  ∀ c ∈ l, 1 / 10 ^ 12 ≤ c.1.2 - c.1.1 ∧ 1 / 10 ^ 12 ≤ c.2.1.2 - c.2.1.1 ∧ 1 / 10 ^ 12 ≤ c.2.2.2 - c.2.2.1

theorem alongY_eq (u : K × K × K → V) {depth : K} (n : ℕ) (l : List (Box K)) (hg : ∀ c ∈ l, GoodBox depth c)
    (hr : Spec.Resolved l) : alongY u depth n l = (((l.filter (selY depth)).flatMap (pairsY u depth n)).map Prod.fst,
      ((l.filter (selY depth)).flatMap (pairsY u depth n)).map Prod.snd) := by
  unfold alongY
  have h1 := lineLoop_eq (selY depth) (pairsY u depth n) l ([], [])
  rw [List.nil_append, List.nil_append] at h1
  rw [← h1]
  refine foldl_congr' _ _ l (fun a c hc => ?_) _
  have hcond : (|c.1.1 - 1 / 2| < tol ∧ |c.2.2.1 - depth * (1 / 2)| < tol) ↔ selY depth c = true := by
    rw [aligned_tol (hg c hc).x (hr c hc).1, aligned_tol (hg c hc).z (hr c hc).2.2]
    simp [selY]
  by_cases hs : selY depth c = true
  · rw [if_pos (hcond.2 hs), if_pos hs]
    simp only [selY, Bool.and_eq_true, decide_eq_true_eq] at hs
    have e1 : ((faceSamples u n 0 c).map fun s => s.1.2.1) = (pairsY u depth n c).map Prod.fst := by
      simp only [faceSamples, evaluatePoints, pairsY, Spec.equidistant, List.map_map]
      refine List.map_congr_left fun i _ => ?_
      simp [facePoint, realPoint, along]
    have e2 : ((faceSamples u n 0 c).map fun s => s.2) = (pairsY u depth n c).map Prod.snd := by
      simp only [faceSamples, evaluatePoints, pairsY, Spec.equidistant, List.map_map]
      refine List.map_congr_left fun i _ => ?_
      simp [facePoint, realPoint, along, hs.1, hs.2]
    rw [e1, e2]
  · rw [if_neg (fun h => hs (hcond.1 h)), if_neg hs]

theorem alongX_eq (u : K × K × K → V) {depth : K} (n : ℕ) (l : List (Box K)) (hg : ∀ c ∈ l, GoodBox depth c)
    (hr : Spec.Resolved l) : alongX u depth n l = (((l.filter (selX depth)).flatMap (pairsX u depth n)).map Prod.fst,
      ((l.filter (selX depth)).flatMap (pairsX u depth n)).map Prod.snd) := by
  unfold alongX
  have h1 := lineLoop_eq (selX depth) (pairsX u depth n) l ([], [])
  rw [List.nil_append, List.nil_append] at h1
  rw [← h1]
  refine foldl_congr' _ _ l (fun a c hc => ?_) _
  have hcond : (|c.2.1.1 - 1 / 2| < tol ∧ |c.2.2.1 - depth * (1 / 2)| < tol) ↔ selX depth c = true := by
    rw [aligned_tol (hg c hc).y (hr c hc).2.1, aligned_tol (hg c hc).z (hr c hc).2.2]
    simp [selX]
  by_cases hs : selX depth c = true
  · rw [if_pos (hcond.2 hs), if_pos hs]
    simp only [selX, Bool.and_eq_true, decide_eq_true_eq] at hs
    have e1 : ((faceSamples u n 4 c).map fun s => s.1.1) = (pairsX u depth n c).map Prod.fst := by
      simp only [faceSamples, evaluatePoints, pairsX, Spec.equidistant, List.map_map]
      refine List.map_congr_left fun i _ => ?_
      simp [facePoint, realPoint, along]
    have e2 : ((faceSamples u n 4 c).map fun s => s.2) = (pairsX u depth n c).map Prod.snd := by
      simp only [faceSamples, evaluatePoints, pairsX, Spec.equidistant, List.map_map]
      refine List.map_congr_left fun i _ => ?_
      simp [facePoint, realPoint, along, hs.1, hs.2]
    rw [e1, e2]
  · rw [if_neg (fun h => hs (hcond.1 h)), if_neg hs]

theorem tiles_filter {depth : K} (hd : 0 < depth) {l : List (Box K)} (h : MeshInv depth l) :
    Spec.Tiles 1 ((l.filter (selY depth)).map fun c => c.2.1) ∧ Spec.Tiles 1 ((l.filter (selX depth)).map fun c => c.1) := by
  constructor
  · intro y
    rw [List.countP_map, List.countP_filter]
    have hc := h.count (1 / 2, y, depth * (1 / 2))
    have e : l.countP (inBox (1 / 2, y, depth * (1 / 2)))
        = l.countP (fun a => ((fun I : Ivl K => decide (I.1 ≤ y ∧ y < I.2)) ∘ fun c : Box K => c.2.1) a && selY depth a) := by
      refine List.countP_congr fun c hc => ?_
      have hx := aligned_contains (h.good c hc).x
      have hz := aligned_contains (h.good c hc).z
      simp only [inBox, hx, hz, selY, Function.comp, Bool.and_eq_true]
      unfold inI
      tauto
    rw [← e, hc]
    have h1 : (0 : K) ≤ 1 / 2 ∧ (1 : K) / 2 < 1 := by norm_num
    have h2 : 0 ≤ depth * (1 / 2) ∧ depth * (1 / 2) < depth := ⟨by positivity, by linarith⟩
    simp only [h1, h2, true_and, and_true, and_self]
  · intro y
    rw [List.countP_map, List.countP_filter]
    have hc := h.count (y, 1 / 2, depth * (1 / 2))
    have e : l.countP (inBox (y, 1 / 2, depth * (1 / 2)))
        = l.countP (fun a => ((fun I : Ivl K => decide (I.1 ≤ y ∧ y < I.2)) ∘ fun c : Box K => c.1) a && selX depth a) := by
      refine List.countP_congr fun c hc => ?_
      have hx := aligned_contains (h.good c hc).y
      have hz := aligned_contains (h.good c hc).z
      simp only [inBox, hx, hz, selX, Function.comp, Bool.and_eq_true]
      unfold inI
      tauto
    rw [← e, hc]
    have h1 : (0 : K) ≤ 1 / 2 ∧ (1 : K) / 2 < 1 := by norm_num
    have h2 : 0 ≤ depth * (1 / 2) ∧ depth * (1 / 2) < depth := ⟨by positivity, by linarith⟩
    simp only [h1, h2, and_true, and_self]

/-! ### Proofs: exchange -/

section Exchange
variable {α : Type*} [Inhabited α] {dim : ℕ}

theorem foldl_update_notMem (l : List (ℕ × α)) (buf : ℕ → α) (k : ℕ) (h : ∀ w ∈ l, w.1 ≠ k) :
    l.foldl (fun buf w => Function.update buf w.1 w.2) buf k = buf k := by
  induction l generalizing buf with
  | nil => rfl
  | cons w l ih =>
    rw [List.foldl_cons, ih _ fun v hv => h v (List.mem_cons_of_mem _ hv), Function.update_of_ne (h w List.mem_cons_self).symm]

theorem foldl_update_mem (l : List (ℕ × α)) (buf : ℕ → α) (k : ℕ) (y : α) (h : (k, y) ∈ l) (hy : ∀ w ∈ l, w.1 = k → w.2 = y) :
    l.foldl (fun buf w => Function.update buf w.1 w.2) buf k = y := by
  induction l using List.reverseRecOn generalizing buf with
  | nil => cases h
  | append_singleton l w ih =>
    rw [List.foldl_append, List.foldl_cons, List.foldl_nil]
    by_cases hw : w.1 = k
    · rw [hw, Function.update_self]
      exact hy w (List.mem_append_right _ (List.mem_singleton.2 rfl)) hw
    · rw [Function.update_of_ne fun hh => hw hh.symm]
      refine ih buf ?_ fun v hv => hy v (List.mem_append_left _ hv)
      rcases List.mem_append.1 h with h | h
      · exact h
      · rw [List.mem_singleton] at h
        exact absurd (congrArg Prod.fst h).symm hw

theorem slot_inj' {j j' e e' : ℕ} (he : e ≤ dim) (he' : e' ≤ dim) (h : j * (dim + 1) + e = j' * (dim + 1) + e') : j = j' ∧ e = e' := by
  have h1 : (j * (dim + 1) + e) / (dim + 1) = j := by
    rw [Nat.mul_comm, Nat.mul_add_div (by omega), Nat.div_eq_of_lt (by omega), Nat.add_zero]
  have h2 : (j' * (dim + 1) + e') / (dim + 1) = j' := by
    rw [Nat.mul_comm, Nat.mul_add_div (by omega), Nat.div_eq_of_lt (by omega), Nat.add_zero]
  have h3 : j = j' := by rw [← h1, h, h2]
  subst h3
  exact ⟨rfl, by omega⟩

theorem mem_sendWrites {positions : List α} {velocities : List (Fin dim → α)} {w : ℕ × α} :
    w ∈ sendWrites positions velocities ↔ ∃ j < velocities.length,
      (∃ d : Fin dim, w = (j * (dim + 1) + d.val, (velocities[j]?.getD fun _ => default) d)) ∨
      w = (j * (dim + 1) + dim, positions[j]?.getD default) := by
  unfold sendWrites
  simp only [List.mem_flatMap, List.mem_range, List.mem_append, List.mem_map, List.mem_finRange, true_and, List.mem_singleton]
  constructor
  · rintro ⟨j, hj, ⟨d, rfl⟩ | rfl⟩
    · exact ⟨j, hj, .inl ⟨d, rfl⟩⟩
    · exact ⟨j, hj, .inr rfl⟩
  · rintro ⟨j, hj, ⟨d, rfl⟩ | rfl⟩
    · exact ⟨j, hj, .inl ⟨d, rfl⟩⟩
    · exact ⟨j, hj, .inr rfl⟩

theorem sendData_vel (positions : List α) (velocities : List (Fin dim → α)) (j : ℕ) (hj : j < velocities.length) (d : Fin dim) :
    sendData' positions velocities (j * (dim + 1) + d.val) = velocities[j] d := by
  refine foldl_update_mem _ _ _ _ ?_ ?_
  · refine mem_sendWrites.2 ⟨j, hj, .inl ⟨d, ?_⟩⟩
    rw [List.getElem?_eq_getElem hj]; rfl
  · intro w hw hk
    obtain ⟨j', hj', ⟨d', rfl⟩ | rfl⟩ := mem_sendWrites.1 hw
    · obtain ⟨rfl, h2⟩ := slot_inj' (dim := dim) (by have := d'.isLt; omega) (by have := d.isLt; omega) hk
      rw [Fin.ext h2]
      dsimp only
      rw [List.getElem?_eq_getElem hj]; rfl
    · have := (slot_inj' (dim := dim) le_rfl (by have := d.isLt; omega) hk).2
      have := d.isLt
      omega

theorem sendData_pos (positions : List α) (velocities : List (Fin dim → α)) (j : ℕ) (hj : j < velocities.length)
    (hj' : j < positions.length) : sendData' positions velocities (j * (dim + 1) + dim) = positions[j] := by
  refine foldl_update_mem _ _ _ _ ?_ ?_
  · refine mem_sendWrites.2 ⟨j, hj, .inr ?_⟩
    rw [List.getElem?_eq_getElem hj']; rfl
  · intro w hw hk
    obtain ⟨i, hi, ⟨d', rfl⟩ | rfl⟩ := mem_sendWrites.1 hw
    · have := (slot_inj' (dim := dim) (by have := d'.isLt; omega) le_rfl hk).2
      have := d'.isLt
      omega
    · obtain ⟨rfl, _⟩ := slot_inj' (dim := dim) le_rfl le_rfl hk
      dsimp only
      rw [List.getElem?_eq_getElem hj']; rfl

theorem foldl_push {β γ : Type*} (f : ℕ → β) (g : ℕ → γ) (l : List ℕ) (a : List β × List γ) :
    l.foldl (fun a j => (a.1 ++ [f j], a.2 ++ [g j])) a = (a.1 ++ l.map f, a.2 ++ l.map g) := by
  induction l generalizing a with
  | nil => simp
  | cons j l ih => rw [List.foldl_cons, ih]; simp

theorem map_range_getElem {β : Type*} (l : List β) (f : ℕ → β) (h : ∀ j (hj : j < l.length), f j = l[j]) :
    (List.range l.length).map f = l := by
  apply List.ext_getElem
  · simp
  · intro i h1 h2
    rw [List.getElem_map, List.getElem_range, h i h2]

theorem exchangeTurn_eq (st : ℕ → List α × List (Fin dim → α)) (i : ℕ) (hlen : (st i).1.length = (st i).2.length)
    (a : List α × List (Fin dim → α)) : exchangeTurn st a i = (a.1 ++ (st i).1, a.2 ++ (st i).2) := by
  unfold exchangeTurn
  dsimp only
  rw [foldl_push]
  congr 1
  · congr 1
    have := map_range_getElem (st i).1 (fun j => sendData' (st i).1 (st i).2 (j * (dim + 1) + dim)) (fun j hj =>
      sendData_pos _ _ j (hlen ▸ hj) hj)
    rw [hlen] at this
    exact this
  · congr 1
    exact map_range_getElem (st i).2 _ fun j hj => funext fun d => sendData_vel _ _ j hj d

/-- **C98 (exchange).** For every number of processes and every distribution of the samples, rank 0 holds afterwards its own samples
followed by those of the ranks 1, 2, …, positions and velocities paired as on the sender. -/
theorem C98_exchange_partial (nProcs : ℕ) (hn : 0 < nProcs) (st : ℕ → List α × List (Fin dim → α))
    (hlen : ∀ i, (st i).1.length = (st i).2.length) :
    exchange nProcs st = ((List.range nProcs).flatMap fun i => (st i).1, (List.range nProcs).flatMap fun i => (st i).2) := by
  have key : ∀ (l : List ℕ) (a : List α × List (Fin dim → α)), l.foldl (exchangeTurn st) a
      = (a.1 ++ l.flatMap fun i => (st i).1, a.2 ++ l.flatMap fun i => (st i).2) := by
    intro l
    induction l with
    | nil => intro a; simp
    | cons i l ih => intro a; rw [List.foldl_cons, exchangeTurn_eq st i (hlen i), ih]; simp
  unfold exchange
  rw [key]
  obtain ⟨n, rfl⟩ : ∃ n, nProcs = n + 1 := ⟨nProcs - 1, by omega⟩
  rw [Nat.add_sub_cancel, List.range_succ_eq_map, List.flatMap_cons, List.flatMap_cons]

end Exchange

/-! ### Main theorem -/

/-- Cells owned by the processes `0 … nProcs-1`: together the active cells. -/
def Spec.Distributed (nProcs : ℕ) (owned : ℕ → List (Box K)) (l : List (Box K)) : Prop :=
  ((List.range nProcs).flatMap owned).Perm l

/-- **C98 (lines).** For every number of cells, every history of adaptive refinement, order of traversal and distribution to
processes: the file lists, for the line in y direction through the centre (and likewise in x direction), pairs of a position and
the velocity exactly at that position of the line; the positions are equidistant points in intervals that cover the line without
overlap. -/
theorem C98_lines_partial {dim : ℕ} (depth : K) (hd : 0 < depth) (m : ℕ) (hm : 0 < m) (mesh : List (Box K)) (hmesh : Mesh depth m mesh)
    (hr : Spec.Resolved mesh) (u : K × K × K → Fin dim → K) [Inhabited K] (n nProcs : ℕ) (hn : 0 < nProcs)
    (owned : ℕ → List (Box K)) (hown : Spec.Distributed nProcs owned mesh) :
    (∃ intervals, Spec.Tiles 1 intervals ∧
      exchange nProcs (fun i => alongY u depth n (owned i)) =
        (intervals.flatMap (Spec.equidistant n),
         (intervals.flatMap (Spec.equidistant n)).map fun y => u (1 / 2, y, depth / 2))) ∧
    (∃ intervals, Spec.Tiles 1 intervals ∧
      exchange nProcs (fun i => alongX u depth n (owned i)) =
        (intervals.flatMap (Spec.equidistant n),
         (intervals.flatMap (Spec.equidistant n)).map fun x => u (x, 1 / 2, depth / 2))) := by
  have hinv0 := meshInv hd hm hmesh
  have hinv : MeshInv depth ((List.range nProcs).flatMap owned) :=
    ⟨fun c hc => hinv0.good c (hown.mem_iff.1 hc), fun p => by rw [← hinv0.count p, hown.countP_eq]⟩
  have hsub : ∀ i, i < nProcs → ∀ c ∈ owned i, c ∈ mesh := fun i hi c hc =>
    hown.mem_iff.1 (List.mem_flatMap.2 ⟨i, List.mem_range.2 hi, hc⟩)
  have hhalf : depth * (1 / 2) = depth / 2 := by ring
  -- only the processes below nProcs matter
  have hcut : ∀ st : ℕ → List K × List (Fin dim → K), exchange nProcs st
      = exchange nProcs (fun i => if i < nProcs then st i else ([], [])) := by
    intro st
    unfold exchange
    dsimp only
    rw [if_pos hn]
    refine foldl_congr' _ _ _ (fun a i hi => ?_) _
    obtain ⟨j, hj, rfl⟩ := List.mem_map.1 hi
    have : j + 1 < nProcs := by have := List.mem_range.1 hj; omega
    unfold exchangeTurn
    simp only [this, if_true]
  have hflat : ∀ {β : Type _} (f g : ℕ → List β), (∀ i < nProcs, f i = g i) →
      (List.range nProcs).flatMap f = (List.range nProcs).flatMap g := by
    intro β f g h
    simp only [List.flatMap_def]
    congr 1
    exact List.map_congr_left fun i hi => h i (List.mem_range.1 hi)
  have hres : ∀ i < nProcs, Spec.Resolved (owned i) := fun i hi c hc => hr c (hsub i hi c hc)
  have hgood : ∀ i < nProcs, ∀ c ∈ owned i, GoodBox depth c := fun i hi c hc => hinv0.good c (hsub i hi c hc)
  obtain ⟨tY, tX⟩ := tiles_filter hd hinv
  constructor
  · refine ⟨(((List.range nProcs).flatMap owned).filter (selY depth)).map fun c => c.2.1, tY, ?_⟩
    rw [hcut, C98_exchange_partial nProcs hn _ (by
      intro i
      by_cases hi : i < nProcs
      · simp only [hi, if_true]
        rw [alongY_eq u n (owned i) (hgood i hi) (hres i hi), List.length_map, List.length_map]
      · simp [hi])]
    congr 1
    · rw [hflat _ (fun i => ((owned i).filter (selY depth)).flatMap fun c => Spec.equidistant n c.2.1) ?_]
      · rw [List.flatMap_map, List.filter_flatMap, List.flatMap_assoc]
      · intro i hi
        simp only [hi, if_true]
        rw [alongY_eq u n (owned i) (hgood i hi) (hres i hi)]
        dsimp only
        rw [List.map_flatMap]
        congr 1
        funext c
        unfold pairsY
        rw [List.map_map]
        exact List.map_id _
    · rw [hflat _ (fun i => ((owned i).filter (selY depth)).flatMap fun c =>
        (Spec.equidistant n c.2.1).map fun y => u (1 / 2, y, depth / 2)) ?_]
      · rw [List.flatMap_map, List.filter_flatMap, List.flatMap_assoc, List.map_flatMap]
        congr 1
        funext i
        rw [List.map_flatMap]
      · intro i hi
        simp only [hi, if_true]
        rw [alongY_eq u n (owned i) (hgood i hi) (hres i hi)]
        dsimp only
        rw [List.map_flatMap]
        congr 1
        funext c
        unfold pairsY
        rw [List.map_map, ← hhalf]
        rfl
  · refine ⟨(((List.range nProcs).flatMap owned).filter (selX depth)).map fun c => c.1, tX, ?_⟩
    rw [hcut, C98_exchange_partial nProcs hn _ (by
      intro i
      by_cases hi : i < nProcs
      · simp only [hi, if_true]
        rw [alongX_eq u n (owned i) (hgood i hi) (hres i hi), List.length_map, List.length_map]
      · simp [hi])]
    congr 1
    · rw [hflat _ (fun i => ((owned i).filter (selX depth)).flatMap fun c => Spec.equidistant n c.1) ?_]
      · rw [List.flatMap_map, List.filter_flatMap, List.flatMap_assoc]
      · intro i hi
        simp only [hi, if_true]
        rw [alongX_eq u n (owned i) (hgood i hi) (hres i hi)]
        dsimp only
        rw [List.map_flatMap]
        congr 1
        funext c
        unfold pairsX
        rw [List.map_map]
        exact List.map_id _
    · rw [hflat _ (fun i => ((owned i).filter (selX depth)).flatMap fun c =>
        (Spec.equidistant n c.1).map fun x => u (x, 1 / 2, depth / 2)) ?_]
      · rw [List.flatMap_map, List.filter_flatMap, List.flatMap_assoc, List.map_flatMap]
        congr 1
        funext i
        rw [List.map_flatMap]
      · intro i hi
        simp only [hi, if_true]
        rw [alongX_eq u n (owned i) (hgood i hi) (hres i hi)]
        dsimp only
        rw [List.map_flatMap]
        congr 1
        funext c
        unfold pairsX
        rw [List.map_map, ← hhalf]
        rfl

/-! ### Boundary velocity -/

/-- `BoundaryVelocity::vector_value`, drivencavity.cc:72-89. `none` is the access to a coordinate the point does not have
(line 87 for `dim = 2`). -/
noncomputable def lidVelocity (dim : ℕ) (p : Fin dim → ℝ) : Option (Fin dim → ℝ) :=
  if h1 : 1 < dim then
    if |p ⟨1, h1⟩ - 1| < 1 / 10 ^ 12 then
      if h2 : 2 < dim then
        some (Function.update (fun _ => 0) ⟨0, by omega⟩
          (1 / 4 * (1 - Real.cos (Real.pi * 2 * p ⟨0, by omega⟩)) * (1 - Real.cos (Real.pi * 2 * p ⟨2, h2⟩ / 3))))
      else none
    else some fun _ => 0
  else none

/-- **C98 (lid).** In three dimensions the boundary velocity exists at every point, is zero away from the lid, has only a component in
x direction between 0 and 1, and vanishes on all four edges of the lid, where it meets the walls at rest. -/
theorem C98_lid_partial (p : Fin 3 → ℝ) : ∃ v, lidVelocity 3 p = some v ∧ v 1 = 0 ∧ v 2 = 0 ∧ 0 ≤ v 0 ∧ v 0 ≤ 1 ∧
    (1 / 10 ^ 12 ≤ |p 1 - 1| → v 0 = 0) ∧ (p 0 = 0 ∨ p 0 = 1 ∨ p 2 = 0 ∨ p 2 = 3 → v 0 = 0) ∧
    (p 1 = 1 → p 0 = 1 / 2 → p 2 = 3 / 2 → v 0 = 1) := by
  unfold lidVelocity
  rw [dif_pos (by norm_num : 1 < 3)]
  by_cases h : |p ⟨1, by norm_num⟩ - 1| < 1 / 10 ^ 12
  · rw [if_pos h, dif_pos (by norm_num : 2 < 3)]
    refine ⟨_, rfl, ?_, ?_, ?_⟩
    · rw [Function.update_of_ne (by decide)]
    · rw [Function.update_of_ne (by decide)]
    · have e0 : (⟨0, by omega⟩ : Fin 3) = 0 := rfl
      have e2 : (⟨2, by norm_num⟩ : Fin 3) = 2 := rfl
      rw [e0, e2, Function.update_self]
      have a1 := Real.neg_one_le_cos (Real.pi * 2 * p 0)
      have a2 := Real.cos_le_one (Real.pi * 2 * p 0)
      have b1 := Real.neg_one_le_cos (Real.pi * 2 * p 2 / 3)
      have b2 := Real.cos_le_one (Real.pi * 2 * p 2 / 3)
      refine ⟨?_, ?_, ?_, ?_, ?_⟩
      · exact mul_nonneg (mul_nonneg (by norm_num) (by linarith)) (by linarith)
      · generalize Real.cos (Real.pi * 2 * p 0) = a at *
        generalize Real.cos (Real.pi * 2 * p 2 / 3) = b at *
        nlinarith [mul_nonneg (by linarith : (0 : ℝ) ≤ 1 - a) (by linarith : (0 : ℝ) ≤ 1 + b),
          mul_nonneg (by linarith : (0 : ℝ) ≤ 1 + a) (by linarith : (0 : ℝ) ≤ 1 - b)]
      · intro h2; exact absurd h (not_lt.2 h2)
      · have c1 : Real.cos (Real.pi * 2) = 1 := by rw [mul_comm]; exact Real.cos_two_pi
        rintro (h2 | h2 | h2 | h2) <;> rw [h2]
        · simp
        · rw [mul_one, c1]; ring
        · simp
        · rw [mul_div_assoc, div_self (by norm_num : (3 : ℝ) ≠ 0), mul_one, c1]; ring
      · intro _ h2 h3
        rw [h2, h3, show Real.pi * 2 * (1 / 2) = Real.pi by ring, show Real.pi * 2 * (3 / 2) / 3 = Real.pi by ring, Real.cos_pi]
        norm_num
  · rw [if_neg h]
    refine ⟨_, rfl, rfl, rfl, le_rfl, zero_le_one, fun _ => rfl, fun _ => rfl, fun h1 => ?_⟩
    exfalso
    apply h
    have e1 : (⟨1, by norm_num⟩ : Fin 3) = 1 := rfl
    rw [e1, h1, sub_self, abs_zero]; positivity

/-- **C98 (two dimensions).** The program accepts `dimension = 2`, but then reads a third coordinate at every point of the lid. -/
theorem C98_two_dimensions (p : Fin 2 → ℝ) (h : p 1 = 1) : lidVelocity 2 p = none := by
  unfold lidVelocity
  rw [dif_pos (by norm_num : 1 < 2), if_pos, dif_neg (by norm_num)]
  have e1 : (⟨1, by norm_num⟩ : Fin 2) = 1 := rfl
  rw [e1, h, sub_self, abs_zero]; positivity

/-! ### Non-vacuity -/

/-- one coarse cell, depth 3, 64 cells after two refinements -/
example : Mesh (3 : ℚ) 1 (initialMesh 3 1) ∧ (initialMesh (3 : ℚ) 1).length = 64 := ⟨.initial, by decide +kernel⟩

example : Spec.Resolved (initialMesh (3 : ℚ) 1) := by unfold Spec.Resolved; decide +kernel

/-- two processes sharing the cells; four points per cell, two cells on the line above the centre -/
def exOwned (i : ℕ) : List (Box ℚ) := if i = 0 then (initialMesh 3 1).take 40 else if i = 1 then (initialMesh 3 1).drop 40 else []

example : Spec.Distributed 2 exOwned (initialMesh (3 : ℚ) 1) := by unfold Spec.Distributed; decide +kernel

example : exchange 2 (fun i => alongY (fun p => (fun _ => p.2.1 : Fin 1 → ℚ)) 3 3 (exOwned i))
    = ([0, 1 / 8, 1 / 4, 1 / 4, 3 / 8, 1 / 2, 1 / 2, 5 / 8, 3 / 4, 3 / 4, 7 / 8, 1],
       [0, 1 / 8, 1 / 4, 1 / 4, 3 / 8, 1 / 2, 1 / 2, 5 / 8, 3 / 4, 3 / 4, 7 / 8, 1].map fun v _ => v) := by decide +kernel

end Verif.App
