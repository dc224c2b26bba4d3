import Verif.Bubble.Weights
import Mathlib.Algebra.BigOperators.Group.List.Basic
import Mathlib.Algebra.BigOperators.Group.List.Lemmas
import Mathlib.Algebra.Order.BigOperators.Group.List
import Mathlib.Data.List.Perm.Basic
import Mathlib.Data.Fin.VecNotation
import Mathlib.Analysis.Real.Sqrt
import Mathlib.Analysis.SpecialFunctions.Pow.Real
import Mathlib.Analysis.Real.Pi.Bounds
import Mathlib.Tactic.FieldSimp
import Mathlib.Tactic.Ring
import Mathlib.Tactic.Positivity
import Mathlib.Tactic.Linarith

/-!
# C86: the bubble statistics
(source/two_phase_base.cc:621-907 for two, 972-1091 for three space dimensions)

What one patch contributes is modelled in `Marching.lean` and the weights of the patches in `Weights.lean`; this file
models the loops over the cells of all processes and the numbers the function returns.
-/

namespace Verif.Bubble

variable {K : Type*} [Field K] [LinearOrder K] [IsStrictOrderedRing K]

/-! ## Model -/

/-- A position or a velocity, `Tensor<1, dim>` / `Point<dim>`. -/
abbrev Vec (K : Type*) (dim : ℕ) := Fin dim → K

/-- What the function reads on one locally owned cell (two_phase_base.cc:684-718):
the degrees of freedom of the level set function on the cell; the Gauss points of `interior_quadrature` as
`(JxW, position, velocity)`; and, in the points of the iterated trapezoidal rule, the level set values, `JxW`,
positions and velocities. The finite element evaluation itself is not modelled. -/
structure Cell (K : Type*) where
  nDofs : ℕ
  dofs : ℕ → K
  inner : List (K × Vec K 2 × Vec K 2)
  c : ℕ → K
  JxW : ℕ → K
  x : ℕ → Vec K 2
  u : ℕ → Vec K 2

/-- `area`, `perimeter`, `center_of_mass`, `velocity` and `*interface_points`, two_phase_base.cc:673-676. -/
structure Accum (K : Type*) (dim : ℕ) where
  area : K
  perimeter : K
  com : Vec K dim
  vel : Vec K dim
  points : List (Vec K dim × Vec K dim)

/-- initial values, two_phase_base.cc:673-676 -/
def Accum.zero {dim : ℕ} : Accum K dim := ⟨0, 0, 0, 0, []⟩

/-- `area += w; center_of_mass[d] += x[d] * w; velocity[d] += v[d] * w`, two_phase_base.cc:702-709 and :840-848. -/
def Accum.addSample {dim : ℕ} (a : Accum K dim) (s : K × Vec K dim × Vec K dim) : Accum K dim :=
  { a with
    area := a.area + s.1
    com := fun d => a.com d + s.2.1 d * s.1
    vel := fun d => a.vel d + s.2.2 d * s.1 }

/-- the "cheap test", two_phase_base.cc:688-691: `sol_values(i) * sol_values(0) <= 0` for some `i = 1 .. n-1` -/
def interfaceCrosses (k : Cell K) : Bool :=
  (List.range k.nDofs).any fun i => decide (1 ≤ i) && decide (k.dofs i * k.dofs 0 ≤ 0)

/-- The point of the patch with corners `q 0 .. q 3` (lexicographic) at the unit coordinates `p`. On the four edges this is
the code's `quad[a] + (quad[b] - quad[a]) * r`, see `C86_patch_edges`. -/
def patchPoint (q : ℕ → Vec K 2) (p : K × K) : Vec K 2 := fun d =>
  (q 0 d * (1 - p.1) + q 1 d * p.1) * (1 - p.2) + (q 2 d * (1 - p.1) + q 3 d * p.1) * p.2

/-- The body of the loop over the patches, two_phase_base.cc:720-850: the seven blocks add the length of every segment to
`perimeter` and overwrite `interface_p`, which is stored at the end unless it is zero; then the four corners are added with
weight `local_area * quad_weights[i]`. `norm` is the Euclidean norm of `Tensor<1, dim>`. -/
def patchStep (norm : Vec K 2 → K) (eps : K) (n : ℕ) (k : Cell K) (a : Accum K 2) (d : ℕ) : Accum K 2 :=
  let corner : ℕ → Vec K 2 := fun i => k.x (patchIndex n d i)
  let m := marchAcc (k.c (patchIndex n d 0) + eps) (k.c (patchIndex n d 1) + eps) (k.c (patchIndex n d 2) + eps)
    (k.c (patchIndex n d 3) + eps)
  let perimeter := m.segs.foldl (fun s g => s + norm (patchPoint corner g.p - patchPoint corner g.q)) a.perimeter
  let interfaceP : Vec K 2 × Vec K 2 :=
    m.segs.foldl (fun _ g => (patchPoint corner g.p, patchPoint corner g.q)) (0, 0)
  let points := if interfaceP = (0, 0) then a.points else a.points ++ [interfaceP]
  (List.range 4).foldl
    (fun a i => a.addSample (m.area * quadWeight n k.JxW d i, corner i, k.u (patchIndex n d i)))
    { a with perimeter := perimeter, points := points }

/-- The body of the loop over the locally owned cells, two_phase_base.cc:681-851; `n = sub_per_d`. -/
def cellStep (norm : Vec K 2 → K) (eps : K) (n : ℕ) (a : Accum K 2) (k : Cell K) : Accum K 2 :=
  if interfaceCrosses k then (List.range (n * n)).foldl (patchStep norm eps n k) a
  else if 0 < k.dofs 0 then k.inner.foldl Accum.addSample a else a

/-- The sums of one process. -/
def rankSums (norm : Vec K 2 → K) (eps : K) (n : ℕ) (cells : List (Cell K)) : Accum K 2 :=
  cells.foldl (cellStep norm eps n) Accum.zero

/-- `Utilities::MPI::sum`: adds one number per process. -/
def mpiSum {α : Type*} [AddMonoid α] (l : List α) : α := l.foldl (· + ·) 0

/-- The global sums, two_phase_base.cc:853-866 (and the gather of the interface points, `Gather.lean`: rank 0 ends up with
the points of all ranks in the order of the ranks). -/
def globalSums {dim : ℕ} (ranks : List (Accum K dim)) : Accum K dim :=
  { area := mpiSum (ranks.map (·.area))
    perimeter := mpiSum (ranks.map (·.perimeter))
    com := fun d => mpiSum (ranks.map fun a => a.com d)
    vel := fun d => mpiSum (ranks.map fun a => a.vel d)
    points := (ranks.map (·.points)).flatten }

/-- the argument of `set_adaptive_time_step`, two_phase_base.cc:868 -/
def speedForTimeStep (norm : Vec K 2 → K) (g : Accum K 2) : K := norm g.vel / g.area

/-- `data`, two_phase_base.cc:898-906; `circularity` is computed from the two global sums in the line before the output
(:870, see `circularity`). -/
def report2 (circularity : K → K → K) (now : K) (g : Accum K 2) : List K :=
  [now, g.area, g.perimeter, circularity g.area g.perimeter,
   g.vel 0 / g.area, g.vel 1 / g.area, g.com 0 / g.area, g.com 1 / g.area]

/-- the whole function for `dim = 2` on the cells owned by the processes `0, 1, ...` -/
def statistics2 (norm : Vec K 2 → K) (circularity : K → K → K) (eps : K) (n : ℕ) (now : K)
    (ranks : List (List (Cell K))) : List K :=
  report2 circularity now (globalSums (ranks.map (rankSums norm eps n)))

/-- One quadrature point in three dimensions: `JxW`, the Heaviside value, the (projected) gradient of the level set
function, position and velocity, two_phase_base.cc:1014-1020 and level_set_base.h:57-74. -/
structure Point3 (K : Type*) where
  JxW : K
  heaviside : K
  delta : Vec K 3
  x : Vec K 3
  u : Vec K 3

/-- two_phase_base.cc:1020-1033; `area` of the code is the surface area, which we keep in `perimeter`, and `volume` is in
`area`. -/
def pointStep3 (norm : Vec K 3 → K) (a : Accum K 3) (q : Point3 K) : Accum K 3 :=
  ({ a with perimeter := a.perimeter + 1 / 2 * norm q.delta * q.JxW }).addSample (q.heaviside * q.JxW, q.x, q.u)

/-- two_phase_base.cc:1011-1034, the cells of one process concatenated -/
def rankSums3 (norm : Vec K 3 → K) (pts : List (Point3 K)) : Accum K 3 := pts.foldl (pointStep3 norm) Accum.zero

/-- two_phase_base.cc:1079-1089 -/
def report3 (sphericity : K → K → K) (now : K) (g : Accum K 3) : List K :=
  [now, g.area, g.perimeter, g.vel 0 / g.area, g.vel 1 / g.area, g.vel 2 / g.area,
   g.com 0 / g.area, g.com 1 / g.area, g.com 2 / g.area, sphericity g.area g.perimeter]

/-- the whole function for `dim = 3` (level set solvers; the phase field solver throws) -/
def statistics3 (norm : Vec K 3 → K) (sphericity : K → K → K) (now : K) (ranks : List (List (Point3 K))) : List K :=
  report3 sphericity now (globalSums (ranks.map (rankSums3 norm)))

/-- two_phase_base.cc:870 -/
noncomputable def circularity (area perimeter : ℝ) : ℝ := 2 * Real.sqrt (area * Real.pi) / perimeter

/-- two_phase_base.cc:1088-1089 -/
noncomputable def sphericity (volume area : ℝ) : ℝ :=
  Real.pi ^ (1 / 3 : ℝ) * (6 * volume) ^ (2 / 3 : ℝ) / area

/-- the printed coordinate of the centre of mass, two_phase_base.cc:885-888: zero if the *integral* of the coordinate is
small compared to the diameter of the domain -/
def printedCom (diameter area integral : K) : K :=
  if |integral| < 1 / 10 ^ 7 * diameter then 0 else integral / area

/-! ## Specification -/

namespace Spec

/-- the cell is cut: some degree of freedom differs in sign from the first, or one of the two is zero -/
def Cut (k : Cell K) : Prop := ∃ i, 1 ≤ i ∧ i < k.nDofs ∧ k.dofs i * k.dofs 0 ≤ 0

/-- the weighted points (weight, position, velocity) with which the corners of patch `d` enter the averages -/
def patchSamples (eps : K) (n : ℕ) (k : Cell K) (d : ℕ) : List (K × Vec K 2 × Vec K 2) :=
  (List.range 4).map fun i =>
    (areaFraction eps (k.c (patchIndex n d 0)) (k.c (patchIndex n d 1)) (k.c (patchIndex n d 2)) (k.c (patchIndex n d 3)) *
      quadWeight n k.JxW d i, k.x (patchIndex n d i), k.u (patchIndex n d i))

open Classical in
/-- the weighted points of a cell: the fractions of the sub-cells if it is cut, all Gauss points if it is inside of the
bubble, none if it is outside -/
noncomputable def samples (eps : K) (n : ℕ) (k : Cell K) : List (K × Vec K 2 × Vec K 2) :=
  if Cut k then (List.range (n * n)).flatMap (patchSamples eps n k) else if 0 < k.dofs 0 then k.inner else []

/-- weighted sum of a quantity over a list of weighted points -/
def total {ι : Type*} (f : ι → K) (l : List ι) : K := (l.map f).sum

/-- the lengths of the interface segments of patch `d` in physical space -/
def patchLength (norm : Vec K 2 → K) (eps : K) (n : ℕ) (k : Cell K) (d : ℕ) : K :=
  ((segments eps (k.c (patchIndex n d 0)) (k.c (patchIndex n d 1)) (k.c (patchIndex n d 2)) (k.c (patchIndex n d 3))).map
    fun g => norm (patchPoint (fun i => k.x (patchIndex n d i)) g.p - patchPoint (fun i => k.x (patchIndex n d i)) g.q)).sum

open Classical in
/-- the length of the interface in a cell -/
noncomputable def length (norm : Vec K 2 → K) (eps : K) (n : ℕ) (k : Cell K) : K :=
  if Cut k then ((List.range (n * n)).map (patchLength norm eps n k)).sum else 0

/-- all samples of all processes -/
noncomputable def allSamples (eps : K) (n : ℕ) (cells : List (Cell K)) : List (K × Vec K 2 × Vec K 2) :=
  cells.flatMap (samples eps n)

open Classical in
/-- the area of a cell according to the quadrature formula the code uses on it -/
noncomputable def cellMeasure (n : ℕ) (k : Cell K) : K :=
  if Cut k then ∑ q ∈ Finset.range ((n + 1) * (n + 1)), k.JxW q else total (·.1) k.inner

/-- no sub-cell of a cut cell is a saddle (or has a corner at exactly `-eps`) -/
def NoSaddle (eps : K) (n : ℕ) (k : Cell K) : Prop :=
  Cut k → ∀ d < n * n, Regular eps (k.c (patchIndex n d 0)) (k.c (patchIndex n d 1)) (k.c (patchIndex n d 2))
    (k.c (patchIndex n d 3))

/-- the quadrature weights are positive -/
def PosWeights (k : Cell K) : Prop := (∀ q, 0 ≤ k.JxW q) ∧ ∀ s ∈ k.inner, 0 ≤ s.1

end Spec

/-! ## Lemmas -/

section lemmas

theorem crosses_iff (k : Cell K) : interfaceCrosses k = true ↔ Spec.Cut k := by
  unfold interfaceCrosses Spec.Cut
  simp only [List.any_eq_true, List.mem_range, Bool.and_eq_true, decide_eq_true_eq]
  constructor
  · rintro ⟨i, hi, h1, h2⟩; exact ⟨i, h1, hi, h2⟩
  · rintro ⟨i, h1, hi, h2⟩; exact ⟨i, hi, h1, h2⟩

omit [LinearOrder K] [IsStrictOrderedRing K] in
theorem foldl_proj {α β : Type*} (step : α → β → α) (proj : α → K) (f : β → K)
    (h : ∀ a b, proj (step a b) = proj a + f b) (l : List β) (a : α) :
    proj (l.foldl step a) = proj a + (l.map f).sum := by
  induction l generalizing a with
  | nil => simp
  | cons b l ih => rw [List.foldl_cons, ih, h, List.map_cons, List.sum_cons, add_assoc]

omit [LinearOrder K] [IsStrictOrderedRing K] in
theorem addFold_same {β : Type*} {dim : ℕ} (f : β → K × Vec K dim × Vec K dim) (l : List β) (a : Accum K dim) :
    (l.foldl (fun a b => a.addSample (f b)) a).perimeter = a.perimeter ∧
    (l.foldl (fun a b => a.addSample (f b)) a).points = a.points := by
  induction l generalizing a with
  | nil => exact ⟨rfl, rfl⟩
  | cons b l ih => rw [List.foldl_cons]; exact ih _

theorem foldl_app {α β γ : Type*} (step : α → β → α) (proj : α → List γ) (f : β → List γ)
    (h : ∀ a b, proj (step a b) = proj a ++ f b) (l : List β) (a : α) :
    proj (l.foldl step a) = proj a ++ l.flatMap f := by
  induction l generalizing a with
  | nil => simp
  | cons b l ih => rw [List.foldl_cons, ih, h, List.flatMap_cons, List.append_assoc]

theorem mpiSum_eq {α : Type*} [AddMonoid α] (l : List α) : mpiSum l = l.sum := by
  unfold mpiSum; exact List.sum_eq_foldl.symm

omit [LinearOrder K] [IsStrictOrderedRing K] in
theorem total_append {ι : Type*} (f : ι → K) (l m : List ι) :
    Spec.total f (l ++ m) = Spec.total f l + Spec.total f m := by simp [Spec.total]

omit [LinearOrder K] [IsStrictOrderedRing K] in
theorem total_flatMap {ι κ : Type*} (f : ι → K) (g : κ → List ι) (l : List κ) :
    Spec.total f (l.flatMap g) = (l.map fun k => Spec.total f (g k)).sum := by
  induction l with
  | nil => simp [Spec.total]
  | cons a l ih => rw [List.flatMap_cons, total_append, ih]; simp

omit [LinearOrder K] [IsStrictOrderedRing K] in
/-- the four edges of a patch, two_phase_base.cc:742-761 -/
theorem C86_patch_edges (q : ℕ → Vec K 2) (r : K) :
    patchPoint q (r, 0) = q 0 + r • (q 1 - q 0) ∧ patchPoint q (r, 1) = q 2 + r • (q 3 - q 2) ∧
    patchPoint q (0, r) = q 0 + r • (q 2 - q 0) ∧ patchPoint q (1, r) = q 1 + r • (q 3 - q 1) := by
  refine ⟨?_, ?_, ?_, ?_⟩ <;> funext d <;> simp [patchPoint] <;> ring

/-- the segment a patch stores -/
def recorded (eps : K) (n : ℕ) (k : Cell K) (d : ℕ) : List (Vec K 2 × Vec K 2) :=
  let corner : ℕ → Vec K 2 := fun i => k.x (patchIndex n d i)
  let p := (segments eps (k.c (patchIndex n d 0)) (k.c (patchIndex n d 1)) (k.c (patchIndex n d 2))
    (k.c (patchIndex n d 3))).foldl (fun _ g => (patchPoint corner g.p, patchPoint corner g.q)) ((0, 0) : Vec K 2 × Vec K 2)
  if p = (0, 0) then [] else [p]

variable (norm : Vec K 2 → K) (eps : K) (n : ℕ)

theorem patchStep_area (k : Cell K) (a : Accum K 2) (d : ℕ) :
    (patchStep norm eps n k a d).area = a.area + Spec.total (·.1) (Spec.patchSamples eps n k d) := by
  unfold patchStep Spec.total Spec.patchSamples
  rw [foldl_proj _ (fun a : Accum K 2 => a.area) _ (fun a b => rfl), List.map_map]
  rfl

theorem patchStep_com (k : Cell K) (a : Accum K 2) (d : ℕ) (e : Fin 2) :
    (patchStep norm eps n k a d).com e = a.com e + Spec.total (fun s => s.2.1 e * s.1) (Spec.patchSamples eps n k d) := by
  unfold patchStep Spec.total Spec.patchSamples
  rw [foldl_proj _ (fun a : Accum K 2 => a.com e) _ (fun a b => rfl), List.map_map]
  rfl

theorem patchStep_vel (k : Cell K) (a : Accum K 2) (d : ℕ) (e : Fin 2) :
    (patchStep norm eps n k a d).vel e = a.vel e + Spec.total (fun s => s.2.2 e * s.1) (Spec.patchSamples eps n k d) := by
  unfold patchStep Spec.total Spec.patchSamples
  rw [foldl_proj _ (fun a : Accum K 2 => a.vel e) _ (fun a b => rfl), List.map_map]
  rfl

theorem patchStep_perimeter (k : Cell K) (a : Accum K 2) (d : ℕ) :
    (patchStep norm eps n k a d).perimeter = a.perimeter + Spec.patchLength norm eps n k d := by
  unfold patchStep Spec.patchLength
  dsimp only
  rw [(addFold_same _ _ _).1]
  exact foldl_proj _ (fun s : K => s) _ (fun a b => rfl) _ _

theorem patchStep_points (k : Cell K) (a : Accum K 2) (d : ℕ) :
    (patchStep norm eps n k a d).points = a.points ++ recorded eps n k d := by
  unfold patchStep recorded
  dsimp only [segments]
  rw [(addFold_same _ _ _).2]
  split_ifs <;> simp

open Classical in
/-- the segments a cell stores -/
noncomputable def cellRecorded (k : Cell K) : List (Vec K 2 × Vec K 2) :=
  if Spec.Cut k then (List.range (n * n)).flatMap (recorded eps n k) else []

theorem cellStep_area (a : Accum K 2) (k : Cell K) :
    (cellStep norm eps n a k).area = a.area + Spec.total (·.1) (Spec.samples eps n k) := by
  unfold cellStep Spec.samples
  by_cases h : Spec.Cut k
  · rw [if_pos ((crosses_iff k).2 h), if_pos h, total_flatMap]
    exact foldl_proj _ (fun a : Accum K 2 => a.area) _ (patchStep_area norm eps n k) _ _
  · rw [if_neg (fun hh => h ((crosses_iff k).1 hh)), if_neg h]
    split_ifs
    · exact foldl_proj _ (fun a : Accum K 2 => a.area) _ (fun a b => rfl) _ _
    · simp [Spec.total]

theorem cellStep_com (e : Fin 2) (a : Accum K 2) (k : Cell K) :
    (cellStep norm eps n a k).com e = a.com e + Spec.total (fun s => s.2.1 e * s.1) (Spec.samples eps n k) := by
  unfold cellStep Spec.samples
  by_cases h : Spec.Cut k
  · rw [if_pos ((crosses_iff k).2 h), if_pos h, total_flatMap]
    exact foldl_proj _ (fun a : Accum K 2 => a.com e) _ (fun a d => patchStep_com norm eps n k a d e) _ _
  · rw [if_neg (fun hh => h ((crosses_iff k).1 hh)), if_neg h]
    split_ifs
    · exact foldl_proj _ (fun a : Accum K 2 => a.com e) _ (fun a b => rfl) _ _
    · simp [Spec.total]

theorem cellStep_vel (e : Fin 2) (a : Accum K 2) (k : Cell K) :
    (cellStep norm eps n a k).vel e = a.vel e + Spec.total (fun s => s.2.2 e * s.1) (Spec.samples eps n k) := by
  unfold cellStep Spec.samples
  by_cases h : Spec.Cut k
  · rw [if_pos ((crosses_iff k).2 h), if_pos h, total_flatMap]
    exact foldl_proj _ (fun a : Accum K 2 => a.vel e) _ (fun a d => patchStep_vel norm eps n k a d e) _ _
  · rw [if_neg (fun hh => h ((crosses_iff k).1 hh)), if_neg h]
    split_ifs
    · exact foldl_proj _ (fun a : Accum K 2 => a.vel e) _ (fun a b => rfl) _ _
    · simp [Spec.total]

theorem cellStep_perimeter (a : Accum K 2) (k : Cell K) :
    (cellStep norm eps n a k).perimeter = a.perimeter + Spec.length norm eps n k := by
  unfold cellStep Spec.length
  by_cases h : Spec.Cut k
  · rw [if_pos ((crosses_iff k).2 h), if_pos h]
    exact foldl_proj _ (fun a : Accum K 2 => a.perimeter) _ (patchStep_perimeter norm eps n k) _ _
  · rw [if_neg (fun hh => h ((crosses_iff k).1 hh)), if_neg h, add_zero]
    split_ifs
    · exact (addFold_same id k.inner a).1
    · rfl

theorem cellStep_points (a : Accum K 2) (k : Cell K) :
    (cellStep norm eps n a k).points = a.points ++ cellRecorded eps n k := by
  unfold cellStep cellRecorded
  by_cases h : Spec.Cut k
  · rw [if_pos ((crosses_iff k).2 h), if_pos h]
    exact foldl_app _ (fun a : Accum K 2 => a.points) _ (patchStep_points norm eps n k) _ _
  · rw [if_neg (fun hh => h ((crosses_iff k).1 hh)), if_neg h, List.append_nil]
    split_ifs
    · exact (addFold_same id k.inner a).2
    · rfl

omit [LinearOrder K] [IsStrictOrderedRing K] in
theorem sum_map_flatten {α : Type*} (f : α → K) (l : List (List α)) :
    (l.map fun r => (r.map f).sum).sum = (l.flatten.map f).sum := by
  induction l with
  | nil => simp
  | cons a l ih => simp [ih]

/-- the global sums are sums over all cells of all processes -/
theorem globalSums_eq (ranks : List (List (Cell K))) :
    let g := globalSums (ranks.map (rankSums norm eps n))
    g.area = Spec.total (·.1) (Spec.allSamples eps n ranks.flatten) ∧
    g.perimeter = Spec.total (Spec.length norm eps n) ranks.flatten ∧
    (∀ e, g.com e = Spec.total (fun s => s.2.1 e * s.1) (Spec.allSamples eps n ranks.flatten)) ∧
    (∀ e, g.vel e = Spec.total (fun s => s.2.2 e * s.1) (Spec.allSamples eps n ranks.flatten)) ∧
    g.points = ranks.flatten.flatMap (cellRecorded eps n) := by
  dsimp only [globalSums, Spec.allSamples]
  simp only [mpiSum_eq, List.map_map, total_flatMap]
  refine ⟨?_, ?_, ?_, ?_, ?_⟩
  · rw [← sum_map_flatten]
    congr 1; apply List.map_congr_left; intro r _
    change (rankSums norm eps n r).area = _
    rw [rankSums, foldl_proj _ (fun a : Accum K 2 => a.area) _ (cellStep_area norm eps n)]
    simp [Accum.zero]
  · rw [Spec.total, ← sum_map_flatten]
    congr 1; apply List.map_congr_left; intro r _
    change (rankSums norm eps n r).perimeter = _
    rw [rankSums, foldl_proj _ (fun a : Accum K 2 => a.perimeter) _ (cellStep_perimeter norm eps n)]
    simp [Accum.zero]
  · intro e
    rw [← sum_map_flatten]
    congr 1; apply List.map_congr_left; intro r _
    change (rankSums norm eps n r).com e = _
    rw [rankSums, foldl_proj _ (fun a : Accum K 2 => a.com e) _ (cellStep_com norm eps n e)]
    simp [Accum.zero]
  · intro e
    rw [← sum_map_flatten]
    congr 1; apply List.map_congr_left; intro r _
    change (rankSums norm eps n r).vel e = _
    rw [rankSums, foldl_proj _ (fun a : Accum K 2 => a.vel e) _ (cellStep_vel norm eps n e)]
    simp [Accum.zero]
  · rw [List.flatMap_def, ← List.flatMap_def, List.flatten_eq_flatMap, List.flatMap_map]
    induction ranks with
    | nil => simp
    | cons r ranks ih =>
      rw [List.flatMap_cons, List.flatten_cons, List.flatMap_append, ih]
      congr 1
      change (rankSums norm eps n r).points = _
      rw [rankSums, foldl_app _ (fun a : Accum K 2 => a.points) _ (cellStep_points norm eps n)]
      simp [Accum.zero]

end lemmas

/-! ## C86 -/

section claims

variable (norm : Vec K 2 → K) (circ : K → K → K) (eps : K) (n : ℕ) (now : K)

/-- **C86 (what is reported, two dimensions).** For every number of processes and every distribution of the cells, the
returned numbers are: the time; the total weight of the bubble samples; the total length of the interface; the
circularity of these two; the weighted mean of the velocity; and the weighted mean of the position. -/
theorem C86_report (ranks : List (List (Cell K))) :
    let S := Spec.allSamples eps n ranks.flatten
    let A := Spec.total (·.1) S
    let P := Spec.total (Spec.length norm eps n) ranks.flatten
    statistics2 norm circ eps n now ranks =
      [now, A, P, circ A P, Spec.total (fun s => s.2.2 0 * s.1) S / A, Spec.total (fun s => s.2.2 1 * s.1) S / A,
       Spec.total (fun s => s.2.1 0 * s.1) S / A, Spec.total (fun s => s.2.1 1 * s.1) S / A] := by
  obtain ⟨h1, h2, h3, h4, -⟩ := globalSums_eq norm eps n ranks
  dsimp only [statistics2, report2]
  rw [h1, h2, h3, h3, h4, h4]

theorem total_perm {ι : Type*} (f : ι → K) {l m : List ι} (h : l.Perm m) : Spec.total f l = Spec.total f m :=
  (h.map f).sum_eq

/-- **C86 (partition independence).** The report does not depend on how the cells are distributed over the processes, on
the number of processes or on the order in which the cells are visited. -/
theorem C86_partition_independent {ranks ranks' : List (List (Cell K))} (h : ranks.flatten.Perm ranks'.flatten) :
    statistics2 norm circ eps n now ranks = statistics2 norm circ eps n now ranks' := by
  have hp : (Spec.allSamples eps n ranks.flatten).Perm (Spec.allSamples eps n ranks'.flatten) :=
    h.flatMap_right _
  rw [C86_report, C86_report]
  rw [total_perm _ hp, total_perm _ h, total_perm _ hp, total_perm _ hp, total_perm _ hp, total_perm _ hp]

theorem total_nonneg {ι : Type*} {f : ι → K} {l : List ι} (h : ∀ s ∈ l, 0 ≤ f s) : 0 ≤ Spec.total f l := by
  unfold Spec.total
  apply List.sum_nonneg
  intro x hx
  obtain ⟨s, hs, rfl⟩ := List.mem_map.1 hx
  exact h s hs

theorem total_mono {ι : Type*} {f g : ι → K} {l : List ι} (h : ∀ s ∈ l, f s ≤ g s) : Spec.total f l ≤ Spec.total g l := by
  induction l with
  | nil => simp [Spec.total]
  | cons a l ih =>
    simp only [Spec.total, List.map_cons, List.sum_cons] at *
    have h1 := h a (by simp)
    have h2 := ih fun s hs => h s (by simp [hs])
    linarith

omit [LinearOrder K] [IsStrictOrderedRing K] in
theorem total_congr {ι : Type*} {f g : ι → K} {l : List ι} (h : ∀ s ∈ l, f s = g s) : Spec.total f l = Spec.total g l := by
  unfold Spec.total; rw [List.map_congr_left h]

omit [LinearOrder K] [IsStrictOrderedRing K] in
theorem total_const_mul {ι : Type*} (c : K) (f : ι → K) (l : List ι) :
    Spec.total (fun s => c * f s) l = c * Spec.total f l := by
  induction l with
  | nil => simp [Spec.total]
  | cons a l ih =>
    simp only [Spec.total, List.map_cons, List.sum_cons] at *
    rw [ih]; ring

omit [LinearOrder K] [IsStrictOrderedRing K] in
theorem total_add {ι : Type*} (f g : ι → K) (l : List ι) :
    Spec.total (fun s => f s + g s) l = Spec.total f l + Spec.total g l := by
  induction l with
  | nil => simp [Spec.total]
  | cons a l ih =>
    simp only [Spec.total, List.map_cons, List.sum_cons] at *
    rw [ih]; ring

/-- the points and velocities of the samples are those read on the cell -/
theorem mem_samples {eps : K} {n : ℕ} {k : Cell K} {s : K × Vec K 2 × Vec K 2} (h : s ∈ Spec.samples eps n k) :
    (s ∈ k.inner ∧ ¬ Spec.Cut k) ∨ (Spec.Cut k ∧ ∃ d < n * n, ∃ i < 4, s = (areaFraction eps (k.c (patchIndex n d 0))
      (k.c (patchIndex n d 1)) (k.c (patchIndex n d 2)) (k.c (patchIndex n d 3)) * quadWeight n k.JxW d i,
      k.x (patchIndex n d i), k.u (patchIndex n d i))) := by
  unfold Spec.samples at h
  by_cases hc : Spec.Cut k
  · rw [if_pos hc] at h
    obtain ⟨d, hd, hs⟩ := List.mem_flatMap.1 h
    unfold Spec.patchSamples at hs
    obtain ⟨i, hi, rfl⟩ := List.mem_map.1 hs
    exact Or.inr ⟨hc, d, List.mem_range.1 hd, i, List.mem_range.1 hi, rfl⟩
  · rw [if_neg hc] at h
    split_ifs at h
    · exact Or.inl ⟨h, hc⟩
    · cases h

/-- every velocity (resp. position) read on a cell satisfies `p` -/
def Spec.AllVel (p : Vec K 2 → Prop) (k : Cell K) : Prop := (∀ q, p (k.u q)) ∧ ∀ s ∈ k.inner, p s.2.2
def Spec.AllPos (p : Vec K 2 → Prop) (k : Cell K) : Prop := (∀ q, p (k.x q)) ∧ ∀ s ∈ k.inner, p s.2.1

theorem samples_vel {p : Vec K 2 → Prop} {cells : List (Cell K)} (h : ∀ k ∈ cells, Spec.AllVel p k)
    {s : K × Vec K 2 × Vec K 2} (hs : s ∈ Spec.allSamples eps n cells) : p s.2.2 := by
  obtain ⟨k, hk, hs⟩ := List.mem_flatMap.1 hs
  rcases mem_samples hs with ⟨h1, -⟩ | ⟨-, d, -, i, -, rfl⟩
  · exact (h k hk).2 s h1
  · exact (h k hk).1 _

theorem samples_pos {p : Vec K 2 → Prop} {cells : List (Cell K)} (h : ∀ k ∈ cells, Spec.AllPos p k)
    {s : K × Vec K 2 × Vec K 2} (hs : s ∈ Spec.allSamples eps n cells) : p s.2.1 := by
  obtain ⟨k, hk, hs⟩ := List.mem_flatMap.1 hs
  rcases mem_samples hs with ⟨h1, -⟩ | ⟨-, d, -, i, -, rfl⟩
  · exact (h k hk).2 s h1
  · exact (h k hk).1 _

theorem samples_weight {cells : List (Cell K)} (hw : ∀ k ∈ cells, Spec.PosWeights k)
    (hr : ∀ k ∈ cells, Spec.NoSaddle eps n k)
    {s : K × Vec K 2 × Vec K 2} (hs : s ∈ Spec.allSamples eps n cells) : 0 ≤ s.1 := by
  obtain ⟨k, hk, hs⟩ := List.mem_flatMap.1 hs
  rcases mem_samples hs with ⟨h1, -⟩ | ⟨hc, d, hd, i, -, rfl⟩
  · exact (hw k hk).2 s h1
  · exact mul_nonneg (C36_fraction_in_unit_interval (hr k hk hc d hd)).1 (quadWeight_nonneg (hw k hk).1 d i)

/-- **C86 (rigid motion).** If the velocity field is the constant `V` on all cells, the reported mean bubble velocity is
exactly `V`, whatever the shape of the bubble, provided the reported area is not zero. -/
theorem C86_constant_velocity {ranks : List (List (Cell K))} {V : Vec K 2}
    (hV : ∀ k ∈ ranks.flatten, Spec.AllVel (· = V) k)
    (hA : (statistics2 norm circ eps n now ranks)[1]? ≠ some 0) :
    (statistics2 norm circ eps n now ranks)[4]? = some (V 0) ∧
    (statistics2 norm circ eps n now ranks)[5]? = some (V 1) := by
  rw [C86_report] at *
  have hA' : Spec.total (·.1) (Spec.allSamples eps n ranks.flatten) ≠ 0 := by simpa using hA
  have key : ∀ e, Spec.total (fun s => s.2.2 e * s.1) (Spec.allSamples eps n ranks.flatten) =
      V e * Spec.total (·.1) (Spec.allSamples eps n ranks.flatten) := by
    intro e
    rw [← total_const_mul]
    apply total_congr
    intro s hs
    rw [samples_vel eps n hV hs]
  simp [key, mul_div_cancel_right₀ _ hA']

/-- **C86 (speed for the time step).** For a constant velocity field `V` and a positive area, the speed handed to the
adaptive time step selection is the norm of `V`. -/
theorem C86_speed_for_time_step (hnorm : ∀ (a : K) (v : Vec K 2), norm (fun e => v e * a) = norm v * |a|)
    {ranks : List (List (Cell K))} {V : Vec K 2} (hV : ∀ k ∈ ranks.flatten, Spec.AllVel (· = V) k)
    (hA : 0 < Spec.total (·.1) (Spec.allSamples eps n ranks.flatten)) :
    speedForTimeStep norm (globalSums (ranks.map (rankSums norm eps n))) = norm V := by
  obtain ⟨h1, -, -, h4, -⟩ := globalSums_eq norm eps n ranks
  unfold speedForTimeStep
  rw [h1]
  have key : (globalSums (ranks.map (rankSums norm eps n))).vel =
      fun e => V e * Spec.total (·.1) (Spec.allSamples eps n ranks.flatten) := by
    funext e
    rw [h4, ← total_const_mul]
    apply total_congr
    intro s hs
    rw [samples_vel eps n hV hs]
  rw [key, hnorm, abs_of_pos hA, mul_div_cancel_right₀ _ hA.ne']

theorem mean_bounds {ι : Type*} {w f : ι → K} {l : List ι} {lo hi : K} (hw : ∀ s ∈ l, 0 ≤ w s)
    (hf : ∀ s ∈ l, lo ≤ f s ∧ f s ≤ hi) (hA : 0 < Spec.total w l) :
    lo ≤ Spec.total (fun s => f s * w s) l / Spec.total w l ∧ Spec.total (fun s => f s * w s) l / Spec.total w l ≤ hi := by
  rw [le_div_iff₀ hA, div_le_iff₀ hA, ← total_const_mul, ← total_const_mul]
  exact ⟨total_mono fun s hs => mul_le_mul_of_nonneg_right (hf s hs).1 (hw s hs),
    total_mono fun s hs => mul_le_mul_of_nonneg_right (hf s hs).2 (hw s hs)⟩

/-- **C86 (mean values).** Without saddle sub-cells, each component of the reported mean velocity lies between the smallest
and the largest velocity component read, and the reported centre of mass in every box containing the cells. -/
theorem C86_mean_in_range_partial {ranks : List (List (Cell K))} (hw : ∀ k ∈ ranks.flatten, Spec.PosWeights k)
    (hr : ∀ k ∈ ranks.flatten, Spec.NoSaddle eps n k) {loV hiV loX hiX : Vec K 2}
    (hV : ∀ k ∈ ranks.flatten, Spec.AllVel (fun v => loV ≤ v ∧ v ≤ hiV) k)
    (hX : ∀ k ∈ ranks.flatten, Spec.AllPos (fun v => loX ≤ v ∧ v ≤ hiX) k)
    {area v0 v1 x0 x1 : K} (hrep : ∃ P C, statistics2 norm circ eps n now ranks = [now, area, P, C, v0, v1, x0, x1])
    (hA : area ≠ 0) :
    0 < area ∧ (loV 0 ≤ v0 ∧ v0 ≤ hiV 0) ∧ (loV 1 ≤ v1 ∧ v1 ≤ hiV 1) ∧
    (loX 0 ≤ x0 ∧ x0 ≤ hiX 0) ∧ (loX 1 ≤ x1 ∧ x1 ≤ hiX 1) := by
  obtain ⟨P, C, hrep⟩ := hrep
  rw [C86_report] at hrep
  simp only [List.cons.injEq, and_true, true_and] at hrep
  obtain ⟨rfl, -, -, rfl, rfl, rfl, rfl⟩ := hrep
  have hpos : ∀ s ∈ Spec.allSamples eps n ranks.flatten, 0 ≤ s.1 := fun s hs => samples_weight eps n hw hr hs
  have hA' : 0 < Spec.total (·.1) (Spec.allSamples eps n ranks.flatten) :=
    lt_of_le_of_ne (total_nonneg hpos) (Ne.symm hA)
  have hv : ∀ e, ∀ s ∈ Spec.allSamples eps n ranks.flatten, loV e ≤ s.2.2 e ∧ s.2.2 e ≤ hiV e := fun e s hs =>
    have := samples_vel eps n hV hs
    ⟨this.1 e, this.2 e⟩
  have hx : ∀ e, ∀ s ∈ Spec.allSamples eps n ranks.flatten, loX e ≤ s.2.1 e ∧ s.2.1 e ≤ hiX e := fun e s hs =>
    have := samples_pos eps n hX hs
    ⟨this.1 e, this.2 e⟩
  exact ⟨hA', mean_bounds (w := fun s : K × Vec K 2 × Vec K 2 => s.1) (f := fun s => s.2.2 0) hpos (hv 0) hA',
    mean_bounds (w := fun s : K × Vec K 2 × Vec K 2 => s.1) (f := fun s => s.2.2 1) hpos (hv 1) hA',
    mean_bounds (w := fun s : K × Vec K 2 × Vec K 2 => s.1) (f := fun s => s.2.1 0) hpos (hx 0) hA',
    mean_bounds (w := fun s : K × Vec K 2 × Vec K 2 => s.1) (f := fun s => s.2.1 1) hpos (hx 1) hA'⟩

theorem total_range {m : ℕ} (f : ℕ → K) : ((List.range m).map f).sum = ∑ i ∈ Finset.range m, f i := by
  induction m with
  | zero => simp
  | succ m ih => rw [List.range_succ, List.map_append, List.sum_append, ih, Finset.sum_range_succ]; simp

/-- the weight of a cut cell is the cell area of `C37` -/
theorem cut_area {k : Cell K} (h : Spec.Cut k) :
    Spec.total (·.1) (Spec.samples eps n k) = cellArea eps n k.c k.JxW := by
  rw [Spec.samples, if_pos h, total_flatMap, total_range]
  apply Finset.sum_congr rfl
  intro d _
  unfold Spec.total Spec.patchSamples
  rw [List.map_map, ← total_range]
  rfl

/-- **C86 (area).** Without saddles, the reported area lies between zero and the area of the cells. -/
theorem C86_area_bounds_partial (hn : 0 < n) {ranks : List (List (Cell K))} (hw : ∀ k ∈ ranks.flatten, Spec.PosWeights k)
    (hr : ∀ k ∈ ranks.flatten, Spec.NoSaddle eps n k) :
    ∃ area, (statistics2 norm circ eps n now ranks)[1]? = some area ∧ 0 ≤ area ∧
      area ≤ Spec.total (Spec.cellMeasure n) ranks.flatten := by
  refine ⟨_, by rw [C86_report]; rfl, total_nonneg fun s hs => samples_weight eps n hw hr hs, ?_⟩
  rw [Spec.allSamples, total_flatMap]
  apply total_mono
  intro k hk
  unfold Spec.cellMeasure
  by_cases hc : Spec.Cut k
  · rw [if_pos hc, cut_area eps n hc]
    exact (C37_cell_area_bounds hn (hw k hk).1 (hr k hk hc)).2
  · rw [if_neg hc, Spec.samples, if_neg hc]
    split_ifs
    · exact le_rfl
    · exact total_nonneg fun s hs => (hw k hk).2 s hs

/-- translation of a cell -/
def Spec.shift (t : Vec K 2) (k : Cell K) : Cell K :=
  { k with x := fun q => k.x q + t, inner := k.inner.map fun s => (s.1, s.2.1 + t, s.2.2) }

omit [LinearOrder K] [IsStrictOrderedRing K] in
theorem patchPoint_shift (q : ℕ → Vec K 2) (t : Vec K 2) (p : K × K) :
    patchPoint (fun i => q i + t) p = patchPoint q p + t := by
  funext d; simp [patchPoint]; ring

theorem samples_shift (t : Vec K 2) (k : Cell K) :
    Spec.samples eps n (Spec.shift t k) = (Spec.samples eps n k).map fun s => (s.1, s.2.1 + t, s.2.2) := by
  have hcut : Spec.Cut (Spec.shift t k) = Spec.Cut k := rfl
  unfold Spec.samples
  rw [hcut]
  by_cases hc : Spec.Cut k
  · rw [if_pos hc, if_pos hc, List.map_flatMap]
    apply List.flatMap_congr
    intro d _
    unfold Spec.patchSamples
    rw [List.map_map]
    rfl
  · rw [if_neg hc, if_neg hc]
    change (if 0 < k.dofs 0 then _ else _) = _
    split_ifs <;> simp [Spec.shift]

theorem length_shift (t : Vec K 2) (k : Cell K) :
    Spec.length norm eps n (Spec.shift t k) = Spec.length norm eps n k := by
  have hcut : Spec.Cut (Spec.shift t k) = Spec.Cut k := rfl
  unfold Spec.length
  rw [hcut]
  split_ifs
  · congr 1; apply List.map_congr_left; intro d _
    unfold Spec.patchLength
    simp only [Spec.shift, patchPoint_shift, add_sub_add_right_eq_sub]
  · rfl

/-- **C86 (translation).** Translating the mesh by `t` moves the reported centre of mass by exactly `t` and changes nothing
else. -/
theorem C86_translation {ranks : List (List (Cell K))} (t : Vec K 2) {area P C v0 v1 x0 x1 : K}
    (h : statistics2 norm circ eps n now ranks = [now, area, P, C, v0, v1, x0, x1]) (hA : area ≠ 0) :
    statistics2 norm circ eps n now (ranks.map (List.map (Spec.shift t))) =
      [now, area, P, C, v0, v1, x0 + t 0, x1 + t 1] := by
  rw [C86_report] at *
  have hS : Spec.allSamples eps n (ranks.map (List.map (Spec.shift t))).flatten =
      (Spec.allSamples eps n ranks.flatten).map fun s => (s.1, s.2.1 + t, s.2.2) := by
    rw [← List.map_flatten, Spec.allSamples, Spec.allSamples, List.flatMap_map, List.map_flatMap]
    apply List.flatMap_congr
    intro k _
    exact samples_shift eps n t k
  have hL : Spec.total (Spec.length norm eps n) (ranks.map (List.map (Spec.shift t))).flatten =
      Spec.total (Spec.length norm eps n) ranks.flatten := by
    rw [← List.map_flatten, Spec.total, Spec.total, List.map_map]
    congr 1; apply List.map_congr_left; intro k _
    exact length_shift norm eps n t k
  rw [hS, hL]
  generalize Spec.allSamples eps n ranks.flatten = S at *
  simp only [List.cons.injEq, and_true, true_and] at h
  obtain ⟨rfl, rfl, rfl, rfl, rfl, rfl, rfl⟩ := h
  have ht : ∀ (f : K × Vec K 2 × Vec K 2 → K), Spec.total f (S.map fun s => (s.1, s.2.1 + t, s.2.2)) =
      Spec.total (fun s => f (s.1, s.2.1 + t, s.2.2)) S := by
    intro f; unfold Spec.total; rw [List.map_map]; rfl
  simp only [ht]
  have hx : ∀ e, Spec.total (fun s : K × Vec K 2 × Vec K 2 => (s.2.1 + t) e * s.1) S / Spec.total (·.1) S =
      Spec.total (fun s : K × Vec K 2 × Vec K 2 => s.2.1 e * s.1) S / Spec.total (·.1) S + t e := by
    intro e
    rw [eq_comm, div_add' _ _ _ hA]
    congr 1
    rw [← total_const_mul, ← total_add]
    apply total_congr; intro s _
    simp only [Pi.add_apply]; ring
  rw [hx, hx]

/-- **C86 (the cheap test).** A cell with at least two degrees of freedom that is not treated as cut has only nonzero
degrees of freedom, all of the sign of the first; hence every convex combination of them, i.e. every value of a piecewise
linear function on the cell, has that sign: no part of the interface is missed. -/
theorem C86_uncut_cell_has_one_sign {k : Cell K} (h2 : 2 ≤ k.nDofs) (h : interfaceCrosses k = false)
    {w : ℕ → K} (hw : ∀ i, 0 ≤ w i) (hw1 : ∑ i ∈ Finset.range k.nDofs, w i = 1) :
    (0 < k.dofs 0 → 0 < ∑ i ∈ Finset.range k.nDofs, w i * k.dofs i) ∧
    (¬ 0 < k.dofs 0 → ∑ i ∈ Finset.range k.nDofs, w i * k.dofs i < 0) := by
  have hc : ¬ Spec.Cut k := fun hh => by rw [(crosses_iff k).2 hh] at h; cases h
  have hs : ∀ i, 1 ≤ i → i < k.nDofs → 0 < k.dofs i * k.dofs 0 := by
    intro i h1 hi
    by_contra hn
    exact hc ⟨i, h1, hi, not_lt.1 hn⟩
  have h0 : k.dofs 0 ≠ 0 := by
    intro h0; have := hs 1 le_rfl (by omega); rw [h0, mul_zero] at this; exact lt_irrefl _ this
  obtain ⟨j, hj, hwj⟩ : ∃ j ∈ Finset.range k.nDofs, 0 < w j := by
    by_contra hn
    push Not at hn
    have := Finset.sum_nonpos hn
    rw [hw1] at this
    linarith
  constructor
  · intro hp
    have hd : ∀ i ∈ Finset.range k.nDofs, 0 < k.dofs i := by
      intro i hi
      rcases Nat.eq_zero_or_pos i with rfl | h1
      · exact hp
      · exact pos_of_mul_pos_left (hs i h1 (Finset.mem_range.1 hi)) hp.le
    exact Finset.sum_pos' (fun i hi => mul_nonneg (hw i) (hd i hi).le) ⟨j, hj, mul_pos hwj (hd j hj)⟩
  · intro hp
    have hp : k.dofs 0 < 0 := lt_of_le_of_ne (not_lt.1 hp) h0
    have hd : ∀ i ∈ Finset.range k.nDofs, k.dofs i < 0 := by
      intro i hi
      rcases Nat.eq_zero_or_pos i with rfl | h1
      · exact hp
      · have := hs i h1 (Finset.mem_range.1 hi)
        exact neg_of_mul_pos_left this hp.le
    have := Finset.sum_pos' (s := Finset.range k.nDofs) (f := fun i => - (w i * k.dofs i))
      (fun i hi => by have := mul_nonneg (hw i) (neg_nonneg.2 (hd i hi).le); linarith)
      ⟨j, hj, by have := mul_pos hwj (neg_pos.2 (hd j hj)); linarith⟩
    rw [Finset.sum_neg_distrib] at this
    linarith

/-- length of a stored interface segment -/
def Spec.segLength (p : Vec K 2 × Vec K 2) : K := norm (p.1 - p.2)

/-- **C86 (perimeter).** Without saddles, the reported perimeter is the total length of the segments handed to the caller
in `interface_points` (gathered from all processes). -/
theorem C86_perimeter_is_length_of_points_partial (hnorm : norm 0 = 0) {ranks : List (List (Cell K))}
    (hr : ∀ k ∈ ranks.flatten, Spec.NoSaddle eps n k) :
    (statistics2 norm circ eps n now ranks)[2]? =
      some (Spec.total (Spec.segLength norm) (globalSums (ranks.map (rankSums norm eps n))).points) := by
  rw [C86_report, (globalSums_eq norm eps n ranks).2.2.2.2, total_flatMap]
  rw [show ∀ a b c d e f g h : K, [a, b, c, d, e, f, g, h][2]? = some c from fun _ _ _ _ _ _ _ _ => rfl]
  congr 1
  apply total_congr
  intro k hk
  unfold Spec.length cellRecorded
  by_cases hc : Spec.Cut k
  · rw [if_pos hc, if_pos hc, total_flatMap]
    congr 1
    apply List.map_congr_left
    intro d hd
    have hlen := (C36_segments (hr k hk hc d (List.mem_range.1 hd))).1
    unfold Spec.patchLength recorded
    dsimp only
    generalize segments eps (k.c (patchIndex n d 0)) (k.c (patchIndex n d 1)) (k.c (patchIndex n d 2))
      (k.c (patchIndex n d 3)) = L at hlen
    match L, hlen with
    | [], _ => simp [Spec.total]
    | [g], _ =>
      by_cases h0 : (patchPoint (fun i => k.x (patchIndex n d i)) g.p,
          patchPoint (fun i => k.x (patchIndex n d i)) g.q) = ((0, 0) : Vec K 2 × Vec K 2)
      · have h1 := congrArg Prod.fst h0
        have h2 := congrArg Prod.snd h0
        dsimp only at h1 h2
        refine Eq.trans ?_ (congrArg (Spec.total _) (if_pos h0).symm)
        simp [Spec.total, h1, h2, hnorm]
      · refine Eq.trans ?_ (congrArg (Spec.total _) (if_neg h0).symm)
        rfl
    | _ :: _ :: _, hlen => simp only [List.length_cons] at hlen; split_ifs at hlen; omega
  · rw [if_neg hc, if_neg hc]; rfl

end claims

/-! ### Three dimensions -/

section three

variable (norm : Vec K 3 → K) (spher : K → K → K) (now : K)

theorem globalSums3_eq (ranks : List (List (Point3 K))) :
    let g := globalSums (ranks.map (rankSums3 norm))
    g.area = Spec.total (fun q => q.heaviside * q.JxW) ranks.flatten ∧
    g.perimeter = Spec.total (fun q => 1 / 2 * norm q.delta * q.JxW) ranks.flatten ∧
    (∀ e, g.com e = Spec.total (fun q => q.x e * (q.heaviside * q.JxW)) ranks.flatten) ∧
    (∀ e, g.vel e = Spec.total (fun q => q.u e * (q.heaviside * q.JxW)) ranks.flatten) := by
  dsimp only [globalSums, Spec.total]
  simp only [mpiSum_eq, List.map_map]
  refine ⟨?_, ?_, ?_, ?_⟩
  · rw [← sum_map_flatten]
    congr 1; apply List.map_congr_left; intro r _
    change (rankSums3 norm r).area = _
    rw [rankSums3, foldl_proj _ (fun a : Accum K 3 => a.area) _ (fun a b => rfl)]
    simp [Accum.zero]
  · rw [← sum_map_flatten]
    congr 1; apply List.map_congr_left; intro r _
    change (rankSums3 norm r).perimeter = _
    rw [rankSums3, foldl_proj _ (fun a : Accum K 3 => a.perimeter) _ (fun a b => rfl)]
    simp [Accum.zero]
  · intro e
    rw [← sum_map_flatten]
    congr 1; apply List.map_congr_left; intro r _
    change (rankSums3 norm r).com e = _
    rw [rankSums3, foldl_proj _ (fun a : Accum K 3 => a.com e) _ (fun a b => rfl)]
    simp [Accum.zero]
  · intro e
    rw [← sum_map_flatten]
    congr 1; apply List.map_congr_left; intro r _
    change (rankSums3 norm r).vel e = _
    rw [rankSums3, foldl_proj _ (fun a : Accum K 3 => a.vel e) _ (fun a b => rfl)]
    simp [Accum.zero]

/-- **C86 (what is reported, three dimensions).** The volume is the integral of the Heaviside function, the surface area half
the integral of the norm of the level set gradient (the level set function jumps by two), velocity and position are the means
with the Heaviside function as weight. -/
theorem C86_report_3d (ranks : List (List (Point3 K))) :
    let Q := ranks.flatten
    let V := Spec.total (fun q => q.heaviside * q.JxW) Q
    let A := Spec.total (fun q => 1 / 2 * norm q.delta * q.JxW) Q
    let mean := fun f : Point3 K → K => Spec.total (fun q => f q * (q.heaviside * q.JxW)) Q / V
    statistics3 norm spher now ranks =
      [now, V, A, mean (·.u 0), mean (·.u 1), mean (·.u 2), mean (·.x 0), mean (·.x 1), mean (·.x 2), spher V A] := by
  obtain ⟨h1, h2, h3, h4⟩ := globalSums3_eq norm ranks
  dsimp only [statistics3, report3]
  rw [h1, h2, h3, h3, h3, h4, h4, h4]

/-- **C86 (partition independence, three dimensions).** -/
theorem C86_partition_independent_3d {ranks ranks' : List (List (Point3 K))} (h : ranks.flatten.Perm ranks'.flatten) :
    statistics3 norm spher now ranks = statistics3 norm spher now ranks' := by
  rw [C86_report_3d, C86_report_3d]
  dsimp only
  simp only [total_perm _ h]

/-- **C86 (mean values, three dimensions).** If the Heaviside values are in the unit interval and the quadrature weights
are not negative, the volume is between zero and the volume of the mesh, and every mean value is between the smallest and
the largest value read. No exception: there are no cut cells in this version. -/
theorem C86_mean_in_range_3d {ranks : List (List (Point3 K))}
    (hw : ∀ q ∈ ranks.flatten, 0 ≤ q.JxW ∧ 0 ≤ q.heaviside ∧ q.heaviside ≤ 1)
    {volume A S : K} {v x : Vec K 3}
    (h : statistics3 norm spher now ranks = [now, volume, A, v 0, v 1, v 2, x 0, x 1, x 2, S]) :
    0 ≤ volume ∧ volume ≤ Spec.total (·.JxW) ranks.flatten ∧
    (volume ≠ 0 → ∀ e lo hi, ((∀ q ∈ ranks.flatten, lo ≤ q.u e ∧ q.u e ≤ hi) → lo ≤ v e ∧ v e ≤ hi) ∧
      ((∀ q ∈ ranks.flatten, lo ≤ q.x e ∧ q.x e ≤ hi) → lo ≤ x e ∧ x e ≤ hi)) := by
  rw [C86_report_3d] at h
  simp only [List.cons.injEq, and_true, true_and] at h
  obtain ⟨hV, -, hv0, hv1, hv2, hx0, hx1, hx2, -⟩ := h
  have h0 : 0 ≤ Spec.total (fun q => q.heaviside * q.JxW) ranks.flatten :=
    total_nonneg fun q hq => mul_nonneg (hw q hq).2.1 (hw q hq).1
  have hv : ∀ e, Spec.total (fun q => q.u e * (q.heaviside * q.JxW)) ranks.flatten /
      Spec.total (fun q => q.heaviside * q.JxW) ranks.flatten = v e := by
    intro e; fin_cases e <;> assumption
  have hx : ∀ e, Spec.total (fun q => q.x e * (q.heaviside * q.JxW)) ranks.flatten /
      Spec.total (fun q => q.heaviside * q.JxW) ranks.flatten = x e := by
    intro e; fin_cases e <;> assumption
  subst hV
  refine ⟨h0, total_mono fun q hq => ?_, fun hne e lo hi => ⟨fun hb => ?_, fun hb => ?_⟩⟩
  · have := hw q hq; nlinarith
  · rw [← hv e]
    exact mean_bounds (w := fun q => q.heaviside * q.JxW) (f := (·.u e))
      (fun q hq => mul_nonneg (hw q hq).2.1 (hw q hq).1) hb (lt_of_le_of_ne h0 (Ne.symm hne))
  · rw [← hx e]
    exact mean_bounds (w := fun q => q.heaviside * q.JxW) (f := (·.x e))
      (fun q hq => mul_nonneg (hw q hq).2.1 (hw q hq).1) hb (lt_of_le_of_ne h0 (Ne.symm hne))

end three

/-! ### Circularity and sphericity -/

/-- **C86 (circularity).** The reported circularity is one for the area and perimeter of a circle and does not change when
the bubble is scaled; by the isoperimetric inequality `4 π A ≤ P²` it is at most one. -/
theorem C86_circularity :
    (∀ r : ℝ, 0 < r → circularity (Real.pi * r ^ 2) (2 * Real.pi * r) = 1) ∧
    (∀ s A P : ℝ, 0 < s → circularity (s ^ 2 * A) (s * P) = circularity A P) ∧
    (∀ A P : ℝ, 0 < P → 4 * Real.pi * A ≤ P ^ 2 → circularity A P ≤ 1) := by
  refine ⟨fun r hr => ?_, fun s A P hs => ?_, fun A P hP h => ?_⟩
  · unfold circularity
    have hpi := Real.pi_pos
    rw [show Real.pi * r ^ 2 * Real.pi = (Real.pi * r) ^ 2 by ring, Real.sqrt_sq (by positivity)]
    field_simp
  · unfold circularity
    rw [mul_assoc, Real.sqrt_mul (by positivity), Real.sqrt_sq hs.le]
    by_cases hP : P = 0
    · simp [hP]
    · field_simp
  · unfold circularity
    rw [div_le_one hP]
    have : Real.sqrt (A * Real.pi) ≤ P / 2 := by
      rw [Real.sqrt_le_left (by positivity)]
      nlinarith
    linarith

/-- **C86 (sphericity).** One for the volume and the surface area of a ball, and invariant under scaling. -/
theorem C86_sphericity :
    (∀ r : ℝ, 0 < r → sphericity (4 / 3 * Real.pi * r ^ 3) (4 * Real.pi * r ^ 2) = 1) ∧
    (∀ s V A : ℝ, 0 < s → 0 ≤ V → sphericity (s ^ 3 * V) (s ^ 2 * A) = sphericity V A) := by
  have hpi := Real.pi_pos
  refine ⟨fun r hr => ?_, fun s V A hs hV => ?_⟩
  · unfold sphericity
    have h1 : (6 * (4 / 3 * Real.pi * r ^ 3)) = Real.pi * (2 * r) ^ 3 := by ring
    have h2 : ((2 * r) ^ 3 : ℝ) ^ (2 / 3 : ℝ) = (2 * r) ^ 2 := by
      rw [← Real.rpow_natCast, ← Real.rpow_natCast, ← Real.rpow_mul (by positivity)]; norm_num
    have h3 : Real.pi ^ (1 / 3 : ℝ) * Real.pi ^ (2 / 3 : ℝ) = Real.pi := by
      rw [← Real.rpow_add hpi]; norm_num
    rw [h1, Real.mul_rpow hpi.le (by positivity), h2, ← mul_assoc, h3]
    field_simp
    ring
  · unfold sphericity
    have h2 : (s ^ 3 : ℝ) ^ (2 / 3 : ℝ) = s ^ 2 := by
      rw [← Real.rpow_natCast, ← Real.rpow_natCast, ← Real.rpow_mul hs.le]; norm_num
    rw [show 6 * (s ^ 3 * V) = s ^ 3 * (6 * V) by ring, Real.mul_rpow (by positivity) (by positivity), h2]
    by_cases hA : A = 0
    · simp [hA]
    · field_simp

/-! ### What does not hold -/

/-- a norm on ℚ² for the examples -/
def l1 (v : Vec ℚ 2) : ℚ := |v 0| + |v 1|

/-- a single cut cell, one subdivision, with a saddle; unit square with corner weights 1/4 -/
def saddleCell : Cell ℚ where
  nDofs := 4
  dofs := ![1, -1, -1, 1] ∘ Fin.ofNat 4
  inner := [(1, ![1 / 2, 1 / 2], ![0, 0])]
  c := ![1, -1, -1, 1] ∘ Fin.ofNat 4
  JxW := fun _ => 1 / 4
  x := ![![0, 0], ![1, 0], ![0, 1], ![1, 1]] ∘ Fin.ofNat 4
  u := fun _ => ![0, 0]

/-- a cell inside of the bubble with area two -/
def innerCell : Cell ℚ where
  nDofs := 4
  dofs := fun _ => 1
  inner := [(2, ![3, 3], ![1, 1])]
  c := fun _ => 1
  JxW := fun _ => 1 / 2
  x := fun _ => ![3, 3]
  u := fun _ => ![1, 1]

/-- **C86, the excepted case.** With a saddle sub-cell the reported mean velocity leaves the range of the velocities read
(all are zero or one, the mean is two), and the perimeter counts four segments of which the caller only gets one. -/
theorem C86_saddle_counterexample :
    (∀ k ∈ [saddleCell, innerCell], Spec.PosWeights k) ∧
    (∀ k ∈ [saddleCell, innerCell], Spec.AllVel (fun v => (0 : Vec ℚ 2) ≤ v ∧ v ≤ 1) k) ∧
    statistics2 l1 (fun _ _ => 0) 0 1 0 [[saddleCell, innerCell]] = [0, 1, 4, 0, 2, 2, 11 / 2, 11 / 2] ∧
    Spec.total (Spec.segLength l1) (globalSums ([[saddleCell, innerCell]].map (rankSums l1 0 1))).points = 1 := by
  refine ⟨?_, ?_, by decide +kernel, by decide +kernel⟩
  · intro k hk
    simp only [List.mem_cons, List.not_mem_nil, or_false] at hk
    rcases hk with rfl | rfl <;> refine ⟨fun q => ?_, fun s hs => ?_⟩
    · simp [saddleCell]
    · simp only [saddleCell, List.mem_singleton] at hs; subst hs; norm_num
    · simp [innerCell]
    · simp only [innerCell, List.mem_singleton] at hs; subst hs; norm_num
  · intro k hk
    simp only [List.mem_cons, List.not_mem_nil, or_false] at hk
    rcases hk with rfl | rfl <;> refine ⟨fun q => ?_, fun s hs => ?_⟩
    · constructor <;> intro e <;> fin_cases e <;> simp [saddleCell]
    · simp only [saddleCell, List.mem_singleton] at hs; subst hs
      constructor <;> intro e <;> fin_cases e <;> simp
    · constructor <;> intro e <;> fin_cases e <;> simp [innerCell]
    · simp only [innerCell, List.mem_singleton] at hs; subst hs
      constructor <;> intro e <;> fin_cases e <;> simp

/-- **C86, printed centre of mass.** The printed coordinate is set to zero based on the integral instead of the mean: for
every true position `p` and every positive diameter of the domain there are bubbles whose centre is printed as zero. -/
theorem C86_printed_centre_depends_on_bubble_size (diameter p : K) (hd : 0 < diameter) :
    ∃ area : K, 0 < area ∧ printedCom diameter area (p * area) = 0 ∧ (p * area) / area = p := by
  refine ⟨1 / 10 ^ 8 * diameter / (|p| + 1), by positivity, ?_, ?_⟩
  · unfold printedCom
    rw [if_pos]
    have hp : 0 < |p| + 1 := by positivity
    rw [abs_mul, abs_of_pos (show 0 < 1 / 10 ^ 8 * diameter / (|p| + 1) by positivity), mul_div_assoc', div_lt_iff₀ hp]
    have := abs_nonneg p
    nlinarith [mul_nonneg this hd.le]
  · have : (1 / 10 ^ 8 * diameter / (|p| + 1)) ≠ 0 := by positivity
    field_simp

/-! Non-vacuity: a circle-like bubble on two processes -/

/-- a regular cut cell: one positive corner -/
def cornerCell : Cell ℚ where
  nDofs := 4
  dofs := ![1, -1, -1, -1] ∘ Fin.ofNat 4
  inner := []
  c := ![1, -1, -1, -1] ∘ Fin.ofNat 4
  JxW := fun _ => 1 / 4
  x := ![![0, 0], ![1, 0], ![0, 1], ![1, 1]] ∘ Fin.ofNat 4
  u := fun _ => ![1, 0]

example : statistics2 l1 (fun _ _ => 0) (1 / 10 ^ 22) 1 0 [[cornerCell], [], [innerCell]] =
    statistics2 l1 (fun _ _ => 0) (1 / 10 ^ 22) 1 0 [[innerCell, cornerCell]] := by decide +kernel
example : statistics2 l1 (fun _ _ => 0) 0 1 7 [[cornerCell], [], [innerCell]] =
    [7, 17 / 8, 1, 0, 1, 16 / 17, 97 / 34, 97 / 34] := by decide +kernel
example : Spec.NoSaddle 0 1 cornerCell := by
  intro _ d hd
  have : d = 0 := by omega
  subst this
  unfold Regular Spec.Saddle
  decide +kernel
example : Spec.Cut cornerCell := ⟨1, by decide, by decide, by decide +kernel⟩
example : interfaceCrosses innerCell = false := by decide +kernel
example : statistics3 (K := ℚ) (fun v => |v 0| + |v 1| + |v 2|) (fun _ _ => 0) 1
    [[⟨1 / 2, 1, ![0, 0, 0], ![1, 2, 3], ![1, 0, 0]⟩], [⟨1 / 2, 1 / 2, ![2, 0, 0], ![1, 2, 0], ![0, 0, 0]⟩]] =
    [1, 3 / 4, 1 / 2, 2 / 3, 0, 0, 1, 2, 2, 0] := by decide +kernel

end Verif.Bubble
