import Mathlib.Algebra.Order.Field.Basic
import Mathlib.Algebra.Order.Ring.Rat
import Mathlib.Data.List.MinMax
import Mathlib.Tactic.Linarith
import Mathlib.Tactic.NormNum

/-!
# C39: marking of cells for refinement and coarsening
(source/two_phase_base.cc:324-391, source/level_set_base.cc:294-412, source/phase_field.cc:475-521)
-/

namespace Verif.Mesh

variable {K : Type*} [Field K] [LinearOrder K] [IsStrictOrderedRing K]

/-! ## Model -/

/-- What the marking functions see and modify of one locally owned active cell. The indicators are abstract numbers:
`err` is `error_per_cell` (two_phase_base.cc:342) resp. `max_distance` (phase_field.cc:498-504); `dist` and `modDist` are
`distance` and `mod_distance` (level_set_base.cc:394-399). Simplification: the indicators are finite numbers
(in the code `distance` is the logarithm of a possibly zero number). -/
structure Cell (K : Type*) where
  level : ℤ
  err : K
  dist : K
  modDist : K
  /-- some face is at the boundary, two_phase_base.cc:370-372 -/
  atBoundary : Bool
  refineFlag : Bool
  coarsenFlag : Bool
  deriving DecidableEq

/-- Run parameters: `refine_lower_level_limit`, `adaptive_refinements`, current step number, `h_to_3`. -/
structure Ctx (K : Type*) where
  lower : ℤ
  adaptive : ℕ
  stepNo : ℕ
  hTo3 : K

def Ctx.upper (p : Ctx K) : ℤ := p.adaptive + p.lower

/-- the flags a loop body ends with: both cleared at the beginning, then `set_refine_flag` / `set_coarsen_flag` -/
def Cell.flag (c : Cell K) (refine coarsen : Bool) : Cell K :=
  let c := { c with coarsenFlag := false, refineFlag := false }
  if refine then { c with refineFlag := true } else if coarsen then { c with coarsenFlag := true } else c

/-- loop body of TwoPhaseBaseAlgorithm::mark_cells_for_refinement, two_phase_base.cc:361-385 -/
def markBase (p : Ctx K) (c : Cell K) : Cell K :=
  let refine := decide (c.level < p.upper ∧ c.err > 3 / 10 * p.hTo3)
  let refine := if c.atBoundary then false else refine
  c.flag refine (c.level > p.lower ∧ c.err < 1 / 10 * p.hTo3)

/-- loop body of PhaseFieldSolver::mark_cells_for_refinement, phase_field.cc:493-518 -/
def markPhaseField (p : Ctx K) (c : Cell K) : Cell K :=
  c.flag (c.level < p.upper ∧ c.err > 1 / 100) (c.level > p.lower ∧ c.err < 1 / 100)

/-- body of the first loop of LevelSetBaseAlgorithm::mark_cells_for_refinement, level_set_base.cc:353-360: this cell
triggers the remeshing -/
def trigger (p : Ctx K) (c : Cell K) : Bool :=
  (c.level < p.upper ∧ c.dist > -(7 / 2)) ∨ (p.stepNo = 0 ∧ c.level > p.lower ∧ c.dist < -8)

/-- body of the second loop, level_set_base.cc:373-409 -/
def markLevelSet (p : Ctx K) (c : Cell K) : Cell K :=
  c.flag (c.level < p.upper ∧ (c.modDist > -7 ∨ c.dist > -4)) (c.level > p.lower ∧ (c.modDist < -8 ∨ c.dist < -5))

/-- maximum over all ranks of a flag sent as unsigned integer, converted back to bool
(`Utilities::MPI::max`, two_phase_base.cc:386-388, phase_field.cc:519-521, level_set_base.cc:362-364) -/
def mpiMaxBool (flags : List Bool) : Bool := (flags.map Bool.toNat).foldr max 0 != 0

/-- Result of a marking call: the cells of every rank and the value returned on (every) rank. -/
structure Marked (K : Type*) where
  ranks : List (List (Cell K))
  result : Bool

/-- TwoPhaseBase / PhaseField: early exit, then mark all cells; `must_refine` is set whenever a flag is set. -/
def markSimple (body : Ctx K → Cell K → Cell K) (p : Ctx K) (ranks : List (List (Cell K))) : Marked K :=
  if p.adaptive = 0 ∨ p.stepNo % 5 ≠ 0 then ⟨ranks, false⟩
  else
    let new := ranks.map fun cells => cells.map (body p)
    ⟨new, mpiMaxBool (new.map fun cells => cells.any fun c => c.refineFlag || c.coarsenFlag)⟩

/-- The first loop of LevelSetBase clears the flags of the cells it visits and stops at the first trigger. -/
def probe (p : Ctx K) : List (Cell K) → List (Cell K) × Bool
  | [] => ([], false)
  | c :: l =>
    let c' := { c with coarsenFlag := false, refineFlag := false }
    if trigger p c then (c' :: l, true) else let r := probe p l; (c' :: r.1, r.2)

/-- LevelSetBaseAlgorithm::mark_cells_for_refinement, level_set_base.cc:297-412 -/
def markLS (p : Ctx K) (ranks : List (List (Cell K))) : Marked K :=
  if p.adaptive = 0 then ⟨ranks, false⟩
  else
    let probed := ranks.map (probe p)
    if mpiMaxBool (probed.map (·.2)) = false then ⟨probed.map (·.1), false⟩
    else ⟨probed.map fun r => r.1.map (markLevelSet p), true⟩

/-! ## Specification -/

namespace Spec

/-- a legal combination of flags on a cell -/
def Legal (p : Ctx K) (c : Cell K) : Prop :=
  ¬ (c.refineFlag = true ∧ c.coarsenFlag = true) ∧ (c.refineFlag = true → c.level < p.lower + p.adaptive) ∧
  (c.coarsenFlag = true → p.lower < c.level)

/-- some cell on some rank carries a flag -/
def SomeFlag (ranks : List (List (Cell K))) : Prop :=
  ∃ cells ∈ ranks, ∃ c ∈ cells, c.refineFlag = true ∨ c.coarsenFlag = true

end Spec

/-! ## Proofs -/

theorem mpiMaxBool_iff (l : List Bool) : mpiMaxBool l = true ↔ true ∈ l := by
  unfold mpiMaxBool
  induction l with
  | nil => simp
  | cons b l ih =>
    cases b
    · simpa using ih
    · simp only [List.map_cons, List.foldr_cons, Bool.toNat_true, List.mem_cons, true_or, iff_true, bne_iff_ne]
      omega

omit [LinearOrder K] [IsStrictOrderedRing K] [Field K] in
theorem flag_refine (c : Cell K) (r s : Bool) : (c.flag r s).refineFlag = r ∧ (c.flag r s).coarsenFlag = (!r && s) ∧
    (c.flag r s).level = c.level := by
  cases r <;> cases s <;> simp [Cell.flag]

omit [IsStrictOrderedRing K] in
theorem legal_flag (p : Ctx K) (c : Cell K) (r s : Bool) (hr : r = true → c.level < p.upper)
    (hs : s = true → c.level > p.lower) : Spec.Legal p (c.flag r s) := by
  obtain ⟨h1, h2, h3⟩ := flag_refine c r s
  unfold Spec.Legal
  rw [h1, h2, h3]
  refine ⟨by cases r <;> simp, fun h => ?_, fun h => ?_⟩
  · have := hr h; unfold Ctx.upper at this; linarith
  · simp only [Bool.and_eq_true] at h; exact hs h.2

omit [IsStrictOrderedRing K] in
/-- **C39 (flags).** In all three variants, for all indicator values and levels, no cell gets both flags, no cell at
(or above) the maximal level is flagged for refinement and none at (or below) the base level for coarsening; the level
of the cell is not touched. -/
theorem C39_flags_legal (p : Ctx K) (c : Cell K) :
    Spec.Legal p (markBase p c) ∧ Spec.Legal p (markPhaseField p c) ∧ Spec.Legal p (markLevelSet p c) ∧
    (markBase p c).level = c.level ∧ (markPhaseField p c).level = c.level ∧ (markLevelSet p c).level = c.level := by
  refine ⟨?_, ?_, ?_, (flag_refine _ _ _).2.2, (flag_refine _ _ _).2.2, (flag_refine _ _ _).2.2⟩
  · apply legal_flag
    · intro h
      by_cases hb : c.atBoundary
      · simp [hb] at h
      · simp only [hb] at h; exact (of_decide_eq_true h).1
    · intro h; exact (of_decide_eq_true h).1
  · apply legal_flag <;> intro h <;> exact (of_decide_eq_true h).1
  · apply legal_flag <;> intro h <;> exact (of_decide_eq_true h).1

omit [IsStrictOrderedRing K] in
/-- **C39 (decision).** Which cells are flagged: the base class refines interior cells with an error above `0.3 h³` and
coarsens cells below `0.1 h³`; the phase field refines above and coarsens below `0.01`; the level set refines cells whose
interface distance (in units of the interface width) exceeds `-4`, or `-7` upstream, and coarsens cells beyond `-5` or `-8`. -/
theorem C39_decision (p : Ctx K) (c : Cell K) :
    ((markBase p c).refineFlag = true ↔ c.level < p.lower + p.adaptive ∧ 3 / 10 * p.hTo3 < c.err ∧ c.atBoundary = false) ∧
    ((markBase p c).coarsenFlag = true ↔ p.lower < c.level ∧ c.err < 1 / 10 * p.hTo3 ∧ (markBase p c).refineFlag = false) ∧
    ((markPhaseField p c).refineFlag = true ↔ c.level < p.lower + p.adaptive ∧ 1 / 100 < c.err) ∧
    ((markPhaseField p c).coarsenFlag = true ↔ p.lower < c.level ∧ c.err < 1 / 100) ∧
    ((markLevelSet p c).refineFlag = true ↔ c.level < p.lower + p.adaptive ∧ (-4 < c.dist ∨ -7 < c.modDist)) ∧
    ((markLevelSet p c).coarsenFlag = true ↔
      p.lower < c.level ∧ (c.dist < -5 ∨ c.modDist < -8) ∧ (markLevelSet p c).refineFlag = false) := by
  have hu : p.upper = p.lower + p.adaptive := by unfold Ctx.upper; exact add_comm _ _
  obtain ⟨a1, a2, -⟩ := flag_refine c (if c.atBoundary then false else decide (c.level < p.upper ∧ c.err > 3 / 10 * p.hTo3))
    (c.level > p.lower ∧ c.err < 1 / 10 * p.hTo3)
  obtain ⟨b1, b2, -⟩ := flag_refine c (c.level < p.upper ∧ c.err > 1 / 100) (c.level > p.lower ∧ c.err < 1 / 100)
  obtain ⟨d1, d2, -⟩ := flag_refine c (c.level < p.upper ∧ (c.modDist > -7 ∨ c.dist > -4))
    (c.level > p.lower ∧ (c.modDist < -8 ∨ c.dist < -5))
  refine ⟨?_, ?_, ?_, ?_, ?_, ?_⟩
  · unfold markBase
    simp only
    rw [a1, hu]
    cases c.atBoundary <;> simp [gt_iff_lt]
  · unfold markBase
    simp only
    rw [a1, a2]
    simp only [Bool.and_eq_true, Bool.not_eq_true', decide_eq_true_eq, gt_iff_lt]
    tauto
  · unfold markPhaseField
    rw [b1, hu]; simp [gt_iff_lt]
  · unfold markPhaseField
    rw [b2]
    simp only [Bool.and_eq_true, Bool.not_eq_true', decide_eq_true_eq, decide_eq_false_iff_not, gt_iff_lt, not_and, not_lt]
    constructor
    · rintro ⟨-, h⟩; exact h
    · rintro h; exact ⟨fun _ => h.2.le, h⟩
  · unfold markLevelSet
    rw [d1, hu]; simp [gt_iff_lt, or_comm]
  · unfold markLevelSet
    rw [d1, d2]
    simp only [Bool.and_eq_true, Bool.not_eq_true', decide_eq_true_eq, gt_iff_lt]
    tauto

omit [IsStrictOrderedRing K] in
/-- **C39 (return value, TwoPhaseBase and PhaseField).** When marking is active (adaptive refinement switched on, step
number divisible by five) the returned value is true iff some cell on some rank is flagged; otherwise nothing is
modified and false is returned. -/
theorem C39_result_simple (body : Ctx K → Cell K → Cell K) (p : Ctx K) (ranks : List (List (Cell K))) :
    (p.adaptive ≠ 0 → p.stepNo % 5 = 0 →
      ((markSimple body p ranks).result = true ↔ Spec.SomeFlag (markSimple body p ranks).ranks) ∧
      (markSimple body p ranks).ranks = ranks.map fun cells => cells.map (body p)) ∧
    (p.adaptive = 0 ∨ p.stepNo % 5 ≠ 0 → markSimple body p ranks = ⟨ranks, false⟩) := by
  constructor
  · intro ha hs
    unfold markSimple
    rw [if_neg (by tauto)]
    refine ⟨?_, rfl⟩
    rw [mpiMaxBool_iff]
    rw [List.mem_map]
    constructor
    · rintro ⟨cells, hc, h⟩
      obtain ⟨c, hcm, hf⟩ := List.any_eq_true.1 h
      exact ⟨cells, hc, c, hcm, by simpa using hf⟩
    · rintro ⟨cells, hc, c, hcm, hf⟩
      exact ⟨cells, hc, List.any_eq_true.2 ⟨c, hcm, by simpa using hf⟩⟩
  · intro h; unfold markSimple; rw [if_pos h]

/-- levels and indicators of a cell (everything but the flags) -/
def Cell.SameData (c d : Cell K) : Prop :=
  c.level = d.level ∧ c.err = d.err ∧ c.dist = d.dist ∧ c.modDist = d.modDist ∧ c.atBoundary = d.atBoundary

omit [IsStrictOrderedRing K] in
theorem probe_trigger (p : Ctx K) (cells : List (Cell K)) :
    (probe p cells).2 = true ↔ ∃ c ∈ cells, trigger p c = true := by
  induction cells with
  | nil => simp [probe]
  | cons c l ih =>
    unfold probe
    by_cases h : trigger p c = true
    · simp [h]
    · simp only [h, Bool.false_eq_true, if_false]
      rw [ih]; simp [h]

omit [IsStrictOrderedRing K] in
theorem probe_mark (p : Ctx K) (cells : List (Cell K)) :
    (probe p cells).1.map (markLevelSet p) = cells.map (markLevelSet p) := by
  induction cells with
  | nil => simp [probe]
  | cons c l ih =>
    unfold probe
    by_cases h : trigger p c = true
    · simp [h, markLevelSet, Cell.flag]
    · simp only [h, Bool.false_eq_true, if_false, List.map_cons, ih]
      simp [markLevelSet, Cell.flag]

omit [IsStrictOrderedRing K] in
theorem probe_noTrigger (p : Ctx K) (cells : List (Cell K)) (h : (probe p cells).2 = false) :
    ∀ c ∈ (probe p cells).1, c.refineFlag = false ∧ c.coarsenFlag = false := by
  induction cells with
  | nil => simp [probe]
  | cons c l ih =>
    unfold probe at h ⊢
    by_cases ht : trigger p c = true
    · simp [ht] at h
    · simp only [ht, Bool.false_eq_true, if_false] at h ⊢
      intro d hd
      rcases List.mem_cons.1 hd with rfl | hd
      · simp
      · exact ih h d hd

/-- a triggering cell gets a flag in the second loop -/
theorem trigger_flag (p : Ctx K) (c : Cell K) (h : trigger p c = true) :
    (markLevelSet p c).refineFlag = true ∨ (markLevelSet p c).coarsenFlag = true := by
  unfold markLevelSet
  obtain ⟨h1, h2, _⟩ := flag_refine c (decide (c.level < p.upper ∧ (c.modDist > -7 ∨ c.dist > -4)))
    (decide (c.level > p.lower ∧ (c.modDist < -8 ∨ c.dist < -5)))
  rw [h1, h2]
  unfold trigger at h
  simp only [decide_eq_true_eq] at h
  by_cases hr : c.level < p.upper ∧ (c.modDist > -7 ∨ c.dist > -4)
  · left; simpa using hr
  · right
    simp only [hr, decide_false, Bool.not_false, Bool.true_and, decide_eq_true_eq]
    rcases h with ⟨h1, h2⟩ | ⟨_, h1, h2⟩
    · exact absurd ⟨h1, .inr (by linarith)⟩ hr
    · exact ⟨h1, .inr (by linarith)⟩

/-- **C39 (return value, LevelSet).** With adaptive refinement on, the returned value is the same on all ranks; it is true
iff on some rank there is a cell that is nearer to the interface than the threshold `-3.5` and not yet of the finest level, or
- in the first step only - one farther than `-8` and not of the coarsest level; in that case all ranks mark all their cells and
at least one cell is flagged somewhere; if it is false no cell carries a flag. -/
theorem C39_result_level_set (p : Ctx K) (hp : p.adaptive ≠ 0) (ranks : List (List (Cell K))) :
    ((markLS p ranks).result = true ↔ ∃ cells ∈ ranks, ∃ c ∈ cells,
      (c.level < p.upper ∧ -(7 / 2) < c.dist) ∨ (p.stepNo = 0 ∧ p.lower < c.level ∧ c.dist < -8)) ∧
    ((markLS p ranks).result = true →
      (markLS p ranks).ranks = (ranks.map fun cells => cells.map (markLevelSet p)) ∧
      Spec.SomeFlag (markLS p ranks).ranks) ∧
    ((markLS p ranks).result = false → ¬ Spec.SomeFlag (markLS p ranks).ranks) := by
  have hspec : ∀ c : Cell K, ((c.level < p.upper ∧ -(7 / 2) < c.dist) ∨
      (p.stepNo = 0 ∧ p.lower < c.level ∧ c.dist < -8)) ↔ trigger p c = true := fun c => by simp [trigger]
  simp only [hspec]
  have htrig : mpiMaxBool ((ranks.map (probe p)).map (·.2)) = true ↔ ∃ cells ∈ ranks, ∃ c ∈ cells, trigger p c = true := by
    rw [mpiMaxBool_iff, List.map_map, List.mem_map]
    simp only [Function.comp]
    constructor
    · rintro ⟨cells, hc, h⟩; exact ⟨cells, hc, (probe_trigger p cells).1 h⟩
    · rintro ⟨cells, hc, h⟩; exact ⟨cells, hc, (probe_trigger p cells).2 h⟩
  unfold markLS
  rw [if_neg hp]
  dsimp only
  by_cases h : mpiMaxBool ((ranks.map (probe p)).map (·.2)) = true
  · have hn : ¬ mpiMaxBool ((ranks.map (probe p)).map (·.2)) = false := by rw [h]; simp
    rw [if_neg hn]
    refine ⟨⟨fun _ => htrig.1 h, fun _ => rfl⟩, fun _ => ⟨?_, ?_⟩, fun h' => by simp at h'⟩
    · rw [List.map_map]; apply List.map_congr_left; intro cells _
      exact probe_mark p cells
    · obtain ⟨cells, hc, c, hcm, ht⟩ := htrig.1 h
      refine ⟨cells.map (markLevelSet p), ?_, markLevelSet p c, List.mem_map_of_mem hcm, trigger_flag p c ht⟩
      rw [List.map_map, List.mem_map]
      exact ⟨cells, hc, probe_mark p cells⟩
  · have hf : mpiMaxBool ((ranks.map (probe p)).map (·.2)) = false := by simpa using h
    rw [if_pos hf]
    refine ⟨⟨fun h' => by simp at h', fun h' => absurd (htrig.2 h') h⟩, fun h' => by simp at h', fun _ => ?_⟩
    rintro ⟨cells', hc', c, hcm, hflag⟩
    rw [List.map_map, List.mem_map] at hc'
    obtain ⟨cells, hc, rfl⟩ := hc'
    have hno : (probe p cells).2 = false := by
      by_contra hne
      have : (probe p cells).2 = true := by simpa using hne
      exact h (htrig.2 ⟨cells, hc, (probe_trigger p cells).1 this⟩)
    have := probe_noTrigger p cells hno c hcm
    rw [this.1, this.2] at hflag; simp at hflag

/-! ## Adaptation histories -/

/-- What one call of `triangulation.execute_coarsening_and_refinement` may do to the levels of the active cells
(deal.II, specified not modelled): every new active cell is an old one, a child of a cell flagged for refinement, the
parent of a cell flagged for coarsening, or a child of an old cell that is refined to keep the level difference between
neighbours small, in which case a cell of higher level than the child exists in the new mesh. -/
structure Executed (old : List (Cell K)) (new : List ℤ) : Prop where
  origin : ∀ l ∈ new, (∃ c ∈ old, l = c.level) ∨ (∃ c ∈ old, c.refineFlag = true ∧ l = c.level + 1) ∨
    (∃ c ∈ old, c.coarsenFlag = true ∧ l = c.level - 1) ∨ (∃ c ∈ old, l = c.level + 1 ∧ ∃ l' ∈ new, l < l')

/-- One `refine_grid` call: marking with any of the three loop bodies (the indicators are arbitrary), or none, then
execution. -/
inductive RefineStep (p : Ctx K) (old new : List ℤ) : Prop
  | mk (cells : List (Cell K)) (stepNo : ℕ) (hTo3 : K) (body : Ctx K → Cell K → Cell K)
      (hbody : body = markBase ∨ body = markPhaseField ∨ body = markLevelSet)
      (hcells : cells.map (·.level) = old)
      (hexec : Executed (cells.map (body { p with stepNo := stepNo, hTo3 := hTo3 })) new)

/-- levels reachable by any number of adaptations -/
inductive Reachable (p : Ctx K) (init : List ℤ) : List ℤ → Prop
  | start : Reachable p init init
  | step {a b : List ℤ} : Reachable p init a → RefineStep p a b → Reachable p init b

theorem exists_max_mem {l : List ℤ} {a : ℤ} (h : a ∈ l) : ∃ m ∈ l, a ≤ m ∧ ∀ b ∈ l, b ≤ m := by
  induction l generalizing a with
  | nil => simp at h
  | cons x l ih =>
    rcases l with _ | ⟨y, l⟩
    · simp only [List.mem_singleton] at h; subst h; exact ⟨a, by simp, le_rfl, by simp⟩
    · obtain ⟨m, hm, _, hmax⟩ := ih (a := y) (by simp)
      by_cases hx : x ≤ m
      · refine ⟨m, List.mem_cons_of_mem _ hm, ?_, ?_⟩
        · rcases List.mem_cons.1 h with rfl | h
          · exact hx
          · exact hmax a h
        · intro b hb; rcases List.mem_cons.1 hb with rfl | hb
          · exact hx
          · exact hmax b hb
      · refine ⟨x, by simp, ?_, ?_⟩
        · rcases List.mem_cons.1 h with rfl | h
          · exact le_rfl
          · have := hmax a h; omega
        · intro b hb; rcases List.mem_cons.1 hb with rfl | hb
          · exact le_rfl
          · have := hmax b hb; omega

omit [IsStrictOrderedRing K] in
theorem step_bounds {p : Ctx K} {old new : List ℤ} (h : RefineStep p old new) (base : ℤ) (hb : base ≤ p.lower)
    (ho : ∀ l ∈ old, base ≤ l ∧ l ≤ p.lower + p.adaptive) : ∀ l ∈ new, base ≤ l ∧ l ≤ p.lower + p.adaptive := by
  obtain ⟨cells, stepNo, hTo3, body, hbody, hcells, hexec⟩ := h
  set q : Ctx K := { p with stepNo := stepNo, hTo3 := hTo3 } with hq
  have hlegal : ∀ c : Cell K, Spec.Legal q (body q c) ∧ (body q c).level = c.level := by
    intro c
    obtain ⟨h1, h2, h3, h4, h5, h6⟩ := C39_flags_legal q c
    rcases hbody with rfl | rfl | rfl
    · exact ⟨h1, h4⟩
    · exact ⟨h2, h5⟩
    · exact ⟨h3, h6⟩
  have hold : ∀ c ∈ cells.map (body q), Spec.Legal q c ∧ base ≤ c.level ∧ c.level ≤ p.lower + p.adaptive := by
    intro c hc
    obtain ⟨c0, hc0, rfl⟩ := List.mem_map.1 hc
    rw [(hlegal c0).2]
    exact ⟨(hlegal c0).1, ho _ (by rw [← hcells]; exact List.mem_map_of_mem hc0)⟩
  intro l hl
  constructor
  · rcases hexec.origin l hl with ⟨c, hc, rfl⟩ | ⟨c, hc, _, rfl⟩ | ⟨c, hc, hf, rfl⟩ | ⟨c, hc, rfl, _⟩
    · exact (hold c hc).2.1
    · have := (hold c hc).2.1; omega
    · have h1 := (hold c hc).1.2.2 hf
      have : p.lower < c.level := h1
      omega
    · have := (hold c hc).2.1; omega
  · obtain ⟨m, hm, hlm, hmax⟩ := exists_max_mem hl
    refine le_trans hlm ?_
    rcases hexec.origin m hm with ⟨c, hc, rfl⟩ | ⟨c, hc, hf, rfl⟩ | ⟨c, hc, _, rfl⟩ | ⟨c, hc, rfl, l', hl', hlt⟩
    · exact (hold c hc).2.2
    · have h1 := (hold c hc).1.2.1 hf
      have : c.level < p.lower + p.adaptive := h1
      omega
    · have := (hold c hc).2.2; omega
    · have := hmax l' hl'; omega

omit [IsStrictOrderedRing K] in
/-- **C39 (levels).** Start from a mesh whose finest level is `refine_lower_level_limit = n_levels - 1` and whose coarsest
active level is `base`. After any history of adaptations, with any of the three marking functions, arbitrary indicators
and arbitrary additional balancing refinement, all levels lie in `[base, lower + adaptive_refinements]`. -/
theorem C39_levels_bounded {p : Ctx K} {init levels : List ℤ} (h : Reachable p init levels) (base : ℤ)
    (hb : base ≤ p.lower) (hi : ∀ l ∈ init, base ≤ l ∧ l ≤ p.lower) :
    ∀ l ∈ levels, base ≤ l ∧ l ≤ p.lower + p.adaptive := by
  induction h with
  | start => intro l hl; have := hi l hl; omega
  | step _ hs ih => exact step_bounds hs base hb ih

/-! ## Non-vacuity -/

def exCtx : Ctx ℚ := ⟨2, 1, 5, 1⟩
def exFine : Cell ℚ := ⟨2, 1, -1, -1, false, false, true⟩
def exCoarse : Cell ℚ := ⟨3, 0, -9, -9, true, true, false⟩

example : (markBase exCtx exFine).refineFlag = true ∧ (markBase exCtx exCoarse).coarsenFlag = true ∧
    (markPhaseField exCtx exFine).refineFlag = true ∧ (markLevelSet exCtx exCoarse).coarsenFlag = true := by decide +kernel
example : (markSimple markBase exCtx [[], [exFine]]).result = true ∧ (markLS exCtx [[exCoarse], [exFine]]).result = true ∧
    (markLS exCtx [[exCoarse]]).result = false := by decide +kernel

/-- a history: a cell of level 2 is refined to four cells of level 3 while its neighbour stays -/
example : Reachable exCtx [2, 2] [3, 3, 3, 3, 2] := by
  refine .step .start ⟨[exFine, { exFine with err := 0, dist := -9, modDist := -9 }], 5, 1, markPhaseField, by simp, rfl, ⟨?_⟩⟩
  intro l hl
  simp only [List.mem_cons, List.not_mem_nil, or_false] at hl
  have h1 : (markPhaseField ({ exCtx with stepNo := 5, hTo3 := 1 } : Ctx ℚ) exFine).refineFlag = true ∧
    (3 : ℤ) = (markPhaseField ({ exCtx with stepNo := 5, hTo3 := 1 } : Ctx ℚ) exFine).level + 1 := by decide +kernel
  rcases hl with rfl | rfl | rfl | rfl | rfl
  · exact .inr (.inl ⟨_, List.mem_cons_self, h1.1, h1.2⟩)
  · exact .inr (.inl ⟨_, List.mem_cons_self, h1.1, h1.2⟩)
  · exact .inr (.inl ⟨_, List.mem_cons_self, h1.1, h1.2⟩)
  · exact .inr (.inl ⟨_, List.mem_cons_self, h1.1, h1.2⟩)
  · exact .inl ⟨_, List.mem_cons_self, by linarith [h1.2]⟩

end Verif.Mesh
