import Verif.Time.Stepping
import Verif.Time.Tick
import Verif.Output.Theorems
import Mathlib.Logic.Function.Basic
import Mathlib.Algebra.Order.Floor.Ring
import Mathlib.Data.List.Sort

/-!
# C97: the statistics file of the two-phase application
(applications/micro_particle.cc:467-528; source/two_phase_base.cc:892-902, 1079-1090 (columns), 594-619 (step request made by
the statistics))

The numbers written per time step are an arbitrary value `x k : R` next to the time. `d k` is the step size requested by the
`k`-th evaluation of the statistics (set_adaptive_time_step), arbitrary.
-/

set_option linter.unusedSectionVars false

namespace Verif.App

open Verif.Time Verif.Output

variable {K : Type*} [Field K] [LinearOrder K] [FloorRing K] {R : Type*}

/-! ### Model -/

/-- A line of the file: the header (micro_particle.cc:504-507) or the statistics of a time step (lines 508-514). -/
inductive Line (K R : Type*)
  | header
  | row (time : K) (x : R)
  deriving DecidableEq

/-- Parameters used for the name (lines 496-499) and the output frequency. -/
structure Cfg (K : Type*) where
  base : List Char
  adaptive : ℕ
  global : ℕ
  freq : K

/-- The program state: time stepping, `solution_data`, `first_output`, the file system. -/
structure World (K R : Type*) where
  ts : TS K
  data : List (K × R)
  first : Bool
  files : List Char → List (Line K R)

/-- `const int time_step = 1.000001e4 * max_step_size()`, micro_particle.cc:492-493 (conversion to an unsigned number in
`int_to_string`; step sizes are positive). -/
def timeStepNumber (t : TS K) : ℕ := (truncInt ((1 + 1 / 10 ^ 6) * 10 ^ 4 * t.maxStep)).toNat

/-- `filename3`, micro_particle.cc:495-499. -/
def fileName (cfg : Cfg K) (t : TS K) : List Char :=
  cfg.base ++ ['-'] ++ intToString cfg.adaptive 0 ++ ['-'] ++ intToString cfg.global 0 ++ ['-'] ++
    intToString (timeStepNumber t) 4 ++ ".txt".toList

/-- `compute_bubble_statistics` and `push_back` (lines 471-472, 484): the statistics request a step size
(two_phase_base.cc:863, 1049) and carry the current time in the first column. -/
def pushStatistics (d : K) (x : R) (w : World K R) : World K R :=
  { w with ts := w.ts.setDesired d, data := w.data ++ [(w.ts.now, x)] }

/-- The lines written for the collected data, lines 504-514. -/
def linesOf (first : Bool) (data : List (K × R)) : List (Line K R) :=
  (if first then [Line.header] else []) ++ data.map fun r => Line.row r.1 r.2

/-- Lines 486-519: write and clear the data. `std::ios::out` truncates the file, `std::ios::app` appends. -/
def writeLog (cfg : Cfg K) (rank : ℕ) (w : World K R) : World K R :=
  if 0 < w.data.length ∧ rank = 0 ∧ w.ts.atTick cfg.freq = true then
    let f := fileName cfg w.ts
    { w with
      files := Function.update w.files f ((if w.first then [] else w.files f) ++ linesOf w.first w.data)
      data := []
      first := false }
  else w

/-- Body of the time loop, lines 478-521 (`advance_time_step` advances the time; solving, graphical output and mesh refinement do
not change the state modelled here). -/
def round (cfg : Cfg K) (rank : ℕ) (d : K) (x : R) (w : World K R) : World K R :=
  writeLog cfg rank (pushStatistics d x { w with ts := w.ts.next })

/-- `run`, lines 467-522, after at most `n` rounds of the loop. -/
def runLog (cfg : Cfg K) (rank : ℕ) (p : Params K) (d : ℕ → K) (x : ℕ → R) (files : List Char → List (Line K R)) : ℕ → World K R
  | 0 => pushStatistics (d 0) (x 0) ⟨TS.ctor p, [], true, files⟩
  | n + 1 =>
    let w := runLog cfg rank p d x files n
    if w.ts.atEnd then w else round cfg rank (d (n + 1)) (x (n + 1)) w

/-! ### Columns -/

/-- Quantities in the columns. `size` is area or volume of the particle, `boundary` its perimeter or surface, `roundness` the
circularity or sphericity. -/
inductive Quantity
  | time | size | boundary | roundness | velocity (d : ℕ) | position (d : ℕ)
  deriving DecidableEq

/-- Header, micro_particle.cc:506. -/
def headerColumns : List Quantity :=
  [.time, .size, .boundary, .roundness, .velocity 0, .velocity 1, .position 0, .position 1]

/-- `data` for two dimensions, two_phase_base.cc:893-902 (assignments by index). -/
def columns2 : List Quantity :=
  let dim := 2
  let data : List Quantity := List.replicate (4 + 2 * dim) .time
  let data := (((data.set 0 .time).set 1 .size).set 2 .boundary).set 3 .roundness
  let data := (List.range dim).foldl (fun a i => a.set (4 + i) (.velocity i)) data
  (List.range dim).foldl (fun a i => a.set (4 + dim + i) (.position i)) data

/-- `data` of the general version (three dimensions), two_phase_base.cc:1079-1088. -/
def columns3 : List Quantity :=
  let dim := 3
  let data : List Quantity := List.replicate (4 + 2 * dim) .time
  let data := ((data.set 0 .time).set 1 .size).set 2 .boundary
  let data := (List.range dim).foldl (fun a i => a.set (3 + i) (.velocity i)) data
  let data := (List.range dim).foldl (fun a i => a.set (3 + dim + i) (.position i)) data
  data.set (3 + dim + dim) .roundness

/-! ### Specification -/

namespace Spec

/-- The time after `k` time steps (the driver loop of C03 with these step requests). -/
def timeAt (p : Params K) (d : ℕ → K) (k : ℕ) : K := (driverLoop (TS.ctor p) (fun i => some (d i)) k).now

/-- All statistics up to time step `m`: one row per time step, in order. -/
def history (p : Params K) (d : ℕ → K) (x : ℕ → R) (m : ℕ) : List (K × R) := (List.range (m + 1)).map fun k => (timeAt p d k, x k)

/-- A log with a header and these rows. -/
def logWith (rows : List (K × R)) : List (Line K R) := .header :: rows.map fun r => .row r.1 r.2

/-- `m` time steps have been done when the loop was given `n` rounds: all of them, or the final time is reached. -/
def Steps (p : Params K) (d : ℕ → K) (n m : ℕ) : Prop :=
  m ≤ n ∧ (∀ k < m, (driverLoop (TS.ctor p) (fun i => some (d i)) k).atEnd = false) ∧
    (m = n ∨ (driverLoop (TS.ctor p) (fun i => some (d i)) m).atEnd = true)

end Spec

/-! ### Proofs -/

variable [IsStrictOrderedRing K]

/-- invariant of the loop after `m` steps -/
structure LogInv (cfg : Cfg K) (p : Params K) (d : ℕ → K) (x : ℕ → R) (files0 : List Char → List (Line K R)) (m : ℕ)
    (w : World K R) : Prop where
  hts : w.ts = (driverLoop (TS.ctor p) (fun i => some (d i)) m).setDesired (d m)
  hdata : ∃ written, Spec.history p d x m = written ++ w.data ∧
    (w.first = true → written = [] ∧ w.files = files0) ∧
    (w.first = false → w.files = Function.update files0 (fileName cfg (TS.ctor p)) (Spec.logWith written)) ∧
    (m ≠ 0 → w.ts.atTick cfg.freq = true → w.data = [] ∧ w.first = false)

theorem driverLoop_maxStep (p : Params K) (d : ℕ → Option K) (n : ℕ) : (driverLoop (TS.ctor p) d n).maxStep = p.stepMax := by
  induction n with
  | zero => rfl
  | succ n ih =>
    simp only [driverLoop]
    split
    · exact ih
    · cases d n <;> exact ih

theorem fileName_congr (cfg : Cfg K) {s t : TS K} (h : s.maxStep = t.maxStep) : fileName cfg s = fileName cfg t := by
  unfold fileName timeStepNumber; rw [h]

theorem history_succ (p : Params K) (d : ℕ → K) (x : ℕ → R) (m : ℕ) :
    Spec.history p d x (m + 1) = Spec.history p d x m ++ [(Spec.timeAt p d (m + 1), x (m + 1))] := by
  unfold Spec.history
  rw [List.range_succ (n := m + 1), List.map_append, List.map_singleton]

theorem driverLoop_succ (p : Params K) (d : ℕ → K) (m : ℕ)
    (h : (driverLoop (TS.ctor p) (fun i => some (d i)) m).atEnd = false) :
    driverLoop (TS.ctor p) (fun i => some (d i)) (m + 1)
      = ((driverLoop (TS.ctor p) (fun i => some (d i)) m).setDesired (d m)).next := by
  simp only [driverLoop, h, Bool.false_eq_true, if_false]

theorem logInv_round (cfg : Cfg K) (p : Params K) (d : ℕ → K) (x : ℕ → R) (files0 : List Char → List (Line K R)) (m : ℕ)
    (w : World K R) (h : LogInv cfg p d x files0 m w)
    (he : (driverLoop (TS.ctor p) (fun i => some (d i)) m).atEnd = false) :
    LogInv cfg p d x files0 (m + 1) (round cfg 0 (d (m + 1)) (x (m + 1)) w) := by
  obtain ⟨hts, written, hh, h1, h2, _⟩ := h
  have hnext : w.ts.next = driverLoop (TS.ctor p) (fun i => some (d i)) (m + 1) := by
    rw [driverLoop_succ p d m he, hts]
  have hhist : Spec.history p d x (m + 1) = written ++ (w.data ++ [(w.ts.next.now, x (m + 1))]) := by
    rw [history_succ, hh, hnext, List.append_assoc]; rfl
  have hmax : (w.ts.next.setDesired (d (m + 1))).maxStep = (TS.ctor p).maxStep := by
    rw [hnext]; exact driverLoop_maxStep p _ (m + 1)
  unfold round
  by_cases ht : (w.ts.next.setDesired (d (m + 1))).atTick cfg.freq = true
  · have hc : 0 < (pushStatistics (d (m + 1)) (x (m + 1)) { w with ts := w.ts.next }).data.length ∧ (0 : ℕ) = 0 ∧
        (pushStatistics (d (m + 1)) (x (m + 1)) { w with ts := w.ts.next }).ts.atTick cfg.freq = true := by
      refine ⟨?_, rfl, ht⟩
      simp [pushStatistics]
    unfold writeLog
    rw [if_pos hc]
    refine ⟨?_, Spec.history p d x (m + 1), ?_, ?_, ?_, ?_⟩
    · simp only [pushStatistics]; rw [hnext]
    · simp
    · intro hf; simp at hf
    · intro _
      simp only [pushStatistics]
      rw [fileName_congr cfg hmax]
      cases hf : w.first
      · rw [h2 hf]
        funext f
        by_cases hff : f = fileName cfg (TS.ctor p)
        · rw [hff, Function.update_self, Function.update_self]
          simp only [Bool.false_eq_true, if_false]
          rw [Function.update_self, hhist]
          unfold linesOf Spec.logWith
          simp
        · rw [Function.update_of_ne hff, Function.update_of_ne hff, Function.update_of_ne hff]
      · obtain ⟨hw, hfl⟩ := h1 hf
        rw [hfl, hhist, hw]
        unfold linesOf Spec.logWith
        simp
    · intro _ _; exact ⟨rfl, rfl⟩
  · unfold writeLog
    rw [if_neg (by
      rintro ⟨_, _, h3⟩
      exact ht h3)]
    refine ⟨?_, written, hhist, h1, h2, ?_⟩
    · simp only [pushStatistics]; rw [hnext]
    · intro _ h3; exact absurd h3 ht

theorem logInv_run (cfg : Cfg K) (p : Params K) (d : ℕ → K) (x : ℕ → R) (files0 : List Char → List (Line K R)) (n : ℕ) :
    ∃ m, Spec.Steps p d n m ∧ LogInv cfg p d x files0 m (runLog cfg 0 p d x files0 n) := by
  induction n with
  | zero =>
    refine ⟨0, ⟨le_rfl, fun k hk => absurd hk (Nat.not_lt_zero k), .inl rfl⟩, rfl, [], ?_, ?_, ?_, ?_⟩
    · rfl
    · intro _; exact ⟨rfl, rfl⟩
    · intro h; cases h
    · intro h; exact absurd rfl h
  | succ n ih =>
    obtain ⟨m, ⟨hmn, hlt, hend⟩, hinv⟩ := ih
    simp only [runLog]
    have hat : (runLog cfg 0 p d x files0 n).ts.atEnd = (driverLoop (TS.ctor p) (fun i => some (d i)) m).atEnd := by
      rw [hinv.hts]; rfl
    cases he : (driverLoop (TS.ctor p) (fun i => some (d i)) m).atEnd
    · rw [hat, he]
      have hmn' : m = n := hend.resolve_right (by rw [he]; exact Bool.false_ne_true)
      subst hmn'
      refine ⟨m + 1, ⟨le_rfl, fun k hk => ?_, .inl rfl⟩, ?_⟩
      · rcases Nat.lt_succ_iff_lt_or_eq.1 hk with h | h
        · exact hlt k h
        · rw [h]; exact he
      · exact logInv_round cfg p d x files0 m _ hinv he
    · rw [hat, he]
      exact ⟨m, ⟨by omega, hlt, .inr he⟩, hinv⟩

/-- **C97 (any moment, any crash point).** After any number of rounds, with `m` time steps done: the log file holds a header and
the first rows of the history in order, or is untouched if nothing has been written yet; the rows not yet written are the last ones
and are all in memory; at a tick nothing is left in memory; no other file changes. -/
theorem C97_no_row_lost (cfg : Cfg K) (p : Params K) (d : ℕ → K) (x : ℕ → R) (files0 : List Char → List (Line K R)) (n : ℕ) :
    ∃ m, Spec.Steps p d n m ∧ ∃ written,
      Spec.history p d x m = written ++ (runLog cfg 0 p d x files0 n).data ∧
      ((written = [] ∧ (runLog cfg 0 p d x files0 n).files = files0) ∨
        (runLog cfg 0 p d x files0 n).files = Function.update files0 (fileName cfg (TS.ctor p)) (Spec.logWith written)) ∧
      (m ≠ 0 → (runLog cfg 0 p d x files0 n).ts.atTick cfg.freq = true → (runLog cfg 0 p d x files0 n).data = []) := by
  obtain ⟨m, hm, hinv⟩ := logInv_run cfg p d x files0 n
  obtain ⟨written, hh, h1, h2, h3⟩ := hinv.hdata
  refine ⟨m, hm, written, hh, ?_, fun h0 ht => (h3 h0 ht).1⟩
  cases hf : (runLog cfg 0 p d x files0 n).first
  · exact .inr (h2 hf)
  · exact .inl (h1 hf)

theorem inv_driver {p : Params K} (hp : p.Good) (d : ℕ → Option K) (n : ℕ) : Inv p (driverLoop (TS.ctor p) d n) :=
  (driverLoop_inv hp d (m := min p.stepStart (min p.stepMax p.stepMin)) (min_le_left _ _)
    ((min_le_right _ _).trans (min_le_left _ _)) ((min_le_right _ _).trans (min_le_right _ _)) n).1.toInv

theorem timeAt_lt {p : Params K} (hp : p.Good) (d : ℕ → K) (k : ℕ)
    (he : (driverLoop (TS.ctor p) (fun i => some (d i)) k).atEnd = false) : Spec.timeAt p d k < Spec.timeAt p d (k + 1) := by
  unfold Spec.timeAt
  rw [driverLoop_succ p d k he]
  have i := inv_desired hp (inv_driver hp (fun i => some (d i)) k) (d k)
  have hpos := (invM_next hp (m := min p.stepStart (min p.stepMax p.stepMin))
    (invM_desired hp (driverLoop_inv hp (fun i => some (d i)) (min_le_left _ _)
      ((min_le_right _ _).trans (min_le_left _ _)) ((min_le_right _ _).trans (min_le_right _ _)) k).1
      ((min_le_right _ _).trans (min_le_left _ _)) ((min_le_right _ _).trans (min_le_right _ _)) (d k)) he
    ((min_le_right _ _).trans (min_le_left _ _))).2
  rcases hpos with h | h
  · have i2 := inv_next hp i he
    rw [i2.end_iff.1 h, i2.hfinal]
    have hne : (driverLoop (TS.ctor p) (fun i => some (d i)) k).now ≠ (driverLoop (TS.ctor p) (fun i => some (d i)) k).final := by
      intro hh
      have := (inv_driver hp (fun i => some (d i)) k).end_iff.2 hh
      rw [he] at this; cases this
    rw [← (inv_driver hp (fun i => some (d i)) k).hfinal]
    exact lt_of_le_of_ne (inv_driver hp (fun i => some (d i)) k).le_final hne
  · have hm0 : 0 < min p.stepStart (min p.stepMax p.stepMin) := lt_min hp.start (lt_min hp.max hp.min)
    have : ((driverLoop (TS.ctor p) (fun i => some (d i)) k).setDesired (d k)).now
        = (driverLoop (TS.ctor p) (fun i => some (d i)) k).now := rfl
    rw [this] at h
    linarith

/-- **C97 (complete log).** For all admissible parameters, step requests and output frequencies the program ends, and then the log
file of rank 0 consists of the header and exactly one row per time step, from the start time to the end time with strictly
increasing times, whatever the file contained before; no row is left in memory and no other file is touched. -/
theorem C97_log_complete (cfg : Cfg K) (p : Params K) (hp : p.Good) (d : ℕ → K) (x : ℕ → R)
    (files0 : List Char → List (Line K R)) :
    ∃ M, 0 < M ∧ Spec.timeAt p d 0 = p.startTime ∧ Spec.timeAt p d M = p.endTime ∧
      (∀ k < M, Spec.timeAt p d k < Spec.timeAt p d (k + 1)) ∧
      ∀ n, M ≤ n → (runLog cfg 0 p d x files0 n).ts.atEnd = true ∧ (runLog cfg 0 p d x files0 n).data = [] ∧
        (runLog cfg 0 p d x files0 n).files =
          Function.update files0 (fileName cfg (TS.ctor p)) (Spec.logWith (Spec.history p d x M)) := by
  obtain ⟨N, _, hN, _⟩ := C03_driver_loop_terminates p hp (fun i => some (d i)) _ rfl
  obtain ⟨M, ⟨hMn, hlt, hend⟩, _⟩ := logInv_run cfg p d x files0 N
  have hendM : (driverLoop (TS.ctor p) (fun i => some (d i)) M).atEnd = true := by
    rcases hend with h | h
    · rw [h]; exact hN
    · exact h
  have hM0 : 0 < M := by
    rcases Nat.eq_zero_or_pos M with h | h
    · rw [h] at hendM; cases hendM
    · exact h
  refine ⟨M, hM0, rfl, ?_, fun k hk => timeAt_lt hp d k (hlt k hk), fun n hn => ?_⟩
  · have i := inv_driver hp (fun i => some (d i)) M
    unfold Spec.timeAt
    rw [i.end_iff.1 hendM, i.hfinal]
  · obtain ⟨m, ⟨hmn, hlt', hend'⟩, hinv⟩ := logInv_run cfg p d x files0 n
    have hmM : m = M := by
      rcases lt_trichotomy m M with h | h | h
      · rcases hend' with h' | h'
        · omega
        · rw [hlt m h] at h'; cases h'
      · exact h
      · have := hlt' M h
        rw [hendM] at this; cases this
    subst hmM
    have hat : (runLog cfg 0 p d x files0 n).ts.atEnd = true := by rw [hinv.hts]; exact hendM
    obtain ⟨written, hh, h1, h2, h3⟩ := hinv.hdata
    have htick : (runLog cfg 0 p d x files0 n).ts.atTick cfg.freq = true := by simp [TS.atTick, hat]
    obtain ⟨hd, hf⟩ := h3 hM0.ne' htick
    refine ⟨hat, hd, ?_⟩
    rw [h2 hf, hh, hd, List.append_nil]

/-- **C97 (one writer).** No process other than rank 0 writes a file. -/
theorem C97_one_writer (cfg : Cfg K) (rank : ℕ) (hr : rank ≠ 0) (p : Params K) (d : ℕ → K) (x : ℕ → R)
    (files0 : List Char → List (Line K R)) (n : ℕ) : (runLog cfg rank p d x files0 n).files = files0 := by
  induction n with
  | zero => rfl
  | succ n ih =>
    simp only [runLog]
    split
    · exact ih
    · unfold round writeLog
      rw [if_neg (by rintro ⟨_, h, _⟩; exact hr h)]
      exact ih

/-! ### Names -/

theorem dash_not_digit {v d : ℕ} : '-' ∉ intToString v d := fun h => by
  have := intToString_isDigit h
  revert this; decide

theorem split_dash {a b c e : List Char} (ha : '-' ∉ a) (hb : '-' ∉ b) (h : a ++ '-' :: c = b ++ '-' :: e) : a = b ∧ c = e := by
  induction a generalizing b with
  | nil =>
    cases b with
    | nil => simpa using h
    | cons y b =>
      simp only [List.nil_append, List.cons_append, List.cons.injEq] at h
      exact absurd (h.1 ▸ List.mem_cons_self) hb
  | cons z a ih =>
    cases b with
    | nil =>
      simp only [List.nil_append, List.cons_append, List.cons.injEq] at h
      exact absurd (h.1 ▸ List.mem_cons_self) ha
    | cons y b =>
      simp only [List.cons_append, List.cons.injEq] at h
      obtain ⟨h1, h2⟩ := ih (fun hh => ha (List.mem_cons_of_mem _ hh)) (fun hh => hb (List.mem_cons_of_mem _ hh)) h.2
      exact ⟨by rw [h.1, h1], h2⟩

/-- **C97 (names).** Two runs with the same base name write to the same log file only if they agree in both refinement numbers and
in the time step number. -/
theorem C97_names (cfg cfg' : Cfg K) (t t' : TS K) (hb : cfg.base = cfg'.base) (h : fileName cfg t = fileName cfg' t') :
    cfg.adaptive = cfg'.adaptive ∧ cfg.global = cfg'.global ∧ timeStepNumber t = timeStepNumber t' := by
  unfold fileName at h
  rw [hb] at h
  simp only [List.append_assoc, List.append_cancel_left_eq, List.cons_append, List.cons.injEq, true_and] at h
  obtain ⟨h1, h2⟩ := split_dash dash_not_digit dash_not_digit h
  obtain ⟨h3, h4⟩ := split_dash dash_not_digit dash_not_digit h2
  exact ⟨intToString_inj h1, intToString_inj h3, intToString_inj (List.append_cancel_right h4)⟩

/-- **C97 (names: step sizes).** Maximal step sizes that are multiples of `10⁻⁴` below 100 are told apart. -/
theorem C97_step_number (t : TS K) (k : ℕ) (hk : k < 10 ^ 6) (h : t.maxStep = k / 10 ^ 4) : timeStepNumber t = k := by
  unfold timeStepNumber truncInt
  rw [h]
  have hk0 : (0 : K) ≤ k := Nat.cast_nonneg k
  have hk1 : (k : K) < 10 ^ 6 := by exact_mod_cast hk
  have e : (1 + 1 / 10 ^ 6 : K) * 10 ^ 4 * (k / 10 ^ 4) = k + k / 10 ^ 6 := by field_simp
  rw [e]
  have hq : (0 : K) ≤ k / 10 ^ 6 := by positivity
  have hq1 : (k : K) / 10 ^ 6 < 1 := by rw [div_lt_one (by positivity)]; exact hk1
  rw [if_pos (by linarith)]
  have : ⌊(k : K) + k / 10 ^ 6⌋ = (k : ℤ) := by
    rw [Int.floor_eq_iff]
    push_cast
    constructor <;> linarith
  rw [this]; rfl

/-- **C97 (names: collision).** All maximal step sizes below `9·10⁻⁵` give the same name: two such runs overwrite each other's log. -/
theorem C97_small_steps_collide (cfg : Cfg K) (t t' : TS K) (h0 : 0 < t.maxStep) (h1 : t.maxStep < 9 / 10 ^ 5)
    (h0' : 0 < t'.maxStep) (h1' : t'.maxStep < 9 / 10 ^ 5) : fileName cfg t = fileName cfg t' := by
  have key : ∀ s : TS K, 0 < s.maxStep → s.maxStep < 9 / 10 ^ 5 → timeStepNumber s = 0 := by
    intro s h0 h1
    unfold timeStepNumber truncInt
    have hpos : (0 : K) ≤ (1 + 1 / 10 ^ 6) * 10 ^ 4 * s.maxStep := by positivity
    rw [if_pos hpos]
    have : ⌊(1 + 1 / 10 ^ 6 : K) * 10 ^ 4 * s.maxStep⌋ = 0 := by
      rw [Int.floor_eq_zero_iff]
      refine ⟨hpos, ?_⟩
      have h2 : (1 + 1 / 10 ^ 6 : K) * 10 ^ 4 * s.maxStep < (1 + 1 / 10 ^ 6) * 10 ^ 4 * (9 / 10 ^ 5) :=
        mul_lt_mul_of_pos_left h1 (by positivity)
      refine h2.trans ?_
      norm_num
    rw [this]; rfl
  unfold fileName
  rw [key t h0 h1, key t' h0' h1']

/-! ### Columns -/

/-- **C97 (columns).** In two dimensions every column holds the quantity named in the header. -/
theorem C97_columns_2d_partial : columns2 = headerColumns := by decide

/-- **C97 (columns, counterexample).** In three dimensions it does not: there are two more columns than names, below "circularity"
is the first velocity component, and below the first and second velocity are the second and third component. -/
theorem C97_columns_3d : columns3.length = 10 ∧ headerColumns.length = 8 ∧
    columns3[3]? = some (.velocity 0) ∧ headerColumns[3]? = some .roundness ∧
    columns3[4]? = some (.velocity 1) ∧ headerColumns[4]? = some (.velocity 0) ∧
    columns3[5]? = some (.velocity 2) ∧ headerColumns[5]? = some (.velocity 1) := by decide

/-! ### Non-vacuity -/

def exP : Params ℚ := ⟨.bdf2, 0, 1, 1 / 4, 1 / 2, 1 / 100⟩

example : exP.Good := ⟨by decide +kernel, by decide +kernel, by decide +kernel, by decide +kernel⟩

def exCfg : Cfg ℚ := ⟨['r'], 1, 2, 1 / 2⟩

/-- three step sizes; an old file is replaced; ticks at 1/2 and at the end -/
example : (runLog exCfg 0 exP (fun _ => 1 / 4) (fun k => k) (fun _ => [.row 7 7]) 10).files (fileName exCfg (TS.ctor exP)) =
    [.header, .row 0 0, .row (1 / 4) 1, .row (1 / 2) 2, .row (3 / 4) 3, .row 1 4] := by decide +kernel

example : (runLog exCfg 0 exP (fun _ => 1 / 4) (fun k => k) (fun _ => ([.row 7 7] : List (Line ℚ ℕ))) 1).data =
    [(0, 0), (1 / 4, 1)] := by decide +kernel

example : fileName exCfg (TS.ctor exP) = "r-1-2-5000.txt".toList := by decide +kernel

example : (⟨.bdf2, 0, 1, 1 / 4, 1 / 10 ^ 5, 1 / 100⟩ : Params ℚ).stepMax < 9 / 10 ^ 5 := by decide +kernel

end Verif.App
