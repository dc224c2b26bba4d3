import Mathlib.Data.List.Basic
import Mathlib.Tactic.Ring

/-!
# C92: which level set the normals of the matrix-based solver belong to
(source/level_set_okz_matrix.cc: initialize_data_structures 71-92, compute_force 97-100, advance_concentration 373-606,
compute_normal 613-715, compute_curvature 722-725, reinitialize 911-1113; source/level_set_base.cc: 147-154, 250-275, 303, 465-469)

Level sets are numbered: every change of `solution.block(0)` gives a new number. The normals are represented by the number of the
level set they were computed from. The size of the update in a pseudo-time step is an oracle.
-/

namespace Verif.LevelSet.MatrixNormals

/-! ## Model -/

/-- Who reads the normals. -/
inductive Reader
  | reinit
  | curvature
  | marking
  deriving DecidableEq

/-- Ghost record of a read access: reader, number of the current level set, level set the normals were computed from, and the
first level set after the last transport step or change of mesh. -/
structure Use where
  reader : Reader
  ls : ℕ
  nrm : ℕ
  born : ℕ
  deriving DecidableEq

structure St where
  ls : ℕ
  nrm : ℕ
  /-- `normal_calculated` -/
  calculated : Bool
  born : ℕ
  log : List Use

/-- `compute_normal(fast)`, level_set_okz_matrix.cc:613-715 with `approximate_projections == false` (asserted in line 622). -/
def St.computeNormal (fast : Bool) (s : St) : St :=
  if fast && s.calculated then s else { s with nrm := s.ls, calculated := true }

/-- Record of a read access (newest last). -/
def St.use (r : Reader) (s : St) : St := { s with log := s.log ++ [⟨r, s.ls, s.nrm, s.born⟩] }

/-- `initialize_data_structures`, line 79 (also after every change of the mesh; the level set is then a new one). -/
def St.setup (s : St) : St := { s with calculated := false, ls := s.ls + 1, born := s.ls + 1 }

/-- `advance_concentration`, lines 373-606: changes the level set; `normal_calculated` is not touched. -/
def St.advance (s : St) : St := { s with ls := s.ls + 1, born := s.ls + 1 }

/-- `compute_curvature`, line 725: `compute_normal(false)`, then the normals are read (lines 756-790). -/
def St.curvature (s : St) : St := (s.computeNormal false).use .curvature

/-- `mark_cells_for_refinement`, level_set_base.cc:302-303 (first step): `compute_normal(true)`, then read. -/
def St.mark (s : St) : St := (s.computeNormal true).use .marking

/-- Pseudo-time loop, level_set_okz_matrix.cc:934-1108: `D` is `diff_steps`; arguments: remaining steps, `tau`, the variable
`diffuse_only` (never reset); `small tau`: the update is below `1e-6`, the loop is left (line 1102) before `normal_calculated` is
reset (line 1105). -/
def loop (D : ℕ) (small : ℕ → Bool) : ℕ → ℕ → Bool → St → St
  | 0, _, _, s => s
  | k + 1, tau, diffuseOnly, s =>
    let s := if D ≤ tau ∧ (tau - D) % 8 = 0 then s.computeNormal true else s
    let diffuseOnly := if tau < D then true else diffuseOnly
    let s := if diffuseOnly then s else s.use .reinit
    let s := { s with ls := s.ls + 1 }
    if small tau then s else loop D small k (tau + 1) diffuseOnly { s with calculated := false }

/-- `reinitialize(stab_steps, diff_steps)`, lines 911-1113. -/
def St.reinitialize (stab D : ℕ) (small : ℕ → Bool) (s : St) : St := loop D small (D + stab) 0 false s

/-- Calls on the solver. -/
inductive Call
  | setup
  | advance
  | reinitialize (stab diff : ℕ) (small : ℕ → Bool)
  | force
  | mark

/-- `force` stands for `compute_force` (line 100) and for the output in step 0 (level_set_base.cc:465-467). -/
def exec (s : St) : Call → St
  | .setup => s.setup
  | .advance => s.advance
  | .reinitialize n d small => s.reinitialize n d small
  | .force => s.curvature
  | .mark => s.mark

def run (s : St) (calls : List Call) : St := calls.foldl exec s

/-! ## Specification -/

/-- The normals belong to a level set after the last transport, at most `n` changes old. -/
def Spec.Recent (n : ℕ) (u : Use) : Prop := u.born ≤ u.nrm ∧ u.ls ≤ u.nrm + n

/-! ## Proofs -/

/-- The level set whose normals are read in stabilised step `j` of a call that starts from `s`. -/
def normalAt (s : St) (j : ℕ) : ℕ := if s.calculated = true ∧ j < 8 then s.nrm else s.ls + 8 * (j / 8)

theorem loop_diffusive (D : ℕ) (small : ℕ → Bool) (k tau : ℕ) (s : St) :
    (loop D small k tau true s).log = s.log ∧ (loop D small k tau true s).born = s.born := by
  induction k generalizing tau s with
  | zero => exact ⟨rfl, rfl⟩
  | succ k ih =>
    have hc : ∀ s : St, (s.computeNormal true).log = s.log ∧ (s.computeNormal true).born = s.born := by
      intro s; unfold St.computeNormal; split_ifs <;> exact ⟨rfl, rfl⟩
    have hite : (if tau < D then true else true) = true := by split_ifs <;> rfl
    simp only [loop, hite, if_true]
    by_cases h : D ≤ tau ∧ (tau - D) % 8 = 0
    · simp only [h, and_self, if_true]
      by_cases hs : small tau = true
      · simp only [hs, if_true]; exact hc s
      · simp only [hs, Bool.false_eq_true, if_false]
        obtain ⟨h1, h2⟩ := ih (tau + 1) { (s.computeNormal true) with
          ls := (s.computeNormal true).ls + 1, calculated := false }
        exact ⟨h1.trans (hc s).1, h2.trans (hc s).2⟩
    · simp only [h, if_false]
      by_cases hs : small tau = true
      · simp [hs]
      · simp only [hs, Bool.false_eq_true, if_false]
        obtain ⟨h1, h2⟩ := ih (tau + 1) { s with ls := s.ls + 1, calculated := false }
        exact ⟨h1, h2⟩

theorem loop_uses (small : ℕ → Bool) (s0 : St) (k tau : ℕ) (s : St) (hls : s.ls = s0.ls + tau) (hb : s.born = s0.born)
    (h0 : tau = 0 → s.calculated = s0.calculated ∧ s.nrm = s0.nrm)
    (h1 : 0 < tau → s.calculated = false ∧ s.nrm = normalAt s0 (tau - 1)) :
    ∃ m ≤ k, (0 < k → 0 < m) ∧ (m < k → small (tau + m - 1) = true) ∧
      (loop 0 small k tau false s).log =
        s.log ++ (List.range m).map (fun j => ⟨.reinit, s0.ls + (tau + j), normalAt s0 (tau + j), s0.born⟩) := by
  induction k generalizing tau s with
  | zero => exact ⟨0, le_refl _, fun h => h, fun h => absurd h (lt_irrefl _), by simp [loop]⟩
  | succ k ih =>
    simp only [loop, Nat.zero_le, Nat.sub_zero, true_and, Nat.not_lt_zero, if_false, Bool.false_eq_true]
    set s1 : St := if tau % 8 = 0 then s.computeNormal true else s with hs1
    have e1 : s1.ls = s.ls ∧ s1.born = s.born ∧ s1.log = s.log := by
      rw [hs1]; unfold St.computeNormal; split_ifs <;> exact ⟨rfl, rfl, rfl⟩
    have e2 : s1.nrm = normalAt s0 tau := by
      rw [hs1]
      rcases Nat.eq_zero_or_pos tau with ht | ht
      · obtain ⟨hc, hn⟩ := h0 ht
        subst ht
        rw [if_pos rfl]
        unfold St.computeNormal normalAt
        cases hcc : s0.calculated
        · rw [hcc] at hc; simp [hc, hls]
        · rw [hcc] at hc; simp [hc, hn]
      · obtain ⟨hc, hn⟩ := h1 ht
        by_cases h8 : tau % 8 = 0
        · rw [if_pos h8]
          unfold St.computeNormal normalAt
          rw [hc]
          have hge : ¬ tau < 8 := by omega
          have : 8 * (tau / 8) = tau := by omega
          simp [hge, hls, this]
        · rw [if_neg h8, hn]
          unfold normalAt
          have ha : (tau - 1 < 8) ↔ (tau < 8) := by omega
          have hb' : (tau - 1) / 8 = tau / 8 := by omega
          simp only [ha, hb']
    by_cases hs : small tau = true
    · simp only [hs, if_true]
      refine ⟨1, by omega, fun _ => by omega, fun _ => by simpa using hs, ?_⟩
      simp only [St.use, List.range_one, List.map_cons, List.map_nil, Nat.add_zero]
      rw [e1.1, e1.2.1, e1.2.2, e2, hls, hb]
    · simp only [hs, if_false, Bool.false_eq_true]
      obtain ⟨m, hm, hm0, hm1, hm2⟩ := ih (tau + 1) { (s1.use .reinit) with
          ls := (s1.use .reinit).ls + 1, calculated := false }
        (by simp [St.use, e1.1, hls, Nat.add_assoc]) (by simp [St.use, e1.2.1, hb]) (by omega)
        (fun _ => ⟨rfl, by simp [St.use, e2]⟩)
      refine ⟨m + 1, by omega, fun _ => by omega, fun h => ?_, ?_⟩
      · have : 0 < m ∨ m = 0 := by omega
        rcases this with h' | h'
        · have := hm1 (by omega)
          have e : tau + 1 + m - 1 = tau + (m + 1) - 1 := by omega
          rw [← e]; exact this
        · have := hm0 (by omega); omega
      · rw [hm2]
        simp only [St.use]
        rw [e1.1, e1.2.1, e1.2.2, e2, hls, hb, List.append_assoc, List.range_succ_eq_map, List.map_cons, List.map_map]
        congr 1
        simp only [List.singleton_append, Nat.add_zero]
        congr 1
        refine List.map_congr_left fun j _ => ?_
        simp only [Function.comp, Nat.succ_eq_add_one]
        have e : tau + 1 + j = tau + (j + 1) := by omega
        rw [e]

/-- **C92 (what a reinitialization reads).** From every state, for every number of steps and every behaviour of the updates: with
preceding diffusion steps the normals are never read; otherwise stabilised step `j` reads the normals of the level set at the
start of the current group of eight steps, except that the first eight steps read the stored normals if `normal_calculated` was
set when the function was entered. -/
theorem C92_reinitialize_reads (s : St) (stab D : ℕ) (small : ℕ → Bool) :
    (0 < D → (s.reinitialize stab D small).log = s.log) ∧
    (D = 0 → ∃ m ≤ stab, (0 < stab → 0 < m) ∧ (m < stab → small (m - 1) = true) ∧
      (s.reinitialize stab D small).log = s.log ++ (List.range m).map fun j =>
        ⟨.reinit, s.ls + j, if s.calculated = true ∧ j < 8 then s.nrm else s.ls + 8 * (j / 8), s.born⟩) := by
  refine ⟨fun hD => ?_, fun hD => ?_⟩
  · unfold St.reinitialize
    obtain ⟨n, hn⟩ : ∃ n, D + stab = n + 1 := ⟨D + stab - 1, by omega⟩
    rw [hn]
    simp only [loop, hD, if_true]
    have h : ¬ (D ≤ 0 ∧ (0 - D) % 8 = 0) := by omega
    simp only [h, if_false]
    by_cases hs : small 0 = true
    · simp only [hs, if_true]
    · simp only [hs, if_false, Bool.false_eq_true]
      exact (loop_diffusive D small n (0 + 1) _).1
  · subst hD
    obtain ⟨m, hm, hm0, hm1, hm2⟩ := loop_uses small s (0 + stab) 0 s rfl rfl (fun _ => ⟨rfl, rfl⟩) (fun h => by omega)
    refine ⟨m, by omega, fun h => hm0 (by omega), fun h => ?_, ?_⟩
    · have := hm1 (by omega)
      rwa [Nat.zero_add] at this
    · unfold St.reinitialize
      rw [hm2]
      simp only [Nat.zero_add]
      rfl

/-- **C92 (recent normals, partial).** If `normal_calculated` is false on entry, all normals read by the reinitialization belong
to the level set of this call, at most seven pseudo-time steps old. Missing: entry with the flag set, see
`C92_stale_after_transport`. -/
theorem C92_recent_partial (s : St) (stab D : ℕ) (small : ℕ → Bool) (hc : s.calculated = false) (hb : s.born ≤ s.ls) :
    ∃ new, (s.reinitialize stab D small).log = s.log ++ new ∧ ∀ u ∈ new, Spec.Recent 7 u := by
  obtain ⟨h1, h2⟩ := C92_reinitialize_reads s stab D small
  rcases Nat.eq_zero_or_pos D with hD | hD
  · obtain ⟨m, -, -, -, h⟩ := h2 hD
    refine ⟨_, h, fun u hu => ?_⟩
    obtain ⟨j, -, rfl⟩ := List.mem_map.1 hu
    unfold Spec.Recent
    simp only [hc, Bool.false_eq_true, false_and, if_false]
    omega
  · exact ⟨[], by rw [h1 hD, List.append_nil], fun u hu => absurd hu List.not_mem_nil⟩

theorem exec_curvature (s : St) (c : Call) (h : ∀ u ∈ s.log, u.reader = .curvature → u.nrm = u.ls) :
    ∀ u ∈ (exec s c).log, u.reader = .curvature → u.nrm = u.ls := by
  cases c with
  | setup => exact h
  | advance => exact h
  | reinitialize n d small =>
    intro u hu hr
    obtain ⟨h1, h2⟩ := C92_reinitialize_reads s n d small
    change u ∈ (s.reinitialize n d small).log at hu
    rcases Nat.eq_zero_or_pos d with hd | hd
    · obtain ⟨m, -, -, -, he⟩ := h2 hd
      rw [he, List.mem_append] at hu
      rcases hu with hu | hu
      · exact h u hu hr
      · obtain ⟨j, -, rfl⟩ := List.mem_map.1 hu
        cases hr
    · rw [h1 hd] at hu; exact h u hu hr
  | force =>
    intro u hu hr
    simp only [exec, St.curvature, St.computeNormal, Bool.false_and, Bool.false_eq_true, if_false, St.use,
      List.mem_append, List.mem_singleton] at hu
    rcases hu with hu | rfl
    · exact h u hu hr
    · rfl
  | mark =>
    intro u hu hr
    simp only [exec, St.mark, St.use, List.mem_append, List.mem_singleton] at hu
    have hl : (s.computeNormal true).log = s.log := by unfold St.computeNormal; split_ifs <;> rfl
    rw [hl] at hu
    rcases hu with hu | rfl
    · exact h u hu hr
    · cases hr

/-- **C92 (curvature).** In every history of calls, the curvature is computed from the normals of the current level set. -/
theorem C92_curvature_current (s : St) (hs : s.log = []) (calls : List Call) :
    ∀ u ∈ (run s calls).log, u.reader = .curvature → u.nrm = u.ls := by
  have key : ∀ (s : St), (∀ u ∈ s.log, u.reader = .curvature → u.nrm = u.ls) →
      ∀ u ∈ (run s calls).log, u.reader = .curvature → u.nrm = u.ls := by
    induction calls with
    | nil => intro s h; exact h
    | cons c calls ih => intro s h; exact ih (exec s c) (exec_curvature s c h)
  exact key s (by rw [hs]; simp)

/-- **C92 (marking after set-up).** After the initialization of the data structures, marking reads the normals of the current level
set, also after an initial reinitialization that was not stopped early. -/
theorem C92_marking_current (s : St) (stab : ℕ) (small : ℕ → Bool) (hsmall : ∀ t, small t = false) :
    ∃ past, (run s [.setup, .reinitialize stab 0 small, .mark]).log = past ++
      [⟨.marking, (run s [.setup, .reinitialize stab 0 small]).ls,
        (run s [.setup, .reinitialize stab 0 small]).ls, s.ls + 1⟩] := by
  have hcalc : ∀ k tau d (s : St), s.calculated = false → (loop 0 small k tau d s).calculated = false ∧
      (loop 0 small k tau d s).born = s.born := by
    intro k
    induction k with
    | zero => intro tau d s h; exact ⟨h, rfl⟩
    | succ k ih =>
      intro tau d s h
      simp only [loop, hsmall, Bool.false_eq_true, if_false]
      refine ⟨(ih _ _ _ rfl).1, ((ih _ _ _ rfl).2).trans ?_⟩
      dsimp only
      have hcb : ∀ s : St, (s.computeNormal true).born = s.born := by
        intro s; unfold St.computeNormal; split_ifs <;> rfl
      have hub : ∀ (s : St) r, (s.use r).born = s.born := fun _ _ => rfl
      split_ifs <;> simp [hcb, hub]
  obtain ⟨hc, hb⟩ := hcalc (0 + stab) 0 false s.setup rfl
  refine ⟨(run s [.setup, .reinitialize stab 0 small]).log, ?_⟩
  simp only [run, List.foldl_cons, List.foldl_nil, exec, St.mark, St.reinitialize, St.computeNormal, hc, Bool.and_false,
    Bool.false_eq_true, if_false, St.use]
  rw [hb]
  rfl

/-- **C92 (stale normals after transport).** In the time loop (force of the previous step, transport, reinitialization with at
least one step) the first stabilised steps read normals that were computed before the transport: in every state. -/
theorem C92_stale_after_transport (s : St) (stab : ℕ) (hst : 0 < stab) (small : ℕ → Bool) :
    ∃ u ∈ (run s [.force, .advance, .reinitialize stab 0 small]).log,
      u.reader = .reinit ∧ u.nrm < u.born ∧ ∀ n, ¬ Spec.Recent n u := by
  set s2 := run s [.force, .advance] with hs2
  obtain ⟨m, -, hm0, -, h⟩ := (C92_reinitialize_reads s2 stab 0 small).2 rfl
  have he : run s [.force, .advance, .reinitialize stab 0 small] = s2.reinitialize stab 0 small := rfl
  have hcal : s2.calculated = true ∧ s2.nrm = s.ls ∧ s2.born = s.ls + 1 ∧ s2.ls = s.ls + 1 := ⟨rfl, rfl, rfl, rfl⟩
  have hm := hm0 hst
  refine ⟨⟨.reinit, s2.ls + 0, if s2.calculated = true ∧ 0 < 8 then s2.nrm else s2.ls + 8 * (0 / 8), s2.born⟩, ?_, rfl, ?_, ?_⟩
  · rw [he, h, List.mem_append]
    exact .inr (List.mem_map.2 ⟨0, List.mem_range.2 hm, rfl⟩)
  · simp only [hcal]; simp
  · intro n hr
    unfold Spec.Recent at hr
    simp only [hcal] at hr
    simp at hr

/-- A run: set-up with two initial steps, then two time steps with nine reinitialization steps each; the numbers read. -/
example : ((run ⟨0, 0, false, 0, []⟩ [.setup, .reinitialize 2 0 (fun _ => false), .mark,
      .advance, .reinitialize 1 0 (fun _ => false), .force, .advance, .reinitialize 9 0 (fun _ => false), .force]).log.map
      fun u => (u.ls, u.nrm)) =
    [(1, 1), (2, 1), (3, 3), (4, 3), (5, 5), (6, 5), (7, 5), (8, 5), (9, 5), (10, 5), (11, 5), (12, 5), (13, 5), (14, 14),
      (15, 15)] := by
  decide

/-- The hypotheses of `C92_recent_partial` are met after the initialization. -/
example : (St.setup ⟨0, 0, true, 0, []⟩).calculated = false ∧
    (St.setup ⟨0, 0, true, 0, []⟩).born ≤ (St.setup ⟨0, 0, true, 0, []⟩).ls := by decide

end Verif.LevelSet.MatrixNormals
