/-
# C122: writing output does not influence the computation

`output_solution` of the five solvers (navier_stokes.cc:1436-1462, two_phase_base.cc:550-592,
level_set_base.cc:452-694, sharp_interface.h:552-617 and 829-925), as programs in
`Verif.Parallel.Programs`.  A call that returns at once because the time is not at an output tick
(two_phase_base.cc:556, level_set_base.cc:457) is no call here.

`output_solution` of the level set solver is declared const, but casts this away and computes
normals, curvature and Heaviside function before the first step (level_set_base.cc:465-469), and
clears the refinement flags of the cells (level_set_base.cc:627-628; `mark_cells_for_refinement`
clears them as well before it sets new ones, level_set_base.cc:336-337, 373-374).
-/
import Verif.Parallel.DeterminedRuns

namespace Verif.Parallel

set_option maxRecDepth 100000
set_option linter.unusedSectionVars false

/-! ## Specification -/

/-- The scalars `S` are those of the solvers (clock, norms, mesh, cell data that a later routine
reads): files and the vectors with cell data made for a file only are not among them. -/
def Ops.Silent {I C S K : Type} (o : Ops I C K S) : Prop :=
  ∀ s ys rs, o.ev "output" s ys rs = s ∧ o.ev "cell data" s ys rs = s

/-- The two histories are the same but for calls of `output_solution`. -/
def SameButFor {α : Type} [DecidableEq α] (output : α) (cs cs' : List α) : Prop :=
  cs.filter (· ≠ output) = cs'.filter (· ≠ output)

/-! ## Proofs -/

section Lemmas
variable {I C S K : Type} [AddCommMonoid K] [Fintype C] {o : Ops I C K S}

theorem flowOutput_id (ho : o.Silent) (m : Mem Vec I S K) : flowOutput.shared o m = m := by
  change Mem.mk m.vec (o.ev "output" m.aux _ _) = m
  rw [(ho _ _ _).1]

theorem twoPhaseOutput_id (ho : o.Silent) (m : Mem Vec I S K) : twoPhaseOutput.shared o m = m := by
  change Mem.mk m.vec (o.ev "output" m.aux _ _) = m
  rw [(ho _ _ _).1]

theorem mixedOutput_id (ho : o.Silent) (m : Mem Vec I S K) : mixedOutput.shared o m = m := by
  change Mem.mk m.vec (o.ev "output" m.aux _ _) = m
  rw [(ho _ _ _).1]

theorem frontOutput_id (ho : o.Silent) (m : Mem Vec I S K) : frontOutput.shared o m = m := by
  change Mem.mk m.vec (o.ev "output" m.aux _ _) = m
  rw [(ho _ _ _).1]

theorem drop_outputs {α : Type} [DecidableEq α] (f : α → P) (x : α)
    (hx : ∀ m : Mem Vec I S K, (f x).shared o m = m) :
    ∀ (cs : List α) (m : Mem Vec I S K),
      sharedRun o (cs.map f) m = sharedRun o ((cs.filter (· ≠ x)).map f) m
  | [], _ => rfl
  | c :: cs, m => by
    by_cases h : c = x
    · subst h
      simp only [List.map_cons, sharedRun, hx]
      rw [drop_outputs f c hx cs m]
      simp
    · rw [List.filter_cons_of_pos (by simpa using h)]
      simp only [List.map_cons, sharedRun]
      exact drop_outputs f x hx cs _

theorem same_outputs {α : Type} [DecidableEq α] (f : α → P) (x : α)
    (hx : ∀ m : Mem Vec I S K, (f x).shared o m = m) {cs cs' : List α} (h : SameButFor x cs cs')
    (m : Mem Vec I S K) : sharedRun o (cs.map f) m = sharedRun o (cs'.map f) m := by
  rw [drop_outputs f x hx cs m, drop_outputs f x hx cs' m, h]

/-- The output of the level set solver keeps the scalars. -/
theorem levelSetOutput_aux (ho : o.Silent) (cfg : Cfg) (i : Bool) (m : Mem Vec I S K) :
    ((levelSetOutput cfg i).shared o m).aux = m.aux := by
  have h : ∀ m' : Mem Vec I S K, ((seqs [zero .e, fill "joint" .e [.u, .p, .h, .c, .w, .n],
      refresh .e, eval "cell data" [] [.n, .c, .u], eval "output" [] [.e]]).shared o m').aux =
      m'.aux := by
    intro m'
    change o.ev "output" (o.ev "cell data" m'.aux _ _) _ _ = m'.aux
    rw [(ho _ _ _).1, (ho _ _ _).2]
  cases i with
  | false => exact h m
  | true =>
    refine (h _).trans ?_
    cases hc : cfg.curvatureCorrection <;>
      simp only [opt, computeCurvature, operatorCurvature, hc] <;> rfl

/-- The output of the level set solver changes no vector of these. -/
theorem levelSetOutput_writes : ∀ g : Bool,
    let cfg : Cfg := ⟨false, false, false, false, false, false, false, false, g, false, false, false⟩
    [Vec.u, .p, .uo, .po, .c, .co, .wo, .poo, .dp].all
      (fun v => !(levelSetOutput cfg true).writes v) = true ∧
    [Vec.u, .p, .uo, .po, .c, .co, .w, .wo, .n, .h, .poo, .dp].all
      (fun v => !(levelSetOutput cfg false).writes v) = true := by decide +kernel

end Lemmas

/-! ### Fields that matter when the projections are accurate -/

/-- Fields of the level set solver that determine the rest of a run if the projections do not
depend on their start vector: after the first step the normals are among them, because
refine_grid uses those of the last step. -/
def observerFields (b : Bool) : Stage → List Vec
  | .initial => levelSetCore b
  | _ => .n :: levelSetCore b

theorem det_observer : ∀ a : Bool,
    det true (levelSetCore a) (markLevelSet true) (levelSetCore a) = true ∧
    det true (.n :: levelSetCore a) (markLevelSet false) (.n :: levelSetCore a) = true ∧
    det true (levelSetCore a) statistics (levelSetCore a) = true ∧
    det true (.n :: levelSetCore a) statistics (.n :: levelSetCore a) = true := by decide +kernel

section Core
variable {I C S K : Type} [AddCommMonoid K] [Fintype C] {o : Ops I C K S}

theorem SameFields.symm {F : List Vec} {m m' : Mem Vec I S K} (h : SameFields F m m') :
    SameFields F m' m := ⟨h.1.symm, fun v hv => (h.2 v hv).symm⟩

theorem SameFields.trans {F : List Vec} {m m' m'' : Mem Vec I S K} (h : SameFields F m m')
    (k : SameFields F m' m'') : SameFields F m m'' :=
  ⟨h.1.trans k.1, fun v hv => (h.2 v hv).trans (k.2 v hv)⟩

theorem SameFields.mono {F G : List Vec} {m m' : Mem Vec I S K} (h : SameFields F m m')
    (hG : G.all F.contains = true) : SameFields G m m' :=
  ⟨h.1, fun v hv => h.2 v (by simpa using List.all_eq_true.1 hG v hv)⟩

theorem SameFields.refl (F : List Vec) (m : Mem Vec I S K) : SameFields F m m :=
  ⟨rfl, fun _ _ => rfl⟩

/-- An output call leaves the fields as they are. -/
theorem output_initial (ho : o.Silent) (cfg : Cfg) (m : Mem Vec I S K) :
    SameFields (levelSetCore cfg.projection) ((levelSetOutput cfg true).shared o m) m := by
  refine ⟨levelSetOutput_aux ho cfg true m, fun v hv => Prog.unwritten o _ ?_ m⟩
  have h := (levelSetOutput_writes cfg.curvatureCorrection).1
  rw [List.all_eq_true] at h
  have h2 := h v (by
    revert hv
    unfold levelSetCore projectionFields
    cases cfg.projection <;> revert v <;> decide)
  exact (Bool.not_eq_true' _).mp h2

theorem output_running (ho : o.Silent) (cfg : Cfg) (m : Mem Vec I S K) :
    SameFields (levelSetFields cfg.projection) ((levelSetOutput cfg false).shared o m) m := by
  refine ⟨levelSetOutput_aux ho cfg false m, fun v hv => Prog.unwritten o _ ?_ m⟩
  have h := (levelSetOutput_writes cfg.curvatureCorrection).2
  rw [List.all_eq_true] at h
  have h2 := h v (by
    revert hv
    unfold levelSetFields projectionFields
    cases cfg.projection <;> revert v <;> decide)
  exact (Bool.not_eq_true' _).mp h2

theorem keeps_observer (hs : o.StartFree) (cfg : Cfg) (g : Stage) (c : TwoCall) (hc : c ≠ .output)
    (hr : c ≠ .refine true) : Keeps o (observerFields cfg.projection g) (c.levelSet cfg g)
      (observerFields cfg.projection (g.next c)) := by
  have hx : true = true → o.StartFree := fun _ => hs
  obtain ⟨d3, d4, d5, d6⟩ := det_observer cfg.projection
  cases c with
  | output => exact absurd rfl hc
  | step =>
    have h := keeps_core o cfg hs
    cases g <;> exact h.mono (by cases cfg.projection <;> decide)
      (by cases cfg.projection <;> decide)
  | refine b =>
    cases g with
    | initial =>
      have hm := Keeps.of (o := o) hx d3
      cases b with
      | false => exact hm.seq (Keeps.skip fun _ h => h)
      | true => exact absurd rfl hr
    | stepped =>
      have hm := Keeps.of (o := o) hx d4
      cases b with
      | false => exact hm.seq (Keeps.skip fun _ h => h)
      | true => exact absurd rfl hr
    | adapted =>
      have hm := Keeps.of (o := o) hx d4
      cases b with
      | false => exact hm.seq (Keeps.skip fun _ h => h)
      | true => exact absurd rfl hr
  | statistics =>
    cases g with
    | initial => exact Keeps.of hx d5
    | stepped => exact Keeps.of hx d6
    | adapted => exact Keeps.of hx d6

theorem next_output (g : Stage) : g.next .output = g := by cases g <;> rfl

/-- Dropping the output calls of a history. -/
theorem observer_drop (hs : o.StartFree) (ho : o.Silent) (cfg : Cfg) :
    ∀ (cs : List TwoCall) (_ : .refine true ∉ cs) (g : Stage) (m m' : Mem Vec I S K),
      SameFields (observerFields cfg.projection g) m m' →
      SameFields (levelSetCore cfg.projection) (sharedRun o (levelSetCalls cfg g cs) m)
        (sharedRun o (levelSetCalls cfg g (cs.filter (· ≠ .output))) m')
  | [], _, g, m, m', h => by
    refine h.mono ?_
    cases g <;> cases cfg.projection <;> decide
  | c :: cs, hr, g, m, m', h => by
    have hr' : TwoCall.refine true ∉ cs := fun k => hr (List.mem_cons_of_mem c k)
    have hrc : c ≠ .refine true := fun k => hr (k ▸ List.mem_cons_self)
    by_cases hc : c = .output
    · subst hc
      rw [List.filter_cons_of_neg (by simp)]
      simp only [levelSetCalls, sharedRun, next_output]
      refine observer_drop hs ho cfg cs hr' g _ m' (SameFields.trans ?_ h)
      cases g with
      | initial => exact output_initial ho cfg m
      | stepped => exact (output_running ho cfg m).mono (by cases cfg.projection <;> decide)
      | adapted => exact (output_running ho cfg m).mono (by cases cfg.projection <;> decide)
    · rw [List.filter_cons_of_pos (by simpa using hc)]
      simp only [levelSetCalls, sharedRun]
      exact observer_drop hs ho cfg cs hr' (g.next c) _ _ (keeps_observer hs cfg g c hc hrc m m' h)

theorem next_running {g : Stage} (hg : g ≠ .initial) (c : TwoCall) : g.next c ≠ .initial := by
  cases g with
  | initial => exact absurd rfl hg
  | stepped => cases c with
    | refine b => cases b <;> decide
    | _ => decide
  | adapted => cases c with
    | refine b => cases b <;> decide
    | _ => decide

/-- The same after the first step, for arbitrary projections. -/
theorem running_drop (ho : o.Silent) (cfg : Cfg) :
    ∀ (cs : List TwoCall) (g : Stage) (_ : g ≠ .initial) (m m' : Mem Vec I S K),
      SameFields (levelSetFields cfg.projection) m m' →
      SameFields (levelSetFields cfg.projection) (sharedRun o (levelSetCalls cfg g cs) m)
        (sharedRun o (levelSetCalls cfg g (cs.filter (· ≠ .output))) m')
  | [], _, _, _, _, h => h
  | c :: cs, g, hg, m, m', h => by
    by_cases hc : c = .output
    · subst hc
      rw [List.filter_cons_of_neg (by simp)]
      simp only [levelSetCalls, sharedRun, next_output]
      refine running_drop ho cfg cs g hg _ m' (SameFields.trans ?_ h)
      cases g with
      | initial => exact absurd rfl hg
      | stepped => exact output_running ho cfg m
      | adapted => exact output_running ho cfg m
    · rw [List.filter_cons_of_pos (by simpa using hc)]
      simp only [levelSetCalls, sharedRun]
      exact running_drop ho cfg cs (g.next c) (next_running hg c) _ _
        (keeps_levelSetCall o cfg c g m m' h)

/-- A history in which nothing is written before the first step. -/
def LateOutput : List TwoCall → Prop
  | [] => True
  | .output :: _ => False
  | .step :: _ => True
  | _ :: cs => LateOutput cs

theorem late_drop (ho : o.Silent) (cfg : Cfg) :
    ∀ (cs : List TwoCall) (_ : LateOutput cs) (m m' : Mem Vec I S K),
      SameFields (levelSetFields cfg.projection) m m' →
      SameFields (levelSetFields cfg.projection) (sharedRun o (levelSetCalls cfg .initial cs) m)
        (sharedRun o (levelSetCalls cfg .initial (cs.filter (· ≠ .output))) m')
  | [], _, _, _, h => h
  | .step :: cs, _, m, m', h =>
    running_drop ho cfg cs .stepped (by decide) _ _ (keeps_levelSetCall o cfg .step .initial m m' h)
  | .refine b :: cs, hl, m, m', h => by
    have k := late_drop ho cfg cs hl _ _ (keeps_levelSetCall o cfg (.refine b) .initial m m' h)
    rw [List.filter_cons_of_pos (by simp)]
    have e : Stage.initial.next (.refine b) = .initial := by cases b <;> rfl
    simp only [levelSetCalls, sharedRun, e]
    exact k
  | .statistics :: cs, hl, m, m', h => by
    have k := late_drop ho cfg cs hl _ _ (keeps_levelSetCall o cfg .statistics .initial m m' h)
    rw [List.filter_cons_of_pos (by simp)]
    exact k

end Core

/-! ## C122 -/

section Theorems
variable {I C S K : Type} [AddCommMonoid K] [Fintype C]

/-- **C122, flow solver.**  Two histories that differ only in calls of `output_solution` end with
the same contents of all vectors, not only of the solution fields, and the same scalars. -/
theorem C122_flow (o : Ops I C K S) (ho : o.Silent) (cfg : Cfg) (calls calls' : List FlowCall)
    (h : SameButFor .output calls calls') (m : Mem Vec I S K) :
    sharedRun o (calls.map (·.prog cfg)) m = sharedRun o (calls'.map (·.prog cfg)) m :=
  same_outputs (fun c : FlowCall => c.prog cfg) .output (flowOutput_id ho) h m

/-- **C122, phase field solver.** -/
theorem C122_phase_field (o : Ops I C K S) (ho : o.Silent) (cfg : Cfg) (calls calls' : List TwoCall)
    (h : SameButFor .output calls calls') (m : Mem Vec I S K) :
    sharedRun o (calls.map (·.phaseField cfg)) m = sharedRun o (calls'.map (·.phaseField cfg)) m :=
  same_outputs (fun c : TwoCall => c.phaseField cfg) .output (twoPhaseOutput_id ho) h m

/-- **C122, sharp-interface solvers.** -/
theorem C122_sharp (o : Ops I C K S) (ho : o.Silent) (cfg : Cfg) (calls calls' : List SharpCall)
    (h : SameButFor .output calls calls') (m : Mem Vec I S K) :
    sharedRun o (calls.map (·.mixed cfg)) m = sharedRun o (calls'.map (·.mixed cfg)) m ∧
    sharedRun o (calls.map (·.front cfg)) m = sharedRun o (calls'.map (·.front cfg)) m :=
  ⟨same_outputs (fun c : SharpCall => c.mixed cfg) .output (mixedOutput_id ho) h m,
    same_outputs (fun c : SharpCall => c.front cfg) .output (frontOutput_id ho) h m⟩

/-- **C122, level set solver.**  Two histories after `setup_problem` that differ only in calls of
`output_solution` made after the first step end with the same velocity, pressure, level set,
curvature, normals, Heaviside function and scalars.
Missing: output before the first step, see the next two theorems. -/
theorem C122_level_set_partial (o : Ops I C K S) (ho : o.Silent) (cfg : Cfg)
    (calls calls' : List TwoCall) (hl : LateOutput calls) (hl' : LateOutput calls')
    (h : SameButFor .output calls calls') (m : Mem Vec I S K) :
    SameFields (levelSetFields cfg.projection) (sharedRun o (levelSetCalls cfg .initial calls) m)
      (sharedRun o (levelSetCalls cfg .initial calls') m) := by
  have h1 := late_drop ho cfg calls hl m m (SameFields.refl _ m)
  have h2 := late_drop ho cfg calls' hl' m m (SameFields.refl _ m)
  rw [← h] at h2
  exact h1.trans h2.symm

/-- **C122, level set solver, accurate projections.**  If the computation of normals and curvature
does not depend on its start vector, output may be written at any time, also before the first step:
velocity, pressure, level set, their old values and the scalars are the same.
Missing: changes of the mesh (the transfer is one operation on all vectors here). -/
theorem C122_level_set_accurate_partial (o : Ops I C K S) (ho : o.Silent) (hs : o.StartFree)
    (cfg : Cfg) (calls calls' : List TwoCall) (hr : .refine true ∉ calls)
    (h : SameButFor .output calls calls') (m : Mem Vec I S K) :
    SameFields (levelSetCore cfg.projection) (sharedRun o (levelSetCalls cfg .initial calls) m)
      (sharedRun o (levelSetCalls cfg .initial calls') m) := by
  have hr' : TwoCall.refine true ∉ calls' := by
    intro k
    have k2 : TwoCall.refine true ∈ calls'.filter (· ≠ .output) := List.mem_filter.2 ⟨k, by decide⟩
    rw [← h] at k2
    exact hr (List.mem_filter.1 k2).1
  have h1 := observer_drop hs ho cfg calls hr .initial m m (SameFields.refl _ m)
  have h2 := observer_drop hs ho cfg calls' hr' .initial m m (SameFields.refl _ m)
  rw [← h] at h2
  exact h1.trans h2.symm

end Theorems

/-! ## On several processes -/

section Processes
variable {R R' I C S K : Type} [DecidableEq R] [Fintype R] [DecidableEq R'] [Fintype R']
  [Fintype I] [Fintype C] [AddCommMonoid K]

/-- **C122, flow solver on several processes**: also with different numbers of processes. -/
theorem C122_flow_parallel (o : Ops I C K S) (ho : o.Silent) (e : Env R I C K S)
    (e' : Env R' I C K S) (cfg : Cfg) (calls calls' : List FlowCall)
    (h : SameButFor .output calls calls') (s : State Vec R I C S K) (s' : State Vec R' I C S K)
    (hm : s.mem = s'.mem) :
    ∃ t t', run o e (flowSetup :: calls.map (·.prog cfg)) s = some t ∧
      run o e' (flowSetup :: calls'.map (·.prog cfg)) s' = some t' ∧
      (∀ x i, (t.vec x).own i = (t'.vec x).own i) ∧ t.aux = t'.aux := by
  obtain ⟨t, h1, h2, -⟩ := C103_flow_partial o e cfg calls s
  obtain ⟨t', h1', h2', -⟩ := C103_flow_partial o e' cfg calls' s'
  have k : t.mem = t'.mem := by
    rw [h2, h2', hm]
    exact C122_flow o ho cfg calls calls' h _
  exact ⟨t, t', h1, h1', fun x i => congrFun (congrFun (congrArg Mem.vec k) x) i, congrArg Mem.aux k⟩

/-- **C122, level set solver on several processes** (the parameters and histories of C103). -/
theorem C122_level_set_parallel_partial (o : Ops I C K S) (ho : o.Silent) (e : Env R I C K S)
    (e' : Env R' I C K S) (cfg : Cfg) (hst : cfg.stabilization = false)
    (hop : ¬ (cfg.projection = true ∧ cfg.openBoundary = true)) (calls calls' : List TwoCall)
    (hg : Stage.initial.Legal calls) (hg' : Stage.initial.Legal calls')
    (hl : LateOutput calls) (hl' : LateOutput calls')
    (h : SameButFor .output calls calls') (s : State Vec R I C S K) (s' : State Vec R' I C S K)
    (hm : s.mem = s'.mem) :
    ∃ t t', run o e (levelSetSetup cfg :: levelSetCalls cfg .initial calls) s = some t ∧
      run o e' (levelSetSetup cfg :: levelSetCalls cfg .initial calls') s' = some t' ∧
      (∀ v ∈ levelSetFields cfg.projection, (t.vec v).own = (t'.vec v).own) ∧ t.aux = t'.aux := by
  obtain ⟨t, h1, h2, -⟩ := C103_level_set_partial o e cfg hst calls hg
    (fun a b => absurd ⟨a, b⟩ hop) s
  obtain ⟨t', h1', h2', -⟩ := C103_level_set_partial o e' cfg hst calls' hg'
    (fun a b => absurd ⟨a, b⟩ hop) s'
  have k := C122_level_set_partial o ho cfg calls calls' hl hl' h
    ((levelSetSetup cfg).shared o s.mem)
  have e1 : t.mem = sharedRun o (levelSetCalls cfg .initial calls)
      ((levelSetSetup cfg).shared o s.mem) := h2
  have e2 : t'.mem = sharedRun o (levelSetCalls cfg .initial calls')
      ((levelSetSetup cfg).shared o s.mem) := by rw [hm]; exact h2'
  rw [← e1, ← e2] at k
  exact ⟨t, t', h1, h1', k.2, k.1⟩

end Processes

/-! ## Where output matters -/

/-- **C122 fails for output before the first step**, if the projections stop before convergence:
the normals and the curvature computed for the file are their start vectors in the first step. -/
theorem C122_initial_output_matters :
    oldOps.Silent ∧ SameButFor TwoCall.output [.output, .step] [.step] ∧
    (sharedRun oldOps (levelSetCalls coupledCfg .initial [.output, .step]) (oneOff .c 1)).vec .u ≠
      (sharedRun oldOps (levelSetCalls coupledCfg .initial [.step]) (oneOff .c 1)).vec .u := by
  refine ⟨fun _ _ _ => ⟨rfl, rfl⟩, by unfold SameButFor; decide, fun h => ?_⟩
  have h2 := congrFun h ()
  revert h2
  decide +kernel

/-! ## The hypotheses can be met -/

example : LateOutput [.refine true, .statistics, .step, .output, .refine true, .step, .output] ∧
    LateOutput [.refine true, .statistics, .step, .refine true, .step] ∧
    SameButFor TwoCall.output [.refine true, .statistics, .step, .output, .refine true, .step, .output]
      [.refine true, .statistics, .step, .refine true, .step] :=
  ⟨trivial, trivial, by unfold SameButFor; decide⟩

/-- Operations for which output is silent, and other evaluations change the scalars. -/
example : ∃ o : Ops Unit Unit ℕ ℕ, o.Silent ∧ o.StartFree ∧ o.ev "norm" 0 [] (fun _ => []) = 1 :=
  ⟨⟨fun _ _ _ _ => 0, fun _ _ _ _ _ => 0, fun _ _ _ _ => 0,
    fun l s _ _ => if l = "norm" then s + 1 else s, fun _ _ => true, fun _ _ => 1⟩,
    fun _ _ _ => ⟨rfl, rfl⟩, fun _ _ _ _ => rfl, rfl⟩

end Verif.Parallel
