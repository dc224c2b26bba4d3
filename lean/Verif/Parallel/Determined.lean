/-
# C110: the solution fields determine the rest of a run

adaflo keeps many work vectors besides the solution fields: increments, right hand sides, old
solutions of the oldest level, normals, Krylov vectors.  Several routines share them.  This file
shows which vectors of a solver matter for the rest of a run: two solver objects that agree in
these fields (and in the scalars: clock, parameters, mesh) give the same results in every history
of calls, whatever the work vectors hold.  Hence these fields are what a restart file would have
to contain, and with C103 the run can be continued on another number of processes.

The programs are those of `Verif.Parallel.Programs`; what the routines compute is arbitrary
(`Ops`).  Cell-wise data (evaluated normals and velocities, densities, preconditioner matrices)
are part of the scalars.
-/
import Verif.Parallel.Runs

namespace Verif.Parallel

set_option maxRecDepth 100000
set_option linter.unusedSectionVars false

/-! ## Static analysis: which data of two executions agree -/

/-- Vectors (and scalars) in which two executions agree for sure. -/
structure Agr (V : Type) where
  vec : V → Bool
  aux : Bool

namespace Agr
variable {V : Type}

def none : Agr V := ⟨fun _ => false, false⟩
def meet (a b : Agr V) : Agr V := ⟨fun v => a.vec v && b.vec v, a.aux && b.aux⟩
def le [Fintype V] (a b : Agr V) : Bool :=
  decide (∀ v, (!a.vec v || b.vec v) = true) && (!a.aux || b.aux)
def all (a : Agr V) (xs : List V) : Bool := a.aux && xs.all a.vec
def set [DecidableEq V] (a : Agr V) (x : V) (b : Bool) : Agr V :=
  { a with vec := Function.update a.vec x b }

end Agr

section Analysis
variable {V : Type} [DecidableEq V] [Fintype V]

/-- What agrees after a command.  `ex`: the result of the projections (label "cg") does not
depend on the start vector, the first argument. -/
def Cmd.agree (ex : Bool) : Cmd V → Agr V → Agr V
  | .zero x, a => a.set x true
  | .copy x y, a => a.set x (a.vec y)
  | .alg l x ys, a => a.set x (a.all (if ex && l == "cg" then ys.tail else ys))
  | .put _ x ys, a => a.set x (a.all ys)
  | .fill _ x rs, a => a.set x (a.all rs)
  | .spill _ x ys, a => a.set x (a.all ys)
  | .zeroOut x, a => a.set x true
  | .interp _ x, a => a.set x a.aux
  | .distribute _ x, a => a.set x (a.all [x])
  | .refresh _, a => a
  | .drop _, a => a
  | .swap x y, a =>
      { a with vec := fun z => if z = x then a.vec y else if z = y then a.vec x else a.vec z }
  | .loop _ x ss rs, a => a.set x (a.all (x :: (ss ++ rs)))
  | .eval _ ys rs, a => { a with aux := a.all (ys ++ rs) }
  | .remesh _, a => { a with vec := fun _ => true }

/-- Agreement kept by every round of a loop, found by iteration. -/
def findAgr (f : Agr V → Agr V) : ℕ → Agr V → Agr V
  | 0, _ => .none
  | n + 1, a => if a.le (f a) then a else findAgr f n (a.meet (f a))

def Prog.agree (ex : Bool) : Prog V → Agr V → Agr V
  | .skip, a => a
  | .cmd c, a => c.agree ex a
  | .seq p q, a => q.agree ex (p.agree ex a)
  | .ite _ p q, a => if a.aux then (p.agree ex a).meet (q.agree ex a) else .none
  | .iter _ p, a =>
      let b := findAgr (p.agree ex) 20 a
      if a.aux && b.aux then b else .none

end Analysis

/-! ## Soundness -/

section Sound
variable {V I C S K : Type} [DecidableEq V] [Fintype V] [AddCommMonoid K] [Fintype C]

/-- The two memories agree in the data of `a`. -/
def Mem.Agree (a : Agr V) (m m' : Mem V I S K) : Prop :=
  (∀ v, a.vec v = true → m.vec v = m'.vec v) ∧ (a.aux = true → m.aux = m'.aux)

/-- The result of the projections does not depend on the start vector of the iteration. -/
def Ops.StartFree (o : Ops I C K S) : Prop :=
  ∀ s x y zs, o.loc "cg" s (x :: zs) = o.loc "cg" s (y :: zs)

omit [DecidableEq V] [Fintype C] [AddCommMonoid K] in
theorem Agr.le_sound {a b : Agr V} (h : a.le b = true) {m m' : Mem V I S K} (hb : m.Agree b m') :
    m.Agree a m' := by
  simp only [Agr.le, Bool.and_eq_true, decide_eq_true_eq] at h
  refine ⟨fun v hv => hb.1 v ?_, fun ha => hb.2 ?_⟩
  · have := h.1 v; rw [hv] at this; simpa using this
  · have := h.2; rw [ha] at this; simpa using this

omit [DecidableEq V] [Fintype V] [Fintype C] [AddCommMonoid K] in
theorem Agr.meet_left {a b : Agr V} {m m' : Mem V I S K} (h : m.Agree a m') :
    m.Agree (a.meet b) m' := by
  refine ⟨fun v hv => h.1 v ?_, fun hv => h.2 ?_⟩ <;>
    simp only [Agr.meet, Bool.and_eq_true] at hv <;> exact hv.1

omit [DecidableEq V] [Fintype V] [Fintype C] [AddCommMonoid K] in
theorem Agr.meet_right {a b : Agr V} {m m' : Mem V I S K} (h : m.Agree b m') :
    m.Agree (a.meet b) m' := by
  refine ⟨fun v hv => h.1 v ?_, fun hv => h.2 ?_⟩ <;>
    simp only [Agr.meet, Bool.and_eq_true] at hv <;> exact hv.2

omit [DecidableEq V] [Fintype V] [Fintype C] [AddCommMonoid K] in
theorem agree_none {m m' : Mem V I S K} : m.Agree Agr.none m' :=
  ⟨fun _ hv => (by cases hv), fun hv => (by cases hv)⟩

omit [DecidableEq V] [Fintype V] [Fintype C] [AddCommMonoid K] in
theorem Mem.Agree.all {a : Agr V} {m m' : Mem V I S K} (h : m.Agree a m') {xs : List V}
    (hx : a.all xs = true) : m.aux = m'.aux ∧ xs.map m.vec = xs.map m'.vec := by
  simp only [Agr.all, Bool.and_eq_true, List.all_eq_true] at hx
  exact ⟨h.2 hx.1, List.map_congr_left fun v hv => h.1 v (hx.2 v hv)⟩

omit [Fintype V] [Fintype C] [AddCommMonoid K] in
theorem Mem.Agree.set {a : Agr V} {m m' : Mem V I S K} (h : m.Agree a m') (x : V) (b : Bool)
    (f f' : I → K) (hf : b = true → f = f') : (m.set x f).Agree (a.set x b) (m'.set x f') := by
  refine ⟨fun v hv => ?_, h.2⟩
  by_cases hx : v = x
  · subst hx
    simp only [Agr.set, Function.update_self] at hv
    simp only [Mem.set, Function.update_self]
    exact hf hv
  · simp only [Agr.set, Function.update_of_ne hx] at hv
    simp only [Mem.set, Function.update_of_ne hx]
    exact h.1 v hv

theorem Cmd.agree_sound {ex : Bool} {o : Ops I C K S} (ho : ex = true → o.StartFree) (c : Cmd V)
    {a : Agr V} {m m' : Mem V I S K} (h : m.Agree a m') :
    (c.shared o m).Agree (c.agree ex a) (c.shared o m') := by
  cases c with
  | zero x => exact h.set x _ _ _ fun _ => rfl
  | copy x y => exact h.set x _ _ _ fun hy => h.1 y hy
  | alg l x ys =>
    refine h.set x _ _ _ fun hy => ?_
    split_ifs at hy with hl
    · simp only [Bool.and_eq_true, beq_iff_eq] at hl
      obtain ⟨h1, h2⟩ := h.all hy
      cases ys with
      | nil => rw [h1]; rfl
      | cons y ys =>
        simp only [List.tail_cons] at h2
        rw [hl.2, h1, List.map_cons, List.map_cons, h2]
        exact ho hl.1 _ _ _ _
    · obtain ⟨h1, h2⟩ := h.all hy; rw [h1, h2]
  | put l x ys => exact h.set x _ _ _ fun hy => by obtain ⟨h1, h2⟩ := h.all hy; rw [h1, h2]
  | fill l x ys => exact h.set x _ _ _ fun hy => by obtain ⟨h1, h2⟩ := h.all hy; rw [h1, h2]
  | spill l x ys => exact h.set x _ _ _ fun hy => by obtain ⟨h1, h2⟩ := h.all hy; rw [h1, h2]
  | zeroOut x => exact h.set x _ _ _ fun _ => rfl
  | interp l x => exact h.set x _ _ _ fun hy => by rw [h.2 hy]
  | distribute l x =>
    exact h.set x _ _ _ fun hy => by
      obtain ⟨h1, h2⟩ := h.all hy
      simp only [List.map_cons, List.map_nil] at h2
      rw [h1, h2]
  | refresh x => exact h
  | drop x => exact h
  | swap x y =>
    refine ⟨fun v hv => ?_, h.2⟩
    simp only [Cmd.agree] at hv
    simp only [Cmd.shared]
    split_ifs at hv ⊢
    · exact h.1 _ hv
    · exact h.1 _ hv
    · exact h.1 _ hv
  | loop l x ss rs =>
    refine h.set x _ _ _ fun hy => ?_
    obtain ⟨h1, h2⟩ := h.all hy
    rw [List.map_cons, List.map_cons, List.cons.injEq] at h2
    rw [h1, h2.1, h2.2]
  | eval l ys rs =>
    refine ⟨h.1, fun hy => ?_⟩
    obtain ⟨h1, h2⟩ := h.all hy
    rw [List.map_append, List.map_append] at h2
    obtain ⟨h3, h4⟩ := List.append_inj h2 (by rw [List.length_map, List.length_map])
    simp only [Cmd.shared]
    rw [h1, h3, h4]
  | remesh l => exact ⟨fun _ _ => rfl, h.2⟩

theorem findAgr_sound (f : Agr V → Agr V) : ∀ (n : ℕ) (a : Agr V),
    ((findAgr f n a).le (f (findAgr f n a)) = true ∨ findAgr f n a = Agr.none) ∧
      ∀ m m' : Mem V I S K, m.Agree a m' → m.Agree (findAgr f n a) m'
  | 0, a => ⟨Or.inr rfl, fun _ _ _ => agree_none⟩
  | n + 1, a => by
    simp only [findAgr]
    split_ifs with h
    · exact ⟨Or.inl h, fun _ _ k => k⟩
    · obtain ⟨h1, h2⟩ := findAgr_sound f n (a.meet (f a))
      exact ⟨h1, fun m m' k => h2 m m' (Agr.meet_left k)⟩

theorem iter_agree {a : Agr V} (ha : a.aux = true) {g : Mem V I S K → Mem V I S K} (go : S → Bool)
    (hg : ∀ m m' : Mem V I S K, m.Agree a m' → (g m).Agree a (g m')) :
    ∀ (n : ℕ) (m m' : Mem V I S K), m.Agree a m' →
      (iterShared (fun m => go m.aux) g n m).Agree a (iterShared (fun m => go m.aux) g n m')
  | 0, _, _, h => h
  | n + 1, m, m', h => by
    simp only [iterShared]
    have e : m.aux = m'.aux := h.2 ha
    by_cases hb : go m'.aux = true
    · rw [if_pos (by rw [e]; exact hb), if_pos hb]
      exact iter_agree ha go hg n _ _ (hg _ _ h)
    · rw [if_neg (by rw [e]; exact hb), if_neg hb]
      exact h

/-- Executions that agree in `a` before a program agree afterwards in what the analysis says. -/
theorem Prog.agree_sound {ex : Bool} {o : Ops I C K S} (ho : ex = true → o.StartFree) :
    ∀ (p : Prog V) (a : Agr V) (m m' : Mem V I S K), m.Agree a m' →
      (p.shared o m).Agree (p.agree ex a) (p.shared o m')
  | .skip, _, _, _, h => h
  | .cmd c, _, _, _, h => c.agree_sound ho h
  | .seq p q, a, m, m', h =>
    Prog.agree_sound ho q _ _ _ (Prog.agree_sound ho p a m m' h)
  | .ite l p q, a, m, m', h => by
    simp only [Prog.agree, Prog.shared]
    split_ifs with ha h1 h2
    · exact Agr.meet_left (Prog.agree_sound ho p a m m' h)
    · rw [h.2 ha] at h1; exact absurd h1 h2
    · rename_i h3; rw [h.2 ha] at h1; exact absurd h3 h1
    · exact Agr.meet_right (Prog.agree_sound ho q a m m' h)
    all_goals exact agree_none
  | .iter l p, a, m, m', h => by
    simp only [Prog.agree, Prog.shared]
    split_ifs with hc
    · simp only [Bool.and_eq_true] at hc
      obtain ⟨h1, h2⟩ := findAgr_sound (I := I) (S := S) (K := K) (p.agree ex) 20 a
      rw [h.2 hc.1]
      refine iter_agree hc.2 (o.cond l) ?_ _ _ _ (h2 m m' h)
      intro x x' hx
      rcases h1 with h1 | h1
      · exact Agr.le_sound h1 (Prog.agree_sound ho p _ x x' hx)
      · rw [h1] at hc; cases hc.2
    · exact agree_none

end Sound

/-! ## Fields that determine a run -/

section Fields
variable {I C S K : Type} [AddCommMonoid K] [Fintype C]

/-- **Specification**: the same scalars and the same values of the vectors in the list. -/
def SameFields (F : List Vec) (m m' : Mem Vec I S K) : Prop :=
  m.aux = m'.aux ∧ ∀ v ∈ F, m.vec v = m'.vec v

/-- Agreement in the list `F` before `p` gives agreement in `G` afterwards, for all data. -/
def Keeps (o : Ops I C K S) (F : List Vec) (p : P) (G : List Vec) : Prop :=
  ∀ m m' : Mem Vec I S K, SameFields F m m' → SameFields G (p.shared o m) (p.shared o m')

def fieldSet (F : List Vec) : Agr Vec := ⟨fun v => F.contains v, true⟩

/-- The analysis succeeds. -/
def det (ex : Bool) (F : List Vec) (p : P) (G : List Vec) : Bool :=
  (p.agree ex (fieldSet F)).all G

theorem Keeps.of {ex : Bool} {o : Ops I C K S} (ho : ex = true → o.StartFree) {F G : List Vec}
    {p : P} (h : det ex F p G = true) : Keeps o F p G := by
  intro m m' hm
  have h0 : m.Agree (fieldSet F) m' :=
    ⟨fun v hv => hm.2 v (by simpa [fieldSet] using hv), fun _ => hm.1⟩
  have h1 := Prog.agree_sound ho p _ m m' h0
  simp only [det, Agr.all, Bool.and_eq_true, List.all_eq_true] at h
  exact ⟨h1.2 h.1, fun v hv => h1.1 v (h.2 v hv)⟩

theorem Keeps.plain {o : Ops I C K S} {F G : List Vec} {p : P} (h : det false F p G = true) :
    Keeps o F p G := Keeps.of (ex := false) (fun h => by cases h) h

theorem Keeps.seq {o : Ops I C K S} {F G H : List Vec} {p q : P} (h : Keeps o F p G)
    (k : Keeps o G q H) : Keeps o F (.seq p q) H := fun m m' hm => k _ _ (h m m' hm)

theorem Keeps.ite {o : Ops I C K S} {F G : List Vec} {l : String} {p q : P} (h : Keeps o F p G)
    (k : Keeps o F q G) : Keeps o F (.ite l p q) G := by
  intro m m' hm
  simp only [Prog.shared]
  by_cases hb : o.cond l m'.aux = true
  · rw [if_pos (by rw [hm.1]; exact hb), if_pos hb]; exact h m m' hm
  · rw [if_neg (by rw [hm.1]; exact hb), if_neg hb]; exact k m m' hm

theorem Keeps.skip {o : Ops I C K S} {F G : List Vec} (h : ∀ v ∈ G, v ∈ F) :
    Keeps o F .skip G := fun _ _ hm => ⟨hm.1, fun v hv => hm.2 v (h v hv)⟩

/-- Vectors a program may change. -/
def Cmd.writes : Cmd Vec → Vec → Bool
  | .zero x, v => v = x
  | .copy x _, v => v = x
  | .alg _ x _, v => v = x
  | .put _ x _, v => v = x
  | .fill _ x _, v => v = x
  | .spill _ x _, v => v = x
  | .zeroOut x, v => v = x
  | .interp _ x, v => v = x
  | .distribute _ x, v => v = x
  | .refresh _, _ => false
  | .drop _, _ => false
  | .swap x y, v => v = x || v = y
  | .loop _ x _ _, v => v = x
  | .eval _ _ _, _ => false
  | .remesh _, _ => true

def Prog.writes : P → Vec → Bool
  | .skip, _ => false
  | .cmd c, v => c.writes v
  | .seq p q, v => p.writes v || q.writes v
  | .ite _ p q, v => p.writes v || q.writes v
  | .iter _ p, v => p.writes v

theorem Cmd.unwritten (o : Ops I C K S) {v : Vec} (c : Cmd Vec) (h : c.writes v = false)
    (m : Mem Vec I S K) : (c.shared o m).vec v = m.vec v := by
  cases c <;> simp_all [Cmd.writes, Cmd.shared, Mem.set]

theorem Prog.unwritten (o : Ops I C K S) {v : Vec} : ∀ (p : P), p.writes v = false →
    ∀ m : Mem Vec I S K, (p.shared o m).vec v = m.vec v
  | .skip, _, _ => rfl
  | .cmd c, h, m => c.unwritten o h m
  | .seq p q, h, m => by
    simp only [Prog.writes, Bool.or_eq_false_iff] at h
    exact (Prog.unwritten o q h.2 _).trans (Prog.unwritten o p h.1 m)
  | .ite l p q, h, m => by
    simp only [Prog.writes, Bool.or_eq_false_iff] at h
    simp only [Prog.shared]
    split_ifs
    · exact Prog.unwritten o p h.1 m
    · exact Prog.unwritten o q h.2 m
  | .iter l p, h, m => by
    simp only [Prog.writes] at h
    simp only [Prog.shared]
    generalize o.count l m.aux = n
    induction n generalizing m with
    | zero => rfl
    | succ n ih =>
      simp only [iterShared]
      split_ifs
      · exact (ih _).trans (Prog.unwritten o p h m)
      · rfl

/-- Vectors a program does not change stay equal. -/
theorem Keeps.frame {o : Ops I C K S} {F G : List Vec} {p : P} (h : Keeps o F p G) (X : List Vec)
    (hX : X.all (fun v => !p.writes v) = true) : Keeps o (F ++ X) p (G ++ X) := by
  intro m m' hm
  have h1 := h m m' ⟨hm.1, fun v hv => hm.2 v (List.mem_append_left X hv)⟩
  refine ⟨h1.1, fun v hv => ?_⟩
  rcases List.mem_append.1 hv with hv | hv
  · exact h1.2 v hv
  · have hw : p.writes v = false := by
      have := List.all_eq_true.1 hX v hv
      simpa using this
    rw [Prog.unwritten o p hw, Prog.unwritten o p hw]
    exact hm.2 v (List.mem_append_right F hv)

theorem Keeps.mono {o : Ops I C K S} {F F' G G' : List Vec} {p : P} (h : Keeps o F p G)
    (hF : F.all F'.contains = true) (hG : G'.all G.contains = true) : Keeps o F' p G' := by
  intro m m' hm
  have h1 := h m m' ⟨hm.1, fun v hv => hm.2 v (by
    have := List.all_eq_true.1 hF v hv; simpa using this)⟩
  exact ⟨h1.1, fun v hv => h1.2 v (by
    have := List.all_eq_true.1 hG v hv; simpa using this)⟩

theorem Keeps.run {α : Type} {o : Ops I C K S} {F : List Vec} (f : α → P) :
    ∀ (cs : List α), (∀ c ∈ cs, Keeps o F (f c) F) → ∀ m m' : Mem Vec I S K,
      SameFields F m m' → SameFields F (sharedRun o (cs.map f) m) (sharedRun o (cs.map f) m')
  | [], _, _, _, h => h
  | c :: cs, hc, m, m', h =>
    Keeps.run f cs (fun d hd => hc d (List.mem_cons_of_mem c hd)) _ _
      (hc c List.mem_cons_self m m' h)

end Fields

/-- Extra vectors of the projection scheme: the older pressure increment (pressure block of
`solution_old_old`) and the pressure block of `solution_update`. -/
def projectionFields (b : Bool) : List Vec := if b then [.poo, .dp] else []

/-- **Specification**: the fields of the flow solver: velocity and pressure, their old values,
the force given by the user. -/
def flowFields (b : Bool) : List Vec := [.u, .p, .uo, .po, .fu, .fp] ++ projectionFields b

/-- **Specification**: the same for histories in which a Stokes solve may occur, which reads the
older velocity too. -/
def flowFieldsFor (stokes b : Bool) : List Vec :=
  if stokes then .uoo :: flowFields b else flowFields b

/-- **Specification**: the fields of the phase field solver: velocity, pressure, concentration,
potential and their old values. -/
def phaseFieldFields (b : Bool) : List Vec :=
  [.u, .p, .uo, .po, .c, .w, .co, .wo] ++ projectionFields b

/-- **Specification**: the fields of the level set solver: velocity, pressure, level set,
curvature and their old values, normals, Heaviside function. -/
def levelSetFields (b : Bool) : List Vec :=
  [.u, .p, .uo, .po, .c, .w, .co, .wo, .n, .h] ++ projectionFields b

/-- **Specification**: the fields of the mixed level set solver: three velocity levels, pressure,
level set with old values, normals and curvature, force. -/
def mixedFields (b : Bool) : List Vec :=
  [.u, .p, .uo, .po, .uoo, .c, .co, .w, .n, .fu, .fp] ++ projectionFields b

/-- Fields in the middle of a step of the flow solver. -/
def flowMid (b : Bool) : List Vec :=
  [.u, .p, .uo, .po, .uoo, .ku, .kp, .fu, .fp] ++ projectionFields b

/-- Fields in the middle of a step of the two-phase solvers, before the force is computed. -/
def startedFields (b : Bool) : List Vec :=
  [.u, .p, .uo, .po, .uoo, .ku, .kp] ++ projectionFields b ++
    [.c, .w, .co, .wo, .coo, .woo, .dc, .dw]

/-- The same without the increment, with the force. -/
def forcedFields (b : Bool) : List Vec := flowMid b ++ [.c, .w, .co, .wo]

section Checks

theorem det_eval : ∀ a b c d e f : Bool,
    let cfg := flowCfg a b c d e f
    det false (flowMid a) (residual cfg) (.su :: .sp :: flowMid a) = true ∧
    det false (.su :: .sp :: flowMid a) (solveNonlinear cfg) (.uoo :: flowFields a) = true ∧
    [Vec.c, .w, .co, .wo, .coo, .woo, .dc, .dw, .n, .h].all
      (fun v => !(residual cfg).writes v) = true ∧
    [Vec.c, .w, .co, .wo, .coo, .woo, .dc, .dw, .n, .h].all
      (fun v => !(solveNonlinear cfg).writes v) = true := by
  decide +kernel

theorem det_flow : ∀ a b c : Bool,
    let cfg := flowCfg a b c false false false
    det false (flowFields a) (flowInit cfg) (flowMid a) = true ∧
    det false (.uoo :: flowFields a) (applyBoundary cfg) (flowMid a) = true ∧
    det false (flowMid a) (eval "norm" [.u] []) (flowMid a) = true ∧
    det false (flowFields a) (flowRefine cfg) (flowFields a) = true ∧
    det false (flowFields a) flowOutput (flowFields a) = true ∧
    det false (phaseFieldFields a) (twoPhaseInit cfg) (startedFields a) = true ∧
    det false (levelSetFields a) (twoPhaseInit cfg) (startedFields a ++ [.n]) = true ∧
    det false (phaseFieldFields a) (adapt cfg) (phaseFieldFields a) = true ∧
    det false (levelSetFields a) (adapt cfg) (levelSetFields a) = true ∧
    [Vec.c, .co, .w, .n].all (fun v => !(flowInit cfg).writes v) = true := by
  decide +kernel

theorem det_older : ∀ a b c : Bool,
    let cfg := flowCfg a b c false false false
    det false (.uoo :: flowFields a) (flowRefine cfg) (.uoo :: flowFields a) = true ∧
    det false (.uoo :: flowFields a) flowOutput (.uoo :: flowFields a) = true := by
  decide +kernel

theorem det_two : ∀ a : Bool,
    det false (phaseFieldFields a) markPhaseField (phaseFieldFields a) = true ∧
    det false (phaseFieldFields a) twoPhaseOutput (phaseFieldFields a) = true ∧
    det false (phaseFieldFields a) statistics (phaseFieldFields a) = true ∧
    det false (startedFields a) phaseFieldForce (forcedFields a) = true ∧
    det false (levelSetFields a) (markLevelSet true) (levelSetFields a) = true ∧
    det false (levelSetFields a) (markLevelSet false) (levelSetFields a) = true ∧
    det false (levelSetFields a) statistics (levelSetFields a) = true := by
  decide +kernel

theorem det_cahnHilliard : ∀ a g : Bool,
    let cfg : Cfg := ⟨false, false, false, false, false, false, false, g, false, false, false, false⟩
    det false (startedFields a) (cahnHilliard cfg) (startedFields a) = true := by
  decide +kernel

theorem det_level : ∀ a s g v : Bool,
    let cfg : Cfg := ⟨a, false, false, false, false, false, s, false, g, false, false, v⟩
    det false (startedFields a ++ [.n]) (advanceConcentration cfg transportSolver)
      (startedFields a ++ [.n]) = true ∧
    det false (startedFields a ++ [.n]) reinitialize (startedFields a ++ [.n]) = true ∧
    det false (startedFields a ++ [.n]) (levelSetForce cfg)
      (flowMid a ++ [.c, .w, .co, .wo, .n, .h, .coo, .woo, .dc, .dw]) = true ∧
    det false (levelSetFields a) (levelSetOutput cfg true) (levelSetFields a) = true ∧
    det false (levelSetFields a) (levelSetOutput cfg false) (levelSetFields a) = true := by
  decide +kernel

theorem det_mixed : ∀ a s g k l v : Bool,
    let cfg : Cfg := ⟨a, false, false, false, false, false, s, false, g, k, l, v⟩
    det false (mixedFields a) (seqs [sharpLevelSetSolve cfg, opt cfg.surfaceMesh moveSurface,
      mixedForces cfg, put "set_zero" .fu [.fu]]) (mixedFields a) = true := by
  decide +kernel

theorem det_sharp : ∀ a : Bool,
    det false (mixedFields a) mixedOutput (mixedFields a) = true ∧
    det false (flowFields a) moveSurface (flowFields a) = true ∧
    det false (flowFields a) frontForces (flowFields a) = true ∧
    det false (flowFields a) (put "set_zero" .fu [.fu]) (flowFields a) = true ∧
    det false (flowFields a) frontOutput (flowFields a) = true := by
  decide +kernel

/-- Fields from which one step of the level set solver starts if the projections do not depend on
the start vector. -/
def levelSetCore (b : Bool) : List Vec := [.u, .p, .uo, .po, .c, .co] ++ projectionFields b

/-- After the start of such a step. -/
def coreStarted (b : Bool) : List Vec :=
  [.u, .p, .uo, .po, .uoo, .ku, .kp] ++ projectionFields b ++ [.c, .co, .coo, .dc]

theorem det_core : ∀ a b c : Bool,
    let cfg := flowCfg a b c false false false
    det true (levelSetCore a) (twoPhaseInit cfg) (coreStarted a) = true := by
  decide +kernel

theorem det_core_level : ∀ a s g v : Bool,
    let cfg : Cfg := ⟨a, false, false, false, false, false, s, false, g, false, false, v⟩
    det true (coreStarted a) (advanceConcentration cfg transportSolver) (coreStarted a) = true ∧
    det true (coreStarted a) reinitialize (coreStarted a) = true ∧
    det true (coreStarted a) (levelSetForce cfg)
      (flowMid a ++ [.c, .w, .co, .n, .h, .coo, .dc]) = true := by
  decide +kernel

end Checks

end Verif.Parallel
