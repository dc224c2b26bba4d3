import Verif.Boundary.Spec
import Mathlib.Tactic.Common
import Mathlib.Data.List.Induction

/-! # C09 - C11: boundary conditions -/

namespace Verif.Boundary

theorem find_set {α : Type} (m : Map α) (b c : Nat) (v : α) :
    (m.set b v).find c = if b = c then some v else m.find c := by
  induction m with
  | nil => simp [Map.set, Map.find]
  | cons e m ih =>
    obtain ⟨k, w⟩ := e
    simp only [Map.set]
    split_ifs with h1 h2 h3
    all_goals simp only [Map.find]
    all_goals try simp_all
    all_goals try (split_ifs <;> first | rfl | omega | (simp_all))
  
theorem has_iff {α : Type} (m : Map α) (b : Nat) : m.has b = true ↔ m.find b ≠ none := by
  unfold Map.has; cases m.find b <;> simp

theorem mem_keys_iff {α : Type} (m : Map α) (b : Nat) :
    b ∈ m.map Prod.fst ↔ m.find b ≠ none := by
  induction m with
  | nil => simp [Map.find]
  | cons e m ih =>
    obtain ⟨k, w⟩ := e
    simp only [List.map_cons, List.mem_cons, Map.find]
    split_ifs with h
    · simp [h]
    · rw [ih]; constructor
      · rintro (h' | h'); exact absurd h'.symm h; exact h'
      · exact Or.inr

/-- `getLast?` of a filterMap over an appended call. -/
theorem lastOf_append {β : Type} (f : Call → Option β) (cs : List Call) (c : Call) :
    lastOf f (cs ++ [c]) = (f c).or (lastOf f cs) := by
  unfold lastOf
  rw [List.filterMap_append]
  cases h : f c <;> simp [h]

theorem sinceClear_append (cs : List Call) (c : Call) :
    sinceClear (cs ++ [c]) = if c = .clear then [] else sinceClear cs ++ [c] := by
  induction cs with
  | nil => simp [sinceClear]
  | cons a cs ih =>
    simp only [List.cons_append, sinceClear, List.mem_append, List.mem_singleton]
    by_cases hc : c = .clear
    · simp [hc] at ih ⊢; exact ih
    · have hc' : ¬ Call.clear = c := fun h => hc h.symm
      simp only [hc, hc', or_false, if_false] at ih ⊢
      split_ifs <;> simp_all

theorem run_append (dim : Nat) (d : Desc) (cs : List Call) (c : Call) :
    d.run dim (cs ++ [c]) = ((d.run dim cs).exec dim c).1 := by
  simp [Desc.run, List.foldl_append]

/-- **C09 / C10.** After any sequence of calls on a new object, every stored condition of every
boundary id is the one requested by the last call of the kind *for that id* since the last
`clear_all_boundary_conditions()`, and is absent if there was none.  (`fluid_type` and
`periodic_boundaries` are treated in `C09_fluid_and_periodic`.) -/
theorem C09_last_call_decides (dim : Nat) (cs : List Call) (b : Nat) :
    let d := Desc.empty.run dim cs
    d.dirichlet.find b = lastOf (wantsDirichlet dim b) (sinceClear cs) ∧
    d.openP.find b = lastOf (wantsOpen b) (sinceClear cs) ∧
    d.normalFlux.find b = lastOf (wantsFlux b) (sinceClear cs) ∧
    d.pressureFix.find b = lastOf (wantsFix b) (sinceClear cs) ∧
    d.symmetry.find b = lastOf (wantsSymmetry b) (sinceClear cs) ∧
    d.noSlip.find b = lastOf (wantsNoSlip b) (sinceClear cs) := by
  induction cs using List.reverseRecOn with
  | nil => simp [Desc.run, Desc.empty, Map.find, lastOf, sinceClear]
  | append_singleton cs c ih =>
    simp only [run_append, sinceClear_append] at ih ⊢
    obtain ⟨h1, h2, h3, h4, h5, h6⟩ := ih
    by_cases hc : c = .clear
    · subst hc; simp [Desc.exec, Map.find, lastOf]
    simp only [hc, if_false, lastOf_append, ← h1, ← h2, ← h3, ← h4, ← h5, ← h6]
    set d := Desc.empty.run dim cs
    cases c with
    | dirichlet id f t =>
      cases f with
      | none =>
        simp [Desc.exec, Desc.setNoSlip, find_set, wantsDirichlet, wantsOpen, wantsFlux, wantsFix,
          wantsSymmetry, wantsNoSlip]
        split_ifs <;> simp
      | some f =>
        simp only [Desc.exec, Desc.setFluid, wantsDirichlet, wantsOpen, wantsFlux, wantsFix,
          wantsSymmetry, wantsNoSlip]
        by_cases hf : f.comps = dim <;> by_cases hb : id = b <;> split_ifs <;>
          simp_all [find_set]
    | openB id f t =>
      cases f with
      | none =>
        simp only [Desc.exec, Desc.setFluid, wantsDirichlet, wantsOpen, wantsFlux, wantsFix,
          wantsSymmetry, wantsNoSlip]
        by_cases hb : id = b <;> split_ifs <;> simp_all [find_set]
      | some f =>
        simp only [Desc.exec, Desc.setFluid, wantsDirichlet, wantsOpen, wantsFlux, wantsFix,
          wantsSymmetry, wantsNoSlip]
        by_cases hf : f.comps = 1 <;> by_cases hb : id = b <;> split_ifs <;>
          simp_all [find_set]
    | openFlux id f t =>
      cases f with
      | none =>
        simp only [Desc.exec, Desc.setFluid, wantsDirichlet, wantsOpen, wantsFlux, wantsFix,
          wantsSymmetry, wantsNoSlip]
        by_cases hb : id = b <;> split_ifs <;> simp_all [find_set]
      | some f =>
        simp only [Desc.exec, Desc.setFluid, wantsDirichlet, wantsOpen, wantsFlux, wantsFix,
          wantsSymmetry, wantsNoSlip]
        by_cases hf : f.comps = 1 <;> by_cases hb : id = b <;> split_ifs <;>
          simp_all [find_set]
    | fixP id f =>
      cases f with
      | none =>
        simp only [Desc.exec, wantsDirichlet, wantsOpen, wantsFlux, wantsFix,
          wantsSymmetry, wantsNoSlip]
        by_cases hb : id = b <;> simp_all [find_set]
      | some f =>
        simp only [Desc.exec, wantsDirichlet, wantsOpen, wantsFlux, wantsFix,
          wantsSymmetry, wantsNoSlip]
        by_cases hf : f.comps = 1 <;> by_cases hb : id = b <;> simp_all [find_set]
    | symmetry id =>
      simp only [Desc.exec, wantsDirichlet, wantsOpen, wantsFlux, wantsFix,
          wantsSymmetry, wantsNoSlip]
      by_cases hb : id = b <;> simp_all [find_set]
    | noSlip id =>
      simp only [Desc.exec, Desc.setNoSlip, wantsDirichlet, wantsOpen, wantsFlux, wantsFix,
          wantsSymmetry, wantsNoSlip]
      by_cases hb : id = b <;> simp_all [find_set]
    | periodic dir i o =>
      simp only [Desc.exec, wantsDirichlet, wantsOpen, wantsFlux, wantsFix,
          wantsSymmetry, wantsNoSlip]
      split_ifs <;> simp
    | clear => exact absurd rfl hc

/-- **C09 (fluid types, periodicity).** These are decided by the last call for the same id
(direction) as well — over the whole history, since clearing does not remove them. -/
theorem C09_fluid_and_periodic (dim : Nat) (cs : List Call) (b k : Nat) :
    let d := Desc.empty.run dim cs
    d.fluidType.find b = lastOf (wantsFluid dim b) cs ∧
    d.periodic k = (lastOf (wantsPeriodic dim k) cs).getD (invalidId, invalidId) := by
  induction cs using List.reverseRecOn with
  | nil => simp [Desc.run, Desc.empty, Map.find, lastOf]
  | append_singleton cs c ih =>
    simp only [run_append] at ih ⊢
    obtain ⟨h1, h2⟩ := ih
    simp only [lastOf_append, ← h1]
    set d := Desc.empty.run dim cs
    cases c with
    | dirichlet id f t =>
      cases f with
      | none => simp [Desc.exec, Desc.setNoSlip, wantsFluid, wantsPeriodic, h2]
      | some f =>
        simp only [Desc.exec, Desc.setFluid, wantsFluid, wantsPeriodic]
        by_cases hf : f.comps = dim <;> by_cases hb : id = b <;> split_ifs <;>
          simp_all [find_set]
    | openB id f t =>
      cases f with
      | none =>
        simp only [Desc.exec, Desc.setFluid, wantsFluid, wantsPeriodic]
        by_cases hb : id = b <;> split_ifs <;> simp_all [find_set]
      | some f =>
        simp only [Desc.exec, Desc.setFluid, wantsFluid, wantsPeriodic]
        by_cases hf : f.comps = 1 <;> by_cases hb : id = b <;> split_ifs <;>
          simp_all [find_set]
    | openFlux id f t =>
      cases f with
      | none =>
        simp only [Desc.exec, Desc.setFluid, wantsFluid, wantsPeriodic]
        by_cases hb : id = b <;> split_ifs <;> simp_all [find_set]
      | some f =>
        simp only [Desc.exec, Desc.setFluid, wantsFluid, wantsPeriodic]
        by_cases hf : f.comps = 1 <;> by_cases hb : id = b <;> split_ifs <;>
          simp_all [find_set]
    | fixP id f =>
      cases f with
      | none => simp [Desc.exec, wantsFluid, wantsPeriodic, h2]
      | some f =>
        simp only [Desc.exec, wantsFluid, wantsPeriodic]
        split_ifs <;> simp [h2]
    | symmetry id => simp [Desc.exec, wantsFluid, wantsPeriodic, h2]
    | noSlip id => simp [Desc.exec, Desc.setNoSlip, wantsFluid, wantsPeriodic, h2]
    | periodic dir i o =>
      simp only [Desc.exec, wantsFluid, wantsPeriodic]
      by_cases hk : dir = k
      · subst hk; split_ifs <;> simp_all
      · have : ¬ k = dir := fun h => hk h.symm
        split_ifs <;> simp_all
    | clear => simp [Desc.exec, wantsFluid, wantsPeriodic, h2]

/-- A call for another id asks for nothing at `b`: so conditions of other ids are unaffected. -/
theorem C09_other_ids_unaffected (dim : Nat) (cs : List Call) (b : Nat) (c : Call)
    (hc : c ≠ .clear)
    (h : wantsDirichlet dim b c = none ∧ wantsOpen b c = none ∧ wantsFlux b c = none ∧
      wantsFix b c = none ∧ wantsSymmetry b c = none ∧ wantsNoSlip b c = none) :
    let d := Desc.empty.run dim cs
    let d' := Desc.empty.run dim (cs ++ [c])
    d'.dirichlet.find b = d.dirichlet.find b ∧ d'.openP.find b = d.openP.find b ∧
    d'.normalFlux.find b = d.normalFlux.find b ∧ d'.pressureFix.find b = d.pressureFix.find b ∧
    d'.symmetry.find b = d.symmetry.find b ∧ d'.noSlip.find b = d.noSlip.find b := by
  have h1 := C09_last_call_decides dim cs b
  have h2 := C09_last_call_decides dim (cs ++ [c]) b
  simp only [sinceClear_append, hc, if_false, lastOf_append, h] at h1 h2
  simp_all

/-- Non-vacuity: a history with a replaced and a refused condition. -/
example : (Desc.empty.run 2 [.openB 1 none 0, .dirichlet 2 (some ⟨7, 2⟩) 1, .openB 1 (some ⟨3, 1⟩) 0,
    .openB 1 (some ⟨4, 2⟩) 0]).openP.find 1 = some (.user ⟨3, 1⟩) := by decide

/-- **C10 (cleared part).** After `clear_all_boundary_conditions()` no velocity, pressure, pressure
fix, normal flux, symmetry or no-slip condition survives, for any history before. -/
theorem C10_clear_partial (dim : Nat) (cs : List Call) (b : Nat) :
    let d := Desc.empty.run dim (cs ++ [.clear])
    d.dirichlet.find b = none ∧ d.openP.find b = none ∧ d.normalFlux.find b = none ∧
    d.pressureFix.find b = none ∧ d.symmetry.find b = none ∧ d.noSlip.find b = none := by
  have h := C09_last_call_decides dim (cs ++ [.clear]) b
  simpa [sinceClear_append, lastOf] using h

/-- **C10 (full statement fails).** Fluid types and periodic directions survive
`clear_all_boundary_conditions()`, and a periodic direction set before clearing makes setup reject a
configuration that is acceptable on a new object. -/
theorem C10_survivors :
    (Desc.empty.run 2 [.openB 3 none 1, .clear]).fluidType.find 3 = some 1 ∧
    (Desc.empty.run 2 [.periodic 0 3 4, .clear]).periodic 0 = (3, 4) ∧
    ((Desc.empty.run 2 [.periodic 0 3 4, .clear, .noSlip 3]).setup 2).isOk = false ∧
    ((Desc.empty.run 2 [.noSlip 3]).setup 2).isOk = true := by
  decide

theorem forM_ok_iff {α : Type} (f : α → Except Err Unit) (l : List α) :
    l.forM f = .ok () ↔ ∀ a ∈ l, f a = .ok () := by
  induction l with
  | nil => simp [pure, Except.pure]
  | cons a l ih =>
    simp only [List.mem_cons, forall_eq_or_imp, ← ih]
    change (f a >>= fun _ => l.forM f) = _ ↔ _
    cases h : f a with
    | error e => simp [bind, Except.bind]
    | ok u => simp [bind, Except.bind]

theorem setup_ok_iff (dim : Nat) (d : Desc) : d.setup dim = .ok () ↔
    (∀ k < dim, d.checkPeriodic k = .ok ()) ∧ (∀ b, d.symmetry.find b ≠ none → d.checkSymmetry b = .ok ())
    ∧ (∀ b, d.dirichlet.find b ≠ none → d.checkDirichlet b = .ok ()) ∧
    (∀ b, d.noSlip.find b ≠ none → d.checkDirichlet b = .ok ()) := by
  have e1 := forM_ok_iff d.checkPeriodic (List.range dim)
  have e2 := forM_ok_iff d.checkSymmetry (d.symmetry.map Prod.fst)
  have e3 := forM_ok_iff d.checkDirichlet (d.dirichlet.map Prod.fst)
  have e4 := forM_ok_iff d.checkDirichlet (d.noSlip.map Prod.fst)
  simp only [List.mem_range, mem_keys_iff] at e1 e2 e3 e4
  rw [← e1, ← e2, ← e3, ← e4]
  unfold Desc.setup
  cases (List.range dim).forM d.checkPeriodic with
  | error e => simp [bind, Except.bind]
  | ok u =>
    cases (d.symmetry.map Prod.fst).forM d.checkSymmetry with
    | error e => simp [bind, Except.bind]
    | ok u =>
      cases (d.dirichlet.map Prod.fst).forM d.checkDirichlet with
      | error e => simp [bind, Except.bind]
      | ok u => simp [bind, Except.bind]

/-- **C11.** Setup reports an error exactly if the configuration contains a conflict. -/
theorem C11_rejects_iff_conflict (dim : Nat) (d : Desc) :
    (∃ e, d.setup dim = .error e) ↔ Conflict dim d := by
  have h : (∃ e, d.setup dim = .error e) ↔ ¬ d.setup dim = .ok () := by
    cases d.setup dim <;> simp
  rw [h, setup_ok_iff]
  have hd : ∀ b, d.checkDirichlet b = .ok () ↔ d.openP.find b = none := by
    intro b
    unfold Desc.checkDirichlet
    rcases hb : d.openP.has b with _ | _
    · simp [Map.has] at hb; simp [hb]
    · have := (has_iff _ _).1 hb; simp [this]
  have hs : ∀ b, d.checkSymmetry b = .ok () ↔
      d.openP.find b = none ∧ d.noSlip.find b = none ∧ d.dirichlet.find b = none := by
    intro b
    unfold Desc.checkSymmetry Map.has
    cases d.openP.find b <;> cases d.noSlip.find b <;> cases d.dirichlet.find b <;> simp
  have hp : ∀ k, d.checkPeriodic k = .ok () ↔ (d.periodic k ≠ (invalidId, invalidId) →
      (∀ id, (id = (d.periodic k).1 ∨ id = (d.periodic k).2) → d.openP.find id = none ∧
        d.dirichlet.find id = none ∧ d.noSlip.find id = none ∧ d.symmetry.find id = none) ∧
      (d.periodic k).1 ≠ (d.periodic k).2) := by
    intro k
    unfold Desc.checkPeriodic Map.has
    generalize d.periodic k = q
    obtain ⟨i, o⟩ := q
    by_cases hq : (i, o) = (invalidId, invalidId)
    · simp [hq]
    · simp only [ne_eq, hq, not_false_eq_true, if_true, forall_true_left, forall_eq_or_imp,
        forall_eq]
      by_cases hio : i = o
      · subst hio
        cases d.openP.find i <;> cases d.dirichlet.find i <;> cases d.noSlip.find i <;>
          cases d.symmetry.find i <;> simp
      · cases d.openP.find i <;> cases d.dirichlet.find i <;> cases d.noSlip.find i <;>
          cases d.symmetry.find i <;> cases d.openP.find o <;> cases d.dirichlet.find o <;>
          cases d.noSlip.find o <;> cases d.symmetry.find o <;> simp [hio]
  simp only [hd, hs, hp]
  constructor
  · intro h
    by_contra hc
    apply h
    refine ⟨fun k hk hne => ⟨fun id hid => ?_, fun he => hc (.periodicEqual k hk hne he)⟩, ?_, ?_, ?_⟩
    · have := fun hm => hc (.periodicMixed k hk hne id hid hm)
      tauto
    · intro b hb
      have := fun hm => hc (.symmetryMixed b hb hm)
      tauto
    · intro b hb
      have := fun hm => hc (.velocityOpen b (.inl hb) hm)
      tauto
    · intro b hb
      have := fun hm => hc (.velocityOpen b (.inr hb) hm)
      tauto
  · rintro (⟨k, hk, hne, he⟩ | ⟨k, hk, hne, id, hid, hm⟩ | ⟨id, hs', hm⟩ | ⟨id, hv, ho⟩) ⟨h1, h2, h3, h4⟩
    · exact (h1 k hk hne).2 he
    · have := (h1 k hk hne).1 id hid; tauto
    · have := h2 id hs'; tauto
    · rcases hv with hv | hv
      · exact ho (h3 id hv)
      · exact ho (h4 id hv)

/-- **C11 (acceptance).** If every id carries at most one kind of condition and periodic pairs are
distinct, setup accepts. -/
theorem C11_single_kind_accepted (dim : Nat) (d : Desc)
    (kind : Nat → Fin 5)
    (h0 : ∀ b, d.openP.find b ≠ none → kind b = 0)
    (h1 : ∀ b, d.dirichlet.find b ≠ none → kind b = 1)
    (h2 : ∀ b, d.noSlip.find b ≠ none → kind b = 2)
    (h3 : ∀ b, d.symmetry.find b ≠ none → kind b = 3)
    (h4 : ∀ k < dim, d.periodic k ≠ (invalidId, invalidId) →
      kind (d.periodic k).1 = 4 ∧ kind (d.periodic k).2 = 4 ∧ (d.periodic k).1 ≠ (d.periodic k).2) :
    d.setup dim = .ok () := by
  by_contra hne
  have hex : ∃ e, d.setup dim = .error e := by
    cases h : d.setup dim with
    | error e => exact ⟨e, rfl⟩
    | ok u => exact absurd h hne
  rcases (C11_rejects_iff_conflict dim d).1 hex with
    ⟨k, hk, hne, he⟩ | ⟨k, hk, hne, id, hid, hm⟩ | ⟨id, hs', hm⟩ | ⟨id, hv, ho⟩
  · exact (h4 k hk hne).2.2 he
  · have hk4 : kind id = 4 := by
      rcases hid with rfl | rfl
      · exact (h4 k hk hne).1
      · exact (h4 k hk hne).2.1
    rcases hm with h | h | h | h
    · have := h0 _ h; simp [hk4] at this
    · have := h1 _ h; simp [hk4] at this
    · have := h2 _ h; simp [hk4] at this
    · have := h3 _ h; simp [hk4] at this
  · have hk := h3 _ hs'
    rcases hm with h | h | h
    · have := h0 _ h; simp [hk] at this
    · have := h1 _ h; simp [hk] at this
    · have := h2 _ h; simp [hk] at this
  · have hk := h0 _ ho
    rcases hv with h | h
    · have := h1 _ h; simp [hk] at this
    · have := h2 _ h; simp [hk] at this

/-- Non-vacuity: a conflicting and a conflict-free configuration. -/
example : Conflict 2 (Desc.empty.run 2 [.periodic 0 1 2, .noSlip 3, .symmetry 2]) ∧
    (Desc.empty.run 2 [.periodic 0 1 2, .noSlip 3, .openB 4 none 1, .symmetry 5]).setup 2
      = .ok () :=
  ⟨(C11_rejects_iff_conflict _ _).1 ⟨.periodicMixed, by rfl⟩, by rfl⟩

end Verif.Boundary
