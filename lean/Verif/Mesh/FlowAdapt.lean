import Verif.Mesh.Refinement
import Mathlib.Data.List.TakeWhile

/-!
# C94: mesh adaptation of the flow solver
(source/navier_stokes.cc: distribute_dofs 192-224, initialize_data_structures 229-361, initialize_matrix_free 398-506,
init_time_advance 658-741, refine_grid_pressure_based 1324-1372, prepare_coarsening_and_refinement 1378-1408;
applications/drivencavity.cc 376-413)

Vectors are elements of an abstract type `X` together with the generation of the mesh they are sized for. A generation is the
number of adaptations of the triangulation. Everything deal.II or a linear solver computes is an arbitrary function.
`none` stands for an exception or an access to data of another mesh.
-/

set_option linter.unusedSectionVars false

namespace Verif.Mesh

/-! ## Model: solver object -/

/-- A vector and the mesh generation it is sized for (`none`: never sized). -/
structure MVec (X : Type) where
  size : Option ℕ
  val : X

/-- Vectors visible to `evaluate_time_step` (navier_stokes.cc:761-774). -/
structure StepIn (X : Type) where
  u : X
  uOld : X
  uOldOld : X
  p : X
  pOld : X
  pOldOld : X
  upd : X
  rhs : X

/-- What `evaluate_time_step` leaves behind. `rebuild` is the value of `update_preconditioner` (lines 941-971). -/
structure StepOut (X : Type) where
  u : X
  p : X
  pOld : X
  upd : X
  rebuild : Bool

/-- What the environment computes: `time_stepping.extrapolate` and the extrapolated pressure of the projection scheme (lines
684, 705-707) by step number; the time step by mesh generation and step number; the solution transfer from generation `g` to
`g+1`; the distribution of the hanging node constraints on generation `g`. -/
structure Env (X : Type) where
  proj : Bool
  zero : X
  ext : ℕ → X → X → X
  pStar : ℕ → X → X → X → X
  solve : ℕ → ℕ → StepIn X → StepOut X
  transU : ℕ → X → X
  transP : ℕ → X → X
  hangU : ℕ → X → X
  hangP : ℕ → X → X

/-- A `SolutionTransfer` object after `prepare_for_coarsening_and_refinement`: the generation and the stored vectors. -/
structure Transfer (X : Type) where
  gen : ℕ
  data : List X

/-- The parts of a `NavierStokes` object that adaptation touches (navier_stokes.h:223-300). `gen` is the generation of the
triangulation; `dofs`, `constr`, `prec`, `mf`, `built` are the generations for which degrees of freedom were numbered, the
constraints closed, the preconditioner matrices allocated, the matrix-free data set up and the preconditioner last built. -/
structure Flow (X : Type) where
  gen : ℕ
  stepNo : ℕ
  distributed : Bool
  setup : Bool
  dofs : Option ℕ
  constr : Option ℕ
  prec : Option ℕ
  mf : Option ℕ
  built : Option ℕ
  updatePrec : Bool
  u : MVec X
  uOld : MVec X
  uOldOld : MVec X
  p : MVec X
  pOld : MVec X
  pOldOld : MVec X
  upd : MVec X
  rhs : MVec X
  trU : Option (Transfer X)
  trP : Option (Transfer X)

variable {X : Type}

/-- Constructor, lines 61-125: empty vectors, flags off, `update_preconditioner` on. -/
def Flow.ctor (e : Env X) : Flow X :=
  let v : MVec X := ⟨none, e.zero⟩
  ⟨0, 0, false, false, none, none, none, none, none, true, v, v, v, v, v, v, v, v, none, none⟩

/-- `distribute_dofs`, lines 192-224. -/
def Flow.distributeDofs (s : Flow X) : Flow X :=
  { s with constr := none, mf := none, prec := none, built := none, dofs := some s.gen, distributed := true, setup := false }

/-- `initialize_data_structures`, lines 229-361: constraints and preconditioner matrices, unless set up already. -/
def Flow.initDS (s : Flow X) : Option (Flow X) :=
  if s.setup = true then some s
  else if s.distributed = false then none
  else some { s with constr := s.dofs, prec := s.dofs, setup := true, updatePrec := true }

/-- `reinit` of all vectors to zero vectors of the current mesh, lines 457-467. -/
def Flow.reinitVectors (e : Env X) (s : Flow X) : Flow X :=
  let v : MVec X := ⟨s.mf, e.zero⟩
  { s with upd := v, u := v, p := v, uOld := v, pOld := v, uOldOld := v, pOldOld := v, rhs := v }

/-- `SolutionTransfer::interpolate` into as many vectors of the current mesh as were stored; the mesh was adapted once. -/
def interpolate (trans : ℕ → X → X) (gen : ℕ) (t : Transfer X) (n : ℕ) : Option (List X) :=
  if gen = t.gen + 1 ∧ t.data.length = n then some (t.data.map (trans t.gen)) else none

/-- End of the transfer of the velocities, lines 474-482. -/
def Flow.finishU (e : Env X) (s : Flow X) (t : Transfer X) : Option (Flow X) :=
  match interpolate e.transU s.gen t 2 with
  | some [a, b] => some { s with
      u := { s.u with val := e.hangU s.gen a }
      uOld := { s.uOld with val := e.hangU s.gen b }
      trU := none }
  | _ => none

/-- End of the transfer of the pressures, lines 484-503. -/
def Flow.finishP (e : Env X) (s : Flow X) (t : Transfer X) : Option (Flow X) :=
  match e.proj, interpolate e.transP s.gen t (if e.proj then 3 else 2) with
  | false, some [a, b] => some { s with
      p := { s.p with val := e.hangP s.gen a }
      pOld := { s.pOld with val := e.hangP s.gen b }
      trP := none }
  | true, some [a, b, c] => some { s with
      p := { s.p with val := e.hangP s.gen a }
      pOld := { s.pOld with val := e.hangP s.gen b }
      pOldOld := { s.pOldOld with val := e.hangP s.gen c }
      trP := none }
  | _, _ => none

/-- `initialize_matrix_free`, lines 398-506. Needs closed constraints and numbered degrees of freedom. -/
def Flow.initMF (e : Env X) (s : Flow X) : Option (Flow X) :=
  if s.setup = false ∨ s.constr ≠ s.dofs ∨ s.dofs ≠ some s.gen then none
  else
    let s := Flow.reinitVectors e { s with mf := s.dofs }
    match s.trU, s.trP with
    | none, _ => some s
    | some _, none => none
    | some t, some t' => (s.finishU e t).bind fun s => s.finishP e t'

/-- All vectors are sized for the current mesh and the constraints and matrix-free data belong to it. -/
def Flow.ready (s : Flow X) : Bool :=
  s.constr == some s.gen && s.dofs == some s.gen &&
  s.u.size == some s.gen && s.uOld.size == some s.gen && s.uOldOld.size == some s.gen &&
  s.p.size == some s.gen && s.pOld.size == some s.gen && s.pOldOld.size == some s.gen &&
  s.upd.size == some s.gen && s.rhs.size == some s.gen

/-- `init_time_advance`, lines 661-718, behind the assertion in line 661. -/
def Flow.initTime (e : Env X) (s : Flow X) : Flow X :=
  let n := s.stepNo + 1
  let s := { s with stepNo := n, uOldOld := { s.uOldOld with val := s.uOld.val }, uOld := { s.uOld with val := s.u.val },
                    u := { s.u with val := e.ext n s.u.val s.uOld.val } }
  if e.proj = false then
    { s with pOldOld := { s.pOldOld with val := s.pOld.val }, pOld := { s.pOld with val := s.p.val },
             p := { s.p with val := e.ext n s.p.val s.pOld.val } }
  else if n > 1 then
    { s with p := { s.p with val := e.pStar n s.p.val s.pOld.val s.pOldOld.val },
             pOldOld := { s.pOldOld with val := s.pOld.val }, upd := { s.upd with val := s.p.val } }
  else { s with pOld := { s.pOld with val := e.zero }, pOldOld := { s.pOldOld with val := e.zero } }

def Flow.stepIn (s : Flow X) : StepIn X :=
  ⟨s.u.val, s.uOld.val, s.uOldOld.val, s.p.val, s.pOld.val, s.pOldOld.val, s.upd.val, s.rhs.val⟩

/-- `evaluate_time_step`, lines 761-774: the preconditioner is built first if requested (line 872) and must then belong to the
current mesh. Only the projection scheme writes `solution_old` (line 565). At least one iteration is assumed. -/
def Flow.evaluate (e : Env X) (s : Flow X) : Option (Flow X) :=
  let b := if s.updatePrec then s.prec else s.built
  let o := e.solve s.gen s.stepNo s.stepIn
  if b = some s.gen then
    some { s with built := b, u := { s.u with val := o.u }, p := { s.p with val := o.p }, upd := { s.upd with val := o.upd },
                  pOld := if e.proj then { s.pOld with val := o.pOld } else s.pOld, updatePrec := o.rebuild }
  else none

/-- `advance_time_step`, lines 746-752. -/
def Flow.advance (e : Env X) (s : Flow X) : Option (Flow X) :=
  if s.setup = true ∧ s.mf = some s.gen ∧ s.ready = true then (s.initTime e).evaluate e else none

/-- `prepare_coarsening_and_refinement`, lines 1378-1408. -/
def Flow.prepare (e : Env X) (s : Flow X) : Flow X :=
  let s := { s with u := { s.u with val := e.hangU s.gen s.u.val }, uOld := { s.uOld with val := e.hangU s.gen s.uOld.val },
                    p := { s.p with val := e.hangP s.gen s.p.val }, pOld := { s.pOld with val := e.hangP s.gen s.pOld.val } }
  let s := { s with trU := some ⟨s.gen, [s.u.val, s.uOld.val]⟩ }
  if e.proj then
    let s := { s with pOldOld := { s.pOldOld with val := e.hangP s.gen s.pOldOld.val } }
    { s with trP := some ⟨s.gen, [s.p.val, s.pOld.val, s.pOldOld.val]⟩ }
  else { s with trP := some ⟨s.gen, [s.p.val, s.pOld.val]⟩ }

/-- `refine_grid_pressure_based`, lines 1324-1372: the estimator reads the pressure on the current mesh; then the transfer is
prepared, the triangulation adapted and the degrees of freedom distributed. The marking is modelled in `clearFine` below. -/
def Flow.refine (e : Env X) (s : Flow X) : Option (Flow X) :=
  if s.ready = true then some (Flow.distributeDofs { s.prepare e with gen := s.gen + 1 }) else none

/-- Operations of a user. `adapt` is what applications/drivencavity.cc does in every cycle (lines 411, 392-393); `write` sets
initial values (as tests/beltrami.cc:436-440), `force` fills `user_rhs` (as applications/periodic_channel.cc:281-287). -/
inductive FlowOp (X : Type)
  | advance
  | adapt
  | write (u p : X)
  | force (f : X)

def FlowOp.exec (e : Env X) (s : Flow X) : FlowOp X → Option (Flow X)
  | .advance => s.advance e
  | .adapt => (s.refine e).bind fun s => s.initDS.bind fun s => s.initMF e
  | .write u p => some { s with u := { s.u with val := u }, p := { s.p with val := p } }
  | .force f => some { s with rhs := { s.rhs with val := f } }

/-- First set-up: drivencavity.cc:379, 392-393; also `setup_problem`, navier_stokes.cc:366-392. -/
def Flow.start (e : Env X) : Option (Flow X) :=
  (Flow.ctor e).distributeDofs.initDS.bind fun s => s.initMF e

def Flow.run (e : Env X) (ops : List (FlowOp X)) : Option (Flow X) :=
  ops.foldl (fun s op => s.bind fun s => op.exec e s) (Flow.start e)

/-! ## Specification: a time stepping scheme on a changing mesh -/

namespace Spec

/-- The data of a scheme with two old velocities: the fields on the current mesh. `φ`, `φOld` are the pressure increments of
the projection scheme, resp. the old pressure of the coupled scheme. -/
structure Scheme (X : Type) where
  mesh : ℕ
  n : ℕ
  u : X
  uOld : X
  p : X
  φ : X
  φOld : X
  f : X

/-- Everything starts from zero. -/
def Scheme.start (e : Env X) : Scheme X := ⟨0, 0, e.zero, e.zero, e.zero, e.zero, e.zero, e.zero⟩

/-- Velocity on the new mesh: conforming interpolation of the conforming field on the old mesh. -/
def moveU (e : Env X) (m : ℕ) (x : X) : X := e.hangU (m + 1) (e.transU m (e.hangU m x))

/-- Pressure on the new mesh. -/
def moveP (e : Env X) (m : ℕ) (x : X) : X := e.hangP (m + 1) (e.transP m (e.hangP m x))

/-- One step of the coupled scheme: starts from the extrapolations; the old levels are the accepted ones. -/
def Scheme.coupled (e : Env X) (r : Scheme X) : Scheme X :=
  let o := e.solve r.mesh (r.n + 1)
    ⟨e.ext (r.n + 1) r.u r.uOld, r.u, r.uOld, e.ext (r.n + 1) r.p r.φ, r.p, r.φ, e.zero, r.f⟩
  { r with n := r.n + 1, u := o.u, uOld := r.u, p := o.p, φ := r.p }

/-- One step of the projection scheme: the pressure starts from the extrapolation by the last two increments; in the first step
the increments count as zero. -/
def Scheme.projection (e : Env X) (r : Scheme X) : Scheme X :=
  let o :=
    if r.n = 0 then
      e.solve r.mesh 1 ⟨e.ext 1 r.u r.uOld, r.u, r.uOld, r.p, e.zero, e.zero, e.zero, r.f⟩
    else
      e.solve r.mesh (r.n + 1)
        ⟨e.ext (r.n + 1) r.u r.uOld, r.u, r.uOld, e.pStar (r.n + 1) r.p r.φ r.φOld, r.φ, r.φ, r.p, r.f⟩
  { r with n := r.n + 1, u := o.u, uOld := r.u, p := o.p, φ := o.pOld, φOld := if r.n = 0 then e.zero else r.φ }

/-- Adaptation: all fields of the scheme are moved to the new mesh; a force given as vector is gone. -/
def Scheme.move (e : Env X) (r : Scheme X) : Scheme X :=
  { r with mesh := r.mesh + 1, u := moveU e r.mesh r.u, uOld := moveU e r.mesh r.uOld, p := moveP e r.mesh r.p,
           φ := moveP e r.mesh r.φ, φOld := moveP e r.mesh r.φOld, f := e.zero }

/-- The time step of an environment does not look at the contents of work vectors: in the coupled scheme these are
`solution_update` (set to zero before every linear solve, navier_stokes.cc:570). -/
def UpdIrrelevant (e : Env X) : Prop := ∀ m n (i : StepIn X) (w : X),
  e.solve m n i = e.solve m n { i with upd := w }

/-- Scheme after a history of user operations. -/
def Scheme.exec (e : Env X) (r : Scheme X) : FlowOp X → Scheme X
  | .advance => if e.proj then r.projection e else r.coupled e
  | .adapt => r.move e
  | .write u p => { r with u := u, p := p }
  | .force f => { r with f := f }

def Scheme.run (e : Env X) (ops : List (FlowOp X)) : Scheme X := ops.foldl (Scheme.exec e) (Scheme.start e)

end Spec

/-! ## Proofs: solver object -/

/-- The state between two user operations. -/
structure Good (e : Env X) (s : Flow X) (r : Spec.Scheme X) : Prop where
  gen : s.gen = r.mesh
  n : s.stepNo = r.n
  setup : s.setup = true
  mf : s.mf = some s.gen
  prec : s.prec = some s.gen
  ready : s.ready = true
  prep : s.updatePrec = true ∨ s.built = some s.gen
  trU : s.trU = none
  trP : s.trP = none
  u : s.u.val = r.u
  uOld : s.uOld.val = r.uOld
  p : s.p.val = r.p
  pOld : s.pOld.val = r.φ
  pOldOld : e.proj = true → s.pOldOld.val = r.φOld
  rhs : s.rhs.val = r.f
  upd : e.proj = true → s.stepNo = 0 → s.upd.val = e.zero

theorem start_good (e : Env X) : ∃ s, Flow.start e = some s ∧ Good e s (Spec.Scheme.start e) := by
  refine ⟨_, rfl, ?_⟩
  constructor <;> simp [Flow.ctor, Flow.distributeDofs, Flow.reinitVectors, Flow.ready, Spec.Scheme.start]

theorem initTime_frame (e : Env X) (s : Flow X) :
    (s.initTime e).gen = s.gen ∧ (s.initTime e).stepNo = s.stepNo + 1 ∧ (s.initTime e).setup = s.setup ∧
    (s.initTime e).mf = s.mf ∧ (s.initTime e).prec = s.prec ∧ (s.initTime e).built = s.built ∧
    (s.initTime e).updatePrec = s.updatePrec ∧ (s.initTime e).trU = s.trU ∧ (s.initTime e).trP = s.trP ∧
    (s.initTime e).ready = s.ready ∧ (s.initTime e).uOld.val = s.u.val ∧ (s.initTime e).rhs = s.rhs := by
  unfold Flow.initTime
  dsimp only
  split_ifs <;> simp [Flow.ready]

theorem advance_good (e : Env X) (hw : e.proj = false → Spec.UpdIrrelevant e) (s : Flow X) (r : Spec.Scheme X)
    (h : Good e s r) : ∃ s', s.advance e = some s' ∧ Good e s' (if e.proj then r.projection e else r.coupled e) := by
  obtain ⟨f1, f2, f3, f4, f5, f6, f7, f8, f9, f10, f11, f12⟩ := initTime_frame e s
  unfold Flow.advance
  rw [if_pos ⟨h.setup, h.mf, h.ready⟩]
  have hb : (if (s.initTime e).updatePrec = true then (s.initTime e).prec else (s.initTime e).built)
      = some (s.initTime e).gen := by
    rw [f7, f5, f6, f1]
    split_ifs with hu
    · exact h.prec
    · exact h.prep.resolve_left hu
  have hr := f10.trans h.ready
  unfold Flow.evaluate
  dsimp only
  rw [if_pos hb]
  refine ⟨_, rfl, ?_⟩
  cases hp : e.proj with
  | false =>
    have hin : (s.initTime e).stepIn = ⟨e.ext (r.n + 1) r.u r.uOld, r.u, r.uOld, e.ext (r.n + 1) r.p r.φ, r.p, r.φ,
        s.upd.val, r.f⟩ := by
      unfold Flow.initTime Flow.stepIn
      simp [hp, h.n, h.u, h.uOld, h.p, h.pOld, h.rhs]
    have hpo : (s.initTime e).pOld.val = r.p := by
      unfold Flow.initTime; simp [hp, h.p]
    have hsol : e.solve (s.initTime e).gen (s.initTime e).stepNo (s.initTime e).stepIn
        = e.solve r.mesh (r.n + 1)
          ⟨e.ext (r.n + 1) r.u r.uOld, r.u, r.uOld, e.ext (r.n + 1) r.p r.φ, r.p, r.φ, e.zero, r.f⟩ := by
      rw [hin, f1, f2, h.gen, h.n]
      exact hw hp _ _ _ e.zero
    rw [hsol]
    simp only [Bool.false_eq_true, if_false]
    exact {
      gen := f1.trans h.gen
      n := f2.trans (congrArg (· + 1) h.n)
      setup := f3.trans h.setup
      mf := (f4.trans h.mf).trans (congrArg some f1.symm)
      prec := (f5.trans h.prec).trans (congrArg some f1.symm)
      ready := hr
      prep := .inr hb
      trU := f8.trans h.trU
      trP := f9.trans h.trP
      u := rfl
      uOld := f11.trans h.u
      p := rfl
      pOld := hpo
      pOldOld := fun h' => by rw [hp] at h'; cases h'
      rhs := (congrArg MVec.val f12).trans h.rhs
      upd := fun h' => by rw [hp] at h'; cases h' }
  | true =>
    have hin : (s.initTime e).stepIn = if r.n = 0 then ⟨e.ext 1 r.u r.uOld, r.u, r.uOld, r.p, e.zero, e.zero, e.zero, r.f⟩
        else ⟨e.ext (r.n + 1) r.u r.uOld, r.u, r.uOld, e.pStar (r.n + 1) r.p r.φ r.φOld, r.φ, r.φ, r.p, r.f⟩ := by
      unfold Flow.initTime Flow.stepIn
      by_cases h0 : r.n = 0
      · have hs0 : s.stepNo = 0 := h.n.trans h0
        simp [hp, hs0, h0, h.u, h.uOld, h.p, h.rhs, h.upd hp hs0]
      · have : s.stepNo + 1 > 1 := by rw [h.n]; omega
        simp [hp, h.n, h0, h.u, h.uOld, h.p, h.pOld, h.pOldOld hp, h.rhs, Nat.pos_of_ne_zero h0]
    have hsol : e.solve (s.initTime e).gen (s.initTime e).stepNo (s.initTime e).stepIn
        = if r.n = 0 then
          e.solve r.mesh 1 ⟨e.ext 1 r.u r.uOld, r.u, r.uOld, r.p, e.zero, e.zero, e.zero, r.f⟩
        else
          e.solve r.mesh (r.n + 1)
            ⟨e.ext (r.n + 1) r.u r.uOld, r.u, r.uOld, e.pStar (r.n + 1) r.p r.φ r.φOld, r.φ, r.φ, r.p, r.f⟩ := by
      rw [hin, f1, f2, h.gen, h.n]
      split_ifs with h0
      · rw [h0]
      · rfl
    have hpoo : (s.initTime e).pOldOld.val = if r.n = 0 then e.zero else r.φ := by
      unfold Flow.initTime
      by_cases h0 : r.n = 0
      · have hs0 : s.stepNo = 0 := h.n.trans h0
        simp [hp, hs0, h0]
      · simp [hp, h.n, h0, h.pOld, Nat.pos_of_ne_zero h0]
    rw [hsol]
    simp only [if_true]
    exact {
      gen := f1.trans h.gen
      n := f2.trans (congrArg (· + 1) h.n)
      setup := f3.trans h.setup
      mf := (f4.trans h.mf).trans (congrArg some f1.symm)
      prec := (f5.trans h.prec).trans (congrArg some f1.symm)
      ready := hr
      prep := .inr hb
      trU := f8.trans h.trU
      trP := f9.trans h.trP
      u := rfl
      uOld := f11.trans h.u
      p := rfl
      pOld := rfl
      pOldOld := fun _ => hpoo
      rhs := (congrArg MVec.val f12).trans h.rhs
      upd := fun _ h' => absurd ((f2.symm.trans h') : s.stepNo + 1 = 0) (Nat.succ_ne_zero _) }

theorem adapt_good (e : Env X) (s : Flow X) (r : Spec.Scheme X) (h : Good e s r) :
    ∃ s', FlowOp.exec e s .adapt = some s' ∧ Good e s' (r.move e) ∧ s'.updatePrec = true := by
  unfold FlowOp.exec
  dsimp only
  unfold Flow.refine
  rw [if_pos h.ready]
  cases hp : e.proj with
  | false =>
    refine ⟨_, by
      simp only [Flow.prepare, hp, Flow.distributeDofs, Flow.initDS, Flow.initMF, Flow.reinitVectors, Flow.finishU, Flow.finishP,
        interpolate, Option.bind, Bool.false_eq_true, if_false, List.length_cons, List.length_nil, List.map, and_self, if_true,
        ne_eq, not_true_eq_false, or_self, Bool.true_eq_false]
      rfl, ?_, rfl⟩
    constructor <;> simp [Flow.ready, Spec.Scheme.move, Spec.moveU, Spec.moveP, h.gen, h.n, h.u, h.uOld, h.p, h.pOld, hp]
  | true =>
    refine ⟨_, by
      simp only [Flow.prepare, hp, Flow.distributeDofs, Flow.initDS, Flow.initMF, Flow.reinitVectors, Flow.finishU, Flow.finishP,
        interpolate, Option.bind, Bool.false_eq_true, if_false, List.length_cons, List.length_nil, List.map, and_self, if_true,
        ne_eq, not_true_eq_false, or_self, Bool.true_eq_false]
      rfl, ?_, rfl⟩
    constructor <;> simp [Flow.ready, Spec.Scheme.move, Spec.moveU, Spec.moveP, h.gen, h.n, h.u, h.uOld, h.p, h.pOld, h.pOldOld hp]

theorem exec_good (e : Env X) (hw : e.proj = false → Spec.UpdIrrelevant e) (s : Flow X) (r : Spec.Scheme X)
    (h : Good e s r) (op : FlowOp X) : ∃ s', op.exec e s = some s' ∧ Good e s' (r.exec e op) := by
  cases op with
  | advance => exact advance_good e hw s r h
  | adapt => obtain ⟨s', h1, h2, _⟩ := adapt_good e s r h; exact ⟨s', h1, h2⟩
  | write u p => exact ⟨_, rfl, { h with u := rfl, p := rfl, ready := h.ready }⟩
  | force f => exact ⟨_, rfl, { h with rhs := rfl, ready := h.ready }⟩

theorem run_good (e : Env X) (hw : e.proj = false → Spec.UpdIrrelevant e) (ops : List (FlowOp X)) :
    ∃ s, Flow.run e ops = some s ∧ Good e s (Spec.Scheme.run e ops) := by
  induction ops using List.reverseRecOn with
  | nil => exact start_good e
  | append_singleton ops op ih =>
    obtain ⟨s, hs, hg⟩ := ih
    obtain ⟨s', hs', hg'⟩ := exec_good e hw s _ hg op
    refine ⟨s', ?_, ?_⟩
    · unfold Flow.run at hs ⊢
      rw [List.foldl_append, hs]; exact hs'
    · unfold Spec.Scheme.run at hg' ⊢
      rw [List.foldl_append]; exact hg'

/-- Number of adaptations in a history. -/
def Spec.adaptations (ops : List (FlowOp X)) : ℕ := (ops.filter fun op => match op with | .adapt => true | _ => false).length

/-- Number of time steps in a history. -/
def Spec.steps (ops : List (FlowOp X)) : ℕ := (ops.filter fun op => match op with | .advance => true | _ => false).length

theorem scheme_counts (e : Env X) (ops : List (FlowOp X)) :
    (Spec.Scheme.run e ops).mesh = Spec.adaptations ops ∧ (Spec.Scheme.run e ops).n = Spec.steps ops := by
  induction ops using List.reverseRecOn with
  | nil => exact ⟨rfl, rfl⟩
  | append_singleton ops op ih =>
    have hrun : Spec.Scheme.run e (ops ++ [op]) = (Spec.Scheme.run e ops).exec e op := by
      unfold Spec.Scheme.run; rw [List.foldl_append]; rfl
    rw [hrun]
    unfold Spec.adaptations Spec.steps at *
    cases op with
    | advance =>
      simp only [List.filter_append, List.length_append, List.filter_cons, List.filter_nil, Bool.false_eq_true, if_false, if_true,
        List.length_nil, List.length_cons, Nat.add_zero, Nat.zero_add, Spec.Scheme.exec]
      cases e.proj <;> exact ⟨ih.1, congrArg (· + 1) ih.2⟩
    | adapt =>
      simp only [List.filter_append, List.length_append, List.filter_cons, List.filter_nil, Bool.false_eq_true, if_false, if_true,
        List.length_nil, List.length_cons, Nat.add_zero, Nat.zero_add, Spec.Scheme.exec]
      exact ⟨congrArg (· + 1) ih.1, ih.2⟩
    | write u p =>
      simp only [List.filter_append, List.length_append, List.filter_cons, List.filter_nil, Bool.false_eq_true, if_false,
        List.length_nil, Nat.add_zero, Spec.Scheme.exec]
      exact ih
    | force f =>
      simp only [List.filter_append, List.length_append, List.filter_cons, List.filter_nil, Bool.false_eq_true, if_false,
        List.length_nil, Nat.add_zero, Spec.Scheme.exec]
      exact ih

/-- **C94 (history).** For every history of time steps, adaptations (`refine_grid_pressure_based`, `initialize_data_structures`,
`initialize_matrix_free`), written initial values and forces, and for all results of the time steps: no operation fails, and
velocity, old velocity, pressure and old pressure (resp. the two pressure increments of the projection scheme) and the force are
those of the scheme that moves each of its fields to the new mesh in every adaptation. In particular nothing the next step reads
is left at the zero of the newly sized vectors, no field takes the place of another one, and the second old velocity, which is
not transferred, has no influence. -/
theorem C94_adaptive_run (e : Env X) (hw : e.proj = false → Spec.UpdIrrelevant e) (ops : List (FlowOp X)) :
    ∃ s, Flow.run e ops = some s ∧
      s.u.val = (Spec.Scheme.run e ops).u ∧ s.uOld.val = (Spec.Scheme.run e ops).uOld ∧
      s.p.val = (Spec.Scheme.run e ops).p ∧ s.pOld.val = (Spec.Scheme.run e ops).φ ∧
      (e.proj = true → s.pOldOld.val = (Spec.Scheme.run e ops).φOld) ∧ s.rhs.val = (Spec.Scheme.run e ops).f ∧
      s.stepNo = Spec.steps ops := by
  obtain ⟨s, hs, h⟩ := run_good e hw ops
  exact ⟨s, hs, h.u, h.uOld, h.p, h.pOld, h.pOldOld, h.rhs, h.n.trans (scheme_counts e ops).2⟩

/-- **C94 (no stale data).** After every such history the degrees of freedom, the constraints, the matrix-free data, the
preconditioner matrices and all vectors belong to the mesh of the last adaptation, and no transfer is pending. -/
theorem C94_data_of_current_mesh (e : Env X) (hw : e.proj = false → Spec.UpdIrrelevant e) (ops : List (FlowOp X)) :
    ∃ s, Flow.run e ops = some s ∧ s.gen = Spec.adaptations ops ∧
      s.dofs = some (Spec.adaptations ops) ∧ s.constr = some (Spec.adaptations ops) ∧
      s.mf = some (Spec.adaptations ops) ∧ s.prec = some (Spec.adaptations ops) ∧
      (∀ v ∈ [s.u, s.uOld, s.uOldOld, s.p, s.pOld, s.pOldOld, s.upd, s.rhs], v.size = some (Spec.adaptations ops)) ∧
      s.trU = none ∧ s.trP = none := by
  obtain ⟨s, hs, h⟩ := run_good e hw ops
  have hg : s.gen = Spec.adaptations ops := h.gen.trans (scheme_counts e ops).1
  have hr := h.ready
  unfold Flow.ready at hr
  simp only [Bool.and_eq_true, beq_iff_eq] at hr
  obtain ⟨⟨⟨⟨⟨⟨⟨⟨⟨h1, h2⟩, h3⟩, h4⟩, h5⟩, h6⟩, h7⟩, h8⟩, h9⟩, h10⟩ := hr
  rw [hg] at h1 h2 h3 h4 h5 h6 h7 h8 h9 h10
  refine ⟨s, hs, hg, h2, h1, h.mf.trans (by rw [hg]), h.prec.trans (by rw [hg]), ?_, h.trU, h.trP⟩
  intro v hv
  simp only [List.mem_cons, List.not_mem_nil, or_false] at hv
  rcases hv with rfl | rfl | rfl | rfl | rfl | rfl | rfl | rfl <;> assumption

/-- **C94 (preconditioner).** The step after an adaptation rebuilds the preconditioner, and the preconditioner a step used was
always built on the current mesh. -/
theorem C94_preconditioner_rebuilt (e : Env X) (hw : e.proj = false → Spec.UpdIrrelevant e) (ops : List (FlowOp X)) :
    (∃ s, Flow.run e (ops ++ [.adapt]) = some s ∧ s.updatePrec = true) ∧
    (∃ s, Flow.run e (ops ++ [.advance]) = some s ∧ s.built = some (Spec.adaptations ops)) := by
  obtain ⟨s, hs, h⟩ := run_good e hw ops
  have hrun : ∀ op, Flow.run e (ops ++ [op]) = op.exec e s := by
    intro op
    unfold Flow.run at hs ⊢
    rw [List.foldl_append, hs]; rfl
  constructor
  · obtain ⟨s', h1, _, h3⟩ := adapt_good e s _ h
    exact ⟨s', (hrun _).trans h1, h3⟩
  · obtain ⟨s', h1, h2⟩ := advance_good e hw s _ h
    refine ⟨s', (hrun _).trans h1, ?_⟩
    have hg : s.gen = Spec.adaptations ops := h.gen.trans (scheme_counts e ops).1
    obtain ⟨f1, -, -, -, f5, f6, f7, -⟩ := initTime_frame e s
    unfold Flow.advance at h1
    rw [if_pos ⟨h.setup, h.mf, h.ready⟩] at h1
    unfold Flow.evaluate at h1
    dsimp only at h1
    by_cases hb : (if (s.initTime e).updatePrec = true then (s.initTime e).prec else (s.initTime e).built)
        = some (s.initTime e).gen
    · rw [if_pos hb] at h1
      obtain rfl := Option.some.inj h1
      exact hb.trans (by rw [f1, hg])
    · rw [if_neg hb] at h1; cases h1

theorem ready_u (s : Flow X) (h : s.ready = true) : s.u.size = some s.gen := by
  unfold Flow.ready at h
  simp only [Bool.and_eq_true, beq_iff_eq] at h
  exact h.1.1.1.1.1.1.1.2

theorem prepare_size (e : Env X) (s : Flow X) : (s.prepare e).u.size = s.u.size := by
  unfold Flow.prepare
  dsimp only
  split_ifs <;> rfl

/-- **C94 (order of calls).** After any history and a call of `refine_grid_pressure_based` alone, time steps, a further
refinement and `initialize_matrix_free` are refused; after `initialize_data_structures` time steps and a further refinement are
still refused. So no computation on the new mesh uses vectors of the old one. -/
theorem C94_must_reinitialize (e : Env X) (hw : e.proj = false → Spec.UpdIrrelevant e) (ops : List (FlowOp X)) :
    ∃ s s1 s2, Flow.run e ops = some s ∧ s.refine e = some s1 ∧ s1.initDS = some s2 ∧
      s1.advance e = none ∧ s1.refine e = none ∧ s1.initMF e = none ∧ s2.advance e = none ∧ s2.refine e = none := by
  obtain ⟨s, hs, h⟩ := run_good e hw ops
  have hr := h.ready
  unfold Flow.ready at hr
  simp only [Bool.and_eq_true, beq_iff_eq] at hr
  obtain ⟨⟨⟨⟨⟨⟨⟨⟨⟨h1, h2⟩, h3⟩, h4⟩, h5⟩, h6⟩, h7⟩, h8⟩, h9⟩, h10⟩ := hr
  refine ⟨s, _, _, hs, if_pos h.ready, rfl, ?_, ?_, ?_, ?_, ?_⟩
  · exact if_neg fun hc => by cases hc.1
  · unfold Flow.refine Flow.ready Flow.distributeDofs
    simp
  · exact if_pos (.inl rfl)
  · unfold Flow.advance Flow.distributeDofs
    simp
  · refine if_neg fun hc => ?_
    have hu := ready_u _ hc
    have h3' : ((s.prepare e).u.size) = some (s.gen + 1) := hu
    rw [prepare_size, h3] at h3'
    simp at h3'

/-- **C94 (repeated set-up).** Without a pending transfer `initialize_matrix_free` starts from zero: called again after any
history it erases the solution, its history and the force; and an adaptation erases a force that the user does not fill in
again. -/
theorem C94_reinit_erases (e : Env X) (hw : e.proj = false → Spec.UpdIrrelevant e) (ops : List (FlowOp X)) :
    (∃ s s', Flow.run e ops = some s ∧ s.initMF e = some s' ∧
      ∀ v ∈ [s'.u, s'.uOld, s'.uOldOld, s'.p, s'.pOld, s'.pOldOld, s'.rhs], v.val = e.zero) ∧
    (∃ s, Flow.run e (ops ++ [.adapt]) = some s ∧ s.rhs.val = e.zero) := by
  constructor
  · obtain ⟨s, hs, h⟩ := run_good e hw ops
    have hr := h.ready
    unfold Flow.ready at hr
    simp only [Bool.and_eq_true, beq_iff_eq] at hr
    obtain ⟨⟨⟨⟨⟨⟨⟨⟨⟨h1, h2⟩, h3⟩, h4⟩, h5⟩, h6⟩, h7⟩, h8⟩, h9⟩, h10⟩ := hr
    refine ⟨s, Flow.reinitVectors e { s with mf := s.dofs }, hs, ?_, ?_⟩
    · unfold Flow.initMF
      rw [if_neg (by rw [h.setup, h1, h2]; simp)]
      simp only [Flow.reinitVectors, h.trU]
    · intro v hv
      simp only [List.mem_cons, List.not_mem_nil, or_false, Flow.reinitVectors] at hv
      rcases hv with rfl | rfl | rfl | rfl | rfl | rfl | rfl <;> rfl
  · obtain ⟨s, hs, h⟩ := run_good e hw (ops ++ [.adapt])
    refine ⟨s, hs, h.rhs.trans ?_⟩
    unfold Spec.Scheme.run
    rw [List.foldl_append]; rfl

/-! ## Marking: the level limit of `refine_grid_pressure_based` -/

section Levels

variable {K : Type*}

/-- Active cells of one rank in the order of the iteration (by level), with `is_locally_owned`. -/
structure RankCell (K : Type*) where
  cell : Cell K
  owned : Bool

/-- `triangulation.n_levels()` of one rank: one more than the largest level. -/
def nLevels (cells : List (RankCell K)) : ℤ := (cells.map fun c => c.cell.level + 1).foldr max 0

/-- Lines 1360-1366: iteration from `begin_active(max_grid_level)` to the end; refinement flags of owned cells are cleared. -/
def clearFine (max_level : ℤ) (cells : List (RankCell K)) : List (RankCell K) :=
  if nLevels cells > max_level then
    cells.takeWhile (fun c => c.cell.level < max_level) ++
    (cells.dropWhile (fun c => c.cell.level < max_level)).map fun c =>
      if c.owned then { c with cell := { c.cell with refineFlag := false } } else c
  else cells

/-- The owned cells of all ranks. -/
def ownedCells (ranks : List (List (RankCell K))) : List (Cell K) :=
  ranks.flatMap fun r => (r.filter (·.owned)).map (·.cell)

/-- A rank lists its active cells by level. -/
def Spec.ByLevel (cells : List (RankCell K)) : Prop := cells.Pairwise fun a b => a.cell.level ≤ b.cell.level

theorem le_nLevels (cells : List (RankCell K)) : ∀ c ∈ cells, c.cell.level + 1 ≤ nLevels cells := by
  unfold nLevels
  induction cells with
  | nil => intro c hc; cases hc
  | cons x l ih =>
    intro c hc
    rcases List.mem_cons.1 hc with rfl | hc
    · exact le_max_left _ _
    · exact le_trans (ih c hc) (le_max_right _ _)

theorem dropWhile_level (m : ℤ) (cells : List (RankCell K)) (h : Spec.ByLevel cells) :
    ∀ c ∈ cells.dropWhile (fun c => c.cell.level < m), m ≤ c.cell.level := by
  induction cells with
  | nil => intro c hc; cases hc
  | cons x l ih =>
    unfold Spec.ByLevel at h ih
    rw [List.pairwise_cons] at h
    intro c hc
    rw [List.dropWhile_cons] at hc
    split_ifs at hc with hx
    · exact ih h.2 c hc
    · have hxm : m ≤ x.cell.level := by simpa using hx
      rcases List.mem_cons.1 hc with rfl | hc
      · exact hxm
      · exact le_trans hxm (h.1 c hc)

/-- **C94 (cleared flags).** The loop changes exactly the owned cells on or above the level limit: their refinement flag is
cleared, all else (including coarsening flags and the flags of cells below) stays. -/
theorem C94_clear_flags (m : ℤ) (cells : List (RankCell K)) (h : Spec.ByLevel cells) :
    clearFine m cells = cells.map fun c =>
      if c.owned = true ∧ m ≤ c.cell.level then { c with cell := { c.cell with refineFlag := false } } else c := by
  unfold clearFine
  by_cases hn : nLevels cells > m
  · rw [if_pos hn]
    conv_rhs => rw [← List.takeWhile_append_dropWhile (p := fun c : RankCell K => decide (c.cell.level < m)) (l := cells)]
    rw [List.map_append]
    congr 1
    · refine Eq.trans (List.map_id _).symm (List.map_congr_left ?_)
      intro c hc
      have := List.mem_takeWhile_imp hc
      rw [if_neg]
      · rfl
      intro hc'
      have h2 : c.cell.level < m := by simpa using this
      omega
    · apply List.map_congr_left
      intro c hc
      have := dropWhile_level m cells h c hc
      by_cases ho : c.owned = true
      · rw [if_pos ho, if_pos ⟨ho, this⟩]
      · rw [if_neg ho, if_neg fun hc => ho hc.1]
  · rw [if_neg hn]
    refine Eq.trans (List.map_id _).symm (List.map_congr_left ?_)
    intro c hc
    rw [if_neg]
    · rfl
    intro hc'
    have := le_nLevels cells c hc
    omega

/-- One call of `refine_grid_pressure_based(m, …)`: arbitrary flags from the estimator, the loop on every rank, then
`execute_coarsening_and_refinement` (as specified in `Executed`). -/
inductive PressureRefine (m : ℤ) (old new : List ℤ) : Prop
  | mk (ranks : List (List (RankCell ℚ))) (hsorted : ∀ r ∈ ranks, Spec.ByLevel r)
      (hold : (ownedCells ranks).map (·.level) = old)
      (hexec : Executed (ownedCells (ranks.map (clearFine m))) new)

/-- Levels after any number of calls with limits up to `m`. -/
inductive PressureReachable (m : ℤ) (init : List ℤ) : List ℤ → Prop
  | start : PressureReachable m init init
  | step {a b : List ℤ} (m' : ℤ) (h : m' ≤ m) : PressureReachable m init a → PressureRefine m' a b →
      PressureReachable m init b

theorem mem_owned_clear {m : ℤ} {ranks : List (List (RankCell K))} (hs : ∀ r ∈ ranks, Spec.ByLevel r) {c : Cell K}
    (hc : c ∈ ownedCells (ranks.map (clearFine m))) :
    (∃ d ∈ ownedCells ranks, c.level = d.level) ∧ (c.refineFlag = true → c.level < m) := by
  unfold ownedCells at hc ⊢
  simp only [List.mem_flatMap, List.mem_map, List.mem_filter] at hc ⊢
  obtain ⟨_, ⟨r, hr, rfl⟩, d, ⟨hd, ho⟩, rfl⟩ := hc
  rw [C94_clear_flags m r (hs r hr), List.mem_map] at hd
  obtain ⟨d0, hd0, rfl⟩ := hd
  split_ifs at ho ⊢ with hcase
  · exact ⟨⟨_, ⟨r, hr, d0, ⟨hd0, hcase.1⟩, rfl⟩, rfl⟩, fun h => by cases h⟩
  · refine ⟨⟨_, ⟨r, hr, d0, ⟨hd0, ho⟩, rfl⟩, rfl⟩, fun _ => ?_⟩
    by_contra hge
    exact hcase ⟨ho, not_lt.1 hge⟩

/-- **C94 (levels).** After any number of refinements with level limits of at most `m`, for all estimator results and all
partitions and whatever balancing refinement, no cell is finer than `m` or the finest initial cell. -/
theorem C94_levels_bounded {m : ℤ} {init levels : List ℤ} (h : PressureReachable m init levels) (b : ℤ) (hm : m ≤ b)
    (hi : ∀ l ∈ init, l ≤ b) : ∀ l ∈ levels, l ≤ b := by
  induction h with
  | start => exact hi
  | step m' hm' _ hs ih =>
    obtain ⟨ranks, hsorted, hold, hexec⟩ := hs
    intro l hl
    obtain ⟨x, hx, hlx, hmax⟩ := exists_max_mem hl
    refine le_trans hlx ?_
    have hlev : ∀ c ∈ ownedCells (ranks.map (clearFine m')), c.level ≤ b := by
      intro c hc
      obtain ⟨⟨d, hd, hcd⟩, _⟩ := mem_owned_clear hsorted hc
      rw [hcd]
      exact ih _ (by rw [← hold]; exact List.mem_map_of_mem hd)
    rcases hexec.origin x hx with ⟨c, hc, rfl⟩ | ⟨c, hc, hf, rfl⟩ | ⟨c, hc, _, rfl⟩ | ⟨c, hc, rfl, l', hl', hlt⟩
    · exact hlev c hc
    · have := (mem_owned_clear hsorted hc).2 hf
      omega
    · have := hlev c hc; omega
    · have := hmax l' hl'; omega

end Levels

/-! ## Non-vacuity -/

/-- A scalar environment in which every function leaves its trace. -/
def exEnv (proj : Bool) : Env ℚ where
  proj := proj
  zero := 0
  ext := fun n x y => if n ≤ 1 then x else 2 * x - y
  pStar := fun _ p a b => p + 4 / 3 * a - 1 / 3 * b
  solve := fun m n i => ⟨i.u + i.uOldOld / 7 + i.rhs + m, i.p + i.pOld / 3 + n, i.p - i.pOld + 1, 5, n == 1⟩
  transU := fun _ x => 3 * x
  transP := fun _ x => x + 1
  hangU := fun g x => x + g
  hangP := fun _ x => x

example : Spec.UpdIrrelevant (exEnv false) := fun _ _ _ _ => rfl

def exHistory : List (FlowOp ℚ) := [.write 1 2, .force 3, .advance, .adapt, .force 1, .advance, .advance, .adapt, .advance]

/-- Two meshes and four steps; all fields end up different from zero and from each other. -/
example : ((Flow.run (exEnv true) exHistory).map fun s => (s.gen, s.stepNo, [s.u.val, s.uOld.val, s.p.val, s.pOld.val,
    s.pOldOld.val])) = some (2, 4, [9042 / 49, 125, 155 / 3, 86 / 3, 15]) := by decide +kernel

example : (Spec.Scheme.run (exEnv true) exHistory).φOld = 15 := by decide +kernel

def exRank : List (RankCell ℚ) :=
  [⟨⟨1, 0, 0, 0, false, true, false⟩, true⟩, ⟨⟨2, 0, 0, 0, false, true, false⟩, false⟩, ⟨⟨2, 0, 0, 0, false, true, false⟩, true⟩]

example : Spec.ByLevel exRank := by unfold Spec.ByLevel; decide +kernel

/-- Limit 2: the level-1 cell is refined, the owned level-2 cell keeps its level. -/
example : PressureRefine 2 [1, 2] [2, 2, 2, 2, 2] := by
  refine ⟨[exRank], ?_, rfl, ⟨?_⟩⟩
  · intro r hr; rw [List.mem_singleton.1 hr]; unfold Spec.ByLevel; decide +kernel
  · intro l hl
    simp only [List.mem_cons, List.not_mem_nil, or_false, or_self] at hl
    subst hl
    exact .inr (.inl ⟨⟨1, 0, 0, 0, false, true, false⟩, by decide +kernel, rfl, by decide⟩)

end Verif.Mesh
