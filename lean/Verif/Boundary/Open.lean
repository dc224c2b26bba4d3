import Verif.Boundary.Theorems
import Verif.FE.Space
import Verif.Time.Model
import Verif.LevelSet.Balance
import Mathlib.Algebra.Order.Ring.Rat
import Mathlib.Data.Rat.Cast.Order

/-!
# C80: pressure prescribed on open boundaries
(source/navier_stokes.cc: apply_boundary_conditions 1259-1318, init_time_advance 736-738, compute_residual 784-785;
navier_stokes_matrix.cc: residual 268-293)
-/

set_option linter.unusedSectionVars false

namespace Verif.Boundary

open Finset Verif.FE Verif.Time Verif.Operator

variable {K : Type} [Field K] [LinearOrder K] [IsStrictOrderedRing K]

/-- A boundary face as `FEFaceValues` sees it: boundary id, number of quadrature points, their names, normal vectors, `JxW`, and
the velocity basis functions (`shape i q d`; zero for functions of other cells, numbered globally). -/
structure OpenFace (K : Type) where
  id : ℕ
  nQ : ℕ
  point : ℕ → ℕ
  normal : ℕ → ℕ → K
  jxw : ℕ → K
  shape : ℕ → ℕ → ℕ → K

/-- Velocity degrees of freedom with their closed `constraints_u`, the boundary faces of all cells in loop order (of all
processes), and the values of the user's functions (time, point). -/
structure OpenMesh (K : Type) where
  dim : ℕ
  nDof : ℕ
  constraints : Constr K
  faces : List (OpenFace K)
  value : Fn → K → ℕ → K

variable (M : OpenMesh K)

/-- `value_list`, line 1299, after `set_time`, lines 1262-1266. -/
def OpenMesh.boundaryValue (time : K) (f : OpenFace K) (q : ℕ) : PFn → K
  | .zero => 0
  | .user g => M.value g time (f.point q)

/-- `cell_rhs(i)` of one face, lines 1302-1310. -/
def OpenMesh.faceRhs (time : K) (g : PFn) (f : OpenFace K) (i : ℕ) : K :=
  ∑ q ∈ range f.nQ, (∑ d ∈ range M.dim, f.shape i q d * f.normal q d) * M.boundaryValue time f q g * f.jxw q

/-- `const_rhs` (velocity block), lines 1259-1318. -/
def OpenMesh.constRhs (d : Desc) (time : K) : ℕ → K :=
  M.faces.foldl (fun r f => match d.openP.find f.id with
    | some g => fun k => r k + M.constraints.scatter M.nDof (M.faceRhs time g f) k
    | none => r) fun _ => 0

/-- State of the flow solver as far as `const_rhs` is concerned. -/
structure OpenState (K : Type) where
  desc : Desc
  t : TS K
  rhs : ℕ → K

inductive OpenEvent (K : Type)
  | call (c : Call)
  /-- `setup_problem`: `const_rhs.reinit` (line 466). -/
  | setup
  /-- `compute_initial_stokes_field`: `apply_boundary_conditions` at the current time (line 1166). -/
  | stokes
  /-- A time step: the clock advances, then `apply_boundary_conditions` (lines 663-738). -/
  | step (dt : Option K)

def OpenState.exec (s : OpenState K) : OpenEvent K → OpenState K
  | .call c => { s with desc := (s.desc.exec M.dim c).1 }
  | .setup => { s with rhs := fun _ => 0 }
  | .stokes => { s with rhs := M.constRhs s.desc s.t.now }
  | .step dt =>
    let t := match dt with | some d => (s.t.setDesired d).next | none => s.t.next
    { s with t := t, rhs := M.constRhs s.desc t.now }

def OpenState.run (s : OpenState K) (es : List (OpenEvent K)) : OpenState K := es.foldl (OpenState.exec M) s

def OpenState.construct (p : Params K) : OpenState K := ⟨Desc.empty, TS.ctor p, fun _ => 0⟩

def OpenEvent.solves : OpenEvent K → Bool
  | .stokes => true
  | .step _ => true
  | _ => false

/-! ### Specification -/

def OpenEvent.toCall : OpenEvent K → Option Call
  | .call c => some c
  | _ => none

/-- Value of the prescribed pressure at a point of a face: the last call for its id since the last clearing; no function means
zero; `none` if the boundary is not open. -/
def Spec.openPressure (cs : List Call) (time : K) (f : OpenFace K) (q : ℕ) : Option K :=
  (lastOf (wantsOpen f.id) (sinceClear cs)).map fun g => match g with
    | .zero => 0
    | .user g => M.value g time (f.point q)

/-- Velocity with the coefficients `v` on a face. -/
def Spec.faceVelocity (f : OpenFace K) (v : ℕ → K) (q d : ℕ) : K := ∑ i ∈ range M.nDof, v i * f.shape i q d

/-- `∫ p_b v·n` over the open part of the boundary. -/
def Spec.boundaryWork (pb : OpenFace K → ℕ → Option K) (v : ℕ → K) : K :=
  (M.faces.map fun f => ∑ q ∈ range f.nQ,
    (pb f q).getD 0 * (∑ d ∈ range M.dim, Spec.faceVelocity M f v q d * f.normal q d) * f.jxw q).sum

/-! ### Proofs -/

theorem faceRhs_pair (time : K) (g : PFn) (f : OpenFace K) (v : ℕ → K) :
    ∑ i ∈ range M.nDof, v i * M.faceRhs time g f i =
      ∑ q ∈ range f.nQ, M.boundaryValue time f q g * (∑ d ∈ range M.dim, Spec.faceVelocity M f v q d * f.normal q d) * f.jxw q := by
  unfold OpenMesh.faceRhs Spec.faceVelocity
  simp only [mul_sum, sum_mul]
  rw [sum_comm]
  refine sum_congr rfl fun q _ => ?_
  rw [sum_comm]
  exact sum_congr rfl fun d _ => sum_congr rfl fun i _ => by ring

/-- Contribution of a list of faces, tested with a velocity. -/
theorem fold_pair (hC : M.constraints.Closed) (d : Desc) (time : K) (v : ℕ → K) (l : List (OpenFace K)) (r : ℕ → K) :
    ∑ k ∈ range M.nDof, v k * (l.foldl (fun r f => match d.openP.find f.id with
      | some g => fun k => r k + M.constraints.scatter M.nDof (M.faceRhs time g f) k
      | none => r) r) k =
    ∑ k ∈ range M.nDof, v k * r k + (l.map fun f => ∑ q ∈ range f.nQ,
      ((d.openP.find f.id).map fun g => M.boundaryValue time f q g).getD 0 *
        (∑ e ∈ range M.dim, Spec.faceVelocity M f (M.constraints.dist M.nDof v) q e * f.normal q e) * f.jxw q).sum := by
  induction l generalizing r with
  | nil => simp
  | cons f l ih =>
    rw [List.foldl_cons, ih, List.map_cons, List.sum_cons, ← add_assoc]
    congr 1
    cases h : d.openP.find f.id with
    | none => simp
    | some g =>
      dsimp only
      simp only [mul_add, sum_add_distrib, Option.map_some, Option.getD_some]
      rw [M.constraints.pairing hC, faceRhs_pair]

theorem constRhs_pair (hC : M.constraints.Closed) (d : Desc) (time : K) (v : ℕ → K) :
    ∑ k ∈ range M.nDof, v k * M.constRhs d time k =
      (M.faces.map fun f => ∑ q ∈ range f.nQ, ((d.openP.find f.id).map fun g => M.boundaryValue time f q g).getD 0 *
        (∑ e ∈ range M.dim, Spec.faceVelocity M f (M.constraints.dist M.nDof v) q e * f.normal q e) * f.jxw q).sum := by
  unfold OpenMesh.constRhs
  rw [fold_pair M hC]
  simp

theorem run_snoc (s : OpenState K) (es : List (OpenEvent K)) (e : OpenEvent K) :
    s.run M (es ++ [e]) = (s.run M es).exec M e := by
  unfold OpenState.run
  rw [List.foldl_append, List.foldl_cons, List.foldl_nil]

theorem run_desc (p : Params K) (es : List (OpenEvent K)) :
    ((OpenState.construct p).run M es).desc = Desc.empty.run M.dim (es.filterMap OpenEvent.toCall) := by
  induction es using List.reverseRecOn with
  | nil => rfl
  | append_singleton es e ih =>
    rw [run_snoc, List.filterMap_append]
    cases e with
    | call c =>
      have : List.filterMap (OpenEvent.toCall (K := K)) [.call c] = [c] := rfl
      rw [this, Boundary.run_append, ← ih]
      rfl
    | setup =>
      have : List.filterMap (OpenEvent.toCall (K := K)) [.setup] = [] := rfl
      rw [this, List.append_nil]
      exact ih
    | stokes =>
      have : List.filterMap (OpenEvent.toCall (K := K)) [.stokes] = [] := rfl
      rw [this, List.append_nil]
      exact ih
    | step dt =>
      have : List.filterMap (OpenEvent.toCall (K := K)) [.step dt] = [] := rfl
      rw [this, List.append_nil]
      exact ih

/-- **C80 (boundary term).** After every history of calls, setups, Stokes solves and steps that ends with a solve, the constant
part of the right hand side, tested with any velocity that fulfills the constraints, is the work `∫ p_b v·n` of the pressure
prescribed by the user for the open boundaries (last call since the last clearing) at the time of the solve; nothing of earlier
steps is left. -/
theorem C80_open_boundary_term (hC : M.constraints.Closed) (p : Params K) (es : List (OpenEvent K)) (e : OpenEvent K)
    (he : e.solves = true) (v : ℕ → K) (hv : ∀ i, M.constraints.dist M.nDof v i = v i) :
    let s := (OpenState.construct p).run M (es ++ [e])
    ∑ k ∈ range M.nDof, v k * s.rhs k =
      Spec.boundaryWork M (Spec.openPressure M (es.filterMap OpenEvent.toCall) s.t.now) v := by
  intro s
  have hs : s.rhs = M.constRhs ((OpenState.construct p).run M es).desc s.t.now := by
    change ((OpenState.construct p).run M (es ++ [e])).rhs = M.constRhs _ ((OpenState.construct p).run M (es ++ [e])).t.now
    rw [run_snoc]
    cases e with
    | call c => cases he
    | setup => cases he
    | stokes => rfl
    | step dt => rfl
  rw [hs, constRhs_pair M hC, run_desc]
  unfold Spec.boundaryWork Spec.openPressure
  have hv' : M.constraints.dist M.nDof v = v := funext hv
  rw [hv']
  congr 1
  refine List.map_congr_left fun f _ => sum_congr rfl fun q _ => ?_
  rw [(C09_last_call_decides M.dim (es.filterMap OpenEvent.toCall) f.id).2.1]
  congr 2

/-- **C80 (no open boundary).** Without an open boundary there is no such term. -/
theorem C80_closed (hC : M.constraints.Closed) (p : Params K) (es : List (OpenEvent K)) (e : OpenEvent K) (he : e.solves = true)
    (hno : ∀ f ∈ M.faces, lastOf (wantsOpen f.id) (sinceClear (es.filterMap OpenEvent.toCall)) = none)
    (v : ℕ → K) (hv : ∀ i, M.constraints.dist M.nDof v i = v i) :
    ∑ k ∈ range M.nDof, v k * ((OpenState.construct p).run M (es ++ [e])).rhs k = 0 := by
  rw [C80_open_boundary_term M hC p es e he v hv]
  unfold Spec.boundaryWork Spec.openPressure
  apply List.sum_eq_zero
  intro x hx
  obtain ⟨f, hf, rfl⟩ := List.mem_map.1 hx
  rw [hno f hf]
  simp

variable {X : Type} [AddCommGroup X] {Q : Type} (D : Discretization K X Q)

/-- Test functions and the finite element velocity agree: `vel t` are the velocity coefficients of `t`. The right hand side of
the system is `user_rhs - const_rhs - ...` with a volume force `f`. -/
def openSystemRhs (par : Q → PointParams K) (s : OpenState K) (f : Q → ℕ → K) (vel : X → ℕ → K) (old oldOld x t : X) : K :=
  systemRhs D par old oldOld (fun t => ∑ q ∈ D.pts, D.jxw q * ∑ d ∈ range M.dim, f q d * (D.at_ t q).u d
    - ∑ k ∈ range M.nDof, vel t k * s.rhs k) x t

/-- **C80 (equilibrium at an open boundary).** A fluid at rest whose pressure balances the volume force and equals the prescribed
pressure on the open boundary has zero residual in every step, for every test function that vanishes on the rest of the boundary
(expressed by integration by parts: `∫ ∇p·v + p div v = ∫ p v·n` over the open boundary). In particular a constant pressure
equal to a constant prescribed one does not set the fluid in motion. -/
theorem C80_rest_with_open_boundary (hC : M.constraints.Closed) (p : Params K) (es : List (OpenEvent K)) (e : OpenEvent K)
    (he : e.solves = true) (par : Q → PointParams K) (hdim : M.dim = 1 ∨ M.dim = 2 ∨ M.dim = 3)
    (hpar : ∀ q, (par q).dim = M.dim ∧ (par q).ext 0 0 = 0) (f : Q → ℕ → K) (vel : X → ℕ → K) (old oldOld x t : X)
    (ho : ∀ q ∈ D.pts, (∀ d, (D.at_ old q).u d = 0) ∧ ∀ d e, (D.at_ old q).gradU d e = 0)
    (hoo : ∀ q ∈ D.pts, (∀ d, (D.at_ oldOld q).u d = 0) ∧ ∀ d e, (D.at_ oldOld q).gradU d e = 0)
    (hx : ∀ q ∈ D.pts, (∀ d, (D.at_ x q).u d = 0) ∧ ∀ d e, (D.at_ x q).gradU d e = 0)
    (hv : ∀ i, M.constraints.dist M.nDof (vel t) i = vel t i)
    (pFace : OpenFace K → ℕ → K)
    (hparts : ∑ q ∈ D.pts, D.jxw q * (∑ d ∈ range M.dim, f q d * (D.at_ t q).u d +
        (D.at_ x q).p * ∑ d ∈ range M.dim, (D.at_ t q).gradU d d) =
      Spec.boundaryWork M (fun f q => if (lastOf (wantsOpen f.id) (sinceClear (es.filterMap OpenEvent.toCall))).isSome
        then some (pFace f q) else none) (vel t))
    (hpres : ∀ f ∈ M.faces, ∀ q, ∀ y, Spec.openPressure M (es.filterMap OpenEvent.toCall)
      ((OpenState.construct p).run M (es ++ [e])).t.now f q = some y → y = pFace f q) :
    openSystemRhs M D par ((OpenState.construct p).run M (es ++ [e])) f vel old oldOld x t = 0 := by
  unfold openSystemRhs systemRhs
  dsimp only
  rw [C80_open_boundary_term M hC p es e he (vel t) hv]
  have hw : Spec.boundaryWork M (Spec.openPressure M (es.filterMap OpenEvent.toCall)
      ((OpenState.construct p).run M (es ++ [e])).t.now) (vel t) =
      Spec.boundaryWork M (fun f q => if (lastOf (wantsOpen f.id) (sinceClear (es.filterMap OpenEvent.toCall))).isSome
        then some (pFace f q) else none) (vel t) := by
    unfold Spec.boundaryWork
    congr 1
    refine List.map_congr_left fun f hf => sum_congr rfl fun q _ => ?_
    congr 2
    have h := hpres f hf q
    unfold Spec.openPressure at h ⊢
    dsimp only
    cases hl : lastOf (wantsOpen f.id) (sinceClear (es.filterMap OpenEvent.toCall)) with
    | none => rfl
    | some g =>
      rw [hl] at h
      simp only [Option.map_some, Option.getD_some, Option.isSome_some, if_true]
      exact h _ rfl
  rw [hw, ← hparts]
  have : ∀ q ∈ D.pts, D.jxw q * tested (par q).dim (residualPoint (par q) (D.at_ old q) (D.at_ oldOld q) (D.at_ x q)) (D.at_ t q) =
      -(D.jxw q * ((D.at_ x q).p * ∑ d ∈ range M.dim, (D.at_ t q).gradU d d)) := by
    intro q hq
    rw [LevelSet.tested_rest (par q) (by rw [(hpar q).1]; exact hdim) (hpar q).2 _ _ _ _ (ho q hq) (hoo q hq) (hx q hq),
      (hpar q).1]
    ring
  rw [sum_congr rfl this]
  simp only [mul_add, sum_add_distrib, sum_neg_distrib]
  ring

/-! ### Example: one cell `[0,1]`, linear velocity with `v(0) = 0`, open at the right end -/

/-- Velocity degree of freedom 0 at `x = 0` is constrained to zero, degree of freedom 1 at `x = 1` is free; prescribed pressure
`7 + 2 t`. -/
def exOpen : OpenMesh ℚ where
  dim := 1
  nDof := 2
  constraints := ⟨fun i => if i = 0 then some fun _ => 0 else none⟩
  faces := [⟨3, 1, fun _ => 0, fun _ _ => -1, fun _ => 1, fun i _ _ => if i = 0 then 1 else 0⟩,
    ⟨5, 1, fun _ => 1, fun _ _ => 1, fun _ => 1, fun i _ _ => if i = 1 then 1 else 0⟩]
  value := fun _ t _ => 7 + 2 * t

def exOpenParams : Params ℚ := ⟨.implicitEuler, 0, 1, 1 / 2, 1 / 2, 1 / 2⟩

theorem exOpen_closed : exOpen.constraints.Closed := by
  intro i c h k hk
  unfold exOpen at h
  dsimp only at h
  split at h
  · injection h with h; rw [← h]
  · cases h

/-- No-slip on the left, pressure on the right; the second step is at time 1 and the entry of the free degree of freedom is 9. -/
def exOpenHistory : List (OpenEvent ℚ) := [.call (.noSlip 3), .call (.openB 5 (some ⟨1, 1⟩) 0), .setup, .stokes, .step none]

example : ((OpenState.construct exOpenParams).run exOpen (exOpenHistory ++ [.step none])).rhs 1 = 9 ∧
    ((OpenState.construct exOpenParams).run exOpen (exOpenHistory ++ [.step none])).rhs 0 = 0 ∧
    ((OpenState.construct exOpenParams).run exOpen (exOpenHistory ++ [.step none])).t.now = 1 := by decide +kernel

/-- Velocity `a x` and pressure `p` on the cell, midpoint rule. -/
def exOpenDisc : Discretization ℚ (ℚ × ℚ) ℕ where
  pts := {0}
  jxw := fun _ => 1
  at_ := fun x _ => ⟨fun _ => x.1 / 2, fun _ _ => x.1, x.2⟩
  at_add := by
    intro x y q
    simp only [PointIn.add, Prod.fst_add, Prod.snd_add, PointIn.mk.injEq]
    exact ⟨by funext d; ring, trivial, trivial⟩

/-- `C80_rest_with_open_boundary` applies at time 1 with the constant pressure 9, for every test function. -/
example (par : ℕ → PointParams ℚ) (hpar : ∀ q, (par q).dim = 1 ∧ (par q).ext 0 0 = 0) (t : ℚ × ℚ) :
    openSystemRhs exOpen exOpenDisc par ((OpenState.construct exOpenParams).run exOpen (exOpenHistory ++ [.step none]))
      (fun _ _ => 0) (fun t i => if i = 1 then t.1 else 0) (0, 5) (0, 4) (0, 9) t = 0 := by
  have hopen : ∀ f ∈ exOpen.faces, f.id = 3 ∨ f.id = 5 := by decide +kernel
  have h3 : lastOf (wantsOpen 3) (sinceClear (exOpenHistory.filterMap OpenEvent.toCall)) = none := by decide +kernel
  have h5 : lastOf (wantsOpen 5) (sinceClear (exOpenHistory.filterMap OpenEvent.toCall)) = some (.user ⟨1, 1⟩) := by
    decide +kernel
  have hn : ((OpenState.construct exOpenParams).run exOpen (exOpenHistory ++ [.step none])).t.now = 1 := by decide +kernel
  refine C80_rest_with_open_boundary exOpen exOpenDisc exOpen_closed exOpenParams exOpenHistory (.step none) rfl par (.inl rfl)
    hpar _ _ _ _ _ t ?_ ?_ ?_ ?_ (fun _ _ => 9) ?_ ?_
  · intro q _; exact ⟨fun _ => by simp [exOpenDisc], fun _ _ => by simp [exOpenDisc]⟩
  · intro q _; exact ⟨fun _ => by simp [exOpenDisc], fun _ _ => by simp [exOpenDisc]⟩
  · intro q _; exact ⟨fun _ => by simp [exOpenDisc], fun _ _ => by simp [exOpenDisc]⟩
  · intro i
    unfold Constr.dist exOpen
    by_cases h : i = 0 <;> simp [h]
  · unfold Spec.boundaryWork Spec.faceVelocity
    simp only [exOpen, List.map_cons, List.map_nil, h3, h5]
    simp [exOpenDisc, sum_range_succ]
  · intro f hf q y
    unfold Spec.openPressure
    rw [hn]
    rcases hopen f hf with h | h <;> rw [h]
    · rw [h3]; intro h; cases h
    · rw [h5]; intro h
      simp [exOpen] at h
      rw [← h]; norm_num

end Verif.Boundary
