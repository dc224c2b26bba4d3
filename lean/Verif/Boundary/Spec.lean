import Verif.Boundary.Model

/-! # Specification vocabulary for boundary descriptions

Everything here is phrased in terms of the *list of calls* the user made. -/

namespace Verif.Boundary

/-- The last value in `cs` on which `f` is defined. -/
def lastOf {β : Type} (f : Call → Option β) (cs : List Call) : Option β := (cs.filterMap f).getLast?

/-- The calls after the last `clear_all_boundary_conditions()`. -/
def sinceClear : List Call → List Call
  | [] => []
  | c :: cs => if .clear ∈ cs then sinceClear cs else if c = .clear then cs else c :: cs

/-- Velocity condition a call asks for at `b` (a function with the wrong number of components is
refused). -/
def wantsDirichlet (dim b : Nat) : Call → Option Fn
  | .dirichlet id (some f) _ => if id = b ∧ f.comps = dim then some f else none
  | _ => none

/-- Pressure condition a call asks for at `b`; leaving the function out means zero. -/
def wantsOpen (b : Nat) : Call → Option PFn
  | .openB id none _ | .openFlux id none _ => if id = b then some .zero else none
  | .openB id (some f) _ | .openFlux id (some f) _ =>
    if id = b ∧ f.comps = 1 then some (.user f) else none
  | _ => none

/-- Does the call ask for normal flow at `b`? -/
def wantsFlux (b : Nat) : Call → Option Unit
  | .openFlux id none _ => if id = b then some () else none
  | .openFlux id (some f) _ => if id = b ∧ f.comps = 1 then some () else none
  | _ => none

/-- Pressure value fixed at `b`. -/
def wantsFix (b : Nat) : Call → Option (Option Fn)
  | .fixP id none => if id = b then some none else none
  | .fixP id (some f) => if id = b ∧ f.comps = 1 then some (some f) else none
  | _ => none

/-- Symmetry at `b`. -/
def wantsSymmetry (b : Nat) : Call → Option Unit
  | .symmetry id => if id = b then some () else none
  | _ => none

/-- No slip at `b`: asked for directly or by a velocity condition without function. -/
def wantsNoSlip (b : Nat) : Call → Option Unit
  | .noSlip id | .dirichlet id none _ => if id = b then some () else none
  | _ => none

/-- Fluid type asked for at `b`. -/
def wantsFluid (dim b : Nat) : Call → Option Int
  | .dirichlet id (some f) t =>
    if id = b ∧ f.comps = dim ∧ (t = 1 ∨ t = -1) then some t else none
  | .openB id none t | .openFlux id none t =>
    if id = b ∧ (t = 1 ∨ t = -1) then some t else none
  | .openB id (some f) t | .openFlux id (some f) t =>
    if id = b ∧ f.comps = 1 ∧ (t = 1 ∨ t = -1) then some t else none
  | _ => none

/-- Periodicity asked for in direction `k`. -/
def wantsPeriodic (dim k : Nat) : Call → Option (Nat × Nat)
  | .periodic dir i o => if dir = k ∧ dir < dim then some (i, o) else none
  | _ => none

/-- A conflict in a configuration, declaratively. -/
inductive Conflict (dim : Nat) (d : Desc) : Prop
  /-- a periodic face pair has equal ids -/
  | periodicEqual (dir : Nat) (h : dir < dim) (hp : d.periodic dir ≠ (invalidId, invalidId))
      (he : (d.periodic dir).1 = (d.periodic dir).2)
  /-- an id of a periodic pair also carries another condition -/
  | periodicMixed (dir : Nat) (h : dir < dim) (hp : d.periodic dir ≠ (invalidId, invalidId))
      (id : Nat) (hid : id = (d.periodic dir).1 ∨ id = (d.periodic dir).2)
      (hm : d.openP.find id ≠ none ∨ d.dirichlet.find id ≠ none ∨ d.noSlip.find id ≠ none ∨
        d.symmetry.find id ≠ none)
  /-- a symmetry id also carries another condition -/
  | symmetryMixed (id : Nat) (hs : d.symmetry.find id ≠ none)
      (hm : d.openP.find id ≠ none ∨ d.dirichlet.find id ≠ none ∨ d.noSlip.find id ≠ none)
  /-- velocity and pressure prescribed on the same id -/
  | velocityOpen (id : Nat) (hv : d.dirichlet.find id ≠ none ∨ d.noSlip.find id ≠ none)
      (ho : d.openP.find id ≠ none)

end Verif.Boundary
