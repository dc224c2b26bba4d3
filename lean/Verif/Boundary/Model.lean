/-!
# Boundary descriptions (flow_base_algorithm.h/.cc) and their check in
`NavierStokes::initialize_data_structures` (navier_stokes.cc)
-/

namespace Verif.Boundary

/-- `std::map<types::boundary_id, T>` as the list of its entries in iteration order. -/
abbrev Map (α : Type) := List (Nat × α)

/-- `map::find`. -/
def Map.find {α : Type} : Map α → Nat → Option α
  | [], _ => none
  | (k, v) :: m, b => if k = b then some v else Map.find m b

/-- `map[b] = v` on a `std::map`, keeping the entries sorted by key. -/
def Map.set {α : Type} : Map α → Nat → α → Map α
  | [], b, v => [(b, v)]
  | (k, w) :: m, b, v =>
    if b < k then (b, v) :: (k, w) :: m
    else if k = b then (b, v) :: m
    else (k, w) :: Map.set m b v

/-- `std::set<types::boundary_id>` is a map without values. -/
abbrev IdSet := Map Unit

/-- A user supplied `Function<dim>` object: an identity and `n_components`. -/
structure Fn where
  ident : Nat
  comps : Nat
  deriving DecidableEq, Repr

/-- Entry of `open_conditions_p`: the `ZeroFunction` made up by the class or the user's function. -/
inductive PFn
  | zero
  | user (f : Fn)
  deriving DecidableEq, Repr

/-- `numbers::invalid_boundary_id`, i.e. `types::boundary_id(-1)` for `unsigned int`. -/
def invalidId : Nat := 2 ^ 32 - 1

/-- `helpers::BoundaryDescriptor<dim>`, include/adaflo/flow_base_algorithm.h:46-61.
`fluidType` stores the constant value `+1`/`-1` of the constant function. -/
structure Desc where
  dirichlet : Map Fn
  openP : Map PFn
  pressureFix : Map (Option Fn)
  normalFlux : IdSet
  symmetry : IdSet
  noSlip : IdSet
  fluidType : Map Int
  periodic : Nat → Nat × Nat

/-- Constructor, source/flow_base_algorithm.cc:24-29. -/
def Desc.empty : Desc where
  dirichlet := []
  openP := []
  pressureFix := []
  normalFlux := []
  symmetry := []
  noSlip := []
  fluidType := []
  periodic := fun _ => (invalidId, invalidId)

/-- The public calls that change the descriptor. -/
inductive Call
  | dirichlet (id : Nat) (f : Option Fn) (fluid : Int)
  | openB (id : Nat) (f : Option Fn) (fluid : Int)
  | openFlux (id : Nat) (f : Option Fn) (fluid : Int)
  | fixP (id : Nat) (f : Option Fn)
  | symmetry (id : Nat)
  | noSlip (id : Nat)
  | periodic (dir incoming outgoing : Nat)
  | clear
  deriving DecidableEq, Repr

/-- The `switch (inflow_fluid_type)` of lines 86-99 (same in 123-136 and 162-175).  The Boolean is
`true` if `AssertThrow(false, "Unknown fluid type")` is hit. -/
def Desc.setFluid (d : Desc) (id : Nat) (fluid : Int) : Desc × Bool :=
  if fluid = 0 then (d, false)
  else if fluid = 1 then ({ d with fluidType := d.fluidType.set id 1 }, false)
  else if fluid = -1 then ({ d with fluidType := d.fluidType.set id (-1) }, false)
  else (d, true)

/-- `set_no_slip_boundary`, source/flow_base_algorithm.cc:205-209. -/
def Desc.setNoSlip (d : Desc) (id : Nat) : Desc := { d with noSlip := d.noSlip.set id () }

/-- One call: new descriptor and whether an exception was thrown
(source/flow_base_algorithm.cc:54-228). -/
def Desc.exec (dim : Nat) (d : Desc) : Call → Desc × Bool
  -- set_velocity_dirichlet_boundary, lines 72-100
  | .dirichlet id none _ => (d.setNoSlip id, false)
  | .dirichlet id (some f) fluid =>
    if f.comps ≠ dim then (d, true)
    else Desc.setFluid { d with dirichlet := d.dirichlet.set id f } id fluid
  -- set_open_boundary, lines 106-137
  | .openB id none fluid => Desc.setFluid { d with openP := d.openP.set id .zero } id fluid
  | .openB id (some f) fluid =>
    if f.comps ≠ 1 then (d, true)
    else Desc.setFluid { d with openP := d.openP.set id (.user f) } id fluid
  -- set_open_boundary_with_normal_flux, lines 143-176
  | .openFlux id none fluid =>
    Desc.setFluid { d with openP := d.openP.set id .zero, normalFlux := d.normalFlux.set id () }
      id fluid
  | .openFlux id (some f) fluid =>
    if f.comps ≠ 1 then (d, true)
    else Desc.setFluid { d with openP := d.openP.set id (.user f),
                                normalFlux := d.normalFlux.set id () } id fluid
  -- fix_pressure_constant, lines 182-190
  | .fixP id none => ({ d with pressureFix := d.pressureFix.set id none }, false)
  | .fixP id (some f) =>
    if f.comps ≠ 1 then (d, true)
    else ({ d with pressureFix := d.pressureFix.set id (some f) }, false)
  -- set_symmetry_boundary, lines 196-200
  | .symmetry id => ({ d with symmetry := d.symmetry.set id () }, false)
  | .noSlip id => (d.setNoSlip id, false)
  -- set_periodic_direction, lines 215-224
  | .periodic dir i o =>
    if dir < dim then
      ({ d with periodic := fun k => if k = dir then (i, o) else d.periodic k }, false)
    else (d, true)
  -- clear_all_boundary_conditions, lines 57-64: fluid_type and periodic_boundaries are kept
  | .clear => ({ d with dirichlet := [], openP := [], pressureFix := [], normalFlux := [],
                        symmetry := [], noSlip := [] }, false)

/-- A history of calls (the user may catch the exceptions and go on). -/
def Desc.run (dim : Nat) (d : Desc) (cs : List Call) : Desc :=
  cs.foldl (fun d c => (d.exec dim c).1) d

/-- The messages of the four kinds of `AssertThrow` in the setup. -/
inductive Err
  | periodicMixed | periodicEqual | symmetryMixed | dirichletOpen
  deriving DecidableEq, Repr

/-- `map.find(b) != map.end()`. -/
def Map.has {α : Type} (m : Map α) (b : Nat) : Bool := (m.find b).isSome

/-- Body of the periodicity loop, source/navier_stokes.cc:244-271. -/
def Desc.checkPeriodic (d : Desc) (dir : Nat) : Except Err Unit :=
  if d.periodic dir ≠ (invalidId, invalidId) then
    let i := (d.periodic dir).1
    let o := (d.periodic dir).2
    if !d.openP.has i && !d.openP.has o && !d.dirichlet.has i && !d.dirichlet.has o &&
        !d.noSlip.has i && !d.noSlip.has o && !d.symmetry.has i && !d.symmetry.has o then
      if i ≠ o then .ok () else .error .periodicEqual
    else .error .periodicMixed
  else .ok ()

/-- Body of the symmetry loop, source/navier_stokes.cc:273-283. -/
def Desc.checkSymmetry (d : Desc) (id : Nat) : Except Err Unit :=
  if !d.openP.has id && !d.noSlip.has id && !d.dirichlet.has id then .ok ()
  else .error .symmetryMixed

/-- Bodies of the Dirichlet and no-slip loops, source/navier_stokes.cc:304-331. -/
def Desc.checkDirichlet (d : Desc) (id : Nat) : Except Err Unit :=
  if d.openP.has id then .error .dirichletOpen else .ok ()

/-- The checks of `initialize_data_structures` in program order (navier_stokes.cc:228-331); the first
failing one is reported.  Constraint generation in between is not modelled. -/
def Desc.setup (dim : Nat) (d : Desc) : Except Err Unit := do
  (List.range dim).forM d.checkPeriodic
  (d.symmetry.map Prod.fst).forM d.checkSymmetry
  (d.dirichlet.map Prod.fst).forM d.checkDirichlet
  (d.noSlip.map Prod.fst).forM d.checkDirichlet

end Verif.Boundary
