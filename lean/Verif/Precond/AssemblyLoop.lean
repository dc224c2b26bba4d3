import Verif.Precond.Assembly
import Mathlib.Data.List.Range
import Mathlib.Data.List.Perm.Basic

/-!
# C108: assembly of the preconditioner matrices, cell by cell
(`local_assemble_preconditioner` and the scratch data, source/navier_stokes_preconditioner.cc:1438-1626, 1720-2367)

The loop reuses the matrices of a scratch object for all cells a thread works on, two arrays on the stack
within a range of cells, and walks through the arrays of coefficients with pointers.  The arithmetic
operations are arbitrary (no law is used for the main theorem), so that floating point numbers with
rounding and not-a-number values are covered.
-/

set_option linter.unusedSectionVars false

namespace Verif.Precond.Loop
open Verif.Operator

/-! ## Model -/

/-- `FullMatrix`; entries outside its size are never looked at. -/
abbrev Mat (F : Type*) := ℕ → ℕ → F

/-- Assignment to one entry, `+=` and `-=`. -/
inductive Write (F : Type*)
  | set (r c : ℕ) (x : F)
  | add (r c : ℕ) (x : F)
  | sub (r c : ℕ) (x : F)

variable {F : Type*}

def Write.apply [Add F] [Sub F] : Write F → Mat F → Mat F
  | .set r c x, A => fun i j => if i = r ∧ j = c then x else A i j
  | .add r c x, A => fun i j => if i = r ∧ j = c then A i j + x else A i j
  | .sub r c x, A => fun i j => if i = r ∧ j = c then A i j - x else A i j

/-- Assignments in a row. -/
def run [Add F] [Sub F] (ws : List (Write F)) (A : Mat F) : Mat F := ws.foldl (fun A w => w.apply A) A

/-- `for (k = 0; k < n; ++k) s += f k`. -/
def sumTo [Zero F] [Add F] (n : ℕ) (f : ℕ → F) : F := (List.range n).foldl (fun s k => s + f k) 0

/-- `A.Tmmult(dst, B)`: all `rs × cs` entries of `dst` are overwritten with those of `AᵀB`. -/
def tmmult [Zero F] [Add F] [Mul F] (n rs cs : ℕ) (A B dst : Mat F) : Mat F := fun i j =>
  if i < rs ∧ j < cs then sumTo n fun k => A k i * B k j else dst i j

/-- The scratch matrices, lines 1494-1517, and the arrays `data_for_val`, `data_for_grad` on the stack of
`local_assemble_preconditioner`, lines 1752-1753. -/
structure Scratch (F : Type*) where
  velocity : Mat F
  pressure : Mat F
  pressureMass : Mat F
  ip1 : Mat F
  ip2 : Mat F
  laplacePart : Mat F
  massPart : Mat F
  permuted : Mat F
  phi : Mat F
  phiAndGrad : Mat F
  linear : Mat F
  dataVal : Mat F
  dataGrad : Mat (ℕ → F)

/-- Face terms of the augmented Taylor-Hood element, values as modelled in C81: an inner face or subface
(lines 2247-2328) with the integrals for the continuous functions, the penalty entry and the number of the
discontinuous unknown of the neighbour; an open boundary (lines 2329-2342); other faces. -/
inductive Face (F : Type*)
  | inner (val : ℕ → F) (last : F) (neighDof : ℕ)
  | nitsche (m : ℕ → ℕ → F)
  | other

/-- Parameters, coefficient arrays (`VectorizedArray` = function of the lane) and geometry of the cells. -/
structure Asm (F : Type*) where
  dim : ℕ
  nq : ℕ
  nu : ℕ
  np : ℕ
  nv : ℕ
  amgLinear : Bool
  scalarIlu : Bool
  pMassIlu : Bool
  augmented : Bool
  variable_ : Bool
  stationary : Bool
  projection : Bool
  density : F
  densityDiff : F
  viscosity : F
  dampingPar : F
  tauGradDiv : F
  w : F
  tau : F
  sqrt : F → F
  densities : ℕ → ℕ → F
  viscosities : ℕ → ℕ → F
  damping : ℕ → ℕ → F
  linearized : Option (ℕ → ℕ → Stored F)
  nActive : ℕ → ℕ
  cellOf : ℕ → ℕ → ℕ
  order : ℕ → ℕ → ℕ
  jxw : ℕ → ℕ → F
  valU : ℕ → ℕ → ℕ → F
  gradU : ℕ → ℕ → ℕ → ℕ → F
  valP : ℕ → ℕ → ℕ → F
  gradP : ℕ → ℕ → ℕ → ℕ → F
  dofU : ℕ → ℕ → ℕ
  dofUScalar : ℕ → ℕ → ℕ
  dofP : ℕ → ℕ → ℕ
  faces : ℕ → List (Face F)
  nSubU : ℕ
  nSubP : ℕ
  dofToLinU : ℕ → ℕ → ℕ
  dofToLinP : ℕ → ℕ → ℕ
  jxwLinU : ℕ → ℕ → ℕ → F
  jxwLinP : ℕ → ℕ → ℕ → F
  jacLinU : ℕ → ℕ → ℕ → ℕ → ℕ → F
  jacLinP : ℕ → ℕ → ℕ → ℕ → ℕ → F
  unitVal : ℕ → ℕ → F
  unitGrad : ℕ → ℕ → ℕ → F

/-- The matrices to which local contributions are added. -/
inductive Target
  | velocity | velocityScalar | pressure | pressureMass
  deriving DecidableEq, Repr

/-- A call of `distribute_local_to_global`: matrix, row and column unknowns, local matrix. -/
structure Contribution (F : Type*) where
  target : Target
  rows : List ℕ
  cols : List ℕ
  entries : List (List F)

/-- The local matrix handed over is the part of size `rs × cs` of `A`. -/
def emit (t : Target) (rs cs : ℕ) (rowDof colDof : ℕ → ℕ) (A : Mat F) : Contribution F :=
  ⟨t, (List.range rs).map rowDof, (List.range cs).map colDof,
    (List.range rs).map fun i => (List.range cs).map fun j => A i j⟩

section
variable [Zero F] [One F] [Add F] [Sub F] [Mul F] [Div F] [LT F] [DecidableLT F]

namespace Asm
variable (P : Asm F)

/-- `actual_nu`, `actual_rho`, `actual_damping` with the pointers at `off`: lines 1818-1823, 1945-1950. -/
def nu1 (off lane q : ℕ) : F := if P.variable_ then P.viscosities (off + q) lane else P.viscosity
def rho1 (off lane q : ℕ) : F := if P.variable_ then P.densities (off + q) lane else P.density
def damp1 (off lane q : ℕ) : F := if P.variable_ then P.damping (off + q) lane else P.dampingPar

/-- `phi_and_grad` without the stored gradient, lines 1852-1867 and 1996-2013: `weight_damping / weight_rho` with
`JxW` in both; `d` is the loop over the convective terms. -/
def phiGradValue (off lane q : ℕ) (JxW val : F) (grad : ℕ → F) (lq : ℕ) : F :=
  let base := (if P.stationary then 0 else val * P.w) -
    JxW * P.damp1 off lane q / (JxW * P.rho1 off lane q) * val
  match P.linearized with
  | none => base
  | some l => (List.range P.dim).foldl (fun s d => s + P.tau * grad d * (l (off + lq) lane).first d) base

/-- `velocity_phi_matrix`, lines 1829-1848. -/
def phiWrites (c off lane : ℕ) : List (Write F) :=
  (List.range P.nq).flatMap fun q => (List.range P.nu).flatMap fun i =>
    ((List.range P.dim).map fun d => Write.set ((P.dim + 1) * q + d) i
      (P.gradU c i q d * (P.jxw c q * (P.tauGradDiv + P.nu1 off lane q * P.tau)))) ++
    [Write.set ((P.dim + 1) * q + P.dim) i (P.valU c i q * (P.jxw c q * P.rho1 off lane q))]

/-- `velocity_phi_and_grad_matrix` for `u_ilu_scalar`, lines 1838-1840, 1864-1867, 1882-1885. -/
def phiGradScalarWrites (c off lane : ℕ) : List (Write F) :=
  (List.range P.nq).flatMap fun q => (List.range P.nu).flatMap fun i =>
    ((List.range P.dim).map fun d => Write.set ((P.dim + 1) * q + d) i (P.gradU c i q d)) ++
    [Write.set ((P.dim + 1) * q + P.dim) i
      (P.phiGradValue off lane q (P.jxw c q) (P.valU c i q) (P.gradU c i q) q)]

/-- The stored gradient in the last row, lines 1868-1881. -/
def lastRow (c off lane q i d : ℕ) : F :=
  let v := P.phiGradValue off lane q (P.jxw c q) (P.valU c i q) (P.gradU c i q) q
  match P.linearized with
  | none => v
  | some l => v + (l (off + q) lane).second d d * P.valU c i q * P.tau

/-- `velocity_phi_and_grad_matrix` for the other variants, lines 1841-1850, 1868-1881. -/
def phiGradWrites (c off lane : ℕ) : List (Write F) :=
  (List.range P.nq).flatMap fun q => (List.range P.nu).flatMap fun i =>
    ((List.range P.dim).flatMap fun d =>
      ((List.range P.dim).map fun e => Write.set ((P.dim + 1) * q + d) (i * P.dim + e) (P.gradU c i q d)) ++
      [Write.add ((P.dim + 1) * q + d) (i * P.dim + d) (P.gradU c i q d)]) ++
    (List.range P.dim).map fun d =>
      Write.set ((P.dim + 1) * q + P.dim) (i * P.dim + d) (P.lastRow c off lane q i d)

/-- Copy of the permuted matrix to the diagonal blocks, lines 1903-1911. -/
def copyWrites (permuted : Mat F) : List (Write F) :=
  (List.range P.nu).flatMap fun i => (List.range P.nu).flatMap fun j => (List.range P.dim).map fun d =>
    Write.set (P.order d i) (P.order d j) (permuted i (j * P.dim + d))

/-- Velocity matrix with the original elements, lines 1790-1930.  The two matrices filled in the loop over the
quadrature points are written one after the other here. -/
def velocityClassical (c off lane : ℕ) (s : Scratch F) : Scratch F × List (Contribution F) :=
  let s := { s with phi := run (P.phiWrites c off lane) s.phi }
  if P.scalarIlu then
    let s := { s with phiAndGrad := run (P.phiGradScalarWrites c off lane) s.phiAndGrad }
    let s := { s with permuted := tmmult ((P.dim + 1) * P.nq) P.nu P.nu s.phi s.phiAndGrad s.permuted }
    (s, [emit .velocityScalar P.nu P.nu (P.dofUScalar c) (P.dofUScalar c) s.permuted])
  else
    let s := { s with phiAndGrad := run (P.phiGradWrites c off lane) s.phiAndGrad }
    let s := { s with permuted := tmmult ((P.dim + 1) * P.nq) P.nu (P.nu * P.dim) s.phi s.phiAndGrad s.permuted }
    let s := { s with velocity := run (P.copyWrites s.permuted) s.velocity }
    (s, [emit .velocity (P.nu * P.dim) (P.nu * P.dim) (P.dofU c) (P.dofU c) s.velocity])

/-- `phi_grad_iq` of a linear sub-element, lines 1989-1994 and 2118-2124. -/
def linGrad (jac : ℕ → ℕ → F) (i q e : ℕ) : F := sumTo P.dim fun f => jac e f * P.unitGrad i q f

/-- `jac[0][e] * g[0]`, then `+= jac[f][e] * g[f]`: lines 2027-2033, 2130-2136. -/
def pullBack (jac : ℕ → ℕ → F) (g : ℕ → F) (e : ℕ) : F :=
  (List.range' 1 (P.dim - 1)).foldl (fun s f => s + jac f e * g f) (jac 0 e * g 0)

/-- `data_for_val` in lines 1996-2020, component `d` of sub-element `sub`. -/
def linValU (c off lane sub d q i : ℕ) : F :=
  let JxW := P.jxwLinU c sub q
  let v := P.phiGradValue off lane 0 JxW (P.unitVal i q) (P.linGrad (P.jacLinU c sub q) i q) 0
  JxW * P.rho1 off lane 0 *
    match P.linearized with
    | none => v
    | some l => v + P.tau * P.unitVal i q * (l off lane).second d d

/-- `grad_for_test`, lines 2021-2026. -/
def linTestU (c off lane sub d q i e : ℕ) : F :=
  let JxW := P.jxwLinU c sub q
  let g := P.linGrad (P.jacLinU c sub q) i q
  if e = d then
    g e * (JxW * P.nu1 off lane 0 * P.tau) + g e * (JxW * P.nu1 off lane 0 * P.tau) + g e * (JxW * P.tauGradDiv)
  else g e * (JxW * P.nu1 off lane 0 * P.tau)

/-- Writes of the two arrays for one component of one sub-element, lines 1968-2036. -/
def linValWritesU (c off lane sub d : ℕ) : List (Write F) :=
  (List.range P.nv).flatMap fun q => (List.range P.nv).map fun i =>
    Write.set i q (P.linValU c off lane sub d q i)
def linGradWritesU (c off lane sub d : ℕ) : List (Write (ℕ → F)) :=
  (List.range P.nv).flatMap fun q => (List.range P.nv).map fun i =>
    Write.set i q (P.pullBack (P.jacLinU c sub q) (P.linTestU c off lane sub d q i))

/-- The matrix product of lines 2038-2052 (velocity). -/
def linMatrixU (val : Mat F) (grad : Mat (ℕ → F)) : List (Write F) :=
  (List.range P.nv).flatMap fun i => (List.range P.nv).map fun j => Write.set i j
    ((List.range P.nv).foldl (fun r q => (List.range P.dim).foldl
      (fun r e => r + P.unitGrad i q e * grad j q e) (r + P.unitVal i q * val j q)) 0)

/-- Velocity matrix with linear sub-elements, lines 1932-2058. -/
def velocityLinear (c off lane : ℕ) (s : Scratch F) : Scratch F × List (Contribution F) :=
  (List.range P.nSubU).foldl (fun st sub => (List.range P.dim).foldl (fun (st : Scratch F × List (Contribution F)) d =>
    let s := { st.1 with
      dataVal := run (P.linValWritesU c off lane sub d) st.1.dataVal
      dataGrad := run (P.linGradWritesU c off lane sub d) st.1.dataGrad }
    let s := { s with linear := run (P.linMatrixU s.dataVal s.dataGrad) s.linear }
    let dof := fun k => P.dofU c (P.order d (P.dofToLinU sub k))
    (s, st.2 ++ [emit .velocity P.nv P.nv dof dof s.linear])) st) (s, [])

/-- `rho_weight`, lines 2073-2082 and 2196-2206 (`std::min(a, b)` is `b < a ? b : a`). -/
def rhoWeight (off lane q : ℕ) : F :=
  if P.stationary then 1
  else (if P.variable_ && !P.projection then P.densities (off + q) lane
    else if P.density + P.densityDiff < P.density then P.density + P.densityDiff else P.density) * P.w

/-- `actual_nu` of the pressure matrices, lines 2083-2091 and 2207-2214. -/
def pressureNu (off lane q : ℕ) : F :=
  if P.stationary || P.projection then 1 else P.nu1 off lane q + P.tauGradDiv

/-- The arrays for the pressure on a linear sub-element, lines 2100-2139: the gradients are skipped (`continue`)
if `rho_weight` is not positive. -/
def linValWritesP (c off lane sub : ℕ) : List (Write F) :=
  (List.range P.nv).flatMap fun q => (List.range P.nv).map fun i =>
    Write.set i q (P.jxwLinP c sub q / P.pressureNu off lane 0 * P.unitVal i q)
def linGradWritesP (c off lane sub : ℕ) : List (Write (ℕ → F)) :=
  (List.range P.nv).flatMap fun q => (List.range P.nv).flatMap fun i =>
    if 0 < P.rhoWeight off lane 0 then
      [Write.set i q (P.pullBack (P.jacLinP c sub q) fun e =>
        P.linGrad (P.jacLinP c sub q) i q e * (P.jxwLinP c sub q / P.rhoWeight off lane 0))]
    else []

/-- Products of lines 2141-2156 and 2160-2172. -/
def linLaplaceP (grad : Mat (ℕ → F)) : List (Write F) :=
  (List.range P.nv).flatMap fun i => (List.range P.nv).map fun j => Write.set i j
    ((List.range P.nv).foldl (fun r q => (List.range P.dim).foldl
      (fun r e => r + P.unitGrad i q e * grad j q e) r) 0)
def linMassP (val : Mat F) : List (Write F) :=
  (List.range P.nv).flatMap fun i => (List.range P.nv).map fun j => Write.set i j
    (sumTo P.nv fun q => P.unitVal i q * val j q)

/-- One sub-element for the pressure, lines 2067-2177. -/
def pressureLinearSub (c off lane sub : ℕ) (s : Scratch F) : Scratch F × List (Contribution F) :=
  let dof := fun k => P.dofP c (P.dofToLinP sub k)
  let s := { s with
    dataVal := run (P.linValWritesP c off lane sub) s.dataVal
    dataGrad := run (P.linGradWritesP c off lane sub) s.dataGrad }
  let a := if 0 < P.density then
      let s := { s with linear := run (P.linLaplaceP s.dataGrad) s.linear }
      (s, [emit .pressure P.nv P.nv dof dof s.linear])
    else (s, [])
  if P.pMassIlu then
    let s := { a.1 with linear := run (P.linMassP a.1.dataVal) a.1.linear }
    (s, a.2 ++ [emit .pressureMass P.nv P.nv dof dof s.linear])
  else a

/-- Pressure with linear sub-elements, lines 2060-2178. -/
def pressureLinear (c off lane : ℕ) (s : Scratch F) : Scratch F × List (Contribution F) :=
  (List.range P.nSubP).foldl (fun st sub =>
    let r := P.pressureLinearSub c off lane sub st.1
    (r.1, st.2 ++ r.2)) (s, [])

/-- `pressure_laplace_part_matrix`, lines 2216-2229: skipped at points where `rho_weight` is not positive. -/
def laplaceWrites (c off lane : ℕ) : List (Write F) :=
  (List.range P.nq).flatMap fun q => (List.range P.np).flatMap fun i =>
    if 0 < P.rhoWeight off lane q then
      (List.range P.dim).map fun d => Write.set (P.dim * q + d) i
        (P.gradP c i q d * P.sqrt (P.jxw c q / P.rhoWeight off lane q))
    else []

/-- `pressure_mass_part_matrix`, lines 2231-2236. -/
def massWrites (c off lane : ℕ) : List (Write F) :=
  (List.range P.nq).flatMap fun q => (List.range P.np).map fun i =>
    Write.set q i (P.sqrt (P.jxw c q / P.pressureNu off lane q) * P.valP c i q)

/-- `compute_ip_matrix_q_dg0`, lines 1672-1684: the last entry of the second matrix is not assigned. -/
def ip1Writes (val : ℕ → F) (last : F) : List (Write F) :=
  ((List.range (P.np - 1)).map fun i => Write.set 0 i (val i)) ++ [Write.set 0 (P.np - 1) last]
def ip2Writes (val : ℕ → F) : List (Write F) := (List.range (P.np - 1)).map fun i => Write.set i 0 (val i)

/-- The row and the column of the discontinuous function, lines 2277-2282 and 2310-2315. -/
def ipSub (ip1 ip2 : Mat F) : List (Write F) :=
  ((List.range P.np).map fun i => Write.sub (P.np - 1) i (ip1 0 i)) ++
    (List.range P.np).map fun i => Write.sub i (P.np - 1) (ip2 i 0)
/-- The terms of an open boundary, line 1711. -/
def nitscheAdd (m : ℕ → ℕ → F) : List (Write F) :=
  (List.range P.np).flatMap fun i => (List.range P.np).map fun j => Write.add i j (m i j)

/-- One face, lines 2247-2342. -/
def faceStep (c : ℕ) (st : Scratch F × List (Contribution F)) : Face F → Scratch F × List (Contribution F)
  | .inner val last neigh =>
    let s := { st.1 with ip1 := run (P.ip1Writes val last) st.1.ip1, ip2 := run (P.ip2Writes val) st.1.ip2 }
    let s := { s with pressure := run (P.ipSub s.ip1 s.ip2) s.pressure }
    (s, st.2 ++ [emit .pressure 1 P.np (fun _ => neigh) (P.dofP c) s.ip1,
      emit .pressure P.np 1 (P.dofP c) (fun _ => neigh) s.ip2])
  | .nitsche m =>
    ({ st.1 with pressure := run (P.nitscheAdd m) st.1.pressure }, st.2)
  | .other => st

/-- Pressure Laplace matrix, lines 2239-2347, and mass matrix, lines 2348-2355, from the filled matrices. -/
def laplaceProduct (c : ℕ) (s : Scratch F) : Scratch F × List (Contribution F) :=
  let s := { s with pressure := tmmult (P.dim * P.nq) P.np P.np s.laplacePart s.laplacePart s.pressure }
  let st := if P.augmented then (P.faces c).foldl (P.faceStep c) (s, []) else (s, [])
  (st.1, st.2 ++ [emit .pressure P.np P.np (P.dofP c) (P.dofP c) st.1.pressure])
def massProduct (c : ℕ) (s : Scratch F) : Scratch F × List (Contribution F) :=
  let s := { s with pressureMass := tmmult P.nq P.np P.np s.massPart s.massPart s.pressureMass }
  (s, [emit .pressureMass P.np P.np (P.dofP c) (P.dofP c) s.pressureMass])

/-- Pressure matrices with the original elements, lines 2179-2356. -/
def pressureClassical (c off lane : ℕ) (s : Scratch F) : Scratch F × List (Contribution F) :=
  let s := { s with laplacePart := run (P.laplaceWrites c off lane) s.laplacePart }
  let s := if P.pMassIlu || P.augmented then
    { s with massPart := run (P.massWrites c off lane) s.massPart } else s
  let a := if 0 < P.density then P.laplaceProduct c s else (s, [])
  if P.pMassIlu || P.augmented then
    let b := P.massProduct c a.1
    (b.1, a.2 ++ b.2)
  else a

/-- The body of the loop over the lanes, lines 1769-2357, for the cell `c` with the pointers at `off`. -/
def assembleCell (c off lane : ℕ) (s : Scratch F) : Scratch F × List (Contribution F) :=
  let a := if !P.amgLinear then P.velocityClassical c off lane s
    else
      let a := P.velocityLinear c off lane s
      if !P.augmented then
        let b := P.pressureLinear c off lane a.1
        (b.1, a.2 ++ b.2)
      else a
  if !P.amgLinear || P.augmented then
    let b := P.pressureClassical c off lane a.1
    (b.1, a.2 ++ b.2)
  else a

/-- The loop over the lanes of a batch. -/
def assembleBatch (m off : ℕ) (s : Scratch F) : Scratch F × List (Contribution F) :=
  (List.range (P.nActive m)).foldl (fun st v =>
    let r := P.assembleCell (P.cellOf m v) off v st.1
    (r.1, st.2 ++ r.2)) (s, [])

/-- `local_assemble_preconditioner` on the batches `first ≤ m < last`: the pointers start at
`n_q_points * first` (navier_stokes_matrix.h:295-302, 384-395) and are advanced after every batch (lines 2358-2365). -/
def assembleRange (first last : ℕ) (s : Scratch F) : Scratch F × List (Contribution F) :=
  let r := (List.range' first (last - first)).foldl (fun (st : ℕ × Scratch F × List (Contribution F)) m =>
    let b := P.assembleBatch m st.1 st.2.1
    (st.1 + P.nq, b.1, st.2.2 ++ b.2)) (P.nq * first, s, [])
  r.2

/-- A call of `local_assemble_preconditioner`: the thread, the range and what is on the stack. -/
structure Call (F : Type*) where
  thread : ℕ
  first : ℕ
  last : ℕ
  junkVal : Mat F
  junkGrad : Mat (ℕ → F)

/-- The cell loop: calls in the order in which they run; every thread has its own scratch data
(`ThreadLocalStorage`, lines 2396-2412). -/
def assembleAll (calls : List (Call F)) (scratch : ℕ → Scratch F) :
    (ℕ → Scratch F) × List (Contribution F) :=
  calls.foldl (fun st c =>
    let r := P.assembleRange c.first c.last
      { st.1 c.thread with dataVal := c.junkVal, dataGrad := c.junkGrad }
    (Function.update st.1 c.thread r.1, st.2 ++ r.2)) (scratch, [])

end Asm

/-- The scratch data after construction: all entries zero (lines 1543-1578); copies for other threads
(lines 1580-1625) start with the same content. -/
def fresh : Scratch F :=
  ⟨fun _ _ => 0, fun _ _ => 0, fun _ _ => 0, fun _ _ => 0, fun _ _ => 0, fun _ _ => 0, fun _ _ => 0,
    fun _ _ => 0, fun _ _ => 0, fun _ _ => 0, fun _ _ => 0, fun _ _ => 0, fun _ _ _ => 0⟩

end

/-! ## Specification -/

namespace Spec
variable [Zero F] [One F] [Add F] [Sub F] [Mul F] [Div F] [LT F] [DecidableLT F]

/-- What the cell in lane `v` of batch `m` contributes if it is assembled alone, with new scratch data and
with the pointers at the coefficients of batch `m`. -/
def alone (P : Asm F) (m v : ℕ) : List (Contribution F) :=
  (P.assembleCell (P.cellOf m v) (P.nq * m) v fresh).2

/-- All densities that are used are positive (or no pressure Laplace matrix is built at all). -/
def PositiveDensity (P : Asm F) : Prop :=
  0 < P.nq ∧ (0 < P.density → ∀ m v q, v < P.nActive m → q < P.nq → 0 < P.rhoWeight (P.nq * m) v q)

end Spec

/-! ## Proof -/

section Writes
variable [Add F] [Sub F]

/-- The entry a write goes to. -/
def Write.pos : Write F → ℕ × ℕ
  | .set r c _ => (r, c)
  | .add r c _ => (r, c)
  | .sub r c _ => (r, c)

theorem run_append (a b : List (Write F)) (A : Mat F) : run (a ++ b) A = run b (run a A) := by
  simp [run, List.foldl_append]

theorem apply_congr (w : Write F) {A B : Mat F} {r c : ℕ} (h : A r c = B r c) :
    w.apply A r c = w.apply B r c := by
  cases w <;> simp only [Write.apply, h]

theorem run_congr (ws : List (Write F)) {A B : Mat F} {r c : ℕ} (h : A r c = B r c) :
    run ws A r c = run ws B r c := by
  induction ws generalizing A B with
  | nil => exact h
  | cons w ws ih => exact ih (apply_congr w h)

theorem run_covered (ws : List (Write F)) {A B : Mat F} {r c : ℕ} (x : F)
    (h : Write.set r c x ∈ ws) : run ws A r c = run ws B r c := by
  induction ws generalizing A B with
  | nil => cases h
  | cons w ws ih =>
    rcases List.mem_cons.1 h with rfl | h
    · exact run_congr ws (by simp [Write.apply])
    · exact ih h

theorem run_other (ws : List (Write F)) {A : Mat F} {r c : ℕ} (h : ∀ w ∈ ws, w.pos ≠ (r, c)) :
    run ws A r c = A r c := by
  induction ws generalizing A with
  | nil => rfl
  | cons w ws ih =>
    have h1 := h w List.mem_cons_self
    change run ws (w.apply A) r c = A r c
    rw [ih (fun w' hw => h w' (List.mem_cons_of_mem _ hw))]
    cases w <;> simp only [Write.pos, ne_eq, Prod.mk.injEq] at h1 <;>
      exact if_neg (fun ⟨a, b⟩ => h1 ⟨a.symm, b.symm⟩)

/-- Some assignment goes to the entry. -/
def Covers (ws : List (Write F)) (r c : ℕ) : Prop := ∃ x, Write.set r c x ∈ ws

theorem Covers.run {ws : List (Write F)} {r c : ℕ} (h : Covers ws r c) (A B : Mat F) :
    run ws A r c = Loop.run ws B r c := by
  obtain ⟨x, hx⟩ := h
  exact run_covered ws x hx

theorem covers_flatMap {f : ℕ → List (Write F)} {n k r c : ℕ} (hk : k < n) (h : Covers (f k) r c) :
    Covers ((List.range n).flatMap f) r c := by
  obtain ⟨x, hx⟩ := h
  exact ⟨x, List.mem_flatMap.2 ⟨k, List.mem_range.2 hk, hx⟩⟩

theorem covers_left {a b : List (Write F)} {r c : ℕ} (h : Covers a r c) : Covers (a ++ b) r c := by
  obtain ⟨x, hx⟩ := h
  exact ⟨x, List.mem_append_left _ hx⟩

theorem covers_right {a b : List (Write F)} {r c : ℕ} (h : Covers b r c) : Covers (a ++ b) r c := by
  obtain ⟨x, hx⟩ := h
  exact ⟨x, List.mem_append_right _ hx⟩

theorem covers_map {f : ℕ → Write F} {n k r c : ℕ} (hk : k < n) (x : F) (h : f k = Write.set r c x) :
    Covers ((List.range n).map f) r c :=
  ⟨x, List.mem_map.2 ⟨k, List.mem_range.2 hk, h⟩⟩

theorem covers_map_set {r c : ℕ → ℕ} {x : ℕ → F} {n k r' c' : ℕ} (hk : k < n) (hr : r k = r') (hc : c k = c') :
    Covers ((List.range n).map fun k => Write.set (r k) (c k) (x k)) r' c' :=
  covers_map hk (x k) (by rw [hr, hc])

theorem covers_single (r c r' c' : ℕ) (x : F) (hr : r = r') (hc : c = c') : Covers [Write.set r c x] r' c' := by
  subst hr hc
  exact ⟨x, List.mem_singleton.2 rfl⟩

end Writes

theorem sumTo_congr [Zero F] [Add F] {n : ℕ} {f g : ℕ → F} (h : ∀ k < n, f k = g k) :
    sumTo n f = sumTo n g := by
  unfold sumTo
  apply List.foldl_ext
  intro a k hk
  rw [h k (List.mem_range.1 hk)]

theorem tmmult_congr [Zero F] [Add F] [Mul F] {n rs cs : ℕ} {A B A' B' D D' : Mat F}
    (hA : ∀ k < n, ∀ i < rs, A k i = A' k i) (hB : ∀ k < n, ∀ j < cs, B k j = B' k j) :
    ∀ i < rs, ∀ j < cs, tmmult n rs cs A B D i j = tmmult n rs cs A' B' D' i j := by
  intro i hi j hj
  simp only [tmmult, hi, hj, and_self, if_true]
  exact sumTo_congr fun k hk => by rw [hA k hk i hi, hB k hk j hj]

theorem emit_congr {t : Target} {rs cs : ℕ} {f g : ℕ → ℕ} {A B : Mat F}
    (h : ∀ i < rs, ∀ j < cs, A i j = B i j) : emit t rs cs f g A = emit t rs cs f g B := by
  unfold emit
  congr 1
  apply List.map_congr_left
  intro i hi
  apply List.map_congr_left
  intro j hj
  exact h i (List.mem_range.1 hi) j (List.mem_range.1 hj)

section
variable [Zero F] [One F] [Add F] [Sub F] [Mul F] [Div F] [LT F] [DecidableLT F] {P : Asm F}

/-- Entries of `velocity_matrix` in a diagonal block. -/
def InBlock (P : Asm F) (r c : ℕ) : Prop :=
  ∃ d < P.dim, ∃ i < P.nu, ∃ j < P.nu, r = P.order d i ∧ c = P.order d j

/-- What never changes in the scratch data. -/
structure Inv (P : Asm F) (s : Scratch F) : Prop where
  velocity : ∀ r c, ¬ InBlock P r c → s.velocity r c = 0
  ip2 : s.ip2 (P.np - 1) 0 = 0

theorem inv_fresh : Inv P (fresh : Scratch F) := ⟨fun _ _ _ => rfl, rfl⟩

/-- The output of a part of the loop does not depend on the scratch data. -/
def Clean (P : Asm F) (f : Scratch F → Scratch F × List (Contribution F)) : Prop :=
  ∀ s s', Inv P s → Inv P s' → Inv P (f s).1 ∧ (f s).2 = (f s').2

theorem Clean.seq {f g : Scratch F → Scratch F × List (Contribution F)} (hf : Clean P f) (hg : Clean P g) :
    Clean P fun s => ((g (f s).1).1, (f s).2 ++ (g (f s).1).2) := by
  intro s s' hs hs'
  have h1 := hf s s' hs hs'
  have h2 := hf s' s hs' hs
  have h3 := hg _ _ h1.1 h2.1
  refine ⟨h3.1, ?_⟩
  dsimp only
  rw [h1.2, h3.2]

theorem Clean.skip : Clean P fun s => (s, []) := fun _ _ hs _ => ⟨hs, rfl⟩

/-- A loop of parts. -/
theorem foldl_clean {ι : Type*} (f : ι → Scratch F → Scratch F × List (Contribution F)) (l : List ι)
    (hf : ∀ x ∈ l, Clean P (f x)) (s : Scratch F) (hs : Inv P s) (out : List (Contribution F)) :
    let r := l.foldl (fun (st : Scratch F × List (Contribution F)) x =>
      ((f x st.1).1, st.2 ++ (f x st.1).2)) (s, out)
    Inv P r.1 ∧ r.2 = out ++ l.flatMap fun x => (f x fresh).2 := by
  induction l generalizing s out with
  | nil => simp [hs]
  | cons x l ih =>
    have hx := hf x List.mem_cons_self
    have h1 := hx s fresh hs inv_fresh
    obtain ⟨a, b⟩ := ih (fun y hy => hf y (List.mem_cons_of_mem _ hy)) _ h1.1 (out ++ (f x s).2)
    refine ⟨a, ?_⟩
    simp only [List.foldl_cons]
    rw [b, h1.2]
    simp

theorem clean_foldl {ι : Type*} (f : ι → Scratch F → Scratch F × List (Contribution F)) (l : List ι)
    (hf : ∀ x ∈ l, Clean P (f x)) : Clean P fun s => l.foldl (fun (st : Scratch F × List (Contribution F)) x =>
      ((f x st.1).1, st.2 ++ (f x st.1).2)) (s, []) := by
  intro s s' hs hs'
  have h := foldl_clean f l hf s hs []
  have h' := foldl_clean f l hf s' hs' []
  exact ⟨h.1, by rw [h.2, h'.2]⟩

/-! ### Velocity -/

theorem split_row {n q r : ℕ} (h : r < (n + 1) * q) : r / (n + 1) < q ∧ r % (n + 1) ≤ n ∧
    (n + 1) * (r / (n + 1)) + r % (n + 1) = r := by
  refine ⟨Nat.div_lt_of_lt_mul h, ?_, Nat.div_add_mod r (n + 1)⟩
  exact Nat.lt_succ_iff.1 (Nat.mod_lt r (Nat.succ_pos n))

theorem phi_covered {c off lane r i : ℕ} (hr : r < (P.dim + 1) * P.nq) (hi : i < P.nu) :
    Covers (P.phiWrites c off lane) r i := by
  obtain ⟨hq, hd, he⟩ := split_row hr
  refine covers_flatMap hq (covers_flatMap hi ?_)
  rcases Nat.lt_or_eq_of_le hd with hd | hd
  · exact covers_left (covers_map_set hd he rfl)
  · exact covers_right (covers_single _ _ _ _ _ (by omega) rfl)

theorem phiGradScalar_covered {c off lane r i : ℕ} (hr : r < (P.dim + 1) * P.nq) (hi : i < P.nu) :
    Covers (P.phiGradScalarWrites c off lane) r i := by
  obtain ⟨hq, hd, he⟩ := split_row hr
  refine covers_flatMap hq (covers_flatMap hi ?_)
  rcases Nat.lt_or_eq_of_le hd with hd | hd
  · exact covers_left (covers_map_set hd he rfl)
  · exact covers_right (covers_single _ _ _ _ _ (by omega) rfl)

theorem split_col {n m j : ℕ} (h : j < m * n) : j / n < m ∧ j % n < n ∧ j / n * n + j % n = j := by
  have hn : 0 < n := by
    rcases Nat.eq_zero_or_pos n with rfl | hn
    · simp at h
    · exact hn
  exact ⟨Nat.div_lt_of_lt_mul (by rwa [Nat.mul_comm] at h), Nat.mod_lt _ hn, by
    rw [Nat.mul_comm]; exact Nat.div_add_mod j n⟩

theorem phiGrad_covered {c off lane r j : ℕ} (hr : r < (P.dim + 1) * P.nq) (hj : j < P.nu * P.dim) :
    Covers (P.phiGradWrites c off lane) r j := by
  obtain ⟨hq, hd, he⟩ := split_row hr
  obtain ⟨hi, hj2, hje⟩ := split_col hj
  refine covers_flatMap hq (covers_flatMap hi ?_)
  rcases Nat.lt_or_eq_of_le hd with hd | hd
  · exact covers_left (covers_flatMap hd (covers_left (covers_map_set hj2 he hje)))
  · refine covers_right (covers_map hj2 (P.lastRow c off lane (r / (P.dim + 1)) (j / P.dim) (j % P.dim)) ?_)
    rw [hje]
    congr 1
    omega

theorem copy_congr {A B : Mat F} (h : ∀ i < P.nu, ∀ j < P.nu * P.dim, A i j = B i j) :
    P.copyWrites A = P.copyWrites B := by
  unfold Asm.copyWrites
  refine List.flatMap_congr fun i hi => List.flatMap_congr fun j hj => List.map_congr_left fun d hd => ?_
  rw [List.mem_range] at hi hj hd
  rw [h i hi]
  calc j * P.dim + d < j * P.dim + P.dim := by omega
    _ = (j + 1) * P.dim := by ring
    _ ≤ P.nu * P.dim := Nat.mul_le_mul_right _ hj

theorem copy_covered {A : Mat F} {r c : ℕ} (h : InBlock P r c) : Covers (P.copyWrites A) r c := by
  obtain ⟨d, hd, i, hi, j, hj, rfl, rfl⟩ := h
  exact covers_flatMap hi (covers_flatMap hj (covers_map hd _ rfl))

theorem copy_other {A : Mat F} {r c : ℕ} (h : ¬ InBlock P r c) : ∀ w ∈ P.copyWrites A, w.pos ≠ (r, c) := by
  intro w hw he
  simp only [Asm.copyWrites, List.mem_flatMap, List.mem_map, List.mem_range] at hw
  obtain ⟨i, hi, j, hj, d, hd, rfl⟩ := hw
  simp only [Write.pos, Prod.mk.injEq] at he
  exact h ⟨d, hd, i, hi, j, hj, he.1.symm, he.2.symm⟩

theorem clean_velocityClassical (c off lane : ℕ) : Clean P (P.velocityClassical c off lane) := by
  intro s s' hs hs'
  unfold Asm.velocityClassical
  dsimp only
  have hphi : ∀ k < (P.dim + 1) * P.nq, ∀ i < P.nu, run (P.phiWrites c off lane) s.phi k i =
      run (P.phiWrites c off lane) s'.phi k i := by
    exact fun k hk i hi => (phi_covered hk hi).run _ _
  by_cases hsc : P.scalarIlu = true
  · rw [if_pos hsc, if_pos hsc]
    refine ⟨⟨hs.velocity, hs.ip2⟩, ?_⟩
    dsimp only
    congr 1
    apply emit_congr
    apply tmmult_congr hphi
    exact fun k hk i hi => (phiGradScalar_covered hk hi).run _ _
  · rw [if_neg hsc, if_neg hsc]
    dsimp only
    have hperm := tmmult_congr (rs := P.nu) (cs := P.nu * P.dim) (D := s.permuted) (D' := s'.permuted) hphi
      (B := run (P.phiGradWrites c off lane) s.phiAndGrad) (B' := run (P.phiGradWrites c off lane) s'.phiAndGrad) (fun k hk i hi => (phiGrad_covered hk hi).run _ _)
    refine ⟨⟨?_, hs.ip2⟩, ?_⟩
    · intro r k hb
      dsimp only
      rw [run_other _ (copy_other hb)]
      exact hs.velocity r k hb
    · congr 1
      rw [copy_congr hperm]
      apply emit_congr
      intro i _ j _
      by_cases hb : InBlock P i j
      · exact (copy_covered hb).run _ _
      · rw [run_other _ (copy_other hb), run_other _ (copy_other hb), hs.velocity _ _ hb, hs'.velocity _ _ hb]

/-! ### Linear sub-elements -/

theorem linMatrixU_congr {V V' : Mat F} {G G' : Mat (ℕ → F)} (hV : ∀ j < P.nv, ∀ q < P.nv, V j q = V' j q)
    (hG : ∀ j < P.nv, ∀ q < P.nv, G j q = G' j q) : P.linMatrixU V G = P.linMatrixU V' G' := by
  unfold Asm.linMatrixU
  refine List.flatMap_congr fun i _ => List.map_congr_left fun j hj => ?_
  congr 1
  apply List.foldl_ext
  intro r q hq
  rw [List.mem_range] at hj hq
  rw [hV j hj q hq, hG j hj q hq]

theorem linLaplaceP_congr {G G' : Mat (ℕ → F)}
    (hG : ∀ j < P.nv, ∀ q < P.nv, G j q = G' j q) : P.linLaplaceP G = P.linLaplaceP G' := by
  unfold Asm.linLaplaceP
  refine List.flatMap_congr fun i _ => List.map_congr_left fun j hj => ?_
  congr 1
  apply List.foldl_ext
  intro r q hq
  rw [List.mem_range] at hj hq
  rw [hG j hj q hq]

theorem linMassP_congr {V V' : Mat F} (hV : ∀ j < P.nv, ∀ q < P.nv, V j q = V' j q) :
    P.linMassP V = P.linMassP V' := by
  unfold Asm.linMassP
  refine List.flatMap_congr fun i _ => List.map_congr_left fun j hj => ?_
  congr 1
  rw [List.mem_range] at hj
  exact sumTo_congr fun q hq => by rw [hV j hj q hq]

theorem square_covered {G : Type*} [Add G] [Sub G] {n : ℕ} (f : ℕ → ℕ → G) {i j : ℕ} (hi : i < n) (hj : j < n) :
    Covers ((List.range n).flatMap fun i => (List.range n).map fun j => Write.set i j (f i j)) i j :=
  covers_flatMap hi (covers_map hj _ rfl)

theorem square_covered' {G : Type*} [Add G] [Sub G] {n : ℕ} (f : ℕ → ℕ → G) {i q : ℕ} (hi : i < n) (hq : q < n) :
    Covers ((List.range n).flatMap fun q => (List.range n).map fun i => Write.set i q (f q i)) i q :=
  covers_flatMap hq (covers_map hi _ rfl)

/-- One component of one sub-element. -/
def linStep (P : Asm F) (c off lane sub d : ℕ) (s : Scratch F) : Scratch F × List (Contribution F) :=
  let s := { s with
    dataVal := run (P.linValWritesU c off lane sub d) s.dataVal
    dataGrad := run (P.linGradWritesU c off lane sub d) s.dataGrad }
  let s := { s with linear := run (P.linMatrixU s.dataVal s.dataGrad) s.linear }
  let dof := fun k => P.dofU c (P.order d (P.dofToLinU sub k))
  (s, [emit .velocity P.nv P.nv dof dof s.linear])

theorem clean_linStep (c off lane sub d : ℕ) : Clean P (linStep P c off lane sub d) := by
  intro s s' hs hs'
  refine ⟨⟨hs.velocity, hs.ip2⟩, ?_⟩
  unfold linStep
  dsimp only
  congr 1
  have hV : ∀ j < P.nv, ∀ q < P.nv, run (P.linValWritesU c off lane sub d) s.dataVal j q =
      run (P.linValWritesU c off lane sub d) s'.dataVal j q := fun j hj q hq =>
    (square_covered' _ hj hq).run _ _
  have hG : ∀ j < P.nv, ∀ q < P.nv, run (P.linGradWritesU c off lane sub d) s.dataGrad j q =
      run (P.linGradWritesU c off lane sub d) s'.dataGrad j q := fun j hj q hq =>
    (square_covered' _ hj hq).run _ _
  rw [linMatrixU_congr hV hG]
  apply emit_congr
  intro i hi j hj
  exact (square_covered _ hi hj).run _ _

theorem foldl_out {ι : Type*} (f : ι → Scratch F → Scratch F × List (Contribution F)) (l : List ι)
    (s : Scratch F) (out : List (Contribution F)) :
    l.foldl (fun (st : Scratch F × List (Contribution F)) x => ((f x st.1).1, st.2 ++ (f x st.1).2)) (s, out) =
      ((l.foldl (fun (st : Scratch F × List (Contribution F)) x =>
          ((f x st.1).1, st.2 ++ (f x st.1).2)) (s, [])).1,
        out ++ (l.foldl (fun (st : Scratch F × List (Contribution F)) x =>
          ((f x st.1).1, st.2 ++ (f x st.1).2)) (s, [])).2) := by
  induction l generalizing s out with
  | nil => simp
  | cons x l ih =>
    simp only [List.foldl_cons, List.nil_append]
    rw [ih _ (out ++ _), ih _ (f x s).2]
    simp

theorem clean_velocityLinear (c off lane : ℕ) : Clean P (P.velocityLinear c off lane) := by
  have h : P.velocityLinear c off lane = fun s =>
      (List.range P.nSubU).foldl (fun (st : Scratch F × List (Contribution F)) sub =>
        (((fun s => (List.range P.dim).foldl (fun (st : Scratch F × List (Contribution F)) d =>
            ((linStep P c off lane sub d st.1).1, st.2 ++ (linStep P c off lane sub d st.1).2)) (s, [])) st.1).1,
          st.2 ++ ((fun s => (List.range P.dim).foldl (fun (st : Scratch F × List (Contribution F)) d =>
            ((linStep P c off lane sub d st.1).1, st.2 ++ (linStep P c off lane sub d st.1).2)) (s, [])) st.1).2))
        (s, []) := by
    funext s
    unfold Asm.velocityLinear
    congr 1
    funext st sub
    exact foldl_out (fun d => linStep P c off lane sub d) (List.range P.dim) st.1 st.2
  rw [h]
  exact clean_foldl _ _ fun sub _ => clean_foldl _ _ fun d _ => clean_linStep c off lane sub d

theorem clean_pressureLinearSub (c off lane sub : ℕ) (hρ : 0 < P.density → 0 < P.rhoWeight off lane 0) :
    Clean P (P.pressureLinearSub c off lane sub) := by
  intro s s' hs hs'
  have hV : ∀ j < P.nv, ∀ q < P.nv, run (P.linValWritesP c off lane sub) s.dataVal j q =
      run (P.linValWritesP c off lane sub) s'.dataVal j q := fun j hj q hq =>
    (square_covered' _ hj hq).run _ _
  have hG : 0 < P.density → ∀ j < P.nv, ∀ q < P.nv, run (P.linGradWritesP c off lane sub) s.dataGrad j q =
      run (P.linGradWritesP c off lane sub) s'.dataGrad j q := by
    intro hd j hj q hq
    refine Covers.run (covers_flatMap hq (covers_flatMap hj ?_)) _ _
    rw [if_pos (hρ hd)]
    exact covers_single _ _ _ _ _ rfl rfl
  have hlin : ∀ (W : List (Write F)) (A B : Mat F) (t : Target) (f : ℕ → ℕ),
      (∀ i < P.nv, ∀ j < P.nv, Covers W i j) →
      emit t P.nv P.nv f f (run W A) = emit t P.nv P.nv f f (run W B) := by
    intro W A B t f hW
    apply emit_congr
    exact fun i hi j hj => (hW i hi j hj).run _ _
  unfold Asm.pressureLinearSub
  dsimp only
  by_cases hd : 0 < P.density
  · simp only [if_pos hd]
    have hL : emit .pressure P.nv P.nv (fun k => P.dofP c (P.dofToLinP sub k)) (fun k => P.dofP c (P.dofToLinP sub k))
          (run (P.linLaplaceP (run (P.linGradWritesP c off lane sub) s.dataGrad)) s.linear) =
        emit .pressure P.nv P.nv (fun k => P.dofP c (P.dofToLinP sub k)) (fun k => P.dofP c (P.dofToLinP sub k))
          (run (P.linLaplaceP (run (P.linGradWritesP c off lane sub) s'.dataGrad)) s'.linear) := by
      rw [linLaplaceP_congr (hG hd)]
      exact hlin _ _ _ _ _ fun i hi j hj => square_covered _ hi hj
    split
    · refine ⟨⟨hs.velocity, hs.ip2⟩, ?_⟩
      dsimp only
      rw [hL, linMassP_congr hV]
      congr 2
      exact hlin _ _ _ _ _ fun i hi j hj => square_covered _ hi hj
    · refine ⟨⟨hs.velocity, hs.ip2⟩, ?_⟩
      dsimp only
      rw [hL]
  · simp only [if_neg hd]
    split
    · refine ⟨⟨hs.velocity, hs.ip2⟩, ?_⟩
      dsimp only
      rw [linMassP_congr hV]
      congr 2
      exact hlin _ _ _ _ _ fun i hi j hj => square_covered _ hi hj
    · exact ⟨⟨hs.velocity, hs.ip2⟩, rfl⟩

theorem clean_pressureLinear (c off lane : ℕ) (hρ : 0 < P.density → 0 < P.rhoWeight off lane 0) :
    Clean P (P.pressureLinear c off lane) :=
  clean_foldl _ _ fun sub _ => clean_pressureLinearSub c off lane sub hρ

/-! ### Pressure -/

theorem laplace_covered {c off lane r i : ℕ} (hρ : ∀ q < P.nq, 0 < P.rhoWeight off lane q)
    (hr : r < P.dim * P.nq) (hi : i < P.np) : Covers (P.laplaceWrites c off lane) r i := by
  rw [Nat.mul_comm] at hr
  obtain ⟨hq, hd, he⟩ := split_col hr
  refine covers_flatMap hq (covers_flatMap hi ?_)
  rw [if_pos (hρ _ hq)]
  exact covers_map_set hd (by rw [Nat.mul_comm P.dim, he]) rfl

theorem mass_covered {c off lane q i : ℕ} (hq : q < P.nq) (hi : i < P.np) :
    Covers (P.massWrites c off lane) q i :=
  covers_flatMap hq (covers_map hi _ rfl)

/-- Two runs of the face loop. -/
structure FaceRel (P : Asm F) (a b : Scratch F × List (Contribution F)) : Prop where
  inv : Inv P a.1
  inv' : Inv P b.1
  pressure : ∀ i < P.np, ∀ j < P.np, a.1.pressure i j = b.1.pressure i j
  out : a.2 = b.2

theorem faceRel_step (c : ℕ) (f : Face F) {a b : Scratch F × List (Contribution F)} (h : FaceRel P a b) :
    FaceRel P (P.faceStep c a f) (P.faceStep c b f) := by
  cases f with
  | other => exact h
  | nitsche m =>
    exact ⟨⟨h.inv.velocity, h.inv.ip2⟩, ⟨h.inv'.velocity, h.inv'.ip2⟩,
      fun i hi j hj => run_congr _ (h.pressure i hi j hj), h.out⟩
  | inner val last neigh =>
    have h1 : ∀ A B : Mat F, ∀ i < P.np, run (P.ip1Writes val last) A 0 i = run (P.ip1Writes val last) B 0 i := by
      intro A B i hi
      by_cases hl : i = P.np - 1
      · exact run_covered _ last (List.mem_append_right _ (List.mem_singleton.2 (by rw [hl])))
      · exact run_covered _ (val i) (List.mem_append_left _ (List.mem_map.2 ⟨i, List.mem_range.2 (by omega), rfl⟩))
    have h2z : ∀ A : Mat F, run (P.ip2Writes val) A (P.np - 1) 0 = A (P.np - 1) 0 := by
      intro A
      apply run_other
      intro w hw
      simp only [Asm.ip2Writes, List.mem_map, List.mem_range] at hw
      obtain ⟨i, hi, rfl⟩ := hw
      simp only [Write.pos, ne_eq, Prod.mk.injEq, and_true]
      omega
    have h2 : ∀ i < P.np, run (P.ip2Writes val) a.1.ip2 i 0 = run (P.ip2Writes val) b.1.ip2 i 0 := by
      intro i hi
      by_cases hl : i = P.np - 1
      · rw [hl, h2z, h2z, h.inv.ip2, h.inv'.ip2]
      · exact run_covered _ (val i) (List.mem_map.2 ⟨i, List.mem_range.2 (by omega), rfl⟩)
    refine ⟨⟨h.inv.velocity, ?_⟩, ⟨h.inv'.velocity, ?_⟩, ?_, ?_⟩
    · exact (h2z _).trans h.inv.ip2
    · exact (h2z _).trans h.inv'.ip2
    · intro i hi j hj
      have : P.ipSub (run (P.ip1Writes val last) a.1.ip1) (run (P.ip2Writes val) a.1.ip2) =
          P.ipSub (run (P.ip1Writes val last) b.1.ip1) (run (P.ip2Writes val) b.1.ip2) := by
        unfold Asm.ipSub
        congr 1
        · exact List.map_congr_left fun i hi => by rw [h1 a.1.ip1 b.1.ip1 i (List.mem_range.1 hi)]
        · exact List.map_congr_left fun i hi => by rw [h2 i (List.mem_range.1 hi)]
      simp only [Asm.faceStep]
      rw [this]
      exact run_congr _ (h.pressure i hi j hj)
    · simp only [Asm.faceStep]
      rw [h.out]
      congr 2
      · apply emit_congr
        intro i hi j hj
        obtain rfl : i = 0 := by omega
        exact h1 _ _ j hj
      · congr 1
        apply emit_congr
        intro i hi j hj
        obtain rfl : j = 0 := by omega
        exact h2 i hi

theorem faceRel_foldl (c : ℕ) (l : List (Face F)) {a b : Scratch F × List (Contribution F)} (h : FaceRel P a b) :
    FaceRel P (l.foldl (P.faceStep c) a) (l.foldl (P.faceStep c) b) := by
  induction l generalizing a b with
  | nil => exact h
  | cons f l ih => exact ih (faceRel_step c f h)

/-- Product and faces, from matrices that agree. -/
theorem laplaceProduct_rel (c : ℕ) {s s' : Scratch F} (hs : Inv P s) (hs' : Inv P s')
    (hl : ∀ k < P.dim * P.nq, ∀ i < P.np, s.laplacePart k i = s'.laplacePart k i) :
    Inv P (P.laplaceProduct c s).1 ∧ (P.laplaceProduct c s).2 = (P.laplaceProduct c s').2 := by
  have h0 : FaceRel P
      ({ s with pressure := tmmult (P.dim * P.nq) P.np P.np s.laplacePart s.laplacePart s.pressure }, [])
      ({ s' with pressure := tmmult (P.dim * P.nq) P.np P.np s'.laplacePart s'.laplacePart s'.pressure }, []) :=
    ⟨⟨hs.velocity, hs.ip2⟩, ⟨hs'.velocity, hs'.ip2⟩, tmmult_congr hl hl, rfl⟩
  have h1 := faceRel_foldl c (P.faces c) h0
  unfold Asm.laplaceProduct
  dsimp only
  by_cases ha : P.augmented = true
  · simp only [if_pos ha]
    exact ⟨h1.inv, by rw [h1.out, emit_congr h1.pressure]⟩
  · simp only [if_neg ha]
    exact ⟨h0.inv, by rw [emit_congr h0.pressure]⟩

theorem massPart_faces (c : ℕ) (l : List (Face F)) (a : Scratch F × List (Contribution F)) :
    (l.foldl (P.faceStep c) a).1.massPart = a.1.massPart := by
  induction l generalizing a with
  | nil => rfl
  | cons f l ih =>
    rw [List.foldl_cons, ih]
    cases f <;> rfl

theorem massPart_laplace (c : ℕ) (s : Scratch F) : (P.laplaceProduct c s).1.massPart = s.massPart := by
  unfold Asm.laplaceProduct
  dsimp only
  split
  · rw [massPart_faces]
  · rfl

theorem clean_pressureClassical (c off lane : ℕ)
    (hρ : 0 < P.density → ∀ q < P.nq, 0 < P.rhoWeight off lane q) :
    Clean P (P.pressureClassical c off lane) := by
  intro s s' hs hs'
  unfold Asm.pressureClassical
  dsimp only
  have hm : ∀ q < P.nq, ∀ i < P.np, run (P.massWrites c off lane) s.massPart q i =
      run (P.massWrites c off lane) s'.massPart q i := fun q hq i hi => (mass_covered hq hi).run _ _
  by_cases hM : (P.pMassIlu || P.augmented) = true
  · simp only [if_pos hM]
    set u : Scratch F := { s with
      laplacePart := run (P.laplaceWrites c off lane) s.laplacePart
      massPart := run (P.massWrites c off lane) s.massPart } with hu
    set u' : Scratch F := { s' with
      laplacePart := run (P.laplaceWrites c off lane) s'.laplacePart
      massPart := run (P.massWrites c off lane) s'.massPart } with hu'
    have hui : Inv P u := ⟨hs.velocity, hs.ip2⟩
    have hui' : Inv P u' := ⟨hs'.velocity, hs'.ip2⟩
    have hmass : ∀ v v' : Scratch F, v.massPart = u.massPart → v'.massPart = u'.massPart → Inv P v →
        Inv P (P.massProduct c v).1 ∧ (P.massProduct c v).2 = (P.massProduct c v').2 := by
      intro v v' hv hv' hvi
      refine ⟨⟨hvi.velocity, hvi.ip2⟩, ?_⟩
      unfold Asm.massProduct
      dsimp only
      rw [hv, hv']
      congr 1
      exact emit_congr (tmmult_congr hm hm)
    by_cases hd : 0 < P.density
    · simp only [if_pos hd]
      have h1 := laplaceProduct_rel c hui hui' (fun k hk i hi => (laplace_covered (hρ hd) hk hi).run _ _)
      have h2 := hmass (P.laplaceProduct c u).1 (P.laplaceProduct c u').1 (massPart_laplace c u) (massPart_laplace c u') h1.1
      exact ⟨h2.1, by rw [h1.2, h2.2]⟩
    · simp only [if_neg hd]
      have h2 := hmass u u' rfl rfl hui
      exact ⟨h2.1, by rw [h2.2]⟩
  · simp only [if_neg hM]
    by_cases hd : 0 < P.density
    · simp only [if_pos hd]
      exact laplaceProduct_rel c ⟨hs.velocity, hs.ip2⟩ ⟨hs'.velocity, hs'.ip2⟩
        (fun k hk i hi => (laplace_covered (hρ hd) hk hi).run _ _)
    · simp only [if_neg hd]
      exact ⟨⟨hs.velocity, hs.ip2⟩, trivial⟩

/-! ### The loops -/

theorem clean_assembleCell (c off lane : ℕ) (hq : 0 < P.nq)
    (hρ : 0 < P.density → ∀ q < P.nq, 0 < P.rhoWeight off lane q) : Clean P (P.assembleCell c off lane) := by
  have hv := clean_velocityClassical (P := P) c off lane
  have hl := clean_velocityLinear (P := P) c off lane
  have hpl := clean_pressureLinear (P := P) c off lane (fun h => hρ h 0 hq)
  have hp := clean_pressureClassical (P := P) c off lane hρ
  intro s s' hs hs'
  unfold Asm.assembleCell
  dsimp only
  cases P.amgLinear <;> cases P.augmented <;> simp only [Bool.not_true, Bool.not_false, Bool.or_true, Bool.or_false,
    Bool.true_or, Bool.false_or, if_true, if_false, Bool.false_eq_true]
  · exact (hv.seq hp) s s' hs hs'
  · exact (hv.seq hp) s s' hs hs'
  · exact (hl.seq hpl) s s' hs hs'
  · exact (hl.seq hp) s s' hs hs'

theorem batch_eq (m : ℕ) (hpos : Spec.PositiveDensity P) (s : Scratch F) (hs : Inv P s) :
    Inv P (P.assembleBatch m (P.nq * m) s).1 ∧ (P.assembleBatch m (P.nq * m) s).2 =
      (List.range (P.nActive m)).flatMap fun v => Spec.alone P m v :=
  foldl_clean (fun v => P.assembleCell (P.cellOf m v) (P.nq * m) v) (List.range (P.nActive m))
    (fun v hv => clean_assembleCell _ _ _ hpos.1 fun hd q hq => hpos.2 hd m v q (List.mem_range.1 hv) hq) s hs []

theorem range_eq (hpos : Spec.PositiveDensity P) (n : ℕ) : ∀ (first : ℕ) (s : Scratch F) (out : List (Contribution F)),
    Inv P s →
    let r := (List.range' first n).foldl (fun (st : ℕ × Scratch F × List (Contribution F)) m =>
      let b := P.assembleBatch m st.1 st.2.1
      (st.1 + P.nq, b.1, st.2.2 ++ b.2)) (P.nq * first, s, out)
    Inv P r.2.1 ∧ r.2.2 = out ++ (List.range' first n).flatMap fun m =>
      (List.range (P.nActive m)).flatMap fun v => Spec.alone P m v := by
  induction n with
  | zero => intro first s out hs; simpa using hs
  | succ n ih =>
    intro first s out hs
    have hb := batch_eq first hpos s hs
    have := ih (first + 1) _ (out ++ (P.assembleBatch first (P.nq * first) s).2) hb.1
    rw [List.range'_succ, List.foldl_cons, List.flatMap_cons]
    dsimp only at this ⊢
    rw [Nat.mul_succ] at this
    refine ⟨this.1, ?_⟩
    rw [this.2, hb.2, List.append_assoc]

theorem assembleRange_eq (hpos : Spec.PositiveDensity P) (first last : ℕ) (s : Scratch F) (hs : Inv P s) :
    Inv P (P.assembleRange first last s).1 ∧ (P.assembleRange first last s).2 =
      (List.range' first (last - first)).flatMap fun m =>
        (List.range (P.nActive m)).flatMap fun v => Spec.alone P m v := by
  have := range_eq hpos (last - first) first s [] hs
  simpa [Asm.assembleRange] using this

theorem all_eq (hpos : Spec.PositiveDensity P) (calls : List (Asm.Call F)) (scratch : ℕ → Scratch F)
    (hs : ∀ t, Inv P (scratch t)) (out : List (Contribution F)) :
    (calls.foldl (fun (st : (ℕ → Scratch F) × List (Contribution F)) c =>
      let r := P.assembleRange c.first c.last
        { st.1 c.thread with dataVal := c.junkVal, dataGrad := c.junkGrad }
      (Function.update st.1 c.thread r.1, st.2 ++ r.2)) (scratch, out)).2 =
      out ++ calls.flatMap fun c => (List.range' c.first (c.last - c.first)).flatMap fun m =>
        (List.range (P.nActive m)).flatMap fun v => Spec.alone P m v := by
  induction calls generalizing scratch out with
  | nil => simp
  | cons c calls ih =>
    have hc := assembleRange_eq hpos c.first c.last
      { scratch c.thread with dataVal := c.junkVal, dataGrad := c.junkGrad }
      ⟨(hs c.thread).velocity, (hs c.thread).ip2⟩
    rw [List.foldl_cons]
    dsimp only
    rw [ih]
    · rw [hc.2, List.flatMap_cons, List.append_assoc]
    · intro t
      by_cases ht : t = c.thread
      · subst ht
        rw [Function.update_self]
        exact hc.1
      · rw [Function.update_of_ne ht]
        exact hs t

end

end Verif.Precond.Loop
