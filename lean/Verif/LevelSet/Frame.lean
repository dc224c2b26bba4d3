import Verif.Operator.Frame
import Verif.LevelSet.Advect
import Verif.LevelSet.Reinit
import Verif.LevelSet.NormalCurvature
import Verif.LevelSet.ArtificialViscosity
import Verif.LevelSet.Balance

/-!
# C125: a turned or mirrored problem has the turned or mirrored solution (level set)

Transport (source/level_set_okz_advance_concentration.cc, model `LevelSet.Advect`), its artificial viscosity, reinitialization
(`LevelSet.Reinit`), normals and curvature (`LevelSet.NormalCurvature`), surface tension and gravity (`LevelSet.Balance`): the
level set coefficients of a turned problem are the same numbers, only gradients, normals and velocities are turned.
-/
set_option linter.unusedSectionVars false

namespace Verif.LevelSet

open Finset Verif.FE Verif.Time Verif.Operator Verif.Operator.Spec

variable {K : Type*} [Field K] [LinearOrder K] [IsStrictOrderedRing K]

/-! ## Specification: the turned problems -/

namespace Spec

/-- The space on the turned mesh: the same values, turned gradients. -/
def turnSpace (O : ℕ → ℕ → K) (S : Space K) : Space K := { S with grad := fun i c q => turn S.dim O (S.grad i c q) }

/-- A boundary face of the turned mesh. -/
def turnFace (n : ℕ) (O : ℕ → ℕ → K) (f : BFace K) : BFace K :=
  { f with grad := fun i q => turn n O (f.grad i q), normal := fun q => turn n O (f.normal q) }

/-- A vector field given in the quadrature points, turned. -/
def turnField (n : ℕ) (O : ℕ → ℕ → K) (u : ℕ → ℕ → ℕ → K) (c q : ℕ) : ℕ → K := turn n O (u c q)

/-- The transport problem on the turned mesh. -/
def turnAdvect (O : ℕ → ℕ → K) (D : Advect K) : Advect K :=
  { D with
    S := turnSpace O D.S
    faces := D.faces.map (turnFace D.S.dim O)
    facesDefault := D.facesDefault.map (turnFace D.S.dim O) }

/-- The reinitialization on the turned mesh with turned normals. -/
def turnReinit (O : ℕ → ℕ → K) (R : Reinit K) : Reinit K :=
  { R with S := turnSpace O R.S, normal := turnField R.S.dim O R.normal }

/-- The projections on the turned mesh. -/
def turnProjection (O : ℕ → ℕ → K) (P : Projection K) : Projection K := { P with S := turnSpace O P.S }

/-- What the artificial viscosity reads in the turned problem. -/
def turnVisc (n : ℕ) (O : ℕ → ℕ → K) (p : ViscPoint K) : ViscPoint K :=
  { p with gradOld := turn n O p.gradOld, gradOldOld := turn n O p.gradOldOld, velOld := turn n O p.velOld,
           velOldOld := turn n O p.velOldOld }

/-- The shape functions of the force on the turned mesh. -/
def turnCells (n : ℕ) (O : ℕ → ℕ → K) (S : ForceCells K) : ForceCells K :=
  { S with lsGrad := fun i c q => turn n O (S.lsGrad i c q), pGrad := fun j c q => turn n O (S.pGrad j c q) }

/-- `O` keeps the last coordinate axis, the one gravity acts along. -/
def KeepsVertical (n : ℕ) (O : ℕ → ℕ → K) : Prop := ∀ i < n, O i (n - 1) = if i + 1 = n then 1 else 0

end Spec

open Spec

/-! ## Proofs -/

theorem turn_sum (n m : ℕ) (O : ℕ → ℕ → K) (x : ℕ → K) (g : ℕ → ℕ → K) (d : ℕ) :
    ∑ i ∈ range m, x i * turn n O (g i) d = turn n O (fun e => ∑ i ∈ range m, x i * g i e) d := by
  unfold turn
  simp only [mul_sum]
  rw [sum_comm]
  exact sum_congr rfl fun _ _ => sum_congr rfl fun _ _ => by ring

theorem turn_gradient (O : ℕ → ℕ → K) (S : Space K) (x : ℕ → K) (c q : ℕ) :
    (turnSpace O S).gradient x c q = turn S.dim O (S.gradient x c q) := by
  funext d
  exact turn_sum S.dim S.nDof O x (fun i => S.grad i c q) d

theorem turn_value (O : ℕ → ℕ → K) (S : Space K) (x : ℕ → K) : (turnSpace O S).value x = S.value x := rfl

theorem turn_test {O : ℕ → ℕ → K} (S : Space K) (hO : Orthogonal S.dim O) (s : ℕ → ℕ → K) (g : ℕ → ℕ → ℕ → K) :
    (turnSpace O S).test s (turnField S.dim O g) = S.test s g := by
  funext i
  unfold Space.test Space.integral
  refine sum_congr rfl fun c _ => sum_congr rfl fun q _ => ?_
  change (s c q * S.val i c q + ∑ d ∈ range S.dim, turn S.dim O (g c q) d * turn S.dim O (S.grad i c q) d) * S.jxw c q = _
  rw [turn_dot hO]

theorem turnField_zero (n : ℕ) (O : ℕ → ℕ → K) : turnField n O (fun _ _ _ => (0 : K)) = fun _ _ _ => 0 := by
  funext c q d
  exact turn_zero n O d

theorem turn_faceTerm {O : ℕ → ℕ → K} (D : Advect K) (hO : Orthogonal D.S.dim O) (fs : List (BFace K)) (ν x : ℕ → K) (i : ℕ) :
    (turnAdvect O D).faceTerm (fs.map (turnFace D.S.dim O)) ν x i = D.faceTerm fs ν x i := by
  unfold Advect.faceTerm
  rw [List.map_map]
  congr 1
  refine List.map_congr_left fun f _ => ?_
  change (if D.symmetry f.bid then 0 else
    ∑ q ∈ range f.nQ, (∑ d ∈ range D.S.dim, f.val i q * turn D.S.dim O (f.normal q) d * ν f.cell *
      (turnFace D.S.dim O f).gradient D.S.nDof x q d) * f.jxw q) = _
  split_ifs
  · rfl
  · refine sum_congr rfl fun q _ => ?_
    congr 1
    have hg : ∀ d, (turnFace D.S.dim O f).gradient D.S.nDof x q d = turn D.S.dim O (f.gradient D.S.nDof x q) d :=
      fun d => turn_sum D.S.dim D.S.nDof O x (fun i => f.grad i q) d
    have h1 : ∀ d, f.val i q * turn D.S.dim O (f.normal q) d * ν f.cell * (turnFace D.S.dim O f).gradient D.S.nDof x q d =
        f.val i q * ν f.cell * (turn D.S.dim O (f.normal q) d * turn D.S.dim O (f.gradient D.S.nDof x q) d) := by
      intro d
      rw [hg]
      ring
    have h2 : ∀ d, f.val i q * f.normal q d * ν f.cell * f.gradient D.S.nDof x q d =
        f.val i q * ν f.cell * (f.normal q d * f.gradient D.S.nDof x q d) := fun d => by ring
    simp only [h1, h2]
    rw [← mul_sum, ← mul_sum, turn_dot hO]

theorem turn_cellProduct {O : ℕ → ℕ → K} (D : Advect K) (hO : Orthogonal D.S.dim O) (t : TS K) (u : ℕ → ℕ → ℕ → K)
    (ν src : ℕ → K) :
    (turnAdvect O D).cellProduct t (turnField D.S.dim O u) ν src = D.cellProduct t u ν src := by
  unfold Advect.cellProduct
  rw [← turn_test D.S hO]
  change (turnSpace O D.S).test _ _ = _
  congr 1
  · funext c q
    change D.S.value _ c q * t.w + ∑ d ∈ range D.S.dim, (turnSpace O D.S).gradient _ c q d * turn D.S.dim O (u c q) d = _
    rw [turn_gradient, turn_dot hO]
    rfl
  · funext c q d
    change (if D.stab then ν c * (turnSpace O D.S).gradient _ c q d else 0) = turn D.S.dim O _ d
    by_cases h : D.stab = true
    · simp only [h, if_true]
      rw [turn_gradient, turn_smul]
      rfl
    · simp only [h]
      exact (turn_zero _ _ _).symm

theorem turn_cellRhs {O : ℕ → ℕ → K} (D : Advect K) (hO : Orthogonal D.S.dim O) (t : TS K) (u : ℕ → ℕ → ℕ → K)
    (ν old oldOld x : ℕ → K) :
    (turnAdvect O D).cellRhs t (turnField D.S.dim O u) ν old oldOld x = D.cellRhs t u ν old oldOld x := by
  unfold Advect.cellRhs
  rw [← turn_test D.S hO]
  change (turnSpace O D.S).test _ _ = _
  congr 1
  · funext c q
    change -(D.S.value x c q * t.w + ∑ d ∈ range D.S.dim, turn D.S.dim O (u c q) d * (turnSpace O D.S).gradient x c q d +
      D.oldValue t old oldOld c q) = _
    rw [turn_gradient, turn_dot hO]
  · funext c q d
    change (if D.stab then -ν c * (turnSpace O D.S).gradient x c q d else 0) = turn D.S.dim O _ d
    by_cases h : D.stab = true
    · simp only [h, if_true]
      rw [turn_gradient, turn_smul]
    · simp only [h]
      exact (turn_zero _ _ _).symm

theorem turn_advect_vmult {O : ℕ → ℕ → K} (D : Advect K) (hO : Orthogonal D.S.dim O) (t : TS K) (u : ℕ → ℕ → ℕ → K)
    (ν : ℕ → K) : (turnAdvect O D).vmult t (turnField D.S.dim O u) ν = D.vmult t u ν := by
  funext src k
  unfold Advect.vmult
  rw [turn_cellProduct D hO]
  have : (turnAdvect O D).faceTerm (turnAdvect O D).facesDefault ν src = D.faceTerm D.facesDefault ν src := by
    funext i
    exact turn_faceTerm D hO _ _ _ _
  rw [this]
  rfl

theorem turn_advect_rhs {O : ℕ → ℕ → K} (D : Advect K) (hO : Orthogonal D.S.dim O) (t : TS K) (u : ℕ → ℕ → ℕ → K)
    (ν old oldOld x : ℕ → K) :
    (turnAdvect O D).rhs t (turnField D.S.dim O u) ν old oldOld x = D.rhs t u ν old oldOld x := by
  funext k
  unfold Advect.rhs
  rw [turn_cellRhs D hO]
  have : (turnAdvect O D).faceTerm (turnAdvect O D).faces ν x = D.faceTerm D.faces ν x := by
    funext i
    exact turn_faceTerm D hO _ _ _ _
  rw [this]
  rfl

/-- **C125 (transport).** A transport step on the turned or mirrored mesh with the turned velocity gives the same level set
coefficients - with every linear solver, also an inexact one, with stabilization and boundary faces, hanging nodes and prescribed
values, for all clocks and step requests. -/
theorem C125_transport (O : ℕ → ℕ → K) (D : Advect K) (hO : Orthogonal D.S.dim O) (t : TS K) (dt : K)
    (solve : ((ℕ → K) → ℕ → K) → (ℕ → K) → ℕ → K) (u : ℕ → ℕ → ℕ → K) (ν old oldOld x : ℕ → K) :
    (turnAdvect O D).advance t dt solve (turnField D.S.dim O u) ν old oldOld x = D.advance t dt solve u ν old oldOld x := by
  unfold Advect.advance
  dsimp only
  rw [turn_advect_vmult D hO]
  have hb : (turnAdvect O D).withBoundary x = D.withBoundary x := rfl
  rw [hb, turn_advect_rhs D hO]
  rfl

/-- **C125 (artificial viscosity).** The artificial viscosity of a cell is the same in the turned problem, also where it is not a
number. -/
theorem C125_artificial_viscosity (simd : Bool) (sqrt : K → K) (n : ℕ) (O : ℕ → ℕ → K) (hO : Orthogonal n O)
    (tauOld globalMaxVelocity omegaDiameter cellDiameter : K) (ps : List (ViscPoint K)) :
    artificialViscosity simd sqrt n tauOld globalMaxVelocity omegaDiameter cellDiameter (ps.map (turnVisc n O)) =
      artificialViscosity simd sqrt n tauOld globalMaxVelocity omegaDiameter cellDiameter ps := by
  have hdot : ∀ (a b c d : ℕ → K), ∑ i ∈ range n, (turn n O a i + turn n O b i) * (turn n O c i + turn n O d i) =
      ∑ i ∈ range n, (a i + b i) * (c i + d i) := by
    intro a b c d
    rw [← turn_dot hO (fun i => a i + b i) fun i => c i + d i]
    simp only [turn_add]
  have h1 : ∀ p : ViscPoint K, (turnVisc n O p).residual n tauOld = p.residual n tauOld := by
    intro p
    unfold ViscPoint.residual turnVisc
    dsimp only
    rw [hdot]
  have h2 : ∀ p : ViscPoint K, (turnVisc n O p).speedSq n = p.speedSq n := by
    intro p
    unfold ViscPoint.speedSq turnVisc
    dsimp only
    rw [hdot]
  unfold artificialViscosity maxSpeed maxResidual
  simp only [List.foldl_map, h1, h2]

theorem turn_along {O : ℕ → ℕ → K} (R : Reinit K) (hO : Orthogonal R.S.dim O) (g : ℕ → ℕ → ℕ → K) (c q : ℕ) :
    (turnReinit O R).along (turnField R.S.dim O g) c q = R.along g c q := turn_dot hO _ _

theorem turn_gradient_field (O : ℕ → ℕ → K) (S : Space K) (x : ℕ → K) :
    (turnSpace O S).gradient x = turnField S.dim O (S.gradient x) := by
  funext c q
  exact turn_gradient O S x c q

/-- **C125 (reinitialization).** Matrix and right hand side of a pseudo-time step are the same on the turned mesh with turned normals,
for diffusive and other steps - hence so is the new level set - and the normals it stores are the turned ones. -/
theorem C125_reinitialization (O : ℕ → ℕ → K) (R : Reinit K) (hO : Orthogonal R.S.dim O) (diffuseOnly : Bool) :
    (turnReinit O R).vmult diffuseOnly = R.vmult diffuseOnly ∧ (turnReinit O R).rhs diffuseOnly = R.rhs diffuseOnly ∧
    (turnReinit O R).update = R.update ∧
    ∀ nrm v d, storedNormal nrm (turn R.S.dim O v) d = turn R.S.dim O (storedNormal nrm v) d := by
  have hp : ∀ x, (turnReinit O R).productFlux diffuseOnly x = turnField R.S.dim O (R.productFlux diffuseOnly x) := by
    intro x
    funext c q d
    unfold Reinit.productFlux
    change (if (!diffuseOnly) = true then R.diffusion c * (turnReinit O R).along ((turnSpace O R.S).gradient x) c q *
      turn R.S.dim O (R.normal c q) d else (turnSpace O R.S).gradient x c q d * R.diffusion c) = turn R.S.dim O _ d
    rw [turn_gradient_field, turn_along R hO]
    cases diffuseOnly
    · simp only [Bool.not_false, if_true]
      rw [turn_smul]
    · simp only [Bool.not_true, Bool.false_eq_true, if_false]
      unfold turnField
      rw [mul_comm, ← turn_smul]
      exact turn_congr _ _ _ _ (fun j _ => by ring) _
  have hr : ∀ x, (turnReinit O R).rhsFlux diffuseOnly x = turnField R.S.dim O (R.rhsFlux diffuseOnly x) := by
    intro x
    funext c q d
    unfold Reinit.rhsFlux
    change (if (!diffuseOnly) = true then turn R.S.dim O (R.normal c q) d * (1 / 2 * (1 - R.S.value x c q * R.S.value x c q) -
      (turnReinit O R).along ((turnSpace O R.S).gradient x) c q * R.diffusion c)
      else -R.diffusion c * (turnSpace O R.S).gradient x c q d) = turn R.S.dim O _ d
    rw [turn_gradient_field, turn_along R hO]
    cases diffuseOnly
    · simp only [Bool.not_false, if_true]
      rw [mul_comm, ← turn_smul]
      exact turn_congr _ _ _ _ (fun j _ => by ring) _
    · simp only [Bool.not_true, Bool.false_eq_true, if_false]
      unfold turnField
      rw [turn_smul]
  refine ⟨?_, ?_, rfl, ?_⟩
  · funext src k
    unfold Reinit.vmult
    dsimp only
    rw [hp]
    change (if _ then _ else R.C.scatter R.S.nDof ((turnSpace O R.S).test _ _) k) = _
    rw [turn_test R.S hO]
    rfl
  · funext x k
    unfold Reinit.rhs
    rw [hr]
    change R.C.scatter R.S.nDof ((turnSpace O R.S).test _ _) k = _
    rw [turn_test R.S hO]
  · intro nrm v d
    unfold storedNormal turn
    rw [sum_div]
    exact sum_congr rfl fun j _ => by ring

theorem turn_proj_vmult {O : ℕ → ℕ → K} (P : Projection K) (hO : Orthogonal P.S.dim O) : (turnProjection O P).vmult = P.vmult := by
  funext x k
  unfold Projection.vmult
  have : (fun c q d => (turnProjection O P).S.gradient ((turnProjection O P).C.dist (turnProjection O P).S.nDof x) c q d *
      (turnProjection O P).damping c) =
      turnField P.S.dim O (fun c q d => P.S.gradient (P.C.dist P.S.nDof x) c q d * P.damping c) := by
    funext c q d
    change (turnSpace O P.S).gradient (P.C.dist P.S.nDof x) c q d * P.damping c = turn P.S.dim O _ d
    rw [turn_gradient, mul_comm, ← turn_smul]
    exact turn_congr _ _ _ _ (fun j _ => by ring) _
  rw [this]
  change (if _ then _ else P.C.scatter P.S.nDof ((turnSpace O P.S).test _ _) k) = _
  rw [turn_test P.S hO]
  rfl

theorem scatter_sum (C : Constr K) (n m : ℕ) (a : ℕ → K) (L : ℕ → ℕ → K) (k : ℕ) :
    C.scatter n (fun i => ∑ j ∈ range m, a j * L j i) k = ∑ j ∈ range m, a j * C.scatter n (L j) k := by
  unfold Constr.scatter
  by_cases h : (C.row k).isSome = true
  · simp only [h, if_true, mul_zero, sum_const_zero]
  · simp only [h]
    simp only [Bool.false_eq_true, if_false, mul_add, sum_add_distrib]
    congr 1
    simp only [mul_sum]
    rw [sum_comm]
    refine sum_congr rfl fun i _ => ?_
    cases C.row i with
    | none => simp
    | some c => exact sum_congr rfl fun _ _ => by ring

theorem test_sum (S : Space K) (m : ℕ) (a : ℕ → K) (s : ℕ → ℕ → ℕ → K) (g : ℕ → ℕ → ℕ → ℕ → K) (i : ℕ) :
    S.test (fun c q => ∑ j ∈ range m, a j * s j c q) (fun c q d => ∑ j ∈ range m, a j * g j c q d) i =
      ∑ j ∈ range m, a j * S.test (s j) (g j) i := by
  have h : ∀ c q, (∑ j ∈ range m, a j * s j c q) * S.val i c q +
      ∑ d ∈ range S.dim, (∑ j ∈ range m, a j * g j c q d) * S.grad i c q d =
      ∑ j ∈ range m, a j * (s j c q * S.val i c q + ∑ d ∈ range S.dim, g j c q d * S.grad i c q d) := by
    intro c q
    simp only [mul_add, sum_add_distrib, sum_mul, mul_sum]
    congr 1
    · exact sum_congr rfl fun _ _ => by ring
    · rw [sum_comm]
      exact sum_congr rfl fun _ _ => sum_congr rfl fun _ _ => by ring
  unfold Space.test
  simp only [h]
  rw [S.integral_sum]
  exact sum_congr rfl fun j _ => S.integral_smul _ _

theorem dist_sum (C : Constr K) (n m : ℕ) (a : ℕ → K) (x : ℕ → ℕ → K) (i : ℕ) :
    C.dist n (fun i => ∑ j ∈ range m, a j * x j i) i = ∑ j ∈ range m, a j * C.dist n (x j) i := by
  unfold Constr.dist
  cases C.row i with
  | none => rfl
  | some c =>
    simp only [mul_sum]
    rw [sum_comm]
    exact sum_congr rfl fun _ _ => sum_congr rfl fun _ _ => by ring

theorem proj_vmult_sum (P : Projection K) (m : ℕ) (a : ℕ → K) (x : ℕ → ℕ → K) (k : ℕ) :
    P.vmult (fun i => ∑ j ∈ range m, a j * x j i) k = ∑ j ∈ range m, a j * P.vmult (x j) k := by
  unfold Projection.vmult
  by_cases h : (P.C.row k).isSome = true
  · simp only [h, if_true, mul_sum]
    exact sum_congr rfl fun _ _ => by ring
  · simp only [h]
    simp only [Bool.false_eq_true, if_false]
    rw [← scatter_sum]
    congr 1
    funext i
    rw [← test_sum]
    have hx : P.C.dist P.S.nDof (fun i => ∑ j ∈ range m, a j * x j i) = fun i => ∑ j ∈ range m, a j * P.C.dist P.S.nDof (x j) i := by
      funext i
      exact dist_sum _ _ _ _ _ _
    rw [hx]
    congr 1
    · funext c q
      unfold Space.value
      simp only [sum_mul, mul_sum]
      rw [sum_comm]
      exact sum_congr rfl fun _ _ => sum_congr rfl fun _ _ => by ring
    · funext c q d
      unfold Space.gradient
      simp only [sum_mul, mul_sum]
      rw [sum_comm]
      exact sum_congr rfl fun _ _ => sum_congr rfl fun _ _ => by ring

/-- **C125 (normals).** Matrix and right hand sides of the normals: the matrix is the same and the right hand side turned. Normals that
solve the projection systems solve, turned, the systems of the turned problem. -/
theorem C125_normals (O : ℕ → ℕ → K) (P : Projection K) (hO : Orthogonal P.S.dim O) (φ : ℕ → K) (n : ℕ → ℕ → K)
    (hsolve : ∀ e < P.S.dim, ∀ k < P.S.nDof, P.vmult (n e) k = P.normalRhs φ e k) (e k : ℕ) (hk : k < P.S.nDof) :
    (turnProjection O P).vmult (fun i => turn P.S.dim O (fun e => n e i) e) k = (turnProjection O P).normalRhs φ e k := by
  have hr : (turnProjection O P).normalRhs φ e k = ∑ d ∈ range P.S.dim, O e d * P.normalRhs φ d k := by
    unfold Projection.normalRhs
    rw [← scatter_sum]
    change P.C.scatter P.S.nDof ((turnSpace O P.S).test _ _) k = _
    congr 1
    funext i
    rw [← test_sum]
    have h0 : (fun _ _ _ => (0 : K)) = turnField P.S.dim O (fun _ _ _ => (0 : K)) := (turnField_zero _ _).symm
    rw [h0, turn_test P.S hO]
    congr 1
    · funext c q
      change (turnSpace O P.S).gradient φ c q e = _
      rw [turn_gradient]
      rfl
    · funext c q d
      simp
  rw [turn_proj_vmult P hO, hr]
  change P.vmult (fun i => ∑ d ∈ range P.S.dim, O e d * n d i) k = _
  rw [proj_vmult_sum]
  exact sum_congr rfl fun d hd => by rw [hsolve d (mem_range.1 hd) k hk]

theorem nrm_turn {n : ℕ} {O : ℕ → ℕ → K} (hO : Orthogonal n O) (nrm : (ℕ → K) → K) (hn : Spec.IsNorm n nrm) (v : ℕ → K) :
    nrm (turn n O v) = nrm v := by
  have h : nrm (turn n O v) ^ 2 = nrm v ^ 2 := by
    rw [(hn _).2, (hn _).2]
    have := turn_dot hO v v
    simp only [pow_two]
    exact this
  rcases sq_eq_sq_iff_eq_or_eq_neg.1 h with h | h
  · exact h
  · have h1 := (hn (turn n O v)).1
    have h2 := (hn v).1
    linarith

theorem normalizeNode_turn {n : ℕ} {O : ℕ → ℕ → K} (hO : Orthogonal n O) (nrm : (ℕ → K) → K) (hn : Spec.IsNorm n nrm)
    (v : ℕ → K) : normalizeNode nrm (turn n O v) = turn n O (normalizeNode nrm v) := by
  funext d
  unfold normalizeNode
  rw [nrm_turn hO nrm hn]
  split_ifs
  · unfold turn
    rw [sum_div]
    exact sum_congr rfl fun _ _ => by ring
  · exact (turn_zero _ _ _).symm

/-- **C125 (curvature).** Turned nodal normals give the same right hand side of the curvature, with the same matrix: the curvature does
not depend on the frame, also with nodes where the normal is set to zero and skipped batches of cells. -/
theorem C125_curvature (O : ℕ → ℕ → K) (P : Projection K) (hO : Orthogonal P.S.dim O) (nrm : (ℕ → K) → K)
    (hn : Spec.IsNorm P.S.dim nrm) (on : ℕ → ℕ → Bool) (batches : List (List ℕ)) (n : ℕ → ℕ → K) :
    (turnProjection O P).curvatureRhs nrm on batches (fun j => turn P.S.dim O (n j)) = P.curvatureRhs nrm on batches n ∧
    (turnProjection O P).vmult = P.vmult := by
  refine ⟨?_, turn_proj_vmult P hO⟩
  have hd : ∀ c q, (turnProjection O P).divergence (fun j => normalizeNode nrm (turn P.S.dim O (n j))) c q =
      P.divergence (fun j => normalizeNode nrm (n j)) c q := by
    intro c q
    unfold Projection.divergence
    change (if P.S.dim = 1 then 0 else ∑ i ∈ range P.S.nDof, ∑ d ∈ range P.S.dim, normalizeNode nrm (turn P.S.dim O (n i)) d *
      turn P.S.dim O (P.S.grad i c q) d) = _
    split_ifs
    · rfl
    · refine sum_congr rfl fun i _ => ?_
      rw [normalizeNode_turn hO nrm hn, turn_dot hO]
  funext k
  unfold Projection.curvatureRhs
  change P.C.scatter P.S.nDof _ k = _
  congr 1
  funext i
  congr 1
  refine List.map_congr_left fun b _ => ?_
  unfold Projection.batchRhs
  simp only [hd, nrm_turn hO nrm hn]
  rfl

theorem turn_vertical {n : ℕ} {O : ℕ → ℕ → K} (hv : Spec.KeepsVertical n O) (a : K) (d : ℕ) (hd : d < n) :
    turn n O (fun e => if e + 1 = n then a else 0) d = if d + 1 = n then a else 0 := by
  unfold turn
  rw [Finset.sum_eq_single (n - 1)]
  · have h1 : n - 1 + 1 = n := by omega
    dsimp only
    rw [hv d hd, h1, if_pos rfl]
    split_ifs <;> simp
  · intro b hb hne
    rw [mem_range] at hb
    dsimp only
    rw [if_neg (by omega), mul_zero]
  · intro h
    exact absurd (mem_range.2 (by omega)) h

section Force
variable {X X' : Type*} [AddCommGroup X] [AddCommGroup X']

/-- **C125 (surface tension and gravity).** The force on the turned mesh is the turned force, and tested with turned velocities gives the
same entries of the right hand side - for all rotations and reflections without gravity, and with gravity for those that keep the
vertical axis: gravity always acts along the last coordinate. -/
theorem C125_force (F : ForceParams K) (S : ForceCells K) (O : ℕ → ℕ → K) (hO : Orthogonal F.dim O)
    (hg : F.gravity = 0 ∨ Spec.KeepsVertical F.dim O) (H κ : ℕ → ℕ → K) :
    (∀ c q, ∀ d < F.dim, force F (turnCells F.dim O S) H κ c q d = turn F.dim O (force F S H κ c q) d) ∧
    ∀ (D : Discretization K X (ℕ × ℕ)) (D' : Discretization K X' (ℕ × ℕ)) (R : X → X'), Turned F.dim O D D' R →
      ∀ t, forceRhs F (turnCells F.dim O S) D' H κ (R t) = forceRhs F S D H κ t := by
  have h1 : ∀ c q, ∀ d < F.dim, force F (turnCells F.dim O S) H κ c q d = turn F.dim O (force F S H κ c q) d := by
    intro c q d hd
    have hf : ∀ T : ForceCells K, force F T H κ c q = fun e => F.surfaceTension * T.lsValue κ c q *
        (if F.interpolate then T.pressureGradient (T.projected H) c q e else T.lsGradient H c q e) +
        -F.gravity * (if e + 1 = F.dim then F.densityAt T H c q else 0) := by
      intro T
      funext e
      unfold force
      dsimp only
      by_cases he : e + 1 = F.dim
      · rw [if_pos he, if_pos he]; ring
      · rw [if_neg he, if_neg he]; ring
    rw [hf, hf, turn_add, turn_smul, turn_smul]
    dsimp only
    congr 1
    · congr 1
      by_cases hi : F.interpolate = true
      · simp only [hi, if_true]
        exact turn_sum F.dim S.nP O (S.projected H c) (fun j => S.pGrad j c q) d
      · simp only [hi]
        exact turn_sum F.dim S.nLs O (H c) (fun j => S.lsGrad j c q) d
    · rcases hg with hg | hg
      · rw [hg]; ring
      · rw [turn_vertical hg _ d hd]
        rfl
  refine ⟨h1, fun D D' R hR t => ?_⟩
  unfold forceRhs
  rw [hR.pts]
  refine sum_congr rfl fun q hq => ?_
  rw [hR.jxw q hq, hR.at_ t q hq, sum_congr rfl fun d hd => by rw [h1 q.1 q.2 d (mem_range.1 hd)]]
  congr 1
  exact turn_dot hO _ _

end Force

/-! ## Limit and non-vacuity -/

/-- **C125, limit.** With gravity the restriction to rotations about the vertical axis is needed: exchanging the axes of a
two-dimensional problem does not turn the gravity force. -/
theorem C125_gravity_direction (F : ForceParams K) (hdim : F.dim = 2) (hg : F.gravity ≠ 0) (hd : F.density ≠ 0)
    (hv : F.densityDiff = 0 ∧ F.viscosityDiff = 0) (S : ForceCells K) (H : ℕ → ℕ → K) :
    ∃ O : ℕ → ℕ → K, Orthogonal F.dim O ∧
      force F (turnCells F.dim O S) H (fun _ _ => 0) 0 0 1 ≠ turn F.dim O (force F S H (fun _ _ => 0) 0 0) 1 := by
  refine ⟨fun i j => if i + j = 1 then 1 else 0, ?_, ?_⟩
  · rw [hdim]
    intro j hj k hk
    have : (j = 0 ∨ j = 1) ∧ (k = 0 ∨ k = 1) := by omega
    rcases this with ⟨rfl | rfl, rfl | rfl⟩ <;> simp
  · have hz : ∀ T : ForceCells K, T.lsValue (fun _ _ => 0) 0 0 = 0 := fun T => by simp [ForceCells.lsValue]
    simp only [force, turn, hz, hdim, mul_zero, zero_mul, sum_range_succ, sum_range_zero, ForceParams.densityAt,
      ForceParams.variableParameters, hv.1, hv.2]
    simp [hg, hd]

/-- The rotation of the flow example also turns the level set spaces (dimension two), and a rotation about the vertical axis exists in
three dimensions. -/
example : Orthogonal 2 exO ∧ Spec.KeepsVertical 3 (fun i j : ℕ => if j = 2 then (if i = 2 then 1 else 0) else
    if i = 2 then 0 else exO i j) ∧ Orthogonal 3 (fun i j : ℕ => if j = 2 then (if i = 2 then 1 else 0) else
    if i = 2 then 0 else exO i j) := by
  unfold Orthogonal Spec.KeepsVertical
  decide +kernel

end Verif.LevelSet
