import Verif.PhaseField.Energy
import Verif.LevelSet.Frame

/-!
# C125 for the phase field solver

Residual of the Cahn-Hilliard equations (source/phase_field_local.cc:174-218, 302-365, 443-468) and the data handed to the flow
(source/phase_field_local.cc:74-127) on a turned or mirrored mesh, model `PhaseField.Energy`.
-/
set_option linter.unusedSectionVars false

namespace Verif.PhaseField.Energy
open Finset Verif.FE Verif.PhaseField Verif.Operator Verif.Operator.Spec

variable {K : Type*} [Field K] [LinearOrder K] [IsStrictOrderedRing K]

/-! ## Specification -/

/-- The turned mesh: gradients are turned, values, weights, boundary faces and constraints are the same. -/
def Spec.turnMesh (O : ℕ → ℕ → K) (M : Mesh K) : Mesh K := { M with S := LevelSet.Spec.turnSpace O M.S }

/-- The pressure functions used for the capillary force on the turned mesh. -/
def Spec.turnFlow (n : ℕ) (O : ℕ → ℕ → K) (g : FlowData K) : FlowData K :=
  { g with preGrad := fun i e q => turn n O (g.preGrad i e q) }

open Spec LevelSet.Spec

/-! ## C125 -/

/-- **C125 (phase field).** The residual of the Cahn-Hilliard equations on the turned or mirrored mesh with the turned velocity is the same
in all entries: concentration and potential of the turned problem are the same coefficients - with hanging nodes and contact
angles, one and two step schemes. -/
theorem C125_phase_field (O : ℕ → ℕ → K) (p : CHCoef K) (M : Mesh K) (hdim : p.dim = M.S.dim) (hO : Orthogonal M.S.dim O)
    (old oldOld : ℕ → K) (vel : ℕ → ℕ → ℕ → K) (c w : ℕ → K) :
    residual0 p (turnMesh O M) old oldOld (turnField M.S.dim O vel) c w = residual0 p M old oldOld vel c w ∧
    residual1 p (turnMesh O M) old oldOld (turnField M.S.dim O vel) c w = residual1 p M old oldOld vel c w := by
  have hs : ∀ e q, (turnMesh O M).submitted p old oldOld (turnField M.S.dim O vel) c w e q =
      ⟨(M.submitted p old oldOld vel c w e q).cVal, turn M.S.dim O (M.submitted p old oldOld vel c w e q).cGrad,
        (M.submitted p old oldOld vel c w e q).wVal, turn M.S.dim O (M.submitted p old oldOld vel c w e q).wGrad⟩ := by
    intro e q
    have hg : ∀ x : ℕ → K, (turnMesh O M).S.gradient x e q = turn M.S.dim O (M.S.gradient x e q) :=
      fun x => LevelSet.turn_gradient O M.S x e q
    have hp : (turnMesh O M).point c w e q =
        ⟨M.S.value c e q, turn M.S.dim O (M.S.gradient c e q), M.S.value w e q, turn M.S.dim O (M.S.gradient w e q)⟩ := by
      unfold Mesh.point
      rw [hg, hg]
      rfl
    have hd : sprod p.dim (turn M.S.dim O (M.S.gradient c e q)) (turnField M.S.dim O vel e q) =
        sprod p.dim (M.S.gradient c e q) (vel e q) := by
      rw [hdim]
      exact turn_dot hO _ _
    unfold Mesh.submitted
    rw [hp]
    unfold chResidual
    dsimp only
    rw [hd]
    refine CHOut.mk.injEq .. |>.mpr ⟨rfl, ?_, rfl, ?_⟩
    · funext i; exact (turn_smul _ _ _ _ _).symm
    · funext i; exact (turn_smul _ _ _ _ _).symm
  constructor
  · unfold residual0
    simp only [hs]
    change M.C.scatter M.S.nDof ((turnSpace O M.S).test _ _) = _
    congr 1
    exact LevelSet.turn_test M.S hO _ _
  · funext k
    unfold residual1
    simp only [hs]
    change M.Cw.scatter M.S.nDof ((turnSpace O M.S).test _ _) k + contactVector p M c k = _
    congr 2
    exact LevelSet.turn_test M.S hO _ _

/-- **C125 (phase field, force).** The capillary force is turned, density and viscosity are the same; with gravity this holds for
rotations and reflections that keep the vertical axis. -/
theorem C125_phase_field_force (O : ℕ → ℕ → K) (g : FlowData K) (S : Space K) (C : Constr K) (hdim : 0 < S.dim)
    (hg : g.gravity = 0 ∨ KeepsVertical S.dim O) (c w : ℕ → K) (e q : ℕ) :
    densityAt (turnFlow S.dim O g) (turnSpace O S) C c e q = densityAt g S C c e q ∧
    viscosityAt (turnFlow S.dim O g) (turnSpace O S) C c e q = viscosityAt g S C c e q ∧
    ∀ d < S.dim, forceAt (turnFlow S.dim O g) (turnSpace O S) C c w e q d = turn S.dim O (forceAt g S C c w e q) d := by
  refine ⟨rfl, rfl, fun d hd => ?_⟩
  have hform : ∀ d, forceAt g S C c w e q d = S.value (C.dist S.nDof w) e q * ∑ i ∈ range g.nPre, preValue g S C c e i * g.preGrad i e q d +
      -g.gravity * (if g.rhoDiff ≠ 0 ∨ g.muDiff ≠ 0 then densityAt g S C c e q else g.rho) * (if d + 1 = S.dim then 1 else 0) := by
    intro d
    unfold forceAt
    dsimp only
    by_cases h : d + 1 = S.dim
    · rw [if_pos (by omega : d = S.dim - 1), if_pos h]
      ring
    · rw [if_neg (by omega : ¬ d = S.dim - 1), if_neg h]
      ring
  generalize hρ : (if g.rhoDiff ≠ 0 ∨ g.muDiff ≠ 0 then densityAt g S C c e q else g.rho) = ρ at hform
  have hturned : forceAt (turnFlow S.dim O g) (turnSpace O S) C c w e q d = S.value (C.dist S.nDof w) e q *
      (∑ i ∈ range g.nPre, preValue g S C c e i * turn S.dim O (g.preGrad i e q) d) + -g.gravity * ρ * (if d + 1 = S.dim then 1 else 0) := by
    unfold forceAt
    change (if d = S.dim - 1 then S.value (C.dist S.nDof w) e q *
      (∑ i ∈ range g.nPre, preValue g S C c e i * turn S.dim O (g.preGrad i e q) d) - g.gravity *
        (if g.rhoDiff ≠ 0 ∨ g.muDiff ≠ 0 then densityAt g S C c e q else g.rho) else S.value (C.dist S.nDof w) e q *
      (∑ i ∈ range g.nPre, preValue g S C c e i * turn S.dim O (g.preGrad i e q) d)) = _
    rw [hρ]
    by_cases h : d + 1 = S.dim
    · rw [if_pos (by omega : d = S.dim - 1), if_pos h]
      ring
    · rw [if_neg (by omega : ¬ d = S.dim - 1), if_neg h]
      ring
  have hf : forceAt g S C c w e q = fun d => S.value (C.dist S.nDof w) e q * (∑ i ∈ range g.nPre, preValue g S C c e i * g.preGrad i e q d) +
      -g.gravity * ρ * (if d + 1 = S.dim then 1 else 0) := by
    funext d; exact hform d
  rw [hturned, hf, LevelSet.turn_sum, turn_add, turn_smul, turn_smul]
  congr 1
  rcases hg with h | h
  · rw [h]; ring
  · rw [LevelSet.turn_vertical h 1 d hd]

/-! ## Non-vacuity -/

/-- A rotation of the plane turns every two-dimensional mesh. -/
example (M : Mesh ℚ) (h : M.S.dim = 2) : Orthogonal M.S.dim exO := by
  rw [h]
  unfold Orthogonal
  decide +kernel

end Verif.PhaseField.Energy
