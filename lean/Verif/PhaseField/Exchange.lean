import Verif.PhaseField.Energy
import Verif.LevelSet.Exchange

/-!
# C129: exchanging the two fluids in the phase field solver

Residual of the Cahn-Hilliard equations (source/phase_field_local.cc:174-218, 302-365, 443-468) and the data handed to the flow
(source/phase_field_local.cc:74-127), model `PhaseField.Energy`.
-/
set_option linter.unusedSectionVars false

namespace Verif.PhaseField.Energy
open Finset Verif.FE Verif.PhaseField

variable {K : Type*} [Field K] [LinearOrder K] [IsStrictOrderedRing K]

/-! ## Specification -/

/-- The parameter of the contact angle (its cosine) has the opposite sign for the other fluid. -/
def Spec.exchangeContact (p : CHCoef K) : CHCoef K := { p with contactAngle := -p.contactAngle }

/-- Material data of the two fluids exchanged. -/
def Spec.exchangeFluids (g : FlowData K) : FlowData K :=
  { g with rho := g.rho + g.rhoDiff, rhoDiff := -g.rhoDiff, mu := g.mu + g.muDiff, muDiff := -g.muDiff }

open Spec LevelSet

/-! ## C129 -/

/-- **C129 (Cahn-Hilliard step).** The residual of the equations for the reversed concentration and potential, reversed contact angle
and reversed old concentrations is the reversed residual, in all entries: reversed solutions solve the step of the exchanged problem.
With hanging nodes, contact angle conditions, one and two step schemes. -/
theorem C129_phase_field (p : CHCoef K) (M : Mesh K) (old oldOld : ℕ → K) (vel : ℕ → ℕ → ℕ → K) (c w : ℕ → K) (k : ℕ) :
    residual0 (exchangeContact p) M (fun i => -old i) (fun i => -oldOld i) vel (fun i => -c i) (fun i => -w i) k =
      -residual0 p M old oldOld vel c w k ∧
    residual1 (exchangeContact p) M (fun i => -old i) (fun i => -oldOld i) vel (fun i => -c i) (fun i => -w i) k =
      -residual1 p M old oldOld vel c w k := by
  have hm : (exchangeContact p).mobility = p.mobility := rfl
  have hi : (exchangeContact p).inv = p.inv := rfl
  have h2 : (exchangeContact p).factor2 = p.factor2 := rfl
  have h4 : (exchangeContact p).factor4 = p.factor4 := rfl
  have hg : ∀ x : ℕ → K, ∀ e q, M.S.gradient (fun i => -x i) e q = fun d => -M.S.gradient x e q d := by
    intro x e q; funext d; exact gradient_neg _ _ _ _ _
  have hsp : ∀ (n : ℕ) (a b : ℕ → K), sprod n (fun d => -a d) b = -sprod n a b := by
    intro n a b; unfold sprod; simp only [neg_mul, sum_neg_distrib]
  have hs : ∀ e q, M.submitted (exchangeContact p) (fun i => -old i) (fun i => -oldOld i) vel (fun i => -c i) (fun i => -w i) e q =
      ⟨-(M.submitted p old oldOld vel c w e q).cVal, fun d => -(M.submitted p old oldOld vel c w e q).cGrad d,
        -(M.submitted p old oldOld vel c w e q).wVal, fun d => -(M.submitted p old oldOld vel c w e q).wGrad d⟩ := by
    intro e q
    unfold Mesh.submitted Mesh.point chResidual
    simp only [value_neg, hg, hsp, hm, hi, h2, h4]
    refine CHOut.mk.injEq .. |>.mpr ⟨?_, ?_, ?_, ?_⟩
    · change (if p.twoStep = true then -M.S.value c e q + p.weightOld * p.inv * -M.S.value old e q +
        p.weightOldOld * p.inv * -M.S.value oldOld e q else -M.S.value c e q + p.weightOld * p.inv * -M.S.value old e q) +
        -sprod p.dim (M.S.gradient c e q) (vel e q) * p.inv = _
      split_ifs <;> ring
    · funext d; ring
    · ring
    · funext d; ring
  constructor
  · unfold residual0
    rw [← M.C.scatter_neg]
    congr 1
    funext i
    rw [← M.S.test_neg]
    exact M.S.test_congr (fun e q => by rw [hs]) (fun e q d _ => by rw [hs]) i
  · have hc : contactVector (exchangeContact p) M (fun i => -c i) k = -contactVector p M c k := by
      unfold contactVector
      by_cases h : p.contactAngle = 0
      · rw [if_pos h, if_pos (show (exchangeContact p).contactAngle = 0 by change -p.contactAngle = 0; rw [h, neg_zero]), neg_zero]
      · rw [if_neg h, if_neg (show ¬ (exchangeContact p).contactAngle = 0 from neg_ne_zero.2 h), ← M.Cw.scatter_neg]
        congr 1
        funext j
        unfold Mesh.faceLocal
        rw [← sum_neg_distrib]
        refine sum_congr rfl fun f _ => ?_
        rw [← sum_neg_distrib]
        refine sum_congr rfl fun i _ => ?_
        split_ifs
        · rw [← sum_neg_distrib]
          refine sum_congr rfl fun q _ => ?_
          have hr : M.faceRead (fun i => -c i) f q = -M.faceRead c f q := by
            unfold Mesh.faceRead
            rw [LevelSet.dist_neg]
            simp only [neg_mul, sum_neg_distrib]
          dsimp only
          rw [hr]
          unfold contactResidual
          simp only [exchangeContact]
          ring
        · rw [neg_zero]
    unfold residual1
    rw [hc, neg_add, ← M.Cw.scatter_neg]
    congr 2
    funext i
    rw [← M.S.test_neg]
    exact M.S.test_congr (fun e q => by rw [hs]) (fun e q d _ => by rw [hs]) i

/-- **C129 (phase field, data for the flow).** Density, viscosity, capillary force and gravity are the same in every point. -/
theorem C129_phase_field_flow (g : FlowData K) (S : Space K) (C : Constr K) (c w : ℕ → K) (e q d : ℕ) :
    densityAt (exchangeFluids g) S C (fun i => -c i) e q = densityAt g S C c e q ∧
    viscosityAt (exchangeFluids g) S C (fun i => -c i) e q = viscosityAt g S C c e q ∧
    forceAt (exchangeFluids g) S C (fun i => -c i) (fun i => -w i) e q d = forceAt g S C c w e q d := by
  have hh : heavisideVal S C (fun i => -c i) e q = 1 - heavisideVal S C c e q := by
    unfold heavisideVal
    rw [LevelSet.dist_neg, value_neg]
    generalize S.value (C.dist S.nDof c) e q = v
    rcases le_total (1 / 2 * (v + 1)) 0 with h | h
    · rw [max_eq_left h, min_eq_right zero_le_one, sub_zero, min_eq_left]
      exact le_max_of_le_right (by linarith)
    · rw [max_eq_right h]
      rcases le_total 1 (1 / 2 * (v + 1)) with h1 | h1
      · rw [min_eq_left h1, sub_self, max_eq_left (by linarith), min_eq_right zero_le_one]
      · rw [min_eq_right h1, max_eq_right (by linarith), min_eq_right (by linarith)]
        ring
  have hd : densityAt (exchangeFluids g) S C (fun i => -c i) e q = densityAt g S C c e q := by
    unfold densityAt
    rw [hh]
    simp only [exchangeFluids]
    ring
  refine ⟨hd, ?_, ?_⟩
  · unfold viscosityAt
    rw [hh]
    simp only [exchangeFluids]
    ring
  · unfold forceAt
    rw [hd, LevelSet.dist_neg, value_neg]
    have hp : ∀ i, preValue (exchangeFluids g) S C (fun i => -c i) e i = -preValue g S C c e i := by
      intro i
      unfold preValue
      rw [LevelSet.dist_neg]
      simp only [exchangeFluids, mul_neg, sum_neg_distrib]
    simp only [hp]
    have ht : -S.value (C.dist S.nDof w) e q * ∑ i ∈ range (exchangeFluids g).nPre, -preValue g S C c e i *
        (exchangeFluids g).preGrad i e q d = S.value (C.dist S.nDof w) e q * ∑ i ∈ range g.nPre, preValue g S C c e i *
        g.preGrad i e q d := by
      simp only [neg_mul, sum_neg_distrib, mul_neg, neg_neg]
      rfl
    rw [ht]
    have hr : (if (exchangeFluids g).rhoDiff ≠ 0 ∨ (exchangeFluids g).muDiff ≠ 0 then densityAt g S C c e q else (exchangeFluids g).rho) =
        if g.rhoDiff ≠ 0 ∨ g.muDiff ≠ 0 then densityAt g S C c e q else g.rho := by
      by_cases h : g.rhoDiff ≠ 0 ∨ g.muDiff ≠ 0
      · rw [if_pos h, if_pos (by simpa [exchangeFluids] using h)]
      · rw [if_neg h, if_neg (by simpa [exchangeFluids] using h)]
        rw [not_or, not_not, not_not] at h
        change g.rho + g.rhoDiff = g.rho
        rw [h.1, add_zero]
    rw [hr]
    rfl

/-! ## Non-vacuity -/

/-- A residual that is not zero, with a contact angle. -/
example : residual1 { exCoef with contactAngle := 1 } exMesh exOld exOld (fun _ _ _ => 0) exOld exOld 0 ≠ 0 := by decide +kernel

end Verif.PhaseField.Energy
