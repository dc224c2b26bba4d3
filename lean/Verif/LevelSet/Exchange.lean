import Verif.LevelSet.Frame
import Verif.LevelSet.Curvature
import Verif.LevelSet.Heaviside

/-!
# C129: exchanging the two fluids

The level set solver with the level set function `-φ` and the material data of the two fluids exchanged: transport
(source/level_set_okz_advance_concentration.cc, model `LevelSet.Advect`), artificial viscosity, reinitialization
(source/level_set_okz_reinitialization.cc, model `LevelSet.Reinit`), normals and curvature (source/level_set_okz_compute_normal.cc,
source/level_set_okz_compute_curvature.cc, model `LevelSet.NormalCurvature`), surface tension and gravity (source/level_set_okz.cc:330-410,
model `LevelSet.Balance`).
-/
set_option linter.unusedSectionVars false

namespace Verif.LevelSet
open Finset Verif.FE Verif.Time

variable {K : Type*} [Field K] [LinearOrder K] [IsStrictOrderedRing K]

/-! ## Specification: the problem with exchanged fluids -/

namespace Spec

/-- The transport problem: prescribed boundary values change sign. -/
def exchangeAdvect (D : Advect K) : Advect K := { D with dirichlet := fun i => (D.dirichlet i).map fun v => -v }

/-- The reinitialization: normals point to the other fluid. -/
def exchangeReinit (R : Reinit K) : Reinit K := { R with normal := fun c q d => -R.normal c q d }

/-- What the artificial viscosity reads. -/
def exchangeVisc (p : ViscPoint K) : ViscPoint K :=
  { p with old := -p.old, oldOld := -p.oldOld, gradOld := fun d => -p.gradOld d, gradOldOld := fun d => -p.gradOldOld d }

/-- The parameters with the fluids exchanged: `density` belongs to the fluid with `H = 0`, `density + densityDiff` to the other one. -/
def exchangeFluids (F : ForceParams K) : ForceParams K :=
  { F with
    density := F.density + F.densityDiff
    densityDiff := -F.densityDiff
    viscosity := F.viscosity + F.viscosityDiff
    viscosityDiff := -F.viscosityDiff }

/-- A solver that solves a system with reversed right hand side by the reversed vector. -/
def OddSolver (solve : ((ℕ → K) → ℕ → K) → (ℕ → K) → ℕ → K) : Prop :=
  ∀ A : (ℕ → K) → ℕ → K, (∀ x k, A (fun i => -x i) k = -A x k) → ∀ b, solve A (fun k => -b k) = fun k => -solve A b k

/-- Level set and pressure shape functions sum to one, and so do the rows of the interpolation. -/
structure SumToOne (S : ForceCells K) : Prop where
  ls : ∀ c q, ∑ i ∈ range S.nLs, S.lsVal i c q = 1
  lsGrad : ∀ c q d, ∑ i ∈ range S.nLs, S.lsGrad i c q d = 0
  pGrad : ∀ c q d, ∑ j ∈ range S.nP, S.pGrad j c q d = 0
  interp : ∀ j < S.nP, ∑ i ∈ range S.nLs, S.interp j i = 1

end Spec

open Spec

/-! ## Proofs -/

theorem value_neg (S : Space K) (x : ℕ → K) (c q : ℕ) : S.value (fun i => -x i) c q = -S.value x c q := by
  unfold Space.value; simp only [neg_mul, sum_neg_distrib]

theorem gradient_neg (S : Space K) (x : ℕ → K) (c q d : ℕ) : S.gradient (fun i => -x i) c q d = -S.gradient x c q d := by
  unfold Space.gradient; simp only [neg_mul, sum_neg_distrib]

theorem dist_neg (C : Constr K) (n : ℕ) (x : ℕ → K) : C.dist n (fun i => -x i) = fun i => -C.dist n x i := by
  funext i
  unfold Constr.dist
  cases C.row i <;> simp

theorem faceTerm_neg (D : Advect K) (fs : List (BFace K)) (ν x : ℕ → K) (i : ℕ) :
    D.faceTerm fs ν (fun i => -x i) i = -D.faceTerm fs ν x i := by
  unfold Advect.faceTerm
  rw [← neg_one_mul, ← List.sum_map_mul_left]
  congr 1
  refine List.map_congr_left fun f _ => ?_
  split_ifs
  · simp
  · rw [mul_sum]
    refine sum_congr rfl fun q _ => ?_
    have : ∀ d, f.gradient D.S.nDof (fun i => -x i) q d = -f.gradient D.S.nDof x q d := by
      intro d; unfold BFace.gradient; simp only [neg_mul, sum_neg_distrib]
    simp only [this, mul_neg, sum_neg_distrib]
    ring

theorem vmult_neg (D : Advect K) (t : TS K) (u : ℕ → ℕ → ℕ → K) (ν src : ℕ → K) (k : ℕ) :
    D.vmult t u ν (fun i => -src i) k = -D.vmult t u ν src k := by
  have hc : D.cellProduct t u ν (fun i => -src i) = fun i => -D.cellProduct t u ν src i := by
    funext i
    unfold Advect.cellProduct
    rw [dist_neg, ← D.S.test_neg]
    refine D.S.test_congr (fun c q => ?_) (fun c q d _ => ?_) i
    · simp only [value_neg, gradient_neg, neg_mul, sum_neg_distrib]
      ring
    · rw [gradient_neg]
      split_ifs <;> ring
  unfold Advect.vmult
  simp only [hc, faceTerm_neg]
  split_ifs
  · ring
  · rw [D.C.scatter_neg, D.C.scatter_neg _ (fun i => -D.faceTerm D.facesDefault ν src i)]
    ring
  · rw [D.C.scatter_neg]
    ring

theorem rhs_neg (D : Advect K) (t : TS K) (u : ℕ → ℕ → ℕ → K) (ν old oldOld x : ℕ → K) (k : ℕ) :
    D.rhs t u ν (fun i => -old i) (fun i => -oldOld i) (fun i => -x i) k = -D.rhs t u ν old oldOld x k := by
  have hc : D.cellRhs t u ν (fun i => -old i) (fun i => -oldOld i) (fun i => -x i) = fun i => -D.cellRhs t u ν old oldOld x i := by
    funext i
    unfold Advect.cellRhs
    rw [← D.S.test_neg]
    refine D.S.test_congr (fun c q => ?_) (fun c q d _ => ?_) i
    · unfold Advect.oldValue
      simp only [value_neg, gradient_neg, mul_neg, sum_neg_distrib]
      split_ifs <;> ring
    · rw [gradient_neg]
      split_ifs <;> ring
  have hf : D.faceTerm D.faces ν (fun i => -x i) = fun i => -D.faceTerm D.faces ν x i := by
    funext i; exact faceTerm_neg D _ ν x i
  unfold Advect.rhs
  rw [hc, hf]
  split_ifs
  · rw [D.C.scatter_neg, D.C.scatter_neg]
    ring
  · rw [D.C.scatter_neg]
    ring

/-! ## C129 -/

/-- **C129 (transport).** A transport step of `-φ` gives `-φ`: with stabilization, boundary faces, hanging nodes and prescribed values,
for all clocks and step requests and all solvers that respect the sign. -/
theorem C129_transport (D : Advect K) (t : TS K) (dt : K) (solve : ((ℕ → K) → ℕ → K) → (ℕ → K) → ℕ → K) (hsolve : OddSolver solve)
    (u : ℕ → ℕ → ℕ → K) (ν old oldOld x : ℕ → K) :
    (exchangeAdvect D).advance t dt solve u ν (fun i => -old i) (fun i => -oldOld i) (fun i => -x i) =
      ((D.advance t dt solve u ν old oldOld x).1, fun i => -(D.advance t dt solve u ν old oldOld x).2 i) := by
  have hb : (exchangeAdvect D).withBoundary (fun i => -x i) = fun i => -D.withBoundary x i := by
    funext i
    unfold Advect.withBoundary exchangeAdvect
    dsimp only
    cases D.dirichlet i <;> rfl
  have hv : (exchangeAdvect D).vmult = D.vmult := rfl
  have hr : (exchangeAdvect D).rhs = D.rhs := rfl
  unfold Advect.advance
  dsimp only
  rw [hb, hv, hr]
  have e : D.rhs ((t.setDesired dt).next) u ν (fun i => -old i) (fun i => -oldOld i) (fun i => -D.withBoundary x i) =
      fun k => -D.rhs ((t.setDesired dt).next) u ν old oldOld (D.withBoundary x) k := by
    funext k; exact rhs_neg D _ u ν old oldOld _ k
  rw [e, hsolve _ (fun y k => vmult_neg D _ u ν y k)]
  refine Prod.ext rfl ?_
  funext i
  dsimp only
  have hd : (exchangeAdvect D).C.dist (exchangeAdvect D).S.nDof (fun k => -solve (D.vmult ((t.setDesired dt).next) u ν)
      (D.rhs ((t.setDesired dt).next) u ν old oldOld (D.withBoundary x)) k) = fun i => -D.C.dist D.S.nDof (fun k => solve
      (D.vmult ((t.setDesired dt).next) u ν) (D.rhs ((t.setDesired dt).next) u ν old oldOld (D.withBoundary x)) k) i := dist_neg _ _ _
  rw [hd]
  ring

/-- **C129 (artificial viscosity).** The artificial viscosity does not change, also where it is not a number. -/
theorem C129_artificial_viscosity (simd : Bool) (sqrt : K → K) (n : ℕ) (tauOld globalMaxVelocity omegaDiameter cellDiameter : K)
    (ps : List (ViscPoint K)) :
    artificialViscosity simd sqrt n tauOld globalMaxVelocity omegaDiameter cellDiameter (ps.map exchangeVisc) =
      artificialViscosity simd sqrt n tauOld globalMaxVelocity omegaDiameter cellDiameter ps := by
  have hres : ∀ p : ViscPoint K, (exchangeVisc p).residual n tauOld = p.residual n tauOld := by
    intro p
    unfold ViscPoint.residual absQuotPlus exchangeVisc
    dsimp only
    have h0 : -p.old - -p.oldOld = -(p.old - p.oldOld) := by ring
    have h1 : ∑ d ∈ range n, (p.velOld d + p.velOldOld d) * (-p.gradOld d + -p.gradOldOld d) =
        -∑ d ∈ range n, (p.velOld d + p.velOldOld d) * (p.gradOld d + p.gradOldOld d) := by
      rw [← sum_neg_distrib]
      exact sum_congr rfl fun d _ => by ring
    rw [h0, h1]
    simp only [neg_eq_zero]
    split_ifs
    · rfl
    · rfl
    · rw [← abs_neg]
      congr 2
      ring
  have hsp : ∀ p : ViscPoint K, (exchangeVisc p).speedSq n = p.speedSq n := fun _ => rfl
  unfold artificialViscosity maxResidual maxSpeed
  simp only [List.foldl_map, hres, hsp]

/-- **C129 (reinitialization).** Reversed normals and level set: the matrix of a pseudo-time step is the same and the right hand side is
reversed, so reversed increments solve it; the stored normals are reversed. -/
theorem C129_reinitialization (R : Reinit K) (diffuseOnly : Bool) :
    (exchangeReinit R).vmult diffuseOnly = R.vmult diffuseOnly ∧
    (∀ x k, (exchangeReinit R).rhs diffuseOnly (fun i => -x i) k = -R.rhs diffuseOnly x k) ∧
    (∀ x inc, (exchangeReinit R).update (fun i => -x i) (fun i => -inc i) = fun i => -R.update x inc i) ∧
    ∀ nrm (v : ℕ → K) d, storedNormal nrm (fun e => -v e) d = -storedNormal nrm v d := by
  have hal : ∀ g c q, (exchangeReinit R).along g c q = -R.along g c q := by
    intro g c q
    unfold Reinit.along exchangeReinit
    dsimp only
    rw [← sum_neg_distrib]
    exact sum_congr rfl fun d _ => by ring
  refine ⟨?_, fun x k => ?_, fun x inc => ?_, fun nrm v d => ?_⟩
  · have hp : ∀ x, (exchangeReinit R).productFlux diffuseOnly x = R.productFlux diffuseOnly x := by
      intro x
      funext c q d
      unfold Reinit.productFlux
      rw [hal]
      change (if (!diffuseOnly) = true then R.diffusion c * -R.along (R.S.gradient x) c q * -R.normal c q d else _) = _
      split_ifs
      · ring
      · rfl
    funext src k
    unfold Reinit.vmult
    dsimp only
    rw [hp]
    rfl
  · unfold Reinit.rhs
    rw [← R.C.scatter_neg]
    change R.C.scatter R.S.nDof (R.S.test _ _) k = _
    congr 1
    funext i
    rw [← R.S.test_neg]
    refine R.S.test_congr (fun c q => by rw [neg_zero]) (fun c q d _ => ?_) i
    unfold Reinit.rhsFlux
    rw [hal]
    have hg : (exchangeReinit R).S.gradient (fun i => -x i) = fun c q d => -R.S.gradient x c q d := by
      funext c q d; exact gradient_neg R.S x c q d
    have hg2 : R.along (fun c q d => -R.S.gradient x c q d) c q = -R.along (R.S.gradient x) c q := by
      unfold Reinit.along; simp only [mul_neg, sum_neg_distrib]
    have hv : (exchangeReinit R).S.value (fun i => -x i) c q = -R.S.value x c q := value_neg R.S x c q
    rw [hg, hg2, hv]
    change (if (!diffuseOnly) = true then -R.normal c q d * (1 / 2 * (1 - -R.S.value x c q * -R.S.value x c q) -
      - -R.along (R.S.gradient x) c q * R.diffusion c) else -R.diffusion c * -R.S.gradient x c q d) = _
    split_ifs <;> ring
  · funext i
    unfold Reinit.update
    change -x i + R.C.dist R.S.nDof (fun i => -inc i) i = _
    rw [dist_neg]
    ring
  · unfold storedNormal
    rw [neg_div]

/-- **C129 (normals and curvature).** The right hand sides of normals and curvature are reversed, with the same matrix: normals and
curvature change sign, also with nodes where the normal is dropped and skipped batches. -/
theorem C129_normals_curvature (P : Projection K) (φ : ℕ → K) (nrm : (ℕ → K) → K) (hn : Spec.IsNorm P.S.dim nrm) (on : ℕ → ℕ → Bool)
    (batches : List (List ℕ)) (n : ℕ → ℕ → K) (k : ℕ) :
    (∀ e, P.normalRhs (fun i => -φ i) e k = -P.normalRhs φ e k) ∧
    (∀ x : ℕ → K, P.vmult (fun i => -x i) k = -P.vmult x k) ∧
    P.curvatureRhs nrm on batches (fun j d => -n j d) k = -P.curvatureRhs nrm on batches n k := by
  refine ⟨fun e => ?_, fun x => ?_, ?_⟩
  · unfold Projection.normalRhs
    rw [← P.C.scatter_neg]
    congr 1
    funext i
    rw [← P.S.test_neg]
    exact P.S.test_congr (fun c q => gradient_neg _ _ _ _ _) (fun c q d _ => by rw [neg_zero]) i
  · unfold Projection.vmult
    rw [dist_neg]
    split_ifs
    · ring
    · rw [← P.C.scatter_neg]
      congr 1
      funext i
      rw [← P.S.test_neg]
      exact P.S.test_congr (fun c q => value_neg _ _ _ _) (fun c q d _ => by rw [gradient_neg]; ring) i
  · have hnrm : ∀ v : ℕ → K, nrm (fun d => -v d) = nrm v := by
      intro v
      have h := norm_smul hn (-1) v
      rw [abs_neg, abs_one, one_mul] at h
      rw [← h]
      congr 1
      funext d; ring
    have hnode : ∀ j, normalizeNode nrm (fun d => -n j d) = fun d => -normalizeNode nrm (n j) d := by
      intro j
      funext d
      unfold normalizeNode
      rw [hnrm]
      split_ifs
      · rw [neg_div]
      · rw [neg_zero]
    have hdiv : ∀ c q, P.divergence (fun j => normalizeNode nrm (fun d => -n j d)) c q =
        -P.divergence (fun j => normalizeNode nrm (n j)) c q := by
      intro c q
      unfold Projection.divergence
      split_ifs
      · rw [neg_zero]
      · simp only [hnode, neg_mul, sum_neg_distrib]
    have hb : ∀ b i, P.batchRhs nrm on (fun j d => -n j d) b i = -P.batchRhs nrm on n b i := by
      intro b i
      unfold Projection.batchRhs
      simp only [hnrm]
      split_ifs
      · rw [neg_zero]
      · rw [← neg_one_mul, ← List.sum_map_mul_left]
        congr 1
        refine List.map_congr_left fun c _ => ?_
        rw [mul_sum]
        refine sum_congr rfl fun q _ => ?_
        rw [hdiv]
        ring
    unfold Projection.curvatureRhs
    rw [← P.C.scatter_neg]
    congr 1
    funext i
    rw [← neg_one_mul, ← List.sum_map_mul_left]
    congr 1
    exact List.map_congr_left fun b _ => by rw [hb]; ring

/-- **C129 (force and material).** With the smoothed indicator `1 - H` (which is what `-φ` gives, `C32_symmetry`), the reversed curvature and
the exchanged material data, surface tension and gravity are the same force in every point, and density and viscosity the same values,
with and without interpolation to the pressure space. -/
theorem C129_force (F : ForceParams K) (S : ForceCells K) (hS : SumToOne S) (H κ : ℕ → ℕ → K) (c q d : ℕ) :
    force (exchangeFluids F) S (fun c i => 1 - H c i) (fun c i => -κ c i) c q d = force F S H κ c q d ∧
    (exchangeFluids F).densityAt S (fun c i => 1 - H c i) c q = F.densityAt S H c q ∧
    (∀ h : K, (exchangeFluids F).viscosity + (exchangeFluids F).viscosityDiff * (1 - h) = F.viscosity + F.viscosityDiff * h) := by
  have hval : S.lsValue (fun c i => 1 - H c i) c q = 1 - S.lsValue H c q := by
    unfold ForceCells.lsValue
    simp only [sub_mul, one_mul, sum_sub_distrib, hS.ls]
  have hk : S.lsValue (fun c i => -κ c i) c q = -S.lsValue κ c q := by
    unfold ForceCells.lsValue
    simp only [neg_mul, sum_neg_distrib]
  have hg : S.lsGradient (fun c i => 1 - H c i) c q d = -S.lsGradient H c q d := by
    unfold ForceCells.lsGradient
    simp only [sub_mul, one_mul, sum_sub_distrib, hS.lsGrad, zero_sub]
  have hp : S.pressureGradient (S.projected (fun c i => 1 - H c i)) c q d = -S.pressureGradient (S.projected H) c q d := by
    unfold ForceCells.pressureGradient
    have e : ∀ j ∈ range S.nP, S.projected (fun c i => 1 - H c i) c j * S.pGrad j c q d =
        S.pGrad j c q d - S.projected H c j * S.pGrad j c q d := by
      intro j hj
      unfold ForceCells.projected
      simp only [mul_sub, mul_one, sum_sub_distrib, hS.interp j (mem_range.1 hj)]
      ring
    rw [sum_congr rfl e, sum_sub_distrib, hS.pGrad, zero_sub]
  have hvar : (exchangeFluids F).variableParameters = F.variableParameters := by
    unfold ForceParams.variableParameters exchangeFluids
    simp only [ne_eq, neg_eq_zero]
  have hrho : (exchangeFluids F).densityAt S (fun c i => 1 - H c i) c q = F.densityAt S H c q := by
    unfold ForceParams.densityAt
    rw [hvar, hval]
    simp only [exchangeFluids]
    split_ifs with h
    · ring
    · unfold ForceParams.variableParameters at h
      simp only [Bool.or_eq_true, decide_eq_true_eq, not_or, not_not] at h
      rw [h.1, add_zero]
  refine ⟨?_, hrho, fun h => ?_⟩
  · unfold force
    rw [hk, hg, hp, hrho]
    change (if d + 1 = F.dim then F.surfaceTension * -S.lsValue κ c q * (if F.interpolate = true then
      -S.pressureGradient (S.projected H) c q d else -S.lsGradient H c q d) - F.gravity * F.densityAt S H c q
      else F.surfaceTension * -S.lsValue κ c q * (if F.interpolate = true then
      -S.pressureGradient (S.projected H) c q d else -S.lsGradient H c q d)) = _
    cases F.interpolate <;> by_cases h : d + 1 = F.dim <;> simp [h]
  · simp only [exchangeFluids]
    ring

/-- **C129, limit.** The curvature correction treats the two fluids differently: wherever it changes a curvature, it leaves the
curvature of the exchanged problem as it is. -/
theorem C129_curvature_correction_partial (eps : ℝ) (dim : ℕ) (hdim : 2 ≤ dim) (c κ : ℝ) (hκ : 1 / 10000 < κ)
    (hc : nodalDistance eps c ≠ 0) :
    correctCurvature eps dim (-c) (-κ) = some (-κ) ∧
    correctCurvature eps dim (-c) (-κ) ≠ (correctCurvature eps dim c κ).map fun k => -k := by
  have h1 : correctCurvature eps dim (-c) (-κ) = some (-κ) := by
    unfold correctCurvature
    rw [if_neg (by intro h; linarith)]
  refine ⟨h1, ?_⟩
  rw [h1]
  unfold correctCurvature
  rw [if_pos hκ]
  split_ifs with h
  · simp
  · intro he
    have he := Option.some.inj he
    have hk : κ ≠ 0 := by linarith
    have hdm : ((dim - 1 : ℕ) : ℝ) ≠ 0 := Nat.cast_ne_zero.2 (by omega)
    have h2 : 1 / κ + nodalDistance eps c / ((dim - 1 : ℕ) : ℝ) ≠ 0 := fun h0 => h (.inr h0)
    have h3 : κ = 1 / (1 / κ + nodalDistance eps c / ((dim - 1 : ℕ) : ℝ)) := neg_injective he
    rw [eq_div_iff h2, mul_add, mul_one_div_cancel hk] at h3
    have h4 : κ * (nodalDistance eps c / ((dim - 1 : ℕ) : ℝ)) = 0 := by linarith
    rcases mul_eq_zero.1 h4 with h5 | h5
    · exact hk h5
    · exact (div_ne_zero hc hdm) h5

/-! ## Non-vacuity -/

/-- One Jacobi step respects the sign; one linear element satisfies the assumptions on the shape functions; the force of the example is not
zero. -/
example : OddSolver (K := ℚ) (fun A b k => b k / A (fun j => if j = k then 1 else 0) k) := by
  intro A _ b
  funext k
  exact neg_div _ _

/-- One linear element in one dimension, pressure element the same. -/
def exForceCells : ForceCells ℚ where
  nLs := 2
  nP := 2
  interp := fun j i => if i = j then 1 else 0
  lsVal := fun _ _ _ => 1 / 2
  lsGrad := fun i _ _ _ => if i = 0 then -1 else 1
  pVal := fun _ _ _ => 1 / 2
  pGrad := fun i _ _ _ => if i = 0 then -1 else 1

example : SumToOne exForceCells ∧
    force ⟨1, 2, 3, 1, 1, 1, 1, true⟩ exForceCells (fun _ i => i) (fun _ _ => 5) 0 0 0 ≠ 0 := by
  refine ⟨⟨fun c q => ?_, fun c q d => ?_, fun c q d => ?_, ?_⟩, by decide +kernel⟩
  · simp [exForceCells]
  · simp [exForceCells, sum_range_succ]
  · simp [exForceCells, sum_range_succ]
  · change ∀ j < 2, ∑ i ∈ range 2, (if i = j then (1 : ℚ) else 0) = 1
    decide +kernel

/-- The correction changes curvatures away from the interface. -/
example : nodalDistance 1 (1 / 2) ≠ 0 := by
  unfold nodalDistance
  rw [if_pos (by norm_num), show ((1 : ℝ) + 1 / 2) / (1 - 1 / 2) = 3 by norm_num]
  have : 0 < Real.log 3 := Real.log_pos (by norm_num)
  intro h
  linarith

end Verif.LevelSet
