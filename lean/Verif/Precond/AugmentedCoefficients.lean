import Verif.Precond.AugmentedPoisson

/-!
# C81, coefficients of the cell and face terms
(source/navier_stokes_preconditioner.cc:2187-2206, 2239-2243, 2306, 2339; navier_stokes_preconditioner.h: 262-278)

The interior penalty form of `Precond/AugmentedPoisson.lean` has one coefficient in the cells (`AugMesh.weight`) and another one on
the faces (`AugMesh.scale`). Here both are computed from the parameters, as the code does it.
-/

set_option linter.unusedSectionVars false

namespace Verif.Precond

open Finset Verif.FE

variable {K : Type} [Field K] [LinearOrder K] [IsStrictOrderedRing K]

/-- Entries of `FlowParameters` and of the time stepping the coefficients depend on. -/
structure AugParameters (K : Type) where
  density : K
  densityDiff : K
  /-- `physical_type == incompressible_stationary` -/
  stationary : Bool
  /-- `linearization == projection` -/
  projection : Bool
  /-- `use_variable_parameters` -/
  variableParameters : Bool
  /-- `time_stepping.weight()` -/
  stepWeight : K

/-- `rho_weight`, lines 2194-2206; `rho` is `densities[q][vec]`. -/
def AugParameters.rhoWeight (P : AugParameters K) (rho : K) : K :=
  let useCell := P.variableParameters && !P.projection
  let w := (if useCell then rho else min P.density (P.density + P.densityDiff)) * P.stepWeight
  if P.stationary then 1 else w

/-- `time_weight`, lines 2239-2243. -/
def AugParameters.timeWeight (P : AugParameters K) : K := if P.stationary then 1 else P.stepWeight

/-- The mesh `M` with the coefficients the code computes from the parameters; `jxw` are the integration weights of the cells, `rho`
the densities at the quadrature points. -/
def AugMesh.withParameters (M : AugMesh K) (P : AugParameters K) (jxw rho : ℕ → ℕ → K) : AugMesh K :=
  { M with
    density := P.density
    densityDiff := P.densityDiff
    projection := P.projection
    timeWeight := P.timeWeight
    weight := fun c q => jxw c q / P.rhoWeight (rho c q) }

variable (M : AugMesh K) (P : AugParameters K) (jxw rho : ℕ → ℕ → K)

/-- One density for everything: the parameters describe one fluid (and the stored densities, if any, are this density), or the
projection scheme, which always works with the smaller density. -/
def Spec.OneDensity (d : K) : Prop :=
  (P.densityDiff = 0 ∧ d = P.density ∧ ∀ c q, P.variableParameters = true → rho c q = P.density) ∨
  (P.projection = true ∧ d = min P.density (P.density + P.densityDiff))

theorem faceDensity_one {d : K} (h : Spec.OneDensity P rho d) (c f : ℕ) :
    (M.withParameters P jxw rho).faceDensity c f = d := by
  unfold AugMesh.faceDensity AugMesh.withParameters
  dsimp only
  rcases h with ⟨h0, hd, _⟩ | ⟨hp, hd⟩
  · rw [if_pos h0, hd]
  · by_cases h0 : P.densityDiff = 0
    · rw [if_pos h0, hd, h0, add_zero, min_self]
    · rw [if_neg h0, if_pos hp, hd]

theorem scale_one {d : K} (h : Spec.OneDensity P rho d) (c : ℕ) (w : AugView K) :
    (M.withParameters P jxw rho).scale c w = 1 / (d * P.timeWeight) := by
  unfold AugMesh.scale
  have ht : (M.withParameters P jxw rho).timeWeight = P.timeWeight := rfl
  rw [ht]
  cases w.kind with
  | inner nb f s o r b =>
    dsimp only
    by_cases hso : (s && o) = true
    · rw [if_pos hso, faceDensity_one M P jxw rho h]
    · rw [if_neg hso, faceDensity_one M P jxw rho h]
  | openB => dsimp only; rw [faceDensity_one M P jxw rho h]
  | wall => dsimp only; rw [faceDensity_one M P jxw rho h]

theorem rhoWeight_one {d : K} (h : Spec.OneDensity P rho d) (hs : P.stationary = false) (c q : ℕ) :
    P.rhoWeight (rho c q) = d * P.stepWeight := by
  unfold AugParameters.rhoWeight
  dsimp only
  rw [hs, if_neg (by decide)]
  rcases h with ⟨h0, hd, hr⟩ | ⟨hp, hd⟩
  · by_cases hv : (P.variableParameters && !P.projection) = true
    · rw [if_pos hv]
      have hv' : P.variableParameters = true := by
        cases hx : P.variableParameters
        · rw [hx] at hv; cases hv
        · rfl
      rw [hr c q hv', hd]
    · rw [if_neg hv, h0, add_zero, min_self, hd]
  · rw [hp, hd]
    simp

/-- **C81 (coefficients).** Time-dependent flow with one density: the face terms have the coefficient of the cell terms, `1` over
density times weight of the time step, whatever kind of face it is. -/
theorem C81_coefficients {d : K} (h : Spec.OneDensity P rho d) (hs : P.stationary = false) (c q c' : ℕ) (w : AugView K) :
    (M.withParameters P jxw rho).weight c q = jxw c q * (1 / (d * P.stepWeight)) ∧
    (M.withParameters P jxw rho).scale c' w = 1 / (d * P.stepWeight) := by
  constructor
  · change jxw c q / P.rhoWeight (rho c q) = _
    rw [rhoWeight_one P rho h hs, div_eq_mul_one_div]
  · rw [scale_one M P jxw rho h]
    unfold AugParameters.timeWeight
    rw [hs, if_neg (by decide)]

/-- Stationary flow: the cell terms have coefficient one, the face terms one over the density. -/
theorem stationary_coefficients {d : K} (h : Spec.OneDensity P rho d) (hs : P.stationary = true) (c q c' : ℕ) (w : AugView K) :
    (M.withParameters P jxw rho).weight c q = jxw c q ∧ (M.withParameters P jxw rho).scale c' w = 1 / d := by
  constructor
  · change jxw c q / P.rhoWeight (rho c q) = _
    unfold AugParameters.rhoWeight
    rw [hs]
    simp
  · rw [scale_one M P jxw rho h]
    unfold AugParameters.timeWeight
    rw [hs, if_pos rfl, mul_one]

/-! ### Definiteness for all parameters -/

/-- Squared gradient integrated over a cell, without coefficient. -/
def Spec.dirichlet (p : ℕ → K) (c : ℕ) : K :=
  ∑ q ∈ range M.nQ, jxw c q * ∑ d ∈ range M.dim, Spec.cellGrad M p c q d * Spec.cellGrad M p c q d

/-- Squared fluxes through a face relative to the penalty, without coefficient. -/
def Spec.geomLoss (p : ℕ → K) (c : ℕ) (w : AugView K) : K :=
  if w.isInner then Spec.flux M p c w ^ 2 / (2 * (M.penalty w * Spec.area w))
  else if w.isOpen then ∑ q ∈ range w.nQ, Spec.faceDn M p c w q ^ 2 / (2 * M.penalty w) * w.jxw q
  else 0

/-- Trace inequality on the cells of the mesh: a matter of cell shapes and polynomial degree only. -/
def Spec.GeomTrace (θ : K) (p : ℕ → K) : Prop :=
  ∀ c < M.nCell, ((M.views c).map fun w => Spec.geomLoss M p c w).sum ≤ θ * Spec.dirichlet M jxw p c

theorem loss_eq (s : K) (p : ℕ → K) (c : ℕ) (w : AugView K) (hs : M.scale c w = s) :
    Spec.loss M p c w = s * Spec.geomLoss M p c w := by
  unfold Spec.loss Spec.geomLoss
  rw [hs]
  by_cases h1 : w.isInner = true
  · rw [if_pos h1, if_pos h1]
  · rw [if_neg h1, if_neg h1]
    by_cases h2 : w.isOpen = true
    · rw [if_pos h2, if_pos h2]
    · rw [if_neg h2, if_neg h2, mul_zero]

theorem sum_mul_list {ι : Type} (s : K) (l : List ι) (f : ι → K) : (l.map fun i => s * f i).sum = s * (l.map f).sum := by
  induction l with
  | nil => simp
  | cons a l ih => simp only [List.map_cons, List.sum_cons, ih, mul_add]

/-- The trace inequality with coefficients `a` in the cells and `s` on the faces. -/
theorem trace_scaled {θ a s : K} (ha : 0 < a) (hs : 0 < s) (hsc : ∀ c w, M.scale c w = s) (hw : ∀ c q, M.weight c q = jxw c q * a)
    {p : ℕ → K} (hT : Spec.GeomTrace M jxw θ p) : Spec.Trace M (s / a * θ) p := by
  intro c hc
  have h1 : ((M.views c).map fun w => Spec.loss M p c w).sum = s * ((M.views c).map fun w => Spec.geomLoss M p c w).sum := by
    rw [← sum_mul_list]
    congr 1
    exact List.map_congr_left fun w _ => loss_eq M s p c w (hsc c w)
  have h2 : Spec.cellForm M c p p = a * Spec.dirichlet M jxw p c := by
    unfold Spec.cellForm Spec.dirichlet
    rw [mul_sum]
    refine sum_congr rfl fun q _ => ?_
    rw [hw c q]
    ring
  have h3 := hT c hc
  rw [h1, h2]
  have h4 : s / a * θ * (a * Spec.dirichlet M jxw p c) = s * (θ * Spec.dirichlet M jxw p c) := by
    field_simp
  rw [h4]
  exact mul_le_mul_of_nonneg_left h3 hs.le

/-- Positive integration weights and penalties, as for every valid mesh. -/
structure Spec.GeomPositive : Prop where
  penalty : ∀ c < M.nCell, ∀ w ∈ M.views c, 0 < M.penalty w
  area : ∀ c < M.nCell, ∀ w ∈ M.views c, 0 < Spec.area w
  jxwFace : ∀ c < M.nCell, ∀ w ∈ M.views c, ∀ q < w.nQ, 0 < w.jxw q
  jxw : ∀ c < M.nCell, ∀ q < M.nQ, 0 < jxw c q

/-- **C81 (definiteness does not depend on density and time step).** For time-dependent flow with one positive density, whether the
matrix is positive definite up to constants is decided by the mesh alone: if the trace inequality holds with a constant below one,
it is, for all densities, viscosities and time steps. -/
theorem C81_definite_all_steps {d : K} (hOne : Spec.OneDensity P rho d) (hs : P.stationary = false) (hd : 0 < d)
    (hstep : 0 < P.stepWeight) (hC : M.constraints.Closed) (hE : Spec.Element M) (Fs : List (AugFace K))
    (hFs : Spec.Faces M Fs) (hsame : ∀ F ∈ Fs, Spec.SameFace (M.withParameters P jxw rho) F) (hG : Spec.GeomPositive M jxw)
    (θ : K) (hθ : θ < 1) (p : ℕ → K) (hp : ∀ I, (M.constraints.row I).isSome = true → p I = 0)
    (hT : Spec.GeomTrace M jxw θ (M.constraints.dist M.nDof p)) :
    let A := (M.withParameters P jxw rho).matrix
    let p' := M.constraints.dist M.nDof p
    let energy := ∑ I ∈ range M.nDof, ∑ J ∈ range M.nDof, p I * A I J * p J
    0 ≤ energy ∧ (energy = 0 →
      (∀ c < M.nCell, ∀ q < M.nQ, ∀ e < M.dim, Spec.cellGrad M p' c q e = 0) ∧
      (∀ F ∈ Fs, Spec.constPart M p' F.cl = Spec.constPart M p' F.cr) ∧
      ∀ c < M.nCell, ∀ w ∈ M.views c, w.isOpen = true → ∀ q < w.nQ, Spec.faceValue M p' c w q = 0) := by
  have ha : 0 < 1 / (d * P.stepWeight) := by positivity
  have hco := C81_coefficients M P jxw rho hOne hs
  have hP : Spec.Positive (M.withParameters P jxw rho) :=
    { scale := fun c _ w _ => by rw [(hco 0 0 c w).2]; exact ha
      penalty := hG.penalty
      area := hG.area
      jxw := hG.jxwFace
      weight := fun c hc q hq => by
        rw [(hco c q 0 ⟨0, .wall, 0, 0, 0, fun _ _ => 0, fun _ _ => 0, fun _ => 0⟩).1]
        exact mul_pos (hG.jxw c hc q hq) ha }
  have hT' : Spec.Trace (M.withParameters P jxw rho) (1 / (d * P.stepWeight) / (1 / (d * P.stepWeight)) * θ)
      (M.constraints.dist M.nDof p) :=
    trace_scaled (M.withParameters P jxw rho) jxw ha ha (fun c w => (hco 0 0 c w).2)
      (fun c q => (hco c q 0 ⟨0, .wall, 0, 0, 0, fun _ _ => 0, fun _ _ => 0, fun _ => 0⟩).1) hT
  rw [div_self (ne_of_gt ha), one_mul] at hT'
  exact C81_definite (M.withParameters P jxw rho) hC
    ⟨hE.dof_lt, hE.grad_const, hE.dn_const, hE.nb_lt⟩ Fs hFs hsame hP θ hθ p hp hT'

/-- **C81 (stationary flow).** The same for stationary flow needs a trace constant below the density: the face terms are multiplied
by one over the density, the cell terms are not. -/
theorem C81_definite_stationary {d : K} (hOne : Spec.OneDensity P rho d) (hs : P.stationary = true) (hd : 0 < d)
    (hC : M.constraints.Closed) (hE : Spec.Element M) (Fs : List (AugFace K))
    (hFs : Spec.Faces M Fs) (hsame : ∀ F ∈ Fs, Spec.SameFace (M.withParameters P jxw rho) F) (hG : Spec.GeomPositive M jxw)
    (θ : K) (hθ : θ < d) (p : ℕ → K) (hp : ∀ I, (M.constraints.row I).isSome = true → p I = 0)
    (hT : Spec.GeomTrace M jxw θ (M.constraints.dist M.nDof p)) :
    let A := (M.withParameters P jxw rho).matrix
    0 ≤ ∑ I ∈ range M.nDof, ∑ J ∈ range M.nDof, p I * A I J * p J := by
  have ha : 0 < 1 / d := by positivity
  have hco := stationary_coefficients M P jxw rho hOne hs
  have hP : Spec.Positive (M.withParameters P jxw rho) :=
    { scale := fun c _ w _ => by rw [(hco 0 0 c w).2]; exact ha
      penalty := hG.penalty
      area := hG.area
      jxw := hG.jxwFace
      weight := fun c hc q hq => by
        rw [(hco c q 0 ⟨0, .wall, 0, 0, 0, fun _ _ => 0, fun _ _ => 0, fun _ => 0⟩).1]
        exact hG.jxw c hc q hq }
  have hT' : Spec.Trace (M.withParameters P jxw rho) (1 / d / 1 * θ) (M.constraints.dist M.nDof p) :=
    trace_scaled (M.withParameters P jxw rho) jxw one_pos ha (fun c w => (hco 0 0 c w).2)
      (fun c q => by
        rw [(hco c q 0 ⟨0, .wall, 0, 0, 0, fun _ _ => 0, fun _ _ => 0, fun _ => 0⟩).1, mul_one]) hT
  have hlt : 1 / d / 1 * θ < 1 := by
    rw [div_one, one_div, inv_mul_lt_iff₀ hd, mul_one]
    exact hθ
  exact (C81_definite (M.withParameters P jxw rho) hC
    ⟨hE.dof_lt, hE.grad_const, hE.dn_const, hE.nb_lt⟩ Fs hFs hsame hP _ hlt p hp hT').1

/-! ### The two cells of `exLine` -/

/-- One fluid of density `d`. -/
def exOne (stationary : Bool) (d step : ℚ) : AugParameters ℚ := ⟨d, 0, stationary, false, false, step⟩

theorem exOne_density (s : Bool) (d step : ℚ) : Spec.OneDensity (exOne s d step) (fun _ _ => 0) d :=
  .inl ⟨rfl, rfl, fun _ _ h => by cases h⟩

theorem exLine_geom (p : ℕ → ℚ) : Spec.GeomTrace exLine (fun _ _ => 1) (1 / 2) p := by
  intro c hc
  have hc' : c = 0 ∨ c = 1 := by unfold exLine at hc; dsimp only at hc; omega
  rcases hc' with rfl | rfl
  · simp [Spec.geomLoss, Spec.dirichlet, Spec.cellGrad, Spec.flux, Spec.faceDn, Spec.area, AugMesh.penalty, AugMesh.degsq,
      exLine, exDn, AugView.isInner, AugView.isOpen, sum_range_succ]
    nlinarith [sq_nonneg (p 0 - p 1)]
  · simp [Spec.geomLoss, Spec.dirichlet, Spec.cellGrad, Spec.flux, Spec.faceDn, Spec.area, AugMesh.penalty, AugMesh.degsq,
      exLine, exDn, AugView.isInner, AugView.isOpen, sum_range_succ]
    nlinarith [sq_nonneg (p 1 - p 2)]

theorem exLine_geomPositive : Spec.GeomPositive exLine (fun _ _ => 1) :=
  ⟨exLine_positive.penalty, exLine_positive.area, exLine_positive.jxw, fun _ _ _ _ => one_pos⟩

theorem exLine_sameP (P : AugParameters ℚ) (h : P.densityDiff = 0) (rho : ℕ → ℕ → ℚ) :
    ∀ F ∈ exLineFaces, Spec.SameFace (exLine.withParameters P (fun _ _ => 1) rho) F := by
  intro F hF
  unfold exLineFaces at hF
  rw [List.mem_singleton] at hF
  subst hF
  exact ⟨⟨1, 0, false, false, true, true, false, false, rfl, rfl, by decide, .inl h⟩, ⟨rfl, rfl⟩, by decide +kernel⟩

theorem exLine_free {p : ℕ → ℚ} (hp : p 3 = 0) : ∀ I, (exLine.constraints.row I).isSome = true → p I = 0 := by
  intro I hI
  have : I = 3 := by
    by_contra h
    unfold exLine at hI
    dsimp only at hI
    rw [if_neg h] at hI
    cases hI
  rw [this, hp]

/-- The hypotheses of `C81_definite_all_steps` hold for all densities and time steps. -/
example (d step : ℚ) (hd : 0 < d) (hstep : 0 < step) (p : ℕ → ℚ) (hp : p 3 = 0) :
    0 ≤ ∑ I ∈ range 5, ∑ J ∈ range 5,
      p I * (exLine.withParameters (exOne false d step) (fun _ _ => 1) fun _ _ => 0).matrix I J * p J :=
  (C81_definite_all_steps exLine (exOne false d step) (fun _ _ => 1) (fun _ _ => 0) (exOne_density _ _ _) rfl hd hstep
    exLine_closed exLine_element exLineFaces exLine_faces (exLine_sameP _ rfl _) exLine_geomPositive (1 / 2) (by norm_num) p
    (exLine_free hp) (exLine_geom _)).1

/-- Those of the stationary version hold for densities above one half. -/
example (d : ℚ) (hd : 1 / 2 < d) (p : ℕ → ℚ) (hp : p 3 = 0) :
    0 ≤ ∑ I ∈ range 5, ∑ J ∈ range 5,
      p I * (exLine.withParameters (exOne true d 1) (fun _ _ => 1) fun _ _ => 0).matrix I J * p J :=
  C81_definite_stationary exLine (exOne true d 1) (fun _ _ => 1) (fun _ _ => 0) (exOne_density _ _ _) rfl
    (lt_trans (by norm_num) hd)
    exLine_closed exLine_element exLineFaces exLine_faces (exLine_sameP _ rfl _) exLine_geomPositive (1 / 2) hd p
    (exLine_free hp) (exLine_geom _)

/-- **C81 (stationary flow, small density).** For a stationary flow of density `1/8` on the same mesh the matrix is indefinite,
although the same mesh gives a definite matrix for every time-dependent flow (the example above). -/
theorem C81_stationary_indefinite :
    let A := (exLine.withParameters (exOne true (1 / 8) 1) (fun _ _ => 1) fun _ _ => 0).matrix
    ∃ p : ℕ → ℚ, p 3 = 0 ∧ ∑ I ∈ range 5, ∑ J ∈ range 5, p I * A I J * p J < 0 :=
  ⟨fun i => [1, -3, -3, 0, 0].getD i 0, rfl, by decide +kernel⟩

end Verif.Precond
