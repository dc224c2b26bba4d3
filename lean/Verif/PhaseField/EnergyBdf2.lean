import Verif.PhaseField.Energy
import Verif.Time.Clocks
import Mathlib.Tactic.LinearCombination

/-!
# C89, two-step scheme: the free energy of a whole Cahn-Hilliard run
(source/phase_field_local.cc:135-225, 443-468; source/time_stepping.cc:124-199)

Runs of any length: the first step is implicit Euler, the later ones use three levels with the weights of the clock. Flow and
contact angle are switched off.
-/

namespace Verif.PhaseField.Energy

open Finset Verif.FE Verif.PhaseField

set_option linter.unusedSectionVars false

/-! ## Model -/

section Run

variable {K : Type*} [Field K] [LinearOrder K]

/-- Weights of one step as read by `local_residual`, phase_field_local.cc:148-149, 205-211. -/
structure Weights (K : Type*) where
  w : K
  wOld : K
  wOldOld : K
  two : Bool

/-- Coefficients of a step: the material constants stay, the weights change. -/
def withWeights (p : CHCoef K) (W : Weights K) : CHCoef K :=
  { p with weight := W.w, weightOld := W.wOld, weightOldOld := W.wOldOld, twoStep := W.two }

/-- The weight of the oldest level that is used, line 207-210. -/
def Weights.oo (W : Weights K) : K := if W.two then W.wOldOld else 0

/-- A run without flow: `c n`, `w n` are concentration and potential after `n` steps; `solution_old` is `c n`, `solution_old_old`
is `c (n - 1)` in the step to `c (n + 1)` (two_phase_base.cc:445-470, shift of the levels). All residuals are zero. -/
structure Run (p : CHCoef K) (M : Mesh K) (W : ℕ → Weights K) (c w : ℕ → ℕ → K) (N : ℕ) : Prop where
  res0 : ∀ n < N, ∀ k < M.S.nDof,
    residual0 (withWeights p (W n)) M (c n) (c (n - 1)) (fun _ _ _ => 0) (c (n + 1)) (w (n + 1)) k = 0
  res1 : ∀ n < N, ∀ k < M.S.nDof,
    residual1 (withWeights p (W n)) M (c n) (c (n - 1)) (fun _ _ _ => 0) (c (n + 1)) (w (n + 1)) k = 0
  incr : ∀ n < N, Spec.Satisfies M.C M.S.nDof fun i => c (n + 1) i - c n i
  incrW : ∀ n < N, Spec.Satisfies M.Cw M.S.nDof fun i => c (n + 1) i - c n i
  pot : ∀ n < N, Spec.Satisfies M.C M.S.nDof (w (n + 1))
  wallC : ∀ n < N, ∀ F ∈ M.faces, ∀ j ∈ F.dofs, M.C.dist M.S.nDof (c (n + 1)) j = c (n + 1) j

end Run

/-! ## Proof -/

section Proof

variable {K : Type*} [Field K] [LinearOrder K] [IsStrictOrderedRing K]
variable (p : CHCoef K) (M : Mesh K)

/-- Gradient form and mass form. -/
def G (x y : ℕ → K) : K := M.S.integral fun e q => Spec.dot M.S.dim (M.S.gradient x e q) (M.S.gradient y e q)
def B (x y : ℕ → K) : K := M.S.integral fun e q => M.S.value x e q * M.S.value y e q

theorem G_comm (x y : ℕ → K) : G M x y = G M y x := by
  unfold G Spec.dot
  refine M.S.integral_congr fun e _ q _ => sum_congr rfl fun k _ => by ring

theorem G_lin (a b : K) (x y z : ℕ → K) : G M (fun i => a * x i + b * y i) z = a * G M x z + b * G M y z := by
  unfold G
  rw [← Space.integral_smul, ← Space.integral_smul, ← Space.integral_add]
  refine M.S.integral_congr fun e _ q _ => ?_
  unfold Spec.dot
  rw [mul_sum, mul_sum, ← sum_add_distrib]
  refine sum_congr rfl fun k _ => ?_
  have : M.S.gradient (fun i => a * x i + b * y i) e q k = a * M.S.gradient x e q k + b * M.S.gradient y e q k := by
    unfold Space.gradient
    rw [mul_sum, mul_sum, ← sum_add_distrib]
    exact sum_congr rfl fun i _ => by ring
  rw [this]; ring

theorem G_nonneg (hj : ∀ e < M.S.nCell, ∀ q < M.S.nQ, 0 ≤ M.S.jxw e q) (x : ℕ → K) : 0 ≤ G M x x :=
  integral_nonneg M.S hj _ fun _ _ => dot_self_nonneg _ _

theorem G_quad (hj : ∀ e < M.S.nCell, ∀ q < M.S.nQ, 0 ≤ M.S.jxw e q) (a b : K) (x y : ℕ → K) :
    0 ≤ a ^ 2 * G M x x + 2 * a * b * G M x y + b ^ 2 * G M y y := by
  have h := G_nonneg M hj (fun i => a * x i + b * y i)
  rw [G_lin, G_comm M x, G_comm M y, G_lin, G_lin, G_comm M y x] at h
  linarith

/-- `ψ` is a discrete flux potential of `d`. -/
def Flux (ψ d : ℕ → K) : Prop := ∀ v, Spec.Satisfies M.C M.S.nDof v → B M d v + G M ψ v = 0

/-- The second equation and the shape of the double well. -/
theorem energy_le (h : Spec.Fits M) (hs : 0 ≤ p.surfaceTension) (he : 0 < p.epsilon) (ha : p.contactAngle = 0)
    (hj : ∀ e < M.S.nCell, ∀ q < M.S.nQ, 0 ≤ M.S.jxw e q) (old oldOld c w : ℕ → K)
    (hd : Spec.Satisfies M.Cw M.S.nDof fun i => c i - old i)
    (hc : ∀ F ∈ M.faces, ∀ j ∈ F.dofs, M.C.dist M.S.nDof c j = c j)
    (hr1 : ∀ k < M.S.nDof, residual1 p M old oldOld (fun _ _ _ => 0) c w k = 0) :
    Spec.energy p M c ≤ Spec.energy p M old + B M w (fun i => c i - old i)
      + 3 * p.surfaceTension / (2 * p.epsilon) / 2 * B M (fun i => c i - old i) (fun i => c i - old i)
      - 3 * p.surfaceTension * p.epsilon / 8 * G M (fun i => c i - old i) (fun i => c i - old i) := by
  have r1 := residual1_pair p M h old oldOld (fun _ _ _ => 0) c w (fun i => c i - old i) hd hc
  rw [sum_eq_zero fun k hk => by rw [hr1 k (mem_range.1 hk)]; ring] at r1
  have z : ∀ f : WallFace K → ℕ → K, Spec.wall M.nFaceQ M.faces
      (fun F q => 3 / 4 * p.contactAngle * p.surfaceTension * f F q) = 0 := by intro f; simp [Spec.wall, ha]
  have z' : ∀ f g : WallFace K → ℕ → K, Spec.wall M.nFaceQ M.faces
      (fun F q => 3 / 4 * p.contactAngle * p.surfaceTension * f F q * g F q) = 0 := by intro f g; simp [Spec.wall, ha]
  rw [z', add_zero] at r1
  have key : 0 ≤ M.S.integral (fun e q =>
      3 * p.surfaceTension / (2 * p.epsilon) * ((M.S.value old e q) ^ 2 - 1) ^ 2 / 4
        + 3 * p.surfaceTension * p.epsilon / 8 * Spec.dot M.S.dim (M.S.gradient old e q) (M.S.gradient old e q)
      + M.S.value w e q * M.S.value (fun i => c i - old i) e q
      + 3 * p.surfaceTension / (2 * p.epsilon) / 2 *
          (M.S.value (fun i => c i - old i) e q * M.S.value (fun i => c i - old i) e q)
      - 3 * p.surfaceTension * p.epsilon / 8 * Spec.dot M.S.dim (M.S.gradient (fun i => c i - old i) e q)
          (M.S.gradient (fun i => c i - old i) e q)
      - (3 * p.surfaceTension / (2 * p.epsilon) * ((M.S.value c e q) ^ 2 - 1) ^ 2 / 4
        + 3 * p.surfaceTension * p.epsilon / 8 * Spec.dot M.S.dim (M.S.gradient c e q) (M.S.gradient c e q))
      - ((M.submitted p old oldOld (fun _ _ _ => 0) c w e q).wVal * M.S.value (fun i => c i - old i) e q
        + ∑ d ∈ range M.S.dim, (M.submitted p old oldOld (fun _ _ _ => 0) c w e q).wGrad d
          * M.S.gradient (fun i => c i - old i) e q d)) := by
    refine integral_nonneg M.S hj _ fun e q => ?_
    have g2 : ∑ k ∈ range M.S.dim, (M.submitted p old oldOld (fun _ _ _ => 0) c w e q).wGrad k *
          M.S.gradient (fun i => c i - old i) e q k =
        -(3 * p.surfaceTension * p.epsilon / 8) * (Spec.dot M.S.dim (M.S.gradient c e q) (M.S.gradient c e q)
          + Spec.dot M.S.dim (M.S.gradient (fun i => c i - old i) e q) (M.S.gradient (fun i => c i - old i) e q)
          - Spec.dot M.S.dim (M.S.gradient old e q) (M.S.gradient old e q)) := by
      unfold Spec.dot
      rw [← sum_add_distrib, ← sum_sub_distrib, mul_sum]
      refine sum_congr rfl fun k _ => ?_
      rw [gradient_sub]
      simp only [Mesh.submitted, chResidual, Mesh.point, CHCoef.factor4]
      ring
    have g6 : (M.submitted p old oldOld (fun _ _ _ => 0) c w e q).wVal =
        M.S.value w e q - 3 * p.surfaceTension / (2 * p.epsilon) * ((M.S.value c e q) ^ 3 - M.S.value c e q) := by
      simp only [Mesh.submitted, chResidual, Mesh.point, CHCoef.factor2]
      ring
    rw [g2, g6, value_sub]
    have hf : 0 ≤ 3 * p.surfaceTension / (2 * p.epsilon) := by positivity
    generalize 3 * p.surfaceTension / (2 * p.epsilon) = f at *
    generalize M.S.value c e q = b
    generalize M.S.value old e q = a
    have : ∀ x y z u v : K, f * (a ^ 2 - 1) ^ 2 / 4 + u * x + v * (b - a) + f / 2 * ((b - a) * (b - a)) - u * y
        - (f * (b ^ 2 - 1) ^ 2 / 4 + u * z) - ((v - f * (b ^ 3 - b)) * (b - a) + -u * (z + y - x)) =
        f * ((b - a) ^ 2 * (((b - a) / 2 - b) ^ 2 + b ^ 2 / 2)) := by intros; ring
    rw [this]
    positivity
  rw [integral_sub, integral_sub, integral_sub, Space.integral_add, Space.integral_add, Space.integral_smul,
    Space.integral_smul, ← r1] at key
  have hE : ∀ x, Spec.energy p M x = M.S.integral (fun e q =>
      3 * p.surfaceTension / (2 * p.epsilon) * ((M.S.value x e q) ^ 2 - 1) ^ 2 / 4
        + 3 * p.surfaceTension * p.epsilon / 8 * Spec.dot M.S.dim (M.S.gradient x e q) (M.S.gradient x e q)) := by
    intro x
    unfold Spec.energy
    rw [z, sub_zero]
    rfl
  rw [hE, hE]
  unfold B G
  linarith

/-- The first equation: a flux potential of the new increment from that of the old one. -/
theorem flux_step (h : Spec.Fits M) (hwt : p.weight ≠ 0)
    (hsum : p.weight + p.weightOld + (if p.twoStep then p.weightOldOld else 0) = 0) (old oldOld c w ψ : ℕ → K)
    (hψ : Flux M ψ fun i => old i - oldOld i)
    (hr0 : ∀ k < M.S.nDof, residual0 p M old oldOld (fun _ _ _ => 0) c w k = 0) :
    Flux M (fun i => p.diffusionLength ^ 2 / p.weight * w i
      + (if p.twoStep then p.weightOldOld else 0) / p.weight * ψ i) (fun i => c i - old i) := by
  intro v hv
  have hv' := hψ v hv
  have r0 := residual0_pair p M h old oldOld (fun _ _ _ => 0) c w v hv
  rw [sum_eq_zero fun k hk => by rw [hr0 k (mem_range.1 hk)]; ring] at r0
  set o := (if p.twoStep then p.weightOldOld else 0) with ho
  have hi : p.weightOld * p.inv = -1 - o / p.weight := by
    unfold CHCoef.inv
    have : p.weightOld = -p.weight - o := by linarith
    rw [this]; field_simp
  have e : (0 : K) = B M (fun i => c i - old i) v - o / p.weight * B M (fun i => old i - oldOld i) v
      + p.diffusionLength ^ 2 / p.weight * G M w v := by
    rw [r0]
    unfold B G
    rw [← Space.integral_smul, ← Space.integral_smul, ← integral_sub, ← Space.integral_add]
    refine M.S.integral_congr fun e _ q _ => ?_
    have g1 : ∑ k ∈ range M.S.dim, (M.submitted p old oldOld (fun _ _ _ => 0) c w e q).cGrad k * M.S.gradient v e q k =
        p.diffusionLength ^ 2 / p.weight * Spec.dot M.S.dim (M.S.gradient w e q) (M.S.gradient v e q) := by
      unfold Spec.dot
      rw [mul_sum]
      refine sum_congr rfl fun k _ => ?_
      simp only [Mesh.submitted, chResidual, Mesh.point, CHCoef.mobility, CHCoef.inv]; ring
    have g2 : (M.submitted p old oldOld (fun _ _ _ => 0) c w e q).cVal =
        (M.S.value c e q - M.S.value old e q) - o / p.weight * (M.S.value old e q - M.S.value oldOld e q) := by
      have hi2 : ∀ y : K, (if p.twoStep = true then y + p.weightOldOld * p.inv * M.S.value oldOld e q else y) =
          y + o / p.weight * M.S.value oldOld e q := by
        intro y
        rw [ho]
        unfold CHCoef.inv
        split_ifs <;> ring
      simp only [Mesh.submitted, chResidual, Mesh.point, hi, hi2, sprod, mul_zero, sum_const_zero, zero_mul, add_zero]
      ring
    rw [g1, g2, value_sub, value_sub]
    ring
  rw [G_lin]
  linear_combination o / p.weight * hv' - e

/-- One step: energy plus the history term decays. `a` is the part of the dissipation reserved for the next step. -/
theorem lyapunov_step (h : Spec.Fits M) (hwt : 0 < p.weight)
    (hsum : p.weight + p.weightOld + (if p.twoStep then p.weightOldOld else 0) = 0)
    (ho : 0 ≤ (if p.twoStep then p.weightOldOld else 0)) (hs : 0 ≤ p.surfaceTension) (he : 0 < p.epsilon)
    (hL : p.diffusionLength ≠ 0) (ha : p.contactAngle = 0)
    (hj : ∀ e < M.S.nCell, ∀ q < M.S.nQ, 0 ≤ M.S.jxw e q) (a : K)
    (hstep : p.diffusionLength ^ 2 * p.surfaceTension ≤
      8 / 3 * p.epsilon ^ 3 * (p.weight - (if p.twoStep then p.weightOldOld else 0) / 2 - a))
    (old oldOld c w ψ : ℕ → K) (hψ : Flux M ψ fun i => old i - oldOld i)
    (hd : Spec.Satisfies M.Cw M.S.nDof fun i => c i - old i) (hd' : Spec.Satisfies M.C M.S.nDof fun i => c i - old i)
    (hc : ∀ F ∈ M.faces, ∀ j ∈ F.dofs, M.C.dist M.S.nDof c j = c j) (hw : Spec.Satisfies M.C M.S.nDof w)
    (hr0 : ∀ k < M.S.nDof, residual0 p M old oldOld (fun _ _ _ => 0) c w k = 0)
    (hr1 : ∀ k < M.S.nDof, residual1 p M old oldOld (fun _ _ _ => 0) c w k = 0) :
    ∃ ψ', Flux M ψ' (fun i => c i - old i) ∧
      Spec.energy p M c + a / p.diffusionLength ^ 2 * G M ψ' ψ' ≤
        Spec.energy p M old + (if p.twoStep then p.weightOldOld else 0) / 2 / p.diffusionLength ^ 2 * G M ψ ψ := by
  have hf := flux_step p M h hwt.ne' hsum old oldOld c w ψ hψ hr0
  refine ⟨_, hf, ?_⟩
  have hE := energy_le p M h hs he ha hj old oldOld c w hd hc hr1
  set o := (if p.twoStep then p.weightOldOld else 0) with hodef
  set ψ' : ℕ → K := fun i => p.diffusionLength ^ 2 / p.weight * w i + o / p.weight * ψ i with hψ'
  set d : ℕ → K := fun i => c i - old i with hddef
  have e1 := hf d hd'
  have e2 := hf w hw
  have hcomm : B M w d = B M d w := by
    unfold B; exact M.S.integral_congr fun e _ q _ => by ring
  have e3 : G M ψ' ψ' = p.diffusionLength ^ 2 / p.weight * G M ψ' w + o / p.weight * G M ψ' ψ := by
    conv_lhs => rw [hψ', G_lin, G_comm M w, G_comm M ψ]
  have q1 := G_quad M hj 1 (-1) ψ' ψ
  have hL2 : 0 < p.diffusionLength ^ 2 := by positivity
  set L2 := p.diffusionLength ^ 2 with hL2def
  have e3' : G M ψ' w = p.weight / L2 * G M ψ' ψ' - o / L2 * G M ψ' ψ := by
    rw [e3]; field_simp; ring
  set f := 3 * p.surfaceTension / (2 * p.epsilon) with hfdef
  have hf0 : 0 ≤ f := by positivity
  -- Young inequality
  have young : 0 ≤ (p.weight - o / 2 - a) / L2 * G M ψ' ψ' + f / 2 * G M ψ' d
      + 3 * p.surfaceTension * p.epsilon / 8 * G M d d := by
    rcases hs.eq_or_lt with h0 | h0
    · have hf00 : f = 0 := by rw [hfdef, ← h0]; ring
      rw [hf00, ← h0]
      have : 0 ≤ p.weight - o / 2 - a := by
        rw [← h0, mul_zero] at hstep
        have h3 : 0 < 8 / 3 * p.epsilon ^ 3 := by positivity
        exact nonneg_of_mul_nonneg_right hstep h3
      have := mul_nonneg (div_nonneg this hL2.le) (G_nonneg M hj ψ')
      linarith
    · have hb : 0 < p.weight - o / 2 - a := by
        have h3 : 0 < 8 / 3 * p.epsilon ^ 3 := by positivity
        have h4 : 0 < 8 / 3 * p.epsilon ^ 3 * (p.weight - o / 2 - a) := lt_of_lt_of_le (mul_pos hL2 h0) hstep
        exact pos_of_mul_pos_right h4 h3.le
      set β := p.weight - o / 2 - a with hβ
      have hy := G_quad M hj 1 (f * L2 / (4 * β)) ψ' d
      have hy' := mul_nonneg (div_pos hb hL2).le hy
      have k1 : β / L2 * (1 ^ 2 * G M ψ' ψ' + 2 * 1 * (f * L2 / (4 * β)) * G M ψ' d + (f * L2 / (4 * β)) ^ 2 * G M d d) =
          β / L2 * G M ψ' ψ' + f / 2 * G M ψ' d + f ^ 2 * L2 / (16 * β) * G M d d := by field_simp; ring
      rw [k1] at hy'
      have k2 : f ^ 2 * L2 / (16 * β) ≤ 3 * p.surfaceTension * p.epsilon / 8 := by
        rw [div_le_iff₀ (by positivity), hfdef]
        have k3 : (3 * p.surfaceTension / (2 * p.epsilon)) ^ 2 * L2 =
            9 * p.surfaceTension / (4 * p.epsilon ^ 2) * (L2 * p.surfaceTension) := by field_simp; ring
        have k4 : 3 * p.surfaceTension * p.epsilon / 8 * (16 * β) =
            9 * p.surfaceTension / (4 * p.epsilon ^ 2) * (8 / 3 * p.epsilon ^ 3 * β) := by field_simp; ring
        rw [k3, k4]
        exact mul_le_mul_of_nonneg_left hstep (by positivity)
      have := mul_le_mul_of_nonneg_right k2 (G_nonneg M hj d)
      linarith
  have hcross : o / L2 * G M ψ' ψ ≤ o / 2 / L2 * G M ψ' ψ' + o / 2 / L2 * G M ψ ψ := by
    have := mul_nonneg (div_nonneg (half_pos one_pos |>.le |> mul_nonneg ho) hL2.le) q1
    have e : o * (1 / 2) / L2 * (1 ^ 2 * G M ψ' ψ' + 2 * 1 * -1 * G M ψ' ψ + (-1) ^ 2 * G M ψ ψ) =
        o / 2 / L2 * G M ψ' ψ' + o / 2 / L2 * G M ψ ψ - o / L2 * G M ψ' ψ := by ring
    rw [e] at this
    linarith
  have hsplit : (p.weight - o / 2 - a) / L2 * G M ψ' ψ' =
      p.weight / L2 * G M ψ' ψ' - o / 2 / L2 * G M ψ' ψ' - a / L2 * G M ψ' ψ' := by ring
  rw [hsplit] at young
  have e1' : B M d d = - G M ψ' d := by linarith
  have e2' : B M w d = - G M ψ' w := by rw [hcomm]; linarith
  rw [e1', e2', e3'] at hE
  have : f / 2 * -G M ψ' d = -(f / 2 * G M ψ' d) := by ring
  rw [this] at hE
  linarith

variable (W : ℕ → Weights K) (c w : ℕ → ℕ → K)

/-- **C89 (two-step runs, any weights).** A run of any length without flow and contact angle whose weights annihilate
constants, start with a one-step scheme and satisfy `σ L² ≤ 8/3 ε³ (w_n - (oo_n + oo_{n+1})/2)` in every step, never
exceeds the free energy of its initial concentration. Step sizes may vary. -/
theorem C89_run_energy_bounded (h : Spec.Fits M) (hs : 0 ≤ p.surfaceTension) (he : 0 < p.epsilon)
    (hL : p.diffusionLength ≠ 0) (ha : p.contactAngle = 0) (hj : ∀ e < M.S.nCell, ∀ q < M.S.nQ, 0 ≤ M.S.jxw e q) (N : ℕ)
    (hfirst : (W 0).oo = 0) (hw : ∀ n < N, 0 < (W n).w) (hoo : ∀ n ≤ N, 0 ≤ (W n).oo)
    (hsum : ∀ n < N, (W n).w + (W n).wOld + (W n).oo = 0)
    (hstep : ∀ n < N, p.diffusionLength ^ 2 * p.surfaceTension ≤
      8 / 3 * p.epsilon ^ 3 * ((W n).w - ((W n).oo + (W (n + 1)).oo) / 2))
    (run : Run p M W c w N) : ∀ n ≤ N, Spec.energy p M (c n) ≤ Spec.energy p M (c 0) := by
  have key : ∀ n ≤ N, ∃ ψ, Flux M ψ (fun i => c n i - c (n - 1) i) ∧
      Spec.energy p M (c n) + (W n).oo / 2 / p.diffusionLength ^ 2 * G M ψ ψ ≤ Spec.energy p M (c 0) := by
    intro n
    induction n with
    | zero =>
      intro _
      refine ⟨fun _ => 0, ?_, ?_⟩
      · intro v _
        have : B M (fun i => c 0 i - c (0 - 1) i) v = 0 ∧ G M (fun _ => 0) v = 0 := by
          constructor
          · unfold B Space.integral Space.value; simp
          · unfold G Space.integral Spec.dot Space.gradient; simp
        rw [this.1, this.2, add_zero]
      · rw [hfirst]; simp
    | succ n ih =>
      intro hn
      have hn' : n < N := hn
      obtain ⟨ψ, hψ, hE⟩ := ih hn'.le
      obtain ⟨ψ', hψ', hE'⟩ := lyapunov_step (withWeights p (W n)) M h (hw n hn') (hsum n hn') (hoo n hn'.le) hs he hL ha hj
        ((W (n + 1)).oo / 2) (by
          have := hstep n hn'
          calc _ ≤ _ := this
            _ = _ := by
              change _ = 8 / 3 * p.epsilon ^ 3 * ((W n).w - (W n).oo / 2 - (W (n + 1)).oo / 2)
              ring)
        (c n) (c (n - 1)) (c (n + 1)) (w (n + 1)) ψ hψ (run.incrW n hn') (run.incr n hn') (run.wallC n hn')
        (run.pot n hn') (run.res0 n hn') (run.res1 n hn')
      refine ⟨ψ', hψ', ?_⟩
      exact le_trans hE' hE
  intro n hn
  obtain ⟨ψ, -, hE⟩ := key n hn
  have := mul_nonneg (div_nonneg (div_nonneg (hoo n hn) zero_le_two) (sq_nonneg p.diffusionLength)) (G_nonneg M hj ψ)
  linarith

end Proof

/-! ## Runs driven by the clock with constant step size -/

section Clock

open Verif.Time

variable {K : Type*} [Field K] [LinearOrder K] [IsStrictOrderedRing K]

/-- The clock after `n` calls of `next()`. -/
def clockAt (prm : Params K) : ℕ → TS K
  | 0 => TS.ctor prm
  | n + 1 => (clockAt prm n).next

/-- Weights read in the step from clock state `t`, phase_field_local.cc:148-149, 205-211 (`step_no() > 1` for the oldest
level). -/
def clockWeights (t : TS K) : Weights K :=
  ⟨t.next.w, t.next.wOld, t.next.wOldOld, decide (t.scheme = .bdf2 ∧ 1 < t.next.stepNo)⟩

/-- Specification: the weights of the constant-step schemes, one-step for the first step and for implicit Euler. -/
def Spec.uniform (bdf2 : Bool) (τ : K) (n : ℕ) : K × K × K :=
  if bdf2 ∧ 1 ≤ n then (3 / (2 * τ), -2 / τ, 1 / (2 * τ)) else (1 / τ, -1 / τ, 0)

structure ClockInv (prm : Params K) (n : ℕ) (t : TS K) : Prop where
  going : Going prm t
  cur : t.cur = prm.stepStart
  no : t.stepNo = n
  scheme : t.scheme = prm.scheme
  start : t.start = prm.startTime
  now : t.now = prm.startTime + n * prm.stepStart
  oo0 : n ≤ 1 → t.wOldOld = 0
  w : t.w = if prm.scheme = .bdf2 ∧ 2 ≤ n then 3 / (2 * prm.stepStart) else 1 / prm.stepStart

variable (prm : Params K)

theorem not_changed (a : K) : ¬ (1 / 10 ^ 12 < |a - a| / a) := by
  rw [sub_self, abs_zero, zero_div]
  have : (0 : K) < 10 ^ 12 := by positivity
  exact not_lt.2 (by positivity)

theorem weight_uniform (hp : prm.Good) (hb : prm.scheme = .bdf2 ∨ prm.scheme = .implicitEuler) (n : ℕ) (t : TS K)
    (i : ClockInv prm n t) (hcur : t.next.cur = prm.stepStart) :
    t.next.w = (Spec.uniform (decide (prm.scheme = .bdf2)) prm.stepStart n).1 ∧
    t.next.wOld = (Spec.uniform (decide (prm.scheme = .bdf2)) prm.stepStart n).2.1 ∧
    (clockWeights t).oo = (Spec.uniform (decide (prm.scheme = .bdf2)) prm.stepStart n).2.2 := by
  have hτ : 0 < prm.stepStart := hp.start
  have hc : (if t.snaps then t.final - t.now else t.trial) = prm.stepStart := hcur
  have hnn : t.now ≠ t.start ↔ n ≠ 0 := by
    rw [i.now, i.start]
    constructor
    · rintro h rfl; simp at h
    · intro h he
      have : (n : K) * prm.stepStart = 0 := by linarith
      rcases mul_eq_zero.1 this with h0 | h0
      · exact h (by exact_mod_cast h0)
      · exact hτ.ne' h0
  have hno : t.next.stepNo = n + 1 := by rw [next_stepNo, i.no]
  unfold Spec.uniform clockWeights Weights.oo
  simp only [TS.next, hc, i.scheme, i.no, decide_eq_true_eq, hnn]
  by_cases hn : n = 0
  · subst hn
    have hw : t.w = 1 / prm.stepStart := by rw [i.w, if_neg (by omega)]
    rw [hw]
    simp
  · have hl : t.newLast = prm.stepStart := by
      unfold TS.newLast; rw [if_pos (hnn.2 hn), i.cur]
    rw [hl]
    rcases hb with hb | hb
    · have hcond : (Scheme.bdf2 = Scheme.bdf2 ∧ n ≠ 0) := ⟨rfl, hn⟩
      have h1 : 1 ≤ n := Nat.one_le_iff_ne_zero.2 hn
      have h2 : 1 < n + 1 := by omega
      have e1 : (2 * prm.stepStart + prm.stepStart) / (prm.stepStart * (prm.stepStart + prm.stepStart)) =
          3 / (2 * prm.stepStart) := by field_simp; ring
      simp only [hb, hn, ne_eq, not_false_eq_true, and_self, if_true, h1, h2, e1]
      refine ⟨?_, ?_, ?_⟩
      · have hw := i.w
        rw [hb] at hw
        by_cases h2 : 2 ≤ n
        · rw [if_pos ⟨rfl, h2⟩] at hw
          rw [hw, if_neg (not_changed _)]
        · rw [if_neg (fun h => h2 h.2)] at hw
          rw [hw, if_pos]
          have : |3 / (2 * prm.stepStart) - 1 / prm.stepStart| / (3 / (2 * prm.stepStart)) = 1 / 3 := by
            rw [abs_of_pos (by
              have : 3 / (2 * prm.stepStart) - 1 / prm.stepStart = 1 / (2 * prm.stepStart) := by field_simp; ring
              rw [this]; positivity)]
            field_simp; ring
          rw [this]
          norm_num
      · field_simp; ring
      · field_simp; ring
    · have hw : t.w = 1 / prm.stepStart := by rw [i.w, if_neg (by rw [hb]; simp)]
      rw [hw]
      simp [hb]

/-- The clock of a run with constant steps, as long as the last step has not been reached. -/
theorem clock_inv (hp : prm.Good) (hr : prm.StartInRange) (hb : prm.scheme = .bdf2 ∨ prm.scheme = .implicitEuler) (N : ℕ)
    (hend : ∀ n ≤ N, (clockAt prm n).atEnd = false) : ∀ n ≤ N, ClockInv prm n (clockAt prm n) := by
  intro n
  induction n with
  | zero =>
    intro _
    exact ⟨going_ctor hp hr, rfl, rfl, rfl, rfl, by simp [clockAt, TS.ctor], fun _ => rfl, by
      rw [if_neg (by omega)]; rfl⟩
  | succ n ih =>
    intro hn
    have i := ih (by omega)
    have he := hend n (by omega)
    rcases going_next hp i.going he with ⟨-, h2, h3, h4, -⟩ | ⟨-, -, -, h4, -⟩
    · have hcur : (clockAt prm n).next.cur = prm.stepStart := by rw [h3, i.cur]
      have hu := weight_uniform prm hp hb n _ i hcur
      refine ⟨h2, hcur, ?_, i.scheme, i.start, ?_, ?_, ?_⟩
      · change (clockAt prm n).next.stepNo = _
        rw [next_stepNo, i.no]
      · change (clockAt prm n).next.now = _
        rw [h4, i.now, i.cur]; push_cast; ring
      · intro h1
        have h0 : n = 0 := by omega
        subst h0
        change (TS.ctor prm).next.wOldOld = 0
        have : ¬ ((TS.ctor prm).scheme = .bdf2 ∧ (TS.ctor prm).now ≠ (TS.ctor prm).start) := fun h => h.2 rfl
        simp only [TS.next, this, decide_false, Bool.false_eq_true, if_false]
        rfl
      · change (clockAt prm n).next.w = _
        rw [hu.1]
        unfold Spec.uniform
        by_cases h : prm.scheme = .bdf2 ∧ 2 ≤ n + 1
        · rw [if_pos h, if_pos ⟨by rw [decide_eq_true_eq]; exact h.1, by omega⟩]
        · rw [if_neg h, if_neg (by rw [decide_eq_true_eq]; intro hh; exact h ⟨hh.1, by omega⟩)]
    · have : (clockAt prm (n + 1)).atEnd = true := h4
      rw [hend (n + 1) hn] at this
      cases this

/-- **C89 (runs with constant step).** For implicit Euler and BDF-2 and every number of steps before the (possibly shorter) last
one: if the step size is at most `2 ε³ / (σ L²)`, the free energy never exceeds that of the initial concentration. -/
theorem C89_constant_step_run (p : CHCoef K) (M : Mesh K) (c w : ℕ → ℕ → K) (h : Spec.Fits M)
    (hs : 0 ≤ p.surfaceTension) (he : 0 < p.epsilon)
    (hL : p.diffusionLength ≠ 0) (ha : p.contactAngle = 0) (hj : ∀ e < M.S.nCell, ∀ q < M.S.nQ, 0 ≤ M.S.jxw e q)
    (hp : prm.Good) (hr : prm.StartInRange) (hb : prm.scheme = .bdf2 ∨ prm.scheme = .implicitEuler) (N : ℕ)
    (hend : ∀ n ≤ N, (clockAt prm n).atEnd = false)
    (hstep : prm.stepStart * p.diffusionLength ^ 2 * p.surfaceTension ≤ 2 * p.epsilon ^ 3)
    (run : Run p M (fun n => clockWeights (clockAt prm n)) c w N) :
    ∀ n ≤ N, Spec.energy p M (c n) ≤ Spec.energy p M (c 0) := by
  have hτ : 0 < prm.stepStart := hp.start
  have hi := clock_inv prm hp hr hb N hend
  have hu : ∀ n < N, (clockWeights (clockAt prm n)).w = (Spec.uniform (decide (prm.scheme = .bdf2)) prm.stepStart n).1 ∧
      (clockWeights (clockAt prm n)).wOld = (Spec.uniform (decide (prm.scheme = .bdf2)) prm.stepStart n).2.1 ∧
      (clockWeights (clockAt prm n)).oo = (Spec.uniform (decide (prm.scheme = .bdf2)) prm.stepStart n).2.2 := by
    intro n hn
    exact weight_uniform prm hp hb n _ (hi n hn.le) ((hi (n + 1) hn).cur)
  -- the weights of the step after the last one do not matter
  set W' : ℕ → Weights K := fun n => if n < N then clockWeights (clockAt prm n) else ⟨0, 0, 0, false⟩ with hW'
  have hW : ∀ n < N, W' n = clockWeights (clockAt prm n) := fun n hn => by rw [hW']; exact if_pos hn
  have hWN : ∀ n, ¬ n < N → (W' n).oo = 0 := by
    intro n hn; rw [hW']; dsimp only; rw [if_neg hn]; rfl
  have hoo : ∀ n, 0 ≤ (W' n).oo ∧ (W' n).oo ≤ 1 / (2 * prm.stepStart) := by
    intro n
    by_cases hn : n < N
    · rw [hW n hn, (hu n hn).2.2]
      unfold Spec.uniform
      split_ifs
      · exact ⟨by positivity, le_refl _⟩
      · exact ⟨le_refl _, by positivity⟩
    · rw [hWN n hn]
      exact ⟨le_refl _, by positivity⟩
  have hoo0 : (W' 0).oo = 0 := by
    by_cases hn : 0 < N
    · rw [hW 0 hn, (hu 0 hn).2.2]; simp [Spec.uniform]
    · exact hWN 0 hn
  refine C89_run_energy_bounded p M W' c w h hs he hL ha hj N hoo0 ?_ (fun n _ => (hoo n).1) ?_ ?_ ?_
  · intro n hn
    rw [hW n hn, (hu n hn).1]
    unfold Spec.uniform
    split_ifs <;> positivity
  · intro n hn
    rw [hW n hn, (hu n hn).1, (hu n hn).2.1, (hu n hn).2.2]
    unfold Spec.uniform
    split_ifs
    · field_simp; ring
    · dsimp only; ring
  · intro n hn
    have h3 : 8 / 3 * p.epsilon ^ 3 * (3 / (4 * prm.stepStart)) ≤
        8 / 3 * p.epsilon ^ 3 * ((W' n).w - ((W' n).oo + (W' (n + 1)).oo) / 2) := by
      refine mul_le_mul_of_nonneg_left ?_ (by positivity)
      have h1 := (hoo (n + 1)).2
      rw [hW n hn, (hu n hn).1, (hu n hn).2.2]
      have hq : 0 < 1 / prm.stepStart := by positivity
      have a1 : 1 / (2 * prm.stepStart) = 1 / 2 * (1 / prm.stepStart) := by field_simp
      have a2 : 3 / (2 * prm.stepStart) = 3 / 2 * (1 / prm.stepStart) := by field_simp
      have a3 : 3 / (4 * prm.stepStart) = 3 / 4 * (1 / prm.stepStart) := by field_simp
      rw [a1] at h1
      unfold Spec.uniform
      split_ifs
      · dsimp only; rw [a1, a2, a3]; linarith
      · dsimp only; rw [a3]; linarith
    refine le_trans ?_ h3
    have : 8 / 3 * p.epsilon ^ 3 * (3 / (4 * prm.stepStart)) = 2 * p.epsilon ^ 3 / prm.stepStart := by field_simp; ring
    rw [this, le_div_iff₀ hτ]
    linarith
  · constructor
    · intro n hn; rw [hW n hn]; exact run.res0 n hn
    · intro n hn; rw [hW n hn]; exact run.res1 n hn
    · exact run.incr
    · exact run.incrW
    · exact run.pot
    · exact run.wallC

/-- The weights of a step of another size after constant steps, as far as `weight()` is the exact one. -/
theorem weight_last (hp : prm.Good) (hb : prm.scheme = .bdf2 ∨ prm.scheme = .implicitEuler) (n : ℕ) (t : TS K)
    (i : ClockInv prm n t) (he : t.atEnd = false) (hx : t.next.w = t.exactWeight) :
    0 < t.next.cur ∧ t.next.cur ≤ 101 / 100 * prm.stepStart ∧
    ((clockWeights t).oo = 0 ∧ (clockWeights t).w = 1 / t.next.cur ∧ (clockWeights t).wOld = -1 / t.next.cur ∨
     0 < n ∧ (clockWeights t).oo = t.next.cur / (prm.stepStart * (t.next.cur + prm.stepStart)) ∧
      (clockWeights t).w = (2 * t.next.cur + prm.stepStart) / (t.next.cur * (t.next.cur + prm.stepStart)) ∧
      (clockWeights t).wOld = -((t.next.cur + prm.stepStart) / (t.next.cur * prm.stepStart))) := by
  have hτ : 0 < prm.stepStart := hp.start
  have htr : t.trial = prm.stepStart := by
    rw [trial_eq_cur i.going.stepcur (by rw [i.going.fixed.hmax]; exact i.going.hi), i.cur]
  have hcur : t.next.cur = if t.snaps then t.final - t.now else t.trial := rfl
  have hnn : t.now ≠ t.start ↔ n ≠ 0 := by
    rw [i.now, i.start]
    constructor
    · rintro h rfl; simp at h
    · intro h he
      have : (n : K) * prm.stepStart = 0 := by linarith
      rcases mul_eq_zero.1 this with h0 | h0
      · exact h (by exact_mod_cast h0)
      · exact hτ.ne' h0
  refine ⟨?_, ?_, ?_⟩
  · rw [hcur]
    split_ifs
    · rw [i.going.fixed.hfinal]; linarith [i.going.before]
    · rw [htr]; exact hτ
  · rw [hcur]
    split_ifs with hsn
    · simp only [TS.snaps, Bool.and_eq_true, decide_eq_true_eq, htr] at hsn
      linarith [hsn.2]
    · rw [htr]; linarith
  · by_cases hcase : t.scheme = .bdf2 ∧ t.now ≠ t.start
    · right
      have hn0 : n ≠ 0 := hnn.1 hcase.2
      have hl : t.newLast = prm.stepStart := by unfold TS.newLast; rw [if_pos hcase.2, i.cur]
      have htwo : (t.scheme = .bdf2 ∧ 1 < t.next.stepNo) := ⟨hcase.1, by rw [next_stepNo, i.no]; omega⟩
      refine ⟨Nat.pos_of_ne_zero hn0, ?_, ?_, ?_⟩
      · unfold Weights.oo clockWeights
        simp only [decide_eq_true htwo, if_true]
        have : t.next.wOldOld = t.next.cur / (t.newLast * (t.next.cur + t.newLast)) := by simp [TS.next, hcase]
        rw [this, hl]
      · change t.next.w = _
        rw [hx]; unfold TS.exactWeight; rw [if_pos hcase, hl]
      · change t.next.wOld = _
        have : t.next.wOld = -((t.next.cur + t.newLast) / (t.next.cur * t.newLast)) := by simp [TS.next, hcase]
        rw [this, hl]
    · left
      refine ⟨?_, ?_, ?_⟩
      · unfold Weights.oo clockWeights
        have : ¬ (t.scheme = .bdf2 ∧ 1 < t.next.stepNo) := by
          rintro ⟨h1, h2⟩
          rw [next_stepNo, i.no] at h2
          exact hcase ⟨h1, hnn.2 (by omega)⟩
        simp only [decide_eq_false this]; rfl
      · change t.next.w = _
        rw [hx]; unfold TS.exactWeight; rw [if_neg hcase]
      · change t.next.wOld = _
        simp only [TS.next, hcase]; simp

/-- **C89 (complete runs).** The same for the whole time interval, including the last step, which is cut or stretched by up to one
percent to meet the end time: for implicit Euler and BDF-2 and any number of steps of at most `1.99 ε³ / (σ L²)`, the free energy
never exceeds that of the initial concentration, provided `weight()` is exact in the last step (it is if reported as changed, or if
the last step has the configured size). -/
theorem C89_complete_run (p : CHCoef K) (M : Mesh K) (c w : ℕ → ℕ → K) (h : Spec.Fits M)
    (hs : 0 ≤ p.surfaceTension) (he : 0 < p.epsilon)
    (hL : p.diffusionLength ≠ 0) (ha : p.contactAngle = 0) (hj : ∀ e < M.S.nCell, ∀ q < M.S.nQ, 0 ≤ M.S.jxw e q)
    (hp : prm.Good) (hr : prm.StartInRange) (hb : prm.scheme = .bdf2 ∨ prm.scheme = .implicitEuler) (N : ℕ)
    (hend : ∀ n ≤ N, (clockAt prm n).atEnd = false)
    (hx : (clockAt prm (N + 1)).w = (clockAt prm N).exactWeight)
    (hstep : prm.stepStart * p.diffusionLength ^ 2 * p.surfaceTension ≤ 199 / 100 * p.epsilon ^ 3)
    (run : Run p M (fun n => clockWeights (clockAt prm n)) c w (N + 1)) :
    ∀ n ≤ N + 1, Spec.energy p M (c n) ≤ Spec.energy p M (c 0) := by
  have hτ : 0 < prm.stepStart := hp.start
  have hi := clock_inv prm hp hr hb N hend
  have hu : ∀ n < N, (clockWeights (clockAt prm n)).w = (Spec.uniform (decide (prm.scheme = .bdf2)) prm.stepStart n).1 ∧
      (clockWeights (clockAt prm n)).wOld = (Spec.uniform (decide (prm.scheme = .bdf2)) prm.stepStart n).2.1 ∧
      (clockWeights (clockAt prm n)).oo = (Spec.uniform (decide (prm.scheme = .bdf2)) prm.stepStart n).2.2 := by
    intro n hn
    exact weight_uniform prm hp hb n _ (hi n hn.le) ((hi (n + 1) hn).cur)
  obtain ⟨hCpos, hCle, hcases⟩ := weight_last prm hp hb N _ (hi N le_rfl) (hend N le_rfl) hx
  obtain ⟨C, hC⟩ : ∃ C, C = (clockAt prm N).next.cur := ⟨_, rfl⟩
  obtain ⟨τ, hτdef⟩ : ∃ τ, τ = prm.stepStart := ⟨_, rfl⟩
  rw [← hC] at hCpos hCle hcases
  rw [← hτdef] at hCle hcases hu hτ hstep
  -- weights of the last step in terms of the ratio of the step sizes
  have hq : 0 < 1 / τ := by positivity
  have hlast : 0 ≤ (clockWeights (clockAt prm N)).oo ∧ (clockWeights (clockAt prm N)).oo ≤ 503 / 1000 * (1 / τ) ∧
      0 < (clockWeights (clockAt prm N)).w ∧ 99 / 100 * (1 / τ) + (clockWeights (clockAt prm N)).oo / 2 ≤ (clockWeights (clockAt prm N)).w ∧
      (clockWeights (clockAt prm N)).w + (clockWeights (clockAt prm N)).wOld + (clockWeights (clockAt prm N)).oo = 0 := by
    rcases hcases with ⟨h1, h2, h3⟩ | ⟨-, h1, h2, h3⟩
    · rw [h1, h2, h3]
      refine ⟨le_rfl, by positivity, by positivity, ?_, by ring⟩
      rw [zero_div, add_zero, mul_one_div, div_le_div_iff₀ hτ hCpos]
      linarith
    · rw [h1, h2, h3]
      have hs1 : 0 < C + τ := by positivity
      have e1 : C / (τ * (C + τ)) ≤ 503 / 1000 * (1 / τ) := by
        rw [mul_one_div, div_le_div_iff₀ (by positivity) hτ]
        nlinarith
      refine ⟨by positivity, e1, by positivity, ?_, ?_⟩
      · have e2 : 14 / 10 * (1 / τ) ≤ (2 * C + τ) / (C * (C + τ)) := by
          rw [mul_one_div, div_le_div_iff₀ hτ (by positivity)]
          nlinarith [mul_nonneg hCpos.le (sub_nonneg.2 hCle), mul_nonneg hτ.le (sub_nonneg.2 hCle), mul_pos hτ hτ, mul_pos hCpos hτ]
        linarith
      · field_simp; ring
  -- the weights of the step after the last one do not matter
  set W' : ℕ → Weights K := fun n => if n < N + 1 then clockWeights (clockAt prm n) else ⟨0, 0, 0, false⟩ with hW'
  have hW : ∀ n < N + 1, W' n = clockWeights (clockAt prm n) := fun n hn => by rw [hW']; exact if_pos hn
  have hWN : ∀ n, ¬ n < N + 1 → (W' n).oo = 0 := by
    intro n hn; rw [hW']; dsimp only; rw [if_neg hn]; rfl
  have a1 : 1 / (2 * τ) = 1 / 2 * (1 / τ) := by field_simp
  have a2 : 3 / (2 * τ) = 3 / 2 * (1 / τ) := by field_simp
  have hoo : ∀ n, 0 ≤ (W' n).oo ∧ (W' n).oo ≤ 503 / 1000 * (1 / τ) := by
    intro n
    rcases Nat.lt_trichotomy n N with hn | rfl | hn
    · rw [hW n (by omega), (hu n hn).2.2]
      unfold Spec.uniform
      split_ifs
      · exact ⟨by positivity, by dsimp only; rw [a1]; linarith⟩
      · exact ⟨le_refl _, by positivity⟩
    · rw [hW n (by omega)]; exact ⟨hlast.1, hlast.2.1⟩
    · rw [hWN n (by omega)]
      exact ⟨le_refl _, by positivity⟩
  have hoo0 : (W' 0).oo = 0 := by
    rw [hW 0 (by omega)]
    by_cases hn : 0 < N
    · rw [(hu 0 hn).2.2]; simp [Spec.uniform]
    · obtain rfl : N = 0 := by omega
      rcases hcases with ⟨h1, -⟩ | ⟨h1, -⟩
      · exact h1
      · exact absurd h1 (lt_irrefl _)
  refine C89_run_energy_bounded p M W' c w h hs he hL ha hj (N + 1) hoo0 ?_ (fun n _ => (hoo n).1) ?_ ?_ ?_
  · intro n hn
    rw [hW n hn]
    rcases Nat.lt_or_ge n N with h1 | h1
    · rw [(hu n h1).1]
      unfold Spec.uniform
      split_ifs <;> positivity
    · obtain rfl : n = N := by omega
      exact hlast.2.2.1
  · intro n hn
    rw [hW n hn]
    rcases Nat.lt_or_ge n N with h1 | h1
    · rw [(hu n h1).1, (hu n h1).2.1, (hu n h1).2.2]
      unfold Spec.uniform
      split_ifs
      · field_simp; ring
      · dsimp only; ring
    · obtain rfl : n = N := by omega
      exact hlast.2.2.2.2
  · intro n hn
    have h3 : 8 / 3 * p.epsilon ^ 3 * (597 / 800 * (1 / τ)) ≤
        8 / 3 * p.epsilon ^ 3 * ((W' n).w - ((W' n).oo + (W' (n + 1)).oo) / 2) := by
      refine mul_le_mul_of_nonneg_left ?_ (by positivity)
      have h1 := (hoo (n + 1)).2
      rw [hW n hn]
      rcases Nat.lt_or_ge n N with h2 | h2
      · rw [(hu n h2).1, (hu n h2).2.2]
        unfold Spec.uniform
        split_ifs
        · dsimp only; rw [a1, a2]; linarith
        · dsimp only; linarith
      · obtain rfl : n = N := by omega
        rw [hWN (n + 1) (by omega)]
        have := hlast.2.2.2.1
        linarith
    refine le_trans ?_ h3
    have : 8 / 3 * p.epsilon ^ 3 * (597 / 800 * (1 / τ)) = 199 / 100 * p.epsilon ^ 3 / τ := by field_simp; ring
    rw [this, le_div_iff₀ hτ]
    linarith
  · exact ⟨fun n hn k hk => by rw [hW n hn]; exact run.res0 n hn k hk, fun n hn k hk => by rw [hW n hn]; exact run.res1 n hn k hk,
      run.incr, run.incrW, run.pot, run.wallC⟩

end Clock

/-! Non-vacuity: one linear element with two quadrature points, an implicit Euler step followed by a BDF-2 step of size `1/229`;
the concentration profile flattens from `403/229` over `1` to `1/2` and the energy decreases in both steps. -/

def exMesh2 : Mesh ℚ where
  S := { dim := 1, nDof := 2, nCell := 1, nQ := 2, val := fun i _ q => if i = q then 3 / 4 else 1 / 4,
         grad := fun i _ _ _ => if i = 0 then -1 else 1, jxw := fun _ _ => 1 / 2 }
  C := ⟨fun _ => none⟩
  Cw := ⟨fun _ => none⟩
  nFaceDof := 1
  nFaceQ := 1
  faces := [⟨[1], [1]⟩]
  faceMatrix := fun _ _ => 1

theorem exMesh2_fits : Spec.Fits exMesh2 where
  closed := by intro i c hi; cases hi
  closedW := by intro i c hi; cases hi
  faceDofs := by decide
  faceQs := by intro F hF; rw [List.mem_singleton.1 hF]; rfl
  pos := by decide
  inRange := by decide

def exClock : Verif.Time.Params ℚ := ⟨.bdf2, 0, 1, 1 / 229, 1, 1 / 1000⟩

def exC (n i : ℕ) : ℚ :=
  (if i = 0 then -1 else 1) * (if n = 0 then 403 / 229 else if n = 1 then 1 else 1 / 2)

def exW (n i : ℕ) : ℚ := (if i = 0 then -1 else 1) * (if n = 1 then 87 / 8 else 339 / 64)

theorem exRun : Run exCoef exMesh2 (fun n => clockWeights (clockAt exClock n)) exC exW 2 where
  res0 := by decide +kernel
  res1 := by decide +kernel
  incr := by intro n _ i _; rfl
  incrW := by intro n _ i _; rfl
  pot := by intro n _ i _; rfl
  wallC := by intro n _ F _ j _; rfl

example : (∀ n ≤ 2, Spec.energy exCoef exMesh2 (exC n) ≤ Spec.energy exCoef exMesh2 (exC 0)) ∧
    Spec.energy exCoef exMesh2 (exC 2) < Spec.energy exCoef exMesh2 (exC 1) ∧
    Spec.energy exCoef exMesh2 (exC 1) < Spec.energy exCoef exMesh2 (exC 0) ∧
    (clockWeights (clockAt exClock 1)).two = true := by
  refine ⟨?_, by decide +kernel, by decide +kernel, by decide +kernel⟩
  exact C89_constant_step_run exClock exCoef exMesh2 exC exW exMesh2_fits (by decide +kernel) (by decide +kernel)
    (by decide +kernel) rfl (by decide +kernel) ⟨by decide +kernel, by decide +kernel, by decide +kernel, by decide +kernel⟩
    ⟨by decide +kernel, by decide +kernel⟩ (Or.inl rfl) 2 (by decide +kernel) (by decide +kernel) exRun

/-! Non-vacuity of `C89_complete_run`: a step of size `16/1713` and a last step of half the size. -/

def exClock2 : Verif.Time.Params ℚ := ⟨.bdf2, 0, 24 / 1713, 16 / 1713, 1, 1 / 1000⟩

def exC2 (n i : ℕ) : ℚ :=
  (if i = 0 then -1 else 1) * (if n = 0 then 1499 / 571 else if n = 1 then 1 else 1 / 2)

theorem exRun2 : Run exCoef exMesh2 (fun n => clockWeights (clockAt exClock2 n)) exC2 exW 2 where
  res0 := by decide +kernel
  res1 := by decide +kernel
  incr := by intro n _ i _; rfl
  incrW := by intro n _ i _; rfl
  pot := by intro n _ i _; rfl
  wallC := by intro n _ F _ j _; rfl

example : (∀ n ≤ 2, Spec.energy exCoef exMesh2 (exC2 n) ≤ Spec.energy exCoef exMesh2 (exC2 0)) ∧
    (clockAt exClock2 2).atEnd = true ∧ (clockAt exClock2 2).cur = 1 / 2 * exClock2.stepStart := by
  refine ⟨?_, by decide +kernel, by decide +kernel⟩
  exact C89_complete_run exClock2 exCoef exMesh2 exC2 exW exMesh2_fits (by decide +kernel) (by decide +kernel)
    (by decide +kernel) rfl (by decide +kernel) ⟨by decide +kernel, by decide +kernel, by decide +kernel, by decide +kernel⟩
    ⟨by decide +kernel, by decide +kernel⟩ (Or.inl rfl) 1 (by decide +kernel) (by decide +kernel) (by decide +kernel) exRun2

end Verif.PhaseField.Energy
