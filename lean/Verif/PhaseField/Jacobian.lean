import Verif.Time.Consistency
import Mathlib.Algebra.BigOperators.Ring.Finset
import Mathlib.Algebra.BigOperators.Field
import Mathlib.Algebra.Field.Rat
import Mathlib.Tactic.Ring
import Mathlib.Tactic.LinearCombination

/-!
# C45, C53: Cahn-Hilliard residual, product and mass conservation
(source/phase_field_local.cc)
-/

namespace Verif.PhaseField

open Finset

variable {K : Type*} [Field K]

/-- Coefficients of `local_residual`/`local_vmult`, source/phase_field_local.cc:148-152, 162-166 and
the time weights; `twoStep` is the condition of line 207-208. -/
structure CHCoef (K : Type*) where
  dim : ℕ
  weight : K
  weightOld : K
  weightOldOld : K
  twoStep : Bool
  diffusionLength : K
  surfaceTension : K
  epsilon : K
  contactAngle : K

variable (p : CHCoef K)

/-- `inv_time_weight`. -/
def CHCoef.inv : K := 1 / p.weight
/-- `factor_mobility`. -/
def CHCoef.mobility : K := p.inv * p.diffusionLength * p.diffusionLength
/-- `factor_2`. -/
def CHCoef.factor2 : K := 3 / 2 * p.surfaceTension / p.epsilon
/-- `factor_4`. -/
def CHCoef.factor4 : K := 3 / 4 * p.surfaceTension * p.epsilon

/-- Values at a quadrature point: concentration, chemical potential and gradients. -/
structure CHIn (K : Type*) where
  c : K
  gradC : ℕ → K
  w : K
  gradW : ℕ → K

/-- Submitted values and gradients for the two test functions. -/
structure CHOut (K : Type*) where
  cVal : K
  cGrad : ℕ → K
  wVal : K
  wGrad : ℕ → K

/-- Scalar product of two `Tensor<1,dim>`. -/
def sprod (n : ℕ) (a b : ℕ → K) : K := ∑ i ∈ range n, a i * b i

/-- Quadrature loop of `local_residual`, lines 190-218. -/
def chResidual (old oldOld : K) (velocity : ℕ → K) (x : CHIn K) : CHOut K :=
  let val := x.c
  let val := val + p.weightOld * p.inv * old
  let val := if p.twoStep then val + p.weightOldOld * p.inv * oldOld else val
  let val := val + sprod p.dim x.gradC velocity * p.inv
  ⟨val, fun i => p.mobility * x.gradW i,
   x.w - p.factor2 * x.c * (x.c * x.c - 1), fun i => -p.factor4 * x.gradC i⟩

/-- The stored data `evaluated_convection`, `evaluated_phi` (lines 201-202): velocity and
concentration. -/
def chStore (velocity : ℕ → K) (x : CHIn K) : (ℕ → K) × K := (velocity, x.c)

/-- Quadrature loop of `local_vmult`, lines 266-283. -/
def chProduct (s : (ℕ → K) × K) (x : CHIn K) : CHOut K :=
  let val := x.c
  let val := val + sprod p.dim x.gradC s.1 * p.inv
  ⟨val, fun i => p.mobility * x.gradW i,
   x.w - p.factor2 * x.c * (3 * s.2 * s.2 - 1), fun i => -p.factor4 * x.gradC i⟩

/-- `apply_contact_bc<1>` at a face quadrature point (without JxW), lines 357-361; the evaluated
concentration is stored. -/
def contactResidual (c : K) : K := p.contactAngle * p.surfaceTension * (3 / 4) * (c * c - 1)

/-- `apply_contact_bc<0>`, lines 363-365. -/
def contactProduct (stored d : K) : K := p.contactAngle * p.surfaceTension * (3 / 2) * d * stored

/-- Componentwise sum. -/
def CHIn.add (x y : CHIn K) : CHIn K :=
  ⟨x.c + y.c, fun i => x.gradC i + y.gradC i, x.w + y.w, fun i => x.gradW i + y.gradW i⟩

theorem sprod_add (n : ℕ) (a b v : ℕ → K) :
    sprod n (fun i => a i + b i) v = sprod n a v + sprod n b v := by
  unfold sprod; rw [← sum_add_distrib]; apply sum_congr rfl; intro i _; ring

/-- **C45 (weak form).** Multiplied with the time weight, the first residual component tested with `(φ, ∇φ)` is the weak form
of `∂_t c + u·∇c = L² Δw` (with `weight·c + weight_old·c_old + ...` for the time derivative), and the second one tested with
`(ψ, ∇ψ)` that of `w = (3σ/2ε)(c³ - c) - (3σε/4) Δc`. -/
theorem C45_weak_form [CharZero K] (hw : p.weight ≠ 0) (old oldOld : K) (velocity : ℕ → K) (x t : CHIn K) :
    let R := chResidual p old oldOld velocity x
    p.weight * (R.cVal * t.c + sprod p.dim R.cGrad t.gradC) =
      (p.weight * x.c + p.weightOld * old + (if p.twoStep then p.weightOldOld * oldOld else 0)
        + ∑ i ∈ range p.dim, velocity i * x.gradC i) * t.c
      + p.diffusionLength ^ 2 * ∑ i ∈ range p.dim, x.gradW i * t.gradC i ∧
    R.wVal * t.w + sprod p.dim R.wGrad t.gradW =
      (x.w - 3 * p.surfaceTension / (2 * p.epsilon) * (x.c ^ 3 - x.c)) * t.w
      - 3 * p.surfaceTension * p.epsilon / 4 * ∑ i ∈ range p.dim, x.gradC i * t.gradW i := by
  intro R
  have hs : ∀ (a : K) (f g : ℕ → K), sprod p.dim (fun i => a * f i) g = a * ∑ i ∈ range p.dim, f i * g i := by
    intro a f g
    unfold sprod
    rw [mul_sum]
    exact sum_congr rfl fun i _ => by ring
  have hc : sprod p.dim x.gradC velocity = ∑ i ∈ range p.dim, velocity i * x.gradC i :=
    sum_congr rfl fun i _ => by ring
  have hinv : p.weight * p.inv = 1 := by unfold CHCoef.inv; field_simp
  constructor
  · simp only [R, chResidual, hs, hc, CHCoef.mobility]
    split_ifs
    · linear_combination (t.c * (p.weightOld * old + p.weightOldOld * oldOld + (∑ i ∈ range p.dim, velocity i * x.gradC i)) +
        p.diffusionLength ^ 2 * ∑ i ∈ range p.dim, x.gradW i * t.gradC i) * hinv
    · linear_combination (t.c * (p.weightOld * old + (∑ i ∈ range p.dim, velocity i * x.gradC i)) +
        p.diffusionLength ^ 2 * ∑ i ∈ range p.dim, x.gradW i * t.gradC i) * hinv
  · simp only [R, chResidual, hs, CHCoef.factor2, CHCoef.factor4]
    ring

/-- **C45 (volume terms).** The difference of residuals is the product plus a remainder that only
occurs in the double well term and is of second order in the increment of the concentration. -/
theorem C45_product_is_jacobian (old oldOld : K) (velocity : ℕ → K) (x d : CHIn K) :
    let R := chResidual p old oldOld velocity
    let J := chProduct p (chStore velocity x) d
    (R (x.add d)).cVal - (R x).cVal = J.cVal ∧
    (∀ i, (R (x.add d)).cGrad i - (R x).cGrad i = J.cGrad i) ∧
    (R (x.add d)).wVal - (R x).wVal
      = J.wVal - p.factor2 * (3 * x.c + d.c) * d.c ^ 2 ∧
    (∀ i, (R (x.add d)).wGrad i - (R x).wGrad i = J.wGrad i) := by
  refine ⟨?_, ?_, ?_, ?_⟩
  · simp only [chResidual, chProduct, chStore, CHIn.add, sprod_add]
    split <;> ring
  · intro i; simp only [chResidual, chProduct, chStore, CHIn.add]; ring
  · simp only [chResidual, chProduct, chStore, CHIn.add]; ring
  · intro i; simp only [chResidual, chProduct, chStore, CHIn.add]; ring

/-- **C45 (contact faces).** -/
theorem C45_contact_is_jacobian (h2 : (2 : K) ≠ 0) (c d : K) :
    contactResidual p (c + d) - contactResidual p c
      = contactProduct p c d + 3 / 4 * p.contactAngle * p.surfaceTension * d ^ 2 := by
  simp only [contactResidual, contactProduct]
  have : (4 : K) = 2 * 2 := by norm_num
  rw [this]
  field_simp
  ring

/-! ## Assembled system -/

/-- Spaces, quadrature points of cells and contact faces and additive evaluation. -/
structure CHDisc (K X Q F : Type*) [Field K] [AddCommGroup X] where
  pts : Finset Q
  jxw : Q → K
  at_ : X → Q → CHIn K
  at_add : ∀ x y q, at_ (x + y) q = (at_ x q).add (at_ y q)
  faces : Finset F
  faceJxw : F → K
  faceC : X → F → K
  faceC_add : ∀ x y f, faceC (x + y) f = faceC x f + faceC y f
  /-- trace of the test function of the second equation -/
  faceW : X → F → K

variable {X Q F : Type*} [AddCommGroup X] (D : CHDisc K X Q F)

/-- Testing of the four submitted fields. -/
def chTested (n : ℕ) (o : CHOut K) (t : CHIn K) : K :=
  o.cVal * t.c + sprod n o.cGrad t.gradC + (o.wVal * t.w + sprod n o.wGrad t.gradW)

/-- `compute_residual` (lines 500-522): entry of `system_rhs` for test function `t` at `x`; the contact
terms go to the second block. -/
def chSystemRhs (old oldOld : X) (vel : Q → ℕ → K) (x t : X) : K :=
  ∑ q ∈ D.pts, D.jxw q * chTested p.dim
      (chResidual p (D.at_ old q).c (D.at_ oldOld q).c (vel q) (D.at_ x q)) (D.at_ t q)
  + ∑ f ∈ D.faces, contactResidual p (D.faceC x f) * D.faceJxw f * D.faceW t f

/-- `vmult` (lines 526-570) linearized at `x`. -/
def chVmult (vel : Q → ℕ → K) (x d t : X) : K :=
  ∑ q ∈ D.pts, D.jxw q * chTested p.dim
      (chProduct p (chStore (vel q) (D.at_ x q)) (D.at_ d q)) (D.at_ t q)
  + ∑ f ∈ D.faces, contactProduct p (D.faceC x f) (D.faceC d f) * D.faceJxw f * D.faceW t f

/-- **C45 (Newton step).** If the linear system `vmult(d) = residual(x)` is solved exactly and
`solution -= d` is performed (source/phase_field.cc:443-454), the new residual consists of the
second-order terms only. -/
theorem C45_newton_step (h2 : (2 : K) ≠ 0) (old oldOld : X) (vel : Q → ℕ → K) (x d t : X)
    (hsolve : chVmult p D vel x d t = chSystemRhs p D old oldOld vel x t) :
    chSystemRhs p D old oldOld vel (x - d) t =
      - ∑ q ∈ D.pts, D.jxw q * (p.factor2 * (3 * (D.at_ x q).c - (D.at_ d q).c) * (D.at_ d q).c ^ 2
          * (D.at_ t q).w)
      + ∑ f ∈ D.faces, 3 / 4 * p.contactAngle * p.surfaceTension * D.faceC d f ^ 2
          * D.faceJxw f * D.faceW t f := by
  -- apply the pointwise theorem at `x - d` with increment `d`, and at `x`
  have sub_at : ∀ q, D.at_ x q = (D.at_ (x - d) q).add (D.at_ d q) := by
    intro q; rw [← D.at_add, sub_add_cancel]
  have sub_face : ∀ f, D.faceC x f = D.faceC (x - d) f + D.faceC d f := by
    intro f; rw [← D.faceC_add, sub_add_cancel]
  have key : ∀ q ∈ D.pts, D.jxw q * chTested p.dim
      (chResidual p (D.at_ old q).c (D.at_ oldOld q).c (vel q) (D.at_ (x - d) q)) (D.at_ t q)
      = D.jxw q * chTested p.dim
          (chResidual p (D.at_ old q).c (D.at_ oldOld q).c (vel q) (D.at_ x q)) (D.at_ t q)
        - D.jxw q * chTested p.dim
          (chProduct p (chStore (vel q) (D.at_ x q)) (D.at_ d q)) (D.at_ t q)
        - D.jxw q * (p.factor2 * (3 * (D.at_ x q).c - (D.at_ d q).c) * (D.at_ d q).c ^ 2
          * (D.at_ t q).w) := by
    intro q _
    obtain ⟨a1, a2, -, a4⟩ := C45_product_is_jacobian p (D.at_ old q).c (D.at_ oldOld q).c (vel q)
      (D.at_ (x - d) q) (D.at_ d q)
    rw [← sub_at q] at a1 a2 a4
    have hc : (D.at_ x q).c = (D.at_ (x - d) q).c + (D.at_ d q).c := by rw [sub_at q]; rfl
    have hw : (D.at_ x q).w = (D.at_ (x - d) q).w + (D.at_ d q).w := by rw [sub_at q]; rfl
    have e1 : (chResidual p (D.at_ old q).c (D.at_ oldOld q).c (vel q) (D.at_ (x - d) q)).cVal
        = (chResidual p (D.at_ old q).c (D.at_ oldOld q).c (vel q) (D.at_ x q)).cVal
          - (chProduct p (chStore (vel q) (D.at_ x q)) (D.at_ d q)).cVal := by
      have : (chProduct p (chStore (vel q) (D.at_ x q)) (D.at_ d q)).cVal
        = (chProduct p (chStore (vel q) (D.at_ (x - d) q)) (D.at_ d q)).cVal := rfl
      rw [this, ← a1]; ring
    have e2 : ∀ i, (chResidual p (D.at_ old q).c (D.at_ oldOld q).c (vel q) (D.at_ (x - d) q)).cGrad i
        = (chResidual p (D.at_ old q).c (D.at_ oldOld q).c (vel q) (D.at_ x q)).cGrad i
          - (chProduct p (chStore (vel q) (D.at_ x q)) (D.at_ d q)).cGrad i := by
      intro i
      have : (chProduct p (chStore (vel q) (D.at_ x q)) (D.at_ d q)).cGrad i
        = (chProduct p (chStore (vel q) (D.at_ (x - d) q)) (D.at_ d q)).cGrad i := rfl
      rw [this, ← a2 i]; ring
    have e4 : ∀ i, (chResidual p (D.at_ old q).c (D.at_ oldOld q).c (vel q) (D.at_ (x - d) q)).wGrad i
        = (chResidual p (D.at_ old q).c (D.at_ oldOld q).c (vel q) (D.at_ x q)).wGrad i
          - (chProduct p (chStore (vel q) (D.at_ x q)) (D.at_ d q)).wGrad i := by
      intro i
      have : (chProduct p (chStore (vel q) (D.at_ x q)) (D.at_ d q)).wGrad i
        = (chProduct p (chStore (vel q) (D.at_ (x - d) q)) (D.at_ d q)).wGrad i := rfl
      rw [this, ← a4 i]; ring
    have e3 : (chResidual p (D.at_ old q).c (D.at_ oldOld q).c (vel q) (D.at_ (x - d) q)).wVal
        = (chResidual p (D.at_ old q).c (D.at_ oldOld q).c (vel q) (D.at_ x q)).wVal
          - (chProduct p (chStore (vel q) (D.at_ x q)) (D.at_ d q)).wVal
          - p.factor2 * (3 * (D.at_ x q).c - (D.at_ d q).c) * (D.at_ d q).c ^ 2 := by
      have hc' : (D.at_ (x - d) q).c = (D.at_ x q).c - (D.at_ d q).c := by rw [hc]; ring
      have hw' : (D.at_ (x - d) q).w = (D.at_ x q).w - (D.at_ d q).w := by rw [hw]; ring
      simp only [chResidual, chProduct, chStore, hc', hw']; ring
    have s2 : sprod p.dim (chResidual p (D.at_ old q).c (D.at_ oldOld q).c (vel q) (D.at_ (x - d) q)).cGrad
          (D.at_ t q).gradC
        = sprod p.dim (chResidual p (D.at_ old q).c (D.at_ oldOld q).c (vel q) (D.at_ x q)).cGrad
          (D.at_ t q).gradC
          - sprod p.dim (chProduct p (chStore (vel q) (D.at_ x q)) (D.at_ d q)).cGrad (D.at_ t q).gradC := by
      unfold sprod; rw [← sum_sub_distrib]; apply sum_congr rfl; intro i _; rw [e2 i]; ring
    have s4 : sprod p.dim (chResidual p (D.at_ old q).c (D.at_ oldOld q).c (vel q) (D.at_ (x - d) q)).wGrad
          (D.at_ t q).gradW
        = sprod p.dim (chResidual p (D.at_ old q).c (D.at_ oldOld q).c (vel q) (D.at_ x q)).wGrad
          (D.at_ t q).gradW
          - sprod p.dim (chProduct p (chStore (vel q) (D.at_ x q)) (D.at_ d q)).wGrad (D.at_ t q).gradW := by
      unfold sprod; rw [← sum_sub_distrib]; apply sum_congr rfl; intro i _; rw [e4 i]; ring
    simp only [chTested, e1, e3, s2, s4]; ring
  have keyF : ∀ f ∈ D.faces, contactResidual p (D.faceC (x - d) f) * D.faceJxw f * D.faceW t f
      = contactResidual p (D.faceC x f) * D.faceJxw f * D.faceW t f
        - contactProduct p (D.faceC x f) (D.faceC d f) * D.faceJxw f * D.faceW t f
        + 3 / 4 * p.contactAngle * p.surfaceTension * D.faceC d f ^ 2 * D.faceJxw f * D.faceW t f := by
    intro f _
    have := C45_contact_is_jacobian p h2 (D.faceC x f) (-D.faceC d f)
    have h3 : D.faceC (x - d) f = D.faceC x f + -D.faceC d f := by rw [sub_face f]; ring
    rw [h3, eq_add_of_sub_eq this]
    simp only [contactProduct]; ring
  unfold chSystemRhs
  rw [sum_congr rfl key, sum_congr rfl keyF]
  simp only [sum_sub_distrib, sum_add_distrib]
  unfold chVmult chSystemRhs at hsolve
  linear_combination -hsolve

/-- Non-vacuity: one quadrature point and face, exact Newton increment, non-trivial remainder. -/
example : ∃ (p : CHCoef ℚ) (D : CHDisc ℚ ℚ Unit Unit) (vel : Unit → ℕ → ℚ),
    chVmult p D vel 1 (1/4) 1 = chSystemRhs p D 0 0 vel 1 1 ∧
    chSystemRhs p D 0 0 vel (1 - 1/4) 1 ≠ 0 := by
  refine ⟨⟨1, 1, -1, 0, false, 1, 1, 1, 1⟩,
    ⟨{()}, fun _ => 1, fun x _ => ⟨x, fun _ => 0, 0, fun _ => 0⟩, ?_, {()}, fun _ => 2, fun x _ => x,
      fun _ _ _ => rfl, fun _ _ => 1⟩, fun _ _ => 0, ?_, ?_⟩
  · intro x y q; simp [CHIn.add]
  · decide +kernel
  · decide +kernel

/-! ## C53: conservation of the total concentration -/

section Balance

/-- The total of the concentration. -/
def total (x : X) : K := ∑ q ∈ D.pts, D.jxw q * (D.at_ x q).c

/-- The test function `1` for the first equation, `0` for the second. -/
def IsConstantTest (t : X) : Prop :=
  (∀ q, (D.at_ t q).c = 1 ∧ (∀ i, (D.at_ t q).gradC i = 0) ∧ (D.at_ t q).w = 0 ∧
    (∀ i, (D.at_ t q).gradW i = 0)) ∧ ∀ f, D.faceW t f = 0

/-- **C53 (balance).** For every solution of the discrete equations, if the constant is among the test
functions and the discrete convection term has zero integral, the weighted totals of the three time
levels add up to zero. -/
theorem C53_total_balance (hw : p.weight ≠ 0) (old oldOld : X) (vel : Q → ℕ → K) (x t : X)
    (ht : IsConstantTest D t) (hsol : chSystemRhs p D old oldOld vel x t = 0)
    (hconv : ∑ q ∈ D.pts, D.jxw q * sprod p.dim (D.at_ x q).gradC (vel q) = 0) :
    p.weight * total D x + p.weightOld * total D old
      + (if p.twoStep then p.weightOldOld * total D oldOld else 0) = 0 := by
  obtain ⟨hq, hf⟩ := ht
  have e : chSystemRhs p D old oldOld vel x t
      = total D x + p.weightOld * p.inv * total D old
        + (if p.twoStep then p.weightOldOld * p.inv * total D oldOld else 0)
        + p.inv * ∑ q ∈ D.pts, D.jxw q * sprod p.dim (D.at_ x q).gradC (vel q) := by
    unfold chSystemRhs
    have z : ∑ f ∈ D.faces, contactResidual p (D.faceC x f) * D.faceJxw f * D.faceW t f = 0 :=
      sum_eq_zero fun f _ => by rw [hf f, mul_zero]
    rw [z, add_zero]
    have : ∀ q ∈ D.pts, D.jxw q * chTested p.dim
        (chResidual p (D.at_ old q).c (D.at_ oldOld q).c (vel q) (D.at_ x q)) (D.at_ t q)
        = D.jxw q * (D.at_ x q).c + p.weightOld * p.inv * (D.jxw q * (D.at_ old q).c)
          + (if p.twoStep then p.weightOldOld * p.inv * (D.jxw q * (D.at_ oldOld q).c) else 0)
          + p.inv * (D.jxw q * sprod p.dim (D.at_ x q).gradC (vel q)) := by
      intro q _
      obtain ⟨h1, h2, h3, h4⟩ := hq q
      simp only [chTested, h1, h3, sprod, h2, h4, mul_zero, sum_const_zero, chResidual]
      split <;> ring
    rw [sum_congr rfl this]
    simp only [sum_add_distrib, total, mul_sum]
    cases p.twoStep <;> simp
  rw [hsol, hconv, mul_zero, add_zero] at e
  have hi : p.weight * p.inv = 1 := by unfold CHCoef.inv; field_simp
  by_cases ht2 : p.twoStep = true
  · rw [if_pos ht2] at e ⊢
    linear_combination (-p.weight) * e
      - (p.weightOld * total D old + p.weightOldOld * total D oldOld) * hi
  · rw [if_neg ht2] at e ⊢
    linear_combination (-p.weight) * e - (p.weightOld * total D old) * hi

end Balance

section Clock

open Verif.Time

variable {K : Type*} [Field K] [LinearOrder K] [IsStrictOrderedRing K]
variable {X Q F : Type*} [AddCommGroup X] (D : CHDisc K X Q F)

/-- The coefficients in the step after clock state `t`, as read from the clock by `local_residual`. -/
def CHCoef.atStep (p : CHCoef K) (t : TS K) : CHCoef K :=
  { p with weight := t.next.w, weightOld := t.next.wOld, weightOldOld := t.next.wOldOld,
           twoStep := decide (t.scheme = .bdf2 ∧ 1 < t.next.stepNo) }

/-- **C53 (conservation).** In every time step of every history of step sizes: if the old levels have
total `T`, so has the new one, up to the relative staleness tolerance of `weight()`, and exactly if it
is the exact weight of the step sizes (`C05_constant_steps_exact`). -/
theorem C53_total_conserved (prm : Params K) (hp : prm.Good) (clock : TS K)
    (hr : Reachable prm clock) (he : clock.atEnd = false) (p : CHCoef K) (old oldOld : X)
    (vel : Q → ℕ → K) (x t : X) (T : K) (hold : total D old = T)
    (holdold : clock.scheme = .bdf2 ∧ 1 < clock.next.stepNo → total D oldOld = T)
    (ht : IsConstantTest D t) (hsol : chSystemRhs (p.atStep clock) D old oldOld vel x t = 0)
    (hconv : ∑ q ∈ D.pts, D.jxw q * sprod p.dim (D.at_ x q).gradC (vel q) = 0) :
    |total D x - T| ≤ 1 / 10 ^ 11 * |T| ∧ (clock.next.w = clock.exactWeight → total D x = T) := by
  obtain ⟨hs, hpos, hclose, -⟩ := C05_weights_sum_zero prm hp clock hr he
  have hwpos : 0 < clock.next.w := by
    have := (abs_le.1 hclose).1
    norm_num at this
    linarith
  have hb := C53_total_balance (p.atStep clock) D hwpos.ne' old oldOld vel x t ht hsol hconv
  have hT : clock.next.w * total D x = clock.exactWeight * T := by
    simp only [CHCoef.atStep, decide_eq_true_eq] at hb
    by_cases hc : clock.scheme = .bdf2 ∧ 1 < clock.next.stepNo
    · rw [if_pos hc] at hb hs
      rw [hold, holdold hc] at hb
      linear_combination hb - T * hs
    · rw [if_neg hc] at hb hs
      rw [hold] at hb
      linear_combination hb - T * hs
  constructor
  · have e : total D x - T = (clock.exactWeight - clock.next.w) / clock.next.w * T := by
      field_simp
      linear_combination hT
    rw [e, abs_mul]
    refine mul_le_mul_of_nonneg_right ?_ (abs_nonneg T)
    rw [abs_div, abs_of_pos hwpos, abs_sub_comm, div_le_iff₀ hwpos]
    have := (abs_le.1 hclose).1
    norm_num at hclose this ⊢
    linarith
  · intro hch
    rw [hch] at hT
    exact mul_left_cancel₀ hpos.ne' hT

/-- **C53 (whole run).** In a run with the configured step size, before the end: if all steps solve the discrete equations, with
the two previous solutions as old levels (the second one is arbitrary in the first step), constants are test functions and the
convection has zero integral, then the total concentration of every step is the initial one, whatever the number of steps. -/
theorem C53_total_conserved_run (prm : Params K) (hp : prm.Good) (hmin : prm.stepMin ≤ prm.stepStart)
    (hmax : prm.stepStart ≤ prm.stepMax) (N : ℕ) (hend : (nexts (TS.ctor prm) N).atEnd = false) (p : CHCoef K)
    (vel : ℕ → Q → ℕ → K) (y oldOld : ℕ → X) (t : X) (hoo : ∀ n, oldOld (n + 1) = y n) (ht : IsConstantTest D t)
    (hsol : ∀ n < N, chSystemRhs (p.atStep (nexts (TS.ctor prm) n)) D (y n) (oldOld n) (vel n) (y (n + 1)) t = 0)
    (hconv : ∀ n < N, ∑ q ∈ D.pts, D.jxw q * sprod p.dim (D.at_ (y (n + 1)) q).gradC (vel n q) = 0) :
    ∀ n ≤ N, total D (y n) = total D (y 0) := by
  intro n
  induction n using Nat.strong_induction_on with
  | _ n ih =>
    intro hle
    match n with
    | 0 => rfl
    | n + 1 =>
      obtain ⟨e1, e2, e3, e4, e5⟩ := constant_run prm hp hmin hmax N hend n (by omega)
      refine (C53_total_conserved D prm hp _ e2 e3 p _ _ (vel n) _ t _ (ih n (by omega) (by omega)) (fun h => ?_) ht
        (hsol n (by omega)) (hconv n (by omega))).2 e5
      have h2 : 1 < (nexts (TS.ctor prm) n).stepNo + 1 := h.2
      rw [e4] at h2
      obtain ⟨k, rfl⟩ : ∃ k, n = k + 1 := ⟨n - 1, by omega⟩
      rw [hoo]
      exact ih k (by omega) (by omega)

end Clock

/-- Non-vacuity of the conservation theorem: one point, first implicit Euler step, concentration 3
everywhere; the test function is independent of the solution. -/
example : ∃ (D : CHDisc ℚ (ℚ × ℚ) Unit Unit) (prm : Verif.Time.Params ℚ) (p : CHCoef ℚ)
    (vel : Unit → ℕ → ℚ) (t x : ℚ × ℚ),
    prm.Good ∧ IsConstantTest D t ∧ total D x = 3 ∧
    chSystemRhs (p.atStep (Verif.Time.TS.ctor prm)) D x x vel x t = 0 := by
  refine ⟨⟨{()}, fun _ => 1, fun x _ => ⟨x.1, fun _ => 0, x.2, fun _ => 0⟩, ?_, {()}, fun _ => 2,
      fun x _ => x.1, fun _ _ _ => rfl, fun x _ => x.2⟩, ⟨.implicitEuler, 0, 10, 1/2, 1, 1/100⟩,
      ⟨1, 1, -1, 0, false, 1, 1, 1, 1⟩, fun _ _ => 0, (1, 0), (3, 5), ?_, ?_, ?_, ?_⟩
  · intro x y q; simp [CHIn.add]
  · exact ⟨by norm_num, by norm_num, by norm_num, by norm_num⟩
  · exact ⟨fun q => ⟨rfl, fun _ => rfl, rfl, fun _ => rfl⟩, fun _ => rfl⟩
  · decide +kernel
  · decide +kernel

end Verif.PhaseField
