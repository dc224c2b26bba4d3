import Verif.LevelSet.NormalCurvature
import Verif.LevelSet.Advect
import Verif.LevelSet.Reinit
import Verif.LevelSet.ArtificialViscosity
import Verif.Time.Units
import Mathlib.Analysis.Real.Sqrt

/-!
# C126: units of the level set

Transport (source/level_set_okz_advance_concentration.cc:220-262, 368-386, 403-480, 506-652, model `LevelSet.Advect`) and a pseudo-time step
of the reinitialization (source/level_set_okz_reinitialization.cc:52-232, model `LevelSet.Reinit`) do not depend on the units if their
coefficients are converted. Three coefficients are not converted by the code, because they mix units: the artificial viscosity compares a
residual (one over time) with velocity times length (source/level_set_okz_advance_concentration.cc:337-370), the pseudo-time step compares
one over length with one over time (source/level_set_okz_reinitialization.cc:65-67), and the curvature compares the length of
the gradient of the level set function at a node with the fixed number 0.01 (source/level_set_okz_compute_curvature.cc:148-163 and 214-262).
The level set function has no unit, its gradient the unit one over length: if lengths are `L` times as large numbers, gradients are
divided by `L`.
-/

set_option linter.unusedSectionVars false

namespace Verif.LevelSet
open Finset Verif.FE Verif.Time

variable {K : Type*} [Field K] [LinearOrder K] [IsStrictOrderedRing K]

/-! ## Specification: converted data -/

namespace Spec

/-- The mesh in another unit of length: gradients are divided by `L`, quadrature weights multiplied by the unit of volume `V`. -/
def unitSpace (V L : K) (S : Space K) : Space K :=
  { S with grad := fun i c q d => S.grad i c q d / L, jxw := fun c q => V * S.jxw c q }

/-- A boundary face: normals have no unit, areas the unit `V / L`. -/
def unitFace (V L : K) (f : BFace K) : BFace K :=
  { f with grad := fun i q d => f.grad i q d / L, jxw := fun q => V / L * f.jxw q }

/-- The transport problem; the diagonal of the matrix has the unit volume over time. -/
def unitAdvect (V L T : K) (D : Advect K) : Advect K :=
  { D with
    S := unitSpace V L D.S
    diag := fun k => V / T * D.diag k
    faces := D.faces.map (unitFace V L)
    facesDefault := D.facesDefault.map (unitFace V L) }

/-- A solver whose result does not change if both sides of the system are multiplied by a number. -/
def ScaleFree (solve : ((ℕ → K) → ℕ → K) → (ℕ → K) → ℕ → K) : Prop :=
  ∀ s : K, s ≠ 0 → ∀ (A : (ℕ → K) → ℕ → K) (b : ℕ → K), solve (fun x k => s * A x k) (fun k => s * b k) = solve A b

/-- A pseudo-time step of the reinitialization: the pseudo-time has the unit of length. -/
def unitReinit (V L : K) (R : Reinit K) : Reinit K :=
  { R with
    S := unitSpace V L R.S
    diag := fun k => V / L * R.diag k
    dtauInv := R.dtauInv / L
    diffusion := fun c => L * R.diffusion c }

/-- What the artificial viscosity reads. -/
def unitVisc (L T : K) (p : ViscPoint K) : ViscPoint K :=
  { p with
    gradOld := fun d => p.gradOld d / L
    gradOldOld := fun d => p.gradOldOld d / L
    velOld := fun d => L / T * p.velOld d
    velOldOld := fun d => L / T * p.velOldOld d }

end Spec

open Spec

/-! ## Proofs -/

theorem unit_gradient (V L : K) (S : Space K) (x : ℕ → K) (c q d : ℕ) :
    (unitSpace V L S).gradient x c q d = S.gradient x c q d / L := by
  unfold Space.gradient
  rw [sum_div]
  exact sum_congr rfl fun i _ => by simp only [unitSpace]; ring

theorem unit_test (V L a : K) (hL : L ≠ 0) (S : Space K) (s : ℕ → ℕ → K) (g : ℕ → ℕ → ℕ → K) (i : ℕ) :
    (unitSpace V L S).test (fun c q => a * s c q) (fun c q d => a * L * g c q d) i = V * a * S.test s g i := by
  unfold Space.test
  rw [← S.integral_smul]
  unfold Space.integral
  refine sum_congr rfl fun c _ => sum_congr rfl fun q _ => ?_
  have : ∑ d ∈ range S.dim, a * L * g c q d * (S.grad i c q d / L) = a * ∑ d ∈ range S.dim, g c q d * S.grad i c q d := by
    rw [mul_sum]
    exact sum_congr rfl fun d _ => by field_simp
  change (a * s c q * S.val i c q + ∑ d ∈ range S.dim, a * L * g c q d * (S.grad i c q d / L)) * (V * S.jxw c q) = _
  rw [this]
  ring

theorem unit_faceTerm (V L T : K) (hL : L ≠ 0) (D : Advect K) (fs : List (BFace K)) (ν x : ℕ → K) (i : ℕ) :
    (unitAdvect V L T D).faceTerm (fs.map (unitFace V L)) (fun c => L ^ 2 / T * ν c) x i = V / T * D.faceTerm fs ν x i := by
  unfold Advect.faceTerm
  rw [List.map_map, ← List.sum_map_mul_left]
  congr 1
  refine List.map_congr_left fun f _ => ?_
  simp only [Function.comp]
  change (if D.symmetry f.bid = true then 0 else ∑ q ∈ range f.nQ, (∑ d ∈ range D.S.dim, f.val i q * f.normal q d * (L ^ 2 / T * ν f.cell) *
    (unitFace V L f).gradient D.S.nDof x q d) * (V / L * f.jxw q)) = _
  split_ifs
  · rw [mul_zero]
  · rw [mul_sum]
    refine sum_congr rfl fun q _ => ?_
    have hg : ∀ d, (unitFace V L f).gradient D.S.nDof x q d = f.gradient D.S.nDof x q d / L := by
      intro d
      unfold BFace.gradient
      rw [sum_div]
      exact sum_congr rfl fun j _ => by simp only [unitFace]; ring
    simp only [hg, sum_mul, mul_sum]
    exact sum_congr rfl fun d _ => by field_simp

theorem scatter_smul' (C : Constr K) (n : ℕ) (a : K) (L : ℕ → K) (k : ℕ) :
    C.scatter n (fun i => a * L i) k = a * C.scatter n L k := by
  unfold Constr.scatter
  by_cases h : (C.row k).isSome = true
  · rw [if_pos h, if_pos h, mul_zero]
  · rw [if_neg h, if_neg h, mul_add, mul_sum]
    congr 1
    refine sum_congr rfl fun i _ => ?_
    cases C.row i <;> simp [mul_left_comm]

theorem unit_vmult (V L T : K) (hL : L ≠ 0) (D : Advect K) {t t' : TS K} (hw : t'.w = t.w / T) (u : ℕ → ℕ → ℕ → K) (ν src : ℕ → K)
    (k : ℕ) :
    (unitAdvect V L T D).vmult t' (fun c q d => L / T * u c q d) (fun c => L ^ 2 / T * ν c) src k = V / T * D.vmult t u ν src k := by
  have hcell : (unitAdvect V L T D).cellProduct t' (fun c q d => L / T * u c q d) (fun c => L ^ 2 / T * ν c) src =
      fun i => V / T * D.cellProduct t u ν src i := by
    funext i
    unfold Advect.cellProduct
    have e := unit_test V L (1 / T) hL D.S (fun c q => D.S.value (D.C.dist D.S.nDof src) c q * t.w +
      ∑ d ∈ range D.S.dim, D.S.gradient (D.C.dist D.S.nDof src) c q d * u c q d)
      (fun c q d => if D.stab = true then ν c * D.S.gradient (D.C.dist D.S.nDof src) c q d else 0) i
    rw [show V * (1 / T) = V / T from mul_one_div V T] at e
    dsimp only
    rw [← e]
    change (unitSpace V L D.S).test _ _ i = _
    congr 1
    · funext c q
      rw [hw, mul_add, mul_sum]
      congr 1
      · change D.S.value (D.C.dist D.S.nDof src) c q * _ = _
        ring
      · change ∑ d ∈ range D.S.dim, (unitSpace V L D.S).gradient (D.C.dist D.S.nDof src) c q d * _ = _
        refine sum_congr rfl fun d _ => ?_
        rw [unit_gradient]
        field_simp
    · funext c q d
      change (if D.stab = true then L ^ 2 / T * ν c * (unitSpace V L D.S).gradient (D.C.dist D.S.nDof src) c q d else 0) = _
      rw [unit_gradient]
      split_ifs
      · field_simp
      · rw [mul_zero]
  unfold Advect.vmult
  rw [hcell]
  change (if (D.C.row k).isSome = true then V / T * D.diag k * src k else D.C.scatter D.S.nDof _ k + if D.stab = true then
    D.C.scatter D.S.nDof (fun i => -(unitAdvect V L T D).faceTerm (D.facesDefault.map (unitFace V L)) _ src i) k else 0) = _
  split_ifs with h1 h2
  · ring
  · simp only [unit_faceTerm V L T hL D, ← mul_neg]
    rw [scatter_smul', scatter_smul', mul_add]
  · rw [scatter_smul', add_zero, add_zero]

theorem unit_rhs (V L T : K) (hL : L ≠ 0) (D : Advect K) {t t' : TS K} (h : Time.Spec.SameClock T t t') (hs : t.stepNo ≠ 0)
    (u : ℕ → ℕ → ℕ → K) (ν old oldOld x : ℕ → K) (k : ℕ) :
    (unitAdvect V L T D).rhs t' (fun c q d => L / T * u c q d) (fun c => L ^ 2 / T * ν c) old oldOld x k =
      V / T * D.rhs t u ν old oldOld x k := by
  have hold : ∀ c q, (unitAdvect V L T D).oldValue t' old oldOld c q = 1 / T * D.oldValue t old oldOld c q := by
    intro c q
    unfold Advect.oldValue
    rw [h.wOld hs, h.wOldOld, h.scheme, h.stepNo]
    change (if t.scheme = .bdf2 ∧ 1 < t.stepNo then t.wOld / T * D.S.value old c q + t.wOldOld / T * D.S.value oldOld c q
      else t.wOld / T * D.S.value old c q) = _
    dsimp only
    split_ifs <;> ring
  have hcell : (unitAdvect V L T D).cellRhs t' (fun c q d => L / T * u c q d) (fun c => L ^ 2 / T * ν c) old oldOld x =
      fun i => V / T * D.cellRhs t u ν old oldOld x i := by
    funext i
    unfold Advect.cellRhs
    have e := unit_test V L (1 / T) hL D.S (fun c q => -(D.S.value x c q * t.w +
      ∑ d ∈ range D.S.dim, u c q d * D.S.gradient x c q d + D.oldValue t old oldOld c q))
      (fun c q d => if D.stab = true then -ν c * D.S.gradient x c q d else 0) i
    rw [show V * (1 / T) = V / T from mul_one_div V T] at e
    rw [← e]
    change (unitSpace V L D.S).test _ _ i = _
    congr 1
    · funext c q
      rw [h.w, hold, mul_neg, mul_add, mul_add, mul_sum]
      congr 1
      congr 1
      congr 1
      · change D.S.value x c q * _ = _
        ring
      · change ∑ d ∈ range D.S.dim, _ * (unitSpace V L D.S).gradient x c q d = _
        refine sum_congr rfl fun d _ => ?_
        rw [unit_gradient]
        field_simp
    · funext c q d
      change (if D.stab = true then -(L ^ 2 / T * ν c) * (unitSpace V L D.S).gradient x c q d else 0) = _
      rw [unit_gradient]
      split_ifs
      · field_simp
      · rw [mul_zero]
  unfold Advect.rhs
  rw [hcell]
  change (D.C.scatter D.S.nDof _ k + if D.stab = true then
    D.C.scatter D.S.nDof ((unitAdvect V L T D).faceTerm (D.faces.map (unitFace V L)) _ x) k else 0) = _
  have hf : (unitAdvect V L T D).faceTerm (D.faces.map (unitFace V L)) (fun c => L ^ 2 / T * ν c) x =
      fun i => V / T * D.faceTerm D.faces ν x i := by
    funext i; exact unit_faceTerm V L T hL D _ ν x i
  rw [hf]
  split_ifs
  · rw [scatter_smul', scatter_smul', mul_add]
  · rw [scatter_smul', add_zero, add_zero]

/-! ## C126 -/

/-- **C126 (transport).** A transport step with mesh, velocity, artificial viscosity, clock and requested step size in other units gives
the same level set coefficients, and the clocks go on showing the same - with stabilization and boundary faces, hanging nodes
and prescribed values, for every solver whose result does not depend on a common factor of matrix and right hand side. -/
theorem C126_transport_units (V L T : K) (hV : V ≠ 0) (hL : L ≠ 0) (hT : 0 < T) (D : Advect K) (t t' : TS K)
    (ht : Time.Spec.SameClock T t t') (dt : K) (solve : ((ℕ → K) → ℕ → K) → (ℕ → K) → ℕ → K) (hsolve : ScaleFree solve)
    (u : ℕ → ℕ → ℕ → K) (ν old oldOld x : ℕ → K) :
    let r := D.advance t dt solve u ν old oldOld x
    let r' := (unitAdvect V L T D).advance t' (T * dt) solve (fun c q d => L / T * u c q d) (fun c => L ^ 2 / T * ν c) old oldOld x
    r'.2 = r.2 ∧ Time.Spec.SameClock T r.1 r'.1 := by
  have hc : Time.Spec.SameClock T (t.setDesired dt) (t'.setDesired (T * dt)) :=
    { ht with cur := desired_units hT ht dt, step := desired_units hT ht dt }
  have hn := next_units hT hc
  have hs : ((t.setDesired dt).next).stepNo ≠ 0 := Nat.succ_ne_zero _
  refine ⟨?_, hn⟩
  unfold Advect.advance
  dsimp only
  have hA := fun (src : ℕ → K) (k : ℕ) => unit_vmult V L T hL D hn.w u ν src k
  have hb := fun k => unit_rhs V L T hL D hn hs u ν old oldOld (D.withBoundary x) k
  have hx : (unitAdvect V L T D).withBoundary x = D.withBoundary x := rfl
  have hA' : (unitAdvect V L T D).vmult ((t'.setDesired (T * dt)).next) (fun c q d => L / T * u c q d) (fun c => L ^ 2 / T * ν c) =
      fun src k => V / T * D.vmult ((t.setDesired dt).next) u ν src k := by
    funext src k; exact hA src k
  have hb' : (unitAdvect V L T D).rhs ((t'.setDesired (T * dt)).next) (fun c q d => L / T * u c q d) (fun c => L ^ 2 / T * ν c) old oldOld
      (D.withBoundary x) = fun k => V / T * D.rhs ((t.setDesired dt).next) u ν old oldOld (D.withBoundary x) k := by
    funext k; exact hb k
  rw [hx, hA', hb', hsolve _ (div_ne_zero hV hT.ne')]
  rfl

/-- **C126 (reinitialization).** A pseudo-time step with converted coefficients has the same matrix and right hand side up to a common
factor, so the same increments solve it. The diffusion is converted by the code; the pseudo-time step only if the units of length and
time change by the same factor. -/
theorem C126_reinitialization_units (V L : K) (hL : 0 < L) (R : Reinit K) (diffuseOnly : Bool) :
    (∀ src k, (unitReinit V L R).vmult diffuseOnly src k = V / L * R.vmult diffuseOnly src k) ∧
    (∀ x k, (unitReinit V L R).rhs diffuseOnly x k = V / L * R.rhs diffuseOnly x k) ∧
    (∀ x inc, (unitReinit V L R).update x inc = R.update x inc) ∧
    (V ≠ 0 → ∀ x inc, (unitReinit V L R).Solved diffuseOnly x inc ↔ R.Solved diffuseOnly x inc) ∧
    (∀ e h degree, diffusion (L * e) (L * h) degree = L * diffusion e h degree) ∧
    ∀ dim sub edge step, dtauInv dim sub (L * edge) (L * step) = dtauInv dim sub edge step / L := by
  have hL' := hL.ne'
  have hone : 1 / L * L = 1 := by field_simp
  have hgrad : ∀ x, (unitReinit V L R).S.gradient x = fun c q d => R.S.gradient x c q d / L := by
    intro x; funext c q d; exact unit_gradient V L R.S x c q d
  have halong : ∀ g : ℕ → ℕ → ℕ → K, ∀ c q, (unitReinit V L R).along (fun c q d => g c q d / L) c q = R.along g c q / L := by
    intro g c q
    unfold Reinit.along
    rw [sum_div]
    exact sum_congr rfl fun d _ => by simp only [unitReinit]; ring
  have hvm : ∀ src k, (unitReinit V L R).vmult diffuseOnly src k = V / L * R.vmult diffuseOnly src k := by
    intro src k
    unfold Reinit.vmult
    have hp : (unitReinit V L R).productFlux diffuseOnly (R.C.dist R.S.nDof src) =
        fun c q d => 1 / L * L * R.productFlux diffuseOnly (R.C.dist R.S.nDof src) c q d := by
      funext c q d
      unfold Reinit.productFlux
      rw [hgrad, halong, hone, one_mul]
      simp only [unitReinit]
      split_ifs <;> field_simp
    change (if (R.C.row k).isSome = true then V / L * R.diag k * src k else R.C.scatter R.S.nDof ((unitSpace V L R.S).test
      (fun c q => R.dtauInv / L * R.S.value (R.C.dist R.S.nDof src) c q)
      ((unitReinit V L R).productFlux diffuseOnly (R.C.dist R.S.nDof src))) k) = _
    have hv : (fun c q => R.dtauInv / L * R.S.value (R.C.dist R.S.nDof src) c q) =
        fun c q => 1 / L * (R.dtauInv * R.S.value (R.C.dist R.S.nDof src) c q) := by
      funext c q; ring
    dsimp only
    by_cases hr : (R.C.row k).isSome = true
    · rw [if_pos hr, if_pos hr, mul_assoc]
    · rw [if_neg hr, if_neg hr, hv, hp, ← scatter_smul']
      congr 1
      funext i
      rw [unit_test V L (1 / L) hL', mul_one_div]
  have hrhs : ∀ x k, (unitReinit V L R).rhs diffuseOnly x k = V / L * R.rhs diffuseOnly x k := by
    intro x k
    unfold Reinit.rhs
    have hp : (unitReinit V L R).rhsFlux diffuseOnly x = fun c q d => 1 / L * L * R.rhsFlux diffuseOnly x c q d := by
      funext c q d
      unfold Reinit.rhsFlux
      rw [hgrad, halong, hone, one_mul]
      have hval : (unitReinit V L R).S.value x c q = R.S.value x c q := rfl
      rw [hval]
      simp only [unitReinit]
      split_ifs
      · congr 2; field_simp
      · field_simp
    rw [hp, ← scatter_smul']
    change R.C.scatter R.S.nDof ((unitSpace V L R.S).test _ _) k = _
    congr 1
    funext i
    have := unit_test V L (1 / L) hL' R.S (fun _ _ => 0) (R.rhsFlux diffuseOnly x) i
    rw [mul_one_div] at this
    rw [← this]
    simp only [mul_zero]
  refine ⟨hvm, hrhs, fun _ _ => rfl, fun hV x inc => ?_, fun e h degree => ?_, fun dim sub edge step => ?_⟩
  · unfold Reinit.Solved
    refine forall_congr' fun k => imp_congr_right fun _ => ?_
    rw [hvm, hrhs]
    exact ⟨fun h => mul_left_cancel₀ (div_ne_zero hV hL') h, fun h => by rw [h]⟩
  · unfold diffusion
    rw [mul_max_of_nonneg _ _ hL.le, mul_div_assoc]
  · unfold dtauInv
    rw [div_eq_mul_inv _ L, max_mul_of_nonneg _ _ (inv_nonneg.2 hL.le)]
    congr 1
    · rw [show 1 / ((dim : K) * dim) * (L * edge) / sub = L * (1 / ((dim : K) * dim) * edge / sub) by ring, div_mul_eq_div_div_swap,
        ← div_eq_mul_inv]
    · rw [show 5 * (L * step) = L * (5 * step) by ring, div_mul_eq_div_div_swap, ← div_eq_mul_inv]

/-- **C126, limit: the pseudo-time step.** With a change of the unit of time alone the pseudo-time step of the same reinitialization
changes, although nothing in it depends on time: one over the time step is compared with one over the edge length. -/
theorem C126_pseudo_time_step_depends_on_unit_of_time (dim sub : ℕ) (edge step : K) (hedge : 0 < edge) (hstep : 0 < step) (hdim : 0 < dim)
    (hsub : 0 < sub) : ∃ T : K, 0 < T ∧ dtauInv dim sub edge (T * step) ≠ dtauInv dim sub edge step := by
  unfold dtauInv
  have hd : (0 : K) < dim := Nat.cast_pos.2 hdim
  have hs : (0 : K) < sub := Nat.cast_pos.2 hsub
  set A : K := 95 / 100 / (1 / ((dim : K) * dim) * edge / sub) with hA
  have hApos : 0 < A := by positivity
  set M : K := max A (1 / (5 * step)) with hM
  have hMpos : 0 < M := lt_of_lt_of_le hApos (le_max_left _ _)
  refine ⟨1 / (10 * step * M), by positivity, ?_⟩
  have e : 1 / (5 * (1 / (10 * step * M) * step)) = 2 * M := by field_simp; norm_num
  rw [e]
  have : M < max A (2 * M) := lt_of_lt_of_le (by linarith) (le_max_right _ _)
  exact this.ne'

theorem scale_scale (k l : K) (hk : k ≠ 0) (a : Fl K) : Fl.scale k (Fl.scale l a) = Fl.scale (k * l) a := by
  cases a with
  | fin x => simp only [Fl.scale, mul_assoc]
  | inf =>
    by_cases hl : l = 0 <;> simp [Fl.scale, hl, hk]
  | nan => rfl

theorem scale_lt (k : K) (hk : 0 < k) (a b : Fl K) : (Fl.scale k a).lt (Fl.scale k b) = a.lt b := by
  cases a <;> cases b <;> simp [Fl.scale, Fl.lt, hk, hk.ne']

theorem scale_max (simd : Bool) (k : K) (hk : 0 < k) (a b : Fl K) :
    Fl.max simd (Fl.scale k a) (Fl.scale k b) = Fl.scale k (Fl.max simd a b) := by
  unfold Fl.max
  rw [scale_lt k hk, scale_lt k hk]
  split_ifs <;> rfl

theorem unit_residual (L T : K) (hL : L ≠ 0) (hT : 0 < T) (n : ℕ) (τ : K) (p : ViscPoint K) :
    (unitVisc L T p).residual n (T * τ) = Fl.scale (1 / T) (p.residual n τ) := by
  have hT' := hT.ne'
  unfold ViscPoint.residual absQuotPlus
  have hs : (∑ d ∈ range n, ((unitVisc L T p).velOld d + (unitVisc L T p).velOldOld d) *
      ((unitVisc L T p).gradOld d + (unitVisc L T p).gradOldOld d)) =
      1 / T * ∑ d ∈ range n, (p.velOld d + p.velOldOld d) * (p.gradOld d + p.gradOldOld d) := by
    rw [mul_sum]
    exact sum_congr rfl fun d _ => by simp only [unitVisc]; field_simp
  rw [hs]
  change (if T * τ = 0 then if p.old - p.oldOld = 0 then Fl.nan else .inf else .fin |(p.old - p.oldOld) / (T * τ) + _|) = _
  simp only [mul_eq_zero, hT', false_or]
  split_ifs
  · rfl
  · simp [Fl.scale, hT']
  · simp only [Fl.scale]
    rw [← abs_of_pos (one_div_pos.2 hT), ← abs_mul, abs_of_pos (one_div_pos.2 hT)]
    congr 2
    field_simp

/-- **C126 (artificial viscosity).** The artificial viscosity in other units is the converted artificial viscosity of a problem whose
domain is `L²` times as large: it does not depend on the unit of time, and in the missing part it does depend on the unit of length - also
where it is not a number, for scalar and vectorized evaluation. -/
theorem C126_artificial_viscosity_units_partial (simd : Bool) (sqrt : K → K) (hsqrt : ∀ s : K, 0 ≤ s → ∀ x, sqrt (s ^ 2 * x) = s * sqrt x)
    (n : ℕ) (L T : K) (hL : 0 < L) (hT : 0 < T) (τ maxVel omega h : K) (ps : List (ViscPoint K)) :
    artificialViscosity simd sqrt n (T * τ) (L / T * maxVel) (L * omega) (L * h) (ps.map (unitVisc L T)) =
      Fl.scale (L ^ 2 / T) (artificialViscosity simd sqrt n τ maxVel (L ^ 2 * omega) h ps) := by
  have hT' := hT.ne'
  have hL' := hL.ne'
  have hres : maxResidual simd n (T * τ) (ps.map (unitVisc L T)) = Fl.scale (1 / T) (maxResidual simd n τ ps) := by
    unfold maxResidual
    have : ∀ (ps : List (ViscPoint K)) (m : Fl K),
        (ps.map (unitVisc L T)).foldl (fun m p => Fl.max simd (p.residual n (T * τ)) m) (Fl.scale (1 / T) m) =
          Fl.scale (1 / T) (ps.foldl (fun m p => Fl.max simd (p.residual n τ) m) m) := by
      intro ps
      induction ps with
      | nil => intro m; rfl
      | cons p ps ih =>
        intro m
        rw [List.map_cons, List.foldl_cons, List.foldl_cons, unit_residual L T hL' hT, scale_max simd _ (one_div_pos.2 hT), ih]
    have h0 := this ps (.fin 0)
    simp only [Fl.scale, mul_zero] at h0 ⊢
    exact h0
  have hspeed : maxSpeed sqrt n (ps.map (unitVisc L T)) = L / T * maxSpeed sqrt n ps := by
    unfold maxSpeed
    have : ∀ (ps : List (ViscPoint K)) (m : K),
        (ps.map (unitVisc L T)).foldl (fun m p => Max.max (sqrt (p.speedSq n)) m) (L / T * m) =
          L / T * ps.foldl (fun m p => Max.max (sqrt (p.speedSq n)) m) m := by
      intro ps
      induction ps with
      | nil => intro m; rfl
      | cons p ps ih =>
        intro m
        have hsq : (unitVisc L T p).speedSq n = (L / T) ^ 2 * p.speedSq n := by
          unfold ViscPoint.speedSq
          rw [mul_sum]
          exact sum_congr rfl fun d _ => by simp only [unitVisc]; ring
        rw [List.map_cons, List.foldl_cons, List.foldl_cons, hsq, hsqrt _ (div_pos hL hT).le,
          ← mul_max_of_nonneg _ _ (div_pos hL hT).le, ih]
    have h0 := this ps 0
    rw [mul_zero] at h0
    exact h0
  unfold artificialViscosity
  dsimp only
  rw [hres, hspeed, scale_scale _ _ (by positivity)]
  have hdiv : ∀ r : Fl K, (Fl.scale (1 / T) r).div (L / T * maxVel * 2 * (L * omega)) = r.div (maxVel * 2 * (L ^ 2 * omega)) := by
    intro r
    have hz : (L / T * maxVel * 2 * (L * omega) = 0) ↔ maxVel * 2 * (L ^ 2 * omega) = 0 := by
      have : L / T * maxVel * 2 * (L * omega) = 1 / T * (maxVel * 2 * (L ^ 2 * omega)) := by ring
      rw [this, mul_eq_zero]
      exact ⟨fun h => h.resolve_left (one_div_ne_zero hT'), .inr⟩
    cases r with
    | fin x =>
      have hx : 1 / T * x = 0 ↔ x = 0 := by
        rw [mul_eq_zero]; exact ⟨fun h => h.resolve_left (one_div_ne_zero hT'), .inr⟩
      simp only [Fl.scale, Fl.div, hz, hx]
      split_ifs with h1
      · rfl
      · rfl
      · rw [show L / T * maxVel * 2 * (L * omega) = 1 / T * (maxVel * 2 * (L ^ 2 * omega)) by ring,
          mul_div_mul_left _ _ (one_div_ne_zero hT')]
    | inf => simp [Fl.scale, Fl.div, hT']
    | nan => rfl
  rw [hdiv]
  congr 1
  ring

/-- **C126, limit: the artificial viscosity.** Wherever the artificial viscosity is between zero and its upper limit there are units of
length in which it is at its limit. -/
theorem C126_artificial_viscosity_depends_on_unit_of_length (simd : Bool) (sqrt : K → K)
    (hsqrt : ∀ s : K, 0 ≤ s → ∀ x, sqrt (s ^ 2 * x) = s * sqrt x) (n : ℕ) (L T : K) (hL : 0 < L) (hT : 0 < T) (τ maxVel omega h : K)
    (hmax : 0 < maxVel) (homega : 0 < omega) (hh : 0 < h) (ps : List (ViscPoint K)) (hspeed : 0 < maxSpeed sqrt n ps) (r : K)
    (hr : maxResidual simd n τ ps = .fin r) (hr1 : r < maxVel * 2 * omega) (hLr : maxVel * 2 * (L ^ 2 * omega) < r) :
    artificialViscosity simd sqrt n (T * τ) (L / T * maxVel) (L * omega) (L * h) (ps.map (unitVisc L T)) ≠
      Fl.scale (L ^ 2 / T) (artificialViscosity simd sqrt n τ maxVel omega h ps) := by
  rw [C126_artificial_viscosity_units_partial simd sqrt hsqrt n L T hL hT]
  have h1 : 0 < maxVel * 2 * omega := by positivity
  have h2 : 0 < maxVel * 2 * (L ^ 2 * omega) := by positivity
  unfold artificialViscosity
  dsimp only
  rw [hr]
  have hq1 : r / (maxVel * 2 * omega) < 1 := (div_lt_one h1).2 hr1
  have hq2 : 1 < r / (maxVel * 2 * (L ^ 2 * omega)) := (one_lt_div h2).2 hLr
  have m1 : Fl.min simd (.fin 1) ((Fl.fin r).div (maxVel * 2 * omega)) = .fin (r / (maxVel * 2 * omega)) := by
    simp only [Fl.div, if_neg h1.ne', Fl.min, Fl.lt, decide_eq_true_eq, if_neg (not_lt.2 hq1.le), if_pos hq1]
    simp
  have m2 : Fl.min simd (.fin 1) ((Fl.fin r).div (maxVel * 2 * (L ^ 2 * omega))) = .fin 1 := by
    simp only [Fl.div, if_neg h2.ne', Fl.min, Fl.lt, decide_eq_true_eq, if_neg (not_lt.2 hq2.le), if_pos hq2]
    simp
  rw [m1, m2]
  simp only [Fl.scale, ne_eq, Fl.fin.injEq]
  intro he
  have hk : (0 : K) < L ^ 2 / T := by positivity
  have h3 := mul_left_cancel₀ hk.ne' he
  have h4 : (0 : K) < 3 / 100 * maxSpeed sqrt n ps * h := by positivity
  have h5 := mul_left_cancel₀ h4.ne' h3
  linarith

/-- **C126 (level set, what holds and what does not).** Normals are the same unit vectors in both units as long as the gradient is above the
threshold in both; but for every gradient and every unit of length that makes lengths a large enough number the normal is set to zero - and
for every nonzero gradient there is a unit in which it is kept. -/
theorem C126_normal_depends_on_unit_of_length_partial (dim : ℕ) (nrm : (ℕ → K) → K) (hn : Spec.IsNorm dim nrm) (v : ℕ → K)
    (hv : 0 < nrm v) (L : K) (hL : 0 < L) :
    (1 / 100 < nrm v → 1 / 100 < nrm v / L → ∀ d, normalizeNode nrm (fun e => v e / L) d = normalizeNode nrm v d) ∧
    (100 * nrm v ≤ L → ∀ d, normalizeNode nrm (fun e => v e / L) d = 0) ∧
    (L < 100 * nrm v → ∑ d ∈ range dim, normalizeNode nrm (fun e => v e / L) d ^ 2 = 1) := by
  have hs : (fun e => v e / L) = fun e => L⁻¹ * v e := by
    funext e; rw [div_eq_mul_inv, mul_comm]
  have hi : 0 < L⁻¹ := inv_pos.2 hL
  have hlen : nrm (fun e => v e / L) = nrm v / L := by
    rw [hs, norm_smul hn, abs_of_pos hi, div_eq_mul_inv, mul_comm]
  refine ⟨fun h1 h2 d => ?_, fun h d => ?_, fun h => ?_⟩
  · unfold normalizeNode
    rw [hlen, if_pos h2, if_pos h1, div_div_div_cancel_right₀ hL.ne']
  · unfold normalizeNode
    rw [hlen, if_neg]
    rw [not_lt, div_le_iff₀ hL]
    linarith
  · have h' : 1 / 100 < nrm v / L := by
      rw [lt_div_iff₀ hL]; linarith
    have e : ∀ d, normalizeNode nrm (fun e => v e / L) d = v d / nrm v := by
      intro d
      unfold normalizeNode
      rw [hlen, if_pos h', div_div_div_cancel_right₀ hL.ne']
    simp only [e, div_pow]
    rw [← sum_div, ← (hn v).2, div_self]
    positivity

/-- Both cases occur: a gradient of length 1/10 (interface thickness of 10 centimetres, metres) is kept in metres and
dropped in centimetres and millimetres. -/
example (nrm : (ℕ → ℚ) → ℚ) (hn : Spec.IsNorm 1 nrm) :
    normalizeNode nrm (fun _ => 1 / 10) 0 = 1 ∧ normalizeNode nrm (fun _ => 1 / 10 / 100) 0 = 0 := by
  have h := hn fun _ => 1 / 10
  have e : nrm (fun _ => 1 / 10) = 1 / 10 := by
    have h2 := h.2
    simp only [sum_range_one] at h2
    exact (pow_left_inj₀ h.1 (by norm_num) (by norm_num)).1 h2
  constructor
  · unfold normalizeNode
    rw [e]; norm_num
  · exact (C126_normal_depends_on_unit_of_length_partial 1 nrm hn (fun _ => 1 / 10) (by rw [e]; norm_num) 100
      (by norm_num)).2.1 (by rw [e]; norm_num) 0

/-- Solvers of the assumed kind exist (one Jacobi step), and the viscosity of the example of `LevelSet.ArtificialViscosity` lies strictly
between its limits. -/
example : ScaleFree (K := ℚ) (fun A b k => b k / A (fun j => if j = k then 1 else 0) k) ∧
    maxResidual true 1 1 [exVisc] = .fin 3 ∧ (3 : ℚ) < 1 * 2 * 3 ∧ (1 * 2 * ((1 / 10) ^ 2 * 3) : ℚ) < 3 := by
  refine ⟨fun s hs A b => ?_, by decide +kernel, by norm_num, by norm_num⟩
  funext k
  exact mul_div_mul_left _ _ hs

/-- The square root is a function as assumed for the artificial viscosity. -/
example (s : ℝ) (hs : 0 ≤ s) (x : ℝ) : Real.sqrt (s ^ 2 * x) = s * Real.sqrt x := by
  rw [Real.sqrt_mul (sq_nonneg s), Real.sqrt_sq hs]

end Verif.LevelSet
