import Verif.LevelSet.Advect
import Mathlib.Tactic.IntervalCases

/-!
# C119: stability of the level set transport in the mean square norm
(source/level_set_okz_advance_concentration.cc:220-262, 368-386, 403-480, 506-652; source/time_stepping.cc:124-199, 251-269)

Uses the transport step of `LevelSet.Advect` with the clock of `Time.Model`, which `advance_concentration` moves itself by
`set_desired_time_step(dt)` and `next()`.
-/

set_option linter.unusedSectionVars false

namespace Verif.LevelSet

open Finset Verif.FE Verif.Time

variable {K : Type*} [Field K] [LinearOrder K] [IsStrictOrderedRing K]

/-! ### Specification -/

/-- Squared mean square norm. -/
def Spec.square (S : Space K) (y : ℕ → K) : K := S.integral fun c q => S.value y c q ^ 2

/-- The corresponding quantity of the two-step scheme, `½ (|y|² + |2y - z|²)`, for the newer level `y` and the older level `z`. -/
def Spec.square2 (S : Space K) (y z : ℕ → K) : K :=
  S.integral fun c q => 1 / 2 * (S.value y c q ^ 2 + (2 * S.value y c q - S.value z c q) ^ 2)

/-- Convection does not feed the level set `y`: `∫ (u·∇y) y ≥ 0`, as for a velocity without divergence and without inflow. -/
def Spec.NoGain (S : Space K) (u : ℕ → ℕ → ℕ → K) (y : ℕ → K) : Prop :=
  0 ≤ S.integral fun c q => (∑ d ∈ range S.dim, u c q d * S.gradient y c q d) * S.value y c q

/-- Homogeneous problem: no prescribed values at inflow boundaries, the start vector satisfies the constraints. -/
def Spec.Homogeneous (D : Advect K) (x : ℕ → K) : Prop := (∀ i, D.dirichlet i = none) ∧ ∀ i, D.C.dist D.S.nDof x i = x i

/-! ### The clock of the level set solver -/

/-- Weights of a BDF-2 step split into the parts belonging to the first and the second difference. After a request by
`set_desired_time_step` the step before counts as a step of the requested size, so only the last step has another size. -/
theorem bdf2_parts (p : Params K) (hp : p.Good) (t : TS K) (dt : K) (hr : Reachable p (t.setDesired dt))
    (he : (t.setDesired dt).atEnd = false) (hs : t.scheme = .bdf2) (hn : 0 < t.stepNo) :
    ∃ e d, 0 < e ∧ 0 < d ∧ (t.setDesired dt).exactWeight = e + d ∧ (t.setDesired dt).next.wOld = -(e + 2 * d) ∧
      (t.setDesired dt).next.wOldOld = d ∧ ((t.setDesired dt).next.atEnd = false → e = 2 * d) := by
  obtain ⟨T, hT⟩ : ∃ T, T = t.setDesired dt := ⟨_, rfl⟩
  have hsch : T.scheme = .bdf2 := by rw [hT]; exact hs
  have hno : 0 < T.stepNo := by rw [hT]; exact hn
  have hstep : T.step = T.cur := by rw [hT]; rfl
  have hmax : T.cur ≤ T.maxStep := by
    rw [hT]
    show t.desiredValue dt ≤ t.maxStep
    unfold TS.desiredValue
    exact min_le_left _ _
  rw [← hT] at hr he ⊢
  have i := reachable_inv hp hr
  have hL := i.cur_pos
  have hC := (inv_next hp i he).cur_pos
  have hns : T.now ≠ T.start := fun h => by
    have := (stepNo_zero_iff hp hr).2 h
    omega
  have htr : T.trial = T.cur := by
    unfold TS.trial
    simp only [hstep, ite_self, if_neg (not_lt.2 hmax)]
  have hl : T.newLast = T.cur := by unfold TS.newLast; rw [if_pos hns]
  have hcur : T.next.cur = if T.snaps then T.final - T.now else T.trial := rfl
  have hle : T.next.cur ≤ 2 * T.cur := by
    rw [hcur]
    split_ifs with hsn
    · have := (snaps_true.1 hsn).2
      rw [htr] at this
      linarith
    · rw [htr]; linarith
  have hE : T.exactWeight = (2 * T.next.cur + T.cur) / (T.next.cur * (T.next.cur + T.cur)) := by
    unfold TS.exactWeight
    rw [if_pos ⟨hsch, hns⟩, hl]
  have hO : T.next.wOld = -((T.next.cur + T.cur) / (T.next.cur * T.cur)) := by
    have : T.next.wOld = -((T.next.cur + T.newLast) / (T.next.cur * T.newLast)) := by simp [TS.next, hsch, hns]
    rw [this, hl]
  have hOO : T.next.wOldOld = T.next.cur / (T.cur * (T.next.cur + T.cur)) := by
    have : T.next.wOldOld = T.next.cur / (T.newLast * (T.next.cur + T.newLast)) := by simp [TS.next, hsch, hns]
    rw [this, hl]
  refine ⟨(T.cur ^ 2 + 2 * T.next.cur * T.cur - T.next.cur ^ 2) / (T.next.cur * T.cur * (T.next.cur + T.cur)),
    T.next.cur / (T.cur * (T.next.cur + T.cur)), ?_, by positivity, ?_, ?_, hOO, ?_⟩
  · refine div_pos ?_ (by positivity)
    nlinarith [mul_nonneg hC.le (sub_nonneg.2 hle), mul_pos hL hL]
  · rw [hE]; field_simp; ring
  · rw [hO]; field_simp; ring
  · intro hend
    have hsn : T.snaps = false := by
      have h1 : T.next.atEnd = (T.atEnd || T.snaps) := rfl
      rw [h1, he] at hend
      simpa using hend
    have : T.next.cur = T.cur := by rw [hcur, hsn]; simp [htr]
    rw [this]; field_simp; ring

/-- Weights of a step of a one-step scheme or of a first step. -/
theorem euler_parts (p : Params K) (hp : p.Good) (t : TS K) (dt : K) (hr : Reachable p (t.setDesired dt))
    (he : (t.setDesired dt).atEnd = false) (hs : t.scheme ≠ .bdf2 ∨ t.stepNo = 0) :
    0 < (t.setDesired dt).exactWeight ∧ (t.setDesired dt).next.wOld = -(t.setDesired dt).exactWeight := by
  obtain ⟨h1, h2, -⟩ := C05_weights_sum_zero p hp _ hr he
  refine ⟨h2, ?_⟩
  rw [if_neg (by
    rintro ⟨ha, hb⟩
    have hb : 1 < t.stepNo + 1 := hb
    rcases hs with h | h
    · exact h ha
    · omega)] at h1
  linarith

/-! ### Proofs -/

variable (D : Advect K)

theorem square_nonneg (S : Space K) (hj : ∀ c < S.nCell, ∀ q < S.nQ, 0 ≤ S.jxw c q) {f : ℕ → ℕ → K}
    (h : ∀ c < S.nCell, ∀ q < S.nQ, 0 ≤ f c q) : 0 ≤ S.integral f := by
  unfold Space.integral
  exact sum_nonneg fun c hc => sum_nonneg fun q hq => by
    have a := hj c (mem_range.1 hc) q (mem_range.1 hq)
    have b := h c (mem_range.1 hc) q (mem_range.1 hq)
    first | exact mul_nonneg a b | exact mul_nonneg b a

theorem integral_le (S : Space K) (hj : ∀ c < S.nCell, ∀ q < S.nQ, 0 ≤ S.jxw c q) {f g : ℕ → ℕ → K}
    (h : ∀ c < S.nCell, ∀ q < S.nQ, f c q ≤ g c q) : S.integral f ≤ S.integral g := by
  have h1 := square_nonneg S hj (f := fun c q => g c q + -f c q) (fun c hc q hq => by have := h c hc q hq; linarith)
  rw [S.integral_add, S.integral_neg] at h1
  linarith

/-- the new level set satisfies the constraints -/
theorem advance_satisfies (hC : D.C.Closed) (t : TS K) (dt : K) (solve : ((ℕ → K) → ℕ → K) → (ℕ → K) → ℕ → K)
    (u : ℕ → ℕ → ℕ → K) (ν : ℕ → K) (old oldOld x : ℕ → K) (hx : Spec.Homogeneous D x) :
    D.C.dist D.S.nDof (D.advance t dt solve u ν old oldOld x).2 = (D.advance t dt solve u ν old oldOld x).2 := by
  have hb : D.withBoundary x = x := by funext i; simp [Advect.withBoundary, hx.1 i]
  have hr : (D.advance t dt solve u ν old oldOld x).2 = fun i => x i + D.C.dist D.S.nDof
      (solve (D.vmult (t.setDesired dt).next u ν) (D.rhs (t.setDesired dt).next u ν old oldOld x)) i := by
    unfold Advect.advance
    simp only [hb]
  rw [hr]
  generalize solve (D.vmult (t.setDesired dt).next u ν) (D.rhs (t.setDesired dt).next u ν old oldOld x) = g
  funext i
  rw [D.C.dist_add, hx.2 i]
  congr 1
  unfold Constr.dist
  cases hrow : D.C.row i with
  | none => simp only [hrow]
  | some c =>
    simp only
    refine sum_congr rfl fun k _ => ?_
    cases hk : D.C.row k with
    | none => rfl
    | some c' => rw [hC i c hrow k (by rw [hk]; rfl), zero_mul, zero_mul]

/-- **C119 (balance).** The step tested with the new level set: work of the discrete time derivative, convection, artificial
diffusion and the artificial flux through the boundary add up to zero. -/
theorem C119_balance (hC : D.C.Closed) (hf : D.FaceExact) (hdiag : ∀ i < D.S.nDof, (D.C.row i).isSome → D.diag i ≠ 0)
    (t : TS K) (dt : K) (solve : ((ℕ → K) → ℕ → K) → (ℕ → K) → ℕ → K)
    (u : ℕ → ℕ → ℕ → K) (ν : ℕ → K) (old oldOld x : ℕ → K) (hx : Spec.Homogeneous D x)
    (hsolve : D.Solved t dt solve u ν old oldOld x) :
    let y := (D.advance t dt solve u ν old oldOld x).2
    let t' := (t.setDesired dt).next
    D.S.integral (fun c q => t'.w * D.S.value y c q ^ 2 + t'.wOld * (D.S.value old c q * D.S.value y c q)
        + (if t.scheme = .bdf2 ∧ 0 < t.stepNo then t'.wOldOld else 0) * (D.S.value oldOld c q * D.S.value y c q))
      + D.S.integral (fun c q => (∑ d ∈ range D.S.dim, u c q d * D.S.gradient y c q d) * D.S.value y c q)
      + (if D.stab then D.S.integral (fun c q => ν c * ∑ d ∈ range D.S.dim, D.S.gradient y c q d ^ 2) else 0)
      = if D.stab then (D.faces.map fun f => if D.symmetry f.bid then 0 else
          ∑ q ∈ range f.nQ, ν f.cell * (∑ d ∈ range D.S.dim, f.normal q d * f.gradient D.S.nDof y q d)
            * (∑ i ∈ range D.S.nDof, y i * f.val i q) * f.jxw q).sum else 0 := by
  intro y t'
  have h := (C64_step_solves_transport D hC hf hdiag t dt solve u ν old oldOld x hsolve).1 y
  rw [advance_satisfies D hC t dt solve u ν old oldOld x hx] at h
  have hr1 : (D.advance t dt solve u ν old oldOld x).1 = t' := rfl
  rw [hr1] at h
  have hcond : (t'.scheme = .bdf2 ∧ 1 < t'.stepNo) ↔ (t.scheme = .bdf2 ∧ 0 < t.stepNo) := by
    have a : t'.scheme = t.scheme := rfl
    have b : t'.stepNo = t.stepNo + 1 := rfl
    rw [a, b]
    constructor <;> rintro ⟨h1, h2⟩ <;> exact ⟨h1, by omega⟩
  have hif : (if t'.scheme = .bdf2 ∧ 1 < t'.stepNo then t'.wOldOld else 0) =
      if t.scheme = .bdf2 ∧ 0 < t.stepNo then t'.wOldOld else 0 := by
    by_cases hc : t.scheme = .bdf2 ∧ 0 < t.stepNo
    · rw [if_pos hc, if_pos (hcond.2 hc)]
    · rw [if_neg hc, if_neg (fun hh => hc (hcond.1 hh))]
  rw [hif] at h
  unfold Spec.transport at h
  dsimp only at h
  have e1 : ∀ o : K, D.S.integral (fun c q => (t'.w * D.S.value y c q + t'.wOld * D.S.value old c q + o * D.S.value oldOld c q
      + ∑ d ∈ range D.S.dim, u c q d * D.S.gradient y c q d) * D.S.value y c q) =
      D.S.integral (fun c q => t'.w * D.S.value y c q ^ 2 + t'.wOld * (D.S.value old c q * D.S.value y c q)
        + o * (D.S.value oldOld c q * D.S.value y c q))
      + D.S.integral (fun c q => (∑ d ∈ range D.S.dim, u c q d * D.S.gradient y c q d) * D.S.value y c q) := by
    intro o
    rw [← D.S.integral_add]
    exact D.S.integral_congr fun c _ q _ => by ring
  rw [e1] at h
  simp only [← sq] at h
  split_ifs at h ⊢ <;> linarith

/-- without artificial flux and gain the discrete time derivative does no positive work -/
theorem no_work (hC : D.C.Closed) (hs : D.NoFlux) (hdiag : ∀ i < D.S.nDof, (D.C.row i).isSome → D.diag i ≠ 0)
    (hj : ∀ c < D.S.nCell, ∀ q < D.S.nQ, 0 ≤ D.S.jxw c q)
    (t : TS K) (dt : K) (solve : ((ℕ → K) → ℕ → K) → (ℕ → K) → ℕ → K)
    (u : ℕ → ℕ → ℕ → K) (ν : ℕ → K) (hν : ∀ c, 0 ≤ ν c) (old oldOld x : ℕ → K) (hx : Spec.Homogeneous D x)
    (hsolve : D.Solved t dt solve u ν old oldOld x)
    (hg : Spec.NoGain D.S u (D.advance t dt solve u ν old oldOld x).2) :
    D.S.integral (fun c q => (t.setDesired dt).next.w * D.S.value (D.advance t dt solve u ν old oldOld x).2 c q ^ 2
      + (t.setDesired dt).next.wOld * (D.S.value old c q * D.S.value (D.advance t dt solve u ν old oldOld x).2 c q)
      + (if t.scheme = .bdf2 ∧ 0 < t.stepNo then (t.setDesired dt).next.wOldOld else 0)
        * (D.S.value oldOld c q * D.S.value (D.advance t dt solve u ν old oldOld x).2 c q)) ≤ 0 := by
  have h := C119_balance D hC (hs.elim .inl And.left) hdiag t dt solve u ν old oldOld x hx hsolve
  dsimp only at h
  have hflux : (if D.stab then (D.faces.map fun f => if D.symmetry f.bid then 0 else
          ∑ q ∈ range f.nQ, ν f.cell * (∑ d ∈ range D.S.dim, f.normal q d * f.gradient D.S.nDof
            (D.advance t dt solve u ν old oldOld x).2 q d)
            * (∑ i ∈ range D.S.nDof, (D.advance t dt solve u ν old oldOld x).2 i * f.val i q) * f.jxw q).sum else 0) = 0 := by
    rcases hs with hs | ⟨-, hs⟩
    · rw [hs]; rfl
    · split_ifs
      · apply List.sum_eq_zero
        intro z hz
        rw [List.mem_map] at hz
        obtain ⟨f, hf, rfl⟩ := hz
        rw [if_pos (hs f hf)]
      · rfl
  rw [hflux] at h
  have hd : 0 ≤ (if D.stab then D.S.integral (fun c q => ν c * ∑ d ∈ range D.S.dim,
      D.S.gradient (D.advance t dt solve u ν old oldOld x).2 c q d ^ 2) else 0) := by
    split_ifs
    · exact square_nonneg D.S hj fun c _ q _ => mul_nonneg (hν c) (sum_nonneg fun _ _ => sq_nonneg _)
    · exact le_rfl
  have hg' : 0 ≤ D.S.integral fun c q => (∑ d ∈ range D.S.dim, u c q d *
    D.S.gradient (D.advance t dt solve u ν old oldOld x).2 c q d) * D.S.value (D.advance t dt solve u ν old oldOld x).2 c q := hg
  linarith

section Step

variable (hC : D.C.Closed) (hs : D.NoFlux) (hdiag : ∀ i < D.S.nDof, (D.C.row i).isSome → D.diag i ≠ 0)
  (hj : ∀ c < D.S.nCell, ∀ q < D.S.nQ, 0 ≤ D.S.jxw c q) (p : Params K) (hp : p.Good)
  (t : TS K) (dt : K) (hr : Reachable p (t.setDesired dt)) (he : (t.setDesired dt).atEnd = false)
  (solve : ((ℕ → K) → ℕ → K) → (ℕ → K) → ℕ → K)
  (u : ℕ → ℕ → ℕ → K) (ν : ℕ → K) (hν : ∀ c, 0 ≤ ν c) (old oldOld x : ℕ → K) (hx : Spec.Homogeneous D x)
  (hsolve : D.Solved t dt solve u ν old oldOld x)
  (hg : Spec.NoGain D.S u (D.advance t dt solve u ν old oldOld x).2)

include hC hs hdiag hj hp hr he hν hx hsolve hg

/-- **C119 (one-step schemes, first step).** Whatever the step size, mesh and non-negative artificial viscosity, the mean square
norm of the level set does not grow in a transport step of a one-step scheme, nor in the first step of BDF-2: exactly if
`weight()` is the exact weight of the step sizes, else up to its relative staleness `2e-12`. -/
theorem C119_euler (hone : t.scheme ≠ .bdf2 ∨ t.stepNo = 0) :
    (1 - 2 / 10 ^ 12) * Spec.square D.S (D.advance t dt solve u ν old oldOld x).2 ≤ Spec.square D.S old ∧
    ((t.setDesired dt).next.w = (t.setDesired dt).exactWeight →
      Spec.square D.S (D.advance t dt solve u ν old oldOld x).2 ≤ Spec.square D.S old) := by
  have hw := no_work D hC hs hdiag hj t dt solve u ν hν old oldOld x hx hsolve hg
  obtain ⟨hpos, hO⟩ := euler_parts p hp t dt hr he hone
  obtain ⟨-, -, hclose, -⟩ := C05_weights_sum_zero p hp _ hr he
  rw [if_neg (by rintro ⟨a, b⟩; rcases hone with h | h <;> [exact h a; omega]), hO] at hw
  generalize (D.advance t dt solve u ν old oldOld x).2 = y at *
  clear hO
  generalize (t.setDesired dt).exactWeight = E at *
  generalize (t.setDesired dt).next.w = w at *
  have main : ∀ δ : K, (1 - δ) * E ≤ w → (1 - 2 * δ) * Spec.square D.S y ≤ Spec.square D.S old := by
    intro δ hδ
    have hle : D.S.integral (fun c q => E / 2 * ((1 - 2 * δ) * D.S.value y c q ^ 2 + -(D.S.value old c q ^ 2))) ≤ 0 := by
      refine le_trans (integral_le D.S hj fun c _ q _ => ?_) hw
      generalize D.S.value y c q = a
      generalize D.S.value old c q = b
      have h1 := mul_nonneg (sub_nonneg.2 hδ) (sq_nonneg a)
      have h2 := mul_nonneg hpos.le (sq_nonneg (a - b))
      linarith
    rw [D.S.integral_smul, D.S.integral_add, D.S.integral_smul, D.S.integral_neg] at hle
    have := nonpos_of_mul_nonpos_right hle (half_pos hpos)
    unfold Spec.square
    linarith
  constructor
  · have := main (1 / 10 ^ 12) (by have := (abs_le.1 hclose).1; linarith)
    have h2 : (2 : K) * (1 / 10 ^ 12) = 2 / 10 ^ 12 := by ring
    rwa [h2] at this
  · intro hx'
    have := main 0 (by rw [hx']; linarith)
    simpa using this

/-- **C119 (BDF-2 before the end).** In every BDF-2 step that does not reach the end time, whatever step size is requested, the
quantity `½ (|φ|² + |2φ - φ_old|²)` does not grow: exactly if `weight()` is exact, else up to `6e-12`. -/
theorem C119_bdf2 (hsch : t.scheme = .bdf2) (hn : 0 < t.stepNo) (hend : (t.setDesired dt).next.atEnd = false) :
    (1 - 6 / 10 ^ 12) * Spec.square2 D.S (D.advance t dt solve u ν old oldOld x).2 old ≤ Spec.square2 D.S old oldOld ∧
    ((t.setDesired dt).next.w = (t.setDesired dt).exactWeight →
      Spec.square2 D.S (D.advance t dt solve u ν old oldOld x).2 old ≤ Spec.square2 D.S old oldOld) := by
  have hw := no_work D hC hs hdiag hj t dt solve u ν hν old oldOld x hx hsolve hg
  obtain ⟨e, d, -, hd, hE, hO, hOO, hed⟩ := bdf2_parts p hp t dt hr he hsch hn
  obtain ⟨-, -, hclose, -⟩ := C05_weights_sum_zero p hp _ hr he
  have hed := hed hend
  rw [if_pos ⟨hsch, hn⟩, hO, hOO] at hw
  generalize (D.advance t dt solve u ν old oldOld x).2 = y at *
  subst hed
  rw [hE] at hclose ⊢
  generalize (t.setDesired dt).next.w = w at *
  have main : ∀ δ : K, (1 - δ) * (3 * d) ≤ w → 0 ≤ δ → (1 - 6 * δ) * Spec.square2 D.S y old ≤ Spec.square2 D.S old oldOld := by
    intro δ hδ hδ0
    have hle : D.S.integral (fun c q => d * ((1 - 6 * δ) * (1 / 2 * (D.S.value y c q ^ 2 + (2 * D.S.value y c q - D.S.value old c q) ^ 2))
        + -(1 / 2 * (D.S.value old c q ^ 2 + (2 * D.S.value old c q - D.S.value oldOld c q) ^ 2)))) ≤ 0 := by
      refine le_trans (integral_le D.S hj fun c _ q _ => ?_) hw
      generalize D.S.value y c q = a
      generalize D.S.value old c q = b
      generalize D.S.value oldOld c q = z
      have h1 := mul_nonneg (sub_nonneg.2 hδ) (sq_nonneg a)
      have h2 := mul_nonneg hd.le (sq_nonneg (a - 2 * b + z))
      have h3 := mul_nonneg (mul_nonneg hd.le hδ0) (sq_nonneg (2 * a - b))
      linarith
    rw [D.S.integral_smul, D.S.integral_add, D.S.integral_smul, D.S.integral_neg] at hle
    have := nonpos_of_mul_nonpos_right hle hd
    unfold Spec.square2
    linarith
  constructor
  · have := main (1 / 10 ^ 12) (by have := (abs_le.1 hclose).1; linarith) (by positivity)
    have h2 : (6 : K) * (1 / 10 ^ 12) = 6 / 10 ^ 12 := by ring
    rwa [h2] at this
  · intro hx'
    have := main 0 (by rw [hx']; linarith) le_rfl
    simpa using this

/-- **C119 (any BDF-2 step).** After any BDF-2 step, including the last one of a run, the squared norm is at most twice the
two-step quantity before the step. -/
theorem C119_bdf2_any_step (hsch : t.scheme = .bdf2) (hn : 0 < t.stepNo) :
    (1 - 2 / 10 ^ 12) * Spec.square D.S (D.advance t dt solve u ν old oldOld x).2 ≤ 2 * Spec.square2 D.S old oldOld ∧
    ((t.setDesired dt).next.w = (t.setDesired dt).exactWeight →
      Spec.square D.S (D.advance t dt solve u ν old oldOld x).2 ≤ 2 * Spec.square2 D.S old oldOld) := by
  have hw := no_work D hC hs hdiag hj t dt solve u ν hν old oldOld x hx hsolve hg
  obtain ⟨e, d, hepos, hd, hE, hO, hOO, -⟩ := bdf2_parts p hp t dt hr he hsch hn
  obtain ⟨-, -, hclose, -⟩ := C05_weights_sum_zero p hp _ hr he
  rw [if_pos ⟨hsch, hn⟩, hO, hOO] at hw
  generalize (D.advance t dt solve u ν old oldOld x).2 = y at *
  rw [hE] at hclose ⊢
  generalize (t.setDesired dt).next.w = w at *
  have main : ∀ δ : K, (1 - δ) * (e + d) ≤ w → (1 - 2 * δ) * Spec.square D.S y ≤ 2 * Spec.square2 D.S old oldOld := by
    intro δ hδ
    have hle : D.S.integral (fun c q => (e + d) / 2 * ((1 - 2 * δ) * D.S.value y c q ^ 2
        + -(2 * (1 / 2 * (D.S.value old c q ^ 2 + (2 * D.S.value old c q - D.S.value oldOld c q) ^ 2))))) ≤ 0 := by
      refine le_trans (integral_le D.S hj fun c _ q _ => ?_) hw
      generalize D.S.value y c q = a
      generalize D.S.value old c q = b
      generalize D.S.value oldOld c q = z
      have h1 := mul_nonneg (sub_nonneg.2 hδ) (sq_nonneg a)
      have h2 := mul_nonneg hd.le (sq_nonneg (a - 2 * b + z))
      have h3 := mul_nonneg hepos.le (sq_nonneg (a - b))
      have h4 := mul_nonneg hd.le (sq_nonneg b)
      have h5 := mul_nonneg hepos.le (sq_nonneg (2 * b - z))
      linarith
    rw [D.S.integral_smul, D.S.integral_add, D.S.integral_smul, D.S.integral_neg, D.S.integral_smul] at hle
    have := nonpos_of_mul_nonpos_right hle (half_pos (add_pos hepos hd))
    unfold Spec.square Spec.square2
    linarith
  constructor
  · have := main (1 / 10 ^ 12) (by have := (abs_le.1 hclose).1; linarith)
    have h2 : (2 : K) * (1 / 10 ^ 12) = 2 / 10 ^ 12 := by ring
    rwa [h2] at this
  · intro hx'
    have := main 0 (by rw [hx']; linarith)
    simpa using this

end Step

/-! ### Runs -/

theorem reachable_desired {p : Params K} (t : TS K) (d : K) (h : Reachable p t) : Reachable p (t.setDesired d) := by
  obtain ⟨cs, hok, hr⟩ := h
  refine ⟨cs ++ [.desired d], ?_, ?_⟩
  · intro c hc
    rcases List.mem_append.1 hc with hc | hc
    · exact hok c hc
    · rw [List.mem_singleton.1 hc]; trivial
  · have : ∀ (cs : List (Cmd K)) (t0 t : TS K), runCmds t0 cs = some t →
        runCmds t0 (cs ++ [.desired d]) = some (t.setDesired d) := by
      intro cs
      induction cs with
      | nil => intro t0 t h; simp [runCmds] at h; subst h; rfl
      | cons c cs ih =>
        intro t0 t h
        simp only [runCmds, Option.bind_eq_some_iff, List.cons_append] at h ⊢
        obtain ⟨t1, h1, h2⟩ := h
        exact ⟨t1, h1, ih t1 t h2⟩
    exact this cs _ _ hr

theorem square2_le (S : Space K) (hj : ∀ c < S.nCell, ∀ q < S.nQ, 0 ≤ S.jxw c q) (y z : ℕ → K) :
    2 * Spec.square2 S y z ≤ 7 * Spec.square S y + 3 * Spec.square S z := by
  unfold Spec.square2 Spec.square
  rw [← S.integral_smul, ← S.integral_smul, ← S.integral_smul, ← S.integral_add]
  refine integral_le S hj fun c _ q _ => ?_
  have := sq_nonneg (S.value y c q + S.value z c q)
  linarith

theorem square_le_square2 (S : Space K) (hj : ∀ c < S.nCell, ∀ q < S.nQ, 0 ≤ S.jxw c q) (y z : ℕ → K) :
    Spec.square S y ≤ 2 * Spec.square2 S y z := by
  unfold Spec.square2 Spec.square
  rw [← S.integral_smul]
  refine integral_le S hj fun c _ q _ => ?_
  have := sq_nonneg (2 * S.value y c q - S.value z c q)
  linarith

/-- **C119 (complete runs).** A run of transport steps from the construction of the clock, with arbitrary step requests, through
to the end time: if convection does not feed the level set and `weight()` is exact in all steps, the squared norm never
exceeds the initial one with a one-step scheme and never exceeds ten times the initial one with BDF-2, for any number of
steps. -/
theorem C119_run (hC : D.C.Closed) (hs : D.NoFlux) (hdiag : ∀ i < D.S.nDof, (D.C.row i).isSome → D.diag i ≠ 0)
    (hj : ∀ c < D.S.nCell, ∀ q < D.S.nQ, 0 ≤ D.S.jxw c q) (p : Params K) (hp : p.Good) (N : ℕ) (t : ℕ → TS K) (dt : ℕ → K)
    (solve : ℕ → ((ℕ → K) → ℕ → K) → (ℕ → K) → ℕ → K)
    (u : ℕ → ℕ → ℕ → ℕ → K) (ν x : ℕ → ℕ → K) (y oldOld : ℕ → ℕ → K)
    (h0 : t 0 = TS.ctor p) (hoo : ∀ n, oldOld (n + 1) = y n)
    (hstep : ∀ n < N, ((t n).setDesired (dt n)).atEnd = false ∧
      (t (n + 1), y (n + 1)) = D.advance (t n) (dt n) (solve n) (u n) (ν n) (y n) (oldOld n) (x n) ∧
      ((t n).setDesired (dt n)).next.w = ((t n).setDesired (dt n)).exactWeight ∧
      (∀ c, 0 ≤ ν n c) ∧ Spec.Homogeneous D (x n) ∧
      D.Solved (t n) (dt n) (solve n) (u n) (ν n) (y n) (oldOld n) (x n) ∧ Spec.NoGain D.S (u n) (y (n + 1))) :
    ∀ n ≤ N, (p.scheme ≠ .bdf2 → Spec.square D.S (y n) ≤ Spec.square D.S (y 0)) ∧
      Spec.square D.S (y n) ≤ 10 * Spec.square D.S (y 0) := by
  have hy : ∀ n < N, y (n + 1) = (D.advance (t n) (dt n) (solve n) (u n) (ν n) (y n) (oldOld n) (x n)).2 :=
    fun n hn => congrArg Prod.snd (hstep n hn).2.1
  have ht : ∀ n < N, t (n + 1) = ((t n).setDesired (dt n)).next := fun n hn => congrArg Prod.fst (hstep n hn).2.1
  have hreach : ∀ n ≤ N, Reachable p (t n) := by
    intro n
    induction n with
    | zero => intro _; rw [h0]; exact ⟨[], by simp, rfl⟩
    | succ n ih =>
      intro hn
      rw [ht n (by omega)]
      exact Reachable.next (reachable_desired _ _ (ih (by omega))) (hstep n (by omega)).1
  have hno : ∀ n ≤ N, (t n).stepNo = n ∧ (t n).scheme = p.scheme := by
    intro n
    induction n with
    | zero => intro _; rw [h0]; exact ⟨rfl, rfl⟩
    | succ n ih =>
      intro hn
      obtain ⟨a, b⟩ := ih (by omega)
      rw [ht n (by omega)]
      exact ⟨by show (t n).stepNo + 1 = _; rw [a], b⟩
  have hsq : ∀ z, 0 ≤ Spec.square D.S z := fun z => square_nonneg D.S hj fun _ _ _ _ => sq_nonneg _
  have hone : ∀ n < N, p.scheme ≠ .bdf2 ∨ n = 0 → Spec.square D.S (y (n + 1)) ≤ Spec.square D.S (y n) := by
    intro n hn hc
    obtain ⟨h1, -, h3, h4, h5, h6, h7⟩ := hstep n hn
    rw [hy n hn] at h7 ⊢
    exact (C119_euler D hC hs hdiag hj p hp (t n) (dt n) (reachable_desired _ _ (hreach n hn.le)) h1 (solve n) (u n) (ν n) h4
      (y n) (oldOld n) (x n) h5 h6 h7 (by rw [(hno n hn.le).1, (hno n hn.le).2]; exact hc)).2 h3
  by_cases hsch : p.scheme = .bdf2
  · -- the two-step quantity before the last step
    have hG : ∀ n, n + 1 < N → Spec.square2 D.S (y (n + 1)) (y n) ≤ Spec.square2 D.S (y 1) (y 0) := by
      intro n
      induction n with
      | zero => intro _; exact le_rfl
      | succ n ih =>
        intro hn
        refine le_trans ?_ (ih (by omega))
        have hlt : n + 1 < N := by omega
        obtain ⟨h1, -, h3, h4, h5, h6, h7⟩ := hstep (n + 1) hlt
        have hend : ((t (n + 1)).setDesired (dt (n + 1))).next.atEnd = false := by
          rw [← ht (n + 1) hlt]
          exact (hstep (n + 1 + 1) hn).1
        rw [hy (n + 1) hlt] at h7 ⊢
        rw [hoo] at *
        exact (C119_bdf2 D hC hs hdiag hj p hp (t (n + 1)) (dt (n + 1)) (reachable_desired _ _ (hreach _ hlt.le)) h1
          (solve (n + 1)) (u (n + 1)) (ν (n + 1)) h4 (y (n + 1)) (y n) (x (n + 1)) h5 h6 h7
          (by rw [(hno _ hlt.le).2]; exact hsch) (by rw [(hno _ hlt.le).1]; omega) hend).2 h3
    have hG0 : 1 ≤ N → 2 * Spec.square2 D.S (y 1) (y 0) ≤ 10 * Spec.square D.S (y 0) := by
      intro h1
      have a := square2_le D.S hj (y 1) (y 0)
      have b := hone 0 h1 (.inr rfl)
      have b : Spec.square D.S (y 1) ≤ Spec.square D.S (y 0) := b
      linarith
    intro n hn
    refine ⟨fun h => absurd hsch h, ?_⟩
    match n with
    | 0 => linarith [hsq (y 0)]
    | 1 =>
      have b : Spec.square D.S (y 1) ≤ Spec.square D.S (y 0) := hone 0 hn (.inr rfl)
      linarith [hsq (y 0)]
    | n + 2 =>
      have hlt : n + 1 < N := by omega
      obtain ⟨h1, -, h3, h4, h5, h6, h7⟩ := hstep (n + 1) hlt
      have hg := hG n hlt
      have hg0 := hG0 (by omega)
      rw [hy (n + 1) hlt] at h7 ⊢
      rw [hoo] at *
      have := (C119_bdf2_any_step D hC hs hdiag hj p hp (t (n + 1)) (dt (n + 1)) (reachable_desired _ _ (hreach _ hlt.le)) h1
          (solve (n + 1)) (u (n + 1)) (ν (n + 1)) h4 (y (n + 1)) (y n) (x (n + 1)) h5 h6 h7
          (by rw [(hno _ hlt.le).2]; exact hsch) (by rw [(hno _ hlt.le).1]; omega)).2 h3
      linarith
  · have hmono : ∀ n ≤ N, Spec.square D.S (y n) ≤ Spec.square D.S (y 0) := by
      intro n
      induction n with
      | zero => intro _; exact le_rfl
      | succ n ih => intro hn; exact le_trans (hone n (by omega) (.inl hsch)) (ih (by omega))
    intro n hn
    exact ⟨fun _ => hmono n hn, by linarith [hmono n hn, hsq (y 0)]⟩

/-! ### Concrete case: one linear element, artificial diffusion, symmetry boundary, a run of two BDF-2 steps to the end -/

def exSym : Advect ℚ := ⟨exSpace, ⟨fun _ => none⟩, fun _ => 1, true, fun _ => true, fun _ => none, [exFace], [exFace]⟩

def exClock3 : Params ℚ := ⟨.bdf2, 0, 3 / 2, 1, 2, 1 / 100⟩

/-- amplitudes 4, 2, 1 of an odd profile -/
def exY (n i : ℕ) : ℚ := (if i = 0 then -1 else 1) * (if n = 0 then 4 else if n = 1 then 2 else 1)

def exT : ℕ → TS ℚ
  | 0 => TS.ctor exClock3
  | n + 1 => ((exT n).setDesired (if n = 0 then 1 else 1 / 2)).next

/-- a spreading velocity -/
def exU (_ q _ : ℕ) : ℚ := if q = 0 then -1 / 4 else 1 / 4

example : exSym.C.Closed ∧ exSym.NoFlux ∧ exSym.stab = true ∧ (exT 2).atEnd = true ∧ exY 0 1 = 4 ∧ exY 2 1 = 1 ∧
    ∀ n < 2, ((exT n).setDesired (if n = 0 then 1 else 1 / 2)).atEnd = false ∧
      (exT (n + 1), exY (n + 1)) = exSym.advance (exT n) (if n = 0 then 1 else 1 / 2) (fun _ _ i => exY (n + 1) i - exY n i) exU
        (fun _ => 1 / 8) (exY n) (exY (n - 1)) (exY n) ∧
      ((exT n).setDesired (if n = 0 then 1 else 1 / 2)).next.w = ((exT n).setDesired (if n = 0 then 1 else 1 / 2)).exactWeight ∧
      (∀ c : ℕ, (0 : ℚ) ≤ (fun _ => 1 / 8 : ℕ → ℚ) c) ∧ Spec.Homogeneous exSym (exY n) ∧
      exSym.Solved (exT n) (if n = 0 then 1 else 1 / 2) (fun _ _ i => exY (n + 1) i - exY n i) exU
        (fun _ => 1 / 8) (exY n) (exY (n - 1)) (exY n) ∧
      Spec.NoGain exSym.S exU (exY (n + 1)) := by
  refine ⟨fun i c h => by simp [exSym] at h, .inr ⟨.inr ⟨rfl, fun f _ i _ c h => by simp [exSym] at h⟩, fun _ _ => rfl⟩, rfl,
    by decide +kernel, by decide +kernel, by decide +kernel, ?_⟩
  intro n hn
  refine ⟨?_, ?_, ?_, fun c => by norm_num, ⟨fun _ => rfl, fun _ => rfl⟩, ?_, ?_⟩
  · interval_cases n <;> decide +kernel
  · refine Prod.ext rfl ?_
    funext i
    show exY (n + 1) i = exY n i + (exY (n + 1) i - exY n i)
    ring
  · interval_cases n <;> decide +kernel
  · show ∀ k < 2, _
    interval_cases n <;> decide +kernel
  · unfold Spec.NoGain
    interval_cases n <;> decide +kernel

end Verif.LevelSet
