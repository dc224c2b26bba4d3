import Mathlib.Algebra.Order.Field.Basic
import Mathlib.Algebra.Order.Ring.Rat
import Mathlib.Algebra.BigOperators.Ring.Finset
import Mathlib.Tactic.Ring
import Mathlib.Tactic.Linarith
import Mathlib.Tactic.Positivity

/-!
# C66: artificial viscosity of the level set transport
(source/level_set_okz_advance_concentration.cc:335-364)

Arithmetic is exact except for divisions by zero, which give infinity or NaN as in IEEE arithmetic, and are propagated.
-/

set_option linter.unusedSectionVars false

namespace Verif.LevelSet

open Finset

variable {K : Type*} [Field K] [LinearOrder K] [IsStrictOrderedRing K]

/-- A nonnegative `double`: finite, `+inf` or NaN. -/
inductive Fl (K : Type*)
  | fin (x : K)
  | inf
  | nan
  deriving DecidableEq

/-- `<` of `double`: false if one argument is NaN. -/
def Fl.lt : Fl K → Fl K → Bool
  | .fin x, .fin y => decide (x < y)
  | .fin _, .inf => true
  | _, _ => false

/-- `std::max(a, b)`: for scalar types `a < b ? b : a`; for SIMD types the instruction `maxpd`, `a > b ? a : b`. -/
def Fl.max (simd : Bool) (a b : Fl K) : Fl K :=
  if simd then (if b.lt a then a else b) else (if a.lt b then b else a)

/-- `std::min(a, b)`: for scalar types `b < a ? b : a`; for SIMD types `minpd`, `a < b ? a : b`. -/
def Fl.min (simd : Bool) (a b : Fl K) : Fl K :=
  if simd then (if a.lt b then a else b) else (if b.lt a then b else a)

/-- `|x / y + z|` for finite `x, y, z`. -/
def absQuotPlus (x y z : K) : Fl K :=
  if y = 0 then (if x = 0 then .nan else .inf) else .fin |x / y + z|

/-- `a / s` with finite `s >= 0`. -/
def Fl.div (a : Fl K) (s : K) : Fl K :=
  match a with
  | .fin x => if s = 0 then (if x = 0 then .nan else .inf) else .fin (x / s)
  | .inf => .inf
  | .nan => .nan

/-- `k * a` with finite `k >= 0`. -/
def Fl.scale (k : K) (a : Fl K) : Fl K :=
  match a with
  | .fin x => .fin (k * x)
  | .inf => if k = 0 then .nan else .inf
  | .nan => .nan

/-- What the quadrature loop reads on a cell (lines 337-353): values of the two old level sets, their gradients and the two
old velocities. -/
structure ViscPoint (K : Type*) where
  old : K
  oldOld : K
  gradOld : ℕ → K
  gradOldOld : ℕ → K
  velOld : ℕ → K
  velOldOld : ℕ → K

/-- `residual` of lines 340-350; `tauOld` is `old_step_size()`. -/
def ViscPoint.residual (dim : ℕ) (tauOld : K) (p : ViscPoint K) : Fl K :=
  absQuotPlus (p.old - p.oldOld) tauOld
    ((∑ d ∈ range dim, (p.velOld d + p.velOldOld d) * (p.gradOld d + p.gradOldOld d)) * (1 / 4))

/-- `u * u` of line 352. -/
def ViscPoint.speedSq (dim : ℕ) (p : ViscPoint K) : K :=
  ∑ d ∈ range dim, (p.velOld d + p.velOldOld d) * (p.velOld d + p.velOldOld d)

/-- `max_residual` after the loop (line 351). -/
def maxResidual (simd : Bool) (dim : ℕ) (tauOld : K) (ps : List (ViscPoint K)) : Fl K :=
  ps.foldl (fun m p => Fl.max simd (p.residual dim tauOld) m) (.fin 0)

/-- `max_velocity` after the loop (line 352); `sqrt` is the square root used. -/
def maxSpeed (sqrt : K → K) (dim : ℕ) (ps : List (ViscPoint K)) : K :=
  ps.foldl (fun m p => Max.max (sqrt (p.speedSq dim)) m) 0

/-- `artificial_viscosities[cell]`, lines 354-360. -/
def artificialViscosity (simd : Bool) (sqrt : K → K) (dim : ℕ) (tauOld globalMaxVelocity omegaDiameter cellDiameter : K)
    (ps : List (ViscPoint K)) : Fl K :=
  let globalScaling := globalMaxVelocity * 2 * omegaDiameter
  Fl.scale (3 / 100 * maxSpeed sqrt dim ps * cellDiameter)
    (Fl.min simd (.fin 1) ((maxResidual simd dim tauOld ps).div globalScaling))

/-! ### Proofs -/

/-- Nonnegative: NaN, infinite or a nonnegative number. -/
def Fl.NonNeg : Fl K → Prop
  | .fin x => 0 ≤ x
  | _ => True

theorem residual_nonneg (dim : ℕ) (τ : K) (p : ViscPoint K) : (p.residual dim τ).NonNeg := by
  unfold ViscPoint.residual absQuotPlus
  split_ifs <;> simp [Fl.NonNeg]

theorem max_nonneg (simd : Bool) {a b : Fl K} (ha : a.NonNeg) (hb : b.NonNeg) : (Fl.max simd a b).NonNeg := by
  unfold Fl.max; split_ifs <;> assumption

theorem maxResidual_nonneg (simd : Bool) (dim : ℕ) (τ : K) (ps : List (ViscPoint K)) :
    (maxResidual simd dim τ ps).NonNeg := by
  unfold maxResidual
  have : ∀ (ps : List (ViscPoint K)) (m : Fl K), m.NonNeg →
      (ps.foldl (fun m p => Fl.max simd (p.residual dim τ) m) m).NonNeg := by
    intro ps
    induction ps with
    | nil => intro m h; exact h
    | cons p ps ih => intro m h; exact ih _ (max_nonneg simd (residual_nonneg dim τ p) h)
  exact this ps _ (le_refl (0 : K))

theorem maxSpeed_nonneg (sqrt : K → K) (dim : ℕ) (ps : List (ViscPoint K)) : 0 ≤ maxSpeed sqrt dim ps := by
  unfold maxSpeed
  have : ∀ (ps : List (ViscPoint K)) (m : K), 0 ≤ m →
      0 ≤ ps.foldl (fun m p => Max.max (sqrt (p.speedSq dim)) m) m := by
    intro ps
    induction ps with
    | nil => intro m h; exact h
    | cons p ps ih => intro m h; exact ih _ (le_trans h (le_max_right _ _))
  exact this ps _ le_rfl

theorem maxSpeed_le (sqrt : K → K) (dim : ℕ) (ps : List (ViscPoint K)) (b : K) (hb : 0 ≤ b)
    (h : ∀ p ∈ ps, sqrt (p.speedSq dim) ≤ b) : maxSpeed sqrt dim ps ≤ b := by
  unfold maxSpeed
  have : ∀ (ps : List (ViscPoint K)) (m : K), m ≤ b → (∀ p ∈ ps, sqrt (p.speedSq dim) ≤ b) →
      ps.foldl (fun m p => Max.max (sqrt (p.speedSq dim)) m) m ≤ b := by
    intro ps
    induction ps with
    | nil => intro m h _; exact h
    | cons p ps ih =>
      intro m hm h
      exact ih _ (max_le (h p List.mem_cons_self) hm) fun q hq => h q (List.mem_cons_of_mem _ hq)
  exact this ps _ hb h

theorem le_maxSpeed (sqrt : K → K) (dim : ℕ) (ps : List (ViscPoint K)) (p : ViscPoint K) (hp : p ∈ ps) :
    sqrt (p.speedSq dim) ≤ maxSpeed sqrt dim ps := by
  unfold maxSpeed
  have mono : ∀ (ps : List (ViscPoint K)) (m : K), m ≤ ps.foldl (fun m p => Max.max (sqrt (p.speedSq dim)) m) m := by
    intro ps
    induction ps with
    | nil => intro m; exact le_rfl
    | cons p ps ih => intro m; exact le_trans (le_max_right _ _) (ih _)
  have : ∀ (ps : List (ViscPoint K)) (m : K), p ∈ ps →
      sqrt (p.speedSq dim) ≤ ps.foldl (fun m p => Max.max (sqrt (p.speedSq dim)) m) m := by
    intro ps
    induction ps with
    | nil => intro m h; simp at h
    | cons r ps ih =>
      intro m h
      rcases List.mem_cons.1 h with rfl | h
      · exact le_trans (le_max_left _ _) (mono _ _)
      · exact ih _ h
  exact this ps _ hp

/-- the factor between zero and one -/
theorem factor_bounds (simd : Bool) {s : K} (hs : 0 ≤ s) {m : Fl K} (hm : m.NonNeg)
    (h : simd = true → 0 < s ∧ m ≠ .nan) :
    ∃ f, Fl.min simd (.fin 1) (m.div s) = .fin f ∧ 0 ≤ f ∧ f ≤ 1 := by
  have key : ∀ b : Fl K, b.NonNeg → (simd = true → b ≠ .nan) → ∃ f, Fl.min simd (.fin 1) b = .fin f ∧ 0 ≤ f ∧ f ≤ 1 := by
    intro b hb hn
    unfold Fl.min
    cases b with
    | fin x =>
      cases simd
      · by_cases hx : x < 1
        · exact ⟨x, by simp [Fl.lt, hx], hb, hx.le⟩
        · exact ⟨1, by simp [Fl.lt, hx], zero_le_one, le_rfl⟩
      · by_cases hx : 1 < x
        · exact ⟨1, by simp [Fl.lt, hx], zero_le_one, le_rfl⟩
        · exact ⟨x, by simp [Fl.lt, hx], hb, not_lt.1 hx⟩
    | inf => exact ⟨1, by cases simd <;> simp [Fl.lt], zero_le_one, le_rfl⟩
    | nan =>
      cases simd
      · exact ⟨1, by simp [Fl.lt], zero_le_one, le_rfl⟩
      · exact absurd rfl (hn rfl)
  refine key _ ?_ ?_
  · cases m with
    | fin x =>
      unfold Fl.div
      dsimp only
      split_ifs
      · trivial
      · trivial
      · exact div_nonneg hm hs
    | inf => trivial
    | nan => trivial
  · intro hsi
    obtain ⟨h1, h2⟩ := h hsi
    cases m with
    | fin x => unfold Fl.div; dsimp only; rw [if_neg h1.ne']; simp
    | inf => simp [Fl.div]
    | nan => exact absurd rfl h2

/-- with SIMD instructions the running maximum is never NaN -/
theorem maxResidual_simd (dim : ℕ) (τ : K) (ps : List (ViscPoint K)) : maxResidual true dim τ ps ≠ .nan := by
  unfold maxResidual
  have : ∀ (ps : List (ViscPoint K)) (m : Fl K), m ≠ .nan →
      ps.foldl (fun m p => Fl.max true (p.residual dim τ) m) m ≠ .nan := by
    intro ps
    induction ps with
    | nil => intro m h; exact h
    | cons p ps ih =>
      intro m h
      refine ih _ ?_
      unfold Fl.max
      dsimp only
      rw [if_pos rfl]
      split_ifs with hl
      · cases hr : p.residual dim τ with
        | nan => rw [hr] at hl; cases m <;> simp [Fl.lt] at hl
        | fin x => simp
        | inf => simp
      · exact h
  exact this ps _ (by simp)

/-- **C66 (bounds).** If the maximal velocity and the size of the domain are positive (with scalar arithmetic: always), the
artificial viscosity is a number between zero and `0.03 * max|u_old + u_old_old| * h`: in every step including the first, in
which the old step size is zero, and for every velocity and level set. -/
theorem C66_bounds (simd : Bool) (sqrt : K → K) (dim : ℕ) (τ U Ω h : K) (hU : 0 ≤ U) (hΩ : 0 ≤ Ω) (hh : 0 ≤ h)
    (hpos : simd = true → 0 < U ∧ 0 < Ω) (ps : List (ViscPoint K)) :
    ∃ ν, artificialViscosity simd sqrt dim τ U Ω h ps = .fin ν ∧ 0 ≤ ν ∧ ν ≤ 3 / 100 * maxSpeed sqrt dim ps * h := by
  obtain ⟨f, h1, h2, h3⟩ := factor_bounds simd (s := U * 2 * Ω) (by positivity) (maxResidual_nonneg simd dim τ ps)
    (fun hs => ⟨by have := hpos hs; have := this.1; have := (hpos hs).2; positivity, by rw [hs]; exact maxResidual_simd dim τ ps⟩)
  have hk : 0 ≤ 3 / 100 * maxSpeed sqrt dim ps * h := by have := maxSpeed_nonneg sqrt dim ps; positivity
  refine ⟨3 / 100 * maxSpeed sqrt dim ps * h * f, ?_, mul_nonneg hk h2, ?_⟩
  · unfold artificialViscosity
    dsimp only
    rw [h1]; rfl
  · calc _ ≤ 3 / 100 * maxSpeed sqrt dim ps * h * 1 := mul_le_mul_of_nonneg_left h3 hk
      _ = _ := mul_one _

/-- **C66 (first order bound).** Hence it is at most `0.06 * V * h` when no old velocity exceeds `V` in the sense
`|u_old + u_old_old| <= 2 V`. -/
theorem C66_first_order (simd : Bool) (sqrt : K → K) (dim : ℕ) (τ U Ω h V : K) (hU : 0 ≤ U) (hΩ : 0 ≤ Ω) (hh : 0 ≤ h)
    (hV : 0 ≤ V) (hpos : simd = true → 0 < U ∧ 0 < Ω) (ps : List (ViscPoint K))
    (hp : ∀ p ∈ ps, sqrt (p.speedSq dim) ≤ 2 * V) :
    ∃ ν, artificialViscosity simd sqrt dim τ U Ω h ps = .fin ν ∧ 0 ≤ ν ∧ ν ≤ 6 / 100 * V * h := by
  obtain ⟨ν, h1, h2, h3⟩ := C66_bounds simd sqrt dim τ U Ω h hU hΩ hh hpos ps
  refine ⟨ν, h1, h2, h3.trans ?_⟩
  have := maxSpeed_le sqrt dim ps (2 * V) (by positivity) hp
  have : 3 / 100 * maxSpeed sqrt dim ps * h ≤ 3 / 100 * (2 * V) * h := by gcongr
  linarith

/-- **C66 (consistency).** After the first step, the viscosity vanishes on a cell if at all its quadrature points the two old
levels satisfy the transport equation with the averages of the old gradients and velocities. -/
theorem C66_vanishes_on_solutions (simd : Bool) (sqrt : K → K) (dim : ℕ) (τ U Ω h : K) (hτ : 0 < τ) (hU : 0 < U)
    (hΩ : 0 < Ω) (ps : List (ViscPoint K))
    (hres : ∀ p ∈ ps, (p.old - p.oldOld) / τ + ∑ d ∈ range dim,
      (p.velOld d + p.velOldOld d) / 2 * ((p.gradOld d + p.gradOldOld d) / 2) = 0) :
    artificialViscosity simd sqrt dim τ U Ω h ps = .fin 0 := by
  have hz : ∀ p ∈ ps, p.residual dim τ = .fin 0 := by
    intro p hp
    unfold ViscPoint.residual absQuotPlus
    rw [if_neg hτ.ne']
    have e : (∑ d ∈ range dim, (p.velOld d + p.velOldOld d) * (p.gradOld d + p.gradOldOld d)) * (1 / 4) =
        ∑ d ∈ range dim, (p.velOld d + p.velOldOld d) / 2 * ((p.gradOld d + p.gradOldOld d) / 2) := by
      rw [sum_mul]; exact sum_congr rfl fun d _ => by ring
    rw [e, hres p hp, abs_zero]
  have hm : maxResidual simd dim τ ps = .fin 0 := by
    unfold maxResidual
    have : ∀ ps : List (ViscPoint K), (∀ p ∈ ps, p.residual dim τ = .fin 0) →
        ps.foldl (fun m p => Fl.max simd (p.residual dim τ) m) (.fin 0) = .fin 0 := by
      intro ps
      induction ps with
      | nil => intro _; rfl
      | cons p ps ih =>
        intro h
        rw [List.foldl_cons, h p List.mem_cons_self]
        have : Fl.max simd (.fin (0 : K)) (.fin 0) = .fin 0 := by unfold Fl.max; split_ifs <;> rfl
        rw [this]
        exact ih fun q hq => h q (List.mem_cons_of_mem _ hq)
    exact this ps hz
  unfold artificialViscosity
  dsimp only
  rw [hm]
  have hs : U * 2 * Ω ≠ 0 := by positivity
  have : Fl.min simd (.fin 1) ((Fl.fin (0 : K)).div (U * 2 * Ω)) = .fin 0 := by
    have e : (Fl.fin (0 : K)).div (U * 2 * Ω) = .fin 0 := by simp [Fl.div, hs]
    rw [e]
    unfold Fl.min
    cases simd <;> simp [Fl.lt, not_lt.2 (zero_le_one (α := K))]
  rw [this]
  simp [Fl.scale]

/-- The residual of the transport equation at a quadrature point, from the averages of the two old levels. -/
def Spec.pointResidual (dim : ℕ) (τ : K) (p : ViscPoint K) : K :=
  (p.old - p.oldOld) / τ + ∑ d ∈ range dim, (p.velOld d + p.velOldOld d) / 2 * ((p.gradOld d + p.gradOldOld d) / 2)

/-- `m` is the largest of the nonnegative numbers `f p` over a list, zero for the empty one. -/
def Spec.IsLargest {α : Type*} (l : List α) (f : α → K) (m : K) : Prop :=
  (∀ p ∈ l, f p ≤ m) ∧ ((l = [] ∧ m = 0) ∨ ∃ p ∈ l, f p = m)

theorem foldl_largest {α : Type*} (f : α → K) (hf : ∀ p, 0 ≤ f p) (l : List α) :
    Spec.IsLargest l f (l.foldl (fun m p => Max.max (f p) m) 0) := by
  have : ∀ (l : List α) (m : K), (∀ p ∈ l, f p ≤ l.foldl (fun m p => Max.max (f p) m) m) ∧
      m ≤ l.foldl (fun m p => Max.max (f p) m) m ∧
      (l.foldl (fun m p => Max.max (f p) m) m = m ∨ ∃ p ∈ l, f p = l.foldl (fun m p => Max.max (f p) m) m) := by
    intro l
    induction l with
    | nil => intro m; exact ⟨by simp, le_rfl, .inl rfl⟩
    | cons p l ih =>
      intro m
      rw [List.foldl_cons]
      obtain ⟨h1, h2, h3⟩ := ih (Max.max (f p) m)
      refine ⟨?_, le_trans (le_max_right _ _) h2, ?_⟩
      · intro r hr
        rcases List.mem_cons.1 hr with rfl | hr
        · exact le_trans (le_max_left _ _) h2
        · exact h1 r hr
      · rcases h3 with h3 | ⟨r, hr, h3⟩
        · rcases le_total (f p) m with hpm | hpm
          · left; rw [h3, max_eq_right hpm]
          · right; exact ⟨p, List.mem_cons_self, by rw [h3, max_eq_left hpm]⟩
        · right; exact ⟨r, List.mem_cons_of_mem _ hr, h3⟩
  obtain ⟨h1, h2, h3⟩ := this l 0
  refine ⟨h1, ?_⟩
  cases l with
  | nil => exact .inl ⟨rfl, rfl⟩
  | cons p l =>
    right
    rcases h3 with h3 | h3
    · refine ⟨p, List.mem_cons_self, le_antisymm (h1 p List.mem_cons_self) ?_⟩
      rw [h3]; exact hf p
    · exact h3

/-- **C66 (value).** After the first step (positive old step size) and with positive maximal velocity and domain size the
viscosity is `0.03 S h min(1, R / (2 U Ω))` with the largest speed `S = |u_old + u_old_old|` and the largest residual `R` of
the transport equation over the quadrature points, with SIMD and with scalar arithmetic alike. -/
theorem C66_value (simd : Bool) (sqrt : K → K) (hsq : ∀ x, 0 ≤ sqrt x) (dim : ℕ) (τ U Ω h : K) (hτ : 0 < τ) (hU : 0 < U)
    (hΩ : 0 < Ω) (ps : List (ViscPoint K)) :
    ∃ S R, Spec.IsLargest ps (fun p => sqrt (∑ d ∈ range dim, (p.velOld d + p.velOldOld d) ^ 2)) S ∧
      Spec.IsLargest ps (fun p => |Spec.pointResidual dim τ p|) R ∧
      artificialViscosity simd sqrt dim τ U Ω h ps = .fin (3 / 100 * S * h * Min.min 1 (R / (2 * U * Ω))) := by
  have hz : ∀ p : ViscPoint K, p.residual dim τ = .fin |Spec.pointResidual dim τ p| := by
    intro p
    unfold ViscPoint.residual absQuotPlus Spec.pointResidual
    rw [if_neg hτ.ne']
    have e : (∑ d ∈ range dim, (p.velOld d + p.velOldOld d) * (p.gradOld d + p.gradOldOld d)) * (1 / 4) =
        ∑ d ∈ range dim, (p.velOld d + p.velOldOld d) / 2 * ((p.gradOld d + p.gradOldOld d) / 2) := by
      rw [sum_mul]; exact sum_congr rfl fun d _ => by ring
    rw [e]
  have hmax : ∀ a b : K, Fl.max simd (.fin a) (.fin b) = .fin (Max.max a b) := by
    intro a b
    unfold Fl.max Fl.lt
    cases simd <;> simp only [decide_eq_true_eq, if_true, if_false, Bool.false_eq_true]
    · split_ifs with hl
      · rw [max_eq_right hl.le]
      · rw [max_eq_left (not_lt.1 hl)]
    · split_ifs with hl
      · rw [max_eq_left hl.le]
      · rw [max_eq_right (not_lt.1 hl)]
  have hfold : ∀ (l : List (ViscPoint K)) (m : K), l.foldl (fun m p => Fl.max simd (p.residual dim τ) m) (.fin m) =
      .fin (l.foldl (fun m p => Max.max |Spec.pointResidual dim τ p| m) m) := by
    intro l
    induction l with
    | nil => intro m; rfl
    | cons p l ih => intro m; rw [List.foldl_cons, hz, hmax, ih]; rfl
  refine ⟨_, _, foldl_largest _ (fun p => hsq _) ps, foldl_largest _ (fun p => abs_nonneg _) ps, ?_⟩
  unfold artificialViscosity maxResidual
  dsimp only
  rw [hfold]
  have hs : U * 2 * Ω ≠ 0 := by positivity
  have hsp : ∀ p : ViscPoint K, p.speedSq dim = ∑ d ∈ range dim, (p.velOld d + p.velOldOld d) ^ 2 := fun p =>
    sum_congr rfl fun d _ => by ring
  unfold maxSpeed
  simp only [hsp]
  generalize ps.foldl (fun m p => Max.max |Spec.pointResidual dim τ p| m) 0 = R
  have e : (Fl.fin R).div (U * 2 * Ω) = .fin (R / (2 * U * Ω)) := by
    unfold Fl.div; dsimp only; rw [if_neg hs, mul_comm U 2]
  rw [e]
  have : Fl.min simd (.fin 1) (.fin (R / (2 * U * Ω))) = .fin (Min.min 1 (R / (2 * U * Ω))) := by
    generalize R / (2 * U * Ω) = x
    unfold Fl.min Fl.lt
    cases simd <;> simp only [decide_eq_true_eq, if_true, if_false, Bool.false_eq_true]
    · split_ifs with hl
      · rw [min_eq_right hl.le]
      · rw [min_eq_left (not_lt.1 hl)]
    · split_ifs with hl
      · rw [min_eq_left hl.le]
      · rw [min_eq_right (not_lt.1 hl)]
  rw [this]; rfl

/-- **C66 (limit: fluid at rest).** With SIMD arithmetic and zero velocity everywhere the viscosity is NaN on every cell on
which the level set did not change between the two old levels (or in the first step): the scaling is `0/0`. -/
theorem C66_rest_is_nan (sqrt : K → K) (dim : ℕ) (τ Ω h : K) (ps : List (ViscPoint K))
    (hps : ∀ p ∈ ps, p.old = p.oldOld ∧ (∀ d, p.velOld d = 0) ∧ ∀ d, p.velOldOld d = 0) :
    artificialViscosity true sqrt dim τ 0 Ω h ps = .nan := by
  have hm : maxResidual true dim τ ps = .fin 0 := by
    unfold maxResidual
    have : ∀ ps : List (ViscPoint K), (∀ p ∈ ps, p.residual dim τ = .fin 0 ∨ p.residual dim τ = .nan) →
        ps.foldl (fun m p => Fl.max true (p.residual dim τ) m) (.fin 0) = .fin 0 := by
      intro ps
      induction ps with
      | nil => intro _; rfl
      | cons p ps ih =>
        intro h
        rw [List.foldl_cons]
        have : Fl.max true (p.residual dim τ) (.fin 0) = .fin 0 := by
          rcases h p List.mem_cons_self with e | e <;> rw [e] <;> simp [Fl.max, Fl.lt]
        rw [this]
        exact ih fun q hq => h q (List.mem_cons_of_mem _ hq)
    refine this ps fun p hp => ?_
    obtain ⟨h1, h2, h3⟩ := hps p hp
    unfold ViscPoint.residual absQuotPlus
    rw [h1, sub_self]
    have : ∑ d ∈ range dim, (p.velOld d + p.velOldOld d) * (p.gradOld d + p.gradOldOld d) = 0 :=
      sum_eq_zero fun d _ => by rw [h2, h3]; ring
    rw [this]
    by_cases h0 : τ = 0
    · right; rw [if_pos h0, if_pos rfl]
    · left; rw [if_neg h0]; simp
  unfold artificialViscosity
  dsimp only
  rw [hm]
  simp [Fl.div, Fl.min, Fl.lt, Fl.scale]

/-- **C66 (limit: first step).** In the first step (old step size zero) on a cell with equal old levels and at least one
quadrature point, SIMD arithmetic gives no artificial viscosity, scalar arithmetic the largest one. -/
theorem C66_first_step (sqrt : K → K) (dim : ℕ) (U Ω h : K) (hU : 0 < U) (hΩ : 0 < Ω) (ps : List (ViscPoint K))
    (hne : ps ≠ []) (hps : ∀ p ∈ ps, p.old = p.oldOld) :
    artificialViscosity true sqrt dim 0 U Ω h ps = .fin 0 ∧
    artificialViscosity false sqrt dim 0 U Ω h ps = .fin (3 / 100 * maxSpeed sqrt dim ps * h) := by
  have hr : ∀ p ∈ ps, p.residual dim 0 = .nan := by
    intro p hp
    unfold ViscPoint.residual absQuotPlus
    rw [if_pos rfl, if_pos (by rw [hps p hp, sub_self])]
  have hs : U * 2 * Ω ≠ 0 := by positivity
  constructor
  · have hm : maxResidual true dim 0 ps = .fin 0 := by
      unfold maxResidual
      have : ∀ ps : List (ViscPoint K), (∀ p ∈ ps, p.residual dim 0 = .nan) →
          ps.foldl (fun m p => Fl.max true (p.residual dim 0) m) (.fin 0) = .fin 0 := by
        intro ps
        induction ps with
        | nil => intro _; rfl
        | cons p ps ih =>
          intro h
          rw [List.foldl_cons, h p List.mem_cons_self]
          exact ih fun q hq => h q (List.mem_cons_of_mem _ hq)
      exact this ps hr
    unfold artificialViscosity
    dsimp only
    rw [hm]
    simp [Fl.div, hs, Fl.min, Fl.lt, not_lt.2 (zero_le_one (α := K)), Fl.scale]
  · have hm : maxResidual false dim 0 ps = .nan := by
      unfold maxResidual
      have : ∀ (ps : List (ViscPoint K)) (m : Fl K), (∀ p ∈ ps, p.residual dim 0 = .nan) → (ps ≠ [] ∨ m = .nan) →
          ps.foldl (fun m p => Fl.max false (p.residual dim 0) m) m = .nan := by
        intro ps
        induction ps with
        | nil => intro m _ h; simpa using h
        | cons p ps ih =>
          intro m h _
          rw [List.foldl_cons, h p List.mem_cons_self]
          refine ih _ (fun q hq => h q (List.mem_cons_of_mem _ hq)) (.inr ?_)
          simp [Fl.max, Fl.lt]
      exact this ps _ hr (.inl hne)
    unfold artificialViscosity
    dsimp only
    rw [hm]
    simp [Fl.div, Fl.min, Fl.lt, Fl.scale]

/-! ### Concrete cases -/

def exVisc : ViscPoint ℚ := ⟨1, 0, fun _ => 1, fun _ => 1, fun _ => 2, fun _ => 2, ⟩

/-- A cell on which half of the largest viscosity is reached. -/
example : artificialViscosity true (fun _ => 4) 1 1 1 3 1 [exVisc] = .fin (3 / 100 * 4 * (1 / 2)) := by decide +kernel
/-- A cell with an exact solution: `1/τ = 1`, averages `u = -1`, `∇φ = 1`. -/
example : ∀ p ∈ [(⟨1, 0, fun _ => 1, fun _ => 1, fun _ => -1, fun _ => -1⟩ : ViscPoint ℚ)],
    (p.old - p.oldOld) / 1 + ∑ d ∈ range 1,
      (p.velOld d + p.velOldOld d) / 2 * ((p.gradOld d + p.gradOldOld d) / 2) = 0 := by decide +kernel

end Verif.LevelSet
