import Mathlib.Algebra.Order.Field.Basic
import Mathlib.Data.Int.Log
import Mathlib.Algebra.Order.Floor.Ring
import Mathlib.Tactic.Linarith
import Mathlib.Tactic.Positivity
import Mathlib.Tactic.FieldSimp
import Mathlib.Tactic.Ring
import Mathlib.Tactic.NormNum

/-!
# Floating point rounding

What the theorems about the clock in floating point arithmetic (Verif/Time/Float.lean) use of IEEE 754: every operation returns the
exact result, rounded by a monotone map onto the representable numbers, with relative error at most `u`. Overflow and underflow are
not covered. `nearest p` is a concrete instance: binary numbers with `p + 1` significant bits (`p = 52` for `double`),
rounded to nearest, ties away from zero, with unbounded exponent.
-/

set_option linter.unusedSectionVars false

namespace Verif.Time

variable {K : Type*} [Field K] [LinearOrder K] [IsStrictOrderedRing K]

/-- A rounding: monotone projection with relative error at most `u < 1`. -/
structure Rounding (K : Type*) [Field K] [LinearOrder K] where
  rd : K → K
  u : K
  mono : ∀ x y, x ≤ y → rd x ≤ rd y
  idem : ∀ x, rd (rd x) = rd x
  err : ∀ x, |rd x - x| ≤ u * |x|
  u_nonneg : 0 ≤ u
  u_lt : u < 1

namespace Rounding
variable (R : Rounding K)

/-- the exactly representable numbers -/
def Rep (x : K) : Prop := R.rd x = x

theorem rep_rd (x : K) : R.Rep (R.rd x) := R.idem x

theorem zero : R.rd 0 = 0 := by
  have := R.err 0
  simp only [sub_zero, abs_zero, mul_zero] at this
  exact abs_nonpos_iff.1 this

theorem bounds {x : K} (hx : 0 ≤ x) : (1 - R.u) * x ≤ R.rd x ∧ R.rd x ≤ (1 + R.u) * x := by
  have h := abs_le.1 (R.err x)
  rw [abs_of_nonneg hx] at h
  constructor <;> nlinarith [h.1, h.2]

theorem nonneg {x : K} (hx : 0 ≤ x) : 0 ≤ R.rd x := by
  have := R.mono 0 x hx; rwa [R.zero] at this

theorem nonpos {x : K} (hx : x ≤ 0) : R.rd x ≤ 0 := by
  have := R.mono x 0 hx; rwa [R.zero] at this

theorem pos {x : K} (hx : 0 < x) : 0 < R.rd x := by
  have h := (R.bounds hx.le).1
  have : 0 < (1 - R.u) * x := mul_pos (by linarith [R.u_lt]) hx
  linarith

/-- exact arithmetic -/
def exact : Rounding K where
  rd := id
  u := 0
  mono := fun _ _ h => h
  idem := fun _ => rfl
  err := fun x => by simp
  u_nonneg := le_refl _
  u_lt := zero_lt_one

end Rounding

/-! ## Round to nearest -/

section Nearest
variable [FloorRing K]

/-- unit in the last place of a positive number with `p + 1` significant bits -/
noncomputable def ulp (p : ℕ) (x : K) : K := (2 : K) ^ (Int.log 2 x - p)

/-- nearest number with `p + 1` significant bits, for positive numbers -/
noncomputable def nearestPos (p : ℕ) (x : K) : K := (⌊x / ulp p x + 1 / 2⌋ : K) * ulp p x

theorem ulp_pos (p : ℕ) (x : K) : 0 < ulp p x := zpow_pos (by norm_num) _

theorem log_bounds {x : K} (hx : 0 < x) : (2 : K) ^ Int.log 2 x ≤ x ∧ x < (2 : K) ^ (Int.log 2 x + 1) := by
  constructor
  · have := Int.zpow_log_le_self (b := 2) (by norm_num) hx; exact_mod_cast this
  · have := Int.lt_zpow_succ_log_self (b := 2) (by norm_num) x; exact_mod_cast this

theorem ulp_mul (p : ℕ) (x : K) : (2 : K) ^ p * ulp p x = (2 : K) ^ Int.log 2 x := by
  unfold ulp
  rw [zpow_sub₀ (by norm_num), zpow_natCast]
  field_simp

theorem significand {p : ℕ} {x : K} (hx : 0 < x) :
    (2 : ℤ) ^ p ≤ ⌊x / ulp p x + 1 / 2⌋ ∧ ⌊x / ulp p x + 1 / 2⌋ ≤ 2 ^ (p + 1) := by
  have hb := log_bounds hx
  have hu := ulp_pos p x
  have h1 := ulp_mul p x
  constructor
  · rw [Int.le_floor]
    push_cast
    have : (2 : K) ^ p ≤ x / ulp p x := by rw [le_div_iff₀ hu, h1]; exact hb.1
    linarith
  · have h2 : x / ulp p x < (2 : K) ^ (p + 1) := by
      rw [div_lt_iff₀ hu, pow_succ, mul_right_comm, h1]
      rw [zpow_add_one₀ (by norm_num)] at hb; exact hb.2
    have : ⌊x / ulp p x + 1 / 2⌋ < 2 ^ (p + 1) + 1 := by
      rw [Int.floor_lt]; push_cast; linarith
    omega

theorem nearestPos_range {p : ℕ} {x : K} (hx : 0 < x) :
    (2 : K) ^ Int.log 2 x ≤ nearestPos p x ∧ nearestPos p x ≤ (2 : K) ^ (Int.log 2 x + 1) := by
  have hs := significand (p := p) hx
  have hu := ulp_pos p x
  unfold nearestPos
  constructor
  · rw [← ulp_mul p x]
    refine mul_le_mul_of_nonneg_right ?_ hu.le
    exact_mod_cast hs.1
  · rw [zpow_add_one₀ (by norm_num), ← ulp_mul p x, mul_right_comm, ← pow_succ]
    refine mul_le_mul_of_nonneg_right ?_ hu.le
    exact_mod_cast hs.2

theorem nearestPos_pos {p : ℕ} {x : K} (hx : 0 < x) : 0 < nearestPos p x :=
  lt_of_lt_of_le (zpow_pos (by norm_num) _) (nearestPos_range hx).1

theorem nearestPos_mono {p : ℕ} {x y : K} (hx : 0 < x) (hxy : x ≤ y) : nearestPos p x ≤ nearestPos p y := by
  have hy : 0 < y := lt_of_lt_of_le hx hxy
  rcases (Int.log_mono_right (b := 2) hx hxy).eq_or_lt with he | he
  · have hu : ulp p x = ulp p y := by unfold ulp; rw [he]
    unfold nearestPos
    rw [hu]
    refine mul_le_mul_of_nonneg_right ?_ (ulp_pos p y).le
    have : x / ulp p y + 1 / 2 ≤ y / ulp p y + 1 / 2 := by
      have := div_le_div_of_nonneg_right hxy (ulp_pos p y).le
      linarith
    exact_mod_cast Int.floor_le_floor this
  · refine (nearestPos_range hx).2.trans (le_trans ?_ (nearestPos_range hy).1)
    exact zpow_le_zpow_right₀ (by norm_num) he

theorem nearestPos_err {p : ℕ} {x : K} (hx : 0 < x) : |nearestPos p x - x| ≤ 1 / 2 ^ (p + 1) * x := by
  have hu := ulp_pos p x
  have e : nearestPos p x - x = ((⌊x / ulp p x + 1 / 2⌋ : K) - x / ulp p x) * ulp p x := by
    unfold nearestPos; rw [sub_mul, div_mul_cancel₀ _ hu.ne']
  have h1 : |(⌊x / ulp p x + 1 / 2⌋ : K) - x / ulp p x| ≤ 1 / 2 := by
    rw [abs_le]
    constructor
    · linarith [Int.sub_one_lt_floor (x / ulp p x + 1 / 2)]
    · linarith [Int.floor_le (x / ulp p x + 1 / 2)]
  rw [e, abs_mul, abs_of_pos hu]
  have h2 : ulp p x ≤ x / 2 ^ p := by
    rw [le_div_iff₀ (by positivity), mul_comm, ulp_mul]; exact (log_bounds hx).1
  calc _ ≤ 1 / 2 * (x / 2 ^ p) := mul_le_mul h1 h2 hu.le (by norm_num)
    _ = _ := by rw [pow_succ]; field_simp

theorem nearestPos_idem {p : ℕ} {x : K} (hx : 0 < x) : nearestPos p (nearestPos p x) = nearestPos p x := by
  have hr := nearestPos_range (p := p) hx
  have hpos := nearestPos_pos (p := p) hx
  have hu := ulp_pos p x
  rcases hr.2.eq_or_lt with he | hlt
  · have hl : Int.log 2 (nearestPos p x) = Int.log 2 x + 1 := by
      rw [he]
      have := Int.log_zpow (R := K) (b := 2) (by norm_num) (Int.log 2 x + 1)
      exact_mod_cast this
    have hm := ulp_mul p (nearestPos p x)
    rw [hl, ← he] at hm
    have hu' := ulp_pos p (nearestPos p x)
    have hd : nearestPos p x / ulp p (nearestPos p x) = 2 ^ p := by
      rw [div_eq_iff hu'.ne']; exact hm.symm
    conv_lhs => unfold nearestPos
    rw [show (⌊x / ulp p x + 1 / 2⌋ : K) * ulp p x = nearestPos p x from rfl, hd]
    have hf : ⌊(2 : K) ^ p + 1 / 2⌋ = 2 ^ p := by
      rw [Int.floor_eq_iff]; push_cast; constructor <;> linarith
    rw [hf]; push_cast; exact hm
  · have hl : Int.log 2 (nearestPos p x) = Int.log 2 x := by
      apply le_antisymm
      · have := (Int.lt_zpow_iff_log_lt (b := 2) (by norm_num) hpos (x := Int.log 2 x + 1)).1 (by exact_mod_cast hlt)
        omega
      · exact (Int.zpow_le_iff_le_log (b := 2) (by norm_num) hpos).1 (by exact_mod_cast hr.1)
    have hul : ulp p (nearestPos p x) = ulp p x := by unfold ulp; rw [hl]
    conv_lhs => unfold nearestPos
    rw [show (⌊x / ulp p x + 1 / 2⌋ : K) * ulp p x = nearestPos p x from rfl, hul]
    have hd : nearestPos p x / ulp p x = (⌊x / ulp p x + 1 / 2⌋ : K) := by
      rw [div_eq_iff hu.ne']; rfl
    rw [hd]
    have hf : ⌊(⌊x / ulp p x + 1 / 2⌋ : K) + 1 / 2⌋ = ⌊x / ulp p x + 1 / 2⌋ := by
      rw [Int.floor_eq_iff]; constructor <;> linarith
    rw [hf]; rfl

/-- nearest number with `p + 1` significant bits -/
noncomputable def nearestRd (p : ℕ) (x : K) : K :=
  if 0 < x then nearestPos p x else if x < 0 then -nearestPos p (-x) else 0

/-- Binary floating point with `p + 1` significant bits, round to nearest; `p = 52` for `double`. -/
noncomputable def nearest (p : ℕ) : Rounding K where
  rd := nearestRd p
  u := 1 / 2 ^ (p + 1)
  mono := by
    intro x y h
    unfold nearestRd
    rcases lt_trichotomy x 0 with hx | hx | hx
    · rw [if_neg (not_lt.2 hx.le), if_pos hx]
      rcases lt_trichotomy y 0 with hy | hy | hy
      · rw [if_neg (not_lt.2 hy.le), if_pos hy]
        exact neg_le_neg (nearestPos_mono (by linarith) (by linarith))
      · subst hy
        simp only [lt_irrefl, if_false]
        linarith [nearestPos_pos (p := p) (x := -x) (by linarith)]
      · rw [if_pos hy]
        linarith [nearestPos_pos (p := p) (x := -x) (by linarith), nearestPos_pos (p := p) hy]
    · subst hx
      simp only [lt_irrefl, if_false]
      rcases h.eq_or_lt with hy | hy
      · subst hy; simp
      · rw [if_pos hy]; exact (nearestPos_pos hy).le
    · rw [if_pos hx, if_pos (lt_of_lt_of_le hx h)]
      exact nearestPos_mono hx h
  idem := by
    intro x
    unfold nearestRd
    rcases lt_trichotomy x 0 with hx | hx | hx
    · have hp := nearestPos_pos (p := p) (x := -x) (by linarith)
      rw [if_neg (not_lt.2 hx.le), if_pos hx, if_neg (by linarith), if_pos (by linarith), neg_neg,
        nearestPos_idem (by linarith)]
    · subst hx; simp
    · rw [if_pos hx, if_pos (nearestPos_pos hx), nearestPos_idem hx]
  err := by
    intro x
    unfold nearestRd
    rcases lt_trichotomy x 0 with hx | hx | hx
    · rw [if_neg (not_lt.2 hx.le), if_pos hx, abs_of_neg hx]
      have := nearestPos_err (p := p) (x := -x) (by linarith)
      rw [show -nearestPos p (-x) - x = -(nearestPos p (-x) - -x) by ring, abs_neg]
      exact this
    · subst hx; simp
    · rw [if_pos hx, abs_of_pos hx]; exact nearestPos_err hx
  u_nonneg := by positivity
  u_lt := by
    rw [div_lt_one (by positivity)]
    exact one_lt_pow₀ (by norm_num) (by omega)

/-- A positive number with an integer significand of at most `p + 1` bits is representable. -/
theorem nearest_rep (p : ℕ) (x : K) (hx : 0 < x) (N : ℤ) (e : ℤ) (hN : (2 : ℤ) ^ p ≤ N) (hN' : N < 2 ^ (p + 1))
    (h : x = N * (2 : K) ^ (e - p)) : (nearest p : Rounding K).Rep x := by
  have hl : Int.log 2 x = e := by
    have h2 : (0 : K) < 2 ^ (e - p) := zpow_pos (by norm_num) _
    have he : (2 : K) ^ p * 2 ^ (e - p) = 2 ^ e := by
      rw [zpow_sub₀ (by norm_num), zpow_natCast]; field_simp
    apply le_antisymm
    · have : x < (2 : K) ^ (e + 1) := by
        rw [zpow_add_one₀ (by norm_num), ← he, h, mul_right_comm, ← pow_succ]
        refine mul_lt_mul_of_pos_right ?_ h2
        exact_mod_cast hN'
      have := (Int.lt_zpow_iff_log_lt (b := 2) (by norm_num) hx (x := e + 1)).1 (by exact_mod_cast this)
      omega
    · refine (Int.zpow_le_iff_le_log (b := 2) (by norm_num) hx).1 ?_
      have : (2 : K) ^ e ≤ x := by
        rw [← he, h]
        refine mul_le_mul_of_nonneg_right ?_ h2.le
        exact_mod_cast hN
      exact_mod_cast this
  show nearestRd p x = x
  unfold nearestRd nearestPos
  rw [if_pos hx]
  have hu : ulp p x = 2 ^ (e - p) := by unfold ulp; rw [hl]
  have hd : x / ulp p x = N := by
    rw [div_eq_iff (ulp_pos p x).ne', hu]; exact h
  rw [hd]
  have hf : ⌊(N : K) + 1 / 2⌋ = N := by rw [Int.floor_eq_iff]; constructor <;> linarith
  rw [hf, hu]; exact h.symm

/-- the rounding of a positive number, from its binade `e` and its nearest significand `N` -/
theorem nearest_eq (p : ℕ) (x : K) (e N : ℤ) (h1 : (2 : K) ^ e ≤ x) (h2 : x < (2 : K) ^ (e + 1))
    (h3 : ((N : K) - 1 / 2) * 2 ^ (e - p) ≤ x) (h4 : x < ((N : K) + 1 / 2) * 2 ^ (e - p)) :
    (nearest p : Rounding K).rd x = N * 2 ^ (e - p) := by
  have hx : 0 < x := lt_of_lt_of_le (zpow_pos (by norm_num) _) h1
  have hl : Int.log 2 x = e := by
    apply le_antisymm
    · have := (Int.lt_zpow_iff_log_lt (b := 2) (by norm_num) hx (x := e + 1)).1 (by exact_mod_cast h2)
      omega
    · exact (Int.zpow_le_iff_le_log (b := 2) (by norm_num) hx).1 (by exact_mod_cast h1)
  show nearestRd p x = _
  have hu : ulp p x = 2 ^ (e - p) := by unfold ulp; rw [hl]
  have hp : (0 : K) < 2 ^ (e - p) := zpow_pos (by norm_num) _
  unfold nearestRd nearestPos
  rw [if_pos hx, hu]
  have hf : ⌊x / (2 : K) ^ (e - p) + 1 / 2⌋ = N := by
    rw [Int.floor_eq_iff]
    constructor
    · have := (le_div_iff₀ hp).2 h3; linarith
    · have := (div_lt_iff₀ hp).2 h4; linarith
  rw [hf]

end Nearest

end Verif.Time
