import Verif.Time.Restart
import Mathlib.Algebra.Order.Floor.Ring
import Mathlib.Data.Rat.Floor
import Mathlib.Tactic.LinearCombination

/-! # C08: output ticks -/

set_option linter.unusedSectionVars false

namespace Verif.Time

variable {K : Type*} [Field K] [LinearOrder K] [IsStrictOrderedRing K]

/-- **C08 (end).** At the end of the run every tick is reported. -/
theorem C08_at_end [FloorRing K] (t : TS K) (tick : K) (h : t.atEnd = true) :
    t.atTick tick = true := by
  simp [TS.atTick, h]

theorem uniform_run {p : Params K} (hp : p.Good) (hmax : p.stepStart ≤ p.stepMax) (n : ℕ)
    (he : (nexts (TS.ctor p) n).atEnd = false) :
    (∀ k ≤ n, (nexts (TS.ctor p) k).atEnd = false) ∧
    (nexts (TS.ctor p) n).now = p.startTime + n * p.stepStart ∧
    (nexts (TS.ctor p) n).cur = p.stepStart ∧ (nexts (TS.ctor p) n).step = p.stepStart ∧
    (nexts (TS.ctor p) n).maxStep = p.stepMax := by
  induction n with
  | zero => simp [nexts, TS.ctor]
  | succ n ih =>
    rw [nexts_succ] at he ⊢
    set t := nexts (TS.ctor p) n with ht
    have he0 : t.atEnd = false := by
      simp only [TS.next, Bool.or_eq_false_iff] at he; exact he.1
    have hs : t.snaps = false := by
      simp only [TS.next, Bool.or_eq_false_iff] at he; exact he.2
    obtain ⟨h0, h1, h2, h3, h4⟩ := ih he0
    have htr : t.trial = p.stepStart := by
      unfold TS.trial
      rw [h2, h3, h4]
      simp [not_lt.2 hmax]
    refine ⟨?_, ?_, ?_, h3, h4⟩
    · intro k hk
      rcases Nat.lt_or_ge k (n + 1) with hk' | hk'
      · exact h0 k (by omega)
      · have : k = n + 1 := by omega
        subst this; rw [nexts_succ]; exact he
    · simp only [TS.next, hs]; simp [h1, htr]; ring
    · simp only [TS.next, hs]; simp [htr]

/-- **C08 (aligned steps).** In a run from time 0 with constant step `dt` and tick `n·dt`, before
the end and for fewer than `10^10` steps, `at_tick` holds exactly at the steps whose number is
divisible by `n`. -/
theorem C08_aligned [FloorRing K] (p : Params K) (hp : p.Good) (h0 : p.startTime = 0)
    (hmax : p.stepStart ≤ p.stepMax) (n k : ℕ) (hn : 0 < n) (hk : k < 10 ^ 10)
    (he : (nexts (TS.ctor p) k).atEnd = false) :
    (nexts (TS.ctor p) k).atTick (n * p.stepStart) = true ↔ n ∣ k := by
  obtain ⟨-, h1, h2, -, -⟩ := uniform_run hp hmax k he
  have hdt := hp.start
  set dt := p.stepStart
  have hnK : (0 : K) < n := by exact_mod_cast hn
  -- position
  have hq : truncInt ((nexts (TS.ctor p) k).now * (1 + 1 / 10 ^ 10) / (n * dt)) = (k / n : ℕ) := by
    rw [h1, h0, zero_add]
    have e : (k : K) * dt * (1 + 1 / 10 ^ 10) / (n * dt) = k * (1 + 1 / 10 ^ 10) / n := by
      field_simp
    rw [e]
    have hnn : (0 : K) ≤ k * (1 + 1 / 10 ^ 10) / n := by positivity
    unfold truncInt
    rw [if_pos hnn, Int.floor_eq_iff]
    have hdm : (k : K) = n * (k / n : ℕ) + (k % n : ℕ) := by
      exact_mod_cast (Nat.div_add_mod k n).symm
    have hr : ((k % n : ℕ) : K) + 1 ≤ n := by exact_mod_cast Nat.mod_lt k hn
    have hr0 : (0 : K) ≤ (k % n : ℕ) := Nat.cast_nonneg _
    have hk0 : (0 : K) ≤ k := Nat.cast_nonneg _
    have hkK : (k : K) < 10 ^ 10 := by exact_mod_cast hk
    have hk1 : (k : K) * (1 / 10 ^ 10) < 1 := by
      rw [mul_one_div, div_lt_one (by positivity)]; exact hkK
    constructor
    · rw [Int.cast_natCast, le_div_iff₀ hnK]
      have : (0 : K) ≤ k * (1 / 10 ^ 10) := by positivity
      nlinarith
    · rw [Int.cast_natCast, div_lt_iff₀ hnK]
      nlinarith
  have hdm : (k : K) = n * (k / n : ℕ) + (k % n : ℕ) := by
    exact_mod_cast (Nat.div_add_mod k n).symm
  have hsub : (nexts (TS.ctor p) k).now - ((k / n : ℕ) : K) * (n * dt) = (k % n : ℕ) * dt := by
    rw [h1, h0, zero_add]
    linear_combination dt * hdm
  unfold TS.atTick
  simp only [hq, Int.cast_natCast, he, hsub, h2, Bool.not_false, Bool.and_true, Bool.not_eq_true',
    decide_eq_false_iff_not, not_lt]
  constructor
  · intro h
    by_contra hnd
    have hpos : 1 ≤ k % n := Nat.one_le_iff_ne_zero.2 fun h0 => hnd (Nat.dvd_of_mod_eq_zero h0)
    have : (1 : K) ≤ (k % n : ℕ) := by exact_mod_cast hpos
    nlinarith
  · intro h
    rw [Nat.mod_eq_zero_of_dvd h]
    simp
    positivity

/-- **C08 (no spurious ticks).** For arbitrary times and step sizes: if `at_tick` is reported before
the end, then some multiple of the tick lies at most 95% of the current step before the current
time (and not after it by more than the relative guard `1e-10`). -/
theorem C08_reported_near_multiple [FloorRing K] (t : TS K) (tick : K) (htick : 0 < tick)
    (hnow : 0 ≤ t.now) (he : t.atEnd = false) (h : t.atTick tick = true) :
    ∃ m : ℕ, t.now - m * tick ≤ 95 / 100 * t.cur ∧ m * tick ≤ t.now * (1 + 1 / 10 ^ 10) := by
  have hnn : (0 : K) ≤ t.now * (1 + 1 / 10 ^ 10) / tick := by positivity
  unfold TS.atTick truncInt at h
  simp only [hnn, if_true, he, Bool.not_false, Bool.and_true, Bool.not_eq_true',
    decide_eq_false_iff_not, not_lt] at h
  refine ⟨⌊t.now * (1 + 1 / 10 ^ 10) / tick⌋.toNat, ?_, ?_⟩
  · have : ((⌊t.now * (1 + 1 / 10 ^ 10) / tick⌋.toNat : ℕ) : K)
        = (⌊t.now * (1 + 1 / 10 ^ 10) / tick⌋ : ℤ) := by
      have := Int.toNat_of_nonneg (Int.floor_nonneg.2 hnn)
      exact_mod_cast congrArg (Int.cast (R := K)) this
    rw [this]; linarith
  · have : ((⌊t.now * (1 + 1 / 10 ^ 10) / tick⌋.toNat : ℕ) : K)
        = (⌊t.now * (1 + 1 / 10 ^ 10) / tick⌋ : ℤ) := by
      have := Int.toNat_of_nonneg (Int.floor_nonneg.2 hnn)
      exact_mod_cast congrArg (Int.cast (R := K)) this
    rw [this]
    have h2 := Int.floor_le (t.now * (1 + 1 / 10 ^ 10) / tick)
    rwa [le_div_iff₀ htick] at h2

/-- **C08 (missed ticks).** If a multiple `m·tick ≤ now` of the tick has been passed by the last
step and `at_tick` nevertheless is false, then `m·tick` lies within the first 5% of that step. -/
theorem C08_missed_only_in_first_five_percent [FloorRing K] (t : TS K) (tick : K)
    (htick : 0 < tick) (he : t.atEnd = false) (h : t.atTick tick = false) (m : ℕ)
    (hm : m * tick ≤ t.now) (hcur : t.cur = t.now - t.prev) :
    m * tick < t.prev + 5 / 100 * t.cur := by
  have hm0 : (0 : K) ≤ m * tick := by positivity
  have hnow : 0 ≤ t.now := by linarith
  have hnn : (0 : K) ≤ t.now * (1 + 1 / 10 ^ 10) / tick := by positivity
  have hge : (m : ℤ) ≤ ⌊t.now * (1 + 1 / 10 ^ 10) / tick⌋ := by
    rw [Int.le_floor, Int.cast_natCast, le_div_iff₀ htick]
    have : 0 ≤ t.now * (1 / 10 ^ 10) := by positivity
    nlinarith
  have hge' : (m : K) ≤ (⌊t.now * (1 + 1 / 10 ^ 10) / tick⌋ : ℤ) := by exact_mod_cast hge
  unfold TS.atTick truncInt at h
  simp only [hnn, if_true, he, Bool.not_false, Bool.and_true, Bool.not_eq_false',
    decide_eq_true_eq] at h
  have := mul_le_mul_of_nonneg_right hge' htick.le
  linarith

/-- **C08 counterexample.** A tick can be passed without being reported: step 1, tick 2.04 is passed
in the step from 2 to 3 and not reported there, nor in the step before. -/
theorem C08_tick_missed :
    ∃ t : TS ℚ, Reachable (exParams .bdf2) t ∧ t.atEnd = false ∧
      t.prev < 204 / 100 ∧ 204 / 100 ≤ t.now ∧ t.atTick (204 / 100) = false :=
  ⟨nexts (TS.ctor (exParams .bdf2)) 3, nexts_reachable 3 (by decide +kernel), by decide +kernel,
    by decide +kernel, by decide +kernel, by decide +kernel⟩

/-- Non-vacuity: step 6 of a run on [0,10] with tick 3 is reported, step 7 is not. -/
example : (nexts (TS.ctor (exParams .bdf2)) 6).atEnd = false ∧
    (nexts (TS.ctor (exParams .bdf2)) 6).atTick 3 = true ∧
    (nexts (TS.ctor (exParams .bdf2)) 7).atTick 3 = false := by
  refine ⟨?_, ?_, ?_⟩ <;> decide +kernel

end Verif.Time
