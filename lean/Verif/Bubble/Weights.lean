import Verif.Bubble.Marching
import Mathlib.Algebra.BigOperators.Intervals
import Mathlib.Algebra.Order.BigOperators.Group.Finset
import Mathlib.Algebra.BigOperators.Ring.Finset
import Mathlib.Tactic.IntervalCases

/-!
# C37: the weights of the sub-cells form a partition of the cell weight
(source/two_phase_base.cc:662-671, 716-731, 839-849)
-/

namespace Verif.Bubble

open Finset

variable {K : Type*} [Field K] [LinearOrder K] [IsStrictOrderedRing K]

/-! ## Model -/

/-- `weight_correction[i]`, two_phase_base.cc:662-671; `n = sub_per_d`, `n_q_points = (n+1)*(n+1)`. -/
def weightCorrection (n i : ℕ) : K :=
  let fact := n + 1
  let w : K := 1
  let w := if 0 < i % fact ∧ i % fact < fact - 1 then w * (1 / 2) else w
  if fact ≤ i ∧ i < (n + 1) * (n + 1) - fact then w * (1 / 2) else w

/-- index of the `i`-th corner of patch `d` in the quadrature formula, two_phase_base.cc:720-725. -/
def patchIndex (n d i : ℕ) : ℕ := d % n + d / n * (n + 1) + i / 2 * (n - 1) + i

/-- `quad_weights[i]` of patch `d` for the quadrature weights `JxW`, two_phase_base.cc:730. -/
def quadWeight (n : ℕ) (JxW : ℕ → K) (d i : ℕ) : K :=
  JxW (patchIndex n d i) * weightCorrection n (patchIndex n d i)

/-- Area contributed by one cell crossed by the interface, two_phase_base.cc:715-851: for all patches and all four
points, `area += local_area * quad_weights[i]`. `c` are the level set values in the quadrature points. -/
def cellArea (eps : K) (n : ℕ) (c JxW : ℕ → K) : K :=
  ∑ d ∈ range (n * n), ∑ i ∈ range 4,
    areaFraction eps (c (patchIndex n d 0)) (c (patchIndex n d 1)) (c (patchIndex n d 2)) (c (patchIndex n d 3)) *
      quadWeight n JxW d i

/-! ## Lemmas -/

omit [LinearOrder K] [IsStrictOrderedRing K] in
theorem sum_range_mul (n m : ℕ) (f : ℕ → K) :
    ∑ d ∈ range (n * m), f d = ∑ b ∈ range n, ∑ a ∈ range m, f (a + b * m) := by
  induction n with
  | zero => simp
  | succ n ih =>
    rw [Nat.succ_mul, sum_range_add, ih, sum_range_succ]
    congr 1
    exact sum_congr rfl fun a _ => by rw [Nat.add_comm]

/-- one-dimensional correction factor -/
def corr1 (n a : ℕ) : K := if 0 < a ∧ a < n then 1 / 2 else 1

theorem sum_corr1 {n : ℕ} (hn : 0 < n) (g : ℕ → K) :
    ∑ a ∈ range n, (g a * corr1 n a + g (a + 1) * corr1 n (a + 1)) = ∑ a ∈ range (n + 1), g a := by
  have h1 : ∑ a ∈ range n, g a * corr1 n a = ∑ a ∈ range (n + 1), g a * corr1 n a - g n * corr1 n n := by
    rw [sum_range_succ]; ring
  have h2 : ∑ a ∈ range n, g (a + 1) * corr1 n (a + 1) = ∑ a ∈ range (n + 1), g a * corr1 n a - g 0 * corr1 n 0 := by
    rw [sum_range_succ' _ n]; ring
  rw [sum_add_distrib, h1, h2]
  have h3 : ∑ a ∈ range (n + 1), g a * corr1 n a =
      g 0 + g n + ∑ a ∈ range (n - 1), g (a + 1) * (1 / 2) := by
    obtain ⟨m, rfl⟩ : ∃ m, n = m + 1 := ⟨n - 1, by omega⟩
    rw [sum_range_succ, sum_range_succ']
    have e0 : (corr1 (m + 1) 0 : K) = 1 := by simp [corr1]
    have e1 : (corr1 (m + 1) (m + 1) : K) = 1 := by simp [corr1]
    rw [e0, e1]
    have : ∑ k ∈ range m, g (k + 1) * (corr1 (m + 1) (k + 1) : K) =
        ∑ a ∈ range (m + 1 - 1), g (a + 1) * (1 / 2) := by
      apply sum_congr rfl
      intro k hk
      have : k < m := mem_range.1 hk
      rw [corr1, if_pos ⟨by omega, by omega⟩]
    rw [this]; ring
  have h4 : ∑ a ∈ range (n + 1), g a = g 0 + g n + ∑ a ∈ range (n - 1), g (a + 1) := by
    obtain ⟨m, rfl⟩ : ∃ m, n = m + 1 := ⟨n - 1, by omega⟩
    rw [sum_range_succ, sum_range_succ']; simp only [Nat.add_sub_cancel]; ring
  have e0 : (corr1 n 0 : K) = 1 := by simp [corr1]
  have e1 : (corr1 n n : K) = 1 := by simp [corr1]
  rw [h3, h4, e0, e1, ← sum_mul]; ring

theorem weightCorrection_eq {n a b : ℕ} (hn : 0 < n) (ha : a ≤ n) (hb : b ≤ n) :
    (weightCorrection n (a + b * (n + 1)) : K) = corr1 n a * corr1 n b := by
  have hm : (a + b * (n + 1)) % (n + 1) = a := by
    rw [Nat.add_mul_mod_self_right, Nat.mod_eq_of_lt (by omega)]
  have hlow : n + 1 ≤ a + b * (n + 1) ↔ 0 < b := by
    constructor
    · intro h; by_contra hb0; have : b = 0 := by omega
      subst this; omega
    · intro h; have : (n + 1) * 1 ≤ (n + 1) * b := Nat.mul_le_mul_left _ h
      rw [Nat.mul_comm b]; omega
  have hhigh : a + b * (n + 1) < (n + 1) * (n + 1) - (n + 1) ↔ b < n := by
    have e : (n + 1) * (n + 1) - (n + 1) = n * (n + 1) := by
      rw [Nat.succ_mul]; omega
    rw [e]
    constructor
    · intro h; by_contra hb0; have : b = n := by omega
      subst this; omega
    · intro h
      have : (b + 1) * (n + 1) ≤ n * (n + 1) := Nat.mul_le_mul_right _ h
      rw [Nat.succ_mul] at this; omega
  unfold weightCorrection corr1
  simp only [hm, hlow, hhigh, Nat.add_sub_cancel]
  split_ifs <;> ring

theorem patch_corners {n a b : ℕ} (ha : a < n) :
    patchIndex n (a + b * n) 0 = a + b * (n + 1) ∧ patchIndex n (a + b * n) 1 = (a + 1) + b * (n + 1) ∧
    patchIndex n (a + b * n) 2 = a + (b + 1) * (n + 1) ∧
    patchIndex n (a + b * n) 3 = (a + 1) + (b + 1) * (n + 1) := by
  have hm : (a + b * n) % n = a := by rw [Nat.add_mul_mod_self_right, Nat.mod_eq_of_lt ha]
  have hd : (a + b * n) / n = b := by
    rw [Nat.add_mul_div_right _ _ (by omega), Nat.div_eq_of_lt ha, Nat.zero_add]
  unfold patchIndex
  rw [hm, hd]
  have e : (b + 1) * (n + 1) = b * (n + 1) + (n + 1) := Nat.succ_mul _ _
  rw [e]
  generalize b * (n + 1) = B
  refine ⟨by omega, by omega, ?_, ?_⟩
  · norm_num; omega
  · norm_num; omega

/-! ## C37 -/

/-- The four corners of patch `d` are the corners of the `d`-th small square of the lattice of `(n+1)²` points. -/
theorem C37_patch_is_a_lattice_square {n d : ℕ} (hd : d < n * n) :
    ∃ a b, a < n ∧ b < n ∧ d = a + b * n ∧
      patchIndex n d 0 = a + b * (n + 1) ∧ patchIndex n d 1 = (a + 1) + b * (n + 1) ∧
      patchIndex n d 2 = a + (b + 1) * (n + 1) ∧ patchIndex n d 3 = (a + 1) + (b + 1) * (n + 1) ∧
      patchIndex n d 3 < (n + 1) * (n + 1) := by
  have hn : 0 < n := by rcases Nat.eq_zero_or_pos n with h | h; · subst h; simp at hd
                        · exact h
  have ha : d % n < n := Nat.mod_lt _ hn
  have hb : d / n < n := Nat.div_lt_of_lt_mul hd
  have he : d = d % n + d / n * n := by
    have := Nat.mod_add_div d n; rw [Nat.mul_comm] at this; omega
  have hc := patch_corners (n := n) (a := d % n) (b := d / n) ha
  rw [← he] at hc
  refine ⟨d % n, d / n, ha, hb, he, hc.1, hc.2.1, hc.2.2.1, hc.2.2.2, ?_⟩
  rw [hc.2.2.2]
  have : (d / n + 1 + 1) * (n + 1) ≤ (n + 1) * (n + 1) := Nat.mul_le_mul_right _ (by omega)
  rw [Nat.succ_mul (d / n + 1)] at this
  omega

/-- **C37.** For every number `n ≥ 1` of subdivisions and all quadrature weights, the weights given to the four corners
of all `n × n` patches sum up to the weights of the cell; more generally every nodal sum is preserved (take
`w q = f q * JxW q`). -/
theorem C37_weights_partition {n : ℕ} (hn : 0 < n) (w : ℕ → K) :
    ∑ d ∈ range (n * n), ∑ i ∈ range 4, quadWeight n w d i = ∑ q ∈ range ((n + 1) * (n + 1)), w q := by
  rw [sum_range_mul, sum_range_mul]
  let G : ℕ → K := fun b => ∑ a ∈ range (n + 1), w (a + b * (n + 1))
  have key : ∀ b ∈ range n, ∑ a ∈ range n, ∑ i ∈ range 4, quadWeight n w (a + b * n) i =
      G b * corr1 n b + G (b + 1) * corr1 n (b + 1) := by
    intro b hb
    have hb' : b < n := mem_range.1 hb
    have : ∀ a ∈ range n, ∑ i ∈ range 4, quadWeight n w (a + b * n) i =
        (w (a + b * (n + 1)) * corr1 n a + w (a + 1 + b * (n + 1)) * corr1 n (a + 1)) * corr1 n b +
        (w (a + (b + 1) * (n + 1)) * corr1 n a + w (a + 1 + (b + 1) * (n + 1)) * corr1 n (a + 1)) * corr1 n (b + 1) := by
      intro a ha
      have ha' : a < n := mem_range.1 ha
      obtain ⟨p0, p1, p2, p3⟩ := patch_corners (n := n) (b := b) ha'
      simp only [sum_range_succ, sum_range_zero, quadWeight, p0, p1, p2, p3]
      rw [weightCorrection_eq hn (by omega) (by omega), weightCorrection_eq hn (by omega) (by omega),
        weightCorrection_eq hn (by omega) (by omega), weightCorrection_eq hn (by omega) (by omega)]
      ring
    rw [sum_congr rfl this, sum_add_distrib, ← sum_mul, ← sum_mul,
      sum_corr1 hn (fun a => w (a + b * (n + 1))), sum_corr1 hn (fun a => w (a + (b + 1) * (n + 1)))]
  rw [sum_congr rfl key, sum_corr1 hn G]

theorem quadWeight_nonneg {n : ℕ} {JxW : ℕ → K} (hw : ∀ q, 0 ≤ JxW q) (d i : ℕ) : 0 ≤ quadWeight n JxW d i := by
  unfold quadWeight weightCorrection
  apply mul_nonneg (hw _)
  dsimp only
  split_ifs <;> norm_num

/-- **C37 (bubble area).** The area reported for a cut cell lies between zero and the area of the cell, provided that
no patch is a saddle. -/
theorem C37_cell_area_bounds {n : ℕ} (hn : 0 < n) {eps : K} {c JxW : ℕ → K} (hw : ∀ q, 0 ≤ JxW q)
    (hr : ∀ d < n * n, Regular eps (c (patchIndex n d 0)) (c (patchIndex n d 1)) (c (patchIndex n d 2))
      (c (patchIndex n d 3))) :
    0 ≤ cellArea eps n c JxW ∧ cellArea eps n c JxW ≤ ∑ q ∈ range ((n + 1) * (n + 1)), JxW q := by
  constructor
  · apply sum_nonneg; intro d hd
    apply sum_nonneg; intro i _
    exact mul_nonneg (C36_fraction_in_unit_interval (hr d (mem_range.1 hd))).1 (quadWeight_nonneg hw d i)
  · rw [← C37_weights_partition hn JxW]
    apply sum_le_sum; intro d hd
    apply sum_le_sum; intro i _
    have := (C36_fraction_in_unit_interval (hr d (mem_range.1 hd))).2
    have h0 := quadWeight_nonneg (n := n) hw d i
    nlinarith

/-- **C37 (agreement of the two code paths).** A cell whose level set values are all positive gets exactly its whole
weight from the cut-cell path, one with negative values gets zero: the "cheap test" only saves work. -/
theorem C37_uncut_cell {n : ℕ} (hn : 0 < n) {eps : K} {c JxW : ℕ → K} :
    ((∀ q < (n + 1) * (n + 1), 0 < c q + eps) → cellArea eps n c JxW = ∑ q ∈ range ((n + 1) * (n + 1)), JxW q) ∧
    ((∀ q < (n + 1) * (n + 1), c q + eps < 0) → cellArea eps n c JxW = 0) := by
  have lt : ∀ d < n * n, ∀ i < 4, patchIndex n d i < (n + 1) * (n + 1) := by
    intro d hd i hi
    obtain ⟨a, b, ha, hb, he, p0, p1, p2, p3, h⟩ := C37_patch_is_a_lattice_square hd
    rw [p3] at h
    have : b * (n + 1) ≤ (b + 1) * (n + 1) := Nat.mul_le_mul_right _ (by omega)
    interval_cases i <;> omega
  constructor
  · intro hp
    rw [← C37_weights_partition hn JxW]
    apply sum_congr rfl; intro d hd
    apply sum_congr rfl; intro i _
    have hd' := mem_range.1 hd
    rw [(C36_one_sided.1 (hp _ (lt d hd' 0 (by omega))) (hp _ (lt d hd' 1 (by omega))) (hp _ (lt d hd' 2 (by omega)))
      (hp _ (lt d hd' 3 (by omega)))).1, one_mul]
  · intro hp
    apply sum_eq_zero; intro d hd
    apply sum_eq_zero; intro i _
    have hd' := mem_range.1 hd
    rw [(C36_one_sided.2 (hp _ (lt d hd' 0 (by omega))) (hp _ (lt d hd' 1 (by omega))) (hp _ (lt d hd' 2 (by omega)))
      (hp _ (lt d hd' 3 (by omega)))).1, zero_mul]

/-! Non-vacuity -/

example : ∑ d ∈ range (2 * 2), ∑ i ∈ range 4, quadWeight (K := ℚ) 2 (fun q => q) d i = 36 := by decide +kernel
example : (weightCorrection 3 5 : ℚ) = 1 / 4 ∧ (weightCorrection 3 1 : ℚ) = 1 / 2 ∧ (weightCorrection 3 0 : ℚ) = 1 := by
  decide +kernel
example : cellArea (K := ℚ) 0 2 (fun q => (q % 3 : ℕ) - 1 / 2) (fun _ => 1) = 27 / 4 := by decide +kernel
example : ∀ d < 2 * 2, Regular (K := ℚ) 0 (((patchIndex 2 d 0) % 3 : ℕ) - 1 / 2) (((patchIndex 2 d 1) % 3 : ℕ) - 1 / 2)
    (((patchIndex 2 d 2) % 3 : ℕ) - 1 / 2) (((patchIndex 2 d 3) % 3 : ℕ) - 1 / 2) := by
  unfold Regular Spec.Saddle; decide +kernel

end Verif.Bubble
