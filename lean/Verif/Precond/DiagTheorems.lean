import Verif.Precond.DiagModel
import Mathlib.Tactic.Linarith
import Mathlib.Tactic.Positivity
import Mathlib.Tactic.Ring
import Mathlib.Algebra.Order.Ring.Rat

/-! # C15, C16: diagonal preconditioner -/

set_option linter.unusedSectionVars false

namespace Verif.Precond

variable {K : Type*} [Field K] [LinearOrder K] [IsStrictOrderedRing K]

/-- `m` is the largest magnitude of the entries of `d` (zero for the empty vector). -/
def IsMaxMagnitude (m : K) (d : List K) : Prop :=
  (∀ x ∈ d, |x| ≤ m) ∧ (m = 0 ∨ ∃ x ∈ d, |x| = m)

theorem foldl_max (v : List K) : ∀ a : K,
    a ≤ v.foldl (fun m x => max m |x|) a ∧ (∀ x ∈ v, |x| ≤ v.foldl (fun m x => max m |x|) a) ∧
    (v.foldl (fun m x => max m |x|) a = a ∨ ∃ x ∈ v, |x| = v.foldl (fun m x => max m |x|) a) := by
  induction v with
  | nil => intro a; simp
  | cons y v ih =>
    intro a
    obtain ⟨h1, h2, h3⟩ := ih (max a |y|)
    simp only [List.foldl_cons]
    refine ⟨le_trans (le_max_left _ _) h1, ?_, ?_⟩
    · intro x hx
      rcases List.mem_cons.1 hx with rfl | hx
      · exact le_trans (le_max_right _ _) h1
      · exact h2 x hx
    · rcases h3 with h3 | ⟨x, hx, h3⟩
      · rcases le_total a |y| with h | h
        · right; exact ⟨y, by simp, by rw [h3, max_eq_right h]⟩
        · left; rw [h3, max_eq_left h]
      · right; exact ⟨x, by simp [hx], h3⟩

theorem linfty_isMax (d : List K) : IsMaxMagnitude (linfty d) d := by
  obtain ⟨-, h2, h3⟩ := foldl_max d 0
  exact ⟨h2, h3⟩

theorem isMax_unique {m n : K} {d : List K} (h : IsMaxMagnitude m d) (h' : IsMaxMagnitude n d)
    (hd : d ≠ []) : m = n := by
  obtain ⟨x, hx⟩ := List.exists_mem_of_ne_nil d hd
  have nn : ∀ {m}, IsMaxMagnitude m d → 0 ≤ m := fun h => le_trans (abs_nonneg x) (h.1 x hx)
  apply le_antisymm
  · rcases h.2 with h0 | ⟨y, hy, h0⟩
    · rw [h0]; exact nn h'
    · rw [← h0]; exact h'.1 y hy
  · rcases h'.2 with h0 | ⟨y, hy, h0⟩
    · rw [h0]; exact nn h
    · rw [← h0]; exact h.1 y hy

/-- **C15 (entries).** For every previous state: after `reinit(d)`, `vmult` accepts exactly vectors
of the same size and multiplies entry `i` by `1/d_i` if `|d_i| > 1e-10 max|d|`, and leaves it
unchanged otherwise. -/
theorem C15_vmult_entries (p : Diag K) (d src : List K) (m : K) (hm : IsMaxMagnitude m d) :
    ((p.reinitVec d).vmult src = none ↔ d.length ≠ src.length) ∧
    ∀ r, (p.reinitVec d).vmult src = some r → r.length = src.length ∧
      ∀ i (hi : i < src.length) (hd : i < d.length) (hr : i < r.length),
        r[i] = if 1 / 10 ^ 10 * m < |d[i]| then src[i] / d[i] else src[i] := by
  unfold Diag.vmult Diag.reinitVec
  dsimp only
  by_cases hl : d.length = src.length
  · rw [if_pos ⟨hl, rfl⟩]
    refine ⟨by simp [hl], ?_⟩
    intro r hr
    simp only [Option.some.injEq] at hr
    subst hr
    refine ⟨by simp [hl], ?_⟩
    intro i hi hd hr
    have hne : d ≠ [] := by rintro rfl; simp at hd
    rw [isMax_unique hm (linfty_isMax d) hne]
    simp only [List.getElem_zipWith, List.getElem_map, guardedInv]
    split_ifs
    · rw [mul_one_div]
    · rw [mul_one]
  · rw [if_neg (fun h => hl h.1)]
    exact ⟨by simp [hl], by intro r hr; cases hr⟩

/-- **C15 (no division by zero).** An entry that is divided by is nonzero. -/
theorem C15_no_division_by_zero (d : List K) (m : K) (hm : IsMaxMagnitude m d) (i : ℕ)
    (hd : i < d.length) (h : 1 / 10 ^ 10 * m < |d[i]|) : d[i] ≠ 0 := by
  intro h0
  rw [h0, abs_zero] at h
  have : 0 ≤ m := le_trans (abs_nonneg _) (hm.1 _ (List.getElem_mem hd))
  have : 0 ≤ 1 / 10 ^ 10 * m := by positivity
  linarith

/-- **C15 (inverse).** If all entries are above the threshold, `vmult` exactly undoes the
multiplication with the diagonal. -/
theorem C15_exact_inverse (p : Diag K) (d x : List K) (m : K) (hm : IsMaxMagnitude m d)
    (hl : d.length = x.length) (hw : ∀ y ∈ d, 1 / 10 ^ 10 * m < |y|) :
    (p.reinitVec d).vmult (List.zipWith (· * ·) d x) = some x := by
  have h := C15_vmult_entries p d (List.zipWith (· * ·) d x) m hm
  have hlen : (List.zipWith (· * ·) d x).length = x.length := by simp [hl]
  cases hr : (p.reinitVec d).vmult (List.zipWith (· * ·) d x) with
  | none => exact absurd (hl.trans hlen.symm) (h.1.1 hr)
  | some r =>
    obtain ⟨h1, h2⟩ := h.2 r hr
    congr 1
    apply List.ext_getElem (h1.trans hlen)
    intro i hi hx
    have hd : i < d.length := by omega
    have hnz := C15_no_division_by_zero d m hm i hd (hw _ (List.getElem_mem hd))
    rw [h2 i (by omega) hd hi, if_pos (hw _ (List.getElem_mem hd)), List.getElem_zipWith,
      mul_div_cancel_left₀ _ hnz]

/-- **C15 (linearity).** `vmult` is linear. -/
theorem C15_linear (p : Diag K) (d x y r s : List K) (a : K)
    (hx : (p.reinitVec d).vmult x = some r) (hy : (p.reinitVec d).vmult y = some s) :
    (p.reinitVec d).vmult (List.zipWith (fun u v => a * u + v) x y) =
      some (List.zipWith (fun u v => a * u + v) r s) := by
  unfold Diag.vmult Diag.reinitVec at *
  dsimp only at *
  split_ifs at hx with h1
  split_ifs at hy with h2
  simp only [Option.some.injEq] at hx hy
  rw [if_pos ⟨by simp [← h1.1, ← h2.1], rfl⟩]
  subst hx hy
  congr 1
  apply List.ext_getElem
  · simp
  · intro i hi hj
    simp only [List.getElem_zipWith, List.getElem_map]
    ring

/-- **C15 (block form).** After `reinit` with a block vector every entry is scaled by its own guarded
reciprocal, the threshold being relative to the largest entry of all blocks. -/
theorem C15_block_entries (p : Diag K) (d src r : List (List K)) (m : K)
    (hm : IsMaxMagnitude m d.flatten) (hne : d ≠ [])
    (h : (p.reinitBlock d).vmultBlock src = some r) :
    r.map List.length = src.map List.length ∧ d.map List.length = src.map List.length ∧
    ∀ b (hb : b < r.length) (hb' : b < src.length) (hbd : b < d.length) i (hi : i < r[b].length)
      (hi' : i < src[b].length) (hd : i < d[b].length),
      r[b][i] = if 1 / 10 ^ 10 * m < |d[b][i]| then src[b][i] / d[b][i] else src[b][i] := by
  unfold Diag.vmultBlock Diag.reinitBlock at h
  dsimp only at h
  have hpos : 0 < d.length := List.length_pos_iff.2 hne
  rw [if_pos (by simpa using hpos)] at h
  split_ifs at h with hl
  simp only [Option.some.injEq] at h
  have hl' : d.map List.length = src.map List.length := by
    have := hl.1
    simpa [Function.comp_def] using this
  have hlen : d.length = src.length := by simpa using congrArg List.length hl'
  refine ⟨?_, hl', ?_⟩
  · subst h
    apply List.ext_getElem
    · simp [hlen]
    · intro b hb hb'
      have hb1 : b < src.length := by simpa using hb'
      have hb2 : b < d.length := by omega
      have : d[b].length = src[b].length := by
        have := congrArg (fun l => l[b]?) hl'
        simpa [hb1, hb2] using this
      simp [this]
  · subst h
    intro b hb hb' hbd i hi hi' hd
    have hfl : d.flatten ≠ [] := by
      intro h0
      have : d[b][i] ∈ d.flatten := List.mem_flatten.2 ⟨d[b], List.getElem_mem hbd, List.getElem_mem hd⟩
      rw [h0] at this; cases this
    rw [isMax_unique hm (linfty_isMax _) hfl]
    simp only [List.getElem_zipWith, List.getElem_map, guardedInv]
    split_ifs
    · rw [mul_one_div]
    · rw [mul_one]

/-- **C16.** For any history of `reinit` calls the behaviour of both `vmult`s is that of a new
object after the last `reinit` alone. -/
theorem C16_last_reinit_decides (hist : List (Reinit K)) (last : Reinit K) :
    (hist.foldl Diag.exec Diag.new).exec last = Diag.new.exec last := by
  cases last <;> rfl

/-- **C16 (vector mode).** After any history ending in `reinit(d)` with a vector, the block `vmult`
applies to every block exactly what the scalar `vmult` would do. -/
theorem C16_vector_mode (hist : List (Reinit K)) (d : List K) (src : List (List K))
    (h : ∀ b ∈ src, d.length = b.length) :
    let p := (hist.foldl Diag.exec Diag.new).exec (.vec d)
    ∃ r, p.vmultBlock src = some r ∧ r.length = src.length ∧
      ∀ b (hb : b < src.length) (hr : b < r.length), p.vmult src[b] = some r[b] := by
  refine ⟨src.map fun b => List.zipWith (· * ·) b (d.map (guardedInv (linfty d))), ?_, by simp, ?_⟩
  · unfold Diag.vmultBlock
    rw [if_neg (by simp [Diag.exec, Diag.reinitVec]),
      if_pos (by simpa [Diag.exec, Diag.reinitVec] using h)]
    rfl
  · intro b hb hr
    unfold Diag.vmult
    rw [if_pos ⟨h _ (List.getElem_mem hb), rfl⟩]
    simp [Diag.exec, Diag.reinitVec]

/-- **C16 (block mode).** After any history ending in `reinit` with a nonempty block vector, the
scalar `vmult` on a nonempty vector is refused: the two modes are never mixed up. -/
theorem C16_block_mode_refuses_vector (hist : List (Reinit K)) (d : List (List K)) (src : List K)
    (h : src ≠ []) :
    ((hist.foldl Diag.exec Diag.new).exec (.block d)).vmult src = none := by
  unfold Diag.vmult
  rw [if_neg]
  rintro ⟨h1, -⟩
  exact h (List.length_eq_zero_iff.1 h1.symm)

/-- Non-vacuity: a zero entry is guarded. -/
example : IsMaxMagnitude 4 ([2, 0, -4] : List ℚ) ∧
    (((Diag.new (K := ℚ)).exec (.block [[1], [2]])).exec (.vec [2, 0, -4])).vmult [3, 5, 8]
      = some [3 / 2, 5, -2] := by
  constructor
  · refine ⟨?_, .inr ⟨-4, by decide +kernel, by decide +kernel⟩⟩
    decide +kernel
  · decide +kernel

end Verif.Precond
