import Mathlib.Algebra.Order.Field.Basic
import Mathlib.Algebra.Order.Field.Rat
import Mathlib.Data.List.Perm.Basic
import Mathlib.Data.List.MinMax
import Mathlib.Analysis.Complex.Basic
import Mathlib.LinearAlgebra.Matrix.Notation
import Mathlib.Data.Matrix.Mul
import Mathlib.Data.Rat.Floor
import Mathlib.Tactic.Linarith
import Mathlib.Tactic.NormNum
import Mathlib.Tactic.LinearCombination
import Mathlib.Tactic.FieldSimp

/-!
# C47, C58: cell sizes (include/adaflo/util.h:47-118)

The moduli of the eigenvalues of the Jacobian at the sample points of a cell are given as a list (C47); C58 is about these
numbers themselves.
-/

namespace Verif.Mesh

/-! ## Model -/

/-- a locally owned cell: refinement level and the values `std::abs(mat.eigenvalue(d))` at all sample points -/
structure SizedCell (K : Type*) where
  level : ℕ
  eigs : List K
  deriving DecidableEq

variable {K : Type*} [Field K] [LinearOrder K] [IsStrictOrderedRing K]

/-- `diameter[v]`, util.h:85, 100 -/
def SizedCell.diameter (c : SizedCell K) : K := c.eigs.foldl max 0

/-- loop over the local cells, util.h:83-110: state (`cell_diameter_min`, `cell_diameter_max`), `top` stands for
`numeric_limits::max()`, `levels` for `n_global_levels()` -/
def localSizes (top : K) (levels : ℕ) (cells : List (SizedCell K)) : K × K :=
  cells.foldl (fun s c =>
    (c.eigs.foldl (fun m e => min m e) s.1, if 1 + c.level = levels then max c.diameter s.2 else s.2)) (top, 0)

/-- `Utilities::MPI::max` over the values of all ranks -/
def mpiMax (x : K) (xs : List K) : K := xs.foldl max x

/-- util.h:111-114: reduction over the ranks (at least one) -/
def globalSizes (top : K) (levels : ℕ) (rank0 : List (SizedCell K)) (ranks : List (List (SizedCell K))) : K × K :=
  (-mpiMax (-(localSizes top levels rank0).1) (ranks.map fun r => -(localSizes top levels r).1),
   mpiMax (localSizes top levels rank0).2 (ranks.map fun r => (localSizes top levels r).2))

/-- the list of cell diameters handed back for the local cells -/
def localDiameters (cells : List (SizedCell K)) : List K := cells.map SizedCell.diameter

/-! ## Proof -/

omit [Field K] [IsStrictOrderedRing K] in
theorem le_foldl_max (l : List K) (x : K) : ∀ y, l.foldl max x ≤ y ↔ x ≤ y ∧ ∀ e ∈ l, e ≤ y := by
  induction l generalizing x with
  | nil => simp
  | cons a l ih => intro y; rw [List.foldl_cons, ih]; simp [and_assoc]

omit [Field K] [IsStrictOrderedRing K] in
theorem foldl_min_le (l : List K) (x : K) : ∀ y, y ≤ l.foldl (fun m e => min m e) x ↔ y ≤ x ∧ ∀ e ∈ l, y ≤ e := by
  induction l generalizing x with
  | nil => simp
  | cons a l ih => intro y; rw [List.foldl_cons, ih]; simp [and_assoc]

omit [IsStrictOrderedRing K] in
theorem localSizes_fold (levels : ℕ) (cells : List (SizedCell K)) (s : K × K) :
    let r := cells.foldl (fun s c => (c.eigs.foldl (fun m e => min m e) s.1,
      if 1 + c.level = levels then max c.diameter s.2 else s.2)) s
    (∀ y, y ≤ r.1 ↔ y ≤ s.1 ∧ ∀ c ∈ cells, ∀ e ∈ c.eigs, y ≤ e) ∧
    (∀ y, r.2 ≤ y ↔ s.2 ≤ y ∧ ∀ c ∈ cells, 1 + c.level = levels → c.diameter ≤ y) := by
  induction cells generalizing s with
  | nil => simp
  | cons c l ih =>
    rw [List.foldl_cons]
    obtain ⟨h1, h2⟩ := ih (c.eigs.foldl (fun m e => min m e) s.1, if 1 + c.level = levels then max c.diameter s.2 else s.2)
    refine ⟨fun y => ?_, fun y => ?_⟩
    · rw [h1 y, foldl_min_le]; simp [and_assoc]
    · rw [h2 y]
      by_cases hc : 1 + c.level = levels
      · simp only [hc, if_true, max_le_iff, List.mem_cons, forall_eq_or_imp, forall_const]; tauto
      · simp only [hc, if_false, List.mem_cons, forall_eq_or_imp, false_imp_iff, true_and]

/-- Specification: lower and upper bounds that characterise the returned numbers. -/
theorem globalSizes_char (top : K) (levels : ℕ) (rank0 : List (SizedCell K)) (ranks : List (List (SizedCell K))) :
    (∀ y, y ≤ (globalSizes top levels rank0 ranks).1 ↔ y ≤ top ∧ ∀ c ∈ (rank0 :: ranks).flatten, ∀ e ∈ c.eigs, y ≤ e) ∧
    (∀ y, (globalSizes top levels rank0 ranks).2 ≤ y ↔
      0 ≤ y ∧ ∀ c ∈ (rank0 :: ranks).flatten, 1 + c.level = levels → c.diameter ≤ y) := by
  have hl : ∀ r : List (SizedCell K), (∀ y, y ≤ (localSizes top levels r).1 ↔ y ≤ top ∧ ∀ c ∈ r, ∀ e ∈ c.eigs, y ≤ e) ∧
      (∀ y, (localSizes top levels r).2 ≤ y ↔ 0 ≤ y ∧ ∀ c ∈ r, 1 + c.level = levels → c.diameter ≤ y) :=
    fun r => localSizes_fold levels r (top, 0)
  constructor
  · intro y
    simp only [globalSizes, mpiMax]
    rw [le_neg, le_foldl_max]
    simp only [List.mem_map, forall_exists_index, and_imp, forall_apply_eq_imp_iff₂, neg_le_neg_iff, (hl _).1]
    simp only [List.mem_flatten, List.mem_cons]
    constructor
    · rintro ⟨⟨ht, h0⟩, h1⟩
      refine ⟨ht, ?_⟩
      rintro c ⟨r, rfl | hr, hc⟩ e he
      · exact h0 c hc e he
      · exact (h1 r hr).2 c hc e he
    · rintro ⟨ht, h⟩
      exact ⟨⟨ht, fun c hc e he => h c ⟨rank0, .inl rfl, hc⟩ e he⟩,
        fun r hr => ⟨ht, fun c hc e he => h c ⟨r, .inr hr, hc⟩ e he⟩⟩
  · intro y
    simp only [globalSizes, mpiMax]
    rw [le_foldl_max]
    simp only [List.mem_map, forall_exists_index, and_imp, forall_apply_eq_imp_iff₂, (hl _).2]
    simp only [List.mem_flatten, List.mem_cons]
    constructor
    · rintro ⟨⟨ht, h0⟩, h1⟩
      refine ⟨ht, ?_⟩
      rintro c ⟨r, rfl | hr, hc⟩ e
      · exact h0 c hc e
      · exact (h1 r hr).2 c hc e
    · rintro ⟨ht, h⟩
      exact ⟨⟨ht, fun c hc e => h c ⟨rank0, .inl rfl, hc⟩ e⟩, fun r hr => ⟨ht, fun c hc e => h c ⟨r, .inr hr, hc⟩ e⟩⟩

/-- **C47 (partition independence).** Two distributions of the same cells to (any numbers of) ranks, in any local order,
yield the same smallest and largest cell size. -/
theorem C47_partition_independent (top : K) (levels : ℕ) (rank0 rank0' : List (SizedCell K))
    (ranks ranks' : List (List (SizedCell K))) (h : (rank0 :: ranks).flatten.Perm (rank0' :: ranks').flatten) :
    globalSizes top levels rank0 ranks = globalSizes top levels rank0' ranks' := by
  obtain ⟨a1, a2⟩ := globalSizes_char top levels rank0 ranks
  obtain ⟨b1, b2⟩ := globalSizes_char top levels rank0' ranks'
  apply Prod.ext
  · apply eq_of_forall_le_iff; intro y; rw [a1, b1]; simp only [h.mem_iff]
  · apply eq_of_forall_ge_iff; intro y; rw [a2, b2]; simp only [h.mem_iff]

/-- **C47 (values).** The first number is the smallest sampled value over all cells of the mesh, the second one the largest
one over the cells of the finest level. -/
theorem C47_values (top : K) (levels : ℕ) (rank0 : List (SizedCell K)) (ranks : List (List (SizedCell K)))
    (htop : ∀ c ∈ (rank0 :: ranks).flatten, ∀ e ∈ c.eigs, 0 < e ∧ e ≤ top) :
    ((∃ c ∈ (rank0 :: ranks).flatten, c.eigs ≠ []) →
      IsLeast {e | ∃ c ∈ (rank0 :: ranks).flatten, e ∈ c.eigs} (globalSizes top levels rank0 ranks).1) ∧
    ((∃ c ∈ (rank0 :: ranks).flatten, 1 + c.level = levels ∧ c.eigs ≠ []) →
      IsGreatest {e | ∃ c ∈ (rank0 :: ranks).flatten, 1 + c.level = levels ∧ e ∈ c.eigs}
        (globalSizes top levels rank0 ranks).2) := by
  obtain ⟨a1, a2⟩ := globalSizes_char top levels rank0 ranks
  generalize (rank0 :: ranks).flatten = cells at *
  set r := globalSizes top levels rank0 ranks
  constructor
  · rintro ⟨c0, hc0, hne⟩
    have hlow := (a1 r.1).1 le_rfl
    refine ⟨?_, ?_⟩
    · by_contra hmem
      -- all values are strictly larger than `r.1`: take the smallest of the finite list
      have hfin : ∀ l : List K, l ≠ [] → ∃ m ∈ l, ∀ e ∈ l, m ≤ e := by
        intro l
        induction l with
        | nil => intro h; exact absurd rfl h
        | cons a l ih =>
          intro _
          by_cases hl : l = []
          · subst hl; exact ⟨a, by simp, by simp⟩
          · obtain ⟨m, hm, hme⟩ := ih hl
            rcases le_total a m with h | h
            · exact ⟨a, by simp, by simp only [List.mem_cons, forall_eq_or_imp]; exact ⟨le_rfl, fun e he => h.trans (hme e he)⟩⟩
            · exact ⟨m, by simp [hm], by simp only [List.mem_cons, forall_eq_or_imp]; exact ⟨h, hme⟩⟩
      have hne' : (cells.flatMap SizedCell.eigs) ≠ [] := by
        obtain ⟨e, he⟩ := List.exists_mem_of_ne_nil _ hne
        exact List.ne_nil_of_mem (List.mem_flatMap.2 ⟨c0, hc0, he⟩)
      obtain ⟨m, hm, hmin⟩ := hfin _ hne'
      obtain ⟨c, hc, hmc⟩ := List.mem_flatMap.1 hm
      have h1 : m ≤ r.1 := (a1 m).2 ⟨(htop c hc m hmc).2, fun c' hc' e he =>
        hmin e (List.mem_flatMap.2 ⟨c', hc', he⟩)⟩
      have h2 : r.1 ≤ m := hlow.2 c hc m hmc
      exact hmem ⟨c, hc, le_antisymm h1 h2 ▸ hmc⟩
    · rintro e ⟨c, hc, he⟩; exact hlow.2 c hc e he
  · rintro ⟨c0, hc0, hl0, hne⟩
    have hup := (a2 r.2).1 le_rfl
    have hdiam : ∀ c : SizedCell K, ∀ e ∈ c.eigs, e ≤ c.diameter := fun c e he =>
      ((le_foldl_max c.eigs 0 c.diameter).1 le_rfl).2 e he
    refine ⟨?_, ?_⟩
    · by_contra hmem
      have hfin : ∀ l : List K, l ≠ [] → ∃ m ∈ l, ∀ e ∈ l, e ≤ m := by
        intro l
        induction l with
        | nil => intro h; exact absurd rfl h
        | cons a l ih =>
          intro _
          by_cases hl : l = []
          · subst hl; exact ⟨a, by simp, by simp⟩
          · obtain ⟨m, hm, hme⟩ := ih hl
            rcases le_total m a with h | h
            · exact ⟨a, by simp, by simp only [List.mem_cons, forall_eq_or_imp]; exact ⟨le_rfl, fun e he => (hme e he).trans h⟩⟩
            · exact ⟨m, by simp [hm], by simp only [List.mem_cons, forall_eq_or_imp]; exact ⟨h, hme⟩⟩
      set fine := cells.filter fun c => 1 + c.level = levels with hfine
      have hne' : (fine.flatMap SizedCell.eigs) ≠ [] := by
        obtain ⟨e, he⟩ := List.exists_mem_of_ne_nil _ hne
        exact List.ne_nil_of_mem (List.mem_flatMap.2 ⟨c0, by simp [hfine, hc0, hl0], he⟩)
      obtain ⟨m, hm, hmax⟩ := hfin _ hne'
      obtain ⟨c, hc, hmc⟩ := List.mem_flatMap.1 hm
      have hc' : c ∈ cells ∧ 1 + c.level = levels := by simpa [hfine] using hc
      have h1 : r.2 ≤ m := (a2 m).2 ⟨(htop c hc'.1 m hmc).1.le, fun c' hc'' hl =>
        (le_foldl_max c'.eigs 0 m).2 ⟨(htop c hc'.1 m hmc).1.le, fun e he =>
          hmax e (List.mem_flatMap.2 ⟨c', by simp [hfine, hc'', hl], he⟩)⟩⟩
      have h2 : m ≤ r.2 := (hdiam c m hmc).trans (hup.2 c hc'.1 hc'.2)
      exact hmem ⟨c, hc'.1, hc'.2, le_antisymm h2 h1 ▸ hmc⟩
    · rintro e ⟨c, hc, hl, he⟩; exact (hdiam c e he).trans (hup.2 c hc hl)

/-! ## C58: what the eigenvalues measure -/

open Matrix

/-- `lam` is one of the (complex) eigenvalues computed by `mat.compute_eigenvalues()`, util.h:93-97 -/
def IsEig {n : ℕ} (J : Matrix (Fin n) (Fin n) ℝ) (lam : ℂ) : Prop :=
  ∃ v : Fin n → ℂ, v ≠ 0 ∧ (J.map Complex.ofReal) *ᵥ v = lam • v

/-- squared length of a vector -/
def len2 {n : ℕ} (x : Fin n → ℝ) : ℝ := ∑ i, x i ^ 2

/-- **C58 (bounds).** If the mapping from the reference cell stretches every direction by a factor between `a` and `b`, each
sampled eigenvalue modulus, hence every reported cell size, lies between `a` and `b`. -/
theorem C58_eigenvalue_bounds {n : ℕ} (J : Matrix (Fin n) (Fin n) ℝ) (a b : ℝ) (ha : 0 ≤ a) (hb : 0 ≤ b)
    (h : ∀ x, a ^ 2 * len2 x ≤ len2 (J *ᵥ x) ∧ len2 (J *ᵥ x) ≤ b ^ 2 * len2 x) (lam : ℂ) (hl : IsEig J lam) :
    a ≤ ‖lam‖ ∧ ‖lam‖ ≤ b := by
  obtain ⟨v, hv, hJv⟩ := hl
  set x : Fin n → ℝ := fun i => (v i).re with hx
  set y : Fin n → ℝ := fun i => (v i).im with hy
  have hre : ∀ i, ((J.map Complex.ofReal) *ᵥ v) i = ((J *ᵥ x) i : ℂ) + ((J *ᵥ y) i : ℂ) * Complex.I := by
    intro i
    simp only [Matrix.mulVec, dotProduct, Matrix.map_apply, Complex.ofReal_sum, Finset.sum_mul, ← Finset.sum_add_distrib]
    apply Finset.sum_congr rfl
    intro j _
    rw [hx, hy]
    push_cast
    rw [mul_assoc, ← mul_add, Complex.re_add_im]
  have hns : ∀ z w : ℝ, ‖(z : ℂ) + (w : ℂ) * Complex.I‖ ^ 2 = z ^ 2 + w ^ 2 := by
    intro z w
    rw [← Complex.normSq_eq_norm_sq, Complex.normSq_add_mul_I]
  have hsum : len2 (J *ᵥ x) + len2 (J *ᵥ y) = ‖lam‖ ^ 2 * (len2 x + len2 y) := by
    unfold len2
    rw [← Finset.sum_add_distrib, ← Finset.sum_add_distrib, Finset.mul_sum]
    apply Finset.sum_congr rfl
    intro i _
    have h1 := congrFun hJv i
    rw [hre i] at h1
    rw [← hns, h1, Pi.smul_apply, smul_eq_mul, norm_mul, mul_pow]
    congr 1
    have : v i = ((x i : ℝ) : ℂ) + ((y i : ℝ) : ℂ) * Complex.I := (Complex.re_add_im (v i)).symm
    rw [this, hns]
  have hpos : 0 < len2 x + len2 y := by
    obtain ⟨i, hi⟩ := Function.ne_iff.1 hv
    have hxi : 0 < x i ^ 2 + y i ^ 2 := by
      by_contra hc
      have h1 : x i = 0 := by nlinarith [sq_nonneg (x i), sq_nonneg (y i)]
      have h2 : y i = 0 := by nlinarith [sq_nonneg (x i), sq_nonneg (y i)]
      apply hi
      exact Complex.ext h1 h2
    unfold len2
    rw [← Finset.sum_add_distrib]
    exact Finset.sum_pos' (fun j _ => by positivity) ⟨i, Finset.mem_univ i, hxi⟩
  obtain ⟨hx1, hx2⟩ := h x
  obtain ⟨hy1, hy2⟩ := h y
  constructor
  · have : a ^ 2 ≤ ‖lam‖ ^ 2 := by
      by_contra hc
      have := mul_lt_mul_of_pos_right (not_le.1 hc) hpos
      linarith
    exact le_of_sq_le_sq this (norm_nonneg _)
  · have : ‖lam‖ ^ 2 ≤ b ^ 2 := by
      by_contra hc
      have := mul_lt_mul_of_pos_right (not_le.1 hc) hpos
      linarith
    exact le_of_sq_le_sq this hb
where
  le_of_sq_le_sq {x y : ℝ} (h : x ^ 2 ≤ y ^ 2) (hy : 0 ≤ y) : x ≤ y := abs_le_of_sq_le_sq' h hy |>.2

/-- Jacobian of a cell of extents `1` and `H`, local axes along the coordinate axes -/
def jacAligned (H : ℝ) : Matrix (Fin 2) (Fin 2) ℝ := !![1, 0; 0, H]
/-- the same rectangle with the local axes turned by 90 degrees -/
def jacTurned (H : ℝ) : Matrix (Fin 2) (Fin 2) ℝ := !![0, -1; H, 0]

/-- **C58 (the size is not a property of the cell's geometry).** Both matrices describe a rectangle with extents `1` and
`H > 1`; for aligned local axes the sampled values are `1` and `H`, for turned axes all of them are `√H`, so that the smallest
reported size can exceed the shortest extent of the cell by any factor. -/
theorem C58_depends_on_local_axes (H : ℝ) (hH : 1 < H) :
    (IsEig (jacAligned H) 1 ∧ IsEig (jacAligned H) H) ∧ (∃ lam, IsEig (jacTurned H) lam) ∧
    ∀ lam, IsEig (jacTurned H) lam → ‖lam‖ ^ 2 = H := by
  refine ⟨⟨⟨![1, 0], ?_, ?_⟩, ⟨![0, 1], ?_, ?_⟩⟩, ⟨Complex.I * (√H : ℝ), ![Complex.I, (√H : ℝ)], ?_, ?_⟩, ?_⟩
  · intro h; have := congrFun h 0; simp at this
  · funext i; fin_cases i <;> simp [jacAligned, Matrix.mulVec, dotProduct]
  · intro h; have := congrFun h 1; simp at this
  · funext i; fin_cases i <;> simp [jacAligned, Matrix.mulVec, dotProduct]
  · intro h; have := congrFun h 0; simp at this
  · have hs : ((√H : ℝ) : ℂ) * ((√H : ℝ) : ℂ) = (H : ℂ) := by
      rw [← Complex.ofReal_mul, Real.mul_self_sqrt (by linarith)]
    funext i
    fin_cases i
    · simp [jacTurned, Matrix.mulVec, dotProduct]
      linear_combination (-(√H : ℝ) : ℂ) * Complex.I_mul_I
    · simp [jacTurned, Matrix.mulVec, dotProduct]
      linear_combination (-Complex.I) * hs
  · rintro lam ⟨v, hv, h⟩
    have h0 := congrFun h 0
    have h1 := congrFun h 1
    simp [jacTurned, Matrix.mulVec, dotProduct] at h0 h1
    -- h0 : -v 1 = lam * v 0, h1 : H * v 0 = lam * v 1
    have hv0 : v 0 ≠ 0 := by
      intro h00
      apply hv
      funext i
      rw [h00] at h0
      fin_cases i
      · exact h00
      · simpa using h0
    have hl : lam ^ 2 = -(H : ℂ) := by
      have : (lam ^ 2 + H) * v 0 = 0 := by linear_combination h1 - lam * h0
      rcases mul_eq_zero.1 this with h2 | h2
      · linear_combination h2
      · exact absurd h2 hv0
    have := congrArg norm hl
    rw [norm_pow, norm_neg, Complex.norm_real, Real.norm_eq_abs, abs_of_pos (by linarith)] at this
    exact this

/-- **C58 (aligned axes).** If the mapping only stretches the coordinate axes, with the extents `h`, the eigenvalues are
exactly the extents. -/
theorem C58_aligned {n : ℕ} (h : Fin n → ℝ) (lam : ℂ) :
    IsEig (Matrix.diagonal h) lam ↔ ∃ i, lam = h i := by
  have hmul : ∀ v : Fin n → ℂ, ((Matrix.diagonal h).map Complex.ofReal) *ᵥ v = fun i => (h i : ℂ) * v i := by
    intro v
    have : (Matrix.diagonal h).map Complex.ofReal = Matrix.diagonal fun i => (h i : ℂ) := by
      ext i j
      by_cases hij : i = j
      · subst hij; simp
      · simp [Matrix.diagonal_apply_ne _ hij]
    rw [this]
    funext i
    rw [Matrix.mulVec_diagonal]
  constructor
  · rintro ⟨v, hv, he⟩
    obtain ⟨i, hi⟩ := Function.ne_iff.1 hv
    refine ⟨i, ?_⟩
    rw [hmul] at he
    have := congrFun he i
    simp only [Pi.smul_apply, smul_eq_mul] at this
    exact (mul_right_cancel₀ hi this).symm
  · rintro ⟨i, rfl⟩
    refine ⟨Pi.single i 1, ?_, ?_⟩
    · intro h0
      have := congrFun h0 i
      simp at this
    · rw [hmul]
      funext j
      by_cases hij : j = i
      · subst hij; simp
      · simp [hij]

/-! Non-vacuity -/
example : globalSizes (1000 : ℚ) 2 [⟨0, [2, 3]⟩] [[⟨1, [1, 5]⟩, ⟨1, [1 / 2, 4]⟩], []] = (1 / 2, 5) := by decide +kernel
example : ([⟨0, [2, 3]⟩] :: [[⟨1, [1, 5]⟩, ⟨1, [1 / 2, 4]⟩], []] : List (List (SizedCell ℚ))).flatten.Perm
    ([⟨1, [1 / 2, 4]⟩, ⟨0, [2, 3]⟩] :: [[⟨1, [1, 5]⟩]]).flatten := by decide +kernel
example : ∀ x : Fin 2 → ℝ, (1 : ℝ) ^ 2 * len2 x ≤ len2 (jacAligned 3 *ᵥ x) ∧ len2 (jacAligned 3 *ᵥ x) ≤ 3 ^ 2 * len2 x := by
  intro x
  simp [len2, jacAligned, Matrix.mulVec, dotProduct, Fin.sum_univ_two]
  constructor <;> nlinarith [sq_nonneg (x 0), sq_nonneg (x 1)]

end Verif.Mesh
