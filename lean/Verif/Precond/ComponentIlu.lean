import Mathlib.Tactic.Common
import Mathlib.Logic.Function.Basic
import Mathlib.Data.List.Nodup
import Mathlib.Data.List.Range
import Mathlib.Data.List.ProdSigma

/-! # C17: component-wise ILU (block_matrix_extension.h) and its index table
(navier_stokes_preconditioner.cc) -/

namespace Verif.Precond

variable {K : Type*}

/-- The pairs `(i, d)` in the order of the two nested loops. -/
def loopPairs (n dim : ℕ) : List (ℕ × ℕ) :=
  (List.range n).flatMap fun i => (List.range dim).map fun d => (i, d)

/-- `ComponentILUExtension::multiply`, include/adaflo/block_matrix_extension.h:118-148.
`idx` is `index_by_component`, `n = local_size`; vectors are index functions; `P` is the scalar
operator `ApplyInverse` acting on each of the `dim` columns. -/
def multiply (n dim : ℕ) (idx : ℕ → ℕ) (P : (ℕ → K) → (ℕ → K)) (dst src : ℕ → K) : ℕ → K :=
  let srcCpy : ℕ → ℕ → K := fun d i => src (idx (i * dim + d))
  let dstCpy : ℕ → ℕ → K := fun d => P (srcCpy d)
  (loopPairs n dim).foldl (fun v p => Function.update v (idx (p.1 * dim + p.2)) (dstCpy p.2 p.1)) dst

/-- One degree of freedom of a cell: its scalar index and its vector indices by component. -/
structure CellDof where
  scalar : ℕ
  vector : ℕ → ℕ

/-- The loops of source/navier_stokes_preconditioner.cc:1225-1256 building `scalar_dof_indices`:
over locally owned cells, cell dofs, components.  `owned` is `reduced_owned.index_within_set`
(`none`: not an element), `ownedV` the one of the vector dofs.  `resize` fills with zero. -/
def buildTable (dim : ℕ) (owned : ℕ → Option ℕ) (ownedV : ℕ → ℕ) (cells : List (List CellDof)) :
    ℕ → ℕ :=
  cells.flatten.foldl (fun t c =>
    match owned c.scalar with
    | none => t
    | some l => (List.range dim).foldl
        (fun t d => Function.update t (l * dim + d) (ownedV (c.vector d))) t) (fun _ => 0)

theorem mem_loopPairs {n dim : ℕ} {p : ℕ × ℕ} : p ∈ loopPairs n dim ↔ p.1 < n ∧ p.2 < dim := by
  obtain ⟨i, d⟩ := p
  simp [loopPairs]

theorem index_inj {dim i j d e : ℕ} (hd : d < dim) (he : e < dim) (h : i * dim + d = j * dim + e) :
    i = j ∧ d = e := by
  have hpos : 0 < dim := by omega
  have h1 : (i * dim + d) / dim = i := by
    rw [Nat.mul_comm, Nat.mul_add_div hpos, Nat.div_eq_of_lt hd, Nat.add_zero]
  have h2 : (j * dim + e) / dim = j := by
    rw [Nat.mul_comm, Nat.mul_add_div hpos, Nat.div_eq_of_lt he, Nat.add_zero]
  have : i = j := by rw [← h1, h, h2]
  subst this
  exact ⟨rfl, by omega⟩

/-- Assignments in a fold: untouched and touched positions. -/
theorem foldl_update_not {α β : Type*} [DecidableEq β] (l : List α) (k : α → β) (x : α → K) (v : β → K) (b : β)
    (h : ∀ a ∈ l, k a ≠ b) : l.foldl (fun v a => Function.update v (k a) (x a)) v b = v b := by
  induction l generalizing v with
  | nil => rfl
  | cons a l ih =>
    simp only [List.foldl_cons]
    rw [ih _ (fun c hc => h c (by simp [hc])), Function.update_of_ne (h a (by simp)).symm]

theorem foldl_update_mem {α β : Type*} [DecidableEq β] (l : List α) (k : α → β) (x : α → K) (v : β → K) (a : α)
    (ha : a ∈ l) (h : ∀ c ∈ l, k c = k a → x c = x a) :
    l.foldl (fun v a => Function.update v (k a) (x a)) v (k a) = x a := by
  induction l generalizing v with
  | nil => cases ha
  | cons c l ih =>
    simp only [List.foldl_cons]
    by_cases hl : ∃ e ∈ l, k e = k a
    · obtain ⟨e, he, hke⟩ := hl
      have hxe := h e (by simp [he]) hke
      have := ih (Function.update v (k c) (x c))
      by_cases hal : a ∈ l
      · exact this hal (fun c hc => h c (by simp [hc]))
      · -- use e instead of a
        rw [← hke, ← hxe]
        clear this
        exact ih' l e he (fun c hc hk => by rw [h c (by simp [hc]) (hk.trans hke), hxe]) _
    · have hac : a = c := by
        rcases List.mem_cons.1 ha with h' | h'
        · exact h'
        · exact absurd ⟨a, h', rfl⟩ hl
      subst hac
      rw [foldl_update_not _ _ _ _ _ (fun e he hk => hl ⟨e, he, hk⟩), Function.update_self]
where
  ih' (l : List α) (a : α) (ha : a ∈ l) (h : ∀ c ∈ l, k c = k a → x c = x a) (v : β → K) :
      l.foldl (fun v a => Function.update v (k a) (x a)) v (k a) = x a := by
    induction l generalizing v a with
    | nil => cases ha
    | cons c l ih =>
      simp only [List.foldl_cons]
      by_cases hl : ∃ e ∈ l, k e = k a
      · obtain ⟨e, he, hke⟩ := hl
        have hxe := h e (by simp [he]) hke
        rw [← hke, ← hxe]
        exact ih e he (fun c hc hk => by rw [h c (by simp [hc]) (hk.trans hke), hxe]) _
      · have hac : a = c := by
          rcases List.mem_cons.1 ha with h' | h'
          · exact h'
          · exact absurd ⟨a, h', rfl⟩ hl
        subst hac
        rw [foldl_update_not _ _ _ _ _ (fun e he hk => hl ⟨e, he, hk⟩), Function.update_self]

/-- **C17 (action).** For any one-to-one index table, `multiply` writes at the position of
`(i, d)` entry `i` of the scalar operator applied to component `d` of the input, and nothing
anywhere else. -/
theorem C17_multiply_per_component (n dim : ℕ) (idx : ℕ → ℕ) (P : (ℕ → K) → (ℕ → K))
    (dst src : ℕ → K) (hinj : ∀ a < n * dim, ∀ b < n * dim, idx a = idx b → a = b) :
    (∀ i < n, ∀ d < dim, multiply n dim idx P dst src (idx (i * dim + d))
        = P (fun j => src (idx (j * dim + d))) i) ∧
    (∀ m, (∀ i < n, ∀ d < dim, idx (i * dim + d) ≠ m) → multiply n dim idx P dst src m = dst m) := by
  have hlt : ∀ {i d}, i < n → d < dim → i * dim + d < n * dim := by
    intro i d hi hd
    calc i * dim + d < i * dim + dim := by omega
      _ = (i + 1) * dim := by rw [Nat.add_mul, Nat.one_mul]
      _ ≤ n * dim := Nat.mul_le_mul_right _ hi
  constructor
  · intro i hi d hd
    exact foldl_update_mem (loopPairs n dim) (fun p : ℕ × ℕ => idx (p.1 * dim + p.2)) (fun p : ℕ × ℕ => P (fun j => src (idx (j * dim + p.2))) p.1)
      dst (i, d) (mem_loopPairs.2 ⟨hi, hd⟩) (by
        rintro ⟨j, e⟩ hp hk
        obtain ⟨hj, he⟩ := mem_loopPairs.1 hp
        obtain ⟨rfl, rfl⟩ := index_inj he hd (hinj _ (hlt hj he) _ (hlt hi hd) hk)
        rfl)
  · intro m hm
    exact foldl_update_not (loopPairs n dim) (fun p : ℕ × ℕ => idx (p.1 * dim + p.2)) (fun p : ℕ × ℕ => P (fun j => src (idx (j * dim + p.2))) p.1) dst m (by
      rintro ⟨j, e⟩ hp
      obtain ⟨hj, he⟩ := mem_loopPairs.1 hp
      exact hm j hj e he)

/-- **C17 (renumbering).** Renumbering the vector entries by a bijection `σ` and applying the
operator commute. -/
theorem C17_renumbering (n dim : ℕ) (idx : ℕ → ℕ) (P : (ℕ → K) → (ℕ → K)) (dst src : ℕ → K)
    (hinj : ∀ a < n * dim, ∀ b < n * dim, idx a = idx b → a = b) (σ : ℕ ≃ ℕ) (m : ℕ) :
    multiply n dim (fun a => σ (idx a)) P (fun k => dst (σ.symm k)) (fun k => src (σ.symm k)) (σ m)
      = multiply n dim idx P dst src m := by
  have h1 := C17_multiply_per_component n dim idx P dst src hinj
  have h2 := C17_multiply_per_component n dim (fun a => σ (idx a)) P (fun k => dst (σ.symm k))
    (fun k => src (σ.symm k)) (fun a ha b hb h => hinj a ha b hb (σ.injective h))
  by_cases hm : ∃ i < n, ∃ d < dim, idx (i * dim + d) = m
  · obtain ⟨i, hi, d, hd, rfl⟩ := hm
    rw [h1.1 i hi d hd, h2.1 i hi d hd]
    simp
  · have hm' : ∀ i < n, ∀ d < dim, idx (i * dim + d) ≠ m := fun i hi d hd h => hm ⟨i, hi, d, hd, h⟩
    rw [h1.2 m hm', h2.2 (σ m) (fun i hi d hd h => hm' i hi d hd (σ.injective h))]
    simp

/-- **C17 (index table).** If cells agree on the numbering of shared dofs (`V s d` is the vector
index of component `d` of scalar dof `s`), the table contains for every owned scalar dof of any
cell the local index of its vector dof, whatever the cell order. -/
theorem C17_table (dim : ℕ) (owned : ℕ → Option ℕ) (ownedV : ℕ → ℕ) (cells : List (List CellDof))
    (V : ℕ → ℕ → ℕ)
    (hV : ∀ c ∈ cells.flatten, ∀ d < dim, c.vector d = V c.scalar d)
    (hinj : ∀ s t l, owned s = some l → owned t = some l → s = t) :
    ∀ c ∈ cells.flatten, ∀ l, owned c.scalar = some l → ∀ d < dim,
      buildTable dim owned ownedV cells (l * dim + d) = ownedV (V c.scalar d) := by
  have step : ∀ (L : List CellDof) (t : ℕ → ℕ),
      (∀ c ∈ L, ∀ d < dim, c.vector d = V c.scalar d) → ∀ s l, owned s = some l → ∀ d < dim,
      (L.foldl (fun t c => match owned c.scalar with
        | none => t
        | some l => (List.range dim).foldl
            (fun t d => Function.update t (l * dim + d) (ownedV (c.vector d))) t) t) (l * dim + d)
      = if ∃ c ∈ L, c.scalar = s then ownedV (V s d) else t (l * dim + d) := by
    intro L
    induction L with
    | nil => intro t _ s l _ d _; simp
    | cons c L ih =>
      intro t hL s l hl d hd
      rw [List.foldl_cons, ih _ (fun c hc => hL c (by simp [hc])) s l hl d hd]
      by_cases h : ∃ c ∈ L, c.scalar = s
      · have : ∃ c' ∈ c :: L, c'.scalar = s := by
          obtain ⟨c', h1, h2⟩ := h; exact ⟨c', by simp [h1], h2⟩
        rw [if_pos h, if_pos this]
      · rw [if_neg h]
        by_cases hc : c.scalar = s
        · rw [if_pos ⟨c, by simp, hc⟩, hc, hl]
          dsimp only
          rw [foldl_update_mem (List.range dim) (fun d => l * dim + d) (fun d => ownedV (c.vector d))
            t d (List.mem_range.2 hd)]
          · rw [hL c (by simp) d hd, hc]
          · intro e _ he
            have : e = d := by simpa using he
            rw [this]
        · have : ¬ ∃ c' ∈ c :: L, c'.scalar = s := by
            rintro ⟨c', h1, h2⟩
            rcases List.mem_cons.1 h1 with rfl | h1
            · exact hc h2
            · exact h ⟨c', h1, h2⟩
          rw [if_neg this]
          cases hco : owned c.scalar with
          | none => rfl
          | some l' =>
            dsimp only
            apply foldl_update_not (List.range dim) (fun d => l' * dim + d)
            intro e he hk
            have := (index_inj (List.mem_range.1 he) hd hk).1
            subst this
            exact hc (hinj _ _ _ hco hl)
  intro c hc l hl d hd
  have := step cells.flatten (fun _ => 0) hV c.scalar l hl d hd
  rw [if_pos ⟨c, hc, rfl⟩] at this
  exact this

/-- **C17 (index table is one-to-one).** If every owned scalar dof occurs in some cell and different
(scalar dof, component) pairs have different vector dofs, the table satisfies the hypothesis of
`C17_multiply_per_component`. -/
theorem C17_table_injective (n dim : ℕ) (owned : ℕ → Option ℕ) (ownedV : ℕ → ℕ)
    (cells : List (List CellDof)) (V : ℕ → ℕ → ℕ)
    (hV : ∀ c ∈ cells.flatten, ∀ d < dim, c.vector d = V c.scalar d)
    (hinj : ∀ s t l, owned s = some l → owned t = some l → s = t)
    (hcov : ∀ l < n, ∃ c ∈ cells.flatten, owned c.scalar = some l)
    (hVinj : ∀ s t, ∀ d < dim, ∀ e < dim, ownedV (V s d) = ownedV (V t e) → s = t ∧ d = e) :
    ∀ a < n * dim, ∀ b < n * dim, buildTable dim owned ownedV cells a
      = buildTable dim owned ownedV cells b → a = b := by
  intro a ha b hb h
  have hpos : 0 < dim := by
    rcases Nat.eq_zero_or_pos dim with rfl | h'
    · simp at ha
    · exact h'
  have split : ∀ x, x = x / dim * dim + x % dim := fun x => by
    rw [Nat.mul_comm]; exact (Nat.div_add_mod x dim).symm
  have hdiv : ∀ x, x < n * dim → x / dim < n := fun x hx => Nat.div_lt_of_lt_mul (by
    rw [Nat.mul_comm]; exact hx)
  obtain ⟨c, hc, hcl⟩ := hcov _ (hdiv a ha)
  obtain ⟨c', hc', hcl'⟩ := hcov _ (hdiv b hb)
  have h1 := C17_table dim owned ownedV cells V hV hinj c hc _ hcl _ (Nat.mod_lt a hpos)
  have h2 := C17_table dim owned ownedV cells V hV hinj c' hc' _ hcl' _ (Nat.mod_lt b hpos)
  rw [← split a] at h1
  rw [← split b] at h2
  rw [h1, h2] at h
  obtain ⟨h3, h4⟩ := hVinj _ _ _ (Nat.mod_lt a hpos) _ (Nat.mod_lt b hpos) h
  rw [h3, hcl'] at hcl
  rw [split a, split b, h4, Option.some.inj hcl]

/-- Non-vacuity: 3 scalar dofs in 2 dimensions, numbered component by component. -/
example : (∀ a < 6, ∀ b < 6, (fun a => a % 2 * 3 + a / 2) a = (fun a => a % 2 * 3 + a / 2) b → a = b) ∧
    (List.range 6).map (multiply 3 2 (fun a => a % 2 * 3 + a / 2) (fun v i => v i + v 0) (fun _ => 0)
      (fun k => k)) = [0, 1, 2, 6, 7, 8] := by
  decide

end Verif.Precond
