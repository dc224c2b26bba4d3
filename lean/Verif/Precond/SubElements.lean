import Verif.Precond.ComponentIlu
import Mathlib.Tactic.Ring
import Mathlib.Tactic.Linarith
import Mathlib.Tactic.IntervalCases

/-! # C18: index tables of linear sub-elements
(`IntegrationHelper::get_indices_sub_elements`, `get_indices_sub_quad`,
source/navier_stokes_preconditioner.cc:2549-2704) -/

namespace Verif.Precond

/-- Triples `(x, y, z)`. -/
abbrev Pt := ℕ × ℕ × ℕ

/-- `for z < nz, for y < ny, for x < nx` in program order. -/
def loops3 (nx ny nz : ℕ) : List Pt :=
  (List.range nz).flatMap fun z => (List.range ny).flatMap fun y => (List.range nx).map fun x =>
    (x, y, z)

/-- Result tables, `table (index, ind)`; unwritten entries are 0. -/
abbrev Table := ℕ × ℕ → ℕ

/-- All `(element, corner)` pairs in the order of the six nested loops. -/
def subLoops (dim degree : ℕ) : List (Pt × Pt) :=
  (loops3 degree degree (if dim = 3 then degree else 1)).flatMap fun e =>
    (loops3 2 2 (if dim = 3 then 2 else 1)).map fun c => (e, c)

/-- `get_indices_sub_elements` (lines 2549-2624); `num` is
`get_poly_space_numbering_inverse()`. -/
def dofTable (dim degree : ℕ) (num : ℕ → ℕ) : Table :=
  if dim = 1 then
    ((List.range degree).flatMap fun el => (List.range 2).map fun i => (el, i)).foldl
      (fun (t : Table) (p : ℕ × ℕ) => Function.update t (p.1, p.2) (num (p.1 + p.2))) (fun _ => 0)
  else
    let n := degree + 1
    (subLoops dim degree).foldl (fun (t : Table) (p : Pt × Pt) =>
      let elx := p.1.1; let ely := p.1.2.1; let elz := p.1.2.2
      let k := p.2.1; let j := p.2.2.1; let i := p.2.2.2
      let index := elx + ely * degree + elz * degree * degree
      let start := elx + ely * n + elz * n * n
      let ind := k + j * 2 + i * 4
      let loc := start + k + j * n + i * n * n
      Function.update t (index, ind) (num loc)) (fun _ => 0)

/-- `get_indices_sub_quad` (lines 2628-2702); in one dimension `n_dofs = 2`. -/
def quadTable (dim degree : ℕ) : Table :=
  if dim = 1 then
    ((List.range degree).flatMap fun el => (List.range 2).map fun i => (el, i)).foldl
      (fun (t : Table) (p : ℕ × ℕ) => Function.update t (p.1, p.2) (p.1 * 2 + p.2)) (fun _ => 0)
  else
    let n := 2 * degree
    (subLoops dim degree).foldl (fun (t : Table) (p : Pt × Pt) =>
      let elx := p.1.1; let ely := p.1.2.1; let elz := p.1.2.2
      let k := p.2.1; let j := p.2.2.1; let i := p.2.2.2
      let index := elx + ely * degree + elz * degree * degree
      let start := 2 * (elx + ely * n + elz * n * n)
      let ind := k + j * 2 + i * 4
      let loc := start + k + j * n + i * n * n
      Function.update t (index, ind) loc) (fun _ => 0)

/-! ## Specification: lattice points and their lexicographic numbers -/

/-- Points of the `m × ... × m` lattice in `dim` dimensions (missing coordinates are 0). -/
def Box (dim m : ℕ) (p : Pt) : Prop :=
  p.1 < m ∧ p.2.1 < (if 2 ≤ dim then m else 1) ∧ p.2.2 < (if 3 ≤ dim then m else 1)

/-- Lexicographic number, `x` running fastest. -/
def lex (m : ℕ) (p : Pt) : ℕ := p.1 + p.2.1 * m + p.2.2 * m * m

/-- Componentwise operations on lattice points. -/
def Pt.add (p q : Pt) : Pt := (p.1 + q.1, p.2.1 + q.2.1, p.2.2 + q.2.2)
/-- Doubling of all coordinates. -/
def Pt.double (p : Pt) : Pt := (2 * p.1, 2 * p.2.1, 2 * p.2.2)

theorem lex_inj {dim m : ℕ} (_ : 1 ≤ dim ∧ dim ≤ 3) {p q : Pt} (hp : Box dim m p) (hq : Box dim m q)
    (h : lex m p = lex m q) : p = q := by
  obtain ⟨x, y, z⟩ := p
  obtain ⟨x', y', z'⟩ := q
  simp only [Box, lex] at hp hq h
  obtain ⟨hx, hy, hz⟩ := hp
  obtain ⟨hx', hy', hz'⟩ := hq
  have hy1 : y < m := lt_of_lt_of_le hy (by split_ifs <;> omega)
  have hy1' : y' < m := lt_of_lt_of_le hy' (by split_ifs <;> omega)
  have e1 : (y + z * m) * m + x = (y' + z' * m) * m + x' := by linarith [h]
  obtain ⟨h1, rfl⟩ := index_inj hx hx' e1
  have e2 : z * m + y = z' * m + y' := by omega
  obtain ⟨rfl, rfl⟩ := index_inj hy1 hy1' e2
  rfl

theorem lex_lt {dim m : ℕ} (hd : 1 ≤ dim ∧ dim ≤ 3) {p : Pt} (hp : Box dim m p) :
    lex m p < m ^ dim := by
  obtain ⟨x, y, z⟩ := p
  obtain ⟨hx, hy, hz⟩ := hp
  simp only [lex] at *
  obtain ⟨h1, h3⟩ := hd
  interval_cases dim
  · simp at hy hz ⊢; subst hy hz; simpa using hx
  · simp at hy hz ⊢; subst hz
    have : y * m + m ≤ m * m := by nlinarith
    nlinarith
  · simp at hy hz ⊢
    have e1 : y * m + m ≤ m * m := by nlinarith
    have e2 : z * (m * m) + m * m ≤ m * (m * m) := by nlinarith
    nlinarith

theorem lex_surj {dim m : ℕ} (hd : 1 ≤ dim ∧ dim ≤ 3) {a : ℕ} (ha : a < m ^ dim) :
    ∃ p, Box dim m p ∧ lex m p = a := by
  have hm : 0 < m := by
    rcases Nat.eq_zero_or_pos m with rfl | h
    · have : 0 ^ dim = 0 := Nat.zero_pow (by omega)
      omega
    · exact h
  obtain ⟨h1, h3⟩ := hd
  interval_cases dim
  · exact ⟨(a, 0, 0), by simp [Box]; simpa using ha, by simp [lex]⟩
  · refine ⟨(a % m, a / m, 0), ?_, ?_⟩
    · simp [Box, Nat.mod_lt _ hm]
      apply Nat.div_lt_of_lt_mul; nlinarith
    · simp [lex]; have := Nat.mod_add_div a m; linarith
  · refine ⟨(a % m, a / m % m, a / m / m), ?_, ?_⟩
    · simp [Box, Nat.mod_lt _ hm]
      apply Nat.div_lt_of_lt_mul
      apply Nat.div_lt_of_lt_mul
      nlinarith
    · simp only [lex]
      have e1 := Nat.mod_add_div a m
      have e2 := Nat.mod_add_div (a / m) m
      have : a / m % m * m + a / m / m * m * m = m * (a / m) := by
        calc a / m % m * m + a / m / m * m * m = m * (a / m % m + m * (a / m / m)) := by ring
          _ = m * (a / m) := by rw [e2]
      linarith

theorem mem_loops3 {nx ny nz : ℕ} {p : Pt} :
    p ∈ loops3 nx ny nz ↔ p.1 < nx ∧ p.2.1 < ny ∧ p.2.2 < nz := by
  obtain ⟨x, y, z⟩ := p
  simp only [loops3, List.mem_flatMap, List.mem_map, List.mem_range, Prod.mk.injEq]
  constructor
  · rintro ⟨c, hc, b, hb, a, ha, rfl, rfl, rfl⟩; exact ⟨ha, hb, hc⟩
  · rintro ⟨ha, hb, hc⟩; exact ⟨z, hc, y, hb, x, ha, rfl, rfl, rfl⟩

theorem mem_subLoops {dim degree : ℕ} (hd : dim = 2 ∨ dim = 3) {p : Pt × Pt} :
    p ∈ subLoops dim degree ↔ Box dim degree p.1 ∧ Box dim 2 p.2 := by
  obtain ⟨e, c⟩ := p
  simp only [subLoops, List.mem_flatMap, List.mem_map, mem_loops3, Prod.mk.injEq, Box]
  have : (2 ≤ dim) := by omega
  have h3 : (3 ≤ dim) ↔ dim = 3 := by omega
  simp only [this, h3, if_true]
  constructor
  · rintro ⟨a, ha, b, hb, rfl, rfl⟩; exact ⟨ha, hb⟩
  · rintro ⟨ha, hb⟩; exact ⟨e, ha, c, hb, rfl, rfl⟩

/-- **C18 (dof table).** Entry (sub-element `e`, corner `c`) of the dof table is the number of lattice
point `e + c`. -/
theorem C18_dof_table (dim degree : ℕ) (hd : 1 ≤ dim ∧ dim ≤ 3) (num : ℕ → ℕ) (e c : Pt)
    (he : Box dim degree e) (hc : Box dim 2 c) :
    dofTable dim degree num (lex degree e, lex 2 c) = num (lex (degree + 1) (e.add c)) := by
  unfold dofTable
  split_ifs with h1
  · subst h1
    obtain ⟨x, y, z⟩ := e
    obtain ⟨k, j, i⟩ := c
    simp [Box] at he hc
    obtain ⟨hx, rfl, rfl⟩ := he
    obtain ⟨hk, rfl, rfl⟩ := hc
    simp only [lex, Pt.add, Nat.zero_mul, Nat.add_zero]
    refine foldl_update_mem _ (fun p : ℕ × ℕ => (p.1, p.2)) (fun p => num (p.1 + p.2)) _ (x, k) ?_ ?_
    · simp; omega
    · rintro ⟨a, b⟩ _ h; simp at h; simp [h]
  · have hd' : dim = 2 ∨ dim = 3 := by omega
    have key := foldl_update_mem (subLoops dim degree)
      (fun p : Pt × Pt => (lex degree p.1, lex 2 p.2))
      (fun p => num (lex (degree + 1) (p.1.add p.2))) (fun _ => 0) (e, c)
      ((mem_subLoops hd').2 ⟨he, hc⟩) (by
        rintro ⟨e', c'⟩ hm hk
        obtain ⟨he', hc'⟩ := (mem_subLoops hd').1 hm
        simp only [Prod.mk.injEq] at hk
        rw [lex_inj hd he' he hk.1, lex_inj hd hc' hc hk.2])
    rw [← key]
    dsimp only
    refine congrFun (congrArg (fun f => List.foldl f (fun _ => 0) (subLoops dim degree)) ?_) _
    funext t p
    obtain ⟨⟨x, y, z⟩, ⟨k, j, i⟩⟩ := p
    simp only [lex, Pt.add]
    congr 2 <;> ring

/-- **C18 (quadrature table).** Entry (sub-element `e`, corner `c`) of the quadrature table is the
number of lattice point `2 e + c`. -/
theorem C18_quad_table (dim degree : ℕ) (hd : 1 ≤ dim ∧ dim ≤ 3) (e c : Pt)
    (he : Box dim degree e) (hc : Box dim 2 c) :
    quadTable dim degree (lex degree e, lex 2 c) = lex (2 * degree) (e.double.add c) := by
  unfold quadTable
  split_ifs with h1
  · subst h1
    obtain ⟨x, y, z⟩ := e
    obtain ⟨k, j, i⟩ := c
    simp [Box] at he hc
    obtain ⟨hx, rfl, rfl⟩ := he
    obtain ⟨hk, rfl, rfl⟩ := hc
    simp only [lex, Pt.add, Pt.double, Nat.zero_mul, Nat.add_zero, Nat.mul_zero]
    have := foldl_update_mem (((List.range degree).flatMap fun el => (List.range 2).map fun i => (el, i)))
      (fun p : ℕ × ℕ => (p.1, p.2)) (fun p => p.1 * 2 + p.2) (fun _ => 0) (x, k)
      (by simp; omega) (by rintro ⟨a, b⟩ _ h; simp at h; simp [h])
    rw [Nat.mul_comm 2 x]; exact this
  · have hd' : dim = 2 ∨ dim = 3 := by omega
    have key := foldl_update_mem (subLoops dim degree)
      (fun p : Pt × Pt => (lex degree p.1, lex 2 p.2))
      (fun p => lex (2 * degree) (p.1.double.add p.2)) (fun _ => 0) (e, c)
      ((mem_subLoops hd').2 ⟨he, hc⟩) (by
        rintro ⟨e', c'⟩ hm hk
        obtain ⟨he', hc'⟩ := (mem_subLoops hd').1 hm
        simp only [Prod.mk.injEq] at hk
        rw [lex_inj hd he' he hk.1, lex_inj hd hc' hc hk.2])
    rw [← key]
    dsimp only
    refine congrFun (congrArg (fun f => List.foldl f (fun _ => 0) (subLoops dim degree)) ?_) _
    funext t p
    obtain ⟨⟨x, y, z⟩, ⟨k, j, i⟩⟩ := p
    simp only [lex, Pt.add, Pt.double]
    have e1 : k + j * 2 + i * 4 = k + j * 2 + i * 2 * 2 := by ring
    have e2 : 2 * (x + y * (2 * degree) + z * (2 * degree) * (2 * degree)) + k + j * (2 * degree) +
        i * (2 * degree) * (2 * degree) = 2 * x + k + (2 * y + j) * (2 * degree) +
        (2 * z + i) * (2 * degree) * (2 * degree) := by ring
    rw [e1, e2]

theorem box_add {dim degree : ℕ} {e c : Pt} (he : Box dim degree e) (hc : Box dim 2 c) :
    Box dim (degree + 1) (e.add c) := by
  obtain ⟨x, y, z⟩ := e
  obtain ⟨k, j, i⟩ := c
  simp only [Box, Pt.add] at *
  refine ⟨by omega, ?_, ?_⟩
  · split_ifs at * <;> omega
  · split_ifs at * <;> omega

theorem box_double_add {dim degree : ℕ} {e c : Pt} (he : Box dim degree e) (hc : Box dim 2 c) :
    Box dim (2 * degree) (e.double.add c) := by
  obtain ⟨x, y, z⟩ := e
  obtain ⟨k, j, i⟩ := c
  simp only [Box, Pt.add, Pt.double] at *
  refine ⟨by omega, ?_, ?_⟩
  · split_ifs at * <;> omega
  · split_ifs at * <;> omega

/-- **C18 (dofs in range).** With a numbering that is a permutation of the element's dofs, all entries
of the dof table are valid dof indices. -/
theorem C18_dof_range (dim degree : ℕ) (hd : 1 ≤ dim ∧ dim ≤ 3) (num : ℕ → ℕ)
    (hn : ∀ a < (degree + 1) ^ dim, num a < (degree + 1) ^ dim) (index ind : ℕ)
    (h1 : index < degree ^ dim) (h2 : ind < 2 ^ dim) :
    dofTable dim degree num (index, ind) < (degree + 1) ^ dim := by
  obtain ⟨e, he, rfl⟩ := lex_surj hd h1
  obtain ⟨c, hc, rfl⟩ := lex_surj hd h2
  rw [C18_dof_table dim degree hd num e c he hc]
  exact hn _ (lex_lt hd (box_add he hc))

/-- **C18 (dofs covered).** For degree at least one every dof of the element belongs to some
sub-element. -/
theorem C18_dofs_covered (dim degree : ℕ) (hd : 1 ≤ dim ∧ dim ≤ 3) (hdeg : 1 ≤ degree) (num : ℕ → ℕ)
    (hn : ∀ b < (degree + 1) ^ dim, ∃ a < (degree + 1) ^ dim, num a = b) (b : ℕ)
    (hb : b < (degree + 1) ^ dim) :
    ∃ index ind, index < degree ^ dim ∧ ind < 2 ^ dim ∧ dofTable dim degree num (index, ind) = b := by
  obtain ⟨a, ha, rfl⟩ := hn b hb
  obtain ⟨⟨x, y, z⟩, hp, rfl⟩ := lex_surj hd ha
  simp only [Box] at hp
  obtain ⟨hx, hy, hz⟩ := hp
  -- the corner is 1 on the upper boundary and 0 otherwise
  have he : Box dim degree (min x (degree - 1), min y (degree - 1), min z (degree - 1)) := by
    refine ⟨?_, ?_, ?_⟩
    · simp only; omega
    · simp only; split_ifs at * <;> omega
    · simp only; split_ifs at * <;> omega
  have hc : Box dim 2 (x - min x (degree - 1), y - min y (degree - 1), z - min z (degree - 1)) := by
    refine ⟨?_, ?_, ?_⟩
    · simp only; omega
    · simp only; split_ifs at * <;> omega
    · simp only; split_ifs at * <;> omega
  refine ⟨_, _, lex_lt hd he, lex_lt hd hc, ?_⟩
  rw [C18_dof_table dim degree hd num _ _ he hc]
  congr 2
  simp only [Pt.add, Prod.mk.injEq]
  omega

/-- **C18 (shared corners).** Two (sub-element, corner) pairs refer to the same dof exactly if they
are the same lattice point; so neighbours share exactly their common corners. -/
theorem C18_shared_iff_same_point (dim degree : ℕ) (hd : 1 ≤ dim ∧ dim ≤ 3) (num : ℕ → ℕ)
    (hn : ∀ a < (degree + 1) ^ dim, ∀ b < (degree + 1) ^ dim, num a = num b → a = b)
    (e e' c c' : Pt) (he : Box dim degree e) (he' : Box dim degree e') (hc : Box dim 2 c)
    (hc' : Box dim 2 c') :
    dofTable dim degree num (lex degree e, lex 2 c) = dofTable dim degree num (lex degree e', lex 2 c')
      ↔ e.add c = e'.add c' := by
  rw [C18_dof_table dim degree hd num e c he hc, C18_dof_table dim degree hd num e' c' he' hc']
  constructor
  · intro h
    exact lex_inj hd (box_add he hc) (box_add he' hc')
      (hn _ (lex_lt hd (box_add he hc)) _ (lex_lt hd (box_add he' hc')) h)
  · intro h; rw [h]

/-- **C18 (quadrature bijection).** Every iterated quadrature point occurs exactly once in the
quadrature table, and nothing else occurs. -/
theorem C18_quad_bijective (dim degree : ℕ) (hd : 1 ≤ dim ∧ dim ≤ 3) :
    (∀ index < degree ^ dim, ∀ ind < 2 ^ dim,
      quadTable dim degree (index, ind) < (2 * degree) ^ dim) ∧
    ∀ q < (2 * degree) ^ dim, ∃! p : ℕ × ℕ, p.1 < degree ^ dim ∧ p.2 < 2 ^ dim ∧
      quadTable dim degree p = q := by
  constructor
  · intro index h1 ind h2
    obtain ⟨e, he, rfl⟩ := lex_surj hd h1
    obtain ⟨c, hc, rfl⟩ := lex_surj hd h2
    rw [C18_quad_table dim degree hd e c he hc]
    exact lex_lt hd (box_double_add he hc)
  · intro q hq
    obtain ⟨⟨x, y, z⟩, hp, rfl⟩ := lex_surj hd hq
    have hp0 := hp
    simp only [Box] at hp
    obtain ⟨hx, hy, hz⟩ := hp
    have he : Box dim degree (x / 2, y / 2, z / 2) := by
      refine ⟨?_, ?_, ?_⟩
      · simp only; omega
      · simp only; split_ifs at * <;> omega
      · simp only; split_ifs at * <;> omega
    have hc : Box dim 2 (x % 2, y % 2, z % 2) := by
      refine ⟨?_, ?_, ?_⟩
      · simp only; omega
      · simp only; split_ifs at * <;> omega
      · simp only; split_ifs at * <;> omega
    refine ⟨(lex degree (x / 2, y / 2, z / 2), lex 2 (x % 2, y % 2, z % 2)),
      ⟨lex_lt hd he, lex_lt hd hc, ?_⟩, ?_⟩
    · rw [C18_quad_table dim degree hd _ _ he hc]
      congr 1
      simp only [Pt.add, Pt.double, Prod.mk.injEq]
      omega
    · rintro ⟨a, b⟩ ⟨ha, hb, hq'⟩
      dsimp only at ha hb hq'
      obtain ⟨e, he', rfl⟩ := lex_surj hd ha
      obtain ⟨c, hc', rfl⟩ := lex_surj hd hb
      rw [C18_quad_table dim degree hd e c he' hc'] at hq'
      have := lex_inj hd (box_double_add he' hc') hp0 hq'
      obtain ⟨ex, ey, ez⟩ := e
      obtain ⟨ck, cj, ci⟩ := c
      simp only [Pt.add, Pt.double, Prod.mk.injEq] at this
      have hb : ck < 2 ∧ cj < 2 ∧ ci < 2 := by
        simp only [Box] at hc'
        refine ⟨hc'.1, ?_, ?_⟩
        · have := hc'.2.1; split_ifs at this <;> omega
        · have := hc'.2.2; split_ifs at this <;> omega
      have h1 : ex = x / 2 ∧ ey = y / 2 ∧ ez = z / 2 := by omega
      have h2 : ck = x % 2 ∧ cj = y % 2 ∧ ci = z % 2 := by omega
      rw [h1.1, h1.2.1, h1.2.2, h2.1, h2.2.1, h2.2.2]

/-- Non-vacuity: the example in the source comment (2D, degree 2). -/
example : (quadTable 2 2 (0, 2) = 4 ∧ quadTable 2 2 (1, 0) = 2 ∧ quadTable 2 2 (3, 0) = 10) ∧
    dofTable 2 2 id (3, 0) = 4 := by decide

end Verif.Precond
