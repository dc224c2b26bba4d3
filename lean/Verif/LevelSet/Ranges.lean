import Verif.LevelSet.ReinitLoop
import Mathlib.Algebra.BigOperators.Ring.Finset
import Mathlib.Algebra.Order.BigOperators.Group.Finset
import Mathlib.Algebra.Order.Field.Basic
import Mathlib.Algebra.Order.AbsoluteValue.Basic
import Mathlib.Algebra.Field.Rat
import Mathlib.Algebra.Order.Field.Rat
import Mathlib.Analysis.Normed.Module.Basic
import Mathlib.Analysis.Real.Sqrt
import Mathlib.Algebra.Module.BigOperators
import Mathlib.Tactic.Ring
import Mathlib.Tactic.FieldSimp
import Mathlib.Tactic.Positivity

/-!
# C88: reported extrema, domain diameter, and their influence on the computation
(source/two_phase_base.cc: get_maximal_velocity 479-509, get_concentration_range 513-545, call in compute_bubble_statistics
866-895; source/level_set_okz_advance_concentration.cc: get_maximal_velocity 37-68, diameter_on_coarse_grid 70-99, 511-513;
source/level_set_okz_reinitialization.cc:280-284)
-/

namespace Verif.LevelSet.Ranges

open Finset

variable {K : Type*} [Field K] [LinearOrder K] [IsStrictOrderedRing K]

/-! ## Model -/

/-- `Utilities::MPI::max` over the processes (there is at least one) -/
def mpiMax (l : List K) : K :=
  match l with
  | [] => 0
  | a :: l => l.foldl max a

/-- `get_maximal_velocity` on one process, two_phase_base.cc:488-506 and level_set_okz_advance_concentration.cc:53-64: cells of
the process, each with the norms of the velocity in the sample points. -/
def maxVelocityRank (cells : List (List K)) : K := cells.foldl (fun m c => c.foldl max m) 0

/-- `get_maximal_velocity`, two_phase_base.cc:479-509 -/
def maxVelocity (ranks : List (List (List K))) : K := mpiMax (ranks.map maxVelocityRank)

/-- `get_concentration_range` on one process, two_phase_base.cc:521-540; `big` is `std::numeric_limits<double>::max()`. -/
def rangeRank (big : K) (cells : List (List K)) : K × K :=
  cells.foldl (fun r c => c.foldl (fun r v => (min r.1 v, max r.2 v)) r) (big, -big)

/-- `get_concentration_range`, two_phase_base.cc:513-545 -/
def range (big : K) (ranks : List (List (List K))) : K × K :=
  (-mpiMax (ranks.map fun r => -(rangeRank big r).1), mpiMax (ranks.map fun r => (rangeRank big r).2))

/-- the points of `QIterated<dim>(QTrapezoid<1>(), n)`: the tensor grid `k/n`; two_phase_base.cc:483, 516 -/
def gridPoints (n : ℕ) : ℕ → List (List K)
  | 0 => [[]]
  | d + 1 => (gridPoints n d).flatMap fun p => (List.range (n + 1)).map fun k : ℕ => ((k : K) / (n : K)) :: p

/-- one-dimensional basis function `k` of `FE_Q_iso_Q1(m)`: the hat function on the grid with `m` intervals -/
def hat (m k : ℕ) (t : K) : K := max 0 (1 - |m * t - k|)

/-- `FEValues::get_function_values` for `FE_Q_iso_Q1(m)` (level_set_base.cc:58, phase_field.cc:53): tensor products of the hat
functions, `u` are the nodal values by multi-index -/
def evalIso (m : ℕ) : (List ℕ → K) → List K → K
  | u, [] => u []
  | u, t :: x => ∑ k ∈ Finset.range (m + 1), hat m k t * evalIso m (fun a => u (k :: a)) x

/-- samples of one cell, two_phase_base.cc:516-519, 530-534: the formula has `fe->degree + 2` intervals -/
def cellSamples (m d : ℕ) (u : List ℕ → K) : List K := (gridPoints (m + 2) d).map (evalIso m u)

/-- `get_concentration_range` of a field given by the nodal values on the cells of every process -/
def concentrationRange (big : K) (m d : ℕ) (ranks : List (List (List ℕ → K))) : K × K :=
  range big (ranks.map fun r => r.map (cellSamples m d))

/-! ## Specification -/

namespace Spec

/-- all samples of all processes -/
def samples (ranks : List (List (List K))) : List K := ranks.flatten.flatten

/-- point of the reference cell -/
def InCell (d : ℕ) (x : List K) : Prop := x.length = d ∧ ∀ t ∈ x, 0 ≤ t ∧ t ≤ 1

/-- multi-index of a node -/
def IsNode (m d : ℕ) (a : List ℕ) : Prop := a.length = d ∧ ∀ k ∈ a, k ≤ m

/-- position of a node -/
def nodePoint (m : ℕ) (a : List ℕ) : List K := a.map fun k : ℕ => (k : K) / (m : K)

end Spec

/-! ## Lemmas on folds -/

section folds

omit [Field K] [IsStrictOrderedRing K]

theorem foldl_max_spec (l : List K) (a : K) :
    a ≤ l.foldl max a ∧ (∀ v ∈ l, v ≤ l.foldl max a) ∧ (l.foldl max a = a ∨ l.foldl max a ∈ l) := by
  induction l generalizing a with
  | nil => simp
  | cons b l ih =>
    obtain ⟨h1, h2, h3⟩ := ih (max a b)
    rw [List.foldl_cons]
    refine ⟨le_trans (le_max_left _ _) h1, ?_, ?_⟩
    · intro v hv
      rcases List.mem_cons.1 hv with h | h
      · subst h; exact le_trans (le_max_right _ _) h1
      · exact h2 v h
    · rcases h3 with h | h
      · rw [h]
        rcases le_total a b with hab | hab
        · right; rw [max_eq_right hab]; exact List.mem_cons_self
        · left; exact max_eq_left hab
      · right; exact List.mem_cons_of_mem _ h

theorem foldl_nested {β α : Type*} (f : β → α → β) (l : List (List α)) (a : β) :
    l.foldl (fun b c => c.foldl f b) a = l.flatten.foldl f a := by
  induction l generalizing a with
  | nil => rfl
  | cons c l ih => rw [List.foldl_cons, ih, List.flatten_cons, List.foldl_append]

end folds

theorem mpiMax_spec {l : List K} (h : l ≠ []) : (∀ v ∈ l, v ≤ mpiMax l) ∧ mpiMax l ∈ l := by
  cases l with
  | nil => exact absurd rfl h
  | cons a l =>
    obtain ⟨h1, h2, h3⟩ := foldl_max_spec l a
    refine ⟨?_, ?_⟩
    · intro v hv
      rcases List.mem_cons.1 hv with hv | hv
      · subst hv; exact h1
      · exact h2 v hv
    · rcases h3 with h | h
      · change l.foldl max a ∈ _
        rw [h]; exact List.mem_cons_self
      · exact List.mem_cons_of_mem _ h

theorem rangeRank_eq (big : K) (cells : List (List K)) :
    (rangeRank big cells).2 = cells.flatten.foldl max (-big) ∧
    -(rangeRank big cells).1 = (cells.flatten.map fun v => -v).foldl max (-big) := by
  unfold rangeRank
  rw [foldl_nested]
  have : ∀ (l : List K) (r : K × K), (l.foldl (fun r v => (min r.1 v, max r.2 v)) r).2 = l.foldl max r.2 ∧
      -(l.foldl (fun r v => (min r.1 v, max r.2 v)) r).1 = (l.map fun v => -v).foldl max (-r.1) := by
    intro l
    induction l with
    | nil => intro r; exact ⟨rfl, rfl⟩
    | cons v l ih =>
      intro r
      obtain ⟨h1, h2⟩ := ih (min r.1 v, max r.2 v)
      refine ⟨h1, ?_⟩
      rw [List.foldl_cons, h2, List.map_cons, List.foldl_cons, max_neg_neg]
  exact this _ _

/-! ## C88: extrema over the sample points -/

/-- maximum of a starting value and of all values on all processes -/
theorem mpi_fold (a : K) (ranks : List (List (List K))) (h : ranks ≠ []) (g : K → K) :
    let M := mpiMax (ranks.map fun r => (r.flatten.map g).foldl max a)
    a ≤ M ∧ (∀ v ∈ Spec.samples ranks, g v ≤ M) ∧ (M = a ∨ ∃ v ∈ Spec.samples ranks, M = g v) := by
  intro M
  obtain ⟨h1, h2⟩ := mpiMax_spec (l := ranks.map fun r => (r.flatten.map g).foldl max a) (by simpa using h)
  obtain ⟨r, hr, he⟩ := List.mem_map.1 h2
  obtain ⟨k1, k2, k3⟩ := foldl_max_spec (r.flatten.map g) a
  refine ⟨?_, ?_, ?_⟩
  · change a ≤ mpiMax _
    rw [← he]; exact k1
  · intro v hv
    obtain ⟨c, hc, hv⟩ := List.mem_flatten.1 hv
    obtain ⟨r', hr', hc⟩ := List.mem_flatten.1 hc
    refine le_trans ((foldl_max_spec (r'.flatten.map g) a).2.1 (g v) ?_) (h1 _ (List.mem_map.2 ⟨r', hr', rfl⟩))
    exact List.mem_map.2 ⟨v, List.mem_flatten.2 ⟨c, hc, hv⟩, rfl⟩
  · change mpiMax _ = a ∨ ∃ v ∈ _, mpiMax _ = g v
    rw [← he]
    rcases k3 with k | k
    · left; exact k
    · right
      obtain ⟨v, hv, e⟩ := List.mem_map.1 k
      obtain ⟨c, hc, hv⟩ := List.mem_flatten.1 hv
      exact ⟨v, List.mem_flatten.2 ⟨c, List.mem_flatten.2 ⟨r, hr, hc⟩, hv⟩, e.symm⟩

/-- **C88 (maximal velocity).** For every distribution of the cells to processes, the value returned is non-negative, an upper
bound of all norms sampled on all processes, and one of them (or zero): processes without cells do not matter. -/
theorem C88_max_velocity (ranks : List (List (List K))) (h : ranks ≠ []) :
    0 ≤ maxVelocity ranks ∧ (∀ v ∈ Spec.samples ranks, v ≤ maxVelocity ranks) ∧
    (maxVelocity ranks = 0 ∨ maxVelocity ranks ∈ Spec.samples ranks) := by
  have e : ∀ r : List (List K), maxVelocityRank r = (r.flatten.map id).foldl max 0 := by
    intro r; rw [List.map_id]; exact foldl_nested _ _ _
  have := mpi_fold 0 ranks h id
  unfold maxVelocity
  rw [funext e]
  refine ⟨this.1, this.2.1, ?_⟩
  rcases this.2.2 with k | ⟨v, hv, k⟩
  · exact Or.inl k
  · right
    simp only [id] at k ⊢
    rw [k]; exact hv

/-- **C88 (range).** If some process owns a cell and no value exceeds the largest floating point number, the range encloses
all sampled values of all processes, and both ends are sampled values; processes without cells do not matter. -/
theorem C88_range (big : K) (ranks : List (List (List K))) (hne : Spec.samples ranks ≠ [])
    (hb : ∀ v ∈ Spec.samples ranks, |v| ≤ big) :
    (∀ v ∈ Spec.samples ranks, (range big ranks).1 ≤ v ∧ v ≤ (range big ranks).2) ∧
    (range big ranks).1 ∈ Spec.samples ranks ∧ (range big ranks).2 ∈ Spec.samples ranks := by
  have hr : ranks ≠ [] := by rintro rfl; exact hne rfl
  obtain ⟨v0, hv0⟩ := List.exists_mem_of_ne_nil _ hne
  have e1 : (range big ranks).1 = -mpiMax (ranks.map fun r => (r.flatten.map fun v => -v).foldl max (-big)) := by
    unfold range
    rw [funext fun r => (rangeRank_eq big r).2]
  have e2 : (range big ranks).2 = mpiMax (ranks.map fun r => (r.flatten.map id).foldl max (-big)) := by
    unfold range
    simp only [List.map_id]
    rw [funext fun r => (rangeRank_eq big r).1]
  obtain ⟨a1, a2, a3⟩ := mpi_fold (-big) ranks hr (fun v => -v)
  obtain ⟨b1, b2, b3⟩ := mpi_fold (-big) ranks hr id
  rw [e1, e2]
  refine ⟨fun v hv => ⟨by have := a2 v hv; linarith, b2 v hv⟩, ?_, ?_⟩
  · rcases a3 with h | ⟨v, hv, h⟩
    · have h1 := a2 v0 hv0
      have h2 := (abs_le.1 (hb v0 hv0)).2
      rw [h] at h1 ⊢
      rw [neg_neg]
      have : v0 = big := le_antisymm h2 (by linarith)
      rw [← this]; exact hv0
    · rw [h, neg_neg]; exact hv
  · rcases b3 with h | ⟨v, hv, h⟩
    · have h1 := b2 v0 hv0
      have h2 := (abs_le.1 (hb v0 hv0)).1
      rw [h] at h1 ⊢
      have : v0 = -big := le_antisymm h1 h2
      rw [← this]; exact hv0
    · rw [h]; exact hv

/-- **C88 (partition independence).** Two distributions of the same cells to any numbers of processes give the same range and
the same maximal velocity. -/
theorem C88_partition (big : K) (ranks ranks' : List (List (List K))) (hp : ranks.flatten.Perm ranks'.flatten)
    (hne : Spec.samples ranks ≠ []) (hb : ∀ v ∈ Spec.samples ranks, |v| ≤ big) :
    range big ranks = range big ranks' ∧ maxVelocity ranks = maxVelocity ranks' := by
  have hs : ∀ v, v ∈ Spec.samples ranks ↔ v ∈ Spec.samples ranks' := fun v => hp.flatten.mem_iff
  have hne' : Spec.samples ranks' ≠ [] := by
    obtain ⟨v, hv⟩ := List.exists_mem_of_ne_nil _ hne
    exact List.ne_nil_of_mem ((hs v).1 hv)
  have hr : ranks ≠ [] := by rintro rfl; exact hne rfl
  have hr' : ranks' ≠ [] := by rintro rfl; exact hne' rfl
  obtain ⟨a1, a2, a3⟩ := C88_range big ranks hne hb
  obtain ⟨b1, b2, b3⟩ := C88_range big ranks' hne' fun v hv => hb v ((hs v).2 hv)
  refine ⟨Prod.ext ?_ ?_, ?_⟩
  · exact le_antisymm (a1 _ ((hs _).2 b2)).1 (b1 _ ((hs _).1 a2)).1
  · exact le_antisymm (b1 _ ((hs _).1 a3)).2 (a1 _ ((hs _).2 b3)).2
  · obtain ⟨c1, c2, c3⟩ := C88_max_velocity ranks hr
    obtain ⟨d1, d2, d3⟩ := C88_max_velocity ranks' hr'
    refine le_antisymm ?_ ?_
    · rcases c3 with h | h
      · rw [h]; exact d1
      · exact d2 _ ((hs _).1 h)
    · rcases d3 with h | h
      · rw [h]; exact c1
      · exact c2 _ ((hs _).2 h)

/-! ## C88: sampled against true range for `FE_Q_iso_Q1` -/

theorem hat_nonneg (m k : ℕ) (t : K) : 0 ≤ hat m k t := le_max_left _ _

/-- hat functions of the uniform grid sum up to one -/
theorem hats_sum (m : ℕ) (s : K) (h0 : 0 ≤ s) (h1 : s ≤ m) :
    ∑ k ∈ Finset.range (m + 1), max 0 (1 - |s - k|) = 1 := by
  induction m with
  | zero =>
    have : s = 0 := le_antisymm (by simpa using h1) h0
    simp [this]
  | succ m ih =>
    rw [sum_range_succ]
    by_cases hs : s ≤ m
    · rw [ih hs]
      have : |s - ((m + 1 : ℕ) : K)| = m + 1 - s := by
        rw [abs_sub_comm, abs_of_nonneg (by push_cast; linarith)]; push_cast; ring
      rw [this, max_eq_left (by linarith), add_zero]
    · push Not at hs
      rw [sum_range_succ]
      have z : ∀ k ∈ Finset.range m, max 0 (1 - |s - (k : K)|) = 0 := by
        intro k hk
        have hk' : (k : K) + 1 ≤ m := by exact_mod_cast mem_range.1 hk
        rw [abs_of_nonneg (by linarith)]
        exact max_eq_left (by linarith)
      push_cast at h1 ⊢
      rw [sum_eq_zero z, abs_of_nonneg (by linarith : 0 ≤ s - (m : K)), abs_of_nonpos (by linarith : s - ((m : K) + 1) ≤ 0),
        max_eq_right (by linarith), max_eq_right (by linarith)]
      ring

theorem hat_sum {m : ℕ} {t : K} (h0 : 0 ≤ t) (h1 : t ≤ 1) : ∑ k ∈ Finset.range (m + 1), hat m k t = 1 := by
  unfold hat
  exact hats_sum m (m * t) (by positivity) (by
    have : (0 : K) ≤ m := Nat.cast_nonneg m
    nlinarith)

/-- values lie between bounds of the nodal values -/
theorem evalIso_bounds (m d : ℕ) (u : List ℕ → K) (lo hi : K) (hu : ∀ a, Spec.IsNode m d a → lo ≤ u a ∧ u a ≤ hi)
    (x : List K) (hx : Spec.InCell d x) : lo ≤ evalIso m u x ∧ evalIso m u x ≤ hi := by
  induction d generalizing u x with
  | zero =>
    have : x = [] := List.length_eq_zero_iff.1 hx.1
    subst this
    exact hu [] ⟨rfl, by simp⟩
  | succ d ih =>
    obtain ⟨t, x, rfl⟩ : ∃ t y, x = t :: y := by
      cases x with
      | nil => simp [Spec.InCell] at hx
      | cons t y => exact ⟨t, y, rfl⟩
    have ht := hx.2 t (by simp)
    have hx' : Spec.InCell d x := ⟨by simpa using hx.1, fun s hs => hx.2 s (by simp [hs])⟩
    have hk : ∀ k ∈ Finset.range (m + 1), lo ≤ evalIso m (fun a => u (k :: a)) x ∧ evalIso m (fun a => u (k :: a)) x ≤ hi := by
      intro k hk
      refine ih (fun a => u (k :: a)) (fun a ha => hu (k :: a) ⟨by simp [ha.1], ?_⟩) x hx'
      intro j hj
      rcases List.mem_cons.1 hj with h | h
      · subst h; have := mem_range.1 hk; omega
      · exact ha.2 j h
    unfold evalIso
    constructor
    · calc lo = ∑ k ∈ Finset.range (m + 1), hat m k t * lo := by rw [← sum_mul, hat_sum ht.1 ht.2, one_mul]
        _ ≤ _ := sum_le_sum fun k hk' => mul_le_mul_of_nonneg_left (hk k hk').1 (hat_nonneg _ _ _)
    · calc _ ≤ ∑ k ∈ Finset.range (m + 1), hat m k t * hi :=
            sum_le_sum fun k hk' => mul_le_mul_of_nonneg_left (hk k hk').2 (hat_nonneg _ _ _)
        _ = hi := by rw [← sum_mul, hat_sum ht.1 ht.2, one_mul]

theorem hat_node {m : ℕ} (hm : m ≠ 0) (j k : ℕ) : hat m j ((k : K) / m) = if j = k then 1 else 0 := by
  have hm' : (m : K) ≠ 0 := by exact_mod_cast hm
  unfold hat
  rw [mul_div_cancel₀ _ hm']
  split_ifs with h
  · subst h; simp
  · have : (1 : K) ≤ |(k : K) - j| := by
      rcases lt_or_gt_of_ne h with h | h
      · have : (j : K) + 1 ≤ k := by exact_mod_cast h
        rw [abs_of_nonneg (by linarith)]; linarith
      · have : (k : K) + 1 ≤ j := by exact_mod_cast h
        rw [abs_of_nonpos (by linarith)]; linarith
    exact max_eq_left (by linarith)

/-- the value in a node is the nodal value -/
theorem evalIso_node {m : ℕ} (hm : m ≠ 0) (d : ℕ) (u : List ℕ → K) (a : List ℕ) (ha : Spec.IsNode m d a) :
    evalIso m u (Spec.nodePoint m a) = u a := by
  induction a generalizing u d with
  | nil => rfl
  | cons k a ih =>
    obtain ⟨hl, hk⟩ := ha
    change ∑ j ∈ Finset.range (m + 1), hat m j ((k : K) / m) * evalIso m (fun b => u (j :: b)) (Spec.nodePoint m a) = _
    rw [sum_eq_single k]
    · rw [hat_node hm, if_pos rfl, one_mul, ih (d - 1) (fun b => u (k :: b)) ⟨by simp at hl; omega, fun j hj => hk j (by simp [hj])⟩]
    · intro j _ hj
      rw [hat_node hm, if_neg hj, zero_mul]
    · intro h
      exact absurd (mem_range.2 (by have := hk k (by simp); omega)) h

theorem mem_gridPoints (n d : ℕ) (x : List K) :
    x ∈ gridPoints n d ↔ x.length = d ∧ ∀ t ∈ x, ∃ k ≤ n, t = (k : K) / n := by
  induction d generalizing x with
  | zero =>
    simp only [gridPoints, List.mem_singleton]
    constructor
    · rintro rfl; simp
    · rintro ⟨h, _⟩; exact List.length_eq_zero_iff.1 h
  | succ d ih =>
    simp only [gridPoints, List.mem_flatMap, List.mem_map, List.mem_range]
    constructor
    · rintro ⟨p, hp, k, hk, rfl⟩
      obtain ⟨h1, h2⟩ := (ih p).1 hp
      refine ⟨by simp [h1], fun t ht => ?_⟩
      rcases List.mem_cons.1 ht with h | h
      · exact ⟨k, by omega, h⟩
      · exact h2 t h
    · rintro ⟨hl, h⟩
      cases x with
      | nil => simp at hl
      | cons t p =>
        obtain ⟨k, hk, rfl⟩ := h t (by simp)
        exact ⟨p, (ih p).2 ⟨by simpa using hl, fun s hs => h s (by simp [hs])⟩, k, by omega, rfl⟩

theorem gridPoints_inCell {n : ℕ} (hn : n ≠ 0) {d : ℕ} {x : List K} (hx : x ∈ gridPoints n d) : Spec.InCell d x := by
  obtain ⟨h1, h2⟩ := (mem_gridPoints n d x).1 hx
  refine ⟨h1, fun t ht => ?_⟩
  obtain ⟨k, hk, rfl⟩ := h2 t ht
  have hn' : (0 : K) < n := by exact_mod_cast Nat.pos_of_ne_zero hn
  exact ⟨by positivity, (div_le_one hn').2 (by exact_mod_cast hk)⟩

/-- **C88 (which nodes are sampled).** Node `k/m` of an element with `m` subdivisions is one of the sample coordinates
`j/(m+2)` exactly if `m` divides `2k`: all nodes for one and two subdivisions; for three and more the first interior node is
missed. -/
theorem C88_sampled_nodes (m k : ℕ) (hm : m ≠ 0) (hk : k ≤ m) :
    ((∃ j ≤ m + 2, (j : K) / ((m + 2 : ℕ) : K) = (k : K) / (m : K)) ↔ m ∣ 2 * k) ∧
    ((∀ k ≤ m, m ∣ 2 * k) ↔ m ≤ 2) := by
  have hm' : (m : K) ≠ 0 := by exact_mod_cast hm
  have h2 : ((m + 2 : ℕ) : K) ≠ 0 := by exact_mod_cast (by omega : m + 2 ≠ 0)
  have key : ∀ j : ℕ, (j : K) / ((m + 2 : ℕ) : K) = (k : K) / (m : K) ↔ j * m = k * (m + 2) := by
    intro j
    rw [div_eq_div_iff h2 hm']
    exact_mod_cast Iff.rfl
  refine ⟨⟨?_, ?_⟩, ⟨?_, ?_⟩⟩
  · rintro ⟨j, _, hj⟩
    have := (key j).1 hj
    have h : m ∣ k * (m + 2) := ⟨j, by rw [← this]; ring⟩
    have h' : k * (m + 2) = k * m + 2 * k := by ring
    rw [h'] at h
    exact (Nat.dvd_add_right (Dvd.intro_left k rfl)).1 h
  · rintro ⟨c, hc⟩
    refine ⟨k + c, ?_, (key _).2 (by nlinarith)⟩
    have : m * c ≤ m * 2 := by nlinarith
    have := Nat.le_of_mul_le_mul_left this (Nat.pos_of_ne_zero hm)
    omega
  · intro h
    have := Nat.le_of_dvd (by norm_num) (h 1 (by omega))
    omega
  · intro h k hk
    have : m = 1 ∨ m = 2 := by omega
    rcases this with rfl | rfl
    · exact one_dvd _
    · exact Dvd.intro _ rfl

theorem node_sampled {m : ℕ} (hm : m = 1 ∨ m = 2) (d : ℕ) {a : List ℕ} (ha : Spec.IsNode m d a) :
    (Spec.nodePoint m a : List K) ∈ gridPoints (m + 2) d := by
  rw [mem_gridPoints]
  refine ⟨by simp [Spec.nodePoint, ha.1], fun t ht => ?_⟩
  obtain ⟨k, hk, rfl⟩ := List.mem_map.1 ht
  have hkm := ha.2 k hk
  obtain ⟨j, hj, e⟩ := ((C88_sampled_nodes (K := K) m k (by omega) hkm).1).2
    ((C88_sampled_nodes (K := K) m k (by omega) hkm).2.2 (by omega) k hkm)
  exact ⟨j, hj, e.symm⟩

theorem mem_samples_iff (m d : ℕ) (ranks : List (List (List ℕ → K))) (v : K) :
    v ∈ Spec.samples (ranks.map fun r => r.map (cellSamples m d)) ↔
      ∃ r ∈ ranks, ∃ u ∈ r, ∃ x ∈ gridPoints (m + 2) d, v = evalIso m u x := by
  simp only [Spec.samples, List.mem_flatten, List.mem_map, cellSamples]
  constructor
  · rintro ⟨c, ⟨_, ⟨r, hr, rfl⟩, hc⟩, hv⟩
    obtain ⟨u, hu, rfl⟩ := List.mem_map.1 hc
    obtain ⟨x, hx, rfl⟩ := List.mem_map.1 hv
    exact ⟨r, hr, u, hu, x, hx, rfl⟩
  · rintro ⟨r, hr, u, hu, x, hx, rfl⟩
    exact ⟨_, ⟨_, ⟨r, hr, rfl⟩, List.mem_map.2 ⟨u, hu, rfl⟩⟩, List.mem_map.2 ⟨x, hx, rfl⟩⟩

/-- **C88 (true range, one or two subdivisions).** For elements with one or two subdivisions per direction in any dimension,
the reported range is the exact range of the level set over the whole domain, not only over the sample points. For any
number of subdivisions it is a sub-interval of the exact range (both ends are attained). -/
theorem C88_true_range_partial (big : K) (m d : ℕ) (hm : m ≠ 0) (ranks : List (List (List ℕ → K)))
    (hcell : ∃ r ∈ ranks, r ≠ [])
    (hb : ∀ r ∈ ranks, ∀ u ∈ r, ∀ x, Spec.InCell d x → |evalIso m u x| ≤ big) :
    (∃ r ∈ ranks, ∃ u ∈ r, ∃ x, Spec.InCell d x ∧ evalIso m u x = (concentrationRange big m d ranks).1) ∧
    (∃ r ∈ ranks, ∃ u ∈ r, ∃ x, Spec.InCell d x ∧ evalIso m u x = (concentrationRange big m d ranks).2) ∧
    (m ≤ 2 → ∀ r ∈ ranks, ∀ u ∈ r, ∀ x, Spec.InCell d x →
      (concentrationRange big m d ranks).1 ≤ evalIso m u x ∧ evalIso m u x ≤ (concentrationRange big m d ranks).2) := by
  set s := ranks.map fun r => r.map (cellSamples m d) with hs
  have hne : Spec.samples s ≠ [] := by
    obtain ⟨r, hr, hr'⟩ := hcell
    obtain ⟨u, hu⟩ := List.exists_mem_of_ne_nil _ hr'
    have hx : (List.replicate d (0 : K)) ∈ gridPoints (m + 2) d := by
      rw [mem_gridPoints]
      refine ⟨by simp, fun t ht => ⟨0, Nat.zero_le _, ?_⟩⟩
      rw [List.eq_of_mem_replicate ht]; simp
    exact List.ne_nil_of_mem ((mem_samples_iff m d ranks _).2 ⟨r, hr, u, hu, _, hx, rfl⟩)
  have hb' : ∀ v ∈ Spec.samples s, |v| ≤ big := by
    intro v hv
    obtain ⟨r, hr, u, hu, x, hx, rfl⟩ := (mem_samples_iff m d ranks v).1 hv
    exact hb r hr u hu x (gridPoints_inCell (by omega) hx)
  obtain ⟨h1, h2, h3⟩ := C88_range big s hne hb'
  refine ⟨?_, ?_, fun hm2 r hr u hu x hx => ?_⟩
  · obtain ⟨r, hr, u, hu, x, hx, e⟩ := (mem_samples_iff m d ranks _).1 h2
    exact ⟨r, hr, u, hu, x, gridPoints_inCell (by omega) hx, e.symm⟩
  · obtain ⟨r, hr, u, hu, x, hx, e⟩ := (mem_samples_iff m d ranks _).1 h3
    exact ⟨r, hr, u, hu, x, gridPoints_inCell (by omega) hx, e.symm⟩
  · have hnode : ∀ a, Spec.IsNode m d a →
        (concentrationRange big m d ranks).1 ≤ u a ∧ u a ≤ (concentrationRange big m d ranks).2 := by
      intro a ha
      rw [← evalIso_node hm d u a ha]
      exact h1 _ ((mem_samples_iff m d ranks _).2 ⟨r, hr, u, hu, _, node_sampled (by omega) d ha, rfl⟩)
    exact evalIso_bounds m d u _ _ hnode x hx

/-- **C88 (FINDING).** For three or more subdivisions the sample points miss nodes: in every number of subdivisions `m ≥ 3`
there is a level set (in 1D, one cell) whose maximum one is strictly above the reported range. -/
theorem C88_range_misses_overshoot (m : ℕ) (hm : 3 ≤ m) :
    ∃ u : List ℕ → K, (∀ x, Spec.InCell 1 x → 0 ≤ evalIso m u x ∧ evalIso m u x ≤ 1) ∧
      (∃ x, Spec.InCell 1 x ∧ evalIso m u x = 1) ∧ (concentrationRange 1 m 1 [[u]]).2 < 1 := by
  refine ⟨fun a => if a = [1] then 1 else 0, ?_, ?_, ?_⟩
  · intro x hx
    refine evalIso_bounds m 1 _ 0 1 (fun a _ => ?_) x hx
    split_ifs <;> norm_num
  · have hn : Spec.IsNode m 1 [1] := ⟨rfl, by simp; omega⟩
    refine ⟨Spec.nodePoint m [1], ⟨rfl, ?_⟩, ?_⟩
    · intro t ht
      have hm' : (1 : K) ≤ m := by exact_mod_cast (by omega : 1 ≤ m)
      simp only [Spec.nodePoint, List.map_cons, List.map_nil, List.mem_singleton, Nat.cast_one] at ht
      subst ht
      exact ⟨by positivity, (div_le_one (by linarith)).2 hm'⟩
    · rw [evalIso_node (by omega) 1 _ _ hn, if_pos rfl]
  · set u : List ℕ → K := fun a => if a = [1] then 1 else 0 with hu
    have hcell : ∃ r ∈ [[u]], r ≠ [] := ⟨[u], by simp, by simp⟩
    have hb01 : ∀ x, Spec.InCell 1 x → 0 ≤ evalIso m u x ∧ evalIso m u x ≤ 1 := fun x hx =>
      evalIso_bounds m 1 _ 0 1 (fun a _ => by rw [hu]; dsimp only; split_ifs <;> norm_num) x hx
    have hb' : ∀ v ∈ Spec.samples ([[u]].map fun r => r.map (cellSamples m 1)), |v| ≤ (1 : K) := by
      intro v hv
      obtain ⟨r, hr, w, hw, x, hx, rfl⟩ := (mem_samples_iff m 1 _ v).1 hv
      simp only [List.mem_singleton] at hr; subst hr
      simp only [List.mem_singleton] at hw; subst hw
      have := hb01 x (gridPoints_inCell (by omega) hx)
      rw [abs_of_nonneg this.1]; exact this.2
    have hne : Spec.samples ([[u]].map fun r => r.map (cellSamples m 1)) ≠ [] := by
      have hx : ([0] : List K) ∈ gridPoints (m + 2) 1 :=
        (mem_gridPoints _ _ _).2 ⟨rfl, fun t ht => ⟨0, Nat.zero_le _, by simp at ht; simp [ht]⟩⟩
      exact List.ne_nil_of_mem ((mem_samples_iff m 1 _ _).2 ⟨[u], by simp, u, by simp, [0], hx, rfl⟩)
    obtain ⟨_, _, h3⟩ := C88_range (1 : K) _ hne hb'
    obtain ⟨r, hr, w, hw, x, hx, e⟩ := (mem_samples_iff m 1 _ _).1 h3
    simp only [List.mem_singleton] at hr; subst hr
    simp only [List.mem_singleton] at hw; subst hw
    change (range 1 ([[u]].map fun r => r.map (cellSamples m 1))).2 < 1
    rw [e]
    obtain ⟨hl, hg⟩ := (mem_gridPoints _ _ _).1 hx
    obtain ⟨t, rfl⟩ : ∃ t, x = [t] := List.length_eq_one_iff.1 hl
    obtain ⟨j, hj, rfl⟩ := hg t (by simp)
    have ev : evalIso m u [(j : K) / ((m + 2 : ℕ) : K)] = hat m 1 ((j : K) / ((m + 2 : ℕ) : K)) := by
      unfold evalIso
      rw [sum_eq_single 1]
      · simp [evalIso, hu]
      · intro k _ hk
        simp [evalIso, hu, hk]
      · intro h; exact absurd (mem_range.2 (by omega)) h
    rw [ev]
    unfold hat
    refine max_lt one_pos ?_
    have hne0 : (m : K) * ((j : K) / ((m + 2 : ℕ) : K)) - (1 : ℕ) ≠ 0 := by
      intro h0
      have hm0 : (m : K) ≠ 0 := by exact_mod_cast (by omega : m ≠ 0)
      have : (j : K) / ((m + 2 : ℕ) : K) = ((1 : ℕ) : K) / (m : K) := by
        rw [eq_div_iff hm0, mul_comm]; exact sub_eq_zero.1 h0
      have := ((C88_sampled_nodes (K := K) m 1 (by omega) (by omega)).1).1 ⟨j, hj, this⟩
      have := Nat.le_of_dvd (by norm_num) this
      omega
    have := abs_pos.2 hne0
    linarith

/-! ## C88: diameter of the coarse grid -/

section diameter

variable {E : Type*} [NormedAddCommGroup E] [NormedSpace ℝ E]

/-- a face of a coarse cell: whether it is at the boundary, and its vertices -/
structure Face where
  atBoundary : Bool
  vertices : List ℕ

/-- `boundary_vertices`, level_set_okz_advance_concentration.cc:75-81 -/
def boundaryVertices (coarse : List (List Face)) : ℕ → Bool :=
  coarse.foldl (fun b cell => cell.foldl (fun b face =>
    if face.atBoundary then face.vertices.foldl (fun b i => Function.update b i true) b else b) b) fun _ => false

/-- `diameter_on_coarse_grid`, level_set_okz_advance_concentration.cc:70-99; `N` is `vertices.size()`. -/
noncomputable def diameterOnCoarseGrid (vertices : ℕ → E) (N : ℕ) (coarse : List (List Face)) : ℝ :=
  let boundary := boundaryVertices coarse
  √((List.range N).foldl (fun m i =>
    (List.range' (i + 1) (N - (i + 1))).foldl (fun m j =>
      if boundary i = true ∧ boundary j = true ∧ ‖vertices i - vertices j‖ ^ 2 > m then ‖vertices i - vertices j‖ ^ 2 else m) m) 0)

/-- vertex of a boundary face of the coarse mesh -/
def Spec.OnBoundary (coarse : List (List Face)) (i : ℕ) : Prop :=
  ∃ cell ∈ coarse, ∃ f ∈ cell, f.atBoundary = true ∧ i ∈ f.vertices

theorem boundaryVertices_iff (coarse : List (List Face)) (i : ℕ) :
    boundaryVertices coarse i = true ↔ Spec.OnBoundary coarse i := by
  have h1 : ∀ (l : List ℕ) (b : ℕ → Bool), (l.foldl (fun b i => Function.update b i true) b) i = true ↔
      b i = true ∨ i ∈ l := by
    intro l
    induction l with
    | nil => simp
    | cons a l ih =>
      intro b
      rw [List.foldl_cons, ih]
      by_cases h : i = a
      · subst h; simp
      · simp [h]
  have h2 : ∀ (l : List Face) (b : ℕ → Bool), (l.foldl (fun b face =>
      if face.atBoundary then face.vertices.foldl (fun b i => Function.update b i true) b else b) b) i = true ↔
      b i = true ∨ ∃ f ∈ l, f.atBoundary = true ∧ i ∈ f.vertices := by
    intro l
    induction l with
    | nil => simp
    | cons a l ih =>
      intro b
      rw [List.foldl_cons, ih]
      by_cases h : a.atBoundary = true
      · rw [if_pos h, h1]; simp [h, or_assoc]
      · rw [if_neg h]; simp [h]
  have h3 : ∀ (l : List (List Face)) (b : ℕ → Bool), (l.foldl (fun b cell => cell.foldl (fun b face =>
      if face.atBoundary then face.vertices.foldl (fun b i => Function.update b i true) b else b) b) b) i = true ↔
      b i = true ∨ ∃ cell ∈ l, ∃ f ∈ cell, f.atBoundary = true ∧ i ∈ f.vertices := by
    intro l
    induction l with
    | nil => simp
    | cons a l ih =>
      intro b
      rw [List.foldl_cons, ih, h2]
      simp [or_assoc]
  unfold boundaryVertices Spec.OnBoundary
  rw [h3]
  simp

/-- the loops compute the maximum over the admissible pairs -/
theorem cond_max (l : List ℕ) (P : ℕ → Prop) [DecidablePred P] (g : ℕ → ℝ) (a : ℝ) :
    let M := l.foldl (fun m j => if P j ∧ g j > m then g j else m) a
    a ≤ M ∧ (∀ j ∈ l, P j → g j ≤ M) ∧ (M = a ∨ ∃ j ∈ l, P j ∧ M = g j) := by
  induction l generalizing a with
  | nil => simp
  | cons b l ih =>
    intro M
    obtain ⟨h1, h2, h3⟩ := ih (if P b ∧ g b > a then g b else a)
    have hM : M = l.foldl (fun m j => if P j ∧ g j > m then g j else m) (if P b ∧ g b > a then g b else a) := rfl
    rw [← hM] at h1 h2 h3
    have ha : a ≤ if P b ∧ g b > a then g b else a := by
      split_ifs with h
      · exact h.2.le
      · exact le_rfl
    refine ⟨le_trans ha h1, ?_, ?_⟩
    · intro j hj hP
      rcases List.mem_cons.1 hj with h | h
      · subst h
        refine le_trans ?_ h1
        split_ifs with h
        · exact le_rfl
        · exact not_lt.1 fun h' => h ⟨hP, h'⟩
      · exact h2 j h hP
    · rcases h3 with h | ⟨j, hj, hP, h⟩
      · rw [h]
        split_ifs with hc
        · exact Or.inr ⟨b, by simp, hc.1, rfl⟩
        · exact Or.inl rfl
      · exact Or.inr ⟨j, by simp [hj], hP, h⟩

/-- **C88 (diameter).** The diameter is an upper bound of the distances of all vertices on the boundary of the coarse mesh and
is attained (zero if there is at most one such vertex). -/
theorem C88_diameter (vertices : ℕ → E) (N : ℕ) (coarse : List (List Face)) :
    let D := diameterOnCoarseGrid vertices N coarse
    0 ≤ D ∧
    (∀ i < N, ∀ j < N, Spec.OnBoundary coarse i → Spec.OnBoundary coarse j → ‖vertices i - vertices j‖ ≤ D) ∧
    (D = 0 ∨ ∃ i < N, ∃ j < N, Spec.OnBoundary coarse i ∧ Spec.OnBoundary coarse j ∧ D = ‖vertices i - vertices j‖) := by
  intro D
  -- the squared maximum
  have key : ∀ (l : List ℕ) (a : ℝ), 0 ≤ a →
      let M := l.foldl (fun m i => (List.range' (i + 1) (N - (i + 1))).foldl (fun m j =>
        if boundaryVertices coarse i = true ∧ boundaryVertices coarse j = true ∧ ‖vertices i - vertices j‖ ^ 2 > m then
          ‖vertices i - vertices j‖ ^ 2 else m) m) a
      a ≤ M ∧ (∀ i ∈ l, ∀ j, i < j → j < N → Spec.OnBoundary coarse i → Spec.OnBoundary coarse j →
        ‖vertices i - vertices j‖ ^ 2 ≤ M) ∧
      (M = a ∨ ∃ i ∈ l, ∃ j < N, i < j ∧ Spec.OnBoundary coarse i ∧ Spec.OnBoundary coarse j ∧ M = ‖vertices i - vertices j‖ ^ 2) := by
    intro l
    induction l with
    | nil => intro a _; simp
    | cons b l ih =>
      intro a ha M
      have hin := cond_max (List.range' (b + 1) (N - (b + 1)))
        (fun j => boundaryVertices coarse b = true ∧ boundaryVertices coarse j = true)
        (fun j => ‖vertices b - vertices j‖ ^ 2) a
      simp only [and_assoc] at hin
      set a' := (List.range' (b + 1) (N - (b + 1))).foldl (fun m j =>
        if boundaryVertices coarse b = true ∧ boundaryVertices coarse j = true ∧ ‖vertices b - vertices j‖ ^ 2 > m then
          ‖vertices b - vertices j‖ ^ 2 else m) a with ha'
      obtain ⟨i1, i2, i3⟩ := hin
      obtain ⟨h1, h2, h3⟩ := ih a' (le_trans ha i1)
      have hM : M = l.foldl (fun m i => (List.range' (i + 1) (N - (i + 1))).foldl (fun m j =>
        if boundaryVertices coarse i = true ∧ boundaryVertices coarse j = true ∧ ‖vertices i - vertices j‖ ^ 2 > m then
          ‖vertices i - vertices j‖ ^ 2 else m) m) a' := rfl
      rw [← hM] at h1 h2 h3
      refine ⟨le_trans i1 h1, ?_, ?_⟩
      · intro i hi j hij hj hbi hbj
        rcases List.mem_cons.1 hi with h | h
        · subst h
          refine le_trans (i2 j ?_ ⟨(boundaryVertices_iff _ _).2 hbi, (boundaryVertices_iff _ _).2 hbj⟩) h1
          rw [List.mem_range'_1]; omega
        · exact h2 i h j hij hj hbi hbj
      · rcases h3 with h | ⟨i, hi, j, hj, hij, hbi, hbj, h⟩
        · rw [h]
          rcases i3 with h' | ⟨j, hj, hb, hb', h'⟩
          · exact Or.inl h'
          · rw [List.mem_range'_1] at hj
            exact Or.inr ⟨b, by simp, j, by omega, by omega, (boundaryVertices_iff _ _).1 hb, (boundaryVertices_iff _ _).1 hb', h'⟩
        · exact Or.inr ⟨i, by simp [hi], j, hj, hij, hbi, hbj, h⟩
  obtain ⟨k1, k2, k3⟩ := key (List.range N) 0 le_rfl
  have hD : D = √((List.range N).foldl (fun m i => (List.range' (i + 1) (N - (i + 1))).foldl (fun m j =>
        if boundaryVertices coarse i = true ∧ boundaryVertices coarse j = true ∧ ‖vertices i - vertices j‖ ^ 2 > m then
          ‖vertices i - vertices j‖ ^ 2 else m) m) 0) := rfl
  refine ⟨Real.sqrt_nonneg _, ?_, ?_⟩
  · have hlt : ∀ i < N, ∀ j < N, i < j → Spec.OnBoundary coarse i → Spec.OnBoundary coarse j →
        ‖vertices i - vertices j‖ ≤ D := by
      intro i hi j hj hij hbi hbj
      rw [hD]
      exact Real.le_sqrt_of_sq_le (k2 i (List.mem_range.2 hi) j hij hj hbi hbj)
    intro i hi j hj hbi hbj
    rcases lt_trichotomy i j with h | h | h
    · exact hlt i hi j hj h hbi hbj
    · subst h; rw [sub_self, norm_zero]; exact Real.sqrt_nonneg _
    · rw [norm_sub_rev]; exact hlt j hj i hi h hbj hbi
  · rcases k3 with h | ⟨i, hi, j, hj, _, hbi, hbj, h⟩
    · left; rw [hD, h, Real.sqrt_zero]
    · right
      refine ⟨i, List.mem_range.1 hi, j, hj, hbi, hbj, ?_⟩
      rw [hD, h, Real.sqrt_sq (norm_nonneg _)]

/-- **C88 (diameter, refinement).** Vertices created by refinement do not change the diameter: only the vertices of the coarse
cells count. -/
theorem C88_diameter_refinement (vertices vertices' : ℕ → E) (N N' : ℕ) (coarse : List (List Face)) (hN : N ≤ N')
    (hv : ∀ i < N, vertices' i = vertices i) (hc : ∀ i, Spec.OnBoundary coarse i → i < N) :
    diameterOnCoarseGrid vertices' N' coarse = diameterOnCoarseGrid vertices N coarse := by
  obtain ⟨a1, a2, a3⟩ := C88_diameter vertices N coarse
  obtain ⟨b1, b2, b3⟩ := C88_diameter vertices' N' coarse
  refine le_antisymm ?_ ?_
  · rcases b3 with h | ⟨i, _, j, _, hbi, hbj, h⟩
    · rw [h]; exact a1
    · rw [h, hv i (hc i hbi), hv j (hc j hbj)]
      exact a2 i (hc i hbi) j (hc j hbj) hbi hbj
  · rcases a3 with h | ⟨i, hi, j, hj, hbi, hbj, h⟩
    · rw [h]; exact b1
    · rw [h, ← hv i hi, ← hv j hj]
      exact b2 i (by omega) j (by omega) hbi hbj

/-- **C88 (diameter, convex domain).** Any two points that are convex combinations of boundary vertices of the coarse mesh
(every point of a convex domain with straight sides) have at most this distance. -/
theorem C88_diameter_convex (vertices : ℕ → E) (N : ℕ) (coarse : List (List Face)) (s : Finset ℕ)
    (hs : ∀ i ∈ s, i < N ∧ Spec.OnBoundary coarse i) (a b : ℕ → ℝ) (ha : ∀ i ∈ s, 0 ≤ a i) (hb : ∀ i ∈ s, 0 ≤ b i)
    (ha1 : ∑ i ∈ s, a i = 1) (hb1 : ∑ i ∈ s, b i = 1) :
    ‖(∑ i ∈ s, a i • vertices i) - ∑ j ∈ s, b j • vertices j‖ ≤ diameterOnCoarseGrid vertices N coarse := by
  obtain ⟨_, h2, _⟩ := C88_diameter vertices N coarse
  have e : (∑ i ∈ s, a i • vertices i) - ∑ j ∈ s, b j • vertices j =
      ∑ i ∈ s, ∑ j ∈ s, (a i * b j) • (vertices i - vertices j) := by
    simp only [smul_sub, sum_sub_distrib]
    congr 1
    · refine sum_congr rfl fun i _ => ?_
      rw [← Finset.sum_smul, ← mul_sum, hb1, mul_one]
    · rw [sum_comm]
      refine sum_congr rfl fun j _ => ?_
      rw [← Finset.sum_smul, ← sum_mul, ha1, one_mul]
  rw [e]
  refine le_trans (norm_sum_le _ _) ?_
  calc _ ≤ ∑ i ∈ s, ∑ j ∈ s, a i * b j * diameterOnCoarseGrid vertices N coarse := by
        refine sum_le_sum fun i hi => le_trans (norm_sum_le _ _) (sum_le_sum fun j hj => ?_)
        rw [norm_smul, Real.norm_of_nonneg (mul_nonneg (ha i hi) (hb j hj))]
        exact mul_le_mul_of_nonneg_left (h2 i (hs i hi).1 j (hs j hj).1 (hs i hi).2 (hs j hj).2)
          (mul_nonneg (ha i hi) (hb j hj))
    _ = _ := by
        simp only [← sum_mul, ← mul_sum, hb1, mul_one, ha1, one_mul]

end diameter

/-! ## C88: influence of the printed range on the reinitialization -/

/-- The calls that matter: `compute_bubble_statistics` while the level set has the given range, and a reinitialization. -/
inductive Call where
  | statistics (current : ℝ × ℝ)
  | reinitialize

/-- One call; the state is `last_concentration_range`. The range is only computed for the printed line, i.e. if
`output_verbosity > 0` (two_phase_base.cc:866, 886 and 1052, 1072); the output is the number of diffusion steps of the
reinitialization (level_set_okz_reinitialization.cc:281-284). -/
noncomputable def callStep (verbosity diffSteps : ℕ) (last : ℝ × ℝ) : Call → (ℝ × ℝ) × List ℕ
  | .statistics current => (if verbosity > 0 then current else last, [])
  | .reinitialize => (last, [actualDiffSteps diffSteps last])

/-- a sequence of calls -/
noncomputable def runCalls (verbosity diffSteps : ℕ) : (ℝ × ℝ) → List Call → List ℕ
  | _, [] => []
  | last, c :: cs =>
    (callStep verbosity diffSteps last c).2 ++ runCalls verbosity diffSteps (callStep verbosity diffSteps last c).1 cs

/-- a program: `last_concentration_range` is value-initialised, two_phase_base.h:233 -/
noncomputable def runProgram (verbosity diffSteps : ℕ) (cs : List Call) : List ℕ := runCalls verbosity diffSteps (0, 0) cs

/-- number of reinitializations in a program -/
def Spec.nReinit : List Call → ℕ
  | [] => 0
  | .statistics _ :: cs => Spec.nReinit cs
  | .reinitialize :: cs => Spec.nReinit cs + 1

/-- the level set stays within `[-1.02, 1.02]` whenever statistics are computed -/
def Spec.Bounded (cs : List Call) : Prop := ∀ r, Call.statistics r ∈ cs → -(102 / 100) ≤ r.1 ∧ r.2 ≤ 102 / 100

theorem run_bounded (verbosity diffSteps : ℕ) (last : ℝ × ℝ) (hl : -(102 / 100) ≤ last.1 ∧ last.2 ≤ 102 / 100) (cs : List Call)
    (h : verbosity = 0 ∨ Spec.Bounded cs) :
    runCalls verbosity diffSteps last cs = List.replicate (Spec.nReinit cs) diffSteps := by
  induction cs generalizing last with
  | nil => rfl
  | cons c cs ih =>
    have h' : verbosity = 0 ∨ Spec.Bounded cs := h.imp id fun h r hr => h r (List.mem_cons_of_mem _ hr)
    cases c with
    | statistics r =>
      change [] ++ runCalls verbosity diffSteps (if verbosity > 0 then r else last) cs = _
      rw [List.nil_append]
      refine ih _ ?_ h'
      split_ifs with hv
      · rcases h with h | h
        · omega
        · exact h r List.mem_cons_self
      · exact hl
    | reinitialize =>
      change [actualDiffSteps diffSteps last] ++ runCalls verbosity diffSteps last cs = _
      rw [ih last hl h', (C49_extra_steps diffSteps last).2.2 hl]
      rfl

/-- **C88 (quiet runs).** With output verbosity zero no reinitialization ever performs the additional diffusion steps, whatever
the level set does; with any verbosity none does as long as the level set stays within `[-1.02, 1.02]` whenever statistics
are computed. Hence in such programs the verbosity does not influence the computation. -/
theorem C88_quiet_partial (verbosity diffSteps : ℕ) (cs : List Call) :
    runProgram 0 diffSteps cs = List.replicate (Spec.nReinit cs) diffSteps ∧
    (Spec.Bounded cs → runProgram verbosity diffSteps cs = runProgram 0 diffSteps cs) := by
  have h0 : -(102 / 100 : ℝ) ≤ ((0 : ℝ), (0 : ℝ)).1 ∧ ((0 : ℝ), (0 : ℝ)).2 ≤ 102 / 100 := by norm_num
  have h1 := run_bounded 0 diffSteps (0, 0) h0 cs (Or.inl rfl)
  refine ⟨h1, fun hb => ?_⟩
  exact (run_bounded verbosity diffSteps (0, 0) h0 cs (Or.inr hb)).trans h1.symm

/-- **C88 (verbose runs).** With positive verbosity a reinitialization performs three additional steps exactly if the range at
the most recent statistics (not the present one) was outside of `[-1.02, 1.02]`. -/
theorem C88_verbose (verbosity diffSteps : ℕ) (hv : 0 < verbosity) (last r : ℝ × ℝ) :
    runCalls verbosity diffSteps last [.statistics r, .reinitialize] =
      [if r.1 < -(102 / 100) ∨ 102 / 100 < r.2 then diffSteps + 3 else diffSteps] := by
  simp [runCalls, callStep, hv, actualDiffSteps]

/-- **C88 (FINDING).** The output verbosity changes the computed solution: for every number of diffusion steps there is a
program with different numbers of steps with and without output. -/
theorem C88_verbosity_changes_computation (diffSteps : ℕ) :
    ∃ cs, runProgram 1 diffSteps cs ≠ runProgram 0 diffSteps cs := by
  refine ⟨[.statistics (-1, 105 / 100), .reinitialize], ?_⟩
  norm_num [runProgram, runCalls, callStep, actualDiffSteps]

/-! ## Concrete cases -/

/-- three processes, the second without cells: range `(-1, 5)`, maximum `5` -/
example : range (1000 : ℚ) [[[1, 2], [-1]], [], [[5, 0]]] = (-1, 5) ∧ maxVelocity ([[[1, 2]], [], [[5, 0]]] : List (List (List ℚ))) = 5 := by
  decide +kernel

/-- a process without cells alone returns the inverted extreme range -/
example : range (1000 : ℚ) [[]] = (1000, -1000) := by decide +kernel

/-- two subdivisions in two dimensions: the interior node is found; three subdivisions: a nodal overshoot of `1.024` is
reported as `1.0192`, below the threshold of the reinitialization -/
example : (concentrationRange (1000 : ℚ) 2 2 [[fun a => if a = [1, 1] then 7 else 0]]).2 = 7 ∧
    (concentrationRange (1000 : ℚ) 3 1 [[fun a => if a = [1] then 1024 / 1000 else 1]]).2 = 10192 / 10000 := by decide +kernel

/-- the hypotheses of the theorem on the true range -/
example : ∃ r ∈ [[fun a : List ℕ => if a = [1, 1] then (7 : ℚ) else 0]], ∃ u ∈ r, ∃ x, Spec.InCell 2 x ∧ evalIso 2 u x = 7 := by
  have h := (C88_true_range_partial (7 : ℚ) 2 2 (by norm_num) [[fun a => if a = [1, 1] then 7 else 0]] ⟨_, List.mem_singleton.2 rfl, by simp⟩
    (by
      intro r hr u hu x hx
      simp only [List.mem_singleton] at hr; subst hr
      simp only [List.mem_singleton] at hu; subst hu
      have := evalIso_bounds 2 2 (fun a => if a = [1, 1] then (7 : ℚ) else 0) 0 7
        (fun a _ => by split_ifs <;> norm_num) x hx
      rw [abs_of_nonneg this.1]; exact this.2)).2.1
  obtain ⟨r, hr, u, hu, x, hx, e⟩ := h
  refine ⟨r, hr, u, hu, x, hx, e.trans ?_⟩
  decide +kernel

/-- the segment `[0, 3]` refined at `1`: diameter `3` -/
example : ‖(0 : ℝ) - 3‖ ≤ diameterOnCoarseGrid (fun i => [0, 3, 1].getD i (0 : ℝ)) 3 [[⟨true, [0]⟩, ⟨true, [1]⟩]] :=
  (C88_diameter (fun i => [0, 3, 1].getD i (0 : ℝ)) 3 [[⟨true, [0]⟩, ⟨true, [1]⟩]]).2.1 0 (by norm_num) 1 (by norm_num)
    ⟨_, List.mem_singleton.2 rfl, ⟨true, [0]⟩, by simp, rfl, by simp⟩
    ⟨_, List.mem_singleton.2 rfl, ⟨true, [1]⟩, by simp, rfl, by simp⟩

example : Spec.Bounded [.statistics (-1, 1), .reinitialize, .statistics (-1, 101 / 100), .reinitialize] := by
  intro r hr
  simp only [List.mem_cons, Call.statistics.injEq, reduceCtorEq, List.not_mem_nil, or_false, false_or] at hr
  rcases hr with rfl | rfl <;> norm_num

end Verif.LevelSet.Ranges
