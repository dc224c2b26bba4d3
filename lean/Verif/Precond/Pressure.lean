import Verif.Precond.ComponentIlu
import Mathlib.Algebra.Module.LinearMap.Basic
import Mathlib.Algebra.Order.Field.Basic
import Mathlib.Algebra.Order.Ring.Rat
import Mathlib.Tactic.Module
import Mathlib.Tactic.Abel
import Mathlib.Data.List.Sort

/-! # C19, C20, C51: pressure Poisson product, block preconditioner, pressure pinning
(source/navier_stokes_preconditioner.cc) -/

namespace Verif.Precond

/-! ## C19 -/

/-- Construction of `constraints_schur_complement_only`,
source/navier_stokes_preconditioner.cc:1179-1186: `schur`/`p` tell whether the owned dof `i` is
constrained in `constraints_schur_complement` / `constraints_p`. -/
def pinList (n : ℕ) (schur p : ℕ → Bool) : List ℕ := (List.range n).filter fun i => schur i && !p i

variable {K : Type*} [Field K]

/-- First loop of `PressurePoissonMatrix::vmult`, lines 397-403: saves and zeroes.  Returns the saved
values in order and the modified source. -/
def saveAndZero (pins : List ℕ) (src : ℕ → K) : List K × (ℕ → K) :=
  pins.foldl (fun s i => (s.1 ++ [s.2 i], Function.update s.2 i 0)) ([], src)

/-- Last loop, lines 407-413: restores the source and sets the diagonal result; iterates over
`(pin, saved value, diagonal value)`. -/
def restore (l : List (ℕ × K × K)) (src dst : ℕ → K) : (ℕ → K) × (ℕ → K) :=
  l.foldl (fun s q => (Function.update s.1 q.1 q.2.1, Function.update s.2 q.1 (q.2.2 * q.2.1)))
    (src, dst)

/-- `PressurePoissonMatrix::vmult` without Trilinos matrix, lines 387-415.  `A` is
`pressure_poisson_vmult`, `diag` the list `constrained_diagonal_values`.  Returns the final state of
`src` (it is modified through a `const_cast`) and `dst`. -/
def poissonVmult (A : (ℕ → K) → (ℕ → K)) (pins : List ℕ) (diag : List K) (src : ℕ → K) :
    (ℕ → K) × (ℕ → K) :=
  let s := saveAndZero pins src
  let dst := A s.2
  restore (pins.zip (s.1.zip diag)) s.2 dst

theorem saveAndZero_eq (pins : List ℕ) (hn : pins.Nodup) : ∀ (acc : List K) (src : ℕ → K),
    pins.foldl (fun (s : List K × (ℕ → K)) i => (s.1 ++ [s.2 i], Function.update s.2 i 0)) (acc, src)
      = (acc ++ pins.map src, fun i => if i ∈ pins then 0 else src i) := by
  induction pins with
  | nil => intro acc src; simp
  | cons a l ih =>
    intro acc src
    rw [List.nodup_cons] at hn
    rw [List.foldl_cons, ih hn.2]
    refine Prod.ext ?_ ?_
    · simp only [List.map_cons, List.append_assoc, List.singleton_append,
        List.append_cancel_left_eq, List.cons.injEq, true_and]
      apply List.map_congr_left
      intro b hb
      rw [Function.update_of_ne]
      rintro rfl; exact hn.1 hb
    · funext i
      simp only [List.mem_cons, Function.update_apply]
      by_cases h1 : i = a <;> by_cases h2 : i ∈ l <;> simp [h1, h2]

theorem restore_eq (pins : List ℕ) (hn : pins.Nodup) (f : ℕ → K) : ∀ (diag : List K)
    (_ : diag.length = pins.length) (src dst : ℕ → K),
    (restore (pins.zip ((pins.map f).zip diag)) src dst).1 = (fun i => if i ∈ pins then f i else src i)
    ∧ ∀ i, (∀ k (hk : k < pins.length) (hd : k < diag.length), pins[k] = i →
        (restore (pins.zip ((pins.map f).zip diag)) src dst).2 i = diag[k] * f i) ∧
      (i ∉ pins → (restore (pins.zip ((pins.map f).zip diag)) src dst).2 i = dst i) := by
  induction pins with
  | nil => intro diag _ src dst; simp [restore]
  | cons a l ih =>
    intro diag hd src dst
    rw [List.nodup_cons] at hn
    cases diag with
    | nil => simp at hd
    | cons c diag =>
      have hd' : diag.length = l.length := by simpa using hd
      have hstep : restore ((a :: l).zip (((a :: l).map f).zip (c :: diag))) src dst
          = restore (l.zip ((l.map f).zip diag)) (Function.update src a (f a))
            (Function.update dst a (c * f a)) := by
        simp [restore]
      obtain ⟨h1, h2⟩ := ih hn.2 diag hd' (Function.update src a (f a)) (Function.update dst a (c * f a))
      rw [hstep]
      refine ⟨?_, ?_⟩
      · rw [h1]
        funext i
        simp only [List.mem_cons, Function.update_apply]
        by_cases h3 : i = a <;> by_cases h4 : i ∈ l <;> simp [h3, h4]
      · intro i
        obtain ⟨h3, h4⟩ := h2 i
        refine ⟨?_, ?_⟩
        · intro k hk hkd hki
          cases k with
          | zero =>
            simp only [List.getElem_cons_zero] at hki
            subst hki
            rw [h4 hn.1, Function.update_self]
            simp
          | succ k =>
            have := h3 k (by simpa using hk) (by simpa using hkd) (by simpa using hki)
            simpa using this
        · intro hni
          simp only [List.mem_cons, not_or] at hni
          rw [h4 hni.2, Function.update_of_ne hni.1]

/-- **C19.** For every duplicate-free pin list the product returns with the input vector unchanged,
pinned entries are the diagonal value times the input entry, and all other entries are the Poisson
operator applied to the input with pinned entries replaced by zero. -/
theorem C19_poisson_vmult (A : (ℕ → K) → (ℕ → K)) (pins : List ℕ) (hn : pins.Nodup) (diag : List K)
    (hd : diag.length = pins.length) (src : ℕ → K) :
    (poissonVmult A pins diag src).1 = src ∧
    (∀ k (hk : k < pins.length) (hkd : k < diag.length),
      (poissonVmult A pins diag src).2 pins[k] = diag[k] * src pins[k]) ∧
    (∀ i, i ∉ pins →
      (poissonVmult A pins diag src).2 i = A (fun j => if j ∈ pins then 0 else src j) i) := by
  have hs : saveAndZero pins src = (pins.map src, fun i => if i ∈ pins then 0 else src i) := by
    have h := saveAndZero_eq pins hn [] src
    rw [List.nil_append] at h
    exact h
  unfold poissonVmult
  rw [hs]
  obtain ⟨h1, h2⟩ := restore_eq pins hn src diag hd (fun i => if i ∈ pins then 0 else src i)
    (A fun i => if i ∈ pins then 0 else src i)
  refine ⟨?_, ?_, ?_⟩
  · dsimp only; rw [h1]; funext i; by_cases h : i ∈ pins <;> simp [h]
  · intro k hk hkd; exact (h2 _).1 k hk hkd rfl
  · intro i hi; exact (h2 i).2 hi

/-- **C19 (pin list).** The list built by the code is strictly increasing, hence duplicate-free and
suitable for the binary search in `assemble_matrices`, and contains exactly the owned dofs
constrained only in the Schur complement. -/
theorem C19_pin_list (n : ℕ) (schur p : ℕ → Bool) :
    (pinList n schur p).Pairwise (· < ·) ∧ (pinList n schur p).Nodup ∧
    ∀ i, i ∈ pinList n schur p ↔ i < n ∧ schur i = true ∧ p i = false := by
  refine ⟨List.pairwise_lt_range.filter _, List.nodup_range.filter _, ?_⟩
  intro i; simp [pinList]

/-- Duplicates in the list would corrupt the caller's vector: why the hypothesis is needed. -/
theorem C19_duplicates_corrupt : (poissonVmult (K := ℚ) id [0, 0] [1, 1] (fun _ => 7)).1 0 = 0 := by
  decide +kernel

/-- Non-vacuity. -/
example :
    let r := poissonVmult (K := ℚ) (fun v i => v i + v (i + 1))
      (pinList 4 (· == 2) (fun _ => false)) [10] (fun i => (i : ℚ));
    (List.range 4).map r.2 = [1, 1, 20, 7] ∧ (List.range 4).map r.1 = [0, 1, 2, 3] := by
  decide +kernel

/-! ## C20 -/

/-- `NavierStokesPreconditioner::vmult`, lines 592-735, as a function of what the inner (exact or
approximate) solvers do: `ainv` for the velocity block, `mass` (`solve_pressure_mass`), `poisson`
for the pressure Laplacian, `B` the divergence, `F` the pressure convection-diffusion product.
Pressure vectors are functions of the dof index; failed inner solves are whatever the oracle
returns. -/
def blockVmult {U : Type*} (ainv : U → U) (B : U → ℕ → K) (mass poisson F : (ℕ → K) → ℕ → K)
    (stationary densityPos : Bool) (pins : List ℕ) (f : U) (g : ℕ → K) : U × (ℕ → K) :=
  let u := ainv f
  let temp := fun i => -g i + B u i
  if stationary then
    let q := poisson temp
    let q := pins.foldl (fun v i => Function.update v i 0) q
    let r := F q
    let r := pins.foldl (fun v i => Function.update v i (temp i)) r
    (u, mass r)
  else
    let p := mass temp
    (u, if densityPos then fun i => p i + poisson temp i else p)

/-- **C20 (time dependent).** With an exact velocity solver and an operator `S` that is inverted by
"mass plus (for positive density) Poisson", the preconditioner solves the block-triangular system
`A u = f`, `B u - S p = g`. -/
theorem C20_solves_block_triangular {U : Type*} (A ainv : U → U) (B : U → ℕ → K)
    (mass poisson F S : (ℕ → K) → ℕ → K) (densityPos : Bool) (pins : List ℕ) (f : U) (g : ℕ → K)
    (hA : ∀ f, A (ainv f) = f)
    (hS : ∀ t, S (fun i => mass t i + if densityPos then poisson t i else 0) = t) :
    let r := blockVmult ainv B mass poisson F false densityPos pins f g
    A r.1 = f ∧ ∀ i, B r.1 i - S r.2 i = g i := by
  refine ⟨hA f, ?_⟩
  intro i
  have := congrFun (hS (fun i => -g i + B (ainv f) i)) i
  cases densityPos
  · simp only [blockVmult, Bool.false_eq_true, if_false, add_zero] at this ⊢
    rw [this]; ring
  · simp only [blockVmult, Bool.false_eq_true, if_false, if_true] at this ⊢
    rw [this]; ring

/-- **C20 (inverse).** Conversely it recovers `(u, p)` from the block-triangular product, if the
solvers are left inverses. -/
theorem C20_inverts_block_triangular {U : Type*} (A ainv : U → U) (B : U → ℕ → K)
    (mass poisson F S : (ℕ → K) → ℕ → K) (densityPos : Bool) (pins : List ℕ) (u : U) (p : ℕ → K)
    (hA : ∀ u, ainv (A u) = u)
    (hS : ∀ q, (fun i => mass (S q) i + if densityPos then poisson (S q) i else 0) = q) :
    blockVmult ainv B mass poisson F false densityPos pins (A u) (fun i => B u i - S p i) = (u, p) := by
  have e : (fun i => -(B u i - S p i) + B u i) = S p := by funext i; ring
  have h := hS p
  cases densityPos
  · simp only [blockVmult, Bool.false_eq_true, if_false, hA, e, add_zero] at h ⊢
    exact congrArg _ h
  · simp only [blockVmult, Bool.false_eq_true, if_false, if_true, hA, e] at h ⊢
    rw [h]

/-- **C20 (stationary).** On the stationary path the result solves `A u = f` and, with `M` inverted
by the mass solver, `M p` equals the defect `B u - g` at pinned dofs and elsewhere the
convection-diffusion operator applied to the Poisson solution with pinned entries zeroed. -/
theorem C20_stationary {U : Type*} (A ainv : U → U) (B : U → ℕ → K)
    (mass poisson F M : (ℕ → K) → ℕ → K) (densityPos : Bool) (pins : List ℕ) (f : U) (g : ℕ → K)
    (hA : ∀ f, A (ainv f) = f) (hM : ∀ t, M (mass t) = t) :
    let r := blockVmult ainv B mass poisson F true densityPos pins f g
    A r.1 = f ∧
    (∀ i ∈ pins, M r.2 i = B r.1 i - g i) ∧
    (∀ i, i ∉ pins → M r.2 i =
      F (fun j => if j ∈ pins then 0 else poisson (fun k => B r.1 k - g k) j) i) := by
  have e : (fun i => -g i + B (ainv f) i) = fun i => B (ainv f) i - g i := by funext i; ring
  have e' : ∀ i, -g i + B (ainv f) i = B (ainv f) i - g i := fun i => congrFun e i
  have hz : ∀ q : ℕ → K, pins.foldl (fun v i => Function.update v i 0) q
      = fun j => if j ∈ pins then 0 else q j := by
    intro q; funext j
    by_cases h : j ∈ pins
    · rw [if_pos h]
      exact foldl_update_mem pins (fun i => i) (fun _ => 0) q j h (fun _ _ _ => rfl)
    · rw [if_neg h]
      exact foldl_update_not pins (fun i => i) (fun _ => 0) q j (by rintro a ha rfl; exact h ha)
  refine ⟨hA f, ?_, ?_⟩
  · intro i hi
    simp only [blockVmult, if_true, hM, e, e']
    exact foldl_update_mem pins (fun i => i) (fun i => B (ainv f) i - g i) _ i hi
      (fun c _ h => by simp [h])
  · intro i hi
    simp only [blockVmult, if_true, hM, e, hz, e']
    exact foldl_update_not pins (fun i => i) (fun i => B (ainv f) i - g i) _ i
      (by rintro a ha rfl; exact hi ha)

/-- Non-vacuity: diagonal model operators. -/
example : (blockVmult (K := ℚ) (fun f : ℚ => f / 2) (fun u _ => 3 * u) (fun t i => t i / 4) (fun t i => t i / 4)
    id false true [] 10 (fun i => i)).2 1 = 7 ∧
    ∀ t : ℕ → ℚ, (fun p : ℕ → ℚ => fun i => 2 * p i) (fun i => t i / 4 + if true then t i / 4 else 0) = t := by
  refine ⟨by decide +kernel, ?_⟩
  intro t; funext i; simp; ring

/-! ## C51: pressure pinning -/

/-- Per-rank search, lines 1137-1145: `boundary` are the keys of `boundary_values` on this rank in
increasing order, `constrained` is `constraints_schur_complement.is_constrained`.  The result is the
negated index, `none` for `numeric_limits<int>::min()`. -/
def localPin (constrained : ℕ → Bool) (boundary : List ℕ) : Option ℕ :=
  if boundary.any (fun i => !constrained i) then boundary.head? else none

/-- `-Utilities::MPI::max(min_local_index)` over all ranks, lines 1146-1149; `none` is the failing
`AssertThrow`. -/
def globalPin (constrained : ℕ → Bool) (ranks : List (List ℕ)) : Option ℕ :=
  (ranks.filterMap (localPin constrained)).min?

/-- **C51 (partial).** If on every rank the lowest boundary dof is unconstrained, the pressure is
fixed at the globally lowest boundary dof, which is unconstrained, and on which all ranks agree; an
error is raised exactly if no rank has boundary dofs. -/
theorem C51_pin_lowest_partial (constrained : ℕ → Bool) (ranks : List (List ℕ))
    (hsorted : ∀ b ∈ ranks, b.Pairwise (· < ·))
    (hfree : ∀ b ∈ ranks, ∀ i, b.head? = some i → constrained i = false) :
    (∀ i, globalPin constrained ranks = some i ↔
      (i ∈ ranks.flatten ∧ (∀ j ∈ ranks.flatten, i ≤ j))) ∧
    (∀ i, globalPin constrained ranks = some i → constrained i = false) ∧
    (globalPin constrained ranks = none ↔ ranks.flatten = []) := by
  have hl : ∀ b ∈ ranks, localPin constrained b = b.head? := by
    intro b hb
    cases b with
    | nil => rfl
    | cons a l =>
      have := hfree _ hb a rfl
      simp [localPin, this]
  have hle : ∀ b ∈ ranks, ∀ j ∈ b, ∃ i, b.head? = some i ∧ i ≤ j := by
    intro b hb j hj
    cases b with
    | nil => cases hj
    | cons a l =>
      refine ⟨a, rfl, ?_⟩
      rcases List.mem_cons.1 hj with rfl | hj
      · exact le_rfl
      · exact ((List.pairwise_cons.1 (hsorted _ hb)).1 j hj).le
  have hiff : ∀ i, globalPin constrained ranks = some i ↔
      (i ∈ ranks.flatten ∧ (∀ j ∈ ranks.flatten, i ≤ j)) := by
    intro i
    unfold globalPin
    rw [List.min?_eq_some_iff]
    constructor
    · rintro ⟨h1, h2⟩
      obtain ⟨b, hb, hbi⟩ := List.mem_filterMap.1 h1
      rw [hl b hb] at hbi
      refine ⟨List.mem_flatten.2 ⟨b, hb, List.mem_of_mem_head? hbi⟩, ?_⟩
      intro j hj
      obtain ⟨c, hc, hjc⟩ := List.mem_flatten.1 hj
      obtain ⟨k, hk, hkj⟩ := hle c hc j hjc
      exact le_trans (h2 k (List.mem_filterMap.2 ⟨c, hc, by rw [hl c hc, hk]⟩)) hkj
    · rintro ⟨h1, h2⟩
      obtain ⟨b, hb, hib⟩ := List.mem_flatten.1 h1
      refine ⟨?_, ?_⟩
      · obtain ⟨k, hk, hki⟩ := hle b hb i hib
        have := h2 k (List.mem_flatten.2 ⟨b, hb, List.mem_of_mem_head? hk⟩)
        have : k = i := by omega
        subst this
        exact List.mem_filterMap.2 ⟨b, hb, by rw [hl b hb, hk]⟩
      · intro k hk
        obtain ⟨c, hc, hkc⟩ := List.mem_filterMap.1 hk
        rw [hl c hc] at hkc
        exact h2 k (List.mem_flatten.2 ⟨c, hc, List.mem_of_mem_head? hkc⟩)
  refine ⟨hiff, ?_, ?_⟩
  · intro i hi
    unfold globalPin at hi
    rw [List.min?_eq_some_iff] at hi
    obtain ⟨b, hb, hbi⟩ := List.mem_filterMap.1 hi.1
    rw [hl b hb] at hbi
    exact hfree b hb i hbi
  · unfold globalPin
    rw [List.min?_eq_none_iff, List.filterMap_eq_nil_iff, List.flatten_eq_nil_iff]
    constructor
    · intro h b hb
      have := h b hb
      rw [hl b hb] at this
      simpa using this
    · intro h b hb
      rw [h b hb]; rfl

/-- **C51.** Without any assumption on the constraints: the setup stops with an error exactly if every
boundary dof of every rank is already constrained, and otherwise the fixed dof is the lowest boundary
dof among the ranks that own a free one. -/
theorem C51_error_iff (constrained : ℕ → Bool) (ranks : List (List ℕ))
    (hsorted : ∀ b ∈ ranks, b.Pairwise (· < ·)) :
    (globalPin constrained ranks = none ↔ ∀ b ∈ ranks, ∀ i ∈ b, constrained i = true) ∧
    (∀ i, globalPin constrained ranks = some i →
      (∃ b ∈ ranks, i ∈ b ∧ ∃ k ∈ b, constrained k = false) ∧
      ∀ b ∈ ranks, (∃ k ∈ b, constrained k = false) → ∀ j ∈ b, i ≤ j) := by
  have hloc : ∀ b i, localPin constrained b = some i ↔
      (∃ k ∈ b, constrained k = false) ∧ b.head? = some i := by
    intro b i
    unfold localPin
    by_cases h : ∃ k ∈ b, constrained k = false
    · rw [if_pos (by simpa using h)]; simp [h]
    · rw [if_neg (by simpa using h)]; simp [h]
  constructor
  · unfold globalPin
    rw [List.min?_eq_none_iff, List.filterMap_eq_nil_iff]
    constructor
    · intro h b hb i hi
      by_contra hc
      have hc : constrained i = false := by simpa using hc
      cases b with
      | nil => cases hi
      | cons a l =>
        have := (hloc (a :: l) a).2 ⟨⟨i, hi, hc⟩, rfl⟩
        rw [h _ hb] at this
        cases this
    · intro h b hb
      unfold localPin
      rw [if_neg]
      simp only [List.any_eq_true, not_exists, not_and]
      intro i hi
      simp [h b hb i hi]
  · intro i hi
    unfold globalPin at hi
    rw [List.min?_eq_some_iff] at hi
    obtain ⟨h1, h2⟩ := hi
    obtain ⟨b, hb, hbi⟩ := List.mem_filterMap.1 h1
    obtain ⟨hk, hh⟩ := (hloc b i).1 hbi
    refine ⟨⟨b, hb, List.mem_of_mem_head? hh, hk⟩, ?_⟩
    intro c hc hck j hj
    cases c with
    | nil => cases hj
    | cons a l =>
      have hia : i ≤ a := h2 a (List.mem_filterMap.2 ⟨_, hc, (hloc _ _).2 ⟨hck, rfl⟩⟩)
      rcases List.mem_cons.1 hj with rfl | hj
      · exact hia
      · exact hia.trans ((List.pairwise_cons.1 (hsorted _ hc)).1 j hj).le

/-- **C51 (full statement fails).** If the lowest boundary dof is already constrained (e.g. a hanging
node) but a higher one is not, the code pins the constrained dof instead of the free one. -/
theorem C51_pins_constrained_dof :
    globalPin (fun i => i == 3) [[3, 5, 8]] = some 3 := by decide

/-- Non-vacuity: two ranks, one without boundary. -/
example : globalPin (fun i => i == 5) [[3, 5], [], [2, 7]] = some 2 := by decide

end Verif.Precond
