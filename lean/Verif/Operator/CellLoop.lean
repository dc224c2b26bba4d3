import Mathlib.Algebra.BigOperators.Group.List.Basic
import Mathlib.Algebra.BigOperators.Group.Finset.Basic
import Mathlib.Algebra.BigOperators.Group.Finset.Sigma
import Mathlib.Algebra.Order.Ring.Rat
import Mathlib.Data.List.Range
import Mathlib.Tactic.Ring
import Mathlib.Tactic.Linarith

/-!
# C84: the result of a matrix-free operator does not depend on how the cell loop is split

`MatrixFree::cell_loop` calls the local function with ranges of cell batches; the ranges depend on the number of threads, on
the overlap of communication with computation and on block sizes. The local functions keep pointers into arrays with one
entry per quadrature point and cell batch (source/navier_stokes_matrix.cc):

* `local_operation` (lines 602-916) walks four pointers through the range;
* `local_divergence` (lines 919-961) sets up a pointer, but does not advance it;
* the level-set, reinitialization and Cahn-Hilliard loops compute the position from the cell number
  (level_set_okz_advance_concentration.cc:233-237 and 372, level_set_okz_reinitialization.cc:88 and 171-175,
  phase_field_local.cc:159-160 and 239-240), as do the pressure mass, pressure Poisson and convection-diffusion loops
  through `begin_viscosities(cell)` and `begin_densities(cell)` (navier_stokes_matrix.cc:541-543, 978-990, 1020, 1120).
-/

namespace Verif.Operator.CellLoop

open Finset

variable {α V : Type*} [AddCommMonoid V]

/-! ## Model -/

/-- Values an element of the loop sees through a pointer: `ptr[q]` for the quadrature points `q < nQ`. -/
def view (nQ : ℕ) (arr : ℕ → α) (ptr : ℕ) : Fin nQ → α := fun q => arr (ptr + q)

/-- Assignments `ptr[q] = new[q]` for `q < nQ`. -/
def store (nQ : ℕ) (arr : ℕ → α) (ptr : ℕ) (new : Fin nQ → α) : ℕ → α := fun k =>
  if h : ptr ≤ k ∧ k - ptr < nQ then new ⟨k - ptr, h.2⟩ else arr k

/-- The arrays `linearized_velocities`, `variable_densities`, `variable_viscosities`, `variable_damping_coefficients`
(navier_stokes_matrix.h:247-256). -/
structure Arrays (α : Type*) where
  lin : ℕ → α
  rho : ℕ → α
  mu : ℕ → α
  damp : ℕ → α

/-- The pointers `linearized`, `rho_values`, `mu_values`, `damping_values` (navier_stokes_matrix.cc:632-645), as offsets. -/
structure Ptrs where
  lin : ℕ
  rho : ℕ
  mu : ℕ
  damp : ℕ

/-- Everything the loop body does with one cell batch apart from moving pointers: contribution to the result vector and, in
residual computations, the new linearization data (navier_stokes_matrix.cc:656-903). It sees the entries of its own
quadrature points only (`linearized[q]`, `rho_values[q]`, ... with `q < n_q_points`). -/
def Kernel (α V : Type*) (nQ : ℕ) :=
  ℕ → (Fin nQ → α) → (Fin nQ → α) → (Fin nQ → α) → (Fin nQ → α) → V × Option (Fin nQ → α)

/-- State of the loop of `local_operation`. -/
structure OpState (α V : Type*) where
  ptr : Ptrs
  arr : Arrays α
  dst : V

/-- One iteration of `local_operation`, navier_stokes_matrix.cc:656-916; the pointers advance in lines 908-914. -/
def opBody {nQ : ℕ} (useVariable : Bool) (kernel : Kernel α V nQ) (s : OpState α V) (cell : ℕ) : OpState α V :=
  let r := kernel cell (view nQ s.arr.lin s.ptr.lin) (view nQ s.arr.rho s.ptr.rho) (view nQ s.arr.mu s.ptr.mu)
    (view nQ s.arr.damp s.ptr.damp)
  { dst := s.dst + r.1
    arr := { s.arr with lin := match r.2 with
                              | none => s.arr.lin
                              | some new => store nQ s.arr.lin s.ptr.lin new }
    ptr := { lin := s.ptr.lin + nQ
             rho := if useVariable then s.ptr.rho + nQ else s.ptr.rho
             mu := if useVariable then s.ptr.mu + nQ else s.ptr.mu
             damp := if useVariable then s.ptr.damp + nQ else s.ptr.damp } }

/-- the cells `first, …, last - 1` of a range -/
def cells (r : ℕ × ℕ) : List ℕ := List.range' r.1 (r.2 - r.1)

/-- `local_operation` on a range, navier_stokes_matrix.cc:602-916; initial pointers lines 632-645 and
navier_stokes_matrix.h:293-369. Without variable coefficients the last three pointers are null and never read; here they
have an irrelevant value. -/
def opRange {nQ : ℕ} (useVariable : Bool) (kernel : Kernel α V nQ) (s : Arrays α × V) (r : ℕ × ℕ) : Arrays α × V :=
  let p := r.1 * nQ
  let e := (cells r).foldl (opBody useVariable kernel) { ptr := ⟨p, p, p, p⟩, arr := s.1, dst := s.2 }
  (e.arr, e.dst)

/-- `cell_loop` over the given ranges, one after the other. -/
def opLoop {nQ : ℕ} (useVariable : Bool) (kernel : Kernel α V nQ) (s : Arrays α × V) (rs : List (ℕ × ℕ)) : Arrays α × V :=
  rs.foldl (opRange useVariable kernel) s

/-- One iteration of `local_divergence`, navier_stokes_matrix.cc:934-960: contribution of a cell given the weights of its
quadrature points. The pointer `mu_values` stays where it is. -/
def divBody {nQ : ℕ} (kernel : ℕ → (Fin nQ → α) → V) (mu : ℕ → α) (s : ℕ × V) (cell : ℕ) : ℕ × V :=
  (s.1, s.2 + kernel cell (view nQ mu s.1))

/-- `local_divergence<weight_by_viscosity>` on a range, navier_stokes_matrix.cc:919-961. `mu = none` means that
`variable_viscosities` is empty; the weight is then `-parameters.viscosity`; unweighted it is `-1` (lines 946-952).
`kernel` is `velocity.get_divergence` weighted, integrated and scattered; `neg` negation of stored numbers. -/
def divRange {nQ : ℕ} (weighted : Bool) (neg : α → α) (one viscosity : α) (kernel : ℕ → (Fin nQ → α) → V)
    (mu : Option (ℕ → α)) (d : V) (r : ℕ × ℕ) : V :=
  if weighted then
    match mu with
    | none => (cells r).foldl (fun d cell => d + kernel cell (fun _ => neg viscosity)) d
    | some mu => ((cells r).foldl (divBody (fun c v => kernel c (fun q => neg (v q))) mu) (r.1 * nQ, d)).2
  else (cells r).foldl (fun d cell => d + kernel cell (fun _ => neg one)) d

/-- `divergence_vmult_add`, navier_stokes_matrix.cc:300-333 -/
def divLoop {nQ : ℕ} (weighted : Bool) (neg : α → α) (one viscosity : α) (kernel : ℕ → (Fin nQ → α) → V)
    (mu : Option (ℕ → α)) (d : V) (rs : List (ℕ × ℕ)) : V :=
  rs.foldl (divRange weighted neg one viscosity kernel mu) d

/-- Loops which compute the position from the cell number, with one array that may be rewritten: the citations are in the
header of this file. -/
def directBody {nQ : ℕ} (kernel : ℕ → (Fin nQ → α) → V × Option (Fin nQ → α)) (s : (ℕ → α) × V) (cell : ℕ) : (ℕ → α) × V :=
  let r := kernel cell (view nQ s.1 (cell * nQ))
  (match r.2 with
   | none => s.1
   | some new => store nQ s.1 (cell * nQ) new, s.2 + r.1)

def directLoop {nQ : ℕ} (kernel : ℕ → (Fin nQ → α) → V × Option (Fin nQ → α)) (s : (ℕ → α) × V) (rs : List (ℕ × ℕ)) :
    (ℕ → α) × V :=
  rs.foldl (fun s r => (cells r).foldl (directBody kernel) s) s

/-! ## Specification -/

namespace Spec

/-- The ranges visit each of the cells `0, …, n-1` exactly once, in some order. -/
def Splits (n : ℕ) (rs : List (ℕ × ℕ)) : Prop := (rs.flatMap fun r => List.range' r.1 (r.2 - r.1)).Perm (List.range n)

/-- the entries of an array that belong to a cell -/
def slice (nQ : ℕ) (arr : ℕ → α) (cell : ℕ) : Fin nQ → α := fun q => arr (cell * nQ + q)

end Spec

/-! ## Proofs -/

section Proofs

variable {nQ : ℕ}

omit [AddCommMonoid V] in
theorem view_eq_slice (arr : ℕ → α) (cell : ℕ) : view nQ arr (cell * nQ) = Spec.slice nQ arr cell := rfl

omit [AddCommMonoid V] in
/-- entries of another cell are not touched, those of the cell itself have the new value -/
theorem slice_store (arr : ℕ → α) (c c' : ℕ) (new : Fin nQ → α) :
    Spec.slice nQ (store nQ arr (c * nQ) new) c' = if c' = c then new else Spec.slice nQ arr c' := by
  funext q
  unfold Spec.slice store
  by_cases h : c' = c
  · subst h
    rw [if_pos rfl, dif_pos ⟨by omega, by have := q.2; omega⟩]
    congr 1
    ext
    simp
  · rw [if_neg h, dif_neg]
    rintro ⟨h1, h2⟩
    rcases Nat.lt_or_gt_of_ne h with hlt | hgt
    · have : (c' + 1) * nQ ≤ c * nQ := Nat.mul_le_mul_right _ hlt
      have hq := q.2
      have : c' * nQ + nQ ≤ c * nQ := by rw [← Nat.succ_mul]; exact this
      omega
    · have : (c + 1) * nQ ≤ c' * nQ := Nat.mul_le_mul_right _ hgt
      have : c * nQ + nQ ≤ c' * nQ := by rw [← Nat.succ_mul]; exact this
      omega

omit [AddCommMonoid V] in
theorem store_outside (arr : ℕ → α) (c n k : ℕ) (hc : c < n) (hk : n * nQ ≤ k) (new : Fin nQ → α) :
    store nQ arr (c * nQ) new k = arr k := by
  unfold store
  rw [dif_neg]
  rintro ⟨h1, h2⟩
  have : (c + 1) * nQ ≤ n * nQ := Nat.mul_le_mul_right _ hc
  have : c * nQ + nQ ≤ n * nQ := by rw [← Nat.succ_mul]; exact this
  omega

/-- one iteration with positions computed from the cell number -/
def opDirect (useVariable : Bool) (kernel : Kernel α V nQ) (s : Arrays α × V) (cell : ℕ) : Arrays α × V :=
  let r := kernel cell (Spec.slice nQ s.1.lin cell) (Spec.slice nQ s.1.rho cell)
    (Spec.slice nQ s.1.mu cell) (Spec.slice nQ s.1.damp cell)
  ({ s.1 with lin := match r.2 with
                     | none => s.1.lin
                     | some new => store nQ s.1.lin (cell * nQ) new }, s.2 + r.1)

/-- Without variable coefficients the kernel does not look at the last three arrays
(navier_stokes_matrix.cc:707-709, 829-832, 838-840). -/
def IgnoresUnlessVariable (useVariable : Bool) (kernel : Kernel α V nQ) : Prop :=
  useVariable = false → ∀ c l r m d r' m' d', kernel c l r m d = kernel c l r' m' d'

theorem opBody_fold (useVariable : Bool) (kernel : Kernel α V nQ) (hk : IgnoresUnlessVariable useVariable kernel)
    (len : ℕ) : ∀ (first : ℕ) (p : Ptrs) (arr : Arrays α) (d : V), p.lin = first * nQ →
      (useVariable = true → p.rho = first * nQ ∧ p.mu = first * nQ ∧ p.damp = first * nQ) →
      (let e := (List.range' first len).foldl (opBody useVariable kernel) { ptr := p, arr := arr, dst := d }
       (e.arr, e.dst)) = (List.range' first len).foldl (opDirect useVariable kernel) (arr, d) := by
  induction len with
  | zero => intro first p arr d _ _; rfl
  | succ len ih =>
    intro first p arr d hl hv
    simp only [List.range'_succ, List.foldl_cons]
    have hker : kernel first (view nQ arr.lin p.lin) (view nQ arr.rho p.rho) (view nQ arr.mu p.mu)
        (view nQ arr.damp p.damp) = kernel first (Spec.slice nQ arr.lin first)
          (Spec.slice nQ arr.rho first) (Spec.slice nQ arr.mu first)
          (Spec.slice nQ arr.damp first) := by
      rw [hl, view_eq_slice]
      cases hu : useVariable with
      | false => exact hk hu _ _ _ _ _ _ _ _
      | true =>
        obtain ⟨h1, h2, h3⟩ := hv hu
        rw [h1, h2, h3]; rfl
    have hstep : opDirect useVariable kernel (arr, d) first =
        ((opBody useVariable kernel { ptr := p, arr := arr, dst := d } first).arr,
         (opBody useVariable kernel { ptr := p, arr := arr, dst := d } first).dst) := by
      unfold opDirect opBody
      dsimp only
      rw [hker, hl]
    rw [hstep]
    refine ih (first + 1) _ _ _ ?_ ?_
    · change p.lin + nQ = _
      rw [hl]; ring
    · intro hu
      obtain ⟨h1, h2, h3⟩ := hv hu
      change (if useVariable then p.rho + nQ else p.rho) = _ ∧ (if useVariable then p.mu + nQ else p.mu) = _ ∧
        (if useVariable then p.damp + nQ else p.damp) = _
      rw [hu]
      simp only [if_true, h1, h2, h3]
      refine ⟨?_, ?_, ?_⟩ <;> ring

theorem opRange_eq (useVariable : Bool) (kernel : Kernel α V nQ) (hk : IgnoresUnlessVariable useVariable kernel)
    (s : Arrays α × V) (r : ℕ × ℕ) :
    opRange useVariable kernel s r = (cells r).foldl (opDirect useVariable kernel) s := by
  have := opBody_fold useVariable kernel hk (r.2 - r.1) r.1 ⟨r.1 * nQ, r.1 * nQ, r.1 * nQ, r.1 * nQ⟩ s.1 s.2 rfl
    (fun _ => ⟨rfl, rfl, rfl⟩)
  exact this

theorem opLoop_eq (useVariable : Bool) (kernel : Kernel α V nQ) (hk : IgnoresUnlessVariable useVariable kernel)
    (s : Arrays α × V) (rs : List (ℕ × ℕ)) :
    opLoop useVariable kernel s rs = (rs.flatMap cells).foldl (opDirect useVariable kernel) s := by
  unfold opLoop
  induction rs generalizing s with
  | nil => rfl
  | cons r rs ih =>
    rw [List.foldl_cons, ih, opRange_eq useVariable kernel hk, List.flatMap_cons, List.foldl_append]

/-- the contribution of a cell, from the original arrays -/
def contrib (kernel : Kernel α V nQ) (a : Arrays α) (c : ℕ) : V × Option (Fin nQ → α) :=
  kernel c (Spec.slice nQ a.lin c) (Spec.slice nQ a.rho c) (Spec.slice nQ a.mu c) (Spec.slice nQ a.damp c)

theorem opDirect_fold (useVariable : Bool) (kernel : Kernel α V nQ) (a0 : Arrays α) (n : ℕ) (l : List ℕ) :
    ∀ (a : Arrays α) (d : V), l.Nodup → (∀ c ∈ l, c < n) → a.rho = a0.rho → a.mu = a0.mu → a.damp = a0.damp →
      (∀ c ∈ l, Spec.slice nQ a.lin c = Spec.slice nQ a0.lin c) →
      (∀ k, n * nQ ≤ k → a.lin k = a0.lin k) →
      (l.foldl (opDirect useVariable kernel) (a, d)).2 = d + (l.map fun c => (contrib kernel a0 c).1).sum ∧
      (l.foldl (opDirect useVariable kernel) (a, d)).1.rho = a0.rho ∧
      (l.foldl (opDirect useVariable kernel) (a, d)).1.mu = a0.mu ∧
      (l.foldl (opDirect useVariable kernel) (a, d)).1.damp = a0.damp ∧
      (∀ c ∈ l, Spec.slice nQ (l.foldl (opDirect useVariable kernel) (a, d)).1.lin c =
        ((contrib kernel a0 c).2).getD (Spec.slice nQ a0.lin c)) ∧
      (∀ c ∉ l, Spec.slice nQ (l.foldl (opDirect useVariable kernel) (a, d)).1.lin c = Spec.slice nQ a.lin c) ∧
      (∀ k, n * nQ ≤ k → (l.foldl (opDirect useVariable kernel) (a, d)).1.lin k = a0.lin k) := by
  induction l with
  | nil =>
    intro a d _ _ h1 h2 h3 _ h5
    refine ⟨?_, h1, h2, h3, ?_, ?_, h5⟩ <;> simp
  | cons c l ih =>
    intro a d hnd hlt h1 h2 h3 h4 h5
    rw [List.foldl_cons]
    obtain ⟨hc, hnd'⟩ := List.nodup_cons.1 hnd
    have hcon : kernel c (Spec.slice nQ a.lin c) (Spec.slice nQ a.rho c)
        (Spec.slice nQ a.mu c) (Spec.slice nQ a.damp c) = contrib kernel a0 c := by
      unfold contrib
      rw [h4 c List.mem_cons_self, h1, h2, h3]
    set a' := (opDirect useVariable kernel (a, d) c).1 with ha'
    set d' := (opDirect useVariable kernel (a, d) c).2 with hd'
    have hd'' : d' = d + (contrib kernel a0 c).1 := by
      rw [hd']; unfold opDirect; dsimp only; rw [hcon]
    have hrho : a'.rho = a0.rho := h1
    have hmu : a'.mu = a0.mu := h2
    have hdamp : a'.damp = a0.damp := h3
    have hlin : a'.lin = match (contrib kernel a0 c).2 with
        | none => a.lin
        | some new => store nQ a.lin (c * nQ) new := by
      rw [ha']; unfold opDirect; dsimp only; rw [hcon]
    have hsl : ∀ c', Spec.slice nQ a'.lin c' =
        if c' = c then ((contrib kernel a0 c).2).getD (Spec.slice nQ a0.lin c) else Spec.slice nQ a.lin c' := by
      intro c'
      rw [hlin]
      cases hk : (contrib kernel a0 c).2 with
      | none =>
        by_cases h : c' = c
        · rw [if_pos h, h]; exact h4 c List.mem_cons_self
        · rw [if_neg h]
      | some new => exact slice_store a.lin c c' new
    have key := ih a' d' hnd' (fun x hx => hlt x (List.mem_cons_of_mem _ hx)) hrho hmu hdamp
      (by
        intro x hx
        rw [hsl, if_neg (show x ≠ c by rintro rfl; exact hc hx)]
        exact h4 x (List.mem_cons_of_mem _ hx))
      (by
        intro k hk
        rw [hlin]
        cases hkk : (contrib kernel a0 c).2 with
        | none => exact h5 k hk
        | some new =>
          change store nQ a.lin (c * nQ) new k = _
          rw [store_outside _ c n k (hlt c List.mem_cons_self) hk]; exact h5 k hk)
    obtain ⟨k1, k2, k3, k4, k5, k6, k7⟩ := key
    refine ⟨?_, k2, k3, k4, ?_, ?_, k7⟩
    · rw [show opDirect useVariable kernel (a, d) c = (a', d') from rfl, k1, hd'', List.map_cons, List.sum_cons, add_assoc]
    · intro x hx
      rw [show opDirect useVariable kernel (a, d) c = (a', d') from rfl]
      rcases List.mem_cons.1 hx with h | h
      · subst h
        rw [k6 x hc, hsl, if_pos rfl]
      · exact k5 x h
    · intro x hx
      rw [show opDirect useVariable kernel (a, d) c = (a', d') from rfl]
      have h1 : x ≠ c := fun h => hx (h ▸ List.mem_cons_self)
      have h2 : x ∉ l := fun h => hx (List.mem_cons_of_mem _ h)
      rw [k6 x h2, hsl, if_neg h1]

omit α in
theorem sum_of_perm (f : ℕ → V) (l : List ℕ) (n : ℕ) (h : l.Perm (List.range n)) :
    (l.map f).sum = ∑ c ∈ range n, f c := by
  rw [(h.map f).sum_eq]
  induction n generalizing l with
  | zero => simp
  | succ n ih =>
    rw [List.range_succ, List.map_append, List.sum_append, Finset.sum_range_succ, ih (List.range n) (List.Perm.refl _)]
    simp

/-- **C84 (Navier-Stokes operator).** Residual, matrix-vector product and velocity product, with constant or variable
coefficients: for every number of cell batches, every way of splitting them into ranges and every order of the ranges, the
result is the sum of the contributions of the cells, each computed with the linearization, density, viscosity and damping
entries of its own quadrature points; the coefficient tables are unchanged; afterwards the linearization data of each cell
are what the cell computed (or the old ones if it computes none) and nothing else is written. -/
theorem C84_operator_split (useVariable : Bool) (kernel : Kernel α V nQ) (hk : IgnoresUnlessVariable useVariable kernel)
    (n : ℕ) (rs : List (ℕ × ℕ)) (hs : Spec.Splits n rs) (a : Arrays α) (d : V) :
    let con := fun c => kernel c (Spec.slice nQ a.lin c) (Spec.slice nQ a.rho c) (Spec.slice nQ a.mu c)
      (Spec.slice nQ a.damp c)
    let e := opLoop useVariable kernel (a, d) rs
    e.2 = d + ∑ c ∈ range n, (con c).1 ∧ e.1.rho = a.rho ∧ e.1.mu = a.mu ∧ e.1.damp = a.damp ∧
    (∀ c < n, Spec.slice nQ e.1.lin c = (con c).2.getD (Spec.slice nQ a.lin c)) ∧
    (∀ k, n * nQ ≤ k → e.1.lin k = a.lin k) := by
  intro con e
  have hnd : (rs.flatMap cells).Nodup := hs.nodup_iff.2 List.nodup_range
  have hlt : ∀ c ∈ rs.flatMap cells, c < n := fun c hc => List.mem_range.1 (hs.subset hc)
  obtain ⟨h1, h2, h3, h4, h5, -, h7⟩ := opDirect_fold useVariable kernel a n (rs.flatMap cells) a d hnd hlt rfl rfl rfl
    (fun _ _ => rfl) (fun _ _ => rfl)
  have he : e = (rs.flatMap cells).foldl (opDirect useVariable kernel) (a, d) := opLoop_eq useVariable kernel hk _ _
  rw [he]
  refine ⟨?_, h2, h3, h4, ?_, h7⟩
  · rw [h1, sum_of_perm _ (rs.flatMap cells) n hs]; rfl
  · intro c hc
    exact h5 c (hs.symm.subset (List.mem_range.2 hc))

/-- **C84 (loops indexed by the cell number).** The same for the loops that compute positions from the cell number. -/
theorem C84_direct_split (kernel : ℕ → (Fin nQ → α) → V × Option (Fin nQ → α)) (n : ℕ) (rs : List (ℕ × ℕ))
    (hs : Spec.Splits n rs) (a : ℕ → α) (d : V) :
    let con := fun c => kernel c (Spec.slice nQ a c)
    let e := directLoop kernel (a, d) rs
    e.2 = d + ∑ c ∈ range n, (con c).1 ∧ (∀ c < n, Spec.slice nQ e.1 c = (con c).2.getD (Spec.slice nQ a c)) ∧
    (∀ k, n * nQ ≤ k → e.1 k = a k) := by
  intro con e
  have hnd : (rs.flatMap cells).Nodup := hs.nodup_iff.2 List.nodup_range
  have hlt : ∀ c ∈ rs.flatMap cells, c < n := fun c hc => List.mem_range.1 (hs.subset hc)
  -- embed into the four-array loop
  let K : Kernel α V nQ := fun c l _ _ _ => kernel c l
  have step : ∀ (l : List ℕ) (b : ℕ → α) (d : V), l.foldl (directBody kernel) (b, d) =
      ((l.foldl (opDirect false K) (⟨b, a, a, a⟩, d)).1.lin, (l.foldl (opDirect false K) (⟨b, a, a, a⟩, d)).2) := by
    intro l
    induction l with
    | nil => intro b d; rfl
    | cons c l ih =>
      intro b d
      rw [List.foldl_cons, List.foldl_cons]
      exact ih _ _
  have he : e = (rs.flatMap cells).foldl (directBody kernel) (a, d) := by
    change directLoop kernel (a, d) rs = _
    unfold directLoop
    generalize (a, d) = s
    clear e hs hnd hlt
    induction rs generalizing s with
    | nil => rfl
    | cons r rs ih => rw [List.foldl_cons, ih, List.flatMap_cons, List.foldl_append]
  obtain ⟨h1, -, -, -, h5, -, h7⟩ := opDirect_fold false K ⟨a, a, a, a⟩ n (rs.flatMap cells) ⟨a, a, a, a⟩ d hnd hlt
    rfl rfl rfl (fun _ _ => rfl) (fun _ _ => rfl)
  rw [he, step]
  refine ⟨?_, ?_, h7⟩
  · change (List.foldl (opDirect false K) (⟨a, a, a, a⟩, d) (rs.flatMap cells)).2 = _
    rw [h1, sum_of_perm _ (rs.flatMap cells) n hs]; rfl
  · intro c hc
    exact h5 c (hs.symm.subset (List.mem_range.2 hc))

theorem foldl_add_const (f : ℕ → V) (l : List ℕ) (d : V) :
    l.foldl (fun d c => d + f c) d = d + (l.map f).sum := by
  induction l generalizing d with
  | nil => simp
  | cons c l ih => rw [List.foldl_cons, ih, List.map_cons, List.sum_cons, add_assoc]

theorem divBody_fold (kernel : ℕ → (Fin nQ → α) → V) (mu : ℕ → α) (l : List ℕ) (p : ℕ) (d : V) :
    (l.foldl (divBody kernel mu) (p, d)).2 = d + (l.map fun c => kernel c (view nQ mu p)).sum := by
  induction l generalizing d with
  | nil => simp
  | cons c l ih =>
    rw [List.foldl_cons]
    change (l.foldl (divBody kernel mu) (p, d + kernel c (view nQ mu p))).2 = _
    rw [ih, List.map_cons, List.sum_cons, add_assoc]

theorem divRange_eq (weighted : Bool) (neg : α → α) (one viscosity : α) (kernel : ℕ → (Fin nQ → α) → V)
    (mu : Option (ℕ → α)) (d : V) (r : ℕ × ℕ) :
    divRange weighted neg one viscosity kernel mu d r = d + ((cells r).map fun c => kernel c fun q =>
      neg (if weighted then (match mu with
                             | none => viscosity
                             | some m => Spec.slice nQ m r.1 q) else one)).sum := by
  unfold divRange
  cases weighted with
  | false => simp only [Bool.false_eq_true, if_false]; exact foldl_add_const _ _ _
  | true =>
    simp only [if_true]
    cases mu with
    | none => exact foldl_add_const _ _ _
    | some m => exact divBody_fold _ _ _ _ _

/-- What `divergence_vmult_add` computes for given ranges: with variable viscosity, every cell of a range is weighted with
the viscosities of the first cell of that range. -/
theorem C84_divergence_formula (weighted : Bool) (neg : α → α) (one viscosity : α) (kernel : ℕ → (Fin nQ → α) → V)
    (mu : Option (ℕ → α)) (d : V) (rs : List (ℕ × ℕ)) :
    divLoop weighted neg one viscosity kernel mu d rs = d + (rs.map fun r => ((cells r).map fun c => kernel c fun q =>
      neg (if weighted then (match mu with
                             | none => viscosity
                             | some m => Spec.slice nQ m r.1 q) else one)).sum).sum := by
  unfold divLoop
  induction rs generalizing d with
  | nil => simp
  | cons r rs ih => rw [List.foldl_cons, ih, divRange_eq, List.map_cons, List.sum_cons, add_assoc]

theorem sum_flatMap (f : ℕ → V) (rs : List (ℕ × ℕ)) :
    ((rs.flatMap cells).map f).sum = (rs.map fun r => ((cells r).map f).sum).sum := by
  induction rs with
  | nil => simp
  | cons r rs ih => rw [List.flatMap_cons, List.map_append, List.sum_append, ih, List.map_cons, List.sum_cons]

/-- **C84 (divergence, proved part).** The divergence product does not depend on the splitting and weights every cell with
its own viscosities if it is unweighted, if the viscosity is constant, or if in each range all cells have the same table
entries (in particular if every range consists of one cell). -/
theorem C84_divergence_split_partial (weighted : Bool) (neg : α → α) (one viscosity : α)
    (kernel : ℕ → (Fin nQ → α) → V) (mu : Option (ℕ → α)) (n : ℕ) (rs : List (ℕ × ℕ)) (hs : Spec.Splits n rs) (d : V)
    (h : weighted = false ∨ mu = none ∨
      ∃ m, mu = some m ∧ ∀ r ∈ rs, ∀ c ∈ cells r, Spec.slice nQ m c = Spec.slice nQ m r.1) :
    divLoop weighted neg one viscosity kernel mu d rs = d + ∑ c ∈ range n, kernel c fun q =>
      neg (if weighted then (match mu with
                             | none => viscosity
                             | some m => Spec.slice nQ m c q) else one) := by
  rw [C84_divergence_formula, ← sum_of_perm _ (rs.flatMap cells) n hs, sum_flatMap]
  congr 1
  congr 1
  apply List.map_congr_left
  intro r hr
  congr 1
  apply List.map_congr_left
  intro c hc
  rcases h with h | h | ⟨m, h, heq⟩
  · subst h; rfl
  · subst h; rfl
  · subst h
    cases weighted with
    | false => rfl
    | true =>
      simp only [if_true]
      rw [heq r hr c hc]

end Proofs

/-! ## Examples -/

namespace Example

/-- kernel of a matrix-vector product with one quadrature point: density times cell number plus linearization entry; it
also stores new linearization data -/
def kernel : Kernel ℚ ℚ 1 := fun c l r m d => (r 0 * c + l 0 + m 0 - d 0, some fun _ => l 0 + c)

example : IgnoresUnlessVariable true kernel := fun h => by cases h

def arrays : Arrays ℚ := ⟨fun k => k + 1, fun k => 2 * k, fun k => k * k, fun _ => 3⟩

/-- splitting `0..4` into ranges in the wrong order -/
example : Spec.Splits 5 [(3, 5), (0, 1), (1, 3)] := by unfold Spec.Splits; decide +kernel

example : (opLoop true kernel (arrays, 0) [(3, 5), (0, 1), (1, 3)]).2 = (opLoop true kernel (arrays, 0) [(0, 5)]).2 ∧
    (opLoop true kernel (arrays, 0) [(0, 5)]).2 = 90 := by decide +kernel

/-- **C84 (missing part is false).** With variable viscosity the weighted divergence product, used in the projection scheme
(navier_stokes_preconditioner.cc:829), depends on the ranges: two cells with divergence 1 and viscosities 1 and 3 give
`-2` in one range and `-4` in two ranges. -/
theorem C84_divergence_depends_on_ranges :
    Spec.Splits 2 [(0, 2)] ∧ Spec.Splits 2 [(0, 1), (1, 2)] ∧
    divLoop (nQ := 1) true (fun x : ℚ => -x) 1 1 (fun _ v => v 0) (some fun k : ℕ => 1 + 2 * (k : ℚ)) 0 [(0, 2)] = -2 ∧
    divLoop (nQ := 1) true (fun x : ℚ => -x) 1 1 (fun _ v => v 0) (some fun k : ℕ => 1 + 2 * (k : ℚ)) 0 [(0, 1), (1, 2)] = -4 := by
  unfold Spec.Splits; decide +kernel

/-- hypothesis of `C84_divergence_split_partial` with variable viscosity: one cell per range -/
example : ∃ m : ℕ → ℚ, some (fun k : ℕ => 1 + 2 * (k : ℚ)) = some m ∧
    ∀ r ∈ [(0, 1), (1, 2)], ∀ c ∈ cells r, Spec.slice 1 m c = Spec.slice 1 m r.1 := by
  refine ⟨_, rfl, ?_⟩
  intro r hr c hc
  simp only [List.mem_cons, List.not_mem_nil, or_false] at hr
  rcases hr with rfl | rfl <;> simp [cells] at hc <;> subst hc <;> rfl

end Example

end Verif.Operator.CellLoop
