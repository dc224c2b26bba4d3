import Verif.Precond.Pattern
import Verif.Precond.Pressure
import Verif.Operator.PressureOps

/-!
# C91: the pressure Poisson operator given to the solvers
(source/navier_stokes_preconditioner.cc:354-445, 1087-1186, 2425-2475)

`PressurePoissonMatrix` either multiplies with the assembled matrix or evaluates the operator with the constraints of the pressure
and treats the additional constraints of the Schur complement by hand. Meaning of deal.II: `add_line` does nothing for a line that
exists already; `interpolate_boundary_values` adds empty lines for all boundary dofs without constraint; `close` replaces masters
that are constrained themselves (one round is enough here since the new lines are empty); `distribute_local_to_global` is
`Verif.Precond.Pattern.assembled`. Simplification: one process, so local and global indices coincide.
-/

namespace Verif.Precond.Wrapper

open Finset Verif.FE Verif.Precond.Pattern

variable {K : Type*} [Field K]

/-! ## Model -/

/-- `AffineConstraints::add_line(i)` -/
def addLine (C : Constr K) (i : ℕ) : Constr K :=
  ⟨fun j => if j = i then (match C.row j with | some c => some c | none => some fun _ => 0) else C.row j⟩

/-- One round of `AffineConstraints::close()` on `n` degrees of freedom: constrained masters are replaced by their masters. -/
def close (n : ℕ) (C : Constr K) : Constr K :=
  ⟨fun i => match C.row i with
    | none => none
    | some c => some fun k => if (C.row k).isSome then 0
        else c k + ∑ j ∈ range n, match C.row j with | none => 0 | some cj => c j * cj k⟩

/-- `constraints_schur_complement`, navier_stokes_preconditioner.cc:1087-1177: those of the pressure, merged with empty lines
for the dofs on open boundaries and the fixed one. -/
def schurConstraints (n : ℕ) (Cp : Constr K) (lines : List ℕ) : Constr K := close n (lines.foldl addLine Cp)

/-- `constraints_schur_complement_only`, lines 1179-1186 -/
def pins (n : ℕ) (Cs Cp : Constr K) : List ℕ :=
  pinList n (fun i => (Cs.row i).isSome) (fun i => (Cp.row i).isSome)

/-- The loops of `assemble_matrices` that set diagonal entries of constrained dofs to one: lines 2425-2451 for the velocity (with
`except = []`), lines 2453-2475 for the pressure, where dofs found in `constraints_schur_complement_only` are left out (the list is
sorted, C19, so the binary search decides membership). -/
def fixDiagonal (n : ℕ) (C : Constr K) (except : List ℕ) (A : ℕ → ℕ → K) : ℕ → ℕ → K :=
  (List.range n).foldl (fun M i => if (C.row i).isSome && !except.contains i
    then fun I J => if I = i ∧ J = i then 1 else M I J else M) A

/-- `matrix_p` after `assemble_matrices`. -/
def matrixP (n : ℕ) (Cp : Constr K) (lines : List ℕ) (bs : List (Block K)) : ℕ → ℕ → K :=
  let Cs := schurConstraints n Cp lines
  fixDiagonal n Cs (pins n Cs Cp) (assembled Cs n bs)

/-- `sparse_matrix.vmult` -/
def matVmult (n : ℕ) (M : ℕ → ℕ → K) (x : ℕ → K) (k : ℕ) : K := ∑ j ∈ range n, M k j * x j

/-- A matrix-free product with the constraints of the pressure: `cell_loop` over the cell matrices, identity on constrained
entries (`pressure_poisson_vmult`, navier_stokes_matrix.cc:386-417; that its cell loop is of this form is
`C91_poisson_wrapper_equals_assembled`). -/
def cellVmult (n : ℕ) (Cp : Constr K) (bs : List (Block K)) (x : ℕ → K) (k : ℕ) : K :=
  if (Cp.row k).isSome then x k
  else Cp.scatter n (fun I => ∑ J ∈ range n, raw bs I J * Cp.dist n x J) k

/-- `PressurePoissonMatrix` constructed with the matrix `M` (`tri_mat`) and applied to `src`, lines 357-415; `A` is
`pressure_poisson_vmult`. -/
def wrapperVmult (n : ℕ) (useMatrix : Bool) (A : (ℕ → K) → ℕ → K) (M : ℕ → ℕ → K) (pinned : List ℕ) (src : ℕ → K) : ℕ → K :=
  if useMatrix then matVmult n M src
  else (Verif.Precond.poissonVmult A pinned (pinned.map fun i => M i i) src).2

/-! ## Lemmas -/

theorem addLines_row (l : List ℕ) (C : Constr K) (i : ℕ) :
    (l.foldl addLine C).row i = if i ∈ l then (match C.row i with | some c => some c | none => some fun _ => 0)
      else C.row i := by
  induction l generalizing C with
  | nil => simp
  | cons a l ih =>
    rw [List.foldl_cons, ih]
    by_cases h1 : i = a
    · subst h1
      cases h : C.row i <;> simp [addLine, h]
    · have : (addLine C a).row i = C.row i := by simp [addLine, h1]
      rw [this]
      simp [h1]

theorem addLines_isSome (l : List ℕ) (C : Constr K) (i : ℕ) :
    ((l.foldl addLine C).row i).isSome = (decide (i ∈ l) || (C.row i).isSome) := by
  rw [addLines_row]
  by_cases h : i ∈ l <;> cases hr : C.row i <;> simp [h]

/-- Rows of the Schur complement constraints: empty for the new lines, those of the pressure without the entries of new lines
otherwise. -/
theorem schur_row (n : ℕ) (Cp : Constr K) (hC : Cp.Closed) (l : List ℕ) (i : ℕ) :
    (schurConstraints n Cp l).row i = match Cp.row i with
      | some c => some fun k => if k ∈ l then 0 else c k
      | none => if i ∈ l then some fun _ => 0 else none := by
  have key : ∀ (i : ℕ) (c : ℕ → K), Cp.row i = some c → ∀ k,
      (∑ j ∈ range n, match (l.foldl addLine Cp).row j with | none => 0 | some cj => c j * cj k) = 0 := by
    intro i c hi k
    refine sum_eq_zero fun j _ => ?_
    rw [addLines_row]
    by_cases hj : j ∈ l
    · cases hr : Cp.row j with
      | none => simp [hj]
      | some cj => simp [hj, hC i c hi j (by rw [hr]; rfl)]
    · cases hr : Cp.row j with
      | none => simp [hj]
      | some cj => simp [hj, hC i c hi j (by rw [hr]; rfl)]
  unfold schurConstraints close
  dsimp only
  rw [addLines_row]
  cases hr : Cp.row i with
  | none =>
    by_cases hi : i ∈ l
    · simp only [hi, if_true]
      congr 1
      funext k
      split_ifs
      · rfl
      · rw [zero_add]
        refine sum_eq_zero fun j _ => ?_
        cases (l.foldl addLine Cp).row j <;> simp
    · simp [hi]
  | some c =>
    have : (if i ∈ l then (match some c with | some c => some c | none => some fun _ => (0 : K)) else some c) = some c := by
      split_ifs <;> rfl
    simp only [ite_self]
    congr 1
    funext k
    rw [key i c hr k, add_zero, addLines_isSome]
    by_cases hk : k ∈ l
    · simp [hk]
    · by_cases hs : (Cp.row k).isSome
      · simp [hk, hs, hC i c hr k hs]
      · simp [hk, hs]

theorem schur_isSome (n : ℕ) (Cp : Constr K) (hC : Cp.Closed) (l : List ℕ) (i : ℕ) :
    ((schurConstraints n Cp l).row i).isSome = (decide (i ∈ l) || (Cp.row i).isSome) := by
  rw [schur_row n Cp hC]
  cases Cp.row i with
  | some c => simp
  | none => by_cases h : i ∈ l <;> simp [h]

theorem schur_closed (n : ℕ) (Cp : Constr K) (hC : Cp.Closed) (l : List ℕ) : (schurConstraints n Cp l).Closed := by
  intro i c hi k hk
  rw [schur_isSome n Cp hC] at hk
  rw [schur_row n Cp hC] at hi
  cases hr : Cp.row i with
  | some c' =>
    rw [hr] at hi
    simp only [Option.some.injEq] at hi
    subst hi
    by_cases hkl : k ∈ l
    · simp [hkl]
    · have hs : (Cp.row k).isSome := by simpa [hkl] using hk
      simp [hkl, hC i c' hr k hs]
  | none =>
    rw [hr] at hi
    dsimp only at hi
    split_ifs at hi with h
    simp only [Option.some.injEq] at hi
    subst hi; rfl

theorem mem_pins (n : ℕ) (Cp : Constr K) (hC : Cp.Closed) (l : List ℕ) (i : ℕ) :
    i ∈ pins n (schurConstraints n Cp l) Cp ↔ i < n ∧ i ∈ l ∧ (Cp.row i).isSome = false := by
  unfold pins
  rw [(C19_pin_list n _ _).2.2, schur_isSome n Cp hC]
  by_cases h : (Cp.row i).isSome <;> simp [h]

/-- Entries after the loop. -/
theorem fixDiagonal_eq (n : ℕ) (C : Constr K) (ex : List ℕ) (A : ℕ → ℕ → K) (I J : ℕ) :
    fixDiagonal n C ex A I J =
      if I = J ∧ I < n ∧ (C.row I).isSome = true ∧ I ∉ ex then 1 else A I J := by
  unfold fixDiagonal
  induction n with
  | zero => simp
  | succ n ih =>
    rw [List.range_succ, List.foldl_append]
    simp only [List.foldl_cons, List.foldl_nil]
    by_cases hc : ((C.row n).isSome && !ex.contains n) = true
    · rw [if_pos hc]
      simp only [Bool.and_eq_true, Bool.not_eq_true', List.contains_eq_mem, decide_eq_false_iff_not] at hc
      by_cases h : I = n ∧ J = n
      · obtain ⟨rfl, rfl⟩ := h
        simp [hc]
      · rw [if_neg h, ih]
        by_cases hIJ : I = J
        · subst hIJ
          have : I ≠ n := fun e => h ⟨e, e⟩
          have h4 : I < n + 1 ↔ I < n := by omega
          simp only [h4]
        · simp [hIJ]
    · rw [if_neg hc, ih]
      by_cases hn : I = n
      · subst hn
        have : ¬ ((C.row I).isSome = true ∧ I ∉ ex) := by simpa using hc
        have h2 : ¬ (I = J ∧ I < I ∧ (C.row I).isSome = true ∧ I ∉ ex) := fun h => this h.2.2
        have h3 : ¬ (I = J ∧ I < I + 1 ∧ (C.row I).isSome = true ∧ I ∉ ex) := fun h => this h.2.2
        rw [if_neg h2, if_neg h3]
      · have h4 : I < n + 1 ↔ I < n := by omega
        simp only [h4]

/-- `scatter` is linear. -/
theorem scatter_sum (C : Constr K) (n m : ℕ) (g : ℕ → ℕ → K) (x : ℕ → K) (k : ℕ) :
    ∑ J ∈ range m, C.scatter n (fun I => g I J) k * x J = C.scatter n (fun I => ∑ J ∈ range m, g I J * x J) k := by
  unfold Constr.scatter
  split_ifs
  · simp
  · simp only [add_mul, sum_add_distrib, sum_mul]
    congr 1
    rw [sum_comm]
    refine sum_congr rfl fun i _ => ?_
    cases C.row i with
    | none => simp
    | some c => simp only [mul_sum]; exact sum_congr rfl fun J _ => by ring

/-- Product with an assembled matrix. -/
theorem matVmult_assembled (C : Constr K) (hC : C.Closed) (n : ℕ) (bs : List (Block K)) (x : ℕ → K) {k : ℕ} (hk : k < n) :
    matVmult n (assembled C n bs) x k =
      (if (C.row k).isSome then conDiag bs k * x k else 0) +
      C.scatter n (fun I => ∑ J ∈ range n, raw bs I J * C.dist n x J) k := by
  unfold matVmult assembled
  simp only [add_mul, sum_add_distrib]
  congr 1
  · by_cases h : (C.row k).isSome
    · simp only [h, and_true, if_true, ite_mul, zero_mul]
      rw [sum_ite_eq]
      simp [hk]
    · simp [h]
  · rw [scatter_sum]
    congr 1
    funext I
    have := C.pairing hC n x (fun J' => raw bs I J')
    simp only [mul_comm (x _)] at this
    rw [this]
    exact sum_congr rfl fun J _ => mul_comm _ _

/-- Resolving with the Schur complement constraints is resolving with those of the pressure after zeroing the new lines. -/
theorem dist_schur (n : ℕ) (Cp : Constr K) (hC : Cp.Closed) (l : List ℕ) (x : ℕ → K) (i : ℕ) :
    (schurConstraints n Cp l).dist n x i =
      Cp.dist n (fun j => if j ∈ l ∧ (Cp.row j).isSome = false then 0 else x j) i := by
  unfold Constr.dist
  rw [schur_row n Cp hC]
  cases hr : Cp.row i with
  | none => by_cases hi : i ∈ l <;> simp [hi, hr]
  | some c =>
    simp only []
    refine sum_congr rfl fun k _ => ?_
    by_cases hk : k ∈ l
    · cases hs : (Cp.row k).isSome
      · simp [hk]
      · simp [hC i c hr k hs]
    · simp [hk]

theorem scatter_schur (n : ℕ) (Cp : Constr K) (hC : Cp.Closed) (l : List ℕ) (L : ℕ → K) {k : ℕ}
    (hk : ((schurConstraints n Cp l).row k).isSome = false) :
    (schurConstraints n Cp l).scatter n L k = Cp.scatter n L k := by
  have hk' := hk
  rw [schur_isSome n Cp hC, Bool.or_eq_false_iff, decide_eq_false_iff_not] at hk'
  unfold Constr.scatter
  rw [if_neg (by rw [hk]; simp), if_neg (by rw [hk'.2]; simp)]
  congr 1
  refine sum_congr rfl fun i _ => ?_
  rw [schur_row n Cp hC]
  cases hr : Cp.row i with
  | none => by_cases hi : i ∈ l <;> simp [hi]
  | some c => simp [hk'.1]

/-! ## Specification -/

/-- Row and column `k` of the matrix are those of the identity. -/
def Spec.IdentityAt (n : ℕ) (M : ℕ → ℕ → K) (k : ℕ) : Prop :=
  M k k = 1 ∧ ∀ j < n, j ≠ k → M k j = 0 ∧ M j k = 0

/-! ## C91 -/

theorem assembled_off (C : Constr K) (n : ℕ) (bs : List (Block K)) {k j : ℕ} (hk : (C.row k).isSome) (hjk : j ≠ k) :
    assembled C n bs k j = 0 ∧ assembled C n bs j k = 0 := by
  unfold assembled
  refine ⟨?_, ?_⟩
  · rw [if_neg (fun h => hjk h.1.symm), C.scatter_con _ _ hk, add_zero]
  · rw [if_neg (fun h => hjk h.1), zero_add]
    have : (fun I' => C.scatter n (fun J' => raw bs I' J') k) = fun _ => 0 := funext fun I' => C.scatter_con _ _ hk
    rw [this]
    unfold Constr.scatter
    split_ifs
    · rfl
    · rw [zero_add]
      refine sum_eq_zero fun i _ => ?_
      cases C.row i <;> simp

/-- **C91 (constrained rows).** For all meshes, constraints and cell matrices, after `assemble_matrices` row and column of every
constrained velocity dof are those of the identity (`except = []`), as in the matrix-free product. For the pressure the same holds
for all dofs constrained in the pressure space. -/
theorem C91_constrained_rows_identity (n : ℕ) (C : Constr K) (bs : List (Block K)) :
    (∀ k < n, (C.row k).isSome → Spec.IdentityAt n (fixDiagonal n C [] (assembled C n bs)) k) ∧
    (C.Closed → ∀ l, ∀ k < n, (C.row k).isSome → Spec.IdentityAt n (matrixP n C l bs) k) := by
  refine ⟨fun k hk hc => ⟨?_, fun j _ hjk => ?_⟩, fun hC l k hk hc => ⟨?_, fun j _ hjk => ?_⟩⟩
  · rw [fixDiagonal_eq, if_pos ⟨rfl, hk, hc, List.not_mem_nil⟩]
  · rw [fixDiagonal_eq, fixDiagonal_eq, if_neg (fun h => hjk h.1.symm), if_neg (fun h => hjk h.1)]
    exact assembled_off C n bs hc hjk
  · have hs : ((schurConstraints n C l).row k).isSome = true := by rw [schur_isSome n C hC, hc, Bool.or_true]
    have hp : k ∉ pins n (schurConstraints n C l) C := by rw [mem_pins n C hC]; simp [hc]
    unfold matrixP
    rw [fixDiagonal_eq, if_pos ⟨rfl, hk, hs, hp⟩]
  · have hs : ((schurConstraints n C l).row k).isSome = true := by rw [schur_isSome n C hC, hc, Bool.or_true]
    unfold matrixP
    rw [fixDiagonal_eq, fixDiagonal_eq, if_neg (fun h => hjk h.1.symm), if_neg (fun h => hjk h.1)]
    exact assembled_off _ n bs hs hjk

/-- **C91 (pinned rows).** Row and column of a dof that is only constrained in the Schur complement have no entry off the diagonal,
and the diagonal keeps the magnitude that the cell matrices give it. -/
theorem C91_pinned_rows (n : ℕ) (Cp : Constr K) (hC : Cp.Closed) (l : List ℕ) (bs : List (Block K)) {k : ℕ} (hk : k < n)
    (hkl : k ∈ l) (hf : (Cp.row k).isSome = false) :
    matrixP n Cp l bs k k = (bs.map fun b => ∑ i ∈ range b.n, if b.idx i = k then b.diag i else 0).sum ∧
    ∀ j < n, j ≠ k → matrixP n Cp l bs k j = 0 ∧ matrixP n Cp l bs j k = 0 := by
  have hpin : k ∈ pins n (schurConstraints n Cp l) Cp := (mem_pins _ Cp hC l k).2 ⟨hk, hkl, hf⟩
  have hs : ((schurConstraints n Cp l).row k).isSome = true := by rw [schur_isSome _ Cp hC]; simp [hkl]
  unfold matrixP
  refine ⟨?_, fun j _ hj => ?_⟩
  · rw [fixDiagonal_eq, if_neg (fun h => h.2.2.2 hpin)]
    unfold assembled
    rw [if_pos ⟨rfl, hs⟩, Constr.scatter_con _ _ _ hs, add_zero]
    rfl
  · rw [fixDiagonal_eq, fixDiagonal_eq, if_neg (fun h => hj h.1.symm), if_neg (fun h => hj h.1)]
    exact assembled_off _ n bs hs hj

theorem wrapper_entries (n : ℕ) (A : (ℕ → K) → ℕ → K) (M : ℕ → ℕ → K) (Cp : Constr K) (hC : Cp.Closed) (l : List ℕ)
    (src : ℕ → K) {k : ℕ} (hk : k < n) :
    wrapperVmult n false A M (pins n (schurConstraints n Cp l) Cp) src k =
      if k ∈ l ∧ (Cp.row k).isSome = false then M k k * src k
      else A (fun j => if j ∈ pins n (schurConstraints n Cp l) Cp then 0 else src j) k := by
  obtain ⟨-, hnd, -⟩ := C19_pin_list n (fun i => ((schurConstraints n Cp l).row i).isSome) (fun i => (Cp.row i).isSome)
  obtain ⟨-, h2, h3⟩ := C19_poisson_vmult A (pins n (schurConstraints n Cp l) Cp) hnd
    ((pins n (schurConstraints n Cp l) Cp).map fun i => M i i) (by simp) src
  unfold wrapperVmult
  rw [if_neg (by simp)]
  by_cases hp : k ∈ pins n (schurConstraints n Cp l) Cp
  · have hm := (mem_pins n Cp hC l k).1 hp
    rw [if_pos hm.2]
    obtain ⟨i, hi, rfl⟩ := List.getElem_of_mem hp
    have := h2 i hi (by simpa using hi)
    rw [this, List.getElem_map]
  · have hm : ¬ (k ∈ l ∧ (Cp.row k).isSome = false) := fun h => hp ((mem_pins n Cp hC l k).2 ⟨hk, h⟩)
    rw [if_neg hm, h3 k hp]

/-- **C91 (the two branches agree).** For every mesh, every set of cell matrices, closed constraints of the pressure (hanging
nodes, periodicity), every list of dofs on open boundaries and fixed dofs (also if some of them are constrained already), and
every vector, the product of `PressurePoissonMatrix` is the same with the assembled matrix as matrix-free. -/
theorem C91_wrapper_equals_matrix (n : ℕ) (Cp : Constr K) (hC : Cp.Closed) (l : List ℕ)
    (bs : List (Block K)) (src : ℕ → K) {k : ℕ} (hk : k < n) :
    let pinned := pins n (schurConstraints n Cp l) Cp
    wrapperVmult n true (cellVmult n Cp bs) (matrixP n Cp l bs) pinned src k =
      wrapperVmult n false (cellVmult n Cp bs) (matrixP n Cp l bs) pinned src k := by
  intro pinned
  set Cs := schurConstraints n Cp l with hCs
  have hcl : Cs.Closed := schur_closed n Cp hC l
  rw [wrapper_entries n _ _ Cp hC l src hk]
  change matVmult n (matrixP n Cp l bs) src k = _
  have hdiag : Cs.row k ≠ none → matVmult n (matrixP n Cp l bs) src k = matrixP n Cp l bs k k * src k := by
    intro h
    have hs : (Cs.row k).isSome := by cases h' : Cs.row k with | none => exact absurd h' h | some c => rfl
    unfold matVmult
    rw [sum_eq_single_of_mem k (mem_range.2 hk)]
    intro j _ hj
    have : matrixP n Cp l bs k j = 0 := by
      unfold matrixP
      rw [fixDiagonal_eq, if_neg (fun h => hj h.1.symm)]
      exact (assembled_off _ n bs hs hj).1
    rw [this, zero_mul]
  by_cases hp : k ∈ l ∧ (Cp.row k).isSome = false
  · rw [if_pos hp, hdiag]
    intro h
    have := schur_isSome n Cp hC l k
    rw [← hCs, h] at this
    simp [hp.1] at this
  · rw [if_neg hp]
    by_cases hcp : (Cp.row k).isSome
    · have hs : (Cs.row k).isSome = true := by rw [schur_isSome n Cp hC, hcp, Bool.or_true]
      have hpin : k ∉ pins n Cs Cp := by rw [mem_pins n Cp hC]; simp [hcp]
      rw [hdiag (by intro h; rw [h] at hs; cases hs)]
      unfold cellVmult
      rw [if_pos hcp]
      dsimp only
      rw [if_neg hpin]
      unfold matrixP
      rw [fixDiagonal_eq, if_pos ⟨rfl, hk, hs, hpin⟩, one_mul]
    · have hkl : k ∉ l := fun h => hp ⟨h, by simpa using hcp⟩
      have hs : (Cs.row k).isSome = false := by rw [schur_isSome n Cp hC]; simp [hkl, hcp]
      have e1 : matVmult n (matrixP n Cp l bs) src k = matVmult n (assembled Cs n bs) src k := by
        unfold matVmult
        refine sum_congr rfl fun j _ => ?_
        unfold matrixP
        rw [fixDiagonal_eq, if_neg (fun h => by rw [hs] at h; exact absurd h.2.2.1 (by simp))]
      rw [e1, matVmult_assembled Cs hcl n bs src hk, if_neg (by rw [hs]; simp), zero_add, scatter_schur n Cp hC l _ hs]
      unfold cellVmult
      rw [if_neg hcp]
      refine Cp.scatter_congr n hk fun I _ => sum_congr rfl fun J hJ => ?_
      rw [dist_schur n Cp hC]
      congr 1
      unfold Constr.dist
      cases hr : Cp.row J with
      | none =>
        simp only []
        have : (J ∈ pins n Cs Cp) ↔ (J ∈ l ∧ (Cp.row J).isSome = false) := by
          rw [mem_pins n Cp hC]; simp [mem_range.1 hJ]
        by_cases hJl : J ∈ pins n Cs Cp
        · rw [if_pos hJl, if_pos (this.1 hJl)]
        · rw [if_neg hJl, if_neg (fun h => hJl (this.2 h))]
      | some c =>
        simp only []
        refine sum_congr rfl fun j hj => ?_
        have : (j ∈ pins n Cs Cp) ↔ (j ∈ l ∧ (Cp.row j).isSome = false) := by
          rw [mem_pins n Cp hC]; simp [mem_range.1 hj]
        by_cases hJl : j ∈ pins n Cs Cp
        · rw [if_pos hJl, if_pos (this.1 hJl)]
        · rw [if_neg hJl, if_neg (fun h => hJl (this.2 h))]

/-! ## The Poisson operator -/

section Poisson

open Verif.Operator

open Verif.Operator.PressureOps (Conf)

/-- Cell matrices distributed into `matrix_p` with the original elements, navier_stokes_preconditioner.cc:2175-2355: cell `c`
has the dofs `dof c 0, …, dof c (dpc-1)`. `distribute_local_to_global` puts the absolute value of the local diagonal on
constrained rows. -/
noncomputable def poissonBlocks (f : Conf ℝ) (Su : Space ℝ) (dpc : ℕ) (dof : ℕ → ℕ → ℕ) : List (Block ℝ) :=
  (List.range Su.nCell).map fun c =>
    let a := fun i j => ∑ q ∈ range Su.nQ, Verif.Precond.laplaceEntry Su.dim
      (PressureOps.assemblyPoint f c q) (Su.jxw c q)
      (fun d => Su.grad (dof c i) c q d) (fun d => Su.grad (dof c j) c q d)
    ⟨dpc, dof c, a, fun i => |a i i|⟩

/-- The dofs of a cell are different, and functions of other dofs vanish on the cell. -/
def Spec.CellDofs (S : Space ℝ) (dpc : ℕ) (dof : ℕ → ℕ → ℕ) : Prop :=
  ∀ c < S.nCell, (∀ i < dpc, ∀ j < dpc, dof c i = dof c j → i = j) ∧
    ∀ I, (∀ i < dpc, dof c i ≠ I) → ∀ q d, S.grad I c q d = 0

/-- Functions whose gradient vanishes in all quadrature points are constant: connected mesh, enough points. -/
def Spec.OnlyConstants (S : Space ℝ) : Prop :=
  ∀ y : ℕ → ℝ, (∀ c < S.nCell, ∀ q < S.nQ, ∀ d < S.dim, S.gradient y c q d = 0) → ∀ i < S.nDof, ∀ j < S.nDof, y i = y j

theorem listRange_sum (n : ℕ) (g : ℕ → ℝ) : ((List.range n).map g).sum = ∑ i ∈ range n, g i := by
  induction n with
  | zero => simp
  | succ n ih => simp [List.range_succ, sum_range_succ, ih]

theorem raw_poisson (f : Conf ℝ) (Su : Space ℝ) (dpc : ℕ) (dof : ℕ → ℕ → ℕ) (hd : Spec.CellDofs Su dpc dof) (I J : ℕ) :
    raw (poissonBlocks f Su dpc dof) I J =
      ∑ c ∈ range Su.nCell, ∑ q ∈ range Su.nQ, Verif.Precond.laplaceEntry Su.dim
        (PressureOps.assemblyPoint f c q) (Su.jxw c q)
        (fun d => Su.grad I c q d) (fun d => Su.grad J c q d) := by
  unfold raw poissonBlocks
  rw [List.map_map, listRange_sum]
  refine sum_congr rfl fun c hc => ?_
  obtain ⟨hinj, hsupp⟩ := hd c (mem_range.1 hc)
  dsimp only [Function.comp]
  by_cases hI : ∃ i < dpc, dof c i = I
  · by_cases hJ : ∃ j < dpc, dof c j = J
    · obtain ⟨i, hi, rfl⟩ := hI
      obtain ⟨j, hj, rfl⟩ := hJ
      rw [sum_eq_single_of_mem i (mem_range.2 hi), sum_eq_single_of_mem j (mem_range.2 hj)]
      · simp
      · intro j' hj' hne
        rw [if_neg]
        exact fun h => hne (hinj j' (mem_range.1 hj') j hj h.2)
      · intro i' hi' hne
        refine sum_eq_zero fun j' _ => ?_
        rw [if_neg]
        exact fun h => hne (hinj i' (mem_range.1 hi') i hi h.1)
    · have h0 : ∀ q d, Su.grad J c q d = 0 := hsupp J fun i hi h => hJ ⟨i, hi, h⟩
      rw [sum_eq_zero, sum_eq_zero]
      · intro q _
        unfold Verif.Precond.laplaceEntry
        exact sum_eq_zero fun d _ => by dsimp only; rw [h0 q d]; ring
      · intro i' _
        refine sum_eq_zero fun j' hj' => ?_
        rw [if_neg]
        exact fun h => hJ ⟨j', mem_range.1 hj', h.2⟩
  · have h0 : ∀ q d, Su.grad I c q d = 0 := hsupp I fun i hi h => hI ⟨i, hi, h⟩
    rw [sum_eq_zero, sum_eq_zero]
    · intro q _
      unfold Verif.Precond.laplaceEntry
      exact sum_eq_zero fun d _ => by dsimp only; rw [h0 q d]; ring
    · intro i' hi'
      refine sum_eq_zero fun j' _ => ?_
      rw [if_neg]
      exact fun h => hI ⟨i', mem_range.1 hi', h.1⟩

theorem test_linear (S : Space ℝ) (a : ℕ → ℕ → ℝ) (x : ℕ → ℝ) (I : ℕ) :
    S.test (fun _ _ => 0) (fun c q d => S.gradient x c q d * a c q) I =
      ∑ J ∈ range S.nDof, S.test (fun _ _ => 0)
        (fun c q d => S.gradient (PressureOps.Spec.unit J) c q d * a c q) I * x J := by
  have e : ∀ J, S.test (fun _ _ => 0)
        (fun c q d => S.gradient (PressureOps.Spec.unit J) c q d * a c q) I * x J =
      S.integral fun c q => x J * (0 * S.val I c q + ∑ d ∈ range S.dim,
        S.gradient (PressureOps.Spec.unit J) c q d * a c q * S.grad I c q d) := by
    intro J
    rw [S.integral_smul, mul_comm]
    rfl
  simp only [e]
  rw [← S.integral_sum]
  unfold Space.test
  refine S.integral_congr fun c _ q _ => ?_
  simp only [zero_mul, zero_add, mul_sum]
  rw [sum_comm]
  refine sum_congr rfl fun d _ => ?_
  rw [Space.gradient, sum_mul, sum_mul]
  refine sum_congr rfl fun J hJ => ?_
  rw [PressureOps.gradient_unit S (mem_range.1 hJ)]
  ring

/-- `pressure_poisson_vmult` is a product with the cell matrices of the assembly. -/
theorem poisson_cell (f : Conf ℝ) (nQ0 : ℕ) {Su Sp : Space ℝ} (hm : PressureOps.Spec.SameMesh Su Sp)
    (hJ : ∀ c < Su.nCell, ∀ q < Su.nQ, 0 ≤ Su.jxw c q) (hw : 0 < f.weight)
    (hr : 0 < PressureOps.Spec.smallDensity f)
    (hrho : ∀ rho, f.rho = some rho → ∀ c q, 0 < rho c q)
    (hex : (f.stationary = false ∧ f.projection = false ∧ f.rho.isSome) ∨
      PressureOps.Spec.GradExact Su Sp)
    (dpc : ℕ) (dof : ℕ → ℕ → ℕ) (hd : Spec.CellDofs Su dpc dof) (Cp : Constr ℝ) (x : ℕ → ℝ) {k : ℕ} (hk : k < Sp.nDof) :
    PressureOps.poissonVmult f nQ0 Su Sp Cp x k =
      cellVmult Sp.nDof Cp (poissonBlocks f Su dpc dof) x k := by
  have hn : (PressureOps.Spec.poissonSpace f Su Sp).nDof = Sp.nDof := by
    unfold PressureOps.Spec.poissonSpace; split_ifs
    · exact hm.1
    · rfl
  have hloc : ∀ I < Sp.nDof, ∀ J < Sp.nDof,
      PressureOps.localPoisson f nQ0 Su Sp (PressureOps.Spec.unit J) I =
        raw (poissonBlocks f Su dpc dof) I J := by
    intro I hI J hJ'
    rw [raw_poisson f Su dpc dof hd,
      ← PressureOps.C87_poisson_agrees_with_assembly f nQ0 hm hJ hw hr hrho hex hI hJ']
    unfold PressureOps.poissonVmult PressureOps.finish
      PressureOps.noConstr Constr.scatter Constr.dist
    simp
  unfold PressureOps.poissonVmult PressureOps.finish cellVmult
  split_ifs
  · rfl
  · refine Cp.scatter_congr _ hk fun I hI => ?_
    rw [PressureOps.localPoisson_eq, test_linear, hn]
    refine sum_congr rfl fun J hJ' => ?_
    rw [← hloc I hI J (mem_range.1 hJ'), PressureOps.localPoisson_eq]

/-- **C91 (assembled and matrix-free pressure Poisson operator).** For every configuration, mesh with hanging nodes, periodic,
open and fixed pressure dofs: `PressurePoissonMatrix` built on `pressure_poisson_vmult` gives the same product as the matrix
assembled with the original elements with the current coefficients, if the coefficients are positive, and the quadratures are
exact when they differ. -/
theorem C91_poisson_wrapper_equals_assembled (f : Conf ℝ) (nQ0 : ℕ) {Su Sp : Space ℝ}
    (hm : PressureOps.Spec.SameMesh Su Sp)
    (hJ : ∀ c < Su.nCell, ∀ q < Su.nQ, 0 ≤ Su.jxw c q) (hw : 0 < f.weight)
    (hr : 0 < PressureOps.Spec.smallDensity f)
    (hrho : ∀ rho, f.rho = some rho → ∀ c q, 0 < rho c q)
    (hex : (f.stationary = false ∧ f.projection = false ∧ f.rho.isSome) ∨
      PressureOps.Spec.GradExact Su Sp)
    (dpc : ℕ) (dof : ℕ → ℕ → ℕ) (hd : Spec.CellDofs Su dpc dof) (Cp : Constr ℝ) (hC : Cp.Closed) (l : List ℕ)
    (src : ℕ → ℝ) {k : ℕ} (hk : k < Sp.nDof) :
    let n := Sp.nDof
    let M := matrixP n Cp l (poissonBlocks f Su dpc dof)
    wrapperVmult n false (PressureOps.poissonVmult f nQ0 Su Sp Cp) M
        (pins n (schurConstraints n Cp l) Cp) src k = ∑ j ∈ range n, M k j * src j := by
  intro n M
  have h := C91_wrapper_equals_matrix n Cp hC l (poissonBlocks f Su dpc dof) src hk
  dsimp only at h
  rw [wrapper_entries n _ _ Cp hC l src hk]
  rw [wrapper_entries n _ _ Cp hC l src hk] at h
  rw [poisson_cell f nQ0 hm hJ hw hr hrho hex dpc dof hd Cp _ hk]
  exact h.symm

/-- Weak form of the wrapper. -/
theorem wrapper_form (f : Conf ℝ) (nQ0 : ℕ) {Su Sp : Space ℝ} (hm : PressureOps.Spec.SameMesh Su Sp)
    (Cp : Constr ℝ) (hC : Cp.Closed) (l : List ℕ) (hl : ∀ i ∈ l, i < Sp.nDof) (M : ℕ → ℕ → ℝ) (x v : ℕ → ℝ) :
    PressureOps.Spec.dot Sp.nDof (wrapperVmult Sp.nDof false (PressureOps.poissonVmult f nQ0 Su Sp Cp) M
        (pins Sp.nDof (schurConstraints Sp.nDof Cp l) Cp) x) v =
      PressureOps.Spec.gradForm (PressureOps.Spec.poissonSpace f Su Sp)
        (PressureOps.Spec.poissonFactor f)
        ((schurConstraints Sp.nDof Cp l).dist Sp.nDof x) ((schurConstraints Sp.nDof Cp l).dist Sp.nDof v) +
      ∑ k ∈ range Sp.nDof, (if (Cp.row k).isSome then v k * x k else if k ∈ l then M k k * (v k * x k) else 0) := by
  have hpin : ∀ i, (i ∈ pins Sp.nDof (schurConstraints Sp.nDof Cp l) Cp) ↔ (i ∈ l ∧ (Cp.row i).isSome = false) := by
    intro i
    rw [mem_pins Sp.nDof Cp hC]
    exact ⟨fun h => h.2, fun h => ⟨hl i h.1, h⟩⟩
  set z : (ℕ → ℝ) → ℕ → ℝ := fun y j => if j ∈ l ∧ (Cp.row j).isSome = false then 0 else y j with hz
  have hd : ∀ y, (schurConstraints Sp.nDof Cp l).dist Sp.nDof y = Cp.dist Sp.nDof (z y) := fun y =>
    funext fun i => dist_schur Sp.nDof Cp hC l y i
  have h87 := PressureOps.C87_poisson_form f nQ0 hm Cp hC (z x) (z v)
  rw [hd, hd]
  have e1 : PressureOps.Spec.dot Sp.nDof (wrapperVmult Sp.nDof false (PressureOps.poissonVmult f nQ0 Su Sp Cp) M
        (pins Sp.nDof (schurConstraints Sp.nDof Cp l) Cp) x) v =
      PressureOps.Spec.dot Sp.nDof (PressureOps.poissonVmult f nQ0 Su Sp Cp (z x)) (z v) +
      ∑ k ∈ range Sp.nDof, (if k ∈ l ∧ (Cp.row k).isSome = false then M k k * (v k * x k) else 0) := by
    unfold PressureOps.Spec.dot
    rw [← sum_add_distrib]
    refine sum_congr rfl fun k hk => ?_
    rw [wrapper_entries _ _ _ Cp hC l x (mem_range.1 hk)]
    have hzx : (fun j => if j ∈ pins Sp.nDof (schurConstraints Sp.nDof Cp l) Cp then 0 else x j) = z x := by
      funext j
      by_cases h : j ∈ pins Sp.nDof (schurConstraints Sp.nDof Cp l) Cp
      · rw [if_pos h, hz]; dsimp only; rw [if_pos ((hpin j).1 h)]
      · rw [if_neg h, hz]; dsimp only; rw [if_neg (fun h' => h ((hpin j).2 h'))]
    rw [hzx]
    by_cases h : k ∈ l ∧ (Cp.row k).isSome = false
    · rw [if_pos h, if_pos h]
      have : z v k = 0 := by rw [hz]; dsimp only; rw [if_pos h]
      rw [this]; ring
    · rw [if_neg h, if_neg h, add_zero]
      have : z v k = v k := by rw [hz]; dsimp only; rw [if_neg h]
      rw [this]
  rw [e1, h87, add_assoc]
  congr 1
  unfold PressureOps.Spec.conDot
  rw [← sum_add_distrib]
  refine sum_congr rfl fun k _ => ?_
  cases hs : (Cp.row k).isSome
  · by_cases hkl : k ∈ l <;> simp [hkl]
  · have h1 : z x k = x k := by rw [hz]; simp [hs]
    have h2 : z v k = v k := by rw [hz]; simp [hs]
    rw [h1, h2]; simp

/-- Diagonal of the pinned rows of the assembled matrix. -/
theorem pin_diagonal_pos (f : Conf ℝ) (nQ0 : ℕ) {Su Sp : Space ℝ} (hm : PressureOps.Spec.SameMesh Su Sp)
    (hJ : ∀ c < Su.nCell, ∀ q < Su.nQ, 0 ≤ Su.jxw c q)
    (hJS : ∀ c < (PressureOps.Spec.poissonSpace f Su Sp).nCell,
      ∀ q < (PressureOps.Spec.poissonSpace f Su Sp).nQ,
        0 < (PressureOps.Spec.poissonSpace f Su Sp).jxw c q)
    (hw : 0 < f.weight) (hr : 0 < PressureOps.Spec.smallDensity f)
    (hrho : ∀ rho, f.rho = some rho → ∀ c q, 0 < rho c q)
    (hex : (f.stationary = false ∧ f.projection = false ∧ f.rho.isSome) ∨
      PressureOps.Spec.GradExact Su Sp)
    (dpc : ℕ) (dof : ℕ → ℕ → ℕ) (hd : Spec.CellDofs Su dpc dof)
    (hconn : Spec.OnlyConstants (PressureOps.Spec.poissonSpace f Su Sp)) (h2 : 2 ≤ Sp.nDof)
    (Cp : Constr ℝ) (hC : Cp.Closed) (l : List ℕ) {k : ℕ} (hk : k < Sp.nDof) (hkl : k ∈ l)
    (hf : (Cp.row k).isSome = false) :
    0 < matrixP Sp.nDof Cp l (poissonBlocks f Su dpc dof) k k := by
  have hn : (PressureOps.Spec.poissonSpace f Su Sp).nDof = Sp.nDof := by
    unfold PressureOps.Spec.poissonSpace; split_ifs
    · exact hm.1
    · rfl
  have hpin : k ∈ pins Sp.nDof (schurConstraints Sp.nDof Cp l) Cp := (mem_pins _ Cp hC l k).2 ⟨hk, hkl, hf⟩
  have hs : ((schurConstraints Sp.nDof Cp l).row k).isSome = true := by rw [schur_isSome _ Cp hC]; simp [hkl]
  have e1 : matrixP Sp.nDof Cp l (poissonBlocks f Su dpc dof) k k = conDiag (poissonBlocks f Su dpc dof) k := by
    unfold matrixP
    rw [fixDiagonal_eq, if_neg (fun h => h.2.2.2 hpin)]
    unfold assembled
    rw [if_pos ⟨rfl, hs⟩, Constr.scatter_con _ _ _ hs, add_zero]
  -- the constrained diagonal is at least the diagonal of the matrix without constraints
  have e2 : raw (poissonBlocks f Su dpc dof) k k ≤ conDiag (poissonBlocks f Su dpc dof) k := by
    unfold raw conDiag poissonBlocks
    rw [List.map_map, List.map_map, listRange_sum, listRange_sum]
    refine sum_le_sum fun c hc => ?_
    dsimp only [Function.comp]
    refine sum_le_sum fun i hi => ?_
    obtain ⟨hinj, -⟩ := hd c (mem_range.1 hc)
    by_cases hik : dof c i = k
    · rw [if_pos hik, sum_eq_single_of_mem i hi]
      · rw [if_pos ⟨hik, hik⟩]; exact le_abs_self _
      · intro j hj hne
        rw [if_neg]
        exact fun h => hne (hinj j (mem_range.1 hj) i (mem_range.1 hi) (h.2.trans hik.symm))
    · rw [if_neg hik]
      refine (sum_eq_zero fun j _ => ?_).le
      rw [if_neg]
      exact fun h => hik h.1
  have e3 : raw (poissonBlocks f Su dpc dof) k k =
      PressureOps.Spec.dot Sp.nDof (PressureOps.poissonVmult f nQ0 Su Sp
        PressureOps.noConstr (PressureOps.Spec.unit k))
        (PressureOps.Spec.unit k) := by
    rw [PressureOps.dot_unit _ _ hk, raw_poisson f Su dpc dof hd,
      ← PressureOps.C87_poisson_agrees_with_assembly f nQ0 hm hJ hw hr hrho hex hk hk]
  obtain ⟨-, hsd⟩ := PressureOps.C87_poisson_symmetric_semidefinite f nQ0 hm
    PressureOps.noConstr PressureOps.noConstr_closed
  obtain ⟨h0, hz⟩ := hsd hJS hw hr hrho (PressureOps.Spec.unit k)
  rw [e1]
  refine lt_of_lt_of_le ?_ e2
  rw [e3]
  refine lt_of_le_of_ne h0 fun h => ?_
  have hg := (hz h.symm).2
  rw [PressureOps.noConstr_dist] at hg
  -- another dof
  have hex' : ∃ j < Sp.nDof, j ≠ k := by
    by_cases hk0 : k = 0
    · exact ⟨1, by omega, by omega⟩
    · exact ⟨0, by omega, fun h => hk0 h.symm⟩
  obtain ⟨j, hj, hjk⟩ := hex'
  have := hconn _ hg k (hn ▸ hk) j (hn ▸ hj)
  unfold PressureOps.Spec.unit at this
  rw [if_pos rfl, if_neg hjk] at this
  exact one_ne_zero this

/-- **C91 (symmetric positive definite).** With at least one open-boundary or fixed pressure dof that is not constrained already,
the operator handed to conjugate gradients and AMG is symmetric, and positive definite: on every connected mesh, with hanging
nodes and periodicity, for all positive coefficients. -/
theorem C91_positive_definite (f : Conf ℝ) (nQ0 : ℕ) {Su Sp : Space ℝ}
    (hm : PressureOps.Spec.SameMesh Su Sp)
    (hJ : ∀ c < Su.nCell, ∀ q < Su.nQ, 0 ≤ Su.jxw c q)
    (hJS : ∀ c < (PressureOps.Spec.poissonSpace f Su Sp).nCell,
      ∀ q < (PressureOps.Spec.poissonSpace f Su Sp).nQ,
        0 < (PressureOps.Spec.poissonSpace f Su Sp).jxw c q)
    (hw : 0 < f.weight) (hr : 0 < PressureOps.Spec.smallDensity f)
    (hrho : ∀ rho, f.rho = some rho → ∀ c q, 0 < rho c q)
    (hex : (f.stationary = false ∧ f.projection = false ∧ f.rho.isSome) ∨
      PressureOps.Spec.GradExact Su Sp)
    (dpc : ℕ) (dof : ℕ → ℕ → ℕ) (hd : Spec.CellDofs Su dpc dof)
    (hconn : Spec.OnlyConstants (PressureOps.Spec.poissonSpace f Su Sp)) (h2 : 2 ≤ Sp.nDof)
    (Cp : Constr ℝ) (hC : Cp.Closed) (l : List ℕ) (hl : ∀ i ∈ l, i < Sp.nDof) :
    let n := Sp.nDof
    let A := wrapperVmult n false (PressureOps.poissonVmult f nQ0 Su Sp Cp)
      (matrixP n Cp l (poissonBlocks f Su dpc dof)) (pins n (schurConstraints n Cp l) Cp)
    (∀ x v, ∑ k ∈ range n, v k * A x k = ∑ k ∈ range n, x k * A v k) ∧
    ((∃ p ∈ l, (Cp.row p).isSome = false) →
      ∀ x, (∃ k < n, x k ≠ 0) → 0 < ∑ k ∈ range n, x k * A x k) := by
  intro n A
  have hn : (PressureOps.Spec.poissonSpace f Su Sp).nDof = Sp.nDof := by
    unfold PressureOps.Spec.poissonSpace; split_ifs
    · exact hm.1
    · rfl
  have hform := wrapper_form f nQ0 hm Cp hC l hl (matrixP n Cp l (poissonBlocks f Su dpc dof))
  unfold PressureOps.Spec.dot at hform
  refine ⟨fun x v => ?_, ?_⟩
  · rw [hform x v, hform v x, PressureOps.gradForm_symm]
    congr 1
    refine sum_congr rfl fun k _ => ?_
    rw [mul_comm (v k)]
  · rintro ⟨p, hp, hpf⟩ x ⟨k, hk, hxk⟩
    have hfac : ∀ c q, 0 < PressureOps.Spec.poissonFactor f c q := by
      intro c q
      unfold PressureOps.Spec.poissonFactor
      split_ifs
      · exact one_pos
      · positivity
      · cases hrr : f.rho with
        | none => simp only []; positivity
        | some rho => simp only []; have := hrho rho hrr c q; positivity
    set S := PressureOps.Spec.poissonSpace f Su Sp with hS
    set y := (schurConstraints Sp.nDof Cp l).dist Sp.nDof x with hy
    have hg : ∀ c < S.nCell, ∀ q < S.nQ, 0 ≤ PressureOps.Spec.poissonFactor f c q *
        ∑ d ∈ range S.dim, S.gradient y c q d * S.gradient y c q d := fun c _ q _ =>
      mul_nonneg (hfac c q).le (sum_nonneg fun d _ => mul_self_nonneg _)
    have h1 : 0 ≤ PressureOps.Spec.gradForm S (PressureOps.Spec.poissonFactor f) y y :=
      PressureOps.integral_nonneg (fun c hc q hq => (hJS c hc q hq).le) hg
    have hpos : ∀ i ∈ range n, i ∈ l → (Cp.row i).isSome = false →
        0 < matrixP n Cp l (poissonBlocks f Su dpc dof) i i := fun i hi hil hif =>
      pin_diagonal_pos f nQ0 hm hJ hJS hw hr hrho hex dpc dof hd hconn h2 Cp hC l (mem_range.1 hi) hil hif
    have h3 : ∀ i ∈ range n, 0 ≤ (if (Cp.row i).isSome then x i * x i
        else if i ∈ l then matrixP n Cp l (poissonBlocks f Su dpc dof) i i * (x i * x i) else 0) := by
      intro i hi
      split_ifs with ha hb
      · exact mul_self_nonneg _
      · exact mul_nonneg (hpos i hi hb (by simpa using ha)).le (mul_self_nonneg _)
      · exact le_rfl
    rw [hform x x]
    refine lt_of_le_of_ne (add_nonneg h1 (sum_nonneg h3)) fun h0 => ?_
    have hg0 : PressureOps.Spec.gradForm S (PressureOps.Spec.poissonFactor f) y y = 0 := by
      have := sum_nonneg h3; linarith
    have hs0 := (sum_eq_zero_iff_of_nonneg h3).1 (by linarith)
    have hgrad : ∀ c < S.nCell, ∀ q < S.nQ, ∀ d < S.dim, S.gradient y c q d = 0 := by
      intro c hc q hq d hd'
      have := (PressureOps.integral_eq_zero hJS hg).1 hg0 c hc q hq
      rcases mul_eq_zero.1 this with h | h
      · exact absurd h (hfac c q).ne'
      · exact mul_self_eq_zero.1 ((sum_eq_zero_iff_of_nonneg fun d _ => mul_self_nonneg _).1 h d (mem_range.2 hd'))
    have hyp : y p = 0 := by
      rw [hy, dist_schur _ Cp hC, Constr.dist_free _ _ _ hpf, if_pos ⟨hp, hpf⟩]
    apply hxk
    have hk0 := hs0 k (mem_range.2 hk)
    cases hck : (Cp.row k).isSome
    · rw [hck] at hk0
      by_cases hkl : k ∈ l
      · rw [if_neg (by simp), if_pos hkl] at hk0
        rcases mul_eq_zero.1 hk0 with h | h
        · exact absurd h (hpos k (mem_range.2 hk) hkl hck).ne'
        · exact mul_self_eq_zero.1 h
      · have : y k = x k := by
          rw [hy, dist_schur _ Cp hC, Constr.dist_free _ _ _ hck, if_neg (fun h => hkl h.1)]
        rw [← this, hconn y hgrad k (hn ▸ hk) p (hn ▸ hl p hp), hyp]
    · rw [hck, if_pos rfl] at hk0
      exact mul_self_eq_zero.1 hk0

/-- **C91 (an ignored line leaves the operator singular).** If all dofs to be fixed are constrained already (which the choice
of the fixed dof allows, C51), the constant pressure remains in the kernel. -/
theorem C91_ignored_pin_singular (f : Conf ℝ) (nQ0 : ℕ) {Su Sp : Space ℝ}
    (hm : PressureOps.Spec.SameMesh Su Sp) (hu : Su.Partition) (hp : Sp.Partition)
    (Cp : Constr ℝ) (hC : Cp.Closed) (h1 : Cp.KeepsOne Sp.nDof) (l : List ℕ)
    (hl : ∀ i ∈ l, (Cp.row i).isSome) (M : ℕ → ℕ → ℝ) {k : ℕ} (hk : k < Sp.nDof) :
    wrapperVmult Sp.nDof false (PressureOps.poissonVmult f nQ0 Su Sp Cp) M
      (pins Sp.nDof (schurConstraints Sp.nDof Cp l) Cp) (fun i => if (Cp.row i).isSome then 0 else 1) k = 0 := by
  rw [wrapper_entries _ _ _ Cp hC l _ hk, if_neg (fun h => by rw [hl k h.1] at h; exact absurd h.2 (by simp))]
  have hnil : ∀ j, j ∉ pins Sp.nDof (schurConstraints Sp.nDof Cp l) Cp := by
    intro j h
    have := (mem_pins _ Cp hC l j).1 h
    rw [hl j this.2.1] at this
    exact absurd this.2.2 (by simp)
  simp only [hnil, if_false]
  have hdist : Cp.dist Sp.nDof (fun i => if (Cp.row i).isSome then 0 else 1) = Cp.dist Sp.nDof (fun _ => (1 : ℝ)) := by
    funext i
    unfold Constr.dist
    cases hr : Cp.row i with
    | none => simp [hr]
    | some c =>
      simp only []
      refine sum_congr rfl fun j _ => ?_
      cases hs : (Cp.row j).isSome
      · simp
      · simp [hC i c hr j hs]
  cases hs : (Cp.row k).isSome
  · have := PressureOps.C87_poisson_kernel f nQ0 hm Cp hC hu hp h1 1 hk hs
    unfold PressureOps.poissonVmult PressureOps.finish at this ⊢
    rw [hdist]
    rw [if_neg (by rw [hs]; simp)] at this ⊢
    exact this
  · unfold PressureOps.poissonVmult PressureOps.finish
    rw [if_pos hs]
    dsimp only
    rw [if_pos hs]

/-! ### Concrete cases -/

namespace Example

/-- Two linear elements, three nodes; the middle one is constrained to the mean of its neighbours. -/
noncomputable def S : Space ℝ where
  dim := 1
  nDof := 3
  nCell := 2
  nQ := 1
  val := fun i c _ => if i = c ∨ i = c + 1 then 1 / 2 else 0
  grad := fun i c _ _ => if i = c then -1 else if i = c + 1 then 1 else 0
  jxw := fun _ _ => 1

noncomputable def Cp : Constr ℝ := ⟨fun i => if i = 1 then some (fun k => if k = 0 ∨ k = 2 then 1 / 2 else 0) else none⟩

def f : Conf ℝ where
  projection := false
  stationary := false
  density := 2
  densityDiff := 3
  viscosity := 1
  tauGradDiv := 0
  weight := 4
  rho := none
  mu := none

theorem closed : Cp.Closed := by
  intro i c h k hk
  have hk1 : k = 1 := by
    by_contra h1
    simp [Cp, h1] at hk
  subst hk1
  by_cases hi : i = 1
  · simp [Cp, hi] at h
    rw [← h]; simp
  · simp [Cp, hi] at h

theorem cellDofs : Spec.CellDofs S 2 (fun c i => c + i) := by
  intro c _
  refine ⟨fun i _ j _ h => by dsimp only at h; omega, fun I hI q d => ?_⟩
  have h0 := hI 0 (by omega)
  have h1 := hI 1 (by omega)
  dsimp only at h0 h1
  simp only [S]
  rw [if_neg (by omega), if_neg (by omega)]

theorem onlyConstants : Spec.OnlyConstants S := by
  intro y hy
  have h0 := hy 0 (by decide) 0 (by decide) 0 (by decide)
  have h1 := hy 1 (by decide) 0 (by decide) 0 (by decide)
  simp [Space.gradient, S, sum_range_succ] at h0 h1
  have e1 : y 1 = y 0 := by linarith
  have e2 : y 2 = y 1 := by linarith
  intro i hi j hj
  have hi' : i < 3 := hi
  have hj' : j < 3 := hj
  have : ∀ i < 3, y i = y 0 := by
    intro i hi
    have : i = 0 ∨ i = 1 ∨ i = 2 := by omega
    rcases this with rfl | rfl | rfl
    · rfl
    · exact e1
    · rw [e2, e1]
  rw [this i hi', this j hj']

/-- The hypotheses of `C91_poisson_wrapper_equals_assembled` and `C91_positive_definite` are met with node 0 fixed. -/
example : ∀ x : ℕ → ℝ, (∃ k < 3, x k ≠ 0) →
    0 < ∑ k ∈ range 3, x k * wrapperVmult 3 false (PressureOps.poissonVmult f 1 S S Cp)
      (matrixP 3 Cp [0] (poissonBlocks f S 2 fun c i => c + i)) (pins 3 (schurConstraints 3 Cp [0]) Cp) x k := by
  have hsp : PressureOps.Spec.poissonSpace f S S = S := by unfold PressureOps.Spec.poissonSpace; split_ifs <;> rfl
  have h := C91_positive_definite f 1 (Su := S) (Sp := S) ⟨rfl, rfl, rfl⟩ (fun _ _ _ _ => by simp [S])
    (by rw [hsp]; intro c _ q _; simp [S]) (by norm_num [f]) (by norm_num [f, PressureOps.Spec.smallDensity])
    (by intro rho h; cases h) (.inr fun _ _ => rfl) 2 (fun c i => c + i) cellDofs (by rw [hsp]; exact onlyConstants)
    (by decide) Cp closed [0] (by decide)
  exact h.2 ⟨0, by simp, by simp [Cp]⟩

end Example

/-- A product with both branches: middle node constrained, node 0 fixed, cell matrices `[[1,-1],[-1,1]]`; also fixing the node that
is constrained already has no effect (then no dof is fixed). -/
example :
    let Cp : Constr ℚ := ⟨fun i => if i = 1 then some (fun k => if k = 0 ∨ k = 2 then 1 / 2 else 0) else none⟩
    let bs : List (Block ℚ) := (List.range 2).map fun c => ⟨2, fun i => c + i, fun i j => if i = j then 1 else -1, fun _ => 1⟩
    let x : ℕ → ℚ := fun k => k + 3
    (List.range 3).map (wrapperVmult 3 false (cellVmult 3 Cp bs) (matrixP 3 Cp [0] bs)
      (pins 3 (schurConstraints 3 Cp [0]) Cp) x) = [3, 4, 5 / 2] ∧
    (List.range 3).map (wrapperVmult 3 true (cellVmult 3 Cp bs) (matrixP 3 Cp [0] bs)
      (pins 3 (schurConstraints 3 Cp [0]) Cp) x) = [3, 4, 5 / 2] ∧
    pins 3 (schurConstraints 3 Cp [1]) Cp = [] ∧ pins 3 (schurConstraints 3 Cp [0]) Cp = [0] := by
  decide +kernel

end Poisson

end Verif.Precond.Wrapper
