import Verif.Precond.ComponentIlu
import Verif.Precond.Objects
import Mathlib.Algebra.Order.Ring.Rat

/-!
# C109: which operator the velocity preconditioner is, with and without inner solves
(`NavierStokesPreconditioner::vmult`, source/navier_stokes_preconditioner.cc:596-666; `Precondition_LinML::vmult`,
lines 529-549; include/adaflo/block_matrix_extension.h:35-99)

Vectors are functions of the local index.  The preconditioners themselves (ILU, ML) are arbitrary maps.  A Trilinos
preconditioner of `n` rows sees and writes the first `n` local entries of the vectors (`Epetra_Vector` in view mode).
The deal.II function `PreconditionBase::vmult` compares the lengths in debug mode and aborts if they differ.
-/

namespace Verif.Precond.Apply
open Verif.Parameters

variable {K : Type*}

/-! ## Model -/

/-- An `Epetra_Vector` in view mode on the first `n` entries of `src` (entries behind are not visible). -/
def view [Zero K] (n : ℕ) (src : ℕ → K) : ℕ → K := fun k => if k < n then src k else 0

/-- `ApplyInverse` on views of `n` entries of `src` and `dst`: lines 538-546; `PreconditionBase::vmult` of deal.II.
`none`: the program aborts because the lengths do not match. -/
def viewVmult [Zero K] (debug : Bool) (n nLoc : ℕ) (op : (ℕ → K) → (ℕ → K)) (dst src : ℕ → K) : Option (ℕ → K) :=
  if debug && n != nLoc then none else some fun k => if k < n then op (view n src) k else dst k

/-- What `vmult` uses of the preconditioner object: `full` is `*uu_ilu` or `*uu_amg` on all `nLoc` local velocity
unknowns; `scalar` is the factorization in `*uu_ilu_scalar` for one component with `nScalar` local unknowns; `idx`
is its index table, `constrained` the list `get_constrained_dofs(dof_index_u)`. -/
structure Prec (K : Type*) where
  vel : PrecVelocity
  dim : ℕ
  nLoc : ℕ
  nScalar : ℕ
  idx : ℕ → ℕ
  constrained : List ℕ
  full : (ℕ → K) → (ℕ → K)
  scalar : (ℕ → K) → (ℕ → K)

/-- Velocity part of `vmult` without inner solves, lines 608-636. -/
def Prec.direct [Zero K] (P : Prec K) (debug : Bool) (dst src : ℕ → K) : Option (ℕ → K) :=
  match P.vel with
  | .ilu => viewVmult debug P.nLoc P.nLoc P.full dst src
  | .iluScalar =>
    some (P.constrained.foldl (fun v c => Function.update v c (src c)) (multiply P.nScalar P.dim P.idx P.scalar dst src))
  | .amgLinear => viewVmult debug P.nLoc P.nLoc P.full dst src
  | .amg => viewVmult debug P.nLoc P.nLoc P.full dst src

/-- The preconditioner handed to the inner solver, lines 648-664: the solver calls its member `vmult`, which
`ComponentILUExtension` inherits from `PreconditionILU` (its own function is called `multiply`). -/
def Prec.innerVmult [Zero K] (P : Prec K) (debug : Bool) (dst src : ℕ → K) : Option (ℕ → K) :=
  match P.vel with
  | .ilu => viewVmult debug P.nLoc P.nLoc P.full dst src
  | .iluScalar => viewVmult debug P.nScalar P.nLoc P.scalar dst src
  | .amgLinear => viewVmult debug P.nLoc P.nLoc P.full dst src
  | .amg => viewVmult debug P.nLoc P.nLoc P.full dst src

/-- The pointer tables `dst_ptrs`, `src_ptrs` of block_matrix_extension.h:47-52, 80-85: 16 slots, slot `i` is set to the
block `i` in a loop over the blocks; `none`: not set. -/
def pointers (nBlocks : ℕ) : ℕ → Option ℕ :=
  (List.range nBlocks).foldl (fun t i => Function.update t i (some i)) fun _ => none

/-- `BlockILUExtension::vmult` (lines 66-98) and `BlockMatrixExtension::vmult` (lines 35-59): the operator on a multivector
whose column `i` is the block in slot `i`.  `none`: assertion on the number of blocks (line 79; line 46 in debug mode). -/
def blockVmult (nBlocks : ℕ) (op : (ℕ → K) → (ℕ → K)) (dst src : ℕ → ℕ → K) : Option (ℕ → ℕ → K) :=
  if nBlocks < 16 then
    some ((List.range nBlocks).foldl (fun (d : ℕ → ℕ → K) col =>
      match pointers nBlocks col with
      | some b => Function.update d b (op (src b))
      | none => d) dst)
  else none

/-! ## Specification -/

/-- `f` is the application of a fixed operator `B` on `n` unknowns: it succeeds, its result is `B` of the input,
whatever the output vector contained before. -/
def Spec.AppliesOperator (n : ℕ) (f : (ℕ → K) → (ℕ → K) → Option (ℕ → K)) (B : (ℕ → K) → (ℕ → K)) : Prop :=
  ∀ dst src, ∃ v, f dst src = some v ∧ ∀ k < n, v k = B src k

/-- The velocity preconditioner on all unknowns: for the component-wise variant the unknown `idx (i * dim + d)` is entry `i` of
the scalar operator on component `d`, and constrained unknowns are copied. -/
def Spec.IsComponentwise (P : Prec K) (B : (ℕ → K) → (ℕ → K)) : Prop :=
  ∀ src, (∀ c ∈ P.constrained, B src c = src c) ∧
    ∀ i < P.nScalar, ∀ d < P.dim, P.idx (i * P.dim + d) ∉ P.constrained →
      B src (P.idx (i * P.dim + d)) = P.scalar (fun j => src (P.idx (j * P.dim + d))) i

/-- The index table numbers all local unknowns. -/
structure Spec.Table (P : Prec K) : Prop where
  size : P.nLoc = P.nScalar * P.dim
  inj : ∀ a < P.nLoc, ∀ b < P.nLoc, P.idx a = P.idx b → a = b
  surj : ∀ k < P.nLoc, ∃ a < P.nLoc, P.idx a = k

/-! ## Theorems -/

theorem constrained_foldl (l : List ℕ) (src v : ℕ → K) (k : ℕ) :
    l.foldl (fun v c => Function.update v c (src c)) v k = if k ∈ l then src k else v k := by
  induction l generalizing v with
  | nil => simp
  | cons c l ih =>
    rw [List.foldl_cons, ih]
    by_cases hk : k ∈ l
    · simp [hk]
    · by_cases hc : k = c
      · subst hc; simp [hk]
      · simp [hk, hc]

/-- **C109 (whole matrix).** For all variants but the component-wise ILU, the operator used inside the iterative solver and the
one used without inner solves are the same operator on all velocity unknowns, in debug and release mode. -/
theorem C109_same_operator_partial [Zero K] (P : Prec K) (hv : P.vel ≠ .iluScalar) (debug : Bool) :
    ∃ B : (ℕ → K) → (ℕ → K), (∀ src, ∀ k < P.nLoc, B src k = P.full (view P.nLoc src) k) ∧
      Spec.AppliesOperator P.nLoc (P.direct debug) B ∧ Spec.AppliesOperator P.nLoc (P.innerVmult debug) B := by
  have key : Spec.AppliesOperator P.nLoc (viewVmult debug P.nLoc P.nLoc P.full)
      (fun src => P.full (view P.nLoc src)) := by
    intro dst src
    refine ⟨fun k => if k < P.nLoc then P.full (view P.nLoc src) k else dst k, ?_, fun k hk => if_pos hk⟩
    simp [viewVmult]
  refine ⟨fun src => P.full (view P.nLoc src), fun _ _ _ => rfl, ?_, ?_⟩
  · unfold Prec.direct
    cases h : P.vel
    · exact key
    · exact absurd h hv
    · exact key
    · exact key
  · unfold Prec.innerVmult
    cases h : P.vel
    · exact key
    · exact absurd h hv
    · exact key
    · exact key

/-- **C109 (component-wise ILU without inner solves).** The result is the scalar operator on every component, with the constrained
unknowns copied, on all unknowns. -/
theorem C109_componentwise [Zero K] (P : Prec K) (hv : P.vel = .iluScalar) (ht : Spec.Table P) (debug : Bool) :
    ∃ B, Spec.IsComponentwise P B ∧ Spec.AppliesOperator P.nLoc (P.direct debug) B := by
  have hm := fun dst src => C17_multiply_per_component P.nScalar P.dim P.idx P.scalar dst src
    (fun a ha b hb h => ht.inj a (by rw [ht.size]; exact ha) b (by rw [ht.size]; exact hb) h)
  refine ⟨fun src k => if k ∈ P.constrained then src k else multiply P.nScalar P.dim P.idx P.scalar src src k, ?_, ?_⟩
  · intro src
    refine ⟨fun c hc => if_pos hc, fun i hi d hd hn => ?_⟩
    dsimp only
    rw [if_neg hn]
    exact (hm src src).1 i hi d hd
  · intro dst src
    unfold Prec.direct
    rw [hv]
    refine ⟨_, rfl, fun k hk => ?_⟩
    rw [constrained_foldl]
    dsimp only
    by_cases hkc : k ∈ P.constrained
    · rw [if_pos hkc, if_pos hkc]
    · rw [if_neg hkc, if_neg hkc]
      obtain ⟨a, ha, rfl⟩ := ht.surj k hk
      rw [ht.size] at ha
      have hdim : 0 < P.dim := by
        rcases Nat.eq_zero_or_pos P.dim with h0 | h0
        · rw [h0] at ha; simp at ha
        · exact h0
      have hi : a / P.dim < P.nScalar := Nat.div_lt_of_lt_mul (by rw [Nat.mul_comm]; exact ha)
      have hd : a % P.dim < P.dim := Nat.mod_lt _ hdim
      have ea : a / P.dim * P.dim + a % P.dim = a := by rw [Nat.mul_comm]; exact Nat.div_add_mod a P.dim
      have h1 := (hm dst src).1 _ hi _ hd
      have h2 := (hm src src).1 _ hi _ hd
      rw [ea] at h1 h2
      rw [h1, h2]

/-- **C109 is false for the component-wise ILU inside the inner solver.** In two or more dimensions the inherited function is
called with vectors that are `dim` times as long: in debug mode the program aborts; in release mode all entries behind the
first `nScalar` ones keep what was in the output vector, so it is not an operator of the input at all. -/
theorem C109_inner_componentwise_fails [Zero K] (P : Prec K) (hv : P.vel = .iluScalar) (ht : Spec.Table P)
    (hdim : 2 ≤ P.dim) (hn : 0 < P.nScalar) (hK : ∃ x : K, x ≠ 0) :
    (∀ dst src, P.innerVmult true dst src = none) ∧
    (∀ dst src v, P.innerVmult false dst src = some v → ∀ k, P.nScalar ≤ k → k < P.nLoc → v k = dst k) ∧
    P.nScalar < P.nLoc ∧
    ¬ ∃ B, Spec.AppliesOperator P.nLoc (P.innerVmult false) B := by
  have hlt : P.nScalar < P.nLoc := by
    rw [ht.size]
    calc P.nScalar < P.nScalar * 2 := by omega
      _ ≤ P.nScalar * P.dim := Nat.mul_le_mul_left _ hdim
  have hrel : ∀ dst src v, P.innerVmult false dst src = some v → ∀ k, P.nScalar ≤ k → k < P.nLoc → v k = dst k := by
    intro dst src v h k hk _
    unfold Prec.innerVmult at h
    rw [hv] at h
    simp only [viewVmult, Bool.false_and, Bool.false_eq_true, if_false, Option.some.injEq] at h
    rw [← h]
    exact if_neg (by omega)
  refine ⟨fun dst src => ?_, hrel, hlt, ?_⟩
  · unfold Prec.innerVmult
    rw [hv]
    simp only [viewVmult, Bool.true_and]
    rw [if_pos]
    simp only [bne_iff_ne, ne_eq]
    omega
  · rintro ⟨B, hB⟩
    obtain ⟨x, hx⟩ := hK
    obtain ⟨v, hv1, hv2⟩ := hB (fun _ => 0) (fun _ => 0)
    obtain ⟨v', hv1', hv2'⟩ := hB (fun _ => x) (fun _ => 0)
    have h1 := hrel _ _ _ hv1 P.nScalar le_rfl hlt
    have h2 := hrel _ _ _ hv1' P.nScalar le_rfl hlt
    rw [hv2 _ hlt] at h1
    rw [hv2' _ hlt, h1] at h2
    exact hx h2.symm

/-- **C109 (the case is reached).** With the component-wise ILU and a parameter set for which all objects exist (C78), a time step
whose first linear solver does not converge applies the preconditioner with inner solves. -/
theorem C109_inner_componentwise_reached :
    ∃ c : Objects.Prm, c.vel = .iluScalar ∧ Objects.Spec.solveOk c ∧
      ∃ s, Objects.run (.ctor c) Objects.Objs.ctor [.setup, .step ⟨(false, true), [], false⟩] = .ok s ∧ s.inner = true ∧
        s.uuIluScalar = true :=
  ⟨⟨.iluScalar, .incompressible, false, true, false, true⟩, rfl, by unfold Objects.Spec.solveOk; decide, _, rfl, rfl, rfl⟩

theorem pointers_eq (n i : ℕ) : pointers n i = if i < n then some i else none := by
  unfold pointers
  induction n with
  | zero => simp
  | succ n ih =>
    rw [List.range_succ, List.foldl_append]
    simp only [List.foldl_cons, List.foldl_nil]
    by_cases hi : i = n
    · subst hi; simp
    · rw [Function.update_of_ne hi, ih]
      have : i < n + 1 ↔ i < n := by omega
      simp [this]

/-- **C109 (block vectors).** With less than 16 blocks the operator acts on every block on its own; with 16 or more the
call is refused. -/
theorem C109_blocks (n : ℕ) (op : (ℕ → K) → (ℕ → K)) (dst src : ℕ → ℕ → K) :
    (n < 16 → ∃ v, blockVmult n op dst src = some v ∧ (∀ b < n, v b = op (src b)) ∧ ∀ b, n ≤ b → v b = dst b) ∧
    (16 ≤ n → blockVmult n op dst src = none) := by
  refine ⟨fun h => ?_, fun h => if_neg (by omega)⟩
  have key : ∀ m ≤ n, ∀ b, ((List.range m).foldl (fun (d : ℕ → ℕ → K) col =>
      match pointers n col with
      | some b => Function.update d b (op (src b))
      | none => d) dst) b = if b < m then op (src b) else dst b := by
    intro m hm b
    induction m with
    | zero => simp
    | succ m ih =>
      rw [List.range_succ, List.foldl_append]
      simp only [List.foldl_cons, List.foldl_nil]
      rw [pointers_eq, if_pos (by omega)]
      dsimp only
      by_cases hb : b = m
      · subst hb; simp
      · rw [Function.update_of_ne hb, ih (by omega)]
        have : b < m + 1 ↔ b < m := by omega
        simp [this]
  refine ⟨_, if_pos h, fun b hb => ?_, fun b hb => ?_⟩
  · rw [key n le_rfl b, if_pos hb]
  · rw [key n le_rfl b, if_neg (by omega)]

/-- Non-vacuity: two components, three scalar unknowns, blocked numbering, one constrained unknown; the inner variant leaves the
second half untouched. -/
def exampleP (vel : PrecVelocity) : Prec ℚ :=
  ⟨vel, 2, 6, 3, fun a => a % 2 * 3 + a / 2, [4], fun v k => v k / 2, fun v k => v k / 4⟩

example : Spec.Table (exampleP .iluScalar) := ⟨by decide, by decide, by decide⟩

example : ((exampleP .iluScalar).direct true (fun _ => 7) fun k => k).map (fun v => (List.range 6).map v) =
    some [0, 1/4, 1/2, 3/4, 4, 5/4] ∧
    ((exampleP .iluScalar).innerVmult false (fun _ => 7) fun k => k).map (fun v => (List.range 6).map v) =
      some [0, 1/4, 1/2, 7, 7, 7] ∧
    ((exampleP .amg).innerVmult true (fun _ => 7) fun k => k).map (fun v => (List.range 6).map v) =
      some [0, 1/2, 1, 3/2, 2, 5/2] := by
  decide +kernel

end Verif.Precond.Apply
