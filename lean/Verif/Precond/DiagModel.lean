import Mathlib.Algebra.Order.Field.Basic

/-! # Model of `DiagonalPreconditioner` (diagonal_preconditioner.h, source/diagonal_preconditioner.cc)

A distributed vector is the list of its (globally concatenated) entries; `linfty_norm()` is a global
reduction.  Ghost entries are not modelled. -/

namespace Verif.Precond

variable {K : Type*} [Field K] [LinearOrder K]

/-- `linfty_norm()`. -/
def linfty (v : List K) : K := v.foldl (fun m x => max m |x|) 0

/-- The members, diagonal_preconditioner.h:60-62. -/
structure Diag (K : Type*) where
  diagonal : List K
  inverse : List K
  inverseBlock : List (List K)
  deriving DecidableEq

/-- Default constructor. -/
def Diag.new : Diag K := ⟨[], [], []⟩

/-- The guarded reciprocal, lines 46-49 and 68-74. -/
def guardedInv (norm x : K) : K := if 1 / 10 ^ 10 * norm < |x| then 1 / x else 1

/-- `reinit(Vector)`, source/diagonal_preconditioner.cc:38-53. -/
def Diag.reinitVec (_ : Diag K) (d : List K) : Diag K where
  inverseBlock := []
  diagonal := d
  inverse := d.map (guardedInv (linfty d))

/-- `reinit(BlockVector)`, source/diagonal_preconditioner.cc:57-76 (the norm is the one of the
concatenation of the blocks). -/
def Diag.reinitBlock (_ : Diag K) (d : List (List K)) : Diag K where
  diagonal := []
  inverse := []
  inverseBlock := d.map fun b => b.map (guardedInv (linfty d.flatten))

/-- `vmult(Vector)`, source/diagonal_preconditioner.cc:80-93; `none` is a failing debug
`AssertDimension`. -/
def Diag.vmult (p : Diag K) (src : List K) : Option (List K) :=
  if p.diagonal.length = src.length ∧ p.inverseBlock.flatten.length = 0 then
    some (List.zipWith (· * ·) src p.inverse)
  else none

/-- `vmult(BlockVector)`, source/diagonal_preconditioner.cc:97-124.  (In the block branch the
assertion only compares total sizes; equal block layouts are a precondition of `scale`.) -/
def Diag.vmultBlock (p : Diag K) (src : List (List K)) : Option (List (List K)) :=
  if 0 < p.inverseBlock.length then
    if p.inverseBlock.map List.length = src.map List.length ∧ p.inverse.length = 0 then
      some (List.zipWith (List.zipWith (· * ·)) src p.inverseBlock)
    else none
  else if ∀ b ∈ src, p.inverse.length = b.length then
    some (src.map fun b => List.zipWith (· * ·) b p.inverse)
  else none

/-- The two `reinit` calls. -/
inductive Reinit (K : Type*)
  | vec (d : List K)
  | block (d : List (List K))

/-- Effect of a `reinit`. -/
def Diag.exec (p : Diag K) : Reinit K → Diag K
  | .vec d => p.reinitVec d
  | .block d => p.reinitBlock d

end Verif.Precond
