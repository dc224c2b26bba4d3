/-
# Distributed vectors, ghost values and the programs that use them

adaflo keeps all fields in `LinearAlgebra::distributed::(Block)Vector`s.  Every process
holds the entries it owns and read-only copies ("ghosts") of entries of other processes,
together with a flag that says whether the copies have been made (`has_ghost_elements`).
The code decides by hand when the copies are renewed (`update_ghost_values`), dropped
(`zero_out_ghost_values`, `= 0`) or left as they are.  This file models

* the vectors and the operations on them that adaflo calls (semantics of deal.II, trusted,
  see DESIGN.md), executed on any number of processes (`exec`),
* the same operations in one memory, without copies (`shared`), the specification,
* a static check (`check`) of programs together with its soundness proof.

The routines of adaflo as programs are in `Verif.Parallel.Programs`.
-/
import Mathlib.Algebra.BigOperators.Group.Finset.Basic
import Mathlib.Algebra.BigOperators.Group.Finset.Piecewise
import Mathlib.Data.Fintype.Basic
import Mathlib.Data.Fintype.BigOperators

set_option linter.unusedSectionVars false

namespace Verif.Parallel

/-! ## Programs -/

/-- The operations on distributed vectors that adaflo uses.  The string names the operation;
what is computed is given by `Ops` below and is arbitrary.
* `zero x`: `x = 0` (clears the ghost state).
* `copy x y`: `x = y` for vectors of the same layout.
* `alg l x ys`: whole-vector arithmetic with result `x` (`add`, `sadd`, `equ`, `+=`, `*=`,
  `scale`, the result of a solver), from owned entries of `ys`.
* `put l x ys`: loops over owned entries writing `x(i) = ...`, `x.local_element(i) = ...`,
  iterators: touches the owned entries only.
* `fill l x rs`: loops over the locally owned cells that set entries of `x`, owned or not
  (`x(dof_indices[i]) = ...`), reading the vectors `rs`.  Simplification: all cells write the
  same value at a shared entry (for the Heaviside function this needs a wide enough
  interface, see C35).
* `spill l x ys`: loops over all cells a process knows, its own and ghost cells, that add to
  entries of `x` without `compress` afterwards (front tracking): the owned entries are complete
  (C104), copies of foreign entries are left behind.
* `zeroOut x`: zeroing of the destination by `cell_loop` (owned entries and copies), without
  change of the ghosted state.
* `interp l x`: `VectorTools::interpolate`, `SolutionTransfer::interpolate`: as `fill`, but
  the vector must not be in the ghosted state.
* `distribute l x`: `AffineConstraints::distribute`; whether the ghosts are current
  afterwards is not specified.
* `refresh x`: `update_ghost_values`; `drop x`: `zero_out_ghost_values`.
* `swap x y`: `x.swap(y)`.
* `loop l x ss rs`: `MatrixFree::cell_loop` with destination `x`, source vectors `ss`
  (imported by the loop unless they are flagged as ghosted already), other vectors `rs` read
  in the kernel; also cell loops with `distribute_local_to_global` and `compress(add)`
  (then `ss = []`).
* `eval l ys rs`: computes scalars or cell data or writes output from owned entries of `ys`
  (norms, inner products) and, in loops over the locally owned cells, from values of `rs`.
* `remesh l`: new mesh and partition, all vectors reinitialised. -/
inductive Cmd (V : Type) where
  | zero (x : V)
  | copy (x y : V)
  | alg (l : String) (x : V) (ys : List V)
  | put (l : String) (x : V) (ys : List V)
  | fill (l : String) (x : V) (rs : List V)
  | spill (l : String) (x : V) (ys : List V)
  | zeroOut (x : V)
  | interp (l : String) (x : V)
  | distribute (l : String) (x : V)
  | refresh (x : V)
  | drop (x : V)
  | swap (x y : V)
  | loop (l : String) (x : V) (ss rs : List V)
  | eval (l : String) (ys rs : List V)
  | remesh (l : String)

/-- Programs: conditions and loops are decided by scalars (step number, norms). -/
inductive Prog (V : Type) where
  | skip
  | cmd (c : Cmd V)
  | seq (p q : Prog V)
  | ite (l : String) (p q : Prog V)
  | iter (l : String) (p : Prog V)

/-- What the operations compute, for data in one memory.  `I` dof numbers, `C` cells,
`K` numbers, `S` all scalar and cell-wise data (step number, norms, quadrature data, log). -/
structure Ops (I C K S : Type) where
  loc : String → S → List (I → K) → I → K
  cell : String → S → C → List (I → K) → I → K
  fil : String → S → (C → List (I → K)) → I → K
  ev : String → S → List (I → K) → (C → List (I → K)) → S
  cond : String → S → Bool
  count : String → S → ℕ

/-! ## Specification: execution in one memory -/

section Shared
variable {V I C K S : Type} [DecidableEq V] [AddCommMonoid K] [Fintype C]

/-- One memory: every vector is its list of entries. -/
structure Mem (V I S K : Type) where
  vec : V → I → K
  aux : S

def Mem.set (m : Mem V I S K) (x : V) (f : I → K) : Mem V I S K :=
  { m with vec := Function.update m.vec x f }

/-- Operations in one memory: ghost management does nothing. -/
def Cmd.shared (o : Ops I C K S) : Cmd V → Mem V I S K → Mem V I S K
  | .zero x, m => m.set x 0
  | .copy x y, m => m.set x (m.vec y)
  | .alg l x ys, m => m.set x (o.loc l m.aux (ys.map m.vec))
  | .put l x ys, m => m.set x (o.loc l m.aux (ys.map m.vec))
  | .fill l x rs, m => m.set x (o.fil l m.aux (fun _ => rs.map m.vec))
  | .spill l x ys, m => m.set x (o.loc l m.aux (ys.map m.vec))
  | .zeroOut x, m => m.set x 0
  | .interp l x, m => m.set x (o.loc l m.aux [])
  | .distribute l x, m => m.set x (o.loc l m.aux [m.vec x])
  | .refresh _, m => m
  | .drop _, m => m
  | .swap x y, m => { m with vec := fun z => if z = x then m.vec y else if z = y then m.vec x else m.vec z }
  | .loop l x ss rs, m =>
      m.set x (fun i => m.vec x i + ∑ c : C, o.cell l m.aux c ((ss ++ rs).map m.vec) i)
  | .eval l ys rs, m => { m with aux := o.ev l m.aux (ys.map m.vec) (fun _ => rs.map m.vec) }
  | .remesh _, m => { m with vec := fun _ => 0 }

/-- At most `n` rounds, as long as the condition holds. -/
def iterShared (go : Mem V I S K → Bool) (f : Mem V I S K → Mem V I S K) :
    ℕ → Mem V I S K → Mem V I S K
  | 0, m => m
  | n + 1, m => if go m then iterShared go f n (f m) else m

def Prog.shared (o : Ops I C K S) : Prog V → Mem V I S K → Mem V I S K
  | .skip, m => m
  | .cmd c, m => c.shared o m
  | .seq p q, m => q.shared o (p.shared o m)
  | .ite l p q, m => if o.cond l m.aux then p.shared o m else q.shared o m
  | .iter l p, m => iterShared (fun m => o.cond l m.aux) (p.shared o) (o.count l m.aux) m

end Shared

/-! ## Execution on several processes -/

/-- A distributed vector: entries at their owners, copies on every process, the flag
`vector_is_ghosted`.  Simplification: copies of all entries (the code holds those of the
locally relevant ones, the others are never accessed). -/
structure PVec (R I K : Type) where
  own : I → K
  gh : R → I → K
  flag : Bool

/-- The distributed program state. -/
structure State (V R I C S K : Type) where
  vec : V → PVec R I K
  owner : I → R
  rank : C → R
  aux : S

/-- What depends on the number of processes: ghosts left behind by `distribute` and by cell
loops that set entries, and partitions of new meshes. -/
structure Env (R I C K S : Type) where
  distr : String → S → PVec R I K → (R → I → K) × Bool
  filled : String → S → PVec R I K → R → I → K
  owner : String → S → I → R
  rank : String → S → C → R

section Exec
variable {V R I C S K : Type}

namespace PVec
variable [Zero K]

/-- `update_ghost_values` -/
def refresh (x : PVec R I K) : PVec R I K := ⟨x.own, fun _ => x.own, true⟩
/-- `zero_out_ghost_values` -/
def drop (x : PVec R I K) : PVec R I K := ⟨x.own, fun _ => 0, false⟩
/-- New owned entries by whole-vector arithmetic: deal.II renews the ghosts if there are any. -/
def alg (x : PVec R I K) (f : I → K) : PVec R I K :=
  if x.flag then ⟨f, fun _ => f, true⟩ else ⟨f, x.gh, false⟩
/-- New owned entries by direct access. -/
def put (x : PVec R I K) (f : I → K) : PVec R I K := ⟨f, x.gh, x.flag⟩

/-- Entry `i` as process `r` reads it. -/
def view [DecidableEq R] (x : PVec R I K) (owner : I → R) (r : R) : I → K :=
  fun i => if owner i = r then x.own i else x.gh r i

end PVec

def State.set [DecidableEq V] (s : State V R I C S K) (x : V) (y : PVec R I K) :
    State V R I C S K :=
  { s with vec := Function.update s.vec x y }

variable [DecidableEq V] [DecidableEq R] [Fintype R] [Fintype I] [Fintype C] [AddCommMonoid K]

/-- The values of the vectors `xs` as the process of cell `c` reads them. -/
def State.views (s : State V R I C S K) (xs : List V) (c : C) : List (I → K) :=
  xs.map fun x => (s.vec x).view s.owner (s.rank c)

/-- Reading entries of other processes is allowed only with the flag set (deal.II asserts). -/
def State.readable (s : State V R I C S K) (xs : List V) : Prop :=
  ∀ x ∈ xs, (s.vec x).flag = true ∨ ∀ i c, s.owner i = s.rank c

instance (s : State V R I C S K) (xs : List V) : Decidable (s.readable xs) := by
  unfold State.readable; infer_instance

/-- The vectors `ss` imported before a cell loop, if they are not flagged. -/
def State.import_ (s : State V R I C S K) (ss : List V) : State V R I C S K :=
  { s with vec := fun z => if z ∈ ss then (if (s.vec z).flag then s.vec z else (s.vec z).refresh)
                           else s.vec z }

/-- The vectors imported by a cell loop for the loop only are reset afterwards. -/
def State.unimport (s : State V R I C S K) (ss : List V) (before : V → Bool) :
    State V R I C S K :=
  { s with vec := fun z => if z ∈ ss ∧ before z = false then (s.vec z).drop else s.vec z }

/-- `compress(add)`: what the processes hold in ghost entries goes to the owners; deal.II
asserts that the vector is not in the ghosted (read-only) state.  `f r i`: contribution of
process `r` to entry `i`. -/
def PVec.scatter (x : PVec R I K) (owner : I → R) (f : I → K) : PVec R I K :=
  ⟨fun i => x.own i + (∑ r : R, if owner i = r then 0 else x.gh r i) + f i, fun _ => 0, false⟩

/-- Execution of an operation; `none`: an assertion of deal.II fails. -/
def Cmd.exec (o : Ops I C K S) (e : Env R I C K S) :
    Cmd V → State V R I C S K → Option (State V R I C S K)
  | .zero x, s => some (s.set x ⟨0, fun _ => 0, false⟩)
  | .copy x y, s =>
      some (s.set x (if (s.vec x).flag || (s.vec y).flag then (s.vec y).refresh
                     else (s.vec y).drop))
  | .alg l x ys, s => some (s.set x ((s.vec x).alg (o.loc l s.aux (ys.map fun y => (s.vec y).own))))
  | .put l x ys, s => some (s.set x ((s.vec x).put (o.loc l s.aux (ys.map fun y => (s.vec y).own))))
  | .fill l x rs, s =>
      if s.readable rs then
        some (s.set x ⟨o.fil l s.aux (s.views rs), e.filled l s.aux (s.vec x), (s.vec x).flag⟩)
      else none
  | .spill l x ys, s =>
      some (s.set x ⟨o.loc l s.aux (ys.map fun y => (s.vec y).own),
        e.filled l s.aux (s.vec x), (s.vec x).flag⟩)
  | .zeroOut x, s => some (s.set x ⟨0, fun _ => 0, (s.vec x).flag⟩)
  | .interp l x, s =>
      if (s.vec x).flag = false then
        some (s.set x ⟨o.loc l s.aux [], e.filled l s.aux (s.vec x), false⟩)
      else none
  | .distribute l x, s =>
      some (s.set x ⟨o.loc l s.aux [(s.vec x).own], (e.distr l s.aux (s.vec x)).1,
        (e.distr l s.aux (s.vec x)).2⟩)
  | .refresh x, s => some (s.set x (s.vec x).refresh)
  | .drop x, s => some (s.set x (s.vec x).drop)
  | .swap x y, s =>
      some { s with vec := fun z => if z = x then s.vec y else if z = y then s.vec x else s.vec z }
  | .loop l x ss rs, s =>
      if (s.vec x).flag = false ∧ s.readable rs then
        let s1 := s.import_ ss
        let f : I → K := fun i => ∑ c : C, o.cell l s.aux c (s1.views (ss ++ rs) c) i
        let s2 := s1.unimport ss (fun z => (s.vec z).flag)
        some (s2.set x ((s2.vec x).scatter s.owner f))
      else none
  | .eval l ys rs, s =>
      if s.readable rs then
        some { s with aux := o.ev l s.aux (ys.map fun y => (s.vec y).own) (s.views rs) }
      else none
  | .remesh l, s =>
      some { vec := fun _ => ⟨0, fun _ => 0, false⟩, owner := e.owner l s.aux,
             rank := e.rank l s.aux, aux := s.aux }

def iterExec (go : State V R I C S K → Bool)
    (f : State V R I C S K → Option (State V R I C S K)) :
    ℕ → State V R I C S K → Option (State V R I C S K)
  | 0, s => some s
  | n + 1, s => if go s then (f s).bind (iterExec go f n) else some s

def Prog.exec (o : Ops I C K S) (e : Env R I C K S) :
    Prog V → State V R I C S K → Option (State V R I C S K)
  | .skip, s => some s
  | .cmd c, s => c.exec o e s
  | .seq p q, s => (p.exec o e s).bind (q.exec o e)
  | .ite l p q, s => if o.cond l s.aux then p.exec o e s else q.exec o e s
  | .iter l p, s => iterExec (fun s => o.cond l s.aux) (p.exec o e) (o.count l s.aux) s

/-- The owned values and scalars of a distributed state. -/
def State.mem (s : State V R I C S K) : Mem V I S K := ⟨fun x => (s.vec x).own, s.aux⟩

/-- The copies on all processes agree with the owners' values. -/
def PVec.Current (x : PVec R I K) : Prop := ∀ r i, x.gh r i = x.own i

end Exec

/-! ## Static check -/

/-- What is known about the ghosts of a vector: `off` not flagged, no copies (all zero),
`un` not flagged, `fresh` flagged and current, `ok` current if flagged, `any` nothing. -/
inductive Status where
  | off | un | fresh | ok | any
  deriving DecidableEq, Repr

namespace Status

def le : Status → Status → Bool
  | _, .any => true
  | .any, _ => false
  | _, .ok => true
  | .off, .off => true
  | .off, .un => true
  | .un, .un => true
  | .fresh, .fresh => true
  | _, _ => false

def join : Status → Status → Status
  | .any, _ => .any
  | _, .any => .any
  | .off, .off => .off
  | .off, .un => .un
  | .un, .off => .un
  | .un, .un => .un
  | .fresh, .fresh => .fresh
  | _, _ => .ok

def unflagged : Status → Bool
  | .off => true
  | .un => true
  | _ => false

/-- Meaning of a status. -/
def Holds {R I K : Type} [Zero K] : Status → PVec R I K → Prop
  | .off, x => x.flag = false ∧ ∀ r i, x.gh r i = 0
  | .un, x => x.flag = false
  | .fresh, x => x.flag = true ∧ x.Current
  | .ok, x => x.flag = true → x.Current
  | .any, _ => True

end Status

section Check
variable {V : Type} [DecidableEq V] [Fintype V]

abbrev Abs (V : Type) := V → Status

def Abs.le (a b : Abs V) : Bool := decide (∀ v, (a v).le (b v) = true)
def Abs.join (a b : Abs V) : Abs V := fun v => (a v).join (b v)

/-- Effect of an operation on the statuses; `none`: the operation may use outdated copies or
violate an assertion.  `d`: `distribute` is known to leave ghosts that are current if the
vector is in the ghosted state. -/
def Cmd.check (d : Bool) : Cmd V → Abs V → Option (Abs V)
  | .zero x, a => some (Function.update a x .off)
  | .copy x y, a =>
      some (Function.update a x
        (if a x = .fresh ∨ a y = .fresh then .fresh
         else if (a x).unflagged && (a y).unflagged then .off else .ok))
  | .alg _ x _, a => some (Function.update a x (if a x = .any then .ok else a x))
  | .put _ x _, a => some (Function.update a x (if (a x).unflagged then a x else .any))
  | .fill _ x rs, a =>
      if ∀ y ∈ rs, a y = .fresh then some (Function.update a x (if (a x).unflagged then .un else .any))
      else none
  | .spill _ x _, a => some (Function.update a x (if (a x).unflagged then .un else .any))
  | .zeroOut x, a => some (Function.update a x (if (a x).unflagged then .off else .any))
  | .interp _ x, a => if (a x).unflagged then some (Function.update a x .un) else none
  | .distribute _ x, a => some (Function.update a x (if d then .ok else .any))
  | .refresh x, a => some (Function.update a x .fresh)
  | .drop x, a => some (Function.update a x .off)
  | .swap x y, a => some (fun z => if z = x then a y else if z = y then a x else a z)
  | .loop _ x ss rs, a =>
      if a x = .off ∧ x ∉ ss ∧ x ∉ rs ∧ (∀ y ∈ ss, a y ≠ .any) ∧ (∀ y ∈ rs, a y = .fresh) then
        some a else none
  | .eval _ _ rs, a => if ∀ y ∈ rs, a y = .fresh then some a else none
  | .remesh _, _ => some (fun _ => .off)

/-- Search of a loop invariant: post-fixpoint after at most `n` rounds. -/
def findInv (f : Abs V → Option (Abs V)) : ℕ → Abs V → Option (Abs V)
  | 0, _ => none
  | n + 1, a =>
      match f a with
      | none => none
      | some b => if b.le a then some a else findInv f n (a.join b)

def Prog.check (d : Bool) : Prog V → Abs V → Option (Abs V)
  | .skip, a => some a
  | .cmd c, a => c.check d a
  | .seq p q, a => (p.check d a).bind (q.check d)
  | .ite _ p q, a =>
      match p.check d a, q.check d a with
      | some b, some c => some (b.join c)
      | _, _ => none
  | .iter _ p, a => findInv (p.check d) 4 a

end Check

/-! ## Soundness -/

section Sound
variable {V R I C S K : Type} [DecidableEq V] [Fintype V] [DecidableEq R] [Fintype R] [Fintype I]
  [Fintype C] [AddCommMonoid K]

/-- A distributed state satisfies an abstract state. -/
def State.Sat (s : State V R I C S K) (a : Abs V) : Prop := ∀ v, (a v).Holds (s.vec v)

namespace Status

theorem Holds.mono {a b : Status} {x : PVec R I K} (h : a.Holds x) (hab : a.le b = true) :
    b.Holds x := by
  cases a <;> cases b <;> simp_all [Status.le, Holds]

theorem le_join_left (a b : Status) : a.le (a.join b) = true := by cases a <;> cases b <;> rfl
theorem le_join_right (a b : Status) : b.le (a.join b) = true := by cases a <;> cases b <;> rfl

theorem Holds.unflagged {a : Status} {x : PVec R I K} (h : a.Holds x)
    (ha : a.unflagged = true) : x.flag = false := by
  cases a <;> simp_all [Status.unflagged, Holds]

theorem holds_refresh (x : PVec R I K) : Status.fresh.Holds x.refresh := ⟨rfl, fun _ _ => rfl⟩
theorem holds_drop (x : PVec R I K) : Status.off.Holds x.drop := ⟨rfl, fun _ _ => rfl⟩

end Status

theorem State.Sat.mono {s : State V R I C S K} {a b : Abs V} (h : s.Sat a)
    (hab : a.le b = true) : s.Sat b := by
  intro v
  exact (h v).mono ((of_decide_eq_true hab) v)

theorem State.Sat.set {s : State V R I C S K} {a : Abs V} (h : s.Sat a) {x : V}
    {y : PVec R I K} {t : Status} (hy : t.Holds y) :
    (s.set x y).Sat (Function.update a x t) := by
  intro v
  by_cases hv : v = x
  · subst hv; simpa [State.set] using hy
  · simpa [State.set, hv] using h v

theorem view_fresh {x : PVec R I K} (h : x.Current) (owner : I → R) (r : R) :
    x.view owner r = x.own := by
  funext i; unfold PVec.view; split
  · rfl
  · exact h r i

theorem views_fresh {s : State V R I C S K} {xs : List V}
    (h : ∀ x ∈ xs, (s.vec x).Current) (c : C) :
    s.views xs c = xs.map fun x => (s.vec x).own := by
  unfold State.views
  exact List.map_congr_left fun x hx => view_fresh (h x hx) _ _

theorem mem_set (s : State V R I C S K) (x : V) (y : PVec R I K) :
    (s.set x y).mem = s.mem.set x y.own := by
  unfold State.mem State.set Mem.set
  congr 1
  funext v
  by_cases hv : v = x
  · subst hv; simp
  · simp [hv]

/-- What soundness says about one piece of program. -/
def Good (r : Option (State V R I C S K)) (m : Mem V I S K) (a : Abs V) : Prop :=
  ∃ s', r = some s' ∧ s'.Sat a ∧ s'.mem = m

/-- `distribute` leaves ghosts that are current, if it leaves the vector in the ghosted
state. -/
def Env.Tidy (o : Ops I C K S) (e : Env R I C K S) : Prop :=
  ∀ l a (x : PVec R I K), (e.distr l a x).2 = true →
    ∀ r i, (e.distr l a x).1 r i = o.loc l a [x.own] i

theorem Cmd.sound {d : Bool} (o : Ops I C K S) (e : Env R I C K S) (he : d = true → e.Tidy o)
    (c : Cmd V) {s : State V R I C S K}
    {a b : Abs V} (hs : s.Sat a) (hc : c.check d a = some b) :
    Good (c.exec o e s) (c.shared o s.mem) b := by
  cases c with
  | zero x =>
    simp only [Cmd.check, Option.some.injEq] at hc; subst hc
    exact ⟨_, rfl, hs.set ⟨rfl, fun _ _ => rfl⟩, mem_set _ _ _⟩
  | copy x y =>
    simp only [Cmd.check, Option.some.injEq] at hc; subst hc
    refine ⟨_, rfl, hs.set ?_, ?_⟩
    · have hx := hs x
      have hy := hs y
      by_cases h1 : a x = .fresh ∨ a y = .fresh
      · have hf : ((s.vec x).flag || (s.vec y).flag) = true := by
          rcases h1 with h | h
          · rw [h] at hx; simp [hx.1]
          · rw [h] at hy; simp [hy.1]
        rw [if_pos h1, if_pos hf]; exact Status.holds_refresh _
      · rw [if_neg h1]
        by_cases h2 : ((a x).unflagged && (a y).unflagged) = true
        · rw [if_pos h2]
          have h3 : (a x).unflagged = true ∧ (a y).unflagged = true := by simpa using h2
          rw [if_neg (by simp [hx.unflagged h3.1, hy.unflagged h3.2])]
          exact Status.holds_drop _
        · rw [if_neg h2]
          split_ifs
          · exact fun _ => (Status.holds_refresh _).2
          · intro h; cases h
    · rw [mem_set]; dsimp only [Cmd.shared]; congr 1
      split_ifs <;> rfl
  | alg l x ys =>
    simp only [Cmd.check, Option.some.injEq] at hc; subst hc
    refine ⟨_, rfl, hs.set ?_, ?_⟩
    · have hx := hs x
      unfold PVec.alg
      cases hst : a x <;> cases hf : (s.vec x).flag <;>
        simp_all [Status.Holds, PVec.Current]
    · rw [mem_set]; dsimp only [Cmd.shared]; congr 1
      unfold PVec.alg; split <;> rfl
  | put l x ys =>
    simp only [Cmd.check, Option.some.injEq] at hc; subst hc
    refine ⟨_, rfl, hs.set ?_, mem_set _ _ _⟩
    have hx := hs x
    cases hst : a x <;> simp_all [Status.Holds, PVec.put, Status.unflagged]
  | fill l x rs =>
    simp only [Cmd.check] at hc
    by_cases h : ∀ y ∈ rs, a y = Status.fresh
    swap
    · rw [if_neg h] at hc; cases hc
    rw [if_pos h] at hc
    cases hc
    have hr : s.readable rs := fun y hy => Or.inl (by have := hs y; rw [h y hy] at this; exact this.1)
    have hv : s.views rs = fun _ => rs.map fun x => (s.vec x).own := by
      funext c
      exact views_fresh (fun y hy => by have := hs y; rw [h y hy] at this; exact this.2) c
    refine ⟨_, by simp only [Cmd.exec]; rw [if_pos hr], hs.set ?_, ?_⟩
    · by_cases hu : (a x).unflagged = true
      · rw [if_pos hu]; exact (hs x).unflagged hu
      · rw [if_neg hu]; exact trivial
    · rw [mem_set, hv]; rfl
  | spill l x ys =>
    simp only [Cmd.check, Option.some.injEq] at hc; subst hc
    refine ⟨_, rfl, hs.set ?_, mem_set _ _ _⟩
    by_cases hu : (a x).unflagged = true
    · rw [if_pos hu]; exact (hs x).unflagged hu
    · rw [if_neg hu]; exact trivial
  | zeroOut x =>
    simp only [Cmd.check, Option.some.injEq] at hc; subst hc
    refine ⟨_, rfl, hs.set ?_, mem_set _ _ _⟩
    by_cases hu : (a x).unflagged = true
    · rw [if_pos hu]; exact ⟨(hs x).unflagged hu, fun _ _ => rfl⟩
    · rw [if_neg hu]; exact trivial
  | interp l x =>
    simp only [Cmd.check] at hc
    split_ifs at hc with h
    cases hc
    refine ⟨_, by simp only [Cmd.exec]; rw [if_pos ((hs x).unflagged h)], hs.set ?_,
      mem_set _ _ _⟩
    exact rfl
  | distribute l x =>
    simp only [Cmd.check, Option.some.injEq] at hc; subst hc
    refine ⟨_, rfl, hs.set ?_, mem_set _ _ _⟩
    cases d with
    | false => exact trivial
    | true => exact fun hf => he rfl l s.aux (s.vec x) hf
  | refresh x =>
    simp only [Cmd.check, Option.some.injEq] at hc; subst hc
    refine ⟨_, rfl, hs.set (Status.holds_refresh _), ?_⟩
    rw [mem_set]; dsimp only [Cmd.shared, Mem.set, State.mem, PVec.refresh]; congr 1
    funext v; by_cases hv : v = x
    · subst hv; simp
    · simp [hv]
  | drop x =>
    simp only [Cmd.check, Option.some.injEq] at hc; subst hc
    refine ⟨_, rfl, hs.set (Status.holds_drop _), ?_⟩
    rw [mem_set]; dsimp only [Cmd.shared, Mem.set, State.mem, PVec.drop]; congr 1
    funext v; by_cases hv : v = x
    · subst hv; simp
    · simp [hv]
  | swap x y =>
    simp only [Cmd.check, Option.some.injEq] at hc; subst hc
    refine ⟨_, rfl, ?_, ?_⟩
    · intro v; dsimp only
      split_ifs
      · exact hs y
      · exact hs x
      · exact hs v
    · dsimp only [Cmd.shared, State.mem]; congr 1
      funext v; split_ifs <;> rfl
  | loop l x ss rs =>
    simp only [Cmd.check] at hc
    split_ifs at hc with h
    cases hc
    obtain ⟨hx, hxs, hxr, hss, hrs⟩ := h
    have hx' := hs x
    rw [hx] at hx'
    have hr : s.readable rs := fun y hy =>
      Or.inl (by have := hs y; rw [hrs y hy] at this; exact this.1)
    have hcur : ∀ y ∈ ss ++ rs, ((s.import_ ss).vec y).Current := by
      intro y hy
      by_cases hys : y ∈ ss
      · dsimp only [State.import_]; rw [if_pos hys]
        split_ifs with hf
        · have h1 := hs y
          have h2 := hss y hys
          cases hst : a y <;> simp_all [Status.Holds]
        · exact fun _ _ => rfl
      · have hyr : y ∈ rs := by
          rcases List.mem_append.1 hy with h | h
          · exact absurd h hys
          · exact h
        dsimp only [State.import_]; rw [if_neg hys]
        have := hs y; rw [hrs y hyr] at this; exact this.2
    have hown : ∀ z, ((s.import_ ss).vec z).own = (s.vec z).own := by
      intro z; dsimp only [State.import_]; split_ifs <;> rfl
    have hview : ∀ c, (s.import_ ss).views (ss ++ rs) c = (ss ++ rs).map s.mem.vec := by
      intro c
      rw [views_fresh hcur]
      exact List.map_congr_left fun z _ => hown z
    refine ⟨_, by simp only [Cmd.exec]; rw [if_pos ⟨hx'.1, hr⟩], ?_, ?_⟩
    · intro v
      by_cases hv : v = x
      · subst hv
        rw [hx]
        simp [State.set, PVec.scatter, Status.Holds]
      · have h1 := hs v
        simp only [State.set, Function.update_of_ne hv, State.unimport]
        by_cases hvs : v ∈ ss
        · by_cases hf : (s.vec v).flag = true
          · rw [if_neg (by simp [hf])]
            dsimp only [State.import_]
            rw [if_pos hvs, if_pos hf]; exact h1
          · rw [if_pos ⟨hvs, by simpa using hf⟩]
            have h2 := hss v hvs
            cases hst : a v <;> simp_all [Status.Holds, PVec.drop]
        · rw [if_neg (fun h => hvs h.1)]
          dsimp only [State.import_]
          rw [if_neg hvs]; exact h1
    · have hmem : ((s.import_ ss).unimport ss (fun z => (s.vec z).flag)).mem = s.mem := by
        unfold State.mem State.unimport
        simp only
        congr 1
        funext z
        split_ifs
        · exact hown z
        · exact hown z
      rw [mem_set, hmem]
      dsimp only [Cmd.shared]
      congr 1
      funext i
      have hvx : ((s.import_ ss).unimport ss (fun z => (s.vec z).flag)).vec x = s.vec x := by
        dsimp only [State.unimport]
        rw [if_neg (fun h => hxs h.1)]
        dsimp only [State.import_]
        rw [if_neg hxs]
      simp only [PVec.scatter, hvx, hview]
      have h0 : (∑ r : R, if s.owner i = r then 0 else (s.vec x).gh r i) = 0 :=
        Finset.sum_eq_zero fun r _ => by rw [hx'.2 r i, ite_self]
      rw [h0, add_zero]
      rfl
  | eval l ys rs =>
    simp only [Cmd.check] at hc
    split_ifs at hc with h
    cases hc
    have hr : s.readable rs := fun y hy => Or.inl (by have := hs y; rw [h y hy] at this; exact this.1)
    have hv : s.views rs = fun _ => rs.map fun x => (s.vec x).own := by
      funext c
      exact views_fresh (fun y hy => by have := hs y; rw [h y hy] at this; exact this.2) c
    refine ⟨{ s with aux := o.ev l s.aux (ys.map fun y => (s.vec y).own) (s.views rs) },
      by simp only [Cmd.exec]; rw [if_pos hr], hs, ?_⟩
    rw [hv]; rfl
  | remesh l =>
    simp only [Cmd.check, Option.some.injEq] at hc; subst hc
    refine ⟨_, rfl, ?_, rfl⟩
    intro v; exact ⟨rfl, fun _ _ => rfl⟩

theorem iter_sound {f : State V R I C S K → Option (State V R I C S K)}
    {g : Mem V I S K → Mem V I S K} {a : Abs V}
    (h : ∀ s, s.Sat a → Good (f s) (g s.mem) a) (go : S → Bool) :
    ∀ (n : ℕ) (s : State V R I C S K), s.Sat a →
      Good (iterExec (fun s => go s.aux) f n s) (iterShared (fun m => go m.aux) g n s.mem) a
  | 0, s, hs => ⟨s, rfl, hs, rfl⟩
  | n + 1, s, hs => by
    have e1 : s.mem.aux = s.aux := rfl
    simp only [iterExec, iterShared, e1]
    by_cases hg : go s.aux = true
    · rw [if_pos hg, if_pos hg]
      obtain ⟨s', h1, h2, h3⟩ := h s hs
      rw [h1, Option.bind_some, ← h3]
      exact iter_sound h go n s' h2
    · rw [if_neg hg, if_neg hg]
      exact ⟨s, rfl, hs, rfl⟩

theorem Abs.le_join_left (a b : Abs V) : a.le (a.join b) = true :=
  decide_eq_true fun _ => Status.le_join_left _ _
theorem Abs.le_join_right (a b : Abs V) : b.le (a.join b) = true :=
  decide_eq_true fun _ => Status.le_join_right _ _

theorem findInv_spec {f : Abs V → Option (Abs V)} :
    ∀ (n : ℕ) (a b : Abs V), findInv f n a = some b →
      (∀ s : State V R I C S K, s.Sat a → s.Sat b) ∧ ∃ c, f b = some c ∧ c.le b = true
  | 0, _, _, h => by cases h
  | n + 1, a, b, h => by
    simp only [findInv] at h
    cases hf : f a with
    | none => rw [hf] at h; cases h
    | some c =>
      rw [hf] at h
      dsimp only at h
      split_ifs at h with hle
      · cases h
        exact ⟨fun s hs => hs, c, hf, hle⟩
      · obtain ⟨h1, h2⟩ := findInv_spec n _ _ h
        exact ⟨fun s hs => h1 s (hs.mono (Abs.le_join_left _ _)), h2⟩

/-- Soundness of the check: a checked program runs without failed assertion on every number
of processes and computes the owned values and scalars of the execution in one memory. -/
theorem Prog.sound {d : Bool} (o : Ops I C K S) (e : Env R I C K S) (he : d = true → e.Tidy o) :
    ∀ (p : Prog V) (s : State V R I C S K) (a b : Abs V), s.Sat a → p.check d a = some b →
      Good (p.exec o e s) (p.shared o s.mem) b
  | .skip, s, a, b, hs, hc => by cases hc; exact ⟨s, rfl, hs, rfl⟩
  | .cmd c, s, a, b, hs, hc => c.sound o e he hs hc
  | .seq p q, s, a, b, hs, hc => by
    simp only [Prog.check] at hc
    cases hp : p.check d a with
    | none => rw [hp] at hc; cases hc
    | some a1 =>
      rw [hp, Option.bind_some] at hc
      obtain ⟨s1, h1, h2, h3⟩ := Prog.sound o e he p s a a1 hs hp
      obtain ⟨s2, k1, k2, k3⟩ := Prog.sound o e he q s1 a1 b h2 hc
      refine ⟨s2, ?_, k2, ?_⟩
      · simp only [Prog.exec]; rw [h1, Option.bind_some, k1]
      · simp only [Prog.shared]; rw [← h3, k3]
  | .ite l p q, s, a, b, hs, hc => by
    simp only [Prog.check] at hc
    cases hp : p.check d a with
    | none => rw [hp] at hc; cases hc
    | some b1 =>
      cases hq : q.check d a with
      | none => rw [hp, hq] at hc; cases hc
      | some b2 =>
        rw [hp, hq] at hc
        cases hc
        have e1 : s.mem.aux = s.aux := rfl
        simp only [Prog.exec, Prog.shared, e1]
        split_ifs
        · obtain ⟨s1, h1, h2, h3⟩ := Prog.sound o e he p s a b1 hs hp
          exact ⟨s1, h1, h2.mono (Abs.le_join_left _ _), h3⟩
        · obtain ⟨s1, h1, h2, h3⟩ := Prog.sound o e he q s a b2 hs hq
          exact ⟨s1, h1, h2.mono (Abs.le_join_right _ _), h3⟩
  | .iter l p, s, a, b, hs, hc => by
    simp only [Prog.check] at hc
    obtain ⟨h1, c, h2, h3⟩ := findInv_spec (R := R) (I := I) (C := C) (S := S) (K := K) 4 a b hc
    have hb := h1 s hs
    have := iter_sound (f := p.exec o e) (g := p.shared o) (a := b) (fun t ht => by
      obtain ⟨s1, k1, k2, k3⟩ := Prog.sound o e he p t b c ht h2
      exact ⟨s1, k1, k2.mono h3, k3⟩) (o.cond l) (o.count l s.aux) s hb
    exact this

/-! ### One process -/

theorem view_one [Subsingleton R] (x : PVec R I K) (owner : I → R) (r : R) :
    x.view owner r = x.own := by
  funext i; unfold PVec.view; rw [if_pos (Subsingleton.elim _ _)]

theorem views_one [Subsingleton R] (s : State V R I C S K) (xs : List V) (c : C) :
    s.views xs c = xs.map s.mem.vec :=
  List.map_congr_left fun _ _ => view_one _ _ _

theorem Cmd.serial [Subsingleton R] (o : Ops I C K S) (e : Env R I C K S) (c : Cmd V)
    {s t : State V R I C S K} (h : c.exec o e s = some t) : t.mem = c.shared o s.mem := by
  cases c with
  | zero x => cases h; exact mem_set _ _ _
  | copy x y =>
    cases h; rw [mem_set]; dsimp only [Cmd.shared]; congr 1
    split_ifs <;> rfl
  | alg l x ys =>
    cases h; rw [mem_set]; dsimp only [Cmd.shared]; congr 1
    unfold PVec.alg; split <;> rfl
  | put l x ys => cases h; exact mem_set _ _ _
  | fill l x rs =>
    simp only [Cmd.exec] at h
    split_ifs at h
    cases h
    rw [mem_set]; dsimp only [Cmd.shared]; congr 1
    exact congrArg (fun f => o.fil l s.aux f) (funext fun c => views_one s rs c)
  | spill l x ys => cases h; exact mem_set _ _ _
  | zeroOut x => cases h; exact mem_set _ _ _
  | interp l x =>
    simp only [Cmd.exec] at h
    split_ifs at h
    cases h
    exact mem_set _ _ _
  | distribute l x => cases h; exact mem_set _ _ _
  | refresh x =>
    cases h
    rw [mem_set]; dsimp only [Cmd.shared, Mem.set, State.mem, PVec.refresh]; congr 1
    funext v; by_cases hv : v = x
    · subst hv; simp
    · simp [hv]
  | drop x =>
    cases h
    rw [mem_set]; dsimp only [Cmd.shared, Mem.set, State.mem, PVec.drop]; congr 1
    funext v; by_cases hv : v = x
    · subst hv; simp
    · simp [hv]
  | swap x y =>
    cases h
    dsimp only [Cmd.shared, State.mem]; congr 1
    funext v; split_ifs <;> rfl
  | loop l x ss rs =>
    simp only [Cmd.exec] at h
    split_ifs at h
    cases h
    have hown : ∀ z, ((s.import_ ss).vec z).own = (s.vec z).own := by
      intro z; dsimp only [State.import_]; split_ifs <;> rfl
    have hmem1 : (s.import_ ss).mem = s.mem := by
      unfold State.mem; congr 1; funext z; exact hown z
    have hown2 : ∀ z, (((s.import_ ss).unimport ss (fun z => (s.vec z).flag)).vec z).own
        = (s.vec z).own := by
      intro z; dsimp only [State.unimport]; split_ifs <;> exact hown z
    have hmem : ((s.import_ ss).unimport ss (fun z => (s.vec z).flag)).mem = s.mem := by
      unfold State.mem; congr 1; funext z; exact hown2 z
    rw [mem_set, hmem]
    dsimp only [Cmd.shared]
    congr 1
    funext i
    simp only [PVec.scatter, hown2, views_one, hmem1]
    have h0 : ∀ f : R → K, (∑ r : R, if s.owner i = r then 0 else f r) = 0 := fun f =>
      Finset.sum_eq_zero fun r _ => if_pos (Subsingleton.elim _ _)
    rw [h0, add_zero]
    rfl
  | eval l ys rs =>
    simp only [Cmd.exec] at h
    split_ifs at h
    cases h
    have hv : s.views rs = fun _ => rs.map s.mem.vec := funext fun c => views_one s rs c
    rw [hv]
    rfl
  | remesh l => cases h; rfl

/-- On one process every program that passes the assertions computes what the execution in
one memory computes, whatever the ghost values are. -/
theorem Prog.serial [Subsingleton R] (o : Ops I C K S) (e : Env R I C K S) :
    ∀ (p : Prog V) (s t : State V R I C S K), p.exec o e s = some t →
      t.mem = p.shared o s.mem
  | .skip, s, t, h => by cases h; rfl
  | .cmd c, s, t, h => c.serial o e h
  | .seq p q, s, t, h => by
    simp only [Prog.exec] at h
    cases hp : p.exec o e s with
    | none => rw [hp] at h; cases h
    | some s1 =>
      rw [hp, Option.bind_some] at h
      rw [Prog.serial o e q s1 t h, Prog.serial o e p s s1 hp]; rfl
  | .ite l p q, s, t, h => by
    have e1 : s.mem.aux = s.aux := rfl
    simp only [Prog.exec] at h
    simp only [Prog.shared, e1]
    split_ifs at h ⊢
    · exact Prog.serial o e p s t h
    · exact Prog.serial o e q s t h
  | .iter l p, s, t, h => by
    have key : ∀ (n : ℕ) (s t : State V R I C S K),
        iterExec (fun s => o.cond l s.aux) (p.exec o e) n s = some t →
        t.mem = iterShared (fun m => o.cond l m.aux) (p.shared o) n s.mem := by
      intro n
      induction n with
      | zero => intro s t h; cases h; rfl
      | succ n ih =>
        intro s t h
        have e1 : s.mem.aux = s.aux := rfl
        simp only [iterExec] at h
        simp only [iterShared, e1]
        split_ifs at h ⊢
        · cases hp : p.exec o e s with
          | none => rw [hp] at h; cases h
          | some s1 =>
            rw [hp, Option.bind_some] at h
            rw [ih s1 t h, Prog.serial o e p s s1 hp]
        · cases h; rfl
    exact key _ s t h

end Sound

end Verif.Parallel
