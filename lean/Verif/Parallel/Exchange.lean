import Verif.Bubble.Gather
import Verif.App.CavityLines
import Mathlib.Data.List.Range
import Mathlib.Algebra.BigOperators.Group.Finset.Basic

/-!
# C107: collecting data on process 0, for every schedule of the processes
(source/two_phase_base.cc:905-967; perform_data_exchange in applications/drivencavity.cc:266-331 and
applications/periodic_channel.cc:177-236)

C38 and C98 model the loop over the processes as if sender and receiver worked in step.  Here every
process runs its own program; the order in which they proceed is arbitrary, and `MPI_Send` may or may
not return before the message is received, as the MPI standard allows.  The collection is called any
number of times in a row with different data, so messages of a later call may be under way while
process 0 is still busy with an earlier one.
-/

set_option linter.unusedSectionVars false

namespace Verif.Parallel.Exchange

/-! ## Model -/

/-- What the two variants of the code do with the vectors of a process (type `V`): number of items,
numbers per item, the send buffer, appending `count` items of a receive buffer, and what is left on
the sender afterwards. -/
structure Codec (V α : Type*) where
  size : V → ℕ
  width : ℕ
  enc : V → ℕ → α
  append : V → ℕ → (ℕ → α) → V
  left : V → V

/-- compute_bubble_statistics: two_phase_base.cc:934-946 (sender, which then empties its vector) and
952-963 (process 0); buffers as in C38. -/
def bubbleCodec (α : Type*) [Inhabited α] (dim : ℕ) : Codec (List (Bubble.Segm α dim)) α where
  size l := l.length
  width := 2 * dim
  enc := Bubble.sendData
  append v count buf := v ++ Bubble.decode count buf
  left _ := []

/-- perform_data_exchange: drivencavity.cc:292-301, periodic_channel.cc:202-211 (sender) and
drivencavity.cc:305-329, periodic_channel.cc:215-233 (process 0). -/
def lineCodec (α : Type*) [Inhabited α] (dim : ℕ) : Codec (List α × List (Fin dim → α)) α where
  size v := v.2.length
  width := dim + 1
  enc v := App.sendData' v.1 v.2
  append v count buf := (List.range count).foldl (fun a j =>
    (a.1 ++ [buf (j * (dim + 1) + dim)], a.2 ++ [fun d => buf (j * (dim + 1) + d.val)])) v
  left v := v

/-- `MPI_Gather` uses the collective context of the communicator, `MPI_Send` of process `i` the tag
`i`: two separate first-in-first-out channels from each process to process 0. -/
inductive Ch
  | gather | tagged
  deriving DecidableEq, Repr

/-- A message: the number of items, or a buffer with its length. -/
inductive Msg (α : Type*)
  | count (k : ℕ)
  | data (len : ℕ) (buf : ℕ → α)

/-- Process `i ≠ 0` in call `c`: the contribution to `MPI_Gather` (two_phase_base.cc:911-918;
drivencavity.cc:277-284), then `MPI_Send` in its turn of the loop. -/
inductive SendOp
  | gather (c : ℕ)
  | send (c : ℕ)
  deriving DecidableEq, Repr

/-- Process 0 in call `c`: enter with its own vectors; `MPI_Gather`, by the standard `n - 1` receives;
in turn `i` of the loop the receive with the following `push_back`s; return. -/
inductive RootOp
  | start (c : ℕ)
  | count (c i : ℕ)
  | recv (c i : ℕ)
  | finish
  deriving DecidableEq, Repr

/-- Operations of a process other than 0 in `k` calls. -/
def senderProgram (k : ℕ) : List SendOp :=
  (List.range k).flatMap fun c => [.gather c, .send c]

/-- Operations of process 0 in call `c` with `n` processes. -/
def rootCall (n c : ℕ) : List RootOp :=
  .start c :: ((List.range' 1 (n - 1)).map (RootOp.count c) ++
    ((List.range' 1 (n - 1)).map (RootOp.recv c) ++ [.finish]))

/-- Operations of process 0 in `k` calls. -/
def rootProgram (n k : ℕ) : List RootOp := (List.range k).flatMap (rootCall n)

/-- Variables of process 0: `receive_count`, the vectors, and what earlier calls returned. -/
structure Root (V : Type*) where
  counts : ℕ → ℕ
  v : V
  done : List V

/-- The whole system: remaining operations and vectors left by the senders, messages under way,
remaining operations and variables of process 0 (`none` after an MPI error). -/
structure St (V α : Type*) where
  snd : ℕ → List SendOp
  out : ℕ → List V
  q : ℕ → Ch → List (Msg α)
  root : List RootOp
  loc : Option (Root V)

section
variable {V α : Type*} [Inhabited α] (cd : Codec V α) (inp : ℕ → ℕ → V)

/-- Channel of a send operation. -/
def SendOp.ch : SendOp → Ch
  | .gather _ => .gather
  | .send _ => .tagged

/-- The message process `i` sends: its number of items; the buffer of `width * size` numbers
(two_phase_base.cc:911, 934-938; drivencavity.cc:276, 293-299). -/
def SendOp.msg (i : ℕ) : SendOp → Msg α
  | .gather c => .count (cd.size (inp c i))
  | .send c => .data (cd.width * cd.size (inp c i)) (cd.enc (inp c i))

/-- What the operation leaves in the vectors of the sender. -/
def SendOp.leaves (i : ℕ) : SendOp → List V
  | .gather _ => []
  | .send c => [cd.left (inp c i)]

/-- The channel process 0 waits for. -/
def RootOp.wants : RootOp → Option (ℕ × Ch)
  | .start _ => none
  | .count _ i => some (i, .gather)
  | .recv _ i => some (i, .tagged)
  | .finish => none

/-- The receive buffer, a vector of zeros (`default`), after a message of `len` numbers. -/
def received (len : ℕ) (buf : ℕ → α) : ℕ → α := fun p => if p < len then buf p else default

/-- Completion of a receive on process 0.  The receive buffer holds `width * receive_count[i]` numbers
(two_phase_base.cc:952; drivencavity.cc:307); a longer message is an MPI error. -/
def deliver (l : Root V) : RootOp → Msg α → Option (Root V)
  | .count _ i, .count k => some { l with counts := Function.update l.counts i k }
  | .recv _ i, .data len buf =>
    if len ≤ cd.width * l.counts i then
      some { l with v := cd.append l.v (l.counts i) (received len buf) }
    else none
  | _, _ => none

/-- Operations of process 0 without communication: `receive_count` is a new vector of zeros in every
call (two_phase_base.cc:908; drivencavity.cc:273). -/
def localOp (l : Root V) : RootOp → Option (Root V)
  | .start c => some { l with counts := fun _ => 0, v := inp c 0 }
  | .finish => some { l with done := l.done ++ [l.v] }
  | _ => none

/-- Process `i` leaves its first operation behind. -/
def St.advance (s : St V α) (i : ℕ) (op : SendOp) (rest : List SendOp) : St V α :=
  { s with
    snd := Function.update s.snd i rest
    out := Function.update s.out i (s.out i ++ op.leaves cd inp i) }

/-- Replace the content of a channel. -/
def St.setQ (s : St V α) (i : ℕ) (ch : Ch) (ms : List (Msg α)) : St V α :=
  { s with q := fun j ch' => if j = i ∧ ch' = ch then ms else s.q j ch' }

/-- One step of one process (or of two together); `buffered` marks a send that returns before the
message is received. -/
inductive Step (n : ℕ) : (buffered : Bool) → St V α → St V α → Prop
  | post (s : St V α) (i : ℕ) (op : SendOp) (rest : List SendOp) :
      1 ≤ i → i < n → s.snd i = op :: rest →
      Step n true s ((s.advance cd inp i op rest).setQ i op.ch (s.q i op.ch ++ [op.msg cd inp i]))
  | receive (s : St V α) (l : Root V) (op : RootOp) (rest : List RootOp) (i : ℕ) (ch : Ch)
      (m : Msg α) (ms : List (Msg α)) :
      s.loc = some l → s.root = op :: rest → op.wants = some (i, ch) → s.q i ch = m :: ms →
      Step n false s { s.setQ i ch ms with root := rest, loc := deliver cd l op m }
  | rendezvous (s : St V α) (l : Root V) (op : RootOp) (rest : List RootOp) (i : ℕ)
      (sop : SendOp) (srest : List SendOp) :
      1 ≤ i → i < n → s.loc = some l → s.root = op :: rest → op.wants = some (i, sop.ch) →
      s.q i sop.ch = [] → s.snd i = sop :: srest →
      Step n false s { s.advance cd inp i sop srest with
        root := rest, loc := deliver cd l op (sop.msg cd inp i) }
  | loc (s : St V α) (l : Root V) (op : RootOp) (rest : List RootOp) :
      s.loc = some l → s.root = op :: rest → op.wants = none →
      Step n false s { s with root := rest, loc := localOp inp l op }

/-- All processes at the beginning of the first of `k` calls. -/
def start (n k : ℕ) (v₀ : V) : St V α where
  snd _ := senderProgram k
  out _ := []
  q _ _ := []
  root := rootProgram n k
  loc := some ⟨fun _ => 0, v₀, []⟩

/-- The state after `m` steps of some schedule. -/
inductive Exec (n k : ℕ) (v₀ : V) : ℕ → St V α → Prop
  | init : Exec n k v₀ 0 (start n k v₀)
  | step {m : ℕ} {s s' : St V α} {b : Bool} :
      Exec n k v₀ m s → Step cd inp n b s s' → Exec n k v₀ (m + 1) s'

end

/-! ## Specification -/

namespace Spec
variable {V α : Type*}

/-- All processes have returned from all calls and no message is under way. -/
def Finished (n : ℕ) (s : St V α) : Prop :=
  s.root = [] ∧ ∀ i, 1 ≤ i → i < n → s.snd i = [] ∧ ∀ ch, s.q i ch = []

end Spec

/-! ## Proof -/

section
variable {V α : Type*} [Inhabited α] {cd : Codec V α} {inp : ℕ → ℕ → V} {n : ℕ}

/-- The messages from `i` that process 0 still has to receive, in the order of its program. -/
def expected (cd : Codec V α) (inp : ℕ → ℕ → V) (i : ℕ) : List RootOp → List SendOp
  | [] => []
  | .count c j :: ops => if j = i then .gather c :: expected cd inp i ops else expected cd inp i ops
  | .recv c j :: ops => if j = i then .send c :: expected cd inp i ops else expected cd inp i ops
  | .start _ :: ops => expected cd inp i ops
  | .finish :: ops => expected cd inp i ops

theorem expected_append (i : ℕ) (a b : List RootOp) :
    expected cd inp i (a ++ b) = expected cd inp i a ++ expected cd inp i b := by
  induction a with
  | nil => rfl
  | cons op a ih =>
    cases op <;> simp only [List.cons_append, expected, ih]
    all_goals split <;> simp

/-- The run of process 0 if it gets the right messages. -/
def runRoot (cd : Codec V α) (inp : ℕ → ℕ → V) : List RootOp → Root V → Option (Root V)
  | [], l => some l
  | .count c i :: ops, l =>
    (deliver cd l (.count c i) ((SendOp.gather c).msg cd inp i)).bind (runRoot cd inp ops)
  | .recv c i :: ops, l =>
    (deliver cd l (.recv c i) ((SendOp.send c).msg cd inp i)).bind (runRoot cd inp ops)
  | .start c :: ops, l => (localOp inp l (.start c)).bind (runRoot cd inp ops)
  | .finish :: ops, l => (localOp inp l .finish).bind (runRoot cd inp ops)

theorem runRoot_append (a b : List RootOp) (l : Root V) :
    runRoot cd inp (a ++ b) l = (runRoot cd inp a l).bind (runRoot cd inp b) := by
  induction a generalizing l with
  | nil => rfl
  | cons op a ih =>
    cases op <;> simp only [List.cons_append, runRoot, Option.bind_assoc] <;>
      congr 1 <;> funext x <;> exact ih x

/-- The processes process 0 listens to. -/
def Within (n : ℕ) (ops : List RootOp) : Prop :=
  ∀ op ∈ ops, ∀ i ch, op.wants = some (i, ch) → 1 ≤ i ∧ i < n

/-- The invariant. -/
structure Inv (cd : Codec V α) (inp : ℕ → ℕ → V) (n k : ℕ) (final : Root V) (s : St V α) : Prop where
  root : ∃ l, s.loc = some l ∧ runRoot cd inp s.root l = some final
  within : Within n s.root
  chan : ∀ i, 1 ≤ i → i < n → ∃ P, expected cd inp i s.root = P ++ s.snd i ∧
    ∀ ch, s.q i ch = (P.filter (fun op => op.ch = ch)).map (SendOp.msg cd inp i)
  out : ∀ i, 1 ≤ i → i < n → s.out i ++ (s.snd i).flatMap (SendOp.leaves cd inp i) =
    (List.range k).map fun c => cd.left (inp c i)

theorem expected_wants {i : ℕ} {ch : Ch} {op : RootOp} {rest : List RootOp}
    (hw : op.wants = some (i, ch)) : ∃ sop : SendOp, sop.ch = ch ∧
      expected cd inp i (op :: rest) = sop :: expected cd inp i rest ∧
      ∀ l, runRoot cd inp (op :: rest) l =
        (deliver cd l op (sop.msg cd inp i)).bind (runRoot cd inp rest) := by
  cases op with
  | start c => cases hw
  | finish => cases hw
  | count c j =>
    simp only [RootOp.wants, Option.some.injEq, Prod.mk.injEq] at hw
    obtain ⟨rfl, rfl⟩ := hw
    exact ⟨.gather c, rfl, by simp [expected], fun l => rfl⟩
  | recv c j =>
    simp only [RootOp.wants, Option.some.injEq, Prod.mk.injEq] at hw
    obtain ⟨rfl, rfl⟩ := hw
    exact ⟨.send c, rfl, by simp [expected], fun l => rfl⟩

theorem expected_other {i j : ℕ} {ch : Ch} {op : RootOp} {rest : List RootOp}
    (hw : op.wants = some (i, ch)) (hj : j ≠ i) :
    expected cd inp j (op :: rest) = expected cd inp j rest := by
  cases op with
  | start c => cases hw
  | finish => cases hw
  | count c j' =>
    simp only [RootOp.wants, Option.some.injEq, Prod.mk.injEq] at hw
    obtain ⟨rfl, rfl⟩ := hw
    simp [expected, Ne.symm hj]
  | recv c j' =>
    simp only [RootOp.wants, Option.some.injEq, Prod.mk.injEq] at hw
    obtain ⟨rfl, rfl⟩ := hw
    simp [expected, Ne.symm hj]

theorem expected_none {j : ℕ} {op : RootOp} {rest : List RootOp} (hw : op.wants = none) :
    expected cd inp j (op :: rest) = expected cd inp j rest := by
  cases op with
  | start c => rfl
  | finish => rfl
  | count c j' => cases hw
  | recv c j' => cases hw

theorem runRoot_none {op : RootOp} {rest : List RootOp} (hw : op.wants = none) (l : Root V) :
    runRoot cd inp (op :: rest) l = (localOp inp l op).bind (runRoot cd inp rest) := by
  cases op with
  | start c => rfl
  | finish => rfl
  | count c j' => cases hw
  | recv c j' => cases hw

theorem bind_some_of {β γ : Type*} {x : Option β} {f : β → Option γ} {c : γ}
    (h : x.bind f = some c) : ∃ b, x = some b ∧ f b = some c := by
  cases x with
  | none => cases h
  | some b => exact ⟨b, rfl, h⟩

theorem inv_step {k : ℕ} {final : Root V} {s s' : St V α} {b : Bool}
    (hI : Inv cd inp n k final s) (hs : Step cd inp n b s s') : Inv cd inp n k final s' := by
  cases hs with
  | post _ i op rest h1 h2 hsnd =>
    refine ⟨hI.root, hI.within, ?_, ?_⟩
    · intro j hj1 hj2
      obtain ⟨P, hP, hq⟩ := hI.chan j hj1 hj2
      by_cases hji : j = i
      · subst hji
        refine ⟨P ++ [op], ?_, ?_⟩
        · simp only [St.setQ, St.advance, Function.update_self]
          rw [hP, hsnd]
          simp
        · intro ch
          simp only [St.setQ, St.advance, true_and]
          by_cases hc : ch = op.ch
          · subst hc
            simp [hq]
          · simp [hc, hq, List.filter_append, Ne.symm hc]
      · refine ⟨P, ?_, ?_⟩
        · simpa [St.setQ, St.advance, Function.update_of_ne hji] using hP
        · intro ch
          simpa [St.setQ, St.advance, hji] using hq ch
    · intro j hj1 hj2
      have := hI.out j hj1 hj2
      by_cases hji : j = i
      · subst hji
        rw [hsnd] at this
        simpa [St.setQ, St.advance] using this
      · simpa [St.setQ, St.advance, Function.update_of_ne hji] using this
  | receive _ l op rest i ch m ms hl hr hw hq =>
    obtain ⟨l', hl', hrun⟩ := hI.root
    obtain rfl : l = l' := by rw [hl] at hl'; simpa using hl'
    obtain ⟨sop, hch, hexp, hdel⟩ := expected_wants (cd := cd) (inp := inp) (rest := rest) hw
    have hwi := hI.within op (by rw [hr]; exact List.mem_cons_self) i ch hw
    obtain ⟨P, hP, hqP⟩ := hI.chan i hwi.1 hwi.2
    -- the message is the expected one
    rw [hr, hexp] at hP
    have hPne : P ≠ [] := by
      rintro rfl
      have := hqP ch
      rw [hq] at this
      simp at this
    obtain ⟨p, P', rfl⟩ := List.exists_cons_of_ne_nil hPne
    simp only [List.cons_append, List.cons.injEq] at hP
    obtain ⟨rfl, hP'⟩ := hP
    have hm : m = sop.msg cd inp i ∧ ms = (P'.filter (fun op => op.ch = ch)).map (SendOp.msg cd inp i) := by
      have := hqP ch
      rw [hq] at this
      simp only [List.filter_cons, hch, decide_true, if_true, List.map_cons, List.cons.injEq] at this
      exact this
    obtain ⟨rfl, rfl⟩ := hm
    rw [hr, hdel l] at hrun
    obtain ⟨l1, hl1, hrun1⟩ := bind_some_of hrun
    refine ⟨⟨l1, hl1, hrun1⟩, ?_, ?_, hI.out⟩
    · intro op' hop'
      exact hI.within op' (by rw [hr]; exact List.mem_cons_of_mem _ hop')
    · intro j hj1 hj2
      by_cases hji : j = i
      · subst hji
        refine ⟨P', hP', ?_⟩
        intro ch'
        simp only [St.setQ, true_and]
        by_cases hc : ch' = ch
        · subst hc; simp
        · rw [if_neg hc, hqP ch']
          have : sop.ch ≠ ch' := by rw [hch]; exact Ne.symm hc
          simp [this]
      · obtain ⟨Q, hQ, hqQ⟩ := hI.chan j hj1 hj2
        refine ⟨Q, ?_, ?_⟩
        · rw [hr, expected_other hw hji] at hQ
          exact hQ
        · intro ch'
          simpa [St.setQ, hji] using hqQ ch'
  | rendezvous _ l op rest i sop srest h1 h2 hl hr hw hq hsnd =>
    obtain ⟨l', hl', hrun⟩ := hI.root
    obtain rfl : l = l' := by rw [hl] at hl'; simpa using hl'
    obtain ⟨sop', hch, hexp, hdel⟩ := expected_wants (cd := cd) (inp := inp) (rest := rest) hw
    obtain ⟨P, hP, hqP⟩ := hI.chan i h1 h2
    rw [hr, hexp] at hP
    have hPnil : P = [] := by
      cases P with
      | nil => rfl
      | cons p P =>
        simp only [List.cons_append, List.cons.injEq] at hP
        have := hqP sop.ch
        rw [hq] at this
        simp [← hP.1, hch] at this
    subst hPnil
    rw [hsnd] at hP
    simp only [List.nil_append, List.cons.injEq] at hP
    obtain ⟨rfl, hP'⟩ := hP
    rw [hr, hdel l] at hrun
    obtain ⟨l1, hl1, hrun1⟩ := bind_some_of hrun
    refine ⟨⟨l1, hl1, hrun1⟩, ?_, ?_, ?_⟩
    · intro op' hop'
      exact hI.within op' (by rw [hr]; exact List.mem_cons_of_mem _ hop')
    · intro j hj1 hj2
      by_cases hji : j = i
      · subst hji
        refine ⟨[], ?_, ?_⟩
        · simpa [St.advance] using hP'
        · intro ch'
          have := hqP ch'
          simpa [St.advance] using this
      · obtain ⟨Q, hQ, hqQ⟩ := hI.chan j hj1 hj2
        refine ⟨Q, ?_, ?_⟩
        · rw [hr, expected_other hw hji] at hQ
          simpa [St.advance, Function.update_of_ne hji] using hQ
        · intro ch'
          simpa [St.advance] using hqQ ch'
    · intro j hj1 hj2
      have := hI.out j hj1 hj2
      by_cases hji : j = i
      · subst hji
        rw [hsnd] at this
        simpa [St.advance] using this
      · simpa [St.advance, Function.update_of_ne hji] using this
  | loc _ l op rest hl hr hw =>
    obtain ⟨l', hl', hrun⟩ := hI.root
    obtain rfl : l = l' := by rw [hl] at hl'; simpa using hl'
    rw [hr, runRoot_none hw] at hrun
    obtain ⟨l1, hl1, hrun1⟩ := bind_some_of hrun
    refine ⟨⟨l1, hl1, hrun1⟩, ?_, ?_, hI.out⟩
    · intro op' hop'
      exact hI.within op' (by rw [hr]; exact List.mem_cons_of_mem _ hop')
    · intro j hj1 hj2
      obtain ⟨Q, hQ, hqQ⟩ := hI.chan j hj1 hj2
      rw [hr, expected_none hw] at hQ
      exact ⟨Q, hQ, hqQ⟩

/-- Process 0 can go on, without help of buffering. -/
theorem progress {k : ℕ} {final : Root V} {s : St V α} (hI : Inv cd inp n k final s)
    (hr : s.root ≠ []) : ∃ s', Step cd inp n false s s' := by
  obtain ⟨l, hl, -⟩ := hI.root
  obtain ⟨op, rest, hroot⟩ := List.exists_cons_of_ne_nil hr
  cases hw : op.wants with
  | none => exact ⟨_, .loc s l op rest hl hroot hw⟩
  | some p =>
    obtain ⟨i, ch⟩ := p
    have hwi := hI.within op (by rw [hroot]; exact List.mem_cons_self) i ch hw
    obtain ⟨sop, hch, hexp, -⟩ := expected_wants (cd := cd) (inp := inp) (rest := rest) hw
    obtain ⟨P, hP, hqP⟩ := hI.chan i hwi.1 hwi.2
    rw [hroot, hexp] at hP
    cases hq : s.q i ch with
    | cons m ms => exact ⟨_, .receive s l op rest i ch m ms hl hroot hw hq⟩
    | nil =>
      have hPnil : P = [] := by
        cases P with
        | nil => rfl
        | cons p P =>
          simp only [List.cons_append, List.cons.injEq] at hP
          have := hqP ch
          rw [hq] at this
          simp [← hP.1, hch] at this
      subst hPnil
      simp only [List.nil_append] at hP
      subst hch
      exact ⟨_, .rendezvous s l op rest i sop _ hwi.1 hwi.2 hl hroot hw hq hP.symm⟩

theorem finished_of_root {k : ℕ} {final : Root V} {s : St V α} (hI : Inv cd inp n k final s)
    (hr : s.root = []) : Spec.Finished n s ∧ s.loc = some final ∧
      ∀ i, 1 ≤ i → i < n → s.out i = (List.range k).map fun c => cd.left (inp c i) := by
  have key : ∀ i, 1 ≤ i → i < n → s.snd i = [] ∧ ∀ ch, s.q i ch = [] := by
    intro i h1 h2
    obtain ⟨P, hP, hq⟩ := hI.chan i h1 h2
    rw [hr] at hP
    simp only [expected] at hP
    obtain ⟨hPn, hsn⟩ := List.append_eq_nil_iff.1 hP.symm
    exact ⟨hsn, fun ch => by rw [hq, hPn]; rfl⟩
  refine ⟨⟨hr, key⟩, ?_, ?_⟩
  · obtain ⟨l, hl, hrun⟩ := hI.root
    rw [hr] at hrun
    simp only [runRoot, Option.some.injEq] at hrun
    rw [hl, hrun]
  · intro i h1 h2
    have := hI.out i h1 h2
    rw [(key i h1 h2).1] at this
    simpa using this

/-! ### The programs -/

theorem expected_counts (i c : ℕ) : ∀ (l : List ℕ), l.Nodup →
    expected cd inp i (l.map (RootOp.count c)) = if i ∈ l then [.gather c] else [] := by
  intro l
  induction l with
  | nil => intro _; rfl
  | cons j l ih =>
    intro hn
    rw [List.nodup_cons] at hn
    simp only [List.map_cons, expected]
    rw [ih hn.2]
    by_cases hj : j = i
    · subst hj; simp [hn.1]
    · simp [hj, Ne.symm hj]

theorem expected_recvs (i c : ℕ) : ∀ (l : List ℕ), l.Nodup →
    expected cd inp i (l.map (RootOp.recv c)) = if i ∈ l then [.send c] else [] := by
  intro l
  induction l with
  | nil => intro _; rfl
  | cons j l ih =>
    intro hn
    rw [List.nodup_cons] at hn
    simp only [List.map_cons, expected]
    rw [ih hn.2]
    by_cases hj : j = i
    · subst hj; simp [hn.1]
    · simp [hj, Ne.symm hj]

theorem expected_call {i : ℕ} (h1 : 1 ≤ i) (h2 : i < n) (c : ℕ) :
    expected cd inp i (rootCall n c) = [.gather c, .send c] := by
  have hm : i ∈ List.range' 1 (n - 1) := by
    rw [List.mem_range'_1]; omega
  have hn : (List.range' 1 (n - 1)).Nodup := List.nodup_range'
  simp only [rootCall, expected, expected_append, expected_counts i c _ hn,
    expected_recvs i c _ hn, hm, if_true]
  rfl

theorem expected_program {i : ℕ} (h1 : 1 ≤ i) (h2 : i < n) (k : ℕ) :
    expected cd inp i (rootProgram n k) = senderProgram k := by
  unfold rootProgram senderProgram
  generalize List.range k = l
  induction l with
  | nil => rfl
  | cons c l ih =>
    rw [List.flatMap_cons, List.flatMap_cons, expected_append, expected_call h1 h2, ih]

theorem within_program (k : ℕ) : Within n (rootProgram n k) := by
  intro op hop i ch hw
  simp only [rootProgram, List.mem_flatMap] at hop
  obtain ⟨c, -, hop⟩ := hop
  simp only [rootCall, List.mem_cons, List.mem_append, List.mem_map, List.mem_range'_1,
    List.not_mem_nil, or_false] at hop
  rcases hop with rfl | ⟨j, hj, rfl⟩ | ⟨j, hj, rfl⟩ | rfl
  · cases hw
  · simp only [RootOp.wants, Option.some.injEq, Prod.mk.injEq] at hw
    omega
  · simp only [RootOp.wants, Option.some.injEq, Prod.mk.injEq] at hw
    omega
  · cases hw

theorem runRoot_counts (c : ℕ) : ∀ (l : List ℕ) (r : Root V),
    runRoot cd inp (l.map (RootOp.count c)) r =
      some { r with counts := fun i => if i ∈ l then cd.size (inp c i) else r.counts i } := by
  intro l
  induction l with
  | nil => intro r; simp [runRoot]
  | cons j l ih =>
    intro r
    simp only [List.map_cons, runRoot, SendOp.msg, deliver, Option.bind_some]
    rw [ih]
    congr 2
    funext i
    by_cases hi : i ∈ l
    · simp [hi]
    · by_cases hj : i = j
      · subst hj; simp [hi]
      · simp [hi, hj]

theorem runRoot_recvs (cat : V → V → V) (Ok : V → Prop)
    (hlaw : ∀ v w, Ok w → cd.append v (cd.size w) (received (cd.width * cd.size w) (cd.enc w)) = cat v w)
    (hok : ∀ c i, Ok (inp c i)) (c : ℕ) : ∀ (l : List ℕ) (r : Root V),
    (∀ i ∈ l, r.counts i = cd.size (inp c i)) →
    runRoot cd inp (l.map (RootOp.recv c)) r =
      some { r with v := l.foldl (fun v i => cat v (inp c i)) r.v } := by
  intro l
  induction l with
  | nil => intro r _; rfl
  | cons j l ih =>
    intro r hr
    have hj := hr j List.mem_cons_self
    simp only [List.map_cons, runRoot, SendOp.msg, deliver]
    rw [if_pos (by rw [hj]), hj, hlaw _ _ (hok c j), Option.bind_some]
    exact ih ⟨r.counts, cat r.v (inp c j), r.done⟩ (fun i hi => hr i (List.mem_cons_of_mem _ hi))

/-- What a call returns. -/
def collected (cat : V → V → V) (inp : ℕ → ℕ → V) (n c : ℕ) : V :=
  (List.range' 1 (n - 1)).foldl (fun v i => cat v (inp c i)) (inp c 0)

theorem runRoot_call (cat : V → V → V) (Ok : V → Prop)
    (hlaw : ∀ v w, Ok w → cd.append v (cd.size w) (received (cd.width * cd.size w) (cd.enc w)) = cat v w)
    (hok : ∀ c i, Ok (inp c i)) (c : ℕ) (r : Root V) :
    ∃ r', runRoot cd inp (rootCall n c) r = some r' ∧
      r'.done = r.done ++ [collected cat inp n c] := by
  unfold rootCall
  simp only [runRoot, localOp, Option.bind_some]
  rw [runRoot_append, runRoot_counts, Option.bind_some, runRoot_append,
    runRoot_recvs cat Ok hlaw hok c _ _ (by
      intro i hi
      simp [hi]), Option.bind_some]
  exact ⟨_, rfl, rfl⟩

theorem runRoot_program (cat : V → V → V) (Ok : V → Prop)
    (hlaw : ∀ v w, Ok w → cd.append v (cd.size w) (received (cd.width * cd.size w) (cd.enc w)) = cat v w)
    (hok : ∀ c i, Ok (inp c i)) (k : ℕ) (r : Root V) :
    ∃ r', runRoot cd inp (rootProgram n k) r = some r' ∧
      r'.done = r.done ++ (List.range k).map (collected cat inp n) := by
  unfold rootProgram
  generalize List.range k = l
  induction l generalizing r with
  | nil => exact ⟨r, rfl, by simp⟩
  | cons c l ih =>
    obtain ⟨r1, h1, d1⟩ := runRoot_call (n := n) cat Ok hlaw hok c r
    obtain ⟨r2, h2, d2⟩ := ih r1
    refine ⟨r2, ?_, ?_⟩
    · rw [List.flatMap_cons, runRoot_append, h1, Option.bind_some, h2]
    · rw [d2, d1]; simp

theorem inv_exec (cat : V → V → V) (Ok : V → Prop)
    (hlaw : ∀ v w, Ok w → cd.append v (cd.size w) (received (cd.width * cd.size w) (cd.enc w)) = cat v w)
    (hok : ∀ c i, Ok (inp c i)) (k : ℕ) (v₀ : V) : ∃ final : Root V,
    final.done = (List.range k).map (collected cat inp n) ∧
    ∀ m s, Exec cd inp n k v₀ m s → Inv cd inp n k final s := by
  obtain ⟨final, hf, hd⟩ := runRoot_program (n := n) cat Ok hlaw hok k ⟨fun _ => 0, v₀, []⟩
  refine ⟨final, by simpa using hd, ?_⟩
  intro m s he
  induction he with
  | init =>
    refine ⟨⟨_, rfl, hf⟩, within_program k, ?_, ?_⟩
    · intro i h1 h2
      exact ⟨[], by simpa [start] using expected_program h1 h2 k, fun ch => rfl⟩
    · intro i h1 h2
      simp only [start, senderProgram, List.nil_append]
      generalize List.range k = l
      induction l with
      | nil => rfl
      | cons c l ih => simpa [SendOp.leaves] using ih
  | step _ hs ih => exact inv_step ih hs

/-! ### Termination -/

/-- Number of operations left. -/
def opsLeft (n : ℕ) (s : St V α) : ℕ := s.root.length + ∑ i ∈ Finset.range n, (s.snd i).length

theorem sum_update (f : ℕ → List SendOp) (i : ℕ) (hi : i < n) (op : SendOp) (rest : List SendOp)
    (hf : f i = op :: rest) :
    ∑ j ∈ Finset.range n, (Function.update f i rest j).length + 1
      = ∑ j ∈ Finset.range n, (f j).length := by
  have hm : i ∈ Finset.range n := Finset.mem_range.2 hi
  rw [← Finset.add_sum_erase _ _ hm, ← Finset.add_sum_erase _ (fun j => (f j).length) hm]
  rw [Function.update_self, hf, List.length_cons]
  have : ∑ j ∈ (Finset.range n).erase i, (Function.update f i rest j).length
      = ∑ j ∈ (Finset.range n).erase i, (f j).length := by
    apply Finset.sum_congr rfl
    intro j hj
    rw [Function.update_of_ne (Finset.ne_of_mem_erase hj)]
  omega

theorem step_decreases {s s' : St V α} {b : Bool} (hs : Step cd inp n b s s') :
    opsLeft n s' < opsLeft n s := by
  cases hs with
  | post _ i op rest h1 h2 hsnd =>
    have := sum_update s.snd i h2 op rest hsnd
    simp only [opsLeft, St.setQ, St.advance]
    omega
  | receive _ l op rest i ch m ms hl hr hw hq =>
    simp only [opsLeft, St.setQ, hr, List.length_cons]
    omega
  | rendezvous _ l op rest i sop srest h1 h2 hl hr hw hq hsnd =>
    have := sum_update s.snd i h2 sop srest hsnd
    simp only [opsLeft, St.advance, hr, List.length_cons]
    omega
  | loc _ l op rest hl hr hw =>
    simp only [opsLeft, hr, List.length_cons]
    omega

theorem exec_bound {k m : ℕ} {v₀ : V} {s : St V α} (he : Exec cd inp n k v₀ m s) :
    m + opsLeft n s ≤ opsLeft n (start (α := α) n k v₀) := by
  induction he with
  | init => simp
  | step _ hs ih =>
    have := step_decreases hs
    omega

theorem opsLeft_start (hn : 0 < n) (k : ℕ) (v₀ : V) :
    opsLeft n (start (α := α) n k v₀) ≤ k * (4 * n) := by
  have h1 : (senderProgram k).length = 2 * k := by
    simp [senderProgram, List.length_flatMap]
    ring
  have h2 : (rootProgram n k).length = k * (2 * (n - 1) + 2) := by
    simp [rootProgram, rootCall, List.length_flatMap]
    left
    omega
  simp only [opsLeft, start, h1, h2, Finset.sum_const, Finset.card_range, smul_eq_mul]
  have : 2 * (n - 1) + 2 = 2 * n := by omega
  rw [this]
  nlinarith

end

/-! ## Theorems -/

theorem foldl_append_flatMap {β : Type*} (f : ℕ → List β) (l : List ℕ) (a : List β) :
    l.foldl (fun v i => v ++ f i) a = a ++ l.flatMap f := by
  induction l generalizing a with
  | nil => simp
  | cons x l ih => simp [ih]

theorem foldl_pair_flatMap {β γ : Type*} (f : ℕ → List β × List γ) (l : List ℕ)
    (a : List β × List γ) :
    l.foldl (fun v i => (v.1 ++ (f i).1, v.2 ++ (f i).2)) a =
      (a.1 ++ l.flatMap fun i => (f i).1, a.2 ++ l.flatMap fun i => (f i).2) := by
  induction l generalizing a with
  | nil => simp
  | cons x l ih => simp [ih]

theorem range_flatMap_split {β : Type*} {n : ℕ} (hn : 0 < n) (f : ℕ → List β) :
    (List.range n).flatMap f = f 0 ++ (List.range' 1 (n - 1)).flatMap f := by
  obtain ⟨m, rfl⟩ : ∃ m, n = m + 1 := ⟨n - 1, by omega⟩
  rw [List.range_eq_range', List.range'_succ]
  simp

section
variable {V α : Type*} [Inhabited α] {cd : Codec V α} {inp : ℕ → ℕ → V} {n : ℕ}

theorem finished_of_stuck {k : ℕ} {final : Root V} {s : St V α} (hI : Inv cd inp n k final s)
    (hstuck : ∀ b s', ¬ Step cd inp n b s s') : Spec.Finished n s ∧ s.loc = some final ∧
      ∀ i, 1 ≤ i → i < n → s.out i = (List.range k).map fun c => cd.left (inp c i) := by
  apply finished_of_root hI
  by_contra hr
  obtain ⟨s', hs⟩ := progress hI hr
  exact hstuck _ _ hs

end

section
variable {α : Type*} [Inhabited α] {dim : ℕ}

theorem slot_lt {dim count j d e : ℕ} (hj : j < count) (hd : d < 2) (he : e < dim) :
    j * 2 * dim + d * dim + e < 2 * dim * count := by
  have h1 : j * 2 * dim + 2 * dim ≤ 2 * dim * count := by
    calc j * 2 * dim + 2 * dim = 2 * dim * (j + 1) := by ring
      _ ≤ 2 * dim * count := Nat.mul_le_mul_left _ hj
  have h2 : d * dim ≤ 1 * dim := Nat.mul_le_mul_right _ (by omega)
  have h3 : 2 * dim = 1 * dim + dim := by ring
  omega

theorem bubble_law (v w : List (Bubble.Segm α dim)) :
    (bubbleCodec α dim).append v ((bubbleCodec α dim).size w)
      (received ((bubbleCodec α dim).width * (bubbleCodec α dim).size w) ((bubbleCodec α dim).enc w))
      = v ++ w := by
  change v ++ Bubble.decode w.length (received (2 * dim * w.length) (Bubble.sendData w)) = v ++ w
  congr 1
  conv_rhs => rw [← Bubble.decode_sendData w]
  unfold Bubble.decode
  apply List.map_congr_left
  intro j hj
  funext d e
  exact if_pos (slot_lt (List.mem_range.1 hj) d.isLt e.isLt)

/-- The vectors of positions and velocities have the same length. -/
def SameLength (v : List α × List (Fin dim → α)) : Prop := v.1.length = v.2.length

theorem line_law (v w : List α × List (Fin dim → α)) (hw : SameLength w) :
    (lineCodec α dim).append v ((lineCodec α dim).size w)
      (received ((lineCodec α dim).width * (lineCodec α dim).size w) ((lineCodec α dim).enc w)) =
      (v.1 ++ w.1, v.2 ++ w.2) := by
  rw [← App.exchangeTurn_eq (fun _ => w) 0 hw v]
  change (List.range w.2.length).foldl _ v = (List.range w.2.length).foldl _ v
  have hslot : ∀ j < w.2.length, ∀ d ≤ dim,
      received ((dim + 1) * w.2.length) (App.sendData' w.1 w.2) (j * (dim + 1) + d)
        = App.sendData' w.1 w.2 (j * (dim + 1) + d) := by
    intro j hj d hd
    refine if_pos ?_
    have h1 : (dim + 1) * (j + 1) ≤ (dim + 1) * w.2.length := Nat.mul_le_mul_left _ hj
    have h2 : (dim + 1) * (j + 1) = j * (dim + 1) + dim + 1 := by ring
    omega
  apply List.foldl_ext
  intro a j hj
  have hj' := List.mem_range.1 hj
  refine Prod.ext ?_ ?_
  · exact congrArg (fun x => a.1 ++ [x]) (hslot j hj' dim le_rfl)
  · refine congrArg (fun x => a.2 ++ [x]) (funext fun d => ?_)
    exact hslot j hj' d d.isLt.le

/-- **C107 (bubble statistics).** `k` successive calls of the collection with `n` processes; `inp c i`
is the vector process `i` has computed in call `c`.  In every schedule, with buffered or unbuffered
sends: no message ever arrives that does not fit its receive; and when no process can proceed any
more, all have returned, no message is left over, each call has returned on process 0 the vectors of
all processes in the order of the processes, and the vectors of the others have been emptied. -/
theorem C107_bubble_schedule {n : ℕ} (hn : 0 < n) (k : ℕ)
    (inp : ℕ → ℕ → List (Bubble.Segm α dim)) (v₀ : List (Bubble.Segm α dim)) {m : ℕ}
    {s : St (List (Bubble.Segm α dim)) α} (he : Exec (bubbleCodec α dim) inp n k v₀ m s) :
    s.loc ≠ none ∧
    ((∀ b s', ¬ Step (bubbleCodec α dim) inp n b s s') →
      Spec.Finished n s ∧
      (∃ l, s.loc = some l ∧
        l.done = (List.range k).map fun c => (List.range n).flatMap (inp c)) ∧
      ∀ i, 1 ≤ i → i < n → s.out i = List.replicate k []) := by
  obtain ⟨final, hd, hinv⟩ := inv_exec (n := n) (cd := bubbleCodec α dim) (inp := inp)
    (fun v w => v ++ w) (fun _ => True) (fun v w _ => bubble_law v w) (fun _ _ => trivial) k v₀
  have hI := hinv m s he
  refine ⟨?_, ?_⟩
  · obtain ⟨l, hl, -⟩ := hI.root
    simp [hl]
  · intro hstuck
    obtain ⟨hf, hl, ho⟩ := finished_of_stuck hI hstuck
    refine ⟨hf, ⟨final, hl, ?_⟩, ?_⟩
    · rw [hd]
      apply List.map_congr_left
      intro c _
      rw [collected, foldl_append_flatMap (inp c), range_flatMap_split hn]
    · intro i h1 h2
      rw [ho i h1 h2]
      simp [bubbleCodec, List.map_const']

/-- **C107 (cavity and channel).** The same for the positions and velocities collected by the driven
cavity and by the channel; here the other processes keep their vectors. -/
theorem C107_line_schedule {n : ℕ} (hn : 0 < n) (k : ℕ)
    (inp : ℕ → ℕ → List α × List (Fin dim → α)) (v₀ : List α × List (Fin dim → α))
    (hlen : ∀ c i, (inp c i).1.length = (inp c i).2.length) {m : ℕ}
    {s : St (List α × List (Fin dim → α)) α} (he : Exec (lineCodec α dim) inp n k v₀ m s) :
    s.loc ≠ none ∧
    ((∀ b s', ¬ Step (lineCodec α dim) inp n b s s') →
      Spec.Finished n s ∧
      (∃ l, s.loc = some l ∧
        l.done = (List.range k).map fun c =>
          ((List.range n).flatMap fun i => (inp c i).1, (List.range n).flatMap fun i => (inp c i).2)) ∧
      ∀ i, 1 ≤ i → i < n → s.out i = (List.range k).map fun c => inp c i) := by
  obtain ⟨final, hd, hinv⟩ := inv_exec (n := n) (cd := lineCodec α dim) (inp := inp)
    (fun v w => (v.1 ++ w.1, v.2 ++ w.2)) SameLength line_law hlen k v₀
  have hI := hinv m s he
  refine ⟨?_, ?_⟩
  · obtain ⟨l, hl, -⟩ := hI.root
    simp [hl]
  · intro hstuck
    obtain ⟨hf, hl, ho⟩ := finished_of_stuck hI hstuck
    refine ⟨hf, ⟨final, hl, ?_⟩, ho⟩
    rw [hd]
    apply List.map_congr_left
    intro c _
    rw [collected, foldl_pair_flatMap (inp c), range_flatMap_split hn, range_flatMap_split hn]

/-- **C107 (no deadlock).** As long as not everybody has returned, some process can proceed, even if
no send returns before its message is received. -/
theorem C107_bubble_no_deadlock {n : ℕ} (k : ℕ)
    (inp : ℕ → ℕ → List (Bubble.Segm α dim)) (v₀ : List (Bubble.Segm α dim)) {m : ℕ}
    {s : St (List (Bubble.Segm α dim)) α} (he : Exec (bubbleCodec α dim) inp n k v₀ m s)
    (hs : ¬ Spec.Finished n s) : ∃ s', Step (bubbleCodec α dim) inp n false s s' := by
  obtain ⟨final, -, hinv⟩ := inv_exec (n := n) (cd := bubbleCodec α dim) (inp := inp)
    (fun v w => v ++ w) (fun _ => True) (fun v w _ => bubble_law v w) (fun _ _ => trivial) k v₀
  have hI := hinv m s he
  exact progress hI fun hr => hs (finished_of_root hI hr).1

theorem C107_line_no_deadlock {n : ℕ} (k : ℕ)
    (inp : ℕ → ℕ → List α × List (Fin dim → α)) (v₀ : List α × List (Fin dim → α))
    (hlen : ∀ c i, (inp c i).1.length = (inp c i).2.length) {m : ℕ}
    {s : St (List α × List (Fin dim → α)) α} (he : Exec (lineCodec α dim) inp n k v₀ m s)
    (hs : ¬ Spec.Finished n s) : ∃ s', Step (lineCodec α dim) inp n false s s' := by
  obtain ⟨final, -, hinv⟩ := inv_exec (n := n) (cd := lineCodec α dim) (inp := inp)
    (fun v w => (v.1 ++ w.1, v.2 ++ w.2)) SameLength line_law hlen k v₀
  have hI := hinv m s he
  exact progress hI fun hr => hs (finished_of_root hI hr).1

/-- **C107 (termination).** No schedule has more than `4 n` steps per call. -/
theorem C107_terminates {V : Type*} (cd : Codec V α) (inp : ℕ → ℕ → V) {n : ℕ} (hn : 0 < n)
    (k : ℕ) (v₀ : V) {m : ℕ} {s : St V α} (he : Exec cd inp n k v₀ m s) : m ≤ k * (4 * n) := by
  have h1 := exec_bound he
  have h2 := opsLeft_start (α := α) hn k v₀
  omega

end

/-! ## Concrete runs -/

namespace Ex

/-- Two processes with one and two segments in one space dimension; the data of call `c` are marked by
`c`. -/
def inp : ℕ → ℕ → List (Bubble.Segm ℕ 1) := fun c i =>
  if i = 0 then [fun e _ => 10 * c + e] else [fun e _ => 100 * (c + 1) + e, fun e _ => 100 * (c + 1) + 2 + e]

/-- Process 1 posts all its messages of two calls before process 0 starts. -/
theorem run_ahead : ∃ s, Exec (bubbleCodec ℕ 1) inp 2 2 [] 4 s ∧ s.snd 1 = [] ∧
    (s.q 1 .gather).length = 2 ∧ (s.q 1 .tagged).length = 2 := by
  refine ⟨_, .step (.step (.step (.step .init (.post _ 1 _ _ (by omega) (by omega) rfl))
    (.post _ 1 _ _ (by omega) (by omega) rfl)) (.post _ 1 _ _ (by omega) (by omega) rfl))
    (.post _ 1 _ _ (by omega) (by omega) rfl), rfl, rfl, rfl⟩

/-- Without buffering, one call of two processes. -/
theorem run_unbuffered : ∃ s, Exec (bubbleCodec ℕ 1) inp 2 1 [] 4 s ∧ s.root = [] ∧ s.snd 1 = [] ∧
    (s.loc.map fun l => l.done.map fun v => v.map fun f => (f 0 0, f 1 0))
      = some [[(0, 1), (100, 101), (102, 103)]] := by
  refine ⟨_, .step (.step (.step (.step .init (.loc _ _ _ _ rfl rfl rfl))
    (.rendezvous _ _ _ _ 1 _ _ (by omega) (by omega) rfl rfl rfl rfl rfl))
    (.rendezvous _ _ _ _ 1 _ _ (by omega) (by omega) rfl rfl rfl rfl rfl))
    (.loc _ _ _ _ rfl rfl rfl), rfl, rfl, ?_⟩
  decide +kernel

/-- A schedule that cannot go on exists. -/
example : ∃ m s, Exec (bubbleCodec ℕ 1) inp 2 1 [] m s ∧
    ∀ b s', ¬ Step (bubbleCodec ℕ 1) inp 2 b s s' := by
  obtain ⟨s, he, hr, hs, -⟩ := run_unbuffered
  refine ⟨4, s, he, ?_⟩
  intro b s' hst
  cases hst with
  | post _ i op rest h1 h2 hsnd =>
    obtain rfl : i = 1 := by omega
    rw [hs] at hsnd; cases hsnd
  | receive _ l op rest i ch m ms hl hr' hw hq => rw [hr] at hr'; cases hr'
  | rendezvous _ l op rest i sop srest h1 h2 hl hr' => rw [hr] at hr'; cases hr'
  | loc _ l op rest hl hr' => rw [hr] at hr'; cases hr'

/-- Lines with as many positions as velocities. -/
example : ∀ c i : ℕ, (([c, i], [fun _ => c, fun _ => i]) : List ℕ × List (Fin 2 → ℕ)).1.length =
    (([c, i], [fun _ => c, fun _ => i]) : List ℕ × List (Fin 2 → ℕ)).2.length := fun _ _ => rfl

end Ex

end Verif.Parallel.Exchange
