import Mathlib.Data.List.Basic
import Mathlib.Data.List.Flatten
import Mathlib.Logic.Function.Basic
import Mathlib.Algebra.Order.Ring.Nat
import Mathlib.Tactic.Linarith
import Mathlib.Tactic.Ring

/-!
# C38: the parallel gather of the interface segments
(source/two_phase_base.cc:908-967)
-/

namespace Verif.Bubble

/-! ## Model

`α` is the type of the transmitted numbers (`double`). A segment is a `Tensor<2,dim>` of which the rows `d = 0, 1` are
used; for `dim = 2` these are all entries. -/

abbrev Segm (α : Type*) (dim : ℕ) := Fin 2 → Fin dim → α

/-- the triples of the loop nest `for j, for d < 2, for e < dim` in program order, two_phase_base.cc:935-937 -/
def loopNest (n dim : ℕ) : List (ℕ × Fin 2 × Fin dim) :=
  (List.range n).flatMap fun j => (List.finRange 2).flatMap fun d => (List.finRange dim).map fun e => (j, d, e)

/-- `j * 2 * dim + d * dim + e` -/
def slot (dim : ℕ) (t : ℕ × Fin 2 × Fin dim) : ℕ := t.1 * 2 * dim + t.2.1 * dim + t.2.2

/-- `send_data` after the loop nest: a buffer (initially zero) of which the slots are assigned one after the other,
two_phase_base.cc:934-938. `default` plays the role of the zero the vector is initialised with; entries beyond the
size of the vector are not accessed. -/
def sendData {α : Type*} [Inhabited α] {dim : ℕ} (l : List (Segm α dim)) : ℕ → α :=
  (loopNest l.length dim).foldl
    (fun buf t => Function.update buf (slot dim t) ((l[t.1]?.getD (fun _ _ => default)) t.2.1 t.2.2)) (fun _ => default)

/-- the segments rank 0 builds from `receive_data` for `receive_count` segments, two_phase_base.cc:955-962 -/
def decode {α : Type*} {dim : ℕ} (count : ℕ) (buf : ℕ → α) : List (Segm α dim) :=
  (List.range count).map fun j => fun d e => buf (slot dim (j, d, e))

/-- State: per-rank `interface_points`. One turn of the loop over the ranks `i = 1 .. n-1`
(two_phase_base.cc:924-964): rank `i` sends and clears its vector, rank 0 receives the message of rank `i` (tag `i`) with
`receive_count[i]` segments, gathered before the loop (:911-923), and appends.
Simplification: point-to-point messages are delivered unchanged (MPI's guarantee); sender and receiver steps of turn `i`
are executed together, which is what the blocking receive of rank 0 enforces. -/
def gatherTurn {α : Type*} [Inhabited α] {dim : ℕ} (receiveCount : ℕ → ℕ) (st : ℕ → List (Segm α dim)) (i : ℕ) :
    ℕ → List (Segm α dim) :=
  let message := sendData (st i)
  let st := Function.update st i []
  Function.update st 0 (st 0 ++ decode (receiveCount i) message)

/-- The whole gather on `n` ranks, two_phase_base.cc:908-966. -/
def gather {α : Type*} [Inhabited α] {dim : ℕ} (n : ℕ) (st : ℕ → List (Segm α dim)) : ℕ → List (Segm α dim) :=
  ((List.range (n - 1)).map (· + 1)).foldl (gatherTurn fun i => (st i).length) st

/-! ## Proof -/

section
variable {α : Type*} [Inhabited α] {dim : ℕ}

theorem slot_inj {s t : ℕ × Fin 2 × Fin dim} (h : slot dim s = slot dim t) : s = t := by
  obtain ⟨j, d, e⟩ := s
  obtain ⟨j', d', e'⟩ := t
  simp only [slot] at h
  have he : (e : ℕ) < dim := e.2
  have he' : (e' : ℕ) < dim := e'.2
  have hdim : 0 < dim := by omega
  have h1 : (j * 2 + (d : ℕ)) * dim + e = (j' * 2 + (d' : ℕ)) * dim + e' := by
    have a1 : (j * 2 + (d : ℕ)) * dim + e = j * 2 * dim + d * dim + e := by ring
    have a2 : (j' * 2 + (d' : ℕ)) * dim + e' = j' * 2 * dim + d' * dim + e' := by ring
    omega
  have hq : j * 2 + (d : ℕ) = j' * 2 + (d' : ℕ) := by
    have := congrArg (· / dim) h1
    simp only [Nat.add_comm _ (e : ℕ), Nat.add_comm _ (e' : ℕ), Nat.add_mul_div_right _ _ hdim, Nat.div_eq_of_lt he,
      Nat.div_eq_of_lt he', Nat.zero_add] at this
    exact this
  have hd : (d : ℕ) < 2 := d.2
  have hd' : (d' : ℕ) < 2 := d'.2
  have hj : j = j' := by omega
  have hdd : (d : ℕ) = d' := by omega
  have hee : (e : ℕ) = e' := by rw [hq] at h1; omega
  rw [hj, Fin.ext hdd, Fin.ext hee]

theorem foldl_update {β γ : Type*} [DecidableEq β] [DecidableEq γ] (key : γ → β) (val : γ → α) (inj : Function.Injective key)
    (l : List γ) (buf : β → α) (t : γ) :
    l.foldl (fun buf s => Function.update buf (key s) (val s)) buf (key t) =
      if t ∈ l then val t else buf (key t) := by
  induction l generalizing buf with
  | nil => simp
  | cons s l ih =>
    rw [List.foldl_cons, ih]
    by_cases h : t ∈ l
    · simp [h]
    · by_cases hs : t = s
      · subst hs; simp [h]
      · simp [h, hs, Function.update_of_ne (fun hk => hs (inj hk))]

theorem mem_loopNest (n : ℕ) (t : ℕ × Fin 2 × Fin dim) : t ∈ loopNest n dim ↔ t.1 < n := by
  obtain ⟨j, d, e⟩ := t
  simp [loopNest]

theorem sendData_slot (l : List (Segm α dim)) {j : ℕ} (hj : j < l.length) (d : Fin 2) (e : Fin dim) :
    sendData l (slot dim (j, d, e)) = l[j] d e := by
  unfold sendData
  rw [foldl_update (slot dim) (fun t => (l[t.1]?.getD (fun _ _ => default)) t.2.1 t.2.2) (fun _ _ => slot_inj)]
  rw [if_pos ((mem_loopNest _ _).2 hj)]
  simp [List.getElem?_eq_getElem hj]

theorem decode_sendData (l : List (Segm α dim)) : decode l.length (sendData l) = l := by
  apply List.ext_getElem
  · simp [decode]
  · intro j h1 h2
    simp only [decode, List.getElem_map, List.getElem_range]
    funext d e
    exact sendData_slot l h2 d e

theorem gather_turns (st : ℕ → List (Segm α dim)) (m : ℕ) :
    ((List.range m).map (· + 1)).foldl (gatherTurn fun i => (st i).length) st =
      fun r => if r = 0 then st 0 ++ ((List.range m).map (· + 1)).flatMap st else if r ≤ m then [] else st r := by
  induction m with
  | zero => funext r; by_cases h : r = 0 <;> simp [h]
  | succ m ih =>
    rw [List.range_succ, List.map_append, List.foldl_append, ih]
    simp only [List.map_cons, List.map_nil, List.foldl_cons, List.foldl_nil, gatherTurn]
    funext r
    by_cases h0 : r = 0
    · subst h0
      simp only [Function.update_self, if_true]
      rw [Function.update_of_ne (by omega)]
      simp only [if_true, Nat.succ_ne_zero, if_false, Nat.not_succ_le_self, List.flatMap_append,
        List.flatMap_cons, List.flatMap_nil, List.append_nil, List.append_assoc]
      rw [decode_sendData]
    · rw [Function.update_of_ne h0]
      by_cases h1 : r = m + 1
      · subst h1; simp
      · rw [Function.update_of_ne h1]
        simp only [h0, if_false]
        by_cases h2 : r ≤ m
        · rw [if_pos h2, if_pos (by omega)]
        · rw [if_neg h2, if_neg (by omega)]

/-- **C38.** For every number of ranks and all per-rank lists of segments, after the gather rank 0 holds the
concatenation of all lists in rank order, with unchanged numbers, and all other ranks hold none. -/
theorem C38_gather_complete (n : ℕ) (hn : 0 < n) (st : ℕ → List (Segm α dim)) :
    gather n st 0 = (List.range n).flatMap st ∧ ∀ r, 0 < r → r < n → gather n st r = [] := by
  unfold gather
  rw [gather_turns]
  constructor
  · simp only [if_true]
    obtain ⟨m, rfl⟩ : ∃ m, n = m + 1 := ⟨n - 1, by omega⟩
    rw [Nat.add_sub_cancel, List.range_succ_eq_map, List.flatMap_cons]
  · intro r h0 h1
    dsimp only
    rw [if_neg (by omega), if_pos (by omega)]

/-- **C38 (encoding).** The message of a rank decodes to exactly the segments that were packed. -/
theorem C38_message_roundtrip (l : List (Segm α dim)) : decode l.length (sendData l) = l := decode_sendData l

end

/-- three ranks, of which the middle one has no segment -/
def exSt : ℕ → List (Segm ℕ 2) := fun r =>
  if r = 0 then [fun d e => 10 * d + e] else if r = 2 then [fun d e => 100 + 10 * d + e, fun d e => 200 + 10 * d + e] else []

example : (gather 3 exSt 0).map (fun s => [s 0 0, s 0 1, s 1 0, s 1 1]) =
    [[0, 1, 10, 11], [100, 101, 110, 111], [200, 201, 210, 211]] ∧ (gather 3 exSt 2).length = 0 := by decide

end Verif.Bubble
