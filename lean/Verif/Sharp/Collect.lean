import Mathlib.Data.List.Sort
import Mathlib.Data.Prod.Lex
import Mathlib.Algebra.BigOperators.Group.List.Basic
import Mathlib.Algebra.Group.Nat.Defs
import Mathlib.Algebra.Order.Group.Nat
import Mathlib.Algebra.Module.NatInt
import Mathlib.Order.Interval.Finset.Nat

/-!
# C42, C43: distribution of surface quadrature points to background cells
(include/adaflo/sharp_interface_util.h:242-324 and 540-620)
-/

namespace Verif.Sharp

/-! ## Model -/

/-- One entry of `info`: reference point, weight (a number or a vector), cell. Cells are identified by the pair
(level, index), ordered lexicographically; `C` is any linear order. -/
structure Entry (C W P : Type*) where
  point : P
  weight : W
  cell : C
  deriving DecidableEq

/-- The four returned arrays. -/
structure Csr (C W P : Type*) where
  cells : List C
  ptrs : List ℕ
  weights : List W
  points : List P
  deriving DecidableEq

variable {C W P : Type*} [LinearOrder C]

/-- body of the compression loop, sharp_interface_util.h:310-320 and :602-612 (state: `dummy` and the arrays) -/
def compressStep (st : C × Csr C W P) (e : Entry C W P) : C × Csr C W P :=
  let (dummy, a) := st
  let (dummy, a) := if dummy ≠ e.cell then (e.cell, { a with cells := a.cells ++ [e.cell], ptrs := a.ptrs ++ [a.weights.length] })
    else (dummy, a)
  (dummy, { a with weights := a.weights ++ [e.weight], points := a.points ++ [e.point] })

/-- sharp_interface_util.h:303-323: compression of the sorted `info`, then the final `ptrs.push_back`. -/
def compress (dummy : C) (info : List (Entry C W P)) : Csr C W P :=
  let a := (info.foldl compressStep (dummy, ⟨[], [], [], []⟩)).2
  { a with ptrs := a.ptrs ++ [a.weights.length] }

/-- `std::sort` by cell (not necessarily stable): any sorted rearrangement, sharp_interface_util.h:299-301. -/
structure SortedFrom (info0 info : List (Entry C W P)) : Prop where
  perm : info.Perm info0
  sorted : info.Pairwise fun a b => a.cell ≤ b.cell

/-- `collect_integration_points` (front tracking), sharp_interface_util.h:266-297: entries before sorting. `locate` is
the result of the deal.II point search: `none` for an exception (swallowed by `catch (...)`), otherwise all cells around
the point with the reference coordinates. -/
def infoAll {Q : Type*} (locate : Q → Option (List (C × P))) (pts : List (Q × W)) : List (Entry C W P) :=
  pts.flatMap fun q => match locate q.1 with
    | none => []
    | some l => l.map fun c => ⟨c.2, q.2, c.1⟩

/-- `collect_evaluation_points` (mixed level set), sharp_interface_util.h:578-594: one cell per point; an exception leaves
the function (`none`). -/
def infoOne {Q : Type*} (locate : Q → Option (C × P)) (pts : List (Q × W)) : Option (List (Entry C W P)) :=
  pts.mapM fun q => (locate q.1).map fun c => ⟨c.2, q.2, c.1⟩

/-! ## Specification -/

/-- The compressed arrays represent the multiset of entries `info0`, grouped by cell. -/
structure Spec.Represents (out : Csr C W P) (info0 : List (Entry C W P)) : Prop where
  /-- cells are strictly increasing, in particular without repetition -/
  increasing : out.cells.Pairwise (· < ·)
  /-- exactly the cells that contain a point -/
  mem_cells : ∀ k, k ∈ out.cells ↔ ∃ e ∈ info0, e.cell = k
  /-- one pointer per cell and an end pointer -/
  n_ptrs : out.ptrs.length = out.cells.length + 1
  first : out.ptrs[0]? = some 0
  last : out.ptrs[out.cells.length]? = some info0.length
  n_weights : out.weights.length = info0.length
  n_points : out.points.length = info0.length
  /-- the slice between two consecutive pointers is nonempty and holds exactly the entries of that cell -/
  slices : ∀ i k b e, out.cells[i]? = some k → out.ptrs[i]? = some b → out.ptrs[i + 1]? = some e → b < e ∧
    (((out.points.drop b).take (e - b)).zip ((out.weights.drop b).take (e - b))).Perm
      ((info0.filter fun x => x.cell = k).map fun x => (x.point, x.weight))

/-! ## Proof -/

/-- number of entries in cells before `k` -/
def before (l : List (Entry C W P)) (k : C) : ℕ := (l.filter fun e => e.cell < k).length

structure LoopInv (dummy : C) (l : List (Entry C W P)) (st : C × Csr C W P) : Prop where
  w : st.2.weights = l.map (·.weight)
  p : st.2.points = l.map (·.point)
  inc : st.2.cells.Pairwise (· < ·)
  mem : ∀ k, k ∈ st.2.cells ↔ ∃ e ∈ l, e.cell = k
  ptr : st.2.ptrs = st.2.cells.map (before l)
  dum : (l = [] ∧ st.1 = dummy) ∨ ∃ e, l.getLast? = some e ∧ e.cell = st.1

theorem loop_inv (dummy : C) (l : List (Entry C W P)) (hs : l.Pairwise fun a b => a.cell ≤ b.cell)
    (hd : ∀ e ∈ l, e.cell ≠ dummy) : LoopInv dummy l (l.foldl compressStep (dummy, ⟨[], [], [], []⟩)) := by
  induction l using List.reverseRecOn with
  | nil => exact ⟨rfl, rfl, by simp, by simp, rfl, .inl ⟨rfl, rfl⟩⟩
  | append_singleton l e ih =>
    have hs' := List.pairwise_append.1 hs
    have h := ih hs'.1 (fun x hx => hd x (by simp [hx]))
    have hle : ∀ x ∈ l, x.cell ≤ e.cell := fun x hx => hs'.2.2 x hx e (by simp)
    rw [List.foldl_append]
    generalize hst : l.foldl compressStep (dummy, ⟨[], [], [], []⟩) = st at h ⊢
    obtain ⟨dm, a⟩ := st
    have hw : a.weights = l.map (·.weight) := h.w
    have hp : a.points = l.map (·.point) := h.p
    simp only [List.foldl_cons, List.foldl_nil, compressStep]
    have hbefore : ∀ k ≤ e.cell, before (l ++ [e]) k = before l k := by
      intro k hk
      simp [before, List.filter_append, not_lt.2 hk]
    have hcle : ∀ k ∈ a.cells, k ≤ e.cell := by
      intro k hk; obtain ⟨x, hx, rfl⟩ := (h.mem k).1 hk; exact hle x hx
    have hptr : a.cells.map (before (l ++ [e])) = a.cells.map (before l) :=
      List.map_congr_left fun k hk => hbefore k (hcle k hk)
    by_cases hne : dm ≠ e.cell
    · simp only [if_pos hne]
      -- the cell is new
      have hnew : ∀ x ∈ l, x.cell < e.cell := by
        intro x hx
        rcases h.dum with ⟨h0, _⟩ | ⟨y, hy, hyc⟩
        · rw [h0] at hx; simp at hx
        · refine lt_of_le_of_ne (hle x hx) ?_
          intro hxe
          -- `y` is the last entry, so `x.cell ≤ y.cell ≤ e.cell`
          have hymem : y ∈ l := List.mem_of_getLast? hy
          have hxy : x.cell ≤ y.cell := by
            obtain ⟨l', rfl⟩ : ∃ l', l = l' ++ [y] := by
              rw [List.getLast?_eq_some_iff] at hy; exact hy
            rcases List.mem_append.1 hx with hx | hx
            · exact (List.pairwise_append.1 hs'.1).2.2 x hx y (by simp)
            · simp at hx; rw [hx]
          have hye := hle y hymem
          have hyc' : y.cell = dm := hyc
          exact hne (by rw [← hyc']; exact le_antisymm hye (hxe ▸ hxy))
      refine ⟨by simp [hw], by simp [hp], ?_, ?_, ?_, .inr ⟨e, by simp, rfl⟩⟩
      · rw [List.pairwise_append]
        refine ⟨h.inc, by simp, ?_⟩
        intro k hk k' hk'
        simp at hk'; subst hk'
        obtain ⟨x, hx, rfl⟩ := (h.mem k).1 hk
        exact hnew x hx
      · intro k
        simp only [List.mem_append, List.mem_singleton, h.mem]
        constructor
        · rintro (⟨x, hx, hk⟩ | hk)
          · exact ⟨x, .inl hx, hk⟩
          · exact ⟨e, .inr rfl, hk.symm⟩
        · rintro ⟨x, hx | hx, hk⟩
          · exact .inl ⟨x, hx, hk⟩
          · subst hx; exact .inr hk.symm
      · have hb : before l e.cell = l.length := by
          unfold before
          rw [List.filter_eq_self.2]
          intro x hx; simpa using hnew x hx
        have hwl : a.weights.length = l.length := by
          have := h.w; simp only at this; rw [this, List.length_map]
        have := h.ptr; simp only at this
        rw [List.map_append, hptr, this]
        simp [hbefore e.cell le_rfl, hb, hwl]
    · simp only [if_neg hne]
      push Not at hne
      refine ⟨by simp [hw], by simp [hp], h.inc, ?_, ?_, .inr ⟨e, by simp, hne.symm⟩⟩
      · intro k
        rw [h.mem]
        constructor
        · rintro ⟨x, hx, hk⟩; exact ⟨x, by simp [hx], hk⟩
        · rintro ⟨x, hx, hk⟩
          rcases List.mem_append.1 hx with hx | hx
          · exact ⟨x, hx, hk⟩
          · simp only [List.mem_singleton] at hx
            subst hx
            rcases h.dum with ⟨_, h1⟩ | ⟨y, hy, hyc⟩
            · exact absurd (by rw [← hne]; exact h1) (hd x (by simp))
            · exact ⟨y, List.mem_of_getLast? hy, by rw [hyc]; exact hne.trans hk⟩
      · rw [hptr]; exact h.ptr

/-- in a sorted list the entries before `k` form a prefix -/
theorem take_before (l : List (Entry C W P)) (hs : l.Pairwise fun a b => a.cell ≤ b.cell) (k : C) :
    l.take (before l k) = l.filter (fun e => e.cell < k) ∧ l.drop (before l k) = l.filter (fun e => k ≤ e.cell) := by
  induction l with
  | nil => simp [before]
  | cons e l ih =>
    have hs' := List.pairwise_cons.1 hs
    obtain ⟨h1, h2⟩ := ih hs'.2
    by_cases hk : e.cell < k
    · have hb : before (e :: l) k = before l k + 1 := by simp [before, hk]
      rw [hb]
      simp [List.take_succ_cons, hk, h1, h2, not_le.2 hk]
    · have hk' : k ≤ e.cell := not_lt.1 hk
      have hall : ∀ x ∈ l, k ≤ x.cell := fun x hx => hk'.trans (hs'.1 x hx)
      have hb : before (e :: l) k = 0 := by
        simp only [before, List.length_eq_zero_iff, List.filter_eq_nil_iff, decide_eq_true_eq, not_lt]
        intro x hx
        rcases List.mem_cons.1 hx with rfl | hx
        · exact hk'
        · exact hall x hx
      have hf : (e :: l).filter (fun e => e.cell < k) = [] := by
        simp only [List.filter_eq_nil_iff, decide_eq_true_eq, not_lt]
        intro x hx
        rcases List.mem_cons.1 hx with rfl | hx
        · exact hk'
        · exact hall x hx
      have hg : (e :: l).filter (fun e => k ≤ e.cell) = e :: l := by
        rw [List.filter_eq_self]
        intro x hx
        rcases List.mem_cons.1 hx with rfl | hx
        · simpa using hk'
        · simpa using hall x hx
      rw [hb, hf, hg]; simp

/-- **C42 (compression).** For all entries, cells, weights and points and every sorted rearrangement chosen by
`std::sort`, the returned arrays represent exactly the given entries, grouped by strictly increasing cells with
consistent pointers. The only hypothesis is that the marker value `dummy` (`{-1,-1}`) is not a cell. -/
theorem C42_compress_represents (dummy : C) (info0 info : List (Entry C W P)) (h : SortedFrom info0 info)
    (hd : ∀ e ∈ info0, e.cell ≠ dummy) : Spec.Represents (compress dummy info) info0 := by
  have hd' : ∀ e ∈ info, e.cell ≠ dummy := fun e he => hd e (h.perm.mem_iff.1 he)
  have inv := loop_inv dummy info h.sorted hd'
  have hmem' : ∀ k, (∃ e ∈ info, e.cell = k) ↔ ∃ e ∈ info0, e.cell = k := by
    intro k; constructor
    · rintro ⟨e, he, hk⟩; exact ⟨e, h.perm.mem_iff.1 he, hk⟩
    · rintro ⟨e, he, hk⟩; exact ⟨e, h.perm.mem_iff.2 he, hk⟩
  have hlen := h.perm.length_eq
  unfold compress
  generalize (info.foldl compressStep (dummy, ⟨[], [], [], []⟩)) = st at inv ⊢
  obtain ⟨dm, a⟩ := st
  dsimp only at inv ⊢
  have iw := inv.w
  have ip := inv.p
  have ic := inv.inc
  have im := inv.mem
  have iq := inv.ptr
  dsimp only at iw ip ic im iq
  have hwl : a.weights.length = info.length := by rw [iw, List.length_map]
  have hpl : a.points.length = info.length := by rw [ip, List.length_map]
  have hql : a.ptrs.length = a.cells.length := by rw [iq, List.length_map]
  -- a smallest cell has no entry before it
  have hmin : ∀ k rest, a.cells = k :: rest → before info k = 0 := by
    intro k rest hc
    simp only [before, List.length_eq_zero_iff, List.filter_eq_nil_iff, decide_eq_true_eq, not_lt]
    intro x hx
    have hxm : x.cell ∈ a.cells := (im _).2 ⟨x, hx, rfl⟩
    rw [hc] at hxm ic
    rcases List.mem_cons.1 hxm with hx' | hx'
    · rw [hx']
    · exact ((List.pairwise_cons.1 ic).1 _ hx').le
  refine ⟨ic, fun k => (im k).trans (hmem' k), by simp [hql], ?_, ?_, by rw [hwl, hlen], by rw [hpl, hlen], ?_⟩
  · cases hc : a.cells with
    | nil =>
      have hnil : info = [] := by
        rcases info with _ | ⟨x, l⟩
        · rfl
        · have := (im x.cell).2 ⟨x, by simp, rfl⟩; rw [hc] at this; simp at this
      have : a.ptrs = [] := by rw [iq, hc]; rfl
      simp [this, hwl, hnil]
    | cons k rest =>
      have : a.ptrs = before info k :: rest.map (before info) := by rw [iq, hc]; rfl
      rw [this, hmin k rest hc]; rfl
  · rw [List.getElem?_append_right (by rw [hql]), hql, Nat.sub_self, hwl, hlen]; rfl
  · intro i k b e hk hb he
    have hi : i < a.cells.length := by
      rw [List.getElem?_eq_some_iff] at hk; exact hk.1
    have hki : a.cells[i] = k := by rw [List.getElem?_eq_getElem hi] at hk; simpa using hk
    have hbv : b = before info k := by
      rw [List.getElem?_append_left (by omega), iq, List.getElem?_map, List.getElem?_eq_getElem hi, hki] at hb
      simpa [eq_comm] using hb
    -- entries of cell `k`
    obtain ⟨x, hx, hxk⟩ := (im k).1 (List.mem_of_getElem? hk)
    -- characterisation of the end pointer
    have hdrop : ((info.drop b).take (e - b)) = info.filter (fun y => y.cell = k) ∧ b < e := by
      have htb := take_before info h.sorted k
      rw [hbv]
      by_cases hnext : i + 1 < a.cells.length
      · set k' := a.cells[i + 1] with hk'
        have hev : e = before info k' := by
          rw [List.getElem?_append_left (by omega), iq, List.getElem?_map, List.getElem?_eq_getElem hnext] at he
          simpa [eq_comm] using he
        have hkk' : k < k' := by
          rw [← hki, hk']; exact List.pairwise_iff_getElem.1 ic i (i + 1) hi hnext (by omega)
        have hcons : ∀ y ∈ info, (k ≤ y.cell ∧ y.cell < k') ↔ y.cell = k := by
          intro y hy
          constructor
          · rintro ⟨h1, h2⟩
            obtain ⟨j, hj, hjy⟩ := List.getElem_of_mem ((im y.cell).2 ⟨y, hy, rfl⟩)
            rcases Nat.lt_trichotomy j i with hji | hji | hji
            · have := List.pairwise_iff_getElem.1 ic j i hj hi hji
              rw [hjy, hki] at this; exact absurd h1 (not_le.2 this)
            · subst hji; rw [← hjy, hki]
            · have hj2 : i + 1 ≤ j := hji
              rcases Nat.lt_or_eq_of_le hj2 with hj3 | hj3
              · have := List.pairwise_iff_getElem.1 ic (i + 1) j hnext hj hj3
                rw [hjy] at this; exact absurd h2 (not_lt.2 this.le)
              · subst hj3; rw [hjy] at hk'; rw [hk'] at h2; exact absurd h2 (lt_irrefl _)
          · rintro rfl; exact ⟨le_rfl, hkk'⟩
        have htb' := take_before info h.sorted k'
        have heq : (info.drop (before info k)).take (e - before info k) =
            info.filter (fun y => y.cell = k) := by
          rw [List.take_drop]
          have hle : before info k ≤ before info k' := by
            unfold before
            apply List.Sublist.length_le
            exact List.monotone_filter_right info (fun y hy => by
              simp only [decide_eq_true_eq] at hy ⊢; exact hy.trans hkk')
          rw [hev, Nat.add_sub_cancel' hle, htb'.1]
          -- drop the entries before `k` from the filtered list
          have hsf : (info.filter fun y => y.cell < k').Pairwise fun a b => a.cell ≤ b.cell :=
            h.sorted.sublist List.filter_sublist
          have htf := take_before (info.filter fun y => y.cell < k') hsf k
          have hbf : before (info.filter fun y => y.cell < k') k = before info k := by
            unfold before
            rw [List.filter_filter]
            congr 1
            apply List.filter_congr
            intro y _
            by_cases hy : y.cell < k
            · simp [hy, hy.trans hkk']
            · simp [hy]
          rw [← hbf, htf.2, List.filter_filter]
          apply List.filter_congr
          intro y hy
          have := hcons y hy
          by_cases hyk : y.cell = k
          · simp [hyk, hkk']
          · have hn : ¬ (k ≤ y.cell ∧ y.cell < k') := fun hh => hyk (this.1 hh)
            rw [decide_eq_false hyk, ← Bool.decide_and, decide_eq_false hn]
        refine ⟨heq, ?_⟩
        by_contra hlt
        have h0 : e - before info k = 0 := by omega
        rw [h0] at heq
        have : x ∈ info.filter (fun y => y.cell = k) := by simp [hx, hxk]
        rw [← heq] at this; simp at this
      · have hil : i + 1 = a.cells.length := by omega
        have hev : e = info.length := by
          rw [hil, List.getElem?_append_right (by rw [hql]), hql, Nat.sub_self] at he
          simp only [List.getElem?_cons_zero, Option.some.injEq] at he
          rw [← he, hwl]
        have hlast : ∀ y ∈ info, k ≤ y.cell ↔ y.cell = k := by
          intro y hy
          constructor
          · intro h1
            obtain ⟨j, hj, hjy⟩ := List.getElem_of_mem ((im y.cell).2 ⟨y, hy, rfl⟩)
            rcases Nat.lt_or_eq_of_le (show j ≤ i by omega) with hji | hji
            · have := List.pairwise_iff_getElem.1 ic j i hj hi hji
              rw [hjy, hki] at this; exact absurd h1 (not_le.2 this)
            · subst hji; rw [← hjy, hki]
          · rintro rfl; exact le_rfl
        have heq : (info.drop (before info k)).take (e - before info k) = info.filter (fun y => y.cell = k) := by
          rw [List.take_of_length_le (by rw [List.length_drop, hev]), htb.2]
          apply List.filter_congr
          intro y hy
          simp [hlast y hy]
        refine ⟨heq, ?_⟩
        by_contra hlt
        have h0 : e - before info k = 0 := by omega
        rw [h0] at heq
        have : x ∈ info.filter (fun y => y.cell = k) := by simp [hx, hxk]
        rw [← heq] at this; simp at this
    refine ⟨hdrop.2, ?_⟩
    have hz : (((a.points.drop b).take (e - b)).zip ((a.weights.drop b).take (e - b))) =
        (info.filter fun y => y.cell = k).map fun y => (y.point, y.weight) := by
      rw [ip, iw, ← List.map_drop, ← List.map_drop, ← List.map_take, ← List.map_take, hdrop.1]
      generalize info.filter (fun y => y.cell = k) = l
      induction l with
      | nil => rfl
      | cons y l ih => simp [ih]
    rw [hz]
    exact (h.perm.filter _).map _

/-- **C42 (located entries).** The entries handed to the compression contain, for every located point with its weight,
one entry for each cell around the point (front tracking variant), resp. exactly one entry per point (mixed variant). -/
theorem C42_entries {Q : Type*} (pts : List (Q × W)) :
    (∀ (locate : Q → Option (List (C × P))) (e : Entry C W P), e ∈ infoAll locate pts ↔
      ∃ q ∈ pts, ∃ l, locate q.1 = some l ∧ (e.cell, e.point) ∈ l ∧ e.weight = q.2) ∧
    (∀ (locate : Q → Option (C × P)) (info : List (Entry C W P)), infoOne locate pts = some info →
      info.map (fun e => (some (e.cell, e.point), e.weight)) = pts.map fun q => (locate q.1, q.2)) := by
  constructor
  · intro locate e
    unfold infoAll
    rw [List.mem_flatMap]
    constructor
    · rintro ⟨q, hq, he⟩
      cases hl : locate q.1 with
      | none => simp [hl] at he
      | some l =>
        simp only [hl, List.mem_map] at he
        obtain ⟨c, hc, rfl⟩ := he
        exact ⟨q, hq, l, hl, hc, rfl⟩
    · rintro ⟨q, hq, l, hl, hm, hw⟩
      refine ⟨q, hq, ?_⟩
      simp only [hl, List.mem_map]
      exact ⟨_, hm, by cases e; simp_all⟩
  · intro locate info h
    unfold infoOne at h
    induction pts generalizing info with
    | nil => simp at h; subst h; rfl
    | cons q pts ih =>
      rw [List.mapM_cons] at h
      cases hq : locate q.1 with
      | none => simp [hq] at h
      | some c =>
        simp only [hq, Option.map_some, Option.bind_eq_bind, Option.bind_some] at h
        cases hr : pts.mapM fun q => (locate q.1).map fun c => (⟨c.2, q.2, c.1⟩ : Entry C W P) with
        | none => rw [hr] at h; simp at h
        | some r =>
          rw [hr] at h
          simp at h; subst h
          simp [hq, ih r hr]

/-! ## C43 -/

/-- weights handed to the force computation: those of all slices -/
def Csr.totalWeight [AddCommMonoid W] (a : Csr C W P) : W := a.weights.sum

theorem compress_weights (dummy : C) (info0 info : List (Entry C W P)) (h : SortedFrom info0 info)
    (hd : ∀ e ∈ info0, e.cell ≠ dummy) : (compress dummy info).weights.Perm (info0.map (·.weight)) := by
  have inv := loop_inv dummy info h.sorted (fun e he => hd e (h.perm.mem_iff.1 he))
  have : (compress dummy info).weights = info.map (·.weight) := inv.w
  rw [this]
  exact h.perm.map _

/-- **C43 (mixed level set variant).** The weights assigned to the cells sum up to the surface quadrature weights, for
all meshes and point locations. -/
theorem C43_mixed_conserves [AddCommMonoid W] {Q : Type*} (locate : Q → Option (C × P)) (pts : List (Q × W)) (dummy : C)
    (info0 info : List (Entry C W P)) (h0 : infoOne locate pts = some info0) (h : SortedFrom info0 info)
    (hd : ∀ e ∈ info0, e.cell ≠ dummy) :
    (compress dummy info).totalWeight = (pts.map (·.2)).sum := by
  unfold Csr.totalWeight
  rw [(compress_weights dummy info0 info h hd).sum_eq]
  have := (C42_entries pts).2 locate info0 h0
  have h2 := congrArg (List.map Prod.snd) this
  simp only [List.map_map] at h2
  have e1 : info0.map (·.weight) = pts.map (·.2) := h2
  rw [e1]

/-- **C43 (front tracking variant), what is true.** Every weight is counted as often as there are cells around the point;
the sum is conserved if every point lies in exactly one cell. Missing (false of the code, see below): points on faces
between cells and points outside of the mesh. -/
theorem C43_front_tracking_partial [AddCommMonoid W] {Q : Type*} (locate : Q → Option (List (C × P)))
    (pts : List (Q × W)) (dummy : C) (info : List (Entry C W P)) (h : SortedFrom (infoAll locate pts) info)
    (hd : ∀ e ∈ infoAll locate pts, e.cell ≠ dummy) :
    (compress dummy info).totalWeight = (pts.map fun q => ((locate q.1).getD []).length • q.2).sum ∧
    ((∀ q ∈ pts, ∃ c, locate q.1 = some [c]) → (compress dummy info).totalWeight = (pts.map (·.2)).sum) := by
  have key : (compress dummy info).totalWeight = (pts.map fun q => ((locate q.1).getD []).length • q.2).sum := by
    unfold Csr.totalWeight
    rw [(compress_weights dummy _ info h hd).sum_eq]
    clear h hd
    induction pts with
    | nil => simp [infoAll]
    | cons q pts ih =>
      unfold infoAll at ih ⊢
      rw [List.flatMap_cons, List.map_append, List.sum_append, ih, List.map_cons, List.sum_cons]
      congr 1
      cases hl : locate q.1 with
      | none => simp
      | some l => simp [Function.comp_def]
  refine ⟨key, fun hone => ?_⟩
  rw [key]
  congr 1
  apply List.map_congr_left
  intro q hq
  obtain ⟨c, hc⟩ := hone q hq
  simp [hc]

/-- a surface point on the face between the cells `(0,0)` and `(0,1)`, and one outside of the mesh -/
def exLocate : ℕ → Option (List ((ℤ ×ₗ ℤ) × ℕ))
  | 0 => some [(toLex (0, 1), 7), (toLex (0, 0), 8)]
  | 1 => some [(toLex (0, 1), 9)]
  | _ => none

/-- **C43 is false of the front tracking variant:** the weight 3 of a point on a face is counted twice, the weight 100 of a
point outside of the mesh is dropped silently. -/
theorem C43_front_tracking_violated :
    ∃ info : List (Entry (ℤ ×ₗ ℤ) ℕ ℕ), SortedFrom (infoAll exLocate [(0, 3), (1, 5), (2, 100)]) info ∧
      (compress (toLex (-1, -1)) info).totalWeight = 11 ∧ ([(0, 3), (1, 5), (2, 100)].map (·.2)).sum = 108 := by
  refine ⟨[⟨8, 3, toLex (0, 0)⟩, ⟨7, 3, toLex (0, 1)⟩, ⟨9, 5, toLex (0, 1)⟩], ⟨?_, ?_⟩, ?_, ?_⟩ <;> decide +kernel

/-! Non-vacuity of the hypotheses -/

def exInfo0 : List (Entry (ℤ ×ₗ ℤ) ℕ ℕ) :=
  [⟨7, 3, toLex (0, 1)⟩, ⟨8, 3, toLex (0, 0)⟩, ⟨9, 5, toLex (0, 1)⟩, ⟨2, 4, toLex (1, 0)⟩]

example : ∃ info, SortedFrom exInfo0 info ∧
    compress (toLex (-1, -1)) info = ⟨[toLex (0, 0), toLex (0, 1), toLex (1, 0)], [0, 1, 3, 4], [3, 3, 5, 4], [8, 7, 9, 2]⟩ := by
  refine ⟨[⟨8, 3, toLex (0, 0)⟩, ⟨7, 3, toLex (0, 1)⟩, ⟨9, 5, toLex (0, 1)⟩, ⟨2, 4, toLex (1, 0)⟩], ⟨?_, ?_⟩, ?_⟩ <;> decide +kernel
example : ∀ e ∈ exInfo0, e.cell ≠ toLex (-1, -1) := by decide +kernel
example : (infoOne (fun q : ℕ => some ((toLex ((0 : ℤ), (q : ℤ))), q)) [(3, 5), (4, 6)]).isSome := by decide +kernel

end Verif.Sharp
