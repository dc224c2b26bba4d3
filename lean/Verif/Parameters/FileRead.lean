import Verif.Parameters.FileLemmas
import Mathlib.Data.List.Nodup

/-! # C106: lemmas about the readers of `.prm` and JSON files -/

set_option linter.unusedSectionVars false

namespace Verif.Parameters.File

variable {K : Type} {c : Conv K} {rows : List Spec.Row} {secs : List Path}

theorem key_unique (hn : (rows.map Spec.Row.key).Nodup) {r r' : Spec.Row} (hr : r ∈ rows)
    (hr' : r' ∈ rows) (hk : r.key = r'.key) : r = r' :=
  List.inj_on_of_nodup_map hn hr hr' hk

/-! ## Assignments -/

theorem set_ok (hn : (rows.map Spec.Row.key).Nodup) {A : List (Key × String)} {h : Handler}
    (hE : EntOk c rows A h.entries) {n v : String} {r : Spec.Row} (hr : r ∈ rows)
    (hk : r.key = (h.path, n)) (hv : r.pattern.ok c v = true) :
    ∃ h', setEntry c n v h = .ok ((), h') ∧ h'.path = h.path ∧ h'.sections = h.sections ∧
      EntOk c rows (A ++ [((h.path, n), v)]) h'.entries := by
  have h1 := hE.entry r hr
  rw [hk] at h1
  refine ⟨{ h with entries := Function.update h.entries (h.path, n) (some ⟨v, r.pattern⟩) },
    by simp [setEntry, h1, hv], rfl, rfl, ?_⟩
  refine ⟨?_, ?_, ?_⟩
  · intro r' hr'
    by_cases he : r'.key = (h.path, n)
    · have : r' = r := key_unique hn hr' hr (he.trans hk.symm)
      subst this
      rw [he, value_snoc_self]
      exact Function.update_self _ _ _
    · rw [value_snoc_ne (Ne.symm he), ← hE.entry r' hr']
      exact Function.update_of_ne he _ _
  · intro r' hr'
    by_cases he : r'.key = (h.path, n)
    · have : r' = r := key_unique hn hr' hr (he.trans hk.symm)
      subst this
      rw [he, value_snoc_self]
      exact hv
    · rw [value_snoc_ne (Ne.symm he)]
      exact hE.ok r' hr'
  · intro k hk'
    have : k ≠ (h.path, n) := fun he => hk' r hr (hk.trans he.symm)
    change Function.update h.entries (h.path, n) _ k = none
    rw [Function.update_of_ne this]
    exact hE.other k hk'

theorem set_undeclared {A : List (Key × String)} {h : Handler}
    (hE : EntOk c rows A h.entries) {n v : String} (hk : ∀ r ∈ rows, r.key ≠ (h.path, n)) :
    setEntry c n v h = .error .undeclared := by
  simp [setEntry, hE.other _ hk]

theorem set_mismatch {A : List (Key × String)} {h : Handler}
    (hE : EntOk c rows A h.entries) {n v : String} {r : Spec.Row} (hr : r ∈ rows)
    (hk : r.key = (h.path, n)) (hv : ¬ r.pattern.ok c v = true) :
    setEntry c n v h = .error .mismatch := by
  have h1 := hE.entry r hr
  rw [hk] at h1
  simp [setEntry, h1, hv]

/-! ## `.prm` files -/

/-- No section is left more often than entered, beginning `k` sections deep. -/
def Bal (k : Nat) (ls : List Line) : Prop :=
  ∀ n, Spec.closes (ls.take n) ≤ Spec.opens (ls.take n) + k

theorem closes_cons (l : Line) (ls : List Line) :
    Spec.closes (l :: ls) = Spec.closes ls + if l = .close then 1 else 0 := by
  simp [Spec.closes, List.countP_cons]

theorem opens_sub (s : String) (ls : List Line) :
    Spec.opens (.subsection s :: ls) = Spec.opens ls + 1 := by
  simp [Spec.opens]

theorem opens_close (ls : List Line) : Spec.opens (.close :: ls) = Spec.opens ls := by
  simp [Spec.opens]

theorem opens_assign (n v : String) (ls : List Line) :
    Spec.opens (.assign n v :: ls) = Spec.opens ls := by
  simp [Spec.opens]

theorem bal_nil (k : Nat) : Bal k [] := by
  intro n; simp [Spec.closes]

theorem bal_sub (k : Nat) (s : String) (ls : List Line) :
    Bal k (.subsection s :: ls) ↔ Bal (k + 1) ls := by
  constructor
  · intro h n
    have := h (n + 1)
    rw [List.take_succ_cons, closes_cons, opens_sub] at this
    simp at this
    omega
  · intro h n
    cases n with
    | zero => simp [Spec.closes]
    | succ n =>
      have := h n
      rw [List.take_succ_cons, closes_cons, opens_sub]
      simp
      omega

theorem bal_close (k : Nat) (ls : List Line) :
    Bal k (.close :: ls) ↔ 0 < k ∧ Bal (k - 1) ls := by
  constructor
  · intro h
    have hk : 0 < k := by
      have := h 1
      rw [List.take_succ_cons, closes_cons, opens_close] at this
      simp [Spec.opens] at this
      omega
    refine ⟨hk, fun n => ?_⟩
    have := h (n + 1)
    rw [List.take_succ_cons, closes_cons, opens_close] at this
    simp at this
    omega
  · rintro ⟨hk, h⟩ n
    cases n with
    | zero => simp [Spec.closes]
    | succ n =>
      have := h n
      rw [List.take_succ_cons, closes_cons, opens_close]
      simp
      omega

theorem bal_assign (k : Nat) (x v : String) (ls : List Line) :
    Bal k (.assign x v :: ls) ↔ Bal k ls := by
  constructor
  · intro h n
    have := h (n + 1)
    rw [List.take_succ_cons, closes_cons, opens_assign] at this
    simpa using this
  · intro h n
    cases n with
    | zero => simp [Spec.closes]
    | succ n =>
      have := h n
      rw [List.take_succ_cons, closes_cons, opens_assign]
      simpa using this

/-- What is accepted, beginning in section `p`. -/
def Acc (c : Conv K) (rows : List Spec.Row) (secs : List Path) (p : Path) (ls : List Line) : Prop :=
  Bal p.length ls ∧ (∀ q ∈ Spec.opened p ls, q ∈ secs) ∧
  ∀ a ∈ Spec.assignments p ls, ∃ r ∈ rows, r.key = a.1 ∧ r.pattern.ok c a.2 = true

theorem scan_cons_error {l : Line} {ls : List Line} {h : Handler} {e : Fail}
    (hl : scanLine c l h = .error e) : scanLines c (l :: ls) h = .error e := by
  change StateT.bind (scanLine c l) (fun _ => scanLines c ls) h = _
  simp only [StateT.bind, hl]
  rfl

theorem scan_cons_ok {l : Line} {ls : List Line} {h h1 : Handler}
    (hl : scanLine c l h = .ok ((), h1)) : scanLines c (l :: ls) h = scanLines c ls h1 :=
  bind_run hl

theorem scan_acc (hn : (rows.map Spec.Row.key).Nodup) : ∀ (ls : List Line) (h : Handler)
    (A : List (Key × String)), EntOk c rows A h.entries → SecOk secs h.sections →
    (Acc c rows secs h.path ls → ∃ h', scanLines c ls h = .ok ((), h') ∧
      EntOk c rows (A ++ Spec.assignments h.path ls) h'.entries ∧ SecOk secs h'.sections ∧
      h'.path.length + Spec.closes ls = Spec.opens ls + h.path.length) ∧
    (¬ Acc c rows secs h.path ls → ∃ e, scanLines c ls h = .error e) := by
  intro ls
  induction ls with
  | nil =>
    intro h A hE hS
    refine ⟨fun _ => ⟨h, rfl, by simpa [Spec.assignments] using hE, hS, ?_⟩, fun hn => ?_⟩
    · simp [Spec.closes, Spec.opens]
    · exact absurd ⟨bal_nil _, by simp [Spec.opened], by simp [Spec.assignments]⟩ hn
  | cons l ls ih =>
    intro h A hE hS
    cases l with
    | subsection s =>
      have hacc : Acc c rows secs h.path (.subsection s :: ls) ↔
          (h.path ++ [s]) ∈ secs ∧ Acc c rows secs (h.path ++ [s]) ls := by
        unfold Acc
        rw [bal_sub]
        simp only [Spec.opened, Spec.assignments, List.mem_cons, List.length_append,
          List.length_singleton, forall_eq_or_imp]
        tauto
      by_cases hs : (h.path ++ [s]) ∈ secs
      · have hl : scanLine c (.subsection s) h = .ok ((), { h with path := h.path ++ [s] }) := by
          simp [scanLine, (hS _).2 hs]
        obtain ⟨i1, i2⟩ := ih { h with path := h.path ++ [s] } A hE hS
        rw [scan_cons_ok hl, hacc]
        refine ⟨fun ha => ?_, fun ha => i2 (fun hb => ha ⟨hs, hb⟩)⟩
        obtain ⟨h', e1, e2, e3, e4⟩ := i1 ha.2
        refine ⟨h', e1, e2, e3, ?_⟩
        rw [closes_cons, opens_sub]
        simp at e4 ⊢
        omega
      · refine ⟨fun ha => absurd (hacc.1 ha).1 hs, fun _ => ⟨.undeclared, ?_⟩⟩
        apply scan_cons_error
        have : h.sections (h.path ++ [s]) ≠ true := fun ht => hs ((hS _).1 ht)
        simp [scanLine, this]
    | close =>
      have hacc : Acc c rows secs h.path (.close :: ls) ↔
          h.path ≠ [] ∧ Acc c rows secs h.path.dropLast ls := by
        unfold Acc
        rw [bal_close]
        simp only [Spec.opened, Spec.assignments, List.length_dropLast, ne_eq,
          ← List.length_pos_iff]
        tauto
      by_cases hp : h.path = []
      · refine ⟨fun ha => absurd hp (hacc.1 ha).1, fun _ => ⟨.topLevel, ?_⟩⟩
        apply scan_cons_error
        simp [scanLine, leave, hp]
      · have hl : scanLine c .close h = .ok ((), { h with path := h.path.dropLast }) := by
          simp [scanLine, leave, hp]
        obtain ⟨i1, i2⟩ := ih { h with path := h.path.dropLast } A hE hS
        rw [scan_cons_ok hl, hacc]
        refine ⟨fun ha => ?_, fun ha => i2 (fun hb => ha ⟨hp, hb⟩)⟩
        obtain ⟨h', e1, e2, e3, e4⟩ := i1 ha.2
        refine ⟨h', e1, e2, e3, ?_⟩
        rw [closes_cons, opens_close]
        have := List.length_pos_iff.2 hp
        simp at e4 ⊢
        omega
    | assign n v =>
      have hacc : Acc c rows secs h.path (.assign n v :: ls) ↔
          (∃ r ∈ rows, r.key = (h.path, n) ∧ r.pattern.ok c v = true) ∧
            Acc c rows secs h.path ls := by
        unfold Acc
        rw [bal_assign]
        simp only [Spec.opened, Spec.assignments, List.mem_cons, forall_eq_or_imp]
        tauto
      by_cases hv : ∃ r ∈ rows, r.key = (h.path, n) ∧ r.pattern.ok c v = true
      · obtain ⟨r, hr, hk, hok⟩ := hv
        obtain ⟨h1, hl, hp, hs, hE1⟩ := set_ok hn hE hr hk hok
        replace hl : scanLine c (.assign n v) h = .ok ((), h1) := hl
        obtain ⟨i1, i2⟩ := ih h1 _ hE1 (by rw [hs]; exact hS)
        rw [hp] at i1 i2
        rw [scan_cons_ok hl, hacc]
        refine ⟨fun ha => ?_, fun ha => i2 (fun hb => ha ⟨⟨r, hr, hk, hok⟩, hb⟩)⟩
        obtain ⟨h', e1, e2, e3, e4⟩ := i1 ha.2
        refine ⟨h', e1, ?_, e3, ?_⟩
        · simpa [Spec.assignments] using e2
        · rw [closes_cons, opens_assign]
          simpa using e4
      · refine ⟨fun ha => absurd (hacc.1 ha).1 hv, fun _ => ?_⟩
        by_cases hk : ∃ r ∈ rows, r.key = (h.path, n)
        · obtain ⟨r, hr, hk⟩ := hk
          exact ⟨.mismatch, scan_cons_error
            (set_mismatch hE hr hk (fun hok => hv ⟨r, hr, hk, hok⟩))⟩
        · push Not at hk
          exact ⟨.undeclared, scan_cons_error (set_undeclared hE hk)⟩

/-- Reading a `.prm` file at the top level. -/
theorem parseInput_spec (hn : (rows.map Spec.Row.key).Nodup) {ls : List Line} {h : Handler}
    (hE : EntOk c rows [] h.entries) (hS : SecOk secs h.sections) (hp : h.path = []) :
    (Spec.Valid c rows secs ls → ∃ h', parseInput c ls h = .ok ((), h') ∧ h'.path = [] ∧
      EntOk c rows (Spec.assignments [] ls) h'.entries) ∧
    (¬ Spec.Valid c rows secs ls → ∃ e, parseInput c ls h = .error e) := by
  obtain ⟨i1, i2⟩ := scan_acc hn ls h [] hE hS
  rw [hp] at i1 i2
  have hb : Bal (([] : Path).length) ls ↔ ∀ n, Spec.closes (ls.take n) ≤ Spec.opens (ls.take n) := by
    simp [Bal]
  have hv : Spec.Valid c rows secs ls ↔
      Spec.closes ls = Spec.opens ls ∧ Acc c rows secs [] ls := by
    unfold Spec.Valid Spec.Balanced Acc
    rw [hb]
    tauto
  rw [hv]
  by_cases ha : Acc c rows secs [] ls
  · obtain ⟨h', e1, e2, e3, e4⟩ := i1 ha
    constructor
    · rintro ⟨hc, -⟩
      have : h'.path = [] := by
        apply List.eq_nil_of_length_eq_zero
        simp at e4; omega
      exact ⟨h', by simp [parseInput, e1, this, hp], this, by simpa using e2⟩
    · intro hc
      have hne : h'.path ≠ [] := by
        intro h0
        apply hc
        refine ⟨?_, ha⟩
        simp [h0] at e4
        omega
      exact ⟨.unbalanced, by simp [parseInput, e1, hne, hp]⟩
  · refine ⟨fun hc => absurd hc.2 ha, fun _ => ?_⟩
    obtain ⟨e, he⟩ := i2 ha
    exact ⟨e, by simp [parseInput, he]⟩

/-! ## JSON files -/

theorem json_prefix : ∀ (j : Json) (p : Path), ∀ a ∈ Spec.jsonAssignments p j, p <+: a.1.1 := by
  intro j
  induction j with
  | nil => intro p a ha; simp [Spec.jsonAssignments] at ha
  | value n v rest ih =>
    intro p a ha
    simp only [Spec.jsonAssignments, List.mem_cons] at ha
    rcases ha with rfl | ha
    · exact List.prefix_refl _
    · exact ih p a ha
  | object s body rest ihb ihr =>
    intro p a ha
    simp only [Spec.jsonAssignments, List.mem_append] at ha
    rcases ha with ha | ha
    · exact (List.prefix_append p [s]).trans (ihb _ a ha)
    · exact ihr p a ha

/-- The section of every entry exists, and so do the sections around it. -/
def Closed (rows : List Spec.Row) (secs : List Path) : Prop :=
  ∀ r ∈ rows, ∀ q, q <+: r.key.1 → q ≠ [] → q ∈ secs

theorem entOk_skip {A B : List (Key × String)} {E : Key → Option Entry}
    (hE : EntOk c rows A E) (hB : ∀ r ∈ rows, ∀ b ∈ B, b.1 ≠ r.key) :
    EntOk c rows (A ++ B) E :=
  ⟨fun r hr => by rw [value_append_of_notMem (hB r hr)]; exact hE.entry r hr,
   fun r hr => by rw [value_append_of_notMem (hB r hr)]; exact hE.ok r hr, hE.other⟩

/-- What is accepted, as section `p`. -/
def JAcc (c : Conv K) (rows : List Spec.Row) (p : Path) (j : Json) : Prop :=
  ∀ a ∈ Spec.jsonAssignments p j, ∀ r ∈ rows, r.key = a.1 → r.pattern.ok c a.2 = true

theorem json_acc (hn : (rows.map Spec.Row.key).Nodup) (hc : Closed rows secs) :
    ∀ (j : Json) (h : Handler) (A : List (Key × String)), EntOk c rows A h.entries →
    SecOk secs h.sections →
    (JAcc c rows h.path j → ∃ h', parseJson c j h = .ok ((), h') ∧ h'.path = h.path ∧
      h'.sections = h.sections ∧
      EntOk c rows (A ++ Spec.jsonAssignments h.path j) h'.entries) ∧
    (¬ JAcc c rows h.path j → ∃ e, parseJson c j h = .error e) := by
  intro j
  induction j with
  | nil =>
    intro h A hE hS
    refine ⟨fun _ => ⟨h, rfl, rfl, rfl, by simpa [Spec.jsonAssignments] using hE⟩, fun hn => ?_⟩
    exact absurd (by intro a ha; simp [Spec.jsonAssignments] at ha) hn
  | value n v rest ih =>
    intro h A hE hS
    have hacc : JAcc c rows h.path (.value n v rest) ↔
        (∀ r ∈ rows, r.key = (h.path, n) → r.pattern.ok c v = true) ∧
          JAcc c rows h.path rest := by
      unfold JAcc
      simp only [Spec.jsonAssignments, List.mem_cons, forall_eq_or_imp]
    by_cases hk : ∃ r ∈ rows, r.key = (h.path, n)
    · obtain ⟨r, hr, hk⟩ := hk
      by_cases hv : r.pattern.ok c v = true
      · have hall : ∀ r ∈ rows, r.key = (h.path, n) → r.pattern.ok c v = true := by
          intro r' hr' hk'
          rw [key_unique hn hr' hr (hk'.trans hk.symm)]
          exact hv
        obtain ⟨h1, hl, hp, hs, hE1⟩ := set_ok hn hE hr hk hv
        obtain ⟨i1, i2⟩ := ih h1 _ hE1 (by rw [hs]; exact hS)
        rw [hp] at i1 i2
        have hrun : parseJson c (.value n v rest) h = parseJson c rest h1 := by
          simp [parseJson, hl]
        rw [hrun, hacc]
        refine ⟨fun ha => ?_, fun ha => i2 (fun hb => ha ⟨hall, hb⟩)⟩
        obtain ⟨h', e1, e2, e3, e4⟩ := i1 ha.2
        exact ⟨h', e1, e2, e3.trans hs, by simpa [Spec.jsonAssignments] using e4⟩
      · refine ⟨fun ha => absurd ((hacc.1 ha).1 r hr hk) hv, fun _ => ⟨.mismatch, ?_⟩⟩
        simp [parseJson, set_mismatch hE hr hk hv]
    · push Not at hk
      obtain ⟨i1, i2⟩ := ih h _ (entOk_skip (B := [((h.path, n), v)]) hE (by
        intro r hr b hb
        simp only [List.mem_singleton] at hb
        subst hb
        exact (hk r hr).symm)) hS
      have hrun : parseJson c (.value n v rest) h = parseJson c rest h := by
        simp [parseJson, set_undeclared hE hk]
      rw [hrun, hacc]
      refine ⟨fun ha => ?_, fun ha =>
        i2 (fun hb => ha ⟨fun r hr he => absurd he (hk r hr), hb⟩)⟩
      obtain ⟨h', e1, e2, e3, e4⟩ := i1 ha.2
      exact ⟨h', e1, e2, e3, by simpa [Spec.jsonAssignments] using e4⟩
  | object s body rest ihb ihr =>
    intro h A hE hS
    have hacc : JAcc c rows h.path (.object s body rest) ↔
        JAcc c rows (h.path ++ [s]) body ∧ JAcc c rows h.path rest := by
      unfold JAcc
      simp only [Spec.jsonAssignments, List.mem_append]
      constructor
      · intro hh
        exact ⟨fun a ha => hh a (Or.inl ha), fun a ha => hh a (Or.inr ha)⟩
      · rintro ⟨h1, h2⟩ a (ha | ha)
        · exact h1 a ha
        · exact h2 a ha
    by_cases hs : h.sections (h.path ++ [s]) = true
    · obtain ⟨b1, b2⟩ := ihb { h with path := h.path ++ [s] } A hE hS
      by_cases hb : JAcc c rows (h.path ++ [s]) body
      · obtain ⟨h1, e1, e2, e3, e4⟩ := b1 hb
        obtain ⟨r1, r2⟩ := ihr { h1 with path := h.path } _ e4 (by simpa [e3] using hS)
        have hrun : parseJson c (.object s body rest) h
            = parseJson c rest { h1 with path := h.path } := by
          simp [parseJson, hs, e1]
        rw [hrun, hacc]
        refine ⟨fun ha => ?_, fun ha => r2 (fun hr => ha ⟨hb, hr⟩)⟩
        obtain ⟨h', g1, g2, g3, g4⟩ := r1 ha.2
        exact ⟨h', g1, g2, g3.trans e3, by simpa [Spec.jsonAssignments] using g4⟩
      · refine ⟨fun ha => absurd (hacc.1 ha).1 hb, fun _ => ?_⟩
        obtain ⟨e, he⟩ := b2 hb
        exact ⟨e, by simp [parseJson, hs, he]⟩
    · have hsec : (h.path ++ [s]) ∉ secs := fun hm => hs ((hS _).2 hm)
      have hno : ∀ r ∈ rows, ∀ b ∈ Spec.jsonAssignments (h.path ++ [s]) body, b.1 ≠ r.key := by
        intro r hr b hb he
        have := json_prefix _ _ b hb
        rw [he] at this
        exact hsec (hc r hr _ this (by simp))
      have hb : JAcc c rows (h.path ++ [s]) body := by
        intro a ha r hr he
        exact absurd he.symm (hno r hr a ha)
      obtain ⟨r1, r2⟩ := ihr h _ (entOk_skip hE hno) hS
      have hrun : parseJson c (.object s body rest) h = parseJson c rest h := by
        simp [parseJson, hs]
      rw [hrun, hacc]
      refine ⟨fun ha => ?_, fun ha => r2 (fun hr => ha ⟨hb, hr⟩)⟩
      obtain ⟨h', g1, g2, g3, g4⟩ := r1 ha.2
      exact ⟨h', g1, g2, g3, by simpa [Spec.jsonAssignments] using g4⟩

end Verif.Parameters.File
