import Verif.Output.Model
import Verif.Time.Tick
import Mathlib.Data.Nat.Digits.Defs

/-! # C13, C14: output file names -/

set_option linter.unusedSectionVars false

namespace Verif.Output

/-- `b` is the file name part of the path `s`. -/
def IsBaseName (b s : List Char) : Prop :=
  '/' ∉ b ∧ ∃ dir, s = dir ++ b ∧ (dir = [] ∨ dir.getLast? = some '/')

theorem intToString_val (v d : ℕ) : Nat.ofDigitChars 10 (intToString v d) 0 = v := by
  unfold intToString
  rw [Nat.ofDigitChars_append, Nat.ofDigitChars_replicate_zero, Nat.mul_zero,
    Nat.ofDigitChars_toDigits (by norm_num) (by norm_num)]

theorem intToString_inj {v w d e : ℕ} (h : intToString v d = intToString w e) : v = w := by
  rw [← intToString_val v d, h, intToString_val]

theorem intToString_isDigit {v d : ℕ} {c : Char} (h : c ∈ intToString v d) : c.isDigit = true := by
  unfold intToString at h
  rw [List.mem_append] at h
  rcases h with h | h
  · rw [List.eq_of_mem_replicate h]; rfl
  · exact Nat.isDigit_of_mem_toDigits (by norm_num) (by norm_num) h

/-- Splitting at the first character that is no digit. -/
theorem split_digits {a b c d : List Char} {x : Char} (ha : ∀ y ∈ a, y.isDigit = true)
    (hb : ∀ y ∈ b, y.isDigit = true) (hx : x.isDigit = false)
    (h : a ++ x :: c = b ++ x :: d) : a = b ∧ c = d := by
  induction a generalizing b with
  | nil =>
    cases b with
    | nil => simpa using h
    | cons y b =>
      simp only [List.nil_append, List.cons_append, List.cons.injEq] at h
      have := hb y (by simp)
      rw [← h.1, hx] at this; cases this
  | cons z a ih =>
    cases b with
    | nil =>
      simp only [List.nil_append, List.cons_append, List.cons.injEq] at h
      have := ha z (by simp)
      rw [h.1, hx] at this; cases this
    | cons y b =>
      simp only [List.cons_append, List.cons.injEq] at h
      have := ih (fun y hy => ha y (by simp [hy])) (fun y hy => hb y (by simp [hy])) h.2
      exact ⟨by rw [h.1, this.1], this.2⟩

/-- **C13 (names).** Two output calls with the same base name in runs with the same number of ranks
write the same piece file only if both the cycle and the rank agree (for any digit widths). -/
theorem C13_piece_names_injective (base : List Char) (n d₁ d₂ c₁ c₂ r₁ r₂ : ℕ)
    (h₁ : r₁ < n) (h₂ : r₂ < n)
    (h : pieceName base c₁ d₁ n r₁ = pieceName base c₂ d₂ n r₂) : c₁ = c₂ ∧ r₁ = r₂ := by
  unfold pieceName timeName at h
  by_cases hn : 1 < n
  · simp only [hn, if_true, List.append_assoc, List.append_cancel_left_eq, List.cons_append,
      List.nil_append, List.cons.injEq, true_and] at h
    have h1 := split_digits (x := '-') (fun y => intToString_isDigit) (fun y => intToString_isDigit)
      (by decide) h
    have h2 := split_digits (x := '.') (c := "vtu".toList) (d := "vtu".toList)
      (fun y => intToString_isDigit) (fun y => intToString_isDigit) (by decide) h1.2
    exact ⟨intToString_inj h1.1, intToString_inj h2.1⟩
  · have hr : r₁ = 0 ∧ r₂ = 0 := by omega
    simp only [hn, if_false, List.append_assoc, List.append_cancel_left_eq, List.cons_append,
      List.nil_append, List.cons.injEq, true_and] at h
    have h1 := split_digits (x := '.') (c := "vtu".toList) (d := "vtu".toList)
      (fun y => intToString_isDigit) (fun y => intToString_isDigit) (by decide) h
    exact ⟨intToString_inj h1.1, by omega⟩

theorem stripDir_append (s t : List Char) (ht : '/' ∉ t) : stripDir (s ++ t) = stripDir s ++ t := by
  induction s with
  | nil =>
    cases t with
    | nil => rfl
    | cons c t => simp only [List.nil_append, stripDir, if_neg ht]
  | cons c s ih =>
    by_cases h : '/' ∈ c :: s
    · have h' : '/' ∈ c :: (s ++ t) := by
        rw [← List.cons_append]; exact List.mem_append.2 (.inl h)
      simp only [List.cons_append, stripDir, if_pos h, if_pos h', ih]
    · have h' : '/' ∉ c :: (s ++ t) := by
        rw [← List.cons_append]; exact fun hm => (List.mem_append.1 hm).elim h ht
      simp only [List.cons_append, stripDir, if_neg h, if_neg h']

theorem stripDir_isBaseName (s : List Char) : IsBaseName (stripDir s) s := by
  induction s with
  | nil => exact ⟨by simp [stripDir], [], by simp [stripDir]⟩
  | cons c s ih =>
    by_cases h : '/' ∈ c :: s
    · simp only [stripDir, if_pos h]
      refine ⟨ih.1, ?_⟩
      obtain ⟨-, dir, hs, hd⟩ := ih
      refine ⟨c :: dir, by rw [List.cons_append, ← hs], .inr ?_⟩
      rcases hd with rfl | hd
      · have hc : '/' = c := by
          rcases List.mem_cons.1 h with h' | h'
          · exact h'
          · rw [hs] at h'
            have := (stripDir_isBaseName_aux s)
            exact absurd h' (by simpa using this)
        simp [← hc]
      · rw [List.getLast?_cons, hd]; rfl
    · simp only [stripDir, if_neg h]
      exact ⟨h, [], by simp⟩
where
  stripDir_isBaseName_aux (s : List Char) : '/' ∉ stripDir s := by
    induction s with
    | nil => simp [stripDir]
    | cons c s ih =>
      simp only [stripDir]
      split_ifs with h
      · exact ih
      · exact h

theorem slash_not_digit {v d : ℕ} : '/' ∉ intToString v d := fun h => by
  have := intToString_isDigit h
  revert this; decide

/-- **C13 (master record).** For more than one rank the master record lists, in rank order, exactly
the file name parts of the piece files the ranks write, each once. -/
theorem C13_master_lists_pieces (base : List Char) (c d n : ℕ) (hn : 1 < n) :
    (masterEntries base c d n).length = n ∧ (masterEntries base c d n).Nodup ∧
    ∀ r (h : r < (masterEntries base c d n).length),
      IsBaseName (masterEntries base c d n)[r] (pieceName base c d n r) := by
  refine ⟨by simp [masterEntries], ?_, ?_⟩
  · unfold masterEntries
    refine List.Nodup.map_on ?_ List.nodup_range
    intro i hi j hj h
    simp only [List.append_assoc, List.append_cancel_left_eq] at h
    have h2 := split_digits (x := '.') (c := "vtu".toList) (d := "vtu".toList)
      (fun y => intToString_isDigit) (fun y => intToString_isDigit) (by decide) h
    exact intToString_inj h2.1
  · intro r hr
    have hs := stripDir_isBaseName (timeName base c d ++ (['-'] ++ intToString r (digitsFor n) ++
      ".vtu".toList))
    rw [stripDir_append] at hs
    · simpa [masterEntries, pieceName, hn] using hs
    · simp only [List.mem_append, not_or]
      exact ⟨⟨by decide, slash_not_digit⟩, by decide⟩

/-- **C13 (master name).** Master records of different cycles have different names, and they never
overwrite a piece file of any rank or cycle. -/
theorem C13_master_names (base : List Char) (c₁ c₂ d₁ d₂ n r : ℕ) :
    (masterName base c₁ d₁ = masterName base c₂ d₂ → c₁ = c₂) ∧
    masterName base c₁ d₁ ≠ pieceName base c₂ d₂ n r := by
  constructor
  · intro h
    unfold masterName timeName at h
    simp only [List.append_assoc, List.append_cancel_left_eq] at h
    have h2 := split_digits (x := '.') (c := "pvtu".toList) (d := "pvtu".toList)
      (fun y => intToString_isDigit) (fun y => intToString_isDigit) (by decide) h
    exact intToString_inj h2.1
  · intro h
    have h1 := congrArg List.reverse h
    simp [masterName, pieceName] at h1

/-- Non-vacuity: rank 3 of 12 writes `out/f-007-03.vtu` for cycle 7; the master record lists
`f-007-03.vtu`. -/
example : String.ofList (pieceName "out/f".toList 7 3 12 3) = "out/f-007-03.vtu" ∧
    ((masterEntries "out/f".toList 7 3 12)[3]?).map String.ofList = some "f-007-03.vtu" := by
  decide +kernel

variable {K : Type*} [Field K] [LinearOrder K] [IsStrictOrderedRing K] [FloorRing K]

/-- **C14 (cycle numbers).** An output at a time within `[-0.51, 0.49)` periods of `k` times the
output frequency gets cycle number `k`. -/
theorem C14_cycle_number (freq now : K) (k : ℕ) (hf : 0 < freq)
    (h1 : k * freq - 51 / 100 * freq ≤ now) (h2 : now < k * freq + 49 / 100 * freq) :
    cycleOf now freq = k := by
  unfold cycleOf toUnsigned
  have : ⌊now / freq + 51 / 100⌋ = (k : ℤ) := by
    rw [Int.floor_eq_iff, Int.cast_natCast]
    have e : now / freq * freq = now := div_mul_cancel₀ _ hf.ne'
    constructor
    · have : (k : K) - 51 / 100 ≤ now / freq := by
        rw [le_div_iff₀ hf]; linarith
      linarith
    · have : now / freq < k + 49 / 100 := by
        rw [div_lt_iff₀ hf]; linarith
      linarith
  rw [this]; simp

/-- **C14 (no overwriting).** Two outputs of one run at times (almost) equal to different multiples
of the output frequency never write the same file, on any rank. -/
theorem C14_ticks_do_not_overwrite (base : List Char) (s t : Time.TS K) (freq : K) (n r₁ r₂ k l : ℕ)
    (hf : 0 < freq) (hr₁ : r₁ < n) (hr₂ : r₂ < n) (hkl : k ≠ l)
    (hs : |s.now - k * freq| < 49 / 100 * freq) (ht : |t.now - l * freq| < 49 / 100 * freq) :
    writtenFile base s freq n r₁ ≠ writtenFile base t freq n r₂ := by
  intro h
  rw [abs_lt] at hs ht
  have h1 := C14_cycle_number freq s.now k hf (by linarith [hs.1]) (by linarith [hs.2])
  have h2 := C14_cycle_number freq t.now l hf (by linarith [ht.1]) (by linarith [ht.2])
  have := (C13_piece_names_injective base n _ _ _ _ r₁ r₂ hr₁ hr₂ h).1
  rw [h1, h2] at this
  exact hkl this

/-- **C14 (sortable names).** In a run starting at time 0, the cycle numbers of all outputs are
written with the same number of digits, so that the lexicographic order of the file names is the
order in time. -/
theorem C14_equal_width (start now final freq : K) (hf : 0 < freq) (h0 : start = 0) (h1 : 0 ≤ now)
    (h2 : now ≤ final) :
    (intToString (cycleOf now freq) (digitsFor (noTimeSteps start final freq))).length
      = digitsFor (noTimeSteps start final freq) := by
  have hle : cycleOf now freq ≤ noTimeSteps start final freq := by
    unfold cycleOf noTimeSteps toUnsigned
    apply Int.toNat_le_toNat
    apply Int.floor_le_floor
    have : now / freq ≤ (final - start) / freq := by
      rw [h0, sub_zero]; exact div_le_div_of_nonneg_right h2 hf.le
    linarith
  unfold intToString
  have hlen : (Nat.toDigits 10 (cycleOf now freq)).length ≤
      digitsFor (noTimeSteps start final freq) := by
    rw [Nat.length_toDigits_le_iff (by norm_num) (by simp [digitsFor])]
    exact lt_of_le_of_lt hle (Nat.lt_pow_succ_log_self (by norm_num) _)
  simp only [List.length_append, List.length_replicate]
  omega

/-- **C14 counterexample (final time).** With frequency 1 and final time 1.3 the output forced at the
final time overwrites the file of the tick at time 1. -/
theorem C14_final_output_overwrites :
    ∃ s t : Time.TS ℚ, s.now = 1 ∧ t.now = 13 / 10 ∧ t.atEnd = true ∧ s.final = 13 / 10 ∧
      s.atTick 1 = true ∧ t.atTick 1 = true ∧
      Time.Reachable ⟨.bdf2, 0, 13 / 10, 1 / 10, 1, 1 / 100⟩ s ∧
      Time.Reachable ⟨.bdf2, 0, 13 / 10, 1 / 10, 1, 1 / 100⟩ t ∧
      writtenFile "f".toList s 1 1 0 = writtenFile "f".toList t 1 1 0 :=
  ⟨Time.nexts (.ctor ⟨.bdf2, 0, 13 / 10, 1 / 10, 1, 1 / 100⟩) 10,
   Time.nexts (.ctor ⟨.bdf2, 0, 13 / 10, 1 / 10, 1, 1 / 100⟩) 13, by decide +kernel,
   by decide +kernel, by decide +kernel, by decide +kernel, by decide +kernel, by decide +kernel,
   Time.nexts_reachable 10 (by decide +kernel), Time.nexts_reachable 13 (by decide +kernel),
   by decide +kernel⟩

/-- Non-vacuity for the positive part. -/
example : |(Time.nexts (.ctor (Time.exParams .bdf2)) 4).now - (2 : ℕ) * 2| < 49 / 100 * (2 : ℚ) := by
  decide +kernel

end Verif.Output
