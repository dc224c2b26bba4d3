import Verif.Time.Model
import Mathlib.Algebra.Order.Floor.Ring
import Mathlib.Data.Nat.Log

/-! # Model of `FlowBaseAlgorithm::write_data_output` (source/flow_base_algorithm.cc:232-283)

File names are lists of characters. -/

namespace Verif.Output

/-- `Utilities::int_to_string(value, digits)` of deal.II: decimal digits, padded with zeros on the
left, never truncated. -/
def intToString (value digits : ℕ) : List Char :=
  List.replicate (digits - (Nat.toDigits 10 value).length) '0' ++ Nat.toDigits 10 value

/-- `unsigned(std::log10(double(x)) + 1)` for `x ≥ 1` (exact logarithm). -/
def digitsFor (x : ℕ) : ℕ := Nat.log 10 x + 1

variable {K : Type*} [Field K] [LinearOrder K] [FloorRing K]

/-- Conversion `double → unsigned int` for nonnegative values. -/
def toUnsigned (x : K) : ℕ := ⌊x⌋.toNat

/-- lines 244-245 -/
def noTimeSteps (start final freq : K) : ℕ := toUnsigned ((final - start) / freq + 1)

/-- line 251 -/
def cycleOf (now freq : K) : ℕ := toUnsigned (now / freq + 51 / 100)

/-- `filename_time`, line 254. -/
def timeName (base : List Char) (cycle digitsSteps : ℕ) : List Char :=
  base ++ ['-'] ++ intToString cycle digitsSteps

/-- `filename`, lines 255-259. -/
def pieceName (base : List Char) (cycle digitsSteps nProcs rank : ℕ) : List Char :=
  timeName base cycle digitsSteps ++
    (if 1 < nProcs then ['-'] ++ intToString rank (digitsFor nProcs) else []) ++ ".vtu".toList

/-- `base_name.erase(0, base_name.find_last_of('/') + 1)` if a slash is present, lines 274-276. -/
def stripDir : List Char → List Char
  | [] => []
  | c :: cs => if '/' ∈ c :: cs then stripDir cs else c :: cs

/-- The names listed in the master record, lines 272-282 (only written for `nProcs > 1`, by
rank 0). -/
def masterEntries (base : List Char) (cycle digitsSteps nProcs : ℕ) : List (List Char) :=
  (List.range nProcs).map fun i =>
    stripDir (timeName base cycle digitsSteps) ++ ['-'] ++ intToString i (digitsFor nProcs) ++
      ".vtu".toList

/-- Name of the master record, line 284. -/
def masterName (base : List Char) (cycle digitsSteps : ℕ) : List Char :=
  timeName base cycle digitsSteps ++ ".pvtu".toList

/-- One call of `write_data_output` on rank `rank`: name of the piece file (all arguments as in the
code). -/
def writtenFile (base : List Char) (t : Time.TS K) (freq : K) (nProcs rank : ℕ) : List Char :=
  pieceName base (cycleOf t.now freq) (digitsFor (noTimeSteps t.start t.final freq)) nProcs rank

end Verif.Output
