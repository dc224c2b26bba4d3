import Verif.Parameters.FileRead
import Mathlib.Data.List.TakeWhile
import Mathlib.Algebra.Order.Field.Basic
import Mathlib.Tactic.Linarith
import Mathlib.Tactic.Positivity

/-! # C106: parameter files mean what they say -/

set_option linter.unusedSectionVars false

namespace Verif.Parameters.File

variable {K : Type}

/-! ## The name of the file -/

theorem ending_iff (name e : List Char) (he : '.' ∉ e) :
    ending name = e ↔ Spec.HasEnding name e := by
  unfold ending Spec.HasEnding
  constructor
  · intro h
    have h1 : name.reverse.takeWhile (· ≠ '.') = e.reverse := by
      rw [← h, List.reverse_reverse]
    have h2 := List.takeWhile_append_dropWhile (p := (· ≠ '.')) (l := name.reverse)
    rw [h1] at h2
    have h3 : name = (name.reverse.dropWhile (· ≠ '.')).reverse ++ e := by
      have := congrArg List.reverse h2
      rw [List.reverse_append, List.reverse_reverse, List.reverse_reverse] at this
      exact this.symm
    cases hd : name.reverse.dropWhile (· ≠ '.') with
    | nil => right; rw [hd] at h3; simpa using h3
    | cons x xs =>
      left
      have hx : x = '.' := by
        have := List.head_dropWhile_not (fun x => decide (x ≠ '.')) (l := name.reverse)
          (by rw [hd]; simp)
        simp only [hd, List.head_cons] at this
        simpa using this
      rw [hd, hx] at h3
      exact ⟨xs.reverse, by simpa using h3⟩
  · have hall : ∀ x ∈ e.reverse, decide (x ≠ '.') = true := by
      intro x hx
      simp only [List.mem_reverse] at hx
      simp only [decide_eq_true_eq]
      rintro rfl
      exact he hx
    rintro (⟨b, rfl⟩ | rfl)
    · rw [List.reverse_append, List.reverse_cons, List.append_assoc,
        List.takeWhile_append_of_pos hall]
      simp
    · rw [List.takeWhile_eq_self_iff.2 hall, List.reverse_reverse]

/-! ## Declaring -/

theorem put_append (E : Key → Option Entry) (a b : List Spec.Row) :
    put (put E a) b = put E (a ++ b) := by
  induction a generalizing E with
  | nil => rfl
  | cons r rs ih => exact ih _

theorem entOk_put {c : Conv K} {rows : List Spec.Row} (hn : (rows.map Spec.Row.key).Nodup)
    (hd : ∀ r ∈ rows, r.pattern.ok c r.default = true) :
    EntOk c rows [] (put (fun _ => none) rows) :=
  ⟨fun r hr => put_mem rows _ hn r hr, hd, fun k hk => put_other rows _ k hk⟩

/-- The table of the application micro_particle. -/
def allRows : List Spec.Row := Spec.table ++ [Spec.twoPhaseRow]

/-- The sections of the application micro_particle. -/
def allSecs : List Path := Spec.sections ++ [["Problem-specific"]]

theorem nodup_all : (allRows.map Spec.Row.key).Nodup := by decide +kernel

theorem nodup_table : (Spec.table.map Spec.Row.key).Nodup := by decide +kernel

theorem flat_table : flat [] declareParameters = Spec.table := by decide +kernel

theorem entered_sections : entered [] declareParameters = Spec.sections := by decide +kernel

theorem closed_of_dec {rows : List Spec.Row} {secs : List Path}
    (hd : ∀ r ∈ rows, ∀ q ∈ r.key.1.inits, q ≠ [] → q ∈ secs) : Closed rows secs := by
  intro r hr q hq hne
  exact hd r hr q ((List.mem_inits _ _).2 hq) hne

theorem closed_table : Closed Spec.table Spec.sections := closed_of_dec (by decide +kernel)

theorem closed_all : Closed allRows allSecs := closed_of_dec (by decide +kernel)

section
variable [Field K] {c : Conv K}

theorem defaults_ok (hc : Spec.Std c) : ∀ r ∈ Spec.table, r.pattern.ok c r.default = true := by
  obtain ⟨i0, i1, i2, i10, i50, i500, d0, d0d, d1, d1d, dm1, d10, dp1, d0p1, d0p8, e2, e3, e6⟩ := hc
  simp [Spec.table, Pattern.ok, i0, i1, i2, i10, i50, i500, d0, d0d, d1, d1d, dm1, d10, dp1, d0p1,
    d0p8, e2, e3, e6]

theorem defaults_all_ok (hc : Spec.Std c) : ∀ r ∈ allRows, r.pattern.ok c r.default = true := by
  intro r hr
  rcases List.mem_append.1 hr with h | h
  · exact defaults_ok hc r h
  · simp only [List.mem_singleton] at h
    subst h
    rfl

theorem declared (hc : Spec.Std c) : ∃ D, runDecls c declareParameters Handler.empty = .ok ((), D) ∧
    D.path = [] ∧ D.entries = put (fun _ => none) Spec.table ∧ SecOk Spec.sections D.sections := by
  obtain ⟨D, h1, h2, h3, h4⟩ := runDecls_ok c declareParameters Handler.empty []
    (by decide +kernel) (by rw [show Handler.empty.path = [] from rfl, flat_table];
                            exact defaults_ok hc)
  refine ⟨D, h1, h2, by rw [h3, ← flat_table]; rfl, ?_⟩
  intro p
  rw [h4, ← entered_sections]
  simp [Handler.empty]

theorem declared_all (hc : Spec.Std c) : ∃ D,
    (do runDecls c declareParameters; runDecls c declareTwoPhase : Action Unit) Handler.empty
      = .ok ((), D) ∧ D.path = [] ∧ EntOk c allRows [] D.entries ∧ SecOk allSecs D.sections := by
  obtain ⟨D, h1, h2, h3, h4⟩ := declared hc
  have hf : flat [] declareTwoPhase = [Spec.twoPhaseRow] := by decide +kernel
  have he : entered [] declareTwoPhase = [["Problem-specific"]] := by decide +kernel
  obtain ⟨D', g1, g2, g3, g4⟩ := runDecls_ok c declareTwoPhase D []
    (by rw [h2]; decide +kernel)
    (by rw [h2, hf]; intro r hr; simp only [List.mem_singleton] at hr; subst hr; rfl)
  refine ⟨D', (bind_run h1).trans g1, g2, ?_, ?_⟩
  · rw [g3, h3, h2, hf, put_append]
    exact entOk_put nodup_all (defaults_all_ok hc)
  · intro p
    rw [g4, h2, he, h4]
    simp only [allSecs, List.mem_append]
    tauto

/-! ## The file -/

variable {rows : List Spec.Row} {secs : List Path}

theorem readFile_spec (hn : (rows.map Spec.Row.key).Nodup) (hcl : Closed rows secs) {h : Handler}
    (hE : EntOk c rows [] h.entries) (hS : SecOk secs h.sections) (hp : h.path = [])
    (name : List Char) (file : Content) :
    (∀ A, Spec.Reads c rows secs name file A → ∃ h', readFile c name file h = .ok ((), h') ∧
      h'.path = [] ∧ EntOk c rows A h'.entries) ∧
    ((¬ ∃ A, Spec.Reads c rows secs name file A) → ∃ e, readFile c name file h = .error e) := by
  have ej := ending_iff name ['j', 's', 'o', 'n'] (by decide)
  have ep := ending_iff name ['p', 'r', 'm'] (by decide)
  unfold Spec.Reads readFile
  rw [← ej, ← ep]
  by_cases h1 : ending name = ['j', 's', 'o', 'n']
  · have h2 : ending name ≠ ['p', 'r', 'm'] := by rw [h1]; decide
    simp only [h1, if_true, true_and]
    rw [h1] at h2
    cases hj : file.json with
    | none =>
      constructor
      · rintro A (⟨j, hx, -⟩ | ⟨hx, -⟩)
        · cases hx
        · exact absurd hx h2
      · intro _
        exact ⟨_, rfl⟩
    | some j =>
      obtain ⟨i1, i2⟩ := json_acc hn hcl j h [] hE hS
      rw [hp] at i1 i2
      constructor
      · rintro A (⟨j', hx, hv, rfl⟩ | ⟨hx, -⟩)
        · obtain rfl : j = j' := by simpa using hx
          obtain ⟨h', e1, e2, -, e4⟩ := i1 hv
          exact ⟨h', e1, e2, by simpa using e4⟩
        · exact absurd hx h2
      · intro hno
        exact i2 (fun hv => hno ⟨_, Or.inl ⟨j, rfl, hv, rfl⟩⟩)
  · simp only [h1, if_false, false_and, false_or]
    by_cases h2 : ending name = ['p', 'r', 'm']
    · simp only [h2, if_true, true_and]
      cases hj : file.prm with
      | none =>
        constructor
        · rintro A ⟨j, hx, -⟩
          cases hx
        · intro _
          exact ⟨_, rfl⟩
      | some ls =>
        obtain ⟨i1, i2⟩ := parseInput_spec (ls := ls) hn hE hS hp
        constructor
        · rintro A ⟨ls', hx, hv, rfl⟩
          obtain rfl : ls = ls' := by simpa using hx
          exact i1 hv
        · intro hno
          exact i2 (fun hv => hno ⟨_, ls, rfl, hv, rfl⟩)
    · simp only [h2, if_false, false_and]
      exact ⟨by rintro A ⟨⟩, fun _ => ⟨_, rfl⟩⟩

variable [LinearOrder K]

/-- The result of the constructor from the entries. -/
def result (debug : Bool) (e : Entries K) (x : More K) : Except Fail (Flow K × Members K) :=
  match parse debug e with
  | .error err => .error (.check err)
  | .ok f => .ok (f, x.members)

theorem checkAndParse_spec (hn : (rows.map Spec.Row.key).Nodup) (hcl : Closed rows secs)
    (hsub : ∀ r ∈ Spec.table, r ∈ rows) {h : Handler}
    (hE : EntOk c rows [] h.entries) (hS : SecOk secs h.sections) (hp : h.path = [])
    (debug : Bool) (fs : List Char → Option Content) (name : List Char) :
    (fs name = none → checkAndParse c debug fs name h = .error .notFound) ∧
    (∀ file, fs name = some file → (¬ ∃ A, Spec.Reads c rows secs name file A) →
      checkAndParse c debug fs name h = .error .invalidFile) ∧
    (∀ file A, fs name = some file → Spec.Reads c rows secs name file A →
      ∃ h', h'.path = [] ∧ EntOk c rows A h'.entries ∧
        checkAndParse c debug fs name h =
          match result debug (valsEntries c A) (valsMore c A) with
          | .error err => .error err
          | .ok r => .ok (r, h')) := by
  refine ⟨?_, ?_, ?_⟩
  · intro hf
    simp [checkAndParse, hf]
  · intro file hf hno
    obtain ⟨e, he⟩ := (readFile_spec hn hcl hE hS hp name file).2 hno
    simp only [checkAndParse, hf]
    change StateT.bind (catchAll (readFile c name file)) (fun _ => parseHandler c debug) h = _
    simp only [StateT.bind, catchAll, he]
    rfl
  · intro file A hf hr
    obtain ⟨h1, e1, e2, e3⟩ := (readFile_spec hn hcl hE hS hp name file).1 A hr
    obtain ⟨h2, g1, g2, g3⟩ := readEntries_ok e3 hsub e2
    refine ⟨h2, g2, by rw [g3]; exact e3, ?_⟩
    simp only [checkAndParse, hf]
    refine (bind_run (a := ()) (h' := h1) (by simp [catchAll, e1])).trans ?_
    unfold parseHandler
    refine (bind_run g1).trans ?_
    simp only [result]
    cases parse debug (valsEntries c A) with
    | error err => rfl
    | ok f => rfl

end

variable [Field K] [LinearOrder K] {c : Conv K}

/-- The constructor, in terms of the values of the file. -/
theorem flow_spec (hc : Spec.Std c) (debug : Bool) (fs : List Char → Option Content)
    (name : List Char) :
    (fs name = none → flowParameters c debug fs name = .error .notFound) ∧
    (∀ file, fs name = some file →
      (¬ ∃ A, Spec.Reads c Spec.table Spec.sections name file A) →
      flowParameters c debug fs name = .error .invalidFile) ∧
    (∀ file A, fs name = some file → Spec.Reads c Spec.table Spec.sections name file A →
      Spec.Says c A (valsEntries c A) (valsMore c A) ∧
      flowParameters c debug fs name = result debug (valsEntries c A) (valsMore c A)) := by
  obtain ⟨D, h1, h2, h3, h4⟩ := declared hc
  have hE : EntOk c Spec.table [] D.entries := by
    rw [h3]; exact entOk_put nodup_table (defaults_ok hc)
  obtain ⟨i1, i2, i3⟩ := checkAndParse_spec nodup_table closed_table (fun r hr => hr) hE h4 h2
    debug fs name
  have hrun : (do runDecls c declareParameters; checkAndParse c debug fs name : Action _)
      Handler.empty = checkAndParse c debug fs name D := bind_run h1
  unfold flowParameters
  rw [hrun]
  refine ⟨fun hf => by rw [i1 hf], fun file hf hno => by rw [i2 file hf hno], ?_⟩
  intro file A hf hr
  obtain ⟨h', -, e2, e3⟩ := i3 file A hf hr
  refine ⟨says_vals e2 (fun r hr => hr), ?_⟩
  rw [e3]
  cases result debug (valsEntries c A) (valsMore c A) <;> rfl

theorem members_set (x : More K) : Spec.Set x x.members := by
  constructor <;> simp [More.members]

/-- **C106.** Constructing the parameters from a file: a missing file and an unreadable one (name
without the ending `.prm` or `.json`; sections not nested; in a `.prm` file an entry or section that
is not documented; a text that is not of the pattern of its entry) raise the two documented
exceptions.  Otherwise every entry has the last value assigned to it in the section where it is
documented, or its documented default, and the result is that of the checks on these values. -/
theorem C106_outcome (hc : Spec.Std c) (debug : Bool) (fs : List Char → Option Content)
    (name : List Char) :
    (fs name = none → flowParameters c debug fs name = .error .notFound) ∧
    (∀ file, fs name = some file →
      (¬ ∃ A, Spec.Reads c Spec.table Spec.sections name file A) →
      flowParameters c debug fs name = .error .invalidFile) ∧
    (∀ file A, fs name = some file → Spec.Reads c Spec.table Spec.sections name file A →
      ∃ e x, Spec.Says c A e x ∧
        (∀ err, parse debug e = .error err →
          flowParameters c debug fs name = .error (.check err)) ∧
        (∀ f, parse debug e = .ok f →
          ∃ m, flowParameters c debug fs name = .ok (f, m) ∧ Spec.Set x m)) := by
  obtain ⟨i1, i2, i3⟩ := flow_spec hc debug fs name
  refine ⟨i1, i2, fun file A hf hr => ?_⟩
  obtain ⟨h1, h2⟩ := i3 file A hf hr
  refine ⟨_, _, h1, ?_, ?_⟩
  · intro err he
    rw [h2, result, he]
  · intro f he
    exact ⟨_, by rw [h2, result, he], members_set _⟩

/-- **C106.** Every successful construction: the members come from the entries of the file. -/
theorem C106_members (hc : Spec.Std c) (debug : Bool) (fs : List Char → Option Content)
    (name : List Char) (f : Flow K) (m : Members K)
    (hok : flowParameters c debug fs name = .ok (f, m)) :
    ∃ file A e x, fs name = some file ∧ Spec.Reads c Spec.table Spec.sections name file A ∧
      Spec.Says c A e x ∧ parse debug e = .ok f ∧ Spec.Set x m := by
  obtain ⟨i1, i2, i3⟩ := C106_outcome hc debug fs name
  cases hf : fs name with
  | none => rw [i1 hf] at hok; cases hok
  | some file =>
    by_cases hr : ∃ A, Spec.Reads c Spec.table Spec.sections name file A
    · obtain ⟨A, hr⟩ := hr
      obtain ⟨e, x, hs, he, hk⟩ := i3 file A hf hr
      cases hp : parse debug e with
      | error err => rw [he err hp] at hok; cases hok
      | ok f' =>
        obtain ⟨m', h1, h2⟩ := hk f' hp
        rw [h1] at hok
        obtain ⟨rfl, rfl⟩ : f' = f ∧ m' = m := by simpa using hok
        exact ⟨file, A, e, x, rfl, hr, hs, hp, h2⟩
    · rw [i2 file hf hr] at hok; cases hok

/-- **C106.** The only exceptions are the documented ones: no `get` fails, no section is left too
often, and no member selected by name stays uninitialised. -/
theorem C106_exceptions (hc : Spec.Std c) (debug : Bool) (fs : List Char → Option Content)
    (name : List Char) (err : Fail) (he : flowParameters c debug fs name = .error err) :
    err ∈ [Fail.notFound, .invalidFile, .check .degree, .check .debugAssert, .check .tauGradDiv,
      .check .diffusionLength, .check .epsilon] := by
  obtain ⟨i1, i2, i3⟩ := flow_spec hc debug fs name
  cases hf : fs name with
  | none =>
    rw [i1 hf] at he
    obtain rfl : Fail.notFound = err := by simpa using he
    simp
  | some file =>
    by_cases hr : ∃ A, Spec.Reads c Spec.table Spec.sections name file A
    · obtain ⟨A, hr⟩ := hr
      obtain ⟨D, h1, h2, h3, h4⟩ := declared hc
      have hE : EntOk c Spec.table [] D.entries := by
        rw [h3]; exact entOk_put nodup_table (defaults_ok hc)
      obtain ⟨-, -, j3⟩ := checkAndParse_spec nodup_table closed_table (fun r hr => hr) hE h4 h2
        debug fs name
      obtain ⟨h', -, e2, -⟩ := j3 file A hf hr
      rw [(i3 file A hf hr).2, result] at he
      cases hp : parse debug (valsEntries c A) with
      | ok f => rw [hp] at he; cases he
      | error e =>
        rw [hp] at he
        obtain rfl : Fail.check e = err := by simpa using he
        have hsel : ∀ k d names, (⟨k, d, .selection names⟩ : Spec.Row) ∈ Spec.table →
            Spec.value A k d ∈ names := by
          intro k d names hm
          have := e2.ok _ hm
          simpa [Pattern.ok] using this
        have := C12_never_uninitialised debug (valsEntries c A)
          (hsel _ _ _ (by decide +kernel)) (hsel _ _ _ (by decide +kernel))
          (hsel _ _ _ (by decide +kernel)) (hsel _ _ _ (by decide +kernel)) e hp
        simp only [List.mem_cons, List.not_mem_nil, or_false] at this ⊢
        rcases this with rfl | rfl | rfl | rfl | rfl <;> simp
    · rw [i2 file hf hr] at he
      obtain rfl : Fail.invalidFile = err := by simpa using he
      simp

/-- **C106.** The result depends on a file only through the last value it assigns to each documented
entry: the order of sections and entries, repeated sections, entries assigned several times and the
format do not matter. -/
theorem C106_last_value (hc : Spec.Std c) (debug : Bool) (fs : List Char → Option Content)
    (name₁ name₂ : List Char) (file₁ file₂ : Content) (A₁ A₂ : List (Key × String))
    (hf₁ : fs name₁ = some file₁) (hf₂ : fs name₂ = some file₂)
    (hr₁ : Spec.Reads c Spec.table Spec.sections name₁ file₁ A₁)
    (hr₂ : Spec.Reads c Spec.table Spec.sections name₂ file₂ A₂)
    (heq : ∀ r ∈ Spec.table, Spec.value A₁ r.key r.default = Spec.value A₂ r.key r.default) :
    flowParameters c debug fs name₁ = flowParameters c debug fs name₂ := by
  obtain ⟨s1, r1⟩ := (flow_spec hc debug fs name₁).2.2 file₁ A₁ hf₁ hr₁
  obtain ⟨s2, r2⟩ := (flow_spec hc debug fs name₂).2.2 file₂ A₂ hf₂ hr₂
  have hv : ∀ k d t, (⟨k, d, t⟩ : Spec.Row) ∈ Spec.table → Spec.value A₁ k d = Spec.value A₂ k d :=
    fun k d t hm => heq _ hm
  have hs : Spec.Says c A₂ (valsEntries c A₁) (valsMore c A₁) := says_congr hv s1
  obtain ⟨u1, u2⟩ := says_unique hs
  rw [r1, r2, u1, u2]

/-! ## The default values -/

/-- **C106 (defaults).** A file without assignments is accepted (also with the debug checks), and the
parameters are the documented defaults; as the documented default of the minimal step size exceeds
that of the step size, the step size is then constant: adaptive step size selection is switched off
unless the file lowers `min step size`. -/
theorem C106_defaults [IsStrictOrderedRing K] (hc : Spec.Std c) (debug : Bool)
    (fs : List Char → Option Content) (name : List Char) (file : Content)
    (hf : fs name = some file) (hr : Spec.Reads c Spec.table Spec.sections name file []) :
    ∃ f m, flowParameters c debug fs name = .ok (f, m) ∧
      f.dimension = 2 ∧ f.velocityDegree = 2 ∧ f.viscosity = 1 ∧ f.density = 1 ∧
      f.physical = .incompressible ∧ f.linearization = .coupledImplicitNewton ∧ f.beta = 1 / 2 ∧
      f.precVelocity = .amgLinear ∧ f.precPressure = .massIlu ∧ f.scheme = .bdf2 ∧
      f.startTime = 0 ∧ f.endTime = 1 ∧ f.stepStart = 1 / 100 ∧
      f.stepMin = 1 / 100 ∧ f.stepMax = 1 / 100 ∧ m.outputFilename = "" ∧
      m.localizeTension = true ∧ m.cfl = 8 / 10 ∧ m.tolerance = 1 / 100 := by
  obtain ⟨-, hrun⟩ := (flow_spec hc debug fs name).2.2 file [] hf hr
  obtain ⟨i0, i1, i2, i10, i50, i500, d0, d0d, d1, d1d, dm1, d10, dp1, d0p1, d0p8, e2, e3, e6⟩ := hc
  rw [hrun]
  have hp : ∃ f, parse debug (valsEntries c []) = .ok f ∧ f.dimension = 2 ∧
      f.velocityDegree = 2 ∧ f.viscosity = 1 ∧ f.density = 1 ∧
      f.physical = .incompressible ∧ f.linearization = .coupledImplicitNewton ∧ f.beta = 1 / 2 ∧
      f.precVelocity = .amgLinear ∧ f.precPressure = .massIlu ∧ f.scheme = .bdf2 ∧
      f.startTime = 0 ∧ f.endTime = 1 ∧ f.stepStart = 1 / 100 ∧
      f.stepMin = 1 / 100 ∧ f.stepMax = 1 / 100 := by
    have hlt : (1 : K) / 10 ^ 2 < 1 / 10 := by
      rw [div_lt_div_iff_of_pos_left one_pos (by positivity) (by positivity)]; norm_num
    have h10 : (0 : K) < 1 / 10 := by positivity
    have hm1 : ¬ (0 : K) < -1 := by norm_num
    simp only [valsEntries, iv, dv, Spec.value, List.filter_nil, List.getLast?_nil, Option.map_none,
      Option.getD_none, i0, i1, i2, i10, i50, i500, d0, d0d, d1, d1d, dm1, dp1, d0p1,
      e2, e3, e6, Option.getD_some]
    refine ⟨_, by
      simp [parse, parsePhysical, parseLinearization, parsePrecVelocity, parseScheme, assertThrow,
        toUnsigned, bind, Except.bind, pure, Except.pure]
      rfl, ?_⟩
    have hlt' : ((10 : K) ^ 2)⁻¹ < 10⁻¹ := by simpa using hlt
    simp [betaOf, hlt']
    norm_num
  obtain ⟨f, hf, hh⟩ := hp
  refine ⟨f, (valsMore c []).members, by rw [result, hf], ?_⟩
  obtain ⟨a1, a2, a3, a4, a5, a6, a7, a8, a9, a10, a11, a12, a13, a14, a15⟩ := hh
  refine ⟨a1, a2, a3, a4, a5, a6, a7, a8, a9, a10, a11, a12, a13, a14, a15, rfl, ?_, ?_, ?_⟩
  · simp [More.members, valsMore, iv, Spec.value, i1]
  · simp [More.members, valsMore, dv, Spec.value, d0p8]
  · simp [More.members, valsMore, dv, Spec.value, e2]
    norm_num

/-! ## Unknown names -/

/-- The assignment is one to a documented entry. -/
def known (a : Key × String) : Bool := Spec.table.any (fun r => r.key = a.1)

theorem known_iff (a : Key × String) : known a = true ↔ ∃ r ∈ Spec.table, r.key = a.1 := by
  simp [known]

/-- **C106 (`.prm`: unknown names are reported).** A `.prm` file that assigns an entry that is not
documented, or opens a section that is not, is rejected, whatever else is in it. -/
theorem C106_prm_unknown_rejected (hc : Spec.Std c) (debug : Bool)
    (fs : List Char → Option Content) (base : List Char) (file : Content) (ls : List Line)
    (hf : fs (base ++ ['.', 'p', 'r', 'm']) = some file) (hp : file.prm = some ls)
    (hu : (∃ a ∈ Spec.assignments [] ls, ∀ r ∈ Spec.table, r.key ≠ a.1) ∨
      ∃ p ∈ Spec.opened [] ls, p ∉ Spec.sections) :
    flowParameters c debug fs (base ++ ['.', 'p', 'r', 'm']) = .error .invalidFile := by
  refine (C106_outcome hc debug fs _).2.1 file hf ?_
  have hend : ∀ e : List Char, '.' ∉ e → e ≠ ['p', 'r', 'm'] →
      ¬ Spec.HasEnding (base ++ ['.', 'p', 'r', 'm']) e := by
    intro e he hne h
    have h1 := (ending_iff _ e he).2 h
    have h2 := (ending_iff (base ++ ['.', 'p', 'r', 'm']) ['p', 'r', 'm'] (by decide)).2
      (Or.inl ⟨base, rfl⟩)
    exact hne (h1.symm.trans h2)
  rintro ⟨A, ⟨h, -⟩ | ⟨-, ls', h1, ⟨-, h2, h3⟩, -⟩⟩
  · exact hend _ (by decide) (by decide) h
  · obtain rfl : ls = ls' := by rw [hp] at h1; simpa using h1
    rcases hu with ⟨a, ha, hn⟩ | ⟨p, hp', hn⟩
    · obtain ⟨r, hr, hk, -⟩ := h3 a ha
      exact hn r hr hk
    · exact hn (h2 p hp')

theorem value_filter (A : List (Key × String)) (r : Spec.Row) (hr : r ∈ Spec.table) :
    Spec.value (A.filter known) r.key r.default = Spec.value A r.key r.default := by
  unfold Spec.value
  rw [List.filter_filter]
  congr 4
  funext a
  by_cases h : a.1 = r.key
  · have : known a = true := (known_iff a).2 ⟨r, hr, h.symm⟩
    simp [h, this]
  · simp [h]

/-- **C106 (JSON: unknown names are ignored).** Two JSON files that make the same assignments to
documented entries give the same result (the same exception or the same parameters), whatever else
they contain: a misspelled entry or section is not reported, its default is used. -/
theorem C106_json_unknown_ignored (hc : Spec.Std c) (debug : Bool)
    (fs : List Char → Option Content) (b₁ b₂ : List Char) (file₁ file₂ : Content) (j₁ j₂ : Json)
    (hf₁ : fs (b₁ ++ ['.', 'j', 's', 'o', 'n']) = some file₁)
    (hf₂ : fs (b₂ ++ ['.', 'j', 's', 'o', 'n']) = some file₂)
    (hj₁ : file₁.json = some j₁) (hj₂ : file₂.json = some j₂)
    (heq : (Spec.jsonAssignments [] j₁).filter
        (fun a => decide (∃ r ∈ Spec.table, r.key = a.1))
      = (Spec.jsonAssignments [] j₂).filter
        (fun a => decide (∃ r ∈ Spec.table, r.key = a.1))) :
    flowParameters c debug fs (b₁ ++ ['.', 'j', 's', 'o', 'n']) =
      flowParameters c debug fs (b₂ ++ ['.', 'j', 's', 'o', 'n']) := by
  have hfun : (fun a : Key × String => decide (∃ r ∈ Spec.table, r.key = a.1)) = known := by
    funext a
    rw [Bool.eq_iff_iff, known_iff]
    simp
  rw [hfun] at heq
  have hreads : ∀ (b : List Char) (file : Content) (j : Json), file.json = some j → ∀ A,
      Spec.Reads c Spec.table Spec.sections (b ++ ['.', 'j', 's', 'o', 'n']) file A ↔
        Spec.JsonValid c Spec.table j ∧ A = Spec.jsonAssignments [] j := by
    intro b file j hj A
    have h2 := (ending_iff (b ++ ['.', 'j', 's', 'o', 'n']) ['j', 's', 'o', 'n'] (by decide)).2
      (Or.inl ⟨b, rfl⟩)
    constructor
    · rintro (⟨-, j', h1, h3, h4⟩ | ⟨h, -⟩)
      · obtain rfl : j = j' := by rw [hj] at h1; simpa using h1
        exact ⟨h3, h4⟩
      · have h1 := (ending_iff _ ['p', 'r', 'm'] (by decide)).2 h
        exact absurd (h1.symm.trans h2) (by decide)
    · rintro ⟨h1, h3⟩
      exact Or.inl ⟨Or.inl ⟨b, rfl⟩, j, hj, h1, h3⟩
  have hvalid : ∀ j : Json, Spec.JsonValid c Spec.table j ↔
      ∀ a ∈ (Spec.jsonAssignments [] j).filter known, ∀ r ∈ Spec.table, r.key = a.1 →
        r.pattern.ok c a.2 = true := by
    intro j
    constructor
    · intro h a ha
      exact h a (List.mem_filter.1 ha).1
    · intro h a ha r hr hk
      exact h a (List.mem_filter.2 ⟨ha, (known_iff a).2 ⟨r, hr, hk⟩⟩) r hr hk
  by_cases hv : Spec.JsonValid c Spec.table j₁
  · have hv2 : Spec.JsonValid c Spec.table j₂ := by
      rw [hvalid, ← heq, ← hvalid]; exact hv
    refine C106_last_value hc debug fs _ _ file₁ file₂ _ _ hf₁ hf₂
      ((hreads b₁ file₁ j₁ hj₁ _).2 ⟨hv, rfl⟩) ((hreads b₂ file₂ j₂ hj₂ _).2 ⟨hv2, rfl⟩) ?_
    intro r hr
    rw [← value_filter _ r hr, heq, value_filter _ r hr]
  · have hv2 : ¬ Spec.JsonValid c Spec.table j₂ := by
      rw [hvalid, ← heq, ← hvalid]; exact hv
    rw [(C106_outcome hc debug fs _).2.1 file₁ hf₁
        (fun ⟨A, h⟩ => hv ((hreads b₁ file₁ j₁ hj₁ A).1 h).1),
      (C106_outcome hc debug fs _).2.1 file₂ hf₂
        (fun ⟨A, h⟩ => hv2 ((hreads b₂ file₂ j₂ hj₂ A).1 h).1)]

/-! ## The application micro_particle -/

theorem bind_error_run {α β : Type} {x : Action α} {f : α → Action β} {h : Handler} {e : Fail}
    (hx : x h = .error e) : (x >>= f) h = .error e := by
  change StateT.bind x f h = _
  simp only [StateT.bind, hx]
  rfl

/-- **C106 (derived class).** The class with an additional entry of its own: as `C106_outcome` with the
additional section, and the method is the last value assigned to that entry, or its default. -/
theorem C106_two_phase (hc : Spec.Std c) (debug : Bool) (fs : List Char → Option Content)
    (name : List Char) :
    (fs name = none → twoPhaseParameters c debug fs name = .error .notFound) ∧
    (∀ file, fs name = some file →
      (¬ ∃ A, Spec.Reads c (Spec.table ++ [Spec.twoPhaseRow])
        (Spec.sections ++ [["Problem-specific"]]) name file A) →
      twoPhaseParameters c debug fs name = .error .invalidFile) ∧
    (∀ file A, fs name = some file → Spec.Reads c (Spec.table ++ [Spec.twoPhaseRow])
        (Spec.sections ++ [["Problem-specific"]]) name file A →
      ∃ e x, Spec.Says c A e x ∧
        (∀ err, parse debug e = .error err →
          twoPhaseParameters c debug fs name = .error (.check err)) ∧
        (∀ f, parse debug e = .ok f →
          ∃ m method, twoPhaseParameters c debug fs name = .ok ((f, m), method) ∧ Spec.Set x m ∧
            method = Spec.value A (["Problem-specific"], "two-phase method") "level set okz" ∧
            method ∈ ["level set okz", "level set okz matrix", "phase field"])) := by
  obtain ⟨D, h1, h2, h3, h4⟩ := declared_all hc
  have hsub : ∀ r ∈ Spec.table, r ∈ allRows := fun r hr => List.mem_append_left _ hr
  obtain ⟨i1, i2, i3⟩ := checkAndParse_spec nodup_all closed_all hsub h3 h4 h2 debug fs name
  have hrun : twoPhaseBody c debug fs name Handler.empty =
      (do let r ← checkAndParse c debug fs name
          enter "Problem-specific"
          let method ← getString "two-phase method"
          leave
          pure (r, method) : Action _) D := by
    unfold twoPhaseBody
    rw [← bind_assoc]
    exact bind_run h1
  have herr : ∀ e, checkAndParse c debug fs name D = .error e →
      twoPhaseParameters c debug fs name = .error e := by
    intro e he
    unfold twoPhaseParameters
    rw [hrun, bind_error_run he]
  refine ⟨fun hf => herr _ (i1 hf), fun file hf hno => herr _ (i2 file hf hno), ?_⟩
  intro file A hf hr
  obtain ⟨h', p', e2, e3⟩ := i3 file A hf hr
  refine ⟨_, _, says_vals e2 hsub, ?_, ?_⟩
  · intro err he
    refine herr _ ?_
    rw [e3, result, he]
  · intro f he
    rw [result, he] at e3
    have hrow : Spec.twoPhaseRow ∈ allRows := List.mem_append_right _ (by simp)
    have hok := e2.ok _ hrow
    refine ⟨_, _, ?_, members_set _, rfl, by simpa [Spec.twoPhaseRow, Pattern.ok] using hok⟩
    unfold twoPhaseParameters
    rw [hrun, bind_run e3]
    obtain ⟨E, S, p⟩ := h'
    simp only at p' e2
    subst p'
    have hget : ∀ S', getString "two-phase method" ⟨E, S', ["Problem-specific"]⟩ =
        .ok (Spec.value A (["Problem-specific"], "two-phase method") "level set okz",
          ⟨E, S', ["Problem-specific"]⟩) := fun S' =>
      getString_row (h := ⟨E, S', ["Problem-specific"]⟩) (d := "level set okz") e2 rfl hrow
    have hall : (do
          enter "Problem-specific"
          let method ← getString "two-phase method"
          leave
          pure ((f, (valsMore c A).members), method) : Action _) ⟨E, S, []⟩ =
        .ok (((f, (valsMore c A).members),
          Spec.value A (["Problem-specific"], "two-phase method") "level set okz"),
          ⟨E, fun p => decide (p = [] ++ ["Problem-specific"]) || S p, []⟩) := by
      refine (bind_run (a := ()) rfl).trans ?_
      refine (bind_run (hget _)).trans ?_
      rfl
    rw [hall]

/-- **C106 (derived class).** For every method that can be selected in the file except "phase field"
the application creates the solver of that name; "phase field", although allowed in the file, ends in
an exception. -/
theorem C106_micro_particle (hc : Spec.Std c) (debug : Bool) (fs : List Char → Option Content)
    (name : List Char) (r : Flow K × Members K) (method : String)
    (hok : twoPhaseParameters c debug fs name = .ok (r, method)) :
    (method = "level set okz" ∧ selectSolver method = .ok .okz) ∨
    (method = "level set okz matrix" ∧ selectSolver method = .ok .okzMatrix) ∨
    (method = "phase field" ∧ selectSolver method = .error .unknownSolver) := by
  obtain ⟨i1, i2, i3⟩ := C106_two_phase hc debug fs name
  cases hf : fs name with
  | none => rw [i1 hf] at hok; cases hok
  | some file =>
    by_cases hr : ∃ A, Spec.Reads c (Spec.table ++ [Spec.twoPhaseRow])
        (Spec.sections ++ [["Problem-specific"]]) name file A
    · obtain ⟨A, hr⟩ := hr
      obtain ⟨e, x, hs, he, hk⟩ := i3 file A hf hr
      cases hp : parse debug e with
      | error err => rw [he err hp] at hok; cases hok
      | ok f' =>
        obtain ⟨m', method', h1, -, -, h2⟩ := hk f' hp
        rw [h1] at hok
        obtain ⟨-, rfl⟩ : (f', m') = r ∧ method' = method := by
          have := Except.ok.inj hok
          exact Prod.mk.injEq _ _ _ _ ▸ this
        simp only [List.mem_cons, List.not_mem_nil, or_false] at h2
        rcases h2 with rfl | rfl | rfl
        · exact Or.inl ⟨rfl, rfl⟩
        · exact Or.inr (Or.inl ⟨rfl, by decide⟩)
        · exact Or.inr (Or.inr ⟨rfl, by decide⟩)
    · rw [i2 file hf hr] at hok; cases hok

/-! ## Examples -/

section Examples

/-- A conversion of the texts that occur below. -/
def conv : Conv ℚ where
  int s := if s = "0" then some 0 else if s = "1" then some 1 else if s = "2" then some 2
    else if s = "3" then some 3 else if s = "10" then some 10 else if s = "50" then some 50
    else if s = "500" then some 500 else none
  dbl s := if s = "0" then some 0 else if s = "0." then some 0 else if s = "1" then some 1
    else if s = "1." then some 1 else if s = "-1." then some (-1) else if s = "10" then some 10
    else if s = ".1" then some (1 / 10) else if s = "0.1" then some (1 / 10)
    else if s = "0.8" then some (8 / 10) else if s = "1.e-2" then some (1 / 10 ^ 2)
    else if s = "1.e-3" then some (1 / 10 ^ 3) else if s = "1e-6" then some (1 / 10 ^ 6)
    else if s = "0.05" then some (5 / 100) else none

/-- It reads the default values as usual. -/
theorem conv_std : Spec.Std conv where
  i0 := by decide +kernel
  i1 := by decide +kernel
  i2 := by decide +kernel
  i10 := by decide +kernel
  i50 := by decide +kernel
  i500 := by decide +kernel
  d0 := by decide +kernel
  d0dot := by decide +kernel
  d1 := by decide +kernel
  d1dot := by decide +kernel
  dm1 := by decide +kernel
  d10 := by decide +kernel
  dpt1 := by decide +kernel
  d0pt1 := by decide +kernel
  d0pt8 := by decide +kernel
  d1em2 := by decide +kernel
  d1em3 := by decide +kernel
  d1em6 := by decide +kernel

/-- A file with a section opened twice and an entry assigned twice. -/
def exampleLines : List Line :=
  [.subsection "Time stepping", .assign "step size" "1.", .close,
   .subsection "Navier-Stokes", .assign "dimension" "3", .assign "viscosity" "0.05",
   .subsection "Solver", .assign "lin velocity preconditioner" "ilu", .close, .close,
   .subsection "Time stepping", .assign "step size" "0.05", .assign "scheme" "crank_nicolson",
   .close]

/-- The file system with that file, a JSON file with a misspelled entry and section, an empty JSON
file, a file for the application and a `.prm` file with a misspelled entry. -/
def exampleFs (name : List Char) : Option Content :=
  if name = ['a', '.', 'p', 'r', 'm'] then some ⟨some exampleLines, none⟩
  else if name = ['b', '.', 'j', 's', 'o', 'n'] then
    some ⟨none, some (.object "Navier-Stokes" (.value "viscositty" "0.05" .nil)
      (.object "Time steping" (.value "step size" "0.05" .nil) .nil))⟩
  else if name = ['c', '.', 'j', 's', 'o', 'n'] then some ⟨none, some .nil⟩
  else if name = ['d', '.', 'p', 'r', 'm'] then
    some ⟨some [.subsection "Problem-specific", .assign "two-phase method" "phase field", .close],
      none⟩
  else if name = ['e', '.', 'p', 'r', 'm'] then
    some ⟨some [.subsection "Navier-Stokes", .assign "viscositty" "0.05", .close], none⟩
  else none

/-- Non-vacuity: the values of the first file, by running the model. -/
example : (flowParameters conv true exampleFs ['a', '.', 'p', 'r', 'm']).toOption.map
    (fun r => (r.1.dimension, r.1.precVelocity, r.1.scheme)) =
    some (3, .ilu, .crankNicolson) := by decide +kernel

example : (flowParameters conv true exampleFs ['a', '.', 'p', 'r', 'm']).toOption.map
    (fun r => [r.1.viscosity, r.1.stepStart, r.1.stepMin, r.1.density]) =
    some [5 / 100, 5 / 100, 5 / 100, 1] := by decide +kernel

/-- Non-vacuity of `C106_last_value` and `C106_json_unknown_ignored`: the misspelled JSON file gives
the same parameters as the empty one. -/
example : flowParameters conv true exampleFs ['b', '.', 'j', 's', 'o', 'n'] =
    flowParameters conv true exampleFs ['c', '.', 'j', 's', 'o', 'n'] :=
  C106_json_unknown_ignored conv_std true exampleFs ['b'] ['c'] _ _ _ _ rfl rfl rfl rfl
    (by decide +kernel)

/-- The misspelled `.prm` file is rejected. -/
example : flowParameters conv true exampleFs ['e', '.', 'p', 'r', 'm'] = .error .invalidFile :=
  C106_prm_unknown_rejected conv_std true exampleFs ['e'] _ _ rfl rfl
    (Or.inl (by decide +kernel))

/-- The file of the application is rejected by the base class (its section is not documented
there). -/
example : flowParameters conv true exampleFs ['d', '.', 'p', 'r', 'm'] = .error .invalidFile :=
  C106_prm_unknown_rejected conv_std true exampleFs ['d'] _ _ rfl rfl
    (Or.inr (by decide +kernel))

/-- Non-vacuity of `C106_defaults`. -/
example : Spec.Reads conv Spec.table Spec.sections ['c', '.', 'j', 's', 'o', 'n']
    ⟨none, some .nil⟩ [] :=
  Or.inl ⟨Or.inl ⟨['c'], rfl⟩, .nil, rfl, (by intro a ha; cases ha), rfl⟩

/-- **C106 counterexample.** A parameter file with the allowed method "phase field" is accepted, but
the application micro_particle has no solver for it. -/
theorem C106_phase_field_unavailable :
    (twoPhaseParameters conv true exampleFs ['d', '.', 'p', 'r', 'm']).toOption.map
      (fun r => (r.2, selectSolver r.2)) = some ("phase field", .error .unknownSolver) := by
  decide +kernel

end Examples

end Verif.Parameters.File
