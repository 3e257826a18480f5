import Verif.Jq.Model
import Verif.Util.Str
import Verif.Util.Forall2
/-
Model of how errors of a jq filter are reported: crates/weaver_forge/src/jq.rs:194-261 and
crates/weaver_forge/src/error.rs:26-62. The errors themselves are jaq's.
-/
namespace Verif.Jq
open Verif.Util

/-- A part of the filter that an error is about: what is before it in the filter and the part itself, or a part of
another text, e.g. of the definitions that come with weaver. -/
inductive Part where
  | inside (before part : Chars)
  | outside (part : Chars)

/-- The text of the part. -/
def Part.text : Part → Chars
  | .inside _ p => p
  | .outside p => p

/-- error.rs:36-43 `FilterErrorDetail`. -/
structure Detail where
  error : Chars
  source : Option (Location × Location) := none
deriving DecidableEq

/-- jq.rs:145-192 `get_source`. -/
def Part.source : Part → Option (Location × Location)
  | .inside b p => some (getSource b p)
  | .outside _ => none

/-- jaq's `Undefined`: what is not defined, with the number of arguments for filters. -/
inductive Undefined where
  | filter (arity : Nat)
  | other (name : Chars)

/-- jaq's `Undefined::as_str`. -/
def Undefined.name : Undefined → Chars
  | .filter _ => "filter".toList
  | .other n => n

/-- jaq's `load::Error` of a file. -/
inductive LoadError where
  | io (errs : List (Chars × Chars))
  | lex (errs : List (Chars × Part))
  | parse (errs : List (Chars × Part))

/-- The words of jq.rs:252-253. -/
def wReduce : Chars := "reduce".toList
def wForeach : Chars := "foreach".toList
/-- What they expect. -/
def expReduce : Chars := "2".toList
def expForeach : Chars := "2 or 3".toList
/-- jq.rs:254. -/
def undefinedHead : Chars := "undefined ".toList
/-- The beginning of jq.rs:250. -/
def wrongHead : Chars := "wrong number of arguments (expected ".toList
/-- The beginning of jq.rs:223. -/
def ioHead : Chars := "could not load file ".toList

/-- jq.rs:221-226 `report_io`. -/
def reportIo (e : Chars × Chars) : Detail :=
  { error := ioHead ++ (e.1 ++ ':' :: ' ' :: e.2) }

/-- jq.rs:229-234 `report_lex` and 237-242 `report_parse`, which are the same. -/
def reportExpected (e : Chars × Part) : Detail :=
  { error := "expected ".toList ++ e.1, source := e.2.source }

/-- jq.rs:250. -/
def wrongNumber (exp : Chars) (got : Nat) : Chars :=
  wrongHead ++ (exp ++ (", found ".toList ++ (Nat.toDigits 10 got ++ [')'])))

/-- jq.rs:251-255. -/
def compileText (found : Chars) : Undefined → Chars
  | .filter n =>
    if found = wReduce then wrongNumber expReduce n
    else if found = wForeach then wrongNumber expForeach n
    else undefinedHead ++ (Undefined.filter n).name
  | .other k => undefinedHead ++ k

/-- jq.rs:245-261 `report_compile`. -/
def reportCompile (e : Part × Undefined) : Detail :=
  { error := compileText e.1.text e.2, source := e.1.source }

/-- jq.rs:195-208 `load_errors`. -/
def loadErrors (errs : List LoadError) : List Detail :=
  errs.flatMap fun e => match e with
    | .io l => l.map reportIo
    | .lex l => l.map reportExpected
    | .parse l => l.map reportExpected

/-- jq.rs:211-218 `compile_errors`. -/
def compileErrors (errs : List (List (Part × Undefined))) : List Detail := errs.flatMap fun l => l.map reportCompile

/-- error.rs:45-53 `Display`. -/
def Detail.show (d : Detail) : Chars :=
  match d.source with
  | some (s, _) => Nat.toDigits 10 s.line ++ ':' :: (Nat.toDigits 10 s.col ++ ':' :: ' ' :: d.error)
  | none => d.error

/-- `join(",\n")`. -/
def joinComma : List Chars → Chars
  | [] => []
  | [a] => a
  | a :: b :: l => a ++ [',', '\n'] ++ joinComma (b :: l)

/-- error.rs:56-62 `format_details`. -/
def formatDetails (l : List Detail) : Chars := joinComma (l.map Detail.show)

/-! ### Specification -/

/-- The line and column, from 1, of what comes after the text. -/
def LineCol (before : Chars) (line col : Nat) : Prop :=
  line = 1 + before.count '\n' ∧
    ∃ last, last <:+ before ∧ '\n' ∉ last ∧ col = 1 + last.length ∧ (last = before ∨ '\n' :: last <:+ before)

/-! ### Properties -/

theorem lineCol_fold (s : Chars) : ∀ p : Chars, ∀ l : Location, LineCol p l.line l.col →
    LineCol (p ++ s) (s.foldl Location.step l).line (s.foldl Location.step l).col := by
  induction s with
  | nil => intro p l h; simpa using h
  | cons c s ih =>
    intro p l h
    have : p ++ c :: s = (p ++ [c]) ++ s := by simp
    rw [this, List.foldl_cons]
    refine ih _ _ ?_
    obtain ⟨h1, last, hs, hn, hc, hb⟩ := h
    unfold Location.step
    by_cases e : c = '\n'
    · subst e
      refine ⟨by simp [h1]; omega, [], List.nil_suffix, by simp, by simp, .inr ?_⟩
      exact ⟨p, rfl⟩
    · refine ⟨by simp [h1, e], last ++ [c], ?_, by simp [hn, Ne.symm e], by simp [e, hc]; omega, ?_⟩
      · obtain ⟨t, rfl⟩ := hs
        exact ⟨t, by simp⟩
      · rcases hb with rfl | ⟨t, ht⟩
        · exact .inl rfl
        · exact .inr ⟨t, by rw [← ht]; simp⟩

/-- **C306**: the place of an error in the filter is the line and column of the part. -/
theorem part_source_place (b p : Chars) : ∃ s e, (Part.inside b p).source = some (s, e) ∧ LineCol b s.line s.col ∧
    LineCol (b ++ p) e.line e.col := by
  have h0 : LineCol ([] : Chars) 1 1 := ⟨rfl, [], List.nil_suffix, by simp, rfl, .inl rfl⟩
  have hb := lineCol_fold b [] { line := 1, col := 1 } h0
  exact ⟨_, _, rfl, by simpa using hb, lineCol_fold p b _ (by simpa using hb)⟩

theorem colon_digits (n : Nat) : ':' ∉ Nat.toDigits 10 n := by
  intro h
  have := Nat.isDigit_of_mem_toDigits (by omega) (by omega) h
  revert this
  decide

theorem split_colon {a b : Chars} : ∀ {x y : Chars}, ':' ∉ x → ':' ∉ y → x ++ ':' :: a = y ++ ':' :: b → x = y ∧ a = b
  | [], [], _, _, h => ⟨rfl, (List.cons.inj h).2⟩
  | [], c :: y, _, hy, h => absurd (by rw [(List.cons.inj h).1]; simp) hy
  | c :: x, [], hx, _, h => absurd (by rw [← (List.cons.inj h).1]; simp) hx
  | c :: x, d :: y, hx, hy, h => by
    obtain ⟨rfl, h2⟩ := List.cons.inj h
    obtain ⟨e, e'⟩ := split_colon (x := x) (y := y) (fun m => hx (by simp [m])) (fun m => hy (by simp [m])) h2
    exact ⟨by rw [e], e'⟩

theorem toDigits_inj {m n : Nat} (h : Nat.toDigits 10 m = Nat.toDigits 10 n) : m = n := by
  have := congrArg (fun l => Nat.ofDigitChars 10 l 0) h
  simpa using this

/-- **C306**: the text of an error with a place tells the line, the column and the error. -/
theorem show_injective {d d' : Detail} {s e s' e' : Location} (h : d.source = some (s, e)) (h' : d'.source = some (s', e'))
    (same : d.show = d'.show) : s = s' ∧ d.error = d'.error := by
  unfold Detail.show at same
  rw [h, h'] at same
  obtain ⟨hl, hr⟩ := split_colon (colon_digits _) (colon_digits _) same
  obtain ⟨hc, ht⟩ := split_colon (colon_digits _) (colon_digits _) hr
  refine ⟨?_, (List.cons.inj ht).2⟩
  cases s; cases s'
  simp only [Location.mk.injEq]
  exact ⟨toDigits_inj hl, toDigits_inj hc⟩

/-- **C306**: the text of an error without a place is the error. -/
theorem show_without {d : Detail} (h : d.source = none) : d.show = d.error := by
  unfold Detail.show
  rw [h]

/-- **C306**: each error that jaq has when it compiles is reported, in order. -/
theorem compileErrors_all (errs : List (List (Part × Undefined))) : compileErrors errs = errs.flatten.map reportCompile := by
  unfold compileErrors
  rw [List.map_flatten, List.flatMap_def]

/-- The number of errors of a file. -/
def LoadError.size : LoadError → Nat
  | .io l => l.length
  | .lex l => l.length
  | .parse l => l.length

/-- **C306**: each error that jaq has when it reads the filter is reported. -/
theorem loadErrors_length (errs : List LoadError) : (loadErrors errs).length = (errs.map LoadError.size).sum := by
  induction errs with
  | nil => rfl
  | cons e errs ih =>
    have : loadErrors (e :: errs) = loadErrors [e] ++ loadErrors errs := by simp [loadErrors]
    rw [this, List.length_append, ih, List.map_cons, List.sum_cons]
    cases e <;> simp [loadErrors, LoadError.size]

/-- **C306**: an error of the syntax is reported with what was expected and where. -/
theorem loadErrors_syntax {errs : List LoadError} {l : List (Chars × Part)} {x : Chars} {p : Part}
    (hl : LoadError.lex l ∈ errs ∨ LoadError.parse l ∈ errs) (hx : (x, p) ∈ l) :
    { error := "expected ".toList ++ x, source := p.source : Detail } ∈ loadErrors errs := by
  unfold loadErrors
  rw [List.mem_flatMap]
  rcases hl with h | h
  · exact ⟨_, h, List.mem_map.2 ⟨_, hx, rfl⟩⟩
  · exact ⟨_, h, List.mem_map.2 ⟨_, hx, rfl⟩⟩

/-- **C306**: a file that cannot be loaded is reported with its path and the reason. -/
theorem loadErrors_io {errs : List LoadError} {l : List (Chars × Chars)} {path why : Chars}
    (hl : LoadError.io l ∈ errs) (hx : (path, why) ∈ l) :
    { error := ioHead ++ (path ++ ([':', ' '] ++ why)) : Detail } ∈ loadErrors errs := by
  unfold loadErrors
  rw [List.mem_flatMap]
  exact ⟨_, hl, List.mem_map.2 ⟨_, hx, rfl⟩⟩

/-- **C306**: the wrong number of arguments is told for the two words of the language that look like filters. -/
theorem compileText_number (n : Nat) :
    compileText wReduce (.filter n) = wrongNumber expReduce n ∧
    compileText wForeach (.filter n) = wrongNumber expForeach n := by
  have h : wForeach ≠ wReduce := by decide
  constructor
  · unfold compileText; exact if_pos rfl
  · unfold compileText; exact (if_neg h).trans (if_pos rfl)

/-- **C306**: everything else that is not defined is told by its kind. -/
theorem compileText_undefined {found : Chars} {u : Undefined}
    (h : (∃ k, u = .other k) ∨ (found ≠ wReduce ∧ found ≠ wForeach)) :
    compileText found u = undefinedHead ++ u.name := by
  cases u with
  | other k => rfl
  | filter n =>
    rcases h with ⟨k, hk⟩ | ⟨h1, h2⟩
    · exact absurd hk (by simp)
    · unfold compileText; exact (if_neg h1).trans (if_neg h2)

theorem joinComma_within {t : Chars} : ∀ {l : List Chars}, t ∈ l → ∃ a b, joinComma l = a ++ t ++ b
  | [a], h => ⟨[], [], by simp [joinComma, List.mem_singleton.1 h]⟩
  | a :: b :: l, h => by
    rcases List.mem_cons.1 h with rfl | h
    · exact ⟨[], [',', '\n'] ++ joinComma (b :: l), by simp [joinComma]⟩
    · obtain ⟨x, y, e⟩ := joinComma_within h
      exact ⟨a ++ [',', '\n'] ++ x, y, by simp [joinComma, e]⟩

/-- **C306**: the text of the error has the text of each detail. -/
theorem formatDetails_all {l : List Detail} {d : Detail} (h : d ∈ l) : ∃ a b, formatDetails l = a ++ d.show ++ b :=
  joinComma_within (List.mem_map.2 ⟨d, h, rfl⟩)

/-- A place after a line break. -/
example : (Detail.show (reportCompile (.inside ".a\n| ".toList "foo".toList, .filter 1))) = "2:3: undefined filter".toList := by
  decide +kernel
example : (Detail.show (reportCompile (.outside "reduce".toList, .filter 3))) =
    "wrong number of arguments (expected 2, found 3)".toList := by decide +kernel

end Verif.Jq
