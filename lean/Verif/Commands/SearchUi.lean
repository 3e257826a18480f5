import Verif.Util.Str

/-!
# `registry search`: the results and the user interface

Models `src/registry/search.rs`. An attribute is its name, as far as the search looks at it. The text area (ratatui-textarea)
is a parameter. Simplification: the conversions between `usize` and `i32` do not overflow, so the number of attributes is less
than 2³¹.
-/

namespace Verif.Commands
open Verif.Util

/-- src/registry/search.rs:137-142 `result_set` and 366-374 `run_command_line_search`: the attributes whose name has the text
in it. -/
def resultSet (names : List Chars) (text : Chars) : List Chars := names.filter (occurs text)

/-- The output of `run_command_line_search` (366-374). -/
def cliOutput (names : List Chars) (text : Chars) : Chars := (List.intercalate ['\n'] (resultSet names text)) ++ ['\n']

/-- search.rs:72-79 `SearchApp`. -/
structure Ui where
  text : Chars
  selected : Option Nat
  deriving DecidableEq

/-- The keys. `other` is a key for the text area. -/
inductive Key (K : Type) where
  | quit | up | down
  | other (k : K)

/-- `TextArea::input`: the text after a key, and whether it was changed. -/
structure Area (K : Type) where
  input : Chars → K → Chars × Bool

/-- What a key does: the loop ends, goes on, or the program panics. -/
inductive Step where
  | stop
  | go (s : Ui)
  | panic
  deriving DecidableEq

/-- `result_count - 1` in search.rs:333: with checks (debug) a panic for 0, without (release) it is 2⁶⁴ - 1. -/
def lastIndex (checked : Bool) (n : Nat) : Option Nat :=
  if n = 0 then (if checked then none else some (2 ^ 64 - 1)) else some (n - 1)

/-- search.rs:330-337 `move_index`. -/
def moveIndex (checked : Bool) (names : List Chars) (s : Ui) (amt : Int) : Step :=
  match s.selected with
  | none => .go { s with selected := some 0 }
  | some v =>
    match lastIndex checked (resultSet names s.text).length with
    | none => .panic
    | some l => .go { s with selected := some (min (max 0 ((v : Int) + amt)).toNat l) }

/-- search.rs:305-327 `process`. -/
def Ui.process {K : Type} (area : Area K) (checked : Bool) (names : List Chars) (s : Ui) : Key K → Step
  | .quit => .stop
  | .up => moveIndex checked names s (-1)
  | .down => moveIndex checked names s 1
  | .other k =>
    let (text, changed) := area.input s.text k
    .go { text := text, selected := if changed then none else s.selected }

/-- search.rs:351-356: the loop, for the keys that are pressed. -/
def Ui.run {K : Type} (area : Area K) (checked : Bool) (names : List Chars) (s : Ui) : List (Key K) → Step
  | [] => .go s
  | k :: ks =>
    match s.process area checked names k with
    | .go s => Ui.run area checked names s ks
    | r => r

/-- search.rs:170-173 `result`: the attribute whose details are shown. -/
def Ui.result (names : List Chars) (s : Ui) : Option Chars := s.selected.bind fun i => (resultSet names s.text)[i]?

/-! ### What is found -/

/-- C236. The results are the names that have the text in them, in the order of the catalog. -/
theorem results_exact (names : List Chars) (text : Chars) :
    (resultSet names text).Sublist names ∧ ∀ n, n ∈ resultSet names text ↔ n ∈ names ∧ ∃ a b, n = a ++ text ++ b := by
  refine ⟨List.filter_sublist, fun n => ?_⟩
  unfold resultSet
  rw [List.mem_filter, occurs_iff]
  constructor
  · rintro ⟨h, a, b, rfl⟩; exact ⟨h, a, b, rfl⟩
  · rintro ⟨h, a, b, rfl⟩; exact ⟨h, a, b, rfl⟩

/-- C236. How often a name is among the results is how often it is in the catalog. -/
theorem results_count (names : List Chars) (text n : Chars) (h : text <:+: n) :
    (resultSet names text).count n = names.count n := by
  unfold resultSet
  exact List.count_filter (occurs_iff.2 h)

/-- C236. On the command line there is a line for each result, if no name has a line break in it; and one empty line if there is
none. -/
theorem output_lines (names : List Chars) (text : Chars) (hn : ∀ n ∈ names, '\n' ∉ n) :
    splitWhen (· = '\n') (cliOutput names text) = (if resultSet names text = [] then [[]] else resultSet names text) ++ [[]] := by
  have hr : ∀ n ∈ resultSet names text, '\n' ∉ n := fun n h => hn n ((List.mem_filter.1 h).1)
  unfold cliOutput
  generalize resultSet names text = l at hr
  have hclean : ∀ n : Chars, '\n' ∉ n → ∀ c ∈ n, decide (c = '\n') = false := by
    intro n h c hc
    simp only [decide_eq_false_iff_not]
    rintro rfl; exact h hc
  have key : ∀ (l : List Chars) (a : Chars), '\n' ∉ a → (∀ n ∈ l, '\n' ∉ n) →
      splitWhen (· = '\n') (List.intercalate ['\n'] (a :: l) ++ ['\n']) = (a :: l) ++ [[]] := by
    intro l
    induction l with
    | nil =>
      intro a ha _
      have he : List.intercalate ['\n'] [a] ++ ['\n'] = a ++ '\n' :: [] := by simp [List.intercalate]
      rw [he, splitWhen_append a [] (by decide), splitWhen_clean (hclean a ha)]
      rfl
    | cons b l ih =>
      intro a ha hl
      have hi := ih b (hl b List.mem_cons_self) (fun n h => hl n (List.mem_cons_of_mem _ h))
      have he : List.intercalate ['\n'] (a :: b :: l) ++ ['\n'] = a ++ '\n' :: (List.intercalate ['\n'] (b :: l) ++ ['\n']) := by
        simp [List.intercalate, List.intersperse]
      rw [he, splitWhen_append _ _ (by decide), hi, splitWhen_clean (hclean a ha)]
      rfl
  cases l with
  | nil => rfl
  | cons a l => rw [if_neg (by simp)]; exact key l a (hr a List.mem_cons_self) (fun n h => hr n (List.mem_cons_of_mem _ h))

example : cliOutput ["a.b".toList, "c".toList, "b".toList] "b".toList = "a.b\nb\n".toList := by decide +kernel

/-! ### The user interface -/

/-- The text area says the truth about whether it changed the text. -/
def Area.Honest {K : Type} (area : Area K) : Prop := ∀ t k, (area.input t k).2 = false → (area.input t k).1 = t

/-- What is selected is a result, if there are results. -/
def Ui.Fits (names : List Chars) (s : Ui) : Prop :=
  ∀ i, s.selected = some i → resultSet names s.text ≠ [] → i < (resultSet names s.text).length

theorem process_fits {K : Type} {area : Area K} (ha : area.Honest) {checked : Bool} {names : List Chars} {s s' : Ui} {k : Key K}
    (hs : s.Fits names) (h : s.process area checked names k = .go s') : s'.Fits names := by
  have hmove : ∀ amt, moveIndex checked names s amt = .go s' → s'.Fits names := by
    intro amt h
    unfold moveIndex at h
    cases hsel : s.selected with
    | none =>
      rw [hsel] at h
      cases h
      intro i hi hne
      cases hi
      exact List.length_pos_iff.2 hne
    | some v =>
      rw [hsel] at h
      dsimp only at h
      cases hl : lastIndex checked (resultSet names s.text).length with
      | none => rw [hl] at h; cases h
      | some l =>
        rw [hl] at h
        cases h
        intro i hi hne
        cases hi
        have hpos := List.length_pos_iff.2 hne
        dsimp only at hpos ⊢
        unfold lastIndex at hl
        rw [if_neg (by omega)] at hl
        cases hl
        omega
  cases k with
  | quit => cases h
  | up => exact hmove _ h
  | down => exact hmove _ h
  | other k =>
    unfold Ui.process at h
    dsimp only at h
    cases h
    intro i hi hne
    dsimp only at hi hne ⊢
    cases hc : (area.input s.text k).2 with
    | true => rw [hc] at hi; cases hi
    | false =>
      rw [hc] at hi
      rw [ha _ _ hc] at hne ⊢
      exact hs i hi hne

/-- C236. Whatever is typed: while there are results, a selection is one of them and its details are shown. -/
theorem selection_fits {K : Type} {area : Area K} (ha : area.Honest) (checked : Bool) (names : List Chars) (keys : List (Key K)) (s s' : Ui)
    (hs : s.Fits names) (h : s.run area checked names keys = .go s') :
    s'.Fits names ∧ (s'.selected ≠ none → resultSet names s'.text ≠ [] → ∃ n, s'.result names = some n ∧ n ∈ names ∧ s'.text <:+: n) := by
  have hfit : s'.Fits names := by
    induction keys generalizing s with
    | nil => cases h; exact hs
    | cons k ks ih =>
      unfold Ui.run at h
      cases hp : s.process area checked names k with
      | stop => rw [hp] at h; cases h
      | panic => rw [hp] at h; cases h
      | go s1 => rw [hp] at h; exact ih s1 (process_fits ha hs hp) h
  refine ⟨hfit, fun hsel hne => ?_⟩
  cases hx : s'.selected with
  | none => exact absurd hx hsel
  | some i =>
    have hi := hfit i hx hne
    refine ⟨(resultSet names s'.text)[i], ?_, ?_⟩
    · unfold Ui.result; rw [hx]; simp [hi]
    · have := ((results_exact names s'.text).2 _).1 (List.getElem_mem hi)
      obtain ⟨h1, a, b, h2⟩ := this
      exact ⟨h1, a, b, h2.symm⟩

/-- C236. The start. -/
theorem start_fits (names : List Chars) : (⟨[], none⟩ : Ui).Fits names := by intro i h; cases h

/-- C236. The full claim: no key makes the program panic. -/
def NoPanic : Prop :=
  ∀ (K : Type) (area : Area K), area.Honest → ∀ (names : List Chars) (keys : List (Key K)),
    (⟨[], none⟩ : Ui).run area true names keys ≠ .panic

/-- It is false: with no results the second arrow key is a panic. -/
theorem no_panic_refuted : ¬NoPanic := by
  intro h
  exact h Unit ⟨fun t _ => (t, false)⟩ (fun _ _ _ => rfl) [] [.down, .down] rfl

/-- Without checks (release) the selection is then beyond the results. -/
example : (⟨[], none⟩ : Ui).run (K := Unit) ⟨fun t _ => (t, false)⟩ false [] [.down, .down, .down] = .go ⟨[], some 2⟩ := by decide +kernel

/-- What holds: a key makes the program panic exactly if it is an arrow, something is selected and there is no result. Missing:
this case. -/
theorem no_panic_partial {K : Type} (area : Area K) (checked : Bool) (names : List Chars) (s : Ui) (k : Key K) :
    s.process area checked names k = .panic ↔
      checked = true ∧ (k = .up ∨ k = .down) ∧ s.selected ≠ none ∧ ∀ n ∈ names, ¬s.text <:+: n := by
  have hno : (∀ n ∈ names, ¬s.text <:+: n) ↔ (resultSet names s.text).length = 0 := by
    rw [List.length_eq_zero_iff]
    unfold resultSet
    rw [List.filter_eq_nil_iff]
    constructor
    · intro h n hn ho; exact h n hn (occurs_iff.1 ho)
    · intro h n hn ho; exact h n hn (occurs_iff.2 ho)
  have hmove : ∀ amt, moveIndex checked names s amt = .panic ↔ checked = true ∧ s.selected ≠ none ∧ ∀ n ∈ names, ¬s.text <:+: n := by
    intro amt
    rw [hno]
    unfold moveIndex lastIndex
    cases s.selected with
    | none => simp
    | some v =>
      dsimp only
      by_cases h0 : (resultSet names s.text).length = 0
      · cases checked <;> simp [h0]
      · simp [h0]
  cases k with
  | quit => simp [Ui.process]
  | up => unfold Ui.process; rw [hmove]; simp
  | down => unfold Ui.process; rw [hmove]; simp
  | other k => simp [Ui.process]

end Verif.Commands
