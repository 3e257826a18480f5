import Verif.Markdown.Grammar
import Verif.Values.Model
import Verif.LiveCheck.RunProps
import Verif.LiveCheck.AdviceProps
/-
Text as input of the live check: crates/weaver_live_check/src/{text_file_ingester,text_stdin_ingester}.rs and
sample_attribute.rs:63-93.
-/
namespace Verif.Samples
open Verif.Util
open Verif.Markdown (trim lines linesFrom stripCR isWhite Trimmed Blank trimmed_iff trim_eq_nil trim_trimmed trimmed_unique)
open Verif.LiveCheck
open Verif.Values (inferType)

/-! ### Model -/

/-- sample_attribute.rs:75: the JSON of a text, or the text. -/
def textValue (parse : Chars → Option Value) (v : Chars) : Value := (parse (trim v)).getD (.elem (.str (String.ofList (trim v))))

/-- sample_attribute.rs:66-92 `try_from`, where `parse` is `serde_json::from_str`. `none` is the error for an empty line. -/
def textSample (parse : Chars → Option Value) (line : Chars) : Option SAttr :=
  let trimmed := trim line
  if trimmed = [] then none
  else match splitFirst ['='] trimmed with
    | some (n, v) =>
      let value := textValue parse v
      some { name := String.ofList (trim n), value := some value, typ := inferType value }
    | none => some { name := String.ofList trimmed }

/-- text_file_ingester.rs:28-44 `ingest`, for the content of a file. -/
def textFile (parse : Chars → Option Value) (content : Chars) : List Sample :=
  (lines content).filterMap fun l => (textSample parse l).map .attribute

/-- text_stdin_ingester.rs:52-66 `next`; lines that cannot be read are `none`. -/
def nextLine (parse : Chars → Option Value) : List (Option Chars) → Option Sample × List (Option Chars)
  | [] => (none, [])
  | none :: ls => nextLine parse ls
  | some l :: ls => ((textSample parse l).map .attribute, ls)

theorem nextLine_length {parse : Chars → Option Value} {ls ls' : List (Option Chars)} {s : Sample}
    (h : nextLine parse ls = (some s, ls')) : ls'.length < ls.length := by
  induction ls with
  | nil => simp [nextLine] at h
  | cons l ls ih =>
    cases l with
    | none => exact Nat.lt_succ_of_lt (ih h)
    | some l => simp only [nextLine, Prod.mk.injEq] at h; rw [← h.2]; simp

/-- src/registry/live_check.rs:392: the loop over the iterator of text_stdin_ingester.rs ends with the first `None`. -/
def textStdin (parse : Chars → Option Value) (ls : List (Option Chars)) : List Sample :=
  match h : nextLine parse ls with
  | (none, _) => []
  | (some s, ls') => s :: textStdin parse ls'
termination_by ls.length
decreasing_by exact nextLine_length h

/-! ### Specification -/

/-- What a line says: a name, or a name and a value. White space around the line, the name and the value does not count; the
value is what is written there as JSON, and a text if that is no JSON. -/
inductive Reads (parse : Chars → Option Value) (line : Chars) : SAttr → Prop where
  | name {q : Chars} : Trimmed q line → q ≠ [] → '=' ∉ q → Reads parse line { name := String.ofList q }
  | json {n n' v v' : Chars} {x : Value} : Trimmed (n ++ '=' :: v) line → '=' ∉ n → Trimmed n' n → Trimmed v' v → parse v' = some x →
    Reads parse line { name := String.ofList n', value := some x, typ := inferType x }
  | text {n n' v v' : Chars} : Trimmed (n ++ '=' :: v) line → '=' ∉ n → Trimmed n' n → Trimmed v' v → parse v' = none →
    Reads parse line { name := String.ofList n', value := some (.elem (.str (String.ofList v'))), typ := some .string }

/-- The line says something. -/
def Says (line : Chars) : Prop := ¬ Blank line

instance (line : Chars) : Decidable (Says line) := inferInstanceAs (Decidable (¬ ∀ c ∈ line, isWhite c = true))

/-- The lines of a text. -/
def pieces (content : Chars) : List Chars := splitWhen (fun c => decide (c = '\n')) content

/-! ### Proofs -/

theorem split_eq_some {n v : Chars} (hn : '=' ∉ n) : splitFirst ['='] (n ++ '=' :: v) = some (n, v) := by
  induction n with
  | nil => simp [splitFirst, dropPrefix?]
  | cons c n ih =>
    simp only [List.mem_cons, not_or] at hn
    simp only [List.cons_append, splitFirst, dropPrefix?, hn.1, if_false, ih hn.2, Option.map_some]

theorem split_first {s n v : Chars} (h : splitFirst ['='] s = some (n, v)) : s = n ++ '=' :: v ∧ '=' ∉ n := by
  induction s generalizing n with
  | nil => simp [splitFirst] at h
  | cons c t ih =>
    by_cases hc : '=' = c
    · subst hc
      simp only [splitFirst, dropPrefix?, if_true, Option.some.injEq, Prod.mk.injEq] at h
      rw [← h.1, ← h.2]; simp
    · simp only [splitFirst, dropPrefix?, hc, if_false, Option.map_eq_some_iff, Prod.mk.injEq] at h
      obtain ⟨⟨x, y⟩, hxy, rfl, rfl⟩ := h
      obtain ⟨h1, h2⟩ := ih hxy
      exact ⟨by rw [h1]; rfl, by simp [hc, h2]⟩

theorem split_eq_none {s : Chars} (h : '=' ∉ s) : splitFirst ['='] s = none := by
  cases hs : splitFirst ['='] s with
  | none => rfl
  | some p => rw [(split_first (v := p.2) (n := p.1) hs).1] at h; simp at h

/-- C220. A line is read as what it says. -/
theorem reads_iff (parse : Chars → Option Value) (line : Chars) (a : SAttr) :
    textSample parse line = some a ↔ Reads parse line a := by
  constructor
  · intro h
    unfold textSample at h
    dsimp only at h
    split at h
    · exact nomatch h
    · rename_i hne
      split at h
      · rename_i n v hs
        obtain ⟨h1, h2⟩ := split_first hs
        have ht : Trimmed (n ++ '=' :: v) line := trimmed_iff.2 h1
        simp only [Option.some.injEq] at h
        subst h
        unfold textValue
        cases hp : parse (trim v) with
        | none => exact .text ht h2 (trim_trimmed n) (trim_trimmed v) hp
        | some x => exact .json ht h2 (trim_trimmed n) (trim_trimmed v) hp
      · rename_i hs
        simp only [Option.some.injEq] at h
        subst h
        refine .name (trim_trimmed line) hne fun hm => ?_
        obtain ⟨x, y, hxy⟩ := List.append_of_mem hm
        have := splitFirst_none.1 hs
        exact this ⟨x, y, by rw [hxy]; simp⟩
  · intro h
    cases h with
    | name ht hne hn =>
      unfold textSample
      rw [trimmed_iff.1 ht, if_neg hne]
      dsimp only
      rw [split_eq_none hn]
    | json ht hn h1 h2 hp =>
      unfold textSample
      rw [trimmed_iff.1 ht, if_neg (by simp)]
      dsimp only
      rw [split_eq_some hn]
      dsimp only
      rw [trimmed_iff.1 h1, textValue, trimmed_iff.1 h2, hp]
      rfl
    | text ht hn h1 h2 hp =>
      unfold textSample
      rw [trimmed_iff.1 ht, if_neg (by simp)]
      dsimp only
      rw [split_eq_some hn]
      dsimp only
      rw [trimmed_iff.1 h1, textValue, trimmed_iff.1 h2, hp]
      rfl

theorem sample_none {parse : Chars → Option Value} {line : Chars} : textSample parse line = none ↔ ¬ Says line := by
  unfold Says
  rw [Classical.not_not, ← trim_eq_nil]
  unfold textSample
  dsimp only
  by_cases h : trim line = []
  · simp [h]
  · rw [if_neg h]
    cases splitFirst ['='] (trim line) <;> simp [h]

/-- White space at the end of a line does not count. -/
theorem trim_cr (l : Chars) : trim (l ++ ['\r']) = trim l := by
  obtain ⟨a, b, he, ha, hb, h1, h2⟩ := trim_trimmed l
  refine trimmed_iff.1 ⟨a, b ++ ['\r'], ?_, ha, ?_, h1, h2⟩
  · simp only [← List.append_assoc, ← he]
  · intro c hc
    rcases List.mem_append.1 hc with hc | hc
    · exact hb c hc
    · rw [List.mem_singleton.1 hc]; decide

theorem trim_stripCR (l : Chars) : trim (stripCR l) = trim l := by
  unfold stripCR
  cases h : dropSuffix? ['\r'] l with
  | none => rfl
  | some r => rw [dropSuffix?_iff.1 h, Option.getD_some, trim_cr]

theorem sample_trim {parse : Chars → Option Value} {l l' : Chars} (h : trim l = trim l') : textSample parse l = textSample parse l' := by
  unfold textSample
  rw [h]

theorem linesFrom_samples (parse : Chars → Option Value) (l : List Chars) :
    (linesFrom l).filterMap (textSample parse) = l.filterMap (textSample parse) := by
  induction l with
  | nil => rfl
  | cons w l ih =>
    cases l with
    | nil =>
      unfold linesFrom
      split
      · rename_i h; subst h; rfl
      · rfl
    | cons v l =>
      rw [linesFrom, List.filterMap_cons, List.filterMap_cons, ih, sample_trim (trim_stripCR w)]

theorem forall2_says (parse : Chars → Option Value) (l : List Chars) :
    Forall2 (Reads parse) (l.filter fun x => Says x) (l.filterMap (textSample parse)) := by
  induction l with
  | nil => exact .nil
  | cons x l ih =>
    rw [List.filter_cons, List.filterMap_cons]
    cases h : textSample parse x with
    | none => rw [if_neg (by simpa using sample_none.1 h)]; exact ih
    | some a =>
      rw [if_pos (by
        have : ¬ ¬ Says x := fun hn => by rw [sample_none.2 hn] at h; exact nomatch h
        simpa using Decidable.not_not.1 this)]
      exact .cons ((reads_iff _ _ _).1 h) ih

/-- C220. A file is read as one attribute for each line that is not blank, in order. -/
theorem text_file (parse : Chars → Option Value) (content : Chars) :
    ∃ l, textFile parse content = l.map .attribute ∧ Forall2 (Reads parse) ((pieces content).filter fun x => Says x) l := by
  refine ⟨(pieces content).filterMap (textSample parse), ?_, forall2_says _ _⟩
  unfold textFile lines
  rw [← List.map_filterMap, linesFrom_samples]
  rfl

theorem stdin_eq (parse : Chars → Option Value) (ls : List (Option Chars)) :
    textStdin parse ls = (((ls.filterMap id).takeWhile fun x => Says x).filterMap (textSample parse)).map .attribute := by
  induction ls with
  | nil => rw [textStdin]; rfl
  | cons l ls ih =>
    cases l with
    | none =>
      rw [List.filterMap_cons, id, ← ih, textStdin, textStdin]
      rfl
    | some l =>
      rw [List.filterMap_cons, id, textStdin]
      simp only [nextLine]
      rw [List.takeWhile_cons]
      cases h : textSample parse l with
      | none =>
        rw [if_neg (by simpa using sample_none.1 h)]
        rfl
      | some a =>
        rw [if_pos (by
          have : ¬ ¬ Says l := fun hn => by rw [sample_none.2 hn] at h; exact nomatch h
          simpa using Decidable.not_not.1 this)]
        rw [List.filterMap_cons, h, List.map_cons, ← ih]
        rfl

/-- C220. From standard input, the lines before the first blank one are read; what is not UTF-8 is skipped. -/
theorem text_stdin (parse : Chars → Option Value) (ls : List (Option Chars)) :
    ∃ l, textStdin parse ls = l.map .attribute ∧
      Forall2 (Reads parse) ((ls.filterMap id).takeWhile fun x => Says x) l := by
  refine ⟨_, stdin_eq _ _, ?_⟩
  have := forall2_says parse ((ls.filterMap id).takeWhile fun x => Says x)
  rwa [List.filter_eq_self.2 (fun x hx => List.all_eq_true.1 List.all_takeWhile x hx)] at this

theorem takeWhile_all {α : Type} {p : α → Bool} {l : List α} (h : ∀ x ∈ l, p x = true) : l.takeWhile p = l := by
  induction l with
  | nil => rfl
  | cons x l ih => rw [List.takeWhile_cons, if_pos (h x (by simp)), ih fun y hy => h y (by simp [hy])]

/-- C220. Standard input is read like a file up to the first blank line. -/
theorem text_agree (parse : Chars → Option Value) (content : Chars) :
    textStdin parse ((lines content).map some) <+: textFile parse content ∧
    ((∀ l ∈ lines content, Says l) → textStdin parse ((lines content).map some) = textFile parse content) := by
  have hid : ((lines content).map some).filterMap id = lines content := by
    rw [List.filterMap_map]; exact List.filterMap_some
  rw [stdin_eq, hid]
  unfold textFile
  rw [← List.map_filterMap]
  constructor
  · obtain ⟨t, ht⟩ := List.takeWhile_prefix (l := lines content) (fun x => decide (Says x))
    refine ⟨(t.filterMap (textSample parse)).map .attribute, ?_⟩
    rw [← List.map_append, ← List.filterMap_append, ht]
  · intro h
    rw [show (lines content).takeWhile (fun x => decide (Says x)) = lines content from takeWhile_all fun x hx => by simpa using h x hx]

theorem attach_attributes (r : Option Resource) (l : List SAttr) : attachAll r (l.map .attribute) = l.map .attribute := by
  induction l with
  | nil => rfl
  | cons a l ih => rw [List.map_cons, attachAll]; simp [attach, nextResource, ih]

/-- C220. The report about a file has one entry for each line that is not blank, in order: that of the attribute the line names,
with its value. -/
theorem text_report {env : Env} {noStats : Bool} {parse : Chars → Option Value} {content : Chars} {st : St}
    (h : liveCheck env noStats (textFile parse content) = .ok st) :
    Forall2 (fun line e => ∃ a, e.ref = .attribute a ∧ Reads parse line a) ((pieces content).filter fun x => Says x) st.entries := by
  obtain ⟨l, hl, hr⟩ := text_file parse content
  have hrep := run_report h
  rw [hl, attach_attributes] at hrep
  clear h hl
  revert hrep
  generalize st.entries = es
  generalize ((pieces content).filter fun x => Says x) = ls at hr
  induction hr generalizing es with
  | nil => intro h; cases h; exact .nil
  | cons h _ ih =>
    intro hrep
    rw [List.map_cons, List.flatMap_cons] at hrep
    cases hrep with
    | cons h1 h2 => exact .cons ⟨_, h1.2.1, h⟩ (ih _ h2)

/-- Digits as JSON, and nothing else. -/
def digits (v : Chars) : Option Value := if v = "42".toList then some (.elem (.int 42)) else none

example : textFile digits " a.b = 42\r\n\n c=x=y \n\td\n".toList =
    [.attribute { name := "a.b", value := some (.elem (.int 42)), typ := some .int },
     .attribute { name := "c", value := some (.elem (.str "x=y")), typ := some .string }, .attribute { name := "d" }] ∧
    textStdin digits [some "a.b = 42".toList, none, some "c".toList, some " ".toList, some "d".toList] =
    [.attribute { name := "a.b", value := some (.elem (.int 42)), typ := some .int }, .attribute { name := "c" }] := by
  constructor
  · decide +kernel
  · rw [stdin_eq]; decide +kernel

example : ∃ st, liveCheck (plainEnv (.v1 []) none) false (textFile digits "a\n\nb=42".toList) = .ok st := ⟨_, rfl⟩

end Verif.Samples
