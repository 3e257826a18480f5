import Verif.Forge.Val
import Verif.Util.Sort
import Verif.Util.Map
import Verif.Markdown.Model
/-
Text and list filters of templates: crates/weaver_forge/src/extensions/util.rs and code.rs.
-/
namespace Verif.Forge
open Verif.Util
open Verif.Markdown (isWhite trim lines)

/-! ### util.rs -/

/-- util.rs:33-42 `concat_if`, on arguments that are undefined (`none`) or a text. -/
def concatIf : List (Option Chars) → Option Chars
  | [] => some []
  | a :: l => match a, concatIf l with
    | some s, some r => some (s ++ r)
    | _, _ => none

/-- util.rs:46-54 `flatten`. -/
def flattenVal (v : Val) : Option (List Val) :=
  match v.iter with
  | Option.none => Option.none
  | some ls => (ls.mapM Val.iter).map List.flatten

/-- The value of a decimal digit. -/
def digit (c : Char) : Option Nat := if c.isDigit then some (c.toNat - 48) else none

/-- A sequence of digits after a number that has been read. -/
def digitsFrom : Nat → Chars → Option Nat
  | n, [] => some n
  | n, c :: s => match digit c with
    | some d => digitsFrom (10 * n + d) s
    | none => none

/-- One digit or more. -/
def digits : Chars → Option Nat
  | [] => none
  | s => digitsFrom 0 s

/-- `str::parse::<i64>`: an optional sign, and a number in range. -/
def parseI64 (s : Chars) : Option Int :=
  let r : Option Int := match s with
    | '-' :: t => (digits t).map fun n : Nat => -(n : Int)
    | '+' :: t => (digits t).map fun n : Nat => (n : Int)
    | t => (digits t).map fun n : Nat => (n : Int)
  r.filter fun i => decide (-9223372036854775808 ≤ i ∧ i ≤ 9223372036854775807)

/-- util.rs:69-78: the order of two keys, as "not greater". -/
def keyLe (a b : String) : Bool :=
  match parseI64 a.toList, parseI64 b.toList with
  | some x, some y => decide (x ≤ y)
  | some _, none => true
  | none, some _ => false
  | none, none => decide (a ≤ b)

/-- util.rs:58-85 `numsort`, on maps with text keys. -/
def numsort (m : List (String × Val)) : List (String × Val) := sortBy (fun a b => keyLe a.1 b.1) m

/-- util.rs:88-102 `split_id`. -/
def splitId (s : Chars) : List Chars := splitWhen (· == '.') s

/-- The class of a character for the expression of util.rs:157: white space, word character, other. -/
def charClass (word : Char → Bool) (c : Char) : Nat := if isWhite c then 0 else if word c then 1 else 2

/-- `find_iter` of util.rs:157-158: the runs of characters of one class. `word` is `\w`, `\s` is white space. -/
def tokens (word : Char → Bool) : Chars → List Chars
  | [] => []
  | c :: s => match tokens word s with
    | (d :: t) :: ts => if charClass word c = charClass word d then (c :: d :: t) :: ts else [c] :: (d :: t) :: ts
    | ts => [c] :: ts

/-- util.rs:147-165 `acronym`. `lower` is `to_lowercase`. Of acronyms with the same lower case the last one is used. -/
def acronym (word : Char → Bool) (lower : Chars → Chars) (acronyms : List Chars) (input : Chars) : Chars :=
  (tokens word input).flatMap fun t => ((acronyms.reverse.find? fun a => lower a = lower t)).getD t

/-- util.rs:172-184 in `to_yaml`: what happens to the YAML text. -/
def escapeYaml (s : Chars) : Chars := s.flatMap fun c =>
  if c = '<' then "\\u003c".toList else if c = '>' then "\\u003e".toList else if c = '&' then "\\u0026".toList
  else if c = '\'' then "\\u0027".toList else [c]

/-! ### code.rs -/

/-- `str::trim_end`. -/
def trimEnd (s : Chars) : Chars := (s.reverse.dropWhile isWhite).reverse

/-- The loop of code.rs:186-203 and of code.rs:47-52: `f0` prepares a line while nothing has been written, `f` prepares
the others. -/
def writeLines (f0 f : Chars → Chars) : Chars → List Chars → Chars
  | acc, [] => acc
  | acc, l :: ls => writeLines f0 f (if acc = [] then f0 l else acc ++ '\n' :: f l) ls

/-- code.rs:44-54 `comment_with_prefix`. -/
def commentWithPrefix (text pre : Chars) : Chars := writeLines (fun l => pre ++ l) (fun l => pre ++ l) [] (lines text)

/-- config.rs:343-371 `CommentFormat`. -/
structure Format where
  header : Option Chars
  pre : Option Chars
  footer : Option Chars
  tab : Bool
  trim : Bool
  removeDots : Bool
  enforceDots : Bool
  lineLength : Option Nat

/-- The arguments of the filter; an argument of the wrong type counts as missing. -/
structure CommentArgs where
  format : Option String := none
  lineLength : Option Nat := none
  indent : Option Nat := none
  indentType : Option String := none
  header : Option Chars := none
  pre : Option Chars := none
  footer : Option Chars := none

/-- The input of the filter, with the texts of its values. -/
inductive CommentInput where
  | undefined
  | text (s : Chars)
  | seq (l : List Chars)

/-- How the filter fails. `underflow` is the subtraction of code.rs:160 below zero: a panic if overflow checks are on, and
a very large limit otherwise. -/
inductive CommentErr where
  | bothDots
  | indentType
  | underflow
  | render
  deriving DecidableEq

/-- code.rs:96-107. -/
def inputText : CommentInput → Chars
  | .undefined => []
  | .text s => s
  | .seq l => ['\n'].intercalate l

/-- code.rs:121-129: the dots at the end. -/
def endDots (fmt : Format) (s : Chars) : Chars :=
  let s := if fmt.removeDots then (s.reverse.dropWhile fun c => decide (c = '.')).reverse else s
  if fmt.enforceDots ∧ s ≠ [] ∧ s.getLast? ≠ some '.' then s ++ ['.'] else s

/-- code.rs:130-144: the indentation. -/
def indentation (fmt : Format) (args : CommentArgs) : Except CommentErr Chars :=
  let n := args.indent.getD 0
  let kind := args.indentType.getD (if fmt.tab then "tab" else "space")
  if kind = "space" then .ok (List.replicate n ' ')
  else if kind = "tab" then .ok (List.replicate n '\t')
  else .error .indentType

/-- `str::len`. -/
def bytes (s : Chars) : Nat := (String.ofList s).utf8ByteSize

/-- code.rs:159-160. -/
def lengthLimit (limit : Option Nat) (used : Nat) : Except CommentErr (Option Nat) :=
  match limit with
  | none => .ok none
  | some n => if n < used then .error .underflow else .ok (some (n - used))

/-- code.rs:184-215: from the rendered text to the comment. -/
def layout (trimLines : Bool) (indent header pre footer rendered : Chars) : Chars :=
  let t := fun l => if trimLines then trimEnd l else l
  let f := fun l => t (indent ++ pre ++ l)
  let f0 := fun l => if header = [] then t (pre ++ l) else f l
  let body := writeLines f0 f [] (lines rendered)
  let c := if header = [] then body else header ++ '\n' :: body
  let c := if footer = [] then c else trimEnd c ++ '\n' :: (indent ++ footer)
  trimEnd c

/-- code.rs:58-220 `comment`. `render` renders Markdown or HTML (not modelled); `dflt` is the default format. -/
def comment (formats : List (String × Format)) (dflt : Format) (defaultName : Option String)
    (render : String → Chars → Option Nat → Option Chars) (input : CommentInput) (args : CommentArgs) :
    Except CommentErr Chars :=
  match input with
  | .undefined => .ok []
  | input =>
    let name := args.format.getD (defaultName.getD "default")
    let fmt := (aget name formats).getD dflt
    let limit := args.lineLength.or fmt.lineLength
    let text := if fmt.trim then trim (inputText input) else inputText input
    if fmt.removeDots ∧ fmt.enforceDots then .error .bothDots
    else
      let text := endDots fmt text
      match indentation fmt args with
      | .error e => .error e
      | .ok indent =>
        let header := args.header.getD (fmt.header.getD [])
        let pre := args.pre.getD (fmt.pre.getD [])
        let footer := args.footer.getD (fmt.footer.getD [])
        match lengthLimit limit (bytes indent + bytes pre) with
        | .error e => .error e
        | .ok actual => match render name text actual with
          | none => .error .render
          | some rendered => .ok (layout fmt.trim indent header pre footer rendered)

/-- code.rs:230-242 `type_mapping`. -/
def typeMapping (m : List (String × String)) (v : Val) : Val :=
  match v.asStr with
  | some s => match aget s m with
    | some t => .str t
    | none => v
  | Option.none => v

/-- code.rs:252-271 `map_text`. -/
def mapText (maps : List (String × List (String × String))) (v : Val) (name : String) (dflt : Option String) : Val :=
  match v.asStr.bind fun s => (aget name maps).bind (aget s) with
  | some t => .str t
  | Option.none => match dflt with
    | some d => .str d
    | none => v

end Verif.Forge
