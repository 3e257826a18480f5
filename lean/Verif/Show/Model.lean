import Verif.Util.Str
import Verif.Util.Map
/-
What is shown of values and errors: `print_member_value` (crates/weaver_forge/src/extensions/otel.rs:453-474) and the
errors of templates (crates/weaver_forge/src/debug.rs:48-104, crates/weaver_forge/src/error.rs:326-342, 363-376).
-/
namespace Verif.Show
open Verif.Util

/-! ### Literals -/

/-- A digit of a hexadecimal number, as serde_json writes it. -/
def hexDigit (n : Nat) : Char := if n < 10 then Char.ofNat (48 + n) else Char.ofNat (87 + n)

/-- A character in a string as serde_json writes it: quotes, backslashes and control characters are escaped. -/
def esc (c : Char) : Chars :=
  if c = '"' then ['\\', '"']
  else if c = '\\' then ['\\', '\\']
  else if c.toNat = 8 then ['\\', 'b']
  else if c.toNat = 12 then ['\\', 'f']
  else if c.toNat = 10 then ['\\', 'n']
  else if c.toNat = 13 then ['\\', 'r']
  else if c.toNat = 9 then ['\\', 't']
  else if c.toNat < 32 then ['\\', 'u', '0', '0', hexDigit (c.toNat / 16), hexDigit (c.toNat % 16)]
  else [c]

/-- `serde_json::to_string` of a string. -/
def quote (s : Chars) : Chars := '"' :: s.flatMap esc ++ ['"']

/-- A value of minijinja: `num` and `bool` with what `to_string` gives. -/
inductive Value where
  | str (s : Chars)
  | num (shown : Chars)
  | bool (b : Bool)
  | none
  | seq (vs : List Value)
  | map (kvs : List (Chars × Value))

/-- otel.rs:453-474 `print_member_value`. -/
def printMember : Value → Chars
  | .str s => quote s
  | .num n => n
  | .bool b => if b then "true".toList else "false".toList
  | _ => []

/-! ### Errors -/

/-- error.rs:66-322 `Error`, as far as the code looks into it. -/
inductive Err where
  | template (path id text : String)
  | other (msg : String)
  | compound (errs : List Err)

/-- error.rs:363-376 `compound_error`. -/
def compoundError (errs : List Err) : Err :=
  .compound (errs.flatMap fun | .compound es => es | e => [e])

/-- error.rs:330-342 `From<Error> for DiagnosticMessages`: the errors the messages are made of. -/
def messages : Err → List Err
  | .compound es => es.attach.flatMap fun ⟨e, _⟩ => messages e
  | e => [e]

/-- debug.rs:59-66: an entry of the map of the errors seen so far (an IndexMap: in the order of insertion). -/
structure Dedup where
  error : String
  occurrences : Nat
deriving DecidableEq, Repr

/-- debug.rs:61-67: `entry(key).and_modify(…).or_insert(…)`. -/
def bump (key error : String) : List (String × Dedup) → List (String × Dedup)
  | [] => [(key, { error, occurrences := 1 })]
  | (k, d) :: m => if k = key then (k, { d with occurrences := d.occurrences + 1 }) :: m else (k, d) :: bump key error m

/-- debug.rs:57-81: key and text of an error in a compound error; `disp` is `to_string`. -/
def entry (disp : Err → String) : Err → String × String
  | .template _ id text => (id, text)
  | e => (disp e, disp e)

/-- debug.rs:54-91. -/
def dedup (disp : Err → String) : Err → List (String × Dedup)
  | .compound errs => errs.foldl (fun m e => bump (entry disp e).1 (entry disp e).2 m) []
  | e => bump (disp e) (disp e) []

/-- debug.rs:93-101: what is printed for an entry. -/
def Dedup.print (d : Dedup) : String :=
  match d.occurrences with
  | 1 => d.error
  | 2 => d.error ++ "\n\nFound 1 similar error"
  | n => d.error ++ "\n\nFound " ++ toString (n - 1) ++ " similar errors"

/-- debug.rs:48-104 `print_dedup_errors`: the messages that are logged. -/
def printDedup (disp : Err → String) (e : Err) : List String := (dedup disp e).map fun x => x.2.print

end Verif.Show
