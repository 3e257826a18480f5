import Verif.Util.Map
/-
Model of crates/weaver_semconv/src/deprecated.rs.
-/
namespace Verif.Semconv
open Verif.Util

/-- deprecated.rs:24-58 `Deprecated`. -/
inductive Deprecated where
  | renamed (to : String) (note : Option String)
  | obsoleted (note : String)
  | uncategorized (note : String)
  | unspecified (note : String)
deriving DecidableEq, Repr

/-- deprecated.rs:186-199 `note`. -/
def Deprecated.note : Deprecated → String
  | .renamed to none => "Replaced by `" ++ to ++ "`."
  | .renamed _ (some n) => n
  | .obsoleted n => n
  | .uncategorized n => n
  | .unspecified n => n

/-- deprecated.rs:203-210 `reason`. -/
def Deprecated.reason : Deprecated → String
  | .renamed _ _ => "renamed"
  | .obsoleted _ => "obsoleted"
  | .uncategorized _ => "uncategorized"
  | .unspecified _ => "unspecified"

/-- What a field of a document holds: a text or something else (number, list, null, ...). -/
inductive DVal where
  | text (s : String)
  | other
deriving DecidableEq

/-- A document in the place of a deprecation: a text, a map, or something else. -/
inductive DDoc where
  | text (s : String)
  | map (fields : List (String × DVal))
  | other

/-- deprecated.rs:216-230 `Serialize for Deprecated`. -/
def Deprecated.write (d : Deprecated) : DDoc :=
  .map ([("reason", DVal.text d.reason)]
    ++ (match d with | .renamed to _ => [("renamed_to", DVal.text to)] | _ => [])
    ++ [("note", DVal.text d.note)])

/-- deprecated.rs:97-113: the fields read so far, `(reason, renamed_to, note)`; `none` is an error. -/
def readFields : List (String × DVal) → Option String × Option String × Option String →
    Option (Option String × Option String × Option String)
  | [], acc => some acc
  | (k, v) :: l, acc =>
    if k = "reason" then match v with
      | .text s => readFields l (some s, acc.2.1, acc.2.2)
      | .other => none
    else if k = "renamed_to" then match v with
      | .text s => readFields l (acc.1, some s, acc.2.2)
      | .other => none
    else if k = "note" then match v with
      | .text s => readFields l (acc.1, acc.2.1, some s)
      | .other => none
    else none

/-- deprecated.rs:64-133 `deserialize_deprecated`: how definitions in semantic convention files and enum members, also
those of published schemas, are read. -/
def readSource : DDoc → Option Deprecated
  | .text s => some (.unspecified s)
  | .other => none
  | .map fields => match readFields fields (none, none, none) with
    | none => none
    | some f =>
      if f.1 = some "renamed" then f.2.1.map fun to => .renamed to f.2.2
      else if f.1 = some "obsoleted" then some (.obsoleted (f.2.2.getD "Obsoleted."))
      else if f.1 = some "uncategorized" then some (.uncategorized (f.2.2.getD "Uncategorized."))
      else none

/-- A text field of a map. -/
def textField (fields : List (String × DVal)) (k : String) : Option String :=
  match aget k fields with
  | some (.text s) => some s
  | _ => none

/-- deprecated.rs:20-23 the derived `Deserialize`: a map tagged by `reason` (serde internally tagged enum, names in snake
case; other fields are ignored). It reads v2 definitions and resolved schemas. -/
def readResolved : DDoc → Option Deprecated
  | .text _ => none
  | .other => none
  | .map fields => match textField fields "reason" with
    | none => none
    | some r =>
      if r = "renamed" then
        match textField fields "renamed_to" with
        | none => none
        | some to => match aget "note" fields with
          | none => some (.renamed to none)
          | some (.text n) => some (.renamed to (some n))
          | some .other => none
      else if r = "obsoleted" then (textField fields "note").map .obsoleted
      else if r = "uncategorized" then (textField fields "note").map .uncategorized
      else if r = "unspecified" then (textField fields "note").map .unspecified
      else none

end Verif.Semconv
