import Verif.Util.Str
/-
Errors about files that cannot be read: crates/weaver_semconv/src/json_schema.rs and semconv.rs:275-291.

The JSON schema validator, the YAML parser that marks positions and the messages for single violations are parameters. Of the
validator it is trusted that the paths of its errors are JSON pointers.
-/
namespace Verif.SchemaError
open Verif.Util

/-- json_schema.rs:16-20 `PathComponent`. -/
inductive Comp where
  | key (k : Chars)
  | index (i : Nat)
deriving DecidableEq

/-- The value of decimal digits. -/
def digits (s : Chars) : Nat := Nat.ofDigitChars 10 s 0

/-- Without a leading `+`. -/
def stripPlus : Chars → Chars
  | '+' :: ds => ds
  | ds => ds

/-- `str::parse::<usize>` with 64 bits: digits, after at most one `+`. -/
def parseUsize (s : Chars) : Option Nat :=
  let ds := stripPlus s
  if ds = [] ∨ ds.any (fun c => !c.isDigit) = true ∨ 2^64 ≤ digits ds then none else some (digits ds)

/-- json_schema.rs:496-501. -/
def component (s : Chars) : Comp :=
  match parseUsize s with
  | some i => .index i
  | none => .key s

/-- json_schema.rs:484-505 `parse_xpath`. -/
def parseXPath : Chars → Option (List Comp)
  | '/' :: rest => some (((splitWhen (fun c => decide (c = '/')) rest).filter fun s => decide (s ≠ [])).map component)
  | _ => none

/-! ### Positions -/

/-- A key of a YAML mapping: a string, or something else that JSON writes as this string. -/
inductive Key where
  | str (k : Chars)
  | other (k : Chars)
deriving DecidableEq

/-- The key in JSON. -/
def Key.text : Key → Chars
  | .str k => k
  | .other k => k

/-- saphyr's `MarkedYaml`: each node with the positions of its first character and of the one after its last. -/
inductive Node where
  | scalar (first last : Nat)
  | seq (first last : Nat) (l : List Node)
  | map (first last : Nat) (l : List (Key × Node))

def Node.first : Node → Nat
  | .scalar f _ => f
  | .seq f _ _ => f
  | .map f _ _ => f

def Node.last : Node → Nat
  | .scalar _ l => l
  | .seq _ l _ => l
  | .map _ l _ => l

/-- json_schema.rs:417-437: one step; `as_mapping_get` looks for a string and `as_sequence_get` for an element. -/
def Node.step : Node → Comp → Option Node
  | .map _ _ l, .key k => (l.find? fun p => p.1 = Key.str k).map (·.2)
  | .seq _ _ l, .index i => l[i]?
  | _, _ => none

/-- json_schema.rs:411-452 `xpath_to_block_position`, the node. -/
def Node.walk (n : Node) : List Comp → Option Node
  | [] => some n
  | c :: cs => match n.step c with
    | some m => m.walk cs
    | none => none

/-- The bytes of a text. -/
def bytes (s : Chars) : Nat := (s.map Char.utf8Size).sum

/-- json_schema.rs:389-391: the position of each character, and of the end. -/
def offsets (base : Nat) : Chars → List Nat
  | [] => [base]
  | c :: s => base :: offsets (base + c.utf8Size) s

/-- A span, no span, or a panic. -/
inductive Span where
  | found (offset length : Nat)
  | missing
  | panic
deriving DecidableEq

/-- json_schema.rs:456-460: indexing and subtraction. -/
def spanOf (raw : Chars) (n : Node) : Span :=
  match (offsets 0 raw)[n.first]?, (offsets 0 raw)[n.last]? with
  | some a, some b => if b < a then .panic else .found a (b - a)
  | _, _ => .panic

/-- json_schema.rs:454-460 `source_span`, of which an error means that there is no span. -/
def sourceSpan (raw : Chars) (root : Node) (xpath : Chars) : Span :=
  match parseXPath xpath with
  | none => .missing
  | some cs => match root.walk cs with
    | none => .missing
    | some n => spanOf raw n

/-! ### Descriptions -/

/-- The JSON schema. -/
inductive S where
  | str (s : Chars)
  | arr (l : List S)
  | obj (l : List (Chars × S))
  | other

/-- `Value::get` with a text. -/
def S.get (k : Chars) : S → Option S
  | .obj l => (l.find? fun p => p.1 = k).map (·.2)
  | _ => none

/-- `Value::get` with a number. -/
def S.elem (i : Nat) : S → Option S
  | .arr l => l[i]?
  | _ => none

/-- `Value::as_str`. -/
def S.text : S → Option Chars
  | .str s => some s
  | _ => none

/-- json_schema.rs:305-315: the parts of a reference one after another. -/
def S.follow : List Chars → S → Option S
  | [], s => some s
  | k :: ks, s => (s.get k).bind (S.follow ks)

/-- json_schema.rs:294-316 `get_ref_definition`. -/
def refDefinition (root : S) (path : Chars) : Option S :=
  match splitWhen (fun c => decide (c = '/')) path with
  | ['#'] :: k :: ks => root.follow (k :: ks)
  | _ => none

/-- json_schema.rs:258-291: the loop of `build_description_from_xpath`. -/
def describeFrom (root : S) (current : S) (description : Chars) : List Comp → Option Chars
  | [] => some description
  | c :: cs =>
    let description := ((current.get "description".toList).bind S.text).getD description
    match c with
    | .key k => match current.get k with
      | none => none
      | some v =>
        if k = "$ref".toList then
          match refDefinition root (v.text.getD []) with
          | some d => describeFrom root d description cs
          | none => none
        else describeFrom root v description cs
    | .index i => match current.elem i with
      | none => none
      | some v => describeFrom root v description cs

/-- json_schema.rs:252-291 `build_description_from_xpath`. -/
def describe (root : S) (xpath : Chars) : Option Chars :=
  (parseXPath xpath).bind (describeFrom root root "No description available".toList)

/-! ### Messages -/

/-- A violation: with the message for its kind, or one of a group of schemas with what each of them says. `head` is the text
before the variants (json_schema.rs:140-141, 213-217). -/
inductive V where
  | leaf (message : Chars)
  | variants (head : Chars) (context : List (List V))

/-- `usize::to_string`. -/
def number (n : Nat) : Chars := Nat.toDigits 10 n

/-- `join("\n")`. -/
def joinLines : List Chars → Chars
  | [] => []
  | [a] => a
  | a :: b :: l => a ++ '\n' :: joinLines (b :: l)

mutual
/-- json_schema.rs:123-249 `build_error_message`. -/
def message (indent : Chars) : V → Chars
  | .leaf m => m
  | .variants head context => head ++ '\n' :: joinLines (variantMessages indent 0 context)
/-- json_schema.rs:98-120 `build_variant_error_message`. -/
def variantMessages (indent : Chars) (i : Nat) : List (List V) → List Chars
  | [] => []
  | errors :: rest =>
    (indent ++ "(Variant ".toList ++ number (i + 1) ++ "):\n".toList ++ joinLines (errorMessages indent errors)) ::
      variantMessages indent (i + 1) rest
/-- json_schema.rs:111-117. -/
def errorMessages (indent : Chars) : List V → List Chars
  | [] => []
  | e :: es => (indent ++ "- ".toList ++ message (indent ++ "  ".toList) e) :: errorMessages indent es
end

/-! ### Validation -/

/-- An error of the validator. -/
structure Violation where
  instancePath : Chars
  schemaPath : Chars
  what : V

/-- lib.rs:457-473 `InvalidSemConvSpecError`. -/
structure Invalid where
  span : Span
  message : Chars
  advice : Option Chars

/-- lib.rs: the errors that occur here. -/
inductive Error where
  | deserialization (message : Chars)
  | invalid (e : Invalid)
  | compound (l : List Error)

/-- json_schema.rs:69-83: one violation. -/
def report (schema : S) (raw : Chars) (root : Node) (v : Violation) : Error :=
  .invalid { span := sourceSpan raw root v.instancePath, message := message [] v.what, advice := describe schema v.schemaPath }

/-- json_schema.rs:51-96 `validate_yaml`: `violations` are those of the value, if it can be written as JSON, and `doc` is the file
read once more, with its positions. `none` is `Ok(())`. -/
def validateYaml (schema : S) (doc : Except Chars (Chars × Node)) (serdeError : Chars) (violations : Option (List Violation)) :
    Option Error :=
  match violations with
  | none => some (.deserialization serdeError)
  | some vs => match doc with
    | .error e => some (.deserialization e)
    | .ok (raw, root) => match vs.map (report schema raw root) with
      | [] => none
      | [e] => some e
      | es => some (.compound es)

/-- semconv.rs:278-291 `better_error`. -/
def betterError (schema : S) (doc : Except Chars (Chars × Node)) (serdeError : Chars) (violations : Option (List Violation)) : Error :=
  match validateYaml schema doc serdeError violations with
  | none => .deserialization serdeError
  | some e => e

mutual
/-- lib.rs:489-502 `From<Error> for DiagnosticMessages`. -/
def messages : Error → List Error
  | .compound l => messagesAll l
  | .deserialization m => [.deserialization m]
  | .invalid e => [.invalid e]
def messagesAll : List Error → List Error
  | [] => []
  | e :: l => messages e ++ messagesAll l
end

end Verif.SchemaError
