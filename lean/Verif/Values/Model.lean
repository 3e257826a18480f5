import Verif.LiveCheck.Model
/-
Attribute values, their types and their examples: crates/weaver_semconv/src/attribute.rs:476-727,
crates/weaver_live_check/src/sample_attribute.rs:97-148 and crates/weaver_emit/src/attributes.rs:35-197.

Doubles are given by an identifier: equal identifiers stand for equal `OrderedF64`s (see Verif.Common for its equality).
-/
namespace Verif.Values
open Verif.LiveCheck (Elem Value PType AType)

/-- attribute.rs:482-492 `ValueSpec`. -/
inductive ValueSpec where
  | int (n : Int)
  | double (f : Nat)
  | string (s : String)
  | bool (b : Bool)
deriving DecidableEq, Repr

/-- attribute.rs:546-578 `Examples`. -/
inductive Examples where
  | bool (b : Bool)
  | int (n : Int)
  | double (f : Nat)
  | string (s : String)
  | any (v : ValueSpec)
  | ints (l : List Int)
  | doubles (l : List Nat)
  | bools (l : List Bool)
  | strings (l : List String)
  | anys (l : List ValueSpec)
  | listOfInts (l : List (List Int))
  | listOfDoubles (l : List (List Nat))
  | listOfBools (l : List (List Bool))
  | listOfStrings (l : List (List String))
deriving DecidableEq, Repr

/-! ### Reading examples -/

/-- A YAML value; `nested` scalars stand for mappings. -/
inductive Yaml where
  | scalar (e : Elem)
  | list (l : List Yaml)

variable (toF : Int → Nat)

/-- `i64::deserialize`. Integers beyond `u64` and below `i64` are left out. -/
def asInt : Yaml → Option Int
  | .scalar (.int n) => if n ≤ 9223372036854775807 then some n else none
  | _ => none

/-- `f64::deserialize`: also takes integers, which `toF` converts. -/
def asDouble : Yaml → Option Nat
  | .scalar (.int n) => some (toF n)
  | .scalar (.dbl f) => some f
  | _ => none

/-- `bool::deserialize`. -/
def asBool : Yaml → Option Bool
  | .scalar (.bool b) => some b
  | _ => none

/-- `String::deserialize`. -/
def asString : Yaml → Option String
  | .scalar (.str s) => some s
  | _ => none

/-- The untagged `ValueSpec` (attribute.rs:476-492): int, double, string, bool, in this order. -/
def asSpec (y : Yaml) : Option ValueSpec :=
  ((asInt y).map .int).or (((asDouble toF y).map .double).or (((asString y).map .string).or ((asBool y).map .bool)))

/-- `Vec<T>::deserialize`. -/
def readAll {α : Type} (f : Yaml → Option α) : List Yaml → Option (List α)
  | [] => some []
  | y :: l => match f y, readAll f l with
    | some a, some r => some (a :: r)
    | _, _ => none

/-- `Vec<T>::deserialize` of a YAML value. -/
def asList {α : Type} (f : Yaml → Option α) : Yaml → Option (List α)
  | .list l => readAll f l
  | _ => none

/-- The untagged `Examples` (attribute.rs:540-578): the first variant that reads the value. -/
def readExamples (y : Yaml) : Option Examples :=
  ((asBool y).map .bool).or <| ((asInt y).map .int).or <| ((asDouble toF y).map .double).or <|
  ((asString y).map .string).or <| ((asSpec toF y).map .any).or <|
  ((asList asInt y).map .ints).or <| ((asList (asDouble toF) y).map .doubles).or <|
  ((asList asBool y).map .bools).or <| ((asList asString y).map .strings).or <|
  ((asList (asSpec toF) y).map .anys).or <|
  ((asList (asList asInt) y).map .listOfInts).or <| ((asList (asList (asDouble toF)) y).map .listOfDoubles).or <|
  ((asList (asList asBool) y).map .listOfBools).or <| ((asList (asList asString) y).map .listOfStrings)

/-! ### Validating examples -/

/-- What validation of examples says: nothing, `InvalidExampleWarning` or `InvalidExampleError`. -/
inductive Verdict where
  | ok | warning | error
deriving DecidableEq, Repr

/-- attribute.rs:582-658 `Examples::validate`. -/
def validate (ex : Examples) (t : AType) : Verdict :=
  match ex, t with
  | .bool _, .prim .boolean => .ok
  | .int _, .prim .int => .ok
  | .double _, .prim .double => .ok
  | .string _, .prim .string => .ok
  | .ints _, .prim .int => .ok
  | .doubles _, .prim .double => .ok
  | .bools _, .prim .boolean => .ok
  | .strings _, .prim .string => .ok
  | .listOfInts _, .prim .ints => .ok
  | .listOfDoubles _, .prim .doubles => .ok
  | .listOfBools _, .prim .booleans => .ok
  | .listOfStrings _, .prim .strings => .ok
  | _, .prim .any => .ok
  | _, .enum _ => .ok
  | .ints _, .prim .ints => .warning
  | .doubles _, .prim .doubles => .warning
  | .bools _, .prim .booleans => .warning
  | .strings _, .prim .strings => .warning
  | .string _, .template .string => .ok
  | .int _, .template .int => .ok
  | .double _, .template .double => .ok
  | .bool _, .template .boolean => .ok
  | .listOfStrings _, .template .strings => .ok
  | .listOfInts _, .template .ints => .ok
  | .listOfDoubles _, .template .doubles => .ok
  | .listOfBools _, .template .booleans => .ok
  | .strings _, .template .string => .ok
  | .ints _, .template .int => .ok
  | .doubles _, .template .double => .ok
  | .bools _, .template .boolean => .ok
  | _, .template .any => .ok
  | .string _, .template .strings => .warning
  | .strings _, .template .strings => .warning
  | _, _ => .error

/-! ### Types of sampled values -/

/-- A number that is an `i64` or a `u64`. -/
def isInt : Elem → Bool
  | .int _ => true
  | _ => false

/-- Any number. -/
def isNum : Elem → Bool
  | .int _ | .dbl _ => true
  | _ => false

/-- `Value::is_boolean`. -/
def isBool : Elem → Bool
  | .bool _ => true
  | _ => false

/-- `Value::is_string`. -/
def isStr : Elem → Bool
  | .str _ => true
  | _ => false

/-- `Value::is_null`. -/
def isNull : Elem → Bool
  | .null => true
  | _ => false

/-- sample_attribute.rs:97-148 `infer_type`. -/
def inferType : Value → Option PType
  | .elem .null => none
  | .elem (.bool _) => some .boolean
  | .elem (.int _) => some .int
  | .elem (.dbl _) => some .double
  | .elem (.str _) => some .string
  | .arr l => match l.find? (fun v => !isNull v) with
    | some first =>
      if isBool first && l.all (fun v => isNull v || isBool v) then some .booleans
      else if isInt first && l.all (fun v => isNull v || isInt v) then some .ints
      else if isNum first && l.all (fun v => isNull v || isNum v) then some .doubles
      else if isStr first && l.all (fun v => isNull v || isStr v) then some .strings
      else none
    | none => none
  | .elem .nested => none

/-! ### Emitting -/

/-- weaver_emit attributes.rs:113-116, 121-124, 171-174: the value of a `ValueSpec`. -/
def specValue : ValueSpec → Elem
  | .int n => .int n
  | .double f => .dbl f
  | .string s => .str s
  | .bool b => .bool b

/-- weaver_emit attributes.rs:35-197 `internal_get_attribute_name_value`: the value, as the JSON the receiver makes of it
(src/registry/otlp/conversion.rs:57-83). The doubles 3.13 and 3.15 are `d13` and `d15`; doubles are finite. `none` is the
panic of `members[0]`. -/
def emitted (d13 d15 : Nat) (t : AType) (ex : Option Examples) : Option Value :=
  match t with
  | .prim .boolean => some (.elem (.bool true))
  | .prim .int => some <| .elem <| .int <| match ex with
    | some (.int i) => i
    | some (.ints l) => l.head?.getD 42
    | _ => 42
  | .prim .double => some <| .elem <| .dbl <| match ex with
    | some (.double d) => d
    | some (.doubles l) => l.head?.getD d13
    | _ => d13
  | .prim .string => some <| .elem <| .str <| match ex with
    | some (.string s) => s
    | some (.strings l) => l.head?.getD "value"
    | _ => "value"
  | .prim .any => some <| match ex with
    | some (.bool b) => .elem (.bool b)
    | some (.bools l) => .elem (.bool (l.head?.getD true))
    | some (.listOfBools l) => .arr ((l.head?.getD [true, false]).map .bool)
    | some (.int i) => .elem (.int i)
    | some (.ints l) => .elem (.int (l.head?.getD 42))
    | some (.listOfInts l) => .arr ((l.head?.getD [42, 43]).map .int)
    | some (.double d) => .elem (.dbl d)
    | some (.doubles l) => .elem (.dbl (l.head?.getD d13))
    | some (.listOfDoubles l) => .arr ((l.head?.getD [d13, d15]).map .dbl)
    | some (.string s) => .elem (.str s)
    | some (.strings l) => .elem (.str (l.head?.getD "value"))
    | some (.listOfStrings l) => .arr ((l.head?.getD ["value1", "value2"]).map .str)
    | some (.any v) => .elem (specValue v)
    | some (.anys l) => .elem ((l.head?.map specValue).getD (.str "value"))
    | none => .elem (.str "value")
  | .prim .booleans => some (.arr [.bool true, .bool false])
  | .prim .ints => some <| .arr <| List.map Elem.int <| match ex with
    | some (.ints l) => l
    | some (.listOfInts l) => l.head?.getD [42, 43]
    | _ => [42, 43]
  | .prim .doubles => some <| .arr <| List.map Elem.dbl <| match ex with
    | some (.doubles l) => l
    | some (.listOfDoubles l) => l.head?.getD [d13, d15]
    | _ => [d13, d15]
  | .prim .strings => some <| .arr <| List.map Elem.str <| match ex with
    | some (.strings l) => l
    | some (.listOfStrings l) => l.head?.getD ["value1", "value2"]
    | _ => ["value1", "value2"]
  | .enum members => members.head?.map .elem
  | .template .string => some (.elem (.str "template_value"))
  | .template .int => some (.elem (.int 42))
  | .template .double => some (.elem (.dbl d13))
  | .template .boolean => some (.elem (.bool true))
  | .template .any => some (.elem (.str "template_any_value"))
  | .template .strings => some (.arr [.str "template_value1", .str "template_value2"])
  | .template .ints => some (.arr [.int 42, .int 43])
  | .template .doubles => some (.arr [.dbl d13, .dbl d15])
  | .template .booleans => some (.arr [.bool true, .bool false])

/-- weaver_emit attributes.rs:167, 176, 194: the name. -/
def emittedName (name : String) : AType → String
  | .template _ => name ++ ".key"
  | _ => name

end Verif.Values
