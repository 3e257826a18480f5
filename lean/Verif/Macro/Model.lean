import Verif.Util.Str
/-
The derive macro of the commands: crates/weaver_macros/src/weaver_command.rs, and the test that the settings of the file and
the flags correspond, src/registry/mod.rs:467-580.

Of a type only the name of its last segment and its arguments are modelled; `String` and `PathBuf` are taken to be those of the
standard library. Which texts `f32`, `f64` and `SocketAddr` accept is a parameter. Macros run when weaver is compiled: an error
of the macro, or an ill-typed result, is an error of the compiler.
-/
namespace Verif.Macro
open Verif.Util

/-! ### Attributes -/

/-- One of the items between the parentheses of `#[config(...)]`. A value that is not a string literal is an error; a word that
is not known is ignored (weaver_command.rs:297-307), and with a value it is an error as nothing reads the value. -/
inductive Item where
  | default (s : Option Chars)
  | path (s : Option Chars)
  | optional
  | word
  | unknownValue

/-- weaver_command.rs:84-88 `SharedKind`. -/
inductive Kind where
  | registry
  | policy
  | diagnostic
deriving DecidableEq

/-- An attribute of a field. `none` as the items is an attribute without parentheses; `none` among the kinds is a word that is
not known. -/
inductive Attr where
  | shared (kinds : List (Option Kind))
  | config (items : Option (List Item))
  | configOnly (items : Option (List Item))
  | other

/-- weaver_command.rs:90-97 `ConfigAnnotation`. -/
structure Annotation where
  default : Option Chars := none
  configOnly : Bool := false
  path : Option Chars := none
  optional : Bool := false
deriving DecidableEq

/-- weaver_command.rs:297-307: one item. -/
def readItem (a : Annotation) : Item → Option Annotation
  | .default (some s) => some { a with default := some s }
  | .path (some s) => some { a with path := some s }
  | .optional => some { a with optional := true }
  | .word => some a
  | .default none => none
  | .path none => none
  | .unknownValue => none

/-- weaver_command.rs:280-315 `parse_config_annotation`. `none` is an error. -/
def parseAnnotation (only : Bool) : Option (List Item) → Option Annotation
  | none => some { configOnly := only }
  | some items => items.foldlM readItem { configOnly := only }

/-- weaver_command.rs:99-103 `FieldKind`. -/
inductive FieldKind where
  | shared (k : Kind)
  | config (a : Annotation)
  | cliOnly
deriving DecidableEq

/-- weaver_command.rs:251-262: the last kind that is known. -/
def sharedKind (kinds : List (Option Kind)) : Option Kind := kinds.foldl (fun r k => k.or r) none

/-- weaver_command.rs:246-278 `classify_field`: the first attribute that says what the field is. `none` is an error. -/
def classify : List Attr → Option FieldKind
  | [] => some .cliOnly
  | .shared ks :: rest =>
    match sharedKind ks with
    | some k => some (.shared k)
    | none => classify rest
  | .config items :: _ => (parseAnnotation false items).map .config
  | .configOnly items :: _ => (parseAnnotation true items).map .config
  | .other :: rest => classify rest

/-- weaver_command.rs:59-71 `field_config_default`: the default that the help shows. -/
def shownDefault : List Attr → Option Chars
  | [] => none
  | .config items :: rest =>
    match parseAnnotation false items with
    | some a => a.default
    | none => shownDefault rest
  | _ :: rest => shownDefault rest

/-- weaver_command.rs:29: what is added to the documentation. -/
def helpText (s : Chars) : Chars := "[default: ".toList ++ s ++ "]".toList

/-! ### Types and defaults -/

/-- A type: a name with arguments, or something else (a tuple, a reference). -/
inductive RTy where
  | named (name : String) (args : List RTy)
  | other

/-- weaver_command.rs:728-742 `extract_option_inner`. -/
def optionInner : RTy → Option RTy
  | .named "Option" (t :: _) => some t
  | _ => none

/-- weaver_command.rs:744-751 `last_type_segment`, with `unwrap_or_default` of line 403. -/
def lastSegment : RTy → String
  | .named n _ => n
  | .other => ""

/-- weaver_command.rs:353-364 `config_field_type`. -/
def configType (t : RTy) (a : Annotation) : RTy :=
  match a.default with
  | some _ => (optionInner t).getD t
  | none => t

/-- An expression that the macro writes, with its type. A float is the text that is read, `none` is `0.0`. -/
inductive Expr where
  | none
  | text (s : Chars)
  | path (s : Chars)
  | addr (s : Chars)
  | bool (b : Bool)
  | int (ty : String) (n : Int)
  | float (ty : String) (s : Option Chars)
deriving DecidableEq

/-- The smallest and the largest number of an integer type, with 64 bits for `usize`. -/
def bounds : String → Option (Int × Int)
  | "u8" => some (0, 255)
  | "u16" => some (0, 65535)
  | "u32" => some (0, 4294967295)
  | "u64" => some (0, 18446744073709551615)
  | "usize" => some (0, 18446744073709551615)
  | "i8" => some (-128, 127)
  | "i16" => some (-32768, 32767)
  | "i32" => some (-2147483648, 2147483647)
  | "i64" => some (-9223372036854775808, 9223372036854775807)
  | _ => Option.none

/-- Decimal digits, at least one. -/
def readDigits (s : Chars) : Option Nat :=
  if s ≠ [] ∧ s.all Char.isDigit = true then some (Nat.ofDigitChars 10 s 0) else none

/-- Digits after at most one sign, which can be `-` for a signed type only. -/
def readSigned (signed : Bool) : Chars → Option Int
  | '-' :: t => if signed then (readDigits t).map fun n : Nat => -(n : Int) else Option.none
  | '+' :: t => (readDigits t).map fun n : Nat => (n : Int)
  | t => (readDigits t).map fun n : Nat => (n : Int)

/-- `str::parse` for integers: a number in range. -/
def parseInt (lo hi : Int) (s : Chars) : Option Int :=
  (readSigned (decide (lo < 0)) s).filter fun i => decide (lo ≤ i ∧ i ≤ hi)

/-- `str::parse::<bool>`. -/
def parseBool (s : Chars) : Option Bool :=
  if s = "true".toList then some true else if s = "false".toList then some false else none

/-- weaver_command.rs:397-474 `gen_default_expr`. -/
def defaultExpr (floatOk : Chars → Bool) (inner : RTy) : Option Chars → Expr
  | Option.none => .none
  | some s =>
    let name := lastSegment inner
    if name = "String" then .text s
    else if name = "PathBuf" then .path s
    else if name = "SocketAddr" then .addr s
    else if name = "bool" then .bool ((parseBool s).getD false)
    else match bounds name with
    | some (lo, hi) => .int name ((parseInt lo hi s).getD 0)
    | Option.none =>
      if name = "f32" ∨ name = "f64" then .float name (if floatOk s then some s else Option.none)
      else .text s

/-- A field of the arguments. -/
structure Field where
  name : Chars
  ty : RTy
  attrs : List Attr

/-- weaver_command.rs:317-351 `gen_config_struct`: the fields of the struct that is generated. -/
def configStruct (fields : List (Field × FieldKind)) : List (Chars × RTy) :=
  fields.filterMap fun fk =>
    match fk.2 with
    | .config a => match a.path with
      | some _ => none
      | none => some (fk.1.name, configType fk.1.ty a)
    | _ => none

/-- weaver_command.rs:368-395 `gen_default_impl`. -/
def defaultImpl (floatOk : Chars → Bool) (fields : List (Field × FieldKind)) : List (Chars × Expr) :=
  fields.filterMap fun fk =>
    match fk.2 with
    | .config a => match a.path with
      | some _ => none
      | none => some (fk.1.name, defaultExpr floatOk ((optionInner fk.1.ty).getD fk.1.ty) a.default)
    | _ => none

/-- weaver_command.rs:210-244 `parse_fields`. -/
def parseFields (fields : List Field) : Option (List (Field × FieldKind)) :=
  fields.mapM fun f => (classify f.attrs).map fun k => (f, k)

/-- Whether an expression has a type. -/
def hasType : Expr → RTy → Bool
  | .none, .named "Option" [_] => true
  | .text _, .named "String" [] => true
  | .path _, .named "PathBuf" [] => true
  | .addr _, .named "SocketAddr" [] => true
  | .bool _, .named "bool" [] => true
  | .int ty _, .named n [] => decide (ty = n)
  | .float ty _, .named n [] => decide (ty = n)
  | _, _ => false

/-! ### Overrides -/

/-- Names between the dots of a path. -/
def segments (p : Chars) : List Chars := splitWhen (fun c => decide (c = '.')) p

/-- weaver_command.rs:561-598: where a flag is written to. -/
def dest (name : Chars) (a : Annotation) : List Chars :=
  match a.path with
  | some p => segments p
  | none => [name]

/-- weaver_command.rs:553-598, overrides.rs:165-176 `override_if_set!`: the statements one after the other. -/
def applyOverrides {V : Type} (args : Chars → Option V) (c : List Chars → Option V) :
    List (Field × FieldKind) → List Chars → Option V
  | [] => c
  | (f, .config a) :: rest =>
    match args f.name with
    | some v => applyOverrides args (fun p => if p = dest f.name a then some v else c p) rest
    | none => applyOverrides args c rest
  | (_, .shared _) :: rest => applyOverrides args c rest
  | (_, .cliOnly) :: rest => applyOverrides args c rest

/-- weaver_command.rs:600-640: the field of the shared arguments of a kind that is used. -/
def sharedField (k : Kind) (fields : List (Field × FieldKind)) : Option Chars :=
  fields.foldl (fun r fk => if fk.2 = .shared k then some fk.1.name else r) none

/-! ### The names that are exported, and the test that they correspond -/

/-- `#[weaver_command(...)]` (weaver_command.rs:76-83) without the policy, with the fields. -/
structure Command where
  section_ : Chars
  extraConfigOnly : List Chars := []
  fields : List (Field × FieldKind)

/-- weaver_command.rs:190-199: names between commas, without the empty ones. `trim` is `str::trim`. -/
def extraNames (trim : Chars → Chars) (s : Chars) : List Chars :=
  ((splitWhen (fun c => decide (c = ',')) s).map trim).filter fun n => decide (n ≠ [])

/-- weaver_command.rs:503-526 `config_only_fields`. -/
def configOnlyFields (c : Command) : List Chars :=
  c.fields.filterMap (fun fk =>
    match fk.2 with
    | .config a => if a.configOnly then some fk.1.name else none
    | _ => none) ++ c.extraConfigOnly

/-- `join("_")`. -/
def joinUnderscore : List Chars → Chars
  | [] => []
  | [w] => w
  | w :: ws => w ++ '_' :: joinUnderscore ws

/-- weaver_command.rs:528-551 `field_mappings`. -/
def fieldMappings (c : Command) : List (Chars × Chars) :=
  c.fields.filterMap fun fk =>
    match fk.2 with
    | .config a => match a.path with
      | some p => if joinUnderscore (segments p) = fk.1.name then none else some (joinUnderscore (segments p), fk.1.name)
      | none => none
    | _ => none

/-- weaver_command.rs:681-724 `gen_excluded_args`. `group` is `EXCLUDED_ARGS` of the type of the shared arguments. -/
def excludedArgs (group : Kind → List Chars) (c : Command) : List Chars :=
  c.fields.flatMap (fun fk =>
    match fk.2 with
    | .shared k => group k
    | _ => []) ++
  c.fields.filterMap fun fk => if fk.2 = .cliOnly then some fk.1.name else none

/-- src/registry/mod.rs:545-556: what a setting is called on the command line. -/
def cliName (c : Command) (flat : Chars) : Chars :=
  match (fieldMappings c).find? fun m => decide (m.1 = flat) with
  | some m => m.2
  | none => flat

/-- src/registry/mod.rs:514-580 `assert_config_cli_consistency`. `leaves` are the paths of the settings in the schema of the
configuration, `cli` the long flags with underscores. -/
def consistent (group : Kind → List Chars) (c : Command) (leaves : List (List Chars)) (cli : List Chars) : Bool :=
  let mapped := ((leaves.map joinUnderscore).filter fun f => !(configOnlyFields c).contains f).map (cliName c)
  let comparable := cli.filter fun a => !(excludedArgs group c).contains a
  mapped.all comparable.contains && comparable.all mapped.contains

/-! ### The name of the struct -/

/-- weaver_command.rs:759-767: a word with its first letter in upper case. `char::to_uppercase` is that of ASCII. -/
def capital : Chars → Chars
  | [] => []
  | c :: s => c.toUpper :: s

/-- weaver_command.rs:753-770 `section_to_config_ident`. -/
def configIdent (section_ : Chars) : Chars :=
  ((splitWhen (fun c => decide (c = '-' ∨ c = '_')) section_).map capital).flatten ++ "Config".toList

end Verif.Macro
