import Verif.Forge.Val
import Verif.Util.Sort
import Verif.Util.Str
/-
The OpenTelemetry filters and tests of templates: crates/weaver_forge/src/extensions/otel.rs.
Errors are not distinguished: a failing filter is `none`.
-/
namespace Verif.Forge
open Verif.Util

/-! ### Requirement level and stability -/

/-- The loop of otel.rs:61-87 with the test as parameter: an element that is undefined is an error. -/
def pick (keep : Option String → Bool) : List Val → Option (List Val)
  | [] => some []
  | v :: l => match v.getAttr "requirement_level" with
    | Option.none => Option.none
    | some r => match pick keep l with
      | Option.none => Option.none
      | some rest => some (if keep r.asStr then v :: rest else rest)

/-- otel.rs:61-71 `required`. -/
def required (input : Val) : Option (List Val) := input.iter.bind (pick fun r => decide (r = some "required"))

/-- otel.rs:75-86 `not_required`. -/
def notRequired (input : Val) : Option (List Val) := input.iter.bind (pick fun r => decide (r ≠ some "required"))

/-- otel.rs:388-397 `is_stable`. -/
def isStable (v : Val) : Bool :=
  match v.getAttr "stability" with
  | some s => match s.asStr with
    | some s => s == "stable"
    | Option.none => false
  | Option.none => false

/-- otel.rs:403-412 `is_experimental`. -/
def isExperimental (v : Val) : Bool :=
  match v.getAttr "stability" with
  | some s => match s.asStr with
    | some s => s != "stable"
    | Option.none => true
  | Option.none => true

/-- A field that is there and not undefined, as tested in otel.rs:318-327. -/
def hasDefined (v : Val) (k : String) : Bool :=
  match v.getAttr k with
  | some x => !x.isUndefined
  | Option.none => false

/-- otel.rs:309-339 `sort_ordinal_for_requirement`. -/
def ordinal (v : Val) : Option Nat :=
  match v.getAttr "requirement_level" with
  | Option.none => Option.none
  | some level =>
    if level.isUndefined then some 0
    else if hasDefined level "conditionally_required" then some 2
    else if hasDefined level "recommended" then some 3
    else if level.asStr = some "required" then some 1
    else if level.asStr = some "recommended" then some 3
    else if level.asStr = some "opt_in" then some 4
    else Option.none

/-- otel.rs:221-227 `get_name_or_key`. -/
def nameOrKey (v : Val) : Option Val :=
  match v.getAttr "name" with
  | Option.none => Option.none
  | some n => if n.isUndefined then v.getAttr "key" else some n

/-- otel.rs:305-354 `compare_requirement_level`, as "not greater". `vle` is "less or equal" for template values. It is
only used if both ordinals exist, and then the names exist as well. -/
def notGreater (vle : Val → Val → Bool) (a b : Val) : Bool :=
  let x := (ordinal a).getD 0
  let y := (ordinal b).getD 0
  decide (x < y) || (decide (x = y) && vle ((nameOrKey a).getD .undefined) ((nameOrKey b).getD .undefined))

/-- otel.rs:357-384 `attribute_sort`. The standard library's stable sort compares every element of a list of at least
two elements with some other element, and a comparison that involves an element without ordinal is an error. -/
def attributeSort (vle : Val → Val → Bool) (input : Val) : Option (List Val) :=
  input.iter.bind fun l =>
    if decide (2 ≤ l.length) && l.any (fun v => (ordinal v).isNone) then Option.none
    else some (sortBy (notGreater vle) l)

/-! ### Names -/

/-- `parts` of otel.rs:91-148: `input.split('.')`. -/
def parts (input : Chars) : List Chars := splitWhen (· == '.') input

/-- otel.rs:91-101 `attribute_registry_namespace` and otel.rs:139-148 `metric_namespace`: they differ in the first part. -/
def namespaceAfter (first : Chars) (input : Chars) : Option Chars :=
  match parts input with
  | p :: q :: _ => if p = first then some q else Option.none
  | _ => Option.none

/-- otel.rs:154-169 `attribute_split`. -/
def attributeSplit (input : Chars) : Option (Chars × Chars) :=
  if input = [] then Option.none
  else match splitFirst ['.'] input with
    | some (_, []) => Option.none
    | some ([], _) => Option.none
    | some (a, b) => some (a, b)
    | Option.none => some ("other".toList, input)

/-- otel.rs:175-177 `attribute_namespace`. -/
def attributeNamespace (input : Chars) : Option Chars := (attributeSplit input).map Prod.fst

/-- otel.rs:182-184 `attribute_id`. -/
def attributeId (input : Chars) : Option Chars := (attributeSplit input).map Prod.snd

/-! ### Types -/

/-- otel.rs:520-536 `is_simple_type`, on a string. -/
def simpleTypes : List String :=
  ["string", "string[]", "int", "int[]", "double", "double[]", "boolean", "boolean[]"]

/-- otel.rs:520-536 `is_simple_type`. -/
def isSimpleType (v : Val) : Bool :=
  match v.asStr with
  | some s => decide (s ∈ simpleTypes)
  | Option.none => false

/-- `attr_type[TEMPLATE_PREFIX.len()..end]` of a string that starts with the prefix and ends with the suffix,
otel.rs:19-20 and 539-549. As `template[` does not end with `]`, the two do not overlap. -/
def templateInner (s : Chars) : Option Chars := (dropPrefix? "template[".toList s).bind (dropSuffix? "]".toList)

/-- otel.rs:539-549 `is_template_type`. -/
def isTemplateType (v : Val) : Bool :=
  match v.asStr with
  | some s => match templateInner s.toList with
    | some i => decide (String.ofList i ∈ simpleTypes)
    | Option.none => false
  | Option.none => false

/-- otel.rs:552-559 `is_enum_type`. -/
def isEnumType (v : Val) : Bool :=
  match v.getAttr "members" with
  | some m => !m.isUndefined
  | Option.none => false

/-- otel.rs:562-569 `is_enum`. -/
def isEnum (v : Val) : Bool :=
  match v.getAttr "type" with
  | some t => isEnumType t
  | Option.none => false

/-- otel.rs:572-577 `is_array`. -/
def isArray (v : Val) : Bool :=
  match v.asStr with
  | some s => decide (s ∈ ["string[]", "int[]", "double[]", "boolean[]"])
  | Option.none => false

/-- otel.rs:483-498: the type of a member. `whole` tells which doubles `Value::as_i64` converts; integers are those of 64
bits. -/
def memberType (whole : Nat → Bool) (m : Val) : Option String :=
  match m.getAttr "value" with
  | some (.int i) => some (if -9223372036854775808 ≤ i ∧ i ≤ 9223372036854775807 then "int" else "double")
  | some (.float f) => some (if whole f then "int" else "double")
  | some (.str _) => some "string"
  | _ => Option.none

/-- The loop of otel.rs:481-511. -/
def inferFrom (whole : Nat → Bool) : Option String → List Val → Option (Option String)
  | cur, [] => some cur
  | cur, m :: l => match memberType whole m with
    | Option.none => Option.none
    | some t => inferFrom whole (match cur with
      | some c => if c ≠ t then some "string" else some c
      | Option.none => some t) l

/-- otel.rs:477-517 `enum_type`. -/
def enumType (whole : Nat → Bool) (v : Val) : Option String :=
  match v.getAttr "members" with
  | Option.none => Option.none
  | some ms => match ms.iter with
    | Option.none => Option.none
    | some l => match inferFrom whole Option.none l with
      | some (some t) => some t
      | _ => Option.none

/-- otel.rs:427-447 `instantiated_type`. -/
def instantiatedType (whole : Nat → Bool) (v : Val) : Option String :=
  if isSimpleType v then v.asStr
  else if isTemplateType v then (v.asStr.bind fun s => templateInner s.toList).map String.ofList
  else if isEnumType v then enumType whole v
  else Option.none

/-! ### Bodies -/

/-- A body, as `traverse_body_fields` sees it: an id, perhaps fields, and other data. -/
inductive Body (D : Type) where
  | node (id : Chars) (fields : Option (List (Body D))) (data : D)

/-- The id of a node. -/
def Body.id {D : Type} : Body D → Chars
  | .node i _ _ => i

/-- The fields of a node. -/
def Body.fields {D : Type} : Body D → List (Body D)
  | .node _ fs _ => fs.getD []

/-- otel.rs:615-619: the path of a node below a path. -/
def below (path id : Chars) : Chars := if path = [] then id else path ++ '.' :: id

mutual
/-- otel.rs:595-638 `traverse_body_fields`. The fields are listed first and then sorted together with their listings, which
is the same as listing the sorted fields. `le` is the order of the filter `sort` for the chosen attribute, a stable sort of
minijinja. The missing values (undefined or none) are left out. -/
def traverse {D : Type} (le : Body D → Body D → Bool) : Body D → Chars → Nat → List (Chars × Body D × Nat)
  | .node id Option.none d, path, depth => [(below path id, .node id Option.none d, depth)]
  | .node id (some fs) d, path, depth =>
    (below path id, .node id (some fs) d, depth) ::
      (sortBy (fun a b => le a.1 b.1) (traverseL le fs)).flatMap fun x => x.2 (below path id) (depth + 1)
termination_by structural b => b
def traverseL {D : Type} (le : Body D → Body D → Bool) : List (Body D) → List (Body D × (Chars → Nat → List (Chars × Body D × Nat)))
  | [] => []
  | b :: l => (b, fun p d => traverse le b p d) :: traverseL le l
termination_by structural l => l
end

/-- otel.rs:590-643 `body_fields`. -/
def bodyFields {D : Type} (le : Body D → Body D → Bool) (b : Body D) : List (Chars × Body D × Nat) := traverse le b [] 0

end Verif.Forge
