import Verif.Util.Sort
import Verif.Util.Str
/-
Model of the jq library of weaver, defaults/jq/semconv.jq, and of crates/weaver_forge/src/jq.rs.

Simplifications: jq is not modelled, the definitions are written down as functions with the meaning the language gives them,
over records with the fields the library reads. A failure of jq (`map` over `null`) is `none`. Options have the documented
types; names are not empty; `exclude` of an annotation is `none` if it or something around it is missing or null, and any
other value but `false` counts as `true`.
-/
namespace Verif.Jq
open Verif.Util

/-! ### What is filtered -/

/-- The fields filters look at. -/
structure Common where
  /-- `.stability` -/
  stability : Option String := none
  /-- `has("deprecated")` -/
  deprecated : Bool := false
  /-- `.annotations.code_generation.exclude` -/
  exclude : Option Bool := none
deriving DecidableEq, Repr

/-- A member of an enum. -/
structure Member where
  id : String
  common : Common := {}
deriving DecidableEq, Repr

/-- An attribute; `name` is called `key` in version 2. `members` is `.type.members`, if the type is an enum. -/
structure Attr where
  name : String
  common : Common := {}
  members : Option (List Member) := none
  root : String := ""
deriving DecidableEq, Repr

/-- A group of version 1, or a signal of version 2: `id` only in version 1, `identity` and `description` only for entities of
version 2, which have no `attributes`. -/
structure Sig where
  id : String := ""
  type : String := ""
  name : Option String := none
  metricName : Option String := none
  common : Common := {}
  attributes : Option (List Attr) := none
  identity : List Attr := []
  description : List Attr := []
  root : String := ""
deriving DecidableEq, Repr

/-- The registry as templates see it. -/
inductive Reg where
  | v1 (groups : List Sig)
  | v2 (attributes : List Attr) (metrics spans events entities : List Sig)

/-- `$options`; the outer `Option` is `has`. -/
structure Options where
  v2 : Bool := false
  stableOnly : Bool := false
  excludeStability : Option (List (Option String)) := none
  excludeDeprecated : Bool := false
  excludeRoots : Option (List String) := none
  ignoreAnnotations : Option Bool := none

/-! ### Filters -/

/-- How to get at the common fields and at `.type.members`. -/
structure View (α : Type) where
  common : α → Common
  mapMembers : (List Member → List Member) → α → α

/-- Attributes have members if they are enums. -/
def attrView : View Attr where
  common := Attr.common
  mapMembers f a := { a with members := a.members.map f }

/-- The `type` of a signal has no members: it is missing or a text. -/
def sigView : View Sig where
  common := Sig.common
  mapMembers _ s := s

/-- semconv.jq:16-21 `expand_stability`. -/
def expandStability (l : List (Option String)) : List (Option String) :=
  if some "experimental" ∈ l then l ++ [some "development", some "alpha", some "beta", some "release_candidate", some "", none]
  else l

/-- `map(select(p)) | map(if .type? == null then . else .type.members? |= map(select(p)) end)`. -/
def selectBoth {α : Type} (v : View α) (p : Common → Bool) (l : List α) : List α :=
  (l.filter fun a => p (v.common a)).map (v.mapMembers (List.filter fun m => p m.common))

/-- semconv.jq:27-53 `stability_filter`. -/
def stabilityFilter {α : Type} (v : View α) (o : Options) (l : List α) : List α :=
  let l := if o.stableOnly then selectBoth v (fun c => c.stability == some "stable") l else l
  match o.excludeStability with
  | some ex => selectBoth v (fun c => !(expandStability ex).contains c.stability) l
  | none => l

/-- semconv.jq:94-115 `code_generation_exclude_filter`. -/
def annotationFilter {α : Type} (v : View α) (o : Options) (l : List α) : List α :=
  if o.ignoreAnnotations.isSome then l else selectBoth v (fun c => c.exclude == none || c.exclude == some false) l

/-- semconv.jq:120-132 `deprecated_filter`. -/
def deprecatedFilter {α : Type} (v : View α) (o : Options) (l : List α) : List α :=
  if o.excludeDeprecated then selectBoth v (fun c => !c.deprecated) l else l

/-- The three filters, as both functions use them (semconv.jq:156-158, 207-210). -/
def filters {α : Type} (v : View α) (o : Options) (l : List α) : List α :=
  deprecatedFilter v o (annotationFilter v o (stabilityFilter v o l))

/-- semconv.jq:159-163, 211-215. -/
def rootFilter {α : Type} (root : α → String) (o : Options) (l : List α) : List α :=
  match o.excludeRoots with
  | some ex => l.filter fun a => !ex.contains (root a)
  | none => l

/-! ### Root namespaces -/

/-- `split(".")`. -/
def parts (n : String) : List Chars := splitWhen (· == '.') n.toList

/-- `split(".")[i]`. -/
def part (n : String) (i : Nat) : String := String.ofList ((parts n).getD i [])

/-- semconv.jq:149. -/
def rootV2 (n : String) : String := part n 0
/-- semconv.jq:154. -/
def rootAttrV1 (n : String) : String := if n.toList.contains '.' then part n 0 else "other"
/-- semconv.jq:205. -/
def rootSigV1 (id : String) : String := if id.toList.contains '.' then part id 1 else "other"

/-! ### Order and groups -/

/-- `sort_by(.root_namespace, name)`. -/
def rootNameLe (a b : Attr) : Bool := decide (a.root < b.root) || (a.root == b.root && decide (a.name ≤ b.name))

/-- `sort_by` of a text. -/
def strLe {α : Type} (key : α → String) (a b : α) : Bool := decide (key a ≤ key b)

/-- `sort_by` of a text or `null`, which is less than texts. -/
def optLe {α : Type} (key : α → Option String) (a b : α) : Bool :=
  match key a, key b with
  | none, _ => true
  | some _, none => false
  | some x, some y => decide (x ≤ y)

/-- Neighbours with the same key together. -/
def chunk {α : Type} (key : α → String) : List α → List (String × List α)
  | [] => []
  | a :: l =>
    match chunk key l with
    | [] => [(key a, [a])]
    | (k, g) :: r => if key a = k then (k, a :: g) :: r else (key a, [a]) :: (k, g) :: r

/-- `group_by(.root_namespace)` with the namespace of each group. -/
def groupBy {α : Type} (key : α → String) (l : List α) : List (String × List α) := chunk key (sortBy (strLe key) l)

/-! ### Attributes -/

/-- semconv.jq:146-164 `semconv_attributes`. -/
def semconvAttributes (o : Options) (r : Reg) : Option (List Attr) :=
  let all : Option (List Attr) := match o.v2, r with
    | true, .v2 attributes _ _ _ _ => some (attributes.map fun a => { a with root := rootV2 a.name })
    | false, .v1 groups =>
      some (((groups.filter fun g => g.type == "attribute_group" && "registry.".toList.isPrefixOf g.id.toList).flatMap
        fun g => g.attributes.getD []).map fun a => { a with root := rootAttrV1 a.name })
    | _, _ => none
  all.map fun l => sortBy rootNameLe (rootFilter (·.root) o (filters attrView o l))

/-- semconv.jq:10-12, 178-180 `semconv_grouped_attributes`. -/
def groupedAttributes (o : Options) (r : Reg) : Option (List (String × List Attr)) :=
  (semconvAttributes o r).map fun l => (groupBy (·.root) l).map fun g => (g.1, sortBy (strLe (·.name)) g.2)

/-! ### Signals -/

/-- The signals with functions of their own (semconv.jq:239, 271, 303, 335). -/
inductive Kind where
  | metric | span | event | entity
deriving DecidableEq, Repr

/-- The `type` of a group of version 1. -/
def Kind.text : Kind → String
  | .metric => "metric" | .span => "span" | .event => "event" | .entity => "entity"

/-- semconv.jq:78-89 `get_id`. -/
def getId : Kind → Sig → String
  | .entity, s | .span, s => s.type
  | .metric, s | .event, s => s.name.getD ""

/-- semconv.jq:210. -/
def filterNested (o : Options) (s : Sig) : Sig := { s with attributes := s.attributes.map (filters attrView o) }

/-- semconv.jq:64-75 `signal_filter_v2`. -/
def v2Signals (k : Kind) (metrics spans events entities : List Sig) : List Sig :=
  match k with
  | .metric => metrics | .span => spans | .event => events | .entity => entities

/-- semconv.jq:197-216 `semconv_signal`. -/
def semconvSignal (k : Kind) (o : Options) (r : Reg) : Option (List Sig) :=
  let all : Option (List Sig) := match o.v2, r with
    | true, .v2 _ metrics spans events entities =>
      some ((v2Signals k metrics spans events entities).map fun s => { s with root := rootV2 (getId k s) })
    | false, .v1 groups => some ((groups.filter fun g => g.type == k.text).map fun s => { s with root := rootSigV1 s.id })
    | _, _ => none
  all.map fun l => sortBy (strLe (·.root)) (rootFilter (·.root) o ((filters sigView o l).map (filterNested o)))

/-- semconv.jq:218-223 `get_metric_name`, 239, 271, 303, 335: by what signals are sorted. -/
def sortKey : Kind → Sig → Option String
  | .metric, s => s.metricName.or s.name
  | .event, s => s.name
  | .span, s | .entity, s => some s.type

/-- semconv.jq:239, 271, 303, 335 `semconv_metrics` and so on. -/
def semconvSignals (k : Kind) (o : Options) (r : Reg) : Option (List Sig) :=
  (semconvSignal k o r).map (sortBy (optLe (sortKey k)))

/-- semconv.jq:227-229, 252 `semconv_grouped_metrics` and so on. -/
def groupedSignals (k : Kind) (o : Options) (r : Reg) : Option (List (String × List Sig)) :=
  (semconvSignals k o r).map fun l => (groupBy (·.root) l).map fun g => (g.1, sortBy (optLe (sortKey k)) g.2)

/-! ### jq.rs -/

/-- jq.rs:100-147, the results of a filter: `toSerde` is jq.rs:29-31, what is read back of what a value is printed as. -/
def bundle {V J E : Type} (toSerde : V → J) (array : List J → J) (rs : List (Except E V)) : Except (List E) J :=
  let errs := rs.filterMap fun r => match r with | .error e => some e | .ok _ => none
  let values := rs.filterMap fun r => match r with | .ok v => some (toSerde v) | .error _ => none
  if errs ≠ [] then .error errs
  else match values with
    | [v] => .ok v
    | l => .ok (array l)

/-- error.rs:18-23 `Location`. -/
structure Location where
  line : Nat
  col : Nat
deriving DecidableEq, Repr

/-- jq.rs:158-165. -/
def Location.step (l : Location) (c : Char) : Location :=
  if c = '\n' then { line := l.line + 1, col := 1 } else { l with col := l.col + 1 }

/-- jq.rs:145-190 `get_source`, for a part of the text: what is before it and the part. The rest is not read. -/
def getSource (before part : Chars) : Location × Location :=
  let start := before.foldl Location.step { line := 1, col := 1 }
  (start, part.foldl Location.step start)

end Verif.Jq
