import Verif.Convert.Model
/-
Model of the schema diff: crates/weaver_resolved_schema/src/lib.rs:244-531, v2/mod.rs:81-126 and 801-867, and
crates/weaver_version/src/schema_changes.rs.
-/
namespace Verif.Diff
open Verif.Util Verif.Resolver Verif.Semconv Verif.Convert

/-- schema_changes.rs:52-95 `SchemaItemChange`. -/
inductive Change where
  | added (name : String)
  | renamed (oldName newName note : String)
  | updated
  | obsoleted (name note : String)
  | uncategorized (name note : String)
  | removed (name : String)
deriving DecidableEq, Repr

/-- What the diff reads of an attribute or signal: its name and its deprecation. -/
abbrev Item := String × Option Deprecated

/-- `collect` into a `HashMap`: the last entry of a name wins. -/
def collect (l : List Item) : List Item := l.foldl (fun m p => aset p.1 p.2 m) []

/-- lib.rs:392-424, 473-505, v2/mod.rs:824-847: the change that a deprecation stands for. -/
def deprecationChange (name : String) : Deprecated → Change
  | .renamed to note => .renamed name to (Deprecated.renamed to note).note
  | .obsoleted note => .obsoleted name note
  | .unspecified note => .uncategorized name note
  | .uncategorized note => .uncategorized name note

/-- lib.rs:378-433, 461-514, v2/mod.rs:813-853: one round of the loop over the head. The code exists three times, for
v1 attributes, v1 signals and v2 items, and is the same each time. -/
def headChange (base : List Item) (p : Item) : Option Change :=
  match aget p.1 base with
  | none => some (.added p.1)
  | some b => match p.2 with
    | none => none
    | some d => if b = some d then none else some (deprecationChange p.1 d)

/-- lib.rs:440-449, 521-530, v2/mod.rs:859-865: one round of the loop over the baseline. -/
def baseChange (head : List Item) (p : Item) : Option Change :=
  if (aget p.1 head).isSome then none else some (.removed p.1)

/-- lib.rs:366-450 `diff_attributes`, 452-531 `diff_signals`, v2/mod.rs:801-867 `diff_signals`. `ord` is the order in
which a `HashMap` is enumerated. -/
def diffItems (ord : List Item → List Item) (head base : List Item) : List Change :=
  (ord (collect head)).filterMap (headChange (collect base)) ++
  (ord (collect base)).filterMap (baseChange (collect head))

/-- A resolved v1 schema, as far as the diff reads it. -/
structure Schema where
  catalog : List A1
  groups : List Grp

/-- lib.rs:258-263: is the attribute of this group a refinement of another group's? -/
def isRef (g : Grp) (n : String) : Bool :=
  match g.lineage.bind (fun l => aget n l.attrs) with
  | some src => decide (src ≠ g.id)
  | none => false

/-- lib.rs:249-270: the attributes a group defines; `none` is the panic of `expect`. -/
def groupAttrs (cat : List A1) (g : Grp) : List Nat → Option (List Item)
  | [] => some []
  | r :: rs => match cat[r]? with
    | none => none
    | some a => match groupAttrs cat g rs with
      | none => none
      | some l => some (if isRef g a.name then l else (a.name, a.deprecated) :: l)

/-- lib.rs:244-272 `registry_attribute_map`, before collecting. -/
def schemaAttrs (cat : List A1) : List Grp → Option (List Item)
  | [] => some []
  | g :: gs => match groupAttrs cat g g.attributes with
    | none => none
    | some l => match schemaAttrs cat gs with
      | none => none
      | some l' => some (l ++ l')

/-- registry.rs:209-223 `signal_name`. -/
def signalName (g : Grp) : Option String :=
  match g.type with
  | .attributeGroup => some g.id
  | .span => g.name
  | .event => g.name
  | .metric => g.metricName
  | .metricGroup => none
  | .entity => g.name
  | .scope => none
  | .undefined => none

/-- lib.rs:287-294 `groups_by_name`, before collecting. -/
def groupsByName (t : GroupType) (s : Schema) : List Item :=
  (s.groups.filter (fun g => decide (g.type = t))).filterMap fun g =>
    match signalName g with
    | some n => some (n, g.deprecated)
    | none => none

/-- schema_changes.rs:28-39 `SchemaChanges`: the five lists of the map. -/
structure Changes where
  attributes : List Change
  metrics : List Change
  events : List Change
  spans : List Change
  entities : List Change

/-- lib.rs:308-364 `diff`; `none` is a panic. -/
def diffV1 (ord : List Item → List Item) (head base : Schema) : Option Changes :=
  match schemaAttrs head.catalog head.groups with
  | none => none
  | some ha => match schemaAttrs base.catalog base.groups with
    | none => none
    | some ba => some
      { attributes := diffItems ord ha ba
        metrics := diffItems ord (groupsByName .metric head) (groupsByName .metric base)
        events := diffItems ord (groupsByName .event head) (groupsByName .event base)
        spans := diffItems ord (groupsByName .span head) (groupsByName .span base)
        entities := diffItems ord (groupsByName .entity head) (groupsByName .entity base) }

/-- schema_changes.rs:128-130 `is_empty`. -/
def Changes.isEmpty (c : Changes) : Bool :=
  c.attributes.isEmpty && c.metrics.isEmpty && c.events.isEmpty && c.spans.isEmpty && c.entities.isEmpty

/-- schema_changes.rs:134-136 `count_changes`. -/
def Changes.count (c : Changes) : Nat :=
  c.attributes.length + c.metrics.length + c.events.length + c.spans.length + c.entities.length

def Change.isAdded : Change → Bool | .added _ => true | _ => false
def Change.isRenamed : Change → Bool | .renamed _ _ _ => true | _ => false
def Change.isObsoleted : Change → Bool | .obsoleted _ _ => true | _ => false
def Change.isUncategorized : Change → Bool | .uncategorized _ _ => true | _ => false
def Change.isRemoved : Change → Bool | .removed _ => true | _ => false

/-- schema_changes.rs:149-210: the counts of attribute changes by kind. -/
def Changes.countAttr (c : Changes) (kind : Change → Bool) : Nat := (c.attributes.filter kind).length

/-- schema_changes.rs:249-259 `renamed_registry_attributes`. -/
def Changes.renamedAttributes (c : Changes) : List Change := c.attributes.filter Change.isRenamed

/-- v2/mod.rs:119-126 `registry_attribute_map`, before collecting. -/
def attrItems2 (o : Out) : List Item :=
  (o.attributes.filterMap (fun r => o.catalog[r]?)).map fun a => (a.key, a.common.deprecated)

/-- weaver_resolved_schema v2/mod.rs `RegistryChanges`. -/
structure Changes2 where
  attributes : List Change
  groups : List Change
  entities : List Change
  events : List Change
  metrics : List Change
  spans : List Change

/-- v2/mod.rs:81-116 `diff`, `registry_diff` and `registry_attribute_diff`; the two urls are copied. The names are
those of `Signal::id`: v2/attribute.rs:55, attribute_group.rs:57, entity.rs:174, event.rs:86, metric.rs:97, span.rs:95. -/
def diffV2 (ord : List Item → List Item) (head base : Out) : Changes2 :=
  { attributes := diffItems ord (attrItems2 head) (attrItems2 base)
    groups := diffItems ord (head.groups.map fun g => (g.id, g.common.deprecated)) (base.groups.map fun g => (g.id, g.common.deprecated))
    entities := diffItems ord (head.entities.map fun g => (g.type, g.common.deprecated))
      (base.entities.map fun g => (g.type, g.common.deprecated))
    events := diffItems ord (head.events.map fun g => (g.name, g.common.deprecated))
      (base.events.map fun g => (g.name, g.common.deprecated))
    metrics := diffItems ord (head.metrics.map fun g => (g.name, g.common.deprecated))
      (base.metrics.map fun g => (g.name, g.common.deprecated))
    spans := diffItems ord (head.spans.map fun g => (g.type, g.common.deprecated))
      (base.spans.map fun g => (g.type, g.common.deprecated)) }

end Verif.Diff
