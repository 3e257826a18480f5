import Verif.Util.Multi
import Verif.Resolver.Merge
/-
Model of the checks made on a resolved registry: crates/weaver_resolver/src/registry.rs:176-367, and of the ids groups
take in the v2 schema: crates/weaver_resolved_schema/src/v2/mod.rs:236-306.
-/
namespace Verif.Checks
open Verif.Util Verif.Resolver

/-- The parts of `GroupLineage` (crates/weaver_resolved_schema/src/lineage.rs:36-64) the checks read. `attrs` are the
ids of the attributes that have a lineage entry. -/
structure Lin where
  provenance : String
  extendsGroup : Option String := none
  extendsType : Option GroupType := none
  attrs : List String := []
deriving DecidableEq

/-- The parts of `Group` (crates/weaver_resolved_schema/src/registry.rs:70-190) the checks read; `visibility` is that
of the `UnresolvedGroup`. -/
structure Grp where
  id : String
  type : GroupType
  name : Option String := none
  metricName : Option String := none
  lineage : Option Lin := none
  attributes : List Nat := []
  isV2 : Bool := false
  visibility : Option Visibility := none
deriving DecidableEq

/-- crates/weaver_resolved_schema/src/registry.rs:509-513 `Group::provenance`. -/
def Grp.provenance (g : Grp) : Option String := g.lineage.map (·.provenance)

/-- crates/weaver_resolved_schema/src/registry.rs:233-239 `is_v2_refinement`. -/
def Grp.isV2Refinement (g : Grp) : Bool :=
  g.isV2 && (match g.lineage with | some l => l.extendsGroup.isSome | none => false)

/-- Errors reported by the checks (crates/weaver_resolver/src/error.rs). The provenances come from a `HashSet`, so
their order means nothing. -/
inductive CheckErr where
  | duplicateGroupId (id : String) (provenances : List String)
  | duplicateMetricName (name : String) (provenances : List String)
  | duplicateGroupName (name : String) (provenances : List String)
  | duplicateAttributeId (attr : String) (groups : List String)
  | collidingV2SignalId (signal : String) (groups : List String) (provenances : List String)
deriving DecidableEq

/-- registry.rs:279-308 `check_uniqueness`. A key with no provenance at all has no entry here (in the code it has an
empty one, which reports nothing). -/
def checkUniqueness (groups : List Grp) (key : Grp → Option String) (err : String → List String → CheckErr) :
    List CheckErr :=
  (mgroup (groups.filterMap fun g =>
    match key g with
    | some k => match g.provenance with
      | some p => some (k, p)
      | none => none
    | none => none)).filterMap fun e => if e.2.length > 1 then some (err e.1 (uniq e.2)) else none

/-- `str::strip_prefix(..).unwrap_or(..)`. -/
def stripPrefix (p s : String) : String :=
  if p.toList.isPrefixOf s.toList then String.ofList (s.toList.drop p.toList.length) else s

/-- crates/weaver_resolved_schema/src/v2/mod.rs:242-248 `fix_group_id`. -/
def fixGroupId (p id : String) : String := stripPrefix p id

/-- v2/mod.rs:256-261 `is_refinement_of`. -/
def isRefinementOf (g : Grp) : Bool :=
  match g.lineage with
  | some l => decide (l.extendsType = some g.type)
  | none => false

/-- v2/mod.rs:270-276 `entity_type_of`. -/
def entityTypeOf (g : Grp) : String :=
  match g.name with
  | some n => n
  | none => fixGroupId "entity." g.id

/-- v2/mod.rs:291-306 `v2_namespace_id`. -/
def v2NamespaceId (g : Grp) : Option String :=
  let refines := isRefinementOf g
  match g.type with
  | .span => some (fixGroupId "span." g.id)
  | .attributeGroup => some (fixGroupId "attribute_group." g.id)
  | .entity => if refines then some (fixGroupId "entity." g.id) else some (entityTypeOf g)
  | .event => if refines then some (fixGroupId "event." g.id) else g.name
  | .metric => if refines then some (fixGroupId "metric." g.id) else g.metricName
  | .metricGroup => none
  | .scope => none
  | .undefined => none

/-- crates/weaver_semconv/src/group.rs:670-683 `Display for GroupType`. -/
def typeText : GroupType → String
  | .attributeGroup => "attribute_group"
  | .span => "span"
  | .event => "event"
  | .metric => "metric"
  | .metricGroup => "metric_group"
  | .entity => "entity"
  | .scope => "scope"
  | .undefined => "undefined"

/-- The order of the `BTreeMap` keys in registry.rs:248. -/
def keyLe (a b : (String × String) × List Grp) : Bool :=
  decide (a.1.1 < b.1.1) || (decide (a.1.1 = b.1.1) && decide (a.1.2 ≤ b.1.2))

/-- registry.rs:244-273 `check_v2_signal_id_collisions`. -/
def checkCollisions (groups : List Grp) : List CheckErr :=
  (sortBy keyLe (mgroup (groups.filterMap fun g =>
    match v2NamespaceId g with
    | some s => some ((typeText g.type, s), g)
    | none => none))).filterMap fun e =>
      let ids := uniq (e.2.map (·.id))
      if ids.length < 2 then none
      else some (.collidingV2SignalId e.1.2 ids (uniq (e.2.filterMap (·.provenance))))

/-- registry.rs:342-355: the attributes of one attribute group that its lineage does not mention. `names` is the
attribute name index; an index out of range panics in the code, here the reference is skipped. -/
def rootAttrs (names : List String) (g : Grp) : List (String × String) :=
  match g.lineage with
  | none => []
  | some l => g.attributes.filterMap fun a =>
    match names[a]? with
    | some n => if n ∈ l.attrs then none else some (n, g.id)
    | none => none

/-- registry.rs:328-367 `check_root_attribute_id_duplicates`. -/
def checkRootAttrs (groups : List Grp) (names : List String) : List CheckErr :=
  (mgroup ((groups.filter (fun g => decide (g.type = .attributeGroup))).flatMap (rootAttrs names))).filterMap fun e =>
    if e.2.length > 1 then some (.duplicateAttributeId e.1 e.2) else none

/-- registry.rs:1379-1394: what reaches the checks, sorted by id, without the internal groups (the renumbering of
attribute references is `Verif.Resolver.cleanup`). -/
def published (groups : List Grp) : List Grp :=
  (sortBy (fun a b : Grp => decide (a.id ≤ b.id)) groups).filter
    (fun g => !decide (g.visibility = some .internalVis))

/-- registry.rs:185-231: all checks. -/
def allChecks (groups : List Grp) (names : List String) : List CheckErr :=
  checkUniqueness groups (fun g => some g.id) .duplicateGroupId
  ++ checkUniqueness groups (fun g => if g.isV2Refinement then none else g.metricName) .duplicateMetricName
  ++ checkUniqueness groups (fun g => if g.isV2Refinement then none else g.name) .duplicateGroupName
  ++ checkRootAttrs groups names
  ++ checkCollisions groups

end Verif.Checks
