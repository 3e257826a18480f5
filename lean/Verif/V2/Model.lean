import Verif.Checks.Model
import Verif.Util.Str

/-!
# Definition files of the second version

Models the translation of definition files of the second version into groups of the first: crates/weaver_semconv/src/v2/ and
crates/weaver_semconv/src/semconv.rs:121-167, 317-332.
-/

namespace Verif.V2
open Verif.Resolver (GroupType Visibility)

/-- The types of values the translation only copies: attribute types, examples, levels, stabilities, deprecations, YAML values,
instruments, kinds of spans, bodies, entity associations, imports. -/
structure Payload where
  ty : Type
  ex : Type
  attrLevel : Type
  level : Type
  stab : Type
  depr : Type
  yaml : Type
  instr : Type
  kind : Type
  body : Type
  assoc : Type
  imports : Type

/-- A `BTreeMap<String, YamlValue>` is the list of its entries. -/
abbrev Annot (P : Payload) := List (String × P.yaml)

/-- crates/weaver_semconv/src/v2/mod.rs:38-55 `CommonFields`. -/
structure Common (P : Payload) where
  brief : String
  note : String
  stability : P.stab
  deprecated : Option P.depr
  annotations : Annot P

/-- v2/attribute.rs:22-59 `AttributeRef`. -/
structure AttrRef (P : Payload) where
  ref : String
  brief : Option String
  examples : Option P.ex
  level : Option P.attrLevel
  note : Option String
  stability : Option P.stab
  deprecated : Option P.depr
  annotations : Annot P

/-- v2/attribute.rs:112-129 `AttributeDef`. -/
structure AttrDef (P : Payload) where
  key : String
  type : P.ty
  examples : Option P.ex
  common : Common P

/-- v2/attribute.rs:167-172 `AttributeOrGroupRef`; a `SignalId` is its text. -/
inductive Item (P : Payload) where
  | attr (a : AttrRef P)
  | group (id : String)

/-- v2/span.rs:232-241 `SpanAttributeRef`. -/
structure SpanAttr (P : Payload) where
  base : AttrRef P
  sampling : Option Bool

/-- v2/span.rs:32-37 `SpanAttributeOrGroupRef`. -/
inductive SpanItem (P : Payload) where
  | attr (a : SpanAttr P)
  | group (id : String)

/-- v2/entity.rs:22-37 `Entity`. -/
structure Entity (P : Payload) where
  type : String
  identity : List (AttrRef P)
  description : List (AttrRef P)
  level : Option P.level
  common : Common P

/-- What refinements may refine of the common fields, e.g. v2/entity.rs:61-76. -/
structure Refined (P : Payload) where
  brief : Option String
  note : Option String
  stability : Option P.stab
  deprecated : Option P.depr
  annotations : Annot P

/-- v2/entity.rs:42-77 `EntityRefinement`. -/
structure EntityRef (P : Payload) where
  id : String
  ref : String
  identity : List (AttrRef P)
  description : List (AttrRef P)
  refined : Refined P

/-- v2/event.rs:27-47 `Event`. -/
structure Event (P : Payload) where
  name : String
  attributes : List (Item P)
  assocs : List P.assoc
  level : Option P.level
  common : Common P

/-- v2/event.rs:52-85 `EventRefinement`. -/
structure EventRef (P : Payload) where
  id : String
  ref : String
  attributes : List (Item P)
  assocs : List P.assoc
  refined : Refined P

/-- v2/metric.rs:27-57 `Metric`. -/
structure Metric (P : Payload) where
  name : String
  instrument : P.instr
  unit : String
  attributes : List (Item P)
  assocs : List P.assoc
  level : Option P.level
  common : Common P

/-- v2/metric.rs:62-95 `MetricRefinement`. -/
structure MetricRef (P : Payload) where
  id : String
  ref : String
  attributes : List (Item P)
  assocs : List P.assoc
  refined : Refined P

/-- v2/span.rs:65-91 `Span`; a `SpanName` is its note (v2/span.rs:223-226). -/
structure Span (P : Payload) where
  type : String
  kind : P.kind
  name : String
  attributes : List (SpanItem P)
  assocs : List P.assoc
  level : Option P.level
  common : Common P

/-- v2/span.rs:96-140 `SpanRefinement`. -/
structure SpanRef (P : Payload) where
  id : String
  ref : String
  name : Option String
  attributes : List (SpanItem P)
  assocs : List P.assoc
  refined : Refined P

/-- v2/attribute_group.rs:18-57 `AttributeGroup`. -/
inductive AttrGroup (P : Payload) where
  | internal (id : String) (attributes : List (Item P))
  | open_ (id : String) (attributes : List (Item P)) (common : Common P)

/-- v2/mod.rs:61-97 `SemConvSpecV2`. -/
structure Spec (P : Payload) where
  attributes : List (AttrDef P) := []
  entities : List (Entity P) := []
  events : List (Event P) := []
  metrics : List (Metric P) := []
  spans : List (Span P) := []
  groups : List (AttrGroup P) := []
  entityRefs : List (EntityRef P) := []
  eventRefs : List (EventRef P) := []
  metricRefs : List (MetricRef P) := []
  spanRefs : List (SpanRef P) := []
  imports : Option P.imports := none

/-! ### The first version -/

/-- attribute.rs `AttributeRole`. -/
inductive Role where
  | identifying
  | descriptive
  deriving DecidableEq

/-- attribute.rs `AttributeSpec`. -/
inductive AttrSpec (P : Payload) where
  | ref (ref : String) (brief : Option String) (examples : Option P.ex) (tag : Option String) (level : Option P.attrLevel)
      (sampling : Option Bool) (note : Option String) (stability : Option P.stab) (deprecated : Option P.depr) (pre : Bool)
      (annotations : Option (Annot P)) (role : Option Role)
  | id (id : String) (type : P.ty) (brief : Option String) (examples : Option P.ex) (tag : Option String)
      (level : Option P.attrLevel) (sampling : Option Bool) (note : String) (stability : Option P.stab)
      (deprecated : Option P.depr) (annotations : Option (Annot P)) (role : Option Role)

/-- group.rs:33-166 `GroupSpec`. -/
structure Group (P : Payload) where
  id : String := ""
  type : GroupType
  brief : String
  note : String := ""
  pre : String := ""
  extend : Option String := none
  stability : Option P.stab := none
  deprecated : Option P.depr := none
  attributes : List (AttrSpec P) := []
  kind : Option P.kind := none
  events : List String := []
  metricName : Option String := none
  instrument : Option P.instr := none
  unit : Option String := none
  name : Option String := none
  displayName : Option String := none
  body : Option P.body := none
  annotations : Option (Annot P) := none
  assocs : List P.assoc := []
  includes : List String := []
  visibility : Option Visibility := none
  isV2 : Bool := false
  spanName : Option String := none
  level : Option P.level := none

/-- semconv.rs `SemConvSpecV1`. -/
structure SpecV1 (P : Payload) where
  groups : List (Group P)
  imports : Option P.imports

variable {P : Payload}

/-- The `if self.annotations.is_empty() { None } else { Some(..) }` of all translations. -/
def annot (a : Annot P) : Option (Annot P) := if a.isEmpty then none else some a

/-- v2/attribute.rs:64-83 `into_v1_attribute` and 86-105 `into_v1_attribute_with_role`. -/
def AttrRef.toV1 (a : AttrRef P) (role : Option Role) : AttrSpec P :=
  .ref a.ref a.brief a.examples none a.level none a.note a.stability a.deprecated false (annot a.annotations) role

/-- v2/attribute.rs:134-153; `none` stands for the default requirement level. -/
def AttrDef.toV1 (a : AttrDef P) : AttrSpec P :=
  .id a.key a.type (some a.common.brief) a.examples none none none a.common.note (some a.common.stability) a.common.deprecated
    (annot a.common.annotations) none

/-- v2/span.rs:246-265. -/
def SpanAttr.toV1 (a : SpanAttr P) : AttrSpec P :=
  .ref a.base.ref a.base.brief a.base.examples none a.base.level a.sampling a.base.note a.base.stability a.base.deprecated false
    (annot a.base.annotations) none

/-- v2/attribute.rs:183-190: one reference. -/
def splitStep (acc : List (AttrSpec P) × List String) : Item P → List (AttrSpec P) × List String
  | .attr a => (acc.1 ++ [a.toV1 none], acc.2)
  | .group g => (acc.1, acc.2 ++ [g])

/-- v2/attribute.rs:177-193 `split_attributes_and_groups`. -/
def split (l : List (Item P)) : List (AttrSpec P) × List String := l.foldl splitStep ([], [])

/-- v2/span.rs:48-57: one reference. -/
def splitSpanStep (acc : List (AttrSpec P) × List String) : SpanItem P → List (AttrSpec P) × List String
  | .attr a => (acc.1 ++ [a.toV1], acc.2)
  | .group g => (acc.1, acc.2 ++ [g])

/-- v2/span.rs:42-60 `split_span_attributes_and_groups`. -/
def splitSpan (l : List (SpanItem P)) : List (AttrSpec P) × List String := l.foldl splitSpanStep ([], [])

/-- v2/entity.rs:82-122. -/
def Entity.toV1 (e : Entity P) : Group P where
  id := "entity." ++ e.type
  type := .entity
  brief := e.common.brief
  note := e.common.note
  stability := some e.common.stability
  deprecated := e.common.deprecated
  attributes := e.identity.map (AttrRef.toV1 · (some .identifying)) ++ e.description.map (AttrRef.toV1 · (some .descriptive))
  name := some e.type
  annotations := annot e.common.annotations
  isV2 := true
  level := e.level

/-- v2/entity.rs:128-172. -/
def EntityRef.toV1 (e : EntityRef P) : Group P where
  id := e.id
  type := .entity
  brief := e.refined.brief.getD ""
  note := e.refined.note.getD ""
  extend := some ("entity." ++ e.ref)
  stability := e.refined.stability
  deprecated := e.refined.deprecated
  attributes := e.identity.map (AttrRef.toV1 · (some .identifying)) ++ e.description.map (AttrRef.toV1 · (some .descriptive))
  name := some e.id
  annotations := annot e.refined.annotations
  isV2 := true

/-- v2/event.rs:90-122. -/
def Event.toV1 (e : Event P) : Group P where
  id := "event." ++ e.name
  type := .event
  brief := e.common.brief
  note := e.common.note
  includes := (split e.attributes).2
  stability := some e.common.stability
  deprecated := e.common.deprecated
  attributes := (split e.attributes).1
  name := some e.name
  annotations := annot e.common.annotations
  assocs := e.assocs
  isV2 := true
  level := e.level

/-- v2/event.rs:128-160. -/
def EventRef.toV1 (e : EventRef P) : Group P where
  id := e.id
  type := .event
  brief := e.refined.brief.getD ""
  note := e.refined.note.getD ""
  extend := some ("event." ++ e.ref)
  includes := (split e.attributes).2
  stability := e.refined.stability
  deprecated := e.refined.deprecated
  attributes := (split e.attributes).1
  name := some e.id
  annotations := annot e.refined.annotations
  assocs := e.assocs
  isV2 := true

/-- v2/metric.rs:100-132. -/
def Metric.toV1 (m : Metric P) : Group P where
  id := "metric." ++ m.name
  type := .metric
  brief := m.common.brief
  note := m.common.note
  includes := (split m.attributes).2
  stability := some m.common.stability
  deprecated := m.common.deprecated
  attributes := (split m.attributes).1
  metricName := some m.name
  instrument := some m.instrument
  unit := some m.unit
  annotations := annot m.common.annotations
  assocs := m.assocs
  isV2 := true
  level := m.level

/-- v2/metric.rs:138-170. -/
def MetricRef.toV1 (m : MetricRef P) : Group P where
  id := m.id
  type := .metric
  brief := m.refined.brief.getD ""
  note := m.refined.note.getD ""
  extend := some ("metric." ++ m.ref)
  includes := (split m.attributes).2
  stability := m.refined.stability
  deprecated := m.refined.deprecated
  attributes := (split m.attributes).1
  annotations := annot m.refined.annotations
  assocs := m.assocs
  isV2 := true

/-- v2/span.rs:145-177. -/
def Span.toV1 (s : Span P) : Group P where
  id := "span." ++ s.type
  type := .span
  brief := s.common.brief
  note := s.common.note
  includes := (splitSpan s.attributes).2
  stability := some s.common.stability
  deprecated := s.common.deprecated
  attributes := (splitSpan s.attributes).1
  kind := some s.kind
  name := some s.type
  annotations := annot s.common.annotations
  assocs := s.assocs
  isV2 := true
  spanName := some s.name
  level := s.level

/-- v2/span.rs:183-215. -/
def SpanRef.toV1 (s : SpanRef P) : Group P where
  id := s.id
  type := .span
  brief := s.refined.brief.getD ""
  note := s.refined.note.getD ""
  extend := some ("span." ++ s.ref)
  includes := (splitSpan s.attributes).2
  stability := s.refined.stability
  deprecated := s.refined.deprecated
  attributes := (splitSpan s.attributes).1
  name := some s.id
  annotations := annot s.refined.annotations
  assocs := s.assocs
  isV2 := true
  spanName := s.name

/-- v2/attribute_group.rs:62-130. -/
def AttrGroup.toV1 : AttrGroup P → Group P
  | .internal i attrs =>
    { id := i, type := .attributeGroup, brief := i, includes := (split attrs).2, attributes := (split attrs).1,
      visibility := some .internalVis, isV2 := true }
  | .open_ i attrs c =>
    { id := i, type := .attributeGroup, brief := c.brief, note := c.note, includes := (split attrs).2,
      stability := some c.stability, deprecated := c.deprecated, attributes := (split attrs).1,
      annotations := annot c.annotations, visibility := some .publicVis, isV2 := true }

/-- v2/mod.rs:255-270: the group of the attribute definitions. -/
def attributeGroup (file : String) (l : List (AttrDef P)) : List (Group P) :=
  if l.isEmpty then []
  else [{ id := "registry." ++ file, type := .attributeGroup, attributes := l.map AttrDef.toV1, brief := "<synthetic v2>", isV2 := true }]

/-- v2/mod.rs:250-305 `into_v1_specification`. -/
def Spec.toV1 (file : String) (s : Spec P) : SpecV1 P where
  groups := attributeGroup file s.attributes ++ s.entities.map Entity.toV1 ++ s.events.map Event.toV1 ++ s.metrics.map Metric.toV1 ++
    s.spans.map Span.toV1 ++ s.groups.map AttrGroup.toV1 ++ s.entityRefs.map EntityRef.toV1 ++ s.eventRefs.map EventRef.toV1 ++
    s.metricRefs.map MetricRef.toV1 ++ s.spanRefs.map SpanRef.toV1
  imports := s.imports

/-! ### The name of a file -/

/-- `Path::file_stem` of a single normal component: what is before the last dot, unless this is the first character. -/
def stem (s : List Char) : List Char :=
  match s.reverse.dropWhile (· ≠ '.') with
  | [] => s
  | _ :: before => if before = [] then s else before.reverse

/-- `Path::components` keeps of a path the parts between slashes without the empty ones and `.`; `Component::Normal` are these
without `..`. -/
def normals (path : List Char) : List (List Char) :=
  (Util.splitWhen (· = '/') path).filter fun c => c ≠ [] && c ≠ ['.'] && c ≠ ['.', '.']

/-- semconv.rs:145-167 `provenance_path_to_name`. `need_dot` is whether there was a part before. -/
def fileName (path : List Char) : List Char :=
  ((normals path).foldl (fun (acc : List Char × Bool) c => (acc.1 ++ (if acc.2 then ['.'] else []) ++ stem c, true)) ([], false)).1

/-- crates/weaver_resolver/src/registry.rs:371-415 `group_from_spec`: what the checks of a resolved registry read of a group that
extends nothing. -/
def Group.unresolved (g : Group P) (provenance : String) : Checks.Grp where
  id := g.id
  type := g.type
  name := g.name
  metricName := g.metricName
  lineage := some { provenance }
  isV2 := g.isV2
  visibility := g.visibility

end Verif.V2
