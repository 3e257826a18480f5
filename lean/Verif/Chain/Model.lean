import Verif.Resolver.Pipeline
/-
Model of what a resolved registry offers to the registries that depend on it: the lookups of
crates/weaver_resolver/src/attribute.rs:503-531 and 579-732 and crates/weaver_resolver/src/dependency.rs:72-112 and 226-526,
over the result of Verif.Resolver.Pipeline and over published v2 schemas.
-/
namespace Verif.Chain
open Verif.Util Verif.Resolver Verif.Pipeline Verif.Imports

/-! ### Registries resolved from files (v1) -/

/-- crates/weaver_resolved_schema/src/catalog.rs `RootAttribute`. -/
structure Root1 where
  attr : Attr
  group : String
  isDef : Bool
deriving DecidableEq

/-- A group of a resolved schema, with its references into the catalog. -/
structure Group1 where
  grp : Imports.Grp
  refs : List Nat
deriving DecidableEq

/-- crates/weaver_resolved_schema/src/lib.rs `ResolvedTelemetrySchema`: a resolved v1 schema. `deps` are the URLs it was
built from, in the order of the set; `recorded` are the association origins. Simplification: the text of its URL is a
schema URL. -/
structure Schema1 where
  url : SchemaUrl
  deps : List SchemaUrl := []
  groups : List Group1 := []
  attrs : List Attr := []
  roots : List (String × Root1) := []
  recorded : List (String × Imports.Origins) := []

/-- attribute.rs:509-514: the text that stands for a source. -/
def sourceText : Src → String
  | .loc g => g
  | .dep u => "v2_dependency." ++ u.name

/-- registry.rs:400 and 1360-1395: a published group. A group of the registry's own files has the provenance of its file,
in this registry; an imported one keeps its own. -/
def publishedGroup (url : SchemaUrl) (g : RGroup Body) : Group1 :=
  { refs := g.attrs
    grp := match g.rest with
      | .own u => { (Body.own u).asImport with origin := u.lineage.map (fun _ => url), lin := ((Body.own u).asCheck g.attrs).lineage }
      | .imported i => i }

/-- lib.rs:425-448 with attribute.rs:503-531: the schema of a registry that was resolved. -/
def ofOutput (url : SchemaUrl) (deps : List SchemaUrl) (out : Output) : Schema1 :=
  { url := url, deps := deps
    groups := out.groups.map (publishedGroup url)
    attrs := out.attrs
    roots := out.roots.map (fun p => (p.1, { attr := p.2.attr, group := sourceText p.2.src, isDef := p.2.isDef }))
    recorded := out.origins }

/-- attribute.rs:608-641 and dependency.rs:280-305: the registry a root attribute comes from, when it is found. -/
def rootUrl (s : Schema1) (group : String) : Option SchemaUrl :=
  match stripOpt "v2_dependency." group with
  | some n => (s.deps.find? (fun u => decide (u.name = n))).or
      (s.groups.findSome? (fun g => match g.grp.origin with
        | some u => if u.name = n then some u else none
        | none => none))
  | none => (s.groups.find? (fun g => decide (g.grp.id = group))).bind (fun g => g.grp.origin)

/-- attribute.rs:662-663: the attribute a reference stands for, if it has that name. -/
def namedAttr (s : Schema1) (k : String) (i : Nat) : Option Attr :=
  match s.attrs[i]? with
  | some a => if a.name = k then some a else none
  | none => none

/-- attribute.rs:604-685 `lookup_attribute` of a v1 schema, with the URL of the schema instead of a `Local` source
(579-602; upgrade_attribute_with_source, which asks the schema without that step, replaces the source). -/
def lookupAttr1 (s : Schema1) (k : String) : Option (Attr × SchemaUrl) :=
  match aget k s.roots with
  | some r => if r.isDef then some (r.attr, (rootUrl s r.group).getD s.url) else none
  | none => s.groups.findSome? (fun g =>
      (g.refs.findSome? (namedAttr s k)).map (fun a => (a, g.grp.origin.getD s.url)))

/-- dependency.rs:270-331 `find_attribute_source`. -/
def findSource (s : Schema1) (k : String) : SchemaUrl :=
  match aget k s.roots with
  | some r => (rootUrl s r.group).getD s.url
  | none =>
    match s.groups.find? (fun g => g.refs.any (fun i => (namedAttr s k i).isSome)) with
    | some g => g.grp.origin.getD s.url
    | none => s.url

/-- dependency.rs:248-261: an attribute as the specification a refinement inherits. -/
def specOf (a : Attr) : AttrSpec :=
  .id a.name
    { type := a.type, brief := some a.brief, examples := a.examples, tag := a.tag, requirementLevel := a.requirementLevel
      samplingRelevant := a.samplingRelevant, note := a.note, stability := a.stability, deprecated := a.deprecated
      annotations := a.annotations, role := a.role }

/-- The attributes of a group (`filter_map` of `catalog.attribute`). -/
def attrsOf (s : Schema1) (g : Group1) : List Attr := g.refs.filterMap (fun i => s.attrs[i]?)

/-- dependency.rs:75-93 and 233-269 `lookup_group_summary` of a v1 schema. -/
def lookupGroup1 (s : Schema1) (id : String) : Option Summary :=
  (s.groups.find? (fun g => decide (g.grp.id = id))).map (fun g =>
    { type := g.grp.type, brief := g.grp.brief, note := g.grp.fields.note, stability := g.grp.fields.stability
      deprecated := g.grp.fields.deprecated, metricName := g.grp.metricName, instrument := g.grp.fields.instrument
      unit := g.grp.fields.unit, reqLevel := g.grp.fields.reqLevel, spanKind := g.grp.fields.spanKind
      spanName := g.grp.fields.spanName
      attrs := (attrsOf s g).map (fun a => { spec := specOf a, origin := some (findSource s a.name) })
      annotations := g.grp.annotations, isLocal := false })

/-- imports.rs:372-388 and 459-473: what importing sees of a v1 schema. -/
def asImport1 (s : Schema1) : Imports.V1 :=
  { url := some s.url
    groups := s.groups.map (fun g => { g.grp with attrs := (attrsOf s g).map (fun a => (a, findSource s a.name)) })
    recorded := s.recorded }

/-! ### Published schemas (v2) -/

/-- crates/weaver_semconv/src/v2/mod.rs `CommonFields`. -/
structure Common2 where
  brief : String := ""
  note : String := ""
  stability : String := "stable"
  deprecated : Option String := none
  annotations : Annots := []
deriving DecidableEq

/-- crates/weaver_resolved_schema/src/v2/attribute.rs:18-40 `Attribute`, with its provenance: an index into the
dependencies. -/
structure Attr2 where
  key : String
  type : String
  examples : Option String := none
  common : Common2 := {}
  source : Option Nat := none
deriving DecidableEq

/-- A reference of a signal into the catalog. -/
structure Ref2 where
  base : Nat
  level : String := "recommended"
  sampling : Option Bool := none
deriving DecidableEq

/-- A published signal or attribute group. The attributes of an entity are its identity (`refs`) and its `description`.
`instrument` and `unit` are those of a metric, `kind` and `spanName` those of a span. -/
structure Signal2 where
  id : String
  common : Common2 := {}
  level : Option String := none
  refs : List Ref2 := []
  description : List Ref2 := []
  instrument : String := ""
  unit : String := ""
  kind : String := ""
  spanName : String := ""
  source : Option Nat := none
  assocs : List (String × Option Nat) := []
  path : String := ""
deriving DecidableEq

/-- crates/weaver_resolved_schema/src/v2/mod.rs `ResolvedTelemetrySchema`: a published schema. `attributes` are the
references of its registry to the attributes it lists. -/
structure Schema2 where
  url : SchemaUrl
  deps : List SchemaUrl := []
  catalog : List Attr2 := []
  attributes : List Nat := []
  entities : List Signal2 := []
  metrics : List Signal2 := []
  events : List Signal2 := []
  spans : List Signal2 := []
  attributeGroups : List Signal2 := []
  refinedEntities : List Signal2 := []

/-- dependency.rs:340-348 `v2_source_url` and attribute.rs:714-724. -/
def sourceUrl2 (s : Schema2) (src : Option Nat) : SchemaUrl :=
  match src with
  | some i => (s.deps[i]?).getD s.url
  | none => s.url

/-- attribute.rs:693-711 and imports.rs:580-604 `convert_v2_attribute`. -/
def attrOf2 (a : Attr2) (level : String) (sampling : Option Bool) (role : Option Role) : Attr :=
  { name := a.key, type := a.type, brief := a.common.brief, examples := a.examples, requirementLevel := level
    samplingRelevant := sampling, note := a.common.note, stability := some a.common.stability
    deprecated := a.common.deprecated, annotations := some a.common.annotations, role := role }

/-- attribute.rs:687-732 `lookup_attribute` of a v2 schema. -/
def lookupAttr2 (s : Schema2) (k : String) : Option (Attr × SchemaUrl) :=
  s.attributes.findSome? (fun i => match s.catalog[i]? with
    | some a => if a.key = k then some (attrOf2 a "required" none none, sourceUrl2 s a.source) else none
    | none => none)

/-- The attributes of a signal in their v1 form: dependency.rs:353-378, 410-431, 460-468, 481-489, 498-513 and
imports.rs:772-916. Simplification: importing fails on a reference that has no attribute; here it is skipped. -/
def refAttrs2 (s : Schema2) (role : Option Role) (sampling : Bool) (rs : List Ref2) : List (Attr × SchemaUrl) :=
  rs.filterMap (fun r => (s.catalog[r.base]?).map (fun a =>
    (attrOf2 a r.level (if sampling then r.sampling else none) role, sourceUrl2 s a.source)))

/-- The attributes of an entity: dependency.rs:410-431, imports.rs:838-847. -/
def entityAttrs2 (s : Schema2) (e : Signal2) : List (Attr × SchemaUrl) :=
  refAttrs2 s (some .identifying) false e.refs ++ refAttrs2 s (some .descriptive) false e.description

/-- dependency.rs:382-404 `signal_summary`. -/
def summary2 (t : GroupType) (x : Signal2) (attrs : List (Attr × SchemaUrl)) : Summary :=
  { type := t, brief := x.common.brief, note := x.common.note, stability := some x.common.stability
    deprecated := x.common.deprecated, metricName := none, instrument := none, unit := none, reqLevel := x.level
    spanKind := none, spanName := none, attrs := attrs.map (fun p => { spec := specOf p.1, origin := some p.2 })
    annotations := some x.common.annotations, isLocal := false }

/-- dependency.rs:447-452 `find`: by the id without the prefix, else by the id. -/
def find2 (xs : List Signal2) (id pfx : String) : Option Signal2 :=
  ((stripOpt pfx id).bind (fun n => xs.find? (fun x => decide (x.id = n)))).or (xs.find? (fun x => decide (x.id = id)))

/-- dependency.rs:440-526 `lookup_group_summary` of a v2 schema. -/
def lookupGroup2 (s : Schema2) (id : String) : Option Summary :=
  match find2 s.entities id "entity." with
  | some e => some (summary2 .entity e (entityAttrs2 s e))
  | none => match find2 s.metrics id "metric." with
    | some m => some { summary2 .metric m (refAttrs2 s none false m.refs) with
        metricName := some m.id, instrument := some m.instrument, unit := some m.unit }
    | none => match find2 s.events id "event." with
      | some e => some (summary2 .event e (refAttrs2 s none false e.refs))
      | none => match find2 s.spans id "span." with
        | some x => some { summary2 .span x (refAttrs2 s none true x.refs) with
            spanKind := some x.kind, spanName := some x.spanName }
        | none => none

/-- imports.rs:655-691 and 768-916: a signal as importing sees it. -/
def sigOf (x : Signal2) (attrs : List (Attr × SchemaUrl)) : Imports.Sig :=
  { id := x.id, annotations := x.common.annotations, source := x.source, assocs := x.assocs, attrs := attrs, path := x.path
    brief := x.common.brief
    fields := { note := x.common.note, stability := some x.common.stability, deprecated := x.common.deprecated
                instrument := some x.instrument, unit := some x.unit, reqLevel := x.level, spanKind := some x.kind
                spanName := some x.spanName } }

/-- What importing sees of a v2 schema. -/
def asImport2 (s : Schema2) : Imports.V2 :=
  { url := s.url, deps := s.deps
    metrics := s.metrics.map (fun x => sigOf x (refAttrs2 s none false x.refs))
    events := s.events.map (fun x => sigOf x (refAttrs2 s none false x.refs))
    entities := s.entities.map (fun x => sigOf x (entityAttrs2 s x))
    spans := s.spans.map (fun x => sigOf x (refAttrs2 s none true x.refs))
    attributeGroups := s.attributeGroups.map (fun x => sigOf x (refAttrs2 s none false x.refs))
    refinedEntities := s.refinedEntities.map (fun x => sigOf x (entityAttrs2 s x)) }

/-! ### Dependencies -/

/-- crates/weaver_resolver/src/lib.rs:51-55 `WeaverResolvedSchema` and dependency.rs:98-103 `ResolvedDependency`. -/
inductive Schema where
  | v1 (s : Schema1)
  | v2 (s : Schema2)

/-- lib.rs:57-66: the URL of a schema. -/
def Schema.url : Schema → SchemaUrl
  | .v1 s => s.url
  | .v2 s => s.url

/-- lib.rs:68-76: the URLs it was built from. -/
def Schema.deps : Schema → List SchemaUrl
  | .v1 s => s.deps
  | .v2 s => s.deps

/-- attribute.rs:579-602: what a schema offers under an attribute name: the attribute and the registry it comes from. -/
def Schema.offers : Schema → String → Option (Attr × SchemaUrl)
  | .v1 s, k => lookupAttr1 s k
  | .v2 s, k => lookupAttr2 s k

/-- A schema as the phases of resolution see it. -/
def Schema.asDep : Schema → Pipeline.Dep
  | .v1 s => { group := lookupGroup1 s, attr := fun k => .ok (lookupAttr1 s k), imp := .v1 (asImport1 s) }
  | .v2 s => { group := lookupGroup2 s, attr := fun k => .ok (lookupAttr2 s k), imp := .v2 (asImport2 s) }

/-! ### Registries over registries -/

/-- A registry with everything below it: one resolved from its files, over registries already resolved, or a published
schema. `cache` are the resolved registries that resolution could look up (`SchemaCacheLookup`), `out` what it made. -/
inductive Node where
  | files (url : SchemaUrl) (inc : Bool) (specs : List UGroup) (blocks : List Imports.Block) (deps : List Node)
      (cache : List Node) (listed : List SchemaUrl) (out : Output)
  | published (s : Schema2)

/-- The resolved schema. -/
def Node.schema : Node → Schema
  | .files url _ _ _ _ _ listed out => .v1 (ofOutput url listed out)
  | .published s => .v2 s

/-- Its URL. -/
def Node.url (n : Node) : SchemaUrl := n.schema.url

/-- What resolution reads of the registries a registry is resolved over. lib.rs:403-449: the chosen versions come from the
URLs the dependencies were built from; a schema of the cache is found by its URL. -/
def envOf (glob : String → String → Bool) (deps cache : List Node) : Env :=
  { glob := glob
    deps := deps.map (fun d => d.schema.asDep)
    chosen := noteAllLenient (deps.flatMap (fun d => d.url :: d.schema.deps))
    schema := fun u => (cache.find? (fun m => decide (m.url = u))).map (fun m => m.schema.asDep) }

/-- The registry was resolved, and so was every registry below it. lib.rs:403-418: the URLs a registry was built from are
those of its dependencies and the ones these were built from. -/
inductive Resolves (le : Attr → Attr → Bool) (glob : String → String → Bool) : Node → Prop
  | published (s : Schema2) : Resolves le glob (.published s)
  | files (url : SchemaUrl) (inc : Bool) (specs : List UGroup) (blocks : List Imports.Block) (deps cache : List Node)
      (listed : List SchemaUrl) (out : Output) :
      (∀ d ∈ deps, Resolves le glob d) → (∀ m ∈ cache, Resolves le glob m) →
      (∀ u, u ∈ listed ↔ ∃ d ∈ deps, u = d.url ∨ u ∈ d.schema.deps) →
      resolveRegistry le (envOf glob deps cache) inc specs blocks = .ok out →
      Resolves le glob (.files url inc specs blocks deps cache listed out)

end Verif.Chain
