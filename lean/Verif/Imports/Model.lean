import Verif.Util.Multi
import Verif.Resolver.Merge
import Verif.Resolver.Refs
import Verif.Checks.Model
/-
Model of imports and entity associations: crates/weaver_resolver/src/imports.rs, the entity lookup of
crates/weaver_resolver/src/dependency.rs:114-223, and `resolve_dependency_imports` / `resolve_entity_associations` of
crates/weaver_resolver/src/registry.rs:434-624.

The attributes of a group to import are carried along here (`attrs`); their registration in the attribute catalog, with
the errors it can raise, is in Verif.Resolver.Pipeline. Left out: `display_name`, `body` and `events` of a group.
-/
namespace Verif.Imports
open Verif.Util Verif.Resolver

/-- Where each entity association of a signal was resolved (`BTreeMap<String, SchemaUrl>`). -/
abbrev Origins := List (String × SchemaUrl)

/-- Fields of a group or signal that are only copied (crates/weaver_resolved_schema/src/registry.rs:70-190), as opaque
texts. -/
structure Fields where
  note : String := ""
  stability : Option String := none
  deprecated : Option String := none
  instrument : Option String := none
  unit : Option String := none
  reqLevel : Option String := none
  spanKind : Option String := none
  spanName : Option String := none
deriving DecidableEq

/-- The parts of `Group` (crates/weaver_resolved_schema/src/registry.rs:70-190) importing reads. `origin` is the schema
URL of its provenance (`Group::provenance`, registry.rs:509-513), `refines` says that its lineage extends a group of its
own type, `assocs` are the entity names its associations mention (`referenced_entities`), in order. `visibility` is that
of the `UnresolvedGroup`. `attrs` are the attributes the group's references stand for in its own catalog, with the registry
each comes from (dependency.rs:270-331 `find_attribute_source`), `lin` is its lineage as the final checks read it; both
are only carried along, like `fields`. -/
structure Grp where
  id : String
  type : GroupType
  name : Option String := none
  metricName : Option String := none
  annotations : Option Annots := none
  origin : Option SchemaUrl := none
  isV2 : Bool := false
  refines : Bool := false
  assocs : List String := []
  visibility : Option Visibility := none
  brief : String := ""
  attrs : List (Attr × SchemaUrl) := []
  lin : Option Checks.Lin := none
  fields : Fields := {}
deriving DecidableEq

/-- imports.rs:42-49 `ImportField`. -/
inductive Field where
  | metrics | events | spans | entities | attributeGroups
deriving DecidableEq, Repr

/-- imports.rs:54-63 `ImportField::of`. -/
def Field.of : GroupType → Option Field
  | .metric => some .metrics
  | .metricGroup => some .metrics
  | .event => some .events
  | .span => some .spans
  | .entity => some .entities
  | .attributeGroup => some .attributeGroups
  | .scope => none
  | .undefined => none

/-- imports.rs:66-74 `ImportField::all`. -/
def Field.all : List Field := [.metrics, .events, .spans, .entities, .attributeGroups]

/-- imports.rs:77-85 `ImportField::name`. -/
def Field.name : Field → String
  | .metrics => "metrics"
  | .events => "events"
  | .spans => "spans"
  | .entities => "entities"
  | .attributeGroups => "attribute_groups"

/-- One `imports` block (crates/weaver_semconv/src/semconv.rs `Imports`, crates/weaver_semconv/src/group.rs
`ImportsWithProvenance`). A pattern is its glob text; `path` is the path of its provenance. -/
structure Block where
  path : String
  metrics : List String := []
  events : List String := []
  spans : List String := []
  entities : List String := []
  attributeGroups : List String := []
deriving DecidableEq

/-- imports.rs:88-97 `ImportField::patterns`. -/
def Block.patterns (b : Block) : Field → List String
  | .metrics => b.metrics
  | .events => b.events
  | .spans => b.spans
  | .entities => b.entities
  | .attributeGroups => b.attributeGroups

/-- imports.rs:103-105 `is_implicit_import`. -/
def Block.implicit (b : Block) : Bool := decide (b.path = "--include-unreferenced")

/-- The explicit blocks: imports.rs:118-119, 332-333 and 736-737. -/
def explicitBlocks (bs : List Block) : List Block := bs.filter (fun b => !b.implicit)

/-- The patterns of one field over some blocks: imports.rs:122-125 and 224-230. -/
def patternsOf (bs : List Block) (f : Field) : List String := bs.flatMap (·.patterns f)

/-- `str::strip_prefix`. -/
def stripOpt (p s : String) : Option String :=
  if p.toList.isPrefixOf s.toList then some (String.ofList (s.toList.drop p.toList.length)) else none

/-- imports.rs:167-209 `import_match_keys`. -/
def matchKeys (g : Grp) : List String :=
  if g.isV2 then
    match g.type with
    | .attributeGroup =>
      g.id :: ((stripOpt "registry." g.id).toList ++ (stripOpt "attribute_group." g.id).toList)
    | .span => g.id :: (g.name.toList ++ (stripOpt "span." g.id).toList)
    | .event => g.id :: (g.name.toList ++ (stripOpt "event." g.id).toList)
    | .metric => g.id :: (g.metricName.toList ++ (stripOpt "metric." g.id).toList)
    | .metricGroup => g.id :: (g.metricName.toList ++ (stripOpt "metric." g.id).toList)
    | .entity => g.id :: (g.name.toList ++ (stripOpt "entity." g.id).toList)
    | .scope => []
    | .undefined => []
  else
    match g.type with
    | .attributeGroup => [g.id]
    | .span => [g.id]
    | .event => g.name.toList
    | .entity =>
      let keys := g.id :: (stripOpt "entity." g.id).toList
      match g.name with
      | some n => if n ∈ keys then keys else keys ++ [n]
      | none => keys
    | .metric => g.metricName.toList
    | .metricGroup => []
    | .scope => []
    | .undefined => []

/-- A published v2 signal (crates/weaver_resolved_schema/src/v2/{metric,event,entity,span,attribute_group}.rs): its id
(metric or event name, entity or span type, attribute group id), annotations, provenance source (an index into the
dependency table), entity association leaves, and its attributes in the v1 form importing gives them (imports.rs:580-652
`convert_v2_attribute`, `import_v2_attributes`) with the registry each comes from, the path of its provenance, its brief
and the fields that are only copied. -/
structure Sig where
  id : String
  annotations : Annots := []
  source : Option Nat := none
  assocs : List (String × Option Nat) := []
  attrs : List (Attr × SchemaUrl) := []
  path : String := ""
  brief : String := ""
  fields : Fields := {}
deriving DecidableEq

/-- A resolved v1 schema: its URL (`none` when the text is not a schema URL), groups, and recorded association origins
by group id. -/
structure V1 where
  url : Option SchemaUrl
  groups : List Grp
  recorded : List (String × Origins) := []
deriving DecidableEq

/-- A resolved v2 schema. `refinedEntities` are the entity refinements. -/
structure V2 where
  url : SchemaUrl
  deps : List SchemaUrl := []
  metrics : List Sig := []
  events : List Sig := []
  entities : List Sig := []
  spans : List Sig := []
  attributeGroups : List Sig := []
  refinedEntities : List Sig := []
deriving DecidableEq

/-- dependency.rs:98-103 `ResolvedDependency`. -/
inductive Dep where
  | v1 (s : V1)
  | v2 (s : V2)
deriving DecidableEq

/-- dependency.rs:125-131 `EntityLocation`. -/
structure Loc where
  origin : SchemaUrl
  excluded : Bool
deriving DecidableEq

/-- dependency.rs:141-157 `lookup_entity` of a v1 schema. -/
def lookupEntityV1 (s : V1) (name : String) : Option Loc :=
  match s.url with
  | none => none
  | some u =>
    match (s.groups.filter (fun g => decide (g.type = .entity))).find? (fun g => decide (name ∈ matchKeys g)) with
    | some g => some { origin := g.origin.getD u, excluded := isExcludedOpt g.annotations }
    | none => none

/-- dependency.rs:340-348 `v2_source_url`. -/
def sourceUrl (s : V2) (src : Option Nat) : SchemaUrl :=
  match src with
  | some i => (s.deps[i]?).getD s.url
  | none => s.url

/-- dependency.rs:159-181 `lookup_entity` of a v2 schema. -/
def lookupEntityV2 (s : V2) (name : String) : Option Loc :=
  match (s.entities.find? (fun e => decide (e.id = name))).or
      (s.refinedEntities.find? (fun e => decide (e.id = name))) with
  | some e => some { origin := sourceUrl s e.source, excluded := isExcluded e.annotations }
  | none => none

/-- dependency.rs:115-120 `ResolvedDependency::lookup_entity`. -/
def Dep.lookupEntity : Dep → String → Option Loc
  | .v1 s, n => lookupEntityV1 s n
  | .v2 s, n => lookupEntityV2 s n

/-- dependency.rs:185-195 `EntityResolution`. -/
inductive Res where
  | found (u : SchemaUrl)
  | priv
  | ambiguous (us : List SchemaUrl)
  | unknown
deriving DecidableEq

/-- dependency.rs:209-216: one answer. -/
def weigh (acc : List SchemaUrl × Bool) (l : Loc) : List SchemaUrl × Bool :=
  if l.excluded then (acc.1, true)
  else if l.origin ∈ acc.1 then acc
  else (acc.1 ++ [l.origin], acc.2)

/-- dependency.rs:206-223 `resolve_entity`. -/
def resolveEntity (deps : List Dep) (name : String) : Res :=
  let r := (deps.filterMap (·.lookupEntity name)).foldl weigh ([], false)
  match r.1 with
  | [] => if r.2 then .priv else .unknown
  | [u] => .found u
  | us => .ambiguous us

/-- What importing reads besides the blocks: `glob p k` says that pattern `p` matches the text `k` (the globset crate),
`chosen` the versions chosen by conflict resolution, `schema` the schema cache (`SchemaCacheLookup`). -/
structure World where
  glob : String → String → Bool
  chosen : Chosen := []
  schema : SchemaUrl → Option Dep := fun _ => none

/-- `GlobSet::is_match` on the patterns of one field. -/
def fieldMatch (w : World) (bs : List Block) (f : Field) (key : String) : Bool :=
  (patternsOf bs f).any (fun p => w.glob p key)

/-- imports.rs:251-259 `ImportMatchers::matches`. -/
def blocksMatch (w : World) (bs : List Block) (g : Grp) : Bool :=
  match Field.of g.type with
  | none => false
  | some f => (matchKeys g).any (fieldMatch w bs f)

/-- Errors of this part. -/
inductive IErr where
  | excluded (id : String) (type : GroupType) (usedIn : String)
  | invalidUrl
  | unmatched (pattern : String) (signal : String)
  | ambiguous (group : String) (name : String) (registries : List SchemaUrl)
  | unresolved (group : String) (name : String)
deriving DecidableEq

/-- imports.rs:512-522 `ImportDecision`. -/
inductive Decision where
  | include
  | skip
  | error (e : IErr)
deriving DecidableEq

/-- The error a decision reports (imports.rs:362-365 and 759-762). -/
def Decision.err? : Decision → Option IErr
  | .error e => some e
  | .include => none
  | .skip => none

/-- imports.rs:524-542 `import_decision`. -/
def decision (a : Annots) (explicitly : Bool) (id : String) (t : GroupType) : Decision :=
  if !isExcluded a then .include
  else if explicitly then .error (.excluded id t "imports")
  else .skip

/-- imports.rs:1015-1020 `origin_url`. -/
def originUrl (g : Grp) (fallback : SchemaUrl) : SchemaUrl := g.origin.getD fallback

/-- imports.rs:495-509 `strip_group_type_prefix`. -/
def stripTypePrefix (id : String) : String :=
  (["metric.", "event.", "entity.", "span.", "attribute_group.", "registry."].findSome? (stripOpt · id)).getD id

/-- imports.rs:481-492 `is_same_imported_group`. -/
def sameImported (g c : Grp) : Bool :=
  if g.type ≠ c.type then false
  else if g.metricName.isSome || c.metricName.isSome then decide (g.metricName = c.metricName)
  else if g.name.isSome || c.name.isSome then decide (g.name = c.name)
  else decide (stripTypePrefix g.id = stripTypePrefix c.id)

/-- imports.rs:424-475 `upgrade_imported_group`. -/
def upgradeGroup (w : World) (g : Grp) (fallback : SchemaUrl) : Option Grp :=
  let o := originUrl g fallback
  match aget o.name w.chosen with
  | none => none
  | some c =>
    if c = o then none
    else match resolveVersions o c with
      | .error _ => none
      | .ok win =>
        if win ≠ c then none
        else match w.schema c with
          | some (.v1 s) => s.groups.find? (sameImported g)
          | _ => none

/-- imports.rs:390-399 and 934-942, registry.rs:468-476: the URL upgraded to the chosen version. -/
def upgradeUrl (chosen : Chosen) (u : SchemaUrl) : SchemaUrl :=
  match aget u.name chosen with
  | none => u
  | some c =>
    if c ≠ u then
      match resolveVersions u c with
      | .ok win => win
      | .error _ => u
    else u

/-- imports.rs:269-282 `GroupWithProvenance`. -/
structure Imported where
  group : Grp
  url : SchemaUrl
  origins : Origins := []
deriving DecidableEq

/-- `collect` into a `BTreeMap` (the last value of a key wins). -/
def collectMap (l : Origins) : Origins := l.foldl (fun m e => bins e.1 e.2 m) []

/-- The public answer of a lookup (`filter(|location| !location.excluded).map(|location| location.origin)`). -/
def publicOrigin (l : Option Loc) : Option SchemaUrl :=
  match l with
  | some l => if l.excluded then none else some l.origin
  | none => none

/-- imports.rs:306-323 `v1_association_origins`. -/
def v1Origins (s : V1) (g : Grp) : Origins :=
  collectMap (g.assocs.filterMap fun n =>
    let o := match (aget g.id s.recorded).bind (aget n) with
      | some o => some o
      | none => publicOrigin (lookupEntityV1 s n)
    o.map (fun o => (n, o)))

/-- imports.rs:354-366 for a v1 group: what is decided for a matched group. -/
def decideV1 (w : World) (bs : List Block) (g : Grp) : Decision :=
  match g.annotations with
  | some a => decision a (blocksMatch w (explicitBlocks bs) g) g.id g.type
  | none => .include

/-- imports.rs:325-412 `import_groups` of a v1 schema. The loop fills two vectors, the errors and the groups. -/
def importV1 (w : World) (bs : List Block) (s : V1) : Except (List IErr) (List Imported) :=
  match s.url with
  | none => .error [.invalidUrl]
  | some u =>
    let cand := s.groups.filter (blocksMatch w bs)
    let errs := cand.filterMap fun g => (decideV1 w bs g).err?
    let res := (cand.filter fun g => decide (decideV1 w bs g = .include)).map fun g =>
      let g' := (upgradeGroup w g u).getD g
      { group := g', url := upgradeUrl w.chosen u, origins := v1Origins s g' : Imported }
    if errs ≠ [] then .error errs else .ok res

/-- imports.rs:699-718 `v2_association_origins`. -/
def v2Origins (s : V2) (as : List (String × Option Nat)) : Origins :=
  collectMap (as.filterMap fun a =>
    let o := match a.2 with
      | some i => s.deps[i]?
      | none => publicOrigin (lookupEntityV2 s a.1)
    o.map (fun o => (a.1, o)))

/-- imports.rs:745-764 `is_imported`: the decision for a matched signal, `skip` for the others. -/
def decideV2 (w : World) (bs : List Block) (f : Field) (t : GroupType) (x : Sig) : Decision :=
  if fieldMatch w bs f x.id then decision x.annotations (fieldMatch w (explicitBlocks bs) f x.id) x.id t
  else .skip

/-- imports.rs:658-691 `imported_v2_group` and the signal specific fields set after it (788-791, 820-821, 858, 884-887,
910-916). -/
def groupOfSig (s : V2) (t : GroupType) (x : Sig) : Grp :=
  { id := x.id, type := t
    name := if t = .event ∨ t = .entity ∨ t = .span then some x.id else none
    metricName := if t = .metric then some x.id else none
    annotations := some x.annotations
    origin := if t = .attributeGroup then none else some (sourceUrl s x.source)
    isV2 := true
    assocs := if t = .metric ∨ t = .event ∨ t = .span then x.assocs.map (·.1) else []
    attrs := x.attrs
    lin := if t = .attributeGroup then none else some { provenance := x.path }
    brief := x.brief
    fields :=
      { note := x.fields.note, stability := x.fields.stability, deprecated := x.fields.deprecated
        instrument := if t = .metric then x.fields.instrument else none
        unit := if t = .metric then x.fields.unit else none
        spanKind := if t = .span then x.fields.spanKind else none
        spanName := if t = .span then x.fields.spanName else none } }

/-- The signals of a v2 schema in import order (imports.rs:768, 800, 831, 863, 897), with the field that imports
them. -/
def V2.signals (s : V2) : List (Field × GroupType × Sig) :=
  s.metrics.map (fun x => (.metrics, .metric, x)) ++ s.events.map (fun x => (.events, .event, x))
    ++ s.entities.map (fun x => (.entities, .entity, x)) ++ s.spans.map (fun x => (.spans, .span, x))
    ++ s.attributeGroups.map (fun x => (.attributeGroups, .attributeGroup, x))

/-- imports.rs:792-795, 822-825, 888-891: the association origins recorded while signals are converted, by group id
(a `HashMap`: the last signal with an id wins). Entities and attribute groups record nothing. -/
def originsTable (s : V2) (xs : List (Field × GroupType × Sig)) : List (String × Origins) :=
  xs.foldl (fun m e => match e.2.1 with
    | .metric => aset e.2.2.id (v2Origins s e.2.2.assocs) m
    | .event => aset e.2.2.id (v2Origins s e.2.2.assocs) m
    | .span => aset e.2.2.id (v2Origins s e.2.2.assocs) m
    | _ => m) []

/-- imports.rs:943-950: each group takes (removes) the origins recorded under its id. -/
def attachOrigins (u : SchemaUrl) : List (String × Origins) → List Grp → List Imported
  | _, [] => []
  | t, g :: gs =>
    { group := g, url := u, origins := (aget g.id t).getD [] } ::
      attachOrigins u (t.filter (fun e => decide (e.1 ≠ g.id))) gs

/-- imports.rs:720-952 `import_groups` of a v2 schema. -/
def importV2 (w : World) (bs : List Block) (s : V2) : Except (List IErr) (List Imported) :=
  let errs := s.signals.filterMap fun e => (decideV2 w bs e.1 e.2.1 e.2.2).err?
  let kept := s.signals.filter fun e => decide (decideV2 w bs e.1 e.2.1 e.2.2 = .include)
  if errs ≠ [] then .error errs
  else
    let groups := kept.map fun e =>
      let g := groupOfSig s e.2.1 e.2.2
      (upgradeGroup w g s.url).getD g
    .ok (attachOrigins (upgradeUrl w.chosen s.url) (originsTable s kept) groups)

/-- imports.rs:954-970 `import_groups` of a dependency. -/
def importDep (w : World) (bs : List Block) : Dep → Except (List IErr) (List Imported)
  | .v1 s => importV1 w bs s
  | .v2 s => importV2 w bs s

/-- imports.rs:992-1003: one candidate. The buckets are the kept groups with the origin and type of the candidate. -/
def keepFirst (acc : List Imported) (c : Imported) : List Imported :=
  if acc.any (fun k => decide (originUrl k.group k.url = originUrl c.group c.url) && decide (k.group.type = c.group.type)
      && sameImported k.group c.group) then acc
  else acc ++ [c]

/-- imports.rs:973-1008 `import_groups` over all dependencies. -/
def importAll (w : World) (bs : List Block) (deps : List Dep) : Except (List IErr) (List Imported) :=
  let rec go (acc : List Imported) : List Dep → Except (List IErr) (List Imported)
    | [] => .ok acc
    | d :: ds => match importDep w bs d with
      | .error e => .error e
      | .ok cs => go (cs.foldl keepFirst acc) ds
  go [] deps

/-- imports.rs:114-155 `unmatched_import_errors`. The flags of `matched` are computed pattern by pattern. -/
def unmatchedErrors (w : World) (bs : List Block) (groups : List Grp) : List IErr :=
  Field.all.flatMap fun f =>
    (patternsOf (explicitBlocks bs) f).filterMap fun p =>
      if groups.any (fun g => decide (Field.of g.type = some f) && (matchKeys g).any (fun k => w.glob p k)) then none
      else some (.unmatched p f.name)

/-- The part of `UnresolvedRegistry` imports and associations use: groups, dependencies, and the association origins by
group id (`Registry::entity_association_origins`). -/
structure Reg where
  groups : List Grp
  deps : List Dep := []
  origins : List (String × Origins) := []
  blocks : List Block := []

/-- registry.rs:450-493: one imported group enters the registry. The provenance computed there (463-484) is that of the
`UnresolvedGroup`, which only error messages show; the group keeps its own. -/
def addImported (r : Reg) (i : Imported) : Reg :=
  { r with
    origins := if i.origins ≠ [] then aset i.group.id i.origins r.origins else r.origins
    groups := r.groups ++ [{ i.group with visibility := none }] }

/-- registry.rs:437-495 `resolve_dependency_imports`: the registry and the unmatched patterns. -/
def resolveImports (w : World) (r : Reg) : Except (List IErr) (Reg × List IErr) :=
  match importAll w r.blocks r.deps with
  | .error e => .error e
  | .ok is => .ok (is.foldl addImported r, unmatchedErrors w r.blocks (is.map (·.group)))

/-- crates/weaver_resolved_schema/src/v2/mod.rs:291-306 `v2_namespace_id` of an entity group (see Verif.Checks). -/
def entityName (g : Grp) : String :=
  if g.refines then Checks.fixGroupId "entity." g.id
  else g.name.getD (Checks.fixGroupId "entity." g.id)

/-- registry.rs:530-539: the entities of this registry (`HashMap`: the last one with a name wins). -/
def localEntities (gs : List Grp) : List (String × Bool) :=
  (gs.filter (fun g => decide (g.type = .entity))).foldl
    (fun m g => aset (entityName g) (isGroupExcluded g.annotations g.visibility g.type) m) []

/-- The accumulators of the loop of registry.rs:541-611. -/
structure Acc where
  origins : List (String × Origins) := []
  errors : List IErr := []
  memo : List (String × SchemaUrl) := []

/-- `origins.entry(id).or_default().insert(name, origin)`. -/
def record (id name : String) (o : SchemaUrl) (m : List (String × Origins)) : List (String × Origins) :=
  aset id (aset name o ((aget id m).getD [])) m

/-- registry.rs:549-610: one name of one group. -/
def assocStep (r : Reg) (g : Grp) (acc : Acc) (name : String) : Acc :=
  if ((aget g.id r.origins).bind (aget name)).isSome then acc
  else match aget name (localEntities r.groups) with
    | some false => acc
    | some true =>
      if isGroupExcluded g.annotations g.visibility g.type then acc
      else { acc with errors := acc.errors ++ [.excluded name .entity g.id] }
    | none =>
      match aget name acc.memo with
      | some o => { acc with origins := record g.id name o acc.origins }
      | none => match resolveEntity r.deps name with
        | .found o => { acc with origins := record g.id name o acc.origins, memo := aset name o acc.memo }
        | .priv => { acc with errors := acc.errors ++ [.excluded name .entity g.id] }
        | .ambiguous us => { acc with errors := acc.errors ++ [.ambiguous g.id name us] }
        | .unknown => { acc with errors := acc.errors ++ [.unresolved g.id name] }

/-- registry.rs:545-611: the loop over the groups. -/
def assocLoop (r : Reg) : Acc :=
  r.groups.foldl (fun acc g => (uniq g.assocs).foldl (assocStep r g) acc) {}

/-- registry.rs:616-622: `extend` of the recorded origins. -/
def extendOrigins (m : List (String × Origins)) (e : String × Origins) : List (String × Origins) :=
  aset e.1 (e.2.foldl (fun o p => aset p.1 p.2 o) ((aget e.1 m).getD [])) m

/-- registry.rs:517-624 `resolve_entity_associations`: the association origins afterwards. -/
def resolveAssociations (r : Reg) : Except (List IErr) (List (String × Origins)) :=
  if r.groups.all (fun g => g.assocs.isEmpty) then .ok r.origins
  else
    let acc := assocLoop r
    if acc.errors ≠ [] then .error acc.errors
    else .ok (acc.origins.foldl extendOrigins r.origins)

end Verif.Imports
