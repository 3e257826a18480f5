import Verif.Convert.Model
/-
Model of what templates and policies see of a resolved registry: crates/weaver_forge/src/v2/registry.rs
`ForgeResolvedRegistry`, v2/provenance.rs, v2/entity.rs, and for the first format crates/weaver_forge/src/registry.rs
`ResolvedRegistry`.

The resolved schema is that of `Verif.Convert` (crates/weaver_resolved_schema/src/v2). Errors of one schema are a list in
the order in which the code pushes them. Schema urls are strings.
-/
namespace Verif.View
open Verif.Util Verif.Resolver Verif.Semconv Verif.Convert

/-- weaver_resolved_schema v2/mod.rs:52-69 `ResolvedTelemetrySchema`; `deps` is the set of dependencies in its order. -/
structure Schema where
  url : String
  deps : List String
  out : Out

/-- v2/provenance.rs:11-28 `Provenance`. -/
structure VProv where
  source : Option String := none
  path : Option String := none
deriving DecidableEq, Repr

/-- v2/provenance.rs:42-51 `Provenance::from_resolved`. -/
def fromResolved (deps : List String) (p : Prov) : VProv :=
  { source := match p.source with
      | none => none
      | some n => deps[n]?
    path := if p.path = "" then none else some p.path }

/-- v2/attribute.rs:11-37 `Attribute`. -/
structure VAttr where
  key : String
  type : String
  examples : Option String
  common : Common
  prov : VProv
deriving DecidableEq

/-- registry.rs:157-163 and the same lines in every loop. -/
def showAttr (deps : List String) (a : A2) : VAttr :=
  { key := a.key, type := a.type, examples := a.examples, common := a.common, prov := fromResolved deps a.prov }

/-- `MetricAttribute`, `SpanAttribute`, `EventAttribute`, `EntityAttribute`, `AttributeGroupAttribute`; `sampling` is that
of spans. -/
structure VRef where
  base : VAttr
  requirement : String
  sampling : Option Bool
deriving DecidableEq

/-- v2/entity.rs:52-63 `EntityRef`. -/
structure VERef where
  type : String
  prov : VProv := {}
deriving DecidableEq

/-- v2/entity.rs:129-151 `from_resolved_associations`. The provenance of a resolved reference has no path (see `ERef`). -/
def showAssocs (deps : List String) (l : List (Assoc ERef)) : List (Assoc VERef) :=
  mapAssocL (fun r => { type := r.type, prov := fromResolved deps { source := r.source } }) l

structure VSpan where
  type : String
  kind : String
  name : String
  attributes : List VRef
  assocs : List (Assoc VERef)
  requirement : Option String
  common : Common
  prov : VProv

structure VMetric where
  name : String
  instrument : String
  unit : String
  attributes : List VRef
  assocs : List (Assoc VERef)
  requirement : Option String
  common : Common
  prov : VProv

structure VEvent where
  name : String
  attributes : List VRef
  assocs : List (Assoc VERef)
  requirement : Option String
  common : Common
  prov : VProv

structure VEntity where
  type : String
  identity : List VRef
  description : List VRef
  requirement : Option String
  common : Common
  prov : VProv

structure VGroup where
  id : String
  attributes : List VRef
  common : Common
  prov : VProv

/-- crates/weaver_forge/src/error.rs `AttributeNotFound`. -/
structure NotFound where
  group : String
  ref : Nat
deriving DecidableEq, Repr

/-- registry.rs:170-191: the attributes of a signal, and an error for each one that is not in the catalog. The loops for
the other signals are the same (208-230, 250-272, 288-311, 331-352, 368-390, 406-432, 471-491). -/
def lookupRefs (cat : List A2) (deps : List String) (gid : String) : List ARef → List VRef × List NotFound
  | [] => ([], [])
  | r :: rs =>
    let rest := lookupRefs cat deps gid rs
    match cat[r.base]? with
    | some a => ({ base := showAttr deps a, requirement := r.requirement, sampling := r.sampling } :: rest.1, rest.2)
    | none => (rest.1, { group := gid, ref := r.base } :: rest.2)

/-- registry.rs:168-203: one metric; `gid` is the name used in errors. -/
def showMetric (cat : List A2) (deps : List String) (m : Metric) : VMetric × List NotFound :=
  let as := lookupRefs cat deps ("metric." ++ m.name) m.attributes
  ({ name := m.name, instrument := m.instrument, unit := m.unit, attributes := as.1,
     assocs := showAssocs deps m.assocs, requirement := m.requirement, common := m.common,
     prov := fromResolved deps m.prov }, as.2)

/-- registry.rs:206-246: one metric refinement. Errors name the metric. -/
def showMetricRef (cat : List A2) (deps : List String) (r : Refinement Metric) : Refinement VMetric × List NotFound :=
  let m := showMetric cat deps r.sig
  (⟨r.id, m.1⟩, m.2)

/-- registry.rs:248-284 and 286-327: one span, with the name used in errors. -/
def showSpan (cat : List A2) (deps : List String) (gid : String) (s : Span) : VSpan × List NotFound :=
  let as := lookupRefs cat deps ("span." ++ gid) s.attributes
  ({ type := s.type, kind := s.kind, name := s.name, attributes := as.1, assocs := showAssocs deps s.assocs,
     requirement := s.requirement, common := s.common, prov := fromResolved deps s.prov }, as.2)

/-- registry.rs:286-327. -/
def showSpanRef (cat : List A2) (deps : List String) (r : Refinement Span) : Refinement VSpan × List NotFound :=
  let m := showSpan cat deps r.id r.sig
  (⟨r.id, m.1⟩, m.2)

/-- registry.rs:329-363 and 366-404. Simplification: the references of events have no `sampling_relevant`. -/
def showEvent (cat : List A2) (deps : List String) (gid : String) (e : Event) : VEvent × List NotFound :=
  let as := lookupRefs cat deps ("event." ++ gid) e.attributes
  ({ name := e.name, attributes := as.1, assocs := showAssocs deps e.assocs, requirement := e.requirement,
     common := e.common, prov := fromResolved deps e.prov }, as.2)

/-- registry.rs:366-404. -/
def showEventRef (cat : List A2) (deps : List String) (r : Refinement Event) : Refinement VEvent × List NotFound :=
  let m := showEvent cat deps r.id r.sig
  (⟨r.id, m.1⟩, m.2)

/-- registry.rs:406-448: one entity; `convert_entity_attrs` is `lookupRefs`. -/
def showEntity (cat : List A2) (deps : List String) (gid : String) (e : Entity) : VEntity × List NotFound :=
  let ids := lookupRefs cat deps ("entity." ++ gid) e.identity
  let des := lookupRefs cat deps ("entity." ++ gid) e.description
  ({ type := e.type, identity := ids.1, description := des.1, requirement := e.requirement, common := e.common,
     prov := fromResolved deps e.prov }, ids.2 ++ des.2)

/-- registry.rs:450-467. -/
def showEntityRef (cat : List A2) (deps : List String) (r : Refinement Entity) : Refinement VEntity × List NotFound :=
  let m := showEntity cat deps r.id r.sig
  (⟨r.id, m.1⟩, m.2)

/-- registry.rs:469-500: one public attribute group. -/
def showGroup (cat : List A2) (deps : List String) (g : AGroup) : VGroup × List NotFound :=
  let as := lookupRefs cat deps ("attribute_group." ++ g.id) g.attributes
  ({ id := g.id, attributes := as.1, common := g.common, prov := fromResolved deps g.prov }, as.2)

/-- One loop: what each item becomes, and all errors in order. -/
def loop {α β : Type} (f : α → β × List NotFound) : List α → List β × List NotFound
  | [] => ([], [])
  | a :: l => ((f a).1 :: (loop f l).1, (f a).2 ++ (loop f l).2)

/-- registry.rs:53-82 `Registry` and `Refinements`. -/
structure VReg where
  attributes : List VAttr
  groups : List VGroup
  metrics : List VMetric
  spans : List VSpan
  events : List VEvent
  entities : List VEntity
  metricRefs : List (Refinement VMetric)
  spanRefs : List (Refinement VSpan)
  eventRefs : List (Refinement VEvent)
  entityRefs : List (Refinement VEntity)

/-- `sort_by(|l, r| l.key.cmp(&r.key))` (`slice::sort_by` is stable, like `sortBy`). -/
def byKey {α : Type} (key : α → String) (l : List α) : List α := sortBy (fun a b => decide (key a ≤ key b)) l

/-- registry.rs:139-507: all but the dependencies. The attributes of the registry that are not in the catalog are left
out without an error (153-166). Attribute groups are not sorted (469-500). -/
def show1 (s : Schema) : Except (List NotFound) VReg :=
  let cat := s.out.catalog
  let ms := loop (showMetric cat s.deps) s.out.metrics
  let mrs := loop (showMetricRef cat s.deps) s.out.metricRefs
  let ss := loop (fun x => showSpan cat s.deps x.type x) s.out.spans
  let srs := loop (showSpanRef cat s.deps) s.out.spanRefs
  let es := loop (fun x => showEvent cat s.deps x.name x) s.out.events
  let ers := loop (showEventRef cat s.deps) s.out.eventRefs
  let ns := loop (fun x => showEntity cat s.deps x.type x) s.out.entities
  let nrs := loop (showEntityRef cat s.deps) s.out.entityRefs
  let gs := loop (showGroup cat s.deps) s.out.groups
  let errors := ms.2 ++ mrs.2 ++ ss.2 ++ srs.2 ++ es.2 ++ ers.2 ++ ns.2 ++ nrs.2 ++ gs.2
  if errors ≠ [] then .error errors
  else .ok
    { attributes := byKey (·.key) ((s.out.attributes.filterMap (fun r => cat[r]?)).map (showAttr s.deps))
      groups := gs.1
      metrics := byKey (·.name) ms.1
      metricRefs := byKey (·.id) mrs.1
      spans := byKey (·.type) ss.1
      spanRefs := byKey (·.id) srs.1
      events := byKey (·.name) es.1
      eventRefs := byKey (·.id) ers.1
      entities := byKey (·.type) ns.1
      entityRefs := byKey (·.id) nrs.1 }

/-- registry.rs:33-49 `ForgeResolvedRegistry`. -/
inductive Forge where
  | node (url : String) (reg : VReg) (deps : List Forge)

def Forge.url : Forge → String
  | .node u _ _ => u
def Forge.reg : Forge → VReg
  | .node _ r _ => r
def Forge.deps : Forge → List Forge
  | .node _ _ d => d

/-- Errors of the whole view: dangling references of a schema, or the failure to resolve a dependency (512-536). -/
inductive VErr where
  | notFound (l : List NotFound)
  | resolve (url : String)
deriving DecidableEq

/-- registry.rs:509-542: each dependency is resolved and shown; the first failure ends it. -/
def showDeps (resolve : String → Option Schema) (rec : Schema → Option (Except VErr Forge)) :
    List String → Option (Except VErr (List Forge))
  | [] => some (.ok [])
  | u :: us => match resolve u with
    | none => some (.error (.resolve u))
    | some s => match rec s with
      | none => none
      | some (.error e) => some (.error e)
      | some (.ok f) => match showDeps resolve rec us with
        | none => none
        | some (.error e) => some (.error e)
        | some (.ok fs) => some (.ok (f :: fs))

/-- registry.rs:135-570 `try_from_resolved_schema`. `resolve` gives the schema of a dependency; the messages it may give,
and the cache behind it, are modelled in `Verif.Engine.view`. The fuel bounds the depth; `none` means that it was not
enough. -/
def showAll (resolve : String → Option Schema) : Nat → Schema → Option (Except VErr Forge)
  | 0, _ => none
  | n + 1, s => match show1 s with
    | .error l => some (.error (.notFound l))
    | .ok r => match showDeps resolve (showAll resolve n) s.deps with
      | none => none
      | some (.error e) => some (.error e)
      | some (.ok fs) => some (.ok (.node s.url r fs))

/-- registry.rs:117-130 `defined_entity`. -/
def definedEntity (f : Forge) (name : String) : Option VEntity :=
  match f.reg.entities.find? (fun e => decide (e.type = name)) with
  | some e => some e
  | none => (f.reg.entityRefs.find? (fun r => decide (r.id = name))).map (·.sig)

/-- registry.rs:90-112 `lookup_entity`. The error of the code says which entity and registry. -/
def lookupEntity (f : Forge) (r : VERef) : Option VEntity :=
  match r.prov.source with
  | none => definedEntity f r.type
  | some url => match f.deps.find? (fun d => decide (d.url = url)) with
    | none => none
    | some d => definedEntity d r.type

/-! ### The first format -/

/-- crates/weaver_forge/src/registry.rs:39-137 `ResolvedGroup`: the attributes, looked up, and the other fields, which are
copied one by one. Simplification: the copied fields are those of the resolved group. -/
structure VGrp1 where
  grp : Grp
  attributes : List A1

/-- registry.rs:210-223 and 150-163. -/
def lookup1 (cat : List A1) (gid : String) : List Nat → List A1 × List NotFound
  | [] => ([], [])
  | r :: rs =>
    let rest := lookup1 cat gid rs
    match cat[r]? with
    | some a => (a :: rest.1, rest.2)
    | none => (rest.1, { group := gid, ref := r } :: rest.2)

/-- registry.rs:142-192 `ResolvedGroup::try_from_resolved`. -/
def showGroup1 (cat : List A1) (g : Grp) : Except (List NotFound) VGrp1 :=
  let as := lookup1 cat g.id g.attributes
  if as.2 ≠ [] then .error as.2 else .ok ⟨g, as.1⟩

/-- A group of the first format with the mark of groups that were written in the second
(weaver_resolved_schema registry.rs:190-197). -/
structure Grp1 where
  grp : Grp
  isV2 : Bool

/-- weaver_resolved_schema registry.rs:233-239 `is_v2_refinement`. -/
def isV2Refinement (g : Grp1) : Bool := g.isV2 && (g.grp.lineage.bind (·.extendsGroup)).isSome

/-- registry.rs:202-272 `try_from_resolved_registry`. -/
def showRegistry1 (cat : List A1) (gs : List Grp1) : Except (List NotFound) (List VGrp1) :=
  let r := loop (fun g : Grp1 => let as := lookup1 cat g.grp.id g.grp.attributes; ((⟨g.grp, as.1⟩ : VGrp1), as.2))
    (gs.filter (fun g => !isV2Refinement g))
  if r.2 ≠ [] then .error r.2 else .ok (byKey (·.grp.id) r.1)

end Verif.View
