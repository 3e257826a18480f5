import Verif.Checks.Model
import Verif.Semconv.Assoc
import Verif.Semconv.Deprecated
/-
Model of the conversion of a resolved v1 schema to v2: crates/weaver_resolved_schema/src/v2/mod.rs:156-789 and
crates/weaver_resolved_schema/src/v2/catalog.rs.

Values the conversion only copies (attribute types, examples, requirement levels, instruments, span kinds) are strings
here. `u32` indices are natural numbers. Schema urls are strings; the part of a url that is its name is a parameter.
-/
namespace Verif.Convert
open Verif.Util Verif.Resolver Verif.Semconv

/-- crates/weaver_semconv/src/stability.rs:15-30 `Stability`. -/
inductive Stability where
  | deprecated | stable | development | alpha | beta | releaseCandidate
deriving DecidableEq, Repr

/-- weaver_resolved_schema attribute.rs `Attribute`: what the conversion reads of a v1 attribute. -/
structure A1 where
  name : String
  type : String := "string"
  examples : Option String := none
  brief : String := ""
  note : String := ""
  stability : Option Stability := none
  deprecated : Option Deprecated := none
  annotations : Option Annots := none
  requirement : String := "recommended"
  identifying : Bool := false
  sampling : Option Bool := none

/-- crates/weaver_resolved_schema/src/v2/provenance.rs:11-26 `Provenance`. -/
structure Prov where
  source : Option Nat := none
  path : String := ""
deriving DecidableEq

/-- crates/weaver_semconv/src/v2/mod.rs `CommonFields`. -/
structure Common where
  brief : String
  note : String
  stability : Stability
  deprecated : Option Deprecated
  annotations : Annots
deriving DecidableEq

/-- crates/weaver_resolved_schema/src/v2/attribute.rs:18-40 `Attribute`. -/
structure A2 where
  key : String
  type : String
  examples : Option String
  common : Common
  prov : Prov
deriving DecidableEq

/-- crates/weaver_resolved_schema/src/lineage.rs:36-64 `GroupLineage`: `url` and `path` are its provenance, `attrs` gives
the source group of each attribute that has a lineage entry. -/
structure Lin where
  url : String := ""
  path : String := ""
  extendsGroup : Option String := none
  extendsType : Option GroupType := none
  attrs : List (String × String) := []

/-- crates/weaver_resolved_schema/src/registry.rs:80-202 `Group`: what the conversion reads. -/
structure Grp where
  id : String
  type : GroupType
  brief : String := ""
  note : String := ""
  stability : Option Stability := none
  deprecated : Option Deprecated := none
  annotations : Option Annots := none
  requirement : Option String := none
  attributes : List Nat := []
  spanKind : Option String := none
  metricName : Option String := none
  instrument : Option String := none
  unit : Option String := none
  name : Option String := none
  spanName : Option String := none
  lineage : Option Lin := none
  assocs : List (Assoc String) := []
  visibility : Option Visibility := none

/-- The view of a group the id functions of `Verif.Checks` read. -/
def Grp.view (g : Grp) : Checks.Grp :=
  { id := g.id, type := g.type, name := g.name, metricName := g.metricName, attributes := g.attributes,
    visibility := g.visibility,
    lineage := g.lineage.map fun l =>
      { provenance := l.path, extendsGroup := l.extendsGroup, extendsType := l.extendsType,
        attrs := l.attrs.map (·.1) } }

/-- v2/mod.rs:256-261 `is_refinement_of`. -/
def refines (g : Grp) : Bool := Checks.isRefinementOf g.view

/-- v2/mod.rs:242-248 `fix_group_id`. -/
def fixId (p id : String) : String := Checks.fixGroupId p id

/-- v2/mod.rs:270-276 `entity_type_of`. -/
def entityTypeOf (g : Grp) : String := Checks.entityTypeOf g.view

/-- The input of the conversion: the v1 catalog, its root attributes (name, source group), the groups, the url of the
registry, where associations resolved (group id, then name, then url) and the dependencies in order. `nameOf` is
`SchemaUrl::name`, `hash` the hash that breaks ties between attributes of one key, and `ord` the order in which a
`HashSet` of attributes is enumerated. -/
structure In where
  catalog : List A1
  roots : List (String × String)
  groups : List Grp
  registryUrl : String
  origins : List (String × List (String × String))
  deps : List String
  nameOf : String → String
  hash : A2 → Nat
  ord : List A2 → List A2
  ord_perm : ∀ l, (ord l).Perm l

/-- v2/mod.rs:336-349 `get_provenance`. -/
def groupProv (i : In) (g : Grp) : Prov :=
  match g.lineage with
  | none => {}
  | some l => { path := l.path, source := if l.url = i.registryUrl then none else i.deps.findIdx? (fun u => decide (u = l.url)) }

/-- v2/mod.rs:353-361: does the lineage of `g` say `g` is where the attribute comes from? -/
def ownsAttr (n : String) (g : Grp) : Bool :=
  match g.lineage with
  | none => false
  | some l => match aget n l.attrs with
    | some s => decide (s = g.id)
    | none => false

/-- `str::strip_prefix`. -/
def stripOpt (p s : String) : Option String :=
  if p.toList.isPrefixOf s.toList then some (String.ofList (s.toList.drop p.toList.length)) else none

/-- v2/mod.rs:351-382 `attr_provenance`, of the attribute named `n`. -/
def attrProv (i : In) (n : String) : Prov :=
  match i.groups.find? (ownsAttr n) with
  | some g => groupProv i g
  | none => match aget n i.roots with
    | none => {}
    | some src => match i.groups.find? (fun g => decide (g.id = src)) with
      | some g => groupProv i g
      | none => match stripOpt "v2_dependency." src with
        | some d => { source := i.deps.findIdx? (fun u => decide (i.nameOf u = d)) }
        | none => {}

/-- The `CommonFields` every converted item gets, e.g. v2/mod.rs:395-401. -/
def common (brief note : String) (st : Option Stability) (dep : Option Deprecated) (ann : Option Annots) : Common :=
  { brief := brief, note := note, stability := st.getD .development, deprecated := dep, annotations := ann.getD [] }

/-- v2/mod.rs:391-403. -/
def convertAttr (i : In) (a : A1) : A2 :=
  { key := a.name, type := a.type, examples := a.examples,
    common := common a.brief a.note a.stability a.deprecated a.annotations, prov := attrProv i a.name }

/-- The sort key of v2/catalog.rs:37-43. -/
def catLe (hash : A2 → Nat) (a b : A2) : Bool :=
  decide (a.key < b.key) || (decide (a.key = b.key) && decide (hash a ≤ hash b))

/-- v2/mod.rs:386-407 and v2/catalog.rs:36-49 `Catalog::from_attributes`. -/
def catalog2 (i : In) : List A2 := sortBy (catLe i.hash) (i.ord (uniq (i.catalog.map (convertAttr i))))

/-- v2/catalog.rs:64-85: is this catalog entry the attribute? -/
def matchesAttr (a : A1) (b : A2) : Bool :=
  decide (b.key = a.name) && decide (b.type = a.type) && decide (b.examples = a.examples) &&
  decide (b.common.brief = a.brief) && decide (b.common.note = a.note) &&
  decide (b.common.deprecated = a.deprecated) &&
  decide (b.common.stability = a.stability.getD .development) &&
  (match a.annotations with
    | some ans => decide (b.common.annotations = ans)
    | none => b.common.annotations.isEmpty)

/-- v2/catalog.rs:54-88 `convert_ref`. The code goes through the positions of the attributes of this key in ascending
order; that is the first matching position of the whole list. -/
def convertRef (cat : List A2) (a : A1) : Option Nat := cat.findIdx? (matchesAttr a)

/-- A reference to a v2 attribute from a signal: `SpanAttributeRef`, `MetricAttributeRef`, `EventAttributeRef`,
`EntityAttributeRef`, `AttributeGroupAttributeRef`; `sampling` is that of spans. -/
structure ARef where
  base : Nat
  requirement : String
  sampling : Option Bool := none
deriving DecidableEq

/-- v2/entity.rs:50-58 `EntityRef`; `source` is that of its provenance, whose path is empty. -/
structure ERef where
  type : String
  source : Option Nat := none
deriving DecidableEq

inductive CErr where
  | attributeNotFound (group : String) (ref : Nat)
  | refinementBaseNotFound (group : String)
  | associationNotFound (group : String) (entity : String)
  | eventNameNotFound (group : String)
  /-- `expect` on a missing field of a metric. -/
  | panic (group : String)
deriving DecidableEq

/-- v2/mod.rs:313-326 `convert_attribute_ref`. -/
def convertAttributeRef (i : In) (gid : String) (r : Nat) : Except CErr (A1 × Nat) :=
  match i.catalog[r]? with
  | none => .error (.attributeNotFound gid r)
  | some a => match convertRef (catalog2 i) a with
    | none => .error (.attributeNotFound gid r)
    | some n => .ok (a, n)

structure Entity where
  type : String
  identity : List ARef
  description : List ARef
  requirement : Option String
  common : Common
  prov : Prov

/-- `EntityRefinement`, `SpanRefinement`, `EventRefinement`, `MetricRefinement`. -/
structure Refinement (α : Type) where
  id : String
  sig : α

/-- v2/mod.rs:426-440: the attributes of an entity, identifying and descriptive ones apart. -/
def entityAttrs (i : In) (gid : String) : List Nat → List ARef × List ARef → Except CErr (List ARef × List ARef)
  | [], acc => .ok acc
  | r :: rs, acc => match convertAttributeRef i gid r with
    | .error e => .error e
    | .ok p =>
      let x : ARef := { base := p.2, requirement := p.1.requirement }
      if p.1.identifying then entityAttrs i gid rs (acc.1 ++ [x], acc.2)
      else entityAttrs i gid rs (acc.1, acc.2 ++ [x])

/-- v2/mod.rs:441-457. -/
def entityType (i : In) (g : Grp) : Except CErr String :=
  if refines g then
    match g.lineage.bind (·.extendsGroup) with
    | none => .error (.refinementBaseNotFound g.id)
    | some base => .ok (match i.groups.find? (fun b => decide (b.id = base)) with
      | some b => entityTypeOf b
      | none => fixId "entity." base)
  else .ok (entityTypeOf g)

/-- v2/mod.rs:423-471: one entity. -/
def convertEntity (i : In) (g : Grp) : Except CErr Entity :=
  match entityAttrs i g.id g.attributes ([], []) with
  | .error e => .error e
  | .ok as => match entityType i g with
    | .error e => .error e
    | .ok t => .ok { type := t, identity := as.1, description := as.2, requirement := g.requirement,
                     common := common g.brief g.note g.stability g.deprecated g.annotations, prov := groupProv i g }

/-- v2/mod.rs:423-484: the loop over the entities, giving definitions and refinements. -/
def entityLoop (i : In) : List Grp → List Entity × List (Refinement Entity) →
    Except CErr (List Entity × List (Refinement Entity))
  | [], acc => .ok acc
  | g :: gs, acc => match convertEntity i g with
    | .error e => .error e
    | .ok en =>
      if refines g then entityLoop i gs (acc.1, acc.2 ++ [⟨fixId "entity." g.id, en⟩])
      else entityLoop i gs (acc.1 ++ [en], acc.2 ++ [⟨en.type, en⟩])

/-- v2/mod.rs:491-494: `collect` into a map, the last entry of a name wins. -/
def localEntities (rs : List (Refinement Entity)) : List (String × Option Nat) :=
  rs.foldl (fun m r => aset r.id r.sig.prov.source m) []

/-- v2/mod.rs:170-203 `EntityRefResolver::resolve`. The index of the dependencies by url is the position in the list,
whose urls are distinct. -/
def resolveRef (i : In) (loc : List (String × Option Nat)) (gid name : String) : Option ERef :=
  match (aget gid i.origins).bind (fun o => aget name o) with
  | none => match aget name loc with
    | some _ => some { type := name }
    | none => none
  | some origin =>
    let source := i.deps.findIdx? (fun u => decide (u = origin))
    if aget name loc = some source then some { type := name }
    else some { type := name, source := source }

/-- v2/mod.rs:208-232 `convert_entity_associations`. -/
def convertAssocs (i : In) (loc : List (String × Option Nat)) (gid : String) (l : List (Assoc String)) :
    Except CErr (List (Assoc ERef)) :=
  convAssocL (fun n => match resolveRef i loc gid n with
    | some r => .ok r
    | none => .error (.associationNotFound gid n)) l

/-- v2/mod.rs:512-524, 599-610, 653-664, 718-729: the attribute references of a signal. A reference that is not found
is dropped. -/
def signalAttrs (i : In) (g : Grp) : List (A1 × Nat) :=
  (g.attributes.filterMap (fun r => i.catalog[r]?)).filterMap fun a =>
    match convertRef (catalog2 i) a with
    | some n => some (a, n)
    | none => none

structure Span where
  type : String
  kind : String
  name : String
  assocs : List (Assoc ERef)
  requirement : Option String
  common : Common
  attributes : List ARef
  prov : Prov

structure Event where
  name : String
  attributes : List ARef
  assocs : List (Assoc ERef)
  requirement : Option String
  common : Common
  prov : Prov

structure Metric where
  name : String
  instrument : String
  unit : String
  attributes : List ARef
  assocs : List (Assoc ERef)
  requirement : Option String
  common : Common
  prov : Prov

structure AGroup where
  id : String
  attributes : List ARef
  common : Common
  prov : Prov

/-- The output of the conversion: `Registry`, `Refinements` and the catalog. -/
structure Out where
  catalog : List A2 := []
  attributes : List Nat := []
  spans : List Span := []
  metrics : List Metric := []
  events : List Event := []
  entities : List Entity := []
  groups : List AGroup := []
  spanRefs : List (Refinement Span) := []
  metricRefs : List (Refinement Metric) := []
  eventRefs : List (Refinement Event) := []
  entityRefs : List (Refinement Entity) := []

/-- v2/mod.rs:525-595: the type of a span. -/
def spanType (g : Grp) : Except CErr String :=
  if refines g then
    match g.lineage.bind (·.extendsGroup) with
    | none => .error (.refinementBaseNotFound g.id)
    | some base => .ok (fixId "span." base)
  else .ok (fixId "span." g.id)

/-- v2/mod.rs:508-596: one span. -/
def convertSpan (i : In) (loc : List (String × Option Nat)) (g : Grp) : Except CErr Span :=
  match spanType g with
  | .error e => .error e
  | .ok t => match convertAssocs i loc g.id g.assocs with
    | .error e => .error e
    | .ok as => .ok
      { type := t, kind := g.spanKind.getD "internal", name := g.spanName.getD (g.name.getD ""), assocs := as,
        requirement := g.requirement, common := common g.brief g.note g.stability g.deprecated g.annotations,
        attributes := (signalAttrs i g).map (fun p =>
          { base := p.2, requirement := p.1.requirement, sampling := p.1.sampling }),
        prov := groupProv i g }

/-- Attribute references of signals other than spans. -/
def plainRefs (l : List (A1 × Nat)) : List ARef := l.map fun p => { base := p.2, requirement := p.1.requirement }

/-- v2/mod.rs:597-649: one event. -/
def convertEvent (i : In) (loc : List (String × Option Nat)) (g : Grp) : Except CErr Event :=
  match g.name with
  | none => .error (.eventNameNotFound g.id)
  | some n => match convertAssocs i loc g.id g.assocs with
    | .error e => .error e
    | .ok as => .ok
      { name := n, attributes := plainRefs (signalAttrs i g), assocs := as, requirement := g.requirement,
        common := common g.brief g.note g.stability g.deprecated g.annotations, prov := groupProv i g }

/-- v2/mod.rs:650-708: one metric. -/
def convertMetric (i : In) (loc : List (String × Option Nat)) (g : Grp) : Except CErr Metric :=
  match g.metricName with
  | none => .error (.panic g.id)
  | some n => match g.instrument with
    | none => .error (.panic g.id)
    | some ins => match g.unit with
      | none => .error (.panic g.id)
      | some u => match convertAssocs i loc g.id g.assocs with
        | .error e => .error e
        | .ok as => .ok
          { name := n, instrument := ins, unit := u, attributes := plainRefs (signalAttrs i g), assocs := as,
            requirement := g.requirement,
            common := common g.brief g.note g.stability g.deprecated g.annotations, prov := groupProv i g }

/-- v2/mod.rs:712-743: one public attribute group. -/
def convertGroup (i : In) (g : Grp) : AGroup :=
  { id := fixId "attribute_group." g.id, attributes := plainRefs (signalAttrs i g),
    common := common g.brief g.note g.stability g.deprecated g.annotations, prov := groupProv i g }

/-- v2/mod.rs:507-747: one round of the loop over the groups. -/
def groupStep (i : In) (loc : List (String × Option Nat)) (o : Out) (g : Grp) : Except CErr Out :=
  match g.type with
  | .span => match convertSpan i loc g with
    | .error e => .error e
    | .ok s => .ok (if refines g then { o with spanRefs := o.spanRefs ++ [⟨fixId "span." g.id, s⟩] }
        else { o with spans := o.spans ++ [s], spanRefs := o.spanRefs ++ [⟨s.type, s⟩] })
  | .event => match convertEvent i loc g with
    | .error e => .error e
    | .ok s => .ok (if refines g then { o with eventRefs := o.eventRefs ++ [⟨fixId "event." g.id, s⟩] }
        else { o with events := o.events ++ [s], eventRefs := o.eventRefs ++ [⟨s.name, s⟩] })
  | .metric => match convertMetric i loc g with
    | .error e => .error e
    | .ok s => .ok (if refines g then { o with metricRefs := o.metricRefs ++ [⟨fixId "metric." g.id, s⟩] }
        else { o with metrics := o.metrics ++ [s], metricRefs := o.metricRefs ++ [⟨s.name, s⟩] })
  | .attributeGroup => .ok (if g.visibility = some .publicVis then { o with groups := o.groups ++ [convertGroup i g] }
      else o)
  | .entity => .ok o
  | .metricGroup => .ok o
  | .scope => .ok o
  | .undefined => .ok o

/-- v2/mod.rs:506-748: the loop. -/
def groupLoop (i : In) (loc : List (String × Option Nat)) : List Grp → Out → Except CErr Out
  | [], o => .ok o
  | g :: gs, o => match groupStep i loc o g with
    | .error e => .error e
    | .ok o' => groupLoop i loc gs o'

/-- v2/mod.rs:756-760: the lineage entry of an attribute. -/
def lineageOf (g : Grp) (n : String) : Option String :=
  match g.lineage with
  | none => none
  | some l => aget n l.attrs

/-- v2/mod.rs:752-770: the attributes groups define. -/
def definedRefs (i : In) : List Nat :=
  i.groups.flatMap fun g => g.attributes.filterMap fun r =>
    match i.catalog[r]? with
    | none => none
    | some a =>
      match lineageOf g a.name with
      | none => convertRef (catalog2 i) a
      | some _ => none

/-- `Vec::dedup`: drop an element equal to the one before it. -/
def dedup : List Nat → List Nat
  | [] => []
  | [a] => [a]
  | a :: b :: l => if a = b then dedup (b :: l) else a :: dedup (b :: l)

/-- v2/mod.rs:329-789 `convert_v1_to_v2`. -/
def convert (i : In) : Except CErr Out :=
  match entityLoop i (i.groups.filter (fun g => decide (g.type = .entity))) ([], []) with
  | .error e => .error e
  | .ok ens => match groupLoop i (localEntities ens.2) i.groups { entities := ens.1, entityRefs := ens.2 } with
    | .error e => .error e
    | .ok o => .ok { o with
        catalog := catalog2 i,
        attributes := dedup (sortBy (fun a b => decide (a ≤ b)) (definedRefs i)) }

end Verif.Convert
