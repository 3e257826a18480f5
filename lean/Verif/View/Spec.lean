import Verif.View.Model
import Verif.Util.Forall2
/-
Specification for C208-C213: what a template may rely on when it reads a resolved registry.
-/
namespace Verif.View
open Verif.Util Verif.Resolver Verif.Semconv Verif.Convert

/-- The items of `m` show those of `l`, ordered by their keys; items of one key are in the order of `l`. -/
def ShownInOrder {α β : Type} (R : α → β → Prop) (ka : α → String) (kb : β → String) (l : List α) (m : List β) : Prop :=
  m.Pairwise (fun a b => kb a ≤ kb b) ∧
  ∀ k, Forall2 R (l.filter fun a => decide (ka a = k)) (m.filter fun b => decide (kb b = k))

/-- Positions in the list of dependencies become their urls, an empty path is left out. -/
structure ShowsProv (deps : List String) (p : Prov) (v : VProv) : Prop where
  here : p.source = none → v.source = none
  there : ∀ n u, p.source = some n → deps[n]? = some u → v.source = some u
  beyond : ∀ n, p.source = some n → deps.length ≤ n → v.source = none
  noPath : p.path = "" → v.path = none
  path : p.path ≠ "" → v.path = some p.path

/-- `v` shows the attribute `a`. -/
structure ShowsAttr (deps : List String) (a : A2) (v : VAttr) : Prop where
  key : v.key = a.key
  type : v.type = a.type
  examples : v.examples = a.examples
  common : v.common = a.common
  prov : ShowsProv deps a.prov v.prov

/-- `v` shows the attribute a signal refers to, with what the signal says about it. -/
def ShowsRef (cat : List A2) (deps : List String) (r : ARef) (v : VRef) : Prop :=
  (∃ a, cat[r.base]? = some a ∧ ShowsAttr deps a v.base) ∧ v.requirement = r.requirement ∧ v.sampling = r.sampling

/-- The shape of the expressions and the names of the entities are kept, and each leaf says where its entity is. -/
def ShowsAssocs (deps : List String) (l : List (Assoc ERef)) (m : List (Assoc VERef)) : Prop :=
  mapAssocL (·.type) m = mapAssocL (·.type) l ∧
  Forall2 (fun r v => v.type = r.type ∧ ShowsProv deps { source := r.source } v.prov) (leavesL l) (leavesL m)

structure ShowsMetric (cat : List A2) (deps : List String) (m : Metric) (v : VMetric) : Prop where
  name : v.name = m.name
  instrument : v.instrument = m.instrument
  unit : v.unit = m.unit
  requirement : v.requirement = m.requirement
  common : v.common = m.common
  prov : ShowsProv deps m.prov v.prov
  attributes : Forall2 (ShowsRef cat deps) m.attributes v.attributes
  assocs : ShowsAssocs deps m.assocs v.assocs

structure ShowsSpan (cat : List A2) (deps : List String) (m : Span) (v : VSpan) : Prop where
  type : v.type = m.type
  kind : v.kind = m.kind
  name : v.name = m.name
  requirement : v.requirement = m.requirement
  common : v.common = m.common
  prov : ShowsProv deps m.prov v.prov
  attributes : Forall2 (ShowsRef cat deps) m.attributes v.attributes
  assocs : ShowsAssocs deps m.assocs v.assocs

structure ShowsEvent (cat : List A2) (deps : List String) (m : Event) (v : VEvent) : Prop where
  name : v.name = m.name
  requirement : v.requirement = m.requirement
  common : v.common = m.common
  prov : ShowsProv deps m.prov v.prov
  attributes : Forall2 (ShowsRef cat deps) m.attributes v.attributes
  assocs : ShowsAssocs deps m.assocs v.assocs

structure ShowsEntity (cat : List A2) (deps : List String) (m : Entity) (v : VEntity) : Prop where
  type : v.type = m.type
  requirement : v.requirement = m.requirement
  common : v.common = m.common
  prov : ShowsProv deps m.prov v.prov
  identity : Forall2 (ShowsRef cat deps) m.identity v.identity
  description : Forall2 (ShowsRef cat deps) m.description v.description

structure ShowsGroup (cat : List A2) (deps : List String) (m : AGroup) (v : VGroup) : Prop where
  id : v.id = m.id
  common : v.common = m.common
  prov : ShowsProv deps m.prov v.prov
  attributes : Forall2 (ShowsRef cat deps) m.attributes v.attributes

/-- A refinement is shown under its id. -/
def ShowsRefinement {α β : Type} (R : α → β → Prop) (r : Refinement α) (v : Refinement β) : Prop :=
  v.id = r.id ∧ R r.sig v.sig

/-- The view of a schema, apart from its dependencies. Every item is there, each kind in the order of its names, except
for attribute groups, which are in the order of the schema. -/
structure Shows (s : Schema) (r : VReg) : Prop where
  metrics : ShownInOrder (ShowsMetric s.out.catalog s.deps) (·.name) (·.name) s.out.metrics r.metrics
  spans : ShownInOrder (ShowsSpan s.out.catalog s.deps) (·.type) (·.type) s.out.spans r.spans
  events : ShownInOrder (ShowsEvent s.out.catalog s.deps) (·.name) (·.name) s.out.events r.events
  entities : ShownInOrder (ShowsEntity s.out.catalog s.deps) (·.type) (·.type) s.out.entities r.entities
  metricRefs : ShownInOrder (ShowsRefinement (ShowsMetric s.out.catalog s.deps)) (·.id) (·.id) s.out.metricRefs r.metricRefs
  spanRefs : ShownInOrder (ShowsRefinement (ShowsSpan s.out.catalog s.deps)) (·.id) (·.id) s.out.spanRefs r.spanRefs
  eventRefs : ShownInOrder (ShowsRefinement (ShowsEvent s.out.catalog s.deps)) (·.id) (·.id) s.out.eventRefs r.eventRefs
  entityRefs : ShownInOrder (ShowsRefinement (ShowsEntity s.out.catalog s.deps)) (·.id) (·.id) s.out.entityRefs r.entityRefs
  groups : Forall2 (ShowsGroup s.out.catalog s.deps) s.out.groups r.groups
  attributes : ∃ as, Forall2 (fun n a => s.out.catalog[n]? = some a)
      (s.out.attributes.filter fun n => decide (n < s.out.catalog.length)) as ∧
    ShownInOrder (ShowsAttr s.deps) (·.key) (·.key) as r.attributes

/-- `e` names a reference of a signal to an attribute that is not in the catalog, and the signal. A refinement of a metric
goes by the name of the metric, the others by their ids. -/
inductive Dangling (s : Schema) : NotFound → Prop where
  | metric (m : Metric) (h : m ∈ s.out.metrics) (x : ARef) (hx : x ∈ m.attributes) (hd : s.out.catalog.length ≤ x.base) :
      Dangling s ⟨"metric." ++ m.name, x.base⟩
  | metricRef (m : Refinement Metric) (h : m ∈ s.out.metricRefs) (x : ARef) (hx : x ∈ m.sig.attributes)
      (hd : s.out.catalog.length ≤ x.base) : Dangling s ⟨"metric." ++ m.sig.name, x.base⟩
  | span (m : Span) (h : m ∈ s.out.spans) (x : ARef) (hx : x ∈ m.attributes) (hd : s.out.catalog.length ≤ x.base) :
      Dangling s ⟨"span." ++ m.type, x.base⟩
  | spanRef (m : Refinement Span) (h : m ∈ s.out.spanRefs) (x : ARef) (hx : x ∈ m.sig.attributes)
      (hd : s.out.catalog.length ≤ x.base) : Dangling s ⟨"span." ++ m.id, x.base⟩
  | event (m : Event) (h : m ∈ s.out.events) (x : ARef) (hx : x ∈ m.attributes) (hd : s.out.catalog.length ≤ x.base) :
      Dangling s ⟨"event." ++ m.name, x.base⟩
  | eventRef (m : Refinement Event) (h : m ∈ s.out.eventRefs) (x : ARef) (hx : x ∈ m.sig.attributes)
      (hd : s.out.catalog.length ≤ x.base) : Dangling s ⟨"event." ++ m.id, x.base⟩
  | entity (m : Entity) (h : m ∈ s.out.entities) (x : ARef) (hx : x ∈ m.identity ∨ x ∈ m.description)
      (hd : s.out.catalog.length ≤ x.base) : Dangling s ⟨"entity." ++ m.type, x.base⟩
  | entityRef (m : Refinement Entity) (h : m ∈ s.out.entityRefs) (x : ARef) (hx : x ∈ m.sig.identity ∨ x ∈ m.sig.description)
      (hd : s.out.catalog.length ≤ x.base) : Dangling s ⟨"entity." ++ m.id, x.base⟩
  | group (m : AGroup) (h : m ∈ s.out.groups) (x : ARef) (hx : x ∈ m.attributes) (hd : s.out.catalog.length ≤ x.base) :
      Dangling s ⟨"attribute_group." ++ m.id, x.base⟩

end Verif.View
