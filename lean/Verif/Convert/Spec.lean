import Verif.Convert.CatalogProps
import Verif.Checks.Props
import Verif.Util.Forall2
/-
Specification for C13 and C14: what the items of a v2 schema say about the groups they come from.
-/
namespace Verif.Convert
open Verif.Util Verif.Resolver Verif.Semconv

/-- `g` refines a signal of its own type, rather than defining one. -/
def Refines (g : Grp) : Prop := ∃ l ∈ g.lineage, l.extendsType = some g.type

instance (g : Grp) : Decidable (Refines g) := by unfold Refines; infer_instance

/-- The groups of a type, in order. -/
def ofType (t : GroupType) (gs : List Grp) : List Grp := gs.filter fun g => g.type = t

/-- The groups that define a signal of a type, in order. -/
def definitions (t : GroupType) (gs : List Grp) : List Grp := gs.filter fun g => g.type = t ∧ ¬ Refines g

/-- `r` is the v1 reference, `x` the v2 reference: both lead to the same attribute, with the same requirement level. -/
def RefOf (i : In) (cat : List A2) (sampling : Bool) (r : Nat) (x : ARef) : Prop :=
  ∃ a b, i.catalog[r]? = some a ∧ cat[x.base]? = some b ∧ SameAttr a b ∧ x.requirement = a.requirement ∧
    x.sampling = if sampling then a.sampling else none

/-- The references of an item are those of the group, in order, without those that lead nowhere. -/
def RefsOf (i : In) (cat : List A2) (sampling : Bool) (rs : List Nat) (l : List ARef) : Prop :=
  Forall2 (RefOf i cat sampling) (rs.filter fun r => r < i.catalog.length) l

/-- An item says where its group comes from: the file, and the position among the dependencies of the registry it was
declared in, unless that is this registry. -/
def ProvOf (i : In) (g : Grp) (p : Prov) : Prop :=
  (g.lineage = none → p.source = none ∧ p.path = "") ∧
  ∀ l, g.lineage = some l → p.path = l.path ∧
    ((l.url = i.registryUrl ∨ l.url ∉ i.deps) ∧ p.source = none ∨
     l.url ≠ i.registryUrl ∧ ∃ n, p.source = some n ∧ i.deps[n]? = some l.url)

/-- Resolution recorded that the entity `name` of the associations of group `gid` is that of registry `url`. -/
def Origin (i : In) (gid name url : String) : Prop :=
  ∃ m, aget gid i.origins = some m ∧ aget name m = some url

/-- The reference `r` an association of group `gid` to `name` becomes. Without a recorded origin this registry holds
the entity. With one, `r` leads to the registry of the origin: directly, or through the entity this registry holds under
that name, when that was declared there too. -/
def LeafOf (i : In) (ents : List (Refinement Entity)) (gid name : String) (r : ERef) : Prop :=
  r.type = name ∧
  ((∀ u, ¬ Origin i gid name u) → r.source = none ∧ ∃ e ∈ ents, e.id = name) ∧
  ∀ u, Origin i gid name u →
    (u ∈ i.deps → ∃ n, i.deps[n]? = some u ∧
      (r.source = some n ∨ r.source = none ∧ ∃ e ∈ ents, e.id = name ∧ e.sig.prov.source = some n)) ∧
    (u ∉ i.deps → r.source = none)

/-- The associations of an item: the expressions of the group, with each name replaced by what it refers to. -/
def AssocsOf (i : In) (ents : List (Refinement Entity)) (g : Grp) (l : List (Assoc ERef)) : Prop :=
  mapAssocL (·.type) l = g.assocs ∧ Forall2 (LeafOf i ents g.id) (leavesL g.assocs) (leavesL l)

/-- The fields every item takes over. -/
def Plain (i : In) (g : Grp) (c : Common) (p : Prov) : Prop :=
  SameCommon g.brief g.note g.stability g.deprecated g.annotations c ∧ ProvOf i g p

/-- `m` is the v2 metric of group `g`. -/
def MetricOf (i : In) (o : Out) (g : Grp) (m : Metric) : Prop :=
  g.metricName = some m.name ∧ g.instrument = some m.instrument ∧ g.unit = some m.unit ∧
  m.requirement = g.requirement ∧ Plain i g m.common m.prov ∧
  RefsOf i o.catalog false g.attributes m.attributes ∧ AssocsOf i o.entityRefs g m.assocs

/-- `e` is the v2 event of group `g`. -/
def EventOf (i : In) (o : Out) (g : Grp) (e : Event) : Prop :=
  g.name = some e.name ∧ e.requirement = g.requirement ∧ Plain i g e.common e.prov ∧
  RefsOf i o.catalog false g.attributes e.attributes ∧ AssocsOf i o.entityRefs g e.assocs

/-- `s` is the v2 span of group `g`: its type is the id of the group, or of the one it refines, without `span.`. -/
def SpanOf (i : In) (o : Out) (g : Grp) (s : Span) : Prop :=
  (¬ Refines g → Checks.Stripped "span." g.id s.type) ∧
  (Refines g → ∃ l base, g.lineage = some l ∧ l.extendsGroup = some base ∧ Checks.Stripped "span." base s.type) ∧
  (g.spanKind = some s.kind ∨ g.spanKind = none ∧ s.kind = "internal") ∧
  (g.spanName = some s.name ∨ g.spanName = none ∧ (g.name = some s.name ∨ g.name = none ∧ s.name = "")) ∧
  s.requirement = g.requirement ∧ Plain i g s.common s.prov ∧
  RefsOf i o.catalog true g.attributes s.attributes ∧ AssocsOf i o.entityRefs g s.assocs

/-- The type an entity group declares: its name, or its id without `entity.`. -/
def DeclaredType (g : Grp) (t : String) : Prop :=
  g.name = some t ∨ g.name = none ∧ Checks.Stripped "entity." g.id t

/-- Does the v1 reference lead to an identifying attribute? -/
def Identifying (i : In) (r : Nat) : Bool :=
  match i.catalog[r]? with
  | some a => a.identifying
  | none => false

/-- `e` is the v2 entity of group `g`. A refinement has the type of what it refines: what the first group with that id
declares or, without such a group, the id itself. The attributes are split into those that identify the entity and the
others, each in order; all of them exist. -/
def EntityOf (i : In) (o : Out) (g : Grp) (e : Entity) : Prop :=
  (¬ Refines g → DeclaredType g e.type) ∧
  (Refines g → ∃ l base, g.lineage = some l ∧ l.extendsGroup = some base ∧
    ((∃ b, i.groups.find? (fun b => b.id = base) = some b ∧ DeclaredType b e.type) ∨
     (∀ b ∈ i.groups, b.id ≠ base) ∧ Checks.Stripped "entity." base e.type)) ∧
  e.requirement = g.requirement ∧ Plain i g e.common e.prov ∧
  Forall2 (RefOf i o.catalog false) (g.attributes.filter (Identifying i)) e.identity ∧
  Forall2 (RefOf i o.catalog false) (g.attributes.filter (fun r => !Identifying i r)) e.description

/-- `x` is the v2 attribute group of group `g`. -/
def GroupOf (i : In) (o : Out) (g : Grp) (x : AGroup) : Prop :=
  Checks.Stripped "attribute_group." g.id x.id ∧ Plain i g x.common x.prov ∧
  RefsOf i o.catalog false g.attributes x.attributes

end Verif.Convert
