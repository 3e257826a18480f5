import Verif.V2.Model
import Verif.Util.Forall2
import Verif.Checks.Props

/-! Properties of the translation of definition files of the second version. -/

namespace Verif.V2
open Verif.Util
open Verif.Resolver (GroupType Visibility)
variable {P : Payload}

/-! ### References -/

/-- The references to attributes in a list, in order. -/
def attrsOf : List (Item P) → List (AttrRef P)
  | [] => []
  | .attr a :: l => a :: attrsOf l
  | .group _ :: l => attrsOf l

/-- The references to groups in a list, in order. -/
def groupsOf : List (Item P) → List String
  | [] => []
  | .attr _ :: l => groupsOf l
  | .group g :: l => g :: groupsOf l

def spanAttrsOf : List (SpanItem P) → List (SpanAttr P)
  | [] => []
  | .attr a :: l => a :: spanAttrsOf l
  | .group _ :: l => spanAttrsOf l

def spanGroupsOf : List (SpanItem P) → List String
  | [] => []
  | .attr _ :: l => spanGroupsOf l
  | .group g :: l => g :: spanGroupsOf l

/-- The lists of references of a group contain every reference once and in order. -/
theorem split_eq (l : List (Item P)) : split l = ((attrsOf l).map (AttrRef.toV1 · none), groupsOf l) := by
  unfold split
  suffices h : ∀ acc : List (AttrSpec P) × List String, l.foldl splitStep acc = (acc.1 ++ (attrsOf l).map (AttrRef.toV1 · none), acc.2 ++ groupsOf l) by
    rw [h]; simp
  induction l with
  | nil => intro acc; simp [attrsOf, groupsOf]
  | cons x l ih =>
    intro acc
    cases x with
    | attr a => rw [List.foldl_cons, ih]; simp [splitStep, attrsOf, groupsOf]
    | group g => rw [List.foldl_cons, ih]; simp [splitStep, attrsOf, groupsOf]

theorem splitSpan_eq (l : List (SpanItem P)) : splitSpan l = ((spanAttrsOf l).map SpanAttr.toV1, spanGroupsOf l) := by
  unfold splitSpan
  suffices h : ∀ acc : List (AttrSpec P) × List String, l.foldl splitSpanStep acc = (acc.1 ++ (spanAttrsOf l).map SpanAttr.toV1, acc.2 ++ spanGroupsOf l) by
    rw [h]; simp
  induction l with
  | nil => intro acc; simp [spanAttrsOf, spanGroupsOf]
  | cons x l ih =>
    intro acc
    cases x with
    | attr a => rw [List.foldl_cons, ih]; simp [splitSpanStep, spanAttrsOf, spanGroupsOf]
    | group g => rw [List.foldl_cons, ih]; simp [splitSpanStep, spanAttrsOf, spanGroupsOf]

/-- What an attribute of a group refers to. -/
def AttrSpec.target : AttrSpec P → Option String
  | .ref r .. => some r
  | .id .. => none

def AttrSpec.role? : AttrSpec P → Option Role
  | .ref _ _ _ _ _ _ _ _ _ _ _ r => r
  | .id _ _ _ _ _ _ _ _ _ _ _ r => r

/-- The groups of a definition refer to exactly the attributes and groups the definition lists, in order. -/
theorem refs_kept (l : List (Item P)) :
    (split l).1.map AttrSpec.target = (attrsOf l).map (fun a => some a.ref) ∧ (split l).2 = groupsOf l ∧
    (split l).1.length + (split l).2.length = l.length := by
  rw [split_eq]
  refine ⟨by simp [AttrRef.toV1, AttrSpec.target, Function.comp_def], rfl, ?_⟩
  simp only [List.length_map]
  induction l with
  | nil => rfl
  | cons x l ih => cases x <;> simp [attrsOf, groupsOf] <;> omega

theorem span_refs_kept (l : List (SpanItem P)) :
    (splitSpan l).1.map AttrSpec.target = (spanAttrsOf l).map (fun a => some a.base.ref) ∧ (splitSpan l).2 = spanGroupsOf l ∧
    (splitSpan l).1.length + (splitSpan l).2.length = l.length := by
  rw [splitSpan_eq]
  refine ⟨by simp [SpanAttr.toV1, AttrSpec.target, Function.comp_def], rfl, ?_⟩
  simp only [List.length_map]
  induction l with
  | nil => rfl
  | cons x l ih => cases x <;> simp [spanAttrsOf, spanGroupsOf] <;> omega

/-- The attributes of an entity, with their roles. -/
theorem entity_roles (e : Entity P) :
    e.toV1.attributes.map (fun a => (a.target, a.role?)) =
      e.identity.map (fun a => (some a.ref, some .identifying)) ++ e.description.map (fun a => (some a.ref, some .descriptive)) := by
  simp [Entity.toV1, AttrRef.toV1, AttrSpec.target, AttrSpec.role?, Function.comp_def]

theorem entity_refinement_roles (e : EntityRef P) :
    e.toV1.attributes.map (fun a => (a.target, a.role?)) =
      e.identity.map (fun a => (some a.ref, some .identifying)) ++ e.description.map (fun a => (some a.ref, some .descriptive)) := by
  simp [EntityRef.toV1, AttrRef.toV1, AttrSpec.target, AttrSpec.role?, Function.comp_def]

/-! ### Nothing is lost -/

theorem annot_inj {a b : Annot P} (h : annot a = annot b) : a = b := by
  unfold annot at h
  cases a <;> cases b <;> simp_all

theorem AttrRef.toV1_inj {a b : AttrRef P} {r q : Option Role} (h : a.toV1 r = b.toV1 q) : a = b ∧ r = q := by
  obtain ⟨a1, a2, a3, a4, a5, a6, a7, a8⟩ := a
  obtain ⟨b1, b2, b3, b4, b5, b6, b7, b8⟩ := b
  simp only [AttrRef.toV1, AttrSpec.ref.injEq, true_and] at h
  obtain ⟨rfl, rfl, rfl, rfl, rfl, rfl, rfl, h8, rfl⟩ := h
  rw [annot_inj h8]
  exact ⟨rfl, rfl⟩

theorem SpanAttr.toV1_inj {a b : SpanAttr P} (h : a.toV1 = b.toV1) : a = b := by
  obtain ⟨⟨a1, a2, a3, a4, a5, a6, a7, a8⟩, a9⟩ := a
  obtain ⟨⟨b1, b2, b3, b4, b5, b6, b7, b8⟩, b9⟩ := b
  simp only [SpanAttr.toV1, AttrSpec.ref.injEq, true_and] at h
  obtain ⟨rfl, rfl, rfl, rfl, rfl, rfl, rfl, rfl, h8, -⟩ := h
  rw [annot_inj h8]

theorem Common.ext' {a b : Common P} (h1 : a.brief = b.brief) (h2 : a.note = b.note) (h3 : a.stability = b.stability)
    (h4 : a.deprecated = b.deprecated) (h5 : annot a.annotations = annot b.annotations) : a = b := by
  have := annot_inj h5
  obtain ⟨a1, a2, a3, a4, a5⟩ := a
  obtain ⟨b1, b2, b3, b4, b5⟩ := b
  simp only at h1 h2 h3 h4 this
  subst h1 h2 h3 h4 this
  rfl

theorem AttrDef.toV1_inj {a b : AttrDef P} (h : a.toV1 = b.toV1) : a = b := by
  obtain ⟨a1, a2, a3, a4⟩ := a
  obtain ⟨b1, b2, b3, b4⟩ := b
  simp only [AttrDef.toV1, AttrSpec.id.injEq, true_and, Option.some.injEq] at h
  obtain ⟨rfl, rfl, h1, rfl, h2, h3, h4, h5, -⟩ := h
  rw [Common.ext' h1 h2 h3 h4 h5]

theorem map_inj {α β : Type} {f : α → β} (hf : ∀ a b, f a = f b → a = b) {l m : List α} (h : l.map f = m.map f) : l = m := by
  induction l generalizing m with
  | nil => cases m with
    | nil => rfl
    | cons => simp at h
  | cons a l ih =>
    cases m with
    | nil => simp at h
    | cons b m =>
      simp only [List.map_cons, List.cons.injEq] at h
      rw [hf _ _ h.1, ih h.2]

/-- Two lists of references that say the same: the same attributes in the same order, and the same groups in the same order. -/
def SameRefs (l m : List (Item P)) : Prop := attrsOf l = attrsOf m ∧ groupsOf l = groupsOf m

def SameSpanRefs (l m : List (SpanItem P)) : Prop := spanAttrsOf l = spanAttrsOf m ∧ spanGroupsOf l = spanGroupsOf m

theorem split_inj {l m : List (Item P)} (h1 : (split l).1 = (split m).1) (h2 : (split l).2 = (split m).2) : SameRefs l m := by
  rw [split_eq, split_eq] at h1 h2
  exact ⟨map_inj (fun a b h => (AttrRef.toV1_inj h).1) h1, h2⟩

theorem splitSpan_inj {l m : List (SpanItem P)} (h1 : (splitSpan l).1 = (splitSpan m).1) (h2 : (splitSpan l).2 = (splitSpan m).2) :
    SameSpanRefs l m := by
  rw [splitSpan_eq, splitSpan_eq] at h1 h2
  exact ⟨map_inj (fun a b h => SpanAttr.toV1_inj h) h1, h2⟩

/-- Refinements that say the same: an empty text and no text are the same. -/
structure Refined.Same (a b : Refined P) : Prop where
  brief : a.brief.getD "" = b.brief.getD ""
  note : a.note.getD "" = b.note.getD ""
  stability : a.stability = b.stability
  deprecated : a.deprecated = b.deprecated
  annotations : a.annotations = b.annotations

structure Event.Same (a b : Event P) : Prop where
  name : a.name = b.name
  refs : SameRefs a.attributes b.attributes
  assocs : a.assocs = b.assocs
  level : a.level = b.level
  common : a.common = b.common

structure Metric.Same (a b : Metric P) : Prop where
  name : a.name = b.name
  instrument : a.instrument = b.instrument
  unit : a.unit = b.unit
  refs : SameRefs a.attributes b.attributes
  assocs : a.assocs = b.assocs
  level : a.level = b.level
  common : a.common = b.common

structure Span.Same (a b : Span P) : Prop where
  type : a.type = b.type
  kind : a.kind = b.kind
  name : a.name = b.name
  refs : SameSpanRefs a.attributes b.attributes
  assocs : a.assocs = b.assocs
  level : a.level = b.level
  common : a.common = b.common

structure EntityRef.Same (a b : EntityRef P) : Prop where
  id : a.id = b.id
  ref : a.ref = b.ref
  identity : a.identity = b.identity
  description : a.description = b.description
  refined : a.refined.Same b.refined

structure EventRef.Same (a b : EventRef P) : Prop where
  id : a.id = b.id
  ref : a.ref = b.ref
  refs : SameRefs a.attributes b.attributes
  assocs : a.assocs = b.assocs
  refined : a.refined.Same b.refined

structure MetricRef.Same (a b : MetricRef P) : Prop where
  id : a.id = b.id
  ref : a.ref = b.ref
  refs : SameRefs a.attributes b.attributes
  assocs : a.assocs = b.assocs
  refined : a.refined.Same b.refined

structure SpanRef.Same (a b : SpanRef P) : Prop where
  id : a.id = b.id
  ref : a.ref = b.ref
  name : a.name = b.name
  refs : SameSpanRefs a.attributes b.attributes
  assocs : a.assocs = b.assocs
  refined : a.refined.Same b.refined

inductive AttrGroup.Same : AttrGroup P → AttrGroup P → Prop
  | internal (i : String) (a b : List (Item P)) : SameRefs a b → AttrGroup.Same (.internal i a) (.internal i b)
  | open_ (i : String) (a b : List (Item P)) (c : Common P) : SameRefs a b → AttrGroup.Same (.open_ i a c) (.open_ i b c)

/-- Two definition files say the same. -/
structure Spec.Same (s t : Spec P) : Prop where
  attributes : s.attributes = t.attributes
  entities : s.entities = t.entities
  events : Forall2 Event.Same s.events t.events
  metrics : Forall2 Metric.Same s.metrics t.metrics
  spans : Forall2 Span.Same s.spans t.spans
  groups : Forall2 AttrGroup.Same s.groups t.groups
  entityRefs : Forall2 EntityRef.Same s.entityRefs t.entityRefs
  eventRefs : Forall2 EventRef.Same s.eventRefs t.eventRefs
  metricRefs : Forall2 MetricRef.Same s.metricRefs t.metricRefs
  spanRefs : Forall2 SpanRef.Same s.spanRefs t.spanRefs
  imports : s.imports = t.imports

theorem roles_inj {a b c d : List (AttrRef P)}
    (h : a.map (AttrRef.toV1 · (some Role.identifying)) ++ b.map (AttrRef.toV1 · (some Role.descriptive)) =
      c.map (AttrRef.toV1 · (some Role.identifying)) ++ d.map (AttrRef.toV1 · (some Role.descriptive))) : a = c ∧ b = d := by
  induction a generalizing c with
  | nil =>
    cases c with
    | nil => exact ⟨rfl, map_inj (fun a b h => (AttrRef.toV1_inj h).1) h⟩
    | cons x c =>
      cases b with
      | nil => simp at h
      | cons y b =>
        simp only [List.map_nil, List.nil_append, List.map_cons, List.cons_append, List.cons.injEq] at h
        have := (AttrRef.toV1_inj h.1).2
        cases this
  | cons x a ih =>
    cases c with
    | nil =>
      cases d with
      | nil => simp at h
      | cons y d =>
        simp only [List.map_nil, List.nil_append, List.map_cons, List.cons_append, List.cons.injEq] at h
        have := (AttrRef.toV1_inj h.1).2
        cases this
    | cons y c =>
      simp only [List.map_cons, List.cons_append, List.cons.injEq] at h
      obtain ⟨rfl, rfl⟩ := ih h.2
      rw [(AttrRef.toV1_inj h.1).1]
      exact ⟨rfl, rfl⟩

theorem append_left_inj {p a b : String} (h : p ++ a = p ++ b) : a = b := by
  have := congrArg String.toList h
  rw [String.toList_append, String.toList_append] at this
  exact String.toList_injective (List.append_cancel_left this)

theorem Entity.toV1_inj {a b : Entity P} (h : a.toV1 = b.toV1) : a = b := by
  obtain ⟨a1, a2, a3, a4, a5⟩ := a
  obtain ⟨b1, b2, b3, b4, b5⟩ := b
  simp only [Entity.toV1, Group.mk.injEq, true_and, Option.some.injEq, and_true] at h
  obtain ⟨-, h1, h2, h3, h4, h5, rfl, h6, rfl⟩ := h
  obtain ⟨rfl, rfl⟩ := roles_inj h5
  rw [Common.ext' h1 h2 h3 h4 h6]

theorem EntityRef.toV1_inj {a b : EntityRef P} (h : a.toV1 = b.toV1) : a.Same b := by
  obtain ⟨a1, a2, a3, a4, a5⟩ := a
  obtain ⟨b1, b2, b3, b4, b5⟩ := b
  simp only [EntityRef.toV1, Group.mk.injEq, true_and, Option.some.injEq, and_true] at h
  obtain ⟨rfl, h1, h2, hr, h3, h4, h5, -, h6⟩ := h
  obtain ⟨rfl, rfl⟩ := roles_inj h5
  exact ⟨rfl, append_left_inj hr, rfl, rfl, ⟨h1, h2, h3, h4, annot_inj h6⟩⟩

theorem Event.toV1_inj {a b : Event P} (h : a.toV1 = b.toV1) : a.Same b := by
  simp only [Event.toV1, Group.mk.injEq, true_and, Option.some.injEq, and_true] at h
  obtain ⟨-, h1, h2, h3, h4, h5, h6, h7, h8, h9, h10⟩ := h
  exact ⟨h6, split_inj h5 h9, h8, h10, Common.ext' h1 h2 h3 h4 h7⟩

theorem EventRef.toV1_inj {a b : EventRef P} (h : a.toV1 = b.toV1) : a.Same b := by
  simp only [EventRef.toV1, Group.mk.injEq, true_and, Option.some.injEq, and_true] at h
  obtain ⟨h0, h1, h2, hr, h3, h4, h5, -, h7, h8, h9⟩ := h
  exact ⟨h0, append_left_inj hr, split_inj h5 h9, h8, ⟨h1, h2, h3, h4, annot_inj h7⟩⟩

theorem Metric.toV1_inj {a b : Metric P} (h : a.toV1 = b.toV1) : a.Same b := by
  simp only [Metric.toV1, Group.mk.injEq, true_and, Option.some.injEq, and_true] at h
  obtain ⟨-, h1, h2, h3, h4, h5, h6, h7, h8, h9, h10, h11, h12⟩ := h
  exact ⟨h6, h7, h8, split_inj h5 h11, h10, h12, Common.ext' h1 h2 h3 h4 h9⟩

theorem MetricRef.toV1_inj {a b : MetricRef P} (h : a.toV1 = b.toV1) : a.Same b := by
  simp only [MetricRef.toV1, Group.mk.injEq, true_and, Option.some.injEq, and_true] at h
  obtain ⟨h0, h1, h2, hr, h3, h4, h5, h7, h8, h9⟩ := h
  exact ⟨h0, append_left_inj hr, split_inj h5 h9, h8, ⟨h1, h2, h3, h4, annot_inj h7⟩⟩

theorem Span.toV1_inj {a b : Span P} (h : a.toV1 = b.toV1) : a.Same b := by
  simp only [Span.toV1, Group.mk.injEq, true_and, Option.some.injEq, and_true] at h
  obtain ⟨-, h1, h2, h3, h4, h5, h6, h7, h8, h9, h10, h11, h12⟩ := h
  exact ⟨h7, h6, h11, splitSpan_inj h5 h10, h9, h12, Common.ext' h1 h2 h3 h4 h8⟩

theorem SpanRef.toV1_inj {a b : SpanRef P} (h : a.toV1 = b.toV1) : a.Same b := by
  simp only [SpanRef.toV1, Group.mk.injEq, true_and, Option.some.injEq, and_true] at h
  obtain ⟨h0, h1, h2, hr, h3, h4, h5, -, h7, h8, h9, h10⟩ := h
  exact ⟨h0, append_left_inj hr, h10, splitSpan_inj h5 h9, h8, ⟨h1, h2, h3, h4, annot_inj h7⟩⟩

theorem AttrGroup.toV1_inj {a b : AttrGroup P} (h : a.toV1 = b.toV1) : a.Same b := by
  cases a with
  | internal i l =>
    cases b with
    | internal j m =>
      simp only [AttrGroup.toV1, Group.mk.injEq, true_and, Option.some.injEq, and_true] at h
      obtain ⟨rfl, -, h1, h2⟩ := h
      exact .internal _ _ _ (split_inj h1 h2)
    | open_ j m c =>
      simp [AttrGroup.toV1] at h
  | open_ i l c =>
    cases b with
    | internal j m => simp [AttrGroup.toV1] at h
    | open_ j m d =>
      simp only [AttrGroup.toV1, Group.mk.injEq, true_and, Option.some.injEq, and_true] at h
      obtain ⟨rfl, h1, h2, h3, h4, h5, h6, h7⟩ := h
      have : c = d := Common.ext' h1 h2 h3 h4 h6
      subst this
      exact .open_ _ _ _ _ (split_inj h5 h7)

/-- The kind of definition a group comes from. -/
def section_ (g : Group P) : GroupType × Bool × Bool := (g.type, g.extend.isSome, g.visibility.isSome)

theorem filter_section {α : Type} (f : α → Group P) (k : GroupType × Bool × Bool) (h : ∀ a, section_ (f a) = k) (l : List α)
    (k' : GroupType × Bool × Bool) : (l.map f).filter (fun g => section_ g = k') = if k = k' then l.map f else [] := by
  induction l with
  | nil => split <;> rfl
  | cons a l ih =>
    rw [List.map_cons, List.filter_cons, ih, h a]
    by_cases hk : k = k' <;> simp [hk]

theorem forall2_map {α β : Type} {f : α → β} {R : α → α → Prop} (hf : ∀ a b, f a = f b → R a b) {l m : List α}
    (h : l.map f = m.map f) : Forall2 R l m := by
  induction l generalizing m with
  | nil => cases m with
    | nil => exact .nil
    | cons => simp at h
  | cons a l ih =>
    cases m with
    | nil => simp at h
    | cons b m =>
      simp only [List.map_cons, List.cons.injEq] at h
      exact .cons (hf _ _ h.1) (ih h.2)

theorem filter_attributeGroup (file : String) (l : List (AttrDef P)) (k' : GroupType × Bool × Bool) :
    (attributeGroup file l).filter (fun g => section_ g = k') =
      if (GroupType.attributeGroup, false, false) = k' then attributeGroup file l else [] := by
  unfold attributeGroup
  split
  · split <;> rfl
  · rw [List.filter_cons, List.filter_nil]
    by_cases hk : (GroupType.attributeGroup, false, false) = k'
    · rw [if_pos hk, if_pos]
      simp [section_, hk]
    · rw [if_neg hk, if_neg]
      intro h
      exact hk (by simpa [section_] using of_decide_eq_true h)

/-- Two definition files with the same translation say the same: nothing of a definition is lost. -/
theorem nothing_lost (file : String) (s t : Spec P) (h : s.toV1 file = t.toV1 file) : s.Same t := by
  simp only [Spec.toV1, SpecV1.mk.injEq] at h
  obtain ⟨h, himp⟩ := h
  have key : ∀ k, (s.toV1 file).groups.filter (fun g => section_ g = k) = (t.toV1 file).groups.filter (fun g => section_ g = k) := by
    intro k
    show List.filter _ (_ ++ _) = List.filter _ (_ ++ _)
    rw [h]
  have f1 := fun l k' => filter_section (P := P) Entity.toV1 (.entity, false, false) (fun _ => rfl) l k'
  have f2 := fun l k' => filter_section (P := P) Event.toV1 (.event, false, false) (fun _ => rfl) l k'
  have f3 := fun l k' => filter_section (P := P) Metric.toV1 (.metric, false, false) (fun _ => rfl) l k'
  have f4 := fun l k' => filter_section (P := P) Span.toV1 (.span, false, false) (fun _ => rfl) l k'
  have f5 := fun l k' => filter_section (P := P) AttrGroup.toV1 (.attributeGroup, false, true) (fun a => by cases a <;> rfl) l k'
  have f6 := fun l k' => filter_section (P := P) EntityRef.toV1 (.entity, true, false) (fun _ => rfl) l k'
  have f7 := fun l k' => filter_section (P := P) EventRef.toV1 (.event, true, false) (fun _ => rfl) l k'
  have f8 := fun l k' => filter_section (P := P) MetricRef.toV1 (.metric, true, false) (fun _ => rfl) l k'
  have f9 := fun l k' => filter_section (P := P) SpanRef.toV1 (.span, true, false) (fun _ => rfl) l k'
  simp only [Spec.toV1, List.filter_append, f1, f2, f3, f4, f5, f6, f7, f8, f9, filter_attributeGroup] at key
  have k0 := key (.attributeGroup, false, false)
  have k1 := key (.entity, false, false)
  have k2 := key (.event, false, false)
  have k3 := key (.metric, false, false)
  have k4 := key (.span, false, false)
  have k5 := key (.attributeGroup, false, true)
  have k6 := key (.entity, true, false)
  have k7 := key (.event, true, false)
  have k8 := key (.metric, true, false)
  have k9 := key (.span, true, false)
  simp only [reduceCtorEq, Prod.mk.injEq, and_self, and_true, and_false, false_and, true_and, if_true, if_false, List.nil_append, List.append_nil,
    Bool.true_eq_false, Bool.false_eq_true] at k0 k1 k2 k3 k4 k5 k6 k7 k8 k9
  refine ⟨?_, map_inj (fun _ _ => Entity.toV1_inj) k1, forall2_map (fun _ _ => Event.toV1_inj) k2,
    forall2_map (fun _ _ => Metric.toV1_inj) k3, forall2_map (fun _ _ => Span.toV1_inj) k4,
    forall2_map (fun _ _ => AttrGroup.toV1_inj) k5, forall2_map (fun _ _ => EntityRef.toV1_inj) k6,
    forall2_map (fun _ _ => EventRef.toV1_inj) k7, forall2_map (fun _ _ => MetricRef.toV1_inj) k8,
    forall2_map (fun _ _ => SpanRef.toV1_inj) k9, himp⟩
  unfold attributeGroup at k0
  cases hs : s.attributes with
  | nil =>
    cases ht : t.attributes with
    | nil => rfl
    | cons b m => rw [hs, ht] at k0; cases k0
  | cons a l =>
    cases ht : t.attributes with
    | nil => rw [hs, ht] at k0; cases k0
    | cons b m =>
      rw [hs, ht] at k0
      simp only [List.isEmpty_cons, Bool.false_eq_true, if_false, List.cons.injEq, Group.mk.injEq, true_and, and_true] at k0
      exact map_inj (fun _ _ => AttrDef.toV1_inj) k0

/-! ### What the groups say -/

/-- The annotations of a group or attribute, an absent map being empty. -/
def entries (m : Option (Annot P)) : Annot P := m.getD []

theorem entries_annot (a : Annot P) : entries (annot a) = a := by
  unfold entries annot
  cases a <;> rfl

/-- A group says what the common fields of a definition say. -/
structure Group.Describes (g : Group P) (c : Common P) : Prop where
  brief : g.brief = c.brief
  note : g.note = c.note
  stability : g.stability = some c.stability
  deprecated : g.deprecated = c.deprecated
  annotations : entries g.annotations = c.annotations

/-- A group says what a refinement says, with empty texts for absent ones. -/
structure Group.Refines (g : Group P) (r : Refined P) (base : String) : Prop where
  brief : g.brief = r.brief.getD ""
  note : g.note = r.note.getD ""
  stability : g.stability = r.stability
  deprecated : g.deprecated = r.deprecated
  annotations : entries g.annotations = r.annotations
  extend : g.extend = some base

/-- An attribute of a group says what a reference says. -/
inductive RefersTo : AttrSpec P → AttrRef P → Option Bool → Option Role → Prop
  | mk (a : AttrRef P) (s : Option Bool) (r : Option Role) (m : Option (Annot P)) : entries m = a.annotations →
      RefersTo (.ref a.ref a.brief a.examples none a.level s a.note a.stability a.deprecated false m r) a s r

inductive Defines : AttrSpec P → AttrDef P → Prop
  | mk (a : AttrDef P) (m : Option (Annot P)) : entries m = a.common.annotations →
      Defines (.id a.key a.type (some a.common.brief) a.examples none none none a.common.note (some a.common.stability)
        a.common.deprecated m none) a

theorem forall2_of_map {α β : Type} {R : β → α → Prop} (f : α → β) (h : ∀ a, R (f a) a) (l : List α) : Forall2 R (l.map f) l := by
  induction l with
  | nil => exact .nil
  | cons a l ih => exact .cons (h a) ih

theorem AttrRef.refersTo (a : AttrRef P) (r : Option Role) : RefersTo (a.toV1 r) a none r := .mk a none r _ (entries_annot _)

/-- Every attribute definition of a file is in the group of the file, in order. -/
theorem attributes_kept (file : String) (s : Spec P) (h : s.attributes ≠ []) :
    ∃ g ∈ (s.toV1 file).groups, g.id = "registry." ++ file ∧ g.type = .attributeGroup ∧ g.pre = "" ∧ g.isV2 = true ∧
      g.visibility = none ∧ g.extend = none ∧ Forall2 Defines g.attributes s.attributes := by
  unfold Spec.toV1 attributeGroup
  cases ha : s.attributes with
  | nil => exact absurd ha h
  | cons a l =>
    dsimp only [List.isEmpty_cons]
    rw [if_neg (by decide)]
    refine ⟨_, by simp only [List.append_assoc, List.cons_append]; exact List.mem_cons_self, rfl, rfl, rfl, rfl, rfl, rfl, ?_⟩
    exact forall2_of_map _ (fun a => .mk a _ (entries_annot _)) (a :: l)

/-- Every entity, event, metric and span of a file has its group. -/
theorem entity_kept (file : String) (s : Spec P) (e : Entity P) (h : e ∈ s.entities) :
    ∃ g ∈ (s.toV1 file).groups, g.id = "entity." ++ e.type ∧ g.type = .entity ∧ g.name = some e.type ∧ g.Describes e.common ∧
      g.level = e.level ∧ g.pre = "" ∧ g.isV2 = true ∧ g.extend = none ∧
      ∃ a b, g.attributes = a ++ b ∧ Forall2 (RefersTo · · none (some .identifying)) a e.identity ∧
        Forall2 (RefersTo · · none (some .descriptive)) b e.description := by
  refine ⟨e.toV1, by simp [Spec.toV1]; exact .inr (.inl ⟨e, h, rfl⟩), rfl, rfl, rfl, ⟨rfl, rfl, rfl, rfl, entries_annot _⟩, rfl, rfl,
    rfl, rfl, _, _, rfl, ?_, ?_⟩
  · exact forall2_of_map _ (fun a => a.refersTo _) _
  · exact forall2_of_map _ (fun a => a.refersTo _) _

theorem event_kept (file : String) (s : Spec P) (e : Event P) (h : e ∈ s.events) :
    ∃ g ∈ (s.toV1 file).groups, g.id = "event." ++ e.name ∧ g.type = .event ∧ g.name = some e.name ∧ g.Describes e.common ∧
      g.level = e.level ∧ g.assocs = e.assocs ∧ g.pre = "" ∧ g.isV2 = true ∧ g.extend = none ∧
      Forall2 (RefersTo · · none none) g.attributes (attrsOf e.attributes) ∧ g.includes = groupsOf e.attributes := by
  refine ⟨e.toV1, by simp [Spec.toV1]; exact .inr (.inr (.inl ⟨e, h, rfl⟩)), rfl, rfl, rfl, ⟨rfl, rfl, rfl, rfl, entries_annot _⟩, rfl,
    rfl, rfl, rfl, rfl, ?_, ?_⟩
  · unfold Event.toV1; dsimp only; rw [split_eq]
    exact forall2_of_map _ (fun a => a.refersTo _) _
  · unfold Event.toV1; dsimp only; rw [split_eq]

theorem metric_kept (file : String) (s : Spec P) (m : Metric P) (h : m ∈ s.metrics) :
    ∃ g ∈ (s.toV1 file).groups, g.id = "metric." ++ m.name ∧ g.type = .metric ∧ g.metricName = some m.name ∧
      g.instrument = some m.instrument ∧ g.unit = some m.unit ∧ g.Describes m.common ∧
      g.level = m.level ∧ g.assocs = m.assocs ∧ g.pre = "" ∧ g.isV2 = true ∧ g.extend = none ∧
      Forall2 (RefersTo · · none none) g.attributes (attrsOf m.attributes) ∧ g.includes = groupsOf m.attributes := by
  refine ⟨m.toV1, by simp [Spec.toV1]; exact .inr (.inr (.inr (.inl ⟨m, h, rfl⟩))), rfl, rfl, rfl, rfl, rfl,
    ⟨rfl, rfl, rfl, rfl, entries_annot _⟩, rfl, rfl, rfl, rfl, rfl, ?_, ?_⟩
  · unfold Metric.toV1; dsimp only; rw [split_eq]
    exact forall2_of_map _ (fun a => a.refersTo _) _
  · unfold Metric.toV1; dsimp only; rw [split_eq]

theorem span_kept (file : String) (s : Spec P) (x : Span P) (h : x ∈ s.spans) :
    ∃ g ∈ (s.toV1 file).groups, g.id = "span." ++ x.type ∧ g.type = .span ∧ g.name = some x.type ∧ g.kind = some x.kind ∧
      g.spanName = some x.name ∧ g.Describes x.common ∧ g.level = x.level ∧ g.assocs = x.assocs ∧ g.pre = "" ∧ g.isV2 = true ∧
      g.extend = none ∧ Forall2 (fun g a => RefersTo g a.base a.sampling none) g.attributes (spanAttrsOf x.attributes) ∧
      g.includes = spanGroupsOf x.attributes := by
  refine ⟨x.toV1, by simp [Spec.toV1]; exact .inr (.inr (.inr (.inr (.inl ⟨x, h, rfl⟩)))), rfl, rfl, rfl, rfl, rfl,
    ⟨rfl, rfl, rfl, rfl, entries_annot _⟩, rfl, rfl, rfl, rfl, rfl, ?_, ?_⟩
  · unfold Span.toV1; dsimp only; rw [splitSpan_eq]
    exact forall2_of_map _ (fun a => .mk a.base a.sampling none _ (entries_annot _)) _
  · unfold Span.toV1; dsimp only; rw [splitSpan_eq]

/-- Every attribute group has its group; only the internal ones are marked so. -/
theorem internal_kept (file : String) (s : Spec P) (i : String) (l : List (Item P)) (h : .internal i l ∈ s.groups) :
    ∃ g ∈ (s.toV1 file).groups, g.id = i ∧ g.type = .attributeGroup ∧ g.visibility = some .internalVis ∧ g.pre = "" ∧ g.isV2 = true ∧
      g.extend = none ∧ Forall2 (RefersTo · · none none) g.attributes (attrsOf l) ∧ g.includes = groupsOf l := by
  refine ⟨AttrGroup.toV1 (.internal i l), by simp only [Spec.toV1, List.mem_append, List.mem_map]; grind, rfl, rfl, rfl, rfl, rfl, rfl, ?_, ?_⟩
  · unfold AttrGroup.toV1; dsimp only; rw [split_eq]
    exact forall2_of_map _ (fun a => a.refersTo _) _
  · unfold AttrGroup.toV1; dsimp only; rw [split_eq]

theorem open_kept (file : String) (s : Spec P) (i : String) (l : List (Item P)) (c : Common P) (h : .open_ i l c ∈ s.groups) :
    ∃ g ∈ (s.toV1 file).groups, g.id = i ∧ g.type = .attributeGroup ∧ g.visibility = some .publicVis ∧ g.Describes c ∧ g.pre = "" ∧
      g.isV2 = true ∧ g.extend = none ∧
      Forall2 (RefersTo · · none none) g.attributes (attrsOf l) ∧ g.includes = groupsOf l := by
  refine ⟨AttrGroup.toV1 (.open_ i l c), by simp only [Spec.toV1, List.mem_append, List.mem_map]; grind, rfl, rfl, rfl,
    ⟨rfl, rfl, rfl, rfl, entries_annot _⟩, rfl, rfl, rfl, ?_, ?_⟩
  · unfold AttrGroup.toV1; dsimp only; rw [split_eq]
    exact forall2_of_map _ (fun a => a.refersTo _) _
  · unfold AttrGroup.toV1; dsimp only; rw [split_eq]

/-- Every refinement has its group, which extends the group of the signal it refines. -/
theorem entity_refinement_kept (file : String) (s : Spec P) (e : EntityRef P) (h : e ∈ s.entityRefs) :
    ∃ g ∈ (s.toV1 file).groups, g.id = e.id ∧ g.type = .entity ∧ g.name = some e.id ∧ g.Refines e.refined ("entity." ++ e.ref) ∧
      g.level = none ∧ g.pre = "" ∧ g.isV2 = true ∧
      ∃ a b, g.attributes = a ++ b ∧ Forall2 (RefersTo · · none (some .identifying)) a e.identity ∧
        Forall2 (RefersTo · · none (some .descriptive)) b e.description := by
  refine ⟨e.toV1, by simp only [Spec.toV1, List.mem_append, List.mem_map]; grind, rfl, rfl, rfl,
    ⟨rfl, rfl, rfl, rfl, entries_annot _, rfl⟩, rfl, rfl, rfl, _, _, rfl, ?_, ?_⟩
  · exact forall2_of_map _ (fun a => a.refersTo _) _
  · exact forall2_of_map _ (fun a => a.refersTo _) _

theorem event_refinement_kept (file : String) (s : Spec P) (e : EventRef P) (h : e ∈ s.eventRefs) :
    ∃ g ∈ (s.toV1 file).groups, g.id = e.id ∧ g.type = .event ∧ g.name = some e.id ∧ g.Refines e.refined ("event." ++ e.ref) ∧
      g.level = none ∧ g.assocs = e.assocs ∧ g.pre = "" ∧ g.isV2 = true ∧
      Forall2 (RefersTo · · none none) g.attributes (attrsOf e.attributes) ∧ g.includes = groupsOf e.attributes := by
  refine ⟨e.toV1, by simp only [Spec.toV1, List.mem_append, List.mem_map]; grind, rfl, rfl, rfl,
    ⟨rfl, rfl, rfl, rfl, entries_annot _, rfl⟩, rfl, rfl, rfl, rfl, ?_, ?_⟩
  · unfold EventRef.toV1; dsimp only; rw [split_eq]
    exact forall2_of_map _ (fun a => a.refersTo _) _
  · unfold EventRef.toV1; dsimp only; rw [split_eq]

theorem metric_refinement_kept (file : String) (s : Spec P) (e : MetricRef P) (h : e ∈ s.metricRefs) :
    ∃ g ∈ (s.toV1 file).groups, g.id = e.id ∧ g.type = .metric ∧ g.metricName = none ∧ g.Refines e.refined ("metric." ++ e.ref) ∧
      g.level = none ∧ g.assocs = e.assocs ∧ g.pre = "" ∧ g.isV2 = true ∧
      Forall2 (RefersTo · · none none) g.attributes (attrsOf e.attributes) ∧ g.includes = groupsOf e.attributes := by
  refine ⟨e.toV1, by simp only [Spec.toV1, List.mem_append, List.mem_map]; grind, rfl, rfl, rfl,
    ⟨rfl, rfl, rfl, rfl, entries_annot _, rfl⟩, rfl, rfl, rfl, rfl, ?_, ?_⟩
  · unfold MetricRef.toV1; dsimp only; rw [split_eq]
    exact forall2_of_map _ (fun a => a.refersTo _) _
  · unfold MetricRef.toV1; dsimp only; rw [split_eq]

theorem span_refinement_kept (file : String) (s : Spec P) (e : SpanRef P) (h : e ∈ s.spanRefs) :
    ∃ g ∈ (s.toV1 file).groups, g.id = e.id ∧ g.type = .span ∧ g.name = some e.id ∧ g.Refines e.refined ("span." ++ e.ref) ∧
      g.kind = none ∧ g.spanName = e.name ∧ g.level = none ∧ g.assocs = e.assocs ∧ g.pre = "" ∧ g.isV2 = true ∧
      Forall2 (fun g a => RefersTo g a.base a.sampling none) g.attributes (spanAttrsOf e.attributes) ∧
      g.includes = spanGroupsOf e.attributes := by
  refine ⟨e.toV1, by simp only [Spec.toV1, List.mem_append, List.mem_map]; grind, rfl, rfl, rfl,
    ⟨rfl, rfl, rfl, rfl, entries_annot _, rfl⟩, rfl, rfl, rfl, rfl, rfl, rfl, ?_, ?_⟩
  · unfold SpanRef.toV1; dsimp only; rw [splitSpan_eq]
    exact forall2_of_map _ (fun a => .mk a.base a.sampling none _ (entries_annot _)) _
  · unfold SpanRef.toV1; dsimp only; rw [splitSpan_eq]

/-- There are no groups but those of the definitions: one for the attribute definitions if there are any, and one for each
other definition. -/
theorem groups_count (file : String) (s : Spec P) :
    (s.toV1 file).groups.length = (if s.attributes = [] then 0 else 1) + s.entities.length + s.events.length + s.metrics.length +
      s.spans.length + s.groups.length + s.entityRefs.length + s.eventRefs.length + s.metricRefs.length + s.spanRefs.length := by
  have ha : (attributeGroup file s.attributes).length = if s.attributes = [] then 0 else 1 := by
    unfold attributeGroup
    cases s.attributes <;> simp
  simp only [Spec.toV1, List.length_append, List.length_map, ha]

/-! ### Ids -/

/-- The ids that are given by the definitions themselves: those of attribute groups and of refinements. -/
def AttrGroup.id : AttrGroup P → String
  | .internal i _ => i
  | .open_ i _ _ => i

def Spec.rawIds (s : Spec P) : List String :=
  s.groups.map AttrGroup.id ++ s.entityRefs.map EntityRef.id ++ s.eventRefs.map EventRef.id ++ s.metricRefs.map MetricRef.id ++
    s.spanRefs.map SpanRef.id

/-- The ids of the groups. -/
theorem ids_eq (file : String) (s : Spec P) :
    (s.toV1 file).groups.map Group.id = (if s.attributes = [] then [] else ["registry." ++ file]) ++
      s.entities.map (fun e => "entity." ++ e.type) ++ s.events.map (fun e => "event." ++ e.name) ++
      s.metrics.map (fun m => "metric." ++ m.name) ++ s.spans.map (fun x => "span." ++ x.type) ++ s.rawIds := by
  have hg : ∀ g : AttrGroup P, g.toV1.id = g.id := by intro g; cases g <;> rfl
  have ha : (attributeGroup file s.attributes).map Group.id = if s.attributes = [] then [] else ["registry." ++ file] := by
    unfold attributeGroup
    cases s.attributes <;> simp
  simp only [Spec.toV1, List.map_append, List.map_map, Function.comp_def, ha, hg, Spec.rawIds, List.append_assoc]
  rfl

/-- The prefixes of the ids of signals and of the group of attribute definitions. -/
def prefixes : List String := ["registry.", "entity.", "event.", "metric.", "span."]

theorem prefix_ne {p q a b : String} (h : p ++ a = q ++ b) (hp : p ∈ prefixes) (hq : q ∈ prefixes) : p = q := by
  have h' := congrArg String.toList h
  rw [String.toList_append, String.toList_append] at h'
  unfold prefixes at hp hq
  simp only [List.mem_cons, List.not_mem_nil, or_false] at hp hq
  rcases hp with rfl | rfl | rfl | rfl | rfl <;> rcases hq with rfl | rfl | rfl | rfl | rfl <;>
    first | rfl | (exact absurd h' (by simp))

theorem nodup_map_prefix {α : Type} (p : String) (f : α → String) (l : List α) (h : (l.map f).Nodup) :
    (l.map fun a => p ++ f a).Nodup := by
  induction l with
  | nil => exact List.nodup_nil
  | cons a l ih =>
    rw [List.map_cons, List.nodup_cons] at h ⊢
    refine ⟨?_, ih h.2⟩
    intro hm
    obtain ⟨b, hb, he⟩ := List.mem_map.1 hm
    exact h.1 (List.mem_map.2 ⟨b, hb, append_left_inj he⟩)

/-- If no definition is given twice, and the ids of attribute groups and refinements do not look like those of signals, all
groups have different ids. -/
theorem ids_distinct_partial (file : String) (s : Spec P) (h1 : (s.entities.map Entity.type).Nodup) (h2 : (s.events.map Event.name).Nodup)
    (h3 : (s.metrics.map Metric.name).Nodup) (h4 : (s.spans.map Span.type).Nodup) (h5 : s.rawIds.Nodup)
    (h6 : ∀ i ∈ s.rawIds, ∀ p ∈ prefixes, ∀ x, i ≠ p ++ x) : ((s.toV1 file).groups.map Group.id).Nodup := by
  rw [ids_eq]
  have hp : ∀ p q : String, p ∈ prefixes → q ∈ prefixes → p ≠ q → ∀ a b : String, p ++ a ≠ q ++ b :=
    fun p q hp hq hne a b he => hne (prefix_ne he hp hq)
  have n0 : (if s.attributes = [] then [] else ["registry." ++ file]).Nodup := by split <;> simp
  have hr : ∀ p ∈ prefixes, ∀ x, p ++ x ∉ s.rawIds := fun p hp x hm => h6 _ hm p hp x rfl
  have e0 : ∀ i ∈ (if s.attributes = [] then [] else ["registry." ++ file]), ∃ x, i = "registry." ++ x := by
    intro i hi; split at hi <;> simp at hi; exact ⟨_, hi⟩
  have mem : ∀ p : String, p = "registry." ∨ p = "entity." ∨ p = "event." ∨ p = "metric." ∨ p = "span." → p ∈ prefixes := by
    intro p h; unfold prefixes; simpa using h
  simp only [List.nodup_append]
  refine ⟨⟨⟨⟨⟨n0, nodup_map_prefix _ _ _ h1, ?_⟩, nodup_map_prefix _ _ _ h2, ?_⟩, nodup_map_prefix _ _ _ h3, ?_⟩,
    nodup_map_prefix _ _ _ h4, ?_⟩, h5, ?_⟩
  · intro a ha b hb
    obtain ⟨x, rfl⟩ := e0 a ha
    obtain ⟨y, -, rfl⟩ := List.mem_map.1 hb
    exact hp _ _ (mem _ (by simp)) (mem _ (by simp)) (by decide) _ _
  · intro a ha b hb
    obtain ⟨y, -, rfl⟩ := List.mem_map.1 hb
    rcases List.mem_append.1 ha with ha | ha
    · obtain ⟨x, rfl⟩ := e0 a ha
      exact hp _ _ (mem _ (by simp)) (mem _ (by simp)) (by decide) _ _
    · obtain ⟨x, -, rfl⟩ := List.mem_map.1 ha
      exact hp _ _ (mem _ (by simp)) (mem _ (by simp)) (by decide) _ _
  · intro a ha b hb
    obtain ⟨y, -, rfl⟩ := List.mem_map.1 hb
    rcases List.mem_append.1 ha with ha | ha
    · rcases List.mem_append.1 ha with ha | ha
      · obtain ⟨x, rfl⟩ := e0 a ha
        exact hp _ _ (mem _ (by simp)) (mem _ (by simp)) (by decide) _ _
      · obtain ⟨x, -, rfl⟩ := List.mem_map.1 ha
        exact hp _ _ (mem _ (by simp)) (mem _ (by simp)) (by decide) _ _
    · obtain ⟨x, -, rfl⟩ := List.mem_map.1 ha
      exact hp _ _ (mem _ (by simp)) (mem _ (by simp)) (by decide) _ _
  · intro a ha b hb
    obtain ⟨y, -, rfl⟩ := List.mem_map.1 hb
    rcases List.mem_append.1 ha with ha | ha
    · rcases List.mem_append.1 ha with ha | ha
      · rcases List.mem_append.1 ha with ha | ha
        · obtain ⟨x, rfl⟩ := e0 a ha
          exact hp _ _ (mem _ (by simp)) (mem _ (by simp)) (by decide) _ _
        · obtain ⟨x, -, rfl⟩ := List.mem_map.1 ha
          exact hp _ _ (mem _ (by simp)) (mem _ (by simp)) (by decide) _ _
      · obtain ⟨x, -, rfl⟩ := List.mem_map.1 ha
        exact hp _ _ (mem _ (by simp)) (mem _ (by simp)) (by decide) _ _
    · obtain ⟨x, -, rfl⟩ := List.mem_map.1 ha
      exact hp _ _ (mem _ (by simp)) (mem _ (by simp)) (by decide) _ _
  · intro a ha b hb he
    subst he
    rcases List.mem_append.1 ha with ha | ha
    · rcases List.mem_append.1 ha with ha | ha
      · rcases List.mem_append.1 ha with ha | ha
        · rcases List.mem_append.1 ha with ha | ha
          · obtain ⟨x, rfl⟩ := e0 a ha
            exact hr _ (mem _ (by simp)) _ hb
          · obtain ⟨x, -, rfl⟩ := List.mem_map.1 ha
            exact hr _ (mem _ (by simp)) _ hb
        · obtain ⟨x, -, rfl⟩ := List.mem_map.1 ha
          exact hr _ (mem _ (by simp)) _ hb
      · obtain ⟨x, -, rfl⟩ := List.mem_map.1 ha
        exact hr _ (mem _ (by simp)) _ hb
    · obtain ⟨x, -, rfl⟩ := List.mem_map.1 ha
      exact hr _ (mem _ (by simp)) _ hb

/-- Payloads without content. -/
def unitPayload : Payload := ⟨Unit, Unit, Unit, Unit, Unit, Unit, Unit, Unit, Unit, Unit, Unit, Unit⟩

def noCommon : Common unitPayload := ⟨"b", "", (), none, []⟩

/-- An event and an attribute group with different names of their own get one id. -/
theorem ids_distinct_refuted (file : String) : ∃ s : Spec unitPayload, s.events.map Event.name = ["start"] ∧
    s.rawIds = ["event.start"] ∧ s.entities = [] ∧ s.metrics = [] ∧ s.spans = [] ∧ s.attributes = [] ∧
    ¬ ((s.toV1 file).groups.map Group.id).Nodup :=
  ⟨{ events := [⟨"start", [], [], none, noCommon⟩], groups := [.internal "event.start" []] }, rfl, rfl, rfl, rfl, rfl, rfl, by
    rw [ids_eq]
    show ¬ (["event." ++ "start", "event.start"] : List String).Nodup
    decide⟩

/-- A span and an entity with one name, which are different in the resolved registry, are reported as duplicates. -/
theorem share_name_refuted (file path : String) (names : List String) : ∃ s : Spec unitPayload,
    s.spans.map Span.type = ["host"] ∧ s.entities.map Entity.type = ["host"] ∧
    ((s.toV1 file).groups.map Group.id).Nodup ∧
    ∃ ps, .duplicateGroupName "host" ps ∈ Checks.allChecks ((s.toV1 file).groups.map (Group.unresolved · path)) names := by
  refine ⟨{ spans := [⟨"host", (), "n", [], [], none, noCommon⟩], entities := [⟨"host", [], [], none, noCommon⟩] }, rfl, rfl, ?_, ?_⟩
  · rw [ids_eq]
    show (["entity." ++ "host", "span." ++ "host"] : List String).Nodup
    decide
  · rw [(Checks.dup_group_name _ _ _).1]
    refine ⟨_, _, List.Sublist.refl _, ⟨⟨?_, rfl⟩, ⟨path, rfl⟩⟩, ⟨⟨?_, rfl⟩, ⟨path, rfl⟩⟩⟩
    · rintro ⟨-, l, x, hl, hx⟩; cases hl; cases hx
    · rintro ⟨-, l, x, hl, hx⟩; cases hl; cases hx

/-! ### The names of files -/

/-- Texts with a separator in between. -/
def joined (sep : Char) : List Chars → Chars
  | [] => []
  | [a] => a
  | a :: b :: l => a ++ sep :: joined sep (b :: l)

theorem joined_append (sep : Char) (l : List Chars) (a : Chars) (h : l ≠ []) : joined sep (l ++ [a]) = joined sep l ++ sep :: a := by
  induction l with
  | nil => exact absurd rfl h
  | cons b l ih =>
    cases l with
    | nil => simp [joined]
    | cons c l =>
      show b ++ sep :: joined sep (c :: l ++ [a]) = _
      rw [ih (by simp)]
      simp [joined]

theorem fileName_eq (path : Chars) : fileName path = joined '.' ((normals path).map stem) := by
  unfold fileName
  generalize normals path = l
  have key : ∀ (l : List Chars) (pre : List Chars),
      (l.foldl (fun (acc : Chars × Bool) c => (acc.1 ++ (if acc.2 then ['.'] else []) ++ stem c, true))
        (joined '.' pre, decide (pre ≠ []))).1 = joined '.' (pre ++ l.map stem) := by
    intro l
    induction l with
    | nil => intro pre; simp
    | cons c l ih =>
      intro pre
      rw [List.foldl_cons]
      have e : joined '.' pre ++ (if decide (pre ≠ []) then ['.'] else []) ++ stem c = joined '.' (pre ++ [stem c]) := by
        by_cases hp : pre = []
        · subst hp; simp [joined]
        · rw [joined_append _ _ _ hp]; simp [hp]
      have := ih (pre ++ [stem c])
      simp only [List.map_cons]
      rw [show pre ++ stem c :: l.map stem = (pre ++ [stem c]) ++ l.map stem by simp, ← this, e]
      simp
  have := key l []
  simpa [joined] using this

/-- A part of a path without dots and slashes. -/
structure PlainPart (c : Chars) : Prop where
  ne : c ≠ []
  dot : '.' ∉ c
  slash : '/' ∉ c

/-- A path of plain parts with an ending. -/
def plainPath (dirs : List Chars) (name ext : Chars) : Chars := joined '/' (dirs ++ [name ++ '.' :: ext])

theorem split_joined (sep : Char) (l : List Chars) (hne : l ≠ []) (h : ∀ c ∈ l, sep ∉ c) : splitWhen (· = sep) (joined sep l) = l := by
  induction l with
  | nil => exact absurd rfl hne
  | cons a l ih =>
    have ha : splitWhen (· = sep) a = [a] := splitWhen_clean (by
      intro c hc
      have : c ≠ sep := fun he => h a (by simp) (he ▸ hc)
      simpa using this)
    cases l with
    | nil => exact ha
    | cons b l =>
      show splitWhen (· = sep) (a ++ sep :: joined sep (b :: l)) = _
      rw [splitWhen_append _ _ (by simp), ha, ih (by simp) fun c hc => h c (List.mem_cons_of_mem _ hc)]
      rfl

theorem stem_plain {c : Chars} (h : '.' ∉ c) : stem c = c := by
  have key : ∀ l : Chars, '.' ∉ l → l.dropWhile (fun x => decide (x ≠ '.')) = [] := by
    intro l hl
    induction l with
    | nil => rfl
    | cons x l ih =>
      have hx : x ≠ '.' := fun he => hl (by rw [he]; simp)
      rw [List.dropWhile_cons_of_pos (by simpa using hx), ih fun hm => hl (List.mem_cons_of_mem _ hm)]
  have := key c.reverse (by simpa using h)
  unfold stem
  rw [this]

theorem stem_ext {c e : Chars} (hc : c ≠ []) (he : '.' ∉ e) : stem (c ++ '.' :: e) = c := by
  have : (c ++ '.' :: e).reverse.dropWhile (fun x => decide (x ≠ '.')) = '.' :: c.reverse := by
    rw [List.reverse_append, List.reverse_cons, List.append_assoc,
      List.dropWhile_append_of_pos (by intro x hx; have : x ≠ '.' := fun h => he (h ▸ List.mem_reverse.1 hx); simpa using this)]
    simp
  unfold stem
  rw [this]
  simp [hc]

/-- A name that only has a leading dot keeps it. -/
theorem stem_hidden {c : Chars} (h : '.' ∉ c) : stem ('.' :: c) = '.' :: c := by
  unfold stem
  have : ('.' :: c).reverse.dropWhile (· ≠ '.') = ['.'] := by
    rw [List.reverse_cons, List.dropWhile_append]
    have h0 : c.reverse.dropWhile (· ≠ '.') = [] := by
      have H : ∀ l : Chars, '.' ∉ l → l.dropWhile (· ≠ '.') = [] := by
        intro l
        induction l with
        | nil => intro _; rfl
        | cons x l ih =>
          intro hl
          simp only [List.mem_cons, not_or] at hl
          rw [List.dropWhile_cons_of_pos (by simpa using Ne.symm hl.1), ih hl.2]
      exact H _ (by simpa using h)
    rw [h0]
    rfl
  rw [this]
  rfl

/-- The parts that `.`, `..` and repeated slashes make do not count. -/
theorem normals_spec (path : Chars) (c : Chars) :
    c ∈ normals path ↔ c ∈ splitWhen (· = '/') path ∧ c ≠ [] ∧ c ≠ ['.'] ∧ c ≠ ['.', '.'] := by
  unfold normals
  rw [List.mem_filter]
  simp [and_assoc]

example : fileName "./a//../.hidden/b.yaml".toList = "a..hidden.b".toList := by decide

theorem normals_plain (dirs : List Chars) (name ext : Chars) (hd : ∀ d ∈ dirs, PlainPart d) (hn : PlainPart name) (he : PlainPart ext) :
    normals (plainPath dirs name ext) = dirs ++ [name ++ '.' :: ext] := by
  unfold normals plainPath
  rw [split_joined _ _ (by simp)]
  · rw [List.filter_eq_self]
    intro c hc
    rcases List.mem_append.1 hc with hc | hc
    · have := hd c hc
      have h1 : c ≠ ['.'] := fun e => this.dot (by rw [e]; simp)
      have h2 : c ≠ ['.', '.'] := fun e => this.dot (by rw [e]; simp)
      simp [this.ne, h1, h2]
    · rw [List.mem_singleton] at hc
      subst hc
      obtain ⟨x, r, rfl⟩ := List.exists_cons_of_ne_nil hn.ne
      obtain ⟨y, q, rfl⟩ := List.exists_cons_of_ne_nil he.ne
      have hx : x ≠ '.' := fun e => hn.dot (by rw [e]; simp)
      simp [hx]
  · intro c hc
    rcases List.mem_append.1 hc with hc | hc
    · exact (hd c hc).slash
    · rw [List.mem_singleton] at hc
      subst hc
      simp [hn.slash, he.slash]

/-- The name of a plain path is its parts with dots in between. -/
theorem fileName_plain (dirs : List Chars) (name ext : Chars) (hd : ∀ d ∈ dirs, PlainPart d) (hn : PlainPart name) (he : PlainPart ext) :
    fileName (plainPath dirs name ext) = joined '.' (dirs ++ [name]) := by
  rw [fileName_eq, normals_plain dirs name ext hd hn he, List.map_append, List.map_singleton, stem_ext hn.ne he.dot]
  congr 2
  calc dirs.map stem = dirs.map id := List.map_congr_left fun d h => stem_plain (hd d h).dot
    _ = dirs := List.map_id _

/-- Different plain paths with one ending have different names. -/
theorem fileName_inj_partial (d1 d2 : List Chars) (n1 n2 ext : Chars) (h1 : ∀ d ∈ d1, PlainPart d) (h2 : ∀ d ∈ d2, PlainPart d)
    (k1 : PlainPart n1) (k2 : PlainPart n2) (he : PlainPart ext)
    (h : fileName (plainPath d1 n1 ext) = fileName (plainPath d2 n2 ext)) : plainPath d1 n1 ext = plainPath d2 n2 ext := by
  rw [fileName_plain d1 n1 ext h1 k1 he, fileName_plain d2 n2 ext h2 k2 he] at h
  have dots : ∀ d : List Chars, ∀ n : Chars, (∀ x ∈ d, PlainPart x) → PlainPart n → ∀ c ∈ d ++ [n], '.' ∉ c := by
    intro d n hd hn c hc
    rcases List.mem_append.1 hc with hc | hc
    · exact (hd c hc).dot
    · rw [List.mem_singleton] at hc; rw [hc]; exact hn.dot
  have e1 := split_joined '.' (d1 ++ [n1]) (by simp) (dots d1 n1 h1 k1)
  have e2 := split_joined '.' (d2 ++ [n2]) (by simp) (dots d2 n2 h2 k2)
  rw [h, e2] at e1
  obtain ⟨h3, h4⟩ := List.append_inj' e1 rfl
  rw [List.cons.injEq] at h4
  rw [h3, h4.1]

/-- Files in different places, and files with different endings, have one name. -/
theorem fileName_inj_refuted : fileName "db/redis.yaml".toList = fileName "db.redis.yaml".toList ∧
    fileName "db/redis.yaml".toList = fileName "db/redis.yml".toList := by decide

/-- Two such files are reported as giving a group twice, whatever attributes they define. -/
theorem files_clash (f g : Chars) (hf : fileName f = fileName g) (s t : Spec P) (hs : s.attributes ≠ []) (ht : t.attributes ≠ [])
    (p q : String) (names : List String) :
    ∃ ps, .duplicateGroupId ("registry." ++ String.ofList (fileName f)) ps ∈ Checks.allChecks
      (((s.toV1 (String.ofList (fileName f))).groups.map (Group.unresolved · p)) ++
        ((t.toV1 (String.ofList (fileName g))).groups.map (Group.unresolved · q))) names := by
  rw [(Checks.dup_group_id _ _ _).1]
  have key : ∀ (n : String) (s : Spec P) (p : String), s.attributes ≠ [] →
      ∃ x, List.Sublist [x] ((s.toV1 n).groups.map (Group.unresolved · p)) ∧ x.id = "registry." ++ n ∧ Checks.HasSource x := by
    intro n s p hs
    unfold Spec.toV1 attributeGroup
    cases ha : s.attributes with
    | nil => exact absurd ha hs
    | cons a l =>
      dsimp only [List.isEmpty_cons]
      rw [if_neg (by decide)]
      simp only [List.append_assoc, List.cons_append, List.nil_append, List.map_cons]
      exact ⟨_, .cons_cons _ (List.nil_sublist _), rfl, ⟨p, rfl⟩⟩
  obtain ⟨x, h1, h2, h3⟩ := key (String.ofList (fileName f)) s p hs
  obtain ⟨y, k1, k2, k3⟩ := key (String.ofList (fileName g)) t q ht
  exact ⟨x, y, h1.append k1, ⟨h2, h3⟩, ⟨by rw [k2, hf], k3⟩⟩

/-! ### The hypotheses are met -/

def sampleSpec : Spec unitPayload :=
  { attributes := [⟨"k", (), none, noCommon⟩], entities := [⟨"host", [], [], none, noCommon⟩], events := [⟨"host", [], [], none, noCommon⟩],
    groups := [.internal "common" [.group "x"]] }

example : ((sampleSpec.toV1 "f").groups.map Group.id).Nodup :=
  ids_distinct_partial "f" sampleSpec (by decide) (by decide) (by decide) (by decide) (by decide)
    (by
      intro i hi p hp x
      rw [show i = "common" by simpa [sampleSpec, Spec.rawIds, AttrGroup.id] using hi]
      intro he
      have := congrArg String.toList he
      rw [String.toList_append] at this
      unfold prefixes at hp
      simp only [List.mem_cons, List.not_mem_nil, or_false] at hp
      rcases hp with rfl | rfl | rfl | rfl | rfl <;> simp at this)

example : fileName (plainPath ["model".toList, "db".toList] "redis".toList "yaml".toList) = "model.db.redis".toList :=
  fileName_plain _ _ _ (by
    intro d hd
    simp only [List.mem_cons, List.not_mem_nil, or_false] at hd
    rcases hd with rfl | rfl <;> exact ⟨by decide, by decide, by decide⟩) ⟨by decide, by decide, by decide⟩ ⟨by decide, by decide, by decide⟩

example : (split (P := unitPayload) [.group "a", .attr ⟨"x", none, none, none, none, none, none, []⟩, .group "b"]).2 = ["a", "b"] := by
  rw [split_eq]; rfl

end Verif.V2
