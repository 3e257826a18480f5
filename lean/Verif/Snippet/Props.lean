import Verif.Snippet.Model
import Verif.View.ResolvedProps
import Verif.View.LookupProps
import Verif.Markdown.Lookup
import Verif.Markdown.Props
/-
Properties C227-C230: what snippets show, and what the command says.
-/
namespace Verif.Snippet
open Verif.Util Verif.Resolver Verif.Semconv Verif.Convert Verif.View
open Verif.Markdown (Lookup idLookup Args Param tagFilters isMetricTable Gen IdText)

/-! ### Specification -/

/-- The item of the view a lookup is about: the first one of its name. -/
def pick (r : VReg) : Lookup → Option Shown
  | .attribute k => (r.attributes.find? fun a => decide (a.key.toList = k)).map .attribute
  | .attributeGroup k => (r.groups.find? fun a => decide (a.id.toList = k)).map .attributeGroup
  | .span k => (r.spans.find? fun a => decide (a.type.toList = k)).map .span
  | .metric k => (r.metrics.find? fun a => decide (a.name.toList = k)).map .metric
  | .event k => (r.events.find? fun a => decide (a.name.toList = k)).map .event
  | .entity k => (r.entities.find? fun a => decide (a.type.toList = k)).map .entity
  | .spanRefinement k => (r.spanRefs.find? fun a => decide (a.id.toList = k)).map fun x => .span x.sig
  | .metricRefinement k => (r.metricRefs.find? fun a => decide (a.id.toList = k)).map fun x => .metric x.sig
  | .eventRefinement k => (r.eventRefs.find? fun a => decide (a.id.toList = k)).map fun x => .event x.sig
  | .entityRefinement k => (r.entityRefs.find? fun a => decide (a.id.toList = k)).map fun x => .entity x.sig

def bareAttr (a : VAttr) : VAttr := { a with prov := {} }
def bareRef (r : VRef) : VRef := { r with base := bareAttr r.base }

/-- The item without the provenance of it and of its attributes; its associations are as they are. -/
def bare : Shown → Shown
  | .attribute a => .attribute (bareAttr a)
  | .attributeGroup g => .attributeGroup { g with attributes := g.attributes.map bareRef, prov := {} }
  | .span g => .span { g with attributes := g.attributes.map bareRef, prov := {} }
  | .metric g => .metric { g with attributes := g.attributes.map bareRef, prov := {} }
  | .event g => .event { g with attributes := g.attributes.map bareRef, prov := {} }
  | .entity g => .entity { g with identity := g.identity.map bareRef, description := g.description.map bareRef, prov := {} }

/-! ### Lists -/

theorem find_byKey {α : Type} (key : α → String) (l : List α) (k : Chars) :
    (byKey key l).find? (fun a => decide ((key a).toList = k)) = l.find? (fun a => decide ((key a).toList = k)) := by
  rw [← List.head?_filter, ← List.head?_filter, byKey, sortBy_stable]
  intro a _ b _ ha hb
  simp only [decide_eq_true_eq] at ha hb ⊢
  rw [String.toList_injective (ha.trans hb.symm)]
  exact String.le_refl _

theorem resolveRefs_eq (cat : List A2) (deps : List String) (gid : String) (rs : List ARef)
    (h : (lookupRefs cat deps gid rs).2 = []) : resolveRefs cat rs = .ok ((lookupRefs cat deps gid rs).1.map bareRef) := by
  induction rs with
  | nil => rfl
  | cons r rs ih =>
    simp only [lookupRefs] at h ⊢
    rw [resolveRefs]
    cases hc : cat[r.base]? with
    | none => rw [hc] at h; cases h
    | some a =>
      rw [hc] at h
      simp only [ih h]
      rfl

theorem resolveRefs_panic (cat : List A2) (rs : List ARef) (n : Nat) (h : resolveRefs cat rs = .error n) :
    cat.length ≤ n ∧ ∃ r ∈ rs, r.base = n := by
  induction rs with
  | nil => cases h
  | cons r rs ih =>
    rw [resolveRefs] at h
    cases hc : cat[r.base]? with
    | none =>
      rw [hc] at h; cases h
      exact ⟨List.getElem?_eq_none_iff.1 hc, r, by simp, rfl⟩
    | some a =>
      rw [hc] at h
      simp only at h
      cases hr : resolveRefs cat rs with
      | ok v => rw [hr] at h; cases h
      | error m =>
        rw [hr] at h; cases h
        obtain ⟨h1, r', h2, h3⟩ := ih hr
        exact ⟨h1, r', by simp [h2], h3⟩

/-- What is found among the items of the schema is what is found among those of the view. -/
theorem found_view {α β : Type} (f : α → β × List NotFound) (l : List α) (ka : α → Chars) (kb : β → Chars)
    (hk : ∀ a, kb (f a).1 = ka a) (mk : β → Shown) (res : α → Except Nat Shown)
    (hres : ∀ a, (f a).2 = [] → res a = .ok (bare (mk (f a).1))) (h : (loop f l).2 = []) (k : Chars) :
    found res (l.find? fun a => decide (ka a = k)) =
      match ((loop f l).1.find? fun b => decide (kb b = k)).map mk with
      | none => .notFound
      | some v => .ok (bare v) := by
  rw [loop_map, List.find?_map]
  have hp : ((fun b => decide (kb b = k)) ∘ fun a => (f a).1) = fun a => decide (ka a = k) := by
    funext a; simp [hk]
  rw [hp]
  have herr : ∀ a ∈ l, (f a).2 = [] := by
    clear hp hres hk
    induction l with
    | nil => simp
    | cons a l ih =>
      simp only [loop, List.append_eq_nil_iff] at h
      intro b hb
      rcases List.mem_cons.1 hb with rfl | hb
      · exact h.1
      · exact ih h.2 b hb
  cases hf : l.find? fun a => decide (ka a = k) with
  | none => rfl
  | some a =>
    have := hres a (herr a (List.mem_of_find?_eq_some hf))
    simp [found, this]

/-! ### C227 -/

theorem metric_eq (cat : List A2) (deps : List String) (m : Metric) (h : (showMetric cat deps m).2 = []) :
    resolvedMetric cat deps m = .ok (bare (.metric (showMetric cat deps m).1)) := by
  unfold resolvedMetric
  rw [resolveRefs_eq cat deps _ _ h]; rfl

theorem span_eq (cat : List A2) (deps : List String) (gid : String) (m : Span) (h : (showSpan cat deps gid m).2 = []) :
    resolvedSpan cat deps m = .ok (bare (.span (showSpan cat deps gid m).1)) := by
  unfold resolvedSpan
  rw [resolveRefs_eq cat deps _ _ h]; rfl

theorem event_eq (cat : List A2) (deps : List String) (gid : String) (m : Event) (h : (showEvent cat deps gid m).2 = []) :
    resolvedEvent cat deps m = .ok (bare (.event (showEvent cat deps gid m).1)) := by
  unfold resolvedEvent
  rw [resolveRefs_eq cat deps _ _ h]; rfl

theorem entity_eq (cat : List A2) (deps : List String) (gid : String) (m : Entity) (h : (showEntity cat deps gid m).2 = []) :
    resolvedEntity cat m = .ok (bare (.entity (showEntity cat deps gid m).1)) := by
  simp only [showEntity, List.append_eq_nil_iff] at h
  unfold resolvedEntity
  rw [resolveRefs_eq cat deps _ _ h.1]
  simp only
  rw [resolveRefs_eq cat deps _ _ h.2]; rfl

theorem group_eq (cat : List A2) (deps : List String) (m : AGroup) (h : (showGroup cat deps m).2 = []) :
    resolvedGroup cat m = .ok (bare (.attributeGroup (showGroup cat deps m).1)) := by
  unfold resolvedGroup
  rw [resolveRefs_eq cat deps _ _ h]; rfl

/-- C227: a snippet shows what the templates of whole pages see under the id it names, except that it does not say where
the item and its attributes come from. It fails exactly if the id is malformed or the pages have no such item. -/
theorem snippet_shows_page_item_partial (s : Schema) (r : VReg) (h : show1 s = .ok r) (id : Chars) :
    lookupId s id = match idLookup id with
      | none => .invalidId
      | some l => match pick r l with
        | none => .notFound
        | some v => .ok (bare v) := by
  simp only [show1] at h
  split at h
  · cases h
  · rename_i hne
    have hne := Decidable.not_not.1 hne
    simp only [List.append_eq_nil_iff] at hne
    obtain ⟨⟨⟨⟨⟨⟨⟨⟨h1, h2⟩, h3⟩, h4⟩, h5⟩, h6⟩, h7⟩, h8⟩, h9⟩ := hne
    cases h
    unfold lookupId
    cases hl : idLookup id with
    | none => rfl
    | some l =>
      cases l with
      | «attribute» k =>
        simp only [pick, find_byKey]
        rw [List.find?_map]
        have : ((fun a : VAttr => decide (a.key.toList = k)) ∘ showAttr s.deps) = fun a => decide (a.key.toList = k) := rfl
        rw [this]
        cases (s.out.attributes.filterMap fun r => s.out.catalog[r]?).find? fun a => decide (a.key.toList = k) <;> rfl
      | attributeGroup k =>
        exact found_view _ _ (fun g : AGroup => g.id.toList) (fun g : VGroup => g.id.toList) (fun _ => rfl) _ _
          (fun a ha => group_eq _ _ a ha) h9 k
      | span k =>
        simp only [pick, find_byKey]
        exact found_view _ _ (fun g : Span => g.type.toList) (fun g : VSpan => g.type.toList) (fun _ => rfl) _ _
          (fun a ha => span_eq _ _ _ a ha) h3 k
      | metric k =>
        simp only [pick, find_byKey]
        exact found_view _ _ (fun g : Metric => g.name.toList) (fun g : VMetric => g.name.toList) (fun _ => rfl) _ _
          (fun a ha => metric_eq _ _ a ha) h1 k
      | event k =>
        simp only [pick, find_byKey]
        exact found_view _ _ (fun g : Event => g.name.toList) (fun g : VEvent => g.name.toList) (fun _ => rfl) _ _
          (fun a ha => event_eq _ _ _ a ha) h5 k
      | entity k =>
        simp only [pick, find_byKey]
        exact found_view _ _ (fun g : Entity => g.type.toList) (fun g : VEntity => g.type.toList) (fun _ => rfl) _ _
          (fun a ha => entity_eq _ _ _ a ha) h7 k
      | spanRefinement k =>
        simp only [pick, find_byKey]
        exact found_view _ _ (fun g : Refinement Span => g.id.toList) (fun g : Refinement VSpan => g.id.toList)
          (fun _ => rfl) (fun x : Refinement VSpan => .span x.sig) _ (fun a ha => span_eq _ _ _ a.sig ha) h4 k
      | metricRefinement k =>
        simp only [pick, find_byKey]
        exact found_view _ _ (fun g : Refinement Metric => g.id.toList) (fun g : Refinement VMetric => g.id.toList)
          (fun _ => rfl) (fun x : Refinement VMetric => .metric x.sig) _ (fun a ha => metric_eq _ _ a.sig ha) h2 k
      | eventRefinement k =>
        simp only [pick, find_byKey]
        exact found_view _ _ (fun g : Refinement Event => g.id.toList) (fun g : Refinement VEvent => g.id.toList)
          (fun _ => rfl) (fun x : Refinement VEvent => .event x.sig) _ (fun a ha => event_eq _ _ _ a.sig ha) h6 k
      | entityRefinement k =>
        simp only [pick, find_byKey]
        exact found_view _ _ (fun g : Refinement Entity => g.id.toList) (fun g : Refinement VEntity => g.id.toList)
          (fun _ => rfl) (fun x : Refinement VEntity => .entity x.sig) _ (fun a ha => entity_eq _ _ _ a.sig ha) h8 k

/-- The parts of a snippet id before the name, and the schema's items with their names. -/
inductive Item (o : Out) : Lookup → Prop where
  | «attribute» (n : Nat) (h : n ∈ o.attributes) (a : A2) (ha : o.catalog[n]? = some a) : Item o (.attribute a.key.toList)
  | attributeGroup (m : AGroup) (h : m ∈ o.groups) : Item o (.attributeGroup m.id.toList)
  | span (m : Span) (h : m ∈ o.spans) : Item o (.span m.type.toList)
  | metric (m : Metric) (h : m ∈ o.metrics) : Item o (.metric m.name.toList)
  | event (m : Event) (h : m ∈ o.events) : Item o (.event m.name.toList)
  | entity (m : Entity) (h : m ∈ o.entities) : Item o (.entity m.type.toList)
  | spanRefinement (m : Refinement Span) (h : m ∈ o.spanRefs) : Item o (.spanRefinement m.id.toList)
  | metricRefinement (m : Refinement Metric) (h : m ∈ o.metricRefs) : Item o (.metricRefinement m.id.toList)
  | eventRefinement (m : Refinement Event) (h : m ∈ o.eventRefs) : Item o (.eventRefinement m.id.toList)
  | entityRefinement (m : Refinement Entity) (h : m ∈ o.entityRefs) : Item o (.entityRefinement m.id.toList)

theorem find_some {α : Type} {l : List α} {f : α → Chars} {a : α} (h : a ∈ l) :
    (l.find? fun b => decide (f b = f a)).isSome = true := by
  rw [List.find?_isSome]
  exact ⟨a, h, by simp⟩

theorem found_some {α : Type} (f : α → Except Nat Shown) (o : Option α) (h : o.isSome = true) :
    found f o ≠ .notFound := by
  cases o with
  | none => cases h
  | some a => simp only [found]; split <;> simp

theorem find_none {α : Type} {l : List α} {f : α → Chars} {k : Chars} (f' : α → Except Nat Shown)
    (h : found f' (l.find? fun b => decide (f b = k)) ≠ .notFound) : ∃ a ∈ l, f a = k := by
  cases hf : l.find? fun b => decide (f b = k) with
  | none => rw [hf] at h; exact absurd rfl h
  | some a => exact ⟨a, List.mem_of_find?_eq_some hf, by simpa using List.find?_some hf⟩

/-- C228: with an id that names one of the kinds of items, exactly the items of the schema are found. -/
theorem found_iff (s : Schema) (id : Chars) (l : Lookup) (hl : idLookup id = some l) :
    lookupId s id ≠ .notFound ↔ Item s.out l := by
  unfold lookupId
  rw [hl]
  constructor
  · intro h
    cases l with
    | «attribute» k =>
      obtain ⟨a, ha, rfl⟩ := find_none _ h
      obtain ⟨n, hn, hc⟩ := List.mem_filterMap.1 ha
      exact .attribute n hn a hc
    | attributeGroup k => obtain ⟨a, ha, rfl⟩ := find_none _ h; exact .attributeGroup a ha
    | span k => obtain ⟨a, ha, rfl⟩ := find_none _ h; exact .span a ha
    | metric k => obtain ⟨a, ha, rfl⟩ := find_none _ h; exact .metric a ha
    | event k => obtain ⟨a, ha, rfl⟩ := find_none _ h; exact .event a ha
    | entity k => obtain ⟨a, ha, rfl⟩ := find_none _ h; exact .entity a ha
    | spanRefinement k => obtain ⟨a, ha, rfl⟩ := find_none _ h; exact .spanRefinement a ha
    | metricRefinement k => obtain ⟨a, ha, rfl⟩ := find_none _ h; exact .metricRefinement a ha
    | eventRefinement k => obtain ⟨a, ha, rfl⟩ := find_none _ h; exact .eventRefinement a ha
    | entityRefinement k => obtain ⟨a, ha, rfl⟩ := find_none _ h; exact .entityRefinement a ha
  · intro h
    cases h with
    | «attribute» n hn a ha =>
      exact found_some _ _ (find_some (f := fun a : A2 => a.key.toList) (List.mem_filterMap.2 ⟨n, hn, ha⟩))
    | attributeGroup m h => exact found_some _ _ (find_some (f := fun a : AGroup => a.id.toList) h)
    | span m h => exact found_some _ _ (find_some (f := fun a : Span => a.type.toList) h)
    | metric m h => exact found_some _ _ (find_some (f := fun a : Metric => a.name.toList) h)
    | event m h => exact found_some _ _ (find_some (f := fun a : Event => a.name.toList) h)
    | entity m h => exact found_some _ _ (find_some (f := fun a : Entity => a.type.toList) h)
    | spanRefinement m h => exact found_some _ _ (find_some (f := fun a : Refinement Span => a.id.toList) h)
    | metricRefinement m h => exact found_some _ _ (find_some (f := fun a : Refinement Metric => a.id.toList) h)
    | eventRefinement m h => exact found_some _ _ (find_some (f := fun a : Refinement Event => a.id.toList) h)
    | entityRefinement m h => exact found_some _ _ (find_some (f := fun a : Refinement Entity => a.id.toList) h)

/-- C228: a schema that can be shown to templates never makes a snippet panic. -/
theorem no_panic (s : Schema) (r : VReg) (h : show1 s = .ok r) (id : Chars) (n : Nat) : lookupId s id ≠ .panic n := by
  rw [snippet_shows_page_item_partial s r h id]
  split
  · simp
  · split <;> simp

/-- C228: every item of a registry that resolution made whose name is a letter followed by letters, digits, dots,
underscores and hyphens can be shown in a snippet, and the snippet shows an item of this kind and name. -/
theorem every_item_can_be_shown_partial (i : In) (o : Out) (url : String) (h : convert i = .ok o) (l : Lookup)
    (hi : Item o l) (ht : IdText l.id) :
    ∃ r v, show1 { url := url, deps := i.deps, out := o } = .ok r ∧ pick r l = some v ∧
      lookupId { url := url, deps := i.deps, out := o } (l.sec ++ ['.'] ++ l.kind ++ ['.'] ++ l.id) = .ok (bare v) := by
  obtain ⟨r, hr⟩ := resolved_shown i o url h
  have hl : idLookup (l.sec ++ ['.'] ++ l.kind ++ ['.'] ++ l.id) = some l :=
    Markdown.lookup_iff.2 ⟨ht, [], by simp, by intro c hc; cases hc⟩
  have := snippet_shows_page_item_partial _ r hr (l.sec ++ ['.'] ++ l.kind ++ ['.'] ++ l.id)
  have hf := (found_iff { url := url, deps := i.deps, out := o } _ l hl).2 hi
  rw [hl] at this
  simp only at this
  cases hp : pick r l with
  | none => rw [hp] at this; exact absurd this hf
  | some v => rw [hp] at this; exact ⟨r, v, hr, hp, this⟩

/-- A metric. -/
def sample (name : String) (p : Prov) : Metric :=
  { name := name, instrument := "counter", unit := "1", attributes := [], assocs := [], requirement := none,
    common := ⟨"", "", .stable, none, []⟩, prov := p }

/-- C228 does not hold for all names: a metric whose name begins with a digit cannot be shown. -/
theorem every_item_can_be_shown_refuted :
    ∃ o : Out, (∃ m ∈ o.metrics, m.name = "5xx.count") ∧ ∀ (id : Chars) (l : Lookup), Item o l → idLookup id ≠ some l := by
  refine ⟨{ metrics := [sample "5xx.count" {}] }, ⟨_, List.mem_singleton.2 rfl, rfl⟩, ?_⟩
  intro id l hi hl
  have := (Markdown.lookup_iff.1 hl).1
  cases hi with
  | metric m hm =>
    simp only [List.mem_singleton] at hm
    subst hm
    obtain ⟨c, t, e, hc, _⟩ := this
    have : c = '5' := by
      have := congrArg List.head? e
      simpa [Lookup.id, sample] using this.symm
    subst this
    exact absurd hc (by simp [Markdown.Letter])
  | _ => rename_i hm; simp at hm

/-- C227: the pages say where an item comes from, the snippet does not. -/
theorem snippet_shows_page_item_refuted :
    ∃ (s : Schema) (r : VReg) (m m' : VMetric), show1 s = .ok r ∧ r.metrics = [m] ∧
      lookupId s "registry.metrics.m".toList = .ok (.metric m') ∧ m.prov.source = some "https://x/base/1" ∧
      m'.prov.source = none :=
  ⟨{ url := "https://x/app/1", deps := ["https://x/base/1"],
     out := { metrics := [sample "m" { source := some 0 }] } },
    _, _, _, rfl, rfl, rfl, rfl, rfl⟩

/-- The hypotheses of C227 and C228 are satisfiable. -/
example : ∃ (s : Schema) (r : VReg) (v : Shown), show1 s = .ok r ∧ lookupId s "registry.metrics.m".toList = .ok v :=
  ⟨{ url := "https://x/app/1", deps := [], out := { metrics := [sample "m" {}] } }, _, _, rfl, rfl⟩

example : lookupId { url := "u", deps := [], out := { metrics := [{ sample "m" {} with attributes := [⟨3, "required", none⟩] }] } }
    "registry.metrics.m".toList = .panic 3 := rfl

/-- The template gets tags of the directive only, and some if there are any (C77: only the first of them). -/
def TagsOf (args : Args) (l : List Chars) : Prop :=
  (∀ t ∈ l, Param.tag t ∈ args.args) ∧ (l = [] → ∀ t, Param.tag t ∉ args.args)

theorem tagsOf (args : Args) : TagsOf args (tagFilters args) := by
  unfold TagsOf tagFilters
  split
  · rename_i v hv
    refine ⟨fun t ht => ?_, fun h => by cases h⟩
    rw [List.mem_singleton] at ht
    subst ht
    obtain ⟨p, hp, e⟩ := List.exists_of_findSome?_eq_some hv
    cases p <;> simp at e
    subst e; exact hp
  · rename_i hn
    refine ⟨fun t ht => by (simp at ht), fun _ t ht => ?_⟩
    have := List.findSome?_eq_none_iff.1 hn _ ht
    simp at this

/-- C227: the tag and the base URL of the directive reach the template as they are. -/
theorem context_faithful (s : Schema) (args : Args) (b : Option Chars) (c : Context Shown)
    (h : context2 s args b = .ok c) :
    lookupId s args.id = .ok c.group ∧ TagsOf args c.tagFilter ∧ c.baseUrl = b := by
  unfold context2 at h
  split at h <;> cases h
  rename_i hv
  exact ⟨hv, tagsOf args, rfl⟩

/-! ### C229: the first format -/

/-- C229: a snippet of the first format shows the first group of that id, with the attributes it refers to; it fails
exactly if there is no such group or the group refers to an attribute that does not exist. -/
theorem group_shown (cat : List A1) (gs : List Grp1) (args : Args) (b : Option Chars) :
    (∀ c, context1 cat gs args b = .ok c →
      ∃ before g after, gs = before ++ g :: after ∧ g.grp.id.toList = args.id ∧
        (∀ x ∈ before, x.grp.id.toList ≠ args.id) ∧ c.group.grp = g.grp ∧
        Forall2 (fun n a => cat[n]? = some a) g.grp.attributes c.group.attributes ∧
        (c.isMetric = true ↔ Param.metricTable ∈ args.args) ∧
        TagsOf args c.tagFilter ∧ c.baseUrl = b) ∧
    (context1 cat gs args b = .error .groupNotFound ↔ ∀ g ∈ gs, g.grp.id.toList ≠ args.id) ∧
    (∀ l, context1 cat gs args b = .error (.notFound l) →
      ∃ g ∈ gs, g.grp.id.toList = args.id ∧ l ≠ [] ∧
        ∀ e, e ∈ l ↔ e.group = g.grp.id ∧ e.ref ∈ g.grp.attributes ∧ cat.length ≤ e.ref) := by
  refine ⟨fun c h => ?_, ?_, fun l h => ?_⟩
  · unfold context1 at h
    split at h
    · cases h
    · rename_i g hg
      split at h
      · cases h
      · rename_i v hv
        cases h
        rw [List.find?_eq_some_iff_append] at hg
        obtain ⟨he, before, after, rfl, hb⟩ := hg
        unfold showGroup1 at hv
        simp only at hv
        split at hv
        · cases hv
        · rename_i hn
          cases hv
          refine ⟨before, g, after, rfl, by simpa using he, fun x hx => by simpa using hb x hx, rfl,
            lookup1_ok _ _ _ (Decidable.not_not.1 hn), ?_, tagsOf args, rfl⟩
          simp [isMetricTable]
  · unfold context1
    split
    · rename_i hn
      simpa using hn
    · rename_i g hg
      constructor
      · intro h; split at h <;> cases h
      · intro h
        exact absurd (by simpa using List.find?_some hg) (h g (List.mem_of_find?_eq_some hg))
  · unfold context1 at h
    split at h
    · cases h
    · rename_i g hg
      refine ⟨g, List.mem_of_find?_eq_some hg, by simpa using List.find?_some hg, ?_⟩
      split at h
      · rename_i l' hv
        cases h
        unfold showGroup1 at hv
        simp only at hv
        split at hv
        · rename_i hn
          cases hv
          refine ⟨hn, fun e => ?_⟩
          rw [lookup1_err]
          constructor
          · rintro ⟨x, hx, hc, rfl⟩; exact ⟨rfl, hx, hc⟩
          · rintro ⟨h1, h2, h3⟩; exact ⟨e.ref, h2, h3, by cases e; simp_all⟩
        · cases hv
      · cases h

/-- C229: with distinct ids, a group that the pages show is shown by the snippet as the pages show it. -/
theorem group_as_on_pages (cat : List A1) (gs : List Grp1) (l : List VGrp1) (h : showRegistry1 cat gs = .ok l)
    (hd : (gs.map (·.grp.id)).Nodup) (v : VGrp1) (hv : v ∈ l) (args : Args) (ha : args.id = v.grp.id.toList)
    (b : Option Chars) : ∃ c, context1 cat gs args b = .ok c ∧ c.group = v := by
  have hin := (groups_shown cat gs).1 l h
  obtain ⟨g, hg, hs⟩ := shown_right hin hv
  obtain ⟨hg, -⟩ := List.mem_filter.1 hg
  obtain ⟨hgr, hat⟩ := hs
  have hfind : gs.find? (fun x => decide (x.grp.id.toList = args.id)) = some g := by
    rw [List.find?_eq_some_iff_append]
    obtain ⟨b1, a1, rfl⟩ := List.append_of_mem hg
    refine ⟨by simp [ha, hgr], b1, a1, rfl, fun x hx => ?_⟩
    simp only [List.map_append, List.map_cons, List.nodup_append, List.mem_map] at hd
    have := hd.2.2 x.grp.id ⟨x, hx, rfl⟩ g.grp.id (by simp)
    simp only [ha, hgr, Bool.not_eq_true', decide_eq_false_iff_not]
    intro e; exact this (String.toList_injective e)
  have herr : (lookup1 cat g.grp.id g.grp.attributes).2 = [] := by
    rw [List.eq_nil_iff_forall_not_mem]
    intro e he
    obtain ⟨x, hx, hc, -⟩ := (lookup1_err _ _ _ _).1 he
    obtain ⟨a, -, hxa⟩ := hat.mem_left hx
    rw [List.getElem?_eq_none_iff.2 hc] at hxa; cases hxa
  have hval := lookup1_ok _ _ _ herr
  refine ⟨_, by unfold context1; rw [hfind]; simp only [showGroup1, herr]; rfl, ?_⟩
  have heq : ∀ {rs : List Nat} {x y : List A1}, Forall2 (fun n a => cat[n]? = some a) rs x →
      Forall2 (fun n a => cat[n]? = some a) rs y → x = y := by
    intro rs x y h1
    induction h1 generalizing y with
    | nil => intro h2; cases h2; rfl
    | cons hab _ ih =>
      intro h2
      cases h2 with
      | cons hab' h' => rw [hab] at hab'; cases hab'; rw [ih h']
  cases v
  simp only at hgr hat ⊢
  subst hgr
  rw [heq hval hat]

/-- A refinement written in the second format is left out of the pages, yet a snippet shows it. -/
example : ∃ (gs : List Grp1) (c : Context VGrp1), showRegistry1 [] gs = .ok [] ∧
    context1 [] gs ⟨"g".toList, []⟩ none = .ok c :=
  ⟨[{ grp := { id := "g", type := .metric, lineage := some { extendsGroup := some "b" } }, isV2 := true }], _, rfl, rfl⟩

/-! ### C230: the command -/

/-- The markdown files of the walk. -/
def IsMd (e : Entry) : Prop := e.isFile = true ∧ e.ext = some "md"

theorem isMarkdown_iff (e : Entry) : isMarkdown e = true ↔ IsMd e := by
  unfold isMarkdown IsMd
  cases e.ext with
  | none => simp
  | some x => simp

theorem visit_err {ε : Type} (g : Gen ε) (d : Bool) (x : Option Entry) :
    (visit g d x).2 = true ↔ ∃ e, x = some e ∧ IsMd e ∧ (Markdown.updateMarkdown g d e.text).2 ≠ .ok () := by
  cases x with
  | none => simp [visit]
  | some e =>
    simp only [visit]
    by_cases h : isMarkdown e = true
    · rw [if_pos h]
      have := (isMarkdown_iff e).1 h
      simp only [Option.some.injEq, exists_eq_left', this, true_and]
      cases (Markdown.updateMarkdown g d e.text).2 <;> simp
    · rw [if_neg h]
      have : ¬ IsMd e := fun h' => h ((isMarkdown_iff e).2 h')
      simp [this]

/-- C230: the command succeeds exactly if there are no messages and every markdown file it found could be updated (or, in
a dry run, is up to date). -/
theorem success_iff_partial {ε M : Type} (g : Gen ε) (future dry : Bool) (diags : List M) (walk : List (Option Entry)) :
    (command g future dry diags walk).2 = .ok ↔
      diags = [] ∧ ∀ e, some e ∈ walk → IsMd e → (Markdown.updateMarkdown g dry e.text).2 = .ok () := by
  unfold command
  split
  · rename_i h; simp [h.2]
  · simp only
    by_cases ha : (walk.map (visit g dry)).any (·.2) = true
    · rw [if_pos ha]
      simp only [List.any_eq_true, List.mem_map] at ha
      obtain ⟨_, ⟨x, hx, rfl⟩, he⟩ := ha
      obtain ⟨e, rfl, hm, hn⟩ := (visit_err g dry x).1 he
      constructor
      · intro h; cases dry <;> simp at h
      · rintro ⟨-, h⟩; exact absurd (h e hx hm) hn
    · rw [if_neg ha]
      have hall : ∀ e, some e ∈ walk → IsMd e → (Markdown.updateMarkdown g dry e.text).2 = .ok () := by
        intro e he hm
        refine Classical.byContradiction fun hn => ha ?_
        simp only [List.any_eq_true, List.mem_map]
        exact ⟨_, ⟨_, he, rfl⟩, (visit_err g dry (some e)).2 ⟨e, rfl, hm, hn⟩⟩
      cases diags with
      | nil => simp only [ne_eq, not_true_eq_false, if_false, true_and]; exact ⟨fun _ => hall, fun _ => trivial⟩
      | cons a l => simp

/-- C230: each file is dealt with by itself: other entries of the walk keep their text, and a markdown file has the text
`update_markdown` leaves, whatever happens to other files. -/
theorem files_after {ε M : Type} (g : Gen ε) (dry : Bool) (diags : List M) (walk : List (Option Entry)) :
    Forall2 (fun x y => match x, y with
      | none, none => True
      | some e, some e' => e'.isFile = e.isFile ∧ e'.ext = e.ext ∧
          (IsMd e → e'.text = (Markdown.updateMarkdown g dry e.text).1) ∧ (¬ IsMd e → e'.text = e.text)
      | _, _ => False) walk (command g false dry diags walk).1 := by
  unfold command
  rw [if_neg (by simp)]
  simp only [List.map_map]
  refine forall2_map _ _ fun x => ?_
  cases x with
  | none => trivial
  | some e =>
    simp only [Function.comp, visit]
    by_cases h : isMarkdown e = true
    · rw [if_pos h]
      have := (isMarkdown_iff e).1 h
      exact ⟨rfl, rfl, fun _ => rfl, fun h' => absurd this h'⟩
    · rw [if_neg h]
      have : ¬ IsMd e := fun h' => h ((isMarkdown_iff e).2 h')
      exact ⟨rfl, rfl, fun h' => absurd h' this, fun _ => rfl⟩

/-- C230: neither a dry run nor a run in future mode that has messages changes a file. -/
theorem untouched {ε M : Type} (g : Gen ε) (future dry : Bool) (diags : List M) (walk : List (Option Entry))
    (h : dry = true ∨ future = true ∧ diags ≠ []) : (command g future dry diags walk).1 = walk := by
  unfold command
  split
  · rfl
  · rename_i hn
    have hd : dry = true := h.resolve_right hn
    subst hd
    simp only [List.map_map]
    conv => rhs; rw [← List.map_id walk]
    refine List.map_congr_left fun x _ => ?_
    cases x with
    | none => rfl
    | some e =>
      simp only [Function.comp, visit, id]
      split
      · rw [Markdown.file_kept]
        exact .inl rfl
      · rfl

/-- C230: the messages of resolution are reported, unless a file failed. -/
theorem messages_reported_partial {ε M : Type} (g : Gen ε) (future dry : Bool) (diags : List M)
    (walk : List (Option Entry)) (hd : diags ≠ [])
    (h : ∀ e, some e ∈ walk → IsMd e → (Markdown.updateMarkdown g dry e.text).2 = .ok ()) :
    (command g future dry diags walk).2 = .messages diags := by
  unfold command
  split
  · rfl
  · simp only
    have : ¬ (walk.map (visit g dry)).any (·.2) = true := by
      simp only [List.any_eq_true, List.mem_map]
      rintro ⟨_, ⟨x, hx, rfl⟩, he⟩
      obtain ⟨e, rfl, hm, hn⟩ := (visit_err g dry x).1 he
      exact hn (h e hx hm)
    simp [this, hd]

/-- C230 fails in these ways: a directory that cannot be walked passes for a success; the messages of resolution are lost
if a file fails; a dry run says that files are not up to date when a snippet could not be generated. -/
theorem command_refuted :
    (∀ (ε M : Type) (g : Gen ε) (f d : Bool), (command (M := M) g f d [] [none]).2 = .ok) ∧
    (∃ (g : Gen Unit) (walk : List (Option Entry)), (command g false false ["warning"] walk).2 = .updateFailed) ∧
    (∃ (g : Gen Unit) (walk : List (Option Entry)), (command (M := Unit) g false true [] walk).2 = .notUpToDate ∧
      ∀ f, some f ∈ walk → ∃ e, (Markdown.updateMarkdown g true f.text).2 = .error (.generator e)) := by
  refine ⟨fun ε M g f d => ?_, ?_, ?_⟩
  · rw [success_iff_partial]
    exact ⟨rfl, fun e he => by simp at he⟩
  · exact ⟨⟨fun _ => .error (), fun _ => .error ()⟩, [some ⟨true, some "md", none⟩], rfl⟩
  · refine ⟨⟨fun _ => .error (), fun _ => .error ()⟩, [some ⟨true, some "md", some "<!-- semconv a -->\n".toList⟩], ?_, ?_⟩
    · decide +kernel
    · intro f hf
      simp only [List.mem_singleton, Option.some.injEq] at hf
      subst hf
      exact ⟨(), rfl⟩

end Verif.Snippet
