import Verif.View.Model
import Verif.Markdown.Model
/-
Model of what a template sees when it renders one snippet of a markdown file: crates/weaver_semconv_gen/src/v1.rs and
v2.rs, and of the command around it, src/registry/update_markdown.rs.

The rendering itself (`OutputProcessor::generate_snippet`) is a parameter. Schemas and views are those of `Verif.View`,
ids and directives those of `Verif.Markdown`.
-/
namespace Verif.Snippet
open Verif.Util Verif.Resolver Verif.Semconv Verif.Convert Verif.View
open Verif.Markdown (Lookup idLookup Args tagFilters isMetricTable Gen)

/-- v2.rs:372-383 `ResolvedId`. -/
inductive Shown where
  | «attribute» (a : VAttr)
  | attributeGroup (g : VGroup)
  | span (s : VSpan)
  | metric (m : VMetric)
  | event (e : VEvent)
  | entity (e : VEntity)

/-- What `lookup_id` may do, and then `generate_markdown_snippet` (v2.rs:57-62): it panics for a reference that is not in
the catalog. -/
inductive Res (α : Type) where
  | ok (v : α)
  | invalidId
  | notFound
  | panic (ref : Nat)

/-- v2.rs:108-124 and the same lines for the other kinds: the attributes of a signal. The first one that is not in the
catalog is a panic. Their provenance is left out. -/
def resolveRefs (cat : List A2) : List ARef → Except Nat (List VRef)
  | [] => .ok []
  | r :: rs => match cat[r.base]? with
    | none => .error r.base
    | some a => match resolveRefs cat rs with
      | .error n => .error n
      | .ok vs => .ok
        ({ base := { key := a.key, type := a.type, examples := a.examples, common := a.common, prov := {} },
           requirement := r.requirement, sampling := r.sampling } :: vs)

/-- v2.rs:102-140 `resolved_metric`. -/
def resolvedMetric (cat : List A2) (deps : List String) (m : Metric) : Except Nat Shown :=
  match resolveRefs cat m.attributes with
  | .error n => .error n
  | .ok as => .ok (.metric
    { name := m.name, instrument := m.instrument, unit := m.unit, attributes := as, assocs := showAssocs deps m.assocs,
      requirement := m.requirement, common := m.common, prov := {} })

/-- v2.rs:143-176 `resolved_span`. -/
def resolvedSpan (cat : List A2) (deps : List String) (s : Span) : Except Nat Shown :=
  match resolveRefs cat s.attributes with
  | .error n => .error n
  | .ok as => .ok (.span
    { type := s.type, kind := s.kind, name := s.name, attributes := as, assocs := showAssocs deps s.assocs,
      requirement := s.requirement, common := s.common, prov := {} })

/-- v2.rs:179-209 `resolved_event`. -/
def resolvedEvent (cat : List A2) (deps : List String) (e : Event) : Except Nat Shown :=
  match resolveRefs cat e.attributes with
  | .error n => .error n
  | .ok as => .ok (.event
    { name := e.name, attributes := as, assocs := showAssocs deps e.assocs, requirement := e.requirement,
      common := e.common, prov := {} })

/-- v2.rs:212-263 `resolved_entity`. -/
def resolvedEntity (cat : List A2) (e : Entity) : Except Nat Shown :=
  match resolveRefs cat e.identity with
  | .error n => .error n
  | .ok ids => match resolveRefs cat e.description with
    | .error n => .error n
    | .ok des => .ok (.entity
      { type := e.type, identity := ids, description := des, requirement := e.requirement, common := e.common,
        prov := {} })

/-- v2.rs:266-294 `resolved_attribute_group`. -/
def resolvedGroup (cat : List A2) (g : AGroup) : Except Nat Shown :=
  match resolveRefs cat g.attributes with
  | .error n => .error n
  | .ok as => .ok (.attributeGroup { id := g.id, attributes := as, common := g.common, prov := {} })

/-- v2.rs:297-307 `resolved_attribute`. -/
def resolvedAttribute (a : A2) : Shown :=
  .attribute { key := a.key, type := a.type, examples := a.examples, common := a.common, prov := {} }

/-- The item that was found, if any. -/
def found {α : Type} (f : α → Except Nat Shown) : Option α → Res Shown
  | none => .notFound
  | some a => match f a with
    | .ok v => .ok v
    | .error n => .panic n

/-- v2.rs:309-370 `lookup_id`, and v2.rs:62-64: nothing found is an error. `lookup_signal_by_id` (v2.rs:97-99) compares the
name of a metric or event, the type of a span or entity, the id of an attribute group. -/
def lookupId (s : Schema) (id : Chars) : Res Shown :=
  let cat := s.out.catalog
  match idLookup id with
  | none => .invalidId
  | some (.attribute k) =>
    found (fun a => .ok (resolvedAttribute a))
      ((s.out.attributes.filterMap fun r => cat[r]?).find? fun a => decide (a.key.toList = k))
  | some (.attributeGroup k) => found (resolvedGroup cat) (s.out.groups.find? fun g => decide (g.id.toList = k))
  | some (.span k) => found (resolvedSpan cat s.deps) (s.out.spans.find? fun m => decide (m.type.toList = k))
  | some (.metric k) => found (resolvedMetric cat s.deps) (s.out.metrics.find? fun m => decide (m.name.toList = k))
  | some (.event k) => found (resolvedEvent cat s.deps) (s.out.events.find? fun m => decide (m.name.toList = k))
  | some (.entity k) => found (resolvedEntity cat) (s.out.entities.find? fun m => decide (m.type.toList = k))
  | some (.metricRefinement k) =>
    found (fun r => resolvedMetric cat s.deps r.sig) (s.out.metricRefs.find? fun m => decide (m.id.toList = k))
  | some (.eventRefinement k) =>
    found (fun r => resolvedEvent cat s.deps r.sig) (s.out.eventRefs.find? fun m => decide (m.id.toList = k))
  | some (.spanRefinement k) =>
    found (fun r => resolvedSpan cat s.deps r.sig) (s.out.spanRefs.find? fun m => decide (m.id.toList = k))
  | some (.entityRefinement k) =>
    found (fun r => resolvedEntity cat r.sig) (s.out.entityRefs.find? fun m => decide (m.id.toList = k))

/-- v1.rs:147-154 and v2.rs:418-424 `MarkdownSnippetContext`; `isMetric` is the snippet type of v1.rs:156-161. -/
structure Context (α : Type) where
  group : α
  isMetric : Bool
  tagFilter : List Chars
  baseUrl : Option Chars

/-- v2.rs:50-82 `generate_markdown_snippet` up to the rendering. -/
def context2 (s : Schema) (args : Args) (baseUrl : Option Chars) : Res (Context Shown) :=
  match lookupId s args.id with
  | .ok v => .ok { group := v, isMetric := false, tagFilter := tagFilters args, baseUrl := baseUrl }
  | .invalidId => .invalidId
  | .notFound => .notFound
  | .panic n => .panic n

/-- The errors of v1.rs:109-115. -/
inductive Err1 where
  | groupNotFound
  | notFound (l : List NotFound)
deriving DecidableEq

/-- v1.rs:89-91 `find_group` and v1.rs:96-135 `generate_markdown_snippet` up to the rendering. -/
def context1 (cat : List A1) (gs : List Grp1) (args : Args) (baseUrl : Option Chars) : Except Err1 (Context VGrp1) :=
  match gs.find? (fun g => decide (g.grp.id.toList = args.id)) with
  | none => .error .groupNotFound
  | some g => match showGroup1 cat g.grp with
    | .error l => .error (.notFound l)
    | .ok v => .ok { group := v, isMetric := isMetricTable args, tagFilter := tagFilters args, baseUrl := baseUrl }

/-- v1.rs:131-134, v2.rs:78-81: the rendered text and a line end. -/
def finish {ε : Type} : Except ε Chars → Except ε Chars
  | .ok t => .ok (t ++ ['\n'])
  | .error e => .error e

/-! ### The command -/

/-- An entry of the walk over the markdown directory, update_markdown.rs:181-186: `ext` is the extension of its path,
`isFile` whether the path is a file (links are followed), `text` its text if it can be read. -/
structure Entry where
  isFile : Bool
  ext : Option String
  text : Option Chars

/-- update_markdown.rs:98-102 `is_markdown`. -/
def isMarkdown (e : Entry) : Bool := e.isFile && decide (e.ext.getD "" = "md")

/-- update_markdown.rs:26-35 and the errors and results of `command`. -/
inductive Outcome (M : Type) where
  | ok
  | notUpToDate
  | updateFailed
  | messages (l : List M)
deriving DecidableEq

/-- update_markdown.rs:186-200: one entry of the walk after the command, and whether there was an error. Entries that
cannot be walked (`none`) and other files are skipped. -/
def visit {ε : Type} (g : Gen ε) (dryRun : Bool) : Option Entry → Option Entry × Bool
  | none => (none, false)
  | some e =>
    if isMarkdown e then
      let r := Markdown.updateMarkdown g dryRun e.text
      (some { e with text := r.1 }, match r.2 with | .ok _ => false | .error _ => true)
    else (some e, false)

/-- update_markdown.rs:172-222 `command` after resolution: the walk after it and what it says. `future` is
`is_future_mode_enabled()`, `diags` the messages of resolution (`diag_msgs`). Simplification: the walk is fixed before the
first file is written; writing a file does not change which files there are. -/
def command {ε M : Type} (g : Gen ε) (future dryRun : Bool) (diags : List M) (walk : List (Option Entry)) :
    List (Option Entry) × Outcome M :=
  if future = true ∧ diags ≠ [] then (walk, .messages diags)
  else
    let rs := walk.map (visit g dryRun)
    (rs.map (·.1),
      if rs.any (·.2) then (if dryRun then .notUpToDate else .updateFailed)
      else if diags ≠ [] then .messages diags else .ok)

end Verif.Snippet
