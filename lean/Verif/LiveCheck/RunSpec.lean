import Verif.LiveCheck.Model
import Verif.Util.Forall2
/-
What a run of the live check is, without state: the list of things it looks at, each with the definition it is compared
to, and what is reported about each.  `run_report` says that a run that ends reports exactly that.
-/
namespace Verif.LiveCheck
open Verif.Util Verif.Semconv

/-- A thing the live check looks at: a sample or a part of one. -/
structure Occ where
  kind : String
  ref : SRef
  signal : Sample
  attr : Option AttrDef := none
  group : Option Signal := none
  first : List Finding := []
  last : List Finding := []

/-- An attribute. -/
def attrOcc (c : Checker) (group : Option Signal) (signal : Sample) (a : SAttr) : Occ :=
  { kind := "attribute", ref := .attribute a, signal, attr := c.findAny a.name, group,
    first := attributeFirst signal a (c.findAny a.name) }

/-- Something that has attributes: first it, then each of its attributes. -/
def withAttrs (c : Checker) (kind : String) (ref : SRef) (attrs : List SAttr) (group : Option Signal) (signal : Sample) :
    List Occ :=
  { kind, ref, signal, group } :: attrs.map (attrOcc c group signal)

/-- A data point, its attributes, and its exemplars with theirs. -/
def pointOccs (c : Checker) (mk : Point → SRef) (group : Option Signal) (signal : Sample) (p : Point) : List Occ :=
  withAttrs c "data_point" (mk p) p.attrs group signal
    ++ p.exemplars.flatMap fun e => withAttrs c "exemplar" (.exemplar e) e.attrs group signal

/-- The data points of a metric. -/
def pointsOccs (c : Checker) (group : Option Signal) (signal : Sample) : Option Points → List Occ
  | none => []
  | some (.number l) => l.flatMap (pointOccs c .numberPoint group signal)
  | some (.histogram l) => l.flatMap (pointOccs c .histogramPoint group signal)
  | some (.exponential l) => l.flatMap (pointOccs c .exponentialPoint group signal)

/-- The event a log is compared to: a log without event name is compared to none. -/
def eventOf (c : Checker) (l : Log) : Option Signal := if l.eventName = "" then none else c.findEvent l.eventName

/-- Everything the live check looks at in a sample. -/
def occs (env : Env) (s : Sample) : List Occ :=
  let c := env.checker
  match s with
  | .attribute a => [attrOcc c none s a]
  | .span x => withAttrs c "span" (.span x) x.attrs none s
      ++ x.events.flatMap (fun e => withAttrs c "span_event" (.spanEvent e) e.attrs none s)
      ++ x.links.flatMap (fun l => withAttrs c "span_link" (.spanLink l) l.attrs none s)
  | .spanEvent x => withAttrs c "span_event" (.spanEvent x) x.attrs none s
  | .spanLink x => withAttrs c "span_link" (.spanLink x) x.attrs none s
  | .resource x => withAttrs c "resource" (.resource x) x.attrs none s
  | .scope x => withAttrs c "instrumentation_scope" (.scope x) x.attrs none s
  | .profile x => withAttrs c "profile" (.profile x) x.attrs none s
  | .metric m =>
    let g := c.findMetric m.name
    pointsOccs c g s m.points ++ [{
      kind := "metric", ref := .metric m, signal := s, group := g,
      first := if g.isNone then [mkFinding s "missing_metric" .violation "Metric does not exist in the registry." []] else [],
      last := assocFindings env .metric s g }]
  | .log l =>
    let g := eventOf c l
    l.attrs.map (attrOcc c g s) ++ [{
      kind := "log", ref := .log l, signal := s, group := g,
      first := if l.eventName ≠ "" ∧ g.isNone then
          [mkFinding s "missing_event" .violation ("Event '" ++ l.eventName ++ "' does not exist in the registry.") []]
        else [],
      last := assocFindings env .event s g }]

/-- What the advisors say about a thing, or the first error. -/
def advice (o : Occ) : List Advisor → Except String (List Finding)
  | [] => .ok []
  | a :: l => match a o.ref o.signal o.attr o.group with
    | .error e => .error e
    | .ok fs => match advice o l with
      | .error e => .error e
      | .ok gs => .ok (fs ++ gs)

/-- All findings about a thing, before any are changed or dropped. -/
def Found (env : Env) (o : Occ) (fs : List Finding) : Prop :=
  ∃ gs, advice o env.advisors = .ok gs ∧ fs = o.first ++ gs ++ o.last

/-- What the modifier makes of a finding. -/
def reported (m : Option Modifier) (s : SRef) (f : Finding) : Option Finding :=
  match m with
  | some m => m.apply f s
  | none => some f

/-- The samples with the resource that came last before them. -/
def attachAll : Option Resource → List Sample → List Sample
  | _, [] => []
  | cur, s :: l => attach (nextResource cur s) s :: attachAll (nextResource cur s) l

/-- An entry of the report that is about `o`, with all its findings as far as the modifier keeps them. -/
def Reports (env : Env) (o : Occ) (e : Entry) : Prop :=
  e.kind = o.kind ∧ e.ref = o.ref ∧ ∃ fs, Found env o fs ∧ e.result.all = fs.filterMap (reported env.modifier o.ref)

/-- All findings in the report. -/
def St.findings (st : St) : List Finding := st.entries.flatMap fun e => e.result.all

/-- The highest level of an entry is `l`: it has a finding of that level and none above. -/
def HighestIs (l : Level) (e : Entry) : Prop := (∃ f ∈ e.result.all, f.level = l) ∧ ∀ f ∈ e.result.all, f.level ≤ l

instance (l : Level) (e : Entry) : Decidable (HighestIs l e) := inferInstanceAs (Decidable (_ ∧ _))

/-- The count of a level. -/
def LevelCounts.get (c : LevelCounts) : Level → Nat
  | .information => c.information
  | .improvement => c.improvement
  | .violation => c.violation

end Verif.LiveCheck
