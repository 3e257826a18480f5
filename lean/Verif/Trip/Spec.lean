import Verif.Trip.Model
import Verif.Infer.Props
import Verif.Emit.RoundTrip
/-
What the round trip from telemetry to an inferred registry and back is compared to.
-/
namespace Verif.Trip
open Verif.Util Verif.Receiver.Ingest
open Verif.LiveCheck (AttrDef AType Signal V2Part Registry Req SAttr Sample PType SigKind Checker)
open Verif.Infer (SpanKind Out)

/-- The registry that is loaded says what the inferred one says: the same attributes, metrics and events, with the same types,
instruments and units; everything is in development, nothing is deprecated or required, and no entities are associated. -/
structure SignalFrom (k : SigKind) (g : Signal) : Prop where
  kind : g.kind = .group ∨ g.kind = k
  live : g.deprecated = none
  stability : g.stability = some "development"
  assocs : g.assocs = []
  optional : ∀ x ∈ g.attrs, x.req ≠ .required

structure Loads (o : Out) (r : Registry) : Prop where
  attrs : ∀ d ∈ o.attributes, ∃ x ∈ r.attrDefs, x.name = d.key
  attrsFrom : ∀ x ∈ r.attrDefs, x.deprecated = none ∧ x.stability = some "development" ∧
    ∃ d ∈ o.attributes, d.key = x.name ∧ x.typ = .prim d.attr.typ
  metrics : ∀ m ∈ o.metrics, ∃ q ∈ r.metricDefs, q.1 = m.name
  metricsFrom : ∀ q ∈ r.metricDefs, SignalFrom .metric q.2 ∧
    ∃ m ∈ o.metrics, m.name = q.1 ∧ q.2.instrument = some m.instrument ∧ q.2.unit = some m.unit
  events : ∀ m ∈ o.events, ∃ q ∈ r.eventDefs, q.1 = m.name
  eventsFrom : ∀ q ∈ r.eventDefs, SignalFrom .event q.2 ∧ ∃ m ∈ o.events, m.name = q.1

/-- The attributes of the data points of a metric. -/
def onPoints (m : LiveCheck.Metric) : List SAttr :=
  match m.points with
  | none => []
  | some (.number l) => l.flatMap (·.attrs)
  | some (.histogram l) => l.flatMap (·.attrs)
  | some (.exponential l) => l.flatMap (·.attrs)

/-- The attributes of the exemplars of a metric. -/
def onExemplars (m : LiveCheck.Metric) : List SAttr :=
  match m.points with
  | none => []
  | some (.number l) => l.flatMap fun p => p.exemplars.flatMap (·.attrs)
  | some (.histogram l) => l.flatMap fun p => p.exemplars.flatMap (·.attrs)
  | some (.exponential l) => l.flatMap fun p => p.exemplars.flatMap (·.attrs)

/-- The attributes of a sample that inference learns. -/
def learned : Sample → List SAttr
  | .resource r => r.attrs
  | .span s => s.attrs ++ s.events.flatMap (·.attrs)
  | .metric m => match m.instrument with
    | .supported _ => onPoints m
    | .unsupported _ => []
  | .log l => if l.eventName = "" then [] else l.attrs
  | _ => []

/-- All attributes of a sample. -/
def allAttrs : Sample → List SAttr
  | .attribute a => [a]
  | .span s => s.attrs ++ s.events.flatMap (·.attrs) ++ s.links.flatMap (·.attrs)
  | .spanEvent e => e.attrs
  | .spanLink l => l.attrs
  | .resource r => r.attrs
  | .scope s => s.attrs
  | .metric m => onPoints m ++ onExemplars m
  | .log l => l.attrs
  | .profile p => p.attrs

/-- The telemetry agrees with itself, and everything in it is of a kind inference learns. -/
structure Even (ss : List Sample) : Prop where
  /-- Attributes of scopes, span links, exemplars, profiles, logs without event name and metrics without supported instrument
  also are attributes of something that is learned. -/
  known : ∀ s ∈ ss, ∀ a ∈ allAttrs s, ∃ s' ∈ ss, ∃ b ∈ learned s', b.name = a.name
  /-- The values of an attribute have one type, as far as it is known. -/
  typed : ∀ s ∈ ss, ∀ a ∈ allAttrs s, ∀ s' ∈ ss, ∀ b ∈ learned s', b.name = a.name →
    ∀ t, a.typ = some t → t.isCompatible (b.typ.getD .string) = true
  /-- Metrics have an instrument that is supported. -/
  supported : ∀ m, .metric m ∈ ss → ∃ i, m.instrument = .supported i
  /-- Metrics of one name have one instrument and one unit. -/
  agree : ∀ m m', .metric m ∈ ss → .metric m' ∈ ss → m.name = m'.name → m.instrument = m'.instrument ∧ m.unit = m'.unit

/-- A registry inferred from the requests: for some order of the hash maps, and loaded. -/
def InferredFrom (rs : List Request) (r : Registry) : Prop :=
  ∃ (toF : Int → Nat) (kind : SpanMsg → SpanKind) (st : Infer.St),
    Infer.Shuffled (Infer.addSamples toF (rs.flatMap (taken kind))) st ∧ Loads (Infer.toSpec st) r

/-- Requests without errors: the samples of the live check. -/
def sent (rs : List Request) : List Sample := rs.flatMap ingest

end Verif.Trip
