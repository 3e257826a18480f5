import Verif.Values.Model
import Verif.LiveCheck.RunSpec
/-
From OTLP requests to samples: src/registry/otlp/conversion.rs and otlp_ingester.rs.

Not modelled: what no check looks at: values of data points, timestamps, ids, severities, bodies, kinds and states of spans,
versions and URLs of scopes (only whether the URL is empty).
-/
namespace Verif.Receiver.Ingest
open Verif.LiveCheck (Elem Value PType SAttr Resource Scope SpanEvent SpanLink Exemplar Point Points Instr Metric Log Span Profile
  Sample attach nextResource attachAll)
open Verif.Values (inferType)

/-- `AnyValue` of the protocol (opentelemetry.proto.common.v1). Doubles that are not finite are apart; what byte strings and
maps hold is left out. `unset`: no value. -/
inductive Any where
  | str (s : String)
  | int (n : Int)
  | dbl (id : Nat)
  | notFinite
  | bool (b : Bool)
  | arr (l : List Any)
  | bytes
  | kvlist
  | unset

/-- conversion.rs:57-83 `maybe_to_json` of an element of an array. `json!` of a double that is not finite is `null`. -/
def toElem : Any → Option Elem
  | .str s => some (.str s)
  | .int n => some (.int n)
  | .dbl f => some (.dbl f)
  | .notFinite => some .null
  | .bool b => some (.bool b)
  | .arr _ => some .nested
  | .bytes => none
  | .kvlist => none
  | .unset => none

/-- conversion.rs:57-83 `maybe_to_json`. -/
def toValue : Any → Option Value
  | .arr l => some (.arr (l.filterMap toElem))
  | v => (toElem v).map .elem

/-- `KeyValue` of the protocol. -/
structure KV where
  key : String
  value : Option Any := none

/-- conversion.rs:86-98 `sample_attribute_from_key_value`. -/
def attrOf (kv : KV) : SAttr :=
  let value := kv.value.bind toValue
  { name := kv.key, value, typ := value.bind inferType }

/-- What a resource has in a request: the resource, if it is given, and by scope (name and attributes, if given, and whether
there is a URL) its signals: `ResourceLogs`, `ResourceMetrics`, `ResourceSpans`, `ResourceProfiles`. -/
structure ScopeBlock (σ : Type) where
  scope : Option (String × List KV) := none
  url : Bool := false
  signals : List σ := []

structure Block (σ : Type) where
  resource : Option (List KV) := none
  scopes : List (ScopeBlock σ) := []

structure LogMsg where
  eventName : String := ""
  attrs : List KV := []

structure PointMsg where
  attrs : List KV := []
  exemplars : List (List KV) := []

/-- `metric::Data`. -/
inductive Data where
  | sum (monotonic : Bool) (l : List PointMsg)
  | gauge (l : List PointMsg)
  | histogram (l : List PointMsg)
  | exponential (l : List PointMsg)
  | summary

structure MetricMsg where
  name : String
  unit : String := ""
  data : Option Data := none

structure SpanMsg where
  name : String
  attrs : List KV := []
  events : List (String × List KV) := []
  links : List (List KV) := []

/-- `Profile`, with the indices into the table of attributes. -/
structure ProfileMsg where
  indices : List Int := []

/-- `ProfilesDictionary`: the strings, and the attributes with the indices of their keys. -/
structure Dict where
  strings : List String := []
  attrs : List (Int × Option Any) := []

/-- otlp/mod.rs:274-284 `OtlpRequest` without stops and errors. -/
inductive Request where
  | logs (l : List (Block LogMsg))
  | metrics (l : List (Block MetricMsg))
  | traces (l : List (Block SpanMsg))
  | profiles (dict : Option Dict) (l : List (Block ProfileMsg))

/-- conversion.rs:33-55 `otlp_instrumentation_scope_to_sample`. -/
def scopeOf (scope : Option (String × List KV)) (url : Bool) : Option Scope :=
  match scope with
  | none => if url then some {} else none
  | some (name, attrs) => some { name, attrs := attrs.map attrOf }

/-- conversion.rs:408-443 `otlp_log_record_to_sample_log`. -/
def logOf (m : LogMsg) : Log := { eventName := m.eventName, attrs := m.attrs.map attrOf }

/-- conversion.rs:185-208, 247-371: data points with their exemplars. -/
def pointOf (p : PointMsg) : Point := { attrs := p.attrs.map attrOf, exemplars := p.exemplars.map (fun e => { attrs := e.map attrOf }) }

/-- conversion.rs:149-167 `otlp_data_to_instrument`. -/
def instrumentOf : Option Data → Instr
  | some (.sum true _) => .supported "counter"
  | some (.sum false _) => .supported "updowncounter"
  | some (.gauge _) => .supported "gauge"
  | some (.histogram _) => .supported "histogram"
  | some (.exponential _) => .supported "histogram"
  | some .summary => .unsupported "Summary"
  | none => .unsupported "Unspecified"

/-- conversion.rs:170-182 `otlp_data_to_data_points`. -/
def pointsOf : Option Data → Option Points
  | some (.sum _ l) => some (.number (l.map pointOf))
  | some (.gauge l) => some (.number (l.map pointOf))
  | some (.histogram l) => some (.histogram (l.map pointOf))
  | some (.exponential l) => some (.exponential (l.map pointOf))
  | _ => none

/-- conversion.rs:129-139 `otlp_metric_to_sample`. -/
def metricOf (m : MetricMsg) : Metric := { name := m.name, instrument := instrumentOf m.data, unit := m.unit, points := pointsOf m.data }

/-- otlp_ingester.rs:156-205: a span with its events and links. -/
def spanOf (m : SpanMsg) : Span :=
  { name := m.name, attrs := m.attrs.map attrOf, events := m.events.map (fun e => { name := e.1, attrs := e.2.map attrOf })
    links := m.links.map (fun l => { attrs := l.map attrOf }) }

/-- `slice.get(i as usize)`: a negative index is beyond any slice. -/
def at? {α : Type} (l : List α) (i : Int) : Option α := if i < 0 then none else l[i.toNat]?

/-- conversion.rs:374-406 `sample_attribute_from_key_value_and_unit` and `otlp_profile_to_sample`. -/
def profileOf (dict : Option Dict) (m : ProfileMsg) : Profile :=
  match dict with
  | none => {}
  | some d => { attrs := (m.indices.filterMap (at? d.attrs)).map (fun a =>
      attrOf { key := (at? d.strings a.1).getD "", value := a.2 }) }

/-- otlp_ingester.rs:53-68, 92-107, 131-146, 213-229: the sample of a resource. -/
def resourceOf (attrs : List KV) : Resource := { attrs := attrs.map attrOf }

/-- otlp_ingester.rs:70-87, 109-125, 148-206, 231-248: the samples of a scope: that of the scope, then those of its signals. -/
def scopeSamples {σ : Type} (sample : Option Resource → σ → Sample) (r : Option Resource) (b : ScopeBlock σ) : List Sample :=
  ((scopeOf b.scope b.url).toList.map .scope) ++ b.signals.map (sample r)

/-- otlp_ingester.rs:52-88, 91-126, 130-207, 212-249: the samples of a resource: that of the resource, then those of its
scopes. -/
def blockSamples {σ : Type} (sample : Option Resource → σ → Sample) (b : Block σ) : List Sample :=
  let r := b.resource.map resourceOf
  (r.toList.map .resource) ++ b.scopes.flatMap (scopeSamples sample r)

def logSample (r : Option Resource) (m : LogMsg) : Sample := .log { logOf m with resource := r }
def metricSample (r : Option Resource) (m : MetricMsg) : Sample := .metric { metricOf m with resource := r }
def spanSample (r : Option Resource) (m : SpanMsg) : Sample := .span { spanOf m with resource := r }
def profileSample (d : Option Dict) (r : Option Resource) (m : ProfileMsg) : Sample := .profile { profileOf d m with resource := r }

/-- otlp_ingester.rs:49-257 `fill_buffer_from_request`. -/
def ingest : Request → List Sample
  | .logs l => l.flatMap (blockSamples logSample)
  | .metrics l => l.flatMap (blockSamples metricSample)
  | .traces l => l.flatMap (blockSamples spanSample)
  | .profiles d l => l.flatMap (blockSamples (profileSample d))

/-- otlp_ingester.rs:260-275 with src/registry/live_check.rs:392-402: the samples that are checked, for requests `rs`. -/
def checked (rs : List Request) : List Sample := attachAll none (rs.flatMap ingest)

end Verif.Receiver.Ingest
