import Verif.Receiver.Ingest
import Verif.LiveCheck.AdviceProps
/-
`registry emit`: crates/weaver_emit/src/{lib,spans,metrics,logs}.rs; the values of attributes are in Verif/Values/Model.lean.

The OpenTelemetry SDK is not modelled: what is modelled are the calls to it, and `requests` says what it is trusted to send
for them: all spans, metrics and log records, in order, each as it was given to it, with a resource and the scope "weaver".
(The SDK drops instruments whose names it finds invalid and sums up data points with equal attributes; names are assumed to
be valid and different.)
-/
namespace Verif.Emit
open Verif.LiveCheck (AttrDef AType Elem Value EntityKey SigKind V2Part Entity)
open Verif.Values (Examples emitted emittedName)
open Verif.Semconv (Deprecated Assoc)
open Verif.Receiver.Ingest (Any KV Block ScopeBlock LogMsg PointMsg Data MetricMsg SpanMsg Request)

/-! ### Registries -/

/-- weaver_semconv group.rs `SpanKindSpec`, and `SpanKind` of the SDK. -/
inductive Kind where
  | client | server | producer | consumer | internal
deriving DecidableEq, Repr

/-- weaver_semconv group.rs `InstrumentSpec`. -/
inductive Instrument where
  | updowncounter | counter | gauge | histogram
deriving DecidableEq, Repr

/-- weaver_semconv group.rs `Display for InstrumentSpec`. -/
def Instrument.text : Instrument → String
  | .updowncounter => "updowncounter"
  | .counter => "counter"
  | .gauge => "gauge"
  | .histogram => "histogram"

/-- An attribute of a signal: what the live check reads of it, and its examples. -/
structure Attr where
  d : AttrDef
  examples : Option Examples := none
deriving DecidableEq, Repr

/-- The types of v1 groups that are told apart. -/
inductive GType where
  | span | metric | event | entity | other
deriving DecidableEq, Repr

/-- weaver_forge registry.rs `ResolvedGroup`, the fields that emit and live check read. -/
structure Group where
  type : GType
  id : String
  name : Option String := none
  metricName : Option String := none
  instrument : Option Instrument := none
  unit : Option String := none
  spanKind : Option Kind := none
  attrs : List Attr := []
  deprecated : Option Deprecated := none
  stability : Option String := none
  assocs : List (Assoc EntityKey) := []

/-- weaver_forge v2/span.rs `Span`. -/
structure Span2 where
  type : String
  kind : Kind
  attrs : List Attr := []

/-- weaver_forge v2/metric.rs `Metric`. -/
structure Metric2 where
  name : String
  instrument : Instrument
  unit : String
  attrs : List Attr := []
  deprecated : Option Deprecated := none
  stability : Option String := none
  assocs : List (Assoc EntityKey) := []

/-- weaver_forge v2/event.rs `Event`. -/
structure Event2 where
  name : String
  attrs : List Attr := []
  deprecated : Option Deprecated := none
  stability : Option String := none
  assocs : List (Assoc EntityKey) := []

/-- weaver_forge v2/registry.rs `ForgeResolvedRegistry`. -/
structure Reg2 where
  attributes : List AttrDef := []
  spans : List Span2 := []
  metrics : List Metric2 := []
  events : List Event2 := []
  entities : List Entity := []
  entityRefinements : List (String × Entity) := []

/-- lib.rs:177-183 `RegistryVersion`. -/
inductive Reg where
  | v1 (groups : List Group)
  | v2 (r : Reg2) (dependencies : List (String × V2Part))

/-! ### The registry as the live check reads it -/

/-- The type of a group as the live check tells them apart. -/
def GType.toCheck : GType → LiveCheck.GType
  | .metric => .metric
  | .event => .event
  | .entity => .entity
  | _ => .other

/-- The signal a group defines. -/
def Group.signal (g : Group) : LiveCheck.Signal :=
  { kind := .group, deprecated := g.deprecated, stability := g.stability, instrument := g.instrument.map Instrument.text,
    unit := g.unit, attrs := g.attrs.map (·.d), assocs := g.assocs }

/-- A group as the live check reads it. -/
def Group.toCheck (g : Group) : LiveCheck.Group :=
  { type := g.type.toCheck, name := g.name, metricName := g.metricName, signal := g.signal }

/-- A metric as the live check reads it. -/
def Metric2.signal (m : Metric2) : LiveCheck.Signal :=
  { kind := .metric, deprecated := m.deprecated, stability := m.stability, instrument := some m.instrument.text,
    unit := some m.unit, attrs := m.attrs.map (·.d), assocs := m.assocs }

/-- An event as the live check reads it. -/
def Event2.signal (e : Event2) : LiveCheck.Signal :=
  { kind := .event, deprecated := e.deprecated, stability := e.stability, attrs := e.attrs.map (·.d), assocs := e.assocs }

/-- A v2 registry as the live check reads it. -/
def Reg2.toCheck (r : Reg2) : V2Part :=
  { attributes := r.attributes, metrics := r.metrics.map (fun m => (m.name, m.signal))
    events := r.events.map (fun e => (e.name, e.signal)), entities := r.entities, entityRefinements := r.entityRefinements }

/-- The registry the live check works with. -/
def Reg.toCheck : Reg → LiveCheck.Registry
  | .v1 groups => .v1 (groups.map Group.toCheck)
  | .v2 r deps => .v2 r.toCheck deps

/-! ### Emit -/

/-- A span that is started and ended. -/
structure SpanCall where
  name : String
  kind : Kind
  attrs : List (String × Value) := []
deriving DecidableEq, Repr

/-- An instrument that is made and used once, with value 1.0. -/
structure MetricCall where
  instrument : Instrument
  name : String
  unit : String
  attrs : List (String × Value) := []
deriving DecidableEq, Repr

/-- A log record with severity `INFO`. -/
structure LogCall where
  eventName : String
  body : String
  attrs : List (String × Value) := []
deriving DecidableEq, Repr

/-- All calls, in order: spans in the order of their ends. -/
structure Calls where
  spans : List SpanCall := []
  metrics : List MetricCall := []
  logs : List LogCall := []
deriving DecidableEq, Repr

/-- `mapM` with `Option`, where `none` is a panic. -/
def traverse {α β : Type} (f : α → Option β) : List α → Option (List β)
  | [] => some []
  | x :: l => match f x with
    | none => none
    | some y => match traverse f l with
      | none => none
      | some ys => some (y :: ys)

/-- attributes.rs:16-33 `get_attribute_name_value`, `get_attribute_name_value_v2`. -/
def nameValue (d13 d15 : Nat) (a : Attr) : Option (String × Value) :=
  (emitted d13 d15 a.d.typ a.examples).map fun v => (emittedName a.d.name a.d.typ, v)

/-- spans.rs:20-32 `otel_span_kind`. -/
def spanKind : Option Kind → Kind
  | some .client => .client
  | some .server => .server
  | some .producer => .producer
  | some .consumer => .consumer
  | some .internal => .internal
  | none => .internal

/-- spans.rs:46-54: the span of a group; the outer `none` is a panic. -/
def emitSpan1 (d13 d15 : Nat) (g : Group) : Option (Option SpanCall) :=
  if g.type = .span then
    match traverse (nameValue d13 d15) g.attrs with
    | none => none
    | some attrs => some (some { name := g.id, kind := spanKind g.spanKind, attrs })
  else some none

/-- spans.rs:69-79. -/
def emitSpan2 (d13 d15 : Nat) (s : Span2) : Option SpanCall :=
  match traverse (nameValue d13 d15) s.attrs with
  | none => none
  | some attrs => some { name := s.type, kind := spanKind (some s.kind), attrs }

/-- spans.rs:36-43, 59-66: the span around all others. -/
def root (path : String) : SpanCall :=
  { name := "otel.weaver.emit", kind := .internal, attrs := [("otel.weaver.registry_path", .elem (.str path))] }

/-- metrics.rs:66-89: the metric of a group; `emit_metric` (15-58) is the call. -/
def emitMetric1 (d13 d15 : Nat) (g : Group) : Option (Option MetricCall) :=
  if g.type = .metric then
    match g.instrument with
    | none => some none
    | some i => match traverse (nameValue d13 d15) g.attrs with
      | none => none
      | some attrs => some (some { instrument := i, name := g.metricName.getD "", unit := g.unit.getD "", attrs })
  else some none

/-- metrics.rs:96-116. -/
def emitMetric2 (d13 d15 : Nat) (m : Metric2) : Option MetricCall :=
  match traverse (nameValue d13 d15) m.attrs with
  | none => none
  | some attrs => some { instrument := m.instrument, name := m.name, unit := m.unit, attrs }

/-- logs.rs:50-67: the log record of a group. `value_to_any_value` (13-38) does not change values. -/
def emitLog1 (d13 d15 : Nat) (g : Group) : Option (Option LogCall) :=
  if g.type = .event then
    match traverse (nameValue d13 d15) g.attrs with
    | none => none
    | some attrs => some (some { eventName := g.name.getD g.id, body := g.name.getD g.id, attrs })
  else some none

/-- logs.rs:77-94. -/
def emitLog2 (d13 d15 : Nat) (e : Event2) : Option LogCall :=
  match traverse (nameValue d13 d15) e.attrs with
  | none => none
  | some attrs => some { eventName := e.name, body := e.name, attrs }

/-- lib.rs:186-266 `emit`, for exporters that do not fail: spans, then metrics, then logs. `none` is a panic, after which
nothing is known about what was sent. -/
def emit (d13 d15 : Nat) (r : Reg) (path : String) : Option Calls :=
  match r with
  | .v1 groups => do
    let spans ← traverse (emitSpan1 d13 d15) groups
    let metrics ← traverse (emitMetric1 d13 d15) groups
    let logs ← traverse (emitLog1 d13 d15) groups
    return { spans := spans.filterMap id ++ [root path], metrics := metrics.filterMap id, logs := logs.filterMap id }
  | .v2 r _ => do
    let spans ← traverse (emitSpan2 d13 d15) r.spans
    let metrics ← traverse (emitMetric2 d13 d15) r.metrics
    let logs ← traverse (emitLog2 d13 d15) r.events
    return { spans := spans ++ [root path], metrics, logs }

/-! ### What is sent -/

/-- A value in the protocol. -/
def anyOf : Elem → Any
  | .null => .notFinite
  | .bool b => .bool b
  | .int n => .int n
  | .dbl f => .dbl f
  | .str s => .str s
  | .nested => .arr []

/-- A value in the protocol. -/
def anyOfValue : Value → Any
  | .elem e => anyOf e
  | .arr l => .arr (l.map anyOf)

/-- An attribute in the protocol. -/
def kvOf (p : String × Value) : KV := { key := p.1, value := some (anyOfValue p.2) }

/-- The data of an instrument that was used once. Histograms are sent with explicit buckets. -/
def dataOf (i : Instrument) (p : PointMsg) : Data :=
  match i with
  | .updowncounter => .sum false [p]
  | .counter => .sum true [p]
  | .gauge => .gauge [p]
  | .histogram => .histogram [p]

/-- The requests the SDK sends for calls, with the resource `res` (lib.rs:75-79: `service.name` and what the SDK adds) and the
scope "weaver" (spans.rs:37, metrics.rs:63, logs.rs:46). -/
def requests (res : List KV) (c : Calls) : List Request :=
  let block {σ : Type} (l : List σ) : List (Block σ) :=
    [{ resource := some res, scopes := [{ scope := some ("weaver", []), signals := l }] }]
  [.traces (block (c.spans.map fun s => { name := s.name, attrs := s.attrs.map kvOf })),
   .metrics (block (c.metrics.map fun m =>
     { name := m.name, unit := m.unit, data := some (dataOf m.instrument { attrs := m.attrs.map kvOf }) })),
   .logs (block (c.logs.map fun l => { eventName := l.eventName, attrs := l.attrs.map kvOf }))]

end Verif.Emit
