import Verif.Samples.FindingLog
import Verif.Values.Model
/-
Samples as JSON, which is how they are read from files and standard input and written to reports:
crates/weaver_live_check/src/{json_file_ingester,json_stdin_ingester,lib,sample_attribute,sample_span,sample_metric,sample_log,
sample_profile,sample_resource,sample_instrumentation_scope}.rs, with what serde derives for these types.

JSON is taken as a value, whose text is up to serde_json. Structures may be written as arrays too, which is left out, and so are
repeated keys, which are errors.
-/
namespace Verif.Samples
open Verif.Util
open Verif.LiveCheck (PType Elem Value)
open Verif.Values (inferType)

/-! ### Serde -/

/-- The field of an object. -/
def J.get (k : String) : J → Option J
  | .obj l => (l.find? fun p => p.1 = k).map (·.2)
  | _ => none

/-- A value that is an object. -/
def J.isObj : J → Bool
  | .obj _ => true
  | _ => false

/-- A field that has to be there. -/
def need {α : Type} (k : String) (de : J → Option α) (j : J) : Option α := (j.get k).bind de

/-- `Option`, where null is `None`. -/
def deOpt {α : Type} (de : J → Option α) : J → Option (Option α)
  | .null => some none
  | v => (de v).map some

/-- A field of type `Option`, which may be missing. -/
def opt {α : Type} (k : String) (de : J → Option α) (j : J) : Option (Option α) :=
  match j.get k with
  | none => some none
  | some v => deOpt de v

/-- A field with `#[serde(default)]`. -/
def dflt {α : Type} (k : String) (d : α) (de : J → Option α) (j : J) : Option α :=
  match j.get k with
  | none => some d
  | some v => de v

/-- All values, or an error. -/
def deAll {α : Type} (de : J → Option α) : List J → Option (List α)
  | [] => some []
  | j :: l => match de j, deAll de l with
    | some x, some xs => some (x :: xs)
    | _, _ => none

/-- `Vec`. -/
def deVec {α : Type} (de : J → Option α) : J → Option (List α)
  | .arr l => deAll de l
  | _ => none

/-- `Option`. -/
def serOpt {α : Type} (ser : α → J) : Option α → J
  | some x => ser x
  | none => .null

/-- `String`. -/
def deStr : J → Option String
  | .str s => some s
  | _ => none

/-- `f64`: finite, or not. -/
inductive F where
  | fin (f : Nat)
  | notFinite
deriving DecidableEq

/-- serde_json writes null for floats that are not finite. -/
def F.ser : F → J
  | .fin f => .dbl f
  | .notFinite => .null

/-- A number as `f64`, where `f64` converts integers. -/
def F.de (f64 : Int → Nat) : J → Option F
  | .dbl f => some (.fin f)
  | .int n => some (.fin (f64 n))
  | _ => none

/-- Integers with limits. -/
def deInt (lo hi : Int) : J → Option Int
  | .int n => if lo ≤ n ∧ n < hi then some n else none
  | _ => none

def deU32 : J → Option Int := deInt 0 (2^32)
def deI32 : J → Option Int := deInt (-2^31) (2^31)
def deU64 : J → Option Int := deInt 0 (2^64)

/-- One of some texts. -/
def deText {α : Type} (table : List (String × α)) : J → Option α
  | .str s => (table.find? fun p => p.1 = s).map (·.2)
  | _ => none

/-- How results are written and read: `LiveCheckResult`, whose JSON is an object. -/
structure Codec (R : Type) where
  ser : R → J
  de : J → Option R
  law : ∀ r, de (ser r) = some r
  notNull : ∀ r, ser r ≠ .null

/-! ### Samples -/

variable {R : Type}

/-- sample_attribute.rs:21-32. -/
structure RAttr (R : Type) where
  name : String
  value : Option J
  typ : Option PType
  result : Option R

/-- weaver_semconv attribute.rs:271-296, the names in JSON. -/
def ptypes : List (String × PType) :=
  [("boolean", .boolean), ("int", .int), ("double", .double), ("string", .string), ("any", .any), ("string[]", .strings),
   ("int[]", .ints), ("double[]", .doubles), ("boolean[]", .booleans)]

/-- An element of an array as the live check sees it. -/
def elemOf : J → Elem
  | .null => .null
  | .bool b => .bool b
  | .int n => .int n
  | .dbl f => .dbl f
  | .str s => .str s
  | .arr _ => .nested
  | .obj _ => .nested

/-- A value as the live check sees it. -/
def valueOf : J → Value
  | .arr l => .arr (l.map elemOf)
  | j => .elem (elemOf j)

/-- sample_attribute.rs:20, derived. -/
def serAttr (c : Codec R) (a : RAttr R) : J :=
  .obj [("name", .str a.name), ("value", serOpt id a.value), ("type", serOpt (fun t => .str t.text) a.typ),
    ("live_check_result", serOpt c.ser a.result)]

/-- sample_attribute.rs:47-52: the type that is given, or else that of the value. -/
def typeOr : Option PType → Option J → Option PType
  | none, some v => inferType (valueOf v)
  | t, _ => t

/-- sample_attribute.rs:34-61 `deserialize`. -/
def deAttr (j : J) : Option (RAttr R) := do
  let name ← need "name" deStr j
  let value ← opt "value" some j
  let typ ← opt "type" (deText ptypes) j
  return { name, value, typ := typeOr typ value, result := none }

/-- sample_span.rs:103-111. -/
structure REvent (R : Type) where
  name : String
  attrs : List (RAttr R)
  result : Option R

def serEvent (c : Codec R) (e : REvent R) : J :=
  .obj [("name", .str e.name), ("attributes", .arr (e.attrs.map (serAttr c))), ("live_check_result", serOpt c.ser e.result)]

def deEvent (c : Codec R) (j : J) : Option (REvent R) := do
  let name ← need "name" deStr j
  let attrs ← dflt "attributes" [] (deVec deAttr) j
  let result ← opt "live_check_result" c.de j
  return { name, attrs, result }

/-- sample_span.rs:139-147, sample_resource.rs:16-23: attributes and a result. -/
structure RPlain (R : Type) where
  attrs : List (RAttr R)
  result : Option R

def serPlain (c : Codec R) (e : RPlain R) : J :=
  .obj [("attributes", .arr (e.attrs.map (serAttr c))), ("live_check_result", serOpt c.ser e.result)]

def dePlain (c : Codec R) (j : J) : Option (RPlain R) :=
  if j.isObj then do
    let attrs ← dflt "attributes" [] (deVec deAttr) j
    let result ← opt "live_check_result" c.de j
    return { attrs, result }
  else none

/-- weaver_semconv group.rs:688-700 `SpanKindSpec`. -/
inductive SKind where
  | internal | client | server | producer | consumer
deriving DecidableEq

def SKind.text : SKind → String
  | .internal => "internal"
  | .client => "client"
  | .server => "server"
  | .producer => "producer"
  | .consumer => "consumer"

def skinds : List (String × SKind) :=
  [("internal", .internal), ("client", .client), ("server", .server), ("producer", .producer), ("consumer", .consumer)]

/-- sample_span.rs:20-28 `StatusCode`. -/
inductive Code where
  | unset | ok | error
deriving DecidableEq

def Code.text : Code → String
  | .unset => "unset"
  | .ok => "ok"
  | .error => "error"

def codes : List (String × Code) := [("unset", .unset), ("ok", .ok), ("error", .error)]

/-- sample_span.rs:31-37 `Status`. -/
def serStatus (s : Code × String) : J := .obj [("code", .str s.1.text), ("message", .str s.2)]

def deStatus (j : J) : Option (Code × String) := do
  let code ← need "code" (deText codes) j
  let message ← need "message" deStr j
  return (code, message)

/-- sample_span.rs:40-65; `resource` and `scope` are the two fields that are skipped. -/
structure RSpan (R : Type) where
  name : String
  kind : SKind
  status : Option (Code × String)
  attrs : List (RAttr R)
  events : List (REvent R)
  links : List (RPlain R)
  scope : Bool
  result : Option R
  resource : Option (RPlain R)

def serSpan (c : Codec R) (s : RSpan R) : J :=
  .obj [("name", .str s.name), ("kind", .str s.kind.text), ("status", serOpt serStatus s.status),
    ("attributes", .arr (s.attrs.map (serAttr c))), ("span_events", .arr (s.events.map (serEvent c))),
    ("span_links", .arr (s.links.map (serPlain c))), ("live_check_result", serOpt c.ser s.result)]

def deSpan (c : Codec R) (j : J) : Option (RSpan R) := do
  let name ← need "name" deStr j
  let kind ← need "kind" (deText skinds) j
  let status ← opt "status" deStatus j
  let attrs ← dflt "attributes" [] (deVec deAttr) j
  let events ← dflt "span_events" [] (deVec (deEvent c)) j
  let links ← dflt "span_links" [] (deVec (dePlain c)) j
  let result ← opt "live_check_result" c.de j
  return { name, kind, status, attrs, events, links, scope := false, result, resource := none }

/-- sample_instrumentation_scope.rs:17-36. -/
structure RScope (R : Type) where
  name : String
  version : String
  schemaUrl : String
  attrs : List (RAttr R)
  dropped : Int
  result : Option R

def serScope (c : Codec R) (s : RScope R) : J :=
  .obj [("name", .str s.name), ("version", .str s.version), ("schema_url", .str s.schemaUrl),
    ("attributes", .arr (s.attrs.map (serAttr c))), ("dropped_attributes_count", .int s.dropped),
    ("live_check_result", serOpt c.ser s.result)]

def deScope (c : Codec R) (j : J) : Option (RScope R) :=
  if j.isObj then do
    let name ← dflt "name" "" deStr j
    let version ← dflt "version" "" deStr j
    let schemaUrl ← dflt "schema_url" "" deStr j
    let attrs ← dflt "attributes" [] (deVec deAttr) j
    let dropped ← dflt "dropped_attributes_count" 0 deU32 j
    let result ← opt "live_check_result" c.de j
    return { name, version, schemaUrl, attrs, dropped, result }
  else none

/-- sample_metric.rs:228-241. -/
structure RExemplar (R : Type) where
  attrs : List (RAttr R)
  value : J
  timestamp : String
  spanId : String
  traceId : String
  result : Option R

def serExemplar (c : Codec R) (e : RExemplar R) : J :=
  .obj [("filtered_attributes", .arr (e.attrs.map (serAttr c))), ("value", e.value), ("timestamp", .str e.timestamp),
    ("span_id", .str e.spanId), ("trace_id", .str e.traceId), ("live_check_result", serOpt c.ser e.result)]

def deExemplar (c : Codec R) (j : J) : Option (RExemplar R) := do
  let attrs ← need "filtered_attributes" (deVec deAttr) j
  let value ← need "value" some j
  let timestamp ← need "timestamp" deStr j
  let spanId ← need "span_id" deStr j
  let traceId ← need "trace_id" deStr j
  let result ← opt "live_check_result" c.de j
  return { attrs, value, timestamp, spanId, traceId, result }

/-- sample_metric.rs:46-61. -/
structure RNumber (R : Type) where
  attrs : List (RAttr R)
  value : J
  flags : Int
  exemplars : List (RExemplar R)
  result : Option R

def serNumber (c : Codec R) (p : RNumber R) : J :=
  .obj [("attributes", .arr (p.attrs.map (serAttr c))), ("value", p.value), ("flags", .int p.flags),
    ("exemplars", .arr (p.exemplars.map (serExemplar c))), ("live_check_result", serOpt c.ser p.result)]

def deNumber (c : Codec R) (j : J) : Option (RNumber R) := do
  let attrs ← need "attributes" (deVec deAttr) j
  let value ← need "value" some j
  let flags ← dflt "flags" 0 deU32 j
  let exemplars ← dflt "exemplars" [] (deVec (deExemplar c)) j
  let result ← opt "live_check_result" c.de j
  return { attrs, value, flags, exemplars, result }

/-- sample_metric.rs:93-121. -/
structure RHistogram (R : Type) where
  attrs : List (RAttr R)
  count : Int
  sum : Option F
  bucketCounts : List Int
  explicitBounds : List F
  min : Option F
  max : Option F
  flags : Int
  exemplars : List (RExemplar R)
  result : Option R

def serHistogram (c : Codec R) (p : RHistogram R) : J :=
  .obj [("attributes", .arr (p.attrs.map (serAttr c))), ("count", .int p.count), ("sum", serOpt F.ser p.sum),
    ("bucket_counts", .arr (p.bucketCounts.map .int)), ("explicit_bounds", .arr (p.explicitBounds.map F.ser)),
    ("min", serOpt F.ser p.min), ("max", serOpt F.ser p.max), ("flags", .int p.flags),
    ("exemplars", .arr (p.exemplars.map (serExemplar c))), ("live_check_result", serOpt c.ser p.result)]

def deHistogram (f64 : Int → Nat) (c : Codec R) (j : J) : Option (RHistogram R) := do
  let attrs ← need "attributes" (deVec deAttr) j
  let count ← need "count" deU64 j
  let sum ← opt "sum" (F.de f64) j
  let bucketCounts ← dflt "bucket_counts" [] (deVec deU64) j
  let explicitBounds ← dflt "explicit_bounds" [] (deVec (F.de f64)) j
  let min ← opt "min" (F.de f64) j
  let max ← opt "max" (F.de f64) j
  let flags ← dflt "flags" 0 deU32 j
  let exemplars ← dflt "exemplars" [] (deVec (deExemplar c)) j
  let result ← opt "live_check_result" c.de j
  return { attrs, count, sum, bucketCounts, explicitBounds, min, max, flags, exemplars, result }

/-- sample_metric.rs:152-158: offset and counts. -/
def serBuckets (b : Int × List Int) : J := .obj [("offset", .int b.1), ("bucket_counts", .arr (b.2.map .int))]

def deBuckets (j : J) : Option (Int × List Int) := do
  let offset ← need "offset" deI32 j
  let counts ← need "bucket_counts" (deVec deU64) j
  return (offset, counts)

/-- sample_metric.rs:161-196. -/
structure RExponential (R : Type) where
  attrs : List (RAttr R)
  count : Int
  sum : Option F
  scale : Int
  zeroCount : Int
  positive : Option (Int × List Int)
  negative : Option (Int × List Int)
  flags : Int
  min : Option F
  max : Option F
  zeroThreshold : F
  exemplars : List (RExemplar R)
  result : Option R

def serExponential (c : Codec R) (p : RExponential R) : J :=
  .obj [("attributes", .arr (p.attrs.map (serAttr c))), ("count", .int p.count), ("sum", serOpt F.ser p.sum),
    ("scale", .int p.scale), ("zero_count", .int p.zeroCount), ("positive", serOpt serBuckets p.positive),
    ("negative", serOpt serBuckets p.negative), ("flags", .int p.flags), ("min", serOpt F.ser p.min), ("max", serOpt F.ser p.max),
    ("zero_threshold", p.zeroThreshold.ser), ("exemplars", .arr (p.exemplars.map (serExemplar c))),
    ("live_check_result", serOpt c.ser p.result)]

def deExponential (f64 : Int → Nat) (z0 : Nat) (c : Codec R) (j : J) : Option (RExponential R) := do
  let attrs ← need "attributes" (deVec deAttr) j
  let count ← need "count" deU64 j
  let sum ← opt "sum" (F.de f64) j
  let scale ← dflt "scale" 0 deI32 j
  let zeroCount ← dflt "zero_count" 0 deU64 j
  let positive ← opt "positive" deBuckets j
  let negative ← opt "negative" deBuckets j
  let flags ← dflt "flags" 0 deU32 j
  let min ← opt "min" (F.de f64) j
  let max ← opt "max" (F.de f64) j
  let zeroThreshold ← dflt "zero_threshold" (.fin z0) (F.de f64) j
  let exemplars ← dflt "exemplars" [] (deVec (deExemplar c)) j
  let result ← opt "live_check_result" c.de j
  return { attrs, count, sum, scale, zeroCount, positive, negative, flags, min, max, zeroThreshold, exemplars, result }

/-- sample_metric.rs:34-43 `DataPoints`. -/
inductive RPoints (R : Type) where
  | number (l : List (RNumber R))
  | histogram (l : List (RHistogram R))
  | exponential (l : List (RExponential R))

/-- The derived `Serialize`, untagged. -/
def serPoints (c : Codec R) : RPoints R → J
  | .number l => .arr (l.map (serNumber c))
  | .histogram l => .arr (l.map (serHistogram c))
  | .exponential l => .arr (l.map (serExponential c))

/-- The derived `Deserialize`, untagged: the first variant that can be read. -/
def dePoints (f64 : Int → Nat) (z0 : Nat) (c : Codec R) (j : J) : Option (RPoints R) :=
  match deVec (deNumber c) j with
  | some l => some (.number l)
  | none => match deVec (deHistogram f64 c) j with
    | some l => some (.histogram l)
    | none => (deVec (deExponential f64 z0 c) j).map .exponential

/-- weaver_semconv group.rs:705-716 `InstrumentSpec`. -/
inductive SInstr where
  | updowncounter | counter | gauge | histogram
deriving DecidableEq

def SInstr.text : SInstr → String
  | .updowncounter => "updowncounter"
  | .counter => "counter"
  | .gauge => "gauge"
  | .histogram => "histogram"

def instrs : List (String × SInstr) :=
  [("updowncounter", .updowncounter), ("counter", .counter), ("gauge", .gauge), ("histogram", .histogram)]

/-- sample_metric.rs:24-31 `SampleInstrument`. -/
inductive RInstr where
  | supported (i : SInstr)
  | unsupported (s : String)

def serInstr : RInstr → J
  | .supported i => .str i.text
  | .unsupported s => .str s

def deInstr (j : J) : Option RInstr :=
  match deText instrs j with
  | some i => some (.supported i)
  | none => (deStr j).map .unsupported

/-- sample_metric.rs:281-299. -/
structure RMetric (R : Type) where
  name : String
  instrument : RInstr
  unit : String
  points : Option (RPoints R)
  scope : Bool
  result : Option R
  resource : Option (RPlain R)

def serMetric (c : Codec R) (m : RMetric R) : J :=
  .obj [("name", .str m.name), ("instrument", serInstr m.instrument), ("unit", .str m.unit),
    ("data_points", serOpt (serPoints c) m.points), ("live_check_result", serOpt c.ser m.result)]

def deMetric (f64 : Int → Nat) (z0 : Nat) (c : Codec R) (j : J) : Option (RMetric R) := do
  let name ← need "name" deStr j
  let instrument ← need "instrument" deInstr j
  let unit ← need "unit" deStr j
  let points ← opt "data_points" (dePoints f64 z0 c) j
  let result ← opt "live_check_result" c.de j
  return { name, instrument, unit, points, scope := false, result, resource := none }

/-- sample_log.rs:22-47. -/
structure RLog (R : Type) where
  eventName : String
  severityNumber : Option Int
  severityText : Option String
  body : Option String
  attrs : List (RAttr R)
  traceId : Option String
  spanId : Option String
  scope : Bool
  result : Option R
  resource : Option (RPlain R)

def serLog (c : Codec R) (l : RLog R) : J :=
  .obj [("event_name", .str l.eventName), ("severity_number", serOpt .int l.severityNumber),
    ("severity_text", serOpt .str l.severityText), ("body", serOpt .str l.body), ("attributes", .arr (l.attrs.map (serAttr c))),
    ("trace_id", serOpt .str l.traceId), ("span_id", serOpt .str l.spanId), ("live_check_result", serOpt c.ser l.result)]

def deLog (c : Codec R) (j : J) : Option (RLog R) := do
  let eventName ← need "event_name" deStr j
  let severityNumber ← opt "severity_number" deI32 j
  let severityText ← opt "severity_text" deStr j
  let body ← opt "body" deStr j
  let attrs ← dflt "attributes" [] (deVec deAttr) j
  let traceId ← opt "trace_id" deStr j
  let spanId ← opt "span_id" deStr j
  let result ← opt "live_check_result" c.de j
  return { eventName, severityNumber, severityText, body, attrs, traceId, spanId, scope := false, result, resource := none }

/-- sample_profile.rs:17-32. -/
structure RProfile (R : Type) where
  format : String
  attrs : List (RAttr R)
  scope : Bool
  result : Option R
  resource : Option (RPlain R)

def serProfile (c : Codec R) (p : RProfile R) : J :=
  .obj [("original_payload_format", .str p.format), ("attributes", .arr (p.attrs.map (serAttr c))),
    ("live_check_result", serOpt c.ser p.result)]

def deProfile (c : Codec R) (j : J) : Option (RProfile R) := do
  let format ← need "original_payload_format" deStr j
  let attrs ← dflt "attributes" [] (deVec deAttr) j
  let result ← opt "live_check_result" c.de j
  return { format, attrs, scope := false, result, resource := none }

/-- lib.rs:284-305 `Sample`. -/
inductive RSample (R : Type) where
  | attribute (a : RAttr R)
  | span (s : RSpan R)
  | spanEvent (e : REvent R)
  | spanLink (l : RPlain R)
  | resource (r : RPlain R)
  | scope (s : RScope R)
  | metric (m : RMetric R)
  | log (l : RLog R)
  | profile (p : RProfile R)

/-- The derived `Serialize`: an object with one field, whose name is that of the variant. -/
def ser (c : Codec R) : RSample R → J
  | .attribute a => .obj [("attribute", serAttr c a)]
  | .span s => .obj [("span", serSpan c s)]
  | .spanEvent e => .obj [("span_event", serEvent c e)]
  | .spanLink l => .obj [("span_link", serPlain c l)]
  | .resource r => .obj [("resource", serPlain c r)]
  | .scope s => .obj [("instrumentation_scope", serScope c s)]
  | .metric m => .obj [("metric", serMetric c m)]
  | .log l => .obj [("log", serLog c l)]
  | .profile p => .obj [("profile", serProfile c p)]

/-- The derived `Deserialize`. -/
def de (f64 : Int → Nat) (z0 : Nat) (c : Codec R) : J → Option (RSample R)
  | .obj [(k, j)] =>
    if k = "attribute" then (deAttr j).map .attribute
    else if k = "span" then (deSpan c j).map .span
    else if k = "span_event" then (deEvent c j).map .spanEvent
    else if k = "span_link" then (dePlain c j).map .spanLink
    else if k = "resource" then (dePlain c j).map .resource
    else if k = "instrumentation_scope" then (deScope c j).map .scope
    else if k = "metric" then (deMetric f64 z0 c j).map .metric
    else if k = "log" then (deLog c j).map .log
    else if k = "profile" then (deProfile c j).map .profile
    else none
  | _ => none

/-- json_file_ingester.rs:27-44, json_stdin_ingester.rs:29-48: `Vec<Sample>`; `none` is an error about all of the input. -/
def readSamples (f64 : Int → Nat) (z0 : Nat) (c : Codec R) (j : J) : Option (List (RSample R)) := deVec (de f64 z0 c) j

/-- lib.rs:554-561 `LiveCheckReport`: the samples of a report. -/
def writeSamples (c : Codec R) (l : List (RSample R)) : J := .arr (l.map (ser c))

end Verif.Samples
