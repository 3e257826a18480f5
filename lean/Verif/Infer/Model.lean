import Verif.Util.Map
import Verif.Util.Multi
import Verif.Util.Sort
import Verif.Values.Model
/-
Model of `weaver registry infer`: crates/weaver_infer/src/lib.rs and the loop of src/registry/infer.rs:178-260.

The hash maps of the accumulator are association lists. The order in which Rust iterates over them is not determined:
`Shuffled` relates a state to the same state with its maps listed in any other order, and the theorems are about
every such order. `AccumulatedSpan::name`, `AccumulatedMetric::name`, `AccumulatedEvent::name` and the `id` of an
attribute are the keys the entry is inserted under (lib.rs:125, 136, 152, 191, 350) and are read from the key here.
-/
namespace Verif.Infer
open Verif.Util Verif.Values
open Verif.LiveCheck (Elem Value PType SAttr SpanEvent Point Points Instr Metric Log)

/-- lib.rs:28 `MAX_EXAMPLES`. -/
def maxExamples : Nat := 5

/-- weaver_semconv group.rs `SpanKindSpec`. -/
inductive SpanKind where
  | internal | client | server | producer | consumer
deriving DecidableEq, Repr

/-- weaver_live_check sample_span.rs `SampleSpan`: what inference reads of it. -/
structure Span where
  name : String
  kind : SpanKind
  attrs : List SAttr := []
  events : List SpanEvent := []
deriving DecidableEq, Repr

/-- weaver_live_check lib.rs `Sample`; `other` stands for all samples `add_sample` ignores (lib.rs:104-111). -/
inductive Sample where
  | resource (attrs : List SAttr)
  | span (s : Span)
  | metric (m : Metric)
  | log (l : Log)
  | attribute (a : SAttr)
  | other
deriving DecidableEq, Repr

/-- weaver_semconv `AttributeSpec::Id` as built by lib.rs:341-363. All other fields are constants: empty brief and note,
stability `development`. -/
structure Attr where
  typ : PType
  examples : Option Examples
deriving DecidableEq, Repr

abbrev Attrs := List (String × Attr)

/-- lib.rs:30-35. -/
structure SpanAcc where
  kind : SpanKind
  attrs : Attrs
  events : List (String × Attrs)
deriving DecidableEq, Repr

/-- lib.rs:48-53. -/
structure MetricAcc where
  instrument : String
  unit : String
  attrs : Attrs
deriving DecidableEq, Repr

/-- lib.rs:82-87 `AccumulatedSamples`. -/
structure St where
  resources : Attrs := []
  spans : List (String × SpanAcc) := []
  metrics : List (String × MetricAcc) := []
  events : List (String × Attrs) := []
deriving DecidableEq, Repr

/-! ### Examples -/

variable (toF : Int → Nat)

/-- `Value::as_f64`: `toF` is the conversion of integers. -/
def asF64 : Value → Option Nat
  | .elem (.int n) => some (toF n)
  | .elem (.dbl f) => some f
  | _ => none

/-- lib.rs:397-408: the match of `add_example` when there is no example yet. -/
def newExample (v : Value) : Option Examples :=
  match v with
  | .elem (.bool b) => some (.bool b)
  | .elem (.int _) | .elem (.dbl _) => match v.asI64 with
    | some n => some (.int n)
    | none => (asF64 toF v).map .double
  | .elem (.str s) => some (.string s)
  | .arr _ | .elem .nested | .elem .null => none

/-- lib.rs:427-432, 443-445, 460-462, 476-481: pushing onto a list of examples. -/
def pushMax {α : Type} [DecidableEq α] (l : List α) (x : α) : List α :=
  if l.length < maxExamples ∧ x ∉ l then l ++ [x] else l

/-- Whether a value is a `Value::Number`. -/
def isNumber : Value → Bool
  | .elem (.int _) | .elem (.dbl _) => true
  | _ => false

/-- lib.rs:414-486 `add_to_existing_examples`. -/
def addToExisting (ex : Examples) (v : Value) : Examples :=
  match ex with
  | .bool b => match v with
    | .elem (.bool n) => if b = n then .bool b else .bools [b, n]
    | _ => .bool b
  | .bools l => match v with
    | .elem (.bool n) => .bools (pushMax l n)
    | _ => .bools l
  | .int n => match v.asI64 with
    | some m => if n = m then .int n else .ints [n, m]
    | none => .int n
  | .ints l => match v.asI64 with
    | some m => .ints (pushMax l m)
    | none => .ints l
  | .double f => match asF64 toF v with
    | some g => if f = g then .double f else .doubles [f, g]
    | none => .double f
  | .doubles l => match asF64 toF v with
    | some g => .doubles (pushMax l g)
    | none => .doubles l
  | .string s => match v with
    | .elem (.str n) => if s = n then .string s else .strings [s, n]
    | _ => .string s
  | .strings l => match v with
    | .elem (.str n) => .strings (pushMax l n)
    | _ => .strings l
  | ex => ex

/-- lib.rs:387-411 `add_example`. -/
def addExample (cur : Option Examples) (v : Value) : Option Examples :=
  if v = .elem .null then cur else
  match cur with
  | none => newExample toF v
  | some ex => some (addToExisting toF ex v)

/-! ### Accumulating -/

/-- lib.rs:341-363 `attribute_spec_from_sample`. -/
def newAttr (s : SAttr) : Attr where
  typ := s.typ.getD .string
  examples := s.value.bind (addExample toF none)

/-- lib.rs:366-372 `update_attribute_example`. -/
def updateAttr (a : Attr) (v : Option Value) : Attr :=
  match v with
  | some v => { a with examples := addExample toF a.examples v }
  | none => a

/-- lib.rs:375-384 `accumulate_attribute`. -/
def accAttr (m : Attrs) (s : SAttr) : Attrs :=
  match aget s.name m with
  | some a => aset s.name (updateAttr toF a s.value) m
  | none => aset s.name (newAttr toF s) m

/-- lib.rs:127-129 and the like: a loop of `accumulate_attribute`. -/
def accAttrs (m : Attrs) (l : List SAttr) : Attrs := l.foldl (accAttr toF) m

/-- lib.rs:188-195 and 133-140: `entry(name).or_insert_with(AccumulatedEvent::new)` and its attributes. -/
def accEvent (m : List (String × Attrs)) (name : String) (attrs : List SAttr) : List (String × Attrs) :=
  aset name (accAttrs toF ((aget name m).getD []) attrs) m

/-- lib.rs:121-142 `add_span`. -/
def addSpan (m : List (String × SpanAcc)) (s : Span) : List (String × SpanAcc) :=
  let e := (aget s.name m).getD ⟨s.kind, [], []⟩
  aset s.name
    { e with
      attrs := accAttrs toF e.attrs s.attrs
      events := s.events.foldl (fun evs ev => accEvent toF evs ev.name ev.attrs) e.events } m

/-- lib.rs:155-180: the attributes of the data points of a metric. -/
def pointAttrs (m : Metric) : List SAttr :=
  match m.points with
  | none => []
  | some (.number l) | some (.histogram l) | some (.exponential l) => l.flatMap (·.attrs)

/-- lib.rs:144-181 `add_metric`. -/
def addMetric (ms : List (String × MetricAcc)) (m : Metric) : List (String × MetricAcc) :=
  match m.instrument with
  | .unsupported _ => ms
  | .supported i =>
    let e := (aget m.name ms).getD ⟨i, m.unit, []⟩
    aset m.name { e with attrs := accAttrs toF e.attrs (pointAttrs m) } ms

/-- lib.rs:97-113 `add_sample`. -/
def addSample (st : St) (s : Sample) : St :=
  match s with
  | .resource attrs => { st with resources := accAttrs toF st.resources attrs }
  | .span s => { st with spans := addSpan toF st.spans s }
  | .metric m => { st with metrics := addMetric toF st.metrics m }
  | .log l => if l.eventName = "" then st else { st with events := accEvent toF st.events l.eventName l.attrs }
  | .attribute a => { st with resources := accAttr toF st.resources a }
  | .other => st

/-- infer.rs:206-214: all samples of a run. -/
def addSamples (l : List Sample) : St := l.foldl (addSample toF) {}

/-- lib.rs:200-205 `is_empty`. -/
def St.isEmpty (st : St) : Bool := st.resources.isEmpty && st.spans.isEmpty && st.metrics.isEmpty && st.events.isEmpty

/-! ### The inferred registry -/

/-- The fields of `v2::span::Span` that are not constants (lib.rs:243-253). -/
structure SpanOut where
  type : String
  kind : SpanKind
  note : String
  attrs : List String
deriving DecidableEq, Repr

/-- The fields of `v2::metric::Metric` that are not constants (lib.rs:273-281). -/
structure MetricOut where
  name : String
  instrument : String
  unit : String
  attrs : List String
deriving DecidableEq, Repr

/-- The fields of `v2::event::Event` that are not constants (lib.rs:312-321). -/
structure EventOut where
  name : String
  attrs : List String
deriving DecidableEq, Repr

/-- `AttributeDef` (lib.rs:555-566), without constant fields. -/
structure DefOut where
  key : String
  attr : Attr
deriving DecidableEq, Repr

/-- `SemConvSpecV2` (lib.rs:329-336). -/
structure Out where
  attributes : List DefOut
  events : List EventOut
  metrics : List MetricOut
  spans : List SpanOut
deriving DecidableEq, Repr

/-- lib.rs:536-569 `collect_attribute_defs`. -/
def collect (defs : Attrs) (attrs : Attrs) : Attrs :=
  attrs.foldl (fun d p => match aget p.1 d with | some _ => d | none => aset p.1 p.2 d) defs

/-- Order of strings, for `sort`. -/
def leS (a b : String) : Bool := decide (a ≤ b)

/-- `Vec::dedup`. -/
def dedup : List String → List String
  | [] => []
  | [x] => [x]
  | x :: y :: l => if x = y then dedup (y :: l) else x :: dedup (y :: l)

/-- lib.rs:227-254. -/
def spanOut (p : String × SpanAcc) : SpanOut where
  type := p.1
  kind := p.2.kind
  note := p.1
  attrs := sortBy leS (p.2.attrs.map Prod.fst)

/-- lib.rs:261-282. -/
def metricOut (p : String × MetricAcc) : MetricOut where
  name := p.1
  instrument := p.2.instrument
  unit := p.2.unit
  attrs := sortBy leS (p.2.attrs.map Prod.fst)

/-- lib.rs:286-304 `merged_events`. -/
def mergedEvents (st : St) : List (String × List String) :=
  st.spans.foldl (fun m s => s.2.events.foldl (fun m e => aset e.1 ((aget e.1 m).getD [] ++ e.2.map Prod.fst) m) m)
    (st.events.map fun e => (e.1, e.2.map Prod.fst))

/-- lib.rs:306-323. -/
def eventOut (p : String × List String) : EventOut where
  name := p.1
  attrs := dedup (sortBy leS p.2)

/-- `attribute_defs` of lib.rs:221-304. -/
def attributeDefs (st : St) : Attrs :=
  let d := collect [] st.resources
  let d := st.spans.foldl (fun d s => s.2.events.foldl (fun d e => collect d e.2) (collect d s.2.attrs)) d
  let d := st.metrics.foldl (fun d m => collect d m.2.attrs) d
  let d := st.events.foldl (fun d e => collect d e.2) d
  st.spans.foldl (fun d s => s.2.events.foldl (fun d e => collect d e.2) d) d

/-- lib.rs:220-337 `to_semconv_spec`. -/
def toSpec (st : St) : Out where
  attributes := sortBy (fun a b => leS a.key b.key) ((attributeDefs st).map fun p => ⟨p.1, p.2⟩)
  events := sortBy (fun a b => leS a.name b.name) ((mergedEvents st).map eventOut)
  metrics := sortBy (fun a b => leS a.name b.name) (st.metrics.map metricOut)
  spans := sortBy (fun a b => leS a.type b.type) (st.spans.map spanOut)

/-- What the receiver hands to the loop of infer.rs:206-214: samples, errors it goes on after, and the stop signal. -/
inductive Request where
  | samples (l : List Sample)
  | error
  | stop
deriving DecidableEq, Repr

/-- infer.rs:210-214 with `process_otlp_request` (infer.rs:83-175): the samples taken in. -/
def received : List Request → List Sample
  | [] => []
  | .samples l :: r => l ++ received r
  | .error :: r => received r
  | .stop :: _ => []

/-- infer.rs:206-252: the registry that is written, or `none` if no file is written. `order` is the hash order. -/
def infer (order : St → St) (rs : List Request) : Option Out :=
  let st := addSamples toF (received rs)
  if st.isEmpty then none else some (toSpec (order st))

/-- `n` lists the entries of the map `m`, each key once, in any order; values are related by `R`. -/
def SameMap {V : Type} (R : V → V → Prop) (m n : List (String × V)) : Prop :=
  (n.map Prod.fst).Nodup ∧ (∀ k v, aget k m = some v → ∃ w, aget k n = some w ∧ R v w) ∧
    (∀ k w, aget k n = some w → ∃ v, aget k m = some v ∧ R v w)

/-- The same accumulator with its hash maps iterated in some other order. -/
structure Shuffled (a b : St) : Prop where
  resources : SameMap Eq a.resources b.resources
  spans : SameMap (fun x y => x.kind = y.kind ∧ SameMap Eq x.attrs y.attrs ∧ SameMap (SameMap Eq) x.events y.events)
    a.spans b.spans
  metrics : SameMap (fun x y => x.instrument = y.instrument ∧ x.unit = y.unit ∧ SameMap Eq x.attrs y.attrs)
    a.metrics b.metrics
  events : SameMap (SameMap Eq) a.events b.events

end Verif.Infer
