import Verif.Infer.Model
import Verif.Receiver.Ingest
/-
From OTLP requests to the samples that `registry infer` learns from (src/registry/infer.rs:66-175), and from the inferred
registry to the one that the live check loads.

The requests are those of `Receiver/Ingest.lean`, so that the same requests can be given to both commands.
-/
namespace Verif.Trip
open Verif.Receiver.Ingest
open Verif.LiveCheck (AttrDef AType Signal V2Part)
open Verif.Infer (SpanKind Out)

/-- infer.rs:67-81 `accumulate_resource`. -/
def resourceTaken (r : Option (List KV)) : List Infer.Sample := r.toList.map fun attrs => .resource (attrs.map attrOf)

/-- infer.rs:86-95, 99-108, 112-147, 152-161: what a resource has in a request. Scopes are passed over. -/
def blockTaken {σ : Type} (sample : σ → Infer.Sample) (b : Block σ) : List Infer.Sample :=
  resourceTaken b.resource ++ b.scopes.flatMap fun s => s.signals.map sample

/-- infer.rs:116-146: a span with its attributes and events, without its links. `kind` is `span_kind_from_otlp_kind` of the
kind of the span, which the messages of `Receiver/Ingest.lean` do not have. -/
def spanTaken (kind : SpanMsg → SpanKind) (m : SpanMsg) : Infer.Sample :=
  .span { name := m.name, kind := kind m, attrs := m.attrs.map attrOf
          events := m.events.map fun e => { name := e.1, attrs := e.2.map attrOf } }

/-- infer.rs:83-175 `process_otlp_request`: the samples of a request, in order. -/
def taken (kind : SpanMsg → SpanKind) : Request → List Infer.Sample
  | .logs l => l.flatMap (blockTaken fun m => .log (logOf m))
  | .metrics l => l.flatMap (blockTaken fun m => .metric (metricOf m))
  | .traces l => l.flatMap (blockTaken (spanTaken kind))
  | .profiles _ l => l.flatMap (blockTaken fun _ => .other)

/-- weaver_infer lib.rs:493-501 and 541-566: an attribute definition, as the live check sees it. -/
def defOf (d : Infer.DefOut) : AttrDef := { name := d.key, typ := .prim d.attr.typ, stability := some "development" }

/-- The definitions that references to attributes (lib.rs:503-526) are resolved to. -/
def refs (o : Out) (names : List String) : List AttrDef := names.flatMap fun n => (o.attributes.filter fun d => d.key = n).map defOf

/-- The inferred registry in the second format. -/
def loaded (o : Out) : V2Part where
  attributes := o.attributes.map defOf
  metrics := o.metrics.map fun m => (m.name, { kind := .metric, stability := some "development", instrument := some m.instrument
                                               unit := some m.unit, attrs := refs o m.attrs })
  events := o.events.map fun e => (e.name, { kind := .event, stability := some "development", attrs := refs o e.attrs })

end Verif.Trip
