import Verif.Convert.Model
/-
Model of the statistics of a registry: crates/weaver_resolved_schema/src/v2/registry.rs `Registry::stats` (second format),
src/registry.rs `Registry::stats` and src/catalog.rs `Catalog::stats` (first format).

The groups, attributes and signals are those of `Verif.Convert`. Maps are association lists; only lookups are observed
(hash maps, and ordered maps whose order is not stated here).
-/
namespace Verif.Stats
open Verif.Util Verif.Resolver Verif.Semconv Verif.Convert

/-- `*map.entry(k).or_insert(0) += 1`. -/
def bump {κ : Type} [DecidableEq κ] (k : κ) : List (κ × Nat) → List (κ × Nat)
  | [] => [(k, 1)]
  | (k', n) :: m => if k' = k then (k', n + 1) :: m else (k', n) :: bump k m

/-- `map.get(k)`. -/
def get {κ V : Type} [DecidableEq κ] (k : κ) : List (κ × V) → Option V
  | [] => none
  | (k', v) :: m => if k' = k then some v else get k m

/-- `map.insert(k, v)`. -/
def put {κ V : Type} [DecidableEq κ] (k : κ) (v : V) : List (κ × V) → List (κ × V)
  | [] => [(k, v)]
  | (k', v') :: m => if k' = k then (k', v) :: m else (k', v') :: put k v m

/-- `HashSet::insert`. -/
def add {κ : Type} [DecidableEq κ] (k : κ) (s : List κ) : List κ := if k ∈ s then s else s ++ [k]

/-! ### The second format -/

/-- v2/stats.rs:52-63 `CommonSignalStats`. -/
structure Common2 where
  count : Nat := 0
  stability : List (Stability × Nat) := []
  deprecated : Nat := 0
  withNote : Nat := 0

/-- The lines that the four loops share (v2/registry.rs:97-102 and 108-110 for metrics). The count is that of the list. -/
def step2 (s : Common2) (c : Common) : Common2 :=
  { s with
    deprecated := if c.deprecated.isSome then s.deprecated + 1 else s.deprecated
    withNote := if c.note ≠ "" then s.withNote + 1 else s.withNote
    stability := bump c.stability s.stability }

/-- v2/registry.rs:96-118, 131-149, 159-177, 188-209: the common statistics of a list of signals. -/
def common2 (l : List Common) : Common2 := { l.foldl step2 {} with count := l.length }

/-- v2/stats.rs:38-51 `AttributeStats`. -/
structure Attrs2 where
  count : Nat
  types : List (String × Nat)
  stability : List (Stability × Nat)
  deprecated : Nat

/-- v2/stats.rs:22-36 `RegistryStats`, with its parts (65-113). -/
structure Stats2 where
  attributes : Attrs2
  metrics : Common2
  metricNames : List String
  instruments : List (String × Nat)
  units : List (String × Nat)
  spans : Common2
  kinds : List (String × Nat)
  events : Common2
  eventNames : List String
  entities : Common2
  entityTypes : List String
  identityLengths : List (Nat × Nat)
  groups : Common2

/-- v2/registry.rs:55-234 `Registry::stats`. `typeText` is the text for a type (65-70: `enum(card:...)` with the number of
members for an enum, else the display of the type). -/
def stats2 (typeText : String → String) (o : Out) : Stats2 :=
  let as := o.attributes.filterMap fun r => o.catalog[r]?
  { attributes :=
      { count := o.attributes.length
        types := as.foldl (fun m a => bump (typeText a.type) m) []
        stability := as.foldl (fun m a => bump a.common.stability m) []
        deprecated := as.foldl (fun n a => if a.common.deprecated.isSome then n + 1 else n) 0 }
    metrics := common2 (o.metrics.map (·.common))
    metricNames := o.metrics.foldl (fun s m => add m.name s) []
    instruments := o.metrics.foldl (fun s m => bump m.instrument s) []
    units := o.metrics.foldl (fun s m => bump m.unit s) []
    spans := common2 (o.spans.map (·.common))
    kinds := o.spans.foldl (fun s m => bump m.kind s) []
    events := common2 (o.events.map (·.common))
    eventNames := o.events.foldl (fun s m => add m.name s) []
    entities := common2 (o.entities.map (·.common))
    entityTypes := o.entities.foldl (fun s m => add m.type s) []
    identityLengths := o.entities.foldl (fun s m => bump m.identity.length s) []
    groups := { count := o.groups.length } }

/-! ### The first format -/

/-- registry.rs:243-260 `CommonGroupStats`, without `total_with_prefix` (the model of groups has no prefix). -/
structure Common1 where
  count : Nat := 0
  attributes : Nat := 0
  withNote : Nat := 0
  stability : List (Stability × Nat) := []
  deprecated : Nat := 0
  cards : List (Nat × Nat) := []

/-- registry.rs:318-337 `update_stats`. -/
def update (s : Common1) (g : Grp) : Common1 :=
  { count := s.count + 1
    attributes := s.attributes + g.attributes.length
    withNote := s.withNote + (if g.note ≠ "" then 1 else 0)
    stability := match g.stability with
      | some x => bump x s.stability
      | none => s.stability
    deprecated := s.deprecated + (if g.deprecated.isSome then 1 else 0)
    cards := bump g.attributes.length s.cards }

/-- registry.rs:262-314 `GroupStats`. Simplification: one record; the last four fields are only used for metrics and
spans. -/
structure Stats1 where
  common : Common1 := {}
  names : List String := []
  instruments : List (String × Nat) := []
  units : List (String × Nat) := []
  kinds : List (String × Nat) := []

/-- registry.rs:402-453: the statistics of one kind of group with one more group; `none` is the panic of `expect` for a
metric without a name, an instrument or a unit. -/
def step1 (s : Stats1) (g : Grp) : Option Stats1 :=
  let s := { s with common := update s.common g }
  match g.type with
  | .metric => match g.metricName, g.instrument, g.unit with
    | some n, some i, some u => some { s with names := add n s.names, instruments := bump i s.instruments, units := bump u s.units }
    | _, _, _ => none
  | .span => match g.spanKind with
    | some k => some { s with kinds := bump k s.kinds }
    | none => some s
  | _ => some s

/-- registry.rs:362-457: the fold over the groups. -/
def breakdown : List Grp → List (GroupType × Stats1) → Option (List (GroupType × Stats1))
  | [], m => some m
  | g :: gs, m =>
    match step1 ((get g.type m).getD {}) g with
    | none => none
    | some s => breakdown gs (put g.type s m)

/-- registry.rs:357-460 `Registry::stats`: the number of groups and the breakdown. -/
def stats1 (gs : List Grp) : Option (Nat × List (GroupType × Stats1)) :=
  (breakdown gs []).map fun m => (gs.length, m)

/-- catalog.rs:20-38 `Stats`. -/
structure Catalog1 where
  count : Nat
  types : List (String × Nat)
  levels : List (String × Nat)
  stability : List (Stability × Nat)
  deprecated : Nat

/-- catalog.rs:109-164 `Catalog::stats`. `levelText` is the text for a requirement level (131-140). -/
def catalogStats (typeText levelText : String → String) (cat : List A1) : Catalog1 :=
  { count := cat.length
    types := cat.foldl (fun m a => bump (typeText a.type) m) []
    levels := cat.foldl (fun m a => bump (levelText a.requirement) m) []
    stability := (cat.filterMap (·.stability)).foldl (fun m s => bump s m) []
    deprecated := (cat.filter (·.deprecated.isSome)).length }

end Verif.Stats
