import Verif.Util.Map
import Verif.Util.Sort
import Verif.Semconv.Assoc
import Verif.Semconv.Deprecated
/-
Model of the live check, crates/weaver_live_check/src: lib.rs, live_checker.rs, finding_modifier.rs, stats.rs, sample_*.rs,
advice/*.rs, and of the loop of src/registry/live_check.rs:384-421.

Not modelled: reading samples, the text of reports, the OTLP exporter (only which findings it is given), rego (the advisor
of rego policies is any function), values that no modelled code looks at (data point values, timestamps, ...).
-/
namespace Verif.LiveCheck
open Verif.Util Verif.Semconv

/-! ### Values, types, findings -/

/-- A JSON value that is an element of an array; what nested arrays and objects hold is left out. `int` is a number that
is an `i64` or a `u64`, `dbl` any other number. -/
inductive Elem where
  | null
  | bool (b : Bool)
  | int (n : Int)
  | dbl (id : Nat)
  | str (s : String)
  | nested
deriving DecidableEq, Repr

/-- A JSON value; what objects hold is left out. -/
inductive Value where
  | elem (e : Elem)
  | arr (l : List Elem)
deriving DecidableEq, Repr

/-- weaver_semconv attribute.rs:272-296 `PrimitiveOrArrayTypeSpec`. -/
inductive PType where
  | boolean | int | double | string | any | strings | ints | doubles | booleans
deriving DecidableEq, Repr

/-- attribute.rs:299-313 `Display for PrimitiveOrArrayTypeSpec`. -/
def PType.text : PType → String
  | .boolean => "boolean"
  | .int => "int"
  | .double => "double"
  | .string => "string"
  | .strings => "string[]"
  | .ints => "int[]"
  | .doubles => "double[]"
  | .booleans => "boolean[]"
  | .any => "any"

/-- attribute.rs:319-330 `is_compatible`. -/
def PType.isCompatible (self other : PType) : Bool :=
  match self, other with
  | .any, _ => true
  | _, .any => true
  | .int, .double => true
  | .ints, .doubles => true
  | s, o => decide (s = o)

/-- weaver_checker finding.rs:255-262 `FindingLevel`. -/
inductive Level where
  | information | improvement | violation
deriving DecidableEq, Repr

/-- The derived order of `FindingLevel`: the order of its variants. -/
def Level.rank : Level → Nat
  | .information => 0
  | .improvement => 1
  | .violation => 2

instance : LE Level := ⟨fun a b => a.rank ≤ b.rank⟩
instance : LT Level := ⟨fun a b => a.rank < b.rank⟩
instance (a b : Level) : Decidable (a ≤ b) := inferInstanceAs (Decidable (a.rank ≤ b.rank))
instance (a b : Level) : Decidable (a < b) := inferInstanceAs (Decidable (a.rank < b.rank))

/-- `Ord::max`. -/
def Level.max (a b : Level) : Level := if a.rank ≤ b.rank then b else a

/-- A value in the context of a finding. -/
inductive CtxVal where
  | val (v : Value)
  | text (s : String)
  | names (l : List String)
deriving DecidableEq, Repr

/-- weaver_checker finding.rs `PolicyFinding`; the context is the list of the fields of its JSON object. -/
structure Finding where
  id : String
  message : String
  level : Level
  ctx : List (String × CtxVal) := []
  signalType : Option String := none
  signalName : Option String := none
deriving DecidableEq, Repr

/-! ### The registry -/

/-- attribute.rs `AttributeType`; an enum is the list of the values of its members. -/
inductive AType where
  | prim (p : PType)
  | template (p : PType)
  | enum (members : List Elem)
deriving DecidableEq, Repr

/-- attribute.rs:737-758 `RequirementLevel`, without texts; `OptIn` and `Recommended` exist with and without text. -/
inductive Req where
  | required | recommended | recommendedText | optIn | optInText | conditionallyRequired
deriving DecidableEq, Repr

/-- lib.rs:120-163 `VersionedAttribute` and type_advisor.rs:35-81 `CheckableAttribute`. -/
structure AttrDef where
  name : String
  typ : AType
  req : Req := .recommended
  deprecated : Option Deprecated := none
  stability : Option String := none
deriving DecidableEq, Repr

/-- attribute.rs: `AttributeType::Template(_)`. -/
def AType.isTemplate : AType → Bool
  | .template _ => true
  | _ => false

/-- type_advisor.rs:203-208 `EntityKey`: what a leaf of an association names. -/
inductive EntityKey where
  | name (s : String)
  | ref (type : String) (source : Option String)
deriving DecidableEq, Repr

/-- type_advisor.rs:212-217 `entity_type`. -/
def EntityKey.entityType : EntityKey → String
  | .name s => s
  | .ref t _ => t

/-- Which variant of lib.rs:168-177 `VersionedSignal` a signal is. -/
inductive SigKind where
  | group | metric | span | event
deriving DecidableEq, Repr

/-- lib.rs:168-223 `VersionedSignal`, as its getters show it. -/
structure Signal where
  kind : SigKind
  deprecated : Option Deprecated := none
  stability : Option String := none
  instrument : Option String := none
  unit : Option String := none
  attrs : List AttrDef := []
  assocs : List (Assoc EntityKey) := []

/-- An entity definition: the attributes of a v1 group, or the identity followed by the description of a v2 entity. -/
structure Entity where
  type : String
  attrs : List AttrDef
deriving DecidableEq, Repr

/-- The types of v1 groups the live check tells apart. -/
inductive GType where
  | metric | event | entity | other
deriving DecidableEq, Repr

/-- weaver_forge registry.rs:38- `ResolvedGroup`, the fields the live check reads. -/
structure Group where
  type : GType
  name : Option String := none
  metricName : Option String := none
  signal : Signal

/-- weaver_forge v2/registry.rs: the registry and refinements of one v2 registry. -/
structure V2Part where
  attributes : List AttrDef := []
  metrics : List (String × Signal) := []
  events : List (String × Signal) := []
  entities : List Entity := []
  entityRefinements : List (String × Entity) := []

/-- lib.rs:110-115 `VersionedRegistry`; dependencies of a v2 registry by schema URL. -/
inductive Registry where
  | v1 (groups : List Group)
  | v2 (r : V2Part) (dependencies : List (String × V2Part))

/-- live_checker.rs:22-42 `LiveChecker`, without advisors and modifier. -/
structure Checker where
  attributes : List (String × AttrDef) := []
  metrics : List (String × Signal) := []
  events : List (String × Signal) := []
  entities : List (String × Entity) := []
  templatesByLength : List (String × AttrDef) := []
  registry : Registry

/-- `str::len`: the number of bytes. -/
def blen (s : String) : Nat := (s.toList.map Char.utf8Size).sum

/-- `str::starts_with`. -/
def startsWith (s p : String) : Bool := p.toList.isPrefixOf s.toList

/-- live_checker.rs:82-96, 115-126: one attribute is entered into the index. -/
def Checker.addAttr (c : Checker) (a : AttrDef) : Checker :=
  if a.typ.isTemplate then { c with templatesByLength := c.templatesByLength ++ [(a.name, a)] }
  else { c with attributes := aset a.name a c.attributes }

/-- live_checker.rs:61-97: one v1 group is entered into the index. -/
def Checker.addGroup (c : Checker) (g : Group) : Checker :=
  let c1 := match g.type, g.metricName with
    | .metric, some n => { c with metrics := aset n g.signal c.metrics }
    | _, _ => c
  let c2 := match g.type, g.name with
    | .event, some n => { c1 with events := aset n g.signal c1.events }
    | _, _ => c1
  let c3 := match g.type, g.name with
    | .entity, some n => { c2 with entities := aset n { type := n, attrs := g.signal.attrs } c2.entities }
    | _, _ => c2
  g.signal.attrs.foldl Checker.addAttr c3

/-- live_checker.rs:131: the key `Reverse(len)`. -/
def longer (a b : String × AttrDef) : Bool := decide (blen b.1 ≤ blen a.1)

/-- live_checker.rs:47-145 `LiveChecker::new`. -/
def Checker.new (r : Registry) : Checker :=
  let c := match r with
    | .v1 groups => groups.foldl Checker.addGroup { registry := r }
    | .v2 p _ =>
      let c1 : Checker := { registry := r }
      let c2 := { c1 with metrics := p.metrics.foldl (fun m (q : String × Signal) => aset q.1 q.2 m) [],
                          events := p.events.foldl (fun m (q : String × Signal) => aset q.1 q.2 m) [],
                          entities := p.entities.foldl (fun m (e : Entity) => aset e.type e m) [] }
      p.attributes.foldl Checker.addAttr c2
  { c with templatesByLength := sortBy longer c.templatesByLength }

/-- live_checker.rs:154-156 `find_attribute`. -/
def Checker.findAttribute (c : Checker) (n : String) : Option AttrDef := aget n c.attributes

/-- live_checker.rs:160-162 `find_metric`. -/
def Checker.findMetric (c : Checker) (n : String) : Option Signal := aget n c.metrics

/-- live_checker.rs:166-168 `find_event`. -/
def Checker.findEvent (c : Checker) (n : String) : Option Signal := aget n c.events

/-- live_checker.rs:195-203 `find_template`. -/
def Checker.findTemplate (c : Checker) (n : String) : Option AttrDef :=
  (c.templatesByLength.find? fun t => startsWith n t.1).map (·.2)

/-- weaver_forge v2/registry.rs:117-129 `defined_entity`. -/
def V2Part.definedEntity (p : V2Part) (n : String) : Option Entity :=
  (p.entities.find? fun e => e.type = n).or ((p.entityRefinements.find? fun q => q.1 = n).map (·.2))

/-- weaver_forge v2/registry.rs:90-111 `lookup_entity`. -/
def lookupV2 (p : V2Part) (deps : List (String × V2Part)) (type : String) (source : Option String) : Option Entity :=
  match source with
  | none => p.definedEntity type
  | some url => match deps.find? (fun d => d.1 = url) with
    | none => none
    | some d => d.2.definedEntity type

/-- type_advisor.rs:220-225 `EntityKey::lookup` and live_checker.rs:176-191. -/
def Checker.lookupEntity (c : Checker) : EntityKey → Option Entity
  | .name n => aget n c.entities
  | .ref t s => match c.registry with
    | .v1 _ => none
    | .v2 p deps => lookupV2 p deps t s

/-! ### Samples -/

/-- sample_attribute.rs:21-32 `SampleAttribute`. -/
structure SAttr where
  name : String
  value : Option Value := none
  typ : Option PType := none
deriving DecidableEq, Repr

/-- sample_resource.rs:17-23. -/
structure Resource where
  attrs : List SAttr := []
deriving DecidableEq, Repr

/-- sample_instrumentation_scope.rs. -/
structure Scope where
  name : String := ""
  attrs : List SAttr := []
deriving DecidableEq, Repr

/-- sample_span.rs:103-111. -/
structure SpanEvent where
  name : String
  attrs : List SAttr := []
deriving DecidableEq, Repr

/-- sample_span.rs:141-147. -/
structure SpanLink where
  attrs : List SAttr := []
deriving DecidableEq, Repr

/-- sample_metric.rs:228-241. -/
structure Exemplar where
  attrs : List SAttr := []
deriving DecidableEq, Repr

/-- sample_metric.rs:47-61, 93-121, 162-196: data points, without their values. -/
structure Point where
  attrs : List SAttr := []
  exemplars : List Exemplar := []
deriving DecidableEq, Repr

/-- sample_metric.rs:36-43 `DataPoints`. -/
inductive Points where
  | number (l : List Point)
  | histogram (l : List Point)
  | exponential (l : List Point)
deriving DecidableEq, Repr

/-- sample_metric.rs:26-31 `SampleInstrument`. -/
inductive Instr where
  | supported (s : String)
  | unsupported (s : String)
deriving DecidableEq, Repr

/-- sample_metric.rs:282-299. -/
structure Metric where
  name : String
  instrument : Instr
  unit : String
  points : Option Points := none
  resource : Option Resource := none
deriving DecidableEq, Repr

/-- sample_log.rs:23-47. -/
structure Log where
  eventName : String
  attrs : List SAttr := []
  resource : Option Resource := none
deriving DecidableEq, Repr

/-- sample_span.rs:41-65. -/
structure Span where
  name : String
  attrs : List SAttr := []
  events : List SpanEvent := []
  links : List SpanLink := []
  resource : Option Resource := none
deriving DecidableEq, Repr

/-- sample_profile.rs:18-32. -/
structure Profile where
  attrs : List SAttr := []
  resource : Option Resource := none
deriving DecidableEq, Repr

/-- lib.rs:286-305 `Sample`. -/
inductive Sample where
  | attribute (a : SAttr)
  | span (s : Span)
  | spanEvent (e : SpanEvent)
  | spanLink (l : SpanLink)
  | resource (r : Resource)
  | scope (s : Scope)
  | metric (m : Metric)
  | log (l : Log)
  | profile (p : Profile)
deriving DecidableEq, Repr

/-- lib.rs:311-338 `SampleRef`. -/
inductive SRef where
  | attribute (a : SAttr)
  | span (s : Span)
  | spanEvent (e : SpanEvent)
  | spanLink (l : SpanLink)
  | resource (r : Resource)
  | scope (s : Scope)
  | metric (m : Metric)
  | numberPoint (p : Point)
  | histogramPoint (p : Point)
  | exponentialPoint (p : Point)
  | exemplar (e : Exemplar)
  | log (l : Log)
  | profile (p : Profile)
deriving DecidableEq, Repr

/-- lib.rs:348-358 `sample_name`. -/
def SRef.sampleName : SRef → Option String
  | .attribute a => some a.name
  | .span s => some s.name
  | .spanEvent e => some e.name
  | .scope s => some s.name
  | .metric m => some m.name
  | .log l => some l.eventName
  | _ => none

/-- lib.rs:387-399 `signal_type`. -/
def Sample.signalType : Sample → Option String
  | .span _ => some "span"
  | .resource _ => some "resource"
  | .metric _ => some "metric"
  | .log _ => some "log"
  | .profile _ => some "profile"
  | _ => none

/-- lib.rs:428-440 `signal_name`. -/
def Sample.signalName : Sample → Option String
  | .span s => some s.name
  | .metric m => some m.name
  | .log l => some l.eventName
  | _ => none

/-- lib.rs:403-411 `resource`, and the attributes the callers take from it (sample_log.rs:98-101,
sample_metric.rs:342-345). -/
def Sample.resourceAttrs : Sample → List SAttr
  | .span s => (s.resource.map (·.attrs)).getD []
  | .metric m => (m.resource.map (·.attrs)).getD []
  | .log l => (l.resource.map (·.attrs)).getD []
  | .profile p => (p.resource.map (·.attrs)).getD []
  | _ => []

/-- advice/mod.rs:51-103 `FindingBuilder` with `signal`. -/
def mkFinding (signal : Sample) (id : String) (level : Level) (message : String) (ctx : List (String × CtxVal)) : Finding :=
  { id, message, level, ctx, signalType := signal.signalType, signalName := signal.signalName }

/-! ### Finding modifiers -/

/-- The glob engine: which patterns are well formed, and what they match. -/
structure Globs where
  valid : String → Bool
  isMatch : String → String → Bool

/-- weaver_config live_check.rs:213-233 `FindingFilter`. -/
structure Filter where
  exclude : Option (List String) := none
  minLevel : Option Level := none
  signalType : Option String := none
  excludeSamples : List String := []
  sampleNames : List String := []
deriving DecidableEq, Repr

/-- weaver_config live_check.rs:239-253 `FindingLevelOverride`. -/
structure Override where
  ids : Option (List String) := none
  level : Level
  signalType : Option String := none
  sampleNames : List String := []
deriving DecidableEq, Repr

/-- finding_modifier.rs:47-62 `compile_globset`: a compiled set is the list of its patterns, and `error` names a pattern
that is not well formed. -/
def compile (g : Globs) (patterns : List String) : Except String (Option (List String)) :=
  if patterns.isEmpty then .ok none
  else match patterns.find? (fun p => !g.valid p) with
    | some p => .error p
    | none => .ok (some patterns)

/-- finding_modifier.rs:28-34 `CompiledFilter`. -/
structure CFilter where
  filter : Filter
  sampleNames : Option (List String)
  excludeSamples : Option (List String)

/-- finding_modifier.rs:39-43 `CompiledLevelOverride`. -/
structure COverride where
  rule : Override
  sampleNames : Option (List String)

/-- finding_modifier.rs:18-23 `FindingModifier`. -/
structure Modifier where
  overrides : List COverride
  filters : List CFilter
  globs : Globs

/-- finding_modifier.rs:139-145. -/
def compileFilter (g : Globs) (f : Filter) : Except String CFilter := do
  let a ← compile g f.sampleNames
  let b ← compile g f.excludeSamples
  return { filter := f, sampleNames := a, excludeSamples := b }

/-- finding_modifier.rs:149-154. -/
def compileOverride (g : Globs) (o : Override) : Except String COverride := do
  let a ← compile g o.sampleNames
  return { rule := o, sampleNames := a }

/-- finding_modifier.rs:130-160 `from_rules`. -/
def fromRules (g : Globs) (filters : List Filter) (overrides : List Override) : Except String (Option Modifier) :=
  if filters.isEmpty && overrides.isEmpty then .ok none
  else do
    let fs ← filters.mapM (compileFilter g)
    let os ← overrides.mapM (compileOverride g)
    return some { overrides := os, filters := fs, globs := g }

/-- `GlobSet::is_match`. -/
def setMatch (g : Globs) (patterns : List String) (n : String) : Bool := patterns.any fun p => g.isMatch p n

/-- finding_modifier.rs:67-84 `scope_matches`. -/
def scopeMatches (g : Globs) (signalType : Option String) (names : Option (List String)) (f : Finding) (s : SRef) : Bool :=
  let ok := match signalType with
    | none => true
    | some t => decide (f.signalType = some t)
  if !ok then false
  else match names with
    | none => true
    | some ps => match s.sampleName with
      | none => false
      | some n => setMatch g ps n

/-- finding_modifier.rs:88-92 `is_matched_by`. -/
def isMatchedBy (f : Finding) (o : Override) : Bool :=
  match o.ids with
  | none => true
  | some ids => ids.any fun i => i = f.id

/-- finding_modifier.rs:95-121 `is_excluded_by`. -/
def isExcludedBy (g : Globs) (f : Finding) (c : CFilter) (s : SRef) : Bool :=
  (match c.filter.exclude with
    | some ids => ids.any fun i => i = f.id
    | none => false)
  || (match c.filter.minLevel with
    | some l => decide (f.level < l)
    | none => false)
  || (match c.excludeSamples, s.sampleName with
    | some ps, some n => setMatch g ps n
    | _, _ => false)

/-- finding_modifier.rs:192-203: the loop over the overrides. -/
def applyOverrides (g : Globs) (f : Finding) (s : SRef) : List COverride → Finding
  | [] => f
  | c :: cs =>
    if scopeMatches g c.rule.signalType c.sampleNames f s && isMatchedBy f c.rule then { f with level := c.rule.level }
    else applyOverrides g f s cs

/-- finding_modifier.rs:190-216 `apply`. -/
def Modifier.apply (m : Modifier) (f : Finding) (s : SRef) : Option Finding :=
  let f1 := applyOverrides m.globs f s m.overrides
  if m.filters.any fun c => scopeMatches m.globs c.filter.signalType c.sampleNames f1 s && isExcludedBy m.globs f1 c s
  then none else some f1

/-! ### Results -/

/-- lib.rs:486-491 `LiveCheckResult`. -/
structure Result where
  all : List Finding := []
  highest : Option Level := none
deriving DecidableEq, Repr

/-- lib.rs:510-530 `add_advice`. -/
def Result.add (m : Option Modifier) (s : SRef) (r : Result) (f : Finding) : Result :=
  let kept := match m with
    | some m => m.apply f s
    | none => some f
  match kept with
  | none => r
  | some f => { all := r.all ++ [f],
                highest := some (match r.highest with | none => f.level | some p => p.max f.level) }

/-- lib.rs:536-545 `add_advice_list`. -/
def Result.addList (m : Option Modifier) (s : SRef) (r : Result) (fs : List Finding) : Result := fs.foldl (Result.add m s) r

/-! ### Statistics -/

/-- One more occurrence of `k`: `*map.entry(k).or_insert(0) += 1`. -/
def bump (k : String) (m : List (String × Nat)) : List (String × Nat) := aset k ((aget k m).getD 0 + 1) m

/-- `HashMap<FindingLevel, usize>`: an entry exists once its count is positive. -/
structure LevelCounts where
  information : Nat := 0
  improvement : Nat := 0
  violation : Nat := 0
deriving DecidableEq, Repr

/-- One more occurrence of a level. -/
def LevelCounts.bump (c : LevelCounts) : Level → LevelCounts
  | .information => { c with information := c.information + 1 }
  | .improvement => { c with improvement := c.improvement + 1 }
  | .violation => { c with violation := c.violation + 1 }

/-- stats.rs:17-48 `CumulativeStatistics`; the coverage is kept as numerator and denominator. -/
structure Stats where
  totalEntities : Nat := 0
  byType : List (String × Nat) := []
  totalAdvisories : Nat := 0
  levelCounts : LevelCounts := {}
  highestCounts : LevelCounts := {}
  noAdvice : Nat := 0
  typeCounts : List (String × Nat) := []
  messageCounts : List (String × Nat) := []
  regAttrs : List (String × Nat) := []
  otherAttrs : List (String × Nat) := []
  regMetrics : List (String × Nat) := []
  otherMetrics : List (String × Nat) := []
  regEvents : List (String × Nat) := []
  otherEvents : List (String × Nat) := []
  coverage : Nat × Nat := (0, 1)
deriving DecidableEq, Repr

/-- Names inserted with count 0. -/
def zeros (names : List String) : List (String × Nat) := names.foldl (fun m n => aset n 0 m) []

/-- stats.rs:89-94, 108-112: the attributes that are not deprecated. -/
def liveAttrs (l : List AttrDef) : List String := (l.filter fun a => a.deprecated.isNone).map (·.name)

/-- stats.rs:95-99. -/
def liveMetricName (g : Group) : Option String :=
  if g.type = .metric ∧ g.signal.deprecated.isNone then g.metricName else none

/-- stats.rs:100-104. -/
def liveEventName (g : Group) : Option String :=
  if g.type = .event ∧ g.signal.deprecated.isNone then g.name else none

/-- stats.rs:53-127 `new` and `extract_registry_items`. -/
def Stats.new : Registry → Stats
  | .v1 groups => { regAttrs := zeros (groups.flatMap fun g => liveAttrs g.signal.attrs),
                    regMetrics := zeros (groups.filterMap liveMetricName),
                    regEvents := zeros (groups.filterMap liveEventName) }
  | .v2 p _ => { regAttrs := zeros (liveAttrs p.attributes),
                 regMetrics := zeros ((p.metrics.filter fun q => q.2.deprecated.isNone).map (·.1)),
                 regEvents := zeros ((p.events.filter fun q => q.2.deprecated.isNone).map (·.1)) }

/-- stats.rs:130-136 `inc_entity_count`. -/
def Stats.incEntity (s : Stats) (type : String) : Stats :=
  { s with byType := bump type s.byType, totalEntities := s.totalEntities + 1 }

/-- stats.rs:139-150 `add_advice`. -/
def Stats.addAdvice (s : Stats) (f : Finding) : Stats :=
  { s with levelCounts := s.levelCounts.bump f.level, typeCounts := bump f.id s.typeCounts,
           messageCounts := bump f.message s.messageCounts, totalAdvisories := s.totalAdvisories + 1 }

/-- stats.rs:153-155 `add_highest_advice_level`, if there is one (283-285). -/
def Stats.addHighest (s : Stats) : Option Level → Stats
  | some l => { s with highestCounts := s.highestCounts.bump l }
  | none => s

/-- stats.rs:158-160 `inc_no_advice_count`. -/
def Stats.incNoAdvice (s : Stats) : Stats := { s with noAdvice := s.noAdvice + 1 }

/-- stats.rs:275-296 `maybe_add_live_check_result` with a result, which is what every caller passes. -/
def Stats.addResult (s : Stats) (r : Result) : Stats :=
  let s1 := (r.all.foldl Stats.addAdvice s).addHighest r.highest
  if r.all.isEmpty then s1.incNoAdvice else s1

/-- stats.rs:163-174 `add_attribute_name_to_coverage`. -/
def Stats.coverAttr (s : Stats) (n : String) : Stats :=
  if (aget n s.regAttrs).isSome then { s with regAttrs := bump n s.regAttrs }
  else { s with otherAttrs := bump n s.otherAttrs }

/-- stats.rs:177-188 `add_metric_name_to_coverage`. -/
def Stats.coverMetric (s : Stats) (n : String) : Stats :=
  if (aget n s.regMetrics).isSome then { s with regMetrics := bump n s.regMetrics }
  else { s with otherMetrics := bump n s.otherMetrics }

/-- stats.rs:191-206 `add_event_name_to_coverage`. -/
def Stats.coverEvent (s : Stats) (n : String) : Stats :=
  if n = "" then s
  else if (aget n s.regEvents).isSome then { s with regEvents := bump n s.regEvents }
  else { s with otherEvents := bump n s.otherEvents }

/-- stats.rs:211-213 `max_level`. -/
def Stats.maxLevel (s : Stats) : Option Level :=
  if 0 < s.highestCounts.violation then some .violation
  else if 0 < s.highestCounts.improvement then some .improvement
  else if 0 < s.highestCounts.information then some .information
  else none

/-- stats.rs:216-218 `should_fail`. -/
def Stats.shouldFail (s : Stats) (threshold : Level) : Bool :=
  match s.maxLevel with
  | none => false
  | some l => decide (threshold ≤ l)

/-- The number of names with a positive count. -/
def nonZero (m : List (String × Nat)) : Nat := (m.filter fun p => 0 < p.2).length

/-- stats.rs:221-255 `finalize`. -/
def Stats.finalize (s : Stats) : Stats :=
  let total := s.regAttrs.length + s.regMetrics.length + s.regEvents.length
  if 0 < total then
    { s with coverage := (nonZero s.regAttrs + nonZero s.regMetrics + nonZero s.regEvents, total) }
  else { s with coverage := (0, 1) }

/-! ### Advisors -/

/-- advice/mod.rs:29-39 `Advisor::advise`; `error` is an error that ends the run. -/
abbrev Advisor := SRef → Sample → Option AttrDef → Option Signal → Except String (List Finding)

/-- deprecated_advisor.rs:19-27 `deprecated_to_reason`. -/
def reasonOf : Deprecated → String
  | .renamed _ _ => "renamed"
  | .obsoleted _ => "obsoleted"
  | .uncategorized _ => "uncategorized"
  | .unspecified _ => "uncategorized"

/-- deprecated_advisor.rs:57-119: the finding about one item. -/
def deprecatedFinding (signal : Sample) (kind key name : String) (d : Deprecated) : Finding :=
  mkFinding signal "deprecated" .violation
    (kind ++ " '" ++ name ++ "' is deprecated; reason = '" ++ reasonOf d ++ "', note = '" ++ d.note ++ "'.")
    [(key, .text name), ("deprecation_reason", .text (reasonOf d)), ("deprecation_note", .text d.note)]

/-- deprecated_advisor.rs:47-123 `DeprecatedAdvisor`. -/
def deprecatedAdvisor : Advisor := fun s signal attr group =>
  match s with
  | .attribute a => .ok ((attr.bind (·.deprecated)).toList.map (deprecatedFinding signal "Attribute" "attribute_key" a.name))
  | .metric m => .ok ((group.bind (·.deprecated)).toList.map (deprecatedFinding signal "Metric" "metric_name" m.name))
  | .log l => .ok ((group.bind (·.deprecated)).toList.map (deprecatedFinding signal "Event" "event_name" l.eventName))
  | _ => .ok []

/-- stability_advisor.rs:31-107: the finding about one item. -/
def unstableFinding (signal : Sample) (kind key name stability : String) : Finding :=
  mkFinding signal "not_stable" .improvement (kind ++ " '" ++ name ++ "' is not stable; stability = " ++ stability ++ ".")
    [(key, .text name), ("stability", .text stability)]

/-- A stability other than stable. -/
def unstable (s : Option String) : List String := s.toList.filter fun x => x ≠ "stable"

/-- stability_advisor.rs:21-112 `StabilityAdvisor`. -/
def stabilityAdvisor : Advisor := fun s signal attr group =>
  match s with
  | .attribute a => .ok ((unstable (attr.bind (·.stability))).map (unstableFinding signal "Attribute" "attribute_key" a.name))
  | .metric m => .ok ((unstable (group.bind (·.stability))).map (unstableFinding signal "Metric" "metric_name" m.name))
  | .log l => .ok ((unstable (group.bind (·.stability))).map (unstableFinding signal "Event" "event_name" l.eventName))
  | _ => .ok []

/-- `Value::as_i64`. -/
def Value.asI64 : Value → Option Int
  | .elem (.int n) => if n ≤ 9223372036854775807 then some n else none
  | _ => none

/-- `Value::as_str`. -/
def Value.asStr : Value → Option String
  | .elem (.str s) => some s
  | _ => none

/-- enum_advisor.rs:40-60: whether a value is that of a member; `none` for a type that is neither int nor string. -/
def memberMatch (t : PType) (v : Value) (member : Elem) : Option Bool :=
  match t with
  | .int => some (match v.asI64 with | some n => decide (member = .int n) | none => false)
  | .string => some (match v.asStr with | some s => decide (member = .str s) | none => false)
  | _ => none

/-- enum_advisor.rs:38-64: the loop over the members; `none` is the early return without findings. -/
def isMember (t : PType) (v : Value) : List Elem → Option Bool
  | [] => some false
  | m :: ms => match memberMatch t v m with
    | none => none
    | some true => some true
    | some false => isMember t v ms

/-- How a value is shown (`to_string` of JSON); only strings and integers matter here. -/
def Value.show : Value → String
  | .elem (.str s) => s
  | .elem (.int n) => toString n
  | _ => "<value>"

/-- enum_advisor.rs:19-94 `EnumAdvisor`. -/
def enumAdvisor : Advisor := fun s signal attr _ =>
  match s with
  | .attribute a => match attr, a.value, a.typ with
    | some d, some v, some t => match d.typ with
      | .enum members => match isMember t v members with
        | some false => .ok [mkFinding signal "undefined_enum_variant" .information
            ("Enum attribute '" ++ a.name ++ "' has value '" ++ v.show ++ "' which is not documented.")
            [("attribute_key", .text a.name), ("attribute_value", .val v)]]
        | _ => .ok []
      | _ => .ok []
    | _, _, _ => .ok []
  | _ => .ok []

/-- type_advisor.rs:460-483: id, level and the start of the message for an attribute that is not present. -/
def missingInfo : Req → String × Level × String
  | .required => ("required_attribute_not_present", .violation, "Required")
  | .recommended => ("recommended_attribute_not_present", .improvement, "Recommended")
  | .recommendedText => ("recommended_attribute_not_present", .improvement, "Recommended")
  | .optIn => ("opt_in_attribute_not_present", .information, "Opt-in")
  | .optInText => ("opt_in_attribute_not_present", .information, "Opt-in")
  | .conditionallyRequired => ("conditionally_required_attribute_not_present", .information, "Conditionally required")

/-- type_advisor.rs:451-457: whether an attribute of the signal is present in the sample. -/
def isPresent (d : AttrDef) (attrs : List SAttr) : Bool :=
  if d.typ.isTemplate then attrs.any fun a => startsWith a.name d.name
  else (attrs.map (·.name)).contains d.name

/-- type_advisor.rs:484-493. -/
def missingFinding (signal : Sample) (d : AttrDef) : Finding :=
  mkFinding signal (missingInfo d.req).1 (missingInfo d.req).2.1
    ((missingInfo d.req).2.2 ++ " attribute '" ++ d.name ++ "' is not present.") [("attribute_key", .text d.name)]

/-- type_advisor.rs:429-497 `check_attributes`. -/
def checkAttributes (defs : List AttrDef) (attrs : List SAttr) (signal : Sample) : List Finding :=
  (defs.filter fun d => !isPresent d attrs).map (missingFinding signal)

/-- type_advisor.rs:511-580: the type of an attribute. -/
def typeFindings (signal : Sample) (a : SAttr) (d : AttrDef) (t : PType) : List Finding :=
  match d.typ with
  | .enum _ =>
    if t ≠ .string ∧ t ≠ .int then
      [mkFinding signal "type_mismatch" .violation
        ("Enum attribute '" ++ a.name ++ "' has type '" ++ t.text ++ "'. Enum value type should be 'string' or 'int'.")
        [("attribute_key", .text a.name), ("attribute_type", .text t.text)]]
    else []
  | .prim p | .template p =>
    if !t.isCompatible p then
      [mkFinding signal "type_mismatch" .violation
        ("Attribute '" ++ a.name ++ "' has type '" ++ t.text ++ "'. Type should be '" ++ p.text ++ "'.")
        [("attribute_key", .text a.name), ("attribute_type", .text t.text), ("expected", .text p.text)]]
    else []

/-- type_advisor.rs:587-619: the instrument of a metric. -/
def instrumentFindings (signal : Sample) (m : Metric) (g : Signal) : List Finding :=
  match m.instrument with
  | .unsupported n => [mkFinding signal "unexpected_instrument" .violation ("Instrument '" ++ n ++ "' is not supported")
      [("instrument", .text n)]]
  | .supported i => match g.instrument with
    | none => []
    | some e => if e = i then [] else
      [mkFinding signal "unexpected_instrument" .violation
        ("Instrument should be '" ++ e ++ "', but found '" ++ i ++ "'.") [("instrument", .text i), ("expected", .text e)]]

/-- type_advisor.rs:621-638: the unit of a metric. -/
def unitFindings (signal : Sample) (m : Metric) (g : Signal) : List Finding :=
  match g.unit with
  | none => []
  | some u => if u = m.unit then [] else
    [mkFinding signal "unit_mismatch" .violation ("Unit should be '" ++ u ++ "', but found '" ++ m.unit ++ "'.")
      [("unit", .text m.unit), ("expected", .text u)]]

/-- type_advisor.rs:644-657, 674-687, 704-717: the attributes of a data point (`k` = metric) or log (`k` = event). -/
def attributeFindings (k : SigKind) (attrs : List SAttr) (signal : Sample) (g : Option Signal) : List Finding :=
  match g with
  | none => []
  | some g => if g.kind = .group ∨ g.kind = k then checkAttributes g.attrs attrs signal else []

/-- type_advisor.rs:499-735 `TypeAdvisor`. -/
def typeAdvisor : Advisor := fun s signal attr group =>
  match s with
  | .attribute a => match attr, a.typ with
    | some d, some t => .ok (typeFindings signal a d t)
    | _, _ => .ok []
  | .metric m => match group with
    | none => .ok []
    | some g => .ok (instrumentFindings signal m g ++ unitFindings signal m g)
  | .numberPoint p => .ok (attributeFindings .metric p.attrs signal group)
  | .histogramPoint p => .ok (attributeFindings .metric p.attrs signal group)
  | .log l => .ok (attributeFindings .event l.attrs signal group)
  | _ => .ok []

/-- src/registry/live_check.rs:198-205 and 308-314: the four built-in advisors and the one for rego policies. -/
def advisors (rego : Advisor) : List Advisor := [deprecatedAdvisor, stabilityAdvisor, typeAdvisor, enumAdvisor, rego]

/-! ### Entity associations -/

/-- type_advisor.rs:125-148: id, level and the start of the message for an attribute missing in a resource. -/
def entityMissingInfo : Req → String × Level × String
  | .required => ("entity_required_attribute_not_present", .violation, "Required")
  | .recommended => ("entity_recommended_attribute_not_present", .improvement, "Recommended")
  | .recommendedText => ("entity_recommended_attribute_not_present", .improvement, "Recommended")
  | .optIn => ("entity_opt_in_attribute_not_present", .information, "Opt-in")
  | .optInText => ("entity_opt_in_attribute_not_present", .information, "Opt-in")
  | .conditionallyRequired =>
    ("entity_conditionally_required_attribute_not_present", .information, "Conditionally required")

/-- type_advisor.rs:149-159. -/
def entityFinding (signal : Sample) (type : String) (d : AttrDef) : Finding :=
  mkFinding signal (entityMissingInfo d.req).1 (entityMissingInfo d.req).2.1
    ((entityMissingInfo d.req).2.2 ++ " attribute '" ++ d.name ++ "' for entity '" ++ type
      ++ "' is not present in the resource.")
    [("attribute_key", .text d.name), ("entity_type", .text type)]

/-- type_advisor.rs:106-188 `check_entity_resource_attributes`. -/
def checkEntity (signal : Sample) (attrs : List SAttr) (e : Entity) : List Finding :=
  (e.attrs.filter fun d => !(attrs.map (·.name)).contains d.name).map (entityFinding signal e.type)

/-- type_advisor.rs:397-400: names without those seen before. -/
def dedup : List String → List String → List String
  | _, [] => []
  | seen, n :: l => if seen.contains n then dedup seen l else n :: dedup (n :: seen) l

/-- type_advisor.rs:259-271 `referenced_entities`: the nodes still to visit are kept on a stack, here with its top first. -/
def referenced (stack : List (Assoc EntityKey)) : List String :=
  match stack with
  | [] => []
  | .ref k :: s => k.entityType :: referenced s
  | .oneOf l :: s => referenced (l ++ s)
  | .allOf l :: s => referenced (l ++ s)
termination_by assocSizeL stack
decreasing_by
  · simp [assocSizeL, assocSize]
  · simp [assocSizeL, assocSize, assocSizeL_append]
  · simp [assocSizeL, assocSize, assocSizeL_append]

/-- type_advisor.rs:391-415 `entity_association_not_satisfied`. -/
def notSatisfied (signal : Sample) (children : List (Assoc EntityKey)) : Finding :=
  let names := dedup [] (referenced children)
  mkFinding signal "entity_association_not_satisfied" .violation
    ("None of the associated entities [" ++ ", ".intercalate names ++ "] were satisfied by the resource.")
    [("entity_type", .names names)]

/-- type_advisor.rs:274-279 `AssocEval`. -/
structure Eval where
  satisfied : Bool
  findings : List Finding

mutual
/-- type_advisor.rs:304-337 `evaluate_association`. -/
def evalAssoc (c : Checker) (attrs : List SAttr) (signal : Sample) : Assoc EntityKey → Eval
  | .ref k => match c.lookupEntity k with
    | none => { satisfied := true, findings := [] }
    | some e => { satisfied := !(checkEntity signal attrs e).any fun f => f.level = .violation,
                  findings := checkEntity signal attrs e }
  | .oneOf l => oneOfEval signal l (evalAssocs c attrs signal l)
  | .allOf l => { satisfied := (evalAssocs c attrs signal l).all (·.satisfied),
                  findings := (evalAssocs c attrs signal l).flatMap (·.findings) }
termination_by structural x => x
/-- The evaluations of the children. -/
def evalAssocs (c : Checker) (attrs : List SAttr) (signal : Sample) : List (Assoc EntityKey) → List Eval
  | [] => []
  | x :: l => evalAssoc c attrs signal x :: evalAssocs c attrs signal l
termination_by structural x => x
/-- type_advisor.rs:362-388 `evaluate_one_of`, given the evaluations of the children. -/
def oneOfEval (signal : Sample) (l : List (Assoc EntityKey)) (evals : List Eval) : Eval :=
  if evals.any (·.satisfied) then
    { satisfied := true, findings := (evals.filter (·.satisfied)).flatMap (·.findings) }
  else { satisfied := false, findings := [notSatisfied signal l] }
end

/-- type_advisor.rs:285-301 `check_entity_associations`. -/
def checkAssocs (c : Checker) (attrs : List SAttr) (signal : Sample) : List (Assoc EntityKey) → List Finding
  | [] => []
  | [x] => (evalAssoc c attrs signal x).findings
  | x :: y :: l => (evalAssoc c attrs signal (.oneOf (x :: y :: l))).findings

/-! ### Running the check -/

/-- The parts of a `LiveChecker` a run uses. -/
structure Env where
  checker : Checker
  advisors : List Advisor
  modifier : Option Modifier

/-- The `live_check_result` of one sample in the report. -/
structure Entry where
  kind : String
  ref : SRef
  result : Result

/-- What a run has done: the statistics (`none` if disabled), the results stored in samples, and the findings handed to
the OTLP emitter (in an order of the model's own: those about a sample after those about its parts). -/
structure St where
  stats : Option Stats
  entries : List Entry := []
  emitted : List Finding := []

/-- A result under construction and the findings emitted. -/
structure Acc where
  result : Result := {}
  emitted : List Finding := []

/-- A finding is emitted (advice/mod.rs:107-133) and then added to the result. -/
def Acc.add (env : Env) (s : SRef) (a : Acc) (fs : List Finding) : Acc :=
  { result := a.result.addList env.modifier s fs, emitted := a.emitted ++ fs }

/-- lib.rs:609-622, sample_attribute.rs:228-242, sample_log.rs:82-96, sample_metric.rs:326-340: the loop over the
advisors. -/
def advise (env : Env) (s : SRef) (signal : Sample) (attr : Option AttrDef) (group : Option Signal) :
    List Advisor → Acc → Except String Acc
  | [], a => .ok a
  | adv :: rest, a => match adv s signal attr group with
    | .error e => .error e
    | .ok fs => advise env s signal attr group rest (a.add env s fs)

/-- The result is stored in the sample and counted. -/
def St.record (st : St) (kind : String) (s : SRef) (a : Acc) : St :=
  { stats := st.stats.map fun t => (t.incEntity kind).addResult a.result,
    entries := st.entries ++ [{ kind := kind, ref := s, result := a.result }],
    emitted := st.emitted ++ a.emitted }

/-- lib.rs:600-628 `run_advisors`. -/
def runAdvisors (env : Env) (kind : String) (s : SRef) (group : Option Signal) (signal : Sample) (st : St) : Except String St :=
  match advise env s signal none group env.advisors {} with
  | .error e => .error e
  | .ok a => .ok (st.record kind s a)

/-- lib.rs:576-589: a check of all items of a list. -/
def runList {α : Type} (f : St → α → Except String St) : List α → St → Except String St
  | [], st => .ok st
  | x :: l, st => match f st x with
    | .error e => .error e
    | .ok st => runList f l st

/-- sample_attribute.rs:181-188: the attribute or else the template. -/
def Checker.findAny (c : Checker) (n : String) : Option AttrDef := (c.findAttribute n).or (c.findTemplate n)

/-- sample_attribute.rs:189-225: the findings before the advisors run. -/
def attributeFirst (signal : Sample) (a : SAttr) (d : Option AttrDef) : List Finding :=
  match d with
  | none => [mkFinding signal "missing_attribute" .violation
      ("Attribute '" ++ a.name ++ "' does not exist in the registry.") [("attribute_key", .text a.name)]]
  | some d => if d.typ.isTemplate then
      [mkFinding signal "template_attribute" .information ("Attribute '" ++ a.name ++ "' is a template")
        [("attribute_key", .text a.name), ("template_name", .text d.name)]]
    else []

/-- sample_attribute.rs:157-164: the template name in the context of a finding, if it is about a template. -/
def templateName (f : Finding) : Option String :=
  if f.id = "template_attribute" then
    match f.ctx.find? (fun p => p.1 = "template_name") with
    | some (_, .text s) => some s
    | some (_, .val v) => v.asStr
    | _ => none
  else none

/-- sample_attribute.rs:153-167: the name that is counted. -/
def coveredName (a : SAttr) (r : Result) : String := r.all.foldl (fun n f => (templateName f).getD n) a.name

/-- sample_attribute.rs:172-246 `run_live_check` and `update_stats`. -/
def runAttr (env : Env) (group : Option Signal) (signal : Sample) (st : St) (a : SAttr) : Except String St :=
  let d := env.checker.findAny a.name
  let s : SRef := .attribute a
  match advise env s signal d group env.advisors (({} : Acc).add env s (attributeFirst signal a d)) with
  | .error e => .error e
  | .ok r =>
    let st1 := st.record "attribute" s r
    .ok { st1 with stats := st1.stats.map fun t => t.coverAttr (coveredName a r.result) }

/-- Lists of attributes. -/
def runAttrs (env : Env) (group : Option Signal) (signal : Sample) (l : List SAttr) (st : St) : Except String St :=
  runList (runAttr env group signal) l st

/-- A sample whose own check is `run_advisors`, followed by that of its attributes: resources, scopes, span events, span
links, profiles and exemplars. -/
def runPlain (env : Env) (kind : String) (s : SRef) (attrs : List SAttr) (group : Option Signal) (signal : Sample) (st : St) :
    Except String St :=
  match runAdvisors env kind s group signal st with
  | .error e => .error e
  | .ok st => runAttrs env group signal attrs st

/-- sample_metric.rs:253-271. -/
def runExemplar (env : Env) (group : Option Signal) (signal : Sample) (st : St) (e : Exemplar) : Except String St :=
  runPlain env "exemplar" (.exemplar e) e.attrs group signal st

/-- sample_metric.rs:73-89, 133-149, 208-224; `mk` says which kind of data point it is. -/
def runPoint (env : Env) (mk : Point → SRef) (group : Option Signal) (signal : Sample) (st : St) (p : Point) : Except String St :=
  match runPlain env "data_point" (mk p) p.attrs group signal st with
  | .error e => .error e
  | .ok st => runList (runExemplar env group signal) p.exemplars st

/-- sample_metric.rs:379-405. -/
def runPoints (env : Env) (group : Option Signal) (signal : Sample) (st : St) : Option Points → Except String St
  | none => .ok st
  | some (.number l) => runList (runPoint env .numberPoint group signal) l st
  | some (.histogram l) => runList (runPoint env .histogramPoint group signal) l st
  | some (.exponential l) => runList (runPoint env .exponentialPoint group signal) l st

/-- sample_metric.rs:348-362, sample_log.rs:104-118: the findings about the associations of the signal; `k` is the v2
kind of signal that has them. -/
def assocFindings (env : Env) (k : SigKind) (signal : Sample) (g : Option Signal) : List Finding :=
  match g with
  | none => []
  | some g => if g.kind = .group ∨ g.kind = k then checkAssocs env.checker signal.resourceAttrs signal g.assocs else []

/-- sample_metric.rs:301-412 `run_live_check`. -/
def runMetric (env : Env) (signal : Sample) (st : St) (m : Metric) : Except String St :=
  let g := env.checker.findMetric m.name
  let s : SRef := .metric m
  let first := if g.isNone then
      [mkFinding signal "missing_metric" .violation "Metric does not exist in the registry." []] else []
  match advise env s signal none g env.advisors (({} : Acc).add env s first) with
  | .error e => .error e
  | .ok r => match runPoints env g signal st m.points with
    | .error e => .error e
    | .ok st =>
      let st1 := st.record "metric" s (r.add env s (assocFindings env .metric signal g))
      .ok { st1 with stats := st1.stats.map fun t => t.coverMetric m.name }

/-- sample_log.rs:49-147 `run_live_check`. -/
def runLog (env : Env) (signal : Sample) (st : St) (l : Log) : Except String St :=
  let g := if l.eventName = "" then none else env.checker.findEvent l.eventName
  let s : SRef := .log l
  let first := if l.eventName ≠ "" ∧ g.isNone then
      [mkFinding signal "missing_event" .violation ("Event '" ++ l.eventName ++ "' does not exist in the registry.") []]
    else []
  match advise env s signal none g env.advisors (({} : Acc).add env s first) with
  | .error e => .error e
  | .ok r => match runAttrs env g signal l.attrs st with
    | .error e => .error e
    | .ok st =>
      let st1 := st.record "log" s (r.add env s (assocFindings env .event signal g))
      .ok { st1 with stats := st1.stats.map fun t => t.coverEvent l.eventName }

/-- sample_span.rs:123-137. -/
def runSpanEvent (env : Env) (group : Option Signal) (signal : Sample) (st : St) (e : SpanEvent) : Except String St :=
  runPlain env "span_event" (.spanEvent e) e.attrs group signal st

/-- sample_span.rs:159-173. -/
def runSpanLink (env : Env) (group : Option Signal) (signal : Sample) (st : St) (l : SpanLink) : Except String St :=
  runPlain env "span_link" (.spanLink l) l.attrs group signal st

/-- sample_span.rs:77-99. -/
def runSpan (env : Env) (group : Option Signal) (signal : Sample) (st : St) (s : Span) : Except String St :=
  match runPlain env "span" (.span s) s.attrs group signal st with
  | .error e => .error e
  | .ok st => match runList (runSpanEvent env group signal) s.events st with
    | .error e => .error e
    | .ok st => runList (runSpanLink env group signal) s.links st

/-- lib.rs:444-482: a sample is checked with itself as the parent signal and no parent group. -/
def runSample (env : Env) (st : St) (s : Sample) : Except String St :=
  match s with
  | .attribute a => runAttr env none s st a
  | .span x => runSpan env none s st x
  | .spanEvent x => runSpanEvent env none s st x
  | .spanLink x => runSpanLink env none s st x
  | .resource x => runPlain env "resource" (.resource x) x.attrs none s st
  | .scope x => runPlain env "instrumentation_scope" (.scope x) x.attrs none s st
  | .metric x => runMetric env s st x
  | .log x => runLog env s st x
  | .profile x => runPlain env "profile" (.profile x) x.attrs none s st

/-- src/registry/live_check.rs:396-402: the resource seen last is attached to metrics, logs and spans. -/
def attach (cur : Option Resource) : Sample → Sample
  | .metric m => .metric { m with resource := cur }
  | .log l => .log { l with resource := cur }
  | .span s => .span { s with resource := cur }
  | s => s

/-- src/registry/live_check.rs:397. -/
def nextResource (cur : Option Resource) : Sample → Option Resource
  | .resource r => some r
  | _ => cur

/-- src/registry/live_check.rs:392-411: the loop over the samples. -/
def runAll (env : Env) : Option Resource → List Sample → St → Except String St
  | _, [], st => .ok st
  | cur, s :: l, st => match runSample env st (attach (nextResource cur s) s) with
    | .error e => .error e
    | .ok st => runAll env (nextResource cur s) l st

/-- src/registry/live_check.rs:384-413: a whole run with or without statistics. -/
def liveCheck (env : Env) (noStats : Bool) (samples : List Sample) : Except String St :=
  let stats := if noStats then none else some (Stats.new env.checker.registry)
  match runAll env none samples { stats := stats } with
  | .error e => .error e
  | .ok st => .ok { st with stats := st.stats.map Stats.finalize }

/-- weaver_config live_check.rs:20-31 `FailOnLevel`. -/
inductive FailOn where
  | violation | improvement | information | none
deriving DecidableEq, Repr

/-- weaver_config live_check.rs:37-44 `as_finding_threshold`. -/
def FailOn.threshold : FailOn → Option Level
  | .violation => some .violation
  | .improvement => some .improvement
  | .information => some .information
  | .none => Option.none

/-- src/registry/live_check.rs:417-421 and stats.rs:331-336: the exit code. -/
def exitCode (f : FailOn) (st : St) : Nat :=
  match f.threshold with
  | none => 0
  | some t => match st.stats with
    | none => 0
    | some s => if s.shouldFail t then 1 else 0

end Verif.LiveCheck
