import Verif.Semconv.Assoc
import Verif.Semconv.Deprecated
import Verif.Values.Model
/-
Model of the validation of definition files: crates/weaver_semconv/src/group.rs:173-630 (groups of format 1),
v2/mod.rs:175-247 (format 2), semconv.rs:93-106, 133-140, 169-315, 369-414 (reading a file), attribute.rs:661-727.

Errors carry the rule that is broken and its subject; path, group id and text of the messages are left out.
-/
namespace Verif.Validate
open Verif.Semconv (Assoc Deprecated)
open Verif.Values (Examples Verdict)
open Verif.LiveCheck (PType)

/-- stability.rs:15-30. -/
inductive Stability where
  | deprecated | stable | development | alpha | beta | releaseCandidate
deriving DecidableEq, Repr

/-- attribute.rs `EnumEntriesSpec`: the fields validation reads. -/
structure Member where
  id : String
  stability : Option Stability := none
  deprecated : Option Deprecated := none
deriving DecidableEq, Repr

/-- attribute.rs `AttributeType`. -/
inductive AttrType where
  | prim (p : PType)
  | template (p : PType)
  | enum (members : List Member)
deriving DecidableEq, Repr

/-- The type, for the validation of examples, which does not look at members. -/
def AttrType.plain : AttrType → LiveCheck.AType
  | .prim p => .prim p
  | .template p => .template p
  | .enum _ => .enum []

/-- attribute.rs `AttributeSpec::Id`: the fields validation reads. -/
structure AttrDef where
  id : String
  typ : AttrType
  brief : Option String := none
  stability : Option Stability := none
  deprecated : Option Deprecated := none
  examples : Option Examples := none
deriving DecidableEq, Repr

/-- attribute.rs `AttributeSpec`. -/
inductive AttrSpec where
  | defn (a : AttrDef)
  | ref (name : String)
deriving DecidableEq, Repr

/-- any_value.rs:21-78: the scalar and array types of values. -/
inductive Leaf where
  | boolean | int | double | string | strings | ints | doubles | booleans
deriving DecidableEq, Repr

/-- any_value.rs:132-159: the fields validation reads. -/
structure Common where
  id : String
  stability : Option Stability := none
  examples : Option Examples := none
deriving DecidableEq, Repr

/-- any_value.rs:19-122 `AnyValueSpec`. -/
inductive AnyVal where
  | leaf (t : Leaf) (c : Common)
  | map (c : Common) (fields : List AnyVal)
  | maps (c : Common) (fields : List AnyVal)
  | bytes (c : Common)
  | undefined (c : Common)
  | enum (c : Common) (members : List Member)

/-- any_value.rs:192-209 `common`. -/
def AnyVal.common : AnyVal → Common
  | .leaf _ c | .map c _ | .maps c _ | .bytes c | .undefined c | .enum c _ => c

/-- group.rs:637-659. -/
inductive GroupType where
  | attributeGroup | span | event | metric | metricGroup | entity | scope | undefined
deriving DecidableEq, Repr

/-- group.rs:40-166 `GroupSpec`: the fields validation reads. -/
structure Group where
  typ : GroupType
  pre : String := ""
  stability : Option Stability := none
  extend : Option String := none
  attributes : List AttrSpec := []
  spanKind : Option String := none
  events : List String := []
  name : Option String := none
  body : Option AnyVal := none
  metricName : Option String := none
  instrument : Option String := none
  unit : Option String := none
  deprecated : Option Deprecated := none
  assocs : List (Assoc String) := []

/-- group.rs:495-520: the faults of an entity association. -/
inductive Fault where
  | emptyRef | emptyOneOf | emptyAllOf
deriving DecidableEq, Repr

/-- lib.rs:93-382: the errors of validation, by the rule that is broken. -/
inductive Err where
  | usesPrefix
  | noStability
  | deprecatedStability
  | duplicateRef (name : String)
  | noExtendsNorAttributes
  | spanKindOnNonSpan
  | eventsOnNonSpan
  | noType
  | noSpanKind
  | bodyWithoutName
  | eventWithoutName
  | bodyOnNonEvent
  | noMetricName
  | noInstrument
  | noUnit
  | groupNote
  | attrNoBrief (id : String)
  | attrNoStability (id : String)
  | attrDeprecatedStability (id : String)
  | memberNoStability (id member : String)
  | memberDeprecatedStability (id member : String)
  | memberNote (id member : String)
  | attrNote (id : String)
  | badExamples (id : String)
  | oddExamples (id : String)
  | noExamples (id : String)
  | assocOnWrongType
  | badAssoc (f : Fault)
  | valueNoStability (id : String)
  | valueMemberNoStability (id member : String)
  | valueBadExamples (id : String)
  | valueNoExamples (id : String)
deriving DecidableEq, Repr

/-- The `severity` of the errors, lib.rs:93-382. `InvalidGroup`, `InvalidAttribute` and `InvalidMetric` have none set,
which means error. -/
def Err.isError : Err → Bool
  | .spanKindOnNonSpan | .eventsOnNonSpan | .bodyWithoutName | .eventWithoutName | .bodyOnNonEvent
  | .noMetricName | .noInstrument | .noUnit | .attrNoBrief _ | .badExamples _ | .assocOnWrongType | .badAssoc _
  | .valueBadExamples _ | .valueNoExamples _ => true
  | _ => false

/-- `matches!(d, Some(Deprecated::Unspecified { .. }))`. -/
def isNote : Option Deprecated → Bool
  | some (.unspecified _) => true
  | _ => false

/-- One `if condition { errors.push(e) }`. -/
def when (c : Prop) [Decidable c] (e : Err) : List Err := if c then [e] else []

/-- group.rs:522-540 `validate_duplicate_attribute_ref`, with the set of references seen. -/
def duplicateRefs (seen : List String) : List AttrSpec → List Err
  | [] => []
  | .defn _ :: l => duplicateRefs seen l
  | .ref r :: l => if r ∈ seen then .duplicateRef r :: duplicateRefs seen l else duplicateRefs (r :: seen) l

/-- attribute.rs:661-727 `validate_any_value`: whether the examples are accepted. -/
def valueExamplesOk (ex : Examples) (v : AnyVal) : Bool :=
  match ex, v with
  | .bool _, .leaf .boolean _ | .int _, .leaf .int _ | .double _, .leaf .double _ | .string _, .leaf .string _
  | .string _, .map _ _ | .string _, .maps _ _ | .ints _, .leaf .int _ | .doubles _, .leaf .double _
  | .bools _, .leaf .boolean _ | .strings _, .leaf .string _ | .strings _, .map _ _ | .strings _, .maps _ _
  | .listOfInts _, .leaf .ints _ | .listOfDoubles _, .leaf .doubles _ | .listOfBools _, .leaf .booleans _
  | .listOfStrings _, .leaf .strings _ | .listOfStrings _, .map _ _ | .listOfStrings _, .maps _ _ => true
  | _, .enum _ _ | _, .bytes _ | _, .undefined _ => true
  | _, _ => false

/-- group.rs:556-573: whether a value must have examples. -/
def isStringy : AnyVal → Bool
  | .leaf .string _ | .leaf .strings _ => true
  | _ => false

/-- group.rs:549-574: the examples of one value. -/
def ownExamples (v : AnyVal) : List Err :=
  match v.common.examples with
  | some ex => when (valueExamplesOk ex v = false) (.valueBadExamples v.common.id)
  | none => when (isStringy v = true) (.valueNoExamples v.common.id)

mutual
/-- group.rs:542-588 `validate_any_value_examples`. -/
def valueExamples : AnyVal → List Err
  | .map c fields => ownExamples (.map c fields) ++ valueExamplesL fields
  | .leaf t c => ownExamples (.leaf t c)
  | .maps c fields => ownExamples (.maps c fields)
  | .bytes c => ownExamples (.bytes c)
  | .undefined c => ownExamples (.undefined c)
  | .enum c ms => ownExamples (.enum c ms)
termination_by structural v => v
def valueExamplesL : List AnyVal → List Err
  | [] => []
  | v :: l => valueExamples v ++ valueExamplesL l
termination_by structural l => l
end

/-- group.rs:608-620: the members of an enum value. -/
def valueMembers (id : String) (ms : List Member) : List Err :=
  ms.flatMap fun m => when (m.stability = none) (.valueMemberNoStability id m.id)

/-- group.rs:597-604. -/
def ownStability (c : Common) : List Err := when (c.stability = none) (.valueNoStability c.id)

mutual
/-- group.rs:590-630 `validate_any_value`. -/
def valueStability : AnyVal → List Err
  | .enum c ms => ownStability c ++ valueMembers c.id ms
  | .map c fields => ownStability c ++ valueStabilityL fields
  | .leaf _ c => ownStability c
  | .maps c _ => ownStability c
  | .bytes c => ownStability c
  | .undefined c => ownStability c
termination_by structural v => v
def valueStabilityL : List AnyVal → List Err
  | [] => []
  | v :: l => valueStability v ++ valueStabilityL l
termination_by structural l => l
end

/-- group.rs:371-404: the members of an enum attribute. -/
def memberErrs (id : String) (m : Member) : List Err :=
  (if m.stability = none then [.memberNoStability id m.id]
    else when (m.stability = some .deprecated) (.memberDeprecatedStability id m.id)) ++
  when (isNote m.deprecated = true) (.memberNote id m.id)

/-- group.rs:428-462: the examples of an attribute. -/
def exampleErrs (a : AttrDef) : List Err :=
  match a.examples with
  | some ex => match Values.validate ex a.typ.plain with
    | .ok => []
    | .warning => [.oddExamples a.id]
    | .error => [.badExamples a.id]
  | none => when (a.typ = .prim .string) (.noExamples a.id) ++ when (a.typ = .prim .strings) (.noExamples a.id)

/-- group.rs:336-464: one attribute. -/
def attrErrs : AttrSpec → List Err
  | .defn a =>
    when (a.brief = none ∧ a.deprecated = none) (.attrNoBrief a.id) ++
    (if a.stability = none then [.attrNoStability a.id]
      else when (a.stability = some .deprecated) (.attrDeprecatedStability a.id)) ++
    (match a.typ with | .enum ms => ms.flatMap (memberErrs a.id) | _ => []) ++
    when (isNote a.deprecated = true) (.attrNote a.id) ++
    exampleErrs a
  | .ref _ => []

variable (ws : Char → Bool)

mutual
/-- group.rs:495-520 `validate_entity_association`; `ws` is `char::is_whitespace`, and a trimmed name is empty if all its
characters are white space. -/
def assocFault : Assoc String → Option Fault
  | .ref n => if n.toList.all ws then some .emptyRef else none
  | .oneOf l => if l.isEmpty then some .emptyOneOf else assocFaultL l
  | .allOf l => if l.isEmpty then some .emptyAllOf else assocFaultL l
termination_by structural a => a
def assocFaultL : List (Assoc String) → Option Fault
  | [] => none
  | a :: l => match assocFault a with
    | some f => some f
    | none => assocFaultL l
termination_by structural l => l
end

/-- group.rs:259-298: events and bodies. -/
def bodyErrs (g : Group) : List Err :=
  if g.typ = .event then
    when (g.body.isSome = true ∧ g.name = none) .bodyWithoutName ++
    when (g.body.isSome = false ∧ g.name = none ∧ g.pre = "") .eventWithoutName ++
    (match g.body with | some v => valueStability v ++ valueExamples v | none => [])
  else when (g.body.isSome = true) .bodyOnNonEvent

/-- group.rs:467-487: entity associations. -/
def assocErrs (g : Group) : List Err :=
  if g.assocs.isEmpty then [] else
    when (¬ (g.typ = .event ∨ g.typ = .metric ∨ g.typ = .span)) .assocOnWrongType ++
    g.assocs.flatMap fun a => match assocFault ws a with | some f => [.badAssoc f] | none => []

/-- group.rs:175-490 `GroupSpec::validate`. -/
def validateGroup (g : Group) : List Err :=
  when (g.pre ≠ "") .usesPrefix ++
  when (g.typ ≠ .attributeGroup ∧ g.stability = none) .noStability ++
  when (g.stability = some .deprecated) .deprecatedStability ++
  duplicateRefs [] g.attributes ++
  when (g.typ ≠ .metric ∧ g.typ ≠ .event ∧ g.extend = none ∧ g.attributes = []) .noExtendsNorAttributes ++
  (if g.typ ≠ .span ∧ g.typ ≠ .undefined then
    when (g.spanKind.isSome = true) .spanKindOnNonSpan ++ when (g.events ≠ []) .eventsOnNonSpan else []) ++
  when (g.typ = .undefined) .noType ++
  when (g.typ = .span ∧ g.spanKind = none) .noSpanKind ++
  bodyErrs g ++
  (if g.typ = .metric then when (g.metricName = none) .noMetricName ++ when (g.instrument = none) .noInstrument ++
    when (g.unit = none) .noUnit else []) ++
  when (isNote g.deprecated = true) .groupNote ++
  g.attributes.flatMap attrErrs ++
  assocErrs ws g

/-- semconv.rs:94-106 `SemConvSpecV1::validate`. -/
def validateV1 (groups : List Group) : List Err := groups.flatMap (validateGroup ws)

/-! ### Format 2 -/

/-- v2/entity.rs:22-37 and 42-77: entities and their refinements, as far as validation reads them. `id` is the type of an
entity and the id of a refinement. -/
structure Entity where
  id : String
  identity : List String := []
  description : List String := []
  hasLevel : Bool := false
deriving DecidableEq, Repr

/-- v2/mod.rs:48-97 `SemConvSpecV2`: the fields validation reads. Signals are their names and whether they set a
requirement level. -/
structure SpecV2 where
  metrics : List (String × Bool) := []
  spans : List (String × Bool) := []
  events : List (String × Bool) := []
  entities : List Entity := []
  refinements : List Entity := []
deriving DecidableEq, Repr

/-- The errors of v2/mod.rs:183-247. -/
inductive ErrV2 where
  | noLevel (group : String)
  | inBoth (group attr : String)
  | noIdentity (group : String)
deriving DecidableEq, Repr

/-- v2/mod.rs:212-225 `check_identity_overlap`. -/
def overlaps (e : Entity) : List ErrV2 :=
  e.description.flatMap fun a => if e.identity.any (fun i => decide (i = a)) then [.inBoth e.id a] else []

/-- v2/mod.rs:187-210: the warnings. -/
def levelWarnings (s : SpecV2) : List ErrV2 :=
  (s.metrics.flatMap fun m => if m.2 then [] else [.noLevel ("metric." ++ m.1)]) ++
  (s.spans.flatMap fun m => if m.2 then [] else [.noLevel ("span." ++ m.1)]) ++
  (s.events.flatMap fun m => if m.2 then [] else [.noLevel ("event." ++ m.1)]) ++
  (s.entities.flatMap fun e => if e.hasLevel then [] else [.noLevel ("entity." ++ e.id)])

/-- v2/mod.rs:226-241: the fatal errors. -/
def fatalV2 (s : SpecV2) : List ErrV2 :=
  (s.entities.flatMap fun e => overlaps e ++ if e.identity.isEmpty then [.noIdentity e.id] else []) ++
  s.refinements.flatMap overlaps

/-- v2/mod.rs:183-247 `SemConvSpecV2::validate`: the warnings, or the fatal errors. -/
def validateV2 (s : SpecV2) : Except (List ErrV2) (List ErrV2) :=
  if fatalV2 s = [] then .ok (levelWarnings s) else .error (fatalV2 s)

/-! ### Reading a file -/

/-- A field of the root mapping, as `get(..).and_then(as_str)` sees it. -/
inductive Field where
  | absent
  | text (s : String)
  | other
deriving DecidableEq, Repr

def Field.str : Field → Option String
  | .text s => some s
  | _ => none

/-- A YAML document: a mapping with these two fields and a rest, or something else. -/
inductive Root (D : Type) where
  | mapping (version fileFormat : Field) (rest : D)
  | other

/-- semconv.rs:171-178. -/
inductive Format where
  | v1 | v2 | unversioned
deriving DecidableEq, Repr

/-- The problems with a file. -/
inductive FileErr where
  | deprecatedVersion
  | unstableFormat
  | invalidFormat (key value : String)
  | unreadable
  | v1 (e : Err)
  | v2 (e : ErrV2)
  | compound (l : List ErrV2)
deriving DecidableEq, Repr

/-- semconv.rs:184-237 `FileFormat::detect`: the format and the warnings. -/
def detect (version fileFormat : Option String) : Except FileErr Format × List FileErr :=
  let warned := if version.isSome then [.deprecatedVersion] else []
  if fileFormat = some "definition/2" ∨ version = some "2" then (.ok .v2, warned ++ [.unstableFormat])
  else if fileFormat = some "definition/1" ∨ version = some "1" then (.ok .v1, warned)
  else if fileFormat = none ∧ version = none then (.ok .unversioned, warned)
  else (.error (.invalidFormat (if version.isSome then "version" else "file_format")
    ((version.or fileFormat).getD "unknown")), warned)

/-- A specification that was read. -/
inductive Versioned where
  | v1 (groups : List Group)
  | v2 (s : SpecV2)

variable {D : Type} (readV1 : D → Option (List Group)) (readV2 : D → Option SpecV2)

/-- semconv.rs:296-315 `from_yaml_value`: the deserializers are parameters, and the errors they give are not
distinguished. -/
def fromYaml (r : Root D) : Except FileErr Versioned × List FileErr :=
  match r with
  | .other => (.error .unreadable, [])
  | .mapping v f d => match detect v.str f.str with
    | (.error e, w) => (.error e, w)
    | (.ok .v2, w) => (match readV2 d with | some s => .ok (.v2 s) | none => .error .unreadable, w)
    | (.ok .v1, w) | (.ok .unversioned, w) =>
      (match readV1 d with | some g => .ok (.v1 g) | none => .error .unreadable, w)

/-- semconv.rs:134-139 `Versioned::validate`. -/
def Versioned.validate (v : Versioned) : Except FileErr (List FileErr) :=
  match v with
  | .v1 gs => .ok ((validateV1 ws gs).map .v1)
  | .v2 s => match validateV2 s with
    | .ok w => .ok (w.map .v2)
    | .error l => .error (.compound l)

/-- semconv.rs:389-413 of `from_file_with_mapped_path`: the specification and its non-fatal errors, or a fatal error. -/
def readFile (r : Root D) : Except FileErr (Versioned × List FileErr) :=
  match fromYaml readV1 readV2 r with
  | (.error e, _) => .error e
  | (.ok v, warnings) => match v.validate ws with
    | .error e => .error e
    | .ok errs => .ok (v, errs ++ warnings)

end Verif.Validate
