import Verif.Advice.Regex
import Verif.LiveCheck.AdviceProps
/-
Model of the default policy of the live check and of the advisor that runs policies:
defaults/policies/live_check_advice/otel.rego, defaults/jq/advice.jq,
crates/weaver_live_check/src/advice/rego_advisor.rs.

Simplifications: rego and jq are not modelled, these programs are written down as functions with the meaning the
languages give them; a JSON object all of whose values are `true` is the list of its keys; `deny` is a set, which rego
gives in an order of its own, here the findings are in the order of the rules; errors of the engine do not occur.
-/
namespace Verif.Advice
open Verif.Util Verif.LiveCheck

/-- `split(name, ".")`. -/
def parts (n : String) : List Chars := splitWhen (· == '.') n.toList

/-- The parts with dots between them. -/
def joinDot : List Chars → Chars
  | [] => []
  | [w] => w
  | w :: v :: l => w ++ '.' :: joinDot (v :: l)

/-- `concat(".", …)` and jq's `join(".")`. -/
def dotted (l : List Chars) : String := String.ofList (joinDot l)

/-! ### advice.jq -/

/-- What advice.jq gives to the policies, without the entities. -/
structure Data where
  attributes : List String := []
  deprecated : List String := []
  templates : List String := []
  namespaces : List String := []
deriving DecidableEq, Repr

/-- advice.jq:55-58, the prefixes of one name: `range(1; length)`, of each the first parts. -/
def prefixes (n : String) : List String := (List.range' 1 ((parts n).length - 1)).map fun i => dotted ((parts n).take i)

/-- defaults/jq/advice.jq:3-22, 49-60, over the serialized `LiveChecker` (live_checker.rs:22-30). -/
def advise (c : Checker) : Data where
  attributes := c.attributes.map (·.1)
  deprecated := (c.attributes.filter fun p => p.2.deprecated.isSome).map (·.1)
  templates := c.templatesByLength.map (·.1)
  namespaces := c.attributes.flatMap fun p => prefixes p.1

/-- advice.jq:40-44, the value for one registry: `from_entries` lets the last entry of a key stand. -/
def entityTable (p : V2Part) : List (String × Entity) :=
  (p.entities.map (fun e => (e.type, e)) ++ p.entityRefinements).foldl (fun m q => aset q.1 q.2 m) []

/-- advice.jq:35-47 `entities`, of a registry with the schema URL `url`: first the dependencies, then the registry. -/
def entityTables (url : String) (p : V2Part) (deps : List (String × V2Part)) : List (String × List (String × Entity)) :=
  (deps ++ [(url, p)]).foldl (fun m d => aset d.1 (entityTable d.2) m) []

/-- What a policy reads for a leaf of an association: `data.entities[source][type]`, where a leaf without source means
`data.schema_url` (advice.jq:24-34; weaver_live_check data/policies/entity_advice/entities.rego:41-42). -/
def dataEntity (url : String) (p : V2Part) (deps : List (String × V2Part)) (type : String) (source : Option String) :
    Option Entity :=
  (aget (source.getD url) (entityTables url p deps)).bind (aget type)

/-! ### otel.rego -/

/-- `[a-z]`. -/
def isLower (c : Char) : Bool := 'a' ≤ c && c ≤ 'z'
/-- `[a-z0-9]`. -/
def isWordChar (c : Char) : Bool := isLower c || ('0' ≤ c && c ≤ '9')
/-- `[._]`. -/
def isSep (c : Char) : Bool := c == '.' || c == '_'

/-- otel.rego:14 `name_regex`, `^[a-z][a-z0-9]*([._][a-z0-9]+)*$`. -/
def nameRegex : Re := .seq (.cls isLower) (.seq (.star (.cls isWordChar)) (.star (.seq (.cls isSep) (Re.plus (.cls isWordChar)))))

/-- `regex.match(name_regex, name)`. -/
def nameOk (n : String) : Bool := nameRegex.test n.toList

/-- `contains(name, ".")`. -/
def hasDot (n : String) : Bool := n.toList.contains '.'

/-- otel.rego:16-23 `derive_namespaces`; `numbers.range` includes both ends. -/
def deriveNamespaces (n : String) : List String :=
  if 1 < (parts n).length then (List.range' 1 ((parts n).length - 1)).map fun i => dotted ((parts n).take i) else []

/-- otel.rego:122-126 `is_template_type`. -/
def isTemplateType (d : Data) (n : String) : Bool := d.templates.any fun t => startsWith n t

/-- otel.rego:104-110 `make_advice`, read as a finding by weaver_checker finding.rs:131-152. -/
def makeAdvice (id : String) (level : Level) (ctx : List (String × CtxVal)) (message : String) : Finding :=
  { id, message, level, ctx }

/-- otel.rego:25-33. -/
def missingNamespace (n : String) : List Finding :=
  if hasDot n then [] else
    [makeAdvice "missing_namespace" .improvement [("attribute_key", .text n)]
      ("Attribute key '" ++ n ++ "' must include a namespace (e.g. '{namespace}.{attribute_key}')")]

/-- otel.rego:35-44. -/
def invalidFormat (d : Data) (n : String) : List Finding :=
  if isTemplateType d n || nameOk n then [] else
    [makeAdvice "invalid_format" .violation [("attribute_key", .text n)]
      ("Attribute key '" ++ n ++ "' does not match name formatting rules.")]

/-- otel.rego:46-56, 112-120. -/
def invalidMetric (n : String) : List Finding :=
  if nameOk n then [] else
    [{ makeAdvice "invalid_format" .violation [("metric_name", .text n)]
        ("Metric name '" ++ n ++ "' does not match name formatting rules.") with
      signalType := some "metric", signalName := some n }]

/-- otel.rego:73-76, one collision. -/
def collision (n ns : String) : Finding :=
  makeAdvice "illegal_namespace" .violation [("attribute_key", .text n), ("namespace", .text ns)]
    ("Namespace '" ++ ns ++ "' collides with existing attribute '" ++ n ++ "'")

/-- otel.rego:58-77. -/
def illegalNamespace (d : Data) (n : String) : List Finding :=
  if hasDot n then
    ((deriveNamespaces n).filter fun ns => decide (ns ∈ d.attributes) && !decide (ns ∈ d.deprecated)).map (collision n)
  else []

/-- otel.rego:79-102. -/
def extendsNamespace (d : Data) (n : String) : List Finding :=
  if hasDot n && !isTemplateType d n && !decide (n ∈ d.attributes) then
    match ((deriveNamespaces n).filter fun ns => decide (ns ∈ d.namespaces)).getLast? with
    | none => []
    | some ns => [makeAdvice "extends_namespace" .information [("attribute_key", .text n), ("namespace", .text ns)]
        ("Attribute key '" ++ n ++ "' collides with existing namespace '" ++ ns ++ "'")]
  else []

/-- The set `deny` of otel.rego for a sample. -/
def deny (d : Data) : SRef → List Finding
  | .attribute a => missingNamespace a.name ++ invalidFormat d a.name ++ illegalNamespace d a.name ++ extendsNamespace d a.name
  | .metric m => invalidMetric m.name
  | _ => []

/-! ### rego_advisor.rs -/

/-- rego_advisor.rs:131-139: what a finding does not say about the signal is taken from the signal. -/
def fill (signal : Sample) (f : Finding) : Finding :=
  { f with signalType := f.signalType.or signal.signalType, signalName := f.signalName.or signal.signalName }

/-- rego_advisor.rs:114-145 `advise`, for any policies. -/
def regoAdvisor (policies : SRef → Sample → Option AttrDef → Option Signal → Except String (List Finding)) : Advisor :=
  fun s signal attr group => (policies s signal attr group).map (List.map (fill signal))

/-- The advisor with the default policy, over the registry of a checker (rego_advisor.rs:25-84). -/
def defaultRego (c : Checker) : Advisor := regoAdvisor fun s _ _ _ => .ok (deny (advise c) s)

end Verif.Advice
