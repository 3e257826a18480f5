import Verif.Samples.FindingLog
import Verif.LiveCheck.Messages
/-
The texts in the log records of findings: they are the names of the variants in snake case, and the ids of findings of the check
itself are among the known ones.
-/
namespace Verif.Samples
open Verif.Util
open Verif.LiveCheck (Level SRef)

/-! ### Specification -/

/-- `serialize_all = "snake_case"` of strum, of names in camel case without digits and abbreviations. -/
def snake : Chars → Chars
  | [] => []
  | c :: s => (if c.isUpper then ['_', c.toLower] else [c]) ++ snake s

/-- The text of a variant: no underscore in front. -/
def variantText (v : String) : String := String.ofList ((snake v.toList).drop 1)

/-- generated/attributes.rs:56-107: the variants of `FindingId`, but for `Custom`. -/
def idVariants : List String :=
  ["MissingAttribute", "TemplateAttribute", "MissingMetric", "MissingEvent", "Deprecated", "TypeMismatch", "NotStable",
   "UnitMismatch", "UnexpectedInstrument", "UndefinedEnumVariant", "RequiredAttributeNotPresent",
   "RecommendedAttributeNotPresent", "OptInAttributeNotPresent", "ConditionallyRequiredAttributeNotPresent",
   "EntityRequiredAttributeNotPresent", "EntityRecommendedAttributeNotPresent", "EntityOptInAttributeNotPresent",
   "EntityConditionallyRequiredAttributeNotPresent", "EntityAssociationNotSatisfied", "MissingNamespace",
   "InvalidFormat", "IllegalNamespace", "ExtendsNamespace"]

/-- The variant of `FindingLevel` of a level. -/
def levelVariant : Level → String
  | .violation => "Violation"
  | .improvement => "Improvement"
  | .information => "Information"

/-- The variant of `SampleType` of a sample. -/
def sampleVariant : SRef → String
  | .attribute _ => "Attribute"
  | .span _ => "Span"
  | .spanEvent _ => "SpanEvent"
  | .spanLink _ => "SpanLink"
  | .resource _ => "Resource"
  | .scope _ => "InstrumentationScope"
  | .metric _ => "Metric"
  | .numberPoint _ => "NumberDataPoint"
  | .histogramPoint _ => "HistogramDataPoint"
  | .exponentialPoint _ => "ExponentialHistogramDataPoint"
  | .exemplar _ => "Exemplar"
  | .log _ => "Log"
  | .profile _ => "Profile"

/-- The documentation of OpenTelemetry logs: the numbers of severities. -/
inductive SeverityRange : String → Nat → Prop
  | info {n : Nat} : 9 ≤ n → n ≤ 12 → SeverityRange "INFO" n
  | warn {n : Nat} : 13 ≤ n → n ≤ 16 → SeverityRange "WARN" n
  | error {n : Nat} : 17 ≤ n → n ≤ 20 → SeverityRange "ERROR" n

/-! ### Theorems -/

/-- C290. The texts are those that strum makes of the names. -/
theorem knownIds_variants : knownIds = idVariants.map variantText := by decide +kernel

/-- C290. -/
theorem levelText_variant (l : Level) : levelText l = variantText (levelVariant l) := by cases l <;> decide +kernel

/-- C290. -/
theorem sampleTypeText_variant (s : SRef) : sampleTypeText s = variantText (sampleVariant s) := by
  cases s <;> (simp only [sampleTypeText, sampleVariant]; decide +kernel)

/-- C290. -/
theorem signalTypes_variants : signalTypes = ["Span", "Resource", "Metric", "Log", "Profile"].map variantText := by decide +kernel

/-- C290. Different kinds of samples have different texts. -/
theorem sampleTypeText_inj (s t : SRef) (h : sampleTypeText s = sampleTypeText t) : sampleVariant s = sampleVariant t := by
  cases s <;> cases t <;> simp only [sampleVariant] <;> exact absurd h (by simp only [sampleTypeText]; decide +kernel)

/-- C290. The text is known exactly if it is that of a variant, and otherwise it is custom. -/
theorem parse_known (s : String) : (∃ i, FindingId.parse s = .known i) ↔ s ∈ idVariants.map variantText := by
  rw [← knownIds_variants]
  unfold FindingId.parse
  cases h : knownIds.findIdx? (· = s) with
  | none =>
    have := List.findIdx?_eq_none_iff.1 h
    simp only [reduceCtorEq, exists_false, false_iff]
    intro hm
    exact absurd (this s hm) (by simp)
  | some i =>
    obtain ⟨hi, hs, -⟩ := List.findIdx?_eq_some_iff_getElem.1 h
    simp only [decide_eq_true_eq] at hs
    simp only [FindingId.known.injEq, exists_eq', true_iff]
    rw [← hs]; exact List.getElem_mem hi

/-- C290. A variant is read back from its text. -/
theorem parse_text : ∀ i : Fin idVariants.length, ∃ v, idVariants[i.1]? = some v ∧ FindingId.parse (variantText v) = .known i.1 := by
  intro i
  have h : ∀ i : Fin idVariants.length, knownIds.findIdx? (· = variantText idVariants[i.1]) = some i.1 := by
    clear i
    decide +kernel
  refine ⟨_, List.getElem?_eq_getElem i.2, ?_⟩
  unfold FindingId.parse
  rw [h i]

/-- C290. What the check itself finds has an id that is known. -/
theorem proper_known {signal : LiveCheck.Sample} {f : LiveCheck.Finding} (h : LiveCheck.Proper signal f) :
    ∃ i, FindingId.parse f.id = .known i := by
  rw [parse_known]
  have hall : ∀ x ∈ LiveCheck.documentedIds, x ∈ idVariants.map variantText := by decide +kernel
  exact hall _ h.id

/-- C290. The number of a severity is in the range of its name, and it is the higher the worse the finding. -/
theorem severity_range (l : Level) : SeverityRange (severityOf l).2 (severityOf l).1 ∧
    (severityOf .information).1 < (severityOf .improvement).1 ∧ (severityOf .improvement).1 < (severityOf .violation).1 := by
  refine ⟨?_, by decide, by decide⟩
  cases l
  · exact .info (by decide) (by decide)
  · exact .warn (by decide) (by decide)
  · exact .error (by decide) (by decide)

/-- C290. A violation is an error, an improvement a warning. -/
theorem severity_names : (severityOf .violation).2 = "ERROR" ∧ (severityOf .improvement).2 = "WARN" ∧
    (severityOf .information).2 = "INFO" := ⟨rfl, rfl, rfl⟩

example : variantText "OptInAttributeNotPresent" = "opt_in_attribute_not_present" := by decide +kernel
example : ¬ ∃ i, FindingId.parse "my_policy" = .known i := by rw [parse_known]; decide +kernel

end Verif.Samples
