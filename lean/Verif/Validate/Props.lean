import Verif.Validate.Model
/-
C41: which groups are reported. C84: reading definition files.
-/
namespace Verif.Validate
open Verif.Semconv (Assoc Deprecated)
open Verif.Values (Examples Verdict)
open Verif.LiveCheck (PType)

/-! ### Specification: the rules -/

/-- A value of a body: the body itself, or a field of a map inside it. Fields of arrays of maps are not reached. -/
inductive Within (root : AnyVal) : AnyVal → Prop
  | root : Within root root
  | field {c fields v} : Within root (.map c fields) → v ∈ fields → Within root v

/-- A deprecation given as a plain text. -/
def PlainNote (d : Option Deprecated) : Prop := ∃ n, d = some (.unspecified n)

/-- The examples a value of a body may have: of its type, a single one or a list for scalars and a list of arrays for
arrays; strings for maps; anything for enums, bytes and undefined values. -/
def GoodExamples : Examples → AnyVal → Prop
  | ex, .leaf .boolean _ => (∃ b, ex = .bool b) ∨ ∃ l, ex = .bools l
  | ex, .leaf .int _ => (∃ b, ex = .int b) ∨ ∃ l, ex = .ints l
  | ex, .leaf .double _ => (∃ b, ex = .double b) ∨ ∃ l, ex = .doubles l
  | ex, .leaf .string _ => (∃ b, ex = .string b) ∨ ∃ l, ex = .strings l
  | ex, .leaf .booleans _ => ∃ l, ex = .listOfBools l
  | ex, .leaf .ints _ => ∃ l, ex = .listOfInts l
  | ex, .leaf .doubles _ => ∃ l, ex = .listOfDoubles l
  | ex, .leaf .strings _ => ∃ l, ex = .listOfStrings l
  | ex, .map _ _ | ex, .maps _ _ => (∃ b, ex = .string b) ∨ (∃ l, ex = .strings l) ∨ ∃ l, ex = .listOfStrings l
  | _, .enum _ _ | _, .bytes _ | _, .undefined _ => True

variable (ws : Char → Bool)

mutual
/-- All faults of an entity association, outside in and from left to right. -/
def faults : Assoc String → List Fault
  | .ref n => if ∀ c ∈ n.toList, ws c = true then [.emptyRef] else []
  | .oneOf l => (if l = [] then [.emptyOneOf] else []) ++ faultsL l
  | .allOf l => (if l = [] then [.emptyAllOf] else []) ++ faultsL l
termination_by structural a => a
def faultsL : List (Assoc String) → List Fault
  | [] => []
  | a :: l => faults a ++ faultsL l
termination_by structural l => l
end

/-- The rules of groups: `Violates g e` says that the group breaks the rule `e`. -/
inductive Violates (g : Group) : Err → Prop
  | usesPrefix : g.pre ≠ "" → Violates g .usesPrefix
  | noStability : g.stability = none → g.typ ≠ .attributeGroup → Violates g .noStability
  | deprecatedStability : g.stability = some .deprecated → Violates g .deprecatedStability
  | duplicateRef (r) : 2 ≤ g.attributes.count (.ref r) → Violates g (.duplicateRef r)
  | noExtendsNorAttributes : g.extend = none → g.attributes = [] → g.typ ≠ .metric → g.typ ≠ .event →
      Violates g .noExtendsNorAttributes
  | spanKindOnNonSpan (k) : g.spanKind = some k → g.typ ≠ .span → g.typ ≠ .undefined → Violates g .spanKindOnNonSpan
  | eventsOnNonSpan : g.events ≠ [] → g.typ ≠ .span → g.typ ≠ .undefined → Violates g .eventsOnNonSpan
  | noType : g.typ = .undefined → Violates g .noType
  | noSpanKind : g.typ = .span → g.spanKind = none → Violates g .noSpanKind
  | bodyWithoutName (v) : g.typ = .event → g.body = some v → g.name = none → Violates g .bodyWithoutName
  | eventWithoutName : g.typ = .event → g.body = none → g.name = none → g.pre = "" → Violates g .eventWithoutName
  | bodyOnNonEvent (v) : g.body = some v → g.typ ≠ .event → Violates g .bodyOnNonEvent
  | noMetricName : g.typ = .metric → g.metricName = none → Violates g .noMetricName
  | noInstrument : g.typ = .metric → g.instrument = none → Violates g .noInstrument
  | noUnit : g.typ = .metric → g.unit = none → Violates g .noUnit
  | groupNote : PlainNote g.deprecated → Violates g .groupNote
  | attrNoBrief (a) : .defn a ∈ g.attributes → a.brief = none → a.deprecated = none → Violates g (.attrNoBrief a.id)
  | attrNoStability (a) : .defn a ∈ g.attributes → a.stability = none → Violates g (.attrNoStability a.id)
  | attrDeprecatedStability (a) : .defn a ∈ g.attributes → a.stability = some .deprecated →
      Violates g (.attrDeprecatedStability a.id)
  | memberNoStability (a ms m) : .defn a ∈ g.attributes → a.typ = .enum ms → m ∈ ms → m.stability = none →
      Violates g (.memberNoStability a.id m.id)
  | memberDeprecatedStability (a ms m) : .defn a ∈ g.attributes → a.typ = .enum ms → m ∈ ms →
      m.stability = some .deprecated → Violates g (.memberDeprecatedStability a.id m.id)
  | memberNote (a ms m) : .defn a ∈ g.attributes → a.typ = .enum ms → m ∈ ms → PlainNote m.deprecated →
      Violates g (.memberNote a.id m.id)
  | attrNote (a) : .defn a ∈ g.attributes → PlainNote a.deprecated → Violates g (.attrNote a.id)
  | badExamples (a ex) : .defn a ∈ g.attributes → a.examples = some ex → Values.validate ex a.typ.plain = .error →
      Violates g (.badExamples a.id)
  | oddExamples (a ex) : .defn a ∈ g.attributes → a.examples = some ex → Values.validate ex a.typ.plain = .warning →
      Violates g (.oddExamples a.id)
  | noExamples (a) : .defn a ∈ g.attributes → a.examples = none → a.typ = .prim .string ∨ a.typ = .prim .strings →
      Violates g (.noExamples a.id)
  | assocOnWrongType : g.assocs ≠ [] → g.typ ≠ .event → g.typ ≠ .metric → g.typ ≠ .span → Violates g .assocOnWrongType
  | badAssoc (a f) : a ∈ g.assocs → (faults ws a).head? = some f → Violates g (.badAssoc f)
  | valueNoStability (b v) : g.typ = .event → g.body = some b → Within b v → v.common.stability = none →
      Violates g (.valueNoStability v.common.id)
  | valueMemberNoStability (b c ms m) : g.typ = .event → g.body = some b → Within b (.enum c ms) → m ∈ ms →
      m.stability = none → Violates g (.valueMemberNoStability c.id m.id)
  | valueBadExamples (b v ex) : g.typ = .event → g.body = some b → Within b v → v.common.examples = some ex →
      ¬ GoodExamples ex v → Violates g (.valueBadExamples v.common.id)
  | valueNoExamples (b t c) : g.typ = .event → g.body = some b → Within b (.leaf t c) → c.examples = none →
      t = .string ∨ t = .strings → Violates g (.valueNoExamples c.id)

/-! ### Parts -/

theorem mem_when (c : Prop) [Decidable c] (e x : Err) : x ∈ when c e ↔ c ∧ x = e := by
  unfold when; split <;> simp_all

theorem isNote_iff (d : Option Deprecated) : isNote d = true ↔ PlainNote d := by
  unfold isNote PlainNote
  split
  · simp
  · rename_i h; simp only [Bool.false_eq_true, false_iff]; rintro ⟨n, rfl⟩; exact h n rfl

/-- Duplicates: how often each reference is reported. -/
theorem duplicateRefs_count (l : List AttrSpec) : ∀ (seen : List String) (r : String),
    (duplicateRefs seen l).count (.duplicateRef r) = if r ∈ seen then l.count (.ref r) else l.count (.ref r) - 1 := by
  induction l with
  | nil => intro seen r; simp [duplicateRefs]
  | cons x l ih =>
    intro seen r
    cases x with
    | defn a => simp [duplicateRefs, ih]
    | ref r' =>
      by_cases h : r' ∈ seen
      · simp only [duplicateRefs, if_pos h, List.count_cons, ih]
        by_cases e : r' = r
        · subst e; simp [h]
        · have e1 : (Err.duplicateRef r' == Err.duplicateRef r) = false := by simpa using e
          have e2 : (AttrSpec.ref r' == AttrSpec.ref r) = false := by simpa using e
          simp [e1, e2]
      · simp only [duplicateRefs, if_neg h, List.count_cons, ih]
        by_cases e : r' = r
        · subst e; simp [h]
        · have e2 : (AttrSpec.ref r' == AttrSpec.ref r) = false := by simpa using e
          have e3 : ¬ r = r' := fun h => e h.symm
          simp [e2, e3]

theorem duplicateRefs_only (l : List AttrSpec) : ∀ (seen : List String) (e : Err), e ∈ duplicateRefs seen l →
    ∃ r, e = .duplicateRef r := by
  induction l with
  | nil => intro seen e h; simp [duplicateRefs] at h
  | cons x l ih =>
    intro seen e h
    cases x with
    | defn a => exact ih _ e (by simpa [duplicateRefs] using h)
    | ref r =>
      simp only [duplicateRefs] at h
      split at h
      · rcases List.mem_cons.1 h with rfl | h
        · exact ⟨r, rfl⟩
        · exact ih _ e h
      · exact ih _ e h

theorem mem_duplicateRefs (l : List AttrSpec) (e : Err) :
    e ∈ duplicateRefs [] l ↔ ∃ r, e = .duplicateRef r ∧ 2 ≤ l.count (.ref r) := by
  constructor
  · intro h
    obtain ⟨r, rfl⟩ := duplicateRefs_only l _ e h
    have := List.count_pos_iff.2 h
    rw [duplicateRefs_count] at this
    simp only [List.not_mem_nil, if_false] at this
    exact ⟨r, rfl, by omega⟩
  · rintro ⟨r, rfl, h⟩
    refine List.count_pos_iff.1 ?_
    rw [duplicateRefs_count]
    simp only [List.not_mem_nil, if_false]
    omega

theorem valueExamplesOk_iff (ex : Examples) (v : AnyVal) : valueExamplesOk ex v = true ↔ GoodExamples ex v := by
  cases v with
  | leaf t c => cases t <;> cases ex <;> simp [valueExamplesOk, GoodExamples]
  | _ => cases ex <;> simp [valueExamplesOk, GoodExamples]

theorem mem_ownExamples (v : AnyVal) (e : Err) : e ∈ ownExamples v ↔
    (∃ ex, v.common.examples = some ex ∧ ¬ GoodExamples ex v ∧ e = .valueBadExamples v.common.id) ∨
    (v.common.examples = none ∧ (∃ t c, v = .leaf t c ∧ (t = .string ∨ t = .strings)) ∧
      e = .valueNoExamples v.common.id) := by
  unfold ownExamples
  cases h : v.common.examples with
  | some ex =>
    simp only [mem_when, ← valueExamplesOk_iff, Option.some.injEq, Bool.not_eq_true]
    constructor
    · rintro ⟨h1, h2⟩; exact .inl ⟨ex, rfl, h1, h2⟩
    · rintro (⟨_, rfl, h1, h2⟩ | ⟨h1, _⟩)
      · exact ⟨h1, h2⟩
      · cases h1
  | none =>
    have hs : isStringy v = true ↔ ∃ t c, v = .leaf t c ∧ (t = .string ∨ t = .strings) := by
      cases v with
      | leaf t c => cases t <;> simp [isStringy]
      | _ => simp [isStringy]
    simp [mem_when, hs]

theorem within_map {c : Common} {fields : List AnyVal} {v : AnyVal} :
    Within (.map c fields) v ↔ v = .map c fields ∨ ∃ f ∈ fields, Within f v := by
  constructor
  · intro h
    induction h with
    | root => exact .inl rfl
    | field h hv ih =>
      rcases ih with h' | ⟨f, hf, h'⟩
      · cases h'; exact .inr ⟨_, hv, .root⟩
      · exact .inr ⟨f, hf, .field h' hv⟩
  · rintro (rfl | ⟨f, hf, h⟩)
    · exact .root
    · induction h with
      | root => exact .field .root hf
      | field h hv ih => exact .field ih hv

theorem within_other {b v : AnyVal} (hb : ∀ c fs, b ≠ .map c fs) : Within b v ↔ v = b := by
  constructor
  · intro h
    induction h with
    | root => rfl
    | field h hv ih => exact absurd ih.symm (hb _ _)
  · rintro rfl; exact .root

/-- The examples reported are those of the values within. -/
theorem mem_valueExamples (b : AnyVal) (e : Err) : e ∈ valueExamples b ↔ ∃ v, Within b v ∧ e ∈ ownExamples v := by
  refine AnyVal.rec (motive_1 := fun b => e ∈ valueExamples b ↔ ∃ v, Within b v ∧ e ∈ ownExamples v)
    (motive_2 := fun l => e ∈ valueExamplesL l ↔ ∃ f ∈ l, ∃ v, Within f v ∧ e ∈ ownExamples v)
    ?_ ?_ ?_ ?_ ?_ ?_ ?_ ?_ b
  · intro t c; simp [valueExamples, within_other (b := .leaf t c) (by simp)]
  · intro c fields ih
    simp only [valueExamples, List.mem_append, ih, within_map]
    constructor
    · rintro (h | ⟨f, hf, v, h1, h2⟩)
      · exact ⟨_, .inl rfl, h⟩
      · exact ⟨v, .inr ⟨f, hf, h1⟩, h2⟩
    · rintro ⟨v, rfl | ⟨f, hf, h1⟩, h2⟩
      · exact .inl h2
      · exact .inr ⟨f, hf, v, h1, h2⟩
  · intro c fields _; simp [valueExamples, within_other (b := .maps c fields) (by simp)]
  · intro c; simp [valueExamples, within_other (b := .bytes c) (by simp)]
  · intro c; simp [valueExamples, within_other (b := .undefined c) (by simp)]
  · intro c ms; simp [valueExamples, within_other (b := .enum c ms) (by simp)]
  · simp [valueExamplesL]
  · intro v l h1 h2
    simp only [valueExamplesL, List.mem_append, h1, h2, List.mem_cons, exists_eq_or_imp]

/-- What is reported about the stability of one value. -/
def OwnStability (v : AnyVal) (e : Err) : Prop :=
  (v.common.stability = none ∧ e = .valueNoStability v.common.id) ∨
  ∃ c ms m, v = .enum c ms ∧ m ∈ ms ∧ m.stability = none ∧ e = .valueMemberNoStability c.id m.id

theorem mem_valueMembers (id : String) (ms : List Member) (e : Err) : e ∈ valueMembers id ms ↔
    ∃ m ∈ ms, m.stability = none ∧ e = .valueMemberNoStability id m.id := by
  simp [valueMembers, List.mem_flatMap, mem_when]

theorem mem_valueStability (b : AnyVal) (e : Err) : e ∈ valueStability b ↔ ∃ v, Within b v ∧ OwnStability v e := by
  refine AnyVal.rec (motive_1 := fun b => e ∈ valueStability b ↔ ∃ v, Within b v ∧ OwnStability v e)
    (motive_2 := fun l => e ∈ valueStabilityL l ↔ ∃ f ∈ l, ∃ v, Within f v ∧ OwnStability v e)
    ?_ ?_ ?_ ?_ ?_ ?_ ?_ ?_ b
  · intro t c; simp [valueStability, within_other (b := .leaf t c) (by simp), OwnStability, ownStability, mem_when, AnyVal.common]
  · intro c fields ih
    have h0 : e ∈ ownStability c ↔ OwnStability (.map c fields) e := by
      simp [OwnStability, ownStability, mem_when, AnyVal.common]
    simp only [valueStability, List.mem_append, ih, within_map, h0]
    constructor
    · rintro (h | ⟨f, hf, v, h1, h2⟩)
      · exact ⟨_, .inl rfl, h⟩
      · exact ⟨v, .inr ⟨f, hf, h1⟩, h2⟩
    · rintro ⟨v, rfl | ⟨f, hf, h1⟩, h2⟩
      · exact .inl h2
      · exact .inr ⟨f, hf, v, h1, h2⟩
  · intro c fields _
    simp [valueStability, within_other (b := .maps c fields) (by simp), OwnStability, ownStability, mem_when, AnyVal.common]
  · intro c; simp [valueStability, within_other (b := .bytes c) (by simp), OwnStability, ownStability, mem_when, AnyVal.common]
  · intro c; simp [valueStability, within_other (b := .undefined c) (by simp), OwnStability, ownStability, mem_when, AnyVal.common]
  · intro c ms
    simp only [valueStability, within_other (b := .enum c ms) (by simp), List.mem_append, mem_valueMembers, exists_eq_left,
      OwnStability, ownStability, mem_when, AnyVal.common]
    constructor
    · rintro (h | ⟨m, h1, h2, h3⟩)
      · exact .inl h
      · exact .inr ⟨c, ms, m, rfl, h1, h2, h3⟩
    · rintro (h | ⟨c', ms', m, e', h1, h2, h3⟩)
      · exact .inl h
      · cases e'; exact .inr ⟨m, h1, h2, h3⟩
  · simp [valueStabilityL]
  · intro v l h1 h2
    simp only [valueStabilityL, List.mem_append, h1, h2, List.mem_cons, exists_eq_or_imp]

/-- The fault reported for an association is its first one. -/
theorem assocFault_eq (a : Assoc String) : assocFault ws a = (faults ws a).head? := by
  refine Assoc.rec (motive_1 := fun a => assocFault ws a = (faults ws a).head?)
    (motive_2 := fun l => assocFaultL ws l = (faultsL ws l).head?) ?_ ?_ ?_ ?_ ?_ a
  · intro n
    simp only [assocFault, faults, List.all_eq_true]
    split <;> rfl
  · intro l ih
    cases l with
    | nil => simp [assocFault, faults]
    | cons x l => simpa [assocFault, faults] using ih
  · intro l ih
    cases l with
    | nil => simp [assocFault, faults]
    | cons x l => simpa [assocFault, faults] using ih
  · rfl
  · intro x l h1 h2
    simp only [assocFaultL, faultsL, List.head?_append, h1, h2]
    cases (faults ws x).head? <;> rfl

theorem mem_memberErrs (id : String) (m : Member) (e : Err) : e ∈ memberErrs id m ↔
    (m.stability = none ∧ e = .memberNoStability id m.id) ∨
    (m.stability = some .deprecated ∧ e = .memberDeprecatedStability id m.id) ∨
    (PlainNote m.deprecated ∧ e = .memberNote id m.id) := by
  unfold memberErrs
  rw [List.mem_append, mem_when, isNote_iff, ← or_assoc]
  refine or_congr ?_ Iff.rfl
  by_cases h : m.stability = none
  · rw [if_pos h]; simp [h]
  · rw [if_neg h, mem_when]; simp [h]

theorem mem_exampleErrs (a : AttrDef) (e : Err) : e ∈ exampleErrs a ↔
    (∃ ex, a.examples = some ex ∧ Values.validate ex a.typ.plain = .error ∧ e = .badExamples a.id) ∨
    (∃ ex, a.examples = some ex ∧ Values.validate ex a.typ.plain = .warning ∧ e = .oddExamples a.id) ∨
    (a.examples = none ∧ (a.typ = .prim .string ∨ a.typ = .prim .strings) ∧ e = .noExamples a.id) := by
  unfold exampleErrs
  cases h : a.examples with
  | none =>
    simp only [List.mem_append, mem_when, reduceCtorEq, false_and, exists_false, false_or, true_and]
    constructor
    · rintro (⟨h, rfl⟩ | ⟨h, rfl⟩)
      · exact ⟨.inl h, rfl⟩
      · exact ⟨.inr h, rfl⟩
    · rintro ⟨h | h, rfl⟩
      · exact .inl ⟨h, rfl⟩
      · exact .inr ⟨h, rfl⟩
  | some ex =>
    cases hv : Values.validate ex a.typ.plain <;> simp [hv]

theorem mem_attrErrs (s : AttrSpec) (e : Err) : e ∈ attrErrs s ↔ ∃ a, s = .defn a ∧
    ((a.brief = none ∧ a.deprecated = none ∧ e = .attrNoBrief a.id) ∨
     (a.stability = none ∧ e = .attrNoStability a.id) ∨
     (a.stability = some .deprecated ∧ e = .attrDeprecatedStability a.id) ∨
     (∃ ms m, a.typ = .enum ms ∧ m ∈ ms ∧ e ∈ memberErrs a.id m) ∨
     (PlainNote a.deprecated ∧ e = .attrNote a.id) ∨ e ∈ exampleErrs a) := by
  cases s with
  | ref r => simp [attrErrs]
  | defn a =>
    simp only [attrErrs, List.mem_append, mem_when, isNote_iff, AttrSpec.defn.injEq, exists_eq_left', or_assoc, and_assoc]
    have hs : (e ∈ if a.stability = none then [Err.attrNoStability a.id]
        else when (a.stability = some .deprecated) (.attrDeprecatedStability a.id)) ↔
        (a.stability = none ∧ e = .attrNoStability a.id) ∨
        (a.stability = some .deprecated ∧ e = .attrDeprecatedStability a.id) := by
      by_cases h : a.stability = none
      · rw [if_pos h]; simp [h]
      · rw [if_neg h, mem_when]; simp [h]
    have hm : (e ∈ match a.typ with | .enum ms => ms.flatMap (memberErrs a.id) | _ => []) ↔
        ∃ ms m, a.typ = .enum ms ∧ m ∈ ms ∧ e ∈ memberErrs a.id m := by
      cases a.typ with
      | enum ms =>
        simp only [List.mem_flatMap, AttrType.enum.injEq]
        constructor
        · rintro ⟨m, h1, h2⟩; exact ⟨ms, m, rfl, h1, h2⟩
        · rintro ⟨_, m, rfl, h1, h2⟩; exact ⟨m, h1, h2⟩
      | _ => simp
    rw [hs, or_assoc]
    exact or_congr Iff.rfl (or_congr Iff.rfl (or_congr Iff.rfl (or_congr hm Iff.rfl)))

theorem mem_bodyErrs (g : Group) (e : Err) : e ∈ bodyErrs g ↔
    (g.typ = .event ∧ (∃ v, g.body = some v) ∧ g.name = none ∧ e = .bodyWithoutName) ∨
    (g.typ = .event ∧ g.body = none ∧ g.name = none ∧ g.pre = "" ∧ e = .eventWithoutName) ∨
    (g.typ = .event ∧ ∃ b, g.body = some b ∧ ∃ v, Within b v ∧ (OwnStability v e ∨ e ∈ ownExamples v)) ∨
    ((∃ v, g.body = some v) ∧ g.typ ≠ .event ∧ e = .bodyOnNonEvent) := by
  unfold bodyErrs
  by_cases ht : g.typ = .event
  · rw [if_pos ht]
    cases hb : g.body with
    | none => simp [mem_when, ht]; grind
    | some b =>
      simp only [List.mem_append, mem_when, mem_valueStability, mem_valueExamples, ht]
      grind
  · rw [if_neg ht, mem_when]
    cases hb : g.body <;> simp [ht]

theorem mem_assocErrs (g : Group) (e : Err) : e ∈ assocErrs ws g ↔
    (g.assocs ≠ [] ∧ g.typ ≠ .event ∧ g.typ ≠ .metric ∧ g.typ ≠ .span ∧ e = .assocOnWrongType) ∨
    ∃ a f, a ∈ g.assocs ∧ (faults ws a).head? = some f ∧ e = .badAssoc f := by
  unfold assocErrs
  have hf : (e ∈ g.assocs.flatMap fun a => match assocFault ws a with | some f => [Err.badAssoc f] | none => []) ↔
      ∃ a f, a ∈ g.assocs ∧ (faults ws a).head? = some f ∧ e = .badAssoc f := by
    simp only [List.mem_flatMap, assocFault_eq]
    constructor
    · rintro ⟨a, ha, h⟩
      cases hh : (faults ws a).head? with
      | none => rw [hh] at h; cases h
      | some f => rw [hh] at h; exact ⟨a, f, ha, hh, by simpa using h⟩
    · rintro ⟨a, f, ha, hh, rfl⟩; exact ⟨a, ha, by rw [hh]; simp⟩
  cases hl : g.assocs with
  | nil => simp
  | cons x l =>
    rw [← hl]
    rw [if_neg (by rw [hl]; simp), List.mem_append, mem_when]
    have : g.assocs ≠ [] := by rw [hl]; simp
    refine or_congr ?_ hf
    grind

theorem mem_spanErrs (g : Group) (e : Err) : (e ∈ if g.typ ≠ .span ∧ g.typ ≠ .undefined then
    when (g.spanKind.isSome = true) .spanKindOnNonSpan ++ when (g.events ≠ []) .eventsOnNonSpan else []) ↔
    (g.typ ≠ .span ∧ g.typ ≠ .undefined) ∧ (((∃ k, g.spanKind = some k) ∧ e = .spanKindOnNonSpan) ∨
      (g.events ≠ [] ∧ e = .eventsOnNonSpan)) := by
  by_cases h : g.typ ≠ .span ∧ g.typ ≠ .undefined
  · rw [if_pos h]; simp [h, mem_when, Option.isSome_iff_exists]
  · rw [if_neg h]; simp [h]

theorem mem_metricErrs (g : Group) (e : Err) : (e ∈ if g.typ = .metric then when (g.metricName = none) .noMetricName ++
    when (g.instrument = none) .noInstrument ++ when (g.unit = none) .noUnit else []) ↔
    g.typ = .metric ∧ ((g.metricName = none ∧ e = .noMetricName) ∨ (g.instrument = none ∧ e = .noInstrument) ∨
      (g.unit = none ∧ e = .noUnit)) := by
  by_cases h : g.typ = .metric
  · rw [if_pos h]; simp [h, mem_when, or_assoc]
  · rw [if_neg h]; simp [h]

theorem mem_validateGroup (g : Group) (e : Err) : e ∈ validateGroup ws g ↔
    e ∈ when (g.pre ≠ "") .usesPrefix ∨ e ∈ when (g.typ ≠ .attributeGroup ∧ g.stability = none) .noStability ∨
    e ∈ when (g.stability = some .deprecated) .deprecatedStability ∨ e ∈ duplicateRefs [] g.attributes ∨
    e ∈ when (g.typ ≠ .metric ∧ g.typ ≠ .event ∧ g.extend = none ∧ g.attributes = []) .noExtendsNorAttributes ∨
    (e ∈ if g.typ ≠ .span ∧ g.typ ≠ .undefined then
      when (g.spanKind.isSome = true) .spanKindOnNonSpan ++ when (g.events ≠ []) .eventsOnNonSpan else []) ∨
    e ∈ when (g.typ = .undefined) .noType ∨ e ∈ when (g.typ = .span ∧ g.spanKind = none) .noSpanKind ∨ e ∈ bodyErrs g ∨
    (e ∈ if g.typ = .metric then when (g.metricName = none) .noMetricName ++ when (g.instrument = none) .noInstrument ++
      when (g.unit = none) .noUnit else []) ∨ e ∈ when (isNote g.deprecated = true) .groupNote ∨
    e ∈ g.attributes.flatMap attrErrs ∨ e ∈ assocErrs ws g := by
  simp only [validateGroup, List.mem_append, or_assoc]

/-! ### The property -/

/-- A group is reported for exactly the rules it violates. -/
theorem validateGroup_iff (g : Group) (e : Err) : e ∈ validateGroup ws g ↔ Violates ws g e := by
  rw [mem_validateGroup]
  constructor
  · intro h
    rcases h with h | h | h | h | h | h | h | h | h | h | h | h | h
    · obtain ⟨h', rfl⟩ := (mem_when ..).1 h; exact .usesPrefix h'
    · obtain ⟨h', rfl⟩ := (mem_when ..).1 h; exact .noStability h'.2 h'.1
    · obtain ⟨h', rfl⟩ := (mem_when ..).1 h; exact .deprecatedStability h'
    · obtain ⟨r, rfl, h'⟩ := (mem_duplicateRefs ..).1 h; exact .duplicateRef r h'
    · obtain ⟨⟨h1, h2, h3, h4⟩, rfl⟩ := (mem_when ..).1 h; exact .noExtendsNorAttributes h3 h4 h1 h2
    · obtain ⟨⟨h1, h2⟩, ⟨⟨k, h3⟩, rfl⟩ | ⟨h3, rfl⟩⟩ := (mem_spanErrs ..).1 h
      · exact .spanKindOnNonSpan k h3 h1 h2
      · exact .eventsOnNonSpan h3 h1 h2
    · obtain ⟨h', rfl⟩ := (mem_when ..).1 h; exact .noType h'
    · obtain ⟨⟨h1, h2⟩, rfl⟩ := (mem_when ..).1 h; exact .noSpanKind h1 h2
    · rcases (mem_bodyErrs ..).1 h with ⟨h1, ⟨v, h2⟩, h3, rfl⟩ | ⟨h1, h2, h3, h4, rfl⟩ | ⟨ht, b, hb, v, hw, h | h⟩ | ⟨⟨v, h1⟩, h2, rfl⟩
      · exact .bodyWithoutName v h1 h2 h3
      · exact .eventWithoutName h1 h2 h3 h4
      · rcases h with ⟨h1, rfl⟩ | ⟨c, ms, m, rfl, h1, h2, rfl⟩
        · exact .valueNoStability b v ht hb hw h1
        · exact .valueMemberNoStability b c ms m ht hb hw h1 h2
      · rcases (mem_ownExamples ..).1 h with ⟨ex, h1, h2, rfl⟩ | ⟨h1, ⟨t, c, rfl, h2⟩, rfl⟩
        · exact .valueBadExamples b v ex ht hb hw h1 h2
        · exact .valueNoExamples b t c ht hb hw h1 h2
      · exact .bodyOnNonEvent v h1 h2
    · obtain ⟨h1, ⟨h2, rfl⟩ | ⟨h2, rfl⟩ | ⟨h2, rfl⟩⟩ := (mem_metricErrs ..).1 h
      · exact .noMetricName h1 h2
      · exact .noInstrument h1 h2
      · exact .noUnit h1 h2
    · obtain ⟨h', rfl⟩ := (mem_when ..).1 h; exact .groupNote ((isNote_iff _).1 h')
    · obtain ⟨s, hs, h⟩ := List.mem_flatMap.1 h
      obtain ⟨a, rfl, h'⟩ := (mem_attrErrs ..).1 h
      simp only [mem_memberErrs, mem_exampleErrs] at h'
      rcases h' with ⟨h1, h2, rfl⟩ | ⟨h1, rfl⟩ | ⟨h1, rfl⟩ | ⟨ms, m, h1, h2, ⟨h3, rfl⟩ | ⟨h3, rfl⟩ | ⟨h3, rfl⟩⟩ | ⟨h1, rfl⟩ |
        ⟨ex, h1, h2, rfl⟩ | ⟨ex, h1, h2, rfl⟩ | ⟨h1, h2, rfl⟩
      · exact .attrNoBrief a hs h1 h2
      · exact .attrNoStability a hs h1
      · exact .attrDeprecatedStability a hs h1
      · exact .memberNoStability a ms m hs h1 h2 h3
      · exact .memberDeprecatedStability a ms m hs h1 h2 h3
      · exact .memberNote a ms m hs h1 h2 h3
      · exact .attrNote a hs h1
      · exact .badExamples a ex hs h1 h2
      · exact .oddExamples a ex hs h1 h2
      · exact .noExamples a hs h1 h2
    · rcases (mem_assocErrs ..).1 h with ⟨h1, h2, h3, h4, rfl⟩ | ⟨a, f, h1, h2, rfl⟩
      · exact .assocOnWrongType h1 h2 h3 h4
      · exact .badAssoc a f h1 h2
  · intro h
    cases h with
    | usesPrefix h =>
      exact .inl ((mem_when ..).2 ⟨h, rfl⟩)
    | noStability h1 h2 =>
      exact .inr (.inl ((mem_when ..).2 ⟨⟨h2, h1⟩, rfl⟩))
    | deprecatedStability h =>
      exact .inr (.inr (.inl ((mem_when ..).2 ⟨h, rfl⟩)))
    | duplicateRef r h =>
      exact .inr (.inr (.inr (.inl ((mem_duplicateRefs ..).2 ⟨r, rfl, h⟩))))
    | noExtendsNorAttributes h1 h2 h3 h4 =>
      exact .inr (.inr (.inr (.inr (.inl ((mem_when ..).2 ⟨⟨h3, h4, h1, h2⟩, rfl⟩)))))
    | spanKindOnNonSpan k h1 h2 h3 =>
      exact .inr (.inr (.inr (.inr (.inr (.inl ((mem_spanErrs ..).2 ⟨⟨h2, h3⟩, .inl ⟨⟨k, h1⟩, rfl⟩⟩))))))
    | eventsOnNonSpan h1 h2 h3 =>
      exact .inr (.inr (.inr (.inr (.inr (.inl ((mem_spanErrs ..).2 ⟨⟨h2, h3⟩, .inr ⟨h1, rfl⟩⟩))))))
    | noType h =>
      exact .inr (.inr (.inr (.inr (.inr (.inr (.inl ((mem_when ..).2 ⟨h, rfl⟩)))))))
    | noSpanKind h1 h2 =>
      exact .inr (.inr (.inr (.inr (.inr (.inr (.inr (.inl ((mem_when ..).2 ⟨⟨h1, h2⟩, rfl⟩))))))))
    | bodyWithoutName v h1 h2 h3 =>
      exact .inr (.inr (.inr (.inr (.inr (.inr (.inr (.inr (.inl ((mem_bodyErrs ..).2 (.inl ⟨h1, ⟨v, h2⟩, h3, rfl⟩))))))))))
    | eventWithoutName h1 h2 h3 h4 =>
      exact .inr (.inr (.inr (.inr (.inr (.inr (.inr (.inr (.inl ((mem_bodyErrs ..).2 (.inr (.inl ⟨h1, h2, h3, h4, rfl⟩)))))))))))
    | bodyOnNonEvent v h1 h2 =>
      exact .inr (.inr (.inr (.inr (.inr (.inr (.inr (.inr (.inl ((mem_bodyErrs ..).2 (.inr (.inr (.inr ⟨⟨v, h1⟩, h2, rfl⟩))))))))))))
    | noMetricName h1 h2 =>
      exact .inr (.inr (.inr (.inr (.inr (.inr (.inr (.inr (.inr (.inl ((mem_metricErrs ..).2 ⟨h1, .inl ⟨h2, rfl⟩⟩))))))))))
    | noInstrument h1 h2 =>
      exact .inr (.inr (.inr (.inr (.inr (.inr (.inr (.inr (.inr (.inl ((mem_metricErrs ..).2 ⟨h1, .inr (.inl ⟨h2, rfl⟩)⟩))))))))))
    | noUnit h1 h2 =>
      exact .inr (.inr (.inr (.inr (.inr (.inr (.inr (.inr (.inr (.inl ((mem_metricErrs ..).2 ⟨h1, .inr (.inr ⟨h2, rfl⟩)⟩))))))))))
    | groupNote h =>
      exact .inr (.inr (.inr (.inr (.inr (.inr (.inr (.inr (.inr (.inr (.inl ((mem_when ..).2 ⟨(isNote_iff _).2 h, rfl⟩)))))))))))
    | attrNoBrief a h h1 h2 =>
      exact .inr (.inr (.inr (.inr (.inr (.inr (.inr (.inr (.inr (.inr (.inr (.inl (List.mem_flatMap.2 ⟨_, h, (mem_attrErrs ..).2 ⟨a, rfl, .inl ⟨h1, h2, rfl⟩⟩⟩))))))))))))
    | attrNoStability a h h1 =>
      exact .inr (.inr (.inr (.inr (.inr (.inr (.inr (.inr (.inr (.inr (.inr (.inl (List.mem_flatMap.2 ⟨_, h, (mem_attrErrs ..).2 ⟨a, rfl, .inr (.inl ⟨h1, rfl⟩)⟩⟩))))))))))))
    | attrDeprecatedStability a h h1 =>
      exact .inr (.inr (.inr (.inr (.inr (.inr (.inr (.inr (.inr (.inr (.inr (.inl (List.mem_flatMap.2 ⟨_, h, (mem_attrErrs ..).2 ⟨a, rfl, .inr (.inr (.inl ⟨h1, rfl⟩))⟩⟩))))))))))))
    | memberNoStability a ms m h h1 h2 h3 =>
      exact .inr (.inr (.inr (.inr (.inr (.inr (.inr (.inr (.inr (.inr (.inr (.inl (List.mem_flatMap.2 ⟨_, h, (mem_attrErrs ..).2 ⟨a, rfl, .inr (.inr (.inr (.inl ⟨ms, m, h1, h2, (mem_memberErrs ..).2 (.inl ⟨h3, rfl⟩)⟩)))⟩⟩))))))))))))
    | memberDeprecatedStability a ms m h h1 h2 h3 =>
      exact .inr (.inr (.inr (.inr (.inr (.inr (.inr (.inr (.inr (.inr (.inr (.inl (List.mem_flatMap.2 ⟨_, h, (mem_attrErrs ..).2 ⟨a, rfl, .inr (.inr (.inr (.inl ⟨ms, m, h1, h2, (mem_memberErrs ..).2 (.inr (.inl ⟨h3, rfl⟩))⟩)))⟩⟩))))))))))))
    | memberNote a ms m h h1 h2 h3 =>
      exact .inr (.inr (.inr (.inr (.inr (.inr (.inr (.inr (.inr (.inr (.inr (.inl (List.mem_flatMap.2 ⟨_, h, (mem_attrErrs ..).2 ⟨a, rfl, .inr (.inr (.inr (.inl ⟨ms, m, h1, h2, (mem_memberErrs ..).2 (.inr (.inr ⟨h3, rfl⟩))⟩)))⟩⟩))))))))))))
    | attrNote a h h1 =>
      exact .inr (.inr (.inr (.inr (.inr (.inr (.inr (.inr (.inr (.inr (.inr (.inl (List.mem_flatMap.2 ⟨_, h, (mem_attrErrs ..).2 ⟨a, rfl, .inr (.inr (.inr (.inr (.inl ⟨h1, rfl⟩))))⟩⟩))))))))))))
    | badExamples a ex h h1 h2 =>
      exact .inr (.inr (.inr (.inr (.inr (.inr (.inr (.inr (.inr (.inr (.inr (.inl (List.mem_flatMap.2 ⟨_, h, (mem_attrErrs ..).2 ⟨a, rfl, .inr (.inr (.inr (.inr (.inr ((mem_exampleErrs ..).2 (.inl ⟨ex, h1, h2, rfl⟩))))))⟩⟩))))))))))))
    | oddExamples a ex h h1 h2 =>
      exact .inr (.inr (.inr (.inr (.inr (.inr (.inr (.inr (.inr (.inr (.inr (.inl (List.mem_flatMap.2 ⟨_, h, (mem_attrErrs ..).2 ⟨a, rfl, .inr (.inr (.inr (.inr (.inr ((mem_exampleErrs ..).2 (.inr (.inl ⟨ex, h1, h2, rfl⟩)))))))⟩⟩))))))))))))
    | noExamples a h h1 h2 =>
      exact .inr (.inr (.inr (.inr (.inr (.inr (.inr (.inr (.inr (.inr (.inr (.inl (List.mem_flatMap.2 ⟨_, h, (mem_attrErrs ..).2 ⟨a, rfl, .inr (.inr (.inr (.inr (.inr ((mem_exampleErrs ..).2 (.inr (.inr ⟨h1, h2, rfl⟩)))))))⟩⟩))))))))))))
    | assocOnWrongType h1 h2 h3 h4 =>
      exact .inr (.inr (.inr (.inr (.inr (.inr (.inr (.inr (.inr (.inr (.inr (.inr ((mem_assocErrs ..).2 (.inl ⟨h1, h2, h3, h4, rfl⟩)))))))))))))
    | badAssoc a f h1 h2 =>
      exact .inr (.inr (.inr (.inr (.inr (.inr (.inr (.inr (.inr (.inr (.inr (.inr ((mem_assocErrs ..).2 (.inr ⟨a, f, h1, h2, rfl⟩)))))))))))))
    | valueNoStability b v h1 h2 h3 h4 =>
      exact .inr (.inr (.inr (.inr (.inr (.inr (.inr (.inr (.inl ((mem_bodyErrs ..).2 (.inr (.inr (.inl ⟨h1, b, h2, v, h3, .inl (.inl ⟨h4, rfl⟩)⟩))))))))))))
    | valueMemberNoStability b c ms m h1 h2 h3 h4 h5 =>
      exact .inr (.inr (.inr (.inr (.inr (.inr (.inr (.inr (.inl ((mem_bodyErrs ..).2 (.inr (.inr (.inl ⟨h1, b, h2, _, h3, .inl (.inr ⟨c, ms, m, rfl, h4, h5, rfl⟩)⟩))))))))))))
    | valueBadExamples b v ex h1 h2 h3 h4 h5 =>
      exact .inr (.inr (.inr (.inr (.inr (.inr (.inr (.inr (.inl ((mem_bodyErrs ..).2 (.inr (.inr (.inl ⟨h1, b, h2, v, h3, .inr ((mem_ownExamples ..).2 (.inl ⟨ex, h4, h5, rfl⟩))⟩))))))))))))
    | valueNoExamples b t c h1 h2 h3 h4 h5 =>
      exact .inr (.inr (.inr (.inr (.inr (.inr (.inr (.inr (.inl ((mem_bodyErrs ..).2 (.inr (.inr (.inl ⟨h1, b, h2, _, h3, .inr ((mem_ownExamples ..).2 (.inr ⟨h4, ⟨t, c, rfl, h5⟩, rfl⟩))⟩))))))))))))

/-- A reference to an attribute is reported once for every repetition of it. -/
theorem duplicates_counted (g : Group) (r : String) :
    (validateGroup ws g).count (.duplicateRef r) = g.attributes.count (.ref r) - 1 := by
  have hz : ∀ l : List Err, (∀ e ∈ l, ∀ r, e ≠ .duplicateRef r) → l.count (.duplicateRef r) = 0 := fun l h =>
    List.count_eq_zero.2 fun hm => h _ hm r rfl
  have hw : ∀ (c : Prop) [Decidable c] (x : Err), x ≠ .duplicateRef r → (when c x).count (.duplicateRef r) = 0 := by
    intro c _ x hx
    refine List.count_eq_zero.2 fun hm => hx ?_
    exact (((mem_when c x _).1 hm).2).symm
  unfold validateGroup
  simp only [List.count_append]
  rw [hw _ _ (by simp), hw _ _ (by simp), hw _ _ (by simp), duplicateRefs_count, hw _ _ (by simp), hw _ _ (by simp),
    hw _ _ (by simp), hw _ _ (by simp)]
  rw [hz _ (fun e he r' h => by rw [mem_spanErrs] at he; grind), hz (bodyErrs g), hz _ (fun e he r' h => by
    rw [mem_metricErrs] at he; grind), hz (g.attributes.flatMap attrErrs), hz (assocErrs ws g)]
  · simp
  · rintro e he r' rfl
    rcases (mem_assocErrs ..).1 he with h | ⟨_, _, _, _, h⟩
    · simp at h
    · simp at h
  · rintro e he r' rfl
    obtain ⟨s, _, h⟩ := List.mem_flatMap.1 he
    obtain ⟨a, _, h⟩ := (mem_attrErrs ..).1 h
    simp [mem_memberErrs, mem_exampleErrs] at h
  · rintro e he r' rfl
    rw [mem_bodyErrs] at he
    simp [OwnStability, mem_ownExamples] at he

/-! ### Accepted groups -/

/-- The groups without an error: what a registry must respect even if warnings are ignored. -/
structure Acceptable (g : Group) : Prop where
  spanOnly : g.typ ≠ .span → g.typ ≠ .undefined → g.spanKind = none ∧ g.events = []
  event : g.typ = .event → (∃ n, g.name = some n) ∨ (g.body = none ∧ g.pre ≠ "")
  body : (∃ b, g.body = some b) → g.typ = .event
  metric : g.typ = .metric → (∃ n, g.metricName = some n) ∧ (∃ i, g.instrument = some i) ∧ ∃ u, g.unit = some u
  attributes : ∀ a, .defn a ∈ g.attributes → ((∃ b, a.brief = some b) ∨ ∃ d, a.deprecated = some d) ∧
    ∀ ex, a.examples = some ex → Values.validate ex a.typ.plain ≠ .error
  assocs : g.assocs ≠ [] → (g.typ = .event ∨ g.typ = .metric ∨ g.typ = .span) ∧ ∀ a ∈ g.assocs, faults ws a = []
  values : ∀ b v, g.body = some b → Within b v →
    (∀ ex, v.common.examples = some ex → GoodExamples ex v) ∧
    ∀ t c, v = .leaf t c → t = .string ∨ t = .strings → ∃ ex, c.examples = some ex

/-- A group is free of errors, warnings aside, exactly if it is acceptable. -/
theorem acceptable_iff (g : Group) : (∀ e ∈ validateGroup ws g, e.isError = false) ↔ Acceptable ws g := by
  have hsome : ∀ {α : Type} (o : Option α), (o = none → False) → ∃ x, o = some x := by
    intro α o h; cases o with
    | none => exact (h rfl).elim
    | some x => exact ⟨x, rfl⟩
  constructor
  · intro H
    have N : ∀ e, Violates ws g e → e.isError = true → False := fun e h he => by
      have := H e ((validateGroup_iff ws g e).2 h)
      rw [he] at this; cases this
    refine ⟨fun h1 h2 => ⟨?_, ?_⟩, fun h => ?_, fun ⟨b, h⟩ => ?_, fun h => ⟨?_, ?_, ?_⟩, fun a ha => ⟨?_, fun ex he h => ?_⟩,
      fun ha => ⟨?_, fun a h => ?_⟩, fun b v hb hw => ⟨fun ex he => ?_, fun t c hv ht => ?_⟩⟩
    · cases h : g.spanKind with
      | none => rfl
      | some k => exact (N _ (.spanKindOnNonSpan k h h1 h2) rfl).elim
    · by_cases h : g.events = []
      · exact h
      · exact (N _ (.eventsOnNonSpan h h1 h2) rfl).elim
    · cases hn : g.name with
      | some n => exact .inl ⟨n, rfl⟩
      | none =>
        cases hb : g.body with
        | some v => exact (N _ (.bodyWithoutName v h hb hn) rfl).elim
        | none => exact .inr ⟨rfl, fun hp => N _ (.eventWithoutName h hb hn hp) rfl⟩
    · exact Decidable.byContradiction fun ht => N _ (.bodyOnNonEvent b h ht) rfl
    · exact hsome _ fun h' => N _ (.noMetricName h h') rfl
    · exact hsome _ fun h' => N _ (.noInstrument h h') rfl
    · exact hsome _ fun h' => N _ (.noUnit h h') rfl
    · cases hb : a.brief with
      | some b => exact .inl ⟨b, rfl⟩
      | none => exact .inr (hsome _ fun h' => N _ (.attrNoBrief a ha hb h') rfl)
    · exact N _ (.badExamples a ex ha he h) rfl
    · by_cases h1 : g.typ = .event
      · exact .inl h1
      by_cases h2 : g.typ = .metric
      · exact .inr (.inl h2)
      by_cases h3 : g.typ = .span
      · exact .inr (.inr h3)
      · exact (N _ (.assocOnWrongType ha h1 h2 h3) rfl).elim
    · cases hf : faults ws a with
      | nil => rfl
      | cons f l => exact (N _ (.badAssoc a f h (by rw [hf]; rfl)) rfl).elim
    · have ht : g.typ = .event := Decidable.byContradiction fun ht => N _ (.bodyOnNonEvent b hb ht) rfl
      rw [← valueExamplesOk_iff]
      cases h : valueExamplesOk ex v with
      | true => rfl
      | false =>
        refine (N _ (.valueBadExamples b v ex ht hb hw he ?_) rfl).elim
        rw [← valueExamplesOk_iff, h]; simp
    · have ht' : g.typ = .event := Decidable.byContradiction fun ht => N _ (.bodyOnNonEvent b hb ht) rfl
      subst hv
      exact hsome _ fun h' => N _ (.valueNoExamples b t c ht' hb hw h' ht) rfl
  · intro A e he
    cases (validateGroup_iff ws g e).1 he with
    | spanKindOnNonSpan k h1 h2 h3 => have := (A.spanOnly h2 h3).1; rw [h1] at this; cases this
    | eventsOnNonSpan h1 h2 h3 => exact absurd (A.spanOnly h2 h3).2 h1
    | bodyWithoutName v h1 h2 h3 =>
      rcases A.event h1 with ⟨n, h⟩ | ⟨h, _⟩
      · rw [h3] at h; cases h
      · rw [h2] at h; cases h
    | eventWithoutName h1 h2 h3 h4 =>
      rcases A.event h1 with ⟨n, h⟩ | ⟨_, h⟩
      · rw [h3] at h; cases h
      · exact absurd h4 h
    | bodyOnNonEvent v h1 h2 => exact absurd (A.body ⟨v, h1⟩) h2
    | noMetricName h1 h2 => obtain ⟨⟨n, h⟩, _⟩ := A.metric h1; rw [h2] at h; cases h
    | noInstrument h1 h2 => obtain ⟨_, ⟨n, h⟩, _⟩ := A.metric h1; rw [h2] at h; cases h
    | noUnit h1 h2 => obtain ⟨_, _, n, h⟩ := A.metric h1; rw [h2] at h; cases h
    | attrNoBrief a h h1 h2 =>
      rcases (A.attributes a h).1 with ⟨b, h'⟩ | ⟨d, h'⟩
      · rw [h1] at h'; cases h'
      · rw [h2] at h'; cases h'
    | badExamples a ex h h1 h2 => exact absurd h2 ((A.attributes a h).2 ex h1)
    | assocOnWrongType h1 h2 h3 h4 => rcases (A.assocs h1).1 with h | h | h <;> contradiction
    | badAssoc a f h1 h2 =>
      have := (A.assocs (List.ne_nil_of_mem h1)).2 a h1
      rw [this] at h2; cases h2
    | valueBadExamples b v ex h1 h2 h3 h4 h5 => exact absurd ((A.values b v h2 h3).1 ex h4) h5
    | valueNoExamples b t c h1 h2 h3 h4 h5 =>
      obtain ⟨ex, h⟩ := (A.values b _ h2 h3).2 t c rfl h5
      rw [h4] at h; cases h
    | _ => rfl

/-- The white space of the examples. -/
def blank (c : Char) : Bool := c == ' '

/-- A group that breaks many rules at once. -/
def messy : Group :=
  { typ := .event, pre := "p", attributes := [.ref "a", .defn { id := "b", typ := .enum [{ id := "m" }] }, .ref "a", .ref "a"],
    body := some (.map { id := "body", stability := some .stable } [.leaf .string { id := "f" }]),
    assocs := [.oneOf [.ref "x", .allOf []], .ref " "] }

example : validateGroup blank messy = [.usesPrefix, .noStability, .duplicateRef "a", .duplicateRef "a", .bodyWithoutName,
    .valueNoStability "f", .valueNoExamples "f", .attrNoBrief "b", .attrNoStability "b", .memberNoStability "b" "m",
    .badAssoc .emptyAllOf, .badAssoc .emptyRef] := by decide

/-- A clean metric. -/
def clean : Group :=
  { typ := .metric, stability := some .stable, metricName := some "m", instrument := some "counter", unit := some "1",
    attributes := [.ref "a", .ref "b"], assocs := [.allOf [.ref "host", .ref "service"]] }

example : validateGroup blank clean = [] ∧ Acceptable blank clean :=
  ⟨by decide, (acceptable_iff blank clean).1 (by decide)⟩

/-! ### Arrays of maps -/

/-- A value anywhere inside a body, including the fields of arrays of maps. -/
inductive Inside (root : AnyVal) : AnyVal → Prop
  | root : Inside root root
  | map {c fields v} : Inside root (.map c fields) → v ∈ fields → Inside root v
  | maps {c fields v} : Inside root (.maps c fields) → v ∈ fields → Inside root v

/-- The stability of every value of a body that has no arrays of maps is checked. -/
theorem values_checked_partial (g : Group) (b v : AnyVal) (ht : g.typ = .event) (hb : g.body = some b)
    (hn : ∀ c fs, ¬ Inside b (.maps c fs)) (hv : Inside b v) (hs : v.common.stability = none) :
    .valueNoStability v.common.id ∈ validateGroup ws g := by
  refine (validateGroup_iff ws g _).2 (.valueNoStability b v ht hb ?_ hs)
  clear hs
  induction hv with
  | root => exact .root
  | map h hm ih => exact .field ih hm
  | maps h hm => exact absurd h (hn _ _)

/-- Fields of arrays of maps are not checked at all: an event whose body holds a string without stability and examples is
clean. -/
theorem values_checked_refuted : ∃ (g : Group) (b v : AnyVal), g.typ = .event ∧ g.body = some b ∧ Inside b v ∧
    v.common.stability = none ∧ v.common.examples = none ∧ v.common.id = "f" ∧ validateGroup blank g = [] := by
  refine ⟨{ typ := .event, stability := some .stable, name := some "e", body := some (.maps { id := "body", stability := some .stable } [.leaf .string { id := "f" }]) },
    _, .leaf .string { id := "f" }, rfl, rfl, .maps .root (by simp), rfl, rfl, rfl, by decide⟩

example : Inside (.map { id := "b" } [.leaf .string { id := "f" }]) (.leaf .string { id := "f" }) := .map .root (by simp)

/-! ### Format 2 -/

/-- The files of format 2 that are accepted: every entity has identifying attributes, and no entity or refinement lists
an attribute as identifying and as descriptive. -/
def AcceptableV2 (s : SpecV2) : Prop :=
  (∀ e ∈ s.entities, e.identity ≠ []) ∧
  ∀ e, e ∈ s.entities ∨ e ∈ s.refinements → ∀ a ∈ e.identity, a ∉ e.description

theorem mem_overlaps (e : Entity) (x : ErrV2) :
    x ∈ overlaps e ↔ ∃ a ∈ e.identity, a ∈ e.description ∧ x = .inBoth e.id a := by
  simp only [overlaps, List.mem_flatMap]
  constructor
  · rintro ⟨a, ha, h⟩
    split at h
    · rename_i h'
      obtain ⟨i, hi, e'⟩ := List.any_eq_true.1 h'
      have : i = a := by simpa using e'
      subst this
      exact ⟨i, hi, ha, by simpa using h⟩
    · cases h
  · rintro ⟨a, h1, h2, rfl⟩
    exact ⟨a, h2, by rw [if_pos (List.any_eq_true.2 ⟨a, h1, by simp⟩)]; simp⟩

theorem mem_fatalV2 (s : SpecV2) (x : ErrV2) : x ∈ fatalV2 s ↔
    (∃ e ∈ s.entities, e.identity = [] ∧ x = .noIdentity e.id) ∨
    ∃ e, (e ∈ s.entities ∨ e ∈ s.refinements) ∧ ∃ a ∈ e.identity, a ∈ e.description ∧ x = .inBoth e.id a := by
  have h1 : ∀ e : Entity, (x ∈ if e.identity.isEmpty then [ErrV2.noIdentity e.id] else []) ↔ e.identity = [] ∧ x = .noIdentity e.id := by
    intro e
    cases h : e.identity <;> simp
  simp only [fatalV2, List.mem_append, List.mem_flatMap, mem_overlaps, h1]
  grind

/-- A file of format 2 is accepted exactly if its entities are acceptable. -/
theorem acceptableV2_iff (s : SpecV2) : (∃ w, validateV2 s = .ok w) ↔ AcceptableV2 s := by
  have : AcceptableV2 s ↔ fatalV2 s = [] := by
    rw [List.eq_nil_iff_forall_not_mem]
    simp only [mem_fatalV2]
    constructor
    · rintro ⟨h1, h2⟩ x (⟨e, he, h, _⟩ | ⟨e, he, a, ha, hb, _⟩)
      · exact h1 e he h
      · exact h2 e he a ha hb
    · intro H
      exact ⟨fun e he h => H _ (.inl ⟨e, he, h, rfl⟩), fun e he a ha hb => H _ (.inr ⟨e, he, a, ha, hb, rfl⟩)⟩
  rw [this]
  unfold validateV2
  by_cases h : fatalV2 s = []
  · rw [if_pos h]; exact iff_of_true ⟨_, rfl⟩ h
  · rw [if_neg h]; exact iff_of_false (fun ⟨w, hw⟩ => nomatch hw) h

/-- The errors of a rejected file of format 2. -/
theorem rejectedV2 (s : SpecV2) (l : List ErrV2) (h : validateV2 s = .error l) (x : ErrV2) : x ∈ l ↔
    (∃ e ∈ s.entities, e.identity = [] ∧ x = .noIdentity e.id) ∨
    ∃ e, (e ∈ s.entities ∨ e ∈ s.refinements) ∧ ∃ a ∈ e.identity, a ∈ e.description ∧ x = .inBoth e.id a := by
  unfold validateV2 at h
  split at h
  · cases h
  · cases h; exact mem_fatalV2 s x

/-- The warnings of an accepted file of format 2: one for every signal without requirement level. -/
theorem warnedV2 (s : SpecV2) (l : List ErrV2) (h : validateV2 s = .ok l) (x : ErrV2) : x ∈ l ↔
    (∃ n, (n, false) ∈ s.metrics ∧ x = .noLevel ("metric." ++ n)) ∨
    (∃ n, (n, false) ∈ s.spans ∧ x = .noLevel ("span." ++ n)) ∨
    (∃ n, (n, false) ∈ s.events ∧ x = .noLevel ("event." ++ n)) ∨
    ∃ e ∈ s.entities, e.hasLevel = false ∧ x = .noLevel ("entity." ++ e.id) := by
  unfold validateV2 at h
  split at h
  · cases h
    have hp : ∀ (pre : String) (l : List (String × Bool)),
        (x ∈ l.flatMap fun m => if m.2 then [] else [ErrV2.noLevel (pre ++ m.1)]) ↔
        ∃ n, (n, false) ∈ l ∧ x = .noLevel (pre ++ n) := by
      intro pre l
      simp only [List.mem_flatMap]
      constructor
      · rintro ⟨⟨n, b⟩, hm, h⟩
        cases b
        · exact ⟨n, hm, by simpa using h⟩
        · simp at h
      · rintro ⟨n, hm, rfl⟩; exact ⟨_, hm, by simp⟩
    have he : (x ∈ s.entities.flatMap fun e => if e.hasLevel then [] else [ErrV2.noLevel ("entity." ++ e.id)]) ↔
        ∃ e ∈ s.entities, e.hasLevel = false ∧ x = .noLevel ("entity." ++ e.id) := by
      simp only [List.mem_flatMap]
      constructor
      · rintro ⟨e, hm, h⟩
        cases hl : e.hasLevel
        · exact ⟨e, hm, hl, by simpa [hl] using h⟩
        · simp [hl] at h
      · rintro ⟨e, hm, hl, rfl⟩; exact ⟨_, hm, by simp [hl]⟩
    unfold levelWarnings
    rw [List.mem_append, List.mem_append, List.mem_append, hp, hp, hp, he, or_assoc, or_assoc]
  · cases h

example : validateV2 { metrics := [("m", false)], entities := [{ id := "e", identity := ["a"], description := ["b"], hasLevel := true }] } =
    .ok [.noLevel "metric.m"] := rfl

/-- A file of format 2 with faulty entities. -/
def faulty : SpecV2 where
  entities := [{ id := "e", identity := ["a"], description := ["b", "a"] }, { id := "f" }]
  refinements := [{ id := "r", identity := ["x"], description := ["x"] }]

example : validateV2 faulty = .error [.inBoth "e" "a", .noIdentity "f", .inBoth "r" "x"] := rfl

/-! ### Reading a file -/

variable {D : Type} (readV1 : D → Option (List Group)) (readV2 : D → Option SpecV2)

/-- A file is of format 2: it says so in one of the two fields. -/
def SaysV2 (v f : Field) : Prop := f = .text "definition/2" ∨ v = .text "2"

/-- A file is of format 1: it says so in one of the two fields and neither says format 2, or neither field is a text. -/
def SaysV1 (v f : Field) : Prop := ¬ SaysV2 v f ∧
  (f = .text "definition/1" ∨ v = .text "1" ∨ ((∀ s, v ≠ .text s) ∧ ∀ s, f ≠ .text s))

theorem str_eq (f : Field) (s : String) : f.str = some s ↔ f = .text s := by cases f <;> simp [Field.str]

theorem str_none (f : Field) : f.str = none ↔ ∀ s, f ≠ .text s := by cases f <;> simp [Field.str]

theorem str_isSome (f : Field) : f.str.isSome = true ↔ ∃ s, f = .text s := by cases f <;> simp [Field.str]

theorem detect_v2 (v f : Field) : (detect v.str f.str).1 = .ok .v2 ↔ SaysV2 v f := by
  unfold detect SaysV2
  simp only [str_eq, str_none]
  by_cases h : f = .text "definition/2" ∨ v = .text "2"
  · rw [if_pos h]; exact iff_of_true rfl h
  · rw [if_neg h]
    refine iff_of_false ?_ h
    split
    · exact fun h => by cases Except.ok.inj h
    · split
      · exact fun h => by cases Except.ok.inj h
      · exact fun h => nomatch h

theorem detect_v1 (v f : Field) : ((detect v.str f.str).1 = .ok .v1 ∨ (detect v.str f.str).1 = .ok .unversioned) ↔
    SaysV1 v f := by
  unfold detect SaysV1
  simp only [str_eq]
  by_cases h : f = .text "definition/2" ∨ v = .text "2"
  · rw [if_pos h]
    refine iff_of_false ?_ (fun h' => h'.1 h)
    rintro (h | h) <;> cases Except.ok.inj h
  · rw [if_neg h]
    by_cases h1 : f = .text "definition/1" ∨ v = .text "1"
    · rw [if_pos h1]
      refine iff_of_true (.inl rfl) ⟨h, ?_⟩
      rcases h1 with h1 | h1
      · exact .inl h1
      · exact .inr (.inl h1)
    · rw [if_neg h1]
      by_cases h2 : f.str = none ∧ v.str = none
      · rw [if_pos h2]; rw [str_none, str_none] at h2; exact iff_of_true (.inr rfl) ⟨h, .inr (.inr ⟨h2.2, h2.1⟩)⟩
      · rw [if_neg h2]; rw [str_none, str_none] at h2
        refine iff_of_false ?_ ?_
        · rintro (h | h) <;> cases h
        · rintro ⟨_, h' | h' | h'⟩
          · exact h1 (.inl h')
          · exact h1 (.inr h')
          · exact h2 ⟨h'.2, h'.1⟩

theorem detect_warnings (v f : Field) : (detect v.str f.str).2 =
    (if v.str.isSome then [.deprecatedVersion] else []) ++
    (if f.str = some "definition/2" ∨ v.str = some "2" then [.unstableFormat] else []) := by
  unfold detect
  dsimp only
  by_cases h : f.str = some "definition/2" ∨ v.str = some "2"
  · rw [if_pos h, if_pos h]
  · rw [if_neg h, if_neg h, List.append_nil]
    split
    · rfl
    · split <;> rfl

open Classical in
/-- Reading a file: the format is given by the fields, and the errors are those of the format. -/
theorem readFile_iff (v f : Field) (d : D) (spec : Versioned) (l : List FileErr) :
    readFile ws readV1 readV2 (.mapping v f d) = .ok (spec, l) ↔
    (SaysV1 v f ∧ ∃ gs, readV1 d = some gs ∧ spec = .v1 gs ∧
      l = (gs.flatMap (validateGroup ws)).map .v1 ++ (if ∃ s, v = .text s then [.deprecatedVersion] else [])) ∨
    (SaysV2 v f ∧ ∃ s w, readV2 d = some s ∧ spec = .v2 s ∧ validateV2 s = .ok w ∧
      l = w.map .v2 ++ (if ∃ s, v = .text s then [.deprecatedVersion] else []) ++ [.unstableFormat]) := by
  have hd : ∃ r w, detect v.str f.str = (r, w) := ⟨_, _, rfl⟩
  obtain ⟨r, w, hd⟩ := hd
  have hw := detect_warnings v f
  have h2 := detect_v2 v f
  have h1 := detect_v1 v f
  rw [hd] at hw h2 h1
  dsimp only at hw h2 h1
  unfold readFile fromYaml
  dsimp only
  rw [hd]
  have e1 : (if v.str.isSome then [FileErr.deprecatedVersion] else []) = if ∃ s, v = .text s then [.deprecatedVersion] else [] := by
    by_cases h : ∃ s, v = .text s
    · rw [if_pos h, if_pos ((str_isSome v).2 h)]
    · rw [if_neg h, if_neg (fun h' => h ((str_isSome v).1 h'))]
  rw [e1] at hw
  simp only [str_eq] at hw
  have hv1 : SaysV1 v f → w = if ∃ s, v = .text s then [FileErr.deprecatedVersion] else [] := fun h => by
    rw [hw, if_neg (c := f = .text "definition/2" ∨ v = .text "2") h.1, List.append_nil]
  have hv2 : SaysV2 v f → w = (if ∃ s, v = .text s then [FileErr.deprecatedVersion] else []) ++ [.unstableFormat] := fun h => by
    rw [hw, if_pos (c := f = .text "definition/2" ∨ v = .text "2") h]
  have hx : SaysV1 v f → ¬ SaysV2 v f := fun h => h.1
  clear hw e1 hd
  match r with
  | .error e =>
    refine iff_of_false (fun h => nomatch h) ?_
    rintro (⟨h, _⟩ | ⟨h, _⟩)
    · rcases h1.2 h with h | h <;> cases h
    · cases h2.2 h
  | .ok .v2 =>
    have hs := h2.1 rfl
    have hw := hv2 hs
    have hn : ¬ SaysV1 v f := fun h => hx h hs
    subst hw
    dsimp only
    cases hr : readV2 d with
    | none => simp [hn]
    | some s =>
      simp only [Versioned.validate]
      cases hval : validateV2 s with
      | error e => simp [hn]; grind
      | ok w => simp [hn, hs]; grind
  | .ok .v1 =>
    have hs := h1.1 (.inl rfl)
    have hw := hv1 hs
    subst hw
    dsimp only
    cases hr : readV1 d with
    | none => simp [hx hs]
    | some s => simp [hx hs, hs, Versioned.validate, validateV1]; grind
  | .ok .unversioned =>
    have hs := h1.1 (.inr rfl)
    have hw := hv1 hs
    subst hw
    dsimp only
    cases hr : readV1 d with
    | none => simp [hx hs]
    | some s => simp [hx hs, hs, Versioned.validate, validateV1]; grind

/-- A document that is not a mapping is rejected. -/
theorem readFile_other : readFile ws readV1 readV2 (.other : Root D) = .error .unreadable := rfl

/-- A declared format is honoured if both fields are texts or absent and do not contradict each other. -/
theorem declared_format_partial (v f : Field) (hv : v ≠ .other) (hf : f ≠ .other)
    (hc : v = .absent ∨ f = .absent) :
    (SaysV2 v f ↔ v = .text "2" ∨ f = .text "definition/2") ∧
    (SaysV1 v f ↔ v = .text "1" ∨ f = .text "definition/1" ∨ (v = .absent ∧ f = .absent)) := by
  unfold SaysV1 SaysV2
  cases v <;> cases f <;> simp_all

/-- A version that is a number is ignored, and of two contradicting fields the one that says format 2 wins. -/
theorem declared_format_refuted :
    (∀ (d : D) gs, readV1 d = some gs → ∃ l, readFile ws readV1 readV2 (.mapping .other .absent d) = .ok (.v1 gs, l)) ∧
    (∀ (d : D) s w, readV2 d = some s → validateV2 s = .ok w →
      ∃ l, readFile ws readV1 readV2 (.mapping (.text "2") (.text "definition/1") d) = .ok (.v2 s, l)) := by
  constructor
  · intro d gs h
    exact ⟨_, (readFile_iff ws readV1 readV2 _ _ d _ _).2 (.inl ⟨⟨by simp [SaysV2], .inr (.inr ⟨by simp, by simp⟩)⟩, gs, h, rfl, rfl⟩)⟩
  · intro d s w h hw
    exact ⟨_, (readFile_iff ws readV1 readV2 _ _ d _ _).2 (.inr ⟨.inr rfl, s, w, h, rfl, hw, rfl⟩)⟩

example : readFile blank (fun _ : Unit => some [clean]) (fun _ => none) (.mapping (.text "1") .absent ()) =
    .ok (.v1 [clean], [.deprecatedVersion]) := rfl

example : ∃ e, readFile blank (fun _ : Unit => some [clean]) (fun _ => none) (.mapping .absent (.text "definition/3") ()) = .error e :=
  ⟨_, rfl⟩

end Verif.Validate
