import Verif.Forge.OtelProps
/-
The tests of templates that tell the types of attributes: crates/weaver_forge/src/extensions/otel.rs:515-577.
-/
namespace Verif.Forge
open Verif.Util

/-- Texts of types that are no templates: a base type, or the array of a base type. -/
inductive SimpleText : String → Prop
  | base {t : String} : t ∈ ["string", "int", "double", "boolean"] → SimpleText t
  | array {t : String} : t ∈ ["string", "int", "double", "boolean"] → SimpleText (t ++ "[]")

/-- C291. -/
theorem simpleTypes_iff (s : String) : s ∈ simpleTypes ↔ SimpleText s := by
  constructor
  · intro h
    simp only [simpleTypes, List.mem_cons, List.not_mem_nil, or_false] at h
    rcases h with rfl | rfl | rfl | rfl | rfl | rfl | rfl | rfl
    · exact .base (by decide)
    · exact .array (t := "string") (by decide)
    · exact .base (by decide)
    · exact .array (t := "int") (by decide)
    · exact .base (by decide)
    · exact .array (t := "double") (by decide)
    · exact .base (by decide)
    · exact .array (t := "boolean") (by decide)
  · intro h
    cases h with
    | base h =>
      simp only [List.mem_cons, List.not_mem_nil, or_false] at h
      rcases h with rfl | rfl | rfl | rfl <;> decide
    | array h =>
      simp only [List.mem_cons, List.not_mem_nil, or_false] at h
      rcases h with rfl | rfl | rfl | rfl <;> decide +kernel

/-- C291. The test `simple_type` is true of the texts of simple types. -/
theorem isSimpleType_exact (v : Val) : isSimpleType v = true ↔ ∃ s, SimpleText s ∧ v = .str s := by
  simp only [isSimpleType_iff, simpleTypes_iff]

/-- C291. The test `template_type` is true of the templates of simple types. -/
theorem isTemplateType_exact (v : Val) : isTemplateType v = true ↔ ∃ s, SimpleText s ∧ v = .str ("template[" ++ s ++ "]") := by
  simp only [isTemplateType_iff, simpleTypes_iff]

/-- C291. The test `array` is true of the arrays of base types. -/
theorem isArray_iff (v : Val) : isArray v = true ↔ ∃ t ∈ ["string", "int", "double", "boolean"], v = .str (t ++ "[]") := by
  have h : ∀ s : String, s ∈ ["string[]", "int[]", "double[]", "boolean[]"] ↔
      ∃ t ∈ ["string", "int", "double", "boolean"], s = t ++ "[]" := by
    intro s
    have : ["string[]", "int[]", "double[]", "boolean[]"] = ["string", "int", "double", "boolean"].map (· ++ "[]") := by decide +kernel
    rw [this, List.mem_map]
    exact ⟨fun ⟨t, ht, he⟩ => ⟨t, ht, he.symm⟩, fun ⟨t, ht, he⟩ => ⟨t, ht, he.symm⟩⟩
  cases v with
  | str s => simp only [isArray, Val.asStr, decide_eq_true_eq, h, Val.str.injEq]
  | _ => simp [isArray, Val.asStr]

/-- C291. The test `enum_type` is true of objects with members. -/
theorem isEnumType_iff (v : Val) : isEnumType v = true ↔
    ∃ m x, v = .map m ∧ entry "members" m = some x ∧ x ≠ .undefined := by
  cases v with
  | map m =>
    simp only [isEnumType, Val.getAttr, Val.map.injEq]
    cases h : entry "members" m with
    | none => simp [Val.isUndefined, h]
    | some x => cases x <;> simp [Val.isUndefined, h]
  | _ => simp [isEnumType, Val.getAttr, Val.isUndefined]

/-- C291. The test `enum` is true of attributes with a type that has members. -/
theorem isEnum_iff (v : Val) : isEnum v = true ↔ ∃ m t, v = .map m ∧ entry "type" m = some t ∧ isEnumType t = true := by
  cases v with
  | map m =>
    simp only [isEnum, Val.getAttr, Val.map.injEq]
    cases h : entry "type" m with
    | none => simp [isEnumType, Val.getAttr, h]
    | some x => simp [h]
  | _ => simp [isEnum, isEnumType, Val.getAttr, Val.isUndefined]

/-- C291. No value is of two of the three kinds, and arrays are simple types. -/
theorem types_disjoint (v : Val) : ¬ (isSimpleType v = true ∧ isTemplateType v = true) ∧
    ¬ (isSimpleType v = true ∧ isEnumType v = true) ∧ ¬ (isTemplateType v = true ∧ isEnumType v = true) ∧
    (isArray v = true → isSimpleType v = true) := by
  refine ⟨?_, ?_, ?_, ?_⟩
  · rintro ⟨h1, h2⟩
    obtain ⟨s, hs, rfl⟩ := (isSimpleType_exact _).1 h1
    obtain ⟨t, -, he⟩ := (isTemplateType_exact _).1 h2
    cases he
    have hm := (simpleTypes_iff _).2 hs
    have hh : ∀ x ∈ simpleTypes, x.toList.head? ≠ some 't' := by decide +kernel
    exact hh _ hm (by simp)
  · rintro ⟨h1, h2⟩
    obtain ⟨s, -, rfl⟩ := (isSimpleType_exact _).1 h1
    obtain ⟨m, x, he, -⟩ := (isEnumType_iff _).1 h2
    cases he
  · rintro ⟨h1, h2⟩
    obtain ⟨s, -, rfl⟩ := (isTemplateType_exact _).1 h1
    obtain ⟨m, x, he, -⟩ := (isEnumType_iff _).1 h2
    cases he
  · intro h
    obtain ⟨t, ht, rfl⟩ := (isArray_iff _).1 h
    exact (isSimpleType_exact _).2 ⟨_, .array ht, rfl⟩

example : isSimpleType (.str "double[]") = true := by decide +kernel
example : isTemplateType (.str "template[boolean[]]") = true := by decide +kernel
example : isSimpleType (.str "any") = false := by decide +kernel
example : isEnum (.map [("type", .map [("members", .seq [])])]) = true := rfl

end Verif.Forge
