import Verif.SchemaError.Model
/-
Model of crates/weaver_semconv/src/json_schema.rs:321-343 `describe_types`, and of
crates/weaver_forge/src/debug.rs:10-35 `error_summary`.
-/
namespace Verif.SchemaError
open Verif.Util

/-- The types of JSON schema, in the order of jsonschema's set. -/
inductive JType where
  | array | boolean | integer | null | number | object | string
deriving DecidableEq, Repr

/-- `JsonType`'s `Display`. -/
def JType.name : JType → Chars
  | .array => "array".toList
  | .boolean => "boolean".toList
  | .integer => "integer".toList
  | .null => "null".toList
  | .number => "number".toList
  | .object => "object".toList
  | .string => "string".toList

/-- json_schema.rs:325-331: the names so far and whether null was seen. -/
def typesLoop : List JType → List Chars × Bool → List Chars × Bool
  | [], acc => acc
  | t :: l, acc => if t = .null then typesLoop l (acc.1, true) else typesLoop l (acc.1 ++ [t.name], acc.2)

/-- json_schema.rs:333-335. -/
def typeNames (l : List JType) : List Chars :=
  let r := typesLoop l ([], false)
  if r.2 then r.1 ++ ["null (i.e. optional)".toList] else r.1

/-- `join(", ")`. -/
def joinCommas : List Chars → Chars
  | [] => []
  | [a] => a
  | a :: b :: l => a ++ [',', ' '] ++ joinCommas (b :: l)

/-- json_schema.rs:337-341. -/
def describeTypes (l : List JType) : Chars :=
  if typeNames l ≠ [] then "Supported types: ".toList ++ joinCommas (typeNames l) else []

/-- debug.rs:12-35 `error_summary`, for the errors of the chain: how each is written, and how in full. -/
def errorSummary : List (Chars × Chars) → Chars
  | [] => []
  | [e] => e.2 ++ ['\n']
  | e :: f :: l => e.1 ++ "\nCaused by:\n".toList ++ errorSummary (f :: l)

/-! ### Properties -/

theorem typesLoop_eq (l : List JType) : ∀ acc, typesLoop l acc =
    (acc.1 ++ (l.filter (· ≠ .null)).map JType.name, acc.2 || decide (JType.null ∈ l)) := by
  induction l with
  | nil => intro acc; simp [typesLoop]
  | cons t l ih =>
    intro acc
    unfold typesLoop
    split
    · next h => subst h; rw [ih]; simp
    · next h => rw [ih]; simp [h, Ne.symm h]

/-- **C307**: the types that are supported are all named, in their order and null last. -/
theorem typeNames_eq (l : List JType) : typeNames l = (l.filter (· ≠ .null)).map JType.name ++
    (if JType.null ∈ l then ["null (i.e. optional)".toList] else []) := by
  unfold typeNames
  simp only [typesLoop_eq, List.nil_append, Bool.false_or, decide_eq_true_eq]
  split <;> simp

/-- **C307**: each type but null is named. -/
theorem typeNames_mem {l : List JType} {t : JType} (h : t ∈ l) (hn : t ≠ .null) : t.name ∈ typeNames l := by
  rw [typeNames_eq]
  exact List.mem_append_left _ (List.mem_map.2 ⟨t, List.mem_filter.2 ⟨h, by simpa using hn⟩, rfl⟩)

/-- **C307**: names are of types in the set, and the value is said to be optional just if null is in it. -/
theorem typeNames_only {l : List JType} {n : Chars} (h : n ∈ typeNames l) :
    (∃ t ∈ l, t ≠ .null ∧ n = t.name) ∨ (JType.null ∈ l ∧ n = "null (i.e. optional)".toList) := by
  rw [typeNames_eq, List.mem_append] at h
  rcases h with h | h
  · obtain ⟨t, ht, rfl⟩ := List.mem_map.1 h
    obtain ⟨h1, h2⟩ := List.mem_filter.1 ht
    exact .inl ⟨t, h1, by simpa using h2, rfl⟩
  · split at h
    · next hn => exact .inr ⟨hn, List.mem_singleton.1 h⟩
    · exact absurd h (by simp)

/-- **C307**: nothing is said just if there is no type. -/
theorem describeTypes_empty (l : List JType) : describeTypes l = [] ↔ l = [] := by
  constructor
  · intro h
    cases l with
    | nil => rfl
    | cons t l =>
      exfalso
      have hne : typeNames (t :: l) ≠ [] := by
        intro he
        by_cases ht : t = .null
        · rw [typeNames_eq, ht] at he
          simp at he
        · have := typeNames_mem (l := t :: l) (by simp) ht
          rw [he] at this
          exact absurd this (by simp)
      unfold describeTypes at h
      rw [if_pos hne] at h
      have := List.append_eq_nil_iff.1 h
      exact absurd this.1 (by decide)
  · rintro rfl
    rfl

/-- **C307**: the value is said to be optional just if null is one of the types. -/
theorem typeNames_optional (l : List JType) : "null (i.e. optional)".toList ∈ typeNames l ↔ JType.null ∈ l := by
  constructor
  · intro h
    rcases typeNames_only h with ⟨t, _, ht, e⟩ | ⟨h, _⟩
    · cases t <;> revert e <;> simp [JType.name]
    · exact h
  · intro h
    rw [typeNames_eq, if_pos h]
    simp

/-- **C307**: the summary of an error has each cause in order, and the last one in full. -/
theorem errorSummary_shape (init : List (Chars × Chars)) (last : Chars × Chars) :
    errorSummary (init ++ [last]) = (init.map fun e => e.1 ++ "\nCaused by:\n".toList).flatten ++ (last.2 ++ ['\n']) := by
  induction init with
  | nil => rfl
  | cons e l ih =>
    cases l with
    | nil => simp [errorSummary]
    | cons f l =>
      have : errorSummary (e :: f :: l ++ [last]) = e.1 ++ "\nCaused by:\n".toList ++ errorSummary (f :: l ++ [last]) := rfl
      rw [this, ih, List.map_cons (a := e), List.flatten_cons]
      simp only [List.append_assoc]

example : describeTypes [.null, .string] = "Supported types: string, null (i.e. optional)".toList := by decide +kernel

end Verif.SchemaError
