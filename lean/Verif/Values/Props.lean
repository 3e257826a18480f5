import Verif.Values.Model
/-
C42: examples and types. C46: types of sampled and emitted values.
-/
namespace Verif.Values
open Verif.LiveCheck (Elem Value PType AType SAttr AttrDef Signal typeAdvisor typeFindings)

variable (toF : Int → Nat)

/-! ### C46: the types of values -/

/-- Specification: the type a value has. Nulls in arrays do not count, and an array of integers is no array of doubles. -/
def HasType (v : Value) : PType → Prop
  | .boolean => ∃ b, v = .elem (.bool b)
  | .int => ∃ n, v = .elem (.int n)
  | .double => ∃ f, v = .elem (.dbl f)
  | .string => ∃ s, v = .elem (.str s)
  | .booleans => ∃ l, v = .arr l ∧ (∃ e ∈ l, e ≠ .null) ∧ ∀ e ∈ l, e = .null ∨ ∃ b, e = .bool b
  | .ints => ∃ l, v = .arr l ∧ (∃ e ∈ l, e ≠ .null) ∧ ∀ e ∈ l, e = .null ∨ ∃ n, e = .int n
  | .doubles => ∃ l, v = .arr l ∧ (∃ f, .dbl f ∈ l) ∧ ∀ e ∈ l, e = .null ∨ (∃ n, e = .int n) ∨ ∃ f, e = .dbl f
  | .strings => ∃ l, v = .arr l ∧ (∃ e ∈ l, e ≠ .null) ∧ ∀ e ∈ l, e = .null ∨ ∃ s, e = .str s
  | .any => False

/-- Specification: the values a declared type allows. -/
def Allows (v : Value) : PType → Prop
  | .boolean => ∃ b, v = .elem (.bool b)
  | .int => ∃ n, v = .elem (.int n)
  | .double => (∃ n, v = .elem (.int n)) ∨ ∃ f, v = .elem (.dbl f)
  | .string => ∃ s, v = .elem (.str s)
  | .any => True
  | .booleans => ∃ l, v = .arr l ∧ (∃ e ∈ l, e ≠ .null) ∧ ∀ e ∈ l, e = .null ∨ ∃ b, e = .bool b
  | .ints => ∃ l, v = .arr l ∧ (∃ e ∈ l, e ≠ .null) ∧ ∀ e ∈ l, e = .null ∨ ∃ n, e = .int n
  | .doubles => ∃ l, v = .arr l ∧ (∃ e ∈ l, e ≠ .null) ∧ ∀ e ∈ l, e = .null ∨ (∃ n, e = .int n) ∨ ∃ f, e = .dbl f
  | .strings => ∃ l, v = .arr l ∧ (∃ e ∈ l, e ≠ .null) ∧ ∀ e ∈ l, e = .null ∨ ∃ s, e = .str s

theorem isNull_iff (e : Elem) : isNull e = true ↔ e = .null := by cases e <;> simp [isNull]
theorem isBool_iff (e : Elem) : isBool e = true ↔ ∃ b, e = .bool b := by cases e <;> simp [isBool]
theorem isInt_iff (e : Elem) : isInt e = true ↔ ∃ n, e = .int n := by cases e <;> simp [isInt]
theorem isStr_iff (e : Elem) : isStr e = true ↔ ∃ n, e = .str n := by cases e <;> simp [isStr]
theorem isNum_iff (e : Elem) : isNum e = true ↔ (∃ n, e = .int n) ∨ ∃ f, e = .dbl f := by cases e <;> simp [isNum]

/-- The type inferred for a sampled value is the type it has; values without a type are those of no type. -/
theorem inferType_iff (v : Value) (t : PType) : inferType v = some t ↔ HasType v t := by
  rcases v with e | l
  · cases e <;> cases t <;> simp [inferType, HasType]
  simp only [inferType]
  cases hf : l.find? (fun v => !isNull v) with
  | none =>
    have hall : ∀ e ∈ l, e = .null := by
      intro e he
      have := List.find?_eq_none.1 hf e he
      simpa [isNull_iff] using this
    simp only [reduceCtorEq, false_iff]
    have hno : ¬ ∃ e ∈ l, e ≠ .null := fun ⟨e, he, hn⟩ => hn (hall e he)
    cases t <;> simp only [HasType, reduceCtorEq, exists_false, not_false_eq_true, Value.arr.injEq] <;>
      rintro ⟨l', rfl, h1, h2⟩
    · exact hno h1
    · exact hno h1
    · obtain ⟨f, h1⟩ := h1; exact absurd (hall _ h1) (by simp)
    · exact hno h1
  | some first =>
    have hmem := List.mem_of_find?_eq_some hf
    have hnn : first ≠ .null := by
      have := List.find?_some (p := fun v => !isNull v) hf
      intro h; subst h; simp [isNull] at this
    have hB : l.all (fun v => isNull v || isBool v) = true ↔ ∀ e ∈ l, e = .null ∨ ∃ b, e = .bool b := by
      simp [List.all_eq_true, isNull_iff, isBool_iff]
    have hI : l.all (fun v => isNull v || isInt v) = true ↔ ∀ e ∈ l, e = .null ∨ ∃ n, e = .int n := by
      simp [List.all_eq_true, isNull_iff, isInt_iff]
    have hN : l.all (fun v => isNull v || isNum v) = true ↔ ∀ e ∈ l, e = .null ∨ (∃ n, e = .int n) ∨ ∃ f, e = .dbl f := by
      simp [List.all_eq_true, isNull_iff, isNum_iff]
    have hS : l.all (fun v => isNull v || isStr v) = true ↔ ∀ e ∈ l, e = .null ∨ ∃ n, e = .str n := by
      simp [List.all_eq_true, isNull_iff, isStr_iff]
    have hex : ∃ e ∈ l, e ≠ .null := ⟨first, hmem, hnn⟩
    have h1 : (isBool first && l.all (fun v => isNull v || isBool v)) = true ↔ HasType (.arr l) .booleans := by
      rw [Bool.and_eq_true, hB, isBool_iff]
      constructor
      · rintro ⟨_, h⟩; exact ⟨l, rfl, hex, h⟩
      · rintro ⟨l', e, _, h⟩; cases e; exact ⟨(h first hmem).resolve_left hnn, h⟩
    have h2 : (isInt first && l.all (fun v => isNull v || isInt v)) = true ↔ HasType (.arr l) .ints := by
      rw [Bool.and_eq_true, hI, isInt_iff]
      constructor
      · rintro ⟨_, h⟩; exact ⟨l, rfl, hex, h⟩
      · rintro ⟨l', e, _, h⟩; cases e; exact ⟨(h first hmem).resolve_left hnn, h⟩
    have h4 : (isStr first && l.all (fun v => isNull v || isStr v)) = true ↔ HasType (.arr l) .strings := by
      rw [Bool.and_eq_true, hS, isStr_iff]
      constructor
      · rintro ⟨_, h⟩; exact ⟨l, rfl, hex, h⟩
      · rintro ⟨l', e, _, h⟩; cases e; exact ⟨(h first hmem).resolve_left hnn, h⟩
    have h3 : ¬ HasType (.arr l) .ints →
        ((isNum first && l.all (fun v => isNull v || isNum v)) = true ↔ HasType (.arr l) .doubles) := by
      intro hni
      rw [Bool.and_eq_true, hN, isNum_iff]
      constructor
      · rintro ⟨_, h⟩
        refine ⟨l, rfl, Classical.byContradiction fun hno => hni ⟨l, rfl, hex, fun e he => ?_⟩, h⟩
        rcases h e he with h' | h' | ⟨f, h'⟩
        · exact .inl h'
        · exact .inr h'
        · exact absurd ⟨f, h' ▸ he⟩ hno
      · rintro ⟨l', e, _, h⟩; cases e; exact ⟨(h first hmem).resolve_left hnn, h⟩
    -- arrays have at most one type
    have u12 : HasType (.arr l) .booleans → ¬ HasType (.arr l) .ints := by
      rintro ⟨_, e, _, ha⟩ ⟨_, e', _, hb⟩; cases e; cases e'
      obtain ⟨b, hb'⟩ := (ha first hmem).resolve_left hnn
      obtain ⟨n, hn'⟩ := (hb first hmem).resolve_left hnn
      rw [hb'] at hn'; cases hn'
    have u13 : HasType (.arr l) .booleans → ¬ HasType (.arr l) .doubles := by
      rintro ⟨_, e, _, ha⟩ ⟨_, e', _, hb⟩; cases e; cases e'
      obtain ⟨b, hb'⟩ := (ha first hmem).resolve_left hnn
      rcases (hb first hmem).resolve_left hnn with ⟨n, hn'⟩ | ⟨n, hn'⟩ <;> · rw [hb'] at hn'; cases hn'
    have u14 : HasType (.arr l) .booleans → ¬ HasType (.arr l) .strings := by
      rintro ⟨_, e, _, ha⟩ ⟨_, e', _, hb⟩; cases e; cases e'
      obtain ⟨b, hb'⟩ := (ha first hmem).resolve_left hnn
      obtain ⟨n, hn'⟩ := (hb first hmem).resolve_left hnn
      rw [hb'] at hn'; cases hn'
    have u23 : HasType (.arr l) .ints → ¬ HasType (.arr l) .doubles := by
      rintro ⟨_, e, _, ha⟩ ⟨_, e', ⟨f, hf⟩, _⟩; cases e; cases e'
      rcases ha _ hf with h | ⟨n, h⟩ <;> cases h
    have u24 : HasType (.arr l) .ints → ¬ HasType (.arr l) .strings := by
      rintro ⟨_, e, _, ha⟩ ⟨_, e', _, hb⟩; cases e; cases e'
      obtain ⟨b, hb'⟩ := (ha first hmem).resolve_left hnn
      obtain ⟨n, hn'⟩ := (hb first hmem).resolve_left hnn
      rw [hb'] at hn'; cases hn'
    have u34 : HasType (.arr l) .doubles → ¬ HasType (.arr l) .strings := by
      rintro ⟨_, e', _, hb⟩ ⟨_, e, _, ha⟩; cases e; cases e'
      obtain ⟨b, hb'⟩ := (ha first hmem).resolve_left hnn
      rcases (hb first hmem).resolve_left hnn with ⟨n, hn'⟩ | ⟨n, hn'⟩ <;> · rw [hb'] at hn'; cases hn'
    have hsc : ∀ t, t = .boolean ∨ t = .int ∨ t = .double ∨ t = .string ∨ t = .any → ¬ HasType (.arr l) t := by
      rintro t (rfl | rfl | rfl | rfl | rfl) <;> simp [HasType]
    simp only
    by_cases c1 : HasType (.arr l) .booleans
    · rw [if_pos (h1.2 c1)]
      cases t <;> simp [c1, u12 c1, u13 c1, u14 c1, hsc]
    rw [if_neg (fun h => c1 (h1.1 h))]
    by_cases c2 : HasType (.arr l) .ints
    · rw [if_pos (h2.2 c2)]
      cases t <;> simp [c2, c1, u23 c2, u24 c2, hsc]
    rw [if_neg (fun h => c2 (h2.1 h))]
    by_cases c3 : HasType (.arr l) .doubles
    · rw [if_pos ((h3 c2).2 c3)]
      cases t <;> simp [c2, c1, c3, u34 c3, hsc]
    rw [if_neg (fun h => c3 ((h3 c2).1 h))]
    by_cases c4 : HasType (.arr l) .strings
    · rw [if_pos (h4.2 c4)]
      cases t <;> simp [c2, c1, c3, c4, hsc]
    · rw [if_neg (fun h => c4 (h4.1 h))]
      cases t <;> simp [c2, c1, c3, c4, hsc]

/-- Compatibility of types is about the values that have them. -/
theorem compatible_iff {v : Value} {t : PType} (h : HasType v t) (p : PType) : t.isCompatible p = true ↔ Allows v p := by
  have arr : ∀ {P Q : Elem → Prop} {l l' : List Elem}, Value.arr l = Value.arr l' →
      (∃ e ∈ l, e ≠ .null) → (∀ e ∈ l, e = .null ∨ P e) → (∀ e ∈ l', e = .null ∨ Q e) → ∃ e, P e ∧ Q e := by
    rintro P Q l l' e ⟨x, hx, hn⟩ h1 h2
    cases e
    exact ⟨x, (h1 x hx).resolve_left hn, (h2 x hx).resolve_left hn⟩
  cases t <;> simp only [HasType] at h
  case boolean => obtain ⟨b, rfl⟩ := h; cases p <;> simp [PType.isCompatible, Allows]
  case int => obtain ⟨b, rfl⟩ := h; cases p <;> simp [PType.isCompatible, Allows]
  case double => obtain ⟨b, rfl⟩ := h; cases p <;> simp [PType.isCompatible, Allows]
  case string => obtain ⟨b, rfl⟩ := h; cases p <;> simp [PType.isCompatible, Allows]
  case strings =>
    obtain ⟨l, rfl, h1, h2⟩ := h
    cases p <;> simp only [PType.isCompatible, Allows, decide_eq_true_eq, reduceCtorEq, exists_false, or_self, false_iff, true_iff, decide_false, decide_true, Bool.false_eq_true]
    case strings => exact ⟨l, rfl, h1, h2⟩
    all_goals rintro ⟨l', e, _, h3⟩; obtain ⟨x, ⟨s, rfl⟩, hq⟩ := arr e h1 h2 h3; simp at hq
  case booleans =>
    obtain ⟨l, rfl, h1, h2⟩ := h
    cases p <;> simp only [PType.isCompatible, Allows, decide_eq_true_eq, reduceCtorEq, exists_false, or_self, false_iff, true_iff, decide_false, decide_true, Bool.false_eq_true]
    case booleans => exact ⟨l, rfl, h1, h2⟩
    all_goals rintro ⟨l', e, _, h3⟩; obtain ⟨x, ⟨s, rfl⟩, hq⟩ := arr e h1 h2 h3; simp at hq
  case ints =>
    obtain ⟨l, rfl, h1, h2⟩ := h
    cases p <;> simp only [PType.isCompatible, Allows, decide_eq_true_eq, reduceCtorEq, exists_false, or_self, false_iff, true_iff, decide_false, decide_true, Bool.false_eq_true]
    case ints => exact ⟨l, rfl, h1, h2⟩
    case doubles => exact ⟨l, rfl, h1, fun e he => (h2 e he).imp_right .inl⟩
    all_goals rintro ⟨l', e, _, h3⟩; obtain ⟨x, ⟨s, rfl⟩, hq⟩ := arr e h1 h2 h3; simp at hq
  case doubles =>
    obtain ⟨l, rfl, ⟨f, hf⟩, h2⟩ := h
    have h1 : ∃ e ∈ l, e ≠ .null := ⟨_, hf, by simp⟩
    cases p <;> simp only [PType.isCompatible, Allows, decide_eq_true_eq, reduceCtorEq, exists_false, or_self, false_iff, true_iff, decide_false, decide_true, Bool.false_eq_true]
    case doubles => exact ⟨l, rfl, h1, h2⟩
    all_goals rintro ⟨l', e, _, h3⟩; cases e; simpa using h3 _ hf

/-- The findings of the type advisor for a sampled attribute, as the receivers build it. -/
def mistyped (name : String) (v : Value) (d : AttrDef) (signal : LiveCheck.Sample) (g : Option Signal) : Bool :=
  match typeAdvisor (.attribute ⟨name, some v, inferType v⟩) signal (some d) g with
  | .ok fs => !fs.isEmpty
  | .error _ => false

/-- A sampled value is reported as mistyped exactly if it has a type and the declared type does not allow it. -/
theorem mistyped_iff (name : String) (v : Value) (d : AttrDef) (signal : LiveCheck.Sample) (g : Option Signal)
    (p : PType) (hd : d.typ = .prim p ∨ d.typ = .template p) :
    mistyped name v d signal g = true ↔ (∃ t, HasType v t) ∧ ¬ Allows v p := by
  unfold mistyped typeAdvisor
  cases ht : inferType v with
  | none =>
    have : ¬ ∃ t, HasType v t := by rintro ⟨t, h⟩; rw [(inferType_iff v t).2 h] at ht; cases ht
    simp [this]
  | some t =>
    have hT := (inferType_iff v t).1 ht
    have hf : (typeFindings signal ⟨name, some v, some t⟩ d t).isEmpty = t.isCompatible p := by
      unfold typeFindings
      rcases hd with h | h <;> rw [h] <;> cases h2 : t.isCompatible p <;> simp [h2]
    simp only [hf]
    rw [Bool.not_eq_true', Bool.eq_false_iff, ne_eq, compatible_iff hT p]
    exact ⟨fun h => ⟨⟨t, hT⟩, h⟩, fun h => h.2⟩

/-- The same for enums, whose values are strings or integers. -/
theorem mistyped_enum_iff (name : String) (v : Value) (d : AttrDef) (signal : LiveCheck.Sample) (g : Option Signal)
    (ms : List Elem) (hd : d.typ = .enum ms) :
    mistyped name v d signal g = true ↔
      (∃ t, HasType v t) ∧ ¬ ((∃ s, v = .elem (.str s)) ∨ ∃ n, v = .elem (.int n)) := by
  unfold mistyped typeAdvisor
  cases ht : inferType v with
  | none =>
    have : ¬ ∃ t, HasType v t := by rintro ⟨t, h⟩; rw [(inferType_iff v t).2 h] at ht; cases ht
    simp [this]
  | some t =>
    have hT := (inferType_iff v t).1 ht
    have hf : (typeFindings signal ⟨name, some v, some t⟩ d t).isEmpty = !decide (t ≠ .string ∧ t ≠ .int) := by
      unfold typeFindings
      rw [hd]
      by_cases h : t ≠ .string ∧ t ≠ .int
      · simp [h]
      · simp only [if_neg h, decide_eq_false h]; rfl
    simp only [hf, Bool.not_not, decide_eq_true_eq]
    constructor
    · rintro ⟨h1, h2⟩
      refine ⟨⟨t, hT⟩, ?_⟩
      rintro (⟨s, rfl⟩ | ⟨n, rfl⟩) <;> cases ht
      · exact h1 rfl
      · exact h2 rfl
    · rintro ⟨_, h⟩
      constructor
      · rintro rfl; exact h (.inl hT)
      · rintro rfl; exact h (.inr hT)

/-- C81 fails: a value that has no type is not reported, whatever the declared type: here an object for an integer. -/
theorem untyped_refuted : ¬ ∀ (name : String) (v : Value) (d : AttrDef) (signal : LiveCheck.Sample) (g : Option Signal)
    (p : PType), d.typ = .prim p → (mistyped name v d signal g = true ↔ ¬ Allows v p) := by
  intro h
  have := (h "a" (.elem .nested) ⟨"a", .prim .int, .recommended, none, none⟩ (.attribute ⟨"a", none, none⟩) none .int rfl).2
    (by rintro ⟨n, h⟩; cases h)
  exact absurd this (by decide)

/-! ### C46: emitted values -/

theorem allows_strings (l : List String) (h : l ≠ []) : Allows (.arr (l.map .str)) .strings := by
  obtain ⟨x, r, rfl⟩ := List.exists_cons_of_ne_nil h
  exact ⟨_, rfl, ⟨.str x, by simp, by simp⟩, by
    intro e he; obtain ⟨s, _, rfl⟩ := List.mem_map.1 he; exact .inr ⟨s, rfl⟩⟩

theorem no_type_nil : ¬ ∃ t, HasType (.arr []) t := by
  rintro ⟨t, h⟩; have := (inferType_iff _ _).2 h; simp [inferType] at this

theorem emit_arr {α : Type} (f : α → Elem) (l : List α) (p : PType)
    (h : ∀ l, l ≠ [] → Allows (.arr (l.map f)) p) : (∃ t, HasType (.arr (l.map f)) t) → Allows (.arr (l.map f)) p := by
  intro ht
  cases l with
  | nil => exact absurd ht no_type_nil
  | cons x l => exact h _ (by simp)

/-- A value emitted for an attribute that is no enum exists and is never reported as mistyped, whatever the examples. -/
theorem emitted_accepted (d13 d15 : Nat) (p : PType) (t : AType) (ht : t = .prim p ∨ t = .template p) (ex : Option Examples)
    (name : String) (d : AttrDef) (hd : d.typ = t) (signal : LiveCheck.Sample) (g : Option Signal) :
    ∃ v, emitted d13 d15 t ex = some v ∧ mistyped name v d signal g = false := by
  have key : ∃ v, emitted d13 d15 t ex = some v ∧ ((∃ t, HasType v t) → Allows v p) := by
    have hi : ∀ l : List Int, l ≠ [] → Allows (.arr (l.map .int)) .ints := by
      intro l h
      obtain ⟨x, r, rfl⟩ := List.exists_cons_of_ne_nil h
      exact ⟨_, rfl, ⟨.int x, by simp, by simp⟩, by
        intro e he; obtain ⟨s, _, rfl⟩ := List.mem_map.1 he; exact .inr ⟨s, rfl⟩⟩
    have hdb : ∀ l : List Nat, l ≠ [] → Allows (.arr (l.map .dbl)) .doubles := by
      intro l h
      obtain ⟨x, r, rfl⟩ := List.exists_cons_of_ne_nil h
      exact ⟨_, rfl, ⟨.dbl x, by simp, by simp⟩, by
        intro e he; obtain ⟨s, _, rfl⟩ := List.mem_map.1 he; exact .inr (.inr ⟨s, rfl⟩)⟩
    have hb : Allows (.arr [.bool true, .bool false]) .booleans :=
      ⟨_, rfl, ⟨.bool true, by simp, by simp⟩, by intro e he; simp at he; rcases he with rfl | rfl <;> simp⟩
    rcases ht with rfl | rfl
    · cases p with
      | boolean => exact ⟨_, rfl, fun _ => ⟨true, rfl⟩⟩
      | int => exact ⟨_, rfl, fun _ => ⟨_, rfl⟩⟩
      | double => exact ⟨_, rfl, fun _ => .inr ⟨_, rfl⟩⟩
      | string => exact ⟨_, rfl, fun _ => ⟨_, rfl⟩⟩
      | any => exact ⟨_, rfl, fun _ => trivial⟩
      | booleans => exact ⟨_, rfl, fun _ => hb⟩
      | ints => exact ⟨_, rfl, emit_arr _ _ _ hi⟩
      | doubles => exact ⟨_, rfl, emit_arr _ _ _ hdb⟩
      | strings => exact ⟨_, rfl, emit_arr _ _ _ allows_strings⟩
    · cases p with
      | boolean => exact ⟨_, rfl, fun _ => ⟨true, rfl⟩⟩
      | int => exact ⟨_, rfl, fun _ => ⟨_, rfl⟩⟩
      | double => exact ⟨_, rfl, fun _ => .inr ⟨_, rfl⟩⟩
      | string => exact ⟨_, rfl, fun _ => ⟨_, rfl⟩⟩
      | any => exact ⟨_, rfl, fun _ => trivial⟩
      | booleans => exact ⟨_, rfl, fun _ => hb⟩
      | ints => exact ⟨_, rfl, fun _ => hi [42, 43] (by simp)⟩
      | doubles => exact ⟨_, rfl, fun _ => hdb [d13, d15] (by simp)⟩
      | strings => exact ⟨_, rfl, fun _ => allows_strings ["template_value1", "template_value2"] (by simp)⟩
  obtain ⟨v, e, h⟩ := key
  refine ⟨v, e, Bool.eq_false_iff.2 fun hm => ?_⟩
  obtain ⟨h1, h2⟩ := (mistyped_iff name v d signal g p (hd ▸ ht)).1 hm
  exact h2 (h h1)

/-- C82, the part that holds: also the value emitted for an enum whose first member is a string or an integer exists and is
not reported; it is a member. -/
theorem emitted_enum_partial (d13 d15 : Nat) (m : Elem) (ms : List Elem) (hm : (∃ s, m = .str s) ∨ ∃ n, m = .int n)
    (ex : Option Examples) (name : String) (d : AttrDef) (hd : d.typ = .enum (m :: ms)) (signal : LiveCheck.Sample)
    (g : Option Signal) :
    emitted d13 d15 d.typ ex = some (.elem m) ∧ mistyped name (.elem m) d signal g = false := by
  refine ⟨by rw [hd]; rfl, Bool.eq_false_iff.2 fun h => ?_⟩
  have := ((mistyped_enum_iff name _ d signal g _ hd).1 h).2
  rcases hm with ⟨s, rfl⟩ | ⟨n, rfl⟩
  · exact this (.inl ⟨s, rfl⟩)
  · exact this (.inr ⟨n, rfl⟩)

/-- C82 fails: an enum without members makes `emit` panic, and the value emitted for an enum of doubles is reported. -/
theorem emitted_enum_refuted : emitted 0 1 (.enum []) none = none ∧
    ∃ v, emitted 0 1 (.enum [.dbl 7]) none = some v ∧
      mistyped "a" v ⟨"a", .enum [.dbl 7], .recommended, none, none⟩ (.attribute ⟨"a", none, none⟩) none = true :=
  ⟨rfl, _, rfl, by decide⟩

example : HasType (.arr [.null, .int 1, .dbl 3]) .doubles :=
  ⟨_, rfl, ⟨3, by simp⟩, by intro e he; simp at he; rcases he with rfl | rfl | rfl <;> simp⟩
example : mistyped "a" (.elem (.str "x")) ⟨"a", .prim .int, .recommended, none, none⟩ (.attribute ⟨"a", none, none⟩) none = true := by
  decide
example : mistyped "a" (.arr [.int 2]) ⟨"a", .prim .doubles, .recommended, none, none⟩ (.attribute ⟨"a", none, none⟩) none = false := by
  decide

/-! ### C42: examples -/

/-- A boolean. -/
def IsBool (y : Yaml) : Prop := ∃ b, y = .scalar (.bool b)
/-- An integer that fits into 64 bits with sign. -/
def IsInt (y : Yaml) : Prop := ∃ n, y = .scalar (.int n) ∧ n ≤ 9223372036854775807
/-- A number. -/
def IsNum (y : Yaml) : Prop := (∃ n, y = .scalar (.int n)) ∨ ∃ f, y = .scalar (.dbl f)
/-- A string. -/
def IsStr (y : Yaml) : Prop := ∃ s, y = .scalar (.str s)
/-- A boolean, number or string. -/
def IsScalar (y : Yaml) : Prop := IsBool y ∨ IsNum y ∨ IsStr y

/-- A list of elements with a property. -/
def ListOf (P : Yaml → Prop) (y : Yaml) : Prop := ∃ l, y = .list l ∧ ∀ x ∈ l, P x

/-- What can be given as examples at all: a scalar, a list of scalars, or a list of lists of booleans, of numbers or of
strings. -/
def Readable (y : Yaml) : Prop :=
  IsScalar y ∨ ListOf IsScalar y ∨ ListOf (ListOf IsNum) y ∨ ListOf (ListOf IsBool) y ∨ ListOf (ListOf IsStr) y

/-- Specification: examples that fit a type. For a scalar type, one scalar or a list of them; for an array type, a list of
arrays. Numbers that are all integers count as integers only. An empty list counts as a list of integers, and a list of
empty lists as a list of lists of integers. -/
def Fits (y : Yaml) : PType → Prop
  | .boolean => IsBool y ∨ (ListOf IsBool y ∧ ¬ ListOf IsInt y)
  | .int => IsInt y ∨ ListOf IsInt y
  | .double => (IsNum y ∧ ¬ IsInt y) ∨ (ListOf IsNum y ∧ ¬ ListOf IsInt y)
  | .string => IsStr y ∨ (ListOf IsStr y ∧ ¬ ListOf IsInt y)
  | .any => Readable y
  | .booleans => ListOf (ListOf IsBool) y ∧ ¬ ListOf (ListOf IsInt) y
  | .ints => ListOf (ListOf IsInt) y ∧ y ≠ .list []
  | .doubles => ListOf (ListOf IsNum) y ∧ ¬ ListOf (ListOf IsInt) y
  | .strings => ListOf (ListOf IsStr) y ∧ ¬ ListOf (ListOf IsInt) y

/-- Specification: examples for array types that are tolerated with a warning, a single array. -/
def Tolerated (y : Yaml) : PType → Prop
  | .ints => ListOf IsInt y
  | .doubles => ListOf IsNum y ∧ ¬ ListOf IsInt y
  | .booleans => ListOf IsBool y ∧ ¬ ListOf IsInt y
  | .strings => ListOf IsStr y ∧ ¬ ListOf IsInt y
  | _ => False

/-- Specification: what is tolerated for templates, string arrays only. -/
def ToleratedTemplate (y : Yaml) : PType → Prop
  | .strings => IsStr y ∨ (ListOf IsStr y ∧ ¬ ListOf IsInt y)
  | _ => False

/-- `f` reads exactly the values with property `P`. -/
def Reads {α : Type} (f : Yaml → Option α) (P : Yaml → Prop) : Prop := ∀ y, (f y).isSome = true ↔ P y

theorem reads_int : Reads asInt IsInt := by
  intro y
  rcases y with (_ | b | n | f | s | _) | l <;> simp [asInt, IsInt]

theorem reads_double : Reads (asDouble toF) IsNum := by
  intro y; rcases y with (_ | b | n | f | s | _) | l <;> simp [asDouble, IsNum]

theorem reads_bool : Reads asBool IsBool := by
  intro y; rcases y with (_ | b | n | f | s | _) | l <;> simp [asBool, IsBool]

theorem reads_string : Reads asString IsStr := by
  intro y; rcases y with (_ | b | n | f | s | _) | l <;> simp [asString, IsStr]

theorem reads_spec : Reads (asSpec toF) IsScalar := by
  intro y
  have h1 := reads_int y
  have h2 := reads_double toF y
  have h3 := reads_bool y
  have h4 := reads_string y
  have h5 : IsInt y → IsNum y := by rintro ⟨n, h, _⟩; exact .inl ⟨n, h⟩
  unfold asSpec IsScalar
  simp only [Option.isSome_or, Option.isSome_map, Bool.or_eq_true, h1, h2, h3, h4]
  constructor
  · rintro (h | h | h | h)
    · exact .inr (.inl (h5 h))
    · exact .inr (.inl h)
    · exact .inr (.inr h)
    · exact .inl h
  · rintro (h | h | h)
    · exact .inr (.inr (.inr h))
    · exact .inr (.inl h)
    · exact .inr (.inr (.inl h))

theorem reads_all {α : Type} {f : Yaml → Option α} {P : Yaml → Prop} (h : Reads f P) (l : List Yaml) :
    (readAll f l).isSome = true ↔ ∀ x ∈ l, P x := by
  induction l with
  | nil => simp [readAll]
  | cons y l ih =>
    simp only [readAll, List.mem_cons, forall_eq_or_imp, ← h y, ← ih]
    cases f y <;> cases readAll f l <;> simp

theorem reads_list {α : Type} {f : Yaml → Option α} {P : Yaml → Prop} (h : Reads f P) : Reads (asList f) (ListOf P) := by
  intro y
  cases y with
  | scalar e => simp [asList, ListOf]
  | list l =>
    simp only [asList, reads_all h, ListOf, Yaml.list.injEq]
    exact ⟨fun h => ⟨l, rfl, h⟩, fun ⟨_, e, h⟩ => e ▸ h⟩

/-- The variants of `Examples`. -/
inductive Form where
  | bool | int | double | string | any | ints | doubles | bools | strings | anys | listOfInts | listOfDoubles
  | listOfBools | listOfStrings
deriving DecidableEq

def Examples.form : Examples → Form
  | .bool _ => .bool | .int _ => .int | .double _ => .double | .string _ => .string | .any _ => .any
  | .ints _ => .ints | .doubles _ => .doubles | .bools _ => .bools | .strings _ => .strings | .anys _ => .anys
  | .listOfInts _ => .listOfInts | .listOfDoubles _ => .listOfDoubles | .listOfBools _ => .listOfBools
  | .listOfStrings _ => .listOfStrings

theorem form_or {α : Type} (f : Yaml → Option α) (c : α → Examples) (rest : Option Examples) (y : Yaml) (k : Form)
    (hc : ∀ a, (c a).form = k) :
    (((f y).map c).or rest).map Examples.form = if (f y).isSome then some k else rest.map Examples.form := by
  cases h : f y <;> simp [hc]

open Classical in
/-- Which variant is read. -/
theorem form_read (y : Yaml) : (readExamples toF y).map Examples.form =
    if IsBool y then some .bool else if IsInt y then some .int else if IsNum y then some .double
    else if IsStr y then some .string else if ListOf IsInt y then some .ints else if ListOf IsNum y then some .doubles
    else if ListOf IsBool y then some .bools else if ListOf IsStr y then some .strings
    else if ListOf IsScalar y then some .anys else if ListOf (ListOf IsInt) y then some .listOfInts
    else if ListOf (ListOf IsNum) y then some .listOfDoubles else if ListOf (ListOf IsBool) y then some .listOfBools
    else if ListOf (ListOf IsStr) y then some .listOfStrings else none := by
  unfold readExamples
  have hs : ¬ IsBool y → ¬ IsNum y → ¬ IsStr y → asSpec toF y = none := by
    intro h1 h2 h3
    have := reads_spec toF y
    cases h : asSpec toF y with
    | none => rfl
    | some a => rw [h] at this; exact absurd (this.1 rfl) (by unfold IsScalar; grind)
  rw [form_or _ _ _ _ .bool (fun _ => rfl), form_or _ _ _ _ .int (fun _ => rfl), form_or _ _ _ _ .double (fun _ => rfl),
    form_or _ _ _ _ .string (fun _ => rfl)]
  simp only [reads_bool y, reads_int y, reads_double toF y, reads_string y]
  by_cases c1 : IsBool y
  · rw [if_pos c1, if_pos c1]
  rw [if_neg c1, if_neg c1]
  by_cases c2 : IsInt y
  · rw [if_pos c2, if_pos c2]
  rw [if_neg c2, if_neg c2]
  by_cases c3 : IsNum y
  · rw [if_pos c3, if_pos c3]
  rw [if_neg c3, if_neg c3]
  by_cases c4 : IsStr y
  · rw [if_pos c4, if_pos c4]
  rw [if_neg c4, if_neg c4, hs c1 c3 c4]
  simp only [Option.map_none, Option.none_or]
  rw [form_or _ _ _ _ .ints (fun _ => rfl), form_or _ _ _ _ .doubles (fun _ => rfl), form_or _ _ _ _ .bools (fun _ => rfl),
    form_or _ _ _ _ .strings (fun _ => rfl), form_or _ _ _ _ .anys (fun _ => rfl), form_or _ _ _ _ .listOfInts (fun _ => rfl),
    form_or _ _ _ _ .listOfDoubles (fun _ => rfl), form_or _ _ _ _ .listOfBools (fun _ => rfl)]
  simp only [reads_list reads_int y, reads_list (reads_double toF) y, reads_list reads_bool y, reads_list reads_string y,
    reads_list (reads_spec toF) y, reads_list (reads_list reads_int) y, reads_list (reads_list (reads_double toF)) y,
    reads_list (reads_list reads_bool) y]
  have hl : ((asList (asList asString) y).map Examples.listOfStrings).map Examples.form =
      if ListOf (ListOf IsStr) y then some .listOfStrings else none := by
    have := reads_list (reads_list reads_string) y
    by_cases h : ListOf (ListOf IsStr) y
    · rw [if_pos h]
      obtain ⟨a, ha⟩ := Option.isSome_iff_exists.1 (this.2 h)
      rw [ha]; rfl
    · rw [if_neg h]
      cases ha : asList (asList asString) y with
      | none => rfl
      | some a => rw [ha] at this; exact absurd (this.1 rfl) h
  rw [hl]

/-- The same as a case distinction. -/
theorem form_cases (y : Yaml) {F : Option Form} (hF : F = (readExamples toF y).map Examples.form) :
    ((IsBool y) ∧ F = some .bool) ∨
    ((¬ IsBool y ∧ IsInt y) ∧ F = some .int) ∨
    ((¬ IsBool y ∧ ¬ IsInt y ∧ IsNum y) ∧ F = some .double) ∨
    ((¬ IsBool y ∧ ¬ IsInt y ∧ ¬ IsNum y ∧ IsStr y) ∧ F = some .string) ∨
    ((¬ IsBool y ∧ ¬ IsInt y ∧ ¬ IsNum y ∧ ¬ IsStr y ∧ ListOf IsInt y) ∧ F = some .ints) ∨
    ((¬ IsBool y ∧ ¬ IsInt y ∧ ¬ IsNum y ∧ ¬ IsStr y ∧ ¬ ListOf IsInt y ∧ ListOf IsNum y) ∧ F = some .doubles) ∨
    ((¬ IsBool y ∧ ¬ IsInt y ∧ ¬ IsNum y ∧ ¬ IsStr y ∧ ¬ ListOf IsInt y ∧ ¬ ListOf IsNum y ∧ ListOf IsBool y) ∧ F = some .bools) ∨
    ((¬ IsBool y ∧ ¬ IsInt y ∧ ¬ IsNum y ∧ ¬ IsStr y ∧ ¬ ListOf IsInt y ∧ ¬ ListOf IsNum y ∧ ¬ ListOf IsBool y ∧ ListOf IsStr y) ∧ F = some .strings) ∨
    ((¬ IsBool y ∧ ¬ IsInt y ∧ ¬ IsNum y ∧ ¬ IsStr y ∧ ¬ ListOf IsInt y ∧ ¬ ListOf IsNum y ∧ ¬ ListOf IsBool y ∧ ¬ ListOf IsStr y ∧ ListOf IsScalar y) ∧ F = some .anys) ∨
    ((¬ IsBool y ∧ ¬ IsInt y ∧ ¬ IsNum y ∧ ¬ IsStr y ∧ ¬ ListOf IsInt y ∧ ¬ ListOf IsNum y ∧ ¬ ListOf IsBool y ∧ ¬ ListOf IsStr y ∧ ¬ ListOf IsScalar y ∧ ListOf (ListOf IsInt) y) ∧ F = some .listOfInts) ∨
    ((¬ IsBool y ∧ ¬ IsInt y ∧ ¬ IsNum y ∧ ¬ IsStr y ∧ ¬ ListOf IsInt y ∧ ¬ ListOf IsNum y ∧ ¬ ListOf IsBool y ∧ ¬ ListOf IsStr y ∧ ¬ ListOf IsScalar y ∧ ¬ ListOf (ListOf IsInt) y ∧ ListOf (ListOf IsNum) y) ∧ F = some .listOfDoubles) ∨
    ((¬ IsBool y ∧ ¬ IsInt y ∧ ¬ IsNum y ∧ ¬ IsStr y ∧ ¬ ListOf IsInt y ∧ ¬ ListOf IsNum y ∧ ¬ ListOf IsBool y ∧ ¬ ListOf IsStr y ∧ ¬ ListOf IsScalar y ∧ ¬ ListOf (ListOf IsInt) y ∧ ¬ ListOf (ListOf IsNum) y ∧ ListOf (ListOf IsBool) y) ∧ F = some .listOfBools) ∨
    ((¬ IsBool y ∧ ¬ IsInt y ∧ ¬ IsNum y ∧ ¬ IsStr y ∧ ¬ ListOf IsInt y ∧ ¬ ListOf IsNum y ∧ ¬ ListOf IsBool y ∧ ¬ ListOf IsStr y ∧ ¬ ListOf IsScalar y ∧ ¬ ListOf (ListOf IsInt) y ∧ ¬ ListOf (ListOf IsNum) y ∧ ¬ ListOf (ListOf IsBool) y ∧ ListOf (ListOf IsStr) y) ∧ F = some .listOfStrings) ∨
    ((¬ IsBool y ∧ ¬ IsInt y ∧ ¬ IsNum y ∧ ¬ IsStr y ∧ ¬ ListOf IsInt y ∧ ¬ ListOf IsNum y ∧ ¬ ListOf IsBool y ∧ ¬ ListOf IsStr y ∧ ¬ ListOf IsScalar y ∧ ¬ ListOf (ListOf IsInt) y ∧ ¬ ListOf (ListOf IsNum) y ∧ ¬ ListOf (ListOf IsBool) y ∧ ¬ ListOf (ListOf IsStr) y) ∧ F = none) := by
  rw [form_read] at hF
  by_cases c1 : IsBool y
  · rw [if_pos c1] at hF; exact .inl ⟨c1, hF⟩
  rw [if_neg c1] at hF
  by_cases c2 : IsInt y
  · rw [if_pos c2] at hF; exact .inr (.inl ⟨⟨c1, c2⟩, hF⟩)
  rw [if_neg c2] at hF
  by_cases c3 : IsNum y
  · rw [if_pos c3] at hF; exact .inr (.inr (.inl ⟨⟨c1, c2, c3⟩, hF⟩))
  rw [if_neg c3] at hF
  by_cases c4 : IsStr y
  · rw [if_pos c4] at hF; exact .inr (.inr (.inr (.inl ⟨⟨c1, c2, c3, c4⟩, hF⟩)))
  rw [if_neg c4] at hF
  by_cases c5 : ListOf IsInt y
  · rw [if_pos c5] at hF; exact .inr (.inr (.inr (.inr (.inl ⟨⟨c1, c2, c3, c4, c5⟩, hF⟩))))
  rw [if_neg c5] at hF
  by_cases c6 : ListOf IsNum y
  · rw [if_pos c6] at hF; exact .inr (.inr (.inr (.inr (.inr (.inl ⟨⟨c1, c2, c3, c4, c5, c6⟩, hF⟩)))))
  rw [if_neg c6] at hF
  by_cases c7 : ListOf IsBool y
  · rw [if_pos c7] at hF; exact .inr (.inr (.inr (.inr (.inr (.inr (.inl ⟨⟨c1, c2, c3, c4, c5, c6, c7⟩, hF⟩))))))
  rw [if_neg c7] at hF
  by_cases c8 : ListOf IsStr y
  · rw [if_pos c8] at hF; exact .inr (.inr (.inr (.inr (.inr (.inr (.inr (.inl ⟨⟨c1, c2, c3, c4, c5, c6, c7, c8⟩, hF⟩)))))))
  rw [if_neg c8] at hF
  by_cases c9 : ListOf IsScalar y
  · rw [if_pos c9] at hF; exact .inr (.inr (.inr (.inr (.inr (.inr (.inr (.inr (.inl ⟨⟨c1, c2, c3, c4, c5, c6, c7, c8, c9⟩, hF⟩))))))))
  rw [if_neg c9] at hF
  by_cases c10 : ListOf (ListOf IsInt) y
  · rw [if_pos c10] at hF; exact .inr (.inr (.inr (.inr (.inr (.inr (.inr (.inr (.inr (.inl ⟨⟨c1, c2, c3, c4, c5, c6, c7, c8, c9, c10⟩, hF⟩)))))))))
  rw [if_neg c10] at hF
  by_cases c11 : ListOf (ListOf IsNum) y
  · rw [if_pos c11] at hF; exact .inr (.inr (.inr (.inr (.inr (.inr (.inr (.inr (.inr (.inr (.inl ⟨⟨c1, c2, c3, c4, c5, c6, c7, c8, c9, c10, c11⟩, hF⟩))))))))))
  rw [if_neg c11] at hF
  by_cases c12 : ListOf (ListOf IsBool) y
  · rw [if_pos c12] at hF; exact .inr (.inr (.inr (.inr (.inr (.inr (.inr (.inr (.inr (.inr (.inr (.inl ⟨⟨c1, c2, c3, c4, c5, c6, c7, c8, c9, c10, c11, c12⟩, hF⟩)))))))))))
  rw [if_neg c12] at hF
  by_cases c13 : ListOf (ListOf IsStr) y
  · rw [if_pos c13] at hF; exact .inr (.inr (.inr (.inr (.inr (.inr (.inr (.inr (.inr (.inr (.inr (.inr (.inl ⟨⟨c1, c2, c3, c4, c5, c6, c7, c8, c9, c10, c11, c12, c13⟩, hF⟩))))))))))))
  rw [if_neg c13] at hF
  exact .inr (.inr (.inr (.inr (.inr (.inr (.inr (.inr (.inr (.inr (.inr (.inr (.inr ⟨⟨c1, c2, c3, c4, c5, c6, c7, c8, c9, c10, c11, c12, c13⟩, hF⟩))))))))))))

/-- The verdict depends on the variant only. -/
def formVerdict : Form → AType → Verdict
  | .bool, t => validate (.bool true) t
  | .int, t => validate (.int 0) t
  | .double, t => validate (.double 0) t
  | .string, t => validate (.string "") t
  | .any, t => validate (.any (.int 0)) t
  | .ints, t => validate (.ints []) t
  | .doubles, t => validate (.doubles []) t
  | .bools, t => validate (.bools []) t
  | .strings, t => validate (.strings []) t
  | .anys, t => validate (.anys []) t
  | .listOfInts, t => validate (.listOfInts []) t
  | .listOfDoubles, t => validate (.listOfDoubles []) t
  | .listOfBools, t => validate (.listOfBools []) t
  | .listOfStrings, t => validate (.listOfStrings []) t

theorem validate_form (ex : Examples) (t : AType) : validate ex t = formVerdict ex.form t := by
  cases t with
  | prim p => cases p <;> cases ex <;> rfl
  | template p => cases p <;> cases ex <;> rfl
  | enum ms => cases ex <;> rfl

/-- The verdict on examples in a file: `none` if they cannot be read, which makes the file invalid. -/
def verdict (y : Yaml) (t : AType) : Option Verdict := (readExamples toF y).map (validate · t)

theorem verdict_form (y : Yaml) (t : AType) :
    verdict toF y t = ((readExamples toF y).map Examples.form).map (formVerdict · t) := by
  unfold verdict
  cases readExamples toF y with
  | none => rfl
  | some ex => simp [validate_form]

theorem int_num {y : Yaml} (h : IsInt y) : IsNum y := by obtain ⟨n, h, _⟩ := h; exact .inl ⟨n, h⟩

theorem listOf_mono {P Q : Yaml → Prop} (h : ∀ y, P y → Q y) {y : Yaml} (hy : ListOf P y) : ListOf Q y := by
  obtain ⟨l, e, hl⟩ := hy; exact ⟨l, e, fun x hx => h x (hl x hx)⟩

theorem scalar_not_list {P : Yaml → Prop} {y : Yaml} (h : IsScalar y) : ¬ ListOf P y := by
  rintro ⟨l, rfl, _⟩
  rcases h with ⟨_, h⟩ | (⟨_, h⟩ | ⟨_, h⟩) | ⟨_, h⟩ <;> cases h

theorem list_disjoint {P Q : Yaml → Prop} (h : ∀ y, P y → ¬ Q y) {y : Yaml} (hp : ListOf P y) (hq : ListOf Q y) :
    y = .list [] := by
  obtain ⟨l, rfl, hl⟩ := hp
  obtain ⟨l', e, hl'⟩ := hq
  cases e
  cases l with
  | nil => rfl
  | cons x l => exact absurd (hl' x (by simp)) (h x (hl x (by simp)))

theorem nil_list (P : Yaml → Prop) : ListOf P (.list []) := ⟨[], rfl, by simp⟩

/-- Facts about the shapes, as one proposition for the case analysis. -/
theorem shapes (y : Yaml) :
    (IsInt y → IsNum y) ∧ (ListOf IsInt y → ListOf IsNum y) ∧ (ListOf (ListOf IsInt) y → ListOf (ListOf IsNum) y) ∧
    (IsBool y → ¬ IsNum y) ∧ (IsBool y → ¬ IsStr y) ∧ (IsNum y → ¬ IsStr y) ∧
    (∀ P, IsBool y → ¬ ListOf P y) ∧ (∀ P, IsNum y → ¬ ListOf P y) ∧ (∀ P, IsStr y → ¬ ListOf P y) ∧
    (ListOf IsBool y → ListOf IsNum y → ListOf IsInt y) ∧ (ListOf IsBool y → ListOf IsStr y → ListOf IsInt y) ∧
    (ListOf IsStr y → ListOf IsNum y → ListOf IsInt y) ∧
    (ListOf IsBool y → ListOf IsScalar y) ∧ (ListOf IsNum y → ListOf IsScalar y) ∧ (ListOf IsStr y → ListOf IsScalar y) ∧
    (∀ P, ListOf IsScalar y → ListOf (ListOf P) y → ListOf IsInt y) ∧
    (∀ P, y ≠ .list [] → ListOf IsInt y → ¬ ListOf (ListOf P) y) ∧
    (y = .list [] → ∀ P, ListOf P y) ∧
    (ListOf (ListOf IsBool) y → ListOf (ListOf IsNum) y → ListOf (ListOf IsInt) y) ∧
    (ListOf (ListOf IsBool) y → ListOf (ListOf IsStr) y → ListOf (ListOf IsInt) y) ∧
    (ListOf (ListOf IsStr) y → ListOf (ListOf IsNum) y → ListOf (ListOf IsInt) y) := by
  have bn : ∀ y, IsBool y → ¬ IsNum y := by rintro y ⟨b, rfl⟩ (⟨_, h⟩ | ⟨_, h⟩) <;> cases h
  have bs : ∀ y, IsBool y → ¬ IsStr y := by rintro y ⟨b, rfl⟩ ⟨_, h⟩; cases h
  have ns : ∀ y, IsNum y → ¬ IsStr y := by rintro y (⟨b, rfl⟩ | ⟨b, rfl⟩) ⟨_, h⟩ <;> cases h
  have two : ∀ {P Q : Yaml → Prop}, (∀ y, P y → ¬ Q y) → ListOf (ListOf P) y → ListOf (ListOf Q) y →
      ListOf (ListOf IsInt) y := by
    rintro P Q h ⟨l, rfl, h1⟩ ⟨l', e, h2⟩
    cases e
    refine ⟨l, rfl, fun x hx => ?_⟩
    rw [list_disjoint h (h1 x hx) (h2 x hx)]; exact nil_list _
  refine ⟨int_num, listOf_mono fun _ => int_num, listOf_mono fun _ => listOf_mono fun _ => int_num, bn y, bs y, ns y,
    fun P h => scalar_not_list (.inl h), fun P h => scalar_not_list (.inr (.inl h)), fun P h => scalar_not_list (.inr (.inr h)),
    ?_, ?_, ?_, listOf_mono fun _ => .inl, listOf_mono fun _ h => .inr (.inl h), listOf_mono fun _ h => .inr (.inr h), ?_, ?_, ?_,
    two bn, two bs, two (fun y h h' => ns y h' h)⟩
  · intro h h'; rw [list_disjoint bn h h']; exact nil_list _
  · intro h h'; rw [list_disjoint bs h h']; exact nil_list _
  · intro h h'; rw [list_disjoint (fun y h h' => ns y h' h) h h']; exact nil_list _
  · intro P h h'; rw [list_disjoint (fun y => scalar_not_list) h h']; exact nil_list _
  · intro P hne h h'
    exact hne (list_disjoint (fun y hy => scalar_not_list (.inr (.inl (int_num hy)))) h h')
  · rintro rfl P; exact nil_list P

/-- Examples are accepted for a type exactly if they fit it. -/
theorem accepted_iff (y : Yaml) (p : PType) : verdict toF y (.prim p) = some .ok ↔ Fits y p := by
  rw [verdict_form]
  have h := shapes y
  generalize hF : (readExamples toF y).map Examples.form = F
  rcases form_cases toF y hF.symm with ⟨c, rfl⟩ | ⟨c, rfl⟩ | ⟨c, rfl⟩ | ⟨c, rfl⟩ | ⟨c, rfl⟩ | ⟨c, rfl⟩ | ⟨c, rfl⟩ | ⟨c, rfl⟩ | ⟨c, rfl⟩ | ⟨c, rfl⟩ | ⟨c, rfl⟩ | ⟨c, rfl⟩ | ⟨c, rfl⟩ | ⟨c, rfl⟩
  all_goals cases p <;> first | refine iff_of_true rfl ?_ | refine iff_of_false (fun h => nomatch h) ?_
  all_goals simp only [Fits, Readable, IsScalar]
  all_goals grind

/-- Examples for an array type are tolerated with a warning exactly if they are a single array of that type. -/
theorem tolerated_iff (y : Yaml) (p : PType) : verdict toF y (.prim p) = some .warning ↔ Tolerated y p := by
  rw [verdict_form]
  have h := shapes y
  generalize hF : (readExamples toF y).map Examples.form = F
  rcases form_cases toF y hF.symm with ⟨c, rfl⟩ | ⟨c, rfl⟩ | ⟨c, rfl⟩ | ⟨c, rfl⟩ | ⟨c, rfl⟩ | ⟨c, rfl⟩ | ⟨c, rfl⟩ | ⟨c, rfl⟩ | ⟨c, rfl⟩ | ⟨c, rfl⟩ | ⟨c, rfl⟩ | ⟨c, rfl⟩ | ⟨c, rfl⟩ | ⟨c, rfl⟩
  all_goals cases p <;> first | refine iff_of_true rfl ?_ | refine iff_of_false (fun h => nomatch h) ?_
  all_goals simp only [Tolerated]
  all_goals grind

/-- For templates, examples are accepted if they fit the type of the values. -/
theorem accepted_template_iff (y : Yaml) (p : PType) : verdict toF y (.template p) = some .ok ↔ Fits y p := by
  rw [verdict_form]
  have h := shapes y
  generalize hF : (readExamples toF y).map Examples.form = F
  rcases form_cases toF y hF.symm with ⟨c, rfl⟩ | ⟨c, rfl⟩ | ⟨c, rfl⟩ | ⟨c, rfl⟩ | ⟨c, rfl⟩ | ⟨c, rfl⟩ | ⟨c, rfl⟩ | ⟨c, rfl⟩ | ⟨c, rfl⟩ | ⟨c, rfl⟩ | ⟨c, rfl⟩ | ⟨c, rfl⟩ | ⟨c, rfl⟩ | ⟨c, rfl⟩
  all_goals cases p <;> first | refine iff_of_true rfl ?_ | refine iff_of_false (fun h => nomatch h) ?_
  all_goals simp only [Fits, Readable, IsScalar]
  all_goals grind

/-- For templates, only strings are tolerated for string arrays. -/
theorem tolerated_template_iff (y : Yaml) (p : PType) : verdict toF y (.template p) = some .warning ↔ ToleratedTemplate y p := by
  rw [verdict_form]
  have h := shapes y
  generalize hF : (readExamples toF y).map Examples.form = F
  rcases form_cases toF y hF.symm with ⟨c, rfl⟩ | ⟨c, rfl⟩ | ⟨c, rfl⟩ | ⟨c, rfl⟩ | ⟨c, rfl⟩ | ⟨c, rfl⟩ | ⟨c, rfl⟩ | ⟨c, rfl⟩ | ⟨c, rfl⟩ | ⟨c, rfl⟩ | ⟨c, rfl⟩ | ⟨c, rfl⟩ | ⟨c, rfl⟩ | ⟨c, rfl⟩
  all_goals cases p <;> first | refine iff_of_true rfl ?_ | refine iff_of_false (fun h => nomatch h) ?_
  all_goals simp only [ToleratedTemplate]
  all_goals grind

/-- For enums, everything that can be read is accepted. -/
theorem accepted_enum_iff (y : Yaml) (ms : List Elem) : verdict toF y (.enum ms) = some .ok ↔ Readable y := by
  rw [verdict_form]
  have h := shapes y
  generalize hF : (readExamples toF y).map Examples.form = F
  rcases form_cases toF y hF.symm with ⟨c, rfl⟩ | ⟨c, rfl⟩ | ⟨c, rfl⟩ | ⟨c, rfl⟩ | ⟨c, rfl⟩ | ⟨c, rfl⟩ | ⟨c, rfl⟩ | ⟨c, rfl⟩ | ⟨c, rfl⟩ | ⟨c, rfl⟩ | ⟨c, rfl⟩ | ⟨c, rfl⟩ | ⟨c, rfl⟩ | ⟨c, rfl⟩
  all_goals first | refine iff_of_true rfl ?_ | refine iff_of_false (fun h => nomatch h) ?_
  all_goals simp only [Readable, IsScalar]
  all_goals grind

/-- Examples that cannot be read make the file invalid; everything else is accepted, tolerated or an error. -/
theorem unreadable_iff (y : Yaml) (t : AType) : verdict toF y t = none ↔ ¬ Readable y := by
  rw [verdict_form]
  have h := shapes y
  generalize hF : (readExamples toF y).map Examples.form = F
  rcases form_cases toF y hF.symm with ⟨c, rfl⟩ | ⟨c, rfl⟩ | ⟨c, rfl⟩ | ⟨c, rfl⟩ | ⟨c, rfl⟩ | ⟨c, rfl⟩ | ⟨c, rfl⟩ | ⟨c, rfl⟩ | ⟨c, rfl⟩ | ⟨c, rfl⟩ | ⟨c, rfl⟩ | ⟨c, rfl⟩ | ⟨c, rfl⟩ | ⟨c, rfl⟩
  all_goals first | refine iff_of_true rfl ?_ | refine iff_of_false (fun h => nomatch h) ?_
  all_goals simp only [Readable, IsScalar]
  all_goals grind

/-- C83 fails: an empty list is an error as examples of a string, and an integer is an error as an example of a double,
though the same integer next to a double is accepted. -/
theorem natural_examples_refuted : verdict toF (.list []) (.prim .string) = some .error ∧
    verdict toF (.scalar (.int 1)) (.prim .double) = some .error ∧
    verdict toF (.list [.scalar (.int 1), .scalar (.dbl 7)]) (.prim .double) = some .ok := ⟨rfl, rfl, rfl⟩

end Verif.Values
