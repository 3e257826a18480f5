import Verif.Macro.Model
import Verif.Case.Letter
/-
What the derive macro of the commands promises: defaults, types, flags, the test of the names, the name of the struct.
-/
namespace Verif.Macro
open Verif.Util

/-! ### C263: defaults -/

/-- A number in decimal. -/
def decimal : Int → Chars
  | .ofNat n => Nat.toDigits 10 n
  | .negSucc n => '-' :: Nat.toDigits 10 (n + 1)

/-- The integer types, with the numbers of their bits and whether they are signed. -/
def intTypes : List (String × Nat × Bool) :=
  [("u8", 8, false), ("u16", 16, false), ("u32", 32, false), ("u64", 64, false), ("usize", 64, false),
   ("i8", 8, true), ("i16", 16, true), ("i32", 32, true), ("i64", 64, true)]

/-- What a text means as a value of a type: specification, for the types whose values are texts, truth values and numbers. -/
inductive Means : String → Chars → Expr → Prop where
  | text (s) : Means "String" s (.text s)
  | path (s) : Means "PathBuf" s (.path s)
  | addr (s) : Means "SocketAddr" s (.addr s)
  | yes : Means "bool" ['t', 'r', 'u', 'e'] (.bool true)
  | no : Means "bool" ['f', 'a', 'l', 's', 'e'] (.bool false)
  | unsigned (ty : String) (bits : Nat) (n : Int) (ht : (ty, bits, false) ∈ intTypes) (hl : 0 ≤ n) (hh : n < 2 ^ bits) :
      Means ty (decimal n) (.int ty n)
  | signed (ty : String) (bits : Nat) (n : Int) (ht : (ty, bits, true) ∈ intTypes) (hl : -2 ^ (bits - 1) ≤ n)
      (hh : n < 2 ^ (bits - 1)) : Means ty (decimal n) (.int ty n)

theorem readDigits_toDigits (n : Nat) : readDigits (Nat.toDigits 10 n) = some n := by
  unfold readDigits
  have h : (Nat.toDigits 10 n).all Char.isDigit = true :=
    List.all_eq_true.2 fun c hc => Nat.isDigit_of_mem_toDigits (b := 10) (by decide) (by decide) hc
  rw [if_pos ⟨Nat.toDigits_ne_nil, h⟩, Nat.ofDigitChars_toDigits (by decide) (by decide)]

theorem toDigits_no_sign (n : Nat) (c : Char) (t : Chars) (h : Nat.toDigits 10 n = c :: t) : c ≠ '-' ∧ c ≠ '+' := by
  have := Nat.isDigit_of_mem_toDigits (b := 10) (n := n) (c := c) (by decide) (by decide) (by rw [h]; simp)
  constructor <;> rintro rfl <;> simp [Char.isDigit] at this

theorem readSigned_nat (signed : Bool) (n : Nat) : readSigned signed (Nat.toDigits 10 n) = some (n : Int) := by
  unfold readSigned
  split
  · rename_i t h; exact absurd rfl (toDigits_no_sign n _ _ h).1
  · rename_i t h; exact absurd rfl (toDigits_no_sign n _ _ h).2
  · rw [readDigits_toDigits]; rfl

theorem parseInt_decimal {lo hi n : Int} (hl : lo ≤ n) (hh : n ≤ hi) : parseInt lo hi (decimal n) = some n := by
  unfold parseInt
  have e : readSigned (decide (lo < 0)) (decimal n) = some n := by
    cases n with
    | ofNat n => exact readSigned_nat _ n
    | negSucc n =>
      have h0 : lo < 0 := by omega
      simp only [decimal, readSigned, h0, decide_true, if_true, readDigits_toDigits, Option.map_some]
      rfl
  rw [e]
  simp [Option.filter, hl, hh]

theorem bounds_names {ty : String} {b : Int × Int} (h : bounds ty = some b) :
    ty ≠ "String" ∧ ty ≠ "PathBuf" ∧ ty ≠ "SocketAddr" ∧ ty ≠ "bool" := by
  refine ⟨?_, ?_, ?_, ?_⟩ <;> rintro rfl <;> simp [bounds] at h

theorem bounds_unsigned {ty : String} {bits : Nat} (h : (ty, bits, false) ∈ intTypes) :
    bounds ty = some (0, 2 ^ bits - 1) := by
  simp only [intTypes, List.mem_cons, Prod.mk.injEq, List.not_mem_nil, or_false, Bool.false_eq_true, and_false] at h
  rcases h with ⟨rfl, rfl, _⟩ | ⟨rfl, rfl, _⟩ | ⟨rfl, rfl, _⟩ | ⟨rfl, rfl, _⟩ | ⟨rfl, rfl, _⟩ <;> simp [bounds]

theorem bounds_signed {ty : String} {bits : Nat} (h : (ty, bits, true) ∈ intTypes) :
    bounds ty = some (-2 ^ (bits - 1), 2 ^ (bits - 1) - 1) := by
  simp only [intTypes, List.mem_cons, Prod.mk.injEq, List.not_mem_nil, or_false, Bool.true_eq_false, and_false, false_or] at h
  rcases h with ⟨rfl, rfl, _⟩ | ⟨rfl, rfl, _⟩ | ⟨rfl, rfl, _⟩ | ⟨rfl, rfl, _⟩ <;> simp [bounds]

theorem defaultExpr_int (floatOk : Chars → Bool) {t : RTy} {lo hi n : Int} (hb : bounds (lastSegment t) = some (lo, hi))
    (hl : lo ≤ n) (hh : n ≤ hi) : defaultExpr floatOk t (some (decimal n)) = .int (lastSegment t) n := by
  obtain ⟨h1, h2, h3, h4⟩ := bounds_names hb
  simp [defaultExpr, h1, h2, h3, h4, hb, parseInt_decimal hl hh]

/-- A text that means a value of the type becomes that value. -/
theorem defaultExpr_means (floatOk : Chars → Bool) {t : RTy} {s : Chars} {e : Expr} (h : Means (lastSegment t) s e) :
    defaultExpr floatOk t (some s) = e := by
  generalize hn : lastSegment t = name at h
  cases h with
  | text => simp [defaultExpr, hn]
  | path => simp [defaultExpr, hn]
  | addr => simp [defaultExpr, hn]
  | yes => simp [defaultExpr, hn, parseBool]
  | no => simp [defaultExpr, hn, parseBool]
  | unsigned _ bits n ht hl hh =>
    subst hn
    exact defaultExpr_int floatOk (bounds_unsigned ht) hl (by omega)
  | signed _ bits n ht hl hh =>
    subst hn
    exact defaultExpr_int floatOk (bounds_signed ht) hl (by omega)

/-- The first attribute that says what the field is, is a `#[config]` that can be read. -/
def Plain (attrs : List Attr) (a : Annotation) : Prop :=
  ∃ pre items post, attrs = pre ++ .config items :: post ∧ (∀ x ∈ pre, x = .other) ∧ parseAnnotation false items = some a

theorem plain_classify {attrs : List Attr} {a : Annotation} (h : Plain attrs a) :
    classify attrs = some (.config a) ∧ shownDefault attrs = a.default := by
  obtain ⟨pre, items, post, rfl, hp, hi⟩ := h
  induction pre with
  | nil => simp [classify, shownDefault, hi]
  | cons x pre ih =>
    have := hp x List.mem_cons_self
    subst this
    simpa [classify, shownDefault] using ih fun y hy => hp y (List.mem_cons_of_mem _ hy)

theorem mem_defaultImpl {floatOk : Chars → Bool} {fields : List (Field × FieldKind)} {n : Chars} {e : Expr} :
    (n, e) ∈ defaultImpl floatOk fields ↔ ∃ f a, (f, FieldKind.config a) ∈ fields ∧ a.path = none ∧ f.name = n ∧
      defaultExpr floatOk ((optionInner f.ty).getD f.ty) a.default = e := by
  unfold defaultImpl
  rw [List.mem_filterMap]
  constructor
  · rintro ⟨⟨f, k⟩, hm, h⟩
    cases k with
    | config a =>
      cases hp : a.path with
      | some p => simp [hp] at h
      | none =>
        simp only [hp, Option.some.injEq, Prod.mk.injEq] at h
        exact ⟨f, a, hm, hp, h.1, h.2⟩
    | shared k => simp at h
    | cliOnly => simp at h
  · rintro ⟨f, a, hm, hp, h1, h2⟩
    exact ⟨(f, .config a), hm, by simp [hp, h1, h2]⟩

/-- C263, as far as it holds: if a field is annotated with `#[config(default = …)]` only, without a path, and the text of the
default means a value of its type, then the help shows the text of the value that the generated configuration has. -/
theorem shown_default_is_used_partial (floatOk : Chars → Bool) (fields : List (Field × FieldKind)) (f : Field)
    (a : Annotation) (s : Chars) (v : Expr) (hf : (f, FieldKind.config a) ∈ fields) (hp : Plain f.attrs a)
    (hn : a.path = none) (hm : Means (lastSegment ((optionInner f.ty).getD f.ty)) s v)
    (hs : shownDefault f.attrs = some s) : (f.name, v) ∈ defaultImpl floatOk fields := by
  rw [(plain_classify hp).2] at hs
  exact mem_defaultImpl.2 ⟨f, a, hf, hn, rfl, by rw [hs]; exact defaultExpr_means floatOk hm⟩

/-- If nothing is shown, nothing is set. -/
theorem no_default_is_none (floatOk : Chars → Bool) (fields : List (Field × FieldKind)) (f : Field) (a : Annotation)
    (hf : (f, FieldKind.config a) ∈ fields) (hp : Plain f.attrs a) (hn : a.path = none)
    (hs : shownDefault f.attrs = none) : (f.name, Expr.none) ∈ defaultImpl floatOk fields := by
  rw [(plain_classify hp).2] at hs
  exact mem_defaultImpl.2 ⟨f, a, hf, hn, rfl, by rw [hs]; rfl⟩

/-- The default of a setting with a path is shown but nothing is generated from it. -/
theorem path_default_unused (floatOk : Chars → Bool) (fields : List (Field × FieldKind)) (n : Chars) (e : Expr)
    (h : ∀ f a, (f, FieldKind.config a) ∈ fields → f.name = n → a.path ≠ none) :
    (n, e) ∉ defaultImpl floatOk fields := by
  rw [mem_defaultImpl]
  rintro ⟨f, a, hm, hp, hn, _⟩
  exact h f a hm hn hp

/-- The last of several defaults of one attribute counts. -/
theorem parse_last_default (only : Bool) (items : List Item) (s : Chars) (a : Annotation)
    (h : parseAnnotation only (some (items ++ [.default (some s)])) = some a) : a.default = some s ∧ a.configOnly = only := by
  have key : ∀ (items : List Item) (a₀ a : Annotation), items.foldlM readItem a₀ = some a → a.configOnly = a₀.configOnly := by
    intro items
    induction items with
    | nil => intro a₀ a h; simp only [List.foldlM_nil] at h; cases h; rfl
    | cons i items ih =>
      intro a₀ a h
      rw [List.foldlM_cons] at h
      cases hi : readItem a₀ i with
      | none => rw [hi] at h; exact absurd h (by simp)
      | some a₁ =>
        rw [hi] at h
        rw [ih a₁ a h]
        unfold readItem at hi
        split at hi <;> first | (cases hi; rfl) | exact absurd hi (by simp)
  refine ⟨?_, key _ _ _ h⟩
  unfold parseAnnotation at h
  dsimp only at h
  rw [List.foldlM_append] at h
  cases hi : items.foldlM readItem { configOnly := only } with
  | none => rw [hi] at h; exact absurd h (by simp)
  | some a₁ =>
    rw [hi] at h
    simp only [List.foldlM_cons, List.foldlM_nil, readItem, Option.bind_eq_bind, Option.bind_some] at h
    cases h; rfl

/-- A flag `--dry-run` with the default `yes`. -/
def yesField : Field :=
  ⟨"dry_run".toList, .named "Option" [.named "bool" []], [.other, .config (some [.default (some "yes".toList)])]⟩

/-- A setting for the file with an annotation for the command line after it. -/
def twoField : Field :=
  ⟨"output".toList, .named "Option" [.named "String" []],
    [.configOnly (some [.default (some "a".toList)]), .config (some [.default (some "b".toList)])]⟩

/-- C263 does not hold: the help of `yesField` says `[default: yes]` while the default is `false`; the text is not refused. And
the help of `twoField` says `[default: b]` while the default is `a`. -/
theorem shown_default_is_used_refuted : ¬ (∀ (floatOk : Chars → Bool) (f : Field) (k : FieldKind) (s : Chars) (v : Expr),
    parseFields [f] = some [(f, k)] → shownDefault f.attrs = some s → (f.name, v) ∈ defaultImpl floatOk [(f, k)] →
    Means (lastSegment ((optionInner f.ty).getD f.ty)) s v) := by
  intro h
  have h1 := h (fun _ => true) yesField (.config { default := some "yes".toList }) "yes".toList (.bool false) rfl rfl
    (List.mem_cons_self)
  generalize hs : "yes".toList = s at h1
  generalize hv : Expr.bool false = v at h1
  generalize hn : lastSegment ((optionInner yesField.ty).getD yesField.ty) = n at h1
  cases h1 with
  | text => cases hv
  | path => cases hv
  | addr => cases hv
  | yes => cases hv
  | no => exact absurd hs (by decide)
  | unsigned => cases hv
  | signed => cases hv

theorem two_annotations_refuted : shownDefault twoField.attrs = some "b".toList ∧
    ∃ k, parseFields [twoField] = some [(twoField, k)] ∧
      ∀ v, (twoField.name, v) ∈ defaultImpl (fun _ => true) [(twoField, k)] → v = .text "a".toList := by
  refine ⟨rfl, .config { default := some "a".toList, configOnly := true }, rfl, ?_⟩
  intro v hv
  obtain ⟨f, a, hm, _, _, he⟩ := mem_defaultImpl.1 hv
  rw [List.mem_singleton] at hm
  injection hm with h1 h2
  injection h2 with h3
  subst h1; subst h3
  rw [← he]
  rfl

/-- A port that is too large becomes port 0. -/
example : defaultExpr (fun _ => true) (.named "u16" []) (some "70000".toList) = .int "u16" 0 := by decide +kernel
example : defaultExpr (fun _ => true) (.named "u16" []) (some "4317".toList) = .int "u16" 4317 := by decide +kernel
example : defaultExpr (fun _ => true) (.named "i8" []) (some "-128".toList) = .int "i8" (-128) := by decide +kernel
example : Means "u16" "4317".toList (.int "u16" 4317) := .unsigned "u16" 16 4317 (by simp [intTypes]) (by decide) (by decide)
example : helpText "otlp".toList = "[default: otlp]".toList := by decide +kernel

/-! ### C264: types -/

/-- The types for which a default can be written. -/
def known : List String :=
  ["String", "PathBuf", "SocketAddr", "bool", "u8", "u16", "u32", "u64", "usize", "i8", "i16", "i32", "i64", "f32", "f64"]

/-- The two forms of `override_if_set!` (overrides.rs:165-176): from `Option<T>` to `T`, and from `Option<T>` to
`Option<T>`. -/
def OverrideTyped (t : RTy) (a : Annotation) : Prop :=
  ∃ u, t = .named "Option" [u] ∧ configType t a = if a.default.isSome then u else t

/-- What the compiler asks of a setting without a path: the default and the override have the type of the field. -/
def Compiles (floatOk : Chars → Bool) (t : RTy) (a : Annotation) : Prop :=
  hasType (defaultExpr floatOk ((optionInner t).getD t) a.default) (configType t a) = true ∧ OverrideTyped t a

theorem default_ne_none (floatOk : Chars → Bool) (u : RTy) (s : Chars) : defaultExpr floatOk u (some s) ≠ .none := by
  unfold defaultExpr
  dsimp only
  repeat' split
  all_goals simp

theorem hasType_args {e : Expr} (he : e ≠ .none) (n : String) (x : RTy) (xs : List RTy) :
    hasType e (.named n (x :: xs)) = false := by
  cases e <;> first | exact absurd rfl he | simp [hasType]

theorem hasType_default (floatOk : Chars → Bool) (u : RTy) (s : Chars) :
    hasType (defaultExpr floatOk u (some s)) u = true ↔ ∃ n ∈ known, u = .named n [] := by
  constructor
  · intro h
    cases u with
    | other => simp [defaultExpr, lastSegment, bounds, hasType] at h
    | named n args =>
      cases args with
      | cons x xs => rw [hasType_args (default_ne_none floatOk _ s)] at h; exact absurd h (by simp)
      | nil =>
        refine ⟨n, ?_, rfl⟩
        refine Classical.byContradiction fun hk => ?_
        simp only [known, List.mem_cons, List.not_mem_nil, or_false, not_or] at hk
        obtain ⟨e1, e2, e3, e4, e5, e6, e7, e8, e9, e10, e11, e12, e13, e14, e15⟩ := hk
        have hb : bounds n = none := by
          unfold bounds
          split <;> first | rfl | exact absurd rfl ‹_›
        simp [defaultExpr, lastSegment, hb, e1, e2, e3, e4, e14, e15, hasType] at h
  · rintro ⟨n, hn, rfl⟩
    simp only [known, List.mem_cons, List.not_mem_nil, or_false] at hn
    rcases hn with h | h | h | h | h | h | h | h | h | h | h | h | h | h | h <;> subst h <;>
      simp [defaultExpr, lastSegment, bounds, hasType]

/-- C264: a setting compiles exactly if the argument is optional and either has no default or is of a known type. Whether the
text of the default can be read as a value of the type does not matter. -/
theorem compiles_iff (floatOk : Chars → Bool) (t : RTy) (a : Annotation) :
    Compiles floatOk t a ↔ ∃ u, t = .named "Option" [u] ∧ (a.default = none ∨ ∃ n ∈ known, u = .named n []) := by
  unfold Compiles OverrideTyped
  constructor
  · rintro ⟨h, u, rfl, _⟩
    refine ⟨u, rfl, ?_⟩
    cases hd : a.default with
    | none => exact .inl rfl
    | some s =>
      right
      simp only [configType, hd, optionInner, Option.getD_some] at h
      exact (hasType_default floatOk u s).1 h
  · rintro ⟨u, rfl, h⟩
    cases hd : a.default with
    | none => exact ⟨by simp [configType, hd, defaultExpr, hasType], u, rfl, by simp [configType, hd]⟩
    | some s =>
      rw [hd] at h
      have h2 := h.resolve_left (by simp)
      refine ⟨?_, u, rfl, by simp [configType, hd, optionInner]⟩
      simp only [configType, hd, optionInner, Option.getD_some]
      exact (hasType_default floatOk u s).2 h2

/-- The struct and its `Default` have the same fields in the same order. -/
theorem struct_default_fields (floatOk : Chars → Bool) (fields : List (Field × FieldKind)) :
    (configStruct fields).map Prod.fst = (defaultImpl floatOk fields).map Prod.fst := by
  unfold configStruct defaultImpl
  induction fields with
  | nil => rfl
  | cons fk fields ih =>
    obtain ⟨f, k⟩ := fk
    cases k with
    | config a => cases hp : a.path <;> simp [hp, ih]
    | shared k => simpa using ih
    | cliOnly => simpa using ih

/-- They are the settings without a path. -/
theorem struct_fields (fields : List (Field × FieldKind)) (n : Chars) :
    n ∈ (configStruct fields).map Prod.fst ↔ ∃ f a, (f, FieldKind.config a) ∈ fields ∧ a.path = none ∧ f.name = n := by
  rw [struct_default_fields (fun _ => true), List.mem_map]
  constructor
  · rintro ⟨⟨m, e⟩, h, rfl⟩
    obtain ⟨f, a, h1, h2, h3, _⟩ := mem_defaultImpl.1 h
    exact ⟨f, a, h1, h2, h3⟩
  · rintro ⟨f, a, h1, h2, h3⟩
    exact ⟨_, mem_defaultImpl.2 ⟨f, a, h1, h2, h3, rfl⟩, rfl⟩

/-- A plain `bool` with a default is refused by the compiler, and so is a type of its own such as the level of `--fail-on`, for
which `live-check` brings its own struct. -/
example (floatOk : Chars → Bool) (s : Chars) : ¬ Compiles floatOk (.named "bool" []) { default := some s } := by
  rw [compiles_iff]; rintro ⟨u, h, _⟩; simp at h
example (floatOk : Chars → Bool) (s : Chars) :
    ¬ Compiles floatOk (.named "Option" [.named "FailOnLevel" []]) { default := some s } := by
  rw [compiles_iff]; rintro ⟨u, h, h2 | ⟨n, hn, h2⟩⟩
  · simp at h2
  · injection h with _ h; injection h with h; subst h; injection h2 with h2; subst h2; simp [known] at hn
example (floatOk : Chars → Bool) : Compiles floatOk (.named "Option" [.named "bool" []]) { default := some "yes".toList } :=
  (compiles_iff floatOk _ _).2 ⟨_, rfl, .inr ⟨"bool", by simp [known], rfl⟩⟩

/-! ### C265: flags -/

/-- What no flag that is given writes to stays. -/
theorem apply_other {V : Type} (args : Chars → Option V) (c : List Chars → Option V) (fields : List (Field × FieldKind))
    (p : List Chars)
    (h : ∀ f a, (f, FieldKind.config a) ∈ fields → args f.name ≠ none → dest f.name a ≠ p) :
    applyOverrides args c fields p = c p := by
  induction fields generalizing c with
  | nil => rfl
  | cons fk rest ih =>
    obtain ⟨f, k⟩ := fk
    have hr := fun c => ih c fun g a hg hn => h g a (List.mem_cons_of_mem _ hg) hn
    cases k with
    | config a =>
      unfold applyOverrides
      cases hv : args f.name with
      | none => exact hr c
      | some v =>
        dsimp only
        rw [hr, if_neg]
        exact fun e => h f a List.mem_cons_self (by simp [hv]) e.symm
    | shared k => exact hr c
    | cliOnly => exact hr c

/-- The last flag that is given for a place decides. -/
theorem apply_last {V : Type} (args : Chars → Option V) (c : List Chars → Option V) (pre post : List (Field × FieldKind))
    (f : Field) (a : Annotation) (v : V) (hv : args f.name = some v)
    (h : ∀ g b, (g, FieldKind.config b) ∈ post → args g.name ≠ none → dest g.name b ≠ dest f.name a) :
    applyOverrides args c (pre ++ (f, .config a) :: post) (dest f.name a) = some v := by
  induction pre generalizing c with
  | nil =>
    simp only [List.nil_append]
    unfold applyOverrides
    rw [hv]
    dsimp only
    rw [apply_other _ _ _ _ h, if_pos rfl]
  | cons fk pre ih =>
    obtain ⟨g, k⟩ := fk
    simp only [List.cons_append]
    cases k with
    | config b =>
      unfold applyOverrides
      cases args g.name with
      | none => exact ih c
      | some w => exact ih _
    | shared k => exact ih c
    | cliOnly => exact ih c

/-- Different fields with settings write to different places. -/
def DistinctDests (fields : List (Field × FieldKind)) : Prop :=
  fields.Pairwise fun x y => ∀ a b, x.2 = FieldKind.config a → y.2 = FieldKind.config b → dest x.1.name a ≠ dest y.1.name b

/-- C265: if different fields write to different places, then after the overrides each setting has the value of its flag if that
is given, and what it had before if not; and no other place changes. -/
theorem flags_write_their_own {V : Type} (args : Chars → Option V) (c : List Chars → Option V)
    (fields : List (Field × FieldKind)) (hd : DistinctDests fields) :
    (∀ f a, (f, FieldKind.config a) ∈ fields →
      applyOverrides args c fields (dest f.name a) = (args f.name).or (c (dest f.name a))) ∧
    (∀ p, (∀ f a, (f, FieldKind.config a) ∈ fields → dest f.name a ≠ p) → applyOverrides args c fields p = c p) := by
  refine ⟨?_, fun p hp => apply_other args c fields p fun f a hf _ => hp f a hf⟩
  intro f a hf
  obtain ⟨pre, post, rfl⟩ := List.append_of_mem hf
  unfold DistinctDests at hd
  rw [List.pairwise_append, List.pairwise_cons] at hd
  obtain ⟨_, ⟨h2, _⟩, h3⟩ := hd
  have hpost : ∀ g b, (g, FieldKind.config b) ∈ post → dest g.name b ≠ dest f.name a := fun g b hg =>
    (h2 _ hg a b rfl rfl).symm
  cases hv : args f.name with
  | some v =>
    simp only [Option.some_or]
    exact apply_last args c pre post f a v hv fun g b hg _ => hpost g b hg
  | none =>
    simp only [Option.none_or]
    apply apply_other
    intro g b hg hn
    rcases List.mem_append.1 hg with hg | hg
    · exact h3 _ hg _ List.mem_cons_self b a rfl rfl
    · rcases List.mem_cons.1 hg with hg | hg
      · injection hg with h1 _; subst h1; exact absurd hv hn
      · exact hpost g b hg

/-- Two flags for one setting: the one of the later field wins, whatever the order on the command line. -/
theorem flags_write_their_own_refuted : ¬ (∀ (args : Chars → Option Nat) (c : List Chars → Option Nat)
    (fields : List (Field × FieldKind)) (f : Field) (a : Annotation), (f, FieldKind.config a) ∈ fields →
    applyOverrides args c fields (dest f.name a) = (args f.name).or (c (dest f.name a))) := by
  intro h
  have := h (fun n => if n = "port".toList then some 1 else some 2) (fun _ => none)
    [(⟨"port".toList, .other, []⟩, .config { path := some "otlp.port".toList }),
     (⟨"admin".toList, .other, []⟩, .config { path := some "otlp.port".toList })]
    ⟨"port".toList, .other, []⟩ { path := some "otlp.port".toList } List.mem_cons_self
  exact absurd this (by decide +kernel)

/-- Of several fields for shared arguments of one kind the last is used. -/
theorem sharedField_last (k : Kind) (pre post : List (Field × FieldKind)) (f : Field)
    (h : ∀ x ∈ post, x.2 ≠ .shared k) : sharedField k (pre ++ (f, .shared k) :: post) = some f.name := by
  unfold sharedField
  rw [List.foldl_append, List.foldl_cons, if_pos rfl]
  suffices H : ∀ r, post.foldl (fun r fk => if fk.2 = FieldKind.shared k then some fk.1.name else r) r = r from H _
  induction post with
  | nil => exact fun r => rfl
  | cons x post ih =>
    intro r
    rw [List.foldl_cons, if_neg (h x List.mem_cons_self)]
    exact ih (fun y hy => h y (List.mem_cons_of_mem _ hy)) r

end Verif.Macro
