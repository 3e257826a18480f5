import Verif.Macro.Names
/-
What a field of the arguments is: crates/weaver_macros/src/weaver_command.rs:246-278, and the names that the commands exclude and
add, 190-199 and 681-724.
-/
namespace Verif.Macro
open Verif.Util

/-- The last kind that is known among the words of `#[shared(...)]`. -/
def LastKind (ks : List (Option Kind)) (k : Kind) : Prop :=
  ∃ pre post, ks = pre ++ some k :: post ∧ ∀ x ∈ post, x = none

/-- C292. -/
theorem sharedKind_iff (ks : List (Option Kind)) (k : Kind) : sharedKind ks = some k ↔ LastKind ks k := by
  have gen : ∀ (ks : List (Option Kind)) (r : Option Kind), ks.foldl (fun r k => k.or r) r = some k ↔
      LastKind ks k ∨ (∀ x ∈ ks, x = none) ∧ r = some k := by
    intro ks
    induction ks with
    | nil =>
      intro r
      simp only [List.foldl_nil, List.not_mem_nil, false_implies, implies_true, true_and]
      refine ⟨.inr, fun h => h.resolve_left ?_⟩
      rintro ⟨pre, post, h, -⟩
      simp at h
    | cons x ks ih =>
      intro r
      rw [List.foldl_cons, ih]
      constructor
      · rintro (⟨pre, post, rfl, h⟩ | ⟨h1, h2⟩)
        · exact .inl ⟨x :: pre, post, rfl, h⟩
        · cases x with
          | none => exact .inr ⟨fun y hy => by rcases List.mem_cons.1 hy with rfl | hy; rfl; exact h1 y hy, h2⟩
          | some k' => cases h2; exact .inl ⟨[], ks, rfl, h1⟩
      · rintro (⟨pre, post, h, hp⟩ | ⟨h1, h2⟩)
        · cases pre with
          | nil => cases h; exact .inr ⟨hp, rfl⟩
          | cons y pre => cases h; exact .inl ⟨pre, post, rfl, hp⟩
        · obtain rfl := h1 x (by simp)
          exact .inr ⟨fun y hy => h1 y (by simp [hy]), h2⟩
  rw [sharedKind, gen]
  simp

theorem sharedKind_none (ks : List (Option Kind)) : sharedKind ks = none ↔ ∀ x ∈ ks, x = none := by
  have gen : ∀ (ks : List (Option Kind)) (r : Option Kind), ks.foldl (fun r k => k.or r) r = none ↔
      (∀ x ∈ ks, x = none) ∧ r = none := by
    intro ks
    induction ks with
    | nil => simp
    | cons x ks ih =>
      intro r
      rw [List.foldl_cons, ih]
      cases x <;> simp
  rw [sharedKind, gen]
  simp

/-- The items that can be read. -/
def Good : Item → Prop
  | .default s => s ≠ none
  | .path s => s ≠ none
  | .optional => True
  | .word => True
  | .unknownValue => False

/-- The defaults, and the paths, that items give. -/
def Item.default? : Item → Option Chars
  | .default s => s
  | _ => none
/-- See above. -/
def Item.path? : Item → Option Chars
  | .path s => s
  | _ => none

theorem getLast_or {α : Type} (x : α) (l : List α) (r : Option α) :
    (x :: l).getLast?.or r = l.getLast?.or (some x) := by
  cases l with
  | nil => rfl
  | cons y l =>
    rw [List.getLast?_cons_cons]
    cases h : (y :: l).getLast? with
    | none => simp at h
    | some z => rfl

/-- C292. What is read from `#[config(...)]`: the last default and the last path. -/
theorem parseAnnotation_iff (only : Bool) (items : List Item) (a : Annotation) :
    parseAnnotation only (some items) = some a ↔
      (∀ i ∈ items, Good i) ∧ a.configOnly = only ∧ a.default = (items.filterMap Item.default?).getLast? ∧
      a.path = (items.filterMap Item.path?).getLast? ∧ (a.optional = true ↔ .optional ∈ items) := by
  have gen : ∀ (items : List Item) (s : Annotation), items.foldlM readItem s = some a ↔
      (∀ i ∈ items, Good i) ∧ a.configOnly = s.configOnly ∧ a.default = (items.filterMap Item.default?).getLast?.or s.default ∧
      a.path = (items.filterMap Item.path?).getLast?.or s.path ∧ (a.optional = true ↔ .optional ∈ items ∨ s.optional = true) := by
    intro items
    induction items with
    | nil =>
      intro s
      simp only [List.foldlM_nil, List.not_mem_nil, false_implies, implies_true, true_and, List.filterMap_nil, List.getLast?_nil,
        Option.none_or, false_or]
      constructor
      · intro h; cases h; exact ⟨rfl, rfl, rfl, Iff.rfl⟩
      · rintro ⟨h1, h2, h3, h4⟩
        obtain ⟨d, c, p, o⟩ := a
        obtain ⟨d', c', p', o'⟩ := s
        simp only at h1 h2 h3 h4
        subst h1 h2 h3
        have : o = o' := by cases o <;> cases o' <;> simp_all
        rw [this]; rfl
    | cons i items ih =>
      intro s
      rw [List.foldlM_cons]
      have no : ∀ {i : Item}, readItem s i = none → ¬ Good i → ((readItem s i >>= fun s => items.foldlM readItem s) = some a ↔
          (∀ x ∈ i :: items, Good x) ∧ a.configOnly = s.configOnly ∧
            a.default = ((i :: items).filterMap Item.default?).getLast?.or s.default ∧
            a.path = ((i :: items).filterMap Item.path?).getLast?.or s.path ∧
            (a.optional = true ↔ .optional ∈ i :: items ∨ s.optional = true)) := by
        intro i h1 h2
        rw [h1]
        exact ⟨fun h => (by cases h), fun h => absurd (h.1 i (by simp)) h2⟩
      have yes : ∀ {i : Item} {s' : Annotation}, readItem s i = some s' → Good i → ((readItem s i >>= fun s => items.foldlM readItem s) = some a ↔
          (∀ x ∈ items, Good x) ∧ a.configOnly = s'.configOnly ∧
            a.default = (items.filterMap Item.default?).getLast?.or s'.default ∧
            a.path = (items.filterMap Item.path?).getLast?.or s'.path ∧
            (a.optional = true ↔ .optional ∈ items ∨ s'.optional = true)) := by
        intro i s' h1 _
        rw [h1]
        exact ih s'
      cases i with
      | default d =>
        cases d with
        | none => exact no rfl (by simp [Good])
        | some d =>
          rw [yes (i := .default (some d)) rfl (by simp [Good])]
          simp [Good, Item.default?, Item.path?, getLast_or]
      | path d =>
        cases d with
        | none => exact no rfl (by simp [Good])
        | some d =>
          rw [yes (i := .path (some d)) rfl (by simp [Good])]
          simp [Good, Item.default?, Item.path?, getLast_or]
      | optional =>
        rw [yes (i := .optional) rfl trivial]
        simp [Good, Item.default?, Item.path?]
      | word =>
        rw [yes (i := .word) rfl trivial]
        simp [Good, Item.default?, Item.path?]
      | unknownValue => exact no rfl (by simp [Good])
  rw [parseAnnotation, gen]
  simp

/-- Attributes that say what a field is. -/
inductive Decides : Attr → Prop
  | shared {ks k} : some k ∈ ks → Decides (.shared ks)
  | config {items} : Decides (.config items)
  | configOnly {items} : Decides (.configOnly items)

/-- What an attribute says that a field is. -/
inductive SaysKind : Attr → FieldKind → Prop
  | shared {ks k} : LastKind ks k → SaysKind (.shared ks) (.shared k)
  | config {items a} : parseAnnotation false items = some a → SaysKind (.config items) (.config a)
  | configOnly {items a} : parseAnnotation true items = some a → SaysKind (.configOnly items) (.config a)

/-- C292. The first attribute that says what a field is decides; without one it is a flag of the command line alone. -/
theorem classify_iff (as : List Attr) (k : FieldKind) : classify as = some k ↔
    ((∀ x ∈ as, ¬ Decides x) ∧ k = .cliOnly) ∨
    ∃ pre a post, as = pre ++ a :: post ∧ (∀ x ∈ pre, ¬ Decides x) ∧ SaysKind a k := by
  have skip : ∀ (x : Attr) (as : List Attr), ¬ Decides x → (∀ k, ¬ SaysKind x k) →
      ((((∀ y ∈ as, ¬ Decides y) ∧ k = .cliOnly) ∨
        ∃ pre a post, as = pre ++ a :: post ∧ (∀ y ∈ pre, ¬ Decides y) ∧ SaysKind a k) ↔
      (((∀ y ∈ x :: as, ¬ Decides y) ∧ k = .cliOnly) ∨
        ∃ pre a post, x :: as = pre ++ a :: post ∧ (∀ y ∈ pre, ¬ Decides y) ∧ SaysKind a k)) := by
    intro x as hx hs
    constructor
    · rintro (⟨h, rfl⟩ | ⟨pre, a, post, rfl, h1, h2⟩)
      · exact .inl ⟨fun y hy => by rcases List.mem_cons.1 hy with rfl | hy; exact hx; exact h y hy, rfl⟩
      · exact .inr ⟨x :: pre, a, post, rfl, fun y hy => by rcases List.mem_cons.1 hy with rfl | hy; exact hx; exact h1 y hy, h2⟩
    · rintro (⟨h, rfl⟩ | ⟨pre, a, post, h, h1, h2⟩)
      · exact .inl ⟨fun y hy => h y (by simp [hy]), rfl⟩
      · cases pre with
        | nil => cases h; exact absurd h2 (hs k)
        | cons y pre => cases h; exact .inr ⟨pre, a, post, rfl, fun y hy => h1 y (by simp [hy]), h2⟩
  have stop : ∀ (x : Attr) (as : List Attr), Decides x →
      (SaysKind x k ↔ (((∀ y ∈ x :: as, ¬ Decides y) ∧ k = .cliOnly) ∨
        ∃ pre a post, x :: as = pre ++ a :: post ∧ (∀ y ∈ pre, ¬ Decides y) ∧ SaysKind a k)) := by
    intro x as hx
    constructor
    · exact fun h => .inr ⟨[], x, as, rfl, by simp, h⟩
    · rintro (⟨h, -⟩ | ⟨pre, a, post, h, h1, h2⟩)
      · exact absurd hx (h x (by simp))
      · cases pre with
        | nil => cases h; exact h2
        | cons y pre => cases h; exact absurd hx (h1 x (by simp))
  induction as with
  | nil =>
    simp only [classify, List.not_mem_nil, false_implies, implies_true, true_and, Option.some.injEq]
    refine ⟨fun h => .inl h.symm, ?_⟩
    rintro (h | ⟨pre, a, post, h, -⟩)
    · exact h.symm
    · simp at h
  | cons x as ih =>
    cases x with
    | shared ks =>
      rw [classify]
      cases h : sharedKind ks with
      | none =>
        have hn := (sharedKind_none ks).1 h
        dsimp only
        refine ih.trans (skip _ _ ?_ ?_)
        · intro hd; cases hd with
          | shared hk => cases hn _ hk
        · intro k' hd; cases hd with
          | shared hk => rw [(sharedKind_iff ks _).2 hk] at h; cases h
      | some k' =>
        have hl := (sharedKind_iff ks k').1 h
        have hd : Decides (.shared ks) := by
          obtain ⟨pre, post, rfl, -⟩ := hl
          exact .shared (k := k') (by simp)
        rw [← stop _ _ hd]
        dsimp only
        constructor
        · intro he; cases he; exact .shared hl
        · intro hs; cases hs with
          | shared hk => rw [(sharedKind_iff ks _).2 hk] at h; cases h; rfl
    | config items =>
      rw [← stop _ _ .config, classify, Option.map_eq_some_iff]
      constructor
      · rintro ⟨a, h, rfl⟩; exact .config h
      · intro h; cases h with
        | config h => exact ⟨_, h, rfl⟩
    | configOnly items =>
      rw [← stop _ _ .configOnly, classify, Option.map_eq_some_iff]
      constructor
      · rintro ⟨a, h, rfl⟩; exact .configOnly h
      · intro h; cases h with
        | configOnly h => exact ⟨_, h, rfl⟩
    | other =>
      rw [classify]
      exact ih.trans (skip _ _ (fun h => by cases h) (fun _ h => by cases h))

/-- C292. The names that are not compared: those of the shared arguments, and the flags of the command line alone. -/
theorem excludedArgs_iff (group : Kind → List Chars) (c : Command) (n : Chars) : n ∈ excludedArgs group c ↔
    (∃ f k, (f, .shared k) ∈ c.fields ∧ n ∈ group k) ∨ ∃ f, (f, .cliOnly) ∈ c.fields ∧ f.name = n := by
  unfold excludedArgs
  rw [List.mem_append, List.mem_flatMap, List.mem_filterMap]
  constructor
  · rintro (⟨⟨f, k⟩, hf, hn⟩ | ⟨⟨f, k⟩, hf, hn⟩)
    · cases k with
      | shared k => exact .inl ⟨f, k, hf, hn⟩
      | _ => cases hn
    · dsimp only at hn
      split at hn
      · rename_i hk; cases hn; rw [hk] at hf; exact .inr ⟨f, hf, rfl⟩
      · cases hn
  · rintro (⟨f, k, hf, hn⟩ | ⟨f, hf, rfl⟩)
    · exact .inl ⟨_, hf, hn⟩
    · exact .inr ⟨_, hf, by simp⟩

/-- Where a part of a text is between commas. -/
def Piece (s w : Chars) : Prop :=
  ',' ∉ w ∧ ∃ a b, s = a ++ w ++ b ∧ (a = [] ∨ ∃ a', a = a' ++ [',']) ∧ (b = [] ∨ ∃ b', b = ',' :: b')

theorem splitComma_iff (s w : Chars) : w ∈ splitWhen (fun c => decide (c = ',')) s ↔ Piece s w := by
  constructor
  · intro hw
    refine ⟨fun hc => by simpa using splitWhen_pieces _ s w hw _ hc, ?_⟩
    induction hn : s.length using Nat.strongRecOn generalizing s with
    | _ n ih =>
      cases hs : splitWhen (fun c => decide (c = ',')) s with
      | nil => exact absurd hs (splitWhen_ne_nil _ _)
      | cons v vs =>
        obtain ⟨b, rfl, h1, h2, h3⟩ := splitWhen_head hs
        rw [hs] at hw
        rcases List.mem_cons.1 hw with rfl | hw
        · refine ⟨[], b, by simp, .inl rfl, ?_⟩
          cases b with
          | nil => exact .inl rfl
          | cons c t =>
            have := h1 c rfl
            simp only [decide_eq_true_eq] at this
            subst this; exact .inr ⟨t, rfl⟩
        · cases b with
          | nil => rw [h2 rfl] at hw; cases hw
          | cons c t =>
            have hc := h1 c rfl
            simp only [decide_eq_true_eq] at hc
            subst hc
            have ht := h3 _ t rfl
            rw [← ht] at hw
            obtain ⟨x, y, he, hx, hy⟩ := ih t.length (by rw [← hn]; simp; omega) t hw rfl
            refine ⟨v ++ ',' :: x, y, by rw [he]; simp, .inr ?_, hy⟩
            rcases hx with rfl | ⟨x', rfl⟩
            · exact ⟨v, rfl⟩
            · exact ⟨v ++ ',' :: x', by simp⟩
  · rintro ⟨hw, a, b, rfl, ha, hb⟩
    have hself : splitWhen (fun c => decide (c = ',')) w = [w] := splitWhen_clean fun c hc => by
      simp only [decide_eq_false_iff_not]; rintro rfl; exact hw hc
    have hcomma : (fun c => decide (c = ',')) ',' = true := rfl
    rcases ha with rfl | ⟨a', rfl⟩ <;> rcases hb with rfl | ⟨b', rfl⟩
    · simp [hself]
    · rw [List.nil_append, splitWhen_append w b' hcomma, hself]; simp
    · rw [show a' ++ [','] ++ w ++ [] = a' ++ ',' :: w by simp, splitWhen_append a' w hcomma, hself]; simp
    · rw [show a' ++ [','] ++ w ++ ',' :: b' = a' ++ ',' :: (w ++ ',' :: b') by simp, splitWhen_append a' _ hcomma,
        splitWhen_append w b' hcomma, hself]
      simp

/-- C292. The names of `extra_config_only`: what is between commas, trimmed, unless it is empty. -/
theorem extraNames_iff (trim : Chars → Chars) (s n : Chars) : n ∈ extraNames trim s ↔ n ≠ [] ∧ ∃ w, Piece s w ∧ trim w = n := by
  unfold extraNames
  simp only [List.mem_filter, List.mem_map, splitComma_iff, decide_eq_true_eq]
  exact And.comm

example : classify [.other, .shared [none, some .policy, some .registry, none], .config none] = some (.shared .registry) := by decide
example : classify [.shared [none], .config (some [.default (some ['a']), .optional, .default (some ['b'])])] =
    some (.config { default := some ['b'], optional := true }) := by decide
example : Piece "a,b".toList "b".toList := by rw [← splitComma_iff]; decide +kernel

end Verif.Macro
