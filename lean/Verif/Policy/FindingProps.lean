import Verif.Policy.Engine

/-!
# Findings of policies
-/

namespace Verif.Policy
open Verif.Util

/-! ### Specification -/

inductive LevelName : String → Level → Prop where
  | information : LevelName "information" .information
  | improvement : LevelName "improvement" .improvement
  | violation : LevelName "violation" .violation

/-- A value that stands for a level. -/
inductive IsLevel : J → Level → Prop where
  | name {s l} : LevelName s l → IsLevel (.str s) l
  | object {s l} : LevelName s l → IsLevel (.obj [(s, .null)]) l

/-- The keys that have a text as value. -/
def textKeys : List String := ["type", "id", "category", "group", "attr", "advice_type", "message", "signal_type", "signal_name"]

/-- Every key that has a meaning has a value of the right type. -/
def WellTyped (m : List (String × J)) : Prop :=
  (∀ k ∈ textKeys, ∀ v, aget k m = some v → ∃ s, v = .str s) ∧
  (∀ k ∈ ["advice_level", "level"], ∀ v, aget k m = some v → ∃ l, IsLevel v l)

/-- The value of a key that may be missing is this text. -/
def OptText (m : List (String × J)) (k : String) (o : Option String) : Prop := aget k m = o.map J.str

/-- The level of an object: `level`, or `advice_level` if there is none. -/
def HasLevel (m : List (String × J)) (l : Level) : Prop :=
  (∃ v, aget "level" m = some v ∧ IsLevel v l) ∨ (aget "level" m = none ∧ ∃ v, aget "advice_level" m = some v ∧ IsLevel v l)

/-- The context of an object: `context`, or `advice_context` if there is none, or nothing. -/
def HasContext (m : List (String × J)) (c : Option J) : Prop :=
  (∃ v, aget "context" m = some v ∧ c = some v) ∨ (aget "context" m = none ∧ c = aget "advice_context" m)

/-- The finding an object stands for. -/
inductive Reads (m : List (String × J)) : Finding → Prop where
  | unified {f : Finding} : aget "type" m = none → aget "id" m = some (.str f.id) → aget "message" m = some (.str f.message) →
      HasLevel m f.level → HasContext m f.context → OptText m "signal_type" f.signalType → OptText m "signal_name" f.signalName →
      Reads m f
  | advice {f : Finding} : aget "type" m = some (.str "advice") → aget "advice_type" m = some (.str f.id) →
      aget "message" m = some (.str f.message) → HasLevel m f.level → HasContext m f.context →
      OptText m "signal_type" f.signalType → OptText m "signal_name" f.signalName → Reads m f
  | semconv {id category group attr : String} : aget "type" m = some (.str "semconv_attribute") → aget "id" m = some (.str id) →
      aget "category" m = some (.str category) → aget "group" m = some (.str group) → aget "attr" m = some (.str attr) →
      Reads m ⟨"semconv_attribute",
        some (.obj [("attr", .str attr), ("category", .str category), ("group", .str group), ("id", .str id)]),
        "id=" ++ id ++ ", category=" ++ category ++ ", group=" ++ group ++ ", attr=" ++ attr, .violation, none, none⟩

/-! ### Lemmas -/

theorem level_iff (v : J) (l : Level) : v.level = some l ↔ IsLevel v l := by
  have hn : ∀ s, Level.ofName s = some l ↔ LevelName s l := by
    intro s
    constructor
    · intro h
      unfold Level.ofName at h
      split at h <;> cases h <;> constructor
    · intro h; cases h <;> rfl
  constructor
  · intro h
    unfold J.level at h
    split at h
    · exact .name ((hn _).1 h)
    · exact .object ((hn _).1 h)
    · cases h
  · intro h
    cases h with
    | name h => exact (hn _).2 h
    | object h => exact (hn _).2 h

theorem string_iff (v : J) (s : String) : v.string = some s ↔ v = .str s := by
  cases v <;> simp [J.string]

/-- The value that a slot has after the loop. -/
def slotText (m : List (String × J)) (k : String) (old : Option String) : Option String :=
  match aget k m with
  | some v => v.string
  | none => old

def slotLevel (m : List (String × J)) (old : Option Level) : Option Level :=
  match aget "level" m with
  | some v => v.level
  | none => match aget "advice_level" m with
    | some v => v.level
    | none => old

def slotContext (m : List (String × J)) (old : Option J) : Option J :=
  match aget "context" m with
  | some v => some v
  | none => match aget "advice_context" m with
    | some v => some v
    | none => old

/-- The slots after the loop. -/
structure After (s : Slots) (m : List (String × J)) (s' : Slots) : Prop where
  type : s'.type = slotText m "type" s.type
  id : s'.id = slotText m "id" s.id
  category : s'.category = slotText m "category" s.category
  group : s'.group = slotText m "group" s.group
  attr : s'.attr = slotText m "attr" s.attr
  adviceType : s'.adviceType = slotText m "advice_type" s.adviceType
  message : s'.message = slotText m "message" s.message
  level : s'.level = slotLevel m s.level
  signalType : s'.signalType = slotText m "signal_type" s.signalType
  signalName : s'.signalName = slotText m "signal_name" s.signalName
  context : s'.context = slotContext m s.context

theorem slotText_ne {k x : String} (h : ¬ x = k) (v : J) (m : List (String × J)) (o : Option String) :
    slotText ((x, v) :: m) k o = slotText m k o := by unfold slotText; simp [aget, h]

theorem slotText_eq {k : String} {v : J} {m : List (String × J)} (o : Option String) (s : String) (hm : aget k m = none) (hv : v.string = some s) :
    slotText ((k, v) :: m) k o = slotText m k (some s) := by unfold slotText; simp [aget, hm, hv]

theorem slotLevel_ne {x : String} (h1 : ¬ x = "level") (h2 : ¬ x = "advice_level") (v : J) (m : List (String × J)) (o : Option Level) :
    slotLevel ((x, v) :: m) o = slotLevel m o := by unfold slotLevel; simp [aget, h1, h2]

theorem slotContext_ne {x : String} (h1 : ¬ x = "context") (h2 : ¬ x = "advice_context") (v : J) (m : List (String × J)) (o : Option J) :
    slotContext ((x, v) :: m) o = slotContext m o := by unfold slotContext; simp [aget, h1, h2]

theorem none_below {x k : String} {v : J} {m : List (String × J)} (h : KeySorted ((x, v) :: m)) (hk : k ≤ x) : aget k m = none := by
  rw [aget_eq_none_iff]
  intro hm
  obtain ⟨⟨k', w⟩, hw, rfl⟩ := List.mem_map.1 hm
  have := (List.pairwise_cons.1 h).1 _ hw
  exact absurd this (by simpa using hk)

theorem run_after {m : List (String × J)} (hs : KeySorted m) {s s' : Slots} (h : s.run m = some s') : After s m s' := by
  induction m generalizing s with
  | nil => cases h; constructor <;> rfl
  | cons f m ih =>
    obtain ⟨x, v⟩ := f
    have hm : KeySorted m := (List.pairwise_cons.1 hs).2
    have hnone : ∀ k, k ≤ x → aget k m = none := fun k => none_below hs
    unfold Slots.run at h
    cases h1 : s.step x v with
    | none => rw [h1] at h; cases h
    | some s1 =>
      rw [h1] at h
      have a := ih hm h
      unfold Slots.step at h1
      split at h1
      case h_14 =>
        cases h1
        rename_i n1 n2 n3 n4 n5 n6 n7 n8 n9 n10 n11 n12 n13
        exact ⟨by rw [slotText_ne n1]; exact a.type, by rw [slotText_ne n2]; exact a.id, by rw [slotText_ne n3]; exact a.category,
          by rw [slotText_ne n4]; exact a.group, by rw [slotText_ne n5]; exact a.attr, by rw [slotText_ne n6]; exact a.adviceType,
          by rw [slotText_ne n7]; exact a.message, by rw [slotLevel_ne n9 n8]; exact a.level, by rw [slotText_ne n12]; exact a.signalType,
          by rw [slotText_ne n13]; exact a.signalName, by rw [slotContext_ne n11 n10]; exact a.context⟩
      case h_8 =>
        obtain ⟨y, hy, rfl⟩ := Option.map_eq_some_iff.1 h1
        constructor
        case level =>
          rw [a.level]; unfold slotLevel; simp [aget, hnone "advice_level" (by decide), hy]
        case context => rw [slotContext_ne (by decide) (by decide)]; exact a.context
        case type => rw [slotText_ne (by decide)]; exact a.type
        case id => rw [slotText_ne (by decide)]; exact a.id
        case category => rw [slotText_ne (by decide)]; exact a.category
        case group => rw [slotText_ne (by decide)]; exact a.group
        case attr => rw [slotText_ne (by decide)]; exact a.attr
        case adviceType => rw [slotText_ne (by decide)]; exact a.adviceType
        case message => rw [slotText_ne (by decide)]; exact a.message
        case signalType => rw [slotText_ne (by decide)]; exact a.signalType
        case signalName => rw [slotText_ne (by decide)]; exact a.signalName
      case h_9 =>
        obtain ⟨y, hy, rfl⟩ := Option.map_eq_some_iff.1 h1
        constructor
        case level =>
          rw [a.level]; unfold slotLevel; simp [aget, hnone "advice_level" (by decide), hnone "level" (by decide), hy]
        case context => rw [slotContext_ne (by decide) (by decide)]; exact a.context
        case type => rw [slotText_ne (by decide)]; exact a.type
        case id => rw [slotText_ne (by decide)]; exact a.id
        case category => rw [slotText_ne (by decide)]; exact a.category
        case group => rw [slotText_ne (by decide)]; exact a.group
        case attr => rw [slotText_ne (by decide)]; exact a.attr
        case adviceType => rw [slotText_ne (by decide)]; exact a.adviceType
        case message => rw [slotText_ne (by decide)]; exact a.message
        case signalType => rw [slotText_ne (by decide)]; exact a.signalType
        case signalName => rw [slotText_ne (by decide)]; exact a.signalName
      case h_10 =>
        cases h1
        constructor
        case level => rw [slotLevel_ne (by decide) (by decide)]; exact a.level
        case context => rw [a.context]; unfold slotContext; simp [aget, hnone "advice_context" (by decide)]
        case type => rw [slotText_ne (by decide)]; exact a.type
        case id => rw [slotText_ne (by decide)]; exact a.id
        case category => rw [slotText_ne (by decide)]; exact a.category
        case group => rw [slotText_ne (by decide)]; exact a.group
        case attr => rw [slotText_ne (by decide)]; exact a.attr
        case adviceType => rw [slotText_ne (by decide)]; exact a.adviceType
        case message => rw [slotText_ne (by decide)]; exact a.message
        case signalType => rw [slotText_ne (by decide)]; exact a.signalType
        case signalName => rw [slotText_ne (by decide)]; exact a.signalName
      case h_11 =>
        cases h1
        constructor
        case level => rw [slotLevel_ne (by decide) (by decide)]; exact a.level
        case context =>
          rw [a.context]; unfold slotContext; simp [aget, hnone "advice_context" (by decide), hnone "context" (by decide)]
        case type => rw [slotText_ne (by decide)]; exact a.type
        case id => rw [slotText_ne (by decide)]; exact a.id
        case category => rw [slotText_ne (by decide)]; exact a.category
        case group => rw [slotText_ne (by decide)]; exact a.group
        case attr => rw [slotText_ne (by decide)]; exact a.attr
        case adviceType => rw [slotText_ne (by decide)]; exact a.adviceType
        case message => rw [slotText_ne (by decide)]; exact a.message
        case signalType => rw [slotText_ne (by decide)]; exact a.signalType
        case signalName => rw [slotText_ne (by decide)]; exact a.signalName
      all_goals
        obtain ⟨y, hy, rfl⟩ := Option.map_eq_some_iff.1 h1
        constructor
        case level => rw [slotLevel_ne (by decide) (by decide)]; exact a.level
        case context => rw [slotContext_ne (by decide) (by decide)]; exact a.context
        case type => first | (rw [slotText_ne (by decide)]; exact a.type) | (rw [slotText_eq _ y (hnone _ (by decide)) hy]; exact a.type)
        case id => first | (rw [slotText_ne (by decide)]; exact a.id) | (rw [slotText_eq _ y (hnone _ (by decide)) hy]; exact a.id)
        case category => first | (rw [slotText_ne (by decide)]; exact a.category) | (rw [slotText_eq _ y (hnone _ (by decide)) hy]; exact a.category)
        case group => first | (rw [slotText_ne (by decide)]; exact a.group) | (rw [slotText_eq _ y (hnone _ (by decide)) hy]; exact a.group)
        case attr => first | (rw [slotText_ne (by decide)]; exact a.attr) | (rw [slotText_eq _ y (hnone _ (by decide)) hy]; exact a.attr)
        case adviceType => first | (rw [slotText_ne (by decide)]; exact a.adviceType) | (rw [slotText_eq _ y (hnone _ (by decide)) hy]; exact a.adviceType)
        case message => first | (rw [slotText_ne (by decide)]; exact a.message) | (rw [slotText_eq _ y (hnone _ (by decide)) hy]; exact a.message)
        case signalType => first | (rw [slotText_ne (by decide)]; exact a.signalType) | (rw [slotText_eq _ y (hnone _ (by decide)) hy]; exact a.signalType)
        case signalName => first | (rw [slotText_ne (by decide)]; exact a.signalName) | (rw [slotText_eq _ y (hnone _ (by decide)) hy]; exact a.signalName)

/-- One key has a value of the right type. -/
def TypedKey (k : String) (v : J) : Prop :=
  (k ∈ textKeys → ∃ s, v = .str s) ∧ (k ∈ ["advice_level", "level"] → ∃ l, IsLevel v l)

theorem step_some (s : Slots) (k : String) (v : J) : (∃ s', s.step k v = some s') ↔ TypedKey k v := by
  have hstr : ∀ g : String → Slots, (∃ s', v.string.map g = some s') ↔ ∃ x, v = .str x := by
    intro g; cases v <;> simp [J.string]
  have hlev : ∀ g : Level → Slots, (∃ s', v.level.map g = some s') ↔ ∃ l, IsLevel v l := by
    intro g
    simp only [← level_iff]
    cases v.level <;> simp
  unfold Slots.step TypedKey
  split
  case h_14 =>
    rename_i n1 n2 n3 n4 n5 n6 n7 n8 n9 n10 n11 n12 n13
    refine ⟨fun _ => ⟨fun h => ?_, fun h => ?_⟩, fun _ => ⟨_, rfl⟩⟩
    · simp only [textKeys, List.mem_cons, List.not_mem_nil, or_false] at h
      grind
    · simp only [List.mem_cons, List.not_mem_nil, or_false] at h
      grind
  case h_8 => rw [hlev]; simp [textKeys]
  case h_9 => rw [hlev]; simp [textKeys]
  case h_10 => simp [textKeys]
  case h_11 => simp [textKeys]
  all_goals (rw [hstr]; simp [textKeys])

theorem run_some (s : Slots) (m : List (String × J)) : (∃ s', s.run m = some s') ↔ ∀ f ∈ m, TypedKey f.1 f.2 := by
  induction m generalizing s with
  | nil => simp [Slots.run]
  | cons f m ih =>
    obtain ⟨k, v⟩ := f
    unfold Slots.run
    rw [List.forall_mem_cons, ← step_some s]
    cases h : s.step k v with
    | none => simp
    | some s1 => rw [← ih s1]; simp

theorem wellTyped_iff {m : List (String × J)} (hs : KeySorted m) : WellTyped m ↔ ∀ f ∈ m, TypedKey f.1 f.2 := by
  constructor
  · rintro ⟨h1, h2⟩ ⟨k, v⟩ hm
    have hg := aget_of_mem_nodup (keySorted_nodup hs) hm
    exact ⟨fun hk => h1 k hk v hg, fun hk => h2 k hk v hg⟩
  · intro h
    exact ⟨fun k hk v hv => (h (k, v) (aget_some_mem hv)).1 hk, fun k hk v hv => (h (k, v) (aget_some_mem hv)).2 hk⟩

theorem slotText_none (m : List (String × J)) (k s : String) : slotText m k none = some s ↔ aget k m = some (.str s) := by
  unfold slotText
  cases aget k m with
  | none => simp
  | some v => rw [Option.some.injEq]; exact string_iff v s

theorem slotText_opt {m : List (String × J)} (hw : WellTyped m) {k : String} (hk : k ∈ textKeys) (o : Option String) :
    slotText m k none = o ↔ OptText m k o := by
  unfold OptText slotText
  cases h : aget k m with
  | none => cases o <;> simp
  | some v =>
    obtain ⟨s, rfl⟩ := hw.1 k hk v h
    cases o <;> simp [J.string]

theorem slotLevel_iff {m : List (String × J)} (l : Level) : slotLevel m none = some l ↔ HasLevel m l := by
  unfold slotLevel HasLevel
  cases aget "level" m with
  | some v => simp [level_iff]
  | none =>
    cases aget "advice_level" m with
    | some v => simp [level_iff]
    | none => simp

theorem slotContext_iff {m : List (String × J)} (c : Option J) : slotContext m none = c ↔ HasContext m c := by
  unfold slotContext HasContext
  cases aget "context" m with
  | some v => simp [eq_comm]
  | none => cases aget "advice_context" m <;> simp [eq_comm]

/-! ### The property -/

/-- An object is read as a finding exactly if all its keys that have a meaning have values of the right type and it has what
one of the three forms asks for; then the finding is what the object says. Other keys do not matter. -/
theorem decode_iff {m : List (String × J)} (hs : KeySorted m) (f : Finding) :
    Finding.decode (.obj m) = some f ↔ WellTyped m ∧ Reads m f := by
  have hd : Finding.decode (.obj m) = some f ↔ ∃ s', ({} : Slots).run m = some s' ∧ s'.finish = some f := by
    show (({} : Slots).run m).bind Slots.finish = some f ↔ _
    rw [Option.bind_eq_some_iff]
  rw [hd]
  by_cases hw : WellTyped m
  · obtain ⟨s', hs'⟩ := (run_some {} m).2 ((wellTyped_iff hs).1 hw)
    have a := run_after hs hs'
    have hdet : (∃ s', ({} : Slots).run m = some s' ∧ s'.finish = some f) ↔ s'.finish = some f :=
      ⟨fun ⟨x, h1, h2⟩ => by rw [hs'] at h1; cases h1; exact h2, fun h => ⟨s', hs', h⟩⟩
    rw [hdet]
    simp only [hw, true_and]
    have htype := fun o => (slotText_opt hw (k := "type") (by decide) o)
    constructor
    · intro h
      unfold Slots.finish at h
      split at h
      · rename_i ht
        rw [a.type, slotText_none] at ht
        split at h
        · rename_i h1 h2 h3 h4
          rw [a.id, slotText_none] at h1
          rw [a.category, slotText_none] at h2
          rw [a.group, slotText_none] at h3
          rw [a.attr, slotText_none] at h4
          cases h
          exact .semconv ht h1 h2 h3 h4
        · cases h
      · rename_i ht
        rw [a.type, slotText_none] at ht
        split at h
        · rename_i h1 h2 h3
          rw [a.level, slotLevel_iff] at h1
          rw [a.adviceType, slotText_none] at h2
          rw [a.message, slotText_none] at h3
          cases h
          exact .advice ht h2 h3 h1 ((slotContext_iff _).1 a.context.symm) ((slotText_opt hw (by decide) _).1 a.signalType.symm)
            ((slotText_opt hw (by decide) _).1 a.signalName.symm)
        · cases h
      · rename_i ht
        rw [a.type, htype] at ht
        split at h
        · rename_i h1 h2 h3
          rw [a.id, slotText_none] at h1
          rw [a.level, slotLevel_iff] at h2
          rw [a.message, slotText_none] at h3
          cases h
          exact .unified ht h1 h3 h2 ((slotContext_iff _).1 a.context.symm) ((slotText_opt hw (by decide) _).1 a.signalType.symm)
            ((slotText_opt hw (by decide) _).1 a.signalName.symm)
        · cases h
      · cases h
    · intro h
      have hctx := slotContext_iff (m := m) f.context
      cases h with
      | unified h1 h2 h3 h4 h5 h6 h7 =>
        have e1 : s'.type = none := by rw [a.type, htype]; exact h1
        have e2 : s'.id = some f.id := by rw [a.id, slotText_none]; exact h2
        have e3 : s'.level = some f.level := by rw [a.level, slotLevel_iff]; exact h4
        have e4 : s'.message = some f.message := by rw [a.message, slotText_none]; exact h3
        have e5 : s'.context = f.context := by rw [a.context]; exact hctx.2 h5
        have e6 : s'.signalType = f.signalType := by rw [a.signalType]; exact (slotText_opt hw (by decide) _).2 h6
        have e7 : s'.signalName = f.signalName := by rw [a.signalName]; exact (slotText_opt hw (by decide) _).2 h7
        clear a htype hdet hs'
        obtain ⟨t, x2, x3, x4, x5, x6, x7, x8, x9, x10, x11⟩ := s'
        simp only at e1 e2 e3 e4 e5 e6 e7
        subst e1 e2 e3 e4 e5 e6 e7
        rfl
      | advice h1 h2 h3 h4 h5 h6 h7 =>
        have e1 : s'.type = some "advice" := by rw [a.type, slotText_none]; exact h1
        have e2 : s'.adviceType = some f.id := by rw [a.adviceType, slotText_none]; exact h2
        have e3 : s'.level = some f.level := by rw [a.level, slotLevel_iff]; exact h4
        have e4 : s'.message = some f.message := by rw [a.message, slotText_none]; exact h3
        have e5 : s'.context = f.context := by rw [a.context]; exact hctx.2 h5
        have e6 : s'.signalType = f.signalType := by rw [a.signalType]; exact (slotText_opt hw (by decide) _).2 h6
        have e7 : s'.signalName = f.signalName := by rw [a.signalName]; exact (slotText_opt hw (by decide) _).2 h7
        clear a htype hdet hs'
        obtain ⟨t, x2, x3, x4, x5, x6, x7, x8, x9, x10, x11⟩ := s'
        simp only at e1 e2 e3 e4 e5 e6 e7
        subst e1 e2 e3 e4 e5 e6 e7
        rfl
      | @semconv id category group attr h1 h2 h3 h4 h5 =>
        have e1 : s'.type = some "semconv_attribute" := by rw [a.type, slotText_none]; exact h1
        have e2 : s'.id = some id := by rw [a.id, slotText_none]; exact h2
        have e3 : s'.category = some category := by rw [a.category, slotText_none]; exact h3
        have e4 : s'.group = some group := by rw [a.group, slotText_none]; exact h4
        have e5 : s'.attr = some attr := by rw [a.attr, slotText_none]; exact h5
        clear a htype hdet hs' hctx
        obtain ⟨t, x2, x3, x4, x5, x6, x7, x8, x9, x10, x11⟩ := s'
        simp only at e1 e2 e3 e4 e5
        subst e1 e2 e3 e4 e5
        rfl
  · constructor
    · rintro ⟨s', h, -⟩
      exact absurd ((wellTyped_iff hs).2 ((run_some {} m).1 ⟨s', h⟩)) hw
    · rintro ⟨h, -⟩; exact absurd h hw

example : Finding.decode (.obj [("advice_level", .str "information"), ("id", .str "x"), ("level", .str "violation"), ("message", .str "m"),
    ("z", .null)]) = some ⟨"x", none, "m", .violation, none, none⟩ := rfl
example : Finding.decode (.obj [("id", .str "x"), ("level", .str "fatal"), ("message", .str "m")]) = none := rfl
example : KeySorted [("advice_level", J.str "information"), ("id", .str "x"), ("level", .str "violation")] := by
  unfold KeySorted; decide

/-- Everything else is not a finding. -/
theorem decode_other (v : J) (h : ∀ m, v ≠ .obj m) : Finding.decode v = none := by
  cases v with
  | obj m => exact absurd rfl (h m)
  | _ => rfl

end Verif.Policy
