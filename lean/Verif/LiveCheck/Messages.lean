import Verif.LiveCheck.AdviceProps
/-
What the findings of the built-in advisors say, in full: identifiers, levels, messages and contexts. The claims of README.md
(crates/weaver_live_check/README.md:90-99) and of the list of identifiers in docs/finding.md about them.
-/
namespace Verif.LiveCheck
open Verif.Util Verif.Semconv

/-! ### Specification -/

/-- The word for why something is deprecated. -/
inductive Why : Deprecated → String → Prop
  | renamed {to note} : Why (.renamed to note) "renamed"
  | obsoleted {note} : Why (.obsoleted note) "obsoleted"
  | uncategorized {note} : Why (.uncategorized note) "uncategorized"
  | unspecified {note} : Why (.unspecified note) "uncategorized"

/-- What a sample with a name is an instance of: the word for it, the key of its name in contexts, its name, and what its
definition says about deprecation and stability. -/
inductive Item : SRef → Option AttrDef → Option Signal → String → String → String → Option Deprecated → Option String → Prop
  | attribute {a d g} : Item (.attribute a) (some d) g "Attribute" "attribute_key" a.name d.deprecated d.stability
  | metric {m d g} : Item (.metric m) d (some g) "Metric" "metric_name" m.name g.deprecated g.stability
  | event {l d g} : Item (.log l) d (some g) "Event" "event_name" l.eventName g.deprecated g.stability

/-- The words for a requirement level, and the level of the finding about a missing attribute. -/
inductive ReqWords : Req → String → String → Level → Prop
  | required : ReqWords .required "required" "Required" .violation
  | recommended : ReqWords .recommended "recommended" "Recommended" .improvement
  | recommendedText : ReqWords .recommendedText "recommended" "Recommended" .improvement
  | optIn : ReqWords .optIn "opt_in" "Opt-in" .information
  | optInText : ReqWords .optInText "opt_in" "Opt-in" .information
  | conditionally : ReqWords .conditionallyRequired "conditionally_required" "Conditionally required" .information

/-- Samples whose attributes are compared with those of the signal, and which kind of signal. -/
inductive Bearer : SRef → SigKind → List SAttr → Prop
  | number {p} : Bearer (.numberPoint p) .metric p.attrs
  | histogram {p} : Bearer (.histogramPoint p) .metric p.attrs
  | log {l} : Bearer (.log l) .event l.attrs

/-- A value of type `t` that an enum member can have. -/
inductive OfType : PType → Elem → Prop
  | int {n} (h : n ≤ 9223372036854775807) : OfType .int (.int n)
  | string {s} : OfType .string (.str s)

/-- A type `t` can stand where `u` is expected. -/
inductive Fits : PType → PType → Prop
  | same {t} : Fits t t
  | anyLeft {t} : Fits .any t
  | anyRight {t} : Fits t .any
  | int : Fits .int .double
  | ints : Fits .ints .doubles

/-- The parts of a finding that are about its kind. -/
structure Tells (f : Finding) (id : String) (level : Level) (message : String) (ctx : List (String × CtxVal)) : Prop where
  id : f.id = id
  level : f.level = level
  message : f.message = message
  ctx : f.ctx = ctx

/-- What the built-in advisors say about a sample. -/
inductive Said (s : SRef) (attr : Option AttrDef) (group : Option Signal) (f : Finding) : Prop
  | deprecated {kind key name d st why} (h : Item s attr group kind key name (some d) st) (hw : Why d why)
      (hf : Tells f "deprecated" .violation
        (kind ++ " '" ++ name ++ "' is deprecated; reason = '" ++ why ++ "', note = '" ++ d.note ++ "'.")
        [(key, .text name), ("deprecation_reason", .text why), ("deprecation_note", .text d.note)])
  | notStable {kind key name d st} (h : Item s attr group kind key name d (some st)) (hs : st ≠ "stable")
      (hf : Tells f "not_stable" .improvement (kind ++ " '" ++ name ++ "' is not stable; stability = " ++ st ++ ".")
        [(key, .text name), ("stability", .text st)])
  | enumType {a d ms t} (h : s = .attribute a) (hd : attr = some d) (ht : a.typ = some t) (he : d.typ = .enum ms)
      (hn : t ≠ .string ∧ t ≠ .int)
      (hf : Tells f "type_mismatch" .violation
        ("Enum attribute '" ++ a.name ++ "' has type '" ++ t.text ++ "'. Enum value type should be 'string' or 'int'.")
        [("attribute_key", .text a.name), ("attribute_type", .text t.text)])
  | type {a d p t} (h : s = .attribute a) (hd : attr = some d) (ht : a.typ = some t)
      (he : d.typ = .prim p ∨ d.typ = .template p) (hn : ¬ Fits t p)
      (hf : Tells f "type_mismatch" .violation
        ("Attribute '" ++ a.name ++ "' has type '" ++ t.text ++ "'. Type should be '" ++ p.text ++ "'.")
        [("attribute_key", .text a.name), ("attribute_type", .text t.text), ("expected", .text p.text)])
  | variant {a d ms t v} (h : s = .attribute a) (hd : attr = some d) (ht : a.typ = some t) (hv : a.value = some v)
      (he : d.typ = .enum ms) (hk : t = .string ∨ t = .int ∨ ms = []) (hn : ∀ e ∈ ms, ¬ (v = .elem e ∧ OfType t e))
      (hf : Tells f "undefined_enum_variant" .information
        ("Enum attribute '" ++ a.name ++ "' has value '" ++ v.show ++ "' which is not documented.")
        [("attribute_key", .text a.name), ("attribute_value", .val v)])
  | unsupported {m g n} (h : s = .metric m) (hg : group = some g) (hi : m.instrument = .unsupported n)
      (hf : Tells f "unexpected_instrument" .violation ("Instrument '" ++ n ++ "' is not supported") [("instrument", .text n)])
  | instrument {m g i e} (h : s = .metric m) (hg : group = some g) (hi : m.instrument = .supported i)
      (he : g.instrument = some e) (hn : e ≠ i)
      (hf : Tells f "unexpected_instrument" .violation ("Instrument should be '" ++ e ++ "', but found '" ++ i ++ "'.")
        [("instrument", .text i), ("expected", .text e)])
  | unit {m g u} (h : s = .metric m) (hg : group = some g) (hu : g.unit = some u) (hn : u ≠ m.unit)
      (hf : Tells f "unit_mismatch" .violation ("Unit should be '" ++ u ++ "', but found '" ++ m.unit ++ "'.")
        [("unit", .text m.unit), ("expected", .text u)])
  | missing {g k attrs d w word l} (hg : group = some g) (hb : Bearer s k attrs) (hk : g.kind = .group ∨ g.kind = k)
      (hd : d ∈ g.attrs) (hn : ¬ Present d attrs) (hw : ReqWords d.req w word l)
      (hf : Tells f (w ++ "_attribute_not_present") l (word ++ " attribute '" ++ d.name ++ "' is not present.")
        [("attribute_key", .text d.name)])

/-- `f` is a finding of a built-in advisor. -/
def Advises (s : SRef) (signal : Sample) (attr : Option AttrDef) (group : Option Signal) (f : Finding) : Prop :=
  ∃ adv ∈ [deprecatedAdvisor, stabilityAdvisor, typeAdvisor, enumAdvisor], ∃ fs, adv s signal attr group = .ok fs ∧ f ∈ fs

/-! ### The parts -/

theorem isCompatible_iff (t u : PType) : t.isCompatible u = true ↔ Fits t u := by
  constructor
  · intro h
    cases t <;> cases u <;> first | exact .same | exact .anyLeft | exact .anyRight | exact .int | exact .ints | cases h
  · intro h
    cases h with
    | same => cases t <;> rfl
    | anyLeft => rfl
    | anyRight => cases t <;> rfl
    | int => rfl
    | ints => rfl

theorem why_iff (d : Deprecated) (w : String) : Why d w ↔ reasonOf d = w := by
  constructor
  · intro h; cases h <;> rfl
  · rintro rfl; cases d <;> constructor

theorem reqWords_iff (r : Req) (w word : String) (l : Level) (h : ReqWords r w word l) :
    missingInfo r = (w ++ "_attribute_not_present", l, word) := by
  cases h <;> simp [missingInfo] <;> decide

theorem reqWords_ex (r : Req) : ∃ w word l, ReqWords r w word l := by
  cases r
  · exact ⟨_, _, _, .required⟩
  · exact ⟨_, _, _, .recommended⟩
  · exact ⟨_, _, _, .recommendedText⟩
  · exact ⟨_, _, _, .optIn⟩
  · exact ⟨_, _, _, .optInText⟩
  · exact ⟨_, _, _, .conditionally⟩

theorem memberMatch_iff {t : PType} (ht : t = .string ∨ t = .int) (v : Value) (m : Elem) :
    memberMatch t v m = some true ∧ (v = .elem m ∧ OfType t m) ∨ memberMatch t v m = some false ∧ ¬ (v = .elem m ∧ OfType t m) := by
  rcases ht with rfl | rfl
  · cases v with
    | arr l => exact .inr ⟨rfl, fun h => by cases h.1⟩
    | elem e =>
      cases e with
      | str s =>
        by_cases h : m = .str s
        · subst h; exact .inl ⟨by simp [memberMatch, Value.asStr], rfl, .string⟩
        · refine .inr ⟨by simp [memberMatch, Value.asStr, h], fun h' => ?_⟩
          cases h'.1; exact h rfl
      | null => exact .inr ⟨rfl, fun h => by cases h.1; cases h.2⟩
      | bool _ => exact .inr ⟨rfl, fun h => by cases h.1; cases h.2⟩
      | int _ => exact .inr ⟨rfl, fun h => by cases h.1; cases h.2⟩
      | dbl _ => exact .inr ⟨rfl, fun h => by cases h.1; cases h.2⟩
      | nested => exact .inr ⟨rfl, fun h => by cases h.1; cases h.2⟩
  · cases v with
    | arr l => exact .inr ⟨rfl, fun h => by cases h.1⟩
    | elem e =>
      cases e with
      | int n =>
        by_cases hn : n ≤ 9223372036854775807
        · by_cases h : m = .int n
          · subst h; exact .inl ⟨by simp [memberMatch, Value.asI64, hn], rfl, .int hn⟩
          · refine .inr ⟨by simp [memberMatch, Value.asI64, hn, h], fun h' => ?_⟩
            cases h'.1; exact h rfl
        · refine .inr ⟨by simp [memberMatch, Value.asI64, hn], fun h' => ?_⟩
          cases h'.1
          cases h'.2 with
          | int h => exact hn h
      | null => exact .inr ⟨rfl, fun h => by cases h.1; cases h.2⟩
      | bool _ => exact .inr ⟨rfl, fun h => by cases h.1; cases h.2⟩
      | str _ => exact .inr ⟨rfl, fun h => by cases h.1; cases h.2⟩
      | dbl _ => exact .inr ⟨rfl, fun h => by cases h.1; cases h.2⟩
      | nested => exact .inr ⟨rfl, fun h => by cases h.1; cases h.2⟩

theorem memberMatch_other {t : PType} (ht : ¬ (t = .string ∨ t = .int)) (v : Value) (m : Elem) : memberMatch t v m = none := by
  cases t <;> first | rfl | exact absurd (.inl rfl) ht | exact absurd (.inr rfl) ht

theorem isMember_false_iff (t : PType) (v : Value) (ms : List Elem) : isMember t v ms = some false ↔
    (t = .string ∨ t = .int ∨ ms = []) ∧ ∀ e ∈ ms, ¬ (v = .elem e ∧ OfType t e) := by
  induction ms with
  | nil => simp [isMember]
  | cons m ms ih =>
    unfold isMember
    by_cases ht : t = .string ∨ t = .int
    · rcases memberMatch_iff ht v m with ⟨h, hm⟩ | ⟨h, hm⟩
      · rw [h]
        simp only [Option.some.injEq, Bool.true_eq_false, false_iff]
        rintro ⟨-, h'⟩
        exact h' m List.mem_cons_self hm
      · rw [h]; dsimp only; rw [ih]
        constructor
        · rintro ⟨-, h'⟩
          refine ⟨ht.elim .inl fun h => .inr (.inl h), fun e he => ?_⟩
          rcases List.mem_cons.1 he with rfl | he
          · exact hm
          · exact h' e he
        · rintro ⟨-, h'⟩
          exact ⟨ht.elim .inl fun h => .inr (.inl h), fun e he => h' e (List.mem_cons_of_mem _ he)⟩
    · rw [memberMatch_other ht]
      simp only [reduceCtorEq, false_iff]
      rintro ⟨h1 | h1 | h1, -⟩
      · exact ht (.inl h1)
      · exact ht (.inr h1)
      · cases h1

/-! ### The advisors one by one -/

/-- The rest of a finding: which signal it is about. -/
def About (signal : Sample) (f : Finding) : Prop := f.signalType = signal.signalType ∧ f.signalName = signal.signalName

theorem eq_mk {signal : Sample} {f : Finding} {id : String} {level : Level} {message : String} {ctx : List (String × CtxVal)} :
    f = mkFinding signal id level message ctx ↔ Tells f id level message ctx ∧ About signal f := by
  constructor
  · rintro rfl; exact ⟨⟨rfl, rfl, rfl, rfl⟩, rfl, rfl⟩
  · rintro ⟨⟨h1, h2, h3, h4⟩, h5, h6⟩
    cases f
    simp only at h1 h2 h3 h4 h5 h6
    subst h1 h2 h3 h4 h5 h6
    rfl

theorem deprecated_iff (s : SRef) (signal : Sample) (attr : Option AttrDef) (group : Option Signal) (f : Finding) :
    (∃ fs, deprecatedAdvisor s signal attr group = .ok fs ∧ f ∈ fs) ↔
    ∃ kind key name d st, Item s attr group kind key name (some d) st ∧ f = deprecatedFinding signal kind key name d := by
  constructor
  · rintro ⟨fs, h, hf⟩
    unfold deprecatedAdvisor at h
    split at h
    · rename_i a
      cases h
      cases attr with
      | none => simp at hf
      | some d =>
        simp only [Option.bind_some, List.mem_map, Option.mem_toList] at hf
        obtain ⟨x, hx, rfl⟩ := hf
        exact ⟨_, _, _, x, _, hx ▸ Item.attribute, rfl⟩
    · rename_i m
      cases h
      cases group with
      | none => simp at hf
      | some d =>
        simp only [Option.bind_some, List.mem_map, Option.mem_toList] at hf
        obtain ⟨x, hx, rfl⟩ := hf
        exact ⟨_, _, _, x, _, hx ▸ Item.metric, rfl⟩
    · rename_i m
      cases h
      cases group with
      | none => simp at hf
      | some d =>
        simp only [Option.bind_some, List.mem_map, Option.mem_toList] at hf
        obtain ⟨x, hx, rfl⟩ := hf
        exact ⟨_, _, _, x, _, hx ▸ Item.event, rfl⟩
    · cases h; cases hf
  · rintro ⟨kind, key, name, d, st, h, rfl⟩
    generalize hd : some d = dd at h
    cases h <;> exact ⟨_, rfl, by simp [← hd]⟩

theorem mem_unstable {o : Option String} {x : String} : x ∈ unstable o ↔ o = some x ∧ x ≠ "stable" := by
  unfold unstable
  cases o with
  | none => simp
  | some y =>
    simp only [Option.toList_some, List.mem_filter, List.mem_singleton, decide_eq_true_eq, Option.some.injEq]
    constructor
    · rintro ⟨rfl, h⟩; exact ⟨rfl, h⟩
    · rintro ⟨rfl, h⟩; exact ⟨rfl, h⟩

theorem stability_iff (s : SRef) (signal : Sample) (attr : Option AttrDef) (group : Option Signal) (f : Finding) :
    (∃ fs, stabilityAdvisor s signal attr group = .ok fs ∧ f ∈ fs) ↔
    ∃ kind key name d st, Item s attr group kind key name d (some st) ∧ st ≠ "stable" ∧
      f = unstableFinding signal kind key name st := by
  constructor
  · rintro ⟨fs, h, hf⟩
    unfold stabilityAdvisor at h
    split at h
    · cases h
      obtain ⟨x, hx, rfl⟩ := List.mem_map.1 hf
      obtain ⟨h1, h2⟩ := mem_unstable.1 hx
      cases attr with
      | none => cases h1
      | some d => exact ⟨_, _, _, _, x, (show d.stability = some x from h1) ▸ Item.attribute, h2, rfl⟩
    · cases h
      obtain ⟨x, hx, rfl⟩ := List.mem_map.1 hf
      obtain ⟨h1, h2⟩ := mem_unstable.1 hx
      cases group with
      | none => cases h1
      | some d => exact ⟨_, _, _, _, x, (show d.stability = some x from h1) ▸ Item.metric, h2, rfl⟩
    · cases h
      obtain ⟨x, hx, rfl⟩ := List.mem_map.1 hf
      obtain ⟨h1, h2⟩ := mem_unstable.1 hx
      cases group with
      | none => cases h1
      | some d => exact ⟨_, _, _, _, x, (show d.stability = some x from h1) ▸ Item.event, h2, rfl⟩
    · cases h; cases hf
  · rintro ⟨kind, key, name, d, st, h, hs, rfl⟩
    generalize hd : some st = dd at h
    cases h <;> exact ⟨_, rfl, List.mem_map.2 ⟨st, mem_unstable.2 ⟨hd.symm, hs⟩, rfl⟩⟩

theorem enum_iff (s : SRef) (signal : Sample) (attr : Option AttrDef) (group : Option Signal) (f : Finding) :
    (∃ fs, enumAdvisor s signal attr group = .ok fs ∧ f ∈ fs) ↔
    ∃ a d ms t v, s = .attribute a ∧ attr = some d ∧ a.typ = some t ∧ a.value = some v ∧ d.typ = .enum ms ∧
      isMember t v ms = some false ∧ f = mkFinding signal "undefined_enum_variant" .information
            ("Enum attribute '" ++ a.name ++ "' has value '" ++ v.show ++ "' which is not documented.")
            [("attribute_key", .text a.name), ("attribute_value", .val v)] := by
  constructor
  · rintro ⟨fs, h, hf⟩
    unfold enumAdvisor at h
    split at h
    · rename_i a
      split at h
      · rename_i d v t h1 h2
        split at h
        · rename_i ms hms
          split at h
          · rename_i hm
            cases h
            exact ⟨a, d, ms, t, v, rfl, rfl, h2, h1, hms, hm, List.mem_singleton.1 hf⟩
          · cases h; cases hf
        · cases h; cases hf
      · cases h; cases hf
    · cases h; cases hf
  · rintro ⟨a, d, ms, t, v, rfl, rfl, h1, h2, h3, h4, rfl⟩
    exact ⟨_, by simp only [enumAdvisor, h1, h2, h3, h4], List.mem_singleton.2 rfl⟩

theorem checkAttributes_mem (defs : List AttrDef) (attrs : List SAttr) (signal : Sample) (f : Finding) :
    f ∈ checkAttributes defs attrs signal ↔ ∃ d ∈ defs, ¬ Present d attrs ∧ f = missingFinding signal d := by
  unfold checkAttributes
  rw [List.mem_map]
  constructor
  · rintro ⟨d, hd, rfl⟩
    obtain ⟨h1, h2⟩ := List.mem_filter.1 hd
    exact ⟨d, h1, (fun h => by rw [(isPresent_iff d attrs).2 h] at h2; simp at h2), rfl⟩
  · rintro ⟨d, h1, h2, rfl⟩
    refine ⟨d, List.mem_filter.2 ⟨h1, ?_⟩, rfl⟩
    cases h : isPresent d attrs with
    | true => exact absurd ((isPresent_iff d attrs).1 h) h2
    | false => rfl

/-! ### C283: what is said -/

/-- C283. The built-in advisors say exactly what is listed, about the signal at hand. -/
theorem advises_iff (s : SRef) (signal : Sample) (attr : Option AttrDef) (group : Option Signal) (f : Finding) :
    Advises s signal attr group f ↔ Said s attr group f ∧ About signal f := by
  have hA : ∀ {k attrs g}, Bearer s k attrs → group = some g → (g.kind = .group ∨ g.kind = k) →
      f ∈ checkAttributes g.attrs attrs signal → Said s attr group f ∧ About signal f := by
    intro k attrs g hb hg hk hf
    obtain ⟨d, hd, hn, hf⟩ := (checkAttributes_mem _ _ _ _).1 hf
    obtain ⟨w, word, l, hw⟩ := reqWords_ex d.req
    unfold missingFinding at hf
    rw [reqWords_iff _ _ _ _ hw] at hf
    obtain ⟨h1, h2⟩ := eq_mk.1 hf
    exact ⟨.missing hg hb hk hd hn hw h1, h2⟩
  constructor
  · rintro ⟨adv, hadv, h⟩
    simp only [List.mem_cons, List.not_mem_nil, or_false] at hadv
    rcases hadv with rfl | rfl | rfl | rfl
    · obtain ⟨kind, key, name, d, st, hi, hf⟩ := (deprecated_iff _ _ _ _ _).1 h
      obtain ⟨h1, h2⟩ := eq_mk.1 hf
      exact ⟨.deprecated hi ((why_iff _ _).2 rfl) h1, h2⟩
    · obtain ⟨kind, key, name, d, st, hi, hs, hf⟩ := (stability_iff _ _ _ _ _).1 h
      obtain ⟨h1, h2⟩ := eq_mk.1 hf
      exact ⟨.notStable hi hs h1, h2⟩
    · obtain ⟨fs, h, hf⟩ := h
      unfold typeAdvisor at h
      split at h
      · rename_i a
        split at h
        · rename_i d t ht
          cases h
          unfold typeFindings at hf
          split at hf
          · rename_i ms hms
            split at hf
            · rename_i hn
              obtain ⟨h1, h2⟩ := eq_mk.1 (List.mem_singleton.1 hf)
              exact ⟨.enumType rfl rfl ht hms hn h1, h2⟩
            · cases hf
          · rename_i p hp
            split at hf
            · rename_i hn
              obtain ⟨h1, h2⟩ := eq_mk.1 (List.mem_singleton.1 hf)
              refine ⟨.type rfl rfl ht (.inl hp) (fun h => ?_) h1, h2⟩
              rw [(isCompatible_iff t p).2 h] at hn; cases hn
            · cases hf
          · rename_i p hp
            split at hf
            · rename_i hn
              obtain ⟨h1, h2⟩ := eq_mk.1 (List.mem_singleton.1 hf)
              refine ⟨.type rfl rfl ht (.inr hp) (fun h => ?_) h1, h2⟩
              rw [(isCompatible_iff t p).2 h] at hn; cases hn
            · cases hf
        · cases h; cases hf
      · rename_i m
        split at h
        · cases h; cases hf
        · rename_i g
          cases h
          rcases List.mem_append.1 hf with hf | hf
          · unfold instrumentFindings at hf
            split at hf
            · rename_i n hn
              obtain ⟨h1, h2⟩ := eq_mk.1 (List.mem_singleton.1 hf)
              exact ⟨.unsupported rfl rfl hn h1, h2⟩
            · rename_i i hi
              split at hf
              · cases hf
              · rename_i e he
                split at hf
                · cases hf
                · rename_i hn
                  obtain ⟨h1, h2⟩ := eq_mk.1 (List.mem_singleton.1 hf)
                  exact ⟨.instrument rfl rfl hi he hn h1, h2⟩
          · unfold unitFindings at hf
            split at hf
            · cases hf
            · rename_i u hu
              split at hf
              · cases hf
              · rename_i hn
                obtain ⟨h1, h2⟩ := eq_mk.1 (List.mem_singleton.1 hf)
                exact ⟨.unit rfl rfl hu hn h1, h2⟩
      · cases h
        unfold attributeFindings at hf
        split at hf
        · cases hf
        · split at hf
          · rename_i hk; exact hA .number rfl hk hf
          · cases hf
      · cases h
        unfold attributeFindings at hf
        split at hf
        · cases hf
        · split at hf
          · rename_i hk; exact hA .histogram rfl hk hf
          · cases hf
      · cases h
        unfold attributeFindings at hf
        split at hf
        · cases hf
        · split at hf
          · rename_i hk; exact hA .log rfl hk hf
          · cases hf
      · cases h; cases hf
    · obtain ⟨a, d, ms, t, v, h1, h2, h3, h4, h5, h6, hf⟩ := (enum_iff _ _ _ _ _).1 h
      obtain ⟨hf1, hf2⟩ := eq_mk.1 hf
      obtain ⟨h7, h8⟩ := (isMember_false_iff _ _ _).1 h6
      exact ⟨.variant h1 h2 h3 h4 h5 h7 h8 hf1, hf2⟩
  · rintro ⟨h, ha⟩
    have dep : deprecatedAdvisor ∈ [deprecatedAdvisor, stabilityAdvisor, typeAdvisor, enumAdvisor] := by simp
    have sta : stabilityAdvisor ∈ [deprecatedAdvisor, stabilityAdvisor, typeAdvisor, enumAdvisor] := by simp
    have typ : typeAdvisor ∈ [deprecatedAdvisor, stabilityAdvisor, typeAdvisor, enumAdvisor] := by simp
    have enu : enumAdvisor ∈ [deprecatedAdvisor, stabilityAdvisor, typeAdvisor, enumAdvisor] := by simp
    cases h with
    | deprecated hi hw hf =>
      rw [← (why_iff _ _).1 hw] at hf
      exact ⟨_, dep, (deprecated_iff _ _ _ _ _).2 ⟨_, _, _, _, _, hi, eq_mk.2 ⟨hf, ha⟩⟩⟩
    | notStable hi hs hf =>
      exact ⟨_, sta, (stability_iff _ _ _ _ _).2 ⟨_, _, _, _, _, hi, hs, eq_mk.2 ⟨hf, ha⟩⟩⟩
    | enumType h hd ht he hn hf =>
      subst h hd
      refine ⟨_, typ, _, by simp only [typeAdvisor, ht]; rfl, ?_⟩
      simp only [typeFindings, he]
      rw [if_pos hn]
      exact List.mem_singleton.2 (eq_mk.2 ⟨hf, ha⟩)
    | @type a d p t h hd ht he hn hf =>
      subst h hd
      refine ⟨_, typ, _, by simp only [typeAdvisor, ht]; rfl, ?_⟩
      have hc : (!t.isCompatible p) = true := by
        cases hx : t.isCompatible p with
        | true => exact absurd ((isCompatible_iff t p).1 hx) hn
        | false => rfl
      rcases he with he | he <;>
      · simp only [typeFindings, he]
        rw [if_pos hc]
        exact List.mem_singleton.2 (eq_mk.2 ⟨hf, ha⟩)
    | variant h hd ht hv he hk hn hf =>
      exact ⟨_, enu, (enum_iff _ _ _ _ _).2 ⟨_, _, _, _, _, h, hd, ht, hv, he, (isMember_false_iff _ _ _).2 ⟨hk, hn⟩,
        eq_mk.2 ⟨hf, ha⟩⟩⟩
    | unsupported h hg hi hf =>
      subst h hg
      refine ⟨_, typ, _, rfl, List.mem_append_left _ ?_⟩
      simp only [instrumentFindings, hi]
      exact List.mem_singleton.2 (eq_mk.2 ⟨hf, ha⟩)
    | instrument h hg hi he hn hf =>
      subst h hg
      refine ⟨_, typ, _, rfl, List.mem_append_left _ ?_⟩
      simp only [instrumentFindings, hi, he]
      rw [if_neg hn]
      exact List.mem_singleton.2 (eq_mk.2 ⟨hf, ha⟩)
    | unit h hg hu hn hf =>
      subst h hg
      refine ⟨_, typ, _, rfl, List.mem_append_right _ ?_⟩
      simp only [unitFindings, hu]
      rw [if_neg hn]
      exact List.mem_singleton.2 (eq_mk.2 ⟨hf, ha⟩)
    | missing hg hb hk hd hn hw hf =>
      subst hg
      have hm : f ∈ checkAttributes _ _ signal := (checkAttributes_mem _ _ _ _).2 ⟨_, hd, hn, by
        unfold missingFinding
        rw [reqWords_iff _ _ _ _ hw]
        exact eq_mk.2 ⟨hf, ha⟩⟩
      cases hb <;>
      · refine ⟨_, typ, _, rfl, ?_⟩
        simp only [attributeFindings]
        rw [if_pos hk]
        exact hm

/-! ### Findings that are not of advisors -/

/-- What is said about an attribute before the advisors run. -/
inductive SaidFirst (a : SAttr) : Option AttrDef → Finding → Prop
  | missing {f} (hf : Tells f "missing_attribute" .violation ("Attribute '" ++ a.name ++ "' does not exist in the registry.")
      [("attribute_key", .text a.name)]) : SaidFirst a none f
  | template {d p f} (h : d.typ = .template p)
      (hf : Tells f "template_attribute" .information ("Attribute '" ++ a.name ++ "' is a template")
        [("attribute_key", .text a.name), ("template_name", .text d.name)]) : SaidFirst a (some d) f

/-- C283. What is said about an attribute first. -/
theorem first_iff (signal : Sample) (a : SAttr) (d : Option AttrDef) (f : Finding) :
    f ∈ attributeFirst signal a d ↔ SaidFirst a d f ∧ About signal f := by
  cases d with
  | none =>
    simp only [attributeFirst, List.mem_singleton, eq_mk]
    exact ⟨fun h => ⟨.missing h.1, h.2⟩, fun ⟨h, h'⟩ => by cases h with | missing h => exact ⟨h, h'⟩⟩
  | some d =>
    simp only [attributeFirst]
    cases hd : d.typ with
    | template p =>
      simp only [AType.isTemplate, if_true, List.mem_singleton, eq_mk]
      exact ⟨fun h => ⟨.template hd h.1, h.2⟩, fun ⟨h, h'⟩ => by cases h with | template _ h => exact ⟨h, h'⟩⟩
    | prim p =>
      simp only [AType.isTemplate, Bool.false_eq_true, if_false, List.not_mem_nil, false_iff]
      rintro ⟨h, -⟩
      cases h with | template h _ => rw [hd] at h; cases h
    | «enum» p =>
      simp only [AType.isTemplate, Bool.false_eq_true, if_false, List.not_mem_nil, false_iff]
      rintro ⟨h, -⟩
      cases h with | template h _ => rw [hd] at h; cases h

/-- C283. What is said about the attributes of an entity that are not in the resource. -/
theorem entity_iff (signal : Sample) (attrs : List SAttr) (e : Entity) (f : Finding) :
    f ∈ checkEntity signal attrs e ↔ ∃ d ∈ e.attrs, (∀ a ∈ attrs, a.name ≠ d.name) ∧ ∃ w word l, ReqWords d.req w word l ∧
      Tells f ("entity_" ++ w ++ "_attribute_not_present") l
        (word ++ " attribute '" ++ d.name ++ "' for entity '" ++ e.type ++ "' is not present in the resource.")
        [("attribute_key", .text d.name), ("entity_type", .text e.type)] ∧ About signal f := by
  have key : ∀ d : AttrDef, ∀ w word l, ReqWords d.req w word l →
      (f = entityFinding signal e.type d ↔ Tells f ("entity_" ++ w ++ "_attribute_not_present") l
        (word ++ " attribute '" ++ d.name ++ "' for entity '" ++ e.type ++ "' is not present in the resource.")
        [("attribute_key", .text d.name), ("entity_type", .text e.type)] ∧ About signal f) := by
    intro d w word l hw
    have : entityMissingInfo d.req = ("entity_" ++ w ++ "_attribute_not_present", l, word) := by
      generalize d.req = r at hw
      cases hw <;> simp [entityMissingInfo] <;> decide
    unfold entityFinding
    rw [this]
    exact eq_mk
  have hpres : ∀ d : AttrDef, (!(attrs.map (·.name)).contains d.name) = true ↔ ∀ a ∈ attrs, a.name ≠ d.name := by
    intro d
    simp [List.contains_eq_mem]
  unfold checkEntity
  rw [List.mem_map]
  constructor
  · rintro ⟨d, hd, rfl⟩
    obtain ⟨h1, h2⟩ := List.mem_filter.1 hd
    obtain ⟨w, word, l, hw⟩ := reqWords_ex d.req
    obtain ⟨h3, h4⟩ := eq_mk.1 (show entityFinding signal e.type d = entityFinding signal e.type d from rfl)
    refine ⟨d, h1, (hpres d).1 h2, w, word, l, hw, ?_⟩
    have : entityMissingInfo d.req = ("entity_" ++ w ++ "_attribute_not_present", l, word) := by
      generalize d.req = r at hw
      cases hw <;> simp [entityMissingInfo] <;> decide
    rw [this] at h3
    exact ⟨h3, h4⟩
  · rintro ⟨d, h1, h2, w, word, l, hw, hf⟩
    exact ⟨d, List.mem_filter.2 ⟨h1, (hpres d).2 h2⟩, ((key d w word l hw).2 hf).symm⟩

/-! ### C284: the details in the message are those of the context -/

/-- A message mentions what a context holds. -/
def Mentions (message : String) : CtxVal → Prop
  | .text t => t.toList <:+: message.toList
  | .val v => v.show.toList <:+: message.toList
  | .names l => ∀ t ∈ l, t.toList <:+: message.toList

theorem infix_mid {α : Type} (a b c : List α) : b <:+: a ++ (b ++ c) := ⟨a, c, by simp⟩

theorem infix_skip {α : Type} {b c : List α} (a : List α) (h : b <:+: c) : b <:+: a ++ c := by
  obtain ⟨x, y, rfl⟩ := h
  exact ⟨a ++ x, y, by simp⟩

theorem infix_head {α : Type} (b c : List α) : b <:+: b ++ c := ⟨[], c, by simp⟩

/-- C284. Every finding of a built-in advisor mentions in its message all that its context holds. -/
theorem mentions {s : SRef} {signal : Sample} {attr : Option AttrDef} {group : Option Signal} {f : Finding}
    (h : Advises s signal attr group f) : ∀ p ∈ f.ctx, Mentions f.message p.2 := by
  have h := ((advises_iff _ _ _ _ _).1 h).1
  cases h <;> rename_i hf <;> rw [hf.ctx, hf.message] <;>
    simp only [List.mem_cons, List.not_mem_nil, or_false, forall_eq_or_imp, forall_eq, Mentions, String.toList_append,
      List.append_assoc] <;>
    (repeat' apply And.intro) <;>
    repeat (first | exact infix_head _ _ | apply infix_skip)

/-- C284. So do the findings about attributes that are not in the registry, or of a template of it: the name of the template is
the beginning of the name of the attribute. -/
theorem mentions_first {r : Registry} {signal : Sample} {a : SAttr} {f : Finding}
    (h : f ∈ attributeFirst signal a ((Checker.new r).findAny a.name)) : ∀ p ∈ f.ctx, Mentions f.message p.2 := by
  have h := ((first_iff _ _ _ _).1 h).1
  generalize hd : (Checker.new r).findAny a.name = o at h
  cases h with
  | missing hf =>
    rw [hf.ctx, hf.message]
    simp only [List.mem_cons, List.not_mem_nil, or_false, forall_eq, Mentions, String.toList_append, List.append_assoc]
    exact infix_skip _ (infix_head _ _)
  | @template d p f ht hf =>
    have hpre : d.name.toList <+: a.name.toList := by
      cases hfa : (Checker.new r).findAttribute a.name with
      | some d' =>
        obtain ⟨h1, h2, -⟩ := (attribute_definition r a.name).1 d' hfa
        rw [hd] at h1
        cases h1
        rw [ht] at h2
        cases h2
      | none =>
        unfold Checker.findAny at hd
        rw [hfa, Option.none_or] at hd
        exact ((longest_template r a.name).2 d hd).1.2.2
    rw [hf.ctx, hf.message]
    simp only [List.mem_cons, List.not_mem_nil, or_false, forall_eq_or_imp, forall_eq, Mentions, String.toList_append,
      List.append_assoc]
    refine And.intro (infix_skip _ (infix_head _ _)) (infix_skip _ ?_)
    obtain ⟨x, hx⟩ := hpre
    rw [← hx, List.append_assoc]
    exact infix_head _ _

/-- C284. So do those about attributes of entities. -/
theorem mentions_entity {signal : Sample} {attrs : List SAttr} {e : Entity} {f : Finding} (h : f ∈ checkEntity signal attrs e) :
    ∀ p ∈ f.ctx, Mentions f.message p.2 := by
  obtain ⟨d, -, -, w, word, l, -, hf, -⟩ := (entity_iff _ _ _ _).1 h
  rw [hf.ctx, hf.message]
  simp only [List.mem_cons, List.not_mem_nil, or_false, forall_eq_or_imp, forall_eq, Mentions, String.toList_append,
      List.append_assoc]
  (repeat' apply And.intro) <;> repeat (first | exact infix_head _ _ | apply infix_skip)

theorem infix_intercalate {n : String} {l : List String} (h : n ∈ l) (sep : String) : n.toList <:+: (sep.intercalate l).toList := by
  induction l with
  | nil => cases h
  | cons x l ih =>
    cases l with
    | nil =>
      rw [List.mem_singleton.1 h]
      simp
    | cons y l =>
      rw [String.intercalate_cons_cons]
      simp only [String.toList_append, List.append_assoc]
      rcases List.mem_cons.1 h with rfl | h
      · exact infix_head _ _
      · exact infix_skip _ (infix_skip _ (ih h))

/-- C284. And that about alternatives, which names them all, separated by commas. -/
theorem mentions_unsatisfied (signal : Sample) (l : List (Assoc EntityKey)) :
    ∀ p ∈ (notSatisfied signal l).ctx, Mentions (notSatisfied signal l).message p.2 := by
  simp only [notSatisfied, mkFinding, List.mem_cons, List.not_mem_nil, or_false, forall_eq, Mentions, String.toList_append,
    List.append_assoc]
  intro t ht
  obtain ⟨x, y, h⟩ := infix_intercalate ht ", "
  refine infix_skip _ ?_
  rw [← h]
  generalize "] were satisfied by the resource.".toList = z
  exact ⟨x, y ++ z, by simp only [List.append_assoc]⟩

/-- C284. What that message is. -/
theorem unsatisfied_message (signal : Sample) (l : List (Assoc EntityKey)) :
    ∃ names, (notSatisfied signal l).ctx = [("entity_type", .names names)] ∧
      (notSatisfied signal l).message =
        "None of the associated entities [" ++ ", ".intercalate names ++ "] were satisfied by the resource." :=
  ⟨_, rfl, rfl⟩

/-! ### C285: what identifies the sample and the signal -/

/-- C285. The name of a sample: that of attributes, spans, their events, scopes, metrics and events. -/
theorem sampleName_iff (s : SRef) (n : String) : s.sampleName = some n ↔
    (∃ a, s = .attribute a ∧ a.name = n) ∨ (∃ x, s = .span x ∧ x.name = n) ∨ (∃ x, s = .spanEvent x ∧ x.name = n) ∨
    (∃ x, s = .scope x ∧ x.name = n) ∨ (∃ x, s = .metric x ∧ x.name = n) ∨ (∃ x, s = .log x ∧ x.eventName = n) := by
  cases s <;> simp [SRef.sampleName]

/-- C285. The type of the signal. -/
theorem signalType_iff (s : Sample) (t : String) : s.signalType = some t ↔
    ((∃ x, s = .span x) ∧ t = "span") ∨ ((∃ x, s = .resource x) ∧ t = "resource") ∨ ((∃ x, s = .metric x) ∧ t = "metric") ∨
    ((∃ x, s = .log x) ∧ t = "log") ∨ ((∃ x, s = .profile x) ∧ t = "profile") := by
  cases s <;> simp [Sample.signalType, eq_comm]

/-- C285. The name of the signal. -/
theorem signalName_iff (s : Sample) (n : String) : s.signalName = some n ↔
    (∃ x, s = .span x ∧ x.name = n) ∨ (∃ x, s = .metric x ∧ x.name = n) ∨ (∃ x, s = .log x ∧ x.eventName = n) := by
  cases s <;> simp [Sample.signalName]

/-- C285. The resource of a signal. -/
theorem resourceAttrs_spec (s : Sample) (r : Resource) :
    ((∃ x, s = .span x ∧ x.resource = some r) ∨ (∃ x, s = .metric x ∧ x.resource = some r) ∨
      (∃ x, s = .log x ∧ x.resource = some r) ∨ (∃ x, s = .profile x ∧ x.resource = some r)) → s.resourceAttrs = r.attrs := by
  rintro (⟨x, rfl, h⟩ | ⟨x, rfl, h⟩ | ⟨x, rfl, h⟩ | ⟨x, rfl, h⟩) <;> simp [Sample.resourceAttrs, h]

/-! ### C286: the identifiers are those of the documentation -/

/-- docs/finding.md:93-116: the identifiers, but for those of rego policies. -/
def documentedIds : List String :=
  ["missing_attribute", "template_attribute", "missing_metric", "missing_event", "deprecated", "type_mismatch", "not_stable",
   "unit_mismatch", "unexpected_instrument", "undefined_enum_variant", "required_attribute_not_present",
   "recommended_attribute_not_present", "opt_in_attribute_not_present", "conditionally_required_attribute_not_present",
   "entity_required_attribute_not_present", "entity_recommended_attribute_not_present", "entity_opt_in_attribute_not_present",
   "entity_conditionally_required_attribute_not_present", "entity_association_not_satisfied"]

theorem advises_id {s : SRef} {signal : Sample} {attr : Option AttrDef} {group : Option Signal} {f : Finding}
    (h : Advises s signal attr group f) : f.id ∈ documentedIds := by
  have h := ((advises_iff _ _ _ _ _).1 h).1
  cases h with
  | missing hg hb hk hd hn hw hf =>
    rw [hf.id]
    generalize hr : AttrDef.req _ = r at hw
    cases hw <;> decide
  | _ => rename_i hf; rw [hf.id]; decide

/-- What every finding of the check itself is like. -/
structure Proper (signal : Sample) (f : Finding) : Prop where
  id : f.id ∈ documentedIds
  mentions : ∀ p ∈ f.ctx, Mentions f.message p.2
  about : About signal f

theorem proper_first {r : Registry} {signal : Sample} {a : SAttr} {f : Finding}
    (h : f ∈ attributeFirst signal a ((Checker.new r).findAny a.name)) : Proper signal f := by
  obtain ⟨h1, h2⟩ := (first_iff _ _ _ _).1 h
  refine ⟨?_, mentions_first h, h2⟩
  generalize (Checker.new r).findAny a.name = o at h1
  cases h1 with
  | missing hf => rw [hf.id]; decide
  | template _ hf => rw [hf.id]; decide

theorem proper_says {c : Checker} {attrs : List SAttr} {signal : Sample} {x : Assoc EntityKey} {f : Finding}
    (h : Says c attrs signal x f) : Proper signal f := by
  induction h with
  | @ref k e d hk hd hn =>
    have hm : entityFinding signal e.type d ∈ checkEntity signal attrs e := mem_checkEntity.2 ⟨d, hd, hn, rfl⟩
    refine ⟨?_, mentions_entity hm, rfl, rfl⟩
    obtain ⟨d', -, -, w, word, l, hw, hf, -⟩ := (entity_iff _ _ _ _).1 hm
    rw [hf.id]
    generalize d'.req = r at hw
    cases hw <;> decide
  | allOf _ _ ih => exact ih
  | oneOf _ _ _ ih => exact ih
  | none => exact ⟨by show "entity_association_not_satisfied" ∈ documentedIds; decide, mentions_unsatisfied _ _, rfl, rfl⟩

theorem proper_assoc {env : Env} {k : SigKind} {signal : Sample} {g : Option Signal} {f : Finding}
    (h : f ∈ assocFindings env k signal g) : Proper signal f := by
  unfold assocFindings at h
  split at h
  · cases h
  · split at h
    · rcases (association_findings _ _ _ _ _).1 h with ⟨x, -, h⟩ | ⟨-, h⟩ <;> exact proper_says h
    · cases h

/-- What a run looks at in a sample is about that sample, and what the check itself says about it is proper. -/
theorem occs_proper {env : Env} {r : Registry} (hr : env.checker = Checker.new r) {s : Sample} {o : Occ} (h : o ∈ occs env s) :
    o.signal = s ∧ ∀ f, f ∈ o.first ∨ f ∈ o.last → Proper s f := by
  have hattr : ∀ g a, (attrOcc env.checker g s a).signal = s ∧
      ∀ f, f ∈ (attrOcc env.checker g s a).first ∨ f ∈ (attrOcc env.checker g s a).last → Proper s f := by
    intro g a
    refine ⟨rfl, fun f hf => ?_⟩
    rcases hf with hf | hf
    · unfold attrOcc at hf; rw [hr] at hf; exact proper_first hf
    · cases hf
  have hwith : ∀ {kind ref attrs g} {o : Occ}, o ∈ withAttrs env.checker kind ref attrs g s →
      o.signal = s ∧ ∀ f, f ∈ o.first ∨ f ∈ o.last → Proper s f := by
    intro kind ref attrs g o ho
    rcases List.mem_cons.1 ho with rfl | ho
    · exact ⟨rfl, fun f hf => by rcases hf with hf | hf <;> cases hf⟩
    · obtain ⟨a, -, rfl⟩ := List.mem_map.1 ho
      exact hattr g a
  have hpoint : ∀ {mk g p} {o : Occ}, o ∈ pointOccs env.checker mk g s p →
      o.signal = s ∧ ∀ f, f ∈ o.first ∨ f ∈ o.last → Proper s f := by
    intro mk g p o ho
    rcases List.mem_append.1 ho with ho | ho
    · exact hwith ho
    · obtain ⟨e, -, ho⟩ := List.mem_flatMap.1 ho
      exact hwith ho
  have hpoints : ∀ {g ps} {o : Occ}, o ∈ pointsOccs env.checker g s ps →
      o.signal = s ∧ ∀ f, f ∈ o.first ∨ f ∈ o.last → Proper s f := by
    intro g ps o ho
    unfold pointsOccs at ho
    split at ho
    · cases ho
    all_goals
      obtain ⟨p, -, ho⟩ := List.mem_flatMap.1 ho
      exact hpoint ho
  unfold occs at h
  cases s with
  | «attribute» a => rw [List.mem_singleton.1 h]; exact hattr _ _
  | span x =>
    rcases List.mem_append.1 h with h | h
    · rcases List.mem_append.1 h with h | h
      · exact hwith h
      · obtain ⟨e, -, h⟩ := List.mem_flatMap.1 h; exact hwith h
    · obtain ⟨e, -, h⟩ := List.mem_flatMap.1 h; exact hwith h
  | spanEvent x => exact hwith h
  | spanLink x => exact hwith h
  | resource x => exact hwith h
  | scope x => exact hwith h
  | profile x => exact hwith h
  | metric m =>
    rcases List.mem_append.1 h with h | h
    · exact hpoints h
    · rw [List.mem_singleton.1 h]
      refine ⟨rfl, fun f hf => ?_⟩
      rcases hf with hf | hf
      · dsimp only at hf
        split at hf
        · rw [List.mem_singleton.1 hf]
          exact ⟨by show "missing_metric" ∈ documentedIds; decide, fun p hp => (by cases hp), rfl, rfl⟩
        · cases hf
      · exact proper_assoc hf
  | log l =>
    rcases List.mem_append.1 h with h | h
    · obtain ⟨a, -, rfl⟩ := List.mem_map.1 h; exact hattr _ _
    · rw [List.mem_singleton.1 h]
      refine ⟨rfl, fun f hf => ?_⟩
      rcases hf with hf | hf
      · dsimp only at hf
        split at hf
        · rw [List.mem_singleton.1 hf]
          exact ⟨by show "missing_event" ∈ documentedIds; decide, fun p hp => (by cases hp), rfl, rfl⟩
        · cases hf
      · exact proper_assoc hf

theorem applyOverrides_rest (g : Globs) (f : Finding) (s : SRef) (cs : List COverride) :
    ∃ l, applyOverrides g f s cs = { f with level := l } := by
  induction cs with
  | nil => exact ⟨f.level, rfl⟩
  | cons c cs ih =>
    unfold applyOverrides
    split
    · exact ⟨_, rfl⟩
    · exact ih

theorem reported_rest {m : Option Modifier} {s : SRef} {f f' : Finding} (h : reported m s f = some f') :
    ∃ l, f' = { f with level := l } := by
  unfold reported at h
  cases m with
  | none => cases h; exact ⟨f.level, rfl⟩
  | some m =>
    unfold Modifier.apply at h
    dsimp only at h
    split at h
    · cases h
    · cases h; exact applyOverrides_rest _ _ _ _

/-- C286. In a run with the advisors of the command, every finding of every entry is either one that a rego policy gave about a
sample, up to its level, or one with a documented identifier, a message that mentions all that its context holds, and the type
and name of the signal of the sample it was found in. -/
theorem run_proper {env : Env} {rego : Advisor} {r : Registry} (hadv : env.advisors = advisors rego)
    (hr : env.checker = Checker.new r) {noStats : Bool} {samples : List Sample} {st : St}
    (h : liveCheck env noStats samples = .ok st) {e : Entry} (he : e ∈ st.entries) :
    ∃ s ∈ attachAll none samples, ∀ f ∈ e.result.all,
      Proper s f ∨ ∃ attr group rs l, rego e.ref s attr group = .ok rs ∧ ∃ f0 ∈ rs, f = { f0 with level := l } := by
  obtain ⟨o, ho, hk, href, fs, ⟨gs, hgs, rfl⟩, hall⟩ := (run_report h).mem_right he
  obtain ⟨s, hs, ho⟩ := List.mem_flatMap.1 ho
  obtain ⟨h1, h2⟩ := occs_proper hr ho
  refine ⟨s, hs, fun f hf => ?_⟩
  rw [hall] at hf
  obtain ⟨f0, hf0, hrep⟩ := List.mem_filterMap.1 hf
  obtain ⟨l, rfl⟩ := reported_rest hrep
  have lift : Proper s f0 → Proper s { f0 with level := l } := fun hp => ⟨hp.id, hp.mentions, hp.about⟩
  rw [hadv] at hgs
  obtain ⟨d, st', t, n, rs, g1, g2, g3, g4, g5, rfl⟩ := advice_advisors hgs
  have adv : ∀ a ∈ [deprecatedAdvisor, stabilityAdvisor, typeAdvisor, enumAdvisor], ∀ x,
      a o.ref o.signal o.attr o.group = .ok x → f0 ∈ x → Proper s f0 := by
    intro a ha x hx hm
    have hA : Advises o.ref o.signal o.attr o.group f0 := ⟨a, ha, x, hx, hm⟩
    exact ⟨advises_id hA, mentions hA, h1 ▸ ((advises_iff _ _ _ _ _).1 hA).2⟩
  simp only [List.mem_append] at hf0
  rcases hf0 with (hf0 | hf0 | hf0 | hf0 | hf0 | hf0) | hf0
  · exact .inl (lift (h2 f0 (.inl hf0)))
  · exact .inl (lift (adv _ (by simp) d g1 hf0))
  · exact .inl (lift (adv _ (by simp) st' g2 hf0))
  · exact .inl (lift (adv _ (by simp) t g3 hf0))
  · exact .inl (lift (adv _ (by simp) n g4 hf0))
  · refine .inr ⟨o.attr, o.group, rs, l, ?_, f0, hf0, rfl⟩
    rw [href, ← h1]; exact g5
  · exact .inl (lift (h2 f0 (.inr hf0)))

/-- A run with an attribute of a wrong type, an attribute that is not known and a metric that is not: the messages. -/
example : (liveCheck (plainEnv small none) false [.attribute { name := "size", typ := some .int },
      .attribute { name := "x" }, .metric { name := "q", instrument := .supported "gauge", unit := "s" }]).toOption.map
      (fun st => st.entries.map fun e => e.result.all.map fun f => f.message) =
    some [["Attribute 'size' has type 'int'. Type should be 'string'."], ["Attribute 'x' does not exist in the registry."],
      ["Metric does not exist in the registry."]] := by decide +kernel

/-! ### C287: where entities are looked up -/

/-- A v2 registry defines an entity under a name: the first entity of that type, or else the first refinement of that name. -/
def DefinedAs (p : V2Part) (n : String) (e : Entity) : Prop :=
  (∃ pre post, p.entities = pre ++ e :: post ∧ e.type = n ∧ ∀ x ∈ pre, x.type ≠ n) ∨
  ((∀ x ∈ p.entities, x.type ≠ n) ∧
    ∃ pre post, p.entityRefinements = pre ++ (n, e) :: post ∧ ∀ x ∈ pre, x.1 ≠ n)

theorem find_split {α : Type} (q : α → Bool) (l : List α) (x : α) : l.find? q = some x ↔
    ∃ pre post, l = pre ++ x :: post ∧ q x = true ∧ ∀ y ∈ pre, q y = false := by
  rw [List.find?_eq_some_iff_append]
  constructor
  · rintro ⟨h, pre, post, rfl, hn⟩
    exact ⟨pre, post, rfl, h, fun y hy => by have := hn y hy; cases hq : q y <;> simp_all⟩
  · rintro ⟨pre, post, rfl, h, hn⟩
    exact ⟨h, pre, post, rfl, fun y hy => by rw [hn y hy]; rfl⟩

theorem definedEntity_iff (p : V2Part) (n : String) (e : Entity) : p.definedEntity n = some e ↔ DefinedAs p n e := by
  unfold V2Part.definedEntity DefinedAs
  cases h : p.entities.find? fun e => decide (e.type = n) with
  | some x =>
    rw [Option.some_or, Option.some.injEq]
    obtain ⟨pre, post, h1, h2, h3⟩ := (find_split _ _ _).1 h
    simp only [decide_eq_true_eq, decide_eq_false_iff_not] at h2 h3
    constructor
    · rintro rfl; exact .inl ⟨pre, post, h1, h2, h3⟩
    · rintro (⟨pre', post', h1', h2', h3'⟩ | ⟨hn, -⟩)
      · have := (find_split (fun e : Entity => decide (e.type = n)) _ _).2 ⟨pre', post', h1', by simpa using h2', by simpa using h3'⟩
        rw [h] at this; exact Option.some.inj this
      · exact absurd h2 (hn x (by rw [h1]; simp))
  | none =>
    rw [Option.none_or, Option.map_eq_some_iff]
    have hnone : ∀ x ∈ p.entities, x.type ≠ n := by simpa using List.find?_eq_none.1 h
    constructor
    · rintro ⟨⟨m, x⟩, hq, rfl⟩
      obtain ⟨pre, post, h1, h2, h3⟩ := (find_split _ _ _).1 hq
      simp only [decide_eq_true_eq, decide_eq_false_iff_not] at h2 h3
      subst h2
      exact .inr ⟨hnone, pre, post, h1, h3⟩
    · rintro (⟨pre, post, h1, h2, -⟩ | ⟨-, pre, post, h1, h3⟩)
      · exact absurd h2 (hnone e (by rw [h1]; simp))
      · exact ⟨(n, e), (find_split _ _ _).2 ⟨pre, post, h1, by simp, by simpa using h3⟩, rfl⟩

/-- C287. A reference to an entity of a v2 registry without a source is looked up in the registry itself, and one with a source
in the first dependency with that schema URL; there is nothing else it can stand for. -/
theorem lookup_iff (p : V2Part) (deps : List (String × V2Part)) (t : String) (source : Option String) (e : Entity) :
    (Checker.new (.v2 p deps)).lookupEntity (.ref t source) = some e ↔
      (source = none ∧ DefinedAs p t e) ∨
      ∃ url pre post d, source = some url ∧ deps = pre ++ (url, d) :: post ∧ (∀ x ∈ pre, x.1 ≠ url) ∧ DefinedAs d t e := by
  have hreg : (Checker.new (.v2 p deps)).registry = .v2 p deps := by
    have hk : ∀ (l : List AttrDef) (c : Checker), (l.foldl Checker.addAttr c).registry = c.registry := by
      intro l
      induction l with
      | nil => intro c; rfl
      | cons d l ih =>
        intro c
        rw [List.foldl_cons, ih]
        unfold Checker.addAttr
        split <;> rfl
    unfold Checker.new
    dsimp only
    rw [hk]
  unfold Checker.lookupEntity
  dsimp only
  rw [hreg]
  unfold lookupV2
  dsimp only
  cases source with
  | none => simp [definedEntity_iff]
  | some url =>
    dsimp only
    cases h : deps.find? fun d => decide (d.1 = url) with
    | none =>
      have hnone : ∀ x ∈ deps, x.1 ≠ url := by simpa using List.find?_eq_none.1 h
      simp only [reduceCtorEq, false_and, false_or, false_iff]
      rintro ⟨u, pre, post, d, hu, rfl, -⟩
      cases hu
      exact hnone (url, d) (by simp) rfl
    | some x =>
      obtain ⟨u, d⟩ := x
      obtain ⟨pre, post, h1, h2, h3⟩ := (find_split _ _ _).1 h
      simp only [decide_eq_true_eq, decide_eq_false_iff_not] at h2 h3
      subst h2
      simp only [reduceCtorEq, false_and, false_or, definedEntity_iff]
      constructor
      · intro hd; exact ⟨u, pre, post, d, rfl, h1, h3, hd⟩
      · rintro ⟨u', pre', post', d', hu, h1', h3', hd⟩
        cases hu
        have := (find_split (fun d : String × V2Part => decide (d.1 = u)) _ _).2 ⟨pre', post', h1', by simp, by simpa using h3'⟩
        rw [h] at this
        cases this
        exact hd

/-- C287. A name of an entity in a v1 registry stands for the last entity group of that name. -/
theorem lookup_v1 (groups : List Group) (n : String) :
    (Checker.new (.v1 groups)).lookupEntity (.name n) =
      ((groups.filter fun g => decide (g.type = .entity ∧ g.name = some n)).getLast?).map
        fun g => { type := n, attrs := g.signal.attrs } := by
  have hk : ∀ (l : List AttrDef) (c : Checker), (l.foldl Checker.addAttr c).entities = c.entities := by
    intro l
    induction l with
    | nil => intro c; rfl
    | cons d l ih =>
      intro c
      rw [List.foldl_cons, ih]
      unfold Checker.addAttr
      split <;> rfl
  have step : ∀ (c : Checker) (g : Group), aget n (c.addGroup g).entities =
      if g.type = .entity ∧ g.name = some n then some { type := n, attrs := g.signal.attrs } else aget n c.entities := by
    intro c g
    unfold Checker.addGroup
    dsimp only
    rw [hk]
    cases ht : g.type <;> cases hn : g.name <;> cases hm : g.metricName <;> simp [aget_aset, eq_comm]
    all_goals
      split
      · rename_i h; rw [h]
      · rfl
  have hall : ∀ (l : List Group) (c : Checker), aget n (l.foldl Checker.addGroup c).entities =
      (((l.filter fun g => decide (g.type = .entity ∧ g.name = some n)).getLast?).map
        fun g => ({ type := n, attrs := g.signal.attrs } : Entity)).or (aget n c.entities) := by
    intro l
    induction l with
    | nil => intro c; rfl
    | cons g l ih =>
      intro c
      rw [List.foldl_cons, ih, step]
      by_cases hg : g.type = .entity ∧ g.name = some n
      · rw [if_pos hg, List.filter_cons, if_pos (by simpa using hg), List.getLast?_cons]
        cases (l.filter fun g => decide (g.type = .entity ∧ g.name = some n)).getLast? <;> simp
      · rw [if_neg hg, List.filter_cons, if_neg (by simpa using hg)]
  unfold Checker.lookupEntity
  dsimp only
  show aget n (groups.foldl Checker.addGroup { registry := .v1 groups }).entities = _
  rw [hall]
  simp [aget]

end Verif.LiveCheck
