import Verif.Emit.Props
import Verif.LiveCheck.Limits
/-
What the live check says about what `registry emit` sends for the same registry: C218 (no violations), C219 (coverage).
-/
namespace Verif.Emit
open Verif.Util
open Verif.LiveCheck hiding Group Metric Span Log GType Resource Scope
open Verif.Values (Examples emitted emittedName HasType Allows specValue inferType mistyped)
open Verif.Receiver.Ingest (KV attrOf ingest toValue toElem)

/-! ### Metrics and events of a registry -/

/-- The last entry with the name. -/
def lastOf {α : Type} (n : String) (l : List (String × α)) : Option α := ((l.filter fun p => p.1 = n).getLast?).map (·.2)

theorem aget_foldl_aset {α : Type} (l : List (String × α)) (m : List (String × α)) (n : String) :
    aget n (l.foldl (fun m (q : String × α) => aset q.1 q.2 m) m) = (lastOf n l).or (aget n m) := by
  induction l generalizing m with
  | nil => rfl
  | cons p l ih =>
    rw [List.foldl_cons, ih, aget_aset]
    unfold lastOf
    by_cases h : p.1 = n
    · subst h
      simp only [List.filter_cons, decide_true, if_true, List.getLast?_cons]
      cases (l.filter fun q => q.1 = p.1).getLast? <;> rfl
    · rw [if_neg (fun e => h e.symm), List.filter_cons, if_neg (by simpa using h)]

theorem foldl_addAttr_signals (l : List AttrDef) (c : Checker) :
    (l.foldl Checker.addAttr c).metrics = c.metrics ∧ (l.foldl Checker.addAttr c).events = c.events ∧
    (l.foldl Checker.addAttr c).registry = c.registry := by
  induction l generalizing c with
  | nil => exact ⟨rfl, rfl, rfl⟩
  | cons d l ih =>
    rw [List.foldl_cons]
    obtain ⟨h1, h2, h3⟩ := ih (c.addAttr d)
    rw [h1, h2, h3]
    unfold Checker.addAttr
    split <;> exact ⟨rfl, rfl, rfl⟩

theorem foldl_addGroup_signals (l : List LiveCheck.Group) (c : Checker) :
    (l.foldl Checker.addGroup c).metrics
      = (Registry.v1 l).metricDefs.foldl (fun m (q : String × Signal) => aset q.1 q.2 m) c.metrics ∧
    (l.foldl Checker.addGroup c).events
      = (Registry.v1 l).eventDefs.foldl (fun m (q : String × Signal) => aset q.1 q.2 m) c.events ∧
    (l.foldl Checker.addGroup c).registry = c.registry := by
  induction l generalizing c with
  | nil => exact ⟨rfl, rfl, rfl⟩
  | cons g l ih =>
    rw [List.foldl_cons]
    obtain ⟨h1, h2, h3⟩ := ih (c.addGroup g)
    rw [h1, h2, h3]
    have hg : (c.addGroup g).metrics = (match g.type, g.metricName with
        | .metric, some n => aset n g.signal c.metrics
        | _, _ => c.metrics) ∧ (c.addGroup g).events = (match g.type, g.name with
        | .event, some n => aset n g.signal c.events
        | _, _ => c.events) ∧ (c.addGroup g).registry = c.registry := by
      unfold Checker.addGroup
      refine ⟨(foldl_addAttr_signals _ _).1.trans ?_, (foldl_addAttr_signals _ _).2.1.trans ?_,
        (foldl_addAttr_signals _ _).2.2.trans ?_⟩ <;> cases g.type <;> cases g.metricName <;> cases g.name <;> rfl
    refine ⟨?_, ?_, hg.2.2⟩
    · rw [hg.1]
      simp only [Registry.metricDefs, List.filterMap_cons]
      cases g.type <;> cases g.metricName <;> simp
    · rw [hg.2.1]
      simp only [Registry.eventDefs, List.filterMap_cons]
      cases g.type <;> cases g.name <;> simp

/-- A metric or event is compared to the last definition of its name. -/
theorem find_signal (r : Registry) (n : String) :
    (Checker.new r).findMetric n = lastOf n r.metricDefs ∧ (Checker.new r).findEvent n = lastOf n r.eventDefs ∧
    (Checker.new r).registry = r := by
  have hnil : ∀ o : Option Signal, o.or (aget n ([] : List (String × Signal))) = o := by intro o; cases o <;> rfl
  cases r with
  | v1 groups =>
    obtain ⟨h1, h2, h3⟩ := foldl_addGroup_signals groups { registry := .v1 groups }
    refine ⟨?_, ?_, h3⟩
    · show aget n (groups.foldl Checker.addGroup { registry := .v1 groups }).metrics = _
      rw [h1, aget_foldl_aset]; exact hnil _
    · show aget n (groups.foldl Checker.addGroup { registry := .v1 groups }).events = _
      rw [h2, aget_foldl_aset]; exact hnil _
  | v2 p deps =>
    unfold Checker.new Checker.findMetric Checker.findEvent
    dsimp only
    obtain ⟨h1, h2, h3⟩ := foldl_addAttr_signals p.attributes
      { registry := .v2 p deps, metrics := p.metrics.foldl (fun m (q : String × Signal) => aset q.1 q.2 m) [],
        events := p.events.foldl (fun m (q : String × Signal) => aset q.1 q.2 m) [],
        entities := p.entities.foldl (fun m (e : Entity) => aset e.type e m) [] }
    rw [h1, h2, h3]
    refine ⟨?_, ?_, rfl⟩
    · rw [aget_foldl_aset]; exact hnil _
    · rw [aget_foldl_aset]; exact hnil _

/-- Names stand for one thing. -/
def OneEach {α : Type} (l : List (String × α)) : Prop := ∀ p ∈ l, ∀ q ∈ l, p.1 = q.1 → p.2 = q.2

theorem lastOf_eq {α : Type} {l : List (String × α)} (h : OneEach l) {p : String × α} (hp : p ∈ l) : lastOf p.1 l = some p.2 := by
  unfold lastOf
  have hm : p ∈ l.filter fun q => q.1 = p.1 := List.mem_filter.2 ⟨hp, by simp⟩
  cases hl : (l.filter fun q => q.1 = p.1).getLast? with
  | none => rw [List.getLast?_eq_none_iff] at hl; rw [hl] at hm; cases hm
  | some q =>
    have hq := List.mem_filter.1 (List.mem_of_getLast? hl)
    simp only [decide_eq_true_eq] at hq
    rw [Option.map_some, h q hq.1 p hp hq.2]

/-! ### Specification -/

/-- The registry says one thing under each name, and nothing in it makes its own telemetry look wrong. -/
structure Clean (r : Reg) : Prop where
  /-- Attributes of signals are among the attributes the live check knows. -/
  known : ∀ a ∈ r.signalAttrs, ∃ d ∈ r.toCheck.attrDefs, d.name = a.d.name
  /-- Attributes of one name have one type, and are not deprecated. -/
  same : ∀ a ∈ r.signalAttrs, ∀ d ∈ r.toCheck.attrDefs, d.name = a.d.name → d.typ = a.d.typ ∧ d.deprecated = none
  /-- What is sent for a template is no other attribute. -/
  plain : ∀ a ∈ r.signalAttrs, a.d.typ.isTemplate = true →
    ∀ d ∈ r.toCheck.attrDefs, d.name = a.d.name ++ ".key" → d.typ.isTemplate = true
  /-- What is sent for a template does not belong to a template with a longer name. -/
  template : ∀ a ∈ r.signalAttrs, a.d.typ.isTemplate = true → ∀ d ∈ r.toCheck.attrDefs, d.typ.isTemplate = true →
    d.name.toList <+: (a.d.name ++ ".key").toList → d.name.toList <+: a.d.name.toList
  /-- The first member of an enum is a string or an integer. -/
  enum : ∀ a ∈ r.signalAttrs, ∀ m ms, a.d.typ = .enum (m :: ms) → (∃ s, m = .str s) ∨ ∃ n, m = .int n
  metrics : OneEach r.toCheck.metricDefs
  events : OneEach r.toCheck.eventDefs
  /-- Metrics and events are not deprecated. -/
  live : ∀ p ∈ r.toCheck.metricDefs ++ r.toCheck.eventDefs, p.2.deprecated = none
  /-- In the first format, metrics and events have names. -/
  named : ∀ groups, r = .v1 groups → ∀ g ∈ groups,
    (g.type = .metric → g.instrument.isSome = true → g.metricName.isSome = true) ∧ (g.type = .event → g.name.isSome = true)

/-- The policies have nothing to object. -/
def NoViolation (rego : Advisor) : Prop := ∀ s sg a g fs, rego s sg a g = .ok fs → ∀ f ∈ fs, f.level ≠ .violation

/-- The resource the telemetry is sent with has what the entities of the signals require. -/
def EntitiesHold (r : Reg) (res : List KV) : Prop :=
  ∀ p ∈ r.toCheck.metricDefs ++ r.toCheck.eventDefs, SomeHolds (Checker.new r.toCheck) (res.map attrOf) p.2.assocs

/-! ### Attributes -/

theorem attrOf_kvOf (n : String) (v : Value) (h : v ≠ .elem .nested) :
    attrOf (kvOf (n, v)) = { name := n, value := some v, typ := inferType v } := by
  have hv : toValue (anyOfValue v) = some v := by
    rcases v with e | l
    · cases e <;> first | rfl | exact absurd rfl h
    · show some (Value.arr ((l.map anyOf).filterMap toElem)) = _
      congr 2
      rw [List.filterMap_map]
      have : toElem ∘ anyOf = some := by funext e; cases e <;> rfl
      rw [this, List.filterMap_some]
  unfold attrOf kvOf
  simp only [Option.bind_some, hv]

theorem emitted_not_nested {d13 d15 : Nat} {a : Attr} {v : Value}
    (he : ∀ m ms, a.d.typ = .enum (m :: ms) → (∃ s, m = .str s) ∨ ∃ n, m = .int n)
    (h : emitted d13 d15 a.d.typ a.examples = some v) : v ≠ .elem .nested := by
  rintro rfl
  cases ht : a.d.typ with
  | prim p =>
    rw [ht] at h
    generalize a.examples = ex at h
    cases p <;> simp only [emitted, Option.some.injEq, reduceCtorEq, Value.elem.injEq] at h
    revert h
    split
    all_goals (try simp)
    · rename_i v; cases v <;> simp [specValue]
    · rename_i l
      cases l with
      | nil => simp
      | cons x l => cases x <;> simp [specValue]
  | template p => rw [ht] at h; cases p <;> simp [emitted] at h
  | enum l =>
    rw [ht] at h
    cases l with
    | nil => simp [emitted] at h
    | cons m ms =>
      simp only [emitted, List.head?_cons, Option.map_some, Option.some.injEq, Value.elem.injEq] at h
      subst h
      rcases he _ _ ht with ⟨s, hs⟩ | ⟨n, hn⟩ <;> simp_all

/-- The definition that what is sent for an attribute is compared to. -/
theorem found {r : Reg} (hc : Clean r) {a : Attr} (ha : a ∈ r.signalAttrs) :
    ∃ d, (Checker.new r.toCheck).findAny (emittedName a.d.name a.d.typ) = some d ∧ d.name = a.d.name ∧
      d.typ = a.d.typ ∧ d.deprecated = none := by
  obtain ⟨d0, hd0, hn0⟩ := hc.known a ha
  cases ht : a.d.typ.isTemplate with
  | false =>
    have hname : emittedName a.d.name a.d.typ = a.d.name := by cases h : a.d.typ <;> simp_all [emittedName, AType.isTemplate]
    rw [hname]
    cases hf : (Checker.new r.toCheck).findAttribute a.d.name with
    | none =>
      rw [(new_parts _).1, List.getLast?_eq_none_iff, List.filter_eq_nil_iff] at hf
      have := hf d0 hd0
      rw [(hc.same a ha d0 hd0 hn0).1, ht] at this
      simp [hn0] at this
    | some d =>
      obtain ⟨h1, h2, h3, pre, post, h4, -⟩ := (attribute_definition r.toCheck a.d.name).1 d hf
      exact ⟨d, h1, h3, hc.same a ha d (by rw [h4]; simp) h3⟩
  | true =>
    have hname : emittedName a.d.name a.d.typ = a.d.name ++ ".key" := by cases h : a.d.typ <;> simp_all [emittedName, AType.isTemplate]
    rw [hname]
    have hd0t : d0.typ.isTemplate = true := by rw [(hc.same a ha d0 hd0 hn0).1, ht]
    have hpre : d0.name.toList <+: (a.d.name ++ ".key").toList := by rw [hn0, String.toList_append]; exact List.prefix_append _ _
    rw [(attribute_definition r.toCheck (a.d.name ++ ".key")).2 (hc.plain a ha ht)]
    obtain ⟨e1, e2⟩ := longest_template r.toCheck (a.d.name ++ ".key")
    cases hf : (Checker.new r.toCheck).findTemplate (a.d.name ++ ".key") with
    | none => exact absurd hpre (e1.1 hf d0 hd0 hd0t)
    | some d =>
      obtain ⟨⟨h1, h2, h3⟩, h4⟩ := e2 d hf
      have hle := hc.template a ha ht d h1 h2 h3
      have hge := h4 d0 hd0 hd0t hpre
      rw [hn0] at hge
      have heq : d.name.toList = a.d.name.toList := hle.eq_of_length_le hge.length_le
      exact ⟨d, rfl, String.toList_injective heq, hc.same a ha d h1 (String.toList_injective heq)⟩

theorem not_mistyped {d13 d15 : Nat} {a : Attr} {v : Value} {d : AttrDef}
    (he : ∀ m ms, a.d.typ = .enum (m :: ms) → (∃ s, m = .str s) ∨ ∃ n, m = .int n)
    (h : emitted d13 d15 a.d.typ a.examples = some v) (hd : d.typ = a.d.typ) (n : String) (sg : Sample) (g : Option Signal) :
    mistyped n v d sg g = false := by
  have hpt : ∀ p, a.d.typ = .prim p ∨ a.d.typ = .template p → mistyped n v d sg g = false := by
    intro p hp
    obtain ⟨w, hw, hm⟩ := Values.emitted_accepted d13 d15 p a.d.typ hp a.examples n d hd sg g
    rw [h] at hw
    simp only [Option.some.injEq] at hw
    subst hw
    exact hm
  cases ht : a.d.typ with
  | prim p => exact hpt p (.inl ht)
  | template p => exact hpt p (.inr ht)
  | enum l =>
    cases l with
    | nil => rw [ht] at h; simp [emitted] at h
    | cons m ms =>
      obtain ⟨h1, h2⟩ := Values.emitted_enum_partial d13 d15 m ms (he m ms ht) a.examples n d (hd.trans ht) sg g
      rw [hd, h] at h1
      simp only [Option.some.injEq] at h1
      rw [h1]; exact h2

theorem stability_level {s : SRef} {sg : Sample} {a : Option AttrDef} {g : Option Signal} {fs : List Finding}
    (h : stabilityAdvisor s sg a g = .ok fs) : ∀ f ∈ fs, f.level ≠ .violation := by
  intro f hf
  cases s <;> simp only [stabilityAdvisor, Except.ok.injEq] at h <;> subst h <;>
    first
    | (obtain ⟨x, -, rfl⟩ := List.mem_map.1 hf; exact fun e => nomatch e)
    | cases hf

theorem enum_level {s : SRef} {sg : Sample} {a : Option AttrDef} {g : Option Signal} {fs : List Finding}
    (h : enumAdvisor s sg a g = .ok fs) : ∀ f ∈ fs, f.level ≠ .violation := by
  intro f hf
  unfold enumAdvisor at h
  repeat' split at h
  all_goals (simp only [Except.ok.injEq] at h; subst h; simp at hf)
  subst hf
  exact fun e => nomatch e

/-- What is found about an attribute that is sent for an attribute of the registry. -/
theorem attr_quiet {r : Reg} (hc : Clean r) {a : Attr} (ha : a ∈ r.signalAttrs) {d13 d15 : Nat} {p : String × Value}
    (hp : nameValue d13 d15 a = some p) {rego : Advisor} (hr : NoViolation rego) {env : Env}
    (hck : env.checker = Checker.new r.toCheck) (hadv : env.advisors = advisors rego)
    {g : Option Signal} {sg : Sample} {fs : List Finding} (hf : Found env (attrOcc env.checker g sg (attrOf (kvOf p))) fs) :
    ∀ f ∈ fs, f.level ≠ .violation := by
  unfold nameValue at hp
  obtain ⟨v, hv, rfl⟩ := Option.map_eq_some_iff.1 hp
  have hn := emitted_not_nested (hc.enum a ha) hv
  rw [attrOf_kvOf _ _ hn] at hf
  obtain ⟨d, hd, -, ht, hdep⟩ := found hc ha
  obtain ⟨gs, hgs, rfl⟩ := hf
  rw [hadv] at hgs
  obtain ⟨f1, f2, f3, f4, f5, h1, h2, h3, h4, h5, rfl⟩ := advice_advisors hgs
  simp only [attrOcc, hck, hd] at h1 h2 h3 h4 h5 ⊢
  intro f hf
  simp only [List.append_nil, List.mem_append] at hf
  rcases hf with hf | hf | hf | hf | hf | hf
  · unfold attributeFirst at hf
    dsimp only at hf
    split at hf
    · rw [List.mem_singleton] at hf; subst hf; exact fun e => nomatch e
    · cases hf
  · simp only [deprecatedAdvisor, Option.bind_some, hdep, Except.ok.injEq] at h1
    subst h1
    cases hf
  · exact stability_level h2 f hf
  · have hm := not_mistyped (hc.enum a ha) hv ht (emittedName a.d.name a.d.typ) sg g
    unfold mistyped at hm
    rw [h3] at hm
    cases f3 with
    | nil => cases hf
    | cons x l => simp at hm
  · exact enum_level h4 f hf
  · exact hr _ _ _ _ _ h5 f hf

/-! ### Signals -/

/-- What is sent for attributes of the registry. -/
def FromAttrs (d13 d15 : Nat) (r : Reg) (defs : List AttrDef) (attrs : List (String × Value)) : Prop :=
  Forall2 (fun d p => ∃ a ∈ r.signalAttrs, a.d = d ∧ nameValue d13 d15 a = some p) defs attrs

theorem fromAttrs {d13 d15 : Nat} {r : Reg} {l : List Attr} (hl : ∀ a ∈ l, a ∈ r.signalAttrs) {attrs : List (String × Value)}
    (h : traverse (nameValue d13 d15) l = some attrs) : FromAttrs d13 d15 r (l.map (·.d)) attrs := by
  have h' := traverse_some h
  clear h
  induction h' with
  | nil => exact .nil
  | cons hx _ ih => exact .cons ⟨_, hl _ (by simp), rfl, hx⟩ (ih fun a ha => hl a (List.mem_cons_of_mem _ ha))

/-- Where the calls come from. -/
structure Origins (d13 d15 : Nat) (r : Reg) (path : String) (c : Calls) : Prop where
  spans : ∀ s ∈ c.spans, s = root path ∨ ∃ defs, FromAttrs d13 d15 r defs s.attrs
  metrics : ∀ m ∈ c.metrics, ∃ g, (m.name, g) ∈ r.toCheck.metricDefs ∧ (g.kind = .group ∨ g.kind = .metric) ∧
    g.instrument = some m.instrument.text ∧ (g.unit = none ∨ g.unit = some m.unit) ∧ FromAttrs d13 d15 r g.attrs m.attrs
  logs : ∀ l ∈ c.logs, ∃ g, (l.eventName, g) ∈ r.toCheck.eventDefs ∧ (g.kind = .group ∨ g.kind = .event) ∧
    FromAttrs d13 d15 r g.attrs l.attrs

theorem mem_traverse {α β : Type} {f : α → Option β} {l : List α} {r : List β} (h : traverse f l = some r) {y : β} (hy : y ∈ r) :
    ∃ x ∈ l, f x = some y := (traverse_some h).mem_right hy

theorem origins {d13 d15 : Nat} {r : Reg} {path : String} {c : Calls} (hc : Clean r) (h : emit d13 d15 r path = some c) :
    Origins d13 d15 r path c := by
  cases r with
  | v1 groups =>
    simp only [emit, Option.bind_eq_bind, Option.bind_eq_some_iff, Option.pure_def, Option.some.injEq] at h
    obtain ⟨ss, hs, ms, hm, ls, hl, rfl⟩ := h
    have hsig : ∀ g ∈ groups, (g.type = .span ∨ (g.type = .metric ∧ g.instrument.isSome = true) ∨ g.type = .event) →
        ∀ a ∈ g.attrs, a ∈ (Reg.v1 groups).signalAttrs := by
      intro g hg ht a ha
      refine List.mem_flatMap.2 ⟨g, List.mem_filter.2 ⟨hg, ?_⟩, ha⟩
      rcases ht with ht | ⟨ht, hi⟩ | ht
      · simp [ht]
      · simp [ht, hi]
      · simp [ht]
    refine ⟨?_, ?_, ?_⟩
    · intro s hs'
      rcases List.mem_append.1 hs' with hs' | hs'
      · obtain ⟨o, ho, hos⟩ := List.mem_filterMap.1 hs'
        simp only [id] at hos
        subst hos
        obtain ⟨g, hg, hgs⟩ := mem_traverse hs ho
        unfold emitSpan1 at hgs
        split at hgs
        · rename_i ht
          cases ha : traverse (nameValue d13 d15) g.attrs with
          | none => rw [ha] at hgs; exact nomatch hgs
          | some attrs =>
            rw [ha] at hgs
            simp only [Option.some.injEq] at hgs
            subst hgs
            exact .inr ⟨_, fromAttrs (hsig g hg (.inl ht)) ha⟩
        · exact nomatch hgs
      · exact .inl (List.mem_singleton.1 hs')
    · intro m hm'
      obtain ⟨o, ho, hos⟩ := List.mem_filterMap.1 hm'
      simp only [id] at hos
      subst hos
      obtain ⟨g, hg, hgm⟩ := mem_traverse hm ho
      unfold emitMetric1 at hgm
      split at hgm
      · rename_i ht
        cases hi : g.instrument with
        | none => rw [hi] at hgm; exact nomatch hgm
        | some i =>
          rw [hi] at hgm
          dsimp only at hgm
          cases ha : traverse (nameValue d13 d15) g.attrs with
          | none => rw [ha] at hgm; exact nomatch hgm
          | some attrs =>
            rw [ha] at hgm
            simp only [Option.some.injEq] at hgm
            subst hgm
            have hn := (hc.named groups rfl g hg).1 ht (by rw [hi]; rfl)
            cases hmn : g.metricName with
            | none => rw [hmn] at hn; exact nomatch hn
            | some n =>
              refine ⟨g.signal, ?_, .inl rfl, ?_, ?_, fromAttrs (hsig g hg (.inr (.inl ⟨ht, by rw [hi]; rfl⟩))) ha⟩
              · refine List.mem_filterMap.2 ⟨g.toCheck, List.mem_map.2 ⟨g, hg, rfl⟩, ?_⟩
                simp [Group.toCheck, ht, GType.toCheck, hmn]
              · simp [Group.signal, hi]
              · cases hu : g.unit <;> simp [Group.signal, hu]
      · exact nomatch hgm
    · intro l hl'
      obtain ⟨o, ho, hos⟩ := List.mem_filterMap.1 hl'
      simp only [id] at hos
      subst hos
      obtain ⟨g, hg, hgl⟩ := mem_traverse hl ho
      unfold emitLog1 at hgl
      split at hgl
      · rename_i ht
        cases ha : traverse (nameValue d13 d15) g.attrs with
        | none => rw [ha] at hgl; exact nomatch hgl
        | some attrs =>
          rw [ha] at hgl
          simp only [Option.some.injEq] at hgl
          subst hgl
          have hn := (hc.named groups rfl g hg).2 ht
          cases hmn : g.name with
          | none => rw [hmn] at hn; exact nomatch hn
          | some n =>
            refine ⟨g.signal, ?_, .inl rfl, fromAttrs (hsig g hg (.inr (.inr ht))) ha⟩
            refine List.mem_filterMap.2 ⟨g.toCheck, List.mem_map.2 ⟨g, hg, rfl⟩, ?_⟩
            simp [Group.toCheck, ht, GType.toCheck, hmn]
      · exact nomatch hgl
  | v2 r deps =>
    simp only [emit, Option.bind_eq_bind, Option.bind_eq_some_iff, Option.pure_def, Option.some.injEq] at h
    obtain ⟨ss, hs, ms, hm, ls, hl, rfl⟩ := h
    refine ⟨?_, ?_, ?_⟩
    · intro s hs'
      rcases List.mem_append.1 hs' with hs' | hs'
      · obtain ⟨g, hg, hgs⟩ := mem_traverse hs hs'
        unfold emitSpan2 at hgs
        cases ha : traverse (nameValue d13 d15) g.attrs with
        | none => rw [ha] at hgs; exact nomatch hgs
        | some attrs =>
          rw [ha] at hgs
          simp only [Option.some.injEq] at hgs
          subst hgs
          exact .inr ⟨_, fromAttrs (fun a h => List.mem_append_left _ (List.mem_flatMap.2 ⟨g, hg, h⟩)) ha⟩
      · exact .inl (List.mem_singleton.1 hs')
    · intro m hm'
      obtain ⟨g, hg, hgm⟩ := mem_traverse hm hm'
      unfold emitMetric2 at hgm
      cases ha : traverse (nameValue d13 d15) g.attrs with
      | none => rw [ha] at hgm; exact nomatch hgm
      | some attrs =>
        rw [ha] at hgm
        simp only [Option.some.injEq] at hgm
        subst hgm
        exact ⟨g.signal, List.mem_map.2 ⟨g, hg, rfl⟩, .inr rfl, rfl, .inr rfl, fromAttrs (fun a h =>
          List.mem_append_right _ (List.mem_append_left _ (List.mem_flatMap.2 ⟨g, hg, h⟩))) ha⟩
    · intro l hl'
      obtain ⟨g, hg, hgl⟩ := mem_traverse hl hl'
      unfold emitLog2 at hgl
      cases ha : traverse (nameValue d13 d15) g.attrs with
      | none => rw [ha] at hgl; exact nomatch hgl
      | some attrs =>
        rw [ha] at hgl
        simp only [Option.some.injEq] at hgl
        subst hgl
        exact ⟨g.signal, List.mem_map.2 ⟨g, hg, rfl⟩, .inr rfl, fromAttrs (fun a h =>
          List.mem_append_right _ (List.mem_append_right _ (List.mem_flatMap.2 ⟨g, hg, h⟩))) ha⟩

theorem all_present {d13 d15 : Nat} {r : Reg} {defs : List AttrDef} {attrs : List (String × Value)}
    (h : FromAttrs d13 d15 r defs attrs) (sg : Sample) : checkAttributes defs (attrs.map fun p => attrOf (kvOf p)) sg = [] := by
  unfold checkAttributes
  rw [List.map_eq_nil_iff, List.filter_eq_nil_iff]
  intro d hd
  obtain ⟨p, hp, a, -, rfl, hnv⟩ := h.mem_left hd
  unfold nameValue at hnv
  obtain ⟨v, -, rfl⟩ := Option.map_eq_some_iff.1 hnv
  rw [Bool.not_eq_true, Bool.not_eq_false']
  unfold isPresent
  split
  · rename_i ht
    refine List.any_eq_true.2 ⟨_, List.mem_map.2 ⟨_, hp, rfl⟩, ?_⟩
    cases h : a.d.typ with
    | template q =>
      refine List.isPrefixOf_iff_prefix.2 ?_
      show a.d.name.toList <+: (a.d.name ++ ".key").toList
      rw [String.toList_append]; exact List.prefix_append _ _
    | prim q => simp [AType.isTemplate, h] at ht
    | enum l => simp [AType.isTemplate, h] at ht
  · rename_i ht
    refine List.contains_iff_mem.2 (List.mem_map.2 ⟨_, List.mem_map.2 ⟨_, hp, rfl⟩, ?_⟩)
    show emittedName a.d.name a.d.typ = a.d.name
    cases h : a.d.typ with
    | template q => simp [AType.isTemplate, h] at ht
    | prim q => rfl
    | enum l => rfl

/-! ### Samples -/

/-- The samples the receiver makes of the calls. -/
def samples (res : List KV) (c : Calls) : List Sample := (requests res c).flatMap ingest

/-- The sample of a span. -/
def spanSampleOf (res : List KV) (s : SpanCall) : Sample :=
  .span { name := s.name, attrs := s.attrs.map (fun p => attrOf (kvOf p)), resource := some { attrs := res.map attrOf } }

/-- The sample of a metric. -/
def metricOf (res : List KV) (m : MetricCall) : LiveCheck.Metric :=
  let points : List Point := [{ attrs := m.attrs.map fun p => attrOf (kvOf p) }]
  { name := m.name, unit := m.unit, instrument := .supported m.instrument.text
    points := some (match m.instrument with
      | .histogram => .histogram points
      | _ => .number points)
    resource := some { attrs := res.map attrOf } }

/-- The sample of a log record. -/
def logOf (res : List KV) (l : LogCall) : LiveCheck.Log :=
  { eventName := l.eventName, attrs := l.attrs.map (fun p => attrOf (kvOf p)), resource := some { attrs := res.map attrOf } }

/-- The samples of resource and scope that come before those of signals. -/
def heads (res : List KV) : List Sample := [.resource { attrs := res.map attrOf }, .scope { name := "weaver" }]

theorem samples_eq (res : List KV) (c : Calls) : samples res c =
    heads res ++ (c.spans.map (spanSampleOf res) ++ (heads res ++ (c.metrics.map (fun m => .metric (metricOf res m)) ++
      (heads res ++ c.logs.map (fun l => .log (logOf res l)))))) := by
  have h1 : ∀ s : SpanCall, Receiver.Ingest.spanSample (some (Receiver.Ingest.resourceOf res))
      { name := s.name, attrs := s.attrs.map kvOf } = spanSampleOf res s := by
    intro s
    simp [Receiver.Ingest.spanSample, Receiver.Ingest.spanOf, spanSampleOf, Receiver.Ingest.resourceOf]
  have h2 : ∀ m : MetricCall, Receiver.Ingest.metricSample (some (Receiver.Ingest.resourceOf res))
      { name := m.name, unit := m.unit, data := some (dataOf m.instrument { attrs := m.attrs.map kvOf }) } =
        .metric (metricOf res m) := by
    intro m
    cases h : m.instrument <;>
      simp [Receiver.Ingest.metricSample, Receiver.Ingest.metricOf, metricOf, Receiver.Ingest.resourceOf, h, dataOf,
        Receiver.Ingest.instrumentOf, Receiver.Ingest.pointsOf, Receiver.Ingest.pointOf, Instrument.text]
  have h3 : ∀ l : LogCall, Receiver.Ingest.logSample (some (Receiver.Ingest.resourceOf res))
      { eventName := l.eventName, attrs := l.attrs.map kvOf } = .log (logOf res l) := by
    intro l
    simp [Receiver.Ingest.logSample, Receiver.Ingest.logOf, logOf, Receiver.Ingest.resourceOf]
  simp only [samples, requests, List.flatMap_cons, List.flatMap_nil, List.append_nil, ingest, Receiver.Ingest.blockSamples,
    Receiver.Ingest.scopeSamples, Receiver.Ingest.scopeOf, Option.map_some, Option.toList_some, List.map_cons, List.map_nil,
    List.map_map, List.append_assoc]
  have e1 : (Receiver.Ingest.spanSample (some (Receiver.Ingest.resourceOf res)) ∘ fun s : SpanCall =>
      ({ name := s.name, attrs := s.attrs.map kvOf } : Receiver.Ingest.SpanMsg)) = spanSampleOf res := funext h1
  have e2 : (Receiver.Ingest.metricSample (some (Receiver.Ingest.resourceOf res)) ∘ fun m : MetricCall =>
      ({ name := m.name, unit := m.unit, data := some (dataOf m.instrument { attrs := m.attrs.map kvOf }) } :
        Receiver.Ingest.MetricMsg)) = fun m => .metric (metricOf res m) := funext h2
  have e3 : (Receiver.Ingest.logSample (some (Receiver.Ingest.resourceOf res)) ∘ fun l : LogCall =>
      ({ eventName := l.eventName, attrs := l.attrs.map kvOf } : Receiver.Ingest.LogMsg)) = fun l => .log (logOf res l) := funext h3
  rw [e1, e2, e3]
  rfl

theorem attachAll_same {R : LiveCheck.Resource} {l : List Sample}
    (h : ∀ s ∈ l, attach (some R) s = s ∧ nextResource (some R) s = some R) : attachAll (some R) l = l := by
  induction l with
  | nil => rfl
  | cons s l ih =>
    obtain ⟨h1, h2⟩ := h s (by simp)
    simp only [attachAll]
    rw [h2, h1, ih fun x hx => h x (List.mem_cons_of_mem _ hx)]

theorem mem_samples {res : List KV} {c : Calls} {s : Sample} : s ∈ samples res c ↔
    s ∈ heads res ∨ (∃ x ∈ c.spans, s = spanSampleOf res x) ∨ (∃ m ∈ c.metrics, s = .metric (metricOf res m)) ∨
    ∃ l ∈ c.logs, s = .log (logOf res l) := by
  rw [samples_eq]
  simp only [List.mem_append, List.mem_map]
  grind

theorem attach_samples (res : List KV) (c : Calls) : attachAll none (samples res c) = samples res c := by
  have hm := @mem_samples res c
  have hall : ∀ s ∈ samples res c, attach (some { attrs := res.map attrOf }) s = s ∧
      nextResource (some { attrs := res.map attrOf }) s = some { attrs := res.map attrOf } := by
    intro s hs
    rcases hm.1 hs with h | ⟨x, -, rfl⟩ | ⟨m, -, rfl⟩ | ⟨l, -, rfl⟩
    · simp only [heads, List.mem_cons, List.not_mem_nil, or_false] at h
      rcases h with rfl | rfl <;> exact ⟨rfl, rfl⟩
    · exact ⟨rfl, rfl⟩
    · exact ⟨rfl, rfl⟩
    · exact ⟨rfl, rfl⟩
  have hcons : ∃ l, samples res c = .resource { attrs := res.map attrOf } :: l := by
    rw [samples_eq]; exact ⟨_, rfl⟩
  obtain ⟨l, hl⟩ := hcons
  rw [hl] at hall ⊢
  simp only [attachAll, nextResource, attach]
  rw [attachAll_same fun s hs => hall s (List.mem_cons_of_mem _ hs)]

/-! ### C218 -/

/-- What the advisors say about a thing that they have nothing to object to. -/
theorem quiet {env : Env} {rego : Advisor} (hadv : env.advisors = advisors rego) (hr : NoViolation rego) {o : Occ}
    {fs : List Finding} (hf : Found env o fs) (h1 : ∀ f ∈ o.first, f.level ≠ .violation)
    (h2 : ∀ f ∈ o.last, f.level ≠ .violation)
    (hd : ∀ l, deprecatedAdvisor o.ref o.signal o.attr o.group = .ok l → l = [])
    (ht : ∀ l, typeAdvisor o.ref o.signal o.attr o.group = .ok l → l = []) : ∀ f ∈ fs, f.level ≠ .violation := by
  obtain ⟨gs, hgs, rfl⟩ := hf
  rw [hadv] at hgs
  obtain ⟨f1, f2, f3, f4, f5, e1, e2, e3, e4, e5, rfl⟩ := advice_advisors hgs
  rw [hd _ e1, ht _ e3]
  intro f hf
  simp only [List.mem_append, List.nil_append] at hf
  rcases hf with (hf | hf | hf | hf) | hf
  · exact h1 f hf
  · exact stability_level e2 f hf
  · exact enum_level e4 f hf
  · exact hr _ _ _ _ _ e5 f hf
  · exact h2 f hf

/-- C218. What holds: if the registry says one thing under each name, nothing in it is deprecated, the policies have nothing to
object, and the resource has what the entities require, then the only violations about what is sent for a registry are about
attributes of the resource and about the attribute of the span around the others. -/
theorem round_trip_partial {d13 d15 : Nat} {r : Reg} {path : String} {c : Calls} (hc : Clean r)
    (he : emit d13 d15 r path = some c) {res : List KV} (hres : EntitiesHold r res) {rego : Advisor} (hr : NoViolation rego)
    {noStats : Bool} {st : St}
    (h : liveCheck { checker := Checker.new r.toCheck, advisors := advisors rego, modifier := none } noStats (samples res c) = .ok st) :
    ∀ e ∈ st.entries, ∀ f ∈ e.result.all, f.level = .violation →
      ∃ a, e.ref = .attribute a ∧ (a.name = "otel.weaver.registry_path" ∨ ∃ kv ∈ res, a.name = kv.key) := by
  intro e hee f hf hv
  have ho := origins hc he
  obtain ⟨o, hoo, -, href, fs, hfs, hall⟩ := (run_report h).mem_right hee
  have hff : f ∈ fs := by
    rw [hall] at hf
    obtain ⟨f', hf', hr'⟩ := List.mem_filterMap.1 hf
    simp only [reported, Option.some.injEq] at hr'
    rw [← hr']; exact hf'
  rw [attach_samples] at hoo
  obtain ⟨s, hs, hos⟩ := List.mem_flatMap.1 hoo
  rw [href]
  have hno : ¬ ∀ f ∈ fs, f.level ≠ .violation := fun hq => hq f hff hv
  have hattr : ∀ {defs : List AttrDef} {attrs : List (String × Value)}, FromAttrs d13 d15 r defs attrs →
      ∀ {g : Option Signal} {sg : Sample}, o ∈ (attrs.map fun p => attrOf (kvOf p)).map
        (attrOcc (Checker.new r.toCheck) g sg) → False := by
    intro defs attrs hfr g sg hm
    obtain ⟨x, hx, rfl⟩ := List.mem_map.1 hm
    obtain ⟨p, hp, rfl⟩ := List.mem_map.1 hx
    obtain ⟨d, -, a, ha, -, hnv⟩ := hfr.mem_right hp
    exact hno (attr_quiet hc ha hnv hr rfl rfl hfs)
  rcases mem_samples.1 hs with hs | ⟨x, hx, rfl⟩ | ⟨m, hm, rfl⟩ | ⟨l, hl, rfl⟩
  · simp only [heads, List.mem_cons, List.not_mem_nil, or_false] at hs
    rcases hs with rfl | rfl
    · rcases List.mem_cons.1 hos with rfl | hos
      · exact absurd (quiet rfl hr hfs (by simp) (by simp) (fun l hl => (Except.ok.inj hl).symm)
          (fun l hl => (Except.ok.inj hl).symm)) hno
      · obtain ⟨a, ha, rfl⟩ := List.mem_map.1 hos
        obtain ⟨kv, hkv, rfl⟩ := List.mem_map.1 ha
        exact ⟨_, rfl, .inr ⟨kv, hkv, rfl⟩⟩
    · rcases List.mem_cons.1 hos with rfl | hos
      · exact absurd (quiet rfl hr hfs (by simp) (by simp) (fun l hl => (Except.ok.inj hl).symm)
          (fun l hl => (Except.ok.inj hl).symm)) hno
      · simp at hos
  · simp only [occs, spanSampleOf, List.flatMap_nil, List.append_nil] at hos
    rcases List.mem_cons.1 hos with rfl | hos
    · exact absurd (quiet rfl hr hfs (by simp) (by simp) (fun l hl => (Except.ok.inj hl).symm)
        (fun l hl => (Except.ok.inj hl).symm)) hno
    · rcases ho.spans x hx with rfl | ⟨defs, hfr⟩
      · simp only [root, List.map_cons, List.map_nil, List.mem_singleton] at hos
        subst hos
        exact ⟨_, rfl, .inl rfl⟩
      · exact (hattr hfr hos).elim
  · obtain ⟨g, hg, hk, hi, hu, hfr⟩ := ho.metrics m hm
    have hfind : (Checker.new r.toCheck).findMetric m.name = some g := by
      rw [(find_signal _ _).1]; exact lastOf_eq hc.metrics hg
    have hdep : g.deprecated = none := hc.live _ (List.mem_append_left _ hg)
    have hkk : g.kind = .group ∨ g.kind = .metric := hk
    simp only [occs] at hos
    rcases List.mem_append.1 hos with hos | hos
    · have hp : ∀ mk : Point → SRef, (∀ p sg g', typeAdvisor (mk p) sg none g' = .ok (attributeFindings .metric p.attrs sg g')) →
          (∀ p sg g', deprecatedAdvisor (mk p) sg none g' = .ok []) →
          o ∈ pointOccs (Checker.new r.toCheck) mk (some g) (.metric (metricOf res m))
            { attrs := m.attrs.map fun p => attrOf (kvOf p) } → False := by
        intro mk ht hd hm
        simp only [pointOccs, List.flatMap_nil, List.append_nil, withAttrs] at hm
        rcases List.mem_cons.1 hm with rfl | hm
        · refine absurd (quiet rfl hr hfs (by simp) (by simp) (fun l hl => ?_) (fun l hl => ?_)) hno
          · dsimp only at hl; rw [hd] at hl; exact (Except.ok.inj hl).symm
          · dsimp only at hl
            rw [ht] at hl
            have := (Except.ok.inj hl).symm
            rw [this]
            unfold attributeFindings
            dsimp only
            rw [if_pos hkk]
            exact all_present hfr _
        · exact hattr hfr hm
      have hname : (metricOf res m).name = m.name := rfl
      rw [hname, hfind] at hos
      exfalso
      cases him : m.instrument with
      | histogram =>
        have : (metricOf res m).points = some (.histogram [{ attrs := m.attrs.map fun p => attrOf (kvOf p) }]) := by
          simp [metricOf, him]
        rw [this] at hos
        simp only [pointsOccs, List.flatMap_cons, List.flatMap_nil, List.append_nil] at hos
        exact hp _ (fun _ _ _ => rfl) (fun _ _ _ => rfl) hos
      | counter =>
        have : (metricOf res m).points = some (.number [{ attrs := m.attrs.map fun p => attrOf (kvOf p) }]) := by
          simp [metricOf, him]
        rw [this] at hos
        simp only [pointsOccs, List.flatMap_cons, List.flatMap_nil, List.append_nil] at hos
        exact hp _ (fun _ _ _ => rfl) (fun _ _ _ => rfl) hos
      | updowncounter =>
        have : (metricOf res m).points = some (.number [{ attrs := m.attrs.map fun p => attrOf (kvOf p) }]) := by
          simp [metricOf, him]
        rw [this] at hos
        simp only [pointsOccs, List.flatMap_cons, List.flatMap_nil, List.append_nil] at hos
        exact hp _ (fun _ _ _ => rfl) (fun _ _ _ => rfl) hos
      | gauge =>
        have : (metricOf res m).points = some (.number [{ attrs := m.attrs.map fun p => attrOf (kvOf p) }]) := by
          simp [metricOf, him]
        rw [this] at hos
        simp only [pointsOccs, List.flatMap_cons, List.flatMap_nil, List.append_nil] at hos
        exact hp _ (fun _ _ _ => rfl) (fun _ _ _ => rfl) hos
    · rw [List.mem_singleton] at hos
      subst hos
      refine absurd (quiet rfl hr hfs ?_ ?_ (fun l hl => ?_) (fun l hl => ?_)) hno
      · have hname : (metricOf res m).name = m.name := rfl
        simp only [hname, hfind, Option.isNone_some, Bool.false_eq_true, if_false]
        simp
      · have hname : (metricOf res m).name = m.name := rfl
        simp only [hname, hfind, assocFindings, if_pos hkk]
        intro f hf hl
        exact (association_violation _ _ _ _).1 ⟨f, hf, hl⟩ (hres _ (List.mem_append_left _ hg))
      · have hname : (metricOf res m).name = m.name := rfl
        simp only [deprecatedAdvisor, hname, hfind, Option.bind_some, hdep, Except.ok.injEq] at hl
        exact hl.symm
      · have hname : (metricOf res m).name = m.name := rfl
        simp only [typeAdvisor, hname, hfind, Except.ok.injEq] at hl
        rw [← hl]
        have h1 : instrumentFindings (.metric (metricOf res m)) (metricOf res m) g = [] := by
          unfold instrumentFindings
          simp [metricOf, hi]
        have h2 : unitFindings (.metric (metricOf res m)) (metricOf res m) g = [] := by
          unfold unitFindings
          rcases hu with hu | hu <;> simp [hu, metricOf]
        rw [h1, h2]; rfl
  · obtain ⟨g, hg, hk, hfr⟩ := ho.logs l hl
    have hdep : g.deprecated = none := hc.live _ (List.mem_append_right _ hg)
    have hkk : g.kind = .group ∨ g.kind = .event := hk
    have hfind : l.eventName = "" ∨ (Checker.new r.toCheck).findEvent l.eventName = some g := by
      right; rw [(find_signal _ _).2.1]; exact lastOf_eq hc.events hg
    have hev : eventOf (Checker.new r.toCheck) (logOf res l) = none ∧ l.eventName = "" ∨
        eventOf (Checker.new r.toCheck) (logOf res l) = some g := by
      unfold eventOf
      by_cases hn : l.eventName = ""
      · left; exact ⟨if_pos hn, hn⟩
      · right
        have : (logOf res l).eventName = l.eventName := rfl
        rw [this, if_neg hn]
        rcases hfind with h | h
        · exact absurd h hn
        · exact h
    simp only [occs] at hos
    rcases List.mem_append.1 hos with hos | hos
    · exact (hattr hfr hos).elim
    · rw [List.mem_singleton] at hos
      subst hos
      refine absurd (quiet rfl hr hfs ?_ ?_ (fun fs hl => ?_) (fun fs hl => ?_)) hno
      · rcases hev with ⟨h1, h2⟩ | h1
        · have : (logOf res l).eventName = "" := h2
          simp [this]
        · simp [h1]
      · rcases hev with ⟨h1, h2⟩ | h1
        · simp [h1, assocFindings]
        · simp only [h1, assocFindings, if_pos hkk]
          intro f hf hl
          exact (association_violation _ _ _ _).1 ⟨f, hf, hl⟩ (hres _ (List.mem_append_right _ hg))
      · rcases hev with ⟨h1, h2⟩ | h1
        · simp only [deprecatedAdvisor, h1, Option.bind_none, Except.ok.injEq] at hl; exact hl.symm
        · simp only [deprecatedAdvisor, h1, Option.bind_some, hdep, Except.ok.injEq] at hl; exact hl.symm
      · rcases hev with ⟨h1, h2⟩ | h1
        · simp only [typeAdvisor, h1, attributeFindings, Except.ok.injEq] at hl; exact hl.symm
        · simp only [typeAdvisor, h1, attributeFindings, if_pos hkk, Except.ok.injEq] at hl
          rw [← hl]
          exact all_present hfr _

theorem root_sent {d13 d15 : Nat} {r : Reg} {path : String} {c : Calls} (h : emit d13 d15 r path = some c) :
    root path ∈ c.spans := by
  cases r with
  | v1 groups => obtain ⟨⟨ss, h1, -⟩, -⟩ := emit_v1 h; rw [h1]; simp
  | v2 r deps => obtain ⟨⟨ss, h1, -⟩, -⟩ := emit_v2 h; rw [h1]; simp

/-- C218. The round trip always leads to a violation, unless the registry defines the attribute that the span around the others
has: it is reported as missing in the registry. -/
theorem root_violation {d13 d15 : Nat} {r : Reg} {path : String} {c : Calls} (he : emit d13 d15 r path = some c)
    (hp : ∀ d ∈ r.toCheck.attrDefs, d.name = "otel.weaver.registry_path" → d.typ.isTemplate = true)
    (ht : ∀ d ∈ r.toCheck.attrDefs, d.typ.isTemplate = true → ¬ d.name.toList <+: "otel.weaver.registry_path".toList)
    {res : List KV} {advs : List Advisor} {noStats : Bool} {st : St}
    (h : liveCheck { checker := Checker.new r.toCheck, advisors := advs, modifier := none } noStats (samples res c) = .ok st) :
    ∃ f ∈ st.findings, f.level = .violation ∧ f.id = "missing_attribute" := by
  have hfa : (Checker.new r.toCheck).findAny "otel.weaver.registry_path" = none := by
    rw [(attribute_definition _ _).2 hp]
    exact (longest_template _ _).1.2 ht
  have hs : spanSampleOf res (root path) ∈ attachAll none (samples res c) := by
    rw [attach_samples]; exact mem_samples.2 (.inr (.inl ⟨_, root_sent he, rfl⟩))
  have ho : attrOcc (Checker.new r.toCheck) none (spanSampleOf res (root path))
      (attrOf (kvOf ("otel.weaver.registry_path", .elem (.str path)))) ∈
      occs { checker := Checker.new r.toCheck, advisors := advs, modifier := none } (spanSampleOf res (root path)) := by
    simp [occs, spanSampleOf, root, withAttrs]
  obtain ⟨e, hee, -, -, fs, ⟨gs, -, hfs⟩, hall⟩ := (run_report h).mem_left (mem_flatMap_occs hs ho)
  have hfirst : ∃ f ∈ fs, f.level = .violation ∧ f.id = "missing_attribute" := by
    rw [hfs]
    have : (attrOcc (Checker.new r.toCheck) none (spanSampleOf res (root path))
        (attrOf (kvOf ("otel.weaver.registry_path", .elem (.str path))))).first =
        [mkFinding (spanSampleOf res (root path)) "missing_attribute" .violation
          ("Attribute '" ++ "otel.weaver.registry_path" ++ "' does not exist in the registry.")
          [("attribute_key", .text "otel.weaver.registry_path")]] := by
      unfold attrOcc
      rw [attrOf_kvOf _ _ (by simp)]
      dsimp only
      rw [hfa]
      rfl
    rw [this]
    exact ⟨_, by simp; left; rfl, rfl, rfl⟩
  obtain ⟨f, hf, h1, h2⟩ := hfirst
  refine ⟨f, List.mem_flatMap.2 ⟨e, hee, ?_⟩, h1, h2⟩
  rw [hall]
  exact List.mem_filterMap.2 ⟨f, hf, rfl⟩

/-- C218. Without hypotheses about the registry there are more violations: an event of the first format that has a prefix and
no name is sent with its id as name, where the live check does not find it. -/
theorem round_trip_refuted :
    ¬ ∀ (r : Reg) (c : Calls) (st : St), emit 0 1 r "p" = some c →
      (∀ d ∈ r.signalAttrs, d.d.name ≠ "otel.weaver.registry_path") →
      liveCheck (plainEnv r.toCheck none) false (samples [] c) = .ok st →
      ∀ f ∈ st.findings, f.level = .violation → f.id = "missing_attribute" := by
  intro hall
  have h := hall (.v1 [{ type := .event, id := "event.e" }])
    { spans := [root "p"], logs := [{ eventName := "event.e", body := "event.e" }] } _ (by decide +kernel) (by decide) rfl
  revert h
  decide +kernel

/-- The example registry of the second format, without a violation other than that of `root_violation`. -/
theorem small2_clean : Clean (.v2 small2 []) where
  known := by decide
  same := by decide
  plain := by decide +kernel
  template := by decide +kernel
  enum := by
    intro a ha m ms h
    simp only [Reg.signalAttrs, small2, List.flatMap_cons, List.flatMap_nil, List.append_nil, List.cons_append, List.nil_append,
      List.mem_cons, List.not_mem_nil, or_false] at ha
    rcases ha with rfl | rfl | rfl
    · exact nomatch h
    · simp only [AType.enum.injEq, List.cons.injEq] at h
      exact .inl ⟨_, h.1.symm⟩
    · exact nomatch h
  metrics := by
    intro p hp q hq _
    simp only [Reg.toCheck, Registry.metricDefs, Reg2.toCheck, small2, List.map_cons, List.map_nil, List.mem_singleton] at hp hq
    rw [hp, hq]
  events := by
    intro p hp q hq _
    simp only [Reg.toCheck, Registry.eventDefs, Reg2.toCheck, small2, List.map_cons, List.map_nil, List.mem_singleton] at hp hq
    rw [hp, hq]
  live := by decide
  named := fun _ h => nomatch h

example : EntitiesHold (.v2 small2 []) [] := by
  intro p hp
  have h : p.2.assocs = [] := by revert p; decide
  exact .inl h

example : ∃ c st s, emit 0 1 (.v2 small2 []) "p" = some c ∧
    liveCheck (plainEnv (Reg.toCheck (.v2 small2 [])) none) false (samples [] c) = .ok st ∧ st.stats = some s ∧
    (st.findings.filter fun f => f.level = .violation).map (·.id) = ["missing_attribute"] ∧
    cnt "t" s.regAttrs = 1 ∧ cnt "m" s.regMetrics = 1 ∧ s.coverage = (5, 5) :=
  ⟨_, _, _, rfl, rfl, rfl, by decide +kernel, by decide +kernel, by decide +kernel, by decide +kernel⟩

/-! ### C219 -/

theorem attr_in_calls {d13 d15 : Nat} {r : Reg} {path : String} {c : Calls} (h : emit d13 d15 r path = some c) {a : Attr}
    (ha : a ∈ r.signalAttrs) : ∃ p, nameValue d13 d15 a = some p ∧
      ((∃ x ∈ c.spans, p ∈ x.attrs) ∨ (∃ m ∈ c.metrics, p ∈ m.attrs) ∨ ∃ l ∈ c.logs, p ∈ l.attrs) := by
  have htr : ∀ {l : List Attr} {attrs : List (String × Value)}, traverse (nameValue d13 d15) l = some attrs → a ∈ l →
      ∃ p ∈ attrs, nameValue d13 d15 a = some p := fun h hl => (traverse_some h).mem_left hl
  cases r with
  | v1 groups =>
    simp only [emit, Option.bind_eq_bind, Option.bind_eq_some_iff, Option.pure_def, Option.some.injEq] at h
    obtain ⟨ss, hs, ms, hm, ls, hl, rfl⟩ := h
    simp only [Reg.signalAttrs, List.mem_flatMap, List.mem_filter, Bool.or_eq_true, Bool.and_eq_true, decide_eq_true_eq] at ha
    obtain ⟨g, ⟨hg, (ht | ⟨ht, hi⟩) | ht⟩, hag⟩ := ha
    · obtain ⟨o, ho, hgo⟩ := (traverse_some hs).mem_left hg
      unfold emitSpan1 at hgo
      rw [if_pos ht] at hgo
      cases hat : traverse (nameValue d13 d15) g.attrs with
      | none => rw [hat] at hgo; exact nomatch hgo
      | some attrs =>
        rw [hat] at hgo
        simp only [Option.some.injEq] at hgo
        subst hgo
        obtain ⟨p, hp, hnv⟩ := htr hat hag
        exact ⟨p, hnv, .inl ⟨_, List.mem_append_left _ (List.mem_filterMap.2 ⟨_, ho, rfl⟩), hp⟩⟩
    · obtain ⟨o, ho, hgo⟩ := (traverse_some hm).mem_left hg
      unfold emitMetric1 at hgo
      rw [if_pos ht] at hgo
      cases hin : g.instrument with
      | none => rw [hin] at hi; exact nomatch hi
      | some i =>
        rw [hin] at hgo
        dsimp only at hgo
        cases hat : traverse (nameValue d13 d15) g.attrs with
        | none => rw [hat] at hgo; exact nomatch hgo
        | some attrs =>
          rw [hat] at hgo
          simp only [Option.some.injEq] at hgo
          subst hgo
          obtain ⟨p, hp, hnv⟩ := htr hat hag
          exact ⟨p, hnv, .inr (.inl ⟨_, List.mem_filterMap.2 ⟨_, ho, rfl⟩, hp⟩)⟩
    · obtain ⟨o, ho, hgo⟩ := (traverse_some hl).mem_left hg
      unfold emitLog1 at hgo
      rw [if_pos ht] at hgo
      cases hat : traverse (nameValue d13 d15) g.attrs with
      | none => rw [hat] at hgo; exact nomatch hgo
      | some attrs =>
        rw [hat] at hgo
        simp only [Option.some.injEq] at hgo
        subst hgo
        obtain ⟨p, hp, hnv⟩ := htr hat hag
        exact ⟨p, hnv, .inr (.inr ⟨_, List.mem_filterMap.2 ⟨_, ho, rfl⟩, hp⟩)⟩
  | v2 r deps =>
    simp only [emit, Option.bind_eq_bind, Option.bind_eq_some_iff, Option.pure_def, Option.some.injEq] at h
    obtain ⟨ss, hs, ms, hm, ls, hl, rfl⟩ := h
    simp only [Reg.signalAttrs, List.mem_append, List.mem_flatMap] at ha
    rcases ha with ⟨g, hg, hag⟩ | ⟨g, hg, hag⟩ | ⟨g, hg, hag⟩
    · obtain ⟨o, ho, hgo⟩ := (traverse_some hs).mem_left hg
      unfold emitSpan2 at hgo
      cases hat : traverse (nameValue d13 d15) g.attrs with
      | none => rw [hat] at hgo; exact nomatch hgo
      | some attrs =>
        rw [hat] at hgo
        simp only [Option.some.injEq] at hgo
        subst hgo
        obtain ⟨p, hp, hnv⟩ := htr hat hag
        exact ⟨p, hnv, .inl ⟨_, List.mem_append_left _ ho, hp⟩⟩
    · obtain ⟨o, ho, hgo⟩ := (traverse_some hm).mem_left hg
      unfold emitMetric2 at hgo
      cases hat : traverse (nameValue d13 d15) g.attrs with
      | none => rw [hat] at hgo; exact nomatch hgo
      | some attrs =>
        rw [hat] at hgo
        simp only [Option.some.injEq] at hgo
        subst hgo
        obtain ⟨p, hp, hnv⟩ := htr hat hag
        exact ⟨p, hnv, .inr (.inl ⟨_, ho, hp⟩)⟩
    · obtain ⟨o, ho, hgo⟩ := (traverse_some hl).mem_left hg
      unfold emitLog2 at hgo
      cases hat : traverse (nameValue d13 d15) g.attrs with
      | none => rw [hat] at hgo; exact nomatch hgo
      | some attrs =>
        rw [hat] at hgo
        simp only [Option.some.injEq] at hgo
        subst hgo
        obtain ⟨p, hp, hnv⟩ := htr hat hag
        exact ⟨p, hnv, .inr (.inr ⟨_, ho, hp⟩)⟩

/-- All signals of the first format can be sent: metrics have an instrument. -/
def Sendable (r : Reg) : Prop := ∀ groups, r = .v1 groups → ∀ g ∈ groups, g.type = .metric → g.instrument.isSome = true

example : Sendable (.v2 small2 []) := fun _ h => nomatch h

theorem metric_in_calls {d13 d15 : Nat} {r : Reg} {path : String} {c : Calls} (h : emit d13 d15 r path = some c)
    (hi : Sendable r) {n : String} {g : Signal} (hn : (n, g) ∈ r.toCheck.metricDefs) : ∃ m ∈ c.metrics, m.name = n := by
  cases r with
  | v1 groups =>
    obtain ⟨x, hx, hxn⟩ := List.mem_filterMap.1 hn
    obtain ⟨y, hy, rfl⟩ := List.mem_map.1 hx
    have hty : y.type = .metric := by
      cases ht : y.type <;> simp [Group.toCheck, ht, GType.toCheck] at hxn ⊢
    have hnm : y.metricName = some n := by
      cases hm : y.metricName <;> simp [Group.toCheck, hty, GType.toCheck, hm] at hxn
      rw [hxn.1]
    obtain ⟨-, h2, -⟩ := emit_v1 h
    obtain ⟨m, hm, hof⟩ := h2.mem_left (List.mem_filter.2 ⟨hy, by simp [hty, hi groups rfl y hy hty]⟩)
    refine ⟨m, hm, ?_⟩
    rcases hof.name with h | ⟨h, -⟩
    · rw [hnm] at h; exact (Option.some.inj h).symm
    · rw [hnm] at h; exact nomatch h
  | v2 r deps =>
    obtain ⟨x, hx, hxn⟩ := List.mem_map.1 hn
    obtain ⟨-, h2, -⟩ := emit_v2 h
    obtain ⟨m, hm, hof⟩ := h2.mem_left hx
    refine ⟨m, hm, hof.name.trans (congrArg Prod.fst hxn)⟩

theorem event_in_calls {d13 d15 : Nat} {r : Reg} {path : String} {c : Calls} (h : emit d13 d15 r path = some c)
    {n : String} {g : Signal} (hn : (n, g) ∈ r.toCheck.eventDefs) : ∃ l ∈ c.logs, l.eventName = n := by
  cases r with
  | v1 groups =>
    obtain ⟨x, hx, hxn⟩ := List.mem_filterMap.1 hn
    obtain ⟨y, hy, rfl⟩ := List.mem_map.1 hx
    have hty : y.type = .event := by
      cases ht : y.type <;> simp [Group.toCheck, ht, GType.toCheck] at hxn ⊢
    have hnm : y.name = some n := by
      cases hm : y.name <;> simp [Group.toCheck, hty, GType.toCheck, hm] at hxn
      rw [hxn.1]
    obtain ⟨-, -, h2⟩ := emit_v1 h
    obtain ⟨m, hm, hof⟩ := h2.mem_left (List.mem_filter.2 ⟨hy, by simp [hty]⟩)
    refine ⟨m, hm, ?_⟩
    rcases hof.name with h | ⟨h, -⟩
    · rw [hnm] at h; exact (Option.some.inj h).symm
    · rw [hnm] at h; exact nomatch h
  | v2 r deps =>
    obtain ⟨x, hx, hxn⟩ := List.mem_map.1 hn
    obtain ⟨-, -, h2⟩ := emit_v2 h
    obtain ⟨m, hm, hof⟩ := h2.mem_left hx
    refine ⟨m, hm, hof.name.trans (congrArg Prod.fst hxn)⟩

/-- C219. After the round trip, every metric and event of the registry that is not deprecated counts as seen, whatever the
advisors and finding filters. -/
theorem round_trip_signals {d13 d15 : Nat} {r : Reg} {path : String} {c : Calls} (he : emit d13 d15 r path = some c)
    (hi : Sendable r) {res : List KV} {advs : List Advisor} {m : Option Modifier} {st : St}
    (h : liveCheck { checker := Checker.new r.toCheck, advisors := advs, modifier := m } false (samples res c) = .ok st) :
    ∃ s, st.stats = some s ∧ (∀ n, LiveMetric r.toCheck n → 0 < cnt n s.regMetrics) ∧
      ∀ n, n ≠ "" → LiveEvent r.toCheck n → 0 < cnt n s.regEvents := by
  obtain ⟨s, hs, hseen⟩ := coverage_counts h
  have hreg : (Checker.new r.toCheck).registry = r.toCheck := (find_signal r.toCheck "").2.2
  dsimp only at hseen
  rw [hreg] at hseen
  have hrep := run_report h
  refine ⟨s, hs, ?_, ?_⟩
  · intro n hn
    rw [(hseen.metrics.inReg n hn).1, List.countP_pos_iff]
    obtain ⟨d, hd, rfl, -⟩ := hn
    obtain ⟨x, hx, hxn⟩ := metric_in_calls he hi hd
    have hsm : Sample.metric (metricOf res x) ∈ attachAll none (samples res c) := by
      rw [attach_samples]; exact mem_samples.2 (.inr (.inr (.inl ⟨x, hx, rfl⟩)))
    obtain ⟨e, hee, -, href, -⟩ := hrep.mem_left (mem_flatMap_occs hsm (List.mem_append_right _ (List.mem_singleton.2 rfl)))
    refine ⟨e, hee, ?_⟩
    unfold IsMetric
    rw [href]
    exact decide_eq_true hxn
  · intro n hne hn
    rw [(hseen.events.inReg n hn).1, if_neg hne, List.countP_pos_iff]
    obtain ⟨d, hd, rfl, -⟩ := hn
    obtain ⟨x, hx, hxn⟩ := event_in_calls he hd
    have hsm : Sample.log (logOf res x) ∈ attachAll none (samples res c) := by
      rw [attach_samples]; exact mem_samples.2 (.inr (.inr (.inr ⟨x, hx, rfl⟩)))
    obtain ⟨e, hee, -, href, -⟩ := hrep.mem_left (mem_flatMap_occs hsm (List.mem_append_right _ (List.mem_singleton.2 rfl)))
    refine ⟨e, hee, ?_⟩
    unfold IsEvent
    rw [href]
    exact decide_eq_true hxn

/-- C219. And if the registry says one thing under each name and there are no policies, every attribute of a signal counts as
seen, templates included. -/
theorem round_trip_attributes {d13 d15 : Nat} {r : Reg} {path : String} {c : Calls} (hc : Clean r)
    (he : emit d13 d15 r path = some c) {res : List KV} {rego : Advisor} (hr : ∀ a b c d, rego a b c d = .ok []) {st : St}
    (h : liveCheck { checker := Checker.new r.toCheck, advisors := advisors rego, modifier := none } false (samples res c) = .ok st) :
    ∃ s, st.stats = some s ∧ ∀ a ∈ r.signalAttrs, LiveAttr r.toCheck a.d.name ∧ 0 < cnt a.d.name s.regAttrs := by
  obtain ⟨s, hs, hseen⟩ := coverage_counts h
  have hreg : (Checker.new r.toCheck).registry = r.toCheck := (find_signal r.toCheck "").2.2
  dsimp only at hseen
  rw [hreg] at hseen
  refine ⟨s, hs, fun a ha => ?_⟩
  have hlive : LiveAttr r.toCheck a.d.name := by
    obtain ⟨d, hd, hn⟩ := hc.known a ha
    exact ⟨d, hd, hn, (hc.same a ha d hd hn).2⟩
  refine ⟨hlive, ?_⟩
  rw [(hseen.attrs.inReg _ hlive).1, List.countP_pos_iff]
  obtain ⟨p, hp, hin⟩ := attr_in_calls he ha
  have hocc : ∃ sm ∈ samples res c, ∃ g sg, attrOcc (Checker.new r.toCheck) g sg (attrOf (kvOf p)) ∈
      occs { checker := Checker.new r.toCheck, advisors := advisors rego, modifier := none } sm := by
    rcases hin with ⟨x, hx, hpx⟩ | ⟨x, hx, hpx⟩ | ⟨x, hx, hpx⟩
    · refine ⟨_, mem_samples.2 (.inr (.inl ⟨x, hx, rfl⟩)), none, spanSampleOf res x, ?_⟩
      refine List.mem_append_left _ (List.mem_append_left _ (List.mem_cons_of_mem _ ?_))
      exact List.mem_map.2 ⟨_, List.mem_map.2 ⟨p, hpx, rfl⟩, rfl⟩
    · refine ⟨_, mem_samples.2 (.inr (.inr (.inl ⟨x, hx, rfl⟩))),
        (Checker.new r.toCheck).findMetric x.name, .metric (metricOf res x), ?_⟩
      refine List.mem_append_left _ ?_
      have hpt : ∀ mk : Point → SRef, attrOcc (Checker.new r.toCheck) ((Checker.new r.toCheck).findMetric x.name)
          (.metric (metricOf res x)) (attrOf (kvOf p)) ∈ [({ attrs := x.attrs.map fun p => attrOf (kvOf p) } : Point)].flatMap
            (pointOccs (Checker.new r.toCheck) mk ((Checker.new r.toCheck).findMetric x.name) (.metric (metricOf res x))) := by
        intro mk
        refine List.mem_flatMap.2 ⟨_, List.mem_singleton.2 rfl, List.mem_append_left _ (List.mem_cons_of_mem _ ?_)⟩
        exact List.mem_map.2 ⟨_, List.mem_map.2 ⟨p, hpx, rfl⟩, rfl⟩
      unfold metricOf at hpt ⊢
      cases hin : x.instrument <;> simp only [hin] at hpt ⊢ <;> exact hpt _
    · refine ⟨_, mem_samples.2 (.inr (.inr (.inr ⟨x, hx, rfl⟩))), eventOf (Checker.new r.toCheck) (logOf res x), .log (logOf res x), ?_⟩
      refine List.mem_append_left _ ?_
      exact List.mem_map.2 ⟨_, List.mem_map.2 ⟨p, hpx, rfl⟩, rfl⟩
  obtain ⟨sm, hsm, g, sg, hocc⟩ := hocc
  rw [← attach_samples res c] at hsm
  obtain ⟨e, hee, -, href, -⟩ := (run_report h).mem_left (mem_flatMap_occs hsm hocc)
  refine ⟨e, hee, ?_⟩
  have hcov := coverage_filters_partial rfl hr (fun _ f _ => ⟨f.level, rfl⟩) h e hee _ href
  unfold IsAttr
  rw [href]
  refine decide_eq_true (hcov.trans ?_)
  unfold nameValue at hp
  obtain ⟨v, hv, rfl⟩ := Option.map_eq_some_iff.1 hp
  obtain ⟨d, hd, hdn, hdt, -⟩ := found hc ha
  have hnm : (attrOf (kvOf (emittedName a.d.name a.d.typ, v))).name = emittedName a.d.name a.d.typ := rfl
  rw [hnm]
  simp only [hd]
  split
  · exact hdn
  · rename_i ht
    rw [hdt] at ht
    cases h : a.d.typ with
    | template q => simp [h, AType.isTemplate] at ht
    | prim q => rfl
    | enum l => rfl

end Verif.Emit
