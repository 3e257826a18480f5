import Verif.Emit.Model
import Verif.Values.Props
/-
What `registry emit` sends: C216 (every signal, once), C217 (values are examples).
-/
namespace Verif.Emit
open Verif.Util
open Verif.LiveCheck (AttrDef AType PType Elem Value)
open Verif.Values (Examples emitted emittedName HasType Allows specValue)

/-! ### Specification -/

/-- What is sent for an attribute: it has the name of the attribute, or for a template that name with ".key" after it; an enum
has the value of its first member; and other values are allowed by the type, if they have one. -/
structure Sent (a : Attr) (p : String × Value) : Prop where
  plain : (∀ q, a.d.typ ≠ .template q) → p.1 = a.d.name
  template : ∀ q, a.d.typ = .template q → p.1 = a.d.name ++ ".key"
  enum : ∀ l, a.d.typ = .enum l → ∃ m ms, l = m :: ms ∧ p.2 = .elem m
  typed : ∀ q, a.d.typ = .prim q ∨ a.d.typ = .template q → (∃ t, HasType p.2 t) → Allows p.2 q

/-- The span of a group of the first format. -/
structure SpanOf1 (g : Group) (s : SpanCall) : Prop where
  name : s.name = g.id
  kind : g.spanKind = some s.kind ∨ (g.spanKind = none ∧ s.kind = .internal)
  attrs : Forall2 Sent g.attrs s.attrs

/-- The metric of a group of the first format. -/
structure MetricOf1 (g : Group) (m : MetricCall) : Prop where
  name : g.metricName = some m.name ∨ (g.metricName = none ∧ m.name = "")
  unit : g.unit = some m.unit ∨ (g.unit = none ∧ m.unit = "")
  instrument : g.instrument = some m.instrument
  attrs : Forall2 Sent g.attrs m.attrs

/-- The log record of a group of the first format. -/
structure LogOf1 (g : Group) (l : LogCall) : Prop where
  name : g.name = some l.eventName ∨ (g.name = none ∧ l.eventName = g.id)
  body : l.body = l.eventName
  attrs : Forall2 Sent g.attrs l.attrs

/-- The span of a span of the second format. -/
structure SpanOf2 (g : Span2) (s : SpanCall) : Prop where
  name : s.name = g.type
  kind : s.kind = g.kind
  attrs : Forall2 Sent g.attrs s.attrs

/-- The metric of a metric of the second format. -/
structure MetricOf2 (g : Metric2) (m : MetricCall) : Prop where
  name : m.name = g.name
  unit : m.unit = g.unit
  instrument : m.instrument = g.instrument
  attrs : Forall2 Sent g.attrs m.attrs

/-- The log record of an event of the second format. -/
structure LogOf2 (g : Event2) (l : LogCall) : Prop where
  name : l.eventName = g.name
  body : l.body = l.eventName
  attrs : Forall2 Sent g.attrs l.attrs

/-! ### Lemmas -/

theorem traverse_some {α β : Type} {f : α → Option β} {l : List α} {r : List β} (h : traverse f l = some r) :
    Forall2 (fun x y => f x = some y) l r := by
  induction l generalizing r with
  | nil => simp only [traverse, Option.some.injEq] at h; subst h; exact .nil
  | cons x l ih =>
    simp only [traverse] at h
    cases hx : f x with
    | none => rw [hx] at h; exact nomatch h
    | some y =>
      cases hl : traverse f l with
      | none => rw [hx, hl] at h; exact nomatch h
      | some ys =>
        rw [hx, hl] at h
        simp only [Option.some.injEq] at h
        subst h
        exact .cons hx (ih hl)

theorem traverse_none {α β : Type} {f : α → Option β} {l : List α} : traverse f l = none ↔ ∃ x ∈ l, f x = none := by
  induction l with
  | nil => simp [traverse]
  | cons x l ih =>
    simp only [traverse]
    cases hx : f x with
    | none => simp [hx]
    | some y =>
      cases hl : traverse f l with
      | none =>
        obtain ⟨z, hz, hf⟩ := ih.1 hl
        simp only [true_iff]
        exact ⟨z, List.mem_cons_of_mem _ hz, hf⟩
      | some ys =>
        simp only [List.mem_cons, exists_eq_or_imp, hx, reduceCtorEq, false_or, false_iff]
        exact fun h => nomatch (ih.2 h).symm.trans hl

/-- The signals that are skipped and those that are sent. -/
theorem forall2_filterMap {α β : Type} {f : α → Option (Option β)} {P : α → Bool} {R : α → β → Prop} {l : List α}
    {r : List (Option β)} (h : Forall2 (fun x y => f x = some y) l r)
    (hskip : ∀ x, P x = false → f x = some none) (hsent : ∀ x y, P x = true → f x = some y → ∃ z, y = some z ∧ R x z) :
    Forall2 R (l.filter P) (r.filterMap id) := by
  induction h with
  | nil => exact .nil
  | cons h _ ih =>
    rename_i x y l r _
    cases hp : P x with
    | false =>
      have := (hskip x hp).symm.trans h
      simp only [Option.some.injEq] at this
      subst this
      simpa [List.filter_cons, hp] using ih
    | true =>
      obtain ⟨z, rfl, hr⟩ := hsent x y hp h
      simpa [List.filter_cons, hp] using Forall2.cons hr ih

theorem emitted_none {d13 d15 : Nat} {t : AType} {ex : Option Examples} : emitted d13 d15 t ex = none ↔ t = .enum [] := by
  rcases t with p | p | l
  · cases p <;> simp [emitted]
  · cases p <;> simp [emitted]
  · cases l <;> simp [emitted]

theorem nameValue_sent {d13 d15 : Nat} {a : Attr} {p : String × Value} (h : nameValue d13 d15 a = some p) : Sent a p := by
  unfold nameValue at h
  obtain ⟨v, hv, rfl⟩ := Option.map_eq_some_iff.1 h
  refine ⟨?_, ?_, ?_, ?_⟩
  · intro hn
    cases ht : a.d.typ with
    | template q => exact absurd ht (hn q)
    | prim q => rfl
    | enum l => rfl
  · intro q hq; rw [hq]; rfl
  · intro l hl
    rw [hl] at hv
    cases l with
    | nil => simp [emitted] at hv
    | cons m ms =>
      refine ⟨m, ms, rfl, ?_⟩
      simpa [emitted] using hv.symm
  · intro q hq ht
    obtain ⟨w, hw, hm⟩ := Values.emitted_accepted d13 d15 q a.d.typ hq a.examples "" a.d rfl (.attribute ⟨"", none, none⟩) none
    rw [hw] at hv
    simp only [Option.some.injEq] at hv
    subst hv
    refine Classical.byContradiction fun hno => ?_
    rw [(Values.mistyped_iff "" w a.d (.attribute ⟨"", none, none⟩) none q hq).2 ⟨ht, hno⟩] at hm
    cases hm

theorem attrs_sent {d13 d15 : Nat} {l : List Attr} {r : List (String × Value)} (h : traverse (nameValue d13 d15) l = some r) :
    Forall2 Sent l r := (traverse_some h).mono fun _ _ h => nameValue_sent h

/-! ### C216 -/

/-- C216. What is sent for a registry of the first format: one span for each group that is a span, in order, and then the span
around them; one metric for each group that is a metric with an instrument; one log record for each group that is an event. -/
theorem emit_v1 {d13 d15 : Nat} {groups : List Group} {path : String} {c : Calls}
    (h : emit d13 d15 (.v1 groups) path = some c) :
    (∃ ss, c.spans = ss ++ [root path] ∧ Forall2 SpanOf1 (groups.filter fun g => g.type = .span) ss) ∧
    Forall2 MetricOf1 (groups.filter fun g => g.type = .metric && g.instrument.isSome) c.metrics ∧
    Forall2 LogOf1 (groups.filter fun g => g.type = .event) c.logs := by
  simp only [emit, Option.bind_eq_bind, Option.bind_eq_some_iff, Option.pure_def, Option.some.injEq] at h
  obtain ⟨ss, hs, ms, hm, ls, hl, rfl⟩ := h
  refine ⟨⟨_, rfl, forall2_filterMap (traverse_some hs) ?_ ?_⟩, forall2_filterMap (traverse_some hm) ?_ ?_,
    forall2_filterMap (traverse_some hl) ?_ ?_⟩
  · intro g hg
    unfold emitSpan1
    rw [if_neg (by simpa using hg)]
  · intro g y hg hy
    unfold emitSpan1 at hy
    rw [if_pos (by simpa using hg)] at hy
    cases ha : traverse (nameValue d13 d15) g.attrs with
    | none => rw [ha] at hy; exact nomatch hy
    | some attrs =>
      rw [ha] at hy
      simp only [Option.some.injEq] at hy
      refine ⟨_, hy.symm, rfl, ?_, attrs_sent ha⟩
      cases hk : g.spanKind with
      | none => exact .inr ⟨rfl, rfl⟩
      | some k => cases k <;> exact .inl rfl
  · intro g hg
    unfold emitMetric1
    by_cases ht : g.type = .metric
    · rw [if_pos ht]
      cases hi : g.instrument with
      | none => rfl
      | some i => simp [ht, hi] at hg
    · rw [if_neg ht]
  · intro g y hg hy
    simp only [Bool.and_eq_true, decide_eq_true_eq] at hg
    unfold emitMetric1 at hy
    rw [if_pos hg.1] at hy
    cases hi : g.instrument with
    | none => rw [hi] at hg; exact nomatch hg.2
    | some i =>
      rw [hi] at hy
      dsimp only at hy
      cases ha : traverse (nameValue d13 d15) g.attrs with
      | none => rw [ha] at hy; exact nomatch hy
      | some attrs =>
        rw [ha] at hy
        simp only [Option.some.injEq] at hy
        refine ⟨_, hy.symm, ?_, ?_, hi, attrs_sent ha⟩
        · cases g.metricName <;> simp
        · cases g.unit <;> simp
  · intro g hg
    unfold emitLog1
    rw [if_neg (by simpa using hg)]
  · intro g y hg hy
    unfold emitLog1 at hy
    rw [if_pos (by simpa using hg)] at hy
    cases ha : traverse (nameValue d13 d15) g.attrs with
    | none => rw [ha] at hy; exact nomatch hy
    | some attrs =>
      rw [ha] at hy
      simp only [Option.some.injEq] at hy
      refine ⟨_, hy.symm, ?_, rfl, attrs_sent ha⟩
      cases g.name <;> simp

/-- C216. What is sent for a registry of the second format: one span for each span, in order, and then the span around them; one
metric for each metric; one log record for each event. Refinements and dependencies are not sent. -/
theorem emit_v2 {d13 d15 : Nat} {r : Reg2} {deps : List (String × LiveCheck.V2Part)} {path : String} {c : Calls}
    (h : emit d13 d15 (.v2 r deps) path = some c) :
    (∃ ss, c.spans = ss ++ [root path] ∧ Forall2 SpanOf2 r.spans ss) ∧
    Forall2 MetricOf2 r.metrics c.metrics ∧ Forall2 LogOf2 r.events c.logs := by
  simp only [emit, Option.bind_eq_bind, Option.bind_eq_some_iff, Option.pure_def, Option.some.injEq] at h
  obtain ⟨ss, hs, ms, hm, ls, hl, rfl⟩ := h
  refine ⟨⟨_, rfl, (traverse_some hs).mono ?_⟩, (traverse_some hm).mono ?_, (traverse_some hl).mono ?_⟩
  · intro g s hg
    unfold emitSpan2 at hg
    cases ha : traverse (nameValue d13 d15) g.attrs with
    | none => rw [ha] at hg; exact nomatch hg
    | some attrs =>
      rw [ha] at hg
      simp only [Option.some.injEq] at hg
      subst hg
      refine ⟨rfl, ?_, attrs_sent ha⟩
      cases hk : g.kind <;> rfl
  · intro g m hg
    unfold emitMetric2 at hg
    cases ha : traverse (nameValue d13 d15) g.attrs with
    | none => rw [ha] at hg; exact nomatch hg
    | some attrs =>
      rw [ha] at hg
      simp only [Option.some.injEq] at hg
      subst hg
      exact ⟨rfl, rfl, rfl, attrs_sent ha⟩
  · intro g l hg
    unfold emitLog2 at hg
    cases ha : traverse (nameValue d13 d15) g.attrs with
    | none => rw [ha] at hg; exact nomatch hg
    | some attrs =>
      rw [ha] at hg
      simp only [Option.some.injEq] at hg
      subst hg
      exact ⟨rfl, rfl, attrs_sent ha⟩

/-- The attributes of the signals that are sent. -/
def Reg.signalAttrs : Reg → List Attr
  | .v1 groups => (groups.filter fun g =>
      g.type = .span || (g.type = .metric && g.instrument.isSome) || g.type = .event).flatMap (·.attrs)
  | .v2 r _ => r.spans.flatMap (·.attrs) ++ (r.metrics.flatMap (·.attrs) ++ r.events.flatMap (·.attrs))

theorem nameValue_none {d13 d15 : Nat} {l : List Attr} :
    traverse (nameValue d13 d15) l = none ↔ ∃ a ∈ l, a.d.typ = .enum [] := by
  rw [traverse_none]
  simp only [nameValue, Option.map_eq_none_iff, emitted_none]

/-- C216. Emitting fails exactly if a signal has an attribute that is an enum without members. -/
theorem emit_fails (d13 d15 : Nat) (r : Reg) (path : String) :
    emit d13 d15 r path = none ↔ ∃ a ∈ r.signalAttrs, a.d.typ = .enum [] := by
  have h3 : ∀ {α β γ δ : Type} (a : Option α) (b : Option β) (c : Option γ) (f : α → β → γ → δ),
      (do let x ← a; let y ← b; let z ← c; return f x y z) = none ↔ a = none ∨ b = none ∨ c = none := by
    intro α β γ δ a b c f
    cases a <;> cases b <;> cases c <;> simp
  cases r with
  | v1 groups =>
    unfold emit
    dsimp only
    rw [h3]
    simp only [traverse_none, Reg.signalAttrs, List.mem_flatMap, List.mem_filter, Bool.or_eq_true, Bool.and_eq_true,
      decide_eq_true_eq]
    have e1 : ∀ g, emitSpan1 d13 d15 g = none ↔ g.type = .span ∧ ∃ a ∈ g.attrs, a.d.typ = .enum [] := by
      intro g
      unfold emitSpan1
      by_cases ht : g.type = .span
      · rw [if_pos ht, ← nameValue_none (d13 := d13) (d15 := d15)]; cases traverse (nameValue d13 d15) g.attrs <;> simp [ht]
      · rw [if_neg ht]; simp [ht]
    have e2 : ∀ g, emitMetric1 d13 d15 g = none ↔
        (g.type = .metric ∧ g.instrument.isSome = true) ∧ ∃ a ∈ g.attrs, a.d.typ = .enum [] := by
      intro g
      unfold emitMetric1
      by_cases ht : g.type = .metric
      · rw [if_pos ht]
        cases hi : g.instrument with
        | none => simp
        | some i => rw [← nameValue_none (d13 := d13) (d15 := d15)]; cases traverse (nameValue d13 d15) g.attrs <;> simp [ht]
      · rw [if_neg ht]; simp [ht]
    have e3 : ∀ g, emitLog1 d13 d15 g = none ↔ g.type = .event ∧ ∃ a ∈ g.attrs, a.d.typ = .enum [] := by
      intro g
      unfold emitLog1
      by_cases ht : g.type = .event
      · rw [if_pos ht, ← nameValue_none (d13 := d13) (d15 := d15)]; cases traverse (nameValue d13 d15) g.attrs <;> simp [ht]
      · rw [if_neg ht]; simp [ht]
    simp only [e1, e2, e3]
    constructor
    · rintro (⟨g, hg, ht, a, ha, hn⟩ | ⟨g, hg, ht, a, ha, hn⟩ | ⟨g, hg, ht, a, ha, hn⟩)
      · exact ⟨a, ⟨g, ⟨hg, .inl (.inl ht)⟩, ha⟩, hn⟩
      · exact ⟨a, ⟨g, ⟨hg, .inl (.inr ht)⟩, ha⟩, hn⟩
      · exact ⟨a, ⟨g, ⟨hg, .inr ht⟩, ha⟩, hn⟩
    · rintro ⟨a, ⟨g, ⟨hg, (ht | ht) | ht⟩, ha⟩, hn⟩
      · exact .inl ⟨g, hg, ht, a, ha, hn⟩
      · exact .inr (.inl ⟨g, hg, ht, a, ha, hn⟩)
      · exact .inr (.inr ⟨g, hg, ht, a, ha, hn⟩)
  | v2 r deps =>
    unfold emit
    dsimp only
    rw [h3]
    have e1 : ∀ s, emitSpan2 d13 d15 s = none ↔ ∃ a ∈ s.attrs, a.d.typ = .enum [] := by
      intro s; unfold emitSpan2; rw [← nameValue_none (d13 := d13) (d15 := d15)]; cases traverse (nameValue d13 d15) s.attrs <;> simp
    have e2 : ∀ s, emitMetric2 d13 d15 s = none ↔ ∃ a ∈ s.attrs, a.d.typ = .enum [] := by
      intro s; unfold emitMetric2; rw [← nameValue_none (d13 := d13) (d15 := d15)]; cases traverse (nameValue d13 d15) s.attrs <;> simp
    have e3 : ∀ s, emitLog2 d13 d15 s = none ↔ ∃ a ∈ s.attrs, a.d.typ = .enum [] := by
      intro s; unfold emitLog2; rw [← nameValue_none (d13 := d13) (d15 := d15)]; cases traverse (nameValue d13 d15) s.attrs <;> simp
    simp only [traverse_none, Reg.signalAttrs, List.mem_append, List.mem_flatMap, e1, e2, e3]
    constructor
    · rintro (⟨g, hg, a, ha, hn⟩ | ⟨g, hg, a, ha, hn⟩ | ⟨g, hg, a, ha, hn⟩)
      · exact ⟨a, .inl ⟨g, hg, ha⟩, hn⟩
      · exact ⟨a, .inr (.inl ⟨g, hg, ha⟩), hn⟩
      · exact ⟨a, .inr (.inr ⟨g, hg, ha⟩), hn⟩
    · rintro ⟨a, ⟨g, hg, ha⟩ | ⟨g, hg, ha⟩ | ⟨g, hg, ha⟩, hn⟩
      · exact .inl ⟨g, hg, a, ha, hn⟩
      · exact .inr (.inl ⟨g, hg, a, ha, hn⟩)
      · exact .inr (.inr ⟨g, hg, a, ha, hn⟩)

/-- A registry of the first format, for examples. -/
def small1 : List Group := [
  { type := .span, id := "span.s", spanKind := some .client, attrs := [
      { d := { name := "a", typ := .prim .int }, examples := some (.ints [7, 8]) },
      { d := { name := "t", typ := .template .string } }] },
  { type := .metric, id := "metric.m", metricName := some "m", instrument := some .counter, unit := some "s", attrs := [
      { d := { name := "e", typ := .enum [.str "x", .str "y"] } }] },
  { type := .metric, id := "metric.n", metricName := some "n" },
  { type := .event, id := "event.e", name := some "e" },
  { type := .other, id := "other" }]

/-- A registry of the second format, for examples. -/
def small2 : Reg2 where
  attributes := [{ name := "a", typ := .prim .int }, { name := "t", typ := .template .string },
    { name := "e", typ := .enum [.str "x", .str "y"] }]
  spans := [{ type := "s", kind := .server, attrs := [{ d := { name := "a", typ := .prim .int } }] }]
  metrics := [{ name := "m", instrument := .gauge, unit := "s", attrs := [{ d := { name := "e", typ := .enum [.str "x", .str "y"] } }] }]
  events := [{ name := "e", attrs := [{ d := { name := "t", typ := .template .string, req := .required } }] }]

example : emit 0 1 (.v1 small1) "p" = some
    { spans := [{ name := "span.s", kind := .client, attrs := [("a", .elem (.int 7)), ("t.key", .elem (.str "template_value"))] },
        root "p"]
      metrics := [{ instrument := .counter, name := "m", unit := "s", attrs := [("e", .elem (.str "x"))] }]
      logs := [{ eventName := "e", body := "e" }] } := by decide +kernel

example : emit 0 1 (.v2 small2 []) "p" = some
    { spans := [{ name := "s", kind := .server, attrs := [("a", .elem (.int 42))] }, root "p"]
      metrics := [{ instrument := .gauge, name := "m", unit := "s", attrs := [("e", .elem (.str "x"))] }]
      logs := [{ eventName := "e", body := "e", attrs := [("t.key", .elem (.str "template_value"))] }] } := by decide +kernel

example : ∃ a ∈ (Reg.v1 [{ type := .event, id := "e", attrs := [{ d := { name := "a", typ := .enum [] } }] }]).signalAttrs,
    a.d.typ = .enum [] := ⟨{ d := { name := "a", typ := .enum [] } }, by decide, rfl⟩

/-! ### C217 -/

/-- The value is one of the examples, which are of the type. For arrays, the examples are a single array or a list of them. -/
inductive IsExample : PType → Examples → Value → Prop where
  | boolean {b : Bool} : IsExample .boolean (.bool b) (.elem (.bool b))
  | booleans {l : List Bool} {b : Bool} : b ∈ l → IsExample .boolean (.bools l) (.elem (.bool b))
  | int {n : Int} : IsExample .int (.int n) (.elem (.int n))
  | ints {l : List Int} {n : Int} : n ∈ l → IsExample .int (.ints l) (.elem (.int n))
  | double {f : Nat} : IsExample .double (.double f) (.elem (.dbl f))
  | doubles {l : List Nat} {f : Nat} : f ∈ l → IsExample .double (.doubles l) (.elem (.dbl f))
  | intDouble {n : Int} : IsExample .double (.int n) (.elem (.int n))
  | intDoubles {l : List Int} {n : Int} : n ∈ l → IsExample .double (.ints l) (.elem (.int n))
  | string {s : String} : IsExample .string (.string s) (.elem (.str s))
  | strings {l : List String} {s : String} : s ∈ l → IsExample .string (.strings l) (.elem (.str s))
  | arrBool {l : List Bool} : IsExample .booleans (.bools l) (.arr (l.map .bool))
  | arrBools {l : List (List Bool)} {x : List Bool} : x ∈ l → IsExample .booleans (.listOfBools l) (.arr (x.map .bool))
  | arrInt {l : List Int} : IsExample .ints (.ints l) (.arr (l.map .int))
  | arrInts {l : List (List Int)} {x : List Int} : x ∈ l → IsExample .ints (.listOfInts l) (.arr (x.map .int))
  | arrDouble {l : List Nat} : IsExample .doubles (.doubles l) (.arr (l.map .dbl))
  | arrDoubles {l : List (List Nat)} {x : List Nat} : x ∈ l → IsExample .doubles (.listOfDoubles l) (.arr (x.map .dbl))
  | arrString {l : List String} : IsExample .strings (.strings l) (.arr (l.map .str))
  | arrStrings {l : List (List String)} {x : List String} : x ∈ l → IsExample .strings (.listOfStrings l) (.arr (x.map .str))

/-- C217. A boolean is sent as `true` and an array of booleans as `[true, false]`, whatever the examples; and for a double whose
examples are integers the value that is sent is made up. -/
theorem examples_refuted :
    ¬ (∀ (d13 d15 : Nat) (p : PType) (ex : Examples), (∃ v, IsExample p ex v) →
        ∃ v, emitted d13 d15 (.prim p) (some ex) = some v ∧ IsExample p ex v) ∧
    emitted 0 1 (.prim .boolean) (some (.bools [false])) = some (.elem (.bool true)) ∧
    emitted 0 1 (.prim .booleans) (some (.bools [false])) = some (.arr [.bool true, .bool false]) ∧
    emitted 0 1 (.prim .double) (some (.ints [5])) = some (.elem (.dbl 0)) := by
  refine ⟨fun h => ?_, rfl, rfl, rfl⟩
  obtain ⟨v, hv, hx⟩ := h 0 1 .boolean (.bools [false]) ⟨_, .booleans (b := false) (by simp)⟩
  simp only [emitted, Option.some.injEq] at hv
  subst hv
  cases hx with
  | booleans h => simp at h

/-- C217. What holds: for the other types, if there is an example of the type, then the value that is sent is one. -/
theorem examples_partial (d13 d15 : Nat) (p : PType) (hb : p ≠ .boolean ∧ p ≠ .booleans) (ex : Examples)
    (hi : p = .double → (∀ n, ex ≠ .int n) ∧ ∀ l, ex ≠ .ints l) (hx : ∃ v, IsExample p ex v) :
    ∃ v, emitted d13 d15 (.prim p) (some ex) = some v ∧ IsExample p ex v := by
  obtain ⟨v, hv⟩ := hx
  cases hv with
  | boolean => exact absurd rfl hb.1
  | booleans _ => exact absurd rfl hb.1
  | arrBool => exact absurd rfl hb.2
  | arrBools _ => exact absurd rfl hb.2
  | int => exact ⟨_, rfl, .int⟩
  | double => exact ⟨_, rfl, .double⟩
  | string => exact ⟨_, rfl, .string⟩
  | intDouble => exact absurd rfl ((hi rfl).1 _)
  | intDoubles _ => exact absurd rfl ((hi rfl).2 _)
  | arrInt => exact ⟨_, rfl, .arrInt⟩
  | arrDouble => exact ⟨_, rfl, .arrDouble⟩
  | arrString => exact ⟨_, rfl, .arrString⟩
  | ints h => obtain ⟨x, l, rfl⟩ := List.exists_cons_of_ne_nil (List.ne_nil_of_mem h); exact ⟨_, rfl, .ints (by simp)⟩
  | doubles h => obtain ⟨x, l, rfl⟩ := List.exists_cons_of_ne_nil (List.ne_nil_of_mem h); exact ⟨_, rfl, .doubles (by simp)⟩
  | strings h => obtain ⟨x, l, rfl⟩ := List.exists_cons_of_ne_nil (List.ne_nil_of_mem h); exact ⟨_, rfl, .strings (by simp)⟩
  | arrInts h => obtain ⟨x, l, rfl⟩ := List.exists_cons_of_ne_nil (List.ne_nil_of_mem h); exact ⟨_, rfl, .arrInts (by simp)⟩
  | arrDoubles h => obtain ⟨x, l, rfl⟩ := List.exists_cons_of_ne_nil (List.ne_nil_of_mem h); exact ⟨_, rfl, .arrDoubles (by simp)⟩
  | arrStrings h => obtain ⟨x, l, rfl⟩ := List.exists_cons_of_ne_nil (List.ne_nil_of_mem h); exact ⟨_, rfl, .arrStrings (by simp)⟩

example : IsExample .strings (.listOfStrings [["x"], ["y", "z"]]) (.arr [.str "y", .str "z"]) :=
  .arrStrings (x := ["y", "z"]) (by simp)

end Verif.Emit
