import Verif.Infer.Props
import Verif.Values.Props
/-
C29: when a registry is written; C79, C80: what does not hold of inferred registries. Examples.
-/
namespace Verif.Infer
open Verif.Util Verif.Values
open Verif.LiveCheck (Elem Value PType SAttr SpanEvent Point Points Instr Metric Log)

variable (toF : Int → Nat)

/-! ### Hash orders exist -/

theorem sameMap_refl {V : Type} {R : V → V → Prop} {m : List (String × V)} (h : (m.map Prod.fst).Nodup)
    (hr : ∀ k v, aget k m = some v → R v v) : SameMap R m m :=
  ⟨h, fun k v hv => ⟨v, hv, hr k v hv⟩, fun k v hv => ⟨v, hv, hr k v hv⟩⟩

theorem eventsIs_same {m : List (String × Attrs)} {evs : List (String × List SAttr)} (h : EventsIs toF m evs) :
    SameMap (SameMap Eq) m m := by
  refine sameMap_refl h.1 fun k v hv => ?_
  have := h.2 k
  rw [hv] at this
  exact sameMap_refl this.2.1 fun _ _ _ => rfl

/-- The order of the association lists is one of the possible orders. -/
theorem shuffled_refl (l : List Sample) : Shuffled (addSamples toF l) (addSamples toF l) := by
  have h := addSamples_is toF l
  refine ⟨sameMap_refl h.resources.1 fun _ _ _ => rfl, sameMap_refl h.spans.1 fun k v hv => ?_,
    sameMap_refl h.metrics.1 fun k v hv => ?_, eventsIs_same toF h.events⟩
  · have := h.spans.2 k
    rw [hv] at this
    obtain ⟨s, r, _, _, h1, h2⟩ := this
    exact ⟨rfl, sameMap_refl h1.1 fun _ _ _ => rfl, eventsIs_same toF h2⟩
  · have := h.metrics.2 k
    rw [hv] at this
    obtain ⟨s, r, _, _, _, h1⟩ := this
    exact ⟨rfl, rfl, sameMap_refl h1.1 fun _ _ _ => rfl⟩

/-! ### When a registry is written -/

/-- Specification: a sample that leaves a trace. -/
def Counts : Sample → Prop
  | .resource attrs => attrs ≠ []
  | .span _ => True
  | .metric m => ∃ i, m.instrument = .supported i
  | .log r => r.eventName ≠ ""
  | .attribute _ => True
  | .other => False

/-- The samples taken in are those of requests that come before the stop signal; errors do not matter. -/
theorem mem_received (rs : List Request) (s : Sample) :
    s ∈ received rs ↔ ∃ pre l post, rs = pre ++ .samples l :: post ∧ .stop ∉ pre ∧ s ∈ l := by
  induction rs with
  | nil => simp [received]
  | cons r rs ih =>
    have step : r ≠ .stop → (∀ l, r ≠ .samples l ∨ s ∉ l) →
        ((∃ pre l post, rs = pre ++ Request.samples l :: post ∧ .stop ∉ pre ∧ s ∈ l) ↔
          ∃ pre l post, r :: rs = pre ++ Request.samples l :: post ∧ .stop ∉ pre ∧ s ∈ l) := by
      intro hr hs
      constructor
      · rintro ⟨pre, l, post, rfl, h2, h3⟩
        exact ⟨r :: pre, l, post, rfl, by simp [hr.symm, h2], h3⟩
      · rintro ⟨pre, l, post, h1, h2, h3⟩
        cases pre with
        | nil =>
          simp only [List.nil_append, List.cons.injEq] at h1
          exact absurd h3 ((hs l).resolve_left (fun h => h h1.1))
        | cons x pre =>
          simp only [List.cons_append, List.cons.injEq] at h1
          exact ⟨pre, l, post, h1.2, fun h => h2 (by simp [h]), h3⟩
    cases r with
    | error => exact ih.trans (step (by simp) (by simp))
    | stop =>
      simp only [received, List.not_mem_nil, false_iff]
      rintro ⟨pre, l, post, h1, h2, h3⟩
      cases pre with
      | nil => simp at h1
      | cons x pre =>
        simp only [List.cons_append, List.cons.injEq] at h1
        exact h2 (by simp [h1.1])
    | samples l =>
      by_cases hs : s ∈ l
      · exact ⟨fun _ => ⟨[], l, rs, rfl, by simp, hs⟩, fun _ => by simp [received, hs]⟩
      · have hs' : ∀ l', Request.samples l ≠ .samples l' ∨ s ∉ l' := by
          intro l'
          by_cases e : l = l'
          · exact .inr (e ▸ hs)
          · exact .inl (by simpa using e)
        have : s ∈ received (.samples l :: rs) ↔ s ∈ received rs := by simp [received, hs]
        exact this.trans (ih.trans (step (by simp) hs'))

theorem empty_map {V : Type} (m : List (String × V)) : m.isEmpty = true ↔ ∀ k, aget k m = none := by
  constructor
  · intro h k; rw [List.isEmpty_iff.1 h]; rfl
  · intro h
    cases m with
    | nil => rfl
    | cons p m =>
      have := aget_eq_none_iff.1 (h p.1)
      exact absurd (by simp) this

/-- A registry is written exactly if some sample taken in leaves a trace. -/
theorem written_iff (order : St → St) (rs : List Request) :
    (infer toF order rs).isSome = true ↔ ∃ s ∈ received rs, Counts s := by
  unfold infer
  generalize received rs = l
  have h := addSamples_is toF l
  have he : (addSamples toF l).isEmpty = true ↔ ¬ ∃ s ∈ l, Counts s := by
    unfold St.isEmpty
    rw [Bool.and_eq_true, Bool.and_eq_true, Bool.and_eq_true, empty_map, empty_map, empty_map, empty_map]
    constructor
    · rintro ⟨⟨⟨h1, h2⟩, h3⟩, h4⟩ ⟨s, hs, hc⟩
      cases s with
      | resource as =>
        obtain ⟨a, r, rfl⟩ := List.exists_cons_of_ne_nil (show as ≠ [] from hc)
        exact (named_ne_nil _ _).2 ⟨a, List.mem_flatMap.2 ⟨_, hs, by simp⟩, rfl⟩ (AttrsIs.none toF h.resources (h1 a.name))
      | «attribute» a => exact (named_ne_nil _ _).2 ⟨a, List.mem_flatMap.2 ⟨_, hs, by simp⟩, rfl⟩ (AttrsIs.none toF h.resources (h1 a.name))
      | span s =>
        have := h.spans.2 s.name
        rw [h2] at this
        have hm : s ∈ (spansOf l).filter (fun x => decide (x.name = s.name)) :=
          List.mem_filter.2 ⟨(mem_spansOf l s).2 hs, by simp⟩
        rw [this] at hm; cases hm
      | metric m =>
        obtain ⟨i, hi⟩ := hc
        have := h.metrics.2 m.name
        rw [h3] at this
        have hm : (i, m) ∈ (metricsOf l).filter (fun x => decide (x.2.name = m.name)) :=
          List.mem_filter.2 ⟨(mem_metricsOf l i m).2 ⟨hs, hi⟩, by simp⟩
        rw [this] at hm; cases hm
      | log r =>
        have := h.events.2 r.eventName
        rw [h4] at this
        exact (mvals_ne_nil _ _).2 ⟨r.attrs, (mem_logsOf l _ _).2 ⟨r, hs, rfl, hc, rfl⟩⟩ this
      | other => exact hc
    · intro hno
      have hno' : ∀ s ∈ l, ¬ Counts s := fun s hs hc => hno ⟨s, hs, hc⟩
      have r0 : resourceAttrs l = [] := by
        unfold resourceAttrs
        rw [List.flatMap_eq_nil_iff]
        intro s hs
        cases s with
        | resource as => exact Classical.byContradiction (hno' _ hs)
        | «attribute» a => exact absurd trivial (hno' _ hs)
        | _ => rfl
      have s0 : spansOf l = [] := by
        unfold spansOf; rw [List.filterMap_eq_nil_iff]
        intro s hs
        cases s with
        | span s => exact absurd trivial (hno' _ hs)
        | _ => rfl
      have m0 : metricsOf l = [] := by
        rw [List.eq_nil_iff_forall_not_mem]
        rintro ⟨i, m⟩ hm
        obtain ⟨h1, h2⟩ := (mem_metricsOf l i m).1 hm
        exact hno' _ h1 ⟨i, h2⟩
      have l0 : logsOf l = [] := by
        rw [List.eq_nil_iff_forall_not_mem]
        rintro ⟨n, as⟩ hm
        obtain ⟨r, h1, h2, h3, _⟩ := (mem_logsOf l n as).1 hm
        exact hno' _ h1 (show r.eventName ≠ "" from h2 ▸ h3)
      refine ⟨⟨⟨fun k => ?_, fun k => ?_⟩, fun k => ?_⟩, fun k => ?_⟩
      · cases e : aget k (addSamples toF l).resources with
        | none => rfl
        | some a =>
          have := (AttrsIs.keys toF h.resources k).1 (mem_keys_iff.2 ⟨a, e⟩)
          rw [r0] at this; simp at this
      · cases e : aget k (addSamples toF l).spans with
        | none => rfl
        | some a =>
          have := h.spans.2 k
          rw [e] at this
          obtain ⟨s, r, h1, _⟩ := this
          rw [s0] at h1; cases h1
      · cases e : aget k (addSamples toF l).metrics with
        | none => rfl
        | some a =>
          have := h.metrics.2 k
          rw [e] at this
          obtain ⟨s, r, h1, _⟩ := this
          rw [m0] at h1; cases h1
      · cases e : aget k (addSamples toF l).events with
        | none => rfl
        | some a =>
          have := h.events.2 k
          rw [e] at this
          obtain ⟨h1, _⟩ := this
          rw [l0] at h1; exact absurd rfl h1
  simp only
  by_cases hE : (addSamples toF l).isEmpty = true
  · rw [if_pos hE]; simpa using he.1 hE
  · rw [if_neg hE]
    simp only [Option.isSome_some, true_iff]
    exact Classical.byContradiction fun hc => hE (he.2 hc)

/-! ### C80: examples and types -/

/-- The type a scalar example is for. -/
def kind : ValueSpec → PType
  | .bool _ => .boolean
  | .int _ => .int
  | .double _ => .double
  | .string _ => .string

theorem scalarLike_kind {f x : ValueSpec} {v : Value} (h : scalarLike toF f v = some x) : kind x = kind f := by
  unfold scalarLike at h
  split at h
  · cases h; rfl
  · split at h
    · cases h; rfl
    · cases h
  · cases h; rfl
  · cases h; rfl
  · cases h; rfl
  · cases h

theorem scalar_kind {v : Value} {x : ValueSpec} {p : PType} (h : scalar toF v = some x) (ht : HasType v p)
    (hr : ∀ n, v = .elem (.int n) → n ≤ 9223372036854775807) : kind x = p := by
  have e := (inferType_iff v p).2 ht
  rcases v with (_ | b | n | f | s | _) | l <;> simp only [scalar, inferType, reduceCtorEq, Option.some.injEq] at h e
  · subst h; exact e
  · rw [if_pos (hr n rfl)] at h; cases h; exact e
  · subst h; exact e
  · subst h; exact e

/-- C80, the part that holds: if all values sampled for an attribute have one type, integers being within 64 bits, then
this is the type of the attribute, and its examples are accepted for it. -/
theorem examples_conform_partial (l : List Sample) {st : St} (hs : Shuffled (addSamples toF l) st) (d : DefOut)
    (hd : d ∈ (toSpec st).attributes) (p : PType)
    (hv : ∀ i q, Place l i q → ∀ s ∈ q, s.name = d.key → ∃ v, s.value = some v ∧ s.typ = inferType v ∧ HasType v p ∧
      ∀ n, v = .elem (.int n) → n ≤ 9223372036854775807) :
    d.attr.typ = p ∧ ∀ ex, d.attr.examples = some ex → validate ex (.prim d.attr.typ) = .ok := by
  obtain ⟨i, q, hq, ⟨s, r, hn, ht, hsh⟩, _⟩ := (attributes_listed toF l hs).2 d hd
  have hall : ∀ x ∈ s :: r, ∃ v, x.value = some v ∧ x.typ = inferType v ∧ HasType v p ∧
      ∀ n, v = .elem (.int n) → n ≤ 9223372036854775807 := by
    intro x hx
    rw [← hn] at hx
    obtain ⟨h1, h2⟩ := List.mem_filter.1 hx
    exact hv i q hq x h1 (by simpa using h2)
  have htyp : d.attr.typ = p := by
    obtain ⟨v, _, h2, h3, _⟩ := hall s (by simp)
    rw [ht, h2, (inferType_iff v p).2 h3]; rfl
  refine ⟨htyp, fun ex hex => ?_⟩
  rw [hex] at hsh
  obtain ⟨hc, e⟩ : Compact ex ∧ scalarsOf ex = _ := hsh
  have hk : ∀ x ∈ scalarsOf ex, kind x = p := by
    intro x hx
    rw [e] at hx
    unfold kept at hx
    split at hx
    · cases hx
    · rename_i first hf
      obtain ⟨v, h1, h2⟩ := List.mem_filterMap.1 (((uniq_spec _).2 x).1 (List.mem_of_mem_take hx))
      rw [scalarLike_kind toF h2]
      obtain ⟨l₁, v', l₂, h3, h4, _⟩ := List.findSome?_eq_some_iff.1 hf
      have hm : v' ∈ List.filterMap (fun x => x.value) (named d.key q) := by rw [h3]; simp
      rw [hn] at hm
      obtain ⟨y, hy1, hy2⟩ := List.mem_filterMap.1 hm
      obtain ⟨v'', g1, _, g3, g4⟩ := hall y hy1
      rw [g1] at hy2; cases hy2
      exact scalar_kind toF h4 g3 g4
  rw [htyp]
  cases ex <;> simp only [Compact] at hc
  case bool b => rw [← hk (.bool b) (by simp [scalarsOf])]; rfl
  case int b => rw [← hk (.int b) (by simp [scalarsOf])]; rfl
  case double b => rw [← hk (.double b) (by simp [scalarsOf])]; rfl
  case string b => rw [← hk (.string b) (by simp [scalarsOf])]; rfl
  case bools l =>
    cases l with
    | nil => simp at hc
    | cons b l => rw [← hk (.bool b) (by simp [scalarsOf])]; rfl
  case ints l =>
    cases l with
    | nil => simp at hc
    | cons b l => rw [← hk (.int b) (by simp [scalarsOf])]; rfl
  case doubles l =>
    cases l with
    | nil => simp at hc
    | cons b l => rw [← hk (.double b) (by simp [scalarsOf])]; rfl
  case strings l =>
    cases l with
    | nil => simp at hc
    | cons b l => rw [← hk (.string b) (by simp [scalarsOf])]; rfl

/-- C80 fails: an attribute sampled first with an array of strings and then with an integer is declared as an array of
strings with an integer as its example, which the validation of examples rejects. -/
theorem examples_conform_refuted : ∃ (l : List Sample) (d : DefOut), d ∈ (toSpec (addSamples toF l)).attributes ∧
    d.attr.examples = some (.int 3) ∧ d.attr.typ = .strings ∧ validate (.int 3) (.prim d.attr.typ) = .error :=
  ⟨[.resource [⟨"a", some (.arr [.str "x"]), some .strings⟩], .attribute ⟨"a", some (.elem (.int 3)), some .int⟩],
    ⟨"a", ⟨.strings, some (.int 3)⟩⟩, by
      have : (toSpec (addSamples toF [.resource [⟨"a", some (.arr [.str "x"]), some .strings⟩],
        .attribute ⟨"a", some (.elem (.int 3)), some .int⟩])).attributes = [⟨"a", ⟨.strings, some (.int 3)⟩⟩] := by rfl
      rw [this]; simp, rfl, rfl, rfl⟩

/-! ### C79: determinism -/

/-- Two spans that share an attribute, sampled with an integer and with a string. -/
def clash : List Sample :=
  [.span ⟨"s1", .internal, [⟨"a", some (.elem (.int 1)), some .int⟩], []⟩,
   .span ⟨"s2", .internal, [⟨"a", some (.elem (.str "x")), some .string⟩], []⟩]

/-- The accumulator of `clash` in the two orders a hash map of two entries can have. -/
def clash1 : St where
  spans := [("s1", ⟨.internal, [("a", ⟨.int, some (.int 1)⟩)], []⟩),
            ("s2", ⟨.internal, [("a", ⟨.string, some (.string "x")⟩)], []⟩)]
def clash2 : St where
  spans := [("s2", ⟨.internal, [("a", ⟨.string, some (.string "x")⟩)], []⟩),
            ("s1", ⟨.internal, [("a", ⟨.int, some (.int 1)⟩)], []⟩)]

theorem clash_state : addSamples toF clash = clash1 := rfl

theorem clash_shuffled : Shuffled clash1 clash2 := by
  have nil : ∀ {V : Type} {R : V → V → Prop}, SameMap R ([] : List (String × V)) [] :=
    ⟨by simp, by simp [aget], by simp [aget]⟩
  have one : ∀ (k : String) (a : Attr), SameMap Eq [(k, a)] [(k, a)] := fun k a =>
    sameMap_refl (by simp) fun _ _ _ => rfl
  refine ⟨nil, ⟨by decide, fun k v hv => ?_, fun k v hv => ?_⟩, nil, nil⟩
  · by_cases h1 : k = "s1"
    · subst h1
      refine ⟨v, by rw [← hv]; rfl, ?_⟩
      have : v = ⟨.internal, [("a", ⟨.int, some (.int 1)⟩)], []⟩ := (Option.some.inj hv).symm
      subst this; exact ⟨rfl, one _ _, nil⟩
    · by_cases h2 : k = "s2"
      · subst h2
        refine ⟨v, by rw [← hv]; rfl, ?_⟩
        have : v = ⟨.internal, [("a", ⟨.string, some (.string "x")⟩)], []⟩ := (Option.some.inj hv).symm
        subst this; exact ⟨rfl, one _ _, nil⟩
      · have := mem_keys_iff.2 ⟨v, hv⟩
        simp [clash1, h1, h2] at this
  · by_cases h1 : k = "s1"
    · subst h1
      refine ⟨v, by rw [← hv]; rfl, ?_⟩
      have : v = ⟨.internal, [("a", ⟨.int, some (.int 1)⟩)], []⟩ := (Option.some.inj hv).symm
      subst this; exact ⟨rfl, one _ _, nil⟩
    · by_cases h2 : k = "s2"
      · subst h2
        refine ⟨v, by rw [← hv]; rfl, ?_⟩
        have : v = ⟨.internal, [("a", ⟨.string, some (.string "x")⟩)], []⟩ := (Option.some.inj hv).symm
        subst this; exact ⟨rfl, one _ _, nil⟩
      · have := mem_keys_iff.2 ⟨v, hv⟩
        simp [clash2, h1, h2] at this

/-- C79 fails: the same samples give an attribute of type int in one run and of type string in another, depending on the
iteration order of a hash map. -/
theorem infer_deterministic_refuted : ∃ l st st', Shuffled (addSamples toF l) st ∧ Shuffled (addSamples toF l) st' ∧
    (toSpec st).attributes = [⟨"a", ⟨.int, some (.int 1)⟩⟩] ∧
    (toSpec st').attributes = [⟨"a", ⟨.string, some (.string "x")⟩⟩] :=
  ⟨clash, clash1, clash2, shuffled_refl toF clash, clash_shuffled, rfl, rfl⟩

/-! ### Examples -/

/-- A stream with a span, its event, a metric, a log record and a resource. -/
def sample : List Sample :=
  [.resource [⟨"service.name", some (.elem (.str "shop")), some .string⟩],
   .span ⟨"GET", .client, [⟨"http.status", some (.elem (.int 200)), some .int⟩], [⟨"retry", [⟨"n", some (.elem (.int 1)), some .int⟩]⟩]⟩,
   .span ⟨"GET", .server, [⟨"http.status", some (.elem (.int 404)), some .int⟩], []⟩,
   .log { eventName := "login", attrs := [⟨"user", some (.elem (.str "u")), some .string⟩] },
   .log { eventName := "", attrs := [⟨"lost", none, none⟩] }]

example : (toSpec (addSamples (fun _ => 0) sample)).spans = [⟨"GET", .client, "GET", ["http.status"]⟩] := by decide
example : (toSpec (addSamples (fun _ => 0) sample)).events = [⟨"login", ["user"]⟩, ⟨"retry", ["n"]⟩] := by decide
example : (toSpec (addSamples (fun _ => 0) sample)).attributes = [⟨"http.status", ⟨.int, some (.ints [200, 404])⟩⟩,
    ⟨"n", ⟨.int, some (.int 1)⟩⟩, ⟨"service.name", ⟨.string, some (.string "shop")⟩⟩,
    ⟨"user", ⟨.string, some (.string "u")⟩⟩] := by decide

example : (infer toF id [.error, .samples [.log { eventName := "" }], .stop, .samples sample]).isSome = false := rfl
example : (infer toF id [.error, .samples sample, .stop]).isSome = true := rfl

end Verif.Infer
