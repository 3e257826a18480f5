import Verif.Trip.Props
import Verif.Infer.Limits
/-
C250–C252: what of its own telemetry an inferred registry does not accept, and coverage.
-/
namespace Verif.Trip
open Verif.Util Verif.Receiver.Ingest
open Verif.LiveCheck hiding Resource Metric Span Log Profile
open Verif.Infer (SpanKind Out Place Shuffled addSamples toSpec)
open Verif.Emit (NoViolation find_signal lastOf lastOf_eq)

/-- References stand for the definitions of their attributes. -/
theorem mem_refs {o : Out} {names : List String} {x : AttrDef} :
    x ∈ refs o names ↔ x.name ∈ names ∧ ∃ d ∈ o.attributes, x = { name := d.key, typ := .prim d.attr.typ, stability := some "development" } := by
  simp only [refs, List.mem_flatMap, List.mem_map, List.mem_filter, decide_eq_true_eq]
  constructor
  · rintro ⟨n, hn, d, ⟨hd, rfl⟩, rfl⟩
    exact ⟨hn, d, hd, rfl⟩
  · rintro ⟨hn, d, hd, rfl⟩
    exact ⟨_, hn, d, ⟨hd, rfl⟩, rfl⟩

/-- The registry as the model loads it says what was inferred. -/
theorem loaded_loads (o : Out) (deps : List (String × V2Part)) : Loads o (.v2 (loaded o) deps) := by
  have hrefs : ∀ names, ∀ x ∈ refs o names, x.req ≠ .required := by
    intro names x hx
    obtain ⟨n, -, hx⟩ := List.mem_flatMap.1 hx
    obtain ⟨d, -, rfl⟩ := List.mem_map.1 hx
    exact fun e => nomatch e
  constructor
  · exact fun d hd => ⟨defOf d, List.mem_map.2 ⟨d, hd, rfl⟩, rfl⟩
  · intro x hx
    obtain ⟨d, hd, rfl⟩ := List.mem_map.1 hx
    exact ⟨rfl, rfl, d, hd, rfl, rfl⟩
  · exact fun m hm => ⟨_, List.mem_map.2 ⟨m, hm, rfl⟩, rfl⟩
  · intro q hq
    obtain ⟨m, hm, rfl⟩ := List.mem_map.1 hq
    exact ⟨⟨.inr rfl, rfl, rfl, rfl, hrefs _⟩, m, hm, rfl, rfl, rfl⟩
  · exact fun m hm => ⟨_, List.mem_map.2 ⟨m, hm, rfl⟩, rfl⟩
  · intro q hq
    obtain ⟨m, hm, rfl⟩ := List.mem_map.1 hq
    exact ⟨⟨.inr rfl, rfl, rfl, rfl, hrefs _⟩, m, hm, rfl⟩

/-- The registry inferred from requests, with the hash maps in the order of the model. -/
def inferred (rs : List Request) : Registry :=
  .v2 (loaded (toSpec (addSamples (fun n => n.toNat) (rs.flatMap (taken fun _ => .internal))))) []

theorem inferred_from (rs : List Request) : InferredFrom rs (inferred rs) :=
  ⟨_, _, _, Infer.shuffled_refl _ _, loaded_loads _ _⟩

/-! ### C251 -/

/-- What is found about a thing that is looked at is in the report. -/
theorem in_report {env : Env} (hm : env.modifier = none) {noStats : Bool} {ss : List Sample} {st : St}
    (h : liveCheck env noStats ss = .ok st) {s : Sample} (hs : s ∈ attachAll none ss) {o : Occ} (ho : o ∈ occs env s) :
    ∃ gs, advice o env.advisors = .ok gs ∧ ∀ f ∈ o.first ++ gs ++ o.last, f ∈ st.findings := by
  obtain ⟨e, hee, -, -, fs, ⟨gs, hgs, rfl⟩, hall⟩ := (run_report h).mem_left (mem_flatMap_occs hs ho)
  refine ⟨gs, hgs, fun f hf => List.mem_flatMap.2 ⟨e, hee, ?_⟩⟩
  rw [hall, hm]
  exact List.mem_filterMap.2 ⟨f, hf, rfl⟩

/-- C251. An attribute that is learned nowhere is always reported as missing in the inferred registry. -/
theorem unlearned_violation {rs : List Request} {r : Registry} (hi : InferredFrom rs r) {s : Sample} (hs : s ∈ sent rs)
    {a : SAttr} (ha : a ∈ allAttrs s) (hno : ∀ s' ∈ sent rs, ∀ b ∈ learned s', b.name ≠ a.name) {advs : List Advisor}
    {noStats : Bool} {st : St}
    (h : liveCheck { checker := Checker.new r, advisors := advs, modifier := none } noStats (sent rs) = .ok st) :
    ∃ f ∈ st.findings, f.level = .violation ∧ f.id = "missing_attribute" ∧ f.ctx = [("attribute_key", .text a.name)] := by
  have hsay := says hi
  obtain ⟨c, hc⟩ := (mem_attachAll (cur := none)).2 s hs
  obtain ⟨g, sg, ho⟩ := attr_looked { checker := Checker.new r, advisors := advs, modifier := none } (attach c s)
    (a := a) (by rw [allAttrs_attach]; exact ha)
  obtain ⟨gs, -, hf⟩ := in_report rfl h hc ho
  have hfa : (Checker.new r).findAny a.name = none := by
    cases hd : (Checker.new r).findAny a.name with
    | none => rfl
    | some d =>
      obtain ⟨h1, h2⟩ := (hsay.find a.name).1 d hd
      obtain ⟨-, -, s', hs', b, hb, hbn, -⟩ := hsay.attrsFrom d h1
      exact absurd (hbn.trans h2) (hno s' hs' b hb)
  refine ⟨mkFinding sg "missing_attribute" .violation ("Attribute '" ++ a.name ++ "' does not exist in the registry.")
    [("attribute_key", .text a.name)], hf _ (List.mem_append_left _ (List.mem_append_left _ ?_)), rfl, rfl, rfl⟩
  simp [attrOcc, hfa, attributeFirst]

/-- The occurrence of a metric. -/
theorem metric_looked {env : Env} (hm : env.modifier = none) {rego : Advisor} (hadv : env.advisors = advisors rego) {noStats : Bool}
    {ss : List Sample} {st : St} (h : liveCheck env noStats ss = .ok st) {m : LiveCheck.Metric} (hms : .metric m ∈ ss) :
    ∃ m' sg, m'.name = m.name ∧ m'.instrument = m.instrument ∧ m'.unit = m.unit ∧
      (env.checker.findMetric m.name = none →
        mkFinding sg "missing_metric" .violation "Metric does not exist in the registry." [] ∈ st.findings) ∧
      ∀ g, env.checker.findMetric m.name = some g → ∀ f ∈ instrumentFindings sg m' g ++ unitFindings sg m' g, f ∈ st.findings := by
  obtain ⟨c, hc⟩ := (mem_attachAll (cur := none)).2 _ hms
  refine ⟨{ m with resource := c }, .metric { m with resource := c }, rfl, rfl, rfl, ?_, ?_⟩
  · intro hn
    obtain ⟨gs, -, hf⟩ := in_report hm h hc (List.mem_append_right _ (List.mem_singleton.2 rfl))
    refine hf _ (List.mem_append_left _ (List.mem_append_left _ ?_))
    dsimp only
    rw [hn]
    exact List.mem_singleton.2 rfl
  · intro g hg f hf
    obtain ⟨gs, hgs, hf'⟩ := in_report hm h hc (List.mem_append_right _ (List.mem_singleton.2 rfl))
    rw [hadv] at hgs
    obtain ⟨f1, f2, f3, f4, f5, e1, e2, e3, e4, e5, rfl⟩ := advice_advisors hgs
    refine hf' f (List.mem_append_left _ (List.mem_append_right _ ?_))
    simp only [typeAdvisor, hg, Except.ok.injEq] at e3
    rw [← e3]
    exact List.mem_append_right _ (List.mem_append_right _ (List.mem_append_left _ hf))

/-- C251. A metric whose instrument is not supported, a summary, is always reported: the inferred registry does not have it, or
has a metric of the name with another instrument. -/
theorem unsupported_violation {rs : List Request} {r : Registry} {m : LiveCheck.Metric} (hm : .metric m ∈ sent rs) {n : String}
    (hn : m.instrument = .unsupported n) {rego : Advisor} {noStats : Bool} {st : St}
    (h : liveCheck { checker := Checker.new r, advisors := advisors rego, modifier := none } noStats (sent rs) = .ok st) :
    ∃ f ∈ st.findings, f.level = .violation ∧ (f.id = "missing_metric" ∨ f.id = "unexpected_instrument") := by
  obtain ⟨m', sg, h1, h2, h3, h4, h5⟩ := metric_looked rfl rfl h hm
  cases hf : (Checker.new r).findMetric m.name with
  | none => exact ⟨_, h4 hf, rfl, .inl rfl⟩
  | some g =>
    refine ⟨_, h5 g hf (mkFinding sg "unexpected_instrument" .violation ("Instrument '" ++ n ++ "' is not supported")
      [("instrument", .text n)]) (List.mem_append_left _ ?_), rfl, .inr rfl⟩
    simp [instrumentFindings, h2, hn]

/-- C251. Two metrics of one name with different instruments or units always lead to a violation: the inferred registry has
what one of them has. -/
theorem disagree_violation {rs : List Request} {r : Registry} (hi : InferredFrom rs r) {m m' : LiveCheck.Metric}
    (hm : .metric m ∈ sent rs) (hm' : .metric m' ∈ sent rs) (hn : m.name = m'.name)
    (hd : m.instrument ≠ m'.instrument ∨ m.unit ≠ m'.unit) {rego : Advisor} {noStats : Bool} {st : St}
    (h : liveCheck { checker := Checker.new r, advisors := advisors rego, modifier := none } noStats (sent rs) = .ok st) :
    ∃ f ∈ st.findings, f.level = .violation ∧
      (f.id = "missing_metric" ∨ f.id = "unexpected_instrument" ∨ f.id = "unit_mismatch") := by
  have hsay := says hi
  cases hf : (Checker.new r).findMetric m.name with
  | none =>
    obtain ⟨_, sg, -, -, -, h4, -⟩ := metric_looked rfl rfl h hm
    exact ⟨_, h4 hf, rfl, .inl rfl⟩
  | some g =>
    obtain ⟨-, m1, i, -, -, -, hgi, hgu⟩ := hsay.metricsFrom _ (mem_lastOf ((find_signal r _).1.symm.trans hf))
    replace hgi : g.instrument = some i := hgi
    replace hgu : g.unit = some m1.unit := hgu
    have key : ∀ x : LiveCheck.Metric, .metric x ∈ sent rs → x.name = m.name → (x.instrument ≠ .supported i ∨ x.unit ≠ m1.unit) →
        ∃ f ∈ st.findings, f.level = .violation ∧
          (f.id = "missing_metric" ∨ f.id = "unexpected_instrument" ∨ f.id = "unit_mismatch") := by
      intro x hx hxn hxd
      obtain ⟨x', sg, h1, h2, h3, -, h5⟩ := metric_looked rfl rfl h hx
      rcases hxd with hxd | hxd
      · have : ∃ f ∈ instrumentFindings sg x' g, f.level = .violation ∧ f.id = "unexpected_instrument" := by
          unfold instrumentFindings
          rw [h2, hgi]
          cases hxi : x.instrument with
          | unsupported n => exact ⟨_, List.mem_singleton.2 rfl, rfl, rfl⟩
          | supported j =>
            have : ¬ i = j := fun e => hxd (by rw [hxi, e])
            dsimp only
            rw [if_neg this]
            exact ⟨_, List.mem_singleton.2 rfl, rfl, rfl⟩
        obtain ⟨f, hff, hl, hid⟩ := this
        exact ⟨f, h5 g (by rw [hxn]; exact hf) f (List.mem_append_left _ hff), hl, .inr (.inl hid)⟩
      · have : ∃ f ∈ unitFindings sg x' g, f.level = .violation ∧ f.id = "unit_mismatch" := by
          unfold unitFindings
          rw [hgu]
          dsimp only
          rw [h3, if_neg (fun e => hxd e.symm)]
          exact ⟨_, List.mem_singleton.2 rfl, rfl, rfl⟩
        obtain ⟨f, hff, hl, hid⟩ := this
        exact ⟨f, h5 g (by rw [hxn]; exact hf) f (List.mem_append_right _ hff), hl, .inr (.inr hid)⟩
    by_cases h1 : m.instrument = .supported i ∧ m.unit = m1.unit
    · refine key m' hm' hn.symm ?_
      rw [← h1.1, ← h1.2]
      rcases hd with hd | hd
      · exact .inl fun e => hd e.symm
      · exact .inr fun e => hd e.symm
    · refine key m hm rfl ?_
      by_cases h2 : m.instrument = .supported i
      · exact .inr fun e => h1 ⟨h2, e⟩
      · exact .inl h2

/-- C251. If for every learned value of an attribute there is a value whose type does not fit its type, there is a violation,
whichever of the types the registry has. -/
theorem mistyped_violation {rs : List Request} {r : Registry} (hi : InferredFrom rs r) {n : String}
    (hl : ∃ s ∈ sent rs, ∃ b ∈ learned s, b.name = n)
    (hd : ∀ s ∈ sent rs, ∀ b ∈ learned s, b.name = n → ∃ s' ∈ sent rs, ∃ a ∈ allAttrs s', a.name = n ∧
      ∃ t, a.typ = some t ∧ t.isCompatible (b.typ.getD .string) = false)
    {rego : Advisor} {noStats : Bool} {st : St}
    (h : liveCheck { checker := Checker.new r, advisors := advisors rego, modifier := none } noStats (sent rs) = .ok st) :
    ∃ f ∈ st.findings, f.level = .violation ∧ f.id = "type_mismatch" := by
  have hsay := says hi
  cases hfa : (Checker.new r).findAny n with
  | none =>
    obtain ⟨s, hs, b, hb, hbn⟩ := hl
    exact absurd hbn ((hsay.find n).2 hfa s hs b hb)
  | some d =>
    obtain ⟨hdm, hdn⟩ := (hsay.find n).1 d hfa
    obtain ⟨-, -, s2, hs2, b, hb, hbn, ht⟩ := hsay.attrsFrom d hdm
    obtain ⟨s, hs, a, ha, han, t, hat, hcomp⟩ := hd s2 hs2 b hb (hbn.trans hdn)
    obtain ⟨c, hc⟩ := (mem_attachAll (cur := none)).2 s hs
    obtain ⟨g, sg, ho⟩ := attr_looked { checker := Checker.new r, advisors := advisors rego, modifier := none } (attach c s)
      (a := a) (by rw [allAttrs_attach]; exact ha)
    obtain ⟨gs, hgs, hf⟩ := in_report rfl h hc ho
    obtain ⟨f1, f2, f3, f4, f5, e1, e2, e3, e4, e5, rfl⟩ := advice_advisors hgs
    simp only [attrOcc, han, hfa, typeAdvisor, hat, Except.ok.injEq] at e3
    have : ∃ f ∈ f3, f.level = .violation ∧ f.id = "type_mismatch" := by
      rw [← e3]
      unfold typeFindings
      rw [ht]
      dsimp only
      rw [hcomp]
      exact ⟨_, List.mem_singleton.2 rfl, rfl, rfl⟩
    obtain ⟨f, hff, hlv, hid⟩ := this
    refine ⟨f, hf f (List.mem_append_left _ (List.mem_append_right _ ?_)), hlv, hid⟩
    exact List.mem_append_right _ (List.mem_append_right _ (List.mem_append_left _ hff))

theorem learned_all {s : Sample} {b : SAttr} (hb : b ∈ learned s) : b ∈ allAttrs s := by
  cases s with
  | resource x => exact hb
  | span x => exact List.mem_append_left _ hb
  | metric m =>
    simp only [learned] at hb
    split at hb
    · exact List.mem_append_left _ hb
    · cases hb
  | log l =>
    simp only [learned] at hb
    split at hb
    · cases hb
    · exact hb
  | «attribute» _ => cases hb
  | spanEvent _ => cases hb
  | spanLink _ => cases hb
  | scope _ => cases hb
  | profile _ => cases hb

/-- The telemetry has something that inference learns and the live check compares. -/
def Substantial (ss : List Sample) : Prop :=
  (∃ s ∈ ss, ∃ b, b ∈ learned s) ∨ (∃ m i, .metric m ∈ ss ∧ m.instrument = .supported i) ∨ ∃ l, .log l ∈ ss ∧ l.eventName ≠ ""

/-- C251. Everything that is learned is reported as not stable: with a threshold of `improvement` the live check fails. -/
theorem unstable_reported {rs : List Request} {r : Registry} (hi : InferredFrom rs r) (hs : Substantial (sent rs))
    {rego : Advisor} {noStats : Bool} {st : St}
    (h : liveCheck { checker := Checker.new r, advisors := advisors rego, modifier := none } noStats (sent rs) = .ok st) :
    ∃ f ∈ st.findings, f.level = .improvement ∧ f.id = "not_stable" ∧ ("stability", .text "development") ∈ f.ctx := by
  have hsay := says hi
  have key : ∀ {s : Sample} {o : Occ}, s ∈ attachAll none (sent rs) →
      o ∈ occs { checker := Checker.new r, advisors := advisors rego, modifier := none } s →
      (∀ l, stabilityAdvisor o.ref o.signal o.attr o.group = .ok l → ∃ f ∈ l, f.level = .improvement ∧ f.id = "not_stable" ∧
        ("stability", .text "development") ∈ f.ctx) → ∃ f ∈ st.findings, f.level = .improvement ∧ f.id = "not_stable" ∧
        ("stability", .text "development") ∈ f.ctx := by
    intro s o hs ho hst
    obtain ⟨gs, hgs, hf⟩ := in_report rfl h hs ho
    obtain ⟨f1, f2, f3, f4, f5, e1, e2, e3, e4, e5, rfl⟩ := advice_advisors hgs
    obtain ⟨f, hff, h1⟩ := hst f2 e2
    exact ⟨f, hf f (List.mem_append_left _ (List.mem_append_right _ (List.mem_append_right _ (List.mem_append_left _ hff)))), h1⟩
  have hone : ∀ (sg : Sample) (a b c : String), ∃ f ∈ (unstable (some "development")).map (unstableFinding sg a b c),
      f.level = .improvement ∧ f.id = "not_stable" ∧ ("stability", .text "development") ∈ f.ctx := by
    intro sg a b c
    refine ⟨unstableFinding sg a b c "development", List.mem_map.2 ⟨_, ?_, rfl⟩, rfl, rfl, ?_⟩
    · decide
    · simp [unstableFinding, mkFinding]
  rcases hs with ⟨s, hs, b, hb⟩ | ⟨m, i, hm, hmi⟩ | ⟨l, hl, hln⟩
  · obtain ⟨c, hc⟩ := (mem_attachAll (cur := none)).2 s hs
    obtain ⟨g, sg, ho⟩ := attr_looked { checker := Checker.new r, advisors := advisors rego, modifier := none } (attach c s)
      (a := b) (by rw [allAttrs_attach]; exact learned_all hb)
    refine key hc ho fun k hk => ?_
    cases hfa : (Checker.new r).findAny b.name with
    | none => exact absurd rfl ((hsay.find b.name).2 hfa s hs b hb)
    | some d =>
      obtain ⟨-, hst, -⟩ := hsay.attrsFrom d ((hsay.find b.name).1 d hfa).1
      simp only [attrOcc, stabilityAdvisor, hfa, Option.bind_some, hst, Except.ok.injEq] at hk
      rw [← hk]; exact hone _ _ _ _
  · obtain ⟨c, hc⟩ := (mem_attachAll (cur := none)).2 _ hm
    refine key hc (List.mem_append_right _ (List.mem_singleton.2 rfl)) fun k hk => ?_
    cases hfm : (Checker.new r).findMetric m.name with
    | none =>
      obtain ⟨q, hq, hqn⟩ := hsay.metrics m i hm hmi
      rw [(find_signal r _).1] at hfm
      exact absurd hqn (lastOf_none hfm q hq)
    | some g =>
      have hst : g.stability = some "development" :=
        (hsay.metricsFrom _ (mem_lastOf ((find_signal r _).1.symm.trans hfm))).1.stability
      simp only [stabilityAdvisor, hfm, Option.bind_some, hst, Except.ok.injEq] at hk
      rw [← hk]; exact hone _ _ _ _
  · obtain ⟨c, hc⟩ := (mem_attachAll (cur := none)).2 _ hl
    refine key hc (List.mem_append_right _ (List.mem_singleton.2 rfl)) fun k hk => ?_
    have hev : eventOf (Checker.new r) { l with resource := c } = (Checker.new r).findEvent l.eventName := if_neg hln
    cases hfe : (Checker.new r).findEvent l.eventName with
    | none =>
      obtain ⟨q, hq, hqn⟩ := hsay.events l hl hln
      rw [(find_signal r _).2.1] at hfe
      exact absurd hqn (lastOf_none hfe q hq)
    | some g =>
      have hst : g.stability = some "development" :=
        (hsay.eventsFrom _ (mem_lastOf ((find_signal r _).2.1.symm.trans hfe))).1.stability
      simp only [stabilityAdvisor, hev, hfe, Option.bind_some, hst, Except.ok.injEq] at hk
      rw [← hk]; exact hone _ _ _ _

/-! ### C250: what does not hold -/

/-- A scope with an attribute. -/
def scopeAttr : List Request := [.traces [{ scopes := [
  { scope := some ("lib", [{ key := "team", value := some (.str "a") }]), signals := [{ name := "GET" }] }] }]]

/-- A link with an attribute. -/
def linkAttr : List Request := [.traces [{ scopes := [{ signals := [{ name := "GET", links := [[{ key := "why", value := some (.str "a") }]] }] }] }]]

/-- A log record without event name. -/
def plainLog : List Request := [.logs [{ scopes := [{ signals := [{ attrs := [{ key := "a", value := some (.int 1) }] }] }] }]]

/-- A data point with an exemplar that has an attribute. -/
def exemplarAttr : List Request := [.metrics [{ scopes := [{ signals := [{ name := "m", unit := "s", data := some (.gauge [
  { exemplars := [[{ key := "a", value := some (.int 1) }]] }]) }] }] }]]

/-- A summary. -/
def summary : List Request := [.metrics [{ scopes := [{ signals := [{ name := "m", unit := "s", data := some .summary }] }] }]]

/-- A profile with an attribute. -/
def profileAttr : List Request := [.profiles (some { strings := ["a"], attrs := [(0, some (.int 1))] })
  [{ scopes := [{ signals := [{ indices := [0] }] }] }]]

/-- An attribute that is an integer first and a double later. -/
def wider : List Request := [.traces [{ scopes := [{ signals := [
  { name := "GET", attrs := [{ key := "ratio", value := some (.int 1) }] },
  { name := "GET", attrs := [{ key := "ratio", value := some (.dbl 7) }] }] }] }]]

/-- The violations that the live check finds in telemetry, against the registry inferred from it. -/
def violations (rs : List Request) : List String :=
  match liveCheck (plainEnv (inferred rs) none) true (sent rs) with
  | .ok st => (st.findings.filter fun f => f.level = .violation).map (·.id)
  | .error _ => ["error"]

example : violations scopeAttr = ["missing_attribute"] ∧ violations linkAttr = ["missing_attribute"] ∧
    violations plainLog = ["missing_attribute"] ∧ violations exemplarAttr = ["missing_attribute"] ∧
    violations summary = ["missing_metric"] ∧ violations profileAttr = ["missing_attribute"] ∧
    violations wider = ["type_mismatch"] := by decide +kernel

/-- C250. Telemetry can violate the registry that was inferred from it: attributes of scopes are not learned. -/
theorem accepts_refuted : ¬ ∀ (rs : List Request) (r : Registry) (st : St), InferredFrom rs r →
    liveCheck (plainEnv r none) true (sent rs) = .ok st → ∀ f ∈ st.findings, f.level ≠ .violation := by
  intro hall
  have h := hall scopeAttr (inferred scopeAttr) _ (inferred_from _) rfl
  revert h
  decide +kernel

/-- A span with an event and a link. -/
def evenSpan : SpanMsg where
  name := "GET"
  attrs := [{ key := "status", value := some (.int 200) }]
  events := [("retry", [{ key := "delay", value := some (.dbl 3) }])]
  links := [[{ key := "status", value := some (.int 500) }]]

/-- Telemetry that agrees with itself: a resource, a span with an event and a link, a counter, an event. -/
def even : List Request := [
  .traces [{ resource := some [{ key := "service.name", value := some (.str "shop") }],
             scopes := [{ scope := some ("lib", []), signals := [evenSpan] }] }],
  .metrics [{ scopes := [{ signals := [
    { name := "requests", unit := "1", data := some (.sum true [{ attrs := [{ key := "status", value := some (.int 200) }] }]) },
    { name := "requests", unit := "1", data := some (.sum true [{ attrs := [] }]) }] }] }],
  .logs [{ scopes := [{ signals := [{ eventName := "login", attrs := [{ key := "user", value := some (.str "x") }] }] }] }]]

example : violations even = [] := by decide +kernel

theorem even_even : Even (sent even) where
  known := by decide +kernel
  typed := by
    have : ∀ s ∈ sent even, ∀ a ∈ allAttrs s, ∀ s' ∈ sent even, ∀ b ∈ learned s', b.name = a.name →
        (a.typ.all fun t => t.isCompatible (b.typ.getD .string)) = true := by decide +kernel
    intro s hs a ha s' hs' b hb hn t ht
    have := this s hs a ha s' hs' b hb hn
    rw [ht] at this; exact this
  supported := by
    have : ∀ s ∈ sent even, (match s with | .metric m => decide (m.instrument = .supported "counter") | _ => true) = true := by
      decide +kernel
    intro m hm
    exact ⟨_, of_decide_eq_true (this _ hm)⟩
  agree := by
    have : ∀ s ∈ sent even, (match s with
        | .metric m => decide (m.instrument = .supported "counter" ∧ m.unit = "1") | _ => true) = true := by decide +kernel
    intro m m' hm hm' _
    have h1 := of_decide_eq_true (this _ hm)
    have h2 := of_decide_eq_true (this _ hm')
    exact ⟨h1.1.trans h2.1.symm, h1.2.trans h2.2.symm⟩

example : Substantial (sent even) := by
  have h : (sent even).any (fun s => !(learned s).isEmpty) = true := by decide +kernel
  obtain ⟨s, hs, hb⟩ := List.any_eq_true.1 h
  cases hl : learned s with
  | nil => simp [hl] at hb
  | cons b r => exact .inl ⟨s, hs, b, by rw [hl]; exact List.mem_cons_self⟩

/-! ### C252 -/

/-- C252. What holds: the telemetry a registry was inferred from covers all its attributes and metrics, and of the events those
that are log records. -/
theorem coverage_partial {rs : List Request} {r : Registry} (hi : InferredFrom rs r) {rego : Advisor}
    (hr : ∀ a b c d, rego a b c d = .ok []) {st : St}
    (h : liveCheck { checker := Checker.new r, advisors := advisors rego, modifier := none } false (sent rs) = .ok st) :
    ∃ s, st.stats = some s ∧ (∀ n ∈ s.regAttrs.map Prod.fst, 0 < cnt n s.regAttrs) ∧
      (∀ n ∈ s.regMetrics.map Prod.fst, 0 < cnt n s.regMetrics) ∧
      ∀ n ∈ s.regEvents.map Prod.fst, (0 < cnt n s.regEvents ↔ n ≠ "" ∧ ∃ l, .log l ∈ sent rs ∧ l.eventName = n) := by
  have hsay := says hi
  obtain ⟨s, hs, hseen⟩ := coverage_counts h
  have hreg : (Checker.new r).registry = r := (find_signal r "").2.2
  dsimp only at hseen
  rw [hreg] at hseen
  have hrep := run_report h
  refine ⟨s, hs, fun n hn => ?_, fun n hn => ?_, fun n hn => ?_⟩
  · have hn' := (hseen.attrs.keys n).1 hn
    rw [(hseen.attrs.inReg n hn').1, List.countP_pos_iff]
    obtain ⟨d, hd, hdn, -⟩ := hn'
    obtain ⟨-, -, s0, hs0, b, hb, hbn, -⟩ := hsay.attrsFrom d hd
    have hball := learned_all hb
    obtain ⟨c, hc⟩ := (mem_attachAll (cur := none)).2 s0 hs0
    obtain ⟨g, sg, ho⟩ := attr_looked { checker := Checker.new r, advisors := advisors rego, modifier := none } (attach c s0)
      (a := b) (by rw [allAttrs_attach]; exact hball)
    obtain ⟨e, hee, -, href, -⟩ := hrep.mem_left (mem_flatMap_occs hc ho)
    refine ⟨e, hee, ?_⟩
    have hcov := coverage_filters_partial rfl hr (fun _ f _ => ⟨f.level, rfl⟩) h e hee _ href
    unfold IsAttr
    rw [href]
    refine decide_eq_true (hcov.trans ?_)
    cases hfa : (Checker.new r).findAny b.name with
    | none => exact hbn.trans hdn
    | some x =>
      have := hsay.plain x ((hsay.find b.name).1 x hfa).1
      simp only [this]
      exact hbn.trans hdn
  · have hn' := (hseen.metrics.keys n).1 hn
    rw [(hseen.metrics.inReg n hn').1, List.countP_pos_iff]
    obtain ⟨q, hq, hqn, -⟩ := hn'
    obtain ⟨-, m, i, hm, -, hmn, -, -⟩ := hsay.metricsFrom q hq
    obtain ⟨c, hc⟩ := (mem_attachAll (cur := none)).2 _ hm
    obtain ⟨e, hee, -, href, -⟩ := hrep.mem_left (mem_flatMap_occs hc (List.mem_append_right _ (List.mem_singleton.2 rfl)))
    refine ⟨e, hee, ?_⟩
    unfold IsMetric
    rw [href]
    exact decide_eq_true (hmn.trans hqn)
  · have hn' := (hseen.events.keys n).1 hn
    rw [(hseen.events.inReg n hn').1]
    by_cases hne : n = ""
    · simp [hne]
    · rw [if_neg hne, List.countP_pos_iff]
      constructor
      · rintro ⟨e, hee, hev⟩
        refine ⟨hne, ?_⟩
        obtain ⟨o, hoo, -, href, -⟩ := hrep.mem_right hee
        obtain ⟨x, hx, hox⟩ := List.mem_flatMap.1 hoo
        obtain ⟨s0, hs0, c, rfl⟩ := mem_attachAll.1 x hx
        unfold IsEvent at hev
        rw [href] at hev
        rcases looked hox with ⟨a, -, g, sg, rfl⟩ | ⟨m, -, rfl⟩ | ⟨l, hl, rfl⟩ | ⟨hmin, -⟩
        · exact nomatch hev
        · exact nomatch hev
        · cases s0 <;> simp only [attach, reduceCtorEq, Sample.log.injEq] at hl
          rename_i l0
          exact ⟨l0, hs0, by have := of_decide_eq_true hev; rw [← hl] at this; exact this⟩
        · cases ho : o.ref <;> rw [ho] at hmin hev <;> first | exact hmin.elim | exact nomatch hev
      · rintro ⟨-, l, hl, hln⟩
        obtain ⟨c, hc⟩ := (mem_attachAll (cur := none)).2 _ hl
        obtain ⟨e, hee, -, href, -⟩ := hrep.mem_left (mem_flatMap_occs hc (List.mem_append_right _ (List.mem_singleton.2 rfl)))
        refine ⟨e, hee, ?_⟩
        unfold IsEvent
        rw [href]
        exact decide_eq_true hln

/-- C252. Not everything in an inferred registry is covered by its own telemetry: events of spans become events of the registry,
but the live check counts only log records as events. -/
theorem coverage_refuted : ¬ ∀ (rs : List Request) (r : Registry) (st : St) (s : Stats), InferredFrom rs r →
    liveCheck (plainEnv r none) false (sent rs) = .ok st → st.stats = some s → s.coverage.1 = s.coverage.2 := by
  intro hall
  have h := hall even (inferred even) _ _ (inferred_from _) rfl rfl
  revert h
  decide +kernel

example : ∃ st s, liveCheck (plainEnv (inferred even) none) false (sent even) = .ok st ∧ st.stats = some s ∧ s.coverage = (6, 7) ∧
    cnt "retry" s.regEvents = 0 := ⟨_, _, rfl, rfl, by decide +kernel, by decide +kernel⟩

end Verif.Trip
