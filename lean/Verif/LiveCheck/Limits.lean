import Verif.LiveCheck.AdviceProps
import Verif.LiveCheck.ModifierProps
/-
Runs of the live check that show the theorems about it are not about nothing, and claims about it that do not hold (C62 to
C67), each with what does hold.
-/
namespace Verif.LiveCheck
open Verif.Util Verif.Semconv

/-! ### A run -/

/-- A metric with a data point, a log and a plain attribute. -/
def someSamples : List Sample := [
  .resource { attrs := [{ name := "size", value := some (.elem (.str "x")), typ := some .string }] },
  .metric { name := "m", instrument := .supported "counter", unit := "s",
            points := some (.number [{ attrs := [{ name := "size", typ := some .boolean }], exemplars := [{}] }]) },
  .log { eventName := "e", attrs := [{ name := "size", typ := some .string }] },
  .log { eventName := "" },
  .attribute { name := "unknown" }]

/-- The statistics of that run: every count is about something. -/
example : ∃ st s, liveCheck (plainEnv small none) false someSamples = .ok st ∧ st.stats = some s ∧
    s.totalEntities = 10 ∧ s.totalAdvisories = 6 ∧
    s.levelCounts = { information := 1, improvement := 2, violation := 3 } ∧
    s.highestCounts = { information := 0, improvement := 2, violation := 3 } ∧ s.noAdvice = 5 ∧
    cnt "attribute" s.byType = 4 ∧ cnt "type_mismatch" s.typeCounts = 1 ∧
    cnt "size" s.regAttrs = 3 ∧ cnt "unknown" s.otherAttrs = 1 ∧ s.coverage = (3, 6) ∧
    exitCode .violation st = 1 ∧ exitCode .none st = 0 :=
  ⟨_, _, rfl, rfl, by decide, by decide, by decide, by decide, by decide, by decide, by decide, by decide, by decide,
    by decide, by decide, by decide⟩

/-- The same run without statistics does not fail. -/
example : ∃ st, liveCheck (plainEnv small none) true someSamples = .ok st ∧ exitCode .violation st = 0 ∧
    ∃ f ∈ st.findings, f.level = .violation :=
  ⟨_, rfl, by decide, by decide⟩

/-! ### Findings handed to the exporter -/

/-- Rules that drop everything below a violation. -/
def onlyViolations : List Filter := [{ minLevel := some .violation }]

/-- C64. The findings handed to the exporter are those before the rules apply: a finding that is filtered out of the report, and
does not count for the exit code, is still exported. -/
theorem exported_findings_refuted :
    ¬ ∀ (filters : List Filter) (m : Option Modifier) (r : Registry) (samples : List Sample) (st : St),
      fromRules sameText filters [] = .ok m → liveCheck (plainEnv r m) false samples = .ok st →
      st.emitted = st.findings := by
  intro h
  have := h onlyViolations _ small [.attribute { name := "http.header.y" }] _ rfl rfl
  revert this
  decide

/-- C64. Without rules the exporter is given the findings of the report. -/
theorem exported_findings_partial {env : Env} {noStats : Bool} {samples : List Sample} {st : St}
    (hm : env.modifier = none) (h : liveCheck env noStats samples = .ok st) : st.emitted = st.findings := by
  obtain ⟨vs, h1, h2, h3, -⟩ := liveCheck_ext h
  unfold St.findings
  rw [h2, h3]
  clear h2 h3
  revert h1
  generalize (attachAll none samples).flatMap (occs env) = os
  intro h1
  induction h1 with
  | nil => rfl
  | cons hr _ ih =>
    simp only [List.flatMap_cons, List.map_cons]
    rw [ih, hr.2.2.2.1, hm]
    congr 1
    have : ∀ (s : SRef) (l : List Finding), l.filterMap (reported none s) = l := by
      intro s l
      induction l with
      | nil => rfl
      | cons f l ih => simp [reported, ih]
    rw [this]

/-- C64. With rules, the report has, of each thing looked at, what the rules make of the findings exported about it. -/
theorem exported_findings_modified_partial {env : Env} {noStats : Bool} {samples : List Sample} {st : St}
    (h : liveCheck env noStats samples = .ok st) :
    ∃ parts : List (Entry × List Finding), st.entries = parts.map (·.1) ∧ st.emitted = parts.flatMap (·.2) ∧
      ∀ p ∈ parts, p.1.result.all = p.2.filterMap (reported env.modifier p.1.ref) := by
  obtain ⟨vs, h1, h2, h3, -⟩ := liveCheck_ext h
  refine ⟨vs, h2, h3, ?_⟩
  intro p hp
  obtain ⟨o, -, hr⟩ := h1.mem_right hp
  rw [hr.2.1]; exact hr.2.2.2.1

example : ∃ st, liveCheck (plainEnv small none) false someSamples = .ok st ∧ st.emitted = st.findings :=
  ⟨_, rfl, exported_findings_partial (noStats := false) (env := plainEnv small none) (samples := someSamples) rfl rfl⟩

/-! ### Coverage and filters -/

/-- C67. The registry coverage depends on the finding filters: a filter for findings about templates, which are only
information, makes the template count as not seen. -/
theorem coverage_filters_refuted :
    ¬ ∀ (filters : List Filter) (m : Option Modifier) (r : Registry) (samples : List Sample) (st st' : St),
      fromRules sameText filters [] = .ok m → liveCheck (plainEnv r m) false samples = .ok st →
      liveCheck (plainEnv r none) false samples = .ok st' →
      st.stats.map (·.coverage) = st'.stats.map (·.coverage) := by
  intro h
  have := h onlyViolations _ small [.attribute { name := "http.header.y" }] _ _ rfl rfl rfl
  revert this
  decide

/-- No finding about a template is changed in kind or dropped. -/
def KeepsTemplates (m : Option Modifier) : Prop :=
  ∀ s f, f.id = "template_attribute" → ∃ l, reported m s f = some { f with level := l }

theorem reported_id {m : Option Modifier} {s : SRef} {f f' : Finding} (h : reported m s f = some f') :
    ∃ l, f' = { f with level := l } := by
  have hov : ∀ (g : Globs) (cs : List COverride), ∃ l, applyOverrides g f s cs = { f with level := l } := by
    intro g cs
    induction cs with
    | nil => exact ⟨f.level, rfl⟩
    | cons c cs ih =>
      unfold applyOverrides
      split
      · exact ⟨_, rfl⟩
      · exact ih
  cases m with
  | none => exact ⟨f.level, (Option.some.inj h).symm⟩
  | some m =>
    simp only [reported, Modifier.apply] at h
    obtain ⟨l, hl⟩ := hov m.globs m.overrides
    split at h
    · exact nomatch h
    · exact ⟨l, by rw [← Option.some.inj h, hl]⟩

theorem advice_ids {a : SAttr} {signal : Sample} {attr : Option AttrDef} {g : Option Signal} {d s t n : List Finding}
    (h1 : deprecatedAdvisor (.attribute a) signal attr g = .ok d) (h2 : stabilityAdvisor (.attribute a) signal attr g = .ok s)
    (h3 : typeAdvisor (.attribute a) signal attr g = .ok t) (h4 : enumAdvisor (.attribute a) signal attr g = .ok n) :
    ∀ f ∈ d ++ (s ++ (t ++ n)), f.id ≠ "template_attribute" := by
  intro f hf
  rcases List.mem_append.1 hf with hf | hf
  · rw [← Except.ok.inj h1] at hf
    obtain ⟨x, -, rfl⟩ := List.mem_map.1 hf
    simp [deprecatedFinding, unstableFinding, mkFinding]
  rcases List.mem_append.1 hf with hf | hf
  · rw [← Except.ok.inj h2] at hf
    obtain ⟨x, -, rfl⟩ := List.mem_map.1 hf
    simp [deprecatedFinding, unstableFinding, mkFinding]
  rcases List.mem_append.1 hf with hf | hf
  · unfold typeAdvisor at h3
    cases attr with
    | none => cases h3; exact absurd hf (by simp)
    | some d =>
      cases hty : a.typ with
      | none => simp only [hty] at h3; cases h3; exact absurd hf (by simp)
      | some ty =>
        simp only [hty] at h3
        rw [← Except.ok.inj h3] at hf
        unfold typeFindings at hf
        split at hf <;> split at hf <;> simp at hf <;> (rw [hf]; simp [mkFinding])
  · unfold enumAdvisor at h4
    dsimp only at h4
    split at h4
    · split at h4
      · split at h4
        · cases h4; rw [List.mem_singleton.1 hf]; simp [mkFinding]
        · cases h4; exact absurd hf (by simp)
      · cases h4; exact absurd hf (by simp)
    · cases h4; exact absurd hf (by simp)

/-- C67. As long as the rules do not drop the findings about templates, and rego policies find nothing, an attribute counts as
seen under the name of the definition it is compared to. -/
theorem coverage_filters_partial {env : Env} {rego : Advisor} (hadv : env.advisors = advisors rego)
    (hrego : ∀ a b c d, rego a b c d = .ok []) (hkeep : KeepsTemplates env.modifier) {noStats : Bool}
    {samples : List Sample} {st : St} (h : liveCheck env noStats samples = .ok st) :
    ∀ e ∈ st.entries, ∀ a, e.ref = .attribute a →
      coveredName a e.result = match env.checker.findAny a.name with
        | some d => if d.typ.isTemplate then d.name else a.name
        | none => a.name := by
  intro e he a hea
  obtain ⟨o, ho, hk, hr, fs, ⟨gs, hgs, hfs⟩, ha⟩ := (run_report h).mem_right he
  have hoa : ∃ g sg, o = attrOcc env.checker g sg a := by
    have hor : o.ref = .attribute a := hr.symm.trans hea
    have hw : ∀ {kind : String} {ref : SRef} {attrs : List SAttr} {g : Option Signal} {sg : Sample},
        (∀ a, ref ≠ .attribute a) → o ∈ withAttrs env.checker kind ref attrs g sg → ∃ g sg, o = attrOcc env.checker g sg a := by
      intro kind ref attrs g sg hne ho
      rcases List.mem_cons.1 ho with ho | ho
      · rw [ho] at hor; exact absurd hor (hne a)
      · obtain ⟨b, -, rfl⟩ := List.mem_map.1 ho
        have : b = a := SRef.attribute.inj hor
        rw [this]; exact ⟨_, _, rfl⟩
    have hp : ∀ {mk : Point → SRef} {l : List Point} {g : Option Signal} {sg : Sample}, (∀ p a, mk p ≠ .attribute a) →
        o ∈ l.flatMap (pointOccs env.checker mk g sg) → ∃ g sg, o = attrOcc env.checker g sg a := by
      intro mk l g sg hne ho
      obtain ⟨p, -, ho⟩ := List.mem_flatMap.1 ho
      rcases List.mem_append.1 ho with ho | ho
      · exact hw (hne p) ho
      · obtain ⟨x, -, ho⟩ := List.mem_flatMap.1 ho
        exact hw (by intro _ h; cases h) ho
    obtain ⟨s, -, hos⟩ := List.mem_flatMap.1 ho
    unfold occs at hos
    cases s with
    | «attribute» b =>
      have h0 : o = attrOcc env.checker none (.attribute b) b := List.mem_singleton.1 hos
      have : b = a := by rw [h0] at hor; exact SRef.attribute.inj hor
      rw [h0, this]; exact ⟨_, _, rfl⟩
    | span x =>
      rcases List.mem_append.1 hos with hos | hos
      · rcases List.mem_append.1 hos with hos | hos
        · exact hw (by intro _ h; cases h) hos
        · obtain ⟨y, -, hos⟩ := List.mem_flatMap.1 hos
          exact hw (by intro _ h; cases h) hos
      · obtain ⟨y, -, hos⟩ := List.mem_flatMap.1 hos
        exact hw (by intro _ h; cases h) hos
    | spanEvent x => exact hw (by intro _ h; cases h) hos
    | spanLink x => exact hw (by intro _ h; cases h) hos
    | resource x => exact hw (by intro _ h; cases h) hos
    | scope x => exact hw (by intro _ h; cases h) hos
    | profile x => exact hw (by intro _ h; cases h) hos
    | metric m =>
      rcases List.mem_append.1 hos with hos | hos
      · cases hpt : m.points with
        | none => rw [hpt] at hos; exact absurd hos (by simp [pointsOccs])
        | some pts =>
          rw [hpt] at hos
          cases pts with
          | number l => exact hp (by intro _ _ h; cases h) hos
          | histogram l => exact hp (by intro _ _ h; cases h) hos
          | exponential l => exact hp (by intro _ _ h; cases h) hos
      · rw [List.mem_singleton.1 hos] at hor; exact nomatch hor
    | log l =>
      rcases List.mem_append.1 hos with hos | hos
      · obtain ⟨b, -, rfl⟩ := List.mem_map.1 hos
        have : b = a := SRef.attribute.inj hor
        rw [this]; exact ⟨_, _, rfl⟩
      · rw [List.mem_singleton.1 hos] at hor; exact nomatch hor
  obtain ⟨g, sg, rfl⟩ := hoa
  rw [hadv] at hgs
  obtain ⟨d, s', t, n, r, e1, e2, e3, e4, e5, e6⟩ := advice_advisors hgs
  rw [hrego] at e5
  have hr' : r = [] := (Except.ok.inj e5).symm
  have hids := advice_ids e1 e2 e3 e4
  have hgs' : gs = d ++ (s' ++ (t ++ n)) := by rw [e6, hr']; simp
  have hplain : ∀ (l : List Finding) (x : String), (∀ f ∈ l, f.id ≠ "template_attribute") →
      (l.filterMap (reported env.modifier (.attribute a))).foldl (fun n f => (templateName f).getD n) x = x := by
    intro l
    induction l with
    | nil => intro x _; rfl
    | cons f l ih =>
      intro x hl
      have hrest := ih x fun f hf => hl f (List.mem_cons_of_mem _ hf)
      cases hrf : reported env.modifier (.attribute a) f with
      | none => simp only [List.filterMap_cons, hrf]; exact hrest
      | some f' =>
        obtain ⟨l', hl'⟩ := reported_id hrf
        have hne : f'.id ≠ "template_attribute" := by rw [hl']; exact hl f List.mem_cons_self
        have : templateName f' = none := by unfold templateName; rw [if_neg hne]
        simp only [List.filterMap_cons, hrf, List.foldl_cons, this, Option.getD_none]
        exact hrest
  unfold coveredName
  rw [ha, hfs, hgs']
  show ((attributeFirst sg a (env.checker.findAny a.name) ++ (d ++ (s' ++ (t ++ n))) ++ []).filterMap
    (reported env.modifier (.attribute a))).foldl _ a.name = _
  rw [List.append_nil, List.filterMap_append, List.foldl_append, hplain _ _ hids]
  cases hd : env.checker.findAny a.name with
  | none =>
    dsimp only
    refine hplain _ _ ?_
    intro f hf
    rw [List.mem_singleton.1 hf]; simp [mkFinding]
  | some x =>
    dsimp only
    by_cases ht : x.typ.isTemplate = true
    · rw [if_pos ht]
      unfold attributeFirst
      dsimp only
      rw [if_pos ht]
      obtain ⟨l, hl⟩ := hkeep (.attribute a) (mkFinding sg "template_attribute" .information
        ("Attribute '" ++ a.name ++ "' is a template") [("attribute_key", .text a.name), ("template_name", .text x.name)]) rfl
      simp only [List.filterMap_cons, hl, List.filterMap_nil, List.foldl_cons, List.foldl_nil]
      rfl
    · rw [if_neg ht]
      unfold attributeFirst
      dsimp only
      rw [if_neg ht]
      rfl

example : KeepsTemplates none := fun _ f _ => ⟨f.level, rfl⟩

/-! ### Attributes that are not checked for presence -/

/-- C62. Template attributes of an entity are never found in a resource: a resource with the attribute `k8s.pod.label.app` does
not satisfy an entity that requires the template `k8s.pod.label`. -/
theorem entity_template_refuted :
    ¬ ∀ (c : Checker) (signal : Sample) (attrs : List SAttr) (k : EntityKey) (e : Entity), c.lookupEntity k = some e →
      (∀ d ∈ e.attrs, Present d attrs) → checkAssocs c attrs signal [.ref k] = [] := by
  intro h
  have := h (Checker.new (.v1 [{ type := .entity, name := some "pod", signal := { kind := .group, attrs := [
      { name := "k8s.pod.label", typ := .template .string, req := .required }] } }]))
    (.log { eventName := "e" }) [{ name := "k8s.pod.label.app" }] (.name "pod") _ rfl
    (by decide)
  revert this
  decide

/-- C62. Without templates, an entity whose attributes are all present leads to no finding, and one of which an attribute is not
present to one. -/
theorem entity_template_partial (c : Checker) (signal : Sample) (attrs : List SAttr) (k : EntityKey) (e : Entity)
    (hk : c.lookupEntity k = some e) (ht : ∀ d ∈ e.attrs, d.typ.isTemplate = false) :
    (∀ d ∈ e.attrs, Present d attrs) ↔ checkAssocs c attrs signal [.ref k] = [] := by
  rw [List.eq_nil_iff_forall_not_mem]
  have hc : ∀ f, f ∈ checkAssocs c attrs signal [.ref k] ↔ f ∈ checkEntity signal attrs e := by
    intro f; simp [checkAssocs, evalAssoc, hk]
  constructor
  · intro h f hf
    obtain ⟨d, hd, hn, -⟩ := mem_checkEntity.1 ((hc f).1 hf)
    obtain ⟨a, ha, h | ⟨h, -⟩⟩ := h d hd
    · exact hn a ha h
    · rw [ht d hd] at h; exact nomatch h
  · intro h d hd
    apply Classical.byContradiction
    intro hn
    refine h _ ((hc _).2 (mem_checkEntity.2 ⟨d, hd, ?_, rfl⟩))
    intro a ha hh
    exact hn ⟨a, ha, .inl hh⟩

example : ∃ e, twoEntities.lookupEntity (.name "service") = some e ∧ (∀ d ∈ e.attrs, d.typ.isTemplate = false) :=
  ⟨_, rfl, by decide⟩

/-- All data points of a metric, with the kind. -/
def AnyPoint (m : Metric) (s : SRef) (p : Point) : Prop :=
  IsPoint m s p ∨ ∃ l, m.points = some (.exponential l) ∧ p ∈ l ∧ s = .exponentialPoint p

/-- C63. Required attributes are not looked for in the data points of exponential histograms. -/
theorem exponential_missing_refuted :
    ¬ ∀ (r : Registry) (samples : List Sample) (st : St) (m : Metric) (g : Signal) (s : SRef) (p : Point),
      liveCheck (plainEnv r none) false samples = .ok st → .metric m ∈ attachAll none samples →
      (Checker.new r).findMetric m.name = some g → Checked .metric g → AnyPoint m s p →
      (∃ d ∈ g.attrs, d.req = .required ∧ ¬ Present d p.attrs) →
      ∃ f ∈ st.findings, f.level = .violation := by
  intro h
  have := h small [.metric { name := "m", instrument := .supported "gauge", unit := "s", points := some (.exponential [{}]) }]
    _ { name := "m", instrument := .supported "gauge", unit := "s", points := some (.exponential [{}]) } _
    (.exponentialPoint {}) {} rfl (by decide) rfl (.inl rfl) (.inr ⟨_, rfl, by decide, rfl⟩) (by decide)
  revert this
  decide

/-- C63. Nothing that is in a span is ever compared to the attributes a span should have: the findings about a span, its events
and links do not depend on any definition of a span, event or metric, and none says that an attribute is not present. -/
theorem span_missing_refuted {rego : Advisor} (hrego : ∀ a b c d, rego a b c d = .ok []) {c : Checker}
    {noStats : Bool} {spans : List Span} {st : St}
    (h : liveCheck { checker := c, advisors := advisors rego, modifier := none } noStats (spans.map .span) = .ok st) :
    ∀ e ∈ st.entries, (∀ a, e.ref ≠ .attribute a) → e.result.all = [] := by
  intro e he hna
  obtain ⟨o, ho, hk, hr, fs, ⟨gs, hgs, hfs⟩, ha⟩ := (run_report h).mem_right he
  obtain ⟨s, hs, hos⟩ := List.mem_flatMap.1 ho
  have hspan : ∃ x, s = .span x := by
    have : ∀ (l : List Span) cur, s ∈ attachAll cur (l.map Sample.span) → ∃ x, s = .span x := by
      intro l
      induction l with
      | nil => intro cur hs; exact absurd hs (by simp [attachAll])
      | cons y l ih =>
        intro cur hs
        rcases List.mem_cons.1 hs with hs | hs
        · exact ⟨_, hs⟩
        · exact ih _ hs
    exact this spans none hs
  obtain ⟨x, rfl⟩ := hspan
  have hw : ∀ {kind : String} {ref : SRef} {attrs : List SAttr} {sg : Sample},
      o ∈ withAttrs c kind ref attrs none sg → o = { kind := kind, ref := ref, signal := sg, group := none } := by
    intro kind ref attrs sg ho
    rcases List.mem_cons.1 ho with ho | ho
    · exact ho
    · obtain ⟨a, -, rfl⟩ := List.mem_map.1 ho
      exact absurd hr (hna a)
  have hfirst : o.first = [] ∧ o.last = [] ∧ o.group = none ∧
      ((∃ y, o.ref = .span y) ∨ (∃ y, o.ref = .spanEvent y) ∨ ∃ y, o.ref = .spanLink y) := by
    unfold occs at hos
    dsimp only at hos
    rcases List.mem_append.1 hos with hos | hos
    · rcases List.mem_append.1 hos with hos | hos
      · rw [hw hos]; exact ⟨rfl, rfl, rfl, .inl ⟨_, rfl⟩⟩
      · obtain ⟨y, -, hos⟩ := List.mem_flatMap.1 hos
        rw [hw hos]; exact ⟨rfl, rfl, rfl, .inr (.inl ⟨_, rfl⟩)⟩
    · obtain ⟨y, -, hos⟩ := List.mem_flatMap.1 hos
      rw [hw hos]; exact ⟨rfl, rfl, rfl, .inr (.inr ⟨_, rfl⟩)⟩
  obtain ⟨h1, h2, h3, h4⟩ := hfirst
  obtain ⟨d, s', t, n, r, e1, e2, e3, e4, e5, e6⟩ := advice_advisors hgs
  rw [hrego] at e5
  have hr' : r = [] := (Except.ok.inj e5).symm
  have hall : d = [] ∧ s' = [] ∧ t = [] ∧ n = [] := by
    rcases h4 with ⟨y, hy⟩ | ⟨y, hy⟩ | ⟨y, hy⟩ <;> rw [hy] at e1 e2 e3 e4 <;>
      exact ⟨(Except.ok.inj e1).symm, (Except.ok.inj e2).symm, (Except.ok.inj e3).symm, (Except.ok.inj e4).symm⟩
  obtain ⟨rfl, rfl, rfl, rfl⟩ := hall
  rw [ha, hfs, h1, h2, e6, hr']
  rfl

example : ∃ st, liveCheck (plainEnv small none) false ([{ name := "s", attrs := [{ name := "size" }] }].map Sample.span) = .ok st ∧
    st.entries.length = 2 := ⟨_, rfl, by decide⟩

/-! ### Definitions attributes are compared to -/

/-- C66. The type of an attribute in a metric is not compared to the metric's own definition of the attribute, but to the last
in the registry: a data point with a string is accepted although the metric says the attribute is an int. -/
theorem signal_definition_refuted :
    ¬ ∀ (r : Registry) (samples : List Sample) (st : St) (m : Metric) (g : Signal) (s : SRef) (p : Point) (a : SAttr)
        (d : AttrDef) (t : PType),
      liveCheck (plainEnv r none) false samples = .ok st → .metric m ∈ attachAll none samples →
      (Checker.new r).findMetric m.name = some g → Checked .metric g → IsPoint m s p → a ∈ p.attrs →
      d ∈ g.attrs → d.name = a.name → a.typ = some t → (∃ q, d.typ = .prim q ∧ t.isCompatible q = false) →
      ∃ f ∈ st.findings, f.id = "type_mismatch" := by
  intro h
  have := h small [.metric { name := "m", instrument := .supported "gauge", unit := "s", points := some (.number [
      { attrs := [{ name := "size", typ := some .string }] }]) }]
    _ { name := "m", instrument := .supported "gauge", unit := "s", points := some (.number [
      { attrs := [{ name := "size", typ := some .string }] }]) } _
    (.numberPoint { attrs := [{ name := "size", typ := some .string }] }) { attrs := [{ name := "size", typ := some .string }] }
    { name := "size", typ := some .string } { name := "size", typ := .prim .int, req := .required } .string
    rfl (by decide) rfl (.inl rfl) (.inl ⟨_, rfl, by decide, rfl⟩) (by decide) (by decide) rfl rfl ⟨_, rfl, rfl⟩
  revert this
  decide

/-- C66. If all definitions of an attribute in the registry are the same, it is compared to that. -/
theorem signal_definition_partial (r : Registry) (n : String) (d : AttrDef) (hd : d ∈ r.attrDefs) (hn : d.name = n)
    (ht : d.typ.isTemplate = false) (hall : ∀ d' ∈ r.attrDefs, d'.name = n → d' = d) :
    (Checker.new r).findAny n = some d := by
  have h := attribute_definition r n
  cases hf : (Checker.new r).findAttribute n with
  | some x =>
    obtain ⟨h1, -, h3, pre, post, h4, -⟩ := h.1 x hf
    rw [h1, hall x (by rw [h4]; simp) h3]
  | none =>
    rw [(new_parts r).1 n, List.getLast?_eq_none_iff, List.filter_eq_nil_iff] at hf
    exact absurd (by simp [hn, ht]) (hf d hd)

example : (Checker.new small).findAny "other" = some { name := "other", typ := .prim .string, req := .optIn } :=
  signal_definition_partial _ _ _ (by decide) rfl rfl (by decide)

/-- C66. A template is not only matched by names below it: `http.headers` is taken for an instance of `http.header`. -/
theorem template_boundary_refuted :
    ¬ ∀ (r : Registry) (n : String) (d : AttrDef), (Checker.new r).findTemplate n = some d →
      n = d.name ∨ (d.name ++ ".").toList <+: n.toList := by
  intro h
  have := h small "http.headers" _ rfl
  revert this
  decide

end Verif.LiveCheck
