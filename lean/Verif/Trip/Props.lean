import Verif.Trip.Spec
/-
C250–C252: the live check of telemetry against the registry inferred from it.
-/
namespace Verif.Trip
open Verif.Util Verif.Receiver.Ingest
open Verif.LiveCheck hiding Resource Metric Span Log Profile
open Verif.Infer (SpanKind Out Place Shuffled addSamples toSpec)
open Verif.Emit (NoViolation find_signal lastOf lastOf_eq stability_level enum_level)

/-! ### The two views of a request -/

/-- The same thing as a sample of the live check and of inference. -/
def Same : Sample → Infer.Sample → Prop
  | .resource r, .resource as => as = r.attrs
  | .span s, .span t => t.name = s.name ∧ t.attrs = s.attrs ∧ t.events = s.events
  | .metric m, .metric n => n.name = m.name ∧ n.instrument = m.instrument ∧ n.unit = m.unit ∧ n.points = m.points
  | .log l, .log k => k.eventName = l.eventName ∧ k.attrs = l.attrs
  | .profile _, .other => True
  | _, _ => False

theorem block_same {σ : Type} {f : Option LiveCheck.Resource → σ → Sample} {g : σ → Infer.Sample}
    (h : ∀ r m, Same (f r m) (g m)) (b : Block σ) :
    (∀ x ∈ blockTaken g b, ∃ s ∈ blockSamples f b, Same s x) ∧
    (∀ s ∈ blockSamples f b, (∃ x ∈ blockTaken g b, Same s x) ∨ ∃ c, s = .scope c) := by
  unfold blockTaken blockSamples resourceTaken
  refine ⟨fun x hx => ?_, fun s hs => ?_⟩
  · rcases List.mem_append.1 hx with hx | hx
    · obtain ⟨as, has, rfl⟩ := List.mem_map.1 hx
      refine ⟨.resource (resourceOf as), List.mem_append_left _ (List.mem_map.2 ⟨resourceOf as, ?_, rfl⟩), rfl⟩
      rw [Option.mem_toList] at has ⊢
      exact Option.mem_map_of_mem _ has
    · obtain ⟨sc, hsc, hx⟩ := List.mem_flatMap.1 hx
      obtain ⟨m, hm, rfl⟩ := List.mem_map.1 hx
      exact ⟨_, List.mem_append_right _ (List.mem_flatMap.2 ⟨sc, hsc, List.mem_append_right _ (List.mem_map.2 ⟨m, hm, rfl⟩)⟩), h _ _⟩
  · rcases List.mem_append.1 hs with hs | hs
    · obtain ⟨r, hr, rfl⟩ := List.mem_map.1 hs
      rw [Option.mem_toList] at hr
      obtain ⟨as, has, rfl⟩ := Option.map_eq_some_iff.1 hr
      refine .inl ⟨.resource (as.map attrOf), List.mem_append_left _ (List.mem_map.2 ⟨as, ?_, rfl⟩), rfl⟩
      rw [Option.mem_toList]; exact has
    · obtain ⟨sc, hsc, hs⟩ := List.mem_flatMap.1 hs
      rcases List.mem_append.1 hs with hs | hs
      · obtain ⟨c, -, rfl⟩ := List.mem_map.1 hs
        exact .inr ⟨c, rfl⟩
      · obtain ⟨m, hm, rfl⟩ := List.mem_map.1 hs
        exact .inl ⟨_, List.mem_append_right _ (List.mem_flatMap.2 ⟨sc, hsc, List.mem_map.2 ⟨m, hm, rfl⟩⟩), h _ _⟩

theorem blocks_same {σ : Type} {f : Option LiveCheck.Resource → σ → Sample} {g : σ → Infer.Sample}
    (h : ∀ r m, Same (f r m) (g m)) (l : List (Block σ)) :
    (∀ x ∈ l.flatMap (blockTaken g), ∃ s ∈ l.flatMap (blockSamples f), Same s x) ∧
    (∀ s ∈ l.flatMap (blockSamples f), (∃ x ∈ l.flatMap (blockTaken g), Same s x) ∨ ∃ c, s = .scope c) := by
  refine ⟨fun x hx => ?_, fun s hs => ?_⟩
  · obtain ⟨b, hb, hx⟩ := List.mem_flatMap.1 hx
    obtain ⟨s, hs, e⟩ := (block_same h b).1 x hx
    exact ⟨s, List.mem_flatMap.2 ⟨b, hb, hs⟩, e⟩
  · obtain ⟨b, hb, hs⟩ := List.mem_flatMap.1 hs
    rcases (block_same h b).2 s hs with ⟨x, hx, e⟩ | hc
    · exact .inl ⟨x, List.mem_flatMap.2 ⟨b, hb, hx⟩, e⟩
    · exact .inr hc

theorem taken_same (kind : SpanMsg → SpanKind) (rs : List Request) :
    (∀ x ∈ rs.flatMap (taken kind), ∃ s ∈ sent rs, Same s x) ∧
    (∀ s ∈ sent rs, (∃ x ∈ rs.flatMap (taken kind), Same s x) ∨ ∃ c, s = .scope c) := by
  have hone : ∀ r : Request, (∀ x ∈ taken kind r, ∃ s ∈ ingest r, Same s x) ∧
      (∀ s ∈ ingest r, (∃ x ∈ taken kind r, Same s x) ∨ ∃ c, s = .scope c) := by
    intro r
    cases r with
    | logs l => exact blocks_same (f := logSample) (g := fun m => .log (logOf m)) (fun _ _ => ⟨rfl, rfl⟩) l
    | metrics l => exact blocks_same (f := metricSample) (g := fun m => .metric (metricOf m)) (fun _ _ => ⟨rfl, rfl, rfl, rfl⟩) l
    | traces l => exact blocks_same (f := spanSample) (g := spanTaken kind) (fun _ _ => ⟨rfl, rfl, rfl⟩) l
    | profiles d l => exact blocks_same (f := profileSample d) (g := fun _ => .other) (fun _ _ => trivial) l
  unfold sent
  refine ⟨fun x hx => ?_, fun s hs => ?_⟩
  · obtain ⟨r, hr, hx⟩ := List.mem_flatMap.1 hx
    obtain ⟨s, hs, e⟩ := (hone r).1 x hx
    exact ⟨s, List.mem_flatMap.2 ⟨r, hr, hs⟩, e⟩
  · obtain ⟨r, hr, hs⟩ := List.mem_flatMap.1 hs
    rcases (hone r).2 s hs with ⟨x, hx, e⟩ | hc
    · exact .inl ⟨x, List.mem_flatMap.2 ⟨r, hr, hx⟩, e⟩
    · exact .inr hc

/-! ### What is learned -/

/-- The attributes that are learned from a sample of inference. -/
def learnedI : Infer.Sample → List SAttr
  | .resource as => as
  | .span s => s.attrs ++ s.events.flatMap (·.attrs)
  | .metric m => match m.instrument with
    | .supported _ => Infer.measured m
    | .unsupported _ => []
  | .log l => if l.eventName = "" then [] else l.attrs
  | .attribute a => [a]
  | .other => []

theorem measured_points (m n : LiveCheck.Metric) (h : n.points = m.points) : Infer.measured n = onPoints m := by
  unfold Infer.measured onPoints
  rw [h]
  cases m.points with
  | none => rfl
  | some p => cases p <;> simp [Infer.allPoints]

theorem learned_same {s : Sample} {x : Infer.Sample} (h : Same s x) : learnedI x = learned s := by
  cases s <;> cases x <;> simp only [Same] at h
  · obtain ⟨-, h1, h2⟩ := h; simp [learnedI, learned, h1, h2]
  · subst h; rfl
  · obtain ⟨-, h1, -, h2⟩ := h
    simp only [learnedI, learned]
    rw [h1, measured_points _ _ h2]
    rfl
  · obtain ⟨h1, h2⟩ := h; simp [learnedI, learned, h1, h2]
  · rfl

theorem place_iff (l : List Infer.Sample) (b : SAttr) :
    (∃ i samples, Place l i samples ∧ b ∈ samples) ↔ ∃ x ∈ l, b ∈ learnedI x := by
  constructor
  · rintro ⟨i, samples, hp, hb⟩
    cases hp with
    | resource =>
      obtain ⟨x, hx, hb⟩ := List.mem_flatMap.1 hb
      refine ⟨x, hx, ?_⟩
      cases x <;> first | exact hb | cases hb
    | span n =>
      obtain ⟨s, hs, hb⟩ := List.mem_flatMap.1 hb
      exact ⟨_, (Infer.mem_spansOf l s).1 (List.mem_filter.1 hs).1, List.mem_append_left _ hb⟩
    | spanEvent n e =>
      obtain ⟨as, h1, h2⟩ := (Infer.mem_mvals_flatten _ _ _).1 hb
      obtain ⟨s, ev, g1, -, g3, -, rfl⟩ := (Infer.mem_eventsOf_named l n e as).1 h1
      exact ⟨_, g1, List.mem_append_right _ (List.mem_flatMap.2 ⟨ev, g3, h2⟩)⟩
    | metric n =>
      obtain ⟨⟨i, m⟩, hm, hb⟩ := List.mem_flatMap.1 hb
      obtain ⟨h1, h2⟩ := (Infer.mem_metricsOf l i m).1 (List.mem_filter.1 hm).1
      refine ⟨_, h1, ?_⟩
      simp only [learnedI, h2]; exact hb
    | log e =>
      obtain ⟨as, h1, h2⟩ := (Infer.mem_mvals_flatten _ _ _).1 hb
      obtain ⟨r, g1, g2, g3, rfl⟩ := (Infer.mem_logsOf l e as).1 h1
      refine ⟨_, g1, ?_⟩
      simp only [learnedI, g2, if_neg g3]; exact h2
  · rintro ⟨x, hx, hb⟩
    cases x with
    | resource as => exact ⟨0, _, .resource, List.mem_flatMap.2 ⟨_, hx, hb⟩⟩
    | «attribute» a => exact ⟨0, _, .resource, List.mem_flatMap.2 ⟨_, hx, hb⟩⟩
    | span s =>
      rcases List.mem_append.1 hb with hb | hb
      · exact ⟨1, _, .span s.name, List.mem_flatMap.2 ⟨s, List.mem_filter.2 ⟨(Infer.mem_spansOf l s).2 hx, by simp⟩, hb⟩⟩
      · obtain ⟨ev, he, hb⟩ := List.mem_flatMap.1 hb
        exact ⟨1, _, .spanEvent s.name ev.name, (Infer.mem_mvals_flatten _ _ _).2
          ⟨ev.attrs, (Infer.mem_eventsOf_named l s.name ev.name ev.attrs).2 ⟨s, ev, hx, rfl, he, rfl, rfl⟩, hb⟩⟩
    | metric m =>
      cases hi : m.instrument with
      | unsupported n => simp only [learnedI, hi] at hb; cases hb
      | supported i =>
        simp only [learnedI, hi] at hb
        exact ⟨2, _, .metric m.name, List.mem_flatMap.2 ⟨(i, m), List.mem_filter.2 ⟨(Infer.mem_metricsOf l i m).2 ⟨hx, hi⟩, by simp⟩, hb⟩⟩
    | log r =>
      by_cases hn : r.eventName = ""
      · simp only [learnedI, if_pos hn] at hb; cases hb
      · simp only [learnedI, if_neg hn] at hb
        exact ⟨3, _, .log r.eventName, (Infer.mem_mvals_flatten _ _ _).2
          ⟨r.attrs, (Infer.mem_logsOf l _ _).2 ⟨r, hx, rfl, hn, rfl⟩, hb⟩⟩
    | other => cases hb

theorem learned_iff (kind : SpanMsg → SpanKind) (rs : List Request) (b : SAttr) :
    (∃ i samples, Place (rs.flatMap (taken kind)) i samples ∧ b ∈ samples) ↔ ∃ s ∈ sent rs, b ∈ learned s := by
  rw [place_iff]
  constructor
  · rintro ⟨x, hx, hb⟩
    obtain ⟨s, hs, e⟩ := (taken_same kind rs).1 x hx
    exact ⟨s, hs, learned_same e ▸ hb⟩
  · rintro ⟨s, hs, hb⟩
    rcases (taken_same kind rs).2 s hs with ⟨x, hx, e⟩ | ⟨c, rfl⟩
    · exact ⟨x, hx, (learned_same e).symm ▸ hb⟩
    · cases hb

/-- What an inferred registry says, in terms of the telemetry. -/
structure Says (ss : List Sample) (r : Registry) : Prop where
  /-- Attributes: what is learned is there, -/
  attrs : ∀ s ∈ ss, ∀ b ∈ learned s, ∃ x ∈ r.attrDefs, x.name = b.name
  /-- and is what is there; the type is that of one of the values. -/
  attrsFrom : ∀ x ∈ r.attrDefs, x.deprecated = none ∧ x.stability = some "development" ∧ ∃ s ∈ ss, ∃ b ∈ learned s, b.name = x.name ∧
    x.typ = .prim (b.typ.getD .string)
  metrics : ∀ m i, .metric m ∈ ss → m.instrument = .supported i → ∃ q ∈ r.metricDefs, q.1 = m.name
  metricsFrom : ∀ q ∈ r.metricDefs, SignalFrom .metric q.2 ∧ ∃ m i, .metric m ∈ ss ∧ m.instrument = .supported i ∧
    m.name = q.1 ∧ q.2.instrument = some i ∧ q.2.unit = some m.unit
  events : ∀ l, .log l ∈ ss → l.eventName ≠ "" → ∃ q ∈ r.eventDefs, q.1 = l.eventName
  eventsFrom : ∀ q ∈ r.eventDefs, SignalFrom .event q.2 ∧ ((∃ l, .log l ∈ ss ∧ l.eventName = q.1 ∧ q.1 ≠ "") ∨
    ∃ s ev, .span s ∈ ss ∧ ev ∈ s.events ∧ ev.name = q.1)

theorem same_metric {s : Sample} {n : LiveCheck.Metric} (h : Same s (.metric n)) :
    ∃ m, s = .metric m ∧ n.name = m.name ∧ n.instrument = m.instrument ∧ n.unit = m.unit ∧ n.points = m.points := by
  cases s <;> simp only [Same] at h
  exact ⟨_, rfl, h⟩

theorem same_metric' {m : LiveCheck.Metric} {x : Infer.Sample} (h : Same (.metric m) x) :
    ∃ n, x = .metric n ∧ n.name = m.name ∧ n.instrument = m.instrument ∧ n.unit = m.unit ∧ n.points = m.points := by
  cases x <;> simp only [Same] at h
  exact ⟨_, rfl, h⟩

theorem says {rs : List Request} {r : Registry} (h : InferredFrom rs r) : Says (sent rs) r := by
  obtain ⟨toF, kind, st, hs, hl⟩ := h
  have ha := Infer.attributes_listed toF _ hs
  have hm := Infer.metrics_listed toF _ hs
  have he := Infer.events_listed toF _ hs
  obtain ⟨t1, t2⟩ := taken_same kind rs
  constructor
  · intro s hss b hb
    obtain ⟨i, samples, hp, hbs⟩ := (learned_iff kind rs b).2 ⟨s, hss, hb⟩
    obtain ⟨d, hd, hk⟩ := List.mem_map.1 ((ha.1.2 b.name).2 ⟨i, samples, hp, b, hbs, rfl⟩)
    obtain ⟨x, hx, hn⟩ := hl.attrs d hd
    exact ⟨x, hx, hn.trans hk⟩
  · intro x hx
    obtain ⟨hdep, hstab, d, hd, hk, ht⟩ := hl.attrsFrom x hx
    refine ⟨hdep, hstab, ?_⟩
    obtain ⟨i, samples, hp, ⟨b, rest, hbr, hbt, -⟩, -⟩ := ha.2 d hd
    have hbm : b ∈ Infer.named d.key samples := by rw [hbr]; simp
    obtain ⟨hb1, hb2⟩ := List.mem_filter.1 hbm
    obtain ⟨s, hss, hb⟩ := (learned_iff kind rs b).1 ⟨i, samples, hp, hb1⟩
    exact ⟨s, hss, b, hb, (of_decide_eq_true hb2).trans hk, by rw [ht, hbt]⟩
  · intro m i hms hmi
    rcases t2 _ hms with ⟨x, hx, e⟩ | ⟨c, hc⟩
    · obtain ⟨n, rfl, e1, e2, e3, e4⟩ := same_metric' e
      obtain ⟨y, hy, hyn⟩ := List.mem_map.1 ((hm.1.2 m.name).2 ⟨n, i, hx, e2.trans hmi, e1⟩)
      obtain ⟨q, hq, hqn⟩ := hl.metrics y hy
      exact ⟨q, hq, hqn.trans hyn⟩
    · exact nomatch hc
  · intro q hq
    obtain ⟨hsf, y, hy, hyn, hyi, hyu⟩ := hl.metricsFrom q hq
    refine ⟨hsf, ?_⟩
    obtain ⟨i, n, rest, hnr, hni, hnu⟩ := (hm.2 y hy).1
    have hnm : (i, n) ∈ Infer.metricsNamed y.name (rs.flatMap (taken kind)) := by rw [hnr]; simp
    obtain ⟨h1, h2⟩ := List.mem_filter.1 hnm
    obtain ⟨h3, h4⟩ := (Infer.mem_metricsOf _ i n).1 h1
    obtain ⟨s, hss, e⟩ := t1 _ h3
    obtain ⟨m, rfl, e1, e2, e3, e4⟩ := same_metric e
    exact ⟨m, i, hss, e2.symm.trans h4, e1.symm.trans ((of_decide_eq_true h2).trans hyn), by rw [hyi, hni],
      by rw [hyu, hnu, e3]⟩
  · intro l hls hne
    rcases t2 _ hls with ⟨x, hx, e⟩ | ⟨c, hc⟩
    · cases x <;> simp only [Same] at e
      obtain ⟨e1, e2⟩ := e
      obtain ⟨y, hy, hyn⟩ := List.mem_map.1 ((he.1.2 l.eventName).2 ⟨_, .inl ⟨_, hx, e1, hne, rfl⟩⟩)
      obtain ⟨q, hq, hqn⟩ := hl.events y hy
      exact ⟨q, hq, hqn.trans hyn⟩
    · exact nomatch hc
  · intro q hq
    obtain ⟨hsf, y, hy, hyn⟩ := hl.eventsFrom q hq
    refine ⟨hsf, ?_⟩
    obtain ⟨as, ⟨k, hk, h1, h2, -⟩ | ⟨sp, ev, h1, h2, h3, -⟩⟩ := (he.1.2 y.name).1 (List.mem_map.2 ⟨y, hy, rfl⟩)
    · obtain ⟨s, hss, e⟩ := t1 _ hk
      cases s <;> simp only [Same] at e
      exact .inl ⟨_, hss, e.1.symm.trans (h1.trans hyn), hyn ▸ h2⟩
    · obtain ⟨s, hss, e⟩ := t1 _ h1
      cases s <;> simp only [Same] at e
      exact .inr ⟨_, ev, hss, e.2.2 ▸ h2, h3.trans hyn⟩

/-- No attribute is a template. -/
theorem Says.plain {ss : List Sample} {r : Registry} (h : Says ss r) : ∀ x ∈ r.attrDefs, x.typ.isTemplate = false := by
  intro x hx
  obtain ⟨-, -, s, -, b, -, -, ht⟩ := h.attrsFrom x hx
  rw [ht]; rfl

/-- The definition an attribute is compared to. -/
theorem Says.find {ss : List Sample} {r : Registry} (h : Says ss r) (n : String) :
    (∀ d, (Checker.new r).findAny n = some d → d ∈ r.attrDefs ∧ d.name = n) ∧
    ((Checker.new r).findAny n = none → ∀ s ∈ ss, ∀ b ∈ learned s, b.name ≠ n) := by
  have hno : (Checker.new r).findTemplate n = none := by
    rw [(longest_template r n).1]
    intro d hd ht
    rw [h.plain d hd] at ht; exact nomatch ht
  have hfa : (Checker.new r).findAny n = (Checker.new r).findAttribute n := by
    unfold Checker.findAny; rw [hno]; cases (Checker.new r).findAttribute n <;> rfl
  rw [hfa, (new_parts r).1]
  constructor
  · intro d hd
    obtain ⟨h1, h2⟩ := List.mem_filter.1 (List.mem_of_getLast? hd)
    simp only [Bool.and_eq_true, decide_eq_true_eq] at h2
    exact ⟨h1, h2.2⟩
  · intro hd s hs b hb hbn
    obtain ⟨x, hx, hxn⟩ := h.attrs s hs b hb
    rw [List.getLast?_eq_none_iff, List.filter_eq_nil_iff] at hd
    exact hd x hx (by rw [h.plain x hx]; simp [hxn, hbn])

theorem mem_lastOf {α : Type} {n : String} {l : List (String × α)} {g : α} (h : lastOf n l = some g) : (n, g) ∈ l := by
  unfold lastOf at h
  obtain ⟨q, hq, rfl⟩ := Option.map_eq_some_iff.1 h
  obtain ⟨h1, h2⟩ := List.mem_filter.1 (List.mem_of_getLast? hq)
  have : q.1 = n := of_decide_eq_true h2
  rw [← this]; exact h1

theorem lastOf_none {α : Type} {n : String} {l : List (String × α)} (h : lastOf n l = none) : ∀ q ∈ l, q.1 ≠ n := by
  unfold lastOf at h
  rw [Option.map_eq_none_iff, List.getLast?_eq_none_iff, List.filter_eq_nil_iff] at h
  intro q hq e
  exact h q hq (by simp [e])

/-! ### What the live check looks at -/

theorem mem_attachAll {ss : List Sample} {cur : Option LiveCheck.Resource} :
    (∀ s ∈ attachAll cur ss, ∃ s0 ∈ ss, ∃ c, s = attach c s0) ∧ (∀ s0 ∈ ss, ∃ c, attach c s0 ∈ attachAll cur ss) := by
  induction ss generalizing cur with
  | nil => exact ⟨by simp [attachAll], by simp⟩
  | cons x l ih =>
    refine ⟨fun s hs => ?_, fun s hs => ?_⟩
    · rcases List.mem_cons.1 hs with rfl | hs
      · exact ⟨x, by simp, _, rfl⟩
      · obtain ⟨s0, h1, h2⟩ := ih.1 s hs
        exact ⟨s0, List.mem_cons_of_mem _ h1, h2⟩
    · rcases List.mem_cons.1 hs with rfl | hs
      · exact ⟨_, List.mem_cons_self⟩
      · obtain ⟨c, hc⟩ := (ih (cur := nextResource cur x)).2 s hs
        exact ⟨c, List.mem_cons_of_mem _ hc⟩

theorem allAttrs_attach (c : Option LiveCheck.Resource) (s : Sample) : allAttrs (attach c s) = allAttrs s := by cases s <;> rfl

/-- Where an attribute is looked at. -/
theorem attr_looked (env : Env) (s : Sample) {a : SAttr} (ha : a ∈ allAttrs s) :
    ∃ g sg, attrOcc env.checker g sg a ∈ occs env s := by
  have hw : ∀ {kind ref attrs g sg}, a ∈ attrs → attrOcc env.checker g sg a ∈ withAttrs env.checker kind ref attrs g sg :=
    fun h => List.mem_cons_of_mem _ (List.mem_map.2 ⟨a, h, rfl⟩)
  cases s with
  | «attribute» x =>
    rw [List.mem_singleton.1 ha]
    exact ⟨_, _, List.mem_singleton.2 rfl⟩
  | span x =>
    simp only [allAttrs, List.mem_append] at ha
    rcases ha with (ha | ha) | ha
    · exact ⟨_, _, List.mem_append_left _ (List.mem_append_left _ (hw ha))⟩
    · obtain ⟨e, he, ha⟩ := List.mem_flatMap.1 ha
      exact ⟨_, _, List.mem_append_left _ (List.mem_append_right _ (List.mem_flatMap.2 ⟨e, he, hw ha⟩))⟩
    · obtain ⟨e, he, ha⟩ := List.mem_flatMap.1 ha
      exact ⟨_, _, List.mem_append_right _ (List.mem_flatMap.2 ⟨e, he, hw ha⟩)⟩
  | spanEvent x => exact ⟨_, _, hw ha⟩
  | spanLink x => exact ⟨_, _, hw ha⟩
  | resource x => exact ⟨_, _, hw ha⟩
  | scope x => exact ⟨_, _, hw ha⟩
  | profile x => exact ⟨_, _, hw ha⟩
  | log x => exact ⟨_, _, List.mem_append_left _ (List.mem_map.2 ⟨a, ha, rfl⟩)⟩
  | metric m =>
    have hp : ∀ (mk : Point → SRef) (l : List Point), a ∈ l.flatMap (·.attrs) ++ l.flatMap (fun p => p.exemplars.flatMap (·.attrs)) →
        attrOcc env.checker (env.checker.findMetric m.name) (.metric m) a ∈
          l.flatMap (pointOccs env.checker mk (env.checker.findMetric m.name) (.metric m)) := by
      intro mk l h
      rcases List.mem_append.1 h with h | h
      · obtain ⟨p, hp, h⟩ := List.mem_flatMap.1 h
        exact List.mem_flatMap.2 ⟨p, hp, List.mem_append_left _ (hw h)⟩
      · obtain ⟨p, hp, h⟩ := List.mem_flatMap.1 h
        obtain ⟨e, he, h⟩ := List.mem_flatMap.1 h
        exact List.mem_flatMap.2 ⟨p, hp, List.mem_append_right _ (List.mem_flatMap.2 ⟨e, he, hw h⟩)⟩
    refine ⟨env.checker.findMetric m.name, .metric m, List.mem_append_left _ ?_⟩
    simp only [allAttrs, onPoints, onExemplars] at ha
    cases hpt : m.points with
    | none => rw [hpt] at ha; cases ha
    | some ps => rw [hpt] at ha; cases ps <;> exact hp _ _ ha

/-- A thing that is neither attribute, metric nor log. -/
def Minor : SRef → Prop
  | .attribute _ | .metric _ | .log _ => False
  | _ => True

/-- What a thing that is looked at is: an attribute, a metric, a log, or something else. -/
def LookedAs (env : Env) (s : Sample) (o : Occ) : Prop :=
    (∃ a ∈ allAttrs s, ∃ g sg, o = attrOcc env.checker g sg a) ∨
    (∃ m, s = .metric m ∧ o = { kind := "metric", ref := .metric m, signal := s, group := env.checker.findMetric m.name
                                first := if (env.checker.findMetric m.name).isNone then
                                  [mkFinding s "missing_metric" .violation "Metric does not exist in the registry." []] else []
                                last := assocFindings env .metric s (env.checker.findMetric m.name) }) ∨
    (∃ l, s = .log l ∧ o = { kind := "log", ref := .log l, signal := s, group := eventOf env.checker l
                             first := if l.eventName ≠ "" ∧ (eventOf env.checker l).isNone then
          [mkFinding s "missing_event" .violation ("Event '" ++ l.eventName ++ "' does not exist in the registry.") []]
        else []
                             last := assocFindings env .event s (eventOf env.checker l) }) ∨
    (Minor o.ref ∧ o.first = [] ∧ o.last = [] ∧ (o.group = none ∨ ∃ m, s = .metric m ∧ o.group = env.checker.findMetric m.name))

theorem looked {env : Env} {s : Sample} {o : Occ} (ho : o ∈ occs env s) : LookedAs env s o := by
  have hw : ∀ {kind ref attrs g}, Minor ref → (∀ a ∈ attrs, a ∈ allAttrs s) →
      (g = none ∨ ∃ m, s = .metric m ∧ g = env.checker.findMetric m.name) →
      o ∈ withAttrs env.checker kind ref attrs g s → (∃ a ∈ allAttrs s, ∃ g sg, o = attrOcc env.checker g sg a) ∨
        (Minor o.ref ∧ o.first = [] ∧ o.last = [] ∧ (o.group = none ∨ ∃ m, s = .metric m ∧ o.group = env.checker.findMetric m.name)) := by
    intro kind ref attrs g hmin hsub hg h
    rcases List.mem_cons.1 h with rfl | h
    · exact .inr ⟨hmin, rfl, rfl, hg⟩
    · obtain ⟨a, ha, rfl⟩ := List.mem_map.1 h
      exact .inl ⟨a, hsub a ha, _, _, rfl⟩
  have hcomb : ((∃ a ∈ allAttrs s, ∃ g sg, o = attrOcc env.checker g sg a) ∨
        (Minor o.ref ∧ o.first = [] ∧ o.last = [] ∧ (o.group = none ∨ ∃ m, s = .metric m ∧ o.group = env.checker.findMetric m.name))) → LookedAs env s o :=
    fun h => h.elim (fun h => Or.inl h) (fun h => Or.inr (Or.inr (Or.inr h)))
  cases s with
  | «attribute» x => exact .inl ⟨x, List.mem_singleton.2 rfl, _, _, List.mem_singleton.1 ho⟩
  | spanEvent x => exact hcomb (hw (by exact True.intro) (fun _ h => h) (.inl rfl) ho)
  | spanLink x => exact hcomb (hw (by exact True.intro) (fun _ h => h) (.inl rfl) ho)
  | resource x => exact hcomb (hw (by exact True.intro) (fun _ h => h) (.inl rfl) ho)
  | scope x => exact hcomb (hw (by exact True.intro) (fun _ h => h) (.inl rfl) ho)
  | profile x => exact hcomb (hw (by exact True.intro) (fun _ h => h) (.inl rfl) ho)
  | span x =>
    simp only [occs, List.mem_append, List.mem_flatMap] at ho
    rcases ho with (ho | ⟨e, he, ho⟩) | ⟨e, he, ho⟩
    · exact hcomb (hw (by exact True.intro) (fun a h => by simp [allAttrs, h]) (.inl rfl) ho)
    · exact hcomb (hw (by exact True.intro) (fun a h => by
        simp only [allAttrs, List.mem_append, List.mem_flatMap]; exact .inl (.inr ⟨e, he, h⟩)) (.inl rfl) ho)
    · exact hcomb (hw (by exact True.intro) (fun a h => by
        simp only [allAttrs, List.mem_append, List.mem_flatMap]; exact .inr ⟨e, he, h⟩) (.inl rfl) ho)
  | log x =>
    rcases List.mem_append.1 ho with ho | ho
    · obtain ⟨a, ha, rfl⟩ := List.mem_map.1 ho
      exact .inl ⟨a, ha, _, _, rfl⟩
    · exact .inr (.inr (.inl ⟨x, rfl, List.mem_singleton.1 ho⟩))
  | metric m =>
    rcases List.mem_append.1 ho with ho | ho
    · have hp : ∀ (mk : Point → SRef) (l : List Point), (∀ p, Minor (mk p)) →
          (∀ p ∈ l, (∀ a ∈ p.attrs, a ∈ allAttrs (.metric m)) ∧ ∀ e ∈ p.exemplars, ∀ a ∈ e.attrs, a ∈ allAttrs (.metric m)) →
          o ∈ l.flatMap (pointOccs env.checker mk (env.checker.findMetric m.name) (.metric m)) → LookedAs env (.metric m) o := by
        intro mk l hmin hsub h
        obtain ⟨p, hp, h⟩ := List.mem_flatMap.1 h
        rcases List.mem_append.1 h with h | h
        · exact hcomb (hw (hmin p) (hsub p hp).1 (.inr ⟨m, rfl, rfl⟩) h)
        · obtain ⟨e, he, h⟩ := List.mem_flatMap.1 h
          exact hcomb (hw (by exact True.intro) ((hsub p hp).2 e he) (.inr ⟨m, rfl, rfl⟩) h)
      cases hpt : m.points with
      | none => rw [hpt] at ho; cases ho
      | some ps =>
        rw [hpt] at ho
        cases ps <;> refine hp _ _ (fun _ => by exact True.intro) ?_ ho <;> intro p hpl <;> refine ⟨fun a ha => ?_, fun e he a ha => ?_⟩ <;>
          simp only [allAttrs, onPoints, onExemplars, hpt, List.mem_append, List.mem_flatMap] <;>
          first | exact .inl ⟨p, hpl, ha⟩ | exact .inr ⟨p, hpl, e, he, ha⟩
    · exact .inr (.inl ⟨m, rfl, List.mem_singleton.1 ho⟩)

/-! ### C250 -/

theorem quiet {env : Env} {rego : Advisor} (hadv : env.advisors = advisors rego) (hr : NoViolation rego) {o : Occ}
    {fs : List Finding} (hf : Found env o fs) (h1 : ∀ f ∈ o.first, f.level ≠ .violation)
    (h2 : ∀ f ∈ o.last, f.level ≠ .violation)
    (hd : ∀ l, deprecatedAdvisor o.ref o.signal o.attr o.group = .ok l → l = [])
    (ht : ∀ l, typeAdvisor o.ref o.signal o.attr o.group = .ok l → ∀ f ∈ l, f.level ≠ .violation) :
    ∀ f ∈ fs, f.level ≠ .violation := by
  obtain ⟨gs, hgs, rfl⟩ := hf
  rw [hadv] at hgs
  obtain ⟨f1, f2, f3, f4, f5, e1, e2, e3, e4, e5, rfl⟩ := advice_advisors hgs
  rw [hd _ e1]
  intro f hf
  simp only [List.mem_append, List.nil_append] at hf
  rcases hf with (hf | hf | hf | hf | hf) | hf
  · exact h1 f hf
  · exact stability_level e2 f hf
  · exact ht _ e3 f hf
  · exact enum_level e4 f hf
  · exact hr _ _ _ _ _ e5 f hf
  · exact h2 f hf

theorem missing_level {defs : List AttrDef} (h : ∀ d ∈ defs, d.req ≠ .required) (attrs : List SAttr) (sg : Sample) :
    ∀ f ∈ checkAttributes defs attrs sg, f.level ≠ .violation := by
  intro f hf
  obtain ⟨d, hd, rfl⟩ := List.mem_map.1 hf
  have := h d (List.mem_filter.1 hd).1
  show (missingInfo d.req).2.1 ≠ .violation
  cases hq : d.req <;> simp_all [missingInfo]

theorem attributeFindings_level {k : SigKind} {g : Option Signal} (h : ∀ x, g = some x → ∀ d ∈ x.attrs, d.req ≠ .required)
    (attrs : List SAttr) (sg : Sample) : ∀ f ∈ attributeFindings k attrs sg g, f.level ≠ .violation := by
  cases g with
  | none => intro f hf; cases hf
  | some x =>
    unfold attributeFindings
    dsimp only
    split
    · exact missing_level (h x rfl) _ _
    · intro f hf; cases hf

/-- C250. What holds: if the telemetry agrees with itself and all of it is of a kind that is learned, and the policies have
nothing to object, the live check against the registry inferred from it finds no violation. -/
theorem accepts_partial {rs : List Request} {r : Registry} (hi : InferredFrom rs r) (he : Even (sent rs)) {rego : Advisor}
    (hr : NoViolation rego) {noStats : Bool} {st : St}
    (h : liveCheck { checker := Checker.new r, advisors := advisors rego, modifier := none } noStats (sent rs) = .ok st) :
    ∀ f ∈ st.findings, f.level ≠ .violation := by
  intro f hf
  have hsay := says hi
  obtain ⟨e, hee, hf⟩ := List.mem_flatMap.1 hf
  obtain ⟨o, hoo, -, href, fs, hfs, hall⟩ := (run_report h).mem_right hee
  have hff : f ∈ fs := by
    rw [hall] at hf
    obtain ⟨f', hf', hr'⟩ := List.mem_filterMap.1 hf
    simp only [reported, Option.some.injEq] at hr'
    rw [← hr']; exact hf'
  refine (?_ : ∀ f ∈ fs, f.level ≠ .violation) f hff
  obtain ⟨s, hs, hos⟩ := List.mem_flatMap.1 hoo
  obtain ⟨s0, hs0, c, rfl⟩ := mem_attachAll.1 s hs
  have hmet : ∀ n g, (Checker.new r).findMetric n = some g → (n, g) ∈ r.metricDefs := fun n g hg =>
    mem_lastOf ((find_signal r n).1.symm.trans hg)
  rcases looked hos with ⟨a, ha, g, sg, rfl⟩ | ⟨m, hm, rfl⟩ | ⟨l, hl, rfl⟩ | ⟨hmin, h1, h2, hg⟩
  · rw [allAttrs_attach] at ha
    obtain ⟨s', hs', b, hb, hbn⟩ := he.known s0 hs0 a ha
    cases hfa : (Checker.new r).findAny a.name with
    | none => exact absurd hbn ((hsay.find a.name).2 hfa s' hs' b hb)
    | some d =>
      obtain ⟨hd, hdn⟩ := (hsay.find a.name).1 d hfa
      obtain ⟨hdep, -, s2, hs2, b2, hb2, hbn2, ht⟩ := hsay.attrsFrom d hd
      refine quiet rfl hr hfs ?_ (by simp [attrOcc]) (fun l hl => ?_) (fun l hl => ?_)
      · simp only [attrOcc, hfa, attributeFirst, hsay.plain d hd]
        simp
      · simp only [attrOcc, hfa, deprecatedAdvisor, Option.bind_some, hdep, Except.ok.injEq] at hl
        exact hl.symm
      · simp only [attrOcc, hfa, typeAdvisor] at hl
        cases hat : a.typ with
        | none => rw [hat] at hl; cases Except.ok.inj hl; intro f hf; cases hf
        | some t =>
          rw [hat] at hl
          have := he.typed s0 hs0 a ha s2 hs2 b2 hb2 (hbn2.trans hdn) t hat
          cases Except.ok.inj hl
          simp [typeFindings, ht, this]
  · cases s0 <;> simp only [attach, reduceCtorEq, Sample.metric.injEq] at hm
    rename_i m0
    obtain ⟨i, hmi⟩ := he.supported m0 hs0
    have hname : m.name = m0.name := by rw [← hm]
    have hinst : m.instrument = m0.instrument := by rw [← hm]
    have hunit : m.unit = m0.unit := by rw [← hm]
    cases hfm : (Checker.new r).findMetric m.name with
    | none =>
      obtain ⟨q, hq, hqn⟩ := hsay.metrics m0 i hs0 hmi
      rw [(find_signal r _).1] at hfm
      exact absurd (hqn.trans hname.symm) (lastOf_none hfm q hq)
    | some g =>
      obtain ⟨hsf, m1, i1, hm1, hi1, hn1, hgi, hgu⟩ := hsay.metricsFrom _ (hmet _ _ hfm)
      replace hsf : SignalFrom .metric g := hsf
      obtain ⟨ea, eb⟩ := he.agree m0 m1 hs0 hm1 (hname.symm.trans hn1.symm)
      refine quiet rfl hr hfs ?_ ?_ (fun l hl => ?_) (fun l hl => ?_)
      · simp [hfm]
      · simp [hfm, assocFindings, hsf.assocs, checkAssocs]
      · simp only [hfm, deprecatedAdvisor, Option.bind_some, hsf.live, Except.ok.injEq] at hl
        exact hl.symm
      · simp only [hfm, typeAdvisor, Except.ok.injEq] at hl
        rw [← hl]
        have hx : instrumentFindings (attach c (.metric m0)) m g = [] := by
          unfold instrumentFindings
          dsimp only at hgi
          rw [hinst, ea, hi1, hgi]; simp
        have hy : unitFindings (attach c (.metric m0)) m g = [] := by
          unfold unitFindings
          dsimp only at hgu
          rw [hgu, hunit, eb]; simp
        rw [hx, hy]; intro f hf; cases hf
  · cases s0 <;> simp only [attach, reduceCtorEq, Sample.log.injEq] at hl
    rename_i l0
    have hname : l.eventName = l0.eventName := by rw [← hl]
    by_cases hne : l.eventName = ""
    · have hev : eventOf (Checker.new r) l = none := if_pos hne
      refine quiet rfl hr hfs ?_ ?_ (fun k hk => ?_) (fun k hk => ?_)
      · simp [hne]
      · simp [hev, assocFindings]
      · simp only [hev, deprecatedAdvisor, Option.bind_none, Except.ok.injEq] at hk; exact hk.symm
      · simp only [hev, typeAdvisor, attributeFindings, Except.ok.injEq] at hk
        rw [← hk]; intro f hf; cases hf
    · have hev : eventOf (Checker.new r) l = (Checker.new r).findEvent l.eventName := if_neg hne
      cases hfe : (Checker.new r).findEvent l.eventName with
      | none =>
        obtain ⟨q, hq, hqn⟩ := hsay.events l0 hs0 (hname ▸ hne)
        rw [(find_signal r _).2.1] at hfe
        exact absurd (hqn.trans hname.symm) (lastOf_none hfe q hq)
      | some g =>
        have hge := mem_lastOf ((find_signal r _).2.1.symm.trans hfe)
        obtain ⟨hsf, -⟩ := hsay.eventsFrom _ hge
        replace hsf : SignalFrom .event g := hsf
        refine quiet rfl hr hfs ?_ ?_ (fun k hk => ?_) (fun k hk => ?_)
        · simp [hev, hfe]
        · simp [hev, hfe, assocFindings, hsf.assocs, checkAssocs]
        · simp only [hev, hfe, deprecatedAdvisor, Option.bind_some, hsf.live, Except.ok.injEq] at hk
          exact hk.symm
        · simp only [hev, hfe, typeAdvisor, Except.ok.injEq] at hk
          rw [← hk]
          exact attributeFindings_level (fun x hx d hd => by cases hx; exact hsf.optional d hd) _ _
  · have hgr : ∀ x, o.group = some x → ∀ d ∈ x.attrs, d.req ≠ .required := by
      intro x hx
      rcases hg with hg | ⟨m, -, hg⟩
      · rw [hg] at hx; exact nomatch hx
      · rw [hg] at hx
        exact (hsay.metricsFrom _ (hmet _ _ hx)).1.optional
    refine quiet rfl hr hfs (by simp [h1]) (by simp [h2]) (fun l hl => ?_) (fun l hl => ?_)
    · cases ho : o.ref <;> rw [ho] at hmin hl <;> first | exact hmin.elim | exact (Except.ok.inj hl).symm
    · cases ho : o.ref <;> rw [ho] at hmin hl <;> first
        | exact hmin.elim
        | (cases Except.ok.inj hl; intro f hf; cases hf; done)
        | (cases Except.ok.inj hl; exact attributeFindings_level hgr _ _)

end Verif.Trip
