import Verif.Convert.Props
/-
C13: when the conversion succeeds, and that names stay distinct.
-/
namespace Verif.Convert
open Verif.Util Verif.Resolver Verif.Semconv

/-! ### Distinct names -/

theorem view_refines (g : Grp) : Checks.RefinesSame g.view ↔ Refines g := by
  unfold Checks.RefinesSame Refines Grp.view
  cases g.lineage <;> simp

/-- A registry on which the check for colliding signal ids is silent and no two groups share an id. -/
def NamesApart (i : In) (names : List String) : Prop :=
  (i.groups.map (·.id)).Nodup ∧
  ∀ s ids ps, Checks.CheckErr.collidingV2SignalId s ids ps ∉ Checks.allChecks (i.groups.map Grp.view) names

theorem apart (i : In) (names : List String) (h : NamesApart i names) (t : GroupType) :
    (ofType t i.groups).Pairwise fun g g' => ∀ s, Checks.V2Name g.view s → ¬ Checks.V2Name g'.view s := by
  have hp : i.groups.Pairwise fun g g' => g.id ≠ g'.id := List.pairwise_map.1 h.1
  have hp2 : (ofType t i.groups).Pairwise fun g g' => g.id ≠ g'.id := hp.sublist List.filter_sublist
  refine List.Pairwise.imp_of_mem (fun {g g'} hg hg' hne s hs hs' => ?_) hp2
  obtain ⟨hg, ht⟩ := List.mem_filter.1 hg
  obtain ⟨hg', ht'⟩ := List.mem_filter.1 hg'
  obtain ⟨ids, ps, hx⟩ := (Checks.colliding_v2_names (i.groups.map Grp.view) names s).1.2
    ⟨g.view, List.mem_map_of_mem hg, g'.view, List.mem_map_of_mem hg',
      (of_decide_eq_true ht).trans (of_decide_eq_true ht').symm, hs, hs', hne⟩
  exact h.2 s ids ps hx

/-- C13: when the resolver reports no colliding ids, the ids of the refinements of each kind are distinct in the v2
schema. -/
theorem refinement_ids_distinct (i : In) (o : Out) (names : List String) (h : convert i = .ok o)
    (ha : NamesApart i names) :
    (o.metricRefs.map (·.id)).Nodup ∧ (o.eventRefs.map (·.id)).Nodup ∧ (o.spanRefs.map (·.id)).Nodup ∧
    (o.entityRefs.map (·.id)).Nodup := by
  have gen : ∀ {α : Type} (t : GroupType) (m : List (Refinement α)) (R : Grp → Refinement α → Prop),
      Forall2 R (ofType t i.groups) m → (∀ g r, g.type = t → R g r → Checks.V2Name g.view r.id) →
      (m.map (·.id)).Nodup := by
    intro α t m R hf hv
    refine List.pairwise_map.2 ?_
    have hf' : Forall2 (fun g r => g.type = t ∧ R g r) (ofType t i.groups) m := by
      have : ∀ (l : List Grp) (m : List (Refinement α)), (∀ g ∈ l, g.type = t) → Forall2 R l m →
          Forall2 (fun g r => g.type = t ∧ R g r) l m := by
        intro l m hl hf
        induction hf with
        | nil => exact .nil
        | cons h _ ih => exact .cons ⟨hl _ List.mem_cons_self, h⟩ (ih fun g hg => hl g (List.mem_cons_of_mem _ hg))
      exact this _ _ (fun g hg => of_decide_eq_true (List.mem_filter.1 hg).2) hf
    refine hf'.pairwise (apart i names ha t) fun g g' r r' hd hr hr' he => ?_
    refine hd r.id (hv g r hr.1 hr.2) ?_
    have : r.id = r'.id := he
    rw [this]
    exact hv g' r' hr'.1 hr'.2
  refine ⟨gen .metric _ _ (metrics_kept i o h).2 ?_, gen .event _ _ (events_kept i o h).2 ?_,
    gen .span _ _ (spans_kept i o h).2 ?_, gen .entity _ _ (entities_kept i o h).2 ?_⟩
  · rintro g r ht ⟨hm, h1, h2⟩
    by_cases hr : Refines g
    · exact .metricRefinement _ ht ((view_refines g).2 hr) (h1 hr)
    · refine .metric _ ht (fun hx => hr ((view_refines g).1 hx)) ?_
      rw [h2 hr]; exact hm.1
  · rintro g r ht ⟨hm, h1, h2⟩
    by_cases hr : Refines g
    · exact .eventRefinement _ ht ((view_refines g).2 hr) (h1 hr)
    · refine .event _ ht (fun hx => hr ((view_refines g).1 hx)) ?_
      rw [h2 hr]; exact hm.1
  · rintro g r ht ⟨_, h1⟩
    exact .span _ ht h1
  · rintro g r ht ⟨hm, h1, h2⟩
    by_cases hr : Refines g
    · exact .entityRefinement _ ht ((view_refines g).2 hr) (h1 hr)
    · have hr' : ¬ Checks.RefinesSame g.view := fun hx => hr ((view_refines g).1 hx)
      rw [h2 hr]
      rcases hm.1 hr with hn | ⟨hn, hs⟩
      · exact .entityNamed _ ht hr' hn
      · exact .entityById _ ht hr' hn hs

/-! ### Success -/

/-- The name under which associations find the entity of group `g`. -/
def EntityName (g : Grp) (n : String) : Prop :=
  (Refines g → Checks.Stripped "entity." g.id n) ∧ (¬ Refines g → DeclaredType g n)

/-- The refined group is known by its id. -/
def BaseKnown (g : Grp) : Prop := Refines g → ∃ l b, g.lineage = some l ∧ l.extendsGroup = some b

/-- Every name in the associations of `g` is recorded or is that of an entity of this registry. -/
def AssocsKnown (i : In) (g : Grp) : Prop :=
  ∀ n ∈ leavesL g.assocs, (∃ u, Origin i g.id n u) ∨ ∃ e ∈ i.groups, e.type = .entity ∧ EntityName e n

/-- What a resolved schema must satisfy to be converted. -/
def Convertible (i : In) : Prop := ∀ g ∈ i.groups,
  (g.type = .entity → (∀ r ∈ g.attributes, r < i.catalog.length) ∧ BaseKnown g) ∧
  (g.type = .span → BaseKnown g ∧ AssocsKnown i g) ∧
  (g.type = .event → (∃ n, g.name = some n) ∧ AssocsKnown i g) ∧
  (g.type = .metric → (∃ n, g.metricName = some n) ∧ (∃ n, g.instrument = some n) ∧ (∃ n, g.unit = some n) ∧
    AssocsKnown i g)

theorem declaredType_unique (g : Grp) (s t : String) (hs : DeclaredType g s) (ht : DeclaredType g t) : s = t := by
  rcases hs with hs | ⟨hs, hs'⟩ <;> rcases ht with ht | ⟨ht, ht'⟩
  · rw [hs] at ht; exact Option.some.inj ht
  · rw [hs] at ht; cases ht
  · rw [hs] at ht; cases ht
  · rw [← (Checks.stripPrefix_spec _ _ _).2 hs', ← (Checks.stripPrefix_spec _ _ _).2 ht']

theorem entityName_unique (g : Grp) (s t : String) (hs : EntityName g s) (ht : EntityName g t) : s = t := by
  by_cases hr : Refines g
  · rw [← (Checks.stripPrefix_spec _ _ _).2 (hs.1 hr), ← (Checks.stripPrefix_spec _ _ _).2 (ht.1 hr)]
  · exact declaredType_unique g s t (hs.2 hr) (ht.2 hr)

theorem convertAssocs_ok (i : In) (ents : List (Refinement Entity)) (gid : String) (l : List (Assoc String)) :
    (∃ r, convertAssocs i (localEntities ents) gid l = .ok r) ↔
      ∀ n ∈ leavesL l, (∃ u, Origin i gid n u) ∨ ∃ x ∈ ents, x.id = n := by
  constructor
  · rintro ⟨r, h⟩ n hn
    have hf := convertAssocs_spec i ents { id := gid, type := .span, assocs := l } r h
    obtain ⟨x, _, hx⟩ := hf.2.mem_left hn
    by_cases ho : ∃ u, Origin i gid n u
    · exact .inl ho
    · exact .inr (hx.2.1 (fun u hu => ho ⟨u, hu⟩)).2
  · intro h
    cases hc : convertAssocs i (localEntities ents) gid l with
    | ok r => exact ⟨r, rfl⟩
    | error e =>
      obtain ⟨pre, n, post, h1, _, h3, _⟩ := (associations_fail i ents gid l e).1 hc
      rcases h n (by rw [h1]; simp) with ⟨u, hu⟩ | ⟨x, hx, he⟩
      · exact absurd hu (h3.1 u)
      · exact absurd he (h3.2 x hx)

theorem entityAttrs_ok (i : In) (gid : String) (rs : List Nat) : ∀ acc,
    (∃ r, entityAttrs i gid rs acc = .ok r) ↔ ∀ r ∈ rs, r < i.catalog.length := by
  induction rs with
  | nil => intro acc; exact ⟨fun _ => by simp, fun _ => ⟨acc, rfl⟩⟩
  | cons k rs ih =>
    intro acc
    unfold entityAttrs convertAttributeRef
    by_cases hk : k < i.catalog.length
    · have ha : i.catalog[k]? = some i.catalog[k] := List.getElem?_eq_getElem hk
      obtain ⟨n, hn⟩ := convertRef_some i _ (List.getElem_mem hk)
      rw [ha]; dsimp only
      rw [hn]; dsimp only
      split
      · rw [ih]; simp [hk]
      · rw [ih]; simp [hk]
    · have ha : i.catalog[k]? = none := List.getElem?_eq_none (by omega)
      rw [ha]; dsimp only
      constructor
      · rintro ⟨r, h⟩; cases h
      · intro h; exact absurd (h k List.mem_cons_self) hk

theorem baseKnown_iff (g : Grp) (hr : Refines g) :
    BaseKnown g ↔ ∃ b, g.lineage.bind (·.extendsGroup) = some b := by
  unfold BaseKnown
  constructor
  · intro h
    obtain ⟨l, b, h1, h2⟩ := h hr
    exact ⟨b, Option.bind_eq_some_iff.2 ⟨l, h1, h2⟩⟩
  · rintro ⟨b, hb⟩ _
    obtain ⟨l, h1, h2⟩ := Option.bind_eq_some_iff.1 hb
    exact ⟨l, b, h1, h2⟩

theorem entityType_ok (i : In) (g : Grp) : (∃ t, entityType i g = .ok t) ↔ BaseKnown g := by
  unfold entityType
  by_cases hr : Refines g
  · rw [if_pos ((refines_iff g).2 hr), baseKnown_iff g hr]
    cases hb : g.lineage.bind (·.extendsGroup) with
    | none =>
      constructor
      · rintro ⟨t, h⟩; cases h
      · rintro ⟨t, h⟩; cases h
    | some b => exact ⟨fun _ => ⟨b, rfl⟩, fun _ => ⟨_, rfl⟩⟩
  · rw [if_neg (fun hc => hr ((refines_iff g).1 hc))]
    exact ⟨fun _ hc => absurd hc hr, fun _ => ⟨_, rfl⟩⟩

theorem spanType_ok (g : Grp) : (∃ t, spanType g = .ok t) ↔ BaseKnown g := by
  unfold spanType
  by_cases hr : Refines g
  · rw [if_pos ((refines_iff g).2 hr), baseKnown_iff g hr]
    cases hb : g.lineage.bind (·.extendsGroup) with
    | none =>
      constructor
      · rintro ⟨t, h⟩; cases h
      · rintro ⟨t, h⟩; cases h
    | some b => exact ⟨fun _ => ⟨b, rfl⟩, fun _ => ⟨_, rfl⟩⟩
  · rw [if_neg (fun hc => hr ((refines_iff g).1 hc))]
    exact ⟨fun _ hc => absurd hc hr, fun _ => ⟨_, rfl⟩⟩

theorem convertEntity_ok (i : In) (g : Grp) :
    (∃ e, convertEntity i g = .ok e) ↔ (∀ r ∈ g.attributes, r < i.catalog.length) ∧ BaseKnown g := by
  rw [← entityAttrs_ok i g.id g.attributes ([], []), ← entityType_ok i g]
  unfold convertEntity
  cases h1 : entityAttrs i g.id g.attributes ([], []) with
  | error e =>
    constructor
    · rintro ⟨_, h⟩; cases h
    · rintro ⟨⟨_, h⟩, _⟩; cases h
  | ok as =>
    dsimp only
    cases h2 : entityType i g with
    | error e =>
      constructor
      · rintro ⟨_, h⟩; cases h
      · rintro ⟨_, ⟨_, h⟩⟩; cases h
    | ok t => exact ⟨fun _ => ⟨⟨_, rfl⟩, ⟨_, rfl⟩⟩, fun _ => ⟨_, rfl⟩⟩

theorem entityLoop_ok (i : In) (gs : List Grp) : ∀ acc,
    (∃ r, entityLoop i gs acc = .ok r) ↔ ∀ g ∈ gs, ∃ e, convertEntity i g = .ok e := by
  induction gs with
  | nil => intro acc; exact ⟨fun _ => by simp, fun _ => ⟨acc, rfl⟩⟩
  | cons g gs ih =>
    intro acc
    unfold entityLoop
    cases hc : convertEntity i g with
    | error e =>
      constructor
      · rintro ⟨_, h⟩; cases h
      · intro h; obtain ⟨e', h⟩ := h g List.mem_cons_self; rw [hc] at h; cases h
    | ok e =>
      dsimp only
      split
      · rw [ih]; simp [hc]
      · rw [ih]; simp [hc]

/-- The groups whose conversion in the main loop succeeds. -/
def StepOk (i : In) (ents : List (Refinement Entity)) (g : Grp) : Prop :=
  (g.type = .span → ∃ s, convertSpan i (localEntities ents) g = .ok s) ∧
  (g.type = .event → ∃ s, convertEvent i (localEntities ents) g = .ok s) ∧
  (g.type = .metric → ∃ s, convertMetric i (localEntities ents) g = .ok s)

theorem groupLoop_ok (i : In) (ents : List (Refinement Entity)) (gs : List Grp) : ∀ o,
    (∃ r, groupLoop i (localEntities ents) gs o = .ok r) ↔ ∀ g ∈ gs, StepOk i ents g := by
  induction gs with
  | nil => intro o; exact ⟨fun _ => by simp, fun _ => ⟨o, rfl⟩⟩
  | cons g gs ih =>
    intro o
    have hstep : (∃ o', groupStep i (localEntities ents) o g = .ok o') ↔ StepOk i ents g := by
      unfold groupStep StepOk
      cases ht : g.type with
      | span =>
        cases hc : convertSpan i (localEntities ents) g with
        | error e => simp
        | ok s => simp
      | event =>
        cases hc : convertEvent i (localEntities ents) g with
        | error e => simp
        | ok s => simp
      | metric =>
        cases hc : convertMetric i (localEntities ents) g with
        | error e => simp
        | ok s => simp
      | attributeGroup | entity | metricGroup | scope | undefined => simp
    unfold groupLoop
    cases hs : groupStep i (localEntities ents) o g with
    | error e =>
      constructor
      · rintro ⟨_, h⟩; cases h
      · intro h; obtain ⟨o', h⟩ := hstep.2 (h g List.mem_cons_self); rw [hs] at h; cases h
    | ok o' =>
      dsimp only
      rw [ih]
      have := hstep.1 ⟨o', hs⟩
      simp [this]

/-- C13: the conversion succeeds exactly for the schemas in which every refinement of an entity or span knows what it
refines, entity attributes exist, events have a name, metrics a name, an instrument and a unit, and every associated
entity is known. -/
theorem convert_ok_iff (i : In) : (∃ o, convert i = .ok o) ↔ Convertible i := by
  have hent : (∃ r, entityLoop i (i.groups.filter (fun g => decide (g.type = .entity))) ([], []) = .ok r) ↔
      ∀ g ∈ i.groups, g.type = .entity → (∀ r ∈ g.attributes, r < i.catalog.length) ∧ BaseKnown g := by
    rw [entityLoop_ok]
    constructor
    · intro h g hg ht
      exact (convertEntity_ok i g).1 (h g (List.mem_filter.2 ⟨hg, decide_eq_true ht⟩))
    · intro h g hg
      obtain ⟨hg, ht⟩ := List.mem_filter.1 hg
      exact (convertEntity_ok i g).2 (h g hg (of_decide_eq_true ht))
  cases h1 : entityLoop i (i.groups.filter (fun g => decide (g.type = .entity))) ([], []) with
  | error e =>
    constructor
    · rintro ⟨o, h⟩; unfold convert at h; rw [h1] at h; cases h
    · intro h
      obtain ⟨r, hr⟩ := hent.2 fun g hg ht => (h g hg).1 ht
      rw [h1] at hr; cases hr
  | ok ens =>
    have he := hent.1 ⟨ens, h1⟩
    obtain ⟨_, ⟨m, h5, h6⟩⟩ := entityLoop_spec i _ _ _ h1
    simp only [List.nil_append] at h5
    subst h5
    -- the names of the local entities
    have hname : ∀ n, (∃ x ∈ ens.2, x.id = n) ↔ ∃ e ∈ i.groups, e.type = .entity ∧ EntityName e n := by
      have hen : ∀ g (x : Refinement Entity), convertEntity i g = .ok x.sig ∧
          (x.id = if Refines g then fixId "entity." g.id else x.sig.type) → EntityName g x.id := by
        rintro g x ⟨hc, hid⟩
        refine ⟨fun hr => ?_, fun hr => ?_⟩
        · rw [hid, if_pos hr]; exact fixId_spec _ _
        · rw [hid, if_neg hr]
          exact (convertEntity_spec i { catalog := catalog2 i } g _ rfl hc).1 hr
      intro n
      constructor
      · rintro ⟨x, hx, rfl⟩
        obtain ⟨g, hg, hr⟩ := h6.mem_right hx
        obtain ⟨hg, ht⟩ := List.mem_filter.1 hg
        exact ⟨g, hg, of_decide_eq_true ht, hen g x hr⟩
      · rintro ⟨g, hg, ht, hn⟩
        obtain ⟨x, hx, hr⟩ := h6.mem_left (List.mem_filter.2 ⟨hg, decide_eq_true ht⟩)
        exact ⟨x, hx, entityName_unique g _ _ (hen g x hr) hn⟩
    have hassoc : ∀ g, (∃ r, convertAssocs i (localEntities ens.2) g.id g.assocs = .ok r) ↔ AssocsKnown i g := by
      intro g
      rw [convertAssocs_ok]
      unfold AssocsKnown
      simp only [hname]
    have hspan : ∀ g, (∃ s, convertSpan i (localEntities ens.2) g = .ok s) ↔ BaseKnown g ∧ AssocsKnown i g := by
      intro g
      rw [← hassoc, ← spanType_ok]
      unfold convertSpan
      cases spanType g with
      | error e => simp
      | ok t =>
        cases convertAssocs i (localEntities ens.2) g.id g.assocs with
        | error e => simp
        | ok r => simp
    have hevent : ∀ g, (∃ s, convertEvent i (localEntities ens.2) g = .ok s) ↔
        (∃ n, g.name = some n) ∧ AssocsKnown i g := by
      intro g
      rw [← hassoc]
      unfold convertEvent
      cases g.name with
      | none => simp
      | some n =>
        cases convertAssocs i (localEntities ens.2) g.id g.assocs with
        | error e => simp
        | ok r => simp
    have hmetric : ∀ g, (∃ s, convertMetric i (localEntities ens.2) g = .ok s) ↔
        (∃ n, g.metricName = some n) ∧ (∃ n, g.instrument = some n) ∧ (∃ n, g.unit = some n) ∧ AssocsKnown i g := by
      intro g
      rw [← hassoc]
      unfold convertMetric
      cases g.metricName with
      | none => simp
      | some n => cases g.instrument with
        | none => simp
        | some ins => cases g.unit with
          | none => simp
          | some u =>
            cases convertAssocs i (localEntities ens.2) g.id g.assocs with
            | error e => simp
            | ok r => simp
    have hconv : (∃ o, convert i = .ok o) ↔
        ∃ o, groupLoop i (localEntities ens.2) i.groups { entities := ens.1, entityRefs := ens.2 } = .ok o := by
      unfold convert
      rw [h1]; dsimp only
      cases groupLoop i (localEntities ens.2) i.groups { entities := ens.1, entityRefs := ens.2 } with
      | error e => simp
      | ok o => simp
    rw [hconv, groupLoop_ok]
    unfold StepOk Convertible
    simp only [hspan, hevent, hmetric]
    constructor
    · intro h g hg
      exact ⟨he g hg, (h g hg).1, (h g hg).2.1, (h g hg).2.2⟩
    · intro h g hg
      exact (h g hg).2

/-! ### A case -/

/-- A registry with an entity, a metric definition associated with it, a refinement of that metric, and a public and a
plain attribute group. -/
def sample : In :=
  { catalog := [{ name := "b", identifying := true }, { name := "a", stability := some .stable }]
    roots := []
    groups := [
      { id := "registry.g", type := .attributeGroup, attributes := [1, 0] },
      { id := "entity.host", type := .entity, attributes := [1, 0], name := some "host",
        lineage := some { url := "u1", path := "p", attrs := [("a", "registry.g"), ("b", "registry.g")] } },
      { id := "metric.m", type := .metric, metricName := some "m", instrument := some "gauge", unit := some "1",
        attributes := [0], assocs := [.oneOf [.ref "host", .ref "far"]],
        lineage := some { url := "here" } },
      { id := "metric.m.x", type := .metric, metricName := some "m", instrument := some "gauge", unit := some "1",
        lineage := some { url := "here", extendsGroup := some "metric.m", extendsType := some .metric } },
      { id := "attribute_group.pub", type := .attributeGroup, visibility := some .publicVis }]
    registryUrl := "here"
    origins := [("metric.m", [("far", "u2")])]
    deps := ["u1", "u2"]
    nameOf := fun s => s
    hash := fun _ => 0
    ord := fun l => l
    ord_perm := fun l => List.Perm.refl l }

theorem sample_convertible : Convertible sample := by
  intro g hg
  simp only [sample, List.mem_cons, List.not_mem_nil, or_false] at hg
  have hb : ∀ g : Grp, g.lineage.bind (·.extendsType) ≠ some g.type → BaseKnown g := by
    rintro g hne ⟨l, hl, hx⟩
    exact absurd (Option.bind_eq_some_iff.2 ⟨l, hl, hx⟩) hne
  rcases hg with rfl | rfl | rfl | rfl | rfl
  · refine ⟨fun h => ?_, fun h => ?_, fun h => ?_, fun h => ?_⟩ <;> cases h
  · refine ⟨fun _ => ⟨by decide, hb _ (by decide)⟩, fun h => ?_, fun h => ?_, fun h => ?_⟩ <;> cases h
  · refine ⟨fun h => ?_, fun h => ?_, fun h => ?_, fun _ => ⟨⟨_, rfl⟩, ⟨_, rfl⟩, ⟨_, rfl⟩, ?_⟩⟩
    · cases h
    · cases h
    · cases h
    · intro n hn
      simp only [leavesL, leaves, List.append_nil, List.cons_append, List.nil_append, List.mem_cons,
        List.not_mem_nil, or_false] at hn
      rcases hn with rfl | rfl
      · right
        refine ⟨_, List.mem_cons_of_mem _ List.mem_cons_self, rfl, ?_, fun _ => .inl rfl⟩
        rintro ⟨l, hl, hx⟩
        have := Option.some.inj hl
        subst this
        cases hx
      · left; exact ⟨"u2", [("far", "u2")], rfl, rfl⟩
  · refine ⟨fun h => ?_, fun h => ?_, fun h => ?_, fun _ => ⟨⟨_, rfl⟩, ⟨_, rfl⟩, ⟨_, rfl⟩, ?_⟩⟩
    · cases h
    · cases h
    · cases h
    · intro n hn; cases hn
  · refine ⟨fun h => ?_, fun h => ?_, fun h => ?_, fun h => ?_⟩ <;> cases h

example : ∃ o, convert sample = .ok o := (convert_ok_iff sample).2 sample_convertible

example : (ofType .metric sample.groups).length = 2 ∧ (definitions .metric sample.groups).length = 1 := by decide

example : ∃ o, convert sample = .ok o ∧ o.metrics.map (·.name) = ["m"] ∧ o.metricRefs.map (·.id) = ["m", "m.x"] ∧
    o.entities.map (fun e => (e.identity.map (·.base), e.description.map (·.base))) = [([1], [0])] ∧
    o.metrics.map (fun m => (leavesL m.assocs).map (·.source)) = [[none, some 1]] ∧
    o.attributes = [0, 1] ∧ o.groups.map (·.id) = ["pub"] :=
  ⟨_, rfl, by decide, by decide, by decide, by decide, by decide, by decide⟩

example : NamesApart sample [] := by
  refine ⟨by decide, fun s ids ps h => ?_⟩
  obtain ⟨g, hg, g', hg', ht, h1, h2, hne⟩ := (Checks.colliding_v2_names _ _ s).1.1 ⟨ids, ps, h⟩
  rw [← Checks.v2_name] at h1 h2
  have key : ∀ x ∈ sample.groups.map Grp.view, ∀ y ∈ sample.groups.map Grp.view, x.type = y.type →
      Checks.v2NamespaceId x = Checks.v2NamespaceId y → x.id = y.id := by decide
  exact hne (key g hg g' hg' ht (h1.trans h2.symm))

/-! ### Failure and provenance -/

/-- What each error means. -/
def Reason (i : In) : CErr → Prop
  | .attributeNotFound gid r => ∃ g ∈ i.groups, g.type = .entity ∧ g.id = gid ∧ r ∈ g.attributes ∧ i.catalog.length ≤ r
  | .refinementBaseNotFound gid => ∃ g ∈ i.groups, (g.type = .entity ∨ g.type = .span) ∧ g.id = gid ∧ ¬ BaseKnown g
  | .associationNotFound gid n => ∃ g ∈ i.groups, g.id = gid ∧ n ∈ leavesL g.assocs ∧ (∀ u, ¬ Origin i gid n u) ∧
      ∀ e ∈ i.groups, e.type = .entity → ¬ EntityName e n
  | .eventNameNotFound gid => ∃ g ∈ i.groups, g.type = .event ∧ g.id = gid ∧ g.name = none
  | .panic gid => ∃ g ∈ i.groups, g.type = .metric ∧ g.id = gid ∧
      (g.metricName = none ∨ g.instrument = none ∨ g.unit = none)

theorem entityAttrs_err (i : In) (gid : String) (rs : List Nat) : ∀ acc e, entityAttrs i gid rs acc = .error e →
    ∃ r ∈ rs, e = .attributeNotFound gid r ∧ i.catalog.length ≤ r := by
  induction rs with
  | nil => intro acc e h; cases h
  | cons k rs ih =>
    intro acc e h
    unfold entityAttrs convertAttributeRef at h
    by_cases hk : k < i.catalog.length
    · have ha : i.catalog[k]? = some i.catalog[k] := List.getElem?_eq_getElem hk
      obtain ⟨n, hn⟩ := convertRef_some i _ (List.getElem_mem hk)
      rw [ha] at h; dsimp only at h
      rw [hn] at h; dsimp only at h
      split at h
      · obtain ⟨r, hr, h⟩ := ih _ _ h; exact ⟨r, List.mem_cons_of_mem _ hr, h⟩
      · obtain ⟨r, hr, h⟩ := ih _ _ h; exact ⟨r, List.mem_cons_of_mem _ hr, h⟩
    · have ha : i.catalog[k]? = none := List.getElem?_eq_none (by omega)
      rw [ha] at h
      exact ⟨k, List.mem_cons_self, (Except.error.inj h).symm, by omega⟩

theorem entityType_err (i : In) (g : Grp) (e : CErr) (h : entityType i g = .error e) :
    e = .refinementBaseNotFound g.id ∧ ¬ BaseKnown g := by
  refine ⟨?_, fun hb => ?_⟩
  · unfold entityType at h
    by_cases hr : refines g = true
    · rw [if_pos hr] at h
      cases hb : g.lineage.bind (·.extendsGroup) with
      | none => rw [hb] at h; exact (Except.error.inj h).symm
      | some b => rw [hb] at h; cases h
    · rw [if_neg hr] at h; cases h
  · obtain ⟨t, ht⟩ := (entityType_ok i g).2 hb
    rw [ht] at h; cases h

theorem spanType_err (g : Grp) (e : CErr) (h : spanType g = .error e) :
    e = .refinementBaseNotFound g.id ∧ ¬ BaseKnown g := by
  refine ⟨?_, fun hb => ?_⟩
  · unfold spanType at h
    by_cases hr : refines g = true
    · rw [if_pos hr] at h
      cases hb : g.lineage.bind (·.extendsGroup) with
      | none => rw [hb] at h; exact (Except.error.inj h).symm
      | some b => rw [hb] at h; cases h
    · rw [if_neg hr] at h; cases h
  · obtain ⟨t, ht⟩ := (spanType_ok g).2 hb
    rw [ht] at h; cases h

theorem entityLoop_err (i : In) (gs : List Grp) : ∀ acc e, entityLoop i gs acc = .error e →
    ∃ g ∈ gs, convertEntity i g = .error e := by
  induction gs with
  | nil => intro acc e h; cases h
  | cons g gs ih =>
    intro acc e h
    unfold entityLoop at h
    cases hc : convertEntity i g with
    | error e' => rw [hc] at h; rw [← Except.error.inj h]; exact ⟨g, List.mem_cons_self, hc⟩
    | ok en =>
      rw [hc] at h; dsimp only at h
      split at h
      · obtain ⟨x, hx, h⟩ := ih _ _ h; exact ⟨x, List.mem_cons_of_mem _ hx, h⟩
      · obtain ⟨x, hx, h⟩ := ih _ _ h; exact ⟨x, List.mem_cons_of_mem _ hx, h⟩

theorem groupLoop_err (i : In) (loc : List (String × Option Nat)) (gs : List Grp) : ∀ o e,
    groupLoop i loc gs o = .error e → ∃ g ∈ gs, ∃ o', groupStep i loc o' g = .error e := by
  induction gs with
  | nil => intro o e h; cases h
  | cons g gs ih =>
    intro o e h
    unfold groupLoop at h
    cases hc : groupStep i loc o g with
    | error e' => rw [hc] at h; rw [← Except.error.inj h]; exact ⟨g, List.mem_cons_self, o, hc⟩
    | ok o' =>
      rw [hc] at h
      obtain ⟨x, hx, h⟩ := ih _ _ h
      exact ⟨x, List.mem_cons_of_mem _ hx, h⟩

/-- C13: when the conversion fails, the error names a group of the registry and what is wrong with it. -/
theorem convert_error_reason (i : In) (e : CErr) (h : convert i = .error e) : Reason i e := by
  unfold convert at h
  cases h1 : entityLoop i (i.groups.filter (fun g => decide (g.type = .entity))) ([], []) with
  | error e' =>
    rw [h1] at h
    have := Except.error.inj h
    subst this
    obtain ⟨g, hg, hc⟩ := entityLoop_err i _ _ _ h1
    obtain ⟨hg, ht⟩ := List.mem_filter.1 hg
    have ht := of_decide_eq_true ht
    unfold convertEntity at hc
    cases h2 : entityAttrs i g.id g.attributes ([], []) with
    | error e2 =>
      rw [h2] at hc
      have := Except.error.inj hc
      subst this
      obtain ⟨r, hr, rfl, hl⟩ := entityAttrs_err i _ _ _ _ h2
      exact ⟨g, hg, ht, rfl, hr, hl⟩
    | ok as =>
      rw [h2] at hc; dsimp only at hc
      cases h3 : entityType i g with
      | error e3 =>
        rw [h3] at hc
        have := Except.error.inj hc
        subst this
        obtain ⟨rfl, hb⟩ := entityType_err i g _ h3
        exact ⟨g, hg, .inl ht, rfl, hb⟩
      | ok t => rw [h3] at hc; cases hc
  | ok ens =>
    rw [h1] at h; dsimp only at h
    have hassoc : ∀ g ∈ i.groups, ∀ e, convertAssocs i (localEntities ens.2) g.id g.assocs = .error e → Reason i e := by
      intro g hg e he
      obtain ⟨pre, n, post, h2, rfl, h3, _⟩ := (associations_fail i ens.2 g.id g.assocs e).1 he
      refine ⟨g, hg, rfl, by rw [h2]; simp, h3.1, fun x hx ht hn => ?_⟩
      obtain ⟨_, ⟨m, h5, h6⟩⟩ := entityLoop_spec i _ _ _ h1
      simp only [List.nil_append] at h5
      subst h5
      obtain ⟨y, hy, hc, hid⟩ := h6.mem_left (List.mem_filter.2 ⟨hx, decide_eq_true ht⟩)
      refine h3.2 y hy (entityName_unique x _ _ ⟨fun hr => ?_, fun hr => ?_⟩ hn)
      · rw [hid, if_pos hr]; exact fixId_spec _ _
      · rw [hid, if_neg hr]
        exact (convertEntity_spec i { catalog := catalog2 i } x _ rfl hc).1 hr
    cases h2 : groupLoop i (localEntities ens.2) i.groups { entities := ens.1, entityRefs := ens.2 } with
    | ok o => rw [h2] at h; cases h
    | error e' =>
      rw [h2] at h
      have := Except.error.inj h
      subst this
      obtain ⟨g, hg, o, hs⟩ := groupLoop_err i _ _ _ _ h2
      unfold groupStep at hs
      cases ht : g.type with
      | span =>
        rw [ht] at hs; dsimp only at hs
        cases hc : convertSpan i (localEntities ens.2) g with
        | ok s => rw [hc] at hs; cases hs
        | error e3 =>
          rw [hc] at hs
          have := Except.error.inj hs
          subst this
          unfold convertSpan at hc
          cases h4 : spanType g with
          | error e4 =>
            rw [h4] at hc
            have := Except.error.inj hc
            subst this
            obtain ⟨rfl, hb⟩ := spanType_err g _ h4
            exact ⟨g, hg, .inr ht, rfl, hb⟩
          | ok t =>
            rw [h4] at hc; dsimp only at hc
            cases h5 : convertAssocs i (localEntities ens.2) g.id g.assocs with
            | ok as => rw [h5] at hc; cases hc
            | error e5 => rw [h5] at hc; rw [← Except.error.inj hc]; exact hassoc g hg _ h5
      | event =>
        rw [ht] at hs; dsimp only at hs
        cases hc : convertEvent i (localEntities ens.2) g with
        | ok s => rw [hc] at hs; cases hs
        | error e3 =>
          rw [hc] at hs
          have := Except.error.inj hs
          subst this
          unfold convertEvent at hc
          cases h4 : g.name with
          | none => rw [h4] at hc; rw [← Except.error.inj hc]; exact ⟨g, hg, ht, rfl, h4⟩
          | some n =>
            rw [h4] at hc; dsimp only at hc
            cases h5 : convertAssocs i (localEntities ens.2) g.id g.assocs with
            | ok as => rw [h5] at hc; cases hc
            | error e5 => rw [h5] at hc; rw [← Except.error.inj hc]; exact hassoc g hg _ h5
      | metric =>
        rw [ht] at hs; dsimp only at hs
        cases hc : convertMetric i (localEntities ens.2) g with
        | ok s => rw [hc] at hs; cases hs
        | error e3 =>
          rw [hc] at hs
          have := Except.error.inj hs
          subst this
          unfold convertMetric at hc
          cases h4 : g.metricName with
          | none => rw [h4] at hc; rw [← Except.error.inj hc]; exact ⟨g, hg, ht, rfl, .inl h4⟩
          | some n =>
            rw [h4] at hc; dsimp only at hc
            cases h5 : g.instrument with
            | none => rw [h5] at hc; rw [← Except.error.inj hc]; exact ⟨g, hg, ht, rfl, .inr (.inl h5)⟩
            | some ins =>
              rw [h5] at hc; dsimp only at hc
              cases h6 : g.unit with
              | none => rw [h6] at hc; rw [← Except.error.inj hc]; exact ⟨g, hg, ht, rfl, .inr (.inr h6)⟩
              | some u =>
                rw [h6] at hc; dsimp only at hc
                cases h7 : convertAssocs i (localEntities ens.2) g.id g.assocs with
                | ok as => rw [h7] at hc; cases hc
                | error e5 => rw [h7] at hc; rw [← Except.error.inj hc]; exact hassoc g hg _ h7
      | attributeGroup | entity | metricGroup | scope | undefined => rw [ht] at hs; cases hs

example : ∃ e, convert { sample with origins := [] } = .error e ∧ e = .associationNotFound "metric.m" "far" :=
  ⟨_, rfl, rfl⟩

/-- The lineage of `g` says the attribute `n` comes from `g` itself. -/
def Owns (n : String) (g : Grp) : Prop := ∃ l, g.lineage = some l ∧ aget n l.attrs = some g.id

/-- Where an attribute of name `n` is said to come from: where the first group that owns it comes from; else where the
group recorded as its source comes from; else the dependency recorded as its source; else this registry. -/
def AttrProvOf (i : In) (n : String) (p : Prov) : Prop :=
  (∃ pre g post, i.groups = pre ++ g :: post ∧ Owns n g ∧ (∀ x ∈ pre, ¬ Owns n x) ∧ ProvOf i g p) ∨
  (∀ g ∈ i.groups, ¬ Owns n g) ∧
    ((∃ pre g post src, i.groups = pre ++ g :: post ∧ aget n i.roots = some src ∧ g.id = src ∧
        (∀ x ∈ pre, x.id ≠ src) ∧ ProvOf i g p) ∨
     (∃ src, aget n i.roots = some src ∧ (∀ g ∈ i.groups, g.id ≠ src) ∧
        ((∃ d, src = "v2_dependency." ++ d ∧
            ((∃ k u, i.deps[k]? = some u ∧ i.nameOf u = d ∧ p = { source := some k }) ∨
             (∀ u ∈ i.deps, i.nameOf u ≠ d) ∧ p = {})) ∨
         (∀ d, src ≠ "v2_dependency." ++ d) ∧ p = {})) ∨
     aget n i.roots = none ∧ p = {})

theorem ownsAttr_iff (n : String) (g : Grp) : ownsAttr n g = true ↔ Owns n g := by
  unfold ownsAttr Owns
  cases g.lineage with
  | none => simp
  | some l =>
    cases h : aget n l.attrs with
    | none => simp [h]
    | some s => simp [h]

theorem stripOpt_spec (p s : String) : (∃ d, stripOpt p s = some d ∧ s = p ++ d) ∨
    (stripOpt p s = none ∧ ∀ d, s ≠ p ++ d) := by
  unfold stripOpt
  by_cases h : p.toList.isPrefixOf s.toList = true
  · rw [if_pos h]
    left
    refine ⟨_, rfl, ?_⟩
    rw [List.isPrefixOf_iff_prefix] at h
    obtain ⟨t, ht⟩ := h
    apply String.toList_injective
    rw [String.toList_append, String.toList_ofList, ← ht, List.drop_left]
  · rw [if_neg h]
    right
    refine ⟨rfl, fun d hd => h ?_⟩
    rw [List.isPrefixOf_iff_prefix, hd, String.toList_append]
    exact List.prefix_append _ _

theorem attrProv_spec (i : In) (n : String) : AttrProvOf i n (attrProv i n) := by
  unfold attrProv
  cases h1 : i.groups.find? (ownsAttr n) with
  | some g =>
    left
    obtain ⟨hg, pre, post, he, hp⟩ := List.find?_eq_some_iff_append.1 h1
    exact ⟨pre, g, post, he, (ownsAttr_iff n g).1 hg,
      by {intro x hx hc; have := hp x hx; rw [(ownsAttr_iff n x).2 hc] at this; cases this}, groupProv_spec i g⟩
  | none =>
    right
    refine ⟨fun g hg hc => List.find?_eq_none.1 h1 g hg ((ownsAttr_iff n g).2 hc), ?_⟩
    dsimp only
    cases h2 : aget n i.roots with
    | none => exact .inr (.inr ⟨rfl, rfl⟩)
    | some src =>
      dsimp only
      cases h3 : i.groups.find? (fun g => decide (g.id = src)) with
      | some g =>
        left
        obtain ⟨hg, pre, post, he, hp⟩ := List.find?_eq_some_iff_append.1 h3
        refine ⟨pre, g, post, src, he, rfl, of_decide_eq_true hg, fun x hx hc => ?_, groupProv_spec i g⟩
        have := hp x hx
        simp [hc] at this
      | none =>
        right; left
        refine ⟨src, rfl, fun g hg hc => ?_, ?_⟩
        · have := List.find?_eq_none.1 h3 g hg
          simp [hc] at this
        · dsimp only
          rcases stripOpt_spec "v2_dependency." src with ⟨d, hd, hs⟩ | ⟨hd, hs⟩
          · rw [hd]
            left
            refine ⟨d, hs, ?_⟩
            dsimp only
            cases h4 : i.deps.findIdx? (fun u => decide (i.nameOf u = d)) with
            | none =>
              right
              refine ⟨fun u hu hc => ?_, rfl⟩
              have := List.findIdx?_eq_none_iff.1 h4 u hu
              simp [hc] at this
            | some k =>
              left
              obtain ⟨hk, hx, _⟩ := List.findIdx?_eq_some_iff_getElem.1 h4
              exact ⟨k, _, List.getElem?_eq_getElem hk, of_decide_eq_true hx, rfl⟩
          · rw [hd]; exact .inr ⟨hs, rfl⟩

/-- C13: every attribute of the v2 catalog says where it comes from. -/
theorem attribute_provenance (i : In) (o : Out) (h : convert i = .ok o) (b : A2) (hb : b ∈ o.catalog) :
    AttrProvOf i b.key b.prov := by
  obtain ⟨hc, _⟩ := convert_parts i o h
  rw [hc] at hb
  obtain ⟨a, _, rfl⟩ := (mem_catalog2 i b).1 hb
  exact attrProv_spec i a.name

end Verif.Convert
