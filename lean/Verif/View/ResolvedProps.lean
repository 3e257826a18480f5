import Verif.View.Props
/-
C210-C213: what templates see of the groups that resolution made, how entities of associations are found, and the view of
the first format.
-/
namespace Verif.View
open Verif.Util Verif.Resolver Verif.Semconv Verif.Convert

/-! ### Specification -/

/-- `v` shows the resolved attribute `a`. -/
def SeenAttr (a : A1) (v : VAttr) : Prop :=
  v.key = a.name ∧ v.type = a.type ∧ v.examples = a.examples ∧
  SameCommon a.brief a.note a.stability a.deprecated a.annotations v.common

/-- `v` shows the attribute at place `r` of the catalog of resolution. -/
def SeenRef (i : In) (sampling : Bool) (r : Nat) (v : VRef) : Prop :=
  ∃ a, i.catalog[r]? = some a ∧ SeenAttr a v.base ∧ v.requirement = a.requirement ∧
    v.sampling = if sampling then a.sampling else none

/-- The shown provenance names the file, if known, and the dependency that declared the group, unless this registry did. -/
def SeenProv (i : In) (g : Grp) (v : VProv) : Prop :=
  (g.lineage = none → v.source = none ∧ v.path = none) ∧
  ∀ l, g.lineage = some l →
    (∀ u, v.source = some u ↔ u = l.url ∧ l.url ≠ i.registryUrl ∧ l.url ∈ i.deps) ∧
    (∀ p, v.path = some p ↔ p = l.path ∧ l.path ≠ "")

/-- The parts every signal has. -/
def SeenPlain (i : In) (g : Grp) (c : Common) (v : VProv) : Prop :=
  SameCommon g.brief g.note g.stability g.deprecated g.annotations c ∧ SeenProv i g v

/-- The attributes of the group, in order, without those that are not in the catalog. -/
def SeenRefs (i : In) (sampling : Bool) (g : Grp) (l : List VRef) : Prop :=
  Forall2 (SeenRef i sampling) (g.attributes.filter fun r => r < i.catalog.length) l

def SeenMetric (i : In) (g : Grp) (v : VMetric) : Prop :=
  g.metricName = some v.name ∧ g.instrument = some v.instrument ∧ g.unit = some v.unit ∧ v.requirement = g.requirement ∧
  SeenPlain i g v.common v.prov ∧ SeenRefs i false g v.attributes ∧ mapAssocL (·.type) v.assocs = g.assocs

def SeenEvent (i : In) (g : Grp) (v : VEvent) : Prop :=
  g.name = some v.name ∧ v.requirement = g.requirement ∧
  SeenPlain i g v.common v.prov ∧ SeenRefs i false g v.attributes ∧ mapAssocL (·.type) v.assocs = g.assocs

def SeenSpan (i : In) (g : Grp) (v : VSpan) : Prop :=
  (¬ Refines g → Checks.Stripped "span." g.id v.type) ∧
  (g.spanKind = some v.kind ∨ g.spanKind = none ∧ v.kind = "internal") ∧ v.requirement = g.requirement ∧
  SeenPlain i g v.common v.prov ∧ SeenRefs i true g v.attributes ∧ mapAssocL (·.type) v.assocs = g.assocs

def SeenEntity (i : In) (g : Grp) (v : VEntity) : Prop :=
  (¬ Refines g → DeclaredType g v.type) ∧ v.requirement = g.requirement ∧ SeenPlain i g v.common v.prov ∧
  Forall2 (SeenRef i false) (g.attributes.filter (Identifying i)) v.identity ∧
  Forall2 (SeenRef i false) (g.attributes.filter (fun r => !Identifying i r)) v.description

/-! ### Permutations -/

theorem forall2_perm {α β : Type} {R : α → β → Prop} {l : List α} {m m' : List β} (h : Forall2 R l m) (hp : m.Perm m') :
    ∃ l', l'.Perm l ∧ Forall2 R l' m' := by
  induction hp generalizing l with
  | nil => exact ⟨l, .refl _, h⟩
  | cons b _ ih =>
    cases h with
    | cons hab h =>
      obtain ⟨l', hp', h'⟩ := ih h
      exact ⟨_ :: l', hp'.cons _, .cons hab h'⟩
  | swap b c m =>
    cases h with
    | cons hab h => cases h with
      | cons hcd h => exact ⟨_, List.Perm.swap _ _ _, .cons hcd (.cons hab h)⟩
  | trans _ _ ih1 ih2 =>
    obtain ⟨l1, hp1, h1⟩ := ih1 h
    obtain ⟨l2, hp2, h2⟩ := ih2 h1
    exact ⟨l2, hp2.trans hp1, h2⟩

theorem forall2_perm_left {α β : Type} {R : α → β → Prop} {l l' : List α} {m : List β} (h : Forall2 R l m)
    (hp : l.Perm l') : ∃ m', m'.Perm m ∧ Forall2 R l' m' := by
  induction hp generalizing m with
  | nil => exact ⟨m, .refl _, h⟩
  | cons b _ ih =>
    cases h with
    | cons hab h =>
      obtain ⟨l', hp', h'⟩ := ih h
      exact ⟨_ :: l', hp'.cons _, .cons hab h'⟩
  | swap b c m =>
    cases h with
    | cons hab h => cases h with
      | cons hcd h => exact ⟨_, List.Perm.swap _ _ _, .cons hcd (.cons hab h)⟩
  | trans _ _ ih1 ih2 =>
    obtain ⟨l1, hp1, h1⟩ := ih1 h
    obtain ⟨l2, hp2, h2⟩ := ih2 h1
    exact ⟨l2, hp2.trans hp1, h2⟩

theorem shown_perm {α β : Type} {R : α → β → Prop} {ka : α → String} {kb : β → String} :
    ∀ {m : List β} {l : List α},
    (∀ k, Forall2 R (l.filter fun a => decide (ka a = k)) (m.filter fun b => decide (kb b = k))) →
    ∃ l', l'.Perm l ∧ Forall2 R l' m := by
  intro m
  induction m with
  | nil =>
    intro l h
    cases l with
    | nil => exact ⟨[], .refl _, .nil⟩
    | cons a l =>
      have := h (ka a)
      rw [List.filter_cons, if_pos (by simp)] at this
      cases this
  | cons b m ih =>
    intro l h
    have hb := h (kb b)
    rw [List.filter_cons (xs := m), if_pos (by simp)] at hb
    generalize hf : l.filter (fun a => decide (ka a = kb b)) = f at hb
    cases hb with
    | cons hab hr =>
      rename_i a rest
      obtain ⟨l₁, l₂, rfl, h1, h2, h3⟩ := List.filter_eq_cons_iff.1 hf
      obtain ⟨l', hp, hl'⟩ := ih (l := l₁ ++ l₂) fun k => by
        have hk := h k
        by_cases hkk : kb b = k
        · subst hkk
          have : l₁.filter (fun a => decide (ka a = kb b)) = [] := by
            rw [List.filter_eq_nil_iff]; exact h1
          rw [List.filter_append, this, List.nil_append, h3]
          exact hr
        · rw [List.filter_cons, if_neg (by simpa using hkk)] at hk
          have hka : ¬ ka a = k := fun h => hkk (by rw [← h]; exact (by simpa using h2 : ka a = kb b).symm)
          rw [List.filter_append, List.filter_cons, if_neg (by simpa using hka), ← List.filter_append] at hk
          exact hk
      exact ⟨a :: l', (hp.cons a).trans List.perm_middle.symm, .cons hab hl'⟩

/-- The items of `m` show those of `l` in some order. -/
theorem ShownInOrder.perm {α β : Type} {R : α → β → Prop} {ka : α → String} {kb : β → String} {l : List α} {m : List β}
    (h : ShownInOrder R ka kb l m) : ∃ l', l'.Perm l ∧ Forall2 R l' m := shown_perm h.2

theorem forall2_comp {α β γ : Type} {R : α → β → Prop} {S : β → γ → Prop} {T : α → γ → Prop}
    (hrs : ∀ a b c, R a b → S b c → T a c) {l : List α} {m : List β} {n : List γ} (h : Forall2 R l m)
    (h' : Forall2 S m n) : Forall2 T l n := by
  induction h generalizing n with
  | nil => cases h'; exact .nil
  | cons hab _ ih => cases h' with
    | cons hbc h' => exact .cons (hrs _ _ _ hab hbc) (ih h')

/-- What is shown of items made from groups, one by one. -/
theorem seen {β γ : Type} {R : Grp → β → Prop} {S : β → γ → Prop} {T : Grp → γ → Prop}
    {ka : β → String} {kb : γ → String} (hrs : ∀ a b c, R a b → S b c → T a c) {l : List Grp} {m : List β}
    {n : List γ} (h : Forall2 R l m) (h' : ShownInOrder S ka kb m n) :
    ∃ l', l'.Perm l ∧ Forall2 T l' n := by
  obtain ⟨m', hp, hs⟩ := h'.perm
  obtain ⟨l', hp', hr⟩ := forall2_perm h hp.symm
  exact ⟨l', hp', forall2_comp hrs hr hs⟩

/-! ### Single items -/

theorem seenProv (i : In) (g : Grp) (p : Prov) (v : VProv) (h : ProvOf i g p) (hs : ShowsProv i.deps p v) :
    SeenProv i g v := by
  refine ⟨fun hn => ?_, fun l hl => ⟨fun u => ?_, fun q => ?_⟩⟩
  · obtain ⟨h1, h2⟩ := h.1 hn
    exact ⟨hs.here h1, hs.noPath h2⟩
  · obtain ⟨_, hsrc⟩ := h.2 l hl
    rcases hsrc with ⟨hor, hn⟩ | ⟨hne, n, hn, hd⟩
    · rw [hs.here hn]
      constructor
      · intro h; cases h
      · rintro ⟨_, h1, h2⟩
        rcases hor with hor | hor
        · exact absurd hor h1
        · exact absurd h2 hor
    · rw [hs.there n l.url hn hd]
      constructor
      · intro h; cases h; exact ⟨rfl, hne, List.mem_of_getElem? hd⟩
      · rintro ⟨rfl, _⟩; rfl
  · obtain ⟨hp, _⟩ := h.2 l hl
    by_cases he : p.path = ""
    · rw [hs.noPath he]
      constructor
      · intro h; cases h
      · rintro ⟨_, h2⟩; exact absurd (hp ▸ he) h2
    · rw [hs.path he]
      constructor
      · intro h; cases h; exact ⟨hp, hp ▸ he⟩
      · rintro ⟨rfl, _⟩; rw [hp]

theorem seenRef (i : In) (o : Out) (b : Bool) (r : Nat) (x : ARef) (v : VRef) (h : RefOf i o.catalog b r x)
    (hs : ShowsRef o.catalog i.deps x v) : SeenRef i b r v := by
  obtain ⟨a, b', ha, hb, hab, h1, h2⟩ := h
  obtain ⟨⟨c, hc, hv⟩, h3, h4⟩ := hs
  rw [hb] at hc; cases hc
  refine ⟨a, ha, ⟨?_, ?_, ?_, ?_⟩, ?_, ?_⟩
  · rw [hv.key]; exact hab.1
  · rw [hv.type]; exact hab.2.1
  · rw [hv.examples]; exact hab.2.2.1
  · rw [hv.common]; exact hab.2.2.2
  · rw [h3, h1]
  · rw [h4, h2]

theorem seenMetric (i : In) (o : Out) (g : Grp) (m : Metric) (v : VMetric) (h : MetricOf i o g m)
    (hs : ShowsMetric o.catalog i.deps m v) : SeenMetric i g v := by
  obtain ⟨h1, h2, h3, h4, h5, h6, h7⟩ := h
  refine ⟨hs.name ▸ h1, hs.instrument ▸ h2, hs.unit ▸ h3, hs.requirement ▸ h4, ⟨hs.common ▸ h5.1, ?_⟩, ?_, ?_⟩
  · exact seenProv i g _ _ h5.2 hs.prov
  · exact forall2_comp (fun a b c => seenRef i o false a b c) h6 hs.attributes
  · rw [hs.assocs.1]; exact h7.1

theorem seenEvent (i : In) (o : Out) (g : Grp) (m : Event) (v : VEvent) (h : EventOf i o g m)
    (hs : ShowsEvent o.catalog i.deps m v) : SeenEvent i g v := by
  obtain ⟨h1, h4, h5, h6, h7⟩ := h
  refine ⟨hs.name ▸ h1, hs.requirement ▸ h4, ⟨hs.common ▸ h5.1, ?_⟩, ?_, ?_⟩
  · exact seenProv i g _ _ h5.2 hs.prov
  · exact forall2_comp (fun a b c => seenRef i o false a b c) h6 hs.attributes
  · rw [hs.assocs.1]; exact h7.1

theorem seenSpan (i : In) (o : Out) (g : Grp) (m : Span) (v : VSpan) (h : SpanOf i o g m)
    (hs : ShowsSpan o.catalog i.deps m v) : SeenSpan i g v := by
  obtain ⟨h1, _, h3, _, h4, h5, h6, h7⟩ := h
  refine ⟨hs.type ▸ h1, hs.kind ▸ h3, hs.requirement ▸ h4, ⟨hs.common ▸ h5.1, ?_⟩, ?_, ?_⟩
  · exact seenProv i g _ _ h5.2 hs.prov
  · exact forall2_comp (fun a b c => seenRef i o true a b c) h6 hs.attributes
  · rw [hs.assocs.1]; exact h7.1

theorem seenEntity (i : In) (o : Out) (g : Grp) (m : Entity) (v : VEntity) (h : EntityOf i o g m)
    (hs : ShowsEntity o.catalog i.deps m v) : SeenEntity i g v := by
  obtain ⟨h1, _, h4, h5, h6, h7⟩ := h
  refine ⟨hs.type ▸ h1, hs.requirement ▸ h4, ⟨hs.common ▸ h5.1, ?_⟩, ?_, ?_⟩
  · exact seenProv i g _ _ h5.2 hs.prov
  · exact forall2_comp (fun a b c => seenRef i o false a b c) h6 hs.identity
  · exact forall2_comp (fun a b c => seenRef i o false a b c) h7 hs.description

/-! ### C210 -/

theorem refs_exist {i : In} {cat : List A2} {b : Bool} {rs : List Nat} {l : List ARef} (h : Forall2 (RefOf i cat b) rs l)
    {x : ARef} (hx : x ∈ l) : ¬ cat.length ≤ x.base := by
  obtain ⟨r, _, a, c, _, hc, _⟩ := h.mem_right hx
  intro hn
  rw [List.getElem?_eq_none_iff.2 hn] at hc; cases hc

/-- C210: a schema that resolution made can always be shown. -/
theorem resolved_shown (i : In) (o : Out) (url : String) (h : convert i = .ok o) :
    ∃ r, show1 { url := url, deps := i.deps, out := o } = .ok r := by
  rw [(dangling_reported_partial _).1]
  intro e he
  cases he with
  | metric m hm x hx hd =>
    obtain ⟨g, _, hg⟩ := (metrics_kept i o h).1.mem_right hm
    exact refs_exist hg.2.2.2.2.2.1 hx hd
  | metricRef m hm x hx hd =>
    obtain ⟨g, _, hg⟩ := (metrics_kept i o h).2.mem_right hm
    exact refs_exist hg.1.2.2.2.2.2.1 hx hd
  | span m hm x hx hd =>
    obtain ⟨g, _, hg⟩ := (spans_kept i o h).1.mem_right hm
    exact refs_exist hg.2.2.2.2.2.2.1 hx hd
  | spanRef m hm x hx hd =>
    obtain ⟨g, _, hg⟩ := (spans_kept i o h).2.mem_right hm
    exact refs_exist hg.1.2.2.2.2.2.2.1 hx hd
  | event m hm x hx hd =>
    obtain ⟨g, _, hg⟩ := (events_kept i o h).1.mem_right hm
    exact refs_exist hg.2.2.2.1 hx hd
  | eventRef m hm x hx hd =>
    obtain ⟨g, _, hg⟩ := (events_kept i o h).2.mem_right hm
    exact refs_exist hg.1.2.2.2.1 hx hd
  | entity m hm x hx hd =>
    obtain ⟨g, _, hg⟩ := (entities_kept i o h).1.mem_right hm
    rcases hx with hx | hx
    · exact refs_exist hg.2.2.2.2.1 hx hd
    · exact refs_exist hg.2.2.2.2.2 hx hd
  | entityRef m hm x hx hd =>
    obtain ⟨g, _, hg⟩ := (entities_kept i o h).2.mem_right hm
    rcases hx with hx | hx
    · exact refs_exist hg.1.2.2.2.2.1 hx hd
    · exact refs_exist hg.1.2.2.2.2.2 hx hd
  | group m hm x hx hd =>
    obtain ⟨g, _, hg⟩ := (attribute_groups_kept i o h).mem_right hm
    exact refs_exist hg.2.2 hx hd

/-- C210: what templates see are the groups resolution made: every group that defines a signal is seen exactly once, as a
signal of its kind, with what the group says; and the same groups together with those that refine them are seen as
refinements. -/
theorem groups_seen (i : In) (o : Out) (url : String) (r : VReg) (h : convert i = .ok o)
    (hr : show1 { url := url, deps := i.deps, out := o } = .ok r) :
    (∃ l, l.Perm (definitions .metric i.groups) ∧ Forall2 (SeenMetric i) l r.metrics) ∧
    (∃ l, l.Perm (definitions .span i.groups) ∧ Forall2 (SeenSpan i) l r.spans) ∧
    (∃ l, l.Perm (definitions .event i.groups) ∧ Forall2 (SeenEvent i) l r.events) ∧
    (∃ l, l.Perm (definitions .entity i.groups) ∧ Forall2 (SeenEntity i) l r.entities) ∧
    (∃ l, l.Perm (ofType .metric i.groups) ∧ Forall2 (fun g v => SeenMetric i g v.sig ∧
      (Refines g → Checks.Stripped "metric." g.id v.id) ∧ (¬ Refines g → v.id = v.sig.name)) l r.metricRefs) ∧
    (∃ l, l.Perm (ofType .span i.groups) ∧ Forall2 (fun g v => SeenSpan i g v.sig ∧
      Checks.Stripped "span." g.id v.id) l r.spanRefs) ∧
    (∃ l, l.Perm (ofType .event i.groups) ∧ Forall2 (fun g v => SeenEvent i g v.sig ∧
      (Refines g → Checks.Stripped "event." g.id v.id) ∧ (¬ Refines g → v.id = v.sig.name)) l r.eventRefs) ∧
    (∃ l, l.Perm (ofType .entity i.groups) ∧ Forall2 (fun g v => SeenEntity i g v.sig ∧ EntityName g v.id) l
      r.entityRefs) := by
  have hs := signals_shown _ r hr
  refine ⟨seen (seenMetric i o) (metrics_kept i o h).1 hs.metrics, seen (seenSpan i o) (spans_kept i o h).1 hs.spans,
    seen (seenEvent i o) (events_kept i o h).1 hs.events, seen (seenEntity i o) (entities_kept i o h).1 hs.entities,
    seen ?_ (metrics_kept i o h).2 hs.metricRefs, seen ?_ (spans_kept i o h).2 hs.spanRefs,
    seen ?_ (events_kept i o h).2 hs.eventRefs, seen ?_ (entities_kept i o h).2 hs.entityRefs⟩
  · rintro g m v ⟨h1, h2, h3⟩ ⟨h4, h5⟩
    exact ⟨seenMetric i o g _ _ h1 h5, fun hg => h4 ▸ h2 hg, fun hg => by rw [h4, h3 hg, h5.name]⟩
  · rintro g m v ⟨h1, h2⟩ ⟨h4, h5⟩
    exact ⟨seenSpan i o g _ _ h1 h5, h4 ▸ h2⟩
  · rintro g m v ⟨h1, h2, h3⟩ ⟨h4, h5⟩
    exact ⟨seenEvent i o g _ _ h1 h5, fun hg => h4 ▸ h2 hg, fun hg => by rw [h4, h3 hg, h5.name]⟩
  · rintro g m v ⟨h1, h2, h3⟩ ⟨h4, h5⟩
    refine ⟨seenEntity i o g _ _ h1 h5, fun hg => h4 ▸ h2 hg, fun hg => ?_⟩
    rw [h4, h3 hg]; exact h1.1 hg

/-- C210: the attributes templates see are exactly those some group defines, ordered by name. -/
theorem attributes_seen (i : In) (o : Out) (url : String) (r : VReg) (h : convert i = .ok o)
    (hr : show1 { url := url, deps := i.deps, out := o } = .ok r) :
    r.attributes.Pairwise (fun a b => a.key ≤ b.key) ∧
    (∀ v ∈ r.attributes, ∃ g ∈ i.groups, ∃ a, DefinesAttr i g a ∧ SeenAttr a v) ∧
    ∀ g ∈ i.groups, ∀ a, DefinesAttr i g a → ∃ v ∈ r.attributes, SeenAttr a v := by
  obtain ⟨as, h1, h2⟩ := (signals_shown _ r hr).attributes
  obtain ⟨hpw, hmem⟩ := registry_attributes i o h
  obtain ⟨as', hp, hf⟩ := h2.perm
  have key : ∀ (a : A1) (b : A2) (v : VAttr), SameAttr a b → ShowsAttr i.deps b v → SeenAttr a v := by
    intro a b v hab hv
    exact ⟨by rw [hv.key]; exact hab.1, by rw [hv.type]; exact hab.2.1, by rw [hv.examples]; exact hab.2.2.1,
      by rw [hv.common]; exact hab.2.2.2⟩
  refine ⟨h2.1, fun v hv => ?_, fun g hg a ha => ?_⟩
  · obtain ⟨b, hb, hbv⟩ := hf.mem_right hv
    obtain ⟨n, hn, hnb⟩ := h1.mem_right ((hp.mem_iff).1 hb)
    obtain ⟨g, hg, a, ha, b', hb', hab⟩ := (hmem n).1 (List.mem_filter.1 hn).1
    rw [hb'] at hnb; cases hnb
    exact ⟨g, hg, a, ha, key a _ v hab hbv⟩
  · have hcat : ∃ (n : Nat) (b : A2), o.catalog[n]? = some b ∧ SameAttr a b := by
      obtain ⟨⟨rr, _, hra⟩, _⟩ := ha
      obtain ⟨b, hb, hab⟩ := (catalog_kept i o h).1 a (List.mem_of_getElem? hra)
      obtain ⟨n, hn⟩ := List.mem_iff_getElem?.1 hb
      exact ⟨n, b, hn, hab⟩
    obtain ⟨n, b, hn, hab⟩ := hcat
    have hno : n ∈ o.attributes := (hmem n).2 ⟨g, hg, a, ha, b, hn, hab⟩
    have hlt : n < o.catalog.length := (List.getElem?_eq_some_iff.1 hn).1
    obtain ⟨b', hb', hnb⟩ := h1.mem_left (List.mem_filter.2 ⟨hno, by simpa using hlt⟩)
    have : b' = b := by rw [hn] at hnb; exact (Option.some.inj hnb).symm
    subst this
    obtain ⟨v, hv, hbv⟩ := hf.mem_left ((hp.mem_iff).2 hb')
    exact ⟨v, hv, key a _ v hab hbv⟩

end Verif.View
