import Verif.View.ResolvedProps
/-
C211-C213: entities of associations, the dependencies of the view, the view of the first format; what does not hold.
-/
namespace Verif.View
open Verif.Util Verif.Resolver Verif.Semconv Verif.Convert

/-! ### C211 -/

/-- `v` stands in an association of a signal of the view. -/
def Associated (r : VReg) (v : VERef) : Prop :=
  (∃ m ∈ r.metrics, v ∈ leavesL m.assocs) ∨ (∃ m ∈ r.metricRefs, v ∈ leavesL m.sig.assocs) ∨
  (∃ m ∈ r.spans, v ∈ leavesL m.assocs) ∨ (∃ m ∈ r.spanRefs, v ∈ leavesL m.sig.assocs) ∨
  (∃ m ∈ r.events, v ∈ leavesL m.assocs) ∨ (∃ m ∈ r.eventRefs, v ∈ leavesL m.sig.assocs)

/-- This registry has an entity of that name. -/
def HasEntity (i : In) (name : String) : Prop := ∃ g ∈ i.groups, g.type = .entity ∧ EntityName g name

/-- Every registry recorded as the origin of an entity is a dependency, unless this registry has that entity. -/
def OriginsKnown (i : In) : Prop := ∀ gid n u, Origin i gid n u → u ∈ i.deps ∨ HasEntity i n

theorem shown_right {α β : Type} {R : α → β → Prop} {ka : α → String} {kb : β → String} {l : List α} {m : List β}
    (h : ShownInOrder R ka kb l m) {b : β} (hb : b ∈ m) : ∃ a ∈ l, R a b := by
  obtain ⟨l', hp, hf⟩ := h.perm
  obtain ⟨a, ha, hab⟩ := hf.mem_right hb
  exact ⟨a, hp.mem_iff.1 ha, hab⟩

theorem shown_left {α β : Type} {R : α → β → Prop} {ka : α → String} {kb : β → String} {l : List α} {m : List β}
    (h : ShownInOrder R ka kb l m) {a : α} (ha : a ∈ l) : ∃ b ∈ m, R a b := by
  obtain ⟨l', hp, hf⟩ := h.perm
  obtain ⟨b, hb, hab⟩ := hf.mem_left (hp.mem_iff.2 ha)
  exact ⟨b, hb, hab⟩

theorem leaf_seen {i : In} {ents : List (Refinement Entity)} {g : Grp} {l : List (Assoc ERef)} {m : List (Assoc VERef)}
    (h : AssocsOf i ents g l) (hs : ShowsAssocs i.deps l m) {v : VERef} (hv : v ∈ leavesL m) :
    (v.prov.source = none →
      (∃ e ∈ ents, e.id = v.type) ∨ ∃ u, Origin i g.id v.type u ∧ u ∉ i.deps) ∧
    ∀ u, v.prov.source = some u → u ∈ i.deps ∧ Origin i g.id v.type u := by
  obtain ⟨r, hr, hvt, hp⟩ := hs.2.mem_right hv
  obtain ⟨n, _, hn, h1, h2⟩ := h.2.mem_right hr
  have hvn : v.type = n := hvt.trans hn
  subst hvn
  refine ⟨fun hnone => ?_, fun u hu => ?_⟩
  · by_cases ho : ∃ u, Origin i g.id v.type u
    · obtain ⟨u, hu⟩ := ho
      by_cases hd : u ∈ i.deps
      · obtain ⟨k, hk, hk'⟩ := (h2 u hu).1 hd
        rcases hk' with hk' | ⟨_, e, he, hen, _⟩
        · have := hp.there k u hk' hk
          rw [hnone] at this; cases this
        · exact .inl ⟨e, he, hen⟩
      · exact .inr ⟨u, hu, hd⟩
    · exact .inl (h1 fun u hu => ho ⟨u, hu⟩).2
  · by_cases ho : ∃ u, Origin i g.id v.type u
    · obtain ⟨w, hw⟩ := ho
      by_cases hd : w ∈ i.deps
      · obtain ⟨k, hk, hk'⟩ := (h2 w hw).1 hd
        rcases hk' with hk' | ⟨hk', _⟩
        · have := hp.there k w hk' hk
          rw [hu] at this; cases this
          exact ⟨hd, hw⟩
        · have := hp.here hk'
          rw [hu] at this; cases this
      · have := hp.here ((h2 w hw).2 hd)
        rw [hu] at this; cases this
    · have := hp.here (h1 fun w hw => ho ⟨w, hw⟩).1
      rw [hu] at this; cases this

theorem associated_seen (i : In) (o : Out) (url : String) (r : VReg) (h : convert i = .ok o)
    (hr : show1 { url := url, deps := i.deps, out := o } = .ok r) (v : VERef) (hv : Associated r v) :
    (v.prov.source = none →
      (∃ e ∈ o.entityRefs, e.id = v.type) ∨ ∃ gid u, Origin i gid v.type u ∧ u ∉ i.deps) ∧
    ∀ u, v.prov.source = some u → u ∈ i.deps ∧ ∃ gid, Origin i gid v.type u := by
  have hs := signals_shown _ r hr
  have key : ∀ {g : Grp} {l : List (Assoc ERef)} {m : List (Assoc VERef)}, AssocsOf i o.entityRefs g l →
      ShowsAssocs i.deps l m → v ∈ leavesL m →
      (v.prov.source = none →
        (∃ e ∈ o.entityRefs, e.id = v.type) ∨ ∃ gid u, Origin i gid v.type u ∧ u ∉ i.deps) ∧
      ∀ u, v.prov.source = some u → u ∈ i.deps ∧ ∃ gid, Origin i gid v.type u := by
    intro g l m ha hm hvm
    obtain ⟨h1, h2⟩ := leaf_seen ha hm hvm
    refine ⟨fun hn => ?_, fun u hu => ⟨(h2 u hu).1, _, (h2 u hu).2⟩⟩
    rcases h1 hn with h | ⟨u, hu, hd⟩
    · exact .inl h
    · exact .inr ⟨_, u, hu, hd⟩
  rcases hv with ⟨m, hm, hl⟩ | ⟨m, hm, hl⟩ | ⟨m, hm, hl⟩ | ⟨m, hm, hl⟩ | ⟨m, hm, hl⟩ | ⟨m, hm, hl⟩
  · obtain ⟨a, ha, hab⟩ := shown_right hs.metrics hm
    obtain ⟨g, _, hg⟩ := (metrics_kept i o h).1.mem_right ha
    exact key hg.2.2.2.2.2.2 hab.assocs hl
  · obtain ⟨a, ha, hab⟩ := shown_right hs.metricRefs hm
    obtain ⟨g, _, hg⟩ := (metrics_kept i o h).2.mem_right ha
    exact key hg.1.2.2.2.2.2.2 hab.2.assocs hl
  · obtain ⟨a, ha, hab⟩ := shown_right hs.spans hm
    obtain ⟨g, _, hg⟩ := (spans_kept i o h).1.mem_right ha
    exact key hg.2.2.2.2.2.2.2 hab.assocs hl
  · obtain ⟨a, ha, hab⟩ := shown_right hs.spanRefs hm
    obtain ⟨g, _, hg⟩ := (spans_kept i o h).2.mem_right ha
    exact key hg.1.2.2.2.2.2.2.2 hab.2.assocs hl
  · obtain ⟨a, ha, hab⟩ := shown_right hs.events hm
    obtain ⟨g, _, hg⟩ := (events_kept i o h).1.mem_right ha
    exact key hg.2.2.2.2 hab.assocs hl
  · obtain ⟨a, ha, hab⟩ := shown_right hs.eventRefs hm
    obtain ⟨g, _, hg⟩ := (events_kept i o h).2.mem_right ha
    exact key hg.1.2.2.2.2 hab.2.assocs hl

/-- Looking for an entity by name in the view of a registry finds one exactly if the registry has one, and what it finds
has that name. -/
theorem defined_entity (i : In) (o : Out) (url : String) (r : VReg) (fs : List Forge) (h : convert i = .ok o)
    (hr : show1 { url := url, deps := i.deps, out := o } = .ok r) (n : String) :
    (HasEntity i n → ∃ e, definedEntity (.node url r fs) n = some e) ∧
    ∀ e, definedEntity (.node url r fs) n = some e →
      ∃ g ∈ i.groups, g.type = .entity ∧ EntityName g n ∧ SeenEntity i g e := by
  obtain ⟨_, _, _, hE, _, _, _, hR⟩ := groups_seen i o url r h hr
  refine ⟨fun ⟨g, hg, ht, hn⟩ => ?_, fun e he => ?_⟩
  · simp only [definedEntity, Forge.reg]
    split
    · exact ⟨_, rfl⟩
    · rename_i hnone
      obtain ⟨l, hp, hf⟩ := hR
      have hgl : g ∈ l := hp.mem_iff.2 (List.mem_filter.2 ⟨hg, decide_eq_true ht⟩)
      obtain ⟨v, hv, hsv, hname⟩ := hf.mem_left hgl
      have hvn : v.id = n := entityName_unique g _ _ hname hn
      cases hfind : r.entityRefs.find? (fun r => decide (r.id = n)) with
      | some x => exact ⟨_, rfl⟩
      | none =>
        have := List.find?_eq_none.1 hfind v hv
        simp [hvn] at this
  · simp only [definedEntity, Forge.reg] at he
    split at he
    · rename_i x hx
      cases he
      have hm := List.mem_of_find?_eq_some hx
      have ht : e.type = n := by simpa using List.find?_some hx
      obtain ⟨l, hp, hf⟩ := hE
      obtain ⟨g, hg, hs⟩ := hf.mem_right hm
      have hg' := hp.mem_iff.1 hg
      obtain ⟨hg1, hg2⟩ := List.mem_filter.1 hg'
      simp only [decide_eq_true_eq] at hg2
      exact ⟨g, hg1, hg2.1, ⟨fun hr => absurd hr hg2.2, fun hnr => ht ▸ hs.1 hnr⟩, hs⟩
    · cases hfind : r.entityRefs.find? (fun r => decide (r.id = n)) with
      | none => rw [hfind] at he; cases he
      | some x =>
        rw [hfind] at he
        cases he
        have hm := List.mem_of_find?_eq_some hfind
        have ht : x.id = n := by simpa using List.find?_some hfind
        obtain ⟨l, hp, hf⟩ := hR
        obtain ⟨g, hg, hs, hn⟩ := hf.mem_right hm
        obtain ⟨hg1, hg2⟩ := List.mem_filter.1 (hp.mem_iff.1 hg)
        exact ⟨g, hg1, of_decide_eq_true hg2, ht ▸ hn, hs⟩

/-- C211: an association without a source leads to an entity of this registry: the lookup finds an entity whose group has
the associated name. -/
theorem local_entities_found (i : In) (o : Out) (url : String) (r : VReg) (fs : List Forge) (h : convert i = .ok o)
    (hr : show1 { url := url, deps := i.deps, out := o } = .ok r) (hk : OriginsKnown i) (v : VERef) (hv : Associated r v)
    (hn : v.prov.source = none) :
    ∃ e, lookupEntity (.node url r fs) v = some e ∧
      ∃ g ∈ i.groups, g.type = .entity ∧ EntityName g v.type ∧ SeenEntity i g e := by
  have hl : lookupEntity (.node url r fs) v = definedEntity (.node url r fs) v.type := by
    simp only [lookupEntity, hn]
  obtain ⟨h1, h2⟩ := defined_entity i o url r fs h hr v.type
  have hhas : HasEntity i v.type := by
    rcases (associated_seen i o url r h hr v hv).1 hn with ⟨e, he, hen⟩ | ⟨gid, u, ho, hd⟩
    · obtain ⟨g, hg, _, hg2, hg3⟩ := (entities_kept i o h).2.mem_right he
      rename_i hgo
      obtain ⟨hgi, hgt⟩ := List.mem_filter.1 hg
      refine ⟨g, hgi, of_decide_eq_true hgt, fun hrf => hen ▸ hg2 hrf, fun hrf => ?_⟩
      rw [← hen, hg3 hrf]
      exact hgo.1 hrf
    · rcases hk gid _ u ho with h | h
      · exact absurd h hd
      · exact h
  obtain ⟨e, he⟩ := h1 hhas
  exact ⟨e, hl.trans he, h2 e he⟩

theorem showDeps_ok (resolve : String → Option Schema) (rec : Schema → Option (Except VErr Forge)) (us : List String)
    (fs : List Forge) (h : showDeps resolve rec us = some (.ok fs)) :
    Forall2 (fun u f => ∃ s, resolve u = some s ∧ rec s = some (.ok f)) us fs := by
  induction us generalizing fs with
  | nil => simp only [showDeps, Option.some.injEq, Except.ok.injEq] at h; subst h; exact .nil
  | cons u us ih =>
    simp only [showDeps] at h
    split at h
    · cases h
    · rename_i s hs
      split at h
      · cases h
      · cases h
      · rename_i f hf
        split at h
        · cases h
        · cases h
        · rename_i fs' hfs
          cases h
          exact .cons ⟨s, hs, hf⟩ (ih _ hfs)

/-- C212: the view of a schema holds the view of each of its dependencies, in order, and nothing else; each of them is the
schema that the resolver gives for its url. -/
theorem dependencies_shown (resolve : String → Option Schema) (n : Nat) (s : Schema) (f : Forge)
    (h : showAll resolve n s = some (.ok f)) :
    f.url = s.url ∧ show1 s = .ok f.reg ∧
    Forall2 (fun u d => ∃ s', resolve u = some s' ∧ ∃ m, m < n ∧ showAll resolve m s' = some (.ok d)) s.deps f.deps := by
  cases n with
  | zero => cases h
  | succ n =>
    simp only [showAll] at h
    split at h
    · cases h
    · rename_i r hr
      split at h
      · cases h
      · cases h
      · rename_i fs hfs
        cases h
        refine ⟨rfl, hr, (showDeps_ok _ _ _ _ hfs).mono ?_⟩
        rintro u d ⟨s', h1, h2⟩
        exact ⟨s', h1, n, Nat.lt_succ_self n, h2⟩

theorem find_dep (us : List String) (fs : List Forge) (P : String → Forge → Prop) (hu : ∀ u f, P u f → f.url = u)
    (h : Forall2 P us fs) (u : String) (hm : u ∈ us) :
    ∃ f, fs.find? (fun d => decide (d.url = u)) = some f ∧ P u f := by
  induction h with
  | nil => cases hm
  | cons hab _ ih =>
    rename_i w f us fs _
    rw [List.find?_cons]
    by_cases hw : f.url = u
    · have : w = u := (hu _ _ hab).symm.trans hw
      subst this
      exact ⟨f, by simp [hw], hab⟩
    · rcases List.mem_cons.1 hm with rfl | hm
      · exact absurd (hu _ _ hab) hw
      · obtain ⟨f', h1, h2⟩ := ih hm
        exact ⟨f', by simp [hw, h1], h2⟩

/-- C211: an association with a source leads to the dependency that resolution recorded, which is in the view, and to the
entity of that dependency. The dependency is itself a schema that resolution made, from `j`. -/
theorem foreign_entities_found (resolve : String → Option Schema) (hres : ∀ u s, resolve u = some s → s.url = u) (n : Nat)
    (i : In) (o : Out) (url : String) (f : Forge) (h : convert i = .ok o)
    (hf : showAll resolve n { url := url, deps := i.deps, out := o } = some (.ok f)) (v : VERef) (hv : Associated f.reg v)
    (u : String) (hu : v.prov.source = some u) :
    (∃ gid, Origin i gid v.type u) ∧ ∃ s, resolve u = some s ∧
      ∀ j o', convert j = .ok o' → s.deps = j.deps → s.out = o' →
        (HasEntity j v.type → ∃ e, lookupEntity f v = some e) ∧
        ∀ e, lookupEntity f v = some e → ∃ g ∈ j.groups, g.type = .entity ∧ EntityName g v.type ∧ SeenEntity j g e := by
  obtain ⟨_, h2, h3⟩ := dependencies_shown _ _ _ _ hf
  obtain ⟨hd, ho⟩ := (associated_seen i o url f.reg h h2 v hv).2 u hu
  obtain ⟨d, hfind, s, hs, m, _, hm⟩ := find_dep _ _ _ (fun u d ⟨s, hs, m, _, hm⟩ => by
    rw [(dependencies_shown _ _ _ _ hm).1]; exact hres u s hs) h3 u hd
  refine ⟨ho, s, hs, fun j o' hj hdeps hout => ?_⟩
  have hl : lookupEntity f v = definedEntity d v.type := by
    simp only [lookupEntity, hu, hfind]
  obtain ⟨_, hd2, _⟩ := dependencies_shown _ _ _ _ hm
  have hs' : s = { url := s.url, deps := j.deps, out := o' } := by rw [← hdeps, ← hout]
  rw [hs'] at hd2
  have := defined_entity j o' s.url d.reg d.deps hj hd2 v.type
  rw [hl]
  cases d
  exact this

/-- C211: a reference to a registry that is not in the view finds nothing, whatever this registry has. -/
theorem unknown_source (f : Forge) (v : VERef) (u : String) (hu : v.prov.source = some u) (h : ∀ d ∈ f.deps, d.url ≠ u) :
    lookupEntity f v = none := by
  have : f.deps.find? (fun d => decide (d.url = u)) = none := List.find?_eq_none.2 (by simpa using h)
  simp only [lookupEntity, hu, this]

example : lookupEntity (.node "a" ⟨[], [], [], [], [], [], [], [], [], []⟩ []) ⟨"e", ⟨some "b", none⟩⟩ = none :=
  unknown_source _ _ "b" rfl (by simp [Forge.deps])

/-! ### C213: the first format -/

/-- A group that was written in the second format and refines another one. -/
def RefinesV2 (g : Grp1) : Prop := g.isV2 = true ∧ ∃ l b, g.grp.lineage = some l ∧ l.extendsGroup = some b

/-- `v` shows the group `g`, with its attributes looked up. -/
def ShowsGrp1 (cat : List A1) (g : Grp1) (v : VGrp1) : Prop :=
  v.grp = g.grp ∧ Forall2 (fun n a => cat[n]? = some a) g.grp.attributes v.attributes

theorem isV2Refinement_iff (g : Grp1) : isV2Refinement g = true ↔ RefinesV2 g := by
  simp only [isV2Refinement, RefinesV2, Bool.and_eq_true]
  refine and_congr_right fun _ => ?_
  cases hl : g.grp.lineage with
  | none => simp
  | some l => cases hb : l.extendsGroup <;> simp [hb]

instance (g : Grp1) : Decidable (RefinesV2 g) := decidable_of_iff _ (isV2Refinement_iff g)

theorem lookup1_err (cat : List A1) (gid : String) (rs : List Nat) (e : NotFound) :
    e ∈ (lookup1 cat gid rs).2 ↔ ∃ x ∈ rs, cat.length ≤ x ∧ e = ⟨gid, x⟩ := by
  induction rs with
  | nil => simp [lookup1]
  | cons r rs ih =>
    simp only [lookup1]
    cases h : cat[r]? with
    | none =>
      have := List.getElem?_eq_none_iff.1 h
      simp [ih, this]
    | some a =>
      have := (List.getElem?_eq_some_iff.1 h).1
      simp only [ih, List.mem_cons]
      constructor
      · rintro ⟨x, hx, h⟩; exact ⟨x, .inr hx, h⟩
      · rintro ⟨x, hx | hx, h1, h2⟩
        · subst hx; omega
        · exact ⟨x, hx, h1, h2⟩

theorem lookup1_ok (cat : List A1) (gid : String) (rs : List Nat) (h : (lookup1 cat gid rs).2 = []) :
    Forall2 (fun n a => cat[n]? = some a) rs (lookup1 cat gid rs).1 := by
  induction rs with
  | nil => exact .nil
  | cons r rs ih =>
    simp only [lookup1] at h ⊢
    cases hc : cat[r]? with
    | none => rw [hc] at h; cases h
    | some a => rw [hc] at h; exact .cons hc (ih h)

/-- C213: a template of the first format sees every group but the refinements written in the second format, ordered by
id, each with its attributes; there is no view exactly if one of these groups refers to an attribute that is not in the
catalog, and the errors are those references. -/
theorem groups_shown (cat : List A1) (gs : List Grp1) :
    (∀ l, showRegistry1 cat gs = .ok l →
      ShownInOrder (ShowsGrp1 cat) (·.grp.id) (·.grp.id) (gs.filter fun g => !decide (RefinesV2 g)) l) ∧
    ((∃ l, showRegistry1 cat gs = .ok l) ↔
      ∀ g ∈ gs, ¬ RefinesV2 g → ∀ n ∈ g.grp.attributes, n < cat.length) ∧
    ∀ es, showRegistry1 cat gs = .error es → ∀ e, e ∈ es ↔
      ∃ g ∈ gs, ¬ RefinesV2 g ∧ e.group = g.grp.id ∧ e.ref ∈ g.grp.attributes ∧ cat.length ≤ e.ref := by
  have hfil : gs.filter (fun g => !isV2Refinement g) = gs.filter fun g => !decide (RefinesV2 g) := by
    apply List.filter_congr
    intro g _
    by_cases h : RefinesV2 g
    · simp [h, (isV2Refinement_iff g).2 h]
    · have : ¬ isV2Refinement g = true := fun h' => h ((isV2Refinement_iff g).1 h')
      simp [h, this]
  have hmem : ∀ e, e ∈ (loop (fun g : Grp1 => let as := lookup1 cat g.grp.id g.grp.attributes
      ((⟨g.grp, as.1⟩ : VGrp1), as.2)) (gs.filter fun g => !decide (RefinesV2 g))).2 ↔
      ∃ g ∈ gs, ¬ RefinesV2 g ∧ e.group = g.grp.id ∧ e.ref ∈ g.grp.attributes ∧ cat.length ≤ e.ref := by
    intro e
    rw [loop_err]
    simp only [lookup1_err, List.mem_filter, Bool.not_eq_true', decide_eq_false_iff_not]
    constructor
    · rintro ⟨g, ⟨hg, hr⟩, x, hx, hc, rfl⟩; exact ⟨g, hg, hr, rfl, hx, hc⟩
    · rintro ⟨g, hg, hr, h1, h2, h3⟩
      exact ⟨g, ⟨hg, hr⟩, e.ref, h2, h3, by cases e; simp_all⟩
  simp only [showRegistry1, hfil]
  refine ⟨fun l h => ?_, ⟨fun ⟨l, h⟩ => ?_, fun h => ?_⟩, fun es h e => ?_⟩
  · split at h
    · cases h
    · rename_i hne
      cases h
      apply byKey_shown
      · rintro a b ⟨h1, _⟩; rw [h1]
      · exact loop_ok _ _ (fun g hg => ⟨rfl, lookup1_ok _ _ _ hg⟩) (Decidable.not_not.1 hne)
  · split at h
    · cases h
    · rename_i hne
      intro g hg hr n hn
      apply Decidable.byContradiction
      intro hc
      have := (hmem ⟨g.grp.id, n⟩).2 ⟨g, hg, hr, rfl, hn, Nat.le_of_not_lt hc⟩
      rw [Decidable.not_not.1 hne] at this
      cases this
  · split
    · rename_i hne
      obtain ⟨e, he⟩ := List.exists_mem_of_ne_nil _ hne
      obtain ⟨g, hg, hr, _, h2, h3⟩ := (hmem e).1 he
      exact absurd (h g hg hr _ h2) (Nat.not_lt.2 h3)
    · exact ⟨_, rfl⟩
  · split at h
    · cases h; exact hmem e
    · cases h

/-! ### What does not hold -/

/-- C209: a reference of the list of attributes of the registry that leads nowhere gives no error: the attribute is left
out of the view. -/
theorem dangling_attribute_refuted : ∃ s r, (∃ n ∈ s.out.attributes, s.out.catalog.length ≤ n) ∧ show1 s = .ok r ∧
    r.attributes = [] := by
  refine ⟨{ url := "u", deps := [], out := { attributes := [0] } }, _, ⟨0, by simp, by simp⟩, rfl, rfl⟩

/-- C208: the view depends on the order of the attribute groups, while no other kind shows that order. -/
theorem group_order_refuted : ∃ (s t : Schema) (r q : VReg), s.out.groups.Perm t.out.groups ∧
    { s with out := { s.out with groups := [] } } = { t with out := { t.out with groups := [] } } ∧
    show1 s = .ok r ∧ show1 t = .ok q ∧ r.groups.map (·.id) ≠ q.groups.map (·.id) := by
  let c : Common := { brief := "", note := "", stability := .stable, deprecated := none, annotations := [] }
  let g : AGroup := { id := "a", attributes := [], common := c, prov := {} }
  let h : AGroup := { id := "b", attributes := [], common := c, prov := {} }
  exact ⟨{ url := "u", deps := [], out := { groups := [g, h] } }, { url := "u", deps := [], out := { groups := [h, g] } }, _, _,
    List.Perm.swap _ _ _, rfl, rfl, rfl, by decide⟩

theorem loop_map {α β : Type} (f : α → β × List NotFound) (l : List α) : (loop f l).1 = l.map fun a => (f a).1 := by
  induction l with
  | nil => rfl
  | cons a l ih => simp [loop, ih]

theorem byKey_perm {α β : Type} (f : α → β × List NotFound) (ka : α → String) (kb : β → String)
    (hk : ∀ a, kb (f a).1 = ka a) {l l' : List α} (hp : l.Perm l') (hn : (l.map ka).Nodup) :
    byKey kb (loop f l).1 = byKey kb (loop f l').1 := by
  rw [loop_map, loop_map]
  refine sortBy_perm_inv (keyLe_total kb) ?_ (hp.map _)
  intro x hx y hy h1 h2
  obtain ⟨a, ha, rfl⟩ := List.mem_map.1 hx
  obtain ⟨b, hb, rfl⟩ := List.mem_map.1 hy
  have hab : ka a = ka b := by
    have := String.le_antisymm (by simpa using h1) (by simpa using h2)
    rwa [hk, hk] at this
  obtain ⟨n, hn', rfl⟩ := List.mem_iff_getElem.1 ha
  obtain ⟨m, hm', rfl⟩ := List.mem_iff_getElem.1 hb
  have : n = m := (List.getElem_inj (xs := l.map ka) (i := n) (j := m) (h₀ := by simpa using hn')
    (h₁ := by simpa using hm') hn).1 (by simpa using hab)
  subst this; rfl

/-- C208: apart from attribute groups, the order of the schema does not show: with distinct names within each kind,
reordering the items gives the same view. -/
theorem order_unseen_partial (s t : Schema) (r q : VReg) (hd : s.deps = t.deps) (hc : s.out.catalog = t.out.catalog)
    (hm : s.out.metrics.Perm t.out.metrics) (hmr : s.out.metricRefs.Perm t.out.metricRefs)
    (hs : s.out.spans.Perm t.out.spans) (hsr : s.out.spanRefs.Perm t.out.spanRefs)
    (he : s.out.events.Perm t.out.events) (her : s.out.eventRefs.Perm t.out.eventRefs)
    (hn : s.out.entities.Perm t.out.entities) (hnr : s.out.entityRefs.Perm t.out.entityRefs)
    (hg : s.out.groups = t.out.groups) (ha : s.out.attributes = t.out.attributes)
    (dm : (s.out.metrics.map (·.name)).Nodup) (dmr : (s.out.metricRefs.map (·.id)).Nodup)
    (ds : (s.out.spans.map (·.type)).Nodup) (dsr : (s.out.spanRefs.map (·.id)).Nodup)
    (de : (s.out.events.map (·.name)).Nodup) (der : (s.out.eventRefs.map (·.id)).Nodup)
    (dn : (s.out.entities.map (·.type)).Nodup) (dnr : (s.out.entityRefs.map (·.id)).Nodup)
    (hr : show1 s = .ok r) (hq : show1 t = .ok q) : r = q := by
  simp only [show1] at hr hq
  split at hr
  · cases hr
  split at hq
  · cases hq
  cases hr; cases hq
  rw [VReg.mk.injEq]
  rw [← hd, ← hc, ← hg, ← ha]
  refine ⟨rfl, rfl, ?_, ?_, ?_, ?_, ?_, ?_, ?_, ?_⟩
  · exact byKey_perm _ (·.name) _ (fun _ => rfl) hm dm
  · exact byKey_perm _ (·.type) _ (fun _ => rfl) hs ds
  · exact byKey_perm _ (·.name) _ (fun _ => rfl) he de
  · exact byKey_perm _ (·.type) _ (fun _ => rfl) hn dn
  · exact byKey_perm _ (·.id) _ (fun _ => rfl) hmr dmr
  · exact byKey_perm _ (·.id) _ (fun _ => rfl) hsr dsr
  · exact byKey_perm _ (·.id) _ (fun _ => rfl) her der
  · exact byKey_perm _ (·.id) _ (fun _ => rfl) hnr dnr

/-! ### Examples -/

/-- The registry `sample` has a local and a foreign association, and can be shown. -/
def sampleView : Except (List NotFound) VReg :=
  match convert sample with
  | .ok o => show1 { url := "here", deps := sample.deps, out := o }
  | .error _ => .error []

example : ∃ o r, convert sample = .ok o ∧ show1 { url := "here", deps := sample.deps, out := o } = .ok r := by
  obtain ⟨o, ho⟩ := (convert_ok_iff sample).2 sample_convertible
  obtain ⟨r, hr⟩ := resolved_shown sample o "here" ho
  exact ⟨o, r, ho, hr⟩

example : (match sampleView with
    | .ok r => decide (r.metrics.map (·.name) = ["m"] ∧
        r.metrics.map (fun m => (leavesL m.assocs).map (fun v => (v.type, v.prov.source))) =
          [[("host", none), ("far", some "u2")]] ∧
        (lookupEntity (.node "here" r []) { type := "host", prov := { source := none, path := none } }).map (·.type) =
          some "host")
    | .error _ => false) = true := by decide +kernel

example : OriginsKnown sample := by
  rintro gid n u ⟨m, hm, hu⟩
  left
  have hgid : gid = "metric.m" := by
    by_cases h : gid = "metric.m"
    · exact h
    · simp [sample, aget, Ne.symm h] at hm
  subst hgid
  have : m = [("far", "u2")] := by
    have h2 : aget "metric.m" sample.origins = some [("far", "u2")] := by decide
    rw [h2] at hm; exact (Option.some.inj hm).symm
  subst this
  by_cases h : n = "far"
  · subst h
    have h2 : aget "far" [("far", "u2")] = some "u2" := by decide
    rw [h2] at hu; cases hu; decide
  · simp [aget, Ne.symm h] at hu

/-- Two registries, one depending on the other. -/
example : let s : Schema := { url := "a", deps := ["b"], out := {} }
    let t : Schema := { url := "b", deps := [], out := {} }
    ∃ f, showAll (fun u => if u = "b" then some t else none) 2 s = some (.ok f) ∧ f.deps.map (·.url) = ["b"] :=
  ⟨_, rfl, by decide⟩

/-- A group and a refinement, both written in the second format. -/
def exGroup : Grp1 := { grp := { id := "b", type := .metric, attributes := [0] }, isV2 := true }
def exRefinement : Grp1 where
  grp := { id := "a", type := .metric, attributes := [7], lineage := some { url := "", extendsGroup := some "b" } }
  isV2 := true

/-- The refinement is not seen, even if it refers to nothing. -/
example : (∃ l, showRegistry1 [{ name := "x" }] [exGroup, exRefinement] = .ok l ∧ l.map (·.grp.id) = ["b"]) ∧
    RefinesV2 exRefinement ∧ showRegistry1 [] [exGroup, exRefinement] = .error [⟨"b", 0⟩] :=
  ⟨⟨_, rfl, by decide⟩, by decide, rfl⟩

end Verif.View
