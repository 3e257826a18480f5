import Verif.Convert.Spec
import Verif.Semconv.AssocProps
/-
C13: what the conversion of a resolved schema to v2 keeps.
-/
namespace Verif.Convert
open Verif.Util Verif.Resolver Verif.Semconv

theorem refines_iff (g : Grp) : refines g = true ↔ Refines g := by
  unfold refines Checks.isRefinementOf Refines Grp.view
  cases g.lineage <;> simp

theorem refines_eq (g : Grp) : refines g = decide (Refines g) := by
  rw [Bool.eq_iff_iff, refines_iff, decide_eq_true_iff]

/-! ### Parts of an item -/

theorem findIdx?_iff {α : Type} [DecidableEq α] (l : List α) (x : α) :
    (x ∉ l ∧ l.findIdx? (fun u => decide (u = x)) = none) ∨
    ∃ n, l.findIdx? (fun u => decide (u = x)) = some n ∧ l[n]? = some x := by
  cases h : l.findIdx? (fun u => decide (u = x)) with
  | none =>
    left
    refine ⟨fun hm => ?_, rfl⟩
    have := List.findIdx?_eq_none_iff.1 h x hm
    simp at this
  | some n =>
    right
    obtain ⟨hn, hx, _⟩ := List.findIdx?_eq_some_iff_getElem.1 h
    exact ⟨n, rfl, by rw [List.getElem?_eq_getElem hn, of_decide_eq_true hx]⟩

theorem groupProv_spec (i : In) (g : Grp) : ProvOf i g (groupProv i g) := by
  unfold ProvOf groupProv
  cases hl : g.lineage with
  | none => simp
  | some l =>
    refine ⟨by simp, fun l' h => ?_⟩
    have := Option.some.inj h
    subst this
    refine ⟨rfl, ?_⟩
    by_cases hu : l.url = i.registryUrl
    · left; exact ⟨.inl hu, by simp [hu]⟩
    · rcases findIdx?_iff i.deps l.url with ⟨h1, h2⟩ | ⟨n, h1, h2⟩
      · left; exact ⟨.inr h1, by simp [hu, h2]⟩
      · right; exact ⟨hu, n, by simp [hu, h1], h2⟩

theorem plain_spec (i : In) (g : Grp) :
    Plain i g (common g.brief g.note g.stability g.deprecated g.annotations) (groupProv i g) :=
  ⟨(sameCommon_iff _ _ _ _ _ _).2 rfl, groupProv_spec i g⟩

theorem signalAttrs_spec (i : In) (sampling : Bool) (rs : List Nat) :
    Forall2 (RefOf i (catalog2 i) sampling) (rs.filter fun r => r < i.catalog.length)
      (((rs.filterMap (fun r => i.catalog[r]?)).filterMap fun a =>
        match convertRef (catalog2 i) a with
        | some n => some (a, n)
        | none => none).map fun p =>
          { base := p.2, requirement := p.1.requirement, sampling := if sampling then p.1.sampling else none }) := by
  induction rs with
  | nil => exact .nil
  | cons r rs ih =>
    by_cases hr : r < i.catalog.length
    · have ha : i.catalog[r]? = some i.catalog[r] := List.getElem?_eq_getElem hr
      obtain ⟨n, hn⟩ := convertRef_some i _ (List.getElem_mem hr)
      rw [List.filter_cons_of_pos (by simpa using hr), List.filterMap_cons, ha]
      dsimp only
      rw [List.filterMap_cons, hn]
      dsimp only
      rw [List.map_cons]
      refine .cons ?_ ih
      obtain ⟨b, hb, hs⟩ := (convertRef_iff i _ n).1 hn
      exact ⟨_, b, ha, hb, hs, rfl, rfl⟩
    · have ha : i.catalog[r]? = none := List.getElem?_eq_none (by omega)
      rw [List.filter_cons_of_neg (by simpa using hr), List.filterMap_cons, ha]
      exact ih

theorem plainRefs_spec (i : In) (g : Grp) : RefsOf i (catalog2 i) false g.attributes (plainRefs (signalAttrs i g)) :=
  signalAttrs_spec i false g.attributes

theorem spanRefs_spec (i : In) (g : Grp) : RefsOf i (catalog2 i) true g.attributes ((signalAttrs i g).map fun p =>
    { base := p.2, requirement := p.1.requirement, sampling := p.1.sampling }) :=
  signalAttrs_spec i true g.attributes

/-! ### Associations (C14) -/

/-- The value a name has among the local entities is that of an entity of this name. -/
theorem localEntities_get (rs : List (Refinement Entity)) (n : String) :
    (aget n (localEntities rs) = none ∧ ∀ e ∈ rs, e.id ≠ n) ∨
    ∃ e ∈ rs, e.id = n ∧ aget n (localEntities rs) = some e.sig.prov.source := by
  unfold localEntities
  have : ∀ (rs : List (Refinement Entity)) (m : List (String × Option Nat)),
      (aget n (rs.foldl (fun m r => aset r.id r.sig.prov.source m) m) = aget n m ∧ ∀ e ∈ rs, e.id ≠ n) ∨
      ∃ e ∈ rs, e.id = n ∧ aget n (rs.foldl (fun m r => aset r.id r.sig.prov.source m) m) = some e.sig.prov.source := by
    intro rs
    induction rs with
    | nil => intro m; exact .inl ⟨rfl, by simp⟩
    | cons r rs ih =>
      intro m
      rw [List.foldl_cons]
      rcases ih (aset r.id r.sig.prov.source m) with ⟨h1, h2⟩ | ⟨e, he, h1, h2⟩
      · rw [aget_aset] at h1
        by_cases hn : n = r.id
        · right; rw [if_pos hn] at h1; exact ⟨r, List.mem_cons_self, hn.symm, h1⟩
        · left
          rw [if_neg hn] at h1
          refine ⟨h1, fun e he => ?_⟩
          rcases List.mem_cons.1 he with rfl | he
          · exact fun h => hn h.symm
          · exact h2 e he
      · right; exact ⟨e, List.mem_cons_of_mem _ he, h1, h2⟩
  simpa [aget] using this rs []

theorem origin_some (i : In) (gid n u : String) :
    (aget gid i.origins).bind (fun o => aget n o) = some u ↔ Origin i gid n u := by
  rw [Option.bind_eq_some_iff]; rfl

theorem resolveRef_leaf (i : In) (ents : List (Refinement Entity)) (gid n : String) (r : ERef)
    (h : resolveRef i (localEntities ents) gid n = some r) : LeafOf i ents gid n r := by
  unfold resolveRef at h
  cases ho : (aget gid i.origins).bind (fun o => aget n o) with
  | none =>
    have hno : ∀ u, ¬ Origin i gid n u := by
      intro u hu
      rw [(origin_some i gid n u).2 hu] at ho; cases ho
    rw [ho] at h
    rcases localEntities_get ents n with ⟨h1, _⟩ | ⟨e, he, h1, h2⟩
    · rw [h1] at h; cases h
    · rw [h2] at h
      have := Option.some.inj h
      subst this
      exact ⟨rfl, fun _ => ⟨rfl, e, he, h1⟩, fun u hu => absurd hu (hno u)⟩
  | some u =>
    have hu := (origin_some i gid n u).1 ho
    have huniq : ∀ v, Origin i gid n v → v = u := by
      intro v hv
      have := (origin_some i gid n v).2 hv
      rw [ho] at this
      exact (Option.some.inj this).symm
    rw [ho] at h
    dsimp only at h
    rcases findIdx?_iff i.deps u with ⟨h1, h2⟩ | ⟨k, h1, h2⟩
    · rw [h2] at h
      have hr : r = { type := n } := by
        split at h <;> exact (Option.some.inj h).symm
      subst hr
      refine ⟨rfl, fun hno => absurd hu (hno u), fun v hv => ?_⟩
      rw [huniq v hv]
      exact ⟨fun hm => absurd hm h1, fun _ => rfl⟩
    · rw [h1] at h
      have hmem : u ∈ i.deps := List.mem_of_getElem? h2
      by_cases hl : aget n (localEntities ents) = some (some k)
      · rw [if_pos hl] at h
        have := Option.some.inj h
        subst this
        refine ⟨rfl, fun hno => absurd hu (hno u), fun v hv => ?_⟩
        rw [huniq v hv]
        refine ⟨fun _ => ⟨k, h2, .inr ⟨rfl, ?_⟩⟩, fun hm => absurd hmem hm⟩
        rcases localEntities_get ents n with ⟨h3, _⟩ | ⟨e, he, h3, h4⟩
        · rw [h3] at hl; cases hl
        · rw [h4] at hl; exact ⟨e, he, h3, Option.some.inj hl⟩
      · rw [if_neg hl] at h
        have := Option.some.inj h
        subst this
        refine ⟨rfl, fun hno => absurd hu (hno u), fun v hv => ?_⟩
        rw [huniq v hv]
        exact ⟨fun _ => ⟨k, h2, .inl rfl⟩, fun hm => absurd hmem hm⟩

/-- A name resolves exactly when resolution recorded where it is, or this registry holds an entity of that name. -/
theorem resolveRef_none (i : In) (ents : List (Refinement Entity)) (gid n : String) :
    resolveRef i (localEntities ents) gid n = none ↔ (∀ u, ¬ Origin i gid n u) ∧ ∀ e ∈ ents, e.id ≠ n := by
  unfold resolveRef
  cases ho : (aget gid i.origins).bind (fun o => aget n o) with
  | none =>
    have hno : ∀ u, ¬ Origin i gid n u := by
      intro u hu
      rw [(origin_some i gid n u).2 hu] at ho; cases ho
    dsimp only
    rcases localEntities_get ents n with ⟨h1, h2⟩ | ⟨e, he, h1, h2⟩
    · rw [h1]; exact ⟨fun _ => ⟨hno, h2⟩, fun _ => rfl⟩
    · rw [h2]
      exact ⟨fun h => by { cases h }, fun h => absurd h1 (h.2 e he)⟩
  | some u =>
    have hu := (origin_some i gid n u).1 ho
    dsimp only
    constructor
    · intro h; split at h <;> cases h
    · intro h; exact absurd hu (h.1 u)

theorem convertAssocs_spec (i : In) (ents : List (Refinement Entity)) (g : Grp) (l : List (Assoc ERef))
    (h : convertAssocs i (localEntities ents) g.id g.assocs = .ok l) : AssocsOf i ents g l := by
  unfold convertAssocs at h
  have hleaf : ∀ n r, (match resolveRef i (localEntities ents) g.id n with
      | some r => Except.ok r
      | none => .error (CErr.associationNotFound g.id n)) = .ok r → LeafOf i ents g.id n r := by
    intro n r hr
    cases hx : resolveRef i (localEntities ents) g.id n with
    | none => rw [hx] at hr; cases hr
    | some r' =>
      rw [hx] at hr
      have := Except.ok.inj hr
      subst this
      exact resolveRef_leaf i ents g.id n _ hx
  exact ⟨(convAssoc_shape _ (·.type) (fun n r hr => (hleaf n r hr).1)).2 _ _ h,
    (convAssocL_ok _ _ _ h).mono hleaf⟩

/-- C14: the associations of a signal keep their shape, and each name becomes a reference that leads to what it
resolved to. -/
theorem associations_kept (i : In) (ents : List (Refinement Entity)) (g : Grp) (l : List (Assoc ERef))
    (h : convertAssocs i (localEntities ents) g.id g.assocs = .ok l) :
    mapAssocL (·.type) l = g.assocs ∧ Forall2 (LeafOf i ents g.id) (leavesL g.assocs) (leavesL l) :=
  convertAssocs_spec i ents g l h

/-- C14: the conversion of associations fails exactly when some name is neither recorded nor held by this registry;
then the first such name is reported. -/
theorem associations_fail (i : In) (ents : List (Refinement Entity)) (gid : String) (l : List (Assoc String)) (e : CErr) :
    convertAssocs i (localEntities ents) gid l = .error e ↔
      ∃ pre n post, leavesL l = pre ++ n :: post ∧ e = .associationNotFound gid n ∧
        ((∀ u, ¬ Origin i gid n u) ∧ ∀ x ∈ ents, x.id ≠ n) ∧
        ∀ m ∈ pre, (∃ u, Origin i gid m u) ∨ ∃ x ∈ ents, x.id = m := by
  unfold convertAssocs
  rw [convAssocL_err]
  have key : ∀ n, (∃ c : ERef, (match resolveRef i (localEntities ents) gid n with
      | some r => Except.ok r
      | none => .error (CErr.associationNotFound gid n)) = .ok c) ↔
      (∃ u, Origin i gid n u) ∨ ∃ x ∈ ents, x.id = n := by
    intro n
    cases hx : resolveRef i (localEntities ents) gid n with
    | none =>
      have := (resolveRef_none i ents gid n).1 hx
      constructor
      · rintro ⟨c, h⟩; cases h
      · rintro (⟨u, h⟩ | ⟨x, hx, h⟩)
        · exact absurd h (this.1 u)
        · exact absurd h (this.2 x hx)
    | some r =>
      refine ⟨fun _ => ?_, fun _ => ⟨r, rfl⟩⟩
      by_cases h1 : ∃ u, Origin i gid n u
      · exact .inl h1
      · right
        by_cases h2 : ∃ x ∈ ents, x.id = n
        · exact h2
        · have := (resolveRef_none i ents gid n).2 ⟨fun u hu => h1 ⟨u, hu⟩, fun x hx h => h2 ⟨x, hx, h⟩⟩
          rw [this] at hx; cases hx
  constructor
  · rintro ⟨pre, n, post, h1, h2, h3⟩
    refine ⟨pre, n, post, h1, ?_, ?_, fun m hm => (key m).1 (h3 m hm)⟩
    · cases hx : resolveRef i (localEntities ents) gid n with
      | some r => rw [hx] at h2; cases h2
      | none => rw [hx] at h2; exact (Except.error.inj h2).symm
    · cases hx : resolveRef i (localEntities ents) gid n with
      | some r => rw [hx] at h2; cases h2
      | none => exact (resolveRef_none i ents gid n).1 hx
  · rintro ⟨pre, n, post, h1, rfl, h2, h3⟩
    refine ⟨pre, n, post, h1, ?_, fun m hm => (key m).2 (h3 m hm)⟩
    rw [(resolveRef_none i ents gid n).2 h2]

/-- C14: the entities a converted expression refers to, as the code enumerates them, are those of the names of the
original one, in the same order. -/
theorem references_kept (i : In) (ents : List (Refinement Entity)) (g : Grp) (l : List (Assoc ERef))
    (h : convertAssocs i (localEntities ents) g.id g.assocs = .ok l) :
    l.map (fun x => (refs x).map (·.type)) = g.assocs.map refs := by
  rw [← (convertAssocs_spec i ents g l h).1]
  have hr : ∀ {α : Type} (x : Assoc α), refs x = (leaves x).reverse := by
    intro α x; simp [refs, walk_eq]
  have : ∀ l : List (Assoc ERef), mapAssocL (·.type) l = l.map (mapAssoc (·.type)) := by
    intro l; induction l with
    | nil => rfl
    | cons x l ih => simp [mapAssocL, ih]
  rw [this, List.map_map]
  apply List.map_congr_left
  intro x _
  simp [hr, leaves_map]

/-! ### Items -/

theorem convertMetric_spec (i : In) (o : Out) (g : Grp) (m : Metric) (hc : o.catalog = catalog2 i)
    (h : convertMetric i (localEntities o.entityRefs) g = .ok m) : MetricOf i o g m := by
  unfold convertMetric at h
  cases h1 : g.metricName with
  | none => rw [h1] at h; cases h
  | some n =>
    rw [h1] at h; dsimp only at h
    cases h2 : g.instrument with
    | none => rw [h2] at h; cases h
    | some ins =>
      rw [h2] at h; dsimp only at h
      cases h3 : g.unit with
      | none => rw [h3] at h; cases h
      | some u =>
        rw [h3] at h; dsimp only at h
        cases h4 : convertAssocs i (localEntities o.entityRefs) g.id g.assocs with
        | error e => rw [h4] at h; cases h
        | ok as =>
          rw [h4] at h
          have := Except.ok.inj h
          subst this
          exact ⟨h1, h2, h3, rfl, plain_spec i g, hc ▸ plainRefs_spec i g, convertAssocs_spec i _ g as h4⟩

theorem convertEvent_spec (i : In) (o : Out) (g : Grp) (m : Event) (hc : o.catalog = catalog2 i)
    (h : convertEvent i (localEntities o.entityRefs) g = .ok m) : EventOf i o g m := by
  unfold convertEvent at h
  cases h1 : g.name with
  | none => rw [h1] at h; cases h
  | some n =>
    rw [h1] at h; dsimp only at h
    cases h4 : convertAssocs i (localEntities o.entityRefs) g.id g.assocs with
    | error e => rw [h4] at h; cases h
    | ok as =>
      rw [h4] at h
      have := Except.ok.inj h
      subst this
      exact ⟨h1, rfl, plain_spec i g, hc ▸ plainRefs_spec i g, convertAssocs_spec i _ g as h4⟩

theorem fixId_spec (p id : String) : Checks.Stripped p id (fixId p id) := (Checks.stripPrefix_spec p id _).1 rfl

theorem spanType_spec (g : Grp) (t : String) (h : spanType g = .ok t) :
    (¬ Refines g → Checks.Stripped "span." g.id t) ∧
    (Refines g → ∃ l base, g.lineage = some l ∧ l.extendsGroup = some base ∧ Checks.Stripped "span." base t) := by
  unfold spanType at h
  by_cases hr : Refines g
  · rw [if_pos ((refines_iff g).2 hr)] at h
    refine ⟨fun hn => absurd hr hn, fun _ => ?_⟩
    cases hb : g.lineage.bind (·.extendsGroup) with
    | none => rw [hb] at h; cases h
    | some base =>
      rw [hb] at h
      have := Except.ok.inj h
      subst this
      obtain ⟨l, hl, hx⟩ := Option.bind_eq_some_iff.1 hb
      exact ⟨l, base, hl, hx, fixId_spec _ _⟩
  · rw [if_neg (fun hc => hr ((refines_iff g).1 hc))] at h
    have := Except.ok.inj h
    subst this
    exact ⟨fun _ => fixId_spec _ _, fun hc => absurd hc hr⟩

theorem convertSpan_spec (i : In) (o : Out) (g : Grp) (s : Span) (hc : o.catalog = catalog2 i)
    (h : convertSpan i (localEntities o.entityRefs) g = .ok s) : SpanOf i o g s := by
  unfold convertSpan at h
  cases h1 : spanType g with
  | error e => rw [h1] at h; cases h
  | ok t =>
    rw [h1] at h; dsimp only at h
    cases h4 : convertAssocs i (localEntities o.entityRefs) g.id g.assocs with
    | error e => rw [h4] at h; cases h
    | ok as =>
      rw [h4] at h
      have := Except.ok.inj h
      subst this
      refine ⟨(spanType_spec g t h1).1, (spanType_spec g t h1).2, ?_, ?_, rfl, plain_spec i g,
        hc ▸ spanRefs_spec i g, convertAssocs_spec i _ g as h4⟩
      · cases g.spanKind <;> simp
      · cases g.spanName <;> cases g.name <;> simp

theorem entityTypeOf_spec (g : Grp) : DeclaredType g (entityTypeOf g) := by
  unfold DeclaredType entityTypeOf Checks.entityTypeOf Grp.view
  cases hn : g.name with
  | some n => exact .inl rfl
  | none => exact .inr ⟨rfl, fixId_spec _ _⟩

theorem entityAttrs_spec (i : In) (gid : String) (rs : List Nat) : ∀ (acc r : List ARef × List ARef),
    entityAttrs i gid rs acc = .ok r → ∃ xs ys, r = (acc.1 ++ xs, acc.2 ++ ys) ∧
      Forall2 (RefOf i (catalog2 i) false) (rs.filter (Identifying i)) xs ∧
      Forall2 (RefOf i (catalog2 i) false) (rs.filter (fun r => !Identifying i r)) ys := by
  induction rs with
  | nil =>
    intro acc r h
    have := Except.ok.inj h
    subst this
    exact ⟨[], [], by simp, .nil, .nil⟩
  | cons k rs ih =>
    intro acc r h
    unfold entityAttrs at h
    cases hk : convertAttributeRef i gid k with
    | error e => rw [hk] at h; cases h
    | ok p =>
      rw [hk] at h
      dsimp only at h
      have hp : i.catalog[k]? = some p.1 ∧ convertRef (catalog2 i) p.1 = some p.2 := by
        unfold convertAttributeRef at hk
        cases ha : i.catalog[k]? with
        | none => rw [ha] at hk; cases hk
        | some a =>
          rw [ha] at hk; dsimp only at hk
          cases hn : convertRef (catalog2 i) a with
          | none => rw [hn] at hk; cases hk
          | some n =>
            rw [hn] at hk
            have := Except.ok.inj hk
            subst this
            exact ⟨rfl, hn⟩
      obtain ⟨b, hb, hs⟩ := (convertRef_iff i _ _).1 hp.2
      have href : RefOf i (catalog2 i) false k { base := p.2, requirement := p.1.requirement } :=
        ⟨p.1, b, hp.1, hb, hs, rfl, rfl⟩
      have hid : Identifying i k = p.1.identifying := by unfold Identifying; rw [hp.1]
      by_cases hi : p.1.identifying = true
      · rw [if_pos hi] at h
        obtain ⟨xs, ys, h1, h2, h3⟩ := ih _ _ h
        refine ⟨{ base := p.2, requirement := p.1.requirement } :: xs, ys, ?_, ?_, ?_⟩
        · rw [h1]; simp
        · rw [List.filter_cons_of_pos (by rw [hid, hi])]; exact .cons href h2
        · rw [List.filter_cons_of_neg (by rw [hid, hi]; simp)]; exact h3
      · rw [if_neg hi] at h
        obtain ⟨xs, ys, h1, h2, h3⟩ := ih _ _ h
        refine ⟨xs, { base := p.2, requirement := p.1.requirement } :: ys, ?_, ?_, ?_⟩
        · rw [h1]; simp
        · rw [List.filter_cons_of_neg (by rw [hid]; exact hi)]; exact h2
        · rw [List.filter_cons_of_pos (by rw [hid]; simp [hi])]; exact .cons href h3

theorem entityType_spec (i : In) (g : Grp) (t : String) (h : entityType i g = .ok t) :
    (¬ Refines g → DeclaredType g t) ∧
    (Refines g → ∃ l base, g.lineage = some l ∧ l.extendsGroup = some base ∧
      ((∃ b, i.groups.find? (fun b => b.id = base) = some b ∧ DeclaredType b t) ∨
       (∀ b ∈ i.groups, b.id ≠ base) ∧ Checks.Stripped "entity." base t)) := by
  unfold entityType at h
  by_cases hr : Refines g
  · rw [if_pos ((refines_iff g).2 hr)] at h
    refine ⟨fun hn => absurd hr hn, fun _ => ?_⟩
    cases hb : g.lineage.bind (·.extendsGroup) with
    | none => rw [hb] at h; cases h
    | some base =>
      rw [hb] at h
      have := Except.ok.inj h
      subst this
      obtain ⟨l, hl, hx⟩ := Option.bind_eq_some_iff.1 hb
      refine ⟨l, base, hl, hx, ?_⟩
      cases hf : i.groups.find? (fun b => decide (b.id = base)) with
      | some b => exact .inl ⟨b, rfl, entityTypeOf_spec b⟩
      | none =>
        right
        refine ⟨fun b hb => ?_, fixId_spec _ _⟩
        have := List.find?_eq_none.1 hf b hb
        simpa using this
  · rw [if_neg (fun hc => hr ((refines_iff g).1 hc))] at h
    have := Except.ok.inj h
    subst this
    exact ⟨fun _ => entityTypeOf_spec g, fun hc => absurd hc hr⟩

theorem convertEntity_spec (i : In) (o : Out) (g : Grp) (e : Entity) (hc : o.catalog = catalog2 i)
    (h : convertEntity i g = .ok e) : EntityOf i o g e := by
  unfold convertEntity at h
  cases h1 : entityAttrs i g.id g.attributes ([], []) with
  | error e => rw [h1] at h; cases h
  | ok as =>
    rw [h1] at h; dsimp only at h
    cases h2 : entityType i g with
    | error e => rw [h2] at h; cases h
    | ok t =>
      rw [h2] at h
      have := Except.ok.inj h
      subst this
      obtain ⟨xs, ys, h3, h4, h5⟩ := entityAttrs_spec i g.id g.attributes _ _ h1
      subst h3
      exact ⟨(entityType_spec i g t h2).1, (entityType_spec i g t h2).2, rfl, plain_spec i g,
        by rw [hc]; simpa using h4, by rw [hc]; simpa using h5⟩

/-! ### The loops -/

/-- What a stretch of the loop over the groups `gs` adds. -/
structure Grow (i : In) (loc : List (String × Option Nat)) (gs : List Grp) (o o' : Out) : Prop where
  spans : ∃ l, o'.spans = o.spans ++ l ∧
    Forall2 (fun g s => convertSpan i loc g = .ok s) (definitions .span gs) l
  spanRefs : ∃ l, o'.spanRefs = o.spanRefs ++ l ∧
    Forall2 (fun g r => convertSpan i loc g = .ok r.sig ∧ r.id = if Refines g then fixId "span." g.id else r.sig.type)
      (ofType .span gs) l
  events : ∃ l, o'.events = o.events ++ l ∧
    Forall2 (fun g s => convertEvent i loc g = .ok s) (definitions .event gs) l
  eventRefs : ∃ l, o'.eventRefs = o.eventRefs ++ l ∧
    Forall2 (fun g r => convertEvent i loc g = .ok r.sig ∧ r.id = if Refines g then fixId "event." g.id else r.sig.name)
      (ofType .event gs) l
  metrics : ∃ l, o'.metrics = o.metrics ++ l ∧
    Forall2 (fun g s => convertMetric i loc g = .ok s) (definitions .metric gs) l
  metricRefs : ∃ l, o'.metricRefs = o.metricRefs ++ l ∧
    Forall2 (fun g r => convertMetric i loc g = .ok r.sig ∧
      r.id = if Refines g then fixId "metric." g.id else r.sig.name) (ofType .metric gs) l
  groups : o'.groups = o.groups ++
    (gs.filter (fun g => g.type = .attributeGroup ∧ g.visibility = some .publicVis)).map (convertGroup i)
  entities : o'.entities = o.entities
  entityRefs : o'.entityRefs = o.entityRefs

theorem grow_refl (i : In) (loc : List (String × Option Nat)) (o : Out) : Grow i loc [] o o where
  spans := ⟨[], by simp, .nil⟩
  spanRefs := ⟨[], by simp, .nil⟩
  events := ⟨[], by simp, .nil⟩
  eventRefs := ⟨[], by simp, .nil⟩
  metrics := ⟨[], by simp, .nil⟩
  metricRefs := ⟨[], by simp, .nil⟩
  groups := by simp
  entities := rfl
  entityRefs := rfl

theorem grow_add {α β : Type} {R : α → β → Prop} {xs ys zs : List β} {l m : List α}
    (h : ∃ k, ys = xs ++ k ∧ Forall2 R l k) (h' : ∃ k, zs = ys ++ k ∧ Forall2 R m k) :
    ∃ k, zs = xs ++ k ∧ Forall2 R (l ++ m) k := by
  obtain ⟨k, rfl, h⟩ := h
  obtain ⟨k', rfl, h'⟩ := h'
  exact ⟨k ++ k', by simp, h.append h'⟩

theorem grow_trans {i : In} {loc : List (String × Option Nat)} {gs gs' : List Grp} {o o' o'' : Out}
    (h : Grow i loc gs o o') (h' : Grow i loc gs' o' o'') : Grow i loc (gs ++ gs') o o'' where
  spans := by unfold definitions; rw [List.filter_append]; exact grow_add h.spans h'.spans
  spanRefs := by unfold ofType; rw [List.filter_append]; exact grow_add h.spanRefs h'.spanRefs
  events := by unfold definitions; rw [List.filter_append]; exact grow_add h.events h'.events
  eventRefs := by unfold ofType; rw [List.filter_append]; exact grow_add h.eventRefs h'.eventRefs
  metrics := by unfold definitions; rw [List.filter_append]; exact grow_add h.metrics h'.metrics
  metricRefs := by unfold ofType; rw [List.filter_append]; exact grow_add h.metricRefs h'.metricRefs
  groups := by rw [h'.groups, h.groups, List.filter_append, List.map_append, List.append_assoc]
  entities := h'.entities.trans h.entities
  entityRefs := h'.entityRefs.trans h.entityRefs

theorem grow_step {i : In} {loc : List (String × Option Nat)} {g : Grp} {o o' : Out}
    (h : groupStep i loc o g = .ok o') : Grow i loc [g] o o' := by
  have hnil : ∀ t, g.type ≠ t → ofType t [g] = [] ∧ definitions t [g] = [] := by
    intro t ht; simp [ofType, definitions, ht]
  have hof : ∀ t, g.type = t → ofType t [g] = [g] := by intro t ht; simp [ofType, ht]
  have hdef : ∀ t, g.type = t → definitions t [g] = if Refines g then [] else [g] := by
    intro t ht
    by_cases hr : Refines g <;> simp [definitions, ht, hr]
  have hgrp : g.type ≠ .attributeGroup →
      [g].filter (fun g => g.type = .attributeGroup ∧ g.visibility = some .publicVis) = [] := by
    intro ht; simp [ht]
  unfold groupStep at h
  cases ht : g.type with
  | span =>
    rw [ht] at h hgrp; dsimp only at h
    have n1 := hnil .event (by rw [ht]; decide)
    have n2 := hnil .metric (by rw [ht]; decide)
    cases hc : convertSpan i loc g with
    | error e => rw [hc] at h; cases h
    | ok s =>
      rw [hc] at h; dsimp only at h
      have := Except.ok.inj h
      subst this
      rw [refines_eq]
      by_cases hr : Refines g
      · exact {
          spans := ⟨[], by simp [hr], by rw [hdef _ ht, if_pos hr]; exact .nil⟩
          spanRefs := ⟨[⟨fixId "span." g.id, s⟩], by simp [hr], by
            rw [hof _ ht]; exact .cons ⟨hc, by rw [if_pos hr]⟩ .nil⟩
          events := ⟨[], by simp [hr], by rw [n1.2]; exact .nil⟩
          eventRefs := ⟨[], by simp [hr], by rw [n1.1]; exact .nil⟩
          metrics := ⟨[], by simp [hr], by rw [n2.2]; exact .nil⟩
          metricRefs := ⟨[], by simp [hr], by rw [n2.1]; exact .nil⟩
          groups := by rw [hgrp (by decide)]; simp [hr]
          entities := by simp [hr]
          entityRefs := by simp [hr] }
      · exact {
          spans := ⟨[s], by simp [hr], by rw [hdef _ ht, if_neg hr]; exact .cons hc .nil⟩
          spanRefs := ⟨[⟨s.type, s⟩], by simp [hr], by
            rw [hof _ ht]; exact .cons ⟨hc, by rw [if_neg hr]⟩ .nil⟩
          events := ⟨[], by simp [hr], by rw [n1.2]; exact .nil⟩
          eventRefs := ⟨[], by simp [hr], by rw [n1.1]; exact .nil⟩
          metrics := ⟨[], by simp [hr], by rw [n2.2]; exact .nil⟩
          metricRefs := ⟨[], by simp [hr], by rw [n2.1]; exact .nil⟩
          groups := by rw [hgrp (by decide)]; simp [hr]
          entities := by simp [hr]
          entityRefs := by simp [hr] }
  | event =>
    rw [ht] at h hgrp; dsimp only at h
    have n1 := hnil .span (by rw [ht]; decide)
    have n2 := hnil .metric (by rw [ht]; decide)
    cases hc : convertEvent i loc g with
    | error e => rw [hc] at h; cases h
    | ok s =>
      rw [hc] at h; dsimp only at h
      have := Except.ok.inj h
      subst this
      rw [refines_eq]
      by_cases hr : Refines g
      · exact {
          events := ⟨[], by simp [hr], by rw [hdef _ ht, if_pos hr]; exact .nil⟩
          eventRefs := ⟨[⟨fixId "event." g.id, s⟩], by simp [hr], by
            rw [hof _ ht]; exact .cons ⟨hc, by rw [if_pos hr]⟩ .nil⟩
          spans := ⟨[], by simp [hr], by rw [n1.2]; exact .nil⟩
          spanRefs := ⟨[], by simp [hr], by rw [n1.1]; exact .nil⟩
          metrics := ⟨[], by simp [hr], by rw [n2.2]; exact .nil⟩
          metricRefs := ⟨[], by simp [hr], by rw [n2.1]; exact .nil⟩
          groups := by rw [hgrp (by decide)]; simp [hr]
          entities := by simp [hr]
          entityRefs := by simp [hr] }
      · exact {
          events := ⟨[s], by simp [hr], by rw [hdef _ ht, if_neg hr]; exact .cons hc .nil⟩
          eventRefs := ⟨[⟨s.name, s⟩], by simp [hr], by
            rw [hof _ ht]; exact .cons ⟨hc, by rw [if_neg hr]⟩ .nil⟩
          spans := ⟨[], by simp [hr], by rw [n1.2]; exact .nil⟩
          spanRefs := ⟨[], by simp [hr], by rw [n1.1]; exact .nil⟩
          metrics := ⟨[], by simp [hr], by rw [n2.2]; exact .nil⟩
          metricRefs := ⟨[], by simp [hr], by rw [n2.1]; exact .nil⟩
          groups := by rw [hgrp (by decide)]; simp [hr]
          entities := by simp [hr]
          entityRefs := by simp [hr] }
  | metric =>
    rw [ht] at h hgrp; dsimp only at h
    have n1 := hnil .span (by rw [ht]; decide)
    have n2 := hnil .event (by rw [ht]; decide)
    cases hc : convertMetric i loc g with
    | error e => rw [hc] at h; cases h
    | ok s =>
      rw [hc] at h; dsimp only at h
      have := Except.ok.inj h
      subst this
      rw [refines_eq]
      by_cases hr : Refines g
      · exact {
          metrics := ⟨[], by simp [hr], by rw [hdef _ ht, if_pos hr]; exact .nil⟩
          metricRefs := ⟨[⟨fixId "metric." g.id, s⟩], by simp [hr], by
            rw [hof _ ht]; exact .cons ⟨hc, by rw [if_pos hr]⟩ .nil⟩
          spans := ⟨[], by simp [hr], by rw [n1.2]; exact .nil⟩
          spanRefs := ⟨[], by simp [hr], by rw [n1.1]; exact .nil⟩
          events := ⟨[], by simp [hr], by rw [n2.2]; exact .nil⟩
          eventRefs := ⟨[], by simp [hr], by rw [n2.1]; exact .nil⟩
          groups := by rw [hgrp (by decide)]; simp [hr]
          entities := by simp [hr]
          entityRefs := by simp [hr] }
      · exact {
          metrics := ⟨[s], by simp [hr], by rw [hdef _ ht, if_neg hr]; exact .cons hc .nil⟩
          metricRefs := ⟨[⟨s.name, s⟩], by simp [hr], by
            rw [hof _ ht]; exact .cons ⟨hc, by rw [if_neg hr]⟩ .nil⟩
          spans := ⟨[], by simp [hr], by rw [n1.2]; exact .nil⟩
          spanRefs := ⟨[], by simp [hr], by rw [n1.1]; exact .nil⟩
          events := ⟨[], by simp [hr], by rw [n2.2]; exact .nil⟩
          eventRefs := ⟨[], by simp [hr], by rw [n2.1]; exact .nil⟩
          groups := by rw [hgrp (by decide)]; simp [hr]
          entities := by simp [hr]
          entityRefs := by simp [hr] }
  | attributeGroup =>
    rw [ht] at h; dsimp only at h
    have n1 := hnil .span (by rw [ht]; decide)
    have n2 := hnil .event (by rw [ht]; decide)
    have n3 := hnil .metric (by rw [ht]; decide)
    have := Except.ok.inj h
    subst this
    by_cases hv : g.visibility = some .publicVis
    · rw [if_pos hv]
      exact {
        spans := ⟨[], by simp, by rw [n1.2]; exact .nil⟩
        spanRefs := ⟨[], by simp, by rw [n1.1]; exact .nil⟩
        events := ⟨[], by simp, by rw [n2.2]; exact .nil⟩
        eventRefs := ⟨[], by simp, by rw [n2.1]; exact .nil⟩
        metrics := ⟨[], by simp, by rw [n3.2]; exact .nil⟩
        metricRefs := ⟨[], by simp, by rw [n3.1]; exact .nil⟩
        groups := by simp [ht, hv]
        entities := rfl
        entityRefs := rfl }
    · rw [if_neg hv]
      exact {
        spans := ⟨[], by simp, by rw [n1.2]; exact .nil⟩
        spanRefs := ⟨[], by simp, by rw [n1.1]; exact .nil⟩
        events := ⟨[], by simp, by rw [n2.2]; exact .nil⟩
        eventRefs := ⟨[], by simp, by rw [n2.1]; exact .nil⟩
        metrics := ⟨[], by simp, by rw [n3.2]; exact .nil⟩
        metricRefs := ⟨[], by simp, by rw [n3.1]; exact .nil⟩
        groups := by simp [hv]
        entities := rfl
        entityRefs := rfl }
  | entity | metricGroup | scope | undefined =>
    rw [ht] at h hgrp; dsimp only at h
    have n1 := hnil .span (by rw [ht]; decide)
    have n2 := hnil .event (by rw [ht]; decide)
    have n3 := hnil .metric (by rw [ht]; decide)
    have := Except.ok.inj h
    subst this
    exact {
      spans := ⟨[], by simp, by rw [n1.2]; exact .nil⟩
      spanRefs := ⟨[], by simp, by rw [n1.1]; exact .nil⟩
      events := ⟨[], by simp, by rw [n2.2]; exact .nil⟩
      eventRefs := ⟨[], by simp, by rw [n2.1]; exact .nil⟩
      metrics := ⟨[], by simp, by rw [n3.2]; exact .nil⟩
      metricRefs := ⟨[], by simp, by rw [n3.1]; exact .nil⟩
      groups := by rw [hgrp (by decide)]; simp
      entities := rfl
      entityRefs := rfl }

theorem groupLoop_grow (i : In) (loc : List (String × Option Nat)) (gs : List Grp) : ∀ (o o' : Out),
    groupLoop i loc gs o = .ok o' → Grow i loc gs o o' := by
  induction gs with
  | nil =>
    intro o o' h
    have := Except.ok.inj h
    subst this
    exact grow_refl i loc o
  | cons g gs ih =>
    intro o o' h
    unfold groupLoop at h
    cases hs : groupStep i loc o g with
    | error e => rw [hs] at h; cases h
    | ok o1 =>
      rw [hs] at h
      exact grow_trans (grow_step hs) (ih o1 o' h)

theorem entityLoop_spec (i : In) (gs : List Grp) : ∀ (acc r : List Entity × List (Refinement Entity)),
    entityLoop i gs acc = .ok r →
      (∃ l, r.1 = acc.1 ++ l ∧ Forall2 (fun g e => convertEntity i g = .ok e) (gs.filter fun g => ¬ Refines g) l) ∧
      (∃ l, r.2 = acc.2 ++ l ∧ Forall2 (fun g x => convertEntity i g = .ok x.sig ∧
        x.id = if Refines g then fixId "entity." g.id else x.sig.type) gs l) := by
  induction gs with
  | nil =>
    intro acc r h
    have := Except.ok.inj h
    subst this
    exact ⟨⟨[], by simp, .nil⟩, ⟨[], by simp, .nil⟩⟩
  | cons g gs ih =>
    intro acc r h
    unfold entityLoop at h
    cases hc : convertEntity i g with
    | error e => rw [hc] at h; cases h
    | ok e =>
      rw [hc] at h; dsimp only at h
      by_cases hr : Refines g
      · rw [if_pos ((refines_iff g).2 hr)] at h
        obtain ⟨⟨l, h1, h2⟩, ⟨m, h3, h4⟩⟩ := ih _ _ h
        refine ⟨⟨l, h1, by rw [List.filter_cons_of_neg (by simpa using hr)]; exact h2⟩,
          ⟨⟨fixId "entity." g.id, e⟩ :: m, by rw [h3]; simp, .cons ⟨hc, by rw [if_pos hr]⟩ h4⟩⟩
      · rw [if_neg (fun hx => hr ((refines_iff g).1 hx))] at h
        obtain ⟨⟨l, h1, h2⟩, ⟨m, h3, h4⟩⟩ := ih _ _ h
        refine ⟨⟨e :: l, by rw [h1]; simp, by rw [List.filter_cons_of_pos (by simpa using hr)]; exact .cons hc h2⟩,
          ⟨⟨e.type, e⟩ :: m, by rw [h3]; simp, .cons ⟨hc, by rw [if_neg hr]⟩ h4⟩⟩

/-- Everything the conversion produces. -/
theorem convert_parts (i : In) (o : Out) (h : convert i = .ok o) :
    o.catalog = catalog2 i ∧ o.attributes = dedup (sortBy (fun a b => decide (a ≤ b)) (definedRefs i)) ∧
    Grow i (localEntities o.entityRefs) i.groups { entities := o.entities, entityRefs := o.entityRefs }
      { o with catalog := [], attributes := [] } ∧
    Forall2 (fun g e => convertEntity i g = .ok e) (definitions .entity i.groups) o.entities ∧
    Forall2 (fun g x => convertEntity i g = .ok x.sig ∧ x.id = if Refines g then fixId "entity." g.id else x.sig.type)
      (ofType .entity i.groups) o.entityRefs := by
  unfold convert at h
  cases h1 : entityLoop i (i.groups.filter (fun g => decide (g.type = .entity))) ([], []) with
  | error e => rw [h1] at h; cases h
  | ok ens =>
    rw [h1] at h; dsimp only at h
    cases h2 : groupLoop i (localEntities ens.2) i.groups { entities := ens.1, entityRefs := ens.2 } with
    | error e => rw [h2] at h; cases h
    | ok o1 =>
      rw [h2] at h
      have := Except.ok.inj h
      subst this
      have hg := groupLoop_grow i _ _ _ _ h2
      obtain ⟨⟨l, h3, h4⟩, ⟨m, h5, h6⟩⟩ := entityLoop_spec i _ _ _ h1
      have e1 : o1.entities = ens.1 := hg.entities
      have e2 : o1.entityRefs = ens.2 := hg.entityRefs
      refine ⟨rfl, rfl, ?_, ?_, ?_⟩
      · dsimp only
        rw [e1, e2]
        exact { hg with entities := rfl, entityRefs := rfl }
      · dsimp only
        rw [e1, h3]
        have : definitions .entity i.groups =
            (i.groups.filter (fun g => decide (g.type = .entity))).filter (fun g => decide (¬ Refines g)) := by
          unfold definitions
          rw [List.filter_filter]
          congr 1
          funext g
          simp [Bool.and_comm]
        rw [this]
        simpa using h4
      · dsimp only
        rw [e2, h5]
        simpa [ofType] using h6

/-! ### Theorems -/

/-- C13: the metrics of the v2 registry are the metric definitions, each once and in order; the metric refinements are
all metric groups, a definition under its own name and a refinement under its id. -/
theorem metrics_kept (i : In) (o : Out) (h : convert i = .ok o) :
    Forall2 (MetricOf i o) (definitions .metric i.groups) o.metrics ∧
    Forall2 (fun g r => MetricOf i o g r.sig ∧ (Refines g → Checks.Stripped "metric." g.id r.id) ∧
      (¬ Refines g → r.id = r.sig.name)) (ofType .metric i.groups) o.metricRefs := by
  obtain ⟨hc, _, hg, _, _⟩ := convert_parts i o h
  obtain ⟨l, h1, h2⟩ := hg.metrics
  obtain ⟨m, h3, h4⟩ := hg.metricRefs
  simp only [List.nil_append] at h1 h3
  subst h1 h3
  refine ⟨h2.mono fun g m hm => convertMetric_spec i o g m hc hm, h4.mono fun g r hr => ?_⟩
  refine ⟨convertMetric_spec i o g _ hc hr.1, fun hx => ?_, fun hx => ?_⟩
  · rw [hr.2, if_pos hx]; exact fixId_spec _ _
  · rw [hr.2, if_neg hx]

/-- C13: the same for events. -/
theorem events_kept (i : In) (o : Out) (h : convert i = .ok o) :
    Forall2 (EventOf i o) (definitions .event i.groups) o.events ∧
    Forall2 (fun g r => EventOf i o g r.sig ∧ (Refines g → Checks.Stripped "event." g.id r.id) ∧
      (¬ Refines g → r.id = r.sig.name)) (ofType .event i.groups) o.eventRefs := by
  obtain ⟨hc, _, hg, _, _⟩ := convert_parts i o h
  obtain ⟨l, h1, h2⟩ := hg.events
  obtain ⟨m, h3, h4⟩ := hg.eventRefs
  simp only [List.nil_append] at h1 h3
  subst h1 h3
  refine ⟨h2.mono fun g m hm => convertEvent_spec i o g m hc hm, h4.mono fun g r hr => ?_⟩
  refine ⟨convertEvent_spec i o g _ hc hr.1, fun hx => ?_, fun hx => ?_⟩
  · rw [hr.2, if_pos hx]; exact fixId_spec _ _
  · rw [hr.2, if_neg hx]

/-- C13: the same for spans, which are named by their id in any case. -/
theorem spans_kept (i : In) (o : Out) (h : convert i = .ok o) :
    Forall2 (SpanOf i o) (definitions .span i.groups) o.spans ∧
    Forall2 (fun g r => SpanOf i o g r.sig ∧ Checks.Stripped "span." g.id r.id)
      (ofType .span i.groups) o.spanRefs := by
  obtain ⟨hc, _, hg, _, _⟩ := convert_parts i o h
  obtain ⟨l, h1, h2⟩ := hg.spans
  obtain ⟨m, h3, h4⟩ := hg.spanRefs
  simp only [List.nil_append] at h1 h3
  subst h1 h3
  refine ⟨h2.mono fun g m hm => convertSpan_spec i o g m hc hm, h4.mono fun g r hr => ?_⟩
  have hs := convertSpan_spec i o g _ hc hr.1
  refine ⟨hs, ?_⟩
  by_cases hx : Refines g
  · rw [hr.2, if_pos hx]; exact fixId_spec _ _
  · rw [hr.2, if_neg hx]; exact hs.1 hx

/-- C13: the same for entities; their attributes are split into identifying and descriptive ones, none lost. -/
theorem entities_kept (i : In) (o : Out) (h : convert i = .ok o) :
    Forall2 (EntityOf i o) (definitions .entity i.groups) o.entities ∧
    Forall2 (fun g r => EntityOf i o g r.sig ∧ (Refines g → Checks.Stripped "entity." g.id r.id) ∧
      (¬ Refines g → r.id = r.sig.type)) (ofType .entity i.groups) o.entityRefs := by
  obtain ⟨hc, _, _, h2, h4⟩ := convert_parts i o h
  refine ⟨h2.mono fun g m hm => convertEntity_spec i o g m hc hm, h4.mono fun g r hr => ?_⟩
  refine ⟨convertEntity_spec i o g _ hc hr.1, fun hx => ?_, fun hx => ?_⟩
  · rw [hr.2, if_pos hx]; exact fixId_spec _ _
  · rw [hr.2, if_neg hx]

/-- C13: the attribute groups of the v2 registry are the public ones. -/
theorem attribute_groups_kept (i : In) (o : Out) (h : convert i = .ok o) :
    Forall2 (GroupOf i o) (i.groups.filter fun g => g.type = .attributeGroup ∧ g.visibility = some .publicVis)
      o.groups := by
  obtain ⟨hc, _, hg, _, _⟩ := convert_parts i o h
  have h1 := hg.groups
  simp only [List.nil_append] at h1
  rw [h1]
  generalize i.groups.filter (fun g => decide (g.type = .attributeGroup ∧ g.visibility = some .publicVis)) = l
  induction l with
  | nil => exact .nil
  | cons g l ih =>
    rw [List.map_cons]
    exact .cons ⟨fixId_spec _ _, plain_spec i g, hc ▸ plainRefs_spec i g⟩ ih

/-- C13: the v2 catalog holds exactly the attributes of the v1 catalog, sorted by key, and no two entries say the
same. -/
theorem catalog_kept (i : In) (o : Out) (h : convert i = .ok o) :
    (∀ a ∈ i.catalog, ∃ b ∈ o.catalog, SameAttr a b) ∧ (∀ b ∈ o.catalog, ∃ a ∈ i.catalog, SameAttr a b) ∧
    o.catalog.Pairwise (fun b c => b.key ≤ c.key) ∧
    ∀ (m n : Nat) (a : A1) (b c : A2), o.catalog[m]? = some b → o.catalog[n]? = some c → SameAttr a b → SameAttr a c →
      m = n := by
  obtain ⟨hc, _⟩ := convert_parts i o h
  rw [hc]
  refine ⟨fun a ha => ⟨_, (mem_catalog2 i _).2 ⟨a, ha, rfl⟩, ((sameAttr_iff i a _).2 rfl).1⟩, fun b hb => ?_, ?_, ?_⟩
  · obtain ⟨a, ha, he⟩ := (mem_catalog2 i b).1 hb
    exact ⟨a, ha, ((sameAttr_iff i a _).2 he).1⟩
  · have hs : Sorted (catLe i.hash) (catalog2 i) := sortBy_sorted (catLe_totalPre i.hash) _
    refine List.Pairwise.imp (fun {b c} hbc => ?_) hs
    unfold catLe at hbc
    simp only [Bool.or_eq_true, Bool.and_eq_true, decide_eq_true_eq] at hbc
    rcases hbc with h | ⟨h, _⟩
    · exact String.not_lt.1 fun h' => String.lt_irrefl _ (String.lt_trans h h')
    · rw [h]; exact String.le_refl _
  · intro m n a b c hb hc h1 h2
    have e1 := eq_of_same i a b (List.mem_of_getElem? hb) h1
    have e2 := eq_of_same i a c (List.mem_of_getElem? hc) h2
    exact getElem?_inj_nodup (catalog2_nodup i) hb (by rw [hc, e1, e2])

theorem dedup_mem (l : List Nat) (n : Nat) : n ∈ dedup l ↔ n ∈ l := by
  induction l using dedup.induct with
  | case1 => simp [dedup]
  | case2 a => simp [dedup]
  | case3 b l ih => rw [dedup, if_pos rfl, ih]; simp
  | case4 a b l hab ih => rw [dedup, if_neg hab, List.mem_cons, ih]; simp

theorem dedup_sorted (l : List Nat) (h : l.Pairwise (· ≤ ·)) : (dedup l).Pairwise (· < ·) := by
  induction l using dedup.induct with
  | case1 => simp [dedup]
  | case2 a => simp [dedup]
  | case3 b l ih => rw [dedup, if_pos rfl]; exact ih (List.pairwise_cons.1 h).2
  | case4 a b l hab ih =>
    rw [dedup, if_neg hab]
    obtain ⟨h1, h2⟩ := List.pairwise_cons.1 h
    refine List.pairwise_cons.2 ⟨fun n hn => ?_, ih h2⟩
    rw [dedup_mem] at hn
    have hb : b ≤ n := by
      rcases List.mem_cons.1 hn with rfl | hn
      · exact Nat.le_refl _
      · exact (List.pairwise_cons.1 h2).1 n hn
    have := h1 b (by simp)
    omega

/-- `g` defines the attribute `a`: it holds it, and its lineage does not say it took it from elsewhere. -/
def DefinesAttr (i : In) (g : Grp) (a : A1) : Prop :=
  (∃ r ∈ g.attributes, i.catalog[r]? = some a) ∧ ∀ l, g.lineage = some l → aget a.name l.attrs = none

/-- C13: the attributes of the v2 registry are exactly those some group defines, each once, in the order of the
catalog. -/
theorem registry_attributes (i : In) (o : Out) (h : convert i = .ok o) :
    o.attributes.Pairwise (· < ·) ∧
    ∀ n, n ∈ o.attributes ↔ ∃ g ∈ i.groups, ∃ a, DefinesAttr i g a ∧ ∃ b, o.catalog[n]? = some b ∧ SameAttr a b := by
  obtain ⟨hc, ha, _⟩ := convert_parts i o h
  rw [hc, ha]
  constructor
  · refine dedup_sorted _ ?_
    have ht : TotalPre (fun a b : Nat => decide (a ≤ b)) :=
      ⟨fun a b => by simpa using Nat.le_total a b, fun a b c => by simpa using Nat.le_trans⟩
    exact List.Pairwise.imp (fun {a b} hab => of_decide_eq_true hab) (sortBy_sorted ht (definedRefs i))
  · intro n
    rw [dedup_mem, mem_sortBy]
    unfold definedRefs DefinesAttr
    rw [List.mem_flatMap]
    constructor
    · rintro ⟨g, hg, hn⟩
      obtain ⟨r, hr, hx⟩ := List.mem_filterMap.1 hn
      cases hcat : i.catalog[r]? with
      | none => rw [hcat] at hx; cases hx
      | some a =>
        rw [hcat] at hx; dsimp only at hx
        cases hl : lineageOf g a.name with
        | some s => rw [hl] at hx; cases hx
        | none =>
          rw [hl] at hx
          refine ⟨g, hg, a, ⟨⟨r, hr, hcat⟩, fun l h => ?_⟩, (convertRef_iff i a n).1 hx⟩
          unfold lineageOf at hl
          rw [h] at hl; exact hl
    · rintro ⟨g, hg, a, ⟨⟨r, hr, hcat⟩, hl⟩, hb⟩
      refine ⟨g, hg, List.mem_filterMap.2 ⟨r, hr, ?_⟩⟩
      rw [hcat]; dsimp only
      have hn := (convertRef_iff i a n).2 hb
      have hx : lineageOf g a.name = none := by
        unfold lineageOf
        cases hl1 : g.lineage with
        | none => rfl
        | some l => exact hl l hl1
      rw [hx]; exact hn

end Verif.Convert
