import Verif.Imports.Model
/-
C09: entity lookup across dependencies and entity associations.
-/
namespace Verif.Imports
open Verif.Util Verif.Resolver

/-! ## Which names a group answers to (specification) -/

/-- The part of an id that only says the kind of a v2 group. -/
def KindPrefix : GroupType → String → Prop
  | .attributeGroup, p => p = "attribute_group." ∨ p = "registry."
  | .span, p => p = "span."
  | .event, p => p = "event."
  | .metric, p => p = "metric."
  | .metricGroup, p => p = "metric."
  | .entity, p => p = "entity."
  | .scope, _ => False
  | .undefined, _ => False

/-- The signal name of a group: the metric name of a metric, the name of a span, event or entity. -/
def SignalName (g : Grp) (n : String) : Prop :=
  ((g.type = .metric ∨ g.type = .metricGroup) ∧ g.metricName = some n) ∨
  ((g.type = .span ∨ g.type = .event ∨ g.type = .entity) ∧ g.name = some n)

/-- `Answers g k`: an import pattern or an entity association can name `g` by `k`. -/
inductive Answers (g : Grp) : String → Prop
  /-- a v2 group of an importable type answers to its id -/
  | v2Id (h : g.isV2 = true) (ht : Field.of g.type ≠ none) : Answers g g.id
  /-- a v2 group answers to its signal name -/
  | v2Name (h : g.isV2 = true) (n : String) (hn : SignalName g n) : Answers g n
  /-- a v2 group answers to its id without the kind prefix -/
  | v2Short (h : g.isV2 = true) (p r : String) (hp : KindPrefix g.type p) (hr : g.id = p ++ r) : Answers g r
  /-- a v1 span, attribute group or entity answers to its id -/
  | v1Id (h : g.isV2 = false) (ht : g.type = .attributeGroup ∨ g.type = .span ∨ g.type = .entity) : Answers g g.id
  /-- a v1 event, metric or entity answers to its name -/
  | v1Name (h : g.isV2 = false) (n : String) (ht : g.type = .event ∨ g.type = .metric ∨ g.type = .entity)
      (hn : SignalName g n) : Answers g n
  /-- a v1 entity answers to its id without the kind prefix -/
  | v1Short (h : g.isV2 = false) (r : String) (ht : g.type = .entity) (hr : g.id = "entity." ++ r) : Answers g r

theorem stripOpt_spec (p s r : String) : stripOpt p s = some r ↔ s = p ++ r := by
  unfold stripOpt
  constructor
  · intro h
    split at h
    · rename_i hp
      rw [List.isPrefixOf_iff_prefix] at hp
      obtain ⟨t, ht⟩ := hp
      have hr := Option.some.inj h
      rw [← ht, List.drop_left] at hr
      apply String.toList_injective
      rw [String.toList_append, ← ht, ← hr, String.toList_ofList]
    · cases h
  · intro h
    subst h
    have hp : p.toList.isPrefixOf (p ++ r).toList = true := by
      rw [List.isPrefixOf_iff_prefix, String.toList_append]; exact ⟨_, rfl⟩
    rw [if_pos hp, String.toList_append, List.drop_left, String.ofList_toList]

theorem mem_stripOpt (p s r : String) : r ∈ (stripOpt p s).toList ↔ s = p ++ r := by
  rw [Option.mem_toList, stripOpt_spec]

/-- The keys the code computes are exactly the names of the specification. -/
theorem matchKeys_answers (g : Grp) (k : String) : k ∈ matchKeys g ↔ Answers g k := by
  constructor
  · intro h
    unfold matchKeys at h
    split at h
    · rename_i hv
      split at h <;> rename_i ht
      case h_7 => cases h
      case h_8 => cases h
      case h_1 =>
        rcases List.mem_cons.1 h with rfl | h
        · exact .v2Id hv (by rw [ht]; simp [Field.of])
        · rcases List.mem_append.1 h with h | h <;> rw [mem_stripOpt] at h
          · exact .v2Short hv _ _ (by rw [ht]; exact .inr rfl) h
          · exact .v2Short hv _ _ (by rw [ht]; exact .inl rfl) h
      all_goals
        rcases List.mem_cons.1 h with rfl | h
        · exact .v2Id hv (by rw [ht]; simp [Field.of])
        · rcases List.mem_append.1 h with h | h
          · rw [Option.mem_toList] at h
            exact .v2Name hv _ (by unfold SignalName; simp [ht, h])
          · rw [mem_stripOpt] at h
            exact .v2Short hv _ _ (by rw [ht]; exact rfl) h
    · rename_i hv
      have hv : g.isV2 = false := by simpa using hv
      split at h <;> rename_i ht
      case h_1 =>
        rw [List.mem_singleton.1 h]; exact .v1Id hv (.inl ht)
      case h_2 =>
        rw [List.mem_singleton.1 h]; exact .v1Id hv (.inr (.inl ht))
      case h_3 =>
        rw [Option.mem_toList] at h
        exact .v1Name hv _ (.inl ht) (by unfold SignalName; simp [ht, h])
      case h_4 =>
        have key : k = g.id ∨ g.id = "entity." ++ k ∨ g.name = some k := by
          dsimp only at h
          split at h
          · rename_i n hn
            split at h
            · rcases List.mem_cons.1 h with h | h
              · exact .inl h
              · rw [mem_stripOpt] at h; exact .inr (.inl h)
            · rcases List.mem_append.1 h with h | h
              · rcases List.mem_cons.1 h with h | h
                · exact .inl h
                · rw [mem_stripOpt] at h; exact .inr (.inl h)
              · rw [List.mem_singleton.1 h]; exact .inr (.inr hn)
          · rcases List.mem_cons.1 h with h | h
            · exact .inl h
            · rw [mem_stripOpt] at h; exact .inr (.inl h)
        rcases key with rfl | h | h
        · exact .v1Id hv (.inr (.inr ht))
        · exact .v1Short hv _ ht h
        · exact .v1Name hv _ (.inr (.inr ht)) (by unfold SignalName; simp [ht, h])
      case h_5 =>
        rw [Option.mem_toList] at h
        exact .v1Name hv _ (.inr (.inl ht)) (by unfold SignalName; simp [ht, h])
      all_goals cases h
  · intro h
    cases h with
    | v2Id hv ht =>
      unfold matchKeys; rw [if_pos hv]
      cases hty : g.type <;> simp [hty, Field.of] at ht ⊢
    | v2Name hv _ hn =>
      unfold matchKeys; rw [if_pos hv]
      unfold SignalName at hn
      cases hty : g.type <;> simp [hty] at hn ⊢ <;> simp [hn]
    | v2Short hv p _ hp hr =>
      unfold matchKeys; rw [if_pos hv]
      cases hty : g.type <;> rw [hty] at hp <;> simp only [KindPrefix] at hp
      case attributeGroup =>
        rcases hp with rfl | rfl <;>
          simp only [List.mem_cons, List.mem_append, mem_stripOpt, hr, true_or, or_true]
      all_goals
        subst hp
        simp only [List.mem_cons, List.mem_append, mem_stripOpt, hr, true_or, or_true]
    | v1Id hv ht =>
      unfold matchKeys; rw [if_neg (by simp [hv])]
      rcases ht with ht | ht | ht <;> rw [ht] <;> dsimp only
      · exact List.mem_singleton.2 rfl
      · exact List.mem_singleton.2 rfl
      · split
        · split
          · exact List.mem_cons_self ..
          · exact List.mem_append_left _ (List.mem_cons_self ..)
        · exact List.mem_cons_self ..
    | v1Name hv _ ht hn =>
      unfold matchKeys; rw [if_neg (by simp [hv])]
      unfold SignalName at hn
      rcases ht with ht | ht | ht <;> simp only [ht] at hn ⊢
      · simp at hn; simp [hn]
      · simp at hn; simp [hn]
      · simp at hn
        rw [hn]
        dsimp only
        split
        · assumption
        · exact List.mem_append_right _ (List.mem_singleton.2 rfl)
    | v1Short hv _ ht hr =>
      unfold matchKeys; rw [if_neg (by simp [hv])]
      rw [ht]; dsimp only
      have hm : k ∈ g.id :: (stripOpt "entity." g.id).toList :=
        List.mem_cons_of_mem _ ((mem_stripOpt ..).2 hr)
      split
      · split
        · exact hm
        · exact List.mem_append_left _ hm
      · exact hm

/-- A v1 `resource` entity, named by id, by id without the prefix, and by name. -/
example : Answers { id := "entity.host", type := .entity, name := some "host.name" } "host" ∧
    Answers { id := "entity.host", type := .entity, name := some "host.name" } "host.name" ∧
    ¬ Answers { id := "metric.m", type := .metric, metricName := some "m" } "metric.m" :=
  ⟨(matchKeys_answers _ _).1 (by decide), (matchKeys_answers _ _).1 (by decide),
   fun h => absurd ((matchKeys_answers _ _).2 h) (by decide)⟩

/-! ## Looking a name up in one dependency -/

/-- The registry that declared a signal of the v2 schema `s`: the dependency its provenance points at, and the schema
itself when it points at none. -/
inductive DeclaredBy (s : V2) : Option Nat → SchemaUrl → Prop
  | here : DeclaredBy s none s.url
  | dep (i : Nat) (u : SchemaUrl) (h : s.deps[i]? = some u) : DeclaredBy s (some i) u
  | dangling (i : Nat) (h : s.deps[i]? = none) : DeclaredBy s (some i) s.url

theorem sourceUrl_iff (s : V2) (src : Option Nat) (u : SchemaUrl) : sourceUrl s src = u ↔ DeclaredBy s src u := by
  constructor
  · rintro rfl
    cases src with
    | none => exact .here
    | some i =>
      unfold sourceUrl
      dsimp only
      cases h : s.deps[i]? with
      | none => exact .dangling i h
      | some u => exact .dep i u h
  · intro h
    cases h with
    | here => rfl
    | dep i _ h => simp [sourceUrl, h]
    | dangling i h => simp [sourceUrl, h]

/-- What a dependency answers for an entity name: `Holds d n u hidden` when the first entity of `d` that answers to `n`
was declared by the registry `u`, and `hidden` says whether it is excluded from dependency resolution. -/
inductive Holds : Dep → String → SchemaUrl → Bool → Prop
  | v1 (s : V1) (n : String) (own : SchemaUrl) (pre post : List Grp) (g : Grp) (hu : s.url = some own)
      (hs : s.groups = pre ++ g :: post) (hg : g.type = .entity ∧ Answers g n)
      (hpre : ∀ x ∈ pre, ¬ (x.type = .entity ∧ Answers x n)) :
      Holds (.v1 s) n (g.origin.getD own) (isExcludedOpt g.annotations)
  | v2 (s : V2) (n : String) (pre post : List Sig) (e : Sig) (hs : s.entities ++ s.refinedEntities = pre ++ e :: post)
      (he : e.id = n) (hpre : ∀ x ∈ pre, x.id ≠ n) (u : SchemaUrl) (hu : DeclaredBy s e.source u) :
      Holds (.v2 s) n u (isExcluded e.annotations)

theorem find?_append_or {α : Type} (p : α → Bool) (a b : List α) : (a ++ b).find? p = (a.find? p).or (b.find? p) := by
  rw [List.find?_append]

/-- The lookup of the code is the specified one. -/
theorem lookup_holds (d : Dep) (n : String) (u : SchemaUrl) (b : Bool) :
    d.lookupEntity n = some { origin := u, excluded := b } ↔ Holds d n u b := by
  cases d with
  | v1 s =>
    have hfind : (s.groups.filter (fun g => decide (g.type = .entity))).find? (fun g => decide (n ∈ matchKeys g))
        = s.groups.find? (fun g => decide (g.type = .entity) && decide (n ∈ matchKeys g)) := by
      rw [List.find?_filter]; congr 1; funext a; simp
    have hp : ∀ g : Grp, (decide (g.type = .entity) && decide (n ∈ matchKeys g)) = true ↔
        (g.type = .entity ∧ Answers g n) := by
      intro g; rw [Bool.and_eq_true, decide_eq_true_eq, decide_eq_true_eq, matchKeys_answers]
    constructor
    · intro h
      simp only [Dep.lookupEntity, lookupEntityV1] at h
      split at h
      · cases h
      · rename_i own hown
        rw [hfind] at h
        split at h
        · rename_i g hg
          have h := Option.some.inj h
          rw [List.find?_eq_some_iff_append] at hg
          obtain ⟨hpg, pre, post, hs, hpre⟩ := hg
          have := Holds.v1 s n own pre post g hown hs ((hp g).1 hpg) (fun x hx hc => by
            have h1 := hpre x hx
            rw [(hp x).2 hc] at h1; cases h1)
          injection h with h1 h2
          rw [← h1, ← h2]; exact this
        · cases h
    · intro h
      cases h with
      | v1 _ _ own pre post g hu hs hg hpre =>
        simp only [Dep.lookupEntity, lookupEntityV1, hu, hfind]
        have : s.groups.find? (fun g => decide (g.type = .entity) && decide (n ∈ matchKeys g)) = some g := by
          rw [List.find?_eq_some_iff_append]
          refine ⟨(hp g).2 hg, pre, post, hs, fun x hx => ?_⟩
          cases hc : (decide (x.type = .entity) && decide (n ∈ matchKeys x)) with
          | false => rfl
          | true => exact absurd ((hp x).1 hc) (hpre x hx)
        rw [this]
  | v2 s =>
    simp only [Dep.lookupEntity, lookupEntityV2]
    rw [← List.find?_append]
    constructor
    · intro h
      split at h
      · rename_i e he
        have h := Option.some.inj h
        rw [List.find?_eq_some_iff_append] at he
        obtain ⟨hpe, pre, post, hs, hpre⟩ := he
        have := Holds.v2 s n pre post e hs (by simpa using hpe) (fun x hx => by simpa using hpre x hx) _
          ((sourceUrl_iff ..).1 rfl)
        injection h with h1 h2
        rw [← h1, ← h2]; exact this
      · cases h
    · intro h
      cases h with
      | v2 _ _ pre post e hs he hpre _ hu =>
        have : (s.entities ++ s.refinedEntities).find? (fun e => decide (e.id = n)) = some e := by
          rw [List.find?_eq_some_iff_append]
          exact ⟨by simpa using he, pre, post, hs, fun x hx => by simpa using hpre x hx⟩
        rw [this]; dsimp only; rw [(sourceUrl_iff ..).2 hu]

/-! ## Weighing the answers of all dependencies -/

theorem weigh_spec (ls : List Loc) (acc : List SchemaUrl × Bool) (hn : acc.1.Nodup) :
    (ls.foldl weigh acc).1.Nodup ∧
    (∀ u, u ∈ (ls.foldl weigh acc).1 ↔ u ∈ acc.1 ∨ { origin := u, excluded := false } ∈ ls) ∧
    ((ls.foldl weigh acc).2 = true ↔ acc.2 = true ∨ ∃ u, { origin := u, excluded := true } ∈ ls) := by
  induction ls generalizing acc with
  | nil => simp [hn]
  | cons l ls ih =>
    rw [List.foldl_cons]
    obtain ⟨o, b⟩ := l
    cases b with
    | true =>
      obtain ⟨h1, h2, h3⟩ := ih (acc.1, true) hn
      have hw : weigh acc { origin := o, excluded := true } = (acc.1, true) := rfl
      rw [hw]
      refine ⟨h1, fun u => ?_, ?_⟩
      · rw [h2]; simp
      · rw [h3]; simp
    | false =>
      by_cases hm : o ∈ acc.1
      · have hw : weigh acc { origin := o, excluded := false } = acc := by simp [weigh, hm]
        rw [hw]
        obtain ⟨h1, h2, h3⟩ := ih acc hn
        refine ⟨h1, fun u => ?_, ?_⟩
        · rw [h2]; simp only [List.mem_cons, Loc.mk.injEq, and_true]
          constructor
          · rintro (h | h) <;> simp [h]
          · rintro (h | h | h)
            · exact .inl h
            · exact .inl (h ▸ hm)
            · exact .inr h
        · rw [h3]; simp
      · have hw : weigh acc { origin := o, excluded := false } = (acc.1 ++ [o], acc.2) := by simp [weigh, hm]
        rw [hw]
        obtain ⟨h1, h2, h3⟩ := ih (acc.1 ++ [o], acc.2) (by
          rw [List.nodup_append]
          refine ⟨hn, by simp, ?_⟩
          intro a ha b hb hab
          rw [List.mem_singleton.1 hb] at hab
          exact hm (hab ▸ ha))
        refine ⟨h1, fun u => ?_, ?_⟩
        · rw [h2]; simp only [List.mem_append, List.mem_cons, Loc.mk.injEq, and_true, List.not_mem_nil, or_false]
          constructor
          · rintro ((h | h) | h) <;> simp [h]
          · rintro (h | h | h) <;> simp [h]
        · rw [h3]; simp

/-- `Offers`: a dependency declares or re-exports a reachable entity of that name, declared by `u`. -/
def Offers (deps : List Dep) (n : String) (u : SchemaUrl) : Prop := ∃ d ∈ deps, Holds d n u false
/-- `Hides`: a dependency holds the name, but keeps the entity private. -/
def Hides (deps : List Dep) (n : String) : Prop := ∃ d ∈ deps, ∃ u, Holds d n u true

theorem weighed (deps : List Dep) (n : String) :
    let r := (deps.filterMap (·.lookupEntity n)).foldl weigh ([], false)
    r.1.Nodup ∧ (∀ u, u ∈ r.1 ↔ Offers deps n u) ∧ (r.2 = true ↔ Hides deps n) := by
  obtain ⟨h1, h2, h3⟩ := weigh_spec (deps.filterMap (·.lookupEntity n)) ([], false) (by simp)
  refine ⟨h1, fun u => ?_, ?_⟩
  · rw [h2]
    simp only [List.not_mem_nil, false_or, List.mem_filterMap, Offers]
    exact exists_congr fun d => and_congr_right fun _ => lookup_holds d n u false
  · rw [h3]
    simp only [Bool.false_eq_true, false_or, List.mem_filterMap, Hides]
    constructor
    · rintro ⟨u, d, hd, h⟩; exact ⟨d, hd, u, (lookup_holds ..).1 h⟩
    · rintro ⟨d, hd, u, h⟩; exact ⟨u, d, hd, (lookup_holds ..).2 h⟩

/-- C09. `found` exactly when one registry, and only one, offers the name. -/
theorem entity_found_iff (deps : List Dep) (n : String) (u : SchemaUrl) :
    resolveEntity deps n = .found u ↔ (∀ v, Offers deps n v ↔ v = u) := by
  obtain ⟨hn, hm, _⟩ := weighed deps n
  unfold resolveEntity
  dsimp only
  generalize (deps.filterMap (·.lookupEntity n)).foldl weigh ([], false) = r at *
  obtain ⟨us, b⟩ := r
  dsimp only at *
  match us, hn, hm with
  | [], _, hm =>
    simp only
    constructor
    · intro h; split at h <;> cases h
    · intro h; exact absurd ((hm u).2 ((h u).2 rfl)) (by simp)
  | [x], _, hm =>
    simp only [Res.found.injEq]
    constructor
    · rintro rfl v; rw [← hm]; simp
    · intro h; exact (h x).1 ((hm x).1 (by simp))
  | x :: y :: us, hn, hm =>
    simp only [reduceCtorEq, false_iff]
    intro h
    have hx := (h x).1 ((hm x).1 (by simp))
    have hy := (h y).1 ((hm y).1 (by simp))
    rw [hx, hy] at hn; simp at hn

/-- C09. `private` exactly when nothing is offered and something is hidden. -/
theorem entity_private_iff (deps : List Dep) (n : String) :
    resolveEntity deps n = .priv ↔ (∀ v, ¬ Offers deps n v) ∧ Hides deps n := by
  obtain ⟨hn, hm, hh⟩ := weighed deps n
  unfold resolveEntity
  dsimp only
  generalize (deps.filterMap (·.lookupEntity n)).foldl weigh ([], false) = r at *
  obtain ⟨us, b⟩ := r
  dsimp only at *
  match us, hn, hm with
  | [], _, hm =>
    rw [← hh]
    simp only
    constructor
    · intro h
      refine ⟨fun v hv => absurd ((hm v).2 hv) (by simp), ?_⟩
      cases b <;> simp_all
    · intro h; rw [h.2]; rfl
  | [x], _, hm =>
    simp only [reduceCtorEq, false_iff]
    intro h; exact h.1 x ((hm x).1 (by simp))
  | x :: y :: us, hn, hm =>
    simp only [reduceCtorEq, false_iff]
    intro h; exact h.1 x ((hm x).1 (by simp))

/-- C09. `unknown` exactly when no dependency holds the name at all. -/
theorem entity_unknown_iff (deps : List Dep) (n : String) :
    resolveEntity deps n = .unknown ↔ (∀ v, ¬ Offers deps n v) ∧ ¬ Hides deps n := by
  obtain ⟨hn, hm, hh⟩ := weighed deps n
  unfold resolveEntity
  dsimp only
  generalize (deps.filterMap (·.lookupEntity n)).foldl weigh ([], false) = r at *
  obtain ⟨us, b⟩ := r
  dsimp only at *
  match us, hn, hm with
  | [], _, hm =>
    rw [← hh]
    simp only
    constructor
    · intro h
      refine ⟨fun v hv => absurd ((hm v).2 hv) (by simp), ?_⟩
      cases b <;> simp_all
    · intro h; rw [if_neg h.2]
  | [x], _, hm =>
    simp only [reduceCtorEq, false_iff]
    intro h; exact h.1 x ((hm x).1 (by simp))
  | x :: y :: us, hn, hm =>
    simp only [reduceCtorEq, false_iff]
    intro h; exact h.1 x ((hm x).1 (by simp))

/-- C09. An ambiguity lists every registry that offers the name, once each, and there are at least two. -/
theorem entity_ambiguous_lists (deps : List Dep) (n : String) (us : List SchemaUrl)
    (h : resolveEntity deps n = .ambiguous us) :
    2 ≤ us.length ∧ us.Nodup ∧ ∀ u, u ∈ us ↔ Offers deps n u := by
  obtain ⟨hn, hm, _⟩ := weighed deps n
  unfold resolveEntity at h
  dsimp only at h
  generalize (deps.filterMap (·.lookupEntity n)).foldl weigh ([], false) = r at *
  obtain ⟨vs, b⟩ := r
  dsimp only at *
  match vs, hn, hm, h with
  | [], _, _, h => simp only at h; split at h <;> cases h
  | [x], _, _, h => cases h
  | x :: y :: vs, hn, hm, h =>
    cases h
    exact ⟨by simp, hn, hm⟩

/-- C09. The name is ambiguous exactly when two different registries offer it. -/
theorem entity_ambiguous_iff (deps : List Dep) (n : String) :
    (∃ us, resolveEntity deps n = .ambiguous us) ↔ ∃ u v, u ≠ v ∧ Offers deps n u ∧ Offers deps n v := by
  constructor
  · rintro ⟨us, h⟩
    obtain ⟨hl, hn, hm⟩ := entity_ambiguous_lists deps n us h
    match us, hl, hn, hm with
    | x :: y :: us, _, hn, hm =>
      refine ⟨x, y, ?_, (hm x).1 (by simp), (hm y).1 (by simp)⟩
      rintro rfl; simp at hn
  · rintro ⟨u, v, huv, hu, hv⟩
    cases h : resolveEntity deps n with
    | found w =>
      rw [entity_found_iff] at h
      exact absurd (((h u).1 hu).trans ((h v).1 hv).symm) huv
    | priv => exact absurd hu (((entity_private_iff ..).1 h).1 u)
    | unknown => exact absurd hu (((entity_unknown_iff ..).1 h).1 u)
    | ambiguous us => exact ⟨us, rfl⟩

/-- Two results that differ at most in the order the registries of an ambiguity are listed in. -/
def SameRes : Res → Res → Prop
  | .ambiguous us, .ambiguous vs => us.Perm vs
  | a, b => a = b

/-- C09. The order in which the manifest lists the dependencies, and listing one twice, do not change the answer. -/
theorem entity_order_independent (deps deps' : List Dep) (n : String) (h : ∀ d, d ∈ deps ↔ d ∈ deps') :
    SameRes (resolveEntity deps n) (resolveEntity deps' n) := by
  have ho : ∀ u, Offers deps n u ↔ Offers deps' n u := fun u =>
    exists_congr fun d => and_congr_left fun _ => h d
  have hh : Hides deps n ↔ Hides deps' n := exists_congr fun d => and_congr_left fun _ => h d
  cases h1 : resolveEntity deps n with
  | found u =>
    have := (entity_found_iff ..).1 h1
    rw [(entity_found_iff deps' n u).2 (fun v => (ho v).symm.trans (this v))]; exact rfl
  | priv =>
    have := (entity_private_iff ..).1 h1
    rw [(entity_private_iff deps' n).2 ⟨fun v hv => this.1 v ((ho v).2 hv), hh.1 this.2⟩]; exact rfl
  | unknown =>
    have := (entity_unknown_iff ..).1 h1
    rw [(entity_unknown_iff deps' n).2 ⟨fun v hv => this.1 v ((ho v).2 hv), fun hx => this.2 (hh.2 hx)⟩]; exact rfl
  | ambiguous us =>
    obtain ⟨us', h2⟩ := (entity_ambiguous_iff deps' n).2 (by
      obtain ⟨u, v, huv, hu, hv⟩ := (entity_ambiguous_iff deps n).1 ⟨us, h1⟩
      exact ⟨u, v, huv, (ho u).1 hu, (ho v).1 hv⟩)
    rw [h2]
    obtain ⟨_, hn, hm⟩ := entity_ambiguous_lists deps n us h1
    obtain ⟨_, hn', hm'⟩ := entity_ambiguous_lists deps' n us' h2
    exact (List.perm_ext_iff_of_nodup hn hn').2 fun u => by rw [hm, hm', ho]

def exUrl (n t : String) : SchemaUrl := { name := n, tail := t, sv := some ⟨1, 0, 0, 0⟩ }
/-- A v1 dependency that declares `host`, a v2 one that re-exports it, and a third one with its own `host`. -/
def exV1 : Dep := .v1 { url := some (exUrl "a" "1"), groups := [{ id := "entity.host", type := .entity }] }
def exV2 : Dep := .v2 { url := exUrl "b" "1", deps := [exUrl "a" "1"], entities := [{ id := "host", source := some 0 }] }
def exV3 : Dep := .v2 { url := exUrl "c" "1", entities := [{ id := "host" }] }
example : resolveEntity [exV1, exV2] "host" = .found (exUrl "a" "1") ∧
    resolveEntity [exV3, exV2, exV1] "host" = .ambiguous [exUrl "c" "1", exUrl "a" "1"] ∧
    resolveEntity [exV1, exV2] "pod" = .unknown := by decide

/-! ## The associations of a registry -/

/-- The registry has its own entity of that name. -/
def LocalEntity (r : Reg) (n : String) : Prop := ∃ g ∈ r.groups, g.type = .entity ∧ entityName g = n

/-- The name brought along by an imported signal. -/
def Carried (r : Reg) (g : Grp) (n : String) (u : SchemaUrl) : Prop := (aget g.id r.origins).bind (aget n) = some u

/-- The fault in associating `g` with the entity name `n`, if there is one. -/
inductive Fault (r : Reg) (g : Grp) (n : String) : IErr → Prop
  /-- a signal that others can see names an entity of this registry that they cannot see -/
  | hiddenLocal (h : ∀ u, ¬ Carried r g n u) (hl : aget n (localEntities r.groups) = some true)
      (hg : isGroupExcluded g.annotations g.visibility g.type = false) : Fault r g n (.excluded n .entity g.id)
  /-- every dependency that holds the name keeps it private -/
  | hidden (h : ∀ u, ¬ Carried r g n u) (hl : ¬ LocalEntity r n) (ho : ∀ u, ¬ Offers r.deps n u) (hh : Hides r.deps n) :
      Fault r g n (.excluded n .entity g.id)
  /-- no dependency holds the name -/
  | unknown (h : ∀ u, ¬ Carried r g n u) (hl : ¬ LocalEntity r n) (ho : ∀ u, ¬ Offers r.deps n u)
      (hh : ¬ Hides r.deps n) : Fault r g n (.unresolved g.id n)
  /-- two registries offer the name -/
  | ambiguous (us : List SchemaUrl) (h : ∀ u, ¬ Carried r g n u) (hl : ¬ LocalEntity r n) (h2 : 2 ≤ us.length)
      (hn : us.Nodup) (hu : ∀ u, u ∈ us ↔ Offers r.deps n u) (heq : resolveEntity r.deps n = .ambiguous us) :
      Fault r g n (.ambiguous g.id n us)

/-- What one association resolves to, without the memo. -/
inductive Verdict where
  | nothing
  | origin (u : SchemaUrl)
  | fault (e : IErr)
deriving DecidableEq

/-- The verdict on one name (the code without its memo). -/
def verdict (r : Reg) (g : Grp) (n : String) : Verdict :=
  if ((aget g.id r.origins).bind (aget n)).isSome then .nothing
  else match aget n (localEntities r.groups) with
    | some false => .nothing
    | some true => if isGroupExcluded g.annotations g.visibility g.type then .nothing else .fault (.excluded n .entity g.id)
    | none => match resolveEntity r.deps n with
      | .found o => .origin o
      | .priv => .fault (.excluded n .entity g.id)
      | .ambiguous us => .fault (.ambiguous g.id n us)
      | .unknown => .fault (.unresolved g.id n)

def MemoOk (r : Reg) (acc : Acc) : Prop := ∀ n o, aget n acc.memo = some o → resolveEntity r.deps n = .found o

theorem assocStep_verdict (r : Reg) (g : Grp) (acc : Acc) (n : String) (hm : MemoOk r acc) :
    MemoOk r (assocStep r g acc n) ∧
    match verdict r g n with
    | .nothing => (assocStep r g acc n).origins = acc.origins ∧ (assocStep r g acc n).errors = acc.errors
    | .origin u => (assocStep r g acc n).origins = record g.id n u acc.origins ∧
        (assocStep r g acc n).errors = acc.errors
    | .fault e => (assocStep r g acc n).origins = acc.origins ∧ (assocStep r g acc n).errors = acc.errors ++ [e] := by
  unfold assocStep verdict
  by_cases hc : ((aget g.id r.origins).bind (aget n)).isSome = true
  · rw [if_pos hc, if_pos hc]; exact ⟨hm, rfl, rfl⟩
  · rw [if_neg hc, if_neg hc]
    cases hl : aget n (localEntities r.groups) with
    | some b =>
      cases b with
      | false => exact ⟨hm, rfl, rfl⟩
      | true =>
        dsimp only
        by_cases hg : isGroupExcluded g.annotations g.visibility g.type = true
        · rw [if_pos hg, if_pos hg]; exact ⟨hm, rfl, rfl⟩
        · rw [if_neg hg, if_neg hg]; exact ⟨hm, rfl, rfl⟩
    | none =>
      dsimp only
      cases hmm : aget n acc.memo with
      | some o =>
        rw [hm n o hmm]; exact ⟨hm, rfl, rfl⟩
      | none =>
        dsimp only
        cases hr : resolveEntity r.deps n with
        | found o =>
          refine ⟨?_, rfl, rfl⟩
          intro n' o' h
          dsimp only at h
          rw [aget_aset] at h
          split at h
          · rename_i hnn; cases h; rw [hnn]; exact hr
          · exact hm n' o' h
        | priv => exact ⟨hm, rfl, rfl⟩
        | ambiguous us => exact ⟨hm, rfl, rfl⟩
        | unknown => exact ⟨hm, rfl, rfl⟩

/-- The recorded origin of a name of a group id. -/
def originAt (m : List (String × Origins)) (gid n : String) : Option SchemaUrl := (aget gid m).bind (aget n)

theorem originAt_record (gid n : String) (u : SchemaUrl) (m : List (String × Origins)) (gid' n' : String) :
    originAt (record gid n u m) gid' n' = if gid' = gid ∧ n' = n then some u else originAt m gid' n' := by
  unfold originAt record
  rw [aget_aset]
  by_cases h : gid' = gid
  · subst h
    rw [if_pos rfl, Option.bind_some, aget_aset]
    by_cases hn : n' = n
    · simp [hn]
    · rw [if_neg hn, if_neg (by simp [hn])]
      cases aget gid' m <;> rfl
  · rw [if_neg h, if_neg (by simp [h])]

/-- The (group, name) pairs the loop visits, in order. -/
def visits (gs : List Grp) : List (Grp × String) := gs.flatMap (fun g => (uniq g.assocs).map (fun n => (g, n)))

theorem assocLoop_visits (r : Reg) :
    assocLoop r = (visits r.groups).foldl (fun acc p => assocStep r p.1 acc p.2) {} := by
  unfold assocLoop
  suffices H : ∀ (gs : List Grp) (acc : Acc), gs.foldl (fun acc g => (uniq g.assocs).foldl (assocStep r g) acc) acc =
      (visits gs).foldl (fun acc p => assocStep r p.1 acc p.2) acc from H _ _
  intro gs
  induction gs with
  | nil => intro acc; rfl
  | cons g gs ih =>
    intro acc
    have hv : visits (g :: gs) = (uniq g.assocs).map (fun n => (g, n)) ++ visits gs := by
      simp [visits]
    rw [List.foldl_cons, ih, hv, List.foldl_append, List.foldl_map]

theorem foldl_verdicts (r : Reg) (ps : List (Grp × String)) (acc : Acc) (hm : MemoOk r acc) :
    let acc' := ps.foldl (fun acc p => assocStep r p.1 acc p.2) acc
    acc'.errors = acc.errors ++ ps.filterMap (fun p => match verdict r p.1 p.2 with | .fault e => some e | _ => none) ∧
    (∀ gid n u, originAt acc'.origins gid n = some u ↔
      (∃ p ∈ ps, p.1.id = gid ∧ p.2 = n ∧ verdict r p.1 p.2 = .origin u) ∨
      ((∀ v, ∀ p ∈ ps, ¬ (p.1.id = gid ∧ p.2 = n ∧ verdict r p.1 p.2 = .origin v)) ∧
        originAt acc.origins gid n = some u)) := by
  induction ps generalizing acc with
  | nil => simp
  | cons p ps ih =>
    obtain ⟨hm', hv⟩ := assocStep_verdict r p.1 acc p.2 hm
    obtain ⟨he, ho⟩ := ih _ hm'
    dsimp only at *
    rw [List.foldl_cons]
    have hdet : ∀ p : Grp × String, ∀ u v, verdict r p.1 p.2 = .origin u → verdict r p.1 p.2 = .origin v → u = v := by
      intro p u v h1 h2; rw [h1] at h2; exact Verdict.origin.inj h2
    -- two visits of the same id and name that are looked up in the dependencies get the same answer
    have hsame : ∀ (g g' : Grp) n u v, verdict r g n = .origin u → verdict r g' n = .origin v → u = v := by
      intro g g' n u v h1 h2
      have key : ∀ (g : Grp) u, verdict r g n = .origin u → resolveEntity r.deps n = .found u := by
        intro g u h
        unfold verdict at h
        split at h
        · cases h
        · split at h
          · cases h
          · split at h <;> cases h
          · split at h
            · rename_i hr; cases h; exact hr
            all_goals cases h
      have h1 := key g u h1
      have h2 := key g' v h2
      rw [h1] at h2; exact Res.found.inj h2
    refine ⟨?_, ?_⟩
    · rw [he]
      cases hvv : verdict r p.1 p.2 with
      | nothing => rw [hvv] at hv; simp [hvv, hv.2]
      | origin u => rw [hvv] at hv; simp [hvv, hv.2]
      | fault e => rw [hvv] at hv; simp [hvv, hv.2]
    · intro gid n u
      rw [ho gid n u]
      have hacc : originAt (assocStep r p.1 acc p.2).origins gid n =
          match verdict r p.1 p.2 with
          | .origin v => if gid = p.1.id ∧ n = p.2 then some v else originAt acc.origins gid n
          | _ => originAt acc.origins gid n := by
        cases hvv : verdict r p.1 p.2 with
        | nothing => rw [hvv] at hv; rw [hv.1]
        | origin u => rw [hvv] at hv; rw [hv.1, originAt_record]
        | fault e => rw [hvv] at hv; rw [hv.1]
      constructor
      · rintro (⟨q, hq, h⟩ | ⟨hnone, h⟩)
        · exact .inl ⟨q, List.mem_cons_of_mem _ hq, h⟩
        · rw [hacc] at h
          cases hvv : verdict r p.1 p.2 with
          | nothing =>
            rw [hvv] at h
            refine .inr ⟨fun v q hq => ?_, h⟩
            rcases List.mem_cons.1 hq with rfl | hq
            · rw [hvv]; simp
            · exact hnone v q hq
          | fault e =>
            rw [hvv] at h
            refine .inr ⟨fun v q hq => ?_, h⟩
            rcases List.mem_cons.1 hq with rfl | hq
            · rw [hvv]; simp
            · exact hnone v q hq
          | origin v =>
            rw [hvv] at h
            dsimp only at h
            by_cases hc : gid = p.1.id ∧ n = p.2
            · rw [if_pos hc] at h; cases h
              exact .inl ⟨p, List.mem_cons_self .., hc.1.symm, hc.2.symm, hvv⟩
            · rw [if_neg hc] at h
              refine .inr ⟨fun w q hq => ?_, h⟩
              rcases List.mem_cons.1 hq with rfl | hq
              · rintro ⟨h1, h2, _⟩; exact hc ⟨h1.symm, h2.symm⟩
              · exact hnone w q hq
      · rintro (⟨q, hq, h1, h2, h3⟩ | ⟨hnone, h⟩)
        · by_cases hex : ∃ q' ∈ ps, q'.1.id = gid ∧ q'.2 = n ∧ ∃ w, verdict r q'.1 q'.2 = .origin w
          · obtain ⟨q', hq', h1', h2', w, h3'⟩ := hex
            have : w = u := hsame q'.1 q.1 n w u (h2' ▸ h3') (h2 ▸ h3)
            exact .inl ⟨q', hq', h1', h2', this ▸ h3'⟩
          · rcases List.mem_cons.1 hq with rfl | hq
            · refine .inr ⟨fun v q' hq' hc => hex ⟨q', hq', hc.1, hc.2.1, v, hc.2.2⟩, ?_⟩
              rw [hacc, h3]; dsimp only; rw [if_pos ⟨h1.symm, h2.symm⟩]
            · exact absurd ⟨q, hq, h1, h2, u, h3⟩ hex
        · refine .inr ⟨fun v q hq => hnone v q (List.mem_cons_of_mem _ hq), ?_⟩
          rw [hacc]
          cases hvv : verdict r p.1 p.2 with
          | nothing => exact h
          | fault e => exact h
          | origin v =>
            dsimp only
            rw [if_neg]
            · exact h
            · rintro ⟨h1, h2⟩
              exact hnone v p (List.mem_cons_self ..) ⟨h1.symm, h2.symm, hvv⟩

theorem local_keys (gs : List Grp) (n : String) :
    aget n (localEntities gs) = none ↔ ¬ ∃ g ∈ gs, g.type = .entity ∧ entityName g = n := by
  unfold localEntities
  have H : ∀ (l : List Grp) (m : List (String × Bool)),
      (aget n (l.foldl (fun m g => aset (entityName g) (isGroupExcluded g.annotations g.visibility g.type) m) m) = none ↔
        aget n m = none ∧ ∀ g ∈ l, entityName g ≠ n) := by
    intro l
    induction l with
    | nil => intro m; simp
    | cons g l ih =>
      intro m
      rw [List.foldl_cons, ih, aget_aset]
      constructor
      · rintro ⟨h1, h2⟩
        split at h1
        · cases h1
        · rename_i hne
          exact ⟨h1, fun x hx => by
            rcases List.mem_cons.1 hx with rfl | hx
            · exact fun h => hne h.symm
            · exact h2 x hx⟩
      · rintro ⟨h1, h2⟩
        rw [if_neg (fun h => h2 g (List.mem_cons_self ..) h.symm)]
        exact ⟨h1, fun x hx => h2 x (List.mem_cons_of_mem _ hx)⟩
  rw [H]
  simp [aget]

theorem verdict_fault_iff (r : Reg) (g : Grp) (n : String) (e : IErr) : verdict r g n = .fault e ↔ Fault r g n e := by
  have hcar : ((aget g.id r.origins).bind (aget n)).isSome = true ↔ ∃ u, Carried r g n u := by
    rw [Option.isSome_iff_exists]; rfl
  constructor
  · intro h
    unfold verdict at h
    split at h
    · cases h
    · rename_i hc
      have hc : ∀ u, ¬ Carried r g n u := fun u hu => hc (hcar.2 ⟨u, hu⟩)
      split at h
      · cases h
      · rename_i hl
        split at h
        · cases h
        · rename_i hg; cases h
          exact .hiddenLocal hc hl (by simpa using hg)
      · rename_i hl
        have hl := (local_keys ..).1 hl
        split at h
        · cases h
        · rename_i hr; cases h
          have := (entity_private_iff ..).1 hr
          exact .hidden hc hl this.1 this.2
        · rename_i us hr; cases h
          obtain ⟨h1, h2, h3⟩ := entity_ambiguous_lists _ _ _ hr
          exact .ambiguous us hc hl h1 h2 h3 hr
        · rename_i hr; cases h
          have := (entity_unknown_iff ..).1 hr
          exact .unknown hc hl this.1 this.2
  · intro h
    unfold verdict
    cases h with
    | hiddenLocal hc hl hg =>
      rw [if_neg (fun h => by obtain ⟨u, hu⟩ := hcar.1 h; exact hc u hu), hl]
      dsimp only; rw [hg]; rfl
    | hidden hc hl ho hh =>
      rw [if_neg (fun h => by obtain ⟨u, hu⟩ := hcar.1 h; exact hc u hu), (local_keys ..).2 hl]
      dsimp only; rw [(entity_private_iff ..).2 ⟨ho, hh⟩]
    | unknown hc hl ho hh =>
      rw [if_neg (fun h => by obtain ⟨u, hu⟩ := hcar.1 h; exact hc u hu), (local_keys ..).2 hl]
      dsimp only; rw [(entity_unknown_iff ..).2 ⟨ho, hh⟩]
    | ambiguous us hc hl h2 hn hu heq =>
      rw [if_neg (fun h => by obtain ⟨u, hu⟩ := hcar.1 h; exact hc u hu), (local_keys ..).2 hl]
      dsimp only; rw [heq]

/-- The verdict "found in the dependencies". -/
theorem verdict_origin_iff (r : Reg) (g : Grp) (n : String) (u : SchemaUrl) : verdict r g n = .origin u ↔
    (∀ v, ¬ Carried r g n v) ∧ ¬ LocalEntity r n ∧ ∀ v, Offers r.deps n v ↔ v = u := by
  have hcar : ((aget g.id r.origins).bind (aget n)).isSome = true ↔ ∃ u, Carried r g n u := by
    rw [Option.isSome_iff_exists]; rfl
  constructor
  · intro h
    unfold verdict at h
    split at h
    · cases h
    · rename_i hc
      split at h
      · cases h
      · split at h <;> cases h
      · rename_i hl
        split at h
        · rename_i hr; cases h
          exact ⟨fun u hu => hc (hcar.2 ⟨u, hu⟩), (local_keys ..).1 hl, (entity_found_iff ..).1 hr⟩
        all_goals cases h
  · rintro ⟨hc, hl, ho⟩
    unfold verdict
    rw [if_neg (fun h => by obtain ⟨u, hu⟩ := hcar.1 h; exact hc u hu), (local_keys ..).2 hl]
    dsimp only; rw [(entity_found_iff ..).2 ho]

theorem mem_visits (gs : List Grp) (p : Grp × String) : p ∈ visits gs ↔ p.1 ∈ gs ∧ p.2 ∈ p.1.assocs := by
  unfold visits
  simp only [List.mem_flatMap, List.mem_map]
  constructor
  · rintro ⟨g, hg, n, hn, rfl⟩; exact ⟨hg, ((uniq_spec _).2 n).1 hn⟩
  · rintro ⟨h1, h2⟩; exact ⟨p.1, h1, p.2, ((uniq_spec _).2 _).2 h2, rfl⟩

theorem loop_errors (r : Reg) (e : IErr) :
    e ∈ (assocLoop r).errors ↔ ∃ g ∈ r.groups, ∃ n ∈ g.assocs, Fault r g n e := by
  rw [assocLoop_visits]
  obtain ⟨he, _⟩ := foldl_verdicts r (visits r.groups) {} (by intro n o h; cases h)
  dsimp only at he
  rw [he]
  simp only [List.nil_append, List.mem_filterMap]
  constructor
  · rintro ⟨p, hp, h⟩
    rw [mem_visits] at hp
    refine ⟨p.1, hp.1, p.2, hp.2, ?_⟩
    rw [← verdict_fault_iff]
    split at h
    · cases h; assumption
    · cases h
  · rintro ⟨g, hg, n, hn, h⟩
    refine ⟨(g, n), (mem_visits ..).2 ⟨hg, hn⟩, ?_⟩
    dsimp only
    rw [(verdict_fault_iff ..).2 h]

/-- C09. Entity associations are rejected exactly when some association of some signal is at fault, and every fault of
every signal is reported. -/
theorem associations_fail_iff (r : Reg) (e : IErr) :
    (∃ es, resolveAssociations r = .error es ∧ e ∈ es) ↔ ∃ g ∈ r.groups, ∃ n ∈ g.assocs, Fault r g n e := by
  unfold resolveAssociations
  dsimp only
  by_cases hall : r.groups.all (fun g => g.assocs.isEmpty) = true
  · rw [if_pos hall]
    constructor
    · rintro ⟨es, h, _⟩; cases h
    · rintro ⟨g, hg, n, hn, _⟩
      rw [List.all_eq_true] at hall
      have := hall g hg
      rw [List.isEmpty_iff] at this
      rw [this] at hn; cases hn
  · rw [if_neg hall]
    rw [← loop_errors]
    by_cases he : (assocLoop r).errors = []
    · rw [if_neg (by simp [he]), he]; simp
    · rw [if_pos he]
      constructor
      · rintro ⟨es, h, hm⟩; cases h; exact hm
      · intro h; exact ⟨_, rfl, h⟩

theorem originAt_extend (m : List (String × Origins)) (e : String × Origins) (he : (e.2.map Prod.fst).Nodup)
    (gid n : String) :
    originAt (extendOrigins m e) gid n = if gid = e.1 then (aget n e.2).or (originAt m gid n) else originAt m gid n := by
  unfold extendOrigins originAt
  rw [aget_aset]
  by_cases h : gid = e.1
  · rw [if_pos h, if_pos h, Option.bind_some]
    have H : ∀ (l : Origins) (o : Origins), (l.map Prod.fst).Nodup →
        aget n (l.foldl (fun o p => aset p.1 p.2 o) o) = (aget n l).or (aget n o) := by
      intro l
      induction l with
      | nil => intro o _; simp [aget]
      | cons p l ih =>
        intro o hnd
        simp only [List.map_cons, List.nodup_cons] at hnd
        rw [List.foldl_cons, ih _ hnd.2, aget_aset]
        obtain ⟨k, v⟩ := p
        by_cases hk : n = k
        · subst hk
          have : aget n l = none := aget_eq_none_iff.2 hnd.1
          simp [aget, this]
        · simp [aget, hk, Ne.symm hk]
    rw [H _ _ he, ← h]
    cases aget gid m <;> simp [aget]
  · rw [if_neg h, if_neg h]

theorem originAt_extend_all (l : List (String × Origins)) (m : List (String × Origins))
    (hk : (l.map Prod.fst).Nodup) (hv : ∀ e ∈ l, (e.2.map Prod.fst).Nodup) (gid n : String) :
    originAt (l.foldl extendOrigins m) gid n = (originAt l gid n).or (originAt m gid n) := by
  induction l generalizing m with
  | nil => simp [originAt, aget]
  | cons e l ih =>
    simp only [List.map_cons, List.nodup_cons] at hk
    rw [List.foldl_cons, ih _ hk.2 (fun x hx => hv x (List.mem_cons_of_mem _ hx)),
      originAt_extend _ _ (hv e (List.mem_cons_self ..))]
    obtain ⟨k, os⟩ := e
    by_cases h : gid = k
    · subst h
      have h0 : aget gid l = none := aget_eq_none_iff.2 hk.1
      simp [originAt, aget, h0]
    · simp [originAt, aget, h, Ne.symm h]

theorem record_keys (gid n : String) (u : SchemaUrl) (m : List (String × Origins))
    (h : (m.map Prod.fst).Nodup ∧ ∀ e ∈ m, (e.2.map Prod.fst).Nodup) :
    ((record gid n u m).map Prod.fst).Nodup ∧ ∀ e ∈ record gid n u m, (e.2.map Prod.fst).Nodup := by
  have hk := nodup_aset (k := gid) (v := aset n u ((aget gid m).getD [])) h.1
  refine ⟨hk, fun e he => ?_⟩
  have := aget_of_mem_nodup hk (k := e.1) (v := e.2) he
  rw [aget_aset] at this
  split at this
  · rw [← Option.some.inj this]
    apply nodup_aset
    cases hg : aget gid m with
    | none => simp
    | some os => exact h.2 _ (aget_some_mem hg)
  · exact h.2 e (aget_some_mem this)

theorem loop_keys (r : Reg) : ((assocLoop r).origins.map Prod.fst).Nodup ∧
    ∀ e ∈ (assocLoop r).origins, (e.2.map Prod.fst).Nodup := by
  rw [assocLoop_visits]
  suffices H : ∀ (ps : List (Grp × String)) (acc : Acc), MemoOk r acc →
      ((acc.origins.map Prod.fst).Nodup ∧ ∀ e ∈ acc.origins, (e.2.map Prod.fst).Nodup) →
      ((ps.foldl (fun acc p => assocStep r p.1 acc p.2) acc).origins.map Prod.fst).Nodup ∧
      ∀ e ∈ (ps.foldl (fun acc p => assocStep r p.1 acc p.2) acc).origins, (e.2.map Prod.fst).Nodup from
    H _ _ (by intro n o h; cases h) ⟨by simp, by simp⟩
  intro ps
  induction ps with
  | nil => intro acc _ h; exact h
  | cons p ps ih =>
    intro acc hm h
    rw [List.foldl_cons]
    obtain ⟨hm', hv⟩ := assocStep_verdict r p.1 acc p.2 hm
    refine ih _ hm' ?_
    cases hvv : verdict r p.1 p.2 with
    | nothing => rw [hvv] at hv; rw [hv.1]; exact h
    | fault e => rw [hvv] at hv; rw [hv.1]; exact h
    | origin u => rw [hvv] at hv; rw [hv.1]; exact record_keys _ _ _ _ h

/-- C09. When associations resolve, the recorded origins are: those imported signals brought along, unchanged; and,
for a name that is neither brought along nor an entity of this registry, the one registry that offers it. -/
theorem associations_recorded (r : Reg) (m : List (String × Origins)) (h : resolveAssociations r = .ok m)
    (gid n : String) (u : SchemaUrl) :
    originAt m gid n = some u ↔ originAt r.origins gid n = some u ∨
      (originAt r.origins gid n = none ∧ (∃ g ∈ r.groups, g.id = gid ∧ n ∈ g.assocs) ∧ ¬ LocalEntity r n ∧
        ∀ v, Offers r.deps n v ↔ v = u) := by
  unfold resolveAssociations at h
  dsimp only at h
  by_cases hall : r.groups.all (fun g => g.assocs.isEmpty) = true
  · rw [if_pos hall] at h
    cases h
    rw [List.all_eq_true] at hall
    constructor
    · exact .inl
    · rintro (h | ⟨_, ⟨g, hg, _, hn⟩, _⟩)
      · exact h
      · have := hall g hg
        rw [List.isEmpty_iff] at this
        rw [this] at hn; cases hn
  · rw [if_neg hall] at h
    split at h
    · cases h
    · cases h
      obtain ⟨hk, hv⟩ := loop_keys r
      rw [originAt_extend_all _ _ hk hv]
      obtain ⟨_, ho⟩ := foldl_verdicts r (visits r.groups) {} (by intro n o h; cases h)
      dsimp only at ho
      rw [← assocLoop_visits] at ho
      have ho' : ∀ u, originAt (assocLoop r).origins gid n = some u ↔
          (originAt r.origins gid n = none ∧ (∃ g ∈ r.groups, g.id = gid ∧ n ∈ g.assocs) ∧ ¬ LocalEntity r n ∧
            ∀ v, Offers r.deps n v ↔ v = u) := by
        intro u
        rw [ho gid n u]
        constructor
        · rintro (⟨p, hp, h1, h2, h3⟩ | ⟨_, h⟩)
          · rw [mem_visits] at hp
            obtain ⟨hc, hl, hof⟩ := (verdict_origin_iff ..).1 h3
            rw [h2] at hl hof hp
            refine ⟨?_, ⟨p.1, hp.1, h1, hp.2⟩, hl, hof⟩
            cases hx : originAt r.origins gid n with
            | none => rfl
            | some x => exact absurd (show Carried r p.1 p.2 x by unfold Carried; rw [h1, h2]; exact hx) (hc x)
          · cases h
        · rintro ⟨h1, ⟨g, hg, h2, h3⟩, hl, hof⟩
          refine .inl ⟨(g, n), (mem_visits ..).2 ⟨hg, h3⟩, h2, rfl, (verdict_origin_iff ..).2 ⟨fun v hv => ?_, hl, hof⟩⟩
          unfold Carried at hv
          dsimp only at hv
          rw [h2] at hv
          unfold originAt at h1
          rw [h1] at hv; cases hv
      rw [← ho' u]
      cases hx : originAt (assocLoop r).origins gid n with
      | none => simp
      | some x =>
        obtain ⟨hn, _⟩ := (ho' x).1 hx
        simp [hn]

/-- A registry with its own `pod`, a signal that names `pod` and `host`, `host` in a dependency, and an imported signal
that already means another `pod`. -/
def exReg : Reg :=
  { groups := [{ id := "entity.pod", type := .entity, name := some "pod", isV2 := true },
      { id := "metric.m", type := .metric, metricName := some "m", assocs := ["pod", "host", "host"] },
      { id := "metric.i", type := .metric, metricName := some "i", assocs := ["pod"] }]
    deps := [exV1, exV2], origins := [("metric.i", [("pod", exUrl "z" "1")])] }
example : resolveAssociations exReg =
    .ok [("metric.i", [("pod", exUrl "z" "1")]), ("metric.m", [("host", exUrl "a" "1")])] := by rfl
example : resolveAssociations { exReg with deps := [exV1, exV3] } =
    .error [.ambiguous "metric.m" "host" [exUrl "a" "1", exUrl "c" "1"]] := by rfl

/-- C09 (order): the outcome of the associations does not depend on the order the dependencies are listed in. -/
theorem associations_order_independent (r : Reg) (deps' : List Dep) (h : ∀ d, d ∈ r.deps ↔ d ∈ deps') :
    (∀ m m', resolveAssociations r = .ok m → resolveAssociations { r with deps := deps' } = .ok m' →
      ∀ gid n, originAt m gid n = originAt m' gid n) ∧
    ((∃ m, resolveAssociations r = .ok m) ↔ ∃ m', resolveAssociations { r with deps := deps' } = .ok m') := by
  have ho : ∀ n u, Offers r.deps n u ↔ Offers deps' n u := fun n u =>
    exists_congr fun d => and_congr_left fun _ => h d
  have hh : ∀ n, Hides r.deps n ↔ Hides deps' n := fun n => exists_congr fun d => and_congr_left fun _ => h d
  have hok : ∀ r : Reg, (∃ m, resolveAssociations r = .ok m) ↔ ∀ g ∈ r.groups, ∀ n ∈ g.assocs, ∀ e, ¬ Fault r g n e := by
    intro r
    constructor
    · rintro ⟨m, hm⟩ g hg n hn e hf
      obtain ⟨es, he, _⟩ := (associations_fail_iff r e).2 ⟨g, hg, n, hn, hf⟩
      rw [hm] at he; cases he
    · intro hf
      cases hr : resolveAssociations r with
      | ok m => exact ⟨m, rfl⟩
      | error es =>
        exfalso
        cases es with
        | nil =>
          unfold resolveAssociations at hr
          dsimp only at hr
          split at hr
          · cases hr
          · split at hr
            · rename_i hne; exact hne (Except.error.inj hr)
            · cases hr
        | cons e es =>
          obtain ⟨g, hg, n, hn, hfe⟩ := (associations_fail_iff r e).1 ⟨_, hr, List.mem_cons_self ..⟩
          exact hf g hg n hn e hfe
  have hfault : ∀ (deps1 deps2 : List Dep) (_ : ∀ n u, Offers deps1 n u ↔ Offers deps2 n u)
      (_ : ∀ n, Hides deps1 n ↔ Hides deps2 n) g n, (∃ e, Fault { r with deps := deps1 } g n e) →
      ∃ e, Fault { r with deps := deps2 } g n e := by
    rintro deps1 deps2 ho hh g n ⟨e, he⟩
    cases he with
    | hiddenLocal hc hl hg => exact ⟨_, .hiddenLocal hc hl hg⟩
    | hidden hc hl h1 h2 => exact ⟨_, .hidden hc hl (fun u hu => h1 u ((ho n u).2 hu)) ((hh n).1 h2)⟩
    | unknown hc hl h1 h2 => exact ⟨_, .unknown hc hl (fun u hu => h1 u ((ho n u).2 hu)) (fun hx => h2 ((hh n).2 hx))⟩
    | ambiguous us hc hl h2 hn hu heq =>
      obtain ⟨u, v, huv, h3, h4⟩ := (entity_ambiguous_iff deps1 n).1 ⟨us, heq⟩
      obtain ⟨us', h5⟩ := (entity_ambiguous_iff deps2 n).2 ⟨u, v, huv, (ho n u).1 h3, (ho n v).1 h4⟩
      obtain ⟨g1, g2, g3⟩ := entity_ambiguous_lists _ _ _ h5
      exact ⟨_, .ambiguous us' hc hl g1 g2 g3 h5⟩
  constructor
  · intro m m' hm hm' gid n
    have key : ∀ u, originAt m gid n = some u ↔ originAt m' gid n = some u := by
      intro u
      rw [associations_recorded r m hm, associations_recorded _ m' hm']
      have : (∀ v, Offers r.deps n v ↔ v = u) ↔ ∀ v, Offers deps' n v ↔ v = u :=
        forall_congr' fun v => by rw [ho]
      rw [this]; rfl
    cases h1 : originAt m gid n with
    | some u => exact ((key u).1 h1).symm
    | none =>
      cases h2 : originAt m' gid n with
      | none => rfl
      | some u => rw [(key u).2 h2] at h1; cases h1
  · rw [hok, hok]
    constructor
    · intro hf g hg n hn e he
      obtain ⟨e', he'⟩ := hfault deps' r.deps (fun n u => (ho n u).symm) (fun n => (hh n).symm) g n ⟨e, he⟩
      exact hf g hg n hn e' he'
    · intro hf g hg n hn e he
      obtain ⟨e', he'⟩ := hfault r.deps deps' ho hh g n ⟨e, he⟩
      exact hf g hg n hn e' he'

/-- With two local entities of one name the last one decides whether it is private, so the outcome depends on the order
of the groups. (The duplicate check reports such a registry later.) -/
theorem local_duplicate_order_refuted :
    ∃ (a b m : Grp), (∃ o, resolveAssociations { groups := [a, b, m] } = .ok o) ∧
      ∃ es, resolveAssociations { groups := [b, a, m] } = .error es :=
  ⟨{ id := "entity.x", type := .entity,
      annotations := some [("dependency_resolution", .map [("exclude", .bool true)])] },
    { id := "entity.x", type := .entity }, { id := "metric.m", type := .metric, assocs := ["x"] },
    ⟨_, rfl⟩, ⟨_, rfl⟩⟩

end Verif.Imports
