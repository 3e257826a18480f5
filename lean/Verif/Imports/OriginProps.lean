import Verif.Imports.Props
/-
Where the entities of imported v2 signals come from, and which groups importing takes for the same definition.
-/
namespace Verif.Imports
open Verif.Util Verif.Resolver

/-! ### C288: the same definition -/

/-- The prefixes of group ids that stand for the type of the group. -/
def typePrefixes : List String := ["span.", "metric.", "event.", "entity.", "registry.", "attribute_group."]

/-- A group id without the prefix of a type. -/
def Bare (id r : String) : Prop := (∃ p ∈ typePrefixes, id = p ++ r) ∨ ((∀ p ∈ typePrefixes, ∀ x, id ≠ p ++ x) ∧ r = id)

theorem bare_unique {p q r x : String} (hp : p ∈ typePrefixes) (hq : q ∈ typePrefixes) (h : p ++ r = q ++ x) : r = x := by
  have h' : p.toList ++ r.toList = q.toList ++ x.toList := by
    have := congrArg String.toList h
    simpa using this
  simp only [typePrefixes, List.mem_cons, List.not_mem_nil, or_false] at hp hq
  have key : p = q := by
    rcases hp with rfl | rfl | rfl | rfl | rfl | rfl <;> rcases hq with rfl | rfl | rfl | rfl | rfl | rfl <;>
      first | rfl | (exfalso; revert h'; simp)
  subst key
  exact String.toList_inj.1 (List.append_cancel_left h')

theorem findSome_strip (ps : List String) (id : String) :
    (∃ r, ps.findSome? (stripOpt · id) = some r ∧ ∃ p ∈ ps, id = p ++ r) ∨
    (ps.findSome? (stripOpt · id) = none ∧ ∀ p ∈ ps, ∀ x, id ≠ p ++ x) := by
  induction ps with
  | nil => exact .inr ⟨rfl, fun p hp => by cases hp⟩
  | cons p ps ih =>
    rw [List.findSome?_cons]
    cases h : stripOpt p id with
    | some r => exact .inl ⟨r, rfl, p, List.mem_cons_self, (stripOpt_spec _ _ _).1 h⟩
    | none =>
      dsimp only
      rcases ih with ⟨r, h1, q, hq, h2⟩ | ⟨h1, h2⟩
      · exact .inl ⟨r, h1, q, List.mem_cons_of_mem _ hq, h2⟩
      · refine .inr ⟨h1, fun q hq x hx => ?_⟩
        rcases List.mem_cons.1 hq with rfl | hq
        · rw [(stripOpt_spec _ _ _).2 hx] at h; cases h
        · exact h2 q hq x hx

/-- C288. The prefix of a type is taken off. -/
theorem stripTypePrefix_iff (id r : String) : stripTypePrefix id = r ↔ Bare id r := by
  unfold stripTypePrefix Bare
  have hmem : ∀ p, p ∈ ["metric.", "event.", "entity.", "span.", "attribute_group.", "registry."] ↔ p ∈ typePrefixes := by
    intro p
    simp only [typePrefixes, List.mem_cons, List.not_mem_nil, or_false]
    constructor
    · rintro (h | h | h | h | h | h) <;> simp [h]
    · rintro (h | h | h | h | h | h) <;> simp [h]
  rcases findSome_strip ["metric.", "event.", "entity.", "span.", "attribute_group.", "registry."] id with
    ⟨x, h1, p, hp, h2⟩ | ⟨h1, h2⟩
  · rw [h1, Option.getD_some]
    constructor
    · rintro rfl; exact .inl ⟨p, (hmem p).1 hp, h2⟩
    · rintro (⟨q, hq, h3⟩ | ⟨h3, -⟩)
      · exact bare_unique ((hmem p).1 hp) hq (h2.symm.trans h3)
      · exact absurd h2 (h3 p ((hmem p).1 hp) x)
  · rw [h1, Option.getD_none]
    constructor
    · rintro rfl; exact .inr ⟨fun p hp => h2 p ((hmem p).2 hp), rfl⟩
    · rintro (⟨q, hq, h3⟩ | ⟨-, h3⟩)
      · exact absurd h3 (h2 q ((hmem q).2 hq) r)
      · exact h3.symm

/-- Two groups are the same definition: of the same type, and with the same metric name, or else the same name, or else, if
neither has one, the same id without prefix. -/
inductive SameDefinition (g c : Grp) : Prop
  | metric {n} (ht : g.type = c.type) (h1 : g.metricName = some n) (h2 : c.metricName = some n)
  | name {n} (ht : g.type = c.type) (h1 : g.metricName = none) (h2 : c.metricName = none) (h3 : g.name = some n)
      (h4 : c.name = some n)
  | id {r} (ht : g.type = c.type) (h1 : g.metricName = none) (h2 : c.metricName = none) (h3 : g.name = none)
      (h4 : c.name = none) (h5 : Bare g.id r) (h6 : Bare c.id r)

/-- C288. Importing takes two groups for the same definition exactly if they are. -/
theorem sameImported_iff (g c : Grp) : sameImported g c = true ↔ SameDefinition g c := by
  unfold sameImported
  constructor
  · intro h
    split at h
    · cases h
    · rename_i ht
      have ht : g.type = c.type := by simpa using ht
      cases h1 : g.metricName with
      | some n =>
        rw [h1] at h
        simp only [Option.isSome_some, Bool.true_or, if_true, decide_eq_true_eq] at h
        exact .metric ht h1 h.symm
      | none =>
        cases h2 : c.metricName with
        | some n => rw [h1, h2] at h; simp at h
        | none =>
          rw [h1, h2] at h
          simp only [Option.isSome_none, Bool.or_self, Bool.false_eq_true, if_false] at h
          cases h3 : g.name with
          | some n =>
            rw [h3] at h
            simp only [Option.isSome_some, Bool.true_or, if_true, decide_eq_true_eq] at h
            exact .name ht h1 h2 h3 h.symm
          | none =>
            cases h4 : c.name with
            | some n => rw [h3, h4] at h; simp at h
            | none =>
              rw [h3, h4] at h
              simp only [Option.isSome_none, Bool.or_self, Bool.false_eq_true, if_false, decide_eq_true_eq] at h
              exact .id ht h1 h2 h3 h4 ((stripTypePrefix_iff _ _).1 rfl) ((stripTypePrefix_iff _ _).1 h.symm)
  · intro h
    cases h with
    | metric ht h1 h2 => rw [if_neg (by simpa using ht), h1, h2]; simp
    | name ht h1 h2 h3 h4 => rw [if_neg (by simpa using ht), h1, h2, h3, h4]; simp
    | id ht h1 h2 h3 h4 h5 h6 =>
      rw [if_neg (by simpa using ht), h1, h2, h3, h4, (stripTypePrefix_iff _ _).2 h5, (stripTypePrefix_iff _ _).2 h6]
      simp

example : SameDefinition { id := "metric.m", type := .metric } { id := "m", type := .metric } :=
  (sameImported_iff _ _).1 (by decide)

/-! ### C289: the origins of the entities of v2 signals -/

/-- The registry that a v2 schema means by one leaf of an association. -/
def LeafOrigin (s : V2) (n : String) (src : Option Nat) (u : SchemaUrl) : Prop :=
  (∃ i, src = some i ∧ s.deps[i]? = some u) ∨ (src = none ∧ Holds (.v2 s) n u false)

/-- The registry that a v2 schema means by the entity name `n` in an association: that of the last leaf of the name that has
one. -/
def MeansV2 (s : V2) (as : List (String × Option Nat)) (n : String) (u : SchemaUrl) : Prop :=
  ∃ pre src post, as = pre ++ (n, src) :: post ∧ LeafOrigin s n src u ∧ ∀ src', (n, src') ∈ post → ∀ v, ¬ LeafOrigin s n src' v

theorem aget_collectMap_append (l : Origins) (e : String × SchemaUrl) (n : String) :
    aget n (collectMap (l ++ [e])) = if n = e.1 then some e.2 else aget n (collectMap l) := by
  unfold collectMap
  rw [List.foldl_append, List.foldl_cons, List.foldl_nil, aget_bins]

theorem snocInduction {α : Type} {P : List α → Prop} (h0 : P []) (h1 : ∀ l x, P l → P (l ++ [x])) (l : List α) : P l := by
  rw [← List.reverse_reverse l]
  generalize l.reverse = m
  induction m with
  | nil => exact h0
  | cons x m ih => rw [List.reverse_cons]; exact h1 _ _ ih

theorem leafOrigin_iff (s : V2) (n : String) (src : Option Nat) (u : SchemaUrl) :
    (match src with
      | some i => s.deps[i]?
      | none => publicOrigin (lookupEntityV2 s n)) = some u ↔ LeafOrigin s n src u := by
  unfold LeafOrigin
  cases src with
  | some i => simp
  | none =>
    dsimp only
    rw [← publicOrigin_iff (.v2 s) n u]
    simp [Dep.lookupEntity]

/-- What is recorded about one leaf. -/
def leafPair (s : V2) (a : String × Option Nat) : Option (String × SchemaUrl) :=
  (match a.2 with
    | some i => s.deps[i]?
    | none => publicOrigin (lookupEntityV2 s a.1)).map fun o => (a.1, o)

theorem leafPair_iff (s : V2) (n : String) (src : Option Nat) (m : String) (u : SchemaUrl) :
    leafPair s (n, src) = some (m, u) ↔ m = n ∧ LeafOrigin s n src u := by
  rw [← leafOrigin_iff]
  unfold leafPair
  rw [Option.map_eq_some_iff]
  constructor
  · rintro ⟨v, h, h'⟩; cases h'; exact ⟨rfl, h⟩
  · rintro ⟨rfl, h⟩; exact ⟨u, h, rfl⟩

theorem v2Origins_eq (s : V2) (as : List (String × Option Nat)) : v2Origins s as = collectMap (as.filterMap (leafPair s)) := rfl

/-- C289. What is recorded about the entities of a v2 signal. -/
theorem v2Origins_iff (s : V2) (as : List (String × Option Nat)) (n : String) (u : SchemaUrl) :
    aget n (v2Origins s as) = some u ↔ MeansV2 s as n u := by
  rw [v2Origins_eq]
  induction as using snocInduction with
  | h0 =>
    constructor
    · intro h; cases h
    · rintro ⟨pre, src, post, h, -⟩; simp at h
  | h1 as a ih =>
    obtain ⟨m, src⟩ := a
    rw [List.filterMap_append]
    have hone : [(m, src)].filterMap (leafPair s) = (leafPair s (m, src)).toList := by
      cases h : leafPair s (m, src) <;> simp [h]
    rw [hone]
    cases ho : leafPair s (m, src) with
    | none =>
      have hno : ∀ v, ¬ LeafOrigin s m src v := by
        intro v hv
        have := (leafPair_iff s m src m v).2 ⟨rfl, hv⟩
        rw [ho] at this; cases this
      rw [Option.toList_none, List.append_nil, ih]
      constructor
      · rintro ⟨pre, sr, post, rfl, h1, h2⟩
        refine ⟨pre, sr, post ++ [(m, src)], by simp, h1, fun src' hm v => ?_⟩
        rcases List.mem_append.1 hm with hm | hm
        · exact h2 src' hm v
        · cases List.mem_singleton.1 hm; exact hno v
      · rintro ⟨pre, sr, post, h, h1, h2⟩
        rcases List.eq_nil_or_concat post with rfl | ⟨post', x, rfl⟩
        · obtain ⟨-, h⟩ := List.append_inj' h rfl
          cases h
          exact absurd h1 (hno u)
        · rw [List.concat_eq_append, ← List.cons_append, ← List.append_assoc] at h
          obtain ⟨h, -⟩ := List.append_inj' h rfl
          exact ⟨pre, sr, post', h, h1, fun src' hm v => h2 src' (by simp [hm]) v⟩
    | some mw =>
      obtain ⟨m', w⟩ := mw
      obtain ⟨rfl, hw⟩ := (leafPair_iff s m src m' w).1 ho
      rw [Option.toList_some, aget_collectMap_append]
      dsimp only
      by_cases hn : n = m'
      · subst hn
        rw [if_pos rfl, Option.some.injEq]
        constructor
        · rintro rfl; exact ⟨as, src, [], rfl, hw, fun src' hm => by cases hm⟩
        · rintro ⟨pre, sr, post, h, h1, h2⟩
          rcases List.eq_nil_or_concat post with rfl | ⟨post', x, rfl⟩
          · obtain ⟨-, h⟩ := List.append_inj' h rfl
            cases h
            have := (leafPair_iff s n src n u).2 ⟨rfl, h1⟩
            rw [ho] at this; cases this; rfl
          · rw [List.concat_eq_append, ← List.cons_append, ← List.append_assoc] at h
            obtain ⟨-, h⟩ := List.append_inj' h rfl
            cases h
            exact absurd hw (h2 src (by simp) w)
      · rw [if_neg hn, ih]
        constructor
        · rintro ⟨pre, sr, post, rfl, h1, h2⟩
          refine ⟨pre, sr, post ++ [(m', src)], by simp, h1, fun src' hm v => ?_⟩
          rcases List.mem_append.1 hm with hm | hm
          · exact h2 src' hm v
          · cases List.mem_singleton.1 hm; exact absurd rfl hn
        · rintro ⟨pre, sr, post, h, h1, h2⟩
          rcases List.eq_nil_or_concat post with rfl | ⟨post', x, rfl⟩
          · obtain ⟨-, h⟩ := List.append_inj' h rfl
            cases h
            exact absurd rfl hn
          · rw [List.concat_eq_append, ← List.cons_append, ← List.append_assoc] at h
            obtain ⟨h, -⟩ := List.append_inj' h rfl
            exact ⟨pre, sr, post', h, h1, fun src' hm v => h2 src' (by simp [hm]) v⟩

/-- Signals that can be associated with entities. -/
def Associates (t : GroupType) : Prop := t = .metric ∨ t = .event ∨ t = .span

theorem originsTable_not (s : V2) (xs : List (Field × GroupType × Sig)) (id : String) (h : ∀ e ∈ xs, e.2.2.id ≠ id)
    (m : List (String × Origins)) :
    aget id (xs.foldl (fun m e => match e.2.1 with
      | .metric => aset e.2.2.id (v2Origins s e.2.2.assocs) m
      | .event => aset e.2.2.id (v2Origins s e.2.2.assocs) m
      | .span => aset e.2.2.id (v2Origins s e.2.2.assocs) m
      | _ => m) m) = aget id m := by
  induction xs generalizing m with
  | nil => rfl
  | cons e xs ih =>
    rw [List.foldl_cons, ih (fun e he => h e (List.mem_cons_of_mem _ he))]
    have := h e List.mem_cons_self
    split <;> simp [aget_aset, Ne.symm this]

theorem originsTable_at (s : V2) (xs : List (Field × GroupType × Sig)) (hn : (xs.map fun e => e.2.2.id).Nodup)
    (e : Field × GroupType × Sig) (he : e ∈ xs) :
    (Associates e.2.1 → aget e.2.2.id (originsTable s xs) = some (v2Origins s e.2.2.assocs)) ∧
    (¬ Associates e.2.1 → aget e.2.2.id (originsTable s xs) = none) := by
  unfold originsTable
  have main : ∀ (xs : List (Field × GroupType × Sig)) (m : List (String × Origins)), (xs.map fun e => e.2.2.id).Nodup →
      e ∈ xs → aget e.2.2.id m = none →
      (Associates e.2.1 → aget e.2.2.id (xs.foldl (fun m e => match e.2.1 with
        | .metric => aset e.2.2.id (v2Origins s e.2.2.assocs) m
        | .event => aset e.2.2.id (v2Origins s e.2.2.assocs) m
        | .span => aset e.2.2.id (v2Origins s e.2.2.assocs) m
        | _ => m) m) = some (v2Origins s e.2.2.assocs)) ∧
      (¬ Associates e.2.1 → aget e.2.2.id (xs.foldl (fun m e => match e.2.1 with
        | .metric => aset e.2.2.id (v2Origins s e.2.2.assocs) m
        | .event => aset e.2.2.id (v2Origins s e.2.2.assocs) m
        | .span => aset e.2.2.id (v2Origins s e.2.2.assocs) m
        | _ => m) m) = none) := by
    intro xs
    induction xs with
    | nil => intro m _ he; cases he
    | cons x xs ih =>
      intro m hn he hm
      rw [List.map_cons, List.nodup_cons] at hn
      rcases List.mem_cons.1 he with rfl | he
      · have hnot : ∀ y ∈ xs, y.2.2.id ≠ e.2.2.id := by
          intro y hy h
          exact hn.1 (List.mem_map.2 ⟨y, hy, h⟩)
        rw [List.foldl_cons, originsTable_not s xs _ hnot]
        obtain ⟨f, t, sg⟩ := e
        cases t <;> simp_all [Associates, aget_aset]
      · have hne : e.2.2.id ≠ x.2.2.id := fun h => hn.1 (List.mem_map.2 ⟨e, he, h⟩)
        rw [List.foldl_cons]
        refine ih _ hn.2 he ?_
        split <;> simp [aget_aset, hne, hm]
  exact main xs [] hn he rfl

theorem nodup_inj (l : List (Field × GroupType × Sig)) (hid : (l.map fun e => e.2.2.id).Nodup) {e e' : Field × GroupType × Sig}
    (h1 : e ∈ l) (h2 : e' ∈ l) (heid : e.2.2.id = e'.2.2.id) : e = e' := by
  induction l with
  | nil => cases h1
  | cons y l ih =>
    rw [List.map_cons, List.nodup_cons] at hid
    rcases List.mem_cons.1 h1 with h1 | h1 <;> rcases List.mem_cons.1 h2 with h2 | h2
    · rw [h1, h2]
    · exact absurd (List.mem_map.2 ⟨_, h2, by rw [← heid, h1]⟩) hid.1
    · exact absurd (List.mem_map.2 ⟨_, h1, by rw [heid, h2]⟩) hid.1
    · exact ih hid.2 h1 h2

theorem aget_filter_ne (t : List (String × Origins)) {a b : String} (h : a ≠ b) :
    aget a (t.filter fun e => decide (e.1 ≠ b)) = aget a t := by
  induction t with
  | nil => rfl
  | cons e t ih =>
    obtain ⟨k, v⟩ := e
    rw [List.filter_cons]
    by_cases hk : k = b
    · rw [if_neg (by simp [hk]), ih]
      simp only [aget]
      rw [if_neg (by rw [hk]; exact fun hh => h hh.symm)]
    · rw [if_pos (by simpa using hk)]
      simp only [aget, ih]

theorem attachOrigins_at (u : SchemaUrl) (gs : List Grp) (t : List (String × Origins)) (hn : (gs.map (·.id)).Nodup)
    {i : Imported} (h : i ∈ attachOrigins u t gs) : i.url = u ∧ i.origins = (aget i.group.id t).getD [] := by
  induction gs generalizing t with
  | nil => cases h
  | cons g gs ih =>
    rw [List.map_cons, List.nodup_cons] at hn
    rw [attachOrigins] at h
    rcases List.mem_cons.1 h with rfl | h
    · exact ⟨rfl, rfl⟩
    · obtain ⟨h1, h2⟩ := ih _ hn.2 h
      refine ⟨h1, ?_⟩
      have hg : i.group ∈ gs := by
        have := attachOrigins_groups u (t.filter (fun e => decide (e.1 ≠ g.id))) gs
        rw [← this]
        exact List.mem_map.2 ⟨i, h, rfl⟩
      have hne : i.group.id ≠ g.id := fun he => hn.1 (List.mem_map.2 ⟨i.group, hg, he⟩)
      rw [h2]
      rw [aget_filter_ne t hne]

/-- C289, as far as it holds: if no signal is replaced by a newer version and the ids of what is published are different, then
what each published signal means by its entities is recorded with the imported group, and nothing else. -/
theorem v2_origins_carried_partial (w : World) (bs : List Block) (s : V2) (res : List Imported) (h : importV2 w bs s = .ok res)
    (hup : ∀ g, upgradeGroup w g s.url = none) (hid : (s.signals.map fun e => e.2.2.id).Nodup)
    (f : Field) (t : GroupType) (x : Sig) (hx : Publishes s f t x) (i : Imported) (hi : i ∈ res) (hg : i.group.id = x.id)
    (n : String) (u : SchemaUrl) : aget n i.origins = some u ↔ Associates t ∧ MeansV2 s x.assocs n u := by
  unfold importV2 at h
  dsimp only at h
  split at h
  · cases h
  · cases h
    have hgroups : (List.map (fun e => (upgradeGroup w (groupOfSig s e.2.1 e.2.2) s.url).getD (groupOfSig s e.2.1 e.2.2))
        (s.signals.filter fun e => decide (decideV2 w bs e.1 e.2.1 e.2.2 = .include))) =
        (s.signals.filter fun e => decide (decideV2 w bs e.1 e.2.1 e.2.2 = .include)).map fun e => groupOfSig s e.2.1 e.2.2 := by
      refine List.map_congr_left fun e _ => ?_
      rw [hup]; rfl
    rw [hgroups] at hi
    have hsub : ((s.signals.filter fun e => decide (decideV2 w bs e.1 e.2.1 e.2.2 = .include)).map fun e => e.2.2.id).Nodup :=
      List.Nodup.sublist (List.Sublist.map _ List.filter_sublist) hid
    have hmapid : (((s.signals.filter fun e => decide (decideV2 w bs e.1 e.2.1 e.2.2 = .include)).map
        fun e => groupOfSig s e.2.1 e.2.2).map (·.id)) =
        (s.signals.filter fun e => decide (decideV2 w bs e.1 e.2.1 e.2.2 = .include)).map fun e => e.2.2.id := by
      rw [List.map_map]; rfl
    obtain ⟨-, ho⟩ := attachOrigins_at _ _ _ (by rw [hmapid]; exact hsub) hi
    have hmem : i.group ∈ (s.signals.filter fun e => decide (decideV2 w bs e.1 e.2.1 e.2.2 = .include)).map
        fun e => groupOfSig s e.2.1 e.2.2 := by
      rw [← attachOrigins_groups (upgradeUrl w.chosen s.url) (originsTable s
        (s.signals.filter fun e => decide (decideV2 w bs e.1 e.2.1 e.2.2 = .include))) ((s.signals.filter fun e => decide (decideV2 w bs e.1 e.2.1 e.2.2 = .include)).map
        fun e => groupOfSig s e.2.1 e.2.2)]
      exact List.mem_map.2 ⟨i, hi, rfl⟩
    obtain ⟨e, he, heq⟩ := List.mem_map.1 hmem
    have heid : e.2.2.id = x.id := by rw [← hg, ← heq]; rfl
    have hex : e = (f, t, x) := by
      have h1 : e ∈ s.signals := (List.mem_filter.1 he).1
      have h2 : (f, t, x) ∈ s.signals := (mem_signals ..).2 hx
      exact nodup_inj s.signals hid h1 h2 heid
    subst hex
    obtain ⟨t1, t2⟩ := originsTable_at s _ hsub _ he
    rw [ho, hg]
    by_cases ht : Associates t
    · rw [t1 ht, Option.getD_some, v2Origins_iff]
      exact ⟨fun h => ⟨ht, h⟩, fun h => h.2⟩
    · rw [t2 ht, Option.getD_none]
      exact ⟨fun h => (by cases h), fun h => absurd h.1 ht⟩

/-- A metric and an event of the same id, which mean the `pod` of different registries. -/
def exSameId : V2 :=
  { url := exUrl "b" "1"
    deps := [exUrl "y" "1", exUrl "z" "1"]
    metrics := [{ id := "m", assocs := [("pod", some 0)] }]
    events := [{ id := "m", assocs := [("pod", some 1)] }] }

/-- C289 does not hold for a metric and an event of the same id: what the event means by its entity goes with the metric. -/
theorem v2_origins_carried_refuted : ∃ (w : World) (s : V2) (bs : List Block) (res : List Imported) (x y : Sig) (u v : SchemaUrl),
    importV2 w bs s = .ok res ∧ x ∈ s.metrics ∧ y ∈ s.events ∧ MeansV2 s x.assocs "pod" u ∧ MeansV2 s y.assocs "pod" v ∧ u ≠ v ∧
    res.map (fun i => (i.group.type, aget "pod" i.origins)) = [(.metric, some v), (.event, none)] := by
  refine ⟨{ glob := lit }, exSameId, [{ path := "f.yaml", metrics := ["m"], events := ["m"] }], _,
    { id := "m", assocs := [("pod", some 0)] }, { id := "m", assocs := [("pod", some 1)] }, exUrl "y" "1", exUrl "z" "1", rfl,
    by simp [exSameId], by simp [exSameId], ?_, ?_, by decide, rfl⟩
  · exact ⟨[], some 0, [], rfl, .inl ⟨0, rfl, rfl⟩, fun _ h => by cases h⟩
  · exact ⟨[], some 1, [], rfl, .inl ⟨1, rfl, rfl⟩, fun _ h => by cases h⟩

end Verif.Imports
