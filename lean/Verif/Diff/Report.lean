import Verif.Diff.Props
/-
Model of the report of `registry diff`: the contexts that the templates are given (src/weaver.rs:486-546,
crates/weaver_version/src/schema_changes.rs:9-39) and what the three default templates show of them
(defaults/diff_templates/ansi/diff.txt.j2, ansi-stats/diff.txt.j2 and markdown/diff.md.j2).
-/
namespace Verif.Diff
open Verif.Util Verif.Convert

/-- `ctx.changes`: the lists of changes by key. -/
abbrev Context := List (String × List Change)

/-- src/weaver.rs:491-495 `Diff::as_template_context`: the map of schema_changes.rs:38 is serialised, with the names of
`SchemaItemType` (schema_changes.rs:11-23) in snake case as keys; all five are present (schema_changes.rs:100-125). -/
def contextV1 (c : Changes) : Context :=
  [("registry_attributes", c.attributes), ("metrics", c.metrics), ("events", c.events), ("spans", c.spans),
   ("entities", c.entities)]

/-- src/weaver.rs:518-545 `DiffV2::as_template_context`. The map is filled by `insert`. -/
def contextV2 (c : Changes2) : Context :=
  [("registry_attributes", c.attributes), ("attribute_groups", c.groups), ("metrics", c.metrics), ("events", c.events),
   ("spans", c.spans), ("resources", c.entities)].foldl (fun m p => aset p.1 p.2 m) []

/-- schema_changes.rs:50-52: the field `type` of a serialised change. -/
def Change.tag : Change → String
  | .added _ => "added"
  | .renamed _ _ _ => "renamed"
  | .updated => "updated"
  | .obsoleted _ _ => "obsoleted"
  | .uncategorized _ _ => "uncategorized"
  | .removed _ => "removed"

/-- ansi/diff.txt.j2:1, ansi-stats/diff.txt.j2:4, markdown/diff.md.j2:1 `item_types`. -/
def itemTypes : List String := ["registry_attributes", "metrics", "events", "spans", "resources"]

/-- ansi/diff.txt.j2:8-46, ansi-stats/diff.txt.j2:6-10, markdown/diff.md.j2:11-49: the kinds in order. -/
def shownKinds : List String := ["added", "renamed", "obsoleted", "uncategorized", "removed"]

/-- `ctx.changes[item_type] | selectattr('type', 'equalto', kind)`; a missing key is undefined, which has no elements. -/
def select (ctx : Context) (t k : String) : List Change :=
  ((aget t ctx).getD []).filter fun c => decide (c.tag = k)

/-- ansi/diff.txt.j2 and markdown/diff.md.j2: the lines in order, each with its type, its kind and the change it shows.
`ord` is `sort(attribute='name')`. -/
def reportLines (ord : List Change → List Change) (ctx : Context) : List (String × String × Change) :=
  itemTypes.flatMap fun t => shownKinds.flatMap fun k => (ord (select ctx t k)).map fun c => (t, k, c)

/-- ansi-stats/diff.txt.j2:5-17: the counts of each type, by kind. -/
def reportCounts (ctx : Context) : List (String × List (String × Nat)) :=
  itemTypes.map fun t => (t, shownKinds.map fun k => (k, (select ctx t k).length))

/-! ### Properties -/

/-- A change of an item, of a kind that exists in diffs (`Updated` is "a placeholder for future use"). -/
def Change.Real : Change → Prop
  | .updated => False
  | _ => True

theorem real_kind {c : Change} (h : c.Real) : c.tag ∈ shownKinds := by
  cases c <;> first | exact absurd h id | simp [Change.tag, shownKinds]

theorem kind_real {c : Change} (h : c.tag ∈ shownKinds) : c.Real := by
  cases c <;> first | trivial | exact absurd h (by decide)

theorem shownKinds_nodup : shownKinds.Nodup := by decide
theorem itemTypes_nodup : itemTypes.Nodup := by decide

theorem count_flatMap_key {α β : Type} [DecidableEq α] [BEq β] [LawfulBEq β] {f : α → List β} {x : β} {a : α} :
    ∀ {l : List α}, l.Nodup → a ∈ l → (∀ b ∈ l, b ≠ a → x ∉ f b) → (l.flatMap f).count x = (f a).count x
  | b :: l, hn, hm, ho => by
    rw [List.flatMap_cons, List.count_append]
    have hn' := List.nodup_cons.1 hn
    by_cases hb : b = a
    · subst hb
      have : (l.flatMap f).count x = 0 := by
        rw [List.count_eq_zero]
        intro hx
        obtain ⟨d, hd, hxd⟩ := List.mem_flatMap.1 hx
        exact ho d (List.mem_cons_of_mem _ hd) (fun h => hn'.1 (h ▸ hd)) hxd
      omega
    · have h0 : (f b).count x = 0 := List.count_eq_zero.2 (ho b (List.mem_cons_self ..) hb)
      have := count_flatMap_key hn'.2 (by
        rcases List.mem_cons.1 hm with h | h
        · exact absurd h.symm hb
        · exact h) (fun d hd => ho d (List.mem_cons_of_mem _ hd)) (f := f) (x := x) (a := a)
      omega

theorem count_map_pair (l : List Change) (t k : String) (c : Change) :
    (l.map fun c => (t, k, c)).count (t, k, c) = l.count c := by
  induction l with
  | nil => rfl
  | cons d l ih => simp only [List.map_cons, List.count_cons, ih]; simp

theorem mem_reportLines {ord : List Change → List Change} (hord : ∀ l, (ord l).Perm l) (ctx : Context) (t k : String)
    (c : Change) : (t, k, c) ∈ reportLines ord ctx ↔
      t ∈ itemTypes ∧ c.Real ∧ c.tag = k ∧ c ∈ (aget t ctx).getD [] := by
  simp only [reportLines, List.mem_flatMap, List.mem_map, Prod.mk.injEq]
  constructor
  · rintro ⟨t', ht, k', hk, c', hc, rfl, rfl, rfl⟩
    have := (hord _).mem_iff.1 hc
    simp only [select, List.mem_filter, decide_eq_true_eq] at this
    exact ⟨ht, kind_real (this.2 ▸ hk), this.2, this.1⟩
  · rintro ⟨ht, hr, rfl, hc⟩
    exact ⟨t, ht, c.tag, real_kind hr, c, (hord _).mem_iff.2 (List.mem_filter.2 ⟨hc, by simp⟩), rfl, rfl, rfl⟩

/-- **C301**: every change of a list that the templates read has as many lines as it is in the list, in the section of
its kind. -/
theorem reportLines_count {ord : List Change → List Change} (hord : ∀ l, (ord l).Perm l) (ctx : Context) {t : String}
    (ht : t ∈ itemTypes) {c : Change} (hc : c.Real) :
    (reportLines ord ctx).count (t, c.tag, c) = ((aget t ctx).getD []).count c := by
  unfold reportLines
  rw [count_flatMap_key itemTypes_nodup ht]
  · rw [count_flatMap_key shownKinds_nodup (real_kind hc)]
    · rw [count_map_pair, (hord _).count_eq]
      exact List.count_filter (by simp)
    · intro k _ hk hm
      obtain ⟨_, _, h⟩ := List.mem_map.1 hm
      injection h with _ h; injection h with h _; exact hk h
  · intro t' _ ht' hm
    obtain ⟨k, _, hm⟩ := List.mem_flatMap.1 hm
    obtain ⟨_, _, h⟩ := List.mem_map.1 hm
    injection h with h _; exact ht' h

/-- **C301**: the report of a v1 diff has exactly the changes of attributes, metrics, events and spans, under these. -/
theorem reportV1_partial {ord : List Change → List Change} (hord : ∀ l, (ord l).Perm l) (ch : Changes) (t k : String)
    (c : Change) : (t, k, c) ∈ reportLines ord (contextV1 ch) ↔ c.Real ∧ c.tag = k ∧
      ((t = "registry_attributes" ∧ c ∈ ch.attributes) ∨ (t = "metrics" ∧ c ∈ ch.metrics) ∨
        (t = "events" ∧ c ∈ ch.events) ∨ (t = "spans" ∧ c ∈ ch.spans)) := by
  rw [mem_reportLines hord]
  constructor
  · rintro ⟨ht, hr, hk, hc⟩
    refine ⟨hr, hk, ?_⟩
    simp only [itemTypes, List.mem_cons, List.not_mem_nil, or_false] at ht
    rcases ht with rfl | rfl | rfl | rfl | rfl <;> simpa [contextV1, aget] using hc
  · rintro ⟨hr, hk, h⟩
    rcases h with ⟨rfl, h⟩ | ⟨rfl, h⟩ | ⟨rfl, h⟩ | ⟨rfl, h⟩ <;>
      exact ⟨by decide, hr, hk, by simpa [contextV1, aget] using h⟩

/-- **C301**: the report of a v2 diff has exactly the changes of attributes, metrics, events, spans and entities, under
these. -/
theorem reportV2_partial {ord : List Change → List Change} (hord : ∀ l, (ord l).Perm l) (ch : Changes2) (t k : String)
    (c : Change) : (t, k, c) ∈ reportLines ord (contextV2 ch) ↔ c.Real ∧ c.tag = k ∧
      ((t = "registry_attributes" ∧ c ∈ ch.attributes) ∨ (t = "metrics" ∧ c ∈ ch.metrics) ∨
        (t = "events" ∧ c ∈ ch.events) ∨ (t = "spans" ∧ c ∈ ch.spans) ∨ (t = "resources" ∧ c ∈ ch.entities)) := by
  rw [mem_reportLines hord]
  constructor
  · rintro ⟨ht, hr, hk, hc⟩
    refine ⟨hr, hk, ?_⟩
    simp only [itemTypes, List.mem_cons, List.not_mem_nil, or_false] at ht
    rcases ht with rfl | rfl | rfl | rfl | rfl <;> simpa [contextV2, aget, aset] using hc
  · rintro ⟨hr, hk, h⟩
    rcases h with ⟨rfl, h⟩ | ⟨rfl, h⟩ | ⟨rfl, h⟩ | ⟨rfl, h⟩ | ⟨rfl, h⟩ <;>
      exact ⟨by decide, hr, hk, by simpa [contextV2, aget, aset] using h⟩

/-- **C301**: no change of an entity is in the report of a v1 diff: the templates read `resources`, the changes are at
`entities`. -/
theorem entity_unreported_refuted : ∃ (head base : Schema) (ch : Changes), diffV1 id head base = some ch ∧
    ch.entities = [.removed "host"] ∧ reportLines id (contextV1 ch) = [] ∧
    ∀ p ∈ reportCounts (contextV1 ch), ∀ q ∈ p.2, q.2 = 0 :=
  ⟨⟨[], []⟩, ⟨[], [{ id := "entity.host", type := .entity, name := some "host" }]⟩, _, rfl, by decide, by decide,
    by decide⟩

/-- **C301**: no change of an attribute group is in the report of a v2 diff. -/
theorem group_unreported_refuted : ∃ ch : Changes2, ch.groups = [.removed "g"] ∧ reportLines id (contextV2 ch) = [] :=
  ⟨⟨[], [.removed "g"], [], [], [], []⟩, rfl, by decide⟩

/-- **C301**: the counts are the numbers of lines of the other two reports. -/
theorem reportCounts_lines {ord : List Change → List Change} (hord : ∀ l, (ord l).Perm l) (ctx : Context) :
    reportCounts ctx = itemTypes.map fun t => (t, shownKinds.map fun k =>
      (k, ((reportLines ord ctx).filter fun x => decide (x.1 = t ∧ x.2.1 = k)).length)) := by
  have key : ∀ t ∈ itemTypes, ∀ k ∈ shownKinds,
      ((reportLines ord ctx).filter fun x => decide (x.1 = t ∧ x.2.1 = k)).length = (select ctx t k).length := by
    have hl : ∀ t k, (ord (select ctx t k)).length = (select ctx t k).length := fun t k => (hord _).length_eq
    have hsec : ∀ t k t' k', (((ord (select ctx t k)).map fun c => (t, k, c)).filter fun x : String × String × Change =>
        decide (x.1 = t' ∧ x.2.1 = k')).length = if t = t' ∧ k = k' then (select ctx t k).length else 0 := by
      intro t k t' k'
      rw [List.filter_map, List.length_map]
      by_cases h : t = t' ∧ k = k'
      · rw [if_pos h, ← hl t k]
        congr 1
        exact List.filter_eq_self.2 fun c _ => by simp [h]
      · rw [if_neg h, List.length_eq_zero_iff]
        exact List.filter_eq_nil_iff.2 fun c _ => by simpa using fun a b => h ⟨a, b⟩
    intro t ht k hk
    simp only [itemTypes, shownKinds, List.mem_cons, List.not_mem_nil, or_false] at ht hk
    simp only [reportLines, itemTypes, shownKinds, List.flatMap_cons, List.flatMap_nil, List.append_nil,
      List.filter_append, List.length_append, hsec]
    rcases ht with rfl | rfl | rfl | rfl | rfl <;> rcases hk with rfl | rfl | rfl | rfl | rfl <;> simp
  refine List.map_congr_left fun t ht => ?_
  refine congrArg (Prod.mk t) (List.map_congr_left fun k hk => ?_)
  rw [key t ht k hk]

example : reportLines id (contextV1 ⟨[.renamed "a" "b" "n", .added "b"], [], [.removed "e"], [], [.added "x"]⟩) =
    [("registry_attributes", "added", .added "b"), ("registry_attributes", "renamed", .renamed "a" "b" "n"),
     ("events", "removed", .removed "e")] := by decide

example : (Change.added "a").Real ∧ ¬ Change.updated.Real := ⟨trivial, id⟩

end Verif.Diff
