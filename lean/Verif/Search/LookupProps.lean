import Verif.Search.SearchProps
import Verif.Search.BrowseProps
/-
Looking definitions up by name (C68), and fetching what a search found (C69).
-/
namespace Verif.Search
open Verif.Util

/-! ### Specification -/

/-- `i` is the last definition of the list named `k`. -/
def LastNamed (l : List Item) (k : String) (i : Item) : Prop :=
  ∃ a b, l = a ++ i :: b ∧ i.id = k ∧ ∀ j ∈ b, j.id ≠ k

/-- A lookup returns the last definition with the name, and nothing exactly if there is none. -/
def LooksUp (l : List Item) (get : String → Option Item) : Prop :=
  ∀ k, (∀ i, get k = some i ↔ LastNamed l k i) ∧ (get k = none ↔ ∀ i ∈ l, i.id ≠ k)

/-! ### Indices -/

theorem index_foldl (l : List Item) (m : List (String × Item)) (k : String) :
    aget k (l.foldl (fun m i => aset i.id i m) m) =
      (match (l.filter (fun i => decide (i.id = k))).getLast? with | some i => some i | none => aget k m) := by
  induction l generalizing m with
  | nil => rfl
  | cons i l ih =>
    rw [List.foldl_cons, ih, List.filter_cons, aget_aset]
    by_cases h : i.id = k
    · simp only [h, decide_true, if_true]
      cases e : (l.filter (fun i => decide (i.id = k))).getLast? with
      | none =>
        rw [List.getLast?_cons, e]
        rfl
      | some j =>
        rw [List.getLast?_cons, e]
        rfl
    · simp only [h, decide_false, Bool.false_eq_true, if_false, Ne.symm h]

theorem lastNamed_iff {l : List Item} {k : String} {i : Item} :
    (l.filter (fun i => decide (i.id = k))).getLast? = some i ↔ LastNamed l k i := by
  constructor
  · intro h
    obtain ⟨ys, hys⟩ := List.getLast?_eq_some_iff.1 h
    obtain ⟨a, b, rfl, h1, h2⟩ := List.filter_eq_append_iff.1 hys
    obtain ⟨c, d, rfl, h3, h4, h5⟩ := List.filter_eq_cons_iff.1 h2
    refine ⟨a ++ c, d, by simp, by simpa using h4, ?_⟩
    intro j hj e
    have : j ∈ d.filter (fun i => decide (i.id = k)) := List.mem_filter.2 ⟨hj, by simpa using e⟩
    rw [h5] at this
    simp at this
  · rintro ⟨a, b, rfl, h1, h2⟩
    have hb : b.filter (fun i => decide (i.id = k)) = [] := by
      rw [List.filter_eq_nil_iff]
      intro j hj
      simpa using h2 j hj
    rw [List.filter_append, List.filter_cons, if_pos (by simpa using h1), hb]
    simp

theorem index_looksUp (l : List Item) : LooksUp l (fun k => aget k (index l)) := by
  intro k
  unfold index
  simp only [index_foldl]
  cases e : (l.filter (fun i => decide (i.id = k))).getLast? with
  | none =>
    have hn : ∀ i ∈ l, i.id ≠ k := by
      intro i hi h
      have : i ∈ l.filter (fun i => decide (i.id = k)) := List.mem_filter.2 ⟨hi, by simpa using h⟩
      rw [List.getLast?_eq_none_iff.1 e] at this
      simp at this
    refine ⟨?_, by simpa [aget] using hn⟩
    intro i
    constructor
    · intro h; simp [aget] at h
    · intro h
      rw [lastNamed_iff.2 h] at e
      cases e
  | some j =>
    have hj := lastNamed_iff.1 e
    refine ⟨?_, ?_⟩
    · intro i
      constructor
      · intro h
        rw [← Option.some.inj h]
        exact hj
      · intro h
        have := lastNamed_iff.2 h
        rw [e] at this
        exact this
    · constructor
      · intro h; cases h
      · intro h
        obtain ⟨a, b, rfl, hk, _⟩ := hj
        exact absurd hk (h j (by simp))

theorem index_nodup (l : List Item) : ((index l).map Prod.fst).Nodup := by
  unfold index
  suffices H : ∀ m : List (String × Item), (m.map Prod.fst).Nodup →
      ((l.foldl (fun m i => aset i.id i m) m).map Prod.fst).Nodup from H [] (by simp)
  induction l with
  | nil => intro m hm; exact hm
  | cons i l ih => intro m hm; exact ih _ (nodup_aset hm)

/-- When names are unique, the index holds the definitions, each once. -/
theorem index_perm {l : List Item} (h : (l.map Item.id).Nodup) : (index l).Perm (l.map (fun i => (i.id, i))) := by
  have hn := index_nodup l
  have hn2 : ((l.map (fun i => (i.id, i))).map Prod.fst).Nodup := by
    rw [List.map_map]; exact h
  have nd : ∀ m : List (String × Item), (m.map Prod.fst).Nodup → m.Nodup := by
    intro m hm
    exact List.Pairwise.of_map (S := fun a b => a ≠ b) Prod.fst (fun a b hab e => hab (by rw [e])) hm
  rw [List.perm_ext_iff_of_nodup (nd _ hn) (nd _ hn2)]
  rintro ⟨k, i⟩
  constructor
  · intro hm
    have := ((index_looksUp l k).1 i).1 (aget_of_mem_nodup hn hm)
    obtain ⟨a, b, e, h1, _⟩ := this
    exact List.mem_map.2 ⟨i, by rw [e]; simp, by rw [h1]⟩
  · intro hm
    obtain ⟨j, hj, e⟩ := List.mem_map.1 hm
    simp at e
    obtain ⟨rfl, rfl⟩ := e
    refine aget_some_mem (((index_looksUp l j.id).1 j).2 ?_)
    obtain ⟨a, b, rfl⟩ := List.append_of_mem hj
    refine ⟨a, b, rfl, rfl, ?_⟩
    intro x hx e
    rw [List.map_append, List.map_cons, List.nodup_append] at h
    exact (List.nodup_cons.1 h.2.1).1 (List.mem_map.2 ⟨x, hx, e⟩)

/-- C28: with unique attribute keys, what is browsed is the attributes of the registry, each once. -/
theorem browsed_entries (r : Registry) (sep : String) (h : (r.attributes.map Item.id).Nodup) :
    ((build r sep).attrIndex ++ (build r sep).templateIndex).Perm (r.attributes.map (fun i => (i.id, i))) := by
  have sub : ∀ p : Item → Bool, ((r.attributes.filter p).map Item.id).Nodup :=
    fun p => List.Pairwise.sublist (List.Sublist.map _ List.filter_sublist) h
  refine ((index_perm (sub _)).append (index_perm (sub _))).trans ?_
  rw [← List.map_append]
  refine List.Perm.map _ ?_
  generalize r.attributes = l
  induction l with
  | nil => exact List.Perm.refl _
  | cons i l ih =>
    cases ht : i.template with
    | false => simpa [ht] using ih
    | true =>
      simp only [List.filter_cons, ht, Bool.not_true, Bool.false_eq_true, if_false, if_true]
      exact List.perm_middle.trans (ih.cons i)

/-! ### C68 -/

/-- The lookups by name return the last definition of that name among the definitions of their kind; attributes and
template attributes are looked up apart. -/
theorem lookups (r : Registry) (sep : String) :
    LooksUp (r.attributes.filter (fun i => !i.template)) (getAttribute (build r sep)) ∧
    LooksUp (r.attributes.filter (fun i => i.template)) (getTemplate (build r sep)) ∧
    LooksUp r.metrics (getMetric (build r sep)) ∧ LooksUp r.spans (getSpan (build r sep)) ∧
    LooksUp r.events (getEvent (build r sep)) ∧ LooksUp r.entities (getEntity (build r sep)) :=
  ⟨index_looksUp _, index_looksUp _, index_looksUp _, index_looksUp _, index_looksUp _, index_looksUp _⟩

theorem utf8Sum_lt {a b : Chars} (h : a <+: b) (hl : a.length < b.length) :
    (a.map Char.utf8Size).sum < (b.map Char.utf8Size).sum := by
  obtain ⟨t, rfl⟩ := h
  rw [List.map_append, List.sum_append]
  cases t with
  | nil => simp at hl
  | cons c t =>
    have := Char.utf8Size_pos c
    simp only [List.map_cons, List.sum_cons]
    omega

/-- Looking for the template of an attribute name returns a template attribute whose key starts the name, and no other
such key is longer; it returns nothing exactly if no template key starts the name. -/
theorem find_template (r : Registry) (sep name : String) :
    (∀ i, findTemplate (build r sep) name = some i →
      i ∈ r.attributes ∧ i.template = true ∧ i.id.toList <+: name.toList ∧
      ∀ j ∈ r.attributes, j.template = true → j.id.toList <+: name.toList → j.id.toList.length ≤ i.id.toList.length) ∧
    (findTemplate (build r sep) name = none ↔
      ∀ j ∈ r.attributes, j.template = true → ¬ j.id.toList <+: name.toList) := by
  have hmem : ∀ p : String × Item, p ∈ (build r sep).templatesByLength ↔
      p.1 = p.2.id ∧ p.2 ∈ r.attributes ∧ p.2.template = true := by
    rintro ⟨k, i⟩
    unfold build
    dsimp only
    rw [mem_sortBy, List.mem_map]
    constructor
    · rintro ⟨j, hj, e⟩
      simp at e
      obtain ⟨rfl, rfl⟩ := e
      have := List.mem_filter.1 hj
      exact ⟨rfl, this.1, this.2⟩
    · rintro ⟨rfl, h1, h2⟩
      exact ⟨i, List.mem_filter.2 ⟨h1, h2⟩, rfl⟩
  have hpre : ∀ p : String × Item, (dropPrefix? p.1.toList name.toList).isSome = true ↔ p.1.toList <+: name.toList := by
    intro p
    cases e : dropPrefix? p.1.toList name.toList with
    | none => simp [dropPrefix?_none.1 e]
    | some t =>
      simp only [Option.isSome_some, true_iff]
      exact ⟨t, (dropPrefix?_iff.1 e).symm⟩
  constructor
  · intro i h
    unfold findTemplate at h
    rw [Option.map_eq_some_iff] at h
    obtain ⟨p, hp, rfl⟩ := h
    have h1 := (hmem p).1 (List.mem_of_find?_eq_some hp)
    have h2 := (hpre p).1 (List.find?_some (p := fun p : String × Item => (dropPrefix? p.1.toList name.toList).isSome) hp)
    rw [h1.1] at h2
    refine ⟨h1.2.1, h1.2.2, h2, ?_⟩
    intro j hj ht hjp
    have hmax := find?_geKey_max (sortBy_sorted (geKey_totalPre (fun p : String × Item => blen p.1)) _) hp
      (j.id, j) ((hmem (j.id, j)).2 ⟨rfl, hj, ht⟩) ((hpre (j.id, j)).2 hjp)
    rw [h1.1] at hmax
    refine Nat.le_of_not_lt ?_
    intro hlt
    have := utf8Sum_lt (List.prefix_of_prefix_length_le h2 hjp (Nat.le_of_lt hlt)) hlt
    unfold blen at hmax
    dsimp only at hmax
    omega
  · unfold findTemplate
    rw [Option.map_eq_none_iff, List.find?_eq_none]
    constructor
    · intro h j hj ht hp
      exact h (j.id, j) ((hmem (j.id, j)).2 ⟨rfl, hj, ht⟩) ((hpre (j.id, j)).2 hp)
    · intro h p hp hs
      have h1 := (hmem p).1 hp
      have h2 := (hpre p).1 hs
      exact h p.2 h1.2.1 h1.2.2 (h1.1 ▸ h2)

/-! ### C69 -/

/-- Names are unique within a kind. -/
structure Unique (r : Registry) : Prop where
  attributes : (r.attributes.map Item.id).Nodup
  metrics : (r.metrics.map Item.id).Nodup
  spans : (r.spans.map Item.id).Nodup
  events : (r.events.map Item.id).Nodup
  entities : (r.entities.map Item.id).Nodup

theorem lastNamed_of_unique {l : List Item} (h : (l.map Item.id).Nodup) {i : Item} (hi : i ∈ l) :
    LastNamed l i.id i := by
  obtain ⟨a, b, rfl⟩ := List.append_of_mem hi
  refine ⟨a, b, rfl, rfl, ?_⟩
  intro x hx e
  rw [List.map_append, List.map_cons, List.nodup_append] at h
  exact (List.nodup_cons.1 h.2.1).1 (List.mem_map.2 ⟨x, hx, e⟩)

theorem trimSlashes_id {s : String} (h : s.toList.head? ≠ some '/') : trimSlashes s = s := by
  unfold trimSlashes
  cases e : s.toList with
  | nil => rw [List.dropWhile_nil, ← e, String.ofList_toList]
  | cons c t =>
    rw [e] at h
    have : decide (c = '/') = false := by simpa using h
    rw [List.dropWhile_cons, this]
    simp only [Bool.false_eq_true, if_false]
    rw [← e, String.ofList_toList]

theorem mem_items {r : Registry} (ht : r.Typed) {sep : String} {i : Item} (h : i ∈ (build r sep).items) :
    match i.kind with
    | .attribute => i ∈ r.attributes
    | .metric => i ∈ r.metrics
    | .span => i ∈ r.spans
    | .event => i ∈ r.events
    | .entity => i ∈ r.entities := by
  have h : i ∈ r.attributes ++ r.metrics ++ r.spans ++ r.events ++ r.entities := h
  simp only [List.mem_append] at h
  rcases h with (((h | h) | h) | h) | h
  · rw [ht.attributes i h]; exact h
  · rw [ht.metrics i h]; exact h
  · rw [ht.spans i h]; exact h
  · rw [ht.events i h]; exact h
  · rw [ht.entities i h]; exact h

/-- Whatever a search finds, the HTTP endpoint of its kind returns under its name (for names that do not start with a
slash, which the endpoint strips). -/
theorem hits_fetched (u : Unicode) (r : Registry) (ht : r.Typed) (hu : Unique r) (sep : String)
    (query : Option String) (kind : Option Kind) (stability : Option Stability) (hide : Bool) (limit offset : Nat)
    (p : Nat × Item) (hp : p ∈ (search u (build r sep) query kind stability hide limit offset).1)
    (hslash : p.2.id.toList.head? ≠ some '/') :
    httpGet (build r sep) p.2.kind p.2.id = some p.2 := by
  have hmem := mem_items ht ((hits_pass u (build r sep) query kind stability hide limit offset).1 p hp).1
  obtain ⟨l1, l2, l3, l4, l5, l6⟩ := lookups r sep
  generalize p.2 = i at *
  unfold httpGet
  rw [trimSlashes_id hslash]
  have sub : ∀ q : Item → Bool, ((r.attributes.filter q).map Item.id).Nodup :=
    fun q => List.Pairwise.sublist (List.Sublist.map _ List.filter_sublist) hu.attributes
  have uniq : ∀ a ∈ r.attributes, ∀ b ∈ r.attributes, a.id = b.id → a = b := by
    intro a ha b hb e
    have h1 := lastNamed_iff.2 (lastNamed_of_unique hu.attributes ha)
    have h2 := lastNamed_iff.2 (lastNamed_of_unique hu.attributes hb)
    rw [e, h2] at h1
    exact (Option.some.inj h1).symm
  cases hk : i.kind with
  | «attribute» =>
    rw [hk] at hmem
    dsimp only at hmem ⊢
    cases htm : i.template with
    | false =>
      rw [((l1 i.id).1 i).2 (lastNamed_of_unique (sub _) (List.mem_filter.2 ⟨hmem, by rw [htm]; rfl⟩))]
      rfl
    | true =>
      have hnone : getAttribute (build r sep) i.id = none := by
        rw [(l1 i.id).2]
        intro j hj e
        have hj := List.mem_filter.1 hj
        have := uniq j hj.1 i hmem e
        subst this
        rw [htm] at hj
        simp at hj
      rw [hnone, ((l2 i.id).1 i).2 (lastNamed_of_unique (sub _) (List.mem_filter.2 ⟨hmem, htm⟩))]
      rfl
  | metric => rw [hk] at hmem; exact ((l3 i.id).1 i).2 (lastNamed_of_unique hu.metrics hmem)
  | span => rw [hk] at hmem; exact ((l4 i.id).1 i).2 (lastNamed_of_unique hu.spans hmem)
  | event => rw [hk] at hmem; exact ((l5 i.id).1 i).2 (lastNamed_of_unique hu.events hmem)
  | entity => rw [hk] at hmem; exact ((l6 i.id).1 i).2 (lastNamed_of_unique hu.entities hmem)

/-- The MCP tools return under its name everything the MCP search finds, except template attributes. -/
theorem mcp_fetched_partial (u : Unicode) (r : Registry) (ht : r.Typed) (hu : Unique r) (sep : String)
    (query : Option String) (kind : Option Kind) (stability : Option Stability) (limit : Nat)
    (p : Nat × Item) (hp : p ∈ (mcpSearch u (build r sep) query kind stability limit).1)
    (htm : p.2.template = false) : mcpGet (build r sep) p.2.kind p.2.id = some p.2 := by
  have hmem := mem_items ht ((hits_pass u (build r sep) query kind stability false (min limit 100) 0).1 p hp).1
  obtain ⟨l1, l2, l3, l4, l5, l6⟩ := lookups r sep
  generalize p.2 = i at *
  unfold mcpGet
  have sub : ∀ q : Item → Bool, ((r.attributes.filter q).map Item.id).Nodup :=
    fun q => List.Pairwise.sublist (List.Sublist.map _ List.filter_sublist) hu.attributes
  cases hk : i.kind with
  | «attribute» =>
    rw [hk] at hmem
    exact ((l1 i.id).1 i).2 (lastNamed_of_unique (sub _) (List.mem_filter.2 ⟨hmem, by rw [htm]; rfl⟩))
  | metric => rw [hk] at hmem; exact ((l3 i.id).1 i).2 (lastNamed_of_unique hu.metrics hmem)
  | span => rw [hk] at hmem; exact ((l4 i.id).1 i).2 (lastNamed_of_unique hu.spans hmem)
  | event => rw [hk] at hmem; exact ((l5 i.id).1 i).2 (lastNamed_of_unique hu.events hmem)
  | entity => rw [hk] at hmem; exact ((l6 i.id).1 i).2 (lastNamed_of_unique hu.entities hmem)

/-- A template attribute found by the MCP search cannot be fetched: `get_attribute` answers that it is not in the
registry. -/
theorem mcp_fetched_refuted :
    ¬ ∀ (u : Unicode) (r : Registry), r.Typed → Unique r → ∀ (sep : String) (query : Option String)
      (kind : Option Kind) (stability : Option Stability) (limit : Nat),
      ∀ p ∈ (mcpSearch u (build r sep) query kind stability limit).1,
        mcpGet (build r sep) p.2.kind p.2.id = some p.2 := by
  intro h
  have ht : shop.Typed := ⟨by decide, by decide, by decide, by decide, by decide⟩
  have hu : Unique shop := ⟨by decide, by decide, by decide, by decide, by decide⟩
  have := h ascii shop ht hu "." (some "http.header") none none 10
    (100, { kind := .attribute, id := "http.header", template := true }) (by decide)
  exact absurd this (by decide)

/-- The browsing tool lists, and the search finds, what the lookup of the HTTP server returns. -/
example : httpGet (build shop ".") .attribute "http.header" =
    some { kind := .attribute, id := "http.header", template := true } := by decide
example : httpGet (build shop ".") .attribute "/http.route" =
    some { kind := .attribute, id := "http.route", brief := "The route" } := by decide
example : findTemplate (build shop ".") "http.header.accept" =
    some { kind := .attribute, id := "http.header", template := true } := by decide

end Verif.Search
