import Verif.Checks.Model
/-
C12: duplicates in a resolved registry are reported.
-/
namespace Verif.Checks
open Verif.Util Verif.Resolver

/-! ### Specification -/

/-- Two groups of the registry (at different places of the list) that both satisfy `p`. -/
def Two (gs : List Grp) (p : Grp → Prop) : Prop := ∃ g h, List.Sublist [g, h] gs ∧ p g ∧ p h

/-- The group comes from a file (its lineage says which). -/
def HasSource (g : Grp) : Prop := ∃ s, g.provenance = some s

/-- `g` refines another group of the v2 format. -/
def RefinesV2 (g : Grp) : Prop := g.isV2 = true ∧ ∃ l x, g.lineage = some l ∧ l.extendsGroup = some x

/-- The files `ps` are, without repetition, exactly those of the groups that satisfy `p`. -/
def SourcesOf (gs : List Grp) (p : Grp → Prop) (ps : List String) : Prop :=
  ps.Nodup ∧ ∀ s, s ∈ ps ↔ ∃ g ∈ gs, p g ∧ g.provenance = some s

/-! ### Lemmas -/

theorem two_filter {α : Type} (l : List α) (p : α → Bool) :
    1 < (l.filter p).length ↔ ∃ g h, List.Sublist [g, h] l ∧ p g = true ∧ p h = true := by
  constructor
  · intro hlt
    match hf : l.filter p, hlt with
    | a :: b :: t, _ =>
      have hs : List.Sublist [a, b] (l.filter p) := by
        rw [hf]; exact .cons_cons _ (.cons_cons _ (List.nil_sublist _))
      have ha : a ∈ l.filter p := by rw [hf]; simp
      have hb : b ∈ l.filter p := by rw [hf]; simp
      exact ⟨a, b, hs.trans List.filter_sublist, (List.mem_filter.1 ha).2, (List.mem_filter.1 hb).2⟩
  · rintro ⟨g, h, hs, hg, hh⟩
    have := hs.filter p
    simp only [List.filter_cons, hg, hh, if_true, List.filter_nil] at this
    have := this.length_le
    simp at this; omega

/-- The pairs recorded by `check_uniqueness`. -/
def pairsOf (key : Grp → Option String) (g : Grp) : Option (String × String) :=
  match key g with
  | some k => match g.provenance with
    | some p => some (k, p)
    | none => none
  | none => none

theorem mvals_pairs (gs : List Grp) (key : Grp → Option String) (k : String) :
    mvals k (gs.filterMap (pairsOf key)) =
      (gs.filter (fun g => decide (key g = some k))).filterMap (·.provenance) := by
  induction gs with
  | nil => rfl
  | cons g gs ih =>
    simp only [List.filterMap_cons, List.filter_cons]
    unfold pairsOf at ih ⊢
    cases hk : key g with
    | none => simpa using ih
    | some k' =>
      cases hp : g.provenance with
      | none =>
        by_cases h : k' = k
        · simp [h, hp]; exact ih
        · simp [h]; exact ih
      | some p =>
        simp only [mvals, List.filter_cons] at ih ⊢
        by_cases h : k' = k
        · simp [h, hp]; exact ih
        · simp [h]; exact ih

theorem filterMap_prov_length (gs : List Grp) :
    (gs.filterMap (·.provenance)).length = (gs.filter (fun g => g.provenance.isSome)).length := by
  induction gs with
  | nil => rfl
  | cons g gs ih => cases h : g.provenance <;> simp [h, ih]

theorem checkUniqueness_mem (gs : List Grp) (key : Grp → Option String) (err : String → List String → CheckErr)
    (e : CheckErr) : e ∈ checkUniqueness gs key err ↔
      ∃ k, e = err k (uniq ((gs.filter (fun g => decide (key g = some k))).filterMap (·.provenance))) ∧
        Two gs (fun g => key g = some k ∧ HasSource g) := by
  have hone : ∀ k, 1 < ((gs.filter (fun g => decide (key g = some k))).filterMap (·.provenance)).length ↔
      Two gs (fun g => key g = some k ∧ HasSource g) := by
    intro k
    rw [filterMap_prov_length, List.filter_filter, two_filter]
    unfold Two HasSource
    simp only [Bool.and_eq_true, decide_eq_true_eq, Option.isSome_iff_exists]
    constructor
    · rintro ⟨g, h, hs, ⟨a, b⟩, c, d⟩; exact ⟨g, h, hs, ⟨b, a⟩, d, c⟩
    · rintro ⟨g, h, hs, ⟨a, b⟩, c, d⟩; exact ⟨g, h, hs, ⟨b, a⟩, d, c⟩
  show e ∈ (mgroup (gs.filterMap (pairsOf key))).filterMap _ ↔ _
  rw [List.mem_filterMap]
  constructor
  · rintro ⟨⟨k, vs⟩, hm, h⟩
    have hvs := ((mgroup_spec _).2 k vs).1 hm
    rw [mvals_pairs] at hvs
    simp only at h
    split at h
    · rename_i hlt
      simp only [Option.some.injEq] at h
      refine ⟨k, by rw [← h, hvs.1], ?_⟩
      rw [← hone, ← hvs.1]; exact hlt
    · cases h
  · rintro ⟨k, rfl, htwo⟩
    have hlt := (hone k).2 htwo
    refine ⟨(k, _), ((mgroup_spec _).2 k _).2 ⟨(mvals_pairs gs key k).symm, ?_⟩, ?_⟩
    · intro h; rw [h] at hlt; simp at hlt
    · simp only [gt_iff_lt, hlt, if_true]

theorem sourcesOf_uniq (gs : List Grp) (key : Grp → Option String) (k : String) :
    SourcesOf gs (fun g => key g = some k)
      (uniq ((gs.filter (fun g => decide (key g = some k))).filterMap (·.provenance))) := by
  refine ⟨(uniq_spec _).1, fun s => ?_⟩
  rw [(uniq_spec _).2]
  simp only [List.mem_filterMap, List.mem_filter, decide_eq_true_eq, and_assoc]

theorem isV2Refinement_iff (g : Grp) : g.isV2Refinement = true ↔ RefinesV2 g := by
  unfold Grp.isV2Refinement RefinesV2
  cases g.lineage with
  | none => simp
  | some l => simp [Option.isSome_iff_exists]

theorem key_unless (g : Grp) (o : Option String) (k : String) :
    (if g.isV2Refinement then none else o) = some k ↔ ¬ RefinesV2 g ∧ o = some k := by
  rw [← isV2Refinement_iff]
  cases g.isV2Refinement <;> simp

theorem checkRootAttrs_kind (gs : List Grp) (ns : List String) (e : CheckErr) (h : e ∈ checkRootAttrs gs ns) :
    ∃ a ids, e = .duplicateAttributeId a ids := by
  unfold checkRootAttrs at h
  rw [List.mem_filterMap] at h
  obtain ⟨p, _, h⟩ := h
  split at h
  · simp only [Option.some.injEq] at h; exact ⟨_, _, h.symm⟩
  · cases h

theorem checkCollisions_kind (gs : List Grp) (e : CheckErr) (h : e ∈ checkCollisions gs) :
    ∃ s ids ps, e = .collidingV2SignalId s ids ps := by
  unfold checkCollisions at h
  rw [List.mem_filterMap] at h
  obtain ⟨p, _, h⟩ := h
  simp only at h
  split at h
  · cases h
  · simp only [Option.some.injEq] at h; exact ⟨_, _, _, h.symm⟩

/-! ### Theorems -/

/-- C12: a duplicate group id is reported exactly when two groups with a source have this id, and the report names
exactly their files. -/
theorem dup_group_id (gs : List Grp) (ns : List String) (id : String) :
    ((∃ ps, .duplicateGroupId id ps ∈ allChecks gs ns) ↔ Two gs (fun g => g.id = id ∧ HasSource g)) ∧
    ∀ ps, .duplicateGroupId id ps ∈ allChecks gs ns → SourcesOf gs (fun g => g.id = id) ps := by
  have hmem : ∀ ps, CheckErr.duplicateGroupId id ps ∈ allChecks gs ns ↔
      CheckErr.duplicateGroupId id ps ∈ checkUniqueness gs (fun g => some g.id) .duplicateGroupId := by
    intro ps
    simp only [allChecks, List.mem_append]
    constructor
    · rintro ((((h | h) | h) | h) | h)
      · exact h
      · rw [checkUniqueness_mem] at h; obtain ⟨k, h, _⟩ := h; cases h
      · rw [checkUniqueness_mem] at h; obtain ⟨k, h, _⟩ := h; cases h
      · obtain ⟨_, _, h⟩ := checkRootAttrs_kind _ _ _ h; cases h
      · obtain ⟨_, _, _, h⟩ := checkCollisions_kind _ _ h; cases h
    · intro h; exact .inl (.inl (.inl (.inl h)))
  simp only [hmem, checkUniqueness_mem]
  refine ⟨⟨?_, ?_⟩, ?_⟩
  · rintro ⟨ps, k, h, h2⟩
    simp only [CheckErr.duplicateGroupId.injEq] at h
    rw [h.1]; simpa using h2
  · intro h; exact ⟨_, id, rfl, by simpa using h⟩
  · rintro ps ⟨k, h, _⟩
    simp only [CheckErr.duplicateGroupId.injEq] at h
    obtain ⟨rfl, rfl⟩ := h
    have := sourcesOf_uniq gs (fun g => some g.id) id
    simpa using this

/-- C12: a duplicate metric name is reported exactly when two groups with a source, none of them a v2 refinement, have
this metric name, and the report names exactly their files. -/
theorem dup_metric_name (gs : List Grp) (ns : List String) (m : String) :
    ((∃ ps, .duplicateMetricName m ps ∈ allChecks gs ns) ↔
      Two gs (fun g => (¬ RefinesV2 g ∧ g.metricName = some m) ∧ HasSource g)) ∧
    ∀ ps, .duplicateMetricName m ps ∈ allChecks gs ns →
      SourcesOf gs (fun g => ¬ RefinesV2 g ∧ g.metricName = some m) ps := by
  have hmem : ∀ ps, CheckErr.duplicateMetricName m ps ∈ allChecks gs ns ↔ CheckErr.duplicateMetricName m ps ∈
      checkUniqueness gs (fun g => if g.isV2Refinement then none else g.metricName) .duplicateMetricName := by
    intro ps
    simp only [allChecks, List.mem_append]
    constructor
    · rintro ((((h | h) | h) | h) | h)
      · rw [checkUniqueness_mem] at h; obtain ⟨k, h, _⟩ := h; cases h
      · exact h
      · rw [checkUniqueness_mem] at h; obtain ⟨k, h, _⟩ := h; cases h
      · obtain ⟨_, _, h⟩ := checkRootAttrs_kind _ _ _ h; cases h
      · obtain ⟨_, _, _, h⟩ := checkCollisions_kind _ _ h; cases h
    · intro h; exact .inl (.inl (.inl (.inr h)))
  simp only [hmem, checkUniqueness_mem]
  refine ⟨⟨?_, ?_⟩, ?_⟩
  · rintro ⟨ps, k, h, h2⟩
    simp only [CheckErr.duplicateMetricName.injEq] at h
    rw [h.1]; simpa only [key_unless] using h2
  · intro h; exact ⟨_, m, rfl, by simpa only [key_unless] using h⟩
  · rintro ps ⟨k, h, _⟩
    simp only [CheckErr.duplicateMetricName.injEq] at h
    obtain ⟨rfl, rfl⟩ := h
    have := sourcesOf_uniq gs (fun g => if g.isV2Refinement then none else g.metricName) m
    simpa only [key_unless] using this

/-- C12: the same for group names (events, entities). -/
theorem dup_group_name (gs : List Grp) (ns : List String) (m : String) :
    ((∃ ps, .duplicateGroupName m ps ∈ allChecks gs ns) ↔
      Two gs (fun g => (¬ RefinesV2 g ∧ g.name = some m) ∧ HasSource g)) ∧
    ∀ ps, .duplicateGroupName m ps ∈ allChecks gs ns →
      SourcesOf gs (fun g => ¬ RefinesV2 g ∧ g.name = some m) ps := by
  have hmem : ∀ ps, CheckErr.duplicateGroupName m ps ∈ allChecks gs ns ↔ CheckErr.duplicateGroupName m ps ∈
      checkUniqueness gs (fun g => if g.isV2Refinement then none else g.name) .duplicateGroupName := by
    intro ps
    simp only [allChecks, List.mem_append]
    constructor
    · rintro ((((h | h) | h) | h) | h)
      · rw [checkUniqueness_mem] at h; obtain ⟨k, h, _⟩ := h; cases h
      · rw [checkUniqueness_mem] at h; obtain ⟨k, h, _⟩ := h; cases h
      · exact h
      · obtain ⟨_, _, h⟩ := checkRootAttrs_kind _ _ _ h; cases h
      · obtain ⟨_, _, _, h⟩ := checkCollisions_kind _ _ h; cases h
    · intro h; exact .inl (.inl (.inr h))
  simp only [hmem, checkUniqueness_mem]
  refine ⟨⟨?_, ?_⟩, ?_⟩
  · rintro ⟨ps, k, h, h2⟩
    simp only [CheckErr.duplicateGroupName.injEq] at h
    rw [h.1]; simpa only [key_unless] using h2
  · intro h; exact ⟨_, m, rfl, by simpa only [key_unless] using h⟩
  · rintro ps ⟨k, h, _⟩
    simp only [CheckErr.duplicateGroupName.injEq] at h
    obtain ⟨rfl, rfl⟩ := h
    have := sourcesOf_uniq gs (fun g => if g.isV2Refinement then none else g.name) m
    simpa only [key_unless] using this

/-- The attribute reference `i` of the group `g` defines the attribute `a`: `g` is an attribute group with a lineage, the
reference has this name, and the lineage does not say that the attribute comes from elsewhere. -/
def DefinesAt (ns : List String) (g : Grp) (i : Nat) (a : String) : Prop :=
  g.type = .attributeGroup ∧ (∃ l, g.lineage = some l ∧ a ∉ l.attrs) ∧ ns[i]? = some a

/-- One of the references of `g` defines `a`. -/
def Defines (ns : List String) (g : Grp) (a : String) : Prop := ∃ i ∈ g.attributes, DefinesAt ns g i a

/-- `g` lists two references that both define `a`. -/
def DefinesTwice (ns : List String) (g : Grp) (a : String) : Prop :=
  ∃ i j, List.Sublist [i, j] g.attributes ∧ DefinesAt ns g i a ∧ DefinesAt ns g j a

theorem sublist_two_flatMap {α β : Type} (f : α → List β) (p q : β) (l : List α) :
    List.Sublist [p, q] (l.flatMap f) ↔
      (∃ g h, List.Sublist [g, h] l ∧ p ∈ f g ∧ q ∈ f h) ∨ ∃ g ∈ l, List.Sublist [p, q] (f g) := by
  induction l with
  | nil => simp
  | cons a l ih =>
    simp only [List.flatMap_cons]
    constructor
    · intro h
      obtain ⟨x, y, hxy, hx, hy⟩ := List.sublist_append_iff.1 h
      match x, y, hxy with
      | [], y, e =>
        simp only [List.nil_append] at e; subst e
        rcases ih.1 hy with ⟨g, k, hs, h1, h2⟩ | ⟨g, hg, h1⟩
        · exact .inl ⟨g, k, .cons _ hs, h1, h2⟩
        · exact .inr ⟨g, by simp [hg], h1⟩
      | [x1], y, e =>
        simp only [List.singleton_append, List.cons.injEq] at e
        obtain ⟨rfl, rfl⟩ := e
        have hq : q ∈ l.flatMap f := by simpa using hy
        have hp : p ∈ f a := by simpa using hx
        obtain ⟨k, hk, hqk⟩ := List.mem_flatMap.1 hq
        exact .inl ⟨a, k, .cons_cons _ (by simpa using hk), hp, hqk⟩
      | x1 :: x2 :: xs, y, e =>
        simp only [List.cons_append, List.cons.injEq] at e
        obtain ⟨rfl, rfl, e⟩ := e
        have hxs : xs = [] := by
          cases xs with
          | nil => rfl
          | cons _ _ => simp at e
        subst hxs
        exact .inr ⟨a, by simp, hx⟩
    · rintro (⟨g, k, hs, h1, h2⟩ | ⟨g, hg, h1⟩)
      · cases hs with
        | cons _ hs => exact (ih.2 (.inl ⟨g, k, hs, h1, h2⟩)).trans (List.sublist_append_right _ _)
        | cons_cons _ hs =>
          have hk : k ∈ l := by simpa using hs
          have h3 : List.Sublist [p] (f a) := by simpa using h1
          have h4 : List.Sublist [q] (l.flatMap f) := by simpa using List.mem_flatMap.2 ⟨k, hk, h2⟩
          exact h3.append h4
      · rcases List.mem_cons.1 hg with rfl | hg
        · exact h1.trans (List.sublist_append_left _ _)
        · exact (ih.2 (.inr ⟨g, hg, h1⟩)).trans (List.sublist_append_right _ _)

theorem rootAttrs_mem (ns : List String) (g : Grp) (hg : g.type = .attributeGroup) (a x : String) :
    (a, x) ∈ rootAttrs ns g ↔ Defines ns g a ∧ g.id = x := by
  unfold rootAttrs Defines DefinesAt
  cases hl : g.lineage with
  | none => simp
  | some l =>
    simp only [List.mem_filterMap, Option.some.injEq, exists_eq_left']
    constructor
    · rintro ⟨i, hi, h⟩
      cases hn : ns[i]? with
      | none => rw [hn] at h; cases h
      | some n =>
        rw [hn] at h; simp only at h
        split at h
        · cases h
        · rename_i hnl
          simp only [Option.some.injEq, Prod.mk.injEq] at h
          obtain ⟨rfl, rfl⟩ := h
          exact ⟨⟨i, hi, hg, hnl, hn⟩, rfl⟩
    · rintro ⟨⟨i, hi, _, hnl, hn⟩, rfl⟩
      exact ⟨i, hi, by simp [hn, hnl]⟩

theorem rootAttrs_two (ns : List String) (g : Grp) (hg : g.type = .attributeGroup) (a : String) :
    (∃ x y, List.Sublist [(a, x), (a, y)] (rootAttrs ns g)) ↔ DefinesTwice ns g a := by
  unfold rootAttrs DefinesTwice DefinesAt
  cases hl : g.lineage with
  | none => simp
  | some l =>
    simp only [Option.some.injEq, exists_eq_left', hg, true_and]
    generalize g.attributes = as
    induction as with
    | nil => simp
    | cons i as ih =>
      have hmem : (∃ y, (a, y) ∈ as.filterMap fun a =>
            match ns[a]? with
            | some n => if n ∈ l.attrs then none else some (n, g.id)
            | none => none) ↔ ∃ j ∈ as, a ∉ l.attrs ∧ ns[j]? = some a := by
        simp only [List.mem_filterMap]
        constructor
        · rintro ⟨y, j, hj, h⟩
          cases hn : ns[j]? with
          | none => rw [hn] at h; cases h
          | some n =>
            rw [hn] at h; simp only at h
            split at h
            · cases h
            · rename_i hnl
              simp only [Option.some.injEq, Prod.mk.injEq] at h
              obtain ⟨rfl, _⟩ := h
              exact ⟨j, hj, hnl, hn⟩
        · rintro ⟨j, hj, hnl, hn⟩
          exact ⟨g.id, j, hj, by simp [hn, hnl]⟩
      have hright : (∃ i_1 j, List.Sublist [i_1, j] (i :: as) ∧ (a ∉ l.attrs ∧ ns[i_1]? = some a) ∧
            a ∉ l.attrs ∧ ns[j]? = some a) ↔
          ((a ∉ l.attrs ∧ ns[i]? = some a) ∧ ∃ j ∈ as, a ∉ l.attrs ∧ ns[j]? = some a) ∨
          ∃ i_1 j, List.Sublist [i_1, j] as ∧ (a ∉ l.attrs ∧ ns[i_1]? = some a) ∧
            a ∉ l.attrs ∧ ns[j]? = some a := by
        constructor
        · rintro ⟨x, y, hs, h1, h2⟩
          cases hs with
          | cons _ hs => exact .inr ⟨x, y, hs, h1, h2⟩
          | cons_cons _ hs => exact .inl ⟨h1, y, by simpa using hs, h2⟩
        · rintro (⟨h1, j, hj, h2⟩ | ⟨x, y, hs, h1, h2⟩)
          · exact ⟨i, j, .cons_cons _ (by simpa using hj), h1, h2⟩
          · exact ⟨x, y, .cons _ hs, h1, h2⟩
      rw [hright, ← ih, ← hmem]
      simp only [List.filterMap_cons]
      cases hn : ns[i]? with
      | none => simp
      | some n =>
        simp only
        by_cases hnl : n ∈ l.attrs
        · rw [if_pos hnl]
          simp only
          constructor
          · intro h; exact .inr h
          · rintro (⟨⟨h1, h2⟩, _⟩ | h)
            · simp only [Option.some.injEq] at h2; subst h2; exact absurd hnl h1
            · exact h
        · rw [if_neg hnl]
          simp only
          constructor
          · rintro ⟨x, y, hs⟩
            cases hs with
            | cons _ hs => exact .inr ⟨x, y, hs⟩
            | cons_cons _ hs => exact .inl ⟨⟨hnl, rfl⟩, y, List.singleton_sublist.1 hs⟩
          · rintro (⟨⟨_, h2⟩, y, hy⟩ | ⟨x, y, hs⟩)
            · simp only [Option.some.injEq] at h2; subst h2
              exact ⟨g.id, y, .cons_cons _ (List.singleton_sublist.2 hy)⟩
            · exact ⟨x, y, .cons _ hs⟩

theorem two_mvals {V : Type} (a : String) (l : List (String × V)) :
    1 < (mvals a l).length ↔ ∃ x y, List.Sublist [(a, x), (a, y)] l := by
  unfold mvals
  rw [List.length_map, two_filter]
  constructor
  · rintro ⟨⟨p1, p2⟩, ⟨q1, q2⟩, hs, hp, hq⟩
    simp only [decide_eq_true_eq] at hp hq
    subst hp; subst hq
    exact ⟨p2, q2, hs⟩
  · rintro ⟨x, y, hs⟩; exact ⟨_, _, hs, by simp, by simp⟩

theorem checkRootAttrs_mem (gs : List Grp) (ns : List String) (a : String) (ids : List String) :
    .duplicateAttributeId a ids ∈ allChecks gs ns ↔
      ids = mvals a ((gs.filter (fun g => decide (g.type = .attributeGroup))).flatMap (rootAttrs ns)) ∧
      1 < ids.length := by
  have h1 : CheckErr.duplicateAttributeId a ids ∈ allChecks gs ns ↔
      CheckErr.duplicateAttributeId a ids ∈ checkRootAttrs gs ns := by
    simp only [allChecks, List.mem_append]
    constructor
    · rintro ((((h | h) | h) | h) | h)
      · rw [checkUniqueness_mem] at h; obtain ⟨k, h, _⟩ := h; cases h
      · rw [checkUniqueness_mem] at h; obtain ⟨k, h, _⟩ := h; cases h
      · rw [checkUniqueness_mem] at h; obtain ⟨k, h, _⟩ := h; cases h
      · exact h
      · obtain ⟨_, _, _, h⟩ := checkCollisions_kind _ _ h; cases h
    · intro h; exact .inl (.inr h)
  rw [h1]
  unfold checkRootAttrs
  rw [List.mem_filterMap]
  constructor
  · rintro ⟨⟨k, vs⟩, hm, h⟩
    simp only at h
    split at h
    · rename_i hlt
      simp only [Option.some.injEq, CheckErr.duplicateAttributeId.injEq] at h
      obtain ⟨rfl, rfl⟩ := h
      exact ⟨(((mgroup_spec _).2 _ _).1 hm).1, hlt⟩
    · cases h
  · rintro ⟨rfl, hlt⟩
    refine ⟨(a, _), ((mgroup_spec _).2 _ _).2 ⟨rfl, ?_⟩, ?_⟩
    · intro h; rw [h] at hlt; simp at hlt
    · simp only [gt_iff_lt, hlt, if_true]

/-- C12: a duplicate attribute definition is reported exactly when two attribute groups define the attribute, or one
does twice; and the report lists exactly the groups that define it. -/
theorem dup_attribute_id (gs : List Grp) (ns : List String) (a : String) :
    ((∃ ids, .duplicateAttributeId a ids ∈ allChecks gs ns) ↔
      Two gs (fun g => Defines ns g a) ∨ ∃ g ∈ gs, DefinesTwice ns g a) ∧
    ∀ ids, .duplicateAttributeId a ids ∈ allChecks gs ns →
      ∀ x, x ∈ ids ↔ ∃ g ∈ gs, Defines ns g a ∧ g.id = x := by
  simp only [checkRootAttrs_mem]
  refine ⟨?_, ?_⟩
  · constructor
    · rintro ⟨ids, rfl, hlt⟩
      rw [two_mvals] at hlt
      obtain ⟨x, y, hs⟩ := hlt
      rw [sublist_two_flatMap] at hs
      rcases hs with ⟨g, k, hs, h1, h2⟩ | ⟨g, hg, h1⟩
      · have hg : g ∈ gs.filter (fun g => decide (g.type = .attributeGroup)) := hs.mem (by simp)
        have hk : k ∈ gs.filter (fun g => decide (g.type = .attributeGroup)) := hs.mem (by simp)
        rw [rootAttrs_mem ns g (by simpa using (List.mem_filter.1 hg).2)] at h1
        rw [rootAttrs_mem ns k (by simpa using (List.mem_filter.1 hk).2)] at h2
        exact .inl ⟨g, k, hs.trans List.filter_sublist, h1.1, h2.1⟩
      · have hg' := List.mem_filter.1 hg
        exact .inr ⟨g, hg'.1, (rootAttrs_two ns g (by simpa using hg'.2) a).1 ⟨x, y, h1⟩⟩
    · intro h
      refine ⟨_, rfl, ?_⟩
      rw [two_mvals]
      rcases h with ⟨g, k, hs, h1, h2⟩ | ⟨g, hg, h1⟩
      · have hgt : g.type = .attributeGroup := by obtain ⟨_, _, h, _⟩ := h1; exact h
        have hkt : k.type = .attributeGroup := by obtain ⟨_, _, h, _⟩ := h2; exact h
        refine ⟨g.id, k.id, (sublist_two_flatMap _ _ _ _).2 (.inl ⟨g, k, ?_, ?_, ?_⟩)⟩
        · have := hs.filter (fun g => decide (g.type = .attributeGroup))
          simpa [hgt, hkt] using this
        · exact (rootAttrs_mem ns g hgt a _).2 ⟨h1, rfl⟩
        · exact (rootAttrs_mem ns k hkt a _).2 ⟨h2, rfl⟩
      · have hgt : g.type = .attributeGroup := by obtain ⟨_, _, _, ⟨h, _⟩, _⟩ := h1; exact h
        obtain ⟨x, y, hs⟩ := (rootAttrs_two ns g hgt a).2 h1
        exact ⟨x, y, (sublist_two_flatMap _ _ _ _).2 (.inr ⟨g, List.mem_filter.2 ⟨hg, by simpa using hgt⟩, hs⟩)⟩
  · rintro ids ⟨rfl, _⟩ x
    simp only [mvals, List.mem_map, List.mem_filter, List.mem_flatMap, decide_eq_true_eq]
    constructor
    · rintro ⟨⟨k, v⟩, ⟨⟨g, ⟨hg, hgt⟩, hm⟩, hk⟩, hx⟩
      simp only at hk hx; subst hk; subst hx
      exact ⟨g, hg, (rootAttrs_mem ns g hgt _ _).1 hm⟩
    · rintro ⟨g, hg, hd, rfl⟩
      have hgt : g.type = .attributeGroup := by obtain ⟨_, _, h, _⟩ := hd; exact h
      exact ⟨(a, g.id), ⟨⟨g, ⟨hg, hgt⟩, (rootAttrs_mem ns g hgt _ _).2 ⟨hd, rfl⟩⟩, rfl⟩, rfl⟩

/-! ### Ids in the v2 schema -/

/-- `s` is `id` without the prefix `p`, if it has it. -/
def Stripped (p id s : String) : Prop := id = p ++ s ∨ (∀ t, id ≠ p ++ t) ∧ s = id

/-- `g` refines a group of its own type. -/
def RefinesSame (g : Grp) : Prop := ∃ l, g.lineage = some l ∧ l.extendsType = some g.type

/-- The name a group takes among the signals of its type in the v2 schema: spans and attribute groups are named by
their id; refinements of entities, events and metrics too; an event is named by its name, a metric by its metric name,
an entity by its name or else its id. Ids lose the prefix that repeats the type. -/
inductive V2Name (g : Grp) : String → Prop
  | span (s) : g.type = .span → Stripped "span." g.id s → V2Name g s
  | attributeGroup (s) : g.type = .attributeGroup → Stripped "attribute_group." g.id s → V2Name g s
  | entityRefinement (s) : g.type = .entity → RefinesSame g → Stripped "entity." g.id s → V2Name g s
  | entityNamed (s) : g.type = .entity → ¬ RefinesSame g → g.name = some s → V2Name g s
  | entityById (s) : g.type = .entity → ¬ RefinesSame g → g.name = none → Stripped "entity." g.id s → V2Name g s
  | eventRefinement (s) : g.type = .event → RefinesSame g → Stripped "event." g.id s → V2Name g s
  | event (s) : g.type = .event → ¬ RefinesSame g → g.name = some s → V2Name g s
  | metricRefinement (s) : g.type = .metric → RefinesSame g → Stripped "metric." g.id s → V2Name g s
  | metric (s) : g.type = .metric → ¬ RefinesSame g → g.metricName = some s → V2Name g s

theorem stripPrefix_spec (p id s : String) : stripPrefix p id = s ↔ Stripped p id s := by
  unfold stripPrefix Stripped
  by_cases h : p.toList.isPrefixOf id.toList = true
  · rw [if_pos h]
    rw [List.isPrefixOf_iff_prefix] at h
    obtain ⟨t, ht⟩ := h
    have hid : id = p ++ String.ofList t := by
      apply String.toList_injective
      rw [String.toList_append, String.toList_ofList, ht]
    rw [← ht, List.drop_left]
    constructor
    · rintro rfl; exact .inl hid
    · rintro (h | ⟨h, _⟩)
      · apply String.toList_injective
        have := congrArg String.toList h
        rw [String.toList_append, ← ht] at this
        rw [String.toList_ofList]; exact List.append_cancel_left this
      · exact absurd hid (h _)
  · rw [if_neg h]
    have hno : ∀ t, id ≠ p ++ t := by
      intro t ht
      apply h
      rw [List.isPrefixOf_iff_prefix, ht, String.toList_append]
      exact List.prefix_append _ _
    constructor
    · rintro rfl; exact .inr ⟨hno, rfl⟩
    · rintro (h' | ⟨_, h'⟩)
      · exact absurd h' (hno _)
      · exact h'.symm

theorem isRefinementOf_iff (g : Grp) : isRefinementOf g = true ↔ RefinesSame g := by
  unfold isRefinementOf RefinesSame
  cases g.lineage with
  | none => simp
  | some l => simp

/-- C12, C13: the name a group takes in the v2 schema is the one described by `V2Name`. -/
theorem v2_name (g : Grp) (s : String) : v2NamespaceId g = some s ↔ V2Name g s := by
  have hs : ∀ p, some (fixGroupId p g.id) = some s ↔ Stripped p g.id s := by
    intro p; rw [Option.some.injEq]; exact stripPrefix_spec p g.id s
  unfold v2NamespaceId
  dsimp only
  constructor
  · intro h
    cases ht : g.type <;> rw [ht] at h <;> simp only at h
    · exact .attributeGroup s ht ((hs _).1 h)
    · exact .span s ht ((hs _).1 h)
    · by_cases hr : isRefinementOf g = true
      · rw [if_pos hr] at h; exact .eventRefinement s ht ((isRefinementOf_iff g).1 hr) ((hs _).1 h)
      · rw [if_neg hr] at h; exact .event s ht (fun h => hr ((isRefinementOf_iff g).2 h)) h
    · by_cases hr : isRefinementOf g = true
      · rw [if_pos hr] at h; exact .metricRefinement s ht ((isRefinementOf_iff g).1 hr) ((hs _).1 h)
      · rw [if_neg hr] at h; exact .metric s ht (fun h => hr ((isRefinementOf_iff g).2 h)) h
    · cases h
    · by_cases hr : isRefinementOf g = true
      · rw [if_pos hr] at h; exact .entityRefinement s ht ((isRefinementOf_iff g).1 hr) ((hs _).1 h)
      · rw [if_neg hr] at h
        have hr' : ¬ RefinesSame g := fun h => hr ((isRefinementOf_iff g).2 h)
        unfold entityTypeOf at h
        cases hn : g.name with
        | none => rw [hn] at h; exact .entityById s ht hr' hn ((hs _).1 h)
        | some n => rw [hn] at h; exact .entityNamed s ht hr' (by rw [hn]; exact h)
    · cases h
    · cases h
  · intro h
    cases h with
    | span ht h => rw [ht]; exact (hs _).2 h
    | attributeGroup ht h => rw [ht]; exact (hs _).2 h
    | entityRefinement ht hr h => rw [ht]; simp only; rw [if_pos ((isRefinementOf_iff g).2 hr)]; exact (hs _).2 h
    | entityNamed ht hr h =>
      rw [ht]; simp only; rw [if_neg (fun h => hr ((isRefinementOf_iff g).1 h))]; simp [entityTypeOf, h]
    | entityById ht hr hn h =>
      rw [ht]; simp only; rw [if_neg (fun h => hr ((isRefinementOf_iff g).1 h))]
      simp only [entityTypeOf, hn]; exact (hs _).2 h
    | eventRefinement ht hr h => rw [ht]; simp only; rw [if_pos ((isRefinementOf_iff g).2 hr)]; exact (hs _).2 h
    | event ht hr h => rw [ht]; simp only; rw [if_neg (fun h => hr ((isRefinementOf_iff g).1 h))]; exact h
    | metricRefinement ht hr h => rw [ht]; simp only; rw [if_pos ((isRefinementOf_iff g).2 hr)]; exact (hs _).2 h
    | metric ht hr h => rw [ht]; simp only; rw [if_neg (fun h => hr ((isRefinementOf_iff g).1 h))]; exact h

theorem typeText_inj (a b : GroupType) (h : typeText a = typeText b) : a = b := by
  cases a <;> cases b <;> first | rfl | exact absurd h (by decide)

/-- The pairs recorded by the collision check. -/
def collPair (g : Grp) : Option ((String × String) × Grp) :=
  match v2NamespaceId g with
  | some s => some ((typeText g.type, s), g)
  | none => none

theorem mem_mvals_coll (gs : List Grp) (t : GroupType) (s : String) (g : Grp) :
    g ∈ mvals (typeText t, s) (gs.filterMap collPair) ↔ g ∈ gs ∧ g.type = t ∧ V2Name g s := by
  simp only [mvals, List.mem_map, List.mem_filter, List.mem_filterMap, decide_eq_true_eq]
  constructor
  · rintro ⟨⟨k, v⟩, ⟨⟨h, hm, hp⟩, hk⟩, rfl⟩
    unfold collPair at hp
    cases hv : v2NamespaceId h with
    | none => rw [hv] at hp; cases hp
    | some s' =>
      rw [hv] at hp
      simp only [Option.some.injEq, Prod.mk.injEq] at hp hk
      obtain ⟨rfl, rfl⟩ := hp
      simp only [Prod.mk.injEq] at hk
      obtain ⟨h1, rfl⟩ := hk
      exact ⟨hm, typeText_inj _ _ h1, (v2_name _ _).1 hv⟩
  · rintro ⟨hm, rfl, hv⟩
    exact ⟨_, ⟨⟨g, hm, by unfold collPair; rw [(v2_name _ _).2 hv]⟩, rfl⟩, rfl⟩

theorem typeText_of_coll (gs : List Grp) (k : String × String) (vs : List Grp)
    (h : (k, vs) ∈ mgroup (gs.filterMap collPair)) : ∃ t, k.1 = typeText t := by
  obtain ⟨h1, h2⟩ := ((mgroup_spec _).2 k vs).1 h
  cases vs with
  | nil => exact absurd rfl h2
  | cons g vs =>
    have hg : g ∈ mvals k (gs.filterMap collPair) := by rw [← h1]; simp
    simp only [mvals, List.mem_map, List.mem_filter, List.mem_filterMap, decide_eq_true_eq] at hg
    obtain ⟨⟨k', v⟩, ⟨⟨h, hm, hp⟩, hk⟩, _⟩ := hg
    unfold collPair at hp
    cases hv : v2NamespaceId h with
    | none => rw [hv] at hp; cases hp
    | some s' =>
      rw [hv] at hp
      simp only [Option.some.injEq, Prod.mk.injEq] at hp hk
      exact ⟨h.type, by rw [← hk, ← hp.1]⟩

theorem two_distinct_iff (ids : List String) : ¬ (uniq ids).length < 2 ↔ ∃ a b, a ∈ ids ∧ b ∈ ids ∧ a ≠ b := by
  obtain ⟨hn, hm⟩ := uniq_spec ids
  constructor
  · intro h
    match hu : uniq ids with
    | [] => rw [hu] at h; simp at h
    | [_] => rw [hu] at h; simp at h
    | a :: b :: t =>
      rw [hu] at hn
      simp only [List.nodup_cons, List.mem_cons, not_or] at hn
      exact ⟨a, b, (hm a).1 (by rw [hu]; simp), (hm b).1 (by rw [hu]; simp), hn.1.1⟩
  · rintro ⟨a, b, ha, hb, hab⟩ h
    rw [← hm] at ha hb
    match hu : uniq ids with
    | [] => rw [hu] at ha; simp at ha
    | [x] => rw [hu] at ha hb; simp at ha hb; exact hab (ha.trans hb.symm)
    | _ :: _ :: _ => rw [hu] at h; simp at h; omega

/-- C12: two groups of one type with different ids that take the same name in the v2 schema are always reported, with
the ids of all groups that take it and their files; and nothing else is reported as such. -/
theorem colliding_v2_names (gs : List Grp) (ns : List String) (s : String) :
    ((∃ ids ps, .collidingV2SignalId s ids ps ∈ allChecks gs ns) ↔
      ∃ g ∈ gs, ∃ h ∈ gs, g.type = h.type ∧ V2Name g s ∧ V2Name h s ∧ g.id ≠ h.id) ∧
    ∀ ids ps, .collidingV2SignalId s ids ps ∈ allChecks gs ns → ∃ t,
      ids.Nodup ∧ (∀ x, x ∈ ids ↔ ∃ g ∈ gs, g.type = t ∧ V2Name g s ∧ g.id = x) ∧
      SourcesOf gs (fun g => g.type = t ∧ V2Name g s) ps := by
  have h1 : ∀ ids ps, CheckErr.collidingV2SignalId s ids ps ∈ allChecks gs ns ↔
      ∃ t, ids = uniq ((mvals (typeText t, s) (gs.filterMap collPair)).map (·.id)) ∧
        ps = uniq ((mvals (typeText t, s) (gs.filterMap collPair)).filterMap (·.provenance)) ∧ ¬ ids.length < 2 := by
    intro ids ps
    have : CheckErr.collidingV2SignalId s ids ps ∈ allChecks gs ns ↔
        CheckErr.collidingV2SignalId s ids ps ∈ checkCollisions gs := by
      simp only [allChecks, List.mem_append]
      constructor
      · rintro ((((h | h) | h) | h) | h)
        · rw [checkUniqueness_mem] at h; obtain ⟨k, h, _⟩ := h; cases h
        · rw [checkUniqueness_mem] at h; obtain ⟨k, h, _⟩ := h; cases h
        · rw [checkUniqueness_mem] at h; obtain ⟨k, h, _⟩ := h; cases h
        · obtain ⟨_, _, h⟩ := checkRootAttrs_kind _ _ _ h; cases h
        · exact h
      · intro h; exact .inr h
    rw [this]
    show _ ∈ (sortBy keyLe (mgroup (gs.filterMap collPair))).filterMap _ ↔ _
    rw [List.mem_filterMap]
    constructor
    · rintro ⟨⟨⟨k1, k2⟩, vs⟩, hm, h⟩
      rw [mem_sortBy] at hm
      obtain ⟨t, ht⟩ := typeText_of_coll gs _ _ hm
      simp only at ht; subst ht
      simp only at h
      split at h
      · cases h
      · rename_i hlt
        simp only [Option.some.injEq, CheckErr.collidingV2SignalId.injEq] at h
        obtain ⟨rfl, rfl, rfl⟩ := h
        have := ((mgroup_spec _).2 _ _).1 hm
        exact ⟨t, by rw [← this.1], by rw [← this.1], hlt⟩
    · rintro ⟨t, rfl, rfl, hlt⟩
      refine ⟨((typeText t, s), mvals (typeText t, s) (gs.filterMap collPair)), ?_, ?_⟩
      · rw [mem_sortBy]
        refine ((mgroup_spec _).2 _ _).2 ⟨rfl, ?_⟩
        intro h; rw [h] at hlt; exact hlt (by simp [uniq])
      · simp only [hlt, if_false]
  refine ⟨⟨?_, ?_⟩, ?_⟩
  · rintro ⟨ids, ps, h⟩
    obtain ⟨t, rfl, _, hlt⟩ := (h1 _ _).1 h
    obtain ⟨a, b, ha, hb, hab⟩ := (two_distinct_iff _).1 hlt
    simp only [List.mem_map] at ha hb
    obtain ⟨g, hg, rfl⟩ := ha
    obtain ⟨k, hk, rfl⟩ := hb
    rw [mem_mvals_coll] at hg hk
    exact ⟨g, hg.1, k, hk.1, hg.2.1.trans hk.2.1.symm, hg.2.2, hk.2.2, hab⟩
  · rintro ⟨g, hg, k, hk, ht, hgs, hks, hne⟩
    refine ⟨_, _, (h1 _ _).2 ⟨g.type, rfl, rfl, ?_⟩⟩
    rw [two_distinct_iff]
    exact ⟨g.id, k.id, List.mem_map.2 ⟨g, (mem_mvals_coll _ _ _ _).2 ⟨hg, rfl, hgs⟩, rfl⟩,
      List.mem_map.2 ⟨k, (mem_mvals_coll _ _ _ _).2 ⟨hk, ht.symm, hks⟩, rfl⟩, hne⟩
  · intro ids ps h
    obtain ⟨t, rfl, rfl, _⟩ := (h1 _ _).1 h
    refine ⟨t, (uniq_spec _).1, ?_, (uniq_spec _).1, ?_⟩
    · intro x
      rw [(uniq_spec _).2]
      simp only [List.mem_map, mem_mvals_coll, and_assoc]
    · intro x
      rw [(uniq_spec _).2]
      simp only [List.mem_filterMap, mem_mvals_coll, and_assoc]

/-! ### Before publication -/

theorem two_perm (l l' : List Grp) (hp : l.Perm l') (p : Grp → Prop) : Two l p ↔ Two l' p := by
  have key : ∀ l, Two l p ↔ 1 < (l.filter (fun g => @decide (p g) (Classical.propDecidable _))).length := by
    intro l; rw [two_filter]; unfold Two; simp only [decide_eq_true_eq]
  rw [key, key, (hp.filter _).length_eq]

theorem two_filter_iff (l : List Grp) (q : Grp → Bool) (p : Grp → Prop) :
    Two (l.filter q) p ↔ Two l (fun g => p g ∧ q g = true) := by
  constructor
  · rintro ⟨g, h, hs, hg, hh⟩
    exact ⟨g, h, hs.trans List.filter_sublist, ⟨hg, (List.mem_filter.1 (hs.mem (a := g) (by simp))).2⟩,
      hh, (List.mem_filter.1 (hs.mem (a := h) (by simp))).2⟩
  · rintro ⟨g, h, hs, ⟨hg, hq⟩, hh, hq'⟩
    refine ⟨g, h, ?_, hg, hh⟩
    have := hs.filter q
    simpa [hq, hq'] using this

/-- C12 for the whole resolution: among all groups of the registry, a duplicate id is reported exactly when two groups
that are not internal have it. For internal groups see C141 (`internal_duplicates_unreported_refuted`). -/
theorem dup_group_id_published (gs : List Grp) (ns : List String) (id : String) :
    (∃ ps, .duplicateGroupId id ps ∈ allChecks (published gs) ns) ↔
      Two gs (fun g => (g.id = id ∧ HasSource g) ∧ g.visibility ≠ some .internalVis) := by
  rw [(dup_group_id _ ns id).1]
  unfold published
  rw [two_filter_iff, two_perm _ _ (sortBy_perm _ gs)]
  simp only [Bool.not_eq_true', decide_eq_false_iff_not, ne_eq]

/-- C141, refuted: two internal groups with the same id from different files are not reported. -/
theorem internal_duplicates_unreported_refuted : ∃ (gs : List Grp) (id : String),
    Two gs (fun g => g.id = id ∧ HasSource g) ∧ ∀ ns, allChecks (published gs) ns = [] := by
  refine ⟨[{ id := "attribute_group.a", type := .attributeGroup, lineage := some { provenance := "a.yaml" },
             isV2 := true, visibility := some .internalVis },
           { id := "attribute_group.a", type := .attributeGroup, lineage := some { provenance := "b.yaml" },
             isV2 := true, visibility := some .internalVis }], "attribute_group.a", ?_, ?_⟩
  · exact ⟨_, _, List.Sublist.refl _, ⟨rfl, _, rfl⟩, rfl, _, rfl⟩
  · intro ns; rfl

/-! ### Concrete cases -/

private def g1 : Grp := { id := "metric.a", type := .metric, metricName := some "a", lineage := some { provenance := "1" } }
private def g2 : Grp := { id := "metric.a", type := .metric, metricName := some "a", lineage := some { provenance := "2" } }
private def g3 : Grp := { id := "entity.host", type := .entity, name := some "host", lineage := some { provenance := "1" } }
private def g4 : Grp := { id := "host", type := .entity, lineage := some { provenance := "1" } }
private def g5 : Grp := { id := "r.a", type := .attributeGroup, lineage := some { provenance := "1" }, attributes := [0] }
private def g6 : Grp := { id := "r.b", type := .attributeGroup, lineage := some { provenance := "1", attrs := ["y"] }, attributes := [0, 1] }

example : allChecks [g1, g2, g3, g4, g5, g6] ["x", "y"] =
    [.duplicateGroupId "metric.a" ["1", "2"], .duplicateMetricName "a" ["1", "2"],
     .duplicateAttributeId "x" ["r.a", "r.b"], .collidingV2SignalId "host" ["entity.host", "host"] ["1"]] := by decide

example : V2Name g3 "host" ∧ V2Name g4 "host" :=
  ⟨.entityNamed _ rfl (by rintro ⟨l, h, h'⟩; cases h; cases h') rfl,
   .entityById _ rfl (by rintro ⟨l, h, h'⟩; cases h; cases h') rfl
     ((stripPrefix_spec _ _ _).1 (by decide))⟩

end Verif.Checks
