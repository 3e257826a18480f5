import Verif.Jq.Model
/-
C243-C247: what the functions of the jq library give.
-/
namespace Verif.Jq
open Verif.Util

/-! ### Specification -/

/-- The values that `experimental` stands for. -/
def experimental : List (Option String) :=
  [some "experimental", some "development", some "alpha", some "beta", some "release_candidate", some "", none]

/-- A stability is listed, by itself or as experimental. -/
def listed (ex : List (Option String)) (st : Option String) : Bool :=
  ex.contains st || (ex.contains (some "experimental") && experimental.contains st)

/-- What the documentation of the options says should be kept. -/
def wanted (o : Options) (c : Common) : Bool :=
  (!o.stableOnly || c.stability == some "stable") && o.excludeStability.all (fun ex => !listed ex c.stability) &&
  (o.ignoreAnnotations == some true || c.exclude != some true) && (!o.excludeDeprecated || !c.deprecated)

/-- The same, but `ignore_code_generation_annotations` may have any value. -/
def kept (o : Options) (c : Common) : Bool :=
  (!o.stableOnly || c.stability == some "stable") && o.excludeStability.all (fun ex => !listed ex c.stability) &&
  (o.ignoreAnnotations.isSome || c.exclude != some true) && (!o.excludeDeprecated || !c.deprecated)

theorem kept_wanted {o : Options} (h : o.ignoreAnnotations ≠ some false) : kept o = wanted o := by
  funext c
  unfold kept wanted
  cases hi : o.ignoreAnnotations with
  | none => rfl
  | some b => cases b with
    | false => exact absurd hi h
    | true => rfl

/-! ### Filters -/

/-- Views behave as fields do. -/
structure View.Lawful {α : Type} (v : View α) : Prop where
  common : ∀ f a, v.common (v.mapMembers f a) = v.common a
  comp : ∀ f g a, v.mapMembers g (v.mapMembers f a) = v.mapMembers (g ∘ f) a
  ident : ∀ f a, (∀ l, f l = l) → v.mapMembers f a = a

theorem attrView_lawful : attrView.Lawful where
  common _ _ := rfl
  comp f g a := by simp [attrView, Option.map_map]
  ident f a h := by
    have : f = id := funext h
    simp [attrView, this]

theorem sigView_lawful : sigView.Lawful where
  common _ _ := rfl
  comp _ _ _ := rfl
  ident _ _ _ := rfl

variable {α : Type} {v : View α}

theorem selectBoth_comp (hv : v.Lawful) (p q : Common → Bool) (l : List α) :
    selectBoth v q (selectBoth v p l) = selectBoth v (fun c => p c && q c) l := by
  unfold selectBoth
  rw [List.filter_map, List.map_map, List.filter_filter]
  congr 1
  · funext a
    show v.mapMembers _ (v.mapMembers _ a) = _
    rw [hv.comp]
    congr 1
    funext ms
    show List.filter _ (List.filter _ ms) = _
    rw [List.filter_filter]
    congr 1
    funext m
    exact Bool.and_comm _ _
  · congr 1
    funext a
    simp only [Function.comp, hv.common]
    exact Bool.and_comm _ _

theorem filter_all {β : Type} (l : List β) : l.filter (fun _ => true) = l := List.filter_eq_self.2 fun _ _ => rfl

theorem selectBoth_true (hv : v.Lawful) (l : List α) : selectBoth v (fun _ => true) l = l := by
  unfold selectBoth
  rw [filter_all]
  conv => rhs; rw [← List.map_id l]
  congr 1
  funext a
  exact hv.ident _ a (fun l => filter_all l)

theorem expand_contains (ex : List (Option String)) (st : Option String) :
    (expandStability ex).contains st = listed ex st := by
  unfold expandStability listed experimental
  split
  · rename_i h
    have hc : ex.contains (some "experimental") = true := List.contains_iff_mem.2 h
    rw [hc, Bool.true_and]
    by_cases hs : st = some "experimental"
    · subst hs
      simp [h]
    · simp [List.contains_eq_mem, List.mem_append, hs]
  · rename_i h
    have hc : ex.contains (some "experimental") = false := by
      cases hb : ex.contains (some "experimental") with
      | false => rfl
      | true => exact absurd (List.contains_iff_mem.1 hb) h
    rw [hc]; simp

/-- The filters one after the other select by all conditions at once, with the members of enums by the same conditions. -/
theorem filters_eq (hv : v.Lawful) (o : Options) (l : List α) : filters v o l = selectBoth v (kept o) l := by
  have h1 : stabilityFilter v o l = selectBoth v (fun c => (!o.stableOnly || c.stability == some "stable") &&
      o.excludeStability.all (fun ex => !listed ex c.stability)) l := by
    unfold stabilityFilter
    have e : ∀ ex, (fun c : Common => !(expandStability ex).contains c.stability) = fun c => !listed ex c.stability :=
      fun ex => funext fun c => by rw [expand_contains]
    cases o.stableOnly <;> cases o.excludeStability <;>
      simp only [e, selectBoth_comp hv, selectBoth_true hv, Option.all_none, Option.all_some, Bool.not_true, Bool.not_false,
        Bool.true_or, Bool.false_or, Bool.and_true, Bool.true_and, if_true, if_false, Bool.false_eq_true]
  have h2 : ∀ l : List α, annotationFilter v o l =
      selectBoth v (fun c => o.ignoreAnnotations.isSome || c.exclude != some true) l := by
    intro l
    unfold annotationFilter
    split
    · rename_i h; simp only [h, Bool.true_or, selectBoth_true hv]
    · rename_i h
      have h : o.ignoreAnnotations.isSome = false := by simpa using h
      simp only [h, Bool.false_or]
      congr 1
      funext c
      cases c.exclude with
      | none => rfl
      | some b => cases b <;> rfl
  have h3 : ∀ l : List α, deprecatedFilter v o l = selectBoth v (fun c => !o.excludeDeprecated || !c.deprecated) l := by
    intro l
    unfold deprecatedFilter
    cases o.excludeDeprecated <;> simp [selectBoth_true hv]
  unfold filters
  rw [h3, h2, h1, selectBoth_comp hv, selectBoth_comp hv]
  unfold kept
  simp only [Bool.and_assoc]

/-! ### Sorting and grouping -/

theorem strLe_total {β : Type} (key : β → String) : TotalPre (strLe key) where
  total a b := by simp only [strLe, decide_eq_true_eq]; exact String.le_total _ _
  trans a b c := by simp only [strLe, decide_eq_true_eq]; exact String.le_trans

theorem optLe_total {β : Type} (key : β → Option String) : TotalPre (optLe key) where
  total a b := by
    unfold optLe
    cases key a <;> cases key b <;> simp
    exact String.le_total _ _
  trans a b c := by
    unfold optLe
    cases key a <;> cases key b <;> cases key c <;> simp
    exact String.le_trans

theorem str_lt_or_eq {a b : String} (h : a ≤ b) : a < b ∨ a = b := by
  by_cases hl : a < b
  · exact .inl hl
  · exact .inr (String.le_antisymm h (String.not_lt.1 hl))

theorem str_le_of_lt {a b : String} (h : a < b) : a ≤ b := by
  rcases String.le_total a b with h' | h'
  · exact h'
  · exact absurd h (String.not_lt.2 h')

theorem str_lt_of_lt_of_le {a b c : String} (h : a < b) (h' : b ≤ c) : a < c := by
  rcases str_lt_or_eq (String.le_trans (str_le_of_lt h) h') with h2 | h2
  · exact h2
  · subst h2
    exact absurd h (String.not_lt.2 h')

theorem rootNameLe_iff (a b : Attr) : rootNameLe a b = true ↔ a.root < b.root ∨ (a.root = b.root ∧ a.name ≤ b.name) := by
  simp [rootNameLe]

theorem rootNameLe_total : TotalPre rootNameLe where
  total a b := by
    rw [rootNameLe_iff, rootNameLe_iff]
    rcases String.le_total a.root b.root with h | h
    · rcases str_lt_or_eq h with h | h
      · exact .inl (.inl h)
      · rcases String.le_total a.name b.name with h' | h'
        · exact .inl (.inr ⟨h, h'⟩)
        · exact .inr (.inr ⟨h.symm, h'⟩)
    · rcases str_lt_or_eq h with h | h
      · exact .inr (.inl h)
      · rcases String.le_total a.name b.name with h' | h'
        · exact .inl (.inr ⟨h.symm, h'⟩)
        · exact .inr (.inr ⟨h, h'⟩)
  trans a b c := by
    rw [rootNameLe_iff, rootNameLe_iff, rootNameLe_iff]
    rintro (h1 | ⟨h1, h1'⟩) (h2 | ⟨h2, h2'⟩)
    · exact .inl (str_lt_of_lt_of_le h1 (str_le_of_lt h2))
    · exact .inl (by rw [← h2]; exact h1)
    · exact .inl (by rw [h1]; exact h2)
    · exact .inr ⟨h1.trans h2, String.le_trans h1' h2'⟩

theorem chunk_flat {β : Type} (key : β → String) (l : List β) : (chunk key l).flatMap (·.2) = l := by
  induction l with
  | nil => rfl
  | cons a l ih =>
    unfold chunk
    split
    · rename_i h
      rw [h] at ih
      rw [← ih]; rfl
    · rename_i k g r h
      rw [h] at ih
      split <;> rw [← ih] <;> simp

theorem chunk_key {β : Type} (key : β → String) (l : List β) :
    ∀ g ∈ chunk key l, g.2 ≠ [] ∧ ∀ a ∈ g.2, key a = g.1 := by
  induction l with
  | nil => exact nofun
  | cons a l ih =>
    unfold chunk
    split
    · intro g hg
      rw [List.mem_singleton.1 hg]
      exact ⟨List.cons_ne_nil _ _, fun x hx => by rw [List.mem_singleton.1 hx]⟩
    · rename_i k g r h
      rw [h] at ih
      split
      · rename_i hk
        intro x hx
        rcases List.mem_cons.1 hx with rfl | hx
        · refine ⟨List.cons_ne_nil _ _, fun y hy => ?_⟩
          rcases List.mem_cons.1 hy with rfl | hy
          · exact hk
          · exact (ih (k, g) List.mem_cons_self).2 y hy
        · exact ih x (List.mem_cons_of_mem _ hx)
      · intro x hx
        rcases List.mem_cons.1 hx with rfl | hx
        · exact ⟨List.cons_ne_nil _ _, fun x hx => by rw [List.mem_singleton.1 hx]⟩
        · exact ih x hx

theorem chunk_sorted {β : Type} (key : β → String) (l : List β) (h : Sorted (strLe key) l) :
    (chunk key l).Pairwise fun g g' => g.1 < g'.1 := by
  induction l with
  | nil => exact .nil
  | cons a l ih =>
    obtain ⟨h1, h2⟩ := List.pairwise_cons.1 h
    have ih := ih h2
    unfold chunk
    split
    · exact List.pairwise_singleton _ _
    · rename_i k g r hc
      rw [hc] at ih
      have hk : key a ≤ k := by
        obtain ⟨hne, hkey⟩ := chunk_key key l (k, g) (by rw [hc]; exact List.mem_cons_self)
        obtain ⟨b, hb⟩ := List.exists_mem_of_ne_nil _ hne
        have hb' : b ∈ l := by
          rw [← chunk_flat key l, hc]
          exact List.mem_flatMap.2 ⟨(k, g), List.mem_cons_self, hb⟩
        have := h1 b hb'
        rw [strLe, decide_eq_true_eq, hkey b hb] at this
        exact this
      obtain ⟨h3, h4⟩ := List.pairwise_cons.1 ih
      split
      · rename_i he
        exact List.pairwise_cons.2 ⟨h3, h4⟩
      · rename_i he
        have hlt := (str_lt_or_eq hk).resolve_right he
        refine List.pairwise_cons.2 ⟨?_, ih⟩
        intro x hx
        rcases List.mem_cons.1 hx with rfl | hx
        · exact hlt
        · exact str_lt_of_lt_of_le hlt (str_le_of_lt (h3 x hx))

/-- What grouping by root namespace and sorting the groups gives: one group for each root namespace, in order of the namespaces,
with exactly the elements of the namespace, sorted. -/
structure Groups {β : Type} (key : β → String) (le : β → β → Bool) (l : List β) (gs : List (String × List β)) : Prop where
  ascending : gs.Pairwise fun g g' => g.1 < g'.1
  exact : ∀ k g, (k, g) ∈ gs → g ≠ [] ∧ g.Perm (l.filter fun a => key a == k)
  sorted : ∀ g ∈ gs, Sorted le g.2
  all : ∀ a ∈ l, ∃ g, (key a, g) ∈ gs ∧ a ∈ g

theorem mem_group_filter {β : Type} {key : β → String} {gs : List (String × List β)}
    (ha : gs.Pairwise fun g g' => g.1 < g'.1) (hk : ∀ g ∈ gs, ∀ a ∈ g.2, key a = g.1) {k : String} {g : List β}
    (hg : (k, g) ∈ gs) : (gs.flatMap (·.2)).filter (fun a => key a == k) = g := by
  induction gs with
  | nil => cases hg
  | cons x gs ih =>
    obtain ⟨h1, h2⟩ := List.pairwise_cons.1 ha
    rw [List.flatMap_cons, List.filter_append]
    rcases List.mem_cons.1 hg with rfl | hg
    · have e1 : g.filter (fun a => key a == k) = g := by
        rw [List.filter_eq_self]
        intro a hm
        have := hk (k, g) List.mem_cons_self a hm
        simp [this]
      have e2 : (gs.flatMap (·.2)).filter (fun a => key a == k) = [] := by
        rw [List.filter_eq_nil_iff]
        intro a hm
        obtain ⟨y, hy, hay⟩ := List.mem_flatMap.1 hm
        have := hk y (List.mem_cons_of_mem _ hy) a hay
        have hlt : k < y.1 := h1 y hy
        simp only [this, beq_iff_eq]
        intro e
        rw [e] at hlt
        exact absurd hlt (String.not_lt.2 (String.le_refl _))
      rw [e1, e2, List.append_nil]
    · have e1 : x.2.filter (fun a => key a == k) = [] := by
        rw [List.filter_eq_nil_iff]
        intro a hm
        have := hk x List.mem_cons_self a hm
        have hlt : x.1 < k := h1 (k, g) hg
        simp only [this, beq_iff_eq]
        intro e
        rw [e] at hlt
        exact absurd hlt (String.not_lt.2 (String.le_refl _))
      rw [e1, List.nil_append]
      exact ih h2 (fun g hg => hk g (List.mem_cons_of_mem _ hg)) hg

theorem grouped_spec {β : Type} (key : β → String) {le : β → β → Bool} (hle : TotalPre le) (l : List β) :
    Groups key le l ((groupBy key l).map fun g => (g.1, sortBy le g.2)) := by
  have hs := chunk_sorted key _ (sortBy_sorted (strLe_total key) l)
  have hk := chunk_key key (sortBy (strLe key) l)
  have hf := chunk_flat key (sortBy (strLe key) l)
  refine ⟨?_, ?_, ?_, ?_⟩
  · rw [List.pairwise_map]; exact hs
  · intro k g hg
    obtain ⟨x, hx, e⟩ := List.mem_map.1 hg
    obtain ⟨rfl, rfl⟩ := Prod.mk.inj e
    have hx' : (x.1, x.2) ∈ chunk key (sortBy (strLe key) l) := hx
    constructor
    · intro h0
      have := (sortBy_perm le x.2).length_eq
      rw [h0] at this
      exact (hk x hx).1 (List.length_eq_zero_iff.1 this.symm)
    · refine (sortBy_perm le x.2).trans ?_
      rw [← mem_group_filter hs (fun g hg => (hk g hg).2) hx', hf]
      exact (sortBy_perm (strLe key) l).filter _
  · intro g hg
    obtain ⟨x, -, rfl⟩ := List.mem_map.1 hg
    exact sortBy_sorted hle _
  · intro a ha
    have : a ∈ (chunk key (sortBy (strLe key) l)).flatMap (·.2) := by rw [hf]; exact mem_sortBy.2 ha
    obtain ⟨g, hg, hag⟩ := List.mem_flatMap.1 this
    refine ⟨sortBy le g.2, List.mem_map.2 ⟨g, hg, ?_⟩, mem_sortBy.2 hag⟩
    rw [(hk g hg).2 a hag]

/-! ### C243: attributes -/

/-- The attributes of a registry: in version 1 those of the attribute groups whose id begins with `registry.`. -/
def Reg.attrs : Reg → List Attr
  | .v2 as _ _ _ _ => as
  | .v1 gs => (gs.filter fun g => g.type == "attribute_group" && "registry.".toList.isPrefixOf g.id.toList).flatMap
      fun g => g.attributes.getD []

/-- The option says what version the registry has. -/
def Fits (o : Options) : Reg → Prop
  | .v2 .. => o.v2 = true
  | .v1 _ => o.v2 = false

/-- The root namespace of an attribute. -/
def attrRoot (o : Options) (n : String) : String := if o.v2 then rootV2 n else rootAttrV1 n

/-- An attribute with the members that pass, and with its root namespace. -/
def shownAttr (p : Common → Bool) (root : String → String) (a : Attr) : Attr :=
  { a with members := a.members.map (List.filter fun m => p m.common), root := root a.name }

/-- The namespace is not excluded. -/
def rootWanted (o : Options) (r : String) : Bool := o.excludeRoots.all fun ex => !ex.contains r

theorem rootFilter_eq {β : Type} (root : β → String) (o : Options) (l : List β) :
    rootFilter root o l = l.filter fun a => rootWanted o (root a) := by
  unfold rootFilter rootWanted
  cases o.excludeRoots
  · exact (filter_all l).symm
  · simp

/-- The exact result, for all options. -/
theorem attributes_kept (o : Options) (r : Reg) (h : Fits o r) :
    ∃ l, semconvAttributes o r = some l ∧ Sorted rootNameLe l ∧
      l.Perm ((r.attrs.filter fun a => kept o a.common && rootWanted o (attrRoot o a.name)).map
        (shownAttr (kept o) (attrRoot o))) := by
  have key : ∀ (as : List Attr) (root : String → String),
      (sortBy rootNameLe (rootFilter (·.root) o (filters attrView o (as.map fun a => { a with root := root a.name })))).Perm
        ((as.filter fun a => kept o a.common && rootWanted o (root a.name)).map (shownAttr (kept o) root)) := by
    intro as root
    refine (sortBy_perm _ _).trans ?_
    rw [rootFilter_eq, filters_eq attrView_lawful]
    unfold selectBoth
    have e1 : ((fun a : Attr => kept o (attrView.common a)) ∘ fun a : Attr => { a with root := root a.name })
        = fun a => kept o a.common := rfl
    have e2 : (attrView.mapMembers (List.filter fun m => kept o m.common) ∘ fun a : Attr => { a with root := root a.name })
        = shownAttr (kept o) root := rfl
    have e3 : ((fun a : Attr => rootWanted o a.root) ∘ shownAttr (kept o) root) = fun a => rootWanted o (root a.name) := rfl
    rw [List.filter_map (p := fun a => kept o (attrView.common a)), List.map_map, e1, e2, List.filter_map, e3,
      List.filter_filter]
    refine List.Perm.of_eq ?_
    congr 1
    congr 1
    funext a
    exact Bool.and_comm _ _
  cases r with
  | v2 as ms ss es ens =>
    have h : o.v2 = true := h
    refine ⟨_, by unfold semconvAttributes; simp only [h]; rfl, sortBy_sorted rootNameLe_total _, ?_⟩
    have := key as rootV2
    have hr : attrRoot o = rootV2 := by funext n; unfold attrRoot; rw [h]; rfl
    rw [hr]
    exact this
  | v1 gs =>
    have h : o.v2 = false := h
    refine ⟨_, by unfold semconvAttributes; simp only [h]; rfl, sortBy_sorted rootNameLe_total _, ?_⟩
    have := key (Reg.attrs (.v1 gs)) rootAttrV1
    have hr : attrRoot o = rootAttrV1 := by funext n; unfold attrRoot; rw [h]; rfl
    rw [hr]
    exact this

/-- C243. Unless `ignore_code_generation_annotations` is `false`, the result has exactly the attributes the options ask for, each
as often as the registry has it, with those members of enums the options ask for, in the order of root namespace and name. -/
theorem attributes_exact_partial (o : Options) (r : Reg) (h : Fits o r) (hi : o.ignoreAnnotations ≠ some false) :
    ∃ l, semconvAttributes o r = some l ∧ Sorted rootNameLe l ∧
      l.Perm ((r.attrs.filter fun a => wanted o a.common && rootWanted o (attrRoot o a.name)).map
        (shownAttr (wanted o) (attrRoot o))) := by
  rw [← kept_wanted hi]; exact attributes_kept o r h

/-- C243. An option for the wrong version is an error. -/
theorem attributes_wrong_version (o : Options) (r : Reg) (h : ¬ Fits o r) : semconvAttributes o r = none := by
  cases r with
  | v2 as ms ss es ens =>
    have h : o.v2 = false := by
      cases hb : o.v2 with
      | false => rfl
      | true => exact absurd (show Fits o (.v2 as ms ss es ens) from hb) h
    unfold semconvAttributes; simp only [h]; rfl
  | v1 gs =>
    have h : o.v2 = true := by
      cases hb : o.v2 with
      | true => rfl
      | false => exact absurd (show Fits o (.v1 gs) from hb) h
    unfold semconvAttributes; simp only [h]; rfl

/-- C243. `ignore_code_generation_annotations: false` ignores the annotations. -/
theorem annotations_refuted : ∃ (r : Reg) (a : Attr), a.common.exclude = some true ∧
    (semconvAttributes { v2 := true, ignoreAnnotations := some false } r).map (·.map (·.name)) = some [a.name] ∧
    semconvAttributes { v2 := true } r = some [] :=
  ⟨.v2 [{ name := "a.b", common := { exclude := some true } }] [] [] [] [], { name := "a.b", common := { exclude := some true } },
    rfl, by decide +kernel, by decide +kernel⟩

/-- C243. An enum can lose all its members. -/
theorem members_refuted : ∃ (r : Reg) (o : Options), (∀ a ∈ r.attrs, a.members ≠ some []) ∧
    (semconvAttributes o r).map (·.map (·.members)) = some [some []] := by
  refine ⟨.v2 [⟨"a.b", { stability := some "stable" }, some [⟨"x", { stability := some "development" }⟩], ""⟩] [] [] [] [],
    { v2 := true, stableOnly := true }, ?_, by decide +kernel⟩
  intro a ha
  rw [List.mem_singleton.1 ha]
  decide

/-! ### C244: groups -/

/-- C244. The grouped attributes are the attributes, cut where the root namespace changes: one group for each root namespace, in
the order of the namespaces, each sorted by name. -/
theorem grouped_attributes (o : Options) (r : Reg) {l : List Attr} (h : semconvAttributes o r = some l) :
    ∃ gs, groupedAttributes o r = some gs ∧ Groups (·.root) (strLe (·.name)) l gs ∧ gs.flatMap (·.2) = l := by
  unfold groupedAttributes
  rw [h]
  refine ⟨_, rfl, grouped_spec _ (strLe_total _) l, ?_⟩
  have hsorted : Sorted rootNameLe l := by
    unfold semconvAttributes at h
    obtain ⟨x, -, rfl⟩ := Option.map_eq_some_iff.1 h
    exact sortBy_sorted rootNameLe_total _
  have hroot : sortBy (strLe (·.root)) l = l := by
    refine sortBy_of_sorted (hsorted.imp ?_)
    intro a b hab
    rcases (rootNameLe_iff a b).1 hab with h | ⟨h, -⟩
    · exact decide_eq_true (str_le_of_lt h)
    · exact decide_eq_true (by show a.root ≤ b.root; rw [h]; exact String.le_refl _)
  unfold groupBy
  dsimp only
  rw [hroot]
  have hsame : (chunk (·.root) l).map (fun g => (g.1, sortBy (strLe (·.name)) g.2)) = chunk (·.root) l := by
    conv => rhs; rw [← List.map_id (chunk (·.root) l)]
    refine List.map_congr_left ?_
    intro g hg
    have hsub : g.2.Sublist l := by
      conv => rhs; rw [← chunk_flat (·.root) l]
      rw [List.flatMap_def]
      exact List.sublist_flatten_of_mem (List.mem_map.2 ⟨g, hg, rfl⟩)
    have hk := (chunk_key (·.root) l g hg).2
    have hs : Sorted (strLe (·.name)) g.2 := by
      refine List.Pairwise.imp_of_mem ?_ (hsorted.sublist hsub)
      intro a b ha hb hab
      rcases (rootNameLe_iff a b).1 hab with h | ⟨-, h⟩
      · rw [hk a ha, hk b hb] at h
        exact absurd h (String.not_lt.2 (String.le_refl _))
      · exact decide_eq_true h
    rw [sortBy_of_sorted hs]; rfl
  rw [hsame]
  exact chunk_flat _ l

/-- C244. In a group of attributes there is nothing but attributes of that root namespace, so no two files named after the root
namespaces are the same. -/
theorem group_roots_distinct {β : Type} {key : β → String} {le : β → β → Bool} {l : List β} {gs : List (String × List β)}
    (h : Groups key le l gs) : (gs.map (·.1)).Nodup := by
  rw [List.Nodup, List.pairwise_map]
  refine h.ascending.imp ?_
  intro a b hab e
  rw [e] at hab
  exact absurd hab (String.not_lt.2 (String.le_refl _))

end Verif.Jq
