import Verif.Imports.EntityProps
import Verif.Resolver.DepLookupProps
import Verif.Util.Forall2
/-
C08: which groups imports bring in, which patterns are reported, and what duplicates are dropped.
-/
namespace Verif.Imports
open Verif.Util Verif.Resolver

/-! ## Specification -/

/-- A pattern of one of the blocks names the group: it is listed in the field for groups of that type, and it matches
one of the names the group answers to. -/
def Named (w : World) (bs : List Block) (g : Grp) : Prop :=
  ∃ b ∈ bs, ∃ f, Field.of g.type = some f ∧ ∃ p ∈ b.patterns f, ∃ k, Answers g k ∧ w.glob p k = true

/-- The blocks a person wrote. -/
def Written (bs : List Block) (b : Block) : Prop := b ∈ bs ∧ b.path ≠ "--include-unreferenced"

/-- A pattern that a person wrote names the group. -/
def NamedByAuthor (w : World) (bs : List Block) (g : Grp) : Prop :=
  ∃ b, Written bs b ∧ ∃ f, Field.of g.type = some f ∧ ∃ p ∈ b.patterns f, ∃ k, Answers g k ∧ w.glob p k = true

/-- `Stands w u g g'`: the import of `g` from the dependency at `u` brings in `g'`: the group itself, or the group with
the same type and name of a newer version of the registry that declared it. -/
inductive Stands (w : World) (u : SchemaUrl) (g : Grp) : Grp → Prop
  | itself : Stands w u g g
  | newer (c : SchemaUrl) (s : V1) (g' : Grp) (hc : aget (originUrl g u).name w.chosen = some c)
      (hle : AtLeast c (originUrl g u)) (hne : c ≠ originUrl g u)
      (hs : w.schema c = some (.v1 s)) (hg : g' ∈ s.groups) (hsame : sameImported g g' = true) : Stands w u g g'

/-- Two imported groups are one definition: same declaring registry, same type, same name. -/
def SameDef (a b : Imported) : Prop :=
  originUrl a.group a.url = originUrl b.group b.url ∧ sameImported a.group b.group = true

/-! ## Matching -/

theorem mem_patternsOf (bs : List Block) (f : Field) (p : String) :
    p ∈ patternsOf bs f ↔ ∃ b ∈ bs, p ∈ b.patterns f := by unfold patternsOf; simp

theorem mem_explicit (bs : List Block) (b : Block) : b ∈ explicitBlocks bs ↔ Written bs b := by
  unfold explicitBlocks Block.implicit Written
  simp

theorem blocksMatch_iff (w : World) (bs : List Block) (g : Grp) : blocksMatch w bs g = true ↔ Named w bs g := by
  unfold blocksMatch Named
  cases hf : Field.of g.type with
  | none => simp
  | some f =>
    simp only [List.any_eq_true, fieldMatch, mem_patternsOf]
    constructor
    · rintro ⟨k, hk, p, ⟨b, hb, hp⟩, hm⟩
      exact ⟨b, hb, f, rfl, p, hp, k, (matchKeys_answers g k).1 hk, hm⟩
    · rintro ⟨b, hb, f', hf', p, hp, k, hk, hm⟩
      cases hf'
      exact ⟨k, (matchKeys_answers g k).2 hk, p, ⟨b, hb, hp⟩, hm⟩

theorem explicitMatch_iff (w : World) (bs : List Block) (g : Grp) :
    blocksMatch w (explicitBlocks bs) g = true ↔ NamedByAuthor w bs g := by
  rw [blocksMatch_iff]
  unfold Named NamedByAuthor
  exact exists_congr fun b => and_congr_left fun _ => mem_explicit bs b

theorem upgradeGroup_stands (w : World) (u : SchemaUrl) (g : Grp) : Stands w u g ((upgradeGroup w g u).getD g) := by
  cases h : upgradeGroup w g u with
  | none => exact .itself
  | some g' =>
    rw [Option.getD_some]
    unfold upgradeGroup at h
    dsimp only at h
    split at h
    · cases h
    · rename_i c hc
      split at h
      · cases h
      · rename_i hne
        split at h
        · cases h
        · rename_i win hw
          split at h
          · cases h
          · rename_i hwc
            have hwc : win = c := by simpa using hwc
            split at h
            · rename_i s hs
              have hmem := List.mem_of_find?_eq_some h
              have hsame := List.find?_some h
              refine .newer c s g' hc ?_ hne hs hmem hsame
              rcases resolveVersions_atLeast _ _ _ hw with ⟨h1, _⟩ | ⟨_, h2⟩
              · exact absurd (hwc.symm.trans h1) hne
              · exact h2
            · cases h

/-- Two groups that importing takes for the same definition have the same type and name. -/
theorem sameImported_type (g c : Grp) (h : sameImported g c = true) : g.type = c.type := by
  unfold sameImported at h
  split at h
  · cases h
  · rename_i ht; simpa using ht

/-! ## What a v1 dependency contributes -/

theorem err?_iff (d : Decision) (e : IErr) : d.err? = some e ↔ d = .error e := by
  cases d <;> simp [Decision.err?]

theorem decideV1_spec (w : World) (bs : List Block) (g : Grp) :
    (decideV1 w bs g = .include ↔ isExcludedOpt g.annotations = false) ∧
    ∀ e, decideV1 w bs g = .error e ↔ isExcludedOpt g.annotations = true ∧ NamedByAuthor w bs g ∧
      e = .excluded g.id g.type "imports" := by
  rw [← explicitMatch_iff]
  unfold decideV1 isExcludedOpt decision
  cases g.annotations with
  | none => simp
  | some a =>
    dsimp only
    cases hx : isExcluded a with
    | false => simp
    | true =>
      cases hm : blocksMatch w (explicitBlocks bs) g with
      | false => simp
      | true => simp [eq_comm]

/-- C08. Importing from a v1 dependency fails exactly when the author named a group that the dependency excludes, and
every such group is reported. -/
theorem import_v1_excluded (w : World) (bs : List Block) (s : V1) (u : SchemaUrl) (hu : s.url = some u) (e : IErr) :
    (∃ es, importV1 w bs s = .error es ∧ e ∈ es) ↔
      ∃ g ∈ s.groups, isExcludedOpt g.annotations = true ∧ NamedByAuthor w bs g ∧ e = .excluded g.id g.type "imports" := by
  have hmem : ∀ e, e ∈ ((s.groups.filter (blocksMatch w bs)).filterMap fun g => (decideV1 w bs g).err?) ↔ ∃ g ∈ s.groups, isExcludedOpt g.annotations = true ∧ NamedByAuthor w bs g ∧
        e = .excluded g.id g.type "imports" := by
    intro e
    simp only [List.mem_filterMap, List.mem_filter]
    constructor
    · rintro ⟨g, ⟨hg, _⟩, h⟩
      obtain ⟨h1, h2, h3⟩ := ((decideV1_spec w bs g).2 _).1 ((err?_iff _ _).1 h)
      exact ⟨g, hg, h1, h2, h3⟩
    · rintro ⟨g, hg, h1, h2, h3⟩
      refine ⟨g, ⟨hg, ?_⟩, ?_⟩
      · rw [blocksMatch_iff]
        obtain ⟨b, hb, h⟩ := h2
        exact ⟨b, hb.1, h⟩
      · rw [((decideV1_spec w bs g).2 _).2 ⟨h1, h2, h3⟩]; rfl
  unfold importV1
  rw [hu]
  dsimp only
  rw [← hmem]
  split
  · constructor
    · rintro ⟨es, h, hm⟩; cases h; exact hm
    · intro h; exact ⟨_, rfl, h⟩
  · rename_i hne
    have hne := Classical.not_not.1 hne
    rw [hne]
    constructor
    · rintro ⟨es, h, _⟩; cases h
    · intro h; cases h

/-- C08. What a v1 dependency contributes: the groups that some pattern names and that are not excluded, in the order of
the dependency, each standing for itself or for its newer version. -/
theorem import_v1_selects (w : World) (bs : List Block) (s : V1) (u : SchemaUrl) (hu : s.url = some u)
    (res : List Imported) (h : importV1 w bs s = .ok res) :
    ∃ keep : Grp → Bool, (∀ g, keep g = true ↔ Named w bs g ∧ isExcludedOpt g.annotations = false) ∧
      Forall2 (Stands w u) (s.groups.filter keep) (res.map (·.group)) := by
  unfold importV1 at h
  rw [hu] at h
  dsimp only at h
  split at h
  · cases h
  · cases h
    refine ⟨fun g => decide (decideV1 w bs g = .include) && blocksMatch w bs g, fun g => ?_, ?_⟩
    · rw [Bool.and_eq_true, decide_eq_true_eq, (decideV1_spec w bs g).1, blocksMatch_iff]; exact And.comm
    · rw [List.filter_filter, List.map_map]
      generalize s.groups.filter _ = l
      induction l with
      | nil => exact .nil
      | cons g l ih => exact .cons (upgradeGroup_stands w u g) ih

/-! ## What a v2 dependency contributes -/

/-- A pattern names a published signal by its id. -/
def NamedSig (w : World) (bs : List Block) (f : Field) (x : Sig) : Prop :=
  ∃ b ∈ bs, ∃ p ∈ b.patterns f, w.glob p x.id = true
def NamedSigByAuthor (w : World) (bs : List Block) (f : Field) (x : Sig) : Prop :=
  ∃ b, Written bs b ∧ ∃ p ∈ b.patterns f, w.glob p x.id = true

/-- The signals a v2 dependency publishes, each with the field that imports it and the type of the group it becomes. -/
inductive Publishes (s : V2) : Field → GroupType → Sig → Prop
  | metric (x : Sig) (h : x ∈ s.metrics) : Publishes s .metrics .metric x
  | event (x : Sig) (h : x ∈ s.events) : Publishes s .events .event x
  | entity (x : Sig) (h : x ∈ s.entities) : Publishes s .entities .entity x
  | span (x : Sig) (h : x ∈ s.spans) : Publishes s .spans .span x
  | attributeGroup (x : Sig) (h : x ∈ s.attributeGroups) : Publishes s .attributeGroups .attributeGroup x

/-- The group that a published signal becomes: it keeps its id and annotations, its id is its signal name too, it is
marked as v2, it is associated with the same entity names, and (except for an attribute group) it carries the registry
that declared it. -/
structure Becomes (s : V2) (t : GroupType) (x : Sig) (g : Grp) : Prop where
  id : g.id = x.id
  type : g.type = t
  v2 : g.isV2 = true
  annotations : g.annotations = some x.annotations
  name : ∀ n, SignalName g n ↔ t ≠ .attributeGroup ∧ n = x.id
  origin : ∀ u, g.origin = some u ↔ t ≠ .attributeGroup ∧ DeclaredBy s x.source u
  assocs : t = .metric ∨ t = .event ∨ t = .span → g.assocs = x.assocs.map (·.1)

theorem groupOfSig_becomes (s : V2) (f : Field) (t : GroupType) (x : Sig) (h : Publishes s f t x) :
    Becomes s t x (groupOfSig s t x) := by
  cases h <;>
    exact ⟨rfl, rfl, rfl, rfl, by intro n; simp [SignalName, groupOfSig, eq_comm],
      by intro u; simp [groupOfSig, ← sourceUrl_iff], by simp [groupOfSig]⟩

theorem mem_signals (s : V2) (f : Field) (t : GroupType) (x : Sig) : (f, t, x) ∈ s.signals ↔ Publishes s f t x := by
  unfold V2.signals
  simp only [List.mem_append, List.mem_map, Prod.mk.injEq]
  constructor
  · rintro ((((⟨y, hy, rfl, rfl, rfl⟩ | ⟨y, hy, rfl, rfl, rfl⟩) | ⟨y, hy, rfl, rfl, rfl⟩) | ⟨y, hy, rfl, rfl, rfl⟩) |
      ⟨y, hy, rfl, rfl, rfl⟩)
    · exact .metric _ hy
    · exact .event _ hy
    · exact .entity _ hy
    · exact .span _ hy
    · exact .attributeGroup _ hy
  · intro h
    cases h <;> simp_all

theorem fieldMatch_iff (w : World) (bs : List Block) (f : Field) (x : Sig) :
    fieldMatch w bs f x.id = true ↔ NamedSig w bs f x := by
  simp only [fieldMatch, List.any_eq_true, mem_patternsOf, NamedSig]
  constructor
  · rintro ⟨p, ⟨b, hb, hp⟩, hm⟩; exact ⟨b, hb, p, hp, hm⟩
  · rintro ⟨b, hb, p, hp, hm⟩; exact ⟨p, ⟨b, hb, hp⟩, hm⟩

theorem decideV2_spec (w : World) (bs : List Block) (f : Field) (t : GroupType) (x : Sig) :
    (decideV2 w bs f t x = .include ↔ NamedSig w bs f x ∧ isExcluded x.annotations = false) ∧
    ∀ e, decideV2 w bs f t x = .error e ↔ NamedSigByAuthor w bs f x ∧ isExcluded x.annotations = true ∧
      e = .excluded x.id t "imports" := by
  have hexp : fieldMatch w (explicitBlocks bs) f x.id = true ↔ NamedSigByAuthor w bs f x := by
    rw [fieldMatch_iff]
    exact exists_congr fun b => and_congr_left fun _ => mem_explicit bs b
  have himp : NamedSigByAuthor w bs f x → NamedSig w bs f x := fun ⟨b, hb, h⟩ => ⟨b, hb.1, h⟩
  unfold decideV2 decision
  by_cases hm : fieldMatch w bs f x.id = true
  · rw [if_pos hm]
    have hn := (fieldMatch_iff ..).1 hm
    cases hx : isExcluded x.annotations with
    | false => simp [hn]
    | true =>
      by_cases he : fieldMatch w (explicitBlocks bs) f x.id = true
      · have := hexp.1 he
        rw [he]
        simp [this, eq_comm]
      · have hne : ¬ NamedSigByAuthor w bs f x := fun h => he (hexp.2 h)
        have he : fieldMatch w (explicitBlocks bs) f x.id = false := by simpa using he
        rw [he]
        simp [hne]
  · rw [if_neg hm]
    have hn : ¬ NamedSig w bs f x := fun h => hm ((fieldMatch_iff ..).2 h)
    have hne : ¬ NamedSigByAuthor w bs f x := fun h => hn (himp h)
    simp [hn, hne]

/-- C08. Importing from a v2 dependency fails exactly when the author named a signal that the dependency excludes. -/
theorem import_v2_excluded (w : World) (bs : List Block) (s : V2) (e : IErr) :
    (∃ es, importV2 w bs s = .error es ∧ e ∈ es) ↔
      ∃ f t x, Publishes s f t x ∧ NamedSigByAuthor w bs f x ∧ isExcluded x.annotations = true ∧
        e = .excluded x.id t "imports" := by
  have hmem : ∀ e, e ∈ (s.signals.filterMap fun e => (decideV2 w bs e.1 e.2.1 e.2.2).err?) ↔ ∃ f t x, Publishes s f t x ∧ NamedSigByAuthor w bs f x ∧ isExcluded x.annotations = true ∧
        e = .excluded x.id t "imports" := by
    intro e
    simp only [List.mem_filterMap]
    constructor
    · rintro ⟨⟨f, t, x⟩, hx, h⟩
      exact ⟨f, t, x, (mem_signals ..).1 hx, ((decideV2_spec ..).2 _).1 ((err?_iff _ _).1 h)⟩
    · rintro ⟨f, t, x, hx, h⟩
      refine ⟨(f, t, x), (mem_signals ..).2 hx, ?_⟩
      dsimp only
      rw [((decideV2_spec ..).2 _).2 h]; rfl
  unfold importV2
  dsimp only
  rw [← hmem]
  split
  · constructor
    · rintro ⟨es, h, hm⟩; cases h; exact hm
    · intro h; exact ⟨_, rfl, h⟩
  · rename_i hne
    have hne := Classical.not_not.1 hne
    rw [hne]
    constructor
    · rintro ⟨es, h, _⟩; cases h
    · intro h; cases h

theorem attachOrigins_groups (u : SchemaUrl) (t : List (String × Origins)) (gs : List Grp) :
    (attachOrigins u t gs).map (·.group) = gs := by
  induction gs generalizing t with
  | nil => rfl
  | cons g gs ih => rw [attachOrigins, List.map_cons, ih]

/-- C08. What a v2 dependency contributes: the published signals that some pattern names by id and that are not
excluded, in publication order, each standing for itself or for its newer version. -/
theorem import_v2_selects (w : World) (bs : List Block) (s : V2) (res : List Imported)
    (h : importV2 w bs s = .ok res) :
    ∃ xs : List (Field × GroupType × Sig), xs.Sublist s.signals ∧
      (∀ f t x, (f, t, x) ∈ xs ↔ Publishes s f t x ∧ NamedSig w bs f x ∧ isExcluded x.annotations = false) ∧
      Forall2 (fun e g' => ∃ g, Becomes s e.2.1 e.2.2 g ∧ Stands w s.url g g') xs (res.map (·.group)) := by
  unfold importV2 at h
  dsimp only at h
  split at h
  · cases h
  · cases h
    refine ⟨s.signals.filter fun e => decide (decideV2 w bs e.1 e.2.1 e.2.2 = .include), List.filter_sublist,
      fun f t x => ?_, ?_⟩
    · rw [List.mem_filter, mem_signals]
      dsimp only
      rw [decide_eq_true_eq, (decideV2_spec ..).1]
    · rw [attachOrigins_groups]
      have hl : ∀ e ∈ s.signals.filter (fun e => decide (decideV2 w bs e.1 e.2.1 e.2.2 = .include)),
          Publishes s e.1 e.2.1 e.2.2 := fun e he => (mem_signals ..).1 (List.mem_filter.1 he).1
      generalize s.signals.filter _ = l at *
      induction l with
      | nil => exact .nil
      | cons e l ih =>
        exact .cons ⟨_, groupOfSig_becomes s e.1 _ _ (hl e (List.mem_cons_self ..)), upgradeGroup_stands w s.url _⟩
          (ih (fun x hx => hl x (List.mem_cons_of_mem _ hx)))

/-! ## Duplicates -/

theorem keepFirst_same (k c : Imported) :
    (decide (originUrl k.group k.url = originUrl c.group c.url) && decide (k.group.type = c.group.type)
      && sameImported k.group c.group) = true ↔ SameDef k c := by
  unfold SameDef
  simp only [Bool.and_eq_true, decide_eq_true_eq]
  constructor
  · rintro ⟨⟨h1, _⟩, h3⟩; exact ⟨h1, h3⟩
  · rintro ⟨h1, h3⟩; exact ⟨⟨h1, sameImported_type _ _ h3⟩, h3⟩

theorem keepFirst_fold (cs acc : List Imported) (hp : acc.Pairwise (fun a b => ¬ SameDef a b)) :
    (cs.foldl keepFirst acc).Pairwise (fun a b => ¬ SameDef a b) ∧
    (∃ kept, kept.Sublist cs ∧ cs.foldl keepFirst acc = acc ++ kept) ∧
    (∀ c ∈ cs, ∃ k ∈ cs.foldl keepFirst acc, k = c ∨ SameDef k c) := by
  induction cs generalizing acc with
  | nil => exact ⟨hp, ⟨[], .slnil, by simp⟩, by simp⟩
  | cons c cs ih =>
    rw [List.foldl_cons]
    by_cases hd : ∃ k ∈ acc, SameDef k c
    · have hk : keepFirst acc c = acc := by
        unfold keepFirst
        rw [if_pos]
        rw [List.any_eq_true]
        obtain ⟨k, hk, hs⟩ := hd
        exact ⟨k, hk, (keepFirst_same k c).2 hs⟩
      rw [hk]
      obtain ⟨h1, ⟨kept, h2, h3⟩, h4⟩ := ih acc hp
      refine ⟨h1, ⟨kept, .cons _ h2, h3⟩, fun x hx => ?_⟩
      rcases List.mem_cons.1 hx with rfl | hx
      · obtain ⟨k, hk, hs⟩ := hd
        exact ⟨k, h3 ▸ List.mem_append_left _ hk, .inr hs⟩
      · exact h4 x hx
    · have hk : keepFirst acc c = acc ++ [c] := by
        unfold keepFirst
        rw [if_neg]
        rw [List.any_eq_true]
        rintro ⟨k, hk, hs⟩
        exact hd ⟨k, hk, (keepFirst_same k c).1 hs⟩
      rw [hk]
      obtain ⟨h1, ⟨kept, h2, h3⟩, h4⟩ := ih (acc ++ [c]) (by
        rw [List.pairwise_append]
        refine ⟨hp, by simp, fun a ha b hb hs => ?_⟩
        rw [List.mem_singleton.1 hb] at hs
        exact hd ⟨a, ha, hs⟩)
      refine ⟨h1, ⟨c :: kept, .cons_cons _ h2, by rw [h3]; simp⟩, fun x hx => ?_⟩
      rcases List.mem_cons.1 hx with rfl | hx
      · exact ⟨x, by rw [h3]; simp, .inl rfl⟩
      · exact h4 x hx

theorem importAll_go (w : World) (bs : List Block) (deps : List Dep) (acc res : List Imported)
    (h : importAll.go w bs acc deps = .ok res) :
    ∃ css, Forall2 (fun d cs => importDep w bs d = .ok cs) deps css ∧ res = css.flatten.foldl keepFirst acc := by
  induction deps generalizing acc with
  | nil => cases h; exact ⟨[], .nil, rfl⟩
  | cons d ds ih =>
    unfold importAll.go at h
    split at h
    · cases h
    · rename_i cs hcs
      obtain ⟨css, h1, h2⟩ := ih _ h
      exact ⟨cs :: css, .cons hcs h1, by rw [h2, List.flatten_cons, List.foldl_append]⟩

/-- C08. The imports of all dependencies together: taken in the order of the dependencies, first copies only. No two
groups of the result are the same definition, and every group a dependency contributes is in the result or is the same
definition as one that is. -/
theorem import_all_spec (w : World) (bs : List Block) (deps : List Dep) (res : List Imported)
    (h : importAll w bs deps = .ok res) :
    ∃ css, Forall2 (fun d cs => importDep w bs d = .ok cs) deps css ∧ res.Sublist css.flatten ∧
      res.Pairwise (fun a b => ¬ SameDef a b) ∧ ∀ c ∈ css.flatten, ∃ k ∈ res, k = c ∨ SameDef k c := by
  obtain ⟨css, h1, h2⟩ := importAll_go w bs deps [] res h
  obtain ⟨h3, ⟨kept, h4, h5⟩, h6⟩ := keepFirst_fold css.flatten [] .nil
  rw [← h2] at h3 h5 h6
  refine ⟨css, h1, ?_, h3, h6⟩
  rw [h5]; simpa using h4

/-- C08. Importing fails exactly when one of the dependencies fails. -/
theorem import_all_fails_iff (w : World) (bs : List Block) (deps : List Dep) :
    (∃ es, importAll w bs deps = .error es) ↔ ∃ d ∈ deps, ∃ es, importDep w bs d = .error es := by
  have H : ∀ acc, (∃ es, importAll.go w bs acc deps = .error es) ↔ ∃ d ∈ deps, ∃ es, importDep w bs d = .error es := by
    induction deps with
    | nil => intro acc; simp [importAll.go]
    | cons d ds ih =>
      intro acc
      unfold importAll.go
      cases hd : importDep w bs d with
      | error e =>
        simp only
        exact ⟨fun _ => ⟨d, List.mem_cons_self .., e, hd⟩, fun _ => ⟨e, rfl⟩⟩
      | ok cs =>
        simp only
        rw [ih]
        constructor
        · rintro ⟨d', h1, h2⟩; exact ⟨d', List.mem_cons_of_mem _ h1, h2⟩
        · rintro ⟨d', h1, es, h2⟩
          rcases List.mem_cons.1 h1 with rfl | h1
          · rw [hd] at h2; cases h2
          · exact ⟨d', h1, es, h2⟩
  exact H []

/-! ## Unmatched patterns -/

/-- C08. A pattern is reported exactly when the author wrote it in that field and no imported group of the field answers
to a name it matches. -/
theorem unmatched_iff (w : World) (bs : List Block) (groups : List Grp) (e : IErr) :
    e ∈ unmatchedErrors w bs groups ↔
      ∃ f p, e = .unmatched p f.name ∧ (∃ b, Written bs b ∧ p ∈ b.patterns f) ∧
        ∀ g ∈ groups, Field.of g.type = some f → ∀ k, Answers g k → w.glob p k = false := by
  unfold unmatchedErrors
  rw [List.mem_flatMap]
  have hall : ∀ f : Field, f ∈ Field.all := by intro f; cases f <;> simp [Field.all]
  have hany : ∀ f p, groups.any (fun g => decide (Field.of g.type = some f) && (matchKeys g).any (fun k => w.glob p k))
      = true ↔ ∃ g ∈ groups, Field.of g.type = some f ∧ ∃ k, Answers g k ∧ w.glob p k = true := by
    intro f p
    simp only [List.any_eq_true, Bool.and_eq_true, decide_eq_true_eq, matchKeys_answers]
  constructor
  · rintro ⟨f, _, h⟩
    rw [List.mem_filterMap] at h
    obtain ⟨p, hp, h⟩ := h
    split at h
    · cases h
    · rename_i hn
      cases h
      refine ⟨f, p, rfl, ?_, ?_⟩
      · obtain ⟨b, hb, hp⟩ := (mem_patternsOf ..).1 hp
        exact ⟨b, (mem_explicit ..).1 hb, hp⟩
      · intro g hg hf k hk
        cases hx : w.glob p k with
        | false => rfl
        | true => exact absurd ((hany f p).2 ⟨g, hg, hf, k, hk, hx⟩) hn
  · rintro ⟨f, p, rfl, ⟨b, hb, hp⟩, h⟩
    refine ⟨f, hall f, List.mem_filterMap.2 ⟨p, (mem_patternsOf ..).2 ⟨b, (mem_explicit ..).2 hb, hp⟩, ?_⟩⟩
    rw [if_neg]
    intro hx
    obtain ⟨g, hg, hf, k, hk, hm⟩ := (hany f p).1 hx
    rw [h g hg hf k hk] at hm; cases hm

/-- A group that is available to importers. -/
def Available (deps : List Dep) (g : Grp) : Prop :=
  ∃ s u, .v1 s ∈ deps ∧ s.url = some u ∧ g ∈ s.groups ∧ isExcludedOpt g.annotations = false

/-- C08 (partial): among v1 dependencies without version upgrades, where groups that importing takes for the same
definition answer to the same names, a pattern that matches an available group of its field is never reported. Missing:
the general case, which is false (see `unmatched_spurious_refuted`), and v2 dependencies. -/
theorem unmatched_complete_partial (w : World) (bs : List Block) (deps : List Dep) (res : List Imported)
    (hc : w.chosen = []) (hv1 : ∀ d ∈ deps, ∃ s u, d = .v1 s ∧ s.url = some u)
    (hsame : ∀ a b : Grp, Available deps a → Available deps b → sameImported a b = true →
      ∀ k, Answers a k ↔ Answers b k)
    (h : importAll w bs deps = .ok res) (f : Field) (p : String) (hp : ∃ b, Written bs b ∧ p ∈ b.patterns f) :
    .unmatched p f.name ∈ unmatchedErrors w bs (res.map (·.group)) ↔
      ∀ g, Available deps g → Field.of g.type = some f → ∀ k, Answers g k → w.glob p k = false := by
  obtain ⟨css, h1, h2, _, h4⟩ := import_all_spec w bs deps res h
  -- with no chosen versions, a candidate is the group itself
  have hself : ∀ u g g', Stands w u g g' → g' = g := by
    intro u g g' hs
    cases hs with
    | itself => rfl
    | newer c s _ hcc _ _ _ _ _ => rw [hc] at hcc; simp [aget] at hcc
  have hself₂ : ∀ u (l l' : List Grp), Forall2 (Stands w u) l l' → l' = l := by
    intro u l l' hf
    induction hf with
    | nil => rfl
    | cons h _ ih => rw [hself _ _ _ h, ih]
  -- candidates are the available groups that are named
  have hcand : ∀ (ds : List Dep) css, Forall2 (fun d cs => importDep w bs d = .ok cs) ds css →
      (∀ d ∈ ds, d ∈ deps) → ∀ g, (∃ c ∈ css.flatten, c.group = g) ↔ Available ds g ∧ Named w bs g := by
    intro ds css hf
    induction hf with
    | nil =>
      intro _ g
      constructor
      · rintro ⟨c, hc, _⟩; cases hc
      · rintro ⟨⟨s, u, hd, _⟩, _⟩; cases hd
    | @cons d cs ds css hd _ ih =>
      intro hsub g
      obtain ⟨s, u, rfl, hu⟩ := hv1 d (hsub d (List.mem_cons_self ..))
      obtain ⟨keep, hk, hf⟩ := import_v1_selects w bs s u hu cs hd
      have hg := hself₂ u _ _ hf
      have ih := ih (fun d hd => hsub d (List.mem_cons_of_mem _ hd)) g
      constructor
      · rintro ⟨c, hc, rfl⟩
        rw [List.flatten_cons] at hc
        rcases List.mem_append.1 hc with hc | hc
        · have : c.group ∈ s.groups.filter keep := hg ▸ List.mem_map_of_mem hc
          rw [List.mem_filter, hk] at this
          exact ⟨⟨s, u, List.mem_cons_self .., hu, this.1, this.2.2⟩, this.2.1⟩
        · obtain ⟨ha, hn⟩ := ih.1 ⟨c, hc, rfl⟩
          refine ⟨?_, hn⟩
          obtain ⟨s', u', hd', h'⟩ := ha
          exact ⟨s', u', List.mem_cons_of_mem _ hd', h'⟩
      · rintro ⟨ha, hn⟩
        rw [List.flatten_cons]
        obtain ⟨s', u', hd', hu', hg', hv'⟩ := ha
        · rcases List.mem_cons.1 hd' with hd' | hd'
          · cases hd'
            have : g ∈ cs.map (·.group) := by
              rw [hg, List.mem_filter, hk]; exact ⟨hg', hn, hv'⟩
            obtain ⟨c, hc, hcg⟩ := List.mem_map.1 this
            exact ⟨c, List.mem_append_left _ hc, hcg⟩
          · obtain ⟨c, hc, hcg⟩ := ih.2 ⟨⟨s', u', hd', hu', hg', hv'⟩, hn⟩
            exact ⟨c, List.mem_append_right _ hc, hcg⟩
  have hcand := hcand deps css h1 (fun _ hd => hd)
  rw [unmatched_iff]
  constructor
  · rintro ⟨f', p', he, _, hno⟩ g ha hf k hk
    have hpf : p = p' ∧ f = f' := by
      injection he with hp hf
      exact ⟨hp, by cases f <;> cases f' <;> first | rfl | (simp [Field.name] at hf)⟩
    obtain ⟨rfl, rfl⟩ := hpf
    cases hx : w.glob p k with
    | false => rfl
    | true =>
      obtain ⟨b, hb, hpb⟩ := hp
      obtain ⟨c, hc, rfl⟩ := (hcand g).2 ⟨ha, b, hb.1, f, hf, p, hpb, k, hk, hx⟩
      obtain ⟨k', hk', hs⟩ := h4 c hc
      have hav' := ((hcand k'.group).1 ⟨k', h2.subset hk', rfl⟩).1
      rcases hs with rfl | hs
      · rw [hno _ (List.mem_map_of_mem hk') hf k hk] at hx; cases hx
      · have hans := (hsame k'.group c.group hav' ha hs.2 k).2 hk
        rw [hno _ (List.mem_map_of_mem hk') (by rw [sameImported_type _ _ hs.2]; exact hf) k hans] at hx; cases hx
  · intro hno
    refine ⟨f, p, rfl, hp, fun g hg hf k hk => ?_⟩
    obtain ⟨c, hc, rfl⟩ := List.mem_map.1 hg
    exact hno _ ((hcand c.group).1 ⟨c, h2.subset hc, rfl⟩).1 hf k hk

/-! ## Examples and findings -/

/-- Literal patterns and `*`. -/
def lit (p k : String) : Bool := decide (p = "*") || decide (p = k)

def exA : V1 := { url := some (exUrl "a" "1"), groups :=
  [{ id := "metric.m", type := .metric, metricName := some "m", isV2 := true, origin := some (exUrl "a" "1") },
   { id := "metric.x", type := .metric, metricName := some "x", isV2 := true,
     annotations := some [("dependency_resolution", .map [("exclude", .bool true)])] },
   { id := "span.s", type := .span }] }
def exB : V2 := { url := exUrl "b" "1", deps := [exUrl "a" "1"], metrics := [{ id := "m", source := some 0 }, { id := "n" }] }

/-- A diamond: `m` comes from `a` and, re-exported, from `b`; it is imported once, and the stale pattern is reported. -/
example : ∃ res, importAll { glob := lit } [{ path := "f.yaml", metrics := ["m", "n", "gone"] }] [.v1 exA, .v2 exB] = .ok res ∧
    res.map (fun i => i.group.id) = ["metric.m", "n"] ∧
    unmatchedErrors { glob := lit } [{ path := "f.yaml", metrics := ["m", "n", "gone"] }] (res.map (·.group)) =
      [.unmatched "gone" "metrics"] := ⟨_, rfl, rfl, rfl⟩
/-- Naming an excluded group is an error, matching it with `--include-unreferenced` is not. -/
example : importAll { glob := lit } [{ path := "f.yaml", metrics := ["x"] }] [.v1 exA] =
    .error [.excluded "metric.x" .metric "imports"] := rfl
example : ∃ res, importAll { glob := lit } [{ path := "--include-unreferenced", metrics := ["*"] }] [.v1 exA] = .ok res ∧
    res.map (fun i => i.group.id) = ["metric.m"] := ⟨_, rfl, rfl⟩

/-- The property "an unmatched import is reported only if no dependency has a group it matches" fails: a metric and a
refinement of it have the same metric name, so importing takes them for one definition and drops the refinement, and the
pattern that names the refinement is reported as unmatched. -/
theorem unmatched_spurious_refuted :
    ∃ (w : World) (bs : List Block) (deps : List Dep) (res : List Imported) (g : Grp) (p : String),
      importAll w bs deps = .ok res ∧ Available deps g ∧ Field.of g.type = some .metrics ∧ Answers g p ∧
      w.glob p p = true ∧ .unmatched p "metrics" ∈ unmatchedErrors w bs (res.map (·.group)) := by
  refine ⟨{ glob := lit }, [{ path := "f.yaml", metrics := ["m", "refined"] }],
    [.v1 { url := some (exUrl "a" "1"), groups :=
      [{ id := "metric.m", type := .metric, metricName := some "m", isV2 := true },
       { id := "metric.refined", type := .metric, metricName := some "m", isV2 := true, refines := true }] }], _,
    { id := "metric.refined", type := .metric, metricName := some "m", isV2 := true, refines := true }, "refined", rfl,
    ⟨_, exUrl "a" "1", List.mem_singleton.2 rfl, rfl, List.mem_cons_of_mem _ (List.mem_singleton.2 rfl), rfl⟩, rfl, (matchKeys_answers _ _).1 (by decide), by decide, by decide⟩

/-- Importing everything from one dependency loses a definition: of the attribute groups `registry.server` and `server`
of one registry only the first is imported. -/
theorem import_drops_definition_refuted :
    ∃ (w : World) (bs : List Block) (s : V1) (g : Grp) (res : List Imported),
      g ∈ s.groups ∧ Named w bs g ∧ isExcludedOpt g.annotations = false ∧ importAll w bs [.v1 s] = .ok res ∧
      g ∉ res.map (·.group) ∧ (s.groups.map (·.id)).Nodup := by
  refine ⟨{ glob := lit }, [{ path := "f.yaml", attributeGroups := ["*"] }],
    { url := some (exUrl "a" "1"), groups := [{ id := "registry.server", type := .attributeGroup, brief := "the attributes" },
      { id := "server", type := .attributeGroup, brief := "a selection" }] },
    { id := "server", type := .attributeGroup, brief := "a selection" }, _, by simp, ?_, rfl, rfl, by decide, by decide⟩
  exact ⟨_, List.mem_singleton.2 rfl, .attributeGroups, rfl, "*", by simp [Block.patterns], "server",
    (matchKeys_answers _ _).1 (by decide), by decide⟩

/-- An excluded group can be imported: when the version conflict resolution picked a newer registry, its definition
replaces the named one, and whether the newer definition is excluded is not looked at. -/
theorem upgrade_imports_excluded_refuted :
    ∃ (w : World) (bs : List Block) (deps : List Dep) (res : List Imported) (i : Imported),
      importAll w bs deps = .ok res ∧ i ∈ res ∧ isExcludedOpt i.group.annotations = true := by
  let new : SchemaUrl := { name := "a", tail := "1.1", sv := some ⟨1, 1, 0, 0⟩ }
  let ann : Annots := [("dependency_resolution", .map [("exclude", .bool true)])]
  let g' : Grp := { id := "metric.m", type := .metric, metricName := some "m", annotations := some ann }
  refine ⟨{ glob := lit, chosen := [("a", new)], schema := fun u => if u = new then some (.v1 { url := some new, groups := [g'] }) else none },
    [{ path := "f.yaml", metrics := ["m"] }],
    [.v1 { url := some (exUrl "a" "1"), groups := [{ id := "metric.m", type := .metric, metricName := some "m" }] }],
    [{ group := g', url := new }], { group := g', url := new }, rfl, by simp, rfl⟩

/-- A pattern that imports nothing can go unreported: a published metric `metric.m` is imported by its id only, yet the
imported group also answers to `m`. -/
theorem unmatched_missed_refuted :
    ∃ (w : World) (s : V2), importAll w [{ path := "f.yaml", metrics := ["m"] }] [.v2 s] = .ok [] ∧
      ∃ res, importAll w [{ path := "f.yaml", metrics := ["metric.m", "m"] }] [.v2 s] = .ok res ∧
        unmatchedErrors w [{ path := "f.yaml", metrics := ["metric.m", "m"] }] (res.map (·.group)) = [] :=
  ⟨{ glob := lit }, { url := exUrl "b" "1", metrics := [{ id := "metric.m" }] }, rfl, _, rfl, rfl⟩

/-! ## The associations of imported signals -/

theorem aget_collectMap (l : Origins) (n : String) (u : SchemaUrl) (h : aget n (collectMap l) = some u) :
    (n, u) ∈ l := by
  unfold collectMap at h
  suffices H : ∀ (l m : Origins), aget n (l.foldl (fun m e => bins e.1 e.2 m) m) = some u →
      (n, u) ∈ l ∨ aget n m = some u by
    rcases H l [] h with h | h
    · exact h
    · cases h
  intro l
  induction l with
  | nil => intro m h; exact .inr h
  | cons e l ih =>
    intro m h
    rw [List.foldl_cons] at h
    rcases ih _ h with h | h
    · exact .inl (List.mem_cons_of_mem _ h)
    · rw [aget_bins] at h
      split at h
      · rename_i hn; cases h
        exact .inl (by rw [hn]; exact List.mem_cons_self ..)
      · exact .inr h

theorem aget_collectMap_none (l : Origins) (n : String) : aget n (collectMap l) = none ↔ n ∉ l.map Prod.fst := by
  unfold collectMap
  suffices H : ∀ (l m : Origins), aget n (l.foldl (fun m e => bins e.1 e.2 m) m) = none ↔
      n ∉ l.map Prod.fst ∧ aget n m = none by
    rw [H]; simp [aget]
  intro l
  induction l with
  | nil => intro m; simp
  | cons e l ih =>
    intro m
    rw [List.foldl_cons, ih, aget_bins, List.map_cons, List.mem_cons, not_or]
    by_cases hn : n = e.1
    · simp [hn]
    · simp [hn]

/-- The registry that the dependency `s` means by the entity name `n` in its group `g`: what it recorded when it resolved
the association, otherwise the entity it offers itself. -/
def Means (s : V1) (g : Grp) (n : String) (u : SchemaUrl) : Prop :=
  originAt s.recorded g.id n = some u ∨
    (originAt s.recorded g.id n = none ∧ Holds (.v1 s) n u false)

theorem publicOrigin_iff (d : Dep) (n : String) (u : SchemaUrl) :
    publicOrigin (d.lookupEntity n) = some u ↔ Holds d n u false := by
  rw [← lookup_holds]
  unfold publicOrigin
  cases h : d.lookupEntity n with
  | none => simp
  | some l =>
    obtain ⟨o, b⟩ := l
    cases b <;> simp

/-- C09. An imported v1 signal brings along, for each entity it is associated with, the registry its own registry meant
by the name, and nothing else. -/
theorem v1_origins_carried (s : V1) (g : Grp) (n : String) (u : SchemaUrl) :
    aget n (v1Origins s g) = some u ↔ n ∈ g.assocs ∧ Means s g n u := by
  have hval : ∀ n u, (match (aget g.id s.recorded).bind (aget n) with
      | some o => some o
      | none => publicOrigin (lookupEntityV1 s n)) = some u ↔ Means s g n u := by
    intro n u
    unfold Means originAt
    cases hr : (aget g.id s.recorded).bind (aget n) with
    | some o => simp
    | none => simp [← publicOrigin_iff, Dep.lookupEntity]
  have hmem : ∀ n u, (n, u) ∈ (g.assocs.filterMap fun n =>
      ((match (aget g.id s.recorded).bind (aget n) with
      | some o => some o
      | none => publicOrigin (lookupEntityV1 s n)).map fun o => (n, o))) ↔ n ∈ g.assocs ∧ Means s g n u := by
    intro n u
    rw [List.mem_filterMap]
    constructor
    · rintro ⟨n', hn', h⟩
      obtain ⟨o, ho, he⟩ := Option.map_eq_some_iff.1 h
      cases he
      exact ⟨hn', (hval ..).1 ho⟩
    · rintro ⟨hn, hu⟩
      exact ⟨n, hn, by rw [(hval ..).2 hu]; rfl⟩
  unfold v1Origins
  dsimp only
  constructor
  · intro h; exact (hmem n u).1 (aget_collectMap _ _ _ h)
  · intro h
    cases hx : aget n (collectMap (g.assocs.filterMap fun n =>
      ((match (aget g.id s.recorded).bind (aget n) with
      | some o => some o
      | none => publicOrigin (lookupEntityV1 s n)).map fun o => (n, o)))) with
    | none =>
      rw [aget_collectMap_none] at hx
      exact absurd (List.mem_map.2 ⟨(n, u), (hmem n u).2 h, rfl⟩) hx
    | some v =>
      have h1 := (hval ..).2 ((hmem n v).1 (aget_collectMap _ _ _ hx)).2
      have h2 := (hval ..).2 h.2
      rw [h1] at h2; cases h2; rfl

theorem addImported_origins (is : List Imported) (r : Reg) (gid n : String) (u : SchemaUrl)
    (hd : (is.map (fun i => i.group.id)).Nodup) :
    (∀ i ∈ is, i.group.id = gid → aget n i.origins = some u → originAt (is.foldl addImported r).origins gid n = some u) ∧
    ((∀ i ∈ is, i.group.id ≠ gid) → originAt (is.foldl addImported r).origins gid n = originAt r.origins gid n) := by
  induction is generalizing r with
  | nil => simp
  | cons j is ih =>
    simp only [List.map_cons, List.nodup_cons] at hd
    obtain ⟨h1, h2⟩ := ih (addImported r j) hd.2
    rw [List.foldl_cons]
    have hstep : originAt (addImported r j).origins gid n =
        if j.origins ≠ [] ∧ gid = j.group.id then aget n j.origins else originAt r.origins gid n := by
      unfold addImported originAt
      dsimp only
      by_cases ho : j.origins = []
      · simp [ho]
      · rw [if_pos ho, aget_aset]
        by_cases hg : gid = j.group.id
        · simp [ho, hg]
        · simp [hg]
    constructor
    · intro i hi hg hu
      rcases List.mem_cons.1 hi with rfl | hi
      · rw [h2 (fun k hk hk' => hd.1 (List.mem_map.2 ⟨k, hk, hk'.trans hg.symm⟩)), hstep, if_pos ⟨fun ho => by { rw [ho] at hu; cases hu }, hg.symm⟩, hu]
      · exact h1 i hi hg hu
    · intro hne
      rw [h2 (fun i hi => hne i (List.mem_cons_of_mem _ hi)), hstep, if_neg]
      rintro ⟨_, hg⟩
      exact hne j (List.mem_cons_self ..) hg.symm

/-- C09. The entity an imported signal is associated with stays the one its own registry meant, whatever entities of the
same name the importing registry and its other dependencies define (the imported groups have different ids, which the
duplicate check enforces). -/
theorem imported_association_kept (w : World) (r r' : Reg) (is : List Imported) (es : List IErr)
    (m : List (String × Origins)) (hi : importAll w r.blocks r.deps = .ok is) (hr : resolveImports w r = .ok (r', es))
    (hm : resolveAssociations r' = .ok m) (hd : (is.map (fun i => i.group.id)).Nodup) (i : Imported) (hmem : i ∈ is)
    (n : String) (u : SchemaUrl) (hu : aget n i.origins = some u) : originAt m i.group.id n = some u := by
  unfold resolveImports at hr
  rw [hi] at hr
  cases hr
  rw [associations_recorded _ _ hm]
  exact .inl ((addImported_origins is r i.group.id n u hd).1 i hmem rfl hu)

/-- `b` imports a signal whose `pod` is that of `a`, while it has a `pod` of its own. -/
def exKeep : Reg :=
  { groups := [{ id := "entity.pod", type := .entity, name := some "pod", isV2 := true }]
    blocks := [{ path := "f.yaml", metrics := ["m"] }]
    deps := [.v1 { url := some (exUrl "a" "1"), groups :=
      [{ id := "metric.m", type := .metric, metricName := some "m", assocs := ["pod"] },
       { id := "entity.pod", type := .entity, name := some "pod" }] }] }
example : ∃ r', resolveImports { glob := lit } exKeep = .ok (r', []) ∧
    resolveAssociations r' = .ok [("metric.m", [("pod", exUrl "a" "1")])] := ⟨_, rfl, rfl⟩

/-- The association of an imported signal is not always kept: a signal published by a v2 dependency that is replaced by
its newer definition takes the id of the newer group, and what the association meant is looked up under that id and
lost. Here `m` meant the `pod` of `z` and, after the import, means the `pod` of the importing registry. -/
theorem association_lost_on_upgrade_refuted :
    ∃ (w : World) (s : V2) (x : Sig) (is : List Imported) (u : SchemaUrl),
      x ∈ s.metrics ∧ aget "pod" (v2Origins s x.assocs) = some u ∧
      importAll w [{ path := "f.yaml", metrics := ["m"] }] [.v2 s] = .ok is ∧
      ∃ i ∈ is, i.group.metricName = some x.id ∧ "pod" ∈ i.group.assocs ∧ aget "pod" i.origins = none := by
  let new : SchemaUrl := { name := "b", tail := "1.1", sv := some ⟨1, 1, 0, 0⟩ }
  let g' : Grp := { id := "metric.m", type := .metric, metricName := some "m", assocs := ["pod"] }
  exact ⟨{ glob := lit, chosen := [("b", new)], schema := fun u => if u = new then some (.v1 { url := some new, groups := [g'] }) else none },
    { url := exUrl "b" "1", deps := [exUrl "z" "1"], metrics := [{ id := "m", assocs := [("pod", some 0)] }] },
    { id := "m", assocs := [("pod", some 0)] }, [{ group := g', url := new }], exUrl "z" "1", by simp, rfl, rfl,
    _, List.mem_singleton.2 rfl, rfl, by simp [g'], rfl⟩

end Verif.Imports
