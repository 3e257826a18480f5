import Verif.Resolver.InheritProps
/-
C11: attribute lineage.
-/
namespace Verif.Resolver
open Verif.Util

/-! ### Specification -/

/-- The specification gives a value to the field. -/
def setsField : Field → AttrSpec → Bool
  | .brief, s => (briefOf s).isSome
  | .examples, s => (examplesOf s).isSome
  | .tag, s => (tagOf s).isSome
  | .requirementLevel, s => (levelOf s).isSome
  | .samplingRelevant, s => (samplingOf s).isSome
  | .note, s => (noteOf s).isSome
  | .stability, s => (stabilityOf s).isSome
  | .deprecated, s => (deprecatedOf s).isSome
  | .prefixField, s => (prefixOf s).isSome
  | .annotations, s => (annotationsOf s).isSome
  | .role, s => (roleOf s).isSome

/-- What the parent and included groups say about `x`, with the id of the group that says it, lowest priority first. -/
def baseLayers (bases : List (String × List UAttr)) (x : String) : List (String × UAttr) :=
  (bases.flatMap (fun b => b.2.map (fun a => (b.1, a)))).filter (fun p => p.2.spec.key = x)

/-- What the group itself says about `x`. -/
def ownLayers (own : List UAttr) (x : String) : List UAttr := own.filter (fun a => a.spec.key = x)

/-! ### One step -/

theorem mem_finsert (f g : Field) (s : List Field) : f ∈ finsert g s ↔ f = g ∨ f ∈ s := by
  unfold finsert; split <;> simp_all
theorem mem_fremove (f g : Field) (s : List Field) : f ∈ fremove g s ↔ f ∈ s ∧ f ≠ g := by
  simp [fremove]
theorem mem_addIf (c : Bool) (f g : Field) (s : List Field) : f ∈ addIf c g s ↔ (c = true ∧ f = g) ∨ f ∈ s := by
  unfold addIf; split <;> simp_all [mem_finsert]

theorem opt_over {α : Type} (l : AttrLineage) (f g : Field) (a b : Option α) :
    f ∈ (l.opt g a b).1.overridden ↔ (a.isSome = true ∧ f = g) ∨ f ∈ l.overridden := by
  cases a <;> cases b <;> simp [AttrLineage.opt, AttrLineage.markLocal, AttrLineage.markInherited, mem_finsert]
theorem opt_inh {α : Type} (l : AttrLineage) (f g : Field) (a b : Option α) :
    f ∈ (l.opt g a b).1.inherited ↔
      if f = g then a.isSome = false ∧ (b.isSome = true ∨ f ∈ l.inherited) else f ∈ l.inherited := by
  by_cases h : f = g <;> cases a <;> cases b <;>
    simp [AttrLineage.opt, AttrLineage.markLocal, AttrLineage.markInherited, mem_finsert, mem_fremove, h]
theorem req_over {α : Type} (l : AttrLineage) (f g : Field) (a : Option α) (b : α) :
    f ∈ (l.req g a b).1.overridden ↔ (a.isSome = true ∧ f = g) ∨ f ∈ l.overridden := by
  cases a <;> simp [AttrLineage.req, AttrLineage.markLocal, AttrLineage.markInherited, mem_finsert]
theorem req_inh {α : Type} (l : AttrLineage) (f g : Field) (a : Option α) (b : α) :
    f ∈ (l.req g a b).1.inherited ↔ if f = g then a.isSome = false else f ∈ l.inherited := by
  by_cases h : f = g <;> cases a <;>
    simp [AttrLineage.req, AttrLineage.markLocal, AttrLineage.markInherited, mem_finsert, mem_fremove, h]
theorem pfx_over (l : AttrLineage) (f : Field) (a b : Bool) :
    f ∈ (l.pfx a b).1.overridden ↔ (a = true ∧ f = .prefixField) ∨ f ∈ l.overridden := by
  cases a <;> cases b <;> simp [AttrLineage.pfx, AttrLineage.markLocal, AttrLineage.markInherited, mem_finsert]
theorem pfx_inh (l : AttrLineage) (f : Field) (a b : Bool) :
    f ∈ (l.pfx a b).1.inherited ↔
      if f = .prefixField then a = false ∧ (b = true ∨ f ∈ l.inherited) else f ∈ l.inherited := by
  by_cases h : f = .prefixField <;> cases a <;> cases b <;>
    simp [AttrLineage.pfx, AttrLineage.markLocal, AttrLineage.markInherited, mem_finsert, mem_fremove, h]

/-- C11: overlaying a reference adds the fields it sets to the overridden ones and removes them from the inherited
ones; the fields it leaves open and that are known below become inherited. Nothing else changes. (`prefix` on a
reference to a definition is not tracked by the code.) -/
theorem lineage_step (r : String) (f : RefFields) (parent : AttrSpec) (l : AttrLineage) (x : Field)
    (hx : isDef parent = true → x ≠ .prefixField) :
    let l' := (resolveInheritanceAttr (.ref r f) parent l).1
    (x ∈ l'.overridden ↔ setsField x (.ref r f) = true ∨ x ∈ l.overridden) ∧
    (x ∈ l'.inherited ↔ setsField x (.ref r f) = false ∧ (setsField x parent = true ∨ x ∈ l.inherited)) := by
  cases parent with
  | ref r' p =>
    simp only [resolveInheritanceAttr, opt_over, opt_inh, pfx_over, pfx_inh]
    cases x <;> simp [setsField, briefOf, examplesOf, tagOf, levelOf, samplingOf, noteOf, stabilityOf, deprecatedOf,
      prefixOf, annotationsOf, roleOf]
  | id i p =>
    have := hx rfl
    simp only [resolveInheritanceAttr, opt_over, opt_inh, req_over, req_inh]
    cases x <;> simp [setsField, briefOf, examplesOf, tagOf, levelOf, samplingOf, noteOf, stabilityOf, deprecatedOf,
      annotationsOf, roleOf]
    exact absurd rfl this

example : let l := (resolveInheritanceAttr (.ref "x" { brief := some "local" })
      (.id "x" { type := "int", brief := some "p", tag := some "t" }) (.new "g")).1
    Field.brief ∈ l.overridden ∧ Field.brief ∉ l.inherited ∧ Field.tag ∈ l.inherited ∧ Field.tag ∉ l.overridden := by
  decide

theorem inheritFrom_inh (g : String) (s : AttrSpec) (x : Field) :
    x ∈ (AttrLineage.inheritFrom g s).inherited ↔ setsField x s = true ∧ x ≠ .role ∧ x ≠ .annotations := by
  cases s <;> cases x <;> simp [AttrLineage.inheritFrom, mem_addIf, mem_finsert, setsField, briefOf, examplesOf, tagOf,
    levelOf, samplingOf, noteOf, stabilityOf, deprecatedOf, prefixOf, annotationsOf, roleOf]

/-! ### Entry-level view of the map -/

def baseEntry (p : String × UAttr) : Option Entry → Entry
  | some e =>
    let r := resolveInheritanceAttr p.2.spec e.spec e.lineage
    { spec := r.2, lineage := { r.1 with sourceGroup := p.1 }, origin := p.2.origin }
  | none => { spec := p.2.spec, lineage := .inheritFrom p.1 p.2.spec, origin := p.2.origin }

def ownEntry (gid : String) (a : UAttr) : Option Entry → Entry
  | some e => if isDef a.spec then { spec := a.spec, lineage := .new gid, origin := a.origin }
              else { e with spec := (resolveInheritanceAttr a.spec e.spec e.lineage).2
                            lineage := (resolveInheritanceAttr a.spec e.spec e.lineage).1 }
  | none => { spec := a.spec, lineage := .new gid, origin := a.origin }

theorem stepBase_entry (g : String) (m : List (String × Entry)) (a : UAttr) (x : String) :
    aget x (stepBase g m a) = if a.spec.key = x then some (baseEntry (g, a) (aget x m)) else aget x m := by
  unfold stepBase
  by_cases hx : a.spec.key = x
  · subst hx
    rw [if_pos rfl]
    cases hg : aget a.spec.key m <;> simp [aget_bins, baseEntry]
  · rw [if_neg hx]
    have hx' : ¬ x = a.spec.key := fun e => hx e.symm
    cases hg : aget a.spec.key m <;> simp [aget_bins, hx']

theorem stepOwn_entry (gid : String) (m : List (String × Entry)) (a : UAttr) (x : String) :
    aget x (stepOwn gid m a) = if a.spec.key = x then some (ownEntry gid a (aget x m)) else aget x m := by
  unfold stepOwn
  cases hs : a.spec with
  | ref r f =>
    by_cases hx : r = x
    · subst hx
      simp only [AttrSpec.key, if_true]
      cases hg : aget r m <;> simp [aget_bins, ownEntry, hs, isDef]
    · have hx' : ¬ x = r := fun e => hx e.symm
      simp only [AttrSpec.key, hx, if_false]
      cases hg : aget r m <;> simp [aget_bins, hx']
  | id i f =>
    by_cases hx : i = x
    · subst hx
      simp only [AttrSpec.key, if_true]
      cases hg : aget i m <;> simp [aget_bins, ownEntry, hs, isDef]
    · have hx' : ¬ x = i := fun e => hx e.symm
      simp only [AttrSpec.key, hx, if_false]
      simp [aget_bins, hx']

theorem inheritMap_entry (gid : String) (own : List UAttr) (bases : List (String × List UAttr)) (x : String) :
    aget x (inheritMap gid own bases) =
      (ownLayers own x).foldl (fun e a => some (ownEntry gid a e))
        ((baseLayers bases x).foldl (fun e p => some (baseEntry p e)) none) := by
  unfold inheritMap
  have ho : ∀ (l : List UAttr) (m : List (String × Entry)), aget x (l.foldl (stepOwn gid) m) =
      (ownLayers l x).foldl (fun e a => some (ownEntry gid a e)) (aget x m) := by
    intro l
    induction l with
    | nil => intro m; rfl
    | cons a l ih =>
      intro m
      simp only [List.foldl_cons]
      rw [ih, stepOwn_entry]
      unfold ownLayers
      by_cases hx : a.spec.key = x
      · rw [if_pos hx, List.filter_cons_of_pos (by simpa using hx)]; rfl
      · rw [if_neg hx, List.filter_cons_of_neg (by simpa using hx)]
  have hb : ∀ (l : List UAttr) (g : String) (m : List (String × Entry)), aget x (l.foldl (stepBase g) m) =
      ((l.map (fun a => (g, a))).filter (fun p => p.2.spec.key = x)).foldl (fun e p => some (baseEntry p e)) (aget x m) := by
    intro l g
    induction l with
    | nil => intro m; rfl
    | cons a l ih =>
      intro m
      simp only [List.foldl_cons, List.map_cons]
      rw [ih, stepBase_entry]
      by_cases hx : a.spec.key = x
      · rw [if_pos hx, List.filter_cons_of_pos (by simpa using hx)]; rfl
      · rw [if_neg hx, List.filter_cons_of_neg (by simpa using hx)]
  rw [ho]
  congr 1
  have : ∀ (bs : List (String × List UAttr)) (m : List (String × Entry)),
      aget x (bs.foldl (fun m b => b.2.foldl (stepBase b.1) m) m) =
        (baseLayers bs x).foldl (fun e p => some (baseEntry p e)) (aget x m) := by
    intro bs
    induction bs with
    | nil => intro m; rfl
    | cons b bs ih =>
      intro m
      simp only [List.foldl_cons]
      rw [ih, hb]
      simp [baseLayers, List.filter_append]
  exact this _ _

/-! ### C11 for a whole group -/

/-- The tracked state of an entry after some layers: field `f` is inherited iff the last layer leaves it open and an
earlier one sets it; overridden iff a layer other than the first sets it. -/
structure Tracks (f : Field) (first : AttrSpec) (rest : List AttrSpec) (e : Entry) : Prop where
  sets : setsField f e.spec = (setsField f first || rest.any (setsField f))
  over : f ∈ e.lineage.overridden ↔ rest.any (setsField f) = true
  inh : rest ≠ [] → (f ∈ e.lineage.inherited ↔
    (rest.getLast?.map (setsField f)) = some false ∧ (setsField f first || rest.any (setsField f)) = true)
  inh0 : rest = [] → (f ∈ e.lineage.inherited → setsField f first = true)

theorem setsField_overlay (r : String) (g : RefFields) (old : AttrSpec) (f : Field)
    (hf : isDef old = true → f ≠ .prefixField) :
    setsField f (overlay (.ref r g) old) = (setsField f (.ref r g) || setsField f old) := by
  cases old with
  | ref r' p =>
    cases f <;> simp [setsField, overlay, resolveInheritanceAttr, opt_val, pfx_val, briefOf, examplesOf, tagOf, levelOf,
      samplingOf, noteOf, stabilityOf, deprecatedOf, prefixOf, annotationsOf, roleOf]
    cases g.prefixFlag <;> cases p.prefixFlag <;> simp
  | id i p =>
    have := hf rfl
    cases f <;> simp [setsField, overlay, resolveInheritanceAttr, opt_val, req_val, briefOf, examplesOf, tagOf, levelOf,
      samplingOf, noteOf, stabilityOf, deprecatedOf, annotationsOf, roleOf]
    exact absurd rfl this

theorem tracks_ref (f : Field) (first : AttrSpec) (rest : List AttrSpec) (e : Entry) (r : String) (g : RefFields)
    (sg : String) (o : Option SchemaUrl)
    (hd : isDef e.spec = true → f ≠ .prefixField) (h : Tracks f first rest e) :
    Tracks f first (rest ++ [.ref r g])
      { spec := (resolveInheritanceAttr (.ref r g) e.spec e.lineage).2
        lineage := { (resolveInheritanceAttr (.ref r g) e.spec e.lineage).1 with sourceGroup := sg }
        origin := o } := by
  have hstep := lineage_step r g e.spec e.lineage f hd
  simp only at hstep
  refine ⟨?_, ?_, ?_, ?_⟩
  · rw [resolve_val, setsField_overlay r g e.spec f hd, h.sets]
    simp only [List.any_append, List.any_cons, List.any_nil, Bool.or_false]
    cases setsField f (.ref r g) <;> cases setsField f first <;> cases rest.any (setsField f) <;> rfl
  · simp only [List.any_append, List.any_cons, List.any_nil, Bool.or_false, Bool.or_eq_true]
    rw [hstep.1, h.over]
    exact or_comm
  · intro _
    rw [hstep.2]
    simp only [List.getLast?_append, List.getLast?_singleton, Option.or_some, Option.map_some, Option.some.injEq,
      List.any_append, List.any_cons, List.any_nil, Bool.or_false, Option.getD_some, Option.some_or]
    constructor
    · rintro ⟨h1, h2⟩
      refine ⟨h1, ?_⟩
      have hs := h.sets
      rcases h2 with h2 | h2
      · rw [h2] at hs
        rw [← Bool.or_assoc, ← hs, Bool.true_or]
      · by_cases hr : rest = []
        · have := h.inh0 hr h2; simp [this]
        · have := (h.inh hr).1 h2
          have h3 := this.2
          rw [← Bool.or_assoc, h3, Bool.true_or]
    · rintro ⟨h1, h2⟩
      refine ⟨h1, .inl ?_⟩
      rw [h.sets]
      rw [h1] at h2
      simpa using h2
  · intro h0; simp at h0

/-- All layers of `x` in the order they are applied, the first being the first base. -/
theorem lineage_tracks (gid : String) (own : List UAttr) (bases : List (String × List UAttr)) (x : String) (f : Field)
    (b0 : String × UAttr) (bs : List (String × UAttr)) (hb : baseLayers bases x = b0 :: bs)
    (hrefs : ∀ p ∈ bs, isDef p.2.spec = false) (hown : ∀ a ∈ ownLayers own x, isDef a.spec = false)
    (hpre : isDef b0.2.spec = true → f ≠ .prefixField) :
    ∃ e, aget x (inheritMap gid own bases) = some e ∧
      Tracks f b0.2.spec (bs.map (fun p => p.2.spec) ++ (ownLayers own x).map (fun a => a.spec)) e ∧
      isDef e.spec = isDef b0.2.spec := by
  rw [inheritMap_entry, hb]
  simp only [List.foldl_cons]
  have h0 : Tracks f b0.2.spec [] (baseEntry b0 none) := by
    refine ⟨by simp [baseEntry], ?_, by simp, ?_⟩
    · simp only [List.any_nil]
      cases hs : b0.2.spec <;> simp [baseEntry, AttrLineage.inheritFrom, hs]
    · intro _ hf
      simp only [baseEntry] at hf
      exact ((inheritFrom_inh _ _ _).1 hf).1
  have hbs : ∀ (bs : List (String × UAttr)) (rest : List AttrSpec) (e : Entry), (∀ p ∈ bs, isDef p.2.spec = false) →
      Tracks f b0.2.spec rest e → isDef e.spec = isDef b0.2.spec →
      ∃ e', bs.foldl (fun e p => some (baseEntry p e)) (some e) = some e' ∧
        Tracks f b0.2.spec (rest ++ bs.map (fun p => p.2.spec)) e' ∧ isDef e'.spec = isDef b0.2.spec := by
    intro bs
    induction bs with
    | nil => intro rest e _ h hd; exact ⟨e, rfl, by simpa using h, hd⟩
    | cons p bs ih =>
      intro rest e hr h hd
      simp only [List.foldl_cons, List.map_cons]
      have hp := hr p (by simp)
      cases hs : p.2.spec with
      | id i g => rw [hs] at hp; simp [isDef] at hp
      | ref r g =>
        have ht := tracks_ref f b0.2.spec rest e r g p.1 p.2.origin (by rw [hd]; exact hpre) h
        have heq : baseEntry p (some e) =
          { spec := (resolveInheritanceAttr (.ref r g) e.spec e.lineage).2
            lineage := { (resolveInheritanceAttr (.ref r g) e.spec e.lineage).1 with sourceGroup := p.1 }
            origin := p.2.origin } := by simp [baseEntry, hs]
        rw [heq]
        obtain ⟨e', h1, h2, h3⟩ := ih (rest ++ [.ref r g]) _ (fun q hq => hr q (by simp [hq])) ht
          (by simp only [resolve_val, overlay_isDef, hd]; simp [isDef])
        exact ⟨e', h1, by simpa using h2, h3⟩
  obtain ⟨e1, he1, ht1, hd1⟩ := hbs bs [] (baseEntry b0 none) hrefs h0 (by simp [baseEntry])
  rw [he1]
  have hos : ∀ (l : List UAttr) (rest : List AttrSpec) (e : Entry), (∀ a ∈ l, isDef a.spec = false) →
      Tracks f b0.2.spec rest e → isDef e.spec = isDef b0.2.spec →
      ∃ e', l.foldl (fun e a => some (ownEntry gid a e)) (some e) = some e' ∧
        Tracks f b0.2.spec (rest ++ l.map (fun a => a.spec)) e' ∧ isDef e'.spec = isDef b0.2.spec := by
    intro l
    induction l with
    | nil => intro rest e _ h hd; exact ⟨e, rfl, by simpa using h, hd⟩
    | cons a l ih =>
      intro rest e hr h hd
      simp only [List.foldl_cons, List.map_cons]
      have hp := hr a (by simp)
      cases hs : a.spec with
      | id i g => rw [hs] at hp; simp [isDef] at hp
      | ref r g =>
        have ht := tracks_ref f b0.2.spec rest e r g
          (resolveInheritanceAttr (.ref r g) e.spec e.lineage).1.sourceGroup e.origin (by rw [hd]; exact hpre) h
        have heq : ownEntry gid a (some e) =
          { spec := (resolveInheritanceAttr (.ref r g) e.spec e.lineage).2
            lineage := (resolveInheritanceAttr (.ref r g) e.spec e.lineage).1
            origin := e.origin } := by simp [ownEntry, hs, isDef]
        rw [heq]
        obtain ⟨e', h1, h2, h3⟩ := ih (rest ++ [.ref r g]) _ (fun q hq => hr q (by simp [hq])) ht
          (by simp only [resolve_val, overlay_isDef, hd]; simp [isDef])
        exact ⟨e', h1, by simpa using h2, h3⟩
  obtain ⟨e2, he2, ht2, hd2⟩ := hos (ownLayers own x) _ e1 hown ht1 hd1
  exact ⟨e2, he2, by simpa using ht2, hd2⟩

/-- C11. For an attribute that one base provides and that the group refers to once, the
lineage recorded for the group lists a field as overridden iff the group's own reference sets it, as inherited iff the
reference leaves it open and the base sets it (so never both), and the resolved field is set iff one of them sets it.
For several bases that provide the attribute see C140 (`lineage_never_both_refuted`,
`lineage_override_not_local_refuted`). -/
theorem lineage_exact (gid : String) (own : List UAttr) (bases : List (String × List UAttr)) (x : String)
    (f : Field) (b : String × UAttr) (o : UAttr) (hb : baseLayers bases x = [b]) (ho : ownLayers own x = [o])
    (href : isDef o.spec = false) (hpre : isDef b.2.spec = true → f ≠ .prefixField) :
    ∃ e, aget x (inheritMap gid own bases) = some e ∧
      (f ∈ e.lineage.overridden ↔ setsField f o.spec = true) ∧
      (f ∈ e.lineage.inherited ↔ setsField f o.spec = false ∧ setsField f b.2.spec = true) ∧
      setsField f e.spec = (setsField f o.spec || setsField f b.2.spec) := by
  obtain ⟨e, he, ht, _⟩ := lineage_tracks gid own bases x f b [] hb (by simp)
    (by rw [ho]; simpa using href) hpre
  rw [ho] at ht
  simp only [List.map_nil, List.nil_append, List.map_cons] at ht
  refine ⟨e, he, ?_, ?_, ?_⟩
  · rw [ht.over]; simp
  · rw [ht.inh (by simp)]
    simp only [List.getLast?_singleton, Option.map_some, Option.some.injEq, List.any_cons, List.any_nil, Bool.or_false,
      Bool.or_eq_true]
    constructor
    · rintro ⟨h1, h2 | h2⟩
      · exact ⟨h1, h2⟩
      · rw [h1] at h2; cases h2
    · rintro ⟨h1, h2⟩; exact ⟨h1, .inl h2⟩
  · rw [ht.sets]; simp [Bool.or_comm]

/-- C140 (partial): with any number of bases, `inherited` is still exact for an attribute the group refers to once: a
field is listed as inherited iff the own reference leaves it open and some base sets it; a field the own reference
sets is listed as overridden. What fails is the converse for `overridden`. -/
theorem lineage_inherited_exact_partial (gid : String) (own : List UAttr) (bases : List (String × List UAttr)) (x : String)
    (f : Field) (b0 : String × UAttr) (bs : List (String × UAttr)) (o : UAttr) (hb : baseLayers bases x = b0 :: bs)
    (hrefs : ∀ p ∈ bs, isDef p.2.spec = false) (ho : ownLayers own x = [o]) (href : isDef o.spec = false)
    (hpre : isDef b0.2.spec = true → f ≠ .prefixField) :
    ∃ e, aget x (inheritMap gid own bases) = some e ∧
      (f ∈ e.lineage.inherited ↔ setsField f o.spec = false ∧ ∃ p ∈ b0 :: bs, setsField f p.2.spec = true) ∧
      (setsField f o.spec = true → f ∈ e.lineage.overridden) ∧
      (f ∈ e.lineage.overridden → setsField f o.spec = true ∨ ∃ p ∈ bs, setsField f p.2.spec = true) := by
  obtain ⟨e, he, ht, _⟩ := lineage_tracks gid own bases x f b0 bs hb hrefs (by rw [ho]; simpa using href) hpre
  rw [ho] at ht
  refine ⟨e, he, ?_, ?_, ?_⟩
  · rw [ht.inh (by simp)]
    simp only [List.map_cons, List.map_nil, List.getLast?_append, List.getLast?_singleton, Option.some_or,
      Option.map_some, Option.some.injEq, List.any_append, List.any_cons, List.any_nil, Bool.or_false, Bool.or_eq_true,
      List.any_map, List.any_eq_true, Function.comp]
    constructor
    · rintro ⟨h1, h2⟩
      refine ⟨h1, ?_⟩
      rcases h2 with h2 | ⟨p, hp, h2⟩ | h2
      · exact ⟨b0, by simp, h2⟩
      · exact ⟨p, by simp [hp], h2⟩
      · rw [h1] at h2; cases h2
    · rintro ⟨h1, p, hp, h2⟩
      refine ⟨h1, ?_⟩
      rcases List.mem_cons.1 hp with rfl | hp
      · exact .inl h2
      · exact .inr (.inl ⟨p, hp, h2⟩)
  · intro h; rw [ht.over]; simp [h]
  · rw [ht.over]
    simp only [List.map_cons, List.map_nil, List.any_append, List.any_cons, List.any_nil, Bool.or_false, Bool.or_eq_true,
      List.any_map, List.any_eq_true, Function.comp]
    rintro (⟨p, hp, h⟩ | h)
    · exact .inr ⟨p, hp, h⟩
    · exact .inl h

/-- C11: an attribute that one base provides and the group does not mention is listed with nothing
overridden and, as inherited, exactly the fields the base sets, except its role and its annotations (see
`lineage_role_not_listed_refuted`); its source is that base. -/
theorem lineage_inherited_as_is (gid : String) (own : List UAttr) (bases : List (String × List UAttr))
    (x : String) (f : Field) (b : String × UAttr) (hb : baseLayers bases x = [b]) (ho : ownLayers own x = []) :
    ∃ e, aget x (inheritMap gid own bases) = some e ∧ e.spec = b.2.spec ∧ e.lineage.sourceGroup = b.1 ∧
      f ∉ e.lineage.overridden ∧
      (f ∈ e.lineage.inherited ↔ setsField f b.2.spec = true ∧ f ≠ .role ∧ f ≠ .annotations) := by
  rw [inheritMap_entry, hb, ho]
  refine ⟨baseEntry b none, rfl, rfl, ?_, ?_, ?_⟩
  · cases hs : b.2.spec <;> simp [baseEntry, AttrLineage.inheritFrom, hs]
  · cases hs : b.2.spec <;> simp [baseEntry, AttrLineage.inheritFrom, hs]
  · exact inheritFrom_inh _ _ _

private def xp : UAttr := { spec := .id "x" { type := "int", brief := some "A", role := some .identifying } }
private def xi : UAttr := { spec := .ref "x" { brief := some "B" } }
private def xo : UAttr := { spec := .ref "x" { note := some "N" } }

example : baseLayers [("p", [xp])] "x" = [("p", xp)] ∧ ownLayers [xo] "x" = [xo] ∧ isDef xo.spec = false := by decide

/-- The lineage recorded for `x` in group `g`. -/
def lineageOf (own : List UAttr) (bases : List (String × List UAttr)) : Option AttrLineage :=
  (aget "x" (inheritLineages "g" own bases))

/-- C140 refuted: `never both`. Parent `p` sets the brief of `x`, included group `i` overrides it, the group refers to
`x` without a brief: the brief is listed both as overridden and as inherited. -/
theorem lineage_never_both_refuted : ∃ own bases l, lineageOf own bases = some l ∧
    Field.brief ∈ l.overridden ∧ Field.brief ∈ l.inherited :=
  ⟨[xo], [("p", [xp]), ("i", [xi])], _, rfl, by decide, by decide⟩

/-- C140 refuted: a field is listed as locally overridden although the group itself sets nothing. -/
theorem lineage_override_not_local_refuted : ∃ bases l, lineageOf [] bases = some l ∧ Field.brief ∈ l.overridden :=
  ⟨[("p", [xp]), ("i", [xi])], _, rfl, by decide⟩

/-- C140 refuted: the role (likewise the annotations) of an attribute inherited as it is is not listed as inherited. -/
theorem lineage_role_not_listed_refuted : ∃ bases l a, lineageOf [] bases = some l ∧ a ∈ inheritAttrs "g" [] bases ∧
    roleOf a.spec = some .identifying ∧ Field.role ∉ l.inherited ∧ Field.role ∉ l.overridden :=
  ⟨[("p", [xp])], _, xp, rfl, by decide, rfl, by decide, by decide⟩

end Verif.Resolver
