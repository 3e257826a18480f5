import Verif.Chain.Refuted
import Verif.Imports.EntityProps
/-
Refining a group of a dependency, end to end: what the published refinement has is what the group of the dependency has,
with what the refinement itself says (C180).
-/
namespace Verif.Chain
open Verif.Util Verif.Resolver Verif.Pipeline Verif.Imports

/-! ### Specification -/

/-- The name of an attribute that group `g` of the files mentions. -/
def ownKey (g : UGroup) (a : UAttr) : String :=
  match a.spec with
  | .id i _ => prefixed g.pfx i
  | .ref r _ => r

/-- What the files say in group `g` about the attribute `k`, in order. -/
def says (g : UGroup) (k : String) : List AttrSpec := (g.attrs.filter (fun a => decide (ownKey g a = k))).map UAttr.spec

/-- An attribute without the fields that no specification of an attribute has. -/
def stripped (a : Attr) : Attr := { a with tags := none, value := none, prefixFlag := false }

/-- What a group says apart from its attributes. -/
structure About where
  type : GroupType
  brief : String := ""
  note : String := ""
  stability : Option String := none
  deprecated : Option String := none
  metricName : Option String := none
  instrument : Option String := none
  unit : Option String := none
  reqLevel : Option String := none
  spanKind : Option String := none
  spanName : Option String := none

/-- What a published group says apart from its attributes. -/
def aboutGroup : Body → About
  | .own g =>
    { type := g.type, brief := g.brief, note := g.note, stability := g.stability, deprecated := g.deprecated
      metricName := g.metricName, instrument := g.instrument, unit := g.unit, reqLevel := g.reqLevel
      spanKind := g.spanKind, spanName := g.spanName }
  | .imported g =>
    { type := g.type, brief := g.brief, note := g.fields.note, stability := g.fields.stability
      deprecated := g.fields.deprecated, metricName := g.metricName, instrument := g.fields.instrument
      unit := g.fields.unit, reqLevel := g.fields.reqLevel, spanKind := g.fields.spanKind, spanName := g.fields.spanName }

/-- The annotations of a published group. -/
def annotsOf : Body → Option Annots
  | .own g => g.annotations
  | .imported g => g.annotations

/-- What a refinement `g` of a group that says `p` says, apart from its attributes: a refinement in the v2 format has the
instrument, the unit, the name, the kind and the requirement level of what it refines, and its own text where it gives
any; a group in the v1 format says what it says. -/
def refinedAbout (g : UGroup) (p : About) : About :=
  if g.isV2 then
    { type := g.type, brief := if g.brief = "" then p.brief else g.brief, note := if g.note = "" then p.note else g.note
      stability := g.stability.or p.stability, deprecated := g.deprecated.or p.deprecated, metricName := p.metricName
      instrument := p.instrument, unit := p.unit, reqLevel := p.reqLevel, spanKind := p.spanKind
      spanName := g.spanName.or p.spanName }
  else aboutGroup (.own g)

/-- The lineage of a published group says that it extends this group, of this type. -/
def extendsOf : Body → Option (String × GroupType)
  | .own g => g.lineage.bind GLineage.extendsGroup
  | .imported _ => none

/-- `Refines out g x p A`: the registry publishes the group `g` of its files as a refinement of the group `x`, which says
`p` and has the attributes `A`. An attribute of `A` that `g` does not mention is inherited; one that `g` refers to has the
fields the reference gives, and the inherited ones otherwise; one that `g` defines is as defined; and there is no other
attribute than those of `A` and those `g` mentions. -/
def Refines (out : Output) (g : UGroup) (x : String) (p : About) (A : List Attr) : Prop :=
  ∃ o ∈ out.groups, o.id = g.id ∧ o.rest.id = g.id ∧ aboutGroup o.rest = refinedAbout g p ∧
    extendsOf o.rest = some (x, p.type) ∧
    ∃ xs, Reads out o.attrs xs ∧
      (∀ a ∈ A, says g a.name = [] → stripped a ∈ xs) ∧
      (∀ a ∈ A, ∀ f, says g a.name = [.ref a.name f] → overlaid a.name { f with prefixFlag := false } (stripped a) ∈ xs) ∧
      (∀ a ∈ A, ∀ i f, says g a.name = [.id i f] → attrOfId a.name f ∈ xs) ∧
      (∀ y ∈ xs, (∃ a ∈ A, says g a.name = [] ∧ y = stripped a) ∨
        ∃ b ∈ g.attrs, y.name = ownKey g b ∨ y.name = g.pfx ++ "." ++ ownKey g b)

/-- The registry has no group with this id. -/
def Node.lacks : Node → String → Prop
  | .files _ _ _ _ _ _ _ out, x => ∀ o ∈ out.groups, o.rest.id ≠ x
  | .published s, x =>
    (∀ y ∈ s.entities, y.id ≠ x ∧ "entity." ++ y.id ≠ x) ∧ (∀ y ∈ s.metrics, y.id ≠ x ∧ "metric." ++ y.id ≠ x) ∧
    (∀ y ∈ s.events, y.id ≠ x ∧ "event." ++ y.id ≠ x) ∧ (∀ y ∈ s.spans, y.id ≠ x ∧ "span." ++ y.id ≠ x)

/-- The registry `n` was resolved over `deps`, its files have the group `g` that extends `x`, which is not a group of the
files, and the ids are as resolution expects them. -/
structure Extending (le : Attr → Attr → Bool) (glob : String → String → Bool) (deps cache : List Node) (inc : Bool)
    (specs : List UGroup) (blocks : List Block) (out : Output) (g : UGroup) (x : String) : Prop where
  resolved : resolveRegistry le (envOf glob deps cache) inc specs blocks = .ok out
  order : TotalPre le
  unique : ((prepared specs).map UGroup.id).Nodup
  noShadow : NoShadow (prepared specs) (envOf glob deps cache).groups
  mem : g ∈ specs
  ext : g.ext = some x
  onlyExt : g.includes = []
  notInternal : g.visibility ≠ some .internalVis
  elsewhere : ∀ h ∈ specs, h.id ≠ x

/-- The signals of a published schema, with their type and the prefix of their ids in the v1 form. -/
def kinds (s : Schema2) : List (GroupType × String × List Signal2) :=
  [(.entity, "entity.", s.entities), (.metric, "metric.", s.metrics), (.event, "event.", s.events), (.span, "span.", s.spans)]

/-- What a published signal says apart from its attributes. -/
def aboutSignal (t : GroupType) (y : Signal2) : About :=
  { type := t, brief := y.common.brief, note := y.common.note, stability := some y.common.stability
    deprecated := y.common.deprecated, reqLevel := y.level
    metricName := if t = .metric then some y.id else none
    instrument := if t = .metric then some y.instrument else none
    unit := if t = .metric then some y.unit else none
    spanKind := if t = .span then some y.kind else none
    spanName := if t = .span then some y.spanName else none }

/-- The attributes a published signal refers to: those of the catalog, with the requirement level of the reference, and the
sampling relevance of that of a span; the attributes of an entity have the role the entity gives them. -/
def signalAttrs (s : Schema2) (t : GroupType) (y : Signal2) : List Attr :=
  (y.refs.map (fun r => (r, if t = .entity then some Role.identifying else none)) ++
    (if t = .entity then y.description else []).map (fun r => (r, some Role.descriptive))).filterMap fun p =>
      (s.catalog[p.1.base]?).map fun a =>
        { name := a.key, type := a.type, brief := a.common.brief, examples := a.examples, requirementLevel := p.1.level
          samplingRelevant := if t = .span then p.1.sampling else none, note := a.common.note
          stability := some a.common.stability, deprecated := a.common.deprecated
          annotations := some a.common.annotations, role := p.2 }

/-! ### Proof -/

def prep (g : UGroup) : UGroup :=
  { g with
    lineage := some { extendsGroup := none, includesGroup := [], attrs := [] }
    attrs := g.attrs.map fun a => match a.spec with
      | .id i f => { spec := .id (prefixed g.pfx i) f, origin := none }
      | .ref r f => { spec := .ref r f, origin := none } }

theorem prepared_map (specs : List UGroup) : prepared specs = specs.map prep := rfl

/-- What the preparation makes of a specification. -/
def prepSpec (g : UGroup) : AttrSpec → AttrSpec
  | .id i f => .id (prefixed g.pfx i) f
  | .ref r f => .ref r f

theorem prep_attrs (g : UGroup) : (prep g).attrs = g.attrs.map (fun a => { spec := prepSpec g a.spec, origin := none }) := by
  unfold prep
  dsimp only
  apply List.map_congr_left
  intro a _
  cases a.spec <;> rfl

theorem prepSpec_key (g : UGroup) (a : UAttr) : (prepSpec g a.spec).key = ownKey g a := by
  unfold ownKey
  cases a.spec <;> rfl

theorem prep_layer (g : UGroup) (k : String) :
    ((prep g).attrs.map (fun a => a.spec)).filter (fun s => s.key = k) = (says g k).map (prepSpec g) := by
  rw [prep_attrs]
  unfold says
  induction g.attrs with
  | nil => rfl
  | cons a as ih =>
    simp only [List.map_cons, List.filter_cons, prepSpec_key]
    by_cases h : ownKey g a = k
    · simp only [h, decide_true, if_true, List.map_cons]
      rw [ih]
    · simp only [h, decide_false, Bool.false_eq_true, if_false]
      exact ih

/-- The attributes as a summary gives them. -/
def asSummary (A : List (Attr × SchemaUrl)) : List UAttr := A.map (fun p => { spec := specOf p.1, origin := some p.2 })

theorem asSummary_layer (A : List (Attr × SchemaUrl)) (hn : (A.map (fun p => p.1.name)).Nodup) (p : Attr × SchemaUrl)
    (hp : p ∈ A) : ((asSummary A).map (fun a => a.spec)).filter (fun s => s.key = p.1.name) = [specOf p.1] := by
  unfold asSummary
  induction A with
  | nil => cases hp
  | cons q A ih =>
    simp only [List.map_cons, List.nodup_cons, List.mem_map, not_exists, not_and] at hn
    have hk : ∀ q : Attr × SchemaUrl, (specOf q.1).key = q.1.name := fun _ => rfl
    have none : ∀ (B : List (Attr × SchemaUrl)) (k : String), (∀ b ∈ B, b.1.name ≠ k) →
        ((B.map (fun p : Attr × SchemaUrl => ({ spec := specOf p.1, origin := some p.2 } : UAttr))).map (fun a => a.spec)).filter
          (fun s => s.key = k) = [] := by
      intro B k hB
      rw [List.filter_eq_nil_iff]
      intro s hs
      simp only [List.map_map, List.mem_map, Function.comp_def] at hs
      obtain ⟨b, hb, rfl⟩ := hs
      simpa [hk] using hB b hb
    rcases List.mem_cons.1 hp with rfl | hp
    · simp only [List.map_cons]
      rw [List.filter_cons_of_pos (by simp [hk]), none A _ (fun b hb => hn.1 b hb)]
    · simp only [List.map_cons]
      rw [List.filter_cons_of_neg, ih hn.2 hp]
      simpa [hk] using fun h => hn.1 p hp h.symm

theorem inherits {gid : String} {own : List UAttr} {bases : List (String × List UAttr)} {k : String} {s : AttrSpec}
    (h : foldSpec none (layers own bases k) = some s) : ∃ u ∈ inheritAttrs gid own bases, u.spec = s := by
  have hs := inheritMap_spec gid own bases k
  rw [h] at hs
  cases hg : aget k (inheritMap gid own bases) with
  | none => rw [hg] at hs; cases hs
  | some e =>
    rw [hg] at hs
    injection hs with hs
    refine ⟨{ spec := e.spec, origin := e.origin }, ?_, hs⟩
    unfold inheritAttrs
    exact List.mem_map.2 ⟨(k, e), aget_some_mem hg, rfl⟩

theorem layers_one (own : List UAttr) (x k : String) (as : List UAttr) :
    layers own [(x, as)] k = (as.map (fun a => a.spec)).filter (fun s => s.key = k) ++
      (own.map (fun a => a.spec)).filter (fun s => s.key = k) := by
  simp [layers]

/-- What a summary says apart from the attributes. -/
def aboutSummary (p : Summary) : About :=
  { type := p.type, brief := p.brief, note := p.note, stability := p.stability, deprecated := p.deprecated
    metricName := p.metricName, instrument := p.instrument, unit := p.unit, reqLevel := p.reqLevel
    spanKind := p.spanKind, spanName := p.spanName }

theorem attempt_found {deps : List DepLookup} {idx : String → Option Summary} {g : UGroup} {x : String} {p : Summary}
    {d : Done} (hi : g.includes = []) (he : g.ext = some x) (hx : idx x = none) (hf : lookupDeps deps x false = .found p)
    (hl : p.isLocal = false) (h : attempt deps idx g = .ok d) :
    d.group = finalize (applyParent g x p) [(x, p.attrs)] := by
  unfold attempt at h
  rw [hi] at h
  dsimp only [collectIncluded] at h
  rw [if_neg (by simp), he] at h
  dsimp only at h
  unfold lookupGroup at h
  rw [hx] at h
  dsimp only at h
  rw [hf] at h
  dsimp only at h
  have : excludedParent g p = false := by unfold excludedParent; rw [hl]; rfl
  rw [if_neg (by rw [this]; simp)] at h
  injection h with h
  rw [← h]

theorem refined_group {gs : List UGroup} {deps : List DepLookup} {g c : UGroup} {fs : List ExtErr} {x : String} {p : Summary}
    (h : Resolver.Resolves gs deps g c fs) (hi : g.includes = []) (he : g.ext = some x) (hx : x ∉ gs.map UGroup.id)
    (hf : lookupDeps deps x false = .found p) (hl : p.isLocal = false) :
    c = finalize (applyParent g x p) [(x, p.attrs)] := by
  cases h with
  | root _ _ hp => unfold isPending at hp; rw [he] at hp; simp at hp
  | step _ d par pfs _ _ _ _ ha => exact attempt_found hi he (if_neg hx) hf hl ha

theorem applyParent_parts (g : UGroup) (x : String) (p : Summary) :
    (applyParent g x p).id = g.id ∧ (applyParent g x p).attrs = g.attrs ∧ (applyParent g x p).pfx = g.pfx ∧
    (applyParent g x p).visibility = g.visibility := by
  unfold applyParent inheritV2
  dsimp only
  split <;> exact ⟨rfl, rfl, rfl, rfl⟩

theorem refined_about (g : UGroup) (x : String) (p : Summary) (u : UGroup)
    (h : ∃ as, u = { finalize (applyParent (prep g) x p) [(x, p.attrs)] with
      attrs := [], lineage := (finalize (applyParent (prep g) x p) [(x, p.attrs)]).lineage.map (fun l => { l with attrs := as }) }) :
    aboutGroup (.own u) = refinedAbout g (aboutSummary p) ∧ extendsOf (.own u) = some (x, p.type) := by
  obtain ⟨as, rfl⟩ := h
  unfold refinedAbout
  have hv : (prep g).isV2 = g.isV2 := rfl
  cases h2 : g.isV2 <;>
    simp [aboutGroup, extendsOf, finalize, applyParent, inheritV2, aboutSummary, prep, h2]

theorem gives_name {w : Resolver.World} {gs : List RGrp} {g : RGrp} {a : UAttr} {y : Attr} (h : Gives w gs g a y) :
    y.name = a.spec.key ∨ y.name = g.pfx ++ "." ++ a.spec.key := by
  cases h with
  | definition i f hs _ => left; rw [hs]; rfl
  | reference r f root hs _ _ =>
    rw [hs]
    unfold refName
    cases f.prefixFlag
    · left; rfl
    · right; rfl

theorem gives_def {w : Resolver.World} {gs : List RGrp} {g : RGrp} {a : UAttr} {y : Attr} {i : String} {f : IdFields}
    (h : Gives w gs g a y) (hs : a.spec = .id i f) : y = attrOfId i f := by
  cases h with
  | definition i' f' hs' _ => rw [hs] at hs'; injection hs' with h1 h2; rw [h1, h2]
  | reference r f' root hs' _ _ => rw [hs] at hs'; cases hs'

theorem resolved_mem {w : Resolver.World} {gs : List RGrp} {g : RGrp} {as : List UAttr} {xs : List Attr}
    (h : Resolved w gs g as xs) {u : UAttr} (hu : u ∈ as) {i : String} {f : IdFields} (hs : u.spec = .id i f) :
    attrOfId i f ∈ xs := by
  obtain ⟨l, h1, h2, h3⟩ := h
  obtain ⟨q, hq, rfl⟩ := List.mem_map.1 (h1.mem_iff.2 hu)
  rw [← gives_def (h3 q hq) hs, ← h2]
  exact List.mem_map.2 ⟨q, hq, rfl⟩

theorem resolved_back {w : Resolver.World} {gs : List RGrp} {g : RGrp} {as : List UAttr} {xs : List Attr}
    (h : Resolved w gs g as xs) {y : Attr} (hy : y ∈ xs) : ∃ u ∈ as, Gives w gs g u y := by
  obtain ⟨l, h1, h2, h3⟩ := h
  rw [← h2] at hy
  obtain ⟨q, hq, rfl⟩ := List.mem_map.1 hy
  exact ⟨q.1, h1.mem_iff.1 (List.mem_map.2 ⟨q, hq, rfl⟩), h3 q hq⟩

theorem says_key {g : UGroup} {k : String} {s : AttrSpec} (h : s ∈ says g k) : (prepSpec g s).key = k := by
  unfold says at h
  obtain ⟨a, ha, rfl⟩ := List.mem_map.1 h
  rw [prepSpec_key]
  exact of_decide_eq_true (List.mem_filter.1 ha).2

theorem attr_of_spec (a : Attr) : attrOfId a.name
    { type := a.type, brief := some a.brief, examples := a.examples, tag := a.tag, requirementLevel := a.requirementLevel
      samplingRelevant := a.samplingRelevant, note := a.note, stability := a.stability, deprecated := a.deprecated
      annotations := a.annotations, role := a.role } = stripped a := rfl

theorem refines_of {le : Attr → Attr → Bool} {glob : String → String → Bool} {deps cache : List Node} {inc : Bool}
    {specs : List UGroup} {blocks : List Block} {out : Output} {g : UGroup} {x : String}
    (h : Extending le glob deps cache inc specs blocks out g x) {p : Summary}
    (hf : lookupDeps (envOf glob deps cache).groups x false = .found p) (hl : p.isLocal = false)
    {A : List (Attr × SchemaUrl)} (ha : p.attrs = asSummary A) (hn : (A.map (fun q => q.1.name)).Nodup) :
    Refines out g x (aboutSummary p) (A.map Prod.fst) := by
  obtain ⟨cs, is, hall, _, hown, _⟩ :=
    resolved_registry_says le _ inc specs blocks out h.unique h.noShadow h.order h.resolved
  have hm : prep g ∈ prepared specs := by rw [prepared_map]; exact List.mem_map.2 ⟨g, h.mem, rfl⟩
  obtain ⟨c, hc, hres⟩ := hall.left hm
  have hx : x ∉ (prepared specs).map UGroup.id := by
    rw [prepared_map, List.map_map]
    intro hx
    obtain ⟨q, hq, he⟩ := List.mem_map.1 hx
    exact h.elsewhere q hq he
  have hceq := refined_group hres h.onlyExt h.ext hx hf hl
  obtain ⟨e1, e2, e3, e4⟩ := applyParent_parts (prep g) x p
  have hcid : c.id = g.id := by rw [hceq]; exact e1
  have hvis : c.visibility ≠ some .internalVis := by
    have : c.visibility = g.visibility := by rw [hceq]; exact e4
    rw [this]; exact h.notInternal
  obtain ⟨o, ho, h1, ⟨as, h2⟩, xs, hr, hrs⟩ := hown c hc hvis
  have hcat : c.attrs = inheritAttrs g.id (prep g).attrs [(x, asSummary A)] := by
    rw [hceq, ← ha]
    unfold finalize
    dsimp only
    rw [e1, e2]
    rfl
  have hpfx : (toRef c).pfx = g.pfx := by rw [hceq]; exact e3
  obtain ⟨ab, ex⟩ := refined_about g x p
    { c with attrs := [], lineage := c.lineage.map (fun l => { l with attrs := as }) } ⟨as, by rw [hceq]⟩
  rw [hcat] at hrs
  have layer : ∀ q ∈ A, layers (prep g).attrs [(x, asSummary A)] q.1.name =
      specOf q.1 :: (says g q.1.name).map (prepSpec g) := by
    intro q hq
    rw [layers_one, prep_layer, asSummary_layer A hn q hq]
    rfl
  refine ⟨o, ho, h1.trans hcid, ?_, ?_, ?_, xs, hr, ?_, ?_, ?_, ?_⟩
  · rw [h2]; exact hcid
  · rw [h2]; exact ab
  · rw [h2]; exact ex
  · intro a haA hs
    obtain ⟨q, hq, rfl⟩ := List.mem_map.1 haA
    have := layer q hq
    rw [hs] at this
    obtain ⟨u, hu, he⟩ := inherits (gid := g.id) (s := specOf q.1) (by rw [this]; rfl)
    rw [← attr_of_spec]
    exact resolved_mem hrs hu he
  · intro a haA f hs
    obtain ⟨q, hq, rfl⟩ := List.mem_map.1 haA
    have := layer q hq
    rw [hs] at this
    obtain ⟨u, hu, he⟩ := inherits (gid := g.id) (s := overlay (.ref q.1.name f) (specOf q.1)) (by rw [this]; rfl)
    simp only [overlay, specOf, resolveInheritanceAttr, opt_val, req_val] at he
    have := resolved_mem hrs hu he
    have eq : ∀ b : Option String, ((b.or (some q.1.brief)).getD "") = b.getD q.1.brief := by intro b; cases b <;> rfl
    simpa [attrOfId, overlaid, stripped, eq] using this
  · intro a haA i f hs
    obtain ⟨q, hq, rfl⟩ := List.mem_map.1 haA
    have hk := says_key (g := g) (k := q.1.name) (s := .id i f) (by rw [hs]; simp)
    have := layer q hq
    rw [hs] at this
    obtain ⟨u, hu, he⟩ := inherits (gid := g.id) (s := .id q.1.name f) (by
      rw [this]
      simp only [List.map_cons, List.map_nil, foldSpec, List.foldl_cons, List.foldl_nil, prepSpec, overlay_def]
      rw [show prefixed g.pfx i = q.1.name from hk])
    exact resolved_mem hrs hu he
  · intro y hy
    obtain ⟨u, hu, hg⟩ := resolved_back hrs hy
    have hkey : u.spec.key ∈ (inheritAttrs g.id (prep g).attrs [(x, asSummary A)]).map (fun a => a.spec.key) :=
      List.mem_map.2 ⟨u, hu, rfl⟩
    by_cases hsay : ∃ b ∈ g.attrs, ownKey g b = u.spec.key
    · obtain ⟨b, hb, he⟩ := hsay
      right
      refine ⟨b, hb, ?_⟩
      rw [he, ← hpfx]
      exact gives_name hg
    · left
      have hno : says g u.spec.key = [] := by
        unfold says
        rw [List.map_eq_nil_iff, List.filter_eq_nil_iff]
        intro b hb he
        exact hsay ⟨b, hb, of_decide_eq_true he⟩
      rcases ((inherit_ids g.id (prep g).attrs [(x, asSummary A)]).2 _).1 hkey with ⟨b, hb, v, hv, he⟩ | ⟨v, hv, he⟩
      · simp only [List.mem_cons, List.not_mem_nil, or_false] at hb
        subst hb
        unfold asSummary at hv
        obtain ⟨q, hq, rfl⟩ := List.mem_map.1 hv
        have hk : u.spec.key = q.1.name := he.symm
        refine ⟨q.1, List.mem_map.2 ⟨q, hq, rfl⟩, by rw [← hk]; exact hno, ?_⟩
        unfold inheritAttrs at hu
        obtain ⟨z, hz, hze⟩ := List.mem_map.1 hu
        obtain ⟨k, en⟩ := z
        obtain ⟨k1, k2⟩ := inheritMap_key g.id _ _ k en hz
        have hspec : en.spec = u.spec := by rw [← hze]
        rw [hspec] at k1 k2
        rw [← k1, hk, layer q hq, ← hk, hno] at k2
        have : u.spec = specOf q.1 := by
          simp only [List.map_nil, foldSpec, List.foldl_cons, List.foldl_nil] at k2
          injection k2 with k2
          exact k2.symm
        rw [gives_def hg this]
        exact attr_of_spec q.1
      · rw [prep_attrs] at hv
        obtain ⟨b, hb, rfl⟩ := List.mem_map.1 hv
        dsimp only at he
        rw [prepSpec_key] at he
        exact absurd ⟨b, hb, he⟩ hsay

/-! ### What the dependencies have -/

theorem isExcludedOpt_files (url : SchemaUrl) (o : RGroup Body) :
    (publishedGroup url o).grp.annotations = annotsOf o.rest := by
  unfold publishedGroup annotsOf
  cases o.rest <;> rfl

theorem published_id (url : SchemaUrl) (o : RGroup Body) : (publishedGroup url o).grp.id = o.rest.id := by
  unfold publishedGroup Body.id
  cases o.rest <;> rfl

theorem find2_none {xs : List Signal2} {pfx x : String} (h : ∀ y ∈ xs, y.id ≠ x ∧ pfx ++ y.id ≠ x) :
    find2 xs x pfx = none := by
  unfold find2
  have h1 : xs.find? (fun y => decide (y.id = x)) = none := by
    rw [List.find?_eq_none]; intro y hy; simpa using (h y hy).1
  rw [h1]
  cases hs : Imports.stripOpt pfx x with
  | none => rfl
  | some n =>
    have : xs.find? (fun y => decide (y.id = n)) = none := by
      rw [List.find?_eq_none]
      intro y hy
      have hx := (Imports.stripOpt_spec pfx x n).1 hs
      have := (h y hy).2
      simp only [decide_eq_true_eq]
      rintro rfl
      exact this hx.symm
    rw [Option.bind_some, this]
    rfl

theorem find_unique {α : Type} {xs : List α} {q : α → Bool} {y : α} (hy : y ∈ xs) (hq : q y = true)
    (hu : ∀ z ∈ xs, q z = true → z = y) : xs.find? q = some y := by
  cases hf : xs.find? q with
  | none => rw [List.find?_eq_none] at hf; exact absurd hq (hf y hy)
  | some z => rw [hu z (List.mem_of_find?_eq_some hf) (List.find?_some hf)]

theorem find2_some {xs : List Signal2} {pfx : String} {y : Signal2} (hy : y ∈ xs) (hu : ∀ z ∈ xs, z.id = y.id → z = y) :
    find2 xs (pfx ++ y.id) pfx = some y := by
  unfold find2
  rw [(Imports.stripOpt_spec pfx (pfx ++ y.id) y.id).2 rfl, Option.bind_some,
    find_unique hy (by simp) (fun z hz hq => hu z hz (of_decide_eq_true hq))]
  rfl

theorem lacks_lookup {d : Node} {x : String} (h : d.lacks x) : d.schema.asDep.group x = none := by
  cases d with
  | files url inc specs blocks deps cache listed out =>
    change lookupGroup1 (ofOutput url listed out) x = none
    unfold lookupGroup1 ofOutput
    dsimp only
    rw [List.find?_eq_none.2]
    · rfl
    · intro g hg
      obtain ⟨o, ho, rfl⟩ := List.mem_map.1 hg
      rw [published_id]
      simpa using h o ho
  | published s =>
    obtain ⟨h1, h2, h3, h4⟩ := h
    change lookupGroup2 s x = none
    unfold lookupGroup2
    rw [find2_none h1]; dsimp only
    rw [find2_none h2]; dsimp only
    rw [find2_none h3]; dsimp only
    rw [find2_none h4]

theorem lookupDeps_at {glob : String → String → Bool} {pre post cache : List Node} {d : Node} {x : String} {p : Summary}
    (hpre : ∀ e ∈ pre, e.lacks x) (hd : d.schema.asDep.group x = some p) (he : isExcludedOpt p.annotations = false) :
    lookupDeps (envOf glob (pre ++ d :: post) cache).groups x false = .found p := by
  unfold Env.groups envOf
  dsimp only
  rw [List.map_map]
  induction pre with
  | nil =>
    simp only [List.nil_append, List.map_cons, Function.comp_apply, lookupDeps, hd, he]
    rfl
  | cons e pre ih =>
    simp only [List.cons_append, List.map_cons, Function.comp_apply, lookupDeps, lacks_lookup (hpre e (by simp))]
    exact ih (fun e' he' => hpre e' (by simp [he']))

theorem filterMap_perm {refs : List Nat} {as A : List Attr} (h : (refs.map (fun r => as[r]?)).Perm (A.map some)) :
    (refs.filterMap (fun r => as[r]?)).Perm A := by
  have := h.filterMap id
  rw [List.filterMap_map, List.filterMap_map] at this
  simpa using this

theorem Refines.perm {out : Output} {g : UGroup} {x : String} {p : About} {A B : List Attr} (h : Refines out g x p A)
    (hp : A.Perm B) : Refines out g x p B := by
  obtain ⟨o, ho, h1, h2, h3, h4, xs, h5, h6, h7, h8, h9⟩ := h
  refine ⟨o, ho, h1, h2, h3, h4, xs, h5, fun a ha => h6 a (hp.mem_iff.2 ha), fun a ha => h7 a (hp.mem_iff.2 ha),
    fun a ha => h8 a (hp.mem_iff.2 ha), fun y hy => ?_⟩
  rcases h9 y hy with ⟨a, ha, h⟩ | h
  · exact .inl ⟨a, hp.mem_iff.1 ha, h⟩
  · exact .inr h

/-! ### C180 -/

/-- C180: extending a group of a dependency that was resolved from its files. The dependencies before it have no group
`x`, and it has one, `o`, that is not excluded and refers to the attributes `A`, of different names. Then the published
refinement says what it should, and has the attributes of `A` with what the refinement says about them. -/
theorem refining_files (le : Attr → Attr → Bool) (glob : String → String → Bool) (pre post cache : List Node) (inc : Bool)
    (specs : List UGroup) (blocks : List Block) (out : Output) (g : UGroup) (x : String) (durl : SchemaUrl) (dinc : Bool)
    (dspecs : List UGroup) (dblocks : List Block) (ddeps dcache : List Node) (dlisted : List SchemaUrl) (dout : Output)
    (h : Extending le glob (pre ++ .files durl dinc dspecs dblocks ddeps dcache dlisted dout :: post) cache inc specs blocks
      out g x)
    (hpre : ∀ e ∈ pre, e.lacks x) (o : RGroup Body) (ho : o ∈ dout.groups) (hid : o.rest.id = x)
    (hu : ∀ o' ∈ dout.groups, o'.rest.id = x → o' = o) (hex : isExcludedOpt (annotsOf o.rest) = false) (A : List Attr)
    (hA : Reads dout o.attrs A) (hn : (A.map Attr.name).Nodup) : Refines out g x (aboutGroup o.rest) A := by
  have hfind : (dout.groups.map (publishedGroup durl)).find? (fun g => decide (g.grp.id = x)) = some (publishedGroup durl o) := by
    rw [List.find?_map, find_unique (y := o) ho]
    · rfl
    · simp [published_id, hid]
    · intro z hz hq
      refine hu z hz ?_
      simpa [published_id] using hq
  have hperm := filterMap_perm hA
  let s := ofOutput durl dlisted dout
  have hatt : attrsOf s (publishedGroup durl o) = o.attrs.filterMap (fun r => dout.attrs[r]?) := rfl
  have hl : ∃ p, lookupGroup1 s x = some p ∧ p.isLocal = false ∧ p.annotations = annotsOf o.rest ∧
      aboutSummary p = aboutGroup o.rest ∧
      p.attrs = asSummary ((o.attrs.filterMap (fun r => dout.attrs[r]?)).map (fun a => (a, findSource s a.name))) := by
    unfold lookupGroup1
    rw [show s.groups = dout.groups.map (publishedGroup durl) from rfl, hfind]
    refine ⟨_, rfl, rfl, isExcludedOpt_files durl o, ?_, ?_⟩
    · unfold aboutSummary aboutGroup publishedGroup
      cases o.rest <;> rfl
    · dsimp only
      rw [hatt]
      unfold asSummary
      rw [List.map_map]
      rfl
  obtain ⟨p, hp, h1, h2, h3, h4⟩ := hl
  have hf := lookupDeps_at (glob := glob) (post := post) (cache := cache) (d := .files durl dinc dspecs dblocks ddeps dcache dlisted dout)
    hpre hp (by rw [h2]; exact hex)
  have := refines_of h hf h1 h4 (by
    rw [List.map_map]
    exact (hperm.map Attr.name).nodup_iff.2 hn)
  rw [h3, List.map_map] at this
  refine this.perm ?_
  simpa [Function.comp_def] using hperm

theorem refAttrs2_fst (s : Schema2) (role : Option Role) (b : Bool) (rs : List Ref2) :
    (refAttrs2 s role b rs).map Prod.fst = (rs.map (fun r => (r, role))).filterMap fun p =>
      (s.catalog[p.1.base]?).map fun a =>
        ({ name := a.key, type := a.type, brief := a.common.brief, examples := a.examples, requirementLevel := p.1.level
           samplingRelevant := if b then p.1.sampling else none, note := a.common.note
           stability := some a.common.stability, deprecated := a.common.deprecated
           annotations := some a.common.annotations, role := p.2 } : Attr) := by
  unfold refAttrs2
  rw [List.map_filterMap, List.filterMap_map]
  congr 1
  funext r
  simp only [Function.comp_apply, Option.map_map]
  rfl

/-- What a lookup finds of a published signal. -/
theorem lookup_published {s : Schema2} {t : GroupType} {pfx : String} {ys : List Signal2} (hk : (t, pfx, ys) ∈ kinds s)
    {y : Signal2} (hy : y ∈ ys)
    (hu : ∀ k ∈ kinds s, ∀ z ∈ k.2.2, (k.2.1 ++ z.id = pfx ++ y.id ∨ z.id = pfx ++ y.id) → k.1 = t ∧ z = y) :
    ∃ p B, lookupGroup2 s (pfx ++ y.id) = some p ∧ p.isLocal = false ∧ p.annotations = some y.common.annotations ∧
      aboutSummary p = aboutSignal t y ∧ p.attrs = asSummary B ∧ B.map Prod.fst = signalAttrs s t y := by
  have lack : ∀ t' pfx' ys', (t', pfx', ys') ∈ kinds s → t' ≠ t → find2 ys' (pfx ++ y.id) pfx' = none := by
    intro t' pfx' ys' h' ht
    refine find2_none (fun z hz => ⟨fun e => ht (hu _ h' z hz (.inr e)).1, fun e => ht (hu _ h' z hz (.inl e)).1⟩)
  have hit : find2 ys (pfx ++ y.id) pfx = some y :=
    find2_some hy (fun z hz e => (hu _ hk z hz (.inl (by rw [e]))).2)
  have hk' := hk
  simp only [kinds, List.mem_cons, Prod.mk.injEq, List.not_mem_nil, or_false] at hk'
  unfold lookupGroup2
  rcases hk' with ⟨rfl, rfl, rfl⟩ | ⟨rfl, rfl, rfl⟩ | ⟨rfl, rfl, rfl⟩ | ⟨rfl, rfl, rfl⟩
  · rw [hit]
    refine ⟨_, entityAttrs2 s y, rfl, rfl, rfl, rfl, rfl, ?_⟩
    unfold entityAttrs2 signalAttrs
    rw [List.map_append, refAttrs2_fst, refAttrs2_fst, List.filterMap_append]
    rfl
  · rw [lack .entity "entity." s.entities (by simp [kinds]) (by simp), hit]
    refine ⟨_, refAttrs2 s none false y.refs, rfl, rfl, rfl, rfl, rfl, ?_⟩
    unfold signalAttrs
    rw [refAttrs2_fst, List.filterMap_append]
    simp
  · rw [lack .entity "entity." s.entities (by simp [kinds]) (by simp)]
    dsimp only
    rw [lack .metric "metric." s.metrics (by simp [kinds]) (by simp), hit]
    refine ⟨_, refAttrs2 s none false y.refs, rfl, rfl, rfl, rfl, rfl, ?_⟩
    unfold signalAttrs
    rw [refAttrs2_fst, List.filterMap_append]
    simp
  · rw [lack .entity "entity." s.entities (by simp [kinds]) (by simp)]
    dsimp only
    rw [lack .metric "metric." s.metrics (by simp [kinds]) (by simp)]
    dsimp only
    rw [lack .event "event." s.events (by simp [kinds]) (by simp), hit]
    refine ⟨_, refAttrs2 s none true y.refs, rfl, rfl, rfl, rfl, rfl, ?_⟩
    unfold signalAttrs
    rw [refAttrs2_fst, List.filterMap_append]
    simp

/-- C180: extending a signal of a published dependency. The dependencies before it have no group `x`; the signal `y` of
type `t` is the only one whose id, with or without the prefix of its type, is `x`; it is not excluded, and its attributes
have different names. -/
theorem refining_published (le : Attr → Attr → Bool) (glob : String → String → Bool) (pre post cache : List Node)
    (inc : Bool) (specs : List UGroup) (blocks : List Block) (out : Output) (g : UGroup) (s : Schema2) (t : GroupType)
    (pfx : String) (ys : List Signal2) (hk : (t, pfx, ys) ∈ kinds s) (y : Signal2) (hy : y ∈ ys)
    (h : Extending le glob (pre ++ .published s :: post) cache inc specs blocks out g (pfx ++ y.id))
    (hpre : ∀ e ∈ pre, e.lacks (pfx ++ y.id))
    (hu : ∀ k ∈ kinds s, ∀ z ∈ k.2.2, (k.2.1 ++ z.id = pfx ++ y.id ∨ z.id = pfx ++ y.id) → k.1 = t ∧ z = y)
    (hex : isExcludedOpt (some y.common.annotations) = false) (hn : ((signalAttrs s t y).map Attr.name).Nodup) :
    Refines out g (pfx ++ y.id) (aboutSignal t y) (signalAttrs s t y) := by
  obtain ⟨p, B, h1, h2, h3, h4, h5, h6⟩ := lookup_published hk hy hu
  have hf := lookupDeps_at (glob := glob) (post := post) (cache := cache) (d := .published s) hpre h1 (by rw [h3]; exact hex)
  rw [← h6, ← h4]
  refine refines_of h hf h2 h5 ?_
  rw [← h6, List.map_map] at hn
  exact hn

/-! ### Cases -/

/-- A metric with two attributes. -/
def parentSpecs : List UGroup :=
  [{ id := "registry.x", attrs := [⟨.id "x" { type := "string", brief := some "an x" }, none⟩, ⟨.id "y" { type := "int" }, none⟩] },
   { id := "metric.m", type := .metric, metricName := some "m", instrument := some "counter", unit := some "s", brief := "the m"
     attrs := [⟨.ref "x" { note := some "for m" }, none⟩, ⟨.ref "y" { requirementLevel := some "required" }, none⟩] }]

/-- A refinement of it that says something about one of them, and adds another. -/
def refinement : UGroup :=
  { id := "metric.m.client", type := .metric, ext := some "metric.m", isV2 := true, note := "at the client"
    attrs := [⟨.ref "x" { brief := some "the x of the client" }, none⟩, ⟨.id "z" { type := "int" }, none⟩] }

def parent : Node := mk (urlOf "parent" 1) false parentSpecs [] [] []
def refiner : Node := mk (urlOf "refiner" 1) false [refinement] [] [mid, parent, base] []

def outOfNode : Node → Output
  | .files _ _ _ _ _ _ _ out => out
  | .published _ => outOf (.error .panic)

theorem refiner_extending : Extending exLe exGlob [mid, parent, base] [] false [refinement] [] (outOfNode refiner) refinement
    "metric.m" where
  resolved := by rfl
  order := exLe_totalPre
  unique := by decide
  noShadow := by
    intro g hg h hh he _
    simp only [prepared, List.map_cons, List.map_nil, List.mem_cons, List.not_mem_nil, or_false] at hg hh
    subst hg; subst hh
    exact absurd he (by decide)
  mem := by simp
  ext := rfl
  onlyExt := rfl
  notInternal := by decide
  elsewhere := by intro h hh; simp only [List.mem_cons, List.not_mem_nil, or_false] at hh; subst hh; decide

/-- The attributes of the metric of the dependency. -/
def parentAttrs : List Attr :=
  [{ name := "x", type := "string", brief := "an x", note := "for m" }, { name := "y", type := "int", requirementLevel := "required" }]

/-- `refining_files` applies: the dependency has one such metric, and the one before it has none. -/
example : mid.lacks "metric.m" ∧ ∃ o ∈ (outOfNode parent).groups, o.rest.id = "metric.m" ∧
    (∀ o' ∈ (outOfNode parent).groups, o'.rest.id = "metric.m" → o' = o) ∧ isExcludedOpt (annotsOf o.rest) = false ∧
    Reads (outOfNode parent) o.attrs parentAttrs ∧ (parentAttrs.map Attr.name).Nodup := by
  refine ⟨?_, ?_⟩
  · change ∀ o ∈ (outOfNode mid).groups, o.rest.id ≠ "metric.m"
    decide +kernel
  · unfold Reads
    decide +kernel

/-- What comes out of it: `x` with the text of the refinement and the note of the metric, `y` as the metric has it, and the
attribute added. -/
example : (outOfNode refiner).attrs =
    [{ name := "x", type := "string", brief := "the x of the client", note := "for m" },
     { name := "y", type := "int", requirementLevel := "required" }, { name := "z", type := "int" }] := by decide +kernel

/-- A published schema with a metric, and an entity whose id looks like that of the metric. -/
def signals (ids : List String) : Schema2 :=
  { url := urlOf "signals" 1
    catalog := [{ key := "x", type := "string" }, { key := "y", type := "int" }]
    attributes := [0, 1]
    entities := ids.map (fun i => { id := i, refs := [{ base := 1 }] })
    metrics := [{ id := "m", refs := [{ base := 0, level := "required" }], instrument := "counter", unit := "s" }] }

def overSignals (ids : List String) : Node := mk (urlOf "over" 1) false [refinement] [] [.published (signals ids)] []

theorem signals_extending (ids : List String) (h : ids = ["host"] ∨ ids = ["metric.m"]) :
    Extending exLe exGlob [.published (signals ids)] [] false [refinement] [] (outOfNode (overSignals ids)) refinement
      "metric.m" where
  resolved := by rcases h with rfl | rfl <;> rfl
  order := exLe_totalPre
  unique := by decide
  noShadow := by
    intro g hg h hh he _
    simp only [prepared, List.map_cons, List.map_nil, List.mem_cons, List.not_mem_nil, or_false] at hg hh
    subst hg; subst hh
    exact absurd he (by decide)
  mem := by simp
  ext := rfl
  onlyExt := rfl
  notInternal := by decide
  elsewhere := by intro h hh; simp only [List.mem_cons, List.not_mem_nil, or_false] at hh; subst hh; decide

/-- `refining_published` applies when the entity has another id. -/
example : (∀ k ∈ kinds (signals ["host"]), ∀ z ∈ k.2.2, (k.2.1 ++ z.id = "metric." ++ "m" ∨ z.id = "metric." ++ "m") →
      k.1 = GroupType.metric ∧ z ∈ (signals ["host"]).metrics) ∧
    (signalAttrs (signals ["host"]) .metric (((signals ["host"]).metrics)[0]'(by decide))).map Attr.name = ["x"] := by
  decide +kernel

/-- C180, without the condition on the other signals: false. The id of an entity is looked at before the name of a metric,
so an entity whose id is `metric.m` is what an extension of `metric.m` extends. -/
theorem refining_published_refuted : ∃ (s : Schema2) (specs : List UGroup) (out : Output) (g : UGroup) (y : Signal2),
    y ∈ s.metrics ∧ (∀ z ∈ s.metrics, z.id = y.id → z = y) ∧
    Extending exLe exGlob [.published s] [] false specs [] out g ("metric." ++ y.id) ∧
    isExcludedOpt (some y.common.annotations) = false ∧ ((signalAttrs s .metric y).map Attr.name).Nodup ∧
    ¬ Refines out g ("metric." ++ y.id) (aboutSignal .metric y) (signalAttrs s .metric y) := by
  refine ⟨signals ["metric.m"], [refinement], outOfNode (overSignals ["metric.m"]), refinement,
    { id := "m", refs := [{ base := 0, level := "required" }], instrument := "counter", unit := "s" }, by decide, by decide,
    signals_extending _ (.inr rfl), rfl, by decide +kernel, ?_⟩
  rintro ⟨o, ho, _, _, _, he, _⟩
  have : ∀ o ∈ (outOfNode (overSignals ["metric.m"])).groups, extendsOf o.rest ≠ some ("metric.m", .metric) := by decide +kernel
  exact this o ho he

end Verif.Chain
