import Verif.Resolver.Merge
import Verif.Resolver.Version
/-
Model of attribute inheritance: crates/weaver_resolved_schema/src/lineage.rs (attribute lineage) and
`resolve_inheritance_attrs_unified` / `resolve_inheritance_attr` of crates/weaver_resolver/src/registry.rs.
-/
namespace Verif.Resolver
open Verif.Util

/-- The field names used as lineage entries (the code uses their text). -/
inductive Field where
  | brief | examples | tag | requirementLevel | samplingRelevant | note | stability | deprecated | prefixField
  | annotations | role
deriving DecidableEq, Repr

/-- crates/weaver_semconv/src/attribute.rs `AttributeRole`. -/
inductive Role where
  | identifying | descriptive
deriving DecidableEq, Repr

/-- Fields of `AttributeSpec::Ref` (crates/weaver_semconv/src/attribute.rs), without the referenced id.
Simplification: examples, requirement levels, stability and deprecation are opaque texts here; this part of the code
only copies and compares them. -/
structure RefFields where
  brief : Option String := none
  examples : Option String := none
  tag : Option String := none
  requirementLevel : Option String := none
  samplingRelevant : Option Bool := none
  note : Option String := none
  stability : Option String := none
  deprecated : Option String := none
  prefixFlag : Bool := false
  annotations : Option Annots := none
  role : Option Role := none
deriving DecidableEq

/-- Fields of `AttributeSpec::Id` (crates/weaver_semconv/src/attribute.rs), without the id. -/
structure IdFields where
  type : String
  brief : Option String := none
  examples : Option String := none
  tag : Option String := none
  requirementLevel : String := "recommended"
  samplingRelevant : Option Bool := none
  note : String := ""
  stability : Option String := none
  deprecated : Option String := none
  annotations : Option Annots := none
  role : Option Role := none
deriving DecidableEq

/-- crates/weaver_semconv/src/attribute.rs `AttributeSpec`. -/
inductive AttrSpec where
  | ref (r : String) (f : RefFields)
  | id (i : String) (f : IdFields)
deriving DecidableEq

/-- crates/weaver_semconv/src/attribute.rs `AttributeSpec::id`. -/
def AttrSpec.key : AttrSpec → String
  | .ref r _ => r
  | .id i _ => i

/-- crates/weaver_resolver/src/registry.rs `UnresolvedAttribute`: a specification and the dependency it was inherited
from, if any. -/
structure UAttr where
  spec : AttrSpec
  origin : Option SchemaUrl := none
deriving DecidableEq

/-- crates/weaver_resolved_schema/src/lineage.rs:20-33 `AttributeLineage`. The two `BTreeSet`s are lists used as
sets. -/
structure AttrLineage where
  sourceGroup : String
  inherited : List Field := []
  overridden : List Field := []
deriving DecidableEq

/-- `BTreeSet::insert`. -/
def finsert (f : Field) (s : List Field) : List Field := if f ∈ s then s else f :: s
/-- `BTreeSet::remove`. -/
def fremove (f : Field) (s : List Field) : List Field := s.filter (· ≠ f)

/-- crates/weaver_resolved_schema/src/lineage.rs:76-82 `AttributeLineage::new`. -/
def AttrLineage.new (g : String) : AttrLineage := { sourceGroup := g }

/-- `if value.is_some() { inherited_fields.insert(f) }`, one line of lineage.rs:106-174. -/
def addIf (c : Bool) (f : Field) (s : List Field) : List Field := if c then finsert f s else s

/-- crates/weaver_resolved_schema/src/lineage.rs:87-178 `AttributeLineage::inherit_from`. -/
def AttrLineage.inheritFrom (g : String) : AttrSpec → AttrLineage
  | .ref _ f =>
    { sourceGroup := g
      inherited :=
        addIf f.prefixFlag .prefixField <| addIf f.deprecated.isSome .deprecated <| addIf f.stability.isSome .stability <|
        addIf f.note.isSome .note <| addIf f.samplingRelevant.isSome .samplingRelevant <|
        addIf f.requirementLevel.isSome .requirementLevel <| addIf f.tag.isSome .tag <|
        addIf f.examples.isSome .examples <| addIf f.brief.isSome .brief [] }
  | .id _ f =>
    { sourceGroup := g
      inherited :=
        addIf f.deprecated.isSome .deprecated <| addIf f.stability.isSome .stability <|
        finsert .note <| addIf f.samplingRelevant.isSome .samplingRelevant <|
        finsert .requirementLevel <| addIf f.tag.isSome .tag <|
        addIf f.examples.isSome .examples <| addIf f.brief.isSome .brief [] }

/-- crates/weaver_resolved_schema/src/lineage.rs:180-184 `is_empty`. -/
def AttrLineage.isEmpty (l : AttrLineage) : Bool := l.inherited.isEmpty && l.overridden.isEmpty

/-- The local value is used: lineage.rs, first branch of every helper. -/
def AttrLineage.markLocal (l : AttrLineage) (f : Field) : AttrLineage :=
  { l with overridden := finsert f l.overridden, inherited := fremove f l.inherited }

/-- The parent value is used: lineage.rs, second branch of every helper. -/
def AttrLineage.markInherited (l : AttrLineage) (f : Field) : AttrLineage :=
  { l with inherited := finsert f l.inherited }

/-- Helpers with an optional parent value: lineage.rs:207-222 `optional_brief`, 245-260 `optional_note`, 289-306
`optional_requirement_level`, 313-328 `examples`, 335-352 `stability`, 358-373 `optional_role`, 380-397 `deprecated`,
406-421 `tag`, 430-447 `annotations`, 456-473 `sampling_relevant` (all have this body, with their own field name). -/
def AttrLineage.opt {α : Type} (l : AttrLineage) (f : Field) (lv pv : Option α) : AttrLineage × Option α :=
  match lv with
  | some v => (l.markLocal f, some v)
  | none => (if pv.isSome then l.markInherited f else l, pv)

/-- Helpers with a mandatory parent value: lineage.rs:191-200 `brief`, 229-238 `note`, 267-282
`requirement_level`. -/
def AttrLineage.req {α : Type} (l : AttrLineage) (f : Field) (lv : Option α) (pv : α) : AttrLineage × α :=
  match lv with
  | some v => (l.markLocal f, v)
  | none => (l.markInherited f, pv)

/-- crates/weaver_resolved_schema/src/lineage.rs:477-488 `prefix`. -/
def AttrLineage.pfx (l : AttrLineage) (lv pv : Bool) : AttrLineage × Bool :=
  if lv then (l.markLocal .prefixField, lv)
  else (if pv then l.markInherited .prefixField else l, pv)

/-- crates/weaver_resolver/src/registry.rs:1203-1295 `resolve_inheritance_attr`: `attr` over `parent`. -/
def resolveInheritanceAttr (attr parent : AttrSpec) (l : AttrLineage) : AttrLineage × AttrSpec :=
  match attr with
  | .ref r f =>
    match parent with
    | .ref _ p =>
      let r1 := l.opt .brief f.brief p.brief
      let r2 := r1.1.opt .examples f.examples p.examples
      let r3 := r2.1.opt .tag f.tag p.tag
      let r4 := r3.1.opt .requirementLevel f.requirementLevel p.requirementLevel
      let r5 := r4.1.opt .samplingRelevant f.samplingRelevant p.samplingRelevant
      let r6 := r5.1.opt .note f.note p.note
      let r7 := r6.1.opt .stability f.stability p.stability
      let r8 := r7.1.opt .deprecated f.deprecated p.deprecated
      let r9 := r8.1.pfx f.prefixFlag p.prefixFlag
      let r10 := r9.1.opt .annotations f.annotations p.annotations
      let r11 := r10.1.opt .role f.role p.role
      (r11.1, .ref r
        { brief := r1.2, examples := r2.2, tag := r3.2, requirementLevel := r4.2, samplingRelevant := r5.2, note := r6.2,
          stability := r7.2, deprecated := r8.2, prefixFlag := r9.2, annotations := r10.2, role := r11.2 })
    | .id _ p =>
      let r1 := l.opt .brief f.brief p.brief
      let r2 := r1.1.opt .examples f.examples p.examples
      let r3 := r2.1.opt .tag f.tag p.tag
      let r4 := r3.1.req .requirementLevel f.requirementLevel p.requirementLevel
      let r5 := r4.1.opt .samplingRelevant f.samplingRelevant p.samplingRelevant
      let r6 := r5.1.req .note f.note p.note
      let r7 := r6.1.opt .stability f.stability p.stability
      let r8 := r7.1.opt .deprecated f.deprecated p.deprecated
      let r9 := r8.1.opt .annotations f.annotations p.annotations
      let r10 := r9.1.opt .role f.role p.role
      (r10.1, .id r
        { type := p.type, brief := r1.2, examples := r2.2, tag := r3.2, requirementLevel := r4.2, samplingRelevant := r5.2,
          note := r6.2, stability := r7.2, deprecated := r8.2, annotations := r9.2, role := r10.2 })
  | .id _ _ => (l, attr)

/-- crates/weaver_resolver/src/registry.rs:1099-1103 `AttrWithLineage`. -/
structure Entry where
  spec : AttrSpec
  lineage : AttrLineage
  origin : Option SchemaUrl
deriving DecidableEq

/-- registry.rs:1112-1139: one attribute of a base (parent or included group). -/
def stepBase (g : String) (m : List (String × Entry)) (a : UAttr) : List (String × Entry) :=
  match aget a.spec.key m with
  | some e =>
    let r := resolveInheritanceAttr a.spec e.spec e.lineage
    bins a.spec.key { spec := r.2, lineage := { r.1 with sourceGroup := g }, origin := a.origin } m
  | none => bins a.spec.key { spec := a.spec, lineage := .inheritFrom g a.spec, origin := a.origin } m

/-- registry.rs:1143-1175: one own attribute. -/
def stepOwn (gid : String) (m : List (String × Entry)) (a : UAttr) : List (String × Entry) :=
  match a.spec with
  | .ref r _ =>
    match aget r m with
    | some e =>
      let res := resolveInheritanceAttr a.spec e.spec e.lineage
      bins r { e with spec := res.2, lineage := res.1 } m
    | none => bins r { spec := a.spec, lineage := .new gid, origin := a.origin } m
  | .id i _ => bins i { spec := a.spec, lineage := .new gid, origin := a.origin } m

/-- registry.rs:1105-1175: the map built by `resolve_inheritance_attrs_unified`. -/
def inheritMap (gid : String) (own : List UAttr) (bases : List (String × List UAttr)) : List (String × Entry) :=
  own.foldl (stepOwn gid) (bases.foldl (fun m b => b.2.foldl (stepBase b.1) m) [])

/-- crates/weaver_resolver/src/registry.rs:1093-1201 `resolve_inheritance_attrs_unified`: the attributes. -/
def inheritAttrs (gid : String) (own : List UAttr) (bases : List (String × List UAttr)) : List UAttr :=
  (inheritMap gid own bases).map (fun p => { spec := p.2.spec, origin := p.2.origin })

/-- registry.rs:1178-1192: the attribute lineages added to the group lineage (only the non empty ones). -/
def inheritLineages (gid : String) (own : List UAttr) (bases : List (String × List UAttr)) :
    List (String × AttrLineage) :=
  (inheritMap gid own bases).filterMap (fun p =>
    if p.2.lineage.isEmpty then none else some (p.2.spec.key, p.2.lineage))

end Verif.Resolver
