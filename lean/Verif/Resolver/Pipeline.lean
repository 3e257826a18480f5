import Verif.Resolver.Extends
import Verif.Resolver.Refs
import Verif.Imports.Model
/-
Model of `resolve_registry_with_dependencies`, crates/weaver_resolver/src/registry.rs:96-233: the phases of
Verif.Resolver.Extends, Verif.Resolver.Refs, Verif.Imports.Model, Verif.Resolver.Catalog and Verif.Checks.Model put
together, with the prefix phase (registry.rs:421-432) and the registration of imported attributes
(crates/weaver_resolver/src/attribute.rs:138-170) in between.
-/
namespace Verif.Pipeline
open Verif.Util Verif.Resolver

/-- A dependency (dependency.rs:98-103 `ResolvedDependency`) as the phases see it: the groups `extends` can name, the
attributes references can name, and what can be imported. -/
structure Dep where
  group : DepLookup
  attr : AttrLookup
  imp : Imports.Dep

/-- What resolution reads besides the groups: the globset crate, the dependencies, the versions chosen in the dependency
graph and the cache of resolved schemas (`SchemaCacheLookup`). -/
structure Env where
  glob : String → String → Bool
  deps : List Dep := []
  chosen : Chosen := []
  schema : SchemaUrl → Option Dep := fun _ => none

/-- What the attribute phase sees of it. -/
def Env.refWorld (e : Env) : Resolver.World :=
  { deps := e.deps.map Dep.attr, chosen := fun n => aget n e.chosen, schema := fun u => (e.schema u).map Dep.attr }

/-- What the import phase sees of it. -/
def Env.impWorld (e : Env) : Imports.World :=
  { glob := e.glob, chosen := e.chosen, schema := fun u => (e.schema u).map Dep.imp }

/-- registry.rs:371-415 `group_from_spec`. The specification is given with the fields of the group; what it says of
lineage and of the origin of attributes is not looked at. -/
def groupFromSpec (g : UGroup) : UGroup :=
  { g with lineage := some {}, attrs := g.attrs.map (fun a => { a with origin := none }) }

/-- registry.rs:424-428: one attribute. -/
def prefixAttr (p : String) (a : UAttr) : UAttr :=
  match a.spec with
  | .id i f => { a with spec := .id (p ++ "." ++ i) f }
  | .ref _ _ => a

/-- registry.rs:421-432 `resolve_prefix_on_attributes`: one group. -/
def prefixGroup (g : UGroup) : UGroup :=
  if g.pfx ≠ "" then { g with attrs := g.attrs.map (prefixAttr g.pfx) } else g

/-- The group as the attribute phase sees it (registry.rs:645-652). -/
def toRef (g : UGroup) : RGrp :=
  { id := g.id, pfx := g.pfx, excluded := isGroupExcluded g.annotations g.visibility g.type, pending := g.attrs,
    lineage := g.lineage.map GLineage.attrs }

/-- registry.rs:679-680, 732-734 and attribute.rs:409-411: what the attribute phase writes back into the group. -/
def writeBack (g : UGroup) (r : RGrp) : UGroup :=
  { g with
    attrs := r.pending
    lineage := match g.lineage, r.lineage with
      | some l, some as => some { l with attrs := as }
      | o, _ => o }

/-- What a group of the registry is made of, apart from its attribute references: a group of the registry's own files or
an imported one. -/
inductive Body where
  | own (g : UGroup)
  | imported (g : Imports.Grp)
deriving DecidableEq

/-- `lineage.extends_group` and its type are set: the group refines a group of its own type
(crates/weaver_resolved_schema/src/v2/mod.rs:256-261 `is_refinement_of`). -/
def refinesOwnType (g : UGroup) : Bool :=
  match g.lineage with
  | some l => match l.extendsGroup with
    | some p => decide (p.2 = g.type)
    | none => false
  | none => false

/-- The group as the association phase sees it (registry.rs:517-624). -/
def Body.asImport : Body → Imports.Grp
  | .own g =>
    { id := g.id, type := g.type, name := g.name, metricName := g.metricName, annotations := g.annotations, isV2 := g.isV2
      refines := refinesOwnType g, assocs := g.assocs, visibility := g.visibility, brief := g.brief
      fields :=
        { note := g.note, stability := g.stability, deprecated := g.deprecated, instrument := g.instrument, unit := g.unit
          reqLevel := g.reqLevel, spanKind := g.spanKind, spanName := g.spanName } }
  | .imported g => g

/-- The id of a group. -/
def Body.id : Body → String
  | .own g => g.id
  | .imported g => g.id

/-- The visibility of the `UnresolvedGroup`; an imported group has none (registry.rs:489). -/
def Body.internal : Body → Bool
  | .own g => decide (g.visibility = some .internalVis)
  | .imported _ => false

/-- The group as the final checks see it (registry.rs:185-231). -/
def Body.asCheck (refs : List Nat) : Body → Checks.Grp
  | .own g =>
    { id := g.id, type := g.type, name := g.name, metricName := g.metricName
      lineage := g.lineage.map (fun l =>
        { provenance := g.prov, extendsGroup := l.extendsGroup.map Prod.fst, extendsType := l.extendsGroup.map Prod.snd,
          attrs := l.attrs.map Prod.fst })
      attributes := refs, isV2 := g.isV2, visibility := g.visibility }
  | .imported g =>
    { id := g.id, type := g.type, name := g.name, metricName := g.metricName, lineage := g.lin, attributes := refs
      isV2 := g.isV2 }

/-- attribute.rs:138-170 `attribute_ref_with_provenance`. -/
def registerAttr (w : Resolver.World) (st : RState) (a : Attr) (u : SchemaUrl) : Except RErr (RState × Nat) :=
  match upgrade w { attr := a, src := .dep u, isDef := true } with
  | .error e => .error e
  | .ok n =>
    let c := attributeRef st.cat n.attr
    let root := match aget a.name st.roots with
      | some existing => resolveRoots a.name n existing
      | none => .ok n
    match root with
    | .error e => .error e
    | .ok r => .ok ({ roots := aset a.name r st.roots, cat := c.1 }, c.2)

/-- imports.rs:372-386, 455-472 and 620-652: the attributes of one imported group. -/
def registerAttrs (w : Resolver.World) (st : RState) : List (Attr × SchemaUrl) → Except RErr (RState × List Nat)
  | [] => .ok (st, [])
  | p :: ps => match registerAttr w st p.1 p.2 with
    | .error e => .error e
    | .ok r => match registerAttrs w r.1 ps with
      | .error e => .error e
      | .ok rs => .ok (rs.1, r.2 :: rs.2)

/-- How resolution fails. -/
inductive Fail where
  | extends (es : List ExtErr)
  | attributes (es : List RErr)
  | imports (es : List Imports.IErr)
  | panic
deriving DecidableEq

/-- The groups one dependency gives, with their attributes registered. In the code the attributes of a group are
registered while the groups are collected, so of several errors another one may be reported; and the attributes of a v2
signal that an upgrade replaces are registered too, and dropped by the clean-up. -/
def registerGroups (w : Resolver.World) (st : RState) :
    List Imports.Imported → Except RErr (RState × List (Imports.Imported × List Nat))
  | [] => .ok (st, [])
  | i :: is => match registerAttrs w st i.group.attrs with
    | .error e => .error e
    | .ok r => match registerGroups w r.1 is with
      | .error e => .error e
      | .ok rs => .ok (rs.1, (i, r.2) :: rs.2)

/-- imports.rs:992-1003: one candidate (`Imports.keepFirst` with the references carried along). -/
def keepFirst (acc : List (Imports.Imported × List Nat)) (c : Imports.Imported × List Nat) :
    List (Imports.Imported × List Nat) :=
  if acc.any (fun k => decide (Imports.originUrl k.1.group k.1.url = Imports.originUrl c.1.group c.1.url)
      && decide (k.1.group.type = c.1.group.type) && Imports.sameImported k.1.group c.1.group) then acc
  else acc ++ [c]

/-- imports.rs:973-1008 `import_groups` over all dependencies. -/
def importLoop (e : Env) (bs : List Imports.Block) (st : RState) (acc : List (Imports.Imported × List Nat)) :
    List Imports.Dep → Except Fail (RState × List (Imports.Imported × List Nat))
  | [] => .ok (st, acc)
  | d :: ds => match Imports.importDep e.impWorld bs d with
    | .error es => .error (.imports es)
    | .ok cs => match registerGroups e.refWorld st cs with
      | .error er => .error (.attributes [er])
      | .ok r => importLoop e bs r.1 (r.2.foldl keepFirst acc) ds

/-- registry.rs:450-493: an imported group as the registry holds it. It keeps the provenance of its lineage; the one
computed in 463-484 is that of the `UnresolvedGroup`, which only error messages show. -/
def bodyOfImport (i : Imports.Imported) : Imports.Grp := { i.group with visibility := none }

/-- registry.rs:459-464: the association origins an imported group brings. -/
def bringOrigins (m : List (String × Imports.Origins)) (i : Imports.Imported) : List (String × Imports.Origins) :=
  if i.origins ≠ [] then aset i.group.id i.origins m else m

/-- The non-fatal errors of resolution. -/
inductive Warn where
  | deprecatedIncludeUnreferenced
  | unmatched (e : Imports.IErr)
  | check (e : Checks.CheckErr)
deriving DecidableEq

/-- registry.rs:127-150: the block added for `include_unreferenced`. -/
def implicitBlock : Imports.Block :=
  { path := "--include-unreferenced", metrics := ["*"], events := ["*"], spans := ["*"], entities := ["*"]
    attributeGroups := ["*"] }

/-- The resolved registry: published groups, published attributes, where associations resolved, non-fatal errors, and the
root attributes by name, which registries that depend on this one look attributes up in. The references of a group index
the attributes. -/
structure Output where
  groups : List (RGroup Body)
  attrs : List Attr
  origins : List (String × Imports.Origins)
  warnings : List Warn
  roots : List (String × Rooted) := []

/-- The groups about to be published. -/
def toPublish (b : Body) (refs : List Nat) : RGroup Body :=
  { id := b.id, attrs := refs, internal := b.internal, rest := b }

/-- registry.rs:179-231: clean-up and checks. -/
def publish (le : Attr → Attr → Bool) (cat : Cat Attr) (gs : List (RGroup Body)) (origins : List (String × Imports.Origins))
    (ws : List Warn) (roots : List (String × Rooted)) : Except Fail Output :=
  match cleanup le cat gs with
  | none => .error .panic
  | some r => .ok
    { groups := r.2, attrs := drain r.1, origins := origins
      warnings := ws ++ (Checks.allChecks (r.2.map (fun g => g.rest.asCheck g.attrs)) ((drain r.1).map Attr.name)).map
        Warn.check
      roots := roots }

/-- registry.rs:96-233 `resolve_registry_with_dependencies`. `le` is the derived order of attributes. -/
def resolveRegistry (le : Attr → Attr → Bool) (e : Env) (includeUnreferenced : Bool) (specs : List UGroup)
    (blocks : List Imports.Block) : Except Fail Output :=
  let bs := if includeUnreferenced then blocks ++ [implicitBlock] else blocks
  let ws := if includeUnreferenced then [Warn.deprecatedIncludeUnreferenced] else []
  match resolveExtends (e.deps.map Dep.group) (specs.map (fun g => prefixGroup (groupFromSpec g))) with
  | .error es => .error (.extends es)
  | .ok gs => match resolveRefs e.refWorld ⟨[], []⟩ (gs.map toRef) with
    | .stuck es => .error (.attributes es)
    | .fatal er => .error (.attributes [er])
    | .outOfFuel => .error (.attributes [])
    | .ok st rs =>
      match importLoop e bs st [] (e.deps.map Dep.imp) with
      | .error f => .error f
      | .ok im =>
        let own := (gs.zip rs).map (fun p => toPublish (.own (writeBack p.1 p.2)) p.2.attrs)
        let imp := im.2.map (fun i => toPublish (.imported (bodyOfImport i.1)) i.2)
        let ws := ws ++ (Imports.unmatchedErrors e.impWorld bs (im.2.map (fun i => i.1.group))).map Warn.unmatched
        match Imports.resolveAssociations
            { groups := (own ++ imp).map (fun g => g.rest.asImport), deps := e.deps.map Dep.imp
              origins := (im.2.map Prod.fst).foldl bringOrigins [], blocks := bs } with
        | .error es => .error (.imports es)
        | .ok origins => publish le im.1.cat (own ++ imp) origins ws im.1.roots

end Verif.Pipeline
