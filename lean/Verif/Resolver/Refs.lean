import Verif.Resolver.Inherit
import Verif.Resolver.Catalog
/-
Model of the resolution of attribute definitions and references: crates/weaver_resolver/src/attribute.rs:100-132 and
184-235 and 296-501 and 547-577, crates/weaver_resolver/src/registry.rs:635-751.
-/
namespace Verif.Resolver
open Verif.Util

/-- crates/weaver_resolved_schema/src/attribute.rs `Attribute`: a resolved attribute. Types, examples, levels, tags and
the like are opaque texts. -/
structure Attr where
  name : String
  type : String
  brief : String := ""
  examples : Option String := none
  tag : Option String := none
  requirementLevel : String := "recommended"
  samplingRelevant : Option Bool := none
  note : String := ""
  stability : Option String := none
  deprecated : Option String := none
  tags : Option String := none
  value : Option String := none
  prefixFlag : Bool := false
  annotations : Option Annots := none
  role : Option Role := none
deriving DecidableEq

/-- crates/weaver_resolver/src/attribute.rs `AttributeSource`. -/
inductive Src where
  | loc (group : String)
  | dep (u : SchemaUrl)
deriving DecidableEq

/-- crates/weaver_resolver/src/attribute.rs `AttributeWithSource`. -/
structure Rooted where
  attr : Attr
  src : Src
  isDef : Bool
deriving DecidableEq

/-- The errors of this phase. -/
inductive RErr where
  | excluded (id usedIn : String)
  | unresolvedRef (group ref : String)
  | ambiguous (key : String) (u1 u2 : SchemaUrl)
  | conflict (e : ConflictErr)
  | notInUpgraded (name : String) (u1 u2 : SchemaUrl)
  | invalidUrl (url : String)
deriving DecidableEq

/-- attribute.rs:196-201 `annotations.as_ref().is_some_and(is_excluded)`. -/
def Rooted.excl (r : Rooted) : Bool := isExcludedOpt r.attr.annotations

/-- attribute.rs:191-235 `resolve_conflict`. -/
def resolveRoots (key : String) (m existing : Rooted) : Except RErr Rooted :=
  if m.excl ≠ existing.excl then .ok (if m.excl then existing else m)
  else if m.isDef && !existing.isDef then .ok m
  else if !m.isDef && existing.isDef then .ok existing
  else match m.src with
    | .loc _ => .ok existing
    | .dep u => match existing.src with
      | .loc _ => .ok m
      | .dep u2 => match resolveVersions u u2 with
        | .ok w => if w = u2 then .ok existing else .ok m
        | .error _ => .error (.ambiguous key u u2)

/-- The answer of one dependency for an attribute name: the attribute and the registry that declares it
(attribute.rs:579-602: a `Local` source is replaced by the URL of the dependency; `is_definition` is `true` in every
implementation, attribute.rs:646, 676 and 712). The only error is an invalid URL (attribute.rs:586-591). -/
abbrev AttrLookup := String → Except String (Option (Attr × SchemaUrl))

/-- Dependencies and the cache of resolved schemas (`SchemaCacheLookup`). -/
structure World where
  deps : List AttrLookup
  chosen : String → Option SchemaUrl
  schema : SchemaUrl → Option AttrLookup

/-- attribute.rs:549-554: the answers of the dependencies, in order. -/
def depMatches (key : String) : List AttrLookup → Except RErr (List Rooted)
  | [] => .ok []
  | d :: ds => match d key with
    | .error e => .error (.invalidUrl e)
    | .ok o => match depMatches key ds with
      | .error e => .error e
      | .ok ms => match o with
        | some p => .ok ({ attr := p.1, src := .dep p.2, isDef := true } :: ms)
        | none => .ok ms

/-- attribute.rs:555-575: the fold. -/
def foldMatches (key : String) (acc : Option Rooted) : List Rooted → Except RErr (Option Rooted)
  | [] => .ok acc
  | m :: ms => match acc with
    | none => foldMatches key (some m) ms
    | some e =>
      if m.excl || e.excl then foldMatches key (some (if m.excl then e else m)) ms
      else match resolveRoots key m e with
        | .error er => .error er
        | .ok r => foldMatches key (some r) ms

/-- attribute.rs:547-577 `Vec<ResolvedDependency>::lookup_attribute`. -/
def depLookup (w : World) (key : String) : Except RErr (Option Rooted) :=
  match depMatches key w.deps with
  | .error e => .error e
  | .ok ms => foldMatches key none ms

/-- attribute.rs:100-132 `upgrade_attribute_with_source`. -/
def upgrade (w : World) (r : Rooted) : Except RErr Rooted :=
  match r.src with
  | .loc _ => .ok r
  | .dep u => match w.chosen u.name with
    | none => .ok r
    | some c =>
      if c ≠ u then
        match resolveVersions u c with
        | .error e => .error (.conflict e)
        | .ok win =>
          if win = c then
            match w.schema c with
            | none => .ok r
            | some s => match s r.attr.name with
              | .error e => .error (.invalidUrl e)
              | .ok (some p) => .ok { attr := p.1, src := .dep c, isDef := true }
              | .ok none => .error (.notInUpgraded r.attr.name u c)
          else .ok r
      else .ok r

/-- The part of `AttributeCatalog` that this phase writes. -/
structure RState where
  roots : List (String × Rooted)
  cat : Cat Attr

/-- attribute.rs:378-403: the reference `f` over the root attribute, with its lineage. -/
def overlayRef (name : String) (f : RefFields) (root : Attr) (l : AttrLineage) : AttrLineage × Attr :=
  let r1 := l.req .brief f.brief root.brief
  let r2 := r1.1.opt .examples f.examples root.examples
  let r3 := r2.1.opt .tag f.tag root.tag
  let r4 := r3.1.req .requirementLevel f.requirementLevel root.requirementLevel
  let r5 := r4.1.opt .samplingRelevant f.samplingRelevant root.samplingRelevant
  let r6 := r5.1.req .note f.note root.note
  let r7 := r6.1.opt .stability f.stability root.stability
  let r8 := r7.1.opt .deprecated f.deprecated root.deprecated
  let r9 := r8.1.opt .role f.role root.role
  let r10 := r9.1.opt .annotations f.annotations root.annotations
  (r10.1,
    { name := name, type := root.type, brief := r1.2, examples := r2.2, tag := r3.2, requirementLevel := r4.2,
      samplingRelevant := r5.2, note := r6.2, stability := r7.2, deprecated := r8.2, tags := root.tags,
      value := root.value, prefixFlag := f.prefixFlag, annotations := r10.2, role := r9.2 })

/-- attribute.rs:458-474: the attribute of a definition. -/
def attrOfId (i : String) (f : IdFields) : Attr :=
  { name := i, type := f.type, brief := f.brief.getD "", examples := f.examples, tag := f.tag,
    requirementLevel := f.requirementLevel, samplingRelevant := f.samplingRelevant, note := f.note,
    stability := f.stability, deprecated := f.deprecated, annotations := f.annotations, role := f.role }

/-- A group in this phase: `excluded` is `is_group_excluded` (registry.rs:648-652), `pending` are the attributes still to
resolve, `attrs` the references resolved so far, `lineage` the attribute lineages of the group lineage, if it has one. -/
structure RGrp where
  id : String
  pfx : String := ""
  excluded : Bool := false
  pending : List UAttr
  attrs : List Nat := []
  lineage : Option (List (String × AttrLineage)) := none

/-- What one call of `resolve` answers: `Ok(Some(ref))` with the lineage to record, `Ok(None)`, `Err`. -/
inductive RRes where
  | done (r : Nat) (lin : Option (String × AttrLineage))
  | missing
  | err (e : RErr)

/-- attribute.rs:347-350: does the use of this root attribute in the group fail. -/
def refFails (g : RGrp) (root : Rooted) : Bool :=
  match root.src with
  | .dep _ => root.excl
  | .loc _ => root.excl && !g.excluded

/-- attribute.rs:358-366. -/
def rootLineage (root : Rooted) : AttrLineage :=
  match root.src with
  | .loc g => .new g
  | .dep u => .new ("v2_dependency." ++ u.name)

/-- attribute.rs:338-428: the reference to a root attribute that was found. -/
def useRoot (g : RGrp) (st : RState) (r : String) (f : RefFields) (root : Rooted) : RState × RRes :=
  if refFails g root then (st, .err (.excluded r g.id))
  else
    let name := if f.prefixFlag then g.pfx ++ "." ++ r else r
    let o := overlayRef name f root.attr (rootLineage root)
    let c := attributeRef st.cat o.2
    ({ roots := if f.prefixFlag then aset name { attr := o.2, src := .loc g.id, isDef := true } st.roots else st.roots
       cat := c.1 }, .done c.2 (some (name, o.1)))

/-- attribute.rs:447-497: a definition. -/
def useId (g : RGrp) (st : RState) (origin : Option SchemaUrl) (i : String) (f : IdFields) : RState × RRes :=
  if !g.excluded && isExcludedOpt f.annotations then (st, .err (.excluded i g.id))
  else
    let src := match origin with
      | some u => Src.dep u
      | none => Src.loc g.id
    let root : Rooted := { attr := attrOfId i f, src := src, isDef := origin.isNone }
    let r' := match aget i st.roots with
      | some e => resolveRoots i root e
      | none => .ok root
    match r' with
    | .error e => (st, .err e)
    | .ok r' =>
      let c := attributeRef st.cat (attrOfId i f)
      ({ roots := aset i r' st.roots, cat := c.1 }, .done c.2 none)

/-- attribute.rs:326-329: the root attribute already known, if it is a definition. -/
def knownDef (roots : List (String × Rooted)) (r : String) : Option Rooted :=
  match aget r roots with
  | some root => if root.isDef then some root else none
  | none => none

/-- attribute.rs:299-500 `resolve`. -/
def resolveAttr (w : World) (g : RGrp) (st : RState) (a : UAttr) : RState × RRes :=
  match a.spec with
  | .ref r f =>
    match knownDef st.roots r with
    | some root => useRoot g st r f root
    | none => match depLookup w r with
      | .error e => (st, .err e)
      | .ok none => (st, .missing)
      | .ok (some d) => match upgrade w d with
        | .error e => (st, .err e)
        | .ok d' => useRoot g { st with roots := aset r d' st.roots } r f d'
  | .id i f => useId g st a.origin i f

/-- Is the specification a reference. -/
def AttrSpec.isRef : AttrSpec → Bool
  | .ref _ _ => true
  | .id _ _ => false

/-- What a pass over the attributes of a group gives. -/
structure RefPassOut where
  st : RState
  refs : List Nat
  still : List UAttr
  lin : List (String × AttrLineage)
  errs : List RErr

/-- registry.rs:653-678 (with `onlyIds`) and 700-731 (without): the attributes of one group. An error other than
"excluded" stops everything. -/
def passAttrs (w : World) (onlyIds : Bool) (g : RGrp) (st : RState) : List UAttr → Except RErr RefPassOut
  | [] => .ok ⟨st, [], [], [], []⟩
  | a :: as =>
    if onlyIds && a.spec.isRef then
      match passAttrs w onlyIds g st as with
      | .error e => .error e
      | .ok o => .ok { o with still := a :: o.still }
    else
      let r := resolveAttr w g st a
      match r.2 with
      | .done n l =>
        match passAttrs w onlyIds g r.1 as with
        | .error e => .error e
        | .ok o => .ok { o with refs := n :: o.refs, lin := l.toList ++ o.lin }
      | .missing =>
        match passAttrs w onlyIds g r.1 as with
        | .error e => .error e
        | .ok o => .ok { o with still := a :: o.still, errs := .unresolvedRef g.id a.spec.key :: o.errs }
      | .err (.excluded i u) =>
        match passAttrs w onlyIds g r.1 as with
        | .error e => .error e
        | .ok o => .ok { o with still := a :: o.still, errs := .excluded i u :: o.errs }
      | .err e => .error e

/-- The group after a pass: registry.rs:679-680 and 732-734, and `add_attribute_lineage` (attribute.rs:409-411). -/
def RGrp.after (g : RGrp) (o : RefPassOut) : RGrp :=
  { g with
    pending := o.still
    attrs := g.attrs ++ o.refs
    lineage := g.lineage.map (fun l => o.lin.foldl (fun l p => bins p.1 p.2 l) l) }

/-- What a pass over all the groups gives; `count` is `resolved_attr_count`. -/
structure GroupsOut where
  st : RState
  groups : List RGrp
  errs : List RErr
  count : Nat

/-- registry.rs:645-681 and 688-735: all groups in order. -/
def passGroups (w : World) (onlyIds : Bool) (st : RState) : List RGrp → Except RErr GroupsOut
  | [] => .ok ⟨st, [], [], 0⟩
  | g :: gs => match passAttrs w onlyIds g st g.pending with
    | .error e => .error e
    | .ok o => match passGroups w onlyIds o.st gs with
      | .error e => .error e
      | .ok r => .ok ⟨r.st, g.after o :: r.groups, o.errs ++ r.errs, o.refs.length + r.count⟩

/-- The outcome of the phase. `outOfFuel` does not exist in the code; it is proved unreachable. -/
inductive RefOut where
  | ok (st : RState) (groups : List RGrp)
  | stuck (errs : List RErr)
  | fatal (e : RErr)
  | outOfFuel

/-- registry.rs:683-748: the loop. -/
def refLoop (w : World) (init : List RErr) : Nat → RState → List RGrp → RefOut
  | 0, _, _ => .outOfFuel
  | n + 1, st, gs => match passGroups w false st gs with
    | .error e => .fatal e
    | .ok r =>
      if (init ++ r.errs).isEmpty then .ok r.st r.groups
      else if r.count = 0 then .stuck (init ++ r.errs)
      else refLoop w init n r.st r.groups

/-- The number of attributes still to resolve. -/
def refPendingCount (gs : List RGrp) : Nat := (gs.map (fun g => g.pending.length)).sum

/-- registry.rs:635-751 `resolve_attribute_references`. -/
def resolveRefs (w : World) (st : RState) (gs : List RGrp) : RefOut :=
  match passGroups w true st gs with
  | .error e => .fatal e
  | .ok r => refLoop w r.errs (refPendingCount r.groups + 1) r.st r.groups

end Verif.Resolver
