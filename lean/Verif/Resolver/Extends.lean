import Verif.Resolver.Inherit
/-
Model of `extends` / `include_groups` resolution: crates/weaver_resolver/src/registry.rs:754-1091 and 1297-1355.
-/
namespace Verif.Resolver
open Verif.Util

/-- crates/weaver_resolved_schema/src/lineage.rs:37-73 `GroupLineage` (the provenance, which is only carried along, is
in `UGroup.prov`). -/
structure GLineage where
  extendsGroup : Option (String × GroupType) := none
  includesGroup : List String := []
  attrs : List (String × AttrLineage) := []
deriving DecidableEq

/-- crates/weaver_resolver/src/registry.rs:53-76 `UnresolvedGroup` with the fields of its `group` that extends
resolution reads or writes, and those it only carries along for later phases (`pfx`, `name`, `assocs`: the entity names
the associations mention, `prov`: the path of the provenance). Instruments, units, stability and the like are opaque
texts. -/
structure UGroup where
  id : String
  type : GroupType := .attributeGroup
  ext : Option String := none
  includes : List String := []
  attrs : List UAttr := []
  isV2 : Bool := false
  visibility : Option Visibility := none
  annotations : Option Annots := none
  lineage : Option GLineage := none
  brief : String := ""
  note : String := ""
  stability : Option String := none
  deprecated : Option String := none
  metricName : Option String := none
  instrument : Option String := none
  unit : Option String := none
  reqLevel : Option String := none
  spanKind : Option String := none
  spanName : Option String := none
  pfx : String := ""
  name : Option String := none
  assocs : List String := []
  prov : String := ""
deriving DecidableEq

/-- crates/weaver_resolver/src/dependency.rs:38-69 `GroupSummary`; `local` is `source == GroupSource::Local`. -/
structure Summary where
  type : GroupType
  brief : String
  note : String
  stability : Option String
  deprecated : Option String
  metricName : Option String
  instrument : Option String
  unit : Option String
  reqLevel : Option String
  spanKind : Option String
  spanName : Option String
  attrs : List UAttr
  annotations : Option Annots
  isLocal : Bool
deriving DecidableEq

/-- crates/weaver_resolver/src/dependency.rs:75-92 `from_without_attributes` with `GroupSource::Local`, followed by the
assignment of the attributes (registry.rs:771-773 and 924-926). -/
def UGroup.summary (g : UGroup) : Summary :=
  { type := g.type, brief := g.brief, note := g.note, stability := g.stability, deprecated := g.deprecated,
    metricName := g.metricName, instrument := g.instrument, unit := g.unit, reqLevel := g.reqLevel,
    spanKind := g.spanKind, spanName := g.spanName, attrs := g.attrs, annotations := g.annotations, isLocal := true }

/-- The errors of this phase (payloads reduced to the ids). -/
inductive ExtErr where
  | unresolvedExtends (group parent : String)
  | unresolvedInclude (group incl : String)
  | duplicateAttr (groups : List String) (attr : String)
  | excluded (id usedIn : String)
  | invalidRefinement (refinement parent : String)
  | changedIdentity (refinement parent attr : String) (role : Role)
deriving DecidableEq

/-- A dependency as seen by this phase: dependency.rs:105-110 `lookup_group_summary`. -/
abbrev DepLookup := String → Option Summary

/-- What a lookup answers (registry.rs:1305-1332 has a `Result<Option<_>, _>`). -/
inductive Found where
  | found (s : Summary)
  | missing
  | onlyExcluded
deriving DecidableEq

/-- registry.rs:1314-1331: the dependencies part of `lookup_group_with_dependencies`; `ex` says that an excluded match
was met. -/
def lookupDeps (deps : List DepLookup) (x : String) (ex : Bool) : Found :=
  match deps with
  | [] => if ex then .onlyExcluded else .missing
  | d :: ds => match d x with
    | some s => if isExcludedOpt s.annotations then lookupDeps ds x true else .found s
    | none => lookupDeps ds x ex

/-- registry.rs:1305-1332 `lookup_group_with_dependencies`. -/
def lookupGroup (deps : List DepLookup) (idx : String → Option Summary) (x : String) : Found :=
  match idx x with
  | some s => .found s
  | none => lookupDeps deps x false

/-- registry.rs:1334-1355 `excluded_parent_error`: is there an error. -/
def excludedParent (g : UGroup) (target : Summary) : Bool :=
  target.isLocal && isExcludedOpt target.annotations && !isGroupExcluded g.annotations g.visibility g.type

/-- registry.rs:806-814: one error per attribute id already seen. Returns the errors and the ids seen. -/
def dupErrs (groups : List String) (seen : List String) : List UAttr → List ExtErr × List String
  | [] => ([], seen)
  | a :: as =>
    if a.spec.key ∈ seen then
      let r := dupErrs groups seen as
      (.duplicateAttr groups a.spec.key :: r.1, r.2)
    else dupErrs groups (a.spec.key :: seen) as

/-- registry.rs:781-819 `collect_included_group_attrs`: the loop. The code keeps a flag `all_resolved`, cleared exactly
when an error is pushed; here the flag is "no error". -/
def collectIncluded (g : UGroup) (idx : String → Option Summary) (seen : List String) :
    List String → List ExtErr × List (String × List UAttr)
  | [] => ([], [])
  | i :: is => match idx i with
    | none =>
      let r := collectIncluded g idx seen is
      (.unresolvedInclude g.id i :: r.1, r.2)
    | some s =>
      if excludedParent g s then
        let r := collectIncluded g idx seen is
        (.excluded i g.id :: r.1, r.2)
      else
        let d := dupErrs g.includes seen s.attrs
        let r := collectIncluded g idx d.2 is
        (d.1 ++ r.1, (i, s.attrs) :: r.2)

/-- registry.rs:866-909 `inherit_v2_refinement_fields`, without the error. -/
def inheritV2 (g : UGroup) (p : Summary) : UGroup :=
  let merged := match g.annotations with
    | some c => mergeAnnots (p.annotations.getD []) c
    | none => p.annotations.getD []
  { g with
    instrument := p.instrument, unit := p.unit, spanKind := p.spanKind, metricName := p.metricName, reqLevel := p.reqLevel
    stability := g.stability.or p.stability
    deprecated := g.deprecated.or p.deprecated
    brief := if g.brief = "" then p.brief else g.brief
    note := if g.note = "" then p.note else g.note
    spanName := g.spanName.or p.spanName
    annotations := if merged.isEmpty then none else some merged }

/-- registry.rs:857-862: what a found parent does to the group (`lineage.extends`, then the V2 fields). -/
def applyParent (g : UGroup) (x : String) (p : Summary) : UGroup :=
  let g := { g with lineage := g.lineage.map (fun l => { l with extendsGroup := some (x, p.type) }) }
  if g.isV2 then inheritV2 g p else g

/-- registry.rs:872-879: the non-fatal error of `inherit_v2_refinement_fields`. -/
def refinementErrs (g : UGroup) (x : String) (p : Summary) : List ExtErr :=
  if g.isV2 && g.type != p.type then [.invalidRefinement g.id x] else []

/-- The role of a specification: registry.rs:1060-1062. -/
def specRole : AttrSpec → Option Role
  | .ref _ f => f.role
  | .id _ f => f.role

/-- registry.rs:1069-1078: does a role given by a refinement change the identity, given the attribute of the parent
with the same id (if there is one). -/
def changesIdentity (base : Option UAttr) (refined : Role) : Bool :=
  match base with
  | some b => match specRole b.spec with
    | some baseRole => baseRole != refined
    | none => false
  | none => refined == .identifying

/-- registry.rs:1067-1090: the error of one own attribute, if any. -/
def identityErr (gid x : String) (parentAttrs : List UAttr) (a : UAttr) : Option ExtErr :=
  match a.spec with
  | .id _ _ => none
  | .ref r f => match f.role with
    | none => none
    | some refined =>
      if changesIdentity (parentAttrs.find? (fun p => p.spec.key = r)) refined then
        some (.changedIdentity gid x r refined)
      else none

/-- registry.rs:1053-1091 `entity_identity_refinement_errors` with its guard (961-981; the parent type looked up again
there is the type of the parent just found). -/
def identityErrs (g : UGroup) (x : String) (p : Summary) : List ExtErr :=
  if g.isV2 && g.type == .entity && p.type == .entity then g.attrs.filterMap (identityErr g.id x p.attrs) else []

/-- registry.rs:993-1028 and 759-776: the group is finalised with its bases. -/
def finalize (g : UGroup) (bases : List (String × List UAttr)) : UGroup :=
  { g with
    attrs := inheritAttrs g.id g.attrs bases
    ext := none
    includes := []
    lineage := g.lineage.map (fun l =>
      { l with includesGroup := l.includesGroup ++ g.includes
               attrs := (inheritLineages g.id g.attrs bases).foldl (fun m p => bins p.1 p.2 m) l.attrs }) }

/-- A finalised group with its recoverable and fatal errors. -/
structure Done where
  group : UGroup
  soft : List ExtErr
  fatal : List ExtErr
deriving DecidableEq

/-- registry.rs:936-1028, the body of the loop for one pending group: `error` leaves the group untouched. -/
def attempt (deps : List DepLookup) (idx : String → Option Summary) (g : UGroup) : Except (List ExtErr) Done :=
  let inc := collectIncluded g idx [] g.includes
  if inc.1 ≠ [] then .error inc.1
  else match g.ext with
    | none => .ok { group := finalize g inc.2, soft := [], fatal := [] }
    | some x => match lookupGroup deps idx x with
      | .missing => .error [.unresolvedExtends g.id x]
      | .onlyExcluded => .error [.excluded x g.id]
      | .found p =>
        if excludedParent g p then .error [.excluded x g.id]
        else .ok { group := finalize (applyParent g x p) ((x, p.attrs) :: inc.2)
                   soft := refinementErrs g x p, fatal := identityErrs g x p }

/-- registry.rs:913 / 937: the group still has an `extends` or `include_groups` clause. -/
def isPending (g : UGroup) : Bool := g.ext.isSome || !g.includes.isEmpty

/-- registry.rs:908-927: the index of the groups already resolved (a later group with the same id wins). -/
def buildIndex (gs : List UGroup) : List (String × Summary) :=
  gs.foldl (fun m g => if isPending g then m else aset g.id g.summary m) []

/-- Result of one iteration of the loop. -/
structure PassOut where
  groups : List UGroup
  errors : List ExtErr
  fatal : List ExtErr
  count : Nat
deriving DecidableEq

/-- registry.rs:932-1029: one pass over all groups. -/
def pass (deps : List DepLookup) (idx : List (String × Summary)) : List UGroup → PassOut
  | [] => { groups := [], errors := [], fatal := [], count := 0 }
  | g :: gs =>
    if isPending g then
      match attempt deps (fun x => aget x idx) g with
      | .error es =>
        let r := pass deps idx gs
        { r with groups := g :: r.groups, errors := es ++ r.errors }
      | .ok d =>
        let r := pass deps (aset d.group.id d.group.summary idx) gs
        { groups := d.group :: r.groups, errors := d.soft ++ r.errors, fatal := d.fatal ++ r.fatal, count := r.count + 1 }
    else
      let r := pass deps idx gs
      { r with groups := g :: r.groups }

/-- How the loop ends. -/
inductive LoopOut where
  | done (groups : List UGroup) (fatal : List ExtErr)
  | stuck (groups : List UGroup) (fatal errors : List ExtErr)
  | outOfFuel
deriving DecidableEq

/-- registry.rs:899-1045: the loop, with a bound on the number of iterations (`extends_terminates` shows that the bound
used by `resolveExtends` is never reached). -/
def extLoop (deps : List DepLookup) : Nat → List UGroup → List ExtErr → LoopOut
  | 0, _, _ => .outOfFuel
  | n + 1, gs, fatal =>
    let r := pass deps (buildIndex gs) gs
    if r.errors = [] then .done r.groups (fatal ++ r.fatal)
    else if r.count = 0 then .stuck r.groups (fatal ++ r.fatal) r.errors
    else extLoop deps n r.groups (fatal ++ r.fatal)

/-- Number of groups still to resolve. -/
def pendingCount (gs : List UGroup) : Nat := gs.countP isPending

def runExtends (deps : List DepLookup) (gs : List UGroup) : LoopOut := extLoop deps (pendingCount gs + 1) gs []

/-- registry.rs:895-1050 `resolve_extends_references`. -/
def resolveExtends (deps : List DepLookup) (gs : List UGroup) : Except (List ExtErr) (List UGroup) :=
  match runExtends deps gs with
  | .done gs' [] => .ok gs'
  | .done _ (e :: es) => .error (e :: es)
  | .stuck _ fatal errors => .error (fatal ++ errors)
  | .outOfFuel => .error []

end Verif.Resolver
