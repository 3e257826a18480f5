import Verif.Resolver.Version
/-
Model of crates/weaver_version/src/lib.rs (version histories), metrics_changes.rs, all_changes.rs, logs_changes.rs,
spans_changes.rs, resource_changes.rs. Files are not read. A `HashMap` is a list of its entries, which have distinct
keys; any order is possible.
-/
namespace Verif.Versions
open Verif.Util Verif.Resolver

/-- `HashMap<String, String>`: old name, new name. -/
abbrev Renames := List (String × String)

/-- metrics_changes.rs:21-39 `MetricsChange` with its `RenameAttributes`. -/
structure MetricsChange where
  attrs : Renames := []
  applyTo : List String := []
  metrics : Renames := []

/-- lib.rs:71-83 `VersionSpec`. The sections `all`, `logs`, `spans` and `resources` hold a list of changes each, and a
change is one map. -/
structure Spec where
  all : Option (List Renames) := none
  metrics : Option (List MetricsChange) := none
  logs : Option (List Renames) := none
  spans : Option (List Renames) := none
  resources : Option (List Renames) := none

/-- lib.rs:64-66 `Versions`: a `BTreeMap`, as the list of its entries in ascending order. -/
abbrev Versions := List (Ver × Spec)

/-- lib.rs:135-137 `latest_version`: the last key. -/
def latestVersion (vs : Versions) : Option Ver := (vs.map (·.1)).getLast?

/-- lib.rs:142-147 `versions_asc`. -/
def versionsAsc (vs : Versions) : Versions := vs

/-- lib.rs:152-158 `versions_desc`. -/
def versionsDesc (vs : Versions) : Versions := vs.reverse

/-- lib.rs:163-168 `versions_asc_from`: `range(version..)`. -/
def versionsAscFrom (vs : Versions) (v : Ver) : Versions := vs.filter fun p => !p.1.lt v

/-- lib.rs:173-179 `versions_desc_from`: `range(..=version).rev()`. -/
def versionsDescFrom (vs : Versions) (v : Ver) : Versions := (vs.filter fun p => !v.lt p.1).reverse

/-- lib.rs:202-207: remember a rename unless the name has one. -/
def noteRename (acc : Renames) (p : String × String) : Renames :=
  if (aget p.1 acc).isSome then acc else aset p.1 p.2 acc

/-- lib.rs:88-94 `VersionChanges`. -/
structure Changes where
  metricNames : Renames := []
  metricAttrs : Renames := []
  resourceAttrs : Renames := []
  logAttrs : Renames := []
  spanAttrs : Renames := []

/-- lib.rs:194-267: one round of the loop. -/
def noteSpec (c : Changes) (s : Spec) : Changes :=
  { resourceAttrs := match s.resources with
      | some cs => cs.flatten.foldl noteRename c.resourceAttrs
      | none => c.resourceAttrs
    metricNames := match s.metrics with
      | some cs => (cs.flatMap (·.metrics)).foldl noteRename c.metricNames
      | none => c.metricNames
    metricAttrs := match s.metrics with
      | some cs => (cs.flatMap (·.attrs)).foldl noteRename c.metricAttrs
      | none => c.metricAttrs
    logAttrs := match s.logs with
      | some cs => cs.flatten.foldl noteRename c.logAttrs
      | none => c.logAttrs
    spanAttrs := match s.spans with
      | some cs => cs.flatten.foldl noteRename c.spanAttrs
      | none => c.spanAttrs }

/-- lib.rs:187-276 `version_changes_for`. -/
def changesFor (vs : Versions) (v : Ver) : Changes := ((versionsDescFrom vs v).map (·.2)).foldl noteSpec {}

/-- lib.rs:581-630: the new name, or the name itself. -/
def rename (m : Renames) (n : String) : String :=
  match aget n m with
  | some x => x
  | none => n

/-- lib.rs:581 `get_resource_attribute_name`. -/
def Changes.resourceName (c : Changes) (n : String) : String := rename c.resourceAttrs n
/-- lib.rs:592 `get_metric_attribute_name`. -/
def Changes.metricAttrName (c : Changes) (n : String) : String := rename c.metricAttrs n
/-- lib.rs:603 `get_metric_name`. -/
def Changes.metricName (c : Changes) (n : String) : String := rename c.metricNames n
/-- lib.rs:614 `get_log_attribute_name`. -/
def Changes.logName (c : Changes) (n : String) : String := rename c.logAttrs n
/-- lib.rs:625 `get_span_attribute_name`. -/
def Changes.spanName (c : Changes) (n : String) : String := rename c.spanAttrs n

/-- lib.rs:313-336: the parent's renames of names no local change mentions; a later one replaces an earlier one. -/
def missing (loc : List Renames) (par : Renames) : Renames :=
  par.foldl (fun acc p => if loc.any (fun m => (aget p.1 m).isSome) then acc else aset p.1 p.2 acc) []

/-- `HashMap::extend`. -/
def extendMap (m new : Renames) : Renames := new.foldl (fun acc p => aset p.1 p.2 acc) m

/-- lib.rs:311-357, 401-442, 445-489: extending a section. `get_or_insert_with` makes the local section exist once the
parent has any rename in its own. -/
def extendSection (loc par : Option (List Renames)) : Option (List Renames) :=
  match par with
  | none => loc
  | some ps =>
    let l := loc.getD []
    match missing l ps.flatten with
    | [] => if ps.flatten.isEmpty then loc else some l
    | new => match l with
      | [] => some [new]
      | m :: rest => some (extendMap m new :: rest)

/-- lib.rs:360-398: extending the metrics. The parent's renames of metric attributes are not looked at. -/
def extendMetrics (loc par : Option (List MetricsChange)) : Option (List MetricsChange) :=
  match par with
  | none => loc
  | some ps =>
    let l := loc.getD []
    match missing (l.map (·.metrics)) (ps.flatMap (·.metrics)) with
    | [] => if (ps.flatMap (·.metrics)).isEmpty then loc else some l
    | new => match l with
      | [] => some [{ metrics := new }]
      | m :: rest => some ({ m with metrics := extendMap m.metrics new } :: rest)

/-- lib.rs:309-490 `VersionSpec::extend`. -/
def Spec.extend (loc par : Spec) : Spec :=
  { all := loc.all
    resources := extendSection loc.resources par.resources
    metrics := extendMetrics loc.metrics par.metrics
    logs := extendSection loc.logs par.logs
    spans := extendSection loc.spans par.spans }

/-- lib.rs:282-289: extend the entry of a version, or insert it in its place. -/
def extendOne (v : Ver) (par : Spec) : Versions → Versions
  | [] => [(v, par)]
  | (w, s) :: vs =>
    if w = v then (w, s.extend par) :: vs
    else if v.lt w then (v, par) :: (w, s) :: vs
    else (w, s) :: extendOne v par vs

/-- lib.rs:280-291 `Versions::extend`. -/
def extend (vs par : Versions) : Versions := par.foldl (fun acc p => extendOne p.1 p.2 acc) vs

end Verif.Versions
