import Verif.Util.Map
/-
Model of the dependency version conflict strategy: crates/weaver_resolver/src/conflict_strategy.rs and its users in
crates/weaver_resolver/src/loader.rs and crates/weaver_resolver/src/lib.rs.
-/
namespace Verif.Resolver
open Verif.Util

/-- `semver::Version`. Simplification: `rest` is the rank of the pre-release and build parts in the total order the
semver crate puts on them (a release ranks above its pre-releases). -/
structure Ver where
  major : Nat
  minor : Nat
  patch : Nat
  rest : Nat
deriving DecidableEq, Repr

/-- Lexicographic `<` of `semver::Version` (derived `Ord`: major, minor, patch, pre, build). -/
def Ver.lt (a b : Ver) : Bool :=
  if a.major ≠ b.major then decide (a.major < b.major)
  else if a.minor ≠ b.minor then decide (a.minor < b.minor)
  else if a.patch ≠ b.patch then decide (a.patch < b.patch)
  else decide (a.rest < b.rest)

/-- crates/weaver_semconv/src/schema_url.rs:12-25 `SchemaUrl`, split at the cached ranges: the text before the name
(scheme), the name, the rest of the URL (the version and what follows it). `sv` is the result of `semver()` (lines
112-118). Equality of the structure is equality of the URL text (lines 127-131): `name` and `sv` are functions of the
text. -/
structure SchemaUrl where
  scheme : String := "https://"
  name : String
  tail : String
  sv : Option Ver
deriving DecidableEq, Repr

/-- The errors of `resolve_conflict`. -/
inductive ConflictErr where
  | registryMismatch (u1 u2 : SchemaUrl)
  | invalidSemVer (u : SchemaUrl)
  | incompatible (u1 u2 : SchemaUrl)
deriving DecidableEq, Repr

/-- crates/weaver_resolver/src/conflict_strategy.rs:26-51 `UseLatestMajorVersion::resolve_conflict`. -/
def resolveVersions (u1 u2 : SchemaUrl) : Except ConflictErr SchemaUrl :=
  if u1.name ≠ u2.name then .error (.registryMismatch u1 u2)
  else match u1.sv with
    | none => .error (.invalidSemVer u1)
    | some v1 => match u2.sv with
      | none => .error (.invalidSemVer u2)
      | some v2 =>
        if v1.major = v2.major then
          if v2.lt v1 then .ok u1 else .ok u2
        else .error (.incompatible u1 u2)

/-- The map registry name → chosen schema URL (`HashMap<String, SchemaUrl>`). -/
abbrev Chosen := List (String × SchemaUrl)

/-- crates/weaver_resolver/src/loader.rs:264-275 and 304-318: the loader records a schema URL; a conflict is fatal. -/
def noteStrict (chosen : Chosen) (u : SchemaUrl) : Except ConflictErr Chosen :=
  match aget u.name chosen with
  | some prev =>
    if prev ≠ u then
      match resolveVersions prev u with
      | .ok c => .ok (aset u.name c chosen)
      | .error e => .error e
    else .ok chosen
  | none => .ok (aset u.name u chosen)

/-- The loader meeting a sequence of schema URLs. -/
def noteAllStrict (chosen : Chosen) : List SchemaUrl → Except ConflictErr Chosen
  | [] => .ok chosen
  | u :: us => match noteStrict chosen u with
    | .ok c => noteAllStrict c us
    | .error e => .error e

/-- crates/weaver_resolver/src/lib.rs:329-338 `collect_chosen_versions_from_url`: an unresolvable conflict is ignored
and the earlier choice kept. -/
def noteLenient (chosen : Chosen) (u : SchemaUrl) : Chosen :=
  match aget u.name chosen with
  | some existing =>
    match resolveVersions existing u with
    | .ok c => aset u.name c chosen
    | .error _ => chosen
  | none => aset u.name u chosen

/-- crates/weaver_resolver/src/lib.rs:340-360 and 419-422: the schema URL of each resolved dependency followed by its
own dependencies, one after the other. -/
def noteAllLenient (urls : List SchemaUrl) : Chosen := urls.foldl noteLenient []

end Verif.Resolver
