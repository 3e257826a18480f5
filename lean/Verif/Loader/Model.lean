import Verif.Resolver.Version
/-
Model of dependency loading: crates/weaver_resolver/src/loader.rs.
-/
namespace Verif.Loader
open Verif.Util Verif.Resolver

/-- crates/weaver_semconv/src/manifest.rs `Dependency`: the declared schema URL and where to fetch the registry. -/
structure Dep where
  url : SchemaUrl
  path : String := ""
deriving DecidableEq

/-- manifest.rs:123-125 `Dependency::is_versioned`, 132 `UNKNOWN_VERSION`. Simplification: the version is the whole
text after the name (schema URLs without query or fragment). -/
def Dep.isVersioned (d : Dep) : Bool := decide (d.url.tail ≠ "unknown")

/-- crates/weaver_semconv/src/registry_repo.rs:63-76 `RegistryRepo` with the parts of its manifest the loader reads
(manifest.rs `dependencies()`, registry_repo.rs:179-205 `resolved_registry_uri`). `files` names the directory content
that `load_definition_repository` parses. -/
structure Repo where
  url : SchemaUrl
  /-- `manifest().map(dependencies)`; `none` when the directory has no manifest. -/
  manifest : Option (List Dep) := none
  /-- `resolved_registry_uri()`, set only by publication manifests. -/
  resolvedUri : Option String := none
  files : String := ""
deriving DecidableEq

/-- Fatal errors of the loader (crates/weaver_resolver/src/error.rs). `other` stands for I/O and parse errors. -/
inductive LErr where
  | maximumDependencyDepth
  | circularDependency (name : String) (chain : List String)
  | conflict (e : ConflictErr)
  | unversionedDependencyConflict (name : String)
  | other (msg : String)

/-- What the loader asks the outside: the registry found for a declared dependency (registry_repo.rs:89-145, with its
non fatal errors), the files of a definition repository (loader.rs:421-534), the resolved schema behind a publication
manifest (loader.rs:391-400: the URLs of its `dependencies`), the cache (loader.rs:225-230).
Simplification: the same question always gets the same answer while one load runs. -/
structure World where
  fetch : Dep → Except String (Repo × List String)
  definition : String → Except String (List String)
  resolved : String → Except String (List SchemaUrl)
  cached : SchemaUrl → Bool

/-- loader.rs:29-50 `LoadedSemconvRegistry`: a registry whose definition files were read, with its dependencies; the
resolved schema behind a publication manifest, by its location; `cached` is a schema taken from the cache. -/
inductive Tree where
  | unresolved (repo : Repo) (deps : List Tree)
  | resolved (repo : Repo) (uri : String) (depUrls : List SchemaUrl)
  | cached (url : SchemaUrl)

/-- Successful outcome: the tree, the non fatal errors, the chosen versions. -/
structure Loaded where
  tree : Tree
  nfes : List String
  chosen : Chosen

/-- loader.rs:324-372 accumulators: loaded dependencies, non fatal errors, chosen versions, declared dependencies by
name. -/
structure DepsState where
  trees : List Tree := []
  nfes : List String := []
  chosen : Chosen
  seen : List (String × Dep) := []

/-- loader.rs:540-548 `check_version_compatibility`. -/
def checkCompat (prev d : Dep) : Except LErr Unit :=
  if !prev.isVersioned || !d.isVersioned then .error (.unversionedDependencyConflict d.url.name)
  else match resolveVersions prev.url d.url with
    | .ok _ => .ok ()
    | .error e => .error (.conflict e)

/-- loader.rs:330-339: a second declaration of a registry is checked against the first one. -/
def noteDeclared (seen : List (String × Dep)) (d : Dep) : Except LErr (List (String × Dep)) :=
  match aget d.url.name seen with
  | some prev => match checkCompat prev d with
    | .ok _ => .ok seen
    | .error e => .error e
  | none => .ok (aset d.url.name d seen)

/-- loader.rs:329-372: the loop over the declared dependencies; `rec` is the recursive call. -/
def loadDeps (w : World) (rec : Repo → Chosen → Except LErr Loaded) :
    List Dep → DepsState → Except LErr DepsState
  | [], st => .ok st
  | d :: ds, st =>
    match noteDeclared st.seen d with
    | .error e => .error e
    | .ok seen =>
      match w.fetch d with
      | .error m => .error (.other m)
      | .ok fr =>
        match rec fr.1 st.chosen with
        | .error e => .error e
        | .ok l => loadDeps w rec ds
            { trees := st.trees ++ [l.tree], nfes := st.nfes ++ fr.2 ++ l.nfes, chosen := l.chosen, seen := seen }

/-- loader.rs:264-275: record the URL of the registry being loaded (fatal on conflict). -/
def noteUrl (chosen : Chosen) (u : SchemaUrl) : Except LErr Chosen :=
  match noteStrict chosen u with
  | .ok c => .ok c
  | .error e => .error (.conflict e)

/-- loader.rs:304-318: record the dependencies of a resolved schema (fatal on conflict). -/
def noteUrls (chosen : Chosen) (us : List SchemaUrl) : Except LErr Chosen :=
  match noteAllStrict chosen us with
  | .ok c => .ok c
  | .error e => .error (.conflict e)

/-- loader.rs:421-534 `load_definition_repository` plus loader.rs:377: the dependencies' non fatal errors come after
those of the definition files (`extend_non_fatal_errors`). -/
def finishDefinition (w : World) (r : Repo) (trees : List Tree) (nfes : List String) (chosen : Chosen) :
    Except LErr Loaded :=
  match w.definition r.files with
  | .error m => .error (.other m)
  | .ok own => .ok { tree := .unresolved r trees, nfes := own ++ nfes, chosen := chosen }

/-- loader.rs:234-388 `load_semconv_repository_recursive`. `chain` is `dependency_chain`, passed down instead of pushed
and popped: the code pops it on every path that does not end the whole load with a fatal error. -/
def load (w : World) : Nat → List String → Repo → Chosen → Except LErr Loaded
  | 0, _, _, _ => .error .maximumDependencyDepth
  | n + 1, chain, r, chosen =>
    if r.url.name ∈ chain then .error (.circularDependency r.url.name (chain ++ [r.url.name]))
    else
      match noteUrl chosen r.url with
      | .error e => .error e
      | .ok c =>
        if w.cached r.url then .ok { tree := .cached r.url, nfes := [], chosen := c }
        else match r.manifest with
          | none => finishDefinition w r [] [] c
          | some deps =>
            match r.resolvedUri with
            | some uri =>
              match w.resolved uri with
              | .error m => .error (.other m)
              | .ok us => match noteUrls c us with
                | .error e => .error e
                | .ok c' => .ok { tree := .resolved r uri us, nfes := [], chosen := c' }
            | none =>
              match loadDeps w (load w n (chain ++ [r.url.name])) deps { chosen := c } with
              | .error e => .error e
              | .ok st => finishDefinition w r st.trees st.nfes st.chosen

/-- loader.rs:25 `MAX_DEPENDENCY_DEPTH`. -/
def maxDepth : Nat := 10

/-- A version upgrade warning (loader.rs:210-214): dependency name, requested and selected URL. -/
structure Upgrade where
  name : String
  requested : SchemaUrl
  selected : SchemaUrl
deriving DecidableEq

/-- loader.rs:186-192: the dependencies of the main registry by name; a later declaration replaces an earlier one. -/
def mainDeps (r : Repo) : List (String × SchemaUrl) :=
  (r.manifest.getD []).foldl (fun m d => aset d.url.name d.url m) []

/-- loader.rs:205-217: the upgrade warnings. -/
def upgrades (r : Repo) (chosen : Chosen) : List Upgrade :=
  (mainDeps r).filterMap fun p =>
    match aget p.1 chosen with
    | some s => if s ≠ p.2 then some { name := p.1, requested := p.2, selected := s } else none
    | none => none

/-- loader.rs:175-223 `load_semconv_repository_with_cache`. -/
def loadRoot (w : World) (r : Repo) : Except LErr (Loaded × List Upgrade) :=
  match load w maxDepth [] r [] with
  | .error e => .error e
  | .ok l => .ok (l, upgrades r l.chosen)

end Verif.Loader
