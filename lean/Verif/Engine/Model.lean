import Verif.Engine.Cache
import Verif.Loader.Model
/-
Model of the resolver engine: crates/weaver_resolver/src/lib.rs:132-607 `WeaverResolver`.
-/
namespace Verif.Engine
open Verif.Util Verif.Resolver Verif.Loader

/-- `WeaverResolvedSchema` (lib.rs:51-84): a resolved schema, by what the engine reads of it: its URL and the registries
it was built from (`dependencies`); `body` is the rest. Simplification: V1 and V2 are not told apart. -/
structure Schema (B : Type) where
  url : SchemaUrl
  deps : List SchemaUrl
  body : B
deriving DecidableEq

/-- The bounded cache (lib.rs:138). -/
abbrev Cache (B : Type) := Lru SchemaUrl (Schema B)

/-- What a non fatal error is: a text, or the warning of an upgraded version (loader.rs:210-214). -/
inductive Note where
  | text (s : String)
  | upgraded (u : Upgrade)
deriving DecidableEq

/-- Fatal errors. -/
inductive Err where
  /-- the errors of the loader -/
  | load (e : LErr)
  /-- `FailToResolveDefinition`: a registry cannot be fetched or its manifest cannot be read. -/
  | definition (m : String)
  /-- the errors of `resolve_registry_with_dependencies` -/
  | build (m : String)
  /-- `MismatchSchemaUrl` -/
  | mismatch (expected actual : SchemaUrl)
  /-- `LoadingAbortedByVisitor` -/
  | aborted

/-- The engine's configuration (lib.rs:86-111) and what it asks the outside: the registry at a place with its non fatal
errors (registry_repo.rs:89-145; the empty path stands for the archive at the schema URL), the definition files, the
resolved schema behind a publication manifest (loader.rs:391-400), and what resolution makes of a registry's files, its
resolved dependencies, the chosen versions and the schemas it can look up (registry.rs:96-233, modelled in
Verif.Resolver.Pipeline). -/
structure Host (B : Type) where
  cap : Nat
  cap_pos : 0 < cap
  overrides : List (SchemaUrl × String) := []
  fetch : Dep → Except String (Repo × List String)
  definition : String → Except String (List String)
  published : String → Except String (Schema B)
  build : Repo → List (Schema B) → Chosen → (SchemaUrl → Option (Schema B)) → Except String (B × List String)

variable {B : Type}

/-- lib.rs:100-104, 151-160: where a schema URL is redirected to. -/
def Host.override (h : Host B) (u : SchemaUrl) : Option String := Lru.peek u h.overrides

/-- What the loader sees (lib.rs:165-175): the outside and the cache, which it only looks at (loader.rs:225-230). -/
def Host.world (h : Host B) (c : Cache B) : World where
  fetch := h.fetch
  definition := h.definition
  resolved := fun uri => match h.published uri with
    | .ok s => .ok s.deps
    | .error m => .error m
  cached := fun u => (Lru.peek u c).isSome

/-- loader.rs:29-50 `LoadedSemconvRegistry`: definition files with their loaded dependencies, or a resolved schema. -/
inductive Item (B : Type) where
  | source (repo : Repo) (deps : List (Item B))
  | ready (s : Schema B)

mutual
/-- The resolved schemas a loaded tree holds: the one in the cache (loader.rs:284-294) or behind the publication
manifest. -/
def attach (h : Host B) (c : Cache B) : Tree → Except String (Item B)
  | .unresolved r ts => match attachAll h c ts with
    | .ok is => .ok (.source r is)
    | .error m => .error m
  | .resolved _ uri _ => match h.published uri with
    | .ok s => .ok (.ready s)
    | .error m => .error m
  | .cached u => match Lru.peek u c with
    | some s => .ok (.ready s)
    | none => .error "not cached"
def attachAll (h : Host B) (c : Cache B) : List Tree → Except String (List (Item B))
  | [] => .ok []
  | t :: ts => match attach h c t with
    | .error m => .error m
    | .ok i => match attachAll h c ts with
      | .error m => .error m
      | .ok is => .ok (i :: is)
end

/-- lib.rs:165-175 `load_repository`. -/
def load (h : Host B) (r : Repo) (c : Cache B) : Except Err (Item B × List Note) :=
  match loadRoot (h.world c) r with
  | .error e => .error (.load e)
  | .ok res => match attach h c res.1.tree with
    | .error m => .error (.load (.other m))
    | .ok i => .ok (i, res.1.nfes.map .text ++ res.2.map .upgraded)

/-- lib.rs:182-191 and 391-399: the URL of the schema of a registry: the one of its manifest, or rebuilt from the name
and the version (schema_url.rs:97-108, which starts it with `https://`). Simplification: a schema URL has a name and a
version that are not blank and nothing after the version, so rebuilding it does not fail. -/
def ownUrl (r : Repo) : SchemaUrl :=
  if r.manifest.isSome then r.url else { r.url with scheme := "https://" }

/-- lib.rs:181-200: the URL under which a loaded dependency is looked up. -/
def Item.url : Item B → SchemaUrl
  | .source r _ => ownUrl r
  | .ready s => s.url

/-- Success with the non fatal errors, or a fatal error. -/
abbrev Res (B : Type) := Except Err (Schema B × List Note)

/-- lib.rs:367-371: the dependencies are resolved one after the other, also after one has failed. `none`: not finished. -/
def resolveAll (rec : Item B → Cache B → Option (Res B × Cache B)) :
    List (Item B) → Cache B → Option (List (Res B) × Cache B)
  | [], c => some ([], c)
  | i :: is, c => match rec i c with
    | none => none
    | some r => match resolveAll rec is r.2 with
      | none => none
      | some rs => some (r.1 :: rs.1, rs.2)

/-- lib.rs:373-387: the resolved dependencies, or the first error. Their non fatal errors are collected and not used. -/
def settled : List (Res B) → Except Err (List (Schema B))
  | [] => .ok []
  | .error e :: _ => .error e
  | .ok p :: rs => match settled rs with
    | .error e => .error e
    | .ok ss => .ok (p.1 :: ss)

/-- lib.rs:403-418: the registries a schema was built from. (In the code a sorted set.) -/
def builtFrom (ss : List (Schema B)) : List SchemaUrl := (ss.flatMap fun s => s.url :: s.deps).eraseDups

/-- lib.rs:338-357 and 420-423: the chosen version of each registry name. -/
def chosenOf (ss : List (Schema B)) : Chosen := noteAllLenient (ss.flatMap fun s => s.url :: s.deps)

/-- lib.rs:389-449 and 467-486: the schema of a registry whose dependencies are resolved; it is put into the cache. -/
def finish (h : Host B) (r : Repo) (ss : List (Schema B)) (c : Cache B) : Res B × Cache B :=
  match h.build r ss (chosenOf ss) (fun u => Lru.peek u c) with
  | .error m => (.error (.build m), c)
  | .ok p =>
    let s : Schema B := { url := ownUrl r, deps := builtFrom ss, body := p.1 }
    (.ok (s, p.2.map .text), Lru.put h.cap (ownUrl r) s c)

mutual
/-- lib.rs:454-500 `resolve_loaded` (with 359-450 `resolve_registry_internal`). The fuel bounds the depth of recursion;
`none` means that it was not enough. -/
def resolveLoaded (h : Host B) : Nat → Item B → Cache B → Option (Res B × Cache B)
  | 0, _, _ => none
  | _ + 1, .ready s, c => some (.ok (s, []), Lru.put h.cap s.url s c)
  | n + 1, .source r is, c =>
    match resolveAll (resolveDep h n) is c with
    | none => none
    | some rs => match settled rs.1 with
      | .error e => some (.error e, rs.2)
      | .ok ss => some (finish h r ss rs.2)

/-- lib.rs:176-246 `resolve_dependency`: from the cache, or from where the URL is redirected to, or as loaded. -/
def resolveDep (h : Host B) : Nat → Item B → Cache B → Option (Res B × Cache B)
  | 0, _, _ => none
  | n + 1, i, c =>
    match Lru.get i.url c with
    | (some s, c') => some (.ok (s, []), c')
    | (none, _) => match h.override i.url with
      | none => resolveLoaded h n i c
      | some path => match h.fetch { url := i.url, path := path } with
        | .error m => some (.error (.definition m), c)
        | .ok fr => match load h fr.1 c with
          | .error e => some (.error e, c)
          | .ok p => resolveLoaded h n p.1 c
end

/-- lib.rs:574-607 `load_and_resolve_schema`. -/
def loadAndResolve (h : Host B) (n : Nat) (visit : Item B → Bool) (r : Repo) (c : Cache B) : Option (Res B × Cache B) :=
  match load h r c with
  | .error e => some (.error e, c)
  | .ok p =>
    if visit p.1 then
      match resolveLoaded h n p.1 c with
      | none => none
      | some (.error e, c') => some (.error e, c')
      | some (.ok q, c') => some (.ok (q.1, p.2 ++ q.2), c')
    else some (.error .aborted, c)

/-- lib.rs:511-571 `resolve_schema`. -/
def request (h : Host B) (n : Nat) (u : SchemaUrl) (c : Cache B) : Option (Res B × Cache B) :=
  match Lru.get u c with
  | (some s, c') => some (.ok (s, []), c')
  | (none, _) => match h.fetch { url := u, path := (h.override u).getD "" } with
    | .error m => some (.error (.definition m), c)
    | .ok fr => match loadAndResolve h n (fun _ => true) fr.1 c with
      | none => none
      | some (.error e, c') => some (.error e, c')
      | some (.ok p, c') =>
        if p.1.url ≠ u then some (.error (.mismatch u p.1.url), c')
        else some (.ok (p.1, fr.2.map .text ++ p.2), Lru.put h.cap u p.1 c')

/-- crates/weaver_forge/src/v2/registry.rs:46-80, 562-580 `ForgeResolvedRegistry`: what templates see of a schema, with the
same of every registry it was built from. -/
inductive View (B : Type) where
  | node (s : Schema B) (deps : List (View B))

/-- registry.rs:510-543: each of the registries a schema was built from is requested and shown in turn; the first error
ends it. -/
def viewAll (req : SchemaUrl → Cache B → Option (Res B × Cache B))
    (rec : Schema B → Cache B → Option (Except Err (View B × List Note) × Cache B)) :
    List SchemaUrl → Cache B → Option (Except Err (List (View B) × List Note) × Cache B)
  | [], c => some (.ok ([], []), c)
  | u :: us, c => match req u c with
    | none => none
    | some (.error e, c1) => some (.error e, c1)
    | some (.ok p, c1) => match rec p.1 c1 with
      | none => none
      | some (.error e, c2) => some (.error e, c2)
      | some (.ok q, c2) => match viewAll req rec us c2 with
        | none => none
        | some (.error e, c3) => some (.error e, c3)
        | some (.ok qs, c3) => some (.ok (q.1 :: qs.1, p.2 ++ q.2 ++ qs.2), c3)

/-- registry.rs:84-585 `ForgeResolvedRegistry::try_from_resolved_schema`, by its dependencies. Simplification: the
conversion of the schema itself does not fail (it is the subject of Verif.Convert and Verif.Markdown.Lookup). -/
def view (h : Host B) : Nat → Schema B → Cache B → Option (Except Err (View B × List Note) × Cache B)
  | 0, _, _ => none
  | n + 1, s, c => match viewAll (request h n) (view h n) s.deps c with
    | none => none
    | some (.error e, c') => some (.error e, c')
    | some (.ok p, c') => some (.ok (.node s p.1, p.2), c')

end Verif.Engine
