import Verif.Util.Str
import Verif.Common.VDir

/-!
# Schema URLs and registry manifests

Models `crates/weaver_semconv/src/schema_url.rs` and `crates/weaver_semconv/src/manifest.rs`.
-/

namespace Verif.Schema
open Verif.Util Verif.Common

/-- What the code takes from the crate `url` for a parsed URL: the scheme, the path, and whether the URL has path segments
(`path_segments` is `None` for URLs like `mailto:a`). -/
structure Parsed where
  scheme : Chars
  path : Chars
  base : Bool
  deriving DecidableEq

/-- The crate `url` and the classification of characters are parameters. The theorems that need to know what they do say so
(`Lib.Faithful` in `Verif.Schema.Props`). -/
structure Lib where
  parse : Chars → Option Parsed
  alnum : Char → Bool
  /-- `char::is_whitespace`, for `str::trim`. -/
  white : Char → Bool

/-- `trim_end_matches('/')`. -/
def trimSlashes (s : Chars) : Chars := (s.reverse.dropWhile (· = '/')).reverse

/-- schema_url.rs:12-25 `SchemaUrl`: the URL, and the parts the two ranges select. -/
structure SchemaUrl where
  url : Chars
  name : Chars
  version : Chars
  deriving DecidableEq

/-- The errors of `SchemaUrl::new`. -/
inductive UrlError where
  | invalid
  | noPath
  | host
  | path
  | empty
  deriving DecidableEq

/-- The position of the last `/`. -/
def lastSlash (s : Chars) : Option Nat :=
  if '/' ∈ s then some (s.length - 1 - s.reverse.findIdx (· = '/')) else none

/-- schema_url.rs:37-40: some segment of the path is not empty. -/
def hasSegment (p : Parsed) : Bool := p.base && (splitWhen (· = '/') p.path).any (· ≠ [])

/-- schema_url.rs:29-70 `SchemaUrl::new`. `url[scheme_len..]` is `drop`: the scheme of a parsed URL is not longer than its
text. -/
def SchemaUrl.new (lib : Lib) (text : Chars) : Except UrlError SchemaUrl :=
  let url := trimSlashes text
  match lib.parse url with
  | none => .error .invalid
  | some parsed =>
    if hasSegment parsed = false then .error .noPath
    else
      let rest := (url.drop parsed.scheme.length).dropWhile fun c => !(lib.alnum c || c = '[')
      if rest = [] then .error .host
      else
        match splitFirst parsed.path rest with
        | none => .error .path
        | some (before, _) =>
          match lastSlash (trimSlashes parsed.path) with
          | none => .error .path
          | some i =>
            .ok {
              url
              name := rest.take (before.length + i)
              version := (rest.drop (before.length + i + 1)).take ((trimSlashes parsed.path).length - (i + 1)) }

/-- `s.trim().is_empty()`. -/
def blank (lib : Lib) (s : Chars) : Bool := s.all lib.white

/-- schema_url.rs:97-108 `try_from_name_version`. -/
def SchemaUrl.fromNameVersion (lib : Lib) (name version : Chars) : Except UrlError SchemaUrl :=
  if blank lib name || blank lib version then .error .empty
  else if "http://".toList.isPrefixOf name || "https://".toList.isPrefixOf name then
    SchemaUrl.new lib (trimSlashes name ++ '/' :: version)
  else SchemaUrl.new lib ("https://".toList ++ trimSlashes name ++ '/' :: version)

/-! ### Manifests -/

/-- A value of a YAML mapping, as far as the code looks at it. -/
inductive YVal where
  | null
  | text (s : Chars)
  | other
  deriving DecidableEq

/-- An entry of `dependencies`: a mapping. `extra` is whether it has other keys. An entry that is not a mapping is the one with
nothing in it (`get` finds nothing, and the error is the same). -/
structure RawDep where
  schemaUrl : Option YVal := none
  name : Option YVal := none
  path : Option YVal := none
  extra : Bool := false
  deriving DecidableEq

/-- manifest.rs:93-111 `Dependency`. -/
structure Dep where
  schemaUrl : SchemaUrl
  path : Option VPath
  deriving DecidableEq

/-- manifest.rs:132 `UNKNOWN_VERSION`. -/
def unknownVersion : Chars := "unknown".toList

/-- manifest.rs:123-125 `is_versioned`. -/
def Dep.versioned (d : Dep) : Bool := d.schemaUrl.version ≠ unknownVersion

/-- The derived reading of `registry_path: Option<VirtualDirectoryPath>`. -/
def readPath : Option YVal → Option (Option VPath)
  | none => some none
  | some .null => some none
  | some (.text t) => (VPath.parse t).map some
  | some .other => none

/-- manifest.rs:139-166 `parse_dependency`. Errors are texts in the code, here just that there is one. -/
def parseDep (lib : Lib) (strict : Bool) (d : RawDep) : Option Dep :=
  match d.schemaUrl with
  | some (.text u) =>
    match SchemaUrl.new lib u, readPath d.path with
    | .ok url, some p => some ⟨url, p⟩
    | _, _ => none
  | some _ => none
  | none =>
    match d.name with
    | some (.text n) =>
      if strict then none
      else if d.extra then none
      else
        match d.path with
        | some (.text t) =>
          match VPath.parse t, SchemaUrl.fromNameVersion lib n unknownVersion with
          | some p, .ok url => some ⟨url, some p⟩
          | _, _ => none
        | _ => none
    | _ => none

/-- manifest.rs:171-188 `RawManifestFields`. Settings that are `null` are absent; `S` is the type of stabilities, with the
default in place if there is none. `schema_url` is given by its text, it is parsed while reading. -/
structure Raw (S : Type) where
  fileFormat : Option Chars := none
  schemaUrl : Option Chars := none
  description : Option Chars := none
  semconvVersion : Option Chars := none
  schemaBaseUrl : Option Chars := none
  dependencies : List RawDep := []
  stability : S
  resolvedRegistryUri : Option Chars := none
  resolvedSchemaUri : Option Chars := none

/-- manifest.rs:34-60 `DefinitionRegistryManifest` and manifest.rs:401-429 `PublicationRegistryManifest`: the latter have the
URI of the resolved registry. manifest.rs:300-305 `RegistryManifest` is one of the two. -/
structure Manifest (S : Type) where
  schemaUrl : SchemaUrl
  description : Option Chars
  dependencies : List Dep
  stability : S
  /-- `some` in a publication manifest. -/
  resolved : Option Chars
  deriving DecidableEq

/-- The warnings about deprecated syntax. -/
inductive Warning where
  | resolvedSchemaUri
  | semconvVersion
  | legacyFile
  deriving DecidableEq

/-- manifest.rs:26 `PUBLICATION_MANIFEST_FILE_FORMAT`. -/
def publicationFormat : Chars := "manifest/2.0".toList

/-- The reading of `schema_url: Option<SchemaUrl>`: an error if the text is not a schema URL. -/
def readUrl (lib : Lib) : Option Chars → Option (Option SchemaUrl)
  | none => some none
  | some t =>
    match SchemaUrl.new lib t with
    | .ok u => some (some u)
    | .error _ => none

/-- manifest.rs:192-290 `into_manifest`, after the reading of the file (manifest.rs:328-332). -/
def Raw.toManifest {S : Type} (lib : Lib) (r : Raw S) : Option (Manifest S × List Warning) :=
  match readUrl lib r.schemaUrl with
  | none => none
  | some url =>
    if r.fileFormat = some publicationFormat then
      match url with
      | none => none
      | some url =>
        match r.dependencies.mapM (parseDep lib true) with
        | none => none
        | some deps =>
          match r.resolvedRegistryUri, r.resolvedSchemaUri with
          | some v, _ => some (⟨url, r.description, deps, r.stability, some v⟩, [])
          | none, some v => some (⟨url, r.description, deps, r.stability, some v⟩, [.resolvedSchemaUri])
          | none, none => none
    else
      match r.fileFormat with
      | some _ => none
      | none =>
        match url with
        | some url =>
          match r.dependencies.mapM (parseDep lib true) with
          | none => none
          | some deps => some (⟨url, r.description, deps, r.stability, none⟩, [])
        | none =>
          match r.schemaBaseUrl, r.semconvVersion with
          | some base, some version =>
            match SchemaUrl.fromNameVersion lib base version with
            | .error _ => none
            | .ok url =>
              match r.dependencies.mapM (parseDep lib false) with
              | none => none
              | some deps => some (⟨url, r.description, deps, r.stability, none⟩, [.semconvVersion])
          | _, _ => none

/-- manifest.rs:311-362 `try_from_file`, for a file that can be read: `legacy` is whether it has the old name. -/
def fromFile {S : Type} (lib : Lib) (legacy : Bool) (r : Raw S) : Option (Manifest S × List Warning) :=
  match r.toManifest lib with
  | none => none
  | some (m, w) => some (m, (if legacy then [.legacyFile] else []) ++ w)

/-- manifest.rs:439-468 `try_from_registry_manifest`. -/
def publish {S : Type} (m : Manifest S) (uri : Chars) : Option (Manifest S) :=
  match m.dependencies.mapM fun d => if d.versioned then some { d with path := none } else none with
  | none => none
  | some deps => some ⟨m.schemaUrl, m.description, deps, m.stability, some uri⟩

/-- The derived `Serialize` of a dependency (manifest.rs:93-111). -/
def Dep.write (d : Dep) : RawDep where
  schemaUrl := some (.text d.schemaUrl.url)
  path := d.path.map fun p => .text p.print

/-- The derived `Serialize` of both kinds of manifest (manifest.rs:33-60, 400-429); `file_format` is the constant. -/
def Manifest.write {S : Type} (m : Manifest S) : Raw S where
  fileFormat := m.resolved.map fun _ => publicationFormat
  schemaUrl := some m.schemaUrl.url
  description := m.description
  dependencies := m.dependencies.map Dep.write
  stability := m.stability
  resolvedRegistryUri := m.resolved

end Verif.Schema
