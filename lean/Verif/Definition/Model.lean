import Verif.Archive.Model
import Verif.Policy.Data

/-!
# Definition files of a registry

Models `load_definition_repository` (`crates/weaver_resolver/src/loader.rs:421-534`), the search for the manifest
(`crates/weaver_semconv/src/registry_repo.rs:26-53`) and how a definition file gets its provenance
(`crates/weaver_semconv/src/semconv.rs:362-410`).

Simplifications: links are not followed by the walk (`follow_symlinks` is false; a link to a file is read, as in the code);
a root that is itself a link with a hidden name is not modelled; there are no permissions; names are text. The files are
read in parallel: `order` is the order in which the results arrive.
-/

namespace Verif.Definition
open Verif.Util Verif.Fs Verif.Policy

/-- What loading depends on. `parse path content` reads and validates a definition file: a definition with messages, or an
error (semconv.rs:384-410). `imports` are the imports of a definition. -/
structure World (σ ε ι : Type) where
  fs : Node
  cwd : List String
  parse : Chars → String → Except ε (σ × List ε)
  imports : σ → Option ι

/-- The registry: its local path (`registry_repo.path()`) and its path as the user knows it (`registry_path_repr()`). -/
structure Place where
  root : Chars
  repr : Chars
  deriving DecidableEq, Repr

/-- `Path::file_name`. -/
def fileName (p : Path) : Option String :=
  match p.normal.getLast? with
  | some (.name n) => some n
  | _ => none

/-- `walkdir::DirEntry::file_name` of the root of the walk: the whole path if it has no last name. -/
def rootName (root : Chars) : Chars :=
  match fileName (Path.ofChars root) with
  | some n => n.toList
  | none => root

/-- loader.rs:427-433 `is_hidden`. -/
def hidden (name : Chars) : Bool := name.head? = some '.'

/-- loader.rs:455-458: the entries that the walk visits, below the place `dir` of the root. The filter applies to the root
too. -/
def visited (fs : Node) (dir : List String) (root : Chars) : List (List String) :=
  if hidden (rootName root) then []
  else match fs.at dir with
    | none => []
    | some d => visible [] d

/-- The name of an entry: its last name, or that of the root. -/
def nameOf (root : Chars) (rel : List String) : Chars :=
  match rel.getLast? with
  | some n => n.toList
  | none => match fileName (Path.ofChars root) with
    | some n => n.toList
    | none => []

/-- loader.rs:434-443 `is_semantic_convention_file`. -/
def isDefinition (fs : Node) (cwd : List String) (dir : List String) (root : Chars) (rel : List String) : Bool :=
  let name := nameOf root rel
  let ext := extension name
  isFile fs cwd (absolute (dir ++ rel)) && (ext == "yaml".toList || ext == "yml".toList) &&
    name != "schema-next.yaml".toList && name != "manifest.yaml".toList && name != "registry_manifest.yaml".toList

/-- The text of the path of an entry: `root` joined with the names. -/
def pathText (root : Chars) (rel : List String) : Chars :=
  if rel = [] then root else Archive.joinText root (text rel)

/-- loader.rs:471-487: the path of a file as the user knows it; none if the code panics: there is no text after the root, or
the character after it has more than one byte. The path starts with the text of the root, so characters are counted. -/
def provenance (loc : Place) (path : Chars) : Option Chars :=
  let rest := path.drop loc.root.length
  if loc.repr.getLast? = some '/' then some (loc.repr ++ rest)
  else match rest with
    | [] => none
    | c :: r => if c.utf8Size = 1 then some (loc.repr ++ '/' :: r) else none

/-- What becomes of a definition file. -/
inductive Result (σ ε : Type) where
  | panic
  | fatal (e : ε)
  | ok (spec : σ) (prov : Chars) (nfes : List ε)

/-- semconv.rs:362-410 `from_file_with_mapped_path`: the provenance is computed before the file is read. -/
def readOne {σ ε ι : Type} (w : World σ ε ι) (loc : Place) (dir : List String) (missing : ε) (rel : List String) : Result σ ε :=
  match provenance loc (pathText loc.root rel) with
  | none => .panic
  | some prov =>
    match readFile w.fs w.cwd (absolute (dir ++ rel)) with
    | .error _ => .fatal missing
    | .ok c =>
      match w.parse (pathText loc.root rel) c with
      | .error e => .fatal e
      | .ok (s, nfes) => .ok s prov nfes

/-- A loaded registry: the definitions and the imports, each with the file it is from; and messages. -/
structure Loaded (σ ε ι : Type) where
  specs : List (σ × Chars) := []
  imports : List (ι × Chars) := []
  nfes : List ε := []
  deriving DecidableEq

inductive Outcome (σ ε ι : Type) where
  | panic
  | walkError
  | fatal (e : ε)
  | ok (l : Loaded σ ε ι)
  deriving DecidableEq

/-- loader.rs:497-511: the definitions and messages up to the first fatal error. -/
def collect {σ ε : Type} : List (Result σ ε) → List (σ × Chars) → List ε → Except ε (List (σ × Chars) × List ε)
  | [], specs, nfes => .ok (specs, nfes)
  | .panic :: rs, specs, nfes => collect rs specs nfes
  | .fatal e :: _, _, _ => .error e
  | .ok s p n :: rs, specs, nfes => collect rs (specs ++ [(s, p)]) (nfes ++ n)

def Result.isPanic {σ ε : Type} : Result σ ε → Bool
  | .panic => true
  | _ => false

/-- loader.rs:513-522: the imports with the file they are from. -/
def importsOf {σ ε ι : Type} (w : World σ ε ι) (specs : List (σ × Chars)) : List (ι × Chars) :=
  specs.filterMap fun s => (w.imports s.1).map fun i => (i, s.2)

/-- loader.rs:454-533 for the entries in the order `order`. A panic in one thread ends the whole. -/
def loadOrder {σ ε ι : Type} (w : World σ ε ι) (loc : Place) (dir : List String) (missing : ε) (order : List (List String)) :
    Outcome σ ε ι :=
  let rs := (order.filter (isDefinition w.fs w.cwd dir loc.root)).map (readOne w loc dir missing)
  if rs.any Result.isPanic then .panic
  else match collect rs [] [] with
    | .error e => .fatal e
    | .ok x => .ok ⟨x.1, importsOf w x.1, x.2⟩

/-- loader.rs:421-534 `load_definition_repository`. `schedule` is the order in which the results of the walk arrive. If the
root does not exist, the walk gives an error. -/
def load {σ ε ι : Type} (w : World σ ε ι) (loc : Place) (missing : ε) (schedule : List (List String) → List (List String)) :
    Outcome σ ε ι :=
  if loc.root = [] then .walkError
  else match canonicalize w.fs w.cwd (Path.ofChars loc.root) with
  | .error _ => .walkError
  | .ok dir => loadOrder w loc dir missing (schedule (visited w.fs dir loc.root))

/-- `Path::exists`. -/
def pathExists (fs : Node) (cwd : List String) (p : Path) : Bool :=
  match canonicalize fs cwd p with
  | .ok _ => true
  | .error _ => false

/-- registry_repo.rs:26-53 `find_manifest_path`. -/
def manifestPath (fs : Node) (cwd : List String) (root : Chars) : Option Path :=
  if isFile fs cwd (Path.ofChars root) then some (Path.ofChars root)
  else
    let m := (Path.ofChars root).push (Path.ofChars "manifest.yaml".toList)
    let l := (Path.ofChars root).push (Path.ofChars "registry_manifest.yaml".toList)
    if pathExists fs cwd m then some m
    else if pathExists fs cwd l then some l
    else none

end Verif.Definition
