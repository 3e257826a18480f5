import Verif.Util.Map
import Verif.Util.Str

/-!
# Reading templates from a directory

Models `crates/weaver_forge/src/file_loader.rs`.

A file system is a tree of directories, files and symbolic links. Resolving a path follows the rules of the operating
system (`realpath`): `.` and `..` and a trailing slash need a directory, `..` of the root is the root, a link is replaced
by its target, and after 40 links resolution fails. Simplifications: there are no permissions, every file is text, and
the tree does not change while a path is resolved (what happens if it changes between two calls is modelled).
-/

namespace Verif.Fs
open Verif.Util

/-- A component of a path between two slashes. An empty component is `cur`. -/
inductive Comp where
  | cur
  | up
  | name (n : String)
  deriving DecidableEq, Repr

/-- `std::path::Path`. `comps` has a last component `cur` if the path ends with a slash. -/
structure Path where
  abs : Bool
  comps : List Comp
  deriving DecidableEq, Repr

/-- A component from its text. -/
def Comp.ofChars (s : Chars) : Comp :=
  if s = [] ∨ s = ".".toList then .cur else if s = "..".toList then .up else .name (String.ofList s)

/-- `Path::new(s)` for a text. -/
def Path.ofChars (s : Chars) : Path :=
  ⟨s.head? = some '/', (splitWhen (· == '/') s).map Comp.ofChars⟩

/-- `PathBuf::push`, `Path::join`: an absolute path replaces. -/
def Path.push (p q : Path) : Path := if q.abs then q else ⟨p.abs, p.comps ++ q.comps⟩

/-- What a directory entry is. -/
inductive Node where
  | file (content : String)
  | link (target : Path)
  | dir (entries : List (String × Node))

/-- The node below `d` reached through directories only, along plain names. -/
def Node.at : Node → List String → Option Node
  | d, [] => some d
  | .dir es, n :: p => (aget n es).bind fun d => d.at p
  | _, _ :: _ => none

inductive Err where
  | notFound
  | notADirectory
  | tooManyLinks
  | outside
  | isADirectory
  deriving DecidableEq, Repr

/-- One walk along the components of a path from the directory `pos`; `follow` continues after a link. -/
def step (fs : Node) (follow : List String → List Comp → Except Err (List String)) :
    List String → List Comp → Except Err (List String)
  | pos, [] => .ok pos
  | pos, c :: cs =>
    match fs.at pos with
    | some (.dir es) =>
      match c with
      | .cur => step fs follow pos cs
      | .up => step fs follow pos.dropLast cs
      | .name n =>
        match aget n es with
        | none => .error .notFound
        | some (.link t) => follow (if t.abs then [] else pos) (t.comps ++ cs)
        | some _ => step fs follow (pos ++ [n]) cs
    | _ => .error .notADirectory

/-- Walks along a path with at most `n` links. -/
def walk (fs : Node) : Nat → List String → List Comp → Except Err (List String)
  | 0 => step fs fun _ _ => .error .tooManyLinks
  | n + 1 => step fs (walk fs n)

/-- `Path::canonicalize`: the names from the root of the file system. `cwd` is the working directory. The empty path does
not exist. -/
def canonicalize (fs : Node) (cwd : List String) (p : Path) : Except Err (List String) :=
  if p.comps = [] then .error .notFound else walk fs 40 (if p.abs then [] else cwd) p.comps

/-- file_loader.rs:229-259 `safe_join`. -/
def safeJoin (fs : Node) (cwd : List String) (root : Path) (template : Chars) : Except Err (List String) :=
  match canonicalize fs cwd root with
  | .error e => .error e
  | .ok r =>
    match canonicalize fs cwd (root.push (Path.ofChars template)) with
    | .error e => .error e
    | .ok p => if r.isPrefixOf p then .ok p else .error .outside

/-- The absolute path that names a place in the file system. -/
def absolute (p : List String) : Path := ⟨true, .cur :: p.map Comp.name⟩

/-- file_loader.rs:168-175 `FileSystemFileLoader::try_new`: the directory of the loader. -/
def tryNew (fs : Node) (cwd : List String) (dir : Path) (target : Chars) : Except Err (List String) :=
  safeJoin fs cwd dir target

/-- `fs::read_to_string`. -/
def readFile (fs : Node) (cwd : List String) (p : Path) : Except Err String :=
  match canonicalize fs cwd p with
  | .error e => .error e
  | .ok q =>
    match fs.at q with
    | some (.file c) => .ok c
    | _ => .error .isADirectory

/-- file_loader.rs:207-224 `FileSystemFileLoader::load_file` for the loader of the directory `dir`. The file system is `fs`
while the name is checked, and `fs'` while the file is read. -/
def loadFile (fs fs' : Node) (cwd : List String) (dir : List String) (file : Chars) : Except Err (Option String) :=
  match safeJoin fs cwd (absolute dir) file with
  | .error _ => .ok none
  | .ok path =>
    match readFile fs' cwd (absolute path) with
    | .ok c => .ok (some c)
    | .error .notFound => .ok none
    | .error e => .error e

/-- `Path::is_file`, which follows links. -/
def isFile (fs : Node) (cwd : List String) (p : Path) : Bool :=
  match canonicalize fs cwd p with
  | .error _ => false
  | .ok q => match fs.at q with | some (.file _) => true | _ => false

mutual
/-- The entries `WalkDir` visits below a node, without following links; each with its path. -/
def entries : List String → Node → List (List String)
  | p, .file _ => [p]
  | p, .link _ => [p]
  | p, .dir es => p :: entriesL p es
termination_by structural _ d => d
/-- The entries below the entries of a directory. -/
def entriesL : List String → List (String × Node) → List (List String)
  | _, [] => []
  | p, e :: es => entriesE p e ++ entriesL p es
termination_by structural _ es => es
/-- The entries below one entry of a directory. -/
def entriesE : List String → String × Node → List (List String)
  | p, (n, d) => entries (p ++ [n]) d
termination_by structural _ e => e
end

/-- file_loader.rs:186-202 `FileSystemFileLoader::all_files`: paths relative to `dir`. -/
def allFiles (fs : Node) (cwd : List String) (dir : List String) : List (List String) :=
  match fs.at dir with
  | none => []
  | some d => (entries [] d).filter fun p => isFile fs cwd (absolute (dir ++ p))

/-- The text of a relative path: file_loader.rs:196-198, forge/src/lib.rs:714 `template_path.to_str()`. -/
def text (p : List String) : Chars := ['/'].intercalate (p.map String.toList)

/-! ### Embedded templates -/

mutual
/-- file_loader.rs:117-127 `collect_files`: the path of each file with the path of the directory it is in removed. -/
def embeddedFiles : Node → List (List String)
  | .dir es => embeddedFilesL es
  | _ => []
termination_by structural d => d
/-- The entries of an embedded directory. -/
def embeddedFilesL : List (String × Node) → List (List String)
  | [] => []
  | e :: es => embeddedFilesE e ++ embeddedFilesL es
termination_by structural es => es
/-- An entry of an embedded directory. -/
def embeddedFilesE : String × Node → List (List String)
  | (n, d) => match d with
    | .file _ => [[n]]
    | d => embeddedFiles d
termination_by structural e => e
end

/-- `std::path::Path::components` of a relative path, without the leading `.` it keeps: the components compared by `==`. -/
def Path.normal (p : Path) : List Comp := p.comps.filter (· ≠ .cur)

/-- The name in a component. -/
def Comp.name? : Comp → Option String
  | .name n => some n
  | _ => none

/-- file_loader.rs:144-156 `EmbeddedFileLoader::load_file`, without local files: `include_dir` compares whole paths, so it
finds the file with the same components as the requested name, below the directory of the target. Absolute names are
appended to the target like others. A target is a plain name. -/
def embeddedLoad (d : Node) (file : Chars) : Option String :=
  let names := (Path.ofChars file).normal.map Comp.name?
  if names.all Option.isSome then
    match d.at (names.filterMap id) with
    | some (.file c) => some c
    | _ => none
  else none

/-- file_loader.rs:53-57 `EmbeddedFileLoader`. -/
inductive Embedded where
  | local_ (dir : List String)
  | builtin (d : Node)

/-- file_loader.rs:64-102 `EmbeddedFileLoader::try_new`. -/
def Embedded.tryNew (fs : Node) (cwd : List String) (embedded : Node) (localDir : Path) (target : Chars) :
    Except Err Embedded :=
  match canonicalize fs cwd (localDir.push (Path.ofChars target)) with
  | .ok _ =>
    match safeJoin fs cwd localDir target with
    | .ok dir => .ok (.local_ dir)
    | .error e => .error e
  | .error _ =>
    match embedded.at [String.ofList target] with
    | some (.dir es) => .ok (.builtin (.dir es))
    | _ => .error .notFound

/-- file_loader.rs:139-158 `EmbeddedFileLoader::load_file`. -/
def Embedded.load (fs : Node) (cwd : List String) (file : Chars) : Embedded → Except Err (Option String)
  | .local_ dir => loadFile fs fs cwd dir file
  | .builtin d => .ok (embeddedLoad d file)

/-- file_loader.rs:116-136 `EmbeddedFileLoader::all_files`. -/
def Embedded.files (fs : Node) (cwd : List String) : Embedded → List (List String)
  | .local_ dir => allFiles fs cwd dir
  | .builtin d => embeddedFiles d

/-! ### Writing generated files -/

/-- forge/src/lib.rs:861: the path a generated file is written to. -/
def outputPath (outputDir : Path) (fileName : Chars) : Path := outputDir.push (Path.ofChars fileName)

end Verif.Fs
