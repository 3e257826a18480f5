import Verif.Common.VDir
import Verif.Fs.Model

/-!
# Archives and clones

Models the part of `crates/weaver_common/src/vdir.rs` that turns a registry path into a local directory: which entries of
an archive are unpacked and where, and which directory of a clone is used.

Simplifications: an archive is the list of its regular files and directories (links and other kinds of tar entries are not
modelled); the places that files are written to are computed without links on the disk; there are no permissions and no
full disks; white space is ASCII. Names are Unix paths.
-/

namespace Verif.Archive
open Verif.Util Verif.Fs Verif.Common

/-- A regular file or a directory in an archive, with its name as stored. -/
structure Entry where
  name : Chars
  isDir : Bool
  content : String
  deriving DecidableEq, Repr

/-- `std::path::Component`. -/
inductive Part where
  | root
  | comp (c : Comp)
  deriving DecidableEq, Repr

/-- `Path::components`: the root if the path is absolute; the parts without the empty ones and `.`, but for a leading `.`. -/
def parts (s : Chars) : List Part :=
  (if s.head? = some '/' then [.root] else if (splitWhen (· == '/') s).head? = some ".".toList then [.comp .cur] else []) ++
    (Path.ofChars s).normal.map .comp

/-- `Component::as_os_str`. -/
def Part.text : Part → Chars
  | .root => "/".toList
  | .comp .cur => ".".toList
  | .comp .up => "..".toList
  | .comp (.name n) => n.toList

/-- vdir.rs:989 `sub_folder.trim().is_empty()`. -/
def blank (s : Chars) : Bool := s.all Char.isWhitespace

/-- vdir.rs:976-1001 `path_to_unpack`: the parts that are joined to the target directory. -/
def pathToUnpack (ps : List Part) (sub : Option Chars) : Option (List Part) :=
  let rest := ps.drop 1
  match sub with
  | none => some rest
  | some s =>
    if blank s then some rest
    else match rest with
      | [] => some []
      | c :: r => if c.text ≠ s then none else some r

/-- vdir.rs:1000 `components.collect::<PathBuf>()`. -/
def comps (ps : List Part) : List Comp := ps.filterMap fun p => match p with | .comp c => some c | .root => none

/-- The disk while an archive is unpacked: the files with their contents, and directories known to exist. -/
structure Disk where
  files : List (List String × String) := []
  dirs : List (List String) := []
  deriving DecidableEq, Repr

/-- A place is below a file, so that it cannot exist. -/
def Disk.underFile (d : Disk) (p : List String) : Bool := d.files.any fun f => f.1.isPrefixOf p && f.1 != p

/-- A place is a directory. -/
def Disk.isDir (d : Disk) (p : List String) : Bool :=
  d.dirs.any (p.isPrefixOf ·) || d.files.any fun f => p.isPrefixOf f.1 && f.1 != p

/-- The place a path leads to if there are no links: each `..` removes the last name. -/
def settle : List String → List Comp → List String
  | pos, [] => pos
  | pos, .cur :: cs => settle pos cs
  | pos, .up :: cs => settle pos.dropLast cs
  | pos, .name n :: cs => settle (pos ++ [n]) cs

/-- `create_dir_all`, which fails if there is a file in the way. -/
def Disk.mkdir (d : Disk) (p : List String) : Option Disk :=
  if d.underFile p || d.files.any (·.1 == p) then none else some { d with dirs := p :: d.dirs }

/-- `create_parent_dirs` (vdir.rs:1004-1012) and the creation of a file; a file that exists is replaced. -/
def Disk.write (d : Disk) (p : List String) (c : String) : Option Disk :=
  if d.underFile p || d.isDir p then none else some { d with files := d.files.filter (·.1 ≠ p) ++ [(p, c)] }

/-- vdir.rs:886-898 for tar, 928-955 for zip: an entry that leads to the parts `ps`. `target` is the place of the
temporary directory. -/
def place (target : List String) (d : Disk) (e : Entry) (ps : List Part) : Option Disk :=
  let p := settle target (comps ps)
  if e.isDir then d.mkdir p else d.write p e.content

/-- vdir.rs:863-901 `unpack_tar_gz`. -/
def unpackTar (target : List String) (sub : Option Chars) : List Entry → Disk → Option Disk
  | [], d => some d
  | e :: es, d =>
    match pathToUnpack (parts e.name) sub with
    | none => unpackTar target sub es d
    | some ps => match place target d e ps with
      | none => none
      | some d' => unpackTar target sub es d'

/-- `ZipFile::enclosed_name` of zip 5.1: the names of a path that stays inside, with `..` applied, or none. -/
def enclosed : List String → List Part → Option (List String)
  | acc, [] => some acc
  | _, .root :: _ => none
  | acc, .comp .cur :: ps => enclosed acc ps
  | acc, .comp .up :: ps => if acc = [] then none else enclosed acc.dropLast ps
  | acc, .comp (.name n) :: ps => enclosed (acc ++ [n]) ps

/-- vdir.rs:909-958 `unpack_zip`. An entry without an enclosed name is skipped. -/
def unpackZip (target : List String) (sub : Option Chars) : List Entry → Disk → Option Disk
  | [], d => some d
  | e :: es, d =>
    match enclosed [] (parts e.name) with
    | none => unpackZip target sub es d
    | some names =>
      match pathToUnpack (names.map fun n => .comp (.name n)) sub with
      | none => unpackZip target sub es d
      | some ps => match place target d e ps with
        | none => none
        | some d' => unpackZip target sub es d'

inductive Kind where
  | tarGz
  | zip
  deriving DecidableEq, Repr

/-- vdir.rs:820-854 `try_from_local_archive`: the disk after unpacking into the new temporary directory `target`. -/
def unpack (k : Kind) (target : List String) (sub : Option Chars) (es : List Entry) : Option Disk :=
  match k with
  | .tarGz => unpackTar target sub es { dirs := [target] }
  | .zip => unpackZip target sub es { dirs := [target] }

/-- `Path::join` on texts. -/
def joinText (a b : Chars) : Chars :=
  if b.head? = some '/' then b
  else if a = [] ∨ a.getLast? = some '/' then a ++ b
  else a ++ '/' :: b

/-- vdir.rs:1084-1089: the file name in a URL, here what is after the last slash of the text (without query and fragment). -/
def urlName (u : Chars) : Chars :=
  let n := (u.reverse.takeWhile (· ≠ '/')).reverse
  if n = [] then "downloaded_file".toList else n

/-- vdir.rs:612-652, 751-766, 850-853, 1091-1098: the local path of a registry path; `tmp` is the temporary directory. -/
def located (tmp : Chars) : VPath → Chars
  | .localFolder p => p
  | .localArchive _ _ => tmp
  | .remoteArchive _ _ => tmp
  | .gitRepo _ _ none => tmp
  | .gitRepo _ _ (some s) => joinText tmp s
  | .remoteFile u => joinText tmp (urlName u)

end Verif.Archive
