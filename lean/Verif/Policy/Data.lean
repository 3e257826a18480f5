import Verif.Fs.Model
import Verif.V2.Model

/-!
# The data documents of policies

Models `crates/weaver_checker/src/lib.rs`: `add_data_from_file_or_dir`, `add_data_file_from_dir`, `add_data`, `split_glob`
and `is_hidden`. The file system is that of `Verif.Fs`. The glob matcher (globset) and the parsers of JSON and YAML are
parameters.
-/

namespace Verif.Policy
open Verif.Util Verif.Fs

/-- `regorus::Value` of a document. Simplification: what is not an object (null, numbers, texts, arrays) is an opaque
`atom`, since weaver never looks inside. -/
inductive Val where
  | atom (s : String)
  | obj (m : List (String × Val))

mutual
/-- Equality of values. -/
def Val.decEq (a : Val) (b : Val) : Decidable (a = b) :=
  match a, b with
  | .atom s, .atom t => if h : s = t then isTrue (by rw [h]) else isFalse (by simp [h])
  | .obj xs, .obj ys => match Val.decEqMap xs ys with
    | isTrue h => isTrue (by rw [h])
    | isFalse h => isFalse (by simp [h])
  | .atom _, .obj _ => isFalse (by simp)
  | .obj _, .atom _ => isFalse (by simp)
termination_by structural a
/-- Equality of fields. -/
def Val.decEqMap (a b : List (String × Val)) : Decidable (a = b) :=
  match a, b with
  | [], [] => isTrue rfl
  | [], _ :: _ => isFalse (by simp)
  | _ :: _, [] => isFalse (by simp)
  | x :: xs, y :: ys => match Val.decEqPair x y with
    | isTrue h => match Val.decEqMap xs ys with
      | isTrue h' => isTrue (by rw [h, h'])
      | isFalse h' => isFalse (by simp [h'])
    | isFalse h => isFalse (by simp [h])
termination_by structural a
/-- Equality of one field. -/
def Val.decEqPair (a b : String × Val) : Decidable (a = b) :=
  match a, b with
  | (k, v), (l, w) =>
    if h : k = l then match Val.decEq v w with
      | isTrue h' => isTrue (by rw [h, h'])
      | isFalse h' => isFalse (by simp [h'])
    else isFalse (by simp [h])
termination_by structural a
end

instance : DecidableEq Val := Val.decEq

mutual
/-- `regorus::Value::merge` (a dependency of weaver, not in the repository). Merging objects keeps the fields of both; a key
with two different values is an error. `deep` says whether two objects under one key are merged in turn or are different
values; everything that is proved holds for both. `none` is the error. -/
def merge (deep : Bool) (a : Val) : Val → Option Val
  | .atom s => if a = .atom s then some a else none
  | .obj n => match a with
    | .atom _ => none
    | .obj m => (mergeFields deep m n).map .obj
termination_by structural v => v
/-- The loop over the fields of the new object. -/
def mergeFields (deep : Bool) (m : List (String × Val)) : List (String × Val) → Option (List (String × Val))
  | [] => some m
  | f :: n => (mergeField deep m f).bind fun m' => mergeFields deep m' n
termination_by structural n => n
/-- One field of the new object. -/
def mergeField (deep : Bool) (m : List (String × Val)) : String × Val → Option (List (String × Val))
  | (k, v) => match aget k m with
    | none => some (bins k v m)
    | some old =>
      if old = v then some (bins k v m)
      else if deep then (merge deep old v).map fun w => bins k w m
      else none
termination_by structural f => f
end

/-- lib.rs:502-513 `add_data` with `regorus::Engine::add_data`, which takes only objects. The conversions of a value from
JSON to JSON do not fail. -/
def addData (deep : Bool) (data : Val) : Val → Option Val
  | .atom _ => none
  | .obj m => merge deep data (.obj m)

/-- What reading documents depends on. `glob p` is the matcher of the pattern `p`, or none if the pattern is invalid;
`utf8` says whether the bytes of a file are text; `json` and `yaml` are the parsers. -/
structure World where
  fs : Node
  cwd : List String
  glob : Chars → Option (Chars → Bool)
  utf8 : String → Bool
  json : String → Option Val
  yaml : String → Option Val
  deep : Bool

inductive Err where
  /-- `Error::AccessDenied` -/
  | accessDenied
  /-- `Error::InvalidGlobPattern` -/
  | invalidGlob
  /-- `Error::InvalidData` -/
  | invalidData
  /-- `Error::InvalidPolicyFile` -/
  | invalidPolicy
  /-- `Error::UnsupportedPolicyPath`; never made, since there are only files and directories -/
  | unsupportedPath
  /-- `Error::ViolationEvaluationError` -/
  | evaluation
  deriving DecidableEq, Repr

/-- `Path::extension` of a file name, `""` if there is none: what is after the last dot, unless this is the first
character. -/
def extension (s : Chars) : Chars :=
  match s.reverse.dropWhile (· ≠ '.') with
  | [] => []
  | _ :: before => if before = [] then [] else (s.reverse.takeWhile (· ≠ '.')).reverse

/-- lib.rs:360-379: the parser for a file, by its extension. -/
def parserOf (w : World) (ext : Chars) : Option (String → Option Val) :=
  if ext = "json".toList then some w.json
  else if ext = "yaml".toList ∨ ext = "yml".toList then some w.yaml
  else none

/-- lib.rs:394-399: a value below a path of keys. -/
def wrap (keys : List String) (v : Val) : Val := keys.foldr (fun k v => .obj [(k, v)]) v

/-- lib.rs:381-392: the keys of a file: the directories of its path below the root, then the name of the file without
extension. -/
def keysOf (rel : List String) (name : String) : List String :=
  rel.dropLast ++ [String.ofList (V2.stem name.toList)]

/-- lib.rs:337-404 `add_data_file_from_dir`, for the file with path `rel` below the root and the content `content`. `name` is
the name of the file; it is the last part of `rel`, unless the root is the file itself. -/
def addDataFile (w : World) (data : Val) (rel : List String) (name : String) (content : Option String) : Except Err Val :=
  match content with
  | none => .error .accessDenied
  | some c =>
    if w.utf8 c = false then .error .accessDenied
    else match parserOf w (extension name.toList) with
    | none => .ok data
    | some parse =>
      match parse c with
      | none => .error .invalidData
      | some v =>
        match addData w.deep data (wrap (keysOf rel name) v) with
        | none => .error .invalidData
        | some d => .ok d

/-- `std::path::Component::as_os_str`. -/
def Comp.text : Comp → Chars
  | .cur => ".".toList
  | .up => "..".toList
  | .name n => n.toList

/-- `Path::components`: the parts without the empty ones and `.`, but for a leading `.`. -/
def components (p : Path) (leadingCur : Bool) : List Comp := (if leadingCur then [.cur] else []) ++ p.normal

/-- lib.rs:608-611: a component with a wildcard. -/
def isWild (c : Comp) : Bool := (Comp.text c).any fun x => x == '*' || x == '?' || x == '['

/-- lib.rs:599-624 `split_glob`: the directory before the first component with a wildcard, and the pattern after it. -/
def splitGlob (pattern : Chars) : Path × Chars :=
  let p := Path.ofChars pattern
  let cs := components p (decide (p.abs = false ∧ (splitWhen (· == '/') pattern).head? = some ".".toList))
  (⟨p.abs, cs.takeWhile fun c => !isWild c⟩, ['/'].intercalate ((cs.dropWhile fun c => !isWild c).map Comp.text))

/-- lib.rs:626-635 `is_hidden`, for an entry that is not the root of the walk. -/
def isHidden (name : String) : Bool := name.toList.head? = some '.'

mutual
/-- `WalkDir` with `filter_entry(|e| !is_hidden(e))`: the entries below a node, each with its path. Links are not
followed. -/
def visible : List String → Node → List (List String)
  | p, .file _ => [p]
  | p, .link _ => [p]
  | p, .dir es => p :: visibleL p es
termination_by structural _ d => d
/-- The entries below the entries of a directory. -/
def visibleL : List String → List (String × Node) → List (List String)
  | _, [] => []
  | p, e :: es => visibleE p e ++ visibleL p es
termination_by structural _ es => es
/-- The entries below one entry of a directory. -/
def visibleE : List String → String × Node → List (List String)
  | p, (n, d) => if isHidden n then [] else visible (p ++ [n]) d
termination_by structural _ e => e
end

/-- `File` at a place in the file system, through links. -/
def contentAt (w : World) (p : List String) : Option String :=
  match readFile w.fs w.cwd (absolute p) with
  | .ok c => some c
  | .error _ => none

/-- The last name of a path (`Path::file_name`). -/
def lastName (p : List String) : String := p.getLast?.getD ""

/-- lib.rs:308-332: one entry of the walk. `base` is the place of the base directory. -/
def dataEntry (w : World) (g : Chars → Bool) (base : List String) (st : Val × List Err) (rel : List String) :
    Val × List Err :=
  if isFile w.fs w.cwd (absolute (base ++ rel)) && g (text rel) then
    match addDataFile w st.1 rel (lastName (base ++ rel)) (contentAt w (base ++ rel)) with
    | .ok d => (d, st.2)
    | .error e => (st.1, st.2 ++ [e])
  else st

/-- lib.rs:275-280: the base of a pattern; if it is empty, the current directory. -/
def basePath (pattern : Chars) : Path :=
  let b := (splitGlob pattern).1
  if b.comps = [] then ⟨b.abs, [.cur]⟩ else b

/-- lib.rs:291-300: the glob pattern; without one everything below the base. -/
def globOf (pattern : Chars) : Chars := if (splitGlob pattern).2 = [] then "**/*".toList else (splitGlob pattern).2

/-- lib.rs:302-334: everything below a place. -/
def addDataBelow (w : World) (data : Val) (g : Chars → Bool) (place : List String) (node : Node) : Except (List Err) Val :=
  let r := (visible [] node).foldl (dataEntry w g place) (data, [])
  if r.2 = [] then .ok r.1 else .error r.2

/-- lib.rs:291-306: by a glob pattern. -/
def addDataGlob (w : World) (data : Val) (pattern : Chars) (place : List String) (node : Node) : Except (List Err) Val :=
  match w.glob (globOf pattern) with
  | none => .error [.invalidGlob]
  | some g => addDataBelow w data g place node

/-- lib.rs:282-290: the pattern is the path of a file. Simplification: its name is the one in the pattern. -/
def addDataItself (w : World) (data : Val) (pattern : Chars) (c : String) : Except (List Err) Val :=
  let name := ((basePath pattern).comps.getLast?.bind Comp.name?).getD ""
  match addDataFile w data [name] name (some c) with
  | .ok d => .ok d
  | .error e => .error [e]

/-- lib.rs:282-306: a file, or what is below a directory. -/
def addDataAt (w : World) (data : Val) (pattern : Chars) (place : List String) : Node → Except (List Err) Val
  | .file c =>
    if (splitGlob pattern).2 = [] then addDataItself w data pattern c else addDataGlob w data pattern place (.file c)
  | .link t => addDataGlob w data pattern place (.link t)
  | .dir es => addDataGlob w data pattern place (.dir es)

/-- lib.rs:274-335 `add_data_from_file_or_dir`. Simplification: the names below the base are those below the place the base
leads to. -/
def addDataFrom (w : World) (data : Val) (pattern : Chars) : Except (List Err) Val :=
  match canonicalize w.fs w.cwd (basePath pattern) with
  | .error _ => .error [.accessDenied]
  | .ok place =>
    match w.fs.at place with
    | none => .error [.accessDenied]
    | some node => addDataAt w data pattern place node

end Verif.Policy
