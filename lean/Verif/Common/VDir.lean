import Verif.Util.Str

/-!
# Registry paths

Models `crates/weaver_common/src/vdir.rs`: the text form of the places a registry can be read from.

The regular expression is modelled by what the regex crate does with it (leftmost-first): the source is as short as
possible, a refspec is preferred to none and is as short as possible, a sub folder is preferred to none.
-/

namespace Verif.Common
open Verif.Util

/-- `.+?` followed by `f`: the shortest non-empty start after which `f` accepts the rest. -/
def shortest {β : Type} (f : Chars → Option β) : Chars → Option (Chars × β)
  | [] => none
  | c :: r =>
    match f r with
    | some b => some ([c], b)
    | none => (shortest f r).map fun x => (c :: x.1, x.2)

/-- vdir.rs:310, the part `(?:\[(?P<sub_folder>.+?)])?$`. -/
def matchSub : Chars → Option (Option Chars)
  | [] => some none
  | c :: x => if c = '[' ∧ x.getLast? = some ']' ∧ x.dropLast ≠ [] then some (some x.dropLast) else none

/-- vdir.rs:310, the part `(?:@(?P<refspec>.+?))?` and what follows. -/
def matchRef : Chars → Option (Option Chars × Option Chars)
  | [] => some (none, none)
  | c :: r =>
    match (if c = '@' then shortest matchSub r else none) with
    | some x => some (some x.1, x.2)
    | none => (matchSub (c :: r)).map fun s => (none, s)

/-- vdir.rs:309-312 `REGISTRY_REGEX`: source, refspec and sub folder. `.` does not match a line break, and nothing else in
the expression does. -/
def captures (s : Chars) : Option (Chars × Option Chars × Option Chars) :=
  if '\n' ∈ s then none else shortest matchRef s

/-- vdir.rs:328-367 `VirtualDirectoryPath`. -/
inductive VPath where
  | localFolder (path : Chars)
  | localArchive (path : Chars) (sub : Option Chars)
  | remoteArchive (url : Chars) (sub : Option Chars)
  | gitRepo (url : Chars) (ref sub : Option Chars)
  | remoteFile (url : Chars)
  deriving DecidableEq

/-- vdir.rs:482. -/
def isHttp (s : Chars) : Bool := "http://".toList.isPrefixOf s || "https://".toList.isPrefixOf s

/-- vdir.rs:483. -/
def isArchive (s : Chars) : Bool := ".zip".toList.isSuffixOf s || ".tar.gz".toList.isSuffixOf s

/-- vdir.rs:482-512. -/
def classify (src : Chars) (ref sub : Option Chars) : VPath :=
  if isHttp src then
    if isArchive src then .remoteArchive src sub
    else if ".git".toList.isSuffixOf src || ref.isSome || sub.isSome then .gitRepo src ref sub
    else .remoteFile src
  else if isArchive src then .localArchive src sub
  else .localFolder src

/-- vdir.rs:465-513 `VirtualDirectoryPath::from_str`. -/
def VPath.parse (s : Chars) : Option VPath := (captures s).map fun c => classify c.1 c.2.1 c.2.2

/-- `[sub]` if there is one. -/
def printSub : Option Chars → Chars
  | none => []
  | some s => '[' :: s ++ [']']

/-- `@ref` if there is one. -/
def printRef : Option Chars → Chars
  | none => []
  | some r => '@' :: r

/-- vdir.rs:518-550 `Display`. -/
def VPath.print : VPath → Chars
  | .localFolder p => p
  | .localArchive p s => p ++ printSub s
  | .remoteArchive u s => u ++ printSub s
  | .gitRepo u r s => u ++ printRef r ++ printSub s
  | .remoteFile u => u

/-- vdir.rs:371-378 `map_option`. -/
def mapOption (o : Option Chars) (f : Chars → Chars) : Option Chars :=
  if f (o.getD []) = [] then none else some (f (o.getD []))

/-- vdir.rs:389-411 `map_sub_folder`. -/
def VPath.mapSub (f : Chars → Chars) : VPath → VPath
  | .localFolder p => .localFolder (f p)
  | .localArchive p s => .localArchive p (mapOption s f)
  | .remoteArchive u s => .remoteArchive u (mapOption s f)
  | .gitRepo u r s => .gitRepo u r (mapOption s f)
  | .remoteFile u => .remoteFile (f u)

end Verif.Common
