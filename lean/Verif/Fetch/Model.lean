import Verif.Common.VDir
import Verif.Util.Map
/-
Downloading a registry: crates/weaver_common/src/vdir.rs:119-279, 662-767, 1030-1099.

The network is a function from requests to answers. Not modelled: the User-Agent header, redirects (the library keeps the
credentials only on the same host), what the answers of the file system are when a download is written.
-/
namespace Verif.Fetch
open Verif.Util Verif.Common

/-- A request: its URL and the headers `Authorization` (the token) and `Accept`. -/
structure Req where
  url : Chars
  token : Option String := none
  accept : Option String := none
deriving DecidableEq, Repr

/-- An asset of a release: the fields `name` and `url` if they are strings (vdir.rs:271, 274-275). -/
structure Asset where
  name : Option Chars := none
  url : Option Chars := none
deriving DecidableEq, Repr

/-- The description of a release: the field `assets` if it is an array (vdir.rs:265-267). -/
abbrev Release := Option (List Asset)

/-- What servers answer: to a request for a release (sent, read and parsed, vdir.rs:222-229), and to one for a file (166). -/
structure Net where
  release : Req → Except String Release
  file : Req → Except String String

/-- The errors of a download, by their place. -/
inductive Err where
  | api (msg : String)
  | noAssets
  | notFound (file tag : Chars)
  | noUrl
  | get (msg : String)
deriving DecidableEq, Repr

/-- The state of a process: `GITHUB_RELEASE_CACHE` (vdir.rs:176-177), and the requests that were sent. -/
structure World where
  cache : List (String × Release) := []
  sent : List Req := []

/-- vdir.rs:136-146 `attach_auth`: `auth` is the resolver (http_auth.rs), `orig` the URL of the user. -/
def attachAuth (auth : Chars → Option String) (orig : Chars) (r : Req) : Req := { r with token := auth orig }

/-- `str::split_once('/')`. -/
def cut : Chars → Option (Chars × Chars)
  | [] => none
  | c :: r => if c = '/' then some ([], r) else (cut r).map fun x => (c :: x.1, x.2)

/-- `str::splitn(n, '/')`. -/
def splitN : Nat → Chars → List Chars
  | 0, _ => []
  | 1, s => [s]
  | n + 2, s =>
    match cut s with
    | none => [s]
    | some (a, b) => a :: splitN (n + 1) b

/-- `str::strip_prefix`. -/
def stripPrefix (p s : Chars) : Option Chars := if p.isPrefixOf s then some (s.drop p.length) else none

/-- What a URL of an asset of a release says. -/
structure Place where
  owner : Chars
  repo : Chars
  tag : Chars
  file : Chars
deriving DecidableEq, Repr

/-- vdir.rs:246. -/
def site : Chars := "https://github.com/".toList

/-- vdir.rs:189. -/
def apiBase : Chars := "https://api.github.com".toList

/-- vdir.rs:245-252 `parse_github_release_url`. -/
def parsePlace (url : Chars) : Option Place :=
  match stripPrefix site url with
  | none => none
  | some rest =>
    match splitN 6 rest with
    | [owner, repo, r, d, tag, file] =>
      if r ≠ "releases".toList ∨ d ≠ "download".toList then none else some { owner, repo, tag, file }
    | _ => none

/-- vdir.rs:205. -/
def cacheKey (p : Place) : String := .ofList <| p.owner ++ '/' :: p.repo ++ '/' :: p.tag

/-- vdir.rs:215. -/
def apiUrl (p : Place) : Chars :=
  apiBase ++ "/repos/".toList ++ p.owner ++ '/' :: p.repo ++ "/releases/tags/".toList ++ p.tag

/-- vdir.rs:255-279 `find_asset_url`. -/
def findAsset (rel : Release) (p : Place) : Except Err Chars :=
  match rel with
  | none => .error .noAssets
  | some l =>
    match l.find? fun a => a.name == some p.file with
    | none => .error (.notFound p.file p.tag)
    | some a =>
      match a.url with
      | none => .error .noUrl
      | some u => .ok u

/-- vdir.rs:218-224. -/
def releaseReq (auth : Chars → Option String) (url : Chars) (p : Place) : Req :=
  attachAuth auth url { url := apiUrl p, accept := some "application/vnd.github+json" }

/-- vdir.rs:206-238: the release, from the cache or from the server. -/
def getRelease (net : Net) (auth : Chars → Option String) (url : Chars) (p : Place) (w : World) : Except Err Release × World :=
  match aget (cacheKey p) w.cache with
  | some r => (.ok r, w)
  | none =>
    let q := releaseReq auth url p
    match net.release q with
    | .error m => (.error (.api m), { w with sent := w.sent ++ [q] })
    | .ok r => (.ok r, { cache := aset (cacheKey p) r w.cache, sent := w.sent ++ [q] })

/-- vdir.rs:188-242 `normalize_github_url`. -/
def normalize (net : Net) (auth : Chars → Option String) (url : Chars) (w : World) : Except Err Chars × World :=
  match parsePlace url with
  | none => (.ok url, w)
  | some p =>
    match getRelease net auth url p w with
    | (.error e, w) => (.error e, w)
    | (.ok r, w) => (findAsset r p, w)

/-- vdir.rs:158-165. -/
def fileReq (auth : Chars → Option String) (url resolved : Chars) : Req :=
  let q := attachAuth auth url { url := resolved }
  if "https://api.github.com/".toList.isPrefixOf resolved then { q with accept := some "application/octet-stream" } else q

/-- vdir.rs:151-172 `download_to_file`. -/
def download (net : Net) (auth : Chars → Option String) (url : Chars) (w : World) : Except Err String × World :=
  match normalize net auth url w with
  | (.error e, w) => (.error e, w)
  | (.ok u, w) =>
    let q := fileReq auth url u
    let w := { w with sent := w.sent ++ [q] }
    match net.file q with
    | .error m => (.error (.get m), w)
    | .ok c => (.ok c, w)

/-- The downloads of a process, one after the other. -/
def downloads (net : Net) (auth : Chars → Option String) : List Chars → World → List (Except Err String) × World
  | [], w => ([], w)
  | u :: us, w =>
    let r := download net auth u w
    let rs := downloads net auth us r.2
    (r.1 :: rs.1, rs.2)

/-! ### Archives -/

/-- The formats of archives. -/
inductive Format where
  | tarGz
  | zip
deriving DecidableEq, Repr

/-- vdir.rs:838-846: the format by the name of a file. -/
def formatOf (name : Chars) : Option Format :=
  if ".tar.gz".toList.isSuffixOf name then some .tarGz else if ".zip".toList.isSuffixOf name then some .zip else none

/-- The path of a URL and what is before it: up to the query or the fragment (simplified: the URL parser changes nothing else
in the last part of the path, such as `..` or characters that must be escaped). -/
def beforeQuery (url : Chars) : Chars := url.takeWhile fun c => c ≠ '?' && c ≠ '#'

/-- What is after the last slash. -/
def lastPart (s : Chars) : Chars := (s.reverse.takeWhile (· ≠ '/')).reverse

/-- vdir.rs:1045-1050: the name a remote archive is saved under. -/
def archiveName (url : Chars) : Option Chars :=
  let n := lastPart (beforeQuery url)
  if n.isEmpty then none else some n

/-- vdir.rs:1030-1061 with 838-846: the format a remote archive is unpacked as; `none` is an error. The temporary directory
comes before the name, which matters not for the end of the path. -/
def remoteFormat (url : Chars) : Option Format := (archiveName url).bind formatOf

/-! ### Repositories -/

/-- vdir.rs:293-295 `is_commit_sha`: `ObjectId::from_hex` for SHA-1. -/
def isCommitSha (s : Chars) : Bool :=
  s.length == 40 && s.all fun c => "0123456789abcdefABCDEF".toList.contains c

/-- A remote repository: what its default branch, its branches and tags, and its commits hold. -/
structure Repo where
  head : Option String
  ref : Chars → Option String
  commit : Chars → Option String

/-- vdir.rs:703-709: whether only the last commit of the default branch is fetched. -/
def shallow (refspec : Option Chars) : Bool := refspec.isNone

/-- vdir.rs:668-749: what is checked out; `none` is an error. A name that is not an object id is looked for among branches and
tags; else everything is fetched and the commit is checked out. -/
def checkedOut (r : Repo) (refspec : Option Chars) : Option String :=
  match refspec with
  | none => r.head
  | some s => if shallow refspec then none else if isCommitSha s then r.commit s else r.ref s

end Verif.Fetch
