import Verif.Policy.Flow
import Verif.Schema.Model

/-!
# The commands around loading and resolving

Models `src/registry/{generate,resolve,stats,emit,live_check,search,mcp,diff,package}.rs`, `src/serve/mod.rs` and
`process_diagnostics` of `src/main.rs`: what each command does with the messages of loading, resolving and policies, when it
writes something, and the exit code. `registry check` is in `Verif.Policy.Flow`, `registry update-markdown` in `Verif.Snippet`.

Parameters: what loading gives (`Repo`), and what the output side does (`Output`), which is modelled elsewhere (`Verif.Gen`,
`Verif.Emit`, `Verif.LiveCheck`). Simplification: what a command does to the outside is a list of names.
-/

namespace Verif.Commands
open Verif.Util Verif.Policy

/-- src/main.rs:93-99 `ExitDirectives`; no warnings is the empty list. -/
structure Exit where
  code : Nat
  warnings : List Msg

/-- What a command did to the outside (files, telemetry, a server that ran), and its result. -/
abbrev Ran := List String × Except (List Msg) Exit

/-- crates/weaver_common/src/diagnostic.rs:192-202 `has_error`. -/
def bad (future : Bool) (ms : List Msg) : Bool := Common.hasError (ms.map fun m => ⟨.single 0 none, m.severity future⟩)

/-- src/main.rs:235-274 `process_diagnostics`: the exit code and the messages that are shown. `rendered` says whether printing
messages works. -/
def process (future rendered : Bool) : Except (List Msg) Exit → Nat × List Msg
  | .error ms => if rendered = false then (1, []) else (if bad future ms then 1 else 0, ms)
  | .ok e => (e.code, if rendered = false then [] else e.warnings)

/-- The output side of a command. `prepare` is the error of preparing it (parameters, templates, configuration), `run` is what
is written for a document and the error that stops it. -/
structure Output where
  prepare : Option String
  run : Val → List String × Option String

/-- src/weaver.rs:74-86 `load_and_resolve_main`, for a registry with the messages of fetching it (`none`: it cannot be
fetched). -/
def loadMain (env : Env) (cfg : Config) : Option (Repo × List Msg) → Except Msg (Resolved × List Msg)
  | none => .error (fatal "registry")
  | some (repo, fetched) =>
    match repo.loadAndResolve env cfg fetched with
    | (.error m, _) => .error m
    | (.ok r, diag) => .ok (r, diag)

/-- The end of generate.rs and resolve.rs: the artifacts, then the messages. -/
def generateAll (out : Output) (t : Val) (diag : List Msg) : Ran :=
  match out.run t with
  | (acts, some e) => (acts, .error [fatal e])
  | (acts, none) => (acts, if diag ≠ [] then .error diag else .ok ⟨0, []⟩)

/-- src/registry/generate.rs:94-164 `command`. -/
def generate (env : Env) (cfg : Config) (main : Option (Repo × List Msg)) (out : Output) : Ran :=
  match loadMain env cfg main with
  | .error m => ([], .error [m])
  | .ok (r, diag) =>
    match out.prepare with
    | some e => ([], .error [fatal e])
    | none => generateAll out r.template (diag ++ r.afterPolicy env)

/-- src/registry/resolve.rs:63-117 `command`; the error in the future mode is src/registry/mod.rs `Error::Deprecated`. -/
def resolve (env : Env) (cfg : Config) (main : Option (Repo × List Msg)) (out : Output) : Ran :=
  if env.future then ([], .error [fatal "Deprecated"])
  else match loadMain env cfg main with
    | .error m => ([], .error [m])
    | .ok (r, diag) =>
      match out.prepare with
      | some e => ([], .error [fatal e])
      | none => generateAll out r.template (diag ++ r.afterPolicy env)

/-- The end of stats.rs and diff.rs: the output, and no messages. -/
def printAll (out : Output) (t : Val) : Ran :=
  match out.prepare with
  | some e => ([], .error [fatal e])
  | none =>
    match out.run t with
    | (acts, some e) => (acts, .error [fatal e])
    | (acts, none) => (acts, .ok ⟨0, []⟩)

/-- Options of a command that does not use policies: crates/weaver_config/src/effective.rs:90-95 `skip_all`, used by
src/registry/mod.rs:352-362 and search.rs:390. -/
def noPolicy (cfg : Config) : Config := { cfg with skip := true }

/-- src/registry/stats.rs:64-125 `command`. -/
def stats (env : Env) (cfg : Config) (main : Option (Repo × List Msg)) (out : Output) : Ran :=
  match loadMain env (noPolicy cfg) main with
  | .error m => ([], .error [m])
  | .ok (r, diag) => if bad env.future diag then ([], .error diag) else printAll out r.template

/-- src/registry/diff.rs:60-114 `command`; `delta` is src/weaver.rs:236-242 `Resolved::diff` for registries of the same version.
Both registries are fetched first, and the messages of fetching them are dropped. -/
def diff (env : Env) (cfg : Config) (main baseline : Option (Repo × List Msg)) (delta : Val → Val → Val) (out : Output) : Ran :=
  match main, baseline with
  | none, _ => ([], .error [fatal "registry"])
  | some _, none => ([], .error [fatal "baseline"])
  | some (repo, _), some (old, _) =>
    match repo.loadAndResolve env (noPolicy cfg) [] with
    | (.error m, _) => ([], .error [m])
    | (.ok r, diag) =>
      match old.loadAndResolve env (noPolicy cfg) diag with
      | (.error m, _) => ([], .error [m])
      | (.ok b, diag) =>
        if r.isV2 = b.isV2 then
          if bad env.future diag then ([], .error diag) else printAll out (delta r.template b.template)
        else ([], .error [fatal "IncompatibleRegistries"])

/-- src/registry/emit.rs:50-108 `command`, with `combine_diag_msgs_with` (crates/weaver_common/src/diagnostic.rs:236-245). -/
def emit (env : Env) (cfg : Config) (main : Option (Repo × List Msg)) (run : Val → List String × Option String) : Ran :=
  match loadMain env cfg main with
  | .error m => ([], .error [m])
  | .ok (r, diag) =>
    match run r.template with
    | (acts, some e) => (acts, .error (fatal e :: diag))
    | (acts, none) => (acts, if bad env.future diag then .error diag else .ok ⟨0, diag⟩)

/-- src/registry/live_check.rs:232-496 `command`. `prepare` is the check of the options and the output processor (258-282);
`run` is the check of the samples and the report (302-474) with the exit code by `--fail-on`, which is modelled in
`Verif.LiveCheck`. -/
def live (env : Env) (cfg : Config) (main : Option (Repo × List Msg)) (prepare : Option String)
    (run : Val → List String × Except String Nat) : Ran :=
  match prepare with
  | some e => ([], .error [fatal e])
  | none =>
    match loadMain env cfg main with
    | .error m => ([], .error [m])
    | .ok (r, diag) =>
      let diag := diag ++ r.afterPolicy env
      match run r.template with
      | (acts, .error e) => (acts, .error [fatal e])
      | (acts, .ok code) => (acts, if bad env.future diag then .error diag else .ok ⟨code, diag⟩)

/-- src/registry/search.rs:376-432 `command`: `pattern` is whether there is a text to search for, `ui` the error of the user
interface. -/
def search (env : Env) (cfg : Config) (main : Option (Repo × List Msg)) (pattern terminal : Bool) (ui : Option String) : Ran :=
  match loadMain env (noPolicy cfg) main with
  | .error m => ([], .error [m])
  | .ok (r, diag) =>
    if r.isV2 then ([], .error [fatal "V2SchemaIncompatible"])
    else if pattern then (["results"], if diag ≠ [] then .error diag else .ok ⟨0, []⟩)
    else if terminal then
      match ui with
      | some e => ([], .error [fatal e])
      | none => ([], if diag ≠ [] then .error diag else .ok ⟨0, []⟩)
    else ([], .ok ⟨1, []⟩)

/-- mcp.rs:79-84 and serve/mod.rs:90-94: the registry in the form of version 2. `again` is the conversion of a registry of
version 1 (src/weaver.rs:460-488), `none` if it fails. -/
def asV2 (again : Val → Option Val) (r : Resolved) : Option Val := if r.isV2 then some r.template else again r.template

/-- src/registry/mcp.rs:60-106 `command`: the messages are dropped. -/
def mcp (env : Env) (cfg : Config) (main : Option (Repo × List Msg)) (again : Val → Option Val) (run : Val → Option String) : Ran :=
  match loadMain env (noPolicy cfg) main with
  | .error m => ([], .error [m])
  | .ok (r, _) =>
    match asV2 again r with
    | none => ([], .error [fatal "toV2"])
    | some t =>
      match run t with
      | some e => (["served"], .error [fatal e])
      | none => (["served"], .ok ⟨0, []⟩)

/-- src/serve/mod.rs:67-139 `run_serve`: the messages are only logged. -/
def serve (env : Env) (cfg : Config) (main : Option (Repo × List Msg)) (again : Val → Option Val) (run : Val → Option String) : Ran :=
  match loadMain env cfg main with
  | .error m => ([], .error [m])
  | .ok (r, _) =>
    match asV2 again r with
    | none => ([], .error [fatal "toV2"])
    | some t =>
      match run t with
      | some e => (["served"], .error [fatal e])
      | none => (["served"], .ok ⟨0, []⟩)

/-! ### Packages -/

/-- What can be in a file of the output directory. -/
inductive Content (S : Type) where
  | resolved (doc : Val)
  | manifest (m : Schema.Manifest S)
  | broken

abbrev Dir (S : Type) := String → Option (Content S)

/-- How writing a file ends: it works, the file cannot be created, or writing stops in the middle. -/
inductive Write where
  | ok | noCreate | cut

/-- src/registry/package.rs:55-65 `write_yaml`; `File::create` empties the file if it is there. -/
def writeYaml {S : Type} (w : Write) (path : String) (c : Content S) (d : Dir S) : Dir S × Bool :=
  match w with
  | .ok => (fun p => if p = path then some c else d p, true)
  | .noCreate => (d, false)
  | .cut => (fun p => if p = path then some .broken else d p, false)

/-- How the file system behaves: whether the directory can be created, and the two files. -/
structure Io where
  mkdir : Bool
  first : Write
  second : Write

/-- package.rs:146-147: both files. -/
def writePackage {S : Type} (io : Io) (doc : Val) (p : Schema.Manifest S) (d : Dir S) : Dir S × Bool :=
  match writeYaml io.first "resolved.yaml" (.resolved doc) d with
  | (d, false) => (d, false)
  | (d, true) => writeYaml io.second "manifest.yaml" (.manifest p) d

/-- src/registry/package.rs:68-158 `command`. `main` is the registry with its manifest and the messages of fetching it, `doc`
the resolved schema. The branch for registries of version 1 (package.rs:127-130) is left out: with `--v2` the registry is of
version 2 (`loaded_v2`). -/
def package {S : Type} (env : Env) (cfg : Config) (uri : Option Chars) (main : Option (Repo × Option (Schema.Manifest S) × List Msg))
    (doc : Val) (io : Io) (dir : Dir S) : Dir S × Except (List Msg) Exit :=
  match uri with
  | none => (dir, .error [fatal "Config"])
  | some uri =>
    if cfg.v2 = false then (dir, .error [fatal "PackagingRequiresV2"])
    else match main with
      | none => (dir, .error [fatal "registry"])
      | some (_, none, _) => (dir, .error [fatal "PackagingRequiresManifest"])
      | some (repo, some m, fetched) =>
        if m.resolved.isSome then (dir, .error [fatal "UnexpectedPublicationManifest"])
        else match repo.loadAndResolve env cfg fetched with
          | (.error e, _) => (dir, .error [e])
          | (.ok r, diag) =>
            let diag := diag ++ r.afterPolicy env
            if bad env.future diag then (dir, .error diag)
            else if io.mkdir = false then (dir, .error [fatal "OutputWrite"])
            else match Schema.publish m uri with
              | none => (dir, .error [fatal "UnversionedDependencyInPublication"])
              | some p =>
                match writePackage io doc p dir with
                | (dir, false) => (dir, .error [fatal "OutputWrite"])
                | (dir, true) => (dir, .ok ⟨0, diag⟩)

end Verif.Commands
