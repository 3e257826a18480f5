import Verif.Policy.Engine
import Verif.Common.Model

/-!
# The command `registry check`

Models `src/weaver.rs` (`WeaverEngine`, `Resolved`), `src/registry/check.rs` and the exit code in `src/main.rs`.

Parameters of the model (`Repo`): what loading, resolving and preparing a registry for templates gives. These are modelled
elsewhere; here only their order and what is done with their results matters.
-/

namespace Verif.Policy
open Verif.Util

/-- A diagnostic message: of a policy, or another one with the severity it declares. -/
inductive Msg where
  | policy (d : Diag)
  | other (text : String) (severity : Option Common.Severity)

/-- crates/weaver_common/src/diagnostic.rs:87-125 `DiagnosticMessage::new`; errors of policies declare no severity
(crates/weaver_checker/src/lib.rs:32-119). -/
def Msg.severity (future : Bool) (m : Msg) : Option Common.Severity :=
  if future then some .error else match m with
    | .policy _ => none
    | .other _ s => s

/-- A fatal error, src/weaver.rs:548-575: one message that declares no severity. -/
def fatal (text : String) : Msg := .other text none

/-- crates/weaver_resolver/src/loader.rs `LoadedSemconvRegistry`: definition files, each with where it is from and its content
for policies, or a registry that is already resolved. -/
inductive Loaded where
  | unresolved (files : List (String × Option Val))
  | resolved

/-- crates/weaver_resolver/src/lib.rs `WeaverResolvedSchema`. -/
inductive Bundle where
  | v1 | v2

/-- What a registry gives, step by step. `none` is a fatal error. `toV2` is the conversion to version 2 and the preparation
for templates, `template1` and `template2` only the preparation. -/
structure Repo where
  path : String
  engine : Option Engine
  load : Option (Loaded × List Msg)
  resolve : Option (Bundle × List Msg)
  template1 : Option Val
  toV2 : Option (Val × List Msg)
  template2 : Option (Val × List Msg)

/-- The options `--v2` and `--skip-policies`. -/
structure Config where
  v2 : Bool
  skip : Bool

/-- src/weaver.rs:217-223 `Resolved`. -/
structure Resolved where
  isV2 : Bool
  template : Val
  path : String
  engine : Option Engine

/-- What does not change during a run: the policy library, its way of merging, the schedule for the number of files, and the
future mode. -/
structure Env where
  rego : Rego
  deep : Bool
  sched : Nat → List Nat
  future : Bool

/-- src/weaver.rs:578-605 `prepare_policy_engine`. -/
def Repo.policyEngine (cfg : Config) (repo : Repo) : Except Msg (Option Engine) :=
  if cfg.skip then .ok none
  else match repo.engine with
    | none => .error (fatal "policies")
    | some e => .ok (some e)

/-- src/weaver.rs:34-47, `PolicyVisitor`. -/
def visit (env : Env) (e : Engine) : Loaded → List Msg
  | .unresolved files => (checkPolicy env.rego env.deep e files (env.sched files.length)).map .policy
  | .resolved => []

/-- src/weaver.rs:107-149 with crates/weaver_resolver/src/lib.rs:571-601: loading and resolving, with the policies before
resolution in between. -/
def Repo.bundle (env : Env) (cfg : Config) (repo : Repo) (engine : Option Engine) (diag : List Msg) : Except Msg Bundle × List Msg :=
  let visitor : Loaded → List Msg := match cfg.v2, engine with
    | false, some e => visit env e
    | _, _ => fun _ => []
  let diag := match cfg.v2, engine with
    | true, some e => if e.hasStage .before then diag ++ [.other "BeforeResolutionUnsupported" (some .warning)] else diag
    | _, _ => diag
  match repo.load with
  | none => (.error (fatal "load"), diag)
  | some (l, nfes) =>
    let diag := diag ++ visitor l
    match repo.resolve with
    | none => (.error (fatal "resolve"), diag)
    | some (b, more) => (.ok b, diag ++ (nfes ++ more))

/-- src/weaver.rs:151-213: the schema and the form for templates. -/
def Repo.finish (cfg : Config) (repo : Repo) (engine : Option Engine) (diag : List Msg) : Bundle → Except Msg Resolved × List Msg
  | .v1 =>
    if cfg.v2 then
      match repo.toV2 with
      | none => (.error (fatal "toV2"), diag)
      | some (t, nfes) => (.ok ⟨true, t, repo.path, engine⟩, diag ++ nfes)
    else
      match repo.template1 with
      | none => (.error (fatal "template"), diag)
      | some t => (.ok ⟨false, t, repo.path, engine⟩, diag)
  | .v2 =>
    let diag := if cfg.v2 then diag else diag ++ [.other "V2FlagMissingWarning" (some .warning)]
    match repo.template2 with
    | none => (.error (fatal "template"), diag)
    | some (t, nfes) => (.ok ⟨true, t, repo.path, engine⟩, diag ++ nfes)

/-- src/weaver.rs:89-214 `load_and_resolve_repo`. -/
def Repo.loadAndResolve (env : Env) (cfg : Config) (repo : Repo) (diag : List Msg) : Except Msg Resolved × List Msg :=
  match repo.policyEngine cfg with
  | .error m => (.error m, diag)
  | .ok engine =>
    match repo.bundle env cfg engine diag with
    | (.error m, diag) => (.error m, diag)
    | (.ok b, diag) => repo.finish cfg engine diag b

/-- src/weaver.rs:297-323, 391-417 `check_after_resolution_policy`: the messages. -/
def Resolved.afterPolicy (env : Env) (r : Resolved) : List Msg :=
  match r.engine with
  | none => []
  | some e => (checkStage env.rego env.deep e .after r.path (some r.template) []).map .policy

/-- src/weaver.rs:244-254, 326-353, 420-447 `check_comparison_after_resolution`: an error if one registry is of version 1 and
the other of version 2, otherwise the messages. -/
def Resolved.comparison (env : Env) (r baseline : Resolved) : Except Msg (List Msg) :=
  if r.isV2 = baseline.isV2 then
    match r.engine with
    | none => .ok []
    | some e => .ok ((checkStage env.rego env.deep e .comparison r.path (some r.template) [baseline.template]).map .policy)
  else .error (fatal "IncompatibleRegistries")

/-- src/registry/check.rs:60-69: the baseline; its messages are dropped. The outer `none` is a registry that cannot be
fetched. -/
def loadBaseline (env : Env) (cfg : Config) : Option (Option Repo) → Except Msg (Option Resolved)
  | none => .ok none
  | some none => .error (fatal "baseline")
  | some (some repo) =>
    match (repo.loadAndResolve env cfg []).1 with
    | .error m => .error m
    | .ok r => .ok (some r)

/-- src/registry/check.rs:71-75: the policies after resolution. -/
def afterResolution (env : Env) (r : Resolved) (baseline : Option Resolved) (diag : List Msg) : Except Msg (List Msg) :=
  let diag := diag ++ r.afterPolicy env
  match baseline with
  | none => .ok diag
  | some b =>
    match r.comparison env b with
    | .error m => .error m
    | .ok ms => .ok (diag ++ ms)

/-- src/registry/check.rs:42-84 `command`: the main registry (`none` if it cannot be fetched) with the messages of fetching it,
and the baseline if there is one. The result is the messages, none if all is well. -/
def checkCommand (env : Env) (cfg : Config) (main : Option (Repo × List Msg)) (baseline : Option (Option Repo)) : List Msg :=
  match main with
  | none => [fatal "registry"]
  | some (repo, fetched) =>
    match repo.loadAndResolve env cfg fetched with
    | (.error m, _) => [m]
    | (.ok r, diag) =>
      match loadBaseline env cfg baseline with
      | .error m => [m]
      | .ok b =>
        match afterResolution env r b diag with
        | .error m => [m]
        | .ok diag => diag

/-- src/main.rs:235-274 `process_diagnostics`: the exit code. `rendered` says whether printing the messages works. -/
def exitCode (future rendered : Bool) (ms : List Msg) : Nat :=
  if ms = [] then 0
  else if rendered = false then 1
  else if Common.hasError (ms.map fun m => ⟨.single 0 none, m.severity future⟩) then 1 else 0

end Verif.Policy
