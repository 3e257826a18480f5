import Verif.Util.Map
import Verif.Common.VDir

/-!
# The configuration of a command

Models `crates/weaver_config` (the file `.weaver.toml`) and its use in `src/registry/mod.rs` and `src/main.rs`: finding the
file, and layering built-in values, the file and the command line.
-/

namespace Verif.Cli
open Verif.Util Verif.Common

/-! ### Finding the file -/

/-- lib.rs:42 `CONFIG_FILENAME`. -/
def configFile : String := ".weaver.toml"

/-- lib.rs:86-97 `discover`. A directory is the list of its components below the root, the innermost first (simplified: the
working directory is absolute, as `std::env::current_dir` gives it). `isFile d` is whether `d` has a file `.weaver.toml`. -/
def discover (isFile : List String → Bool) : List String → Option (List String)
  | [] => if isFile [] then some [configFile] else none
  | d :: up => if isFile (d :: up) then some (configFile :: d :: up) else discover isFile up

/-- src/registry/mod.rs:299-327 `resolve_weaver_config`, with `discover_and_load` (lib.rs:123-131). `load` reads and parses a
file (lib.rs:104-113); an error of either is an error of the command. -/
def resolveConfig {ε C : Type} (isFile : List String → Bool) (load : List String → Except ε C) (explicit : Option (List String))
    (cwd : List String) : Except ε (Option C) :=
  match explicit with
  | some p => (load p).map some
  | none =>
    match discover isFile cwd with
    | some p => (load p).map some
    | none => .ok none

/-! ### Registry, policy, diagnostics and resolution settings -/

/-- registry.rs:16-27 `RegistryConfig`. -/
structure RegistryFile where
  path : Option Chars := none
  followSymlinks : Option Bool := none
  includeUnreferenced : Option Bool := none
  v2 : Option Bool := none

/-- effective.rs:30-39 `EffectiveRegistryConfig`. -/
structure EffRegistry where
  registry : VPath
  followSymlinks : Bool
  includeUnreferenced : Bool
  v2 : Bool
  deriving DecidableEq

/-- effective.rs:17-18 `DEFAULT_REGISTRY`. -/
def defaultRegistry : Chars := "https://github.com/open-telemetry/semantic-conventions.git[model]".toList

/-- effective.rs:41-52. That the default can be parsed is `default_registry` below; the value for the other case is not used. -/
def EffRegistry.default : EffRegistry where
  registry := (VPath.parse defaultRegistry).getD (.localFolder [])
  followSymlinks := false
  includeUnreferenced := false
  v2 := false

/-- effective.rs:56-71 `layer_config`. -/
def EffRegistry.layer (e : EffRegistry) (c : RegistryFile) : EffRegistry :=
  let e1 := match c.path with
    | some p =>
      match VPath.parse p with
      | some v => { e with registry := v }
      | none => e
    | none => e
  let e2 := match c.followSymlinks with
    | some v => { e1 with followSymlinks := v }
    | none => e1
  let e3 := match c.includeUnreferenced with
    | some v => { e2 with includeUnreferenced := v }
    | none => e2
  match c.v2 with
    | some v => { e3 with v2 := v }
    | none => e3

/-- src/registry/mod.rs:180-212 `RegistryArgs`. The path was parsed by the argument parser, which fails if it cannot be. -/
structure RegistryArgs where
  registry : Option VPath := none
  followSymlinks : Option Bool := none
  includeUnreferenced : Option Bool := none
  v2 : Option Bool := none

/-- src/registry/mod.rs:221-234. -/
def RegistryArgs.applyTo (a : RegistryArgs) (e : EffRegistry) : EffRegistry :=
  let e1 := match a.registry with
    | some v => { e with registry := v }
    | none => e
  let e2 := match a.followSymlinks with
    | some v => { e1 with followSymlinks := v }
    | none => e1
  let e3 := match a.includeUnreferenced with
    | some v => { e2 with includeUnreferenced := v }
    | none => e2
  match a.v2 with
    | some v => { e3 with v2 := v }
    | none => e3

/-- registry.rs:30-41 `PolicyConfig`. -/
structure PolicyFile where
  paths : Option (List Chars) := none
  skip : Option Bool := none
  coverage : Option Bool := none

/-- effective.rs:77-85 `EffectivePolicyConfig`. -/
structure EffPolicy where
  policies : List VPath := []
  skip : Bool := false
  coverage : Bool := false
  deriving DecidableEq

/-- effective.rs:90-95 `skip_all`. -/
def EffPolicy.skipAll : EffPolicy := { skip := true }

/-- effective.rs:98-108 `layer_config`. -/
def EffPolicy.layer (e : EffPolicy) (c : PolicyFile) : EffPolicy :=
  let e1 := match c.paths with
    | some ps => { e with policies := ps.filterMap VPath.parse }
    | none => e
  let e2 := match c.skip with
    | some v => { e1 with skip := v }
    | none => e1
  match c.coverage with
    | some v => { e2 with coverage := v }
    | none => e2

/-- src/registry/mod.rs:241-262 `PolicyArgs`. -/
structure PolicyArgs where
  policies : Option (List VPath) := none
  skip : Option Bool := none
  coverage : Option Bool := none

/-- src/registry/mod.rs:270-280. -/
def PolicyArgs.applyTo (a : PolicyArgs) (e : EffPolicy) : EffPolicy :=
  let e1 := match a.policies with
    | some ps => { e with policies := ps }
    | none => e
  let e2 := match a.skip with
    | some v => { e1 with skip := v }
    | none => e1
  match a.coverage with
    | some v => { e2 with coverage := v }
    | none => e2

/-- registry.rs:43-55 `DiagnosticsConfig`, and src/main.rs:33-47 `DiagnosticArgs`, which have the same settings. -/
structure Diag where
  format : Option String := none
  template : Option String := none
  stdout : Option Bool := none

/-- effective.rs:114-122 `EffectiveDiagnosticConfig`. The default is effective.rs:124-132. -/
structure EffDiag where
  format : String := "ansi"
  template : String := "diagnostic_templates"
  stdout : Bool := false
  deriving DecidableEq

/-- effective.rs:136-146 `layer_config` and src/main.rs:59-69 `apply_to`: both replace the given settings. -/
def EffDiag.layer (e : EffDiag) (c : Diag) : EffDiag :=
  let e1 := match c.format with
    | some v => { e with format := v }
    | none => e
  let e2 := match c.template with
    | some v => { e1 with template := v }
    | none => e1
  match c.stdout with
    | some v => { e2 with stdout := v }
    | none => e2

/-- src/main.rs:72-82 `to_effective`. -/
def toEffective (args : Diag) (file : Option Diag) : EffDiag :=
  let e : EffDiag := {}
  let e1 := match file with
    | some c => e.layer c
    | none => e
  e1.layer args

/-- effective.rs:160-180 `EffectiveResolveConfig::layer_config`: `entries` is the map in key order, `url` is the parser of
schema URLs (the text of the URL with the slashes at its end removed, see `Verif.Schema`). Entries that cannot be parsed are
skipped with a warning. -/
def layerOverrides (url : String → Option String) : List (String × Chars) → List (String × VPath) → List (String × VPath)
  | [], m => m
  | (u, p) :: r, m =>
    match url u with
    | none => layerOverrides url r m
    | some su =>
      match VPath.parse p with
      | none => layerOverrides url r m
      | some v => layerOverrides url r (bins su v m)

/-! ### The section of a command -/

/-- A TOML value. Dates and floating point numbers are left out: no setting of a command has them. -/
inductive TVal where
  | str (s : String)
  | int (i : Int)
  | bool (b : Bool)
  | list (l : List TVal)
  | table (m : List (String × TVal))

/-- The types of settings: texts and paths, flags, numbers up to a maximum, the names of an enumeration. -/
inductive Ty where
  | str
  | bool
  | uint (max : Nat)
  | enum (names : List String)

/-- What serde accepts for a type. -/
def Ty.accepts : Ty → TVal → Bool
  | .str, .str _ => true
  | .bool, .bool _ => true
  | .uint max, .int i => decide (0 ≤ i ∧ i ≤ max)
  | .enum names, .str s => names.contains s
  | _, _ => false

/-- A setting of a command: its name on the command line, where it is in the section of the file, its type, and its default.
crates/weaver_macros/src/weaver_command.rs:90-97 `ConfigAnnotation`; without a default the setting is an `Option`. `cli` is
false for the `config_only` ones. -/
structure Field where
  name : String
  path : List String
  ty : Ty
  dflt : Option TVal
  cli : Bool := true

/-- The value at a path of a table. `none` if it is not there; an error if something on the way is not a table. -/
def look : List String → TVal → Except Unit (Option TVal)
  | [], v => .ok (some v)
  | k :: ks, .table m =>
    match aget k m with
    | none => .ok none
    | some v => look ks v
  | _ :: _, _ => .error ()

/-- Reading one setting: `#[serde(default)]` gives the default if it is not there. -/
def readField (section_ : TVal) (f : Field) : Except Unit (String × Option TVal) :=
  match look f.path section_ with
  | .error e => .error e
  | .ok none => .ok (f.name, f.dflt)
  | .ok (some v) => if f.ty.accepts v then .ok (f.name, some v) else .error ()

/-- The configuration of a command: the value of each setting by its name. -/
abbrev Conf := List (String × Option TVal)

/-- weaver_command.rs:368-395 `gen_default_impl`; live_check.rs:140-160, 176-207. -/
def defaults (fields : List Field) : Conf := fields.map fun f => (f.name, f.dflt)

/-- The derived `Deserialize`: all settings or an error. -/
def readSection (fields : List Field) (s : TVal) : Except Unit Conf :=
  match s with
  | .table m => fields.mapM (readField (.table m))
  | _ => .error ()

/-- lib.rs:74-79 `command_config`. -/
def commandConfig (fields : List Field) (commands : List (String × TVal)) (name : String) : Conf :=
  match aget name commands with
  | none => defaults fields
  | some v =>
    match readSection fields v with
    | .ok c => c
    | .error _ => defaults fields

/-- overrides.rs:165-176 `override_if_set!` and weaver_command.rs:561-598: for each setting that is on the command line its
value replaces what is there. -/
def applyOverrides (fields : List Field) (args : List (String × TVal)) (c : Conf) : Conf :=
  fields.foldl (fun c f =>
    match (if f.cli then aget f.name args else none) with
    | some v => aset f.name (some v) c
    | none => c) c

/-! ### All of it -/

/-- lib.rs:47-67 `WeaverConfig`, without templates and authentication. -/
structure File where
  registry : RegistryFile := {}
  policy : PolicyFile := {}
  diagnostics : Diag := {}
  overrides : List (String × Chars) := []
  commands : List (String × TVal) := []

/-- A command: its section, its settings, and which of the shared arguments it has (overrides.rs:51-104 `CliOverrides`). -/
structure Command where
  name : String
  fields : List Field
  usesRegistry : Bool := true
  hasPolicyArgs : Bool := true
  usesPolicy : Bool := true

/-- The command line. -/
structure Args where
  registry : RegistryArgs := {}
  policy : PolicyArgs := {}
  settings : List (String × TVal) := []

/-- overrides.rs:20-29 `CommandConfig`. -/
structure CommandConfig where
  config : Conf
  registry : EffRegistry
  policy : EffPolicy
  resolve : List (String × VPath)

/-- src/registry/mod.rs:334-376 `load_config`. -/
def loadConfig (url : String → Option String) (cmd : Command) (args : Args) (file : Option File) : CommandConfig :=
  let config := match file with
    | some wc => commandConfig cmd.fields wc.commands cmd.name
    | none => defaults cmd.fields
  let config := applyOverrides cmd.fields args.settings config
  let registry := match file with
    | some wc => EffRegistry.default.layer wc.registry
    | none => EffRegistry.default
  let registry := if cmd.usesRegistry then args.registry.applyTo registry else registry
  let policy := if cmd.usesPolicy then
      let p := match file with
        | some wc => ({} : EffPolicy).layer wc.policy
        | none => {}
      if cmd.hasPolicyArgs then args.policy.applyTo p else p
    else EffPolicy.skipAll
  let resolve := match file with
    | some wc => layerOverrides url wc.overrides []
    | none => []
  { config, registry, policy, resolve }

/-- src/registry/live_check.rs:80-196 with crates/weaver_config/src/live_check.rs:79-207 (`finding_filters` and
`finding_level_overrides`, which have no flag, are left out). -/
def liveCheck : Command where
  name := "live-check"
  fields := [
    ⟨"input_source", ["input_source"], .str, some (.str "otlp"), true⟩,
    ⟨"input_format", ["input_format"], .str, some (.str "json"), true⟩,
    ⟨"format", ["format"], .str, some (.str "ansi"), true⟩,
    ⟨"templates", ["templates"], .str, some (.str "live_check_templates"), true⟩,
    ⟨"no_stream", ["no_stream"], .bool, some (.bool false), true⟩,
    ⟨"no_stats", ["no_stats"], .bool, some (.bool false), true⟩,
    ⟨"fail_on", ["fail_on"], .enum ["violation", "improvement", "information", "none"], some (.str "violation"), true⟩,
    ⟨"output", ["output"], .str, none, true⟩,
    ⟨"otlp_grpc_address", ["otlp", "grpc_address"], .str, some (.str "0.0.0.0"), true⟩,
    ⟨"otlp_grpc_port", ["otlp", "grpc_port"], .uint 65535, some (.int 4317), true⟩,
    ⟨"emit_otlp_logs", ["emit", "otlp_logs"], .bool, some (.bool false), true⟩,
    ⟨"otlp_logs_endpoint", ["emit", "otlp_logs_endpoint"], .str, some (.str "http://localhost:4317"), true⟩,
    ⟨"otlp_logs_stdout", ["emit", "otlp_logs_stdout"], .bool, some (.bool false), true⟩,
    ⟨"admin_port", ["otlp", "admin_port"], .uint 65535, some (.int 4320), true⟩,
    ⟨"inactivity_timeout", ["otlp", "inactivity_timeout"], .uint 18446744073709551615, some (.int 10), true⟩,
    ⟨"advice_policies", ["advice_policies"], .str, none, true⟩,
    ⟨"advice_data", ["advice_data"], .str, none, true⟩,
    ⟨"advice_preprocessor", ["advice_preprocessor"], .str, none, true⟩]

/-- src/registry/infer.rs:32-64. -/
def infer : Command where
  name := "infer"
  usesRegistry := false
  hasPolicyArgs := false
  usesPolicy := false
  fields := [
    ⟨"output", ["output"], .str, some (.str "./inferred-registry/"), true⟩,
    ⟨"grpc_address", ["grpc_address"], .str, some (.str "0.0.0.0"), true⟩,
    ⟨"grpc_port", ["grpc_port"], .uint 65535, some (.int 4317), true⟩,
    ⟨"admin_port", ["admin_port"], .uint 65535, some (.int 8080), true⟩,
    ⟨"inactivity_timeout", ["inactivity_timeout"], .uint 18446744073709551615, some (.int 60), true⟩]

end Verif.Cli
