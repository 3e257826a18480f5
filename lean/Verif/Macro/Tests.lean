import Verif.Macro.Names
import Verif.Cli.Config
/-
Tests of weaver_command.rs, and the fields of `live-check` (src/registry/live_check.rs:80-196) and `infer`
(src/registry/infer.rs:32-64).
-/
namespace Verif.Macro
open Verif.Util

example : configIdent "emit".toList = "EmitConfig".toList := by decide +kernel
example : configIdent "update-markdown".toList = "UpdateMarkdownConfig".toList := by decide +kernel
example : configIdent "update_markdown".toList = "UpdateMarkdownConfig".toList := by decide +kernel
example : configIdent "a".toList = "AConfig".toList := by decide +kernel
example : defaultExpr (fun _ => true) (.named "bool" []) (some "true".toList) = .bool true := by decide +kernel
example : defaultExpr (fun _ => true) (.named "bool" []) none = .none := by decide +kernel
example : extraNames id "finding_filters,finding_level_overrides".toList =
    ["finding_filters".toList, "finding_level_overrides".toList] := by decide +kernel

/-- A field `name: Option<ty>` with the items of its `#[config]`. -/
def setting (name ty : String) (dflt path : Option String) : Field where
  name := name.toList
  ty := .named "Option" [.named ty []]
  attrs := [.other, .config (some ((dflt.map fun s => Item.default (some s.toList)).toList ++
    (path.map fun s => Item.path (some s.toList)).toList))]

def shared (name : String) (k : Kind) : Field := ⟨name.toList, .other, [.shared [some k]]⟩

def liveCheckFields : List Field := [
  shared "registry" .registry, shared "policy" .policy, shared "diagnostic" .diagnostic,
  setting "input_source" "String" (some "otlp") none,
  setting "input_format" "String" (some "json") none,
  setting "format" "String" (some "ansi") none,
  setting "templates" "PathBuf" (some "live_check_templates") none,
  setting "no_stream" "bool" (some "false") none,
  setting "no_stats" "bool" (some "false") none,
  setting "fail_on" "FailOnLevel" (some "violation") none,
  setting "output" "PathBuf" none none,
  setting "otlp_grpc_address" "String" none (some "otlp.grpc_address"),
  setting "otlp_grpc_port" "u16" none (some "otlp.grpc_port"),
  setting "emit_otlp_logs" "bool" none (some "emit.otlp_logs"),
  setting "otlp_logs_endpoint" "String" none (some "emit.otlp_logs_endpoint"),
  setting "otlp_logs_stdout" "bool" none (some "emit.otlp_logs_stdout"),
  setting "admin_port" "u16" none (some "otlp.admin_port"),
  setting "inactivity_timeout" "u64" none (some "otlp.inactivity_timeout"),
  setting "advice_policies" "PathBuf" none none,
  setting "advice_data" "String" none none,
  setting "advice_preprocessor" "PathBuf" none none]

def inferFields : List Field := [
  shared "diagnostic" .diagnostic,
  setting "output" "PathBuf" (some "./inferred-registry/") none,
  setting "grpc_address" "String" (some "0.0.0.0") none,
  setting "grpc_port" "u16" (some "4317") none,
  setting "admin_port" "u16" (some "8080") none,
  setting "inactivity_timeout" "u64" (some "60") none]

/-- src/registry/mod.rs:217, 267, src/main.rs:52. -/
def group : Kind → List Chars
  | .registry => ["registry".toList, "follow_symlinks".toList, "include_unreferenced".toList, "v2".toList]
  | .policy => ["policy".toList, "skip_policies".toList, "display_policy_coverage".toList]
  | .diagnostic => ["diagnostic_format".toList, "diagnostic_template".toList, "diagnostic_stdout".toList]

def liveCheckCommand : Command where
  section_ := "live-check".toList
  extraConfigOnly := ["finding_filters".toList, "finding_level_overrides".toList]
  fields := (parseFields liveCheckFields).getD []

/-- The text of a value of the configuration. -/
def showVal : Cli.TVal → Option Chars
  | .str s => some s.toList
  | .bool b => some (if b then "true".toList else "false".toList)
  | .int i => some (decimal i)
  | _ => none

/-- The defaults that the help of `live-check` shows are those of its own struct, to which the annotations say nothing. -/
theorem liveCheck_defaults_shown : ∀ f ∈ liveCheckFields, ∀ s, shownDefault f.attrs = some s →
    ∃ g ∈ Cli.liveCheck.fields, g.name.toList = f.name ∧ g.dflt.bind showVal = some s := by
  have h : liveCheckFields.all (fun f => match shownDefault f.attrs with
      | none => true
      | some s => Cli.liveCheck.fields.any fun g => decide (g.name.toList = f.name) && decide (g.dflt.bind showVal = some s))
      = true := by decide +kernel
  intro f hf s hs
  have h1 := List.all_eq_true.1 h f hf
  rw [hs] at h1
  obtain ⟨g, hg, h2⟩ := List.any_eq_true.1 h1
  simp only [Bool.and_eq_true, decide_eq_true_eq] at h2
  exact ⟨g, hg, h2.1, h2.2⟩

/-- The settings of `live-check` and their places. -/
theorem liveCheck_dests : (liveCheckCommand.fields.filterMap fun fk => match fk.2 with
      | .config a => some (fk.1.name, dest fk.1.name a)
      | _ => none) = Cli.liveCheck.fields.map fun g => (g.name.toList, g.path.map String.toList) := by decide +kernel

/-- The test of the names passes for `live-check`, and fails without the setting or without the flag for the port. -/
example : consistent group liveCheckCommand
    (["finding_filters".toList] :: ["finding_level_overrides".toList] ::
      Cli.liveCheck.fields.map fun g => g.path.map String.toList)
    ("registry".toList :: "v2".toList :: "policy".toList :: Cli.liveCheck.fields.map fun g => g.name.toList) = true := by
  decide +kernel
example : consistent group liveCheckCommand
    (Cli.liveCheck.fields.map fun g => g.path.map String.toList)
    ((Cli.liveCheck.fields.map fun g => g.name.toList).filter fun n => decide (n ≠ "admin_port".toList)) = false := by
  decide +kernel

/-- The generated defaults of `infer`. -/
example : defaultImpl (fun _ => true) ((parseFields inferFields).getD []) =
    [("output".toList, .path "./inferred-registry/".toList), ("grpc_address".toList, .text "0.0.0.0".toList),
     ("grpc_port".toList, .int "u16" 4317), ("admin_port".toList, .int "u16" 8080),
     ("inactivity_timeout".toList, .int "u64" 60)] := by decide +kernel

end Verif.Macro
