import Verif.Commands.Props
/-
The dispatch of the commands: src/main.rs:122-212 `main` and `run_command`, src/registry/mod.rs:299-327 `resolve_weaver_config`.
The commands themselves are in `Verif.Commands.Model` and elsewhere: here they are what they give for the configuration.
-/
namespace Verif.Commands
open Verif.Util Verif.Policy

/-- The command line after clap: which command, and what it gives for a configuration (`registry`, `diagnostic`, `serve`), or
the error of writing the completions. -/
inductive Command (C : Type) where
  | registry (run : Option C → Except (List Msg) Exit)
  | diagnostic (result : Except (List Msg) Exit)
  | serve (run : Option C → Except (List Msg) Exit)
  | completion (error : Option String)
  | markdownHelp
  | none

/-- src/registry/mod.rs:299-327 `resolve_weaver_config`: the file of `--config`, or the one that is discovered from the
current directory. The inner results are of `weaver_config::load` and `discover_and_load`; `cwd` says that there is a current
directory. -/
def resolveConfig {C : Type} (load : String → Except String C) (discover : Except String (Option C)) (cwd : Bool) :
    Option String → Except (List Msg) (Option C)
  | some path => match load path with
    | .ok c => .ok (some c)
    | .error e => .error [fatal e]
  | none =>
    if cwd = false then .error [fatal "Failed to get current directory"]
    else match discover with
      | .ok c => .ok c
      | .error e => .error [fatal e]

/-- src/main.rs:158-212 `run_command`: the exit code and the messages that are shown. -/
def runCommand {C : Type} (future rendered : Bool) (config : Except (List Msg) (Option C)) (cmd : Command C) : Nat × List Msg :=
  match config with
  | .error ms => process future rendered (.error ms)
  | .ok cfg =>
    match cmd with
    | .registry run => process future rendered (run cfg)
    | .diagnostic result => process future rendered result
    | .serve run => process future rendered (run cfg)
    | .completion (some _) => (1, [])
    | .completion .none => (0, [])
    | .markdownHelp => (0, [])
    | .none => (0, [])

/-- src/main.rs:127-141: the level of the log; `none` is no log. -/
def logLevel (quiet : Bool) (debug : Nat) : Option String :=
  if quiet then .none
  else some (if debug = 1 then "debug" else if debug ≥ 2 then "trace" else "info")

/-! ## Specification -/

/-- What the command gives, if it is one that can fail with messages. -/
inductive Outcome {C : Type} (cfg : Option C) : Command C → Except (List Msg) Exit → Prop
  | registry (run) : Outcome cfg (.registry run) (run cfg)
  | diagnostic (r) : Outcome cfg (.diagnostic r) r
  | serve (run) : Outcome cfg (.serve run) (run cfg)

/-! ## Properties -/

/-- **A configuration that cannot be loaded ends every command with 1**, also those that do not use it. -/
theorem bad_config {C : Type} (future rendered : Bool) (load : String → Except String C) (discover : Except String (Option C))
    (cwd : Bool) (path : Option String) (ms : List Msg) (h : resolveConfig load discover cwd path = .error ms) (cmd : Command C) :
    (runCommand future rendered (.error ms) cmd).1 = 1 := by
  have : ∃ x, ms = [fatal x] := by
    unfold resolveConfig at h
    split at h
    · split at h
      · cases h
      · cases h; exact ⟨_, rfl⟩
    · split at h
      · cases h; exact ⟨_, rfl⟩
      · split at h
        · cases h
        · cases h; exact ⟨_, rfl⟩
  obtain ⟨x, rfl⟩ := this
  exact process_fatal future rendered x []

/-- The configuration of `--config` is used, and no other is looked for. -/
theorem resolveConfig_explicit {C : Type} (load : String → Except String C) (discover discover' : Except String (Option C))
    (cwd cwd' : Bool) (path : String) : resolveConfig load discover cwd (some path) = resolveConfig load discover' cwd' (some path) ∧
    ∀ c, resolveConfig load discover cwd (some path) = .ok c ↔ ∃ x, load path = .ok x ∧ c = some x := by
  refine ⟨rfl, fun c => ?_⟩
  simp only [resolveConfig]
  cases load path with
  | ok x => simp [eq_comm]
  | error e => simp

/-- Without `--config`, a configuration is optional: none is found, or the one that is found can be read. -/
theorem resolveConfig_discover {C : Type} (load : String → Except String C) (discover : Except String (Option C)) (cwd : Bool)
    (c : Option C) : resolveConfig load discover cwd .none = .ok c ↔ cwd = true ∧ discover = .ok c := by
  simp only [resolveConfig]
  cases cwd <;> simp
  cases discover <;> simp

/-- **When weaver exits with 0**: the configuration could be read, and the command is one without messages that did not fail,
or it ended with the code 0, or with messages that could be shown and none of which is an error. -/
theorem runCommand_zero {C : Type} (future rendered : Bool) (cfg : Option C) (cmd : Command C) :
    (runCommand future rendered (.ok cfg) cmd).1 = 0 ↔
      cmd = .completion .none ∨ cmd = .markdownHelp ∨ cmd = .none ∨
      ∃ r, Outcome cfg cmd r ∧ ((∃ e, r = .ok e ∧ e.code = 0) ∨
        ∃ ms, r = .error ms ∧ rendered = true ∧ ∀ m ∈ ms, ¬ IsError future m) := by
  have key : ∀ r, (process future rendered r).1 = 0 ↔ (∃ e, r = .ok e ∧ e.code = 0) ∨
      ∃ ms, r = .error ms ∧ rendered = true ∧ ∀ m ∈ ms, ¬ IsError future m := by
    intro r
    cases r with
    | ok e => simp [process]
    | error ms =>
      have hb := bad_iff future ms
      cases rendered with
      | false => simp [process]
      | true =>
        cases hbad : bad future ms with
        | true =>
          obtain ⟨m, hm, he⟩ := hb.mp hbad
          simp only [process, hbad]
          simp
          exact ⟨m, hm, he⟩
        | false =>
          simp only [process, hbad]
          simp
          exact fun m hm => not_bad hbad hm
  have hout : ∀ r, Outcome cfg cmd r → ((process future rendered r).1 = 0 ↔ ∃ r, Outcome cfg cmd r ∧ ((∃ e, r = .ok e ∧ e.code = 0) ∨
        ∃ ms, r = .error ms ∧ rendered = true ∧ ∀ m ∈ ms, ¬ IsError future m)) := by
    intro r hr
    rw [key]
    constructor
    · exact fun h => ⟨r, hr, h⟩
    · rintro ⟨r', hr', h⟩
      cases hr <;> cases hr' <;> exact h
  cases cmd with
  | registry run => simpa [runCommand] using hout _ (.registry run)
  | diagnostic r => simpa [runCommand] using hout _ (.diagnostic r)
  | serve run => simpa [runCommand] using hout _ (.serve run)
  | completion e =>
    cases e with
    | none => simp [runCommand]
    | some e =>
      simp only [runCommand]
      constructor
      · intro h; cases h
      · rintro (h | h | h | ⟨r, h, _⟩) <;> cases h
  | markdownHelp => simp [runCommand]
  | none => simp [runCommand]

/-- The log: nothing with `--quiet`, else more with each `--debug`. -/
theorem logLevel_iff (quiet : Bool) (debug : Nat) :
    (logLevel quiet debug = .none ↔ quiet = true) ∧
    (logLevel quiet debug = some "info" ↔ quiet = false ∧ debug = 0) ∧
    (logLevel quiet debug = some "debug" ↔ quiet = false ∧ debug = 1) ∧
    (logLevel quiet debug = some "trace" ↔ quiet = false ∧ 2 ≤ debug) := by
  unfold logLevel
  cases quiet with
  | true => simp
  | false =>
    match debug with
    | 0 => simp
    | 1 => simp
    | n + 2 => simp

example : (runCommand (C := Unit) false true (.error [fatal "bad"]) .markdownHelp).1 = 1 := process_fatal ..
example : (runCommand (C := Unit) false false (.ok .none) (.registry fun _ => .error [])).1 = 1 := rfl
example : (runCommand (C := Unit) false true (.ok .none) (.registry fun _ => .error [.other "w" (some .warning)])).1 = 0 := by
  decide +kernel

end Verif.Commands
