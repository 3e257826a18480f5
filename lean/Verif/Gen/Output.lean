import Verif.Gen.Engine

/-!
# The output processor

Models `crates/weaver_forge/src/output_processor.rs`: where and in which format the commands write their results.

The serializers are a parameter. A file that was opened is written at its end; that another process replaces or truncates it
between two calls is not modelled.
-/

namespace Verif.Gen
open Verif.Util

/-- output_processor.rs:19-30 `OutputTarget`. -/
inductive Target where
  | stdout | stderr
  | file (p : List String)
  | dir (p : List String)
  | mute
  deriving DecidableEq

/-- output_processor.rs:36-42 `OutputTarget::from_optional_dir`; `loc` splits the path. -/
def Target.ofDir (loc : String → List String) : Option String → Target
  | none => .stdout
  | some p => if p = "none" then .mute else .dir (loc p)

/-- output_processor.rs:47-52 `OutputTarget::from_optional_file`. -/
def Target.ofFile (loc : String → List String) : Option String → Target
  | none => .stdout
  | some p => .file (loc p)

/-- output_processor.rs:57-64 `BuiltinFormat`. -/
inductive Format where
  | json | yaml | jsonl
  deriving DecidableEq

/-- output_processor.rs:68-75 `BuiltinFormat::from_name`. -/
def Format.ofName (n : String) : Option Format :=
  if n = "json" then some .json else if n = "yaml" then some .yaml else if n = "jsonl" then some .jsonl else none

/-- output_processor.rs:78-84 `BuiltinFormat::extension`. -/
def Format.extension : Format → String
  | .json => "json"
  | .yaml => "yaml"
  | .jsonl => "jsonl"

/-- output_processor.rs:108-110 `BuiltinFormat::is_line_oriented`. -/
def Format.lines : Format → Bool
  | .jsonl => true
  | _ => false

/-- output_processor.rs:120-132 `OutputKind`; `opened` is that the file has been opened. -/
inductive Kind (V : Type) where
  | builtin (format : Format) (pre : String) (target : Target) (opened : Bool)
  | template (engine : Engine V) (target : Target)
  | mute

variable {V D : Type}

/-- output_processor.rs:193-209 `has_template_dir`. -/
def hasTemplateDir (embedded localDir : Option (String → Bool)) (format : String) : Bool :=
  (match localDir with | some exist => exist format | none => false) ||
    (match embedded with | some exist => exist format | none => false)

/-- output_processor.rs:212-230 `load_template_kind`; `load` loads the templates of a format. -/
def loadTemplate (embedded : Option (String → Bool)) (load : String → Option (Engine V)) (format : String) (target : Target) :
    Option (Kind V) :=
  match embedded with
  | none => none
  | some _ => (load format).map fun e => .template e target

/-- output_processor.rs:149-189 `OutputProcessor::new`. `embedded` and `localDir` tell which template directories there
are. -/
def newKind (lower : String → String) (embedded localDir : Option (String → Bool)) (load : String → Option (Engine V))
    (format pre : String) (target : Target) : Option (Kind V) :=
  if target = .mute then some .mute
  else if lower format = "mute" then some .mute
  else if (embedded.isSome || localDir.isSome) && hasTemplateDir embedded localDir format then
    loadTemplate embedded load format target
  else
    match Format.ofName (lower format) with
    | some f => some (.builtin f pre target false)
    | none => loadTemplate embedded load format target

/-- output_processor.rs:289-298: the file of a built-in format. -/
def builtinFile (format : Format) (pre : String) : Target → Option (List String)
  | .file p => some p
  | .dir p => some (p ++ [pre ++ "." ++ format.extension])
  | _ => none

/-- output_processor.rs:374-385 `open_file`: the file is empty then. -/
def World.openFile (w : World) (p : List String) : Option World := w.save p []

/-- `write!` to an open file. -/
def World.append (w : World) (p : List String) (text : Chars) : World :=
  { w with files := (p, (w.get p).getD [] ++ text) :: w.files.filter fun e => e.1 ≠ p }

/-- output_processor.rs:389-413 `write_content`. -/
def writeContent (w : World) (content : Chars) (file : Option (List String)) (newline useStderr : Bool) : World :=
  match file with
  | none =>
    if useStderr then { w with err := w.err ++ content ++ ['\n'] } else { w with out := w.out ++ content ++ ['\n'] }
  | some p => w.append p (if newline then content ++ ['\n'] else content)

/-- Serializers: the built-in formats, and the context for templates. -/
structure Codec (D : Type) where
  ser : Format → D → Option Chars
  js : D → Js

/-- output_processor.rs:289-302: `generate` with a built-in format. The result is whether it succeeds. -/
def generateBuiltin (c : Codec D) (format : Format) (pre : String) (target : Target) (opened : Bool) (w : World) (d : D) :
    World × Kind V × Bool :=
  let file := builtinFile format pre target
  match (match file with
    | some p => if opened then some w else w.openFile p
    | none => some w) with
  | none => (w, .builtin format pre target opened, false)
  | some w' =>
    match c.ser format d with
    | none => (w', .builtin format pre target (opened || file.isSome), false)
    | some text => (writeContent w' text file format.lines (target == .stderr), .builtin format pre target (opened || file.isSome), true)

/-- output_processor.rs:304-315: where a template is written. -/
def templateTarget : Target → Option (List String × Directive)
  | .stdout => some (["output"], .stdout)
  | .stderr => some (["output"], .stderr)
  | .file p => some (p, .file)
  | .dir p => some (p, .file)
  | .mute => none

/-- output_processor.rs:281-320 `generate`. `loc` is the place of a file in a directory; `schedule` is the order in which
the engine runs the jobs. -/
def generate (c : Codec D) (loc : List String → Chars → List String) (schedule : List (Job V) → List (Job V))
    (w : World) (k : Kind V) (d : D) : World × Kind V × Bool :=
  match k with
  | .builtin format pre target opened => generateBuiltin c format pre target opened w d
  | .template e target =>
    match templateTarget target with
    | none => (w, k, false)
    | some (p, directive) =>
      let r := e.run (loc p) directive w (schedule (e.jobs (c.js d)))
      (r.1, k, e.succeeds (c.js d) r)
  | .mute => (w, k, true)

/-- output_processor.rs:323-329 `generate_to_string`. -/
def generateToString (c : Codec D) (k : Kind V) (d : D) : Option Chars :=
  match k with
  | .builtin format _ _ _ => c.ser format d
  | .template e _ => e.generateToString (c.js d)
  | .mute => some []

/-- output_processor.rs:333-343 `content_type`. -/
def contentType : Kind V → String
  | .builtin .json _ _ _ => "application/json"
  | .builtin .yaml _ _ _ => "application/yaml"
  | .builtin .jsonl _ _ _ => "application/jsonl"
  | .template _ _ => "text/plain"
  | .mute => "text/plain"

/-- output_processor.rs:347-357 `is_file_output`. -/
def isFileOutput : Kind V → Bool
  | .builtin _ _ (.file _) _ => true
  | .builtin _ _ (.dir _) _ => true
  | .template _ (.file _) => true
  | .template _ (.dir _) => true
  | _ => false

/-- A history of calls. -/
def history (c : Codec D) (loc : List String → Chars → List String) (schedule : List (Job V) → List (Job V))
    (s : World × Kind V) (ds : List D) : World × Kind V :=
  ds.foldl (fun s d => let r := generate c loc schedule s.1 s.2 d; (r.1, r.2.1)) s

end Verif.Gen
