import Verif.Gen.Config

/-!
# The template engine

Models `crates/weaver_forge/src/lib.rs` (`TemplateEngine`) and the collection of results in `crates/weaver_forge/src/jq.rs`.

Parameters of the model (`Engine`): the glob matcher, the jq interpreter, the Jinja renderer and the conversion of parameters
to JSON. The engine renders in parallel. Rendering has no effect on the outside, so a run is determined by the order in which
the rendered texts are written. A schedule is any order of the jobs; writing one file or printing one text is one step. That
a write can be seen half done by another process is not modelled, and neither are permissions and full disks.
-/

namespace Verif.Gen
open Verif.Util

/-- JSON values, as far as the engine looks into them: null, booleans and arrays. -/
inductive Js where
  | null
  | bool (b : Bool)
  | arr (l : List Js)
  | other (s : String)

/-- config.rs:163-221 `TemplateConfig`; `each` is `application_mode: each`. -/
structure Template (V : Type) where
  glob : String
  filter : String
  each : Bool := false
  params : Option (List (String × V)) := none
  fileName : Option String := none
  when : Option String := none
  escape : String := "none"

/-- lib.rs:173-182 `TemplateEngine`, and the libraries it calls. `renderFile` gives the text and, if the template called
`template.set_file_name`, the last name given (lib.rs:100-118). A jq program does not compile (`none`) or gives a stream of
values and errors. -/
structure Engine (V : Type) where
  files : List (List String)
  templates : List (Template V)
  glob : String → List String → Bool
  toJson : V → Option Js
  all : List (String × V) → V
  jq : Js → String → List (String × Js) → Option (List (Option Js))
  renderStr : String → Js → List (String × V) → String → Option Chars
  renderFile : List String → Js → List (String × V) → String → Option (Chars × Option Chars)

variable {V : Type}

/-- lib.rs:249-272 in `try_new`: every template pattern matches a file. -/
def Engine.valid (e : Engine V) : Bool := e.templates.all fun t => e.files.any (e.glob t.glob)

/-- jq.rs:99-141: the results of a jq program. -/
def bundle (outs : List (Option Js)) : Option Js :=
  if outs.all Option.isSome then
    match outs.filterMap id with
    | [v] => some v
    | l => some (.arr l)
  else none

/-- jq.rs:44-141 `execute_jq`. -/
def Engine.executeJq (e : Engine V) (ctx : Js) (filter : String) (params : List (String × Js)) : Option Js :=
  (e.jq ctx filter params).bind bundle

/-- lib.rs:472-494 `evaluate_when`. -/
def Engine.evaluateWhen (e : Engine V) (t : Template V) (ctx : Js) (params : List (String × Js)) : Option Bool :=
  match t.when with
  | none => some true
  | some w =>
    match e.executeJq ctx w params with
    | some (.bool b) => some b
    | _ => none

/-- lib.rs:617-638 `prepare_jq_context`. -/
def Engine.jqContext (e : Engine V) (params : List (String × V)) : Option (List (String × Js)) :=
  params.mapM fun p => (e.toJson p.2).map fun j => (p.1, j)

/-- One evaluation of a template: the file, its configuration, the parameters and the context. -/
structure Job (V : Type) where
  file : List String
  template : Template V
  params : List (String × V)
  ctx : Js

/-- lib.rs:591-604 `process_single_mode`: the contexts a template is evaluated with. -/
def singleContexts : Js → List Js
  | .null => []
  | .arr [] => []
  | v => [v]

/-- lib.rs:548-588 `process_each_mode`. -/
def eachContexts : Js → List Js
  | .arr l => l
  | v => [v]

/-- lib.rs:498-543 `process_template`, up to the evaluation: the jobs of one file and template configuration. -/
def Engine.process (e : Engine V) (ctx : Js) (file : List String) (t : Template V) : Option (List (Job V)) :=
  match initParams e.all t.params with
  | none => none
  | some yaml =>
    match e.jqContext yaml with
    | none => none
    | some params =>
      match e.evaluateWhen t ctx params with
      | none => none
      | some false => some []
      | some true =>
        match e.executeJq ctx t.filter params with
        | none => none
        | some v => some ((if t.each then eachContexts v else singleContexts v).map fun c => ⟨file, t, yaml, c⟩)

/-- lib.rs:434-441 and config.rs:233-239 `TemplateMatcher::matches`: the pairs of a file and a matching configuration. -/
def Engine.pairs (e : Engine V) : List (List String × Template V) :=
  e.files.flatMap fun f => (e.templates.filter fun t => e.glob t.glob f).map fun t => (f, t)

/-- The jobs of a run, or an error, for each pair. -/
def Engine.processed (e : Engine V) (ctx : Js) : List (Option (List (Job V))) :=
  e.pairs.map fun p => e.process ctx p.1 p.2

/-- The jobs of a run. -/
def Engine.jobs (e : Engine V) (ctx : Js) : List (Job V) := (e.processed ctx).flatMap fun o => o.getD []

/-- lib.rs:700-709: the default name of a generated file. -/
def defaultName (file : List String) : Chars := trimEndSub ".j2".toList ((file.getLast?.getD "").toList)

/-- lib.rs:673-742 `render_template`: the text and the name of the file. -/
def Engine.render (e : Engine V) (j : Job V) (fileName : Option String) : Option (Chars × Chars) :=
  match fileName with
  | some n =>
    match e.renderStr n j.ctx j.params j.template.escape with
    | none => none
    | some name => (e.renderFile j.file j.ctx j.params j.template.escape).map fun r => (r.1, r.2.getD name)
  | none => (e.renderFile j.file j.ctx j.params j.template.escape).map fun r => (r.1, r.2.getD (defaultName j.file))

/-- lib.rs:78-85 `OutputDirective`. -/
inductive Directive where
  | stdout | stderr | file

/-- What a run changes: the files, by their resolved path, and the two standard streams. Directories are those above a
file. -/
structure World where
  files : List (List String × Chars)
  out : Chars
  err : Chars

/-- The content of a file. -/
def World.get (w : World) (p : List String) : Option Chars := (w.files.find? fun e => e.1 = p).map Prod.snd

/-- A file cannot be written at `p` if a file is above it, or if it is a directory. -/
def World.blocked (w : World) (p : List String) : Bool :=
  p.isEmpty || w.files.any fun e => e.1 ≠ p && (e.1.isPrefixOf p || p.isPrefixOf e.1)

/-- lib.rs:855-880 `save_generated_code`. -/
def World.save (w : World) (p : List String) (text : Chars) : Option World :=
  if w.blocked p then none else some { w with files := (p, text) :: w.files.filter fun e => e.1 ≠ p }

/-- lib.rs:746-772 `evaluate_template`; `loc` is the place of the file with the given name, in the output directory. The
result is `none` if there is an error. -/
def Engine.evaluate (e : Engine V) (loc : Chars → List String) (d : Directive) (w : World) (j : Job V) : Option World :=
  match e.render j j.template.fileName with
  | none => none
  | some (text, name) =>
    match d with
    | .stdout => some { w with out := w.out ++ text ++ ['\n'] }
    | .stderr => some { w with err := w.err ++ text ++ ['\n'] }
    | .file => w.save (loc name) text

/-- One step of a run; the number of errors is counted. -/
def Engine.step (e : Engine V) (loc : Chars → List String) (d : Directive) (s : World × Nat) (j : Job V) : World × Nat :=
  match e.evaluate loc d s.1 j with
  | none => (s.1, s.2 + 1)
  | some w => (w, s.2)

/-- lib.rs:418-457 `generate` with a schedule of the jobs. -/
def Engine.run (e : Engine V) (loc : Chars → List String) (d : Directive) (w : World) (schedule : List (Job V)) : World × Nat :=
  schedule.foldl (e.step loc d) (w, 0)

/-- lib.rs:456 `handle_errors`: whether `generate` succeeds. -/
def Engine.succeeds (e : Engine V) (ctx : Js) (r : World × Nat) : Bool :=
  (e.processed ctx).all Option.isSome && r.2 == 0

/-- lib.rs:333-404 `generate_to_string`, one pair. The contexts are those of `process` (lib.rs:344-399). -/
def Engine.renderAll (e : Engine V) (jobs : Option (List (Job V))) : Option (List Chars) :=
  jobs.bind fun l => l.mapM fun j => (e.render j none).map Prod.fst

/-- lib.rs:333-404 `generate_to_string`. -/
def Engine.generateToString (e : Engine V) (ctx : Js) : Option Chars :=
  ((e.processed ctx).mapM e.renderAll).map fun l => l.flatten.flatten

end Verif.Gen
