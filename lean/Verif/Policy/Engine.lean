import Verif.Policy.Data

/-!
# The policy engine

Models `crates/weaver_checker/src/lib.rs` (loading policies, `check`) and `crates/weaver_checker/src/finding.rs`.

Parameters of the model (`Rego`): the parser and the evaluator of the library `regorus`.
-/

namespace Verif.Policy
open Verif.Util Verif.Fs

/-- The JSON value that evaluating a rule gives, as far as the code looks into it. -/
inductive J where
  | null
  | str (s : String)
  | arr (l : List J)
  | obj (m : List (String × J))
  | other (s : String)

/-- lib.rs:150-160 `PolicyStage`. -/
inductive Stage where
  | before | after | comparison | advice
  deriving DecidableEq, Repr

/-- lib.rs:162-180. -/
def Stage.name : Stage → String
  | .before => "before_resolution"
  | .after => "after_resolution"
  | .comparison => "comparison_after_resolution"
  | .advice => "live_check_advice"

/-- The library: `package` gives the package of a policy (`data.x`), or none if the text is not a policy; `eval` gives the
value of a rule, from the policies, the data and the input. -/
structure Rego where
  package : String → Option String
  eval : List String → Val → Val → String → Option J

/-- lib.rs:182-194 `Engine`: the texts of the policies that were added, and their packages; the data documents. -/
structure Engine where
  modules : List String := []
  packages : List String := []
  data : Val := .obj []
  deriving DecidableEq

/-- lib.rs:219-235 `add_policy`. -/
def Engine.addPolicy (r : Rego) (e : Engine) (rego : String) : Except Err Engine :=
  match r.package rego with
  | none => .error .invalidPolicy
  | some p => .ok { e with modules := e.modules ++ [rego], packages := if p ∈ e.packages then e.packages else p :: e.packages }

/-- lib.rs:415-436 `add_policy_from_file`; `content` is none if the file cannot be read. -/
def Engine.addPolicyFile (r : Rego) (utf8 : String → Bool) (e : Engine) : Option String → Except Err Engine
  | none => .error .invalidPolicy
  | some c => if utf8 c = false then .error .invalidPolicy else e.addPolicy r c

/-- lib.rs:461-464: the pattern `*.rego` on the path of an entry. `*` also matches `/`, so this is about the end of the last
name. -/
def isRego (name : String) : Bool := (dropSuffix? ".rego".toList name.toList).isSome

/-- lib.rs:472-478: one entry of the walk. -/
def policyEntry (r : Rego) (w : World) (place : List String) (st : Engine × List Err × Nat) (rel : List String) :
    Engine × List Err × Nat :=
  if isRego (lastName (place ++ rel)) then
    match st.1.addPolicyFile r w.utf8 (contentAt w (place ++ rel)) with
    | .ok e => (e, st.2.1, st.2.2 + 1)
    | .error x => (st.1, st.2.1 ++ [x], st.2.2)
  else st

/-- lib.rs:446-484 `add_policies` with `*.rego`. The walk of a directory that does not exist gives only an error, which is
dropped (`flatten`). -/
def Engine.addPolicies (r : Rego) (w : World) (e : Engine) (dir : Path) : Except (List Err) (Engine × Nat) :=
  match canonicalize w.fs w.cwd dir with
  | .error _ => .ok (e, 0)
  | .ok place =>
    match w.fs.at place with
    | none => .ok (e, 0)
    | some node =>
      let st := (visible [] node).foldl (policyEntry r w place) (e, [], 0)
      if st.2.1 = [] then .ok (st.1, st.2.2) else .error st.2.1

/-- lib.rs:257-269: by what the path leads to. -/
def Engine.addPolicyAt (r : Rego) (w : World) (e : Engine) (path : Path) : Node → Except (List Err) Engine
  | .file c =>
    match e.addPolicyFile r w.utf8 (some c) with
    | .ok e => .ok e
    | .error x => .error [x]
  | .dir _ =>
    match e.addPolicies r w path with
    | .ok x => .ok x.1
    | .error es => .error es
  | .link _ => .error [.unsupportedPath]

/-- lib.rs:247-271 `add_policy_from_file_or_dir`. -/
def Engine.addPolicyFrom (r : Rego) (w : World) (e : Engine) (path : Path) : Except (List Err) Engine :=
  match canonicalize w.fs w.cwd path with
  | .error _ => .error [.accessDenied]
  | .ok place =>
    match w.fs.at place with
    | none => .error [.accessDenied]
    | some node => e.addPolicyAt r w path node

/-- src/weaver.rs:641-643: the policies of the command line, one after the other. -/
def Engine.addAll (r : Rego) (w : World) : List Path → Engine → Except (List Err) Engine
  | [], e => .ok e
  | p :: ps, e =>
    match e.addPolicyFrom r w p with
    | .error es => .error es
    | .ok e => Engine.addAll r w ps e

/-- src/weaver.rs:620-646 `init_policy_engine`: the built-in policies, those of the registry, those of the command line. -/
def initEngine (r : Rego) (w : World) (builtin : String) (registry : Path) (policies : List Path) : Except (List Err) Engine :=
  match ({} : Engine).addPolicy r builtin with
  | .error x => .error [x]
  | .ok e =>
    match e.addPolicies r w registry with
    | .error es => .error es
    | .ok x => Engine.addAll r w policies x.1

/-! ### Findings -/

/-- finding.rs:251-262 `FindingLevel`. -/
inductive Level where
  | information | improvement | violation
  deriving DecidableEq, Repr

/-- finding.rs:15-40 `PolicyFinding`. -/
structure Finding where
  id : String
  context : Option J
  message : String
  level : Level
  signalType : Option String
  signalName : Option String

/-- `#[serde(rename_all = "snake_case")]` of `FindingLevel`. -/
def Level.ofName : String → Option Level
  | "information" => some .information
  | "improvement" => some .improvement
  | "violation" => some .violation
  | _ => none

/-- serde's form of an enum without fields: its name, or an object whose only key is the name, with null. -/
def J.level : J → Option Level
  | .str s => Level.ofName s
  | .obj [(s, .null)] => Level.ofName s
  | _ => none

def J.string : J → Option String
  | .str s => some s
  | _ => none

/-- finding.rs:96-106: the variables of the loop. -/
structure Slots where
  type : Option String := none
  id : Option String := none
  category : Option String := none
  group : Option String := none
  attr : Option String := none
  adviceType : Option String := none
  message : Option String := none
  level : Option Level := none
  signalType : Option String := none
  signalName : Option String := none
  context : Option J := none

/-- finding.rs:108-125: one key; none if its value has the wrong type. -/
def Slots.step (s : Slots) (k : String) (v : J) : Option Slots :=
  match k with
  | "type" => v.string.map fun x => { s with type := some x }
  | "id" => v.string.map fun x => { s with id := some x }
  | "category" => v.string.map fun x => { s with category := some x }
  | "group" => v.string.map fun x => { s with group := some x }
  | "attr" => v.string.map fun x => { s with attr := some x }
  | "advice_type" => v.string.map fun x => { s with adviceType := some x }
  | "message" => v.string.map fun x => { s with message := some x }
  | "advice_level" => v.level.map fun x => { s with level := some x }
  | "level" => v.level.map fun x => { s with level := some x }
  | "advice_context" => some { s with context := some v }
  | "context" => some { s with context := some v }
  | "signal_type" => v.string.map fun x => { s with signalType := some x }
  | "signal_name" => v.string.map fun x => { s with signalName := some x }
  | _ => some s

/-- finding.rs:107-126: the loop over the keys of the object. -/
def Slots.run (s : Slots) : List (String × J) → Option Slots
  | [] => some s
  | (k, v) :: m => (s.step k v).bind fun s => s.run m

/-- finding.rs:43-64 `new_semconv_attribute`. -/
def Finding.semconv (id category group attr : String) : Finding where
  id := "semconv_attribute"
  context := some (.obj [("attr", .str attr), ("category", .str category), ("group", .str group), ("id", .str id)])
  message := "id=" ++ id ++ ", category=" ++ category ++ ", group=" ++ group ++ ", attr=" ++ attr
  level := .violation
  signalType := none
  signalName := none

/-- finding.rs:127-173: the finding from the variables. -/
def Slots.finish (s : Slots) : Option Finding :=
  match s.type with
  | some "semconv_attribute" =>
    match s.id, s.category, s.group, s.attr with
    | some id, some category, some group, some attr => some (.semconv id category group attr)
    | _, _, _, _ => none
  | some "advice" =>
    match s.level, s.adviceType, s.message with
    | some level, some id, some message => some ⟨id, s.context, message, level, s.signalType, s.signalName⟩
    | _, _, _ => none
  | none =>
    match s.id, s.level, s.message with
    | some id, some level, some message => some ⟨id, s.context, message, level, s.signalType, s.signalName⟩
    | _, _, _ => none
  | some _ => none

/-- finding.rs:66-175: a finding from a JSON value. A `serde_json::Value` lets the loop go on without reading the value of
a key it does not know. -/
def Finding.decode : J → Option Finding
  | .obj m => (({} : Slots).run m).bind Slots.finish
  | _ => none

/-- The list of findings from a JSON value. -/
def decodeAll : J → Option (List Finding)
  | .arr l => l.mapM Finding.decode
  | _ => none

/-- lib.rs:545-547 `has_stage`. -/
def Engine.hasStage (e : Engine) (s : Stage) : Bool := decide (("data." ++ s.name) ∈ e.packages)

/-- lib.rs:552-596 `check`. Simplification: without the coverage report. -/
def Engine.check (r : Rego) (e : Engine) (input : Val) (s : Stage) : Except Err (List Finding) :=
  if e.hasStage s then
    match r.eval e.modules e.data input ("data." ++ s.name ++ ".deny") with
    | none => .error .evaluation
    | some v =>
      match decodeAll v with
      | none => .error .evaluation
      | some fs => .ok fs
  else .ok []

/-! ### Diagnostics -/

/-- An error of `check_policy_stage` (src/weaver.rs:702-741): the policy could not be applied to a file, or a finding. -/
inductive Diag where
  | invalidPolicyFile (file : String)
  | violation (provenance : String) (finding : Finding)

/-- src/weaver.rs:711-718: the data documents, and an error for each that cannot be added. -/
def addDocuments (deep : Bool) (file : String) : List Val → Engine × List Diag → Engine × List Diag
  | [], st => st
  | d :: ds, (e, errs) =>
    match addData deep e.data d with
    | some v => addDocuments deep file ds ({ e with data := v }, errs)
    | none => addDocuments deep file ds (e, errs ++ [.invalidPolicyFile file])

/-- src/weaver.rs:702-741 `check_policy_stage`. `input` is none if it cannot be converted. -/
def checkStage (r : Rego) (deep : Bool) (e : Engine) (s : Stage) (file : String) (input : Option Val) (data : List Val) : List Diag :=
  let st := addDocuments deep file data (e, [])
  st.2 ++ match input with
    | none => [.invalidPolicyFile file]
    | some i =>
      match st.1.check r i s with
      | .ok fs => fs.map (.violation file)
      | .error _ => [.invalidPolicyFile file]

/-- src/weaver.rs:664-678: the files are checked in parallel, each with its own copy of the engine. A schedule is the order in
which the files are finished; the result of a file goes to its place. -/
def runSchedule (f : String × Option Val → List Diag) (files : List (String × Option Val)) (slots : List (Option (List Diag))) :
    List Nat → List (Option (List Diag))
  | [] => slots
  | i :: sched =>
    match files[i]? with
    | none => runSchedule f files slots sched
    | some x => runSchedule f files (slots.set i (some (f x))) sched

/-- src/weaver.rs:659-691 `check_policy`, for a schedule. -/
def checkPolicy (r : Rego) (deep : Bool) (e : Engine) (files : List (String × Option Val)) (sched : List Nat) : List Diag :=
  (runSchedule (fun x => checkStage r deep e .before x.1 x.2 []) files (List.replicate files.length none) sched).flatMap
    fun o => o.getD []

end Verif.Policy
