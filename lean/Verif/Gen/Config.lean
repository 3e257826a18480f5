import Verif.Util.Map
import Verif.Util.Str

/-!
# Layered template configuration

Models `crates/weaver_forge/src/config.rs` (configuration files and how they are merged), the merge of the parameters of a
template in `crates/weaver_forge/src/lib.rs`, and `src/registry/generate.rs` (parameters of the command line).

Parameter values are a type `V` with a test for null. Values the code only copies (templates, comment formats) are type
parameters. Maps are association lists: with sorted keys for `BTreeMap`, in any order for `HashMap`.
-/

namespace Verif.Gen
open Verif.Util

/-- config.rs:244-257 `TemplateSyntax`. -/
structure Syntax where
  blockStart : Option String := none
  blockEnd : Option String := none
  variableStart : Option String := none
  variableEnd : Option String := none
  commentStart : Option String := none
  commentEnd : Option String := none

/-- config.rs:263-282 `TemplateSyntax::override_with`. -/
def Syntax.override (s o : Syntax) : Syntax where
  blockStart := if o.blockStart.isSome then o.blockStart else s.blockStart
  blockEnd := if o.blockEnd.isSome then o.blockEnd else s.blockEnd
  variableStart := if o.variableStart.isSome then o.variableStart else s.variableStart
  variableEnd := if o.variableEnd.isSome then o.variableEnd else s.variableEnd
  commentStart := if o.commentStart.isSome then o.commentStart else s.commentStart
  commentEnd := if o.commentEnd.isSome then o.commentEnd else s.commentEnd

/-- config.rs:287-297 `WhitespaceControl`. -/
structure White where
  trimBlocks : Option Bool := none
  lstripBlocks : Option Bool := none
  keepTrailingNewline : Option Bool := none

/-- config.rs:303-313 `WhitespaceControl::override_with`. -/
def White.override (s o : White) : White where
  trimBlocks := if o.trimBlocks.isSome then o.trimBlocks else s.trimBlocks
  lstripBlocks := if o.lstripBlocks.isSome then o.lstripBlocks else s.lstripBlocks
  keepTrailingNewline := if o.keepTrailingNewline.isSome then o.keepTrailingNewline else s.keepTrailingNewline

variable {V T F : Type}

/-- config.rs:45-79 `WeaverConfig`. -/
structure Config (V T F : Type) where
  typeMapping : Option (List (String × String)) := none
  textMaps : Option (List (String × List (String × String))) := none
  syn : Syntax := {}
  white : White := {}
  commentFormats : Option F := none
  defaultCommentFormat : Option String := none
  params : Option (List (String × V)) := none
  templates : Option (List T) := none
  acronyms : Option (List Chars) := none

/-- config.rs:475-496 `WeaverConfig::default`. -/
def Config.default : Config V T F where
  syn := ⟨some "{%", some "%}", some "{{", some "}}", some "{#", some "#}"⟩

/-- `BTreeMap::remove`. -/
def aremove (k : String) (m : List (String × V)) : List (String × V) := m.filter fun e => e.1 ≠ k

/-- config.rs:657-673: one parameter of the overriding configuration. -/
def setParam (null : V → Bool) (params : Option (List (String × V))) (e : String × V) : Option (List (String × V)) :=
  if null e.2 then params.map (aremove e.1) else some (bins e.1 e.2 (params.getD []))

/-- config.rs:630-681 `WeaverConfig::override_with`. -/
def Config.override (null : V → Bool) (s child : Config V T F) : Config V T F where
  typeMapping := if child.typeMapping.isSome then child.typeMapping else s.typeMapping
  textMaps := if child.textMaps.isSome then child.textMaps else s.textMaps
  syn := s.syn.override child.syn
  white := s.white.override child.white
  commentFormats := if child.commentFormats.isSome then child.commentFormats else s.commentFormats
  defaultCommentFormat := if child.defaultCommentFormat.isSome then child.defaultCommentFormat else s.defaultCommentFormat
  params := match child.params with | some l => l.foldl (setParam null) s.params | none => s.params
  templates := if child.templates.isSome then child.templates else s.templates
  acronyms := if child.acronyms.isSome then child.acronyms else s.acronyms

/-- config.rs:547-569 `WeaverConfig::resolve_from`; the files are given by their contents, `parse` is the YAML
deserializer. -/
def resolveFrom {C : Type} (null : V → Bool) (parse : C → Option (Config V T F)) (files : List C) : Option (Config V T F) :=
  if files.isEmpty then some .default
  else files.foldlM (fun c f => (parse f).map (c.override null)) .default

/-- config.rs:575-586: the directories of a path and of its parents, starting with the path itself. `Path::parent` drops
the last component, and ends at the root of an absolute path and at the empty path for a relative one. -/
def ancestors : List String → List (List String)
  | [] => [[]]
  | a :: p => (ancestors p).map (a :: ·) ++ [[]]

/-- config.rs:571-599 `WeaverConfig::collect_from_path`. `read` reads the `weaver.yaml` of a directory, `home` is the content
of the one in the home directory. -/
def collect {C : Type} (read : List String → Option C) (home : Option C) (path : List String) : List C :=
  ((ancestors path).filterMap read ++ home.toList).reverse

/-- config.rs:506-509 `WeaverConfig::try_from_path`. -/
def tryFromPath {C : Type} (null : V → Bool) (parse : C → Option (Config V T F)) (read : List String → Option C) (home : Option C)
    (path : List String) : Option (Config V T F) :=
  resolveFrom null parse (collect read home path)

/-- config.rs:693-702: one acronym of the project. -/
def mergeAcronym (lower : Chars → Chars) (a : Chars) : List Chars → List Chars
  | [] => [a]
  | b :: l => if lower b = lower a then a :: l else b :: mergeAcronym lower a l

/-- config.rs:688-704 `merge_acronyms`. -/
def mergeAcronyms (lower : Chars → Chars) (own incoming : Option (List Chars)) : Option (List Chars) :=
  match incoming with
  | none => own
  | some l => some (l.foldl (fun m a => mergeAcronym lower a m) (own.getD []))

/-- config.rs:711-718 `merge_text_maps`. -/
def mergeTextMaps (own incoming : Option (List (String × List (String × String)))) :
    Option (List (String × List (String × String))) :=
  match incoming with
  | none => own
  | some l => some (l.foldl (fun m e => aset e.1 e.2 m) (own.getD []))

/-- generate.rs:187-212 `generate_params_shared`: the parameters of the file, then those of the command line. -/
def cliParams (direct : List (String × V)) (file : List (String × V)) : List (String × V) :=
  direct.foldl (fun m e => aset e.1 e.2 m) file

/-- forge/src/lib.rs:224-246 in `TemplateEngine::try_new`: the parameters of one template. -/
def templateParams (cli : List (String × V)) (top own : Option (List (String × V))) : List (String × V) :=
  (top.getD []).foldl (fun m e => if (aget e.1 m).isSome then m else bins e.1 e.2 m)
    (cli.foldl (fun m e => bins e.1 e.2 m) (own.getD []))

/-- forge/src/lib.rs:644-668 `init_params`; `all` is the value that holds all the parameters. `none` is the error that
`params` is reserved. -/
def initParams (all : List (String × V) → V) (own : Option (List (String × V))) : Option (List (String × V)) :=
  match own with
  | none => some []
  | some l => if (aget "params" l).isSome then none else some (bins "params" (all l) l)

/-- forge/src/lib.rs:303-314 in `generate_snippet`: the parameters of a snippet. -/
def snippetParams (cli : List (String × V)) (top : Option (List (String × V))) : List (String × V) :=
  cli.foldl (fun m e => bins e.1 e.2 m) (top.getD [])

end Verif.Gen
