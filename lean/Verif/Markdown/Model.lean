import Verif.Util.Str
/-
Model of `weaver registry update-markdown`: the parser of snippet directives
(crates/weaver_semconv_gen/src/parser.rs), the rewriting of a markdown text (crates/weaver_semconv_gen/src/lib.rs)
and the loop over the files of a directory (src/registry/update_markdown.rs).

The generators of snippet texts (v1.rs, v2.rs: a lookup and a minijinja rendering) are a parameter. Lines and texts are
lists of characters. nom's distinction between recoverable errors and failures is dropped: the only combinators that
look at it (`opt`, `separated_list0`, `alt`) wrap parsers that give recoverable errors only.
-/
namespace Verif.Markdown
open Verif.Util

/-! ### Characters and lines -/

/-- `char::is_whitespace` (the Unicode property White_Space). -/
def isWhite (c : Char) : Bool :=
  let n := c.toNat
  decide (9 ≤ n ∧ n ≤ 13) || decide (n = 32) || decide (n = 0x85) || decide (n = 0xA0) || decide (n = 0x1680) ||
    decide (0x2000 ≤ n ∧ n ≤ 0x200A) || decide (n = 0x2028) || decide (n = 0x2029) || decide (n = 0x202F) ||
    decide (n = 0x205F) || decide (n = 0x3000)

/-- `str::trim`. -/
def trim (s : Chars) : Chars := ((s.dropWhile isWhite).reverse.dropWhile isWhite).reverse

/-- `line.strip_suffix('\r')` in `str::lines`. -/
def stripCR (l : Chars) : Chars := (dropSuffix? ['\r'] l).getD l

/-- `str::lines`, from the pieces between line feeds: each terminated line loses one carriage return, and a last piece
that is empty is no line. -/
def linesFrom : List Chars → List Chars
  | [] => []
  | [w] => if w = [] then [] else [w]
  | w :: v :: ws => stripCR w :: linesFrom (v :: ws)

/-- `str::lines`. -/
def lines (s : Chars) : List Chars := linesFrom (splitWhen (fun c => decide (c = '\n')) s)

/-- `.replace("\r\n", "\n")`, lib.rs:124. -/
def replaceCRLF : Chars → Chars
  | [] => []
  | [c] => [c]
  | c :: d :: t => if c = '\r' ∧ d = '\n' then '\n' :: replaceCRLF t else c :: replaceCRLF (d :: t)

/-! ### The parser -/

/-- nom's `is_alpha` on `char`. -/
def isAlpha (c : Char) : Bool := decide (('a' ≤ c ∧ c ≤ 'z') ∨ ('A' ≤ c ∧ c ≤ 'Z'))

/-- nom's `is_alphanum` on `char`. -/
def isAlnum (c : Char) : Bool := isAlpha c || decide ('0' ≤ c ∧ c ≤ '9')

/-- nom's `multispace0`. -/
def isSpace (c : Char) : Bool := decide (c = ' ') || decide (c = '\t') || decide (c = '\r') || decide (c = '\n')

def skipSpace (s : Chars) : Chars := s.dropWhile isSpace

/-- The characters of an id after the first, parser.rs:141. -/
def idChar (c : Char) : Bool := isAlnum c || decide (c = '.') || decide (c = '_') || decide (c = '-')

/-- The characters of a tag value after the first, parser.rs:87 and of a part of an id, parser.rs:341. -/
def valChar (c : Char) : Bool := isAlnum c || decide (c = '_') || decide (c = '-')

/-- A first character of class `f`, then as many as possible of class `g`: the token and the rest. -/
def token (f g : Char → Bool) : Chars → Option (Chars × Chars)
  | [] => none
  | c :: t => if f c then some (c :: t.takeWhile g, t.dropWhile g) else none

/-- parser.rs:84-90 `parse_value`. -/
def parseValue (s : Chars) : Option (Chars × Chars) := token (fun c => isAlpha c || decide (c = '_')) valChar s

/-- parser.rs:138-144 `parse_id`. -/
def parseId (s : Chars) : Option (Chars × Chars) := token isAlpha idChar s

/-- parser.rs:338-344 `parse_partial_id`. -/
def parsePartialId (s : Chars) : Option (Chars × Chars) := token isAlpha valChar s

/-- parser.rs:62-71 `MarkdownGenParameters`. -/
inductive Param
  | tag (value : Chars)
  | full
  | metricTable
  | omitRequirementLevel
deriving DecidableEq, Repr

/-- parser.rs:30-35 `GenerateMarkdownArgs`. -/
structure Args where
  id : Chars
  args : List Param
deriving DecidableEq, Repr

/-- parser.rs:22-27 `WeaverGenerateMarkdownArgs`. -/
structure WArgs where
  query : Chars
  template : Option Chars
deriving DecidableEq, Repr

/-- parser.rs:93-127 `parse_markdown_gen_parameter` and the four alternatives it tries. -/
def parseParam (s : Chars) : Option (Param × Chars) :=
  match dropPrefix? "full".toList s with
  | some r => some (.full, r)
  | none =>
    match dropPrefix? "metric_table".toList s with
    | some r => some (.metricTable, r)
    | none =>
      match dropPrefix? "omit_requirement_level".toList s with
      | some r => some (.omitRequirementLevel, r)
      | none =>
        match dropPrefix? "tag=".toList s with
        | some r => (parseValue r).map (fun x => (.tag x.1, x.2))
        | none => none

/-- The loop of nom's `separated_list0(tag(","), …)` after the first element: a comma that no parameter follows is left
in the input. The first argument bounds the number of rounds; a round consumes a comma. -/
def moreParams : Nat → Chars → List Param × Chars
  | 0, s => ([], s)
  | n + 1, s =>
    match dropPrefix? [','] s with
    | none => ([], s)
    | some r =>
      match parseParam r with
      | none => ([], s)
      | some x => (x.1 :: (moreParams n x.2).1, (moreParams n x.2).2)

/-- nom's `separated_list0(tag(","), parse_markdown_gen_parameter)`, parser.rs:132. -/
def paramList (s : Chars) : List Param × Chars :=
  match parseParam s with
  | none => ([], s)
  | some x => (x.1 :: (moreParams x.2.length x.2).1, (moreParams x.2.length x.2).2)

/-- parser.rs:130-135 `parse_markdown_gen_parameters`. -/
def parseParams (s : Chars) : Option (List Param × Chars) :=
  match dropPrefix? ['('] s with
  | none => none
  | some r => (dropPrefix? [')'] (paramList r).2).map (fun t => ((paramList r).1, t))

/-- parser.rs:147-156 `parse_html_comment`: the text of the comment and the rest. -/
def htmlComment (s : Chars) : Option (Chars × Chars) :=
  match dropPrefix? "<!--".toList s with
  | none => none
  | some r => splitFirst "-->".toList r

/-- parser.rs:159-173 `parse_semconv_snippet_directive`: the arguments and what remains. -/
def directive (s : Chars) : Option (Args × Chars) :=
  match dropPrefix? "semconv".toList (skipSpace s) with
  | none => none
  | some r =>
    match parseId (skipSpace r) with
    | none => none
    | some x =>
      match parseParams x.2 with
      | some y => some (⟨x.1, y.1⟩, skipSpace y.2)
      | none => some (⟨x.1, []⟩, skipSpace x.2)

/-- parser.rs:232-243, 272-274, 282-289: `is_markdown_snippet_directive` (some) and `parse_markdown_snippet_directive`
(the arguments), which accept the same lines. -/
def semconvHeader (line : Chars) : Option Args :=
  match htmlComment line with
  | none => none
  | some x =>
    match directive x.1 with
    | none => none
    | some y => if y.2 = [] ∧ trim x.2 = [] then some y.1 else none

/-- parser.rs:194-199 `parse_weaver_template_directive`. -/
def templateDirective (s : Chars) : Option (Chars × Chars) :=
  match dropPrefix? "template:".toList s with
  | none => none
  | some r => parseId r

/-- parser.rs:176-192 `parse_weaver_snippet_args`. -/
def weaverArgs (s : Chars) : Option WArgs :=
  match dropPrefix? "weaver".toList (skipSpace s) with
  | none => none
  | some r =>
    match templateDirective (skipSpace r) with
    | some x => some ⟨trim (skipSpace x.2), some x.1⟩
    | none => some ⟨trim (skipSpace (skipSpace r)), none⟩

/-- parser.rs:218-229, 277-279, 292-299: `is_weaver_directive` (some) and `parse_weaver_snippet_directive`. -/
def weaverHeader (line : Chars) : Option WArgs :=
  match htmlComment line with
  | none => none
  | some x =>
    match weaverArgs x.1 with
    | none => none
    | some a => if trim x.2 = [] then some a else none

/-- parser.rs:202-215, 246-259: a comment with nothing but the given word. -/
def marker (word : Chars) (line : Chars) : Option Chars :=
  match htmlComment line with
  | none => none
  | some x =>
    match dropPrefix? word (skipSpace x.1) with
    | none => none
    | some r => if skipSpace r = [] then some x.2 else none

/-- parser.rs:262-264 `is_semconv_trailer`. -/
def semconvTrailer (line : Chars) : Bool :=
  match marker "endsemconv".toList line with
  | some rest => decide (trim rest = [])
  | none => false

/-- parser.rs:267-269 `is_weaver_trailer`. -/
def weaverTrailer (line : Chars) : Bool :=
  match marker "endweaver".toList line with
  | some rest => decide (trim rest = [])
  | none => false

/-- parser.rs:46-55 `tag_filters`. -/
def tagFilters (a : Args) : List Chars :=
  match a.args.findSome? (fun p => match p with | .tag v => some v | _ => none) with
  | some v => [v]
  | none => []

/-- parser.rs:39-43 `is_metric_table`. -/
def isMetricTable (a : Args) : Bool := a.args.any (fun p => decide (p = .metricTable))

/-! ### Ids of the v2 schema -/

/-- parser.rs:313-336 `IdLookupV2`, `RegistryLookup`, `RefinementLookup`. -/
inductive Lookup
  | attribute (id : Chars)
  | attributeGroup (id : Chars)
  | span (id : Chars)
  | metric (id : Chars)
  | event (id : Chars)
  | entity (id : Chars)
  | spanRefinement (id : Chars)
  | metricRefinement (id : Chars)
  | eventRefinement (id : Chars)
  | entityRefinement (id : Chars)
deriving DecidableEq, Repr

/-- A part of an id and the dot after it. -/
def partDot (s : Chars) : Option (Chars × Chars) :=
  match parsePartialId s with
  | none => none
  | some x => (dropPrefix? ['.'] x.2).map (fun r => (x.1, r))

/-- The kinds of `parse_registry_lookup`, parser.rs:365-406. -/
def registryKind (name id : Chars) : Option Lookup :=
  if name = "attributes".toList then some (.attribute id)
  else if name = "attribute_groups".toList then some (.attributeGroup id)
  else if name = "spans".toList then some (.span id)
  else if name = "metrics".toList then some (.metric id)
  else if name = "events".toList then some (.event id)
  else if name = "entities".toList then some (.entity id)
  else none

/-- The kinds of `parse_refinement_lookup`, parser.rs:413-442. -/
def refinementKind (name id : Chars) : Option Lookup :=
  if name = "spans".toList then some (.spanRefinement id)
  else if name = "metrics".toList then some (.metricRefinement id)
  else if name = "events".toList then some (.eventRefinement id)
  else if name = "entities".toList then some (.entityRefinement id)
  else none

/-- parser.rs:361-364, 409-412: what the two have in common. -/
def kindLookup (kind : Chars → Chars → Option Lookup) (s : Chars) : Option (Lookup × Chars) :=
  match partDot s with
  | none => none
  | some x =>
    match parseId x.2 with
    | none => none
    | some y => (kind x.1 y.1).map (fun l => (l, y.2))

/-- parser.rs:302-309, 346-359 `parse_id_lookup_v2`. -/
def idLookup (s : Chars) : Option Lookup :=
  match partDot s with
  | none => none
  | some x =>
    match (if x.1 = "registry".toList then kindLookup registryKind x.2
      else if x.1 = "refinements".toList then kindLookup refinementKind x.2 else none) with
    | none => none
    | some y => if trim y.2 = [] then some y.1 else none

/-! ### Rewriting -/

/-- lib.rs:103-106 `SnippetType`. -/
inductive SnippetType
  | semconv
  | weaver
deriving DecidableEq, Repr

/-- The two generators of a `MarkdownSnippetGenerator` (lib.rs:195-202), with the base URL fixed. -/
structure Gen (ε : Type) where
  semconv : Args → Except ε Chars
  weaver : WArgs → Except ε Chars

/-- The variables of the loop, lib.rs:150-151. -/
structure St where
  result : Chars := []
  ctx : Option SnippetType := none

/-- lib.rs:152-189: one line. -/
def step {ε : Type} (g : Gen ε) (st : St) (line : Chars) : Except ε St :=
  match st.ctx with
  | some .semconv =>
    if semconvTrailer line then .ok ⟨st.result ++ line ++ ['\n'], none⟩ else .ok st
  | some .weaver =>
    if weaverTrailer line then .ok ⟨st.result ++ line ++ ['\n'], none⟩ else .ok st
  | none =>
    match semconvHeader line with
    | some a =>
      match g.semconv a with
      | .ok s => .ok ⟨st.result ++ line ++ ['\n'] ++ s, some .semconv⟩
      | .error e => .error e
    | none =>
      match weaverHeader line with
      | some a =>
        match g.weaver a with
        | .ok s => .ok ⟨st.result ++ line ++ ['\n'] ++ s, some .weaver⟩
        | .error e => .error e
      | none => .ok ⟨st.result ++ line ++ ['\n'], none⟩

/-- The loop. -/
def loop {ε : Type} (g : Gen ε) : St → List Chars → Except ε St
  | st, [] => .ok st
  | st, l :: ls =>
    match step g st l with
    | .ok st' => loop g st' ls
    | .error e => .error e

/-- lib.rs:145-191 `update_markdown_contents`. -/
def updateContents {ε : Type} (g : Gen ε) (contents : Chars) : Except ε Chars :=
  match loop g {} (lines contents) with
  | .ok st => .ok st.result
  | .error e => .error e

/-- The errors of `update_markdown`. -/
inductive UpdateError (ε : Type)
  | unreadable
  | generator (e : ε)
  | notEqual (original updated : Chars)

/-- lib.rs:116-138 `update_markdown`: the file (none: it cannot be read as UTF-8 text) after the call, and the result.
Errors of the write are not modelled. -/
def updateMarkdown {ε : Type} (g : Gen ε) (dryRun : Bool) (file : Option Chars) :
    Option Chars × Except (UpdateError ε) Unit :=
  match file with
  | none => (none, .error .unreadable)
  | some f =>
    match updateContents g (replaceCRLF f) with
    | .error e => (file, .error (.generator e))
    | .ok updated =>
      if dryRun = false then (some updated, .ok ())
      else if replaceCRLF f ≠ updated then (file, .error (.notEqual (replaceCRLF f) updated))
      else (file, .ok ())

/-- src/registry/update_markdown.rs:180-205: the loop over the markdown files, and whether it ends without error. -/
def updateAll {ε : Type} (g : Gen ε) (dryRun : Bool) : List (Option Chars) → List (Option Chars) × Bool
  | [] => ([], true)
  | f :: fs =>
    ((updateMarkdown g dryRun f).1 :: (updateAll g dryRun fs).1,
      (match (updateMarkdown g dryRun f).2 with | .ok _ => true | .error _ => false) && (updateAll g dryRun fs).2)

end Verif.Markdown
