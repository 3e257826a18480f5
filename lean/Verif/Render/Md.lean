import Verif.Render.Html
/-
Rendering Markdown as Markdown: crates/weaver_forge/src/formats/markdown.rs. The Markdown parser is not modelled: what is
rendered is its tree.
-/
namespace Verif.Render.Md
open Verif.Util (Chars)

/-- markdown.rs:15-40 `MarkdownRenderOptions` with the word wrapping. -/
structure Opts where
  cfg : WrapCfg := {}
  escBackslashes : Bool := false
  escBrackets : Bool := false
  indentFirst : Bool := false
  shortcut : Bool := false
  defaultLang : Option Chars := none
  goIndent : Bool := false

/-- markdown.rs:53-75 `RenderContext`. -/
structure St where
  o : Out := {}
  level : Nat := 0
  itemNo : Nat := 0
  links : List (Chars × Chars) := []
  leftover : Nat := 0
  pre : Chars := []
  skip : Bool := false
  buf : Option Chars := none
deriving DecidableEq

/-- markdown.rs:115-119 `add_blank_line`. -/
def St.blank (s : St) : St := { s with o := s.o.ln s.pre }

/-- markdown.rs:104-114 `add_cond_blank_line`. -/
def St.condBlank (s : St) : St := if ['\n', '\n'].isSuffixOf s.o.text || s.o.text.isEmpty then s else s.blank

/-- A number of blank lines (markdown.rs:315-317). -/
def St.blanks : Nat → St → St
  | 0, s => s
  | n + 1, s => St.blanks n s.blank

/-- markdown.rs:202-210 `add_unbreakable_text`. -/
def St.piece (op : Opts) (t : Chars) (s : St) : St :=
  match s.buf with
  | some b => { s with buf := some (b ++ t) }
  | none => { s with o := s.o.unbroken op.cfg t s.pre }

/-- markdown.rs:137-152 `start_unbreakable_block`. -/
def St.start (op : Opts) (t : Chars) (s : St) : St :=
  let s := match s.buf with
    | some b => { s with o := s.o.unbroken op.cfg b s.pre }
    | none => s
  if op.cfg.limit.isSome then { s with buf := some t } else { s with o := { s.o with text := s.o.text ++ t } }

/-- markdown.rs:153-161 `end_unbreakable_block`. -/
def St.finish (op : Opts) (t : Chars) (s : St) : St :=
  St.piece op (match s.buf with
    | some b => b ++ t
    | none => t) { s with buf := none }

/-- `str::split('\n')`. -/
def splitNl : Chars → List Chars
  | [] => [[]]
  | c :: cs => if c = '\n' then [] :: splitNl cs else match splitNl cs with
    | [] => [[c]]
    | l :: ls => (c :: l) :: ls

/-- markdown.rs:177-187: the lines of a text, wrapped. `first`: nothing comes before. -/
def St.wrapLines (op : Opts) : Bool → List Chars → St → St
  | _, [], s => s
  | first, l :: ls, s =>
    let s := if first then s else s.blank
    St.wrapLines op false ls { s with o := s.o.words op.cfg l s.pre }

/-- markdown.rs:189-200: the lines of a text as they are, with the prefix. -/
def rawLines (pre : Chars) (skip : Bool) : Bool → List Chars → Chars
  | _, [] => []
  | first, l :: ls => (if first then [] else ['\n']) ++ (if pre ≠ [] ∧ (skip = false ∨ first = false) then pre else []) ++ l ++
      rawLines pre skip false ls

/-- markdown.rs:162-201 `add_text`. -/
def St.addText (op : Opts) (t : Chars) (s : St) : St :=
  match s.buf with
  | some b => { s with buf := some (b ++ t) }
  | none =>
    if op.cfg.limit.isSome then
      let s := if s.pre ≠ [] ∧ s.skip = false then s.piece op s.pre else s
      if op.cfg.ignoreNewlines then { s with o := s.o.words op.cfg t s.pre }
      else St.wrapLines op true (splitNl t) s
    else { s with o := { s.o with text := s.o.text ++ rawLines s.pre s.skip true (splitNl t) } }

/-- markdown.rs:327-347 `escape_unescaped_chars` for square brackets. `n`: the backslashes before. -/
def escapeFrom : Nat → Chars → Chars
  | _, [] => []
  | n, c :: cs =>
    if c = '\\' then c :: escapeFrom (n + 1) cs
    else (if (c = '[' ∨ c = ']') ∧ n % 2 = 0 then ['\\'] else []) ++ c :: escapeFrom 0 cs

/-- `str::replace('\\', "\\\\")`. -/
def doubled : Chars → Chars
  | [] => []
  | c :: cs => if c = '\\' then '\\' :: '\\' :: doubled cs else c :: doubled cs

/-- markdown.rs:349-356. -/
def escape (op : Opts) (t : Chars) : Chars :=
  let t := if op.escBackslashes then doubled t else t
  if op.escBrackets then escapeFrom 0 t else t

/-- markdown.rs:310-319: the newlines left by the node before. -/
def enter (n : Node) (s : St) : St :=
  let k := s.leftover
  let s := { s with leftover := 0 }
  match n with
  | .list _ _ _ => s
  | _ => s.blanks k

/-- markdown.rs:367-373: the indentation of a list. -/
def listIndent (op : Opts) (level : Nat) (ordered : Bool) (indent : Chars) : Chars :=
  if op.indentFirst = false ∧ level = 1 then indent
  else if op.goIndent ∧ ordered then indent ++ [' ']
  else indent ++ [' ', ' ']

/-- markdown.rs:383-387: what comes before an item. -/
def itemLabel (ordered : Bool) (no : Nat) (indent : Chars) : Chars :=
  if ordered then indent ++ (Nat.repr no).toList ++ ['.', ' '] else indent ++ ['-', ' ']

mutual

/-- markdown.rs:303-533 `write_markdown_to`. In a link, `buf[1..]` (markdown.rs:459) does not panic: the buffer is as it was
after the opening bracket, or longer. -/
def node (op : Opts) (indent : Chars) : Node → St → St
  | .root cs, s => nodes op indent cs (enter (.root cs) s)
  | .text t, s => (enter (.text t) s).addText op (escape op t)
  | .paragraph cs, s => (nodes op indent cs (enter (.paragraph cs) s).condBlank).blank
  | .list ordered st is, s =>
    let s := enter (.list ordered st is) s
    let s := { s with level := s.level + 1 }
    let ind := listIndent op s.level ordered indent
    let s := items op ind ordered is s.blank
    { s with level := s.level - 1, itemNo := 0, pre := [], skip := false, leftover := s.leftover + 1 }
  | .item cs, s => itemChildren op indent cs (enter (.item cs) s)
  | .html t, s => (enter (.html t) s).piece op t
  | .inlineCode t, s => (enter (.inlineCode t) s).piece op ('`' :: (t ++ ['`']))
  | .code lang t, s =>
    let l := (lang.or op.defaultLang).getD []
    ((enter (.code lang t) s).piece op ("```".toList ++ l ++ ['\n'] ++ t ++ "\n```".toList)).blank
  | .blockquote cs, s =>
    let s := itemChildren op indent cs { (enter (.blockquote cs) s).condBlank with pre := "> ".toList }
    { s with pre := [], skip := false }.blank
  | .link url cs, s =>
    let s := (enter (.link url cs) s).start op ['[']
    let from_ := s.o.text.length
    let s := nodes op indent cs s
    let label := match s.buf with
      | some b => b.drop 1
      | none => s.o.text.drop from_
    let s := s.piece op [']']
    let s := if op.shortcut && !url.isEmpty then { s with links := s.links ++ [(label, url)] }
      else s.piece op ('(' :: (url ++ [')']))
    s.finish op []
  | .strong cs, s => (nodes op indent cs ((enter (.strong cs) s).start op "**".toList)).finish op "**".toList
  | .emphasis cs, s => (nodes op indent cs ((enter (.emphasis cs) s).start op "*".toList)).finish op "*".toList
  | .delete cs, s => (nodes op indent cs ((enter (.delete cs) s).start op "~~".toList)).finish op "~~".toList
  | .heading d cs, s =>
    let s := ((enter (.heading d cs) s).condBlank).start op (indent ++ List.replicate d '#' ++ [' '])
    let s := ((nodes op indent cs s).finish op []).blank
    { s with leftover := s.leftover + 1 }
  | .hardBreak, s => enter .hardBreak s
  | .other t, s => enter (.other t) s

/-- The loop over children. -/
def nodes (op : Opts) (indent : Chars) : List Node → St → St
  | [], s => s
  | c :: cs, s => nodes op indent cs (node op indent c s)

/-- markdown.rs:375-394: the items of a list. -/
def items (op : Opts) (indent : Chars) (ordered : Bool) : List Node → St → St
  | [], s => s
  | c :: cs, s =>
    let k := s.leftover
    let s := { s with leftover := 0 }
    let s := if 0 < k then St.blanks k { s with pre := [] } else s
    let s := { s with itemNo := s.itemNo + 1 }
    let label := itemLabel ordered s.itemNo indent
    let s := { s with skip := true, pre := List.replicate (len label) ' ' }
    let s := node op indent c (s.piece op label)
    items op indent ordered cs { s with leftover := s.leftover + 1 }

/-- markdown.rs:402-413 and 437-448: the children of an item or a quote; those of paragraphs directly. -/
def itemChildren (op : Opts) (indent : Chars) : List Node → St → St
  | [], s => s
  | .paragraph ps :: cs, s => itemChildren op indent cs (nodes op indent ps s)
  | c :: cs, s => itemChildren op indent cs (node op indent c s)

end

/-- markdown.rs:293-298: the definitions of the references. -/
def definitions : List (Chars × Chars) → Chars
  | [] => []
  | (label, url) :: ls => "\n[".toList ++ label ++ "]: ".toList ++ url ++ definitions ls

/-- markdown.rs:254-302 `render`, after parsing. -/
def render (op : Opts) (n : Node) : Chars :=
  let s := node op [] n {}
  if s.links.isEmpty then s.o.text else s.o.text ++ List.replicate s.leftover '\n' ++ definitions s.links

end Verif.Render.Md
