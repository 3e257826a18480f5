import Verif.Render.Wrap
/-
Rendering Markdown as HTML: crates/weaver_forge/src/formats/html.rs. The Markdown parser is not modelled: what is rendered is
its tree.
-/
namespace Verif.Render
open Verif.Util (Chars)

/-- `markdown::mdast::Node`. `hardBreak` is `Break`; `other` stands for all the nodes that are not rendered, with the text
they show (html.rs:387-407, markdown.rs:511-531). The `start` of a list is the number of its first item. -/
inductive Node where
  | root (cs : List Node)
  | text (s : Chars)
  | paragraph (cs : List Node)
  | list (ordered : Bool) (start : Nat) (items : List Node)
  | item (cs : List Node)
  | html (s : Chars)
  | inlineCode (s : Chars)
  | code (lang : Option Chars) (s : Chars)
  | blockquote (cs : List Node)
  | link (url : Chars) (cs : List Node)
  | strong (cs : List Node)
  | emphasis (cs : List Node)
  | delete (cs : List Node)
  | heading (depth : Nat) (cs : List Node)
  | hardBreak
  | other (shown : Chars)

namespace Html

/-- html.rs:14-32 `HtmlRenderOptions` with the word wrapping. `inline` and `block` render code with the snippets
(html.rs:198-245); `none` if that fails. -/
structure Opts where
  cfg : WrapCfg := {}
  oldStyle : Bool := false
  omitLi : Bool := false
  inline : Chars → Option Chars := fun s => some ("<c>".toList ++ s ++ "</c>".toList)
  block : Chars → Option Chars := fun s => some ("<pre>\n".toList ++ s ++ "\n</pre>".toList)

/-- html.rs:65-80 `RenderContext`. -/
structure St where
  o : Out := {}
  newline : Bool := false
  oldP : Bool := false
deriving DecidableEq

/-- html.rs:92-94 `push_unbroken`. -/
def St.piece (op : Opts) (t indent : Chars) (s : St) : St := { s with o := s.o.unbroken op.cfg t indent }

/-- html.rs:101-103 `pushln`. -/
def St.ln (indent : Chars) (s : St) : St := { s with o := s.o.ln indent }

/-- html.rs:264-265: the first child is a text that starts with `@`. -/
def startsWithAt : List Node → Bool
  | .text ('@' :: _) :: _ => true
  | _ => false

/-- html.rs:257-275: what the nodes before have left to do. -/
def enter (op : Opts) (indent : Chars) (n : Node) (s : St) : St :=
  let s := if s.newline then { s.ln indent with newline := false } else s
  if s.oldP then
    let s := match n with
      | .paragraph cs => { s with o := s.o.unbrokenLn op.cfg (if startsWithAt cs then [] else "<p>".toList) indent }
      | _ => s
    { s with oldP := false }
  else s

def openTag (name : Chars) : Chars := '<' :: (name ++ ['>'])
def closeTag (name : Chars) : Chars := '<' :: '/' :: (name ++ ['>'])

/-- The decimal digits of the depth of a heading. -/
def depthName (d : Nat) : Chars := 'h' :: (Nat.repr d).toList

mutual

/-- html.rs:248-410 `write_html_to`. -/
def node (op : Opts) (indent : Chars) : Node → St → Option St
  | .root cs, s => nodes op indent cs (enter op indent (.root cs) s)
  | .text t, s =>
    let s := enter op indent (.text t) s
    some { s with o := s.o.words op.cfg t indent }
  | .paragraph cs, s =>
    let s := enter op indent (.paragraph cs) s
    let s := if op.oldStyle then s else s.piece op (openTag ['p']) indent
    match nodes op indent cs s with
    | none => none
    | some s =>
      let s := if op.oldStyle then { s with oldP := true } else s.piece op (closeTag ['p']) indent
      some { s with newline := true }
  | .list ordered st is, s =>
    let s := enter op indent (.list ordered st is) s
    let tag := if ordered then ['o', 'l'] else ['u', 'l']
    match items op indent is (s.piece op (openTag tag) indent) with
    | none => none
    | some s =>
      let s := (s.ln indent).piece op (closeTag tag) indent
      some { s with newline := true, oldP := op.oldStyle || s.oldP }
  | .item cs, s => itemChildren op indent cs (enter op indent (.item cs) s)
  | .html t, s =>
    let s := enter op indent (.html t) s
    some { s with o := { s.o with text := s.o.text ++ t } }
  | .inlineCode t, s =>
    let s := enter op indent (.inlineCode t) s
    (op.inline t).map (fun r => s.piece op r indent)
  | .code lang t, s =>
    let s := enter op indent (.code lang t) s
    (op.block t).map (fun r => s.piece op r indent)
  | .blockquote cs, s =>
    let s := enter op indent (.blockquote cs) s
    match nodes op indent cs ((s.piece op (openTag "blockquote".toList) indent).ln indent) with
    | none => none
    | some s => some { s.piece op (closeTag "blockquote".toList) indent with newline := true }
  | .link url cs, s =>
    let s := enter op indent (.link url cs) s
    match nodes op indent cs (s.piece op ("<a href=\"".toList ++ url ++ "\">".toList) indent) with
    | none => none
    | some s => some (s.piece op (closeTag ['a']) indent)
  | .strong cs, s =>
    let s := enter op indent (.strong cs) s
    match nodes op indent cs (s.piece op (openTag "strong".toList) indent) with
    | none => none
    | some s => some (s.piece op (closeTag "strong".toList) indent)
  | .emphasis cs, s =>
    let s := enter op indent (.emphasis cs) s
    match nodes op indent cs (s.piece op (openTag "em".toList) indent) with
    | none => none
    | some s => some (s.piece op (closeTag "em".toList) indent)
  | .delete cs, s =>
    let s := enter op indent (.delete cs) s
    match nodes op indent cs (s.piece op (openTag ['s']) indent) with
    | none => none
    | some s => some (s.piece op (closeTag ['s']) indent)
  | .heading d cs, s =>
    let s := enter op indent (.heading d cs) s
    match nodes op indent cs (s.piece op (openTag (depthName d)) indent) with
    | none => none
    | some s => some (s.piece op (closeTag (depthName d) ++ ['\n']) indent)
  | .hardBreak, s => some (enter op indent .hardBreak s)
  | .other t, s => some (enter op indent (.other t) s)

/-- The loop over children. -/
def nodes (op : Opts) (indent : Chars) : List Node → St → Option St
  | [], s => some s
  | c :: cs, s => match node op indent c s with
    | none => none
    | some s => nodes op indent cs s

/-- html.rs:303-310: the items of a list. -/
def items (op : Opts) (indent : Chars) : List Node → St → Option St
  | [], s => some s
  | c :: cs, s =>
    let s := (s.ln (indent ++ [' ', ' '])).piece op (openTag ['l', 'i']) (indent ++ [' ', ' '])
    match node op (indent ++ [' ', ' ']) c s with
    | none => none
    | some s => items op indent cs (if op.omitLi then s else s.piece op (closeTag ['l', 'i']) indent)

/-- html.rs:318-331: the children of an item; those of paragraphs directly. -/
def itemChildren (op : Opts) (indent : Chars) : List Node → St → Option St
  | [], s => some s
  | .paragraph ps :: cs, s => match nodes op indent ps s with
    | none => none
    | some s => itemChildren op indent cs s
  | c :: cs, s => match node op indent c s with
    | none => none
    | some s => itemChildren op indent cs s

end

/-- html.rs:150-190 `render`, after parsing. -/
def render (op : Opts) (n : Node) : Option Chars := (node op [] n {}).map (·.o.text)

end Html
end Verif.Render
