import Verif.Render.Md
import Verif.Render.WrapProps
/-
What a comment rendered as Markdown is to show (C204–C206).
-/
namespace Verif.Render.Md
open Verif.Util (Chars)
open Verif.Markdown (isWhite)

mutual

/-- The Markdown of a tree, without any layout. Blocks and items are followed by a line break. The items of a numbered list have
consecutive numbers. A hard break is a line break, and what is not rendered should have been. -/
def shown (op : Opts) : Node → Chars
  | .root cs => showns op cs
  | .text t => escape op t
  | .paragraph cs => showns op cs ++ ['\n']
  | .list ordered st is => shownItems op ordered st is
  | .item cs => shownItem op cs
  | .html t => t
  | .inlineCode t => "`".toList ++ t ++ "`".toList
  | .code lang t => "```".toList ++ (lang.or op.defaultLang).getD [] ++ "\n".toList ++ t ++ "\n```\n".toList
  | .blockquote cs => "> ".toList ++ shownItem op cs ++ "\n".toList
  | .link url cs => "[".toList ++ showns op cs ++ "]".toList ++
      (if op.shortcut && !url.isEmpty then [] else "(".toList ++ url ++ ")".toList)
  | .strong cs => "**".toList ++ showns op cs ++ "**".toList
  | .emphasis cs => "*".toList ++ showns op cs ++ "*".toList
  | .delete cs => "~~".toList ++ showns op cs ++ "~~".toList
  | .heading d cs => List.replicate d '#' ++ " ".toList ++ showns op cs ++ "\n".toList
  | .hardBreak => "\n".toList
  | .other t => t

def showns (op : Opts) : List Node → Chars
  | [] => []
  | c :: cs => shown op c ++ showns op cs

/-- The items of a list; the first has the number `no`. -/
def shownItems (op : Opts) (ordered : Bool) : Nat → List Node → Chars
  | _, [] => []
  | no, c :: cs => (if ordered then (Nat.repr no).toList ++ ". ".toList else "- ".toList) ++ shown op c ++ "\n".toList ++
      shownItems op ordered (no + 1) cs

/-- The children of an item; a paragraph is separated from what follows. -/
def shownItem (op : Opts) : List Node → Chars
  | [] => []
  | .paragraph ps :: cs => showns op ps ++ (if cs.isEmpty then [] else "\n".toList) ++ shownItem op cs
  | c :: cs => shown op c ++ shownItem op cs

end

mutual

/-- The links of a tree with a URL, if there are shortcut references: labels and URLs. -/
def refs (op : Opts) : Node → List (Chars × Chars)
  | .root cs => refss op cs
  | .paragraph cs => refss op cs
  | .list _ _ is => refss op is
  | .item cs => refss op cs
  | .blockquote cs => refss op cs
  | .link url cs => refss op cs ++ (if op.shortcut && !url.isEmpty then [(showns op cs, url)] else [])
  | .strong cs => refss op cs
  | .emphasis cs => refss op cs
  | .delete cs => refss op cs
  | .heading _ cs => refss op cs
  | _ => []

def refss (op : Opts) : List Node → List (Chars × Chars)
  | [] => []
  | c :: cs => refs op c ++ refss op cs

end

/-- The tree, and then the definitions of the references, each on its line. -/
def shownDoc (op : Opts) (n : Node) : Chars :=
  shown op n ++ (refs op n).flatMap (fun r => "\n[".toList ++ r.1 ++ "]: ".toList ++ r.2)

mutual

/-- The nodes that make up a line. If words are wrapped, texts can be (`Wrappable`), and labels of shortcut references have
no emphasis in them. -/
def Inl (op : Opts) : Node → Prop
  | .text t => Wrappable op.cfg (escape op t)
  | .html _ => True
  | .inlineCode _ => True
  | .link url cs => Inls op cs ∧ (op.cfg.limit ≠ none → (op.shortcut && !url.isEmpty) = true → Leaves cs)
  | .strong cs => Inls op cs
  | .emphasis cs => Inls op cs
  | .delete cs => Inls op cs
  | _ => False

def Inls (op : Opts) : List Node → Prop
  | [] => True
  | c :: cs => Inl op c ∧ Inls op cs

/-- Texts, HTML and code. -/
def Leaves : List Node → Prop
  | [] => True
  | .text _ :: cs => Leaves cs
  | .html _ :: cs => Leaves cs
  | .inlineCode _ :: cs => Leaves cs
  | _ :: _ => False

end

/-- Where a node is: in no list, in a list with bullets, or in a numbered list. -/
inductive Mode where
  | top
  | bullets
  | numbers
deriving DecidableEq

/-- A list comes first. -/
def startsList : List Node → Prop
  | .list _ _ _ :: _ => True
  | _ => False

/-- In an item, only lists come after a paragraph. -/
def Apart : List Node → Prop
  | [] => True
  | .paragraph _ :: cs => (cs = [] ∨ startsList cs) ∧ Apart cs
  | _ :: cs => Apart cs

mutual

/-- The trees that are rendered in full: without quotes, hard breaks, HTML between paragraphs and what is not supported.
Numbered lists start with one, are not in lists and have no lists in them. -/
def Ok (op : Opts) : Mode → Node → Prop
  | m, .root cs => Oks op m cs
  | _, .paragraph cs => Inls op cs
  | m, .list ordered st is => m ≠ .numbers ∧ (ordered = true → m = .top ∧ st = 1) ∧
      Oks op (if ordered then .numbers else .bullets) is
  | m, .item cs => Apart cs ∧ Oks op m cs
  | _, .code _ _ => True
  | _, .heading _ cs => Inls op cs
  | _, _ => False

def Oks (op : Opts) : Mode → List Node → Prop
  | _, [] => True
  | m, c :: cs => Ok op m c ∧ Oks op m cs

end

end Verif.Render.Md
