import Verif.Render.MdSpec
import Verif.Render.HtmlProps
/-
C204–C206: what a comment rendered as Markdown does not keep.
-/
namespace Verif.Render.Md
open Verif.Util (Chars)

/-- C204, the claim for some trees: what is rendered has the text that is to be shown. -/
def MdKeepsText (op : Opts) (P : Node → Prop) : Prop := ∀ n, P n → KeepsText false (shownDoc op n) (render op n)

/-- C204: false for what is not supported: it is left out. -/
theorem unsupported_refuted : ¬ MdKeepsText {} (fun n => n = Html.para [.text "see ".toList, .other "RFC".toList]) := by
  intro h
  exact Html.not_keeps (by decide +kernel) (h _ rfl)

/-- C204: false for hard breaks: the words before and after are put together. -/
theorem hard_break_refuted : ¬ MdKeepsText {} (fun n => n = Html.para [.text "one".toList, .hardBreak, .text "two".toList]) := by
  intro h
  exact Html.not_keeps_white 3 't' 't' (by decide +kernel) (by decide +kernel) (h _ rfl)

/-- C204: false for quotes: their marker is written again before every text, in the middle of lines. -/
theorem quote_refuted : ¬ MdKeepsText {} (fun n => n = .root [.blockquote [.paragraph [.text "a ".toList, .strong [.text "b".toList]]]]) := by
  intro h
  exact Html.not_keeps (by decide +kernel) (h _ rfl)

/-- C204: false for an item with two paragraphs: the last word of one and the first word of the other are put together. -/
theorem item_paragraphs_refuted : ¬ MdKeepsText {}
    (fun n => n = .root [.list false 1 [.item [.paragraph [.text "one".toList], .paragraph [.text "two".toList]]]]) := by
  intro h
  exact Html.not_keeps_white 4 't' 't' (by decide +kernel) (by decide +kernel) (h _ rfl)

/-- C204: false for code after a paragraph in an item: it starts in the line of the paragraph. -/
theorem item_code_refuted : ¬ MdKeepsText {}
    (fun n => n = .root [.list false 1 [.item [.paragraph [.text "one".toList], .code none "x".toList]]]) := by
  intro h
  exact Html.not_keeps_white 4 '`' '`' (by decide +kernel) (by decide +kernel) (h _ rfl)

/-- C205: false for a list that does not start with one: it does then. -/
theorem start_refuted : ¬ MdKeepsText {} (fun n => n = .root [.list true 5 [.item [.paragraph [.text "five".toList]]]]) := by
  intro h
  exact Html.not_keeps (by decide +kernel) (h _ rfl)

/-- C205: false for numbered lists in numbered lists: the inner one goes on with the number of the outer one, and the outer one
starts again after it. -/
theorem nested_refuted : ¬ MdKeepsText {} (fun n => n = .root [.list true 1 [.item [.paragraph [.text "one".toList],
    .list true 1 [.item [.paragraph [.text "inner".toList]]]], .item [.paragraph [.text "two".toList]]]]) := by
  intro h
  exact Html.not_keeps (by decide +kernel) (h _ rfl)

/-- C205: false for numbered lists in lists with bullets. -/
theorem nested_bullets_refuted : ¬ MdKeepsText {} (fun n => n = .root [.list false 1 [.item [.paragraph [.text "one".toList],
    .list true 1 [.item [.paragraph [.text "inner".toList]]]]]]) := by
  intro h
  exact Html.not_keeps (by decide +kernel) (h _ rfl)

/-- C206: false for emphasis in a label if lines have a limit: the definition is for the label with a square bracket before it. -/
theorem label_refuted : ¬ MdKeepsText { shortcut := true, cfg := { limit := some 80 } }
    (fun n => n = Html.para [.link "u".toList [.text "a ".toList, .strong [.text "b".toList]]]) := by
  intro h
  exact Html.not_keeps (by decide +kernel) (h _ rfl)

end Verif.Render.Md
