import Verif.Forge.Text
/-
Wrapping words in comments: crates/weaver_forge/src/formats/mod.rs.
-/
namespace Verif.Render
open Verif.Util (Chars)
open Verif.Forge (trimEnd)
open Verif.Markdown (isWhite)

/-- formats/mod.rs:16-26 `WordWrapConfig`. -/
structure WrapCfg where
  limit : Option Nat := none
  ignoreNewlines : Bool := false

/-- `str::len`: the bytes in UTF-8. -/
def len (s : Chars) : Nat := (s.map Char.utf8Size).sum

/-- formats/mod.rs:42-44 and, if newlines are not ignored, `' '` (`textwrap::WordSeparator::AsciiSpace`): what ends a word. -/
def isBreak (ign : Bool) (c : Char) : Bool := c = ' ' || (ign && (c = '\r' || c = '\n'))

/-- formats/mod.rs:46-71, and the function of the same shape in textwrap: the pieces of a line, each with the white space after
it. `acc`: the current piece, `line[start..idx]`. -/
def chunksFrom (p : Char → Bool) : Chars → Bool → Chars → List Chars
  | [], _, acc => if acc = [] then [] else [acc]
  | c :: cs, inWhite, acc => if inWhite && !p c then acc :: chunksFrom p cs (p c) [c] else chunksFrom p cs (p c) (acc ++ [c])

/-- `textwrap::core::Word::from` cuts spaces at the end; formats/mod.rs:57 and 66 cut all white space before. -/
def wordOf (ign : Bool) (chunk : Chars) : Chars :=
  if ign then trimEnd chunk else (chunk.reverse.dropWhile (fun c => decide (c = ' '))).reverse

/-- `WordSeparator::find_words` (formats/mod.rs:92-98). -/
def findWords (ign : Bool) (line : Chars) : List Chars := (chunksFrom (isBreak ign) line false []).map (wordOf ign)

/-- formats/mod.rs:73-90 `WordWrapContext`, with what has been written. -/
structure Out where
  text : Chars := []
  cur : Nat := 0
  space : Bool := false
deriving DecidableEq

/-- formats/mod.rs:111-134 `write_unbroken`. -/
def Out.unbroken (cfg : WrapCfg) (input indent : Chars) (o : Out) : Out :=
  if cfg.limit.any (fun max => decide (max < o.cur + len input)) then
    { text := o.text ++ '\n' :: (indent ++ input), cur := len indent + len input, space := false }
  else if o.space then { text := o.text ++ ' ' :: input, cur := o.cur + 1 + len input, space := false }
  else { text := o.text ++ input, cur := o.cur + len input, space := false }

/-- formats/mod.rs:135-140 `write_ln`. -/
def Out.ln (indent : Chars) (o : Out) : Out := { text := o.text ++ '\n' :: indent, cur := len indent, space := false }

/-- formats/mod.rs:155-183: one word. -/
def Out.word (max : Nat) (indent : Chars) (first : Bool) (w : Chars) (o : Out) : Out :=
  if max < o.cur + len w then
    let w := if first then w.dropWhile isWhite else w
    { text := o.text ++ '\n' :: (indent ++ w), cur := len indent + len w, space := false }
  else if o.space || !first then { text := o.text ++ ' ' :: w, cur := o.cur + 1 + len w, space := false }
  else { text := o.text ++ w, cur := o.cur + len w, space := false }

/-- formats/mod.rs:154-183: the loop over the words. -/
def Out.wordsFrom (max : Nat) (indent : Chars) : Bool → List Chars → Out → Out
  | _, [], o => o
  | first, w :: ws, o => Out.wordsFrom max indent false ws (o.word max indent first w)

/-- formats/mod.rs:141-190 `write_words`. -/
def Out.words (cfg : WrapCfg) (input indent : Chars) (o : Out) : Out :=
  match cfg.limit with
  | none => { o with text := o.text ++ input, cur := o.cur + len input }
  | some max =>
    { Out.wordsFrom max indent true (findWords cfg.ignoreNewlines input) o with
      space := decide (input.getLast? = some ' ') || (cfg.ignoreNewlines && decide (input.getLast? = some '\n')) }

/-- formats/mod.rs:192-201 `write_unbroken_ln`. -/
def Out.unbrokenLn (cfg : WrapCfg) (input indent : Chars) (o : Out) : Out := (o.unbroken cfg input indent).ln indent

end Verif.Render
