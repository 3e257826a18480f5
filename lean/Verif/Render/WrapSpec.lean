import Verif.Render.Wrap
/-
What it means that rendering keeps a text: white space may be changed into other white space, and be put in, but not left out,
and nothing else is changed.
-/
namespace Verif.Render
open Verif.Util (Chars)
open Verif.Markdown (isWhite)

/-- The characters of a text that are not white space, each with whether white space comes before it. `b`: whether white space
comes before the text. -/
def marks : Bool → Chars → List (Char × Bool)
  | _, [] => []
  | b, c :: cs => if isWhite c then marks true cs else (c, b) :: marks false cs

/-- The same characters in the same order, with white space wherever there was some. `extra`: there may be other characters in
between. -/
inductive Keeps (extra : Bool) : List (Char × Bool) → List (Char × Bool) → Prop
  | nil : Keeps extra [] []
  | same (c : Char) {b b' : Bool} {l l' : List (Char × Bool)} (h : b = true → b' = true) (t : Keeps extra l l') :
      Keeps extra ((c, b) :: l) ((c, b') :: l')
  | other (x : Char × Bool) {l l' : List (Char × Bool)} (h : extra = true) (t : Keeps extra l l') : Keeps extra l (x :: l')

/-- `out` has the text `s`, with white space wherever there is some in `s`. -/
def KeepsText (extra : Bool) (s out : Chars) : Prop := Keeps extra (marks false s) (marks false out)

end Verif.Render
