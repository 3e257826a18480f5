import Verif.Util.Str
/-
The case conversions of templates: crates/weaver_forge/src/config.rs:84-112, 396-472, crates/weaver_forge/src/extensions/case.rs,
crates/weaver_forge/src/extensions/otel.rs:185-219.

Words are found and written by the library convert_case 0.11, which is modelled from its documentation: `Boundary`,
`Pattern`, `Converter::convert`. Only ASCII letters have a case here; the library works on grapheme clusters and with
the case of Unicode.
-/
namespace Verif.Case
open Verif.Util

/-- The boundaries of convert_case that are there by default. -/
inductive Boundary where
  | underscore | hyphen | space | lowerUpper | acronym | lowerDigit | upperDigit | digitLower | digitUpper
deriving DecidableEq, Repr

/-- `Boundary::defaults`. -/
def Boundary.defaults : List Boundary :=
  [.underscore, .hyphen, .space, .lowerUpper, .acronym, .lowerDigit, .upperDigit, .digitLower, .digitUpper]

/-- Whether a boundary is at the front of a text: `some true` if the first character is the boundary (it is dropped),
`some false` if the boundary is behind the first character. -/
def Boundary.front : Boundary → Chars → Option Bool
  | .underscore, c :: _ => if c = '_' then some true else none
  | .hyphen, c :: _ => if c = '-' then some true else none
  | .space, c :: _ => if c = ' ' then some true else none
  | .lowerUpper, a :: b :: _ => if a.isLower && b.isUpper then some false else none
  | .acronym, a :: b :: c :: _ => if a.isUpper && b.isUpper && c.isLower then some false else none
  | .lowerDigit, a :: b :: _ => if a.isLower && b.isDigit then some false else none
  | .upperDigit, a :: b :: _ => if a.isUpper && b.isDigit then some false else none
  | .digitLower, a :: b :: _ => if a.isDigit && b.isLower then some false else none
  | .digitUpper, a :: b :: _ => if a.isDigit && b.isUpper then some false else none
  | _, _ => none

/-- The loop of the splitting of the library: `cur` is the text since the last boundary. -/
def splitGo (bs : List Boundary) : Chars → Chars → List Chars
  | cur, [] => [cur]
  | cur, c :: r =>
    match bs.findSome? (·.front (c :: r)) with
    | some true => cur :: splitGo bs [] r
    | some false => (cur ++ [c]) :: splitGo bs [] r
    | none => splitGo bs (cur ++ [c]) r

/-- Splitting into words: empty ones are dropped. -/
def split (bs : List Boundary) (s : Chars) : List Chars := (splitGo bs [] s).filter (· ≠ [])

/-- The patterns of convert_case the code uses. -/
inductive Pattern where
  | lowercase | uppercase | capital | camel
deriving DecidableEq, Repr

def lower (w : Chars) : Chars := w.map Char.toLower
def upper (w : Chars) : Chars := w.map Char.toUpper
/-- The first letter in upper case, the others in lower case. -/
def cap : Chars → Chars
  | [] => []
  | c :: r => c.toUpper :: lower r

/-- `Pattern::mutate`. -/
def Pattern.mutate : Pattern → List Chars → List Chars
  | .lowercase, ws => ws.map lower
  | .uppercase, ws => ws.map upper
  | .capital, ws => ws.map cap
  | .camel, [] => []
  | .camel, w :: ws => lower w :: ws.map cap

/-- `[String]::join`. -/
def join (d : Chars) : List Chars → Chars
  | [] => []
  | [w] => w
  | w :: v :: ws => w ++ d ++ join d (v :: ws)

/-- `convert_case::Converter`. -/
structure Converter where
  boundaries : List Boundary
  pattern : Pattern
  delim : Chars

def Converter.remove (k : Converter) (b : Boundary) : Converter :=
  { k with boundaries := k.boundaries.filter (· ≠ b) }

def Converter.add (k : Converter) (b : Boundary) : Converter :=
  { k with boundaries := if b ∈ k.boundaries then k.boundaries else k.boundaries ++ [b] }

def Converter.run (k : Converter) (s : Chars) : Chars := join k.delim (k.pattern.mutate (split k.boundaries s))

/-- config.rs:412-422 `new_converter`. -/
def newConverter (p : Pattern) (delim : Chars) : Converter :=
  { (((Converter.mk Boundary.defaults .lowercase []).remove .digitLower).remove .digitUpper |>.remove .upperDigit
      |>.remove .lowerDigit) with pattern := p, delim := delim }

/-- config.rs:84-112 `CaseConvention`. -/
inductive Convention where
  | lowerCase | upperCase | titleCase | pascalCase | camelCase | snakeCase | screamingSnakeCase | kebabCase
  | screamingKebabCase
deriving DecidableEq, Repr

/-- config.rs:425-470: the converters. -/
def Convention.converter : Convention → Converter
  | .lowerCase => (newConverter .lowercase [' ']).add .space
  | .upperCase => (newConverter .uppercase [' ']).add .space
  | .titleCase => (newConverter .capital [' ']).add .space
  | .pascalCase => (newConverter .capital []).add .lowerUpper
  | .camelCase => (newConverter .camel []).add .lowerUpper
  | .snakeCase => (newConverter .lowercase ['_']).add .underscore
  | .screamingSnakeCase => (newConverter .uppercase ['_']).add .underscore
  | .kebabCase => (newConverter .lowercase ['-']).add .hyphen
  | .screamingKebabCase => (newConverter .uppercase ['-']).add .hyphen

/-- `str::replace('.', "_")`. -/
def undot (s : Chars) : Chars := s.map fun c => if c = '.' then '_' else c

/-- config.rs:397-472 `CaseConvention::convert`; case.rs:32-89 are its instances. -/
def convert (k : Convention) (s : Chars) : Chars := k.converter.run (undot s)

/-- case.rs:92-105 `capitalize_first`. -/
def capitalizeFirst : Chars → Chars
  | [] => []
  | c :: r => c.toUpper :: r

/-- otel.rs:188-219 `*_case_const`. -/
def convertConst (k : Convention) (s : Chars) : Chars := convert k (s.filter (· ≠ '_'))

end Verif.Case
