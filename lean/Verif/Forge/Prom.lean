import Verif.Util.Str
import Verif.Util.Multi
/-
Prometheus names: crates/weaver_forge/src/extensions/prom.rs. `alnum` is `char::is_alphanumeric`, on all of Unicode.
-/
namespace Verif.Forge
open Verif.Util

/-- prom.rs:12-17 `TranslationStrategy`. -/
inductive Strategy where
  | noTranslation
  | escapedWithoutSuffixes
  | utf8WithSuffixes
  | escapedWithSuffixes
  deriving DecidableEq

/-- prom.rs:159-201 `get_prom_units`. -/
def promUnits : List (String × String) :=
  [("d", "days"), ("h", "hours"), ("min", "minutes"), ("s", "seconds"), ("ms", "milliseconds"), ("us", "microseconds"),
   ("ns", "nanoseconds"),
   ("By", "bytes"), ("KiBy", "kibibytes"), ("MiBy", "mebibytes"), ("GiBy", "gibibytes"), ("TiBy", "tibibytes"),
   ("KBy", "kilobytes"), ("MBy", "megabytes"), ("GBy", "gigabytes"), ("TBy", "terabytes"), ("B", "bytes"),
   ("KB", "kilobytes"), ("MB", "megabytes"), ("GB", "gigabytes"), ("TB", "terabytes"),
   ("m", "meters"), ("V", "volts"), ("A", "amperes"), ("J", "joules"), ("W", "watts"), ("g", "grams"),
   ("Cel", "celsius"), ("Hz", "hertz"), ("1", "ratio"), ("%", "percent")]

/-- prom.rs:203-214 `get_prom_per_unit`. -/
def promPerUnits : List (String × String) :=
  [("s", "second"), ("m", "minute"), ("h", "hour"), ("d", "day"), ("w", "week"), ("mo", "month"), ("y", "year")]

/-- prom.rs:10. -/
def nonApplicable : List String := ["1", "d", "h", "min", "s", "ms", "us", "ns"]

/-- The `match` of the two tables. -/
def unitIn (t : List (String × String)) (u : Chars) : Option Chars := (t.lookup (String.ofList u)).map String.toList

/-- prom.rs:121-157 `get_unit_suffixes`. -/
def unitSuffix (unit : Chars) : Option Chars :=
  if unit = [] then none
  else match unitIn promUnits unit with
    | some m => some m
    | none => match splitFirst ['/'] unit with
      | some (first, second) =>
        match decide (String.ofList first ∈ nonApplicable), unitIn promUnits first, unitIn promPerUnits second with
        | true, _, some p => some ("per_".toList ++ p)
        | false, none, some p => some ("per_".toList ++ p)
        | false, some f, some p => some (f ++ "_per_".toList ++ p)
        | _, _, _ => none
      | none => none

/-- prom.rs:105-119 `get_suffixes`. -/
def suffixes (unit : Chars) (instrument : String) : List Chars :=
  (match unitSuffix unit with | some s => [s] | none => []) ++ (if instrument = "counter" then ["total".toList] else [])

/-- prom.rs:99-103 `with_suffixes`. -/
def withSuffixes (name unit : Chars) (instrument : String) : Chars :=
  (suffixes unit instrument).foldl (fun acc s => acc ++ '_' :: s) name

/-- prom.rs:239-243: a character of the rest. -/
def escChar (c : Char) : Char := if c.isAlphanum ∨ c = '_' ∨ c = ':' then c else '_'

/-- prom.rs:222-245 after the first character: up to the first invalid character the text is kept. -/
def keepValid (alnum : Char → Bool) : Chars → Chars
  | [] => []
  | c :: r => if !alnum c && c != '_' && c != ':' then (c :: r).map escChar else c :: keepValid alnum r

/-- prom.rs:217-250 `sanitize_name`. -/
def sanitize (alnum : Char → Bool) (s : Chars) : Chars :=
  match s with
  | [] => []
  | c :: r => if c.isDigit then '_' :: (c :: r).map escChar else keepValid alnum (c :: r)

/-- prom.rs:82-97 `get_name`. -/
def promName (alnum : Char → Bool) (st : Strategy) (name unit : Chars) (instrument : String) : Chars :=
  match st with
  | .noTranslation => name
  | .escapedWithoutSuffixes => sanitize alnum name
  | .utf8WithSuffixes => withSuffixes name unit instrument
  | .escapedWithSuffixes => withSuffixes (sanitize alnum name) unit instrument

/-- prom.rs:29-51. -/
def variants (alnum : Char → Bool) (st : Option Strategy) (name unit : Chars) (instrument : String) : List Chars :=
  match st with
  | none => [name, sanitize alnum name, withSuffixes name unit instrument, withSuffixes (sanitize alnum name) unit instrument]
  | some .noTranslation => [name]
  | some .escapedWithoutSuffixes => [sanitize alnum name]
  | some .utf8WithSuffixes => [withSuffixes name unit instrument]
  | some .escapedWithSuffixes => [withSuffixes (sanitize alnum name) unit instrument]

/-- prom.rs:57-78: the names of the series of one metric. -/
def expandName (expand : Bool) (instrument : String) (n : Chars) : List Chars :=
  if expand then
    if instrument = "histogram" then [n, n ++ "_bucket".toList, n ++ "_count".toList, n ++ "_sum".toList]
    else if instrument = "summary" then [n, n ++ "_count".toList, n ++ "_sum".toList]
    else [n]
  else [n]

/-- prom.rs:19-80 `get_names`. -/
def promNames (alnum : Char → Bool) (st : Option Strategy) (expand : Bool) (name unit : Chars) (instrument : String) : List Chars :=
  (uniq (variants alnum st name unit instrument)).flatMap (expandName expand instrument)

end Verif.Forge
