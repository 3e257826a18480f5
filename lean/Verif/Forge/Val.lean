/-
Template values, as the filters and tests of weaver_forge see them.
-/
namespace Verif.Forge

/-- The values of the template engine (minijinja, not part of /repo). Doubles are uninterpreted bit patterns, integers
are unbounded; the keys of maps are strings, in the order of their iteration. -/
inductive Val where
  | undefined
  | none
  | bool (b : Bool)
  | int (i : Int)
  | float (bits : Nat)
  | str (s : String)
  | seq (l : List Val)
  | map (m : List (String × Val))

/-- `Value::is_undefined`. -/
def Val.isUndefined : Val → Bool
  | .undefined => true
  | _ => false

/-- `Value::as_str`. -/
def Val.asStr : Val → Option String
  | .str s => some s
  | _ => Option.none

/-- The value of a key in a list of entries. -/
def entry (k : String) : List (String × Val) → Option Val
  | [] => Option.none
  | (n, v) :: m => if n = k then some v else entry k m

/-- `Value::get_attr`: an error for undefined, the field of a map, and undefined otherwise. -/
def Val.getAttr (v : Val) (k : String) : Option Val :=
  match v with
  | .undefined => Option.none
  | .map m => some ((entry k m).getD .undefined)
  | _ => some .undefined

/-- `Value::try_iter`: the elements of a sequence, the keys of a map, the characters of a string, nothing for undefined
and none, and an error for numbers and booleans. -/
def Val.iter : Val → Option (List Val)
  | .undefined | .none => some []
  | .seq l => some l
  | .map m => some (m.map fun e => .str e.1)
  | .str s => some (s.toList.map fun c => .str (String.ofList [c]))
  | .bool _ | .int _ | .float _ => Option.none

end Verif.Forge
