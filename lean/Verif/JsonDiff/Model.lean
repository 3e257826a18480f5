import Verif.Util.Sort
/-
Model of crates/weaver_diff/src/lib.rs:132-292: canonicalising and comparing JSON.
-/
namespace Verif.JsonDiff
open Verif.Util

/-- `serde_json::Number`, which is an unsigned or negative integer or a finite float: `f64` is the position of
`as_f64()` in the order of the finite floats, and `id` tells apart numbers that `as_f64` maps to the same value, like
`1` and `1.0` or two large integers. -/
structure Num where
  f64 : Int
  id : Nat
deriving DecidableEq, Repr

/-- `serde_json::Value`. The fields of an object are listed in the order of its `BTreeMap`: serde_json is built without
`preserve_order` (Cargo.lock lists no `indexmap` among its dependencies). -/
inductive Json where
  | null
  | bool (b : Bool)
  | num (n : Num)
  | str (s : String)
  | arr (l : List Json)
  | obj (fields : List (String × Json))

/-- `Ord::cmp` of strings: by bytes, which is the order of code points. -/
def cmpStr (a b : String) : Ordering := if a < b then .lt else if a = b then .eq else .gt

/-- `Ord::cmp` of numbers. -/
def cmpNat (a b : Nat) : Ordering := if a < b then .lt else if a = b then .eq else .gt

/-- lib.rs:197-200: `partial_cmp` of the float values, none of which is NaN. -/
def cmpNum (a b : Num) : Ordering := if a.f64 < b.f64 then .lt else if a.f64 = b.f64 then .eq else .gt

/-- `bool::cmp`. -/
def cmpBool : Bool → Bool → Ordering
  | false, true => .lt
  | true, false => .gt
  | _, _ => .eq

mutual
/-- lib.rs:181-220 `compare_values`. -/
def cmp : Json → Json → Ordering
  | .null, .null => .eq
  | .null, _ => .lt
  | .bool _, .null => .gt
  | .bool a, .bool b => cmpBool a b
  | .bool _, _ => .lt
  | .num _, .null => .gt
  | .num _, .bool _ => .gt
  | .num a, .num b => cmpNum a b
  | .num _, _ => .lt
  | .str _, .null => .gt
  | .str _, .bool _ => .gt
  | .str _, .num _ => .gt
  | .str a, .str b => cmpStr a b
  | .str _, _ => .lt
  | .arr a, .arr b => (cmpNat a.length b.length).then (cmpList a b)
  | .arr _, .obj _ => .lt
  | .arr _, _ => .gt
  | .obj a, .obj b => (cmpNat a.length b.length).then (cmpFields a b)
  | .obj _, _ => .gt
termination_by structural x => x
/-- lib.rs:237-245: the loop of `compare_arrays`. -/
def cmpList : List Json → List Json → Ordering
  | a :: l, b :: m => (cmp a b).then (cmpList l m)
  | [], _ => .eq
  | _ :: _, [] => .eq
termination_by structural x => x
/-- lib.rs:271-282: one round of the loop of `compare_objects`. -/
def cmpField : String × Json → String × Json → Ordering
  | (k, v), (k', v') => (cmpStr k k').then (cmp v v')
termination_by structural x => x
/-- lib.rs:269-291: the loop of `compare_objects`. -/
def cmpFields : List (String × Json) → List (String × Json) → Ordering
  | p :: l, q :: m => (cmpField p q).then (cmpFields l m)
  | [], _ => .eq
  | _ :: _, [] => .eq
termination_by structural x => x
end

/-- The order `sort_by(compare_values)` sorts by. -/
def le (a b : Json) : Bool := decide (cmp a b ≠ .gt)

mutual
/-- lib.rs:151-172 `canonicalize_json`. Collecting the fields of an object again gives them in the same order. -/
def canon : Json → Json
  | .null => .null
  | .bool b => .bool b
  | .num n => .num n
  | .str s => .str s
  | .arr l => .arr (sortBy le (canonL l))
  | .obj fs => .obj (canonF fs)
termination_by structural x => x
def canonL : List Json → List Json
  | [] => []
  | a :: l => canon a :: canonL l
termination_by structural x => x
def canonP : String × Json → String × Json
  | (k, v) => (k, canon v)
termination_by structural x => x
def canonF : List (String × Json) → List (String × Json)
  | [] => []
  | p :: l => canonP p :: canonF l
termination_by structural x => x
end

end Verif.JsonDiff
