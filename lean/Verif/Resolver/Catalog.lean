import Verif.Util.Sort
import Verif.Util.Map
/-
Model of the attribute catalog of crates/weaver_resolver/src/attribute.rs (the deduplicated attributes and their
references, lines 69-75 and 238-294) and of the clean-up of crates/weaver_resolver/src/registry.rs:1360-1395.

`α` is the type of resolved attributes, `le a b` is `a.cmp(b) != Greater` for the derived `Ord` of `Attribute`.
A `HashMap<Attribute, AttributeRef>` is the list of its entries in the (arbitrary) order in which the map iterates; the
theorems are for every such order.
-/
namespace Verif.Resolver
open Verif.Util

/-- `HashMap<Attribute, AttributeRef>`. -/
abbrev Cat (α : Type) := List (α × Nat)

/-- crates/weaver_resolver/src/attribute.rs:69-75 `attribute_ref`. The `u32` counter is a natural number. -/
def attributeRef {α : Type} [DecidableEq α] (c : Cat α) (a : α) : Cat α × Nat :=
  match c.find? (fun p => p.1 = a) with
  | some p => (c, p.2)
  | none => (c ++ [(a, c.length)], c.length)

/-- attribute.rs:238-245 `drain_attributes` (also 524-528, the published list of attributes). -/
def drain {α : Type} (c : Cat α) : List α := (sortBy (fun p q => decide (p.2 ≤ q.2)) c).map Prod.fst

/-- attribute.rs:270-277: the pairs (old reference, new reference) in the new order. -/
def gcPairs {α : Type} (ordered : Cat α) (start : Nat) : List (Nat × Nat) :=
  match ordered with
  | [] => []
  | p :: ps => (p.2, start) :: gcPairs ps (start + 1)

/-- attribute.rs:278-281: `*attr_ref = gc_map[attr_ref]` for every entry; a missing key is a panic (`none`). -/
def remapRefs {α : Type} (m : List (Nat × Nat)) : Cat α → Option (Cat α)
  | [] => some []
  | p :: ps => match m.lookup p.2 with
    | none => none
    | some i => match remapRefs m ps with
      | none => none
      | some r => some ((p.1, i) :: r)

/-- attribute.rs:247-282 `gc_unreferenced_attribute_refs_and_sort`. The result of collecting into a `HashMap` with
distinct keys is the list of pairs. -/
def gc {α : Type} (le : α → α → Bool) (used : List Nat) (c : Cat α) : Option (List (Nat × Nat) × Cat α) :=
  let kept := c.filter (fun p => decide (p.2 ∈ used))
  let ordered := sortBy (fun p q => le p.1 q.1) kept
  let m := gcPairs ordered 0
  (remapRefs m kept).map (fun c' => (m, c'))

/-- A group about to be published: its id, the references of its attributes, whether its visibility is `internal`, and
the rest. -/
structure RGroup (β : Type) where
  id : String
  attrs : List Nat
  internal : Bool
  rest : β
deriving DecidableEq

/-- crates/weaver_resolver/src/registry.rs:1360-1395 `cleanup_and_stabilize_catalog_and_registry`; `none` is a panic. -/
def cleanup {α β : Type} (le : α → α → Bool) (c : Cat α) (gs : List (RGroup β)) : Option (Cat α × List (RGroup β)) :=
  (gc le (gs.flatMap (fun g => g.attrs)) c).map (fun r =>
    let gs1 := gs.map (fun g => { g with attrs := g.attrs.map (fun a => (r.1.lookup a).getD a) })
    let gs2 := sortBy (fun g h => decide (g.id ≤ h.id)) gs1
    (r.2, (gs2.filter (fun g => !g.internal)).map (fun g =>
      { g with attrs := sortBy (fun a b => decide (a ≤ b)) g.attrs })))

/-! ### The order of attributes

The derived `Ord` of `Attribute` compares field by field; the only field whose order is not the canonical one is
`annotations`, whose values are compared as follows. -/

/-- `serde_yaml::Value` with its seven kinds. Numbers are integers here. -/
inductive YVal where
  | null
  | bool (b : Bool)
  | num (n : Int)
  | str (s : String)
  | seq (xs : List YVal)
  | map (m : List (YVal × YVal))
  | tagged (tag : String) (v : YVal)

/-- crates/weaver_semconv/src/lib.rs:516-637 `Ord for YamlValue`. -/
def YVal.cmp : YVal → YVal → Ordering
  | .null, .null => .eq
  | .null, _ => .lt
  | .bool _, .null => .gt
  | .bool l, .bool r => compare l r
  | .bool _, _ => .lt
  | .num _, .null => .gt
  | .num _, .bool _ => .gt
  | .num l, .num r => compare l r
  | .num _, _ => .lt
  | .str _, .null => .gt
  | .str _, .bool _ => .gt
  | .str _, .num _ => .gt
  | .str l, .str r => compare l r
  | .str _, _ => .lt
  | .seq _, .null => .gt
  | .seq _, .bool _ => .gt
  | .seq _, .num _ => .gt
  | .seq _, .str _ => .gt
  | .seq _, .seq _ => .eq
  | .seq _, .map _ => .lt
  | .seq _, .tagged _ _ => .lt
  | .map _, .null => .gt
  | .map _, .bool _ => .gt
  | .map _, .num _ => .gt
  | .map _, .str _ => .gt
  | .map _, .seq _ => .gt
  | .map _, .map _ => .eq
  | .map _, .tagged _ _ => .lt
  | .tagged _ _, .tagged _ _ => .eq
  | .tagged _ _, _ => .lt

end Verif.Resolver
