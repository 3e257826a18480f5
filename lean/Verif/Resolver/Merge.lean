import Verif.Util.Map
/-
Model of crates/weaver_resolver/src/merge.rs and crates/weaver_resolver/src/dependency_resolution.rs.
-/
namespace Verif.Resolver
open Verif.Util

/-- `serde_yaml::Value`. Simplification: mapping keys are strings (the code only compares keys for equality), and
null, numbers, strings and tagged values are the opaque `leaf` (the code never looks inside them). -/
inductive Yaml where
  | leaf (s : String)
  | bool (b : Bool)
  | seq (xs : List Yaml)
  | map (m : List (String × Yaml))

mutual
/-- Decidable equality of YAML values (derived `PartialEq`). -/
def Yaml.decEq (a : Yaml) (b : Yaml) : Decidable (a = b) :=
  match a, b with
  | .leaf s, .leaf t => if h : s = t then isTrue (by rw [h]) else isFalse (by simp [h])
  | .bool s, .bool t => if h : s = t then isTrue (by rw [h]) else isFalse (by simp [h])
  | .seq xs, .seq ys => match Yaml.decEqSeq xs ys with
    | isTrue h => isTrue (by rw [h])
    | isFalse h => isFalse (by simp [h])
  | .map xs, .map ys => match Yaml.decEqMap xs ys with
    | isTrue h => isTrue (by rw [h])
    | isFalse h => isFalse (by simp [h])
  | .leaf _, .bool _ => isFalse (by simp)
  | .leaf _, .seq _ => isFalse (by simp)
  | .leaf _, .map _ => isFalse (by simp)
  | .bool _, .leaf _ => isFalse (by simp)
  | .bool _, .seq _ => isFalse (by simp)
  | .bool _, .map _ => isFalse (by simp)
  | .seq _, .leaf _ => isFalse (by simp)
  | .seq _, .bool _ => isFalse (by simp)
  | .seq _, .map _ => isFalse (by simp)
  | .map _, .leaf _ => isFalse (by simp)
  | .map _, .bool _ => isFalse (by simp)
  | .map _, .seq _ => isFalse (by simp)
termination_by structural a
def Yaml.decEqSeq (a b : List Yaml) : Decidable (a = b) :=
  match a, b with
  | [], [] => isTrue rfl
  | [], _ :: _ => isFalse (by simp)
  | _ :: _, [] => isFalse (by simp)
  | x :: xs, y :: ys => match Yaml.decEq x y with
    | isTrue h => match Yaml.decEqSeq xs ys with
      | isTrue h' => isTrue (by rw [h, h'])
      | isFalse h' => isFalse (by simp [h'])
    | isFalse h => isFalse (by simp [h])
termination_by structural a
def Yaml.decEqMap (a b : List (String × Yaml)) : Decidable (a = b) :=
  match a, b with
  | [], [] => isTrue rfl
  | [], _ :: _ => isFalse (by simp)
  | _ :: _, [] => isFalse (by simp)
  | x :: xs, y :: ys => match Yaml.decEqPair x y with
    | isTrue h => match Yaml.decEqMap xs ys with
      | isTrue h' => isTrue (by rw [h, h'])
      | isFalse h' => isFalse (by simp [h'])
    | isFalse h => isFalse (by simp [h])
termination_by structural a
def Yaml.decEqPair (a b : String × Yaml) : Decidable (a = b) :=
  match a, b with
  | (k, x), (l, y) => if hk : k = l then match Yaml.decEq x y with
      | isTrue h => isTrue (by rw [hk, h])
      | isFalse h => isFalse (by simp [h])
    else isFalse (by simp [hk])
termination_by structural a
end
instance : DecidableEq Yaml := Yaml.decEq

/-- An annotations map: `BTreeMap<String, YamlValue>`. -/
abbrev Annots := List (String × Yaml)

mutual
/-- crates/weaver_resolver/src/merge.rs:29-44 `merge_yaml_values`. -/
def mergeYaml (b : Yaml) (o : Yaml) : Yaml :=
  match b, o with
  | .map bm, .map om => .map (mergeEntries bm om)
  | _, o => o
termination_by structural o

/-- crates/weaver_resolver/src/merge.rs:32-39, the loop over the entries of the overriding mapping. -/
def mergeEntries (bm : List (String × Yaml)) (om : List (String × Yaml)) : List (String × Yaml) :=
  match om with
  | [] => bm
  | p :: rest => mergeEntries (mergeEntry bm p) rest
termination_by structural om

/-- crates/weaver_resolver/src/merge.rs:33-38, one entry. -/
def mergeEntry (bm : List (String × Yaml)) (p : String × Yaml) : List (String × Yaml) :=
  match p with
  | (k, v) =>
    match aget k bm with
    | some old => aset k (mergeYaml old v) bm
    | none => aset k v bm
termination_by structural p
end

/-- crates/weaver_resolver/src/merge.rs:11-24 `merge_annotations` (the top level map is a `BTreeMap`). -/
def mergeAnnots (base override : Annots) : Annots :=
  override.foldl (fun bm p =>
    match aget p.1 bm with
    | some old => bins p.1 (mergeYaml old p.2) bm
    | none => bins p.1 p.2 bm) base

/-- crates/weaver_resolver/src/dependency_resolution.rs:26-33 `is_excluded`. -/
def isExcluded (a : Annots) : Bool :=
  match aget "dependency_resolution" a with
  | some (.map m) => match aget "exclude" m with
    | some (.bool b) => b
    | _ => false
  | _ => false

/-- `annotations.as_ref().is_some_and(is_excluded)`. -/
def isExcludedOpt (a : Option Annots) : Bool :=
  match a with
  | some a => isExcluded a
  | none => false

/-- Group types, crates/weaver_semconv/src/group.rs (`GroupType`). -/
inductive GroupType where
  | attributeGroup | span | event | metric | metricGroup | entity | scope | undefined
deriving DecidableEq, Repr

/-- crates/weaver_semconv/src/v2/attribute_group.rs `AttributeGroupVisibilitySpec`. -/
inductive Visibility where
  | publicVis | internalVis
deriving DecidableEq, Repr

/-- crates/weaver_resolver/src/dependency_resolution.rs:41-49 `is_group_excluded`. -/
def isGroupExcluded (a : Option Annots) (v : Option Visibility) (t : GroupType) : Bool :=
  isExcludedOpt a || (t == .attributeGroup && !(v == some .publicVis))

end Verif.Resolver
