/-
Model of entity association expressions: crates/weaver_semconv/src/entity_association.rs and the resolved form of
crates/weaver_resolved_schema/src/v2/entity.rs:71-141.
-/
namespace Verif.Semconv

/-- weaver_semconv entity_association.rs:22-39 `EntityAssociation` (leaves are names) and weaver_resolved_schema
v2/entity.rs:79-96 `EntityAssociation` (leaves are `EntityRef`s). -/
inductive Assoc (α : Type) where
  | ref (a : α)
  | oneOf (l : List (Assoc α))
  | allOf (l : List (Assoc α))
deriving Repr

variable {α β ε : Type}

mutual
/-- The leaves of an expression from left to right. -/
def leaves : Assoc α → List α
  | .ref a => [a]
  | .oneOf l => leavesL l
  | .allOf l => leavesL l
termination_by structural x => x
def leavesL : List (Assoc α) → List α
  | [] => []
  | x :: l => leaves x ++ leavesL l
termination_by structural x => x
end

mutual
def assocSize : Assoc α → Nat
  | .ref _ => 1
  | .oneOf l => 1 + assocSizeL l
  | .allOf l => 1 + assocSizeL l
termination_by structural x => x
def assocSizeL : List (Assoc α) → Nat
  | [] => 0
  | x :: l => assocSize x + assocSizeL l
termination_by structural x => x
end

theorem assocSizeL_append (l l' : List (Assoc α)) : assocSizeL (l ++ l') = assocSizeL l + assocSizeL l' := by
  induction l with
  | nil => simp [assocSizeL]
  | cons x l ih => simp [assocSizeL, ih]; omega

theorem assocSizeL_reverse (l : List (Assoc α)) : assocSizeL l.reverse = assocSizeL l := by
  induction l with
  | nil => rfl
  | cons x l ih => simp [assocSizeL_append, assocSizeL, ih]; omega

theorem assocSize_pos (x : Assoc α) : 0 < assocSize x := by
  cases x <;> simp [assocSize] <;> omega

/-- entity_association.rs:43-56 `referenced_entities` and v2/entity.rs:100-114 `refs`: the nodes still to visit are kept
on a stack, here with its top first. -/
def walk (stack : List (Assoc α)) : List α :=
  match stack with
  | [] => []
  | .ref a :: s => a :: walk s
  | .oneOf l :: s => walk (l.reverse ++ s)
  | .allOf l :: s => walk (l.reverse ++ s)
termination_by assocSizeL stack
decreasing_by
  · simp [assocSizeL, assocSize]
  · simp [assocSizeL, assocSize, assocSizeL_append, assocSizeL_reverse]
  · simp [assocSizeL, assocSize, assocSizeL_append, assocSizeL_reverse]

/-- The entities an expression refers to. -/
def refs (x : Assoc α) : List α := walk [x]

mutual
/-- v2/entity.rs:123-141 `to_named_associations`, for any function on the leaves. -/
def mapAssoc (f : α → β) : Assoc α → Assoc β
  | .ref a => .ref (f a)
  | .oneOf l => .oneOf (mapAssocL f l)
  | .allOf l => .allOf (mapAssocL f l)
termination_by structural x => x
def mapAssocL (f : α → β) : List (Assoc α) → List (Assoc β)
  | [] => []
  | x :: l => mapAssoc f x :: mapAssocL f l
termination_by structural x => x
end

mutual
/-- crates/weaver_resolved_schema/src/v2/mod.rs:208-232 `convert_entity_associations`, `f` being what a leaf becomes. -/
def convAssoc (f : α → Except ε β) : Assoc α → Except ε (Assoc β)
  | .ref a => match f a with
    | .ok b => .ok (.ref b)
    | .error e => .error e
  | .oneOf l => match convAssocL f l with
    | .ok l' => .ok (.oneOf l')
    | .error e => .error e
  | .allOf l => match convAssocL f l with
    | .ok l' => .ok (.allOf l')
    | .error e => .error e
termination_by structural x => x
def convAssocL (f : α → Except ε β) : List (Assoc α) → Except ε (List (Assoc β))
  | [] => .ok []
  | x :: l => match convAssoc f x with
    | .error e => .error e
    | .ok y => match convAssocL f l with
      | .error e => .error e
      | .ok l' => .ok (y :: l')
termination_by structural x => x
end

end Verif.Semconv
