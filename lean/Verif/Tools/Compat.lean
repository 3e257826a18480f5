import Verif.Util.Str
import Verif.SchemaError.Props
/-
The check that new JSON schemas are compatible with released ones: crates/xtask/src/schema_compat.rs.

Git, and running weaver for the current schema, are left out. At this commit the list of schemas to check is empty
(schema_compat.rs:24-36).
-/
namespace Verif.Tools
open Verif.Util

/-! ### Model -/

/-- A node of a JSON schema: `$ref` (the name below `#/$defs/`), the members of `anyOf`, `oneOf` and `allOf`, `properties`, and
`items`, of which there is at most one. All else, such as `additionalProperties`, is not looked at. -/
inductive Node where
  | mk (ref : Option Chars) (alts : List Node) (props : List (Chars × Node)) (items : List Node)

def Node.ref : Node → Option Chars | .mk r _ _ _ => r
def Node.alts : Node → List Node | .mk _ a _ _ => a
def Node.props : Node → List (Chars × Node) | .mk _ _ p _ => p
def Node.items : Node → List Node | .mk _ _ _ i => i

/-- schema_compat.rs:148-152: the path of a property. -/
def ext (pre field : Chars) : Chars := if pre = [] then field else pre ++ '.' :: field

/-- schema_compat.rs:138-161: the nodes below a node, with their paths. -/
def below (pre : Chars) (n : Node) : List (Chars × Node) :=
  n.alts.map (fun c => (pre, c)) ++ n.props.map (fun p => (ext pre p.1, p.2)) ++
    n.items.map (fun c => (pre ++ ['[', ']'], c))

theorem below_size {pre : Chars} {n : Node} {c : Chars × Node} (h : c ∈ below pre n) : sizeOf c.2 < sizeOf n := by
  cases n with
  | mk r a p i =>
    simp only [below, Node.alts, Node.props, Node.items, List.mem_append, List.mem_map] at h
    rcases h with (⟨x, hx, rfl⟩ | ⟨x, hx, rfl⟩) | ⟨x, hx, rfl⟩
    · have := List.sizeOf_lt_of_mem hx
      simp only [Node.mk.sizeOf_spec]
      omega
    · have := List.sizeOf_lt_of_mem hx
      obtain ⟨f, x⟩ := x
      simp only [Prod.mk.sizeOf_spec, Node.mk.sizeOf_spec] at this ⊢
      omega
    · have := List.sizeOf_lt_of_mem hx
      simp only [Node.mk.sizeOf_spec]
      omega

/-- The definition of a name. -/
def defOf (r : Chars) : List (Chars × Node) → Option Node
  | [] => none
  | d :: ds => if d.1 = r then some d.2 else defOf r ds

theorem defOf_mem {r : Chars} {m : Node} : ∀ {defs : List (Chars × Node)}, defOf r defs = some m → (r, m) ∈ defs
  | d :: ds, h => by
    unfold defOf at h
    by_cases hd : d.1 = r
    · rw [if_pos hd] at h
      injection h with h
      exact List.mem_cons.2 (.inl (by rw [← hd, ← h]))
    · rw [if_neg hd] at h
      exact List.mem_cons.2 (.inr (defOf_mem h))

/-- How many definitions have not been visited. -/
def unvisited (defs : List (Chars × Node)) (visited : List Chars) : Nat :=
  ((defs.map Prod.fst).filter fun k => !visited.contains k).length

theorem unvisited_lt {defs : List (Chars × Node)} {visited : List Chars} {r : Chars} {m : Node}
    (hv : r ∉ visited) (hm : defOf r defs = some m) : unvisited defs (r :: visited) < unvisited defs visited := by
  unfold unvisited
  have hk : r ∈ defs.map Prod.fst := List.mem_map.2 ⟨(r, m), defOf_mem hm, rfl⟩
  generalize defs.map Prod.fst = ks at hk
  have le : ∀ ks : List Chars, (ks.filter fun k => !(r :: visited).contains k).length ≤
      (ks.filter fun k => !visited.contains k).length := by
    intro ks
    induction ks with
    | nil => simp
    | cons k ks ih =>
      simp only [List.filter_cons]
      by_cases h1 : k ∈ visited
      · simpa [h1] using ih
      · by_cases h2 : k = r
        · subst h2; simp [h1]; simp at ih; omega
        · simp [h1, h2] at ih ⊢; omega
  induction ks with
  | nil => simp at hk
  | cons k ks ih =>
    simp only [List.filter_cons]
    by_cases h2 : k = r
    · subst h2
      have := le ks
      simp [hv] at this ⊢
      omega
    · have hk' : r ∈ ks := by
        rcases List.mem_cons.1 hk with h | h
        · exact absurd h.symm h2
        · exact h
      have := ih hk'
      by_cases h1 : k ∈ visited
      · simpa [h1] using this
      · simp [h1, h2] at this ⊢; omega

/-- schema_compat.rs:122-163 `collect_paths`: the paths as a list, which is a set in the code. A reference that is being followed
is not followed again; what is beside a reference is not looked at. -/
def collect (defs : List (Chars × Node)) (pre : Chars) (visited : List Chars) (n : Node) : List Chars :=
  match n.ref with
  | some r =>
    if hv : r ∈ visited then []
    else
      match hm : defOf r defs with
      | none => []
      | some m => collect defs pre (r :: visited) m
  | none =>
    n.props.map (fun p => ext pre p.1) ++ (below pre n).attach.flatMap fun c => collect defs c.1.1 visited c.1.2
termination_by (unvisited defs visited, sizeOf n)
decreasing_by
  · exact Prod.Lex.left _ _ (unvisited_lt hv hm)
  · exact Prod.Lex.right _ (below_size c.2)

/-- schema_compat.rs:165-175 `schema_paths`. -/
def schemaPaths (defs : List (Chars × Node)) (root : Node) : List Chars := collect defs [] [] root

/-- schema_compat.rs:187-201 `schema_version`, on the constant of `file_format`. -/
def schemaVersion (const : Option Chars) : Option (Nat × Nat) :=
  match const with
  | none => none
  | some s =>
    match splitWhen (fun c => decide (c = '/')) s with
    | _ :: v :: _ =>
      match splitWhen (fun c => decide (c = '.')) v with
      | a :: b :: _ =>
        match SchemaError.parseUsize a, SchemaError.parseUsize b with
        | some x, some y => some (x, y)
        | _, _ => none
      | _ => none
    | _ => none

/-- The order of pairs. -/
def verLe (a b : Nat × Nat) : Bool := decide (a.1 < b.1 ∨ (a.1 = b.1 ∧ a.2 ≤ b.2))

/-- schema_compat.rs:222-241: what is reported as removed and as added. -/
def compare (baseConst curConst : Option Chars) (base cur : List Chars) : List Chars × List Chars :=
  let curVer := (schemaVersion curConst).getD (0, 0)
  let baseVer := (schemaVersion baseConst).getD curVer
  ((base.filter fun p => !cur.contains p).filter fun _ => decide (curVer.1 = baseVer.1),
   (cur.filter fun p => !base.contains p).filter fun _ => verLe curVer baseVer)

/-- schema_compat.rs:243-248: whether a schema passes. -/
def passes (baseConst curConst : Option Chars) (base cur : List Chars) : Bool :=
  (compare baseConst curConst base cur).1.isEmpty && (compare baseConst curConst base cur).2.isEmpty

/-! ### C272: the paths of a schema -/

/-- The paths of the properties that a schema describes: specification, with what is beside references and with references that
are followed again. -/
inductive IsPath (defs : List (Chars × Node)) : Node → Chars → Chars → Prop where
  | name {n pre f c} (h : (f, c) ∈ n.props) : IsPath defs n pre (ext pre f)
  | prop {n pre f c p} (h : (f, c) ∈ n.props) (hp : IsPath defs c (ext pre f) p) : IsPath defs n pre p
  | alt {n pre c p} (h : c ∈ n.alts) (hp : IsPath defs c pre p) : IsPath defs n pre p
  | item {n pre c p} (h : c ∈ n.items) (hp : IsPath defs c (pre ++ ['[', ']']) p) : IsPath defs n pre p
  | ref {n pre r m p} (h : n.ref = some r) (hm : defOf r defs = some m) (hp : IsPath defs m pre p) : IsPath defs n pre p

theorem collect_none {defs : List (Chars × Node)} {pre : Chars} {visited : List Chars} {n : Node} (h : n.ref = none)
    {p : Chars} : p ∈ collect defs pre visited n ↔ (∃ f c, (f, c) ∈ n.props ∧ p = ext pre f) ∨
      ∃ c ∈ below pre n, p ∈ collect defs c.1 visited c.2 := by
  rw [collect]
  simp only [h, List.mem_append, List.mem_map, List.mem_flatMap, List.mem_attach, true_and, Subtype.exists]
  constructor
  · rintro (⟨⟨f, c⟩, hc, rfl⟩ | ⟨c, hc, h⟩)
    · exact .inl ⟨f, c, hc, rfl⟩
    · exact .inr ⟨c, hc, h⟩
  · rintro (⟨f, c, hc, rfl⟩ | ⟨c, hc, h⟩)
    · exact .inl ⟨(f, c), hc, rfl⟩
    · exact .inr ⟨c, hc, h⟩

theorem collect_some {defs : List (Chars × Node)} {pre : Chars} {visited : List Chars} {n m : Node} {r : Chars}
    (h : n.ref = some r) (hv : r ∉ visited) (hm : defOf r defs = some m) :
    collect defs pre visited n = collect defs pre (r :: visited) m := by
  rw [collect]
  simp only [h, hv, dite_false]
  split
  · rename_i h2; rw [hm] at h2; cases h2
  · rename_i m' h2; rw [hm] at h2; injection h2 with h2; subst h2; rfl

/-- Every path that is collected is a path of the schema. -/
theorem collect_sound (defs : List (Chars × Node)) (pre : Chars) (visited : List Chars) (n : Node) :
    ∀ p ∈ collect defs pre visited n, IsPath defs n pre p := by
  induction pre, visited, n using collect.induct (defs := defs) with
  | case1 pre visited n r h hv => intro p hp; rw [collect] at hp; simp [h, hv] at hp
  | case2 pre visited n r h hv hm =>
    intro p hp
    rw [collect] at hp
    simp only [h, hv, dite_false] at hp
    split at hp
    · simp at hp
    · rename_i m h2; rw [hm] at h2; cases h2
  | case3 pre visited n r h hv m hm ih =>
    intro p hp
    rw [collect_some h hv hm] at hp
    exact .ref h hm (ih p hp)
  | case4 pre visited n h ih =>
    intro p hp
    rcases (collect_none h).1 hp with ⟨f, c, hc, rfl⟩ | ⟨c, hc, hp⟩
    · exact .name hc
    · have h1 := ih ⟨c, hc⟩ p hp
      simp only [below, List.mem_append, List.mem_map] at hc
      rcases hc with (⟨x, hx, rfl⟩ | ⟨⟨f, x⟩, hx, rfl⟩) | ⟨x, hx, rfl⟩
      · exact .alt hx h1
      · exact .prop hx h1
      · exact .item hx h1

/-- Nothing is beside references, and the references are to definitions of lower rank. -/
inductive Below (rank : Chars → Nat) (k : Nat) : Node → Prop where
  | ref (r : Chars) (h : rank r < k) : Below rank k (.mk (some r) [] [] [])
  | node (alts props items) (ha : ∀ c ∈ alts, Below rank k c) (hp : ∀ p ∈ props, Below rank k p.2)
      (hi : ∀ c ∈ items, Below rank k c) : Below rank k (.mk none alts props items)

/-- No definition refers to itself, directly or not. -/
def Acyclic (defs : List (Chars × Node)) (root : Node) : Prop :=
  ∃ rank k, Below rank k root ∧ ∀ r m, defOf r defs = some m → Below rank (rank r) m

theorem collect_complete {defs : List (Chars × Node)} {rank : Chars → Nat}
    (hd : ∀ r m, defOf r defs = some m → Below rank (rank r) m) {n : Node} {pre p : Chars} (h : IsPath defs n pre p) :
    ∀ k visited, Below rank k n → (∀ v ∈ visited, k ≤ rank v) → p ∈ collect defs pre visited n := by
  induction h with
  | name hf =>
    intro k visited hb _
    cases hb with
    | ref r _ => simp [Node.props] at hf
    | node a ps i _ _ _ => exact (collect_none rfl).2 (.inl ⟨_, _, hf, rfl⟩)
  | prop hf _ ih =>
    intro k visited hb hv
    cases hb with
    | ref r _ => simp [Node.props] at hf
    | node a ps i _ hps _ =>
      refine (collect_none rfl).2 (.inr ⟨(_, _), ?_, ih k visited (hps _ hf) hv⟩)
      simp only [below, List.mem_append, List.mem_map]
      exact .inl (.inr ⟨_, hf, rfl⟩)
  | alt hf _ ih =>
    intro k visited hb hv
    cases hb with
    | ref r _ => simp [Node.alts] at hf
    | node a ps i ha _ _ =>
      refine (collect_none rfl).2 (.inr ⟨(_, _), ?_, ih k visited (ha _ hf) hv⟩)
      simp only [below, List.mem_append, List.mem_map]
      exact .inl (.inl ⟨_, hf, rfl⟩)
  | item hf _ ih =>
    intro k visited hb hv
    cases hb with
    | ref r _ => simp [Node.items] at hf
    | node a ps i _ _ hi =>
      refine (collect_none rfl).2 (.inr ⟨(_, _), ?_, ih k visited (hi _ hf) hv⟩)
      simp only [below, List.mem_append, List.mem_map]
      exact .inr ⟨_, hf, rfl⟩
  | ref hr hm _ ih =>
    intro k visited hb hv
    cases hb with
    | node a ps i _ _ _ => simp [Node.ref] at hr
    | ref r hk =>
      simp only [Node.ref, Option.some.injEq] at hr
      subst hr
      have hnv : r ∉ visited := fun h => by have := hv r h; omega
      rw [collect_some rfl hnv hm]
      refine ih (rank r) (r :: visited) (hd r _ hm) ?_
      intro v h
      rcases List.mem_cons.1 h with h | h
      · rw [h]; exact Nat.le_refl _
      · have := hv v h; omega

/-- C272, as far as it holds: for schemas without recursion and with nothing beside references, exactly the paths of the schema
are collected. -/
theorem paths_exact_partial (defs : List (Chars × Node)) (root : Node) (h : Acyclic defs root) (p : Chars) :
    p ∈ schemaPaths defs root ↔ IsPath defs root [] p := by
  obtain ⟨rank, k, hb, hd⟩ := h
  exact ⟨collect_sound defs [] [] root p, fun hp => collect_complete hd hp k [] hb (by simp)⟩

def leaf : Node := .mk none [] [] []
def refTo (r : String) : Node := .mk (some r.toList) [] [] []

/-- A tree: `Tree { child: Tree, x }`, and the same with children that have no `x`. -/
def treeDefs : List (Chars × Node) := [("Tree".toList, .mk none [] [("child".toList, refTo "Tree"), ("x".toList, leaf)] [])]
def flatDefs : List (Chars × Node) := [("Tree".toList, .mk none [] [("child".toList, leaf), ("x".toList, leaf)] [])]

theorem collect_leaf (defs : List (Chars × Node)) (pre : Chars) (visited : List Chars) : collect defs pre visited leaf = [] := by
  rw [collect]; simp [leaf, Node.ref, Node.props, below, Node.alts, Node.items]

theorem collect_seen (defs : List (Chars × Node)) (pre : Chars) (visited : List Chars) (r : String) (h : r.toList ∈ visited) :
    collect defs pre visited (refTo r) = [] := by
  rw [collect]; simp [refTo, Node.ref, h]

/-- C272 does not hold for recursive schemas: both schemas below give the same paths, though `child.x` is a path of the first
only. That it was removed is not noticed. -/
theorem paths_exact_refuted :
    (∀ p, p ∈ schemaPaths treeDefs (refTo "Tree") ↔ p ∈ schemaPaths flatDefs (refTo "Tree")) ∧
    IsPath treeDefs (refTo "Tree") [] "child.x".toList ∧ ¬ IsPath flatDefs (refTo "Tree") [] "child.x".toList := by
  have h1 : ∀ p, p ∈ schemaPaths treeDefs (refTo "Tree") ↔ p = "child".toList ∨ p = "x".toList := by
    intro p
    unfold schemaPaths
    rw [collect_some (r := "Tree".toList) (m := .mk none [] [("child".toList, refTo "Tree"), ("x".toList, leaf)] []) rfl
      (by simp) rfl, collect_none rfl]
    simp [Node.props, below, Node.alts, Node.items, ext, collect_leaf, collect_seen]
    constructor
    · rintro ⟨c, ⟨h, _⟩ | ⟨h, _⟩⟩
      · exact .inl h
      · exact .inr h
    · rintro (h | h)
      · exact ⟨_, .inl ⟨h, rfl⟩⟩
      · exact ⟨_, .inr ⟨h, rfl⟩⟩
  have h2 : ∀ p, p ∈ schemaPaths flatDefs (refTo "Tree") ↔ p = "child".toList ∨ p = "x".toList := by
    intro p
    unfold schemaPaths
    rw [collect_some (r := "Tree".toList) (m := .mk none [] [("child".toList, leaf), ("x".toList, leaf)] []) rfl
      (by simp) rfl, collect_none rfl]
    simp [Node.props, below, Node.alts, Node.items, ext, collect_leaf]
    constructor
    · rintro ⟨c, ⟨h, _⟩ | ⟨h, _⟩⟩
      · exact .inl h
      · exact .inr h
    · rintro (h | h)
      · exact ⟨_, .inl ⟨h, rfl⟩⟩
      · exact ⟨_, .inr ⟨h, rfl⟩⟩
  refine ⟨fun p => (h1 p).trans (h2 p).symm, ?_, ?_⟩
  · refine .ref (r := "Tree".toList) rfl rfl (.prop (f := "child".toList) (c := refTo "Tree") (by simp [Node.props]) ?_)
    exact .ref (r := "Tree".toList) rfl rfl (IsPath.name (f := "x".toList) (c := leaf) (by simp [Node.props]))
  · intro h
    have hac : Acyclic flatDefs (refTo "Tree") := by
      have hl : ∀ k, Below (fun _ => 0) k leaf := fun k => .node [] [] [] (by simp) (by simp) (by simp)
      refine ⟨fun _ => 0, 1, .ref _ (by simp), ?_⟩
      intro r m hm
      have := defOf_mem hm
      simp only [flatDefs, List.mem_singleton, Prod.mk.injEq] at this
      obtain ⟨_, rfl⟩ := this
      refine .node _ _ _ (by simp) ?_ (by simp)
      intro p hp
      simp only [List.mem_cons, List.not_mem_nil, or_false] at hp
      rcases hp with rfl | rfl <;> exact hl _
    have := (paths_exact_partial flatDefs _ hac _).2 h
    rw [h2] at this
    exact absurd this (by decide +kernel)

/-- Nor for what is beside a reference. -/
theorem siblings_refuted : let n : Node := .mk (some "A".toList) [] [("x".toList, leaf)] []
    IsPath [] n [] "x".toList ∧ schemaPaths [] n = [] := by
  refine ⟨IsPath.name (f := "x".toList) (c := leaf) (by simp [Node.props]), ?_⟩
  unfold schemaPaths
  rw [collect]
  simp [Node.ref, defOf]

/-! ### C273: versions -/

theorem verLe_iff (a b : Nat × Nat) : verLe a b = false ↔ b.1 < a.1 ∨ (b.1 = a.1 ∧ b.2 < a.2) := by
  unfold verLe
  rw [decide_eq_false_iff_not]
  omega

/-- The version in `name/major.minor`. -/
theorem version_read (name : Chars) (hn : '/' ∉ name) {x y : Nat} (hx : x < 2^64) (hy : y < 2^64) :
    schemaVersion (some (name ++ '/' :: (SchemaError.number x ++ '.' :: SchemaError.number y))) = some (x, y) := by
  have nodot : ∀ i, ∀ c ∈ SchemaError.number i, decide (c = '.') = false := fun i c hc => by
    have := SchemaError.number_digits i c hc
    rw [decide_eq_false_iff_not]; rintro rfl; simp [Char.isDigit] at this
  have noslash : ∀ c ∈ SchemaError.number x ++ '.' :: SchemaError.number y, decide (c = '/') = false := by
    intro c hc
    rw [decide_eq_false_iff_not]
    rintro rfl
    rcases List.mem_append.1 hc with h | h
    · exact SchemaError.number_no_slash x h
    · rcases List.mem_cons.1 h with h | h
      · exact absurd h (by decide)
      · exact SchemaError.number_no_slash y h
  have e1 : splitWhen (fun c => decide (c = '/')) (name ++ '/' :: (SchemaError.number x ++ '.' :: SchemaError.number y)) =
      [name, SchemaError.number x ++ '.' :: SchemaError.number y] := by
    rw [splitWhen_append _ _ (by simp), splitWhen_clean noslash, splitWhen_clean]
    · rfl
    · intro c hc; rw [decide_eq_false_iff_not]; rintro rfl; exact hn hc
  have e2 : splitWhen (fun c => decide (c = '.')) (SchemaError.number x ++ '.' :: SchemaError.number y) =
      [SchemaError.number x, SchemaError.number y] := by
    rw [splitWhen_append _ _ (by simp), splitWhen_clean (nodot x), splitWhen_clean (nodot y)]
    rfl
  unfold schemaVersion
  dsimp only
  rw [e1]
  dsimp only
  rw [e2]
  dsimp only
  rw [SchemaError.parse_number hx, SchemaError.parse_number hy]

/-- What a new version may do: remove properties with a higher major version, add some with a higher version. Specification. -/
def Compatible (b c : Nat × Nat) (base cur : List Chars) : Prop :=
  ((∃ p ∈ base, p ∉ cur) → b.1 < c.1) ∧ ((∃ p ∈ cur, p ∉ base) → b.1 < c.1 ∨ (b.1 = c.1 ∧ b.2 < c.2))

theorem filter_const_empty {l : List Chars} {b : Bool} : (l.filter fun _ => b) = [] ↔ l = [] ∨ b = false := by
  cases b <;> simp [List.eq_nil_iff_forall_not_mem]

theorem difference_empty {l m : List Chars} : (l.filter fun p => !m.contains p) = [] ↔ ¬ ∃ p ∈ l, p ∉ m := by
  rw [List.filter_eq_nil_iff]
  simp

theorem passes_iff (baseConst curConst : Option Chars) (base cur : List Chars) {b c : Nat × Nat}
    (hc : (schemaVersion curConst).getD (0, 0) = c) (hb : (schemaVersion baseConst).getD c = b) :
    passes baseConst curConst base cur = true ↔
      ((∃ p ∈ base, p ∉ cur) → c.1 ≠ b.1) ∧ ((∃ p ∈ cur, p ∉ base) → b.1 < c.1 ∨ (b.1 = c.1 ∧ b.2 < c.2)) := by
  unfold passes compare
  simp only [hc, hb, Bool.and_eq_true, List.isEmpty_iff, filter_const_empty, difference_empty, verLe_iff,
    decide_eq_false_iff_not]
  constructor
  · rintro ⟨h1, h2⟩
    exact ⟨fun h => h1.resolve_left fun k => k h, fun h => h2.resolve_left fun k => k h⟩
  · rintro ⟨h1, h2⟩
    refine ⟨?_, ?_⟩
    · by_cases h : ∃ p ∈ base, p ∉ cur
      · exact .inr (h1 h)
      · exact .inl h
    · by_cases h : ∃ p ∈ cur, p ∉ base
      · exact .inr (h2 h)
      · exact .inl h

/-- C273, as far as it holds: if the major version is not lower than that of the release, a schema passes exactly if it is
compatible. -/
theorem passes_iff_compatible_partial (baseConst curConst : Option Chars) (base cur : List Chars) {b c : Nat × Nat}
    (hc : (schemaVersion curConst).getD (0, 0) = c) (hb : (schemaVersion baseConst).getD c = b) (hm : b.1 ≤ c.1) :
    passes baseConst curConst base cur = true ↔ Compatible b c base cur := by
  rw [passes_iff baseConst curConst base cur hc hb]
  unfold Compatible
  constructor
  · rintro ⟨h1, h2⟩
    refine ⟨fun h => ?_, h2⟩
    have := h1 h
    omega
  · rintro ⟨h1, h2⟩
    refine ⟨fun h => ?_, h2⟩
    have := h1 h
    omega

/-- A compatible schema always passes. -/
theorem compatible_passes (baseConst curConst : Option Chars) (base cur : List Chars) {b c : Nat × Nat}
    (hc : (schemaVersion curConst).getD (0, 0) = c) (hb : (schemaVersion baseConst).getD c = b)
    (h : Compatible b c base cur) : passes baseConst curConst base cur = true := by
  rw [passes_iff baseConst curConst base cur hc hb]
  exact ⟨fun hr => by have := h.1 hr; omega, h.2⟩

/-- C273 does not hold: if `file_format` itself is removed, the current version is taken to be 0.0, the major versions differ,
and no removal is reported. -/
theorem passes_iff_compatible_refuted : ¬ (∀ (baseConst curConst : Option Chars) (base cur : List Chars) (b c : Nat × Nat),
    (schemaVersion curConst).getD (0, 0) = c → (schemaVersion baseConst).getD c = b →
    passes baseConst curConst base cur = true → Compatible b c base cur) := by
  intro h
  have := (h (some "manifest/2.0".toList) none ["file_format".toList, "name".toList] ["name".toList] (2, 0) (0, 0) rfl
    (by decide +kernel) (by decide +kernel)).1 ⟨"file_format".toList, by simp, by decide +kernel⟩
  exact absurd this (by decide)

example : passes (some "manifest/2.0".toList) (some "manifest/2.0".toList) ["a".toList] ["a".toList, "b".toList] = false := by
  decide +kernel
example : passes (some "manifest/2.0".toList) (some "manifest/2.1".toList) ["a".toList] ["a".toList, "b".toList] = true := by
  decide +kernel
example : passes (some "manifest/2.0".toList) (some "manifest/2.1".toList) ["a".toList] ["b".toList] = false := by
  decide +kernel
example : schemaVersion (some "manifest/2.0.0".toList) = some (2, 0) := by decide +kernel

end Verif.Tools
