import Verif.JsonDiff.Model
import Verif.Util.Map
/-
C18: canonicalising JSON. C61: canonical forms.
-/
namespace Verif.JsonDiff
open Verif.Util

/-! ### Specification -/

/-- The values differ at most in the order of elements of arrays, at any depth. -/
inductive Same : Json → Json → Prop
  | refl (a : Json) : Same a a
  | trans {a b c : Json} : Same a b → Same b c → Same a c
  | reorder {l m : List Json} : l.Perm m → Same (.arr l) (.arr m)
  | inArray {a b : Json} (pre post : List Json) : Same a b → Same (.arr (pre ++ a :: post)) (.arr (pre ++ b :: post))
  | inObject {a b : Json} (k : String) (pre post : List (String × Json)) : Same a b →
      Same (.obj (pre ++ (k, a) :: post)) (.obj (pre ++ (k, b) :: post))

mutual
/-- Forget of each number everything but its value as a float. -/
def floats : Json → Json
  | .null => .null
  | .bool b => .bool b
  | .num n => .num { f64 := n.f64, id := 0 }
  | .str s => .str s
  | .arr l => .arr (floatsL l)
  | .obj fs => .obj (floatsF fs)
termination_by structural x => x
def floatsL : List Json → List Json
  | [] => []
  | a :: l => floats a :: floatsL l
termination_by structural x => x
def floatsP : String × Json → String × Json
  | (k, v) => (k, floats v)
termination_by structural x => x
def floatsF : List (String × Json) → List (String × Json)
  | [] => []
  | p :: l => floatsP p :: floatsF l
termination_by structural x => x
end

/-! ### Three way comparisons -/

/-- `x`, `y` and `z` can be how `a` compares to `b`, `b` to `c` and `a` to `c`. -/
def Tr (x y z : Ordering) : Prop :=
  (x = .eq → z = y) ∧ (y = .eq → z = x) ∧ (x = .lt → y = .lt → z = .lt) ∧ (x = .gt → y = .gt → z = .gt)

theorem Tr.andThen {x y z x' y' z' : Ordering} (h : Tr x y z) (h' : x = .eq → y = .eq → Tr x' y' z') :
    Tr (x.then x') (y.then y') (z.then z') := by
  cases x <;> cases y <;> cases z <;> cases x' <;> cases y' <;> cases z' <;> simp_all [Tr, Ordering.then]

theorem cmpNat_swap (a b : Nat) : cmpNat b a = (cmpNat a b).swap := by
  unfold cmpNat; split <;> split <;> (try split) <;> (try split) <;> (try rfl) <;> omega

theorem cmpNat_tr (a b c : Nat) : Tr (cmpNat a b) (cmpNat b c) (cmpNat a c) := by
  unfold cmpNat Tr
  refine ⟨?_, ?_, ?_, ?_⟩ <;> (repeat' split) <;> simp <;> omega

theorem cmpNat_eq (a b : Nat) : cmpNat a b = .eq ↔ a = b := by
  unfold cmpNat; (repeat' split) <;> simp <;> omega

theorem cmpNum_swap (a b : Num) : cmpNum b a = (cmpNum a b).swap := by
  unfold cmpNum; split <;> split <;> (try split) <;> (try split) <;> (try rfl) <;> omega

theorem cmpNum_tr (a b c : Num) : Tr (cmpNum a b) (cmpNum b c) (cmpNum a c) := by
  unfold cmpNum Tr
  refine ⟨?_, ?_, ?_, ?_⟩ <;> (repeat' split) <;> simp <;> omega

theorem cmpNum_eq (a b : Num) : cmpNum a b = .eq ↔ a.f64 = b.f64 := by
  unfold cmpNum; (repeat' split) <;> simp <;> omega

theorem cmpStr_cases (a b : String) : (cmpStr a b = .lt ∧ a < b) ∨ (cmpStr a b = .eq ∧ a = b) ∨ (cmpStr a b = .gt ∧ b < a) := by
  unfold cmpStr
  rcases str_trichotomy a b with h | rfl | h
  · exact .inl ⟨if_pos h, h⟩
  · exact .inr (.inl ⟨by rw [if_neg (String.lt_irrefl a), if_pos rfl], rfl⟩)
  · refine .inr (.inr ⟨?_, h⟩)
    rw [if_neg fun h' => String.lt_irrefl _ (String.lt_trans h h'), if_neg]
    rintro rfl; exact String.lt_irrefl _ h

theorem cmpStr_swap (a b : String) : cmpStr b a = (cmpStr a b).swap := by
  rcases cmpStr_cases a b with ⟨h, h'⟩ | ⟨h, rfl⟩ | ⟨h, h'⟩
  · rw [h]
    rcases cmpStr_cases b a with ⟨k, k'⟩ | ⟨k, rfl⟩ | ⟨k, k'⟩
    · exact absurd (String.lt_trans h' k') (String.lt_irrefl _)
    · exact absurd h' (String.lt_irrefl _)
    · exact k
  · rw [h]; rfl
  · rw [h]
    rcases cmpStr_cases b a with ⟨k, k'⟩ | ⟨k, rfl⟩ | ⟨k, k'⟩
    · exact k
    · exact absurd h' (String.lt_irrefl _)
    · exact absurd (String.lt_trans h' k') (String.lt_irrefl _)

theorem cmpStr_eq (a b : String) : cmpStr a b = .eq ↔ a = b := by
  rcases cmpStr_cases a b with ⟨h, h'⟩ | ⟨h, rfl⟩ | ⟨h, h'⟩
  · simp only [h, reduceCtorEq, false_iff]; rintro rfl; exact String.lt_irrefl _ h'
  · simp [h]
  · simp only [h, reduceCtorEq, false_iff]; rintro rfl; exact String.lt_irrefl _ h'

theorem cmpStr_lt (a b : String) : cmpStr a b = .lt ↔ a < b := by
  rcases cmpStr_cases a b with ⟨h, h'⟩ | ⟨h, rfl⟩ | ⟨h, h'⟩
  · simp [h, h']
  · simp [h]
  · simp only [h, reduceCtorEq, false_iff]; exact fun k => String.lt_irrefl _ (String.lt_trans h' k)

theorem cmpStr_gt (a b : String) : cmpStr a b = .gt ↔ b < a := by
  rw [← cmpStr_lt, cmpStr_swap a b]; cases cmpStr a b <;> simp [Ordering.swap]

theorem cmpStr_tr (a b c : String) : Tr (cmpStr a b) (cmpStr b c) (cmpStr a c) := by
  refine ⟨fun h => ?_, fun h => ?_, fun h h' => ?_, fun h h' => ?_⟩
  · rw [(cmpStr_eq a b).1 h]
  · rw [(cmpStr_eq b c).1 h]
  · rw [cmpStr_lt] at *; exact String.lt_trans h h'
  · rw [cmpStr_gt] at *; exact String.lt_trans h' h

theorem then_swap (x y : Ordering) : (x.then y).swap = x.swap.then y.swap := by cases x <;> rfl

mutual
theorem cmp_swap : ∀ a b : Json, cmp b a = (cmp a b).swap
  | a, b => by
    cases a <;> cases b <;> simp only [cmp, Ordering.swap]
    case bool.bool a b => cases a <;> cases b <;> rfl
    case num.num => exact cmpNum_swap _ _
    case str.str => exact cmpStr_swap _ _
    case arr.arr a b => rw [cmpNat_swap a.length, cmpList_swap a b, ← then_swap]; rfl
    case obj.obj a b => rw [cmpNat_swap a.length, cmpFields_swap a b, ← then_swap]; rfl
termination_by structural x => x
theorem cmpList_swap : ∀ a b : List Json, cmpList b a = (cmpList a b).swap
  | [], [] => rfl
  | [], _ :: _ => rfl
  | _ :: _, [] => rfl
  | a :: l, b :: m => by simp only [cmpList]; rw [cmp_swap a b, cmpList_swap l m, ← then_swap]
termination_by structural x => x
theorem cmpField_swap : ∀ a b : String × Json, cmpField b a = (cmpField a b).swap
  | (k, v), (k', v') => by simp only [cmpField]; rw [cmpStr_swap k, cmp_swap v v', ← then_swap]
termination_by structural x => x
theorem cmpFields_swap : ∀ a b : List (String × Json), cmpFields b a = (cmpFields a b).swap
  | [], [] => rfl
  | [], _ :: _ => rfl
  | _ :: _, [] => rfl
  | a :: l, b :: m => by simp only [cmpFields]; rw [cmpField_swap a b, cmpFields_swap l m, ← then_swap]
termination_by structural x => x
end

mutual
theorem cmp_tr : ∀ a b c : Json, Tr (cmp a b) (cmp b c) (cmp a c)
  | a, b, c => by
    cases a <;> cases b <;> cases c <;> simp only [cmp]
    case bool.bool.bool a b c => cases a <;> cases b <;> cases c <;> simp [cmpBool, Tr]
    case num.num.num => exact cmpNum_tr _ _ _
    case str.str.str => exact cmpStr_tr _ _ _
    case arr.arr.arr a b c =>
      exact (cmpNat_tr _ _ _).andThen fun h h' => cmpList_tr a b c ((cmpNat_eq _ _).1 h) ((cmpNat_eq _ _).1 h')
    case obj.obj.obj a b c =>
      exact (cmpNat_tr _ _ _).andThen fun h h' => cmpFields_tr a b c ((cmpNat_eq _ _).1 h) ((cmpNat_eq _ _).1 h')
    all_goals simp [Tr]
termination_by structural x => x
theorem cmpList_tr : ∀ a b c : List Json, a.length = b.length → b.length = c.length →
    Tr (cmpList a b) (cmpList b c) (cmpList a c)
  | [], [], [], _, _ => by simp [cmpList, Tr]
  | a :: l, b :: m, c :: n, h, h' => by
    simp only [cmpList]
    exact (cmp_tr a b c).andThen fun _ _ => cmpList_tr l m n (Nat.succ.inj h) (Nat.succ.inj h')
termination_by structural x => x
theorem cmpField_tr : ∀ a b c : String × Json, Tr (cmpField a b) (cmpField b c) (cmpField a c)
  | (k, v), (k', v'), (k'', v'') => by
    simp only [cmpField]
    exact (cmpStr_tr k k' k'').andThen fun _ _ => cmp_tr v v' v''
termination_by structural x => x
theorem cmpFields_tr : ∀ a b c : List (String × Json), a.length = b.length → b.length = c.length →
    Tr (cmpFields a b) (cmpFields b c) (cmpFields a c)
  | [], [], [], _, _ => by simp [cmpFields, Tr]
  | a :: l, b :: m, c :: n, h, h' => by
    simp only [cmpFields]
    exact (cmpField_tr a b c).andThen fun _ _ => cmpFields_tr l m n (Nat.succ.inj h) (Nat.succ.inj h')
termination_by structural x => x
end

theorem floatsL_length : ∀ l, (floatsL l).length = l.length
  | [] => rfl
  | _ :: l => by simp [floatsL, floatsL_length l]
theorem floatsF_length : ∀ l, (floatsF l).length = l.length
  | [] => rfl
  | _ :: l => by simp [floatsF, floatsF_length l]

theorem then_eq (x y : Ordering) : x.then y = .eq ↔ x = .eq ∧ y = .eq := by cases x <;> simp [Ordering.then]

mutual
theorem cmp_eq_iff : ∀ a b : Json, cmp a b = .eq ↔ floats a = floats b
  | a, b => by
    cases a <;> cases b <;> simp only [cmp, floats, reduceCtorEq, Json.bool.injEq, Json.num.injEq, Json.str.injEq,
      Json.arr.injEq, Json.obj.injEq, Num.mk.injEq, and_true]
    case bool.bool a b => cases a <;> cases b <;> simp [cmpBool]
    case num.num => exact cmpNum_eq _ _
    case str.str => exact cmpStr_eq _ _
    case arr.arr a b =>
      rw [then_eq, cmpNat_eq]
      constructor
      · rintro ⟨h, h'⟩; exact (cmpList_eq_iff a b h).1 h'
      · intro h
        have hl : a.length = b.length := by rw [← floatsL_length a, h, floatsL_length]
        exact ⟨hl, (cmpList_eq_iff a b hl).2 h⟩
    case obj.obj a b =>
      rw [then_eq, cmpNat_eq]
      constructor
      · rintro ⟨h, h'⟩; exact (cmpFields_eq_iff a b h).1 h'
      · intro h
        have hl : a.length = b.length := by rw [← floatsF_length a, h, floatsF_length]
        exact ⟨hl, (cmpFields_eq_iff a b hl).2 h⟩
termination_by structural x => x
theorem cmpList_eq_iff : ∀ a b : List Json, a.length = b.length → (cmpList a b = .eq ↔ floatsL a = floatsL b)
  | [], [], _ => by simp [cmpList, floatsL]
  | a :: l, b :: m, h => by
    simp only [cmpList, floatsL, List.cons.injEq, then_eq]
    rw [cmp_eq_iff a b, cmpList_eq_iff l m (Nat.succ.inj h)]
termination_by structural x => x
theorem cmpField_eq_iff : ∀ a b : String × Json, cmpField a b = .eq ↔ floatsP a = floatsP b
  | (k, v), (k', v') => by
    simp only [cmpField, floatsP, Prod.mk.injEq, then_eq, cmpStr_eq]
    rw [cmp_eq_iff v v']
termination_by structural x => x
theorem cmpFields_eq_iff : ∀ a b : List (String × Json), a.length = b.length → (cmpFields a b = .eq ↔ floatsF a = floatsF b)
  | [], [], _ => by simp [cmpFields, floatsF]
  | a :: l, b :: m, h => by
    simp only [cmpFields, floatsF, List.cons.injEq, then_eq]
    rw [cmpField_eq_iff a b, cmpFields_eq_iff l m (Nat.succ.inj h)]
termination_by structural x => x
end

/-- C18: comparison is a total preorder, in which two values are equal exactly if they are the same up to numbers with
the same value as a float. -/
theorem compare_preorder :
    (∀ a b, cmp b a = (cmp a b).swap) ∧ (∀ a b c, cmp a b ≠ .gt → cmp b c ≠ .gt → cmp a c ≠ .gt) ∧
    ∀ a b, cmp a b = .eq ↔ floats a = floats b := by
  refine ⟨cmp_swap, fun a b c h h' => ?_, cmp_eq_iff⟩
  obtain ⟨h1, h2, h3, _⟩ := cmp_tr a b c
  cases hx : cmp a b with
  | gt => exact absurd hx h
  | eq => rw [h1 hx]; exact h'
  | lt =>
    cases hy : cmp b c with
    | gt => exact absurd hy h'
    | eq => rw [h2 hy]; exact h
    | lt => rw [h3 hx hy]; simp

/-- The documented order of the types: null, booleans, numbers, strings, arrays, objects. -/
def rank : Json → Nat
  | .null => 0
  | .bool _ => 1
  | .num _ => 2
  | .str _ => 3
  | .arr _ => 4
  | .obj _ => 5

/-- C18: values of different types compare by type, arrays and objects by size first, numbers as floats, false before
true, strings by code points. -/
theorem compare_order :
    (∀ a b, rank a < rank b → cmp a b = .lt) ∧ (∀ l m : List Json, l.length < m.length → cmp (.arr l) (.arr m) = .lt) ∧
    (∀ l m : List (String × Json), l.length < m.length → cmp (.obj l) (.obj m) = .lt) ∧
    (∀ n m : Num, n.f64 < m.f64 → cmp (.num n) (.num m) = .lt) ∧ cmp (.bool false) (.bool true) = .lt ∧
    ∀ s t : String, s < t → cmp (.str s) (.str t) = .lt := by
  refine ⟨?_, ?_, ?_, ?_, rfl, ?_⟩
  · intro a b h
    cases a <;> cases b <;> simp [rank, cmp] at h ⊢
  · intro l m h; simp [cmp, cmpNat, h, Ordering.then]
  · intro l m h; simp [cmp, cmpNat, h, Ordering.then]
  · intro n m h; simp [cmp, cmpNum, h]
  · intro s t h; simp [cmp, cmpStr, h]

theorem le_totalPre : TotalPre le where
  total a b := by
    unfold le
    rw [cmp_swap a b]
    cases cmp a b <;> simp [Ordering.swap]
  trans a b c := by
    unfold le
    simp only [decide_eq_true_eq]
    exact compare_preorder.2.1 a b c

theorem le_antisymm (a b : Json) (h : le a b = true) (h' : le b a = true) : floats a = floats b := by
  unfold le at h h'
  rw [decide_eq_true_eq] at h h'
  rw [cmp_swap a b] at h'
  rw [← cmp_eq_iff]
  cases hx : cmp a b with
  | gt => exact absurd hx h
  | eq => rfl
  | lt => rw [hx] at h'; exact absurd rfl h'

/-! ### Canonical forms -/

theorem canonL_eq (l : List Json) : canonL l = l.map canon := by
  induction l with
  | nil => rfl
  | cons a l ih => rw [canonL, ih]; rfl

theorem canonF_eq (l : List (String × Json)) : canonF l = l.map fun p => (p.1, canon p.2) := by
  induction l with
  | nil => rfl
  | cons a l ih => rw [canonF, ih]; obtain ⟨k, v⟩ := a; simp only [canonP, List.map_cons]

theorem floatsL_eq (l : List Json) : floatsL l = l.map floats := by
  induction l with
  | nil => rfl
  | cons a l ih => rw [floatsL, ih]; rfl

theorem floatsF_eq (l : List (String × Json)) : floatsF l = l.map fun p => (p.1, floats p.2) := by
  induction l with
  | nil => rfl
  | cons a l ih => rw [floatsF, ih]; obtain ⟨k, v⟩ := a; simp only [floatsP, List.map_cons]

/-- Induction over JSON values. -/
theorem Json.ind {P : Json → Prop} (null : P .null) (bool : ∀ b, P (.bool b)) (num : ∀ n, P (.num n))
    (str : ∀ s, P (.str s)) (arr : ∀ l, (∀ a ∈ l, P a) → P (.arr l))
    (obj : ∀ fs, (∀ p ∈ fs, P p.2) → P (.obj fs)) (a : Json) : P a :=
  Json.rec (motive_1 := P) (motive_2 := fun l => ∀ a ∈ l, P a) (motive_3 := fun fs => ∀ p ∈ fs, P p.2)
    (motive_4 := fun p => P p.2) null bool num str arr obj (fun _ h => by cases h)
    (fun _ _ h1 h2 x hx => (List.mem_cons.1 hx).elim (fun h => h ▸ h1) (h2 x)) (fun _ h => by cases h)
    (fun _ _ h1 h2 x hx => (List.mem_cons.1 hx).elim (fun h => h ▸ h1) (h2 x)) (fun _ _ h => h) a

/-- C18: canonicalising twice is the same as once. -/
theorem canon_idem (a : Json) : canon (canon a) = canon a := by
  induction a using Json.ind with
  | null => rfl
  | bool => rfl
  | num => rfl
  | str => rfl
  | arr l ih =>
    simp only [canon, canonL_eq, Json.arr.injEq]
    have : (sortBy le (l.map canon)).map canon = sortBy le (l.map canon) := by
      refine (List.map_congr_left fun x hx => ?_).trans (List.map_id _)
      obtain ⟨a, ha, rfl⟩ := List.mem_map.1 ((sortBy_perm le _).mem_iff.1 hx)
      exact ih a ha
    rw [this, sortBy_idem le_totalPre]
  | obj fs ih =>
    simp only [canon, canonF_eq, Json.obj.injEq, List.map_map]
    refine List.map_congr_left fun p hp => ?_
    simp only [Function.comp, ih p hp]

theorem same_array (pre l m : List Json) (h : l.length = m.length) (hs : ∀ p ∈ l.zip m, Same p.1 p.2) :
    Same (.arr (pre ++ l)) (.arr (pre ++ m)) := by
  induction l generalizing pre m with
  | nil => cases m with
    | nil => exact .refl _
    | cons => cases h
  | cons a l ih => cases m with
    | nil => cases h
    | cons b m =>
      refine (Same.inArray pre l (hs (a, b) List.mem_cons_self)).trans ?_
      have := ih (pre ++ [b]) m (Nat.succ.inj h) fun p hp => hs p (List.mem_cons_of_mem _ hp)
      simpa using this

theorem same_object (f : Json → Json) (pre l : List (String × Json)) (hs : ∀ p ∈ l, Same p.2 (f p.2)) :
    Same (.obj (pre ++ l)) (.obj (pre ++ l.map fun p => (p.1, f p.2))) := by
  induction l generalizing pre with
  | nil => exact .refl _
  | cons a l ih =>
    obtain ⟨k, v⟩ := a
    refine (Same.inObject k pre l (hs (k, v) List.mem_cons_self)).trans ?_
    have := ih (pre ++ [(k, f v)]) fun p hp => hs p (List.mem_cons_of_mem _ hp)
    simpa using this

/-- C18: canonicalising only reorders elements of arrays. -/
theorem canon_same (a : Json) : Same a (canon a) := by
  induction a using Json.ind with
  | null => exact .refl _
  | bool => exact .refl _
  | num => exact .refl _
  | str => exact .refl _
  | arr l ih =>
    simp only [canon, canonL_eq]
    refine (same_array [] l (l.map canon) (by simp) fun p hp => ?_).trans (.reorder (sortBy_perm le _).symm)
    have : p ∈ l.map (fun a => (a, canon a)) := by
      have hz : ∀ l : List Json, l.zip (l.map canon) = l.map fun a => (a, canon a) := by
        intro l
        induction l with
        | nil => rfl
        | cons a l ih => simp [ih]
      rw [hz] at hp
      exact hp
    obtain ⟨a, ha, rfl⟩ := List.mem_map.1 this
    exact ih a ha
  | obj fs ih =>
    simp only [canon, canonF_eq]
    exact same_object canon [] fs ih

theorem sortBy_map {α β : Type} (leα : α → α → Bool) (leβ : β → β → Bool) (f : α → β)
    (h : ∀ a b, leβ (f a) (f b) = leα a b) (l : List α) : sortBy leβ (l.map f) = (sortBy leα l).map f := by
  have hi : ∀ a l, insertBy leβ (f a) (l.map f) = (insertBy leα a l).map f := by
    intro a l
    induction l with
    | nil => rfl
    | cons b l ih =>
      simp only [List.map_cons, insertBy, h]
      split
      · rfl
      · rw [ih]; rfl
  induction l with
  | nil => rfl
  | cons a l ih => rw [List.map_cons, sortBy, ih, hi]; rfl

theorem floats_floats (a : Json) : floats (floats a) = floats a := by
  induction a using Json.ind with
  | null => rfl
  | bool => rfl
  | num => rfl
  | str => rfl
  | arr l ih =>
    simp only [floats, floatsL_eq, Json.arr.injEq, List.map_map]
    exact List.map_congr_left fun a ha => ih a ha
  | obj fs ih =>
    simp only [floats, floatsF_eq, Json.obj.injEq, List.map_map]
    exact List.map_congr_left fun p hp => by simp only [Function.comp, ih p hp]

theorem cmp_floats (a b : Json) : cmp (floats a) (floats b) = cmp a b := by
  have h1 : cmp a (floats a) = .eq := (cmp_eq_iff _ _).2 (floats_floats a).symm
  have h2 : cmp b (floats b) = .eq := (cmp_eq_iff _ _).2 (floats_floats b).symm
  obtain ⟨k1, _⟩ := cmp_tr a (floats a) (floats b)
  obtain ⟨_, k2, _⟩ := cmp_tr a b (floats b)
  rw [← k1 h1, k2 h2]

theorem canon_floats (a : Json) : canon (floats a) = floats (canon a) := by
  induction a using Json.ind with
  | null => rfl
  | bool => rfl
  | num => rfl
  | str => rfl
  | arr l ih =>
    simp only [canon, floats, canonL_eq, floatsL_eq, Json.arr.injEq, List.map_map]
    rw [← sortBy_map le le floats (fun a b => by unfold le; rw [cmp_floats]), List.map_map]
    exact congrArg _ (List.map_congr_left fun a ha => ih a ha)
  | obj fs ih =>
    simp only [canon, floats, canonF_eq, floatsF_eq, Json.obj.injEq, List.map_map]
    exact List.map_congr_left fun p hp => by simp only [Function.comp, ih p hp]

theorem floats_canon_arr (l : List Json) : floats (canon (.arr l)) = .arr (sortBy le (l.map fun a => floats (canon a))) := by
  rw [← canon_floats]
  simp only [canon, floats, canonL_eq, floatsL_eq, List.map_map]
  exact congrArg (fun m => Json.arr (sortBy le m)) (List.map_congr_left fun a _ => canon_floats a)

theorem floats_canon_obj (fs : List (String × Json)) :
    floats (canon (.obj fs)) = .obj (fs.map fun p => (p.1, floats (canon p.2))) := by
  simp only [canon, floats, canonF_eq, floatsF_eq, List.map_map, Function.comp_def]

/-- C18: values that differ only in the order of elements of arrays have the same canonical form, up to numbers with the
same value as a float. -/
theorem canon_order_free {a b : Json} (h : Same a b) : floats (canon a) = floats (canon b) := by
  induction h with
  | refl => rfl
  | trans _ _ ih ih' => exact ih.trans ih'
  | reorder hp =>
    rw [floats_canon_arr, floats_canon_arr]
    refine congrArg Json.arr (sortBy_perm_inv le_totalPre ?_ (hp.map _))
    intro x hx y hy hxy hyx
    obtain ⟨u, _, rfl⟩ := List.mem_map.1 hx
    obtain ⟨v, _, rfl⟩ := List.mem_map.1 hy
    have := le_antisymm _ _ hxy hyx
    rwa [floats_floats, floats_floats] at this
  | inArray pre post _ ih => simp only [floats_canon_arr, List.map_append, List.map_cons, ih]
  | inObject k pre post _ ih => simp only [floats_canon_obj, List.map_append, List.map_cons, ih]

/-- The number occurs in the value. -/
inductive Occurs (n : Num) : Json → Prop
  | here : Occurs n (.num n)
  | inArray {a : Json} {l : List Json} : a ∈ l → Occurs n a → Occurs n (.arr l)
  | inObject {k : String} {a : Json} {fs : List (String × Json)} : (k, a) ∈ fs → Occurs n a → Occurs n (.obj fs)

theorem same_occurs {a b : Json} (h : Same a b) (n : Num) : Occurs n a ↔ Occurs n b := by
  induction h with
  | refl => exact Iff.rfl
  | trans _ _ ih ih' => exact ih.trans ih'
  | reorder hp =>
    constructor
    · intro h; cases h with
      | inArray h h' => exact .inArray (hp.mem_iff.1 h) h'
    · intro h; cases h with
      | inArray h h' => exact .inArray (hp.mem_iff.2 h) h'
  | inArray pre post _ ih =>
    constructor
    · intro h; cases h with
      | inArray h h' =>
        rcases List.mem_append.1 h with h | h
        · exact .inArray (List.mem_append_left _ h) h'
        · rcases List.mem_cons.1 h with rfl | h
          · exact .inArray (List.mem_append_right _ List.mem_cons_self) (ih.1 h')
          · exact .inArray (List.mem_append_right _ (List.mem_cons_of_mem _ h)) h'
    · intro h; cases h with
      | inArray h h' =>
        rcases List.mem_append.1 h with h | h
        · exact .inArray (List.mem_append_left _ h) h'
        · rcases List.mem_cons.1 h with rfl | h
          · exact .inArray (List.mem_append_right _ List.mem_cons_self) (ih.2 h')
          · exact .inArray (List.mem_append_right _ (List.mem_cons_of_mem _ h)) h'
  | inObject k pre post _ ih =>
    constructor
    · intro h; cases h with
      | inObject h h' =>
        rcases List.mem_append.1 h with h | h
        · exact .inObject (List.mem_append_left _ h) h'
        · rcases List.mem_cons.1 h with h | h
          · obtain ⟨rfl, rfl⟩ := Prod.mk.injEq .. ▸ h
            exact .inObject (List.mem_append_right _ List.mem_cons_self) (ih.1 h')
          · exact .inObject (List.mem_append_right _ (List.mem_cons_of_mem _ h)) h'
    · intro h; cases h with
      | inObject h h' =>
        rcases List.mem_append.1 h with h | h
        · exact .inObject (List.mem_append_left _ h) h'
        · rcases List.mem_cons.1 h with h | h
          · obtain ⟨rfl, rfl⟩ := Prod.mk.injEq .. ▸ h
            exact .inObject (List.mem_append_right _ List.mem_cons_self) (ih.2 h')
          · exact .inObject (List.mem_append_right _ (List.mem_cons_of_mem _ h)) h'

theorem floats_inj (a : Json) : ∀ b, (∀ n m, Occurs n a → Occurs m b → n.f64 = m.f64 → n = m) → floats a = floats b →
    a = b := by
  induction a using Json.ind with
  | null => intro b _ h; cases b <;> simp [floats] at h ⊢
  | bool => intro b _ h; cases b <;> simp [floats] at h ⊢; exact h
  | num n =>
    intro b hn h
    cases b <;> simp [floats] at h ⊢
    exact hn _ _ .here .here h
  | str => intro b _ h; cases b <;> simp [floats] at h ⊢; exact h
  | arr l ih =>
    intro b hn h
    cases b with
    | arr m =>
      simp only [floats, floatsL_eq, Json.arr.injEq] at h ⊢
      have key : ∀ l m : List Json, (∀ a ∈ l, ∀ b ∈ m, floats a = floats b → a = b) → l.map floats = m.map floats → l = m := by
        intro l
        induction l with
        | nil => intro m _ h; cases m with
          | nil => rfl
          | cons => cases h
        | cons a l ih => intro m hab h; cases m with
          | nil => cases h
          | cons b m =>
            simp only [List.map_cons, List.cons.injEq] at h
            rw [hab a List.mem_cons_self b List.mem_cons_self h.1,
              ih m (fun a ha b hb => hab a (List.mem_cons_of_mem _ ha) b (List.mem_cons_of_mem _ hb)) h.2]
      exact key l m (fun a ha b hb => ih a ha b fun n k hn' hk => hn n k (.inArray ha hn') (.inArray hb hk)) h
    | _ => simp [floats] at h
  | obj fs ih =>
    intro b hn h
    cases b with
    | obj gs =>
      simp only [floats, floatsF_eq, Json.obj.injEq] at h ⊢
      have key : ∀ l m : List (String × Json), (∀ a ∈ l, ∀ b ∈ m, floats a.2 = floats b.2 → a.2 = b.2) →
          (l.map fun p => (p.1, floats p.2)) = (m.map fun p => (p.1, floats p.2)) → l = m := by
        intro l
        induction l with
        | nil => intro m _ h; cases m with
          | nil => rfl
          | cons => cases h
        | cons a l ih => intro m hab h; cases m with
          | nil => cases h
          | cons b m =>
            simp only [List.map_cons, List.cons.injEq, Prod.mk.injEq] at h
            have := hab a List.mem_cons_self b List.mem_cons_self h.1.2
            rw [Prod.ext h.1.1 this,
              ih m (fun a ha b hb => hab a (List.mem_cons_of_mem _ ha) b (List.mem_cons_of_mem _ hb)) h.2]
      exact key fs gs (fun a ha b hb => ih a ha b.2 fun n k hn' hk => hn n k (.inObject ha hn') (.inObject hb hk)) h
    | _ => simp [floats] at h

theorem same_symm {a b : Json} (h : Same a b) : Same b a := by
  induction h with
  | refl => exact .refl _
  | trans _ _ ih ih' => exact ih'.trans ih
  | reorder hp => exact .reorder hp.symm
  | inArray pre post _ ih => exact .inArray pre post ih
  | inObject k pre post _ ih => exact .inObject k pre post ih

/-- Every array in the value, at any depth, is in ascending order. -/
inductive Ascending : Json → Prop
  | null : Ascending .null
  | bool (b : Bool) : Ascending (.bool b)
  | num (n : Num) : Ascending (.num n)
  | str (s : String) : Ascending (.str s)
  | arr {l : List Json} : l.Pairwise (fun a b => cmp a b ≠ .gt) → (∀ a ∈ l, Ascending a) → Ascending (.arr l)
  | obj {fs : List (String × Json)} : (∀ p ∈ fs, Ascending p.2) → Ascending (.obj fs)

/-- C18: every array of a canonical form is in ascending order. -/
theorem canon_ascending (a : Json) : Ascending (canon a) := by
  induction a using Json.ind with
  | null => exact .null
  | bool => exact .bool _
  | num => exact .num _
  | str => exact .str _
  | arr l ih =>
    simp only [canon, canonL_eq]
    refine .arr ?_ ?_
    · have := sortBy_sorted le_totalPre (l.map canon)
      exact List.Pairwise.imp (fun {a b} h => of_decide_eq_true h) this
    · intro x hx
      obtain ⟨a, ha, rfl⟩ := List.mem_map.1 ((sortBy_perm le _).mem_iff.1 hx)
      exact ih a ha
  | obj fs ih =>
    simp only [canon, canonF_eq]
    refine .obj fun p hp => ?_
    obtain ⟨q, hq, rfl⟩ := List.mem_map.1 hp
    exact ih q hq

/-- C61 (partial): if no two different numbers of a value have the same value as a float, its canonical form does not
depend on the order of elements of arrays. Missing: different numbers with the same value as a float, for which
`canonical_refuted` shows the claim to be false. -/
theorem canonical_partial {a b : Json} (hn : ∀ n m, Occurs n a → Occurs m a → n.f64 = m.f64 → n = m) :
    canon a = canon b ↔ Same a b := by
  constructor
  · intro h
    have h1 := canon_same a
    have h2 := canon_same b
    rw [h] at h1
    exact h1.trans (same_symm h2)
  · intro h
    refine floats_inj _ _ (fun n m hm hm' => hn n m ?_ ?_) (canon_order_free h)
    · exact (same_occurs (canon_same a) n).2 hm
    · exact (same_occurs h m).2 ((same_occurs (canon_same b) m).2 hm')

/-- Two numbers with the same value as a float: `1` and `1.0`. -/
def one : Json := .num { f64 := 1, id := 0 }
def oneF : Json := .num { f64 := 1, id := 1 }

/-- C61: `[1, 1.0]` and `[1.0, 1]` have different canonical forms. -/
theorem canonical_refuted : ¬ ∀ a b, Same a b → canon a = canon b := by
  intro h
  have := h (.arr [one, oneF]) (.arr [oneF, one]) (.reorder (List.Perm.swap _ _ _))
  have hl : sortBy le [one, oneF] = [one, oneF] := by rfl
  have hr : sortBy le [oneF, one] = [oneF, one] := by rfl
  simp only [canon, canonL_eq, List.map_cons, List.map_nil] at this
  rw [show canon one = one from rfl, show canon oneF = oneF from rfl, hl, hr] at this
  simp [one, oneF] at this

/-- A nested value in two orders. -/
def sampleA : Json := .arr [.str "b", .obj [("k", .arr [.bool true, one, .null])], .str "a"]
def sampleB : Json := .arr [.obj [("k", .arr [.null, one, .bool true])], .str "a", .str "b"]

example : canon sampleA = canon sampleB ∧ sampleA ≠ canon sampleA := by
  refine ⟨rfl, fun h => ?_⟩
  rw [show canon sampleA = .arr [.str "a", .str "b", .obj [("k", .arr [.null, .bool true, one])]] from rfl] at h
  simp [sampleA] at h

end Verif.JsonDiff
