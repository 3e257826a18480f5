import Verif.Semconv.Assoc
import Verif.Util.Forall2
/-
Laws of the functions on entity association expressions, used for C14 and C24.
-/
namespace Verif.Semconv
open Verif.Util
variable {α β γ ε : Type}

theorem leavesL_append (l l' : List (Assoc α)) : leavesL (l ++ l') = leavesL l ++ leavesL l' := by
  induction l with
  | nil => rfl
  | cons x l ih => simp [leavesL, ih]

mutual
theorem leaves_map (f : α → β) : (x : Assoc α) → leaves (mapAssoc f x) = (leaves x).map f
  | .ref a => by simp [mapAssoc, leaves]
  | .oneOf l => by simp [mapAssoc, leaves, leavesL_map f l]
  | .allOf l => by simp [mapAssoc, leaves, leavesL_map f l]
termination_by structural x => x
theorem leavesL_map (f : α → β) : (l : List (Assoc α)) → leavesL (mapAssocL f l) = (leavesL l).map f
  | [] => rfl
  | x :: l => by simp [mapAssocL, leavesL, leaves_map f x, leavesL_map f l]
termination_by structural x => x
end

mutual
theorem mapAssoc_id : (x : Assoc α) → mapAssoc (fun a => a) x = x
  | .ref a => by simp [mapAssoc]
  | .oneOf l => by simp [mapAssoc, mapAssocL_id l]
  | .allOf l => by simp [mapAssoc, mapAssocL_id l]
termination_by structural x => x
theorem mapAssocL_id : (l : List (Assoc α)) → mapAssocL (fun a => a) l = l
  | [] => rfl
  | x :: l => by simp [mapAssocL, mapAssoc_id x, mapAssocL_id l]
termination_by structural x => x
end

/-- The leaves a walk visits are the leaves of the expressions on its stack, those of one expression from right to left. -/
theorem walk_eq (stack : List (Assoc α)) : walk stack = (stack.map fun x => (leaves x).reverse).flatten := by
  have hrev : ∀ l : List (Assoc α), (l.reverse.map fun x => (leaves x).reverse).flatten = (leavesL l).reverse := by
    intro l
    induction l with
    | nil => rfl
    | cons x l ih => rw [List.reverse_cons, List.map_append, List.flatten_append, ih]; simp [leavesL]
  induction stack using walk.induct with
  | case1 => simp [walk]
  | case2 a s ih => rw [walk, ih]; simp [leaves]
  | case3 l s ih => simp only [List.unattach_reverse, List.unattach_attach] at ih; rw [walk, ih, List.map_append, List.flatten_append, hrev]; simp [leaves]
  | case4 l s ih => simp only [List.unattach_reverse, List.unattach_attach] at ih; rw [walk, ih, List.map_append, List.flatten_append, hrev]; simp [leaves]

mutual
theorem convAssoc_ok (f : α → Except ε β) : (x : Assoc α) → (y : Assoc β) → convAssoc f x = .ok y →
    Forall2 (fun a b => f a = .ok b) (leaves x) (leaves y)
  | .ref a, y, h => by
    unfold convAssoc at h
    cases hf : f a with
    | error e => rw [hf] at h; cases h
    | ok b =>
      rw [hf] at h
      have := Except.ok.inj h
      subst this
      simp only [leaves]
      exact .cons hf .nil
  | .oneOf l, y, h => by
    unfold convAssoc at h
    cases hf : convAssocL f l with
    | error e => rw [hf] at h; cases h
    | ok b =>
      rw [hf] at h
      have := Except.ok.inj h
      subst this
      simp only [leaves]
      exact convAssocL_ok f l b hf
  | .allOf l, y, h => by
    unfold convAssoc at h
    cases hf : convAssocL f l with
    | error e => rw [hf] at h; cases h
    | ok b =>
      rw [hf] at h
      have := Except.ok.inj h
      subst this
      simp only [leaves]
      exact convAssocL_ok f l b hf
termination_by structural x => x
theorem convAssocL_ok (f : α → Except ε β) : (l : List (Assoc α)) → (l' : List (Assoc β)) → convAssocL f l = .ok l' →
    Forall2 (fun a b => f a = .ok b) (leavesL l) (leavesL l')
  | [], l', h => by
    unfold convAssocL at h
    have := Except.ok.inj h
    subst this
    exact .nil
  | x :: l, l', h => by
    unfold convAssocL at h
    cases hx : convAssoc f x with
    | error e => rw [hx] at h; cases h
    | ok y =>
      rw [hx] at h
      dsimp only at h
      cases hl : convAssocL f l with
      | error e => rw [hl] at h; cases h
      | ok r =>
        rw [hl] at h
        have := Except.ok.inj h
        subst this
        simp only [leavesL]
        exact (convAssoc_ok f x y hx).append (convAssocL_ok f l r hl)
termination_by structural x => x
end

/-- If a leaf can be recovered from what it becomes, so can the whole expression. -/
theorem convAssoc_shape (f : α → Except ε β) (g : β → α) (hg : ∀ a b, f a = .ok b → g b = a) :
    (∀ x : Assoc α, ∀ y, convAssoc f x = .ok y → mapAssoc g y = x) ∧
    (∀ l : List (Assoc α), ∀ l', convAssocL f l = .ok l' → mapAssocL g l' = l) := by
  have main : ∀ n : Nat, (∀ x : Assoc α, assocSize x ≤ n → ∀ y, convAssoc f x = .ok y → mapAssoc g y = x) ∧
      (∀ l : List (Assoc α), assocSizeL l ≤ n → ∀ l', convAssocL f l = .ok l' → mapAssocL g l' = l) := by
    intro n
    induction n with
    | zero =>
      refine ⟨fun x hx => ?_, fun l hl l' h => ?_⟩
      · have := assocSize_pos x; omega
      · cases l with
        | nil => unfold convAssocL at h; have := Except.ok.inj h; subst this; rfl
        | cons x l => simp only [assocSizeL] at hl; have := assocSize_pos x; omega
    | succ n ih =>
      have h1 : ∀ x : Assoc α, assocSize x ≤ n + 1 → ∀ y, convAssoc f x = .ok y → mapAssoc g y = x := by
        intro x hx y h
        cases x with
        | ref a =>
          unfold convAssoc at h
          cases hf : f a with
          | error e => rw [hf] at h; cases h
          | ok b =>
            rw [hf] at h
            have := Except.ok.inj h
            subst this
            simp [mapAssoc, hg a b hf]
        | oneOf l =>
          unfold convAssoc at h
          cases hf : convAssocL f l with
          | error e => rw [hf] at h; cases h
          | ok b =>
            rw [hf] at h
            have := Except.ok.inj h
            subst this
            simp only [assocSize] at hx
            simp [mapAssoc, ih.2 l (by omega) b hf]
        | allOf l =>
          unfold convAssoc at h
          cases hf : convAssocL f l with
          | error e => rw [hf] at h; cases h
          | ok b =>
            rw [hf] at h
            have := Except.ok.inj h
            subst this
            simp only [assocSize] at hx
            simp [mapAssoc, ih.2 l (by omega) b hf]
      refine ⟨h1, fun l hl => ?_⟩
      induction l with
      | nil => intro l' h; unfold convAssocL at h; have := Except.ok.inj h; subst this; rfl
      | cons x l ihl =>
        intro l' h
        simp only [assocSizeL] at hl
        unfold convAssocL at h
        cases hx : convAssoc f x with
        | error e => rw [hx] at h; cases h
        | ok y =>
          rw [hx] at h
          dsimp only at h
          cases hr : convAssocL f l with
          | error e => rw [hr] at h; cases h
          | ok r =>
            rw [hr] at h
            have := Except.ok.inj h
            subst this
            have := assocSize_pos x
            simp [mapAssocL, h1 x (by omega) y hx, ihl (by omega) r hr]
  exact ⟨fun x y h => (main (assocSize x)).1 x (Nat.le_refl _) y h,
    fun l l' h => (main (assocSizeL l)).2 l (Nat.le_refl _) l' h⟩

mutual
/-- A conversion fails with the error of the first leaf, from left to right, that has one. -/
theorem convAssoc_err (f : α → Except ε β) : (x : Assoc α) → (e : ε) → (convAssoc f x = .error e ↔
    ∃ pre a post, leaves x = pre ++ a :: post ∧ f a = .error e ∧ ∀ b ∈ pre, ∃ c, f b = .ok c)
  | .ref a, e => by
    unfold convAssoc
    simp only [leaves]
    constructor
    · intro h
      cases hf : f a with
      | ok b => rw [hf] at h; cases h
      | error e' =>
        rw [hf] at h
        have := Except.error.inj h
        subst this
        exact ⟨[], a, [], rfl, hf, by simp⟩
    · rintro ⟨pre, b, post, h, hf, _⟩
      have : pre = [] := by
        cases pre with
        | nil => rfl
        | cons p pre => simp at h
      subst this
      simp only [List.nil_append, List.cons.injEq] at h
      obtain ⟨rfl, -⟩ := h
      rw [hf]
  | .oneOf l, e => by
    have := convAssocL_err f l e
    unfold convAssoc
    simp only [leaves]
    rw [← this]
    cases convAssocL f l with
    | ok _ => exact ⟨fun h => by {cases h}, fun h => by {cases h}⟩
    | error e' => exact ⟨fun h => by rw [Except.error.inj h], fun h => by rw [Except.error.inj h]⟩
  | .allOf l, e => by
    have := convAssocL_err f l e
    unfold convAssoc
    simp only [leaves]
    rw [← this]
    cases convAssocL f l with
    | ok _ => exact ⟨fun h => by {cases h}, fun h => by {cases h}⟩
    | error e' => exact ⟨fun h => by rw [Except.error.inj h], fun h => by rw [Except.error.inj h]⟩
termination_by structural x => x
theorem convAssocL_err (f : α → Except ε β) : (l : List (Assoc α)) → (e : ε) → (convAssocL f l = .error e ↔
    ∃ pre a post, leavesL l = pre ++ a :: post ∧ f a = .error e ∧ ∀ b ∈ pre, ∃ c, f b = .ok c)
  | [], e => by
    unfold convAssocL
    simp only [leavesL]
    constructor
    · intro h; cases h
    · rintro ⟨pre, a, post, h, _⟩; simp at h
  | x :: l, e => by
    have hx := convAssoc_err f x
    have hl := convAssocL_err f l
    have hok := convAssoc_ok f x
    unfold convAssocL
    simp only [leavesL]
    cases hc : convAssoc f x with
    | error e' =>
      dsimp only
      obtain ⟨pre, a, post, h1, h2, h3⟩ := (hx e').1 hc
      constructor
      · intro h
        have := Except.error.inj h
        subst this
        exact ⟨pre, a, post ++ leavesL l, by simp [h1], h2, h3⟩
      · rintro ⟨pre', a', post', h1', h2', h3'⟩
        rw [h1, List.append_assoc] at h1'
        have : pre = pre' ∧ a = a' := by
          rcases Nat.lt_trichotomy pre.length pre'.length with hlt | heq | hgt
          · exfalso
            have hmem : a ∈ pre' := by
              have : pre' = (pre' ++ a' :: post').take pre'.length := by simp
              rw [this, ← h1', List.mem_take_iff_getElem]
              exact ⟨pre.length, by simp; omega, by simp⟩
            obtain ⟨c, hc'⟩ := h3' a hmem
            rw [h2] at hc'; cases hc'
          · have := List.append_inj h1' heq
            simp only [List.cons_append, List.cons.injEq] at this
            exact ⟨this.1, this.2.1⟩
          · exfalso
            have hmem : a' ∈ pre := by
              have : pre = (pre ++ (a :: post ++ leavesL l)).take pre.length := by simp
              rw [this, h1', List.mem_take_iff_getElem]
              exact ⟨pre'.length, by simp; omega, by simp⟩
            obtain ⟨c, hc'⟩ := h3 a' hmem
            rw [h2'] at hc'; cases hc'
        obtain ⟨rfl, rfl⟩ := this
        rw [h2] at h2'
        rw [Except.error.inj h2']
    | ok y =>
      dsimp only
      have hall : ∀ a ∈ leaves x, ∃ b, f a = .ok b := by
        intro a ha
        obtain ⟨b, -, hb⟩ := (hok y hc).mem_left ha
        exact ⟨b, hb⟩
      have : (convAssocL f l = .error e ↔ _) := hl e
      constructor
      · intro h
        cases hr : convAssocL f l with
        | ok r => rw [hr] at h; cases h
        | error e' =>
          rw [hr] at h
          have := Except.error.inj h
          subst this
          obtain ⟨pre, a, post, h1, h2, h3⟩ := (hl e').1 hr
          refine ⟨leaves x ++ pre, a, post, by simp [h1], h2, ?_⟩
          intro b hb
          rcases List.mem_append.1 hb with hb | hb
          · exact hall b hb
          · exact h3 b hb
      · rintro ⟨pre, a, post, h1, h2, h3⟩
        have : ∃ pre2, pre = leaves x ++ pre2 := by
          rcases List.append_eq_append_iff.1 h1 with ⟨as, h, _⟩ | ⟨bs, h, h'⟩
          · exact ⟨as, h⟩
          · cases bs with
            | nil => exact ⟨[], by simpa using h.symm⟩
            | cons b bs =>
              exfalso
              simp only [List.cons_append, List.cons.injEq] at h'
              obtain ⟨c, hc'⟩ := hall a (by rw [h, h'.1]; simp)
              rw [h2] at hc'; cases hc'
        obtain ⟨pre2, rfl⟩ := this
        rw [List.append_assoc] at h1
        have h1 := List.append_cancel_left h1
        have := (hl e).2 ⟨pre2, a, post, h1, h2, fun b hb => h3 b (List.mem_append.2 (.inr hb))⟩
        rw [this]
termination_by structural x => x
end

end Verif.Semconv
