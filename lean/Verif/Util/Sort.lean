/-
Stable insertion sort, used wherever the Rust code calls a stable sort (`sort`, `sort_by`, `sort_by_key`), or
collects into a `BTreeMap`/`BTreeSet`. For a total preorder the result of a stable sort is unique, so any stable
sorting algorithm models the standard library's one; this one reduces in the kernel.
-/
namespace Verif.Util

variable {α : Type}

/-- Insert `a` before the first element it is `≤`. -/
def insertBy (le : α → α → Bool) (a : α) : List α → List α
  | [] => [a]
  | b :: l => if le a b then a :: b :: l else b :: insertBy le a l

/-- Stable sort by `le`. -/
def sortBy (le : α → α → Bool) : List α → List α
  | [] => []
  | a :: l => insertBy le a (sortBy le l)

/-- `le` is a total preorder. -/
structure TotalPre (le : α → α → Bool) : Prop where
  total : ∀ a b, le a b = true ∨ le b a = true
  trans : ∀ a b c, le a b = true → le b c = true → le a c = true

theorem TotalPre.refl {le : α → α → Bool} (h : TotalPre le) (a : α) : le a a = true := by
  cases h.total a a <;> assumption

/-- Sortedness with respect to a Boolean relation. -/
def Sorted (le : α → α → Bool) (l : List α) : Prop := l.Pairwise (fun a b => le a b = true)

theorem insertBy_perm (le : α → α → Bool) (a : α) (l : List α) : (insertBy le a l).Perm (a :: l) := by
  induction l with
  | nil => exact List.Perm.refl _
  | cons b l ih =>
    unfold insertBy; split
    · exact List.Perm.refl _
    · exact (List.Perm.cons b ih).trans (List.Perm.swap a b l)

theorem sortBy_perm (le : α → α → Bool) (l : List α) : (sortBy le l).Perm l := by
  induction l with
  | nil => exact List.Perm.refl _
  | cons a l ih => exact (insertBy_perm le a _).trans (List.Perm.cons a ih)

@[simp] theorem mem_sortBy {le : α → α → Bool} {l : List α} {x : α} : x ∈ sortBy le l ↔ x ∈ l :=
  (sortBy_perm le l).mem_iff

@[simp] theorem length_sortBy (le : α → α → Bool) (l : List α) : (sortBy le l).length = l.length :=
  (sortBy_perm le l).length_eq

theorem insertBy_sorted {le : α → α → Bool} (h : TotalPre le) (a : α) (l : List α) (hl : Sorted le l) :
    Sorted le (insertBy le a l) := by
  induction l with
  | nil => simp [insertBy, Sorted]
  | cons b l ih =>
    unfold Sorted at hl ih ⊢
    rw [List.pairwise_cons] at hl
    unfold insertBy; split
    · rename_i hab
      refine List.pairwise_cons.2 ⟨?_, List.pairwise_cons.2 hl⟩
      intro c hc
      rcases List.mem_cons.1 hc with rfl | hc
      · exact hab
      · exact h.trans _ _ _ hab (hl.1 c hc)
    · rename_i hab
      refine List.pairwise_cons.2 ⟨?_, ih hl.2⟩
      intro c hc
      rcases List.mem_cons.1 ((insertBy_perm le a l).mem_iff.1 hc) with rfl | hc
      · rcases h.total b c with h1 | h1
        · exact h1
        · exact absurd h1 hab
      · exact hl.1 c hc

theorem sortBy_sorted {le : α → α → Bool} (h : TotalPre le) (l : List α) : Sorted le (sortBy le l) := by
  induction l with
  | nil => simp [sortBy, Sorted]
  | cons a l ih => exact insertBy_sorted h a _ ih

theorem insertBy_of_le {le : α → α → Bool} {a : α} {l : List α} (h : ∀ b ∈ l, le a b = true) :
    insertBy le a l = a :: l := by
  cases l with
  | nil => rfl
  | cons b l => simp [insertBy, h b (List.mem_cons_self ..)]

/-- A sorted list is a fixed point of the sort. -/
theorem sortBy_of_sorted {le : α → α → Bool} {l : List α} (h : Sorted le l) : sortBy le l = l := by
  induction l with
  | nil => rfl
  | cons a l ih =>
    unfold Sorted at h ih
    rw [List.pairwise_cons] at h
    rw [sortBy, ih h.2, insertBy_of_le h.1]

theorem sortBy_idem {le : α → α → Bool} (h : TotalPre le) (l : List α) :
    sortBy le (sortBy le l) = sortBy le l := sortBy_of_sorted (sortBy_sorted h l)

/-- Two sorted permutations of each other are equal when `le` is antisymmetric on their elements. -/
theorem eq_of_sorted_perm {le : α → α → Bool} {l₁ l₂ : List α}
    (anti : ∀ a ∈ l₁, ∀ b ∈ l₁, le a b = true → le b a = true → a = b)
    (h₁ : Sorted le l₁) (h₂ : Sorted le l₂) (hp : l₁.Perm l₂) : l₁ = l₂ := by
  induction l₁ generalizing l₂ with
  | nil => exact (hp.nil_eq)
  | cons a l₁ ih =>
    cases l₂ with
    | nil => exact absurd hp.symm.nil_eq (by simp)
    | cons b l₂ =>
      unfold Sorted at h₁ h₂ ih
      rw [List.pairwise_cons] at h₁ h₂
      have hab : a = b := by
        rcases List.mem_cons.1 (hp.mem_iff.1 (List.mem_cons_self ..)) with h | h
        · exact h
        · rcases List.mem_cons.1 (hp.mem_iff.2 (List.mem_cons_self (a := b) (l := l₂))) with h' | h'
          · exact h'.symm
          · exact anti a (by simp) b (by simp [h']) (h₁.1 b h') (h₂.1 a h)
      subst hab
      rw [ih (fun x hx y hy => anti x (by simp [hx]) y (by simp [hy])) h₁.2 h₂.2 (List.Perm.cons_inv hp)]

/-- Sorting forgets the input order when the order is antisymmetric on the elements. -/
theorem sortBy_perm_inv {le : α → α → Bool} (h : TotalPre le) {l₁ l₂ : List α}
    (anti : ∀ a ∈ l₁, ∀ b ∈ l₁, le a b = true → le b a = true → a = b) (hp : l₁.Perm l₂) :
    sortBy le l₁ = sortBy le l₂ := by
  refine eq_of_sorted_perm (le := le) ?_ (sortBy_sorted h _) (sortBy_sorted h _)
    (((sortBy_perm le l₁).trans hp).trans (sortBy_perm le l₂).symm)
  intro a ha b hb
  exact anti a (mem_sortBy.1 ha) b (mem_sortBy.1 hb)

theorem insertBy_filter (le : α → α → Bool) (p : α → Bool) (a : α) (l : List α)
    (hp : ∀ b ∈ l, p b = true → p a = true → le a b = true) (ha : p a = true) :
    (insertBy le a l).filter p = a :: l.filter p := by
  induction l with
  | nil => simp [insertBy, ha]
  | cons b l ih =>
    unfold insertBy; split
    · simp [ha]
    · rename_i hab
      have hb : p b = false := by
        cases hpb : p b with
        | false => rfl
        | true => exact absurd (hp b (by simp) hpb ha) (by simpa using hab)
      simp [hb, ih (fun c hc => hp c (by simp [hc]))]

theorem insertBy_filter_neg (le : α → α → Bool) (p : α → Bool) (a : α) (l : List α) (ha : p a = false) :
    (insertBy le a l).filter p = l.filter p := by
  induction l with
  | nil => simp [insertBy, ha]
  | cons b l ih =>
    unfold insertBy; split
    · simp [ha]
    · simp [List.filter_cons, ih]

/-- Stability: among the elements of a class on which `le` always holds, the original order is kept. -/
theorem sortBy_stable (le : α → α → Bool) (p : α → Bool) (l : List α)
    (hp : ∀ a ∈ l, ∀ b ∈ l, p a = true → p b = true → le a b = true) :
    (sortBy le l).filter p = l.filter p := by
  induction l with
  | nil => rfl
  | cons a l ih =>
    have ih := ih (fun x hx y hy => hp x (by simp [hx]) y (by simp [hy]))
    cases ha : p a with
    | false => rw [sortBy, insertBy_filter_neg _ _ _ _ ha, ih]; simp [ha]
    | true =>
      rw [sortBy, insertBy_filter _ _ _ _ ?_ ha, ih]
      · simp [ha]
      · intro b hb hpb _
        exact hp a (by simp) b (by simp [mem_sortBy.1 hb]) ha hpb

/-- The order by a natural-number key, descending (`sort_by_key(|x| Reverse(key x))`). -/
def geKey (key : α → Nat) (a b : α) : Bool := decide (key b ≤ key a)

theorem geKey_totalPre (key : α → Nat) : TotalPre (geKey key) where
  total a b := by simp only [geKey, decide_eq_true_eq]; omega
  trans a b c := by simp only [geKey, decide_eq_true_eq]; omega

/-- `find?` on a list sorted by descending key returns an element with the greatest key among the matches. -/
theorem find?_geKey_max {key : α → Nat} {p : α → Bool} {l : List α} (hs : Sorted (geKey key) l) {a : α}
    (h : l.find? p = some a) : ∀ b ∈ l, p b = true → key b ≤ key a := by
  induction l with
  | nil => simp at h
  | cons c l ih =>
    unfold Sorted at hs ih
    rw [List.pairwise_cons] at hs
    intro b hb hpb
    by_cases hc : p c = true
    · simp [List.find?_cons, hc] at h
      subst h
      rcases List.mem_cons.1 hb with rfl | hb
      · omega
      · simpa [geKey] using hs.1 b hb
    · simp only [Bool.not_eq_true] at hc
      simp [List.find?_cons, hc] at h
      rcases List.mem_cons.1 hb with rfl | hb
      · simp [hpb] at hc
      · exact ih hs.2 h b hb hpb

end Verif.Util
