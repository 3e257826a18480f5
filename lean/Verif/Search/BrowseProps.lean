import Verif.Search.Model
/-
Browsing namespaces (C28) and looking definitions up (C68, C69).
-/
namespace Verif.Search
open Verif.Util

/-! ### Specification -/

/-- `k` is `rest` below the namespace `p`; everything is below the empty namespace. -/
def Rest (sep p k rest : Chars) : Prop := (p = [] ∧ k = rest) ∨ (p ≠ [] ∧ k = p ++ sep ++ rest)

/-- The key lies below the namespace. -/
def Under (sep p k : Chars) : Prop := ∃ rest, Rest sep p k rest

/-- The key lies below the (possibly nameless) namespace `n`: it is `n`, a separator, and something more. -/
def Above (sep n k : Chars) : Prop := n ++ sep <+: k

instance (sep n k : Chars) : Decidable (Above sep n k) := inferInstanceAs (Decidable (n ++ sep <+: k))

/-- The key is directly in the namespace. -/
def Direct (sep p k : Chars) : Prop := ∃ rest, Rest sep p k rest ∧ ¬ sep <:+: rest

/-- The number of levels of a text: one more than the number of its separators, counted from the left without overlap. -/
inductive Levels (sep : Chars) : Chars → Nat → Prop
  | leaf {s : Chars} : ¬ sep <:+: s → Levels sep s 1
  | node {a b : Chars} {n : Nat} : (∀ a' b', a ++ sep ++ b = a' ++ sep ++ b' → a.length ≤ a'.length) →
      Levels sep b n → Levels sep (a ++ sep ++ b) (n + 1)

/-! ### The remainder -/

theorem remainder_iff {sep p k rest : Chars} : remainder sep p k = some rest ↔ Rest sep p k rest := by
  unfold remainder Rest
  by_cases hp : p = []
  · simp [hp]
  · rw [if_neg hp]
    simp only [hp, false_and, ne_eq, not_false_eq_true, true_and, false_or]
    cases e : dropPrefix? p k with
    | none =>
      simp only [reduceCtorEq, false_iff]
      rintro rfl
      exact dropPrefix?_none.1 e ⟨sep ++ rest, by simp⟩
    | some r =>
      dsimp only
      rw [dropPrefix?_iff, dropPrefix?_iff.1 e, List.append_assoc, List.append_cancel_left_eq]

theorem rest_unique {sep p k a b : Chars} (h : Rest sep p k a) (h' : Rest sep p k b) : a = b := by
  have := remainder_iff.2 h
  rw [remainder_iff.2 h'] at this
  exact (Option.some.inj this).symm

/-- The key is below the prefix. -/
def isUnder (sep p : Chars) (e : String × Item) : Bool := (remainder sep p e.1.toList).isSome

/-- The sub-namespace of a key, if it has one. -/
def subOf (sep p : Chars) (e : String × Item) : Option String :=
  match remainder sep p e.1.toList with
  | none => none
  | some rem =>
    match splitFirst sep rem with
    | some seg => some (String.ofList (if p = [] then seg.1 else p ++ sep ++ seg.1))
    | none => none

/-- The key is directly below the prefix. -/
def isDirect (sep p : Chars) (e : String × Item) : Bool := isUnder sep p e && (subOf sep p e).isNone

/-- The depth of a key. -/
def depthOf (sep p : Chars) (e : String × Item) : Nat :=
  match remainder sep p e.1.toList with
  | none => 0
  | some rem => countSub sep 0 rem + 1

theorem isUnder_iff {sep p : Chars} {e : String × Item} : isUnder sep p e = true ↔ Under sep p e.1.toList := by
  unfold isUnder Under
  rw [Option.isSome_iff_exists]
  exact exists_congr (fun _ => remainder_iff)

theorem isDirect_iff {sep p : Chars} {e : String × Item} : isDirect sep p e = true ↔ Direct sep p e.1.toList := by
  unfold isDirect Direct isUnder subOf
  cases h : remainder sep p e.1.toList with
  | none =>
    simp only [Option.isSome_none, Bool.false_and, Bool.false_eq_true, false_iff]
    rintro ⟨r, hr, _⟩
    rw [remainder_iff.2 hr] at h
    cases h
  | some rem =>
    dsimp only
    have hr := remainder_iff.1 h
    cases h2 : splitFirst sep rem with
    | none =>
      simp only [Option.isSome_some, Option.isNone_none, Bool.and_self, true_iff]
      exact ⟨rem, hr, splitFirst_none.1 h2⟩
    | some seg =>
      simp only [Option.isSome_some, Option.isNone_some, Bool.and_false, Bool.false_eq_true, false_iff]
      rintro ⟨r, hr', hn⟩
      rw [rest_unique hr' hr] at hn
      rw [splitFirst_none.2 hn] at h2
      cases h2

/-- The sub-namespace of a key: the prefix and the text before the first separator of the rest. -/
theorem subOf_iff {sep p : Chars} {e : String × Item} {n : String} :
    subOf sep p e = some n ↔ ∃ rem seg, remainder sep p e.1.toList = some rem ∧ splitFirst sep rem = some seg ∧
      n.toList = if p = [] then seg.1 else p ++ sep ++ seg.1 := by
  unfold subOf
  constructor
  · intro h
    split at h
    · cases h
    · rename_i rem hrem
      split at h
      · rename_i seg hseg
        refine ⟨rem, seg, hrem, hseg, ?_⟩
        rw [← Option.some.inj h]
        simp
      · cases h
  · rintro ⟨rem, seg, h1, h2, h3⟩
    simp only [h1, h2]
    rw [← h3, String.ofList_toList]

instance (sep p k : Chars) : Decidable (Under sep p k) :=
  decidable_of_iff (isUnder sep p (String.ofList k, ⟨.attribute, "", "", "", false, .stable, false, 0⟩) = true)
    (by rw [isUnder_iff]; simp)

instance (sep p k : Chars) : Decidable (Direct sep p k) :=
  decidable_of_iff (isDirect sep p (String.ofList k, ⟨.attribute, "", "", "", false, .stable, false, 0⟩) = true)
    (by rw [isDirect_iff]; simp)

/-! ### The loop -/

structure LoopSpec (sep p : Chars) (entries : List (String × Item)) (st : BState) (st' : BState) : Prop where
  total : st'.total = st.total + (entries.filter (isUnder sep p)).length
  direct : st'.direct = st.direct ++ entries.filter (isDirect sep p)
  sorted : KeySorted st.subs → KeySorted st'.subs
  subs : ∀ n, n ∈ st'.subs.map Prod.fst ↔ n ∈ st.subs.map Prod.fst ∨ ∃ e ∈ entries, subOf sep p e = some n
  depthLe : st.depth ≤ st'.depth ∧ ∀ e ∈ entries, depthOf sep p e ≤ st'.depth
  depthAt : st'.depth = st.depth ∨ ∃ e ∈ entries, isUnder sep p e = true ∧ st'.depth = depthOf sep p e

theorem loop_spec (sep p : Chars) (entries : List (String × Item)) (st : BState) :
    LoopSpec sep p entries st (entries.foldl (browseStep sep p) st) := by
  induction entries generalizing st with
  | nil => exact ⟨by simp, by simp, id, by simp, ⟨Nat.le_refl _, by simp⟩, Or.inl rfl⟩
  | cons e l ih =>
    have ih := ih (browseStep sep p st e)
    rw [List.foldl_cons]
    generalize List.foldl (browseStep sep p) (browseStep sep p st e) l = st' at ih
    cases h : remainder sep p e.1.toList with
    | none =>
      have hs : browseStep sep p st e = st := by unfold browseStep; rw [h]
      have hu : isUnder sep p e = false := by unfold isUnder; rw [h]; rfl
      have hd : isDirect sep p e = false := by unfold isDirect; rw [hu]; rfl
      have hsub : subOf sep p e = none := by unfold subOf; rw [h]
      have hdep : depthOf sep p e = 0 := by unfold depthOf; rw [h]
      rw [hs] at ih
      refine ⟨by rw [ih.total]; simp [hu], by rw [ih.direct]; simp [hd], ih.sorted, ?_, ⟨ih.depthLe.1, ?_⟩, ?_⟩
      · intro n
        rw [ih.subs]
        simp [hsub]
      · intro x hx
        rcases List.mem_cons.1 hx with rfl | hx
        · rw [hdep]; exact Nat.zero_le _
        · exact ih.depthLe.2 x hx
      · rcases ih.depthAt with h | ⟨x, hx, h⟩
        · exact Or.inl h
        · exact Or.inr ⟨x, by simp [hx], h⟩
    | some rem =>
      have hu : isUnder sep p e = true := by unfold isUnder; rw [h]; rfl
      have hdep : depthOf sep p e = countSub sep 0 rem + 1 := by unfold depthOf; rw [h]
      have hdepth : (browseStep sep p st e).depth = max st.depth (depthOf sep p e) := by
        unfold browseStep
        rw [h, hdep]
        dsimp only
        split <;> dsimp only <;> split <;> omega
      have htotal : (browseStep sep p st e).total = st.total + 1 := by
        unfold browseStep
        rw [h]
        dsimp only
        split <;> rfl
      have hdepths : (st.depth ≤ st'.depth ∧ ∀ x ∈ e :: l, depthOf sep p x ≤ st'.depth) ∧
          (st'.depth = st.depth ∨ ∃ x ∈ e :: l, isUnder sep p x = true ∧ st'.depth = depthOf sep p x) := by
        have h1 := ih.depthLe
        rw [hdepth] at h1
        refine ⟨⟨by omega, ?_⟩, ?_⟩
        · intro x hx
          rcases List.mem_cons.1 hx with rfl | hx
          · omega
          · exact h1.2 x hx
        · rcases ih.depthAt with h2 | ⟨x, hx, h2⟩
          · rw [hdepth] at h2
            by_cases hle : st.depth ≤ depthOf sep p e
            · exact Or.inr ⟨e, by simp, hu, by omega⟩
            · exact Or.inl (by omega)
          · exact Or.inr ⟨x, by simp [hx], h2⟩
      have htot : st'.total = st.total + ((e :: l).filter (isUnder sep p)).length := by
        rw [ih.total, htotal]
        simp [hu]
        omega
      cases h2 : splitFirst sep rem with
      | none =>
        have hsub : subOf sep p e = none := by unfold subOf; rw [h]; simp only [h2]
        have hd : isDirect sep p e = true := by unfold isDirect; rw [hu, hsub]; rfl
        have e1 : (browseStep sep p st e).direct = st.direct ++ [e] := by unfold browseStep; rw [h]; simp only [h2]
        have e2 : (browseStep sep p st e).subs = st.subs := by unfold browseStep; rw [h]; simp only [h2]
        refine ⟨htot, by rw [ih.direct, e1]; simp [hd], e2 ▸ ih.sorted, ?_, hdepths.1, hdepths.2⟩
        intro n
        rw [ih.subs, e2]
        simp [hsub]
      | some seg =>
        have hsub : subOf sep p e = some (String.ofList (if p = [] then seg.1 else p ++ sep ++ seg.1)) := by
          unfold subOf; rw [h]; simp only [h2]
        have hd : isDirect sep p e = false := by unfold isDirect; rw [hu, hsub]; rfl
        have e1 : (browseStep sep p st e).direct = st.direct := by unfold browseStep; rw [h]; simp only [h2]
        have e2 : (browseStep sep p st e).subs =
            bins (String.ofList (if p = [] then seg.1 else p ++ sep ++ seg.1)) () st.subs := by
          unfold browseStep; rw [h]; simp only [h2]
        refine ⟨htot, by rw [ih.direct, e1]; simp [hd], ?_, ?_, hdepths.1, hdepths.2⟩
        · intro hk
          exact ih.sorted (e2 ▸ keySorted_bins hk)
        · intro n
          rw [ih.subs, e2, keys_bins_mem]
          simp only [List.mem_cons, exists_eq_or_imp, hsub, Option.some.injEq]
          constructor
          · rintro ((h | h) | h)
            · exact Or.inr (Or.inl h.symm)
            · exact Or.inl h
            · exact Or.inr (Or.inr h)
          · rintro (h | h | h)
            · exact Or.inl (Or.inr h)
            · exact Or.inl (Or.inl h.symm)
            · exact Or.inr h

/-! ### Sub-namespaces -/

theorem above_of_subOf {sep p : Chars} {e : String × Item} {n : String} (h : subOf sep p e = some n) :
    Above sep n.toList e.1.toList := by
  obtain ⟨rem, seg, h1, h2, h3⟩ := subOf_iff.1 h
  have e2 := splitFirst_eq h2
  rcases remainder_iff.1 h1 with ⟨hp, hk⟩ | ⟨hp, hk⟩
  · rw [if_pos hp] at h3
    unfold Above
    rw [h3, hk, e2]
    exact ⟨seg.2, rfl⟩
  · rw [if_neg hp] at h3
    unfold Above
    rw [h3, hk, e2]
    exact ⟨seg.2, by simp⟩

/-- A key below a listed sub-namespace has that sub-namespace. -/
theorem subOf_of_above {sep p : Chars} {e e' : String × Item} {n : String} (h : subOf sep p e' = some n)
    (ha : Above sep n.toList e.1.toList) : subOf sep p e = some n := by
  obtain ⟨rem', seg', h1', h2', h3'⟩ := subOf_iff.1 h
  have heq' := splitFirst_eq (a := seg'.1) (b := seg'.2) h2'
  have hfirst' := fun a' b' hx => splitFirst_first (a := seg'.1) (b := seg'.2) h2' (a' := a') (b' := b') hx
  obtain ⟨t, ht⟩ := ha
  -- what is left of `e` below the prefix
  have hrem : remainder sep p e.1.toList = some (seg'.1 ++ sep ++ t) := by
    rw [remainder_iff]
    by_cases hp : p = []
    · rw [if_pos hp] at h3'
      exact Or.inl ⟨hp, by rw [← ht, h3']⟩
    · rw [if_neg hp] at h3'
      exact Or.inr ⟨hp, by rw [← ht, h3']; simp⟩
  cases hs : splitFirst sep (seg'.1 ++ sep ++ t) with
  | none => exact absurd ⟨seg'.1, t, rfl⟩ (splitFirst_none.1 hs)
  | some seg =>
    refine subOf_iff.2 ⟨_, seg, hrem, hs, ?_⟩
    suffices hseg : seg.1 = seg'.1 by rw [hseg]; exact h3'
    have heq := splitFirst_eq (a := seg.1) (b := seg.2) hs
    have hle : seg.1.length ≤ seg'.1.length := splitFirst_first (a := seg.1) (b := seg.2) hs rfl
    -- both `seg ++ sep` and `seg' ++ sep` start the same text
    have hp1 : seg.1 ++ sep <+: seg'.1 ++ sep :=
      List.prefix_of_prefix_length_le ⟨seg.2, heq.symm⟩ ⟨t, rfl⟩ (by simp; omega)
    obtain ⟨x, hx⟩ := hp1
    have hge : seg'.1.length ≤ seg.1.length := by
      refine hfirst' seg.1 (x ++ seg'.2) ?_
      rw [heq', ← hx]
      simp only [List.append_assoc]
    have hpre : seg.1 <+: seg'.1 :=
      List.prefix_of_prefix_length_le (l₃ := seg'.1 ++ sep ++ t)
        ⟨sep ++ seg.2, by rw [← List.append_assoc]; exact heq.symm⟩ ⟨sep ++ t, by simp⟩ hle
    exact hpre.eq_of_length (by omega)

theorem not_direct_of_subOf {sep p : Chars} {e : String × Item} {n : String} (h : subOf sep p e = some n) :
    isDirect sep p e = false := by
  unfold isDirect
  rw [h]
  simp

theorem under_cases {sep p : Chars} {e : String × Item} (h : isUnder sep p e = true) :
    isDirect sep p e = true ∨ ∃ n, subOf sep p e = some n := by
  unfold isDirect
  rw [h]
  cases hs : subOf sep p e with
  | none => exact Or.inl rfl
  | some n => exact Or.inr ⟨n, rfl⟩

theorem under_of_subOf {sep p : Chars} {e : String × Item} {n : String} (h : subOf sep p e = some n) :
    isUnder sep p e = true := by
  obtain ⟨rem, _, h1, _⟩ := subOf_iff.1 h
  unfold isUnder
  rw [h1]
  rfl

theorem under_of_direct {sep p : Chars} {e : String × Item} (h : isDirect sep p e = true) : isUnder sep p e = true := by
  unfold isDirect at h
  exact (Bool.and_eq_true_iff.1 h).1

/-! ### Counting -/

theorem sum_indicator {ns : List String} (hn : ns.Nodup) (o : Option String) :
    (ns.map (fun n => if o = some n then 1 else 0)).sum = if ∃ n ∈ ns, o = some n then 1 else 0 := by
  induction ns with
  | nil => simp
  | cons m ns ih =>
    have hn := List.nodup_cons.1 hn
    rw [List.map_cons, List.sum_cons, ih hn.2]
    by_cases h : o = some m
    · subst h
      have : ¬ ∃ n ∈ ns, some m = some n := by
        rintro ⟨n, h1, h2⟩
        exact hn.1 (Option.some.inj h2 ▸ h1)
      rw [if_pos rfl, if_neg this, if_pos ⟨m, by simp, rfl⟩]
    · rw [if_neg h]
      by_cases h2 : ∃ n ∈ ns, o = some n
      · rw [if_pos h2, if_pos (by obtain ⟨n, a, b⟩ := h2; exact ⟨n, by simp [a], b⟩)]
      · rw [if_neg h2, if_neg]
        rintro ⟨n, a, b⟩
        rcases List.mem_cons.1 a with rfl | a
        · exact h b
        · exact h2 ⟨n, a, b⟩

theorem sum_map_add' (l : List String) (f g : String → Nat) :
    (l.map (fun n => f n + g n)).sum = (l.map f).sum + (l.map g).sum := by
  induction l with
  | nil => rfl
  | cons a l ih => simp only [List.map_cons, List.sum_cons, ih]; omega

theorem sum_zero' (l : List String) : (l.map (fun _ => 0)).sum = 0 := by
  induction l with
  | nil => rfl
  | cons a l ih => rw [List.map_cons, List.sum_cons, ih]

/-- The sub-namespaces share out the keys that have one. -/
theorem count_subs {sep p : Chars} {ns : List String} (hn : ns.Nodup) (l : List (String × Item))
    (h : ∀ e ∈ l, ∀ n, subOf sep p e = some n → n ∈ ns) :
    (l.filter (isUnder sep p)).length = (l.filter (isDirect sep p)).length +
      (ns.map (fun n => (l.filter (fun e => decide (subOf sep p e = some n))).length)).sum := by
  induction l with
  | nil => simp [sum_zero']
  | cons e l ih =>
    have ih := ih (fun x hx => h x (by simp [hx]))
    have hsplit : ∀ n, ((e :: l).filter (fun e => decide (subOf sep p e = some n))).length =
        (if subOf sep p e = some n then 1 else 0) + (l.filter (fun e => decide (subOf sep p e = some n))).length := by
      intro n
      rw [List.filter_cons]
      by_cases hs : subOf sep p e = some n
      · simp [hs]; omega
      · simp [hs]
    simp only [hsplit]
    rw [sum_map_add', sum_indicator hn]
    by_cases hu : isUnder sep p e = true
    · rcases under_cases hu with hd | ⟨n, hs⟩
      · have hs : subOf sep p e = none := by
          unfold isDirect at hd
          simpa using (Bool.and_eq_true_iff.1 hd).2
        rw [if_neg (by rw [hs]; rintro ⟨n, _, h⟩; cases h)]
        simp only [List.filter_cons, hu, hd, if_true, List.length_cons]
        omega
      · rw [if_pos ⟨n, h e (by simp) n hs, hs⟩]
        simp only [List.filter_cons, hu, not_direct_of_subOf hs, if_true, List.length_cons, Bool.false_eq_true, if_false]
        omega
    · have hd : isDirect sep p e = false := by
        cases hd : isDirect sep p e with
        | false => rfl
        | true => exact absurd (under_of_direct hd) hu
      have hs : subOf sep p e = none := by
        cases hs : subOf sep p e with
        | none => rfl
        | some n => exact absurd (under_of_subOf hs) hu
      rw [if_neg (by rw [hs]; rintro ⟨n, _, h⟩; cases h)]
      simp only [List.filter_cons, hu, hd, if_false, Bool.false_eq_true]
      omega

/-! ### C28 -/

/-- The number of entries whose key lies below `n`. -/
def countAbove (sep n : Chars) (entries : List (String × Item)) : Nat :=
  (entries.filter (fun e => decide (Above sep n e.1.toList))).length

theorem keyLe_totalPre : TotalPre keyLe where
  total a b := by
    simp only [keyLe, decide_eq_true_eq]
    rcases str_trichotomy a.1 b.1 with h | h | h
    · exact Or.inl (String.lt_asymm h)
    · rw [h]; exact Or.inl (String.lt_irrefl _)
    · exact Or.inr (String.lt_asymm h)
  trans a b c := by
    simp only [keyLe, decide_eq_true_eq]
    intro h1 h2 h3
    rcases str_trichotomy a.1 b.1 with h | h | h
    · exact h2 (String.lt_trans h3 h)
    · exact h2 (h ▸ h3)
    · exact h1 h

/-- What an answer about the namespace `p` says about the attributes (keys with their definitions) of a registry. -/
structure Partition (sep p : Chars) (entries : List (String × Item)) (info : NsInfo) : Prop where
  /-- the attributes listed are those directly in the namespace, each once, in the order of their keys -/
  listed : info.attrs.Perm (entries.filter (fun e => decide (Direct sep p e.1.toList)))
  listedSorted : info.attrs.Pairwise (fun a b => ¬ b.1 < a.1)
  /-- the sub-namespaces are listed in order, without repetition -/
  subsSorted : info.subs.Pairwise (· < ·)
  /-- a listed sub-namespace is one level below the namespace and is not empty -/
  subsReal : ∀ n ∈ info.subs, (∃ seg, Rest sep p n.toList seg ∧ ¬ sep <:+: seg) ∧
    ∃ e ∈ entries, Above sep n.toList e.1.toList
  /-- an attribute below the namespace is either listed and below no listed sub-namespace, or not directly in the
  namespace and below exactly one listed sub-namespace -/
  shared : ∀ e ∈ entries, Under sep p e.1.toList →
    (e ∈ info.attrs ∧ ∀ n ∈ info.subs, ¬ Above sep n.toList e.1.toList) ∨
    (e ∉ info.attrs ∧ ∃ n ∈ info.subs, Above sep n.toList e.1.toList ∧
      ∀ m ∈ info.subs, Above sep m.toList e.1.toList → m = n)
  /-- the total counts every attribute below the namespace -/
  total : info.total = (entries.filter (fun e => decide (Under sep p e.1.toList))).length
  /-- and is the number of the listed ones and of those below each listed sub-namespace -/
  sum : info.total = info.attrs.length + (info.subs.map (fun n => countAbove sep n.toList entries)).sum
  /-- the depth is the greatest number of levels of an attribute below the namespace -/
  depthMax : ∀ e ∈ entries, ∀ rest, Rest sep p e.1.toList rest → ∃ d, Levels sep rest d ∧ d ≤ info.depth
  depthAt : info.depth = 0 ∧ (∀ e ∈ entries, ¬ Under sep p e.1.toList) ∨
    ∃ e ∈ entries, ∃ rest, Rest sep p e.1.toList rest ∧ Levels sep rest info.depth

theorem levels_count {sep : Chars} (hsep : sep ≠ []) (s : Chars) : Levels sep s (countSub sep 0 s + 1) := by
  suffices H : ∀ n, ∀ s : Chars, s.length ≤ n → Levels sep s (countSub sep 0 s + 1) from H _ s (Nat.le_refl _)
  intro n
  induction n with
  | zero =>
    intro s hs
    have : s = [] := List.length_eq_zero_iff.1 (Nat.le_zero.1 hs)
    subst this
    exact .leaf (by simpa using hsep)
  | succ n ih =>
    intro s hs
    cases h : splitFirst sep s with
    | none =>
      have := splitFirst_none.1 h
      rw [(countSub_zero hsep).2 this]
      exact .leaf this
    | some x =>
      have e := splitFirst_eq (a := x.1) (b := x.2) h
      rw [countSub_first hsep (a := x.1) (b := x.2) h]
      have hl : x.2.length ≤ n := by
        have : sep.length ≠ 0 := fun h => hsep (List.length_eq_zero_iff.1 h)
        have := congrArg List.length e
        simp only [List.length_append] at this
        omega
      have := Levels.node (sep := sep) (a := x.1) (fun a' b' hx => splitFirst_first (a := x.1) (b := x.2) h (e.trans hx))
        (ih x.2 hl)
      rw [← e] at this
      exact this

theorem levels_unique {sep : Chars} {s : Chars} {m n : Nat} (h : Levels sep s m) (h' : Levels sep s n) : m = n := by
  induction h generalizing n with
  | @leaf s₀ hn =>
    cases h' with
    | leaf => rfl
    | @node a b n _ _ => exact absurd ⟨a, b, rfl⟩ hn
  | @node a b m hfirst _ ih =>
    generalize hs : a ++ sep ++ b = s' at h'
    cases h' with
    | leaf hn => exact absurd ⟨a, b, rfl⟩ (hs ▸ hn)
    | @node a' b' n hfirst' h2 =>
      have h1 := hfirst a' b' hs
      have h3 := hfirst' a b hs.symm
      rw [List.append_assoc, List.append_assoc] at hs
      have := List.append_inj hs (by omega)
      have hb : b = b' := List.append_cancel_left this.2
      subst hb
      rw [ih h2]

/-- Browsing shares the attributes out, whatever the order in which the indices are walked. -/
theorem browseIn_partition (sep : String) (hsep : sep.toList ≠ []) (entries : List (String × Item))
    (pre : Option String) :
    ∃ p : Chars, (browseIn sep entries pre).pre.toList = p ∧
      (∃ k, (pre.getD "").toList = p ++ copies sep.toList k) ∧ ¬ sep.toList <:+ p ∧
      Partition sep.toList p entries (browseIn sep entries pre) := by
  have hs := loop_spec sep.toList (trimEndSub sep.toList (pre.getD "").toList) entries {}
  have htrim := trimEndSub_spec hsep (pre.getD "").toList
  unfold browseIn
  dsimp only
  generalize trimEndSub sep.toList (pre.getD "").toList = p at hs htrim
  generalize List.foldl (browseStep sep.toList p) {} entries = st at hs
  have hdir : st.direct = entries.filter (isDirect sep.toList p) := by simpa using hs.direct
  have hsorted : KeySorted st.subs := hs.sorted List.Pairwise.nil
  have hmem : ∀ n, n ∈ st.subs.map Prod.fst ↔ ∃ e ∈ entries, subOf sep.toList p e = some n := by
    intro n
    rw [hs.subs]
    simp
  have fd : (fun e : String × Item => decide (Direct sep.toList p e.1.toList)) = isDirect sep.toList p := by
    funext e
    rw [Bool.eq_iff_iff, isDirect_iff]
    simp
  have fu : (fun e : String × Item => decide (Under sep.toList p e.1.toList)) = isUnder sep.toList p := by
    funext e
    rw [Bool.eq_iff_iff, isUnder_iff]
    simp
  have habove : ∀ n ∈ st.subs.map Prod.fst, ∀ e : String × Item,
      Above sep.toList n.toList e.1.toList ↔ subOf sep.toList p e = some n := by
    intro n hn e
    obtain ⟨e', _, he'⟩ := (hmem n).1 hn
    exact ⟨subOf_of_above he', above_of_subOf⟩
  have htot : st.total = (entries.filter (isUnder sep.toList p)).length := by simpa using hs.total
  refine ⟨p, by simp, htrim.1, htrim.2, ?_⟩
  refine { listed := ?_, listedSorted := ?_, subsSorted := ?_, subsReal := ?_, shared := ?_, total := ?_, sum := ?_,
           depthMax := ?_, depthAt := ?_ }
  · rw [fd, ← hdir]
    exact sortBy_perm _ _
  · refine List.Pairwise.imp ?_ (sortBy_sorted keyLe_totalPre st.direct)
    intro a b hab
    simpa [keyLe] using hab
  · exact List.pairwise_map.2 hsorted
  · intro n hn
    obtain ⟨e, he, hsub⟩ := (hmem n).1 hn
    refine ⟨?_, e, he, above_of_subOf hsub⟩
    obtain ⟨rem, seg, h1, h2, h3⟩ := subOf_iff.1 hsub
    refine ⟨seg.1, ?_, ?_⟩
    · by_cases hp : p = []
      · rw [if_pos hp] at h3; exact Or.inl ⟨hp, h3⟩
      · rw [if_neg hp] at h3; exact Or.inr ⟨hp, h3⟩
    · rintro ⟨a, b, hab⟩
      have e1 := splitFirst_eq (a := seg.1) (b := seg.2) h2
      have := splitFirst_first (a := seg.1) (b := seg.2) h2 (a' := a) (b' := b ++ sep.toList ++ seg.2)
        (by rw [e1, ← hab]; simp)
      have hl := congrArg List.length hab
      simp only [List.length_append] at hl
      have : sep.toList.length ≠ 0 := fun h => hsep (List.length_eq_zero_iff.1 h)
      omega
  · intro e he hu
    have hmemattrs : e ∈ sortBy keyLe st.direct ↔ isDirect sep.toList p e = true := by
      rw [mem_sortBy, hdir, List.mem_filter]
      simp [he]
    rcases under_cases (isUnder_iff.2 hu) with hd | ⟨n, hn⟩
    · refine Or.inl ⟨hmemattrs.2 hd, ?_⟩
      intro n hn ha
      have := not_direct_of_subOf ((habove n hn e).1 ha)
      rw [hd] at this
      cases this
    · refine Or.inr ⟨?_, n, (hmem n).2 ⟨e, he, hn⟩, above_of_subOf hn, ?_⟩
      · rw [hmemattrs, not_direct_of_subOf hn]
        simp
      · intro m hm ha
        have := (habove m hm e).1 ha
        rw [hn] at this
        exact (Option.some.inj this).symm
  · rw [fu]
    exact htot
  · rw [htot, length_sortBy, hdir]
    rw [count_subs (keySorted_nodup hsorted) entries (fun e he n hn => (hmem n).2 ⟨e, he, hn⟩)]
    dsimp only
    congr 2
    refine List.map_congr_left ?_
    intro n hn
    unfold countAbove
    congr 2
    funext e
    rw [Bool.eq_iff_iff]
    simp [habove n hn e]
  · intro e he rest hr
    refine ⟨_, levels_count hsep rest, ?_⟩
    have := hs.depthLe.2 e he
    unfold depthOf at this
    rw [remainder_iff.2 hr] at this
    exact this
  · rcases hs.depthAt with h | ⟨e, he, hu, h⟩
    · refine Or.inl ⟨h, ?_⟩
      rintro e he ⟨rest, hr⟩
      have := hs.depthLe.2 e he
      unfold depthOf at this
      rw [remainder_iff.2 hr, h] at this
      dsimp only at this
      omega
    · obtain ⟨rest, hr⟩ := isUnder_iff.1 hu
      refine Or.inr ⟨e, he, rest, hr, ?_⟩
      rw [h]
      unfold depthOf
      rw [remainder_iff.2 hr]
      exact levels_count hsep rest

/-- C28: browsing a namespace of a registry. -/
theorem browse_partition (r : Registry) (sep : String) (hsep : sep.toList ≠ []) (pre : Option String) :
    ∃ p : Chars, (browse (build r sep) pre).pre.toList = p ∧
      (∃ k, (pre.getD "").toList = p ++ copies sep.toList k) ∧ ¬ sep.toList <:+ p ∧
      Partition sep.toList p ((build r sep).attrIndex ++ (build r sep).templateIndex) (browse (build r sep) pre) :=
  browseIn_partition sep hsep _ pre

/-! ### Order of the hash maps -/

theorem eq_of_sorted_classes {l₁ l₂ : List (String × Item)} (h₁ : l₁.Pairwise (fun a b => ¬ b.1 < a.1))
    (h₂ : l₂.Pairwise (fun a b => ¬ b.1 < a.1))
    (h : ∀ k, l₁.filter (fun e => decide (e.1 = k)) = l₂.filter (fun e => decide (e.1 = k))) : l₁ = l₂ := by
  induction l₁ generalizing l₂ with
  | nil =>
    cases l₂ with
    | nil => rfl
    | cons b l₂ => have := h b.1; simp at this
  | cons a l₁ ih =>
    cases l₂ with
    | nil => have := h a.1; simp at this
    | cons b l₂ =>
      rw [List.pairwise_cons] at h₁ h₂
      have hk : a.1 = b.1 := by
        rcases str_trichotomy a.1 b.1 with hlt | he | hlt
        · exfalso
          have : a ∈ (b :: l₂).filter (fun e => decide (e.1 = a.1)) := by rw [← h a.1]; simp
          have ha := (List.mem_filter.1 this).1
          rcases List.mem_cons.1 ha with rfl | ha
          · exact String.lt_irrefl _ hlt
          · exact h₂.1 a ha hlt
        · exact he
        · exfalso
          have : b ∈ (a :: l₁).filter (fun e => decide (e.1 = b.1)) := by rw [h b.1]; simp
          have hb := (List.mem_filter.1 this).1
          rcases List.mem_cons.1 hb with rfl | hb
          · exact String.lt_irrefl _ hlt
          · exact h₁.1 b hb hlt
      have hab : a = b := by
        have := h a.1
        simp [hk] at this
        exact this.1
      subst hab
      rw [ih h₁.2 h₂.2]
      intro k
      have := h k
      simp only [List.filter_cons] at this
      split at this
      · exact (List.cons.inj this).2
      · exact this

theorem filter_key_perm {l l' : List (String × Item)} (hp : l.Perm l') (hn : (l.map Prod.fst).Nodup) (k : String) :
    l.filter (fun e => decide (e.1 = k)) = l'.filter (fun e => decide (e.1 = k)) := by
  have hperm := hp.filter (fun e => decide (e.1 = k))
  have hlen : (l.filter (fun e => decide (e.1 = k))).length ≤ 1 := by
    clear hp hperm
    induction l with
    | nil => simp
    | cons a l ih =>
      rw [List.map_cons, List.nodup_cons] at hn
      rw [List.filter_cons]
      split
      · rename_i hk
        have hk : a.1 = k := by simpa using hk
        have : l.filter (fun e => decide (e.1 = k)) = [] := by
          rw [List.filter_eq_nil_iff]
          intro e he h
          have : e.1 = k := by simpa using h
          exact hn.1 (List.mem_map.2 ⟨e, he, by rw [this, hk]⟩)
        rw [this]
        simp
      · exact ih hn.2
  generalize l.filter (fun e => decide (e.1 = k)) = a at hperm hlen
  generalize l'.filter (fun e => decide (e.1 = k)) = b at hperm
  match a, hlen with
  | [], _ => exact hperm.nil_eq
  | [x], _ => exact (List.perm_singleton.1 hperm.symm).symm

/-- The answer does not depend on the order in which the hash maps are walked. -/
theorem browse_order (sep : String) (a a' t t' : List (String × Item)) (pre : Option String) (ha : a.Perm a')
    (ht : t.Perm t') (hna : (a.map Prod.fst).Nodup) (hnt : (t.map Prod.fst).Nodup) :
    browseIn sep (a ++ t) pre = browseIn sep (a' ++ t') pre := by
  unfold browseIn
  dsimp only
  generalize trimEndSub sep.toList (pre.getD "").toList = p
  have h1 := loop_spec sep.toList p (a ++ t) {}
  have h2 := loop_spec sep.toList p (a' ++ t') {}
  generalize List.foldl (browseStep sep.toList p) {} (a ++ t) = s1 at h1
  generalize List.foldl (browseStep sep.toList p) {} (a' ++ t') = s2 at h2
  have hp : (a ++ t).Perm (a' ++ t') := ha.append ht
  have hsubs : s1.subs = s2.subs := by
    have k1 := h1.sorted List.Pairwise.nil
    have k2 := h2.sorted List.Pairwise.nil
    refine keySorted_ext k1 k2 ?_
    intro k
    have e : k ∈ s1.subs.map Prod.fst ↔ k ∈ s2.subs.map Prod.fst := by
      rw [h1.subs, h2.subs]
      constructor
      · rintro (h | ⟨x, hx, h⟩)
        · simp at h
        · exact Or.inr ⟨x, hp.mem_iff.1 hx, h⟩
      · rintro (h | ⟨x, hx, h⟩)
        · simp at h
        · exact Or.inr ⟨x, hp.mem_iff.2 hx, h⟩
    cases e1 : aget k s1.subs with
    | none =>
      have := aget_eq_none_iff.1 e1
      exact (aget_eq_none_iff.2 (fun h => this (e.2 h))).symm
    | some u =>
      obtain ⟨u', hu'⟩ := mem_keys_iff.1 (e.1 (mem_keys_iff.2 ⟨u, e1⟩))
      rw [hu']
  have htotal : s1.total = s2.total := by
    rw [h1.total, h2.total, (hp.filter _).length_eq]
  have hdepth : s1.depth = s2.depth := by
    have le : ∀ (x y : BState) (l l' : List (String × Item)), LoopSpec sep.toList p l {} x →
        LoopSpec sep.toList p l' {} y → l.Perm l' → x.depth ≤ y.depth := by
      intro x y l l' hx hy hl
      rcases hx.depthAt with h | ⟨e, he, _, h⟩
      · rw [h]; exact Nat.zero_le _
      · rw [h]; exact hy.depthLe.2 e (hl.mem_iff.1 he)
    exact Nat.le_antisymm (le _ _ _ _ h1 h2 hp) (le _ _ _ _ h2 h1 hp.symm)
  have hattrs : sortBy keyLe s1.direct = sortBy keyLe s2.direct := by
    have sorted : ∀ l, (sortBy keyLe l).Pairwise (fun a b => ¬ b.1 < a.1) := by
      intro l
      refine List.Pairwise.imp ?_ (sortBy_sorted keyLe_totalPre l)
      intro a b hab
      simpa [keyLe] using hab
    refine eq_of_sorted_classes (sorted _) (sorted _) ?_
    intro k
    have stable : ∀ l : List (String × Item), (sortBy keyLe l).filter (fun e => decide (e.1 = k)) =
        l.filter (fun e => decide (e.1 = k)) := by
      intro l
      refine sortBy_stable _ _ _ ?_
      intro x _ y _ hx hy
      have hx : x.1 = k := by simpa using hx
      have hy : y.1 = k := by simpa using hy
      unfold keyLe
      rw [hx, hy]
      simp [String.lt_irrefl]
    rw [stable, stable, h1.direct, h2.direct]
    have comm : ∀ l : List (String × Item), (l.filter (isDirect sep.toList p)).filter (fun e => decide (e.1 = k)) =
        (l.filter (fun e => decide (e.1 = k))).filter (isDirect sep.toList p) := by
      intro l
      rw [List.filter_filter, List.filter_filter]
      congr 1
      funext e
      exact Bool.and_comm _ _
    show ([] ++ (a ++ t).filter _).filter _ = ([] ++ (a' ++ t').filter _).filter _
    rw [List.nil_append, List.nil_append, comm, comm, List.filter_append (l₁ := a), List.filter_append (l₁ := a'),
      filter_key_perm ha hna, filter_key_perm ht hnt]
  rw [hsubs, htotal, hdepth, hattrs]

/-! ### Going down -/

/-- Going down one level: the total of a namespace is the number of attributes listed plus the totals of the
sub-namespaces listed, if none of these is nameless or ends with a separator (which takes a key with an empty
segment). -/
theorem browse_down_partial (sep : String) (hsep : sep.toList ≠ []) (entries : List (String × Item))
    (pre : Option String)
    (hn : ∀ n ∈ (browseIn sep entries pre).subs, n ≠ "" ∧ ¬ sep.toList <:+ n.toList) :
    (browseIn sep entries pre).total = (browseIn sep entries pre).attrs.length +
      ((browseIn sep entries pre).subs.map (fun n => (browseIn sep entries (some n)).total)).sum := by
  obtain ⟨p, _, _, _, hpart⟩ := browseIn_partition sep hsep entries pre
  rw [hpart.sum]
  congr 2
  refine List.map_congr_left ?_
  intro n hmem
  obtain ⟨h1, h2⟩ := hn n hmem
  obtain ⟨p', hp', ⟨k, hk⟩, _, hpart'⟩ := browseIn_partition sep hsep entries (some n)
  rw [hpart'.total]
  have hpn : p' = n.toList := by
    rw [← hp']
    unfold browseIn
    dsimp only
    rw [String.toList_ofList]
    exact trimEndSub_of_not h2
  have hne : n.toList ≠ [] := by
    intro h
    exact h1 (String.toList_injective (by simpa using h))
  rw [hpn]
  unfold countAbove
  congr 2
  funext e
  rw [Bool.eq_iff_iff]
  simp only [decide_eq_true_eq]
  unfold Above Under Rest
  constructor
  · rintro ⟨t, ht⟩
    exact ⟨t, Or.inr ⟨hne, ht.symm⟩⟩
  · rintro ⟨t, ⟨h, _⟩ | ⟨_, h⟩⟩
    · exact absurd h hne
    · exact ⟨t, h.symm⟩

/-- A key with an empty segment: the root lists the sub-namespace `a` of `a..b`, `a` lists `a.`, and browsing `a.` is
browsing `a` again: the way down never reaches the attribute. -/
theorem browse_down_refuted :
    ¬ ∀ (sep : String), sep.toList ≠ [] → ∀ (entries : List (String × Item)) (pre : Option String),
      (browseIn sep entries pre).total = (browseIn sep entries pre).attrs.length +
        ((browseIn sep entries pre).subs.map (fun n => (browseIn sep entries (some n)).total)).sum := by
  intro h
  have := h "." (by decide)
    [("a..b", { kind := .attribute, id := "a..b" }), ("a.c.d", { kind := .attribute, id := "a.c.d" })] (some "a")
  exact absurd this (by decide)

example : browseIn "." [("http.route", { kind := .attribute, id := "http.route" }),
      ("http.request.method", { kind := .attribute, id := "http.request.method" }),
      ("http.request.body.size", { kind := .attribute, id := "http.request.body.size" }),
      ("url", { kind := .attribute, id := "url" })] (some "http.") =
    { pre := "http", subs := ["http.request"], attrs := [("http.route", { kind := .attribute, id := "http.route" })],
      total := 3, depth := 3 } := by decide

end Verif.Search
