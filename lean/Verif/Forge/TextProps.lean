import Verif.Forge.Text
import Verif.Util.Forall2
/-
C37, C39 and the properties of the other text filters.
-/
namespace Verif.Forge
open Verif.Util
open Verif.Markdown (isWhite trim lines)

/-! ### Lists of texts -/

/-- `concat_if` joins its arguments, and is undefined exactly if one of them is. -/
theorem concatIf_iff (l : List (Option Chars)) (s : Chars) : concatIf l = some s ↔
    ∃ ss : List Chars, l = ss.map some ∧ s = ss.flatten := by
  induction l generalizing s with
  | nil =>
    simp only [concatIf, Option.some.injEq]
    constructor
    · intro h; exact ⟨[], rfl, h.symm⟩
    · rintro ⟨ss, h, rfl⟩
      cases ss with
      | nil => rfl
      | cons a ss => cases h
  | cons a l ih =>
    unfold concatIf
    constructor
    · intro h
      cases a with
      | none => cases h
      | some x =>
        cases hr : concatIf l with
        | none => rw [hr] at h; cases h
        | some r =>
          rw [hr] at h; cases h
          obtain ⟨ss, rfl, rfl⟩ := (ih r).1 hr
          exact ⟨x :: ss, rfl, rfl⟩
    · rintro ⟨ss, h, rfl⟩
      cases ss with
      | nil => cases h
      | cons x ss =>
        simp only [List.map_cons, List.cons.injEq] at h
        obtain ⟨rfl, rfl⟩ := h
        rw [(ih ss.flatten).2 ⟨ss, rfl, rfl⟩]; rfl

theorem mapM_iter (ls : List Val) (lss : List (List Val)) : ls.mapM Val.iter = some lss ↔
    Forall2 (fun v l => v.iter = some l) ls lss := by
  induction ls generalizing lss with
  | nil =>
    simp only [List.mapM_nil]
    constructor
    · intro h; cases h; exact .nil
    · intro h; cases h; rfl
  | cons v ls ih =>
    rw [List.mapM_cons]
    constructor
    · intro h
      cases hv : v.iter with
      | none => rw [hv] at h; cases h
      | some l =>
        rw [hv] at h
        cases hr : ls.mapM Val.iter with
        | none => rw [hr] at h; cases h
        | some r =>
          rw [hr] at h; cases h
          exact .cons hv ((ih r).1 hr)
    · intro h
      cases h with
      | cons h1 h2 => rw [h1, (ih _).2 h2]; rfl

/-- `flatten` lists the elements of all the lists, in order, and fails exactly if something is not a list. -/
theorem flattenVal_iff (v : Val) (out : List Val) : flattenVal v = some out ↔
    ∃ ls lss, v.iter = some ls ∧ Forall2 (fun v l => v.iter = some l) ls lss ∧ out = lss.flatten := by
  unfold flattenVal
  cases v.iter with
  | none => simp
  | some ls =>
    simp only [Option.map_eq_some_iff, mapM_iter, Option.some.injEq]
    constructor
    · rintro ⟨lss, h, rfl⟩; exact ⟨ls, lss, rfl, h, rfl⟩
    · rintro ⟨_, lss, rfl, h, rfl⟩; exact ⟨lss, h, rfl⟩

theorem splitWhen_join (s : Chars) : ['.'].intercalate (splitWhen (· == '.') s) = s := by
  have hc : ∀ (w : Chars) (ws : List Chars), ['.'].intercalate (w :: ws) = w ++ ws.flatMap (fun t => '.' :: t) := by
    intro w ws
    induction ws generalizing w with
    | nil => simp [List.intercalate]
    | cons v vs ih =>
      have := ih v
      simp only [List.intercalate, List.intersperse, List.flatten_cons, List.flatMap_cons] at this ⊢
      rw [this]; simp
  induction s with
  | nil => rfl
  | cons c s ih =>
    unfold splitWhen
    split
    · rename_i h
      rw [hc]
      cases hs : splitWhen (· == '.') s with
      | nil => exact absurd hs (splitWhen_ne_nil _ _)
      | cons w ws =>
        rw [hs, hc] at ih
        simp only [List.flatMap_cons, List.nil_append, List.cons_append, ih]
        rw [beq_iff_eq.1 h]
    · split
      · rename_i hs; exact absurd hs (splitWhen_ne_nil _ _)
      · rename_i w ws hs
        rw [hs, hc] at ih
        rw [hc, List.cons_append, ih]

/-- The parts of an id, joined with dots, are the id, and no part has a dot. -/
theorem splitId_join (s : Chars) : ['.'].intercalate (splitId s) = s ∧ ∀ w ∈ splitId s, '.' ∉ w := by
  refine ⟨splitWhen_join s, fun w hw hm => ?_⟩
  have := splitWhen_pieces _ s w hw '.' hm
  simp at this

example : splitId "http.request.method".toList = ["http".toList, "request".toList, "method".toList] := by decide

/-! ### Numeric keys: C37 -/

/-- A decimal numeral without sign. -/
inductive Numeral : Chars → Nat → Prop
  | one {c} : c.isDigit = true → Numeral [c] (c.toNat - 48)
  | snoc {s n c} : Numeral s n → c.isDigit = true → Numeral (s ++ [c]) (10 * n + (c.toNat - 48))

/-- A text that stands for a 64 bit integer. -/
def IsInt (s : Chars) (i : Int) : Prop := (-9223372036854775808 ≤ i ∧ i ≤ 9223372036854775807) ∧
  ∃ t n, Numeral t n ∧ (((s = t ∨ s = '+' :: t) ∧ i = (n : Int)) ∨ (s = '-' :: t ∧ i = -(n : Int)))

theorem digitsFrom_append (n : Nat) (s : Chars) (c : Char) : digitsFrom n (s ++ [c]) =
    (digitsFrom n s).bind fun m => (digit c).map fun d => 10 * m + d := by
  induction s generalizing n with
  | nil => simp only [List.nil_append, digitsFrom]; cases digit c <;> rfl
  | cons a s ih =>
    simp only [List.cons_append, digitsFrom]
    cases digit a with
    | none => rfl
    | some d => exact ih _

theorem digits_iff (s : Chars) (n : Nat) : digits s = some n ↔ Numeral s n := by
  have hd : ∀ c m, digit c = some m ↔ c.isDigit = true ∧ m = c.toNat - 48 := by
    intro c m; unfold digit; split
    · rename_i h; simp [h, eq_comm]
    · rename_i h; simp [h]
  have hsplit : ∀ (s : Chars) (c : Char), digits (s ++ [c]) =
      (if s = [] then some 0 else digits s).bind fun m => (digit c).map fun d => 10 * m + d := by
    intro s c
    cases s with
    | nil => unfold digits; simp [digitsFrom]; cases digit c <;> simp
    | cons a s => simp only [digits, List.cons_append]; rw [← List.cons_append, digitsFrom_append]; simp
  constructor
  · intro h
    have : ∀ k, ∀ s : Chars, s.length = k → ∀ n, digits s = some n → Numeral s n := by
      intro k
      induction k with
      | zero => intro s hs n h; rw [List.length_eq_zero_iff.1 hs] at h; cases h
      | succ k ih =>
        intro s hs n h
        have hne : s ≠ [] := by rintro rfl; cases hs
        rw [← List.dropLast_concat_getLast hne] at h ⊢
        rw [hsplit] at h
        by_cases h0 : s.dropLast = []
        · rw [if_pos h0] at h
          rw [h0]
          simp only [Option.bind_some, Nat.mul_zero, Nat.zero_add, Option.map_eq_some_iff, hd] at h
          obtain ⟨d, ⟨h1, rfl⟩, rfl⟩ := h
          exact .one h1
        · rw [if_neg h0] at h
          obtain ⟨m, h1, h2⟩ := Option.bind_eq_some_iff.1 h
          simp only [Option.map_eq_some_iff, hd] at h2
          obtain ⟨d, ⟨h3, rfl⟩, rfl⟩ := h2
          exact .snoc (ih _ (by simp [hs]) m h1) h3
    exact this _ s rfl n h
  · intro h
    induction h with
    | one h => simp [digits, digitsFrom, digit, h]
    | @snoc s n c hs h ih =>
      have hne : s ≠ [] := by rintro rfl; cases ih
      rw [hsplit, if_neg hne, ih]
      simp [digit, h]

theorem numeral_head {s : Chars} {n : Nat} (h : Numeral s n) : ∀ t, s ≠ '-' :: t ∧ s ≠ '+' :: t := by
  induction h with
  | one h =>
    intro t
    refine ⟨?_, ?_⟩ <;> intro e <;> cases e <;> exact absurd h (by decide)
  | @snoc s n c hs h ih =>
    intro t
    cases s with
    | nil => cases (digits_iff [] n).2 hs
    | cons a s =>
      refine ⟨?_, ?_⟩ <;> intro e <;> cases e
      · exact (ih s).1 rfl
      · exact (ih s).2 rfl

theorem parseI64_iff (s : Chars) (i : Int) : parseI64 s = some i ↔ IsInt s i := by
  unfold parseI64 IsInt
  dsimp only
  rw [Option.filter_eq_some_iff, decide_eq_true_iff, and_comm]
  refine and_congr_right fun _ => ?_
  split
  · rename_i t
    simp only [Option.map_eq_some_iff, digits_iff]
    constructor
    · rintro ⟨n, h, rfl⟩; exact ⟨t, n, h, .inr ⟨rfl, rfl⟩⟩
    · rintro ⟨t', n, h, ⟨e | e, _⟩ | ⟨e, rfl⟩⟩
      · exact absurd e.symm ((numeral_head h _).1)
      · cases e
      · cases e; exact ⟨n, h, rfl⟩
  · rename_i t
    simp only [Option.map_eq_some_iff, digits_iff]
    constructor
    · rintro ⟨n, h, rfl⟩; exact ⟨t, n, h, .inl ⟨.inr rfl, rfl⟩⟩
    · rintro ⟨t', n, h, ⟨e | e, rfl⟩ | ⟨e, _⟩⟩
      · exact absurd e.symm ((numeral_head h _).2)
      · cases e; exact ⟨n, h, rfl⟩
      · cases e
  · rename_i h1 h2
    simp only [Option.map_eq_some_iff, digits_iff]
    constructor
    · rintro ⟨n, h, rfl⟩; exact ⟨s, n, h, .inl ⟨.inl rfl, rfl⟩⟩
    · rintro ⟨t', n, h, ⟨e | e, rfl⟩ | ⟨e, _⟩⟩
      · subst e; exact ⟨n, h, rfl⟩
      · exact absurd e (h2 _)
      · exact absurd e (h1 _)

/-- A key comes before another or ties with it: a smaller or equal number, a number before a text, and texts in order. -/
def KeyBefore (a b : String) : Prop :=
  (∃ x y, IsInt a.toList x ∧ IsInt b.toList y ∧ x ≤ y) ∨
  ((∃ x, IsInt a.toList x) ∧ ∀ y, ¬ IsInt b.toList y) ∨
  ((∀ x, ¬ IsInt a.toList x) ∧ (∀ y, ¬ IsInt b.toList y) ∧ a ≤ b)

theorem keyLe_iff (a b : String) : keyLe a b = true ↔ KeyBefore a b := by
  unfold keyLe KeyBefore
  simp only [← parseI64_iff]
  cases parseI64 a.toList <;> cases parseI64 b.toList <;> simp

theorem keyLe_totalPre : TotalPre (fun a b : String × Val => keyLe a.1 b.1) where
  total a b := by
    unfold keyLe
    cases parseI64 a.1.toList <;> cases parseI64 b.1.toList <;> simp
    · exact String.le_total _ _
    · omega
  trans a b c := by
    unfold keyLe
    cases parseI64 a.1.toList <;> cases parseI64 b.1.toList <;> cases parseI64 c.1.toList <;> simp
    · exact String.le_trans
    · omega

/-- `numsort` gives a permutation of the entries in which numeric keys come first, in ascending order, and the others
follow in the order of texts; keys that stand for the same number keep their order. -/
theorem numsort_sorted (m : List (String × Val)) : (numsort m).Perm m ∧ (numsort m).Pairwise (fun a b => KeyBefore a.1 b.1) ∧
    ∀ p : String × Val → Bool, (∀ a ∈ m, ∀ b ∈ m, p a = true → p b = true → KeyBefore a.1 b.1) →
      (numsort m).filter p = m.filter p := by
  refine ⟨sortBy_perm _ _, ?_, ?_⟩
  · exact List.Pairwise.imp (fun h => (keyLe_iff _ _).1 h) (sortBy_sorted keyLe_totalPre m)
  · intro p hp
    exact sortBy_stable _ p m fun a ha b hb pa pb => (keyLe_iff _ _).2 (hp a ha b hb pa pb)

/-- The order of the entries does not matter if no two keys stand for the same number. -/
theorem numsort_order (m m' : List (String × Val)) (hp : m.Perm m') (hn : (m.map Prod.fst).Nodup)
    (hd : ∀ a ∈ m, ∀ b ∈ m, ∀ i, IsInt a.1.toList i → IsInt b.1.toList i → a.1 = b.1) : numsort m = numsort m' := by
  refine sortBy_perm_inv keyLe_totalPre ?_ hp
  intro a ha b hb h1 h2
  have hk : a.1 = b.1 := by
    rcases (keyLe_iff _ _).1 h1 with ⟨x, y, hx, hy, hxy⟩ | ⟨⟨x, hx⟩, hy⟩ | ⟨hx, hy, h⟩
    · rcases (keyLe_iff _ _).1 h2 with ⟨x', y', hx', hy', hxy'⟩ | ⟨_, hy'⟩ | ⟨hx', _, _⟩
      · have e1 : x = y' := Option.some.inj (((parseI64_iff _ _).2 hx).symm.trans ((parseI64_iff _ _).2 hy'))
        have e2 : y = x' := Option.some.inj (((parseI64_iff _ _).2 hy).symm.trans ((parseI64_iff _ _).2 hx'))
        have : x = y := by omega
        subst this
        exact hd a ha b hb x hx hy
      · exact absurd hx (hy' x)
      · exact absurd hy (hx' y)
    · rcases (keyLe_iff _ _).1 h2 with ⟨x', _, hx', _⟩ | ⟨⟨x', hx'⟩, _⟩ | ⟨_, hy', _⟩
      · exact absurd hx' (hy x')
      · exact absurd hx' (hy x')
      · exact absurd hx (hy' x)
    · rcases (keyLe_iff _ _).1 h2 with ⟨x', y', _, hy', _⟩ | ⟨⟨x', hx'⟩, _⟩ | ⟨_, _, h'⟩
      · exact absurd hy' (hx y')
      · exact absurd hx' (hy x')
      · exact String.le_antisymm h h'
  obtain ⟨k, v⟩ := a
  obtain ⟨k', v'⟩ := b
  dsimp only at hk
  subst hk
  have e1 : (m.map Prod.fst).count k ≤ 1 := List.nodup_iff_count.1 hn k
  by_cases hv : (k, v) = (k, v')
  · exact hv
  · exfalso
    obtain ⟨s, t, rfl⟩ := List.append_of_mem ha
    rw [List.map_append, List.map_cons, List.count_append, List.count_cons] at e1
    simp only [beq_self_eq_true, if_true] at e1
    have hb' : (k, v') ∈ s ∨ (k, v') ∈ t := by
      rcases List.mem_append.1 hb with h | h
      · exact .inl h
      · rcases List.mem_cons.1 h with h | h
        · exact absurd h.symm hv
        · exact .inr h
    rcases hb' with h | h
    · have := List.count_pos_iff.2 (List.mem_map.2 ⟨_, h, rfl⟩ : k ∈ s.map Prod.fst); omega
    · have := List.count_pos_iff.2 (List.mem_map.2 ⟨_, h, rfl⟩ : k ∈ t.map Prod.fst); omega

example : (numsort [("10", .none), ("beta", .none), ("-2", .none), ("9", .none), ("alpha", .none)]).map Prod.fst =
    ["-2", "9", "10", "alpha", "beta"] := by decide

/-! ### Acronyms -/

variable (word : Char → Bool)

/-- A run of characters of one class. -/
def Run (t : Chars) (k : Nat) : Prop := t ≠ [] ∧ ∀ c ∈ t, charClass word c = k

/-- The maximal runs of a text: runs, one after the other, in which neighbours are of different classes. -/
inductive Runs : List Chars → Prop
  | nil : Runs []
  | one {t k} : Run word t k → Runs [t]
  | cons {t u ts k j} : Run word t k → Run word u j → k ≠ j → Runs (u :: ts) → Runs (t :: u :: ts)

theorem tokens_runs (s : Chars) : Runs word (tokens word s) ∧ (tokens word s).flatten = s := by
  induction s with
  | nil => exact ⟨.nil, rfl⟩
  | cons c s ih =>
    unfold tokens
    split
    · rename_i d t ts h
      rw [h] at ih
      obtain ⟨h1, h2⟩ := ih
      have hf : (d :: t).append ts.flatten = s := by simpa using h2
      split
      · rename_i he
        refine ⟨?_, by simp only [List.flatten_cons] at h2 ⊢; rw [List.cons_append, h2]⟩
        have ext : ∀ {k}, Run word (d :: t) k → Run word (c :: d :: t) k := by
          intro k hr
          refine ⟨by simp, fun x hx => ?_⟩
          rcases List.mem_cons.1 hx with rfl | hx
          · rw [he]; exact hr.2 d (by simp)
          · exact hr.2 x hx
        cases h1 with
        | one hr => exact .one (ext hr)
        | cons hr hu hne hrest => exact .cons (ext hr) hu hne hrest
      · rename_i he
        refine ⟨?_, by simp only [List.flatten_cons] at h2 ⊢; rw [h2]; rfl⟩
        have hc : Run word [c] (charClass word c) := ⟨by simp, by simp⟩
        cases h1 with
        | one hr => exact .cons hc hr (by rw [← hr.2 d (by simp)]; exact he) (.one hr)
        | cons hr hu hne hrest => exact .cons hc hr (by rw [← hr.2 d (by simp)]; exact he) (.cons hr hu hne hrest)
    · rename_i ts h
      have hts : tokens word s = [] := by
        cases hs : tokens word s with
        | nil => rfl
        | cons u us =>
          cases u with
          | nil =>
            have := ih.1
            rw [hs] at this
            cases this with
            | one hr => exact absurd rfl hr.1
            | cons hr _ _ _ => exact absurd rfl hr.1
          | cons d t => exact absurd hs (h d t us)
      have hs : s = [] := by rw [← ih.2, hts]; rfl
      subst hs
      exact ⟨.one (k := charClass word c) ⟨by simp, by simp⟩, rfl⟩

/-- The runs of a text are determined by it. -/
theorem runs_unique (ts : List Chars) (h : Runs word ts) : tokens word ts.flatten = ts := by
  have one : ∀ (t : Chars) k, Run word t k → tokens word t = [t] := by
    intro t k h
    induction t with
    | nil => exact absurd rfl h.1
    | cons c t ih =>
      cases t with
      | nil => rfl
      | cons d t =>
        have ht : Run word (d :: t) k := ⟨by simp, fun x hx => h.2 x (by simp [hx])⟩
        unfold tokens
        rw [ih ht]
        dsimp only
        rw [if_pos (by rw [h.2 c (by simp), h.2 d (by simp)])]
  induction h with
  | nil => rfl
  | one h => simp [one _ _ h]
  | @cons t u ts k j h hu hne hr ih =>
    rw [List.flatten_cons]
    generalize hs : (u :: ts).flatten = s at ih
    have : ∀ t : Chars, Run word t k → tokens word (t ++ s) = t :: u :: ts := by
      intro t h
      induction t with
      | nil => exact absurd rfl h.1
      | cons c t iht =>
        rw [List.cons_append]
        unfold tokens
        cases t with
        | nil =>
          rw [List.nil_append, ih]
          cases u with
          | nil => exact absurd rfl hu.1
          | cons d u =>
            dsimp only
            rw [if_neg (by rw [h.2 c (by simp), hu.2 d (by simp)]; exact hne)]
        | cons d t =>
          rw [iht ⟨by simp, fun x hx => h.2 x (by simp [hx])⟩]
          dsimp only
          rw [if_pos (by rw [h.2 c (by simp), h.2 d (by simp)])]
    exact this t h

variable (lower : Chars → Chars)

/-- What becomes of a run: the last acronym that differs from it only in case, or the run itself if there is none. -/
def Replaced (acronyms : List Chars) (t u : Chars) : Prop :=
  (∃ a b, acronyms = a ++ u :: b ∧ lower u = lower t ∧ ∀ x ∈ b, lower x ≠ lower t) ∨
  (u = t ∧ ∀ x ∈ acronyms, lower x ≠ lower t)

theorem replaced_iff (acronyms : List Chars) (t u : Chars) :
    (acronyms.reverse.find? fun a => lower a = lower t).getD t = u ↔ Replaced lower acronyms t u := by
  cases h : acronyms.reverse.find? fun a => lower a = lower t with
  | none =>
    have hn : ∀ x ∈ acronyms, lower x ≠ lower t := by
      intro x hx
      simpa using List.find?_eq_none.1 h x (by simpa using hx)
    constructor
    · intro e; exact .inr ⟨e.symm, hn⟩
    · rintro (⟨a, b, rfl, h1, _⟩ | ⟨rfl, _⟩)
      · exact absurd h1 (hn u (by simp))
      · rfl
  | some x =>
    obtain ⟨h1, a, b, h2, h3⟩ := List.find?_eq_some_iff_append.1 h
    have he : acronyms = b.reverse ++ x :: a.reverse := by
      have := congrArg List.reverse h2; simpa using this
    have h1 : lower x = lower t := by simpa using h1
    have h3 : ∀ y ∈ a.reverse, lower y ≠ lower t := by
      intro y hy; simpa using h3 y (by simpa using hy)
    constructor
    · intro e; cases e; exact .inl ⟨_, _, he, h1, h3⟩
    · rintro (⟨a', b', e, h4, h5⟩ | ⟨rfl, h4⟩)
      · rw [he] at e
        rcases List.append_eq_append_iff.1 e with ⟨w, e1, e2⟩ | ⟨w, e1, e2⟩
        · cases w with
          | nil => simp at e2; exact e2.1
          | cons y w =>
            simp at e2
            exact absurd h4 (h3 u (by rw [e2.2]; simp))
        · cases w with
          | nil => simp at e2; exact e2.1.symm
          | cons y w =>
            simp at e2
            exact absurd h1 (h5 x (by rw [e2.2]; simp))
      · exact absurd h1 (h4 x (by rw [he]; simp))

/-- The filter replaces the runs of a text one by one, and changes nothing else. -/
theorem acronym_iff (acronyms : List Chars) (s out : Chars) : acronym word lower acronyms s = out ↔
    ∃ ts us, Runs word ts ∧ ts.flatten = s ∧ Forall2 (Replaced lower acronyms) ts us ∧ us.flatten = out := by
  have hf : ∀ ts : List Chars, Forall2 (Replaced lower acronyms) ts
      (ts.map fun t => ((acronyms.reverse.find? fun a => lower a = lower t)).getD t) := by
    intro ts
    induction ts with
    | nil => exact .nil
    | cons t ts ih => exact .cons ((replaced_iff lower acronyms t _).1 rfl) ih
  constructor
  · rintro rfl
    refine ⟨tokens word s, _, (tokens_runs word s).1, (tokens_runs word s).2, hf _, ?_⟩
    rw [acronym, List.flatMap_def]
  · rintro ⟨ts, us, h1, rfl, h2, rfl⟩
    unfold acronym
    rw [runs_unique word ts h1]
    clear h1
    induction h2 with
    | nil => rfl
    | cons h _ ih => rw [List.flatMap_cons, List.flatten_cons, ih, (replaced_iff lower acronyms _ _).2 h]

/-- Replacing acronyms a second time changes nothing, if every acronym is a run of the class of the words it matches. -/
theorem acronym_idem (acronyms : List Chars)
    (h : ∀ a ∈ acronyms, ∀ t k, Run word t k → lower a = lower t → Run word a k) (s : Chars) :
    acronym word lower acronyms (acronym word lower acronyms s) = acronym word lower acronyms s := by
  obtain ⟨ts, us, h1, h0, h2, h3⟩ := (acronym_iff word lower acronyms s _).1 rfl
  clear h0
  have hrun : ∀ {t u k}, Replaced lower acronyms t u → Run word t k → Run word u k := by
    intro t u k hr ht
    rcases hr with ⟨a, b, e, h4, _⟩ | ⟨rfl, _⟩
    · exact h u (by rw [e]; simp) t k ht h4
    · exact ht
  have hus : Runs word us := by
    clear h3
    induction h2 with
    | nil => exact .nil
    | @cons t u ts us hr h2 ih =>
      cases h1 with
      | one ht => cases h2; exact .one (hrun hr ht)
      | @cons _ v vs k j ht hv hne hrest =>
        have := ih hrest
        cases h2 with
        | cons hr2 h2' => exact .cons (hrun hr ht) (hrun hr2 hv) hne this
  refine (acronym_iff word lower acronyms _ _).2 ⟨us, us, hus, h3, ?_, h3⟩
  clear h1 h3 hus
  induction h2 with
  | nil => exact .nil
  | @cons t u ts us hr _ ih =>
    refine .cons ?_ ih
    rcases hr with ⟨a, b, e, h4, h5⟩ | ⟨rfl, h4⟩
    · exact .inl ⟨a, b, e, rfl, fun x hx => by rw [h4]; exact h5 x hx⟩
    · exact .inr ⟨rfl, h4⟩

example : String.ofList (acronym Char.isAlphanum (List.map Char.toLower) ["iOS".toList, "Api".toList, "API".toList]
    "An  IOS-api!".toList) = "An  iOS-API!" := by decide
example : ∀ a ∈ ["iOS".toList, "API".toList], ∀ t k, Run Char.isAlphanum t k →
    List.map Char.toLower a = List.map Char.toLower t → Run Char.isAlphanum a k := by
  intro a ha t k ht e
  have hcl : ∀ a ∈ ["iOS".toList, "API".toList], a ≠ [] ∧ (∀ c ∈ a, charClass Char.isAlphanum c = 1) ∧
      ∀ c ∈ List.map Char.toLower a, c.isLower = true := by decide
  obtain ⟨h1, h2, h3⟩ := hcl a ha
  cases t with
  | nil => exact absurd rfl ht.1
  | cons c t =>
    have hk : k = 1 := by
      rw [← ht.2 c (by simp)]
      have hc : (c.toLower).isLower = true := h3 _ (by rw [e]; simp)
      have hl : c.isAlphanum = true := by
        unfold Char.toLower at hc
        split at hc
        · rename_i hu
          have : c.isUpper = true := by simp [Char.isUpper]; exact hu
          simp [Char.isAlphanum, Char.isAlpha, this]
        · simp [Char.isAlphanum, Char.isAlpha, hc]
      unfold charClass
      rw [if_neg, if_pos hl]
      have hr : (65 ≤ c.toNat ∧ c.toNat ≤ 90) ∨ (97 ≤ c.toNat ∧ c.toNat ≤ 122) ∨ (48 ≤ c.toNat ∧ c.toNat ≤ 57) := by
        simp only [Char.isAlphanum, Char.isAlpha, Char.isUpper, Char.isLower, Char.isDigit, Bool.or_eq_true, Bool.and_eq_true,
          decide_eq_true_eq, ge_iff_le, UInt32.le_iff_toNat_le] at hl
        rcases hl with (hl | hl) | hl
        · exact .inl hl
        · exact .inr (.inl hl)
        · exact .inr (.inr hl)
      simp only [isWhite, Bool.or_eq_true, decide_eq_true_eq]
      omega
    subst hk
    exact ⟨h1, h2⟩

/-! ### Escaped YAML -/

/-- The escaped text has none of the four characters, and a text without them stays as it is. -/
theorem escapeYaml_safe (s : Chars) : (∀ c ∈ escapeYaml s, c ∉ ['<', '>', '&', '\'']) ∧
    ((∀ c ∈ s, c ∉ ['<', '>', '&', '\'']) → escapeYaml s = s) := by
  have hl : ∀ t ∈ ["\\u003c".toList, "\\u003e".toList, "\\u0026".toList, "\\u0027".toList], ∀ c ∈ t, c ∉ ['<', '>', '&', '\''] := by
    decide
  constructor
  · intro c hc
    obtain ⟨d, _, hc⟩ := List.mem_flatMap.1 hc
    split at hc
    · exact hl _ (by simp) c hc
    split at hc
    · exact hl _ (by simp) c hc
    split at hc
    · exact hl _ (by simp) c hc
    split at hc
    · exact hl _ (by simp) c hc
    · rename_i h1 h2 h3 h4
      simp at hc; subst hc
      simp [h1, h2, h3, h4]
  · intro h
    induction s with
    | nil => rfl
    | cons c s ih =>
      have hc := h c (by simp)
      simp only [List.mem_cons, List.not_mem_nil, or_false, not_or] at hc
      unfold escapeYaml at ih ⊢
      rw [List.flatMap_cons, ih (fun d hd => h d (by simp [hd])), if_neg hc.1, if_neg hc.2.1, if_neg hc.2.2.1, if_neg hc.2.2.2]
      rfl

/-- The inverse of the escaping, for texts without backslashes. -/
def unescape : Chars → Chars
  | '\\' :: _ :: _ :: _ :: x :: y :: r =>
    (if x = '3' then if y = 'c' then '<' else '>' else if y = '6' then '&' else '\'') :: unescape r
  | c :: r => c :: unescape r
  | [] => []

theorem unescape_escape (s : Chars) (hs : '\\' ∉ s) : unescape (escapeYaml s) = s := by
  induction s with
  | nil => rfl
  | cons c s ih =>
    have ih := ih (fun h => hs (by simp [h]))
    have hc : c ≠ '\\' := fun e => hs (by rw [e]; simp)
    have hf : escapeYaml (c :: s) = (if c = '<' then "\\u003c".toList else if c = '>' then "\\u003e".toList else
        if c = '&' then "\\u0026".toList else if c = '\'' then "\\u0027".toList else [c]) ++ escapeYaml s := by
      rw [escapeYaml, List.flatMap_cons]; rfl
    rw [hf]
    by_cases h1 : c = '<'
    · subst h1; exact congrArg (List.cons '<') ih
    rw [if_neg h1]
    by_cases h2 : c = '>'
    · subst h2; exact congrArg (List.cons '>') ih
    rw [if_neg h2]
    by_cases h3 : c = '&'
    · subst h3; exact congrArg (List.cons '&') ih
    rw [if_neg h3]
    by_cases h4 : c = '\''
    · subst h4; exact congrArg (List.cons '\'') ih
    rw [if_neg h4, List.singleton_append, unescape, ih]
    intro a b d x y r e
    exact absurd e hc

/-- Texts without backslashes can be told apart after escaping. -/
theorem escapeYaml_lossless_partial (s t : Chars) (hs : '\\' ∉ s) (ht : '\\' ∉ t) (h : escapeYaml s = escapeYaml t) : s = t := by
  rw [← unescape_escape s hs, h, unescape_escape t ht]

/-- Two different YAML texts become the same text. -/
theorem escapeYaml_lossless_refuted : ∃ s t : Chars, s ≠ t ∧ escapeYaml s = escapeYaml t :=
  ⟨"<".toList, "\\u003c".toList, by decide, by decide⟩

end Verif.Forge
