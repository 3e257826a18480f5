import Verif.Search.Model
/-
What a search returns (C27, C68).
-/
namespace Verif.Search
open Verif.Util

/-! ### Specification -/

/-- The words of a query: its maximal stretches without a separator character, an underscore or white space. -/
def IsWord (u : Unicode) (sep q w : Chars) : Prop := w ≠ [] ∧ Word (queryCut u sep) w q

/-- Every word of the query occurs in the text. -/
def WordsIn (u : Unicode) (sep q t : Chars) : Prop := ∀ w, IsWord u sep q w → w <:+: t

/-- The relevance of a definition that is not deprecated, from the best grade down; all texts are in lower case. -/
inductive Grade (u : Unicode) (sep q id brief note : Chars) : Nat → Prop
  | exact : id = q → Grade u sep q id brief note 100
  | pre : id ≠ q → q <+: id → Grade u sep q id brief note 80
  | inside : ¬ q <+: id → q <:+: id → Grade u sep q id brief note 70
  | words : ¬ q <:+: id → (∃ w, IsWord u sep q w) → WordsIn u sep q id → Grade u sep q id brief note 60
  | brief : ¬ q <:+: id → ((∃ w, IsWord u sep q w) → ¬ WordsIn u sep q id) → q <:+: brief →
      Grade u sep q id brief note 40
  | note : ¬ q <:+: id → ((∃ w, IsWord u sep q w) → ¬ WordsIn u sep q id) → ¬ q <:+: brief → q <:+: note →
      Grade u sep q id brief note 20
  | briefWords : ¬ q <:+: id → ¬ q <:+: brief → ¬ q <:+: note → (∃ w, IsWord u sep q w) → ¬ WordsIn u sep q id →
      WordsIn u sep q brief → Grade u sep q id brief note 35
  | noteWords : ¬ q <:+: id → ¬ q <:+: brief → ¬ q <:+: note → (∃ w, IsWord u sep q w) → ¬ WordsIn u sep q id →
      ¬ WordsIn u sep q brief → WordsIn u sep q note → Grade u sep q id brief note 15
  | none : ¬ q <:+: id → ¬ q <:+: brief → ¬ q <:+: note →
      ((∃ w, IsWord u sep q w) → ¬ WordsIn u sep q id ∧ ¬ WordsIn u sep q brief ∧ ¬ WordsIn u sep q note) →
      Grade u sep q id brief note 0

/-- A definition passes the filters of a search. -/
def Passes (kind : Option Kind) (stability : Option Stability) (hideDeprecated : Bool) (i : Item) : Prop :=
  (∀ k, kind = some k → i.kind = k) ∧ (∀ s, stability = some s → i.stability = s) ∧
    (hideDeprecated = true → i.deprecated = false)

instance (kind : Option Kind) (stability : Option Stability) (hide : Bool) (i : Item) :
    Decidable (Passes kind stability hide i) := by
  unfold Passes
  refine @instDecidableAnd _ _ ?_ (@instDecidableAnd _ _ ?_ inferInstance)
  · cases kind with
    | none => exact .isTrue (fun _ h => nomatch h)
    | some k =>
      exact decidable_of_iff (i.kind = k) ⟨fun h _ e => (Option.some.inj e) ▸ h, fun h => h k rfl⟩
  · cases stability with
    | none => exact .isTrue (fun _ h => nomatch h)
    | some k =>
      exact decidable_of_iff (i.stability = k) ⟨fun h _ e => (Option.some.inj e) ▸ h, fun h => h k rfl⟩

/-- The full answer to a query over `items` (in registry order): without a query every definition that passes the
filters, in registry order, with relevance 0; with a query those with a positive relevance, the most relevant first,
equally relevant ones in registry order. -/
structure Answer (rel : Item → Nat) (isQuery : Prop) (passing : List Item) (full : List (Nat × Item)) : Prop where
  plain : ¬ isQuery → full = passing.map (fun i => (0, i))
  members : isQuery → ∀ s i, (s, i) ∈ full ↔ i ∈ passing ∧ s = rel i ∧ 0 < s
  ranked : full.Pairwise (fun a b => b.1 ≤ a.1)
  ties : isQuery → ∀ s, 0 < s → (full.filter (fun p => decide (p.1 = s))).map Prod.snd =
    passing.filter (fun i => decide (rel i = s))

/-- The query is there and not empty. -/
def IsQuery (query : Option String) : Prop := ∃ q, query = some q ∧ q ≠ ""

/-! ### Tokens -/

theorem mem_queryTokens {u : Unicode} {sep q w : Chars} : w ∈ queryTokens u sep q ↔ IsWord u sep q w := by
  unfold queryTokens IsWord
  rw [List.mem_filter, mem_splitWhen_iff]
  cases w <;> simp

theorem tokens_nonempty {u : Unicode} {sep q : Chars} :
    (queryTokens u sep q).isEmpty = false ↔ ∃ w, IsWord u sep q w := by
  constructor
  · intro h
    cases e : queryTokens u sep q with
    | nil => rw [e] at h; simp at h
    | cons w ws => exact ⟨w, mem_queryTokens.1 (by rw [e]; simp)⟩
  · rintro ⟨w, hw⟩
    have := mem_queryTokens.2 hw
    cases e : queryTokens u sep q with
    | nil => rw [e] at this; simp at this
    | cons w ws => rfl

theorem all_tokens_in {u : Unicode} {sep q t : Chars} :
    (queryTokens u sep q).all (fun qt => occurs qt t) = true ↔ WordsIn u sep q t := by
  rw [List.all_eq_true]
  constructor
  · intro h w hw
    exact occurs_iff.1 (h w (mem_queryTokens.2 hw))
  · intro h w hw
    exact occurs_iff.2 (h w (mem_queryTokens.1 hw))

/-- A text without separators that occurs in `s` occurs in one of the pieces of `s`. -/
theorem infix_piece {f : Char → Bool} {s w : Chars} (hw : ∀ c ∈ w, f c = false) (h : w <:+: s) :
    ∃ p ∈ splitWhen f s, w <:+: p := by
  obtain ⟨a, b, rfl⟩ := h
  induction a with
  | nil =>
    induction w with
    | nil =>
      cases e : splitWhen f ([] ++ [] ++ b) with
      | nil => exact absurd e (splitWhen_ne_nil f _)
      | cons p ps => exact ⟨p, by simp, List.nil_infix⟩
    | cons c w ih =>
      simp only [List.nil_append, List.cons_append] at ih ⊢
      have hc := hw c (by simp)
      -- the first piece of `c :: w ++ b` starts with `c :: w`
      suffices H : ∀ (w : Chars), (∀ c ∈ w, f c = false) →
          ∃ p ps, splitWhen f (w ++ b) = p :: ps ∧ w <+: p by
        obtain ⟨p, ps, h1, h2⟩ := H (c :: w) hw
        exact ⟨p, by simp only [List.cons_append] at h1; rw [h1]; simp, h2.isInfix⟩
      intro w hw
      induction w with
      | nil =>
        cases e : splitWhen f ([] ++ b) with
        | nil => exact absurd e (splitWhen_ne_nil f _)
        | cons p ps => exact ⟨p, ps, rfl, List.nil_prefix⟩
      | cons d w ih2 =>
        obtain ⟨p, ps, h1, h2⟩ := ih2 (fun c hc => hw c (by simp [hc]))
        refine ⟨d :: p, ps, ?_, by simpa using h2⟩
        rw [List.cons_append, splitWhen, hw d (by simp), h1]
        simp
  | cons d a ih =>
    obtain ⟨p, hp, hi⟩ := ih
    simp only [List.cons_append]
    unfold splitWhen
    by_cases hd : f d = true
    · rw [if_pos hd]
      exact ⟨p, List.mem_cons_of_mem _ hp, hi⟩
    · rw [if_neg hd]
      cases e : splitWhen f (a ++ w ++ b) with
      | nil => exact absurd e (splitWhen_ne_nil f _)
      | cons v vs =>
        rw [e] at hp
        rcases List.mem_cons.1 hp with rfl | hp
        · exact ⟨d :: p, by simp, hi.trans (List.suffix_cons d p).isInfix⟩
        · exact ⟨p, by simp [hp], hi⟩

theorem piece_infix {f : Char → Bool} {s p : Chars} (h : p ∈ splitWhen f s) : p <:+: s := by
  obtain ⟨a, b, e, _⟩ := mem_splitWhen_word h
  exact ⟨a, b, e.symm⟩

theorem all_tokens_id {u : Unicode} {sep q id : Chars} :
    (queryTokens u sep q).all (fun qt => (splitWhen (idCut sep) id).any (fun it => occurs qt it)) = true ↔
      WordsIn u sep q id := by
  rw [List.all_eq_true]
  constructor
  · intro h w hw
    obtain ⟨p, hp, ho⟩ := List.any_eq_true.1 (h w (mem_queryTokens.2 hw))
    exact (occurs_iff.1 ho).trans (piece_infix hp)
  · intro h w hw
    have hw' := mem_queryTokens.1 hw
    have hclean : ∀ c ∈ w, idCut sep c = false := by
      obtain ⟨a, b, _, hc, _⟩ := hw'.2
      intro c hcw
      have := hc c hcw
      unfold queryCut at this
      unfold idCut
      simp only [Bool.or_eq_false_iff] at this ⊢
      exact this.1
    obtain ⟨p, hp, hi⟩ := infix_piece hclean (h w hw')
    exact List.any_eq_true.2 ⟨p, hp, occurs_iff.2 hi⟩

/-! ### Scores -/

/-- The relevance of a definition that is not deprecated is the grade of the table. -/
theorem score_grade (u : Unicode) (sep q id brief note : Chars) :
    Grade u sep q id brief note (baseScore u sep q id brief note) := by
  unfold baseScore
  by_cases h1 : id = q
  · rw [if_pos h1]; exact .exact h1
  rw [if_neg h1]
  by_cases h2 : (dropPrefix? q id).isSome = true
  · rw [if_pos h2]
    obtain ⟨r, hr⟩ := Option.isSome_iff_exists.1 h2
    exact .pre h1 ⟨r, (dropPrefix?_iff.1 hr).symm⟩
  rw [if_neg h2]
  have h2' : ¬ q <+: id := dropPrefix?_none.1 (by simpa using h2)
  by_cases h3 : occurs q id = true
  · rw [if_pos h3]; exact .inside h2' (occurs_iff.1 h3)
  rw [if_neg h3]
  have h3' : ¬ q <:+: id := fun h => h3 (occurs_iff.2 h)
  by_cases h4 : (queryTokens u sep q).isEmpty = false
  · rw [if_pos (by rw [h4]; rfl)]
    have h4' := tokens_nonempty.1 h4
    by_cases h5 : (queryTokens u sep q).all
        (fun qt => (splitWhen (idCut sep) id).any (fun it => occurs qt it)) = true
    · rw [if_pos h5]; exact .words h3' h4' (all_tokens_id.1 h5)
    rw [if_neg h5]
    have h5' : ¬ WordsIn u sep q id := fun h => h5 (all_tokens_id.2 h)
    by_cases h6 : occurs q brief = true
    · rw [if_pos h6]; exact .brief h3' (fun _ => h5') (occurs_iff.1 h6)
    rw [if_neg h6]
    have h6' : ¬ q <:+: brief := fun h => h6 (occurs_iff.2 h)
    by_cases h7 : occurs q note = true
    · rw [if_pos h7]; exact .note h3' (fun _ => h5') h6' (occurs_iff.1 h7)
    rw [if_neg h7]
    have h7' : ¬ q <:+: note := fun h => h7 (occurs_iff.2 h)
    by_cases h8 : (queryTokens u sep q).all (fun qt => occurs qt brief) = true
    · rw [if_pos h8]; exact .briefWords h3' h6' h7' h4' h5' (all_tokens_in.1 h8)
    rw [if_neg h8]
    have h8' : ¬ WordsIn u sep q brief := fun h => h8 (all_tokens_in.2 h)
    by_cases h9 : (queryTokens u sep q).all (fun qt => occurs qt note) = true
    · rw [if_pos h9]; exact .noteWords h3' h6' h7' h4' h5' h8' (all_tokens_in.1 h9)
    rw [if_neg h9]
    exact .none h3' h6' h7' (fun _ => ⟨h5', h8', fun h => h9 (all_tokens_in.2 h)⟩)
  · have h4' : ¬ ∃ w, IsWord u sep q w := fun h => h4 (tokens_nonempty.2 h)
    rw [if_neg (by simpa using h4)]
    by_cases h6 : occurs q brief = true
    · rw [if_pos h6]; exact .brief h3' (fun h => absurd h h4') (occurs_iff.1 h6)
    rw [if_neg h6]
    have h6' : ¬ q <:+: brief := fun h => h6 (occurs_iff.2 h)
    by_cases h7 : occurs q note = true
    · rw [if_pos h7]; exact .note h3' (fun h => absurd h h4') h6' (occurs_iff.1 h7)
    rw [if_neg h7]
    exact .none h3' h6' (fun h => h7 (occurs_iff.2 h)) (fun h => absurd h h4')

/-- The table gives one grade to each definition. -/
theorem grade_unique {u : Unicode} {sep q id brief note : Chars} {m n : Nat} (h : Grade u sep q id brief note m)
    (h' : Grade u sep q id brief note n) : m = n := by
  have hself : ∀ t : Chars, t <+: t := fun t => ⟨[], by simp⟩
  have hpi : q <+: id → q <:+: id := fun h => h.isInfix
  have heq : id = q → q <+: id := fun h => h ▸ hself id
  cases h <;> cases h' <;> first | rfl | (exfalso; simp_all)

/-- The relevance in full: that of the table, a tenth of it (and at least 1) for a deprecated definition. -/
def Relevance (u : Unicode) (sep q : String) (i : Item) (n : Nat) : Prop :=
  ∃ g, Grade u sep.toList (u.lower q.toList) (u.lower i.id.toList) (u.lower i.brief.toList) (u.lower i.note.toList) g ∧
    n = if i.deprecated ∧ g ≠ 0 then max 1 (g / 10) else g

theorem score_relevance (u : Unicode) (sep q : String) (i : Item) : Relevance u sep q i (score u sep q i) := by
  refine ⟨_, score_grade _ _ _ _ _ _, ?_⟩
  unfold score demote
  cases i.deprecated with
  | false => simp
  | true =>
    generalize baseScore u sep.toList (u.lower q.toList) (u.lower i.id.toList) (u.lower i.brief.toList)
      (u.lower i.note.toList) = g
    by_cases hg : g = 0
    · subst hg; rfl
    · have : 0 < g := Nat.pos_of_ne_zero hg
      simp only [this, decide_true, Bool.and_self, if_true, true_and, ne_eq, hg, not_false_eq_true]
      split <;> omega

theorem relevance_unique {u : Unicode} {sep q : String} {i : Item} {m n : Nat} (h : Relevance u sep q i m)
    (h' : Relevance u sep q i n) : m = n := by
  obtain ⟨g, hg, rfl⟩ := h
  obtain ⟨g', hg', rfl⟩ := h'
  rw [grade_unique hg hg']

/-! ### The full answer -/

theorem mem_filtered {c : Ctx} {kind : Option Kind} {stability : Option Stability} {hide : Bool} :
    filtered c kind stability hide = c.items.filter (fun i => decide (Passes kind stability hide i)) := by
  unfold filtered
  have e : ∀ (l : List Item) (p q : Item → Bool), (l.filter p).filter q = l.filter (fun i => p i && q i) := by
    intro l p q
    rw [List.filter_filter]
    congr 1
    funext i
    exact Bool.and_comm _ _
  cases kind <;> cases stability <;> cases hide <;> dsimp only <;>
    simp only [Bool.false_eq_true, if_false, if_true, e] <;> congr 1 <;> funext i <;> rw [Bool.eq_iff_iff] <;>
    simp [Passes, and_assoc]

theorem mem_scored {u : Unicode} {sep q : String} {items : List Item} {s : Nat} {i : Item} :
    (s, i) ∈ scored u sep q items ↔ i ∈ items ∧ s = score u sep q i ∧ 0 < s := by
  unfold scored
  rw [List.mem_filterMap]
  constructor
  · rintro ⟨j, hj, h⟩
    split at h
    · simp at h
      obtain ⟨rfl, rfl⟩ := h
      exact ⟨hj, rfl, by assumption⟩
    · simp at h
  · rintro ⟨h1, rfl, h3⟩
    exact ⟨i, h1, by rw [if_pos h3]⟩

theorem scored_class {u : Unicode} {sep q : String} (items : List Item) (s : Nat) (hs : 0 < s) :
    ((scored u sep q items).filter (fun p => decide (p.1 = s))).map Prod.snd =
      items.filter (fun i => decide (score u sep q i = s)) := by
  induction items with
  | nil => rfl
  | cons i l ih =>
    unfold scored at ih ⊢
    rw [List.filterMap_cons]
    by_cases h : 0 < score u sep q i
    · rw [if_pos h]
      dsimp only
      by_cases e : score u sep q i = s
      · simp only [List.filter_cons, e, decide_true, if_true, List.map_cons, ih]
      · simp only [List.filter_cons, e, decide_false, Bool.false_eq_true, if_false, ih]
    · rw [if_neg h]
      dsimp only
      rw [ih, List.filter_cons, if_neg (by simp; omega)]

/-- The full answer of the model. -/
def fullAnswer (u : Unicode) (c : Ctx) (query : Option String) (kind : Option Kind) (stability : Option Stability)
    (hide : Bool) : List (Nat × Item) :=
  match query with
  | some q =>
    if q = "" then (filtered c kind stability hide).map (fun i => (0, i))
    else sortBy (geKey Prod.fst) (scored u c.sep q (filtered c kind stability hide))
  | none => (filtered c kind stability hide).map (fun i => (0, i))

theorem search_full (u : Unicode) (c : Ctx) (query : Option String) (kind : Option Kind) (stability : Option Stability)
    (hide : Bool) (limit offset : Nat) :
    search u c query kind stability hide limit offset =
      (((fullAnswer u c query kind stability hide).drop offset).take (min limit 1000),
        (fullAnswer u c query kind stability hide).length) := by
  unfold search fullAnswer
  have e : ∀ items : List Item, browseMode items (min limit maxLimit) offset =
      ((items.map (fun i => ((0 : Nat), i))).drop offset).take (min limit 1000) := by
    intro items
    unfold browseMode maxLimit
    rw [← List.map_drop, ← List.map_take]
  cases query with
  | none => simp [e]
  | some q =>
    dsimp only
    by_cases h : q = ""
    · simp [h, e]
    · simp [h, searchMode, maxLimit]

theorem fullAnswer_answer (u : Unicode) (c : Ctx) (query : Option String) (kind : Option Kind)
    (stability : Option Stability) (hide : Bool) :
    Answer (score u c.sep (query.getD "")) (IsQuery query)
      (c.items.filter (fun i => decide (Passes kind stability hide i))) (fullAnswer u c query kind stability hide) := by
  rw [← mem_filtered]
  have hzero : ∀ l : List Item, (l.map (fun i => ((0 : Nat), i))).Pairwise (fun a b => b.1 ≤ a.1) := by
    intro l
    rw [List.pairwise_map]
    induction l with
    | nil => exact List.Pairwise.nil
    | cons a l ih => exact List.Pairwise.cons (fun _ _ => Nat.le_refl _) ih
  unfold fullAnswer
  cases query with
  | none =>
    exact ⟨fun _ => rfl, (by rintro ⟨q, h, _⟩; cases h), hzero _, (by rintro ⟨q, h, _⟩; cases h)⟩
  | some q =>
    dsimp only
    by_cases h : q = ""
    · rw [if_pos h]
      exact ⟨fun _ => rfl, (by rintro ⟨q', e, hne⟩; exact absurd (Option.some.inj e ▸ h) hne), hzero _,
        (by rintro ⟨q', e, hne⟩; exact absurd (Option.some.inj e ▸ h) hne)⟩
    · rw [if_neg h]
      refine ⟨fun hn => absurd ⟨q, rfl, h⟩ hn, ?_, ?_, ?_⟩
      · intro _ s i
        rw [mem_sortBy, mem_scored]
        rfl
      · have := sortBy_sorted (geKey_totalPre (Prod.fst : Nat × Item → Nat))
          (scored u c.sep q (filtered c kind stability hide))
        refine List.Pairwise.imp ?_ this
        intro a b hab
        simpa [geKey] using hab
      · intro _ s hs
        rw [sortBy_stable, scored_class _ _ hs]
        · rfl
        · intro a _ b _ ha hb
          simp at ha hb
          simp [geKey, ha, hb]

/-! ### C27 -/

/-- Every page is a window of one full answer, and the total is its length, whatever the page asked for. The full answer
holds exactly the definitions that pass the filters and are relevant, ranked. -/
theorem search_pages (u : Unicode) (r : Registry) (sep : String) (query : Option String) (kind : Option Kind)
    (stability : Option Stability) (hide : Bool) :
    ∃ (rel : Item → Nat) (full : List (Nat × Item)),
      (∀ i, Relevance u sep (query.getD "") i (rel i)) ∧
      Answer rel (IsQuery query)
        ((r.attributes ++ r.metrics ++ r.spans ++ r.events ++ r.entities).filter
          (fun i => decide (Passes kind stability hide i))) full ∧
      ∀ limit offset, search u (build r sep) query kind stability hide limit offset =
        ((full.drop offset).take (min limit 1000), full.length) :=
  ⟨_, _, fun _ => score_relevance _ _ _ _, fullAnswer_answer u (build r sep) query kind stability hide,
    fun _ _ => search_full ..⟩

/-- The pages of size `n` in turn, from `offset` on. -/
def pages (page : Nat → List (Nat × Item)) (n : Nat) : Nat → List (Nat × Item)
  | 0 => []
  | k + 1 => pages page n k ++ page (k * n)

theorem windows {α : Type} (l : List α) (n k : Nat) : (l.take (k * n)) ++ (l.drop (k * n)).take n = l.take ((k + 1) * n) := by
  rw [Nat.succ_mul, List.take_add]

/-- Concatenating consecutive pages of a size between 1 and 1000 gives the full answer: nothing is lost, repeated or
reordered. -/
theorem pages_concat (u : Unicode) (c : Ctx) (query : Option String) (kind : Option Kind) (stability : Option Stability)
    (hide : Bool) (n : Nat) (hn : 1 ≤ n) (hn' : n ≤ 1000) :
    ∃ rel full, (∀ i, Relevance u c.sep (query.getD "") i (rel i)) ∧ Answer rel (IsQuery query)
        (c.items.filter (fun i => decide (Passes kind stability hide i))) full ∧
      ∀ k, full.length ≤ k * n →
        pages (fun o => (search u c query kind stability hide n o).1) n k = full := by
  refine ⟨_, _, fun _ => score_relevance _ _ _ _, fullAnswer_answer u c query kind stability hide, ?_⟩
  have key : ∀ k, pages (fun o => (search u c query kind stability hide n o).1) n k =
      (fullAnswer u c query kind stability hide).take (k * n) := by
    intro k
    induction k with
    | zero => simp [pages]
    | succ k ih =>
      rw [pages, ih, search_full]
      dsimp only
      rw [Nat.min_eq_left hn', windows]
  intro k hk
  rw [key, List.take_of_length_le hk]

/-- Every hit passes the filters, and the page is no longer than what was asked for. -/
theorem hits_pass (u : Unicode) (c : Ctx) (query : Option String) (kind : Option Kind) (stability : Option Stability)
    (hide : Bool) (limit offset : Nat) :
    (∀ p ∈ (search u c query kind stability hide limit offset).1, p.2 ∈ c.items ∧ Passes kind stability hide p.2) ∧
    (search u c query kind stability hide limit offset).1.length ≤ limit ∧
    (search u c query kind stability hide limit offset).1.length ≤ 1000 := by
  rw [search_full]
  dsimp only
  refine ⟨?_, by rw [List.length_take]; omega, by rw [List.length_take]; omega⟩
  intro p hp
  have hp := List.mem_of_mem_drop (List.mem_of_mem_take hp)
  have ans := fullAnswer_answer u c query kind stability hide
  by_cases hq : IsQuery query
  · have := (ans.members hq p.1 p.2).1 hp
    have := List.mem_filter.1 this.1
    exact ⟨this.1, by simpa using this.2⟩
  · rw [ans.plain hq] at hp
    obtain ⟨i, hi, rfl⟩ := List.mem_map.1 hp
    have := List.mem_filter.1 hi
    exact ⟨this.1, by simpa using this.2⟩

/-- A definition is found by a query exactly if it passes the filters and the query occurs in its name, its brief or its
note, or all words of the query occur in one of the three. -/
theorem hit_iff (u : Unicode) (c : Ctx) (q : String) (hq : q ≠ "") (kind : Option Kind) (stability : Option Stability)
    (hide : Bool) (i : Item) :
    (∃ limit offset, ∃ p ∈ (search u c (some q) kind stability hide limit offset).1, p.2 = i) ↔
      i ∈ c.items ∧ Passes kind stability hide i ∧
      ∃ t, (t = i.id ∨ t = i.brief ∨ t = i.note) ∧
        (u.lower q.toList <:+: u.lower t.toList ∨
          ((∃ w, IsWord u c.sep.toList (u.lower q.toList) w) ∧
            WordsIn u c.sep.toList (u.lower q.toList) (u.lower t.toList))) := by
  have hQ : IsQuery (some q) := ⟨q, rfl, hq⟩
  have ans := fullAnswer_answer u c (some q) kind stability hide
  have hmem : (∃ limit offset, ∃ p ∈ (search u c (some q) kind stability hide limit offset).1, p.2 = i) ↔
      ∃ s, (s, i) ∈ fullAnswer u c (some q) kind stability hide := by
    constructor
    · rintro ⟨l, o, p, hp, rfl⟩
      rw [search_full] at hp
      exact ⟨p.1, List.mem_of_mem_drop (List.mem_of_mem_take hp)⟩
    · rintro ⟨s, hs⟩
      obtain ⟨n, hn, e⟩ := List.getElem_of_mem hs
      refine ⟨1, n, (s, i), ?_, rfl⟩
      rw [search_full]
      dsimp only
      rw [List.drop_eq_getElem_cons hn, e]
      simp
  rw [hmem]
  have hrel := score_relevance u c.sep q i
  constructor
  · rintro ⟨s, hs⟩
    obtain ⟨h1, h2, h3⟩ := (ans.members hQ s i).1 hs
    rw [List.mem_filter] at h1
    refine ⟨h1.1, by simpa using h1.2, ?_⟩
    have h3 : 0 < score u c.sep q i := by rw [h2] at h3; exact h3
    obtain ⟨g, hg, e⟩ := hrel
    cases hg with
    | exact h => exact ⟨i.id, Or.inl rfl, Or.inl (by rw [h]; exact ⟨[], [], by simp⟩)⟩
    | pre _ h => exact ⟨i.id, Or.inl rfl, Or.inl h.isInfix⟩
    | inside _ h => exact ⟨i.id, Or.inl rfl, Or.inl h⟩
    | words _ h1 h2 => exact ⟨i.id, Or.inl rfl, Or.inr ⟨h1, h2⟩⟩
    | brief _ _ h => exact ⟨i.brief, Or.inr (Or.inl rfl), Or.inl h⟩
    | note _ _ _ h => exact ⟨i.note, Or.inr (Or.inr rfl), Or.inl h⟩
    | briefWords _ _ _ h1 _ h2 => exact ⟨i.brief, Or.inr (Or.inl rfl), Or.inr ⟨h1, h2⟩⟩
    | noteWords _ _ _ h1 _ _ h2 => exact ⟨i.note, Or.inr (Or.inr rfl), Or.inr ⟨h1, h2⟩⟩
    | none => rw [e] at h3; simp at h3
  · rintro ⟨h1, h2, t, ht, hm⟩
    refine ⟨score u c.sep q i, (ans.members hQ _ i).2 ⟨List.mem_filter.2 ⟨h1, by simpa using h2⟩, rfl, ?_⟩⟩
    obtain ⟨g, hg, e⟩ := hrel
    rw [e]
    have hgpos : g ≠ 0 := by
      rintro rfl
      cases hg with
      | none n1 n2 n3 n4 =>
        rcases hm with hm | ⟨hw, hm⟩
        · rcases ht with rfl | rfl | rfl
          · exact n1 hm
          · exact n2 hm
          · exact n3 hm
        · obtain ⟨m1, m2, m3⟩ := n4 hw
          rcases ht with rfl | rfl | rfl
          · exact m1 hm
          · exact m2 hm
          · exact m3 hm
    split
    · omega
    · omega

/-- An exact name match (up to case) is the only thing that reaches relevance 100, if it is not deprecated; nothing
exceeds it. So it comes before every other match. -/
theorem exact_first (u : Unicode) (sep q : String) (i : Item) :
    score u sep q i ≤ 100 ∧
      (score u sep q i = 100 ↔ i.deprecated = false ∧ u.lower i.id.toList = u.lower q.toList) := by
  obtain ⟨g, hg, e⟩ := score_relevance u sep q i
  rw [e]
  cases hg with
  | exact h => cases hd : i.deprecated <;> simp [h]
  | pre h | inside h | words h | brief h | note h | briefWords h | noteWords h | none h =>
    have hne : u.lower i.id.toList ≠ u.lower q.toList := by
      first
      | exact h
      | exact fun e => h (e ▸ ⟨[], by simp⟩)
      | exact fun e => h (e ▸ ⟨[], [], by simp⟩)
    cases hd : i.deprecated <;> simp [hne]

/-- A relevant definition that is not deprecated is always more relevant than any deprecated one. -/
theorem deprecated_last (u : Unicode) (sep q : String) (i j : Item) (hi : i.deprecated = false)
    (hpos : 0 < score u sep q i) (hj : j.deprecated = true) : score u sep q j < score u sep q i := by
  have h1 : 15 ≤ score u sep q i := by
    obtain ⟨g, hg, e⟩ := score_relevance u sep q i
    rw [e] at hpos ⊢
    simp only [hi, Bool.false_eq_true, false_and, if_false] at hpos ⊢
    cases hg <;> omega
  have h2 : score u sep q j ≤ 10 := by
    obtain ⟨g, hg, e⟩ := score_relevance u sep q j
    rw [e]
    simp only [hj, true_and]
    cases hg <;> simp
  omega

/-- In any answer, an exact match that is not deprecated comes before every match that is not exact, and every match that
is not deprecated before every deprecated one. -/
theorem rank_order (u : Unicode) (c : Ctx) (q : String) (hq : q ≠ "") (kind : Option Kind)
    (stability : Option Stability) (hide : Bool) (limit offset m n : Nat) (a b : Nat × Item)
    (ha : (search u c (some q) kind stability hide limit offset).1[m]? = some a)
    (hb : (search u c (some q) kind stability hide limit offset).1[n]? = some b)
    (h : (a.2.deprecated = false ∧ b.2.deprecated = true) ∨
      (a.2.deprecated = false ∧ u.lower a.2.id.toList = u.lower q.toList ∧ u.lower b.2.id.toList ≠ u.lower q.toList)) :
    m < n := by
  rw [search_full] at ha hb
  dsimp only at ha hb
  have ans := fullAnswer_answer u c (some q) kind stability hide
  have hQ : IsQuery (some q) := ⟨q, rfl, hq⟩
  have hpw : (((fullAnswer u c (some q) kind stability hide).drop offset).take (min limit 1000)).Pairwise
      (fun a b => b.1 ≤ a.1) :=
    List.Pairwise.sublist ((List.take_sublist _ _).trans (List.drop_sublist _ _)) ans.ranked
  have hsc : ∀ p ∈ ((fullAnswer u c (some q) kind stability hide).drop offset).take (min limit 1000),
      p.1 = score u c.sep q p.2 ∧ 0 < p.1 := by
    intro p hp
    exact ((ans.members hQ p.1 p.2).1 (List.mem_of_mem_drop (List.mem_of_mem_take hp))).2
  obtain ⟨hm, ea⟩ := List.getElem?_eq_some_iff.1 ha
  obtain ⟨hn, eb⟩ := List.getElem?_eq_some_iff.1 hb
  have sa := hsc a (ea ▸ List.getElem_mem hm)
  have sb := hsc b (eb ▸ List.getElem_mem hn)
  have hlt : b.1 < a.1 := by
    rcases h with ⟨h1, h2⟩ | ⟨h1, h2, h3⟩
    · rw [sa.1, sb.1]
      exact deprecated_last u c.sep q a.2 b.2 h1 (sa.1 ▸ sa.2) h2
    · have e1 := (exact_first u c.sep q a.2).2.2 ⟨h1, h2⟩
      have e2 := exact_first u c.sep q b.2
      rw [sa.1, sb.1, e1]
      have : score u c.sep q b.2 ≠ 100 := fun e => h3 (e2.2.1 e).2
      omega
  rcases Nat.lt_trichotomy m n with h | h | h
  · exact h
  · subst h
    rw [ea] at eb
    subst eb
    omega
  · have := List.pairwise_iff_getElem.1 hpw n m hn hm h
    rw [ea, eb] at this
    omega

/-! ### A registry -/

/-- ASCII lower case. -/
def asciiLower (s : Chars) : Chars := s.map Char.toLower

def ascii : Unicode := { lower := asciiLower, white := fun c => decide (c = ' ') }

def shop : Registry where
  attributes := [{ kind := .attribute, id := "http.route", brief := "The route" },
    { kind := .attribute, id := "http", deprecated := true },
    { kind := .attribute, id := "url.path", brief := "path of the HTTP request" },
    { kind := .attribute, id := "http.header", template := true }]
  metrics := [{ kind := .metric, id := "HTTP", stability := .stable }]

example : (search ascii (build shop ".") (some "http") none none false 10 0).1.map (fun p => (p.1, p.2.id)) =
    [(100, "HTTP"), (80, "http.route"), (80, "http.header"), (40, "url.path"), (10, "http")] := by decide
example : (search ascii (build shop ".") (some "http") none none false 2 3) =
    ([(40, { kind := .attribute, id := "url.path", brief := "path of the HTTP request" }),
      (10, { kind := .attribute, id := "http", deprecated := true })], 5) := by decide
example : (search ascii (build shop ".") (some "route http") none none false 2 0).1.map (fun p => (p.1, p.2.id)) =
    [(60, "http.route")] := by decide

end Verif.Search
