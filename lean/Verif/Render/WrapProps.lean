import Verif.Render.WrapSpec
/-
What wrapping words does to a text.
-/
namespace Verif.Render
open Verif.Util (Chars)
open Verif.Markdown (isWhite)
open Verif.Forge (trimEnd)

/-! ### Marks -/

/-- Whether white space comes after `s`, if it comes before. -/
def endWhite : Bool → Chars → Bool
  | b, [] => b
  | _, c :: cs => endWhite (isWhite c) cs

theorem endWhite_append (x y : Chars) : ∀ b, endWhite b (x ++ y) = endWhite (endWhite b x) y := by
  induction x with
  | nil => intro b; rfl
  | cons c x ih => intro b; exact ih _

theorem marks_cons (b : Bool) (c : Char) (x : Chars) :
    marks b (c :: x) = if isWhite c then marks true x else (c, b) :: marks false x := rfl

theorem endWhite_cons (b : Bool) (c : Char) (x : Chars) : endWhite b (c :: x) = endWhite (isWhite c) x := rfl

theorem marks_append (x y : Chars) : ∀ b, marks b (x ++ y) = marks b x ++ marks (endWhite b x) y := by
  induction x with
  | nil => intro b; rfl
  | cons c x ih =>
    intro b
    rw [List.cons_append, marks_cons, marks_cons, endWhite_cons]
    cases hc : isWhite c with
    | true => rw [if_pos rfl, if_pos rfl, ih]
    | false => rw [if_neg (by simp), if_neg (by simp), ih, List.cons_append]

theorem marks_white {s : Chars} (h : ∀ c ∈ s, isWhite c = true) : ∀ b, marks b s = [] := by
  induction s with
  | nil => intro b; rfl
  | cons c s ih =>
    intro b; unfold marks
    rw [if_pos (h c (List.mem_cons_self ..)), ih (fun x hx => h x (List.mem_cons_of_mem _ hx))]

theorem endWhite_white {s : Chars} (h : ∀ c ∈ s, isWhite c = true) : ∀ b, s ≠ [] → endWhite b s = true := by
  induction s with
  | nil => intro b hs; exact absurd rfl hs
  | cons c s ih =>
    intro b _
    unfold endWhite
    rw [h c (List.mem_cons_self ..)]
    cases s with
    | nil => rfl
    | cons d s => exact ih (fun x hx => h x (List.mem_cons_of_mem _ hx)) _ (by simp)

theorem endWhite_last {s : Chars} (hs : s ≠ []) (b : Bool) : endWhite b s = isWhite (s.getLast hs) := by
  induction s generalizing b with
  | nil => exact absurd rfl hs
  | cons c s ih =>
    cases s with
    | nil => rfl
    | cons d s => unfold endWhite; rw [ih (by simp)]; simp

theorem endWhite_mono {b b' : Bool} (h : b = true → b' = true) (s : Chars) : endWhite b s = true → endWhite b' s = true := by
  cases s with
  | nil => exact h
  | cons c s => exact id

/-! ### Keeping -/

theorem Keeps.append {extra : Bool} {a b c d : List (Char × Bool)} (h : Keeps extra a b) (h' : Keeps extra c d) :
    Keeps extra (a ++ c) (b ++ d) := by
  induction h with
  | nil => exact h'
  | same c h _ ih => exact .same c h ih
  | other x h _ ih => exact .other x h ih

theorem keeps_marks {extra : Bool} (s : Chars) : ∀ {b b' : Bool}, (b = true → b' = true) → Keeps extra (marks b s) (marks b' s) := by
  induction s with
  | nil => intro b b' _; exact .nil
  | cons c s ih =>
    intro b b' h
    unfold marks
    split
    · exact ih id
    · exact .same c h (ih id)

theorem Keeps.extras {a b : List (Char × Bool)} (h : Keeps true a b) : ∀ c, Keeps true a (b ++ c) := by
  intro c
  induction h with
  | nil =>
    rw [List.nil_append]
    induction c with
    | nil => exact .nil
    | cons x c ih => exact .other x rfl ih
  | same c h _ ih => exact .same c h ih
  | other x h _ ih => exact .other x h ih

/-- The invariant: what has been written keeps `s`, and white space at the end of `s` is there or will be. -/
def Kept (extra : Bool) (s : Chars) (o : Out) : Prop :=
  KeepsText extra s o.text ∧ (endWhite false s = true → endWhite false o.text = true ∨ o.space = true)

theorem kept_init (extra : Bool) : Kept extra [] {} := ⟨.nil, (fun h => nomatch h)⟩

/-- White space is written, and then a text. -/
theorem Kept.put {extra : Bool} {s t x sep : Chars} {o : Out} (h : KeepsText extra s o.text) (hx : ∀ c ∈ sep, isWhite c = true)
    (hs : sep = [] → endWhite false s = true → endWhite false o.text = true)
    (ht : ∀ b b' : Bool, (b = true → b' = true) → Keeps extra (marks b t) (marks b' x)) :
    KeepsText extra (s ++ t) (o.text ++ (sep ++ x)) := by
  unfold KeepsText
  rw [marks_append, marks_append, marks_append, marks_white hx, List.nil_append]
  refine h.append (ht _ _ fun hb => ?_)
  by_cases he : sep = []
  · rw [he]; exact hs he hb
  · exact endWhite_white hx _ he

theorem nl_white : isWhite '\n' = true := by decide
theorem sp_white : isWhite ' ' = true := by decide

theorem kept_unbroken {extra : Bool} {s indent : Chars} {o : Out} (cfg : WrapCfg) (hi : ∀ c ∈ indent, isWhite c = true) (t : Chars)
    (h : Kept extra s o) : Kept extra (s ++ t) (o.unbroken cfg t indent) := by
  unfold Out.unbroken
  split
  · rw [show '\n' :: (indent ++ t) = ('\n' :: indent) ++ t from rfl]
    refine ⟨Kept.put h.1 ?_ (fun h => nomatch h) (fun _ _ hb => keeps_marks t hb), fun he => .inl ?_⟩
    · intro c hc
      rcases List.mem_cons.1 hc with rfl | hc
      · exact nl_white
      · exact hi c hc
    · rw [endWhite_append] at he ⊢
      rw [endWhite_append]
      refine endWhite_mono (fun _ => ?_) t he
      exact endWhite_white (s := '\n' :: indent) (fun c hc => by
        rcases List.mem_cons.1 hc with rfl | hc
        · exact nl_white
        · exact hi c hc) _ (by simp)
  · split
    · rw [show ' ' :: t = [' '] ++ t from rfl]
      refine ⟨Kept.put h.1 ?_ (fun h => nomatch h) (fun _ _ hb => keeps_marks t hb), fun he => .inl ?_⟩
      · intro c hc; rw [List.mem_singleton.1 hc]; exact sp_white
      · rw [endWhite_append] at he ⊢
        exact endWhite_mono (fun _ => rfl) t he
    · rename_i hsp
      have h2 : endWhite false s = true → endWhite false o.text = true := fun he => by
        rcases h.2 he with h | h
        · exact h
        · exact absurd h hsp
      refine ⟨Kept.put (sep := []) h.1 (fun _ h => nomatch h) (fun _ => h2) (fun _ _ hb => keeps_marks t hb), fun he => .inl ?_⟩
      rw [endWhite_append] at he ⊢
      exact endWhite_mono h2 t he

theorem kept_ln {extra : Bool} {s indent : Chars} {o : Out} (hi : ∀ c ∈ indent, isWhite c = true)
    (h : KeepsText extra s o.text) : Kept extra s (o.ln indent) := by
  have hw : ∀ c ∈ '\n' :: indent, isWhite c = true := fun c hc => by
    rcases List.mem_cons.1 hc with rfl | hc
    · exact nl_white
    · exact hi c hc
  refine ⟨?_, fun _ => .inl ?_⟩
  · unfold KeepsText Out.ln
    rw [marks_append, marks_white hw, List.append_nil]
    exact h
  · unfold Out.ln
    rw [endWhite_append]
    exact endWhite_white hw _ (by simp)

/-- Extra text may be written. -/
theorem kept_extra {s indent : Chars} {o : Out} (cfg : WrapCfg) (t : Chars) (hi : ∀ c ∈ indent, isWhite c = true)
    (h : KeepsText true s o.text) : Kept true s (o.unbrokenLn cfg t indent) := by
  refine kept_ln hi ?_
  unfold Out.unbroken KeepsText
  split
  · rw [marks_append]; exact Keeps.extras h _
  · split
    · rw [marks_append]; exact Keeps.extras h _
    · rw [marks_append]; exact Keeps.extras h _

/-! ### Words -/

theorem dropWhile_split (p : Char → Bool) (l : Chars) : ∃ d, l = d ++ l.dropWhile p ∧ ∀ c ∈ d, p c = true := by
  induction l with
  | nil => exact ⟨[], rfl, (fun _ h => nomatch h)⟩
  | cons c l ih =>
    rw [List.dropWhile_cons]
    split
    · rename_i h
      obtain ⟨d, h1, h2⟩ := ih
      refine ⟨c :: d, by rw [List.cons_append, ← h1], fun x hx => ?_⟩
      rcases List.mem_cons.1 hx with rfl | hx
      · exact h
      · exact h2 x hx
    · exact ⟨[], rfl, (fun _ h => nomatch h)⟩

theorem trimEnd_split (p : Char → Bool) (l : Chars) :
    ∃ d, l = (l.reverse.dropWhile p).reverse ++ d ∧ ∀ c ∈ d, p c = true := by
  obtain ⟨d, h1, h2⟩ := dropWhile_split p l.reverse
  refine ⟨d.reverse, ?_, fun c hc => h2 c (List.mem_reverse.1 hc)⟩
  have := congrArg List.reverse h1
  rw [List.reverse_reverse, List.reverse_append] at this
  exact this

/-- A chunk is its word and white space; if newlines are not ignored, spaces. -/
theorem wordOf_split (ign : Bool) (l : Chars) :
    ∃ d, l = wordOf ign l ++ d ∧ (∀ c ∈ d, isWhite c = true) ∧ (ign = false → ∀ c ∈ d, c = ' ') := by
  unfold wordOf
  cases ign with
  | true =>
    obtain ⟨d, h1, h2⟩ := trimEnd_split isWhite l
    exact ⟨d, h1, h2, (fun h => nomatch h)⟩
  | false =>
    obtain ⟨d, h1, h2⟩ := trimEnd_split (fun c => decide (c = ' ')) l
    have h3 : ∀ c ∈ d, c = ' ' := fun c hc => by have := h2 c hc; simpa using this
    exact ⟨d, h1, fun c hc => by rw [h3 c hc]; exact sp_white, fun _ => h3⟩

/-- The chunks make up the line, and all but the last end with a break. -/
inductive Chunked (p : Char → Bool) : Chars → List Chars → Prop
  | none : Chunked p [] []
  | last (c : Chars) (h : c ≠ []) : Chunked p c [c]
  | cons (c : Chars) (b : Char) {s : Chars} {cs : List Chars} (h : p b = true) (hn : s ≠ []) (t : Chunked p s cs) :
      Chunked p (c ++ [b] ++ s) ((c ++ [b]) :: cs)

theorem chunksFrom_chunked (p : Char → Bool) : ∀ (l : Chars) (inWhite : Bool) (acc : Chars),
    (inWhite = true → ∃ a b, acc = a ++ [b] ∧ p b = true) → Chunked p (acc ++ l) (chunksFrom p l inWhite acc) := by
  intro l
  induction l with
  | nil =>
    intro iw acc h
    unfold chunksFrom
    rw [List.append_nil]
    split
    · rename_i h; subst h; exact .none
    · rename_i h; exact .last _ h
  | cons c l ih =>
    intro iw acc h
    unfold chunksFrom
    split
    · rename_i hc
      obtain ⟨h1, h2⟩ := Bool.and_eq_true_iff.1 hc
      obtain ⟨a, b, rfl, hb⟩ := h h1
      refine .cons a b hb (by simp) ?_
      exact ih (p c) [c] (fun hp => ⟨[], c, rfl, hp⟩)
    · have := ih (p c) (acc ++ [c]) (fun hp => ⟨acc, c, rfl, hp⟩)
      rw [List.append_assoc] at this
      exact this

theorem isBreak_white {ign : Bool} {c : Char} (h : isBreak ign c = true) : isWhite c = true := by
  unfold isBreak at h
  simp at h
  rcases h with rfl | ⟨_, rfl | rfl⟩ <;> decide

/-- A word is written after the first one: white space comes before it. -/
theorem keeps_word_next {extra : Bool} {s indent : Chars} {o : Out} (max : Nat) (hi : ∀ c ∈ indent, isWhite c = true) (w : Chars)
    (h : KeepsText extra s o.text) :
    KeepsText extra (s ++ w) (o.word max indent false w).text ∧
      (endWhite false (s ++ w) = true → w ≠ [] → endWhite false (o.word max indent false w).text = true) ∧
      (w = [] → endWhite false (o.word max indent false w).text = true) := by
  have hw : ∀ c ∈ '\n' :: indent, isWhite c = true := fun c hc => by
    rcases List.mem_cons.1 hc with rfl | hc
    · exact nl_white
    · exact hi c hc
  have hsp : ∀ c ∈ [' '], isWhite c = true := fun c hc => by rw [List.mem_singleton.1 hc]; exact sp_white
  have key : ∀ sep : Chars, sep ≠ [] → (∀ c ∈ sep, isWhite c = true) →
      KeepsText extra (s ++ w) (o.text ++ (sep ++ w)) ∧
      (endWhite false (s ++ w) = true → w ≠ [] → endWhite false (o.text ++ (sep ++ w)) = true) ∧
      (w = [] → endWhite false (o.text ++ (sep ++ w)) = true) := by
    intro sep hn hsw
    refine ⟨Kept.put h hsw (fun h => absurd h hn) (fun _ _ hb => keeps_marks w hb), fun he hwn => ?_, fun he => ?_⟩
    · rw [endWhite_append, endWhite_last hwn] at he
      rw [endWhite_append, endWhite_append, endWhite_last hwn]; exact he
    · rw [endWhite_append, endWhite_append, he]
      exact endWhite_white hsw _ hn
  unfold Out.word
  split
  · exact key ('\n' :: indent) (by simp) hw
  · rw [if_pos (by simp)]
    exact key [' '] (by simp) hsp

/-- The first word. -/
theorem keeps_word_first {extra : Bool} {s indent : Chars} {o : Out} (max : Nat) (hi : ∀ c ∈ indent, isWhite c = true) (w : Chars)
    (h : Kept extra s o) :
    KeepsText extra (s ++ w) (o.word max indent true w).text ∧
      (endWhite false (s ++ w) = true → endWhite false (o.word max indent true w).text = true) := by
  have hw : ∀ c ∈ '\n' :: indent, isWhite c = true := fun c hc => by
    rcases List.mem_cons.1 hc with rfl | hc
    · exact nl_white
    · exact hi c hc
  unfold Out.word
  split
  · dsimp only
    rw [if_pos rfl, show '\n' :: (indent ++ w.dropWhile isWhite) = ('\n' :: indent) ++ w.dropWhile isWhite from rfl]
    obtain ⟨d, h1, h2⟩ := dropWhile_split isWhite w
    constructor
    · have hput : KeepsText extra (s ++ d ++ w.dropWhile isWhite) (o.text ++ (('\n' :: indent) ++ w.dropWhile isWhite)) := by
        refine Kept.put (o := o) (s := s ++ d) ?_ hw (fun h => nomatch h) (fun _ _ hb => keeps_marks _ hb)
        unfold KeepsText
        rw [marks_append, marks_white h2, List.append_nil]
        exact h.1
      rw [List.append_assoc, ← h1] at hput
      exact hput
    · intro he
      rw [endWhite_append, endWhite_append]
      cases hd : w.dropWhile isWhite with
      | nil => exact endWhite_white hw (endWhite false o.text) (by simp)
      | cons c t =>
        rw [h1, hd, endWhite_append, endWhite_append] at he
        exact he
  · split
    · rename_i hsp
      rw [show ' ' :: w = [' '] ++ w from rfl]
      refine ⟨Kept.put h.1 ?_ (fun h => nomatch h) (fun _ _ hb => keeps_marks w hb), fun he => ?_⟩
      · intro c hc; rw [List.mem_singleton.1 hc]; exact sp_white
      · rw [endWhite_append] at he ⊢
        exact endWhite_mono (fun _ => rfl) w he
    · rename_i hsp
      have h2 : endWhite false s = true → endWhite false o.text = true := fun he => by
        rcases h.2 he with h | h
        · exact h
        · rw [h] at hsp; simp at hsp
      refine ⟨Kept.put (sep := []) h.1 (fun _ h => nomatch h) (fun _ => h2) (fun _ _ hb => keeps_marks w hb), fun he => ?_⟩
      rw [endWhite_append] at he ⊢
      exact endWhite_mono h2 w he

/-- The texts that wrapping keeps: if newlines are ignored, a text that ends with white space ends with a space or a newline;
and it is not empty. -/
def Wrappable (cfg : WrapCfg) (t : Chars) : Prop :=
  cfg.limit = none ∨ (t ≠ [] ∧ (cfg.ignoreNewlines = true → ∀ c, t.getLast? = some c → isWhite c = true → c = ' ' ∨ c = '\n'))

theorem keeps_trail {extra : Bool} {s d : Chars} {x : Chars} (hd : ∀ c ∈ d, isWhite c = true) (h : KeepsText extra s x) :
    KeepsText extra (s ++ d) x := by
  unfold KeepsText
  rw [marks_append, marks_white hd, List.append_nil]
  exact h

theorem keeps_words_next {extra ign : Bool} {indent : Chars} (max : Nat) (hi : ∀ c ∈ indent, isWhite c = true) {t : Chars}
    {cs : List Chars} (hc : Chunked (isBreak ign) t cs) : ∀ {s : Chars} {o : Out}, KeepsText extra s o.text → t ≠ [] →
    KeepsText extra (s ++ t) (Out.wordsFrom max indent false (cs.map (wordOf ign)) o).text ∧
      (ign = false → t.getLast? ≠ some ' ' → endWhite false t = true →
        endWhite false (Out.wordsFrom max indent false (cs.map (wordOf ign)) o).text = true) := by
  induction hc with
  | none => intro s o _ h; exact absurd rfl h
  | last c hc =>
    intro s o h _
    obtain ⟨d, h1, h2, h3⟩ := wordOf_split ign c
    obtain ⟨k1, k2, k3⟩ := keeps_word_next (extra := extra) max hi (wordOf ign c) h
    rw [List.map_cons, List.map_nil]
    refine ⟨?_, fun hg hl he => ?_⟩
    · have := keeps_trail h2 k1
      rw [List.append_assoc, ← h1] at this
      exact this
    · have hd : d = [] := by
        cases d with
        | nil => rfl
        | cons a d =>
          refine absurd ?_ hl
          have : (a :: d).getLast (by simp) = ' ' := h3 hg _ (List.getLast_mem _)
          rw [h1, List.getLast?_append, List.getLast?_eq_some_getLast (by simp : a :: d ≠ []), this]
          rfl
      subst hd
      rw [List.append_nil] at h1
      rw [← h1]
      rw [← h1] at k2
      refine k2 ?_ hc
      rw [endWhite_append, endWhite_last hc]
      rw [endWhite_last hc] at he
      exact he
  | cons c b hb hn _ ih =>
    rename_i s' cs' _
    intro s o h _
    obtain ⟨d, h1, h2, _⟩ := wordOf_split ign (c ++ [b])
    have k1 := (keeps_word_next (extra := extra) max hi (wordOf ign (c ++ [b])) h).1
    rw [List.map_cons]
    have k2 := keeps_trail h2 k1
    rw [List.append_assoc, ← h1] at k2
    obtain ⟨j1, j2⟩ := ih k2 hn
    refine ⟨?_, fun hg hl he => j2 hg ?_ ?_⟩
    · rw [List.append_assoc] at j1
      exact j1
    · intro hx; apply hl
      rw [List.getLast?_append, hx]; rfl
    · rw [endWhite_append, endWhite_last hn] at he
      rw [endWhite_last hn]; exact he

theorem kept_words {extra : Bool} {s indent : Chars} {o : Out} (cfg : WrapCfg) (hi : ∀ c ∈ indent, isWhite c = true) (t : Chars)
    (ht : Wrappable cfg t) (hs : cfg.limit = none → o.space = false) (h : Kept extra s o) :
    Kept extra (s ++ t) (o.words cfg t indent) := by
  unfold Out.words
  cases hl : cfg.limit with
  | none =>
    dsimp only
    have h2 : endWhite false s = true → endWhite false o.text = true := fun he => by
      rcases h.2 he with h | h
      · exact h
      · rw [hs hl] at h; cases h
    refine ⟨Kept.put (sep := []) h.1 (fun _ h => nomatch h) (fun _ => h2) (fun _ _ hb => keeps_marks t hb), fun he => .inl ?_⟩
    change endWhite false (o.text ++ t) = true
    rw [endWhite_append] at he ⊢
    exact endWhite_mono h2 t he
  | some max =>
    dsimp only
    obtain ⟨hn, hw⟩ : t ≠ [] ∧ _ := by
      rcases ht with ht | ht
      · rw [hl] at ht; cases ht
      · exact ht
    have hc : Chunked (isBreak cfg.ignoreNewlines) t (chunksFrom (isBreak cfg.ignoreNewlines) t false []) :=
      chunksFrom_chunked _ t false [] (fun h => nomatch h)
    unfold findWords
    generalize chunksFrom (isBreak cfg.ignoreNewlines) t false [] = cs at hc
    have key : KeepsText extra (s ++ t) (Out.wordsFrom max indent true (cs.map (wordOf cfg.ignoreNewlines)) o).text ∧
        (cfg.ignoreNewlines = false → t.getLast? ≠ some ' ' → endWhite false t = true →
          endWhite false (Out.wordsFrom max indent true (cs.map (wordOf cfg.ignoreNewlines)) o).text = true) := by
      cases hc with
      | none => exact absurd rfl hn
      | last _ hc =>
        obtain ⟨d, h1, h2, h3⟩ := wordOf_split cfg.ignoreNewlines t
        obtain ⟨k1, k2⟩ := keeps_word_first (extra := extra) max hi (wordOf cfg.ignoreNewlines t) h
        rw [List.map_cons, List.map_nil]
        refine ⟨?_, fun hg hl he => ?_⟩
        · have := keeps_trail h2 k1
          rw [List.append_assoc, ← h1] at this
          exact this
        · have hd : d = [] := by
            cases d with
            | nil => rfl
            | cons a d =>
              refine absurd ?_ hl
              have : (a :: d).getLast (by simp) = ' ' := h3 hg _ (List.getLast_mem _)
              rw [h1, List.getLast?_append, List.getLast?_eq_some_getLast (by simp : a :: d ≠ []), this]
              rfl
          subst hd
          rw [List.append_nil] at h1
          rw [← h1]
          rw [← h1] at k2
          refine k2 ?_
          rw [endWhite_append, endWhite_last hc]
          rw [endWhite_last hc] at he
          exact he
      | cons c b hb hn' hcs =>
        rename_i s' cs'
        obtain ⟨d, h1, h2, _⟩ := wordOf_split cfg.ignoreNewlines (c ++ [b])
        have k1 := (keeps_word_first (extra := extra) max hi (wordOf cfg.ignoreNewlines (c ++ [b])) h).1
        rw [List.map_cons]
        have k2 := keeps_trail h2 k1
        rw [List.append_assoc, ← h1] at k2
        obtain ⟨j1, j2⟩ := keeps_words_next (extra := extra) max hi hcs k2 hn'
        refine ⟨?_, fun hg hl he => j2 hg ?_ ?_⟩
        · rw [List.append_assoc] at j1
          exact j1
        · intro hx; apply hl
          rw [List.getLast?_append, hx]; rfl
        · rw [endWhite_append, endWhite_last hn'] at he
          rw [endWhite_last hn']; exact he
    refine ⟨key.1, fun he => ?_⟩
    dsimp only
    have het : endWhite false t = true := by
      rw [endWhite_append, endWhite_last hn] at he
      rw [endWhite_last hn]; exact he
    have hlast : t.getLast? = some (t.getLast hn) := List.getLast?_eq_some_getLast hn
    cases hg : cfg.ignoreNewlines with
    | true =>
      right
      rw [endWhite_last hn] at het
      rcases hw hg _ hlast het with h | h
      · rw [hlast, h]; rfl
      · rw [hlast, h]; rfl
    | false =>
      by_cases hsp : t.getLast? = some ' '
      · right; rw [hsp]; rfl
      · left
        have := key.2 hg hsp het
        rw [hg] at this
        exact this

/-! ### The words of a text -/

theorem exact_word {s indent : Chars} {o : Out} (max : Nat) (first : Bool) (hi : ∀ c ∈ indent, isWhite c = true) (w : Chars)
    (h : marks true o.text = marks true s) (hf : first = true → o.text = []) (hs : endWhite true s = true) :
    marks true (o.word max indent first w).text = marks true (s ++ w) := by
  have hw : ∀ c ∈ '\n' :: indent, isWhite c = true := fun c hc => by
    rcases List.mem_cons.1 hc with rfl | hc
    · exact nl_white
    · exact hi c hc
  have hsp : ∀ c ∈ [' '], isWhite c = true := fun c hc => by rw [List.mem_singleton.1 hc]; exact sp_white
  have key : ∀ sep : Chars, (∀ c ∈ sep, isWhite c = true) → (sep = [] → o.text = []) →
      marks true (o.text ++ (sep ++ w)) = marks true (s ++ w) := by
    intro sep hsw hn
    rw [marks_append, marks_append, marks_append, marks_white hsw, List.nil_append, h, hs]
    by_cases he : sep = []
    · rw [he, hn he]; rfl
    · rw [endWhite_white hsw _ he]
  unfold Out.word
  split
  · dsimp only
    cases first with
    | false =>
      rw [if_neg (by simp)]
      exact key ('\n' :: indent) hw (fun h => nomatch h)
    | true =>
      rw [if_pos rfl]
      obtain ⟨d, h1, h2⟩ := dropWhile_split isWhite w
      rw [← key ('\n' :: indent) hw (fun h => nomatch h)]
      conv => rhs; rw [h1]
      change marks true (o.text ++ ('\n' :: indent ++ _)) = _
      simp only [marks_append, marks_white hw, marks_white h2, List.nil_append, endWhite_white hw _ (List.cons_ne_nil _ _)]
      congr 1
      by_cases hd : d = []
      · rw [hd]; rfl
      · rw [endWhite_white h2 _ hd]
  · split
    · exact key [' '] hsp (fun h => nomatch h)
    · rename_i hsp
      refine key [] (fun _ h => nomatch h) (fun _ => hf ?_)
      cases first with
      | true => rfl
      | false => simp at hsp

theorem exact_words {ign : Bool} {indent : Chars} (max : Nat) (hi : ∀ c ∈ indent, isWhite c = true) {t : Chars}
    {cs : List Chars} (hc : Chunked (isBreak ign) t cs) : ∀ {s : Chars} {o : Out} (first : Bool), marks true o.text = marks true s →
    (first = true → o.text = []) → endWhite true s = true →
    marks true (Out.wordsFrom max indent first (cs.map (wordOf ign)) o).text = marks true (s ++ t) := by
  have trail : ∀ {a d x : Chars}, (∀ c ∈ d, isWhite c = true) → marks true x = marks true a → marks true x = marks true (a ++ d) := by
    intro a d x hd h
    rw [marks_append, marks_white hd, List.append_nil]
    exact h
  induction hc with
  | none => intro s o first h _ _; rw [List.append_nil]; exact h
  | last c hc =>
    intro s o first h hf hs
    obtain ⟨d, h1, h2, _⟩ := wordOf_split ign c
    have := trail h2 (exact_word max first hi (wordOf ign c) h hf hs)
    rw [List.append_assoc, ← h1] at this
    exact this
  | cons c b hb hn _ ih =>
    rename_i s' cs' _
    intro s o first h hf hs
    obtain ⟨d, h1, h2, _⟩ := wordOf_split ign (c ++ [b])
    have := trail h2 (exact_word max first hi (wordOf ign (c ++ [b])) h hf hs)
    rw [List.append_assoc, ← h1] at this
    have := ih false this (fun h => nomatch h) (by
      rw [endWhite_append, endWhite_append]
      exact isBreak_white hb)
    rw [List.append_assoc] at this
    exact this

/-- C200: wrapping a text changes only white space: it has the same words, whatever the limit. -/
theorem text_words_partial (cfg : WrapCfg) (t indent : Chars) (hi : ∀ c ∈ indent, isWhite c = true) :
    marks true (Out.words cfg t indent {}).text = marks true t := by
  unfold Out.words
  cases cfg.limit with
  | none => rfl
  | some max =>
    have := exact_words (ign := cfg.ignoreNewlines) max hi (chunksFrom_chunked (isBreak cfg.ignoreNewlines) t false [] (fun h => nomatch h))
      (s := []) (o := {}) true rfl (fun _ => rfl) rfl
    rw [List.nil_append] at this
    exact this

example : (Out.words { limit := some 9 } "one two  three".toList [' '] {}).text = "one two\n three".toList := by decide
example : marks true "one two\n three".toList = marks true "one two  three".toList := by decide

end Verif.Render
