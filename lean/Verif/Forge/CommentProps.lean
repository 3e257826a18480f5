import Verif.Forge.Text
/-
C39 and its companions: comments.
-/
namespace Verif.Forge
open Verif.Util
open Verif.Markdown (isWhite trim lines)

/-! ### White space at the end -/

/-- `t` is `s` without the white space at its end. -/
def EndTrimmed (s t : Chars) : Prop :=
  (∃ w, s = t ++ w ∧ ∀ c ∈ w, isWhite c = true) ∧ ∀ c, t.getLast? = some c → isWhite c = false

theorem trimEnd_spec (s : Chars) : EndTrimmed s (trimEnd s) := by
  unfold trimEnd
  constructor
  · refine ⟨(s.reverse.takeWhile isWhite).reverse, ?_, ?_⟩
    · rw [← List.reverse_append, List.takeWhile_append_dropWhile, List.reverse_reverse]
    · intro c hc
      exact List.all_eq_true.1 (List.all_takeWhile (p := isWhite) (l := s.reverse)) c (by simpa using hc)
  · intro c hc
    rw [List.getLast?_reverse] at hc
    have := List.head?_dropWhile_not isWhite s.reverse
    rw [hc] at this
    simpa using this

theorem endTrimmed_unique {s t t' : Chars} (h : EndTrimmed s t) (h' : EndTrimmed s t') : t = t' := by
  obtain ⟨⟨w, e, hw⟩, hl⟩ := h
  obtain ⟨⟨w', e', hw'⟩, hl'⟩ := h'
  rw [e] at e'
  rcases List.append_eq_append_iff.1 e' with ⟨x, h1, h2⟩ | ⟨x, h1, h2⟩
  · rcases List.eq_nil_or_concat x with rfl | ⟨y, c, rfl⟩
    · simpa using h1.symm
    · exact absurd (hw c (by rw [h2]; simp)) (by rw [hl' c (by rw [h1]; simp)]; simp)
  · rcases List.eq_nil_or_concat x with rfl | ⟨y, c, rfl⟩
    · simpa using h1
    · exact absurd (hw' c (by rw [h2]; simp)) (by rw [hl c (by rw [h1]; simp)]; simp)

theorem trimEnd_iff (s t : Chars) : trimEnd s = t ↔ EndTrimmed s t :=
  ⟨fun h => h ▸ trimEnd_spec s, fun h => endTrimmed_unique (trimEnd_spec s) h⟩

/-- A text that ends with something else than white space is not touched. -/
theorem trimEnd_append {a b : Chars} (hb : trimEnd b ≠ []) : trimEnd (a ++ b) = a ++ trimEnd b := by
  rw [trimEnd_iff]
  obtain ⟨⟨w, e, hw⟩, hl⟩ := trimEnd_spec b
  refine ⟨⟨w, by rw [List.append_assoc, ← e], hw⟩, ?_⟩
  intro c hc
  rw [List.getLast?_append, List.getLast?_eq_some_getLast hb, Option.some_or] at hc
  exact hl c (by rw [List.getLast?_eq_some_getLast hb]; exact hc)

theorem infix_trimEnd {w s : Chars} (hw : trimEnd w = w) (hn : w ≠ []) (h : w <:+: s) : w <:+: trimEnd s := by
  obtain ⟨a, b, rfl⟩ := h
  by_cases hb : trimEnd b = []
  · have hbw : ∀ c ∈ b, isWhite c = true := by
      obtain ⟨⟨x, e, hx⟩, _⟩ := trimEnd_spec b
      rw [hb, List.nil_append] at e; rw [e]; exact hx
    have : trimEnd (a ++ w ++ b) = a ++ w := by
      rw [trimEnd_iff]
      refine ⟨⟨b, rfl, hbw⟩, ?_⟩
      intro c hc
      rw [List.getLast?_append, List.getLast?_eq_some_getLast hn, Option.some_or] at hc
      exact (hw ▸ trimEnd_spec w).2 c (by rw [List.getLast?_eq_some_getLast hn]; exact hc)
    rw [this]; exact ⟨a, [], by simp⟩
  · rw [trimEnd_append hb]; exact ⟨a, trimEnd b, rfl⟩

/-! ### Writing lines -/

theorem join_cons (w : Chars) (ws : List Chars) : ['\n'].intercalate (w :: ws) = w ++ ws.flatMap (fun t => '\n' :: t) := by
  induction ws generalizing w with
  | nil => simp [List.intercalate]
  | cons v vs ih =>
    have := ih v
    simp only [List.intercalate, List.intersperse, List.flatten_cons, List.flatMap_cons] at this ⊢
    rw [this]; simp

theorem writeLines_acc (f0 f : Chars → Chars) (ls : List Chars) : ∀ acc : Chars, acc ≠ [] →
    writeLines f0 f acc ls = acc ++ (ls.map f).flatMap (fun t => '\n' :: t) := by
  induction ls with
  | nil => intro acc _; simp [writeLines]
  | cons l ls ih =>
    intro acc h
    rw [writeLines, if_neg h, ih _ (by simp)]
    simp

/-- The lines that are written: those at the start that would be empty are left out, the first of the others is prepared
with `f0`, the rest with `f`. -/
inductive Written (f0 f : Chars → Chars) : List Chars → List Chars → Prop
  | none : Written f0 f [] []
  | skip {l ls out} : f0 l = [] → Written f0 f ls out → Written f0 f (l :: ls) out
  | first {l ls} : f0 l ≠ [] → Written f0 f (l :: ls) (f0 l :: ls.map f)

theorem writeLines_iff (f0 f : Chars → Chars) (ls : List Chars) :
    ∃ out, Written f0 f ls out ∧ writeLines f0 f [] ls = ['\n'].intercalate out := by
  induction ls with
  | nil => exact ⟨[], .none, rfl⟩
  | cons l ls ih =>
    rw [writeLines, if_pos rfl]
    by_cases h : f0 l = []
    · obtain ⟨out, h1, h2⟩ := ih
      rw [h]
      exact ⟨out, .skip h h1, h2⟩
    · exact ⟨_, .first h, by rw [writeLines_acc _ _ _ _ h, join_cons]⟩

/-- If no line can be empty, all of them are written. -/
theorem Written.all {f0 f : Chars → Chars} {ls out : List Chars} (h : Written f0 f ls out) (hne : ∀ l, f0 l ≠ []) :
    (ls = [] ∧ out = []) ∨ ∃ l t, ls = l :: t ∧ out = f0 l :: t.map f := by
  cases h with
  | none => exact .inl ⟨rfl, rfl⟩
  | skip h _ => exact absurd h (hne _)
  | first h => exact .inr ⟨_, _, rfl, rfl⟩

/-! ### The layout of a comment: C39 -/

/-- A line as it is shown: the indentation, the prefix and the text, without white space at its end if lines are
trimmed. -/
def shownLine (trimLines : Bool) (indent pre l : Chars) : Chars :=
  if trimLines then trimEnd (indent ++ pre ++ l) else indent ++ pre ++ l

/-- The layout of a comment: a header line if there is a header, the lines of the text, and a footer line if there is a
footer; without header the first line is not indented. White space at the end of the text before the footer and at the end
of the comment is left out. -/
structure IsLayout (trimLines : Bool) (indent header pre footer rendered out : Chars) : Prop where
  intro ::
  spec : ∃ shown, Written (shownLine trimLines (if header = [] then [] else indent) pre) (shownLine trimLines indent pre)
      (lines rendered) shown ∧
    ∃ top, top = (if header = [] then ['\n'].intercalate shown else header ++ '\n' :: ['\n'].intercalate shown) ∧
    ((footer = [] ∧ EndTrimmed top out) ∨
      (footer ≠ [] ∧ ∃ above, EndTrimmed top above ∧ EndTrimmed (above ++ '\n' :: (indent ++ footer)) out))

theorem layout_spec (trimLines : Bool) (indent header pre footer rendered : Chars) :
    IsLayout trimLines indent header pre footer rendered (layout trimLines indent header pre footer rendered) := by
  constructor
  have h0 : (fun l => if header = [] then (if trimLines then trimEnd (pre ++ l) else pre ++ l)
      else (if trimLines then trimEnd (indent ++ pre ++ l) else indent ++ pre ++ l)) =
      shownLine trimLines (if header = [] then [] else indent) pre := by
    funext l
    unfold shownLine
    by_cases h : header = [] <;> simp [h]
  obtain ⟨shown, h1, h2⟩ := writeLines_iff (shownLine trimLines (if header = [] then [] else indent) pre)
    (shownLine trimLines indent pre) (lines rendered)
  refine ⟨shown, h1, _, rfl, ?_⟩
  unfold layout
  dsimp only
  have hb : writeLines (fun l => if header = [] then (if trimLines then trimEnd (pre ++ l) else pre ++ l)
      else (if trimLines then trimEnd (indent ++ pre ++ l) else indent ++ pre ++ l))
      (fun l => if trimLines then trimEnd (indent ++ pre ++ l) else indent ++ pre ++ l) [] (lines rendered) =
      ['\n'].intercalate shown := by rw [h0]; exact h2
  rw [hb]
  by_cases hf : footer = []
  · left
    rw [if_pos hf]
    exact ⟨hf, trimEnd_spec _⟩
  · right
    rw [if_neg hf]
    exact ⟨hf, _, trimEnd_spec _, trimEnd_spec _⟩

/-- A layout is determined by its parts. -/
theorem layout_iff (trimLines : Bool) (indent header pre footer rendered out : Chars) :
    layout trimLines indent header pre footer rendered = out ↔ IsLayout trimLines indent header pre footer rendered out := by
  constructor
  · rintro rfl; exact layout_spec _ _ _ _ _ _
  · rintro ⟨shown, h1, top, rfl, h2⟩
    obtain ⟨shown', h1', top', rfl, h2'⟩ := (layout_spec trimLines indent header pre footer rendered).spec
    have hw : ∀ {f0 f : Chars → Chars} {ls a b : List Chars}, Written f0 f ls a → Written f0 f ls b → a = b := by
      intro f0 f ls a b h h'
      induction h with
      | none => cases h'; rfl
      | skip h _ ih =>
        cases h' with
        | skip _ h' => exact ih h'
        | first h' => exact absurd h h'
      | first h =>
        cases h' with
        | skip h' _ => exact absurd h' h
        | first _ => rfl
    have := hw h1 h1'
    subst this
    rcases h2 with ⟨hf, h2⟩ | ⟨hf, above, h2, h3⟩ <;> rcases h2' with ⟨hf', h2'⟩ | ⟨hf', above', h2', h3'⟩
    · exact endTrimmed_unique h2' h2
    · exact absurd hf hf'
    · exact absurd hf' hf
    · have := endTrimmed_unique h2 h2'
      subst this
      exact endTrimmed_unique h3' h3

theorem infix_join {w : Chars} {l : Chars} {ls : List Chars} (h : l ∈ ls) (hw : w <:+: l) : w <:+: ['\n'].intercalate ls := by
  cases ls with
  | nil => simp at h
  | cons x xs =>
    rw [join_cons]
    obtain ⟨a, b, rfl⟩ := hw
    rcases List.mem_cons.1 h with rfl | h
    · exact ⟨a, b ++ xs.flatMap fun t => '\n' :: t, by simp⟩
    · obtain ⟨s, t, rfl⟩ := List.append_of_mem h
      exact ⟨x ++ s.flatMap (fun t => '\n' :: t) ++ '\n' :: a, b ++ t.flatMap fun t => '\n' :: t, by simp⟩

theorem shownLine_infix (trimLines : Bool) (indent pre l : Chars) (h : trimEnd l ≠ []) :
    trimEnd l <:+: shownLine trimLines indent pre l := by
  unfold shownLine
  split
  · rw [trimEnd_append h]; exact ⟨indent ++ pre, [], by simp⟩
  · obtain ⟨⟨w, e, _⟩, _⟩ := trimEnd_spec l
    exact ⟨indent ++ pre, w, by rw [List.append_assoc, ← e]⟩

theorem trimEnd_trimEnd (s : Chars) : trimEnd (trimEnd s) = trimEnd s := by
  rw [trimEnd_iff]
  exact ⟨⟨[], by simp, by simp⟩, (trimEnd_spec s).2⟩

/-- No text is lost: every line of the rendered text, up to white space at its end, is in the comment. -/
theorem layout_keeps (trimLines : Bool) (indent header pre footer rendered : Chars) (l : Chars) (hl : l ∈ lines rendered) :
    trimEnd l <:+: layout trimLines indent header pre footer rendered := by
  by_cases h : trimEnd l = []
  · rw [h]; exact ⟨[], _, rfl⟩
  obtain ⟨shown, h1, top, rfl, h2⟩ := (layout_spec trimLines indent header pre footer rendered).spec
  have hs : ∃ x ∈ shown, trimEnd l <:+: x := by
    clear h2
    generalize lines rendered = ls at hl h1
    induction h1 with
    | none => simp at hl
    | @skip l' ls out he _ ih =>
      rcases List.mem_cons.1 hl with rfl | hl
      · have hx := shownLine_infix trimLines (if header = [] then [] else indent) pre l h
        rw [he] at hx
        exact absurd (List.eq_nil_of_infix_nil hx) h
      · exact ih hl
    | @first l' ls hne =>
      rcases List.mem_cons.1 hl with rfl | hl
      · exact ⟨_, List.mem_cons_self, shownLine_infix _ _ _ _ h⟩
      · exact ⟨_, List.mem_cons_of_mem _ (List.mem_map.2 ⟨l, hl, rfl⟩), shownLine_infix _ _ _ _ h⟩
  obtain ⟨x, hx, hi⟩ := hs
  have htop : trimEnd l <:+: (if header = [] then ['\n'].intercalate shown else header ++ '\n' :: ['\n'].intercalate shown) := by
    have := infix_join hx hi
    split
    · exact this
    · obtain ⟨a, b, e⟩ := this
      exact ⟨header ++ '\n' :: a, b, by rw [← e]; simp⟩
  rcases h2 with ⟨_, h2⟩ | ⟨_, above, h2, h3⟩
  · rw [← (trimEnd_iff _ _).2 h2]
    exact infix_trimEnd (trimEnd_trimEnd l) h htop
  · have h4 : trimEnd l <:+: above := by
      rw [← (trimEnd_iff _ _).2 h2]
      exact infix_trimEnd (trimEnd_trimEnd l) h htop
    rw [← (trimEnd_iff _ _).2 h3]
    refine infix_trimEnd (trimEnd_trimEnd l) h ?_
    obtain ⟨a, b, e⟩ := h4
    exact ⟨a, b ++ '\n' :: (indent ++ footer), by rw [← e]; simp⟩

/-- With a prefix that is not blank every line is shown, and it starts with the prefix, after the indentation if there is
a header or if it is not the first. -/
theorem all_lines_shown (trimLines : Bool) (indent pre : Chars) (hp : trimEnd pre ≠ []) (header rendered : Chars) (shown : List Chars)
    (h : Written (shownLine trimLines (if header = [] then [] else indent) pre) (shownLine trimLines indent pre)
      (lines rendered) shown) :
    shown.length = (lines rendered).length ∧ ∀ i l s, (lines rendered)[i]? = some l → shown[i]? = some s →
      (if header = [] ∧ i = 0 then [] else indent) ++ trimEnd pre <+: s := by
  have hpre : ∀ ind l, ind ++ trimEnd pre <+: shownLine trimLines ind pre l := by
    intro ind l
    obtain ⟨⟨w, e, hw⟩, hl⟩ := trimEnd_spec pre
    unfold shownLine
    split
    · by_cases hb : trimEnd (w ++ l) = []
      · have : trimEnd (ind ++ pre ++ l) = ind ++ trimEnd pre := by
          conv => lhs; rw [e]
          rw [trimEnd_iff]
          refine ⟨⟨w ++ l, by simp, ?_⟩, ?_⟩
          · obtain ⟨⟨x, e', hx⟩, _⟩ := trimEnd_spec (w ++ l)
            rw [hb, List.nil_append] at e'; rw [e']; exact hx
          · intro c hc
            rw [List.getLast?_append, List.getLast?_eq_some_getLast hp, Option.some_or] at hc
            exact hl c (by rw [List.getLast?_eq_some_getLast hp]; exact hc)
        rw [this]; exact List.prefix_refl _
      · have : trimEnd (ind ++ pre ++ l) = ind ++ trimEnd pre ++ trimEnd (w ++ l) := by
          conv => lhs; rw [e]
          rw [show ind ++ (trimEnd pre ++ w) ++ l = (ind ++ trimEnd pre) ++ (w ++ l) by simp, trimEnd_append hb]
        rw [this]; exact List.prefix_append _ _
    · conv => rhs; rw [e]
      exact ⟨w ++ l, by simp⟩
  have hne : ∀ ind l, shownLine trimLines ind pre l ≠ [] := by
    intro ind l e
    have := hpre ind l
    rw [e, List.prefix_nil] at this
    exact hp (List.append_eq_nil_iff.1 this).2
  rcases h.all (hne _) with ⟨h1, h2⟩ | ⟨l, t, h1, h2⟩
  · rw [h1, h2]; simp
  · rw [h1, h2]
    refine ⟨by simp, ?_⟩
    intro i l' s hl hs
    cases i with
    | zero =>
      simp at hs; subst hs
      by_cases hh : header = []
      · simp [hh]; simpa [hh] using hpre [] l
      · simp [hh]; simpa [hh] using hpre indent l
    | succ i =>
      simp at hs
      obtain ⟨x, _, rfl⟩ := hs
      simpa using hpre indent x

/-! ### The filter -/

/-- The dots at the end, by the settings of a format. -/
def Dots (fmt : Format) (s t : Chars) : Prop :=
  ∃ u, (if fmt.removeDots then (∃ w, s = u ++ w ∧ ∀ c ∈ w, c = '.') ∧ u.getLast? ≠ some '.' else u = s) ∧
    (if fmt.enforceDots ∧ u ≠ [] ∧ u.getLast? ≠ some '.' then t = u ++ ['.'] else t = u)

theorem endDots_spec (fmt : Format) (s : Chars) : Dots fmt s (endDots fmt s) := by
  unfold Dots endDots
  dsimp only
  refine ⟨if fmt.removeDots then (s.reverse.dropWhile fun c => decide (c = '.')).reverse else s, ?_, ?_⟩
  · by_cases h : fmt.removeDots = true
    · rw [if_pos h, if_pos h]
      constructor
      · refine ⟨(s.reverse.takeWhile fun c => decide (c = '.')).reverse, ?_, ?_⟩
        · rw [← List.reverse_append, List.takeWhile_append_dropWhile, List.reverse_reverse]
        · intro c hc
          simpa using List.all_eq_true.1 (List.all_takeWhile (p := fun c => decide (c = '.')) (l := s.reverse)) c (by simpa using hc)
      · intro hc
        rw [List.getLast?_reverse] at hc
        have := List.head?_dropWhile_not (fun c => decide (c = '.')) s.reverse
        rw [hc] at this
        simp at this
    · rw [if_neg h, if_neg h]
  · generalize (if fmt.removeDots then (s.reverse.dropWhile fun c => decide (c = '.')).reverse else s) = u
    by_cases h : fmt.enforceDots = true ∧ u ≠ [] ∧ u.getLast? ≠ some '.'
    · rw [if_pos h, if_pos h]
    · rw [if_neg h, if_neg h]

/-- The settings of a comment: those of the arguments, or else of the format. -/
structure Settings where
  name : String
  fmt : Format
  indent : Chars
  header : Chars
  pre : Chars
  footer : Chars
  limit : Option Nat

/-- How the settings are found. -/
structure Settled (formats : List (String × Format)) (dflt : Format) (defaultName : Option String) (args : CommentArgs)
    (s : Settings) : Prop where
  name : s.name = args.format.getD (defaultName.getD "default")
  fmt : s.fmt = (aget s.name formats).getD dflt
  dots : ¬ (s.fmt.removeDots = true ∧ s.fmt.enforceDots = true)
  indent : ∃ c, s.indent = List.replicate (args.indent.getD 0) c ∧
    ((c = ' ' ∧ (args.indentType = some "space" ∨ args.indentType = none ∧ s.fmt.tab = false)) ∨
     (c = '\t' ∧ (args.indentType = some "tab" ∨ args.indentType = none ∧ s.fmt.tab = true)))
  header : s.header = (args.header.or s.fmt.header).getD []
  pre : s.pre = (args.pre.or s.fmt.pre).getD []
  footer : s.footer = (args.footer.or s.fmt.footer).getD []
  limit : match args.lineLength.or s.fmt.lineLength with
    | none => s.limit = none
    | some n => ∃ m, s.limit = some m ∧ n = m + (bytes s.indent + bytes s.pre)

variable (formats : List (String × Format)) (dflt : Format) (defaultName : Option String)
  (render : String → Chars → Option Nat → Option Chars)

theorem indentation_iff (fmt : Format) (args : CommentArgs) (i : Chars) : indentation fmt args = .ok i ↔
    ∃ c, i = List.replicate (args.indent.getD 0) c ∧
    ((c = ' ' ∧ (args.indentType = some "space" ∨ args.indentType = none ∧ fmt.tab = false)) ∨
     (c = '\t' ∧ (args.indentType = some "tab" ∨ args.indentType = none ∧ fmt.tab = true))) := by
  unfold indentation
  dsimp only
  have h1 : args.indentType.getD (if fmt.tab then "tab" else "space") = "space" ↔
      (args.indentType = some "space" ∨ args.indentType = none ∧ fmt.tab = false) := by
    cases args.indentType <;> cases fmt.tab <;> simp
  have h2 : args.indentType.getD (if fmt.tab then "tab" else "space") = "tab" ↔
      (args.indentType = some "tab" ∨ args.indentType = none ∧ fmt.tab = true) := by
    cases args.indentType <;> cases fmt.tab <;> simp
  rw [← h1, ← h2]
  generalize args.indentType.getD (if fmt.tab then "tab" else "space") = k
  constructor
  · intro h
    split at h
    · rename_i hk; cases h; exact ⟨' ', rfl, .inl ⟨rfl, hk⟩⟩
    split at h
    · rename_i hk; cases h; exact ⟨'\t', rfl, .inr ⟨rfl, hk⟩⟩
    · cases h
  · rintro ⟨c, rfl, ⟨rfl, rfl⟩ | ⟨rfl, rfl⟩⟩
    · rfl
    · rfl

theorem indentation_error {fmt : Format} {args : CommentArgs} {e : CommentErr} (h : indentation fmt args = .error e) :
    e = .indentType := by
  unfold indentation at h
  dsimp only at h
  generalize args.indentType.getD (if fmt.tab then "tab" else "space") = k at h
  split at h
  · cases h
  split at h
  · cases h
  · cases h; rfl

theorem lengthLimit_iff (limit : Option Nat) (used : Nat) (r : Option Nat) : lengthLimit limit used = .ok r ↔
    match limit with
    | none => r = none
    | some n => ∃ m, r = some m ∧ n = m + used := by
  unfold lengthLimit
  cases limit with
  | none =>
    constructor
    · intro h; cases h; rfl
    · rintro rfl; rfl
  | some n =>
    dsimp only
    split
    · refine iff_of_false (fun h => nomatch h) ?_
      rintro ⟨m, _, h⟩; omega
    · constructor
      · intro h; cases h; exact ⟨_, rfl, by omega⟩
      · rintro ⟨m, rfl, h⟩; rw [h]; simp

/-- The text that is rendered: the input or its elements, one per line, trimmed if the format says so, with the dots at
its end by the settings. -/
def Prepared (fmt : Format) (input : CommentInput) (t : Chars) : Prop :=
  ∃ s, (input = .text s ∨ ∃ l, input = .seq l ∧ s = ['\n'].intercalate l) ∧ Dots fmt (if fmt.trim then trim s else s) t

theorem dots_unique {fmt : Format} {s t t' : Chars} (h : Dots fmt s t) (h' : Dots fmt s t') : t = t' := by
  obtain ⟨u, h1, h2⟩ := h
  obtain ⟨u', h1', h2'⟩ := h'
  have : u = u' := by
    by_cases hr : fmt.removeDots = true
    · rw [if_pos hr] at h1 h1'
      obtain ⟨⟨w, e, hw⟩, hl⟩ := h1
      obtain ⟨⟨w', e', hw'⟩, hl'⟩ := h1'
      rw [e] at e'
      rcases List.append_eq_append_iff.1 e' with ⟨x, e1, e2⟩ | ⟨x, e1, e2⟩
      · rcases List.eq_nil_or_concat x with rfl | ⟨y, c, rfl⟩
        · simpa using e1.symm
        · exact absurd (by rw [e1, ← hw c (by rw [e2]; simp)]; simp) hl'
      · rcases List.eq_nil_or_concat x with rfl | ⟨y, c, rfl⟩
        · simpa using e1
        · exact absurd (by rw [e1, ← hw' c (by rw [e2]; simp)]; simp) hl
    · rw [if_neg hr] at h1 h1'
      rw [h1, h1']
  subst this
  split at h2
  · rename_i hc; rw [if_pos hc] at h2'; rw [h2, h2']
  · rename_i hc; rw [if_neg hc] at h2'; rw [h2, h2']

/-- The comment filter: nothing for undefined, and otherwise the layout of the rendered text with the settings of the
arguments and of the format. -/
theorem comment_iff (input : CommentInput) (args : CommentArgs) (out : Chars) :
    comment formats dflt defaultName render input args = .ok out ↔
    (input = .undefined ∧ out = []) ∨
    ∃ s t rendered, Settled formats dflt defaultName args s ∧ Prepared s.fmt input t ∧
      render s.name t s.limit = some rendered ∧ IsLayout s.fmt.trim s.indent s.header s.pre s.footer rendered out := by
  have hor : ∀ a b : Option Chars, a.getD (b.getD []) = (a.or b).getD [] := by intro a b; cases a <;> rfl
  have hprep : ∀ fmt, input ≠ .undefined → Prepared fmt input
      (endDots fmt (if fmt.trim then trim (inputText input) else inputText input)) := by
    intro fmt hne
    cases input with
    | undefined => exact absurd rfl hne
    | text s => exact ⟨s, .inl rfl, endDots_spec _ _⟩
    | seq l => exact ⟨_, .inr ⟨l, rfl, rfl⟩, endDots_spec _ _⟩
  have huniq : ∀ fmt t, Prepared fmt input t →
      t = endDots fmt (if fmt.trim then trim (inputText input) else inputText input) := by
    rintro fmt t ⟨s, rfl | ⟨l, rfl, rfl⟩, h⟩
    · exact dots_unique h (endDots_spec _ _)
    · exact dots_unique h (endDots_spec _ _)
  by_cases hu : input = .undefined
  · subst hu
    constructor
    · intro h; left; cases h; exact ⟨rfl, rfl⟩
    · rintro (⟨_, rfl⟩ | ⟨s, t, r, _, ⟨x, h | ⟨_, h, _⟩, _⟩, _⟩)
      · rfl
      · cases h
      · cases h
  have hc : comment formats dflt defaultName render input args =
      (let name := args.format.getD (defaultName.getD "default")
       let fmt := (aget name formats).getD dflt
       if fmt.removeDots ∧ fmt.enforceDots then .error .bothDots
       else match indentation fmt args with
        | .error e => .error e
        | .ok indent =>
          match lengthLimit (args.lineLength.or fmt.lineLength) (bytes indent + bytes (args.pre.getD (fmt.pre.getD []))) with
          | .error e => .error e
          | .ok actual =>
            match render name (endDots fmt (if fmt.trim then trim (inputText input) else inputText input)) actual with
            | none => .error .render
            | some rendered => .ok (layout fmt.trim indent (args.header.getD (fmt.header.getD []))
                (args.pre.getD (fmt.pre.getD [])) (args.footer.getD (fmt.footer.getD [])) rendered)) := by
    cases input with
    | undefined => exact absurd rfl hu
    | text s => rfl
    | seq l => rfl
  rw [hc]
  dsimp only
  simp only [hu, false_and, false_or]
  constructor
  · intro h
    split at h
    · cases h
    rename_i hd
    split at h
    · cases h
    rename_i indent hi
    split at h
    · cases h
    rename_i actual ha
    split at h
    · cases h
    rename_i rendered hr
    have h := Except.ok.inj h
    generalize hn : args.format.getD (defaultName.getD "default") = name at *
    generalize hf : (aget name formats).getD dflt = fmt at *
    refine ⟨⟨name, fmt, indent, (args.header.or fmt.header).getD [], (args.pre.or fmt.pre).getD [],
      (args.footer.or fmt.footer).getD [], actual⟩, _, rendered,
      ⟨hn.symm, hf.symm, hd, (indentation_iff _ _ _).1 hi, rfl, rfl, rfl, ?_⟩, hprep _ hu, hr, ?_⟩
    · rw [hor] at ha
      exact (lengthLimit_iff _ _ _).1 ha
    · rw [← layout_iff, ← hor, ← hor, ← hor]; exact h
  · rintro ⟨⟨name, fmt, indent, header, pre, footer, limit⟩, t, rendered, ⟨h1, h2, h3, h4, h5, h6, h7, h8⟩, hp, hr, hl⟩
    dsimp only at *
    subst h1; subst h2
    rw [if_neg h3, (indentation_iff _ _ _).2 h4]
    dsimp only
    rw [hor, ← h6, (lengthLimit_iff _ _ _).2 h8]
    dsimp only
    rw [← huniq _ t hp, hr]
    dsimp only
    rw [hor, hor, ← h5, ← h7, (layout_iff _ _ _ _ _ _ _).2 hl]

/-- A format in the style of Java. -/
def javaFormat : Format where
  header := some "/**".toList
  pre := some " * ".toList
  footer := some " */".toList
  tab := false
  trim := true
  removeDots := false
  enforceDots := true
  lineLength := none

example : comment [("java", javaFormat)] javaFormat (some "java") (fun _ t _ => some t) (.text "One.\n\nTwo".toList) { indent := some 2 } =
    .ok "/**\n   * One.\n   *\n   * Two.\n   */".toList := by rfl

/-! ### The filter with a prefix only -/

/-- `comment_with_prefix` puts the prefix before every line; lines at the start that stay empty are left out. -/
theorem commentWithPrefix_lines (text pre : Chars) : ∃ shown, Written (pre ++ ·) (pre ++ ·) (lines text) shown ∧
    commentWithPrefix text pre = ['\n'].intercalate shown ∧ (pre ≠ [] → shown = (lines text).map (pre ++ ·)) := by
  obtain ⟨shown, h1, h2⟩ := writeLines_iff (pre ++ ·) (pre ++ ·) (lines text)
  refine ⟨shown, h1, h2, fun hp => ?_⟩
  rcases h1.all (fun l => by simp [hp]) with ⟨e1, e2⟩ | ⟨l, t, e1, e2⟩
  · rw [e1, e2]; rfl
  · rw [e1, e2]; rfl

/-! ### What does not hold -/

/-- With a prefix every line is kept. -/
theorem blank_lines_kept_partial (text pre : Chars) (hp : pre ≠ []) :
    commentWithPrefix text pre = ['\n'].intercalate ((lines text).map (pre ++ ·)) := by
  obtain ⟨shown, _, h, h'⟩ := commentWithPrefix_lines text pre
  rw [h, h' hp]

/-- Without header and prefix the empty lines at the start of a text are lost. -/
theorem blank_lines_kept_refuted : commentWithPrefix "\n\nx".toList [] = "x".toList ∧
    layout false [] [] [] [] "\n\nx".toList = "x".toList := by decide

/-- With a limit that is not shorter than indentation and prefix the filter only fails for an unknown kind of indentation,
for contradicting settings, or because the text cannot be rendered. -/
theorem comment_limit_partial (input : CommentInput) (args : CommentArgs)
    (hlim : ∀ n, args.lineLength.or ((aget (args.format.getD (defaultName.getD "default")) formats).getD dflt).lineLength = some n →
      args.indent.getD 0 + bytes (args.pre.getD (((aget (args.format.getD (defaultName.getD "default")) formats).getD dflt).pre.getD [])) ≤ n) :
    comment formats dflt defaultName render input args ≠ .error .underflow := by
  have hb : ∀ n (c : Char), (c = ' ' ∨ c = '\t') → bytes (List.replicate n c) = n := by
    intro n c hc
    unfold bytes
    induction n with
    | zero => rfl
    | succ n ih =>
      rw [List.replicate_succ, show c :: List.replicate n c = [c] ++ List.replicate n c from rfl, String.ofList_append,
        String.utf8ByteSize_append, ih]
      have : (String.ofList [c]).utf8ByteSize = 1 := by rcases hc with rfl | rfl <;> rfl
      omega
  have hi : ∀ fmt i, indentation fmt args = .ok i → bytes i = args.indent.getD 0 := by
    intro fmt i h
    obtain ⟨c, rfl, ⟨h', _⟩ | ⟨h', _⟩⟩ := (indentation_iff _ _ _).1 h
    · exact hb _ _ (.inl h')
    · exact hb _ _ (.inr h')
  intro h
  unfold comment at h
  split at h
  · cases h
  · dsimp only at h
    split at h
    · cases h
    split at h
    · rename_i e he
      have := indentation_error he
      subst this; cases h
    rename_i indent hin
    split at h
    · rename_i e he
      unfold lengthLimit at he
      split at he
      · cases he
      · rename_i n hn
        split at he
        · rename_i hlt
          have := hlim n hn
          rw [hi _ _ hin] at hlt
          omega
        · cases he
    split at h <;> cases h

/-- A limit that is shorter than indentation and prefix makes the subtraction underflow. -/
theorem comment_limit_refuted : comment [("java", javaFormat)] javaFormat (some "java") render (.text "One".toList)
    { indent := some 8, lineLength := some 10 } = .error .underflow := by rfl

/-! ### Mappings -/

/-- `type_mapping` maps the texts of its table and leaves every other value as it is. -/
theorem typeMapping_iff (m : List (String × String)) (v : Val) :
    (∃ s t, v = .str s ∧ aget s m = some t ∧ typeMapping m v = .str t) ∨
    ((∀ s t, v = .str s → aget s m ≠ some t) ∧ typeMapping m v = v) := by
  unfold typeMapping
  cases v with
  | str s =>
    simp only [Val.asStr]
    cases h : aget s m with
    | some t => exact .inl ⟨s, t, rfl, h, rfl⟩
    | none => exact .inr ⟨fun s' t e => by cases e; simp [h], rfl⟩
  | _ => exact .inr ⟨fun s t e => (nomatch e), rfl⟩

/-- `map_text` maps the texts of the named table; for every other value it gives the default, or the value itself. -/
theorem mapText_iff (maps : List (String × List (String × String))) (v : Val) (name : String) (d : Option String) :
    (∃ s tbl t, v = .str s ∧ aget name maps = some tbl ∧ aget s tbl = some t ∧ mapText maps v name d = .str t) ∨
    ((∀ s tbl t, v = .str s → aget name maps = some tbl → aget s tbl ≠ some t) ∧
      mapText maps v name d = match d with | some x => .str x | none => v) := by
  unfold mapText
  cases v with
  | str s =>
    simp only [Val.asStr, Option.bind_some]
    cases hm : aget name maps with
    | none => exact .inr ⟨fun _ _ _ _ h => (nomatch h), rfl⟩
    | some tbl =>
      simp only [Option.bind_some]
      cases h : aget s tbl with
      | some t => exact .inl ⟨s, tbl, t, rfl, rfl, h, rfl⟩
      | none => exact .inr ⟨fun s' tbl' t e e' => by cases e; cases e'; simp [h], rfl⟩
  | _ => exact .inr ⟨fun s tbl t e => (nomatch e), rfl⟩

end Verif.Forge
