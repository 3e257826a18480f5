import Verif.Render.MdSpec
/-
C207: what escaping texts does. The Markdown parser gives texts without the backslashes that escape punctuation; the renderer puts
some of them back.
-/
namespace Verif.Render.Md
open Verif.Util (Chars)

/-! ### What reading Markdown does -/

/-- ASCII punctuation. -/
def punct (c : Char) : Bool := "!\"#$%&'()*+,-./:;<=>?@[\\]^_`{|}~".toList.contains c

/-- A backslash before punctuation is left out; the punctuation is a text. -/
def unescape : Chars → Chars
  | [] => []
  | [c] => [c]
  | c :: d :: cs => if c = '\\' ∧ punct d = true then d :: unescape cs else c :: unescape (d :: cs)

/-- A square bracket that is not escaped. `esc`: what comes before is a backslash that is not escaped. -/
def bare : Bool → Chars → Bool
  | _, [] => false
  | esc, c :: cs => (!esc && (c == '[' || c == ']')) || bare (!esc && c == '\\') cs

/-! ### Theorems -/

theorem unescape_other {c : Char} (h : c ≠ '\\') (cs : Chars) : unescape (c :: cs) = c :: unescape cs := by
  cases cs with
  | nil => rfl
  | cons d cs =>
    rw [unescape, if_neg (fun hx => h hx.1)]

theorem unescape_escaped {d : Char} (h : punct d = true) (cs : Chars) : unescape ('\\' :: d :: cs) = d :: unescape cs := by
  rw [unescape, if_pos ⟨rfl, h⟩]

theorem doubled_back (cs : Chars) : doubled ('\\' :: cs) = '\\' :: '\\' :: doubled cs := by
  unfold doubled; rw [if_pos rfl]; cases cs <;> rfl

theorem doubled_other {c : Char} (h : c ≠ '\\') (cs : Chars) : doubled (c :: cs) = c :: doubled cs := by
  conv => lhs; unfold doubled
  rw [if_neg h]

theorem escapeFrom_back (n : Nat) (cs : Chars) : escapeFrom n ('\\' :: cs) = '\\' :: escapeFrom (n + 1) cs := by
  conv => lhs; unfold escapeFrom
  rw [if_pos rfl]

theorem escapeFrom_bracket {c : Char} {n : Nat} (h : c = '[' ∨ c = ']') (hn : n % 2 = 0) (cs : Chars) :
    escapeFrom n (c :: cs) = '\\' :: c :: escapeFrom 0 cs := by
  conv => lhs; unfold escapeFrom
  rw [if_neg (by rcases h with h | h <;> rw [h] <;> decide), if_pos ⟨h, hn⟩]
  rfl

theorem escapeFrom_other {c : Char} {n : Nat} (h : ¬ (c = '[' ∨ c = ']')) (hb : c ≠ '\\') (cs : Chars) :
    escapeFrom n (c :: cs) = c :: escapeFrom 0 cs := by
  conv => lhs; unfold escapeFrom
  rw [if_neg hb, if_neg (fun hx => h hx.1)]
  rfl

theorem unescape_doubled (t : Chars) : unescape (doubled t) = t := by
  induction t with
  | nil => rfl
  | cons c t ih =>
    by_cases hc : c = '\\'
    · subst hc
      rw [doubled_back, unescape_escaped (by decide), ih]
    · rw [doubled_other hc, unescape_other hc, ih]

theorem unescape_both (t : Chars) : ∀ n, n % 2 = 0 → unescape (escapeFrom n (doubled t)) = t := by
  induction t with
  | nil => intro n _; rfl
  | cons c t ih =>
    intro n hn
    by_cases hc : c = '\\'
    · subst hc
      rw [doubled_back, escapeFrom_back, escapeFrom_back, unescape_escaped (by decide), ih _ (by omega)]
    · rw [doubled_other hc]
      by_cases hb : c = '[' ∨ c = ']'
      · rw [escapeFrom_bracket hb hn, unescape_escaped (by rcases hb with h | h <;> rw [h] <;> decide), ih 0 rfl]
      · rw [escapeFrom_other hb hc, unescape_other hc, ih 0 rfl]

/-- C207: if backslashes are escaped, a text is read as it was. -/
theorem escape_reads (op : Opts) (h : op.escBackslashes = true) (t : Chars) : unescape (escape op t) = t := by
  unfold escape
  rw [if_pos h]
  dsimp only
  split
  · exact unescape_both t 0 rfl
  · exact unescape_doubled t

example : escape { escBackslashes := true, escBrackets := true } "a[0] \\[1] \\* b".toList = "a\\[0\\] \\\\\\[1\\] \\\\* b".toList := by decide

theorem bare_escapeFrom (t : Chars) : ∀ n, bare (n % 2 == 1) (escapeFrom n t) = false := by
  induction t with
  | nil => intro n; unfold escapeFrom; rfl
  | cons c t ih =>
    intro n
    by_cases hc : c = '\\'
    · subst hc
      rw [escapeFrom_back]
      unfold bare
      have : (!(n % 2 == 1) && ('\\' : Char) == '\\') = ((n + 1) % 2 == 1) := by
        rcases Nat.mod_two_eq_zero_or_one n with h | h
        · have h' : (n + 1) % 2 = 1 := by omega
          rw [h, h']; rfl
        · have h' : (n + 1) % 2 = 0 := by omega
          rw [h, h']; rfl
      rw [this, ih]
      have e : (('\\' : Char) == '[' || ('\\' : Char) == ']') = false := by decide
      rw [e, Bool.and_false]
      rfl
    · have hback : (c == '\\') = false := by simpa using hc
      by_cases hb : c = '[' ∨ c = ']'
      · rcases Nat.mod_two_eq_zero_or_one n with hn | hn
        · rw [escapeFrom_bracket hb hn, hn]
          unfold bare bare
          have := ih 0
          simp [hback] at this ⊢
          exact this
        · have he : escapeFrom n (c :: t) = c :: escapeFrom 0 t := by
            conv => lhs; unfold escapeFrom
            rw [if_neg hc, if_neg (fun hx => by omega)]
            rfl
          rw [he, hn]
          unfold bare
          have := ih 0
          simp at this ⊢
          exact this
      · rw [escapeFrom_other hb hc]
        unfold bare
        have := ih 0
        have hb1 : (c == '[' || c == ']') = false := by
          simp only [not_or] at hb
          simp [hb.1, hb.2]
        rw [hb1, hback, Bool.and_false, Bool.false_or]
        exact this

/-- C207: if square brackets are escaped, none is left that is not: a text does not become a link. -/
theorem escape_brackets (op : Opts) (h : op.escBrackets = true) (t : Chars) : bare false (escape op t) = false := by
  unfold escape
  rw [if_pos h]
  exact bare_escapeFrom _ 0

/-- C207: a text without backslashes and square brackets is left alone. -/
theorem escape_plain (op : Opts) (t : Chars) (h : ∀ c ∈ t, c ≠ '\\' ∧ c ≠ '[' ∧ c ≠ ']') : escape op t = t := by
  have h1 : doubled t = t := by
    induction t with
    | nil => rfl
    | cons c t ih => rw [doubled_other (h c List.mem_cons_self).1, ih (fun d hd => h d (List.mem_cons_of_mem _ hd))]
  have h2 : ∀ n, escapeFrom n t = t := by
    clear h1
    induction t with
    | nil => intro n; rfl
    | cons c t ih =>
      intro n
      have := h c List.mem_cons_self
      rw [escapeFrom_other (fun hx => hx.elim this.2.1 this.2.2) this.1, ih (fun d hd => h d (List.mem_cons_of_mem _ hd))]
  unfold escape
  cases op.escBackslashes <;> cases op.escBrackets <;> simp [h1, h2]

example : ∀ c ∈ "plain (text)*".toList, c ≠ '\\' ∧ c ≠ '[' ∧ c ≠ ']' := by decide

/-- C207, the claim that a text is read as it was, whatever is escaped. -/
def ReadsBack (op : Opts) : Prop := ∀ t : Chars, unescape (escape op t) = t

/-- C207: false if backslashes are not escaped: a backslash before a bracket is taken for its escape. -/
theorem reads_back_refuted : ¬ ReadsBack { escBrackets := true } := by
  intro h
  exact absurd (h "\\[".toList) (by decide)

/-- C207: false without options. -/
theorem reads_back_default_refuted : ¬ ReadsBack {} := by
  intro h
  exact absurd (h "\\*".toList) (by decide)

end Verif.Render.Md
