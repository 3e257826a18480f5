import Verif.Render.Html
/-
C293: how paragraphs are separated in HTML.
-/
namespace Verif.Render.Html
open Verif.Util (Chars)

/-! ### Specification -/

/-- What is written between a paragraph and the next one, which is the text `t`, in the old style: a line with `<p>`, but an
empty line before a tag such as `@param`. -/
def paragraphGap (t : Chars) : Chars := if t.head? = some '@' then "\n\n".toList else "\n<p>\n".toList

/-- The paragraphs in the old style. -/
def oldParagraphs : List Chars → Chars
  | [] => []
  | t :: ts => t ++ (ts.map fun u => paragraphGap u ++ u).flatten

/-- The paragraphs as elements, each on a line. -/
def newParagraphs : List Chars → Chars
  | [] => []
  | t :: ts => "<p>".toList ++ t ++ "</p>".toList ++ (ts.map fun u => "\n<p>".toList ++ u ++ "</p>".toList).flatten

/-! ### Theorems -/

/-- The Markdown tree of paragraphs. -/
def paragraphs (ts : List Chars) : List Node := ts.map fun t => .paragraph [.text t]

theorem startsWithAt_iff (t : Chars) : startsWithAt [.text t] = decide (t.head? = some '@') := by
  cases t with
  | nil => rfl
  | cons c t =>
    by_cases h : c = '@'
    · subst h; rfl
    · rw [List.head?_cons, decide_eq_false (by simpa using h)]
      unfold startsWithAt
      split
      · rename_i h'; cases h'; exact absurd rfl h
      · rfl

theorem unbroken_free {cfg : WrapCfg} (hn : cfg.limit = none) (x i : Chars) {o : Out} (hs : o.space = false) :
    o.unbroken cfg x i = { text := o.text ++ x, cur := o.cur + len x, space := false } := by
  unfold Out.unbroken
  rw [hn, hs]
  simp

theorem words_free {cfg : WrapCfg} (hn : cfg.limit = none) (x i : Chars) (o : Out) :
    o.words cfg x i = { o with text := o.text ++ x, cur := o.cur + len x } := by
  unfold Out.words
  rw [hn]

theorem old_step {op : Opts} (hn : op.cfg.limit = none) (ho : op.oldStyle = true) (t : Chars) (s : St) (hs : s.o.space = false)
    (h1 : s.newline = s.oldP) :
    ∃ s', node op [] (.paragraph [.text t]) s = some s' ∧ s'.o.space = false ∧ s'.newline = true ∧ s'.oldP = true ∧
      s'.o.text = s.o.text ++ (if s.oldP then paragraphGap t else []) ++ t := by
  unfold node nodes node nodes enter
  rw [ho, h1]
  cases hp : s.oldP with
  | true =>
    simp only [if_true, Out.unbrokenLn, St.ln, Out.ln, unbroken_free hn, words_free hn, startsWithAt_iff, hp,
      Bool.false_eq_true, if_false]
    refine ⟨_, rfl, rfl, rfl, rfl, ?_⟩
    dsimp only
    unfold paragraphGap
    by_cases h : t.head? = some '@'
    · rw [decide_eq_true h, if_pos rfl, if_pos h]; simp
    · rw [decide_eq_false h, if_neg h]; simp
  | false =>
    simp only [if_true, words_free hn, hp, h1, Bool.false_eq_true, if_false]
    exact ⟨_, rfl, hs, rfl, rfl, by simp⟩

theorem old_rest {op : Opts} (hn : op.cfg.limit = none) (ho : op.oldStyle = true) (ts : List Chars) (s : St) (hs : s.o.space = false)
    (h1 : s.newline = true) (h2 : s.oldP = true) :
    ∃ s', nodes op [] (paragraphs ts) s = some s' ∧ s'.o.text = s.o.text ++ (ts.map fun u => paragraphGap u ++ u).flatten := by
  induction ts generalizing s with
  | nil => exact ⟨s, by unfold paragraphs; rw [List.map_nil]; unfold nodes; rfl, by simp⟩
  | cons t ts ih =>
    obtain ⟨s1, e1, a1, a2, a3, a4⟩ := old_step hn ho t s hs (h1.trans h2.symm)
    obtain ⟨s2, e2, b⟩ := ih s1 a1 a2 a3
    refine ⟨s2, ?_, ?_⟩
    · unfold paragraphs; rw [List.map_cons]; unfold nodes; rw [e1]; exact e2
    · rw [b, a4, h2]; simp

/-- C293. In the old style, a line with `<p>` is between two paragraphs; before a paragraph that starts with `@` it is empty. -/
theorem old_style {op : Opts} (hn : op.cfg.limit = none) (ho : op.oldStyle = true) (ts : List Chars) :
    render op (.root (paragraphs ts)) = some (oldParagraphs ts) := by
  have hroot : node op [] (.root (paragraphs ts)) {} = nodes op [] (paragraphs ts) {} := by
    unfold node enter; rfl
  unfold render
  rw [hroot]
  cases ts with
  | nil => unfold paragraphs; rw [List.map_nil]; unfold nodes; rfl
  | cons t ts =>
    obtain ⟨s1, e1, a1, a2, a3, a4⟩ := old_step hn ho t {} rfl rfl
    obtain ⟨s2, e2, b⟩ := old_rest hn ho ts s1 a1 a2 a3
    unfold paragraphs; rw [List.map_cons]; unfold nodes; rw [e1]
    dsimp only
    unfold paragraphs at e2
    rw [e2, Option.map_some, b, a4]
    unfold oldParagraphs
    simp

theorem new_step {op : Opts} (hn : op.cfg.limit = none) (ho : op.oldStyle = false) (t : Chars) (s : St) (hs : s.o.space = false)
    (h1 : s.oldP = false) :
    ∃ s', node op [] (.paragraph [.text t]) s = some s' ∧ s'.o.space = false ∧ s'.newline = true ∧ s'.oldP = false ∧
      s'.o.text = s.o.text ++ (if s.newline then ['\n'] else []) ++ "<p>".toList ++ t ++ "</p>".toList := by
  unfold node nodes node nodes enter
  rw [ho]
  cases hp : s.newline with
  | true =>
    simp only [if_true, St.ln, Out.ln, St.piece, unbroken_free hn, words_free hn, h1, Bool.false_eq_true, if_false]
    exact ⟨_, rfl, rfl, rfl, rfl, by simp [openTag, closeTag]⟩
  | false =>
    simp only [St.piece, unbroken_free hn _ _ hs, unbroken_free hn, words_free hn, h1, hp, Bool.false_eq_true, if_false]
    exact ⟨_, rfl, rfl, rfl, rfl, by simp [openTag, closeTag]⟩

theorem new_rest {op : Opts} (hn : op.cfg.limit = none) (ho : op.oldStyle = false) (ts : List Chars) (s : St) (hs : s.o.space = false)
    (h1 : s.newline = true) (h2 : s.oldP = false) :
    ∃ s', nodes op [] (paragraphs ts) s = some s' ∧
      s'.o.text = s.o.text ++ (ts.map fun u => "\n<p>".toList ++ u ++ "</p>".toList).flatten := by
  induction ts generalizing s with
  | nil => exact ⟨s, by unfold paragraphs; rw [List.map_nil]; unfold nodes; rfl, by simp⟩
  | cons t ts ih =>
    obtain ⟨s1, e1, a1, a2, a3, a4⟩ := new_step hn ho t s hs h2
    obtain ⟨s2, e2, b⟩ := ih s1 a1 a2 a3
    refine ⟨s2, ?_, ?_⟩
    · unfold paragraphs; rw [List.map_cons]; unfold nodes; rw [e1]; exact e2
    · rw [b, a4, h1]; simp

/-- C293. Otherwise each paragraph is an element on a line of its own. -/
theorem new_style {op : Opts} (hn : op.cfg.limit = none) (ho : op.oldStyle = false) (ts : List Chars) :
    render op (.root (paragraphs ts)) = some (newParagraphs ts) := by
  have hroot : node op [] (.root (paragraphs ts)) {} = nodes op [] (paragraphs ts) {} := by
    unfold node enter; rfl
  unfold render
  rw [hroot]
  cases ts with
  | nil => unfold paragraphs; rw [List.map_nil]; unfold nodes; rfl
  | cons t ts =>
    obtain ⟨s1, e1, a1, a2, a3, a4⟩ := new_step hn ho t {} rfl rfl
    obtain ⟨s2, e2, b⟩ := new_rest hn ho ts s1 a1 a2 a3
    unfold paragraphs; rw [List.map_cons]; unfold nodes; rw [e1]
    dsimp only
    unfold paragraphs at e2
    rw [e2, Option.map_some, b, a4]
    unfold newParagraphs
    simp

example : String.ofList (oldParagraphs ["a".toList, "b".toList, "@see c".toList]) = "a\n<p>\nb\n\n@see c" := by decide +kernel
example : String.ofList (newParagraphs ["a".toList, "b".toList]) = "<p>a</p>\n<p>b</p>" := by decide +kernel
example : (render { oldStyle := true } (.root (paragraphs ["a".toList, "b".toList]))).map String.ofList = some "a\n<p>\nb" := by decide +kernel

end Verif.Render.Html
