import Verif.Render.Html
import Verif.Render.WrapProps
/-
Comments rendered as HTML say what they said (C199, C200).
-/
namespace Verif.Render.Html
open Verif.Util (Chars)
open Verif.Markdown (isWhite)

/-! ### Specification -/

/-- A link with a URL. -/
def linkTag (url : Chars) : Chars := "<a href=\"".toList ++ url ++ "\">".toList

/-- The text between two tags. -/
def tagged (name t : Chars) : Chars := "<".toList ++ name ++ ">".toList ++ t ++ "</".toList ++ name ++ ">".toList

theorem tagged_eq (name t : Chars) : tagged name t = openTag name ++ t ++ closeTag name := by
  simp [tagged, openTag, closeTag]

/-- What is between a paragraph and the next child of an item. -/
def between : List Node → Chars
  | .paragraph _ :: _ => ['\n']
  | _ => []

mutual

/-- The HTML of a tree, without any layout: what is to be seen of it. A hard break is a line break, what is not rendered
should have been. In the old style paragraphs have no tags. -/
def shown (op : Opts) : Node → Chars
  | .root cs => showns op cs
  | .text t => t
  | .paragraph cs => if op.oldStyle then showns op cs else tagged ['p'] (showns op cs)
  | .list ordered st is => tagged (if ordered then ['o', 'l'] else ['u', 'l']) (shownItems op is)
  | .item cs => shownItem op cs
  | .html t => t
  | .inlineCode t => (op.inline t).getD []
  | .code _ t => (op.block t).getD []
  | .blockquote cs => tagged "blockquote".toList (showns op cs)
  | .link url cs => linkTag url ++ showns op cs ++ "</a>".toList
  | .strong cs => tagged "strong".toList (showns op cs)
  | .emphasis cs => tagged "em".toList (showns op cs)
  | .delete cs => tagged ['s'] (showns op cs)
  | .heading d cs => tagged (depthName d) (showns op cs)
  | .hardBreak => ['\n']
  | .other t => t

def showns (op : Opts) : List Node → Chars
  | [] => []
  | c :: cs => shown op c ++ showns op cs

/-- The items of a list. -/
def shownItems (op : Opts) : List Node → Chars
  | [] => []
  | c :: cs => "<li>".toList ++ shown op c ++ (if op.omitLi then [] else "</li>".toList) ++ shownItems op cs

/-- The children of an item; paragraphs have no tags there, but they are separated. -/
def shownItem (op : Opts) : List Node → Chars
  | [] => []
  | .paragraph ps :: cs => showns op ps ++ between cs ++ shownItem op cs
  | c :: cs => shown op c ++ shownItem op cs

end

/-- Paragraphs do not follow each other. -/
def Apart : List Node → Prop
  | [] => True
  | .paragraph _ :: cs => between cs = [] ∧ Apart cs
  | _ :: cs => Apart cs

mutual

/-- The trees that are rendered in full: without hard breaks and what is not supported, without HTML if words are wrapped, and
with texts that can be wrapped (see `Wrappable`). In the items of lists paragraphs do not follow each other. -/
def Supported (cfg : WrapCfg) : Node → Prop
  | .root cs => Supporteds cfg cs
  | .text t => Wrappable cfg t
  | .paragraph cs => Supporteds cfg cs
  | .list _ _ is => Supporteds cfg is
  | .item cs => Apart cs ∧ Supporteds cfg cs
  | .html _ => cfg.limit = none
  | .inlineCode _ => True
  | .code _ _ => True
  | .blockquote cs => Supporteds cfg cs
  | .link _ cs => Supporteds cfg cs
  | .strong cs => Supporteds cfg cs
  | .emphasis cs => Supporteds cfg cs
  | .delete cs => Supporteds cfg cs
  | .heading _ cs => Supporteds cfg cs
  | .hardBreak => False
  | .other _ => False

def Supporteds (cfg : WrapCfg) : List Node → Prop
  | [] => True
  | c :: cs => Supported cfg c ∧ Supporteds cfg cs

end

/-! ### C199 -/

/-- The invariant. -/
structure Good (op : Opts) (t : Chars) (s : St) : Prop where
  kept : Kept op.oldStyle t s.o
  space : op.cfg.limit = none → s.o.space = false
  old : s.oldP = true → op.oldStyle = true

theorem unbroken_space (cfg : WrapCfg) (t indent : Chars) (o : Out) : (o.unbroken cfg t indent).space = false := by
  unfold Out.unbroken
  split
  · rfl
  · split <;> rfl

theorem Good.piece {op : Opts} {t indent : Chars} {s : St} (h : Good op t s) (hi : ∀ c ∈ indent, isWhite c = true) (x : Chars) :
    Good op (t ++ x) (s.piece op x indent) :=
  ⟨kept_unbroken op.cfg hi x h.kept, fun _ => unbroken_space .., h.old⟩

theorem Good.ln {op : Opts} {t indent : Chars} {s : St} (h : Good op t s) (hi : ∀ c ∈ indent, isWhite c = true) :
    Good op t (s.ln indent) := ⟨kept_ln hi h.kept.1, fun _ => rfl, h.old⟩

theorem Good.flags {op : Opts} {t : Chars} {s : St} (h : Good op t s) (nl old : Bool) (ho : old = true → op.oldStyle = true) :
    Good op t { s with newline := nl, oldP := old } := ⟨h.kept, h.space, ho⟩

theorem Good.enter {op : Opts} {t indent : Chars} {s : St} (h : Good op t s) (hi : ∀ c ∈ indent, isWhite c = true) (n : Node) :
    Good op t (enter op indent n s) := by
  have h1 : Good op t (if s.newline then { s.ln indent with newline := false } else s) := by
    split
    · exact (h.ln hi).flags false _ h.old
    · exact h
  unfold Html.enter
  dsimp only
  generalize (if s.newline then { s.ln indent with newline := false } else s) = s1 at h1 ⊢
  split
  · rename_i hold
    have ho := h1.old hold
    cases n with
    | paragraph cs =>
      refine ⟨?_, fun _ => rfl, (fun h => nomatch h)⟩
      have hk := h1.kept
      rw [ho] at hk ⊢
      exact kept_extra _ _ hi hk.1
    | _ => exact h1.flags s1.newline false (fun h => nomatch h)
  · exact h1

theorem words_space (cfg : WrapCfg) (t indent : Chars) (o : Out) (hl : cfg.limit = none) (h : o.space = false) :
    (o.words cfg t indent).space = false := by
  unfold Out.words
  rw [hl]
  exact h

theorem Good.words {op : Opts} {t indent : Chars} {s : St} (h : Good op t s) (hi : ∀ c ∈ indent, isWhite c = true) (x : Chars)
    (hx : Wrappable op.cfg x) : Good op (t ++ x) { s with o := s.o.words op.cfg x indent } :=
  ⟨kept_words op.cfg hi x hx h.space h.kept, fun hl => words_space _ _ _ _ hl (h.space hl), h.old⟩

theorem Good.raw {op : Opts} {t : Chars} {s : St} (h : Good op t s) (x : Chars) (hl : op.cfg.limit = none) :
    Good op (t ++ x) { s with o := { s.o with text := s.o.text ++ x } } := by
  have := kept_words (indent := []) op.cfg (fun _ h => nomatch h) x (.inl hl) h.space h.kept
  unfold Out.words at this
  rw [hl] at this
  exact ⟨⟨this.1, this.2⟩, fun hl => h.space hl, h.old⟩

theorem indent_white {indent : Chars} (hi : ∀ c ∈ indent, isWhite c = true) : ∀ c ∈ indent ++ [' ', ' '], isWhite c = true := by
  intro c hc
  rcases List.mem_append.1 hc with hc | hc
  · exact hi c hc
  · rcases List.mem_cons.1 hc with rfl | hc
    · exact sp_white
    · rw [List.mem_singleton.1 hc]; exact sp_white

mutual

theorem node_good {op : Opts} : ∀ (n : Node) (indent t : Chars) (s s' : St), (∀ c ∈ indent, isWhite c = true) → Supported op.cfg n →
    Good op t s → node op indent n s = some s' → Good op (t ++ shown op n) s'
  | .root cs, indent, t, s, s', hi, hn, h, hs => by
    unfold node at hs
    unfold shown
    exact nodes_good cs indent t _ s' hi hn (h.enter hi _) hs
  | .text x, indent, t, s, s', hi, hn, h, hs => by
    unfold node at hs
    injection hs with hs; subst hs
    exact (h.enter hi _).words hi x hn
  | .paragraph cs, indent, t, s, s', hi, hn, h, hs => by
    unfold node at hs
    dsimp only at hs
    have h1 := h.enter hi (.paragraph cs)
    generalize enter op indent (.paragraph cs) s = s1 at hs h1
    unfold shown
    cases ho : op.oldStyle with
    | true =>
      rw [ho, if_pos rfl] at hs
      rw [if_pos rfl]
      split at hs
      · cases hs
      · rename_i s2 h2
        injection hs with hs; subst hs
        exact (nodes_good cs indent t s1 s2 hi hn h1 h2).flags true true (fun _ => ho)
    | false =>
      rw [ho, if_neg (by simp)] at hs
      rw [if_neg (by simp)]
      split at hs
      · cases hs
      · rename_i s2 h2
        injection hs with hs; subst hs
        have h3 := (nodes_good cs indent _ _ s2 hi hn (h1.piece hi _) h2).piece hi (closeTag ['p'])
        rw [List.append_assoc, List.append_assoc] at h3
        rw [tagged_eq]
        rw [List.append_assoc]
        exact h3.flags true _ h3.old
  | .list ordered st is, indent, t, s, s', hi, hn, h, hs => by
    unfold node at hs
    dsimp only at hs
    have h1 := h.enter hi (.list ordered st is)
    generalize enter op indent (.list ordered st is) s = s1 at hs h1
    unfold shown
    split at hs
    · cases hs
    · rename_i s2 h2
      injection hs with hs; subst hs
      have h3 := ((items_good is indent _ _ s2 hi hn (h1.piece hi _) h2).ln hi).piece hi
        (closeTag (if ordered then ['o', 'l'] else ['u', 'l']))
      rw [List.append_assoc, List.append_assoc] at h3
      rw [tagged_eq]
      rw [List.append_assoc]
      refine h3.flags true _ (fun ho => ?_)
      rcases Bool.or_eq_true_iff.1 ho with ho | ho
      · exact ho
      · exact h3.old ho
  | .item cs, indent, t, s, s', hi, hn, h, hs => by
    unfold node at hs
    unfold shown
    unfold Supported at hn
    exact itemChildren_good cs indent t _ s' hi hn.1 hn.2 (h.enter hi _) hs
  | .html x, indent, t, s, s', hi, hn, h, hs => by
    unfold node at hs
    injection hs with hs; subst hs
    exact (h.enter hi _).raw x hn
  | .inlineCode x, indent, t, s, s', hi, hn, h, hs => by
    unfold node at hs
    unfold shown
    obtain ⟨r, h1, h2⟩ := Option.map_eq_some_iff.1 hs
    rw [h1]; subst h2
    exact (h.enter hi _).piece hi r
  | .code lang x, indent, t, s, s', hi, hn, h, hs => by
    unfold node at hs
    unfold shown
    obtain ⟨r, h1, h2⟩ := Option.map_eq_some_iff.1 hs
    rw [h1]; subst h2
    exact (h.enter hi _).piece hi r
  | .blockquote cs, indent, t, s, s', hi, hn, h, hs => by
    unfold node at hs
    dsimp only at hs
    have h1 := h.enter hi (.blockquote cs)
    generalize enter op indent (.blockquote cs) s = s1 at hs h1
    unfold shown
    split at hs
    · cases hs
    · rename_i s2 h2
      injection hs with hs; subst hs
      have h3 := (nodes_good cs indent _ _ s2 hi hn ((h1.piece hi _).ln hi) h2).piece hi (closeTag "blockquote".toList)
      rw [List.append_assoc, List.append_assoc] at h3
      rw [tagged_eq]
      rw [List.append_assoc]
      exact h3.flags true _ h3.old
  | .link url cs, indent, t, s, s', hi, hn, h, hs => by
    unfold node at hs
    dsimp only at hs
    have h1 := h.enter hi (.link url cs)
    generalize enter op indent (.link url cs) s = s1 at hs h1
    unfold shown
    split at hs
    · cases hs
    · rename_i s2 h2
      injection hs with hs; subst hs
      have h3 := (nodes_good cs indent _ _ s2 hi hn (h1.piece hi (linkTag url)) h2).piece hi (closeTag ['a'])
      rw [List.append_assoc, List.append_assoc] at h3
      rw [List.append_assoc]
      exact h3
  | .strong cs, indent, t, s, s', hi, hn, h, hs => by
    unfold node at hs
    dsimp only at hs
    have h1 := h.enter hi (.strong cs)
    generalize enter op indent (.strong cs) s = s1 at hs h1
    unfold shown
    split at hs
    · cases hs
    · rename_i s2 h2
      injection hs with hs; subst hs
      have h3 := (nodes_good cs indent _ _ s2 hi hn (h1.piece hi _) h2).piece hi (closeTag "strong".toList)
      rw [List.append_assoc, List.append_assoc] at h3
      rw [tagged_eq]
      rw [List.append_assoc]
      exact h3
  | .emphasis cs, indent, t, s, s', hi, hn, h, hs => by
    unfold node at hs
    dsimp only at hs
    have h1 := h.enter hi (.emphasis cs)
    generalize enter op indent (.emphasis cs) s = s1 at hs h1
    unfold shown
    split at hs
    · cases hs
    · rename_i s2 h2
      injection hs with hs; subst hs
      have h3 := (nodes_good cs indent _ _ s2 hi hn (h1.piece hi _) h2).piece hi (closeTag "em".toList)
      rw [List.append_assoc, List.append_assoc] at h3
      rw [tagged_eq]
      rw [List.append_assoc]
      exact h3
  | .delete cs, indent, t, s, s', hi, hn, h, hs => by
    unfold node at hs
    dsimp only at hs
    have h1 := h.enter hi (.delete cs)
    generalize enter op indent (.delete cs) s = s1 at hs h1
    unfold shown
    split at hs
    · cases hs
    · rename_i s2 h2
      injection hs with hs; subst hs
      have h3 := (nodes_good cs indent _ _ s2 hi hn (h1.piece hi _) h2).piece hi (closeTag ['s'])
      rw [List.append_assoc, List.append_assoc] at h3
      rw [tagged_eq]
      rw [List.append_assoc]
      exact h3
  | .heading d cs, indent, t, s, s', hi, hn, h, hs => by
    unfold node at hs
    dsimp only at hs
    have h1 := h.enter hi (.heading d cs)
    generalize enter op indent (.heading d cs) s = s1 at hs h1
    unfold shown
    split at hs
    · cases hs
    · rename_i s2 h2
      injection hs with hs; subst hs
      have h3 := (nodes_good cs indent _ _ s2 hi hn (h1.piece hi _) h2).piece hi (closeTag (depthName d) ++ ['\n'])
      rw [List.append_assoc, List.append_assoc, ← List.append_assoc (showns op cs), ← List.append_assoc (openTag _),
        ← List.append_assoc t] at h3
      rw [tagged_eq]
      rw [List.append_assoc]
      exact ⟨⟨by
        have hk := h3.kept.1
        unfold KeepsText at hk
        rw [marks_append, marks_white (s := ['\n']) (fun c hc => by rw [List.mem_singleton.1 hc]; exact nl_white),
          List.append_nil] at hk
        exact hk, fun _ => by
          rcases h3.kept.2 (by rw [endWhite_append]; rfl) with h | h
          · exact .inl h
          · exact .inr h⟩, h3.space, h3.old⟩
  | .hardBreak, _, _, _, _, _, hn, _, _ => absurd hn (fun h => h)
  | .other _, _, _, _, _, _, hn, _, _ => absurd hn (fun h => h)

theorem nodes_good {op : Opts} : ∀ (cs : List Node) (indent t : Chars) (s s' : St), (∀ c ∈ indent, isWhite c = true) →
    Supporteds op.cfg cs → Good op t s → nodes op indent cs s = some s' → Good op (t ++ showns op cs) s'
  | [], indent, t, s, s', _, _, h, hs => by
    unfold nodes at hs
    injection hs with hs; subst hs
    unfold showns
    rw [List.append_nil]
    exact h
  | c :: cs, indent, t, s, s', hi, hn, h, hs => by
    unfold nodes at hs
    split at hs
    · cases hs
    · rename_i s1 h1
      have := nodes_good cs indent _ s1 s' hi hn.2 (node_good c indent t s s1 hi hn.1 h h1) hs
      unfold showns
      rw [List.append_assoc] at this
      exact this

theorem items_good {op : Opts} : ∀ (cs : List Node) (indent t : Chars) (s s' : St), (∀ c ∈ indent, isWhite c = true) →
    Supporteds op.cfg cs → Good op t s → items op indent cs s = some s' → Good op (t ++ shownItems op cs) s'
  | [], indent, t, s, s', _, _, h, hs => by
    unfold items at hs
    injection hs with hs; subst hs
    unfold shownItems
    rw [List.append_nil]
    exact h
  | c :: cs, indent, t, s, s', hi, hn, h, hs => by
    unfold items at hs
    dsimp only at hs
    split at hs
    · cases hs
    · rename_i s1 h1
      have h2 := node_good c _ _ _ s1 (indent_white hi) hn.1 ((h.ln (indent_white hi)).piece (indent_white hi) (openTag ['l', 'i'])) h1
      unfold shownItems
      cases ho : op.omitLi with
      | true =>
        rw [ho, if_pos rfl] at hs
        have := items_good cs indent _ s1 s' hi hn.2 h2 hs
        rw [if_pos rfl]
        simp only [List.append_assoc, List.nil_append] at this ⊢
        exact this
      | false =>
        rw [ho, if_neg (by simp)] at hs
        have := items_good cs indent _ _ s' hi hn.2 (h2.piece hi (closeTag ['l', 'i'])) hs
        rw [if_neg (by simp)]
        simp only [List.append_assoc] at this ⊢
        exact this

theorem itemChildren_good {op : Opts} : ∀ (cs : List Node) (indent t : Chars) (s s' : St), (∀ c ∈ indent, isWhite c = true) →
    Apart cs → Supporteds op.cfg cs → Good op t s → itemChildren op indent cs s = some s' → Good op (t ++ shownItem op cs) s'
  | [], indent, t, s, s', _, _, _, h, hs => by
    unfold itemChildren at hs
    injection hs with hs; subst hs
    unfold shownItem
    rw [List.append_nil]
    exact h
  | c :: cs, indent, t, s, s', hi, ha, hn, h, hs => by
    cases c with
    | paragraph ps =>
      unfold itemChildren at hs
      split at hs
      · cases hs
      · rename_i s1 h1
        have := itemChildren_good cs indent _ s1 s' hi ha.2 hn.2 (nodes_good ps indent t s s1 hi hn.1 h h1) hs
        unfold shownItem
        unfold Apart at ha
        rw [ha.1, List.append_nil]
        rw [List.append_assoc] at this
        exact this
    | _ =>
      unfold itemChildren at hs
      split at hs
      · cases hs
      · rename_i s1 h1
        have := itemChildren_good cs indent _ s1 s' hi ha hn.2 (node_good _ indent t s s1 hi hn.1 h h1) hs
        unfold shownItem
        rw [List.append_assoc] at this
        exact this

end

/-- C199: the rendering of a tree has the text of the tree and its tags, in the same order, with white space wherever there was
some. In the old style there may be other characters in between (the tags between paragraphs). Missing: hard breaks, what is not
supported, items with several paragraphs, HTML and some white space when words are wrapped (see the theorems below). -/
theorem html_keeps_text_partial (op : Opts) (n : Node) (out : Chars) (hn : Supported op.cfg n) (h : render op n = some out) :
    KeepsText op.oldStyle (shown op n) out := by
  unfold render at h
  obtain ⟨s, h1, rfl⟩ := Option.map_eq_some_iff.1 h
  have := node_good (op := op) n [] [] {} s (fun _ h => nomatch h) hn
    ⟨kept_init _, fun _ => rfl, (fun h => nomatch h)⟩ h1
  exact this.kept.1

/-- The claim of `html_keeps_text_partial` for the trees that are made with `p`. -/
def HtmlKeepsText (cfg : WrapCfg) (p : Node → Prop) : Prop :=
  ∀ (n : Node) (out : Chars), p n → render { cfg } n = some out → KeepsText false (shown { cfg } n) out

theorem not_keeps {s out : Chars} (h : (marks false s).map (·.1) ≠ (marks false out).map (·.1)) : ¬ KeepsText false s out := by
  intro hk
  have : ∀ {a b : List (Char × Bool)}, Keeps false a b → a.map (·.1) = b.map (·.1) := by
    intro a b h
    induction h with
    | nil => rfl
    | same c h _ ih => rw [List.map_cons, List.map_cons, ih]
    | other x h => cases h
  exact h (this hk)

theorem not_keeps_white {s out : Chars} (i : Nat) (c d : Char) (h : (marks false s)[i]? = some (c, true))
    (h' : (marks false out)[i]? = some (d, false)) : ¬ KeepsText false s out := by
  intro hk
  have : ∀ {a b : List (Char × Bool)}, Keeps false a b → ∀ (i : Nat) (c d : Char), a[i]? = some (c, true) → b[i]? = some (d, false) → False := by
    intro a b h
    induction h with
    | nil => intro i c d h; cases h
    | same x hb _ ih =>
      intro i c d h1 h2
      cases i with
      | zero =>
        rw [List.getElem?_cons_zero] at h1 h2
        injection h1 with h1; injection h2 with h2
        injection h1 with _ h1; injection h2 with _ h2
        rw [hb h1] at h2; cases h2
      | succ i => exact ih i c d h1 h2
    | other x h => cases h
  exact this hk i c d h h'

/-- A paragraph. -/
def para (cs : List Node) : Node := .root [.paragraph cs]

/-- C199: false for what is not supported: the text of a link by reference is left out. -/
theorem unsupported_refuted : ¬ HtmlKeepsText {} (fun n => n = para [.text "see ".toList, .other "RFC".toList]) := by
  intro h
  exact not_keeps (by decide) (h _ "<p>see </p>".toList rfl rfl)

/-- C199: false for hard breaks: the words before and after are put together. -/
theorem hard_break_refuted : ¬ HtmlKeepsText {} (fun n => n = para [.text "one".toList, .hardBreak, .text "two".toList]) := by
  intro h
  exact not_keeps_white 6 't' 't' (by decide) (by decide) (h _ "<p>onetwo</p>".toList rfl rfl)

/-- C199: false for HTML when words are wrapped: the space before it comes after it. -/
theorem inline_html_refuted : ¬ HtmlKeepsText { limit := some 80 }
    (fun n => n = para [.text "one ".toList, .html "<b>".toList, .text "two".toList, .html "</b>".toList]) := by
  intro h
  exact not_keeps_white 6 '<' '<' (by decide) (by decide) (h _ "<p>one<b> two</b></p>".toList rfl (by decide))

/-- C199: false for other white space when newlines are ignored: it is left out at the end of a text. -/
theorem tab_refuted : ¬ HtmlKeepsText { limit := some 80, ignoreNewlines := true }
    (fun n => n = para [.text "one\t".toList, .strong [.text "two".toList]]) := by
  intro h
  exact not_keeps_white 6 '<' '<' (by decide) (by decide) (h _ "<p>one<strong>two</strong></p>".toList rfl (by decide))

/-- C199: false for an item with two paragraphs: the last word of one and the first word of the other are put together. -/
theorem item_paragraphs_refuted : ¬ HtmlKeepsText {}
    (fun n => n = .root [.list false 1 [.item [.paragraph [.text "one".toList], .paragraph [.text "two".toList]]]]) := by
  intro h
  exact not_keeps_white 11 't' 't' (by decide) (by decide) (h _ "<ul>\n  <li>onetwo</li>\n</ul>".toList rfl rfl)

/-- A tree with many things in it. -/
def sampleTree : Node := .root [.heading 2 [.text "Title".toList], .paragraph [.text "Some ".toList, .strong [.text "bold".toList],
  .text " text.".toList], .list false 1 [.item [.paragraph [.text "one".toList]], .item [.paragraph [.inlineCode "x".toList]]]]

example : Supported { limit := some 12 } sampleTree ∧ render { cfg := { limit := some 12 } } sampleTree = some
    "<h2>Title\n</h2>\n<p>\nSome <strong>\nbold\n</strong>\ntext.</p>\n<ul>\n  <li>one\n</li>\n  <li>\n  <c>x</c>\n</li>\n</ul>".toList := by
  refine ⟨?_, by decide +kernel⟩
  simp [sampleTree, Supported, Supporteds, Wrappable, Apart, between]

/-! ### C200: words -/

mutual

/-- The nodes that make up a line. -/
def Inline : Node → Prop
  | .text _ => True
  | .html _ => True
  | .inlineCode _ => True
  | .link _ cs => Inlines cs
  | .strong cs => Inlines cs
  | .emphasis cs => Inlines cs
  | .delete cs => Inlines cs
  | _ => False

def Inlines : List Node → Prop
  | [] => True
  | c :: cs => Inline c ∧ Inlines cs

end

/-- Nothing is left to do. -/
def Idle (s : St) : Prop := s.newline = false ∧ s.oldP = false ∧ s.o.space = false

theorem enter_idle {op : Opts} {indent : Chars} {n : Node} {s : St} (h : Idle s) : enter op indent n s = s := by
  unfold Html.enter
  dsimp only
  rw [h.1, if_neg (Bool.noConfusion : ¬ false = true), h.2.1, if_neg (Bool.noConfusion : ¬ false = true)]

theorem piece_exact {op : Opts} (hl : op.cfg.limit = none) {s : St} (h : Idle s) (x indent : Chars) :
    (s.piece op x indent).o.text = s.o.text ++ x ∧ Idle (s.piece op x indent) := by
  unfold St.piece Out.unbroken
  rw [hl, h.2.2]
  exact ⟨rfl, h.1, h.2.1, rfl⟩

mutual

theorem node_exact {op : Opts} (hl : op.cfg.limit = none) : ∀ (n : Node) (indent : Chars) (s s' : St), Inline n → Idle s →
    node op indent n s = some s' → s'.o.text = s.o.text ++ shown op n ∧ Idle s'
  | .text x, indent, s, s', _, h, hs => by
    unfold node at hs
    rw [enter_idle h] at hs
    injection hs with hs; subst hs
    dsimp only
    unfold Out.words
    rw [hl]
    exact ⟨rfl, h⟩
  | .html x, indent, s, s', _, h, hs => by
    unfold node at hs
    rw [enter_idle h] at hs
    injection hs with hs; subst hs
    exact ⟨rfl, h⟩
  | .inlineCode x, indent, s, s', _, h, hs => by
    unfold node at hs
    rw [enter_idle h] at hs
    obtain ⟨r, h1, h2⟩ := Option.map_eq_some_iff.1 hs
    subst h2
    unfold shown
    rw [h1]
    exact piece_exact hl h r indent
  | .link url cs, indent, s, s', hn, h, hs => by
    unfold node at hs
    dsimp only at hs
    rw [enter_idle h] at hs
    unfold shown
    split at hs
    · cases hs
    · rename_i s2 h2
      injection hs with hs; subst hs
      obtain ⟨k1, k2⟩ := piece_exact hl h (linkTag url) indent
      obtain ⟨k3, k4⟩ := nodes_exact hl cs indent _ s2 hn k2 h2
      obtain ⟨k5, k6⟩ := piece_exact hl k4 (closeTag ['a']) indent
      refine ⟨?_, k6⟩
      rw [k5, k3]
      change (s.piece op (linkTag url) indent).o.text ++ _ ++ _ = _
      rw [k1]
      simp only [List.append_assoc]
      rfl
  | .strong cs, indent, s, s', hn, h, hs => by
    unfold node at hs
    dsimp only at hs
    rw [enter_idle h] at hs
    unfold shown
    split at hs
    · cases hs
    · rename_i s2 h2
      injection hs with hs; subst hs
      obtain ⟨k1, k2⟩ := piece_exact hl h (openTag "strong".toList) indent
      obtain ⟨k3, k4⟩ := nodes_exact hl cs indent _ s2 hn k2 h2
      obtain ⟨k5, k6⟩ := piece_exact hl k4 (closeTag "strong".toList) indent
      refine ⟨?_, k6⟩
      rw [k5, k3, k1]
      simp only [tagged_eq, List.append_assoc]
  | .emphasis cs, indent, s, s', hn, h, hs => by
    unfold node at hs
    dsimp only at hs
    rw [enter_idle h] at hs
    unfold shown
    split at hs
    · cases hs
    · rename_i s2 h2
      injection hs with hs; subst hs
      obtain ⟨k1, k2⟩ := piece_exact hl h (openTag "em".toList) indent
      obtain ⟨k3, k4⟩ := nodes_exact hl cs indent _ s2 hn k2 h2
      obtain ⟨k5, k6⟩ := piece_exact hl k4 (closeTag "em".toList) indent
      refine ⟨?_, k6⟩
      rw [k5, k3, k1]
      simp only [tagged_eq, List.append_assoc]
  | .delete cs, indent, s, s', hn, h, hs => by
    unfold node at hs
    dsimp only at hs
    rw [enter_idle h] at hs
    unfold shown
    split at hs
    · cases hs
    · rename_i s2 h2
      injection hs with hs; subst hs
      obtain ⟨k1, k2⟩ := piece_exact hl h (openTag ['s']) indent
      obtain ⟨k3, k4⟩ := nodes_exact hl cs indent _ s2 hn k2 h2
      obtain ⟨k5, k6⟩ := piece_exact hl k4 (closeTag ['s']) indent
      refine ⟨?_, k6⟩
      rw [k5, k3, k1]
      simp only [tagged_eq, List.append_assoc]
  | .root _, _, _, _, hn, _, _ => absurd hn (fun h => h)
  | .paragraph _, _, _, _, hn, _, _ => absurd hn (fun h => h)
  | .list _ _ _, _, _, _, hn, _, _ => absurd hn (fun h => h)
  | .item _, _, _, _, hn, _, _ => absurd hn (fun h => h)
  | .code _ _, _, _, _, hn, _, _ => absurd hn (fun h => h)
  | .blockquote _, _, _, _, hn, _, _ => absurd hn (fun h => h)
  | .heading _ _, _, _, _, hn, _, _ => absurd hn (fun h => h)
  | .hardBreak, _, _, _, hn, _, _ => absurd hn (fun h => h)
  | .other _, _, _, _, hn, _, _ => absurd hn (fun h => h)

theorem nodes_exact {op : Opts} (hl : op.cfg.limit = none) : ∀ (cs : List Node) (indent : Chars) (s s' : St), Inlines cs → Idle s →
    nodes op indent cs s = some s' → s'.o.text = s.o.text ++ showns op cs ∧ Idle s'
  | [], indent, s, s', _, h, hs => by
    unfold nodes at hs
    injection hs with hs; subst hs
    unfold showns
    rw [List.append_nil]
    exact ⟨rfl, h⟩
  | c :: cs, indent, s, s', hn, h, hs => by
    unfold nodes at hs
    split at hs
    · cases hs
    · rename_i s1 h1
      obtain ⟨k1, k2⟩ := node_exact hl c indent s s1 hn.1 h h1
      obtain ⟨k3, k4⟩ := nodes_exact hl cs indent s1 s' hn.2 k2 hs
      refine ⟨?_, k4⟩
      unfold showns
      rw [k3, k1, List.append_assoc]

end

/-- C200: if words are not wrapped, a paragraph is rendered as it is, with the tags of what is in it. -/
theorem unwrapped_exact_partial (op : Opts) (hl : op.cfg.limit = none) (cs : List Node) (hc : Inlines cs) (out : Chars)
    (h : render op (para cs) = some out) : out = shown op (para cs) := by
  have e : (para cs) = .root [.paragraph cs] := rfl
  unfold render at h
  obtain ⟨s, h1, rfl⟩ := Option.map_eq_some_iff.1 h
  rw [e] at h1 ⊢
  have hi : Idle {} := ⟨rfl, rfl, rfl⟩
  unfold node at h1
  rw [enter_idle hi] at h1
  unfold nodes node at h1
  rw [enter_idle hi] at h1
  dsimp only at h1
  have es : shown op (.root [.paragraph cs]) = if op.oldStyle then showns op cs else tagged ['p'] (showns op cs) := by
    simp [shown, showns]
  rw [es]
  cases ho : op.oldStyle with
  | true =>
    rw [ho, if_pos rfl] at h1
    rw [if_pos rfl]
    cases h2 : nodes op [] cs {} with
    | none => rw [h2] at h1; cases h1
    | some s2 =>
      rw [h2] at h1
      dsimp only at h1
      unfold nodes at h1
      injection h1 with h1; subst h1
      exact (nodes_exact hl cs [] {} s2 hc hi h2).1
  | false =>
    rw [ho, if_neg (by simp)] at h1
    rw [if_neg (by simp)]
    cases h2 : nodes op [] cs (St.piece op (openTag ['p']) [] {}) with
    | none => rw [h2] at h1; cases h1
    | some s2 =>
      rw [h2] at h1
      dsimp only at h1
      unfold nodes at h1
      rw [if_neg (by simp)] at h1
      injection h1 with h1; subst h1
      obtain ⟨k1, k2⟩ := piece_exact hl hi (openTag ['p']) []
      obtain ⟨k3, k4⟩ := nodes_exact hl cs [] _ s2 hc k2 h2
      obtain ⟨k5, _⟩ := piece_exact hl k4 (closeTag ['p']) []
      change (s2.piece op (closeTag ['p']) []).o.text = _
      rw [k5, k3, k1, tagged_eq]
      rfl

example : Inlines [.text "Some ".toList, .strong [.text "bold".toList], .text " text  \n.".toList] ∧
    shown {} (para [.text "Some ".toList, .strong [.text "bold".toList], .text " text  \n.".toList]) =
      "<p>Some <strong>bold</strong> text  \n.</p>".toList := ⟨by simp [Inlines, Inline], rfl⟩

/-- Whether `x` is a part of a text. -/
def hasPart (x : Chars) : Chars → Bool
  | [] => x.isEmpty
  | c :: cs => x.isPrefixOf (c :: cs) || hasPart x cs

/-- C200, the claim that what follows a code directly is not separated from it. -/
def DotFollows : Prop :=
  ∀ (cfg : WrapCfg) (c out : Chars), render { cfg } (para [.inlineCode c, .text ['.']]) = some out →
    hasPart ("<c>".toList ++ c ++ "</c>.".toList) out = true

/-- C200: false: a line may break between a code and the dot after it. -/
theorem dot_follows_refuted : ¬ DotFollows := by
  intro h
  have := h { limit := some 11 } "x".toList "<p><c>x</c>\n.</p>".toList (by decide)
  exact absurd this (by decide)

mutual

theorem node_total {op : Opts} (hi : ∀ c, (op.inline c).isSome = true) (hb : ∀ c, (op.block c).isSome = true) :
    ∀ (n : Node) (indent : Chars) (s : St), ∃ s', node op indent n s = some s'
  | .root cs, indent, s => by
    unfold node; exact nodes_total hi hb cs indent _
  | .text x, indent, s => ⟨_, rfl⟩
  | .paragraph cs, indent, s => by
    unfold node; dsimp only
    obtain ⟨s1, h⟩ := nodes_total hi hb cs indent (if op.oldStyle = true then enter op indent (.paragraph cs) s
      else St.piece op (openTag ['p']) indent (enter op indent (.paragraph cs) s))
    rw [h]; exact ⟨_, rfl⟩
  | .list o st cs, indent, s => by
    unfold node; dsimp only
    obtain ⟨s1, h⟩ := items_total hi hb cs indent
      (St.piece op (openTag (if o = true then ['o', 'l'] else ['u', 'l'])) indent (enter op indent (.list o st cs) s))
    rw [h]; exact ⟨_, rfl⟩
  | .item cs, indent, s => by
    unfold node; exact itemChildren_total hi hb cs indent _
  | .html x, indent, s => ⟨_, rfl⟩
  | .inlineCode x, indent, s => by
    unfold node
    obtain ⟨r, h⟩ := Option.isSome_iff_exists.1 (hi x)
    rw [h]; exact ⟨_, rfl⟩
  | .code l x, indent, s => by
    unfold node
    obtain ⟨r, h⟩ := Option.isSome_iff_exists.1 (hb x)
    rw [h]; exact ⟨_, rfl⟩
  | .blockquote cs, indent, s => by
    unfold node; dsimp only
    obtain ⟨s1, h⟩ := nodes_total hi hb cs indent
      ((St.piece op (openTag "blockquote".toList) indent (enter op indent (.blockquote cs) s)).ln indent)
    rw [h]; exact ⟨_, rfl⟩
  | .link url cs, indent, s => by
    unfold node; dsimp only
    obtain ⟨s1, h⟩ := nodes_total hi hb cs indent (St.piece op (linkTag url) indent (enter op indent (.link url cs) s))
    unfold linkTag at h
    rw [h]; exact ⟨_, rfl⟩
  | .strong cs, indent, s => by
    unfold node; dsimp only
    obtain ⟨s1, h⟩ := nodes_total hi hb cs indent (St.piece op (openTag "strong".toList) indent (enter op indent (.strong cs) s))
    rw [h]; exact ⟨_, rfl⟩
  | .emphasis cs, indent, s => by
    unfold node; dsimp only
    obtain ⟨s1, h⟩ := nodes_total hi hb cs indent (St.piece op (openTag "em".toList) indent (enter op indent (.emphasis cs) s))
    rw [h]; exact ⟨_, rfl⟩
  | .delete cs, indent, s => by
    unfold node; dsimp only
    obtain ⟨s1, h⟩ := nodes_total hi hb cs indent (St.piece op (openTag ['s']) indent (enter op indent (.delete cs) s))
    rw [h]; exact ⟨_, rfl⟩
  | .heading d cs, indent, s => by
    unfold node; dsimp only
    obtain ⟨s1, h⟩ := nodes_total hi hb cs indent (St.piece op (openTag (depthName d)) indent (enter op indent (.heading d cs) s))
    rw [h]; exact ⟨_, rfl⟩
  | .hardBreak, indent, s => ⟨_, rfl⟩
  | .other x, indent, s => ⟨_, rfl⟩

theorem nodes_total {op : Opts} (hi : ∀ c, (op.inline c).isSome = true) (hb : ∀ c, (op.block c).isSome = true) :
    ∀ (cs : List Node) (indent : Chars) (s : St), ∃ s', nodes op indent cs s = some s'
  | [], _, s => ⟨s, rfl⟩
  | c :: cs, indent, s => by
    obtain ⟨s1, h1⟩ := node_total hi hb c indent s
    obtain ⟨s2, h2⟩ := nodes_total hi hb cs indent s1
    unfold nodes; rw [h1]; exact ⟨s2, h2⟩

theorem items_total {op : Opts} (hi : ∀ c, (op.inline c).isSome = true) (hb : ∀ c, (op.block c).isSome = true) :
    ∀ (cs : List Node) (indent : Chars) (s : St), ∃ s', items op indent cs s = some s'
  | [], _, s => ⟨s, rfl⟩
  | c :: cs, indent, s => by
    unfold items; dsimp only
    obtain ⟨s1, h1⟩ := node_total hi hb c (indent ++ [' ', ' '])
      ((s.ln (indent ++ [' ', ' '])).piece op (openTag ['l', 'i']) (indent ++ [' ', ' ']))
    rw [h1]
    exact items_total hi hb cs indent _

theorem itemChildren_total {op : Opts} (hi : ∀ c, (op.inline c).isSome = true) (hb : ∀ c, (op.block c).isSome = true) :
    ∀ (cs : List Node) (indent : Chars) (s : St), ∃ s', itemChildren op indent cs s = some s'
  | [], _, s => ⟨s, rfl⟩
  | c :: cs, indent, s => by
    cases c with
    | paragraph ps =>
      unfold itemChildren
      obtain ⟨s1, h1⟩ := nodes_total hi hb ps indent s
      rw [h1]
      exact itemChildren_total hi hb cs indent s1
    | _ =>
      unfold itemChildren
      obtain ⟨s1, h1⟩ := node_total hi hb _ indent s
      rw [h1]
      exact itemChildren_total hi hb cs indent s1

end

/-- C199: every tree is rendered, unless a template for code fails. -/
theorem html_rendered (op : Opts) (hi : ∀ c, (op.inline c).isSome = true) (hb : ∀ c, (op.block c).isSome = true) (n : Node) :
    ∃ out, render op n = some out := by
  obtain ⟨s, h⟩ := node_total hi hb n [] {}
  unfold render
  rw [h]
  exact ⟨_, rfl⟩

end Verif.Render.Html
