import Verif.Render.HtmlLayout
/-
Newlines in comments are ignored, if that is configured (C203).
-/
namespace Verif.Render.Html
open Verif.Util (Chars)
open Verif.Markdown (isWhite)
open Verif.Forge (trimEnd)

/-! ### Specification -/

/-- Newlines as spaces. -/
def flat (c : Char) : Char := if c = '\n' then ' ' else c

mutual

/-- The tree with spaces for the newlines in its texts. -/
def flatten : Node → Node
  | .root cs => .root (flattens cs)
  | .text t => .text (t.map flat)
  | .paragraph cs => .paragraph (flattens cs)
  | .list o st is => .list o st (flattens is)
  | .item cs => .item (flattens cs)
  | .html t => .html t
  | .inlineCode t => .inlineCode t
  | .code l t => .code l t
  | .blockquote cs => .blockquote (flattens cs)
  | .link url cs => .link url (flattens cs)
  | .strong cs => .strong (flattens cs)
  | .emphasis cs => .emphasis (flattens cs)
  | .delete cs => .delete (flattens cs)
  | .heading d cs => .heading d (flattens cs)
  | .hardBreak => .hardBreak
  | .other t => .other t

def flattens : List Node → List Node
  | [] => []
  | c :: cs => flatten c :: flattens cs

end

/-! ### Texts -/

theorem isBreak_flat (c : Char) : isBreak true (flat c) = isBreak true c := by
  unfold flat
  split
  · rename_i h; subst h; decide
  · rfl

theorem chunks_flat : ∀ (l : Chars) (iw : Bool) (acc : Chars),
    chunksFrom (isBreak true) (l.map flat) iw (acc.map flat) = (chunksFrom (isBreak true) l iw acc).map (List.map flat) := by
  intro l
  induction l with
  | nil =>
    intro iw acc
    unfold chunksFrom
    cases acc <;> rfl
  | cons c l ih =>
    intro iw acc
    rw [List.map_cons]
    unfold chunksFrom
    rw [isBreak_flat]
    split
    · rw [List.map_cons, ← ih _ [c]]; rfl
    · rw [← ih _ (acc ++ [c]), List.map_append]; rfl

theorem trimEnd_white (a d : Chars) (h : ∀ c ∈ d, isWhite c = true) : trimEnd (a ++ d) = trimEnd a := by
  unfold trimEnd
  rw [List.reverse_append, dropWhile_all _ _ (fun c hc => h c (List.mem_reverse.1 hc))]

theorem findWords_flat (t : Chars) : findWords true (t.map flat) = findWords true t := by
  unfold findWords
  rw [show chunksFrom (isBreak true) (t.map flat) false [] = _ from chunks_flat t false [], List.map_map]
  refine List.map_congr_left fun x hx => ?_
  obtain ⟨_, a, d, rfl, h2, h3⟩ := chunk_shape (isBreak true) t false [] ⟨[], [], rfl, (fun _ h => nomatch h), (fun _ h => nomatch h),
    fun _ => rfl⟩ x hx
  have ha : a.map flat = a := by
    conv => rhs; rw [← List.map_id a]
    refine List.map_congr_left fun c hc => ?_
    unfold flat
    rw [if_neg]
    · rfl
    · rintro rfl
      exact absurd (h2 _ hc) (by decide)
  have hd : ∀ c ∈ d.map flat, isWhite c = true := fun c hc => by
    obtain ⟨e, he, rfl⟩ := List.mem_map.1 hc
    exact isBreak_white (by rw [isBreak_flat]; exact h3 e he)
  change wordOf true ((a ++ d).map flat) = wordOf true (a ++ d)
  unfold wordOf
  rw [if_pos rfl, if_pos rfl, List.map_append, ha, trimEnd_white a _ hd, trimEnd_white a d (fun c hc => isBreak_white (h3 c hc))]

theorem words_flat {cfg : WrapCfg} (hi : cfg.ignoreNewlines = true) (hl : cfg.limit.isSome = true) (t indent : Chars) (o : Out) :
    o.words cfg (t.map flat) indent = o.words cfg t indent := by
  unfold Out.words
  obtain ⟨max, h⟩ := Option.isSome_iff_exists.1 hl
  rw [h, hi]
  dsimp only
  rw [findWords_flat, List.getLast?_map]
  cases t.getLast? with
  | none => rfl
  | some c =>
    congr 1
    by_cases hc : c = '\n'
    · subst hc; decide
    · have : flat c = c := by unfold flat; rw [if_neg hc]
      rw [Option.map_some, this]

/-! ### Trees -/

theorem flattens_at (cs : List Node) : startsWithAt (flattens cs) = startsWithAt cs := by
  cases cs with
  | nil => rfl
  | cons c cs =>
    cases c with
    | text t =>
      cases t with
      | nil => rfl
      | cons x t =>
        by_cases hx : x = '@'
        · subst hx
          simp only [flattens, flatten, List.map_cons]
          rw [show flat '@' = '@' from by decide]
          rfl
        · have h1 : startsWithAt (.text (x :: t) :: cs) = false := by
            unfold startsWithAt
            split
            · rename_i h; injection h with h _; injection h with h; injection h with h _; exact absurd h hx
            · rfl
          rw [h1]
          simp only [flattens, flatten, List.map_cons]
          unfold startsWithAt
          split
          · rename_i h
            injection h with h _; injection h with h; injection h with h _
            unfold flat at h
            split at h
            · cases h
            · exact absurd h hx
          · rfl
    | _ => rfl

theorem enter_flat (op : Opts) (indent : Chars) (n : Node) (s : St) : enter op indent (flatten n) s = enter op indent n s := by
  cases n with
  | paragraph cs =>
    unfold flatten Html.enter
    dsimp only
    rw [flattens_at]
  | _ => rfl

mutual

theorem node_flat {op : Opts} (hi : op.cfg.ignoreNewlines = true) (hl : op.cfg.limit.isSome = true) : ∀ (n : Node) (indent : Chars)
    (s : St), node op indent (flatten n) s = node op indent n s
  | .root cs, indent, s => by
    have e := enter_flat op indent (.root cs) s
    unfold flatten at e ⊢
    unfold node
    rw [e, nodes_flat hi hl cs]
  | .text x, indent, s => by
    have e := enter_flat op indent (.text x) s
    unfold flatten at e ⊢
    unfold node
    dsimp only
    rw [e, words_flat hi hl]
  | .paragraph cs, indent, s => by
    have e := enter_flat op indent (.paragraph cs) s
    unfold flatten at e ⊢
    unfold node
    dsimp only
    rw [e, nodes_flat hi hl cs]
  | .list o st is, indent, s => by
    have e := enter_flat op indent (.list o st is) s
    unfold flatten at e ⊢
    unfold node
    dsimp only
    rw [e, items_flat hi hl is]
  | .item cs, indent, s => by
    have e := enter_flat op indent (.item cs) s
    unfold flatten at e ⊢
    unfold node
    rw [e, itemChildren_flat hi hl cs]
  | .html x, indent, s => rfl
  | .inlineCode x, indent, s => rfl
  | .code l x, indent, s => rfl
  | .blockquote cs, indent, s => by
    have e := enter_flat op indent (.blockquote cs) s
    unfold flatten at e ⊢
    unfold node
    dsimp only
    rw [e, nodes_flat hi hl cs]
  | .link url cs, indent, s => by
    have e := enter_flat op indent (.link url cs) s
    unfold flatten at e ⊢
    unfold node
    dsimp only
    rw [e, nodes_flat hi hl cs]
  | .strong cs, indent, s => by
    have e := enter_flat op indent (.strong cs) s
    unfold flatten at e ⊢
    unfold node
    dsimp only
    rw [e, nodes_flat hi hl cs]
  | .emphasis cs, indent, s => by
    have e := enter_flat op indent (.emphasis cs) s
    unfold flatten at e ⊢
    unfold node
    dsimp only
    rw [e, nodes_flat hi hl cs]
  | .delete cs, indent, s => by
    have e := enter_flat op indent (.delete cs) s
    unfold flatten at e ⊢
    unfold node
    dsimp only
    rw [e, nodes_flat hi hl cs]
  | .heading d cs, indent, s => by
    have e := enter_flat op indent (.heading d cs) s
    unfold flatten at e ⊢
    unfold node
    dsimp only
    rw [e, nodes_flat hi hl cs]
  | .hardBreak, indent, s => rfl
  | .other x, indent, s => rfl

theorem nodes_flat {op : Opts} (hi : op.cfg.ignoreNewlines = true) (hl : op.cfg.limit.isSome = true) : ∀ (cs : List Node)
    (indent : Chars) (s : St), nodes op indent (flattens cs) s = nodes op indent cs s
  | [], _, _ => rfl
  | c :: cs, indent, s => by
    unfold flattens nodes
    rw [node_flat hi hl c]
    cases node op indent c s with
    | none => rfl
    | some s1 => exact nodes_flat hi hl cs indent s1

theorem items_flat {op : Opts} (hi : op.cfg.ignoreNewlines = true) (hl : op.cfg.limit.isSome = true) : ∀ (cs : List Node)
    (indent : Chars) (s : St), items op indent (flattens cs) s = items op indent cs s
  | [], _, _ => rfl
  | c :: cs, indent, s => by
    unfold flattens items
    dsimp only
    rw [node_flat hi hl c]
    cases node op (indent ++ [' ', ' ']) c (St.piece op (openTag ['l', 'i']) (indent ++ [' ', ' ']) (St.ln (indent ++ [' ', ' ']) s)) with
    | none => rfl
    | some s1 => exact items_flat hi hl cs indent _

theorem itemChildren_flat {op : Opts} (hi : op.cfg.ignoreNewlines = true) (hl : op.cfg.limit.isSome = true) : ∀ (cs : List Node)
    (indent : Chars) (s : St), itemChildren op indent (flattens cs) s = itemChildren op indent cs s
  | [], _, _ => rfl
  | c :: cs, indent, s => by
    cases c with
    | paragraph ps =>
      unfold flattens flatten itemChildren
      rw [nodes_flat hi hl ps]
      cases nodes op indent ps s with
      | none => rfl
      | some s1 => exact itemChildren_flat hi hl cs indent s1
    | text x =>
      have := node_flat hi hl (.text x) indent s
      unfold flattens
      unfold flatten at this ⊢
      unfold itemChildren
      rw [this]
      cases node op indent (.text x) s with
      | none => rfl
      | some s1 => exact itemChildren_flat hi hl cs indent s1
    | root x =>
      have := node_flat hi hl (.root x) indent s
      unfold flattens
      unfold flatten at this ⊢
      unfold itemChildren
      rw [this]
      cases node op indent (.root x) s with
      | none => rfl
      | some s1 => exact itemChildren_flat hi hl cs indent s1
    | list o st x =>
      have := node_flat hi hl (.list o st x) indent s
      unfold flattens
      unfold flatten at this ⊢
      unfold itemChildren
      rw [this]
      cases node op indent (.list o st x) s with
      | none => rfl
      | some s1 => exact itemChildren_flat hi hl cs indent s1
    | item x =>
      have := node_flat hi hl (.item x) indent s
      unfold flattens
      unfold flatten at this ⊢
      unfold itemChildren
      rw [this]
      cases node op indent (.item x) s with
      | none => rfl
      | some s1 => exact itemChildren_flat hi hl cs indent s1
    | blockquote x =>
      have := node_flat hi hl (.blockquote x) indent s
      unfold flattens
      unfold flatten at this ⊢
      unfold itemChildren
      rw [this]
      cases node op indent (.blockquote x) s with
      | none => rfl
      | some s1 => exact itemChildren_flat hi hl cs indent s1
    | link u x =>
      have := node_flat hi hl (.link u x) indent s
      unfold flattens
      unfold flatten at this ⊢
      unfold itemChildren
      rw [this]
      cases node op indent (.link u x) s with
      | none => rfl
      | some s1 => exact itemChildren_flat hi hl cs indent s1
    | strong x =>
      have := node_flat hi hl (.strong x) indent s
      unfold flattens
      unfold flatten at this ⊢
      unfold itemChildren
      rw [this]
      cases node op indent (.strong x) s with
      | none => rfl
      | some s1 => exact itemChildren_flat hi hl cs indent s1
    | emphasis x =>
      have := node_flat hi hl (.emphasis x) indent s
      unfold flattens
      unfold flatten at this ⊢
      unfold itemChildren
      rw [this]
      cases node op indent (.emphasis x) s with
      | none => rfl
      | some s1 => exact itemChildren_flat hi hl cs indent s1
    | delete x =>
      have := node_flat hi hl (.delete x) indent s
      unfold flattens
      unfold flatten at this ⊢
      unfold itemChildren
      rw [this]
      cases node op indent (.delete x) s with
      | none => rfl
      | some s1 => exact itemChildren_flat hi hl cs indent s1
    | heading d x =>
      have := node_flat hi hl (.heading d x) indent s
      unfold flattens
      unfold flatten at this ⊢
      unfold itemChildren
      rw [this]
      cases node op indent (.heading d x) s with
      | none => rfl
      | some s1 => exact itemChildren_flat hi hl cs indent s1
    | html x | inlineCode x | code l x | hardBreak | other x =>
      unfold flattens flatten itemChildren
      split
      · rfl
      · rename_i s1 _
        exact itemChildren_flat hi hl cs indent s1

end

/-- C203: if newlines are ignored and there is a line length, the newlines in a comment make no difference: it is rendered as
with spaces in their place. -/
theorem newlines_ignored (op : Opts) (hi : op.cfg.ignoreNewlines = true) (hl : op.cfg.limit.isSome = true) (n : Node) :
    render op n = render op (flatten n) := by
  unfold render
  rw [node_flat hi hl]

example : render { cfg := { limit := some 80, ignoreNewlines := true } } (para [.text "one\ntwo\n".toList, .strong [.text "three".toList]]) =
    some "<p>one two <strong>three</strong></p>".toList := by decide
example : flatten (.text "one\ntwo".toList) = .text "one two".toList := rfl

/-- C203: the newlines of a text are kept otherwise. -/
example : render { cfg := { limit := some 80 } } (para [.text "one\ntwo".toList]) = some "<p>one\ntwo</p>".toList := by decide

end Verif.Render.Html
