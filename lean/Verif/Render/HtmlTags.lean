import Verif.Render.HtmlProps
/-
The tags of comments rendered as HTML (C202).
-/
namespace Verif.Render.Html
open Verif.Util (Chars)
open Verif.Markdown (isWhite)

/-! ### Specification -/

/-- The name of a tag. -/
def TagName (n : Chars) : Prop := n ≠ [] ∧ ∀ c ∈ n, c ≠ '<' ∧ c ≠ '>' ∧ c ≠ ' ' ∧ c ≠ '/'

/-- There are no angle brackets. -/
def Unangled (t : Chars) : Prop := ∀ c ∈ t, c ≠ '<' ∧ c ≠ '>'

/-- Text and elements: every tag that is opened is closed, and they are nested. -/
inductive WellFormed : Chars → Prop
  | nil : WellFormed []
  | char (c : Char) (h : c ≠ '<' ∧ c ≠ '>') : WellFormed [c]
  | append {a b : Chars} (ha : WellFormed a) (hb : WellFormed b) : WellFormed (a ++ b)
  | elem (name attrs body : Chars) (hn : TagName name) (ha : attrs = [] ∨ ∃ a, attrs = ' ' :: a) (hu : Unangled attrs)
      (hb : WellFormed body) : WellFormed ("<".toList ++ name ++ attrs ++ ">".toList ++ body ++ "</".toList ++ name ++ ">".toList)

mutual

/-- The trees without characters that need to be escaped; HTML, and what the templates make of code, is well-formed. -/
def Plain (op : Opts) : Node → Prop
  | .root cs => Plains op cs
  | .text t => Unangled t
  | .paragraph cs => Plains op cs
  | .list _ _ is => Plains op is
  | .item cs => Plains op cs
  | .html t => WellFormed t
  | .inlineCode t => ∀ r, op.inline t = some r → WellFormed r
  | .code _ t => ∀ r, op.block t = some r → WellFormed r
  | .blockquote cs => Plains op cs
  | .link url cs => Unangled url ∧ Plains op cs
  | .strong cs => Plains op cs
  | .emphasis cs => Plains op cs
  | .delete cs => Plains op cs
  | .heading d cs => (1 ≤ d ∧ d ≤ 6) ∧ Plains op cs
  | .hardBreak => True
  | .other _ => True

def Plains (op : Opts) : List Node → Prop
  | [] => True
  | c :: cs => Plain op c ∧ Plains op cs

end

/-! ### C202 -/

theorem wf_text : ∀ {t : Chars}, Unangled t → WellFormed t
  | [], _ => .nil
  | c :: t, h => by
    have := WellFormed.append (.char c (h c (List.mem_cons_self ..))) (wf_text (t := t) fun x hx => h x (List.mem_cons_of_mem _ hx))
    exact this

theorem white_unangled {t : Chars} (h : ∀ c ∈ t, isWhite c = true) : Unangled t := fun c hc =>
  ⟨fun e => absurd (h c hc) (by rw [e]; decide), fun e => absurd (h c hc) (by rw [e]; decide)⟩

theorem wf_tagged {name body : Chars} (hn : TagName name) (hb : WellFormed body) : WellFormed (openTag name ++ body ++ closeTag name) := by
  have := WellFormed.elem name [] body hn (.inl rfl) (fun _ h => nomatch h) hb
  simp only [openTag, closeTag, List.append_assoc, List.cons_append, List.append_nil, List.nil_append] at this ⊢
  exact this

theorem wf_link {url body : Chars} (hu : Unangled url) (hb : WellFormed body) :
    WellFormed (linkTag url ++ body ++ closeTag ['a']) := by
  have := WellFormed.elem ['a'] (" href=\"".toList ++ url ++ "\"".toList) body ⟨by simp, by decide⟩ (.inr ⟨_, rfl⟩) (fun c hc => by
    rcases List.mem_append.1 hc with hc | hc
    · rcases List.mem_append.1 hc with hc | hc
      · exact (by decide : ∀ c ∈ " href=\"".toList, c ≠ '<' ∧ c ≠ '>') c hc
      · exact hu c hc
    · exact (by decide : ∀ c ∈ "\"".toList, c ≠ '<' ∧ c ≠ '>') c hc) hb
  have e : ∀ r : Chars, "<".toList ++ ['a'] ++ (" href=\"".toList ++ url ++ "\"".toList) ++ ">".toList ++ r = linkTag url ++ r := by
    intro r
    unfold linkTag
    rw [show "<a href=\"".toList = "<".toList ++ ['a'] ++ " href=\"".toList from by decide,
      show "\">".toList = "\"".toList ++ ">".toList from by decide]
    simp only [List.append_assoc]
  simp only [List.append_assoc] at this e
  rw [e] at this
  simp only [closeTag, List.append_assoc]
  exact this

/-- What is written is well-formed. -/
def Adds (s s' : St) : Prop := ∃ x, s'.o.text = s.o.text ++ x ∧ WellFormed x

theorem Adds.refl (s : St) : Adds s s := ⟨[], (List.append_nil _).symm, .nil⟩

theorem Adds.trans {a b c : St} (h : Adds a b) (h' : Adds b c) : Adds a c := by
  obtain ⟨x, h1, h2⟩ := h
  obtain ⟨y, h3, h4⟩ := h'
  exact ⟨x ++ y, by rw [h3, h1, List.append_assoc], h2.append h4⟩

/-- White space is put before a piece. -/
theorem unbroken_adds (cfg : WrapCfg) {indent : Chars} (hi : ∀ c ∈ indent, isWhite c = true) (t : Chars) (o : Out) :
    ∃ sep, (o.unbroken cfg t indent).text = o.text ++ (sep ++ t) ∧ WellFormed sep := by
  unfold Out.unbroken
  split
  · refine ⟨'\n' :: indent, rfl, wf_text (white_unangled fun c hc => ?_)⟩
    rcases List.mem_cons.1 hc with rfl | hc
    · exact nl_white
    · exact hi c hc
  · split
    · exact ⟨[' '], rfl, .char _ (by decide)⟩
    · exact ⟨[], rfl, .nil⟩

theorem piece_adds {op : Opts} {indent : Chars} (hi : ∀ c ∈ indent, isWhite c = true) (t : Chars) (s : St) :
    ∃ sep, (s.piece op t indent).o.text = s.o.text ++ (sep ++ t) ∧ WellFormed sep := unbroken_adds op.cfg hi t s.o

theorem ln_adds {indent : Chars} (hi : ∀ c ∈ indent, isWhite c = true) (s : St) : Adds s (s.ln indent) := by
  refine ⟨'\n' :: indent, rfl, wf_text (white_unangled fun c hc => ?_)⟩
  rcases List.mem_cons.1 hc with rfl | hc
  · exact nl_white
  · exact hi c hc

/-- A tag, what is between, and the end. -/
theorem between_adds {op : Opts} {indent : Chars} (hi : ∀ c ∈ indent, isWhite c = true) {opening closing : Chars}
    (hw : ∀ body, WellFormed body → WellFormed (opening ++ body ++ closing)) {s s' : St} (h : Adds (s.piece op opening indent) s') :
    Adds s (s'.piece op closing indent) := by
  obtain ⟨p, h1, h2⟩ := piece_adds (op := op) hi opening s
  obtain ⟨x, h3, h4⟩ := h
  obtain ⟨q, h5, h6⟩ := piece_adds (op := op) hi closing s'
  refine ⟨p ++ (opening ++ (x ++ q) ++ closing), ?_, h2.append (hw _ (h4.append h6))⟩
  rw [h5, h3, h1]
  simp only [List.append_assoc]

theorem word_chars (max : Nat) (indent : Chars) (first : Bool) (w : Chars) (o : Out) :
    ∃ x, (o.word max indent first w).text = o.text ++ x ∧ ∀ c ∈ x, c ∈ w ∨ c = ' ' ∨ c = '\n' ∨ c ∈ indent := by
  unfold Out.word
  split
  · refine ⟨_, rfl, fun c hc => ?_⟩
    rcases List.mem_cons.1 hc with rfl | hc
    · exact .inr (.inr (.inl rfl))
    · rcases List.mem_append.1 hc with hc | hc
      · exact .inr (.inr (.inr hc))
      · left
        split at hc
        · exact (List.dropWhile_sublist _).subset hc
        · exact hc
  · split
    · refine ⟨_, rfl, fun c hc => ?_⟩
      rcases List.mem_cons.1 hc with rfl | hc
      · exact .inr (.inl rfl)
      · exact .inl hc
    · exact ⟨_, rfl, fun c hc => .inl hc⟩

theorem wordsFrom_chars (max : Nat) (indent : Chars) : ∀ (ws : List Chars) (first : Bool) (o : Out),
    ∃ x, (Out.wordsFrom max indent first ws o).text = o.text ++ x ∧ ∀ c ∈ x, (∃ w ∈ ws, c ∈ w) ∨ c = ' ' ∨ c = '\n' ∨ c ∈ indent := by
  intro ws
  induction ws with
  | nil => intro first o; exact ⟨[], (List.append_nil _).symm, (fun _ h => nomatch h)⟩
  | cons w ws ih =>
    intro first o
    obtain ⟨x, h1, h2⟩ := word_chars max indent first w o
    obtain ⟨y, h3, h4⟩ := ih false (o.word max indent first w)
    refine ⟨x ++ y, ?_, fun c hc => ?_⟩
    · unfold Out.wordsFrom
      rw [h3, h1, List.append_assoc]
    · rcases List.mem_append.1 hc with hc | hc
      · rcases h2 c hc with h | h
        · exact .inl ⟨w, List.mem_cons_self .., h⟩
        · exact .inr h
      · rcases h4 c hc with ⟨w', h, h'⟩ | h
        · exact .inl ⟨w', List.mem_cons_of_mem _ h, h'⟩
        · exact .inr h

theorem words_chars (cfg : WrapCfg) (t indent : Chars) (o : Out) :
    ∃ x, (o.words cfg t indent).text = o.text ++ x ∧ ∀ c ∈ x, c ∈ t ∨ c = ' ' ∨ c = '\n' ∨ c ∈ indent := by
  unfold Out.words
  cases cfg.limit with
  | none => exact ⟨t, rfl, fun c hc => .inl hc⟩
  | some max =>
    obtain ⟨x, h1, h2⟩ := wordsFrom_chars max indent (findWords cfg.ignoreNewlines t) true o
    refine ⟨x, h1, fun c hc => ?_⟩
    rcases h2 c hc with ⟨w, hw, hcw⟩ | h
    · left
      unfold findWords at hw
      obtain ⟨y, hy, rfl⟩ := List.mem_map.1 hw
      obtain ⟨d, hd, _⟩ := wordOf_split cfg.ignoreNewlines y
      have hcy : c ∈ y := by rw [hd]; exact List.mem_append_left _ hcw
      have key : ∀ (p : Char → Bool) (l : Chars) (iw : Bool) (acc : Chars), ∀ y ∈ chunksFrom p l iw acc, ∀ c ∈ y, c ∈ acc ∨ c ∈ l := by
        intro p l
        induction l with
        | nil =>
          intro iw acc y hy c hc
          unfold chunksFrom at hy
          split at hy
          · cases hy
          · rw [List.mem_singleton.1 hy] at hc; exact .inl hc
        | cons d l ih =>
          intro iw acc y hy c hc
          unfold chunksFrom at hy
          split at hy
          · rcases List.mem_cons.1 hy with rfl | hy
            · exact .inl hc
            · rcases ih _ _ y hy c hc with h | h
              · rw [List.mem_singleton.1 h]; exact .inr (List.mem_cons_self ..)
              · exact .inr (List.mem_cons_of_mem _ h)
          · rcases ih _ _ y hy c hc with h | h
            · rcases List.mem_append.1 h with h | h
              · exact .inl h
              · rw [List.mem_singleton.1 h]; exact .inr (List.mem_cons_self ..)
            · exact .inr (List.mem_cons_of_mem _ h)
      rcases key _ t false [] y hy c hcy with h | h
      · cases h
      · exact h
    · exact .inr h

theorem words_adds {op : Opts} {indent : Chars} (hi : ∀ c ∈ indent, isWhite c = true) {t : Chars} (ht : Unangled t) (s : St) :
    Adds s { s with o := s.o.words op.cfg t indent } := by
  obtain ⟨x, h1, h2⟩ := words_chars op.cfg t indent s.o
  refine ⟨x, h1, wf_text fun c hc => ?_⟩
  rcases h2 c hc with h | rfl | rfl | h
  · exact ht c h
  · decide
  · decide
  · exact white_unangled hi c h

/-- The state between two nodes in the new style. -/
theorem enter_adds {op : Opts} {indent : Chars} (hi : ∀ c ∈ indent, isWhite c = true) (n : Node) {s : St} (hp : s.oldP = false) :
    Adds s (enter op indent n s) ∧ (enter op indent n s).oldP = false := by
  unfold Html.enter
  dsimp only
  have h1 : Adds s (if s.newline = true then { St.ln indent s with newline := false } else s) ∧
      (if s.newline = true then { St.ln indent s with newline := false } else s).oldP = false := by
    split
    · obtain ⟨x, h1, h2⟩ := ln_adds hi s
      exact ⟨⟨x, h1, h2⟩, hp⟩
    · exact ⟨Adds.refl s, hp⟩
  rw [h1.2, if_neg (Bool.noConfusion : ¬ false = true)]
  exact h1

theorem names : TagName ['p'] ∧ TagName ['o', 'l'] ∧ TagName ['u', 'l'] ∧ TagName ['l', 'i'] ∧ TagName "blockquote".toList ∧
    TagName "strong".toList ∧ TagName "em".toList ∧ TagName ['s'] := by
  refine ⟨⟨by simp, by decide⟩, ⟨by simp, by decide⟩, ⟨by simp, by decide⟩, ⟨by simp, by decide⟩, ⟨by simp, by decide⟩,
    ⟨by simp, by decide⟩, ⟨by simp, by decide⟩, ⟨by simp, by decide⟩⟩

theorem name_heading {d : Nat} (h : 1 ≤ d ∧ d ≤ 6) : TagName (depthName d) := by
  obtain ⟨h1, h2⟩ := h
  have : d = 1 ∨ d = 2 ∨ d = 3 ∨ d = 4 ∨ d = 5 ∨ d = 6 := by omega
  rcases this with rfl | rfl | rfl | rfl | rfl | rfl <;> exact ⟨List.cons_ne_nil _ _, by decide⟩

theorem wf_heading {d : Nat} (h : 1 ≤ d ∧ d ≤ 6) {body : Chars} (hb : WellFormed body) :
    WellFormed (openTag (depthName d) ++ body ++ (closeTag (depthName d) ++ ['\n'])) := by
  have := (wf_tagged (name_heading h) hb).append (.char '\n' (by decide))
  rw [List.append_assoc] at this
  exact this

mutual

theorem node_adds {op : Opts} (ho : op.oldStyle = false) (hli : op.omitLi = false) : ∀ (n : Node) (indent : Chars) (s s' : St),
    (∀ c ∈ indent, isWhite c = true) → Plain op n → s.oldP = false → node op indent n s = some s' → Adds s s' ∧ s'.oldP = false
  | .root cs, indent, s, s', hi, hn, hp, hs => by
    unfold node at hs
    obtain ⟨h1, h2⟩ := enter_adds (op := op) hi (.root cs) hp
    obtain ⟨h3, h4⟩ := nodes_adds ho hli cs indent _ s' hi hn h2 hs
    exact ⟨h1.trans h3, h4⟩
  | .text x, indent, s, s', hi, hn, hp, hs => by
    unfold node at hs
    injection hs with hs; subst hs
    obtain ⟨h1, h2⟩ := enter_adds (op := op) hi (.text x) hp
    exact ⟨h1.trans (words_adds hi hn _), h2⟩
  | .paragraph cs, indent, s, s', hi, hn, hp, hs => by
    unfold node at hs
    dsimp only at hs
    obtain ⟨h1, h2⟩ := enter_adds (op := op) hi (.paragraph cs) hp
    generalize enter op indent (.paragraph cs) s = s1 at h1 h2 hs
    rw [ho, if_neg (Bool.noConfusion : ¬ false = true)] at hs
    split at hs
    · cases hs
    · rename_i s2 e2
      rw [if_neg (Bool.noConfusion : ¬ false = true)] at hs
      injection hs with hs; subst hs
      obtain ⟨h3, h4⟩ := nodes_adds ho hli cs indent _ s2 hi hn (by exact h2) e2
      have h5 : Adds s1 (s2.piece op (closeTag ['p']) indent) := between_adds hi (fun _ hb => wf_tagged names.1 hb) h3
      exact ⟨h1.trans h5, h4⟩
  | .list o st is, indent, s, s', hi, hn, hp, hs => by
    unfold node at hs
    dsimp only at hs
    obtain ⟨h1, h2⟩ := enter_adds (op := op) hi (.list o st is) hp
    generalize enter op indent (.list o st is) s = s1 at h1 h2 hs
    have ht : TagName (if o = true then ['o', 'l'] else ['u', 'l']) := by
      cases o with
      | true => exact names.2.1
      | false => exact names.2.2.1
    generalize (if o = true then ['o', 'l'] else ['u', 'l']) = tag at ht hs
    split at hs
    · cases hs
    · rename_i s2 e2
      injection hs with hs; subst hs
      obtain ⟨h3, h4⟩ := items_adds ho hli is indent _ s2 hi hn (by exact h2) e2
      have h5 : Adds s1 ((s2.ln indent).piece op (closeTag tag) indent) :=
        between_adds hi (fun _ hb => wf_tagged ht hb) (h3.trans (ln_adds hi s2))
      refine ⟨h1.trans h5, ?_⟩
      change (op.oldStyle || s2.oldP) = false
      rw [ho, h4]; rfl
  | .item cs, indent, s, s', hi, hn, hp, hs => by
    unfold node at hs
    obtain ⟨h1, h2⟩ := enter_adds (op := op) hi (.item cs) hp
    obtain ⟨h3, h4⟩ := itemChildren_adds ho hli cs indent _ s' hi hn h2 hs
    exact ⟨h1.trans h3, h4⟩
  | .html x, indent, s, s', hi, hn, hp, hs => by
    unfold node at hs
    injection hs with hs; subst hs
    obtain ⟨h1, h2⟩ := enter_adds (op := op) hi (.html x) hp
    exact ⟨h1.trans ⟨x, rfl, hn⟩, h2⟩
  | .inlineCode x, indent, s, s', hi, hn, hp, hs => by
    unfold node at hs
    obtain ⟨r, e1, e2⟩ := Option.map_eq_some_iff.1 hs
    subst e2
    obtain ⟨h1, h2⟩ := enter_adds (op := op) hi (.inlineCode x) hp
    obtain ⟨p, h3, h4⟩ := piece_adds (op := op) hi r (enter op indent (.inlineCode x) s)
    exact ⟨h1.trans ⟨p ++ r, h3, h4.append (hn r e1)⟩, h2⟩
  | .code l x, indent, s, s', hi, hn, hp, hs => by
    unfold node at hs
    obtain ⟨r, e1, e2⟩ := Option.map_eq_some_iff.1 hs
    subst e2
    obtain ⟨h1, h2⟩ := enter_adds (op := op) hi (.code l x) hp
    obtain ⟨p, h3, h4⟩ := piece_adds (op := op) hi r (enter op indent (.code l x) s)
    exact ⟨h1.trans ⟨p ++ r, h3, h4.append (hn r e1)⟩, h2⟩
  | .blockquote cs, indent, s, s', hi, hn, hp, hs => by
    unfold node at hs
    dsimp only at hs
    obtain ⟨h1, h2⟩ := enter_adds (op := op) hi (.blockquote cs) hp
    generalize enter op indent (.blockquote cs) s = s1 at h1 h2 hs
    split at hs
    · cases hs
    · rename_i s2 e2
      injection hs with hs; subst hs
      obtain ⟨h3, h4⟩ := nodes_adds ho hli cs indent _ s2 hi hn (by exact h2) e2
      have h5 : Adds s1 (s2.piece op (closeTag "blockquote".toList) indent) :=
        between_adds hi (fun _ hb => wf_tagged names.2.2.2.2.1 hb) ((ln_adds hi _).trans h3)
      exact ⟨h1.trans h5, h4⟩
  | .link url cs, indent, s, s', hi, hn, hp, hs => by
    unfold node at hs
    dsimp only at hs
    obtain ⟨h1, h2⟩ := enter_adds (op := op) hi (.link url cs) hp
    generalize enter op indent (.link url cs) s = s1 at h1 h2 hs
    unfold Plain at hn
    split at hs
    · cases hs
    · rename_i s2 e2
      injection hs with hs; subst hs
      obtain ⟨h3, h4⟩ := nodes_adds ho hli cs indent _ s2 hi hn.2 (by exact h2) e2
      exact ⟨h1.trans (between_adds hi (opening := linkTag url) (fun _ hb => wf_link hn.1 hb) h3), h4⟩
  | .strong cs, indent, s, s', hi, hn, hp, hs => by
    unfold node at hs
    dsimp only at hs
    obtain ⟨h1, h2⟩ := enter_adds (op := op) hi (.strong cs) hp
    generalize enter op indent (.strong cs) s = s1 at h1 h2 hs
    split at hs
    · cases hs
    · rename_i s2 e2
      injection hs with hs; subst hs
      obtain ⟨h3, h4⟩ := nodes_adds ho hli cs indent _ s2 hi hn (by exact h2) e2
      exact ⟨h1.trans (between_adds hi (fun _ hb => wf_tagged names.2.2.2.2.2.1 hb) h3), h4⟩
  | .emphasis cs, indent, s, s', hi, hn, hp, hs => by
    unfold node at hs
    dsimp only at hs
    obtain ⟨h1, h2⟩ := enter_adds (op := op) hi (.emphasis cs) hp
    generalize enter op indent (.emphasis cs) s = s1 at h1 h2 hs
    split at hs
    · cases hs
    · rename_i s2 e2
      injection hs with hs; subst hs
      obtain ⟨h3, h4⟩ := nodes_adds ho hli cs indent _ s2 hi hn (by exact h2) e2
      exact ⟨h1.trans (between_adds hi (fun _ hb => wf_tagged names.2.2.2.2.2.2.1 hb) h3), h4⟩
  | .delete cs, indent, s, s', hi, hn, hp, hs => by
    unfold node at hs
    dsimp only at hs
    obtain ⟨h1, h2⟩ := enter_adds (op := op) hi (.delete cs) hp
    generalize enter op indent (.delete cs) s = s1 at h1 h2 hs
    split at hs
    · cases hs
    · rename_i s2 e2
      injection hs with hs; subst hs
      obtain ⟨h3, h4⟩ := nodes_adds ho hli cs indent _ s2 hi hn (by exact h2) e2
      exact ⟨h1.trans (between_adds hi (fun _ hb => wf_tagged names.2.2.2.2.2.2.2 hb) h3), h4⟩
  | .heading d cs, indent, s, s', hi, hn, hp, hs => by
    unfold node at hs
    dsimp only at hs
    obtain ⟨h1, h2⟩ := enter_adds (op := op) hi (.heading d cs) hp
    generalize enter op indent (.heading d cs) s = s1 at h1 h2 hs
    unfold Plain at hn
    split at hs
    · cases hs
    · rename_i s2 e2
      injection hs with hs; subst hs
      obtain ⟨h3, h4⟩ := nodes_adds ho hli cs indent _ s2 hi hn.2 (by exact h2) e2
      exact ⟨h1.trans (between_adds hi (fun _ hb => wf_heading hn.1 hb) h3), h4⟩
  | .hardBreak, indent, s, s', hi, hn, hp, hs => by
    unfold node at hs
    injection hs with hs; subst hs
    exact enter_adds hi _ hp
  | .other x, indent, s, s', hi, hn, hp, hs => by
    unfold node at hs
    injection hs with hs; subst hs
    exact enter_adds hi _ hp

theorem nodes_adds {op : Opts} (ho : op.oldStyle = false) (hli : op.omitLi = false) : ∀ (cs : List Node) (indent : Chars) (s s' : St),
    (∀ c ∈ indent, isWhite c = true) → Plains op cs → s.oldP = false → nodes op indent cs s = some s' → Adds s s' ∧ s'.oldP = false
  | [], indent, s, s', hi, hn, hp, hs => by
    unfold nodes at hs
    injection hs with hs; subst hs
    exact ⟨Adds.refl s, hp⟩
  | c :: cs, indent, s, s', hi, hn, hp, hs => by
    unfold nodes at hs
    split at hs
    · cases hs
    · rename_i s1 e1
      obtain ⟨h1, h2⟩ := node_adds ho hli c indent s s1 hi hn.1 hp e1
      obtain ⟨h3, h4⟩ := nodes_adds ho hli cs indent s1 s' hi hn.2 h2 hs
      exact ⟨h1.trans h3, h4⟩

theorem items_adds {op : Opts} (ho : op.oldStyle = false) (hli : op.omitLi = false) : ∀ (cs : List Node) (indent : Chars) (s s' : St),
    (∀ c ∈ indent, isWhite c = true) → Plains op cs → s.oldP = false → items op indent cs s = some s' → Adds s s' ∧ s'.oldP = false
  | [], indent, s, s', hi, hn, hp, hs => by
    unfold items at hs
    injection hs with hs; subst hs
    exact ⟨Adds.refl s, hp⟩
  | c :: cs, indent, s, s', hi, hn, hp, hs => by
    unfold items at hs
    dsimp only at hs
    have hi2 : ∀ c ∈ indent ++ [' ', ' '], isWhite c = true := fun x hx => by
      rcases List.mem_append.1 hx with hx | hx
      · exact hi x hx
      · exact (by decide : ∀ c ∈ [' ', ' '], isWhite c = true) x hx
    split at hs
    · cases hs
    · rename_i s1 e1
      obtain ⟨h1, h2⟩ := node_adds ho hli c (indent ++ [' ', ' ']) _ s1 hi2 hn.1 (by exact hp) e1
      rw [hli, if_neg (Bool.noConfusion : ¬ false = true)] at hs
      obtain ⟨h3, h4⟩ := items_adds ho hli cs indent _ s' hi hn.2 (by exact h2) hs
      have h5 : Adds s (s1.piece op (closeTag ['l', 'i']) indent) := by
        obtain ⟨a, k1, k2⟩ := ln_adds hi2 s
        obtain ⟨p, k3, k4⟩ := piece_adds (op := op) hi2 (openTag ['l', 'i']) (s.ln (indent ++ [' ', ' ']))
        obtain ⟨x, k5, k6⟩ := h1
        obtain ⟨q, k7, k8⟩ := piece_adds (op := op) hi (closeTag ['l', 'i']) s1
        refine ⟨a ++ (p ++ (openTag ['l', 'i'] ++ (x ++ q) ++ closeTag ['l', 'i'])), ?_,
          k2.append (k4.append (wf_tagged names.2.2.2.1 (k6.append k8)))⟩
        rw [k7, k5, k3, k1]
        simp only [List.append_assoc]
      exact ⟨h5.trans h3, h4⟩

theorem itemChildren_adds {op : Opts} (ho : op.oldStyle = false) (hli : op.omitLi = false) : ∀ (cs : List Node) (indent : Chars)
    (s s' : St), (∀ c ∈ indent, isWhite c = true) → Plains op cs → s.oldP = false → itemChildren op indent cs s = some s' →
    Adds s s' ∧ s'.oldP = false
  | [], indent, s, s', hi, hn, hp, hs => by
    unfold itemChildren at hs
    injection hs with hs; subst hs
    exact ⟨Adds.refl s, hp⟩
  | c :: cs, indent, s, s', hi, hn, hp, hs => by
    cases c with
    | paragraph ps =>
      unfold itemChildren at hs
      split at hs
      · cases hs
      · rename_i s1 e1
        obtain ⟨h1, h2⟩ := nodes_adds ho hli ps indent s s1 hi hn.1 hp e1
        obtain ⟨h3, h4⟩ := itemChildren_adds ho hli cs indent s1 s' hi hn.2 h2 hs
        exact ⟨h1.trans h3, h4⟩
    | _ =>
      unfold itemChildren at hs
      split at hs
      · cases hs
      · rename_i s1 e1
        obtain ⟨h1, h2⟩ := node_adds ho hli _ indent s s1 hi hn.1 hp e1
        obtain ⟨h3, h4⟩ := itemChildren_adds ho hli cs indent s1 s' hi hn.2 h2 hs
        exact ⟨h1.trans h3, h4⟩

end

/-- C202: the HTML of a comment is well-formed, if its texts and links have no angle brackets, and its HTML and its code, as
rendered by the templates, is. Missing: texts with angle brackets (see `tags_refuted`), the old style and lists without the
tags that end items, where tags are left open on purpose. -/
theorem tags_partial (op : Opts) (ho : op.oldStyle = false) (hli : op.omitLi = false) (n : Node) (out : Chars) (hn : Plain op n)
    (h : render op n = some out) : WellFormed out := by
  unfold render at h
  obtain ⟨s, h1, rfl⟩ := Option.map_eq_some_iff.1 h
  obtain ⟨⟨x, h2, h3⟩, _⟩ := node_adds ho hli n [] {} s (fun _ h => nomatch h) hn rfl h1
  rw [h2]
  exact h3

/-- The opening brackets of a well-formed text are even in number. -/
theorem wf_even {t : Chars} (h : WellFormed t) : t.count '<' % 2 = 0 := by
  have hz : ∀ {x : Chars}, (∀ c ∈ x, c ≠ '<') → x.count '<' = 0 := fun h => List.count_eq_zero.2 fun hm => h _ hm rfl
  induction h with
  | nil => rfl
  | char c h => rw [hz (fun x hx => by rw [List.mem_singleton.1 hx]; exact h.1)]
  | append _ _ ih1 ih2 => rw [List.count_append]; omega
  | elem name attrs body hn ha hu _ ih =>
    simp only [List.count_append]
    rw [hz (x := name) (fun c hc => (hn.2 c hc).1), hz (x := attrs) (fun c hc => (hu c hc).1),
      show "<".toList.count '<' = 1 from by decide, show ">".toList.count '<' = 0 from by decide,
      show "</".toList.count '<' = 1 from by decide]
    omega

/-- C202, the claim for all trees without HTML, and with templates that make well-formed HTML. -/
def Tags : Prop :=
  ∀ (op : Opts) (t out : Chars), op.oldStyle = false → op.omitLi = false → render op (para [.text t]) = some out → WellFormed out

/-- C202: false: angle brackets of a text are not escaped. -/
theorem tags_refuted : ¬ Tags := by
  intro h
  exact absurd (wf_even (h {} "if a < b".toList "<p>if a < b</p>".toList rfl rfl (by decide))) (by decide)

example : Plain {} sampleTree := by
  have hx : WellFormed ("<c>".toList ++ "x".toList ++ "</c>".toList) :=
    wf_tagged (name := ['c']) (body := ['x']) ⟨by simp, by decide⟩ (.char _ (by decide))
  simp only [sampleTree, Plain, Plains, and_true]
  refine ⟨⟨by decide, by unfold Unangled; decide⟩, ⟨by unfold Unangled; decide, by unfold Unangled; decide, by unfold Unangled; decide⟩,
    by unfold Unangled; decide, fun r hr => ?_⟩
  injection hr with hr; subst hr
  exact hx

end Verif.Render.Html
