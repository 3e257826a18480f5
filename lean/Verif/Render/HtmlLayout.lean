import Verif.Render.HtmlProps
/-
The lines of comments rendered as HTML (C201) and their tags (C202).
-/
namespace Verif.Render.Html
open Verif.Util (Chars)
open Verif.Markdown (isWhite)

/-! ### Specification: lines -/

/-- No line of the text is longer than `b`. -/
def LinesWithin (b : Nat) (out : Chars) : Prop := ∀ l : Chars, l <:+: out → '\n' ∉ l → len l ≤ b

/-- A tag fits behind `k` characters of indentation. -/
def TagFits (b k : Nat) (name : Chars) : Prop := k + len (closeTag name) ≤ b

mutual

/-- What cannot be split fits into `b` characters with its indentation `k`: tags, code, and the words of texts. HTML is not
wrapped at all and is left out. -/
def Fit (op : Opts) (b : Nat) : Nat → Node → Prop
  | k, .root cs => Fits op b k cs
  | k, .text t => ∀ w : Chars, w <:+: t → (∀ c ∈ w, isBreak op.cfg.ignoreNewlines c = false) → k + len w ≤ b
  | k, .paragraph cs => TagFits b k ['p'] ∧ Fits op b k cs
  | k, .list _ _ is => TagFits b k ['o', 'l'] ∧ TagFits b (k + 2) ['l', 'i'] ∧ Fits op b (k + 2) is
  | k, .item cs => Fits op b k cs
  | _, .html _ => False
  | k, .inlineCode t => ∀ r, op.inline t = some r → k + len r ≤ b
  | k, .code _ t => ∀ r, op.block t = some r → k + len r ≤ b
  | k, .blockquote cs => TagFits b k "blockquote".toList ∧ Fits op b k cs
  | k, .link url cs => k + len (linkTag url) ≤ b ∧ TagFits b k ['a'] ∧ Fits op b k cs
  | k, .strong cs => TagFits b k "strong".toList ∧ Fits op b k cs
  | k, .emphasis cs => TagFits b k "em".toList ∧ Fits op b k cs
  | k, .delete cs => TagFits b k ['s'] ∧ Fits op b k cs
  | k, .heading d cs => k + len (closeTag (depthName d) ++ ['\n']) ≤ b ∧ Fits op b k cs
  | _, .hardBreak => True
  | _, .other _ => True

def Fits (op : Opts) (b : Nat) : Nat → List Node → Prop
  | _, [] => True
  | k, c :: cs => Fit op b k c ∧ Fits op b k cs

end

/-! ### Lengths -/

theorem len_append (a b : Chars) : len (a ++ b) = len a + len b := by
  unfold len; rw [List.map_append, List.sum_append]

theorem len_cons (c : Char) (a : Chars) : len (c :: a) = c.utf8Size + len a := by
  unfold len; rw [List.map_cons, List.sum_cons]

theorem len_infix {a b : Chars} (h : a <:+: b) : len a ≤ len b := by
  obtain ⟨x, y, rfl⟩ := h
  rw [len_append, len_append]; omega

theorem infix_append_cases {l a b : Chars} (h : l <:+: a ++ b) :
    l <:+: a ∨ l <:+: b ∨ ∃ x y, l = x ++ y ∧ x <:+ a ∧ y <+: b := by
  obtain ⟨s, t, h⟩ := h
  rw [List.append_assoc] at h
  rcases List.append_eq_append_iff.1 h with ⟨u, h1, h2⟩ | ⟨u, h1, h2⟩
  · rcases List.append_eq_append_iff.1 h2 with ⟨v, h3, h4⟩ | ⟨v, h3, h4⟩
    · left
      exact ⟨s, v, by rw [h1, h3, List.append_assoc]⟩
    · right; right
      exact ⟨u, v, h3, ⟨s, h1.symm⟩, ⟨t, h4.symm⟩⟩
  · right; left
    exact ⟨u, t, by rw [List.append_assoc]; exact h2.symm⟩

theorem suffix_append_cases {l a b : Chars} (h : l <:+ a ++ b) : l <:+ b ∨ ∃ x, l = x ++ b ∧ x <:+ a := by
  obtain ⟨s, h⟩ := h
  rcases List.append_eq_append_iff.1 h with ⟨u, h1, h2⟩ | ⟨u, h1, h2⟩
  · right; exact ⟨u, h2, ⟨s, h1.symm⟩⟩
  · left; exact ⟨u, h2.symm⟩

/-- The invariant: no line is longer than `b`, and the last line is not longer than what has been counted. -/
structure Laid (b : Nat) (text : Chars) (cur : Nat) : Prop where
  lines : LinesWithin b text
  last : ∀ l : Chars, l <:+ text → '\n' ∉ l → len l ≤ cur

theorem Laid.put {b cur : Nat} {t x : Chars} (h : Laid b t cur) (hx : cur + len x ≤ b) : Laid b (t ++ x) (cur + len x) := by
  constructor
  · intro l hl hn
    rcases infix_append_cases hl with hl | hl | ⟨p, q, rfl, hp, hq⟩
    · exact h.lines l hl hn
    · have := len_infix hl; omega
    · have h1 := h.last p hp (fun hm => hn (List.mem_append_left _ hm))
      have h2 := len_infix hq.isInfix
      rw [len_append]; omega
  · intro l hl hn
    rcases suffix_append_cases hl with hl | ⟨p, rfl, hp⟩
    · have := len_infix hl.isInfix; omega
    · have h1 := h.last p hp (fun hm => hn (List.mem_append_left _ hm))
      rw [len_append]; omega

theorem Laid.nl {b cur : Nat} {t : Chars} (h : Laid b t cur) : Laid b (t ++ ['\n']) 0 := by
  have key : ∀ y : Chars, y <:+: ['\n'] → '\n' ∉ y → y = [] := by
    intro y hy hn
    cases y with
    | nil => rfl
    | cons c y => exact absurd (by rw [← List.mem_singleton.1 (hy.subset (List.mem_cons_self ..))]; exact List.mem_cons_self ..) hn
  constructor
  · intro l hl hn
    rcases infix_append_cases hl with hl | hl | ⟨p, q, rfl, hp, hq⟩
    · exact h.lines l hl hn
    · rw [key l hl hn]; exact Nat.zero_le _
    · have := key q hq.isInfix (fun hm => hn (List.mem_append_right _ hm))
      subst this
      rw [List.append_nil] at hn ⊢
      exact h.lines p hp.isInfix hn
  · intro l hl hn
    rcases suffix_append_cases hl with hl | ⟨p, rfl, hp⟩
    · rw [key l hl.isInfix hn]; exact Nat.le_refl _
    · exact absurd (List.mem_append_right _ (List.mem_singleton.2 rfl)) hn

theorem Laid.newline {b cur : Nat} {t x : Chars} (h : Laid b t cur) (hx : len x ≤ b) : Laid b (t ++ '\n' :: x) (len x) := by
  have := h.nl.put (x := x) (by omega)
  rw [Nat.zero_add, List.append_assoc] at this
  exact this

theorem Laid.mono {b cur cur' : Nat} {t : Chars} (h : Laid b t cur) (hc : cur ≤ cur') : Laid b t cur' :=
  ⟨h.lines, fun l hl hn => Nat.le_trans (h.last l hl hn) hc⟩

def LaidO (b : Nat) (o : Out) : Prop := Laid b o.text o.cur

theorem sp_len : Char.utf8Size ' ' = 1 := by decide

theorem laid_unbroken {b max : Nat} {cfg : WrapCfg} (hl : cfg.limit = some max) (hb : max + 1 ≤ b) {o : Out} {t indent : Chars}
    (ht : len indent + len t ≤ b) (h : LaidO b o) : LaidO b (o.unbroken cfg t indent) := by
  unfold Out.unbroken LaidO
  rw [hl]
  split
  · have := Laid.newline (x := indent ++ t) h (by rw [len_append]; exact ht)
    rw [len_append] at this
    exact this
  · rename_i hm
    have hm : o.cur + len t ≤ max := by simpa using hm
    split
    · have := Laid.put (x := ' ' :: t) h (by rw [len_cons, sp_len]; omega)
      rw [len_cons, sp_len, ← Nat.add_assoc] at this
      exact this
    · exact Laid.put h (by omega)

theorem laid_ln {b : Nat} {o : Out} {indent : Chars} (hi : len indent ≤ b) (h : LaidO b o) : LaidO b (o.ln indent) :=
  Laid.newline h hi

theorem len_dropWhile (p : Char → Bool) (w : Chars) : len (w.dropWhile p) ≤ len w := by
  obtain ⟨d, h1, _⟩ := dropWhile_split p w
  conv => rhs; rw [h1, len_append]
  omega

theorem laid_word {b max : Nat} (hb : max + 1 ≤ b) {o : Out} {w indent : Chars} (first : Bool) (ht : len indent + len w ≤ b)
    (h : LaidO b o) : LaidO b (o.word max indent first w) := by
  unfold Out.word LaidO
  split
  · dsimp only
    have hle : len (if first = true then w.dropWhile isWhite else w) ≤ len w := by
      split
      · exact len_dropWhile _ _
      · exact Nat.le_refl _
    generalize (if first = true then w.dropWhile isWhite else w) = w' at hle ⊢
    have := Laid.newline (x := indent ++ w') h (by rw [len_append]; omega)
    rw [len_append] at this
    exact this
  · rename_i hm
    split
    · have := Laid.put (x := ' ' :: w) h (by rw [len_cons, sp_len]; omega)
      rw [len_cons, sp_len, ← Nat.add_assoc] at this
      exact this
    · exact Laid.put h (by omega)

theorem laid_wordsFrom {b max : Nat} (hb : max + 1 ≤ b) {indent : Chars} : ∀ (ws : List Chars) (first : Bool) (o : Out),
    (∀ w ∈ ws, len indent + len w ≤ b) → LaidO b o → LaidO b (Out.wordsFrom max indent first ws o) := by
  intro ws
  induction ws with
  | nil => intro first o _ h; exact h
  | cons w ws ih =>
    intro first o hw h
    exact ih false _ (fun x hx => hw x (List.mem_cons_of_mem _ hx)) (laid_word hb first (hw w (List.mem_cons_self ..)) h)

/-- Each chunk is a part of the line: characters that are no breaks, and then breaks. -/
theorem chunk_shape (p : Char → Bool) : ∀ (l : Chars) (inWhite : Bool) (acc : Chars),
    (∃ a d, acc = a ++ d ∧ (∀ c ∈ a, p c = false) ∧ (∀ c ∈ d, p c = true) ∧ (inWhite = false → d = [])) →
    ∀ x ∈ chunksFrom p l inWhite acc, x <:+: acc ++ l ∧ ∃ a d, x = a ++ d ∧ (∀ c ∈ a, p c = false) ∧ (∀ c ∈ d, p c = true) := by
  intro l
  induction l with
  | nil =>
    intro iw acc ⟨a, d, h1, h2, h3, _⟩ x hx
    unfold chunksFrom at hx
    split at hx
    · cases hx
    · rw [List.mem_singleton.1 hx, List.append_nil]
      exact ⟨List.infix_refl _, a, d, h1, h2, h3⟩
  | cons c l ih =>
    intro iw acc ⟨a, d, h1, h2, h3, h4⟩ x hx
    unfold chunksFrom at hx
    split at hx
    · rename_i hc
      obtain ⟨hw, hp⟩ := Bool.and_eq_true_iff.1 hc
      have hp : p c = false := by simpa using hp
      rcases List.mem_cons.1 hx with rfl | hx
      · exact ⟨(List.prefix_append _ _).isInfix, a, d, h1, h2, h3⟩
      · obtain ⟨k1, k2⟩ := ih (p c) [c] ⟨[c], [], rfl, fun y hy => by rw [List.mem_singleton.1 hy]; exact hp,
          (fun _ h => nomatch h), fun _ => rfl⟩ x hx
        exact ⟨k1.trans (List.suffix_append acc (c :: l)).isInfix, k2⟩
    · rename_i hc
      have h5 : ∃ a d, acc ++ [c] = a ++ d ∧ (∀ c ∈ a, p c = false) ∧ (∀ c ∈ d, p c = true) ∧ (p c = false → d = []) := by
        cases hp : p c with
        | true =>
          refine ⟨a, d ++ [c], by rw [h1, List.append_assoc], h2, fun y hy => ?_, (fun h => nomatch h)⟩
          rcases List.mem_append.1 hy with hy | hy
          · exact h3 y hy
          · rw [List.mem_singleton.1 hy]; exact hp
        | false =>
          have hw : iw = false := by cases iw with
            | false => rfl
            | true => rw [hp] at hc; exact absurd rfl hc
          have hd := h4 hw
          subst hd
          refine ⟨a ++ [c], [], by rw [h1, List.append_nil, List.append_nil], fun y hy => ?_, (fun _ h => nomatch h), fun _ => rfl⟩
          rcases List.mem_append.1 hy with hy | hy
          · exact h2 y hy
          · rw [List.mem_singleton.1 hy]; exact hp
      have := ih (p c) (acc ++ [c]) h5 x hx
      rw [List.append_assoc] at this
      exact this

theorem dropWhile_all {p : Char → Bool} (d e : Chars) (h : ∀ c ∈ d, p c = true) : (d ++ e).dropWhile p = e.dropWhile p := by
  induction d with
  | nil => rfl
  | cons c d ih =>
    rw [List.cons_append, List.dropWhile_cons, if_pos (h c (List.mem_cons_self ..)), ih (fun x hx => h x (List.mem_cons_of_mem _ hx))]

theorem trimmed_prefix (q : Char → Bool) (a d : Chars) (h : ∀ c ∈ d, q c = true) :
    ((a ++ d).reverse.dropWhile q).reverse <+: a := by
  rw [List.reverse_append, dropWhile_all _ _ (fun c hc => h c (List.mem_reverse.1 hc))]
  obtain ⟨e, h1, _⟩ := trimEnd_split q a
  exact ⟨e, h1.symm⟩

/-- A word has no breaks in it. -/
theorem word_shape {ign : Bool} {t w : Chars} (h : w ∈ findWords ign t) : w <:+: t ∧ ∀ c ∈ w, isBreak ign c = false := by
  unfold findWords at h
  obtain ⟨x, hx, rfl⟩ := List.mem_map.1 h
  obtain ⟨h1, a, d, rfl, h2, h3⟩ := chunk_shape (isBreak ign) t false [] ⟨[], [], rfl, (fun _ h => nomatch h), (fun _ h => nomatch h),
    fun _ => rfl⟩ x hx
  rw [List.nil_append] at h1
  have hp : wordOf ign (a ++ d) <+: a := by
    unfold wordOf
    cases ign with
    | true => exact trimmed_prefix isWhite a d (fun c hc => isBreak_white (h3 c hc))
    | false =>
      refine trimmed_prefix (fun c => decide (c = ' ')) a d (fun c hc => ?_)
      have := h3 c hc
      unfold isBreak at this
      simpa using this
  exact ⟨(hp.isInfix.trans (List.prefix_append a d).isInfix).trans h1, fun c hc => h2 c (hp.subset hc)⟩

theorem laid_words {b max : Nat} {cfg : WrapCfg} (hl : cfg.limit = some max) (hb : max + 1 ≤ b) {o : Out} {t indent : Chars}
    (ht : ∀ w : Chars, w <:+: t → (∀ c ∈ w, isBreak cfg.ignoreNewlines c = false) → len indent + len w ≤ b) (h : LaidO b o) :
    LaidO b (o.words cfg t indent) := by
  unfold Out.words
  rw [hl]
  exact laid_wordsFrom hb _ _ _ (fun w hw => ht w (word_shape hw).1 (word_shape hw).2) h

/-! ### C201 -/

def LaidS (b : Nat) (s : St) : Prop := LaidO b s.o

theorem len_open (name : Chars) : len (openTag name) ≤ len (closeTag name) := by
  unfold openTag closeTag
  rw [len_cons, len_cons, len_cons]; omega

theorem laid_piece {b max : Nat} {op : Opts} (hl : op.cfg.limit = some max) (hb : max + 1 ≤ b) {s : St} {t indent : Chars}
    (ht : len indent + len t ≤ b) (h : LaidS b s) : LaidS b (s.piece op t indent) := laid_unbroken hl hb ht h

theorem laid_open {b max : Nat} {op : Opts} (hl : op.cfg.limit = some max) (hb : max + 1 ≤ b) {s : St} {n indent : Chars}
    (ht : TagFits b (len indent) n) (h : LaidS b s) : LaidS b (s.piece op (openTag n) indent) := by
  refine laid_piece hl hb ?_ h
  have := len_open n
  unfold TagFits at ht
  omega

theorem laid_enter {b max : Nat} {op : Opts} (hl : op.cfg.limit = some max) (hb : max + 1 ≤ b) {s : St} {indent : Chars} {n : Node}
    (hk : len indent ≤ b) (hn : Fit op b (len indent) n) (h : LaidS b s) : LaidS b (enter op indent n s) := by
  unfold Html.enter
  dsimp only
  have h1 : LaidS b (if s.newline = true then { St.ln indent s with newline := false } else s) := by
    split
    · exact laid_ln hk h
    · exact h
  generalize (if s.newline = true then { St.ln indent s with newline := false } else s) = s1 at h1 ⊢
  split
  · cases n with
    | paragraph cs =>
      refine laid_ln hk (laid_unbroken hl hb ?_ h1)
      unfold Fit at hn
      have hp : len (closeTag ['p']) = 4 := by decide
      have := hn.1
      unfold TagFits at this
      rw [hp] at this
      split
      · exact hk
      · have : len "<p>".toList = 3 := by decide
        omega
    | _ => exact h1
  · exact h1

theorem len_two (indent : Chars) : len (indent ++ [' ', ' ']) = len indent + 2 := by
  rw [len_append]; rfl

mutual

theorem node_laid {b max : Nat} {op : Opts} (hl : op.cfg.limit = some max) (hb : max + 1 ≤ b) : ∀ (n : Node) (indent : Chars)
    (s s' : St), len indent ≤ b → Fit op b (len indent) n → LaidS b s → node op indent n s = some s' → LaidS b s'
  | .root cs, indent, s, s', hk, hn, h, hs => by
    unfold node at hs
    exact nodes_laid hl hb cs indent _ s' hk hn (laid_enter hl hb hk hn h) hs
  | .text x, indent, s, s', hk, hn, h, hs => by
    unfold node at hs
    injection hs with hs; subst hs
    exact laid_words hl hb hn (laid_enter hl hb hk hn h)
  | .paragraph cs, indent, s, s', hk, hn, h, hs => by
    unfold node at hs
    dsimp only at hs
    have h1 := laid_enter hl hb hk hn h
    generalize enter op indent (.paragraph cs) s = s1 at h1 hs
    unfold Fit at hn
    have h2 : LaidS b (if op.oldStyle = true then s1 else St.piece op (openTag ['p']) indent s1) := by
      split
      · exact h1
      · exact laid_open hl hb hn.1 h1
    split at hs
    · cases hs
    · rename_i s2 e2
      injection hs with hs; subst hs
      have h3 := nodes_laid hl hb cs indent _ s2 hk hn.2 h2 e2
      change LaidS b (if op.oldStyle = true then { s2 with oldP := true } else St.piece op (closeTag ['p']) indent s2)
      split
      · exact h3
      · exact laid_piece hl hb hn.1 h3
  | .list o st is, indent, s, s', hk, hn, h, hs => by
    unfold node at hs
    dsimp only at hs
    have h1 := laid_enter hl hb hk hn h
    generalize enter op indent (.list o st is) s = s1 at h1 hs
    unfold Fit at hn
    have ht : TagFits b (len indent) (if o = true then ['o', 'l'] else ['u', 'l']) := by
      cases o with
      | true => exact hn.1
      | false => exact hn.1
    generalize (if o = true then ['o', 'l'] else ['u', 'l']) = tag at ht hs
    split at hs
    · cases hs
    · rename_i s2 e2
      injection hs with hs; subst hs
      have h3 := items_laid hl hb is indent _ s2 hk hn.2.1 hn.2.2 (laid_open hl hb ht h1) e2
      exact laid_piece hl hb ht (laid_ln hk h3 : LaidS b (s2.ln indent))
  | .item cs, indent, s, s', hk, hn, h, hs => by
    unfold node at hs
    exact itemChildren_laid hl hb cs indent _ s' hk hn (laid_enter hl hb hk hn h) hs
  | .html x, indent, s, s', hk, hn, h, hs => absurd hn (fun h => h)
  | .inlineCode x, indent, s, s', hk, hn, h, hs => by
    unfold node at hs
    obtain ⟨r, h1, h2⟩ := Option.map_eq_some_iff.1 hs
    subst h2
    exact laid_piece hl hb (hn r h1) (laid_enter hl hb hk hn h)
  | .code l x, indent, s, s', hk, hn, h, hs => by
    unfold node at hs
    obtain ⟨r, h1, h2⟩ := Option.map_eq_some_iff.1 hs
    subst h2
    exact laid_piece hl hb (hn r h1) (laid_enter hl hb hk hn h)
  | .blockquote cs, indent, s, s', hk, hn, h, hs => by
    unfold node at hs
    dsimp only at hs
    have h1 := laid_enter hl hb hk hn h
    generalize enter op indent (.blockquote cs) s = s1 at h1 hs
    unfold Fit at hn
    split at hs
    · cases hs
    · rename_i s2 e2
      injection hs with hs; subst hs
      have h2 : LaidS b ((St.piece op (openTag "blockquote".toList) indent s1).ln indent) := laid_ln hk (laid_open hl hb hn.1 h1)
      exact laid_piece hl hb hn.1 (nodes_laid hl hb cs indent _ s2 hk hn.2 h2 e2)
  | .link url cs, indent, s, s', hk, hn, h, hs => by
    unfold node at hs
    dsimp only at hs
    have h1 := laid_enter hl hb hk hn h
    generalize enter op indent (.link url cs) s = s1 at h1 hs
    unfold Fit at hn
    split at hs
    · cases hs
    · rename_i s2 e2
      injection hs with hs; subst hs
      exact laid_piece hl hb hn.2.1 (nodes_laid hl hb cs indent _ s2 hk hn.2.2 (laid_piece hl hb hn.1 h1) e2)
  | .strong cs, indent, s, s', hk, hn, h, hs => by
    unfold node at hs
    dsimp only at hs
    have h1 := laid_enter hl hb hk hn h
    generalize enter op indent (.strong cs) s = s1 at h1 hs
    unfold Fit at hn
    split at hs
    · cases hs
    · rename_i s2 e2
      injection hs with hs; subst hs
      exact laid_piece hl hb hn.1 (nodes_laid hl hb cs indent _ s2 hk hn.2 (laid_open hl hb hn.1 h1) e2)
  | .emphasis cs, indent, s, s', hk, hn, h, hs => by
    unfold node at hs
    dsimp only at hs
    have h1 := laid_enter hl hb hk hn h
    generalize enter op indent (.emphasis cs) s = s1 at h1 hs
    unfold Fit at hn
    split at hs
    · cases hs
    · rename_i s2 e2
      injection hs with hs; subst hs
      exact laid_piece hl hb hn.1 (nodes_laid hl hb cs indent _ s2 hk hn.2 (laid_open hl hb hn.1 h1) e2)
  | .delete cs, indent, s, s', hk, hn, h, hs => by
    unfold node at hs
    dsimp only at hs
    have h1 := laid_enter hl hb hk hn h
    generalize enter op indent (.delete cs) s = s1 at h1 hs
    unfold Fit at hn
    split at hs
    · cases hs
    · rename_i s2 e2
      injection hs with hs; subst hs
      exact laid_piece hl hb hn.1 (nodes_laid hl hb cs indent _ s2 hk hn.2 (laid_open hl hb hn.1 h1) e2)
  | .heading d cs, indent, s, s', hk, hn, h, hs => by
    unfold node at hs
    dsimp only at hs
    have h1 := laid_enter hl hb hk hn h
    generalize enter op indent (.heading d cs) s = s1 at h1 hs
    unfold Fit at hn
    have ht : TagFits b (len indent) (depthName d) := by
      have := hn.1
      rw [len_append] at this
      unfold TagFits; omega
    split at hs
    · cases hs
    · rename_i s2 e2
      injection hs with hs; subst hs
      exact laid_piece hl hb hn.1 (nodes_laid hl hb cs indent _ s2 hk hn.2 (laid_open hl hb ht h1) e2)
  | .hardBreak, indent, s, s', hk, hn, h, hs => by
    unfold node at hs
    injection hs with hs; subst hs
    exact laid_enter hl hb hk hn h
  | .other x, indent, s, s', hk, hn, h, hs => by
    unfold node at hs
    injection hs with hs; subst hs
    exact laid_enter hl hb hk hn h

theorem nodes_laid {b max : Nat} {op : Opts} (hl : op.cfg.limit = some max) (hb : max + 1 ≤ b) : ∀ (cs : List Node) (indent : Chars)
    (s s' : St), len indent ≤ b → Fits op b (len indent) cs → LaidS b s → nodes op indent cs s = some s' → LaidS b s'
  | [], indent, s, s', hk, hn, h, hs => by
    unfold nodes at hs
    injection hs with hs; subst hs
    exact h
  | c :: cs, indent, s, s', hk, hn, h, hs => by
    unfold nodes at hs
    split at hs
    · cases hs
    · rename_i s1 h1
      exact nodes_laid hl hb cs indent s1 s' hk hn.2 (node_laid hl hb c indent s s1 hk hn.1 h h1) hs

theorem items_laid {b max : Nat} {op : Opts} (hl : op.cfg.limit = some max) (hb : max + 1 ≤ b) : ∀ (cs : List Node) (indent : Chars)
    (s s' : St), len indent ≤ b → TagFits b (len indent + 2) ['l', 'i'] → Fits op b (len indent + 2) cs → LaidS b s →
    items op indent cs s = some s' → LaidS b s'
  | [], indent, s, s', hk, _, hn, h, hs => by
    unfold items at hs
    injection hs with hs; subst hs
    exact h
  | c :: cs, indent, s, s', hk, ht, hn, h, hs => by
    unfold items at hs
    dsimp only at hs
    have hk2 : len (indent ++ [' ', ' ']) ≤ b := by
      rw [len_two]; unfold TagFits at ht; omega
    have ht2 : TagFits b (len (indent ++ [' ', ' '])) ['l', 'i'] := by rw [len_two]; exact ht
    have h1 : LaidS b ((s.ln (indent ++ [' ', ' '])).piece op (openTag ['l', 'i']) (indent ++ [' ', ' '])) :=
      laid_open hl hb ht2 (laid_ln hk2 h : LaidS b (s.ln (indent ++ [' ', ' '])))
    split at hs
    · cases hs
    · rename_i s1 e1
      have h2 := node_laid hl hb c (indent ++ [' ', ' ']) _ s1 hk2 (by rw [len_two]; exact hn.1) h1 e1
      refine items_laid hl hb cs indent _ s' hk ht hn.2 ?_ hs
      split
      · exact h2
      · exact laid_piece hl hb (by unfold TagFits at ht; omega) h2

theorem itemChildren_laid {b max : Nat} {op : Opts} (hl : op.cfg.limit = some max) (hb : max + 1 ≤ b) : ∀ (cs : List Node)
    (indent : Chars) (s s' : St), len indent ≤ b → Fits op b (len indent) cs → LaidS b s →
    itemChildren op indent cs s = some s' → LaidS b s'
  | [], indent, s, s', hk, hn, h, hs => by
    unfold itemChildren at hs
    injection hs with hs; subst hs
    exact h
  | c :: cs, indent, s, s', hk, hn, h, hs => by
    cases c with
    | paragraph ps =>
      unfold itemChildren at hs
      split at hs
      · cases hs
      · rename_i s1 h1
        have hp := hn.1
        unfold Fit at hp
        exact itemChildren_laid hl hb cs indent s1 s' hk hn.2 (nodes_laid hl hb ps indent s s1 hk hp.2 h h1) hs
    | _ =>
      unfold itemChildren at hs
      split at hs
      · cases hs
      · rename_i s1 h1
        exact itemChildren_laid hl hb cs indent s1 s' hk hn.2 (node_laid hl hb _ indent s s1 hk hn.1 h h1) hs

end

/-- C201: with a limit, no line is longer than the limit and one more, or than the longest piece that cannot be split, with its
indentation. Missing: the limit itself (see `line_limit_refuted`), and HTML. -/
theorem line_limit_partial (op : Opts) (max b : Nat) (hl : op.cfg.limit = some max) (hb : max + 1 ≤ b) (n : Node) (out : Chars)
    (hn : Fit op b 0 n) (h : render op n = some out) : LinesWithin b out := by
  unfold render at h
  obtain ⟨s, h1, rfl⟩ := Option.map_eq_some_iff.1 h
  refine (node_laid hl hb n [] {} s (Nat.zero_le _) hn ⟨?_, ?_⟩ h1).lines
  · intro l hl _
    rw [List.infix_nil.1 hl]; exact Nat.zero_le _
  · intro l hl _
    rw [List.suffix_nil.1 hl]; exact Nat.zero_le _

/-- C201, the claim of the documentation: with a limit, no line is longer than the limit unless a piece is that cannot be split. -/
def LineLimit (p : Opts → Nat → Node → Prop) : Prop :=
  ∀ (op : Opts) (max : Nat) (n : Node) (out : Chars), op.cfg.limit = some max → p op max n → render op n = some out → LinesWithin max out

/-- C201: false: the space before a word is not counted. -/
theorem line_limit_refuted : ¬ LineLimit (fun op max n => Fit op max 0 n) := by
  intro h
  have := h { cfg := { limit := some 10 } } 10 (.root [.text "12345 67890".toList]) "12345 67890".toList rfl ?_ (by decide)
    "12345 67890".toList (List.infix_refl _) (by decide)
  · exact absurd this (by decide)
  · refine ⟨fun w hw hb => ?_, trivial⟩
    by_cases he : w = "12345 67890".toList
    · subst he
      exact absurd (hb ' ' (by decide)) (by decide)
    · obtain ⟨x, y, h⟩ := hw
      have h2 := congrArg len h
      rw [len_append, len_append] at h2
      have h3 : len "12345 67890".toList = 11 := by decide
      have h4 : len x + len y ≠ 0 := by
        intro hz
        have hx : ∀ z : Chars, len z = 0 → z = [] := by
          intro z hz
          cases z with
          | nil => rfl
          | cons c z =>
            rw [len_cons] at hz
            have := Char.utf8Size_pos c
            omega
        rw [hx x (by omega), hx y (by omega), List.nil_append, List.append_nil] at h
        exact he h
      omega

/-- C201: false for HTML, which is not counted. -/
theorem line_limit_html_refuted :
    ¬ LineLimit (fun _ _ n => n = .root [.html "<b>".toList, .text "word".toList, .html "</b>".toList]) := by
  intro h
  have := h { cfg := { limit := some 5 } } 5 _ "<b>word</b>".toList rfl rfl (by decide) "<b>word</b>".toList (List.infix_refl _) (by decide)
  exact absurd this (by decide)

example : Fit { cfg := { limit := some 12 } } 13 0 (para [.text "a b".toList, .strong [.inlineCode "x".toList]]) := by
  have key : ∀ w : Chars, w <:+: "a b".toList → 0 + len w ≤ 13 := fun w hw => by
    have := len_infix hw
    have h3 : len "a b".toList = 3 := by decide
    omega
  refine ⟨⟨by unfold TagFits; decide, fun w hw _ => key w hw, ⟨⟨by unfold TagFits; decide, ?_, trivial⟩, trivial⟩⟩, trivial⟩
  intro r hr
  injection hr with hr; subst hr
  decide

end Verif.Render.Html
