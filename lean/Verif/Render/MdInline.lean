import Verif.Render.MdBase
/-
What makes up a line of rendered Markdown (for C204 and C206).
-/
namespace Verif.Render.Md
open Verif.Util (Chars Forall2)
open Verif.Markdown (isWhite)

/-! ### Without a limit of the length of lines -/

/-- A text has been added. -/
structure Grown (op : Opts) (s s' : St) (t : Chars) : Prop where
  j : J op s'
  left : s'.leftover = 0
  pre : s'.pre = s.pre
  text : ∃ x, s'.o.text = s.o.text ++ x ∧ Sim t x

theorem Grown.refl {op : Opts} {s : St} (h : J op s) (hl : s.leftover = 0) : Grown op s s [] :=
  ⟨h, hl, rfl, [], (List.append_nil _).symm, Sim.refl []⟩

theorem Grown.trans {op : Opts} {a b c : St} {t u : Chars} (h : Grown op a b t) (h' : Grown op b c u) : Grown op a c (t ++ u) := by
  obtain ⟨x, h1, h2⟩ := h.text
  obtain ⟨y, h3, h4⟩ := h'.text
  exact ⟨h'.j, h'.left, h'.pre.trans h.pre, x ++ y, by rw [h3, h1, List.append_assoc], h2.append h4⟩

theorem unbroken_free {op : Opts} (hn : op.cfg.limit = none) (t indent : Chars) {o : Out} (ho : o.space = false) :
    (o.unbroken op.cfg t indent).text = o.text ++ t := by
  unfold Out.unbroken
  rw [hn, ho]
  rfl

theorem grown_piece {op : Opts} (hn : op.cfg.limit = none) {s : St} (h : J op s) (hl : s.leftover = 0) (t : Chars) :
    Grown op s (s.piece op t) t := by
  obtain ⟨_, h2, h3, _⟩ := piece_step h hl t
  refine ⟨h2, h3.left.trans hl, h3.pre, t, ?_, Sim.refl t⟩
  rw [piece_none (h.free hn).2]
  exact unbroken_free hn _ _ (h.free hn).1

theorem grown_start {op : Opts} (hn : op.cfg.limit = none) {s : St} (h : J op s) (hl : s.leftover = 0) (t : Chars) :
    Grown op s (s.start op t) t := by
  obtain ⟨_, h2, h3, _, _, h6, _⟩ := start_step h hl t
  refine ⟨h2, h6, h3, t, ?_, Sim.refl t⟩
  unfold St.start
  dsimp only
  rw [(h.free hn).2, hn]
  rfl

theorem grown_finish {op : Opts} (hn : op.cfg.limit = none) {s : St} (h : J op s) (hl : s.leftover = 0) (t : Chars) :
    Grown op s (s.finish op t) t := by
  have hb := (h.free hn).2
  have e : ({ s with buf := none } : St) = s := by cases s; cases hb; rfl
  unfold St.finish
  rw [e, hb]
  exact grown_piece hn h hl t

theorem grown_text {op : Opts} (hn : op.cfg.limit = none) {s : St} (h : J op s) (hl : s.leftover = 0) (t : Chars) :
    Grown op s (s.addText op t) t := by
  obtain ⟨_, h2, h3, _⟩ := text_step h hl t (.inl hn)
  refine ⟨h2, h3.left.trans hl, h3.pre, rawLines s.pre s.skip true (splitNl t), ?_, ?_⟩
  · unfold St.addText
    rw [(h.free hn).2, hn]
    rfl
  · have hj := join_split t
    cases hs : splitNl t with
    | nil => exact absurd hs (splitNl_ne t)
    | cons l ls =>
      rw [hs] at hj
      conv => arg 1; rw [← hj]
      exact (raw_sim s.pre s.skip h.pre ls).1 l

theorem Grown.links {op : Opts} {s s' : St} {t : Chars} (ls : List (Chars × Chars)) (h : Grown op s s' t) :
    Grown op s { s' with links := ls } t := ⟨⟨h.j.pre, h.j.free, h.j.buf⟩, h.left, h.pre, h.text⟩

theorem Grown.of_eq {op : Opts} {s s' : St} {t u : Chars} (h : Grown op s s' t) (e : t = u) : Grown op s s' u := e ▸ h

mutual

theorem inl_grown (op : Opts) (hn : op.cfg.limit = none) (ind : Chars) : ∀ (n : Node) (s : St), Inl op n → J op s → s.leftover = 0 →
    Grown op s (node op ind n s) (shown op n)
  | .text t, s, _, hj, hl => by
    unfold node shown
    rw [enter_zero _ hl]
    exact grown_text hn hj hl _
  | .html t, s, _, hj, hl => by
    unfold node shown
    rw [enter_zero _ hl]
    exact grown_piece hn hj hl _
  | .inlineCode t, s, _, hj, hl => by
    unfold node shown
    rw [enter_zero _ hl]
    exact grown_piece hn hj hl _
  | .link url cs, s, hi, hj, hl => by
    unfold Inl at hi
    unfold node shown
    rw [enter_zero _ hl]
    dsimp only
    have h1 := grown_start hn hj hl ['[']
    have h2 := inls_grown op hn ind cs _ hi.1 h1.j h1.left
    have h3 := grown_piece hn h2.j h2.left [']']
    have h123 := (h1.trans h2).trans h3
    split
    · have h5 := h123.links ((((nodes op ind cs (s.start op ['['])).piece op [']']).links) ++ [((match (nodes op ind cs (s.start op ['['])).buf with
        | some b => b.drop 1
        | none => (nodes op ind cs (s.start op ['['])).o.text.drop (s.start op ['[']).o.text.length), url)])
      have h6 := grown_finish hn h5.j h5.left []
      exact (h5.trans h6).of_eq (by simp)
    · have h5 := grown_piece hn h3.j h3.left ('(' :: (url ++ [')']))
      have h6 := grown_finish hn h5.j h5.left []
      exact ((h123.trans h5).trans h6).of_eq (by simp)
  | .strong cs, s, hi, hj, hl => by
    unfold Inl at hi
    unfold node shown
    rw [enter_zero _ hl]
    have h1 := grown_start hn hj hl "**".toList
    have h2 := inls_grown op hn ind cs _ hi h1.j h1.left
    exact (h1.trans h2).trans (grown_finish hn h2.j h2.left "**".toList)
  | .emphasis cs, s, hi, hj, hl => by
    unfold Inl at hi
    unfold node shown
    rw [enter_zero _ hl]
    have h1 := grown_start hn hj hl "*".toList
    have h2 := inls_grown op hn ind cs _ hi h1.j h1.left
    exact (h1.trans h2).trans (grown_finish hn h2.j h2.left "*".toList)
  | .delete cs, s, hi, hj, hl => by
    unfold Inl at hi
    unfold node shown
    rw [enter_zero _ hl]
    have h1 := grown_start hn hj hl "~~".toList
    have h2 := inls_grown op hn ind cs _ hi h1.j h1.left
    exact (h1.trans h2).trans (grown_finish hn h2.j h2.left "~~".toList)
  | .root _, _, hi, _, _ => by unfold Inl at hi; exact hi.elim
  | .paragraph _, _, hi, _, _ => by unfold Inl at hi; exact hi.elim
  | .list _ _ _, _, hi, _, _ => by unfold Inl at hi; exact hi.elim
  | .item _, _, hi, _, _ => by unfold Inl at hi; exact hi.elim
  | .code _ _, _, hi, _, _ => by unfold Inl at hi; exact hi.elim
  | .blockquote _, _, hi, _, _ => by unfold Inl at hi; exact hi.elim
  | .heading _ _, _, hi, _, _ => by unfold Inl at hi; exact hi.elim
  | .hardBreak, _, hi, _, _ => by unfold Inl at hi; exact hi.elim
  | .other _, _, hi, _, _ => by unfold Inl at hi; exact hi.elim

theorem inls_grown (op : Opts) (hn : op.cfg.limit = none) (ind : Chars) : ∀ (cs : List Node) (s : St), Inls op cs → J op s →
    s.leftover = 0 → Grown op s (nodes op ind cs s) (showns op cs)
  | [], s, _, hj, hl => by
    unfold nodes showns
    exact Grown.refl hj hl
  | c :: cs, s, hi, hj, hl => by
    unfold Inls at hi
    unfold nodes showns
    have h1 := inl_grown op hn ind c s hi.1 hj hl
    exact h1.trans (inls_grown op hn ind cs _ hi.2 h1.j h1.left)

end

/-! ### In a buffer -/

/-- Texts, HTML and code are added to the buffer as they are. -/
theorem leaves_buf (op : Opts) (ind : Chars) : ∀ (cs : List Node) (s : St) (b : Chars), Leaves cs → s.buf = some b → s.leftover = 0 →
    nodes op ind cs s = { s with buf := some (b ++ showns op cs) } := by
  intro cs
  induction cs with
  | nil =>
    intro s b _ hb _
    unfold nodes showns
    rw [List.append_nil, ← hb]
  | cons c cs ih =>
    intro s b hi hb hl
    have hstep : ∀ x, node op ind c s = { s with buf := some (b ++ x) } → shown op c = x → Leaves cs →
        nodes op ind (c :: cs) s = { s with buf := some (b ++ showns op (c :: cs)) } := by
      intro x h1 h2 h3
      unfold nodes showns
      rw [h1, ih { s with buf := some (b ++ x) } (b ++ x) h3 rfl hl, h2, List.append_assoc]
    cases c with
    | text t =>
      refine hstep (escape op t) ?_ (by unfold shown; rfl) hi
      unfold node
      rw [enter_zero _ hl]
      unfold St.addText
      rw [hb]
    | html t =>
      refine hstep t ?_ (by unfold shown; rfl) hi
      unfold node
      rw [enter_zero _ hl]
      exact piece_some hb _
    | inlineCode t =>
      refine hstep ('`' :: (t ++ ['`'])) ?_ (by unfold shown; rfl) hi
      unfold node
      rw [enter_zero _ hl]
      exact piece_some hb _
    | _ => exact hi.elim

theorem start_some {op : Opts} {s : St} {max : Nat} (hl : op.cfg.limit = some max) (t : Chars) : (s.start op t).buf = some t := by
  unfold St.start
  rw [hl]
  rfl

/-! ### Any limit -/

/-- The references that have been added. -/
def Links (s s' : St) (rs : List (Chars × Chars)) : Prop :=
  ∃ new, s'.links = s.links ++ new ∧ Forall2 (fun r l => Le r.1 l.1 ∧ r.2 = l.2) rs new

theorem Links.none {s s' : St} (h : s'.links = s.links) : Links s s' [] := ⟨[], by rw [h, List.append_nil], .nil⟩

theorem Links.trans {a b c : St} {r q : List (Chars × Chars)} (h : Links a b r) (h' : Links b c q) : Links a c (r ++ q) := by
  obtain ⟨x, h1, h2⟩ := h
  obtain ⟨y, h3, h4⟩ := h'
  exact ⟨x ++ y, by rw [h3, h1, List.append_assoc], h2.append h4⟩

/-- A text has been added. -/
structure Line (op : Opts) (s s' : St) (t : Chars) (rs : List (Chars × Chars)) : Prop where
  j : J op s'
  left : s'.leftover = 0
  pre : s'.pre = s.pre
  no : s'.itemNo = s.itemNo
  buf : s.buf = none → s'.buf = none
  links : Links s s' rs
  le : Le (view s ++ t) (view s')

theorem Line.refl {op : Opts} {s : St} (h : J op s) (hl : s.leftover = 0) : Line op s s [] [] :=
  ⟨h, hl, rfl, rfl, id, .none rfl, by rw [List.append_nil]; exact Le.refl _⟩

theorem Line.trans {op : Opts} {a b c : St} {t u : Chars} {r q : List (Chars × Chars)} (h : Line op a b t r) (h' : Line op b c u q) :
    Line op a c (t ++ u) (r ++ q) :=
  ⟨h'.j, h'.left, h'.pre.trans h.pre, h'.no.trans h.no, fun hb => h'.buf (h.buf hb), h.links.trans h'.links, by
    rw [← List.append_assoc]
    exact (h.le.append (Sim.refl u)).trans h'.le⟩

theorem Line.of_eq {op : Opts} {s s' : St} {t u : Chars} {r q : List (Chars × Chars)} (h : Line op s s' t r) (e : t = u) (e' : r = q) :
    Line op s s' u q := e ▸ e' ▸ h

theorem line_piece {op : Opts} {s : St} (h : J op s) (hl : s.leftover = 0) (t : Chars) : Line op s (s.piece op t) t [] := by
  obtain ⟨h1, h2, h3, h4⟩ := piece_step h hl t
  exact ⟨h2, h3.left.trans hl, h3.pre, h3.no, h3.buf, .none h4, h1⟩

theorem line_text {op : Opts} {s : St} (h : J op s) (hl : s.leftover = 0) (t : Chars) (ht : Wrappable op.cfg t) :
    Line op s (s.addText op t) t [] := by
  obtain ⟨h1, h2, h3, h4⟩ := text_step h hl t ht
  exact ⟨h2, h3.left.trans hl, h3.pre, h3.no, h3.buf, .none h4, h1⟩

/-- Something with a start and an end. -/
theorem line_block {op : Opts} {s s' : St} {t a b : Chars} {r : List (Chars × Chars)} (h : J op s) (hl : s.leftover = 0)
    (hin : J op (s.start op a) → (s.start op a).leftover = 0 → Line op (s.start op a) s' t r) :
    Line op s (s'.finish op b) (a ++ t ++ b) r := by
  obtain ⟨h1, h2, h3, _, h5, h6, h7⟩ := start_step h hl a
  have hi := hin h2 h6
  obtain ⟨f1, f2, f3, _, f5, f6, f7, f8⟩ := finish_step hi.j hi.left b
  refine ⟨f2, f6, f3.trans (hi.pre.trans h3), f5.trans (hi.no.trans h5), fun _ => f7, ?_, ?_⟩
  · obtain ⟨new, k1, k2⟩ := hi.links
    exact ⟨new, by rw [f8, k1, h7], k2⟩
  · rw [← List.append_assoc, ← List.append_assoc]
    exact ((((h1.append (Sim.refl t)).trans hi.le).append (Sim.refl b))).trans f1

mutual

theorem inl_line (op : Opts) (ind : Chars) : ∀ (n : Node) (s : St), Inl op n → J op s → s.leftover = 0 →
    Line op s (node op ind n s) (shown op n) (refs op n)
  | .text t, s, hi, hj, hl => by
    unfold Inl at hi
    unfold node shown refs
    rw [enter_zero _ hl]
    exact line_text hj hl _ hi
  | .html t, s, _, hj, hl => by
    unfold node shown refs
    rw [enter_zero _ hl]
    exact line_piece hj hl _
  | .inlineCode t, s, _, hj, hl => by
    unfold node shown refs
    rw [enter_zero _ hl]
    exact line_piece hj hl _
  | .link url cs, s, hi, hj, hl => by
    unfold Inl at hi
    unfold node shown refs
    rw [enter_zero _ hl]
    dsimp only
    split
    · rename_i hsc
      refine (line_block (t := showns op cs ++ "]".toList) (r := refss op cs ++ [(showns op cs, url)]) (a := "[".toList) (b := []) hj hl ?_).of_eq
        (by simp) rfl
      intro hj1 hl1
      have h2 := inls_line op ind cs _ hi.1 hj1 hl1
      have h3 := line_piece h2.j h2.left [']']
      have h23 := h2.trans h3
      refine ⟨⟨h23.j.pre, h23.j.free, h23.j.buf⟩, h23.left, h23.pre, h23.no, h23.buf, ?_, h23.le⟩
      rw [List.append_nil] at h23
      obtain ⟨new, k1, k2⟩ := h23.links
      refine ⟨new ++ [((match (nodes op ind cs (s.start op ['['])).buf with
        | some b => b.drop 1
        | none => (nodes op ind cs (s.start op ['['])).o.text.drop (s.start op ['[']).o.text.length), url)], ?_, k2.append (.cons ⟨?_, rfl⟩ .nil)⟩
      · dsimp only
        rw [← List.append_assoc]
        exact congrArg (· ++ _) k1
      · dsimp only
        cases hlim : op.cfg.limit with
        | none =>
          have hg := inls_grown op hlim ind cs _ hi.1 hj1 hl1
          obtain ⟨x, hx, hsim⟩ := hg.text
          have hx' : (nodes op ind cs (s.start op ['['])).o.text = (s.start op ['[']).o.text ++ x := hx
          have hbuf : (nodes op ind cs (s.start op ['['])).buf = none := (hg.j.free hlim).2
          rw [hbuf]
          dsimp only
          rw [hx', List.drop_left]
          exact hsim.le
        | some max =>
          have hlv := hi.2 (by rw [hlim]; exact fun h => nomatch h) hsc
          have hb := leaves_buf op ind cs (s.start op ['[']) ['['] hlv (start_some hlim _) hl1
          rw [hb]
          exact Le.refl _
    · rename_i hsc
      refine (line_block (t := showns op cs ++ "]".toList ++ ('(' :: (url ++ [')']))) (r := refss op cs) (a := "[".toList) (b := []) hj hl ?_).of_eq
        (by simp) (by simp)
      intro hj1 hl1
      have h2 := inls_line op ind cs _ hi.1 hj1 hl1
      have h3 := line_piece h2.j h2.left [']']
      have h4 := line_piece h3.j h3.left ('(' :: (url ++ [')']))
      exact ((h2.trans h3).trans h4).of_eq rfl (by simp)
  | .strong cs, s, hi, hj, hl => by
    unfold Inl at hi
    unfold node shown refs
    rw [enter_zero _ hl]
    exact line_block hj hl (fun hj1 hl1 => inls_line op ind cs _ hi hj1 hl1)
  | .emphasis cs, s, hi, hj, hl => by
    unfold Inl at hi
    unfold node shown refs
    rw [enter_zero _ hl]
    exact line_block hj hl (fun hj1 hl1 => inls_line op ind cs _ hi hj1 hl1)
  | .delete cs, s, hi, hj, hl => by
    unfold Inl at hi
    unfold node shown refs
    rw [enter_zero _ hl]
    exact line_block hj hl (fun hj1 hl1 => inls_line op ind cs _ hi hj1 hl1)
  | .root _, _, hi, _, _ => by unfold Inl at hi; exact hi.elim
  | .paragraph _, _, hi, _, _ => by unfold Inl at hi; exact hi.elim
  | .list _ _ _, _, hi, _, _ => by unfold Inl at hi; exact hi.elim
  | .item _, _, hi, _, _ => by unfold Inl at hi; exact hi.elim
  | .code _ _, _, hi, _, _ => by unfold Inl at hi; exact hi.elim
  | .blockquote _, _, hi, _, _ => by unfold Inl at hi; exact hi.elim
  | .heading _ _, _, hi, _, _ => by unfold Inl at hi; exact hi.elim
  | .hardBreak, _, hi, _, _ => by unfold Inl at hi; exact hi.elim
  | .other _, _, hi, _, _ => by unfold Inl at hi; exact hi.elim

theorem inls_line (op : Opts) (ind : Chars) : ∀ (cs : List Node) (s : St), Inls op cs → J op s → s.leftover = 0 →
    Line op s (nodes op ind cs s) (showns op cs) (refss op cs)
  | [], s, _, hj, hl => by
    unfold nodes showns refss
    exact Line.refl hj hl
  | c :: cs, s, hi, hj, hl => by
    unfold Inls at hi
    unfold nodes showns refss
    have h1 := inl_line op ind c s hi.1 hj hl
    exact h1.trans (inls_line op ind cs _ hi.2 h1.j h1.left)

end

end Verif.Render.Md
