import Verif.Render.MdProps
/-
C206: with shortcut references, the definition of every reference is for a label that is in the text.
-/
namespace Verif.Render.Md
open Verif.Util (Chars Forall2)
open Verif.Markdown (isWhite)

/-! ### Specification -/

mutual

/-- If lines have a limit, the labels of references have texts, code and HTML only. -/
def PlainLabels (op : Opts) : Node → Prop
  | .root cs => PlainLabelss op cs
  | .paragraph cs => PlainLabelss op cs
  | .list _ _ is => PlainLabelss op is
  | .item cs => PlainLabelss op cs
  | .blockquote cs => PlainLabelss op cs
  | .link url cs => PlainLabelss op cs ∧ (op.cfg.limit ≠ none → (op.shortcut && !url.isEmpty) = true → Leaves cs)
  | .strong cs => PlainLabelss op cs
  | .emphasis cs => PlainLabelss op cs
  | .delete cs => PlainLabelss op cs
  | .heading _ cs => PlainLabelss op cs
  | _ => True

def PlainLabelss (op : Opts) : List Node → Prop
  | [] => True
  | c :: cs => PlainLabels op c ∧ PlainLabelss op cs

end

/-! ### Texts only grow -/

/-- The text has grown, nothing has been pending without a limit, and the references that are new are in the text, or in the buffer. -/
structure Ext (op : Opts) (s s' : St) : Prop where
  text : ∃ x, s'.o.text = s.o.text ++ x
  links : ∃ new, s'.links = s.links ++ new ∧ ∀ l ∈ new, (['['] ++ l.1 ++ [']']) <:+: s'.o.text
  free : (op.cfg.limit = none → s.o.space = false ∧ s.buf = none) → (op.cfg.limit = none → s'.o.space = false ∧ s'.buf = none)

theorem Ext.refl (op : Opts) (s : St) : Ext op s s :=
  ⟨⟨[], (List.append_nil _).symm⟩, ⟨[], (List.append_nil _).symm, fun _ h => nomatch h⟩, id⟩

theorem Ext.trans {op : Opts} {a b c : St} (h : Ext op a b) (h' : Ext op b c) : Ext op a c := by
  obtain ⟨x, hx⟩ := h.text
  obtain ⟨y, hy⟩ := h'.text
  obtain ⟨n, hn, hin⟩ := h.links
  obtain ⟨m, hm, him⟩ := h'.links
  refine ⟨⟨x ++ y, by rw [hy, hx, List.append_assoc]⟩, ⟨n ++ m, by rw [hm, hn, List.append_assoc], fun l hl => ?_⟩, fun hf => h'.free (h.free hf)⟩
  rcases List.mem_append.1 hl with hl | hl
  · obtain ⟨p, q, hpq⟩ := hin l hl
    exact ⟨p, q ++ y, by rw [hy, ← hpq]; simp⟩
  · exact him l hl

/-- Nothing but the text has changed. -/
theorem Ext.mk' {op : Opts} {s s' : St} (ht : ∃ x, s'.o.text = s.o.text ++ x) (hl : s'.links = s.links)
    (hf : (op.cfg.limit = none → s.o.space = false ∧ s.buf = none) → (op.cfg.limit = none → s'.o.space = false ∧ s'.buf = none)) : Ext op s s' :=
  ⟨ht, ⟨[], by rw [hl, List.append_nil], fun _ h => nomatch h⟩, hf⟩

theorem unbroken_ext (cfg : WrapCfg) (t indent : Chars) (o : Out) : ∃ x, (o.unbroken cfg t indent).text = o.text ++ x ++ t := by
  unfold Out.unbroken
  split
  · exact ⟨'\n' :: indent, by simp⟩
  · split
    · exact ⟨[' '], by simp⟩
    · exact ⟨[], by simp⟩

theorem ext_blank (op : Opts) (s : St) : Ext op s s.blank := .mk' ⟨_, rfl⟩ rfl (fun h hn => ⟨rfl, (h hn).2⟩)

theorem ext_blanks (op : Opts) : ∀ (k : Nat) (s : St), Ext op s (s.blanks k) := by
  intro k
  induction k with
  | zero => exact fun s => .refl op s
  | succ k ih => exact fun s => (ext_blank op s).trans (ih s.blank)

theorem ext_cond (op : Opts) (s : St) : Ext op s s.condBlank := by
  unfold St.condBlank
  split
  · exact .refl op s
  · exact ext_blank op s

theorem ext_piece (op : Opts) (t : Chars) (s : St) : Ext op s (s.piece op t) := by
  cases hb : s.buf with
  | some b =>
    rw [piece_some hb]
    exact .mk' ⟨[], by simp⟩ rfl (fun h hn => by have := (h hn).2; rw [hb] at this; cases this)
  | none =>
    rw [piece_none hb]
    obtain ⟨x, hx⟩ := unbroken_ext op.cfg t s.pre s.o
    exact .mk' ⟨x ++ t, by rw [← List.append_assoc]; exact hx⟩ rfl (fun h hn => ⟨unbroken_space .., rfl⟩)

theorem ext_start (op : Opts) (t : Chars) (s : St) : Ext op s (s.start op t) := by
  unfold St.start
  cases hb : s.buf with
  | some b =>
    obtain ⟨x, hx⟩ := unbroken_ext op.cfg b s.pre s.o
    dsimp only
    split
    · exact .mk' ⟨x ++ b, by rw [← List.append_assoc]; exact hx⟩ rfl (fun h hn => by have := (h hn).2; rw [hb] at this; cases this)
    · refine .mk' ⟨x ++ b ++ t, ?_⟩ rfl (fun h hn => by have := (h hn).2; rw [hb] at this; cases this)
      dsimp only
      rw [hx]
      simp
  | none =>
    dsimp only
    split
    · rename_i hl
      exact .mk' ⟨[], by simp⟩ rfl (fun h hn => by rw [hn] at hl; cases hl)
    · exact .mk' ⟨t, rfl⟩ rfl (fun h hn => ⟨(h hn).1, hb⟩)

theorem ext_finish (op : Opts) (t : Chars) (s : St) : Ext op s (s.finish op t) := by
  unfold St.finish
  have h1 : Ext op s { s with buf := none } := .mk' ⟨[], by simp⟩ rfl (fun h hn => ⟨(h hn).1, rfl⟩)
  exact h1.trans (ext_piece op _ _)

theorem word_ext (max : Nat) (indent : Chars) (first : Bool) (w : Chars) (o : Out) : ∃ x, (o.word max indent first w).text = o.text ++ x := by
  unfold Out.word
  split
  · exact ⟨_, rfl⟩
  · split
    · exact ⟨_, rfl⟩
    · exact ⟨_, rfl⟩

theorem wordsFrom_ext (max : Nat) (indent : Chars) : ∀ (ws : List Chars) (first : Bool) (o : Out),
    ∃ x, (o.wordsFrom max indent first ws).text = o.text ++ x := by
  intro ws
  induction ws with
  | nil => exact fun _ o => ⟨[], (List.append_nil _).symm⟩
  | cons w ws ih =>
    intro first o
    obtain ⟨x, hx⟩ := word_ext max indent first w o
    obtain ⟨y, hy⟩ := ih false (o.word max indent first w)
    exact ⟨x ++ y, by rw [← List.append_assoc, ← hx]; exact hy⟩

theorem words_ext (cfg : WrapCfg) (t indent : Chars) (o : Out) : ∃ x, (o.words cfg t indent).text = o.text ++ x := by
  unfold Out.words
  split
  · exact ⟨_, rfl⟩
  · exact wordsFrom_ext ..

/-- The text is wrapped. -/
theorem ext_words {op : Opts} {max : Nat} (hl : op.cfg.limit = some max) (t : Chars) (s : St) :
    Ext op s { s with o := s.o.words op.cfg t s.pre } :=
  .mk' (words_ext ..) rfl (fun _ hn => by rw [hl] at hn; cases hn)

theorem ext_lines {op : Opts} {max : Nat} (hl : op.cfg.limit = some max) : ∀ (ls : List Chars) (first : Bool) (s : St),
    Ext op s (St.wrapLines op first ls s) := by
  intro ls
  induction ls with
  | nil => exact fun _ s => .refl op s
  | cons l ls ih =>
    intro first s
    cases first with
    | true => exact (ext_words hl l s).trans (ih false _)
    | false => exact ((ext_blank op s).trans (ext_words hl l _)).trans (ih false _)

theorem ext_text (op : Opts) (t : Chars) (s : St) : Ext op s (s.addText op t) := by
  unfold St.addText
  cases hb : s.buf with
  | some b =>
    dsimp only
    exact .mk' ⟨[], by simp⟩ rfl (fun h hn => by have := (h hn).2; rw [hb] at this; cases this)
  | none =>
    dsimp only
    cases hl : op.cfg.limit with
    | none =>
      rw [if_neg (by simp)]
      exact .mk' ⟨_, rfl⟩ rfl (fun h hn => ⟨(h hn).1, rfl⟩)
    | some max =>
      rw [if_pos (by simp)]
      have h1 : Ext op s (if s.pre ≠ [] ∧ s.skip = false then s.piece op s.pre else s) := by
        split
        · exact ext_piece ..
        · exact .refl op s
      split
      · exact h1.trans (ext_words hl t _)
      · exact h1.trans (ext_lines hl _ _ _)

theorem ext_same {op : Opts} {s s' : St} (h : s'.o = s.o) (h' : s'.links = s.links) (h'' : s'.buf = s.buf) : Ext op s s' :=
  .mk' ⟨[], by rw [h, List.append_nil]⟩ h' (fun hf hn => by rw [h, h'']; exact hf hn)

theorem ext_level (op : Opts) (s : St) (k : Nat) : Ext op s { s with level := k } := ext_same rfl rfl rfl
theorem ext_pre (op : Opts) (s : St) (p : Chars) : Ext op s { s with pre := p } := ext_same rfl rfl rfl
theorem ext_end (op : Opts) (s : St) :
    Ext op s { s with level := s.level - 1, itemNo := 0, pre := [], skip := false, leftover := s.leftover + 1 } := ext_same rfl rfl rfl
theorem ext_quote (op : Opts) (s : St) : Ext op s { s with pre := [], skip := false } := ext_same rfl rfl rfl
theorem ext_left (op : Opts) (s : St) : Ext op s { s with leftover := s.leftover + 1 } := ext_same rfl rfl rfl

theorem ext_enter (op : Opts) (n : Node) (s : St) : Ext op s (enter n s) := by
  have h0 : Ext op s { s with leftover := 0 } := ext_same rfl rfl rfl
  unfold enter
  cases n with
  | list _ _ _ => exact h0
  | _ => exact h0.trans (ext_blanks op _ _)

theorem enter_left (n : Node) (s : St) : (enter n s).leftover = 0 := by
  unfold enter
  cases n with
  | list _ _ _ => rfl
  | _ => exact blanks_left _ _

theorem start_left (op : Opts) (t : Chars) (s : St) : (s.start op t).leftover = s.leftover := by
  unfold St.start
  cases s.buf <;> dsimp only <;> split <;> rfl

/-- Nothing is pending without a limit. -/
def Free (op : Opts) (s : St) : Prop := op.cfg.limit = none → s.o.space = false ∧ s.buf = none

/-- The label of a reference is in the text. -/
theorem link_ext (op : Opts) (s0 s2 : St) (url : Chars) (h0 : Free op s0) (h12 : Ext op (s0.start op ['[']) s2)
    (hb : op.cfg.limit ≠ none → (op.shortcut && !url.isEmpty) = true → ∃ b, s2.buf = some ('[' :: b)) :
    Ext op s0 (St.finish op [] (if op.shortcut && !url.isEmpty then
      { s2.piece op [']'] with links := (s2.piece op [']']).links ++ [(match s2.buf with
        | some b => b.drop 1
        | none => s2.o.text.drop (s0.start op ['[']).o.text.length, url)] }
      else (s2.piece op [']']).piece op ('(' :: (url ++ [')'])))) := by
  have h1 := ext_start op ['['] s0
  have h3 := ext_piece op [']'] s2
  split
  · rename_i hsc
    have h03 := (h1.trans h12).trans h3
    generalize hlab : (match s2.buf with
        | some b => b.drop 1
        | none => s2.o.text.drop (s0.start op ['[']).o.text.length) = label
    have h4 : Ext op s0 (St.finish op [] { s2.piece op [']'] with links := s0.links }) ∧
        (['['] ++ label ++ [']']) <:+: (St.finish op [] { s2.piece op [']'] with links := (s2.piece op [']']).links ++ [(label, url)] }).o.text := by
      refine ⟨(Ext.mk' (s' := { s2.piece op [']'] with links := s0.links }) h03.text rfl h03.free).trans (ext_finish ..), ?_⟩
      cases hl : op.cfg.limit with
      | none =>
        have hf2 := (h1.trans h12).free h0 hl
        obtain ⟨x, hx⟩ := h12.text
        have hs : (s0.start op ['[']).o.text = s0.o.text ++ ['['] := by
          unfold St.start
          dsimp only
          rw [(h0 hl).2, hl]
          rfl
        rw [hf2.2] at hlab
        dsimp only at hlab
        rw [hx, List.drop_left] at hlab
        obtain ⟨y, hy⟩ := (ext_finish op [] { s2.piece op [']'] with links := (s2.piece op [']']).links ++ [(label, url)] }).text
        rw [hy]
        have hp : (s2.piece op [']']).o.text = s2.o.text ++ [']'] := by
          rw [piece_none hf2.2]
          exact unbroken_free hl _ _ hf2.1
        refine ⟨s0.o.text, y, ?_⟩
        dsimp only
        rw [hp, hx, hs, hlab]
        simp
      | some max =>
        obtain ⟨b, hb⟩ := hb (by rw [hl]; exact fun h => nomatch h) hsc
        rw [hb] at hlab
        have hlab' : b = label := hlab
        rw [piece_some hb]
        unfold St.finish
        dsimp only
        rw [piece_none (by rfl)]
        obtain ⟨x, hx⟩ := unbroken_ext op.cfg ('[' :: b ++ [']'] ++ []) s2.pre s2.o
        refine ⟨s2.o.text ++ x, [], ?_⟩
        dsimp only
        rw [hx, hlab']
        simp
    obtain ⟨h4, h5⟩ := h4
    obtain ⟨new, hn, hin⟩ := h03.links
    have e : ∀ ls, (St.finish op [] { s2.piece op [']'] with links := ls }).o = (St.finish op [] { s2.piece op [']'] with links := s0.links }).o ∧
        (St.finish op [] { s2.piece op [']'] with links := ls }).links = ls ∧
        (St.finish op [] { s2.piece op [']'] with links := ls }).buf = (St.finish op [] { s2.piece op [']'] with links := s0.links }).buf := by
      intro ls
      generalize s2.piece op [']'] = s3
      unfold St.finish
      dsimp only
      rw [piece_none (s := { s3 with links := ls, buf := none }) rfl, piece_none (s := { s3 with links := s0.links, buf := none }) rfl]
      exact ⟨rfl, rfl, rfl⟩
    obtain ⟨e1, e2, e3⟩ := e ((s2.piece op [']']).links ++ [(label, url)])
    refine ⟨?_, ⟨new ++ [(label, url)], ?_, ?_⟩, ?_⟩
    · rw [e1]; exact h4.text
    · rw [e2, hn, List.append_assoc]
    · intro l hl
      rcases List.mem_append.1 hl with hl | hl
      · obtain ⟨p, q, hpq⟩ := hin l hl
        obtain ⟨y, hy⟩ := (ext_finish op [] { s2.piece op [']'] with links := (s2.piece op [']']).links ++ [(label, url)] }).text
        refine ⟨p, q ++ y, ?_⟩
        rw [hy]
        dsimp only
        rw [← hpq]
        simp
      · rw [List.mem_singleton.1 hl]
        exact h5
    · rw [e1, e3]; exact h4.free
  · exact ((h1.trans h12).trans h3).trans ((ext_piece ..).trans (ext_finish ..))

mutual

theorem node_ext (op : Opts) : ∀ (n : Node) (ind : Chars) (s : St), PlainLabels op n → Free op s → Ext op s (node op ind n s)
  | .root cs, ind, s, hp, hf => by
    unfold PlainLabels at hp
    unfold node
    have h1 := ext_enter op (.root cs) s
    exact h1.trans (nodes_ext op cs ind _ hp (h1.free hf))
  | .text t, ind, s, _, hf => by
    unfold node
    exact (ext_enter op _ s).trans (ext_text ..)
  | .paragraph cs, ind, s, hp, hf => by
    unfold PlainLabels at hp
    unfold node
    have h1 := (ext_enter op (.paragraph cs) s).trans (ext_cond op _)
    exact (h1.trans (nodes_ext op cs ind _ hp (h1.free hf))).trans (ext_blank op _)
  | .list ordered st is, ind, s, hp, hf => by
    unfold PlainLabels at hp
    unfold node
    dsimp only
    have h1 := (ext_enter op (.list ordered st is) s).trans
      ((ext_level op _ ((enter (.list ordered st is) s).level + 1)).trans (ext_blank op _))
    exact (h1.trans (items_ext op is _ ordered _ hp (h1.free hf))).trans (ext_end op _)
  | .item cs, ind, s, hp, hf => by
    unfold PlainLabels at hp
    unfold node
    have h1 := ext_enter op (.item cs) s
    exact h1.trans (children_ext op cs ind _ hp (h1.free hf))
  | .html t, ind, s, _, hf => by
    unfold node
    exact (ext_enter op _ s).trans (ext_piece ..)
  | .inlineCode t, ind, s, _, hf => by
    unfold node
    exact (ext_enter op _ s).trans (ext_piece ..)
  | .code lang t, ind, s, _, hf => by
    unfold node
    exact ((ext_enter op _ s).trans (ext_piece ..)).trans (ext_blank op _)
  | .blockquote cs, ind, s, hp, hf => by
    unfold PlainLabels at hp
    unfold node
    dsimp only
    have h1 := ((ext_enter op (.blockquote cs) s).trans (ext_cond op _)).trans
      (ext_pre op _ "> ".toList)
    exact ((h1.trans (children_ext op cs ind _ hp (h1.free hf))).trans (ext_quote op _)).trans (ext_blank op _)
  | .link url cs, ind, s, hp, hf => by
    unfold PlainLabels at hp
    unfold node
    dsimp only
    have h1 := ext_enter op (.link url cs) s
    have h2 := ext_start op ['['] (enter (.link url cs) s)
    have h3 := nodes_ext op cs ind _ hp.1 (h2.free (h1.free hf))
    refine h1.trans (link_ext op (enter (.link url cs) s) _ url (h1.free hf) h3 ?_)
    intro hl hsc
    cases hlim : op.cfg.limit with
    | none => exact absurd hlim hl
    | some max =>
      have := leaves_buf op ind cs ((enter (.link url cs) s).start op ['[']) ['['] (hp.2 hl hsc) (start_some hlim _)
        ((start_left ..).trans (enter_left ..))
      rw [this]
      exact ⟨_, rfl⟩
  | .strong cs, ind, s, hp, hf => by
    unfold PlainLabels at hp
    unfold node
    have h1 := (ext_enter op (.strong cs) s).trans (ext_start op "**".toList _)
    exact (h1.trans (nodes_ext op cs ind _ hp (h1.free hf))).trans (ext_finish ..)
  | .emphasis cs, ind, s, hp, hf => by
    unfold PlainLabels at hp
    unfold node
    have h1 := (ext_enter op (.emphasis cs) s).trans (ext_start op "*".toList _)
    exact (h1.trans (nodes_ext op cs ind _ hp (h1.free hf))).trans (ext_finish ..)
  | .delete cs, ind, s, hp, hf => by
    unfold PlainLabels at hp
    unfold node
    have h1 := (ext_enter op (.delete cs) s).trans (ext_start op "~~".toList _)
    exact (h1.trans (nodes_ext op cs ind _ hp (h1.free hf))).trans (ext_finish ..)
  | .heading d cs, ind, s, hp, hf => by
    unfold PlainLabels at hp
    unfold node
    dsimp only
    have h1 := ((ext_enter op (.heading d cs) s).trans (ext_cond op _)).trans (ext_start op (ind ++ List.replicate d '#' ++ [' ']) _)
    exact (((h1.trans (nodes_ext op cs ind _ hp (h1.free hf))).trans (ext_finish ..)).trans (ext_blank op _)).trans (ext_left op _)
  | .hardBreak, ind, s, _, _ => by
    unfold node
    exact ext_enter op _ s
  | .other t, ind, s, _, _ => by
    unfold node
    exact ext_enter op _ s

theorem nodes_ext (op : Opts) : ∀ (cs : List Node) (ind : Chars) (s : St), PlainLabelss op cs → Free op s → Ext op s (nodes op ind cs s)
  | [], _, s, _, _ => by unfold nodes; exact .refl op s
  | c :: cs, ind, s, hp, hf => by
    unfold PlainLabelss at hp
    unfold nodes
    have h1 := node_ext op c ind s hp.1 hf
    exact h1.trans (nodes_ext op cs ind _ hp.2 (h1.free hf))

theorem items_ext (op : Opts) : ∀ (cs : List Node) (ind : Chars) (ordered : Bool) (s : St), PlainLabelss op cs → Free op s →
    Ext op s (items op ind ordered cs s)
  | [], _, _, s, _, _ => by unfold items; exact .refl op s
  | c :: cs, ind, ordered, s, hp, hf => by
    unfold PlainLabelss at hp
    unfold items
    dsimp only
    have h1 : Ext op s (if 0 < s.leftover then St.blanks s.leftover { s with leftover := 0, pre := [] } else { s with leftover := 0 }) := by
      split
      · exact (ext_same (s := s) (s' := { s with leftover := 0, pre := [] }) rfl rfl rfl).trans (ext_blanks op _ _)
      · exact ext_same rfl rfl rfl
    generalize (if 0 < s.leftover then St.blanks s.leftover { s with leftover := 0, pre := [] } else { s with leftover := 0 }) = s1 at h1 ⊢
    have h2 := h1.trans ((ext_same (s := s1) (s' := { s1 with itemNo := s1.itemNo + 1, skip := true, pre := List.replicate (len (itemLabel ordered (s1.itemNo + 1) ind)) ' ' })
      rfl rfl rfl).trans (ext_piece op (itemLabel ordered (s1.itemNo + 1) ind) _))
    have h3 := (h2.trans (node_ext op c ind _ hp.1 (h2.free hf))).trans (ext_left op _)
    exact h3.trans (items_ext op cs ind ordered _ hp.2 (h3.free hf))

theorem children_ext (op : Opts) : ∀ (cs : List Node) (ind : Chars) (s : St), PlainLabelss op cs → Free op s →
    Ext op s (itemChildren op ind cs s)
  | [], _, s, _, _ => by unfold itemChildren; exact .refl op s
  | c :: cs, ind, s, hp, hf => by
    unfold PlainLabelss at hp
    have step : ∀ s1, Ext op s s1 → itemChildren op ind (c :: cs) s = itemChildren op ind cs s1 → Ext op s (itemChildren op ind (c :: cs) s) := by
      intro s1 h1 e
      rw [e]
      exact h1.trans (children_ext op cs ind _ hp.2 (h1.free hf))
    cases c with
    | paragraph ps =>
      have hps : PlainLabelss op ps := by have := hp.1; unfold PlainLabels at this; exact this
      exact step _ (nodes_ext op ps ind s hps hf) rfl
    | root _ => exact step _ (node_ext op _ ind s hp.1 hf) rfl
    | text _ => exact step _ (node_ext op _ ind s hp.1 hf) rfl
    | list _ _ _ => exact step _ (node_ext op _ ind s hp.1 hf) rfl
    | item _ => exact step _ (node_ext op _ ind s hp.1 hf) rfl
    | html _ => exact step _ (node_ext op _ ind s hp.1 hf) rfl
    | inlineCode _ => exact step _ (node_ext op _ ind s hp.1 hf) rfl
    | code _ _ => exact step _ (node_ext op _ ind s hp.1 hf) rfl
    | blockquote _ => exact step _ (node_ext op _ ind s hp.1 hf) rfl
    | link _ _ => exact step _ (node_ext op _ ind s hp.1 hf) rfl
    | strong _ => exact step _ (node_ext op _ ind s hp.1 hf) rfl
    | emphasis _ => exact step _ (node_ext op _ ind s hp.1 hf) rfl
    | delete _ => exact step _ (node_ext op _ ind s hp.1 hf) rfl
    | heading _ _ => exact step _ (node_ext op _ ind s hp.1 hf) rfl
    | hardBreak => exact step _ (node_ext op _ ind s hp.1 hf) rfl
    | other _ => exact step _ (node_ext op _ ind s hp.1 hf) rfl

end

/-! ### Theorems -/

theorem definitions_eq : ∀ ls : List (Chars × Chars), definitions ls = ls.flatMap (fun l => "\n[".toList ++ l.1 ++ "]: ".toList ++ l.2) := by
  intro ls
  induction ls with
  | nil => rfl
  | cons l ls ih =>
    rw [List.flatMap_cons, ← ih]
    rfl

/-- C206: what is rendered is a text followed by definitions, each on its own line. In the text there is a reference to each of
them: its label in square brackets. -/
theorem references_partial (op : Opts) (n : Node) (h : PlainLabels op n) :
    ∃ (body : Chars) (ls : List (Chars × Chars)), render op n = body ++ ls.flatMap (fun l => "\n[".toList ++ l.1 ++ "]: ".toList ++ l.2) ∧
      ∀ l ∈ ls, (['['] ++ l.1 ++ [']']) <:+: body := by
  have h1 := node_ext op n [] {} h (fun _ => ⟨rfl, rfl⟩)
  obtain ⟨new, hn, hin⟩ := h1.links
  have hl : (node op [] n {}).links = new := by rw [hn]; rfl
  unfold render
  dsimp only
  rw [hl]
  split
  · rename_i he
    rw [List.isEmpty_iff] at he
    subst he
    exact ⟨_, [], by rw [List.flatMap_nil, List.append_nil], fun _ h => nomatch h⟩
  · refine ⟨(node op [] n {}).o.text ++ List.replicate (node op [] n {}).leftover '\n', new, by rw [definitions_eq], fun l hlm => ?_⟩
    obtain ⟨p, q, hpq⟩ := hin l hlm
    exact ⟨p, q ++ List.replicate (node op [] n {}).leftover '\n', by rw [← hpq]; simp⟩

/-- C206: the definitions are those of the links with a URL, in their order, and the labels have the text of the links. -/
theorem definitions_partial (op : Opts) (n : Node) (h : Ok op .top n) :
    ∃ (body : Chars) (ls : List (Chars × Chars)), render op n = body ++ ls.flatMap (fun l => "\n[".toList ++ l.1 ++ "]: ".toList ++ l.2) ∧
      Forall2 (fun r l => KeepsText false r.1 l.1 ∧ r.2 = l.2) (refs op n) ls := by
  have h1 := node_good op n .top [] {} h (fun _ h => nomatch h) ⟨(fun _ h => nomatch h), fun _ => ⟨rfl, rfl⟩, fun hx => absurd rfl hx⟩ rfl (fun _ => rfl)
  obtain ⟨new, hn, hf⟩ := h1.links
  have hl : (node op [] n {}).links = new := by rw [hn]; rfl
  have hf' := hf.mono (S := fun r l => KeepsText false r.1 l.1 ∧ r.2 = l.2) (fun r l hrl => ⟨hrl.1.1, hrl.2⟩)
  unfold render
  dsimp only
  rw [hl]
  split
  · rename_i he
    rw [List.isEmpty_iff] at he
    subst he
    exact ⟨_, [], by rw [List.flatMap_nil, List.append_nil], hf'⟩
  · exact ⟨(node op [] n {}).o.text ++ List.replicate (node op [] n {}).leftover '\n', new, by rw [definitions_eq], hf'⟩

/-- Two references in an item. -/
def sampleRefs : Node := .root [.list false 1 [.item [.paragraph [.text "see ".toList, .link "u".toList [.text "a ".toList, .inlineCode "b".toList],
  .text " and ".toList, .link "v".toList [.text "c".toList]]]]]

example : PlainLabels { shortcut := true, cfg := { limit := some 12 } } sampleRefs ∧
    Ok { shortcut := true, cfg := { limit := some 12 } } .top sampleRefs ∧
    render { shortcut := true, cfg := { limit := some 12 } } sampleRefs = "\n- see [a `b`]\n   and [c]\n\n\n[a `b`]: u\n[c]: v".toList := by
  refine ⟨?_, ?_, by decide +kernel⟩
  · simp [sampleRefs, PlainLabels, PlainLabelss, Leaves]
  · simp [sampleRefs, Ok, Oks, Inl, Inls, Leaves, Apart, Wrappable, escape]

end Verif.Render.Md
