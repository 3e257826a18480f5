import Verif.Render.MdInline
/-
C204: a comment rendered as Markdown has the text of the Markdown it is rendered from. What is to be shown is in `MdSpec`.
-/
namespace Verif.Render.Md
open Verif.Util (Chars Forall2)
open Verif.Markdown (isWhite)

/-- A list starts on a new line. -/
def gap : Node → Chars
  | .list _ _ _ => ['\n']
  | _ => []

def gaps : List Node → Chars
  | [] => []
  | c :: _ => gap c

theorem gap_white (n : Node) : ∀ c ∈ gap n, isWhite c = true := by
  cases n with
  | list _ _ _ => exact nl_all
  | _ => exact fun _ h => nomatch h

theorem gaps_white (cs : List Node) : ∀ c ∈ gaps cs, isWhite c = true := by
  cases cs with
  | nil => exact fun _ h => nomatch h
  | cons c cs => exact gap_white c

/-- The number of the last item, after something in a list or outside of lists. -/
def No (m : Mode) (s s' : St) : Prop := (m = .top → s.itemNo = 0 → s'.itemNo = 0) ∧ (m = .numbers → s'.itemNo = s.itemNo)

theorem No.trans {m : Mode} {a b c : St} (h : No m a b) (h' : No m b c) : No m a c :=
  ⟨fun hm h0 => h'.1 hm (h.1 hm h0), fun hm => (h'.2 hm).trans (h.2 hm)⟩

theorem No.of_eq {m : Mode} {s s' : St} (h : s'.itemNo = s.itemNo) : No m s s' := ⟨fun _ h0 => h.trans h0, fun _ => h⟩

/-- A block has been added. -/
structure Block (op : Opts) (m : Mode) (s s' : St) (t : Chars) (rs : List (Chars × Chars)) : Prop where
  j : J op s'
  buf : s'.buf = none
  no : No m s s'
  links : Links s s' rs
  le : Le (view s ++ t) (view s')

theorem Block.refl {op : Opts} {m : Mode} {s : St} (h : J op s) (hb : s.buf = none) : Block op m s s [] [] :=
  ⟨h, hb, .of_eq rfl, .none rfl, by rw [List.append_nil]; exact Le.refl _⟩

theorem Block.trans {op : Opts} {m : Mode} {a b c : St} {t u : Chars} {r q : List (Chars × Chars)} (h : Block op m a b t r)
    (h' : Block op m b c u q) : Block op m a c (t ++ u) (r ++ q) :=
  ⟨h'.j, h'.buf, h.no.trans h'.no, h.links.trans h'.links, by
    rw [← List.append_assoc]
    exact (h.le.append (Sim.refl u)).trans h'.le⟩

theorem Block.of_eq {op : Opts} {m : Mode} {s s' : St} {t u : Chars} {r q : List (Chars × Chars)} (h : Block op m s s' t r) (e : t = u)
    (e' : r = q) : Block op m s s' u q := e ▸ e' ▸ h

theorem Block.less {op : Opts} {m : Mode} {s s' : St} {t u : Chars} {r : List (Chars × Chars)} (h : Block op m s s' t r) (e : Sim u t) :
    Block op m s s' u r := ⟨h.j, h.buf, h.no, h.links, ((Le.refl _).append e).trans h.le⟩

theorem Line.block {op : Opts} {s s' : St} {t : Chars} {rs : List (Chars × Chars)} (m : Mode) (hb : s.buf = none)
    (h : Line op s s' t rs) : Block op m s s' t rs := ⟨h.j, h.buf hb, .of_eq h.no, h.links, h.le⟩

theorem block_enter {op : Opts} {s : St} (m : Mode) (h : J op s) (hb : s.buf = none) : Block op m s (enter0 s) [] [] := by
  obtain ⟨h1, h2, h3, _, h5, h6⟩ := enter_step h hb
  exact ⟨h2, h3, .of_eq h5, .none h6, by rw [List.append_nil]; exact h1⟩

theorem block_blank {op : Opts} {s : St} (m : Mode) (h : J op s) (hb : s.buf = none) (hl : s.leftover = 0) :
    Block op m s s.blank ['\n'] [] := by
  obtain ⟨h1, h2, h3, h4⟩ := blank_step h hb hl nl_all
  exact ⟨h2, h3.buf hb, .of_eq h3.no, .none h4, h1⟩

theorem block_cond {op : Opts} {s : St} (m : Mode) (h : J op s) (hb : s.buf = none) (hl : s.leftover = 0) :
    Block op m s s.condBlank [] [] ∧ s.condBlank.leftover = 0 := by
  obtain ⟨h1, h2, h3, h4⟩ := cond_step h hb hl
  exact ⟨⟨h2, h3.buf hb, .of_eq h3.no, .none h4, by rw [List.append_nil]; exact h1⟩, h3.left.trans hl⟩

/-- One more newline is left over. -/
theorem block_left {op : Opts} {s : St} (m : Mode) (h : J op s) (hb : s.buf = none) :
    Block op m s { s with leftover := s.leftover + 1 } ['\n'] [] := by
  refine ⟨⟨h.pre, h.free, fun hx => absurd hb hx⟩, hb, .of_eq rfl, .none rfl, ?_⟩
  unfold view
  rw [hb, List.replicate_succ', List.append_assoc, List.append_assoc]
  simp only [Option.getD_none, List.append_nil, List.nil_append]
  exact Le.refl _

/-- Nodes of a line after newlines that are left over. -/
theorem node_enter0 {op : Opts} {n : Node} (hi : Inl op n) (ind : Chars) (s : St) : node op ind n s = node op ind n (enter0 s) := by
  have hz : enter n (enter0 s) = enter n s := by
    rw [enter_zero _ (enter0_left s), enter_eq]
    intro o st is h
    subst h
    unfold Inl at hi
    exact hi.elim
  cases n with
  | text _ => unfold node; rw [hz]
  | html _ => unfold node; rw [hz]
  | inlineCode _ => unfold node; rw [hz]
  | link _ _ => unfold node; rw [hz]
  | strong _ => unfold node; rw [hz]
  | emphasis _ => unfold node; rw [hz]
  | delete _ => unfold node; rw [hz]
  | _ => unfold Inl at hi; exact hi.elim

theorem inls_block {op : Opts} (m : Mode) (ind : Chars) (cs : List Node) (s : St) (hi : Inls op cs) (hj : J op s) (hb : s.buf = none) :
    Block op m s (nodes op ind cs s) (showns op cs) (refss op cs) := by
  cases cs with
  | nil =>
    unfold nodes showns refss
    exact Block.refl hj hb
  | cons c cs =>
    have h0 := block_enter m hj hb
    have h1 := (inls_line op ind (c :: cs) (enter0 s) hi h0.j (enter0_left s)).block m h0.buf
    have he : nodes op ind (c :: cs) s = nodes op ind (c :: cs) (enter0 s) := by
      unfold Inls at hi
      unfold nodes
      rw [← node_enter0 hi.1]
    rw [he]
    exact h0.trans h1

theorem listIndent_white (op : Opts) (level : Nat) (ordered : Bool) {ind : Chars} (h : ∀ c ∈ ind, isWhite c = true) :
    ∀ c ∈ listIndent op level ordered ind, isWhite c = true := by
  have h2 : ∀ c ∈ [' ', ' '], isWhite c = true := fun c hc => sp_all c (by simpa using hc)
  unfold listIndent
  intro c hc
  split at hc
  · exact h c hc
  · split at hc
    · exact (List.mem_append.1 hc).elim (h c) (sp_all c)
    · exact (List.mem_append.1 hc).elim (h c) (h2 c)

theorem label_sim (ordered : Bool) (no : Nat) {ind : Chars} (h : ∀ c ∈ ind, isWhite c = true) :
    Sim (if ordered then (Nat.repr no).toList ++ ". ".toList else "- ".toList) (itemLabel ordered no ind) := by
  unfold itemLabel
  cases ordered with
  | true =>
    rw [if_pos rfl, if_pos rfl, List.append_assoc]
    exact (Sim.white h).append (Sim.refl _)
  | false =>
    rw [if_neg (Bool.noConfusion : ¬ false = true), if_neg (Bool.noConfusion : ¬ false = true)]
    exact (Sim.white h).append (Sim.refl _)

mutual

theorem node_good (op : Opts) : ∀ (n : Node) (m : Mode) (ind : Chars) (s : St), Ok op m n → (∀ c ∈ ind, isWhite c = true) → J op s →
    s.buf = none → (m = .top → s.itemNo = 0) → Block op m s (node op ind n s) (gap n ++ shown op n) (refs op n)
  | .root cs, m, ind, s, hi, hw, hj, hb, h0 => by
    unfold Ok at hi
    unfold node shown refs
    rw [enter_eq (by intro o st is h; cases h)]
    have h1 := block_enter m hj hb
    exact h1.trans (nodes_good op cs m ind _ hi hw h1.j h1.buf (fun hm => h1.no.1 hm (h0 hm)))
  | .paragraph cs, m, ind, s, hi, hw, hj, hb, _ => by
    unfold Ok at hi
    unfold node shown refs
    rw [enter_eq (by intro o st is h; cases h)]
    have h1 := block_enter m hj hb
    obtain ⟨h2, hl⟩ := block_cond m h1.j h1.buf (enter0_left s)
    have h3 := inls_line op ind cs _ hi h2.j hl
    have h4 := h3.block m h2.buf
    exact ((h1.trans h2).trans (h4.trans (block_blank m h4.j h4.buf h3.left))).of_eq (by simp [gap]) (by simp)
  | .code lang t, m, ind, s, _, hw, hj, hb, _ => by
    unfold node shown refs
    rw [enter_eq (by intro o st is h; cases h)]
    dsimp only
    have h1 := block_enter m hj hb
    have h2 := line_piece h1.j (enter0_left s) ("```".toList ++ (lang.or op.defaultLang).getD [] ++ ['\n'] ++ t ++ "\n```".toList)
    have h3 := h2.block m h1.buf
    exact (h1.trans (h3.trans (block_blank m h3.j h3.buf h2.left))).of_eq (by simp [gap]) (by simp)
  | .heading d cs, m, ind, s, hi, hw, hj, hb, _ => by
    unfold Ok at hi
    unfold node shown refs
    rw [enter_eq (by intro o st is h; cases h)]
    dsimp only
    have h1 := block_enter m hj hb
    obtain ⟨h2, hl⟩ := block_cond m h1.j h1.buf (enter0_left s)
    have h3 := line_block (a := ind ++ List.replicate d '#' ++ [' ']) (b := []) h2.j hl (fun hj1 hl1 => inls_line op ind cs _ hi hj1 hl1)
    have h4 := h3.block m h2.buf
    have h5 := block_blank m h4.j h4.buf h3.left
    have h6 := block_left m h5.j h5.buf
    have h7 := ((h1.trans h2).trans (h4.trans (h5.trans h6))).of_eq (q := refss op cs) rfl (by simp)
    refine h7.less ?_
    have e1 : gap (.heading d cs) ++ (List.replicate d '#' ++ " ".toList ++ showns op cs ++ "\n".toList) =
        [] ++ (List.replicate d '#' ++ [' '] ++ showns op cs ++ ['\n']) ++ [] := by simp [gap]
    have e2 : [] ++ [] ++ (ind ++ List.replicate d '#' ++ [' '] ++ showns op cs ++ [] ++ (['\n'] ++ ['\n'])) =
        ind ++ (List.replicate d '#' ++ [' '] ++ showns op cs ++ ['\n']) ++ ['\n'] := by simp
    rw [e1, e2]
    exact ((Sim.white hw).append (Sim.refl _)).append (Sim.white nl_all)
  | .list ordered st is, m, ind, s, hi, hw, hj, hb, h0 => by
    unfold Ok at hi
    obtain ⟨hm, hord, his⟩ := hi
    unfold node shown refs
    dsimp only
    have hen : enter (.list ordered st is) s = { s with leftover := 0 } := rfl
    rw [hen]
    dsimp only
    have hw' := listIndent_white op (s.level + 1) ordered hw
    have hj1 : J op { s with leftover := 0, level := s.level + 1 } := ⟨hj.pre, hj.free, fun _ => rfl⟩
    have h1 : Block op m s ({ s with leftover := 0, level := s.level + 1 } : St).blank ['\n'] [] := by
      have hws : ∀ c ∈ List.replicate s.leftover '\n' ++ ['\n'], isWhite c = true := fun c hc =>
        (List.mem_append.1 hc).elim (nls_white _ c) (nl_all c)
      obtain ⟨k1, k2, k3, k4⟩ := blank_step hj1 hb rfl hws
      refine ⟨k2, k3.buf hb, .of_eq k3.no, .none k4, ?_⟩
      refine Le.trans ?_ k1
      unfold view
      dsimp only
      simp only [List.replicate_zero, List.append_nil, List.append_assoc]
      exact Le.refl _
    have h2 := items_good op is (if ordered then .numbers else .bullets) ordered st _ _ his
      (by cases ordered <;> simp) hw' h1.j h1.buf (fun ho => by
        have := hord ho
        rw [this.2]
        have hz : s.itemNo = 0 := h0 this.1
        exact (congrArg (· + 1) hz).symm)
    have h3 := block_left (m := if ordered then .numbers else .bullets) h2.j h2.buf
    refine ⟨⟨fun _ h => (nomatch h), h3.j.free, fun hx => absurd h2.buf hx⟩, h2.buf, ⟨fun _ _ => rfl, fun hmm => absurd hmm hm⟩, ?_, ?_⟩
    · exact (h1.links.trans h2.links)
    · have := ((h1.le.append (Sim.refl (shownItems op ordered st is))).trans h2.le).trans
        ((Le.white nl_all).trans h3.le)
      rw [List.append_assoc] at this
      exact this
  | .item cs, m, ind, s, hi, hw, hj, hb, h0 => by
    unfold Ok at hi
    unfold node shown refs
    rw [enter_eq (by intro o st is h; cases h)]
    have h1 := block_enter m hj hb
    have h2 := children_good op cs m ind _ hi.1 hi.2 hw h1.j h1.buf (fun hm => h1.no.1 hm (h0 hm))
    exact (h1.trans h2).less ((Sim.white (gaps_white cs)).append (Sim.refl _))
  | .text _, _, _, _, hi, _, _, _, _ => by unfold Ok at hi; exact hi.elim
  | .html _, _, _, _, hi, _, _, _, _ => by unfold Ok at hi; exact hi.elim
  | .inlineCode _, _, _, _, hi, _, _, _, _ => by unfold Ok at hi; exact hi.elim
  | .blockquote _, _, _, _, hi, _, _, _, _ => by unfold Ok at hi; exact hi.elim
  | .link _ _, _, _, _, hi, _, _, _, _ => by unfold Ok at hi; exact hi.elim
  | .strong _, _, _, _, hi, _, _, _, _ => by unfold Ok at hi; exact hi.elim
  | .emphasis _, _, _, _, hi, _, _, _, _ => by unfold Ok at hi; exact hi.elim
  | .delete _, _, _, _, hi, _, _, _, _ => by unfold Ok at hi; exact hi.elim
  | .hardBreak, _, _, _, hi, _, _, _, _ => by unfold Ok at hi; exact hi.elim
  | .other _, _, _, _, hi, _, _, _, _ => by unfold Ok at hi; exact hi.elim

theorem nodes_good (op : Opts) : ∀ (cs : List Node) (m : Mode) (ind : Chars) (s : St), Oks op m cs → (∀ c ∈ ind, isWhite c = true) →
    J op s → s.buf = none → (m = .top → s.itemNo = 0) → Block op m s (nodes op ind cs s) (showns op cs) (refss op cs)
  | [], m, ind, s, _, _, hj, hb, _ => by
    unfold nodes showns refss
    exact Block.refl hj hb
  | c :: cs, m, ind, s, hi, hw, hj, hb, h0 => by
    unfold Oks at hi
    unfold nodes showns refss
    have h1 := node_good op c m ind s hi.1 hw hj hb h0
    have h2 := nodes_good op cs m ind _ hi.2 hw h1.j h1.buf (fun hm => h1.no.1 hm (h0 hm))
    refine (h1.trans h2).less ?_
    rw [List.append_assoc]
    exact (Sim.white (gap_white c)).append (Sim.refl _)

theorem items_good (op : Opts) : ∀ (cs : List Node) (m : Mode) (ordered : Bool) (no : Nat) (ind : Chars) (s : St), Oks op m cs →
    m = (if ordered then .numbers else .bullets) → (∀ c ∈ ind, isWhite c = true) →
    J op s → s.buf = none → (ordered = true → no = s.itemNo + 1) →
    Block op .bullets s (items op ind ordered cs s) (shownItems op ordered no cs) (refss op cs)
  | [], m, ordered, no, ind, s, _, _, _, hj, hb, _ => by
    unfold items shownItems refss
    exact Block.refl hj hb
  | c :: cs, m, ordered, no, ind, s, hi, hm, hw, hj, hb, hno => by
    unfold Oks at hi
    unfold items shownItems refss
    dsimp only
    -- the newlines that are left over
    have h1 : Block op .numbers s (if 0 < s.leftover then St.blanks s.leftover { s with leftover := 0, pre := [] }
        else { s with leftover := 0 }) [] [] ∧ (if 0 < s.leftover then St.blanks s.leftover { s with leftover := 0, pre := [] }
        else { s with leftover := 0 }).leftover = 0 := by
      split
      · have hjz : J op { s with leftover := 0, pre := [] } := ⟨fun _ h => (nomatch h), hj.free, fun _ => rfl⟩
        obtain ⟨k1, k2, k3, k4⟩ := blanks_step s.leftover _ hjz hb rfl
        refine ⟨⟨k2, k3.buf hb, .of_eq k3.no, .none k4, ?_⟩, k3.left⟩
        refine Le.trans ?_ k1
        unfold view
        dsimp only
        simp only [List.replicate_zero, List.append_nil]
        exact Le.refl _
      · rename_i hz
        have hz0 : s.leftover = 0 := by omega
        have e : ({ s with leftover := 0 } : St) = s := by cases s; cases hz0; rfl
        rw [e]
        exact ⟨Block.refl hj hb, hz0⟩
    generalize (if 0 < s.leftover then St.blanks s.leftover { s with leftover := 0, pre := [] } else { s with leftover := 0 }) = s1 at h1 ⊢
    obtain ⟨h1, hl1⟩ := h1
    have hn1 : s1.itemNo = s.itemNo := h1.no.2 rfl
    -- the label
    have hj2 : J op { s1 with itemNo := s1.itemNo + 1, skip := true, pre := List.replicate (len (itemLabel ordered (s1.itemNo + 1) ind)) ' ' } :=
      ⟨fun c hc => by rw [(List.mem_replicate.1 hc).2]; exact sp_white, h1.j.free, fun _ => hl1⟩
    have h2 := line_piece hj2 hl1 (itemLabel ordered (s1.itemNo + 1) ind)
    have h3 := node_good op c m ind _ hi.1 hw h2.j (h2.buf h1.buf) (fun hmm => by rw [hmm] at hm; cases ordered <;> cases hm)
    have h4 := block_left (m := m) h3.j h3.buf
    have h5 := items_good op cs m ordered (no + 1) ind _ hi.2 hm hw h4.j h4.buf (fun ho => by
      have hmm : m = .numbers := by rw [hm, ho]; rfl
      rw [hno ho]
      have k := h3.no.2 hmm
      have k' := h2.no
      show s.itemNo + 1 + 1 = _ + 1
      rw [k, k']
      show _ = s1.itemNo + 1 + 1
      rw [hn1])
    refine ⟨h5.j, h5.buf, ⟨fun h => (nomatch h), fun h => (nomatch h)⟩, ?_, ?_⟩
    · exact ((h1.links.trans h2.links).trans h3.links).trans (h4.links.trans h5.links)
    · have hlab : Sim (if ordered then (Nat.repr no).toList ++ ". ".toList else "- ".toList) (itemLabel ordered (s1.itemNo + 1) ind) := by
        have := label_sim ordered (s1.itemNo + 1) hw
        cases ordered with
        | false => exact this
        | true => rw [hno rfl, ← hn1]; exact this
      have le1 : Le (view s ++ (if ordered then (Nat.repr no).toList ++ ". ".toList else "- ".toList)) _ :=
        ((by have := h1.le; rw [List.append_nil] at this; exact this : Le (view s) (view s1)).append hlab).trans h2.le
      have le2 := (le1.append ((Sim.white (gap_white c)).append (Sim.refl (shown op c)))).trans h3.le
      have le3 := (le2.append (Sim.refl ['\n'])).trans h4.le
      have le4 := (le3.append (Sim.refl (shownItems op ordered (no + 1) cs))).trans h5.le
      simp only [List.append_assoc, List.nil_append] at le4 ⊢
      exact le4

theorem children_good (op : Opts) : ∀ (cs : List Node) (m : Mode) (ind : Chars) (s : St), Apart cs → Oks op m cs →
    (∀ c ∈ ind, isWhite c = true) → J op s → s.buf = none → (m = .top → s.itemNo = 0) →
    Block op m s (itemChildren op ind cs s) (gaps cs ++ shownItem op cs) (refss op cs)
  | [], m, ind, s, _, _, _, hj, hb, _ => by
    unfold itemChildren shownItem refss
    exact Block.refl hj hb
  | c :: cs, m, ind, s, ha, hi, hw, hj, hb, h0 => by
    unfold Oks at hi
    have step : ∀ (s1 : St) (t : Chars), Block op m s s1 (gap c ++ t) (refs op c) → itemChildren op ind (c :: cs) s = itemChildren op ind cs s1 →
        shownItem op (c :: cs) = t ++ shownItem op cs → Apart cs → Block op m s (itemChildren op ind (c :: cs) s) (gaps (c :: cs) ++ shownItem op (c :: cs)) (refss op (c :: cs)) := by
      intro s1 t h1 e1 e2 ha'
      have h2 := children_good op cs m ind s1 ha' hi.2 hw h1.j h1.buf (fun hm => h1.no.1 hm (h0 hm))
      rw [e1, e2]
      unfold refss gaps
      refine (h1.trans h2).less ?_
      rw [← List.append_assoc]
      exact (Sim.refl _).append ((Sim.white (gaps_white cs)).append (Sim.refl _))
    cases c with
    | paragraph ps =>
      have hps : Inls op ps := by have := hi.1; unfold Ok at this; exact this
      have h1 := inls_block m ind ps s hps hj hb
      have ha1 : (cs = [] ∨ startsList cs) ∧ Apart cs := ha
      have h2 := children_good op cs m ind _ ha1.2 hi.2 hw h1.j h1.buf (fun hm => h1.no.1 hm (h0 hm))
      have e : gaps (Node.paragraph ps :: cs) = [] := rfl
      rw [e]
      unfold itemChildren shownItem refss refs
      refine ((h1.trans h2).less ?_)
      rw [List.nil_append, List.append_assoc]
      refine (Sim.refl _).append ?_
      rcases ha1.1 with hc | hc
      · subst hc
        exact Sim.refl _
      · cases cs with
        | nil => exact hc.elim
        | cons d ds =>
          cases d with
          | list o st is => exact Sim.refl _
          | _ => exact hc.elim
    | root _ => exact step _ _ (node_good op _ m ind s hi.1 hw hj hb h0) rfl rfl ha
    | list _ _ _ => exact step _ _ (node_good op _ m ind s hi.1 hw hj hb h0) rfl rfl ha
    | item _ => exact step _ _ (node_good op _ m ind s hi.1 hw hj hb h0) rfl rfl ha
    | code _ _ => exact step _ _ (node_good op _ m ind s hi.1 hw hj hb h0) rfl rfl ha
    | heading _ _ => exact step _ _ (node_good op _ m ind s hi.1 hw hj hb h0) rfl rfl ha
    | _ => have := hi.1; unfold Ok at this; exact this.elim

end

theorem definitions_le : ∀ {rs ls : List (Chars × Chars)}, Forall2 (fun r l => Le r.1 l.1 ∧ r.2 = l.2) rs ls → ∀ {a b : Chars},
    KeepsText false a b → KeepsText false (a ++ rs.flatMap (fun r => "\n[".toList ++ r.1 ++ "]: ".toList ++ r.2)) (b ++ definitions ls) := by
  intro rs ls h
  induction h with
  | nil => intro a b hab; unfold definitions; rw [List.flatMap_nil, List.append_nil, List.append_nil]; exact hab
  | @cons r l rs ls hrl t ih =>
    intro a b hab
    rw [List.flatMap_cons]
    have hend : ∀ x : Chars, endWhite false (x ++ "\n[".toList) = false := by
      intro x; rw [endWhite_append]; rfl
    have hopen : Le (a ++ "\n[".toList) (b ++ "\n[".toList) := by
      refine ⟨?_, fun h => (by rw [hend] at h; cases h)⟩
      unfold KeepsText
      rw [marks_append, marks_append]
      refine Keeps.append hab ?_
      exact keeps_marks "[".toList id
    have h1 := (hopen.seal hrl.1 (hend a) (hend b)).append (Sim.refl ("]: ".toList ++ r.2))
    have h2 := ih h1.1
    have e : definitions (l :: ls) = "\n[".toList ++ l.1 ++ "]: ".toList ++ l.2 ++ definitions ls := rfl
    rw [e, ← hrl.2]
    simp only [List.append_assoc] at h2 ⊢
    exact h2

/-- C204: the rendered comment has the text of the Markdown that is to be shown, in order: the markers, the labels and URLs of
links, code, the numbers of lists, and the definitions of references. Only white space is added, and some is removed at the ends
of lines, but never all of it between two words. -/
theorem md_keeps_partial (op : Opts) (n : Node) (h : Ok op .top n) : KeepsText false (shownDoc op n) (render op n) := by
  have h1 := node_good op n .top [] {} h (fun _ h => nomatch h) ⟨(fun _ h => nomatch h), fun _ => ⟨rfl, rfl⟩, fun hx => absurd rfl hx⟩ rfl (fun _ => rfl)
  obtain ⟨new, hl, hf⟩ := h1.links
  have hle : Le (shown op n) (view (node op [] n {})) := by
    have := h1.le
    have e : view {} = [] := rfl
    rw [e, List.nil_append] at this
    refine Le.trans ?_ this
    exact ((Sim.white (gap_white n)).append (Sim.refl (shown op n))).le
  have hl' : (node op [] n {}).links = new := by rw [hl]; rfl
  unfold render shownDoc
  dsimp only
  have hv : view (node op [] n {}) = ov (node op [] n {}).o ++ List.replicate (node op [] n {}).leftover '\n' := by
    unfold view
    rw [h1.buf]
    simp
  have ht : KeepsText false (shown op n) (node op [] n {}).o.text := by
    have := hle.1
    rw [hv] at this
    exact keeps_trans (keeps_cut (nls_white _) this) (ov_text _)
  have ht' : KeepsText false (shown op n) ((node op [] n {}).o.text ++ List.replicate (node op [] n {}).leftover '\n') := by
    unfold KeepsText
    rw [marks_append, marks_white (nls_white _), List.append_nil]
    exact ht
  rw [hl']
  have hd := definitions_le hf ht'
  split
  · rename_i he
    have hnew : new = [] := List.isEmpty_iff.1 he
    rw [hnew] at hf
    generalize refs op n = rs at hf
    cases hf
    rw [List.flatMap_nil, List.append_nil]
    exact ht
  · exact hd

/-- A tree with many things in it. -/
def sampleDoc : Node := .root [.heading 2 [.text "Title".toList], .paragraph [.text "Some ".toList, .strong [.text "bold".toList],
  .text " and ".toList, .link "u".toList [.text "linked".toList], .text " text.".toList],
  .list true 1 [.item [.paragraph [.text "one".toList]], .item [.paragraph [.inlineCode "x".toList]]],
  .list false 1 [.item [.paragraph [.text "three".toList], .list false 1 [.item [.paragraph [.text "four".toList]]]]],
  .code (some "rs".toList) "f()".toList]

example : Ok { shortcut := true, cfg := { limit := some 12 } } .top sampleDoc ∧
    render { shortcut := true, cfg := { limit := some 12 } } sampleDoc =
      "## Title\n\nSome **bold**\n and [linked]\n text.\n\n1. one\n2. `x`\n- three\n    - four\n\n\n\n\n```rs\nf()\n```\n\n[linked]: u".toList := by
  refine ⟨?_, by decide +kernel⟩
  simp [sampleDoc, Ok, Oks, Inl, Inls, Leaves, Apart, startsList, Wrappable, escape]

end Verif.Render.Md
