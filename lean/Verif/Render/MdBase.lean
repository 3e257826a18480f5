import Verif.Render.MdSpec
import Verif.Util.Forall2
/-
The steps of the Markdown renderer (for C204–C206).
-/
namespace Verif.Render.Md
open Verif.Util (Chars Forall2)
open Verif.Markdown (isWhite)

/-! ### Texts that keep others -/

/-- `b` has the text of `a`, and ends with white space if `a` does. -/
def Le (a b : Chars) : Prop := KeepsText false a b ∧ (endWhite false a = true → endWhite false b = true)

/-- The same wherever they are. -/
def Sim (t x : Chars) : Prop :=
  ∀ b b' : Bool, (b = true → b' = true) → Keeps false (marks b t) (marks b' x) ∧ (endWhite b t = true → endWhite b' x = true)

theorem keeps_trans {a b c : List (Char × Bool)} (h : Keeps false a b) (h' : Keeps false b c) : Keeps false a c := by
  induction h generalizing c with
  | nil => exact h'
  | same x hb _ ih =>
    cases h' with
    | same _ hb' t => exact .same x (fun h => hb' (hb h)) (ih t)
    | other _ h _ => cases h
  | other x h _ _ => cases h

theorem Sim.refl (t : Chars) : Sim t t := fun _ _ h => ⟨keeps_marks t h, endWhite_mono h t⟩

theorem Sim.append {a b c d : Chars} (h : Sim a b) (h' : Sim c d) : Sim (a ++ c) (b ++ d) := by
  intro p q hpq
  rw [marks_append, marks_append, endWhite_append, endWhite_append]
  obtain ⟨h1, h2⟩ := h p q hpq
  obtain ⟨h3, h4⟩ := h' _ _ h2
  exact ⟨h1.append h3, h4⟩

theorem Sim.white {w : Chars} (h : ∀ c ∈ w, isWhite c = true) : Sim [] w := by
  intro p q hpq
  rw [marks_white h]
  refine ⟨.nil, fun hp => ?_⟩
  by_cases hw : w = []
  · subst hw; exact hpq hp
  · exact endWhite_white h _ hw

theorem Sim.le {t x : Chars} (h : Sim t x) : Le t x := h false false id

theorem Le.refl (a : Chars) : Le a a := (Sim.refl a).le

theorem Le.trans {a b c : Chars} (h : Le a b) (h' : Le b c) : Le a c := ⟨keeps_trans h.1 h'.1, fun he => h'.2 (h.2 he)⟩

theorem Le.append {a b t x : Chars} (h : Le a b) (h' : Sim t x) : Le (a ++ t) (b ++ x) := by
  unfold Le KeepsText
  rw [marks_append, marks_append, endWhite_append, endWhite_append]
  obtain ⟨h3, h4⟩ := h' _ _ h.2
  exact ⟨h.1.append h3, h4⟩

theorem Le.white {a w : Chars} (h : ∀ c ∈ w, isWhite c = true) : Le a (a ++ w) := by
  have := (Le.refl a).append (Sim.white h)
  rw [List.append_nil] at this
  exact this

theorem Le.seal {a b r l : Chars} (h : Le a b) (h' : Le r l) (ha : endWhite false a = false) (hb : endWhite false b = false) :
    Le (a ++ r) (b ++ l) := by
  unfold Le KeepsText
  rw [marks_append, marks_append, endWhite_append, endWhite_append, ha, hb]
  exact ⟨h.1.append h'.1, h'.2⟩

/-! ### What has been written -/

/-- The text with the space that is pending. -/
def ov (o : Out) : Chars := o.text ++ (if o.space then [' '] else [])

theorem sp_all : ∀ c ∈ [' '], isWhite c = true := fun c hc => by rw [List.mem_singleton.1 hc]; exact sp_white
theorem nl_all : ∀ c ∈ ['\n'], isWhite c = true := fun c hc => by rw [List.mem_singleton.1 hc]; exact nl_white

theorem keeps_cut {s x w : Chars} (hw : ∀ c ∈ w, isWhite c = true) (h : KeepsText false s (x ++ w)) : KeepsText false s x := by
  unfold KeepsText at h ⊢
  rw [marks_append, marks_white hw, List.append_nil] at h
  exact h

theorem kept_iff {s : Chars} {o : Out} : Kept false s o ↔ Le s (ov o) := by
  unfold Kept Le ov
  cases hs : o.space with
  | false =>
    rw [if_neg (Bool.noConfusion : ¬ false = true), List.append_nil]
    exact ⟨fun ⟨h1, h2⟩ => ⟨h1, fun he => (h2 he).resolve_right (fun h => nomatch h)⟩, fun ⟨h1, h2⟩ => ⟨h1, fun he => .inl (h2 he)⟩⟩
  | true =>
    rw [if_pos rfl]
    refine ⟨fun ⟨h1, _⟩ => ⟨?_, fun _ => ?_⟩, fun ⟨h1, _⟩ => ⟨keeps_cut sp_all h1, fun _ => .inr rfl⟩⟩
    · unfold KeepsText
      rw [marks_append, marks_white sp_all, List.append_nil]; exact h1
    · rw [endWhite_append]; rfl

theorem le_unbroken {o : Out} (cfg : WrapCfg) {pre : Chars} (hp : ∀ c ∈ pre, isWhite c = true) (x : Chars) :
    Le (ov o ++ x) (ov (o.unbroken cfg x pre)) :=
  kept_iff.1 (kept_unbroken cfg hp x (kept_iff.2 (Le.refl _)))

theorem le_ln {o : Out} {s pre : Chars} (hp : ∀ c ∈ pre, isWhite c = true) (h : KeepsText false s o.text) {w : Chars}
    (hw : ∀ c ∈ w, isWhite c = true) : Le (s ++ w) (ov (o.ln pre)) :=
  kept_iff.1 (kept_ln hp (keeps_trail hw h))

theorem ov_text (o : Out) : KeepsText false (ov o) o.text := (kept_iff.2 (Le.refl (ov o))).1

theorem le_words {o : Out} (cfg : WrapCfg) {pre : Chars} (hp : ∀ c ∈ pre, isWhite c = true) (t : Chars) (ht : Wrappable cfg t)
    (hs : cfg.limit = none → o.space = false) : Le (ov o ++ t) (ov (o.words cfg t pre)) :=
  kept_iff.1 (kept_words cfg hp t ht hs (kept_iff.2 (Le.refl _)))

/-- What has been written, and what is still to be written. -/
def view (s : St) : Chars := ov s.o ++ s.buf.getD [] ++ List.replicate s.leftover '\n'

/-- The invariant. -/
structure J (op : Opts) (s : St) : Prop where
  pre : ∀ c ∈ s.pre, isWhite c = true
  free : op.cfg.limit = none → s.o.space = false ∧ s.buf = none
  buf : s.buf ≠ none → s.leftover = 0

theorem nls_white (k : Nat) : ∀ c ∈ List.replicate k '\n', isWhite c = true := fun c hc => by
  rw [(List.mem_replicate.1 hc).2]; exact nl_white

theorem unbroken_space (cfg : WrapCfg) (t indent : Chars) (o : Out) : (o.unbroken cfg t indent).space = false := by
  unfold Out.unbroken
  split
  · rfl
  · split <;> rfl

/-- What the steps in a line leave alone. -/
structure Same (s s' : St) : Prop where
  pre : s'.pre = s.pre
  skip : s'.skip = s.skip
  no : s'.itemNo = s.itemNo
  left : s'.leftover = s.leftover
  buf : s.buf = none → s'.buf = none

theorem Same.refl (s : St) : Same s s := ⟨rfl, rfl, rfl, rfl, id⟩
theorem Same.trans {a b c : St} (h : Same a b) (h' : Same b c) : Same a c :=
  ⟨h'.pre.trans h.pre, h'.skip.trans h.skip, h'.no.trans h.no, h'.left.trans h.left, fun hb => h'.buf (h.buf hb)⟩

theorem view_zero {s : St} (h : s.leftover = 0) : view s = ov s.o ++ s.buf.getD [] := by
  unfold view; rw [h]; simp

theorem piece_some {op : Opts} {s : St} {b : Chars} (hb : s.buf = some b) (x : Chars) : s.piece op x = { s with buf := some (b ++ x) } := by
  unfold St.piece
  rw [hb]

theorem piece_none {op : Opts} {s : St} (hb : s.buf = none) (x : Chars) :
    s.piece op x = { s with o := s.o.unbroken op.cfg x s.pre, buf := none } := by
  unfold St.piece
  rw [hb]

theorem piece_step {op : Opts} {s : St} (h : J op s) (hl : s.leftover = 0) (x : Chars) :
    Le (view s ++ x) (view (s.piece op x)) ∧ J op (s.piece op x) ∧ Same s (s.piece op x) ∧ (s.piece op x).links = s.links := by
  rw [view_zero hl]
  cases hb : s.buf with
  | some b =>
    rw [piece_some hb]
    refine ⟨?_, ⟨h.pre, fun hn => ?_, fun _ => hl⟩, ⟨rfl, rfl, rfl, rfl, fun hx => ?_⟩, rfl⟩
    · rw [view_zero (by exact hl)]
      dsimp only [Option.getD_some]
      rw [List.append_assoc]
      exact Le.refl _
    · rw [(h.free hn).2] at hb; cases hb
    · rw [hb] at hx; cases hx
  | none =>
    rw [piece_none hb]
    refine ⟨?_, ⟨h.pre, fun hn => ⟨unbroken_space .., rfl⟩, fun hx => absurd rfl hx⟩, ⟨rfl, rfl, rfl, rfl, fun _ => rfl⟩, rfl⟩
    rw [view_zero (by exact hl)]
    dsimp only [Option.getD_none]
    rw [List.append_nil, List.append_nil]
    exact le_unbroken op.cfg h.pre x

theorem blank_step {op : Opts} {s : St} (h : J op s) (hb : s.buf = none) (hl : s.leftover = 0) {w : Chars} (hw : ∀ c ∈ w, isWhite c = true) :
    Le (view s ++ w) (view s.blank) ∧ J op s.blank ∧ Same s s.blank ∧ s.blank.links = s.links := by
  refine ⟨?_, ⟨h.pre, fun hn => ⟨rfl, hb⟩, h.buf⟩, ⟨rfl, rfl, rfl, rfl, id⟩, rfl⟩
  rw [view_zero hl, view_zero (s := s.blank) hl]
  unfold St.blank
  rw [hb]
  dsimp only [Option.getD_none]
  rw [List.append_nil, List.append_nil]
  exact le_ln h.pre (ov_text s.o) hw

theorem blanks_step {op : Opts} : ∀ (k : Nat) (s : St), J op s → s.buf = none → s.leftover = 0 →
    Le (view s ++ List.replicate k '\n') (view (s.blanks k)) ∧ J op (s.blanks k) ∧ Same s (s.blanks k) ∧ (s.blanks k).links = s.links := by
  intro k
  induction k with
  | zero =>
    intro s h _ _
    rw [List.replicate_zero, List.append_nil]
    exact ⟨Le.refl _, h, Same.refl s, rfl⟩
  | succ k ih =>
    intro s h hb hl
    obtain ⟨h1, h2, h3, h4⟩ := blank_step h hb hl nl_all
    obtain ⟨h5, h6, h7, h8⟩ := ih s.blank h2 (h3.buf hb) (h3.left.trans hl)
    refine ⟨?_, h6, h3.trans h7, h8.trans h4⟩
    have := (h1.append (Sim.refl (List.replicate k '\n'))).trans h5
    rw [List.append_assoc] at this
    exact this

theorem cond_step {op : Opts} {s : St} (h : J op s) (hb : s.buf = none) (hl : s.leftover = 0) :
    Le (view s) (view s.condBlank) ∧ J op s.condBlank ∧ Same s s.condBlank ∧ s.condBlank.links = s.links := by
  unfold St.condBlank
  split
  · exact ⟨Le.refl _, h, Same.refl s, rfl⟩
  · obtain ⟨h1, h2⟩ := blank_step h hb hl (w := []) (fun _ h => nomatch h)
    rw [List.append_nil] at h1
    exact ⟨h1, h2⟩

/-- The newlines that are left over are written. -/
def enter0 (s : St) : St := St.blanks s.leftover { s with leftover := 0 }

theorem blanks_left : ∀ (k : Nat) (s : St), (s.blanks k).leftover = s.leftover := by
  intro k
  induction k with
  | zero => intro s; rfl
  | succ k ih => intro s; exact ih s.blank

theorem enter0_left (s : St) : (enter0 s).leftover = 0 := blanks_left _ _

theorem enter0_zero {s : St} (h : s.leftover = 0) : enter0 s = s := by
  unfold enter0
  rw [h]
  cases s
  cases h
  rfl

theorem enter_zero {s : St} (n : Node) (h : s.leftover = 0) : enter n s = s := by
  have e : ({ s with leftover := 0 } : St) = s := by cases s; cases h; rfl
  unfold enter
  dsimp only
  rw [h]
  cases n <;> exact e

theorem enter_eq {n : Node} (h : ∀ o st is, n ≠ .list o st is) (s : St) : enter n s = enter0 s := by
  unfold enter enter0
  cases n with
  | list o st is => exact absurd rfl (h o st is)
  | _ => rfl

/-- After entering. -/
theorem enter_step {op : Opts} {s : St} (h : J op s) (hb : s.buf = none) :
    Le (view s) (view (enter0 s)) ∧ J op (enter0 s) ∧ (enter0 s).buf = none ∧ (enter0 s).pre = s.pre ∧ (enter0 s).itemNo = s.itemNo ∧
      (enter0 s).links = s.links := by
  have hj : J op { s with leftover := 0 } := ⟨h.pre, h.free, fun _ => rfl⟩
  obtain ⟨h1, h2, h3, h4⟩ := blanks_step s.leftover { s with leftover := 0 } hj hb rfl
  refine ⟨?_, h2, h3.buf hb, h3.pre, h3.no, h4⟩
  rw [view_zero (s := { s with leftover := 0 }) rfl] at h1
  exact h1

theorem start_step {op : Opts} {s : St} (h : J op s) (hl : s.leftover = 0) (x : Chars) :
    Le (view s ++ x) (view (s.start op x)) ∧ J op (s.start op x) ∧ (s.start op x).pre = s.pre ∧ (s.start op x).skip = s.skip ∧
      (s.start op x).itemNo = s.itemNo ∧ (s.start op x).leftover = 0 ∧ (s.start op x).links = s.links := by
  unfold St.start
  dsimp only
  cases hlim : op.cfg.limit with
  | none =>
    obtain ⟨h1, h2⟩ := h.free hlim
    rw [h2]
    rw [if_neg (by simp)]
    refine ⟨?_, ⟨h.pre, fun _ => ⟨h1, h2⟩, fun hx => absurd h2 hx⟩, rfl, rfl, rfl, hl, rfl⟩
    rw [view_zero hl, view_zero (by exact hl)]
    unfold ov
    dsimp only
    rw [h2, h1]
    simp only [Option.getD_none, List.append_nil, if_neg (Bool.noConfusion : ¬ false = true)]
    exact Le.refl _
  | some max =>
    rw [if_pos (by simp)]
    cases hb : s.buf with
    | none =>
      refine ⟨?_, ⟨h.pre, fun hn => (by rw [hlim] at hn; cases hn), fun _ => hl⟩, rfl, rfl, rfl, hl, rfl⟩
      rw [view_zero hl, view_zero (by exact hl), hb]
      simp only [Option.getD_none, Option.getD_some, List.append_nil]
      exact Le.refl _
    | some b =>
      refine ⟨?_, ⟨h.pre, fun hn => (by rw [hlim] at hn; cases hn), fun _ => hl⟩, rfl, rfl, rfl, hl, rfl⟩
      rw [view_zero hl, view_zero (by exact hl), hb]
      simp only [Option.getD_some]
      exact (le_unbroken op.cfg h.pre b).append (Sim.refl x)

theorem finish_step {op : Opts} {s : St} (h : J op s) (hl : s.leftover = 0) (x : Chars) :
    Le (view s ++ x) (view (s.finish op x)) ∧ J op (s.finish op x) ∧ (s.finish op x).pre = s.pre ∧ (s.finish op x).skip = s.skip ∧
      (s.finish op x).itemNo = s.itemNo ∧ (s.finish op x).leftover = 0 ∧ (s.finish op x).buf = none ∧ (s.finish op x).links = s.links := by
  have hj : J op { s with buf := none } := ⟨h.pre, fun hn => ⟨(h.free hn).1, rfl⟩, fun hx => absurd rfl hx⟩
  unfold St.finish
  obtain ⟨h1, h2, h3, h4⟩ := piece_step hj hl (match s.buf with
    | some b => b ++ x
    | none => x)
  refine ⟨?_, h2, h3.pre, h3.skip, h3.no, h3.left.trans hl, h3.buf rfl, h4⟩
  refine Le.trans ?_ h1
  rw [view_zero hl, view_zero (s := { s with buf := none }) hl]
  cases hb : s.buf with
  | none => exact Le.refl _
  | some b =>
    simp only [Option.getD_none, Option.getD_some, List.append_nil, List.append_assoc]
    exact Le.refl _

/-! ### Texts -/

/-- The lines with line breaks between them. -/
def joinNl : List Chars → Chars
  | [] => []
  | l :: ls => l ++ (if ls.isEmpty then [] else '\n' :: joinNl ls)

theorem join_one (l : Chars) : joinNl [l] = l := by simp [joinNl]

theorem splitNl_ne (t : Chars) : splitNl t ≠ [] := by
  cases t with
  | nil => exact List.cons_ne_nil _ _
  | cons c t =>
    unfold splitNl
    split
    · exact List.cons_ne_nil _ _
    · split <;> exact List.cons_ne_nil _ _

theorem join_split (t : Chars) : joinNl (splitNl t) = t := by
  induction t with
  | nil => rfl
  | cons c t ih =>
    unfold splitNl
    split
    · rename_i h
      unfold joinNl
      rw [if_neg (by simpa using splitNl_ne t), ih, h]; rfl
    · split
      · rename_i h; exact absurd h (splitNl_ne t)
      · rename_i l ls h
        rw [h] at ih
        unfold joinNl at ih ⊢
        rw [List.cons_append, ih]

theorem raw_sim (pre : Chars) (skip : Bool) (hp : ∀ c ∈ pre, isWhite c = true) : ∀ (ls : List Chars),
    (∀ (l : Chars), Sim (joinNl (l :: ls)) (rawLines pre skip true (l :: ls))) ∧
      (∀ (l : Chars), Sim ('\n' :: joinNl (l :: ls)) (rawLines pre skip false (l :: ls))) := by
  intro ls
  have hmaybe : ∀ (c : Prop) [Decidable c], Sim [] (if c then pre else []) := by
    intro c _
    split
    · exact Sim.white hp
    · exact Sim.refl []
  induction ls with
  | nil =>
    refine ⟨fun l => ?_, fun l => ?_⟩
    · rw [join_one]
      unfold rawLines rawLines
      rw [if_pos rfl, List.nil_append, List.append_nil]
      exact (hmaybe _).append (Sim.refl l)
    · rw [join_one]
      unfold rawLines rawLines
      rw [if_neg (Bool.noConfusion : ¬ false = true), List.append_nil]
      have := ((Sim.refl ['\n']).append (hmaybe (pre ≠ [] ∧ (skip = false ∨ false = false)))).append (Sim.refl l)
      exact this
  | cons m ls ih =>
    refine ⟨fun l => ?_, fun l => ?_⟩
    · unfold rawLines
      rw [if_pos rfl, List.nil_append]
      have := ((hmaybe (pre ≠ [] ∧ (skip = false ∨ true = false))).append (Sim.refl l)).append (ih.2 m)
      exact this
    · unfold rawLines
      rw [if_neg (Bool.noConfusion : ¬ false = true)]
      have := (((Sim.refl ['\n']).append (hmaybe (pre ≠ [] ∧ (skip = false ∨ false = false)))).append (Sim.refl l)).append (ih.2 m)
      exact this

theorem words_nil (cfg : WrapCfg) (max : Nat) (h : cfg.limit = some max) (pre : Chars) (o : Out) :
    o.words cfg [] pre = { o with space := false } := by
  unfold Out.words
  rw [h]
  cases cfg.ignoreNewlines <;> rfl

/-- The lines after the first. -/
theorem wrap_next {op : Opts} (max : Nat) (hl : op.cfg.limit = some max) (hg : op.cfg.ignoreNewlines = false) : ∀ (ls : List Chars)
    (l s : Chars) (st : St), (∀ c ∈ st.pre, isWhite c = true) → KeepsText false s st.o.text →
    Le (s ++ '\n' :: joinNl (l :: ls)) (ov (St.wrapLines op false (l :: ls) st).o) := by
  have hline : ∀ (l s : Chars) (st : St), (∀ c ∈ st.pre, isWhite c = true) → KeepsText false s st.o.text →
      Le (s ++ '\n' :: l) (ov ((st.blank).o.words op.cfg l st.pre)) := by
    intro l s st hp h
    have h1 : Le (s ++ ['\n']) (ov st.blank.o) := le_ln hp h nl_all
    cases l with
    | nil =>
      rw [words_nil op.cfg max hl]
      exact h1
    | cons c l =>
      have h2 := le_words (o := st.blank.o) op.cfg hp (c :: l) (.inr ⟨by simp, fun h => (by rw [hg] at h; cases h)⟩)
        (fun h => (by rw [hl] at h; cases h))
      have := (h1.append (Sim.refl (c :: l))).trans h2
      rw [List.append_assoc] at this
      exact this
  intro ls
  induction ls with
  | nil =>
    intro l s st hp h
    have := hline l s st hp h
    rw [join_one]
    exact this
  | cons m ls ih =>
    intro l s st hp h
    have h1 := hline l s st hp h
    have h2 := ih m (s ++ '\n' :: l) { st.blank with o := st.blank.o.words op.cfg l st.pre } hp
      (keeps_trans h1.1 (ov_text _))
    rw [List.append_assoc] at h2
    exact h2

theorem wrap_first {op : Opts} (max : Nat) (hl : op.cfg.limit = some max) (hg : op.cfg.ignoreNewlines = false) (t : Chars) (ht : t ≠ [])
    (st : St) (hp : ∀ c ∈ st.pre, isWhite c = true) : Le (ov st.o ++ t) (ov (St.wrapLines op true (splitNl t) st).o) := by
  have hj := join_split t
  cases hs : splitNl t with
  | nil => exact absurd hs (splitNl_ne t)
  | cons l ls =>
    rw [hs] at hj
    rw [← hj]
    unfold St.wrapLines
    dsimp only
    rw [if_pos rfl]
    cases ls with
    | nil =>
      rw [join_one] at hj ⊢
      rw [hj]
      exact le_words op.cfg hp t (.inr ⟨ht, fun h => (by rw [hg] at h; cases h)⟩) (fun h => (by rw [hl] at h; cases h))
    | cons m ls =>
      have hk : KeepsText false (ov st.o ++ l) (st.o.words op.cfg l st.pre).text := by
        cases l with
        | nil =>
          rw [words_nil op.cfg max hl, List.append_nil]
          exact ov_text st.o
        | cons c l =>
          have := le_words (o := st.o) op.cfg hp (c :: l) (.inr ⟨by simp, fun h => (by rw [hg] at h; cases h)⟩)
            (fun h => (by rw [hl] at h; cases h))
          exact keeps_trans this.1 (ov_text _)
      have := wrap_next max hl hg ls m (ov st.o ++ l) { st with o := st.o.words op.cfg l st.pre } hp hk
      rw [List.append_assoc] at this
      exact this

theorem wrapLines_same (op : Opts) : ∀ (ls : List Chars) (first : Bool) (s : St),
    (St.wrapLines op first ls s).pre = s.pre ∧ (St.wrapLines op first ls s).skip = s.skip ∧
      (St.wrapLines op first ls s).itemNo = s.itemNo ∧ (St.wrapLines op first ls s).leftover = s.leftover ∧
      (St.wrapLines op first ls s).buf = s.buf ∧ (St.wrapLines op first ls s).links = s.links := by
  intro ls
  induction ls with
  | nil => intro first s; exact ⟨rfl, rfl, rfl, rfl, rfl, rfl⟩
  | cons l ls ih =>
    intro first s
    cases first with
    | true => exact ih false { s with o := s.o.words op.cfg l s.pre }
    | false => exact ih false { s.blank with o := s.blank.o.words op.cfg l s.blank.pre }

theorem text_step {op : Opts} {s : St} (h : J op s) (hl : s.leftover = 0) (t : Chars) (ht : Wrappable op.cfg t) :
    Le (view s ++ t) (view (s.addText op t)) ∧ J op (s.addText op t) ∧ Same s (s.addText op t) ∧ (s.addText op t).links = s.links := by
  unfold St.addText
  cases hb : s.buf with
  | some b =>
    have := piece_step h hl t
    unfold St.piece at this
    rw [hb] at this
    exact this
  | none =>
    dsimp only
    cases hlim : op.cfg.limit with
    | none =>
      obtain ⟨h1, h2⟩ := h.free hlim
      rw [if_neg (by simp)]
      refine ⟨?_, ⟨h.pre, fun _ => ⟨h1, rfl⟩, fun hx => absurd rfl hx⟩, ⟨rfl, rfl, rfl, rfl, fun _ => rfl⟩, rfl⟩
      have hs : Sim t (rawLines s.pre s.skip true (splitNl t)) := by
        have hj := join_split t
        cases hs : splitNl t with
        | nil => exact absurd hs (splitNl_ne t)
        | cons l ls =>
          rw [hs] at hj
          conv => arg 1; rw [← hj]
          exact (raw_sim s.pre s.skip h.pre ls).1 l
      rw [view_zero hl, view_zero (by exact hl)]
      unfold ov
      dsimp only
      rw [h2, h1]
      simp only [Option.getD_none, List.append_nil, if_neg (Bool.noConfusion : ¬ false = true)]
      exact (Le.refl _).append hs
    | some max =>
      rw [if_pos (by simp)]
      have h1 : Le (view s) (view (if s.pre ≠ [] ∧ s.skip = false then s.piece op s.pre else s)) ∧
          J op (if s.pre ≠ [] ∧ s.skip = false then s.piece op s.pre else s) ∧
          Same s (if s.pre ≠ [] ∧ s.skip = false then s.piece op s.pre else s) ∧
          (if s.pre ≠ [] ∧ s.skip = false then s.piece op s.pre else s).links = s.links := by
        split
        · obtain ⟨k1, k2⟩ := piece_step h hl s.pre
          exact ⟨(Le.white h.pre).trans k1, k2⟩
        · exact ⟨Le.refl _, h, Same.refl s, rfl⟩
      generalize (if s.pre ≠ [] ∧ s.skip = false then s.piece op s.pre else s) = s1 at h1 ⊢
      obtain ⟨k1, k2, k3, k4⟩ := h1
      have hb1 := k3.buf hb
      have hl1 : s1.leftover = 0 := k3.left.trans hl
      have hov : view s1 = ov s1.o := by rw [view_zero hl1, hb1]; simp
      obtain ⟨hne, hw⟩ : t ≠ [] ∧ _ := by
        rcases ht with ht | ht
        · rw [hlim] at ht; cases ht
        · exact ht
      cases hg : op.cfg.ignoreNewlines with
      | true =>
        rw [if_pos rfl]
        refine ⟨?_, ⟨k2.pre, fun hn => (by rw [hlim] at hn; cases hn), k2.buf⟩, ?_, k4⟩
        · have := (k1.append (Sim.refl t)).trans (by
            rw [hov]
            exact le_words (o := s1.o) op.cfg k2.pre t ht (fun hn => (by rw [hlim] at hn; cases hn)))
          rw [view_zero (s := { s1 with o := s1.o.words op.cfg t s1.pre }) hl1, hb1]
          simp only [Option.getD_none, List.append_nil]
          exact this
        · exact ⟨k3.pre, k3.skip, k3.no, k3.left, k3.buf⟩
      | false =>
        rw [if_neg (Bool.noConfusion : ¬ false = true)]
        obtain ⟨w1, w2, w3, w4, w5, w6⟩ := wrapLines_same op (splitNl t) true s1
        refine ⟨?_, ⟨by rw [w1]; exact k2.pre, fun hn => (by rw [hlim] at hn; cases hn), by rw [w5, w4]; exact k2.buf⟩, ?_, w6.trans k4⟩
        · have := (k1.append (Sim.refl t)).trans (by
            rw [hov]
            exact wrap_first max hlim hg t hne s1 k2.pre)
          rw [view_zero (w4.trans hl1), w5, hb1]
          simp only [Option.getD_none, List.append_nil]
          exact this
        · exact ⟨w1.trans k3.pre, w2.trans k3.skip, w3.trans k3.no, w4.trans k3.left, fun hx => w5.trans (k3.buf hx)⟩

end Verif.Render.Md
