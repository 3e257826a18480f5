import Verif.Render.MdProps
/-
C205: the items of a numbered list are numbered.
-/
namespace Verif.Render.Md
open Verif.Util (Chars)

/-- The lines of a numbered list from a number on. -/
def numbered (ind : Chars) : Nat → List Chars → List Chars
  | _, [] => []
  | k, t :: ts => (ind ++ (Nat.repr k).toList ++ ". ".toList ++ t) :: numbered ind (k + 1) ts

theorem splitNl_line : ∀ t : Chars, '\n' ∉ t → splitNl t = [t] := by
  intro t
  induction t with
  | nil => intro _; rfl
  | cons c t ih =>
    intro h
    rw [List.mem_cons, not_or] at h
    unfold splitNl
    rw [if_neg (fun e => h.1 e.symm), ih h.2]

theorem escape_none {op : Opts} (h : op.escBackslashes = false) (h' : op.escBrackets = false) (t : Chars) : escape op t = t := by
  unfold escape
  rw [h, h']
  rfl

/-- One item. -/
theorem item_exact {op : Opts} (hn : op.cfg.limit = none) (h1 : op.escBackslashes = false) (h2 : op.escBrackets = false) (ind t : Chars)
    (ht : '\n' ∉ t) (s : St) (hl : s.leftover = 0) (hb : s.buf = none) (hs : s.o.space = false) (hk : s.skip = true) :
    node op ind (.item [.paragraph [.text t]]) s = { s with o := { s.o with text := s.o.text ++ t } } := by
  unfold node itemChildren nodes node nodes itemChildren
  rw [enter_zero _ hl, enter_zero _ hl, escape_none h1 h2]
  unfold St.addText
  rw [hb, hn]
  dsimp only
  rw [if_neg (by simp), splitNl_line t ht, hk]
  unfold rawLines rawLines
  simp

/-- All items. -/
theorem items_exact {op : Opts} (hn : op.cfg.limit = none) (h1 : op.escBackslashes = false) (h2 : op.escBrackets = false) (ind : Chars) :
    ∀ (ts : List Chars), (∀ t ∈ ts, '\n' ∉ t) → ∀ (s : St), s.leftover ≤ 1 → s.buf = none → s.o.space = false →
    (items op ind true (ts.map fun t => .item [.paragraph [.text t]]) s).o.text = s.o.text ++
      (match ts with
        | [] => []
        | _ :: _ => List.replicate s.leftover '\n') ++ joinNl (numbered ind (s.itemNo + 1) ts) ∧
    (items op ind true (ts.map fun t => .item [.paragraph [.text t]]) s).links = s.links := by
  intro ts
  induction ts with
  | nil =>
    intro _ s _ _ _
    rw [List.map_nil]
    unfold items numbered joinNl
    simp
  | cons t ts ih =>
    intro ht s hl hb hs
    rw [List.map_cons]
    unfold items
    dsimp only
    have hpre : ∃ pre cur, (if 0 < s.leftover then St.blanks s.leftover { s with leftover := 0, pre := [] } else { s with leftover := 0 }) =
        { s with leftover := 0, pre := pre, o := { s.o with text := s.o.text ++ List.replicate s.leftover '\n', cur := cur } } := by
      by_cases h0 : s.leftover = 0
      · refine ⟨s.pre, s.o.cur, ?_⟩
        rw [h0, if_neg (by omega)]
        simp
      · have h1 : s.leftover = 1 := by omega
        refine ⟨[], 0, ?_⟩
        rw [h1, if_pos (by omega)]
        unfold St.blanks St.blanks St.blank Out.ln
        dsimp only
        rw [hs]
        rfl
    obtain ⟨pre, cur, hpre⟩ := hpre
    rw [hpre]
    dsimp only
    rw [piece_none (by exact hb)]
    dsimp only
    rw [item_exact hn h1 h2 ind t (ht t List.mem_cons_self) _ rfl rfl (unbroken_space ..) rfl]
    generalize hs' : ({ o := _, level := _, itemNo := _, links := _, leftover := _, pre := _, skip := _, buf := _ } : St) = s'
    have hl' : s'.leftover = 1 := by rw [← hs']
    have hb' : s'.buf = none := by rw [← hs']
    have hsp : s'.o.space = false := by rw [← hs']; exact unbroken_space ..
    have hno : s'.itemNo = s.itemNo + 1 := by rw [← hs']
    have hlk : s'.links = s.links := by rw [← hs']
    have htx : s'.o.text = (Out.unbroken op.cfg (itemLabel true (s.itemNo + 1) ind) (List.replicate (len (itemLabel true (s.itemNo + 1) ind)) ' ')
        { s.o with text := s.o.text ++ List.replicate s.leftover '\n', cur := cur }).text ++ t := by rw [← hs']
    obtain ⟨e1, e2⟩ := ih (fun u hu => ht u (List.mem_cons_of_mem _ hu)) s' (by omega) hb' hsp
    refine ⟨?_, e2.trans hlk⟩
    refine e1.trans ?_
    rw [htx, hl', hno]
    rw [unbroken_free hn _ _ (by exact hs)]
    dsimp only
    unfold numbered itemLabel
    rw [if_pos rfl]
    cases ts with
    | nil => unfold numbered joinNl joinNl; simp
    | cons u us => simp [numbered, joinNl]

/-- How far the items of a list that is in no other list are from the margin: not at all unless the options say so, and then one
space for the numbers of Go and two otherwise. -/
def margin (op : Opts) (ordered : Bool) : Nat :=
  if op.indentFirst then (if op.goIndent && ordered then 1 else 2) else 0

theorem listIndent_first (op : Opts) (ordered : Bool) : listIndent op 1 ordered [] = List.replicate (margin op ordered) ' ' := by
  unfold listIndent margin
  cases op.indentFirst <;> cases op.goIndent <;> cases ordered <;> rfl

/-- C205: the margin of a list in a list, which is one more space for the numbers of Go and two more otherwise. -/
theorem listIndent_nested (op : Opts) (level : Nat) (ordered : Bool) (ind : Chars) (h : 1 < level) :
    listIndent op level ordered ind = ind ++ List.replicate (if op.goIndent && ordered then 1 else 2) ' ' := by
  unfold listIndent
  rw [if_neg (by omega)]
  cases op.goIndent <;> cases ordered <;> rfl

/-- C205: the items of a list that starts with one are numbered 1, 2, 3 and so on, each on a line. Each item is a line here, and
lines have no limit. -/
theorem numbers_partial (op : Opts) (hn : op.cfg.limit = none) (h1 : op.escBackslashes = false) (h2 : op.escBrackets = false)
    (ts : List Chars) (ht : ∀ t ∈ ts, '\n' ∉ t) :
    ∃ ind : Chars, ind = List.replicate (margin op true) ' ' ∧
      render op (.root [.list true 1 (ts.map fun t => .item [.paragraph [.text t]])]) = '\n' :: joinNl (numbered ind 1 ts) := by
  refine ⟨listIndent op 1 true [], listIndent_first op true, ?_⟩
  · unfold render node nodes nodes node
    rw [enter_zero _ rfl]
    dsimp only
    rw [enter_zero _ (by rfl)]
    obtain ⟨e1, e2⟩ := items_exact hn h1 h2 (listIndent op 1 true []) ts ht ({ level := 1 } : St).blank (Nat.zero_le _) rfl rfl
    have e2' : (items op (listIndent op 1 true []) true (ts.map fun t => .item [.paragraph [.text t]]) ({ level := 1 } : St).blank).links = [] := e2
    simp only [Nat.zero_add]
    rw [e2', if_pos (by rfl), e1]
    cases ts <;> rfl

example : numbered [] 1 ["one".toList, "two".toList] = ["1. one".toList, "2. two".toList] ∧
    render {} (.root [.list true 1 (["one".toList, "two".toList].map fun t => .item [.paragraph [.text t]])]) = "\n1. one\n2. two".toList := by
  decide +kernel

end Verif.Render.Md
