import Verif.Case.Letter
/-
C258: no letter is lost by a conversion. C259: conversions in sequence. C260: distinct names.
-/
namespace Verif.Case
open Verif.Util

/-! ### Words -/

def five : List Boundary := [.underscore, .hyphen, .space, .lowerUpper, .acronym]

theorem boundaries_eq (k : Convention) : k.converter.boundaries = five := by cases k <;> decide

def pat : Convention → Pattern
  | .lowerCase | .snakeCase | .kebabCase => .lowercase
  | .upperCase | .screamingSnakeCase | .screamingKebabCase => .uppercase
  | .titleCase | .pascalCase => .capital
  | .camelCase => .camel

def del : Convention → Chars
  | .lowerCase | .upperCase | .titleCase => [' ']
  | .snakeCase | .screamingSnakeCase => ['_']
  | .kebabCase | .screamingKebabCase => ['-']
  | .pascalCase | .camelCase => []

theorem pat_eq (k : Convention) : k.converter.pattern = pat k := by cases k <;> rfl
theorem del_eq (k : Convention) : k.converter.delim = del k := by cases k <;> rfl

/-- The words of a text. -/
def words (s : Chars) : List Chars := split five (undot s)

theorem convert_eq (k : Convention) (s : Chars) : convert k s = join (del k) ((pat k).mutate (words s)) := by
  unfold convert Converter.run words
  rw [boundaries_eq, pat_eq, del_eq]

def isSep (c : Char) : Bool := c = '_' || c = '-' || c = ' '

/-- Whether the case changes behind a character. -/
def caseCut (c : Char) : Chars → Bool
  | [] => false
  | b :: t => (c.isLower && b.isUpper) || (c.isUpper && b.isUpper && (t.head?.any Char.isLower))

theorem cut_eq (c : Char) (r : Chars) : five.findSome? (·.front (c :: r)) =
    if isSep c then some true else if caseCut c r then some false else none := by
  unfold isSep
  by_cases h1 : c = '_'
  · simp [five, Boundary.front, h1]
  by_cases h2 : c = '-'
  · simp [five, Boundary.front, h2]
  by_cases h3 : c = ' '
  · simp [five, Boundary.front, h3]
  match r with
  | [] => simp [five, Boundary.front, h1, h2, h3, caseCut]
  | [b] =>
    by_cases x : c.isLower = true <;> by_cases y : b.isUpper = true <;>
      simp [five, Boundary.front, h1, h2, h3, caseCut, x, y]
  | b :: d :: t =>
    by_cases x : c.isLower = true <;> by_cases y : b.isUpper = true <;> by_cases z : c.isUpper = true <;>
      by_cases e : d.isLower = true <;> simp [five, Boundary.front, h1, h2, h3, caseCut, x, y, z, e]

theorem go_cons (cur : Chars) (c : Char) (r : Chars) : splitGo five cur (c :: r) =
    if isSep c then cur :: splitGo five [] r else
      if caseCut c r then (cur ++ [c]) :: splitGo five [] r else splitGo five (cur ++ [c]) r := by
  rw [splitGo, cut_eq]
  by_cases h : isSep c
  · simp [h]
  · by_cases h' : caseCut c r <;> simp [h, h']

theorem isSep_delim {c : Char} (h : isSep c = true) : isDelim c = true := by
  unfold isSep at h; unfold isDelim; rw [h]; rfl

theorem delim_sep {c : Char} (h : isDelim c = true) (hd : c ≠ '.') : isSep c = true := by
  unfold isDelim at h; unfold isSep; simpa [hd] using h

theorem undot_delim (c : Char) : isDelim (if c = '.' then '_' else c) = isDelim c := by
  by_cases h : c = '.'
  · rw [if_pos h, h]; decide
  · rw [if_neg h]

theorem undot_no_dot {s : Chars} {c : Char} (h : c ∈ undot s) : c ≠ '.' := by
  unfold undot at h
  obtain ⟨d, _, rfl⟩ := List.mem_map.1 h
  by_cases e : d = '.'
  · rw [if_pos e]; decide
  · rw [if_neg e]; exact e

theorem undot_id {s : Chars} (h : ∀ c ∈ s, c ≠ '.') : undot s = s := by
  unfold undot
  conv => rhs; rw [← List.map_id s]
  exact List.map_congr_left fun c hc => if_neg (h c hc)

/-- No word has a delimiter, and together they are the text without delimiters. -/
theorem go_flatten (cur s : Chars) (hc : ∀ c ∈ cur, isSep c = false) :
    (splitGo five cur s).flatten = cur ++ s.filter (! isSep ·) ∧
    ∀ w ∈ splitGo five cur s, ∀ c ∈ w, isSep c = false := by
  induction s generalizing cur with
  | nil => exact ⟨by simp [splitGo], fun w hw => by rw [splitGo, List.mem_singleton] at hw; rw [hw]; exact hc⟩
  | cons c r ih =>
    rw [go_cons]
    have h0 := ih [] (fun _ h => by cases h)
    by_cases h : isSep c = true
    · rw [if_pos h]
      refine ⟨by simp [h0.1, h], fun w hw => ?_⟩
      rcases List.mem_cons.1 hw with e | hw
      · rw [e]; exact hc
      · exact h0.2 w hw
    · have h' : isSep c = false := by simpa using h
      have hcc : ∀ d ∈ cur ++ [c], isSep d = false := by
        intro d hd
        rcases List.mem_append.1 hd with hd | hd
        · exact hc d hd
        · rw [List.mem_singleton.1 hd]; exact h'
      rw [if_neg h]
      by_cases g : caseCut c r = true
      · rw [if_pos g]
        refine ⟨by simp [h0.1, h'], fun w hw => ?_⟩
        rcases List.mem_cons.1 hw with e | hw
        · rw [e]; exact hcc
        · exact h0.2 w hw
      · rw [if_neg g]
        have h1 := ih (cur ++ [c]) hcc
        exact ⟨by rw [h1.1]; simp [h'], h1.2⟩

theorem flatten_filter (ws : List Chars) : (ws.filter (· ≠ [])).flatten = ws.flatten := by
  induction ws with
  | nil => rfl
  | cons w ws ih => by_cases h : w = [] <;> simp_all

theorem words_mem {s w : Chars} (h : w ∈ words s) : w ≠ [] ∧ ∀ c ∈ w, isDelim c = false := by
  have h' := List.mem_filter.1 h
  have hg := go_flatten [] (undot s) (fun _ h => by cases h)
  refine ⟨by simpa using h'.2, fun c hc => ?_⟩
  have hs := hg.2 w h'.1 c hc
  have hm : c ∈ undot s := by
    have : c ∈ (splitGo five [] (undot s)).flatten := List.mem_flatten.2 ⟨w, h'.1, hc⟩
    rw [hg.1] at this
    rw [List.nil_append] at this
    exact (List.mem_filter.1 this).1
  cases e : isDelim c with
  | false => rfl
  | true => rw [delim_sep e (undot_no_dot hm)] at hs; cases hs

theorem words_flatten (s : Chars) : (words s).flatten = s.filter (! isDelim ·) := by
  unfold words split
  rw [flatten_filter, (go_flatten [] (undot s) (fun _ h => by cases h)).1, List.nil_append]
  unfold undot
  induction s with
  | nil => rfl
  | cons c r ih =>
    rw [List.map_cons]
    by_cases h : c = '.'
    · subst h
      rw [List.filter_cons_of_neg (by decide), List.filter_cons_of_neg (by decide), ih]
    · rw [if_neg h]
      by_cases g : isDelim c = true
      · rw [List.filter_cons_of_neg (by simp [delim_sep g h]), List.filter_cons_of_neg (by simp [g]), ih]
      · have g' : isSep c = false := by
          cases e : isSep c with
          | false => rfl
          | true => exact absurd (isSep_delim e) g
        rw [List.filter_cons_of_pos (by simp [g']), List.filter_cons_of_pos (by simpa using g), ih]

/-! ### C258 -/

/-- What a name says: its characters without delimiters, in lower case. -/
def plain (s : Chars) : Chars := (s.filter (! isDelim ·)).map Char.toLower

theorem plain_append (a b : Chars) : plain (a ++ b) = plain a ++ plain b := by simp [plain]

theorem plain_lower (w : Chars) : plain (lower w) = plain w := by
  unfold plain lower
  induction w with
  | nil => rfl
  | cons c r ih =>
    by_cases h : isDelim c = true
    · rw [List.map_cons, List.filter_cons_of_neg (by simp [isDelim_lower, h]), List.filter_cons_of_neg (by simp [h]), ih]
    · rw [List.map_cons, List.filter_cons_of_pos (by simpa [isDelim_lower] using h),
        List.filter_cons_of_pos (by simpa using h), List.map_cons, List.map_cons, ih, lower_lower]

theorem plain_upper (w : Chars) : plain (upper w) = plain w := by
  unfold plain upper
  induction w with
  | nil => rfl
  | cons c r ih =>
    by_cases h : isDelim c = true
    · rw [List.map_cons, List.filter_cons_of_neg (by simp [isDelim_upper, h]), List.filter_cons_of_neg (by simp [h]), ih]
    · rw [List.map_cons, List.filter_cons_of_pos (by simpa [isDelim_upper] using h),
        List.filter_cons_of_pos (by simpa using h), List.map_cons, List.map_cons, ih, lower_upper]

theorem plain_cap (w : Chars) : plain (cap w) = plain w := by
  cases w with
  | nil => rfl
  | cons c r =>
    show plain ([c.toUpper] ++ lower r) = plain ([c] ++ r)
    rw [plain_append, plain_append, plain_lower]
    exact congrArg (· ++ plain r) (plain_upper [c])

theorem plain_join {d : Chars} (hd : plain d = []) (ws : List Chars) : plain (join d ws) = (ws.map plain).flatten := by
  induction ws with
  | nil => rfl
  | cons w ws ih =>
    cases ws with
    | nil => simp [join]
    | cons v ws =>
      show plain (w ++ d ++ join d (v :: ws)) = _
      rw [plain_append, plain_append, hd, ih]
      simp

theorem plain_mutate (p : Pattern) (ws : List Chars) : (p.mutate ws).map plain = ws.map plain := by
  cases p with
  | lowercase => simp [Pattern.mutate, plain_lower]
  | uppercase => simp [Pattern.mutate, plain_upper]
  | capital => simp [Pattern.mutate, plain_cap]
  | camel => cases ws <;> simp [Pattern.mutate, plain_lower, plain_cap]

/-- **C258**: a conversion changes only the case of letters and delimiters. -/
theorem convert_keeps (k : Convention) (s : Chars) : plain (convert k s) = plain s := by
  rw [convert_eq, plain_join (by cases k <;> rfl), plain_mutate]
  have h : ∀ ws : List Chars, (ws.map plain).flatten = plain ws.flatten := by
    intro ws
    induction ws with
    | nil => rfl
    | cons w ws ih => rw [List.map_cons, List.flatten_cons, List.flatten_cons, plain_append, ih]
  rw [h, words_flatten]
  unfold plain
  rw [List.filter_filter]
  simp

/-- The cases of a word in a text that was converted. -/
def Cased : Pattern → Chars → Prop
  | .lowercase, w => ∀ c ∈ w, c.isUpper = false
  | .uppercase, w => ∀ c ∈ w, c.isLower = false
  | .capital, w => ∃ c r, w = c :: r ∧ c.isLower = false ∧ ∀ d ∈ r, d.isUpper = false
  | .camel, w => (∀ c ∈ w, c.isUpper = false) ∨ ∃ c r, w = c :: r ∧ c.isLower = false ∧ ∀ d ∈ r, d.isUpper = false

theorem lower_cased (w : Chars) : ∀ c ∈ lower w, c.isUpper = false := by
  intro c hc
  obtain ⟨d, _, rfl⟩ := List.mem_map.1 hc
  exact not_upper_lower d

theorem upper_cased (w : Chars) : ∀ c ∈ upper w, c.isLower = false := by
  intro c hc
  obtain ⟨d, _, rfl⟩ := List.mem_map.1 hc
  exact not_lower_upper d

theorem cap_cased {w : Chars} (h : w ≠ []) :
    ∃ c r, cap w = c :: r ∧ c.isLower = false ∧ ∀ d ∈ r, d.isUpper = false := by
  cases w with
  | nil => exact absurd rfl h
  | cons c r => exact ⟨_, _, rfl, not_lower_upper c, lower_cased r⟩

theorem no_delim_lower {w : Chars} (h : ∀ c ∈ w, isDelim c = false) : ∀ c ∈ lower w, isDelim c = false := by
  intro c hc
  obtain ⟨d, hd, rfl⟩ := List.mem_map.1 hc
  rw [isDelim_lower]; exact h d hd

theorem no_delim_upper {w : Chars} (h : ∀ c ∈ w, isDelim c = false) : ∀ c ∈ upper w, isDelim c = false := by
  intro c hc
  obtain ⟨d, hd, rfl⟩ := List.mem_map.1 hc
  rw [isDelim_upper]; exact h d hd

theorem no_delim_cap {w : Chars} (h : ∀ c ∈ w, isDelim c = false) : ∀ c ∈ cap w, isDelim c = false := by
  cases w with
  | nil => exact h
  | cons d r =>
    intro c hc
    rcases List.mem_cons.1 hc with e | hc
    · rw [e, isDelim_upper]; exact h d List.mem_cons_self
    · exact no_delim_lower (fun x hx => h x (List.mem_cons_of_mem _ hx)) c hc

theorem lower_ne {w : Chars} (h : w ≠ []) : lower w ≠ [] := by cases w <;> simp_all [lower]
theorem upper_ne {w : Chars} (h : w ≠ []) : upper w ≠ [] := by cases w <;> simp_all [upper]
theorem cap_ne {w : Chars} (h : w ≠ []) : cap w ≠ [] := by cases w <;> simp_all [cap]

theorem mutate_mem {p : Pattern} {ws : List Chars} (hw : ∀ w ∈ ws, w ≠ [] ∧ ∀ c ∈ w, isDelim c = false) :
    ∀ w ∈ p.mutate ws, w ≠ [] ∧ (∀ c ∈ w, isDelim c = false) ∧ Cased p w := by
  intro w h
  cases p with
  | lowercase =>
    obtain ⟨v, hv, rfl⟩ := List.mem_map.1 h
    exact ⟨lower_ne (hw v hv).1, no_delim_lower (hw v hv).2, lower_cased v⟩
  | uppercase =>
    obtain ⟨v, hv, rfl⟩ := List.mem_map.1 h
    exact ⟨upper_ne (hw v hv).1, no_delim_upper (hw v hv).2, upper_cased v⟩
  | capital =>
    obtain ⟨v, hv, rfl⟩ := List.mem_map.1 h
    exact ⟨cap_ne (hw v hv).1, no_delim_cap (hw v hv).2, cap_cased (hw v hv).1⟩
  | camel =>
    cases ws with
    | nil => cases h
    | cons v ws =>
      rcases List.mem_cons.1 h with e | h
      · rw [e]
        have hv := hw v List.mem_cons_self
        exact ⟨lower_ne hv.1, no_delim_lower hv.2, .inl (lower_cased v)⟩
      · obtain ⟨u, hu, rfl⟩ := List.mem_map.1 h
        have hv := hw u (List.mem_cons_of_mem _ hu)
        exact ⟨cap_ne hv.1, no_delim_cap hv.2, .inr (cap_cased hv.1)⟩

/-- **C258**: what is written are words in the case of the convention, between single delimiters of the convention. -/
theorem convert_shape (k : Convention) (s : Chars) : ∃ ws : List Chars, convert k s = join (del k) ws ∧
    ∀ w ∈ ws, w ≠ [] ∧ (∀ c ∈ w, isDelim c = false) ∧ Cased (pat k) w :=
  ⟨_, convert_eq k s, mutate_mem fun _ h => words_mem h⟩

/-- **C258**: `capitalize_first` changes the case of the first character only. -/
theorem capitalize_keeps (s : Chars) : (capitalizeFirst s).tail = s.tail ∧
    (capitalizeFirst s).head?.map Char.toLower = s.head?.map Char.toLower ∧ (∀ c, (capitalizeFirst s).head? = some c →
      c.isLower = false) := by
  cases s with
  | nil => exact ⟨rfl, rfl, fun c h => by cases h⟩
  | cons c r => exact ⟨rfl, by simp [capitalizeFirst, lower_upper], fun d h => by cases h; exact not_lower_upper c⟩

/-! ### C259 -/

/-- No boundary within a word. -/
def Quiet : Chars → Prop
  | [] => True
  | c :: r => isSep c = false ∧ caseCut c r = false ∧ Quiet r

theorem go_quiet {w : Chars} (h : Quiet w) (cur : Chars) : splitGo five cur w = [cur ++ w] := by
  induction w generalizing cur with
  | nil => simp [splitGo]
  | cons c r ih => rw [go_cons, if_neg (by simp [h.1]), if_neg (by simp [h.2.1]), ih h.2.2]; simp

theorem caseCut_append {c : Char} {r : Chars} {d : Char} (hd : isSep d = true) (t : Chars) :
    caseCut c (r ++ d :: t) = caseCut c r := by
  have h1 := delim_not_upper (isSep_delim hd)
  have h2 := delim_not_lower (isSep_delim hd)
  match r with
  | [] => simp [caseCut, h1]
  | [b] => simp [caseCut, h2]
  | b :: e :: r => simp [caseCut]

theorem go_sep {w : Chars} (h : Quiet w) {d : Char} (hd : isSep d = true) (cur t : Chars) :
    splitGo five cur (w ++ d :: t) = (cur ++ w) :: splitGo five [] t := by
  induction w generalizing cur with
  | nil => rw [List.nil_append, go_cons, if_pos hd]; simp
  | cons c r ih =>
    rw [List.cons_append, go_cons, if_neg (by simp [h.1]), caseCut_append hd, if_neg (by simp [h.2.1]), ih h.2.2]; simp

theorem split_join {d : Char} (hd : isSep d = true) {ws : List Chars} (hw : ∀ w ∈ ws, w ≠ [] ∧ Quiet w) :
    split five (join [d] ws) = ws := by
  unfold split
  induction ws with
  | nil => simp [join, splitGo]
  | cons w ws ih =>
    have h := hw w List.mem_cons_self
    cases ws with
    | nil =>
      show (splitGo five [] w).filter _ = _
      rw [go_quiet h.2]
      simp [h.1]
    | cons v ws =>
      show (splitGo five [] (w ++ [d] ++ join [d] (v :: ws))).filter _ = _
      rw [List.append_assoc, List.singleton_append, go_sep h.2 hd, List.filter_cons_of_pos (by simpa using h.1),
        ih fun x hx => hw x (List.mem_cons_of_mem _ hx)]
      rfl

theorem quiet_lower {w : Chars} (h : ∀ c ∈ w, isDelim c = false) (hu : ∀ c ∈ w, c.isUpper = false) : Quiet w := by
  induction w with
  | nil => trivial
  | cons c r ih =>
    refine ⟨?_, ?_, ih (fun x hx => h x (List.mem_cons_of_mem _ hx)) fun x hx => hu x (List.mem_cons_of_mem _ hx)⟩
    · cases e : isSep c with
      | false => rfl
      | true => exact absurd (isSep_delim e) (by simp [h c List.mem_cons_self])
    · cases r with
      | nil => rfl
      | cons b t => simp [caseCut, hu b (by simp)]

theorem quiet_upper {w : Chars} (h : ∀ c ∈ w, isDelim c = false) (hu : ∀ c ∈ w, c.isLower = false) : Quiet w := by
  induction w with
  | nil => trivial
  | cons c r ih =>
    refine ⟨?_, ?_, ih (fun x hx => h x (List.mem_cons_of_mem _ hx)) fun x hx => hu x (List.mem_cons_of_mem _ hx)⟩
    · cases e : isSep c with
      | false => rfl
      | true => exact absurd (isSep_delim e) (by simp [h c List.mem_cons_self])
    · match r with
      | [] => rfl
      | [b] => simp [caseCut, hu c (by simp)]
      | b :: d :: t => simp [caseCut, hu c (by simp), hu d (by simp)]

theorem quiet_cap {w : Chars} (h : ∀ c ∈ w, isDelim c = false)
    (hu : ∃ c r, w = c :: r ∧ c.isLower = false ∧ ∀ d ∈ r, d.isUpper = false) : Quiet w := by
  obtain ⟨c, r, rfl, h1, h2⟩ := hu
  refine ⟨?_, ?_, quiet_lower (fun x hx => h x (List.mem_cons_of_mem _ hx)) h2⟩
  · cases e : isSep c with
    | false => rfl
    | true => exact absurd (isSep_delim e) (by simp [h c List.mem_cons_self])
  · cases r with
    | nil => rfl
    | cons b t => simp [caseCut, h2 b (by simp)]

theorem quiet_cased {p : Pattern} {w : Chars} (h : ∀ c ∈ w, isDelim c = false) (hc : Cased p w) : Quiet w := by
  cases p with
  | lowercase => exact quiet_lower h hc
  | uppercase => exact quiet_upper h hc
  | capital => exact quiet_cap h hc
  | camel => exact hc.elim (quiet_lower h) (quiet_cap h)

theorem lower_lower' (w : Chars) : lower (lower w) = lower w := by simp [lower, lower_lower]
theorem lower_upper' (w : Chars) : lower (upper w) = lower w := by simp [lower, upper, lower_upper]
theorem upper_lower' (w : Chars) : upper (lower w) = upper w := by simp [lower, upper, upper_lower]
theorem upper_upper' (w : Chars) : upper (upper w) = upper w := by simp [upper, upper_upper]
theorem lower_cap (w : Chars) : lower (cap w) = lower w := by
  cases w <;> simp [lower, cap, lower_upper, lower_lower]
theorem upper_cap (w : Chars) : upper (cap w) = upper w := by
  cases w <;> simp [lower, upper, cap, upper_lower, upper_upper]
theorem cap_lower (w : Chars) : cap (lower w) = cap w := by
  cases w <;> simp [lower, cap, upper_lower, lower_lower]
theorem cap_upper (w : Chars) : cap (upper w) = cap w := by
  cases w <;> simp [lower, upper, cap, upper_upper, lower_upper]
theorem cap_cap (w : Chars) : cap (cap w) = cap w := by
  cases w <;> simp [lower, cap, upper_upper, lower_lower]

theorem mutate_mutate (p q : Pattern) (ws : List Chars) : p.mutate (q.mutate ws) = p.mutate ws := by
  cases ws with
  | nil => cases p <;> cases q <;> rfl
  | cons w ws =>
    cases p <;> cases q <;> simp [Pattern.mutate, lower_lower', lower_upper', upper_lower', upper_upper', lower_cap,
      upper_cap, cap_lower, cap_upper, cap_cap]

theorem join_no_dot {d : Chars} (hd : ∀ c ∈ d, c ≠ '.') {ws : List Chars} (hw : ∀ w ∈ ws, ∀ c ∈ w, isDelim c = false) :
    ∀ c ∈ join d ws, c ≠ '.' := by
  induction ws with
  | nil => intro c h; cases h
  | cons w ws ih =>
    have h1 : ∀ c ∈ w, c ≠ '.' := by
      intro c hc e
      have := hw w List.mem_cons_self c hc
      rw [e] at this
      exact absurd this (by decide)
    cases ws with
    | nil => exact h1
    | cons v ws =>
      intro c hc
      replace hc : c ∈ w ++ d ++ join d (v :: ws) := hc
      rcases List.mem_append.1 hc with hc | hc
      · rcases List.mem_append.1 hc with hc | hc
        · exact h1 c hc
        · exact hd c hc
      · exact ih (fun x hx => hw x (List.mem_cons_of_mem _ hx)) c hc

theorem del_no_dot (k : Convention) : ∀ c ∈ del k, c ≠ '.' := by cases k <;> decide

theorem words_convert {k : Convention} (hk : k ≠ .pascalCase) (hk' : k ≠ .camelCase) (s : Chars) :
    words (convert k s) = (pat k).mutate (words s) := by
  have hm := mutate_mem (p := pat k) (ws := words s) fun _ h => words_mem h
  unfold words
  rw [convert_eq, undot_id (join_no_dot (del_no_dot k) fun w hw => (hm w hw).2.1)]
  have hd : ∃ d, del k = [d] ∧ isSep d = true := by
    cases k <;> first | exact absurd rfl hk | exact absurd rfl hk' | exact ⟨_, rfl, by decide⟩
  obtain ⟨d, e, hd⟩ := hd
  rw [e]
  exact split_join hd fun w hw => ⟨(hm w hw).1, quiet_cased (hm w hw).2.1 (hm w hw).2.2⟩

/-- **C259** (partial): a conversion after one to a convention with delimiters is as without the latter. -/
theorem convert_through_partial {k : Convention} (hk : k ≠ .pascalCase) (hk' : k ≠ .camelCase) (l : Convention)
    (s : Chars) : convert l (convert k s) = convert l s := by
  rw [convert_eq, words_convert hk hk', mutate_mutate, ← convert_eq]

/-- C259 is false: in `AB` and `H2X` the ends of words cannot be seen. -/
theorem convert_through_refuted : ¬ ∀ (k l : Convention) (s : Chars), convert l (convert k s) = convert l s := by
  intro h
  exact absurd (h .pascalCase .snakeCase "a.b".toList) (by decide +kernel)

theorem convert_idempotent_refuted : ¬ ∀ (k : Convention) (s : Chars), convert k (convert k s) = convert k s := by
  intro h
  exact absurd (h .pascalCase "h2.x".toList) (by decide +kernel)

end Verif.Case
