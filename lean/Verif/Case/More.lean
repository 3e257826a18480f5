import Verif.Case.Props
/-
C259 for conventions without delimiters; C260: distinct names.
-/
namespace Verif.Case
open Verif.Util

/-! ### C259: Pascal and camel case -/

theorem not_upper_of_lower {c : Char} (h : c.isLower = true) : c.isUpper = false := by
  rw [isLower_iff] at h; rw [isUpper_false]; omega

theorem go_solid {w : Chars} (hq : Quiet w) {l : Char} (hl : w.getLast? = some l) (hlow : l.isLower = true) {u : Char}
    (hu : u.isUpper = true) (cur t : Chars) :
    splitGo five cur (w ++ u :: t) = (cur ++ w) :: splitGo five [] (u :: t) := by
  induction w generalizing cur with
  | nil => cases hl
  | cons c r ih =>
    rw [List.cons_append, go_cons, if_neg (by simp [hq.1])]
    match r, hq, hl, ih with
    | [], _, hl, _ =>
      simp only [List.getLast?_singleton, Option.some.injEq] at hl
      subst hl
      rw [if_pos (by simp [caseCut, hlow, hu])]
      rfl
    | [b], hq, hl, ih =>
      have hb : b = l := by simpa using hl
      rw [if_neg (by simp [caseCut, hb, not_upper_of_lower hlow]), ih hq.2.2 (by simpa using hl)]
      simp
    | b :: e :: r, hq, hl, ih =>
      rw [if_neg (by
        have h := hq.2.1
        unfold caseCut at h ⊢
        simpa using h), ih hq.2.2 (by simpa using hl)]
      simp

theorem join_nil (ws : List Chars) : join [] ws = ws.flatten := by
  induction ws with
  | nil => rfl
  | cons w ws ih =>
    cases ws with
    | nil => simp [join]
    | cons v ws =>
      show w ++ [] ++ join [] (v :: ws) = _
      rw [ih]; simp

/-- A word whose end can be seen: it starts with a letter, ends with one, and has more than one character. -/
def Clear (w : Chars) : Prop := 2 ≤ w.length ∧ w.head?.any Char.isAlpha = true ∧ w.getLast?.any Char.isAlpha = true

theorem last_lower {w : Chars} (h : w.getLast?.any Char.isAlpha = true) :
    ∃ l, (lower w).getLast? = some l ∧ l.isLower = true := by
  unfold lower
  rw [List.getLast?_map]
  cases e : w.getLast? with
  | none => rw [e] at h; cases h
  | some l => rw [e] at h; exact ⟨_, rfl, isLower_toLower h⟩

theorem cap_clear {w : Chars} (h : Clear w) : (∃ u t, cap w = u :: t ∧ u.isUpper = true) ∧
    ∃ l, (cap w).getLast? = some l ∧ l.isLower = true := by
  match w, h with
  | [], h => exact absurd h.1 (by simp)
  | [c], h => exact absurd h.1 (by simp)
  | c :: d :: r, h =>
    refine ⟨⟨_, _, rfl, ?_⟩, ?_⟩
    · have h2 := h.2.1
      simp only [List.head?_cons, Option.any_some, Char.isAlpha, Bool.or_eq_true] at h2
      exact h2.elim isUpper_toUpper' isUpper_toUpper
    · obtain ⟨l, hl, hlow⟩ := last_lower (w := d :: r) (by have := h.2.2; simpa using this)
      refine ⟨l, ?_, hlow⟩
      show (c.toUpper :: lower (d :: r)).getLast? = some l
      rw [← hl]
      simp [lower]

theorem go_caps {ws : List Chars} (hw : ∀ w ∈ ws, Clear w ∧ ∀ c ∈ w, isDelim c = false) :
    splitGo five [] (ws.map cap).flatten = if ws = [] then [[]] else ws.map cap := by
  induction ws with
  | nil => rfl
  | cons w ws ih =>
    have h := hw w List.mem_cons_self
    have hne : w ≠ [] := by intro e; rw [e] at h; exact absurd h.1.1 (by simp)
    have hq : Quiet (cap w) := quiet_cap (no_delim_cap h.2) (cap_cased hne)
    have ih' := ih fun x hx => hw x (List.mem_cons_of_mem _ hx)
    rw [if_neg (by simp), List.map_cons, List.flatten_cons]
    cases ws with
    | nil => rw [List.map_nil, List.flatten_nil, List.append_nil, go_quiet hq]; rfl
    | cons v ws =>
      obtain ⟨⟨u, t, e, hu⟩, _⟩ := cap_clear (hw v (by simp)).1
      obtain ⟨_, l, hl, hlow⟩ := cap_clear h.1
      rw [if_neg (by simp)] at ih'
      have g := go_solid hq hl hlow hu [] (t ++ (ws.map cap).flatten)
      have e' : u :: (t ++ (ws.map cap).flatten) = ((v :: ws).map cap).flatten := by simp [e]
      rw [e', ih'] at g
      exact g

theorem go_camel {w : Chars} {ws : List Chars} (hw : ∀ v ∈ w :: ws, Clear v ∧ ∀ c ∈ v, isDelim c = false) :
    splitGo five [] (lower w ++ (ws.map cap).flatten) = lower w :: ws.map cap := by
  have h := hw w List.mem_cons_self
  have hq : Quiet (lower w) := quiet_lower (no_delim_lower h.2) (lower_cased w)
  have hs := go_caps fun x hx => hw x (List.mem_cons_of_mem _ hx)
  cases ws with
  | nil => rw [List.map_nil, List.flatten_nil, List.append_nil, go_quiet hq]; rfl
  | cons v ws =>
    obtain ⟨⟨u, t, e, hu⟩, _⟩ := cap_clear (hw v (by simp)).1
    obtain ⟨l, hl, hlow⟩ := last_lower h.1.2.2
    rw [if_neg (by simp)] at hs
    have g := go_solid hq hl hlow hu [] (t ++ (ws.map cap).flatten)
    have e' : u :: (t ++ (ws.map cap).flatten) = ((v :: ws).map cap).flatten := by simp [e]
    rw [e', hs] at g
    exact g

theorem filter_ne {ws : List Chars} (h : ∀ w ∈ ws, w ≠ []) : ws.filter (· ≠ []) = ws :=
  List.filter_eq_self.2 fun w hw => by simpa using h w hw

theorem words_convert_clear (k : Convention) {s : Chars} (h : ∀ w ∈ words s, Clear w) :
    words (convert k s) = (pat k).mutate (words s) := by
  have hm := mutate_mem (p := pat k) (ws := words s) fun _ h => words_mem h
  have hc : ∀ w ∈ words s, Clear w ∧ ∀ c ∈ w, isDelim c = false := fun w hw => ⟨h w hw, (words_mem hw).2⟩
  by_cases hk : k = .pascalCase
  · rw [hk] at hm ⊢
    conv => lhs; unfold words
    rw [convert_eq, undot_id (join_no_dot (del_no_dot _) fun w hw => (hm w hw).2.1)]
    show split five (join [] ((words s).map cap)) = (words s).map cap
    rw [join_nil]
    unfold split
    rw [go_caps hc]
    cases e : words s with
    | nil => rfl
    | cons w ws =>
      rw [if_neg (by simp)]
      rw [e] at hm
      exact filter_ne fun x hx => (hm x hx).1
  by_cases hk' : k = .camelCase
  · rw [hk'] at hm ⊢
    conv => lhs; unfold words
    rw [convert_eq, undot_id (join_no_dot (del_no_dot _) fun w hw => (hm w hw).2.1)]
    show split five (join [] (Pattern.camel.mutate (words s))) = Pattern.camel.mutate (words s)
    rw [join_nil]
    unfold split
    cases e : words s with
    | nil => rfl
    | cons w ws =>
      rw [e] at hm hc
      show (splitGo five [] (lower w ++ (ws.map cap).flatten)).filter _ = _
      rw [go_camel hc]
      exact filter_ne fun x hx => (hm x hx).1
  · exact words_convert hk hk' s

/-- **C259** (partial): conversions in sequence are as the last one if the ends of the words can be seen. -/
theorem convert_sequence_partial (k l : Convention) {s : Chars} (h : ∀ w ∈ words s, Clear w) :
    convert l (convert k s) = convert l s := by
  rw [convert_eq, words_convert_clear k h, mutate_mutate, ← convert_eq]

example : words "HTTPServer.k8s_job".toList = ["HTTP".toList, "Server".toList, "k8s".toList, "job".toList] := by
  decide +kernel
example : ∀ w ∈ words "http.server.k8s_job".toList, Clear w := by
  have e : words "http.server.k8s_job".toList = ["http".toList, "server".toList, "k8s".toList, "job".toList] := by
    decide +kernel
  rw [e]
  simp only [List.forall_mem_cons, Clear]
  refine ⟨?_, ?_, ?_, ?_, fun _ h => by cases h⟩ <;> decide +kernel

/-! ### C260 -/

/-- A part of a name between dots: lower case letters, digits, …, but no delimiter. -/
def Part (w : Chars) : Prop := (∀ c ∈ w, isDelim c = false ∧ c.isUpper = false) ∧ ∃ c r, w = c :: r ∧ c.isLower = true

theorem Part.ne {w : Chars} (h : Part w) : w ≠ [] := by obtain ⟨c, r, rfl, _⟩ := h.2; simp

theorem Part.lower {w : Chars} (h : Part w) : lower w = w := by
  unfold Case.lower
  conv => rhs; rw [← List.map_id w]
  exact List.map_congr_left fun c hc => toLower_of_not_upper (h.1 c hc).2

theorem undot_join {ws : List Chars} (h : ∀ w ∈ ws, ∀ c ∈ w, isDelim c = false) :
    undot (join ['.'] ws) = join ['_'] ws := by
  induction ws with
  | nil => rfl
  | cons w ws ih =>
    have hu : undot w = w := undot_id fun c hc e => by
      have := h w List.mem_cons_self c hc
      rw [e] at this
      exact absurd this (by decide)
    cases ws with
    | nil => exact hu
    | cons v ws =>
      show undot (w ++ ['.'] ++ join ['.'] (v :: ws)) = w ++ ['_'] ++ join ['_'] (v :: ws)
      rw [← ih fun x hx => h x (List.mem_cons_of_mem _ hx)]
      unfold undot at hu ⊢
      rw [List.map_append, List.map_append, hu]
      rfl

theorem words_parts {ps : List Chars} (h : ∀ w ∈ ps, Part w) : words (join ['.'] ps) = ps := by
  unfold words
  rw [undot_join fun w hw c hc => ((h w hw).1 c hc).1]
  exact split_join (by decide) fun w hw =>
    ⟨(h w hw).ne, quiet_lower (fun c hc => ((h w hw).1 c hc).1) fun c hc => ((h w hw).1 c hc).2⟩

theorem map_lower_parts {ps : List Chars} (h : ∀ w ∈ ps, Part w) : ps.map lower = ps := by
  conv => rhs; rw [← List.map_id ps]
  exact List.map_congr_left fun w hw => (h w hw).lower

/-- A text of words with a first letter in upper case can be taken apart. -/
theorem span_unique {a b x y : Chars} (ha : ∀ c ∈ a, c.isUpper = false) (hb : ∀ c ∈ b, c.isUpper = false)
    (hx : ∀ c, x.head? = some c → c.isUpper = true) (hy : ∀ c, y.head? = some c → c.isUpper = true)
    (h : a ++ x = b ++ y) : a = b ∧ x = y := by
  induction a generalizing b with
  | nil =>
    cases b with
    | nil => exact ⟨rfl, h⟩
    | cons d b =>
      rw [List.nil_append] at h
      have := hx d (by rw [h]; rfl)
      rw [hb d List.mem_cons_self] at this
      cases this
  | cons c a ih =>
    cases b with
    | nil =>
      rw [List.nil_append] at h
      have := hy c (by rw [← h]; rfl)
      rw [ha c List.mem_cons_self] at this
      cases this
    | cons d b =>
      rw [List.cons_append, List.cons_append, List.cons.injEq] at h
      obtain ⟨e1, e2⟩ := ih (fun z hz => ha z (List.mem_cons_of_mem _ hz)) (fun z hz => hb z (List.mem_cons_of_mem _ hz)) h.2
      exact ⟨by rw [h.1, e1], e2⟩

theorem caps_head {ps : List Chars} (h : ∀ w ∈ ps, Part w) : ∀ c, (ps.map cap).flatten.head? = some c → c.isUpper = true := by
  intro c hc
  cases ps with
  | nil => cases hc
  | cons w ps =>
    obtain ⟨d, r, rfl, hd⟩ := (h w List.mem_cons_self).2
    simp only [List.map_cons, cap, List.flatten_cons, List.cons_append, List.head?_cons, Option.some.injEq] at hc
    rw [← hc]
    exact isUpper_toUpper hd

theorem toUpper_inj {a b : Char} (ha : a.isLower = true) (hb : b.isLower = true) (h : a.toUpper = b.toUpper) : a = b := by
  have := congrArg Char.toNat h
  rw [isLower_iff] at ha hb
  rw [toNat_toUpper, toNat_toUpper, if_pos ha, if_pos hb] at this
  exact toNat_inj (by omega)

theorem caps_inj {ps qs : List Chars} (hp : ∀ w ∈ ps, Part w) (hq : ∀ w ∈ qs, Part w)
    (h : (ps.map cap).flatten = (qs.map cap).flatten) : ps = qs := by
  induction ps generalizing qs with
  | nil =>
    cases qs with
    | nil => rfl
    | cons w qs =>
      obtain ⟨d, r, rfl, _⟩ := (hq w List.mem_cons_self).2
      simp [cap] at h
  | cons v ps ih =>
    have pv := hp v List.mem_cons_self
    obtain ⟨c, a, rfl, hc⟩ := pv.2
    cases qs with
    | nil => simp [cap] at h
    | cons w qs =>
      have pw := hq w List.mem_cons_self
      obtain ⟨d, b, rfl, hd⟩ := pw.2
      simp only [List.map_cons, cap, List.flatten_cons, List.cons_append, List.cons.injEq] at h
      obtain ⟨e1, e2⟩ := span_unique (lower_cased a) (lower_cased b)
        (caps_head fun x hx => hp x (List.mem_cons_of_mem _ hx)) (caps_head fun x hx => hq x (List.mem_cons_of_mem _ hx)) h.2
      have e3 := ih (fun x hx => hp x (List.mem_cons_of_mem _ hx)) (fun x hx => hq x (List.mem_cons_of_mem _ hx)) e2
      have e4 : lower (c :: a) = lower (d :: b) := by
        show c.toLower :: lower a = d.toLower :: lower b
        rw [toUpper_inj hc hd h.1, e1]
      rw [pv.lower, pw.lower] at e4
      rw [e3, e4]

/-- **C260** (partial): names that are parts between dots, without other delimiters, stay distinct. -/
theorem names_distinct_partial (k : Convention) {ps qs : List Chars} (hp : ∀ w ∈ ps, Part w) (hq : ∀ w ∈ qs, Part w) :
    convert k (join ['.'] ps) = convert k (join ['.'] qs) ↔ ps = qs := by
  constructor
  · intro h
    by_cases hk : k = .pascalCase
    · rw [hk, convert_eq, convert_eq, words_parts hp, words_parts hq] at h
      replace h : join [] (ps.map cap) = join [] (qs.map cap) := h
      rw [join_nil, join_nil] at h
      exact caps_inj hp hq h
    by_cases hk' : k = .camelCase
    · rw [hk', convert_eq, convert_eq, words_parts hp, words_parts hq] at h
      replace h : join [] (Pattern.camel.mutate ps) = join [] (Pattern.camel.mutate qs) := h
      rw [join_nil, join_nil] at h
      cases ps with
      | nil =>
        cases qs with
        | nil => rfl
        | cons w qs =>
          have := lower_ne (hq w List.mem_cons_self).ne
          simp [Pattern.mutate] at h
          exact absurd h.1 this
      | cons v ps =>
        cases qs with
        | nil =>
          have := lower_ne (hp v List.mem_cons_self).ne
          simp [Pattern.mutate] at h
          exact absurd h.1 this
        | cons w qs =>
          replace h : lower v ++ (ps.map cap).flatten = lower w ++ (qs.map cap).flatten := h
          obtain ⟨e1, e2⟩ := span_unique (lower_cased v) (lower_cased w)
            (caps_head fun x hx => hp x (List.mem_cons_of_mem _ hx))
            (caps_head fun x hx => hq x (List.mem_cons_of_mem _ hx)) h
          rw [(hp v List.mem_cons_self).lower, (hq w List.mem_cons_self).lower] at e1
          rw [e1, caps_inj (fun x hx => hp x (List.mem_cons_of_mem _ hx)) (fun x hx => hq x (List.mem_cons_of_mem _ hx)) e2]
    · have h' := congrArg words h
      rw [words_convert hk hk', words_convert hk hk', words_parts hp, words_parts hq] at h'
      have h'' := congrArg Pattern.lowercase.mutate h'
      rw [mutate_mutate, mutate_mutate] at h''
      replace h'' : ps.map lower = qs.map lower := h''
      rwa [map_lower_parts hp, map_lower_parts hq] at h''
  · rintro rfl; rfl

theorem join_filter (ps : List Chars) :
    (join ['.'] ps).filter (· ≠ '_') = join ['.'] (ps.map fun w => w.filter (· ≠ '_')) := by
  induction ps with
  | nil => rfl
  | cons w ps ih =>
    cases ps with
    | nil => rfl
    | cons v ps =>
      show (w ++ ['.'] ++ join ['.'] (v :: ps)).filter (· ≠ '_') = _
      rw [List.filter_append, List.filter_append, ih]
      rfl

/-- A part of a name with underscores. -/
def Part' (w : Chars) : Prop := Part (w.filter (· ≠ '_'))

/-- **C260** (partial): the names of constants are those of the names without underscores. -/
theorem consts_distinct_partial (k : Convention) {ps qs : List Chars} (hp : ∀ w ∈ ps, Part' w) (hq : ∀ w ∈ qs, Part' w) :
    convertConst k (join ['.'] ps) = convertConst k (join ['.'] qs) ↔
      ps.map (fun w => w.filter (· ≠ '_')) = qs.map (fun w => w.filter (· ≠ '_')) := by
  unfold convertConst
  rw [join_filter, join_filter]
  refine names_distinct_partial k ?_ ?_ <;>
  · intro w hw
    obtain ⟨v, hv, rfl⟩ := List.mem_map.1 hw
    first | exact hp v hv | exact hq v hv

/-- C260 is false: `a.b` and `a_b`, as constants `a.bc` and `a.b_c`, and parts with a digit in front. -/
theorem names_distinct_refuted : (¬ ∀ (k : Convention) (a b : Chars), convert k a = convert k b → a = b) ∧
    (¬ ∀ (k : Convention) (a b : Chars), convertConst k a = convertConst k b → a = b) ∧
    convert .pascalCase "a.1b".toList = convert .pascalCase "a1b".toList := by
  refine ⟨fun h => ?_, fun h => ?_, by decide +kernel⟩
  · exact absurd (h .snakeCase "a.b".toList "a_b".toList (by decide +kernel)) (by decide +kernel)
  · exact absurd (h .snakeCase "a.bc".toList "a.b_c".toList (by decide +kernel)) (by decide +kernel)

example : Part "http2".toList ∧ Part' "client_id".toList := by
  refine ⟨⟨by decide +kernel, 'h', "ttp2".toList, by decide +kernel, by decide +kernel⟩,
    ⟨by decide +kernel, 'c', "lientid".toList, by decide +kernel, by decide +kernel⟩⟩

end Verif.Case
