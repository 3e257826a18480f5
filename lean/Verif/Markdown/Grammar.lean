import Verif.Markdown.Model
import Verif.Util.Forall2
/-
Which lines are snippet directives and end markers, and what they say: the parser against a grammar in plain words.
-/
namespace Verif.Markdown
open Verif.Util

/-! ### The grammar -/

def Letter (c : Char) : Prop := ('a' ≤ c ∧ c ≤ 'z') ∨ ('A' ≤ c ∧ c ≤ 'Z')
def Digit (c : Char) : Prop := '0' ≤ c ∧ c ≤ '9'

/-- Spaces, tabs and line ends only. -/
def Spaces (s : Chars) : Prop := ∀ c ∈ s, c = ' ' ∨ c = '\t' ∨ c = '\r' ∨ c = '\n'

/-- White space (in the sense of Unicode) only. -/
def Blank (s : Chars) : Prop := ∀ c ∈ s, isWhite c = true

/-- A letter, then letters, digits, dots, underscores and hyphens. -/
def IdText (s : Chars) : Prop :=
  ∃ c t, s = c :: t ∧ Letter c ∧ ∀ d ∈ t, Letter d ∨ Digit d ∨ d = '.' ∨ d = '_' ∨ d = '-'

/-- A letter or underscore, then letters, digits, underscores and hyphens. -/
def ValueText (s : Chars) : Prop :=
  ∃ c t, s = c :: t ∧ (Letter c ∨ c = '_') ∧ ∀ d ∈ t, Letter d ∨ Digit d ∨ d = '_' ∨ d = '-'

/-- How a parameter is written. -/
def ParamText : Param → Chars → Prop
  | .full, s => s = "full".toList
  | .metricTable, s => s = "metric_table".toList
  | .omitRequirementLevel, s => s = "omit_requirement_level".toList
  | .tag v, s => ValueText v ∧ s = "tag=".toList ++ v

/-- How the parameters are written: not at all, or between parentheses with commas. -/
def ParamsText (ps : List Param) (s : Chars) : Prop :=
  (ps = [] ∧ s = []) ∨
    ∃ texts, Forall2 ParamText ps texts ∧ s = "(".toList ++ [','].intercalate texts ++ ")".toList

/-- The line is an HTML comment with the given text (which ends at the first `-->`), with nothing but white space
after it. -/
def Comment (line text : Chars) : Prop :=
  ∃ tail, line = "<!--".toList ++ text ++ "-->".toList ++ tail ∧ Blank tail ∧
    ¬ "-->".toList <:+: text ++ "--".toList

/-- `<!-- semconv id(parameters) -->`. -/
def SemconvLine (line : Chars) (a : Args) : Prop :=
  ∃ w1 w2 w3 ps, Spaces w1 ∧ Spaces w2 ∧ Spaces w3 ∧ IdText a.id ∧ ParamsText a.args ps ∧
    Comment line (w1 ++ "semconv".toList ++ w2 ++ a.id ++ ps ++ w3)

/-- `q` is `s` without the white space around it. -/
def Trimmed (q s : Chars) : Prop :=
  ∃ a b, s = a ++ q ++ b ∧ Blank a ∧ Blank b ∧ (∀ c, q.head? = some c → isWhite c = false) ∧
    (∀ c, q.getLast? = some c → isWhite c = false)

/-- `<!-- weaver template:id query -->`, where the template may be missing. -/
def WeaverLine (line : Chars) (a : WArgs) : Prop :=
  ∃ w1 w2 rest, Spaces w1 ∧ Spaces w2 ∧ (∀ c t, rest = c :: t → ¬ Spaces [c]) ∧
    Comment line (w1 ++ "weaver".toList ++ w2 ++ rest) ∧
    ((∃ id more, rest = "template:".toList ++ id ++ more ∧ IdText id ∧ (∀ c t, more = c :: t → ¬ IdText (id ++ [c])) ∧
        a.template = some id ∧ Trimmed a.query more) ∨
      ((¬ ∃ id more, IdText id ∧ rest = "template:".toList ++ id ++ more) ∧ a.template = none ∧ Trimmed a.query rest))

/-- A comment with nothing but the given word. -/
def MarkerLine (word line : Chars) : Prop :=
  ∃ w1 w2, Spaces w1 ∧ Spaces w2 ∧ Comment line (w1 ++ word ++ w2)

/-! ### Lemmas -/

theorem isAlpha_iff {c : Char} : isAlpha c = true ↔ Letter c := by simp [isAlpha, Letter]

theorem isSpace_iff {c : Char} : isSpace c = true ↔ (c = ' ' ∨ c = '\t' ∨ c = '\r' ∨ c = '\n') := by
  simp [isSpace, or_assoc]

theorem idChar_iff {c : Char} : idChar c = true ↔ (Letter c ∨ Digit c ∨ c = '.' ∨ c = '_' ∨ c = '-') := by
  simp [idChar, isAlnum, isAlpha_iff, Digit, or_assoc]

theorem valChar_iff {c : Char} : valChar c = true ↔ (Letter c ∨ Digit c ∨ c = '_' ∨ c = '-') := by
  simp [valChar, isAlnum, isAlpha_iff, Digit, or_assoc]

theorem dropWhile_exact {f : Char → Bool} {w r : Chars} (hw : ∀ c ∈ w, f c = true)
    (hr : ∀ c, r.head? = some c → f c = false) : (w ++ r).dropWhile f = r ∧ (w ++ r).takeWhile f = w := by
  induction w with
  | nil =>
    cases r with
    | nil => simp
    | cons c t => simp [hr c rfl]
  | cons c w ih =>
    have := ih (fun d hd => hw d (by simp [hd]))
    simp [hw c (by simp), this]

theorem dropWhile_split (f : Char → Bool) (s : Chars) :
    s = s.takeWhile f ++ s.dropWhile f ∧ (∀ c ∈ s.takeWhile f, f c = true) ∧
      (∀ c, (s.dropWhile f).head? = some c → f c = false) := by
  induction s with
  | nil => simp
  | cons c t ih =>
    by_cases hc : f c = true
    · simp only [List.takeWhile_cons, List.dropWhile_cons, hc, if_true, List.cons_append]
      refine ⟨congrArg (c :: ·) ih.1, ?_, ih.2.2⟩
      intro d hd
      rcases List.mem_cons.1 hd with rfl | hd
      · exact hc
      · exact ih.2.1 d hd
    · simp [hc]

theorem skipSpace_split (s : Chars) : ∃ w, s = w ++ skipSpace s ∧ Spaces w ∧
    (∀ c, (skipSpace s).head? = some c → isSpace c = false) := by
  have h := dropWhile_split isSpace s
  exact ⟨_, h.1, fun c hc => isSpace_iff.1 (h.2.1 c hc), h.2.2⟩

theorem skipSpace_exact {w r : Chars} (hw : Spaces w) (hr : ∀ c, r.head? = some c → isSpace c = false) :
    skipSpace (w ++ r) = r := (dropWhile_exact (fun c hc => isSpace_iff.2 (hw c hc)) hr).1

theorem skipSpace_nil {s : Chars} : skipSpace s = [] ↔ Spaces s := by
  constructor
  · intro h
    obtain ⟨w, e, hw, _⟩ := skipSpace_split s
    rw [h, List.append_nil] at e
    rw [e]; exact hw
  · intro h
    have := skipSpace_exact (w := s) (r := []) h (by simp)
    simpa using this

theorem token_iff {f g : Char → Bool} {s t r : Chars} : token f g s = some (t, r) ↔
    s = t ++ r ∧ (∃ c u, t = c :: u ∧ f c = true ∧ ∀ d ∈ u, g d = true) ∧
      (∀ c, r.head? = some c → g c = false) := by
  cases s with
  | nil =>
    simp only [token, reduceCtorEq, false_iff]
    rintro ⟨e, ⟨c, u, rfl, _⟩, _⟩
    exact nomatch e
  | cons c u =>
    rw [show token f g (c :: u) = if f c then some (c :: u.takeWhile g, u.dropWhile g) else none from rfl]
    constructor
    · intro h
      split at h
      · rename_i hc
        simp at h
        obtain ⟨rfl, rfl⟩ := h
        have hd := dropWhile_split g u
        exact ⟨congrArg (c :: ·) hd.1, ⟨c, _, rfl, hc, hd.2.1⟩, hd.2.2⟩
      · simp at h
    · rintro ⟨e, ⟨c', u', rfl, hc, hu⟩, hr⟩
      simp at e
      obtain ⟨rfl, rfl⟩ := e
      have := dropWhile_exact hu hr
      rw [if_pos hc, this.1, this.2]

theorem parseId_iff {s t r : Chars} : parseId s = some (t, r) ↔
    s = t ++ r ∧ IdText t ∧ (∀ c, r.head? = some c → idChar c = false) := by
  unfold parseId IdText
  rw [token_iff]
  simp only [isAlpha_iff, idChar_iff]

theorem parseValue_iff {s t r : Chars} : parseValue s = some (t, r) ↔
    s = t ++ r ∧ ValueText t ∧ (∀ c, r.head? = some c → valChar c = false) := by
  unfold parseValue ValueText
  rw [token_iff]
  simp only [Bool.or_eq_true, isAlpha_iff, decide_eq_true_eq, valChar_iff]

theorem splitFirst_exact {p content tail : Chars} (hp : p ≠ []) (h : ¬ p <:+: content ++ p.dropLast) :
    splitFirst p (content ++ p ++ tail) = some (content, tail) := by
  induction content with
  | nil =>
    cases p with
    | nil => exact absurd rfl hp
    | cons c p =>
      have : dropPrefix? (c :: p) (c :: (p ++ tail)) = some tail := dropPrefix?_iff.2 rfl
      simp [splitFirst, this]
  | cons c t ih =>
    have hn : dropPrefix? p (c :: (t ++ p ++ tail)) = none := by
      rw [dropPrefix?_none]
      intro hpre
      apply h
      have h2 : (c :: t ++ p.dropLast) <+: c :: (t ++ p ++ tail) := by
        have e : p = p.dropLast ++ [p.getLast hp] := (List.dropLast_concat_getLast hp).symm
        refine ⟨[p.getLast hp] ++ tail, ?_⟩
        conv => rhs; rw [e]
        simp
      have := List.prefix_of_prefix_length_le hpre h2 (by simp [List.length_dropLast]; omega)
      exact this.isInfix
    have e : c :: t ++ p ++ tail = c :: (t ++ p ++ tail) := by simp
    rw [e, splitFirst, hn]
    have : ¬ p <:+: t ++ p.dropLast := fun hh => h (by
      simp only [List.cons_append]
      exact List.infix_cons hh)
    rw [ih this]
    rfl

theorem splitFirst_clean {p s a b : Chars} (hp : p ≠ []) (h : splitFirst p s = some (a, b)) :
    ¬ p <:+: a ++ p.dropLast := by
  rintro ⟨x, y, e⟩
  have es := splitFirst_eq h
  have ep : p = p.dropLast ++ [p.getLast hp] := (List.dropLast_concat_getLast hp).symm
  have := splitFirst_first h (a' := x) (b' := y ++ [p.getLast hp] ++ b) (by
    rw [es]
    have : a ++ p ++ b = (a ++ p.dropLast) ++ ([p.getLast hp] ++ b) := by
      conv => lhs; rw [ep]
      simp
    rw [this, ← e]
    simp)
  have hl := congrArg List.length e
  simp [List.length_dropLast] at hl
  have : p.length ≠ 0 := fun h => hp (List.length_eq_zero_iff.1 h)
  omega

theorem trim_eq_nil {s : Chars} : trim s = [] ↔ Blank s := by
  have hd := dropWhile_split isWhite s
  constructor
  · intro h
    unfold trim at h
    have h := List.reverse_eq_nil_iff.1 h
    have h2 := dropWhile_split isWhite (s.dropWhile isWhite).reverse
    rw [h, List.append_nil] at h2
    cases e : s.dropWhile isWhite with
    | nil =>
      rw [e, List.append_nil] at hd
      intro c hc
      rw [hd.1] at hc
      exact hd.2.1 c hc
    | cons c t =>
      exfalso
      have hc : isWhite c = false := hd.2.2 c (by rw [e]; rfl)
      have := h2.2.1 c (by rw [← h2.1, e]; simp)
      rw [hc] at this
      simp at this
  · intro h
    have : s.dropWhile isWhite = [] := by
      have := (dropWhile_exact (f := isWhite) (w := s) (r := []) h (by simp)).1
      simpa using this
    simp [trim, this]

theorem trim_trimmed (s : Chars) : Trimmed (trim s) s := by
  have hd := dropWhile_split isWhite s
  have h2 := dropWhile_split isWhite (s.dropWhile isWhite).reverse
  refine ⟨s.takeWhile isWhite, ((s.dropWhile isWhite).reverse.takeWhile isWhite).reverse, ?_, hd.2.1, ?_, ?_, ?_⟩
  · unfold trim
    have := congrArg List.reverse h2.1
    rw [List.reverse_reverse, List.reverse_append] at this
    rw [List.append_assoc, ← this]
    exact hd.1
  · intro c hc
    exact h2.2.1 c (by simpa using hc)
  · intro c hc
    refine hd.2.2 c ?_
    unfold trim at hc
    have := congrArg List.reverse h2.1
    rw [List.reverse_reverse, List.reverse_append] at this
    rw [this]
    cases e : (List.dropWhile isWhite (List.dropWhile isWhite s).reverse).reverse with
    | nil => rw [e] at hc; simp at hc
    | cons d u => rw [e] at hc; simpa using hc
  · intro c hc
    refine h2.2.2 c ?_
    unfold trim at hc
    simpa using hc

theorem trimmed_unique {q q' s : Chars} (h : Trimmed q s) (h' : Trimmed q' s) : q = q' := by
  suffices H : ∀ {q s}, Trimmed q s → trim s = q from (H h).symm.trans (H h')
  rintro q s ⟨a, b, rfl, ha, hb, h1, h2⟩
  unfold trim
  cases q with
  | nil =>
    have hab : ∀ c ∈ a ++ b, isWhite c = true := by
      intro c hc
      rcases List.mem_append.1 hc with hc | hc
      · exact ha c hc
      · exact hb c hc
    have := (dropWhile_exact (f := isWhite) (w := a ++ b) (r := []) hab (by simp)).1
    simp at this
    simp [this]
  | cons c t =>
    have e1 : (a ++ (c :: t) ++ b).dropWhile isWhite = (c :: t) ++ b := by
      rw [List.append_assoc]
      exact (dropWhile_exact ha (by intro d hd; simp at hd; exact hd ▸ h1 c rfl)).1
    rw [e1, List.reverse_append]
    have e2 : (b.reverse ++ (c :: t).reverse).dropWhile isWhite = (c :: t).reverse :=
      (dropWhile_exact (fun d hd => hb d (List.mem_reverse.1 hd)) (by
        intro d hd; exact h2 d (by rw [← hd, List.head?_reverse]))).1
    rw [e2, List.reverse_reverse]

theorem comment_iff {line text : Chars} :
    (∃ tail, htmlComment line = some (text, tail) ∧ trim tail = []) ↔ Comment line text := by
  have hp : ("-->".toList : Chars) ≠ [] := by decide
  have hdl : ("-->".toList : Chars).dropLast = "--".toList := by decide
  unfold htmlComment Comment
  constructor
  · rintro ⟨tail, h, ht⟩
    split at h
    · simp at h
    · rename_i r hr
      refine ⟨tail, ?_, trim_eq_nil.1 ht, ?_⟩
      · rw [dropPrefix?_iff.1 hr, splitFirst_eq h]
        simp
      · rw [← hdl]; exact splitFirst_clean hp h
  · rintro ⟨tail, rfl, ht, h⟩
    refine ⟨tail, ?_, trim_eq_nil.2 ht⟩
    have e : dropPrefix? "<!--".toList ("<!--".toList ++ text ++ "-->".toList ++ tail) =
        some (text ++ "-->".toList ++ tail) := dropPrefix?_iff.2 (by simp only [List.append_assoc])
    rw [e]
    exact splitFirst_exact hp (by rw [hdl]; exact h)

/-! ### Parameters -/

theorem value_ends {v r : Chars} {t : Chars} (hv : ValueText v) (hr : ∀ c, r.head? = some c → valChar c = false)
    (e : t = v ++ r) : parseValue t = some (v, r) := parseValue_iff.2 ⟨e, hv, hr⟩

theorem parseParam_sound {s r : Chars} {p : Param} (h : parseParam s = some (p, r)) :
    ∃ t, ParamText p t ∧ s = t ++ r := by
  unfold parseParam at h
  split at h
  · rename_i r' hr
    simp at h; obtain ⟨rfl, rfl⟩ := h
    exact ⟨_, rfl, dropPrefix?_iff.1 hr⟩
  · split at h
    · rename_i r' hr
      simp at h; obtain ⟨rfl, rfl⟩ := h
      exact ⟨_, rfl, dropPrefix?_iff.1 hr⟩
    · split at h
      · rename_i r' hr
        simp at h; obtain ⟨rfl, rfl⟩ := h
        exact ⟨_, rfl, dropPrefix?_iff.1 hr⟩
      · split at h
        · rename_i r' hr
          rw [Option.map_eq_some_iff] at h
          obtain ⟨x, hx, e⟩ := h
          simp at e; obtain ⟨rfl, rfl⟩ := e
          have := (parseValue_iff (t := x.1) (r := x.2)).1 hx
          refine ⟨_, ⟨this.2.1, rfl⟩, ?_⟩
          rw [dropPrefix?_iff.1 hr, List.append_assoc, ← this.1]
        · simp at h

theorem parseParam_complete {p : Param} {t r : Chars} (h : ParamText p t)
    (hr : ∀ c, r.head? = some c → valChar c = false) : parseParam (t ++ r) = some (p, r) := by
  cases p with
  | full =>
    simp only [ParamText] at h; subst h
    simp [parseParam, dropPrefix?]
  | metricTable =>
    simp only [ParamText] at h; subst h
    simp [parseParam, dropPrefix?]
  | omitRequirementLevel =>
    simp only [ParamText] at h; subst h
    simp [parseParam, dropPrefix?]
  | tag v =>
    obtain ⟨hv, rfl⟩ := h
    have := value_ends hv hr rfl
    simp [parseParam, dropPrefix?, this]

theorem moreParams_sound (n : Nat) (s : Chars) :
    ∃ texts, Forall2 ParamText (moreParams n s).1 texts ∧
      s = texts.flatMap (fun t => ',' :: t) ++ (moreParams n s).2 := by
  induction n generalizing s with
  | zero => exact ⟨[], .nil, rfl⟩
  | succ n ih =>
    unfold moreParams
    split
    · exact ⟨[], .nil, rfl⟩
    · rename_i r hr
      split
      · exact ⟨[], .nil, rfl⟩
      · rename_i x hx
        obtain ⟨t, ht, et⟩ := parseParam_sound (p := x.1) (r := x.2) hx
        obtain ⟨texts, h1, h2⟩ := ih x.2
        refine ⟨t :: texts, .cons ht h1, ?_⟩
        have := dropPrefix?_iff.1 hr
        rw [this, et]
        conv => lhs; rw [h2]
        simp

theorem head_sep (texts : List Chars) (c : Char) (t : Chars) : ∀ d,
    (texts.flatMap (fun t => ',' :: t) ++ c :: t).head? = some d → d = ',' ∨ d = c := by
  intro d hd
  cases texts with
  | nil => right; simpa using hd.symm
  | cons a as => left; simpa using hd.symm

theorem moreParams_complete {ps : List Param} {texts : List Chars} (h : Forall2 ParamText ps texts) (t : Chars) (n : Nat)
    (hn : (texts.flatMap (fun t => ',' :: t) ++ ')' :: t).length ≤ n) :
    moreParams n (texts.flatMap (fun t => ',' :: t) ++ ')' :: t) = (ps, ')' :: t) := by
  induction h generalizing n with
  | nil =>
    cases n with
    | zero => rfl
    | succ n => simp [moreParams, dropPrefix?]
  | @cons p tx ps texts hp _ ih =>
    cases n with
    | zero => simp at hn
    | succ n =>
      have e : (tx :: texts).flatMap (fun t => ',' :: t) ++ ')' :: t =
          ',' :: (tx ++ (texts.flatMap (fun t => ',' :: t) ++ ')' :: t)) := by simp
      have hx := parseParam_complete hp (r := texts.flatMap (fun t => ',' :: t) ++ ')' :: t) (by
        intro d hd
        rcases head_sep texts ')' t d hd with rfl | rfl <;> decide)
      rw [e] at hn ⊢
      have := ih n (by simp at hn ⊢; omega)
      simp [moreParams, dropPrefix?, hx, this]

theorem intercalate_cons (t : Chars) (texts : List Chars) :
    [','].intercalate (t :: texts) = t ++ texts.flatMap (fun t => ',' :: t) := by
  induction texts generalizing t with
  | nil => simp [List.intercalate]
  | cons u us ih =>
    have := ih u
    simp only [List.intercalate] at this ⊢
    simp [this]

theorem parseParams_sound {s r : Chars} {ps : List Param} (h : parseParams s = some (ps, r)) :
    ∃ texts, Forall2 ParamText ps texts ∧ s = "(".toList ++ [','].intercalate texts ++ ")".toList ++ r := by
  unfold parseParams at h
  split at h
  · simp at h
  · rename_i q hq
    rw [Option.map_eq_some_iff] at h
    obtain ⟨t, ht, e⟩ := h
    simp at e; obtain ⟨e1, rfl⟩ := e
    have hq := dropPrefix?_iff.1 hq
    have ht := dropPrefix?_iff.1 ht
    unfold paramList at ht e1
    split at ht
    · rename_i hn
      rw [hn] at e1
      simp only at ht e1
      subst e1
      refine ⟨[], .nil, ?_⟩
      rw [hq, ht]; simp [List.intercalate]
    · rename_i x hx
      rw [hx] at e1
      simp only at ht e1
      subst e1
      obtain ⟨tx, h1, h2⟩ := parseParam_sound (p := x.1) (r := x.2) hx
      obtain ⟨texts, h3, h4⟩ := moreParams_sound x.2.length x.2
      refine ⟨tx :: texts, .cons h1 h3, ?_⟩
      rw [intercalate_cons, hq, h2]
      conv => lhs; rw [h4, ht]
      simp

theorem parseParams_complete {ps : List Param} {texts : List Chars} (h : Forall2 ParamText ps texts) (r : Chars) :
    parseParams ("(".toList ++ [','].intercalate texts ++ ")".toList ++ r) = some (ps, r) := by
  cases h with
  | nil =>
    simp [parseParams, dropPrefix?, List.intercalate, paramList, parseParam]
  | @cons p tx ps texts hp hps =>
    rw [intercalate_cons]
    have e : "(".toList ++ (tx ++ texts.flatMap (fun t => ',' :: t)) ++ ")".toList ++ r =
        '(' :: (tx ++ (texts.flatMap (fun t => ',' :: t) ++ ')' :: r)) := by simp
    rw [e]
    have hx := parseParam_complete hp (r := texts.flatMap (fun t => ',' :: t) ++ ')' :: r) (by
        intro d hd
        rcases head_sep texts ')' r d hd with rfl | rfl <;> decide)
    have hm := moreParams_complete hps r _ (Nat.le_refl _)
    unfold parseParams
    rw [show dropPrefix? ['('] ('(' :: (tx ++ (texts.flatMap (fun t => ',' :: t) ++ ')' :: r))) =
      some (tx ++ (texts.flatMap (fun t => ',' :: t) ++ ')' :: r)) from dropPrefix?_iff.2 rfl]
    unfold paramList
    simp only
    rw [hx]
    simp only
    rw [hm]
    simp [dropPrefix?]

/-! ### Directives -/

theorem letter_not_space {c : Char} (h : Letter c) : isSpace c = false := by
  cases e : isSpace c with
  | false => rfl
  | true => rcases isSpace_iff.1 e with rfl | rfl | rfl | rfl <;> simp [Letter] at h

theorem space_not_id {c : Char} (h : isSpace c = true) : idChar c = false := by
  rcases isSpace_iff.1 h with rfl | rfl | rfl | rfl <;> decide

theorem id_head {id : Chars} (h : IdText id) (r : Chars) : ∀ c, (id ++ r).head? = some c → isSpace c = false := by
  obtain ⟨c, t, rfl, hc, _⟩ := h
  intro d hd
  simp at hd
  exact hd ▸ letter_not_space hc

theorem directive_sound {s : Chars} {a : Args} (h : directive s = some (a, [])) :
    ∃ w1 w2 w3 ps, Spaces w1 ∧ Spaces w2 ∧ Spaces w3 ∧ IdText a.id ∧ ParamsText a.args ps ∧
      s = w1 ++ "semconv".toList ++ w2 ++ a.id ++ ps ++ w3 := by
  unfold directive at h
  split at h
  · simp at h
  · rename_i r hr
    obtain ⟨w1, e1, hw1, _⟩ := skipSpace_split s
    have hr := dropPrefix?_iff.1 hr
    obtain ⟨w2, e2, hw2, _⟩ := skipSpace_split r
    split at h
    · simp at h
    · rename_i x hx
      obtain ⟨e3, hid, _⟩ := (parseId_iff (t := x.1) (r := x.2)).1 hx
      split at h
      · rename_i y hy
        simp at h
        obtain ⟨rfl, h⟩ := h
        obtain ⟨texts, h1, h2⟩ := parseParams_sound (ps := y.1) (r := y.2) hy
        refine ⟨w1, w2, y.2, _, hw1, hw2, skipSpace_nil.1 h, hid, Or.inr ⟨texts, h1, rfl⟩, ?_⟩
        rw [e1, hr, e2, e3, h2]
        simp
      · simp at h
        obtain ⟨rfl, h⟩ := h
        refine ⟨w1, w2, x.2, [], hw1, hw2, skipSpace_nil.1 h, hid, Or.inl ⟨rfl, rfl⟩, ?_⟩
        rw [e1, hr, e2, e3]
        simp

theorem directive_complete {w1 w2 w3 ps : Chars} {a : Args} (hw1 : Spaces w1) (hw2 : Spaces w2) (hw3 : Spaces w3)
    (hid : IdText a.id) (hps : ParamsText a.args ps) :
    directive (w1 ++ "semconv".toList ++ w2 ++ a.id ++ ps ++ w3) = some (a, []) := by
  have e1 : skipSpace (w1 ++ "semconv".toList ++ w2 ++ a.id ++ ps ++ w3) =
      "semconv".toList ++ (w2 ++ (a.id ++ (ps ++ w3))) := by
    rw [show w1 ++ "semconv".toList ++ w2 ++ a.id ++ ps ++ w3 = w1 ++ ("semconv".toList ++ (w2 ++ (a.id ++ (ps ++ w3))))
      by simp]
    refine skipSpace_exact hw1 ?_
    intro c hc
    simp at hc
    subst hc; decide
  have e2 : skipSpace (w2 ++ (a.id ++ (ps ++ w3))) = a.id ++ (ps ++ w3) := skipSpace_exact hw2 (id_head hid _)
  have hend : ∀ c, w3.head? = some c → idChar c = false := by
    intro c hc
    cases w3 with
    | nil => simp at hc
    | cons d t =>
      simp at hc; subst hc
      exact space_not_id (isSpace_iff.2 (hw3 d (by simp)))
  have e3 : parseId (a.id ++ (ps ++ w3)) = some (a.id, ps ++ w3) := by
    refine parseId_iff.2 ⟨rfl, hid, ?_⟩
    rcases hps with ⟨_, rfl⟩ | ⟨texts, _, rfl⟩
    · simpa using hend
    · intro c hc
      simp at hc
      subst hc; decide
  unfold directive
  rw [e1, dropPrefix?_iff.2 rfl]
  simp only
  rw [e2, e3]
  simp only
  have hw3' := skipSpace_nil.2 hw3
  rcases hps with ⟨h0, rfl⟩ | ⟨texts, h1, rfl⟩
  · have : parseParams ([] ++ w3) = none := by
      simp only [List.nil_append]
      cases w3 with
      | nil => rfl
      | cons d t =>
        unfold parseParams
        have : dropPrefix? ['('] (d :: t) = none := by
          rw [dropPrefix?_none]
          rintro ⟨u, hu⟩
          simp at hu
          have := hw3 d (by simp)
          rw [← hu.1] at this
          revert this; decide
        rw [this]
    rw [this]
    simp [hw3', ← h0]
  · rw [parseParams_complete h1]
    simp [hw3']

/-- A line is taken for a semconv directive with arguments `a` exactly if it is written so. -/
theorem semconvHeader_iff {line : Chars} {a : Args} : semconvHeader line = some a ↔ SemconvLine line a := by
  unfold semconvHeader SemconvLine
  constructor
  · intro h
    split at h
    · simp at h
    · rename_i x hx
      split at h
      · simp at h
      · rename_i y hy
        split at h
        · rename_i hc
          simp at h; subst h
          obtain ⟨w1, w2, w3, ps, h1, h2, h3, h4, h5, h6⟩ := directive_sound (a := y.1) (by rw [hy, ← hc.1])
          refine ⟨w1, w2, w3, ps, h1, h2, h3, h4, h5, ?_⟩
          rw [← h6]
          exact comment_iff.1 ⟨x.2, hx, hc.2⟩
        · simp at h
  · rintro ⟨w1, w2, w3, ps, h1, h2, h3, h4, h5, h6⟩
    obtain ⟨tail, ht, hw⟩ := comment_iff.2 h6
    rw [ht]
    simp only
    rw [directive_complete h1 h2 h3 h4 h5]
    simp [hw]

theorem marker_iff {word line : Chars} (hword : ∀ c, word.head? = some c → isSpace c = false) (hne : word ≠ []) :
    (∃ rest, marker word line = some rest ∧ trim rest = []) ↔ MarkerLine word line := by
  unfold marker MarkerLine
  constructor
  · rintro ⟨rest, h, ht⟩
    split at h
    · simp at h
    · rename_i x hx
      split at h
      · simp at h
      · rename_i r hr
        split at h
        · rename_i hs
          simp at h; subst h
          obtain ⟨w1, e1, hw1, _⟩ := skipSpace_split x.1
          have hr := dropPrefix?_iff.1 hr
          refine ⟨w1, r, hw1, skipSpace_nil.1 hs, ?_⟩
          have : w1 ++ word ++ r = x.1 := by rw [List.append_assoc, ← hr, ← e1]
          rw [this]
          exact comment_iff.1 ⟨x.2, hx, ht⟩
        · simp at h
  · rintro ⟨w1, w2, h1, h2, hc⟩
    obtain ⟨tail, ht, hw⟩ := comment_iff.2 hc
    refine ⟨tail, ?_, hw⟩
    rw [ht]
    simp only
    have e : skipSpace (w1 ++ word ++ w2) = word ++ w2 := by
      rw [List.append_assoc]
      refine skipSpace_exact h1 ?_
      intro c hc
      cases word with
      | nil => exact absurd rfl hne
      | cons d t => exact hword c (by simpa using hc)
    rw [e, dropPrefix?_iff.2 rfl]
    simp [skipSpace_nil.2 h2]

/-- A line is taken for the end of a semconv snippet exactly if it is a comment `<!-- endsemconv -->`. -/
theorem semconvTrailer_iff {line : Chars} : semconvTrailer line = true ↔ MarkerLine "endsemconv".toList line := by
  rw [← marker_iff (by intro c hc; simp at hc; subst hc; decide) (by decide)]
  unfold semconvTrailer
  split
  · rename_i rest h
    rw [h]
    simp only [Option.some.injEq, exists_eq_left', decide_eq_true_eq]
  · rename_i h
    rw [h]
    simp only [reduceCtorEq, false_and, exists_false]

/-- A line is taken for the end of a weaver snippet exactly if it is a comment `<!-- endweaver -->`. -/
theorem weaverTrailer_iff {line : Chars} : weaverTrailer line = true ↔ MarkerLine "endweaver".toList line := by
  rw [← marker_iff (by intro c hc; simp at hc; subst hc; decide) (by decide)]
  unfold weaverTrailer
  split
  · rename_i rest h
    rw [h]
    simp only [Option.some.injEq, exists_eq_left', decide_eq_true_eq]
  · rename_i h
    rw [h]
    simp only [reduceCtorEq, false_and, exists_false]

theorem space_white {c : Char} (h : isSpace c = true) : isWhite c = true := by
  rcases isSpace_iff.1 h with rfl | rfl | rfl | rfl <;> decide

theorem trimmed_skip {q w s : Chars} (hw : Spaces w) (h : Trimmed q s) : Trimmed q (w ++ s) := by
  obtain ⟨a, b, rfl, h1, h2, h3, h4⟩ := h
  refine ⟨w ++ a, b, by simp, ?_, h2, h3, h4⟩
  intro c hc
  rcases List.mem_append.1 hc with hc | hc
  · exact space_white (isSpace_iff.2 (hw c hc))
  · exact h1 c hc

theorem trimmed_iff {q s : Chars} : Trimmed q s ↔ trim s = q :=
  ⟨fun h => trimmed_unique (trim_trimmed s) h, fun h => h ▸ trim_trimmed s⟩

theorem trim_skip (s : Chars) : trim (skipSpace s) = trim s := by
  obtain ⟨w, e, hw, _⟩ := skipSpace_split s
  have := trimmed_skip hw (trim_trimmed (skipSpace s))
  rw [← e] at this
  exact (trimmed_iff.1 this).symm

theorem templateDirective_iff {s id more : Chars} : templateDirective s = some (id, more) ↔
    s = "template:".toList ++ id ++ more ∧ IdText id ∧ (∀ c t, more = c :: t → ¬ IdText (id ++ [c])) := by
  have key : IdText id → ((∀ c, more.head? = some c → idChar c = false) ↔
      (∀ c t, more = c :: t → ¬ IdText (id ++ [c]))) := by
    rintro ⟨d, u, rfl, hd, hu⟩
    constructor
    · rintro h c t rfl ⟨d', u', e, _, hu'⟩
      simp at e
      have := idChar_iff.2 (hu' c (by rw [← e.2]; simp))
      rw [h c rfl] at this
      simp at this
    · intro h c hc
      cases more with
      | nil => simp at hc
      | cons c' t =>
        simp at hc; subst hc
        cases e : idChar c' with
        | false => rfl
        | true =>
          refine absurd ⟨d, u ++ [c'], rfl, hd, ?_⟩ (h c' t rfl)
          intro x hx
          rcases List.mem_append.1 hx with hx | hx
          · exact hu x hx
          · simp at hx; subst hx; exact idChar_iff.1 e
  unfold templateDirective
  constructor
  · intro h
    split at h
    · simp at h
    · rename_i r hr
      obtain ⟨e, hid, hm⟩ := parseId_iff.1 h
      exact ⟨by rw [dropPrefix?_iff.1 hr, e]; simp, hid, (key hid).1 hm⟩
  · rintro ⟨rfl, hid, hm⟩
    rw [List.append_assoc, dropPrefix?_iff.2 rfl]
    exact parseId_iff.2 ⟨rfl, hid, (key hid).2 hm⟩

theorem templateDirective_none {s : Chars} : templateDirective s = none ↔
    ¬ ∃ id more, IdText id ∧ s = "template:".toList ++ id ++ more := by
  constructor
  · rintro h ⟨id, more, ⟨c, t, rfl, hc, _⟩, rfl⟩
    unfold templateDirective at h
    rw [List.append_assoc, dropPrefix?_iff.2 rfl] at h
    simp [parseId, token, isAlpha_iff.2 hc] at h
  · intro h
    cases e : templateDirective s with
    | none => rfl
    | some x =>
      obtain ⟨e1, e2, _⟩ := (templateDirective_iff (id := x.1) (more := x.2)).1 e
      exact absurd ⟨x.1, x.2, e2, e1⟩ h

/-- A line is taken for a weaver directive with template and query `a` exactly if it is written so. -/
theorem weaverHeader_iff {line : Chars} {a : WArgs} : weaverHeader line = some a ↔ WeaverLine line a := by
  unfold weaverHeader WeaverLine
  constructor
  · intro h
    split at h
    · simp at h
    · rename_i x hx
      split at h
      · simp at h
      · rename_i y hy
        split at h
        · rename_i hc
          simp at h; subst h
          unfold weaverArgs at hy
          split at hy
          · simp at hy
          · rename_i r hr
            obtain ⟨w1, e1, hw1, _⟩ := skipSpace_split x.1
            obtain ⟨w2, e2, hw2, hh⟩ := skipSpace_split r
            have hr := dropPrefix?_iff.1 hr
            have hcm : Comment line (w1 ++ "weaver".toList ++ w2 ++ skipSpace r) := by
              rw [List.append_assoc _ w2, ← e2, List.append_assoc, ← hr, ← e1]
              exact comment_iff.1 ⟨x.2, hx, hc⟩
            refine ⟨w1, w2, skipSpace r, hw1, hw2, ?_, hcm, ?_⟩
            · intro c t e hs
              have := hh c (by rw [e]; rfl)
              rw [isSpace_iff.2 (hs c (by simp))] at this
              simp at this
            · split at hy
              · rename_i z hz
                simp at hy; subst hy
                obtain ⟨h1, h2, h3⟩ := (templateDirective_iff (id := z.1) (more := z.2)).1 hz
                exact Or.inl ⟨z.1, z.2, h1, h2, h3, rfl, trimmed_iff.2 (trim_skip _).symm⟩
              · rename_i hz
                simp at hy; subst hy
                exact Or.inr ⟨templateDirective_none.1 hz, rfl, trimmed_iff.2 (trim_skip _).symm⟩
        · simp at h
  · rintro ⟨w1, w2, rest, h1, h2, h3, h4, h5⟩
    obtain ⟨tail, ht, hw⟩ := comment_iff.2 h4
    rw [ht]
    simp only
    have e1 : skipSpace (w1 ++ "weaver".toList ++ w2 ++ rest) = "weaver".toList ++ (w2 ++ rest) := by
      rw [show w1 ++ "weaver".toList ++ w2 ++ rest = w1 ++ ("weaver".toList ++ (w2 ++ rest)) by simp]
      refine skipSpace_exact h1 ?_
      intro c hc; simp at hc; subst hc; decide
    have hrest : ∀ c, rest.head? = some c → isSpace c = false := by
      intro c hc
      cases rest with
      | nil => simp at hc
      | cons d t =>
        simp at hc; subst hc
        cases e : isSpace d with
        | false => rfl
        | true =>
          refine absurd ?_ (h3 d t rfl)
          intro x hx; simp at hx; subst hx; exact isSpace_iff.1 e
    have e2 : skipSpace (w2 ++ rest) = rest := skipSpace_exact h2 hrest
    unfold weaverArgs
    rw [e1, dropPrefix?_iff.2 rfl]
    simp only
    rw [e2]
    obtain ⟨q, tpl⟩ := a
    simp only at h5
    rcases h5 with ⟨id, more, g1, g2, g3, rfl, g5⟩ | ⟨g1, rfl, g3⟩
    · rw [templateDirective_iff.2 ⟨g1, g2, g3⟩]
      simp [hw, trim_skip, trimmed_iff.1 g5]
    · rw [templateDirective_none.2 g1]
      simp [hw, trim_skip, trimmed_iff.1 g3]

/-- No line is a directive of both kinds. -/
theorem headers_disjoint {line : Chars} {a : Args} {b : WArgs} (h : SemconvLine line a) : ¬ WeaverLine line b := by
  obtain ⟨w1, w2, w3, ps, h1, h2, h3, h4, h5, h6⟩ := h
  rintro ⟨v1, v2, rest, g1, g2, g3, g4, _⟩
  obtain ⟨t1, k1, _⟩ := comment_iff.2 h6
  obtain ⟨t2, k2, _⟩ := comment_iff.2 g4
  rw [k1] at k2
  simp only [Option.some.injEq, Prod.mk.injEq] at k2
  have e := congrArg skipSpace k2.1
  rw [show w1 ++ "semconv".toList ++ w2 ++ a.id ++ ps ++ w3 = w1 ++ ("semconv".toList ++ (w2 ++ (a.id ++ (ps ++ w3))))
    by simp, show v1 ++ "weaver".toList ++ v2 ++ rest = v1 ++ ("weaver".toList ++ (v2 ++ rest)) by simp,
    skipSpace_exact h1 (by intro c hc; simp at hc; subst hc; decide),
    skipSpace_exact g1 (by intro c hc; simp at hc; subst hc; decide)] at e
  simp at e

end Verif.Markdown
