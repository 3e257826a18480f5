import Verif.Forge.Prom
/-
C38 and its companions: Prometheus names.
-/
namespace Verif.Forge
open Verif.Util

/-- A legal character of a Prometheus name: an ASCII letter or digit, an underscore or a colon. -/
def LegalChar (c : Char) : Prop := c.isAlphanum = true ∨ c = '_' ∨ c = ':'

/-- A legal Prometheus name: legal characters, and no digit at its start. -/
def LegalName (s : Chars) : Prop := s ≠ [] ∧ (∀ c ∈ s, LegalChar c) ∧ ∀ c, s.head? = some c → c.isDigit = false

/-- The classification of characters is right on the characters of a text: what is alphanumeric is an ASCII letter or
digit, and the other way round. Every text of ASCII characters has this property. -/
def AsciiText (alnum : Char → Bool) (s : Chars) : Prop := ∀ c ∈ s, alnum c = c.isAlphanum

variable (alnum : Char → Bool)

theorem escChar_legal (c : Char) : LegalChar (escChar c) := by
  unfold escChar LegalChar
  split
  · assumption
  · exact .inr (.inl rfl)

theorem escChar_of_legal {c : Char} (h : LegalChar c) : escChar c = c := by unfold escChar; exact if_pos h

theorem keepValid_ascii {s : Chars} (h : AsciiText alnum s) : keepValid alnum s = s.map escChar := by
  induction s with
  | nil => rfl
  | cons c r ih =>
    unfold keepValid
    split
    · rfl
    · rename_i hc
      rw [List.map_cons, ih (fun d hd => h d (by simp [hd]))]
      congr 1
      have := h c (by simp)
      refine (escChar_of_legal ?_).symm
      unfold LegalChar
      simp only [Bool.and_eq_true, Bool.not_eq_true', bne_iff_ne, ne_eq, not_and, Decidable.not_not] at hc
      cases ha : c.isAlphanum with
      | true => exact .inl rfl
      | false =>
        rw [ha] at this
        by_cases h1 : c = '_'
        · exact .inr (.inl h1)
        · exact .inr (.inr (hc ⟨this, h1⟩))

/-- What escaping does to an ASCII text: every character that is not legal becomes an underscore, the others stay, and a
text that starts with a digit gets an underscore in front. -/
theorem sanitize_ascii {s : Chars} (h : AsciiText alnum s) : sanitize alnum s =
    (if ∃ c, s.head? = some c ∧ c.isDigit = true then ['_'] else []) ++ s.map escChar := by
  cases s with
  | nil => simp [sanitize]
  | cons c r =>
    unfold sanitize
    dsimp only
    by_cases hd : c.isDigit = true
    · simp [hd]
    · rw [if_neg hd, keepValid_ascii alnum h]; simp [hd]

theorem keepValid_head (s : Chars) (c : Char) (h : (keepValid alnum s).head? = some c) :
    s.head? = some c ∨ c = escChar c := by
  cases s with
  | nil => simp [keepValid] at h
  | cons d r =>
    unfold keepValid at h
    split at h
    · simp at h; right; subst h; exact (escChar_of_legal (escChar_legal d)).symm
    · simp at h; left; simp [h]

theorem escChar_digit {c : Char} (h : c.isDigit = false) : (escChar c).isDigit = false := by
  unfold escChar; split
  · exact h
  · rfl

/-- Escaping never gives a name that starts with a digit, whatever the text. -/
theorem sanitize_start (s : Chars) (c : Char) (h : (sanitize alnum s).head? = some c) : c.isDigit = false := by
  cases s with
  | nil => simp [sanitize] at h
  | cons d r =>
    unfold sanitize at h
    dsimp only at h
    split at h
    · simp at h; subst h; rfl
    · rename_i hd
      unfold keepValid at h
      split at h
      · simp at h; subst h; exact escChar_digit (by simpa using hd)
      · simp at h; subst h; simpa using hd

/-- Escaping an ASCII text gives a legal name. -/
theorem sanitize_legal {s : Chars} (h : AsciiText alnum s) (hs : s ≠ []) : LegalName (sanitize alnum s) := by
  refine ⟨?_, ?_, sanitize_start alnum s⟩
  · rw [sanitize_ascii alnum h]; simp [hs]
  · rw [sanitize_ascii alnum h]
    intro c hc
    rcases List.mem_append.1 hc with hc | hc
    · split at hc
      · simp at hc; subst hc; exact .inr (.inl rfl)
      · simp at hc
    · obtain ⟨d, _, rfl⟩ := List.mem_map.1 hc
      exact escChar_legal d

/-- Escaping leaves a legal name as it is. -/
theorem sanitize_id {s : Chars} (h : AsciiText alnum s) (hl : LegalName s) : sanitize alnum s = s := by
  rw [sanitize_ascii alnum h]
  rw [if_neg (by rintro ⟨c, hc, hd⟩; rw [hl.2.2 c hc] at hd; cases hd)]
  simp only [List.nil_append]
  conv => rhs; rw [← List.map_id s]
  exact List.map_congr_left fun c hc => escChar_of_legal (hl.2.1 c hc)

/-! ### Units -/

theorem lookup_mem {t : List (String × String)} {k v : String} (h : t.lookup k = some v) : (k, v) ∈ t := by
  induction t with
  | nil => simp at h
  | cons e t ih =>
    obtain ⟨k', v'⟩ := e
    rw [List.lookup_cons] at h
    split at h
    · rename_i hk
      have := beq_iff_eq.1 hk
      subst this; cases h; simp
    · exact List.mem_cons_of_mem _ (ih h)

/-- The suffix of a unit: the name of a known unit; for `a/b` with a known `b`, `per_b`, after the name of `a` if `a` is a
known unit other than a time or `1`. -/
theorem unitSuffix_iff (u s : Chars) : unitSuffix u = some s ↔
    u ≠ [] ∧ (unitIn promUnits u = some s ∨
      (unitIn promUnits u = none ∧ ∃ a b p, u = a ++ '/' :: b ∧ '/' ∉ a ∧ unitIn promPerUnits b = some p ∧
        ((s = "per_".toList ++ p ∧ (String.ofList a ∈ nonApplicable ∨ unitIn promUnits a = none)) ∨
          ∃ f, s = f ++ "_per_".toList ++ p ∧ String.ofList a ∉ nonApplicable ∧ unitIn promUnits a = some f))) := by
  unfold unitSuffix
  by_cases h0 : u = []
  · simp [h0]
  rw [if_neg h0]
  simp only [ne_eq, h0, not_false_eq_true, true_and]
  cases hu : unitIn promUnits u with
  | some m => simp
  | none =>
    simp only [reduceCtorEq, false_or, true_and]
    cases hs : splitFirst ['/'] u with
    | none =>
      refine iff_of_false (by simp) ?_
      rintro ⟨a, b, p, rfl, _⟩
      exact splitFirst_none.1 hs ⟨a, b, by simp⟩
    | some q =>
      obtain ⟨x, y⟩ := q
      have he : u = x ++ '/' :: y := by simpa using splitFirst_eq hs
      have hx : '/' ∉ x := by
        intro hm
        obtain ⟨v, w, e⟩ := List.append_of_mem hm
        have := splitFirst_first hs (a' := v) (b' := w ++ '/' :: y) (by rw [he, e]; simp)
        rw [e] at this; simp at this; omega
      have huniq : ∀ a b : Chars, u = a ++ '/' :: b → '/' ∉ a → a = x ∧ b = y := by
        intro a b h hna
        rw [he] at h
        rcases List.append_eq_append_iff.1 h with ⟨t, h1, h2⟩ | ⟨t, h1, h2⟩
        · cases t with
          | nil => simp at h1 h2; exact ⟨h1, h2.symm⟩
          | cons c t => simp at h2; exact absurd (by rw [h1, ← h2.1]; simp) hna
        · cases t with
          | nil => simp at h1 h2; exact ⟨h1.symm, h2⟩
          | cons c t => simp at h2; exact absurd (by rw [h1, ← h2.1]; simp) hx
      have hw : (∃ a b p, u = a ++ '/' :: b ∧ '/' ∉ a ∧ unitIn promPerUnits b = some p ∧
          ((s = "per_".toList ++ p ∧ (String.ofList a ∈ nonApplicable ∨ unitIn promUnits a = none)) ∨
          ∃ f, s = f ++ "_per_".toList ++ p ∧ String.ofList a ∉ nonApplicable ∧ unitIn promUnits a = some f)) ↔
          ∃ p, unitIn promPerUnits y = some p ∧
          ((s = "per_".toList ++ p ∧ (String.ofList x ∈ nonApplicable ∨ unitIn promUnits x = none)) ∨
          ∃ f, s = f ++ "_per_".toList ++ p ∧ String.ofList x ∉ nonApplicable ∧ unitIn promUnits x = some f) := by
        constructor
        · rintro ⟨a, b, p, h1, h2, h3⟩
          obtain ⟨rfl, rfl⟩ := huniq a b h1 h2
          exact ⟨p, h3⟩
        · rintro ⟨p, h3⟩; exact ⟨x, y, p, he, hx, h3⟩
      rw [hw]
      dsimp only
      cases hp : unitIn promPerUnits y with
      | none =>
        refine iff_of_false ?_ (by simp)
        cases decide (String.ofList x ∈ nonApplicable) <;> cases unitIn promUnits x <;> simp
      | some p =>
        simp only [Option.some.injEq, exists_eq_left']
        by_cases hn : String.ofList x ∈ nonApplicable
        · simp [hn, eq_comm]
        · cases unitIn promUnits x <;> simp [hn, eq_comm]

theorem unitIn_mem {t : List (String × String)} {u s : Chars} (h : unitIn t u = some s) : ∃ e ∈ t, s = e.2.toList := by
  unfold unitIn at h
  cases hl : t.lookup (String.ofList u) with
  | none => rw [hl] at h; cases h
  | some v => rw [hl] at h; cases h; exact ⟨_, lookup_mem hl, rfl⟩

/-- Everything a suffix is made of. -/
theorem unitSuffix_cases {u s : Chars} (h : unitSuffix u = some s) : ∃ a w : Chars, s = a ++ w ∧
    (∃ e ∈ promUnits ++ promPerUnits, w = e.2.toList) ∧
    (a = [] ∨ a = "per_".toList ∨ ∃ e ∈ promUnits, a = e.2.toList ++ "_per_".toList) := by
  obtain ⟨_, h | ⟨_, a, b, p, _, _, hp, ⟨rfl, _⟩ | ⟨f, rfl, _, hf⟩⟩⟩ := (unitSuffix_iff u s).1 h
  · obtain ⟨e, he, rfl⟩ := unitIn_mem h
    exact ⟨[], _, rfl, ⟨e, by simp [he], rfl⟩, .inl rfl⟩
  · obtain ⟨e, he, rfl⟩ := unitIn_mem hp
    exact ⟨_, _, rfl, ⟨e, by simp [he], rfl⟩, .inr (.inl rfl)⟩
  · obtain ⟨e, he, rfl⟩ := unitIn_mem hp
    obtain ⟨e', he', rfl⟩ := unitIn_mem hf
    exact ⟨_, _, rfl, ⟨e, by simp [he], rfl⟩, .inr (.inr ⟨e', he', rfl⟩)⟩

instance (c : Char) : Decidable (LegalChar c) := inferInstanceAs (Decidable (_ ∨ _))

theorem tables_legal : ∀ e ∈ promUnits ++ promPerUnits, ∀ c ∈ e.2.toList, LegalChar c := by decide

/-- Suffixes of units are made of legal characters. -/
theorem unitSuffix_legal {u s : Chars} (h : unitSuffix u = some s) : ∀ c ∈ s, LegalChar c := by
  obtain ⟨a, w, rfl, ⟨e, he, rfl⟩, ha⟩ := unitSuffix_cases h
  have hper : ∀ t ∈ ["per_".toList, "_per_".toList], ∀ c ∈ t, LegalChar c := by decide
  intro c hc
  rcases List.mem_append.1 hc with hc | hc
  · rcases ha with rfl | rfl | ⟨e', he', rfl⟩
    · simp at hc
    · exact hper _ (by simp) c hc
    · rcases List.mem_append.1 hc with hc | hc
      · exact tables_legal e' (by simp [he']) c hc
      · exact hper _ (by simp) c hc
  · exact tables_legal e he c hc

/-- The suffixes of a name: the unit, and `total` for counters, each after an underscore. -/
theorem withSuffixes_eq (name unit : Chars) (instrument : String) : withSuffixes name unit instrument =
    name ++ (match unitSuffix unit with | some s => '_' :: s | none => []) ++
      (if instrument = "counter" then "_total".toList else []) := by
  unfold withSuffixes suffixes
  cases unitSuffix unit <;> by_cases h : instrument = "counter" <;> simp [h]

theorem suffix_legal (unit : Chars) (instrument : String) : ∀ c ∈
    (match unitSuffix unit with | some s => '_' :: s | none => []) ++ (if instrument = "counter" then "_total".toList else []),
    LegalChar c := by
  intro c hc
  rcases List.mem_append.1 hc with hc | hc
  · cases h : unitSuffix unit with
    | none => rw [h] at hc; simp at hc
    | some s =>
      rw [h] at hc
      rcases List.mem_cons.1 hc with rfl | hc
      · exact .inr (.inl rfl)
      · exact unitSuffix_legal h c hc
  · split at hc
    · have ht : ∀ c ∈ "_total".toList, LegalChar c := by decide
      exact ht c hc
    · simp at hc

/-- A legal name with more legal characters at its end is legal. -/
theorem LegalName.append {s t : Chars} (h : LegalName s) (ht : ∀ c ∈ t, LegalChar c) : LegalName (s ++ t) := by
  refine ⟨by simp [h.1], ?_, ?_⟩
  · intro c hc
    rcases List.mem_append.1 hc with hc | hc
    · exact h.2.1 c hc
    · exact ht c hc
  · intro c hc
    cases s with
    | nil => exact absurd rfl h.1
    | cons d s => exact h.2.2 c (by simpa using hc)

/-! ### The names -/

/-- The strategies that escape. -/
def Strategy.Escapes : Strategy → Prop
  | .escapedWithoutSuffixes | .escapedWithSuffixes => True
  | .noTranslation | .utf8WithSuffixes => False

/-- With an escaping strategy every name that is listed for a metric with an ASCII name is legal. -/
theorem promNames_legal {name : Chars} (h : AsciiText alnum name) (hn : name ≠ []) (st : Strategy) (he : st.Escapes)
    (expand : Bool) (unit : Chars) (instrument : String) :
    ∀ n ∈ promNames alnum (some st) expand name unit instrument, LegalName n := by
  intro n hm
  obtain ⟨v, hv, hm⟩ := List.mem_flatMap.1 hm
  have hv := ((uniq_spec _).2 v).1 hv
  have hl : LegalName v := by
    have hsan := sanitize_legal alnum h hn
    cases st with
    | noTranslation => exact he.elim
    | utf8WithSuffixes => exact he.elim
    | escapedWithoutSuffixes => simp [variants] at hv; rw [hv]; exact hsan
    | escapedWithSuffixes =>
      simp [variants] at hv
      rw [hv, withSuffixes_eq, List.append_assoc]
      exact hsan.append (suffix_legal unit instrument)
  have hx : ∀ t ∈ ["_bucket".toList, "_count".toList, "_sum".toList], ∀ c ∈ t, LegalChar c := by decide
  unfold expandName at hm
  split at hm
  · split at hm
    · simp only [List.mem_cons, List.not_mem_nil, or_false] at hm
      rcases hm with rfl | rfl | rfl | rfl
      · exact hl
      · exact hl.append (hx _ (by simp))
      · exact hl.append (hx _ (by simp))
      · exact hl.append (hx _ (by simp))
    · split at hm
      · simp only [List.mem_cons, List.not_mem_nil, or_false] at hm
        rcases hm with rfl | rfl | rfl
        · exact hl
        · exact hl.append (hx _ (by simp))
        · exact hl.append (hx _ (by simp))
      · simp at hm; rw [hm]; exact hl
  · simp at hm; rw [hm]; exact hl

/-- The name of a metric for a strategy is among the names listed for that strategy, and among all names. -/
theorem promName_listed (st : Strategy) (expand : Bool) (name unit : Chars) (instrument : String) :
    promName alnum st name unit instrument ∈ promNames alnum (some st) expand name unit instrument ∧
    promName alnum st name unit instrument ∈ promNames alnum none expand name unit instrument := by
  have hself : ∀ n, n ∈ expandName expand instrument n := by
    intro n; unfold expandName
    split
    · split
      · simp
      · split <;> simp
    · simp
  refine ⟨List.mem_flatMap.2 ⟨_, ((uniq_spec _).2 _).2 ?_, hself _⟩, List.mem_flatMap.2 ⟨_, ((uniq_spec _).2 _).2 ?_, hself _⟩⟩ <;>
    cases st <;> simp [variants, promName]

/-- Without expansion, exactly the names for the four strategies, or for the chosen one, are listed. -/
theorem promNames_mem (name unit : Chars) (instrument : String) (n : Chars) :
    (n ∈ promNames alnum none false name unit instrument ↔ ∃ st, n = promName alnum st name unit instrument) ∧
    ∀ st, (n ∈ promNames alnum (some st) false name unit instrument ↔ n = promName alnum st name unit instrument) := by
  have hf : ∀ l : List Chars, l.flatMap (expandName false instrument) = l := by
    intro l; unfold expandName; simp
  constructor
  · unfold promNames
    rw [hf, (uniq_spec _).2]
    simp only [variants, List.mem_cons, List.not_mem_nil, or_false]
    constructor
    · rintro (h | h | h | h)
      · exact ⟨.noTranslation, h⟩
      · exact ⟨.escapedWithoutSuffixes, h⟩
      · exact ⟨.utf8WithSuffixes, h⟩
      · exact ⟨.escapedWithSuffixes, h⟩
    · rintro ⟨st, h⟩
      cases st <;> simp [h, promName]
  · intro st
    unfold promNames
    rw [hf, (uniq_spec _).2]
    cases st <;> simp [variants, promName]

/-- With expansion, a histogram has four series per name, a summary three, and every other metric one. -/
theorem promNames_expanded (st : Option Strategy) (name unit : Chars) (instrument : String) (n : Chars) :
    n ∈ promNames alnum st true name unit instrument ↔
    ∃ m ∈ promNames alnum st false name unit instrument, n = m ∨
      (instrument = "histogram" ∧ (n = m ++ "_bucket".toList ∨ n = m ++ "_count".toList ∨ n = m ++ "_sum".toList)) ∨
      (instrument = "summary" ∧ (n = m ++ "_count".toList ∨ n = m ++ "_sum".toList)) := by
  have hf : ∀ l : List Chars, l.flatMap (expandName false instrument) = l := by
    intro l; unfold expandName; simp
  unfold promNames
  rw [hf, List.mem_flatMap]
  refine exists_congr fun m => and_congr_right fun _ => ?_
  unfold expandName
  rw [if_pos rfl]
  by_cases h1 : instrument = "histogram"
  · rw [if_pos h1]; simp [h1]
  · rw [if_neg h1]
    by_cases h2 : instrument = "summary"
    · rw [if_pos h2]; simp [h2]
    · rw [if_neg h2]; simp [h1, h2]

example : AsciiText Char.isAlphanum "2http.server.duration".toList := fun _ _ => rfl
example : (promNames Char.isAlphanum (some .escapedWithSuffixes) true "2http.server.duration".toList "KiBy/s".toList "histogram").map
    String.ofList = ["_2http_server_duration_kibibytes_per_second", "_2http_server_duration_kibibytes_per_second_bucket",
      "_2http_server_duration_kibibytes_per_second_count", "_2http_server_duration_kibibytes_per_second_sum"] := by decide

/-! ### All names are different -/

theorem keepValid_length (s : Chars) : (keepValid alnum s).length = s.length := by
  induction s with
  | nil => rfl
  | cons c r ih => unfold keepValid; split <;> simp [ih]

theorem sanitize_length (s : Chars) : s.length ≤ (sanitize alnum s).length ∧ (sanitize alnum s).length ≤ s.length + 1 := by
  cases s with
  | nil => simp [sanitize]
  | cons c r => unfold sanitize; dsimp only; split <;> simp [keepValid_length]

/-- No known unit ends like one of the series. -/
theorem tables_ends : ∀ e ∈ promUnits ++ promPerUnits, ∀ t ∈ ["_bucket".toList, "_count".toList, "_sum".toList],
    (e.2.toList.drop (e.2.toList.length - 3)).length = 3 ∧
    e.2.toList.drop (e.2.toList.length - 3) ≠ t.drop (t.length - 3) := by decide

theorem ends_eq {a b w t : Chars} (h : a ++ w = b ++ t) (hw : 3 ≤ w.length) (ht : 3 ≤ t.length) :
    w.drop (w.length - 3) = t.drop (t.length - 3) := by
  have key : ∀ x y : Chars, 3 ≤ y.length → (x ++ y).drop ((x ++ y).length - 3) = y.drop (y.length - 3) := by
    intro x y hy
    rw [List.length_append, show x.length + y.length - 3 = x.length + (y.length - 3) by omega, List.drop_append]
    simp
  rw [← key a w hw, ← key b t ht, h]

/-- A variant of a name that is not a counter: short, or with a unit at its end. -/
theorem variant_cases {st : Option Strategy} {name unit : Chars} {instrument : String} (hc : instrument ≠ "counter") {v : Chars}
    (hv : v ∈ variants alnum st name unit instrument) : name.length ≤ v.length ∧
    (v.length ≤ name.length + 1 ∨ ∃ a, ∃ e ∈ promUnits ++ promPerUnits, v = a ++ e.2.toList) := by
  have hw : ∀ x : Chars, name.length ≤ x.length → x.length ≤ name.length + 1 → name.length ≤ (withSuffixes x unit instrument).length ∧
      ((withSuffixes x unit instrument).length ≤ name.length + 1 ∨
        ∃ a, ∃ e ∈ promUnits ++ promPerUnits, withSuffixes x unit instrument = a ++ e.2.toList) := by
    intro x h1 h2
    rw [withSuffixes_eq, if_neg hc, List.append_nil]
    cases hu : unitSuffix unit with
    | none => simp only [List.append_nil]; exact ⟨h1, .inl h2⟩
    | some s =>
      obtain ⟨a, w, rfl, ⟨e, he, rfl⟩, _⟩ := unitSuffix_cases hu
      refine ⟨by simp; omega, .inr ⟨x ++ '_' :: a, e, he, by simp⟩⟩
  have hs := sanitize_length alnum name
  have h1 : v = name ∨ v = sanitize alnum name ∨ v = withSuffixes name unit instrument ∨
      v = withSuffixes (sanitize alnum name) unit instrument := by
    cases st with
    | none => simpa [variants] using hv
    | some st => cases st <;> simp [variants] at hv <;> simp [hv]
  rcases h1 with rfl | rfl | rfl | rfl
  · exact ⟨Nat.le_refl _, .inl (by omega)⟩
  · exact ⟨hs.1, .inl hs.2⟩
  · exact hw name (Nat.le_refl _) (by omega)
  · exact hw _ hs.1 hs.2

/-- The names that are listed are all different, with and without expansion. -/
theorem promNames_nodup (st : Option Strategy) (expand : Bool) (name unit : Chars) (instrument : String) :
    (promNames alnum st expand name unit instrument).Nodup := by
  unfold promNames
  have hu := uniq_spec (variants alnum st name unit instrument)
  generalize hl : uniq (variants alnum st name unit instrument) = l at hu
  have hsingle : (∀ n, expandName expand instrument n = [n]) → (l.flatMap (expandName expand instrument)).Nodup := by
    intro h
    rw [show expandName expand instrument = fun n => [n] from funext h]
    simpa using hu.1
  have hmulti : ∀ T : List Chars, instrument ≠ "counter" → (∀ n, expandName expand instrument n = n :: T.map (n ++ ·)) →
      T.Nodup → (∀ t ∈ T, t ∈ ["_bucket".toList, "_count".toList, "_sum".toList]) →
      (∀ t ∈ T, ∀ t' ∈ T, t ≠ t' → t.drop (t.length - 3) ≠ t'.drop (t'.length - 3)) →
      (l.flatMap (expandName expand instrument)).Nodup := by
    intro T hc hexp hT hsub hends
    have hlen : ∀ t ∈ T, 4 ≤ t.length := fun t ht => by
      have h4 : ∀ t ∈ ["_bucket".toList, "_count".toList, "_sum".toList], 4 ≤ t.length := by decide
      exact h4 t (hsub t ht)
    have hv : ∀ v ∈ l, name.length ≤ v.length ∧
        (v.length ≤ name.length + 1 ∨ ∃ a, ∃ e ∈ promUnits ++ promPerUnits, v = a ++ e.2.toList) :=
      fun v hv => variant_cases alnum hc ((hu.2 v).1 hv)
    have hcross : ∀ v ∈ l, ∀ w ∈ l, ∀ t ∈ T, v ≠ w ++ t := by
      intro v hv' w hw' t ht e
      have h4 := hlen t ht
      rcases (hv v hv').2 with h | ⟨a, x, hx, rfl⟩
      · have := (hv w hw').1
        rw [e, List.length_append] at h; omega
      · obtain ⟨h1, h2⟩ := tables_ends x hx t (hsub t ht)
        have h3 : 3 ≤ x.2.toList.length := by rw [List.length_drop] at h1; omega
        exact h2 (ends_eq e h3 (by omega))
    rw [List.nodup_iff_pairwise_ne, List.pairwise_flatMap]
    constructor
    · intro v hv'
      rw [hexp v, List.pairwise_cons]
      constructor
      · intro x hx
        obtain ⟨t, ht, rfl⟩ := List.mem_map.1 hx
        exact hcross v hv' v hv' t ht
      · rw [List.pairwise_map]
        exact List.Pairwise.imp (fun h e => h (List.append_cancel_left e)) hT
    · refine List.Pairwise.imp_of_mem ?_ hu.1
      intro v w hv' hw' hne x hx y hy
      rw [hexp, List.mem_cons] at hx hy
      rcases hx with rfl | hx
      · rcases hy with rfl | hy
        · exact hne
        · obtain ⟨t, ht, rfl⟩ := List.mem_map.1 hy
          exact hcross x hv' w hw' t ht
      · obtain ⟨t, ht, rfl⟩ := List.mem_map.1 hx
        rcases hy with rfl | hy
        · exact fun e => hcross y hw' v hv' t ht e.symm
        · obtain ⟨t', ht', rfl⟩ := List.mem_map.1 hy
          intro e
          by_cases htt : t = t'
          · subst htt; exact hne (List.append_cancel_right e)
          · exact hends t ht t' ht' htt (ends_eq e (by have := hlen t ht; omega) (by have := hlen t' ht'; omega))
  by_cases he : expand = true
  · by_cases h1 : instrument = "histogram"
    · refine hmulti ["_bucket".toList, "_count".toList, "_sum".toList] (by rw [h1]; decide) ?_ (by decide) (by simp) (by decide)
      intro n; simp [expandName, he, h1]
    · by_cases h2 : instrument = "summary"
      · refine hmulti ["_count".toList, "_sum".toList] (by rw [h2]; decide) ?_ (by decide) (by decide) (by decide)
        intro n; simp [expandName, he, h2]
      · refine hsingle fun n => ?_
        simp [expandName, h1, h2]
  · refine hsingle fun n => ?_
    simp [expandName, he]

/-! ### What does not hold -/

/-- Whatever the name, an escaped name is made of legal characters and of alphanumeric characters of the name, and it does
not start with a digit. -/
theorem promNames_all_legal_partial (s : Chars) : (∀ c ∈ sanitize alnum s, LegalChar c ∨ (c ∈ s ∧ alnum c = true)) ∧
    ∀ c, (sanitize alnum s).head? = some c → c.isDigit = false := by
  refine ⟨?_, sanitize_start alnum s⟩
  have hk : ∀ s : Chars, ∀ c ∈ keepValid alnum s, LegalChar c ∨ (c ∈ s ∧ alnum c = true) := by
    intro s
    induction s with
    | nil => intro c hc; simp [keepValid] at hc
    | cons d r ih =>
      intro c hc
      unfold keepValid at hc
      split at hc
      · obtain ⟨x, _, rfl⟩ := List.mem_map.1 hc
        exact .inl (escChar_legal x)
      · rename_i hd
        rcases List.mem_cons.1 hc with rfl | hc
        · simp only [Bool.and_eq_true, Bool.not_eq_true', bne_iff_ne, ne_eq, not_and, Decidable.not_not] at hd
          cases ha : alnum c with
          | true => exact .inr ⟨by simp, rfl⟩
          | false =>
            by_cases h1 : c = '_'
            · exact .inl (.inr (.inl h1))
            · exact .inl (.inr (.inr (hd ⟨ha, h1⟩)))
        · rcases ih c hc with h | ⟨h1, h2⟩
          · exact .inl h
          · exact .inr ⟨by simp [h1], h2⟩
  cases s with
  | nil => intro c hc; simp [sanitize] at hc
  | cons d r =>
    intro c hc
    unfold sanitize at hc
    dsimp only at hc
    split at hc
    · rcases List.mem_cons.1 hc with rfl | hc
      · exact .inl (.inr (.inl rfl))
      · obtain ⟨x, _, rfl⟩ := List.mem_map.1 hc
        exact .inl (escChar_legal x)
    · exact hk _ c hc

/-- A letter outside of ASCII is kept, unless it comes after an invalid character. -/
theorem promNames_all_legal_refuted (h : alnum 'é' = true) :
    promName alnum .escapedWithSuffixes "é".toList [] "gauge" = "é".toList ∧ ¬ LegalName "é".toList := by
  refine ⟨?_, ?_⟩
  · simp [promName, sanitize, keepValid, h, withSuffixes, suffixes, unitSuffix]
  · intro h; exact absurd (h.2.1 'é' (by simp)) (by decide)

/-- A rate has a suffix if its second part is one of seven units. -/
theorem rates_translated_partial (a b p : Chars) (ha : '/' ∉ a) (hu : unitIn promUnits (a ++ '/' :: b) = none)
    (hp : unitIn promPerUnits b = some p) : ∃ s, unitSuffix (a ++ '/' :: b) = some s ∧ p <:+ s := by
  by_cases hn : String.ofList a ∈ nonApplicable
  · exact ⟨_, (unitSuffix_iff _ _).2 ⟨by simp, .inr ⟨hu, a, b, p, rfl, ha, hp, .inl ⟨rfl, .inl hn⟩⟩⟩, ⟨_, rfl⟩⟩
  · cases hf : unitIn promUnits a with
    | none => exact ⟨_, (unitSuffix_iff _ _).2 ⟨by simp, .inr ⟨hu, a, b, p, rfl, ha, hp, .inl ⟨rfl, .inr hf⟩⟩⟩, ⟨_, rfl⟩⟩
    | some f =>
      exact ⟨_, (unitSuffix_iff _ _).2 ⟨by simp, .inr ⟨hu, a, b, p, rfl, ha, hp, .inr ⟨f, rfl, hn, hf⟩⟩⟩, ⟨_, rfl⟩⟩

/-- Bytes per minute, `By/min`, have no suffix although `min` is known to be minutes, and `By/m` has the suffix of bytes
per minute although `m` is known to be meters. -/
theorem rates_translated_refuted : unitSuffix "min".toList = some "minutes".toList ∧ unitSuffix "m".toList = some "meters".toList ∧
    unitSuffix "By/min".toList = none ∧ unitSuffix "By/m".toList = some "bytes_per_minute".toList := by decide

end Verif.Forge
