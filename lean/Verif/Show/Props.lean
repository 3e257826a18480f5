import Verif.Show.Model
/-
C261: literals of values. C262: errors of templates.
-/
namespace Verif.Show
open Verif.Util

/-! ### C261 -/

/-- RFC 8259: the value of a hexadecimal digit. -/
def hexVal (c : Char) : Option Nat :=
  if 48 ≤ c.toNat ∧ c.toNat ≤ 57 then some (c.toNat - 48)
  else if 97 ≤ c.toNat ∧ c.toNat ≤ 102 then some (c.toNat - 87)
  else if 65 ≤ c.toNat ∧ c.toNat ≤ 70 then some (c.toNat - 55)
  else none

/-- RFC 8259: the two-character escapes. -/
def unescape (c : Char) : Option Char :=
  if c = '"' then some '"' else if c = '\\' then some '\\' else if c = '/' then some '/'
  else if c = 'b' then some (Char.ofNat 8) else if c = 'f' then some (Char.ofNat 12)
  else if c = 'n' then some (Char.ofNat 10) else if c = 'r' then some (Char.ofNat 13)
  else if c = 't' then some (Char.ofNat 9) else none

def hex4 (a b c d : Char) : Option Char := do
  let a ← hexVal a
  let b ← hexVal b
  let c ← hexVal c
  let d ← hexVal d
  let n := ((a * 16 + b) * 16 + c) * 16 + d
  if n < 0xd800 then some (Char.ofNat n) else none

/-- RFC 8259: what is behind the first quote of a string; without surrogates. -/
def decode : Chars → Option Chars
  | [] => none
  | [c] => if c = '"' then some [] else none
  | c :: e :: r =>
    if c = '"' then none
    else if c = '\\' then
      if e = 'u' then
        match r with
        | x :: y :: z :: w :: t => (hex4 x y z w).bind fun ch => (decode t).map (ch :: ·)
        | _ => none
      else (unescape e).bind fun ch => (decode r).map (ch :: ·)
    else if c.toNat < 32 then none
    else (decode (e :: r)).map (c :: ·)

/-- A JSON string. -/
def parseString : Chars → Option Chars
  | [] => none
  | c :: r => if c = '"' then decode r else none

theorem toNat_eq {c : Char} {n : Nat} (h : c.toNat = n) : c = Char.ofNat n := by rw [← h, Char.ofNat_toNat]

theorem hexVal_hexDigit : ∀ n < 16, hexVal (hexDigit n) = some n := by decide

theorem decode_simple {e ch : Char} (hu : e ≠ 'u') (h : unescape e = some ch) (r : Chars) :
    decode ('\\' :: e :: r) = (decode r).map (ch :: ·) := by
  conv => lhs; unfold decode
  rw [if_neg (by decide), if_pos rfl, if_neg hu, h]
  rfl

theorem decode_esc (c : Char) (r : Chars) : decode (esc c ++ r) = (decode r).map (c :: ·) ∨ r = [] := by
  cases r with
  | nil => exact .inr rfl
  | cons x r =>
    refine .inl ?_
    unfold esc
    by_cases h1 : c = '"'
    · rw [if_pos h1, h1]; exact decode_simple (by decide) rfl _
    rw [if_neg h1]
    by_cases h2 : c = '\\'
    · rw [if_pos h2, h2]; exact decode_simple (by decide) rfl _
    rw [if_neg h2]
    by_cases h3 : c.toNat = 8
    · rw [if_pos h3, toNat_eq h3]; exact decode_simple (by decide) rfl _
    rw [if_neg h3]
    by_cases h4 : c.toNat = 12
    · rw [if_pos h4, toNat_eq h4]; exact decode_simple (by decide) rfl _
    rw [if_neg h4]
    by_cases h5 : c.toNat = 10
    · rw [if_pos h5, toNat_eq h5]; exact decode_simple (by decide) rfl _
    rw [if_neg h5]
    by_cases h6 : c.toNat = 13
    · rw [if_pos h6, toNat_eq h6]; exact decode_simple (by decide) rfl _
    rw [if_neg h6]
    by_cases h7 : c.toNat = 9
    · rw [if_pos h7, toNat_eq h7]; exact decode_simple (by decide) rfl _
    rw [if_neg h7]
    by_cases h8 : c.toNat < 32
    · rw [if_pos h8]
      have e : hex4 '0' '0' (hexDigit (c.toNat / 16)) (hexDigit (c.toNat % 16)) = some c := by
        unfold hex4
        rw [hexVal_hexDigit _ (by omega), hexVal_hexDigit _ (by omega)]
        show (if ((0 * 16 + 0) * 16 + c.toNat / 16) * 16 + c.toNat % 16 < 0xd800 then
          some (Char.ofNat (((0 * 16 + 0) * 16 + c.toNat / 16) * 16 + c.toNat % 16)) else none) = _
        have : ((0 * 16 + 0) * 16 + c.toNat / 16) * 16 + c.toNat % 16 = c.toNat := by omega
        rw [this, if_pos (by omega), Char.ofNat_toNat]
      show decode ('\\' :: 'u' :: '0' :: '0' :: hexDigit (c.toNat / 16) :: hexDigit (c.toNat % 16) :: x :: r) = _
      conv => lhs; unfold decode
      rw [if_neg (by decide), if_pos rfl, if_pos rfl]
      dsimp only
      rw [e]
      rfl
    rw [if_neg h8]
    show decode (c :: x :: r) = _
    conv => lhs; unfold decode
    rw [if_neg h1, if_neg h2, if_neg h8]

theorem decode_body (s : Chars) : decode (s.flatMap esc ++ ['"']) = some s := by
  induction s with
  | nil => rfl
  | cons c s ih =>
    rw [List.flatMap_cons, List.append_assoc]
    rcases decode_esc c (s.flatMap esc ++ ['"']) with h | h
    · rw [h, ih]; rfl
    · simp at h

/-- **C261**: the literal of a string is a JSON string with this value. -/
theorem literal_value (s : Chars) : parseString (printMember (.str s)) = some s := by
  show (if '"' = '"' then decode (s.flatMap esc ++ ['"']) else none) = some s
  rw [if_pos rfl, decode_body]

theorem esc_no_control (c : Char) : ∀ d ∈ esc c, 32 ≤ d.toNat := by
  unfold esc
  repeat' split
  all_goals try (intro d hd; revert d; decide)
  · rename_i h
    intro d hd
    have hx : ∀ n < 16, 32 ≤ (hexDigit n).toNat := by decide
    simp only [List.mem_cons, List.not_mem_nil, or_false] at hd
    rcases hd with rfl | rfl | rfl | rfl | rfl | rfl <;> first | decide | exact hx _ (by omega)
  · rename_i h
    intro d hd
    rw [List.mem_singleton.1 hd]
    omega

/-- **C261**: the literal of a string is on one line, whatever the string has. -/
theorem literal_line (s : Chars) : ∀ c ∈ printMember (.str s), 32 ≤ c.toNat := by
  intro c hc
  replace hc : c ∈ '"' :: s.flatMap esc ++ ['"'] := hc
  simp only [List.cons_append, List.mem_cons, List.mem_append, List.not_mem_nil, or_false] at hc
  rcases hc with rfl | hc | rfl
  · decide
  · obtain ⟨d, _, h⟩ := List.mem_flatMap.1 hc
    exact esc_no_control d c h
  · decide

/-- The values an enum member can have. -/
def IsMember : Value → Prop
  | .str _ => True
  | .num n => n ≠ [] ∧ n.head? ≠ some '"' ∧ n ≠ "true".toList ∧ n ≠ "false".toList
  | .bool _ => True
  | _ => False

/-- **C261** (partial): strings, numbers and booleans with the same literal are the same. -/
theorem literals_distinct_partial {a b : Value} (ha : IsMember a) (hb : IsMember b) (h : printMember a = printMember b) :
    a = b := by
  match a, b, ha, hb, h with
  | .str s, .str t, _, _, h =>
    have := congrArg parseString h
    rw [literal_value, literal_value] at this
    cases this; rfl
  | .str s, .num n, _, hn, h => exact absurd (by rw [← show quote s = n from h]; rfl) hn.2.1
  | .num n, .str s, hn, _, h => exact absurd (by rw [show n = quote s from h]; rfl) hn.2.1
  | .num n, .num m, _, _, h => exact congrArg Value.num h
  | .num n, .bool true, hn, _, h => exact absurd h hn.2.2.1
  | .num n, .bool false, hn, _, h => exact absurd h hn.2.2.2
  | .bool true, .num n, _, hn, h => exact absurd h.symm hn.2.2.1
  | .bool false, .num n, _, hn, h => exact absurd h.symm hn.2.2.2
  | .str s, .bool true, _, _, h => exact absurd (congrArg List.head? h) (by show some '"' ≠ some 't'; decide)
  | .str s, .bool false, _, _, h => exact absurd (congrArg List.head? h) (by show some '"' ≠ some 'f'; decide)
  | .bool true, .str s, _, _, h => exact absurd (congrArg List.head? h) (by show some 't' ≠ some '"'; decide)
  | .bool false, .str s, _, _, h => exact absurd (congrArg List.head? h) (by show some 'f' ≠ some '"'; decide)
  | .bool true, .bool true, _, _, _ => rfl
  | .bool false, .bool false, _, _, _ => rfl
  | .bool true, .bool false, _, _, h => exact absurd (congrArg List.head? h) (by show some 't' ≠ some 'f'; decide)
  | .bool false, .bool true, _, _, h => exact absurd (congrArg List.head? h) (by show some 'f' ≠ some 't'; decide)

/-- C261 is false for other values: they all give nothing. -/
theorem literals_distinct_refuted : ¬ ∀ a b : Value, printMember a = printMember b → a = b := fun h => by
  have := h .none (.seq []) rfl
  cases this

example : printMember (.str "a\"b\\c\nd\x01".toList) = "\"a\\\"b\\\\c\\nd\\u0001\"".toList := by decide +kernel
example : IsMember (.num "1.1".toList) := ⟨by decide +kernel, by decide +kernel, by decide +kernel, by decide +kernel⟩

/-! ### C262 -/

/-- An error that is not one of several. -/
def Single : Err → Prop
  | .compound _ => False
  | _ => True

def Flat : Err → Prop
  | .compound es => ∀ e ∈ es, Single e
  | _ => True

/-- **C262**: compound errors made of compound errors are flat, and have the errors of these in their order. -/
theorem compound_flat {errs : List Err} (h : ∀ e ∈ errs, Flat e) :
    Flat (compoundError errs) ∧ messages (compoundError errs) = errs.flatMap messages := by
  have hs : ∀ es : List Err, (∀ e ∈ es, Single e) → es.flatMap messages = es := by
    intro es hes
    induction es with
    | nil => rfl
    | cons e es ih =>
      rw [List.flatMap_cons, ih fun x hx => hes x (List.mem_cons_of_mem _ hx)]
      have := hes e List.mem_cons_self
      cases e with
      | compound _ => exact absurd this id
      | template _ _ _ => simp [messages]
      | other _ => simp [messages]
  have hm : ∀ es : List Err, messages (.compound es) = es.flatMap messages := by
    intro es
    rw [messages]
    conv => rhs; rw [← List.attach_map_subtype_val es]
    rw [List.flatMap_map]
  have hf : ∀ x ∈ errs.flatMap (fun | .compound es => es | e => [e]), Single x := by
    intro x hx
    obtain ⟨e, he, hx⟩ := List.mem_flatMap.1 hx
    have := h e he
    cases e with
    | compound es => exact this x hx
    | template _ _ _ => rw [List.mem_singleton.1 hx]; trivial
    | other _ => rw [List.mem_singleton.1 hx]; trivial
  refine ⟨hf, ?_⟩
  rw [compoundError, hm, List.flatMap_assoc]
  congr 1
  funext e
  cases e with
  | compound es => rw [hm]
  | template _ _ _ => simp [messages]
  | other _ => simp [messages]

theorem bump_sum (k t : String) (m : List (String × Dedup)) :
    ((bump k t m).map fun x => x.2.occurrences).sum = (m.map fun x => x.2.occurrences).sum + 1 := by
  induction m with
  | nil => rfl
  | cons x m ih =>
    obtain ⟨a, d⟩ := x
    unfold bump
    by_cases h : a = k
    · rw [if_pos h]; simp only [List.map_cons, List.sum_cons]; omega
    · rw [if_neg h]; simp only [List.map_cons, List.sum_cons, ih]; omega

/-- How often a key is in a list of keys. -/
def tally (ks : List String) (k : String) : Nat := (ks.filter (· = k)).length

/-- The first text with a key. -/
def firstText (es : List (String × String)) (k : String) : Option String := (es.find? (·.1 = k)).map (·.2)

/-- What the map has after some errors: each key once, in the order the keys were first seen, with the first text and
the number of errors with this key. -/
def Seen (es : List (String × String)) (m : List (String × Dedup)) : Prop :=
  (m.map (·.1)).Nodup ∧ m.map (·.1) = (es.map (·.1)).eraseDups ∧
    ∀ k d, (k, d) ∈ m → firstText es k = some d.error ∧ d.occurrences = tally (es.map (·.1)) k

theorem bump_keys (k t : String) (m : List (String × Dedup)) :
    (bump k t m).map (·.1) = if k ∈ m.map (·.1) then m.map (·.1) else m.map (·.1) ++ [k] := by
  induction m with
  | nil => rfl
  | cons x m ih =>
    obtain ⟨a, d⟩ := x
    unfold bump
    by_cases h : a = k
    · rw [if_pos h]; simp [h]
    · rw [if_neg h, List.map_cons, ih]
      by_cases g : k ∈ m.map (·.1)
      · have g' : k ∈ ((a, d) :: m).map (·.1) := List.mem_cons_of_mem _ g
        rw [if_pos g, if_pos g']; rfl
      · have : ¬ k ∈ ((a, d) :: m).map (·.1) := by
          intro hk
          rcases List.mem_cons.1 hk with e | hk
          · exact h e.symm
          · exact g hk
        rw [if_neg g, if_neg this]; rfl

theorem eraseDups_append_one (l : List String) (k : String) :
    (l ++ [k]).eraseDups = if k ∈ l then l.eraseDups else l.eraseDups ++ [k] := by
  rw [List.eraseDups_append]
  by_cases h : k ∈ l
  · rw [if_pos h]; simp [List.removeAll, h]
  · rw [if_neg h]; simp [List.removeAll, h, List.eraseDups_cons]

theorem bump_mem {k t : String} {m : List (String × Dedup)} (hn : (m.map (·.1)).Nodup) {a : String} {d : Dedup}
    (h : (a, d) ∈ bump k t m) :
    (a ≠ k ∧ (a, d) ∈ m) ∨ (a = k ∧ ∃ d', (k, d') ∈ m ∧ d = { d' with occurrences := d'.occurrences + 1 }) ∨
      (a = k ∧ k ∉ m.map (·.1) ∧ d = { error := t, occurrences := 1 }) := by
  induction m with
  | nil =>
    simp only [bump, List.mem_singleton, Prod.mk.injEq] at h
    exact .inr (.inr ⟨h.1, (by simp), h.2⟩)
  | cons x m ih =>
    obtain ⟨b, d0⟩ := x
    rw [List.map_cons, List.nodup_cons] at hn
    unfold bump at h
    by_cases e : b = k
    · rw [if_pos e] at h
      rcases List.mem_cons.1 h with h | h
      · cases h
        exact .inr (.inl ⟨e, d0, (by rw [e]; exact List.mem_cons_self), rfl⟩)
      · refine .inl ⟨?_, List.mem_cons_of_mem _ h⟩
        rintro rfl
        exact hn.1 (List.mem_map.2 ⟨(a, d), h, e.symm⟩)
    · rw [if_neg e] at h
      rcases List.mem_cons.1 h with h | h
      · cases h
        exact .inl ⟨e, List.mem_cons_self⟩
      · rcases ih hn.2 h with ⟨h1, h2⟩ | ⟨h1, d', h2, h3⟩ | ⟨h1, h2, h3⟩
        · exact .inl ⟨h1, List.mem_cons_of_mem _ h2⟩
        · exact .inr (.inl ⟨h1, d', List.mem_cons_of_mem _ h2, h3⟩)
        · refine .inr (.inr ⟨h1, ?_, h3⟩)
          intro hk
          rcases List.mem_cons.1 hk with g | g
          · exact e g.symm
          · exact h2 g

theorem tally_append (ks : List String) (k a : String) : tally (ks ++ [k]) a = tally ks a + if k = a then 1 else 0 := by
  unfold tally
  rw [List.filter_append, List.length_append]
  by_cases h : k = a <;> simp [h]

theorem firstText_append (es : List (String × String)) (e : String × String) (a : String) :
    firstText (es ++ [e]) a = (firstText es a).or (if e.1 = a then some e.2 else none) := by
  unfold firstText
  rw [List.find?_append]
  cases es.find? (·.1 = a) with
  | some x => rfl
  | none => by_cases h : e.1 = a <;> simp [h]

theorem firstText_none {es : List (String × String)} {k : String} (h : k ∉ es.map (·.1)) : firstText es k = none := by
  unfold firstText
  rw [Option.map_eq_none_iff, List.find?_eq_none]
  intro x hx e
  exact h (by rw [← of_decide_eq_true e]; exact List.mem_map_of_mem (f := Prod.fst) hx)

theorem tally_zero {ks : List String} {k : String} (h : k ∉ ks) : tally ks k = 0 := by
  unfold tally
  rw [List.length_eq_zero_iff, List.filter_eq_nil_iff]
  intro x hx e
  exact h (by rw [← of_decide_eq_true e]; exact hx)

theorem seen_bump {es : List (String × String)} {m : List (String × Dedup)} (h : Seen es m) (e : String × String) :
    Seen (es ++ [e]) (bump e.1 e.2 m) := by
  obtain ⟨hn, h1, h2⟩ := h
  have hmem : ∀ k, k ∈ m.map (·.1) ↔ k ∈ es.map (·.1) := by
    intro k; rw [h1]; exact List.mem_eraseDups
  refine ⟨?_, ?_, fun k d hd => ?_⟩
  · rw [bump_keys]
    split
    · exact hn
    · rename_i g
      rw [List.nodup_append]
      exact ⟨hn, by simp, fun a ha b hb => by rw [List.mem_singleton.1 hb]; rintro rfl; exact g ha⟩
  · rw [bump_keys, List.map_append, List.map_singleton, eraseDups_append_one]
    by_cases g : e.1 ∈ es.map (·.1)
    · rw [if_pos g, if_pos ((hmem _).2 g), h1]
    · rw [if_neg g, if_neg (fun x => g ((hmem _).1 x)), h1]
  · rw [List.map_append, List.map_singleton, tally_append, firstText_append]
    rcases bump_mem hn hd with ⟨g1, g2⟩ | ⟨g1, d', g2, g3⟩ | ⟨g1, g2, g3⟩
    · obtain ⟨a, b⟩ := h2 k d g2
      rw [a, b, if_neg (c := e.1 = k) (fun x => g1 x.symm), if_neg (c := e.1 = k) (fun x => g1 x.symm)]
      exact ⟨rfl, rfl⟩
    · obtain ⟨a, b⟩ := h2 _ d' g2
      rw [g1, a, g3, ← b, if_pos rfl, if_pos rfl]
      exact ⟨rfl, rfl⟩
    · have g : e.1 ∉ es.map (·.1) := fun x => g2 ((hmem _).2 x)
      rw [g1, g3, firstText_none g, tally_zero g, if_pos rfl, if_pos rfl]
      exact ⟨rfl, rfl⟩

/-- **C262**: the errors of a compound error by their keys: each once, in order, with the first text and their number. -/
theorem dedup_seen (disp : Err → String) (errs : List Err) : Seen (errs.map (entry disp)) (dedup disp (.compound errs)) := by
  show Seen _ (errs.foldl _ [])
  have : ∀ (es₀ : List (String × String)) (m : List (String × Dedup)), Seen es₀ m →
      Seen (es₀ ++ errs.map (entry disp)) (errs.foldl (fun m e => bump (entry disp e).1 (entry disp e).2 m) m) := by
    induction errs with
    | nil => intro es₀ m h; simpa using h
    | cons e errs ih =>
      intro es₀ m h
      rw [List.map_cons, List.foldl_cons]
      have := ih _ _ (seen_bump h (entry disp e))
      simpa using this
  exact this [] [] ⟨List.nodup_nil, rfl, fun _ _ h => by cases h⟩

/-- **C262**: no error is lost in the numbers. -/
theorem dedup_total (disp : Err → String) (errs : List Err) :
    ((dedup disp (.compound errs)).map fun x => x.2.occurrences).sum = errs.length := by
  show ((errs.foldl _ []).map _).sum = _
  have : ∀ m : List (String × Dedup), ((errs.foldl (fun m e => bump (entry disp e).1 (entry disp e).2 m) m).map
      fun x => x.2.occurrences).sum = (m.map fun x => x.2.occurrences).sum + errs.length := by
    induction errs with
    | nil => intro m; rfl
    | cons e errs ih => intro m; rw [List.foldl_cons, ih, bump_sum, List.length_cons]; omega
  rw [this]; simp

/-- **C262** (partial): the text of each error is printed if errors with the same key have the same text. -/
theorem dedup_shown_partial (disp : Err → String) {errs : List Err}
    (h : ∀ a ∈ errs, ∀ b ∈ errs, (entry disp a).1 = (entry disp b).1 → (entry disp a).2 = (entry disp b).2) :
    ∀ e ∈ errs, ∃ s ∈ printDedup disp (.compound errs), ∃ rest, s = (entry disp e).2 ++ rest := by
  intro e he
  obtain ⟨_, h1, h2⟩ := dedup_seen disp errs
  have hk : (entry disp e).1 ∈ (dedup disp (.compound errs)).map (·.1) := by
    rw [h1, List.mem_eraseDups, List.map_map]
    exact List.mem_map_of_mem (f := Prod.fst ∘ entry disp) he
  obtain ⟨⟨k, d⟩, hd, ek⟩ := List.mem_map.1 hk
  dsimp only at ek
  obtain ⟨t, _⟩ := h2 k d hd
  refine ⟨d.print, List.mem_map.2 ⟨_, hd, rfl⟩, ?_⟩
  have ht : d.error = (entry disp e).2 := by
    unfold firstText at t
    rw [Option.map_eq_some_iff] at t
    obtain ⟨x, hx, hx2⟩ := t
    obtain ⟨a, ha, rfl⟩ := List.mem_map.1 (List.mem_of_find?_eq_some hx)
    have hk' : (entry disp a).1 = k := by
      have := List.find?_some hx
      exact of_decide_eq_true this
    rw [← hx2]
    exact h a ha e he (by rw [hk', ek])
  unfold Dedup.print
  rw [ht]
  split
  · exact ⟨"", by simp⟩
  · exact ⟨_, rfl⟩
  · exact ⟨_, by rw [String.append_assoc, String.append_assoc]⟩

/-- What is said of the other errors that are similar. -/
def similar : Nat → String
  | 0 => ""
  | 1 => "\n\nFound 1 similar error"
  | m => "\n\nFound " ++ toString m ++ " similar errors"

/-- **C262**: what is printed are the first text with a key and the number of the other errors with this key. -/
theorem printed (disp : Err → String) (errs : List Err) (s : String) (hs : s ∈ printDedup disp (.compound errs)) :
    ∃ k t n, firstText (errs.map (entry disp)) k = some t ∧ tally ((errs.map (entry disp)).map (·.1)) k = n + 1 ∧
      s = t ++ similar n := by
  obtain ⟨⟨k, d⟩, hd, rfl⟩ := List.mem_map.1 hs
  obtain ⟨_, h1, h2⟩ := dedup_seen disp errs
  obtain ⟨t, c⟩ := h2 k d hd
  have hk : k ∈ (errs.map (entry disp)).map (·.1) := by
    rw [← List.mem_eraseDups, ← h1]
    exact List.mem_map_of_mem (f := Prod.fst) hd
  have hpos : 0 < tally ((errs.map (entry disp)).map (·.1)) k := by
    unfold tally
    rw [List.length_pos_iff_exists_mem]
    exact ⟨k, List.mem_filter.2 ⟨hk, by simp⟩⟩
  refine ⟨k, d.error, d.occurrences - 1, t, by omega, ?_⟩
  show d.print = _
  rw [← c] at hpos
  unfold Dedup.print
  generalize d.occurrences = n at hpos ⊢
  match n, hpos with
  | 1, _ => simp [similar]
  | 2, _ => rfl
  | n + 3, _ =>
    show d.error ++ "\n\nFound " ++ toString (n + 2) ++ " similar errors" = d.error ++ similar (n + 2)
    rw [String.append_assoc, String.append_assoc]
    congr 1

/-- **C262**: errors that are not of templates are all shown. -/
theorem others_shown (disp : Err → String) {errs : List Err} (h : ∀ p i t, .template p i t ∉ errs) :
    ∀ e ∈ errs, ∃ s ∈ printDedup disp (.compound errs), ∃ rest, s = disp e ++ rest := by
  have he : ∀ e ∈ errs, entry disp e = (disp e, disp e) := by
    intro e he
    cases e with
    | template p i t => exact absurd he (h p i t)
    | other _ => rfl
    | compound _ => rfl
  intro e hm
  have := dedup_shown_partial disp (errs := errs) (fun a ha b hb hab => by
    rw [he a ha, he b hb] at hab ⊢; exact hab) e hm
  rw [he e hm] at this
  exact this

/-- C262 is false: of errors of templates with the same message only the first is shown with its causes. -/
theorem dedup_shown_refuted : ¬ ∀ (disp : Err → String) (errs : List Err), ∀ e ∈ errs,
    ∃ s ∈ printDedup disp (.compound errs), ∃ rest, s = (entry disp e).2 ++ rest := by
  intro h
  obtain ⟨s, hs, rest, e⟩ := h (fun _ => "") [.template "t" "could not render include" "a", .template "t" "could not render include" "b"]
    (.template "t" "could not render include" "b") (by simp)
  have : printDedup (fun _ => "") (.compound [.template "t" "could not render include" "a",
      .template "t" "could not render include" "b"]) = ["a\n\nFound 1 similar error"] := by decide +kernel
  rw [this, List.mem_singleton] at hs
  rw [hs] at e
  have := congrArg (fun s => s.toList.head?) e
  simp [entry] at this

end Verif.Show
