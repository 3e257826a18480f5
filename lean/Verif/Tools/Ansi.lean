import Verif.Util.Str
/-
The filters of templates that colour text: crates/weaver_forge/src/extensions/ansi.rs.
-/
namespace Verif.Tools
open Verif.Util

/-! ### Model -/

/-- The escape character, `\x1b`. -/
def esc : Char := Char.ofNat 27

/-- ansi.rs:224-265 `add_filters`, with the codes of ansi.rs:7-222: the name of a filter and the number it writes. -/
def ansiFilters : List (String × String) :=
  [("ansi_black", "30"), ("ansi_red", "31"), ("ansi_green", "32"), ("ansi_yellow", "33"), ("ansi_blue", "34"),
   ("ansi_magenta", "35"), ("ansi_cyan", "36"), ("ansi_white", "37"),
   ("ansi_bright_black", "90"), ("ansi_bright_red", "91"), ("ansi_bright_green", "92"), ("ansi_bright_yellow", "93"),
   ("ansi_bright_blue", "94"), ("ansi_bright_magenta", "95"), ("ansi_bright_cyan", "96"), ("ansi_bright_white", "97"),
   ("ansi_bg_black", "40"), ("ansi_bg_red", "41"), ("ansi_bg_green", "42"), ("ansi_bg_yellow", "43"), ("ansi_bg_blue", "44"),
   ("ansi_bg_magenta", "45"), ("ansi_bg_cyan", "46"), ("ansi_bg_white", "47"),
   ("ansi_bg_bright_black", "100"), ("ansi_bg_bright_red", "101"), ("ansi_bg_bright_green", "102"),
   ("ansi_bg_bright_yellow", "103"), ("ansi_bg_bright_blue", "104"), ("ansi_bg_bright_magenta", "105"),
   ("ansi_bg_bright_cyan", "106"), ("ansi_bg_bright_white", "107"),
   ("ansi_bold", "1"), ("ansi_italic", "3"), ("ansi_underline", "4"), ("ansi_strikethrough", "9")]

/-- ansi.rs:8-222: each filter writes its code, the text of the value, and the code 0. -/
def ansi (code : String) (text : Chars) : Chars :=
  esc :: '[' :: code.toList ++ 'm' :: text ++ [esc, '[', '0', 'm']

/-! ### C277: what a terminal shows -/

/-- How a character is shown. Colours are numbers, black to white as 0 to 7, and whether they are bright. -/
structure Style where
  fg : Option (Nat × Bool) := none
  bg : Option (Nat × Bool) := none
  bold : Bool := false
  italic : Bool := false
  underline : Bool := false
  strike : Bool := false
deriving DecidableEq

/-- What a terminal does for a code of "select graphic rendition", after ECMA-48 and, for bright colours, aixterm:
specification. -/
def sgr (n : Nat) (s : Style) : Style :=
  if n = 0 then {}
  else if n = 1 then { s with bold := true }
  else if n = 3 then { s with italic := true }
  else if n = 4 then { s with underline := true }
  else if n = 9 then { s with strike := true }
  else if 30 ≤ n ∧ n ≤ 37 then { s with fg := some (n - 30, false) }
  else if 40 ≤ n ∧ n ≤ 47 then { s with bg := some (n - 40, false) }
  else if 90 ≤ n ∧ n ≤ 97 then { s with fg := some (n - 90, true) }
  else if 100 ≤ n ∧ n ≤ 107 then { s with bg := some (n - 100, true) }
  else s

/-- Where a terminal is in a control sequence. -/
inductive Mode where
  | text
  | escape
  | csi (n : Nat)

/-- What a terminal shows: characters with their styles. Specification. -/
def shown (s : Style) : Mode → Chars → List (Char × Style)
  | _, [] => []
  | .text, c :: t => if c = esc then shown s .escape t else (c, s) :: shown s .text t
  | .escape, c :: t => if c = '[' then shown s (.csi 0) t else shown s .text t
  | .csi n, c :: t =>
    if c.isDigit then shown s (.csi (10 * n + (c.toNat - 48))) t
    else if c = ';' then shown (sgr n s) (.csi 0) t
    else if c = 'm' then shown (sgr n s) .text t
    else shown s .text t

/-- The colours by name. -/
def colours : List String := ["black", "red", "green", "yellow", "blue", "magenta", "cyan", "white"]

/-- The place of a text in a list. -/
def placeOf (x : String) : List String → Nat
  | [] => 0
  | y :: l => if x = y then 0 else placeOf x l + 1

/-- What the name of a filter says is done to a style: specification. -/
def wanted (name : String) (s : Style) : Option Style :=
  if name = "ansi_bold" then some { s with bold := true }
  else if name = "ansi_italic" then some { s with italic := true }
  else if name = "ansi_underline" then some { s with underline := true }
  else if name = "ansi_strikethrough" then some { s with strike := true }
  else
    match colours.find? fun c => decide (name = "ansi_" ++ c), colours.find? fun c => decide (name = "ansi_bright_" ++ c),
      colours.find? fun c => decide (name = "ansi_bg_" ++ c), colours.find? fun c => decide (name = "ansi_bg_bright_" ++ c) with
    | some c, none, none, none => some { s with fg := some (placeOf c colours, false) }
    | none, some c, none, none => some { s with fg := some (placeOf c colours, true) }
    | none, none, some c, none => some { s with bg := some (placeOf c colours, false) }
    | none, none, none, some c => some { s with bg := some (placeOf c colours, true) }
    | _, _, _, _ => none

/-- Text without control sequences. -/
def Plain (t : Chars) : Prop := esc ∉ t

theorem shown_plain {t : Chars} (h : Plain t) (s : Style) (rest : Chars) :
    shown s .text (t ++ rest) = t.map (fun c => (c, s)) ++ shown s .text rest := by
  induction t with
  | nil => rfl
  | cons c t ih =>
    have hc : c ≠ esc := fun e => h (by simp [e])
    rw [List.cons_append, shown, if_neg hc, ih fun k => h (List.mem_cons_of_mem _ k)]
    rfl

theorem shown_reset (s : Style) (rest : Chars) : shown s .text ([esc, '[', '0', 'm'] ++ rest) = shown {} .text rest := by
  simp [shown, sgr, Char.isDigit]

/-- The number that digits of a code say. -/
def codeNum (code : Chars) : Nat := code.foldl (fun n c => 10 * n + (c.toNat - 48)) 0

theorem shown_digits (s : Style) (rest : Chars) : ∀ (code : Chars) (n : Nat), (∀ c ∈ code, c.isDigit = true) →
    shown s (.csi n) (code ++ 'm' :: rest) =
      shown (sgr (code.foldl (fun n c => 10 * n + (c.toNat - 48)) n) s) .text rest
  | [], n, _ => by simp [shown, Char.isDigit]
  | c :: code, n, h => by
    rw [List.cons_append, shown, if_pos (h c (by simp)), shown_digits s rest code _ fun k hk => h k (List.mem_cons_of_mem _ hk)]
    rfl

theorem codes_digits : ∀ f ∈ ansiFilters, ∀ c ∈ f.2.toList, c.isDigit = true := by decide +kernel

/-- The codes do what the names say. -/
theorem codes_wanted (s : Style) : ∀ f ∈ ansiFilters, wanted f.1 s = some (sgr (codeNum f.2.toList) s) := by
  intro f hf
  simp only [ansiFilters, List.mem_cons, List.not_mem_nil, or_false] at hf
  rcases hf with rfl | rfl | rfl | rfl | rfl | rfl | rfl | rfl | rfl | rfl | rfl | rfl | rfl | rfl | rfl | rfl | rfl | rfl |
    rfl | rfl | rfl | rfl | rfl | rfl | rfl | rfl | rfl | rfl | rfl | rfl | rfl | rfl | rfl | rfl | rfl | rfl <;> rfl

theorem shown_ansi {f : String × String} (hf : f ∈ ansiFilters) (s : Style) (text rest : Chars) :
    shown s .text (ansi f.2 text ++ rest) =
      shown (sgr (codeNum f.2.toList) s) .text (text ++ ([esc, '[', '0', 'm'] ++ rest)) := by
  unfold ansi
  simp only [List.cons_append, List.append_assoc]
  rw [shown, if_pos rfl, shown, if_pos rfl]
  have := shown_digits s (text ++ ([esc, '[', '0', 'm'] ++ rest)) f.2.toList 0 (codes_digits f hf)
  simpa [codeNum] using this

/-- C277, as far as it holds: plain text is shown in the style that the name of the filter says, and what follows is shown as
it would be on its own. -/
theorem ansi_shown_partial {f : String × String} (hf : f ∈ ansiFilters) {text : Chars} (h : Plain text) (rest : Chars) :
    ∃ st, wanted f.1 {} = some st ∧
      shown {} .text (ansi f.2 text ++ rest) = text.map (fun c => (c, st)) ++ shown {} .text rest := by
  refine ⟨_, codes_wanted {} f hf, ?_⟩
  rw [shown_ansi hf, shown_plain h, shown_reset]

/-- Two filters after each other: the text is shown in both styles, where the first filter wins if both are colours. -/
theorem ansi_twice_partial {f g : String × String} (hf : f ∈ ansiFilters) (hg : g ∈ ansiFilters) {text : Chars}
    (h : Plain text) (rest : Chars) : ∃ st st', wanted g.1 {} = some st ∧ wanted f.1 st = some st' ∧
      shown {} .text (ansi g.2 (ansi f.2 text) ++ rest) = text.map (fun c => (c, st')) ++ shown {} .text rest := by
  refine ⟨_, _, codes_wanted {} g hg, codes_wanted _ f hf, ?_⟩
  rw [shown_ansi hg, shown_ansi hf, shown_plain h, shown_reset, shown_reset]

/-- Without styles, the text is shown unchanged, in whatever filters it has gone through. -/
theorem ansi_text {f : String × String} (hf : f ∈ ansiFilters) {text : Chars} (h : Plain text) :
    (shown {} .text (ansi f.2 text)).map Prod.fst = text := by
  obtain ⟨st, _, e⟩ := ansi_shown_partial hf h []
  rw [List.append_nil] at e
  rw [e]
  simp [shown, Function.comp_def]

/-- C277 does not hold for text with styles of its own: all that follows an inner style is shown without the outer one. -/
theorem ansi_shown_refuted : ¬ (∀ f ∈ ansiFilters, ∀ text : Chars, ∀ st, wanted f.1 {} = some st →
    ∀ x ∈ shown {} .text (ansi f.2 text), x.2.fg = st.fg) := by
  intro h
  have := h ("ansi_red", "31") (by decide +kernel) ("a".toList ++ ansi "1" "b".toList ++ "c".toList) _ rfl ('c', {})
    (by decide +kernel)
  exact absurd this (by decide +kernel)

/-- And a style that was set before is lost after the filter: the codes are not those that end only their own style. -/
theorem ansi_ends_all {f : String × String} (hf : f ∈ ansiFilters) (s : Style) {text : Chars} (h : Plain text) (rest : Chars) :
    shown s .text (ansi f.2 text ++ rest) =
      text.map (fun c => (c, sgr (codeNum f.2.toList) s)) ++ shown {} .text rest := by
  rw [shown_ansi hf, shown_plain h, shown_reset]

/-- No two filters have the same name. -/
theorem ansi_names_distinct : (ansiFilters.map Prod.fst).Nodup := by decide +kernel

end Verif.Tools
