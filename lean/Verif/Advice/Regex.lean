import Verif.Util.Str
/-
Regular expressions as far as the default live check policy uses them (defaults/policies/live_check_advice/otel.rego:15):
classes of characters, concatenation, repetition.  `Re.Matches` is the textbook meaning, `Re.test` a matcher by
derivatives.  That the regex crate agrees with the textbook on `^…$` is trusted.
-/
namespace Verif.Advice
open Verif.Util

inductive Re where
  | empty
  | eps
  | cls (p : Char → Bool)
  | seq (r s : Re)
  | alt (r s : Re)
  | star (r : Re)

/-- `r+`. -/
def Re.plus (r : Re) : Re := .seq r (.star r)

/-- The texts a regular expression stands for. -/
inductive Re.Matches : Re → Chars → Prop where
  | eps : Matches .eps []
  | cls {p : Char → Bool} {c : Char} (h : p c = true) : Matches (.cls p) [c]
  | seq {r s : Re} {a b : Chars} (h1 : Matches r a) (h2 : Matches s b) : Matches (.seq r s) (a ++ b)
  | altL {r s : Re} {a : Chars} (h : Matches r a) : Matches (.alt r s) a
  | altR {r s : Re} {a : Chars} (h : Matches s a) : Matches (.alt r s) a
  | starNil {r : Re} : Matches (.star r) []
  | starCons {r : Re} {a b : Chars} (h1 : Matches r a) (h2 : Matches (.star r) b) : Matches (.star r) (a ++ b)

def Re.nullable : Re → Bool
  | .empty => false
  | .eps => true
  | .cls _ => false
  | .seq r s => r.nullable && s.nullable
  | .alt r s => r.nullable || s.nullable
  | .star _ => true

def Re.deriv (c : Char) : Re → Re
  | .empty => .empty
  | .eps => .empty
  | .cls p => if p c then .eps else .empty
  | .seq r s => if r.nullable then .alt (.seq (r.deriv c) s) (s.deriv c) else .seq (r.deriv c) s
  | .alt r s => .alt (r.deriv c) (s.deriv c)
  | .star r => .seq (r.deriv c) (.star r)

/-- Whether the whole text matches. -/
def Re.test : Re → Chars → Bool
  | r, [] => r.nullable
  | r, c :: t => (r.deriv c).test t

theorem Re.nullable_iff (r : Re) : r.nullable = true ↔ r.Matches [] := by
  induction r with
  | empty => exact ⟨nofun, nofun⟩
  | eps => exact ⟨fun _ => .eps, fun _ => rfl⟩
  | cls p => exact ⟨nofun, nofun⟩
  | seq r s hr hs =>
    simp only [Re.nullable, Bool.and_eq_true, hr, hs]
    constructor
    · intro ⟨h1, h2⟩; exact .seq h1 h2
    · intro h
      generalize e : ([] : Chars) = x at h
      cases h with
      | seq h1 h2 =>
        obtain ⟨rfl, rfl⟩ := List.nil_eq_append_iff.1 e
        exact ⟨h1, h2⟩
  | alt r s hr hs =>
    simp only [Re.nullable, Bool.or_eq_true, hr, hs]
    constructor
    · rintro (h | h)
      · exact .altL h
      · exact .altR h
    · intro h
      cases h with
      | altL h => exact .inl h
      | altR h => exact .inr h
  | star r _ => exact ⟨fun _ => .starNil, fun _ => rfl⟩

/-- A nonempty text of a repetition starts with a nonempty text of what is repeated. -/
theorem Re.star_cons {r : Re} {c : Char} {t : Chars} (h : (Re.star r).Matches (c :: t)) :
    ∃ a b, t = a ++ b ∧ r.Matches (c :: a) ∧ (Re.star r).Matches b := by
  generalize e : c :: t = x at h
  generalize hs : Re.star r = s at h
  induction h generalizing t with
  | starNil => cases e
  | @starCons r' a b h1 h2 _ ih =>
    cases hs
    cases a with
    | nil => exact ih e rfl
    | cons d a =>
      cases e
      exact ⟨a, b, rfl, h1, h2⟩
  | _ => cases hs

theorem Re.deriv_iff (c : Char) (r : Re) (t : Chars) : (r.deriv c).Matches t ↔ r.Matches (c :: t) := by
  induction r generalizing t with
  | empty => exact ⟨nofun, nofun⟩
  | eps => exact ⟨nofun, nofun⟩
  | cls p =>
    unfold Re.deriv
    constructor
    · intro h
      split at h
      · rename_i hp; cases h; exact .cls hp
      · cases h
    · intro h
      cases h with
      | cls hp => rw [if_pos hp]; exact .eps
  | seq r s hr hs =>
    have key : (Re.seq r s).Matches (c :: t) ↔
        (Re.seq (r.deriv c) s).Matches t ∨ (r.Matches [] ∧ s.Matches (c :: t)) := by
      constructor
      · intro h
        generalize e : c :: t = x at h
        cases h with
        | @seq _ _ a b h1 h2 =>
          cases a with
          | nil => exact .inr ⟨h1, h2⟩
          | cons d a =>
            cases e
            exact .inl (.seq ((hr a).2 h1) h2)
      · rintro (h | ⟨h1, h2⟩)
        · cases h with
          | @seq _ _ a b h1 h2 => exact .seq (a := c :: a) ((hr a).1 h1) h2
        · exact .seq (a := []) h1 h2
    unfold Re.deriv
    split
    · rename_i hn
      rw [key]
      have hn := (Re.nullable_iff r).1 hn
      constructor
      · intro h
        cases h with
        | altL h => exact .inl h
        | altR h => exact .inr ⟨hn, (hs t).1 h⟩
      · rintro (h | ⟨_, h⟩)
        · exact .altL h
        · exact .altR ((hs t).2 h)
    · rename_i hn
      rw [key]
      constructor
      · exact .inl
      · rintro (h | ⟨h, _⟩)
        · exact h
        · exact absurd ((Re.nullable_iff r).2 h) hn
  | alt r s hr hs =>
    unfold Re.deriv
    constructor
    · intro h
      cases h with
      | altL h => exact .altL ((hr t).1 h)
      | altR h => exact .altR ((hs t).1 h)
    · intro h
      cases h with
      | altL h => exact .altL ((hr t).2 h)
      | altR h => exact .altR ((hs t).2 h)
  | star r hr =>
    unfold Re.deriv
    constructor
    · intro h
      cases h with
      | @seq _ _ a b h1 h2 => exact .starCons (a := c :: a) ((hr a).1 h1) h2
    · intro h
      obtain ⟨a, b, rfl, h1, h2⟩ := Re.star_cons h
      exact .seq ((hr a).2 h1) h2

/-- The matcher decides the textbook meaning. -/
theorem Re.test_iff (r : Re) (t : Chars) : r.test t = true ↔ r.Matches t := by
  induction t generalizing r with
  | nil => exact Re.nullable_iff r
  | cons c t ih => unfold Re.test; rw [ih, Re.deriv_iff]

theorem Re.matches_cls {p : Char → Bool} {t : Chars} : (Re.cls p).Matches t ↔ ∃ c, p c = true ∧ t = [c] := by
  constructor
  · intro h; cases h with | cls h => exact ⟨_, h, rfl⟩
  · rintro ⟨c, h, rfl⟩; exact .cls h

theorem Re.matches_seq {r s : Re} {t : Chars} :
    (Re.seq r s).Matches t ↔ ∃ a b, t = a ++ b ∧ r.Matches a ∧ s.Matches b := by
  constructor
  · intro h; cases h with | seq h1 h2 => exact ⟨_, _, rfl, h1, h2⟩
  · rintro ⟨a, b, rfl, h1, h2⟩; exact .seq h1 h2

/-- The repetition of a class. -/
theorem Re.matches_star_cls {p : Char → Bool} {t : Chars} : (Re.star (.cls p)).Matches t ↔ ∀ c ∈ t, p c = true := by
  induction t with
  | nil => exact ⟨fun _ => by simp, fun _ => .starNil⟩
  | cons c t ih =>
    constructor
    · intro h
      obtain ⟨a, b, rfl, h1, h2⟩ := Re.star_cons h
      obtain ⟨d, hd, e⟩ := Re.matches_cls.1 h1
      cases e
      have := ih.1 h2
      intro x hx
      rcases List.mem_cons.1 hx with rfl | hx
      · exact hd
      · exact this x hx
    · intro h
      exact .starCons (a := [c]) (.cls (h c (by simp))) (ih.2 fun x hx => h x (by simp [hx]))

end Verif.Advice
