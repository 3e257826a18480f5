import Verif.Util.Str
/-
Model of crates/weaver_semconv/src/schema_url.rs:110-118 `semver`, for versions without a pre-release and build part: the
text of the version is what `semver::Version::parse` reads.
-/
namespace Verif.Resolver.SemVer
open Verif.Util

/-- A number of the semver crate: digits, without a needless zero in front, below 2^64. -/
def number (s : Chars) : Option Nat :=
  if s = [] ∨ s.all Char.isDigit = false then none
  else if s.head? = some '0' ∧ s.length ≠ 1 then none
  else if Nat.ofDigitChars 10 s 0 < 2 ^ 64 then some (Nat.ofDigitChars 10 s 0) else none

/-- `semver::Version::parse` of a text without `-` and `+`: three numbers with dots. -/
def parse (s : Chars) : Option (Nat × Nat × Nat) :=
  match splitWhen (· == '.') s with
  | [a, b, c] => match number a, number b, number c with
    | some x, some y, some z => some (x, y, z)
    | _, _, _ => none
  | _ => none

/-- schema_url.rs:112-118 `semver`: `trim_start_matches('v')` takes away every `v` in front. -/
def semver (version : Chars) : Option (Nat × Nat × Nat) := parse (version.dropWhile (· == 'v'))

/-! ### Specification -/

/-- A version as it is written. -/
def written (v : Nat × Nat × Nat) : Chars :=
  Nat.toDigits 10 v.1 ++ '.' :: (Nat.toDigits 10 v.2.1 ++ '.' :: Nat.toDigits 10 v.2.2)

/-- The numbers are below 2^64. -/
def Small (v : Nat × Nat × Nat) : Prop := v.1 < 2 ^ 64 ∧ v.2.1 < 2 ^ 64 ∧ v.2.2 < 2 ^ 64

/-! ### Properties -/

theorem digit_back {c : Char} (h : c.isDigit = true) : c.toNat - '0'.toNat < 10 ∧ Nat.digitChar (c.toNat - '0'.toNat) = c := by
  have h2 : 48 ≤ c.toNat ∧ c.toNat ≤ 57 := by
    simp only [Char.isDigit, Bool.and_eq_true, decide_eq_true_eq] at h
    exact ⟨UInt32.le_iff_toNat_le.1 h.1, UInt32.le_iff_toNat_le.1 h.2⟩
  have h0 : '0'.toNat = 48 := rfl
  refine ⟨by omega, ?_⟩
  obtain ⟨n, hn⟩ : ∃ n, c.toNat = n := ⟨_, rfl⟩
  have hc : c = Char.ofNat n := by rw [← hn, Char.ofNat_toNat]
  rw [hn, h0]
  rw [hn] at h2
  subst hc
  have : n = 48 ∨ n = 49 ∨ n = 50 ∨ n = 51 ∨ n = 52 ∨ n = 53 ∨ n = 54 ∨ n = 55 ∨ n = 56 ∨ n = 57 := by omega
  rcases this with rfl | rfl | rfl | rfl | rfl | rfl | rfl | rfl | rfl | rfl <;> decide

/-- Digits that do not begin with a zero are those of a number that is not zero. -/
theorem toDigits_back (r : Chars) : ∀ s, s = r.reverse → s ≠ [] → (∀ c ∈ s, c.isDigit = true) → s.head? ≠ some '0' →
    0 < Nat.ofDigitChars 10 s 0 ∧ Nat.toDigits 10 (Nat.ofDigitChars 10 s 0) = s := by
  induction r with
  | nil => intro s hs hne; exact absurd hs (by simpa using hne)
  | cons d r ih =>
    intro s hs _ hd h0
    rw [List.reverse_cons] at hs
    subst hs
    have hdd := digit_back (hd d (by simp))
    by_cases hr : r = []
    · subst hr
      simp only [List.reverse_nil, List.nil_append, Nat.ofDigitChars_cons, Nat.ofDigitChars_nil, Nat.mul_zero, Nat.zero_add]
      refine ⟨?_, ?_⟩
      · rcases Nat.eq_zero_or_pos (d.toNat - '0'.toNat) with hz | hp
        · exfalso
          have := hdd.2
          rw [hz] at this
          exact h0 (by simp [← this])
        · exact hp
      · rw [Nat.toDigits_of_lt_base hdd.1, hdd.2]
    · have hr' : r.reverse ≠ [] := by simpa using hr
      have hh : r.reverse.head? ≠ some '0' := by
        intro e
        apply h0
        rw [List.head?_append, e]
        rfl
      obtain ⟨hp, hb⟩ := ih r.reverse rfl hr' (fun c hc => hd c (by simp [List.mem_reverse.1 hc])) hh
      rw [Nat.ofDigitChars_append, Nat.ofDigitChars_cons, Nat.ofDigitChars_nil]
      refine ⟨by omega, ?_⟩
      rw [← Nat.toDigits_append_toDigits (by omega) hp hdd.1, hb, Nat.toDigits_of_lt_base hdd.1, hdd.2]

theorem toDigits_head {n : Nat} (h : 0 < n) : (Nat.toDigits 10 n).head? ≠ some '0' := by
  suffices H : ∀ m, ∀ n, n ≤ m → 0 < n → (Nat.toDigits 10 n).head? ≠ some '0' from H n n (Nat.le_refl _) h
  intro m
  induction m with
  | zero => intro n h1 h2; omega
  | succ m ih =>
    intro n h1 h2
    by_cases hn : n < 10
    · rw [Nat.toDigits_of_lt_base hn]
      have : n = 1 ∨ n = 2 ∨ n = 3 ∨ n = 4 ∨ n = 5 ∨ n = 6 ∨ n = 7 ∨ n = 8 ∨ n = 9 := by omega
      rcases this with rfl | rfl | rfl | rfl | rfl | rfl | rfl | rfl | rfl <;> decide
    · rw [Nat.toDigits_of_base_le (by omega) (by omega)]
      have hq := ih (n / 10) (by omega) (by omega)
      intro e
      rw [List.head?_append] at e
      cases hh : (Nat.toDigits 10 (n / 10)).head? with
      | none =>
        rw [List.head?_eq_none_iff] at hh
        exact absurd hh (by simp)
      | some c =>
        rw [hh] at e
        exact hq (by rw [hh]; simpa using e)

/-- A number is read just from the digits that it is written with. -/
theorem number_iff (s : Chars) (n : Nat) : number s = some n ↔ s = Nat.toDigits 10 n ∧ n < 2 ^ 64 := by
  constructor
  · intro h
    unfold number at h
    split at h
    · exact absurd h (by simp)
    · next h1 =>
      split at h
      · exact absurd h (by simp)
      · next h2 =>
        split at h
        · next h3 =>
          obtain rfl := Option.some.inj h
          refine ⟨?_, h3⟩
          have hne : s ≠ [] := fun e => h1 (.inl e)
          have hd : ∀ c ∈ s, c.isDigit = true := by
            have : s.all Char.isDigit = true := by
              cases hs : s.all Char.isDigit
              · exact absurd (.inr hs) h1
              · rfl
            exact List.all_eq_true.1 this
          by_cases h0 : s.head? = some '0'
          · have hl : s.length = 1 := Classical.byContradiction fun e => h2 ⟨h0, e⟩
            obtain ⟨c, rfl⟩ := List.length_eq_one_iff.1 hl
            obtain rfl : c = '0' := by simpa using h0
            decide
          · exact (toDigits_back s.reverse s (by simp) hne hd h0).2.symm
        · exact absurd h (by simp)
  · rintro ⟨rfl, hn⟩
    unfold number
    have h1 : ¬ (Nat.toDigits 10 n = [] ∨ (Nat.toDigits 10 n).all Char.isDigit = false) := by
      rintro (h | h)
      · exact absurd h (by simp)
      · have : (Nat.toDigits 10 n).all Char.isDigit = true :=
          List.all_eq_true.2 fun c hc => Nat.isDigit_of_mem_toDigits (by omega) (by omega) hc
        rw [this] at h
        exact absurd h (by simp)
    rw [if_neg h1]
    have h2 : ¬ ((Nat.toDigits 10 n).head? = some '0' ∧ (Nat.toDigits 10 n).length ≠ 1) := by
      rintro ⟨a, b⟩
      rcases Nat.eq_zero_or_pos n with rfl | hp
      · exact b (by simp)
      · exact toDigits_head hp a
    rw [if_neg h2, Nat.ofDigitChars_ten_toDigits, if_pos hn]

theorem dot_digits (n : Nat) : ∀ c ∈ Nat.toDigits 10 n, (c == '.') = false := by
  intro c hc
  have := Nat.isDigit_of_mem_toDigits (by omega) (by omega) hc
  cases h : c == '.'
  · rfl
  · rw [beq_iff_eq] at h
    subst h
    revert this
    decide

theorem splitWhen_three {s a b c : Chars} (h : splitWhen (· == '.') s = [a, b, c]) : s = a ++ '.' :: (b ++ '.' :: c) := by
  obtain ⟨t, rfl, h1, h2, h3⟩ := splitWhen_head h
  cases t with
  | nil => exact absurd (h2 rfl) (by simp)
  | cons x t =>
    have hx : x = '.' := by simpa using h1 x rfl
    subst hx
    obtain ⟨u, rfl, g1, g2, g3⟩ := splitWhen_head (h3 _ _ rfl)
    cases u with
    | nil => exact absurd (g2 rfl) (by simp)
    | cons y u =>
      have hy : y = '.' := by simpa using g1 y rfl
      subst hy
      obtain ⟨w, rfl, k1, k2, k3⟩ := splitWhen_head (g3 _ _ rfl)
      cases w with
      | nil => simp
      | cons z w => exact absurd (k3 _ _ rfl) (splitWhen_ne_nil _ _)

/-- **C308**: a version is read just from the text that it is written as. -/
theorem parse_iff (s : Chars) (v : Nat × Nat × Nat) : parse s = some v ↔ s = written v ∧ Small v := by
  obtain ⟨x, y, z⟩ := v
  constructor
  · intro h
    unfold parse at h
    split at h
    · next a b c hs =>
      split at h
      · next hx hy hz =>
        injection h with h
        injection h with h1 h
        injection h with h2 h3
        subst h1 h2 h3
        obtain ⟨rfl, bx⟩ := (number_iff _ _).1 hx
        obtain ⟨rfl, by'⟩ := (number_iff _ _).1 hy
        obtain ⟨rfl, bz⟩ := (number_iff _ _).1 hz
        exact ⟨splitWhen_three hs, bx, by', bz⟩
      · exact absurd h (by simp)
    · exact absurd h (by simp)
  · rintro ⟨rfl, hx, hy, hz⟩
    have hs : splitWhen (· == '.') (written (x, y, z)) = [Nat.toDigits 10 x, Nat.toDigits 10 y, Nat.toDigits 10 z] := by
      unfold written
      rw [splitWhen_append _ _ (by rfl), splitWhen_append _ _ (by rfl), splitWhen_clean (dot_digits x),
        splitWhen_clean (dot_digits y), splitWhen_clean (dot_digits z)]
      rfl
    unfold parse
    rw [hs]
    simp only [(number_iff _ _).2 ⟨rfl, hx⟩, (number_iff _ _).2 ⟨rfl, hy⟩, (number_iff _ _).2 ⟨rfl, hz⟩]

theorem dropWhile_v {s t : Chars} (ht : t.head? ≠ some 'v') :
    s.dropWhile (· == 'v') = t ↔ ∃ k, s = List.replicate k 'v' ++ t := by
  constructor
  · intro h
    induction s with
    | nil => exact ⟨0, by simpa using h⟩
    | cons c s ih =>
      by_cases hc : c = 'v'
      · subst hc
        rw [List.dropWhile_cons_of_pos (by rfl)] at h
        obtain ⟨k, rfl⟩ := ih h
        exact ⟨k + 1, by simp [List.replicate_succ]⟩
      · rw [List.dropWhile_cons_of_neg (by simpa using hc)] at h
        exact ⟨0, by simpa using h⟩
  · rintro ⟨k, rfl⟩
    induction k with
    | zero =>
      cases t with
      | nil => rfl
      | cons c t =>
        have hc : c ≠ 'v' := fun e => ht (by simp [e])
        simp only [List.replicate_zero, List.nil_append]
        exact List.dropWhile_cons_of_neg (by simpa using hc)
    | succ k ih =>
      rw [List.replicate_succ, List.cons_append, List.dropWhile_cons_of_pos (by rfl)]
      exact ih

theorem written_head (v : Nat × Nat × Nat) : (written v).head? ≠ some 'v' := by
  intro h
  unfold written at h
  rw [List.head?_append] at h
  cases hh : (Nat.toDigits 10 v.1).head? with
  | none => exact absurd (List.head?_eq_none_iff.1 hh) (by simp)
  | some c =>
    rw [hh] at h
    obtain rfl : c = 'v' := by simpa using h
    have := Nat.isDigit_of_mem_toDigits (b := 10) (by omega) (by omega) (List.mem_of_mem_head? hh)
    revert this
    decide

/-- **C308**: the version of a schema URL is `v` iff its text is the one `v` is written as, after any number of letters v. -/
theorem semver_iff (s : Chars) (v : Nat × Nat × Nat) :
    semver s = some v ↔ Small v ∧ ∃ k, s = List.replicate k 'v' ++ written v := by
  unfold semver
  rw [parse_iff, dropWhile_v (written_head v)]
  exact And.comm

/-- **C308**: the prefix does not count. -/
theorem semver_prefix (s : Chars) : semver ('v' :: s) = semver s := by
  unfold semver
  rw [List.dropWhile_cons_of_pos (by rfl)]

/-- **C308**: a version can be written in more than one way: URLs that differ can have the same version. -/
theorem spelling_twice : semver "1.2.3".toList = semver "vv1.2.3".toList ∧ semver "1.2.3".toList = some (1, 2, 3) := by
  decide +kernel

/-- **C308**: versions of two numbers, with needless zeros, or of other words have no semantic version. -/
theorem not_semver : semver "1.2".toList = none ∧ semver "1.02.0".toList = none ∧ semver "unknown".toList = none := by
  decide +kernel

end Verif.Resolver.SemVer
