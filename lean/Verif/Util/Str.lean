/-
The operations of Rust's `str` the modelled code uses, on lists of characters. Rust strings are sequences of bytes in
UTF-8; searching, splitting and stripping valid UTF-8 patterns always falls on character boundaries, so the
character view gives the same pieces. Byte lengths are `utf8len`.
-/
namespace Verif.Util

abbrev Chars := List Char

/-- `str::strip_prefix`. -/
def dropPrefix? : Chars → Chars → Option Chars
  | [], s => some s
  | _ :: _, [] => none
  | a :: p, b :: s => if a = b then dropPrefix? p s else none

theorem dropPrefix?_iff {p s r : Chars} : dropPrefix? p s = some r ↔ s = p ++ r := by
  induction p generalizing s with
  | nil => simp [dropPrefix?, eq_comm]
  | cons a p ih =>
    cases s with
    | nil => simp [dropPrefix?]
    | cons b s =>
      unfold dropPrefix?
      by_cases h : a = b
      · simp [h, ih]
      · simp [h, Ne.symm h]

theorem dropPrefix?_none {p s : Chars} : dropPrefix? p s = none ↔ ¬ p <+: s := by
  constructor
  · rintro h ⟨r, rfl⟩
    rw [dropPrefix?_iff.2 rfl] at h
    simp at h
  · intro h
    cases e : dropPrefix? p s with
    | none => rfl
    | some r => exact absurd ⟨r, (dropPrefix?_iff.1 e).symm⟩ h

/-- `str::strip_suffix`. -/
def dropSuffix? (p s : Chars) : Option Chars := (dropPrefix? p.reverse s.reverse).map List.reverse

theorem dropSuffix?_iff {p s r : Chars} : dropSuffix? p s = some r ↔ s = r ++ p := by
  unfold dropSuffix?
  rw [Option.map_eq_some_iff]
  constructor
  · rintro ⟨x, hx, rfl⟩
    have := congrArg List.reverse (dropPrefix?_iff.1 hx)
    simpa using this
  · rintro rfl
    exact ⟨r.reverse, dropPrefix?_iff.2 (by simp), by simp⟩

/-- `str::find` with a string pattern, together with the two sides of the first occurrence (`str::split_once`). -/
def splitFirst (p : Chars) : Chars → Option (Chars × Chars)
  | [] => if p = [] then some ([], []) else none
  | c :: t =>
    match dropPrefix? p (c :: t) with
    | some r => some ([], r)
    | none => (splitFirst p t).map (fun x => (c :: x.1, x.2))

theorem splitFirst_eq {p s a b : Chars} (h : splitFirst p s = some (a, b)) : s = a ++ p ++ b := by
  induction s generalizing a with
  | nil =>
    unfold splitFirst at h
    split at h
    · rename_i hp
      simp at h
      simp [hp, h.1, h.2]
    · simp at h
  | cons c t ih =>
    unfold splitFirst at h
    split at h
    · rename_i r hr
      simp at h
      rw [dropPrefix?_iff.1 hr, h.1, ← h.2]
      simp
    · rename_i hn
      rw [Option.map_eq_some_iff] at h
      obtain ⟨x, hx, e⟩ := h
      simp at e
      obtain ⟨e1, e2⟩ := e
      subst e1 e2
      rw [ih (a := x.1) (by rw [hx])]
      simp

theorem splitFirst_none {p s : Chars} : splitFirst p s = none ↔ ¬ p <:+: s := by
  induction s with
  | nil =>
    unfold splitFirst
    by_cases hp : p = []
    · simp [hp]
    · simp [hp]
  | cons c t ih =>
    unfold splitFirst
    rw [List.infix_cons_iff]
    split
    · rename_i r hr
      constructor
      · intro h; cases h
      · intro h; exact absurd (Or.inl ⟨r, (dropPrefix?_iff.1 hr).symm⟩) h
    · rename_i hn
      rw [Option.map_eq_none_iff, ih]
      have := dropPrefix?_none.1 hn
      simp [this]

/-- The occurrence found is the first: no occurrence starts earlier. -/
theorem splitFirst_first {p s a b : Chars} (h : splitFirst p s = some (a, b)) {a' b' : Chars}
    (e : s = a' ++ p ++ b') : a.length ≤ a'.length := by
  induction s generalizing a a' with
  | nil =>
    unfold splitFirst at h
    split at h
    · simp at h; simp [h.1]
    · simp at h
  | cons c t ih =>
    unfold splitFirst at h
    split at h
    · simp at h; simp [h.1]
    · rename_i hn
      rw [Option.map_eq_some_iff] at h
      obtain ⟨x, hx, ex⟩ := h
      simp at ex
      cases a' with
      | nil => exact absurd ⟨b', by rw [e]; simp⟩ (dropPrefix?_none.1 hn)
      | cons d a' =>
        simp at e
        have := ih (a := x.1) (a' := a') (by rw [hx, ← ex.2]) (by rw [e.2]; simp)
        rw [← ex.1]
        simpa using this

/-- `str::contains` with a string pattern. -/
def occurs (p s : Chars) : Bool := (splitFirst p s).isSome

theorem occurs_iff {p s : Chars} : occurs p s = true ↔ p <:+: s := by
  unfold occurs
  cases h : splitFirst p s with
  | none => simp [splitFirst_none.1 h]
  | some x =>
    simp only [Option.isSome_some, true_iff]
    exact ⟨x.1, x.2, (splitFirst_eq h).symm⟩

/-- `str::matches(p).count()` for a non-empty pattern: non-overlapping occurrences from the left. The first argument
is the number of characters of the current occurrence still to be skipped. -/
def countSub (p : Chars) : Nat → Chars → Nat
  | _, [] => 0
  | k + 1, _ :: t => countSub p k t
  | 0, c :: t =>
    match dropPrefix? p (c :: t) with
    | some _ => countSub p (p.length - 1) t + 1
    | none => countSub p 0 t

theorem countSub_skip (p a s : Chars) : countSub p a.length (a ++ s) = countSub p 0 s := by
  induction a with
  | nil => rfl
  | cons c a ih => simpa [countSub] using ih

theorem countSub_zero {p s : Chars} (hp : p ≠ []) : countSub p 0 s = 0 ↔ ¬ p <:+: s := by
  induction s with
  | nil => simp [countSub, hp]
  | cons c t ih =>
    unfold countSub
    split
    · rename_i r hr
      have : p <:+: c :: t := ⟨[], r, by simpa using (dropPrefix?_iff.1 hr).symm⟩
      simp [this]
    · rename_i hn
      rw [ih, List.infix_cons_iff]
      have := dropPrefix?_none.1 hn
      simp [this]

/-- Counting goes on after the first occurrence. -/
theorem countSub_first {p s a b : Chars} (hp : p ≠ []) (h : splitFirst p s = some (a, b)) :
    countSub p 0 s = countSub p 0 b + 1 := by
  induction s generalizing a with
  | nil => simp [splitFirst, hp] at h
  | cons c t ih =>
    unfold splitFirst at h
    have ec : countSub p 0 (c :: t) = match dropPrefix? p (c :: t) with
      | some _ => countSub p (p.length - 1) t + 1
      | none => countSub p 0 t := rfl
    rw [ec]
    split at h
    · rename_i r hr
      simp at h
      obtain ⟨rfl, rfl⟩ := h
      have e := dropPrefix?_iff.1 hr
      cases p with
      | nil => exact absurd rfl hp
      | cons x p =>
        simp at e
        rw [e.2]
        simpa using countSub_skip (x :: p) p r
    · rename_i hn
      rw [Option.map_eq_some_iff] at h
      obtain ⟨x, hx, ex⟩ := h
      simp at ex
      exact ih (a := x.1) (by rw [hx, ← ex.2])

/-- `str::split(|c| …)`: the pieces between the characters satisfying the predicate. -/
def splitWhen (f : Char → Bool) : Chars → List Chars
  | [] => [[]]
  | c :: t =>
    if f c then [] :: splitWhen f t
    else
      match splitWhen f t with
      | [] => [[c]]
      | w :: ws => (c :: w) :: ws

theorem splitWhen_ne_nil (f : Char → Bool) (s : Chars) : splitWhen f s ≠ [] := by
  cases s with
  | nil => simp [splitWhen]
  | cons c t =>
    unfold splitWhen
    split
    · simp
    · split <;> simp

/-- No piece contains a separator character, and the pieces interleaved with the separators give back the text. -/
theorem splitWhen_pieces (f : Char → Bool) (s : Chars) : ∀ w ∈ splitWhen f s, ∀ c ∈ w, f c = false := by
  induction s with
  | nil => simp [splitWhen]
  | cons c t ih =>
    unfold splitWhen
    split
    · intro w hw
      rcases List.mem_cons.1 hw with rfl | hw
      · simp
      · exact ih w hw
    · rename_i hc
      split
      · intro w hw d hd
        simp at hw
        subst hw
        simp at hd
        subst hd
        simpa using hc
      · rename_i w ws hws
        intro v hv d hd
        rcases List.mem_cons.1 hv with rfl | hv
        · rcases List.mem_cons.1 hd with rfl | hd
          · simpa using hc
          · exact ih w (by rw [hws]; simp) d hd
        · exact ih v (by rw [hws]; simp [hv]) d hd

/-- A piece of the split sits in the text, bounded on each side by a separator or by the end of the text. -/
def Word (f : Char → Bool) (w s : Chars) : Prop :=
  ∃ a b, s = a ++ w ++ b ∧ (∀ c ∈ w, f c = false) ∧ (∀ c, a.getLast? = some c → f c = true) ∧
    (∀ c, b.head? = some c → f c = true)

theorem splitWhen_head {f : Char → Bool} {s w : Chars} {ws : List Chars} (h : splitWhen f s = w :: ws) :
    ∃ b, s = w ++ b ∧ (∀ c, b.head? = some c → f c = true) ∧ (b = [] → ws = []) ∧
      (∀ c t, b = c :: t → splitWhen f t = ws) := by
  induction s generalizing w ws with
  | nil =>
    simp [splitWhen] at h
    exact ⟨[], by simp [h.1.symm], by simp, fun _ => h.2, by simp⟩
  | cons c t ih =>
    unfold splitWhen at h
    split at h
    · rename_i hc
      simp at h
      obtain ⟨rfl, rfl⟩ := h
      exact ⟨c :: t, rfl, by simp [hc], by simp, by rintro d u e; simp at e; rw [e.2]⟩
    · rename_i hc
      split at h
      · rename_i e
        exact absurd e (splitWhen_ne_nil f t)
      · rename_i w' ws' e
        simp at h
        obtain ⟨rfl, rfl⟩ := h
        obtain ⟨b, hb1, hb2, hb3, hb4⟩ := ih e
        exact ⟨b, by rw [hb1]; rfl, hb2, hb3, hb4⟩

theorem mem_splitWhen_word {f : Char → Bool} {s w : Chars} (h : w ∈ splitWhen f s) : Word f w s := by
  suffices H : ∀ n, ∀ s : Chars, s.length ≤ n → ∀ w ∈ splitWhen f s, Word f w s from H _ s (Nat.le_refl _) w h
  intro n
  induction n with
  | zero =>
    intro s hs w hw
    have : s = [] := List.length_eq_zero_iff.1 (Nat.le_zero.1 hs)
    subst this
    simp [splitWhen] at hw
    subst hw
    exact ⟨[], [], rfl, by simp, by simp, by simp⟩
  | succ n ih =>
    intro s hs w hw
    have hp := splitWhen_pieces f s w hw
    cases e : splitWhen f s with
    | nil => exact absurd e (splitWhen_ne_nil f s)
    | cons v vs =>
      obtain ⟨b, hb1, hb2, hb3, hb4⟩ := splitWhen_head e
      rw [e] at hw
      rcases List.mem_cons.1 hw with rfl | hw
      · exact ⟨[], b, by simp [hb1], hp, by simp, hb2⟩
      · cases b with
        | nil => rw [hb3 rfl] at hw; simp at hw
        | cons c t =>
          have hlen : t.length ≤ n := by
            rw [hb1] at hs; simp at hs; omega
          obtain ⟨a', b', h1, h2, h3, h4⟩ := ih t hlen w (by rw [hb4 c t rfl]; exact hw)
          refine ⟨v ++ c :: a', b', by rw [hb1, h1]; simp, h2, ?_, h4⟩
          intro d hd
          rcases List.eq_nil_or_concat a' with rfl | ⟨i, z, rfl⟩
          · simp at hd
            subst hd
            exact hb2 c rfl
          · refine h3 d ?_
            rw [← hd]
            have e : v ++ c :: i.concat z = (v ++ c :: i) ++ [z] := by simp
            rw [e, List.getLast?_concat, List.concat_eq_append, List.getLast?_concat]

theorem splitWhen_append {f : Char → Bool} (a t : Chars) {c : Char} (hc : f c = true) :
    splitWhen f (a ++ c :: t) = splitWhen f a ++ splitWhen f t := by
  induction a with
  | nil => simp [splitWhen, hc]
  | cons d a ih =>
    simp only [List.cons_append]
    rw [splitWhen, splitWhen, ih]
    by_cases hd : f d = true
    · simp [hd]
    · simp only [Bool.not_eq_true] at hd
      rw [hd]
      cases e : splitWhen f a with
      | nil => exact absurd e (splitWhen_ne_nil f a)
      | cons v vs => simp

theorem splitWhen_clean {f : Char → Bool} {w : Chars} (h : ∀ c ∈ w, f c = false) : splitWhen f w = [w] := by
  induction w with
  | nil => rfl
  | cons d w ih =>
    rw [splitWhen, h d (by simp), ih (fun c hc => h c (by simp [hc]))]
    simp

/-- The pieces of the split are exactly the maximal separator-free stretches of the text. -/
theorem mem_splitWhen_iff {f : Char → Bool} {s w : Chars} : w ∈ splitWhen f s ↔ Word f w s := by
  refine ⟨mem_splitWhen_word, ?_⟩
  rintro ⟨a, b, rfl, hw, ha, hb⟩
  have hwb : w ∈ splitWhen f (w ++ b) := by
    cases b with
    | nil => rw [List.append_nil, splitWhen_clean hw]; simp
    | cons c t => rw [splitWhen_append w t (hb c rfl), splitWhen_clean hw]; simp
  rcases List.eq_nil_or_concat a with rfl | ⟨i, z, rfl⟩
  · simpa using hwb
  · have hz := ha z (by simp)
    have e : i.concat z ++ w ++ b = i ++ z :: (w ++ b) := by simp
    rw [e, splitWhen_append i _ hz]
    exact List.mem_append_right _ hwb

/-- `str::trim_end_matches(p)` for a non-empty string pattern, on reversed text: strip the pattern as long as it is
there (the first argument bounds the number of rounds). -/
def dropRep (p : Chars) : Nat → Chars → Chars
  | 0, s => s
  | n + 1, s =>
    match dropPrefix? p s with
    | some r => dropRep p n r
    | none => s

/-- `str::trim_end_matches(p)` for a non-empty string pattern. -/
def trimEndSub (p s : Chars) : Chars := (dropRep p.reverse s.length s.reverse).reverse

/-- `n` copies of a text. -/
def copies (p : Chars) : Nat → Chars
  | 0 => []
  | n + 1 => p ++ copies p n

theorem copies_comm (p : Chars) (n : Nat) : copies p n ++ p = p ++ copies p n := by
  induction n with
  | zero => simp [copies]
  | succ n ih => simp [copies, List.append_assoc, ih]

theorem copies_reverse (p : Chars) (n : Nat) : (copies p n).reverse = copies p.reverse n := by
  induction n with
  | zero => rfl
  | succ n ih => rw [copies, List.reverse_append, ih, copies_comm, copies]

theorem dropRep_spec {p : Chars} (hp : p ≠ []) (n : Nat) (s : Chars) (h : s.length ≤ n) :
    (∃ k, s = copies p k ++ dropRep p n s) ∧ ¬ p <+: dropRep p n s := by
  induction n generalizing s with
  | zero =>
    have : s = [] := List.length_eq_zero_iff.1 (Nat.le_zero.1 h)
    subst this
    exact ⟨⟨0, rfl⟩, by simpa [dropRep] using hp⟩
  | succ n ih =>
    unfold dropRep
    cases e : dropPrefix? p s with
    | none => exact ⟨⟨0, rfl⟩, dropPrefix?_none.1 e⟩
    | some r =>
      have es := dropPrefix?_iff.1 e
      have hl : r.length ≤ n := by
        have : p.length ≠ 0 := fun h => hp (List.length_eq_zero_iff.1 h)
        rw [es, List.length_append] at h
        omega
      obtain ⟨⟨k, hk⟩, h2⟩ := ih r hl
      refine ⟨⟨k + 1, ?_⟩, h2⟩
      rw [es]
      conv => lhs; rw [hk]
      simp [copies]

/-- What `trim_end_matches` removes is a run of copies of the pattern, and what it leaves does not end with it. -/
theorem trimEndSub_spec {p : Chars} (hp : p ≠ []) (s : Chars) :
    (∃ k, s = trimEndSub p s ++ copies p k) ∧ ¬ p <:+ trimEndSub p s := by
  have hp' : p.reverse ≠ [] := by simpa using hp
  obtain ⟨⟨k, hk⟩, h2⟩ := dropRep_spec hp' s.length s.reverse (by simp)
  constructor
  · refine ⟨k, ?_⟩
    have := congrArg List.reverse hk
    rw [List.reverse_reverse, List.reverse_append, copies_reverse, List.reverse_reverse] at this
    exact this
  · intro h
    exact h2 (by unfold trimEndSub at h; rwa [← List.reverse_prefix, List.reverse_reverse] at h)

theorem trimEndSub_of_not {p s : Chars} (h : ¬ p <:+ s) : trimEndSub p s = s := by
  unfold trimEndSub
  have hn : dropPrefix? p.reverse s.reverse = none := dropPrefix?_none.2 (by rwa [List.reverse_prefix])
  cases e : s.length with
  | zero => simp [dropRep]
  | succ n => simp [dropRep, hn]

end Verif.Util
