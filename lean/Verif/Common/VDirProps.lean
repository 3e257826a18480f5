import Verif.Common.VDir

/-! Properties of registry paths. -/

namespace Verif.Common
open Verif.Util

/-! ### How a path is split -/

theorem shortest_some {β : Type} {f : Chars → Option β} {s t : Chars} {b : β} (h : shortest f s = some (t, b)) :
    t ≠ [] ∧ (∃ r, s = t ++ r ∧ f r = some b) ∧ ∀ t' r', s = t' ++ r' → t' ≠ [] → t'.length < t.length → f r' = none := by
  induction s generalizing t with
  | nil => cases h
  | cons c s ih =>
    unfold shortest at h
    cases hf : f s with
    | some b' =>
      rw [hf] at h
      cases h
      refine ⟨by simp, ⟨s, rfl, hf⟩, fun t' r' _ hne hl => ?_⟩
      cases t' with
      | nil => exact absurd rfl hne
      | cons => simp at hl
    | none =>
      rw [hf] at h
      dsimp only at h
      obtain ⟨x, hx, he⟩ := Option.map_eq_some_iff.1 h
      cases he
      obtain ⟨h1, ⟨r, rfl, h2⟩, h3⟩ := ih hx
      refine ⟨by simp, ⟨r, rfl, h2⟩, fun t' r' ht hne hl => ?_⟩
      cases t' with
      | nil => exact absurd rfl hne
      | cons d t' =>
        simp only [List.cons_append, List.cons.injEq] at ht
        by_cases ht' : t' = []
        · subst ht'; rw [List.nil_append] at ht; rw [← ht.2]; exact hf
        · exact h3 t' r' ht.2 ht' (by simpa using hl)

theorem shortest_none {β : Type} {f : Chars → Option β} {s : Chars} (h : shortest f s = none) (t r : Chars) (hs : s = t ++ r)
    (ht : t ≠ []) : f r = none := by
  induction s generalizing t with
  | nil => cases t with | nil => exact absurd rfl ht | cons => simp at hs
  | cons c s ih =>
    unfold shortest at h
    cases hf : f s with
    | some b' => rw [hf] at h; cases h
    | none =>
      rw [hf] at h
      dsimp only at h
      cases t with
      | nil => exact absurd rfl ht
      | cons d t =>
        simp only [List.cons_append, List.cons.injEq] at hs
        by_cases ht' : t = []
        · subst ht'; rw [List.nil_append] at hs; rw [← hs.2]; exact hf
        · exact ih (Option.map_eq_none_iff.1 h) t hs.2 ht'

theorem matchSub_iff (s : Chars) (x : Option Chars) : matchSub s = some x ↔ s = printSub x ∧ x ≠ some [] := by
  cases s with
  | nil => cases x <;> simp [matchSub, printSub]
  | cons c r =>
    unfold matchSub
    dsimp only
    constructor
    · intro h
      by_cases hc : c = '[' ∧ r.getLast? = some ']' ∧ r.dropLast ≠ []
      · rw [if_pos hc] at h
        cases h
        obtain ⟨rfl, hl, hd⟩ := hc
        have hne : r ≠ [] := by intro hn; rw [hn] at hl; cases hl
        refine ⟨?_, by simpa using hd⟩
        have := List.dropLast_concat_getLast hne
        rw [List.getLast?_eq_some_getLast hne] at hl
        rw [printSub, List.cons_append]
        congr 1
        rw [← Option.some.inj hl]
        exact this.symm
      · rw [if_neg hc] at h; cases h
    · rintro ⟨h, hx⟩
      cases x with
      | none => cases h
      | some y =>
        simp only [printSub, List.cons_append, List.cons.injEq] at h
        obtain ⟨rfl, rfl⟩ := h
        rw [if_pos ⟨rfl, by simp, by simpa using hx⟩]
        simp

/-- A text is the source, `@` and a refspec if there is one, and a sub folder in brackets if there is one. None of the three is
empty. -/
def Split (s src : Chars) (ref sub : Option Chars) : Prop :=
  s = src ++ printRef ref ++ printSub sub ∧ src ≠ [] ∧ ref ≠ some [] ∧ sub ≠ some []

theorem matchRef_some {s : Chars} {ref sub : Option Chars} (h : matchRef s = some (ref, sub)) :
    s = printRef ref ++ printSub sub ∧ ref ≠ some [] ∧ sub ≠ some [] := by
  cases s with
  | nil => cases h; simp [printRef, printSub]
  | cons c r =>
    unfold matchRef at h
    dsimp only at h
    cases hx : (if c = '@' then shortest matchSub r else none) with
    | some x =>
      rw [hx] at h
      cases h
      by_cases hc : c = '@'
      · subst hc
        rw [if_pos rfl] at hx
        obtain ⟨h1, ⟨r', rfl, h2⟩, -⟩ := shortest_some hx
        obtain ⟨rfl, h3⟩ := (matchSub_iff _ _).1 h2
        exact ⟨rfl, by simpa using h1, h3⟩
      · rw [if_neg hc] at hx; cases hx
    | none =>
      rw [hx] at h
      dsimp only at h
      obtain ⟨y, hy, he⟩ := Option.map_eq_some_iff.1 h
      cases he
      have := (matchSub_iff _ _).1 hy
      exact ⟨by simpa [printRef] using this.1, by simp, this.2⟩

theorem matchRef_exists {s : Chars} {ref sub : Option Chars} (h : s = printRef ref ++ printSub sub) (hr : ref ≠ some [])
    (hs : sub ≠ some []) : ∃ ref' sub', matchRef s = some (ref', sub') ∧
      (ref.isSome → ref'.isSome) ∧ (∀ r r', ref = some r → ref' = some r' → r'.length ≤ r.length) ∧
      (ref = none → ref' = none → sub' = sub) := by
  cases s with
  | nil =>
    refine ⟨none, none, rfl, ?_, ?_, ?_⟩
    · cases ref with
      | none => exact id
      | some r => simp [printRef] at h
    · intro r r' _ h'; cases h'
    · intro h1 _
      subst h1
      cases sub with
      | none => rfl
      | some x => simp [printRef, printSub] at h
  | cons c t =>
    unfold matchRef
    dsimp only
    cases hx : (if c = '@' then shortest matchSub t else none) with
    | some x =>
      refine ⟨some x.1, x.2, rfl, fun _ => rfl, ?_, fun _ h => nomatch h⟩
      intro r r' h1 h2
      cases h2
      by_cases hc : c = '@'
      · rw [if_pos hc] at hx
        subst h1
        simp only [printRef, List.cons_append, List.cons.injEq] at h
        obtain ⟨h1, ⟨r', h2, h3⟩, h4⟩ := shortest_some (t := x.1) (b := x.2) hx
        by_cases hl : x.1.length ≤ r.length
        · exact hl
        · have := h4 r _ h.2 (by simpa using hr) (by omega)
          rw [(matchSub_iff _ sub).2 ⟨rfl, hs⟩] at this
          cases this
      · rw [if_neg hc] at hx; cases hx
    | none =>
      have hn : ref = none := by
        cases ref with
        | none => rfl
        | some r =>
          simp only [printRef, List.cons_append, List.cons.injEq] at h
          rw [if_pos h.1] at hx
          have := shortest_none hx r _ h.2 (by simpa using hr)
          rw [(matchSub_iff _ sub).2 ⟨rfl, hs⟩] at this
          cases this
      subst hn
      rw [printRef, List.nil_append] at h
      rw [h]
      refine ⟨none, sub, ?_, by simp, by simp, fun _ _ => rfl⟩
      rw [(matchSub_iff _ sub).2 ⟨rfl, hs⟩]
      rfl

/-- Reading fails exactly for the empty text and texts with line breaks. -/
theorem captures_none_iff (s : Chars) : captures s = none ↔ s = [] ∨ '\n' ∈ s := by
  unfold captures
  by_cases hn : '\n' ∈ s
  · simp [hn]
  · rw [if_neg hn]
    constructor
    · intro h
      by_cases hs : s = []
      · exact Or.inl hs
      · have := shortest_none h s [] (by simp) hs
        cases this
    · rintro (rfl | h)
      · rfl
      · exact absurd h hn

/-- Otherwise the text is split into source, refspec and sub folder; of all the ways to split it the one with the shortest
source is taken, with a refspec if there can be one, and with the shortest refspec. -/
theorem captures_some {s src : Chars} {ref sub : Option Chars} (h : captures s = some (src, ref, sub)) :
    Split s src ref sub ∧ ∀ src' ref' sub', Split s src' ref' sub' →
      src.length < src'.length ∨ (src = src' ∧
        ((ref.isSome ∧ ref' = none) ∨ (∃ r r', ref = some r ∧ ref' = some r' ∧ r.length ≤ r'.length) ∨
          (ref = none ∧ ref' = none ∧ sub = sub'))) := by
  unfold captures at h
  by_cases hn : '\n' ∈ s
  · rw [if_pos hn] at h; cases h
  · rw [if_neg hn] at h
    obtain ⟨h1, ⟨r, rfl, h2⟩, h3⟩ := shortest_some h
    obtain ⟨rfl, h4, h5⟩ := matchRef_some h2
    refine ⟨⟨by simp, h1, h4, h5⟩, fun src' ref' sub' hs => ?_⟩
    obtain ⟨he, g1, g2, g3⟩ := hs
    rw [List.append_assoc] at he
    obtain ⟨ref'', sub'', hm, k1, k2, k3⟩ := matchRef_exists (s := printRef ref' ++ printSub sub') rfl g2 g3
    by_cases hl : src'.length < src.length
    · rw [h3 src' _ he g1 hl] at hm; cases hm
    · by_cases hl' : src.length < src'.length
      · exact Or.inl hl'
      · have hlen : src.length = src'.length := by omega
        obtain ⟨e1, e2⟩ := List.append_inj he hlen
        rw [← e2, h2] at hm
        cases hm
        refine Or.inr ⟨e1, ?_⟩
        cases ref with
        | none =>
          cases ref' with
          | none => exact Or.inr (Or.inr ⟨rfl, rfl, k3 rfl rfl⟩)
          | some r' => exact absurd (k1 rfl) (by simp)
        | some r =>
          cases ref' with
          | none => exact Or.inl ⟨rfl, rfl⟩
          | some r' => exact Or.inr (Or.inl ⟨r, r', rfl, rfl, k2 r' r rfl rfl⟩)

theorem printSub_inj {a b : Option Chars} (h : printSub a = printSub b) : a = b := by
  cases a <;> cases b <;> simp_all [printSub]

/-- A source and a refspec without `@` and `[` are read as written. -/
theorem captures_of_parts {src : Chars} {ref sub : Option Chars} (h : Split (src ++ printRef ref ++ printSub sub) src ref sub)
    (hs : '@' ∉ src ∧ '[' ∉ src) (hr : ∀ r, ref = some r → '[' ∉ r) (hn : '\n' ∉ src ++ printRef ref ++ printSub sub) :
    captures (src ++ printRef ref ++ printSub sub) = some (src, ref, sub) := by
  cases hc : captures (src ++ printRef ref ++ printSub sub) with
  | none =>
    rcases (captures_none_iff _).1 hc with h' | h'
    · exact absurd (by simp at h'; exact h'.1) h.2.1
    · exact absurd h' hn
  | some x =>
    obtain ⟨a, b, c⟩ := x
    obtain ⟨⟨e, g1, g2, g3⟩, hmin⟩ := captures_some hc
    have hlen : src = a ∧ printRef ref ++ printSub sub = printRef b ++ printSub c := by
      rcases hmin src ref sub h with hl | ⟨ha, -⟩
      · exfalso
        rw [List.append_assoc, List.append_assoc] at e
        obtain ⟨t, h1, h2⟩ : ∃ t, src = a ++ t ∧ printRef b ++ printSub c = t ++ (printRef ref ++ printSub sub) := by
          rcases List.append_eq_append_iff.1 e with ⟨t, h1, h2⟩ | ⟨t, h1, h2⟩
          · rw [h1] at hl; simp at hl
            have : t = [] := by
              cases t with
              | nil => rfl
              | cons => simp at hl; omega
            subst this
            exact ⟨[], by simpa using h1.symm, by simpa using h2.symm⟩
          · exact ⟨t, h1, h2⟩
        cases t with
        | nil => rw [List.append_nil] at h1; rw [h1] at hl; exact absurd hl (by omega)
        | cons d t =>
          have hd : d = '@' ∨ d = '[' := by
            cases b with
            | some r => simp only [printRef, List.cons_append, List.cons.injEq] at h2; exact Or.inl h2.1.symm
            | none =>
              cases c with
              | none => simp [printRef, printSub] at h2
              | some y => simp only [printRef, printSub, List.nil_append, List.cons_append, List.cons.injEq] at h2; exact Or.inr h2.1.symm
          rcases hd with rfl | rfl
          · exact hs.1 (by rw [h1]; simp)
          · exact hs.2 (by rw [h1]; simp)
      · refine ⟨ha.symm, ?_⟩
        rw [List.append_assoc, List.append_assoc, ha] at e
        exact List.append_cancel_left e
    obtain ⟨rfl, e'⟩ := hlen
    cases ref with
    | none =>
      cases b with
      | none =>
        simp only [printRef, List.nil_append] at e'
        rw [printSub_inj e']
      | some r =>
        cases sub with
        | none => simp [printRef, printSub] at e'
        | some y =>
          simp only [printRef, printSub, List.nil_append, List.cons_append, List.cons.injEq] at e'
          exact absurd e'.1 (by decide)
    | some r =>
      cases b with
      | none =>
        cases c with
        | none => simp [printRef, printSub] at e'
        | some y =>
          simp only [printRef, printSub, List.nil_append, List.cons_append, List.cons.injEq] at e'
          exact absurd e'.1 (by decide)
      | some r' =>
        simp only [printRef, List.cons_append, List.cons.injEq, true_and] at e'
        have hrr := hr r rfl
        -- the two refspecs are the same
        have hl : r'.length ≤ r.length := by
          rcases hmin src (some r) sub h with hl | ⟨-, ⟨-, h'⟩ | ⟨x, x', hx, hx', hl⟩ | ⟨h', -⟩⟩
          · exact absurd hl (by omega)
          · cases h'
          · cases hx; cases hx'; exact hl
          · cases h'
        rcases List.append_eq_append_iff.1 e' with ⟨t, h1, h2⟩ | ⟨t, h1, h2⟩
        · have : t = [] := by
            cases t with
            | nil => rfl
            | cons => rw [h1] at hl; simp at hl; omega
          subst this
          rw [List.append_nil] at h1
          rw [List.nil_append] at h2
          rw [h1, printSub_inj h2]
        · cases t with
          | nil =>
            rw [List.append_nil] at h1
            rw [List.nil_append] at h2
            rw [h1, printSub_inj h2]
          | cons d t =>
            cases c with
            | none => simp [printSub] at h2
            | some y =>
              simp only [printSub, List.cons_append, List.cons.injEq] at h2
              exact absurd (by rw [h1, ← h2.1]; simp) hrr

/-! ### Classification, printing and reading back -/

/-- Paths that are read as they are printed. -/
def VPath.Plain : VPath → Prop
  | .localFolder p => p ≠ [] ∧ '@' ∉ p ∧ '[' ∉ p ∧ '\n' ∉ p ∧ isHttp p = false ∧ isArchive p = false
  | .localArchive p s => p ≠ [] ∧ '@' ∉ p ∧ '[' ∉ p ∧ '\n' ∉ p ∧ isHttp p = false ∧ isArchive p = true ∧
      ∀ x, s = some x → x ≠ [] ∧ '\n' ∉ x
  | .remoteArchive p s => p ≠ [] ∧ '@' ∉ p ∧ '[' ∉ p ∧ '\n' ∉ p ∧ isHttp p = true ∧ isArchive p = true ∧
      ∀ x, s = some x → x ≠ [] ∧ '\n' ∉ x
  | .gitRepo p r s => p ≠ [] ∧ '@' ∉ p ∧ '[' ∉ p ∧ '\n' ∉ p ∧ isHttp p = true ∧ isArchive p = false ∧
      (∀ x, r = some x → x ≠ [] ∧ '[' ∉ x ∧ '\n' ∉ x) ∧ (∀ x, s = some x → x ≠ [] ∧ '\n' ∉ x) ∧
      (".git".toList.isSuffixOf p = true ∨ r.isSome ∨ s.isSome)
  | .remoteFile p => p ≠ [] ∧ '@' ∉ p ∧ '[' ∉ p ∧ '\n' ∉ p ∧ isHttp p = true ∧ isArchive p = false ∧
      ".git".toList.isSuffixOf p = false

theorem parse_parts {src : Chars} {ref sub : Option Chars} (h1 : src ≠ []) (h2 : '@' ∉ src) (h3 : '[' ∉ src) (h4 : '\n' ∉ src)
    (hr : ∀ x, ref = some x → x ≠ [] ∧ '[' ∉ x ∧ '\n' ∉ x) (hs : ∀ x, sub = some x → x ≠ [] ∧ '\n' ∉ x) :
    VPath.parse (src ++ printRef ref ++ printSub sub) = some (classify src ref sub) := by
  unfold VPath.parse
  rw [captures_of_parts ⟨rfl, h1, fun h => (hr _ h).1 rfl, fun h => (hs _ h).1 rfl⟩ ⟨h2, h3⟩ (fun r h => (hr r h).2.1)]
  · rfl
  · have hr' : '\n' ∉ printRef ref := by
      cases ref with
      | none => simp [printRef]
      | some r => simpa [printRef] using (hr r rfl).2.2
    have hs' : '\n' ∉ printSub sub := by
      cases sub with
      | none => simp [printSub]
      | some r => simpa [printSub] using (hs r rfl).2
    simp only [List.mem_append, not_or]
    exact ⟨⟨h4, hr'⟩, hs'⟩

/-- A place whose parts have none of the special characters is read back as it was printed. -/
theorem parse_print (v : VPath) (h : v.Plain) : VPath.parse v.print = some v := by
  cases v with
  | localFolder p =>
    obtain ⟨h1, h2, h3, h4, h5, h6⟩ := h
    have := parse_parts h1 h2 h3 h4 (ref := none) (sub := none) (by simp) (by simp)
    simp only [printRef, printSub, List.append_nil] at this
    rw [VPath.print, this, classify, h5, h6]; rfl
  | localArchive p s =>
    obtain ⟨h1, h2, h3, h4, h5, h6, h7⟩ := h
    have := parse_parts h1 h2 h3 h4 (ref := none) (sub := s) (by simp) h7
    simp only [printRef, List.append_nil] at this
    rw [VPath.print, this, classify, h5, h6]; rfl
  | remoteArchive p s =>
    obtain ⟨h1, h2, h3, h4, h5, h6, h7⟩ := h
    have := parse_parts h1 h2 h3 h4 (ref := none) (sub := s) (by simp) h7
    simp only [printRef, List.append_nil] at this
    rw [VPath.print, this, classify, h5, h6]; rfl
  | gitRepo p r s =>
    obtain ⟨h1, h2, h3, h4, h5, h6, h7, h8, h9⟩ := h
    rw [VPath.print, parse_parts h1 h2 h3 h4 h7 h8, classify, h5, h6]
    have : (".git".toList.isSuffixOf p || r.isSome || s.isSome) = true := by
      rcases h9 with h | h | h <;> rw [h] <;> simp
    rw [if_pos rfl, if_neg (by decide), if_pos this]
  | remoteFile p =>
    obtain ⟨h1, h2, h3, h4, h5, h6, h7⟩ := h
    have := parse_parts h1 h2 h3 h4 (ref := none) (sub := none) (by simp) (by simp)
    simp only [printRef, printSub, List.append_nil] at this
    rw [VPath.print, this, classify, h5, h6, h7]; rfl

theorem parse_split {s : Chars} {v : VPath} (h : VPath.parse s = some v) :
    ∃ src ref sub, captures s = some (src, ref, sub) ∧ v = classify src ref sub ∧ s = src ++ printRef ref ++ printSub sub := by
  unfold VPath.parse at h
  obtain ⟨⟨a, b, c⟩, hc, rfl⟩ := Option.map_eq_some_iff.1 h
  exact ⟨a, b, c, hc, rfl, (captures_some hc).1.1⟩

/-- A source on the web. -/
def OnWeb (s : Chars) : Prop := ∃ r, s = "http://".toList ++ r ∨ s = "https://".toList ++ r

/-- A source that is a compressed archive. -/
def Packed (s : Chars) : Prop := ∃ r, s = r ++ ".zip".toList ∨ s = r ++ ".tar.gz".toList

theorem isHttp_iff (s : Chars) : isHttp s = true ↔ OnWeb s := by
  unfold isHttp OnWeb
  rw [Bool.or_eq_true, List.isPrefixOf_iff_prefix, List.isPrefixOf_iff_prefix]
  constructor
  · rintro (⟨r, h⟩ | ⟨r, h⟩)
    · exact ⟨r, .inl h.symm⟩
    · exact ⟨r, .inr h.symm⟩
  · rintro ⟨r, h | h⟩
    · exact .inl ⟨r, h.symm⟩
    · exact .inr ⟨r, h.symm⟩

theorem isArchive_iff (s : Chars) : isArchive s = true ↔ Packed s := by
  unfold isArchive Packed
  rw [Bool.or_eq_true, List.isSuffixOf_iff_suffix, List.isSuffixOf_iff_suffix]
  constructor
  · rintro (⟨r, h⟩ | ⟨r, h⟩)
    · exact ⟨r, .inl h.symm⟩
    · exact ⟨r, .inr h.symm⟩
  · rintro ⟨r, h | h⟩
    · exact .inl ⟨r, h.symm⟩
    · exact .inr ⟨r, h.symm⟩

/-- The kind of a place is decided by the start and the end of the source. -/
theorem classify_kinds (src : Chars) (ref sub : Option Chars) :
    (¬ OnWeb src → ¬ Packed src → classify src ref sub = .localFolder src) ∧
    (¬ OnWeb src → Packed src → classify src ref sub = .localArchive src sub) ∧
    (OnWeb src → Packed src → classify src ref sub = .remoteArchive src sub) ∧
    (OnWeb src → ¬ Packed src → ((∃ r, src = r ++ ".git".toList) ∨ ref ≠ none ∨ sub ≠ none) → classify src ref sub = .gitRepo src ref sub) ∧
    (OnWeb src → ¬ Packed src → (∀ r, src ≠ r ++ ".git".toList) → ref = none → sub = none → classify src ref sub = .remoteFile src) := by
  rw [← isHttp_iff, ← isArchive_iff]
  have hg : ".git".toList.isSuffixOf src = true ↔ ∃ r, src = r ++ ".git".toList := by
    rw [List.isSuffixOf_iff_suffix]
    exact ⟨fun ⟨r, h⟩ => ⟨r, h.symm⟩, fun ⟨r, h⟩ => ⟨r, h.symm⟩⟩
  unfold classify
  refine ⟨?_, ?_, ?_, ?_, ?_⟩
  · intro h1 h2; rw [if_neg h1, if_neg h2]
  · intro h1 h2; rw [if_neg h1, if_pos h2]
  · intro h1 h2; rw [if_pos h1, if_pos h2]
  · intro h1 h2 h3
    rw [if_pos h1, if_neg h2, if_pos]
    rcases h3 with h | h | h
    · rw [hg.2 h]; rfl
    · cases ref with
      | none => exact absurd rfl h
      | some => simp
    · cases sub with
      | none => exact absurd rfl h
      | some => simp
  · rintro h1 h2 h3 rfl rfl
    rw [if_pos h1, if_neg h2, if_neg]
    intro h
    simp only [Option.isSome_none, Bool.or_false] at h
    obtain ⟨r, hr⟩ := hg.1 h
    exact h3 r hr

/-- Nothing of the text is lost, except a refspec for an archive or a local folder, and a sub folder for a local folder. -/
theorem nothing_lost_partial {s src : Chars} {ref sub : Option Chars} {v : VPath} (h : VPath.parse s = some v)
    (hc : captures s = some (src, ref, sub)) :
    v.print = s ↔ ((∃ p r x, v = .gitRepo p r x) ∨ (∃ p, v = .remoteFile p) ∨ (ref = none ∧ (sub = none ∨ ∀ p, v ≠ .localFolder p))) := by
  obtain ⟨a, b, c, hc', rfl, rfl⟩ := parse_split h
  rw [hc] at hc'; cases hc'
  clear h hc
  unfold classify
  cases h1 : isHttp src <;> cases h2 : isArchive src <;> cases h3 : ".git".toList.isSuffixOf src <;> cases ref <;> cases sub <;>
    simp [VPath.print, printRef, printSub, List.append_assoc]

/-- A repository given by its SSH address is read as a local folder, and `@` splits a URL with a user name. -/
theorem nothing_lost_refuted :
    VPath.parse "git@github.com:org/repo.git".toList = some (.localFolder "git".toList) ∧
    VPath.parse "models@v2/registry".toList = some (.localFolder "models".toList) ∧
    VPath.parse "folder[x]".toList = some (.localFolder "folder".toList) ∧
    VPath.parse "https://user@host/repo.git".toList = some (.gitRepo "https://user".toList (some "host/repo.git".toList) none) := by
  decide +kernel

/-- What is read from a text that is printed again is the same if nothing was lost and, for archives and folders, the source
has no brackets or `@` in it. -/
theorem print_stable_partial {s : Chars} {v : VPath} (h : VPath.parse s = some v)
    (hg : (∃ p r x, v = .gitRepo p r x) ∨ (∃ p, v = .remoteFile p) ∨
      ∃ src ref sub, captures s = some (src, ref, sub) ∧ '@' ∉ src ∧ '[' ∉ src) : VPath.parse v.print = some v := by
  obtain ⟨a, b, c, hc, hv, hs⟩ := parse_split h
  rcases hg with hg | hg | ⟨a', b', c', hc', h1, h2⟩
  · rw [(nothing_lost_partial h hc).2 (Or.inl hg)]; exact h
  · rw [(nothing_lost_partial h hc).2 (Or.inr (Or.inl hg))]; exact h
  · rw [hc] at hc'; cases hc'
    have hn : '\n' ∉ s ∧ s ≠ [] := by
      constructor
      · intro hn; rw [(captures_none_iff s).2 (Or.inr hn)] at hc; cases hc
      · intro hn; rw [(captures_none_iff s).2 (Or.inl hn)] at hc; cases hc
    obtain ⟨hsp, -⟩ := captures_some hc
    have hna : '\n' ∉ a := fun hm => hn.1 (by rw [hs]; simp [hm])
    have hnc : ∀ x, c = some x → x ≠ [] ∧ '\n' ∉ x := by
      rintro x rfl
      exact ⟨fun he => hsp.2.2.2 (by rw [he]), fun hm => hn.1 (by rw [hs]; simp [printSub, hm])⟩
    subst hv
    have key : ∀ w : VPath, classify a b c = w → w.Plain → VPath.parse (classify a b c).print = some (classify a b c) := by
      rintro w rfl hp; exact parse_print _ hp
    unfold classify at key ⊢
    cases e1 : isHttp a with
    | false =>
      cases e2 : isArchive a with
      | false => simp only [e1, e2] at key; exact parse_print (.localFolder a) ⟨hsp.2.1, h1, h2, hna, e1, e2⟩
      | true => exact parse_print (.localArchive a c) ⟨hsp.2.1, h1, h2, hna, e1, e2, hnc⟩
    | true =>
      cases e2 : isArchive a with
      | true => exact parse_print (.remoteArchive a c) ⟨hsp.2.1, h1, h2, hna, e1, e2, hnc⟩
      | false =>
        have hl := (nothing_lost_partial h hc).2 (by
          unfold classify
          rw [e1, e2, if_pos rfl, if_neg (by decide)]
          cases (".git".toList.isSuffixOf a || b.isSome || c.isSome)
          · exact Or.inr (Or.inl ⟨a, rfl⟩)
          · exact Or.inl ⟨a, b, c, rfl⟩)
        rw [← hl] at h
        unfold classify at h
        rw [e1, e2] at h
        exact h

/-- A folder with brackets and a refspec changes each time it is printed and read. -/
theorem print_stable_refuted : ∃ v w : VPath, VPath.parse "a[b]@c".toList = some v ∧ VPath.parse v.print = some w ∧ v ≠ w :=
  ⟨.localFolder "a[b]".toList, .localFolder "a".toList, by decide +kernel⟩

/-! ### Sub folders -/

/-- The place inside the source: the sub folder, the whole of it if there is none; for folders and files their path. -/
def VPath.inside : VPath → Chars
  | .localFolder p => p
  | .localArchive _ s => s.getD []
  | .remoteArchive _ s => s.getD []
  | .gitRepo _ _ s => s.getD []
  | .remoteFile u => u

/-- Two paths of the same kind, with the same source and refspec. -/
def VPath.SameSource : VPath → VPath → Prop
  | .localFolder _, .localFolder _ => True
  | .localArchive p _, .localArchive q _ => p = q
  | .remoteArchive p _, .remoteArchive q _ => p = q
  | .gitRepo p r _, .gitRepo q r' _ => p = q ∧ r = r'
  | .remoteFile _, .remoteFile _ => True
  | _, _ => False

/-- Changing the sub folder changes exactly the place inside the source. -/
theorem mapSub_inside (f : Chars → Chars) (v : VPath) : (v.mapSub f).inside = f v.inside ∧ v.SameSource (v.mapSub f) ∧
    ∀ p r, v.mapSub f ≠ .localArchive p (some []) ∧ v.mapSub f ≠ .remoteArchive p (some []) ∧ v.mapSub f ≠ .gitRepo p r (some []) := by
  have key : ∀ o : Option Chars, (mapOption o f).getD [] = f (o.getD []) ∧ mapOption o f ≠ some [] := by
    intro o
    unfold mapOption
    by_cases h : f (o.getD []) = [] <;> simp [h]
  cases v <;> simp [VPath.mapSub, VPath.inside, VPath.SameSource, key]

/-- The identity changes nothing; two changes of the sub folder, one after the other, are the change by the composition. -/
theorem mapSub_id (v : VPath) (h : ∀ s, v ≠ .localArchive s (some []) ∧ v ≠ .remoteArchive s (some []) ∧ ∀ r, v ≠ .gitRepo s r (some [])) :
    v.mapSub id = v := by
  have key : ∀ o : Option Chars, o ≠ some [] → mapOption o id = o := by
    intro o ho
    cases o with
    | none => rfl
    | some x =>
      have : x ≠ [] := fun he => ho (by rw [he])
      simp [mapOption, this]
  cases v with
  | localFolder p => rfl
  | localArchive p s => simp only [VPath.mapSub]; rw [key s fun he => (h p).1 (by rw [he])]
  | remoteArchive p s => simp only [VPath.mapSub]; rw [key s fun he => (h p).2.1 (by rw [he])]
  | gitRepo p r s => simp only [VPath.mapSub]; rw [key s fun he => (h p).2.2 r (by rw [he])]
  | remoteFile p => rfl

theorem mapSub_comp (f g : Chars → Chars) (v : VPath) : (v.mapSub f).mapSub g = v.mapSub (g ∘ f) := by
  have key : ∀ o : Option Chars, mapOption (mapOption o f) g = mapOption o (g ∘ f) := by
    intro o
    unfold mapOption
    by_cases h : f (o.getD []) = [] <;> simp [h]
  cases v <;> simp [VPath.mapSub, key]

example : VPath.parse "https://github.com/open-telemetry/semantic-conventions.git@v1.26.0[model]".toList =
    some (.gitRepo "https://github.com/open-telemetry/semantic-conventions.git".toList (some "v1.26.0".toList) (some "model".toList)) := by
  decide +kernel
example : (VPath.gitRepo "https://h/r.git".toList (some "main".toList) (some "model".toList)).Plain := by
  refine ⟨by decide, by decide, by decide, by decide, by decide +kernel, by decide +kernel, ?_, ?_, by decide +kernel⟩ <;>
    (intro x hx; cases hx; decide)
example : VPath.parse "data.zip[a/b]".toList = some (.localArchive "data.zip".toList (some "a/b".toList)) := by decide +kernel

end Verif.Common
