import Verif.Markdown.Grammar
/-
Property C78: the ids of v2 snippets.
-/
namespace Verif.Markdown
open Verif.Util

/-- The part of the schema the item is looked for in. -/
def Lookup.sec : Lookup → Chars
  | .attribute _ | .attributeGroup _ | .span _ | .metric _ | .event _ | .entity _ => "registry".toList
  | .spanRefinement _ | .metricRefinement _ | .eventRefinement _ | .entityRefinement _ => "refinements".toList

/-- The list the item is looked for in. -/
def Lookup.kind : Lookup → Chars
  | .attribute _ => "attributes".toList
  | .attributeGroup _ => "attribute_groups".toList
  | .span _ | .spanRefinement _ => "spans".toList
  | .metric _ | .metricRefinement _ => "metrics".toList
  | .event _ | .eventRefinement _ => "events".toList
  | .entity _ | .entityRefinement _ => "entities".toList

def Lookup.id : Lookup → Chars
  | .attribute i | .attributeGroup i | .span i | .metric i | .event i | .entity i | .spanRefinement i
  | .metricRefinement i | .eventRefinement i | .entityRefinement i => i

theorem partDot_sound {s x r : Chars} (h : partDot s = some (x, r)) : s = x ++ '.' :: r := by
  unfold partDot at h
  split at h
  · simp at h
  · rename_i y hy
    rw [Option.map_eq_some_iff] at h
    obtain ⟨q, hq, e⟩ := h
    simp at e
    obtain ⟨rfl, rfl⟩ := e
    have h1 := ((token_iff (t := y.1) (r := y.2)).1 hy).1
    rw [h1, dropPrefix?_iff.1 hq]
    simp

theorem partDot_complete {c : Char} {u r : Chars} (hc : isAlpha c = true) (hu : ∀ d ∈ u, valChar d = true) :
    partDot (c :: u ++ '.' :: r) = some (c :: u, r) := by
  have : parsePartialId (c :: u ++ '.' :: r) = some (c :: u, '.' :: r) :=
    token_iff.2 ⟨rfl, ⟨c, u, rfl, hc, hu⟩, by intro d hd; simp at hd; subst hd; decide⟩
  unfold partDot
  rw [this]
  simp [dropPrefix?]

theorem registryKind_iff_mp {n i : Chars} {l : Lookup} (h : registryKind n i = some l) :
    l.sec = "registry".toList ∧ l.kind = n ∧ l.id = i := by
  unfold registryKind at h
  by_cases hattributes : n = "attributes".toList
  · rw [if_pos hattributes] at h
    rw [← Option.some.inj h, hattributes]
    exact ⟨rfl, rfl, rfl⟩
  rw [if_neg hattributes] at h
  by_cases hattribute_groups : n = "attribute_groups".toList
  · rw [if_pos hattribute_groups] at h
    rw [← Option.some.inj h, hattribute_groups]
    exact ⟨rfl, rfl, rfl⟩
  rw [if_neg hattribute_groups] at h
  by_cases hspans : n = "spans".toList
  · rw [if_pos hspans] at h
    rw [← Option.some.inj h, hspans]
    exact ⟨rfl, rfl, rfl⟩
  rw [if_neg hspans] at h
  by_cases hmetrics : n = "metrics".toList
  · rw [if_pos hmetrics] at h
    rw [← Option.some.inj h, hmetrics]
    exact ⟨rfl, rfl, rfl⟩
  rw [if_neg hmetrics] at h
  by_cases hevents : n = "events".toList
  · rw [if_pos hevents] at h
    rw [← Option.some.inj h, hevents]
    exact ⟨rfl, rfl, rfl⟩
  rw [if_neg hevents] at h
  by_cases hentities : n = "entities".toList
  · rw [if_pos hentities] at h
    rw [← Option.some.inj h, hentities]
    exact ⟨rfl, rfl, rfl⟩
  rw [if_neg hentities] at h
  exact nomatch h

theorem registryKind_iff_mpr {l : Lookup} (h : l.sec = "registry".toList) : registryKind l.kind l.id = some l := by
  cases l with
  | «attribute» i =>
    unfold registryKind
    exact if_pos rfl
  | attributeGroup i =>
    unfold registryKind
    exact (if_neg (show ¬ "attribute_groups".toList = "attributes".toList by simp)).trans
      (if_pos rfl)
  | span i =>
    unfold registryKind
    exact (if_neg (show ¬ "spans".toList = "attributes".toList by simp)).trans
      ((if_neg (show ¬ "spans".toList = "attribute_groups".toList by simp)).trans
      (if_pos rfl))
  | metric i =>
    unfold registryKind
    exact (if_neg (show ¬ "metrics".toList = "attributes".toList by simp)).trans
      ((if_neg (show ¬ "metrics".toList = "attribute_groups".toList by simp)).trans
      ((if_neg (show ¬ "metrics".toList = "spans".toList by simp)).trans
      (if_pos rfl)))
  | event i =>
    unfold registryKind
    exact (if_neg (show ¬ "events".toList = "attributes".toList by simp)).trans
      ((if_neg (show ¬ "events".toList = "attribute_groups".toList by simp)).trans
      ((if_neg (show ¬ "events".toList = "spans".toList by simp)).trans
      ((if_neg (show ¬ "events".toList = "metrics".toList by simp)).trans
      (if_pos rfl))))
  | entity i =>
    unfold registryKind
    exact (if_neg (show ¬ "entities".toList = "attributes".toList by simp)).trans
      ((if_neg (show ¬ "entities".toList = "attribute_groups".toList by simp)).trans
      ((if_neg (show ¬ "entities".toList = "spans".toList by simp)).trans
      ((if_neg (show ¬ "entities".toList = "metrics".toList by simp)).trans
      ((if_neg (show ¬ "entities".toList = "events".toList by simp)).trans
      (if_pos rfl)))))
  | spanRefinement i => exact absurd h (show ¬ _ from by unfold Lookup.sec; simp)
  | metricRefinement i => exact absurd h (show ¬ _ from by unfold Lookup.sec; simp)
  | eventRefinement i => exact absurd h (show ¬ _ from by unfold Lookup.sec; simp)
  | entityRefinement i => exact absurd h (show ¬ _ from by unfold Lookup.sec; simp)

theorem registryKind_iff {n i : Chars} {l : Lookup} :
    registryKind n i = some l ↔ l.sec = "registry".toList ∧ l.kind = n ∧ l.id = i := by
  refine ⟨registryKind_iff_mp, ?_⟩
  rintro ⟨h1, rfl, rfl⟩
  exact registryKind_iff_mpr h1

theorem refinementKind_iff_mp {n i : Chars} {l : Lookup} (h : refinementKind n i = some l) :
    l.sec = "refinements".toList ∧ l.kind = n ∧ l.id = i := by
  unfold refinementKind at h
  by_cases hspans : n = "spans".toList
  · rw [if_pos hspans] at h
    rw [← Option.some.inj h, hspans]
    exact ⟨rfl, rfl, rfl⟩
  rw [if_neg hspans] at h
  by_cases hmetrics : n = "metrics".toList
  · rw [if_pos hmetrics] at h
    rw [← Option.some.inj h, hmetrics]
    exact ⟨rfl, rfl, rfl⟩
  rw [if_neg hmetrics] at h
  by_cases hevents : n = "events".toList
  · rw [if_pos hevents] at h
    rw [← Option.some.inj h, hevents]
    exact ⟨rfl, rfl, rfl⟩
  rw [if_neg hevents] at h
  by_cases hentities : n = "entities".toList
  · rw [if_pos hentities] at h
    rw [← Option.some.inj h, hentities]
    exact ⟨rfl, rfl, rfl⟩
  rw [if_neg hentities] at h
  exact nomatch h

theorem refinementKind_iff_mpr {l : Lookup} (h : l.sec = "refinements".toList) : refinementKind l.kind l.id = some l := by
  cases l with
  | «attribute» i => exact absurd h (show ¬ _ from by unfold Lookup.sec; simp)
  | attributeGroup i => exact absurd h (show ¬ _ from by unfold Lookup.sec; simp)
  | span i => exact absurd h (show ¬ _ from by unfold Lookup.sec; simp)
  | metric i => exact absurd h (show ¬ _ from by unfold Lookup.sec; simp)
  | event i => exact absurd h (show ¬ _ from by unfold Lookup.sec; simp)
  | entity i => exact absurd h (show ¬ _ from by unfold Lookup.sec; simp)
  | spanRefinement i =>
    unfold refinementKind
    exact if_pos rfl
  | metricRefinement i =>
    unfold refinementKind
    exact (if_neg (show ¬ "metrics".toList = "spans".toList by simp)).trans
      (if_pos rfl)
  | eventRefinement i =>
    unfold refinementKind
    exact (if_neg (show ¬ "events".toList = "spans".toList by simp)).trans
      ((if_neg (show ¬ "events".toList = "metrics".toList by simp)).trans
      (if_pos rfl))
  | entityRefinement i =>
    unfold refinementKind
    exact (if_neg (show ¬ "entities".toList = "spans".toList by simp)).trans
      ((if_neg (show ¬ "entities".toList = "metrics".toList by simp)).trans
      ((if_neg (show ¬ "entities".toList = "events".toList by simp)).trans
      (if_pos rfl)))

theorem refinementKind_iff {n i : Chars} {l : Lookup} :
    refinementKind n i = some l ↔ l.sec = "refinements".toList ∧ l.kind = n ∧ l.id = i := by
  refine ⟨refinementKind_iff_mp, ?_⟩
  rintro ⟨h1, rfl, rfl⟩
  exact refinementKind_iff_mpr h1

theorem white_not_id {d : Char} (hw : isWhite d = true) : idChar d = false := by
  cases e : idChar d with
  | false => rfl
  | true =>
    exfalso
    rcases idChar_iff.1 e with h | h | rfl | rfl | rfl
    · have : 65 ≤ d.toNat ∧ d.toNat ≤ 122 := by
        simp only [Letter, Char.le_def, Char.toNat, UInt32.le_iff_toNat_le] at h ⊢
        revert h
        simp
        omega
      revert hw
      simp [isWhite]
      omega
    · have : 48 ≤ d.toNat ∧ d.toNat ≤ 57 := by
        simp only [Digit, Char.le_def, Char.toNat, UInt32.le_iff_toNat_le] at h ⊢
        revert h
        simp
      revert hw
      simp [isWhite]
      omega
    all_goals revert hw; decide

theorem kindLookup_sound {k : Chars → Chars → Option Lookup} {s r : Chars} {l : Lookup}
    (h : kindLookup k s = some (l, r)) : ∃ n i, s = n ++ '.' :: (i ++ r) ∧ IdText i ∧ k n i = some l := by
  unfold kindLookup at h
  split at h
  · simp at h
  · rename_i x hx
    have hx := partDot_sound (x := x.1) (r := x.2) hx
    split at h
    · simp at h
    · rename_i y hy
      obtain ⟨e, hid, _⟩ := (parseId_iff (t := y.1) (r := y.2)).1 hy
      rw [Option.map_eq_some_iff] at h
      obtain ⟨l', hk, e'⟩ := h
      simp at e'
      obtain ⟨rfl, rfl⟩ := e'
      exact ⟨x.1, y.1, by rw [hx, e], hid, hk⟩

theorem kind_token (l : Lookup) : ∃ c u, l.kind = c :: u ∧ isAlpha c = true ∧ ∀ d ∈ u, valChar d = true := by
  cases l <;> exact ⟨_, _, rfl, by decide, by decide⟩

theorem sec_token (l : Lookup) : ∃ c u, l.sec = c :: u ∧ isAlpha c = true ∧ ∀ d ∈ u, valChar d = true := by
  cases l <;> exact ⟨_, _, rfl, by decide, by decide⟩

/-- An id is read as a lookup exactly if it is written `section.kind.id`, perhaps with white space after it. -/
theorem lookup_iff {s : Chars} {l : Lookup} :
    idLookup s = some l ↔
      IdText l.id ∧ ∃ tail, s = l.sec ++ ['.'] ++ l.kind ++ ['.'] ++ l.id ++ tail ∧ Blank tail := by
  constructor
  · intro h
    unfold idLookup at h
    split at h
    · simp at h
    · rename_i x hx
      have hx := partDot_sound (x := x.1) (r := x.2) hx
      split at h
      · simp at h
      · rename_i y hy
        split at h
        · rename_i ht
          simp at h
          subst h
          have hblank := trim_eq_nil.1 ht
          by_cases h1 : x.1 = "registry".toList
          · rw [if_pos h1] at hy
            obtain ⟨n, i, e, hid, hk⟩ := kindLookup_sound (l := y.1) (r := y.2) hy
            obtain ⟨k1, rfl, rfl⟩ := registryKind_iff.1 hk
            exact ⟨hid, y.2, by rw [hx, h1, k1, e]; simp, hblank⟩
          · rw [if_neg h1] at hy
            by_cases h2 : x.1 = "refinements".toList
            · rw [if_pos h2] at hy
              obtain ⟨n, i, e, hid, hk⟩ := kindLookup_sound (l := y.1) (r := y.2) hy
              obtain ⟨k1, rfl, rfl⟩ := refinementKind_iff.1 hk
              exact ⟨hid, y.2, by rw [hx, h2, k1, e]; simp, hblank⟩
            · rw [if_neg h2] at hy
              exact nomatch hy
        · simp at h
  · rintro ⟨hid, tail, rfl, hb⟩
    have hend : ∀ c, tail.head? = some c → idChar c = false := by
      intro c hc
      cases tail with
      | nil => simp at hc
      | cons d t => simp at hc; subst hc; exact white_not_id (hb d (by simp))
    have hp := parseId_iff.2 ⟨rfl, hid, hend⟩
    have htrim := trim_eq_nil.2 hb
    obtain ⟨c, u, e1, hc, hu⟩ := sec_token l
    obtain ⟨c', u', e2, hc', hu'⟩ := kind_token l
    have p1 : partDot (l.sec ++ '.' :: (l.kind ++ '.' :: (l.id ++ tail))) = some (l.sec, l.kind ++ '.' :: (l.id ++ tail)) := by
      rw [e1]; exact partDot_complete hc hu
    have p2 : partDot (l.kind ++ '.' :: (l.id ++ tail)) = some (l.kind, l.id ++ tail) := by
      rw [e2]; exact partDot_complete hc' hu'
    rw [show l.sec ++ ['.'] ++ l.kind ++ ['.'] ++ l.id ++ tail = l.sec ++ '.' :: (l.kind ++ '.' :: (l.id ++ tail)) by simp]
    unfold idLookup
    rw [p1]
    simp only
    by_cases h1 : l.sec = "registry".toList
    · have := registryKind_iff.2 ⟨h1, rfl, rfl⟩
      rw [if_pos h1, kindLookup, p2]
      simp only [hp, this, Option.map_some]
      rw [if_pos htrim]
    · have h2 : l.sec = "refinements".toList := by
        cases l <;> first | rfl | (exact absurd rfl h1)
      have := refinementKind_iff.2 ⟨h2, rfl, rfl⟩
      rw [if_neg h1, if_pos h2, kindLookup, p2]
      simp only [hp, this, Option.map_some]
      rw [if_pos htrim]

example : idLookup "registry.metrics.http.server.duration".toList = some (.metric "http.server.duration".toList) := rfl

/-- No id is read in two ways. -/
example : idLookup "refinements.attributes.x".toList = none := rfl

end Verif.Markdown
