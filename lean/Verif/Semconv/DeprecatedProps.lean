import Verif.Semconv.Deprecated
/-
C44 and C56: deprecations survive being written and read.
-/
namespace Verif.Semconv
open Verif.Util

/-- What a user sees of a deprecation: the reason, the new name if it was renamed, and the explanation, which for a
rename without a note is derived from the new name. -/
def Deprecated.shown : Deprecated → String × Option String × String
  | .renamed to none => ("renamed", some to, "Replaced by `" ++ to ++ "`.")
  | .renamed to (some n) => ("renamed", some to, n)
  | .obsoleted n => ("obsoleted", none, n)
  | .uncategorized n => ("uncategorized", none, n)
  | .unspecified n => ("unspecified", none, n)

/-- C44: a resolved schema, and a v2 definition, reads a written deprecation back as one that shows the same, and that
is written the same way again. -/
theorem reload_resolved (d : Deprecated) :
    ∃ d', readResolved d.write = some d' ∧ d'.shown = d.shown ∧ d'.write = d.write := by
  cases d with
  | renamed to n => cases n with
    | none => exact ⟨.renamed to (some _), rfl, rfl, rfl⟩
    | some n => exact ⟨.renamed to (some n), rfl, rfl, rfl⟩
  | obsoleted n => exact ⟨.obsoleted n, rfl, rfl, rfl⟩
  | uncategorized n => exact ⟨.uncategorized n, rfl, rfl, rfl⟩
  | unspecified n => exact ⟨.unspecified n, rfl, rfl, rfl⟩

/-- C44: a deprecation that is not a rename without a note is read back as itself. -/
theorem reload_resolved_same (d : Deprecated) (h : ∀ to, d ≠ .renamed to none) : readResolved d.write = some d := by
  cases d with
  | renamed to n => cases n with
    | none => exact absurd rfl (h to)
    | some n => rfl
  | obsoleted n => rfl
  | uncategorized n => rfl
  | unspecified n => rfl

/-- C44: what is written always holds the reason and the explanation, and the new name exactly for renames. -/
theorem write_complete (d : Deprecated) : ∃ fields, d.write = .map fields ∧
    textField fields "reason" = some d.shown.1 ∧ textField fields "renamed_to" = d.shown.2.1 ∧
    textField fields "note" = some d.shown.2.2 := by
  cases d with
  | renamed to n => cases n with
    | none => exact ⟨_, rfl, rfl, rfl, rfl⟩
    | some n => exact ⟨_, rfl, rfl, rfl, rfl⟩
  | obsoleted n => exact ⟨_, rfl, rfl, rfl, rfl⟩
  | uncategorized n => exact ⟨_, rfl, rfl, rfl, rfl⟩
  | unspecified n => exact ⟨_, rfl, rfl, rfl, rfl⟩

/-- C44: two deprecations written alike show the same: nothing a user sees is lost in writing. -/
theorem write_injective (d d' : Deprecated) (h : d.write = d'.write) : d.shown = d'.shown := by
  obtain ⟨f, hf, h1, h2, h3⟩ := write_complete d
  obtain ⟨f', hf', h1', h2', h3'⟩ := write_complete d'
  rw [hf, hf'] at h
  have hff : f = f' := DDoc.map.inj h
  subst hff
  have e1 : d.shown.1 = d'.shown.1 := Option.some.inj (h1.symm.trans h1')
  have e2 : d.shown.2.1 = d'.shown.2.1 := h2.symm.trans h2'
  have e3 : d.shown.2.2 = d'.shown.2.2 := Option.some.inj (h3.symm.trans h3')
  exact Prod.ext e1 (Prod.ext e2 e3)

example : readResolved (Deprecated.renamed "b" none).write = some (.renamed "b" (some "Replaced by `b`.")) := by decide

/-- C44: it is not the value itself that is read back: a rename without a note comes back with one, so two schemas that
differ only by having been published once compare as different. -/
theorem reload_equal_refuted : ∃ d : Deprecated, readResolved d.write ≠ some d :=
  ⟨.renamed "b" none, by decide⟩

/-- C56 (part): the reader of enum members takes back every deprecation except the unstructured one.
Missing: `unspecified`, see `reload_source_refuted`. -/
theorem reload_source_partial (d : Deprecated) (h : ∀ n, d ≠ .unspecified n) :
    ∃ d', readSource d.write = some d' ∧ d'.shown = d.shown ∧ d'.write = d.write := by
  cases d with
  | renamed to n => cases n with
    | none => exact ⟨.renamed to (some _), rfl, rfl, rfl⟩
    | some n => exact ⟨.renamed to (some n), rfl, rfl, rfl⟩
  | obsoleted n => exact ⟨.obsoleted n, rfl, rfl, rfl⟩
  | uncategorized n => exact ⟨.uncategorized n, rfl, rfl, rfl⟩
  | unspecified n => exact absurd rfl (h n)

example : ∀ n, Deprecated.renamed "b" none ≠ .unspecified n := by intro n h; cases h

/-- C56: the old form, a bare text, is read as an unstructured deprecation of that text, but what is written for it
cannot be read again. -/
theorem reload_source_refuted : ∀ s, ∃ d, readSource (.text s) = some d ∧ d.shown = ("unspecified", none, s) ∧
    readSource d.write = none := fun s => ⟨.unspecified s, rfl, rfl, rfl⟩

/-- C44: a definition gives a reason that exists, or is a bare text; `renamed` needs the new name. -/
theorem readSource_ok (fields : List (String × DVal)) (d : Deprecated) (h : readSource (.map fields) = some d) :
    (∀ p ∈ fields, p.1 = "reason" ∨ p.1 = "renamed_to" ∨ p.1 = "note") ∧
    (d.shown.1 = "renamed" ∨ d.shown.1 = "obsoleted" ∨ d.shown.1 = "uncategorized") := by
  unfold readSource at h
  dsimp only at h
  cases hf : readFields fields (none, none, none) with
  | none => rw [hf] at h; cases h
  | some f =>
    rw [hf] at h
    refine ⟨?_, ?_⟩
    · have : ∀ (l : List (String × DVal)) acc r, readFields l acc = some r →
          ∀ p ∈ l, p.1 = "reason" ∨ p.1 = "renamed_to" ∨ p.1 = "note" := by
        intro l
        induction l with
        | nil => intro _ _ _ p hp; cases hp
        | cons q l ih =>
          obtain ⟨k, v⟩ := q
          intro acc r hr p hp
          unfold readFields at hr
          by_cases h1 : k = "reason"
          · rw [if_pos h1] at hr
            cases v with
            | other => cases hr
            | text s =>
              rcases List.mem_cons.1 hp with rfl | hp
              · exact .inl h1
              · exact ih _ _ hr p hp
          · rw [if_neg h1] at hr
            by_cases h2 : k = "renamed_to"
            · rw [if_pos h2] at hr
              cases v with
              | other => cases hr
              | text s =>
                rcases List.mem_cons.1 hp with rfl | hp
                · exact .inr (.inl h2)
                · exact ih _ _ hr p hp
            · rw [if_neg h2] at hr
              by_cases h3 : k = "note"
              · rw [if_pos h3] at hr
                cases v with
                | other => cases hr
                | text s =>
                  rcases List.mem_cons.1 hp with rfl | hp
                  · exact .inr (.inr h3)
                  · exact ih _ _ hr p hp
              · rw [if_neg h3] at hr; cases hr
      exact this fields _ _ hf
    · dsimp only at h
      by_cases h1 : f.1 = some "renamed"
      · rw [if_pos h1] at h
        cases ht : f.2.1 with
        | none => rw [ht] at h; cases h
        | some to =>
          rw [ht] at h
          have := Option.some.inj h
          subst this
          left
          cases f.2.2 <;> rfl
      · rw [if_neg h1] at h
        by_cases h2 : f.1 = some "obsoleted"
        · rw [if_pos h2] at h; have := Option.some.inj h; subst this; exact .inr (.inl rfl)
        · rw [if_neg h2] at h
          by_cases h3 : f.1 = some "uncategorized"
          · rw [if_pos h3] at h; have := Option.some.inj h; subst this; exact .inr (.inr rfl)
          · rw [if_neg h3] at h; cases h

example : readSource (.map [("note", .text "n"), ("reason", .text "obsoleted")]) = some (.obsoleted "n") := by decide

end Verif.Semconv
