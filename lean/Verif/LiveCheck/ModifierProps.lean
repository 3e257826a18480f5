import Verif.LiveCheck.RunSpec
/-
Finding filters and level overrides (C23).
-/
namespace Verif.LiveCheck
open Verif.Util Verif.Semconv

/-! ### What rules mean -/

/-- A scope of a rule covers a finding about a sample: the signal type is that of the finding, and some pattern matches the
name of the sample.  A scope that is not given covers everything. -/
def Scoped (g : Globs) (signalType : Option String) (names : List String) (f : Finding) (s : SRef) : Prop :=
  (∀ t, signalType = some t → f.signalType = some t) ∧
  (names ≠ [] → ∃ n, s.sampleName = some n ∧ ∃ p ∈ names, g.isMatch p n = true)

/-- An override applies to a finding. -/
def Applies (g : Globs) (f : Finding) (s : SRef) (o : Override) : Prop :=
  Scoped g o.signalType o.sampleNames f s ∧ ∀ ids, o.ids = some ids → f.id ∈ ids

/-- A filter removes a finding: by its id, by its level, or by the name of the sample. -/
def Removes (g : Globs) (f : Finding) (s : SRef) (c : Filter) : Prop :=
  Scoped g c.signalType c.sampleNames f s ∧
  ((∃ ids, c.exclude = some ids ∧ f.id ∈ ids) ∨ (∃ l, c.minLevel = some l ∧ f.level < l) ∨
   ∃ n, s.sampleName = some n ∧ ∃ p ∈ c.excludeSamples, g.isMatch p n = true)

/-- The level of a finding after the overrides: that of the first that applies, if any. -/
def NewLevel (g : Globs) (f : Finding) (s : SRef) (os : List Override) (l : Level) : Prop :=
  (∃ pre o post, os = pre ++ o :: post ∧ Applies g f s o ∧ (∀ p ∈ pre, ¬ Applies g f s p) ∧ l = o.level) ∨
  ((∀ o ∈ os, ¬ Applies g f s o) ∧ l = f.level)

/-! ### The code does that -/

/-- A compiled set of patterns stands for the list. -/
def Compiled (g : Globs) (l : List String) (c : Option (List String)) : Prop :=
  c = (if l.isEmpty then none else some l) ∧ ∀ p ∈ l, g.valid p = true

theorem compile_ok {g : Globs} {l : List String} {c : Option (List String)} (h : compile g l = .ok c) : Compiled g l c := by
  unfold compile at h
  by_cases he : l.isEmpty
  · rw [if_pos he] at h
    refine ⟨by rw [if_pos he]; exact (Except.ok.inj h).symm, ?_⟩
    intro p hp
    rw [List.isEmpty_iff] at he
    rw [he] at hp; exact absurd hp (by simp)
  · rw [if_neg he] at h
    cases hf : l.find? (fun p => !g.valid p) with
    | some p => rw [hf] at h; exact nomatch h
    | none =>
      rw [hf] at h
      refine ⟨by rw [if_neg he]; exact (Except.ok.inj h).symm, ?_⟩
      intro p hp
      have := List.find?_eq_none.1 hf p hp
      simpa using this

theorem compile_error {g : Globs} {l : List String} {e : String} (h : compile g l = .error e) :
    e ∈ l ∧ g.valid e = false := by
  unfold compile at h
  by_cases he : l.isEmpty
  · rw [if_pos he] at h; exact nomatch h
  · rw [if_neg he] at h
    cases hf : l.find? (fun p => !g.valid p) with
    | none => rw [hf] at h; exact nomatch h
    | some p =>
      rw [hf] at h
      cases h
      have := List.find?_some hf
      exact ⟨List.mem_of_find?_eq_some hf, by simpa using this⟩

theorem scopeMatches_iff {g : Globs} {t : Option String} {names : List String} {c : Option (List String)}
    (hc : Compiled g names c) (f : Finding) (s : SRef) : scopeMatches g t c f s = true ↔ Scoped g t names f s := by
  obtain ⟨h, -⟩ := hc
  subst h
  unfold scopeMatches Scoped
  cases t with
  | none =>
    cases names with
    | nil => simp
    | cons x l => cases s.sampleName <;> simp [setMatch]
  | some t =>
    by_cases ht : f.signalType = some t
    · cases names with
      | nil => simp [ht]
      | cons x l => cases s.sampleName <;> simp [setMatch, ht]
    · simp [ht]

theorem isMatchedBy_iff (f : Finding) (o : Override) :
    isMatchedBy f o = true ↔ ∀ ids, o.ids = some ids → f.id ∈ ids := by
  unfold isMatchedBy
  cases o.ids with
  | none => simp
  | some ids => simp

theorem isExcludedBy_iff {g : Globs} {c : CFilter} (hc : Compiled g c.filter.excludeSamples c.excludeSamples)
    (f : Finding) (s : SRef) :
    isExcludedBy g f c s = true ↔
      ((∃ ids, c.filter.exclude = some ids ∧ f.id ∈ ids) ∨ (∃ l, c.filter.minLevel = some l ∧ f.level < l) ∨
       ∃ n, s.sampleName = some n ∧ ∃ p ∈ c.filter.excludeSamples, g.isMatch p n = true) := by
  unfold isExcludedBy
  rw [Bool.or_eq_true, Bool.or_eq_true, or_assoc]
  refine or_congr ?_ (or_congr ?_ ?_)
  · cases c.filter.exclude <;> simp
  · cases c.filter.minLevel <;> simp
  · rw [hc.1]
    cases hl : c.filter.excludeSamples with
    | nil => simp
    | cons x l =>
      simp only [List.isEmpty_cons, Bool.false_eq_true, if_false]
      cases s.sampleName <;> simp [setMatch]

theorem mapM_cons {α β : Type} (f : α → Except String β) (x : α) (l : List α) :
    (x :: l).mapM f = (match f x with
      | .error e => .error e
      | .ok y => match l.mapM f with
        | .error e => .error e
        | .ok ys => .ok (y :: ys)) := by
  rw [List.mapM_cons]
  cases f x with
  | error e => rfl
  | ok y =>
    show (do let ys ← l.mapM f; pure (y :: ys)) = _
    cases l.mapM f <;> rfl

theorem mapM_ok {α β : Type} {f : α → Except String β} {l : List α} {r : List β} (h : l.mapM f = .ok r) :
    Forall2 (fun a b => f a = .ok b) l r := by
  induction l generalizing r with
  | nil => cases h; exact .nil
  | cons x l ih =>
    rw [mapM_cons] at h
    cases hx : f x with
    | error e => rw [hx] at h; exact nomatch h
    | ok y =>
      rw [hx] at h
      dsimp only at h
      cases hl : l.mapM f with
      | error e => rw [hl] at h; exact nomatch h
      | ok ys =>
        rw [hl] at h
        cases h
        exact .cons hx (ih hl)

theorem mapM_error {α β : Type} {f : α → Except String β} {l : List α} {e : String} (h : l.mapM f = .error e) :
    ∃ a ∈ l, f a = .error e := by
  induction l with
  | nil => cases h
  | cons x l ih =>
    rw [mapM_cons] at h
    cases hx : f x with
    | error e' => rw [hx] at h; cases h; exact ⟨x, by simp, hx⟩
    | ok y =>
      rw [hx] at h
      dsimp only at h
      cases hl : l.mapM f with
      | error e' =>
        rw [hl] at h; cases h
        obtain ⟨a, ha, he⟩ := ih hl
        exact ⟨a, List.mem_cons_of_mem _ ha, he⟩
      | ok ys => rw [hl] at h; exact nomatch h

theorem compileFilter_ok {g : Globs} {f : Filter} {c : CFilter} (h : compileFilter g f = .ok c) :
    c.filter = f ∧ Compiled g f.sampleNames c.sampleNames ∧ Compiled g f.excludeSamples c.excludeSamples := by
  unfold compileFilter at h
  cases h1 : compile g f.sampleNames with
  | error e => rw [h1] at h; exact nomatch h
  | ok a =>
    cases h2 : compile g f.excludeSamples with
    | error e => rw [h1, h2] at h; exact nomatch h
    | ok b =>
      rw [h1, h2] at h
      have h : (⟨f, a, b⟩ : CFilter) = c := Except.ok.inj h
      subst h
      exact ⟨rfl, compile_ok h1, compile_ok h2⟩

theorem compileOverride_ok {g : Globs} {o : Override} {c : COverride} (h : compileOverride g o = .ok c) :
    c.rule = o ∧ Compiled g o.sampleNames c.sampleNames := by
  unfold compileOverride at h
  cases h1 : compile g o.sampleNames with
  | error e => rw [h1] at h; exact nomatch h
  | ok a =>
    rw [h1] at h
    have h : (⟨o, a⟩ : COverride) = c := Except.ok.inj h
    subst h
    exact ⟨rfl, compile_ok h1⟩

theorem applyOverrides_spec {g : Globs} {os : List Override} {cs : List COverride}
    (h : Forall2 (fun o c => compileOverride g o = .ok c) os cs) (f : Finding) (s : SRef) :
    ∃ l, NewLevel g f s os l ∧ applyOverrides g f s cs = { f with level := l } := by
  induction h with
  | nil => exact ⟨f.level, .inr ⟨by simp, rfl⟩, rfl⟩
  | cons hc _ ih =>
    rename_i o c os cs _
    obtain ⟨hr, hn⟩ := compileOverride_ok hc
    have hap : (scopeMatches g c.rule.signalType c.sampleNames f s && isMatchedBy f c.rule) = true ↔ Applies g f s o := by
      rw [Bool.and_eq_true, hr, scopeMatches_iff hn, isMatchedBy_iff]; rfl
    rw [applyOverrides]
    by_cases ha : Applies g f s o
    · rw [if_pos (hap.2 ha), hr]
      exact ⟨o.level, .inl ⟨[], o, os, rfl, ha, by simp, rfl⟩, rfl⟩
    · rw [if_neg (fun h => ha (hap.1 h))]
      obtain ⟨l, hl, he⟩ := ih
      refine ⟨l, ?_, he⟩
      rcases hl with ⟨pre, o', post, h1, h2, h3, h4⟩ | ⟨h1, h2⟩
      · refine .inl ⟨o :: pre, o', post, by rw [h1]; rfl, h2, ?_, h4⟩
        intro p hp
        rcases List.mem_cons.1 hp with rfl | hp
        · exact ha
        · exact h3 p hp
      · refine .inr ⟨?_, h2⟩
        intro p hp
        rcases List.mem_cons.1 hp with rfl | hp
        · exact ha
        · exact h1 p hp

/-- At most one level comes out of the overrides. -/
theorem newLevel_unique {g : Globs} {f : Finding} {s : SRef} {os : List Override} {l l' : Level}
    (h : NewLevel g f s os l) (h' : NewLevel g f s os l') : l = l' := by
  rcases h with ⟨pre, o, post, h1, h2, h3, h4⟩ | ⟨h1, h2⟩
  · rcases h' with ⟨pre', o', post', g1, g2, g3, g4⟩ | ⟨g1, g2⟩
    · rw [h1] at g1
      rcases List.append_eq_append_iff.1 g1 with ⟨m, e1, e2⟩ | ⟨m, e1, e2⟩
      · cases m with
        | nil => simp at e2; rw [h4, g4, e2.1]
        | cons x m =>
          simp at e2
          exact absurd (e2.1 ▸ h2) (g3 x (by rw [e1]; simp))
      · cases m with
        | nil => simp at e2; rw [h4, g4, e2.1]
        | cons x m =>
          simp at e2
          exact absurd (e2.1 ▸ g2) (h3 x (by rw [e1]; simp))
    · exact absurd h2 (g1 o (by rw [h1]; simp))
  · rcases h' with ⟨pre', o', post', g1, g2, g3, g4⟩ | ⟨g1, g2⟩
    · exact absurd g2 (h1 o' (by rw [g1]; simp))
    · rw [h2, g2]

/-- C23. With rules that were accepted, a finding gets the level of the first override that applies; it is dropped exactly if a
filter removes it with that level, and otherwise reported with nothing else changed. -/
theorem modifier_exact {g : Globs} {filters : List Filter} {overrides : List Override} {m : Option Modifier}
    (h : fromRules g filters overrides = .ok m) (f : Finding) (s : SRef) :
    ∃ l, NewLevel g f s overrides l ∧
      (reported m s f = none ↔ ∃ c ∈ filters, Removes g { f with level := l } s c) ∧
      ∀ f', reported m s f = some f' → f' = { f with level := l } := by
  unfold fromRules at h
  by_cases he : (filters.isEmpty && overrides.isEmpty) = true
  · rw [if_pos he] at h
    rw [Bool.and_eq_true, List.isEmpty_iff, List.isEmpty_iff] at he
    cases h
    refine ⟨f.level, .inr ⟨by rw [he.2]; simp, rfl⟩, ?_, ?_⟩
    · rw [he.1]; simp [reported]
    · intro f' hf'; exact (Option.some.inj hf').symm
  · rw [if_neg he] at h
    cases h1 : filters.mapM (compileFilter g) with
    | error e => rw [h1] at h; exact nomatch h
    | ok fs =>
      cases h2 : overrides.mapM (compileOverride g) with
      | error e => rw [h1, h2] at h; exact nomatch h
      | ok os =>
        rw [h1, h2] at h
        have h : (some ⟨os, fs, g⟩ : Option Modifier) = m := Except.ok.inj h
        subst h
        obtain ⟨l, hl, ha⟩ := applyOverrides_spec (mapM_ok h2) f s
        refine ⟨l, hl, ?_, ?_⟩
        · simp only [reported, Modifier.apply, ha]
          have key : (fs.any fun c => scopeMatches g c.filter.signalType c.sampleNames { f with level := l } s &&
              isExcludedBy g { f with level := l } c s) = true ↔ ∃ c ∈ filters, Removes g { f with level := l } s c := by
            have hf := mapM_ok h1
            have one : ∀ {a : Filter} {b : CFilter}, compileFilter g a = .ok b →
                ((scopeMatches g b.filter.signalType b.sampleNames { f with level := l } s &&
                  isExcludedBy g { f with level := l } b s) = true ↔ Removes g { f with level := l } s a) := by
              intro a b hab
              obtain ⟨e1, e2, e3⟩ := compileFilter_ok hab
              rw [Bool.and_eq_true, e1, scopeMatches_iff e2, isExcludedBy_iff (by rw [e1]; exact e3), e1]
              rfl
            rw [List.any_eq_true]
            constructor
            · intro ⟨b, hb, hx⟩
              obtain ⟨a, ha, hab⟩ := hf.mem_right hb
              exact ⟨a, ha, (one hab).1 hx⟩
            · intro ⟨a, ha, hx⟩
              obtain ⟨b, hb, hab⟩ := hf.mem_left ha
              exact ⟨b, hb, (one hab).2 hx⟩
          rw [← key]
          split <;> simp_all
        · intro f' hf'
          simp only [reported, Modifier.apply, ha] at hf'
          split at hf'
          · exact nomatch hf'
          · exact (Option.some.inj hf').symm

/-- C23. Rules are rejected exactly if they hold a pattern that is not well formed, and the error names one. -/
theorem rules_rejected (g : Globs) (filters : List Filter) (overrides : List Override) :
    (∀ e, fromRules g filters overrides = .error e → g.valid e = false ∧
      ((∃ c ∈ filters, e ∈ c.sampleNames ∨ e ∈ c.excludeSamples) ∨ ∃ o ∈ overrides, e ∈ o.sampleNames)) ∧
    (∀ m, fromRules g filters overrides = .ok m →
      (∀ c ∈ filters, ∀ p, p ∈ c.sampleNames ∨ p ∈ c.excludeSamples → g.valid p = true) ∧
      ∀ o ∈ overrides, ∀ p ∈ o.sampleNames, g.valid p = true) := by
  refine ⟨?_, ?_⟩
  · intro e h
    unfold fromRules at h
    by_cases he : (filters.isEmpty && overrides.isEmpty) = true
    · rw [if_pos he] at h; exact nomatch h
    · rw [if_neg he] at h
      cases h1 : filters.mapM (compileFilter g) with
      | error e' =>
        rw [h1] at h
        have h : e' = e := Except.error.inj h
        subst h
        obtain ⟨c, hc, hce⟩ := mapM_error h1
        unfold compileFilter at hce
        cases h3 : compile g c.sampleNames with
        | error e2 =>
          rw [h3] at hce
          have h : e2 = e' := Except.error.inj hce
          subst h
          exact ⟨(compile_error h3).2, .inl ⟨c, hc, .inl (compile_error h3).1⟩⟩
        | ok a =>
          cases h4 : compile g c.excludeSamples with
          | error e2 =>
            rw [h3, h4] at hce
            have h : e2 = e' := Except.error.inj hce
            subst h
            exact ⟨(compile_error h4).2, .inl ⟨c, hc, .inr (compile_error h4).1⟩⟩
          | ok b => rw [h3, h4] at hce; exact nomatch hce
      | ok fs =>
        cases h2 : overrides.mapM (compileOverride g) with
        | ok os => rw [h1, h2] at h; exact nomatch h
        | error e' =>
          rw [h1, h2] at h
          have h : e' = e := Except.error.inj h
          subst h
          obtain ⟨o, ho, hoe⟩ := mapM_error h2
          unfold compileOverride at hoe
          cases h3 : compile g o.sampleNames with
          | error e2 =>
            rw [h3] at hoe
            have h : e2 = e' := Except.error.inj hoe
            subst h
            exact ⟨(compile_error h3).2, .inr ⟨o, ho, (compile_error h3).1⟩⟩
          | ok a => rw [h3] at hoe; exact nomatch hoe
  · intro m h
    unfold fromRules at h
    by_cases he : (filters.isEmpty && overrides.isEmpty) = true
    · rw [Bool.and_eq_true, List.isEmpty_iff, List.isEmpty_iff] at he
      rw [he.1, he.2]; simp
    · rw [if_neg he] at h
      cases h1 : filters.mapM (compileFilter g) with
      | error e => rw [h1] at h; exact nomatch h
      | ok fs =>
        cases h2 : overrides.mapM (compileOverride g) with
        | error e => rw [h1, h2] at h; exact nomatch h
        | ok os =>
          refine ⟨?_, ?_⟩
          · intro c hc p hp
            obtain ⟨b, -, hb⟩ := (mapM_ok h1).mem_left hc
            obtain ⟨-, e2, e3⟩ := compileFilter_ok hb
            rcases hp with hp | hp
            · exact e2.2 p hp
            · exact e3.2 p hp
          · intro o ho p hp
            obtain ⟨b, -, hb⟩ := (mapM_ok h2).mem_left ho
            exact (compileOverride_ok hb).2.2 p hp

/-- Patterns that match the same text only, and no pattern with a bracket. -/
def sameText : Globs := { valid := fun p => !p.toList.contains '[', isMatch := fun p n => decide (p = n) }

/-- Two overrides match, the first wins; the minimum level is tested against the new level; the finding about `x` is kept,
the one about `y` is dropped by name, and a bad pattern is rejected. -/
example :
    let fs : List Filter := [{ minLevel := some .violation }, { excludeSamples := ["y"], signalType := some "log" }]
    let os : List Override := [{ ids := some ["a"], level := .violation, sampleNames := ["x", "y"] }, { level := .information }]
    ∃ m, fromRules sameText fs os = .ok m ∧
      (reported m (.attribute { name := "x" }) { id := "a", message := "", level := .improvement, signalType := some "log" }
        = some { id := "a", message := "", level := .violation, signalType := some "log" }) ∧
      (reported m (.attribute { name := "y" }) { id := "a", message := "", level := .improvement, signalType := some "log" }
        = none) ∧
      (reported m (.attribute { name := "y" }) { id := "a", message := "", level := .improvement, signalType := some "span" }
        = some { id := "a", message := "", level := .violation, signalType := some "span" }) ∧
      (reported m (.attribute { name := "x" }) { id := "b", message := "", level := .violation } = none) :=
  ⟨_, rfl, by decide, by decide, by decide, by decide⟩

example : fromRules sameText [{ sampleNames := ["a", "[b"] }] [] = .error "[b" := rfl

end Verif.LiveCheck
