import Verif.Forge.PromProps
/-
The template filters for Prometheus names: crates/weaver_forge/src/extensions/otel.rs:229-303. The names themselves are in
`Verif.Forge.Prom`. A value of the template is here a text or something else; a missing attribute is something else, too.
-/
namespace Verif.Forge
open Verif.Util

/-- An optional named argument: missing (or `none`), of the right type, or of another type. -/
inductive Kwarg (α : Type) where
  | missing
  | given (a : α)
  | wrongType
  deriving DecidableEq

/-- The errors of the filters. -/
inductive PromError where
  | wrongType
  | noStrategy
  | badStrategy (s : String)
  | notText (key : String)
  deriving DecidableEq

/-- The three attributes of the metric; `none` if it is not a text. -/
structure PromMetric where
  name : Option Chars
  unit : Option Chars
  instrument : Option String

/-- otel.rs:229-240 `parse_translation_strategy`. -/
def parseStrategy (s : String) : Except PromError Strategy :=
  match s with
  | "NoTranslation" => .ok .noTranslation
  | "UnderscoreEscapingWithoutSuffixes" => .ok .escapedWithoutSuffixes
  | "NoUTF8EscapingWithSuffixes" => .ok .utf8WithSuffixes
  | "UnderscoreEscapingWithSuffixes" => .ok .escapedWithSuffixes
  | _ => .error (.badStrategy s)

/-- `kwargs.get::<Option<_>>`. -/
def Kwarg.get {α : Type} : Kwarg α → Except PromError (Option α)
  | .missing => .ok none
  | .given a => .ok (some a)
  | .wrongType => .error .wrongType

/-- otel.rs:285-293 `get_attr`. -/
def textAttr {α : Type} (key : String) : Option α → Except PromError α
  | some a => .ok a
  | none => .error (.notText key)

/-- otel.rs:250-252, 278-280: the three attributes in their order. -/
def PromMetric.texts (m : PromMetric) : Except PromError (Chars × Chars × String) := do
  let name ← textAttr "metric_name" m.name
  let unit ← textAttr "unit" m.unit
  let instrument ← textAttr "instrument" m.instrument
  pure (name, unit, instrument)

/-- otel.rs:242-265 `prom_names`. -/
def promNamesFilter (alnum : Char → Bool) (strategy : Kwarg String) (expand : Kwarg Bool) (m : PromMetric) :
    Except PromError (List Chars) := do
  let st ← match ← strategy.get with
    | none => pure none
    | some s => some <$> parseStrategy s
  let ex ← expand.get
  let (name, unit, instrument) ← m.texts
  pure (promNames alnum st (ex.getD false) name unit instrument)

/-- otel.rs:267-283 `prom_name`. -/
def promNameFilter (alnum : Char → Bool) (strategy : Kwarg String) (m : PromMetric) : Except PromError Chars := do
  match ← strategy.get with
  | none => .error .noStrategy
  | some s =>
    let st ← parseStrategy s
    let (name, unit, instrument) ← m.texts
    pure (promName alnum st name unit instrument)

/-- otel.rs:295-302 `prom_unit`. -/
def promUnitFilter (m : PromMetric) : Except PromError Chars :=
  match m.unit with
  | none => .error (.notText "unit")
  | some u => .ok ((unitIn promUnits u).getD u)

/-! ## Specification -/

/-- The names of the strategies, as the documentation of Prometheus gives them. -/
def Strategy.text : Strategy → String
  | .noTranslation => "NoTranslation"
  | .escapedWithoutSuffixes => "UnderscoreEscapingWithoutSuffixes"
  | .utf8WithSuffixes => "NoUTF8EscapingWithSuffixes"
  | .escapedWithSuffixes => "UnderscoreEscapingWithSuffixes"

/-! ## Properties -/

/-- The four names, and no others, are strategies. -/
theorem parseStrategy_iff (s : String) (st : Strategy) : parseStrategy s = .ok st ↔ s = st.text := by
  constructor
  · intro h
    unfold parseStrategy at h
    split at h <;> first | (cases h; rfl) | cases h
  · rintro rfl
    cases st <;> rfl

theorem parseStrategy_error (s : String) (e : PromError) : parseStrategy s = .error e ↔
    e = .badStrategy s ∧ ∀ st : Strategy, s ≠ st.text := by
  constructor
  · intro h
    refine ⟨?_, fun st hs => ?_⟩
    · unfold parseStrategy at h
      split at h <;> first | (cases h; rfl) | cases h
    · rw [(parseStrategy_iff s st).mpr hs] at h; cases h
  · rintro ⟨rfl, h⟩
    cases hp : parseStrategy s with
    | ok st => exact absurd ((parseStrategy_iff s st).mp hp) (h st)
    | error e =>
      unfold parseStrategy at hp
      split at hp <;> first | (cases hp; rfl) | cases hp

theorem texts_iff (m : PromMetric) (n u : Chars) (i : String) : m.texts = .ok (n, u, i) ↔
    m.name = some n ∧ m.unit = some u ∧ m.instrument = some i := by
  obtain ⟨a, b, c⟩ := m
  cases a <;> cases b <;> cases c <;> simp [PromMetric.texts, textAttr, bind, Except.bind, pure, Except.pure]

/-- `prom_name` gives a name exactly for a metric with a name, a unit and an instrument and one of the four strategies. -/
theorem promNameFilter_iff (alnum : Char → Bool) (k : Kwarg String) (m : PromMetric) (r : Chars) :
    promNameFilter alnum k m = .ok r ↔ ∃ st n u i, k = .given (Strategy.text st) ∧ m.name = some n ∧ m.unit = some u ∧
      m.instrument = some i ∧ r = promName alnum st n u i := by
  cases k with
  | missing => simp [promNameFilter, Kwarg.get, bind, Except.bind]
  | wrongType => simp [promNameFilter, Kwarg.get, bind, Except.bind]
  | given s =>
    simp only [promNameFilter, Kwarg.get, bind, Except.bind, pure, Except.pure, Kwarg.given.injEq]
    cases hs : parseStrategy s with
    | error e =>
      simp only [reduceCtorEq, false_iff]
      rintro ⟨st, n, u, i, h, _⟩
      rw [(parseStrategy_iff s st).mpr h] at hs; cases hs
    | ok st =>
      have h1 := (parseStrategy_iff s st).mp hs
      cases ht : m.texts with
      | error e =>
        simp only [reduceCtorEq, false_iff]
        rintro ⟨_, n, u, i, _, h2, h3, h4, _⟩
        rw [(texts_iff m n u i).mpr ⟨h2, h3, h4⟩] at ht; cases ht
      | ok x =>
        obtain ⟨n, u, i⟩ := x
        have ⟨h2, h3, h4⟩ := (texts_iff m n u i).mp ht
        simp only [Except.ok.injEq]
        constructor
        · rintro rfl; exact ⟨st, n, u, i, h1, h2, h3, h4, rfl⟩
        · rintro ⟨st', n', u', i', h, k2, k3, k4, rfl⟩
          rw [(parseStrategy_iff s st').mpr h] at hs
          cases hs
          rw [h2] at k2; rw [h3] at k3; rw [h4] at k4
          cases k2; cases k3; cases k4; rfl

/-- `prom_names` gives names exactly for a metric with a name, a unit and an instrument, with no strategy or one of the four. -/
theorem promNamesFilter_iff (alnum : Char → Bool) (k : Kwarg String) (x : Kwarg Bool) (m : PromMetric) (r : List Chars) :
    promNamesFilter alnum k x m = .ok r ↔ ∃ st ex n u i, (k = .missing ∧ st = none ∨ ∃ s, k = .given (Strategy.text s) ∧ st = some s) ∧
      (x = .missing ∧ ex = false ∨ x = .given ex) ∧ m.name = some n ∧ m.unit = some u ∧
      m.instrument = some i ∧ r = promNames alnum st ex n u i := by
  have core : ∀ st, (do
      let ex ← x.get
      let (name, unit, instrument) ← m.texts
      pure (promNames alnum st (ex.getD false) name unit instrument) : Except PromError (List Chars)) = .ok r ↔
      ∃ ex n u i, (x = .missing ∧ ex = false ∨ x = .given ex) ∧ m.name = some n ∧ m.unit = some u ∧
      m.instrument = some i ∧ r = promNames alnum st ex n u i := by
    intro st
    cases ht : m.texts with
    | error e =>
      have : ∀ n u i, ¬ (m.name = some n ∧ m.unit = some u ∧ m.instrument = some i) := fun n u i h => by
        rw [(texts_iff m n u i).mpr h] at ht; cases ht
      constructor
      · intro h; cases x <;> simp [Kwarg.get, bind, Except.bind] at h
      · rintro ⟨_, n, u, i, _, h2, h3, h4, _⟩; exact absurd ⟨h2, h3, h4⟩ (this n u i)
    | ok y =>
      obtain ⟨n, u, i⟩ := y
      have ⟨h2, h3, h4⟩ := (texts_iff m n u i).mp ht
      rw [h2, h3, h4]
      cases x <;> simp [Kwarg.get, bind, Except.bind, pure, Except.pure, eq_comm]
  cases k with
  | missing =>
    refine Iff.trans (b := _) (by exact Iff.rfl) ((core none).trans ?_)
    simp
  | wrongType => simp [promNamesFilter, Kwarg.get, bind, Except.bind]
  | given s =>
    cases hs : parseStrategy s with
    | error e =>
      have hno := ((parseStrategy_error s e).mp hs).2
      simp only [promNamesFilter, Kwarg.get, bind, Except.bind, hs, Functor.map, Except.map, reduceCtorEq, false_iff]
      rintro ⟨st, _, _, _, _, h | ⟨s', h, _⟩, _⟩
      · cases h.1
      · exact hno s' (Kwarg.given.inj h)
    | ok st =>
      have h1 := (parseStrategy_iff s st).mp hs
      have e : promNamesFilter alnum (.given s) x m = (do
          let ex ← x.get
          let (name, unit, instrument) ← m.texts
          pure (promNames alnum (some st) (ex.getD false) name unit instrument) : Except PromError (List Chars)) := by
        simp [promNamesFilter, Kwarg.get, bind, Except.bind, hs, Functor.map, Except.map]
      rw [e]
      refine (core (some st)).trans ?_
      constructor
      · rintro ⟨ex, n, u, i, h⟩
        exact ⟨some st, ex, n, u, i, .inr ⟨st, by rw [h1], rfl⟩, h⟩
      · rintro ⟨st', ex, n, u, i, h | ⟨s', h, rfl⟩, hr⟩
        · cases h.1
        · have : parseStrategy s = .ok s' := (parseStrategy_iff s s').mpr (Kwarg.given.inj h)
          rw [hs] at this; cases this
          exact ⟨ex, n, u, i, hr⟩

/-- **Every name that `prom_name` gives for some strategy is among those of `prom_names` without one, and the only one of
`prom_names` with that strategy**, when the series of histograms and summaries are not asked for. -/
theorem promName_among (alnum : Char → Bool) (k : Kwarg String) (m : PromMetric) (r : Chars) (h : promNameFilter alnum k m = .ok r) :
    promNamesFilter alnum k .missing m = .ok [r] ∧
      ∀ x, x ≠ .wrongType → ∃ l, promNamesFilter alnum .missing x m = .ok l ∧ r ∈ l := by
  obtain ⟨st, n, u, i, rfl, h2, h3, h4, rfl⟩ := (promNameFilter_iff ..).mp h
  refine ⟨(promNamesFilter_iff ..).mpr ⟨some st, false, n, u, i, .inr ⟨st, rfl, rfl⟩, .inl ⟨rfl, rfl⟩, h2, h3, h4, ?_⟩, ?_⟩
  · cases st <;> simp [promNames, variants, promName, uniq, expandName]
  · intro x hx
    cases x with
    | wrongType => exact absurd rfl hx
    | missing =>
      exact ⟨_, (promNamesFilter_iff ..).mpr ⟨none, false, n, u, i, .inl ⟨rfl, rfl⟩, .inl ⟨rfl, rfl⟩, h2, h3, h4, rfl⟩,
        (promName_listed ..).2⟩
    | given b =>
      exact ⟨_, (promNamesFilter_iff ..).mpr ⟨none, b, n, u, i, .inl ⟨rfl, rfl⟩, .inr rfl, h2, h3, h4, rfl⟩,
        (promName_listed ..).2⟩

/-- Without a strategy, `prom_name` is an error. -/
theorem promNameFilter_missing (alnum : Char → Bool) (m : PromMetric) : promNameFilter alnum .missing m = .error .noStrategy := rfl

/-- `prom_unit` translates the units of the table, and gives any other as it is. -/
theorem promUnitFilter_iff (m : PromMetric) (r : Chars) : promUnitFilter m = .ok r ↔ ∃ u, m.unit = some u ∧
    (unitIn promUnits u = some r ∨ unitIn promUnits u = none ∧ r = u) := by
  unfold promUnitFilter
  cases hu : m.unit with
  | none => simp
  | some u =>
    cases ht : unitIn promUnits u <;> simp [ht, eq_comm]

example : (promUnitFilter ⟨none, some "By".toList, none⟩).toOption = some "bytes".toList ∧
    (promUnitFilter ⟨none, some "{request}".toList, none⟩).toOption = some "{request}".toList := by decide +kernel

example : (promNameFilter (fun c => c.isAlphanum) (.given "UnderscoreEscapingWithSuffixes")
    ⟨some "http.requests".toList, some "By".toList, some "counter"⟩).toOption = some "http_requests_bytes_total".toList := by
  decide +kernel

end Verif.Forge
