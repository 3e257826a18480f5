import Verif.Macro.Props
/-
The names that the derive macro exports: the test that settings and flags correspond, and the name of the struct.
-/
namespace Verif.Macro
open Verif.Util

/-! ### C266: the test of the names -/

/-- Settings and flags correspond: each setting that is not for the file only is written by a flag, and each flag that is not
excluded writes to a setting. Specification. -/
def Correspond (group : Kind → List Chars) (c : Command) (leaves : List (List Chars)) (cli : List Chars) : Prop :=
  (∀ leaf ∈ leaves, joinUnderscore leaf ∉ configOnlyFields c →
    ∃ f a, (f, FieldKind.config a) ∈ c.fields ∧ dest f.name a = leaf ∧ f.name ∈ cli ∧ f.name ∉ excludedArgs group c) ∧
  (∀ n ∈ cli, n ∉ excludedArgs group c →
    ∃ f a, (f, FieldKind.config a) ∈ c.fields ∧ f.name = n ∧ dest f.name a ∈ leaves ∧
      joinUnderscore (dest f.name a) ∉ configOnlyFields c)

/-- Fields whose places are written in the same way have the same name. -/
def DistinctFlat (c : Command) : Prop :=
  ∀ f a g b, (f, FieldKind.config a) ∈ c.fields → (g, FieldKind.config b) ∈ c.fields →
    joinUnderscore (dest f.name a) = joinUnderscore (dest g.name b) → f.name = g.name

theorem mem_fieldMappings {c : Command} {x n : Chars} : (x, n) ∈ fieldMappings c ↔
    ∃ f a, (f, FieldKind.config a) ∈ c.fields ∧ a.path ≠ none ∧ joinUnderscore (dest f.name a) = x ∧ f.name = n ∧ x ≠ n := by
  unfold fieldMappings
  rw [List.mem_filterMap]
  constructor
  · rintro ⟨⟨f, k⟩, hm, h⟩
    cases k with
    | config a =>
      cases hp : a.path with
      | none => simp [hp] at h
      | some p =>
        simp only [hp] at h
        split at h
        · cases h
        · rename_i hne
          injection h with h
          injection h with h1 h2
          have hd : dest f.name a = segments p := by simp [dest, hp]
          refine ⟨f, a, hm, by simp [hp], by rw [hd]; exact h1, h2, ?_⟩
          rw [← h1, ← h2]; exact hne
    | shared k => simp at h
    | cliOnly => simp at h
  · rintro ⟨f, a, hm, hp, h1, h2, h3⟩
    refine ⟨(f, .config a), hm, ?_⟩
    cases hq : a.path with
    | none => exact absurd hq hp
    | some p =>
      have hd : dest f.name a = segments p := by simp [dest, hq]
      rw [hd] at h1
      simp only [hq, h1, h2]
      rw [if_neg h3]

/-- The name of the flag that writes to a place. -/
theorem cliName_field {c : Command} (hd : DistinctFlat c) {f : Field} {a : Annotation}
    (hf : (f, FieldKind.config a) ∈ c.fields) : cliName c (joinUnderscore (dest f.name a)) = f.name := by
  unfold cliName
  cases h : (fieldMappings c).find? fun m => decide (m.1 = joinUnderscore (dest f.name a)) with
  | some m =>
    obtain ⟨x, n⟩ := m
    have h1 : x = joinUnderscore (dest f.name a) := by simpa using List.find?_some h
    obtain ⟨g, b, hg, _, h2, h3, _⟩ := mem_fieldMappings.1 (List.mem_of_find?_eq_some h)
    dsimp only at h1 ⊢
    rw [← h3]
    exact (hd f a g b hf hg (by rw [h2, h1])).symm
  | none =>
    dsimp only
    refine Classical.byContradiction fun hne => ?_
    rw [List.find?_eq_none] at h
    have hp : a.path ≠ none := by
      intro hp
      apply hne
      simp [dest, hp, joinUnderscore]
    exact h _ (mem_fieldMappings.2 ⟨f, a, hf, hp, rfl, rfl, hne⟩) (by simp)

/-- A setting that no field writes to is looked for under its own name. -/
theorem cliName_unclaimed {c : Command} {x : Chars}
    (h : ∀ f a, (f, FieldKind.config a) ∈ c.fields → joinUnderscore (dest f.name a) ≠ x) : cliName c x = x := by
  unfold cliName
  cases hm : (fieldMappings c).find? fun m => decide (m.1 = x) with
  | none => rfl
  | some m =>
    obtain ⟨y, n⟩ := m
    have h1 : y = x := by simpa using List.find?_some hm
    obtain ⟨g, b, hg, _, h2, _, _⟩ := mem_fieldMappings.1 (List.mem_of_find?_eq_some hm)
    exact absurd (h2.trans h1) (h g b hg)

theorem consistent_iff {group : Kind → List Chars} {c : Command} {leaves : List (List Chars)} {cli : List Chars} :
    consistent group c leaves cli = true ↔
      (∀ leaf ∈ leaves, joinUnderscore leaf ∉ configOnlyFields c →
        cliName c (joinUnderscore leaf) ∈ cli ∧ cliName c (joinUnderscore leaf) ∉ excludedArgs group c) ∧
      (∀ n ∈ cli, n ∉ excludedArgs group c →
        ∃ leaf ∈ leaves, joinUnderscore leaf ∉ configOnlyFields c ∧ cliName c (joinUnderscore leaf) = n) := by
  unfold consistent
  simp only [Bool.and_eq_true, List.all_eq_true, List.mem_map, List.mem_filter,
    Bool.not_eq_true', List.contains_eq_mem, decide_eq_true_eq, decide_eq_false_iff_not]
  constructor
  · rintro ⟨h1, h2⟩
    refine ⟨fun leaf hl hn => h1 _ ⟨_, ⟨⟨leaf, hl, rfl⟩, hn⟩, rfl⟩, fun n hn he => ?_⟩
    obtain ⟨_, ⟨⟨leaf, hl, rfl⟩, ho⟩, hx⟩ := h2 n ⟨hn, he⟩
    exact ⟨leaf, hl, ho, hx⟩
  · rintro ⟨h1, h2⟩
    refine ⟨?_, ?_⟩
    · rintro _ ⟨_, ⟨⟨leaf, hl, rfl⟩, hn⟩, rfl⟩
      exact h1 leaf hl hn
    · rintro n ⟨hn, he⟩
      obtain ⟨leaf, hl, ho, hx⟩ := h2 n hn he
      exact ⟨_, ⟨⟨leaf, hl, rfl⟩, ho⟩, hx⟩

/-- Settings and flags that correspond pass the test. -/
theorem correspond_passes {group : Kind → List Chars} {c : Command} {leaves : List (List Chars)} {cli : List Chars}
    (hd : DistinctFlat c) (h : Correspond group c leaves cli) : consistent group c leaves cli = true := by
  rw [consistent_iff]
  refine ⟨fun leaf hl hn => ?_, fun n hn he => ?_⟩
  · obtain ⟨f, a, hf, rfl, h1, h2⟩ := h.1 leaf hl hn
    rw [cliName_field hd hf]
    exact ⟨h1, h2⟩
  · obtain ⟨f, a, hf, h1, h2, h3⟩ := h.2 n hn he
    exact ⟨_, h2, h3, by rw [cliName_field hd hf, h1]⟩

/-- C266, as far as it holds: if places that are written in the same way are the same, and no setting without a flag has the
name of a flag, then the test passes exactly if settings and flags correspond. -/
theorem consistent_iff_correspond_partial {group : Kind → List Chars} {c : Command} {leaves : List (List Chars)}
    {cli : List Chars} (hd : DistinctFlat c)
    (hl : ∀ leaf ∈ leaves, ∀ f a, (f, FieldKind.config a) ∈ c.fields →
      joinUnderscore (dest f.name a) = joinUnderscore leaf → dest f.name a = leaf)
    (hn : ∀ leaf ∈ leaves, (∀ f a, (f, FieldKind.config a) ∈ c.fields →
      joinUnderscore (dest f.name a) ≠ joinUnderscore leaf) → joinUnderscore leaf ∉ cli) :
    consistent group c leaves cli = true ↔ Correspond group c leaves cli := by
  refine ⟨fun h => ?_, correspond_passes hd⟩
  rw [consistent_iff] at h
  have claimed : ∀ leaf ∈ leaves, cliName c (joinUnderscore leaf) ∈ cli →
      ∃ f a, (f, FieldKind.config a) ∈ c.fields ∧ dest f.name a = leaf ∧ cliName c (joinUnderscore leaf) = f.name := by
    intro leaf hlf hc
    by_cases hx : ∃ f a, (f, FieldKind.config a) ∈ c.fields ∧ joinUnderscore (dest f.name a) = joinUnderscore leaf
    · obtain ⟨f, a, hf, he⟩ := hx
      exact ⟨f, a, hf, hl leaf hlf f a hf he, by rw [← he, cliName_field hd hf]⟩
    · have hu : ∀ f a, (f, FieldKind.config a) ∈ c.fields → joinUnderscore (dest f.name a) ≠ joinUnderscore leaf :=
        fun f a hf he => hx ⟨f, a, hf, he⟩
      rw [cliName_unclaimed hu] at hc
      exact absurd hc (hn leaf hlf hu)
  refine ⟨fun leaf hlf ho => ?_, fun n hnc he => ?_⟩
  · obtain ⟨h1, h2⟩ := h.1 leaf hlf ho
    obtain ⟨f, a, hf, hd', hc⟩ := claimed leaf hlf h1
    rw [hc] at h1 h2
    exact ⟨f, a, hf, hd', h1, h2⟩
  · obtain ⟨leaf, hlf, ho, hx⟩ := h.2 n hnc he
    obtain ⟨f, a, hf, hd', hc⟩ := claimed leaf hlf (by rw [hx]; exact hnc)
    exact ⟨f, a, hf, by rw [← hc, hx], by rw [hd']; exact hlf, by rw [hd']; exact ho⟩

/-- A command with a struct that is generated, without paths and extra names: the test passes whatever the settings are, as the
struct has exactly the settings that have flags. -/
theorem generated_passes {group : Kind → List Chars} {c : Command} {cli : List Chars}
    (hx : c.extraConfigOnly = [])
    (hp : ∀ f a, (f, FieldKind.config a) ∈ c.fields → a.path = none)
    (hu : ∀ f a g b, (f, FieldKind.config a) ∈ c.fields → (g, FieldKind.config b) ∈ c.fields → f.name = g.name → a = b)
    (h1 : ∀ f a, (f, FieldKind.config a) ∈ c.fields → a.configOnly = false → f.name ∈ cli ∧ f.name ∉ excludedArgs group c)
    (h2 : ∀ n ∈ cli, n ∉ excludedArgs group c →
      ∃ f a, (f, FieldKind.config a) ∈ c.fields ∧ a.configOnly = false ∧ f.name = n) :
    consistent group c (((configStruct c.fields).map Prod.fst).map fun n => [n]) cli = true := by
  have hdest : ∀ f a, (f, FieldKind.config a) ∈ c.fields → dest f.name a = [f.name] := fun f a hf => by
    simp [dest, hp f a hf]
  have honly : ∀ n, n ∈ configOnlyFields c ↔ ∃ f a, (f, FieldKind.config a) ∈ c.fields ∧ a.configOnly = true ∧ f.name = n := by
    intro n
    unfold configOnlyFields
    rw [hx, List.append_nil, List.mem_filterMap]
    constructor
    · rintro ⟨⟨f, k⟩, hm, h⟩
      cases k with
      | config a =>
        dsimp only at h
        split at h
        · rename_i ho; injection h with h; exact ⟨f, a, hm, ho, h⟩
        · cases h
      | shared k => simp at h
      | cliOnly => simp at h
    · rintro ⟨f, a, hm, ho, h⟩
      exact ⟨(f, .config a), hm, by simp [ho, h]⟩
  apply correspond_passes
  · intro f a g b hf hg he
    rw [hdest f a hf, hdest g b hg] at he
    exact he
  · refine ⟨?_, ?_⟩
    · intro leaf hl ho
      obtain ⟨n, hn, rfl⟩ := List.mem_map.1 hl
      obtain ⟨f, a, hf, _, rfl⟩ := (struct_fields c.fields n).1 hn
      have : a.configOnly = false := by
        cases hc : a.configOnly with
        | false => rfl
        | true => exact absurd ((honly _).2 ⟨f, a, hf, hc, rfl⟩) ho
      exact ⟨f, a, hf, hdest f a hf, h1 f a hf this⟩
    · intro n hn he
      obtain ⟨f, a, hf, hc, rfl⟩ := h2 n hn he
      refine ⟨f, a, hf, rfl, ?_, ?_⟩
      · rw [hdest f a hf]
        exact List.mem_map.2 ⟨f.name, (struct_fields c.fields f.name).2 ⟨f, a, hf, hp f a hf, rfl⟩, rfl⟩
      · rw [hdest f a hf]
        intro ho
        obtain ⟨g, b, hg, hb, hgn⟩ := (honly _).1 ho
        rw [hu f a g b hf hg hgn.symm] at hc
        rw [hb] at hc; cases hc

def noGroup : Kind → List Chars := fun _ => []

/-- A flag `--admin-port` for `otlp.admin_port`. -/
def adminCommand : Command where
  section_ := "x".toList
  fields := [(⟨"admin_port".toList, .other, []⟩, .config { path := some "otlp.admin_port".toList })]

/-- C266 does not hold: with a new setting `admin_port` beside `otlp.admin_port`, the test passes though no flag writes to it. -/
theorem consistent_iff_correspond_refuted : ¬ (∀ (group : Kind → List Chars) (c : Command) (leaves : List (List Chars))
    (cli : List Chars), consistent group c leaves cli = true → Correspond group c leaves cli) := by
  intro h
  have h1 := (h noGroup adminCommand [["otlp".toList, "admin_port".toList], ["admin_port".toList]] ["admin_port".toList]
    (by decide +kernel)).1 ["admin_port".toList] (by simp) (by decide +kernel)
  obtain ⟨f, a, hf, hd, _⟩ := h1
  simp only [adminCommand, List.mem_singleton, Prod.mk.injEq, FieldKind.config.injEq] at hf
  obtain ⟨rfl, rfl⟩ := hf
  exact absurd hd (by decide +kernel)

/-- A flag for `a.b_c`. -/
def flatCommand : Command where
  section_ := "x".toList
  fields := [(⟨"flag".toList, .other, []⟩, .config { path := some "a.b_c".toList })]

/-- Nor with settings that are written in the same way: `a_b.c` has no flag. -/
theorem flat_names_refuted :
    consistent noGroup flatCommand [["a".toList, "b_c".toList], ["a_b".toList, "c".toList]] ["flag".toList] = true ∧
    ¬ Correspond noGroup flatCommand [["a".toList, "b_c".toList], ["a_b".toList, "c".toList]] ["flag".toList] := by
  refine ⟨by decide +kernel, fun h => ?_⟩
  obtain ⟨f, a, hf, hd, _⟩ := h.1 ["a_b".toList, "c".toList] (by simp) (by decide +kernel)
  simp only [flatCommand, List.mem_singleton, Prod.mk.injEq, FieldKind.config.injEq] at hf
  obtain ⟨rfl, rfl⟩ := hf
  exact absurd hd (by decide +kernel)

/-! ### C267: the name of the struct -/

/-- A section in kebab case: words that begin with a small letter and have no capital letter, with `-` between. -/
def Kebab (s : Chars) : Prop :=
  '_' ∉ s ∧ ∀ w ∈ splitWhen (fun c => decide (c = '-' ∨ c = '_')) s,
    ∃ c t, w = c :: t ∧ c.isLower = true ∧ ∀ x ∈ t, x.isUpper = false

theorem flatten_capital_inj {ws vs : List Chars}
    (hw : ∀ w ∈ ws, ∃ c t, w = c :: t ∧ c.isLower = true ∧ ∀ x ∈ t, x.isUpper = false)
    (hv : ∀ w ∈ vs, ∃ c t, w = c :: t ∧ c.isLower = true ∧ ∀ x ∈ t, x.isUpper = false)
    (h : (ws.map capital).flatten = (vs.map capital).flatten) : ws = vs := by
  -- the tails of two words followed by capitals or nothing
  have tails : ∀ (t u a b : Chars), (∀ x ∈ t, x.isUpper = false) → (∀ x ∈ u, x.isUpper = false) →
      (∀ c r, a = c :: r → c.isUpper = true) → (∀ c r, b = c :: r → c.isUpper = true) → t ++ a = u ++ b → t = u ∧ a = b := by
    intro t
    induction t with
    | nil =>
      intro u a b _ hu ha _ e
      cases u with
      | nil => exact ⟨rfl, e⟩
      | cons y u =>
        have := ha y (u ++ b) e
        rw [hu y List.mem_cons_self] at this; cases this
    | cons x t ih =>
      intro u a b ht hu ha hb e
      cases u with
      | nil =>
        have := hb x (t ++ a) e.symm
        rw [ht x List.mem_cons_self] at this; cases this
      | cons y u =>
        simp only [List.cons_append, List.cons.injEq] at e
        obtain ⟨h1, h2⟩ := ih u a b (fun z hz => ht z (List.mem_cons_of_mem _ hz))
          (fun z hz => hu z (List.mem_cons_of_mem _ hz)) ha hb e.2
        exact ⟨by rw [e.1, h1], h2⟩
  have starts : ∀ ws : List Chars, (∀ w ∈ ws, ∃ c t, w = c :: t ∧ c.isLower = true ∧ ∀ x ∈ t, x.isUpper = false) →
      ∀ c r, (ws.map capital).flatten = c :: r → c.isUpper = true := by
    intro ws hws c r e
    cases ws with
    | nil => simp at e
    | cons w ws =>
      obtain ⟨d, t, rfl, hd, _⟩ := hws w List.mem_cons_self
      simp only [List.map_cons, capital, List.flatten_cons, List.cons_append, List.cons.injEq] at e
      rw [← e.1]
      exact Case.isUpper_toUpper hd
  induction ws generalizing vs with
  | nil =>
    cases vs with
    | nil => rfl
    | cons v vs =>
      obtain ⟨d, t, rfl, _, _⟩ := hv v List.mem_cons_self
      simp [capital] at h
  | cons w ws ih =>
    obtain ⟨c, t, rfl, hc, ht⟩ := hw w List.mem_cons_self
    cases vs with
    | nil => simp [capital] at h
    | cons v vs =>
      obtain ⟨d, u, rfl, hd, hu⟩ := hv v List.mem_cons_self
      simp only [List.map_cons, capital, List.flatten_cons, List.cons_append, List.cons.injEq] at h
      have hws := fun w hw' => hw w (List.mem_cons_of_mem _ hw')
      have hvs := fun w hw' => hv w (List.mem_cons_of_mem _ hw')
      obtain ⟨h1, h2⟩ := tails t u _ _ ht hu (starts ws hws) (starts vs hvs) h.2
      have hcd : c = d := by
        have e := congrArg Char.toNat h.1
        rw [Case.toNat_toUpper, Case.toNat_toUpper, if_pos ((Case.isLower_iff c).1 hc), if_pos ((Case.isLower_iff d).1 hd)] at e
        have l1 := (Case.isLower_iff c).1 hc
        have l2 := (Case.isLower_iff d).1 hd
        exact Case.toNat_inj (by omega)
      rw [hcd, h1, ih hws hvs h2]

theorem splitWhen_inj {f : Char → Bool} {d : Char} {s t : Chars} (hs : ∀ c ∈ s, f c = true → c = d)
    (ht : ∀ c ∈ t, f c = true → c = d) (h : splitWhen f s = splitWhen f t) : s = t := by
  induction s generalizing t with
  | nil =>
    cases t with
    | nil => rfl
    | cons y t =>
      unfold splitWhen at h
      split at h
      · injection h with _ h; exact absurd h.symm (splitWhen_ne_nil f t)
      · split at h <;> simp at h
  | cons x s ih =>
    have hs' := fun c hc => hs c (List.mem_cons_of_mem _ hc)
    cases t with
    | nil =>
      unfold splitWhen at h
      split at h
      · injection h with _ h; exact absurd h (splitWhen_ne_nil f s)
      · split at h <;> simp at h
    | cons y t =>
      have ht' := fun c hc => ht c (List.mem_cons_of_mem _ hc)
      have e1 := splitWhen_ne_nil f s
      have e2 := splitWhen_ne_nil f t
      unfold splitWhen at h
      by_cases hx : f x = true <;> by_cases hy : f y = true
      · rw [if_pos hx, if_pos hy] at h
        injection h with _ h
        rw [hs x List.mem_cons_self hx, ht y List.mem_cons_self hy, ih hs' ht' h]
      · rw [if_pos hx, if_neg hy] at h
        split at h <;> simp at h
      · rw [if_neg hx, if_pos hy] at h
        split at h <;> simp at h
      · rw [if_neg hx, if_neg hy] at h
        cases hsx : splitWhen f s with
        | nil => exact absurd hsx e1
        | cons w ws =>
          cases htx : splitWhen f t with
          | nil => exact absurd htx e2
          | cons v vs =>
            rw [hsx, htx] at h
            simp only [List.cons.injEq] at h
            obtain ⟨⟨h1, h2⟩, h3⟩ := h
            rw [h1, ih hs' ht' (by rw [hsx, htx, h2, h3])]

/-- C267: different sections in kebab case get structs of different names. -/
theorem configIdent_inj {s t : Chars} (hs : Kebab s) (ht : Kebab t) (h : configIdent s = configIdent t) : s = t := by
  unfold configIdent at h
  have h1 := flatten_capital_inj hs.2 ht.2 (List.append_cancel_right h)
  have dash : ∀ u : Chars, '_' ∉ u → ∀ c ∈ u, decide (c = '-' ∨ c = '_') = true → c = '-' := by
    intro u hu c hc hd
    rcases of_decide_eq_true hd with e | e
    · exact e
    · subst e; exact absurd hc hu
  exact splitWhen_inj (dash s hs.1) (dash t ht.1) h1

/-- Without kebab case they can be the same. -/
theorem configIdent_not_inj : configIdent "live-check".toList = configIdent "live_check".toList ∧
    configIdent "a-2".toList = configIdent "a2".toList ∧ configIdent "a--b".toList = configIdent "a-b".toList := by
  decide +kernel

/-- The sections of the commands (src/registry). -/
def sections : List String :=
  ["check", "generate", "stats", "update-markdown", "diff", "emit", "live-check", "mcp", "infer", "package", "serve"]

theorem kebab_of (s : Chars) (h1 : s.all (fun c => c.isLower || decide (c = '-')) = true)
    (h2 : (splitWhen (fun c => decide (c = '-' ∨ c = '_')) s).all (fun w => !w.isEmpty) = true) : Kebab s := by
  rw [List.all_eq_true] at h1 h2
  have hc : ∀ c ∈ s, c.isLower = true ∨ c = '-' := fun c hc => by simpa using h1 c hc
  refine ⟨fun h => ?_, fun w hw => ?_⟩
  · rcases hc _ h with h | h
    · simp [Char.isLower] at h
    · exact absurd h (by decide)
  · have hlow : ∀ c ∈ w, c.isLower = true := by
      intro c hcw
      have hsep := splitWhen_pieces _ s w hw c hcw
      have hin : c ∈ s := by
        obtain ⟨a, b, e, _⟩ := mem_splitWhen_word hw
        rw [e]; simp [hcw]
      rcases hc c hin with h | h
      · exact h
      · subst h; simp at hsep
    cases w with
    | nil => exact absurd (h2 _ hw) (by simp)
    | cons c t =>
      refine ⟨c, t, rfl, hlow c List.mem_cons_self, fun x hx => ?_⟩
      have := (Case.isLower_iff x).1 (hlow x (List.mem_cons_of_mem _ hx))
      rw [Case.isUpper_false]; omega

theorem sections_kebab : ∀ s ∈ sections, Kebab s.toList := by
  intro s hs
  simp only [sections, List.mem_cons, List.not_mem_nil, or_false] at hs
  rcases hs with h | h | h | h | h | h | h | h | h | h | h <;> subst h <;> exact kebab_of _ (by decide +kernel) (by decide +kernel)

end Verif.Macro
