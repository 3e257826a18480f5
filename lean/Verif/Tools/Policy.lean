import Verif.Util.Map
/-
The check of the policies of the Cargo workspace: crates/xtask/src/validate.rs.

Paths that are not text, and directories that cannot be read, which end the check with an error, are left out.
-/
namespace Verif.Tools
open Verif.Util

/-! ### Model -/

/-- A TOML value: a table, a boolean, or anything else. -/
inductive Toml where
  | table (fields : List (String × Toml))
  | bool (b : Bool)
  | other

/-- `Value::get`. -/
def Toml.get (k : String) : Toml → Option Toml
  | .table fs => aget k fs
  | _ => none

/-- validate.rs:104-142 `check_path_is_true`: whether there is no error. -/
def pathIsTrue : List String → Toml → Bool
  | [], .bool b => b
  | [], _ => false
  | p :: ps, t =>
    match t.get p with
    | none => false
    | some u => pathIsTrue ps u

/-- validate.rs:144-184 `check_package`. -/
def checkPackage (t : Toml) : Bool :=
  match t.get "package" with
  | none => false
  | some p =>
    (p.get "name").isSome && (p.get "version").isSome && pathIsTrue ["authors", "workspace"] p &&
      pathIsTrue ["repository", "workspace"] p && pathIsTrue ["license", "workspace"] p &&
      pathIsTrue ["publish", "workspace"] p && pathIsTrue ["edition", "workspace"] p &&
      pathIsTrue ["rust-version", "workspace"] p

/-- validate.rs:186-224 `check_lints_workspace`. -/
def checkLints (t : Toml) : Bool :=
  match t.get "lints" with
  | none => false
  | some l =>
    match l.get "workspace" with
    | some (.bool b) => b
    | _ => false

/-- What there is in a directory of `crates`. `cargo` is `none` if there is no `Cargo.toml`, and holds `none` if it cannot be
read as TOML. -/
structure CrateDir where
  name : String
  isDir : Bool := true
  readme : Bool := true
  externalTypes : Bool := true
  cargo : Option (Option Toml)

/-- `str::starts_with`. -/
def beginsWith (s p : String) : Bool := p.toList.isPrefixOf s.toList

/-- validate.rs:26-78: how many errors a directory gives. -/
def crateErrors (c : CrateDir) : Nat :=
  if !c.isDir || c.name = "xtask" then 0
  else
    (if beginsWith c.name "weaver_" then 0 else 1) + (if c.readme then 0 else 1) + (if c.externalTypes then 0 else 1) +
      (match c.cargo with
        | none => 1
        | some none => 0
        | some (some t) => (if checkPackage t then 0 else 1) + (if checkLints t then 0 else 1))

/-- validate.rs:22-92 `run`: whether the workspace passes. -/
def workspacePasses (crates : List CrateDir) : Bool := decide ((crates.map crateErrors).sum = 0)

/-! ### C282: the policies -/

/-- A table with `workspace = true`. -/
def FromWorkspace (t : Option Toml) : Prop := ∃ fs, t = some (.table fs) ∧ ∃ b, aget "workspace" fs = some (.bool b) ∧ b = true

/-- What a `Cargo.toml` must have: specification, after the comment of `run`. -/
def GoodCargo (t : Toml) : Prop :=
  (∃ p, t.get "package" = some p ∧ (∃ x, p.get "name" = some x) ∧ (∃ x, p.get "version" = some x) ∧
    ∀ k ∈ ["authors", "repository", "license", "publish", "edition", "rust-version"], FromWorkspace (p.get k)) ∧
  FromWorkspace (t.get "lints")

/-- What a crate must have. -/
def GoodCrate (c : CrateDir) : Prop :=
  c.isDir = true → c.name ≠ "xtask" → (∃ rest, c.name.toList = "weaver_".toList ++ rest) ∧ c.readme = true ∧
    c.externalTypes = true ∧ ∃ t, c.cargo = some (some t) ∧ GoodCargo t

theorem pathIsTrue_workspace (k : String) (p : Toml) : pathIsTrue [k, "workspace"] p = true ↔ FromWorkspace (p.get k) := by
  unfold FromWorkspace
  rw [pathIsTrue]
  cases h : p.get k with
  | none => simp
  | some u =>
    dsimp only
    rw [pathIsTrue]
    cases u with
    | table fs =>
      simp only [Toml.get, Option.some.injEq, Toml.table.injEq]
      cases hw : aget "workspace" fs with
      | none => simp [hw]
      | some v =>
        cases v with
        | bool b => simp [hw, pathIsTrue]
        | table _ => simp [hw, pathIsTrue]
        | other => simp [hw, pathIsTrue]
    | bool b => simp [Toml.get]
    | other => simp [Toml.get]

theorem checkLints_iff (t : Toml) : checkLints t = true ↔ FromWorkspace (t.get "lints") := by
  rw [← pathIsTrue_workspace]
  unfold checkLints
  rw [pathIsTrue]
  cases t.get "lints" with
  | none => simp
  | some l =>
    dsimp only
    rw [pathIsTrue]
    cases l.get "workspace" with
    | none => simp
    | some v => cases v <;> simp [pathIsTrue]

theorem checkPackage_iff (t : Toml) : checkPackage t = true ↔
    ∃ p, t.get "package" = some p ∧ (∃ x, p.get "name" = some x) ∧ (∃ x, p.get "version" = some x) ∧
      ∀ k ∈ ["authors", "repository", "license", "publish", "edition", "rust-version"], FromWorkspace (p.get k) := by
  unfold checkPackage
  cases h : t.get "package" with
  | none => simp
  | some p =>
    simp only [Bool.and_eq_true, pathIsTrue_workspace, Option.isSome_iff_exists, Option.some.injEq, List.mem_cons,
      List.not_mem_nil, or_false, forall_eq_or_imp, forall_eq]
    constructor
    · rintro ⟨⟨⟨⟨⟨⟨⟨h1, h2⟩, h3⟩, h4⟩, h5⟩, h6⟩, h7⟩, h8⟩
      exact ⟨p, rfl, h1, h2, h3, h4, h5, h6, h7, h8⟩
    · rintro ⟨q, rfl, h1, h2, h3, h4, h5, h6, h7, h8⟩
      exact ⟨⟨⟨⟨⟨⟨⟨h1, h2⟩, h3⟩, h4⟩, h5⟩, h6⟩, h7⟩, h8⟩

theorem one_zero (b : Bool) : (if b = true then (0 : Nat) else 1) = 0 ↔ b = true := by cases b <;> simp

theorem beginsWith_iff (s p : String) : beginsWith s p = true ↔ ∃ rest, s.toList = p.toList ++ rest := by
  unfold beginsWith
  rw [List.isPrefixOf_iff_prefix]
  exact ⟨fun ⟨r, h⟩ => ⟨r, h.symm⟩, fun ⟨r, h⟩ => ⟨r, h.symm⟩⟩

/-- A directory gives no errors exactly if it is good, provided its `Cargo.toml` can be read. -/
theorem crateErrors_iff (c : CrateDir) (h : c.cargo ≠ some none) : crateErrors c = 0 ↔ GoodCrate c := by
  unfold crateErrors GoodCrate
  by_cases hs : (!c.isDir || decide (c.name = "xtask")) = true
  · rw [if_pos hs]
    simp only [Bool.or_eq_true, Bool.not_eq_true', decide_eq_true_eq] at hs
    refine ⟨fun _ h1 h2 => ?_, fun _ => rfl⟩
    rcases hs with hs | hs
    · rw [hs] at h1; cases h1
    · exact absurd hs h2
  · rw [if_neg hs]
    simp only [Bool.or_eq_true, Bool.not_eq_true', decide_eq_true_eq, not_or, Bool.not_eq_false] at hs
    have key : (match c.cargo with
        | none => 1
        | some none => 0
        | some (some t) => (if checkPackage t then 0 else 1) + (if checkLints t then 0 else 1)) = 0 ↔
        ∃ t, c.cargo = some (some t) ∧ GoodCargo t := by
      cases hc : c.cargo with
      | none => simp
      | some o =>
        cases o with
        | none => exact absurd hc h
        | some t =>
          dsimp only
          rw [Nat.add_eq_zero_iff, one_zero, one_zero, checkPackage_iff, checkLints_iff]
          simp [GoodCargo]
    simp only [Nat.add_eq_zero_iff, one_zero, key, beginsWith_iff]
    constructor
    · rintro ⟨⟨⟨h1, h2⟩, h3⟩, h4⟩ _ _
      exact ⟨h1, h2, h3, h4⟩
    · intro h
      obtain ⟨h1, h2, h3, h4⟩ := h hs.1 hs.2
      exact ⟨⟨⟨h1, h2⟩, h3⟩, h4⟩

theorem sum_zero_iff (l : List Nat) : l.sum = 0 ↔ ∀ x ∈ l, x = 0 := by
  induction l with
  | nil => simp
  | cons x l ih => simp [Nat.add_eq_zero_iff, ih]

/-- C282, as far as it holds: a workspace whose `Cargo.toml` files can all be read passes exactly if all its crates are good. -/
theorem workspace_iff_partial (crates : List CrateDir) (h : ∀ c ∈ crates, c.cargo ≠ some none) :
    workspacePasses crates = true ↔ ∀ c ∈ crates, GoodCrate c := by
  unfold workspacePasses
  rw [decide_eq_true_eq, sum_zero_iff]
  constructor
  · intro hx c hc
    exact (crateErrors_iff c (h c hc)).1 (hx _ (List.mem_map.2 ⟨c, hc, rfl⟩))
  · intro hx n hn
    obtain ⟨c, hc, rfl⟩ := List.mem_map.1 hn
    exact (crateErrors_iff c (h c hc)).2 (hx c hc)

/-- C282 does not hold for a `Cargo.toml` that is no TOML: it is mentioned, and the workspace is said to be compliant. -/
theorem workspace_iff_refuted : workspacePasses [{ name := "weaver_x", cargo := some none }] = true ∧
    ¬ GoodCrate { name := "weaver_x", cargo := some none } := by
  refine ⟨by decide +kernel, ?_⟩
  intro h
  obtain ⟨_, _, _, t, ht, _⟩ := h rfl (by decide)
  cases ht

/-- A good crate. -/
def goodCargo : Toml :=
  .table [("package", .table ([("name", .other), ("version", .other)] ++
      ["authors", "repository", "license", "publish", "edition", "rust-version"].map
        fun k => (k, Toml.table [("workspace", .bool true)]))),
    ("lints", .table [("workspace", .bool true)])]

example : workspacePasses [{ name := "weaver_x", cargo := some (some goodCargo) }] = true := by decide +kernel

end Verif.Tools
