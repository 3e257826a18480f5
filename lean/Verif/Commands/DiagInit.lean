import Verif.Util.Str
/-
Model of `weaver diagnostic init`: src/diagnostic/init.rs:31-72.
-/
namespace Verif.Commands.DiagInit
open Verif.Util

/-- `std::path::Component` of a Unix path. -/
inductive PComp where
  | root
  | cur
  | up
  | name (s : Chars)
deriving DecidableEq

/-- `Path::components`: empty segments and `.` are dropped, but for a `.` at the start. -/
def pathComps (s : Chars) : List PComp :=
  (if s.head? = some '/' then [.root]
   else if (splitWhen (· == '/') s).head? = some ['.'] then [.cur] else [])
  ++ (splitWhen (· == '/') s).filterMap fun x =>
    if x = [] ∨ x = ['.'] then none else if x = ['.', '.'] then some .up else some (.name x)

/-- An entry at the top of the templates in the executable: `include_dir::DirEntry`. The files of a directory are given
with their paths below it. -/
inductive TopEntry where
  | dir (name : Chars) (files : List (Chars × String))
  | file (name : Chars) (content : String)

/-- `Path::starts_with`: whole components are compared. -/
def startsWithPath (name target : Chars) : Bool := (pathComps target).isPrefixOf [.name name]

/-- src/diagnostic/init.rs:51-72 `extract`: the files written, each with its directory, its path below it, and what is
written. Simplification: no write fails. `command` (lines 31-47) then reports success whatever was written. -/
def extract (entries : List TopEntry) (target : Chars) : List (Option Chars × Chars × String) :=
  entries.flatMap fun
    | .dir n files => if startsWithPath n target then files.map fun f => (some n, f.1, f.2) else []
    | .file n c => [(none, n, c)]

/-- defaults/diagnostic_templates: the directories; contents are parameters. -/
def defaultTemplates (content : Chars → Chars → String) : List TopEntry :=
  [("ansi", ["errors.txt.j2", "weaver.yaml"]), ("gh_workflow_command", ["errors.txt.j2", "weaver.yaml"]),
   ("json", ["errors.json.j2", "weaver.yaml"])].map fun p : String × List String =>
    .dir p.1.toList (p.2.map fun f => (f.toList, content p.1.toList f.toList))

/-! ### Properties -/

/-- The name of one directory. -/
def PlainName (s : Chars) : Prop := s ≠ [] ∧ '/' ∉ s ∧ s ≠ ['.'] ∧ s ≠ ['.', '.']

theorem splitWhen_none {p : Char → Bool} : ∀ {s : Chars}, (∀ c ∈ s, p c = false) → splitWhen p s = [s] := by
  intro s h
  induction s with
  | nil => rfl
  | cons c s ih =>
    have hc := h c (List.mem_cons_self ..)
    have := ih fun d hd => h d (List.mem_cons_of_mem _ hd)
    simp [splitWhen, hc, this]

theorem pathComps_plain {s : Chars} (h : PlainName s) : pathComps s = [.name s] := by
  obtain ⟨h1, h2, h3, h4⟩ := h
  have hs : splitWhen (· == '/') s = [s] := splitWhen_none fun c hc => by
    simp only [beq_eq_false_iff_ne]; exact fun e => h2 (e ▸ hc)
  have hh : s.head? ≠ some '/' := fun e => h2 (List.mem_of_mem_head? e)
  simp [pathComps, hs, hh, h1, h3, h4]

theorem pathComps_nil : pathComps [] = [] := by decide

/-- **C304**: without a target everything is written. -/
theorem extract_everything (entries : List TopEntry) (d : Option Chars) (f : Chars) (c : String) :
    (d, f, c) ∈ extract entries [] ↔
      (∃ n files, TopEntry.dir n files ∈ entries ∧ d = some n ∧ (f, c) ∈ files) ∨
      (TopEntry.file f c ∈ entries ∧ d = none) := by
  simp only [extract, List.mem_flatMap]
  constructor
  · rintro ⟨e, he, hm⟩
    match e, he, hm with
    | .dir n files, he, hm =>
      simp only [startsWithPath, pathComps_nil, List.isPrefixOf, if_true, List.mem_map, Prod.mk.injEq] at hm
      obtain ⟨x, hx, rfl, rfl, rfl⟩ := hm
      exact .inl ⟨n, files, he, rfl, hx⟩
    | .file n c', he, hm =>
      simp only [List.mem_singleton, Prod.mk.injEq] at hm
      obtain ⟨rfl, rfl, rfl⟩ := hm
      exact .inr ⟨he, rfl⟩
  · rintro (⟨n, files, he, rfl, hx⟩ | ⟨he, rfl⟩)
    · refine ⟨_, he, ?_⟩
      simp only [startsWithPath, pathComps_nil, List.isPrefixOf, if_true, List.mem_map]
      exact ⟨_, hx, rfl⟩
    · exact ⟨_, he, by simp⟩

/-- **C304**: with the name of a directory as target, the files written are those of that directory and those that are in no
directory. -/
theorem extract_target_partial (entries : List TopEntry) {target : Chars} (ht : PlainName target) (d : Option Chars)
    (f : Chars) (c : String) :
    (d, f, c) ∈ extract entries target ↔
      (d = some target ∧ ∃ files, TopEntry.dir target files ∈ entries ∧ (f, c) ∈ files) ∨
      (TopEntry.file f c ∈ entries ∧ d = none) := by
  have hp : ∀ n, startsWithPath n target = decide (target = n) := fun n => by
    rw [startsWithPath, pathComps_plain ht]
    by_cases h : target = n <;> simp [List.isPrefixOf, h]
  simp only [extract, List.mem_flatMap]
  constructor
  · rintro ⟨e, he, hm⟩
    match e, he, hm with
    | .dir n files, he, hm =>
      simp only [hp] at hm
      by_cases h : target = n
      · simp only [h, decide_true, if_true, List.mem_map, Prod.mk.injEq] at hm
        obtain ⟨x, hx, rfl, rfl, rfl⟩ := hm
        exact .inl ⟨by rw [h], files, h ▸ he, hx⟩
      · simp [h] at hm
    | .file n c', he, hm =>
      simp only [List.mem_singleton, Prod.mk.injEq] at hm
      obtain ⟨rfl, rfl, rfl⟩ := hm
      exact .inr ⟨he, rfl⟩
  · rintro (⟨rfl, files, he, hx⟩ | ⟨he, rfl⟩)
    · refine ⟨_, he, ?_⟩
      simp only [hp, decide_true, if_true, List.mem_map]
      exact ⟨_, hx, rfl⟩
    · exact ⟨_, he, by simp⟩

/-- **C304**: of the default templates only those of the target are written, and all of these. -/
theorem default_target (content : Chars → Chars → String) {target : Chars} (ht : PlainName target) (d : Option Chars)
    (f : Chars) (c : String) :
    (d, f, c) ∈ extract (defaultTemplates content) target ↔
      d = some target ∧ c = content target f ∧
        (((target = "ansi".toList ∨ target = "gh_workflow_command".toList) ∧ f = "errors.txt.j2".toList) ∨
         (target = "json".toList ∧ f = "errors.json.j2".toList) ∨
         ((target = "ansi".toList ∨ target = "gh_workflow_command".toList ∨ target = "json".toList) ∧
           f = "weaver.yaml".toList)) := by
  rw [extract_target_partial _ ht]
  simp only [defaultTemplates, List.map_cons, List.map_nil, List.mem_cons, List.not_mem_nil, or_false, TopEntry.dir.injEq,
    reduceCtorEq, false_and]
  constructor
  · rintro ⟨rfl, files, h | h | h, hf⟩ <;> obtain ⟨rfl, rfl⟩ := h <;>
      simp only [List.mem_cons, Prod.mk.injEq, List.not_mem_nil, or_false] at hf <;>
      rcases hf with ⟨rfl, rfl⟩ | ⟨rfl, rfl⟩ <;> simp
  · rintro ⟨rfl, rfl, ⟨rfl | rfl, rfl⟩ | ⟨rfl, rfl⟩ | ⟨rfl | rfl | rfl, rfl⟩⟩ <;> simp

/-- **C304**: with a target that does not exist nothing is written, and the command reports success. -/
theorem unknown_target_refuted (content : Chars → Chars → String) :
    extract (defaultTemplates content) "github".toList = [] := by
  have h1 : startsWithPath "ansi".toList "github".toList = false := by decide
  have h2 : startsWithPath "gh_workflow_command".toList "github".toList = false := by decide
  have h3 : startsWithPath "json".toList "github".toList = false := by decide
  simp only [extract, defaultTemplates, List.map_cons, List.map_nil, List.flatMap_cons, List.flatMap_nil, h1, h2, h3]
  rfl

/-- **C304**: nor is anything for a path that begins with `./`. -/
theorem dot_target_refuted (content : Chars → Chars → String) :
    extract (defaultTemplates content) "./ansi".toList = [] := by
  have h1 : startsWithPath "ansi".toList "./ansi".toList = false := by decide
  have h2 : startsWithPath "gh_workflow_command".toList "./ansi".toList = false := by decide
  have h3 : startsWithPath "json".toList "./ansi".toList = false := by decide
  simp only [extract, defaultTemplates, List.map_cons, List.map_nil, List.flatMap_cons, List.flatMap_nil, h1, h2, h3]
  rfl

example : PlainName "ansi".toList := by refine ⟨?_, ?_, ?_, ?_⟩ <;> decide
example : pathComps "ansi/".toList = [.name "ansi".toList] ∧ pathComps "/ansi".toList = [.root, .name "ansi".toList] := by
  decide

end Verif.Commands.DiagInit
