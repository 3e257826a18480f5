import Verif.Util.Map
/-
The build script of the code generation test, which puts all generated files into one file of nested modules:
crates/weaver_codegen_test/build.rs.

The walk through the directory is a list of files; what is done to the text of a file is left out.
-/
namespace Verif.Misc
open Verif.Util

/-! ### Model -/

/-- build.rs:162-166 `Module`. The hash map of submodules is a list in the order of its iteration. -/
inductive Module where
  | mk (content : String) (subs : List (String × Module))

def Module.empty : Module := .mk "" []

/-- A generated file: the directories it is in, its name without `.rs`, its text. -/
structure GenFile where
  dirs : List String
  name : String
  text : String
deriving DecidableEq

/-- build.rs:203: whether the file is the text of the module of its directory. -/
def GenFile.isMod (f : GenFile) : Bool := decide (f.name = "mod" ∨ f.name = "lib")

/-- build.rs:185-216 `add_modules`. -/
def addAt (f : GenFile) : List String → Module → Module
  | [], .mk c subs => if f.isMod then .mk f.text subs else .mk c (aset f.name (.mk f.text []) subs)
  | d :: ds, .mk c subs => .mk c (aset d (addAt f ds ((aget d subs).getD .empty)) subs)

/-- build.rs:90-152: all files in the order of the walk. -/
def buildTree (files : List GenFile) : Module := files.foldl (fun m f => addAt f f.dirs m) .empty

/-- build.rs:176-177: how a module begins. -/
def header (name : String) : List Char := "/// Generated module\npub mod ".toList ++ (name.toList ++ " {\n".toList)

mutual
/-- build.rs:168-183 `Module::generate`. -/
def Module.generate : Module → List Char
  | .mk c subs => c.toList ++ generateAll subs

def generateAll : List (String × Module) → List Char
  | [] => []
  | (n, m) :: rest =>
    header n ++ (m.generate ++ ("\n}\n".toList ++ generateAll rest))
end

/-! ### C278: every file becomes a module -/

/-- The module that a file should become: specification. -/
def GenFile.path (f : GenFile) : List String := if f.name = "mod" ∨ f.name = "lib" then f.dirs else f.dirs ++ [f.name]

/-- The text of the module at a path. -/
def textAt : List String → Module → Option String
  | [], .mk c _ => some c
  | p :: ps, .mk _ subs =>
    match aget p subs with
    | none => none
    | some m => textAt ps m

/-- A file is in the way of a module if it is a module itself and the other is within it, or if they are the same. -/
def InTheWay (f : GenFile) (q : List String) : Prop := q = f.path ∨ (f.isMod = false ∧ f.path <+: q)

theorem textAt_added (f : GenFile) : ∀ (ds : List String) (m : Module),
    textAt (if f.isMod then ds else ds ++ [f.name]) (addAt f ds m) = some f.text
  | [], .mk c subs => by
    unfold addAt
    by_cases h : f.isMod = true
    · simp [h, textAt]
    · simp [h, textAt, aget_aset]
  | d :: ds, .mk c subs => by
    have ih := textAt_added f ds ((aget d subs).getD .empty)
    unfold addAt
    by_cases h : f.isMod = true
    · simp only [h, if_true] at ih ⊢
      rw [textAt, aget_aset, if_pos rfl]
      exact ih
    · simp only [h, Bool.false_eq_true, if_false] at ih ⊢
      rw [List.cons_append, textAt, aget_aset, if_pos rfl]
      exact ih

theorem path_eq (f : GenFile) : f.path = if f.isMod then f.dirs else f.dirs ++ [f.name] := by
  unfold GenFile.path GenFile.isMod
  by_cases h : f.name = "mod" ∨ f.name = "lib" <;> simp [h]

/-- Adding a file keeps what it is not in the way of. -/
theorem textAt_kept (f : GenFile) : ∀ (ds : List String) (m : Module) (q : List String) (c : String),
    textAt q m = some c → q ≠ (if f.isMod then ds else ds ++ [f.name]) →
    ¬ (f.isMod = false ∧ (ds ++ [f.name]) <+: q) → textAt q (addAt f ds m) = some c
  | [], .mk c0 subs, q, c, h, hne, hw => by
    unfold addAt
    by_cases hm : f.isMod = true
    · simp only [hm, if_true] at hne ⊢
      cases q with
      | nil => exact absurd rfl hne
      | cons p ps => exact h
    · simp only [hm, Bool.false_eq_true, if_false] at hne ⊢
      cases q with
      | nil => exact h
      | cons p ps =>
        have hp : p ≠ f.name := by
          intro e
          exact hw ⟨by simpa using hm, ⟨ps, by simp [e]⟩⟩
        rw [textAt] at h ⊢
        rw [aget_aset, if_neg (by first | exact hp | exact fun e => hp e.symm)]
        exact h
  | d :: ds, .mk c0 subs, q, c, h, hne, hw => by
    unfold addAt
    cases q with
    | nil => exact h
    | cons p ps =>
      rw [textAt] at h ⊢
      rw [aget_aset]
      by_cases hp : p = d
      · subst hp
        rw [if_pos rfl]
        dsimp only
        cases hs : aget p subs with
        | none => rw [hs] at h; cases h
        | some m =>
          rw [hs] at h
          refine textAt_kept f ds m ps c h ?_ ?_
          · intro e
            apply hne
            rw [e]
            by_cases hm : f.isMod = true <;> simp [hm]
          · rintro ⟨h1, t, h2⟩
            exact hw ⟨h1, t, by rw [← h2]; simp⟩
      · rw [if_neg (by first | exact hp | exact fun e => hp e.symm)]
        exact h

theorem textAt_kept' (f : GenFile) (m : Module) (q : List String) (c : String) (h : textAt q m = some c)
    (hw : ¬ InTheWay f q) : textAt q (addAt f f.dirs m) = some c := by
  refine textAt_kept f f.dirs m q c h ?_ ?_
  · intro e; exact hw (.inl (by rw [path_eq]; exact e))
  · rintro ⟨h1, h2⟩
    refine hw (.inr ⟨h1, ?_⟩)
    rw [path_eq, h1]
    exact h2

theorem fold_kept (q : List String) (c : String) : ∀ (files : List GenFile) (m : Module), textAt q m = some c →
    (∀ f ∈ files, ¬ InTheWay f q) → textAt q (files.foldl (fun m f => addAt f f.dirs m) m) = some c
  | [], _, h, _ => h
  | f :: files, m, h, hw => by
    rw [List.foldl_cons]
    exact fold_kept q c files _ (textAt_kept' f m q c h (hw f (by simp))) fun g hg => hw g (List.mem_cons_of_mem _ hg)

/-- A file that no later file is in the way of is in the tree. -/
theorem last_wins (before after : List GenFile) (f : GenFile) (h : ∀ g ∈ after, ¬ InTheWay g f.path) :
    textAt f.path (buildTree (before ++ f :: after)) = some f.text := by
  unfold buildTree
  rw [List.foldl_append, List.foldl_cons]
  refine fold_kept _ _ after _ ?_ h
  rw [path_eq]
  exact textAt_added f f.dirs _

/-- C278, as far as it holds: if no file of the walk is in the way of an earlier one, every file
is in the tree as the module it should be. -/
theorem files_in_tree_partial (files : List GenFile) (hn : files.Pairwise fun f g => ¬ InTheWay g f.path) :
    ∀ f ∈ files, textAt f.path (buildTree files) = some f.text := by
  intro f hf
  obtain ⟨before, after, rfl⟩ := List.append_of_mem hf
  refine last_wins before after f ?_
  have := (List.pairwise_append.1 hn).2.1
  exact (List.pairwise_cons.1 this).1

/-- Nothing else is in the tree: each text is that of the file of the module, or empty for directories. -/
theorem textAt_source (f : GenFile) : ∀ (ds : List String) (m : Module) (q : List String) (c : String),
    textAt q (addAt f ds m) = some c → c = "" ∨ (q = (if f.isMod then ds else ds ++ [f.name]) ∧ c = f.text) ∨ textAt q m = some c
  | [], .mk c0 subs, q, c, h => by
    unfold addAt at h
    by_cases hm : f.isMod = true
    · simp only [hm, if_true] at h ⊢
      cases q with
      | nil => exact .inr (.inl ⟨rfl, (Option.some.inj h).symm⟩)
      | cons p ps => exact .inr (.inr h)
    · simp only [hm, Bool.false_eq_true, if_false] at h ⊢
      cases q with
      | nil => exact .inr (.inr h)
      | cons p ps =>
        rw [textAt, aget_aset] at h
        by_cases hp : p = f.name
        · rw [if_pos (by first | exact hp | exact hp.symm)] at h
          dsimp only at h
          cases ps with
          | nil => exact .inr (.inl ⟨by simp [hp], (Option.some.inj h).symm⟩)
          | cons x xs => simp [textAt, aget] at h
        · rw [if_neg (by first | exact hp | exact fun e => hp e.symm)] at h
          exact .inr (.inr h)
  | d :: ds, .mk c0 subs, q, c, h => by
    unfold addAt at h
    cases q with
    | nil => exact .inr (.inr h)
    | cons p ps =>
      rw [textAt, aget_aset] at h
      by_cases hp : p = d
      · subst hp
        rw [if_pos rfl] at h
        dsimp only at h
        rcases textAt_source f ds _ ps c h with h | ⟨h1, h2⟩ | h
        · exact .inl h
        · refine .inr (.inl ⟨?_, h2⟩)
          rw [h1]
          by_cases hm : f.isMod = true <;> simp [hm]
        · cases hs : aget p subs with
          | none =>
            rw [hs] at h
            cases ps with
            | nil => exact .inl (Option.some.inj h).symm
            | cons x xs => simp [textAt, Module.empty, aget] at h
          | some m =>
            rw [hs] at h
            refine .inr (.inr ?_)
            rw [textAt, hs]
            exact h
      · rw [if_neg (by first | exact hp | exact fun e => hp e.symm)] at h
        exact .inr (.inr h)

theorem tree_source (files : List GenFile) (q : List String) (c : String) (h : textAt q (buildTree files) = some c) :
    c = "" ∨ ∃ f ∈ files, q = f.path ∧ c = f.text := by
  have gen : ∀ (files : List GenFile) (m : Module), textAt q (files.foldl (fun m f => addAt f f.dirs m) m) = some c →
      c = "" ∨ (∃ f ∈ files, q = f.path ∧ c = f.text) ∨ textAt q m = some c := by
    intro files
    induction files with
    | nil => intro m h; exact .inr (.inr h)
    | cons f files ih =>
      intro m h
      rw [List.foldl_cons] at h
      rcases ih _ h with h | ⟨g, hg, h⟩ | h
      · exact .inl h
      · exact .inr (.inl ⟨g, List.mem_cons_of_mem _ hg, h⟩)
      · rcases textAt_source f f.dirs m q c h with h | ⟨h1, h2⟩ | h
        · exact .inl h
        · exact .inr (.inl ⟨f, by simp, by rw [path_eq]; exact h1, h2⟩)
        · exact .inr (.inr h)
  rcases gen files .empty h with h | h | h
  · exact .inl h
  · exact .inr h
  · cases q with
    | nil => exact .inl (Option.some.inj h).symm
    | cons p ps => simp [textAt, Module.empty, aget] at h

theorem generateAll_infix {n : String} {m : Module} : ∀ {subs : List (String × Module)}, (n, m) ∈ subs →
    (header n ++ (m.generate ++ "\n}\n".toList)) <:+: generateAll subs
  | (n', m') :: rest, h => by
    generalize he : "\n}\n".toList = close
    rcases List.mem_cons.1 h with h | h
    · injection h with h1 h2
      subst h1; subst h2
      unfold generateAll
      rw [he]
      exact ⟨[], generateAll rest, by simp only [List.append_assoc, List.nil_append]⟩
    · have ih := generateAll_infix h
      rw [he] at ih
      unfold generateAll
      rw [he]
      exact ih.trans ⟨header n' ++ (m'.generate ++ close), [], by simp only [List.append_assoc, List.append_nil]⟩

/-- The text of every module of the tree is in the generated text. -/
theorem generate_infix : ∀ (q : List String) (m : Module) (c : String), textAt q m = some c → c.toList <:+: m.generate
  | [], .mk c0 subs, c, h => by
    rw [← Option.some.inj h, Module.generate]
    exact ⟨[], generateAll subs, by simp⟩
  | p :: ps, .mk c0 subs, c, h => by
    rw [textAt] at h
    cases hs : aget p subs with
    | none => rw [hs] at h; cases h
    | some m =>
      rw [hs] at h
      have h1 := generate_infix ps m c h
      have h2 : m.generate <:+: generateAll subs := by
        refine List.IsInfix.trans ?_ (generateAll_infix (aget_some_mem hs))
        exact ⟨header p, "\n}\n".toList, by rw [List.append_assoc]⟩
      rw [Module.generate]
      exact h1.trans (h2.trans ⟨c0.toList, [], by rw [List.append_nil]⟩)

/-- C278, for the text: every file is in it. -/
theorem files_in_text_partial (files : List GenFile) (hn : files.Pairwise fun f g => ¬ InTheWay g f.path) :
    ∀ f ∈ files, f.text.toList <:+: (buildTree files).generate := fun f hf =>
  generate_infix _ _ _ (files_in_tree_partial files hn f hf)

def fileA : GenFile := ⟨[], "a", "const A: i32 = 1;"⟩
def fileAB : GenFile := ⟨["a"], "b", "const B: i32 = 2;"⟩

/-- C278 does not hold: with `a.rs` beside the directory `a`, the files of the directory are lost if it is walked first, and are
kept if it is not. -/
theorem files_in_tree_refuted : fileA.path ≠ fileAB.path ∧
    textAt fileAB.path (buildTree [fileAB, fileA]) = none ∧
    textAt fileAB.path (buildTree [fileA, fileAB]) = some fileAB.text := by decide +kernel

/-- Of `mod.rs` and `lib.rs` in one directory, only one is kept. -/
theorem mod_and_lib : textAt [] (buildTree [⟨[], "mod", "x"⟩, ⟨[], "lib", "y"⟩]) = some "y" := by decide +kernel

example : [(⟨[], "lib", "l"⟩ : GenFile), ⟨["a"], "mod", "m"⟩, fileAB, ⟨[], "c", "c"⟩].Pairwise
    fun f g => ¬ InTheWay g f.path := by
  unfold InTheWay
  decide +kernel

end Verif.Misc
