import Verif.Util.Str
import Verif.Diff.Model
/-
The counts of changes between two registries: crates/weaver_version/src/schema_changes.rs; and the texts of levels, which are
printed and read: weaver_config/src/live_check.rs, weaver_semconv/src/stability.rs and attribute.rs.
-/
namespace Verif.Misc
open Verif.Util Verif.Diff

/-! ### Model -/

def isAdded : Change → Bool | .added _ => true | _ => false
def isRenamed : Change → Bool | .renamed _ _ _ => true | _ => false
def isObsoleted : Change → Bool | .obsoleted _ _ => true | _ => false
def isUncategorized : Change → Bool | .uncategorized _ _ => true | _ => false
def isRemoved : Change → Bool | .removed _ => true | _ => false

/-- schema_changes.rs:288-333: the lines of one kind of item, as labels with numbers. -/
def statLines (changes : List Change) : List (String × Nat) :=
  [("Added", (changes.filter isAdded).length),
   ("Renamed to new", (changes.filter isRenamed).length),
   ("Renamed to existing", (changes.filter isRenamed).length),
   ("Deprecated", (changes.filter isObsoleted).length),
   ("Removed", (changes.filter isRemoved).length)]

/-- schema_changes.rs:140-145, 214-246: how many changes a kind of item has. -/
def countChanges (changes : List Change) : Nat := changes.length

/-- weaver_config/src/live_check.rs:20-31 `FailOnLevel`. -/
inductive FailOn where
  | violation | improvement | information | none
deriving DecidableEq

/-- live_check.rs:47-57: how a level is printed. -/
def FailOn.print : FailOn → String
  | .violation => "violation" | .improvement => "improvement" | .information => "information" | .none => "none"

/-- live_check.rs:59-73: how a level is read on the command line. -/
def FailOn.read (s : String) : Option FailOn :=
  if s = "violation" then some .violation else if s = "improvement" then some .improvement
  else if s = "information" then some .information else if s = "none" then some .none else Option.none

/-- stability.rs:14-30 `Stability`. -/
inductive Stab where
  | deprecated | stable | development | alpha | beta | releaseCandidate
deriving DecidableEq

/-- stability.rs:40-51. -/
def Stab.print : Stab → String
  | .stable => "stable" | .development => "development" | .alpha => "alpha" | .beta => "beta"
  | .releaseCandidate => "release_candidate" | .deprecated => "deprecated"

/-- stability.rs:14-30: how a stability is read from YAML; names in snake case, and `experimental`. -/
def Stab.read (s : String) : Option Stab :=
  if s = "deprecated" then some .deprecated else if s = "stable" then some .stable
  else if s = "development" ∨ s = "experimental" then some .development else if s = "alpha" then some .alpha
  else if s = "beta" then some .beta else if s = "release_candidate" then some .releaseCandidate else none

/-- attribute.rs:782-795 `BasicRequirementLevelSpec`. -/
inductive Req where
  | required | recommended | optIn
deriving DecidableEq

/-- attribute.rs:797-806. -/
def Req.print : Req → String
  | .required => "required" | .recommended => "recommended" | .optIn => "opt-in"

/-- attribute.rs:786: how it is read from YAML, in snake case. -/
def Req.read (s : String) : Option Req :=
  if s = "required" then some .required else if s = "recommended" then some .recommended
  else if s = "opt_in" then some .optIn else none

/-! ### C280: the counts -/

/-- C280, as far as it holds: without renamed, updated and uncategorized items, the numbers add up to the changes. -/
theorem stats_add_up_partial (changes : List Change)
    (h : ∀ c ∈ changes, isRenamed c = false ∧ isUncategorized c = false ∧ c ≠ .updated) :
    ((statLines changes).map Prod.snd).sum = countChanges changes := by
  unfold statLines countChanges
  induction changes with
  | nil => rfl
  | cons c l ih =>
    have ih' := ih fun x hx => h x (List.mem_cons_of_mem _ hx)
    have hc := h c (by simp)
    simp only [List.map_cons, List.map_nil, List.sum_cons, List.sum_nil] at ih' ⊢
    cases c <;> simp [isAdded, isRenamed, isObsoleted, isUncategorized, isRemoved, List.filter_cons] at hc ih' ⊢ <;> omega

/-- By how much they are off: renamed items are counted twice; uncategorized and updated ones are not. -/
theorem stats_off (changes : List Change) :
    ((statLines changes).map Prod.snd).sum + (changes.filter isUncategorized).length +
        (changes.filter fun c => decide (c = .updated)).length =
      countChanges changes + (changes.filter isRenamed).length := by
  unfold statLines countChanges
  induction changes with
  | nil => rfl
  | cons c l ih =>
    simp only [List.map_cons, List.map_nil, List.sum_cons, List.sum_nil] at ih ⊢
    cases c <;> simp [isAdded, isRenamed, isObsoleted, isUncategorized, isRemoved, List.filter_cons] at ih ⊢ <;> omega

/-- C280 does not hold: one renamed item is listed as renamed to a new and to an existing one. -/
theorem stats_add_up_refuted : ((statLines [.renamed "a" "b" ""]).map Prod.snd).sum = 2 ∧
    ((statLines [.uncategorized "a" ""]).map Prod.snd).sum = 0 := by decide +kernel

/-- The two lines on renamed items are always equal. -/
theorem renamed_lines_equal (changes : List Change) : ((statLines changes)[1]?).map Prod.snd = ((statLines changes)[2]?).map Prod.snd :=
  rfl

/-! ### C281: texts of levels are read back -/

/-- C281, as far as it holds: what is printed for a level of `--fail-on` or for a stability is read as the same, and no other
text is read as a level. -/
theorem texts_read_back_partial : (∀ l : FailOn, FailOn.read l.print = some l) ∧ (∀ s : Stab, Stab.read s.print = some s) ∧
    (∀ s l, FailOn.read s = some l → s = l.print) ∧
    (∀ s t, Stab.read s = some t → s = t.print ∨ (s = "experimental" ∧ t = .development)) := by
  refine ⟨by intro l; cases l <;> decide +kernel, by intro l; cases l <;> decide +kernel, ?_, ?_⟩
  · intro s l h
    unfold FailOn.read at h
    repeat' split at h
    all_goals first | (injection h with h; subst h; assumption) | (cases h)
  · intro s l h
    unfold Stab.read at h
    repeat' split at h
    all_goals first
      | (injection h with h; subst h; exact .inl (by assumption))
      | (injection h with h; subst h; rename_i e; exact e.imp id fun e => ⟨e, rfl⟩)
      | (cases h)

/-- Levels of requirements are read back but for one. -/
theorem requirement_read_back (r : Req) : Req.read r.print = some r ↔ r ≠ .optIn := by
  cases r <;> decide +kernel

/-- C281 does not hold for requirement levels: `opt-in` is printed, and `opt_in` is read. -/
theorem texts_read_back_refuted : ¬ ∀ r : Req, Req.read r.print = some r := by
  intro h
  exact absurd ((requirement_read_back .optIn).1 (h .optIn)) (by decide)

end Verif.Misc
