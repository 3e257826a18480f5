import Verif.Serve.Model
import Verif.Search.SearchProps
/-
A client that reads all results of the HTTP search page by page (src/serve/handlers.rs:269-294, src/serve/types.rs:27-68): it asks
again from `offset + count` on, as long as a page has results.
-/
namespace Verif.Serve
open Verif.Util Verif.Search

/-- What a page says: `total`, `count` and the results. -/
def pageOf {V D : Type} (r : Response V D) : Option (Nat × Nat × List (Nat × Item)) :=
  match r.body with
  | .found _ total count _ results => if r.status = 200 then some (total, count, results) else none
  | _ => none

/-- The client: at most `n` requests, the first of which is for `offset`. -/
def walk (ask : Nat → Option (Nat × Nat × List (Nat × Item))) : Nat → Nat → List (Nat × Item)
  | 0, _ => []
  | n + 1, offset =>
    match ask offset with
    | none => []
    | some (_, count, results) => if count = 0 then [] else results ++ walk ask n (offset + count)

/-- The pages of one search on the server. -/
def ask {V D : Type} (u : Unicode) (st : State V D) (r : Request) (p : SearchParams) (offset : Nat) :
    Option (Nat × Nat × List (Nat × Item)) :=
  pageOf (handle u st { r with search := some { p with offset := offset } } .search)

theorem ask_eq {V D : Type} (u : Unicode) (st : State V D) (r : Request) (p : SearchParams) (offset : Nat) :
    let full := fullAnswer u st.ctx p.q p.kind p.stability p.hideDeprecated
    let page := (full.drop offset).take (min p.limit 1000)
    ask u st r p offset = some (full.length, page.length, page) := by
  simp only [ask, pageOf, handle, search_full, if_true]

theorem walk_windows {full : List (Nat × Item)} {n : Nat} (hn : 1 ≤ n) {a : Nat → Option (Nat × Nat × List (Nat × Item))}
    (ha : ∀ o, a o = some (full.length, ((full.drop o).take n).length, (full.drop o).take n)) (fuel o : Nat)
    (hf : full.length ≤ fuel + o) : walk a fuel o = full.drop o := by
  induction fuel generalizing o with
  | zero => simp only [walk]; rw [List.drop_eq_nil_of_le (by omega)]
  | succ k ih =>
    simp only [walk, ha]
    by_cases h0 : full.length ≤ o
    · simp [List.drop_eq_nil_of_le h0]
    · have hl : ((full.drop o).take n).length = min n (full.length - o) := by simp
      rw [if_neg (by omega), ih _ (by omega)]
      by_cases hlt : n ≤ full.length - o
      · rw [hl, Nat.min_eq_left hlt, ← List.drop_drop, List.take_append_drop]
      · rw [hl, Nat.min_eq_right (by omega), List.take_of_length_le (by simp; omega), List.drop_eq_nil_of_le (as := full) (i := o + (full.length - o)) (by omega)]
        simp

/-- **Following the pages gives every match exactly once, in order of rank**, for every page size but 0, also for those above
the maximum; each page has the same total. -/
theorem walk_full {V D : Type} (u : Unicode) (st : State V D) (r : Request) (p : SearchParams) (hl : 1 ≤ p.limit) :
    ∃ rel full, (∀ i, Relevance u st.ctx.sep (p.q.getD "") i (rel i)) ∧ Answer rel (IsQuery p.q)
        (st.ctx.items.filter (fun i => decide (Passes p.kind p.stability p.hideDeprecated i))) full ∧
      (∀ n, full.length ≤ n → walk (ask u st r p) n 0 = full) ∧
      ∀ o, (ask u st r p o).map (·.1) = some full.length := by
  refine ⟨_, _, fun _ => score_relevance _ _ _ _, fullAnswer_answer u st.ctx p.q p.kind p.stability p.hideDeprecated, ?_, ?_⟩
  · intro n hn
    have := walk_windows (n := min p.limit 1000) (by omega) (ask_eq u st r p) n 0 (by omega)
    simpa using this
  · intro o; rw [ask_eq u st r p o]; rfl

/-- With the size 0 nothing is found, whatever the total. -/
theorem walk_zero {V D : Type} (u : Unicode) (st : State V D) (r : Request) (p : SearchParams) (hl : p.limit = 0) (n o : Nat) :
    walk (ask u st r p) n o = [] := by
  cases n with
  | zero => rfl
  | succ n =>
    have := ask_eq u st r p o
    dsimp only at this
    simp [walk, this, hl]

/-- The three schemas that the documentation of the API names are served, with slashes before the name too, and no others. -/
theorem schema_served {V D : Type} (u : Unicode) (st : State V D) (r : Request) (n : String) :
    (handle u st r (.schema n)).status = 200 ↔
      trimSlashes n = "MaterializedRegistryV2" ∨ trimSlashes n = "SemconvDefinitionV2" ∨ trimSlashes n = "LiveCheckSample" := by
  simp only [handle]
  by_cases h : schemaNames.contains (trimSlashes n) = true
  · rw [if_pos h]
    simp only [schemaNames, List.contains_iff_mem, List.mem_cons, List.not_mem_nil, or_false] at h
    simp [h]
  · rw [if_neg h]
    simp only [schemaNames, List.contains_iff_mem, List.mem_cons, List.not_mem_nil, or_false] at h
    simp [h]

end Verif.Serve
