import Verif.Gen.Config
import Verif.Util.Str
import Verif.Util.Forall2
/-
The parameters `--param name=value` of `registry generate`: src/registry/generate.rs:81-91, with the parameters of the file
(`Verif.Gen.Config`, `cliParams`). Parameter: `yaml`, what `serde_yaml` reads. A parameter that cannot be read ends the command
before it begins (the argument parser of clap).
-/
namespace Verif.Gen
open Verif.Util
variable {V : Type}

/-- The errors of a parameter: no `=`, or a value that is no YAML. -/
inductive ParamError where
  | noEquals
  | badValue
  deriving DecidableEq

/-- generate.rs:81-91 `parse_key_val`. -/
def parseKeyVal (yaml : Chars → Option V) (s : Chars) : Except ParamError (String × V) :=
  match splitFirst ['='] s with
  | none => .error .noEquals
  | some (name, text) =>
    match yaml text with
    | none => .error .badValue
    | some v => .ok (String.ofList name, v)

/-- All the arguments; the first that cannot be read is the error. -/
def parseParams (yaml : Chars → Option V) : List Chars → Except ParamError (List (String × V))
  | [] => .ok []
  | s :: l =>
    match parseKeyVal yaml s with
    | .error e => .error e
    | .ok p => match parseParams yaml l with
      | .error e => .error e
      | .ok ps => .ok (p :: ps)

/-- The parameters that the templates get, from the arguments and the file. -/
def paramsOf (yaml : Chars → Option V) (args : List Chars) (file : List (String × V)) : Except ParamError (List (String × V)) :=
  match parseParams yaml args with
  | .error e => .error e
  | .ok ps => .ok (cliParams ps file)

/-! ## Specification -/

/-- The argument gives the value `v` to `name`: it is `name=text`, the name has no `=` in it. -/
def GivesParam (yaml : Chars → Option V) (arg : Chars) (name : String) (v : V) : Prop :=
  ∃ text, arg = name.toList ++ '=' :: text ∧ '=' ∉ name.toList ∧ yaml text = some v

/-! ## Properties -/

theorem splitFirst_eq_iff (s a b : Chars) : splitFirst ['='] s = some (a, b) ↔ s = a ++ '=' :: b ∧ '=' ∉ a := by
  induction s generalizing a b with
  | nil => simp [splitFirst]
  | cons c s ih =>
    by_cases hc : c = '='
    · subst hc
      simp only [splitFirst, dropPrefix?]
      cases a with
      | nil => simp
      | cons x a =>
        simp
        intro h
        exact fun _ h' => absurd h h'
    · have : dropPrefix? ['='] (c :: s) = none := by
        rw [dropPrefix?_none]; intro h; rw [List.cons_prefix_cons] at h; exact hc h.1.symm
      simp only [splitFirst, this]
      cases a with
      | nil =>
        simp only [List.nil_append, List.cons.injEq, List.not_mem_nil, not_false_eq_true, and_true]
        constructor
        · intro h; cases hs : splitFirst ['='] s <;> simp [hs] at h
        · intro h; exact absurd h.1 hc
      | cons x a =>
        have := ih a b
        cases hs : splitFirst ['='] s with
        | none =>
          simp only [hs, reduceCtorEq, false_iff] at this
          simp only [Option.map_none, reduceCtorEq, List.cons_append, List.cons.injEq, List.mem_cons, not_or, false_iff]
          exact fun h => this ⟨h.1.2, h.2.2⟩
        | some y =>
          obtain ⟨a', b'⟩ := y
          simp only [hs, Option.some.injEq, Prod.mk.injEq] at this
          simp only [Option.map_some, Option.some.injEq, Prod.mk.injEq, List.cons_append, List.cons.injEq, List.mem_cons, not_or]
          constructor
          · rintro ⟨⟨rfl, rfl⟩, rfl⟩
            have ⟨h1, h2⟩ := this.mp ⟨rfl, rfl⟩
            exact ⟨⟨rfl, h1⟩, fun h => hc h.symm, h2⟩
          · rintro ⟨⟨rfl, h1⟩, _, h2⟩
            have ⟨h3, h4⟩ := this.mpr ⟨h1, h2⟩
            exact ⟨⟨rfl, h3⟩, h4⟩

/-- A parameter is its name before the first `=`, and the YAML after it. -/
theorem parseKeyVal_iff (yaml : Chars → Option V) (s : Chars) (n : String) (v : V) :
    parseKeyVal yaml s = .ok (n, v) ↔ GivesParam yaml s n v := by
  unfold parseKeyVal GivesParam
  cases hs : splitFirst ['='] s with
  | none =>
    simp only [reduceCtorEq, false_iff]
    rintro ⟨t, h1, h2, _⟩
    rw [(splitFirst_eq_iff s _ t).mpr ⟨h1, h2⟩] at hs; cases hs
  | some y =>
    obtain ⟨a, b⟩ := y
    have ⟨h1, h2⟩ := (splitFirst_eq_iff s a b).mp hs
    dsimp only
    cases hy : yaml b with
    | none =>
      simp only [reduceCtorEq, false_iff]
      rintro ⟨t, k1, k2, k3⟩
      rw [(splitFirst_eq_iff s _ t).mpr ⟨k1, k2⟩] at hs
      cases hs
      rw [hy] at k3; cases k3
    | some w =>
      simp only [Except.ok.injEq, Prod.mk.injEq]
      constructor
      · rintro ⟨rfl, rfl⟩
        exact ⟨b, by simpa using h1, by simpa using h2, hy⟩
      · rintro ⟨t, k1, k2, k3⟩
        rw [(splitFirst_eq_iff s _ t).mpr ⟨k1, k2⟩] at hs
        cases hs
        rw [hy] at k3; cases k3
        exact ⟨String.ofList_toList, rfl⟩

/-- Without `=`, and only then, the error is that there is none. -/
theorem parseKeyVal_noEquals (yaml : Chars → Option V) (s : Chars) : parseKeyVal yaml s = .error .noEquals ↔ '=' ∉ s := by
  unfold parseKeyVal
  cases hs : splitFirst ['='] s with
  | none =>
    rw [splitFirst_none] at hs
    simp only [true_iff]
    intro hm
    obtain ⟨a, b, rfl⟩ := List.append_of_mem hm
    exact hs ⟨a, b, by simp⟩
  | some y =>
    obtain ⟨a, b⟩ := y
    have ⟨h1, _⟩ := (splitFirst_eq_iff s a b).mp hs
    dsimp only
    cases yaml b <;> simp [h1]

theorem aget_foldl_last (ps : List (String × V)) (m : List (String × V)) (n : String) :
    aget n (ps.foldl (fun m e => aset e.1 e.2 m) m) = ((ps.reverse.find? fun e => e.1 = n).map Prod.snd).or (aget n m) := by
  induction ps generalizing m with
  | nil => simp
  | cons e ps ih =>
    simp only [List.foldl_cons, ih, List.reverse_cons, List.find?_append]
    cases hf : ps.reverse.find? fun e => decide (e.1 = n) with
    | some y => simp
    | none =>
      simp only [Option.map_none, Option.none_or, List.find?_cons, List.find?_nil]
      rw [aget_aset]
      by_cases h : e.1 = n
      · subst h; simp
      · have : n ≠ e.1 := fun h' => h h'.symm
        simp [h, this]

theorem parseParams_ok (yaml : Chars → Option V) (args : List Chars) (ps : List (String × V)) (h : parseParams yaml args = .ok ps) :
    Forall2 (fun a p => parseKeyVal yaml a = .ok p) args ps := by
  induction args generalizing ps with
  | nil => simp only [parseParams, Except.ok.injEq] at h; subst h; exact .nil
  | cons a l ih =>
    simp only [parseParams] at h
    cases ha : parseKeyVal yaml a with
    | error e => rw [ha] at h; cases h
    | ok p =>
      rw [ha] at h; dsimp only at h
      cases hl : parseParams yaml l with
      | error e => rw [hl] at h; cases h
      | ok ps' =>
        rw [hl] at h; cases h
        exact .cons ha (ih ps' hl)

theorem forall2_split {R : Chars → String × V → Prop} {l1 l2 : List Chars} {a : Chars} {ps : List (String × V)}
    (h : Forall2 R (l1 ++ a :: l2) ps) : ∃ p1 p p2, ps = p1 ++ p :: p2 ∧ R a p ∧ Forall2 R l2 p2 := by
  induction l1 generalizing ps with
  | nil =>
    cases h with
    | cons h t => exact ⟨[], _, _, rfl, h, t⟩
  | cons x l1 ih =>
    cases h with
    | cons h t =>
      obtain ⟨p1, p, p2, rfl, h1, h2⟩ := ih t
      exact ⟨_ :: p1, p, p2, rfl, h1, h2⟩

theorem forall2_find {yaml : Chars → Option V} {args : List Chars} {ps : List (String × V)} {n : String}
    (h : Forall2 (fun a p => parseKeyVal yaml a = .ok p) args ps) (hn : ∀ a ∈ args, ∀ v, ¬ GivesParam yaml a n v) :
    ∀ p ∈ ps, p.1 ≠ n := by
  induction h with
  | nil => simp
  | cons h t ih =>
    rename_i a b l l'
    intro p hp
    rcases List.mem_cons.mp hp with rfl | hp
    · rintro rfl
      exact hn a (List.mem_cons_self ..) p.2 ((parseKeyVal_iff ..).mp h)
    · exact ih (fun a ha => hn a (List.mem_cons_of_mem _ ha)) p hp

/-- **The last `--param` of a name decides.** -/
theorem paramsOf_last (yaml : Chars → Option V) (l1 l2 : List Chars) (a : Chars) (file m : List (String × V)) (n : String) (v : V)
    (h : paramsOf yaml (l1 ++ a :: l2) file = .ok m) (ha : GivesParam yaml a n v) (hl : ∀ b ∈ l2, ∀ w, ¬ GivesParam yaml b n w) :
    aget n m = some v := by
  unfold paramsOf at h
  cases hp : parseParams yaml (l1 ++ a :: l2) with
  | error e => rw [hp] at h; cases h
  | ok ps =>
    rw [hp] at h; cases h
    obtain ⟨p1, p, p2, rfl, h1, h2⟩ := forall2_split (parseParams_ok yaml _ ps hp)
    rw [(parseKeyVal_iff ..).mpr ha] at h1
    cases h1
    have hno := forall2_find h2 hl
    unfold cliParams
    rw [aget_foldl_last]
    have : p2.reverse.find? (fun e => decide (e.1 = n)) = none := by
      rw [List.find?_eq_none]
      intro x hx
      simpa using hno x (List.mem_reverse.mp hx)
    simp [List.find?_append, this]

/-- **A name that no `--param` gives has its value of the file.** -/
theorem paramsOf_file (yaml : Chars → Option V) (args : List Chars) (file m : List (String × V)) (n : String)
    (h : paramsOf yaml args file = .ok m) (hl : ∀ b ∈ args, ∀ w, ¬ GivesParam yaml b n w) : aget n m = aget n file := by
  unfold paramsOf at h
  cases hp : parseParams yaml args with
  | error e => rw [hp] at h; cases h
  | ok ps =>
    rw [hp] at h; cases h
    have hno := forall2_find (parseParams_ok yaml _ ps hp) hl
    unfold cliParams
    rw [aget_foldl_last]
    have : ps.reverse.find? (fun e => decide (e.1 = n)) = none := by
      rw [List.find?_eq_none]
      intro x hx
      simpa using hno x (List.mem_reverse.mp hx)
    simp [this]

theorem parseKeyVal_error (yaml : Chars → Option V) (s : Chars) : (∃ e, parseKeyVal yaml s = .error e) ↔
    ∀ n v, ¬ GivesParam yaml s n v := by
  constructor
  · rintro ⟨e, he⟩ n v hg
    rw [(parseKeyVal_iff ..).mpr hg] at he; cases he
  · intro h
    cases hp : parseKeyVal yaml s with
    | error e => exact ⟨e, rfl⟩
    | ok p => exact absurd ((parseKeyVal_iff ..).mp hp) (h p.1 p.2)

/-- The parameters cannot be read exactly when some argument gives no value. -/
theorem paramsOf_error (yaml : Chars → Option V) (args : List Chars) (file : List (String × V)) :
    (∃ e, paramsOf yaml args file = .error e) ↔ ∃ a ∈ args, ∀ n v, ¬ GivesParam yaml a n v := by
  have key : (∃ e, parseParams yaml args = .error e) ↔ ∃ a ∈ args, ∀ n v, ¬ GivesParam yaml a n v := by
    induction args with
    | nil => simp [parseParams]
    | cons a l ih =>
      simp only [parseParams, List.mem_cons, exists_eq_or_imp]
      rw [← ih, ← parseKeyVal_error]
      cases ha : parseKeyVal yaml a with
      | error e => simp
      | ok p =>
        simp only [reduceCtorEq, exists_false, false_or]
        cases parseParams yaml l <;> simp
  rw [← key]
  unfold paramsOf
  cases parseParams yaml args <;> simp

/-- A value may have a `=` in it; the later of two arguments counts; the others are those of the file. -/
example : (paramsOf some ["a=1".toList, "b=x=y".toList, "a=2".toList] [("a", []), ("c", ['3'])]).toOption.map
    (fun m => [aget "a" m, aget "b" m, aget "c" m]) = some [some ['2'], some "x=y".toList, some ['3']] := by decide +kernel

example : (paramsOf some ["a".toList] ([] : List (String × Chars))).toOption = none := by decide +kernel

end Verif.Gen
