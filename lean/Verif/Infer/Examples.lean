import Verif.Infer.Model
/-
C29: what the examples and the type of an inferred attribute are, and which maps the accumulator builds.
-/
namespace Verif.Infer
open Verif.Util Verif.Values
open Verif.LiveCheck (Elem Value PType SAttr SpanEvent Point Points Instr Metric Log)

variable (toF : Int → Nat)

/-! ### Specification -/

/-- The scalar a value stands for as an example of its own. Integers out of the range of `i64` become doubles. -/
def scalar : Value → Option ValueSpec
  | .elem (.bool b) => some (.bool b)
  | .elem (.int n) => if n ≤ 9223372036854775807 then some (.int n) else some (.double (toF n))
  | .elem (.dbl f) => some (.double f)
  | .elem (.str s) => some (.string s)
  | _ => none

/-- The scalar a value stands for next to examples of the kind of `first`. -/
def scalarLike (first : ValueSpec) (v : Value) : Option ValueSpec :=
  match first, v with
  | .bool _, .elem (.bool b) => some (.bool b)
  | .int _, .elem (.int n) => if n ≤ 9223372036854775807 then some (.int n) else none
  | .double _, .elem (.int n) => some (.double (toF n))
  | .double _, .elem (.dbl f) => some (.double f)
  | .string _, .elem (.str s) => some (.string s)
  | _, _ => none

/-- The examples kept for a list of observed values: the first scalar decides the kind, then the first five distinct
scalars of that kind are kept, in the order they came. -/
def kept (vs : List Value) : List ValueSpec :=
  match vs.findSome? (scalar toF) with
  | none => []
  | some first => (uniq (vs.filterMap (scalarLike toF first))).take 5

/-- The scalars an `Examples` lists. -/
def scalarsOf : Examples → List ValueSpec
  | .bool b => [.bool b]
  | .int n => [.int n]
  | .double f => [.double f]
  | .string s => [.string s]
  | .bools l => l.map .bool
  | .ints l => l.map .int
  | .doubles l => l.map .double
  | .strings l => l.map .string
  | _ => []

/-- An `Examples` is a single scalar, or a list of at least two. -/
def Compact : Examples → Prop
  | .bool _ | .int _ | .double _ | .string _ => True
  | .bools l => 2 ≤ l.length
  | .ints l => 2 ≤ l.length
  | .doubles l => 2 ≤ l.length
  | .strings l => 2 ≤ l.length
  | _ => False

/-- The examples of an attribute show exactly these scalars: none for none, one on its own, several as a list. -/
def Shows : Option Examples → List ValueSpec → Prop
  | none, l => l = []
  | some e, l => Compact e ∧ scalarsOf e = l

/-! ### Lemmas on lists -/

theorem uniq_concat {α : Type} [DecidableEq α] (l : List α) (x : α) :
    uniq (l ++ [x]) = if x ∈ l then uniq l else uniq l ++ [x] := by
  have h : uniq (l ++ [x]) = if x ∈ uniq l then uniq l else uniq l ++ [x] := by
    unfold uniq; rw [List.foldl_append]; rfl
  rw [h]
  by_cases hx : x ∈ l
  · rw [if_pos hx, if_pos (((uniq_spec l).2 x).2 hx)]
  · rw [if_neg hx, if_neg (fun h => hx (((uniq_spec l).2 x).1 h))]

theorem pushMax_take {α : Type} [DecidableEq α] (l : List α) (x : α) :
    pushMax ((uniq l).take 5) x = (uniq (l ++ [x])).take 5 := by
  rw [uniq_concat]
  unfold pushMax maxExamples
  have hm : x ∈ l ↔ x ∈ uniq l := ((uniq_spec l).2 x).symm
  by_cases hlen : (uniq l).length < 5
  · rw [List.take_of_length_le (Nat.le_of_lt hlen)]
    by_cases hx : x ∈ l
    · rw [if_neg (fun h => h.2 (hm.1 hx)), if_pos hx, List.take_of_length_le (Nat.le_of_lt hlen)]
    · rw [if_pos ⟨hlen, fun h => hx (hm.2 h)⟩, if_neg hx, List.take_of_length_le (by simp; omega)]
  · rw [if_neg (by simp; omega)]
    by_cases hx : x ∈ l
    · rw [if_pos hx]
    · rw [if_neg hx, List.take_append_of_le_length (by omega)]

theorem pushMax_map {α β : Type} [DecidableEq α] [DecidableEq β] (f : α → β) (hf : ∀ a b, f a = f b → a = b)
    (l : List α) (x : α) : (pushMax l x).map f = pushMax (l.map f) (f x) := by
  unfold pushMax
  have hm : f x ∈ l.map f ↔ x ∈ l := by
    constructor
    · intro h; obtain ⟨a, ha, e⟩ := List.mem_map.1 h; exact hf _ _ e ▸ ha
    · exact fun h => List.mem_map.2 ⟨x, h, rfl⟩
  by_cases h : l.length < maxExamples ∧ x ∉ l
  · rw [if_pos h, if_pos ⟨by simpa using h.1, fun h' => h.2 (hm.1 h')⟩]; simp
  · rw [if_neg h, if_neg (fun h' => h ⟨by simpa using h'.1, fun h'' => h'.2 (hm.2 h'')⟩)]

theorem pushMax_length {α : Type} [DecidableEq α] (l : List α) (x : α) : l.length ≤ (pushMax l x).length := by
  unfold pushMax; split <;> simp

theorem pushMax_one {α : Type} [DecidableEq α] (a x : α) : pushMax [a] x = if a = x then [a] else [a, x] := by
  unfold pushMax maxExamples
  by_cases h : a = x
  · simp [h]
  · simp [h, Ne.symm h]

/-! ### Examples -/

/-- Adding a value to existing examples pushes what it stands for. -/
theorem addToExisting_shows {e : Examples} {l : List ValueSpec} (h : Compact e ∧ scalarsOf e = l) (v : Value)
    {first : ValueSpec} (hf : l.head? = some first) :
    Compact (addToExisting toF e v) ∧ scalarsOf (addToExisting toF e v) =
      match scalarLike toF first v with | none => l | some x => pushMax l x := by
  obtain ⟨hc, rfl⟩ := h
  have hb : ∀ a b : Bool, ValueSpec.bool a = .bool b → a = b := fun _ _ h => ValueSpec.bool.inj h
  have hi : ∀ a b : Int, ValueSpec.int a = .int b → a = b := fun _ _ h => ValueSpec.int.inj h
  have hd : ∀ a b : Nat, ValueSpec.double a = .double b → a = b := fun _ _ h => ValueSpec.double.inj h
  have hs : ∀ a b : String, ValueSpec.string a = .string b → a = b := fun _ _ h => ValueSpec.string.inj h
  cases e with
  | bool b =>
    simp only [scalarsOf, List.head?_cons, Option.some.injEq] at hf; subst hf
    rcases v with (_ | n | n | n | n | _) | n <;> simp only [addToExisting, scalarLike] <;> try first | exact ⟨hc, rfl⟩ | exact ⟨hc, trivial⟩
    simp only [scalarsOf]
    rw [show ([ValueSpec.bool b]) = [b].map .bool from rfl, ← pushMax_map _ hb, pushMax_one]
    by_cases h : b = n <;> simp [h, Compact, scalarsOf]
  | bools l =>
    rcases l with _ | ⟨b, l⟩
    · simp [Compact] at hc
    simp only [scalarsOf, List.map_cons, List.head?_cons, Option.some.injEq] at hf; subst hf
    rcases v with (_ | n | n | n | n | _) | n <;> simp only [addToExisting, scalarLike] <;> try first | exact ⟨hc, rfl⟩ | exact ⟨hc, trivial⟩
    simp only [scalarsOf]
    exact ⟨Nat.le_trans hc (pushMax_length _ _), pushMax_map _ hb _ _⟩
  | int b =>
    simp only [scalarsOf, List.head?_cons, Option.some.injEq] at hf; subst hf
    rcases v with (_ | n | n | n | n | _) | n <;> simp only [addToExisting, scalarLike, Value.asI64] <;> try first | exact ⟨hc, rfl⟩ | exact ⟨hc, trivial⟩
    by_cases hr : n ≤ 9223372036854775807
    · simp only [if_pos hr, scalarsOf]
      rw [show ([ValueSpec.int b]) = [b].map .int from rfl, ← pushMax_map _ hi, pushMax_one]
      by_cases h : b = n <;> simp [h, Compact, scalarsOf]
    · simp only [if_neg hr]; exact ⟨hc, trivial⟩
  | ints l =>
    rcases l with _ | ⟨b, l⟩
    · simp [Compact] at hc
    simp only [scalarsOf, List.map_cons, List.head?_cons, Option.some.injEq] at hf; subst hf
    rcases v with (_ | n | n | n | n | _) | n <;> simp only [addToExisting, scalarLike, Value.asI64] <;> try first | exact ⟨hc, rfl⟩ | exact ⟨hc, trivial⟩
    by_cases hr : n ≤ 9223372036854775807
    · simp only [if_pos hr, scalarsOf]
      exact ⟨Nat.le_trans hc (pushMax_length _ _), pushMax_map _ hi _ _⟩
    · simp only [if_neg hr]; exact ⟨hc, trivial⟩
  | double b =>
    simp only [scalarsOf, List.head?_cons, Option.some.injEq] at hf; subst hf
    rcases v with (_ | n | n | n | n | _) | n <;> simp only [addToExisting, scalarLike, asF64] <;> try first | exact ⟨hc, rfl⟩ | exact ⟨hc, trivial⟩
    all_goals
      simp only [scalarsOf]
      rw [show ([ValueSpec.double b]) = [b].map .double from rfl, ← pushMax_map _ hd, pushMax_one]
    · by_cases h : b = toF n <;> simp [h, Compact, scalarsOf]
    · by_cases h : b = n <;> simp [h, Compact, scalarsOf]
  | doubles l =>
    rcases l with _ | ⟨b, l⟩
    · simp [Compact] at hc
    simp only [scalarsOf, List.map_cons, List.head?_cons, Option.some.injEq] at hf; subst hf
    rcases v with (_ | n | n | n | n | _) | n <;> simp only [addToExisting, scalarLike, asF64] <;> try first | exact ⟨hc, rfl⟩ | exact ⟨hc, trivial⟩
    all_goals
      simp only [scalarsOf]
      exact ⟨Nat.le_trans hc (pushMax_length _ _), pushMax_map _ hd _ _⟩
  | string b =>
    simp only [scalarsOf, List.head?_cons, Option.some.injEq] at hf; subst hf
    rcases v with (_ | n | n | n | n | _) | n <;> simp only [addToExisting, scalarLike] <;> try first | exact ⟨hc, rfl⟩ | exact ⟨hc, trivial⟩
    simp only [scalarsOf]
    rw [show ([ValueSpec.string b]) = [b].map .string from rfl, ← pushMax_map _ hs, pushMax_one]
    by_cases h : b = n <;> simp [h, Compact, scalarsOf]
  | strings l =>
    rcases l with _ | ⟨b, l⟩
    · simp [Compact] at hc
    simp only [scalarsOf, List.map_cons, List.head?_cons, Option.some.injEq] at hf; subst hf
    rcases v with (_ | n | n | n | n | _) | n <;> simp only [addToExisting, scalarLike] <;> try first | exact ⟨hc, rfl⟩ | exact ⟨hc, trivial⟩
    simp only [scalarsOf]
    exact ⟨Nat.le_trans hc (pushMax_length _ _), pushMax_map _ hs _ _⟩
  | _ => exact hc.elim

/-- A scalar is of its own kind. -/
theorem scalarLike_self {v : Value} {x : ValueSpec} (h : scalar toF v = some x) : scalarLike toF x v = some x := by
  rcases v with (_ | n | n | n | n | _) | n <;> simp only [scalar] at h <;> try cases h
  · rfl
  · by_cases hr : n ≤ 9223372036854775807
    · rw [if_pos hr] at h; cases h; simp [scalarLike, hr]
    · rw [if_neg hr] at h; cases h; rfl
  · rfl
  · rfl

/-- A value that is no scalar is of no kind. -/
theorem scalarLike_none {v : Value} (h : scalar toF v = none) (x : ValueSpec) : scalarLike toF x v = none := by
  rcases v with (_ | n | n | n | n | _) | n <;> simp only [scalar] at h <;> try cases h
  · cases x <;> rfl
  · split at h <;> cases h
  · cases x <;> rfl
  · cases x <;> rfl

/-- `new_example` shows the scalar of the value. -/
theorem newExample_shows (v : Value) : Shows (newExample toF v) (scalar toF v).toList := by
  rcases v with (_ | n | n | n | n | _) | n <;> simp only [newExample, scalar, Value.asI64, asF64] <;> try (simp [Shows, Compact, scalarsOf]; done)
  by_cases hr : n ≤ 9223372036854775807 <;> simp [hr, Shows, Compact, scalarsOf]

/-- The values kept, after one more value. -/
theorem kept_concat (vs : List Value) (v : Value) : kept toF (vs ++ [v]) =
    match (kept toF vs).head? with
    | none => (scalar toF v).toList
    | some first => match scalarLike toF first v with | none => kept toF vs | some x => pushMax (kept toF vs) x := by
  unfold kept
  rw [List.findSome?_append]
  cases h : vs.findSome? (scalar toF) with
  | none =>
    simp only [Option.none_or, List.head?_nil]
    have hn : ∀ x, vs.filterMap (scalarLike toF x) = [] := by
      intro x
      rw [List.filterMap_eq_nil_iff]
      intro w hw
      exact scalarLike_none toF (List.findSome?_eq_none_iff.1 h w hw) x
    cases hv : scalar toF v with
    | none => simp [hv]
    | some x => simp [hv, hn, scalarLike_self toF hv, uniq]
  | some first =>
    simp only [Option.some_or]
    -- the first kept scalar is `first`
    have hhead : ((uniq (vs.filterMap (scalarLike toF first))).take 5).head? = some first := by
      obtain ⟨l₁, w, l₂, rfl, hw, hl⟩ := List.findSome?_eq_some_iff.1 h
      have h1 : l₁.filterMap (scalarLike toF first) = [] :=
        List.filterMap_eq_nil_iff.2 fun u hu => scalarLike_none toF (hl u hu) first
      rw [List.filterMap_append, h1, List.nil_append, List.filterMap_cons, scalarLike_self toF hw]
      simp only
      have : ∀ (l acc : List ValueSpec), acc.head? = some first →
          (l.foldl (fun acc x => if x ∈ acc then acc else acc ++ [x]) acc).head? = some first := by
        intro l
        induction l with
        | nil => exact fun _ h => h
        | cons a l ih =>
          intro acc ha
          refine ih _ ?_
          show (if a ∈ acc then acc else acc ++ [a]).head? = some first
          split
          · exact ha
          · rw [List.head?_append, ha]; rfl
      rw [List.head?_take, if_neg (by decide)]
      have h2 : uniq (first :: l₂.filterMap (scalarLike toF first)) = (l₂.filterMap (scalarLike toF first)).foldl
          (fun acc x => if x ∈ acc then acc else acc ++ [x]) [first] := by
        unfold uniq; rw [List.foldl_cons]; congr 1
      rw [h2]
      exact this _ _ rfl
    rw [hhead]
    simp only [List.filterMap_append, List.filterMap_cons, List.filterMap_nil]
    cases hv : scalarLike toF first v with
    | none => simp
    | some x => simp only; rw [pushMax_take]

/-- What `add_example` does to the examples kept. -/
theorem addExample_shows {cur : Option Examples} {vs : List Value} (h : Shows cur (kept toF vs)) (v : Value) :
    Shows (addExample toF cur v) (kept toF (vs ++ [v])) := by
  rw [kept_concat]
  unfold addExample
  by_cases hn : v = .elem .null
  · subst hn
    rw [if_pos rfl]
    cases hk : (kept toF vs).head? with
    | none => have := List.head?_eq_none_iff.1 hk; rw [this] at h; exact h
    | some first => simp only [scalarLike_none toF (v := .elem .null) rfl]; exact h
  rw [if_neg hn]
  cases cur with
  | none =>
    have h' : kept toF vs = [] := h
    simp only [h', List.head?_nil]
    exact newExample_shows toF v
  | some e =>
    cases hk : (kept toF vs).head? with
    | none =>
      exfalso
      have h2 := List.head?_eq_none_iff.1 hk
      obtain ⟨hc, h1⟩ : Compact e ∧ scalarsOf e = kept toF vs := h
      rw [h2] at h1
      cases e <;> simp_all [Compact, scalarsOf]
    | some first => exact addToExisting_shows toF h v hk

/-! ### Attributes -/

/-- Specification of one attribute: given all samples with its name, its type is that of the first one (`string` if it
has none) and its examples show what is kept of their values. -/
def Described (samples : List SAttr) (a : Attr) : Prop :=
  ∃ s r, samples = s :: r ∧ a.typ = s.typ.getD .string ∧ Shows a.examples (kept toF (samples.filterMap (·.value)))

/-- The samples of an attribute. -/
def named (k : String) (l : List SAttr) : List SAttr := l.filter (fun s => decide (s.name = k))

/-- A map of attributes describes a list of samples. -/
def AttrsIs (m : Attrs) (l : List SAttr) : Prop :=
  (m.map Prod.fst).Nodup ∧ ∀ k, match aget k m with
    | none => named k l = []
    | some a => Described toF (named k l) a

theorem named_concat (k : String) (l : List SAttr) (s : SAttr) :
    named k (l ++ [s]) = if s.name = k then named k l ++ [s] else named k l := by
  unfold named
  rw [List.filter_append]
  by_cases h : s.name = k <;> simp [h]

theorem attrsIs_nil : AttrsIs toF [] [] := ⟨by simp, fun k => by simp [aget, named]⟩

theorem accAttr_is {m : Attrs} {l : List SAttr} (h : AttrsIs toF m l) (s : SAttr) :
    AttrsIs toF (accAttr toF m s) (l ++ [s]) := by
  have hval : ∀ v : Attr, (∀ k, (aget k (aset s.name v m)) = if k = s.name then some v else aget k m) :=
    fun v k => aget_aset s.name k v m
  have key : ∃ v, accAttr toF m s = aset s.name v m ∧ Described toF (named s.name l ++ [s]) v := by
    unfold accAttr
    cases hg : aget s.name m with
    | none =>
      have h1 := h.2 s.name; rw [hg] at h1
      refine ⟨_, rfl, s, [], by simp [show named s.name l = [] from h1], rfl, ?_⟩
      simp only [show named s.name l = [] from h1, List.nil_append]
      unfold newAttr
      cases hv : s.value with
      | none => simp [Shows, kept, hv]
      | some v =>
        have := addExample_shows toF (cur := none) (vs := []) (by simp [Shows, kept]) v
        simpa [hv] using this
    | some a =>
      have h1 := h.2 s.name; rw [hg] at h1
      obtain ⟨s', r, e, ht, hx⟩ := h1
      refine ⟨_, rfl, s', r ++ [s], by simp [e], ?_, ?_⟩
      · unfold updateAttr; cases s.value <;> exact ht
      · unfold updateAttr
        cases hv : s.value with
        | none => simpa [List.filterMap_append, hv] using hx
        | some v =>
          have := addExample_shows toF hx v
          simpa [List.filterMap_append, hv] using this
  obtain ⟨v, e, hd⟩ := key
  rw [e]
  refine ⟨nodup_aset h.1, fun k => ?_⟩
  rw [hval, named_concat]
  by_cases hk : k = s.name
  · subst hk; simp only [if_true]; exact hd
  · rw [if_neg hk, if_neg (Ne.symm hk)]; exact h.2 k

theorem accAttrs_is {m : Attrs} {l : List SAttr} (h : AttrsIs toF m l) (l' : List SAttr) :
    AttrsIs toF (accAttrs toF m l') (l ++ l') := by
  induction l' generalizing m l with
  | nil => simpa [accAttrs] using h
  | cons s l' ih =>
    have := ih (accAttr_is toF h s)
    simpa [accAttrs] using this

end Verif.Infer
