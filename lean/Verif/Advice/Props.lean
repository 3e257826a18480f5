import Verif.Advice.Model
/-
C237-C240: what the default policy of the live check says about names.
-/
namespace Verif.Advice
open Verif.Util Verif.LiveCheck

/-! ### Specification -/

/-- A well-formed name: it starts with a letter, and what is between dots and underscores is not empty and of lower case
letters and digits. -/
def ValidName (n : Chars) : Prop :=
  (∃ c t, n = c :: t ∧ 'a' ≤ c ∧ c ≤ 'z') ∧
  ∀ w ∈ splitWhen (fun c => c == '.' || c == '_') n, w ≠ [] ∧ ∀ c ∈ w, ('a' ≤ c ∧ c ≤ 'z') ∨ ('0' ≤ c ∧ c ≤ '9')

theorem validName_iff (n : Chars) : ValidName n ↔
    (∃ c t, n = c :: t ∧ isLower c = true) ∧ ∀ w ∈ splitWhen isSep n, w ≠ [] ∧ ∀ c ∈ w, isWordChar c = true := by
  have h1 : ∀ c, isLower c = true ↔ 'a' ≤ c ∧ c ≤ 'z' := by
    intro c; unfold isLower; rw [Bool.and_eq_true, decide_eq_true_eq, decide_eq_true_eq]
  have h2 : ∀ c, isWordChar c = true ↔ ('a' ≤ c ∧ c ≤ 'z') ∨ ('0' ≤ c ∧ c ≤ '9') := by
    intro c; unfold isWordChar; rw [Bool.or_eq_true, h1, Bool.and_eq_true, decide_eq_true_eq, decide_eq_true_eq]
  have h3 : isSep = fun c => c == '.' || c == '_' := rfl
  unfold ValidName
  simp only [h1, h2, h3]

/-- `ns` is a namespace of the name `n`: what stands before one of its dots. -/
def NamespaceOf (ns n : String) : Prop := ∃ rest, n.toList = ns.toList ++ '.' :: rest

/-- The registry has an attribute of this name that is no template. -/
def Known (r : Registry) (n : String) : Prop := ∃ d ∈ r.attrDefs, d.typ.isTemplate = false ∧ d.name = n

/-- `d` is the definition of `n` that counts: the last one. -/
def Current (r : Registry) (n : String) (d : AttrDef) : Prop :=
  (r.attrDefs.filter fun d => !d.typ.isTemplate && decide (d.name = n)).getLast? = some d

/-- The registry has an attribute of this name that is not deprecated. -/
def Live (r : Registry) (n : String) : Prop := ∃ d, Current r n d ∧ d.deprecated = none

/-- A template of the registry begins the name. -/
def Templated (r : Registry) (n : String) : Prop := ∃ d ∈ r.attrDefs, d.typ.isTemplate = true ∧ d.name.toList <+: n.toList

/-- `ns` is a namespace of an attribute of the registry that is no template. -/
def KnownNamespace (r : Registry) (ns : String) : Prop := ∃ n, Known r n ∧ NamespaceOf ns n

/-- What the default policy says about a sample with the registry `r`. -/
def says (r : Registry) (s : SRef) : List Finding := deny (advise (Checker.new r)) s

/-! ### Names -/

theorem splitWhen_cons_sep {f : Char → Bool} {c : Char} {t : Chars} (h : f c = true) :
    splitWhen f (c :: t) = [] :: splitWhen f t := by rw [splitWhen, if_pos h]

theorem sep_not_word {c : Char} (h : isSep c = true) : isWordChar c = false := by
  unfold isSep at h
  simp only [Bool.or_eq_true, beq_iff_eq] at h
  rcases h with rfl | rfl <;> decide

theorem lower_word {c : Char} (h : isLower c = true) : isWordChar c = true := by
  unfold isWordChar; rw [h]; rfl

theorem word_not_sep {c : Char} (h : isWordChar c = true) : isSep c = false := by
  cases hs : isSep c with
  | false => rfl
  | true => rw [sep_not_word hs] at h; cases h

/-- The tail of the expression: parts with a separator before each. -/
theorem matches_tail {t : Chars} :
    (Re.star (.seq (.cls isSep) (Re.plus (.cls isWordChar)))).Matches t ↔
      t = [] ∨ ∃ c u, t = c :: u ∧ isSep c = true ∧ ∀ w ∈ splitWhen isSep u, w ≠ [] ∧ ∀ d ∈ w, isWordChar d = true := by
  induction hn : t.length using Nat.strongRecOn generalizing t with
  | ind n ih =>
    cases t with
    | nil => exact ⟨fun _ => .inl rfl, fun _ => .starNil⟩
    | cons c u =>
      simp only [List.length_cons] at hn
      constructor
      · intro h
        refine .inr ⟨c, u, rfl, ?_⟩
        obtain ⟨a, b, rfl, h1, h2⟩ := Re.star_cons h
        obtain ⟨x, y, e, hx, hy⟩ := Re.matches_seq.1 h1
        obtain ⟨s, hs, rfl⟩ := Re.matches_cls.1 hx
        simp only [List.singleton_append, List.cons.injEq] at e
        obtain ⟨rfl, rfl⟩ := e
        refine ⟨hs, ?_⟩
        obtain ⟨y1, y2, rfl, hy1, hy2⟩ := Re.matches_seq.1 hy
        obtain ⟨d, hd, rfl⟩ := Re.matches_cls.1 hy1
        have hy2 := Re.matches_star_cls.1 hy2
        have hw : ∀ e ∈ ([d] ++ y2), isWordChar e = true := by
          intro e he
          rcases List.mem_append.1 he with he | he
          · rw [List.mem_singleton.1 he]; exact hd
          · exact hy2 e he
        have hclean := splitWhen_clean (f := isSep) (w := [d] ++ y2) fun e he => word_not_sep (hw e he)
        rcases (ih b.length (by simp at hn; omega) rfl).1 h2 with rfl | ⟨c', u', rfl, hc', hu'⟩
        · intro w hw'
          rw [List.append_nil, hclean] at hw'
          rw [List.mem_singleton.1 hw']
          exact ⟨by simp, hw⟩
        · intro w hw'
          rw [splitWhen_append _ _ hc', hclean] at hw'
          rcases List.mem_append.1 hw' with h3 | h3
          · rw [List.mem_singleton.1 h3]; exact ⟨by simp, hw⟩
          · exact hu' w h3
      · rintro (h | ⟨c', u', e, hc, hu⟩)
        · cases h
        · cases e
          cases hp : splitWhen isSep u with
          | nil => exact absurd hp (splitWhen_ne_nil _ _)
          | cons w ws =>
            obtain ⟨b, rfl, hb, hb0, hb1⟩ := splitWhen_head hp
            obtain ⟨hw0, hw1⟩ := hu w (by rw [hp]; simp)
            have hseq : (Re.seq (.cls isSep) (Re.plus (.cls isWordChar))).Matches (c :: w) := by
              cases w with
              | nil => exact absurd rfl hw0
              | cons d w =>
                refine .seq (a := [c]) (.cls hc) (.seq (a := [d]) (.cls (hw1 d (by simp))) ?_)
                exact Re.matches_star_cls.2 fun e he => hw1 e (by simp [he])
            refine .starCons (a := c :: w) hseq ?_
            refine (ih b.length (by simp at hn; omega) rfl).2 ?_
            cases b with
            | nil => exact .inl rfl
            | cons c' u' =>
              refine .inr ⟨c', u', rfl, hb c' rfl, ?_⟩
              intro v hv
              refine hu v ?_
              rw [hp, ← hb1 c' u' rfl]
              exact List.mem_cons_of_mem _ hv

/-- The regular expression of the policy means well-formed names. -/
theorem nameOk_iff (n : String) : nameOk n = true ↔ ValidName n.toList := by
  unfold nameOk
  rw [Re.test_iff]
  rw [validName_iff]
  generalize n.toList = t
  unfold nameRegex
  constructor
  · intro h
    obtain ⟨x, y, rfl, hx, hy⟩ := Re.matches_seq.1 h
    obtain ⟨c, hc, rfl⟩ := Re.matches_cls.1 hx
    refine ⟨⟨c, y, rfl, hc⟩, ?_⟩
    obtain ⟨a, b, rfl, ha, hb⟩ := Re.matches_seq.1 hy
    have ha := Re.matches_star_cls.1 ha
    have hw : ∀ e ∈ ([c] ++ a), isWordChar e = true := by
      intro e he
      rcases List.mem_append.1 he with he | he
      · rw [List.mem_singleton.1 he]; exact lower_word hc
      · exact ha e he
    have hclean := splitWhen_clean (f := isSep) (w := [c] ++ a) fun e he => word_not_sep (hw e he)
    rw [← List.append_assoc]
    rcases matches_tail.1 hb with rfl | ⟨c', u', rfl, hc', hu'⟩
    · intro w hw'
      rw [List.append_nil, hclean] at hw'
      rw [List.mem_singleton.1 hw']
      exact ⟨by simp, hw⟩
    · intro w hw'
      rw [splitWhen_append _ _ hc', hclean] at hw'
      rcases List.mem_append.1 hw' with h3 | h3
      · rw [List.mem_singleton.1 h3]; exact ⟨by simp, hw⟩
      · exact hu' w h3
  · rintro ⟨⟨c, u, rfl, hc⟩, hu⟩
    cases hp : splitWhen isSep (c :: u) with
    | nil => exact absurd hp (splitWhen_ne_nil _ _)
    | cons w ws =>
      obtain ⟨b, e, hb, hb0, hb1⟩ := splitWhen_head hp
      obtain ⟨hw0, hw1⟩ := hu w (by rw [hp]; simp)
      cases w with
      | nil => exact absurd rfl hw0
      | cons d w =>
        simp only [List.cons_append, List.cons.injEq] at e
        obtain ⟨rfl, rfl⟩ := e
        refine .seq (a := [c]) (.cls hc) (.seq (Re.matches_star_cls.2 fun e he => hw1 e (by simp [he])) ?_)
        refine matches_tail.2 ?_
        cases b with
        | nil => exact .inl rfl
        | cons c' u' =>
          refine .inr ⟨c', u', rfl, hb c' rfl, ?_⟩
          intro v hv
          refine hu v ?_
          rw [hp, ← hb1 c' u' rfl]
          exact List.mem_cons_of_mem _ hv

example : ValidName "http.request_method2".toList ∧ ¬ ValidName "http..x".toList ∧ ¬ ValidName "2x".toList ∧
    ¬ ValidName "http.X".toList ∧ ¬ ValidName "a_".toList ∧ ¬ ValidName "".toList := by
  refine ⟨(nameOk_iff _).1 (by decide), ?_, ?_, ?_, ?_, ?_⟩ <;>
    exact fun h => absurd ((nameOk_iff _).2 h) (by decide)

/-! ### Namespaces -/

theorem joinDot_append {l m : List Chars} (hl : l ≠ []) (hm : m ≠ []) : joinDot (l ++ m) = joinDot l ++ '.' :: joinDot m := by
  induction l with
  | nil => exact absurd rfl hl
  | cons w l ih =>
    cases l with
    | nil =>
      cases m with
      | nil => exact absurd rfl hm
      | cons v m => rfl
    | cons v l =>
      show joinDot (w :: v :: (l ++ m)) = joinDot (w :: v :: l) ++ '.' :: joinDot m
      rw [joinDot, joinDot]
      have := ih (by simp)
      rw [List.cons_append] at this
      rw [this]; simp

theorem joinDot_split (s : Chars) : joinDot (splitWhen (· == '.') s) = s := by
  induction s with
  | nil => rfl
  | cons c t ih =>
    unfold splitWhen
    split
    · rename_i hc
      have hc : c = '.' := by simpa using hc
      subst hc
      have := joinDot_append (l := [[]]) (m := splitWhen (· == '.') t) (by simp) (splitWhen_ne_nil _ _)
      simp only [List.singleton_append] at this
      rw [this, ih]; rfl
    · cases hp : splitWhen (· == '.') t with
      | nil => exact absurd hp (splitWhen_ne_nil _ _)
      | cons w ws =>
        rw [hp] at ih
        cases ws with
        | nil => simp [joinDot] at ih ⊢; exact ih
        | cons v ws => simp only [joinDot, List.cons_append] at ih ⊢; rw [ih]

theorem mem_prefixes (ns n : String) : ns ∈ prefixes n ↔ NamespaceOf ns n := by
  unfold prefixes NamespaceOf parts dotted
  rw [List.mem_map]
  constructor
  · rintro ⟨i, hi, rfl⟩
    rw [List.mem_range'_1] at hi
    refine ⟨joinDot ((splitWhen (· == '.') n.toList).drop i), ?_⟩
    rw [String.toList_ofList, ← joinDot_append, List.take_append_drop, joinDot_split]
    · intro h
      have := congrArg List.length h
      rw [List.length_take] at this
      simp at this
      rcases this with h | h
      · omega
      · exact splitWhen_ne_nil _ _ h
    · intro h
      have := congrArg List.length h
      rw [List.length_drop] at this
      simp at this
      omega
  · rintro ⟨rest, h⟩
    have hs := splitWhen_append (f := (· == '.')) ns.toList rest (c := '.') (by rfl)
    rw [← h] at hs
    refine ⟨(splitWhen (· == '.') ns.toList).length, ?_, ?_⟩
    · rw [List.mem_range'_1, hs, List.length_append]
      have h1 := List.length_pos_iff.2 (splitWhen_ne_nil (· == '.') ns.toList)
      have h2 := List.length_pos_iff.2 (splitWhen_ne_nil (· == '.') rest)
      omega
    · rw [hs, List.take_left', joinDot_split, String.ofList_toList]
      rfl

theorem derive_eq (n : String) : deriveNamespaces n = prefixes n := by
  unfold deriveNamespaces prefixes
  split
  · rfl
  · rename_i h
    have : (parts n).length - 1 = 0 := by omega
    rw [this]; rfl

theorem hasDot_iff (n : String) : hasDot n = true ↔ ∃ ns, NamespaceOf ns n := by
  unfold hasDot NamespaceOf
  rw [List.contains_iff_mem]
  constructor
  · intro h
    obtain ⟨a, b, hab⟩ := List.append_of_mem h
    exact ⟨String.ofList a, b, by rw [String.toList_ofList]; exact hab⟩
  · rintro ⟨ns, rest, h⟩
    rw [h]; simp

theorem joinDot_take_prefix {l : List Chars} {i j : Nat} (h : i ≤ j) : joinDot (l.take i) <+: joinDot (l.take j) := by
  have e : l.take j = l.take i ++ (l.drop i).take (j - i) := by
    have := List.take_add (l := l) (i := i) (j := j - i)
    rw [show i + (j - i) = j by omega] at this
    exact this
  rw [e]
  generalize l.take i = a
  generalize (l.drop i).take (j - i) = b
  by_cases ha : a = []
  · subst ha; exact List.nil_prefix
  · by_cases hb : b = []
    · subst hb; simp
    · rw [joinDot_append ha hb]; exact List.prefix_append _ _

/-- The namespaces of a name come from the outermost to the innermost. -/
theorem prefixes_sorted (n : String) : (prefixes n).Pairwise fun a b => a.toList <+: b.toList := by
  unfold prefixes
  rw [List.pairwise_map]
  refine List.Pairwise.imp ?_ (List.pairwise_le_range' (s := 1) (n := (parts n).length - 1) (step := 1))
  intro i j h
  unfold dotted
  rw [String.toList_ofList, String.toList_ofList]
  exact joinDot_take_prefix h

end Verif.Advice
