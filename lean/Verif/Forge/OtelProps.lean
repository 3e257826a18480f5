import Verif.Forge.Otel
import Verif.JsonDiff.Props
import Verif.Util.Forall2
/-
C35, C36, C48, C49, C50 and their companions.
-/
namespace Verif.Forge
open Verif.Util

/-! ### Fields -/

/-- A value has a field: it is a map with that key. -/
def HasField (v : Val) (k : String) (x : Val) : Prop := ∃ m, v = .map m ∧ entry k m = some x

theorem getAttr_isSome (v : Val) (k : String) : (∃ x, v.getAttr k = some x) ↔ v ≠ .undefined := by
  cases v <;> simp [Val.getAttr]

theorem getAttr_str (v : Val) (k : String) (s : String) :
    (∃ x, v.getAttr k = some x ∧ x.asStr = some s) ↔ HasField v k (.str s) := by
  cases v with
  | map m =>
    simp only [Val.getAttr, HasField, Val.map.injEq, exists_eq_left', Option.some.injEq]
    cases h : entry k m with
    | none => simp [Val.asStr]
    | some y => cases y <;> simp [Val.asStr]
  | _ => simp [Val.getAttr, HasField, Val.asStr]

theorem isUndefined_iff (v : Val) : v.isUndefined = true ↔ v = .undefined := by cases v <;> simp [Val.isUndefined]

/-- `get_attr` finds something that is not undefined. -/
theorem getAttr_defined (v : Val) (k : String) :
    hasDefined v k = true ↔ ∃ x, HasField v k x ∧ x ≠ .undefined := by
  unfold hasDefined
  cases v with
  | map m =>
    simp only [Val.getAttr, HasField, Val.map.injEq, exists_eq_left']
    cases h : entry k m with
    | none => simp [Val.isUndefined]
    | some y =>
      simp only [Option.getD_some, Bool.not_eq_true', Option.some.injEq, exists_eq_left', ← Bool.not_eq_true, isUndefined_iff]
  | _ => simp [Val.getAttr, HasField, Val.isUndefined]

/-! ### Required and not required: C35 -/

/-- The attribute is required: its requirement level is the text `required`. -/
def IsRequired (v : Val) : Prop := HasField v "requirement_level" (.str "required")

theorem pick_spec (keep : Option String → Bool) (l : List Val) (hu : ∀ v ∈ l, v ≠ .undefined) :
    pick keep l = some (l.filter fun v => keep ((v.getAttr "requirement_level").bind Val.asStr)) := by
  induction l with
  | nil => rfl
  | cons v l ih =>
    obtain ⟨x, hx⟩ := (getAttr_isSome v "requirement_level").2 (hu v (by simp))
    simp only [pick, hx, ih (fun w hw => hu w (by simp [hw])), List.filter_cons, Option.bind_some]

theorem pick_none (keep : Option String → Bool) (l : List Val) (v : Val) (hv : v ∈ l) (h : v = .undefined) :
    pick keep l = Option.none := by
  induction l with
  | nil => simp at hv
  | cons w l ih =>
    unfold pick
    cases hw : w.getAttr "requirement_level" with
    | none => rfl
    | some r =>
      rcases List.mem_cons.1 hv with rfl | hv
      · subst h; simp [Val.getAttr] at hw
      · rw [ih hv]

theorem required_test (v : Val) : decide ((v.getAttr "requirement_level").bind Val.asStr = some "required") = true ↔ IsRequired v := by
  rw [decide_eq_true_iff, IsRequired, ← getAttr_str]
  cases v.getAttr "requirement_level" <;> simp

/-- The two filters split every list of attributes into the required ones and the others, both in the original order. -/
theorem required_partition (input : Val) (l : List Val) (hi : input.iter = some l) (hu : ∀ v ∈ l, v ≠ .undefined) :
    ∃ a b, required input = some a ∧ notRequired input = some b ∧ (a ++ b).Perm l ∧ a.Sublist l ∧ b.Sublist l ∧
      (∀ v ∈ a, IsRequired v) ∧ ∀ v ∈ b, ¬ IsRequired v := by
  refine ⟨l.filter fun v => decide ((v.getAttr "requirement_level").bind Val.asStr = some "required"),
    l.filter fun v => !decide ((v.getAttr "requirement_level").bind Val.asStr = some "required"), ?_, ?_, ?_, ?_, ?_, ?_, ?_⟩
  · rw [required, hi, Option.bind_some, pick_spec _ _ hu]
  · rw [notRequired, hi, Option.bind_some, pick_spec _ _ hu]
    congr 1
    refine List.filter_congr fun v _ => ?_
    simp
  · exact List.filter_append_perm _ _
  · exact List.filter_sublist
  · exact List.filter_sublist
  · intro v hv
    exact (required_test v).1 (List.mem_filter.1 hv).2
  · intro v hv h
    have := (List.mem_filter.1 hv).2
    rw [(required_test v).2 h] at this
    cases this

/-- The filters fail together: on values that cannot be iterated over, and on lists with an undefined element. -/
theorem required_fails (input : Val) : (required input = Option.none ↔ notRequired input = Option.none) ∧
    (required input = Option.none ↔ ∀ l, input.iter = some l → .undefined ∈ l) := by
  have key : ∀ keep : Option String → Bool, input.iter.bind (pick keep) = Option.none ↔
      ∀ l, input.iter = some l → .undefined ∈ l := by
    intro keep
    cases hi : input.iter with
    | none => simp
    | some l =>
      simp only [Option.bind_some, Option.some.injEq, forall_eq']
      constructor
      · intro h
        by_cases hm : .undefined ∈ l
        · exact hm
        · rw [pick_spec keep l (fun v hv e => hm (e ▸ hv))] at h; cases h
      · intro h; exact pick_none keep l _ h rfl
  exact ⟨(key _).trans (key _).symm, key _⟩

/-- Every value is either stable or experimental, and it is stable exactly if its stability is the text `stable`. -/
theorem stable_or_experimental (v : Val) : isExperimental v = !isStable v ∧
    (isStable v = true ↔ HasField v "stability" (.str "stable")) := by
  constructor
  · unfold isExperimental isStable
    cases v.getAttr "stability" with
    | none => rfl
    | some s =>
      dsimp only
      cases h : s.asStr with
      | none => rfl
      | some t => rfl
  · rw [← getAttr_str]
    unfold isStable
    cases v.getAttr "stability" with
    | none => simp
    | some s => cases h : s.asStr <;> simp [h]

/-- Three attributes. -/
def sampleAttrs : Val := .seq [.map [("name", .str "b"), ("requirement_level", .str "opt_in")],
  .map [("name", .str "a"), ("requirement_level", .str "required"), ("stability", .str "stable")],
  .map [("key", .str "c"), ("requirement_level", .map [("conditionally_required", .str "if")])]]

example : ∃ a b c, required sampleAttrs = some [a] ∧ notRequired sampleAttrs = some [b, c] ∧ isStable a = true :=
  ⟨_, _, _, rfl, rfl, by decide⟩

/-! ### Sorting by requirement level: C36 -/

/-- The requirement levels and their ranks. -/
inductive Rank : Val → Nat → Prop
  | absent : Rank .undefined 0
  | required : Rank (.str "required") 1
  | conditional {v x} : HasField v "conditionally_required" x → x ≠ .undefined → Rank v 2
  | recommended : Rank (.str "recommended") 3
  | recommendedIf {v x} : (∀ y, HasField v "conditionally_required" y → y = .undefined) →
      HasField v "recommended" x → x ≠ .undefined → Rank v 3
  | optIn : Rank (.str "opt_in") 4

/-- The rank of an attribute. -/
def AttrRank (v : Val) (n : Nat) : Prop := ∃ level, v.getAttr "requirement_level" = some level ∧ Rank level n

theorem rank_str (s : String) (n : Nat) : Rank (.str s) n ↔
    (s = "required" ∧ n = 1) ∨ (s = "recommended" ∧ n = 3) ∨ (s = "opt_in" ∧ n = 4) := by
  constructor
  · intro h
    generalize hv : Val.str s = v at h
    cases h with
    | required => exact .inl ⟨Val.str.inj hv, rfl⟩
    | recommended => exact .inr (.inl ⟨Val.str.inj hv, rfl⟩)
    | optIn => exact .inr (.inr ⟨Val.str.inj hv, rfl⟩)
    | absent => cases hv
    | conditional h _ => subst hv; obtain ⟨m, h, _⟩ := h; cases h
    | recommendedIf _ h _ => subst hv; obtain ⟨m, h, _⟩ := h; cases h
  · rintro (⟨rfl, rfl⟩ | ⟨rfl, rfl⟩ | ⟨rfl, rfl⟩)
    · exact .required
    · exact .recommended
    · exact .optIn

theorem ordinal_iff (v : Val) (n : Nat) : ordinal v = some n ↔ AttrRank v n := by
  unfold ordinal AttrRank
  cases v.getAttr "requirement_level" with
  | none => simp
  | some level =>
    simp only [Option.some.injEq, exists_eq_left']
    by_cases h0 : level = .undefined
    · subst h0
      rw [if_pos ((isUndefined_iff _).2 rfl)]
      constructor
      · intro h; cases h; exact .absent
      · intro h
        cases h with
        | absent => rfl
        | conditional h _ => obtain ⟨m, h, _⟩ := h; cases h
        | recommendedIf _ h _ => obtain ⟨m, h, _⟩ := h; cases h
    rw [if_neg (fun h => h0 ((isUndefined_iff _).1 h))]
    by_cases h1 : ∃ x, HasField level "conditionally_required" x ∧ x ≠ .undefined
    · rw [if_pos ((getAttr_defined _ _).2 h1)]
      obtain ⟨x, hx, hn⟩ := h1
      constructor
      · intro h; cases h; exact .conditional hx hn
      · intro h
        cases h with
        | absent => exact absurd rfl h0
        | conditional => rfl
        | recommendedIf h _ _ => exact absurd (h x hx) hn
        | required => obtain ⟨m, h, _⟩ := hx; cases h
        | recommended => obtain ⟨m, h, _⟩ := hx; cases h
        | optIn => obtain ⟨m, h, _⟩ := hx; cases h
    rw [if_neg (fun h => h1 ((getAttr_defined _ _).1 h))]
    by_cases h2 : ∃ x, HasField level "recommended" x ∧ x ≠ .undefined
    · rw [if_pos ((getAttr_defined _ _).2 h2)]
      obtain ⟨x, hx, hn⟩ := h2
      constructor
      · intro h; cases h
        exact .recommendedIf (fun y hy => Classical.byContradiction fun hy' => h1 ⟨y, hy, hy'⟩) hx hn
      · intro h
        cases h with
        | absent => exact absurd rfl h0
        | conditional h h' => exact absurd ⟨_, h, h'⟩ h1
        | recommendedIf h _ _ => rfl
        | required => obtain ⟨m, h, _⟩ := hx; cases h
        | recommended => rfl
        | optIn => obtain ⟨m, h, _⟩ := hx; cases h
    rw [if_neg (fun h => h2 ((getAttr_defined _ _).1 h))]
    cases level with
    | str s =>
      rw [rank_str]
      simp only [Val.asStr, Option.some.injEq]
      by_cases e1 : s = "required"
      · subst e1; simp; exact eq_comm
      rw [if_neg e1]
      by_cases e2 : s = "recommended"
      · subst e2; simp; exact eq_comm
      rw [if_neg e2]
      by_cases e3 : s = "opt_in"
      · subst e3; simp; exact eq_comm
      rw [if_neg e3]
      simp [e1, e2, e3]
    | undefined => exact absurd rfl h0
    | _ =>
      simp only [Val.asStr]
      refine iff_of_false (by simp) ?_
      intro h
      cases h with
      | conditional h h' => exact h1 ⟨_, h, h'⟩
      | recommendedIf _ h h' => exact h2 ⟨_, h, h'⟩

/-- The name of an attribute, or its key if it has none. -/
def Named (v n : Val) : Prop :=
  (HasField v "name" n ∧ n ≠ .undefined) ∨ ((∀ x, HasField v "name" x → x = .undefined) ∧ v.getAttr "key" = some n)

theorem nameOrKey_named {v : Val} (h : v ≠ .undefined) : ∃ n, nameOrKey v = some n ∧ Named v n := by
  unfold nameOrKey
  obtain ⟨x, hx⟩ := (getAttr_isSome v "name").2 h
  rw [hx]
  dsimp only
  by_cases hu : x = .undefined
  · rw [if_pos ((isUndefined_iff x).2 hu)]
    obtain ⟨y, hy⟩ := (getAttr_isSome v "key").2 h
    refine ⟨y, hy, .inr ⟨?_, hy⟩⟩
    rintro z ⟨m, rfl, hz⟩
    simp [Val.getAttr, hz] at hx
    rw [hx, hu]
  · rw [if_neg (fun h => hu ((isUndefined_iff x).1 h))]
    refine ⟨x, rfl, .inl ⟨?_, hu⟩⟩
    cases v with
    | map m =>
      refine ⟨m, rfl, ?_⟩
      simp only [Val.getAttr, Option.some.injEq] at hx
      cases he : entry "name" m with
      | none => rw [he] at hx; exact absurd hx.symm hu
      | some y => rw [he] at hx; simpa using hx
    | _ => simp [Val.getAttr] at hx <;> exact absurd hx.symm hu

theorem Named.unique {v n n' : Val} (h : Named v n) (h' : Named v n') : n = n' := by
  rcases h with ⟨h1, h2⟩ | ⟨h1, h2⟩ <;> rcases h' with ⟨h3, h4⟩ | ⟨h3, h4⟩
  · obtain ⟨m, rfl, e⟩ := h1; obtain ⟨m', e', e''⟩ := h3
    cases e'; rw [e] at e''; exact Option.some.inj e''
  · exact absurd (h3 _ h1) h2
  · exact absurd (h1 _ h3) h4
  · rw [h2] at h4; exact Option.some.inj h4

variable (vle : Val → Val → Bool)

theorem notGreater_totalPre (h : TotalPre vle) : TotalPre (notGreater vle) where
  total a b := by
    unfold notGreater
    simp only [Bool.or_eq_true, Bool.and_eq_true, decide_eq_true_eq]
    rcases Nat.lt_trichotomy ((ordinal a).getD 0) ((ordinal b).getD 0) with h1 | h1 | h1
    · exact .inl (.inl h1)
    · rcases h.total ((nameOrKey a).getD .undefined) ((nameOrKey b).getD .undefined) with h | h
      · exact .inl (.inr ⟨h1, h⟩)
      · exact .inr (.inr ⟨h1.symm, h⟩)
    · exact .inr (.inl h1)
  trans a b c := by
    unfold notGreater
    simp only [Bool.or_eq_true, Bool.and_eq_true, decide_eq_true_eq]
    intro h1 h2
    rcases h1 with h1 | ⟨h1, h1'⟩ <;> rcases h2 with h2 | ⟨h2, h2'⟩
    · left; omega
    · left; omega
    · left; omega
    · right; exact ⟨by omega, h.trans _ _ _ h1' h2'⟩

/-- `a` comes before `b`, or they tie: a lower rank, or the same rank and a name that is not greater. -/
def Before (a b : Val) : Prop := ∃ i j, AttrRank a i ∧ AttrRank b j ∧
  (i < j ∨ (i = j ∧ ∀ m n, Named a m → Named b n → vle m n = true))

theorem notGreater_iff {a b : Val} {i j : Nat} (ha : AttrRank a i) (hb : AttrRank b j) :
    notGreater vle a b = true ↔ Before vle a b := by
  have ha' := (ordinal_iff a i).2 ha
  have hb' := (ordinal_iff b j).2 hb
  have na : a ≠ .undefined := by rintro rfl; simp [ordinal, Val.getAttr] at ha'
  have nb : b ≠ .undefined := by rintro rfl; simp [ordinal, Val.getAttr] at hb'
  obtain ⟨m, hm, hm'⟩ := nameOrKey_named na
  obtain ⟨n, hn, hn'⟩ := nameOrKey_named nb
  simp only [notGreater, ha', hb', hm, hn, Option.getD_some, Bool.or_eq_true, Bool.and_eq_true, decide_eq_true_eq]
  constructor
  · rintro (h | ⟨h, h'⟩)
    · exact ⟨i, j, ha, hb, .inl h⟩
    · refine ⟨i, j, ha, hb, .inr ⟨h, fun m' n' h1 h2 => ?_⟩⟩
      rw [hm'.unique h1, hn'.unique h2] at h'; exact h'
  · rintro ⟨i', j', h1, h2, h3⟩
    have e1 : i' = i := Option.some.inj (((ordinal_iff a i').2 h1).symm.trans ha')
    have e2 : j' = j := Option.some.inj (((ordinal_iff b j').2 h2).symm.trans hb')
    subst e1; subst e2
    rcases h3 with h3 | ⟨h3, h4⟩
    · exact .inl h3
    · exact .inr ⟨h3, h4 m n hm' hn'⟩

/-- Sorting attributes gives a permutation of them that is sorted by rank and then by name, and in which attributes that
tie keep their order. -/
theorem attributeSort_sorted (hv : TotalPre vle) (input : Val) (l : List Val) (hi : input.iter = some l)
    (hr : ∀ v ∈ l, ∃ n, AttrRank v n) :
    ∃ out, attributeSort vle input = some out ∧ out.Perm l ∧ out.Pairwise (Before vle) ∧
      ∀ p : Val → Bool, (∀ a ∈ l, p a = true → ∀ b ∈ l, p b = true → Before vle a b) →
        out.filter p = l.filter p := by
  have hb : l.any (fun v => (ordinal v).isNone) = false := by
    rw [List.any_eq_false]
    intro v hv'
    obtain ⟨n, hn⟩ := hr v hv'
    rw [(ordinal_iff v n).2 hn]; simp
  refine ⟨sortBy (notGreater vle) l, ?_, sortBy_perm _ _, ?_, ?_⟩
  · rw [attributeSort, hi, Option.bind_some, hb, Bool.and_false]; rfl
  · have hs := sortBy_sorted (notGreater_totalPre vle hv) l
    refine List.Pairwise.imp_of_mem ?_ hs
    intro a b ha hb' h
    obtain ⟨i, hi'⟩ := hr a (mem_sortBy.1 ha)
    obtain ⟨j, hj⟩ := hr b (mem_sortBy.1 hb')
    exact (notGreater_iff vle hi' hj).1 h
  · intro p hp
    refine sortBy_stable _ p l ?_
    intro a ha b hb' pa pb
    obtain ⟨i, hi'⟩ := hr a ha
    obtain ⟨j, hj⟩ := hr b hb'
    exact (notGreater_iff vle hi' hj).2 (hp a ha pa b hb' pb)

/-- The order of the input does not matter if no two different attributes tie. -/
theorem attributeSort_order (hv : TotalPre vle) (l l' : List Val) (hp : l.Perm l')
    (hr : ∀ v ∈ l, ∃ n, AttrRank v n)
    (ht : ∀ a ∈ l, ∀ b ∈ l, Before vle a b → Before vle b a → a = b) :
    attributeSort vle (.seq l) = attributeSort vle (.seq l') := by
  have hb : ∀ k : List Val, (∀ v ∈ k, v ∈ l) → k.any (fun v => (ordinal v).isNone) = false := by
    intro k hk
    rw [List.any_eq_false]
    intro v hv'
    obtain ⟨n, hn⟩ := hr v (hk v hv')
    rw [(ordinal_iff v n).2 hn]; simp
  rw [attributeSort, attributeSort]
  simp only [Val.iter, Option.bind_some, hb l (fun _ h => h), hb l' (fun _ h => hp.mem_iff.2 h), Bool.and_false, Bool.false_eq_true,
    if_false]
  congr 1
  refine sortBy_perm_inv (notGreater_totalPre vle hv) ?_ hp
  intro a ha b hb' h1 h2
  obtain ⟨i, hi'⟩ := hr a ha
  obtain ⟨j, hj⟩ := hr b hb'
  exact ht a ha b hb' ((notGreater_iff vle hi' hj).1 h1) ((notGreater_iff vle hj hi').1 h2)

/-- Sorting fails exactly on values that cannot be iterated over, and on two or more attributes one of which has no
rank. -/
theorem attributeSort_fails (input : Val) : attributeSort vle input = Option.none ↔
    ∀ l, input.iter = some l → 2 ≤ l.length ∧ ∃ v ∈ l, ∀ n, ¬ AttrRank v n := by
  unfold attributeSort
  cases hi : input.iter with
  | none => simp
  | some l =>
    simp only [Option.bind_some, Option.some.injEq, forall_eq']
    have : l.any (fun v => (ordinal v).isNone) = true ↔ ∃ v ∈ l, ∀ n, ¬ AttrRank v n := by
      simp only [List.any_eq_true, Option.isNone_iff_eq_none, Option.eq_none_iff_forall_ne_some, ne_eq, ordinal_iff]
    rw [← this]
    by_cases h : (decide (2 ≤ l.length) && l.any fun v => (ordinal v).isNone) = true
    · rw [if_pos h]; simpa using h
    · rw [if_neg h]; simpa using h

/-- The order of texts, and everything else after them: an order of values for the examples. -/
def sampleLe : Val → Val → Bool
  | .str a, .str b => decide (a ≤ b)
  | .str _, _ => true
  | _, .str _ => false
  | _, _ => true

theorem sampleLe_totalPre : TotalPre sampleLe where
  total a b := by
    cases a <;> cases b <;> simp [sampleLe]
    exact String.le_total _ _
  trans a b c := by
    cases a <;> cases b <;> cases c <;> simp [sampleLe]
    exact String.le_trans

example : ∃ a b c, sampleAttrs.iter = some [b, a, c] ∧ attributeSort sampleLe sampleAttrs = some [a, c, b] :=
  ⟨_, _, _, rfl, rfl⟩

/-- The requirement levels of a registry (attribute.rs:737-795). -/
inductive ValidLevel : Val → Prop
  | required : ValidLevel (.str "required")
  | recommended : ValidLevel (.str "recommended")
  | optIn : ValidLevel (.str "opt_in")
  | conditional (t) : ValidLevel (.map [("conditionally_required", .str t)])
  | recommendedIf (t) : ValidLevel (.map [("recommended", .str t)])
  | optInIf (t) : ValidLevel (.map [("opt_in", .str t)])

/-- Sorting works for all valid levels except an opt-in with a condition. -/
theorem attributeSort_valid_partial (l : List Val)
    (hl : ∀ v ∈ l, ∃ level, HasField v "requirement_level" level ∧ ValidLevel level ∧ ∀ t, level ≠ .map [("opt_in", .str t)]) :
    ∃ out, attributeSort vle (.seq l) = some out := by
  cases h : attributeSort vle (.seq l) with
  | some out => exact ⟨out, rfl⟩
  | none =>
    obtain ⟨_, v, hv, hn⟩ := (attributeSort_fails vle (.seq l)).1 h l rfl
    obtain ⟨level, ⟨m, rfl, hm⟩, hval, hne⟩ := hl v hv
    have hg : Val.getAttr (.map m) "requirement_level" = some level := by simp [Val.getAttr, hm]
    exfalso
    cases hval with
    | required => exact hn 1 ⟨_, hg, .required⟩
    | recommended => exact hn 3 ⟨_, hg, .recommended⟩
    | optIn => exact hn 4 ⟨_, hg, .optIn⟩
    | conditional t => exact hn 2 ⟨_, hg, .conditional ⟨_, rfl, rfl⟩ (by simp)⟩
    | recommendedIf t =>
      refine hn 3 ⟨_, hg, .recommendedIf ?_ ⟨_, rfl, rfl⟩ (by simp)⟩
      rintro y ⟨m, e, h⟩; cases e; simp [entry] at h
    | optInIf t => exact hne t rfl

/-- An opt-in with a condition makes the sort of two attributes fail. -/
theorem attributeSort_valid_refuted : ∃ l : List Val,
    (∀ v ∈ l, ∃ level, HasField v "requirement_level" level ∧ ValidLevel level) ∧ attributeSort vle (.seq l) = Option.none := by
  refine ⟨[.map [("requirement_level", .str "required")], .map [("requirement_level", .map [("opt_in", .str "if")])]], ?_, rfl⟩
  intro v hv
  rcases List.mem_cons.1 hv with rfl | hv
  · exact ⟨_, ⟨_, rfl, rfl⟩, .required⟩
  · rcases List.mem_cons.1 hv with rfl | hv
    · exact ⟨_, ⟨_, rfl, rfl⟩, .optInIf _⟩
    · cases hv

/-! ### Names: C48 -/

/-- Splitting a name: at its first dot, whose sides must not be empty; a name without a dot is in the namespace `other`. -/
theorem attributeSplit_iff (s a b : Chars) : attributeSplit s = some (a, b) ↔
    (s = a ++ '.' :: b ∧ '.' ∉ a ∧ a ≠ [] ∧ b ≠ []) ∨ ('.' ∉ s ∧ s ≠ [] ∧ a = "other".toList ∧ b = s) := by
  unfold attributeSplit
  by_cases h0 : s = []
  · subst h0; simp
  rw [if_neg h0]
  cases hs : splitFirst ['.'] s with
  | none =>
    have hn : '.' ∉ s := by
      have := splitFirst_none.1 hs
      intro hm; apply this
      obtain ⟨x, y, e⟩ := List.append_of_mem hm
      exact ⟨x, y, by simp [e]⟩
    constructor
    · intro h
      obtain ⟨rfl, rfl⟩ := Prod.mk.inj (Option.some.inj h)
      exact .inr ⟨hn, h0, rfl, rfl⟩
    · rintro (⟨h, _⟩ | ⟨_, _, rfl, rfl⟩)
      · exact absurd (by rw [h]; simp) hn
      · rfl
  | some p =>
    obtain ⟨x, y⟩ := p
    have he : s = x ++ '.' :: y := by simpa using splitFirst_eq hs
    have hx : '.' ∉ x := by
      intro hm
      obtain ⟨u, w, e⟩ := List.append_of_mem hm
      have := splitFirst_first hs (a' := u) (b' := w ++ '.' :: y) (by rw [he, e]; simp)
      rw [e] at this; simp at this; omega
    have hd : '.' ∈ s := by rw [he]; simp
    have hu : ∀ {a b : Chars}, s = a ++ '.' :: b → '.' ∉ a → a = x ∧ b = y := by
      intro a b h hna
      rw [he] at h
      rcases List.append_eq_append_iff.1 h with ⟨t, h1, h2⟩ | ⟨t, h1, h2⟩
      · cases t with
        | nil => simp at h1 h2; exact ⟨h1, h2.symm⟩
        | cons c t => simp at h2; exact absurd (by rw [h1, ← h2.1]; simp) hna
      · cases t with
        | nil => simp at h1 h2; exact ⟨h1.symm, h2⟩
        | cons c t => simp at h2; exact absurd (by rw [h1, ← h2.1]; simp) hx
    cases y with
    | nil =>
      refine iff_of_false (by simp) ?_
      rintro (⟨h, h1, _, h2⟩ | ⟨h, _⟩)
      · exact h2 (hu h h1).2
      · exact h hd
    | cons c y =>
      cases x with
      | nil =>
        refine iff_of_false (by simp) ?_
        rintro (⟨h, h1, h2, _⟩ | ⟨h, _⟩)
        · exact h2 (hu h h1).1
        · exact h hd
      | cons d x =>
        constructor
        · intro h
          obtain ⟨rfl, rfl⟩ := Prod.mk.inj (Option.some.inj h)
          exact .inl ⟨he, hx, by simp, by simp⟩
        · rintro (⟨h, h1, _, _⟩ | ⟨h, _⟩)
          · obtain ⟨rfl, rfl⟩ := hu h h1; rfl
          · exact absurd hd h

/-- Namespace and id of a name, joined with a dot, are the name, or the name has no dot and its namespace is `other`. -/
theorem name_rejoined (s a b : Chars) (ha : attributeNamespace s = some a) (hb : attributeId s = some b) :
    s = a ++ '.' :: b ∨ ('.' ∉ s ∧ a = "other".toList ∧ b = s) := by
  unfold attributeNamespace at ha
  unfold attributeId at hb
  cases h : attributeSplit s with
  | none => rw [h] at ha; cases ha
  | some p =>
    obtain ⟨x, y⟩ := p
    rw [h] at ha hb
    cases ha; cases hb
    rcases (attributeSplit_iff s x y).1 h with h | h
    · exact .inl h.1
    · exact .inr ⟨h.1, h.2.2.1, h.2.2.2⟩

/-- The names that can be split: not empty, not starting with a dot, and not ending with their only dot. -/
theorem split_fails (s : Chars) : attributeSplit s = Option.none ↔
    s = [] ∨ (∃ b, s = '.' :: b) ∨ ∃ a, s = a ++ ['.'] ∧ '.' ∉ a := by
  constructor
  · intro h
    apply Classical.byContradiction
    intro hn
    have h0 : s ≠ [] := fun e => hn (.inl e)
    by_cases hd : '.' ∈ s
    · obtain ⟨a, b, e, ha⟩ := List.eq_append_cons_of_mem hd
      have := (attributeSplit_iff s a b).2 (.inl ⟨e, ha, ?_, ?_⟩)
      · rw [h] at this; cases this
      · rintro rfl; exact hn (.inr (.inl ⟨b, e⟩))
      · rintro rfl; exact hn (.inr (.inr ⟨a, e, ha⟩))
    · have := (attributeSplit_iff s _ _).2 (.inr ⟨hd, h0, rfl, rfl⟩)
      rw [h] at this; cases this
  · intro h
    cases hs : attributeSplit s with
    | none => rfl
    | some p =>
      obtain ⟨a, b⟩ := p
      exfalso
      rcases (attributeSplit_iff s a b).1 hs with ⟨e, h1, h2, h3⟩ | ⟨h1, h2, _⟩
      · rcases h with rfl | ⟨t, rfl⟩ | ⟨t, rfl, ht⟩
        · simp at e
        · cases a with
          | nil => exact h2 rfl
          | cons c a => simp at e; exact h1 (by rw [← e.1]; simp)
        · have hm : '.' ∉ b := by
            intro hm
            have hc := congrArg (List.count '.') e
            simp only [List.count_append, List.count_cons, List.count_nil, List.count_eq_zero_of_not_mem ht,
              List.count_eq_zero_of_not_mem h1, beq_self_eq_true, if_true] at hc
            have := List.count_pos_iff.2 hm
            omega
          have hl := congrArg List.getLast? e
          cases b with
          | nil => exact h3 rfl
          | cons c b =>
            rw [List.getLast?_append, List.getLast?_append] at hl
            simp only [List.getLast?_singleton, Option.some_or, List.getLast?_cons_cons] at hl
            rw [List.getLast?_eq_some_getLast (List.cons_ne_nil c b), Option.some_or] at hl
            exact hm (Option.some.inj hl ▸ List.getLast_mem (List.cons_ne_nil c b))
      · rcases h with rfl | ⟨t, rfl⟩ | ⟨t, rfl, _⟩
        · exact h2 rfl
        · exact h1 (by simp)
        · exact h1 (by simp)

/-- The namespace after a first part: the name is the first part, a dot, the namespace, and nothing or another dot. -/
theorem namespaceAfter_iff (first s q : Chars) (hf : '.' ∉ first) : namespaceAfter first s = some q ↔
    '.' ∉ q ∧ (s = first ++ '.' :: q ∨ ∃ r, s = first ++ '.' :: (q ++ '.' :: r)) := by
  have hclean : ∀ w : Chars, '.' ∉ w → ∀ c ∈ w, (c == '.') = false := by
    intro w hw c hc
    cases h : c == '.' with
    | false => rfl
    | true => rw [beq_iff_eq.1 h] at hc; exact absurd hc hw
  have hsplit : ∀ (a t : Chars), '.' ∉ a → splitWhen (· == '.') (a ++ '.' :: t) = a :: splitWhen (· == '.') t := by
    intro a t ha
    rw [splitWhen_append (f := (· == '.')) a t (c := '.') (by simp), splitWhen_clean (hclean a ha)]
    rfl
  unfold namespaceAfter parts
  constructor
  · intro h
    have hd : '.' ∈ s := by
      apply Classical.byContradiction
      intro hd
      rw [splitWhen_clean (hclean s hd)] at h
      simp at h
    obtain ⟨a, t, rfl, ha⟩ := List.eq_append_cons_of_mem hd
    rw [hsplit a t ha] at h
    by_cases hd2 : '.' ∈ t
    · obtain ⟨b, r, rfl, hb⟩ := List.eq_append_cons_of_mem hd2
      rw [hsplit b r hb] at h
      simp only at h
      split at h
      · rename_i e; cases h; subst e; exact ⟨hb, .inr ⟨r, rfl⟩⟩
      · cases h
    · rw [splitWhen_clean (hclean t hd2)] at h
      simp only at h
      split at h
      · rename_i e; cases h; subst e; exact ⟨hd2, .inl rfl⟩
      · cases h
  · rintro ⟨hq, rfl | ⟨r, rfl⟩⟩
    · rw [hsplit first q hf, splitWhen_clean (hclean q hq)]; simp
    · rw [hsplit first _ hf, hsplit q r hq]; simp

example : attributeNamespace "http.request.method".toList = some "http".toList ∧
    attributeId "http.request.method".toList = some "request.method".toList := by decide
example : namespaceAfter "registry".toList "registry.http.deprecated".toList = some "http".toList := by decide

/-- Different names with a dot have a different namespace or id. -/
theorem names_distinct_partial (s t : Chars) (hs : '.' ∈ s) (ht : '.' ∈ t) (a b : Chars)
    (h : attributeSplit s = some (a, b)) (h' : attributeSplit t = some (a, b)) : s = t := by
  rcases (attributeSplit_iff s a b).1 h with h | h
  · rcases (attributeSplit_iff t a b).1 h' with h' | h'
    · rw [h.1, h'.1]
    · exact absurd ht h'.1
  · exact absurd hs h.1

/-- The names `x` and `other.x` have the same namespace and id. -/
theorem names_distinct_refuted : ∃ s t : Chars, s ≠ t ∧ attributeSplit s = attributeSplit t ∧ ∃ p, attributeSplit s = some p :=
  ⟨"x".toList, "other.x".toList, by decide, by decide, _, rfl⟩

/-! ### Enum types: C50 -/

variable (whole : Nat → Bool)

/-- The type of a member: of a 64 bit integer or a double that is converted to one, of another number, of a text. -/
inductive MemberType : Val → String → Prop
  | int {m i} : HasField m "value" (.int i) → -9223372036854775808 ≤ i → i ≤ 9223372036854775807 → MemberType m "int"
  | big {m i} : HasField m "value" (.int i) → i < -9223372036854775808 ∨ 9223372036854775807 < i → MemberType m "double"
  | whole {m f} : HasField m "value" (.float f) → whole f = true → MemberType m "int"
  | double {m f} : HasField m "value" (.float f) → whole f = false → MemberType m "double"
  | string {m s} : HasField m "value" (.str s) → MemberType m "string"

theorem memberType_iff (m : Val) (t : String) : memberType whole m = some t ↔ MemberType whole m t := by
  have hf : ∀ x, x ≠ .undefined → (m.getAttr "value" = some x ↔ HasField m "value" x) := by
    intro x hx
    cases m with
    | map e =>
      simp only [Val.getAttr, HasField, Val.map.injEq, exists_eq_left']
      cases h : entry "value" e with
      | none => simp; exact fun h => hx h.symm
      | some y => simp
    | _ => simp [Val.getAttr, HasField] <;> exact fun h => hx h.symm
  unfold memberType
  constructor
  · intro h
    split at h
    · rename_i i hg
      have hg := (hf _ (by simp)).1 hg
      cases h
      split
      · rename_i h; exact .int hg h.1 h.2
      · rename_i h; exact .big hg (by omega)
    · rename_i f hg
      have hg := (hf _ (by simp)).1 hg
      cases h
      split
      · rename_i h; exact .whole hg h
      · rename_i h; exact .double hg (by simpa using h)
    · rename_i s hg
      cases h
      exact .string ((hf _ (by simp)).1 hg)
    · cases h
  · intro h
    cases h with
    | int h h1 h2 => rw [(hf _ (by simp)).2 h]; simp [h1, h2]
    | big h h1 => rw [(hf _ (by simp)).2 h]; simp only [Option.some.injEq]; rw [if_neg (by omega)]
    | whole h h1 => rw [(hf _ (by simp)).2 h]; simp [h1]
    | double h h1 => rw [(hf _ (by simp)).2 h]; simp [h1]
    | string h => rw [(hf _ (by simp)).2 h]

theorem MemberType.unique {m : Val} {t t' : String} (h : MemberType whole m t) (h' : MemberType whole m t') : t = t' :=
  Option.some.inj (((memberType_iff whole m t).2 h).symm.trans ((memberType_iff whole m t').2 h'))

/-- The type of a list of members: the common type of all, or `string` if there is none. -/
def CommonType (l : List Val) (t : String) : Prop :=
  (∀ m ∈ l, ∃ u, MemberType whole m u) ∧
  ((∀ m ∈ l, MemberType whole m t) ∨ (t = "string" ∧ ∀ u, ∃ m ∈ l, ¬ MemberType whole m u))

theorem inferFrom_some (l : List Val) : ∀ (c t : String), inferFrom whole (some c) l = some (some t) ↔
    (∀ m ∈ l, ∃ u, MemberType whole m u) ∧
    (((∀ m ∈ l, MemberType whole m c) ∧ t = c) ∨ ((∃ m ∈ l, ¬ MemberType whole m c) ∧ t = "string")) := by
  induction l with
  | nil => intro c t; simp [inferFrom]; exact ⟨fun h => h.symm, fun h => h.symm⟩
  | cons m l ih =>
    intro c t
    unfold inferFrom
    cases hm : memberType whole m with
    | none =>
      refine iff_of_false (by simp) ?_
      rintro ⟨h, _⟩
      obtain ⟨u, hu⟩ := h m (by simp)
      rw [(memberType_iff whole m u).2 hu] at hm; cases hm
    | some u =>
      have hu := (memberType_iff whole m u).1 hm
      dsimp only
      by_cases hc : c = u
      · subst hc
        simp only [ne_eq, not_true_eq_false, if_false, ih, List.mem_cons, forall_eq_or_imp, exists_eq_or_imp, hu, true_and, false_or,
          not_true_eq_false]
        exact ⟨fun h => ⟨⟨⟨_, hu⟩, h.1⟩, h.2⟩, fun h => ⟨h.1.2, h.2⟩⟩
      · have hn : ¬ MemberType whole m c := fun h => hc (h.unique whole hu)
        rw [if_pos hc, ih]
        simp only [List.mem_cons, forall_eq_or_imp, exists_eq_or_imp, hn, false_and, false_or, not_false_eq_true, true_or, true_and]
        constructor
        · rintro ⟨h1, ⟨_, h2⟩ | ⟨_, h2⟩⟩ <;> exact ⟨⟨⟨u, hu⟩, h1⟩, h2⟩
        · rintro ⟨⟨_, h1⟩, h2⟩
          refine ⟨h1, ?_⟩
          by_cases h : ∀ m ∈ l, MemberType whole m "string"
          · exact .inl ⟨h, h2⟩
          · exact .inr ⟨by simpa using h, h2⟩

/-- The type of an enum is the common type of its members, or `string` if they differ; it fails without members. -/
theorem enumType_iff (v : Val) (t : String) : enumType whole v = some t ↔
    ∃ ms l, v.getAttr "members" = some ms ∧ ms.iter = some l ∧ l ≠ [] ∧ CommonType whole l t := by
  unfold enumType
  cases hg : v.getAttr "members" with
  | none => simp
  | some ms =>
    dsimp only
    cases hi : ms.iter with
    | none => simp [hi]
    | some l =>
      dsimp only
      refine Iff.trans (b := inferFrom whole Option.none l = some (some t)) ?_ ?_
      · cases inferFrom whole Option.none l with
        | none => simp
        | some o => cases o <;> simp
      have hy : (∃ ms' l', some ms = some ms' ∧ ms'.iter = some l' ∧ l' ≠ [] ∧ CommonType whole l' t) ↔
          l ≠ [] ∧ CommonType whole l t := by
        constructor
        · rintro ⟨ms', l', e, h1, h2⟩; cases e; rw [hi] at h1; cases h1; exact h2
        · intro h; exact ⟨ms, l, rfl, hi, h⟩
      rw [hy]
      cases l with
      | nil => simp [inferFrom]
      | cons m l =>
        simp only [ne_eq, reduceCtorEq, not_false_eq_true, true_and]
        unfold inferFrom
        cases hm : memberType whole m with
        | none =>
          refine iff_of_false (by simp) ?_
          rintro ⟨h, _⟩
          obtain ⟨u, hu⟩ := h m (by simp)
          rw [(memberType_iff whole m u).2 hu] at hm; cases hm
        | some u =>
          have hu := (memberType_iff whole m u).1 hm
          dsimp only
          rw [inferFrom_some]
          unfold CommonType
          simp only [List.mem_cons, forall_eq_or_imp, exists_eq_or_imp]
          constructor
          · rintro ⟨h1, ⟨h2, rfl⟩ | ⟨⟨x, hx, h2⟩, rfl⟩⟩
            · exact ⟨⟨⟨_, hu⟩, h1⟩, .inl ⟨hu, h2⟩⟩
            · refine ⟨⟨⟨_, hu⟩, h1⟩, .inr ⟨rfl, fun w => ?_⟩⟩
              by_cases hw : w = u
              · subst hw; exact .inr ⟨x, hx, h2⟩
              · exact .inl fun h => hw (h.unique whole hu)
          · rintro ⟨⟨_, h1⟩, ⟨h2, h3⟩ | ⟨rfl, h2⟩⟩
            · have := h2.unique whole hu; subst this
              exact ⟨h1, .inl ⟨h3, rfl⟩⟩
            · refine ⟨h1, ?_⟩
              rcases h2 u with h | ⟨x, hx, h⟩
              · exact absurd hu h
              · exact .inr ⟨⟨x, hx, h⟩, rfl⟩

/-- The type of an enum does not depend on the order of its members. -/
theorem enumType_order (l l' : List Val) (h : l.Perm l') :
    enumType whole (.map [("members", .seq l)]) = enumType whole (.map [("members", .seq l')]) := by
  have key : ∀ l l' : List Val, l.Perm l' → ∀ t, enumType whole (.map [("members", .seq l)]) = some t →
      enumType whole (.map [("members", .seq l')]) = some t := by
    intro l l' h t ht
    obtain ⟨ms, k, e1, e2, e3, h1, h2⟩ := (enumType_iff whole _ t).1 ht
    have e1 := Option.some.inj e1; subst e1
    have e2 := Option.some.inj e2; subst e2
    refine (enumType_iff whole _ t).2 ⟨.seq l', l', rfl, rfl, ?_, fun m hm => h1 m (h.mem_iff.2 hm), ?_⟩
    · rintro rfl; exact e3 (List.Perm.eq_nil h)
    · rcases h2 with h2 | ⟨h2, h3⟩
      · exact .inl fun m hm => h2 m (h.mem_iff.2 hm)
      · refine .inr ⟨h2, fun u => ?_⟩
        obtain ⟨m, hm, hx⟩ := h3 u
        exact ⟨m, h.mem_iff.1 hm, hx⟩
  cases h1 : enumType whole (.map [("members", .seq l)]) with
  | some t => exact (key l l' h t h1).symm
  | none =>
    cases h2 : enumType whole (.map [("members", .seq l')]) with
    | none => rfl
    | some t => rw [key l' l h.symm t h2] at h1; cases h1

/-- An enum with these values. -/
def enumOf (l : List Val) : Val := .map [("members", .seq (l.map fun x => .map [("value", x)]))]

example : enumType (fun _ => false) (enumOf [.int 1, .int 2]) = some "int" ∧
    enumType (fun _ => false) (enumOf [.int 1, .float 7, .int 2]) = some "string" := by decide

/-- Enums of texts, of integers, and of doubles that are not integers have the declared type. -/
theorem enumType_declared_partial (l : List Val) (hl : l ≠ []) :
    ((∀ v ∈ l, ∃ s, v = .str s) → enumType whole (enumOf l) = some "string") ∧
    ((∀ v ∈ l, ∃ i, v = .int i ∧ -9223372036854775808 ≤ i ∧ i ≤ 9223372036854775807) → enumType whole (enumOf l) = some "int") ∧
    ((∀ v ∈ l, ∃ f, v = .float f ∧ whole f = false) → enumType whole (enumOf l) = some "double") := by
  have key : ∀ t, (∀ v ∈ l, MemberType whole (.map [("value", v)]) t) → enumType whole (enumOf l) = some t := by
    intro t ht
    refine (enumType_iff whole _ t).2 ⟨_, _, rfl, rfl, by simpa using hl, ?_, .inl ?_⟩
    · intro m hm
      obtain ⟨v, hv, rfl⟩ := List.mem_map.1 hm
      exact ⟨t, ht v hv⟩
    · intro m hm
      obtain ⟨v, hv, rfl⟩ := List.mem_map.1 hm
      exact ht v hv
  refine ⟨fun h => key _ ?_, fun h => key _ ?_, fun h => key _ ?_⟩
  · intro v hv; obtain ⟨s, rfl⟩ := h v hv; exact .string ⟨_, rfl, rfl⟩
  · intro v hv; obtain ⟨s, rfl, h1, h2⟩ := h v hv; exact .int ⟨_, rfl, rfl⟩ h1 h2
  · intro v hv; obtain ⟨s, rfl, h1⟩ := h v hv; exact .double ⟨_, rfl, rfl⟩ h1

/-- An enum of booleans has no type, and one of doubles with integral values is of type `int`. -/
theorem enumType_declared_refuted : enumType whole (enumOf [.bool true, .bool false]) = Option.none ∧
    ∀ f, whole f = true → enumType whole (enumOf [.float f]) = some "int" := by
  refine ⟨rfl, fun f hf => ?_⟩
  refine (enumType_iff whole _ _).2 ⟨_, _, rfl, rfl, by simp, ?_, .inl ?_⟩ <;> intro m hm <;>
    obtain rfl := List.mem_singleton.1 hm
  · exact ⟨_, .whole ⟨_, rfl, rfl⟩ hf⟩
  · exact .whole ⟨_, rfl, rfl⟩ hf

/-! ### Instantiated types -/

theorem isSimpleType_iff (v : Val) : isSimpleType v = true ↔ ∃ s ∈ simpleTypes, v = .str s := by
  cases v <;> simp [isSimpleType, Val.asStr]

theorem isTemplateType_iff (v : Val) : isTemplateType v = true ↔ ∃ s ∈ simpleTypes, v = .str ("template[" ++ s ++ "]") := by
  have key : ∀ (x : String) (i : Chars), templateInner x.toList = some i ↔ x = "template[" ++ String.ofList i ++ "]" := by
    intro x i
    unfold templateInner
    rw [Option.bind_eq_some_iff]
    constructor
    · rintro ⟨y, h1, h2⟩
      apply String.toList_injective
      rw [dropPrefix?_iff.1 h1, dropSuffix?_iff.1 h2]; simp
    · rintro rfl
      refine ⟨i ++ "]".toList, dropPrefix?_iff.2 (by simp), dropSuffix?_iff.2 rfl⟩
  cases v with
  | str x =>
    simp only [isTemplateType, Val.asStr, Val.str.injEq]
    constructor
    · intro h
      split at h
      · rename_i i hi
        exact ⟨_, by simpa using h, (key x i).1 hi⟩
      · cases h
    · rintro ⟨s, hs, rfl⟩
      have := (key ("template[" ++ s ++ "]") s.toList).2 (by simp)
      rw [this]; simpa using hs
  | _ => simp [isTemplateType, Val.asStr]

/-- The three kinds of types and their instantiations. -/
theorem instantiatedType_simple_partial (s : String) (hs : s ∈ simpleTypes) :
    instantiatedType whole (.str s) = some s ∧ instantiatedType whole (.str ("template[" ++ s ++ "]")) = some s := by
  have e1 := (isSimpleType_iff (.str s)).2 ⟨s, hs, rfl⟩
  have e2 := (isTemplateType_iff (.str ("template[" ++ s ++ "]"))).2 ⟨s, hs, rfl⟩
  have e3 : isSimpleType (.str ("template[" ++ s ++ "]")) = false := by
    cases h : isSimpleType (.str ("template[" ++ s ++ "]")) with
    | false => rfl
    | true =>
      obtain ⟨x, hx, e⟩ := (isSimpleType_iff _).1 h
      have e := congrArg String.toList (Val.str.inj e)
      simp only [simpleTypes, List.mem_cons, List.not_mem_nil, or_false] at hx
      rcases hx with rfl | rfl | rfl | rfl | rfl | rfl | rfl | rfl <;> simp at e
  constructor
  · rw [instantiatedType, if_pos e1]; rfl
  · rw [instantiatedType, if_neg (by simp [e3]), if_pos e2]
    have : templateInner ("template[" ++ s ++ "]").toList = some s.toList := by
      unfold templateInner
      rw [Option.bind_eq_some_iff]
      exact ⟨s.toList ++ "]".toList, dropPrefix?_iff.2 (by simp), dropSuffix?_iff.2 rfl⟩
    simp only [Val.asStr, Option.bind_some, this, Option.map_some, String.ofList_toList]

/-- The instantiated type of an enum is its enum type. -/
theorem instantiatedType_enum_partial (v ms : Val) (h : HasField v "members" ms) (hm : ms ≠ .undefined) :
    instantiatedType whole v = enumType whole v := by
  obtain ⟨m, rfl, hg⟩ := h
  have : isEnumType (.map m) = true := by
    unfold isEnumType
    simp only [Val.getAttr, hg, Option.getD_some, Bool.not_eq_true']
    rw [← Bool.not_eq_true, isUndefined_iff]; exact hm
  rw [instantiatedType, if_neg (by simp [isSimpleType, Val.asStr]), if_neg (by simp [isTemplateType, Val.asStr]), if_pos this]

/-- The types `any` and `template[any]` of a registry have no instantiated type. -/
theorem instantiatedType_any_refuted : instantiatedType whole (.str "any") = Option.none ∧
    instantiatedType whole (.str "template[any]") = Option.none := by
  refine ⟨?_, ?_⟩ <;> rfl

/-! ### Fields of a body: C49 -/

variable {D : Type} (le : Body D → Body D → Bool)

theorem traverseL_eq (l : List (Body D)) : traverseL le l = l.map fun b => (b, fun p d => traverse le b p d) := by
  induction l with
  | nil => rfl
  | cons b l ih => simp [traverseL, ih]

/-- The listing of a node: the node itself, and then the listings of its sorted fields. -/
theorem traverse_eq (b : Body D) (path : Chars) (depth : Nat) : traverse le b path depth =
    (below path b.id, b, depth) :: (sortBy le b.fields).flatMap fun f => traverse le f (below path b.id) (depth + 1) := by
  cases b with
  | node id fs d =>
    cases fs with
    | none => simp [traverse, Body.id, Body.fields, sortBy]
    | some fs =>
      simp only [traverse, Body.id, Body.fields, Option.getD_some, traverseL_eq]
      rw [JsonDiff.sortBy_map le (fun a b => le a.1 b.1) (fun b : Body D => (b, fun p d => traverse le b p d)) (fun _ _ => rfl)]
      rw [List.flatMap_map]

/-- The ids on the way from the root to a node, which is a field of a field … of the root. -/
inductive Way (root : Body D) : List Chars → Body D → Prop
  | root : Way root [root.id] root
  | field {ids b f} : Way root ids b → f ∈ b.fields → Way root (ids ++ [f.id]) f

/-- The dotted path of a list of ids, without the empty ids at its start. -/
def dotted : List Chars → Chars
  | [] => []
  | i :: l => if i = [] then dotted l else i ++ (l.flatMap fun j => '.' :: j)

theorem below_foldl (l : List Chars) : ∀ p : Chars, p ≠ [] → l.foldl below p = p ++ l.flatMap fun j => '.' :: j := by
  induction l with
  | nil => intro p _; simp
  | cons i l ih =>
    intro p hp
    rw [List.foldl_cons, below, if_neg hp, ih _ (by simp)]
    simp

theorem dotted_eq (l : List Chars) : l.foldl below [] = dotted l := by
  induction l with
  | nil => rfl
  | cons i l ih =>
    rw [List.foldl_cons, dotted, below, if_pos rfl]
    by_cases h : i = []
    · rw [if_pos h, h]; exact ih
    · rw [if_neg h, below_foldl l i h]

theorem way_head {root b : Body D} {ids : List Chars} : Way root ids b ↔
    (ids = [root.id] ∧ b = root) ∨ ∃ f ∈ root.fields, ∃ ids', ids = root.id :: ids' ∧ Way f ids' b := by
  constructor
  · intro h
    induction h with
    | root => exact .inl ⟨rfl, rfl⟩
    | @field ids b f hw hf ih =>
      right
      rcases ih with ⟨rfl, rfl⟩ | ⟨g, hg, ids', rfl, h⟩
      · exact ⟨f, hf, [f.id], rfl, .root⟩
      · exact ⟨g, hg, ids' ++ [f.id], rfl, .field h hf⟩
  · rintro (⟨rfl, rfl⟩ | ⟨f, hf, ids', rfl, h⟩)
    · exact .root
    · induction h with
      | root => exact .field (ids := [root.id]) .root hf
      | @field ids b g hw hg ih => exact .field (ids := root.id :: ids) ih hg

/-- Induction over bodies. -/
theorem Body.ind {P : Body D → Prop} (h : ∀ b, (∀ f ∈ b.fields, P f) → P b) (b : Body D) : P b := by
  refine Body.rec (motive_1 := P) (motive_2 := fun o => ∀ f ∈ o.getD [], P f) (motive_3 := fun l => ∀ f ∈ l, P f)
    ?_ ?_ ?_ ?_ ?_ b
  · intro id fs d ih; exact h _ ih
  · intro f hf; cases hf
  · intro l ih; exact ih
  · intro f hf; cases hf
  · intro a l ha hl f hf
    rcases List.mem_cons.1 hf with rfl | hf
    · exact ha
    · exact hl f hf

theorem mem_traverse (root : Body D) : ∀ (path : Chars) (depth : Nat) (p : Chars) (b : Body D) (d : Nat),
    (p, b, d) ∈ traverse le root path depth ↔
    ∃ ids, Way root ids b ∧ p = ids.foldl below path ∧ d + 1 = depth + ids.length := by
  refine Body.ind (P := fun root => ∀ (path : Chars) (depth : Nat) (p : Chars) (b : Body D) (d : Nat),
    (p, b, d) ∈ traverse le root path depth ↔
    ∃ ids, Way root ids b ∧ p = ids.foldl below path ∧ d + 1 = depth + ids.length) ?_ root
  intro root ih path depth p b d
  rw [traverse_eq, List.mem_cons, List.mem_flatMap]
  constructor
  · rintro (h | ⟨f, hf, h⟩)
    · obtain ⟨rfl, rfl, rfl⟩ : p = _ ∧ b = _ ∧ d = _ := by simpa using h
      exact ⟨_, .root, rfl, rfl⟩
    · obtain ⟨ids, h1, h2, h3⟩ := (ih f (mem_sortBy.1 hf) _ _ _ _ _).1 h
      refine ⟨root.id :: ids, way_head.2 (.inr ⟨f, mem_sortBy.1 hf, ids, rfl, h1⟩), h2, ?_⟩
      rw [h3, List.length_cons]; omega
  · rintro ⟨ids, h1, h2, h3⟩
    rcases way_head.1 h1 with ⟨rfl, rfl⟩ | ⟨f, hf, ids', rfl, h⟩
    · left
      rw [h2]; simp at h3; rw [h3]; rfl
    · right
      refine ⟨f, mem_sortBy.2 hf, (ih f hf _ _ _ _ _).2 ⟨ids', h, h2, ?_⟩⟩
      rw [List.length_cons] at h3; omega

/-- The entries of the listing: every node below the root, with its dotted path and its depth. -/
theorem bodyFields_mem (root b : Body D) (p : Chars) (d : Nat) : (p, b, d) ∈ bodyFields le root ↔
    ∃ ids, Way root ids b ∧ p = dotted ids ∧ ids.length = d + 1 := by
  unfold bodyFields
  rw [mem_traverse]
  simp only [dotted_eq]
  constructor <;> rintro ⟨ids, h1, h2, h3⟩ <;> exact ⟨ids, h1, h2, by omega⟩

/-- The nodes of a body in the order in which they are declared: `l` lists `b` and what is below it. -/
inductive Nodes : Body D → List (Body D) → Prop
  | mk {b ls} : Forall2 Nodes b.fields ls → Nodes b (b :: ls.flatten)

/-- Every node is listed exactly once. -/
theorem bodyFields_once (root : Body D) : ∃ l, Nodes root l ∧ ((bodyFields le root).map fun e => e.2.1).Perm l := by
  refine Body.ind (P := fun root => ∀ path depth, ∃ l, Nodes root l ∧ ((traverse le root path depth).map fun e => e.2.1).Perm l)
    ?_ root [] 0
  intro b ih path depth
  have key : ∀ fs : List (Body D), (∀ f ∈ fs, f ∈ b.fields) → ∃ ls, Forall2 Nodes fs ls ∧
      ((fs.flatMap fun f => traverse le f (below path b.id) (depth + 1)).map fun e => e.2.1).Perm ls.flatten := by
    intro fs hfs
    induction fs with
    | nil => exact ⟨[], .nil, by simp⟩
    | cons f fs ihf =>
      obtain ⟨l, h1, h2⟩ := ih f (hfs f (by simp)) (below path b.id) (depth + 1)
      obtain ⟨ls, h3, h4⟩ := ihf (fun g hg => hfs g (by simp [hg]))
      refine ⟨l :: ls, .cons h1 h3, ?_⟩
      rw [List.flatMap_cons, List.map_append, List.flatten_cons]
      exact h2.append h4
  obtain ⟨ls, h1, h2⟩ := key b.fields (fun _ h => h)
  refine ⟨_, .mk h1, ?_⟩
  rw [traverse_eq, List.map_cons]
  refine List.Perm.cons _ ?_
  exact (((sortBy_perm le b.fields).flatMap_right _).map _).trans h2

mutual
/-- A listing in order: a node, and then the listings in order of its fields, which are sorted if `le` is an order. -/
inductive InOrder : Body D → Chars → Nat → List (Chars × Body D × Nat) → Prop
  | mk {b path depth fs l} : fs.Perm b.fields → (TotalPre le → Sorted le fs) →
      InOrderL fs (below path b.id) (depth + 1) l → InOrder b path depth ((below path b.id, b, depth) :: l)
/-- The listings in order of nodes that follow one another. -/
inductive InOrderL : List (Body D) → Chars → Nat → List (Chars × Body D × Nat) → Prop
  | nil {path depth} : InOrderL [] path depth []
  | cons {f fs path depth l l'} : InOrder f path depth l → InOrderL fs path depth l' → InOrderL (f :: fs) path depth (l ++ l')
end

/-- The listing is in order: a node comes before the listings of its fields, which follow one another in the order of
the sort. -/
theorem bodyFields_preorder (root : Body D) : InOrder le root [] 0 (bodyFields le root) := by
  unfold bodyFields
  refine Body.ind (P := fun root => ∀ path depth, InOrder le root path depth (traverse le root path depth)) ?_ root [] 0
  intro b ih path depth
  rw [traverse_eq]
  refine .mk (fs := sortBy le b.fields) (sortBy_perm le b.fields) (fun h => sortBy_sorted h _) ?_
  have : ∀ fs : List (Body D), (∀ f ∈ fs, f ∈ b.fields) → InOrderL le fs (below path b.id) (depth + 1)
      (fs.flatMap fun f => traverse le f (below path b.id) (depth + 1)) := by
    intro fs h
    induction fs with
    | nil => exact .nil
    | cons f fs ihf => rw [List.flatMap_cons]; exact .cons (ih f (h f (by simp)) _ _) (ihf fun g hg => h g (by simp [hg]))
  exact this _ (fun f hf => mem_sortBy.1 hf)

/-- A body with two fields, one of which has a field. -/
def sampleBody : Body Unit := .node "b".toList (some [.node "y".toList Option.none (), .node "x".toList (some [.node "z".toList
  Option.none ()]) ()]) ()

/-- The order of ids, for the example. -/
def idLe (a b : Body Unit) : Bool := decide (String.ofList a.id ≤ String.ofList b.id)

example : (bodyFields idLe sampleBody).map (fun e => (String.ofList e.1, e.2.2)) =
    [("b", 0), ("b.x", 1), ("b.x.z", 2), ("b.y", 1)] := by decide

end Verif.Forge
