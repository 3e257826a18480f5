import Verif.LiveCheck.StatsProps
/-
What is found: entity associations (C24), attributes that are not present (C25), the definition an attribute is compared
to (C26), and claims about these that do not hold (C62, C63, C64, C66).
-/
namespace Verif.LiveCheck
open Verif.Util Verif.Semconv

/-! ### Entity associations -/

/-- An entity is satisfied: no attribute that it requires is missing. -/
def EntityHolds (attrs : List SAttr) (e : Entity) : Prop :=
  ∀ d ∈ e.attrs, d.req = .required → ∃ a ∈ attrs, a.name = d.name

/-- What an association means for a resource with attributes `attrs`: a leaf holds if the entity is satisfied, or if there is
no such entity; `oneOf` means at least one, `allOf` all. -/
inductive Holds (c : Checker) (attrs : List SAttr) : Assoc EntityKey → Prop where
  | ref {k : EntityKey} : (∀ e, c.lookupEntity k = some e → EntityHolds attrs e) → Holds c attrs (.ref k)
  | oneOf {l : List (Assoc EntityKey)} {x : Assoc EntityKey} : x ∈ l → Holds c attrs x → Holds c attrs (.oneOf l)
  | allOf {l : List (Assoc EntityKey)} : (∀ x ∈ l, Holds c attrs x) → Holds c attrs (.allOf l)

/-- A name that is used first at its place: the list without repetitions, in order of first use. -/
def FirstUses (l r : List String) : Prop := r.Nodup ∧ (∀ n, n ∈ r ↔ n ∈ l) ∧ r.Sublist l

/-- The finding that an alternative is not satisfied, naming each entity once. -/
def Unsatisfied (signal : Sample) (l : List (Assoc EntityKey)) (f : Finding) : Prop :=
  f.id = "entity_association_not_satisfied" ∧ f.level = .violation ∧ f.signalType = signal.signalType ∧
  f.signalName = signal.signalName ∧
  ∃ r, FirstUses ((leavesL l).map EntityKey.entityType) r ∧ f.ctx = [("entity_type", .names r)]

/-- What is to be said about an association: about a leaf, all attributes of the entity that are missing; about `allOf`, all
that is to be said about the parts; about `oneOf`, all that is to be said about the alternatives that hold, or that none
does. -/
inductive Says (c : Checker) (attrs : List SAttr) (signal : Sample) : Assoc EntityKey → Finding → Prop where
  | ref {k : EntityKey} {e : Entity} {d : AttrDef} : c.lookupEntity k = some e → d ∈ e.attrs →
      (∀ a ∈ attrs, a.name ≠ d.name) → Says c attrs signal (.ref k) (entityFinding signal e.type d)
  | allOf {l : List (Assoc EntityKey)} {x : Assoc EntityKey} {f : Finding} : x ∈ l → Says c attrs signal x f →
      Says c attrs signal (.allOf l) f
  | oneOf {l : List (Assoc EntityKey)} {x : Assoc EntityKey} {f : Finding} : x ∈ l → Holds c attrs x →
      Says c attrs signal x f → Says c attrs signal (.oneOf l) f
  | none {l : List (Assoc EntityKey)} : (∀ x ∈ l, ¬ Holds c attrs x) → Says c attrs signal (.oneOf l) (notSatisfied signal l)

/-- Induction over associations. -/
theorem assocInd {P : Assoc EntityKey → Prop} (h1 : ∀ k, P (.ref k)) (h2 : ∀ l, (∀ x ∈ l, P x) → P (.oneOf l))
    (h3 : ∀ l, (∀ x ∈ l, P x) → P (.allOf l)) (x : Assoc EntityKey) : P x :=
  Assoc.rec (motive_1 := P) (motive_2 := fun l => ∀ x ∈ l, P x) h1 h2 h3 (by simp)
    (fun _ _ hx hl a ha => (List.mem_cons.1 ha).elim (fun h => h ▸ hx) (hl a)) x

theorem evalAssocs_eq (c : Checker) (attrs : List SAttr) (signal : Sample) (l : List (Assoc EntityKey)) :
    evalAssocs c attrs signal l = l.map (evalAssoc c attrs signal) := by
  induction l with
  | nil => rfl
  | cons x l ih => simp [evalAssocs, ih]

theorem entityFinding_level (signal : Sample) (t : String) (d : AttrDef) :
    (entityFinding signal t d).level = .violation ↔ d.req = .required := by
  unfold entityFinding mkFinding entityMissingInfo
  cases d.req <;> simp

theorem mem_checkEntity {signal : Sample} {attrs : List SAttr} {e : Entity} {f : Finding} :
    f ∈ checkEntity signal attrs e ↔ ∃ d ∈ e.attrs, (∀ a ∈ attrs, a.name ≠ d.name) ∧ f = entityFinding signal e.type d := by
  unfold checkEntity
  simp only [List.mem_map, List.mem_filter, List.contains_eq_mem, Bool.not_eq_true', decide_eq_false_iff_not,
    List.mem_map, not_exists, not_and]
  constructor
  · intro ⟨d, ⟨hd, hn⟩, hf⟩; exact ⟨d, hd, hn, hf.symm⟩
  · intro ⟨d, hd, hn, hf⟩; exact ⟨d, ⟨hd, hn⟩, hf.symm⟩

theorem evalAssoc_spec (c : Checker) (attrs : List SAttr) (signal : Sample) (x : Assoc EntityKey) :
    ((evalAssoc c attrs signal x).satisfied = true ↔ Holds c attrs x) ∧
    (∀ f, f ∈ (evalAssoc c attrs signal x).findings ↔ Says c attrs signal x f) ∧
    ((evalAssoc c attrs signal x).satisfied = true ↔ ∀ f ∈ (evalAssoc c attrs signal x).findings, f.level ≠ .violation) := by
  induction x using assocInd with
  | h1 k =>
    cases hk : c.lookupEntity k with
    | none =>
      simp only [evalAssoc, hk]
      refine ⟨⟨fun _ => .ref (fun e he => by rw [hk] at he; exact nomatch he), fun _ => trivial⟩, ?_, by simp⟩
      intro f
      refine ⟨fun h => absurd h (by simp), ?_⟩
      intro h
      cases h with
      | ref h _ _ => rw [hk] at h; exact nomatch h
    | some e =>
      simp only [evalAssoc, hk]
      have hv : (!(checkEntity signal attrs e).any fun f => decide (f.level = .violation)) = true ↔
          ∀ f ∈ checkEntity signal attrs e, f.level ≠ .violation := by simp
      refine ⟨?_, ?_, hv⟩
      · rw [hv]
        constructor
        · intro h
          refine .ref ?_
          intro e' he' d hd hr
          rw [hk] at he'; cases he'
          apply Classical.byContradiction
          intro hn
          refine h _ (mem_checkEntity.2 ⟨d, hd, ?_, rfl⟩) ((entityFinding_level _ _ _).2 hr)
          intro a ha hh; exact hn ⟨a, ha, hh⟩
        · intro h f hf hl
          obtain ⟨d, hd, hn, rfl⟩ := mem_checkEntity.1 hf
          cases h with
          | ref h =>
            obtain ⟨a, ha, hh⟩ := h e hk d hd ((entityFinding_level _ _ _).1 hl)
            exact hn a ha hh
      · intro f
        rw [mem_checkEntity]
        constructor
        · intro ⟨d, hd, hn, hf⟩; rw [hf]; exact .ref hk hd hn
        · intro h
          cases h with
          | ref h hd hn => rw [hk] at h; cases h; exact ⟨_, hd, hn, rfl⟩
  | h2 l ih =>
    have hs : ((evalAssocs c attrs signal l).any (·.satisfied)) = true ↔ ∃ x ∈ l, Holds c attrs x := by
      rw [evalAssocs_eq]
      simp only [List.any_map, List.any_eq_true, Function.comp]
      exact ⟨fun ⟨x, hx, h⟩ => ⟨x, hx, (ih x hx).1.1 h⟩, fun ⟨x, hx, h⟩ => ⟨x, hx, (ih x hx).1.2 h⟩⟩
    have ho : Holds c attrs (.oneOf l) ↔ ∃ x ∈ l, Holds c attrs x :=
      ⟨fun h => by cases h with | oneOf hx h => exact ⟨_, hx, h⟩, fun ⟨x, hx, h⟩ => .oneOf hx h⟩
    unfold evalAssoc oneOfEval
    by_cases h : ((evalAssocs c attrs signal l).any (·.satisfied)) = true
    · rw [if_pos h]
      have hm : ∀ f, f ∈ ((evalAssocs c attrs signal l).filter (·.satisfied)).flatMap (·.findings) ↔
          ∃ x ∈ l, Holds c attrs x ∧ f ∈ (evalAssoc c attrs signal x).findings := by
        intro f
        rw [evalAssocs_eq]
        simp only [List.mem_flatMap, List.mem_filter, List.mem_map]
        constructor
        · intro ⟨_, ⟨⟨x, hx, rfl⟩, h1⟩, h2⟩; exact ⟨x, hx, (ih x hx).1.1 h1, h2⟩
        · intro ⟨x, hx, h1, h2⟩; exact ⟨_, ⟨⟨x, hx, rfl⟩, (ih x hx).1.2 h1⟩, h2⟩
      refine ⟨⟨fun _ => ho.2 (hs.1 h), fun _ => rfl⟩, ?_, ?_⟩
      · intro f
        rw [hm]
        constructor
        · intro ⟨x, hx, h1, h2⟩; exact .oneOf hx h1 (((ih x hx).2.1 f).1 h2)
        · intro hf
          cases hf with
          | oneOf hx h1 h2 => exact ⟨_, hx, h1, ((ih _ hx).2.1 f).2 h2⟩
          | none hn => obtain ⟨x, hx, h1⟩ := hs.1 h; exact absurd h1 (hn x hx)
      · refine ⟨fun _ f hf => ?_, fun _ => rfl⟩
        obtain ⟨x, hx, h1, h2⟩ := (hm f).1 hf
        exact (ih x hx).2.2.1 ((ih x hx).1.2 h1) f h2
    · rw [if_neg h]
      refine ⟨⟨fun h' => (nomatch h'), fun h' => absurd (hs.2 (ho.1 h')) h⟩, ?_, ?_⟩
      · intro f
        rw [List.mem_singleton]
        constructor
        · intro hf; rw [hf]; exact .none (fun x hx h1 => h (hs.2 ⟨x, hx, h1⟩))
        · intro hf
          cases hf with
          | oneOf hx h1 h2 => exact absurd (hs.2 ⟨_, hx, h1⟩) h
          | none _ => rfl
      · exact ⟨fun h' => (nomatch h'), fun h' => absurd rfl (h' _ (List.mem_singleton.2 rfl))⟩
  | h3 l ih =>
    have hs : ((evalAssocs c attrs signal l).all (·.satisfied)) = true ↔ ∀ x ∈ l, Holds c attrs x := by
      rw [evalAssocs_eq]
      simp only [List.all_map, List.all_eq_true, Function.comp]
      exact ⟨fun h x hx => (ih x hx).1.1 (h x hx), fun h x hx => (ih x hx).1.2 (h x hx)⟩
    have hm : ∀ f, f ∈ (evalAssocs c attrs signal l).flatMap (·.findings) ↔
        ∃ x ∈ l, f ∈ (evalAssoc c attrs signal x).findings := by
      intro f; rw [evalAssocs_eq]; simp only [List.mem_flatMap, List.mem_map]
      exact ⟨fun ⟨_, ⟨x, hx, e⟩, h⟩ => ⟨x, hx, by rw [e]; exact h⟩, fun ⟨x, hx, h⟩ => ⟨_, ⟨x, hx, rfl⟩, h⟩⟩
    unfold evalAssoc
    refine ⟨?_, ?_, ?_⟩
    · rw [hs]; exact ⟨.allOf, fun h => by cases h with | allOf h => exact h⟩
    · intro f
      rw [hm]
      constructor
      · intro ⟨x, hx, h⟩; exact .allOf hx (((ih x hx).2.1 f).1 h)
      · intro h
        cases h with
        | allOf hx h => exact ⟨_, hx, ((ih _ hx).2.1 f).2 h⟩
    · rw [hs]
      constructor
      · intro h f hf
        obtain ⟨x, hx, h1⟩ := (hm f).1 hf
        exact (ih x hx).2.2.1 ((ih x hx).1.2 (h x hx)) f h1
      · intro h x hx
        exact (ih x hx).1.1 ((ih x hx).2.2.2 fun f hf => h f ((hm f).2 ⟨x, hx, hf⟩))

theorem referenced_eq (l : List (Assoc EntityKey)) : referenced l = (leavesL l).map EntityKey.entityType := by
  have happ : ∀ a b : List (Assoc EntityKey), leavesL (a ++ b) = leavesL a ++ leavesL b := by
    intro a b
    induction a with
    | nil => rfl
    | cons x a ih => simp [leavesL, ih]
  fun_induction referenced l with
  | case1 => rfl
  | case2 k s ih => rw [ih]; simp [leavesL, leaves]
  | case3 l s ih => rw [ih]; simp [leavesL, leaves, happ]
  | case4 l s ih => rw [ih]; simp [leavesL, leaves, happ]

theorem dedup_spec (seen l : List String) :
    (dedup seen l).Nodup ∧ (∀ n, n ∈ dedup seen l ↔ n ∈ l ∧ n ∉ seen) ∧ (dedup seen l).Sublist l := by
  induction l generalizing seen with
  | nil => simp [dedup]
  | cons x l ih =>
    unfold dedup
    by_cases h : seen.contains x = true
    · rw [if_pos h]
      obtain ⟨h1, h2, h3⟩ := ih seen
      have hx : x ∈ seen := by simpa using h
      refine ⟨h1, ?_, h3.cons _⟩
      intro n; rw [h2]
      constructor
      · intro ⟨a, b⟩; exact ⟨List.mem_cons_of_mem _ a, b⟩
      · intro ⟨a, b⟩
        rcases List.mem_cons.1 a with rfl | a
        · exact absurd hx b
        · exact ⟨a, b⟩
    · rw [if_neg h]
      obtain ⟨h1, h2, h3⟩ := ih (x :: seen)
      have hx : x ∉ seen := by simpa using h
      refine ⟨List.nodup_cons.2 ⟨?_, h1⟩, ?_, h3.cons_cons _⟩
      · rw [h2]; simp
      · intro n
        rw [List.mem_cons, List.mem_cons, h2, List.mem_cons]
        constructor
        · rintro (rfl | ⟨a, b⟩)
          · exact ⟨.inl rfl, hx⟩
          · exact ⟨.inr a, fun h => b (.inr h)⟩
        · rintro ⟨rfl | a, b⟩
          · exact .inl rfl
          · by_cases hn : n = x
            · exact .inl hn
            · exact .inr ⟨a, fun h => h.elim hn b⟩

/-- C24. The finding that no alternative is satisfied is a violation that names each entity of the alternatives once, in order
of first use. -/
theorem unsatisfied_finding (signal : Sample) (l : List (Assoc EntityKey)) : Unsatisfied signal l (notSatisfied signal l) := by
  obtain ⟨h1, h2, h3⟩ := dedup_spec [] (referenced l)
  rw [referenced_eq] at h1 h2 h3
  exact ⟨rfl, rfl, rfl, rfl, _, ⟨h1, by simpa using h2, h3⟩, by rw [← referenced_eq]; rfl⟩

/-- The associations of a signal are alternatives: they hold if one does, or if there are none. -/
def SomeHolds (c : Checker) (attrs : List SAttr) (l : List (Assoc EntityKey)) : Prop := l = [] ∨ ∃ x ∈ l, Holds c attrs x

/-- C24. The associations of a signal lead to a violation exactly if there are some and none of them holds. -/
theorem association_violation (c : Checker) (attrs : List SAttr) (signal : Sample) (l : List (Assoc EntityKey)) :
    (∃ f ∈ checkAssocs c attrs signal l, f.level = .violation) ↔ ¬ SomeHolds c attrs l := by
  have key : ∀ x, (∃ f ∈ (evalAssoc c attrs signal x).findings, f.level = .violation) ↔ ¬ Holds c attrs x := by
    intro x
    obtain ⟨h1, -, h3⟩ := evalAssoc_spec c attrs signal x
    rw [← h1, h3]
    simp
  unfold SomeHolds
  match l with
  | [] => simp [checkAssocs]
  | [x] => simp [checkAssocs, key]
  | x :: y :: l =>
    simp only [checkAssocs, key]
    refine not_congr ⟨fun h => ?_, fun h => ?_⟩
    · cases h with
      | oneOf hx h => exact .inr ⟨_, hx, h⟩
    · rcases h with h | ⟨z, hz, h⟩
      · exact absurd h (by simp)
      · exact .oneOf hz h

/-- C24. What is found about the associations of a signal: for one association what is to be said about it, for several what is
to be said about them as alternatives, and nothing without any. -/
theorem association_findings (c : Checker) (attrs : List SAttr) (signal : Sample) (l : List (Assoc EntityKey)) (f : Finding) :
    f ∈ checkAssocs c attrs signal l ↔
      (∃ x, l = [x] ∧ Says c attrs signal x f) ∨ (2 ≤ l.length ∧ Says c attrs signal (.oneOf l) f) := by
  match l with
  | [] => simp [checkAssocs]
  | [x] => simp [checkAssocs, (evalAssoc_spec c attrs signal x).2.1]
  | x :: y :: l => simp [checkAssocs, (evalAssoc_spec c attrs signal _).2.1]

theorem mem_flatMap_occs {env : Env} {samples : List Sample} {s : Sample} {o : Occ} (hs : s ∈ attachAll none samples)
    (ho : o ∈ occs env s) : o ∈ (attachAll none samples).flatMap (occs env) := List.mem_flatMap.2 ⟨s, hs, ho⟩

/-- The signals whose associations and attributes are checked: v1 groups, and v2 signals of the right kind. -/
def Checked (k : SigKind) (g : Signal) : Prop := g.kind = .group ∨ g.kind = k

/-- C24. In a run, all that is found about the associations of the metric or event a sample names is reported with the
sample, as far as the modifier keeps it. -/
theorem association_reported {env : Env} {noStats : Bool} {samples : List Sample} {st : St}
    (h : liveCheck env noStats samples = .ok st) :
    (∀ m g, .metric m ∈ attachAll none samples → env.checker.findMetric m.name = some g → Checked .metric g →
      ∃ e ∈ st.entries, e.ref = .metric m ∧
        ∀ f ∈ checkAssocs env.checker ((m.resource.map (·.attrs)).getD []) (.metric m) g.assocs,
          ∀ f', reported env.modifier (.metric m) f = some f' → f' ∈ e.result.all) ∧
    (∀ l g, .log l ∈ attachAll none samples → l.eventName ≠ "" → env.checker.findEvent l.eventName = some g →
      Checked .event g →
      ∃ e ∈ st.entries, e.ref = .log l ∧
        ∀ f ∈ checkAssocs env.checker ((l.resource.map (·.attrs)).getD []) (.log l) g.assocs,
          ∀ f', reported env.modifier (.log l) f = some f' → f' ∈ e.result.all) := by
  have hrep := run_report h
  refine ⟨?_, ?_⟩
  · intro m g hm hg hk
    obtain ⟨e, he, -, hr, fs, ⟨gs, -, hfs⟩, ha⟩ := hrep.mem_left (mem_flatMap_occs hm
      (by unfold occs; exact List.mem_append_right _ (List.mem_singleton.2 rfl)))
    refine ⟨e, he, hr, ?_⟩
    intro f hf f' hf'
    rw [ha, List.mem_filterMap]
    refine ⟨f, ?_, hf'⟩
    rw [hfs]
    refine List.mem_append_right _ ?_
    show f ∈ assocFindings env .metric (.metric m) (env.checker.findMetric m.name)
    rw [hg]
    unfold assocFindings
    dsimp only
    rw [if_pos (show g.kind = _ ∨ g.kind = _ from hk)]; exact hf
  · intro l g hm hne hg hk
    obtain ⟨e, he, -, hr, fs, ⟨gs, -, hfs⟩, ha⟩ := hrep.mem_left (mem_flatMap_occs hm
      (by unfold occs; exact List.mem_append_right _ (List.mem_singleton.2 rfl)))
    refine ⟨e, he, hr, ?_⟩
    intro f hf f' hf'
    rw [ha, List.mem_filterMap]
    refine ⟨f, ?_, hf'⟩
    rw [hfs]
    refine List.mem_append_right _ ?_
    show f ∈ assocFindings env .event (.log l) (eventOf env.checker l)
    unfold eventOf
    rw [if_neg hne, hg]
    unfold assocFindings
    dsimp only
    rw [if_pos (show g.kind = _ ∨ g.kind = _ from hk)]; exact hf

/-- The resource among samples that came last. -/
def LastResource (samples : List Sample) (r : Option Resource) : Prop :=
  (∃ pre x post, samples = pre ++ .resource x :: post ∧ (∀ s ∈ post, ∀ y, s ≠ .resource y) ∧ r = some x) ∨
  ((∀ s ∈ samples, ∀ y, s ≠ .resource y) ∧ r = none)

/-- C24. A metric, log or span is checked with the resource that came last before it. -/
theorem resource_attached (pre : List Sample) (s : Sample) (post : List Sample) :
    ∃ r, LastResource pre r ∧
      ((∀ m, s = .metric m → (attachAll none (pre ++ s :: post))[pre.length]? = some (.metric { m with resource := r })) ∧
       (∀ l, s = .log l → (attachAll none (pre ++ s :: post))[pre.length]? = some (.log { l with resource := r })) ∧
       ∀ x, s = .span x → (attachAll none (pre ++ s :: post))[pre.length]? = some (.span { x with resource := r })) := by
  have key : ∀ (pre : List Sample) (cur : Option Resource), ∃ r,
      ((LastResource pre r ∧ r ≠ none) ∨ ((∀ s ∈ pre, ∀ y, s ≠ .resource y) ∧ r = cur)) ∧
      (attachAll cur (pre ++ s :: post))[pre.length]? = some (attach (nextResource r s) s) := by
    intro pre
    induction pre with
    | nil => intro cur; exact ⟨cur, .inr ⟨by simp, rfl⟩, rfl⟩
    | cons x pre ih =>
      intro cur
      obtain ⟨r, h1, h2⟩ := ih (nextResource cur x)
      refine ⟨r, ?_, by simpa [attachAll] using h2⟩
      rcases h1 with ⟨h1, hne⟩ | ⟨h1, h3⟩
      · refine .inl ⟨?_, hne⟩
        rcases h1 with ⟨a, y, b, e1, e2, e3⟩ | ⟨-, e⟩
        · exact .inl ⟨x :: a, y, b, by rw [e1]; rfl, e2, e3⟩
        · exact absurd e hne
      · by_cases hx : ∃ y, x = .resource y
        · obtain ⟨y, rfl⟩ := hx
          exact .inl ⟨.inl ⟨[], y, pre, rfl, h1, h3⟩, by rw [h3]; exact fun h => nomatch h⟩
        · refine .inr ⟨?_, ?_⟩
          · intro z hz
            rcases List.mem_cons.1 hz with rfl | hz
            · exact fun y e => hx ⟨y, e⟩
            · exact h1 z hz
          · rw [h3]
            cases x <;> first | rfl | exact absurd ⟨_, rfl⟩ hx
  obtain ⟨r, h1, h2⟩ := key pre none
  refine ⟨r, ?_, ?_, ?_, ?_⟩
  · rcases h1 with ⟨h1, -⟩ | h1
    · exact h1
    · exact .inr h1
  · intro m hm; rw [h2, hm]; rfl
  · intro m hm; rw [h2, hm]; rfl
  · intro m hm; rw [h2, hm]; rfl

example : (attachAll none [.resource { attrs := [{ name := "a" }] }, .log { eventName := "x" }, .log { eventName := "y" }])[2]? =
    some (.log { eventName := "y", resource := some { attrs := [{ name := "a" }] } }) := by decide

/-- Two entities; the second has an attribute that is only recommended. -/
def twoEntities : Checker :=
  Checker.new (.v1 [
    { type := .entity, name := some "host", signal := { kind := .group, attrs := [
        { name := "host.id", typ := .prim .string, req := .required }] } },
    { type := .entity, name := some "service", signal := { kind := .group, attrs := [
        { name := "service.name", typ := .prim .string, req := .required },
        { name := "service.version", typ := .prim .string }] } }])

/-- A resource of the second entity: the association with both alternatives holds and leads to an improvement, that with both
together does not hold. -/
example :
    let rs : List SAttr := [{ name := "service.name" }]
    let host : Assoc EntityKey := .ref (.name "host")
    let service : Assoc EntityKey := .ref (.name "service")
    SomeHolds twoEntities rs [host, service] ∧ ¬ SomeHolds twoEntities rs [.allOf [host, service]] ∧
    (checkAssocs twoEntities rs (.log { eventName := "e" }) [host, service]).map (·.level) = [.improvement] := by
  have hs : Holds twoEntities [{ name := "service.name" }] (.ref (.name "service")) := by
    refine .ref ?_
    intro e he
    have : e = { type := "service", attrs := [
        { name := "service.name", typ := .prim .string, req := .required },
        { name := "service.version", typ := .prim .string }] } := (Option.some.inj he).symm
    rw [this]
    intro d hd hr
    simp at hd
    rcases hd with rfl | rfl
    · exact ⟨_, List.mem_singleton.2 rfl, rfl⟩
    · exact nomatch hr
  refine ⟨.inr ⟨_, by simp, hs⟩, ?_, by decide⟩
  intro h
  rcases h with h | ⟨x, hx, h⟩
  · exact nomatch h
  · rw [List.mem_singleton.1 hx] at h
    cases h with
    | allOf h =>
      have := h (.ref (.name "host")) (by simp)
      cases this with
      | ref h' =>
        obtain ⟨a, ha, hn⟩ := h' _ rfl { name := "host.id", typ := .prim .string, req := .required } (by simp) rfl
        rw [List.mem_singleton.1 ha] at hn
        exact absurd hn (by decide)

example : Unsatisfied (.log { eventName := "e" }) [.ref (.name "b"), .oneOf [.ref (.name "a"), .ref (.name "b")]]
    (notSatisfied (.log { eventName := "e" }) [.ref (.name "b"), .oneOf [.ref (.name "a"), .ref (.name "b")]]) :=
  unsatisfied_finding _ _

/-! ### Attributes that are not present -/

/-- An attribute of a signal is present in a sample: under its name, or for a template with a name that starts with its. -/
def Present (d : AttrDef) (attrs : List SAttr) : Prop :=
  ∃ a ∈ attrs, a.name = d.name ∨ (d.typ.isTemplate = true ∧ d.name.toList <+: a.name.toList)

/-- What is reported about an attribute that is not present, by requirement level. -/
def missingKind : Req → String × Level
  | .required => ("required_attribute_not_present", .violation)
  | .conditionallyRequired => ("conditionally_required_attribute_not_present", .information)
  | .recommended | .recommendedText => ("recommended_attribute_not_present", .improvement)
  | .optIn | .optInText => ("opt_in_attribute_not_present", .information)

/-- `f` reports that `d` is not present. -/
def ReportsMissing (signal : Sample) (d : AttrDef) (f : Finding) : Prop :=
  (f.id, f.level) = missingKind d.req ∧ f.ctx = [("attribute_key", .text d.name)] ∧ f.signalType = signal.signalType ∧
  f.signalName = signal.signalName

theorem isPresent_iff (d : AttrDef) (attrs : List SAttr) : isPresent d attrs = true ↔ Present d attrs := by
  unfold isPresent Present startsWith
  by_cases h : d.typ.isTemplate = true
  · rw [if_pos h]
    simp only [List.any_eq_true, List.isPrefixOf_iff_prefix]
    constructor
    · intro ⟨a, ha, hp⟩; exact ⟨a, ha, .inr ⟨h, hp⟩⟩
    · rintro ⟨a, ha, hp | ⟨-, hp⟩⟩
      · exact ⟨a, ha, by rw [hp]; exact List.prefix_rfl⟩
      · exact ⟨a, ha, hp⟩
  · rw [if_neg h]
    simp only [List.contains_eq_mem, decide_eq_true_eq, List.mem_map]
    constructor
    · intro ⟨a, ha, hp⟩; exact ⟨a, ha, .inl hp⟩
    · rintro ⟨a, ha, hp | ⟨hp, -⟩⟩
      · exact ⟨a, ha, hp⟩
      · exact absurd hp h

instance (d : AttrDef) (attrs : List SAttr) : Decidable (Present d attrs) :=
  decidable_of_iff _ (isPresent_iff d attrs)

/-- The missing attributes are reported one by one, in the order of the definitions. -/
def MissingList (signal : Sample) (defs : List AttrDef) (attrs : List SAttr) (fs : List Finding) : Prop :=
  Forall2 (ReportsMissing signal) (defs.filter fun d => ¬ Present d attrs) fs

theorem checkAttributes_spec (signal : Sample) (defs : List AttrDef) (attrs : List SAttr) :
    MissingList signal defs attrs (checkAttributes defs attrs signal) := by
  unfold MissingList checkAttributes
  have hf : (defs.filter fun d => ¬ Present d attrs) = defs.filter fun d => !isPresent d attrs := by
    refine List.filter_congr ?_
    intro d _
    by_cases h : isPresent d attrs = true
    · simp [h, (isPresent_iff d attrs).1 h]
    · have hn : ¬ Present d attrs := fun h' => h ((isPresent_iff d attrs).2 h')
      simp [h, hn]
  rw [hf]
  generalize (defs.filter fun d => !isPresent d attrs) = ds
  induction ds with
  | nil => exact .nil
  | cons d ds ih =>
    refine .cons ⟨?_, rfl, rfl, rfl⟩ ih
    unfold missingFinding mkFinding missingInfo missingKind
    cases d.req <;> rfl

theorem advice_advisors {o : Occ} {rego : Advisor} {gs : List Finding} (h : advice o (advisors rego) = .ok gs) :
    ∃ d s t n r, deprecatedAdvisor o.ref o.signal o.attr o.group = .ok d ∧
      stabilityAdvisor o.ref o.signal o.attr o.group = .ok s ∧ typeAdvisor o.ref o.signal o.attr o.group = .ok t ∧
      enumAdvisor o.ref o.signal o.attr o.group = .ok n ∧ rego o.ref o.signal o.attr o.group = .ok r ∧
      gs = d ++ (s ++ (t ++ (n ++ r))) := by
  unfold advisors at h
  simp only [advice] at h
  cases h1 : deprecatedAdvisor o.ref o.signal o.attr o.group with
  | error e => rw [h1] at h; exact nomatch h
  | ok d =>
  cases h2 : stabilityAdvisor o.ref o.signal o.attr o.group with
  | error e => rw [h1, h2] at h; exact nomatch h
  | ok s =>
  cases h3 : typeAdvisor o.ref o.signal o.attr o.group with
  | error e => rw [h1, h2, h3] at h; exact nomatch h
  | ok t =>
  cases h4 : enumAdvisor o.ref o.signal o.attr o.group with
  | error e => rw [h1, h2, h3, h4] at h; exact nomatch h
  | ok n =>
  cases h5 : rego o.ref o.signal o.attr o.group with
  | error e => rw [h1, h2, h3, h4, h5] at h; exact nomatch h
  | ok r =>
    rw [h1, h2, h3, h4, h5] at h
    have h := Except.ok.inj h
    refine ⟨d, s, t, n, r, rfl, rfl, rfl, rfl, rfl, ?_⟩
    rw [← h]; simp

/-- The data points of a metric that are numbers or histograms. -/
def IsPoint (m : Metric) (s : SRef) (p : Point) : Prop :=
  (∃ l, m.points = some (.number l) ∧ p ∈ l ∧ s = .numberPoint p) ∨
  (∃ l, m.points = some (.histogram l) ∧ p ∈ l ∧ s = .histogramPoint p)

/-- C25. In a run with the advisors of the command, the entry of a data point of a known metric, a number or histogram, has
exactly one finding for each attribute of the metric that is not present, and else only those of the rego policies. -/
theorem missing_point {env : Env} {rego : Advisor} (hadv : env.advisors = advisors rego) {noStats : Bool}
    {samples : List Sample} {st : St} (h : liveCheck env noStats samples = .ok st) {m : Metric} {g : Signal} {s : SRef}
    {p : Point} (hm : .metric m ∈ attachAll none samples) (hg : env.checker.findMetric m.name = some g)
    (hk : Checked .metric g) (hp : IsPoint m s p) :
    ∃ e ∈ st.entries, e.ref = s ∧ ∃ fs rs, MissingList (.metric m) g.attrs p.attrs fs ∧
      rego s (.metric m) none (some g) = .ok rs ∧
      e.result.all = (fs ++ rs).filterMap (reported env.modifier s) := by
  have hrep := run_report h
  have ho : ({ kind := "data_point", ref := s, signal := .metric m, group := some g } : Occ) ∈ occs env (.metric m) := by
    unfold occs
    refine List.mem_append_left _ ?_
    rw [hg]
    rcases hp with ⟨l, h1, h2, rfl⟩ | ⟨l, h1, h2, rfl⟩ <;> rw [h1] <;>
      exact List.mem_flatMap.2 ⟨p, h2, List.mem_append_left _ List.mem_cons_self⟩
  obtain ⟨e, he, -, hr, fs, ⟨gs, hgs, hfs⟩, ha⟩ := hrep.mem_left (mem_flatMap_occs hm ho)
  rw [hadv] at hgs
  obtain ⟨d, s', t, n, r, h1, h2, h3, h4, h5, h6⟩ := advice_advisors hgs
  have hd : d = [] := by rcases hp with ⟨l, -, -, rfl⟩ | ⟨l, -, -, rfl⟩ <;> exact (Except.ok.inj h1).symm
  have hs : s' = [] := by rcases hp with ⟨l, -, -, rfl⟩ | ⟨l, -, -, rfl⟩ <;> exact (Except.ok.inj h2).symm
  have hn : n = [] := by rcases hp with ⟨l, -, -, rfl⟩ | ⟨l, -, -, rfl⟩ <;> exact (Except.ok.inj h4).symm
  have ht : t = checkAttributes g.attrs p.attrs (.metric m) := by
    have : t = attributeFindings .metric p.attrs (.metric m) (some g) := by
      rcases hp with ⟨l, -, -, rfl⟩ | ⟨l, -, -, rfl⟩ <;> exact (Except.ok.inj h3).symm
    rw [this]; unfold attributeFindings; dsimp only; rw [if_pos (show g.kind = _ ∨ g.kind = _ from hk)]
  refine ⟨e, he, hr, t, r, ?_, h5, ?_⟩
  · rw [ht]; exact checkAttributes_spec _ _ _
  · rw [ha, hfs, h6, hd, hs, hn]; simp

/-- C25. In a run with the advisors of the command, the entry of a log record of a known event has, besides what is said about
the event being deprecated or not stable, about its associations and by rego policies, exactly one finding for each attribute
of the event that is not present. -/
theorem missing_log {env : Env} {rego : Advisor} (hadv : env.advisors = advisors rego) {noStats : Bool}
    {samples : List Sample} {st : St} (h : liveCheck env noStats samples = .ok st) {l : Log} {g : Signal}
    (hm : .log l ∈ attachAll none samples) (hne : l.eventName ≠ "") (hg : env.checker.findEvent l.eventName = some g)
    (hk : Checked .event g) :
    ∃ e ∈ st.entries, e.ref = .log l ∧ ∃ before fs rs, MissingList (.log l) g.attrs l.attrs fs ∧
      (∀ f ∈ before, f.id = "deprecated" ∨ f.id = "not_stable") ∧
      rego (.log l) (.log l) none (some g) = .ok rs ∧
      e.result.all = (before ++ fs ++ rs
        ++ checkAssocs env.checker ((l.resource.map (·.attrs)).getD []) (.log l) g.assocs).filterMap
          (reported env.modifier (.log l)) := by
  have hrep := run_report h
  have hev : eventOf env.checker l = some g := by unfold eventOf; rw [if_neg hne, hg]
  have ho : (Occ.mk "log" (.log l) (.log l) none (some g) [] (assocFindings env .event (.log l) (some g))) ∈
      occs env (.log l) := by
    unfold occs
    refine List.mem_append_right _ (List.mem_singleton.2 ?_)
    rw [hev]; simp
  obtain ⟨e, he, -, hr, fs, ⟨gs, hgs, hfs⟩, ha⟩ := hrep.mem_left (mem_flatMap_occs hm ho)
  rw [hadv] at hgs
  obtain ⟨d, s', t, n, r, h1, h2, h3, h4, h5, h6⟩ := advice_advisors hgs
  have hd := (Except.ok.inj h1).symm
  have hs := (Except.ok.inj h2).symm
  have hn : n = [] := (Except.ok.inj h4).symm
  have ht : t = checkAttributes g.attrs l.attrs (.log l) := by
    have : t = attributeFindings .event l.attrs (.log l) (some g) := (Except.ok.inj h3).symm
    rw [this]; unfold attributeFindings; dsimp only; rw [if_pos (show g.kind = _ ∨ g.kind = _ from hk)]
  refine ⟨e, he, hr, d ++ s', t, r, ?_, ?_, h5, ?_⟩
  · rw [ht]; exact checkAttributes_spec _ _ _
  · intro f hf
    rcases List.mem_append.1 hf with hf | hf
    · rw [hd] at hf
      obtain ⟨x, -, rfl⟩ := List.mem_map.1 hf
      exact .inl rfl
    · rw [hs] at hf
      obtain ⟨x, -, rfl⟩ := List.mem_map.1 hf
      exact .inr rfl
  · rw [ha, hfs, h6, hn]
    have : assocFindings env .event (.log l) (some g)
        = checkAssocs env.checker ((l.resource.map (·.attrs)).getD []) (.log l) g.assocs := by
      unfold assocFindings; dsimp only; rw [if_pos (show g.kind = _ ∨ g.kind = _ from hk)]; rfl
    simp only [this]
    simp

/-- A registry with a metric, an event and templates, for examples. -/
def small : Registry := .v1 [
  { type := .other, signal := { kind := .group, attrs := [
      { name := "http.header", typ := .template .string }, { name := "http.header.x", typ := .template .strings },
      { name := "size", typ := .prim .string }] } },
  { type := .metric, metricName := some "m", signal := { kind := .group, instrument := some "gauge", unit := some "s", attrs := [
      { name := "size", typ := .prim .int, req := .required }, { name := "http.header", typ := .template .string },
      { name := "other", typ := .prim .string, req := .optIn }] } },
  { type := .event, name := some "e", signal := { kind := .group, stability := some "development", attrs := [
      { name := "size", typ := .prim .string, req := .required }] } }]

/-- The live check as the command runs it, without rego policies. -/
def plainEnv (r : Registry) (m : Option Modifier) : Env :=
  { checker := Checker.new r, advisors := advisors (fun _ _ _ _ => .ok []), modifier := m }

/-- A metric whose only data point lacks `size` and `other`, and a log that lacks `size`. -/
example :
    let m : Metric := { name := "m", instrument := .supported "gauge", unit := "s",
                        points := some (.histogram [{ attrs := [{ name := "http.header.y" }] }]) }
    let l : Log := { eventName := "e" }
    ∃ st, liveCheck (plainEnv small none) false [.metric m, .log l] = .ok st ∧
      .metric m ∈ attachAll none [.metric m, .log l] ∧ .log l ∈ attachAll none [.metric m, .log l] ∧
      (∃ g, (Checker.new small).findMetric "m" = some g ∧ Checked .metric g) ∧
      (∃ g, (Checker.new small).findEvent "e" = some g ∧ Checked .event g) ∧
      IsPoint m (.histogramPoint { attrs := [{ name := "http.header.y" }] }) { attrs := [{ name := "http.header.y" }] } ∧
      st.entries.map (fun e => e.result.all.map fun f => (f.id, f.level)) =
        [[("required_attribute_not_present", .violation), ("opt_in_attribute_not_present", .information)],
         [("template_attribute", .information)], [],
         [("not_stable", .improvement), ("required_attribute_not_present", .violation)]] :=
  ⟨_, rfl, by decide, by decide, ⟨_, rfl, .inl rfl⟩, ⟨_, rfl, .inl rfl⟩, .inr ⟨_, rfl, by decide, rfl⟩, by decide⟩

/-! ### The definition an attribute is compared to -/

/-- The part of an index that attributes go to. -/
def attrParts (c : Checker) : List (String × AttrDef) × List (String × AttrDef) := (c.attributes, c.templatesByLength)

theorem attributes_foldl (l : List AttrDef) (c : Checker) :
    (∀ n, aget n (l.foldl Checker.addAttr c).attributes
      = ((l.filter fun d => !d.typ.isTemplate && decide (d.name = n)).getLast?).or (aget n c.attributes)) ∧
    (l.foldl Checker.addAttr c).templatesByLength
      = c.templatesByLength ++ (l.filter fun d => d.typ.isTemplate).map fun d => (d.name, d) := by
  induction l generalizing c with
  | nil => simp
  | cons d l ih =>
    obtain ⟨h1, h2⟩ := ih (c.addAttr d)
    simp only [List.foldl_cons]
    by_cases ht : d.typ.isTemplate = true
    · have e1 : (c.addAttr d).attributes = c.attributes := by unfold Checker.addAttr; rw [if_pos ht]
      have e2 : (c.addAttr d).templatesByLength = c.templatesByLength ++ [(d.name, d)] := by
        unfold Checker.addAttr; rw [if_pos ht]
      refine ⟨?_, ?_⟩
      · intro n; rw [h1, e1]; simp [List.filter_cons, ht]
      · rw [h2, e2]; simp [List.filter_cons, ht]
    · have e1 : (c.addAttr d).attributes = aset d.name d c.attributes := by unfold Checker.addAttr; rw [if_neg ht]
      have e2 : (c.addAttr d).templatesByLength = c.templatesByLength := by unfold Checker.addAttr; rw [if_neg ht]
      refine ⟨?_, ?_⟩
      · intro n
        rw [h1, e1, aget_aset]
        by_cases hn : n = d.name
        · subst hn
          simp only [if_true, List.filter_cons, ht, Bool.not_false, decide_true, Bool.and_self, if_true]
          rw [List.getLast?_cons]
          cases (l.filter fun x => !x.typ.isTemplate && decide (x.name = d.name)).getLast? <;> rfl
        · rw [if_neg hn]
          have : (!d.typ.isTemplate && decide (d.name = n)) = false := by
            have hn' : ¬ d.name = n := fun e => hn e.symm
            simp [hn']
          rw [List.filter_cons, if_neg (by rw [this]; simp)]
      · rw [h2, e2]; simp [List.filter_cons, ht]

theorem addGroup_parts (c : Checker) (g : Group) :
    attrParts (c.addGroup g) = attrParts (g.signal.attrs.foldl Checker.addAttr c) := by
  have hgen : ∀ (l : List AttrDef) (a b : Checker), attrParts a = attrParts b →
      attrParts (l.foldl Checker.addAttr a) = attrParts (l.foldl Checker.addAttr b) := by
    intro l
    induction l with
    | nil => intro a b h; exact h
    | cons d l ih =>
      intro a b h
      refine ih _ _ ?_
      have h1 : a.attributes = b.attributes := congrArg Prod.fst h
      have h2 : a.templatesByLength = b.templatesByLength := congrArg Prod.snd h
      unfold attrParts Checker.addAttr
      split <;> simp [h1, h2]
  unfold Checker.addGroup
  refine hgen _ _ _ ?_
  cases g.type <;> cases g.metricName <;> cases g.name <;> rfl

theorem foldl_addGroup_parts (l : List Group) (c : Checker) :
    attrParts (l.foldl Checker.addGroup c) = attrParts ((l.flatMap fun g => g.signal.attrs).foldl Checker.addAttr c) := by
  have hgen : ∀ (l : List AttrDef) (a b : Checker), attrParts a = attrParts b →
      attrParts (l.foldl Checker.addAttr a) = attrParts (l.foldl Checker.addAttr b) := by
    intro l
    induction l with
    | nil => intro a b h; exact h
    | cons d l ih =>
      intro a b h
      refine ih _ _ ?_
      have h1 : a.attributes = b.attributes := congrArg Prod.fst h
      have h2 : a.templatesByLength = b.templatesByLength := congrArg Prod.snd h
      unfold attrParts Checker.addAttr
      split <;> simp [h1, h2]
  induction l generalizing c with
  | nil => rfl
  | cons g l ih =>
    rw [List.foldl_cons, ih, List.flatMap_cons, List.foldl_append]
    exact hgen _ _ _ (addGroup_parts c g)

/-- The index of a registry: the last definition of each attribute that is no template, and all templates. -/
theorem new_parts (r : Registry) :
    (∀ n, (Checker.new r).findAttribute n
      = (r.attrDefs.filter fun d => !d.typ.isTemplate && decide (d.name = n)).getLast?) ∧
    (Checker.new r).templatesByLength
      = sortBy longer ((r.attrDefs.filter fun d => d.typ.isTemplate).map fun d => (d.name, d)) := by
  cases r with
  | v1 groups =>
    have h := foldl_addGroup_parts groups { registry := .v1 groups }
    have h1 := congrArg Prod.fst h
    have h2 := congrArg Prod.snd h
    obtain ⟨e1, e2⟩ := attributes_foldl (groups.flatMap fun g => g.signal.attrs) { registry := .v1 groups }
    refine ⟨?_, ?_⟩
    · intro n
      show aget n (groups.foldl Checker.addGroup { registry := .v1 groups }).attributes = _
      have h1' : (groups.foldl Checker.addGroup { registry := .v1 groups }).attributes =
        ((groups.flatMap fun g => g.signal.attrs).foldl Checker.addAttr { registry := .v1 groups }).attributes := h1
      rw [h1', e1]
      simp [aget, Registry.attrDefs]
    · show sortBy longer (groups.foldl Checker.addGroup { registry := .v1 groups }).templatesByLength = _
      have h2' : (groups.foldl Checker.addGroup { registry := .v1 groups }).templatesByLength =
        ((groups.flatMap fun g => g.signal.attrs).foldl Checker.addAttr { registry := .v1 groups }).templatesByLength := h2
      rw [h2', e2]
      rfl
  | v2 p deps =>
    unfold Checker.new Checker.findAttribute
    dsimp only
    refine ⟨?_, ?_⟩
    · intro n; rw [(attributes_foldl _ _).1]; simp [aget, Registry.attrDefs]
    · rw [(attributes_foldl _ _).2]; rfl

/-- C26. A name that is no attribute is compared to a template whose name it starts with, of which there is none with a longer
name; and to nothing exactly if it starts with the name of no template. -/
theorem longest_template (r : Registry) (n : String) :
    ((Checker.new r).findTemplate n = none ↔ ∀ d ∈ r.attrDefs, d.typ.isTemplate = true → ¬ d.name.toList <+: n.toList) ∧
    ∀ d, (Checker.new r).findTemplate n = some d →
      (d ∈ r.attrDefs ∧ d.typ.isTemplate = true ∧ d.name.toList <+: n.toList) ∧
      ∀ d' ∈ r.attrDefs, d'.typ.isTemplate = true → d'.name.toList <+: n.toList → d'.name.toList <+: d.name.toList := by
  unfold Checker.findTemplate
  rw [(new_parts r).2]
  have hmem : ∀ t, t ∈ sortBy longer ((r.attrDefs.filter fun d => d.typ.isTemplate).map fun d => (d.name, d)) ↔
      ∃ d ∈ r.attrDefs, d.typ.isTemplate = true ∧ t = (d.name, d) := by
    intro t
    rw [mem_sortBy]
    simp only [List.mem_map, List.mem_filter]
    constructor
    · intro ⟨d, ⟨h1, h2⟩, h3⟩; exact ⟨d, h1, h2, h3.symm⟩
    · intro ⟨d, h1, h2, h3⟩; exact ⟨d, ⟨h1, h2⟩, h3.symm⟩
  have hsort : Sorted (geKey fun t : String × AttrDef => blen t.1)
      (sortBy longer ((r.attrDefs.filter fun d => d.typ.isTemplate).map fun d => (d.name, d))) :=
    sortBy_sorted (geKey_totalPre _) _
  refine ⟨?_, ?_⟩
  · rw [Option.map_eq_none_iff, List.find?_eq_none]
    constructor
    · intro h d hd ht hp
      refine h (d.name, d) ((hmem _).2 ⟨d, hd, ht, rfl⟩) ?_
      unfold startsWith
      exact List.isPrefixOf_iff_prefix.2 hp
    · intro h t ht hp
      obtain ⟨d, hd, hd2, rfl⟩ := (hmem t).1 ht
      exact h d hd hd2 (List.isPrefixOf_iff_prefix.1 hp)
  · intro d h
    rw [Option.map_eq_some_iff] at h
    obtain ⟨t, ht, rfl⟩ := h
    obtain ⟨d, hd, hd2, rfl⟩ := (hmem t).1 (List.mem_of_find?_eq_some ht)
    have hp0 : startsWith n d.name = true := List.find?_some (p := fun t : String × AttrDef => startsWith n t.1) ht
    have hp := List.isPrefixOf_iff_prefix.1 hp0
    refine ⟨⟨hd, hd2, hp⟩, ?_⟩
    intro d' hd' ht' hp'
    have hle := find?_geKey_max hsort ht (d'.name, d') ((hmem _).2 ⟨d', hd', ht', rfl⟩) (List.isPrefixOf_iff_prefix.2 hp')
    rcases List.prefix_or_prefix_of_prefix hp' hp with h1 | h1
    · exact h1
    · obtain ⟨x, hx⟩ := h1
      have hle : blen d'.name ≤ blen d.name := hle
      unfold blen at hle
      rw [← hx, List.map_append, List.sum_append] at hle
      have h0 : (x.map Char.utf8Size).sum = 0 := by omega
      cases x with
      | nil => rw [← hx]; simp
      | cons c x =>
        have := Char.utf8Size_pos c
        simp at h0; omega

/-- C26. An attribute is compared to the last definition of its name in the registry that is no template, and only without
one to a template. -/
theorem attribute_definition (r : Registry) (n : String) :
    (∀ d, (Checker.new r).findAttribute n = some d →
      (Checker.new r).findAny n = some d ∧ d.typ.isTemplate = false ∧ d.name = n ∧
      ∃ pre post, r.attrDefs = pre ++ d :: post ∧ ∀ d' ∈ post, d'.name = n → d'.typ.isTemplate = true) ∧
    ((∀ d ∈ r.attrDefs, d.name = n → d.typ.isTemplate = true) →
      (Checker.new r).findAny n = (Checker.new r).findTemplate n) := by
  have hn := (new_parts r).1 n
  refine ⟨?_, ?_⟩
  · intro d hd
    refine ⟨by unfold Checker.findAny; rw [hd]; rfl, ?_⟩
    rw [hn] at hd
    obtain ⟨ys, hys⟩ := List.getLast?_eq_some_iff.1 hd
    have hm : d ∈ r.attrDefs.filter fun d => !d.typ.isTemplate && decide (d.name = n) := by rw [hys]; simp
    have hm := (List.mem_filter.1 hm).2
    simp at hm
    refine ⟨hm.1, hm.2, ?_⟩
    rw [List.filter_eq_append_iff] at hys
    obtain ⟨l1, l2, hl, h1, h2⟩ := hys
    rw [List.filter_eq_cons_iff] at h2
    obtain ⟨a, b, rfl, -, -, h5⟩ := h2
    refine ⟨l1 ++ a, b, by rw [hl]; simp, ?_⟩
    intro d' hd' hdn
    have := List.filter_eq_nil_iff.1 h5 d' hd'
    simpa [hdn] using this
  · intro h
    have h0 : (Checker.new r).findAttribute n = none := by
      rw [hn, List.getLast?_eq_none_iff, List.filter_eq_nil_iff]
      intro d hd hc
      simp at hc
      rw [h d hd hc.2] at hc
      exact nomatch hc.1
    unfold Checker.findAny
    rw [h0]; rfl

/-- The longest of two templates, the last of three definitions. -/
example :
    ((Checker.new small).findTemplate "http.header.x.y").map (·.name) = some "http.header.x" ∧
    ((Checker.new small).findTemplate "http.header.y").map (·.name) = some "http.header" ∧
    (Checker.new small).findTemplate "http" = none ∧
    (Checker.new small).findAny "size" = some { name := "size", typ := .prim .string, req := .required } := by
  decide

end Verif.LiveCheck
