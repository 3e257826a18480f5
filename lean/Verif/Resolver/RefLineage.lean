import Verif.Resolver.RefsProps
/-
C294: the lineage of an attribute reference, crates/weaver_resolver/src/attribute.rs:358-428.
-/
namespace Verif.Resolver
open Verif.Util

/-! ### Specification -/

/-- The fields that a reference gives itself. -/
inductive GivesLineage (f : RefFields) : Field → Prop
  | brief {v} : f.brief = some v → GivesLineage f .brief
  | examples {v} : f.examples = some v → GivesLineage f .examples
  | tag {v} : f.tag = some v → GivesLineage f .tag
  | requirementLevel {v} : f.requirementLevel = some v → GivesLineage f .requirementLevel
  | samplingRelevant {v} : f.samplingRelevant = some v → GivesLineage f .samplingRelevant
  | note {v} : f.note = some v → GivesLineage f .note
  | stability {v} : f.stability = some v → GivesLineage f .stability
  | deprecated {v} : f.deprecated = some v → GivesLineage f .deprecated
  | role {v} : f.role = some v → GivesLineage f .role
  | annotations {v} : f.annotations = some v → GivesLineage f .annotations

/-- The fields that an attribute has to offer: brief, note and requirement level always. -/
inductive Offers (a : Attr) : Field → Prop
  | brief : Offers a .brief
  | note : Offers a .note
  | requirementLevel : Offers a .requirementLevel
  | examples {v} : a.examples = some v → Offers a .examples
  | tag {v} : a.tag = some v → Offers a .tag
  | samplingRelevant {v} : a.samplingRelevant = some v → Offers a .samplingRelevant
  | stability {v} : a.stability = some v → Offers a .stability
  | deprecated {v} : a.deprecated = some v → Offers a .deprecated
  | role {v} : a.role = some v → Offers a .role
  | annotations {v} : a.annotations = some v → Offers a .annotations

/-- Where an attribute is from, as the lineage says it. -/
inductive NamesSource : Src → String → Prop
  | loc {g} : NamesSource (.loc g) g
  | dep {u} : NamesSource (.dep u) ("v2_dependency." ++ u.name)

/-! ### Theorems -/

/-- What the lineage says about the fields that were looked at. -/
structure Sofar (g : String) (f : RefFields) (a : Attr) (seen : List Field) (l : AttrLineage) : Prop where
  source : l.sourceGroup = g
  overridden : ∀ x, x ∈ l.overridden ↔ x ∈ seen ∧ GivesLineage f x
  inherited : ∀ x, x ∈ l.inherited ↔ x ∈ seen ∧ ¬ GivesLineage f x ∧ Offers a x

theorem mem_finsert_field (f x : Field) (s : List Field) : x ∈ finsert f s ↔ x = f ∨ x ∈ s := by
  unfold finsert
  split
  · rename_i h
    exact ⟨.inr, fun h' => h'.elim (fun e => e ▸ h) id⟩
  · exact List.mem_cons

theorem mem_fremove_field (f x : Field) (s : List Field) : x ∈ fremove f s ↔ x ∈ s ∧ x ≠ f := by
  unfold fremove
  simp

theorem Sofar.local {g f a seen l} (h : Sofar g f a seen l) {y : Field} (hg : GivesLineage f y) : Sofar g f a (y :: seen) (l.markLocal y) := by
  refine ⟨h.source, fun x => ?_, fun x => ?_⟩
  · show x ∈ finsert y l.overridden ↔ _
    rw [mem_finsert_field, h.overridden, List.mem_cons]
    constructor
    · rintro (rfl | ⟨h1, h2⟩)
      · exact ⟨.inl rfl, hg⟩
      · exact ⟨.inr h1, h2⟩
    · rintro ⟨rfl | h1, h2⟩
      · exact .inl rfl
      · exact .inr ⟨h1, h2⟩
  · show x ∈ fremove y l.inherited ↔ _
    rw [mem_fremove_field, h.inherited, List.mem_cons]
    constructor
    · rintro ⟨⟨h1, h2⟩, -⟩; exact ⟨.inr h1, h2⟩
    · rintro ⟨rfl | h1, h2, h3⟩
      · exact absurd hg h2
      · exact ⟨⟨h1, h2, h3⟩, fun e => h2 (e ▸ hg)⟩

theorem Sofar.inherit {g f a seen l} (h : Sofar g f a seen l) {y : Field} (hg : ¬ GivesLineage f y) (ho : Offers a y) :
    Sofar g f a (y :: seen) (l.markInherited y) := by
  refine ⟨h.source, fun x => ?_, fun x => ?_⟩
  · show x ∈ l.overridden ↔ _
    rw [h.overridden, List.mem_cons]
    constructor
    · rintro ⟨h1, h2⟩; exact ⟨.inr h1, h2⟩
    · rintro ⟨rfl | h1, h2⟩
      · exact absurd h2 hg
      · exact ⟨h1, h2⟩
  · show x ∈ finsert y l.inherited ↔ _
    rw [mem_finsert_field, h.inherited, List.mem_cons]
    constructor
    · rintro (rfl | ⟨h1, h2⟩)
      · exact ⟨.inl rfl, hg, ho⟩
      · exact ⟨.inr h1, h2⟩
    · rintro ⟨rfl | h1, h2⟩
      · exact .inl rfl
      · exact .inr ⟨h1, h2⟩

theorem Sofar.skip {g f a seen l} (h : Sofar g f a seen l) {y : Field} (hg : ¬ GivesLineage f y) (ho : ¬ Offers a y) :
    Sofar g f a (y :: seen) l := by
  refine ⟨h.source, fun x => ?_, fun x => ?_⟩
  · rw [h.overridden, List.mem_cons]
    constructor
    · rintro ⟨h1, h2⟩; exact ⟨.inr h1, h2⟩
    · rintro ⟨rfl | h1, h2⟩
      · exact absurd h2 hg
      · exact ⟨h1, h2⟩
  · rw [h.inherited, List.mem_cons]
    constructor
    · rintro ⟨h1, h2⟩; exact ⟨.inr h1, h2⟩
    · rintro ⟨rfl | h1, h2⟩
      · exact absurd h2.2 ho
      · exact ⟨h1, h2⟩

theorem Sofar.opt {g f a seen l} (h : Sofar g f a seen l) {α : Type} {y : Field} (lv pv : Option α)
    (hl : GivesLineage f y ↔ lv.isSome = true) (hp : Offers a y ↔ pv.isSome = true) : Sofar g f a (y :: seen) (l.opt y lv pv).1 := by
  unfold AttrLineage.opt
  cases lv with
  | some v => exact h.local (hl.2 rfl)
  | none =>
    have hg : ¬ GivesLineage f y := fun hh => by cases hl.1 hh
    cases pv with
    | some v => exact h.inherit hg (hp.2 rfl)
    | none => exact h.skip hg fun hh => by cases hp.1 hh

theorem Sofar.req {g f a seen l} (h : Sofar g f a seen l) {α : Type} {y : Field} (lv : Option α) (pv : α)
    (hl : GivesLineage f y ↔ lv.isSome = true) (hp : Offers a y) : Sofar g f a (y :: seen) (l.req y lv pv).1 := by
  unfold AttrLineage.req
  cases lv with
  | some v => exact h.local (hl.2 rfl)
  | none => exact h.inherit (fun hh => by cases hl.1 hh) hp

/-- The lineage that the overlay makes of a fresh one. -/
theorem overlayRef_lineage (name : String) (f : RefFields) (a : Attr) (g : String) :
    Sofar g f a [.annotations, .role, .deprecated, .stability, .note, .samplingRelevant, .requirementLevel, .tag, .examples, .brief]
      (overlayRef name f a (.new g)).1 := by
  have h0 : Sofar g f a [] (.new g) := ⟨rfl, by simp [AttrLineage.new], by simp [AttrLineage.new]⟩
  unfold overlayRef
  dsimp only
  have gv : ∀ {α : Type} {o : Option α} {y : Field}, (∀ v, o = some v → GivesLineage f y) → (GivesLineage f y → ∃ v, o = some v) →
      (GivesLineage f y ↔ o.isSome = true) := fun h1 h2 =>
    ⟨fun h => by obtain ⟨v, hv⟩ := h2 h; rw [hv]; rfl, fun h => by obtain ⟨v, hv⟩ := Option.isSome_iff_exists.1 h; exact h1 v hv⟩
  have of : ∀ {α : Type} {o : Option α} {y : Field}, (∀ v, o = some v → Offers a y) → (Offers a y → ∃ v, o = some v) →
      (Offers a y ↔ o.isSome = true) := fun h1 h2 =>
    ⟨fun h => by obtain ⟨v, hv⟩ := h2 h; rw [hv]; rfl, fun h => by obtain ⟨v, hv⟩ := Option.isSome_iff_exists.1 h; exact h1 v hv⟩
  refine Sofar.opt ?_ _ _ (gv (fun _ => .annotations) fun h => by cases h; exact ⟨_, ‹_›⟩) (of (fun _ => .annotations) fun h => by cases h; exact ⟨_, ‹_›⟩)
  refine Sofar.opt ?_ _ _ (gv (fun _ => .role) fun h => by cases h; exact ⟨_, ‹_›⟩) (of (fun _ => .role) fun h => by cases h; exact ⟨_, ‹_›⟩)
  refine Sofar.opt ?_ _ _ (gv (fun _ => .deprecated) fun h => by cases h; exact ⟨_, ‹_›⟩) (of (fun _ => .deprecated) fun h => by cases h; exact ⟨_, ‹_›⟩)
  refine Sofar.opt ?_ _ _ (gv (fun _ => .stability) fun h => by cases h; exact ⟨_, ‹_›⟩) (of (fun _ => .stability) fun h => by cases h; exact ⟨_, ‹_›⟩)
  refine Sofar.req ?_ _ _ (gv (fun _ => .note) fun h => by cases h; exact ⟨_, ‹_›⟩) .note
  refine Sofar.opt ?_ _ _ (gv (fun _ => .samplingRelevant) fun h => by cases h; exact ⟨_, ‹_›⟩)
    (of (fun _ => .samplingRelevant) fun h => by cases h; exact ⟨_, ‹_›⟩)
  refine Sofar.req ?_ _ _ (gv (fun _ => .requirementLevel) fun h => by cases h; exact ⟨_, ‹_›⟩) .requirementLevel
  refine Sofar.opt ?_ _ _ (gv (fun _ => .tag) fun h => by cases h; exact ⟨_, ‹_›⟩) (of (fun _ => .tag) fun h => by cases h; exact ⟨_, ‹_›⟩)
  refine Sofar.opt ?_ _ _ (gv (fun _ => .examples) fun h => by cases h; exact ⟨_, ‹_›⟩) (of (fun _ => .examples) fun h => by cases h; exact ⟨_, ‹_›⟩)
  exact Sofar.req h0 _ _ (gv (fun _ => .brief) fun h => by cases h; exact ⟨_, ‹_›⟩) .brief

/-- C294. The lineage of a reference names where the attribute is from, lists as overridden the fields that the reference gives,
and as inherited those that it does not give and that the attribute has. -/
theorem useRoot_lineage (g : RGrp) (st st' : RState) (r : String) (f : RefFields) (root : Rooted) (c : Nat) (lin : Option (String × AttrLineage))
    (h : useRoot g st r f root = (st', .done c lin)) :
    ∃ n l, lin = some (n, l) ∧ n = (if f.prefixFlag then g.pfx ++ "." ++ r else r) ∧ NamesSource root.src l.sourceGroup ∧
      (∀ x, x ∈ l.overridden ↔ GivesLineage f x) ∧ (∀ x, x ∈ l.inherited ↔ ¬ GivesLineage f x ∧ Offers root.attr x) := by
  unfold useRoot at h
  split at h
  · cases h
  · dsimp only at h
    cases h
    have hall : ∀ x, GivesLineage f x ∨ Offers root.attr x → x ∈ ([.annotations, .role, .deprecated, .stability, .note, .samplingRelevant,
        .requirementLevel, .tag, .examples, .brief] : List Field) := by
      rintro x (h | h) <;> cases h <;> decide
    have key : ∀ gid, rootLineage root = .new gid → NamesSource root.src gid →
        ∃ n l, some ((if f.prefixFlag = true then g.pfx ++ "." ++ r else r),
            (overlayRef (if f.prefixFlag = true then g.pfx ++ "." ++ r else r) f root.attr (rootLineage root)).1) = some (n, l) ∧
          n = (if f.prefixFlag then g.pfx ++ "." ++ r else r) ∧ NamesSource root.src l.sourceGroup ∧
          (∀ x, x ∈ l.overridden ↔ GivesLineage f x) ∧ (∀ x, x ∈ l.inherited ↔ ¬ GivesLineage f x ∧ Offers root.attr x) := by
      intro gid he hn
      rw [he]
      have hs := overlayRef_lineage (if f.prefixFlag = true then g.pfx ++ "." ++ r else r) f root.attr gid
      refine ⟨_, _, rfl, rfl, ?_, fun x => ?_, fun x => ?_⟩
      · rw [hs.source]; exact hn
      · rw [hs.overridden]; exact ⟨fun h => h.2, fun h => ⟨hall x (.inl h), h⟩⟩
      · rw [hs.inherited]; exact ⟨fun h => h.2, fun h => ⟨hall x (.inr h.2), h⟩⟩
    cases hsrc : root.src with
    | loc gid =>
      have := key gid (by unfold rootLineage; rw [hsrc]) (hsrc ▸ .loc)
      rwa [hsrc] at this
    | dep u =>
      have := key ("v2_dependency." ++ u.name) (by unfold rootLineage; rw [hsrc]) (hsrc ▸ .dep)
      rwa [hsrc] at this

/-- C294. No field is listed twice over. -/
theorem useRoot_never_both (g : RGrp) (st st' : RState) (r : String) (f : RefFields) (root : Rooted) (c : Nat) (n : String) (l : AttrLineage)
    (h : useRoot g st r f root = (st', .done c (some (n, l)))) (x : Field) : ¬ (x ∈ l.overridden ∧ x ∈ l.inherited) := by
  obtain ⟨n', l', he, -, -, h1, h2⟩ := useRoot_lineage g st st' r f root c _ h
  cases he
  rw [h1, h2]
  exact fun h => h.2.1 h.1

example : ((overlayRef "a" { brief := some "b" } { name := "a", type := "int", tag := some "t" } (.new "g")).1.overridden,
    (overlayRef "a" { brief := some "b" } { name := "a", type := "int", tag := some "t" } (.new "g")).1.inherited) =
    ([.brief], [.note, .requirementLevel, .tag]) := by decide

end Verif.Resolver
