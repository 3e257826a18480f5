import Verif.Resolver.Inherit
/-
C02 and C11: attribute inheritance and lineage.
-/
namespace Verif.Resolver
open Verif.Util

/-! ### Specification -/

/-- Field values of a specification, absent fields being `none`. A definition always has a level and a note. -/
def briefOf : AttrSpec → Option String
  | .ref _ f => f.brief
  | .id _ f => f.brief
def examplesOf : AttrSpec → Option String
  | .ref _ f => f.examples
  | .id _ f => f.examples
def tagOf : AttrSpec → Option String
  | .ref _ f => f.tag
  | .id _ f => f.tag
def levelOf : AttrSpec → Option String
  | .ref _ f => f.requirementLevel
  | .id _ f => some f.requirementLevel
def samplingOf : AttrSpec → Option Bool
  | .ref _ f => f.samplingRelevant
  | .id _ f => f.samplingRelevant
def noteOf : AttrSpec → Option String
  | .ref _ f => f.note
  | .id _ f => some f.note
def stabilityOf : AttrSpec → Option String
  | .ref _ f => f.stability
  | .id _ f => f.stability
def deprecatedOf : AttrSpec → Option String
  | .ref _ f => f.deprecated
  | .id _ f => f.deprecated
def annotationsOf : AttrSpec → Option Annots
  | .ref _ f => f.annotations
  | .id _ f => f.annotations
def roleOf : AttrSpec → Option Role
  | .ref _ f => f.role
  | .id _ f => f.role
def typeOf : AttrSpec → Option String
  | .ref _ _ => none
  | .id _ f => some f.type
/-- The prefix flag as a value that is either set or absent. -/
def prefixOf : AttrSpec → Option Bool
  | .ref _ f => if f.prefixFlag then some true else none
  | .id _ _ => none

/-- The specification defines the attribute (`id:`) rather than referring to it (`ref:`). -/
def isDef : AttrSpec → Bool
  | .ref _ _ => false
  | .id _ _ => true

/-- The last value that is set, if any. -/
def lastSome {α : Type} (l : List (Option α)) : Option α := l.reverse.findSome? id

/-- What parent, included groups and the group itself say about an attribute id, lowest priority first. -/
def layers (own : List UAttr) (bases : List (String × List UAttr)) (x : String) : List AttrSpec :=
  ((bases.flatMap (fun b => b.2) ++ own).map (fun a => a.spec)).filter (fun s => s.key = x)

/-- The layers from the last definition on: a definition hides everything below it. -/
def fromLastDef : List AttrSpec → List AttrSpec
  | [] => []
  | s :: l => if l.any isDef then fromLastDef l else s :: l

/-! ### Lemmas on specifications -/

theorem lastSome_append {α : Type} (l : List (Option α)) (o : Option α) :
    lastSome (l ++ [o]) = o.or (lastSome l) := by
  cases o <;> simp [lastSome]

theorem fromLastDef_append (l : List AttrSpec) (s : AttrSpec) :
    fromLastDef (l ++ [s]) = if isDef s then [s] else fromLastDef l ++ [s] := by
  induction l with
  | nil => simp [fromLastDef]
  | cons a l ih =>
    simp only [List.cons_append, fromLastDef, List.any_append, List.any_cons, List.any_nil, Bool.or_false, ih]
    cases hs : isDef s <;> cases hl : l.any isDef <;> simp

theorem fromLastDef_nil {l : List AttrSpec} : fromLastDef l = [] ↔ l = [] := by
  induction l with
  | nil => simp [fromLastDef]
  | cons a l ih =>
    simp only [fromLastDef]
    split
    · rename_i h; rw [ih]; constructor
      · intro e; subst e; simp at h
      · intro e; simp at e
    · simp

/-! ### Lemmas on the model -/

theorem opt_val {α : Type} (l : AttrLineage) (f : Field) (a b : Option α) : (l.opt f a b).2 = a.or b := by
  cases a <;> simp [AttrLineage.opt]
theorem req_val {α : Type} (l : AttrLineage) (f : Field) (a : Option α) (b : α) : (l.req f a b).2 = a.getD b := by
  cases a <;> simp [AttrLineage.req]
theorem pfx_val (l : AttrLineage) (a b : Bool) : (l.pfx a b).2 = (a || b) := by
  cases a <;> simp [AttrLineage.pfx]

/-- One overlay step, seen on the specification only. -/
def overlay (s old : AttrSpec) : AttrSpec := (resolveInheritanceAttr s old (.new "")).2

theorem resolve_val (s old : AttrSpec) (l : AttrLineage) : (resolveInheritanceAttr s old l).2 = overlay s old := by
  unfold overlay
  cases s <;> cases old <;> simp [resolveInheritanceAttr, opt_val, req_val, pfx_val]

/-- Field-wise content of a specification. -/
structure View where
  type : Option String
  brief : Option String
  examples : Option String
  tag : Option String
  level : Option String
  sampling : Option Bool
  note : Option String
  stability : Option String
  deprecated : Option String
  annotations : Option Annots
  role : Option Role
  pfx : Option Bool

def viewOf (s : AttrSpec) : View :=
  { type := typeOf s, brief := briefOf s, examples := examplesOf s, tag := tagOf s, level := levelOf s,
    sampling := samplingOf s, note := noteOf s, stability := stabilityOf s, deprecated := deprecatedOf s,
    annotations := annotationsOf s, role := roleOf s, pfx := prefixOf s }

/-- Later values first, field by field. -/
def View.over (a b : View) : View :=
  { type := a.type.or b.type, brief := a.brief.or b.brief, examples := a.examples.or b.examples, tag := a.tag.or b.tag,
    level := a.level.or b.level, sampling := a.sampling.or b.sampling, note := a.note.or b.note,
    stability := a.stability.or b.stability, deprecated := a.deprecated.or b.deprecated,
    annotations := a.annotations.or b.annotations, role := a.role.or b.role, pfx := a.pfx.or b.pfx }

/-- The last value of each field over a list of layers. -/
def viewOfAll (l : List AttrSpec) : View :=
  { type := lastSome (l.map typeOf), brief := lastSome (l.map briefOf), examples := lastSome (l.map examplesOf),
    tag := lastSome (l.map tagOf), level := lastSome (l.map levelOf), sampling := lastSome (l.map samplingOf),
    note := lastSome (l.map noteOf), stability := lastSome (l.map stabilityOf),
    deprecated := lastSome (l.map deprecatedOf), annotations := lastSome (l.map annotationsOf),
    role := lastSome (l.map roleOf), pfx := lastSome (l.map prefixOf) }

theorem viewOfAll_append (l : List AttrSpec) (s : AttrSpec) : viewOfAll (l ++ [s]) = (viewOf s).over (viewOfAll l) := by
  simp only [viewOfAll, List.map_append, List.map_cons, List.map_nil, lastSome_append, View.over, viewOf]

theorem viewOf_overlay_ref (r : String) (f : RefFields) (old : AttrSpec) (hp : isDef old = true → f.prefixFlag = false) :
    viewOf (overlay (.ref r f) old) = (viewOf (.ref r f)).over (viewOf old) := by
  cases old with
  | ref r' p =>
    simp [overlay, resolveInheritanceAttr, opt_val, pfx_val, viewOf, View.over, typeOf, briefOf, examplesOf, tagOf,
      levelOf, samplingOf, noteOf, stabilityOf, deprecatedOf, annotationsOf, roleOf, prefixOf]
    cases f.prefixFlag <;> cases p.prefixFlag <;> simp
  | id i p =>
    have := hp rfl
    simp [overlay, resolveInheritanceAttr, opt_val, req_val, viewOf, View.over, typeOf, briefOf, examplesOf, tagOf,
      levelOf, samplingOf, noteOf, stabilityOf, deprecatedOf, annotationsOf, roleOf, prefixOf, this]

theorem overlay_key (s old : AttrSpec) : (overlay s old).key = s.key := by
  cases s <;> cases old <;> simp [overlay, resolveInheritanceAttr, AttrSpec.key]

theorem overlay_isDef (s old : AttrSpec) : isDef (overlay s old) = (isDef s || isDef old) := by
  cases s <;> cases old <;> simp [overlay, resolveInheritanceAttr, isDef]

/-- The specification obtained from the layers of one id. -/
def foldSpec (init : Option AttrSpec) (l : List AttrSpec) : Option AttrSpec :=
  l.foldl (fun acc s => some (match acc with
    | none => s
    | some old => overlay s old)) init

theorem stepBase_spec (g : String) (m : List (String × Entry)) (a : UAttr) (x : String) :
    (aget x (stepBase g m a)).map Entry.spec =
      if a.spec.key = x then foldSpec ((aget x m).map Entry.spec) [a.spec] else (aget x m).map Entry.spec := by
  unfold stepBase
  by_cases hx : a.spec.key = x
  · subst hx
    rw [if_pos rfl]
    cases hg : aget a.spec.key m with
    | none => simp [aget_bins, foldSpec]
    | some e => simp [aget_bins, foldSpec, resolve_val]
  · have hx' : ¬ x = a.spec.key := fun e => hx e.symm
    rw [if_neg hx]
    cases hg : aget a.spec.key m <;> simp [aget_bins, hx']

theorem overlay_def (i : String) (f : IdFields) (old : AttrSpec) : overlay (.id i f) old = .id i f := by
  simp [overlay, resolveInheritanceAttr]

theorem stepOwn_spec (g : String) (m : List (String × Entry)) (a : UAttr) (x : String) :
    (aget x (stepOwn g m a)).map Entry.spec =
      if a.spec.key = x then foldSpec ((aget x m).map Entry.spec) [a.spec] else (aget x m).map Entry.spec := by
  unfold stepOwn
  cases hs : a.spec with
  | ref r f =>
    by_cases hx : r = x
    · subst hx
      simp only [AttrSpec.key, if_true]
      cases hg : aget r m with
      | none => simp [aget_bins, foldSpec]
      | some e => simp [aget_bins, foldSpec, resolve_val]
    · have hx' : ¬ x = r := fun e => hx e.symm
      simp only [AttrSpec.key, hx, if_false]
      cases hg : aget r m <;> simp [aget_bins, hx']
  | id i f =>
    by_cases hx : i = x
    · subst hx
      simp only [AttrSpec.key, if_true]
      cases hg : aget i m <;> simp [aget_bins, foldSpec, overlay_def]
    · have hx' : ¬ x = i := fun e => hx e.symm
      simp only [AttrSpec.key, hx, if_false]
      simp [aget_bins, hx']

theorem foldSpec_append (init : Option AttrSpec) (l m : List AttrSpec) :
    foldSpec init (l ++ m) = foldSpec (foldSpec init l) m := by simp [foldSpec]

theorem foldl_spec (step : List (String × Entry) → UAttr → List (String × Entry)) (x : String)
    (hstep : ∀ m a, (aget x (step m a)).map Entry.spec =
      if a.spec.key = x then foldSpec ((aget x m).map Entry.spec) [a.spec] else (aget x m).map Entry.spec)
    (l : List UAttr) (m : List (String × Entry)) :
    (aget x (l.foldl step m)).map Entry.spec =
      foldSpec ((aget x m).map Entry.spec) ((l.map (fun a => a.spec)).filter (fun s => s.key = x)) := by
  induction l generalizing m with
  | nil => simp [foldSpec]
  | cons a l ih =>
    simp only [List.foldl_cons, List.map_cons]
    rw [ih, hstep]
    by_cases hx : a.spec.key = x
    · rw [if_pos hx, List.filter_cons_of_pos (by simpa using hx), ← foldSpec_append]; rfl
    · rw [if_neg hx, List.filter_cons_of_neg (by simpa using hx)]

theorem inheritMap_spec (gid : String) (own : List UAttr) (bases : List (String × List UAttr)) (x : String) :
    (aget x (inheritMap gid own bases)).map Entry.spec = foldSpec none (layers own bases x) := by
  unfold inheritMap
  rw [foldl_spec (stepOwn gid) x (fun m a => stepOwn_spec gid m a x)]
  suffices H : ∀ (bases : List (String × List UAttr)) (m : List (String × Entry)),
      (aget x (bases.foldl (fun m b => b.2.foldl (stepBase b.1) m) m)).map Entry.spec =
        foldSpec ((aget x m).map Entry.spec)
          (((bases.flatMap (fun b => b.2)).map (fun a => a.spec)).filter (fun s => s.key = x)) by
    rw [H]
    simp only [layers, List.map_append, List.filter_append, foldSpec_append]
    rfl
  intro bases
  induction bases with
  | nil => intro m; simp [foldSpec]
  | cons b bs ih =>
    intro m
    simp only [List.foldl_cons, List.flatMap_cons, List.map_append, List.filter_append, foldSpec_append]
    rw [ih, foldl_spec (stepBase b.1) x (fun m a => stepBase_spec b.1 m a x)]

theorem foldSpec_concat (l : List AttrSpec) (s : AttrSpec) :
    foldSpec none (l ++ [s]) = some (match foldSpec none l with
      | none => s
      | some old => overlay s old) := by
  rw [foldSpec_append]; rfl

theorem list_reverse_ind {α : Type} {P : List α → Prop} (h0 : P []) (h1 : ∀ l a, P l → P (l ++ [a])) (l : List α) :
    P l := by
  have : ∀ l : List α, P l.reverse := by
    intro l
    induction l with
    | nil => exact h0
    | cons a l ih => rw [List.reverse_cons]; exact h1 _ _ ih
  have h := this l.reverse
  rwa [List.reverse_reverse] at h

theorem foldSpec_none_iff (l : List AttrSpec) : foldSpec none l = none ↔ l = [] := by
  induction l using list_reverse_ind with
  | h0 => simp [foldSpec]
  | h1 l a _ => rw [foldSpec_concat]; simp

theorem foldSpec_isDef (l : List AttrSpec) (s : AttrSpec) (h : foldSpec none l = some s) :
    isDef s = l.any isDef := by
  induction l using list_reverse_ind generalizing s with
  | h0 => simp [foldSpec] at h
  | h1 l a ih =>
    rw [foldSpec_concat] at h
    simp only [Option.some.injEq] at h
    subst h
    cases hf : foldSpec none l with
    | none => have := (foldSpec_none_iff l).1 hf; subst this; simp
    | some old => simp only [overlay_isDef, ih old hf, List.any_append, List.any_cons, List.any_nil, Bool.or_false]
                  exact Bool.or_comm _ _

/-- The field-wise meaning of the fold, prefix flags on references to definitions aside. -/
theorem foldSpec_view (l : List AttrSpec) (s : AttrSpec) (h : foldSpec none l = some s)
    (hp : l.any isDef = true → ∀ r f, AttrSpec.ref r f ∈ l → f.prefixFlag = false) :
    viewOf s = viewOfAll (fromLastDef l) := by
  induction l using list_reverse_ind generalizing s with
  | h0 => simp [foldSpec] at h
  | h1 l a ih =>
    rw [foldSpec_concat] at h
    simp only [Option.some.injEq] at h
    subst h
    have single : ∀ a, viewOfAll [a] = viewOf a := by
      intro a
      simp only [viewOfAll, viewOf, List.map_cons, List.map_nil]
      simp [lastSome]
    rw [fromLastDef_append]
    cases a with
    | id i f =>
      simp only [isDef, if_true, single]
      cases hf : foldSpec none l <;> simp [overlay_def]
    | ref r f =>
      simp only [isDef, Bool.false_eq_true, if_false]
      cases hf : foldSpec none l with
      | none =>
        have := (foldSpec_none_iff l).1 hf; subst this
        simp [fromLastDef, single]
      | some old =>
        have hd := foldSpec_isDef l old hf
        have hp' : isDef old = true → f.prefixFlag = false := by
          intro ho
          rw [ho] at hd
          exact hp (by simp [← hd]) r f (by simp)
        simp only
        rw [viewOf_overlay_ref r f old hp', viewOfAll_append, ih old hf]
        intro hd' r' f' hm
        exact hp (by simp [hd']) r' f' (by simp [hm])

theorem inheritMap_sorted (gid : String) (own : List UAttr) (bases : List (String × List UAttr)) :
    KeySorted (inheritMap gid own bases) := by
  unfold inheritMap
  have hb : ∀ (l : List UAttr) (g : String) (m : List (String × Entry)), KeySorted m → KeySorted (l.foldl (stepBase g) m) := by
    intro l g
    induction l with
    | nil => intro m h; exact h
    | cons a l ih => intro m h; refine ih _ ?_; unfold stepBase; split <;> exact keySorted_bins h
  have ho : ∀ (l : List UAttr) (m : List (String × Entry)), KeySorted m → KeySorted (l.foldl (stepOwn gid) m) := by
    intro l
    induction l with
    | nil => intro m h; exact h
    | cons a l ih =>
      intro m h; refine ih _ ?_; unfold stepOwn
      split
      · split <;> exact keySorted_bins h
      · exact keySorted_bins h
  apply ho
  have : ∀ (bs : List (String × List UAttr)) (m : List (String × Entry)), KeySorted m →
      KeySorted (bs.foldl (fun m b => b.2.foldl (stepBase b.1) m) m) := by
    intro bs
    induction bs with
    | nil => intro m h; exact h
    | cons b bs ih => intro m h; exact ih _ (hb _ _ _ h)
  exact this _ _ (by simp [KeySorted])

theorem inheritMap_key (gid : String) (own : List UAttr) (bases : List (String × List UAttr)) (k : String) (e : Entry)
    (h : (k, e) ∈ inheritMap gid own bases) :
    e.spec.key = k ∧ foldSpec none (layers own bases k) = some e.spec := by
  have hg := aget_of_mem_nodup (keySorted_nodup (inheritMap_sorted gid own bases)) h
  have hs := inheritMap_spec gid own bases k
  rw [hg] at hs
  simp only [Option.map_some] at hs
  refine ⟨?_, hs.symm⟩
  have : ∀ (l : List AttrSpec) (s : AttrSpec), (∀ t ∈ l, t.key = k) → foldSpec none l = some s → s.key = k := by
    intro l
    induction l using list_reverse_ind with
    | h0 => intro s _ h; simp [foldSpec] at h
    | h1 l a _ =>
      intro s hl h
      rw [foldSpec_concat] at h
      simp only [Option.some.injEq] at h
      subst h
      have ha := hl a (by simp)
      cases foldSpec none l with
      | none => exact ha
      | some old => simp only [overlay_key]; exact ha
  refine this _ _ ?_ hs.symm
  intro t ht
  simp only [layers, List.mem_filter, decide_eq_true_eq] at ht
  exact ht.2

/-! ### C02 -/

/-- C02: the attribute ids of the resolved group are exactly those of its parent, its included groups and its own,
each once, in increasing order. -/
theorem inherit_ids (gid : String) (own : List UAttr) (bases : List (String × List UAttr)) :
    ((inheritAttrs gid own bases).map (fun a => a.spec.key)).Pairwise (fun a b => a < b) ∧
    ∀ x, x ∈ (inheritAttrs gid own bases).map (fun a => a.spec.key) ↔
      (∃ b ∈ bases, ∃ a ∈ b.2, a.spec.key = x) ∨ ∃ a ∈ own, a.spec.key = x := by
  have hk : (inheritAttrs gid own bases).map (fun a => a.spec.key) = (inheritMap gid own bases).map Prod.fst := by
    simp only [inheritAttrs, List.map_map]
    apply List.map_congr_left
    intro p hp
    exact (inheritMap_key gid own bases p.1 p.2 hp).1
  rw [hk]
  constructor
  · have := inheritMap_sorted gid own bases
    unfold KeySorted at this
    exact List.pairwise_map.2 this
  · intro x
    rw [mem_keys_iff]
    have hs := inheritMap_spec gid own bases x
    have : (∃ v, aget x (inheritMap gid own bases) = some v) ↔ layers own bases x ≠ [] := by
      rw [ne_eq, ← foldSpec_none_iff, ← hs]
      cases aget x (inheritMap gid own bases) <;> simp
    rw [this]
    constructor
    · intro h
      obtain ⟨s, hs⟩ := List.exists_mem_of_ne_nil _ h
      simp only [layers, List.mem_filter, List.mem_map, List.mem_append, List.mem_flatMap, decide_eq_true_eq] at hs
      obtain ⟨⟨a, ha, rfl⟩, hk⟩ := hs
      rcases ha with ⟨b, hb, ha⟩ | ha
      · exact .inl ⟨b, hb, a, ha, hk⟩
      · exact .inr ⟨a, ha, hk⟩
    · intro h
      have : ∃ s, s ∈ layers own bases x := by
        rcases h with ⟨b, hb, a, ha, hk⟩ | ⟨a, ha, hk⟩
        · refine ⟨a.spec, ?_⟩
          simp only [layers, List.mem_filter, List.mem_map, List.mem_append, List.mem_flatMap, decide_eq_true_eq]
          exact ⟨⟨a, .inl ⟨b, hb, ha⟩, rfl⟩, hk⟩
        · refine ⟨a.spec, ?_⟩
          simp only [layers, List.mem_filter, List.mem_map, List.mem_append, List.mem_flatMap, decide_eq_true_eq]
          exact ⟨⟨a, .inr ha, rfl⟩, hk⟩
      obtain ⟨s, hs⟩ := this
      exact List.ne_nil_of_mem hs

/-- Field-wise content without the prefix flag. -/
def View.noPfx (v : View) : View := { v with pfx := none }

theorem overlay_ref_noPfx (r : String) (f : RefFields) (old : AttrSpec) :
    (viewOf (overlay (.ref r f) old)).noPfx = ((viewOf (.ref r f)).over (viewOf old)).noPfx := by
  cases old <;>
    simp [overlay, resolveInheritanceAttr, opt_val, req_val, viewOf, View.over, View.noPfx, typeOf, briefOf, examplesOf,
      tagOf, levelOf, samplingOf, noteOf, stabilityOf, deprecatedOf, annotationsOf, roleOf]

theorem over_noPfx (a b c : View) (h : b.noPfx = c.noPfx) : (a.over b).noPfx = (a.over c).noPfx := by
  unfold View.noPfx at h
  injection h with h1 h2 h3 h4 h5 h6 h7 h8 h9 h10 h11
  simp [View.over, View.noPfx, h1, h2, h3, h4, h5, h6, h7, h8, h9, h10, h11]

theorem foldSpec_noPfx (l : List AttrSpec) (s : AttrSpec) (h : foldSpec none l = some s) :
    (viewOf s).noPfx = (viewOfAll (fromLastDef l)).noPfx := by
  induction l using list_reverse_ind generalizing s with
  | h0 => simp [foldSpec] at h
  | h1 l a ih =>
    rw [foldSpec_concat] at h
    simp only [Option.some.injEq] at h
    subst h
    have single : ∀ a, viewOfAll [a] = viewOf a := by
      intro a
      simp only [viewOfAll, viewOf, List.map_cons, List.map_nil]
      simp [lastSome]
    rw [fromLastDef_append]
    cases a with
    | id i f =>
      simp only [isDef, if_true, single]
      cases hf : foldSpec none l <;> simp [overlay_def]
    | ref r f =>
      simp only [isDef, Bool.false_eq_true, if_false]
      cases hf : foldSpec none l with
      | none =>
        have := (foldSpec_none_iff l).1 hf; subst this
        simp [fromLastDef, single]
      | some old =>
        simp only
        rw [overlay_ref_noPfx, viewOfAll_append]
        exact over_noPfx _ _ _ (ih old hf)

/-- C02: for every attribute of the resolved group, every field has the value of the highest-priority layer that sets
it, counting only the layers from the last definition on (a definition replaces what is below it entirely). The one
exception is the `prefix` flag, which an attribute that some layer defines never has (see
`inherit_prefix_dropped_refuted`). -/
theorem inherit_fields (gid : String) (own : List UAttr) (bases : List (String × List UAttr)) (a : UAttr)
    (h : a ∈ inheritAttrs gid own bases) :
    let L := fromLastDef (layers own bases a.spec.key)
    typeOf a.spec = lastSome (L.map typeOf) ∧ briefOf a.spec = lastSome (L.map briefOf) ∧
    examplesOf a.spec = lastSome (L.map examplesOf) ∧ tagOf a.spec = lastSome (L.map tagOf) ∧
    levelOf a.spec = lastSome (L.map levelOf) ∧ samplingOf a.spec = lastSome (L.map samplingOf) ∧
    noteOf a.spec = lastSome (L.map noteOf) ∧ stabilityOf a.spec = lastSome (L.map stabilityOf) ∧
    deprecatedOf a.spec = lastSome (L.map deprecatedOf) ∧ annotationsOf a.spec = lastSome (L.map annotationsOf) ∧
    roleOf a.spec = lastSome (L.map roleOf) ∧
    prefixOf a.spec = (if (layers own bases a.spec.key).any isDef then none else lastSome (L.map prefixOf)) := by
  unfold inheritAttrs at h
  obtain ⟨p, hm, rfl⟩ := List.mem_map.1 h
  obtain ⟨k, e⟩ := p
  obtain ⟨hk, hf⟩ := inheritMap_key gid own bases k e hm
  simp only
  rw [hk]
  have hv := foldSpec_noPfx _ _ hf
  refine ⟨congrArg View.type hv, congrArg View.brief hv, congrArg View.examples hv, congrArg View.tag hv,
    congrArg View.level hv, congrArg View.sampling hv, congrArg View.note hv, congrArg View.stability hv,
    congrArg View.deprecated hv, congrArg View.annotations hv, congrArg View.role hv, ?_⟩
  by_cases hd : (layers own bases k).any isDef = true
  · rw [if_pos hd]
    have := foldSpec_isDef _ _ hf
    rw [hd] at this
    cases hs : e.spec with
    | id i f => rfl
    | ref r f => rw [hs] at this; simp [isDef] at this
  · rw [if_neg hd]
    exact congrArg View.pfx (foldSpec_view _ _ hf (fun h => absurd h hd))

/-- C02: an attribute is a definition in the resolved group iff one of the layers defines it. -/
theorem inherit_definition (gid : String) (own : List UAttr) (bases : List (String × List UAttr)) (a : UAttr)
    (h : a ∈ inheritAttrs gid own bases) : isDef a.spec = (layers own bases a.spec.key).any isDef := by
  unfold inheritAttrs at h
  obtain ⟨p, hm, rfl⟩ := List.mem_map.1 h
  obtain ⟨k, e⟩ := p
  obtain ⟨hk, hf⟩ := inheritMap_key gid own bases k e hm
  simp only
  rw [hk]
  exact foldSpec_isDef _ _ hf

/-- C02: a group's own definition wins entirely. -/
theorem inherit_own_definition (gid : String) (own₁ own₂ : List UAttr) (d : UAttr) (bases : List (String × List UAttr))
    (hd : isDef d.spec = true) (hlast : ∀ a ∈ own₂, a.spec.key ≠ d.spec.key) :
    ∃ a ∈ inheritAttrs gid (own₁ ++ d :: own₂) bases, a.spec = d.spec := by
  have hl : ∃ pre, layers (own₁ ++ d :: own₂) bases d.spec.key = pre ++ [d.spec] := by
    refine ⟨((bases.flatMap (fun b => b.2) ++ own₁).map (fun a => a.spec)).filter (fun s => s.key = d.spec.key), ?_⟩
    simp only [layers, ← List.append_assoc, List.map_append, List.map_cons, List.filter_append]
    congr 1
    rw [List.filter_cons_of_pos (by simp)]
    congr 1
    rw [List.filter_eq_nil_iff]
    intro s hs
    obtain ⟨a, ha, rfl⟩ := List.mem_map.1 hs
    simpa using hlast a ha
  obtain ⟨pre, hl⟩ := hl
  have hs := inheritMap_spec gid (own₁ ++ d :: own₂) bases d.spec.key
  rw [hl, foldSpec_concat] at hs
  cases hg : aget d.spec.key (inheritMap gid (own₁ ++ d :: own₂) bases) with
  | none => rw [hg] at hs; simp at hs
  | some e =>
    rw [hg] at hs
    simp only [Option.map_some, Option.some.injEq] at hs
    refine ⟨{ spec := e.spec, origin := e.origin }, ?_, ?_⟩
    · exact List.mem_map.2 ⟨(_, e), aget_some_mem hg, rfl⟩
    · rw [hs]
      cases hsp : d.spec with
      | ref r f => rw [hsp] at hd; simp [isDef] at hd
      | id i f => cases foldSpec none pre <;> simp [overlay_def]

/-- C136, refuted: the flag of a `prefix: true` reference is dropped when the inherited attribute is a definition. -/
theorem inherit_prefix_dropped_refuted : ∃ (own : List UAttr) (bases : List (String × List UAttr)) (a : UAttr),
    a ∈ inheritAttrs "g" own bases ∧ (∃ f, AttrSpec.ref a.spec.key f ∈ own.map (fun a => a.spec) ∧ f.prefixFlag = true) ∧
    prefixOf a.spec = none :=
  ⟨[{ spec := .ref "x" { prefixFlag := true } }], [("p", [{ spec := .id "x" { type := "int" } }])],
    { spec := .id "x" { type := "int" } }, by decide, ⟨{ prefixFlag := true }, by decide, rfl⟩, rfl⟩

private def exParent : List UAttr :=
  [{ spec := .id "a" { type := "int", brief := some "A", note := "n" } }, { spec := .ref "b" { brief := some "B" } }]
private def exIncl : List UAttr := [{ spec := .ref "a" { brief := some "A2" } }, { spec := .ref "c" {} }]
private def exOwn : List UAttr :=
  [{ spec := .ref "a" { note := some "own" } }, { spec := .id "b" { type := "string" } }, { spec := .ref "d" {} }]

example : inheritAttrs "g" exOwn [("p", exParent), ("i", exIncl)] =
    [{ spec := .id "a" { type := "int", brief := some "A2", note := "own" } },
     { spec := .id "b" { type := "string" } }, { spec := .ref "c" {} }, { spec := .ref "d" {} }] := by decide

/-! ### Where an inherited attribute comes from -/

/-- C02: an attribute that is inherited and not redefined by the group keeps the origin (registry) of the last base
that carries it, even when the group overrides some of its fields. -/
theorem inherit_origin (gid : String) (own : List UAttr) (bases : List (String × List UAttr)) (a : UAttr)
    (h : a ∈ inheritAttrs gid own bases) (pre post : List UAttr) (b : UAttr)
    (hb : bases.flatMap (fun b => b.2) = pre ++ b :: post) (hk : b.spec.key = a.spec.key)
    (hlast : ∀ c ∈ post, c.spec.key ≠ a.spec.key)
    (hown : ∀ c ∈ own, c.spec.key = a.spec.key → isDef c.spec = false) : a.origin = b.origin := by
  unfold inheritAttrs at h
  obtain ⟨p, hm, rfl⟩ := List.mem_map.1 h
  obtain ⟨k, e⟩ := p
  obtain ⟨hke, _⟩ := inheritMap_key gid own bases k e hm
  simp only at hk hlast hown ⊢
  rw [hke] at hk hlast hown
  have hg := aget_of_mem_nodup (keySorted_nodup (inheritMap_sorted gid own bases)) hm
  have hbase : ∀ (bs : List (String × List UAttr)) (m : List (String × Entry)) ,
      (aget k (bs.foldl (fun m b => b.2.foldl (stepBase b.1) m) m)).map Entry.origin =
        (bs.flatMap (fun b => b.2)).foldl (fun o c => if c.spec.key = k then some c.origin else o)
          ((aget k m).map Entry.origin) := by
    intro bs
    induction bs with
    | nil => intro m; rfl
    | cons b bs ih =>
      intro m
      simp only [List.foldl_cons, List.flatMap_cons, List.foldl_append]
      rw [ih]
      congr 1
      generalize b.2 = l
      induction l generalizing m with
      | nil => rfl
      | cons c l ih2 =>
        simp only [List.foldl_cons]
        rw [ih2]
        congr 1
        unfold stepBase
        by_cases hc : c.spec.key = k
        · rw [if_pos hc]; subst hc
          cases aget c.spec.key m <;> simp [aget_bins]
        · rw [if_neg hc]
          have hc' : ¬ k = c.spec.key := fun e => hc e.symm
          cases aget c.spec.key m <;> simp [aget_bins, hc']
  have hskip : ∀ (l : List UAttr) (o : Option (Option SchemaUrl)), (∀ c ∈ l, c.spec.key ≠ k) →
      l.foldl (fun o c => if c.spec.key = k then some c.origin else o) o = o := by
    intro l
    induction l with
    | nil => intro o _; rfl
    | cons c l ih =>
      intro o hc
      simp only [List.foldl_cons]
      rw [if_neg (hc c (by simp))]
      exact ih o (fun c hcl => hc c (by simp [hcl]))
  have howned : ∀ (l : List UAttr) (m : List (String × Entry)) (o : Option SchemaUrl),
      (∀ c ∈ l, c.spec.key = k → isDef c.spec = false) → (aget k m).map Entry.origin = some o →
      (aget k (l.foldl (stepOwn gid) m)).map Entry.origin = some o := by
    intro l
    induction l with
    | nil => intro m o _ h; exact h
    | cons c l ih =>
      intro m o hc hmo
      simp only [List.foldl_cons]
      refine ih _ o (fun c hcl => hc c (by simp [hcl])) ?_
      unfold stepOwn
      cases hs : c.spec with
      | ref r f =>
        simp only
        by_cases hr : r = k
        · subst hr
          cases hgr : aget r m with
          | none => rw [hgr] at hmo; simp at hmo
          | some e' => rw [hgr] at hmo; simpa [aget_bins] using hmo
        · have hr' : ¬ k = r := fun e => hr e.symm
          cases hgr : aget r m <;> simp only [aget_bins, hr', if_false] <;> exact hmo
      | id i f =>
        simp only
        have : i ≠ k := by
          rintro rfl
          have := hc c (by simp) (by rw [hs]; rfl)
          rw [hs] at this; simp [isDef] at this
        have hr' : ¬ k = i := fun e => this e.symm
        simp only [aget_bins, hr', if_false]; exact hmo
  have hfin := howned own (bases.foldl (fun m b => b.2.foldl (stepBase b.1) m) []) b.origin hown (by
    rw [hbase, hb, List.foldl_append, List.foldl_cons, if_pos hk]
    exact hskip post _ hlast)
  have : aget k (own.foldl (stepOwn gid) (bases.foldl (fun m b => b.2.foldl (stepBase b.1) m) [])) = some e := hg
  rw [this] at hfin
  simpa using hfin

example : ∃ a ∈ inheritAttrs "g" [{ spec := .ref "x" { brief := some "own" } }]
      [("p", [{ spec := .id "x" { type := "int" }, origin := some { name := "dep", tail := "1.0.0", sv := none } }])],
    briefOf a.spec = some "own" ∧ a.origin ≠ none :=
  ⟨{ spec := .id "x" { type := "int", brief := some "own" },
     origin := some { name := "dep", tail := "1.0.0", sv := none } }, by decide, rfl, by decide⟩

end Verif.Resolver
