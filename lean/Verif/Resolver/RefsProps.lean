import Verif.Resolver.Refs
import Verif.Resolver.CatalogProps
/-
C54 (what an attribute reference resolves to), the attribute part of C06 (exclusion) and of C04 (file order).
-/
namespace Verif.Resolver
open Verif.Util

/-! ### Specification -/

/-- A reference over the attribute it refers to: the fields the reference gives, the attribute's own ones otherwise. -/
def overlaid (name : String) (f : RefFields) (root : Attr) : Attr :=
  { name := name, type := root.type
    brief := f.brief.getD root.brief
    examples := f.examples.or root.examples
    tag := f.tag.or root.tag
    requirementLevel := f.requirementLevel.getD root.requirementLevel
    samplingRelevant := f.samplingRelevant.or root.samplingRelevant
    note := f.note.getD root.note
    stability := f.stability.or root.stability
    deprecated := f.deprecated.or root.deprecated
    tags := root.tags, value := root.value, prefixFlag := f.prefixFlag
    annotations := f.annotations.or root.annotations
    role := f.role.or root.role }

theorem opt_snd {β : Type} (l : AttrLineage) (f : Field) (a b : Option β) : (l.opt f a b).2 = a.or b := by
  cases a <;> rfl
theorem req_snd {β : Type} (l : AttrLineage) (f : Field) (a : Option β) (b : β) : (l.req f a b).2 = a.getD b := by
  cases a <;> rfl

theorem overlayRef_attr (name : String) (f : RefFields) (root : Attr) (l : AttrLineage) :
    (overlayRef name f root l).2 = overlaid name f root := by
  simp only [overlayRef, overlaid, opt_snd, req_snd]

/-- A definition the group may not have: it is marked as excluded and the group is not excluded. -/
def badId (g : RGrp) (a : UAttr) : Bool :=
  match a.spec with
  | .ref _ _ => false
  | .id _ f => !g.excluded && isExcludedOpt f.annotations

/-- The roots that the definitions of `k` in a list of attributes of a group give. -/
def rootsIn (g : RGrp) (k : String) (as : List UAttr) : List Rooted :=
  as.filterMap (fun a => match a.spec with
    | .ref _ _ => none
    | .id i f => if i = k ∧ badId g a = false then
        some { attr := attrOfId i f, src := match a.origin with | some u => .dep u | none => .loc g.id, isDef := a.origin.isNone }
      else none)

/-- All definitions of `k` in the registry, in file order: those of the registry (`isDef`) and those inherited from a
dependency. -/
def rootsOf (gs : List RGrp) (k : String) : List Rooted := gs.flatMap (fun g => rootsIn g k g.pending)

/-- No reference with `prefix: true`. -/
def NoPrefix (gs : List RGrp) : Prop :=
  ∀ g ∈ gs, ∀ a ∈ g.pending, ∀ r f, a.spec = .ref r f → f.prefixFlag = false

/-! ### Lookup in dependencies -/

theorem foldMatches_isDef (key : String) (acc : Option Rooted) (ms : List Rooted) (o : Rooted)
    (hacc : ∀ r, acc = some r → r.isDef = true) (hms : ∀ m ∈ ms, m.isDef = true)
    (h : foldMatches key acc ms = .ok (some o)) : o.isDef = true := by
  induction ms generalizing acc with
  | nil => simp only [foldMatches, Except.ok.injEq] at h; exact hacc o h
  | cons m ms ih =>
    have hm := hms m (by simp)
    have hms' : ∀ x ∈ ms, x.isDef = true := fun x hx => hms x (by simp [hx])
    unfold foldMatches at h
    cases acc with
    | none => exact ih (some m) (fun r hr => by cases hr; exact hm) hms' h
    | some e =>
      have he := hacc e rfl
      dsimp only at h
      split at h
      · refine ih _ ?_ hms' h
        intro r hr
        injection hr with hr
        subst hr
        split <;> assumption
      · split at h
        · simp at h
        · rename_i r hr
          refine ih _ ?_ hms' h
          intro r' hr'
          injection hr' with hr'
          subst hr'
          unfold resolveRoots at hr
          simp only [hm, he] at hr
          split at hr
          · injection hr with hr; subst hr; split <;> assumption
          · simp only [Bool.not_true, Bool.and_false, Bool.false_and, Bool.false_eq_true, if_false] at hr
            split at hr
            · injection hr with hr; subst hr; exact he
            · split at hr
              · injection hr with hr; subst hr; exact hm
              · split at hr
                · split at hr <;> (injection hr with hr; subst hr; assumption)
                · simp at hr

theorem depMatches_isDef (key : String) (ds : List AttrLookup) (ms : List Rooted) (h : depMatches key ds = .ok ms) :
    ∀ m ∈ ms, m.isDef = true := by
  induction ds generalizing ms with
  | nil => simp only [depMatches, Except.ok.injEq] at h; subst h; simp
  | cons d ds ih =>
    unfold depMatches at h
    split at h
    · simp at h
    · split at h
      · simp at h
      · rename_i ms' hms'
        split at h <;> (injection h with h; subst h)
        · intro m hm
          rcases List.mem_cons.1 hm with rfl | hm
          · rfl
          · exact ih _ hms' m hm
        · exact ih _ hms'

theorem depLookup_isDef (w : World) (key : String) (o : Rooted) (h : depLookup w key = .ok (some o)) : o.isDef = true := by
  unfold depLookup at h
  split at h
  · simp at h
  · rename_i ms hms
    exact foldMatches_isDef key none ms o (by simp) (depMatches_isDef key _ _ hms) h

theorem upgrade_isDef (w : World) (r o : Rooted) (hr : r.isDef = true) (h : upgrade w r = .ok o) : o.isDef = true := by
  unfold upgrade at h
  repeat' (split at h)
  all_goals first | (simp at h; done) | (injection h with h; subst h; first | exact hr | rfl)

def RErr.isExcluded : RErr → Bool
  | .excluded _ _ => true
  | _ => false

theorem resolveRoots_err (key : String) (m e : Rooted) (er : RErr) (h : resolveRoots key m e = .error er) :
    er.isExcluded = false := by
  unfold resolveRoots at h
  repeat' (split at h)
  all_goals first | (simp at h; done) | (injection h with h; subst h; rfl)

theorem depLookup_err (w : World) (key : String) (er : RErr) (h : depLookup w key = .error er) : er.isExcluded = false := by
  have h1 : ∀ (ds : List AttrLookup) er, depMatches key ds = .error er → er.isExcluded = false := by
    intro ds
    induction ds with
    | nil => intro er h; simp [depMatches] at h
    | cons d ds ih =>
      intro er h
      unfold depMatches at h
      split at h
      · injection h with h; subst h; rfl
      · split at h
        · rename_i e he; injection h with h; subst h; exact ih _ he
        · split at h <;> simp at h
  have h2 : ∀ (ms : List Rooted) acc er, foldMatches key acc ms = .error er → er.isExcluded = false := by
    intro ms
    induction ms with
    | nil => intro acc er h; simp [foldMatches] at h
    | cons m ms ih =>
      intro acc er h
      unfold foldMatches at h
      split at h
      · exact ih _ _ h
      · split at h
        · exact ih _ _ h
        · split at h
          · rename_i e he; injection h with h; subst h; exact resolveRoots_err _ _ _ _ he
          · exact ih _ _ h
  unfold depLookup at h
  split at h
  · rename_i e he; injection h with h; subst h; exact h1 _ _ he
  · exact h2 _ _ _ h

theorem upgrade_err (w : World) (r : Rooted) (er : RErr) (h : upgrade w r = .error er) : er.isExcluded = false := by
  unfold upgrade at h
  repeat' (split at h)
  all_goals first | (simp at h; done) | (injection h with h; subst h; rfl)

/-! ### The root of a reference, seen from a state -/

/-- Dependencies, then the version chosen for the whole registry. -/
def depRoot (w : World) (k : String) : Except RErr (Option Rooted) :=
  match depLookup w k with
  | .error e => .error e
  | .ok none => .ok none
  | .ok (some d) => match upgrade w d with
    | .error e => .error e
    | .ok d' => .ok (some d')

def base (w : World) (roots : List (String × Rooted)) (k : String) : Except RErr (Option Rooted) :=
  match knownDef roots k with
  | some r => .ok (some r)
  | none => depRoot w k

theorem depRoot_isDef (w : World) (k : String) (o : Rooted) (h : depRoot w k = .ok (some o)) : o.isDef = true := by
  unfold depRoot at h
  split at h
  · simp at h
  · simp at h
  · rename_i d hd
    split at h
    · simp at h
    · rename_i d' hd'
      injection h with h; injection h with h; subst h
      exact upgrade_isDef w d _ (depLookup_isDef w k d hd) hd'

theorem depRoot_err (w : World) (k : String) (er : RErr) (h : depRoot w k = .error er) : er.isExcluded = false := by
  unfold depRoot at h
  split at h
  · rename_i e he; injection h with h; subst h; exact depLookup_err _ _ _ he
  · simp at h
  · split at h
    · rename_i e he; injection h with h; subst h; exact upgrade_err _ _ _ he
    · simp at h

theorem base_err (w : World) (R : List (String × Rooted)) (k : String) (er : RErr) (h : base w R k = .error er) :
    er.isExcluded = false := by
  unfold base at h
  split at h
  · simp at h
  · exact depRoot_err _ _ _ h

/-- References resolve to the same roots in both states. -/
def Agree (w : World) (R R' : List (String × Rooted)) : Prop := ∀ k, base w R k = base w R' k

/-- What happens to an attribute in the second phase. -/
inductive Verdict where
  | good (a : Attr)
  | missing
  | excl
  | fatal (e : RErr)

def verdict (w : World) (R : List (String × Rooted)) (g : RGrp) (a : UAttr) : Verdict :=
  match a.spec with
  | .ref r f => match base w R r with
    | .error e => .fatal e
    | .ok none => .missing
    | .ok (some root) => if refFails g root then .excl else .good (overlaid r f root.attr)
  | .id _ _ => .excl

def Verdict.attr? : Verdict → Option Attr
  | .good a => some a
  | _ => none

def Verdict.isFatal : Verdict → Bool
  | .fatal _ => true
  | _ => false

theorem verdict_agree {w : World} {R R' : List (String × Rooted)} (h : Agree w R R') (g : RGrp) (a : UAttr) :
    verdict w R g a = verdict w R' g a := by
  unfold verdict
  split
  · rw [h]
  · rfl

/-- An attribute left to the second phase: a reference without prefix, or a definition that was refused. -/
def Simple (g : RGrp) (a : UAttr) : Prop :=
  (∀ r f, a.spec = .ref r f → f.prefixFlag = false) ∧ (∀ i f, a.spec = .id i f → badId g a = true)

/-- References given out keep their meaning. -/
def Ext (c c' : Cat Attr) : Prop := ∀ r b, attrOf c r = some b → attrOf c' r = some b

theorem Ext.trans {a b c : Cat Attr} (h1 : Ext a b) (h2 : Ext b c) : Ext a c := fun r x h => h2 r x (h1 r x h)

theorem resolveAttr_simple (w : World) (g : RGrp) (st : RState) (a : UAttr) (hs : Simple g a) (hc : CatOk st.cat) :
    Agree w st.roots (resolveAttr w g st a).1.roots ∧ CatOk (resolveAttr w g st a).1.cat ∧
    Ext st.cat (resolveAttr w g st a).1.cat ∧
    (match verdict w st.roots g a with
      | .good x => ∃ n l, (resolveAttr w g st a).2 = .done n l ∧ attrOf (resolveAttr w g st a).1.cat n = some x
      | .missing => (resolveAttr w g st a).2 = .missing
      | .excl => ∃ i u, (resolveAttr w g st a).2 = .err (.excluded i u)
      | .fatal e => (resolveAttr w g st a).2 = .err e) := by
  have use : ∀ (st : RState) (r : String) (f : RefFields) (root : Rooted), CatOk st.cat → f.prefixFlag = false →
      (useRoot g st r f root).1.roots = st.roots ∧ CatOk (useRoot g st r f root).1.cat ∧
      Ext st.cat (useRoot g st r f root).1.cat ∧
      (if refFails g root then ∃ i u, (useRoot g st r f root).2 = .err (.excluded i u)
       else ∃ n l, (useRoot g st r f root).2 = .done n l ∧
         attrOf (useRoot g st r f root).1.cat n = some (overlaid r f root.attr)) := by
    intro st r f root hc hf
    unfold useRoot
    by_cases hx : refFails g root = true
    · rw [if_pos hx, if_pos hx]
      exact ⟨rfl, hc, fun _ _ h => h, _, _, rfl⟩
    · rw [if_neg hx, if_neg hx]
      simp only [hf, Bool.false_eq_true, if_false]
      have := attributeRef_ok st.cat (overlayRef r f root.attr (rootLineage root)).2 hc
      refine ⟨trivial, this.1, this.2.2, _, _, rfl, ?_⟩
      rw [this.2.1, overlayRef_attr]
  unfold resolveAttr verdict
  cases ha : a.spec with
  | id i f =>
    have hb := hs.2 i f ha
    unfold badId at hb
    rw [ha] at hb
    dsimp only at hb ⊢
    unfold useId
    rw [if_pos hb]
    exact ⟨fun _ => rfl, hc, fun _ _ h => h, _, _, rfl⟩
  | ref r f =>
    have hf := hs.1 r f ha
    dsimp only
    cases hk : knownDef st.roots r with
    | some root =>
      have hb : base w st.roots r = .ok (some root) := by unfold base; rw [hk]
      obtain ⟨h1, h2, h3, h4⟩ := use st r f root hc hf
      simp only [hb]
      refine ⟨fun k => by rw [h1], h2, h3, ?_⟩
      by_cases hx : refFails g root = true
      · rw [if_pos hx] at h4 ⊢; exact h4
      · rw [if_neg hx] at h4 ⊢; exact h4
    | none =>
      have hb : base w st.roots r = depRoot w r := by unfold base; rw [hk]
      cases hd : depLookup w r with
      | error e =>
        have : depRoot w r = .error e := by unfold depRoot; rw [hd]
        rw [hb, this]
        exact ⟨fun _ => rfl, hc, fun _ _ h => h, rfl⟩
      | ok o =>
        cases o with
        | none =>
          have : depRoot w r = .ok none := by unfold depRoot; rw [hd]
          rw [hb, this]
          exact ⟨fun _ => rfl, hc, fun _ _ h => h, rfl⟩
        | some d =>
          cases hu : upgrade w d with
          | error e =>
            have : depRoot w r = .error e := by unfold depRoot; rw [hd]; dsimp only; rw [hu]
            rw [hb, this]
            simp only [hu]
            exact ⟨fun _ => rfl, hc, fun _ _ h => h, trivial⟩
          | ok d' =>
            have hdr : depRoot w r = .ok (some d') := by unfold depRoot; rw [hd]; dsimp only; rw [hu]
            have hdef := depRoot_isDef w r d' hdr
            obtain ⟨h1, h2, h3, h4⟩ := use { st with roots := aset r d' st.roots } r f d' hc hf
            rw [hb, hdr]
            simp only [hu]
            refine ⟨?_, h2, h3, ?_⟩
            · intro k
              rw [h1]
              unfold base knownDef
              rw [aget_aset]
              by_cases hkr : k = r
              · subst hkr
                rw [if_pos rfl]
                simp only [hdef, if_true]
                unfold knownDef at hk
                rw [hk]
                exact hdr
              · rw [if_neg hkr]
            · by_cases hx : refFails g d' = true
              · rw [if_pos hx] at h4 ⊢; exact h4
              · rw [if_neg hx] at h4 ⊢; exact h4

theorem attrOf_map_ext {c c' : Cat Attr} (h : Ext c c') (refs : List Nat) (xs : List Attr)
    (hr : refs.map (attrOf c) = xs.map some) : refs.map (attrOf c') = xs.map some := by
  induction refs generalizing xs with
  | nil => cases xs <;> simp_all
  | cons r refs ih =>
    cases xs with
    | nil => simp at hr
    | cons x xs =>
      simp only [List.map_cons, List.cons.injEq] at hr ⊢
      exact ⟨h r x hr.1, ih xs hr.2⟩

/-- A pass over references, when no lookup fails. -/
theorem passAttrs_simple (w : World) (R : List (String × Rooted)) (g : RGrp) (st : RState) (as : List UAttr)
    (hs : ∀ a ∈ as, Simple g a) (hc : CatOk st.cat) (ha : Agree w R st.roots)
    (hf : ∀ a ∈ as, (verdict w R g a).isFatal = false) :
    ∃ o, passAttrs w false g st as = .ok o ∧ CatOk o.st.cat ∧ Agree w R o.st.roots ∧ Ext st.cat o.st.cat ∧
      o.refs.map (attrOf o.st.cat) = (as.filterMap (fun a => (verdict w R g a).attr?)).map some ∧
      o.still = as.filter (fun a => (verdict w R g a).attr?.isNone) ∧
      o.errs.length = o.still.length := by
  induction as generalizing st with
  | nil => exact ⟨_, rfl, hc, ha, fun _ _ h => h, rfl, rfl, rfl⟩
  | cons a as ih =>
    obtain ⟨h1, h2, h3, h4⟩ := resolveAttr_simple w g st a (hs a (by simp)) hc
    rw [← verdict_agree ha g a] at h4
    obtain ⟨o, ho, p1, p2, p3, p4, p5, p6⟩ := ih (resolveAttr w g st a).1 (fun x hx => hs x (by simp [hx])) h2
      (fun k => (ha k).trans (h1 k)) (fun x hx => hf x (by simp [hx]))
    have hfa := hf a (by simp)
    unfold passAttrs
    simp only [Bool.false_and, Bool.false_eq_true, if_false]
    cases hv : verdict w R g a with
    | fatal e => rw [hv] at hfa; simp [Verdict.isFatal] at hfa
    | good x =>
      rw [hv] at h4
      obtain ⟨n, l, h4, h5⟩ := h4
      simp only [h4, ho]
      refine ⟨_, rfl, p1, p2, h3.trans p3, ?_, ?_, p6⟩
      · rw [List.filterMap_cons_some (b := x) (by rw [hv]; rfl)]
        simp only [List.map_cons]
        rw [p4, p3 n x h5]
      · simp [hv, Verdict.attr?, p5]
    | missing =>
      rw [hv] at h4
      simp only [h4, ho]
      refine ⟨_, rfl, p1, p2, h3.trans p3, ?_, ?_, by simp [p6]⟩
      · simp [hv, Verdict.attr?, p4]
      · simp [hv, Verdict.attr?, p5]
    | excl =>
      rw [hv] at h4
      obtain ⟨i, u, h4⟩ := h4
      simp only [h4, ho]
      refine ⟨_, rfl, p1, p2, h3.trans p3, ?_, ?_, by simp [p6]⟩
      · simp [hv, Verdict.attr?, p4]
      · simp [hv, Verdict.attr?, p5]

theorem passAttrs_fatal (w : World) (R : List (String × Rooted)) (g : RGrp) (st : RState) (as : List UAttr)
    (hs : ∀ a ∈ as, Simple g a) (hc : CatOk st.cat) (ha : Agree w R st.roots)
    (hf : ∃ a ∈ as, (verdict w R g a).isFatal = true) : ∃ e, passAttrs w false g st as = .error e := by
  induction as generalizing st with
  | nil => simp at hf
  | cons a as ih =>
    obtain ⟨h1, h2, h3, h4⟩ := resolveAttr_simple w g st a (hs a (by simp)) hc
    rw [← verdict_agree ha g a] at h4
    unfold passAttrs
    simp only [Bool.false_and, Bool.false_eq_true, if_false]
    have rest : (verdict w R g a).isFatal = false → ∃ e, passAttrs w false g (resolveAttr w g st a).1 as = .error e := by
      intro hn
      refine ih _ (fun x hx => hs x (by simp [hx])) h2 (fun k => (ha k).trans (h1 k)) ?_
      obtain ⟨b, hb, hbf⟩ := hf
      rcases List.mem_cons.1 hb with hb | hb
      · rw [hb, hn] at hbf; simp at hbf
      · exact ⟨b, hb, hbf⟩
    cases hv : verdict w R g a with
    | fatal e =>
      rw [hv] at h4
      have hne : e.isExcluded = false := by
        unfold verdict at hv
        split at hv
        · split at hv
          · rename_i e' he; injection hv with hv; subst hv; exact base_err _ _ _ _ he
          · simp at hv
          · split at hv <;> simp at hv
        · simp at hv
      simp only [h4]
      cases e <;> first | (simp [RErr.isExcluded] at hne; done) | exact ⟨_, rfl⟩
    | good x =>
      rw [hv] at h4
      obtain ⟨n, l, h4, _⟩ := h4
      obtain ⟨e, he⟩ := rest (by rw [hv]; rfl)
      simp only [h4, he]; exact ⟨_, rfl⟩
    | missing =>
      rw [hv] at h4
      obtain ⟨e, he⟩ := rest (by rw [hv]; rfl)
      simp only [h4, he]; exact ⟨_, rfl⟩
    | excl =>
      rw [hv] at h4
      obtain ⟨i, u, h4⟩ := h4
      obtain ⟨e, he⟩ := rest (by rw [hv]; rfl)
      simp only [h4, he]; exact ⟨_, rfl⟩

/-- The attributes that a list of references stands for. -/
def denote (c : Cat Attr) (refs : List Nat) : List (Option Attr) := refs.map (attrOf c)

theorem passGroups_simple (w : World) (R : List (String × Rooted)) (st : RState) (gs : List RGrp)
    (hs : ∀ g ∈ gs, ∀ a ∈ g.pending, Simple g a) (hc : CatOk st.cat) (ha : Agree w R st.roots)
    (hold : ∀ g ∈ gs, ∀ r ∈ g.attrs, ∃ x, attrOf st.cat r = some x)
    (hf : ∀ g ∈ gs, ∀ a ∈ g.pending, (verdict w R g a).isFatal = false) :
    ∃ o, passGroups w false st gs = .ok o ∧ CatOk o.st.cat ∧ Agree w R o.st.roots ∧ Ext st.cat o.st.cat ∧
      o.groups.map (fun g => (g.id, g.excluded, g.pending, denote o.st.cat g.attrs)) =
        gs.map (fun g => (g.id, g.excluded, g.pending.filter (fun a => (verdict w R g a).attr?.isNone),
          denote st.cat g.attrs ++ (g.pending.filterMap (fun a => (verdict w R g a).attr?)).map some)) ∧
      (o.errs = [] ↔ ∀ g ∈ o.groups, g.pending = []) ∧
      (o.count = 0 ↔ ∀ g ∈ gs, ∀ a ∈ g.pending, (verdict w R g a).attr? = none) := by
  induction gs generalizing st with
  | nil => exact ⟨_, rfl, hc, ha, fun _ _ h => h, rfl, by simp, by simp⟩
  | cons g gs ih =>
    obtain ⟨o1, e1, c1, a1, x1, d1, s1, l1⟩ := passAttrs_simple w R g st g.pending (hs g (by simp)) hc ha (hf g (by simp))
    obtain ⟨o2, e2, c2, a2, x2, d2, s2, l2⟩ := ih o1.st (fun g hg => hs g (by simp [hg])) c1 a1
      (fun g hg r hr => (hold g (by simp [hg]) r hr).imp (fun x hx => x1 r x hx)) (fun g hg => hf g (by simp [hg]))
    unfold passGroups
    rw [e1]; dsimp only
    rw [e2]
    refine ⟨_, rfl, c2, a2, x1.trans x2, ?_, ?_, ?_⟩
    · simp only [List.map_cons, List.cons.injEq]
      constructor
      · simp only [RGrp.after, s1, denote, List.map_append, Prod.mk.injEq, true_and]
        congr 1
        · refine List.map_congr_left (fun r hr => ?_)
          obtain ⟨x, hx⟩ := hold g (by simp) r hr
          rw [hx]; exact x2 r x (x1 r x hx)
        · exact attrOf_map_ext x2 _ _ d1
      · rw [d2]
        refine List.map_congr_left (fun g' hg' => ?_)
        simp only [Prod.mk.injEq, true_and]
        congr 1
        refine List.map_congr_left (fun r hr => ?_)
        obtain ⟨x, hx⟩ := hold g' (by simp [hg']) r hr
        rw [hx]; exact x1 r x hx
    · simp only [List.append_eq_nil_iff, List.mem_cons, forall_eq_or_imp, s2]
      have : o1.errs = [] ↔ o1.still = [] := by
        rw [← List.length_eq_zero_iff, ← List.length_eq_zero_iff, l1]
      rw [this]; rfl
    · have hlen : o1.refs.length = (g.pending.filterMap (fun a => (verdict w R g a).attr?)).length := by
        have := congrArg List.length d1
        simpa using this
      simp only [Nat.add_eq_zero_iff, l2, List.mem_cons, forall_eq_or_imp, hlen, List.length_eq_zero_iff,
        List.filterMap_eq_nil_iff]

theorem passGroups_fatal (w : World) (R : List (String × Rooted)) (st : RState) (gs : List RGrp)
    (hs : ∀ g ∈ gs, ∀ a ∈ g.pending, Simple g a) (hc : CatOk st.cat) (ha : Agree w R st.roots)
    (hf : ∃ g ∈ gs, ∃ a ∈ g.pending, (verdict w R g a).isFatal = true) : ∃ e, passGroups w false st gs = .error e := by
  induction gs generalizing st with
  | nil => simp at hf
  | cons g gs ih =>
    unfold passGroups
    by_cases hg : ∃ a ∈ g.pending, (verdict w R g a).isFatal = true
    · obtain ⟨e, he⟩ := passAttrs_fatal w R g st g.pending (hs g (by simp)) hc ha hg
      rw [he]; exact ⟨_, rfl⟩
    · have hg' : ∀ a ∈ g.pending, (verdict w R g a).isFatal = false := by
        intro a ham
        cases hv : (verdict w R g a).isFatal with
        | false => rfl
        | true => exact absurd ⟨a, ham, hv⟩ hg
      obtain ⟨o1, e1, c1, a1, x1, d1, s1, l1⟩ := passAttrs_simple w R g st g.pending (hs g (by simp)) hc ha hg'
      rw [e1]; dsimp only
      obtain ⟨e, he⟩ := ih o1.st (fun g hg => hs g (by simp [hg])) c1 a1 (by
        obtain ⟨g1, hg1, hr⟩ := hf
        rcases List.mem_cons.1 hg1 with rfl | hg1
        · exact absurd hr hg
        · exact ⟨g1, hg1, hr⟩)
      rw [he]; exact ⟨_, rfl⟩

/-! ### The first phase -/

/-- The conflicts between the definitions of one attribute, in order. -/
def foldRoots (k : String) (acc : Option Rooted) : List Rooted → Except RErr (Option Rooted)
  | [] => .ok acc
  | m :: ms => match acc with
    | none => foldRoots k (some m) ms
    | some e => match resolveRoots k m e with
      | .error er => .error er
      | .ok r => foldRoots k (some r) ms

theorem foldRoots_append (k : String) (acc b : Option Rooted) (xs ys : List Rooted) (h : foldRoots k acc xs = .ok b) :
    foldRoots k acc (xs ++ ys) = foldRoots k b ys := by
  induction xs generalizing acc with
  | nil => simp only [foldRoots, Except.ok.injEq] at h; subst h; rfl
  | cons x xs ih =>
    simp only [List.cons_append]
    unfold foldRoots at h
    cases acc with
    | none => exact ih _ h
    | some e =>
      dsimp only at h
      split at h
      · simp at h
      · rename_i r hr
        rw [foldRoots, hr]
        exact ih _ h

/-- The attributes that the definitions of a group give. -/
def idAttrs (g : RGrp) (as : List UAttr) : List Attr :=
  as.filterMap (fun a => match a.spec with
    | .ref _ _ => none
    | .id i f => if badId g a then none else some (attrOfId i f))

theorem passIds (w : World) (g : RGrp) (st : RState) (as : List UAttr) (hc : CatOk st.cat) :
    match passAttrs w true g st as with
    | .error e => ∃ k, ∃ u, foldRoots k (aget k st.roots) (rootsIn g k as) = .error u ∧ e = u
    | .ok o => CatOk o.st.cat ∧ Ext st.cat o.st.cat ∧
      (∀ k, foldRoots k (aget k st.roots) (rootsIn g k as) = .ok (aget k o.st.roots)) ∧
      o.refs.map (attrOf o.st.cat) = (idAttrs g as).map some ∧
      o.still = as.filter (fun a => a.spec.isRef || badId g a) ∧
      (o.errs = [] ↔ ∀ a ∈ as, badId g a = false) := by
  induction as generalizing st with
  | nil => exact ⟨hc, fun _ _ h => h, fun _ => rfl, rfl, rfl, by simp [passAttrs]⟩
  | cons a as ih =>
    unfold passAttrs
    cases hsp : a.spec with
    | ref r f =>
      have hb : badId g a = false := by unfold badId; rw [hsp]
      simp only [AttrSpec.isRef, Bool.and_self, if_true]
      have ih := ih st hc
      cases hp : passAttrs w true g st as with
      | error e =>
        rw [hp] at ih
        obtain ⟨k, u, hk, he⟩ := ih
        exact ⟨k, u, by simpa [rootsIn, hsp] using hk, he⟩
      | ok o =>
        rw [hp] at ih
        obtain ⟨p1, p2, p3, p4, p5, p6⟩ := ih
        refine ⟨p1, p2, fun k => ?_, ?_, ?_, ?_⟩
        · simpa [rootsIn, hsp] using p3 k
        · simpa [idAttrs, hsp] using p4
        · simp [hsp, AttrSpec.isRef, p5]
        · simpa [hb] using p6
    | id i f =>
      simp only [AttrSpec.isRef, Bool.and_false, Bool.false_eq_true, if_false]
      have hra : resolveAttr w g st a = useId g st a.origin i f := by unfold resolveAttr; rw [hsp]
      rw [hra]
      by_cases hb : badId g a = true
      · have hb' : (!g.excluded && isExcludedOpt f.annotations) = true := by
          unfold badId at hb; rw [hsp] at hb; exact hb
        have hu : useId g st a.origin i f = (st, .err (.excluded i g.id)) := by unfold useId; rw [if_pos hb']
        rw [hu]
        dsimp only
        have ih := ih st hc
        cases hp : passAttrs w true g st as with
        | error e =>
          rw [hp] at ih
          obtain ⟨k, u, hk, he⟩ := ih
          exact ⟨k, u, by simpa [rootsIn, hsp, hb] using hk, he⟩
        | ok o =>
          rw [hp] at ih
          obtain ⟨p1, p2, p3, p4, p5, p6⟩ := ih
          refine ⟨p1, p2, fun k => ?_, ?_, ?_, ?_⟩
          · simpa [rootsIn, hsp, hb] using p3 k
          · simpa [idAttrs, hsp, hb] using p4
          · simp [hsp, AttrSpec.isRef, p5, hb]
          · simp [hb]
      · have hb0 : badId g a = false := by simpa using hb
        have hb' : ¬ (!g.excluded && isExcludedOpt f.annotations) = true := by
          unfold badId at hb; rw [hsp] at hb; exact hb
        obtain ⟨root, hroot⟩ : ∃ root : Rooted, root = { attr := attrOfId i f, src := match a.origin with | some u => .dep u | none => .loc g.id, isDef := a.origin.isNone } := ⟨_, rfl⟩
        have hri : rootsIn g i (a :: as) = root :: rootsIn g i as := by
          simp [rootsIn, hsp, hb0, hroot]
        have hrk : ∀ k, k ≠ i → rootsIn g k (a :: as) = rootsIn g k as := by
          intro k hk
          have : ¬ i = k := fun h => hk h.symm
          simp [rootsIn, hsp, this]
        have hu : useId g st a.origin i f = match (match aget i st.roots with
            | some e => resolveRoots i root e
            | none => .ok root) with
          | .error e => (st, .err e)
          | .ok r' => ({ roots := aset i r' st.roots, cat := (attributeRef st.cat (attrOfId i f)).1 },
              .done (attributeRef st.cat (attrOfId i f)).2 none) := by
          unfold useId; rw [if_neg hb', hroot]
          cases a.origin <;> rfl
        cases hr' : (match aget i st.roots with
            | some e => resolveRoots i root e
            | none => Except.ok root) with
        | error e =>
          rw [hr'] at hu
          rw [hu]
          dsimp only
          have hres : ∃ ex, aget i st.roots = some ex ∧ resolveRoots i root ex = .error e := by
            cases hg : aget i st.roots with
            | none => rw [hg] at hr'; simp at hr'
            | some ex => rw [hg] at hr'; exact ⟨ex, rfl, hr'⟩
          obtain ⟨ex, hg, hre⟩ := hres
          have hne := resolveRoots_err _ _ _ _ hre
          have hfold : foldRoots i (aget i st.roots) (rootsIn g i (a :: as)) = .error e := by
            rw [hri, hg]; unfold foldRoots; dsimp only; rw [hre]
          cases e <;> first | (simp [RErr.isExcluded] at hne; done) | exact ⟨i, _, hfold, rfl⟩
        | ok r' =>
          rw [hr'] at hu
          rw [hu]
          dsimp only
          have hcr := attributeRef_ok st.cat (attrOfId i f) hc
          have ih := ih { roots := aset i r' st.roots, cat := (attributeRef st.cat (attrOfId i f)).1 } hcr.1
          have hstep : ∀ k, foldRoots k (aget k st.roots) (rootsIn g k (a :: as)) =
              foldRoots k (aget k (aset i r' st.roots)) (rootsIn g k as) := by
            intro k
            rw [aget_aset]
            by_cases hk : k = i
            · rw [if_pos hk, hk, hri]
              cases hg : aget i st.roots with
              | none => rw [hg] at hr'; simp only [Except.ok.injEq] at hr'; subst hr'; rfl
              | some ex => rw [hg] at hr'; dsimp only at hr'; rw [foldRoots]; simp only [hr']
            · rw [if_neg hk, hrk k hk]
          cases hp : passAttrs w true g { roots := aset i r' st.roots, cat := (attributeRef st.cat (attrOfId i f)).1 } as with
          | error e =>
            rw [hp] at ih
            obtain ⟨k, u, hk, he⟩ := ih
            refine ⟨k, u, ?_, he⟩
            rw [hstep]; exact hk
          | ok o =>
            rw [hp] at ih
            obtain ⟨p1, p2, p3, p4, p5, p6⟩ := ih
            have hx : Ext st.cat o.st.cat := Ext.trans hcr.2.2 p2
            refine ⟨p1, hx, fun k => ?_, ?_, ?_, ?_⟩
            · rw [hstep]; exact p3 k
            · have : idAttrs g (a :: as) = attrOfId i f :: idAttrs g as := by simp [idAttrs, hsp, hb0]
              rw [this]
              simp only [List.map_cons, p4, List.cons.injEq, and_true]
              exact p2 _ _ hcr.2.1
            · simp [hsp, AttrSpec.isRef, p5, hb0]
            · simpa [hb0] using p6

theorem passIdsGroups (w : World) (st : RState) (gs : List RGrp) (hc : CatOk st.cat) (hnew : ∀ g ∈ gs, g.attrs = []) :
    match passGroups w true st gs with
    | .error e => ∃ k, foldRoots k (aget k st.roots) (rootsOf gs k) = .error e
    | .ok o => CatOk o.st.cat ∧ Ext st.cat o.st.cat ∧
      (∀ k, foldRoots k (aget k st.roots) (rootsOf gs k) = .ok (aget k o.st.roots)) ∧
      o.groups.map (fun g => (g.id, g.excluded, g.pending, denote o.st.cat g.attrs)) =
        gs.map (fun g => (g.id, g.excluded, g.pending.filter (fun a => a.spec.isRef || badId g a),
          (idAttrs g g.pending).map some)) ∧
      (o.errs = [] ↔ ∀ g ∈ gs, ∀ a ∈ g.pending, badId g a = false) := by
  induction gs generalizing st with
  | nil => exact ⟨hc, fun _ _ h => h, fun _ => rfl, rfl, by simp⟩
  | cons g gs ih =>
    unfold passGroups
    have h1 := passIds w g st g.pending hc
    have hro : ∀ k, rootsOf (g :: gs) k = rootsIn g k g.pending ++ rootsOf gs k := fun k => by simp [rootsOf]
    cases hp : passAttrs w true g st g.pending with
    | error e =>
      rw [hp] at h1
      obtain ⟨k, u, hk, he⟩ := h1
      dsimp only
      refine ⟨k, ?_⟩
      rw [hro, he]
      have : ∀ (acc : Option Rooted) (xs ys : List Rooted), foldRoots k acc xs = .error u → foldRoots k acc (xs ++ ys) = .error u := by
        intro acc xs
        induction xs generalizing acc with
        | nil => intro ys h; simp [foldRoots] at h
        | cons x xs ih =>
          intro ys h
          simp only [List.cons_append]
          unfold foldRoots at h ⊢
          cases acc with
          | none => exact ih _ _ h
          | some e =>
            dsimp only at h ⊢
            split at h
            · exact h
            · exact ih _ _ h
      exact this _ _ _ hk
    | ok o1 =>
      rw [hp] at h1
      dsimp only
      obtain ⟨c1, x1, r1, d1, s1, e1⟩ := h1
      have h2 := ih o1.st c1 (fun g hg => hnew g (by simp [hg]))
      cases hq : passGroups w true o1.st gs with
      | error e =>
        rw [hq] at h2
        obtain ⟨k, hk⟩ := h2
        refine ⟨k, ?_⟩
        rw [hro, foldRoots_append _ _ _ _ _ (r1 k)]; exact hk
      | ok o2 =>
        rw [hq] at h2
        obtain ⟨c2, x2, r2, d2, e2⟩ := h2
        refine ⟨c2, x1.trans x2, fun k => ?_, ?_, ?_⟩
        · rw [hro, foldRoots_append _ _ _ _ _ (r1 k)]; exact r2 k
        · simp only [List.map_cons, List.cons.injEq]
          refine ⟨?_, d2⟩
          simp only [RGrp.after, s1, denote, hnew g (by simp), List.nil_append, Prod.mk.injEq, true_and]
          exact attrOf_map_ext x2 _ _ d1
        · simp only [List.append_eq_nil_iff, e1, e2, List.mem_cons, forall_eq_or_imp]

/-! ### Which definition wins -/

theorem resolveRoots_one (k : String) (m e r : Rooted) (h : resolveRoots k m e = .ok r) : r = m ∨ r = e := by
  unfold resolveRoots at h
  repeat' (split at h)
  all_goals first | (simp at h; done) | (injection h with h; subst h; simp)

theorem foldRoots_mem (k : String) (acc : Option Rooted) (xs : List Rooted) (r : Rooted)
    (h : foldRoots k acc xs = .ok (some r)) : acc = some r ∨ r ∈ xs := by
  induction xs generalizing acc with
  | nil => simp only [foldRoots, Except.ok.injEq] at h; exact .inl h
  | cons x xs ih =>
    unfold foldRoots at h
    cases acc with
    | none =>
      rcases ih _ h with h | h
      · injection h with h; subst h; simp
      · simp [h]
    | some e =>
      dsimp only at h
      split at h
      · simp at h
      · rename_i r' hr'
        rcases ih _ h with h | h
        · injection h with h; subst h
          rcases resolveRoots_one _ _ _ _ hr' with h | h <;> simp [h]
        · simp [h]

/-- Every definition of the registry itself comes from one of its groups. -/
theorem rootsOf_local (gs : List RGrp) (k : String) (r : Rooted) (h : r ∈ rootsOf gs k) :
    (r.isDef = true ↔ ∃ g, r.src = .loc g) := by
  simp only [rootsOf, rootsIn, List.mem_flatMap, List.mem_filterMap] at h
  obtain ⟨g, _, a, _, h⟩ := h
  cases hs : a.spec with
  | ref r f => rw [hs] at h; simp at h
  | id i f =>
    rw [hs] at h
    dsimp only at h
    split at h
    · injection h with h; subst h
      cases a.origin <;> simp
    · simp at h

/-- A definition the registry can use: its own and not excluded. -/
def Rooted.usable (r : Rooted) : Bool := r.isDef && !r.excl

/-- Once a usable definition has been met, the first one stays. -/
theorem foldRoots_first (k : String) (e : Rooted) (he : e.usable = true) (hel : ∃ g, e.src = .loc g) (xs : List Rooted)
    (hx : ∀ r ∈ xs, (r.isDef = true ↔ ∃ g, r.src = .loc g)) : foldRoots k (some e) xs = .ok (some e) := by
  induction xs with
  | nil => rfl
  | cons x xs ih =>
    have hxi := hx x (by simp)
    have : resolveRoots k x e = .ok e := by
      simp only [Rooted.usable, Bool.and_eq_true, Bool.not_eq_true'] at he
      unfold resolveRoots
      rw [he.2, he.1]
      cases hxe : x.excl with
      | true => simp
      | false =>
        simp only [ne_eq, not_true_eq_false, if_false, Bool.not_true, Bool.and_false, Bool.false_eq_true, Bool.and_true]
        cases hd : x.isDef with
        | false => simp
        | true =>
          obtain ⟨g, hg⟩ := hxi.1 hd
          simp [hg]
    unfold foldRoots
    dsimp only
    rw [this]
    exact ih (fun r hr => hx r (by simp [hr]))

/-- If the registry has a usable definition of `k`, the first one (in file order) is what references see. -/
theorem foldRoots_usable (k : String) (xs : List Rooted) (acc : Option Rooted) (d : Rooted)
    (hacc : ∀ e, acc = some e → e.usable = false) (hfind : xs.find? Rooted.usable = some d)
    (hx : ∀ r ∈ xs, (r.isDef = true ↔ ∃ g, r.src = .loc g)) (out : Option Rooted) (h : foldRoots k acc xs = .ok out) :
    out = some d := by
  induction xs generalizing acc with
  | nil => simp at hfind
  | cons x xs ih =>
    have hxi := hx x (by simp)
    have hx' : ∀ r ∈ xs, (r.isDef = true ↔ ∃ g, r.src = .loc g) := fun r hr => hx r (by simp [hr])
    unfold foldRoots at h
    by_cases hu : x.usable = true
    · rw [List.find?_cons_of_pos hu] at hfind
      injection hfind with hfind
      subst hfind
      have hdef : x.isDef = true := by
        simp only [Rooted.usable, Bool.and_eq_true] at hu; exact hu.1
      have hfirst := foldRoots_first k x hu (hxi.1 hdef) xs hx'
      cases acc with
      | none => dsimp only at h; rw [hfirst] at h; injection h with h; exact h.symm
      | some e =>
        have hne := hacc e rfl
        have : resolveRoots k x e = .ok x := by
          simp only [Rooted.usable, Bool.and_eq_true, Bool.not_eq_true'] at hu
          simp only [Rooted.usable] at hne
          unfold resolveRoots
          rw [hu.1, hu.2]
          cases hee : e.excl with
          | true => simp
          | false =>
            have : e.isDef = false := by simpa [hee] using hne
            simp [this]
        dsimp only at h
        rw [this] at h
        dsimp only at h
        rw [hfirst] at h; injection h with h; exact h.symm
    · have hu' : x.usable = false := by simpa using hu
      rw [List.find?_cons_of_neg hu] at hfind
      cases acc with
      | none => exact ih (some x) (fun e he => by injection he with he; subst he; exact hu') hfind hx' h
      | some e =>
        dsimp only at h
        split at h
        · simp at h
        · rename_i r hr
          refine ih (some r) (fun e' he => ?_) hfind hx' h
          injection he with he; subst he
          rcases resolveRoots_one _ _ _ _ hr with h | h
          · rw [h]; exact hu'
          · rw [h]; exact hacc e rfl

/-! ### C54 -/

/-- The root attribute that a reference to `k` must be resolved against: the first usable definition of the registry, or
else (when the registry has no definition of its own, inherited ones not counted) what the dependencies give. -/
def RootFor (w : World) (gs : List RGrp) (k : String) (root : Rooted) : Prop :=
  (∀ d, (rootsOf gs k).find? Rooted.usable = some d → root = d) ∧
  ((∀ d ∈ rootsOf gs k, d.isDef = false) → depRoot w k = .ok (some root))

theorem initial_agree (w : World) (gs : List RGrp) (R1 : List (String × Rooted))
    (h : ∀ k, foldRoots k none (rootsOf gs k) = .ok (aget k R1)) (k : String) (root : Rooted)
    (hb : base w R1 k = .ok (some root)) : RootFor w gs k root := by
  constructor
  · intro d hd
    have := foldRoots_usable k (rootsOf gs k) none d (by simp) hd (fun r hr => rootsOf_local gs k r hr) _ (h k)
    have hdu : d.usable = true := List.find?_some hd
    simp only [Rooted.usable, Bool.and_eq_true] at hdu
    unfold base knownDef at hb
    rw [this] at hb
    simp only [hdu.1, if_true, Except.ok.injEq, Option.some.injEq] at hb
    exact hb.symm
  · intro hno
    unfold base at hb
    have : knownDef R1 k = none := by
      unfold knownDef
      cases hg : aget k R1 with
      | none => rfl
      | some r =>
        have h1 := h k
        rw [hg] at h1
        rcases foldRoots_mem k none _ r h1 with h2 | h2
        · simp at h2
        · simp [hno r h2]
    rw [this] at hb
    exact hb

theorem groups_pending {w : World} {R : List (String × Rooted)} {gs gs1 : List RGrp} {c : Cat Attr}
    (h : gs1.map (fun g => (g.id, g.excluded, g.pending, denote c g.attrs)) =
        gs.map (fun g => (g.id, g.excluded, g.pending.filter (fun a => a.spec.isRef || badId g a), (idAttrs g g.pending).map some))) :
    ∀ (P : String × Bool × List UAttr × List (Option Attr) → Prop),
      (∀ g ∈ gs1, P (g.id, g.excluded, g.pending, denote c g.attrs)) ↔
      (∀ g ∈ gs, P (g.id, g.excluded, g.pending.filter (fun a => a.spec.isRef || badId g a), (idAttrs g g.pending).map some)) := by
  intro P
  constructor
  · intro hp g hg
    have : (g.id, g.excluded, g.pending.filter (fun a => a.spec.isRef || badId g a), (idAttrs g g.pending).map some) ∈
        gs1.map (fun g => (g.id, g.excluded, g.pending, denote c g.attrs)) := by rw [h]; exact List.mem_map.2 ⟨g, hg, rfl⟩
    obtain ⟨g1, hg1, he⟩ := List.mem_map.1 this
    rw [← he]; exact hp g1 hg1
  · intro hp g hg
    have : (g.id, g.excluded, g.pending, denote c g.attrs) ∈ gs.map (fun g => (g.id, g.excluded, g.pending.filter (fun a => a.spec.isRef || badId g a), (idAttrs g g.pending).map some)) := by
      rw [← h]; exact List.mem_map.2 ⟨g, hg, rfl⟩
    obtain ⟨g1, hg1, he⟩ := List.mem_map.1 this
    rw [← he]; exact hp g1 hg1

theorem le_sum_of_mem {x : Nat} {l : List Nat} (h : x ∈ l) : x ≤ l.sum := by
  induction l with
  | nil => simp at h
  | cons a l ih =>
    simp only [List.sum_cons]
    rcases List.mem_cons.1 h with rfl | h
    · omega
    · have := ih h; omega

/-- What a verdict depends on. -/
theorem verdict_congr (w : World) (R : List (String × Rooted)) (g g' : RGrp) (h : g.excluded = g'.excluded) (a : UAttr) :
    verdict w R g a = verdict w R g' a := by
  unfold verdict refFails; rw [h]

theorem badId_congr (g g' : RGrp) (h : g.excluded = g'.excluded) (a : UAttr) : badId g a = badId g' a := by
  unfold badId; rw [h]

/-- The outcome of the phase in terms of the roots after the definitions. -/
theorem resolveRefs_outcome (w : World) (gs : List RGrp) (hp : NoPrefix gs) (hnew : ∀ g ∈ gs, g.attrs = []) :
    (∃ e, resolveRefs w ⟨[], []⟩ gs = .fatal e ∧ ∃ k, foldRoots k none (rootsOf gs k) = .error e) ∨
    (∃ R1, (∀ k, foldRoots k none (rootsOf gs k) = .ok (aget k R1)) ∧
      ((∃ e, resolveRefs w ⟨[], []⟩ gs = .fatal e) ∧ (∃ g ∈ gs, ∃ a ∈ g.pending, a.spec.isRef = true ∧ (verdict w R1 g a).isFatal = true) ∨
       (∃ es, resolveRefs w ⟨[], []⟩ gs = .stuck es) ∧ (∃ g ∈ gs, ∃ a ∈ g.pending, (a.spec.isRef = true ∨ badId g a = true) ∧ (verdict w R1 g a).attr? = none) ∨
       (∃ st' gs', resolveRefs w ⟨[], []⟩ gs = .ok st' gs' ∧
         (∀ g ∈ gs, ∀ a ∈ g.pending, badId g a = false ∧ (a.spec.isRef = true → ∃ x, (verdict w R1 g a) = .good x)) ∧
         gs'.map (fun g => (g.id, g.pending, denote st'.cat g.attrs)) =
           gs.map (fun g => (g.id, [], (idAttrs g g.pending ++
             (g.pending.filter (fun a => a.spec.isRef)).filterMap (fun a => (verdict w R1 g a).attr?)).map some))))) := by
  unfold resolveRefs
  have h1 := passIdsGroups w ⟨[], []⟩ gs catOk_nil hnew
  cases hpg : passGroups w true ⟨[], []⟩ gs with
  | error e => rw [hpg] at h1; exact .inl ⟨e, rfl, h1⟩
  | ok o =>
    rw [hpg] at h1
    obtain ⟨c1, x1, r1, d1, e1⟩ := h1
    refine .inr ⟨o.st.roots, r1, ?_⟩
    have key := groups_pending (w := w) (R := o.st.roots) d1
    have hs : ∀ g ∈ o.groups, ∀ a ∈ g.pending, Simple g a := by
      have := (key (fun q => ∀ g : RGrp, g.excluded = q.2.1 → ∀ a ∈ q.2.2.1, Simple g a)).2 ?_
      · intro g hg a ha; exact this g hg g rfl a ha
      · intro g hg g' he a ha
        rw [List.mem_filter] at ha
        refine ⟨fun r f hrf => hp g hg a ha.1 r f hrf, fun i f hif => ?_⟩
        have := ha.2
        rw [hif] at this
        simp only [AttrSpec.isRef, Bool.false_or] at this
        rw [badId_congr g' g he]; exact this
    have hold : ∀ g ∈ o.groups, ∀ r ∈ g.attrs, ∃ x, attrOf o.st.cat r = some x := by
      have := (key (fun q => ∀ z ∈ q.2.2.2, ∃ x, z = some x)).2 (by
        intro g hg z hz
        obtain ⟨x, _, rfl⟩ := List.mem_map.1 hz
        exact ⟨x, rfl⟩)
      intro g hg r hr
      exact this g hg _ (List.mem_map.2 ⟨r, hr, rfl⟩)
    by_cases hfat : ∃ g ∈ o.groups, ∃ a ∈ g.pending, (verdict w o.st.roots g a).isFatal = true
    · left
      obtain ⟨e, he⟩ := passGroups_fatal w o.st.roots o.st o.groups hs c1 (fun _ => rfl) hfat
      refine ⟨⟨e, ?_⟩, ?_⟩
      · dsimp only; unfold refLoop; rw [he]
      · refine Classical.byContradiction (fun hn => ?_)
        have := (key (fun q => ∀ g : RGrp, g.excluded = q.2.1 → ∀ a ∈ q.2.2.1, (verdict w o.st.roots g a).isFatal = false)).2 (by
          intro g hg g' he a ha
          rw [List.mem_filter] at ha
          rw [verdict_congr w _ g' g he]
          cases hv : (verdict w o.st.roots g a).isFatal with
          | false => rfl
          | true =>
            refine absurd ⟨g, hg, a, ha.1, ?_, hv⟩ hn
            cases hsp : a.spec with
            | ref r f => rfl
            | id i f => unfold verdict at hv; rw [hsp] at hv; simp [Verdict.isFatal] at hv)
        obtain ⟨g, hg, a, ha, hv⟩ := hfat
        rw [this g hg g rfl a ha] at hv
        simp at hv
    · right
      have hf : ∀ g ∈ o.groups, ∀ a ∈ g.pending, (verdict w o.st.roots g a).isFatal = false := by
        intro g hg a ha
        cases hv : (verdict w o.st.roots g a).isFatal with
        | false => rfl
        | true => exact absurd ⟨g, hg, a, ha, hv⟩ hfat
      obtain ⟨o2, e2, c2, a2, x2, d2, s2, l2⟩ := passGroups_simple w o.st.roots o.st o.groups hs c1 (fun _ => rfl) hold hf
      have hgood : (∀ g ∈ o2.groups, g.pending = []) ↔
          ∀ g ∈ o.groups, ∀ a ∈ g.pending, (verdict w o.st.roots g a).attr?.isSome = true := by
        constructor
        · intro h g hg a ha
          have : (g.id, g.excluded, g.pending.filter (fun a => (verdict w o.st.roots g a).attr?.isNone),
              denote o.st.cat g.attrs ++ (g.pending.filterMap (fun a => (verdict w o.st.roots g a).attr?)).map some) ∈
              o2.groups.map (fun g => (g.id, g.excluded, g.pending, denote o2.st.cat g.attrs)) := by
            rw [d2]; exact List.mem_map.2 ⟨g, hg, rfl⟩
          obtain ⟨g2, hg2, he⟩ := List.mem_map.1 this
          simp only [Prod.mk.injEq] at he
          have hnil := h g2 hg2
          rw [he.2.2.1, List.filter_eq_nil_iff] at hnil
          have := hnil a ha
          simpa [Option.isSome_iff_ne_none, Option.isNone_iff_eq_none] using this
        · intro h g2 hg2
          have : (g2.id, g2.excluded, g2.pending, denote o2.st.cat g2.attrs) ∈
              o.groups.map (fun g => (g.id, g.excluded, g.pending.filter (fun a => (verdict w o.st.roots g a).attr?.isNone),
                denote o.st.cat g.attrs ++ (g.pending.filterMap (fun a => (verdict w o.st.roots g a).attr?)).map some)) := by
            rw [← d2]; exact List.mem_map.2 ⟨g2, hg2, rfl⟩
          obtain ⟨g, hg, he⟩ := List.mem_map.1 this
          simp only [Prod.mk.injEq] at he
          rw [← he.2.2.1, List.filter_eq_nil_iff]
          intro a ha
          have := h g hg a ha
          simpa [Option.isSome_iff_ne_none, Option.isNone_iff_eq_none] using this
      by_cases hok : o.errs = [] ∧ o2.errs = []
      · right
        refine ⟨o2.st, o2.groups, ?_, ?_, ?_⟩
        · dsimp only; unfold refLoop; rw [e2]; simp [hok.1, hok.2]
        · have hb := e1.1 hok.1
          have hall := hgood.1 (s2.1 hok.2)
          have := (key (fun q => ∀ g : RGrp, g.excluded = q.2.1 → ∀ a ∈ q.2.2.1, (verdict w o.st.roots g a).attr?.isSome = true)).1 (by
            intro g hg g' he a ha
            rw [verdict_congr w _ g' g he]; exact hall g hg a ha)
          intro g hg a ha
          refine ⟨hb g hg a ha, fun href => ?_⟩
          have h3 := this g hg g rfl a (by rw [List.mem_filter]; exact ⟨ha, by simp [href]⟩)
          cases hv : verdict w o.st.roots g a with
          | good x => exact ⟨x, rfl⟩
          | _ => rw [hv] at h3; simp [Verdict.attr?] at h3
        · have hb := e1.1 hok.1
          have hpend := s2.1 hok.2
          refine List.ext_getElem? (fun i => ?_)
          have g1 := congrArg (fun l => l[i]?) d1
          have g2 := congrArg (fun l => l[i]?) d2
          simp only [List.getElem?_map] at g1 g2 ⊢
          cases hi2 : o2.groups[i]? with
          | none =>
            rw [hi2] at g2
            cases hio : o.groups[i]? with
            | some _ => rw [hio] at g2; simp at g2
            | none =>
              rw [hio] at g1
              cases hig : gs[i]? with
              | some _ => rw [hig] at g1; simp at g1
              | none => rfl
          | some g2' =>
            rw [hi2] at g2
            cases hio : o.groups[i]? with
            | none => rw [hio] at g2; simp at g2
            | some go =>
              rw [hio] at g2 g1
              cases hig : gs[i]? with
              | none => rw [hig] at g1; simp at g1
              | some g =>
                rw [hig] at g1
                simp only [Option.map_some, Option.some.injEq, Prod.mk.injEq] at g1 g2 ⊢
                have hgm : g ∈ gs := List.mem_of_getElem? hig
                have hfil : g.pending.filter (fun a => a.spec.isRef || badId g a) = g.pending.filter (fun a => a.spec.isRef) := by
                  refine List.filter_congr (fun a ha => ?_)
                  rw [hb g hgm a ha, Bool.or_false]
                refine ⟨by rw [g2.1, g1.1], hpend g2' (List.mem_of_getElem? hi2), ?_⟩
                rw [g2.2.2.2, g1.2.2.2, g1.2.2.1, hfil, List.map_append]
                congr 2
                refine congrArg (fun f => List.filterMap f _) (funext (fun a => ?_))
                rw [verdict_congr w _ go g g1.2.1]
      · left
        have hne : ¬ (o.errs ++ o2.errs).isEmpty = true := by
          simp only [List.isEmpty_iff, List.append_eq_nil_iff]; exact hok
        have hbad : ∃ g ∈ gs, ∃ a ∈ g.pending, (a.spec.isRef = true ∨ badId g a = true) ∧ (verdict w o.st.roots g a).attr? = none := by
          refine Classical.byContradiction (fun hn => hok ?_)
          constructor
          · refine e1.2 (fun g hg a ha => ?_)
            cases hb : badId g a with
            | false => rfl
            | true =>
              refine absurd ⟨g, hg, a, ha, .inr hb, ?_⟩ hn
              unfold badId at hb
              cases hsp : a.spec with
              | ref r f => rw [hsp] at hb; simp at hb
              | id i f => unfold verdict; rw [hsp]; rfl
          · refine s2.2 (hgood.2 ?_)
            have := (key (fun q => ∀ g : RGrp, g.excluded = q.2.1 → ∀ a ∈ q.2.2.1, (verdict w o.st.roots g a).attr?.isSome = true)).2 (by
              intro g hg g' he a ha
              rw [verdict_congr w _ g' g he]
              rw [List.mem_filter] at ha
              cases hv : (verdict w o.st.roots g a).attr? with
              | some x => rfl
              | none => exact absurd ⟨g, hg, a, ha.1, by simpa using ha.2, hv⟩ hn)
            intro g hg a ha; exact this g hg g rfl a ha
        refine ⟨?_, hbad⟩
        dsimp only
        unfold refLoop
        rw [e2]
        dsimp only
        rw [if_neg hne]
        by_cases hc0 : o2.count = 0
        · rw [if_pos hc0]; exact ⟨_, rfl⟩
        · rw [if_neg hc0]
          -- a second pass resolves nothing
          have hpos : ∃ n, refPendingCount o.groups = n + 1 := by
            cases hn : refPendingCount o.groups with
            | succ n => exact ⟨n, rfl⟩
            | zero =>
              exfalso
              apply hc0
              rw [l2]
              intro g hg a ha
              have hz : ∀ x ∈ o.groups.map (fun g => g.pending.length), x = 0 := by
                unfold refPendingCount at hn
                intro x hx
                have := le_sum_of_mem hx
                omega
              have := hz g.pending.length (List.mem_map.2 ⟨g, hg, rfl⟩)
              rw [List.length_eq_zero_iff] at this
              rw [this] at ha; simp at ha
          obtain ⟨n, hn⟩ := hpos
          rw [hn]
          have mem2 : ∀ g2 ∈ o2.groups, ∃ g ∈ o.groups, g2.excluded = g.excluded ∧
              g2.pending = g.pending.filter (fun a => (verdict w o.st.roots g a).attr?.isNone) ∧
              denote o2.st.cat g2.attrs = denote o.st.cat g.attrs ++ (g.pending.filterMap (fun a => (verdict w o.st.roots g a).attr?)).map some := by
            intro g2 hg2
            have : (g2.id, g2.excluded, g2.pending, denote o2.st.cat g2.attrs) ∈
                o.groups.map (fun g => (g.id, g.excluded, g.pending.filter (fun a => (verdict w o.st.roots g a).attr?.isNone),
                  denote o.st.cat g.attrs ++ (g.pending.filterMap (fun a => (verdict w o.st.roots g a).attr?)).map some)) := by
              rw [← d2]; exact List.mem_map.2 ⟨g2, hg2, rfl⟩
            obtain ⟨g, hg, he⟩ := List.mem_map.1 this
            simp only [Prod.mk.injEq] at he
            exact ⟨g, hg, he.2.1.symm, he.2.2.1.symm, he.2.2.2.symm⟩
          obtain ⟨o3, e3, c3, a3, x3, d3, s3, l3⟩ := passGroups_simple w o.st.roots o2.st o2.groups
            (by
              intro g2 hg2 a ha
              obtain ⟨g, hg, he, hpd, _⟩ := mem2 g2 hg2
              rw [hpd, List.mem_filter] at ha
              have := hs g hg a ha.1
              exact ⟨this.1, fun i f h => by rw [badId_congr g2 g he]; exact this.2 i f h⟩) c2 a2
            (by
              intro g2 hg2 r hr
              obtain ⟨g, hg, he, _, hd⟩ := mem2 g2 hg2
              have : attrOf o2.st.cat r ∈ denote o2.st.cat g2.attrs := List.mem_map.2 ⟨r, hr, rfl⟩
              rw [hd, List.mem_append] at this
              rcases this with h | h
              · obtain ⟨r0, hr0, h0⟩ := List.mem_map.1 h
                obtain ⟨x, hx⟩ := hold g hg r0 hr0
                exact ⟨x, by rw [← h0, hx]⟩
              · obtain ⟨x, _, hx⟩ := List.mem_map.1 h
                exact ⟨x, hx.symm⟩)
            (by
              intro g2 hg2 a ha
              obtain ⟨g, hg, he, hpd, _⟩ := mem2 g2 hg2
              rw [hpd, List.mem_filter] at ha
              rw [verdict_congr w _ g2 g he]
              exact hf g hg a ha.1)
          have hc3 : o3.count = 0 := by
            rw [l3]
            intro g2 hg2 a ha
            obtain ⟨g, hg, he, hpd, _⟩ := mem2 g2 hg2
            rw [hpd, List.mem_filter] at ha
            rw [verdict_congr w _ g2 g he]
            simpa using ha.2
          unfold refLoop
          rw [e3]
          dsimp only
          have hne3 : ¬ (o.errs ++ o3.errs).isEmpty = true := by
            simp only [List.isEmpty_iff, List.append_eq_nil_iff]
            intro hh
            refine hok ⟨hh.1, ?_⟩
            refine s2.2 (hgood.2 (fun g hg a ha => ?_))
            -- everything still pending would have been resolved
            cases hv : (verdict w o.st.roots g a).attr? with
            | some x => rfl
            | none =>
              exfalso
              have hp3 := s3.1 hh.2
              have : (g.id, g.excluded, g.pending.filter (fun a => (verdict w o.st.roots g a).attr?.isNone),
                  denote o.st.cat g.attrs ++ (g.pending.filterMap (fun a => (verdict w o.st.roots g a).attr?)).map some) ∈
                  o2.groups.map (fun g => (g.id, g.excluded, g.pending, denote o2.st.cat g.attrs)) := by
                rw [d2]; exact List.mem_map.2 ⟨g, hg, rfl⟩
              obtain ⟨g2, hg2, he⟩ := List.mem_map.1 this
              simp only [Prod.mk.injEq] at he
              have ham : a ∈ g2.pending := by rw [he.2.2.1, List.mem_filter]; exact ⟨ha, by simp [hv]⟩
              have h3 : (g2.id, g2.excluded, g2.pending.filter (fun a => (verdict w o.st.roots g2 a).attr?.isNone),
                  denote o2.st.cat g2.attrs ++ (g2.pending.filterMap (fun a => (verdict w o.st.roots g2 a).attr?)).map some) ∈
                  o3.groups.map (fun g => (g.id, g.excluded, g.pending, denote o3.st.cat g.attrs)) := by
                rw [d3]; exact List.mem_map.2 ⟨g2, hg2, rfl⟩
              obtain ⟨g3, hg3, he3⟩ := List.mem_map.1 h3
              simp only [Prod.mk.injEq] at he3
              have hnil := hp3 g3 hg3
              rw [he3.2.2.1, List.filter_eq_nil_iff] at hnil
              have := hnil a ham
              rw [verdict_congr w _ g2 g he.2.1, hv] at this
              simp at this
          rw [if_neg hne3, if_pos hc3]
          exact ⟨_, rfl⟩

/-- The attributes that the references of a group give, for a given choice of root attributes. -/
def refAttrs (rootOf : String → Rooted) (as : List UAttr) : List Attr :=
  as.filterMap (fun a => match a.spec with
    | .ref r f => some (overlaid r f (rootOf r).attr)
    | .id _ _ => none)

/-- May group `g` use this root attribute: an excluded attribute of a dependency is never usable, an excluded attribute
of the registry itself only from an excluded group. -/
def Allowed (g : RGrp) (root : Rooted) : Prop :=
  (∀ u, root.src = .dep u → isExcludedOpt root.attr.annotations = false) ∧
  (∀ l, root.src = .loc l → g.excluded = false → isExcludedOpt root.attr.annotations = false)

theorem allowed_iff (g : RGrp) (root : Rooted) : refFails g root = false ↔ Allowed g root := by
  unfold refFails Allowed Rooted.excl
  cases root.src with
  | dep u => simp
  | loc l => cases g.excluded <;> simp

/-- C54 (partial: registries without `prefix: true` references). When attribute resolution succeeds, no attribute is
left over, every group has exactly its definitions followed by its references, in order; a reference gives the fields
it sets over those of the root attribute of its name, which is the first usable definition of the registry if there is
one, and the dependencies' attribute if the registry has no definition of that name; and (C06) no reference uses an
excluded attribute of a dependency, nor, from a group that is not excluded, an excluded local attribute. -/
theorem ref_resolves_partial (w : World) (gs gs' : List RGrp) (st' : RState) (hp : NoPrefix gs)
    (hnew : ∀ g ∈ gs, g.attrs = []) (h : resolveRefs w ⟨[], []⟩ gs = .ok st' gs') :
    ∃ rootOf : String → Rooted,
      (∀ g ∈ gs, ∀ a ∈ g.pending, ∀ r f, a.spec = .ref r f → RootFor w gs r (rootOf r) ∧ Allowed g (rootOf r)) ∧
      gs'.map (fun g => (g.id, g.pending, denote st'.cat g.attrs)) =
        gs.map (fun g => (g.id, [], (idAttrs g g.pending ++ refAttrs rootOf g.pending).map some)) := by
  rcases resolveRefs_outcome w gs hp hnew with ⟨e, he, _⟩ | ⟨R1, hR, hh⟩
  · rw [h] at he; simp at he
  · rcases hh with ⟨⟨e, he⟩, _⟩ | ⟨⟨es, he⟩, _⟩ | ⟨st2, gs2, he, hgood, hmap⟩
    · rw [h] at he; simp at he
    · rw [h] at he; simp at he
    · rw [h] at he
      injection he with he1 he2
      subst he1; subst he2
      have hv : ∀ g ∈ gs, ∀ a ∈ g.pending, ∀ r f, a.spec = .ref r f → ∃ root, base w R1 r = .ok (some root) ∧
          refFails g root = false ∧ verdict w R1 g a = .good (overlaid r f root.attr) := by
        intro g hg a ha r f hs
        obtain ⟨x, hx⟩ := (hgood g hg a ha).2 (by rw [hs]; rfl)
        have hx' := hx
        unfold verdict at hx'
        rw [hs] at hx'
        dsimp only at hx'
        split at hx'
        · simp at hx'
        · simp at hx'
        · rename_i root hroot
          split at hx'
          · simp at hx'
          · rename_i hff
            refine ⟨root, hroot, by simpa using hff, ?_⟩
            rw [hx]; exact hx'.symm
      refine ⟨fun r => match base w R1 r with | .ok (some root) => root | _ => ⟨{ name := "", type := "" }, .loc "", false⟩, ?_, ?_⟩
      · intro g hg a ha r f hs
        obtain ⟨root, h1, h2, h3⟩ := hv g hg a ha r f hs
        simp only [h1]
        exact ⟨initial_agree w gs R1 hR r root h1, (allowed_iff g root).1 h2⟩
      · rw [hmap]
        refine List.map_congr_left (fun g hg => ?_)
        simp only [Prod.mk.injEq, true_and, List.map_append]
        congr 2
        unfold refAttrs
        have : ∀ as : List UAttr, (∀ a ∈ as, a ∈ g.pending) →
            (as.filter (fun a => a.spec.isRef)).filterMap (fun a => (verdict w R1 g a).attr?) =
            as.filterMap (fun a => match a.spec with
              | .ref r f => some (overlaid r f (match base w R1 r with | .ok (some root) => root | _ => ⟨{ name := "", type := "" }, .loc "", false⟩ : Rooted).attr)
              | .id _ _ => none) := by
          intro as
          induction as with
          | nil => intro _; rfl
          | cons a as ih =>
            intro hm
            have ih := ih (fun x hx => hm x (by simp [hx]))
            cases hs : a.spec with
            | ref r f =>
              obtain ⟨root, h1, h2, h3⟩ := hv g hg a (hm a (by simp)) r f hs
              rw [List.filter_cons_of_pos (by rw [hs]; rfl), List.filterMap_cons_some (b := overlaid r f root.attr) (by rw [h3]; rfl),
                List.filterMap_cons_some (b := overlaid r f root.attr) (by rw [hs]; simp only [h1]), ih]
            | id i f =>
              rw [List.filter_cons_of_neg (by rw [hs]; simp [AttrSpec.isRef]), List.filterMap_cons_none (by rw [hs]), ih]
        exact this g.pending (fun a ha => ha)

/-! ### Termination -/

theorem passAttrs_length (w : World) (b : Bool) (g : RGrp) (st : RState) (as : List UAttr) (o : RefPassOut)
    (h : passAttrs w b g st as = .ok o) : o.still.length + o.refs.length = as.length := by
  induction as generalizing st o with
  | nil => simp only [passAttrs, Except.ok.injEq] at h; subst h; rfl
  | cons a as ih =>
    unfold passAttrs at h
    split at h
    · split at h
      · simp at h
      · rename_i o' ho'
        injection h with h; subst h
        have := ih _ _ ho'
        simp only [List.length_cons]; omega
    · dsimp only at h
      split at h
      · split at h
        · simp at h
        · rename_i o' ho'
          injection h with h; subst h
          have := ih _ _ ho'
          simp only [List.length_cons]; omega
      · split at h
        · simp at h
        · rename_i o' ho'
          injection h with h; subst h
          have := ih _ _ ho'
          simp only [List.length_cons]; omega
      · split at h
        · simp at h
        · rename_i o' ho'
          injection h with h; subst h
          have := ih _ _ ho'
          simp only [List.length_cons]; omega
      · simp at h

theorem passGroups_length (w : World) (b : Bool) (st : RState) (gs : List RGrp) (o : GroupsOut)
    (h : passGroups w b st gs = .ok o) : refPendingCount o.groups + o.count = refPendingCount gs := by
  induction gs generalizing st o with
  | nil => simp only [passGroups, Except.ok.injEq] at h; subst h; rfl
  | cons g gs ih =>
    unfold passGroups at h
    split at h
    · simp at h
    · rename_i o1 h1
      split at h
      · simp at h
      · rename_i o2 h2
        injection h with h; subst h
        have e1 := passAttrs_length _ _ _ _ _ _ h1
        have e2 := ih _ _ h2
        simp only [refPendingCount, List.map_cons, List.sum_cons, RGrp.after] at e2 ⊢
        omega

theorem refLoop_fuel (w : World) (init : List RErr) (n : Nat) (st : RState) (gs : List RGrp) (h : refPendingCount gs < n) :
    refLoop w init n st gs ≠ .outOfFuel := by
  induction n generalizing st gs with
  | zero => omega
  | succ n ih =>
    unfold refLoop
    split
    · simp
    · rename_i r hr
      have hlen := passGroups_length _ _ _ _ _ hr
      split
      · simp
      · split
        · simp
        · rename_i hc
          exact ih _ _ (by omega)

/-- C54: attribute resolution terminates on every registry, prefixed references included: the fuel of the model is never
used up. -/
theorem refs_terminate (w : World) (st : RState) (gs : List RGrp) : resolveRefs w st gs ≠ .outOfFuel := by
  unfold resolveRefs
  split
  · simp
  · exact refLoop_fuel _ _ _ _ _ (Nat.lt_succ_self _)

/-! ### Success leaves nothing unresolved, prefixed references included -/

theorem refLoop_ok (w : World) (init : List RErr) (n : Nat) (st : RState) (gs : List RGrp) (st' : RState) (gs' : List RGrp)
    (h : refLoop w init n st gs = .ok st' gs') : init = [] ∧ ∀ g ∈ gs', g.pending = [] := by
  induction n generalizing st gs with
  | zero => simp [refLoop] at h
  | succ n ih =>
    unfold refLoop at h
    split at h
    · simp at h
    · rename_i r hr
      split at h
      · rename_i he
        injection h with h1 h2
        subst h1; subst h2
        simp only [List.isEmpty_iff, List.append_eq_nil_iff] at he
        refine ⟨he.1, ?_⟩
        have h1 : ∀ (g : RGrp) (st : RState) (as : List UAttr) (o : RefPassOut), passAttrs w false g st as = .ok o →
            o.errs = [] → o.still = [] := by
          intro g st as
          induction as generalizing st with
          | nil => intro o h _; simp only [passAttrs, Except.ok.injEq] at h; subst h; rfl
          | cons a as ih =>
            intro o h hne
            unfold passAttrs at h
            simp only [Bool.false_and, Bool.false_eq_true, if_false] at h
            split at h
            · split at h
              · simp at h
              · rename_i o' ho'
                injection h with h; subst h
                exact ih _ o' ho' hne
            · split at h
              · simp at h
              · injection h with h; subst h; simp at hne
            · split at h
              · simp at h
              · injection h with h; subst h; simp at hne
            · simp at h
        have h2 : ∀ (gs : List RGrp) (st : RState) (o : GroupsOut), passGroups w false st gs = .ok o → o.errs = [] →
            ∀ g ∈ o.groups, g.pending = [] := by
          intro gs
          induction gs with
          | nil => intro st o h _; simp only [passGroups, Except.ok.injEq] at h; subst h; simp
          | cons g gs ih =>
            intro st o h hne
            unfold passGroups at h
            split at h
            · simp at h
            · rename_i o1 h3
              split at h
              · simp at h
              · rename_i o2 h4
                injection h with h; subst h
                simp only [List.append_eq_nil_iff] at hne
                intro g' hg'
                rcases List.mem_cons.1 hg' with rfl | hg'
                · exact h1 _ _ _ _ h3 hne.1
                · exact ih _ _ h4 hne.2 g' hg'
        exact h2 _ _ _ hr he.2
      · split at h
        · simp at h
        · exact ih _ _ h

/-- C54, C06: when attribute resolution succeeds, no attribute of any group is left unresolved (prefixed references
included) and no group that is not excluded defines an excluded attribute. -/
theorem refs_success_complete (w : World) (gs gs' : List RGrp) (st' : RState) (hnew : ∀ g ∈ gs, g.attrs = [])
    (h : resolveRefs w ⟨[], []⟩ gs = .ok st' gs') :
    (∀ g ∈ gs', g.pending = []) ∧ ∀ g ∈ gs, ∀ a ∈ g.pending, badId g a = false := by
  unfold resolveRefs at h
  have h1 := passIdsGroups w ⟨[], []⟩ gs catOk_nil hnew
  split at h
  · simp at h
  · rename_i r hr
    rw [hr] at h1
    have := refLoop_ok _ _ _ _ _ _ _ h
    exact ⟨this.2, h1.2.2.2.2.1 this.1⟩

/-! ### C04: file order -/

theorem foldRoots_local_ok (k : String) (acc : Option Rooted) (xs : List Rooted)
    (hacc : ∀ e, acc = some e → e.isDef = true ∧ ∃ g, e.src = .loc g) (hx : ∀ r ∈ xs, r.isDef = true ∧ ∃ g, r.src = .loc g) :
    ∃ out, foldRoots k acc xs = .ok out ∧ (out = none → acc = none ∧ xs = []) := by
  induction xs generalizing acc with
  | nil => exact ⟨acc, rfl, fun h => ⟨h, rfl⟩⟩
  | cons x xs ih =>
    have hx1 := hx x (by simp)
    have hx' : ∀ r ∈ xs, r.isDef = true ∧ ∃ g, r.src = .loc g := fun r hr => hx r (by simp [hr])
    cases acc with
    | none =>
      obtain ⟨out, h1, h2⟩ := ih (some x) (fun e he => by injection he with he; subst he; exact hx1) hx'
      exact ⟨out, h1, fun h => by simpa using h2 h⟩
    | some e =>
      have he := hacc e rfl
      have : ∃ r, resolveRoots k x e = .ok r ∧ (r = x ∨ r = e) := by
        obtain ⟨g, hg⟩ := hx1.2
        unfold resolveRoots
        simp only [hx1.1, he.1, hg]
        split
        · exact ⟨_, rfl, by split <;> simp⟩
        · exact ⟨e, by simp, .inr rfl⟩
      obtain ⟨r, hr, hr'⟩ := this
      obtain ⟨out, h1, h2⟩ := ih (some r) (fun e' he' => by
        injection he' with he'; subst he'
        rcases hr' with h | h
        · rw [h]; exact hx1
        · rw [h]; exact he) hx'
      refine ⟨out, by rw [foldRoots, hr]; exact h1, fun h => by simpa using h2 h⟩

/-- No definition is inherited from a dependency through a refinement. -/
def NoInherited (gs : List RGrp) : Prop := ∀ g ∈ gs, ∀ a ∈ g.pending, ∀ i f, a.spec = .id i f → a.origin = none

/-- All definitions of one name say the same. -/
def Uniform (gs : List RGrp) : Prop := ∀ k, ∀ d ∈ rootsOf gs k, ∀ d' ∈ rootsOf gs k, d.attr = d'.attr

theorem rootsOf_allDef (gs : List RGrp) (h : NoInherited gs) (k : String) (r : Rooted) (hr : r ∈ rootsOf gs k) :
    r.isDef = true ∧ ∃ g, r.src = .loc g := by
  have hi : r.isDef = true := by
    simp only [rootsOf, rootsIn, List.mem_flatMap, List.mem_filterMap] at hr
    obtain ⟨g, hg, a, ha, hr⟩ := hr
    cases hs : a.spec with
    | ref r f => rw [hs] at hr; simp at hr
    | id i f =>
      rw [hs] at hr
      dsimp only at hr
      split at hr
      · injection hr with hr; subst hr
        rw [h g hg a ha i f hs]; rfl
      · simp at hr
  exact ⟨hi, (rootsOf_local gs k r hr).1 hi⟩

/-- C54, C06 (partial: no `prefix: true` references, no attributes inherited from a dependency): resolution does succeed
when no group that is not excluded has an excluded definition, and every reference has a usable definition in the
registry, or none at all there and an attribute of the dependencies that the group may use. -/
theorem refs_complete_partial (w : World) (gs : List RGrp) (hp : NoPrefix gs) (hnew : ∀ g ∈ gs, g.attrs = [])
    (hi : NoInherited gs) (hbad : ∀ g ∈ gs, ∀ a ∈ g.pending, badId g a = false)
    (href : ∀ g ∈ gs, ∀ a ∈ g.pending, ∀ r f, a.spec = .ref r f →
      (∃ d ∈ rootsOf gs r, d.usable = true) ∨
      ((∀ d ∈ rootsOf gs r, d.isDef = false) ∧ ∃ root, depRoot w r = .ok (some root) ∧ Allowed g root)) :
    ∃ st' gs', resolveRefs w ⟨[], []⟩ gs = .ok st' gs' := by
  rcases resolveRefs_outcome w gs hp hnew with ⟨e, _, k, hk⟩ | ⟨R1, hR1, hh⟩
  · obtain ⟨out, ho, _⟩ := foldRoots_local_ok k none (rootsOf gs k) (by simp) (fun r hr => rootsOf_allDef gs hi k r hr)
    rw [ho] at hk; simp at hk
  have good : ∀ g ∈ gs, ∀ a ∈ g.pending, a.spec.isRef = true → ∃ x, verdict w R1 g a = .good x := by
    intro g hg a ha hr
    cases hs : a.spec with
    | id i f => rw [hs] at hr; simp [AttrSpec.isRef] at hr
    | ref r f =>
      unfold verdict
      rw [hs]
      dsimp only
      rcases href g hg a ha r f hs with ⟨d, hd, hu⟩ | ⟨hno, root, hroot, hal⟩
      · cases hf : (rootsOf gs r).find? Rooted.usable with
        | none => rw [List.find?_eq_none] at hf; exact absurd hu (hf d hd)
        | some d1 =>
          have h1 := foldRoots_usable r (rootsOf gs r) none d1 (by simp) hf (fun x hx => rootsOf_local gs r x hx) _ (hR1 r)
          have hu1 : d1.usable = true := List.find?_some hf
          simp only [Rooted.usable, Bool.and_eq_true, Bool.not_eq_true'] at hu1
          have hb : base w R1 r = .ok (some d1) := by
            unfold base knownDef
            rw [h1]
            simp [hu1.1]
          rw [hb]
          have : refFails g d1 = false := by
            rw [allowed_iff]
            exact ⟨fun _ _ => hu1.2, fun _ _ _ => hu1.2⟩
          simp only [this, Bool.false_eq_true, if_false]
          exact ⟨_, rfl⟩
      · have hb : base w R1 r = .ok (some root) := by
          unfold base
          have : knownDef R1 r = none := by
            unfold knownDef
            cases hg : aget r R1 with
            | none => rfl
            | some x =>
              have h1 := hR1 r
              rw [hg] at h1
              rcases foldRoots_mem r none _ x h1 with h2 | h2
              · simp at h2
              · simp [hno x h2]
          rw [this]; exact hroot
        rw [hb]
        simp only [(allowed_iff g root).2 hal, Bool.false_eq_true, if_false]
        exact ⟨_, rfl⟩
  rcases hh with ⟨_, g, hg, a, ha, hr, hf⟩ | ⟨_, g, hg, a, ha, hr, hf⟩ | ⟨st2, gs2, he, _, _⟩
  · obtain ⟨x, hx⟩ := good g hg a ha hr
    rw [hx] at hf; simp [Verdict.isFatal] at hf
  · rcases hr with hr | hr
    · obtain ⟨x, hx⟩ := good g hg a ha hr
      rw [hx] at hf; simp [Verdict.attr?] at hf
    · rw [hbad g hg a ha] at hr; simp at hr
  · exact ⟨st2, gs2, he⟩

/-- C04 (partial: no `prefix: true` references, no attributes inherited from a dependency, and all definitions of one
name equal): the order of the groups, hence of the files, changes neither whether attribute resolution succeeds nor the
attributes of any group. -/
theorem refs_order_partial (w : World) (gs gs' : List RGrp) (hperm : gs.Perm gs') (hp : NoPrefix gs)
    (hnew : ∀ g ∈ gs, g.attrs = []) (hi : NoInherited gs) (hu : Uniform gs) (st1 : RState) (out1 : List RGrp)
    (h : resolveRefs w ⟨[], []⟩ gs = .ok st1 out1) :
    ∃ st2 out2, resolveRefs w ⟨[], []⟩ gs' = .ok st2 out2 ∧
      (out1.map (fun g => (g.id, denote st1.cat g.attrs))).Perm (out2.map (fun g => (g.id, denote st2.cat g.attrs))) := by
  have hmem : ∀ g, g ∈ gs' ↔ g ∈ gs := fun g => hperm.mem_iff.symm
  have hroots : ∀ k r, r ∈ rootsOf gs' k ↔ r ∈ rootsOf gs k := by
    intro k r
    simp only [rootsOf, List.mem_flatMap, hmem]
  have hp' : NoPrefix gs' := fun g hg => hp g ((hmem g).1 hg)
  have hi' : NoInherited gs' := fun g hg => hi g ((hmem g).1 hg)
  rcases resolveRefs_outcome w gs hp hnew with ⟨e, he, _⟩ | ⟨R1, hR1, hh⟩
  · rw [h] at he; simp at he
  rcases hh with ⟨⟨e, he⟩, _⟩ | ⟨⟨es, he⟩, _⟩ | ⟨sta, gsa, he, hgood, hmap⟩
  · rw [h] at he; simp at he
  · rw [h] at he; simp at he
  rw [h] at he
  injection he with he1 he2
  subst he1; subst he2
  rcases resolveRefs_outcome w gs' hp' (fun g hg => hnew g ((hmem g).1 hg)) with ⟨e, _, k, hk⟩ | ⟨R2, hR2, hh⟩
  · obtain ⟨out, ho, _⟩ := foldRoots_local_ok k none (rootsOf gs' k) (by simp) (fun r hr => rootsOf_allDef gs' hi' k r hr)
    rw [ho] at hk; simp at hk
  have hverdict : ∀ g a, verdict w R2 g a = verdict w R1 g a := by
    intro g a
    unfold verdict
    split
    · rename_i r f hs
      have key : ∀ (gs0 : List RGrp) (R : List (String × Rooted)), NoInherited gs0 →
          (∀ k, foldRoots k none (rootsOf gs0 k) = .ok (aget k R)) →
          (rootsOf gs0 r = [] ∧ base w R r = depRoot w r) ∨ (∃ d, d ∈ rootsOf gs0 r ∧ base w R r = .ok (some d)) := by
        intro gs0 R hi0 hR
        have h1 := hR r
        obtain ⟨out, ho, hn⟩ := foldRoots_local_ok r none (rootsOf gs0 r) (by simp) (fun x hx => rootsOf_allDef gs0 hi0 r x hx)
        rw [ho] at h1
        injection h1 with h1
        cases hout : out with
        | none =>
          left
          refine ⟨(hn hout).2, ?_⟩
          unfold base knownDef
          rw [← h1, hout]
        | some d =>
          right
          rw [hout] at ho
          rcases foldRoots_mem r none _ d ho with h2 | h2
          · simp at h2
          · refine ⟨d, h2, ?_⟩
            unfold base knownDef
            rw [← h1, hout]
            simp [(rootsOf_allDef gs0 hi0 r d h2).1]
      rcases key gs R1 hi hR1 with ⟨h1, h2⟩ | ⟨d1, h1, h2⟩ <;> rcases key gs' R2 hi' hR2 with ⟨h3, h4⟩ | ⟨d2, h3, h4⟩
      · rw [h2, h4]
      · rw [hroots, h1] at h3; simp at h3
      · rw [← hroots, h3] at h1; simp at h1
      · rw [h2, h4]
        have hat : d2.attr = d1.attr := hu r d2 ((hroots r d2).1 h3) d1 h1
        obtain ⟨_, g1, hs1⟩ := rootsOf_allDef gs hi r d1 h1
        obtain ⟨_, g2, hs2⟩ := rootsOf_allDef gs' hi' r d2 h3
        have : refFails g d2 = refFails g d1 := by unfold refFails Rooted.excl; rw [hs1, hs2, hat]
        simp only [this, hat]
    · rfl
  rcases hh with ⟨_, g, hg, a, ha, hr, hf⟩ | ⟨_, g, hg, a, ha, hr, hf⟩ | ⟨st2, gs2, he, _, hmap2⟩
  · obtain ⟨x, hx⟩ := (hgood g ((hmem g).1 hg) a ha).2 hr
    rw [hverdict, hx] at hf; simp [Verdict.isFatal] at hf
  · have := hgood g ((hmem g).1 hg) a ha
    rcases hr with hr | hr
    · obtain ⟨x, hx⟩ := this.2 hr
      rw [hverdict, hx] at hf; simp [Verdict.attr?] at hf
    · rw [this.1] at hr; simp at hr
  · refine ⟨st2, gs2, he, ?_⟩
    have m1 := congrArg (List.map (fun q : String × List UAttr × List (Option Attr) => (q.1, q.2.2))) hmap
    have m2 := congrArg (List.map (fun q : String × List UAttr × List (Option Attr) => (q.1, q.2.2))) hmap2
    simp only [List.map_map] at m1 m2
    have e1 : out1.map (fun g => (g.id, denote st1.cat g.attrs)) = _ := m1
    have e2 : gs2.map (fun g => (g.id, denote st2.cat g.attrs)) = _ := m2
    rw [e1, e2]
    simp only [hverdict]
    exact hperm.map _

/-! ### Non-vacuity and findings -/

private def wEmpty : World := ⟨[], fun _ => none, fun _ => none⟩
private def depUrl (n : String) : SchemaUrl := { name := n, tail := "/1.0.0", sv := some ⟨1, 0, 0, 0⟩ }
private def wDep : World :=
  ⟨[fun k => if k = "d.x" then .ok (some ({ name := "d.x", type := "string", brief := "dep" }, depUrl "acme")) else .ok none],
   fun _ => none, fun _ => none⟩

private def exGs : List RGrp :=
  [{ id := "use", pending := [⟨.ref "a" { brief := some "mine" }, none⟩, ⟨.ref "d.x" {}, none⟩] },
   { id := "def", pending := [⟨.id "a" { type := "int", brief := some "theirs" }, none⟩] }]

def RefOut.view : RefOut → Option (List (String × List (Option Attr)))
  | .ok st gs => some (gs.map (fun g => (g.id, denote st.cat g.attrs)))
  | _ => none

def RefOut.isFatal : RefOut → Bool
  | .fatal _ => true
  | _ => false

example : (resolveRefs wDep ⟨[], []⟩ exGs).view =
    some [("use", [some { name := "a", type := "int", brief := "mine" }, some { name := "d.x", type := "string", brief := "dep" }]),
          ("def", [some { name := "a", type := "int", brief := "theirs" }])] := by decide

example : NoPrefix exGs ∧ (∀ g ∈ exGs, g.attrs = []) ∧ NoInherited exGs := by
  refine ⟨?_, by decide, ?_⟩
  · intro g hg a ha r f hs
    simp only [exGs, List.mem_cons, List.not_mem_nil, or_false] at hg
    rcases hg with rfl | rfl <;> simp at ha
    · rcases ha with rfl | rfl <;> (simp at hs; rw [← hs.2])
    · subst ha; simp at hs
  · intro g hg a ha i f hs
    simp only [exGs, List.mem_cons, List.not_mem_nil, or_false] at hg
    rcases hg with rfl | rfl <;> simp at ha
    · rcases ha with rfl | rfl <;> simp at hs
    · subst ha; rfl

example : Uniform exGs := by
  have h : ∀ k, ∀ d ∈ rootsOf exGs k, d.attr = { name := "a", type := "int", brief := "theirs" } := by
    intro k d hd
    simp only [rootsOf, rootsIn, exGs, List.mem_flatMap, List.mem_filterMap, List.mem_cons, List.not_mem_nil, or_false] at hd
    obtain ⟨g, rfl | rfl, a, ha, hd⟩ := hd <;> simp at ha
    · rcases ha with rfl | rfl <;> simp at hd
    · subst ha
      simp at hd
      obtain ⟨_, rfl⟩ := hd
      rfl
  intro k d hd d' hd'
  rw [h k d hd, h k d' hd']

/-- The groups of a registry after `extends` resolution: a parent that defines `x`, a child that extends it and gives `x`
another brief, and a third group that refers to `x`. -/
private def parentG : RGrp := { id := "parent", pending := [⟨.id "x" { type := "int", brief := some "original" }, none⟩] }
private def childG : RGrp :=
  { id := "child"
    pending := inheritAttrs "child" [⟨.ref "x" { brief := some "only for child" }, none⟩] [("parent", parentG.pending)] }
private def otherG : RGrp := { id := "other", pending := [⟨.ref "x" {}, none⟩] }

def briefsOf (o : RefOut) (g : String) : List (Option String) :=
  match o.view with
  | some v => (v.filter (fun p => p.1 = g)).flatMap (fun p => p.2.map (fun a => a.map Attr.brief))
  | none => []

/-- C04, C54 refuted: a field that a group overrides on an attribute it inherits with `extends` becomes the value that
unrelated references to that attribute see, when the group comes before the defining group in file order. -/
theorem ref_order_refuted : ∃ gs gs' : List RGrp, gs.Perm gs' ∧ NoPrefix gs ∧
    briefsOf (resolveRefs wEmpty ⟨[], []⟩ gs) "other" = [some "original"] ∧
    briefsOf (resolveRefs wEmpty ⟨[], []⟩ gs') "other" = [some "only for child"] := by
  refine ⟨[parentG, childG, otherG], [childG, parentG, otherG], .swap .., ?_, by decide, by decide⟩
  intro g hg a ha r f hs
  simp only [List.mem_cons, List.not_mem_nil, or_false] at hg
  rcases hg with rfl | rfl | rfl
  · simp [parentG] at ha; subst ha; simp at hs
  · have : childG.pending = [⟨.id "x" { type := "int", brief := some "only for child" }, none⟩] := by decide
    rw [this] at ha
    simp at ha; subst ha; simp at hs
  · simp [otherG] at ha; subst ha; simp at hs; rw [← hs.2]

private def inhA : RGrp := { id := "a", pending := [⟨.id "x" { type := "int" }, some (depUrl "acme")⟩] }
private def inhB : RGrp := { id := "b", pending := [⟨.id "x" { type := "int" }, some (depUrl "other")⟩] }
private def defC : RGrp := { id := "c", pending := [⟨.id "x" { type := "int" }, none⟩] }

/-- C04 refuted: whether resolution succeeds can depend on file order. Two groups that inherit an attribute of the same
name from different dependencies are accepted when the registry's own definition comes between them, and rejected as
ambiguous when it comes last. -/
theorem ref_success_order_refuted : ∃ gs gs' : List RGrp, gs.Perm gs' ∧
    (resolveRefs wEmpty ⟨[], []⟩ gs).view.isSome = true ∧ (resolveRefs wEmpty ⟨[], []⟩ gs').isFatal = true :=
  ⟨[inhA, defC, inhB], [inhA, inhB, defC], .cons _ (.swap ..), by decide, by decide⟩

private def pfxG : RGrp := { id := "p", pfx := "srv", pending := [⟨.ref "x" { prefixFlag := true }, none⟩] }
private def defX : RGrp := { id := "dx", pending := [⟨.id "x" { type := "int", brief := some "plain" }, none⟩] }
private def defSrvX : RGrp := { id := "dsx", pending := [⟨.id "srv.x" { type := "string", brief := some "own definition" }, none⟩] }
private def useSrvX : RGrp := { id := "use", pending := [⟨.ref "srv.x" {}, none⟩] }

/-- C04, C54 refuted: a prefixed reference replaces an existing definition of the prefixed name, for the references that
come after it in file order. -/
theorem ref_prefix_overwrites_refuted : ∃ gs gs' : List RGrp, gs.Perm gs' ∧
    briefsOf (resolveRefs wEmpty ⟨[], []⟩ gs) "use" = [some "own definition"] ∧
    briefsOf (resolveRefs wEmpty ⟨[], []⟩ gs') "use" = [some "plain"] :=
  ⟨[defX, defSrvX, useSrvX, pfxG], [defX, defSrvX, pfxG, useSrvX], .cons _ (.cons _ (.swap ..)), by decide, by decide⟩

private def exclAnn : Annots := [("dependency_resolution", .map [("exclude", .bool true)])]

/-- An excluded definition in a group that is not excluded makes resolution fail (C06). -/
example : resolveRefs wEmpty ⟨[], []⟩ [{ id := "g", pending := [⟨.id "x" { type := "int", annotations := some exclAnn }, none⟩] }] =
    .stuck [.excluded "x" "g", .excluded "x" "g"] := by rfl

end Verif.Resolver
