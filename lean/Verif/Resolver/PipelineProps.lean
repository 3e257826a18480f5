import Verif.Resolver.Pipeline
import Verif.Resolver.RefsGeneral
import Verif.Resolver.CatalogProps
import Verif.Imports.EntityProps
/-
The whole of `resolve_registry_with_dependencies`: what a resolved registry says (C134), and that it does not depend on
the order of the files (C04).
-/
namespace Verif.Pipeline
open Verif.Util Verif.Resolver

/-! ### Specification -/

/-- The id of a definition in a group with prefix `p` (if any). -/
def prefixed (p i : String) : String := if p = "" then i else p ++ "." ++ i

/-- The groups of the files as resolution starts with them: with the prefix of the group on the ids of its definitions
(references are left alone), no attribute coming from a dependency, and an empty lineage. -/
def prepared (specs : List UGroup) : List UGroup := specs.map fun g =>
  { g with
    lineage := some { extendsGroup := none, includesGroup := [], attrs := [] }
    attrs := g.attrs.map fun a => match a.spec with
      | .id i f => { spec := .id (prefixed g.pfx i) f, origin := none }
      | .ref r f => { spec := .ref r f, origin := none } }

/-- The groups of the dependencies `extends` can name. -/
def Env.groups (e : Env) : List DepLookup := e.deps.map Dep.group

/-- `Reads out refs xs`: the references `refs`, read in the published list of attributes, stand for the attributes `xs`
(in some order, with multiplicity). -/
def Reads (out : Output) (refs : List Nat) (xs : List Attr) : Prop :=
  (refs.map (fun r => out.attrs[r]?)).Perm (xs.map some)

/-- Published group `o` is group `c` of the files, after inheritance, in the registry of groups `cs`: same fields, and its
attributes are what the attributes of `c` give (`Resolved`: definitions as they are, references over the attribute they
name). Only the attribute entries `as` of the lineage are left open. -/
def PublishesOwn (e : Env) (cs : List UGroup) (out : Output) (o : RGroup Body) (c : UGroup) : Prop :=
  o.id = c.id ∧ (∃ as, o.rest = .own { c with attrs := [], lineage := c.lineage.map (fun l => { l with attrs := as }) }) ∧
  ∃ xs, Reads out o.attrs xs ∧ Resolved e.refWorld (cs.map toRef) (toRef c) c.attrs xs

/-- The attribute `x` is what importing makes of an attribute `p.1` that comes from registry `p.2`: the attribute itself,
or its definition in the version chosen for that registry. -/
def ImportsAttr (e : Env) (p : Attr × SchemaUrl) (x : Attr) : Prop :=
  ∃ n, upgrade e.refWorld { attr := p.1, src := .dep p.2, isDef := true } = .ok n ∧ x = n.attr

/-- Published group `o` is the imported group `i`, with its attributes: it has no visibility of its own, and everything
else, its provenance included, is as in the dependency. -/
def PublishesImport (e : Env) (out : Output) (o : RGroup Body) (i : Imports.Imported) : Prop :=
  o.id = i.group.id ∧
  o.rest = .imported { i.group with visibility := none } ∧
  ∃ xs, Reads out o.attrs xs ∧ All2 (ImportsAttr e) i.group.attrs xs

/-- The import blocks in effect: those of the files and, with `include_unreferenced`, one that names everything. -/
def blocksOf (inc : Bool) (blocks : List Imports.Block) : List Imports.Block :=
  if inc then blocks ++ [{ path := "--include-unreferenced", metrics := ["*"], events := ["*"], spans := ["*"]
                           entities := ["*"], attributeGroups := ["*"] }]
  else blocks

/-! ### Lists -/

theorem all2_map_left {α β γ : Type} {R : β → γ → Prop} {f : α → β} {as : List α} {cs : List γ}
    (h : All2 R (as.map f) cs) : All2 (fun a c => R (f a) c) as cs := by
  induction as generalizing cs with
  | nil => cases h; exact .nil
  | cons a as ih =>
    cases h with
    | cons h1 h2 => exact .cons h1 (ih h2)

theorem all2_zip {α β : Type} {R : α → β → Prop} {as : List α} {bs : List β} (h : All2 R as bs) :
    (∀ p ∈ as.zip bs, p.1 ∈ as ∧ R p.1 p.2) ∧ (∀ a ∈ as, ∃ b, (a, b) ∈ as.zip bs) ∧ (as.zip bs).map Prod.fst = as := by
  induction h with
  | nil => simp
  | @cons a b as bs h1 _ ih =>
    obtain ⟨i1, i2, i3⟩ := ih
    refine ⟨?_, ?_, ?_⟩
    · intro p hp
      rcases List.mem_cons.1 hp with rfl | hp
      · exact ⟨by simp, h1⟩
      · exact ⟨by simp [(i1 p hp).1], (i1 p hp).2⟩
    · intro x hx
      rcases List.mem_cons.1 hx with rfl | hx
      · exact ⟨b, by simp⟩
      · obtain ⟨y, hy⟩ := i2 x hx
        exact ⟨y, by simp [hy]⟩
    · simp [i3]

/-! ### Imported attributes -/

theorem registerAttr_spec {w : Resolver.World} {st : RState} {a : Attr} {u : SchemaUrl} {r : RState × Nat}
    (hc : CatOk st.cat) (h : registerAttr w st a u = .ok r) :
    CatOk r.1.cat ∧ Ext st.cat r.1.cat ∧ ∃ n, upgrade w { attr := a, src := .dep u, isDef := true } = .ok n ∧
      attrOf r.1.cat r.2 = some n.attr := by
  unfold registerAttr at h
  split at h
  · simp at h
  · rename_i n hn
    dsimp only at h
    split at h
    · simp at h
    · rename_i root hroot
      injection h with h
      subst h
      obtain ⟨h1, h2, h3⟩ := attributeRef_ok st.cat n.attr hc
      exact ⟨h1, h3, n, hn, h2⟩

theorem registerAttrs_spec {e : Env} {ps : List (Attr × SchemaUrl)} {st : RState} {r : RState × List Nat}
    (hc : CatOk st.cat) (h : registerAttrs e.refWorld st ps = .ok r) :
    CatOk r.1.cat ∧ Ext st.cat r.1.cat ∧ ∃ xs, denote r.1.cat r.2 = xs.map some ∧ All2 (ImportsAttr e) ps xs := by
  induction ps generalizing st r with
  | nil =>
    simp only [registerAttrs, Except.ok.injEq] at h
    subst h
    exact ⟨hc, fun _ _ h => h, [], rfl, .nil⟩
  | cons p ps ih =>
    unfold registerAttrs at h
    split at h
    · simp at h
    · rename_i r1 h1
      split at h
      · simp at h
      · rename_i r2 h2
        injection h with h
        subst h
        obtain ⟨c1, x1, n, hn, a1⟩ := registerAttr_spec hc h1
        obtain ⟨c2, x2, xs, d2, f2⟩ := ih c1 h2
        refine ⟨c2, x1.trans x2, n.attr :: xs, ?_, .cons ⟨n, hn, rfl⟩ f2⟩
        unfold denote at d2 ⊢
        simp only [List.map_cons, d2, x2 _ _ a1]

/-- What holds of each imported group with its references. -/
def ImpOk (e : Env) (cat : Cat Attr) (p : Imports.Imported × List Nat) : Prop :=
  ∃ xs, denote cat p.2 = xs.map some ∧ All2 (ImportsAttr e) p.1.group.attrs xs

theorem ImpOk.ext {e : Env} {c c' : Cat Attr} {p : Imports.Imported × List Nat} (h : ImpOk e c p) (hx : Ext c c') :
    ImpOk e c' p := by
  obtain ⟨xs, h1, h2⟩ := h
  exact ⟨xs, denote_ext hx _ _ h1, h2⟩

theorem registerGroups_spec {e : Env} {is : List Imports.Imported} {st : RState}
    {r : RState × List (Imports.Imported × List Nat)} (hc : CatOk st.cat) (h : registerGroups e.refWorld st is = .ok r) :
    CatOk r.1.cat ∧ Ext st.cat r.1.cat ∧ r.2.map Prod.fst = is ∧ ∀ p ∈ r.2, ImpOk e r.1.cat p := by
  induction is generalizing st r with
  | nil =>
    simp only [registerGroups, Except.ok.injEq] at h
    subst h
    exact ⟨hc, fun _ _ h => h, rfl, by simp⟩
  | cons i is ih =>
    unfold registerGroups at h
    split at h
    · simp at h
    · rename_i r1 h1
      split at h
      · simp at h
      · rename_i r2 h2
        injection h with h
        subst h
        obtain ⟨c1, x1, xs, d1, f1⟩ := registerAttrs_spec hc h1
        obtain ⟨c2, x2, m2, o2⟩ := ih c1 h2
        refine ⟨c2, x1.trans x2, by simp [m2], ?_⟩
        intro p hp
        rcases List.mem_cons.1 hp with rfl | hp
        · exact ImpOk.ext ⟨xs, d1, f1⟩ x2
        · exact o2 p hp

theorem keepFirst_fst (acc : List (Imports.Imported × List Nat)) (c : Imports.Imported × List Nat) :
    (keepFirst acc c).map Prod.fst = Imports.keepFirst (acc.map Prod.fst) c.1 := by
  unfold keepFirst Imports.keepFirst
  rw [List.any_map]
  simp only [Function.comp_def]
  split
  · rfl
  · simp

theorem foldl_keepFirst (cs acc : List (Imports.Imported × List Nat)) :
    (cs.foldl keepFirst acc).map Prod.fst = (cs.map Prod.fst).foldl Imports.keepFirst (acc.map Prod.fst) ∧
    ∀ p ∈ cs.foldl keepFirst acc, p ∈ acc ∨ p ∈ cs := by
  induction cs generalizing acc with
  | nil => simp
  | cons c cs ih =>
    obtain ⟨h1, h2⟩ := ih (keepFirst acc c)
    simp only [List.foldl_cons, List.map_cons]
    refine ⟨by rw [h1, keepFirst_fst], ?_⟩
    intro p hp
    rcases h2 p hp with h | h
    · unfold keepFirst at h
      split at h
      · exact .inl h
      · rcases List.mem_append.1 h with h | h
        · exact .inl h
        · simp only [List.mem_singleton] at h; subst h; exact .inr (by simp)
    · exact .inr (by simp [h])

theorem importLoop_spec {e : Env} {bs : List Imports.Block} {ds : List Imports.Dep} {st : RState}
    {acc : List (Imports.Imported × List Nat)} {r : RState × List (Imports.Imported × List Nat)} (hc : CatOk st.cat)
    (hacc : ∀ p ∈ acc, ImpOk e st.cat p) (h : importLoop e bs st acc ds = .ok r) :
    CatOk r.1.cat ∧ Ext st.cat r.1.cat ∧ (∀ p ∈ r.2, ImpOk e r.1.cat p) ∧
    Imports.importAll.go e.impWorld bs (acc.map Prod.fst) ds = .ok (r.2.map Prod.fst) := by
  induction ds generalizing st acc with
  | nil =>
    simp only [importLoop, Except.ok.injEq] at h
    subst h
    exact ⟨hc, fun _ _ h => h, hacc, rfl⟩
  | cons d ds ih =>
    unfold importLoop at h
    split at h
    · simp at h
    · rename_i cs hcs
      split at h
      · simp at h
      · rename_i r1 h1
        obtain ⟨c1, x1, m1, o1⟩ := registerGroups_spec hc h1
        obtain ⟨f1, f2⟩ := foldl_keepFirst r1.2 acc
        obtain ⟨c2, x2, o2, g2⟩ := ih c1 (by
          intro p hp
          rcases f2 p hp with hp | hp
          · exact (hacc p hp).ext x1
          · exact o1 p hp) h
        refine ⟨c2, x1.trans x2, o2, ?_⟩
        unfold Imports.importAll.go
        rw [hcs]
        dsimp only
        rw [← g2, f1, m1]

/-! ### The phases in sequence -/

theorem prepared_eq (specs : List UGroup) : specs.map (fun g => prefixGroup (groupFromSpec g)) = prepared specs := by
  unfold prepared
  refine List.map_congr_left (fun g _ => ?_)
  unfold prefixGroup groupFromSpec prefixAttr prefixed
  dsimp only
  by_cases h : g.pfx = ""
  · rw [if_neg (by simp [h])]
    simp only [h, if_true]
    congr 1
    refine List.map_congr_left (fun a _ => ?_)
    obtain ⟨s, o⟩ := a
    cases s <;> rfl
  · rw [if_pos h]
    simp only [h, if_false, List.map_map]
    congr 1
    refine List.map_congr_left (fun a _ => ?_)
    obtain ⟨s, o⟩ := a
    cases s <;> rfl

/-- The phases of a successful run. -/
structure Run (le : Attr → Attr → Bool) (e : Env) (bs : List Imports.Block) (ws : List Warn) (specs : List UGroup)
    (out : Output) where
  cs : List UGroup
  st : RState
  rs : List RGrp
  im : RState × List (Imports.Imported × List Nat)
  origins : List (String × Imports.Origins)
  extends_ : resolveExtends e.groups (prepared specs) = .ok cs
  refs : resolveRefs e.refWorld ⟨[], []⟩ (cs.map toRef) = .ok st rs
  imports : importLoop e bs st [] (e.deps.map Dep.imp) = .ok im
  assocs : Imports.resolveAssociations
    { groups := ((cs.zip rs).map (fun p => toPublish (.own (writeBack p.1 p.2)) p.2.attrs) ++
        im.2.map (fun i => toPublish (.imported (bodyOfImport i.1)) i.2)).map (fun g => g.rest.asImport)
      deps := e.deps.map Dep.imp
      origins := (im.2.map Prod.fst).foldl bringOrigins [], blocks := bs } = .ok origins
  published : publish le im.1.cat ((cs.zip rs).map (fun p => toPublish (.own (writeBack p.1 p.2)) p.2.attrs) ++
        im.2.map (fun i => toPublish (.imported (bodyOfImport i.1)) i.2)) origins
        (ws ++ (Imports.unmatchedErrors e.impWorld bs (im.2.map (fun i => i.1.group))).map Warn.unmatched) im.1.roots = .ok out


theorem resolve_run {le : Attr → Attr → Bool} {e : Env} {inc : Bool} {specs : List UGroup} {blocks : List Imports.Block}
    {out : Output} (h : resolveRegistry le e inc specs blocks = .ok out) :
    Nonempty (Run le e (blocksOf inc blocks) (if inc then [Warn.deprecatedIncludeUnreferenced] else []) specs out) := by
  unfold resolveRegistry at h
  dsimp only at h
  rw [prepared_eq] at h
  split at h
  · simp at h
  · rename_i cs hcs
    split at h
    · simp at h
    · simp at h
    · simp at h
    · rename_i st rs hrs
      split at h
      · simp at h
      · rename_i im him
        split at h
        · simp at h
        · rename_i origins hor
          exact ⟨⟨cs, st, rs, im, origins, hcs, hrs, him, hor, h⟩⟩

theorem run_resolve {le : Attr → Attr → Bool} {e : Env} {inc : Bool} {specs : List UGroup} {blocks : List Imports.Block}
    {out : Output} (h : Run le e (blocksOf inc blocks) (if inc then [Warn.deprecatedIncludeUnreferenced] else []) specs out) :
    resolveRegistry le e inc specs blocks = .ok out := by
  obtain ⟨cs, st, rs, im, origins, h1, h2, h3, h4, h5⟩ := h
  unfold Env.groups at h1
  unfold blocksOf at h3 h4 h5
  unfold resolveRegistry implicitBlock
  dsimp only
  rw [prepared_eq]
  rw [h1]; dsimp only
  rw [h2]; dsimp only
  rw [h3]; dsimp only
  rw [h4]; exact h5

theorem denote_valid {c : Cat Attr} {refs : List Nat} {xs : List Attr} (h : denote c refs = xs.map some) :
    ∀ r ∈ refs, ∃ a, attrOf c r = some a := by
  intro r hr
  have : attrOf c r ∈ denote c refs := List.mem_map.2 ⟨r, hr, rfl⟩
  rw [h] at this
  obtain ⟨a, _, ha⟩ := List.mem_map.1 this
  exact ⟨a, ha.symm⟩

theorem writeBack_done (c : UGroup) (r : RGrp) (h : r.pending = []) :
    ∃ as, writeBack c r = { c with attrs := [], lineage := c.lineage.map (fun l => { l with attrs := as }) } := by
  unfold writeBack
  rw [h]
  cases hl : c.lineage with
  | none => exact ⟨[], by cases r.lineage <;> rfl⟩
  | some l =>
    cases r.lineage with
    | none => exact ⟨l.attrs, rfl⟩
    | some as => exact ⟨as, rfl⟩

/-- The groups as they reach the clean-up. -/
def Run.before {le : Attr → Attr → Bool} {e : Env} {bs : List Imports.Block} {ws : List Warn} {specs : List UGroup}
    {out : Output} (h : Run le e bs ws specs out) : List (RGroup Body) :=
  (h.cs.zip h.rs).map (fun p => toPublish (.own (writeBack p.1 p.2)) p.2.attrs) ++
    h.im.2.map (fun i => toPublish (.imported (bodyOfImport i.1)) i.2)

/-- The facts about the groups that reach the clean-up. -/
theorem before_spec {le : Attr → Attr → Bool} {e : Env} {bs : List Imports.Block} {ws : List Warn} {specs : List UGroup}
    {out : Output} (h : Run le e bs ws specs out) :
    CatOk h.im.1.cat ∧
    All2 (fun c r => r.id = c.id ∧ r.pending = [] ∧ ∃ xs, denote h.im.1.cat r.attrs = xs.map some ∧
      Resolved e.refWorld (h.cs.map toRef) (toRef c) c.attrs xs) h.cs h.rs ∧
    (∀ p ∈ h.im.2, ImpOk e h.im.1.cat p) ∧
    Imports.importAll e.impWorld bs (e.deps.map Dep.imp) = .ok (h.im.2.map Prod.fst) := by
  obtain ⟨c1, a1⟩ := ref_resolves e.refWorld (h.cs.map toRef) h.rs h.st
    (by intro g hg; obtain ⟨c, _, rfl⟩ := List.mem_map.1 hg; rfl) h.refs
  obtain ⟨c2, x2, o2, g2⟩ := importLoop_spec c1 (by simp) h.imports
  refine ⟨c2, ?_, o2, g2⟩
  refine (all2_map_left a1).imp ?_
  intro c r hcr
  obtain ⟨h1, h2, xs, h3, h4⟩ := hcr
  exact ⟨h1, h2, xs, denote_ext x2 _ _ h3, h4⟩

theorem before_valid {le : Attr → Attr → Bool} {e : Env} {bs : List Imports.Block} {ws : List Warn} {specs : List UGroup}
    {out : Output} (h : Run le e bs ws specs out) :
    ∀ g ∈ h.before, ∀ r ∈ g.attrs, ∃ a, attrOf h.im.1.cat r = some a := by
  obtain ⟨_, h2, h3, _⟩ := before_spec h
  intro g hg
  rcases List.mem_append.1 hg with hg | hg
  · obtain ⟨p, hp, rfl⟩ := List.mem_map.1 hg
    obtain ⟨_, _, _, xs, hx, _⟩ := (all2_zip h2).1 p hp
    exact denote_valid hx
  · obtain ⟨p, hp, rfl⟩ := List.mem_map.1 hg
    obtain ⟨xs, hx, _⟩ := h3 p hp
    exact denote_valid hx

theorem reads_of {out : Output} {cat : Cat Attr} {refs refs' : List Nat} {xs : List Attr}
    (hp : (refs'.map (fun r => out.attrs[r]?)).Perm (refs.map (attrOf cat))) (hd : denote cat refs = xs.map some) :
    Reads out refs' xs := by
  unfold Reads; rw [← hd]; exact hp

/-! ### C134 -/

/-- C134: what a resolved registry says. Whenever resolution of a registry with unique group ids (whose local groups no
dependency shadows) succeeds: every group of the files resolves its `extends` and `include_groups`; every one that is not
internal is published, as it is after inheritance, with the attributes that its definitions and references give; every
imported group is published, with its attributes; and nothing else is published: the ids are exactly those of the groups
of the files that are not internal and of the imported groups, in order. -/
theorem resolved_registry_says (le : Attr → Attr → Bool) (e : Env) (inc : Bool) (specs : List UGroup)
    (blocks : List Imports.Block) (out : Output) (hn : ((prepared specs).map UGroup.id).Nodup)
    (hs : NoShadow (prepared specs) e.groups) (hle : TotalPre le) (h : resolveRegistry le e inc specs blocks = .ok out) :
    ∃ cs is, All2 (fun g c => Resolves (prepared specs) e.groups g c []) (prepared specs) cs ∧
      Imports.importAll e.impWorld (blocksOf inc blocks) (e.deps.map Dep.imp) = .ok is ∧
      (∀ c ∈ cs, c.visibility ≠ some .internalVis → ∃ o ∈ out.groups, PublishesOwn e cs out o c) ∧
      (∀ i ∈ is, ∃ o ∈ out.groups, PublishesImport e out o i) ∧
      (∀ o ∈ out.groups, (∃ c ∈ cs, c.visibility ≠ some .internalVis ∧ PublishesOwn e cs out o c) ∨
        (∃ i ∈ is, PublishesImport e out o i)) ∧
      (out.groups.map RGroup.id).Perm
        ((cs.filter (fun c => !decide (c.visibility = some .internalVis))).map UGroup.id ++ is.map (fun i => i.group.id)) ∧
      Sorted (fun a b : String => decide (a ≤ b)) (out.groups.map RGroup.id) := by
  obtain ⟨run⟩ := resolve_run h
  obtain ⟨hcat, hall, himp, hia⟩ := before_spec run
  have hval := before_valid run
  have hpub := run.published
  change publish le run.im.1.cat run.before run.origins _ _ = .ok out at hpub
  obtain ⟨c', groups, hcl, hids, hfw, hbw⟩ := cleanup_keeps_meaning le run.im.1.cat run.before hcat hval
  obtain ⟨c2, groups2, hcl2, _, _, _, _, _, hsort⟩ := cleanup_catalog_exact le hle run.im.1.cat run.before hcat hval
  rw [hcl] at hcl2
  injection hcl2 with hcl2
  injection hcl2 with hcl2 hcl3
  subst hcl2; subst hcl3
  unfold publish at hpub
  rw [hcl] at hpub
  dsimp only at hpub
  injection hpub with hpub
  have eg : out.groups = groups := by rw [← hpub]
  have ea : out.attrs = drain c' := by rw [← hpub]
  obtain ⟨z1, z2, z3⟩ := all2_zip hall
  have ownOk : ∀ p ∈ run.cs.zip run.rs, ∀ o : RGroup Body, o.id = (writeBack p.1 p.2).id → o.rest = .own (writeBack p.1 p.2) →
      (o.attrs.map (fun r => (drain c')[r]?)).Perm (p.2.attrs.map (attrOf run.im.1.cat)) → PublishesOwn e run.cs out o p.1 := by
    intro p hp o h1 h2 h3
    obtain ⟨_, _, hpend, xs, hx, hres⟩ := z1 p hp
    obtain ⟨lin, hlin⟩ := writeBack_done p.1 p.2 hpend
    refine ⟨h1, ⟨lin, by rw [h2, hlin]⟩, xs, ?_, hres⟩
    exact reads_of (cat := run.im.1.cat) (by rw [ea]; exact h3) hx
  have impOk : ∀ p ∈ run.im.2, ∀ o : RGroup Body, o.id = p.1.group.id → o.rest = .imported (bodyOfImport p.1) →
      (o.attrs.map (fun r => (drain c')[r]?)).Perm (p.2.map (attrOf run.im.1.cat)) → PublishesImport e out o p.1 := by
    intro p hp o h1 h2 h3
    obtain ⟨xs, hx, hres⟩ := himp p hp
    exact ⟨h1, h2, xs, reads_of (cat := run.im.1.cat) (by rw [ea]; exact h3) hx, hres⟩
  refine ⟨run.cs, run.im.2.map Prod.fst, (extends_success_iff hn hs run.cs).1 run.extends_, hia, ?_, ?_, ?_, ?_, ?_⟩
  · intro c hc hv
    obtain ⟨r, hr⟩ := z2 c hc
    obtain ⟨o, ho, h1, h2, h3⟩ := hfw (toPublish (.own (writeBack c r)) r.attrs)
      (List.mem_append.2 (.inl (List.mem_map.2 ⟨(c, r), hr, rfl⟩)))
      (decide_eq_false hv)
    exact ⟨o, by rw [eg]; exact ho, ownOk (c, r) hr o h1 h2 h3⟩
  · intro i hi
    obtain ⟨p, hp, rfl⟩ := List.mem_map.1 hi
    obtain ⟨o, ho, h1, h2, h3⟩ := hfw (toPublish (.imported (bodyOfImport p.1)) p.2)
      (List.mem_append.2 (.inr (List.mem_map.2 ⟨p, hp, rfl⟩))) rfl
    exact ⟨o, by rw [eg]; exact ho, impOk p hp o h1 h2 h3⟩
  · intro o ho
    rw [eg] at ho
    obtain ⟨g, hg, hint, h1, h2, h3⟩ := hbw o ho
    rcases List.mem_append.1 hg with hg | hg
    · obtain ⟨p, hp, rfl⟩ := List.mem_map.1 hg
      exact .inl ⟨p.1, (z1 p hp).1, of_decide_eq_false hint, ownOk p hp o h1 h2 h3⟩
    · obtain ⟨p, hp, rfl⟩ := List.mem_map.1 hg
      exact .inr ⟨p.1, List.mem_map.2 ⟨p, hp, rfl⟩, impOk p hp o h1 h2 h3⟩
  · rw [eg]
    have := hids.map Prod.fst
    simp only [List.map_map, Function.comp_def] at this
    refine this.trans ?_
    unfold Run.before
    rw [List.filter_append, List.map_append]
    refine List.Perm.append ?_ ?_
    · rw [List.filter_map, List.map_map]
      have hf : (run.cs.filter (fun c => !decide (c.visibility = some .internalVis))).map UGroup.id =
          ((run.cs.zip run.rs).filter (fun p => !decide (p.1.visibility = some .internalVis))).map (fun p => p.1.id) := by
        conv => lhs; rw [← z3]
        rw [List.filter_map, List.map_map]
        rfl
      rw [hf]
      exact .refl _
    · rw [List.filter_eq_self.2 (by intro g hg; obtain ⟨p, _, rfl⟩ := List.mem_map.1 hg; rfl), List.map_map, List.map_map]
      exact .refl _
  · rw [eg]; exact hsort

/-- C03/C134: the published attributes are exactly those that a group of the files (internal ones included) or an imported
group has, each once, in the order of attributes; and every published reference is an index into them. -/
theorem resolved_attributes (le : Attr → Attr → Bool) (e : Env) (inc : Bool) (specs : List UGroup)
    (blocks : List Imports.Block) (out : Output) (hle : TotalPre le) (h : resolveRegistry le e inc specs blocks = .ok out) :
    ∃ cs is, resolveExtends e.groups (prepared specs) = .ok cs ∧
      Imports.importAll e.impWorld (blocksOf inc blocks) (e.deps.map Dep.imp) = .ok is ∧
      (∀ a ∈ out.attrs, (∃ c ∈ cs, ∃ xs, Resolved e.refWorld (cs.map toRef) (toRef c) c.attrs xs ∧ a ∈ xs) ∨
        (∃ i ∈ is, ∃ p ∈ i.group.attrs, ImportsAttr e p a)) ∧
      (∀ c ∈ cs, ∃ xs, Resolved e.refWorld (cs.map toRef) (toRef c) c.attrs xs ∧ ∀ a ∈ xs, a ∈ out.attrs) ∧
      (∀ i ∈ is, ∃ xs, All2 (ImportsAttr e) i.group.attrs xs ∧ ∀ a ∈ xs, a ∈ out.attrs) ∧
      out.attrs.Nodup ∧ Sorted le out.attrs ∧ ∀ o ∈ out.groups, ∀ r ∈ o.attrs, r < out.attrs.length := by
  obtain ⟨run⟩ := resolve_run h
  obtain ⟨hcat, hall, himp, hia⟩ := before_spec run
  have hval := before_valid run
  have hpub := run.published
  change publish le run.im.1.cat run.before run.origins _ _ = .ok out at hpub
  obtain ⟨c', groups, hcl, hmem, hnd, hso, hb, _, _⟩ := cleanup_catalog_exact le hle run.im.1.cat run.before hcat hval
  unfold publish at hpub
  rw [hcl] at hpub
  dsimp only at hpub
  injection hpub with hpub
  have eg : out.groups = groups := by rw [← hpub]
  have ea : out.attrs = drain c' := by rw [← hpub]
  obtain ⟨z1, z2, _⟩ := all2_zip hall
  have inDenote : ∀ {refs : List Nat} {xs : List Attr}, denote run.im.1.cat refs = xs.map some → ∀ a,
      a ∈ xs ↔ ∃ r ∈ refs, attrOf run.im.1.cat r = some a := by
    intro refs xs hx a
    have : some a ∈ xs.map some ↔ a ∈ xs := by simp
    rw [← this, ← hx]
    unfold denote
    rw [List.mem_map]
  refine ⟨run.cs, run.im.2.map Prod.fst, run.extends_, hia, ?_, ?_, ?_, by rw [ea]; exact hnd, by rw [ea]; exact hso,
    by rw [ea, eg]; exact hb⟩
  · intro a ha
    rw [ea, hmem] at ha
    obtain ⟨g, hg, r, hr, hra⟩ := ha
    rcases List.mem_append.1 hg with hg | hg
    · obtain ⟨p, hp, rfl⟩ := List.mem_map.1 hg
      obtain ⟨hc, _, _, xs, hx, hres⟩ := z1 p hp
      exact .inl ⟨p.1, hc, xs, hres, (inDenote hx a).2 ⟨r, hr, hra⟩⟩
    · obtain ⟨p, hp, rfl⟩ := List.mem_map.1 hg
      obtain ⟨xs, hx, hres⟩ := himp p hp
      obtain ⟨q, hq, hqa⟩ := hres.right ((inDenote hx a).2 ⟨r, hr, hra⟩)
      exact .inr ⟨p.1, List.mem_map.2 ⟨p, hp, rfl⟩, q, hq, hqa⟩
  · intro c hc
    obtain ⟨r, hr⟩ := z2 c hc
    obtain ⟨_, _, _, xs, hx, hres⟩ := z1 _ hr
    refine ⟨xs, hres, fun a ha => ?_⟩
    obtain ⟨i, hi, hia⟩ := (inDenote hx a).1 ha
    rw [ea, hmem]
    exact ⟨_, List.mem_append.2 (.inl (List.mem_map.2 ⟨(c, r), hr, rfl⟩)), i, hi, hia⟩
  · intro i hi
    obtain ⟨p, hp, rfl⟩ := List.mem_map.1 hi
    obtain ⟨xs, hx, hres⟩ := himp p hp
    refine ⟨xs, hres, fun a ha => ?_⟩
    obtain ⟨r, hr, hra⟩ := (inDenote hx a).1 ha
    rw [ea, hmem]
    exact ⟨_, List.mem_append.2 (.inr (List.mem_map.2 ⟨p, hp, rfl⟩)), r, hr, hra⟩

/-- C134: what resolution reports besides failing: the deprecated option, the import patterns that named nothing, and the
clashes among the published groups; in particular, two published groups with one id are reported. -/
theorem resolved_warnings (le : Attr → Attr → Bool) (e : Env) (inc : Bool) (specs : List UGroup)
    (blocks : List Imports.Block) (out : Output) (h : resolveRegistry le e inc specs blocks = .ok out) :
    ∃ is, Imports.importAll e.impWorld (blocksOf inc blocks) (e.deps.map Dep.imp) = .ok is ∧
    (Warn.deprecatedIncludeUnreferenced ∈ out.warnings ↔ inc = true) ∧
    (∀ w, Warn.unmatched w ∈ out.warnings ↔ w ∈ Imports.unmatchedErrors e.impWorld (blocksOf inc blocks) (is.map Imports.Imported.group)) ∧
    (∀ w, Warn.check w ∈ out.warnings ↔
      w ∈ Checks.allChecks (out.groups.map (fun g => g.rest.asCheck g.attrs)) (out.attrs.map Attr.name)) := by
  obtain ⟨run⟩ := resolve_run h
  obtain ⟨_, _, _, hia⟩ := before_spec run
  have hpub := run.published
  unfold publish at hpub
  split at hpub
  · simp at hpub
  · injection hpub with hpub
    refine ⟨_, hia, ?_, ?_, ?_⟩
    · rw [← congrArg Output.warnings hpub]; cases inc <;> simp
    · intro w; rw [← congrArg Output.warnings hpub]; cases inc <;> simp [Function.comp_def]
    · intro w
      rw [← congrArg Output.warnings hpub, ← congrArg Output.groups hpub, ← congrArg Output.attrs hpub]
      cases inc <;> simp

theorem nodup_key {α β : Type} {f : α → β} {l : List α} (h : (l.map f).Nodup) {a b : α} (ha : a ∈ l) (hb : b ∈ l)
    (he : f a = f b) : a = b := by
  induction l with
  | nil => cases ha
  | cons x l ih =>
    simp only [List.map_cons, List.nodup_cons, List.mem_map] at h
    rcases List.mem_cons.1 ha with rfl | ha <;> rcases List.mem_cons.1 hb with rfl | hb
    · rfl
    · exact absurd ⟨b, hb, he.symm⟩ h.1
    · exact absurd ⟨_, ‹_›, he⟩ h.1
    · exact ih h.2 ha hb

theorem asImport_writeBack (c : UGroup) (r : RGrp) : (Body.own (writeBack c r)).asImport = (Body.own c).asImport := by
  have h : refinesOwnType (writeBack c r) = refinesOwnType c := by
    unfold refinesOwnType writeBack
    cases hl : c.lineage with
    | none => rfl
    | some l => cases r.lineage <;> rfl
  unfold Body.asImport
  dsimp only
  rw [h]
  rfl

theorem aget_brought (is : List Imports.Imported) (m : List (String × Imports.Origins)) (gid : String)
    (hn : (is.map (fun i => i.group.id)).Nodup) :
    aget gid (is.foldl bringOrigins m) =
      ((is.find? (fun i => decide (i.group.id = gid ∧ i.origins ≠ []))).map Imports.Imported.origins).or (aget gid m) := by
  induction is generalizing m with
  | nil => simp
  | cons i is ih =>
    simp only [List.map_cons, List.nodup_cons] at hn
    rw [List.foldl_cons, ih _ hn.2]
    unfold bringOrigins
    by_cases ho : i.origins = []
    · rw [if_neg (by simp [ho]), List.find?_cons_of_neg (by simp [ho])]
    · rw [if_pos ho, aget_aset]
      by_cases hg : i.group.id = gid
      · subst hg
        rw [if_pos rfl, List.find?_cons_of_pos (by simp [ho])]
        have : is.find? (fun j => decide (j.group.id = i.group.id ∧ j.origins ≠ [])) = none := by
          rw [List.find?_eq_none]
          intro j hj
          simp only [decide_eq_true_eq, not_and]
          intro hji
          exact absurd (List.mem_map.2 ⟨j, hj, hji⟩) hn.1
        rw [this]; rfl
      · rw [if_neg (Ne.symm hg), List.find?_cons_of_neg (by simp [hg])]

/-- C09/C134: where the entity associations of the published registry lead. An association that an imported group brought
along means what it meant there; any other association of a group means the one registry among the dependencies that
offers the entity, unless the registry itself (its files and what it imports) has an entity of that name. -/
theorem resolved_associations (le : Attr → Attr → Bool) (e : Env) (inc : Bool) (specs : List UGroup)
    (blocks : List Imports.Block) (out : Output) (h : resolveRegistry le e inc specs blocks = .ok out) :
    ∃ cs is, resolveExtends e.groups (prepared specs) = .ok cs ∧
      Imports.importAll e.impWorld (blocksOf inc blocks) (e.deps.map Dep.imp) = .ok is ∧
      ((is.map (fun i => i.group.id)).Nodup → ∀ gid n u, Imports.originAt out.origins gid n = some u ↔
        (∃ i ∈ is, i.group.id = gid ∧ aget n i.origins = some u) ∨
        ((∀ i ∈ is, i.group.id = gid → aget n i.origins = none) ∧
          ((∃ c ∈ cs, c.id = gid ∧ n ∈ c.assocs) ∨ ∃ i ∈ is, i.group.id = gid ∧ n ∈ i.group.assocs) ∧
          ¬ (∃ g, ((∃ c ∈ cs, g = (Body.own c).asImport) ∨ ∃ i ∈ is, g = bodyOfImport i) ∧ g.type = .entity ∧
            Imports.entityName g = n) ∧
          ∀ v, Imports.Offers (e.deps.map Dep.imp) n v ↔ v = u)) := by
  obtain ⟨run⟩ := resolve_run h
  obtain ⟨_, hall, _, hia⟩ := before_spec run
  obtain ⟨y1, y2, _⟩ := all2_zip hall
  refine ⟨run.cs, _, run.extends_, hia, ?_⟩
  intro hn gid n u
  have ho : out.origins = run.origins := by
    have hp := run.published
    unfold publish at hp
    split at hp
    · simp at hp
    · injection hp with hp
      rw [← congrArg Output.origins hp]
  have hgrp : ∀ g, g ∈ ((run.cs.zip run.rs).map (fun p => toPublish (.own (writeBack p.1 p.2)) p.2.attrs) ++
        run.im.2.map (fun i => toPublish (.imported (bodyOfImport i.1)) i.2)).map (fun g => g.rest.asImport) ↔
        (∃ c ∈ run.cs, g = (Body.own c).asImport) ∨ ∃ i ∈ run.im.2.map Prod.fst, g = bodyOfImport i := by
    intro g
    simp only [List.map_append, List.map_map, List.mem_append, List.mem_map, Function.comp_def, toPublish]
    constructor
    · rintro (⟨p, hp, rfl⟩ | ⟨p, hp, rfl⟩)
      · exact .inl ⟨p.1, (y1 p hp).1, asImport_writeBack p.1 p.2⟩
      · exact .inr ⟨p.1, ⟨p, hp, rfl⟩, rfl⟩
    · rintro (⟨c, hc, rfl⟩ | ⟨i, ⟨p, hp, rfl⟩, rfl⟩)
      · obtain ⟨b, hb⟩ := y2 c hc
        exact .inl ⟨(c, b), hb, asImport_writeBack c b⟩
      · exact .inr ⟨p, hp, rfl⟩
  have hbr : ∀ v, Imports.originAt ((run.im.2.map Prod.fst).foldl bringOrigins []) gid n = some v ↔
      ∃ i ∈ run.im.2.map Prod.fst, i.group.id = gid ∧ aget n i.origins = some v := by
    intro v
    unfold Imports.originAt
    rw [aget_brought _ _ _ hn]
    cases hf : (run.im.2.map Prod.fst).find? (fun i => decide (i.group.id = gid ∧ i.origins ≠ [])) with
    | none =>
      rw [List.find?_eq_none] at hf
      simp only [Option.map_none, Option.none_or]
      constructor
      · intro h; simp [aget] at h
      · rintro ⟨i, hi, hid, hv⟩
        have := hf i hi
        simp only [hid, true_and, decide_eq_true_eq, ne_eq, Decidable.not_not] at this
        rw [this] at hv
        simp [aget] at hv
    | some j =>
      have hj := List.find?_some hf
      have hjm := List.mem_of_find?_eq_some hf
      simp only [decide_eq_true_eq] at hj
      simp only [Option.map_some, Option.some_or, Option.bind_some]
      constructor
      · intro hv; exact ⟨j, hjm, hj.1, hv⟩
      · rintro ⟨i, hi, hid, hv⟩
        have : i = j := nodup_key hn hi hjm (by rw [hid, hj.1])
        rw [← this]; exact hv
  have hnone : Imports.originAt ((run.im.2.map Prod.fst).foldl bringOrigins []) gid n = none ↔
      ∀ i ∈ run.im.2.map Prod.fst, i.group.id = gid → aget n i.origins = none := by
    constructor
    · intro hx i hi hid
      cases hv : aget n i.origins with
      | none => rfl
      | some v => rw [(hbr v).2 ⟨i, hi, hid, hv⟩] at hx; cases hx
    · intro hx
      cases hv : Imports.originAt ((run.im.2.map Prod.fst).foldl bringOrigins []) gid n with
      | none => rfl
      | some v =>
        obtain ⟨i, hi, hid, hiv⟩ := (hbr v).1 hv
        rw [hx i hi hid] at hiv; cases hiv
  rw [ho, Imports.associations_recorded _ _ run.assocs gid n u]
  dsimp only
  rw [hbr, hnone]
  refine or_congr_right (and_congr_right fun _ => and_congr ?_ (and_congr_left fun _ => not_congr ?_))
  · constructor
    · rintro ⟨g, hg, hid, hn⟩
      rcases (hgrp g).1 hg with ⟨c, hc, rfl⟩ | ⟨i, hi, rfl⟩
      · exact .inl ⟨c, hc, hid, hn⟩
      · exact .inr ⟨i, hi, hid, hn⟩
    · rintro (⟨c, hc, hid, hn⟩ | ⟨i, hi, hid, hn⟩)
      · exact ⟨_, (hgrp _).2 (.inl ⟨c, hc, rfl⟩), hid, hn⟩
      · exact ⟨_, (hgrp _).2 (.inr ⟨i, hi, rfl⟩), hid, hn⟩
  · unfold Imports.LocalEntity
    dsimp only
    constructor
    · rintro ⟨g, hg, ht, hn⟩; exact ⟨g, (hgrp g).1 hg, ht, hn⟩
    · rintro ⟨g, hg, ht, hn⟩; exact ⟨g, (hgrp g).2 hg, ht, hn⟩

/-! ### A registry that resolves -/

/-- An order of attributes: by name, then by note. -/
def exLe (a b : Attr) : Bool := decide (a.name < b.name ∨ (a.name = b.name ∧ a.note ≤ b.note))

theorem exLe_totalPre : TotalPre exLe where
  total := by
    intro a b
    unfold exLe
    simp only [decide_eq_true_eq]
    by_cases h1 : a.name < b.name
    · exact .inl (.inl h1)
    · by_cases h2 : b.name < a.name
      · exact .inr (.inl h2)
      · have : a.name = b.name := String.le_antisymm (String.not_lt.1 h2) (String.not_lt.1 h1)
        rcases String.le_total a.note b.note with h | h
        · exact .inl (.inr ⟨this, h⟩)
        · exact .inr (.inr ⟨this.symm, h⟩)
  trans := by
    intro a b c h1 h2
    unfold exLe at *
    simp only [decide_eq_true_eq] at *
    rcases h1 with h1 | ⟨h1, h1'⟩ <;> rcases h2 with h2 | ⟨h2, h2'⟩
    · exact .inl (String.lt_trans h1 h2)
    · exact .inl (h2 ▸ h1)
    · exact .inl (h1 ▸ h2)
    · exact .inr ⟨h1.trans h2, String.le_trans h1' h2'⟩

def exDepUrl : SchemaUrl := { name := "dep", tail := "1.0.0", sv := some ⟨1, 0, 0, 0⟩ }

def exDep : Dep where
  group := fun _ => none
  attr := fun _ => .ok none
  imp := .v1
    { url := some exDepUrl
      groups := [
        { id := "metric.d", type := .metric, metricName := some "d", attrs := [({ name := "d.x", type := "int" }, exDepUrl)] },
        { id := "entity.host", type := .entity, name := some "host" }] }

def exEnv : Env := { glob := fun p k => decide (p = "*" ∨ p = k), deps := [exDep] }

/-- A registry with a prefix, inheritance from an internal group, a reference, and an association with an entity of the
dependency. -/
def exSpecs : List UGroup :=
  [{ id := "registry.http", pfx := "http", attrs := [⟨.id "method" { type := "string", brief := some "the method" }, none⟩] },
   { id := "metric.req", type := .metric, metricName := some "req", ext := some "shared"
     attrs := [⟨.ref "http.method" { note := some "used" }, none⟩], assocs := ["host"] },
   { id := "shared", visibility := some .internalVis, attrs := [⟨.id "zone" { type := "string" }, none⟩] }]

def exBlocks : List Imports.Block := [{ path := "b", metrics := ["d"] }]

/-- What is published: groups with references, attributes, association origins, and the number of warnings. -/
def Output.view (o : Output) : List (String × List Nat) × List (String × String × String) × List String × Nat :=
  (o.groups.map (fun g => (g.id, g.attrs)), o.attrs.map (fun a => (a.name, a.brief, a.note)), o.origins.map Prod.fst,
    o.warnings.length)

example : ((prepared exSpecs).map UGroup.id).Nodup ∧ NoShadow (prepared exSpecs) exEnv.groups ∧ TotalPre exLe ∧
    (resolveRegistry exLe exEnv false exSpecs exBlocks).toOption.map Output.view =
      some ([("metric.d", [0]), ("metric.req", [2, 3]), ("registry.http", [1])],
        [("d.x", "", ""), ("http.method", "the method", ""), ("http.method", "the method", "used"), ("zone", "", "")],
        ["metric.req"], 0) := by
  refine ⟨by decide +kernel, by unfold NoShadow; decide +kernel, exLe_totalPre, by rfl⟩

end Verif.Pipeline
