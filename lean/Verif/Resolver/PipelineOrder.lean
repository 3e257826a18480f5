import Verif.Resolver.PipelineProps
import Verif.Imports.EntityProps
import Verif.JsonDiff.Props
/-
The order of the files: two runs of registry resolution over the same groups and import blocks, in whatever order, publish
the same (C04).
-/
namespace Verif.Pipeline
open Verif.Util Verif.Resolver

/-! ### Specification -/

/-- A published group without the lineage of its attributes. -/
def Body.plain : Body → Body
  | .own g => .own { g with attrs := [], lineage := g.lineage.map (fun l => { l with attrs := [] }) }
  | .imported g => .imported g

/-- A published group without the lineage of its attributes. -/
def plain (g : RGroup Body) : RGroup Body := { g with rest := g.rest.plain }

/-! ### Lists -/

theorem perm_lift {α β : Type} (f : α → β) {l : List α} {m : List β} (h : (l.map f).Perm m) :
    ∃ l', l.Perm l' ∧ l'.map f = m := by
  generalize hx : l.map f = x at h
  induction h generalizing l with
  | nil => exact ⟨[], by rw [List.map_eq_nil_iff.1 hx], rfl⟩
  | @cons a x y _ ih =>
    obtain ⟨b, l1, rfl, rfl, h1⟩ := List.map_eq_cons_iff.1 hx
    obtain ⟨l', h2, h3⟩ := ih h1
    exact ⟨b :: l', h2.cons b, by simp [h3]⟩
  | swap a b x =>
    obtain ⟨b1, l1, rfl, rfl, h1⟩ := List.map_eq_cons_iff.1 hx
    obtain ⟨b2, l2, rfl, rfl, rfl⟩ := List.map_eq_cons_iff.1 h1
    exact ⟨b2 :: b1 :: l2, .swap .., rfl⟩
  | trans _ _ ih1 ih2 =>
    obtain ⟨l1, p1, e1⟩ := ih1 hx
    obtain ⟨l2, p2, e2⟩ := ih2 e1
    exact ⟨l2, p1.trans p2, e2⟩

theorem all2_get {α β : Type} {R : α → β → Prop} {as : List α} {bs : List β} (h : All2 R as bs) :
    as.length = bs.length ∧ ∀ i (hi : i < as.length) (hi' : i < bs.length), R as[i] bs[i] := by
  induction h with
  | nil => exact ⟨rfl, by intro i hi; simp at hi⟩
  | cons h1 _ ih =>
    refine ⟨by simp [ih.1], ?_⟩
    intro i hi hi'
    cases i with
    | zero => exact h1
    | succ i => exact ih.2 i (by simpa using hi) (by simpa using hi')

theorem all2_append {α β : Type} {R : α → β → Prop} {as as' : List α} {bs bs' : List β} (h : All2 R as bs)
    (h' : All2 R as' bs') : All2 R (as ++ as') (bs ++ bs') := by
  induction h with
  | nil => exact h'
  | cons h1 _ ih => exact .cons h1 ih

/-- Two lists with the same keys, pair by pair. -/
theorem all2_same_key {α β γ : Type} (f : α → γ) (g : β → γ) {R : α → β → Prop} {as : List α} {bs : List β}
    (h : as.map f = bs.map g) (hR : ∀ a ∈ as, ∀ b ∈ bs, f a = g b → R a b) : All2 R as bs := by
  induction as generalizing bs with
  | nil =>
    have : bs = [] := by simpa using h.symm
    subst this; exact .nil
  | cons a as ih =>
    cases bs with
    | nil => simp at h
    | cons b bs =>
      simp only [List.map_cons, List.cons.injEq] at h
      exact .cons (hR a (by simp) b (by simp) h.1)
        (ih h.2 (fun x hx y hy => hR x (by simp [hx]) y (by simp [hy])))

theorem all2_map_both {α β γ δ : Type} {R : γ → δ → Prop} {f : α → γ} {g : β → δ} {as : List α} {bs : List β}
    (h : All2 (fun a b => R (f a) (g b)) as bs) : All2 R (as.map f) (bs.map g) := by
  induction h with
  | nil => exact .nil
  | cons h1 _ ih => exact .cons h1 ih

/-! ### The order of import blocks -/

theorem fieldMatch_perm (w : Imports.World) {bs bs' : List Imports.Block} (h : bs.Perm bs') (f : Imports.Field) (k : String) :
    Imports.fieldMatch w bs f k = Imports.fieldMatch w bs' f k := by
  unfold Imports.fieldMatch Imports.patternsOf
  rw [Bool.eq_iff_iff]
  simp only [List.any_eq_true, List.mem_flatMap, h.mem_iff]

theorem blocksMatch_perm (w : Imports.World) {bs bs' : List Imports.Block} (h : bs.Perm bs') (g : Imports.Grp) :
    Imports.blocksMatch w bs g = Imports.blocksMatch w bs' g := by
  unfold Imports.blocksMatch
  cases Imports.Field.of g.type with
  | none => rfl
  | some f =>
    dsimp only
    rw [show Imports.fieldMatch w bs f = Imports.fieldMatch w bs' f from funext (fieldMatch_perm w h f)]

/-- C08/C04: what is imported from a dependency does not depend on the order of the import blocks. -/
theorem importDep_perm (w : Imports.World) {bs bs' : List Imports.Block} (h : bs.Perm bs') (d : Imports.Dep) :
    Imports.importDep w bs d = Imports.importDep w bs' d := by
  have he : (Imports.explicitBlocks bs).Perm (Imports.explicitBlocks bs') := h.filter _
  cases d with
  | v1 s =>
    have h1 : Imports.blocksMatch w bs = Imports.blocksMatch w bs' := funext (blocksMatch_perm w h)
    have h2 : Imports.decideV1 w bs = Imports.decideV1 w bs' := by
      funext g; unfold Imports.decideV1; rw [blocksMatch_perm w he]
    show Imports.importV1 w bs s = Imports.importV1 w bs' s
    unfold Imports.importV1
    rw [h1, h2]
  | v2 s =>
    have h2 : Imports.decideV2 w bs = Imports.decideV2 w bs' := by
      funext f t x; unfold Imports.decideV2; rw [fieldMatch_perm w h, fieldMatch_perm w he]
    show Imports.importV2 w bs s = Imports.importV2 w bs' s
    unfold Imports.importV2
    rw [h2]

theorem importAll_perm (w : Imports.World) {bs bs' : List Imports.Block} (h : bs.Perm bs') (ds : List Imports.Dep) :
    Imports.importAll w bs ds = Imports.importAll w bs' ds := by
  unfold Imports.importAll
  suffices ∀ acc, Imports.importAll.go w bs acc ds = Imports.importAll.go w bs' acc ds from this []
  induction ds with
  | nil => intro acc; rfl
  | cons d ds ih =>
    intro acc
    unfold Imports.importAll.go
    rw [importDep_perm w h]
    cases Imports.importDep w bs' d with
    | error e => rfl
    | ok cs => exact ih _

theorem importsAttr_unique {e : Env} {ps : List (Attr × SchemaUrl)} {xs ys : List Attr} (h1 : All2 (ImportsAttr e) ps xs)
    (h2 : All2 (ImportsAttr e) ps ys) : xs = ys := by
  induction h1 generalizing ys with
  | nil => cases h2; rfl
  | cons ha _ ih =>
    cases h2 with
    | cons hb h2 =>
      obtain ⟨n, hn, rfl⟩ := ha
      obtain ⟨m, hm, rfl⟩ := hb
      rw [hn] at hm
      injection hm with hm
      rw [hm, ih h2]

/-! ### The clean-up does not look at the rest of a group -/

theorem cleanup_rest {α β γ : Type} (f : β → γ) (le : α → α → Bool) (c : Cat α) (gs : List (RGroup β)) :
    cleanup le c (gs.map (fun g => RGroup.mk g.id g.attrs g.internal (f g.rest))) =
      (cleanup le c gs).map (fun r => (r.1, r.2.map (fun g => RGroup.mk g.id g.attrs g.internal (f g.rest)))) := by
  unfold cleanup
  rw [List.flatMap_map, Option.map_map]
  congr 1
  funext r
  simp only [Function.comp_def, List.map_map]
  congr 1
  have H := JsonDiff.sortBy_map (fun g h : RGroup β => decide (g.id ≤ h.id)) (fun g h : RGroup γ => decide (g.id ≤ h.id))
    (fun g : RGroup β => RGroup.mk g.id g.attrs g.internal (f g.rest)) (fun _ _ => rfl)
    (gs.map (fun g => { g with attrs := g.attrs.map (fun a => (r.1.lookup a).getD a) }))
  rw [List.map_map] at H
  simp only [Function.comp_def] at H
  rw [H, List.filter_map, List.map_map]
  rfl

/-! ### C04 -/

theorem plain_map (gs : List (RGroup Body)) :
    gs.map plain = gs.map (fun g => RGroup.mk g.id g.attrs g.internal g.rest.plain) := rfl

theorem plain_writeBack (c : UGroup) (r r' : RGrp) : (Body.own (writeBack c r)).plain = (Body.own (writeBack c r')).plain := by
  unfold Body.plain writeBack
  cases c.lineage with
  | none => rfl
  | some l => cases r.lineage <;> cases r'.lineage <;> rfl

/-- Importing does not change what the references of the groups of the files stand for. -/
theorem denote_stays {le : Attr → Attr → Bool} {e : Env} {bs : List Imports.Block} {ws : List Warn} {specs : List UGroup}
    {out : Output} (h : Run le e bs ws specs out) : ∀ r ∈ h.rs, denote h.im.1.cat r.attrs = denote h.st.cat r.attrs := by
  obtain ⟨c1, a1⟩ := ref_resolves e.refWorld (h.cs.map toRef) h.rs h.st
    (by intro g hg; obtain ⟨c, _, rfl⟩ := List.mem_map.1 hg; rfl) h.refs
  obtain ⟨_, x2, _, _⟩ := importLoop_spec c1 (by simp) h.imports
  intro r hr
  obtain ⟨g, _, _, _, xs, hx, _⟩ := a1.right hr
  rw [hx, denote_ext x2 _ _ hx]

theorem zip_snd {α β : Type} {R : α → β → Prop} {as : List α} {bs : List β} (h : All2 R as bs) :
    (as.zip bs).map Prod.snd = bs := by
  induction h with
  | nil => rfl
  | cons _ _ ih => simp [ih]

/-- The facts about a published registry that the order theorem compares. -/
theorem published_facts {le : Attr → Attr → Bool} {e : Env} {bs : List Imports.Block} {ws : List Warn} {specs : List UGroup}
    {out : Output} (h : Run le e bs ws specs out) :
    (cleanup le h.im.1.cat h.before).map (fun r => (drain r.1, r.2)) = some (out.attrs, out.groups) ∧ out.origins = h.origins := by
  have hp := h.published
  unfold publish at hp
  split at hp
  · simp at hp
  · rename_i r hr
    injection hp with hp
    have : cleanup le h.im.1.cat h.before = some r := hr
    rw [this, ← congrArg Output.attrs hp, ← congrArg Output.groups hp, ← congrArg Output.origins hp]
    exact ⟨rfl, rfl⟩

/-- C04 (partial: see the hypotheses; that both orders succeed is assumed, and the lineage of attributes and the warnings
are not compared). Two runs over the same groups and the same import blocks, in whatever order the files were loaded,
publish the same attributes, the same groups and the same origins of entity associations, when group ids are unique and
not shadowed, all local definitions of an attribute agree, no reference has the `prefix` flag, no attribute definition is
inherited from a dependency, and the order of attributes is antisymmetric on the published ones. -/
theorem resolve_order_partial (le : Attr → Attr → Bool) (hle : TotalPre le) (e : Env) (inc : Bool)
    (specs specs' : List UGroup) (blocks blocks' : List Imports.Block) (hspecs : specs.Perm specs') (hblocks : blocks.Perm blocks')
    (hn : ((prepared specs).map UGroup.id).Nodup) (hs : NoShadow (prepared specs) e.groups)
    (hrefs : ∀ cs, resolveExtends e.groups (prepared specs) = .ok cs →
      NoPrefix (cs.map toRef) ∧ NoInherited (cs.map toRef) ∧ Uniform (cs.map toRef))
    (hfresh : ∀ is, Imports.importAll e.impWorld (blocksOf inc blocks) (e.deps.map Dep.imp) = .ok is →
      ((prepared specs).map UGroup.id ++ is.map (fun i => i.group.id)).Nodup)
    (out out' : Output) (h : resolveRegistry le e inc specs blocks = .ok out)
    (h' : resolveRegistry le e inc specs' blocks' = .ok out')
    (anti : ∀ a ∈ out.attrs, ∀ b ∈ out.attrs, le a b = true → le b a = true → a = b) :
    out.attrs = out'.attrs ∧ out.groups.map plain = out'.groups.map plain ∧
      ∀ gid n, Imports.originAt out.origins gid n = Imports.originAt out'.origins gid n := by
  obtain ⟨r1⟩ := resolve_run h
  obtain ⟨r2⟩ := resolve_run h'
  have hbs : (blocksOf inc blocks).Perm (blocksOf inc blocks') := by
    unfold blocksOf
    split
    · exact hblocks.append_right _
    · exact hblocks
  have hpp : (prepared specs).Perm (prepared specs') := hspecs.map _
  -- inheritance
  have hcs : r1.cs.Perm r2.cs := by
    obtain ⟨o, h1, h2⟩ := (extends_order_partial _ _ e.groups hpp hn hs).1 r1.cs r1.extends_
    rw [r2.extends_] at h1
    injection h1 with h1
    rw [h1]; exact h2
  have hids : r1.cs.map UGroup.id = (prepared specs).map UGroup.id := by
    have H : ∀ gs qs cs, All2 (fun g c => Resolves gs e.groups g c []) qs cs → cs.map UGroup.id = qs.map UGroup.id := by
      intro gs qs cs hq
      induction hq with
      | nil => rfl
      | cons h1 _ ih => simp only [List.map_cons, ih, (resolves_shape h1).2.2]
    exact H _ _ _ ((extends_success_iff hn hs r1.cs).1 r1.extends_)
  have hn1 : (r1.cs.map UGroup.id).Nodup := by rw [hids]; exact hn
  -- attributes
  obtain ⟨hp, hi, hu⟩ := hrefs _ r1.extends_
  obtain ⟨st2, out2, hr2, hsame⟩ := refs_order_partial e.refWorld (r1.cs.map toRef) (r2.cs.map toRef) (hcs.map _) hp
    (by intro g hg; obtain ⟨c, _, rfl⟩ := List.mem_map.1 hg; rfl) hi hu _ _ r1.refs
  rw [r2.refs] at hr2
  injection hr2 with hst hrs
  subst hst; subst hrs
  obtain ⟨hc1, ha1, hm1, hi1⟩ := before_spec r1
  obtain ⟨hc2, ha2, hm2, hi2⟩ := before_spec r2
  have hrid : ∀ {cs : List UGroup} {rs : List RGrp} {Q : UGroup → RGrp → Prop}, All2 (fun c r => r.id = c.id ∧ Q c r) cs rs →
      rs.map RGrp.id = cs.map UGroup.id := by
    intro cs rs Q hq
    induction hq with
    | nil => rfl
    | cons h1 _ ih => simp only [List.map_cons, ih, h1.1]
  have hn2 : (r2.rs.map RGrp.id).Nodup := by
    rw [hrid ha2]; exact (hcs.map UGroup.id).nodup_iff.1 hn1
  obtain ⟨z1, _, z1f⟩ := all2_zip ha1
  obtain ⟨z2, _, z2f⟩ := all2_zip ha2
  have hden : ∀ p ∈ r1.cs.zip r1.rs, ∀ q ∈ r2.cs.zip r2.rs, p.1 = q.1 →
      denote r1.im.1.cat p.2.attrs = denote r2.im.1.cat q.2.attrs := by
    intro p hp q hq he
    have hp2 : p.2 ∈ r1.rs := by rw [← zip_snd ha1]; exact List.mem_map.2 ⟨p, hp, rfl⟩
    have hq2 : q.2 ∈ r2.rs := by rw [← zip_snd ha2]; exact List.mem_map.2 ⟨q, hq, rfl⟩
    have hm : (p.2.id, denote r1.st.cat p.2.attrs) ∈ r1.rs.map (fun g => (g.id, denote r1.st.cat g.attrs)) :=
      List.mem_map.2 ⟨p.2, hp2, rfl⟩
    rw [hsame.mem_iff] at hm
    obtain ⟨g, hg, hge⟩ := List.mem_map.1 hm
    injection hge with hge1 hge2
    have : g = q.2 := nodup_key hn2 hg hq2 (by rw [hge1, (z1 p hp).2.1, (z2 q hq).2.1, he])
    subst this
    rw [denote_stays r1 _ hp2, denote_stays r2 _ hq2, hge2]
  -- imports
  have him : r1.im.2.map Prod.fst = r2.im.2.map Prod.fst := by
    rw [importAll_perm _ hbs, hi2] at hi1
    injection hi1 with hi1
    exact hi1.symm
  have himp : All2 (fun p q : Imports.Imported × List Nat => p.1 = q.1 ∧
      denote r1.im.1.cat p.2 = denote r2.im.1.cat q.2) r1.im.2 r2.im.2 := by
    refine all2_same_key Prod.fst Prod.fst him ?_
    intro p hp q hq he
    obtain ⟨xs, hx, hxs⟩ := hm1 p hp
    obtain ⟨ys, hy, hys⟩ := hm2 q hq
    rw [← he] at hys
    exact ⟨he, by rw [hx, hy, importsAttr_unique hxs hys]⟩
  -- clean-up
  let mkOwn : UGroup × RGrp → RGroup Body := fun p => toPublish (.own (writeBack p.1 p.2)) p.2.attrs
  let mkImp : Imports.Imported × List Nat → RGroup Body := fun i => toPublish (.imported (bodyOfImport i.1)) i.2
  obtain ⟨z1', hz, hzf⟩ := perm_lift Prod.fst (l := r1.cs.zip r1.rs) (m := r2.cs) (by rw [z1f]; exact hcs)
  have hall : All2 (SameGroup r1.im.1.cat r2.im.1.cat) ((z1'.map mkOwn ++ r1.im.2.map mkImp).map plain) (r2.before.map plain) := by
    refine all2_map_both ?_
    refine all2_append ?_ ?_
    · refine all2_map_both ?_
      refine all2_same_key Prod.fst Prod.fst (by rw [hzf, z2f]) ?_
      intro p hp q hq he
      have hd := hden p (hz.mem_iff.2 hp) q hq he
      obtain ⟨c, r⟩ := p
      obtain ⟨c', r'⟩ := q
      dsimp only at he
      subst he
      refine ⟨rfl, rfl, plain_writeBack c r r', ?_⟩
      unfold denote at hd
      exact .of_eq hd
    · refine all2_map_both ?_
      refine himp.imp ?_
      intro p q hpq
      obtain ⟨i, r⟩ := p
      obtain ⟨j, r'⟩ := q
      obtain ⟨h1, h2⟩ := hpq
      dsimp only at h1 h2
      subst h1
      unfold denote at h2
      exact ⟨rfl, rfl, rfl, .of_eq h2⟩
  obtain ⟨hlen, hget⟩ := all2_get hall
  have hv1 := before_valid r1
  obtain ⟨f1, o1⟩ := published_facts r1
  obtain ⟨f2, o2⟩ := published_facts r2
  have hclean : ∀ (c : Cat Attr) (gs : List (RGroup Body)) (as : List Attr) (os : List (RGroup Body)),
      (cleanup le c gs).map (fun r => (drain r.1, r.2)) = some (as, os) →
      ∃ c', cleanup le c (gs.map plain) = some (c', os.map plain) ∧ drain c' = as := by
    intro c gs as os hc
    rw [plain_map, cleanup_rest]
    cases hcl : cleanup le c gs with
    | none => rw [hcl] at hc; simp at hc
    | some r =>
      rw [hcl] at hc
      simp only [Option.map_some, Option.some.injEq, Prod.mk.injEq] at hc
      obtain ⟨rfl, rfl⟩ := hc
      exact ⟨r.1, rfl, rfl⟩
  obtain ⟨d1, hd1, hda1⟩ := hclean _ _ _ _ f1
  obtain ⟨d2, hd2, hda2⟩ := hclean _ _ _ _ f2
  have hvp : ∀ g ∈ r1.before.map plain, ∀ r ∈ g.attrs, ∃ a, attrOf r1.im.1.cat r = some a := by
    intro g hg
    obtain ⟨b, hb, rfl⟩ := List.mem_map.1 hg
    exact hv1 b hb
  have hused : ∀ a, a ∈ out.attrs ↔ ∃ g ∈ r1.before.map plain, ∃ r ∈ g.attrs, attrOf r1.im.1.cat r = some a := by
    obtain ⟨c', o, hc, hm, _⟩ := cleanup_catalog_exact le hle r1.im.1.cat (r1.before.map plain) hc1 hvp
    rw [hd1] at hc
    injection hc with hc
    injection hc with hc _
    subst hc
    intro a
    rw [← hda1]; exact hm a
  have hidb : ((r1.before.map plain).map RGroup.id).Nodup := by
    have hb : (r1.before.map plain).map RGroup.id = (prepared specs).map UGroup.id ++ (r1.im.2.map Prod.fst).map (fun i => i.group.id) := by
      unfold Run.before
      simp only [List.map_append, List.map_map]
      congr 1
      rw [← hids]
      conv => rhs; rw [← z1f]
      rw [List.map_map]
      rfl
    rw [hb]
    exact hfresh _ hi1
  obtain ⟨c1', c2', o, hk1, hk2, hk3⟩ := cleanup_canonical_partial le hle r1.im.1.cat r2.im.1.cat (r1.before.map plain)
    ((z1'.map mkOwn ++ r1.im.2.map mkImp).map plain) (r2.before.map plain) hc1 hc2
    (List.Perm.map _ (List.Perm.append_right _ (hz.map _))) hlen hget hvp hidb
    (fun a b ha hb => anti a ((hused a).2 ha) b ((hused b).2 hb))
  rw [hd1] at hk1
  rw [hd2] at hk2
  injection hk1 with hk1
  injection hk2 with hk2
  injection hk1 with hk1 hk1'
  injection hk2 with hk2 hk2'
  refine ⟨by rw [← hda1, ← hda2, hk1, hk2, hk3], by rw [hk1', hk2'], ?_⟩
  -- associations
  have hgrp : ∀ {bs' : List Imports.Block} {ws' : List Warn} {specs' : List UGroup} {out' : Output} (r : Run le e bs' ws' specs' out') (g : Imports.Grp),
      g ∈ r.before.map (fun g => g.rest.asImport) ↔
        (∃ c ∈ r.cs, g = (Body.own c).asImport) ∨ ∃ i ∈ r.im.2.map Prod.fst, g = bodyOfImport i := by
    intro bs' ws' specs' out' r g
    obtain ⟨_, ha, _, _⟩ := before_spec r
    obtain ⟨y1, y2, _⟩ := all2_zip ha
    unfold Run.before
    simp only [List.map_append, List.map_map, List.mem_append, List.mem_map, Function.comp_def, toPublish]
    constructor
    · rintro (⟨p, hp, rfl⟩ | ⟨p, hp, rfl⟩)
      · exact .inl ⟨p.1, (y1 p hp).1, asImport_writeBack p.1 p.2⟩
      · exact .inr ⟨p.1, ⟨p, hp, rfl⟩, rfl⟩
    · rintro (⟨c, hc, rfl⟩ | ⟨i, ⟨p, hp, rfl⟩, rfl⟩)
      · obtain ⟨b, hb⟩ := y2 c hc
        exact .inl ⟨(c, b), hb, asImport_writeBack c b⟩
      · exact .inr ⟨p, hp, rfl⟩
  have hgs : ∀ g, g ∈ r1.before.map (fun g => g.rest.asImport) ↔ g ∈ r2.before.map (fun g => g.rest.asImport) := by
    intro g
    rw [hgrp r1, hgrp r2, him]
    simp only [hcs.mem_iff]
  intro gid n
  have e1 := Imports.associations_recorded _ _ r1.assocs gid n
  have e2 := Imports.associations_recorded _ _ r2.assocs gid n
  have hle' : ∀ u, Imports.originAt r1.origins gid n = some u ↔ Imports.originAt r2.origins gid n = some u := by
    intro u
    rw [e1, e2]
    unfold Imports.LocalEntity
    dsimp only
    change (_ ∨ _ ∧ (∃ g ∈ r1.before.map (fun g => g.rest.asImport), _) ∧ ¬ (∃ g ∈ r1.before.map (fun g => g.rest.asImport), _) ∧ _) ↔
      (_ ∨ _ ∧ (∃ g ∈ r2.before.map (fun g => g.rest.asImport), _) ∧ ¬ (∃ g ∈ r2.before.map (fun g => g.rest.asImport), _) ∧ _)
    simp only [hgs, him]
  rw [o1, o2]
  cases hx : Imports.originAt r1.origins gid n with
  | some u => exact ((hle' u).1 hx).symm
  | none =>
    cases hy : Imports.originAt r2.origins gid n with
    | none => rfl
    | some u => rw [(hle' u).2 hy] at hx; cases hx

def exCs : List UGroup := (resolveExtends exEnv.groups (prepared exSpecs)).toOption.getD []

example : exSpecs.Perm exSpecs.reverse ∧ ((prepared exSpecs).map UGroup.id).Nodup ∧ NoShadow (prepared exSpecs) exEnv.groups ∧
    resolveExtends exEnv.groups (prepared exSpecs) = .ok exCs ∧
    (NoPrefix (exCs.map toRef) ∧ NoInherited (exCs.map toRef) ∧ Uniform (exCs.map toRef)) ∧
    (∀ is, Imports.importAll exEnv.impWorld (blocksOf false exBlocks) (exEnv.deps.map Dep.imp) = .ok is →
      ((prepared exSpecs).map UGroup.id ++ is.map (fun i => i.group.id)).Nodup) ∧
    ∃ out out', resolveRegistry exLe exEnv false exSpecs exBlocks = .ok out ∧
      resolveRegistry exLe exEnv false exSpecs.reverse exBlocks = .ok out' ∧
      (∀ a ∈ out.attrs, ∀ b ∈ out.attrs, exLe a b = true → exLe b a = true → a = b) ∧ out.attrs.length = 4 := by
  refine ⟨exSpecs.reverse_perm.symm, by decide +kernel, by unfold NoShadow; decide +kernel, by rfl, ⟨?_, ?_, ?_⟩, ?_, ?_⟩
  · intro g hg a ha r f hf
    have : ∀ g ∈ exCs.map toRef, ∀ a ∈ g.pending, (match a.spec with | .ref _ f => f.prefixFlag | _ => false) = false := by
      decide +kernel
    have := this g hg a ha
    rw [hf] at this
    exact this
  · intro g hg a ha i f hf
    have : ∀ g ∈ exCs.map toRef, ∀ a ∈ g.pending, a.origin = none := by decide +kernel
    exact this g hg a ha
  · intro k d hd d' hd'
    have h : ∀ g ∈ exCs.map toRef, ∀ a ∈ g.pending, ∀ g' ∈ exCs.map toRef, ∀ a' ∈ g'.pending,
        (match a.spec, a'.spec with
        | .id i f, .id i' f' => decide (i = i' → attrOfId i f = attrOfId i' f')
        | _, _ => true) = true := by decide +kernel
    have key : ∀ d ∈ rootsOf (exCs.map toRef) k, ∃ g ∈ exCs.map toRef, ∃ a ∈ g.pending, ∃ f, a.spec = .id k f ∧
        d.attr = attrOfId k f := by
      intro d hd
      obtain ⟨g, hg, hd1⟩ := List.mem_flatMap.1 hd
      obtain ⟨a, ha, hd2⟩ := List.mem_filterMap.1 hd1
      refine ⟨g, hg, a, ha, ?_⟩
      cases hs : a.spec with
      | ref r f => rw [hs] at hd2; simp at hd2
      | id i f =>
        rw [hs] at hd2
        dsimp only at hd2
        split at hd2
        · rename_i hc
          obtain ⟨rfl, _⟩ := hc
          exact ⟨f, rfl, by rw [← Option.some.inj hd2]⟩
        · simp at hd2
    obtain ⟨g, hg, a, ha, f, hs, he⟩ := key d hd
    obtain ⟨g', hg', a', ha', f', hs', he'⟩ := key d' hd'
    have := h g hg a ha g' hg' a' ha'
    rw [hs, hs'] at this
    rw [he, he', of_decide_eq_true this rfl]
  · intro is his
    have h : Imports.importAll exEnv.impWorld (blocksOf false exBlocks) (exEnv.deps.map Dep.imp) =
        .ok ((Imports.importAll exEnv.impWorld (blocksOf false exBlocks) (exEnv.deps.map Dep.imp)).toOption.getD []) := by rfl
    rw [h] at his
    injection his with his
    subst his
    decide +kernel
  · refine ⟨_, _, rfl, rfl, ?_, ?_⟩
    · decide +kernel
    · decide +kernel

end Verif.Pipeline
