import Verif.Chain.Refine
import Verif.Imports.Props
/-
Importing signals through a chain of registries: what a registry publishes as imported is what the registry below that
declares the signal says, with the same attributes (C181).
-/
namespace Verif.Chain
open Verif.Util Verif.Resolver Verif.Pipeline Verif.Imports

/-! ### Specification -/

/-- What a group or signal says, apart from its attributes, and the registry it names as its own. -/
structure Said where
  id : String
  name : Option String
  about : About
  annotations : Option Annots
  assocs : List String
  origin : Option SchemaUrl

/-- What a group published by the registry at `url` says. -/
def saidBy (url : SchemaUrl) : Body → Said
  | .own u =>
    { id := u.id, name := u.name, about := aboutGroup (.own u), annotations := u.annotations, assocs := u.assocs
      origin := if u.lineage.isSome then some url else none }
  | .imported g =>
    { id := g.id, name := g.name, about := aboutGroup (.imported g), annotations := g.annotations, assocs := g.assocs
      origin := g.origin }

/-- The signals of a published schema that can be imported, by type. -/
def importable (s : Schema2) : List (GroupType × List Signal2) :=
  [(.metric, s.metrics), (.event, s.events), (.entity, s.entities), (.span, s.spans), (.attributeGroup, s.attributeGroups)]

/-- What a published signal says, as seen by a registry that imports it: its requirement level is not looked at, and an
attribute group names no registry as its own. -/
def saidBySignal (s : Schema2) (t : GroupType) (y : Signal2) : Said :=
  { id := y.id, name := if t = .event ∨ t = .entity ∨ t = .span then some y.id else none
    about := { aboutSignal t y with reqLevel := none }
    annotations := some y.common.annotations
    assocs := if t = .metric ∨ t = .event ∨ t = .span then y.assocs.map Prod.fst else []
    origin := if t = .attributeGroup then none else some (match y.source with
      | some i => (s.deps[i]?).getD s.url
      | none => s.url) }

/-- `Has m x A`: the registry `m` itself declares a group or signal that says `x` and has the attributes `A`: one of its
files, or one it publishes. -/
inductive Has : Node → Said → List Attr → Prop
  | own (url : SchemaUrl) (inc : Bool) (specs : List UGroup) (blocks : List Block) (deps cache : List Node)
      (listed : List SchemaUrl) (out : Output) (o : RGroup Body) (u : UGroup) (A : List Attr) : o ∈ out.groups →
      o.rest = .own u → Reads out o.attrs A → Has (.files url inc specs blocks deps cache listed out) (saidBy url (.own u)) A
  | signal (s : Schema2) (t : GroupType) (ys : List Signal2) (y : Signal2) : (t, ys) ∈ importable s → y ∈ ys →
      Has (.published s) (saidBySignal s t y) (signalAttrs s t y)

/-! ### Nothing is upgraded -/

theorem settled_choice {glob : String → String → Bool} {deps cache : List Node} {urls : List SchemaUrl}
    (hu : ∀ d ∈ deps, ∀ u ∈ d.url :: d.schema.deps, u ∈ urls) (h1 : ∀ u v, u ∈ urls → v ∈ urls → u.name = v.name → u = v)
    {u c : SchemaUrl} (hm : u ∈ urls) (hc : aget u.name (envOf glob deps cache).chosen = some c) : c = u := by
  obtain ⟨h2, h3⟩ := chosen_mem _ _ _ hc
  obtain ⟨d, hd, hx⟩ := List.mem_flatMap.1 h2
  exact h1 c u (hu d hd c hx) hm h3

theorem upgradeGroup_none {w : Imports.World} {g : Grp} {f : SchemaUrl}
    (h : ∀ c, aget (originUrl g f).name w.chosen = some c → c = originUrl g f) : upgradeGroup w g f = none := by
  unfold upgradeGroup
  dsimp only
  cases hc : aget (originUrl g f).name w.chosen with
  | none => rfl
  | some c =>
    dsimp only
    rw [if_pos (h c hc)]

theorem upgrade_same {w : Resolver.World} {a : Attr} {u : SchemaUrl} (h : ∀ c, w.chosen u.name = some c → c = u) {n : Rooted}
    (hn : upgrade w { attr := a, src := .dep u, isDef := true } = .ok n) : n.attr = a := by
  unfold upgrade at hn
  dsimp only at hn
  cases hc : w.chosen u.name with
  | none => rw [hc] at hn; injection hn with hn; rw [← hn]
  | some c =>
    rw [hc] at hn
    dsimp only at hn
    rw [if_neg (by simp [h c hc])] at hn
    injection hn with hn; rw [← hn]

/-! ### What comes out of an import -/

theorem importV1_mem {w : Imports.World} {bs : List Block} {s : V1} {u : SchemaUrl} (hu : s.url = some u)
    {cs : List Imported} (h : importV1 w bs s = .ok cs) {i : Imported} (hi : i ∈ cs) :
    ∃ g ∈ s.groups, i.group = (upgradeGroup w g u).getD g := by
  unfold importV1 at h
  rw [hu] at h
  dsimp only at h
  split at h
  · cases h
  · injection h with h
    rw [← h] at hi
    obtain ⟨g, hg, rfl⟩ := List.mem_map.1 hi
    exact ⟨g, (List.mem_filter.1 (List.mem_filter.1 hg).1).1, rfl⟩

theorem importV2_mem {w : Imports.World} {bs : List Block} {s : V2} {cs : List Imported} (h : importV2 w bs s = .ok cs)
    {i : Imported} (hi : i ∈ cs) :
    ∃ f t x, Publishes s f t x ∧ i.group = (upgradeGroup w (groupOfSig s t x) s.url).getD (groupOfSig s t x) := by
  unfold importV2 at h
  dsimp only at h
  split at h
  · cases h
  · injection h with h
    have hg : i.group ∈ cs.map (·.group) := List.mem_map.2 ⟨i, hi, rfl⟩
    rw [← h, attachOrigins_groups] at hg
    obtain ⟨e, he, hee⟩ := List.mem_map.1 hg
    exact ⟨e.1, e.2.1, e.2.2, (mem_signals ..).1 (List.mem_filter.1 he).1, hee.symm⟩

theorem importAll_mem {w : Imports.World} {bs : List Block} {deps : List Imports.Dep} {is : List Imported}
    (h : importAll w bs deps = .ok is) {i : Imported} (hi : i ∈ is) : ∃ d ∈ deps, ∃ cs, importDep w bs d = .ok cs ∧ i ∈ cs := by
  obtain ⟨css, h1, h2, _, _⟩ := import_all_spec w bs deps is h
  obtain ⟨cs, hcs, hic⟩ := List.mem_flatten.1 (h2.subset hi)
  obtain ⟨d, hd, hdc⟩ := h1.mem_right hcs
  exact ⟨d, hd, cs, hdc, hic⟩

/-- What a registry publishes, without conditions on the ids. -/
theorem published_groups {le : Attr → Attr → Bool} {e : Env} {inc : Bool} {specs : List UGroup} {blocks : List Block}
    {out : Output} (h : resolveRegistry le e inc specs blocks = .ok out) :
    ∃ is, importAll e.impWorld (blocksOf inc blocks) (e.deps.map Dep.imp) = .ok is ∧
      (∀ o ∈ out.groups, (∃ u, o.rest = .own u ∧ o.id = u.id) ∨ (∃ i ∈ is, PublishesImport e out o i)) ∧
      (∀ i ∈ is, ∃ o ∈ out.groups, PublishesImport e out o i) := by
  obtain ⟨run⟩ := resolve_run h
  obtain ⟨hcat, hall, himp, hia⟩ := before_spec run
  have hval := before_valid run
  have hpub := run.published
  change publish le run.im.1.cat run.before run.origins _ _ = .ok out at hpub
  obtain ⟨c', groups, hcl, hids, hfw, hbw⟩ := cleanup_keeps_meaning le run.im.1.cat run.before hcat hval
  unfold publish at hpub
  rw [hcl] at hpub
  dsimp only at hpub
  injection hpub with hpub
  have eg : out.groups = groups := by rw [← hpub]
  have ea : out.attrs = drain c' := by rw [← hpub]
  have impOk : ∀ p ∈ run.im.2, ∀ o : RGroup Body, o.id = p.1.group.id → o.rest = .imported (bodyOfImport p.1) →
      (o.attrs.map (fun r => (drain c')[r]?)).Perm (p.2.map (attrOf run.im.1.cat)) → PublishesImport e out o p.1 := by
    intro p hp o h1 h2 h3
    obtain ⟨xs, hx, hres⟩ := himp p hp
    exact ⟨h1, h2, xs, reads_of (cat := run.im.1.cat) (by rw [ea]; exact h3) hx, hres⟩
  refine ⟨run.im.2.map Prod.fst, hia, ?_, ?_⟩
  · intro o ho
    rw [eg] at ho
    obtain ⟨g, hg, hint, h1, h2, h3⟩ := hbw o ho
    rcases List.mem_append.1 hg with hg | hg
    · obtain ⟨p, hp, rfl⟩ := List.mem_map.1 hg
      exact .inl ⟨_, h2, h1⟩
    · obtain ⟨p, hp, rfl⟩ := List.mem_map.1 hg
      exact .inr ⟨p.1, List.mem_map.2 ⟨p, hp, rfl⟩, impOk p hp o h1 h2 h3⟩
  · intro i hi
    obtain ⟨p, hp, rfl⟩ := List.mem_map.1 hi
    obtain ⟨o, ho, h1, h2, h3⟩ := hfw (toPublish (.imported (bodyOfImport p.1)) p.2)
      (List.mem_append.2 (.inr (List.mem_map.2 ⟨p, hp, rfl⟩))) rfl
    exact ⟨o, by rw [eg]; exact ho, impOk p hp o h1 h2 h3⟩

/-! ### The sources of attributes -/

theorem mem_of_find {α : Type} {l : List α} {q : α → Bool} {x : α} (h : l.find? q = some x) : x ∈ l := List.mem_of_find?_eq_some h

theorem rootUrl_any {s : Schema1} {g : String} {u : SchemaUrl} (h : rootUrl s g = some u) :
    u ∈ s.deps ∨ ∃ x ∈ s.groups, x.grp.origin = some u := by
  unfold rootUrl at h
  split at h
  · rename_i n _
    cases hf : s.deps.find? (fun u => decide (u.name = n)) with
    | some v => rw [hf] at h; injection h with h; subst h; exact .inl (mem_of_find hf)
    | none =>
      rw [hf] at h
      obtain ⟨x, hx, he⟩ := List.exists_of_findSome?_eq_some h
      split at he
      · rename_i v hv
        split at he
        · injection he with he; subst he; exact .inr ⟨x, hx, hv⟩
        · cases he
      · cases he
  · cases hf : s.groups.find? (fun x => decide (x.grp.id = g)) with
    | none => rw [hf] at h; cases h
    | some x => rw [hf] at h; exact .inr ⟨x, mem_of_find hf, h⟩

theorem findSource_any (s : Schema1) (k : String) :
    findSource s k = s.url ∨ findSource s k ∈ s.deps ∨ ∃ x ∈ s.groups, x.grp.origin = some (findSource s k) := by
  unfold findSource
  split
  · rename_i r _
    cases hr : rootUrl s r.group with
    | none => exact .inl rfl
    | some u =>
      rw [Option.getD_some]
      exact .inr (rootUrl_any hr)
  · split
    · rename_i g hg
      cases ho : g.grp.origin with
      | none => exact .inl rfl
      | some u => rw [Option.getD_some]; exact .inr (.inr ⟨g, mem_of_find hg, ho⟩)
    · exact .inl rfl

theorem sourceUrl2_any (s : Schema2) (o : Option Nat) : sourceUrl2 s o ∈ s.url :: s.deps := by
  unfold sourceUrl2
  split
  · rename_i i
    cases h : s.deps[i]? with
    | none => simp
    | some u => simp only [Option.getD_some, List.mem_cons]; exact .inr (List.mem_of_getElem? h)
  · simp

theorem refAttrs2_any {s : Schema2} {role : Option Role} {b : Bool} {rs : List Ref2} {p : Attr × SchemaUrl}
    (h : p ∈ refAttrs2 s role b rs) : p.2 ∈ s.url :: s.deps := by
  unfold refAttrs2 at h
  obtain ⟨r, _, he⟩ := List.mem_filterMap.1 h
  obtain ⟨a, _, rfl⟩ := Option.map_eq_some_iff.1 he
  exact sourceUrl2_any s a.source

theorem all2_attrs {e : Env} {ps : List (Attr × SchemaUrl)} {xs : List Attr} (h : All2 (ImportsAttr e) ps xs)
    (hs : ∀ p ∈ ps, ∀ c, e.refWorld.chosen p.2.name = some c → c = p.2) : xs = ps.map Prod.fst := by
  induction h with
  | nil => rfl
  | cons hab _ ih =>
    rename_i a b as bs _
    obtain ⟨n, hn, rfl⟩ := hab
    rw [List.map_cons, upgrade_same (hs a (by simp)) hn, ih (fun p hp => hs p (by simp [hp]))]

/-! ### C181 -/

theorem reads_valid {out : Output} {refs : List Nat} (h : ∀ r ∈ refs, r < out.attrs.length) :
    Reads out refs (refs.filterMap (fun r => out.attrs[r]?)) := by
  unfold Reads
  suffices H : refs.map (fun r => out.attrs[r]?) = (refs.filterMap (fun r => out.attrs[r]?)).map some by rw [H]
  induction refs with
  | nil => rfl
  | cons r rs ih =>
    have hr : out.attrs[r]? = some (out.attrs[r]'(h r (by simp))) := List.getElem?_eq_getElem _
    rw [List.map_cons, List.filterMap_cons, hr]
    simp only [List.map_cons, List.cons.injEq, true_and]
    exact ih (fun x hx => h x (by simp [hx]))

/-- A group as importing sees it. -/
def seenBy (s : Schema1) (g : Group1) : Grp := { g.grp with attrs := (attrsOf s g).map (fun a => (a, findSource s a.name)) }

theorem said_origin (durl : SchemaUrl) (o : RGroup Body) :
    (publishedGroup durl o).grp.origin = (saidBy durl o.rest).origin := by
  unfold publishedGroup saidBy
  cases o.rest with
  | own v => cases hv : v.lineage <;> simp [hv]
  | imported v => rfl

theorem said_published (durl url : SchemaUrl) (o : RGroup Body) (as : List (Attr × SchemaUrl)) :
    saidBy url (.imported { { (publishedGroup durl o).grp with attrs := as } with visibility := none }) = saidBy durl o.rest := by
  unfold publishedGroup saidBy
  cases o.rest with
  | own v => cases hv : v.lineage <;> simp [hv, Body.asImport, aboutGroup]
  | imported v => rfl

/-- What holds of a group `o` that the registry `n`, resolved at `url`, publishes. -/
def Traced (n : Node) (url : SchemaUrl) (deps : List Node) (out : Output) (o : RGroup Body) : Prop :=
  (∃ m A, ((∃ u, o.rest = .own u ∧ m = n) ∨ ∃ d ∈ deps, Below m d) ∧ Has m (saidBy url o.rest) A ∧ Reads out o.attrs A) ∧
  o.id = (saidBy url o.rest).id ∧ ∀ u, (saidBy url o.rest).origin = some u → u ∈ n.url :: n.schema.deps

theorem below_of {url : SchemaUrl} {inc : Bool} {specs : List UGroup} {blocks : List Block} {deps cache : List Node}
    {listed : List SchemaUrl} {out : Output} {P : UGroup → Prop} {m : Node}
    (h : (∃ u, P u ∧ m = .files url inc specs blocks deps cache listed out) ∨ ∃ d ∈ deps, Below m d) :
    Below m (.files url inc specs blocks deps cache listed out) := by
  rcases h with ⟨_, _, rfl⟩ | ⟨d, hd, hb⟩
  · exact .self
  · exact .dep _ _ _ _ _ _ _ _ d hd hb

theorem traced {le : Attr → Attr → Bool} (hle : TotalPre le) {glob : String → String → Bool} {n : Node}
    (hn : Resolves le glob n) (h1 : OneVersion n) :
    match n with
    | .files url _ _ _ deps _ _ out => ∀ o ∈ out.groups, Traced n url deps out o
    | .published _ => True := by
  induction hn with
  | published s => trivial
  | files url inc specs blocks deps cache listed out hdeps hcache hlisted hres ihd ihc =>
    dsimp only
    have hul : ∀ d ∈ deps, ∀ x ∈ d.url :: d.schema.deps, x ∈ listed :=
      fun d hd x hx => (hlisted x).2 ⟨d, hd, by simpa using hx⟩
    have one : ∀ u v, u ∈ listed → v ∈ listed → u.name = v.name → u = v :=
      fun u v hu hv => h1 u v (List.mem_cons_of_mem _ hu) (List.mem_cons_of_mem _ hv)
    have settled : ∀ u ∈ listed, ∀ c, aget u.name (envOf glob deps cache).chosen = some c → c = u :=
      fun u hu c hc => settled_choice hul one hu hc
    obtain ⟨is, himp, hgroups, _⟩ := published_groups hres
    obtain ⟨_, _, _, _, _, _, _, _, _, hvalid⟩ := resolved_attributes le _ inc specs blocks out hle hres
    intro o ho
    rcases hgroups o ho with ⟨u, hu, hid⟩ | ⟨i, hi, hid, hrest, xs, hreads, hall⟩
    · refine ⟨⟨_, _, .inl ⟨u, hu, rfl⟩, ?_, reads_valid (hvalid o ho)⟩, ?_, ?_⟩
      · rw [hu]
        exact .own url inc specs blocks deps cache listed out o u _ ho hu (reads_valid (hvalid o ho))
      · rw [hu]; exact hid
      · rw [hu]
        intro v hv
        unfold saidBy at hv
        dsimp only at hv
        split at hv
        · injection hv with hv; rw [← hv]; exact List.mem_cons_self ..
        · cases hv
    · obtain ⟨dd, hdd, cs, hcs, hic⟩ := importAll_mem himp hi
      unfold envOf at hdd
      dsimp only at hdd
      rw [List.map_map] at hdd
      obtain ⟨d, hd, rfl⟩ := List.mem_map.1 hdd
      have ihd := ihd d hd (fun u v hu hv => h1 u v (List.mem_cons_of_mem _ (hul d hd u hu)) (List.mem_cons_of_mem _ (hul d hd v hv)))
      cases d with
      | files durl dinc dspecs dblocks ddeps dcache dlisted dout =>
        dsimp only at ihd
        obtain ⟨g, hg, hig⟩ := importV1_mem (s := asImport1 (ofOutput durl dlisted dout)) (u := durl) rfl hcs hic
        change g ∈ (ofOutput durl dlisted dout).groups.map _ at hg
        obtain ⟨x, hx, rfl⟩ := List.mem_map.1 hg
        obtain ⟨od, hod, rfl⟩ := List.mem_map.1 hx
        obtain ⟨⟨m, A, hb, hhas, hrd⟩, _, horig⟩ := ihd od hod
        have origins : ∀ y ∈ (ofOutput durl dlisted dout).groups, ∀ u, y.grp.origin = some u → u ∈ durl :: dlisted := by
          intro y hy u hu
          obtain ⟨oy, hoy, rfl⟩ := List.mem_map.1 hy
          refine (ihd oy hoy).2.2 u ?_
          rw [← hu]
          exact (said_origin durl oy).symm
        have inListed : ∀ u ∈ durl :: dlisted, u ∈ listed := hul _ hd
        have hno : upgradeGroup (envOf glob deps cache).impWorld
            (seenBy (ofOutput durl dlisted dout) (publishedGroup durl od)) durl = none := by
          refine upgradeGroup_none (settled _ (inListed _ ?_))
          unfold originUrl seenBy
          dsimp only
          cases ho' : (publishedGroup durl od).grp.origin with
          | none => exact List.mem_cons_self ..
          | some u => exact origins _ (List.mem_map.2 ⟨od, hod, rfl⟩) u ho'
        change i.group = (upgradeGroup _ (seenBy _ _) durl).getD (seenBy _ _) at hig
        rw [hno, Option.getD_none] at hig
        unfold seenBy at hig
        have hxs : xs = od.attrs.filterMap (fun r => dout.attrs[r]?) := by
          rw [all2_attrs hall, hig]
          · dsimp only
            rw [List.map_map]
            exact List.map_id _
          · intro p hp
            rw [hig] at hp
            obtain ⟨a, _, rfl⟩ := List.mem_map.1 hp
            refine settled _ (inListed _ ?_)
            dsimp only
            rcases findSource_any (ofOutput durl dlisted dout) a.name with h | h | ⟨y, hy, h⟩
            · rw [h]; exact List.mem_cons_self ..
            · exact List.mem_cons_of_mem _ h
            · exact origins y hy _ h
        have hsaid : saidBy url o.rest = saidBy durl od.rest := by
          rw [hrest, hig]
          exact said_published durl url od _
        refine ⟨⟨m, A, .inr ⟨_, hd, below_of hb⟩, by rw [hsaid]; exact hhas, ?_⟩, ?_, ?_⟩
        · unfold Reads at hreads ⊢
          refine hreads.trans ?_
          rw [hxs]
          exact (filterMap_perm hrd).map some
        · rw [hid, hrest]; rfl
        · intro u hu
          rw [hsaid] at hu
          exact List.mem_cons_of_mem _ (inListed u (horig u hu))
      | published s =>
        obtain ⟨f, t, x, hp, hig⟩ := importV2_mem (s := asImport2 s) hcs hic
        have inListed : ∀ u ∈ s.url :: s.deps, u ∈ listed := hul _ hd
        have hsrc : ∀ y, Imports.sourceUrl (asImport2 s) y = sourceUrl2 s y := fun _ => rfl
        have hno : upgradeGroup (envOf glob deps cache).impWorld (groupOfSig (asImport2 s) t x) (asImport2 s).url = none := by
          refine upgradeGroup_none (settled _ (inListed _ ?_))
          unfold originUrl groupOfSig
          dsimp only
          split
          · exact List.mem_cons_self ..
          · exact sourceUrl2_any s x.source
        rw [hno, Option.getD_none] at hig
        have hx : ∃ ys y, (t, ys) ∈ importable s ∧ y ∈ ys ∧ x = sigOf y x.attrs ∧ x.attrs.map Prod.fst = signalAttrs s t y ∧
            ∀ p ∈ x.attrs, p.2 ∈ s.url :: s.deps := by
          cases hp with
          | metric _ h =>
            obtain ⟨y, hy, rfl⟩ := List.mem_map.1 h
            refine ⟨_, y, by simp [importable], hy, rfl, ?_, fun p hp => refAttrs2_any hp⟩
            unfold sigOf signalAttrs
            dsimp only
            rw [refAttrs2_fst, List.filterMap_append]; simp
          | event _ h =>
            obtain ⟨y, hy, rfl⟩ := List.mem_map.1 h
            refine ⟨_, y, by simp [importable], hy, rfl, ?_, fun p hp => refAttrs2_any hp⟩
            unfold sigOf signalAttrs
            dsimp only
            rw [refAttrs2_fst, List.filterMap_append]; simp
          | entity _ h =>
            obtain ⟨y, hy, rfl⟩ := List.mem_map.1 h
            refine ⟨_, y, by simp [importable], hy, rfl, ?_, fun p hp => ?_⟩
            · unfold sigOf signalAttrs entityAttrs2
              dsimp only
              rw [List.map_append, refAttrs2_fst, refAttrs2_fst, List.filterMap_append]; rfl
            · unfold sigOf entityAttrs2 at hp
              rcases List.mem_append.1 hp with hp | hp <;> exact refAttrs2_any hp
          | span _ h =>
            obtain ⟨y, hy, rfl⟩ := List.mem_map.1 h
            refine ⟨_, y, by simp [importable], hy, rfl, ?_, fun p hp => refAttrs2_any hp⟩
            unfold sigOf signalAttrs
            dsimp only
            rw [refAttrs2_fst, List.filterMap_append]; simp
          | attributeGroup _ h =>
            obtain ⟨y, hy, rfl⟩ := List.mem_map.1 h
            refine ⟨_, y, by simp [importable], hy, rfl, ?_, fun p hp => refAttrs2_any hp⟩
            unfold sigOf signalAttrs
            dsimp only
            rw [refAttrs2_fst, List.filterMap_append]; simp
        obtain ⟨ys, y, hk, hy, hxe, hattrs, hsrcs⟩ := hx
        have hsaid : saidBy url o.rest = saidBySignal s t y := by
          rw [hrest, hig, hxe]
          simp only [importable, List.mem_cons, Prod.mk.injEq, List.not_mem_nil, or_false] at hk
          rcases hk with ⟨rfl, _⟩ | ⟨rfl, _⟩ | ⟨rfl, _⟩ | ⟨rfl, _⟩ | ⟨rfl, _⟩ <;> rfl
        refine ⟨⟨_, _, .inr ⟨_, hd, .self⟩, by rw [hsaid]; exact .signal s t ys y hk hy, ?_⟩, ?_, ?_⟩
        · have hxs : xs = signalAttrs s t y := by
            rw [all2_attrs hall, hig]
            · exact hattrs
            · intro p hp
              rw [hig] at hp
              exact settled _ (inListed _ (hsrcs p hp))
          rw [← hxs]; exact hreads
        · rw [hid, hrest]; rfl
        · intro u hu
          rw [hsaid] at hu
          refine List.mem_cons_of_mem _ (inListed u ?_)
          unfold saidBySignal at hu
          dsimp only at hu
          split at hu
          · cases hu
          · injection hu with hu
            rw [← hu]
            exact sourceUrl2_any s y.source

/-- C181: in a chain of registries of which only one version each is around, a group that a registry publishes as imported
is what a registry below says, and has the attributes it has there, whatever registries it came through and whatever the
registries on the way refine or define. -/
theorem imported_of_chain {le : Attr → Attr → Bool} (hle : TotalPre le) {glob : String → String → Bool} {url : SchemaUrl}
    {inc : Bool} {specs : List UGroup} {blocks : List Block} {deps cache : List Node} {listed : List SchemaUrl} {out : Output}
    (hn : Resolves le glob (.files url inc specs blocks deps cache listed out))
    (h1 : OneVersion (.files url inc specs blocks deps cache listed out)) (o : RGroup Body) (ho : o ∈ out.groups) (g : Grp)
    (hg : o.rest = .imported g) :
    ∃ d ∈ deps, ∃ m A, Below m d ∧ Has m (saidBy url o.rest) A ∧ Reads out o.attrs A := by
  obtain ⟨⟨m, A, h, h2, h3⟩, _⟩ := traced hle hn h1 o ho
  rcases h with ⟨u, hu, _⟩ | ⟨d, hd, hb⟩
  · rw [hu] at hg; cases hg
  · exact ⟨d, hd, m, A, hb, h2, h3⟩

/-- The groups a registry of files publishes. -/
def publishedBy : Node → List (RGroup Body)
  | .files _ _ _ _ _ _ _ out => out.groups
  | .published _ => []

/-- C184, for chains of registries of files: an imported signal has the requirement level, and the rest, that the file of
the registry below gives it. -/
theorem imported_level_partial {le : Attr → Attr → Bool} (hle : TotalPre le) {glob : String → String → Bool} {url : SchemaUrl}
    {inc : Bool} {specs : List UGroup} {blocks : List Block} {deps cache : List Node} {listed : List SchemaUrl} {out : Output}
    (hn : Resolves le glob (.files url inc specs blocks deps cache listed out))
    (h1 : OneVersion (.files url inc specs blocks deps cache listed out))
    (hf : ∀ d ∈ deps, ∀ m, Below m d → FromFiles m) (o : RGroup Body) (ho : o ∈ out.groups) (g : Grp)
    (hg : o.rest = .imported g) :
    ∃ d ∈ deps, ∃ m, Below m d ∧ ∃ od ∈ publishedBy m, ∃ u, od.rest = .own u ∧ u.reqLevel = g.fields.reqLevel ∧ aboutGroup od.rest = aboutGroup o.rest := by
  obtain ⟨d, hd, m, A, hb, hh, _⟩ := imported_of_chain hle hn h1 o ho g hg
  refine ⟨d, hd, m, hb, ?_⟩
  generalize hx : saidBy url o.rest = x at hh
  cases hh with
  | own murl minc mspecs mblocks mdeps mcache mlisted mout od u A hm hr hrd =>
    have ha : aboutGroup o.rest = aboutGroup (.own u) := by
      have := congrArg Said.about hx
      rw [hg] at this ⊢
      exact this
    refine ⟨od, hm, u, hr, ?_, by rw [hr, ha]⟩
    rw [hg] at ha
    exact (congrArg About.reqLevel ha).symm
  | signal s t ys y _ _ => exact absurd (hf d hd _ hb) (fun h => h)

/-! ### C182 -/

/-- Two groups are the same signal: of one type, with the same metric name or, if they have none, with the same name or, if
they have none either, with the same id up to the word for the type. -/
def SameSignal (a b : Grp) : Prop :=
  a.type = b.type ∧ a.metricName = b.metricName ∧
    (a.metricName = none → a.name = b.name ∧ (a.name = none → stripTypePrefix a.id = stripTypePrefix b.id))

theorem sameSignal_iff (a b : Grp) : sameImported a b = true ↔ SameSignal a b := by
  unfold sameImported SameSignal
  by_cases ht : a.type = b.type
  · rw [if_neg (by simp [ht])]
    cases hm : a.metricName <;> cases hm' : b.metricName <;> cases hn : a.name <;> cases hn' : b.name <;> simp [ht]
  · rw [if_pos ht]; simp [ht]

theorem SameSignal.trans {a b c : Grp} (h : SameSignal a b) (h' : SameSignal b c) : SameSignal a c :=
  ⟨h.1.trans h'.1, h.2.1.trans h'.2.1, fun hm =>
    have x := h.2.2 hm
    have y := h'.2.2 (h.2.1 ▸ hm)
    ⟨x.1.trans y.1, fun hn => (x.2 hn).trans (y.2 (x.1 ▸ hn))⟩⟩

theorem SameSignal.symm {a b : Grp} (h : SameSignal a b) : SameSignal b a :=
  ⟨h.1.symm, h.2.1.symm, fun hm =>
    have x := h.2.2 (h.2.1 ▸ hm)
    ⟨x.1.symm, fun hn => (x.2 (x.1 ▸ hn)).symm⟩⟩

theorem SameSignal.refl (a : Grp) : SameSignal a a := ⟨rfl, rfl, fun _ => ⟨rfl, fun _ => rfl⟩⟩

theorem stands_same {w : Imports.World} {u : SchemaUrl} {g g' : Grp} (h : Stands w u g g') : SameSignal g' g := by
  cases h with
  | itself => exact .refl _
  | newer _ _ _ _ _ _ _ _ hs => exact ((sameSignal_iff _ _).1 hs).symm

theorem forall2_left {α β : Type} {R : α → β → Prop} {as : List α} {bs : List β} (h : Forall2 R as bs) {a : α} (ha : a ∈ as) :
    ∃ b ∈ bs, R a b := by
  induction h with
  | nil => cases ha
  | cons hab _ ih =>
    rcases List.mem_cons.1 ha with rfl | ha
    · exact ⟨_, List.mem_cons_self .., hab⟩
    · obtain ⟨b, hb, hr⟩ := ih ha
      exact ⟨b, List.mem_cons_of_mem _ hb, hr⟩

/-- What a dependency contributes is published, or another group for the same signal of the same registry is. -/
theorem contributed {le : Attr → Attr → Bool} {glob : String → String → Bool} {inc : Bool} {specs : List UGroup}
    {blocks : List Block} {deps cache : List Node} {out : Output} {d : Node}
    (h : resolveRegistry le (envOf glob deps cache) inc specs blocks = .ok out) (hd : d ∈ deps) :
    ∃ cs, importDep (envOf glob deps cache).impWorld (blocksOf inc blocks) d.schema.asDep.imp = .ok cs ∧
      ∀ c ∈ cs, ∃ o ∈ out.groups, ∃ g, o.rest = .imported g ∧ SameSignal g c.group := by
  obtain ⟨is, himp, _, hback⟩ := published_groups h
  obtain ⟨css, h1, _, _, h4⟩ := import_all_spec _ _ _ _ himp
  obtain ⟨cs, hcs, hc⟩ := forall2_left h1 (a := d.schema.asDep.imp) (by
    unfold envOf
    dsimp only
    rw [List.map_map]
    exact List.mem_map.2 ⟨d, hd, rfl⟩)
  refine ⟨cs, hc, fun c hcc => ?_⟩
  obtain ⟨k, hk, hkc⟩ := h4 c (List.mem_flatten.2 ⟨cs, hcs, hcc⟩)
  obtain ⟨o, ho, _, hrest, _⟩ := hback k hk
  have hs : SameSignal k.group c.group := by
    rcases hkc with rfl | hkc
    · exact .refl _
    · exact (sameSignal_iff _ _).1 hkc.2
  exact ⟨o, ho, _, hrest, hs.1, hs.2.1, hs.2.2⟩

/-- C182: a group that a dependency publishes, that some pattern names and that is not excluded is imported: a group for
this signal is published. -/
theorem named_group_imported {le : Attr → Attr → Bool} {glob : String → String → Bool} {inc : Bool} {specs : List UGroup}
    {blocks : List Block} {deps cache : List Node} {out : Output} {durl : SchemaUrl} {dinc : Bool} {dspecs : List UGroup}
    {dblocks : List Block} {ddeps dcache : List Node} {dlisted : List SchemaUrl} {dout : Output}
    (h : resolveRegistry le (envOf glob deps cache) inc specs blocks = .ok out)
    (hd : Node.files durl dinc dspecs dblocks ddeps dcache dlisted dout ∈ deps) (od : RGroup Body) (ho : od ∈ dout.groups)
    (hn : Named (envOf glob deps cache).impWorld (blocksOf inc blocks) (od.rest.asImport))
    (hx : isExcludedOpt (annotsOf od.rest) = false) :
    ∃ o ∈ out.groups, ∃ g, o.rest = .imported g ∧ SameSignal g (od.rest.asImport) := by
  obtain ⟨cs, hc, hall⟩ := contributed h hd
  have hcs := hc
  obtain ⟨keep, hk, hf⟩ := import_v1_selects _ _ (asImport1 (ofOutput durl dlisted dout)) durl rfl cs hc
  have hsame : ∀ w bs, blocksMatch w bs (seenBy (ofOutput durl dlisted dout) (publishedGroup durl od)) =
      blocksMatch w bs od.rest.asImport := by
    intro w bs
    unfold seenBy publishedGroup
    cases od.rest <;> rfl
  have hsig : SameSignal (seenBy (ofOutput durl dlisted dout) (publishedGroup durl od)) od.rest.asImport := by
    unfold seenBy publishedGroup
    cases od.rest <;> exact .refl _
  have hann : (seenBy (ofOutput durl dlisted dout) (publishedGroup durl od)).annotations = annotsOf od.rest := by
    unfold seenBy publishedGroup annotsOf
    cases od.rest <;> rfl
  obtain ⟨g', hg', hst⟩ := forall2_left hf (a := seenBy (ofOutput durl dlisted dout) (publishedGroup durl od))
    (List.mem_filter.2 ⟨List.mem_map.2 ⟨_, List.mem_map.2 ⟨od, ho, rfl⟩, rfl⟩,
      (hk _).2 ⟨(blocksMatch_iff _ _ _).1 (by rw [hsame]; exact (blocksMatch_iff _ _ _).2 hn), by rw [hann]; exact hx⟩⟩)
  obtain ⟨c, hcm, rfl⟩ := List.mem_map.1 hg'
  obtain ⟨o, hom, g, hrest, hgs⟩ := hall c hcm
  exact ⟨o, hom, g, hrest, hgs.trans ((stands_same hst).trans hsig)⟩

theorem signal_candidate {w : Imports.World} {bs : List Block} {s : V2} {cs : List Imported} (h : importV2 w bs s = .ok cs)
    {f : Imports.Field} {t : GroupType} {x : Sig}
    (hx : Publishes s f t x ∧ NamedSig w bs f x ∧ isExcluded x.annotations = false) :
    ∃ c ∈ cs, Stands w s.url (groupOfSig s t x) c.group := by
  unfold importV2 at h
  dsimp only at h
  split at h
  · cases h
  · injection h with h
    have hg : (upgradeGroup w (groupOfSig s t x) s.url).getD (groupOfSig s t x) ∈ cs.map (·.group) := by
      rw [← h, attachOrigins_groups]
      refine List.mem_map.2 ⟨(f, t, x), List.mem_filter.2 ⟨(mem_signals ..).2 hx.1, ?_⟩, rfl⟩
      rw [decide_eq_true_eq, (decideV2_spec ..).1]
      exact hx.2
    obtain ⟨c, hc, hcg⟩ := List.mem_map.1 hg
    exact ⟨c, hc, by rw [hcg]; exact upgradeGroup_stands ..⟩

theorem candidate_signal {w : Imports.World} {bs : List Block} {s : V2} {cs : List Imported} (h : importV2 w bs s = .ok cs)
    {i : Imported} (hi : i ∈ cs) :
    ∃ f t x, Publishes s f t x ∧ NamedSig w bs f x ∧ isExcluded x.annotations = false ∧
      Stands w s.url (groupOfSig s t x) i.group := by
  unfold importV2 at h
  dsimp only at h
  split at h
  · cases h
  · injection h with h
    have hg : i.group ∈ cs.map (·.group) := List.mem_map.2 ⟨i, hi, rfl⟩
    rw [← h, attachOrigins_groups] at hg
    obtain ⟨e, he, hee⟩ := List.mem_map.1 hg
    obtain ⟨h1, h2⟩ := List.mem_filter.1 he
    rw [decide_eq_true_eq, (decideV2_spec ..).1] at h2
    exact ⟨e.1, e.2.1, e.2.2, (mem_signals ..).1 h1, h2.1, h2.2, by rw [← hee]; exact upgradeGroup_stands ..⟩

/-- The patterns of a block for signals of a type. -/
def patternsFor (b : Block) : GroupType → List String
  | .metric => b.metrics
  | .event => b.events
  | .entity => b.entities
  | .span => b.spans
  | .attributeGroup => b.attributeGroups
  | _ => []

/-- C182: a signal that a published schema has, whose id matches a pattern for its type and that is not excluded is
imported: a group of this type and name is published. -/
theorem named_signal_imported {le : Attr → Attr → Bool} {glob : String → String → Bool} {inc : Bool} {specs : List UGroup}
    {blocks : List Block} {deps cache : List Node} {out : Output} {s : Schema2}
    (h : resolveRegistry le (envOf glob deps cache) inc specs blocks = .ok out)
    (hd : Node.published s ∈ deps) (t : GroupType) (ys : List Signal2) (hk : (t, ys) ∈ importable s) (y : Signal2) (hy : y ∈ ys)
    (hn : ∃ b ∈ blocks, ∃ p ∈ patternsFor b t, glob p y.id = true) (hx : isExcluded y.common.annotations = false) :
    ∃ o ∈ out.groups, ∃ g, o.rest = .imported g ∧ g.type = t ∧
      (t = .metric → g.metricName = some y.id) ∧ (t = .event ∨ t = .entity ∨ t = .span → g.name = some y.id) ∧
      (t = .attributeGroup → stripTypePrefix g.id = stripTypePrefix y.id) := by
  obtain ⟨cs, hc, hall⟩ := contributed h hd
  obtain ⟨b, hb, p, hp, hg⟩ := hn
  have hb' : b ∈ blocksOf inc blocks := by unfold blocksOf; split <;> simp [hb]
  have hin : ∃ f x, (Publishes (asImport2 s) f t x ∧ NamedSig (envOf glob deps cache).impWorld (blocksOf inc blocks) f x ∧
      isExcluded x.annotations = false) ∧ x.id = y.id := by
    simp only [importable, List.mem_cons, Prod.mk.injEq, List.not_mem_nil, or_false] at hk
    rcases hk with ⟨rfl, rfl⟩ | ⟨rfl, rfl⟩ | ⟨rfl, rfl⟩ | ⟨rfl, rfl⟩ | ⟨rfl, rfl⟩
    · exact ⟨.metrics, _, ⟨.metric _ (List.mem_map.2 ⟨y, hy, rfl⟩), ⟨b, hb', p, hp, hg⟩, hx⟩, rfl⟩
    · exact ⟨.events, _, ⟨.event _ (List.mem_map.2 ⟨y, hy, rfl⟩), ⟨b, hb', p, hp, hg⟩, hx⟩, rfl⟩
    · exact ⟨.entities, _, ⟨.entity _ (List.mem_map.2 ⟨y, hy, rfl⟩), ⟨b, hb', p, hp, hg⟩, hx⟩, rfl⟩
    · exact ⟨.spans, _, ⟨.span _ (List.mem_map.2 ⟨y, hy, rfl⟩), ⟨b, hb', p, hp, hg⟩, hx⟩, rfl⟩
    · exact ⟨.attributeGroups, _, ⟨.attributeGroup _ (List.mem_map.2 ⟨y, hy, rfl⟩), ⟨b, hb', p, hp, hg⟩, hx⟩, rfl⟩
  obtain ⟨f, x, hmem, hid⟩ := hin
  obtain ⟨c, hcm, hst⟩ := signal_candidate (s := asImport2 s) hc hmem
  obtain ⟨o, hom, g, hrest, hgs⟩ := hall c hcm
  have hs := hgs.trans (stands_same hst)
  refine ⟨o, hom, g, hrest, hs.1, ?_, ?_, ?_⟩
  · rintro rfl
    rw [hs.2.1, ← hid]; rfl
  · intro ht
    have h0 : g.metricName = none := by
      rw [hs.2.1]; rcases ht with rfl | rfl | rfl <;> rfl
    rw [(hs.2.2 h0).1, ← hid]
    rcases ht with rfl | rfl | rfl <;> rfl
  · rintro rfl
    have h0 : g.metricName = none := by rw [hs.2.1]; rfl
    have h1 := hs.2.2 h0
    rw [h1.2 (by rw [h1.1]; rfl), ← hid]; rfl

/-- C182: nothing else is imported: a group published as imported is for a group of a dependency that a pattern names, or for
a signal of a published schema whose id matches a pattern for its type, and that is not excluded. -/
theorem imported_is_named {le : Attr → Attr → Bool} {glob : String → String → Bool} {specs : List UGroup}
    {blocks : List Block} {deps cache : List Node} {out : Output}
    (h : resolveRegistry le (envOf glob deps cache) false specs blocks = .ok out) (o : RGroup Body) (ho : o ∈ out.groups)
    (g : Grp) (hg : o.rest = .imported g) :
    (∃ durl dinc dspecs dblocks ddeps dcache dlisted dout, Node.files durl dinc dspecs dblocks ddeps dcache dlisted dout ∈ deps ∧
      ∃ od ∈ dout.groups, Named (envOf glob deps cache).impWorld blocks od.rest.asImport ∧
        isExcludedOpt (annotsOf od.rest) = false ∧ SameSignal g od.rest.asImport) ∨
    (∃ s, Node.published s ∈ deps ∧ ∃ t ys, (t, ys) ∈ importable s ∧ ∃ y ∈ ys,
      (∃ b ∈ blocks, ∃ p ∈ patternsFor b t, glob p y.id = true) ∧ isExcluded y.common.annotations = false ∧ g.type = t ∧
      (t = .metric → g.metricName = some y.id) ∧ (t = .event ∨ t = .entity ∨ t = .span → g.name = some y.id) ∧
      (t = .attributeGroup → stripTypePrefix g.id = stripTypePrefix y.id)) := by
  obtain ⟨is, himp, hgroups, _⟩ := published_groups h
  rcases hgroups o ho with ⟨u, hu, _⟩ | ⟨i, hi, _, hrest, _⟩
  · rw [hu] at hg; cases hg
  have hgi : SameSignal g i.group := by
    rw [hrest] at hg
    injection hg with hg
    rw [← hg]
    exact ⟨rfl, rfl, fun _ => ⟨rfl, fun _ => rfl⟩⟩
  obtain ⟨dd, hdd, cs, hcs, hic⟩ := importAll_mem himp hi
  unfold envOf at hdd
  dsimp only at hdd
  rw [List.map_map] at hdd
  obtain ⟨d, hd, rfl⟩ := List.mem_map.1 hdd
  cases d with
  | files durl dinc dspecs dblocks ddeps dcache dlisted dout =>
    refine .inl ⟨durl, dinc, dspecs, dblocks, ddeps, dcache, dlisted, dout, hd, ?_⟩
    obtain ⟨keep, hk, hf⟩ := import_v1_selects _ _ (asImport1 (ofOutput durl dlisted dout)) durl rfl cs hcs
    obtain ⟨x, hx, hst⟩ := hf.mem_right (List.mem_map.2 ⟨i, hic, rfl⟩)
    obtain ⟨hx, hkx⟩ := List.mem_filter.1 hx
    obtain ⟨x', hx', rfl⟩ := List.mem_map.1 hx
    obtain ⟨od, hod, rfl⟩ := List.mem_map.1 hx'
    obtain ⟨hnamed, hann⟩ := (hk _).1 hkx
    have hs := hgi.trans (stands_same hst)
    refine ⟨od, hod, (blocksMatch_iff _ _ _).1 ?_, ?_, ?_⟩
    · rw [← (blocksMatch_iff _ _ _).2 hnamed]
      unfold publishedGroup
      cases od.rest <;> rfl
    · rw [← hann]
      unfold publishedGroup annotsOf
      cases od.rest <;> rfl
    · refine hs.trans ?_
      unfold publishedGroup
      cases od.rest <;> exact .refl _
  | published s =>
    refine .inr ⟨s, hd, ?_⟩
    obtain ⟨f, t, x, hp, hmatch, hex, hst⟩ := candidate_signal (s := asImport2 s) hcs hic
    have hs := hgi.trans (stands_same hst)
    have fin : g.type = t ∧ (t = .metric → g.metricName = some x.id) ∧ (t = .event ∨ t = .entity ∨ t = .span → g.name = some x.id) ∧
        (t = .attributeGroup → stripTypePrefix g.id = stripTypePrefix x.id) := by
      refine ⟨hs.1, ?_, ?_, ?_⟩
      · rintro rfl
        rw [hs.2.1]; rfl
      · intro ht
        have h0 : g.metricName = none := by
          rw [hs.2.1]; rcases ht with rfl | rfl | rfl <;> rfl
        rw [(hs.2.2 h0).1]
        rcases ht with rfl | rfl | rfl <;> rfl
      · rintro rfl
        have h0 : g.metricName = none := by rw [hs.2.1]; rfl
        have h1 := hs.2.2 h0
        rw [h1.2 (by rw [h1.1]; rfl)]; rfl
    obtain ⟨b, hb, p, hp', hm⟩ := hmatch
    cases hp with
    | metric _ h =>
      obtain ⟨y, hy, rfl⟩ := List.mem_map.1 h
      exact ⟨.metric, s.metrics, by simp [importable], y, hy, ⟨b, hb, p, hp', hm⟩, hex, fin⟩
    | event _ h =>
      obtain ⟨y, hy, rfl⟩ := List.mem_map.1 h
      exact ⟨.event, s.events, by simp [importable], y, hy, ⟨b, hb, p, hp', hm⟩, hex, fin⟩
    | entity _ h =>
      obtain ⟨y, hy, rfl⟩ := List.mem_map.1 h
      exact ⟨.entity, s.entities, by simp [importable], y, hy, ⟨b, hb, p, hp', hm⟩, hex, fin⟩
    | span _ h =>
      obtain ⟨y, hy, rfl⟩ := List.mem_map.1 h
      exact ⟨.span, s.spans, by simp [importable], y, hy, ⟨b, hb, p, hp', hm⟩, hex, fin⟩
    | attributeGroup _ h =>
      obtain ⟨y, hy, rfl⟩ := List.mem_map.1 h
      exact ⟨.attributeGroup, s.attributeGroups, by simp [importable], y, hy, ⟨b, hb, p, hp', hm⟩, hex, fin⟩

/-! ### Cases -/

def isOwn : Body → Bool
  | .own _ => true
  | .imported _ => false

/-- Imports the metric of `mid`, which is declared there, and that of `base` through a registry that imports it. -/
def thrice : Node := mk (urlOf "thrice" 1) false [] [{ path := "f", metrics := ["m", "n"] }] [mid, importer] []

theorem thrice_resolves : Resolves exLe exGlob thrice :=
  mk_resolves (by simp [mid_resolves, importer_resolves]) (by simp) rfl

/-- `imported_of_chain` and `imported_is_named` apply to it, and `named_group_imported` to its dependencies. -/
example : Resolves exLe exGlob thrice ∧ OneVersion thrice ∧
    (∃ o ∈ (outOfNode thrice).groups, o.id = "metric.m" ∧ isOwn o.rest = false ∧ (saidBy (urlOf "thrice" 1) o.rest).origin = some (urlOf "base" 1)) ∧
    (∃ o ∈ (outOfNode thrice).groups, o.id = "metric.n" ∧ isOwn o.rest = false ∧ (saidBy (urlOf "thrice" 1) o.rest).origin = some (urlOf "mid" 1)) ∧
    (∃ o ∈ (outOfNode importer).groups, blocksMatch (envOf exGlob [mid, importer] []).impWorld [{ path := "f", metrics := ["m", "n"] }]
      o.rest.asImport = true ∧ isExcludedOpt (annotsOf o.rest) = false) := by
  refine ⟨thrice_resolves, ?_, by decide +kernel, by decide +kernel, by decide +kernel⟩
  have : thrice.url :: thrice.schema.deps = [urlOf "thrice" 1, urlOf "mid" 1, urlOf "base" 1, urlOf "importer" 1, urlOf "base" 1] := by rfl
  unfold OneVersion
  rw [this]
  intro u v hu hv h
  simp only [List.mem_cons, List.not_mem_nil, or_false] at hu hv
  rcases hu with rfl | rfl | rfl | rfl | rfl <;> rcases hv with rfl | rfl | rfl | rfl | rfl <;> first | rfl | exact absurd h (by decide)

/-- A published schema with a metric that is required. -/
def leveled : Schema2 :=
  { url := urlOf "leveled" 1
    catalog := [{ key := "x", type := "string" }]
    attributes := [0]
    metrics := [{ id := "m", level := some "required", refs := [{ base := 0, level := "required" }], instrument := "counter", unit := "s" }] }

def overLeveled : Node := mk (urlOf "over" 1) false [] [{ path := "f", metrics := ["m"] }] [.published leveled] []

theorem overLeveled_resolves : Resolves exLe exGlob overLeveled :=
  mk_resolves (by intro d hd; simp only [List.mem_cons, List.not_mem_nil, or_false] at hd; subst hd; exact .published _) (by simp) rfl

/-- `named_signal_imported` applies to it. -/
example : ∃ y ∈ leveled.metrics, exGlob "m" y.id = true ∧ isExcluded y.common.annotations = false := by decide +kernel

/-- C184 is false of published schemas: an imported signal has no requirement level. -/
theorem imported_level_refuted : ∃ (le : Attr → Attr → Bool) (glob : String → String → Bool) (s : Schema2)
    (blocks : List Block) (out : Output) (y : Signal2) (o : RGroup Body) (g : Grp), TotalPre le ∧
    resolveRegistry le (envOf glob [.published s] []) false [] blocks = .ok out ∧ s.metrics = [y] ∧ y.level = some "required" ∧
    out.groups = [o] ∧ o.rest = .imported g ∧ g.metricName = some y.id ∧ (aboutGroup o.rest).reqLevel = none :=
  ⟨exLe, exGlob, leveled, [{ path := "f", metrics := ["m"] }], outOfNode overLeveled, _, _, _, exLe_totalPre, by rfl, rfl, rfl, rfl,
    rfl, rfl, rfl⟩

/-- Imports the metric of `mid`, next to a newer version of the registry that declares its attribute. -/
def upgraded : Node := mk (urlOf "upgraded" 1) false [] [{ path := "f", metrics := ["n"] }] [mid, base2] [mid, base, base2]

theorem upgraded_resolves : Resolves exLe exGlob upgraded :=
  mk_resolves (by simp [mid_resolves, base2_resolves]) (by simp [mid_resolves, base_resolves, base2_resolves]) rfl

theorem below_upgraded {P : Node → Prop} (h : P base) (h2 : P base2) (h' : P mid) (h'' : P upgraded) :
    ∀ m, Below m upgraded → P m := by
  intro m hm
  have b2 : Below m base2 → P m := by
    intro hm
    rcases below_mk hm with rfl | ⟨d, hd, _⟩
    · exact h2
    · cases hd
  rcases below_mk hm with rfl | ⟨d, hd, hb⟩
  · exact h''
  · simp only [List.cons_append, List.nil_append, List.mem_cons, List.not_mem_nil, or_false] at hd
    rcases hd with rfl | rfl | rfl | rfl | rfl
    · exact below_mid h h' m hb
    · exact b2 hb
    · exact below_mid h h' m hb
    · exact below_base h m hb
    · exact b2 hb

/-- A registry of files has only what its own groups say. -/
theorem has_own {n : Node} {x : Said} {A : List Attr} (h : Has n x A) (out : Output)
    (ho : outOfNode n = out) (hf : ∀ s, n ≠ .published s) :
    ∃ o ∈ out.groups, isOwn o.rest = true ∧ o.rest.id = x.id ∧ Reads out o.attrs A := by
  cases h with
  | own url inc specs blocks deps cache listed out' o u A hm hr hrd =>
    refine ⟨o, by rw [← ho]; exact hm, by rw [hr]; rfl, by rw [hr]; rfl, by rw [← ho]; exact hrd⟩
  | signal s t ys y _ _ => exact absurd rfl (hf s)

/-- C183 is false: next to a newer version of the registry that declares an attribute, what an imported signal says about
this attribute is lost: the metric `n` has a note on `x`, and is published without it. -/
theorem imported_of_chain_refuted : ∃ (le : Attr → Attr → Bool) (glob : String → String → Bool) (url : SchemaUrl)
    (blocks : List Block) (deps cache : List Node) (listed : List SchemaUrl) (out : Output) (o : RGroup Body), TotalPre le ∧
    Resolves le glob (.files url false [] blocks deps cache listed out) ∧ o ∈ out.groups ∧ isOwn o.rest = false ∧
    ∀ m A, Below m (.files url false [] blocks deps cache listed out) → Has m (saidBy url o.rest) A → ¬ Reads out o.attrs A := by
  have h0 : ∃ o ∈ (outOfNode upgraded).groups, isOwn o.rest = false ∧ (saidBy (urlOf "upgraded" 1) o.rest).id = "metric.n" ∧
      o.attrs ≠ [] ∧ ∀ x ∈ o.attrs.map (fun r => (outOfNode upgraded).attrs[r]?), x.map Attr.note = some "" := by decide +kernel
  obtain ⟨o, ho, hi, hid, hne, hnote⟩ := h0
  refine ⟨exLe, exGlob, urlOf "upgraded" 1, _, _, _, _, _, o, exLe_totalPre, upgraded_resolves, ho, hi, ?_⟩
  intro m A hb hh hr
  have hA : ∀ a ∈ A, a.note = "" := by
    intro a ha
    have := hnote (some a) (hr.mem_iff.2 (List.mem_map.2 ⟨a, ha, rfl⟩))
    injection this
  have hA0 : A ≠ [] := by
    rintro rfl
    apply hne
    have := hr.length_eq
    simpa using this
  refine below_upgraded (P := fun m => Has m (saidBy (urlOf "upgraded" 1) o.rest) A → False) ?_ ?_ ?_ ?_ m hb hh
  · intro hh
    obtain ⟨o', ho', _, h2, _⟩ := has_own hh _ rfl (by intro s h; cases h)
    rw [hid] at h2
    exact absurd h2 ((by decide +kernel : ∀ o' ∈ (outOfNode base).groups, o'.rest.id ≠ "metric.n") o' ho')
  · intro hh
    obtain ⟨o', ho', _, h2, _⟩ := has_own hh _ rfl (by intro s h; cases h)
    rw [hid] at h2
    exact absurd h2 ((by decide +kernel : ∀ o' ∈ (outOfNode base2).groups, o'.rest.id ≠ "metric.n") o' ho')
  · intro hh
    obtain ⟨o', ho', _, _, h3⟩ := has_own hh _ rfl (by intro s h; cases h)
    obtain ⟨a, ha⟩ := List.exists_mem_of_ne_nil A hA0
    have hm := h3.mem_iff.2 (List.mem_map.2 ⟨a, ha, rfl⟩)
    have := (by decide +kernel : ∀ o' ∈ (outOfNode mid).groups, ∀ x ∈ o'.attrs.map (fun r => (outOfNode mid).attrs[r]?),
      x.map Attr.note = some "for n") o' ho' _ hm
    injection this with this
    rw [hA a ha] at this
    exact absurd this (by decide)
  · intro hh
    obtain ⟨o', ho', h1, _, _⟩ := has_own hh _ rfl (by intro s h; cases h)
    exact absurd h1 ((by decide +kernel : ∀ o' ∈ (outOfNode upgraded).groups, isOwn o'.rest ≠ true) o' ho')

end Verif.Chain
